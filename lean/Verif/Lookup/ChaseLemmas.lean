import Verif.Lookup.ChainLemmas
/-
`chase_auth_ptr` finds the end of a name, and `dname_is_in_wire_zone` reads it.
-/
namespace Gdnsd.Lookup
open DnameSpec EncSpec Dname Enc Tree TreeSpec LookupSpec

/-! ### Lower-casing and lengths -/

theorem lowerName_wire (ls : List Bytes) : (wireLabels (lowerName ls)).length = (wireLabels ls).length := by
  induction ls with
  | nil => rfl
  | cons l r ih =>
    rw [show lowerName (l :: r) = l.map lower :: lowerName r from rfl]
    simp [wireLabels, ih]

theorem lowerName_wireLen (ls : List Bytes) : wireLen (lowerName ls) = wireLen ls := by
  have h1 := wireLabels_length ls
  have h2 := wireLabels_length (lowerName ls)
  have := lowerName_wire ls
  omega

theorem lowerName_length (ls : List Bytes) : (lowerName ls).length = ls.length := by simp [lowerName]

theorem WF_of_lower {ls : List Bytes} (h : WF (lowerName ls)) : WF ls := by
  refine ⟨fun l hl => ?_, by have := h.2; rw [lowerName_wireLen] at this; exact this⟩
  have := h.1 (l.map lower) (List.mem_map.mpr ⟨l, hl, rfl⟩)
  simpa using this

theorem lowerName_split {ls x c : List Bytes} (h : lowerName ls = x ++ c) :
    ∃ x' c', ls = x' ++ c' ∧ lowerName x' = x ∧ lowerName c' = c := by
  refine ⟨ls.take x.length, ls.drop x.length, (List.take_append_drop _ _).symm, ?_, ?_⟩
  · have : lowerName (ls.take x.length) = (lowerName ls).take x.length := by simp [lowerName, List.map_take]
    rw [this, h, List.take_left]
  · have : lowerName (ls.drop x.length) = (lowerName ls).drop x.length := by simp [lowerName, List.map_drop]
    rw [this, h, List.drop_left]

theorem lower_lower (c : UInt8) : lower (lower c) = lower c := by
  have : ∀ x : BitVec 8, lower (lower (UInt8.ofBitVec x)) = lower (UInt8.ofBitVec x) := by decide +kernel
  exact this c.toBitVec

theorem lowerName_idem (ls : List Bytes) : lowerName (lowerName ls) = lowerName ls := by
  induction ls with
  | nil => rfl
  | cons l r ih =>
    simp only [lowerName, List.map_cons, List.map_map, List.cons.injEq] at ih ⊢
    refine ⟨?_, ih⟩
    apply List.map_congr_left
    intro a _
    exact lower_lower a

/-! ### chase_auth_ptr -/

theorem rd_get {p : Bytes} {o : Nat} {b : UInt8} (h : p[o]? = some b) : rd p o = .ok b := by
  have := rd_of_get h []
  simpa using this

theorem chase_stop {p : Bytes} {f o : Nat} (h : StartsPlain p o) : chaseAuth p (f + 1) o 0 = .ok o := by
  obtain ⟨b, h1, h2⟩ := h
  rw [chaseAuth, rd_get h1, Outcome.bind_ok]
  simp [(and_c0_lt b).mpr h2]

theorem mask_ptr (hi lo : UInt8) (h : 192 ≤ hi.toNat) :
    (hi.toNat * 256 + lo.toNat) &&& 0x3FFF = (hi.toNat - 192) * 256 + lo.toNat := by
  have h1 := hi.toNat_lt
  have h2 := lo.toNat_lt
  rw [show (0x3FFF : Nat) = 2 ^ 14 - 1 from rfl, Nat.and_two_pow_sub_one_eq_mod]
  omega

theorem chase_ptr {p : Bytes} {f o d : Nat} {hi lo : UInt8} (h1 : p[o]? = some hi) (h2 : 192 ≤ hi.toNat)
    (h3 : p[o + 1]? = some lo) : chaseAuth p (f + 1) o d = chaseAuth p f ((hi.toNat - 192) * 256 + lo.toNat) d := by
  have hc : hi &&& 0xC0 ≠ 0 := by
    intro h; have := (and_c0_lt _).mp h; omega
  rw [chaseAuth, rd_get h1, Outcome.bind_ok, decide_eq_true hc, Bool.or_true, cond_true, cond_true, rd_get h3, Outcome.bind_ok,
    mask_ptr hi lo h2]

theorem chase_label {p : Bytes} {f o d : Nat} {l : Bytes} (h1 : 1 ≤ l.length) (h2 : l.length ≤ 63)
    (h3 : p[o]? = some (UInt8.ofNat l.length)) :
    chaseAuth p (f + 1) o (l.length + 1 + d) = chaseAuth p f (o + (l.length + 1)) d := by
  have ht : (UInt8.ofNat l.length).toNat = l.length := toNat_ofNat_lt (by omega)
  have hc : UInt8.ofNat l.length &&& 0xC0 = 0 := (and_c0_lt _).mpr (by omega)
  rw [chaseAuth, rd_get h3, Outcome.bind_ok, decide_eq_true (show l.length + 1 + d ≠ 0 by omega), Bool.true_or, cond_true, ht,
    decide_eq_true (show l.length + 1 ≤ l.length + 1 + d by omega), assert_true, Outcome.bind_ok,
    show l.length + 1 + d - (l.length + 1) = d by omega]
  simp [hc]

/-- The end of any name. -/
theorem chase_name {p : Bytes} {o : Nat} {ls : List Bytes} {e : Nat} (h : NameAt p o ls e) :
    ∀ (x c : List Bytes) (fuel : Nat), ls = x ++ c → o + 2 * (wireLabels x).length < fuel →
      ∃ ac e', chaseAuth p fuel o (wireLabels x).length = .ok ac ∧ NameAt p ac c e' ∧ ac ≤ o + (wireLabels x).length ∧
        (12 ≤ o → 12 ≤ ac) := by
  induction h with
  | root h =>
    intro x c fuel hx hf
    obtain ⟨rfl, rfl⟩ := List.append_eq_nil_iff.mp hx.symm
    obtain ⟨f, rfl⟩ : ∃ f, fuel = f + 1 := ⟨fuel - 1, by omega⟩
    exact ⟨_, _, chase_stop ⟨0, h, by decide⟩, .root h, by simp, id⟩
  | label h1 h2 h3 h4 h5 ih =>
    rename_i o l ls e
    intro x c fuel hx hf
    obtain ⟨f, rfl⟩ : ∃ f, fuel = f + 1 := ⟨fuel - 1, by omega⟩
    cases x with
    | nil =>
      rw [List.nil_append] at hx
      subst hx
      have ht : (UInt8.ofNat l.length).toNat = l.length := toNat_ofNat_lt (by omega)
      exact ⟨_, _, chase_stop ⟨_, h3, by omega⟩, .label h1 h2 h3 h4 h5, by simp, id⟩
    | cons l' x =>
      rw [List.cons_append, List.cons.injEq] at hx
      obtain ⟨rfl, rfl⟩ := hx
      have hw : (wireLabels (l :: x)).length = l.length + 1 + (wireLabels x).length := by simp [wireLabels]; omega
      obtain ⟨ac, e', g1, g2, g3, g4⟩ := ih x c f rfl (by omega)
      rw [hw, chase_label h1 h2 h3]
      rw [show o + (l.length + 1) = o + 1 + l.length by omega]
      exact ⟨ac, e', g1, g2, by omega, by omega⟩
  | ptr h1 h2 h3 h4 h5 h5' h6 ih =>
    rename_i o hi lo ls e t
    intro x c fuel hx hf
    obtain ⟨f, rfl⟩ : ∃ f, fuel = f + 1 := ⟨fuel - 1, by omega⟩
    obtain ⟨ac, e', g1, g2, g3, g4⟩ := ih x c f hx (by omega)
    rw [chase_ptr h1 h2 h3, ← h4]
    exact ⟨ac, e', g1, g2, by omega, by omega⟩

/-! ### Names without pointers -/

/-- The labels of a name in full. -/
def PlainAt (p : Bytes) (o : Nat) (ls : List Bytes) : Prop := wireLabels ls ++ [0] <+: p.drop o

theorem PlainAt_append {p : Bytes} (q : Bytes) {o : Nat} {ls : List Bytes} (h : PlainAt p o ls) : PlainAt (p ++ q) o ls :=
  prefix_drop_append h

theorem PlainAt_split {p : Bytes} {o : Nat} {ls : List Bytes} (h : PlainAt p o ls) :
    ∃ a q, a.length = o ∧ p = a ++ (wireLabels ls ++ [0]) ++ q := by
  obtain ⟨q, hq⟩ := h
  have ho : o ≤ p.length := by
    apply Decidable.byContradiction
    intro hn
    rw [List.drop_eq_nil_of_le (by omega)] at hq
    simp at hq
  refine ⟨p.take o, q, by simp; omega, ?_⟩
  rw [List.append_assoc, hq, List.take_append_drop]

theorem PlainAt_intro (a : Bytes) (ls : List Bytes) (q : Bytes) : PlainAt (a ++ (wireLabels ls ++ [0]) ++ q) a.length ls := by
  unfold PlainAt
  rw [List.append_assoc, List.drop_left]
  exact List.prefix_append _ _

theorem PlainAt_suffix {p : Bytes} {o : Nat} {x c : List Bytes} (h : PlainAt p o (x ++ c)) :
    PlainAt p (o + (wireLabels x).length) c := by
  obtain ⟨a, q, h1, rfl⟩ := PlainAt_split h
  have := PlainAt_intro (a ++ wireLabels x) c q
  rw [List.length_append, h1] at this
  rw [wireLabels_append]
  simpa using this

theorem PlainAt_names {p : Bytes} {o : Nat} {ls : List Bytes} (hw : WF ls) (h : PlainAt p o ls) :
    NameAt p o ls (o + wireLen ls) := by
  obtain ⟨a, q, h1, rfl⟩ := PlainAt_split h
  rw [← h1]
  exact NameAt_plain ls hw.1

theorem NameAt_starts {p : Bytes} {o : Nat} {ls : List Bytes} (hw : WF ls) (h : PlainAt p o ls) : StartsPlain p o := by
  obtain ⟨a, q, h1, rfl⟩ := PlainAt_split h
  subst h1
  cases ls with
  | nil => exact ⟨0, by simp [wireLabels], by decide⟩
  | cons l r =>
    have hl := hw.1 l (by simp)
    have ht : (UInt8.ofNat l.length).toNat = l.length := toNat_ofNat_lt (by omega)
    exact ⟨UInt8.ofNat l.length, by simp [wireLabels], by omega⟩

theorem chase_labels {p : Bytes} : ∀ (x : List Bytes) (o d f : Nat), (∀ l ∈ x, 1 ≤ l.length ∧ l.length ≤ 63) →
    wireLabels x <+: p.drop o →
    chaseAuth p (x.length + f) o ((wireLabels x).length + d) = chaseAuth p f (o + (wireLabels x).length) d := by
  intro x
  induction x with
  | nil => intro o d f _ _; simp [wireLabels]
  | cons l x ih =>
    intro o d f hl hp
    obtain ⟨q, hq⟩ := hp
    have hll := hl l (by simp)
    have hd : p.drop o = UInt8.ofNat l.length :: (l ++ (wireLabels x ++ q)) := by
      rw [← hq]; simp [wireLabels]
    have h0 : p[o]? = some (UInt8.ofNat l.length) := by
      have := List.getElem?_drop (xs := p) (i := o) (j := 0)
      rw [hd] at this
      simpa using this.symm
    have hd2 : p.drop (o + (l.length + 1)) = wireLabels x ++ q := by
      rw [← List.drop_drop, hd, List.drop_succ_cons, List.drop_left]
    have hw : (wireLabels (l :: x)).length = l.length + 1 + (wireLabels x).length := by simp [wireLabels]; omega
    rw [hw, show (l :: x).length + f = (x.length + f) + 1 by simp; omega, Nat.add_assoc (l.length + 1), chase_label hll.1 hll.2 h0,
      ih _ _ _ (fun y hy => hl y (by simp [hy])) (by rw [hd2]; exact List.prefix_append _ _), Nat.add_assoc]

theorem labels_le (x : List Bytes) : x.length ≤ (wireLabels x).length := by
  induction x with
  | nil => simp
  | cons l r ih => simp [wireLabels]; omega

/-- The zone's part of a name as the chain stores it is found in full. -/
theorem chase_stored {a rest hdr qq : Bytes} {ql qraw ls x c : List Bytes} {bs : Bytes} (hb : ChainBytes ql ls bs)
    (hq : WF ql) (hw : WF ls) (hlow : lowerName qraw = ql) (hh : hdr.length = 12)
    (hpk : a ++ bs ++ rest = hdr ++ (wireLabels qraw ++ [0]) ++ qq)
    (hls : ls = x ++ c) (hc : c <:+ ql) {fuel : Nat} (hf : x.length + 2 ≤ fuel) :
    ∃ ac cr, chaseAuth (a ++ bs ++ rest) fuel a.length (wireLabels x).length = .ok ac ∧ PlainAt (a ++ bs ++ rest) ac cr ∧
      (cr = c ∨ cr <:+ qraw ∧ lowerName cr = c) := by
  rcases hb with rfl | ⟨pre, s, b, h1, h2, h3, h4, rfl⟩
  · have hp : PlainAt (a ++ (wireLabels ls ++ [0]) ++ rest) a.length (x ++ c) := by rw [← hls]; exact PlainAt_intro a ls rest
    have hwx : WF c := WF_suffix hw ⟨x, hls.symm⟩
    have hpx : wireLabels x <+: (a ++ (wireLabels ls ++ [0]) ++ rest).drop a.length := by
      rw [List.append_assoc, List.drop_left, hls, wireLabels_append]
      exact ⟨wireLabels c ++ [0] ++ rest, by simp⟩
    have hcl := chase_labels x a.length 0 (fuel - x.length) (fun l hl => hw.1 l (by rw [hls]; simp [hl])) hpx
    rw [Nat.add_zero, show x.length + (fuel - x.length) = (fuel - x.length - 1 + 1) + x.length by omega] at hcl
    rw [show fuel = (fuel - x.length - 1 + 1) + x.length by omega, hcl, show fuel - x.length = fuel - x.length - 1 + 1 by omega,
      chase_stop (NameAt_starts hwx (PlainAt_suffix hp))]
    exact ⟨_, c, rfl, PlainAt_suffix hp, .inl rfl⟩
  · have hcs : c <:+ s := h4 c ⟨x, hls.symm⟩ hc
    obtain ⟨y, hy⟩ := hcs
    have hx : x = pre ++ y := by
      rw [hls, ← hy, ← List.append_assoc] at h1
      exact List.append_cancel_right h1
    subst hx
    have hbl : (wireLabels b).length + 1 ≤ wireLen ql := by
      have := wireLabels_length b
      have := wireLen_append b s
      have := wireLen_pos s
      rw [h2]; omega
    have ht : 12 + (wireLabels b).length < 16384 := by have := hq.2; omega
    obtain ⟨hi, lo, p1, p2, p3⟩ := put16_ptr _ ht
    rw [p1] at hpk ⊢
    generalize hP : a ++ (wireLabels pre ++ [hi, lo]) ++ rest = P at hpk ⊢
    have hpx : wireLabels pre <+: P.drop a.length := by
      rw [← hP, List.append_assoc, List.drop_left]
      exact ⟨[hi, lo] ++ rest, by simp⟩
    have hcl := chase_labels pre a.length (wireLabels y).length (fuel - pre.length)
      (fun l hl => hw.1 l (by rw [h1]; simp [hl])) hpx
    have e1 : P[a.length + (wireLabels pre).length]? = some hi := by
      rw [← hP]
      have : a ++ (wireLabels pre ++ [hi, lo]) ++ rest = (a ++ wireLabels pre) ++ (hi :: lo :: rest) := by simp
      rw [this, ← List.length_append, List.getElem?_append_right (Nat.le_refl _)]; simp
    have e2 : P[a.length + (wireLabels pre).length + 1]? = some lo := by
      rw [← hP]
      have : a ++ (wireLabels pre ++ [hi, lo]) ++ rest = (a ++ wireLabels pre) ++ (hi :: lo :: rest) := by simp
      rw [this, ← List.length_append, List.getElem?_append_right (by omega)]
      simp
    obtain ⟨b', s', q1, q2, q3⟩ := lowerName_split (hlow.trans h2)
    obtain ⟨y', c', q4, q5, q6⟩ := lowerName_split (q3.trans hy.symm)
    have hqw : WF qraw := WF_of_lower (by rw [hlow]; exact hq)
    have hbl' : (wireLabels b).length = (wireLabels b').length := by rw [← q2]; exact lowerName_wire b'
    have hyl' : (wireLabels y).length = (wireLabels y').length := by rw [← q5]; exact lowerName_wire y'
    have hyn : y.length = y'.length := by rw [← q5]; exact lowerName_length y'
    have hpl : PlainAt P 12 qraw := by rw [hpk, ← hh]; exact PlainAt_intro hdr qraw qq
    have hpl2 : PlainAt P (12 + (wireLabels b').length) (y' ++ c') := by
      rw [← q4]; rw [q1] at hpl; exact PlainAt_suffix hpl
    have hpl3 := PlainAt_suffix hpl2
    have hsuf : c' <:+ qraw := ⟨b' ++ y', by rw [q1, q4]; simp⟩
    have hwc : WF c' := WF_suffix hqw hsuf
    have hpy : wireLabels y' <+: P.drop (12 + (wireLabels b').length) := by
      obtain ⟨t, ht⟩ := hpl2
      rw [← ht, wireLabels_append]
      exact ⟨wireLabels c' ++ [0] ++ t, by simp⟩
    have hfl : pre.length + y.length + 2 ≤ fuel := by simpa using hf
    have hcl2 := chase_labels y' (12 + (wireLabels b').length) 0 (fuel - pre.length - 1 - y'.length)
      (fun l hl => hqw.1 l (by rw [q1, q4]; simp [hl])) hpy
    rw [Nat.add_zero] at hcl2
    have hfe : fuel = pre.length + (fuel - pre.length) := by omega
    have hgoal : chaseAuth P fuel a.length (wireLabels (pre ++ y)).length = .ok (12 + (wireLabels b').length + (wireLabels y').length) := by
      rw [wireLabels_append, List.length_append, hfe, hcl]
      rw [show fuel - pre.length = (fuel - pre.length - 1) + 1 by omega, chase_ptr e1 p2 e2, ← p3, hyl', hbl']
      rw [show fuel - pre.length - 1 = y'.length + (fuel - pre.length - 1 - y'.length) by omega, hcl2,
        show fuel - pre.length - 1 - y'.length = (fuel - pre.length - 1 - y'.length - 1) + 1 by omega]
      exact chase_stop (NameAt_starts hwc hpl3)
    exact ⟨_, c', hgoal, hpl3, .inr ⟨hsuf, q6⟩⟩

/-! ### dname_is_in_wire_zone -/

theorem wireZoneLen_eq {p : Bytes} : ∀ (ls : List Bytes) (o n fuel : Nat), (∀ l ∈ ls, 1 ≤ l.length ∧ l.length ≤ 63) →
    PlainAt p (o + n) ls → ls.length < fuel → wireZoneLen p o fuel n = .ok (n + (wireLabels ls).length) := by
  intro ls
  induction ls with
  | nil =>
    intro o n fuel _ hp hf
    obtain ⟨f, rfl⟩ : ∃ f, fuel = f + 1 := ⟨fuel - 1, by simp at hf; omega⟩
    obtain ⟨a, q, h1, rfl⟩ := PlainAt_split hp
    have h0 : (a ++ (wireLabels [] ++ [0]) ++ q)[o + n]? = some 0 := by rw [← h1]; simp [wireLabels]
    rw [wireZoneLen, rd_get h0, Outcome.bind_ok]; simp [wireLabels]
  | cons l ls ih =>
    intro o n fuel hl hp hf
    obtain ⟨f, rfl⟩ : ∃ f, fuel = f + 1 := ⟨fuel - 1, by simp at hf; omega⟩
    have hll := hl l (by simp)
    have hp2 := PlainAt_suffix (x := [l]) (c := ls) (by simpa using hp)
    have hw : (wireLabels (l :: ls)).length = l.length + 1 + (wireLabels ls).length := by simp [wireLabels]; omega
    have ht : (UInt8.ofNat l.length + 1).toNat = l.length + 1 := by
      rw [UInt8.toNat_add, toNat_ofNat_lt (by omega)]
      show (l.length + 1) % 256 = _
      omega
    have hne : ¬ UInt8.ofNat l.length = 0 := by
      intro e
      have : (UInt8.ofNat l.length).toNat = l.length := toNat_ofNat_lt (by omega)
      rw [e] at this
      have : (0 : UInt8).toNat = 0 := rfl
      omega
    have h0 : p[o + n]? = some (UInt8.ofNat l.length) := by
      obtain ⟨a, q, h1, rfl⟩ := PlainAt_split hp
      rw [← h1]; simp [wireLabels]
    rw [wireZoneLen, rd_get h0, Outcome.bind_ok, decide_eq_false hne, cond_false, ht,
      ih o (n + (l.length + 1)) f (fun y hy => hl y (by simp [hy])) ?_ (by simp at hf; omega)]
    · congr 1; omega
    · have e : (wireLabels [l]).length = l.length + 1 := by simp [wireLabels]
      rw [e] at hp2
      rw [← Nat.add_assoc]; exact hp2

theorem inWireZone_eq {p : Bytes} {o : Nat} {z d : List Bytes} (hz : WF z) (hd : WF d) (hp : PlainAt p o z) :
    inWireZone p o (encode d true) = .ok (decide (z <:+ d)) := by
  have hlen := count_le_wireLen z hz.1
  have hz2 := hz.2
  rw [inWireZone, wireZoneLen_eq z o 0 256 hz.1 hp (by omega), Outcome.bind_ok]
  have hwl := wireLabels_length z
  obtain ⟨a, q, h1, rfl⟩ := PlainAt_split hp
  have : (decide (0 + (wireLabels z).length + 1 ≤ 255) && decide (o + (0 + (wireLabels z).length) + 1 ≤
      (a ++ (wireLabels z ++ [0]) ++ q).length)) = true := by
    simp only [Bool.and_eq_true, decide_eq_true_eq, List.length_append, List.length_cons, List.length_nil]
    omega
  rw [this, assert_true, Outcome.bind_ok, ← h1, List.append_assoc, List.drop_left, Nat.zero_add,
    show (wireLabels z).length + 1 = (wireLabels z ++ [0]).length by simp, List.take_left]
  have he : UInt8.ofNat (wireLabels z ++ [0]).length :: (wireLabels z ++ [0]) = encode z true := by
    simp [encode, hwl]
  rw [he]
  have := isInZone_eq z d hz hd [] []
  simpa using this

end Gdnsd.Lookup
