import Verif.Enc.CompLemmas
/-
`store_dname_comp` writes bytes that read back as the stored name.
-/
namespace Gdnsd.Enc
open DnameSpec EncSpec Dname

/-- What a compression target must satisfy in a packet. -/
def Good (p : Bytes) (t : CT) : Prop :=
  ∃ ls e, ls ≠ [] ∧ WF ls ∧ t.orig = wireLabels ls ++ [0] ∧ t.len = wireLen ls ∧ (12 ≤ t.off ∧ t.off < 16384) ∧
    StartsPlain p t.off ∧ ReadsAs p t.off ls e

theorem StartsPlain_append {p : Bytes} (q : Bytes) {o : Nat} (h : StartsPlain p o) : StartsPlain (p ++ q) o := by
  obtain ⟨b, h1, h2⟩ := h
  exact ⟨b, getElem?_append_some h1, h2⟩

theorem ReadsAs_append {p : Bytes} (q : Bytes) {o : Nat} {ls : List Bytes} {e : Nat} (h : ReadsAs p o ls e) :
    ReadsAs (p ++ q) o ls e := by
  obtain ⟨l, h1, h2⟩ := h
  exact ⟨l, NameAt_append q h1, h2⟩

theorem Good_append {p : Bytes} (q : Bytes) {t : CT} (h : Good p t) : Good (p ++ q) t := by
  obtain ⟨ls, e, h1, h2, h3, h4, h5, h6, h7⟩ := h
  exact ⟨ls, e, h1, h2, h3, h4, h5, StartsPlain_append q h6, ReadsAs_append q h7⟩

theorem Good_len {p : Bytes} {t : CT} (h : Good p t) : 3 ≤ t.len := by
  obtain ⟨ls, e, h1, h2, h3, h4, _⟩ := h
  cases ls with
  | nil => exact absurd rfl h1
  | cons l ls =>
    have := h2.1 l (by simp)
    have := wireLen_pos ls
    rw [h4, wireLen_cons]; omega

/-- A target made from a suffix of the name being stored at `offset`, not deeper than `k`
labels. -/
def NewAt (ls : List Bytes) (offset k : Nat) (t : CT) : Prop :=
  ∃ a b, ls = a ++ b ∧ b ≠ [] ∧ a.length < k ∧
    t = CT.mk (wireLabels b ++ [0]) (wireLen b) (offset + (wireLabels a).length)

theorem NewAt_mono {ls : List Bytes} {o k k' : Nat} {t : CT} (hk : k ≤ k') (h : NewAt ls o k t) : NewAt ls o k' t := by
  obtain ⟨a, b, h1, h2, h3, h4⟩ := h
  exact ⟨a, b, h1, h2, by omega, h4⟩

theorem encode_drop (pre cur : List Bytes) :
    (encode (pre ++ cur) true).drop (1 + (wireLabels pre).length) = wireLabels cur ++ [0] := by
  have : encode (pre ++ cur) true =
      (UInt8.ofNat (wireLen (pre ++ cur)) :: wireLabels pre) ++ (wireLabels cur ++ [0]) := by
    simp [encode, wireLabels_append]
  rw [this, show 1 + (wireLabels pre).length = (UInt8.ofNat (wireLen (pre ++ cur)) :: wireLabels pre).length by
    simp; omega, List.drop_left]

theorem jumpAt_encode (pre cur : List Bytes) (l : Bytes) (h : l.length ≤ 63) :
    jumpAt (encode (pre ++ l :: cur) true) (1 + (wireLabels pre).length) = .ok (l.length + 1) := by
  have : encode (pre ++ l :: cur) true = (UInt8.ofNat (wireLen (pre ++ l :: cur)) :: wireLabels pre) ++
      (UInt8.ofNat l.length :: (l ++ wireLabels cur ++ [0])) := by
    simp [encode, wireLabels_append, wireLabels]
  rw [jumpAt, this, rd_at _ _ _ _ (by simp; omega), Outcome.bind_ok, toNat_ofNat_lt (by omega)]

theorem snoc_pre (pre cur : List Bytes) (l : Bytes) :
    (pre ++ [l]) ++ cur = pre ++ l :: cur ∧
    (wireLabels (pre ++ [l])).length = (wireLabels pre).length + (l.length + 1) := by
  constructor
  · simp
  · rw [wireLabels_append]; simp [wireLabels]

theorem search_spec (p : Bytes) (ls : List Bytes) (hw : WF ls) (offset : Nat) (mk : Bool) :
    ∀ (fuel : Nat) (done rest : List CT) (pre cur : List Bytes), ls = pre ++ cur →
      wireLen cur + rest.length < fuel → (∀ t ∈ rest, Good p t) →
      (∀ t ∈ done, Good p t ∨ NewAt ls offset pre.length t) → done.length + rest.length ≤ COMPMAX →
      ∃ r ts' pre' cur',
        search (encode ls true) (wireLen ls) mk fuel done rest (1 + (wireLabels pre).length) (wireLen cur)
          (offset + (wireLabels pre).length) = .ok (r, ts') ∧
        ts'.length ≤ COMPMAX ∧ ls = pre' ++ cur' ∧
        (∀ t ∈ ts', Good p t ∨ NewAt ls offset pre'.length t) ∧
        ((∃ t, Good p t ∧ t.orig = wireLabels cur' ++ [0] ∧ r = .hit (wireLabels pre').length t.off) ∨
         r = .miss (1 + (wireLabels pre').length) (wireLen cur') (offset + (wireLabels pre').length)) := by
  intro fuel
  induction fuel with
  | zero => intro done rest pre cur _ h; omega
  | succ fuel ih =>
    intro done rest pre cur hls hf hrest hdone hcnt
    cases rest with
    | nil =>
      exact ⟨_, _, pre, cur, rfl, by simpa using hcnt, hls, hdone, Or.inr rfl⟩
    | cons t rest =>
      have hg := hrest t (by simp)
      have hg3 := Good_len hg
      simp only [List.length_cons] at hf hcnt
      rw [search]
      by_cases hlt : t.len < wireLen cur
      · rw [if_pos hlt]
        cases cur with
        | nil => simp [wireLen] at hlt; omega
        | cons l cur =>
          have hl : 1 ≤ l.length ∧ l.length ≤ 63 := hw.1 l (by rw [hls]; simp)
          have hj := jumpAt_encode pre cur l hl.2
          rw [← hls] at hj
          obtain ⟨hs1, hs2⟩ := snoc_pre pre cur l
          have hwc := wireLen_cons l cur
          have hnew : NewAt ls offset (pre ++ [l]).length
              (CT.mk ((encode ls true).drop (1 + (wireLabels pre).length)) (wireLen (l :: cur))
                (offset + (wireLabels pre).length)) := by
            refine ⟨pre, l :: cur, hls, by simp, by simp, ?_⟩
            rw [hls, encode_drop]
          have e1 : 1 + (wireLabels pre).length + (l.length + 1) = 1 + (wireLabels (pre ++ [l])).length := by
            omega
          have e2 : wireLen (l :: cur) - (l.length + 1) = wireLen cur := by omega
          have e3 : offset + (wireLabels pre).length + (l.length + 1) =
              offset + (wireLabels (pre ++ [l])).length := by omega
          have hmono : ∀ t ∈ done, Good p t ∨ NewAt ls offset (pre ++ [l]).length t := fun t ht =>
            (hdone t ht).imp id (NewAt_mono (by simp))
          split
          · rename_i hc
            simp only [Bool.and_eq_true, decide_eq_true_eq] at hc
            rw [show decide (wireLen (l :: cur) > 2) = true by simp; omega, assert_true, Outcome.bind_ok, hj,
              Outcome.bind_ok, e1, e2, e3]
            apply ih _ _ _ _ (by rw [hs1]; exact hls) (by simp; omega) hrest
            · intro t' ht'
              rcases List.mem_append.mp ht' with h | h
              · exact hmono t' h
              · rw [List.mem_singleton] at h; subst h; exact Or.inr hnew
            · simp; omega
          · rw [hj, Outcome.bind_ok, e1, e2, e3]
            exact ih _ _ _ _ (by rw [hs1]; exact hls) (by simp; omega) hrest hmono (by simpa using hcnt)
      · rw [if_neg hlt]
        have hnext : ∀ t' ∈ done ++ [t], Good p t' ∨ NewAt ls offset pre.length t' := by
          intro t' ht'
          rcases List.mem_append.mp ht' with h | h
          · exact hdone t' h
          · rw [List.mem_singleton] at h; subst h; exact Or.inl hg
        by_cases heq : t.len = wireLen cur
        · rw [if_pos heq]
          obtain ⟨lt, et, g1, g2, g3, g4, g5, g6, g7⟩ := hg
          have hd : (encode ls true).drop (1 + (wireLabels pre).length) = wireLabels cur ++ [0] := by
            rw [hls, encode_drop]
          have hL1 : (wireLabels cur ++ [0]).length = wireLen cur := by
            have := wireLabels_length cur; simp; omega
          have hL2 : (wireLabels lt ++ [0]).length = wireLen cur := by
            have := wireLabels_length lt; simp; omega
          rw [hd, memeq, g3, hL1, hL2]
          simp only [Nat.le_refl, decide_true, Bool.and_self, if_true, Outcome.bind_ok]
          rw [List.take_of_length_le (by omega), List.take_of_length_le (by omega)]
          split
          · rename_i hm
            have hm : wireLabels cur ++ [0] = wireLabels lt ++ [0] := by simpa using hm
            refine ⟨_, _, pre, cur, rfl, by simp; omega, hls, ?_, Or.inl ⟨t, ⟨lt, et, g1, g2, g3, g4, g5, g6, g7⟩, ?_, ?_⟩⟩
            · intro t' ht'
              rcases List.mem_append.mp ht' with h | h
              · exact hdone t' h
              · exact Or.inl (hrest t' h)
            · rw [hm, g3]
            · have h1 := wireLabels_length pre
              have h2 := wireLen_append pre cur
              rw [← hls] at h2
              congr 1
              omega
          · exact ih _ _ _ _ hls (by omega) (fun t' h => hrest t' (by simp [h])) hnext (by simp; omega)
        · rw [if_neg heq]
          exact ih _ _ _ _ hls (by omega) (fun t' h => hrest t' (by simp [h])) hnext (by simp; omega)

theorem addTargets_spec (ls : List Bytes) (hw : WF ls) (offset : Nat) (P : CT → Prop)
    (hP : ∀ t, NewAt ls offset ls.length t → P t) :
    ∀ (fuel : Nat) (ts : List CT) (pre cur : List Bytes), ls = pre ++ cur → cur.length ≤ fuel →
      (∀ t ∈ ts, P t) → ts.length ≤ COMPMAX →
      ∃ ts', addTargets (encode ls true) fuel ts (1 + (wireLabels pre).length) (wireLen cur)
          (offset + (wireLabels pre).length) = .ok ts' ∧ (∀ t ∈ ts', P t) ∧ ts'.length ≤ COMPMAX := by
  intro fuel
  induction fuel with
  | zero =>
    intro ts pre cur hls hf hts hc
    have : cur = [] := List.eq_nil_of_length_eq_zero (by omega)
    subst this
    exact ⟨ts, by simp [addTargets, wireLen], hts, hc⟩
  | succ fuel ih =>
    intro ts pre cur hls hf hts hc
    rw [addTargets]
    split
    · rename_i hcond
      simp only [Bool.and_eq_true, decide_eq_true_eq] at hcond
      cases cur with
      | nil => simp [wireLen] at hcond
      | cons l cur =>
        have hl : 1 ≤ l.length ∧ l.length ≤ 63 := hw.1 l (by rw [hls]; simp)
        have hj := jumpAt_encode pre cur l hl.2
        rw [← hls] at hj
        obtain ⟨hs1, hs2⟩ := snoc_pre pre cur l
        have hwc := wireLen_cons l cur
        have e1 : 1 + (wireLabels pre).length + (l.length + 1) = 1 + (wireLabels (pre ++ [l])).length := by
          omega
        have e2 : wireLen (l :: cur) - (l.length + 1) = wireLen cur := by omega
        have e3 : offset + (wireLabels pre).length + (l.length + 1) =
            offset + (wireLabels (pre ++ [l])).length := by omega
        rw [hj, Outcome.bind_ok, e1, e2, e3]
        apply ih _ _ _ (by rw [hs1]; exact hls) (by simp at hf; omega)
        · intro t ht
          rcases List.mem_append.mp ht with h | h
          · exact hts t h
          · rw [List.mem_singleton] at h
            subst h
            apply hP
            refine ⟨pre, l :: cur, hls, by simp, by rw [hls]; simp, ?_⟩
            rw [hls, encode_drop]
        · simp; omega
    · exact ⟨ts, rfl, hts, hc⟩

theorem encode_take (ls : List Bytes) (n : Nat) (pre cur : List Bytes) (h : ls = pre ++ cur)
    (hn : n = (wireLabels pre).length) : ((encode ls true).drop 1).take n = wireLabels pre := by
  subst h; subst hn
  have : (encode (pre ++ cur) true).drop 1 = wireLabels pre ++ (wireLabels cur ++ [0]) := by
    simp [encode, wireLabels_append]
  rw [this, List.take_left]

theorem encode_take_all (ls : List Bytes) : ((encode ls true).drop 1).take (wireLen ls) = wireLabels ls ++ [0] := by
  have : (encode ls true).drop 1 = wireLabels ls ++ [0] := by simp [encode]
  have h := wireLabels_length ls
  rw [this, List.take_of_length_le (by simp; omega)]

theorem lowerName_append (a b : List Bytes) : lowerName (a ++ b) = lowerName a ++ lowerName b := by
  simp [lowerName]

theorem wireTerm_inj {a b : List Bytes} (ha : WF a) (hb : WF b)
    (h : wireLabels a ++ [0] = wireLabels b ++ [0]) : a = b := by
  have hla := wireLabels_length a
  have hlb := wireLabels_length b
  have hlen := congrArg List.length h
  simp at hlen
  apply (encode_inj (p := true) (q := true) ha hb ?_).1
  rw [encode, encode, show wireLen a = wireLen b by omega]
  simpa using h

/-- What the query name contributes: its suffixes are valid targets. -/
theorem addQname_spec (p : Bytes) (raws ls : List Bytes) (hw : WF ls) (hraw : lowerName raws = ls)
    (q : Bytes) (hp : ∃ hdr : Bytes, hdr.length = 12 ∧ p = hdr ++ (wireLabels raws ++ [0]) ++ q) :
    ∃ ts, addQname (encode ls true) = .ok ts ∧ (∀ t ∈ ts, Good p t) ∧ ts.length ≤ COMPMAX := by
  obtain ⟨hdr, hh, hp⟩ := hp
  have hlow : ∀ (x : List Bytes), lowerName (lowerName x) = lowerName x := by
    intro x
    have hb : ∀ c : UInt8, lower (lower c) = lower c := by
      intro c
      have : ∀ x : BitVec 8, lower (lower (UInt8.ofBitVec x)) = lower (UInt8.ofBitVec x) := by decide +kernel
      exact this c.toBitVec
    simp [lowerName, hb]
  have hlen : ∀ x : List Bytes, (wireLabels (lowerName x)).length = (wireLabels x).length := by
    intro x
    induction x with
    | nil => rfl
    | cons l x ih =>
      have e : lowerName (l :: x) = l.map lower :: lowerName x := rfl
      rw [e, wireLabels, wireLabels]
      simp only [List.length_append, List.length_cons, List.length_map, ih]
  have hrd : rd (encode ls true) 0 = .ok (UInt8.ofNat (wireLen ls)) := by
    simp [encode, rd]
  have hwl : (UInt8.ofNat (wireLen ls)).toNat = wireLen ls := toNat_ofNat_lt (by have := hw.2; omega)
  have := addTargets_spec ls hw 12 (Good p) ?_ 128 [] [] ls rfl ?_ (by simp) (by simp [COMPMAX])
  · obtain ⟨ts, h1, h2, h3⟩ := this
    refine ⟨ts, ?_, h2, h3⟩
    rw [addQname, hrd, Outcome.bind_ok, hwl]
    simpa [wireLabels] using h1
  · intro t ht
    obtain ⟨a, b, h1, h2, h3, h4⟩ := ht
    subst h4
    have hwb : WF b := WF_suffix hw ⟨a, h1.symm⟩
    -- split the raw labels alike
    obtain ⟨ra, rb, hr1, hr2, hr3⟩ : ∃ ra rb, raws = ra ++ rb ∧ lowerName ra = a ∧ lowerName rb = b := by
      have := List.map_eq_append_iff.mp (show raws.map (·.map lower) = a ++ b by rw [← h1]; exact hraw)
      obtain ⟨ra, rb, e1, e2, e3⟩ := this
      exact ⟨ra, rb, e1, e2, e3⟩
    have hla : (wireLabels ra).length = (wireLabels a).length := by rw [← hr2, hlen]
    have hlab : ∀ l ∈ rb, 1 ≤ l.length ∧ l.length ≤ 63 := by
      intro l hl
      have : l.map lower ∈ b := by rw [← hr3]; exact List.mem_map.mpr ⟨l, hl, rfl⟩
      have := hwb.1 _ this
      simpa using this
    have hpe : p = (hdr ++ wireLabels ra) ++ (wireLabels rb ++ [0]) ++ q := by
      rw [hp, hr1, wireLabels_append]; simp
    have hoff : 12 + (wireLabels a).length = (hdr ++ wireLabels ra).length := by
      rw [List.length_append, hh, hla]
    refine ⟨b, (hdr ++ wireLabels ra).length + wireLen rb, h2, hwb, rfl, rfl, ?_, ?_, ⟨rb, ?_, ?_⟩⟩
    · have h5 := hw.2
      have h6 := wireLabels_length ls
      have h7 := congrArg List.length (wireLabels_append a b)
      rw [← h1, List.length_append] at h7
      show 12 ≤ 12 + (wireLabels a).length ∧ 12 + (wireLabels a).length < 16384
      omega
    · show StartsPlain p (12 + (wireLabels a).length)
      cases rb with
      | nil => rw [← hr3] at h2; exact absurd rfl h2
      | cons l rb =>
        refine ⟨UInt8.ofNat l.length, ?_, ?_⟩
        · rw [hpe, hoff]
          simp [wireLabels]
        · have := hlab l (by simp)
          rw [toNat_ofNat_lt (by omega)]; omega
    · show NameAt p (12 + (wireLabels a).length) rb _
      rw [hoff, hpe]
      exact NameAt_plain rb hlab
    · rw [← hlow rb, hr3]
  · have h2 := wireLabels_length ls
    have h3 := hw.2
    have h4 : ∀ x : List Bytes, (∀ l ∈ x, 1 ≤ l.length ∧ l.length ≤ 63) → 2 * x.length ≤ (wireLabels x).length := by
      intro x
      induction x with
      | nil => intro _; simp
      | cons l x ih =>
        intro hx
        have a1 := hx l (by simp)
        have a2 := ih (fun l hl => hx l (by simp [hl]))
        simp [wireLabels]; omega
    have := h4 ls hw.1
    omega

/-- The main lemma: the bytes `store_dname_comp` produces read back as the name, at the
place they are put, and all compression targets stay valid. -/
theorem storeComp_spec (pkt mid : Bytes) (ql qraw : List Bytes) (hqw : WF ql) (hql : lowerName qraw = ql)
    (hq : ∃ hdr q : Bytes, hdr.length = 12 ∧ pkt = hdr ++ (wireLabels qraw ++ [0]) ++ q)
    (ts : List CT) (hts : ∀ t ∈ ts, Good pkt t) (hcnt : ts.length ≤ COMPMAX)
    (ls : List Bytes) (hw : WF ls) (mk : Bool) (hoff : (pkt ++ mid).length + wireLen ls ≤ 16384) :
    ∃ bs ts', storeComp pkt (encode ql true) ts (encode ls true) (pkt ++ mid).length mk = .ok (bs, ts') ∧
      (∀ t ∈ ts', Good (pkt ++ mid ++ bs) t) ∧ ts'.length ≤ COMPMAX ∧ bs.length ≤ wireLen ls ∧ bs ≠ [] ∧
      ReadsAs (pkt ++ mid ++ bs) (pkt ++ mid).length ls ((pkt ++ mid).length + bs.length) := by
  -- initial targets
  have hinit : ∃ ts0, (if ts.isEmpty then addQname (encode ql true) else .ok ts) = .ok ts0 ∧
      (∀ t ∈ ts0, Good pkt t) ∧ ts0.length ≤ COMPMAX := by
    cases ts with
    | nil =>
      obtain ⟨hdr, q, h1, h2⟩ := hq
      exact addQname_spec pkt qraw ql hqw hql q ⟨hdr, h1, h2⟩
    | cons t ts => exact ⟨t :: ts, rfl, hts, hcnt⟩
  obtain ⟨ts0, hi1, hi2, hi3⟩ := hinit
  have hwl : (UInt8.ofNat (wireLen ls)).toNat = wireLen ls := toNat_ofNat_lt (by have := hw.2; omega)
  have hrd : rd (encode ls true) 0 = .ok (UInt8.ofNat (wireLen ls)) := by
    simp [encode, rd]
  have helen := encode_length ls true
  have hwll := wireLabels_length ls
  have hO12 : 12 ≤ (pkt ++ mid).length := by
    obtain ⟨hdr, q, h1, h2⟩ := hq
    rw [h2]; simp; omega
  generalize hO : (pkt ++ mid).length = O at *
  obtain ⟨r, ts1, pre, cur, s1, s2, s3, s4, s5⟩ := search_spec pkt ls hw O mk (wireLen ls + ts0.length + 1)
    [] ts0 [] ls rfl (by omega) hi2 (by simp) (by simpa using hi3)
  have s1' : search (encode ls true) (wireLen ls) mk (wireLen ls + ts0.length + 1) [] ts0 1 (wireLen ls) O =
      .ok (r, ts1) := by simpa [wireLabels] using s1
  have hpos := wireLen_pos cur
  have hwa := wireLen_append pre cur
  have hwp := wireLabels_length pre
  rw [← s3] at hwa
  have hlab : ∀ l ∈ ls, 1 ≤ l.length ∧ l.length ≤ 63 := hw.1
  have hlabp : ∀ l ∈ pre, 1 ≤ l.length ∧ l.length ≤ 63 := fun l hl => hlab l (by rw [s3]; simp [hl])
  rcases s5 with ⟨t, hg, ho, hr⟩ | hr
  · -- a match
    obtain ⟨lt, et, g1, g2, g3, g4, g5, g6, g7⟩ := hg
    have hcur : lt = cur := by
      apply wireTerm_inj g2 (WF_suffix hw ⟨pre, s3.symm⟩)
      rw [← g3, ho]
    subst hcur
    obtain ⟨pb, hpb, hpb2⟩ := g6
    have htl : t.off < pkt.length := (List.getElem?_eq_some_iff.mp hpb).1
    refine ⟨wireLabels pre ++ put16 (0xC000 ||| t.off), ts1, ?_, ?_, s2, ?_, ?_, ?_⟩
    · rw [storeComp, hi1, Outcome.bind_ok, hrd, Outcome.bind_ok, hwl, s1', Outcome.bind_ok, hr]
      have hle : decide (1 + (wireLabels pre).length ≤ (encode ls true).length) = true := by
        simp; omega
      have hrdp : rd pkt t.off = .ok pb := by
        rw [rd_lt htl]; congr 1; exact (List.getElem?_eq_some_iff.mp hpb).2
      have hand : (pb &&& 0xC0 == 0) = true := by
        have : ∀ x : BitVec 8, x.toNat < 64 → x &&& 0xC0#8 = 0#8 := by decide +kernel
        have := this pb.toBitVec hpb2
        simp only [beq_iff_eq]
        apply UInt8.toBitVec_inj.mp
        simpa using this
      show (assert (decide (1 + (wireLabels pre).length ≤ (encode ls true).length))).bind _ = _
      rw [hle, assert_true, Outcome.bind_ok, hrdp, Outcome.bind_ok, hand, assert_true, Outcome.bind_ok,
        encode_take ls _ pre lt s3 rfl]
    · -- targets stay good
      have key : ∀ (c : List Bytes) (a : List Bytes), pre = a ++ c →
          ∃ ls', NameAt (pkt ++ mid ++ (wireLabels pre ++ put16 (0xC000 ||| t.off)))
            (O + (wireLabels a).length) ls' (O + (wireLabels pre).length + 2) ∧
            lowerName ls' = lowerName (c ++ lt) := by
        intro c a hca
        obtain ⟨lsx, hx1, hx2⟩ := g7
        refine ⟨c ++ lsx, ?_, ?_⟩
        · have hsplit : pkt ++ mid ++ (wireLabels pre ++ put16 (0xC000 ||| t.off)) =
              (pkt ++ mid ++ wireLabels a) ++ wireLabels c ++ put16 (0xC000 ||| t.off) := by
            rw [hca, wireLabels_append]; simp
          have hsplit2 : pkt ++ mid ++ (wireLabels pre ++ put16 (0xC000 ||| t.off)) =
              (pkt ++ mid ++ wireLabels pre) ++ put16 (0xC000 ||| t.off) ++ [] := by simp
          have hlen1 : (pkt ++ mid ++ wireLabels a).length = O + (wireLabels a).length := by
            rw [List.length_append, hO]
          have hlen2 : (pkt ++ mid ++ wireLabels a).length + (wireLabels c).length =
              O + (wireLabels pre).length := by
            rw [hlen1, hca, wireLabels_append, List.length_append]; omega
          rw [hsplit]
          apply NameAt_labels c _ _ _ hlen1.symm (fun l hl => hlabp l (by rw [hca]; simp [hl]))
          rw [hlen2, ← hsplit, hsplit2]
          have hlen3 : (pkt ++ mid ++ wireLabels pre).length = O + (wireLabels pre).length := by
            rw [List.length_append, hO]
          rw [← hlen3]
          apply NameAt_ptr (ls := lsx) g5 (by rw [List.append_assoc, List.length_append]; omega)
          have := NameAt_append (mid ++ wireLabels pre ++ put16 (0xC000 ||| t.off) ++ []) hx1
          simpa using this
        · rw [lowerName_append, lowerName_append, hx2]
      intro t' ht'
      rcases s4 t' ht' with h | h
      · rw [List.append_assoc]; exact Good_append _ h
      · obtain ⟨a, b, n1, n2, n3, n4⟩ := h
        have hab : ∃ c, pre = a ++ c ∧ b = c ++ lt ∧ c ≠ [] := by
          have heq : a ++ b = pre ++ lt := by rw [← n1, s3]
          rcases List.append_eq_append_iff.mp heq with ⟨c, c1, c2⟩ | ⟨c, c1, c2⟩
          · refine ⟨c, c1, c2, ?_⟩
            rintro rfl
            simp at c1; subst c1; omega
          · subst c1; simp at n3; omega
        obtain ⟨c, c1, c2, c3⟩ := hab
        obtain ⟨ls', k1, k2⟩ := key c a c1
        have hwb : WF b := WF_suffix hw ⟨a, n1.symm⟩
        subst n4
        refine ⟨b, _, n2, hwb, rfl, rfl, ?_, ?_, ⟨ls', k1, by rw [k2, c2]⟩⟩
        · show 12 ≤ O + (wireLabels a).length ∧ O + (wireLabels a).length < 16384
          have h7 := congrArg List.length (wireLabels_append a b)
          rw [← n1, List.length_append] at h7
          omega
        · show StartsPlain _ (O + (wireLabels a).length)
          cases c with
          | nil => exact absurd rfl c3
          | cons l c =>
            have hl := hlabp l (by rw [c1]; simp)
            refine ⟨UInt8.ofNat l.length, ?_, by rw [toNat_ofNat_lt (by omega)]; omega⟩
            have hsplit : pkt ++ mid ++ (wireLabels pre ++ put16 (0xC000 ||| t.off)) =
              (pkt ++ mid ++ wireLabels a) ++ (UInt8.ofNat l.length ::
                (l ++ wireLabels c ++ put16 (0xC000 ||| t.off))) := by
              rw [c1, wireLabels_append]; simp [wireLabels]
            have hlen1 : O + (wireLabels a).length = (pkt ++ mid ++ wireLabels a).length := by
              rw [List.length_append, hO]
            rw [hsplit, hlen1]; simp
    · have : 3 ≤ wireLen lt := by rw [← g4]; exact Good_len ⟨lt, et, g1, g2, g3, g4, g5, ⟨pb, hpb, hpb2⟩, g7⟩
      simp [put16]; omega
    · simp [put16]
    · obtain ⟨lsx, hx1, hx2⟩ := g7
      refine ⟨pre ++ lsx, ?_, by rw [s3, lowerName_append, lowerName_append, hx2]⟩
      have hsplit : pkt ++ mid ++ (wireLabels pre ++ put16 (0xC000 ||| t.off)) =
          (pkt ++ mid) ++ wireLabels pre ++ put16 (0xC000 ||| t.off) := by simp
      have hsplit2 : pkt ++ mid ++ (wireLabels pre ++ put16 (0xC000 ||| t.off)) =
          (pkt ++ mid ++ wireLabels pre) ++ put16 (0xC000 ||| t.off) ++ [] := by simp
      rw [hsplit]
      apply NameAt_labels pre _ _ _ hO.symm hlabp
      rw [hO, ← hsplit, hsplit2]
      have hlen3 : O + (wireLabels pre).length = (pkt ++ mid ++ wireLabels pre).length := by
        rw [List.length_append, hO]
      have hend : O + (wireLabels pre ++ put16 (0xC000 ||| t.off)).length =
          (pkt ++ mid ++ wireLabels pre).length + 2 := by
        rw [← hlen3]; simp [put16]; omega
      rw [hend, hlen3]
      apply NameAt_ptr (ls := lsx) g5 (by rw [List.append_assoc, List.length_append]; omega)
      have := NameAt_append (mid ++ wireLabels pre ++ put16 (0xC000 ||| t.off) ++ []) hx1
      simpa using this
  · -- no match: stored in full
    have hplain : ∀ a b, ls = a ++ b → NameAt (pkt ++ mid ++ (wireLabels ls ++ [0])) (O + (wireLabels a).length) b
        (O + wireLen ls) := by
      intro a b hab
      have hsplit : pkt ++ mid ++ (wireLabels ls ++ [0]) =
          (pkt ++ mid ++ wireLabels a) ++ (wireLabels b ++ [0]) ++ [] := by
        rw [hab, wireLabels_append]; simp
      have hlen1 : O + (wireLabels a).length = (pkt ++ mid ++ wireLabels a).length := by
        rw [List.length_append, hO]
      have h7 := congrArg List.length (wireLabels_append a b)
      rw [← hab, List.length_append] at h7
      have h8 := wireLabels_length b
      rw [hsplit, hlen1, show O + wireLen ls = (pkt ++ mid ++ wireLabels a).length + wireLen b by
        rw [← hlen1]; omega]
      exact NameAt_plain b (fun l hl => hlab l (by rw [hab]; simp [hl]))
    have hnew : ∀ t, NewAt ls O ls.length t → Good (pkt ++ mid ++ (wireLabels ls ++ [0])) t := by
      intro t ht
      obtain ⟨a, b, n1, n2, n3, n4⟩ := ht
      subst n4
      refine ⟨b, _, n2, WF_suffix hw ⟨a, n1.symm⟩, rfl, rfl, ?_, ?_, ⟨b, hplain a b n1, rfl⟩⟩
      · show 12 ≤ O + (wireLabels a).length ∧ O + (wireLabels a).length < 16384
        have h7 := congrArg List.length (wireLabels_append a b)
        rw [← n1, List.length_append] at h7
        omega
      · show StartsPlain _ (O + (wireLabels a).length)
        cases b with
        | nil => exact absurd rfl n2
        | cons l b =>
          have hl := hlab l (by rw [n1]; simp)
          refine ⟨UInt8.ofNat l.length, ?_, by rw [toNat_ofNat_lt (by omega)]; omega⟩
          have hsplit : pkt ++ mid ++ (wireLabels ls ++ [0]) =
            (pkt ++ mid ++ wireLabels a) ++ (UInt8.ofNat l.length :: (l ++ wireLabels b ++ [0])) := by
            rw [n1, wireLabels_append]; simp [wireLabels]
          have hlen1 : O + (wireLabels a).length = (pkt ++ mid ++ wireLabels a).length := by
            rw [List.length_append, hO]
          rw [hsplit, hlen1]; simp
    have hts1 : ∀ t ∈ ts1, Good (pkt ++ mid ++ (wireLabels ls ++ [0])) t := by
      intro t ht
      rcases s4 t ht with h | h
      · rw [List.append_assoc]; exact Good_append _ h
      · exact hnew t (NewAt_mono (by rw [s3]; simp) h)
    have htail : ∃ ts2, (if mk then addTargets (encode ls true) 128 ts1 (1 + (wireLabels pre).length) (wireLen cur)
        (O + (wireLabels pre).length) else .ok ts1) = .ok ts2 ∧
        (∀ t ∈ ts2, Good (pkt ++ mid ++ (wireLabels ls ++ [0])) t) ∧ ts2.length ≤ COMPMAX := by
      cases mk with
      | false => exact ⟨ts1, rfl, hts1, s2⟩
      | true =>
        refine addTargets_spec ls hw O _ hnew 128 ts1 pre cur s3 ?_ hts1 s2
        have h2 := wireLabels_length cur
        have h3 := hw.2
        have h4 : ∀ x : List Bytes, (∀ l ∈ x, 1 ≤ l.length ∧ l.length ≤ 63) → 2 * x.length ≤ (wireLabels x).length := by
          intro x
          induction x with
          | nil => intro _; simp
          | cons l x ih =>
            intro hx
            have a1 := hx l (by simp)
            have a2 := ih (fun l hl => hx l (by simp [hl]))
            simp [wireLabels]; omega
        have := h4 cur (fun l hl => hlab l (by rw [s3]; simp [hl]))
        omega
    obtain ⟨ts2, t1, t2, t3⟩ := htail
    refine ⟨wireLabels ls ++ [0], ts2, ?_, t2, t3, by simp; omega, by simp, ⟨ls, ?_, rfl⟩⟩
    · rw [storeComp, hi1, Outcome.bind_ok, hrd, Outcome.bind_ok, hwl, s1', Outcome.bind_ok, hr]
      have hle : decide (1 + wireLen ls ≤ (encode ls true).length) = true := by
        simp; omega
      show (assert (decide (1 + wireLen ls ≤ (encode ls true).length))).bind _ = _
      rw [hle, assert_true, Outcome.bind_ok, t1, Outcome.bind_ok, encode_take_all]
    · have := hplain [] ls rfl
      have hl : (wireLabels ls ++ [0]).length = wireLen ls := by simp; omega
      rw [hl]
      exact this

end Gdnsd.Enc
