/-
Lemmas: the stanzas of multifo.
-/
import Verif.Res.MfLemmas
namespace Gdnsd.Res
open Vscf VscfSpec Conf ConfSpec SvcSpec ResSpec
open Svc (Addr)

theorem shape_or {a b c d : Option Val} (h1 : a.map shape = b.map shape) (h2 : c.map shape = d.map shape) : (a.or c).map shape = (b.or d).map shape := by
  cases a <;> cases b <;> simp_all

theorem others_append (ks : List Bytes) (es fs : List (Entry Val)) : others ks (es ++ fs) = others ks es ++ others ks fs := by
  simp [others]

theorem others_in {ks : List Bytes} {es : List (Entry Val)} (h : ∀ e ∈ es, e.key ∈ ks) : others ks es = [] := by
  rw [others, List.filter_eq_nil_iff]
  intro e he
  simp [h e he]

theorem others_out {ks : List Bytes} {es : List (Entry Val)} (h : ∀ e ∈ es, e.key ∉ ks) : others ks es = es := by
  rw [others, List.filter_eq_self]
  intro e he
  simp [h e he]

/-- A hash to which parameters were handed down. -/
theorem view_handed {mk : List Bytes} {src : List (Entry Val)} {a b : Entry Val} (h : Handed mk params src a b) {es : List (Entry Val)} (ha : a.val = .hash es)
    (hf : Fresh es) {outer : List (List (Entry Val))} (hsrc : ∀ k ∈ params, (find src k).map shape = (firstOf outer k).map shape) :
    ∃ fs, b.val = .hash fs ∧ View (es :: outer) ((others params es).map (·.val)) fs := by
  obtain ⟨xs, h1, h2, h3⟩ := h.hash es ha
  have hs := h.sound
  rw [h1] at hs
  cases hs with
  | hash hn hso =>
    refine ⟨es ++ xs, h1, hn, ?_, hso, ?_, ?_⟩
    · intro e he hm
      rcases List.mem_append.mp he with he | he
      · rw [hf e he] at hm; cases hm
      · exact (h2 e he).1
    · rw [others_append, others_in fun x hx => (h2 x hx).1]
      simp
    · intro k hk
      rw [h3 k hk, firstOf_cons]
      exact shape_or rfl (hsrc k hk)

/-! ### Arrays -/

theorem label_inj {m n : Nat} (h : label m = label n) : m = n := by
  have hp : ∀ n, n < 10 ^ (n + 1) := fun n => Nat.lt_of_lt_of_le (Nat.lt_succ_self n) (Nat.le_of_lt (Nat.lt_pow_self (by decide)))
  have h1 := (Statio.digits_value (m + 1) m (hp m) (by omega)).1
  have h2 := (Statio.digits_value (n + 1) n (hp n) (by omega)).1
  rw [← h1, ← h2]
  exact congrArg _ h

theorem label_params (n : Nat) : label n ∉ params := by
  have hp : n < 10 ^ (n + 1) := Nat.lt_of_lt_of_le (Nat.lt_succ_self n) (Nat.le_of_lt (Nat.lt_pow_self (by decide)))
  obtain ⟨_, _, _, h, _⟩ := Statio.digits_value (n + 1) n hp (by omega)
  intro hc
  have hd : ∀ k ∈ params, ∃ d ∈ k, 57 < d.toNat := by decide
  obtain ⟨d, hd1, hd2⟩ := hd _ hc
  have := (h d hd1).2
  omega

/-- Values under the labels 1, 2, … -/
def labelled : Nat → List Val → List (Entry Val)
  | _, [] => []
  | i, v :: vs => ⟨label (i + 1), false, v⟩ :: labelled (i + 1) vs

theorem labelled_append (i : Nat) (us vs : List Val) : labelled i (us ++ vs) = labelled i us ++ labelled (i + us.length) vs := by
  induction us generalizing i with
  | nil => simp [labelled]
  | cons u us ih =>
    simp only [List.cons_append, labelled, ih, List.length_cons]
    rw [show i + 1 + us.length = i + (us.length + 1) by omega]

theorem labelled_mem {i : Nat} {vs : List Val} {e : Entry Val} (h : e ∈ labelled i vs) : e.marked = false ∧ e.val ∈ vs ∧ ∃ j, i < j ∧ j ≤ i + vs.length ∧ e.key = label j := by
  induction vs generalizing i with
  | nil => cases h
  | cons v vs ih =>
    simp only [labelled, List.mem_cons] at h
    rcases h with rfl | h
    · exact ⟨rfl, by simp, i + 1, by omega, by simp only [List.length_cons]; omega, rfl⟩
    · obtain ⟨h1, h2, j, h3, h4, h5⟩ := ih h
      exact ⟨h1, by simp [h2], j, by omega, by simp only [List.length_cons]; omega, h5⟩

theorem labelled_vals (i : Nat) (vs : List Val) : (labelled i vs).map (·.val) = vs := by
  induction vs generalizing i with
  | nil => rfl
  | cons v vs ih => simp [labelled, ih]

theorem labelled_nodup (i : Nat) (vs : List Val) : ((labelled i vs).map (·.key)).Nodup := by
  induction vs generalizing i with
  | nil => simp [labelled]
  | cons v vs ih =>
    simp only [labelled, List.map_cons, List.nodup_cons]
    refine ⟨fun h => ?_, ih _⟩
    obtain ⟨e, he, hk⟩ := List.mem_map.mp h
    obtain ⟨_, _, j, h3, _, h5⟩ := labelled_mem he
    have := label_inj (h5.symm.trans hk)
    omega

theorem arrayHash_ok : ∀ (vs us : List Val), (∀ v ∈ vs, ∃ r t, v = Val.simple r t) →
    arrayHash us.length vs (labelled 0 us) = .ok (some (labelled 0 (us ++ vs)))
  | [], us, _ => by simp [arrayHash]
  | v :: vs, us, h => by
    obtain ⟨r, t, rfl⟩ := h v (by simp)
    have hno : ¬ Has (labelled 0 us) (label (us.length + 1)) := by
      rintro ⟨e, he, hk⟩
      obtain ⟨_, _, j, _, h4, h5⟩ := labelled_mem he
      have := label_inj (h5.symm.trans hk)
      omega
    have hnext : labelled 0 us ++ [⟨label (us.length + 1), false, .simple r t⟩] = labelled 0 (us ++ [.simple r t]) := by
      rw [labelled_append]
      simp [labelled]
    have ih := arrayHash_ok vs (us ++ [.simple r t]) fun x hx => h x (by simp [hx])
    simp only [arrayHash, clone, Outcome.bind_ok, addEntry_new hno, Option.getD_some, hnext]
    simpa using ih

theorem arrayHash_bad {vs : List Val} (h : ¬ ∀ v ∈ vs, ∃ r t, v = Val.simple r t) (i : Nat) (es : List (Entry Val)) : arrayHash i vs es = .ok none := by
  induction vs generalizing i es with
  | nil => exact absurd nofun h
  | cons v vs ih =>
    cases v with
    | simple r t =>
      simp only [arrayHash, clone, Outcome.bind_ok]
      refine ih (fun hc => h fun x hx => ?_) _ _
      rcases List.mem_cons.mp hx with rfl | hx
      · exact ⟨r, t, rfl⟩
      · exact hc x hx
    | _ => rfl

theorem has_append {es fs : List (Entry Val)} {k : Bytes} : Has (es ++ fs) k ↔ Has es k ∨ Has fs k := by
  rw [has_iff, has_iff, has_iff, List.map_append, List.mem_append]

theorem inheritKeys_ok {P : List (Entry Val)} (hn : (P.map (·.key)).Nodup) (hs : SoundOf P) : ∀ (ks : List Bytes) (dest : List (Entry Val)), (∀ k ∈ ks, 0 ∉ k) →
    ∃ xs, inheritKeys P ks dest = .ok (dest ++ xs) ∧ (∀ x ∈ xs, x.key ∈ ks ∧ ¬ Has dest x.key ∧ x.marked = false ∧ Sound x.val) ∧ (xs.map (·.key)).Nodup ∧
      ∀ k ∈ ks, (find (dest ++ xs) k).map shape = ((find dest k).or (find P k)).map shape
  | [], dest, _ => ⟨[], by simp [inheritKeys], nofun, by simp, nofun⟩
  | k :: ks, dest, hz => by
    obtain ⟨dest', h1, h2⟩ := C79_inherit (dest := dest) false (hz k (by simp)) hn hs
    simp only [Bool.false_eq_true, if_false] at h1
    simp only [inheritKeys, h1, Outcome.bind_ok]
    have hz' : ∀ x ∈ ks, 0 ∉ x := fun x hx => hz x (by simp [hx])
    rcases h2 with ⟨h2, rfl⟩ | ⟨e, he, w, rfl, hno, hcp, rfl⟩
    · obtain ⟨xs, g1, g2, g3, g4⟩ := inheritKeys_ok hn hs ks dest' hz'
      refine ⟨xs, g1, fun x hx => ⟨by simp [(g2 x hx).1], (g2 x hx).2⟩, g3, fun k' hk' => ?_⟩
      by_cases hin : k' ∈ ks
      · exact g4 k' hin
      · have : k' = k := by
          rcases List.mem_cons.mp hk' with h | h
          · exact h
          · exact absurd h hin
        subst this
        have hx : find xs k' = none := by
          rw [find_none]
          rintro ⟨x, hx, rfl⟩
          exact hin (g2 x hx).1
        rw [find_append, hx, Option.or_none]
        rcases h2 with h2 | h2
        · rw [find_none.mpr h2, Option.or_none]
        · cases hf : find dest' k' with
          | none => exact absurd h2 (find_none.mp hf)
          | some v => rfl
    · obtain ⟨xs, g1, g2, g3, g4⟩ := inheritKeys_ok hn hs ks (dest ++ [⟨e.key, false, w⟩]) hz'
      have hwd : ∀ x ∈ xs, ¬ Has dest x.key ∧ x.key ≠ e.key := fun x hx => by
        have := (g2 x hx).2.1
        rw [has_append] at this
        refine ⟨fun h => this (Or.inl h), fun h => this (Or.inr ⟨⟨e.key, false, w⟩, List.mem_singleton.mpr rfl, h.symm⟩)⟩
      refine ⟨⟨e.key, false, w⟩ :: xs, by rw [g1]; simp, ?_, ?_, fun k' hk' => ?_⟩
      · intro x hx
        rcases List.mem_cons.mp hx with rfl | hx
        · exact ⟨by simp, hno, rfl, copy_sound hcp (soundOf_mem hs he)⟩
        · exact ⟨by simp [(g2 x hx).1], (hwd x hx).1, (g2 x hx).2.2⟩
      · rw [List.map_cons, List.nodup_cons]
        refine ⟨fun h => ?_, g3⟩
        obtain ⟨x, hx, hk⟩ := List.mem_map.mp h
        exact (hwd x hx).2 hk
      · rw [show dest ++ ⟨e.key, false, w⟩ :: xs = dest ++ [⟨e.key, false, w⟩] ++ xs by simp]
        by_cases hkk : k' = e.key
        · subst hkk
          rw [find_append, find_append, find_none.mpr hno, find_cons, if_pos rfl, find_mem hn he]
          simp [copy_shape hcp]
        · have hin : k' ∈ ks := by
            rcases List.mem_cons.mp hk' with h | h
            · exact absurd h hkk
            · exact h
          rw [g4 k' hin, find_append, find_cons, if_neg (fun h => hkk h.symm)]
          simp [find]

theorem params_zero : ∀ k ∈ params, (0 : UInt8) ∉ k := by decide

/-- Addresses without a hash. -/
theorem view_array {P : List (Entry Val)} (hn : (P.map (·.key)).Nodup) (hs : SoundOf P) {outer : List (List (Entry Val))}
    (hP : ∀ k ∈ params, (find P k).map shape = (firstOf outer k).map shape) {vs : List Val} (hv : ∀ v ∈ vs, ∃ r t, v = Val.simple r t) :
    ∃ fs, ((arrayHash 0 vs []).bind fun | none => .ok none | some es => (inheritKeys P params es).map some) = .ok (some fs) ∧ View outer vs fs := by
  have h1 := arrayHash_ok vs [] hv
  simp only [List.length_nil, labelled, List.nil_append] at h1
  obtain ⟨xs, g1, g2, g3, g4⟩ := inheritKeys_ok hn hs params (labelled 0 vs) params_zero
  have hlab : ∀ k ∈ params, ¬ Has (labelled 0 vs) k := by
    rintro k hk ⟨e, he, rfl⟩
    obtain ⟨_, _, j, _, _, h5⟩ := labelled_mem he
    exact label_params j (h5 ▸ hk)
  refine ⟨labelled 0 vs ++ xs, by simp [h1, g1], ?_, ?_, ?_, ?_, ?_⟩
  · rw [List.map_append, List.nodup_append]
    refine ⟨labelled_nodup 0 vs, g3, fun x hx y hy hxy => ?_⟩
    subst hxy
    obtain ⟨e, he, rfl⟩ := List.mem_map.mp hy
    exact (g2 e he).2.1 (has_iff.mpr hx)
  · intro e he hm
    rcases List.mem_append.mp he with he | he
    · rw [(labelled_mem he).1] at hm; cases hm
    · exact (g2 e he).1
  · refine soundOf_of fun e he => ?_
    rcases List.mem_append.mp he with he | he
    · obtain ⟨r, t, h⟩ := hv _ (labelled_mem he).2.1
      rw [h]
      exact .simple
    · exact (g2 e he).2.2.2
  · rw [others_append, others_in fun x hx => (g2 x hx).1, others_out fun e he hc => hlab _ hc ⟨e, he, rfl⟩, List.append_nil]
    have : (labelled 0 vs).map (fun e => shape e.val) = ((labelled 0 vs).map (·.val)).map shape := by rw [List.map_map]; rfl
    rw [this, labelled_vals]
  · intro k hk
    rw [g4 k hk, find_none.mpr (hlab k hk), Option.none_or]
    exact hP k hk

theorem set_simple {lib : Lib} {v6 : Bool} {levels : List (List (Entry Val))} {vs : List Val} {s : ASet} (h : SetOf lib v6 levels vs s) :
    ∀ v ∈ vs, ∃ r t, v = Val.simple r t := by
  intro v hv
  obtain ⟨a, _, r, t, _, h, _⟩ := all_right h.addrs hv
  exact ⟨r, t, h⟩

/-- A stanza is a view of a set, or it is refused. -/
theorem stanza_view {lib : Lib} {mk : List Bytes} {src P : List (Entry Val)} {a b : Entry Val} (h : Handed mk params src a b) (hc : Clean a.val)
    {outer : List (List (Entry Val))} (hsrc : ∀ k ∈ params, (find src k).map shape = (firstOf outer k).map shape)
    (hn : (P.map (·.key)).Nodup) (hs : SoundOf P) (hP : ∀ k ∈ params, (find P k).map shape = (firstOf outer k).map shape) :
    (∃ fs levels vals, stanza P b.val = .ok (some fs) ∧ View levels vals fs ∧ (∀ v6 s, Stanza lib v6 outer a.val s ↔ SetOf lib v6 levels vals s) ∧
      (levels = outer ∨ ∃ es, a.val = .hash es ∧ levels = es :: outer) ∧
      (vals.length ≤ 1 ∨ a.val = .array vals ∨ ∃ es, a.val = .hash es ∧ vals.length ≤ es.length)) ∨
    (stanza P b.val = .ok none ∧ ∀ v6 s, ¬ Stanza lib v6 outer a.val s) := by
  have flat : (∀ es, a.val ≠ .hash es) → (vs : List Val) → vs = Svc.items a.val →
      stanza P b.val = ((arrayHash 0 vs []).bind fun | none => .ok none | some es => (inheritKeys P params es).map some) →
      (vs.length ≤ 1 ∨ a.val = .array vs) →
      (∃ fs levels vals, stanza P b.val = .ok (some fs) ∧ View levels vals fs ∧ (∀ v6 s, Stanza lib v6 outer a.val s ↔ SetOf lib v6 levels vals s) ∧
        (levels = outer ∨ ∃ es, a.val = .hash es ∧ levels = es :: outer) ∧
        (vals.length ≤ 1 ∨ a.val = .array vals ∨ ∃ es, a.val = .hash es ∧ vals.length ≤ es.length)) ∨
      (stanza P b.val = .ok none ∧ ∀ v6 s, ¬ Stanza lib v6 outer a.val s) := by
    intro hno vs hvs heq hlen
    have hst : ∀ v6 s, Stanza lib v6 outer a.val s ↔ SetOf lib v6 outer vs s := by
      intro v6 s
      constructor
      · intro h'
        generalize hav : a.val = v at h'
        cases h' with
        | @hash es _ _ _ _ => exact absurd hav (hno es)
        | list _ h1 h2 =>
          rw [Svc.items_iff.mp h1, ← hav, ← hvs] at h2
          exact h2
      · intro h'
        exact .list hno (Svc.items_iff.mpr hvs) h'
    by_cases hsim : ∀ v ∈ vs, ∃ r t, v = Val.simple r t
    · obtain ⟨fs, g1, g2⟩ := view_array hn hs hP hsim
      refine Or.inl ⟨fs, outer, vs, heq.trans g1, g2, hst, Or.inl rfl, ?_⟩
      rcases hlen with h | h
      · exact Or.inl h
      · exact Or.inr (Or.inl h)
    · refine Or.inr ⟨heq.trans (by rw [arrayHash_bad hsim]; rfl), fun v6 s h' => hsim (set_simple ((hst v6 s).mp h'))⟩
  cases hav : a.val with
  | hash es =>
    rw [hav] at hc
    obtain ⟨hn', hf, _⟩ := clean_hash hc
    obtain ⟨fs, g1, g2⟩ := view_handed h hav hf hsrc
    left
    refine ⟨fs, es :: outer, _, by rw [g1]; rfl, g2, ?_, Or.inr ⟨es, rfl, rfl⟩, ?_⟩
    · intro v6 s
      constructor
      · intro h'
        cases h' with
        | hash h1 h2 =>
          rw [others_iff.mp h1] at h2
          exact h2
        | list h1 _ _ => exact absurd rfl (h1 es)
      · intro h'
        exact .hash (others_iff.mpr rfl) h'
    · refine Or.inr (Or.inr ⟨es, rfl, ?_⟩)
      rw [List.length_map]
      exact List.length_filter_le _ _
  | simple r t =>
    have hb := h.other (by simp [hav])
    rw [← hav]
    exact flat (by simp [hav]) [a.val] (by rw [hav]; rfl) (by rw [hb, hav]; rfl) (Or.inl (by simp))
  | array vs =>
    have hb := h.other (by simp [hav])
    rw [← hav]
    exact flat (by simp [hav]) vs (by rw [hav]; rfl) (by rw [hb, hav]; rfl) (Or.inr hav)

/-! ### Directly -/

theorem copyOf_unmarked : ∀ {es gs : List (Entry Val)}, CopyOf true es gs → gs.map (fun e => shape e.val) = (unmarked es).map (fun e => shape e.val)
  | _, _, .nil => rfl
  | _, _, .keep hm h hs => by
    have := hm rfl
    subst this
    simp only [List.map_cons, copyOf_unmarked hs, unmarked, List.filter_cons, Bool.not_false, if_true, copy_shape h]
  | _, _, .skip _ hs => by
    simp only [copyOf_unmarked hs, unmarked, List.filter_cons, Bool.not_true, Bool.false_eq_true, if_false]

theorem configAuto_view {lib : Lib} {name : Bytes} {P : List (Entry Val)} {v : Val} {levels : List (List (Entry Val))} {vals : List Val} {fs : List (Entry Val)}
    (hst : stanza P v = .ok (some fs)) (hv : View levels vals fs) (hl : ∀ es ∈ levels, (es.map (·.key)).Nodup)
    (hnan : threshOf lib (firstOf levels (str "up_thresh")) ≠ some .nan) (hsize : vals.length < 2 ^ 53) :
    configAuto lib name P v ≠ .ub ∧ ∀ r, configAuto lib name P v = .ok (some r) ↔
      ∃ s, (SetOf lib false levels vals s ∧ r = ⟨name, some s, none⟩) ∨ (SetOf lib true levels vals s ∧ r = ⟨name, none, some s⟩) := by
  obtain ⟨w, hw, hcp⟩ := clone_ok true (.hash (marks fs params)) (.hash hv.marks.nodup hv.marks.sound)
  cases hcp with
  | @hash _ gs hcp =>
    have hgs : gs.map (fun e => shape e.val) = vals.map shape := by
      rw [copyOf_unmarked hcp, unmarked_marks hv.marked fun _ h => h]
      exact hv.vals
    have bad : (∀ v6 s, ¬ SetOf lib v6 levels vals s) → ∀ r : MRes, (Outcome.ok (none : Option MRes) = .ok (some r) ↔
      ∃ s, (SetOf lib false levels vals s ∧ r = ⟨name, some s, none⟩) ∨ (SetOf lib true levels vals s ∧ r = ⟨name, none, some s⟩)) := by
      intro hb r
      constructor
      · intro h; cases h
      · rintro ⟨s, ⟨h, _⟩ | ⟨h, _⟩⟩ <;> exact absurd h (hb _ s)
    unfold configAuto
    simp only [hst, Outcome.bind_ok, hw]
    cases gs with
    | nil =>
      dsimp only
      refine ⟨nofun, bad fun v6 s h => ?_⟩
      cases vals with
      | nil => exact h.some rfl
      | cons _ _ => cases hgs
    | cons f gs =>
      cases vals with
      | nil => cases hgs
      | cons v0 vals =>
        simp only [List.map_cons, List.cons.injEq] at hgs
        dsimp only
        cases hfv : f.val with
        | array us =>
          dsimp only
          refine ⟨nofun, bad fun v6 s h => ?_⟩
          obtain ⟨r, t, rfl⟩ := set_simple h v0 (by simp)
          rw [hfv] at hgs
          cases hgs.1
        | hash us =>
          dsimp only
          refine ⟨nofun, bad fun v6 s h => ?_⟩
          obtain ⟨r, t, rfl⟩ := set_simple h v0 (by simp)
          rw [hfv] at hgs
          cases hgs.1
        | simple r t =>
          dsimp only
          rw [hfv] at hgs
          have hfam : ∀ v6 s, SetOf lib v6 levels (v0 :: vals) s → ∃ a, lib.addr (cstr t) = some a ∧ a.v6 = v6 := by
            intro v6 s h
            have ha := h.addrs
            generalize s.as = as at ha
            cases ha with
            | cons h1 _ =>
              have := addrOf_shape (lib := lib) (v6 := v6) hgs.1
              rw [addr_iff, ← this, ← addr_iff] at h1
              obtain ⟨_, t', u, h2, h3, h4, h5⟩ := h1
              cases h2
              rw [upToZero_iff.mp h3] at h4
              exact ⟨_, h4, h5⟩
          cases hla : lib.addr (cstr t) with
          | none =>
            dsimp only
            refine ⟨nofun, bad fun v6 s h => ?_⟩
            obtain ⟨a, h1, _⟩ := hfam v6 s h
            rw [hla] at h1
            cases h1
          | some a =>
            dsimp only
            obtain ⟨g1, g2⟩ := configAddrs_set (lib := lib) (v6 := a.v6) hv.marks hl hnan hsize
            cases hca : configAddrs lib a.v6 (marks fs params) with
            | ub => exact absurd hca g1
            | ok o =>
              rw [hca] at g2
              refine ⟨nofun, fun r => ?_⟩
              have hother : ∀ v6 s, SetOf lib v6 levels (v0 :: vals) s → v6 = a.v6 := by
                intro v6 s h
                obtain ⟨a', h1, h2⟩ := hfam v6 s h
                rw [hla] at h1
                simp only [Option.some.injEq] at h1
                subst h1
                exact h2.symm
              simp only [Outcome.map_ok, Outcome.ok.injEq]
              constructor
              · intro h
                cases o with
                | none => cases h
                | some s =>
                  simp only [Option.map_some, Option.some.injEq] at h
                  have hs := (g2 s).mp rfl
                  refine ⟨s, ?_⟩
                  cases ha : a.v6 with
                  | true => rw [ha] at h hs; exact Or.inr ⟨hs, h.symm⟩
                  | false => rw [ha] at h hs; exact Or.inl ⟨hs, h.symm⟩
              · rintro ⟨s, ⟨hs, rfl⟩ | ⟨hs, rfl⟩⟩
                · have ha := hother _ s hs
                  rw [ha] at hs
                  have := (g2 s).mpr hs
                  simp only [Outcome.ok.injEq] at this
                  rw [this, ← ha]
                  rfl
                · have ha := hother _ s hs
                  rw [ha] at hs
                  have := (g2 s).mpr hs
                  simp only [Outcome.ok.injEq] at this
                  rw [this, ← ha]
                  rfl

end Gdnsd.Res
