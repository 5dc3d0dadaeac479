import Verif.Lookup.OwnLemmas
/-
Where the name of the zone is found in the packet while CNAMEs are followed.
-/
namespace Gdnsd.Lookup
open DnameSpec EncSpec Dname Enc Tree TreeSpec LookupSpec

/-! ### Compression targets of the query name -/

/-- One target for every suffix. -/
def targets : List Bytes → Nat → List CT
  | [], _ => []
  | l :: r, off => CT.mk (wireLabels (l :: r) ++ [0]) (wireLen (l :: r)) off :: targets r (off + (l.length + 1))

theorem addTargets_eq (ls : List Bytes) (hw : WF ls) :
    ∀ (fuel : Nat) (ts : List CT) (pre cur : List Bytes) (off : Nat), ls = pre ++ cur → cur.length ≤ fuel →
      addTargets (encode ls true) fuel ts (1 + (wireLabels pre).length) (wireLen cur) off =
        .ok (ts ++ (targets cur off).take (COMPMAX - ts.length)) := by
  intro fuel
  induction fuel with
  | zero =>
    intro ts pre cur off hls hf
    have : cur = [] := List.eq_nil_of_length_eq_zero (by omega)
    subst this
    simp [addTargets, wireLen, targets]
  | succ fuel ih =>
    intro ts pre cur off hls hf
    rw [addTargets]
    cases cur with
    | nil => simp [wireLen, targets]
    | cons l cur =>
      have hl : 1 ≤ l.length ∧ l.length ≤ 63 := hw.1 l (by rw [hls]; simp)
      have hwc := wireLen_cons l cur
      have hwp := wireLen_pos cur
      by_cases hroom : ts.length < COMPMAX
      · have : (decide (wireLen (l :: cur) > 2) && decide (ts.length < COMPMAX)) = true := by
          simp only [Bool.and_eq_true, decide_eq_true_eq]; omega
        rw [if_pos this]
        have hj := jumpAt_encode pre cur l hl.2
        rw [← hls] at hj
        obtain ⟨hs1, hs2⟩ := snoc_pre pre cur l
        have e1 : 1 + (wireLabels pre).length + (l.length + 1) = 1 + (wireLabels (pre ++ [l])).length := by
          omega
        have e2 : wireLen (l :: cur) - (l.length + 1) = wireLen cur := by omega
        rw [hj, Outcome.bind_ok, e1, e2, ih _ _ _ _ (by rw [hs1]; exact hls) (by simp at hf; omega)]
        have e3 : COMPMAX - ts.length = (COMPMAX - (ts.length + 1)) + 1 := by omega
        have e4 : (encode ls true).drop (1 + (wireLabels pre).length) = wireLabels (l :: cur) ++ [0] := by
          rw [hls, encode_drop]
        rw [e3, targets, List.take_succ_cons, e4]
        simp
      · have : ¬ (decide (wireLen (l :: cur) > 2) && decide (ts.length < COMPMAX)) = true := by
          simp only [Bool.and_eq_true, decide_eq_true_eq]; omega
        rw [if_neg this, show COMPMAX - ts.length = 0 by omega]; simp

theorem addQname_eq (ls : List Bytes) (hw : WF ls) : addQname (encode ls true) = .ok ((targets ls 12).take COMPMAX) := by
  have hrd : rd (encode ls true) 0 = .ok (UInt8.ofNat (wireLen ls)) := by simp [encode, rd]
  have hwl : (UInt8.ofNat (wireLen ls)).toNat = wireLen ls := toNat_ofNat_lt (by have := hw.2; omega)
  have := addTargets_eq ls hw 128 [] [] ls 12 rfl (by have := count_le_wireLen ls hw.1; have := hw.2; omega)
  rw [addQname, hrd, Outcome.bind_ok, hwl]
  simpa [wireLabels] using this

theorem suffix_wireLen {z c : List Bytes} (h : z <:+ c) : wireLen z ≤ wireLen c := by
  obtain ⟨x, rfl⟩ := h
  have := wireLen_append x z
  have := wireLen_pos x
  omega

theorem suffix_eq_of_wireLen {z c : List Bytes} (h : z <:+ c) (hl : wireLen z = wireLen c) : z = c := by
  obtain ⟨x, rfl⟩ := h
  cases x with
  | nil => rfl
  | cons l x =>
    have h1 := wireLen_append (l :: x) z
    have h2 := wireLen_cons l x
    have h3 := wireLen_pos x
    omega

/-- The search without new targets: a hit is at the longest suffix shared with the query. -/
theorem search_chain (ls : List Bytes) (hw : WF ls) :
    ∀ (fuel : Nat) (done : List CT) (n : Nat) (qs : List Bytes) (o : Nat) (pre cur : List Bytes) (off : Nat) (r : Enc.Found)
      (ts' : List CT), WF qs → ls = pre ++ cur →
      Enc.search (encode ls true) (wireLen ls) false fuel done ((targets qs o).take n) (1 + (wireLabels pre).length)
        (wireLen cur) off = .ok (r, ts') →
      ts' = done ++ (targets qs o).take n ∧
      ((∃ p l f, r = .miss p l f) ∨
        ∃ pre' s a, ls = pre' ++ s ∧ qs = a ++ s ∧ s ≠ [] ∧ (∀ z, z <:+ cur → z <:+ qs → z <:+ s) ∧
          r = .hit (wireLabels pre').length (o + (wireLabels a).length)) := by
  intro fuel
  induction fuel with
  | zero => intro done n qs o pre cur off r ts' _ _ h; cases h
  | succ fuel ih =>
    intro done n qs o pre cur off r ts' hqw hls h
    cases n with
    | zero =>
      simp only [List.take_zero, Enc.search, Outcome.ok.injEq, Prod.mk.injEq] at h
      obtain ⟨rfl, rfl⟩ := h
      exact ⟨by simp, .inl ⟨_, _, _, rfl⟩⟩
    | succ n =>
      cases qs with
      | nil =>
        simp only [targets, List.take_nil, Enc.search, Outcome.ok.injEq, Prod.mk.injEq] at h
        obtain ⟨rfl, rfl⟩ := h
        exact ⟨by simp [targets], .inl ⟨_, _, _, rfl⟩⟩
      | cons ql qs =>
        rw [targets, List.take_succ_cons, Enc.search] at h
        simp only at h
        have hqs : WF qs := WF_suffix hqw ⟨[ql], rfl⟩
        have hrest : ∀ {x}, Enc.search (encode ls true) (wireLen ls) false fuel (done ++ [x])
            ((targets qs (o + (ql.length + 1))).take n) (1 + (wireLabels pre).length) (wireLen cur) off = .ok (r, ts') →
            x = CT.mk (wireLabels (ql :: qs) ++ [0]) (wireLen (ql :: qs)) o →
            (∀ z, z <:+ cur → z <:+ ql :: qs → z <:+ qs) →
            ts' = done ++ (targets (ql :: qs) o).take (n + 1) ∧
            ((∃ p l f, r = .miss p l f) ∨
              ∃ pre' s a, ls = pre' ++ s ∧ ql :: qs = a ++ s ∧ s ≠ [] ∧ (∀ z, z <:+ cur → z <:+ ql :: qs → z <:+ s) ∧
                r = .hit (wireLabels pre').length (o + (wireLabels a).length)) := by
          intro x hx hxe hz
          obtain ⟨g1, g2⟩ := ih _ _ _ _ _ _ _ _ _ hqs hls hx
          refine ⟨by rw [g1, targets, List.take_succ_cons, hxe]; simp, ?_⟩
          rcases g2 with g2 | ⟨pre', s, a, a1, a2, a3, a4, a5⟩
          · exact .inl g2
          · refine .inr ⟨pre', s, ql :: a, a1, by rw [a2]; rfl, a3, fun z h1 h2 => a4 z h1 (hz z h1 h2), ?_⟩
            rw [a5]
            congr 1
            simp [wireLabels]; omega
        by_cases hlt : wireLen (ql :: qs) < wireLen cur
        · rw [if_pos hlt] at h
          cases cur with
          | nil => simp [wireLen] at hlt
          | cons l cur =>
            have hl : 1 ≤ l.length ∧ l.length ≤ 63 := hw.1 l (by rw [hls]; simp)
            have hj := jumpAt_encode pre cur l hl.2
            rw [← hls] at hj
            obtain ⟨hs1, hs2⟩ := snoc_pre pre cur l
            have hwc := wireLen_cons l cur
            have e1 : 1 + (wireLabels pre).length + (l.length + 1) = 1 + (wireLabels (pre ++ [l])).length := by omega
            have e2 : wireLen (l :: cur) - (l.length + 1) = wireLen cur := by omega
            simp only [Bool.false_and, Bool.false_eq_true, if_false] at h
            rw [hj, Outcome.bind_ok, e1, e2] at h
            have h' : Enc.search (encode ls true) (wireLen ls) false fuel done ((targets (ql :: qs) o).take (n + 1))
                (1 + (wireLabels (pre ++ [l])).length) (wireLen cur) (off + (l.length + 1)) = .ok (r, ts') := by
              rw [targets, List.take_succ_cons]; exact h
            obtain ⟨g1, g2⟩ := ih _ _ _ _ _ _ _ _ _ hqw (by rw [hs1]; exact hls) h'
            refine ⟨g1, ?_⟩
            rcases g2 with g2 | ⟨pre', s, a, a1, a2, a3, a4, a5⟩
            · exact .inl g2
            · refine .inr ⟨pre', s, a, a1, a2, a3, ?_, a5⟩
              intro z h1 h2
              apply a4 z _ h2
              rcases List.suffix_cons_iff.mp h1 with h3 | h3
              · have := suffix_wireLen h2
                rw [h3] at this; omega
              · exact h3
        · rw [if_neg hlt] at h
          by_cases heq : wireLen (ql :: qs) = wireLen cur
          · rw [if_pos heq] at h
            have hd : (encode ls true).drop (1 + (wireLabels pre).length) = wireLabels cur ++ [0] := by
              rw [hls, encode_drop]
            have hL1 : (wireLabels cur ++ [0]).length = wireLen cur := by
              have := wireLabels_length cur; simp; omega
            have hL2 : (wireLabels (ql :: qs) ++ [0]).length = wireLen cur := by
              have := wireLabels_length (ql :: qs); rw [List.length_append]; simp; omega
            rw [hd, memeq, hL1, hL2] at h
            simp only [Nat.le_refl, decide_true, Bool.and_self, if_true, Outcome.bind_ok] at h
            rw [List.take_of_length_le (by omega), List.take_of_length_le (by omega)] at h
            by_cases hm : wireLabels cur ++ [0] = wireLabels (ql :: qs) ++ [0]
            · have hcq : cur = ql :: qs := wireTerm_inj (WF_suffix hw ⟨pre, hls.symm⟩) hqw hm
              rw [if_pos (by simpa using hm)] at h
              simp only [Outcome.ok.injEq, Prod.mk.injEq] at h
              obtain ⟨h1, h2⟩ := h
              refine ⟨by rw [← h2, targets, List.take_succ_cons], .inr ⟨pre, cur, [], hls, by simp [hcq], by simp [hcq], ?_, ?_⟩⟩
              · intro z h3 _; exact h3
              · rw [← h1]
                have h5 := wireLabels_length pre
                have h6 := wireLen_append pre cur
                rw [← hls] at h6
                simp only [wireLabels, List.length_nil, Nat.add_zero]
                congr 1
                omega
            · rw [if_neg (by simpa using hm)] at h
              apply hrest h rfl
              intro z h1 h2
              rcases List.suffix_cons_iff.mp h2 with h3 | h3
              · exfalso
                subst h3
                have := suffix_eq_of_wireLen h1 heq
                rw [this] at hm; exact hm rfl
              · exact h3
          · rw [if_neg heq] at h
            apply hrest h rfl
            intro z h1 h2
            rcases List.suffix_cons_iff.mp h2 with h3 | h3
            · exfalso
              subst h3
              have := suffix_wireLen h1
              omega
            · exact h3

/-- The targets while only CNAMEs of the chain have been written. -/
def ChainTs (ql : List Bytes) (ts : List CT) : Prop := ts = [] ∨ ts = (targets ql 12).take COMPMAX

/-- The bytes of a chained name. -/
def ChainBytes (ql ls : List Bytes) (bs : Bytes) : Prop :=
  bs = wireLabels ls ++ [0] ∨
  ∃ pre s a, ls = pre ++ s ∧ ql = a ++ s ∧ s ≠ [] ∧ (∀ z, z <:+ ls → z <:+ ql → z <:+ s) ∧
    bs = wireLabels pre ++ put16 (0xC000 ||| (12 + (wireLabels a).length))

theorem storeComp_chain {p : Bytes} {ql ls : List Bytes} (hq : WF ql) (hw : WF ls) {ts : List CT} (ht : ChainTs ql ts) {off : Nat}
    {bs : Bytes} {ts' : List CT} (h : storeComp p (encode ql true) ts (encode ls true) off false = .ok (bs, ts')) :
    ChainTs ql ts' ∧ ChainBytes ql ls bs := by
  have hinit : (if ts.isEmpty then addQname (encode ql true) else .ok ts) = .ok ((targets ql 12).take COMPMAX) := by
    rcases ht with rfl | rfl
    · exact addQname_eq ql hq
    · cases he : ((targets ql 12).take COMPMAX).isEmpty with
      | false => rfl
      | true => exact addQname_eq ql hq
  have hwl : (UInt8.ofNat (wireLen ls)).toNat = wireLen ls := toNat_ofNat_lt (by have := hw.2; omega)
  have hrd : rd (encode ls true) 0 = .ok (UInt8.ofNat (wireLen ls)) := by simp [encode, rd]
  rw [storeComp, hinit, Outcome.bind_ok, hrd, Outcome.bind_ok, hwl] at h
  generalize hs : Enc.search (encode ls true) (wireLen ls) false _ [] ((targets ql 12).take COMPMAX) 1 (wireLen ls) off = o at h
  cases o with
  | ub => cases h
  | ok x =>
    obtain ⟨r, ts1⟩ := x
    obtain ⟨g1, g2⟩ := search_chain ls hw _ [] COMPMAX ql 12 [] ls off r ts1 hq rfl (by simpa [wireLabels] using hs)
    rw [List.nil_append] at g1
    rw [Outcome.bind_ok] at h
    rcases g2 with ⟨a, b, c, rfl⟩ | ⟨pre, s, a, a1, a2, a3, a4, rfl⟩
    · simp only [Bool.false_eq_true, if_false, Outcome.bind_ok] at h
      cases h6 : assert (decide (1 + wireLen ls ≤ (encode ls true).length)) with
      | ub => rw [h6] at h; cases h
      | ok _ =>
        rw [h6, Outcome.bind_ok] at h
        simp only [Outcome.ok.injEq, Prod.mk.injEq] at h
        obtain ⟨h1, h2⟩ := h
        rw [encode_take_all] at h1
        exact ⟨.inr (by rw [← h2, g1]), .inl h1.symm⟩
    · simp only at h
      cases h6 : assert (decide (1 + (wireLabels pre).length ≤ (encode ls true).length)) with
      | ub => rw [h6] at h; cases h
      | ok _ =>
        rw [h6, Outcome.bind_ok] at h
        cases h7 : rd p (12 + (wireLabels a).length) with
        | ub => rw [h7] at h; cases h
        | ok b =>
          rw [h7, Outcome.bind_ok] at h
          cases h8 : assert (b &&& 0xC0 == 0) with
          | ub => rw [h8] at h; cases h
          | ok _ =>
            rw [h8, Outcome.bind_ok] at h
            simp only [Outcome.ok.injEq, Prod.mk.injEq] at h
            obtain ⟨h1, h2⟩ := h
            rw [encode_take ls _ pre s a1 rfl] at h1
            exact ⟨.inr (by rw [← h2, g1]), .inr ⟨pre, s, a, a1, a2, a3, a4, h1.symm⟩⟩

end Gdnsd.Lookup
