import Verif.Tree.Spec
import Verif.Dname.Zone
namespace Gdnsd.Tree
open DnameSpec TreeSpec Dname

theorem follow_append (n : Node) (p x : List Bytes) :
    follow n (p ++ x) = (follow n p).bind fun m => follow m x := by
  induction p generalizing n with
  | nil => rfl
  | cons l r ih =>
    simp only [List.cons_append, follow]
    cases n.find l with
    | none => rfl
    | some c => simp only [Option.bind_some]; exact ih c

theorem nodeAt_cons (root : Node) (l : Bytes) (pre : List Bytes) :
    nodeAt root (l :: pre) = (nodeAt root pre).bind fun m => m.find l := by
  unfold nodeAt
  rw [List.reverse_cons, follow_append]
  congr 1; funext m
  simp only [follow]
  cases m.find l <;> rfl

theorem nodeAt_append (root : Node) (a b : List Bytes) :
    nodeAt root (a ++ b) = (nodeAt root b).bind fun m => nodeAt m a := by
  unfold nodeAt; rw [List.reverse_append, follow_append]

theorem nodeAt_none_of_suffix {root : Node} {s t : List Bytes} (h : s <:+ t)
    (hs : nodeAt root s = none) : nodeAt root t = none := by
  obtain ⟨x, rfl⟩ := h
  rw [nodeAt_append, hs]; rfl

theorem Present_of_suffix {root : Node} {s t : List Bytes} (h : s <:+ t) (he : Present root t) :
    Present root s := by
  unfold Present at *
  cases hs : nodeAt root s with
  | some n => rfl
  | none => rw [nodeAt_none_of_suffix h hs] at he; simp at he

theorem suffix_antisymm {s t : List Bytes} (h : s <:+ t) (h' : t <:+ s) : s = t :=
  h.eq_of_length (Nat.le_antisymm h.length_le h'.length_le)

theorem suffix_total {s t q : List Bytes} (hs : s <:+ q) (ht : t <:+ q) : s <:+ t ∨ t <:+ s := by
  rcases Nat.le_total s.length t.length with h | h
  · exact .inl (List.suffix_of_suffix_length_le hs ht h)
  · exact .inr (List.suffix_of_suffix_length_le ht hs h)

/-- Some suffix of `q` just below `pre`. -/
theorem suffix_step {s q pre : List Bytes} {rest : List Bytes} {l : Bytes}
    (hq : q = rest.reverse ++ l :: pre) (hs : s <:+ q) : s <:+ pre ∨ l :: pre <:+ s := by
  have h1 : l :: pre <:+ q := ⟨rest.reverse, hq.symm⟩
  rcases suffix_total hs h1 with h | h
  · rcases List.suffix_cons_iff.mp h with h | h
    · exact .inr (h ▸ List.suffix_refl _)
    · exact .inl h
  · exact .inr h

/-- How a search result reports a place. -/
def Reports (root : Node) (q : List Bytes) (r : Found) : Place → Prop
  | .outside => r.status = .noauth
  | .referral z c => r.status = .deleg ∧ r.dom = nodeAt root c ∧ r.auth = nodeAt root z ∧
      r.depth = q.length - c.length
  | .data z n => r.status = .auth ∧ r.dom = some n ∧ r.auth = nodeAt root z ∧ r.depth = q.length - z.length
  | .missing z => r.status = .auth ∧ r.dom = none ∧ r.auth = nodeAt root z ∧ r.depth = q.length - z.length

theorem isCut_iff {root cur : Node} {s : List Bytes} (h : nodeAt root s = some cur) :
    IsCut root s ↔ cur.zcut = true := by
  constructor
  · rintro ⟨n, hn, hz⟩; rw [h] at hn; cases hn; exact hz
  · intro hz; exact ⟨cur, h, hz⟩

theorem not_isCut_of_none {root : Node} {s : List Bytes} (h : nodeAt root s = none) : ¬ IsCut root s := by
  rintro ⟨n, hn, _⟩; rw [h] at hn; cases hn

/-- The end of the walk below a known zone `z`: nothing below `pre` exists. -/
theorem located_stop (root : Node) (q pre z : List Bytes) (cur : Node) (l : Bytes) (rest : List Bytes)
    (hq : q = rest.reverse ++ l :: pre) (hcur : nodeAt root pre = some cur) (hz : IsZone root q z)
    (hno : ∀ s, s <:+ pre → z <:+ s → s ≠ z → ¬ IsCut root s) (hf : cur.find l = none) :
    ∃ w, Located root q w ∧ ∀ r : Found, r.status = .auth → r.dom = cur.find wild →
      r.auth = nodeAt root z → r.depth = q.length - z.length → Reports root q r w := by
  have hnl : nodeAt root (l :: pre) = none := by rw [nodeAt_cons, hcur]; exact hf
  have hlq : l :: pre <:+ q := ⟨rest.reverse, hq.symm⟩
  have hqn : nodeAt root q = none := nodeAt_none_of_suffix hlq hnl
  have hpq : pre <:+ q := (List.suffix_cons l pre).trans hlq
  have henc : IsEncloser root q pre := by
    refine ⟨hpq, by simp [Present, hcur], fun s hs he => ?_⟩
    rcases suffix_step hq hs with h | h
    · exact h
    · unfold Present at he; rw [nodeAt_none_of_suffix h hnl] at he; simp at he
  have hnoref : ∀ c, ¬ IsReferral root q z c := by
    rintro c ⟨hcq, hzc, hne, hcut, -⟩
    rcases suffix_step hq hcq with h | h
    · exact hno c h hzc (Ne.symm hne) hcut
    · exact not_isCut_of_none (nodeAt_none_of_suffix h hnl) hcut
  have hw : nodeAt root ([42] :: pre) = cur.find wild := by rw [nodeAt_cons, hcur]; rfl
  cases hd : cur.find wild with
  | some n =>
    refine ⟨.data z n, ⟨hz, hnoref, .inr ⟨hqn, pre, henc, by rw [hw, hd]⟩⟩, ?_⟩
    intro r h1 h2 h3 h4
    exact ⟨h1, h2, h3, h4⟩
  | none =>
    refine ⟨.missing z, ⟨hz, hnoref, ?_⟩, ?_⟩
    · rintro n (h | ⟨-, e, he, hn⟩)
      · rw [hqn] at h; cases h
      · have : e = pre := suffix_antisymm (henc.2.2 e he.1 he.2.1) (he.2.2 pre hpq henc.2.1)
        subst this; rw [hw, hd] at hn; cases hn
    · intro r h1 h2 h3 h4
      exact ⟨h1, h2, h3, h4⟩

/-- The walk once a zone has been entered. -/
theorem walk_auth (root : Node) (q z : List Bytes) (zn : Node) (hz : IsZone root q z)
    (hzn : nodeAt root z = some zn) (rest : List Bytes) :
    ∀ (pre : List Bytes) (cur : Node) (depth : Nat), q = rest.reverse ++ pre →
      nodeAt root pre = some cur → z <:+ pre → z ≠ pre →
      (∀ s, s <:+ pre → z <:+ s → s ≠ z → s ≠ pre → ¬ IsCut root s) → depth = q.length - z.length →
      ∃ w, Located root q w ∧ Reports root q (walk cur (some zn) depth rest) w := by
  induction rest with
  | nil =>
    intro pre cur depth hq hcur hzp hne hno hd
    have hpq : pre = q := by simpa using hq.symm
    subst hpq
    cases hcut : cur.zcut with
    | true =>
      refine ⟨.referral z pre, ⟨hz, List.suffix_refl _, hzp, hne, (isCut_iff hcur).mpr hcut, ?_⟩, ?_⟩
      · exact hno
      · simp [walk, hcut, Reports, hcur, hzn]
    | false =>
      refine ⟨.data z cur, ⟨hz, ?_, .inl hcur⟩, ?_⟩
      · rintro c ⟨hc, hzc, hnc, hcc, -⟩
        by_cases h : c = pre
        · subst h; rw [isCut_iff hcur, hcut] at hcc; cases hcc
        · exact hno c hc hzc (Ne.symm hnc) h hcc
      · simp [walk, hcut, Reports, hzn, hd]
  | cons l rest ih =>
    intro pre cur depth hq hcur hzp hne hno hd
    have hq' : q = rest.reverse ++ l :: pre := by simpa using hq
    have hpq : pre <:+ q := ⟨(l :: rest).reverse, hq.symm⟩
    cases hcut : cur.zcut with
    | true =>
      refine ⟨.referral z pre, ⟨hz, hpq, hzp, hne, (isCut_iff hcur).mpr hcut, hno⟩, ?_⟩
      simp only [walk, hcut, Option.isSome_some, Bool.and_self, cond_true, Reports, hcur, hzn, true_and]
      rw [hq]; simp; omega
    | false =>
      have hnc : ¬ IsCut root pre := by rw [isCut_iff hcur, hcut]; simp
      have hno' : ∀ s, s <:+ pre → z <:+ s → s ≠ z → ¬ IsCut root s := by
        intro s h1 h2 h3
        by_cases h : s = pre
        · rw [h]; exact hnc
        · exact hno s h1 h2 h3 h
      simp only [walk, hcut, Bool.false_and, cond_false]
      cases hf : cur.find l with
      | none =>
        obtain ⟨w, hw, hr⟩ := located_stop root q pre z cur l rest hq' hcur hz hno' hf
        exact ⟨w, hw, hr _ rfl rfl hzn.symm hd⟩
      | some next =>
        refine ih (l :: pre) next depth hq' (by rw [nodeAt_cons, hcur]; exact hf)
          (hzp.trans (List.suffix_cons l pre)) ?_ ?_ hd
        · intro h
          have := hzp.length_le; rw [h] at this; simp at this; omega
        · intro s h1 h2 h3 h4
          rcases List.suffix_cons_iff.mp h1 with h | h
          · exact absurd h h4
          · exact hno' s h h2 h3

/-- The walk before any zone. -/
theorem walk_none (root : Node) (q : List Bytes) (rest : List Bytes) :
    ∀ (pre : List Bytes) (cur : Node) (depth : Nat), q = rest.reverse ++ pre →
      nodeAt root pre = some cur → (∀ s, s <:+ pre → s ≠ pre → ¬ IsCut root s) →
      ∃ w, Located root q w ∧ Reports root q (walk cur none depth rest) w := by
  induction rest with
  | nil =>
    intro pre cur depth hq hcur hno
    have hpq : pre = q := by simpa using hq.symm
    subst hpq
    cases hcut : cur.zcut with
    | true =>
      refine ⟨.data pre cur, ⟨⟨List.suffix_refl _, (isCut_iff hcur).mpr hcut, hno⟩, ?_, .inl hcur⟩, ?_⟩
      · rintro c ⟨hc, hzc, hnc, hcc, -⟩
        exact hnc (suffix_antisymm hzc hc)
      · simp [walk, hcut, Reports, hcur]
    | false =>
      refine ⟨.outside, ?_, by simp [walk, hcut, Reports]⟩
      intro s hs
      by_cases h : s = pre
      · subst h; rw [isCut_iff hcur, hcut]; simp
      · exact hno s hs h
  | cons l rest ih =>
    intro pre cur depth hq hcur hno
    have hq' : q = rest.reverse ++ l :: pre := by simpa using hq
    have hpq : pre <:+ q := ⟨(l :: rest).reverse, hq.symm⟩
    cases hcut : cur.zcut with
    | true =>
      have hz : IsZone root q pre := ⟨hpq, (isCut_iff hcur).mpr hcut, hno⟩
      have hlen : rest.length + 1 = q.length - pre.length := by rw [hq]; simp; omega
      simp only [walk, hcut, Option.isSome_none, Bool.and_false, cond_false, cond_true, Option.isSome_some]
      cases hf : cur.find l with
      | none =>
        obtain ⟨w, hw, hr⟩ := located_stop root q pre pre cur l rest hq' hcur hz
          (fun s h1 h2 h3 => absurd (suffix_antisymm h1 h2) h3) hf
        exact ⟨w, hw, hr _ rfl rfl hcur.symm hlen⟩
      | some next =>
        refine walk_auth root q pre cur hz hcur rest (l :: pre) next _ hq'
          (by rw [nodeAt_cons, hcur]; exact hf) (List.suffix_cons l pre) (by simp) ?_ hlen
        intro s h1 h2 h3 h4
        rcases List.suffix_cons_iff.mp h1 with h | h
        · exact absurd h h4
        · exact absurd (suffix_antisymm h h2) h3
    | false =>
      have hnc : ¬ IsCut root pre := by rw [isCut_iff hcur, hcut]; simp
      have hno' : ∀ s, s <:+ pre → ¬ IsCut root s := by
        intro s h1
        by_cases h : s = pre
        · rw [h]; exact hnc
        · exact hno s h1 h
      simp only [walk, hcut, Bool.false_and, cond_false]
      cases hf : cur.find l with
      | none =>
        refine ⟨.outside, ?_, by simp [Reports]⟩
        intro s hs
        rcases suffix_step hq' hs with h | h
        · exact hno' s h
        · exact not_isCut_of_none (nodeAt_none_of_suffix h (by rw [nodeAt_cons, hcur]; exact hf))
      | some next =>
        refine ih (l :: pre) next depth hq' (by rw [nodeAt_cons, hcur]; exact hf) ?_
        intro s h1 h2
        rcases List.suffix_cons_iff.mp h1 with h | h
        · exact absurd h h2
        · exact hno' s h

/-- Places are determined by the tree and the name. -/
theorem IsZone_unique {root : Node} {q z z' : List Bytes} (h : IsZone root q z) (h' : IsZone root q z') :
    z = z' := by
  rcases suffix_total h.1 h'.1 with hs | hs
  · exact Decidable.byContradiction fun hne => h'.2.2 z hs hne h.2.1
  · exact Decidable.byContradiction fun hne => h.2.2 z' hs (Ne.symm hne) h'.2.1

theorem IsReferral_unique {root : Node} {q z c c' : List Bytes} (h : IsReferral root q z c)
    (h' : IsReferral root q z c') : c = c' := by
  obtain ⟨a1, a2, a3, a4, a5⟩ := h
  obtain ⟨b1, b2, b3, b4, b5⟩ := h'
  rcases suffix_total a1 b1 with hs | hs
  · exact Decidable.byContradiction fun hne => b5 c hs a2 (Ne.symm a3) hne a4
  · exact Decidable.byContradiction fun hne => a5 c' hs b2 (Ne.symm b3) (Ne.symm hne) b4

theorem IsEncloser_unique {root : Node} {q e e' : List Bytes} (h : IsEncloser root q e)
    (h' : IsEncloser root q e') : e = e' :=
  suffix_antisymm (h'.2.2 e h.1 h.2.1) (h.2.2 e' h'.1 h'.2.1)

theorem HasData_unique {root : Node} {q : List Bytes} {n n' : Node} (h : HasData root q n)
    (h' : HasData root q n') : n = n' := by
  rcases h with h | ⟨h, e, he, hn⟩ <;> rcases h' with h' | ⟨h', e', he', hn'⟩
  · rw [h] at h'; cases h'; rfl
  · rw [h] at h'; cases h'
  · rw [h] at h'; cases h'
  · rw [IsEncloser_unique he he', hn'] at hn; cases hn; rfl

theorem Located_unique {root : Node} {q : List Bytes} {w w' : Place} (h : Located root q w)
    (h' : Located root q w') : w = w' := by
  cases w with
  | outside =>
    cases w' with
    | outside => rfl
    | referral z c => exact absurd h'.1.2.1 (h z h'.1.1)
    | data z n => exact absurd h'.1.2.1 (h z h'.1.1)
    | missing z => exact absurd h'.1.2.1 (h z h'.1.1)
  | referral z c =>
    cases w' with
    | outside => exact absurd h.1.2.1 (h' z h.1.1)
    | referral z' c' =>
      have hz := IsZone_unique h.1 h'.1
      subst hz
      rw [IsReferral_unique h.2 h'.2]
    | data z' n => rw [IsZone_unique h.1 h'.1] at h; exact absurd h.2 (h'.2.1 c)
    | missing z' => rw [IsZone_unique h.1 h'.1] at h; exact absurd h.2 (h'.2.1 c)
  | data z n =>
    cases w' with
    | outside => exact absurd h.1.2.1 (h' z h.1.1)
    | referral z' c' => rw [← IsZone_unique h.1 h'.1] at h'; exact absurd h'.2 (h.2.1 c')
    | data z' n' => rw [IsZone_unique h.1 h'.1, HasData_unique h.2.2 h'.2.2]
    | missing z' => exact absurd h.2.2 (h'.2.2 n)
  | missing z =>
    cases w' with
    | outside => exact absurd h.1.2.1 (h' z h.1.1)
    | referral z' c' => rw [← IsZone_unique h.1 h'.1] at h'; exact absurd h'.2 (h.2.1 c')
    | data z' n' => exact absurd h'.2.2 (h.2.2 n')
    | missing z' => rw [IsZone_unique h.1 h'.1]

theorem lstackGo_spec (ls : List Bytes) (hl : ∀ l ∈ ls, 1 ≤ l.length ∧ l.length ≤ 63) :
    ∀ (pre j : Bytes) (fuel : Nat), ls.length ≤ fuel →
      lstackGo (pre ++ (wireLabels ls ++ 0 :: j)) fuel pre.length = .ok ls := by
  induction ls with
  | nil =>
    intro pre j fuel hf
    have hr : rd (pre ++ (wireLabels [] ++ 0 :: j)) pre.length = .ok 0 := by
      rw [rd_lt (h := by simp [wireLabels])]; simp [wireLabels]
    cases fuel with
    | zero => simp only [lstackGo, hr, Outcome.bind_ok]; rfl
    | succ f => simp only [lstackGo, hr, Outcome.bind_ok]; rfl
  | cons l ls ih =>
    intro pre j fuel hf
    obtain ⟨f, rfl⟩ : ∃ f, fuel = f + 1 := ⟨fuel - 1, by simp at hf; omega⟩
    have h1 := hl l (by simp)
    have hn : (UInt8.ofNat l.length).toNat = l.length := toNat_ofNat_lt (by omega)
    have hr : rd (pre ++ (wireLabels (l :: ls) ++ 0 :: j)) pre.length = .ok (UInt8.ofNat l.length) := by
      rw [rd_lt (h := by simp [wireLabels])]; simp [wireLabels]
    have hne : ¬ UInt8.ofNat l.length = 0 := by
      intro h; rw [h] at hn; simp at hn; omega
    simp only [lstackGo, hr, Outcome.bind_ok, if_neg hne, hn]
    rw [decide_eq_true (by simp [wireLabels]; omega), assert_true, Outcome.bind_ok]
    have he : pre ++ (wireLabels (l :: ls) ++ 0 :: j) = (pre ++ UInt8.ofNat l.length :: l) ++ (wireLabels ls ++ 0 :: j) := by
      simp [wireLabels]
    have hlen : pre.length + 1 + l.length = (pre ++ UInt8.ofNat l.length :: l).length := by simp; omega
    rw [he, hlen, ih (fun x hx => hl x (by simp [hx])) _ j f (by simp at hf; omega), Outcome.bind_ok]
    congr 2
    have : (pre ++ UInt8.ofNat l.length :: l) ++ (wireLabels ls ++ 0 :: j) =
        (pre ++ [UInt8.ofNat l.length]) ++ (l ++ (wireLabels ls ++ 0 :: j)) := by simp
    rw [this, List.drop_append_of_le_length (by simp)]
    have : (pre ++ [UInt8.ofNat l.length]).drop (pre.length + 1) = [] := by
      apply List.drop_eq_nil_of_le; simp
    rw [this]; simp

theorem count_le_wireLen (ls : List Bytes) (hl : ∀ l ∈ ls, 1 ≤ l.length ∧ l.length ≤ 63) :
    2 * ls.length + 1 ≤ wireLen ls := by
  induction ls with
  | nil => simp [wireLen]
  | cons l ls ih =>
    have := ih fun x hx => hl x (by simp [hx])
    have := (hl l (by simp)).1
    simp [wireLen] at *; omega

theorem lstack_encode (ls : List Bytes) (h : WF ls) (j : Bytes) : lstack (encode ls true ++ j) = .ok ls := by
  unfold lstack
  rw [status_encode ls true j h]
  simp only [if_true, Outcome.bind_ok, decide_true, assert_true]
  have := lstackGo_spec ls h.1 [UInt8.ofNat (wireLen ls)] j 127
    (by have := count_le_wireLen ls h.1; have := h.2; omega)
  simpa [encode] using this

theorem wireLen_ne_two (ls : List Bytes) (h : WF ls) : wireLen ls ≠ 2 := by
  cases ls with
  | nil => simp [wireLen]
  | cons l r => have := (h.1 l (by simp)).1; have := wireLen_pos r; rw [wireLen_cons]; omega

theorem take_sum (a b : List Bytes) :
    (((a ++ b).take a.length).map fun l => l.length + 1).sum + wireLen b = wireLen (a ++ b) := by
  rw [List.take_left]; simp [wireLen]; omega

/-- The first assertions and the label stack of both searches. -/
theorem search_eq (root : Node) (q : List Bytes) (h : WF q) (j : Bytes) :
    search root (encode q true ++ j) =
      .ok (walk root none q.length q.reverse,
        bif decide ((walk root none q.length q.reverse).status = .noauth) then 0
        else ((q.take (walk root none q.length q.reverse).depth).map fun l => l.length + 1).sum) := by
  unfold search
  have hn : (UInt8.ofNat (wireLen q)).toNat = wireLen q := toNat_ofNat_lt (by have := h.2; omega)
  have h0 : UInt8.ofNat (wireLen q) ≠ 0 := by
    intro he; rw [he] at hn; have := wireLen_pos q; simp at hn; omega
  have h2 : UInt8.ofNat (wireLen q) ≠ 2 := by
    intro he; rw [he] at hn; exact wireLen_ne_two q h hn.symm
  rw [rd_encode_zero, Outcome.bind_ok, decide_eq_true h0, decide_eq_true h2, Bool.and_self, assert_true,
    Outcome.bind_ok, lstack_encode q h j, Outcome.bind_ok]

end Gdnsd.Tree
