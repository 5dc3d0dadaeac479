import Verif.Load.TreeLemmas
/-
The walk over a zone visits every node, and decorating a tree keeps its shape.
-/
namespace Gdnsd.Load
open Enc Tree TreeSpec

/-! ### The walk -/

theorem procKids_mem {fn : Node → List Bytes → Bool → Outcome (Option Unit)} {kids : List (Bytes × Node)}
    {name : List Bytes} {d : Bool} (h : procKids fn kids name d = .ok (some ())) {l : Bytes} {c : Node} (hc : (l, c) ∈ kids) :
    procInner fn c (l :: name) d = .ok (some ()) := by
  induction kids with
  | nil => cases hc
  | cons x r ih =>
    obtain ⟨k, n⟩ := x
    rw [procKids] at h
    obtain ⟨_, _, h⟩ := bind_some h
    obtain ⟨_, h1, h2⟩ := andThen_some h
    rcases List.mem_cons.mp hc with hc | hc
    · cases hc; exact h1
    · exact ih h2 hc

theorem procInner_some {fn : Node → List Bytes → Bool → Outcome (Option Unit)} {n : Node}
    {name : List Bytes} {d : Bool} (h : procInner fn n name d = .ok (some ())) :
    ((n.zcut && !name.isEmpty) && d) = false ∧ fn n name (d || (n.zcut && !name.isEmpty)) = .ok (some ()) ∧
    ∀ l c, n.find l = some c → procInner fn c (l :: name) (d || (n.zcut && !name.isEmpty)) = .ok (some ()) := by
  cases n with
  | mk zc rrs kids =>
    rw [procInner] at h
    obtain ⟨_, h1, h⟩ := andThen_some h
    obtain ⟨_, h2, h3⟩ := andThen_some h
    exact ⟨fatal_some h1, h2, fun l c hc => procKids_mem h3 (lookupKid_mem hc)⟩

/-- A delegation at a path below `n`, whose own name is `name`. -/
def CutAt (n : Node) (name s : List Bytes) : Prop := ∃ k, follow n s = some k ∧ k.zcut = true ∧ s.reverse ++ name ≠ []

theorem CutAt_cons {n c : Node} {l : Bytes} {name s : List Bytes} (h : n.find l = some c) :
    CutAt n name (l :: s) ↔ CutAt c (l :: name) s := by
  unfold CutAt
  simp only [follow, h, Option.bind_some, List.reverse_cons, List.append_assoc, List.singleton_append]

theorem CutAt_nil (n : Node) (name : List Bytes) : CutAt n name [] ↔ (n.zcut && !name.isEmpty) = true := by
  unfold CutAt
  simp [follow]

theorem procInner_spec {fn : Node → List Bytes → Bool → Outcome (Option Unit)} (p : List Bytes) :
    ∀ (n : Node) (name : List Bytes) (d : Bool) (m : Node), procInner fn n name d = .ok (some ()) → follow n p = some m →
    (∃ d', fn m (p.reverse ++ name) d' = .ok (some ()) ∧ (d' = true ↔ d = true ∨ ∃ s, s <+: p ∧ CutAt n name s)) ∧
    (d = true → ¬ CutAt n name p) ∧ (∀ s, s <+: p → CutAt n name s → CutAt n name p → s = p) := by
  induction p with
  | nil =>
    intro n name d m h hm
    cases hm
    obtain ⟨h1, h2, -⟩ := procInner_some h
    refine ⟨⟨_, h2, ?_⟩, ?_, ?_⟩
    · simp only [Bool.or_eq_true, List.prefix_nil]
      constructor
      · rintro (h | h)
        · exact .inl h
        · exact .inr ⟨[], rfl, (CutAt_nil n name).mpr (by rw [Bool.and_eq_true]; simpa using h)⟩
      · rintro (h | ⟨s, rfl, h⟩)
        · exact .inl h
        · exact .inr ((CutAt_nil n name).mp h)
    · intro hd hc
      rw [(CutAt_nil n name).mp hc, hd] at h1; cases h1
    · intro s hs _ _; exact List.prefix_nil.mp hs
  | cons l r ih =>
    intro n name d m h hm
    obtain ⟨h1, -, h3⟩ := procInner_some h
    simp only [follow] at hm
    cases hc : n.find l with
    | none => rw [hc] at hm; cases hm
    | some c =>
      rw [hc] at hm
      obtain ⟨⟨d', i1, i2⟩, i3, i4⟩ := ih c (l :: name) _ m (h3 l c hc) hm
      refine ⟨⟨d', ?_, ?_⟩, ?_, ?_⟩
      · rw [List.reverse_cons, List.append_assoc]; exact i1
      · rw [i2, Bool.or_eq_true, ← CutAt_nil]
        constructor
        · rintro ((h | h) | ⟨s, hs, h⟩)
          · exact .inl h
          · exact .inr ⟨[], List.nil_prefix, h⟩
          · exact .inr ⟨l :: s, List.cons_prefix_cons.mpr ⟨rfl, hs⟩, (CutAt_cons hc).mpr h⟩
        · rintro (h | ⟨s, hs, h⟩)
          · exact .inl (.inl h)
          · cases s with
            | nil => exact .inl (.inr h)
            | cons k s =>
              obtain ⟨rfl, hs'⟩ := List.cons_prefix_cons.mp hs
              exact .inr ⟨s, hs', (CutAt_cons hc).mp h⟩
      · intro hd hcut
        exact i3 (by rw [hd]; rfl) ((CutAt_cons hc).mp hcut)
      · intro s hs hs1 hs2
        cases s with
        | nil =>
          exact absurd ((CutAt_cons hc).mp hs2) (i3 (by rw [(CutAt_nil n name).mp hs1, Bool.or_true]))
        | cons k s =>
          obtain ⟨rfl, hs'⟩ := List.cons_prefix_cons.mp hs
          rw [i4 s hs' ((CutAt_cons hc).mp hs1) ((CutAt_cons hc).mp hs2)]

/-- What a completed walk from the root of a zone says about each name. -/
theorem procInner_root {fn : Node → List Bytes → Bool → Outcome (Option Unit)} {root : Node}
    (h : procInner fn root [] false = .ok (some ())) (x : List Bytes) (m : Node) (hm : nodeAt root x = some m) :
    (∃ d', fn m x d' = .ok (some ()) ∧ (d' = true ↔ ∃ s, s ≠ [] ∧ s <:+ x ∧ IsCut root s)) ∧
    (∀ s, s ≠ [] → s <:+ x → IsCut root s → IsCut root x → s = x) := by
  obtain ⟨⟨d', h1, h2⟩, -, h4⟩ := procInner_spec x.reverse root [] false m h hm
  have key : ∀ s, CutAt root [] s.reverse ↔ s ≠ [] ∧ IsCut root s := by
    intro s
    unfold CutAt IsCut nodeAt
    constructor
    · rintro ⟨k, a, b, c⟩; exact ⟨by simpa using c, k, a, b⟩
    · rintro ⟨c, k, a, b⟩; exact ⟨k, a, b, by simpa using c⟩
  refine ⟨⟨d', by simpa using h1, ?_⟩, ?_⟩
  · rw [h2]
    constructor
    · rintro (h | ⟨s, hs, hc⟩)
      · cases h
      · rw [← List.reverse_reverse s, key] at hc
        refine ⟨s.reverse, hc.1, ?_, hc.2⟩
        rw [← List.reverse_prefix, List.reverse_reverse]; exact hs
    · rintro ⟨s, h1, h2, h3⟩
      exact .inr ⟨s.reverse, List.reverse_prefix.mpr h2, (key s).mpr ⟨h1, h3⟩⟩
  · intro s hs1 hs2 hs3 hx
    have hx0 : x ≠ [] := by rintro rfl; exact hs1 (List.suffix_nil.mp hs2)
    have := h4 s.reverse (List.reverse_prefix.mpr hs2) ((key s).mpr ⟨hs1, hs3⟩) ((key x).mpr ⟨hx0, hx⟩)
    exact List.reverse_inj.mp this

/-! ### Decorating -/

theorem attach_zcut (z : Zone) (n : Node) : (attach z n).zcut = n.zcut := by
  cases n with | mk zc rrs kids => simp [attach, Node.zcut]

theorem attach_rrs (z : Zone) (n : Node) : (attach z n).rrs = n.rrs.map (withGlue z) := by
  cases n with | mk zc rrs kids => simp [attach, Node.rrs]

theorem attachKids_lookup (z : Zone) (kids : List (Bytes × Node)) (l : Bytes) :
    lookupKid (attachKids z kids) l = (lookupKid kids l).map (attach z) := by
  induction kids with
  | nil => rfl
  | cons x r ih =>
    obtain ⟨k, n⟩ := x
    rw [attachKids]
    simp only [lookupKid]
    by_cases h : k = l
    · rw [if_pos h, if_pos h]; rfl
    · rw [if_neg h, if_neg h, ih]

theorem attach_find (z : Zone) (n : Node) (l : Bytes) : (attach z n).find l = (n.find l).map (attach z) := by
  cases n with
  | mk zc rrs kids => unfold Node.find; rw [attach]; exact attachKids_lookup z kids l

theorem attach_follow (z : Zone) (p : List Bytes) (n : Node) : follow (attach z n) p = (follow n p).map (attach z) := by
  induction p generalizing n with
  | nil => rfl
  | cons l r ih =>
    simp only [follow, attach_find]
    cases n.find l with
    | none => rfl
    | some c => exact ih c

theorem attach_nodeAt (z : Zone) (n : Node) (x : List Bytes) : nodeAt (attach z n) x = (nodeAt n x).map (attach z) :=
  attach_follow z x.reverse n

theorem attach_isCut (z : Zone) (n : Node) (x : List Bytes) : IsCut (attach z n) x ↔ IsCut n x := by
  unfold IsCut
  rw [attach_nodeAt]
  cases nodeAt n x with
  | none => simp
  | some m => simp [attach_zcut]

theorem attach_present (z : Zone) (n : Node) (x : List Bytes) : Present (attach z n) x ↔ Present n x := by
  unfold Present
  rw [attach_nodeAt]
  cases nodeAt n x <;> simp

end Gdnsd.Load
