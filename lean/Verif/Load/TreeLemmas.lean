import Verif.Load.Model
import Verif.Tree.Lemmas
/-
How adding, walking, decorating and merging change what a tree holds at each path.
-/
namespace Gdnsd.Load
open Enc Tree TreeSpec

theorem andThen_some {α β : Type} {x : Outcome (Option α)} {f : α → Outcome (Option β)} {b : β}
    (h : andThen x f = .ok (some b)) : ∃ a, x = .ok (some a) ∧ f a = .ok (some b) := by
  unfold andThen at h
  cases x with
  | ub => cases h
  | ok r =>
    cases r with
    | none => cases h
    | some a => exact ⟨a, rfl, h⟩

@[simp] theorem andThen_ok {α β : Type} (a : α) (f : α → Outcome (Option β)) : andThen (.ok (some a)) f = f a := rfl
@[simp] theorem andThen_none {α β : Type} (f : α → Outcome (Option β)) : andThen (.ok none) f = .ok none := rfl

theorem andThen_ne_ub {α β : Type} {x : Outcome (Option α)} {f : α → Outcome (Option β)} (hx : x ≠ .ub)
    (hf : ∀ a, x = .ok (some a) → f a ≠ .ub) : andThen x f ≠ .ub := by
  unfold andThen
  cases x with
  | ub => exact absurd rfl hx
  | ok r =>
    cases r with
    | none => intro h; cases h
    | some a => exact hf a rfl

theorem bind_some {α β : Type} {x : Outcome α} {f : α → Outcome β} {b : β}
    (h : x.bind f = .ok b) : ∃ a, x = .ok a ∧ f a = .ok b := by
  cases x with
  | ub => cases h
  | ok a => exact ⟨a, rfl, h⟩

theorem bind_ne_ub {α β : Type} {x : Outcome α} {f : α → Outcome β} (hx : x ≠ .ub)
    (hf : ∀ a, x = .ok a → f a ≠ .ub) : x.bind f ≠ .ub := by
  cases x with
  | ub => exact absurd rfl hx
  | ok a => exact hf a rfl

theorem fatal_some {c : Bool} {u : Unit} (h : fatal c = .ok (some u)) : c = false := by
  cases c with
  | false => rfl
  | true => cases h

theorem fatal_ne_ub (c : Bool) : fatal c ≠ .ub := by intro h; cases h

theorem warn_ne_ub (cfg : Cfg) (c : Bool) : warn cfg c ≠ .ub := fatal_ne_ub _

theorem assert_some {c : Bool} {u : Unit} (h : assert c = .ok u) : c = true := by
  cases c with
  | true => rfl
  | false => cases h

/-! ### Children -/

theorem lookupKid_setKid (kids : List (Bytes × Node)) (l k : Bytes) (c : Node) :
    lookupKid (setKid kids l c) k = if k = l then some c else lookupKid kids k := by
  induction kids with
  | nil =>
    simp only [setKid, lookupKid]
    by_cases h : l = k
    · rw [if_pos h, if_pos h.symm]
    · rw [if_neg h, if_neg (fun e => h e.symm)]
  | cons x r ih =>
    obtain ⟨y, n⟩ := x
    simp only [setKid]
    by_cases hy : y = l
    · rw [if_pos hy]
      simp only [lookupKid]
      by_cases h : y = k
      · rw [if_pos h, if_pos (by rw [← h, hy])]
      · rw [if_neg h, if_neg h, if_neg (fun e => h (by rw [hy, e]))]
    · rw [if_neg hy]
      simp only [lookupKid]
      by_cases h : y = k
      · rw [if_pos h, if_pos h, if_neg (fun e => hy (by rw [h, e]))]
      · rw [if_neg h, if_neg h, ih]

theorem lookupKid_mem {kids : List (Bytes × Node)} {l : Bytes} {c : Node} (h : lookupKid kids l = some c) :
    (l, c) ∈ kids := by
  induction kids with
  | nil => cases h
  | cons x r ih =>
    obtain ⟨y, n⟩ := x
    simp only [lookupKid] at h
    by_cases hy : y = l
    · rw [if_pos hy] at h; cases h; rw [hy]; exact List.mem_cons_self
    · rw [if_neg hy] at h; exact List.mem_cons_of_mem _ (ih h)

theorem lookupKid_of_mem {kids : List (Bytes × Node)} {l : Bytes} {c : Node} (hn : (kids.map Prod.fst).Nodup)
    (h : (l, c) ∈ kids) : lookupKid kids l = some c := by
  induction kids with
  | nil => cases h
  | cons x r ih =>
    obtain ⟨y, n⟩ := x
    rw [List.map_cons, List.nodup_cons] at hn
    simp only [lookupKid]
    rcases List.mem_cons.mp h with h | h
    · cases h; rw [if_pos rfl]
    · rw [if_neg, ih hn.2 h]
      intro e
      exact hn.1 (List.mem_map.mpr ⟨(l, c), h, e.symm⟩)

theorem setKid_keys (kids : List (Bytes × Node)) (l : Bytes) (c : Node) :
    (setKid kids l c).map Prod.fst = if l ∈ kids.map Prod.fst then kids.map Prod.fst else kids.map Prod.fst ++ [l] := by
  induction kids with
  | nil => simp [setKid]
  | cons x r ih =>
    obtain ⟨y, n⟩ := x
    simp only [setKid]
    by_cases hy : y = l
    · rw [if_pos hy, if_pos (by rw [← hy]; exact List.mem_cons_self)]; rfl
    · rw [if_neg hy, List.map_cons, ih, List.map_cons]
      by_cases hl : l ∈ r.map Prod.fst
      · rw [if_pos hl, if_pos (List.mem_cons_of_mem _ hl)]
      · rw [if_neg hl, if_neg]; · rfl
        intro h
        rcases List.mem_cons.mp h with h | h
        · exact hy h.symm
        · exact hl h

theorem setKid_nodup {kids : List (Bytes × Node)} (l : Bytes) (c : Node) (h : (kids.map Prod.fst).Nodup) :
    ((setKid kids l c).map Prod.fst).Nodup := by
  rw [setKid_keys]
  by_cases hl : l ∈ kids.map Prod.fst
  · rw [if_pos hl]; exact h
  · rw [if_neg hl, List.nodup_append]
    refine ⟨h, by simp, ?_⟩
    intro a ha b hb
    rw [List.mem_singleton.mp hb]
    intro e; exact hl (e ▸ ha)

/-! ### What a tree holds at a path -/

/-- Flag and record sets of the node at a path. -/
def view (n : Node) (p : List Bytes) : Option (Bool × List RRset) := (follow n p).map fun m => (m.zcut, m.rrs)

theorem view_nil (n : Node) : view n [] = some (n.zcut, n.rrs) := rfl

theorem view_cons (n : Node) (l : Bytes) (p : List Bytes) : view n (l :: p) = (n.find l).bind fun c => view c p := by
  unfold view
  simp only [follow]
  cases n.find l <;> rfl

theorem view_empty_cons (l : Bytes) (p : List Bytes) : view .empty (l :: p) = none := rfl

theorem find_setKid (zc : Bool) (rrs : List RRset) (kids : List (Bytes × Node)) (l k : Bytes) (c : Node) :
    (Node.mk zc rrs (setKid kids l c)).find k = if k = l then some c else lookupKid kids k :=
  lookupKid_setKid kids l k c

/-- Changing the node at a path. -/
theorem updAt_view {f : Node → Outcome (Option Node)} (hf : ∀ m m', f m = .ok (some m') → m'.kids = m.kids)
    (path : List Bytes) : ∀ (n n' : Node), updAt f path n = .ok (some n') →
    ∃ m m', (view n path).getD (false, []) = (m.zcut, m.rrs) ∧ f m = .ok (some m') ∧
      ∀ p, view n' p = if p = path then some (m'.zcut, m'.rrs)
        else if p <+: path then some ((view n p).getD (false, [])) else view n p := by
  induction path with
  | nil =>
    intro n n' h
    refine ⟨n, n', rfl, h, ?_⟩
    intro p
    have hk := hf n n' h
    cases p with
    | nil => simp [view_nil]
    | cons l p =>
      rw [if_neg (by simp), if_neg (by simp), view_cons, view_cons]
      unfold Node.find; rw [hk]
  | cons l r ih =>
    intro n n' h
    obtain ⟨c, hc, hn⟩ := andThen_some h
    cases hn
    obtain ⟨m, m', h1, h2, h3⟩ := ih _ _ hc
    have hg : ∀ p, (view ((n.find l).getD .empty) p).getD (false, []) = (view n (l :: p)).getD (false, []) := by
      intro p
      rw [view_cons]
      cases n.find l with
      | some c => rfl
      | none => cases p <;> rfl
    refine ⟨m, m', by rw [← hg]; exact h1, h2, ?_⟩
    intro p
    cases p with
    | nil => rw [if_neg (by simp), if_pos (by simp)]; rfl
    | cons k p =>
      rw [view_cons, find_setKid]
      by_cases hk : k = l
      · subst hk
        rw [if_pos rfl, Option.bind_some, h3]
        simp only [List.cons.injEq, true_and, List.cons_prefix_cons]
        by_cases h4 : p = r
        · rw [if_pos h4, if_pos h4]
        · rw [if_neg h4, if_neg h4]
          by_cases h5 : p <+: r
          · rw [if_pos h5, if_pos h5, hg]
          · rw [if_neg h5, if_neg h5, view_cons]
            cases n.find k with
            | some c => rfl
            | none =>
              cases p with
              | nil => exact absurd (List.nil_prefix) h5
              | cons _ _ => rfl
      · rw [if_neg hk, if_neg (by simp [hk]), if_neg (by simp [List.cons_prefix_cons, hk]), view_cons]
        rfl

/-! ### Trees without repeated labels -/

mutual
/-- No node has two children with the same label. -/
def Tidy : Node → Prop
  | .mk _ _ kids => (kids.map Prod.fst).Nodup ∧ TidyKids kids
def TidyKids : List (Bytes × Node) → Prop
  | [] => True
  | (_, c) :: r => Tidy c ∧ TidyKids r
end

theorem TidyKids_iff (kids : List (Bytes × Node)) : TidyKids kids ↔ ∀ x ∈ kids, Tidy x.2 := by
  induction kids with
  | nil => simp [TidyKids]
  | cons x r ih => obtain ⟨l, c⟩ := x; simp [TidyKids, ih]

theorem Tidy_iff (n : Node) : Tidy n ↔ (n.kids.map Prod.fst).Nodup ∧ ∀ x ∈ n.kids, Tidy x.2 := by
  cases n with
  | mk zc rrs kids => simp only [Tidy, TidyKids_iff, Node.kids]

theorem Tidy_empty : Tidy .empty := by rw [Tidy_iff]; simp [Node.empty, Node.kids]

theorem Tidy_find {n c : Node} {l : Bytes} (h : Tidy n) (hf : n.find l = some c) : Tidy c :=
  ((Tidy_iff n).mp h).2 _ (lookupKid_mem hf)

theorem setKid_mem {kids : List (Bytes × Node)} {l : Bytes} {c : Node} {x : Bytes × Node} (h : x ∈ setKid kids l c) :
    x ∈ kids ∨ x.2 = c := by
  induction kids with
  | nil => rw [List.mem_singleton.mp h]; exact .inr rfl
  | cons y r ih =>
    obtain ⟨k, n⟩ := y
    simp only [setKid] at h
    by_cases hk : k = l
    · rw [if_pos hk] at h
      rcases List.mem_cons.mp h with h | h
      · rw [h]; exact .inr rfl
      · exact .inl (List.mem_cons_of_mem _ h)
    · rw [if_neg hk] at h
      rcases List.mem_cons.mp h with h | h
      · exact .inl (h ▸ List.mem_cons_self)
      · rcases ih h with h | h
        · exact .inl (List.mem_cons_of_mem _ h)
        · exact .inr h

theorem Tidy_setKid {zc : Bool} {rrs : List RRset} {kids : List (Bytes × Node)} (l : Bytes) {c : Node}
    (h1 : (kids.map Prod.fst).Nodup) (h2 : ∀ x ∈ kids, Tidy x.2) (hc : Tidy c) : Tidy (.mk zc rrs (setKid kids l c)) := by
  rw [Tidy_iff]
  refine ⟨setKid_nodup l c h1, ?_⟩
  intro x hx
  rcases setKid_mem hx with hx | hx
  · exact h2 x hx
  · rw [hx]; exact hc

theorem updAt_tidy {f : Node → Outcome (Option Node)} (hf : ∀ m m', f m = .ok (some m') → m'.kids = m.kids)
    (path : List Bytes) : ∀ (n n' : Node), Tidy n → updAt f path n = .ok (some n') → Tidy n' := by
  induction path with
  | nil =>
    intro n n' ht h
    rw [Tidy_iff] at ht ⊢
    rw [hf n n' h]; exact ht
  | cons l r ih =>
    intro n n' ht h
    obtain ⟨c, hc, hn⟩ := andThen_some h
    cases hn
    have hc' : Tidy ((n.find l).getD .empty) := by
      cases h : n.find l with
      | none => exact Tidy_empty
      | some c => exact Tidy_find ht h
    have ht' := (Tidy_iff n).mp ht
    exact Tidy_setKid l ht'.1 ht'.2 (ih _ _ hc' hc)

theorem follow_tidy {n m : Node} {p : List Bytes} (h : Tidy n) (hf : follow n p = some m) : Tidy m := by
  induction p generalizing n with
  | nil => cases hf; exact h
  | cons l r ih =>
    simp only [follow] at hf
    cases hc : n.find l with
    | none => rw [hc] at hf; cases hf
    | some c => rw [hc] at hf; exact ih (Tidy_find h hc) hf

end Gdnsd.Load
