import Verif.Tree.TableLemmas
/-
C17: the hash table of a node's children is a map from labels to children.
-/
namespace Gdnsd.Table

/-- Insert a sequence of children, fresh payloads in hand; collects what each call returned. -/
def run {α} (hash : Bytes → UInt64) : List (Bytes × α) → Tbl α → Outcome (List α × Tbl α)
  | [], n => .ok ([], n)
  | (k, v) :: r, n =>
    (findOrAdd hash n k v).bind fun x =>
    (run hash r x.2).bind fun y => .ok (x.1 :: y.1, y.2)

/-- The first payload given for a label. -/
def first {α} (ops : List (Bytes × α)) (k : Bytes) : Option α := (ops.find? fun o => o.1 == k).map fun o => o.2

theorem first_append {α} (a b : List (Bytes × α)) (k : Bytes) : first (a ++ b) k = (first a k).or (first b k) := by
  unfold first; rw [List.find?_append]; cases a.find? fun o => o.1 == k <;> rfl

theorem run_spec {α} (hash : Bytes → UInt64) (ops : List (Bytes × α)) :
    ∀ (done : List (Bytes × α)) (n : Tbl α), Valid hash n → n.ccount ≤ done.length →
      done.length + ops.length ≤ 2 ^ 62 →
      (∀ k v, (hash k, k, v) ∈ entries n.tab ↔ first done k = some v) →
      ∃ vs n', run hash ops n = .ok (vs, n') ∧ Valid hash n' ∧
        (∀ k v, (hash k, k, v) ∈ entries n'.tab ↔ first (done ++ ops) k = some v) ∧
        vs.map some = ops.map fun o => first (done ++ ops) o.1 := by
  induction ops with
  | nil => intro done n hv _ _ h; exact ⟨[], n, rfl, hv, by simpa using h, rfl⟩
  | cons o ops ih =>
    intro done n hv hc hlen h
    obtain ⟨k, v⟩ := o
    simp only [List.length_cons] at hlen
    rcases findOrAdd_spec hv (by omega) k v with ⟨w, h1, h2⟩ | ⟨n', h1, h2, h3, h4, h5⟩
    · have hw := (h k w).mp h2
      obtain ⟨vs, n'', g1, g2, g3, g4⟩ := ih (done ++ [(k, v)]) n hv (by simp; omega) (by simp; omega) (by
        intro k' v'
        rw [h k' v', first_append]
        by_cases hk : k = k'
        · subst hk; rw [hw]; rfl
        · have : first [(k, v)] k' = none := by simp [first, hk]
          rw [this]; simp)
      rw [List.append_assoc] at g3 g4
      refine ⟨w :: vs, n'', by simp only [run, h1, Outcome.bind_ok, g1], g2, g3, ?_⟩
      rw [List.map_cons, List.map_cons, g4]
      congr 1
      rw [first_append, hw]; rfl
    · have hnone : first done k = none := by
        cases hf : first done k with
        | none => rfl
        | some w => exact absurd ((h k w).mpr hf) (h2 w)
      obtain ⟨vs, n'', g1, g2, g3, g4⟩ := ih (done ++ [(k, v)]) n' h3 (by simp; omega) (by simp; omega) (by
        intro k' v'
        rw [h5.mem_iff, List.mem_cons, h k' v', first_append]
        by_cases hk : k = k'
        · subst hk
          rw [hnone]
          simp [first]
          exact eq_comm
        · have : first [(k, v)] k' = none := by simp [first, hk]
          rw [this]; simp
          intro _ h; exact absurd h.symm hk)
      rw [List.append_assoc] at g3 g4
      refine ⟨v :: vs, n'', by simp only [run, h1, Outcome.bind_ok, g1], g2, g3, ?_⟩
      rw [List.map_cons, List.map_cons, g4]
      congr 1
      rw [first_append, hnone]
      simp [first]

/-- C17. After any sequence of insertions into an empty node, whatever the hash function,
every call has returned the child first created for its label, and looking up any label gives
exactly that child, or nothing if it was never inserted. No probe loop runs forever and no
slot outside the table is touched. -/
theorem C17_map {α} (hash : Bytes → UInt64) (ops : List (Bytes × α)) (h : ops.length ≤ 2 ^ 62) :
    ∃ vs n, run hash ops {} = .ok (vs, n) ∧ vs.map some = ops.map (fun o => first ops o.1) ∧
      ∀ k, find hash n k = .ok (first ops k) := by
  obtain ⟨vs, n, h1, h2, h3, h4⟩ := run_spec hash ops [] {} (.inl ⟨rfl, rfl⟩) (by simp) (by simpa using h)
    (by intro k v; simp [entries, first])
  simp only [List.nil_append] at h3 h4
  refine ⟨vs, n, h1, h4, ?_⟩
  intro k
  obtain ⟨r, hr, hr'⟩ := find_spec h2 k
  rw [hr]
  congr 1
  cases hf : first ops k with
  | some v => exact (hr' v).mpr ((h3 k v).mpr hf)
  | none =>
    cases r with
    | none => rfl
    | some v => have := (h3 k v).mp ((hr' v).mp rfl); rw [hf] at this; cases this

/-- A hash with many collisions; five labels, one twice. -/
example : ∃ vs n, run (fun k => UInt64.ofNat (k.length * 3)) [([97], 1), ([98], 2), ([97, 97], 3), ([99], 4), ([97], 5), ([100], 6)] {} = .ok (vs, n) ∧
    vs = [1, 2, 3, 4, 1, 6] ∧ n.ccount = 5 := ⟨_, _, rfl, rfl, rfl⟩

end Gdnsd.Table
