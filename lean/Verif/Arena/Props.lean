/-
Properties of the arenas of zone data (C51).
-/
import Verif.Arena.Lemmas2
namespace Gdnsd.Arena

/-- No call goes wrong: no pool is freed twice, no pointer is read or written outside of its array, and
no string is written outside of a pool, however many strings and arenas there are. -/
theorem C51_safe (s : Sys) (g : Ghost) (r : Run s g) (op : Op) (hc : op.Can g) : ∃ s' x, s.step op = .ok (s', x) := by
  obtain ⟨s', x, e, _⟩ := step_ok (run_inv r) op hc
  exact ⟨s', x, e⟩

/-- Every string stored in an arena that was not destroyed, also by way of merges, is in memory that is
not freed, and still reads as it was stored. -/
theorem C51_kept (s : Sys) (g : Ghost) (r : Run s g) (x : Obj) (hx : x ∈ g.objs) :
    x.pool ∈ s.heap.live ∧ x.off + x.data.length ≤ 1024 ∧ (List.range x.data.length).map (fun j => s.heap.mem x.pool (x.off + j)) = x.data := by
  have I := run_inv r
  obtain ⟨a, k, h1, h2, h3, h4, _, h6⟩ := I.objs x hx
  refine ⟨(I.live _).mpr ⟨x.arena, k, a, h1, h2, h3⟩, h4, ?_⟩
  apply List.ext_getElem
  · simp
  · intro j hj hj'
    rw [List.getElem_map, List.getElem_range, h6 j hj']
    rw [List.getD_eq_getElem?_getD, List.getElem?_eq_getElem hj']
    rfl

/-- Any two of them have no byte in common. -/
theorem C51_disjoint (s : Sys) (g : Ghost) (r : Run s g) : g.objs.Pairwise Obj.Apart := (run_inv r).apart

/-- When all arenas are destroyed or merged into ones that are, all memory is freed. -/
theorem C51_no_leak (s : Sys) (g : Ghost) (r : Run s g) (h : ∀ k ∈ g.kinds, k = .gone) : s.heap.live = [] := by
  have I := run_inv r
  apply List.eq_nil_iff_forall_not_mem.mpr
  intro p hp
  obtain ⟨i, k, a, h1, _⟩ := (I.live p).mp hp
  have hl := (List.getElem?_eq_some_iff.mp h1).1
  rw [← I.len] at hl
  have hk := List.getElem?_eq_getElem hl
  have := h _ (List.getElem_mem hl)
  rw [this] at hk
  rw [I.gone i hk] at h1
  cases h1

/-- Executions from lists of calls, for examples. -/
def Op.canB (g : Ghost) : Op → Bool
  | .new => true
  | .dup a l => g.kinds[a]? == some .opened && (match l with | [] => false | n :: t => decide (n.toNat ≤ t.length))
  | .close a => g.kinds[a]? == some .opened || g.kinds[a]? == some .closed
  | .merge t s => g.kinds[t]? == some .opened && (g.kinds[s]? == some .opened || g.kinds[s]? == some .closed) && t != s
  | .destroy a => g.kinds[a]? == some .opened || g.kinds[a]? == some .closed

theorem Op.can_of {g : Ghost} {op : Op} (h : op.canB g = true) : op.Can g := by
  cases op with
  | new => trivial
  | dup a l =>
    unfold Op.canB at h
    rw [Bool.and_eq_true] at h
    refine ⟨by simpa using h.1, ?_⟩
    cases l with
    | nil => cases h.2
    | cons n t => exact ⟨n, t, rfl, by simpa using h.2⟩
  | close a => simpa [Op.canB, Op.Can] using h
  | merge t s => simpa [Op.canB, Op.Can, and_assoc] using h
  | destroy a => simpa [Op.canB, Op.Can] using h

def play : Sys → Ghost → List Op → Option (Sys × Ghost)
  | s, g, [] => some (s, g)
  | s, g, op :: l => if op.canB g then match s.step op with
      | .ok (s', r) => play s' (g.step r op) l
      | .ub => none
    else none

theorem play_run (l : List Op) : ∀ {s g s' g'}, Run s g → play s g l = some (s', g') → Run s' g' := by
  induction l with
  | nil => intro s g s' g' r h; cases h; exact r
  | cons op l ih =>
    intro s g s' g' r h
    unfold play at h
    split at h
    · rename_i hb
      split at h
      · rename_i s1 r1 he
        exact ih (.step s g op s1 r1 r (Op.can_of hb) he) h
      · cases h
    · cases h

/-- Beside C51: two arenas with more strings than fit into four pools, merged, and one string more. -/
def aRun : List Op := [.new, .new] ++ List.replicate 30 (.dup 0 (200 :: List.replicate 200 65)) ++ [.dup 1 [3, 66, 66, 66], .merge 0 1, .dup 0 [1, 67], .close 0]

example : ∃ s g, Run s g ∧ g.objs.length = 32 ∧ s.heap.live.length = 7 ∧ g.objs.head? = some ⟨0, 6, 1005, [1, 67]⟩ := by
  have hp : (play .init .init aRun).any (fun x => decide (x.2.objs.length = 32 ∧ x.1.heap.live.length = 7 ∧ x.2.objs.head? = some ⟨0, 6, 1005, [1, 67]⟩)) = true := by decide +kernel
  cases h : play .init .init aRun with
  | none => rw [h] at hp; cases hp
  | some x => rw [h] at hp; exact ⟨x.1, x.2, play_run _ .init h, of_decide_eq_true hp⟩

end Gdnsd.Arena
