import Verif.Plugins.Spec
import Verif.Mon.Props
namespace Gdnsd.Plug
open Mon

theorem sttlMin_ok {tbl : List UInt32} {idx : List Nat} (h : InTbl tbl idx) :
    ∃ s, sttlMin tbl idx = .ok s ∧ isDown s = !(up tbl idx) ∧ ttl s = minTtl tbl idx ∧ Valid s := by
  obtain ⟨r, h1, h2, h3, h4, h5⟩ := minLoop_facts tbl idx TTLMASK h
  refine ⟨r, h1, ?_, ?_, h5 (by decide)⟩
  · rw [h2, show isDown TTLMASK = false by decide, up, Bool.false_or]
    simp [List.all_eq_not_any_not]
  · rw [h4]; rfl

theorem and_down (s : UInt32) : (s &&& DOWN = 0) ↔ isDown s = false := by
  rw [isDown_iff]; simp

theorem assertValid_ok {s : UInt32} (h : Valid s) : assertValid s = .ok () := by
  simp [assertValid, (valid_iff s).1 h]

theorem foldl_min_init (l : List UInt32) (a : Nat) :
    l.foldl (fun n v => min n (ttl v)) a = min a (l.foldl (fun n v => min n (ttl v)) (2 ^ 28 - 1)) ∨ a > 2 ^ 28 - 1 := by
  by_cases ha : a > 2 ^ 28 - 1
  · exact Or.inr ha
  left
  have key : ∀ (l : List UInt32) (a b : Nat), a ≤ b → l.foldl (fun n v => min n (ttl v)) a =
      min a (l.foldl (fun n v => min n (ttl v)) b) := by
    intro l
    induction l with
    | nil => intro a b h; simp; omega
    | cons x xs ih =>
      intro a b h
      simp only [List.foldl_cons]
      rw [ih (min a (ttl x)) (min b (ttl x)) (by omega)]
      have : xs.foldl (fun n v => min n (ttl v)) (min b (ttl x)) ≤ min b (ttl x) := by
        rw [ih (min b (ttl x)) (min b (ttl x)) (by omega)]; omega
      omega
  exact key l a _ (by omega)

theorem minTtl_le (tbl : List UInt32) (idx : List Nat) : minTtl tbl idx ≤ 2 ^ 28 - 1 := by
  have := (Mon.foldl_min (idx.filterMap (tbl[·]?)) (2 ^ 28 - 1)).1
  exact this

theorem minTtl_append (tbl : List UInt32) (a b : List Nat) :
    minTtl tbl (a ++ b) = min (minTtl tbl a) (minTtl tbl b) := by
  unfold minTtl
  rw [List.filterMap_append, List.foldl_append]
  have h := minTtl_le tbl a
  unfold minTtl at h
  rcases foldl_min_init (b.filterMap (tbl[·]?)) ((a.filterMap (tbl[·]?)).foldl (fun n v => min n (ttl v)) (2 ^ 28 - 1)) with h1 | h1
  · exact h1
  · omega

theorem clear_down (s : UInt32) : isDown (s &&& ~~~DOWN) = false ∧ ttl (s &&& ~~~DOWN) = ttl s ∧
    isForced (s &&& ~~~DOWN) = isForced s ∧ (Valid s → Valid (s &&& ~~~DOWN)) := by
  refine ⟨by rw [isDown_and]; simp [show isDown (~~~DOWN) = false by decide], ?_,
    by rw [isForced_and]; simp [show isForced (~~~DOWN) = true by decide], ?_⟩
  · rw [ttl_eq, ttl_eq, UInt32.and_assoc, show ~~~DOWN &&& TTLMASK = TTLMASK by decide]
  · rw [valid_iff, valid_iff, UInt32.and_assoc, UInt32.and_comm (~~~DOWN), ← UInt32.and_assoc]
    intro h; rw [h]; rfl

theorem set_down (s : UInt32) : isDown (s ||| DOWN) = true ∧ ttl (s ||| DOWN) = ttl s ∧
    isForced (s ||| DOWN) = isForced s ∧ (Valid s → Valid (s ||| DOWN)) := by
  refine ⟨by rw [isDown_or]; simp [show isDown DOWN = true by decide], ?_,
    by rw [isForced_or]; simp [show isForced DOWN = false by decide], fun h => Valid_or h (by decide)⟩
  rw [ttl_or, show ttl DOWN = 0 by decide, Nat.or_zero]

@[simp] theorem push_nil (r : Result) : r.push [] = r := by simp [Result.push]

theorem push_push (r : Result) (a b : List Addr) : (r.push a).push b = r.push (a ++ b) := by
  simp [Result.push]

/-- Room for these addresses. -/
def Room (lim : Limits) (r : Result) (as : List Addr) : Prop :=
  r.cname = none ∧ r.v4.length + (as.filterMap Addr.v4?).length ≤ lim.v4 ∧
  r.v6.length + (as.filterMap Addr.v6?).length ≤ lim.v6

theorem addAnysin_ok {lim : Limits} {r : Result} {a : Addr} (h : Room lim r [a]) :
    addAnysin lim r a = .ok (r.push [a]) := by
  obtain ⟨h1, h2, h3⟩ := h
  cases a with
  | v4 x =>
    have h4 : r.v4.length < lim.v4 := h2
    have e6 : [Addr.v4 x].filterMap Addr.v6? = [] := rfl
    have e4 : [Addr.v4 x].filterMap Addr.v4? = [x] := rfl
    simp only [addAnysin, h1, Result.push, h4, e4, e6, List.append_nil]; rfl
  | v6 x =>
    have h6 : r.v6.length < lim.v6 := h3
    have e6 : [Addr.v6 x].filterMap Addr.v6? = [x] := rfl
    have e4 : [Addr.v6 x].filterMap Addr.v4? = [] := rfl
    simp only [addAnysin, h1, Result.push, h6, e4, e6, List.append_nil]; rfl

theorem Room.cons {lim : Limits} {r : Result} {a : Addr} {as : List Addr} (h : Room lim r (a :: as)) :
    Room lim r [a] ∧ Room lim (r.push [a]) as := by
  obtain ⟨h1, h2, h3⟩ := h
  have e4 : (a :: as).filterMap Addr.v4? = [a].filterMap Addr.v4? ++ as.filterMap Addr.v4? := by
    rw [← List.filterMap_append]; rfl
  have e6 : (a :: as).filterMap Addr.v6? = [a].filterMap Addr.v6? ++ as.filterMap Addr.v6? := by
    rw [← List.filterMap_append]; rfl
  rw [e4, List.length_append] at h2
  rw [e6, List.length_append] at h3
  refine ⟨⟨h1, by omega, by omega⟩, h1, ?_, ?_⟩
  · simp only [Result.push, List.length_append]; omega
  · simp only [Result.push, List.length_append]; omega

theorem Room.sub {lim : Limits} {r : Result} {as bs : List Addr} (h : Room lim r bs) (hs : as.Sublist bs) :
    Room lim r as := by
  obtain ⟨h1, h2, h3⟩ := h
  have a4 := (hs.filterMap Addr.v4?).length_le
  have a6 := (hs.filterMap Addr.v6?).length_le
  exact ⟨h1, by omega, by omega⟩

theorem addAll_ok {lim : Limits} {as : List Addr} {r : Result} (h : Room lim r as) :
    addAll lim as r = .ok (r.push as) := by
  induction as generalizing r with
  | nil => simp [addAll]
  | cons a as ih =>
    obtain ⟨ha, hr⟩ := h.cons
    rw [addAll, addAnysin_ok ha]
    simp only [Outcome.bind_ok]
    rw [ih hr, push_push]; rfl

end Gdnsd.Plug
