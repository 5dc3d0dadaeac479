/-
Doubly linked lists in memory.
-/
import Verif.Connq.Spec
namespace Gdnsd.Connq

/-- The address of the first element, or `n`. -/
def firstId (l : List (Nat × Int)) (n : Option Nat) : Option Nat := match l with | [] => n | x :: _ => some x.1
/-- The address of the last element, or `p`. -/
def lastId (p : Option Nat) : List (Nat × Int) → Option Nat
  | [] => p
  | x :: r => lastId (some x.1) r

def ids (l : List (Nat × Int)) : List Nat := l.map (·.1)

/-- The part `l` of a linked list, after `p` and before `n`. -/
def Seg (m : Nat → Option Node) (p : Option Nat) : List (Nat × Int) → Option Nat → Prop
  | [], _ => True
  | x :: r, n => m x.1 = some ⟨firstId r n, p, x.2⟩ ∧ Seg m (some x.1) r n

/-- A memory with one address changed. -/
def upd (m : Nat → Option Node) (a : Nat) (v : Option Node) : Nat → Option Node := fun b => if b = a then v else m b

theorem upd_same (m : Nat → Option Node) (a : Nat) (v : Option Node) : upd m a v a = v := if_pos rfl
theorem upd_ne (m : Nat → Option Node) (a b : Nat) (v : Option Node) (h : b ≠ a) : upd m a v b = m b := if_neg h

theorem firstId_append (l1 l2 : List (Nat × Int)) (n : Option Nat) : firstId (l1 ++ l2) n = firstId l1 (firstId l2 n) := by cases l1 <;> rfl
theorem lastId_append (p : Option Nat) (l1 l2 : List (Nat × Int)) : lastId p (l1 ++ l2) = lastId (lastId p l1) l2 := by
  induction l1 generalizing p with
  | nil => rfl
  | cons x r ih => exact ih (some x.1)
theorem lastId_concat (p : Option Nat) (l : List (Nat × Int)) (x : Nat × Int) : lastId p (l ++ [x]) = some x.1 := by rw [lastId_append]; rfl

theorem seg_append (m : Nat → Option Node) (p : Option Nat) (l1 l2 : List (Nat × Int)) (n : Option Nat) :
    Seg m p (l1 ++ l2) n ↔ Seg m p l1 (firstId l2 n) ∧ Seg m (lastId p l1) l2 n := by
  induction l1 generalizing p with
  | nil => simp [Seg, lastId]
  | cons x r ih =>
    simp only [List.cons_append, Seg, lastId, ih, firstId_append]
    constructor
    · rintro ⟨h1, h2, h3⟩; exact ⟨⟨h1, h2⟩, h3⟩
    · rintro ⟨⟨h1, h2⟩, h3⟩; exact ⟨h1, h2, h3⟩

theorem seg_congr (m m' : Nat → Option Node) (p : Option Nat) (l : List (Nat × Int)) (n : Option Nat) (h : ∀ b ∈ ids l, m' b = m b) (hs : Seg m p l n) : Seg m' p l n := by
  induction l generalizing p with
  | nil => trivial
  | cons x r ih => exact ⟨(h x.1 (by simp [ids])).trans hs.1, ih _ (fun b hb => h b (List.mem_cons_of_mem _ hb)) hs.2⟩

theorem seg_upd (m : Nat → Option Node) (p : Option Nat) (l : List (Nat × Int)) (n : Option Nat) (a : Nat) (v : Option Node) (h : a ∉ ids l) (hs : Seg m p l n) :
    Seg (upd m a v) p l n := seg_congr m _ p l n (fun b hb => upd_ne m a b v (fun hc => h (hc ▸ hb))) hs

theorem seg_mem (m : Nat → Option Node) (p : Option Nat) (l : List (Nat × Int)) (n : Option Nat) (hs : Seg m p l n) (x : Nat × Int) (hx : x ∈ l) :
    ∃ nd, m x.1 = some nd ∧ nd.idle = x.2 := by
  induction l generalizing p with
  | nil => cases hx
  | cons y r ih =>
    rcases List.mem_cons.mp hx with rfl | hx
    · exact ⟨_, hs.1, rfl⟩
    · exact ih _ hs.2 hx

/-- The last element gets another successor. -/
theorem seg_setnext (m : Nat → Option Node) (p : Option Nat) (l : List (Nat × Int)) (x : Nat × Int) (n n' : Option Nat) (hx : x.1 ∉ ids l)
    (hs : Seg m p (l ++ [x]) n) : m x.1 = some ⟨n, lastId p l, x.2⟩ ∧ Seg (upd m x.1 (some ⟨n', lastId p l, x.2⟩)) p (l ++ [x]) n' := by
  obtain ⟨h1, h2, _⟩ := (seg_append m p l [x] n).mp hs
  refine ⟨h2, (seg_append _ p l [x] n').mpr ⟨?_, ?_, trivial⟩⟩
  · exact seg_upd m p l _ _ _ hx h1
  · exact upd_same _ _ _

/-- The first element gets another predecessor. -/
theorem seg_setprev (m : Nat → Option Node) (p p' : Option Nat) (l : List (Nat × Int)) (x : Nat × Int) (n : Option Nat) (hx : x.1 ∉ ids l)
    (hs : Seg m p (x :: l) n) : Seg (upd m x.1 (some ⟨firstId l n, p', x.2⟩)) p' (x :: l) n :=
  ⟨upd_same _ _ _, seg_upd m _ l _ _ _ hx hs.2⟩

/-- The memory holds the queue `l`. -/
structure Rep (t : Thread) (l : List (Nat × Int)) : Prop where
  seg : Seg t.mem none l none
  head : t.head = firstId l none
  tail : t.tail = lastId none l
  num : t.num = l.length
  nodup : (ids l).Nodup

theorem get_some {t : Thread} {a : Nat} {n : Node} (h : t.mem a = some n) : get t a = .ok n := by unfold get; rw [h]
theorem put_some {t : Thread} {a : Nat} {n : Node} (n' : Node) (h : t.mem a = some n) : put t a n' = .ok { t with mem := upd t.mem a (some n') } := by
  unfold put; rw [h]; rfl
theorem free_some {t : Thread} {a : Nat} {n : Node} (h : t.mem a = some n) : free t a = .ok { t with mem := upd t.mem a none } := by
  unfold free; rw [h]; rfl

theorem lastId_some (x : Nat × Int) (r : List (Nat × Int)) (p : Option Nat) : ∃ b, lastId p (x :: r) = some b := by
  induction r generalizing x p with
  | nil => exact ⟨_, rfl⟩
  | cons y r ih => exact ih y (some x.1)

theorem lastId_some' (p : Option Nat) (l : List (Nat × Int)) (h : l ≠ []) : ∃ b, lastId p l = some b ∧ b ∈ ids l := by
  induction l generalizing p with
  | nil => exact absurd rfl h
  | cons x r ih =>
    cases r with
    | nil => exact ⟨x.1, rfl, by simp [ids]⟩
    | cons y r =>
      obtain ⟨b, h1, h2⟩ := ih (some x.1) (by simp)
      exact ⟨b, h1, List.mem_cons_of_mem _ h2⟩

theorem walk_ok (t : Thread) (l : List (Nat × Int)) : ∀ (pre : List (Nat × Int)) (fuel ct : Nat), l.length ≤ fuel → Seg t.mem (lastId none pre) l none →
    t.head = firstId (pre ++ l) none → t.tail = lastId none (pre ++ l) → walk t fuel (firstId l none) ct = .ok (ct + l.length) := by
  induction l with
  | nil => intro pre fuel ct _ _ _ _; cases fuel <;> rfl
  | cons x r ih =>
    intro pre fuel ct hf hs hh ht
    obtain ⟨fuel, rfl⟩ : ∃ f, fuel = f + 1 := ⟨fuel - 1, by simp at hf; omega⟩
    show walk t (fuel + 1) (some x.1) ct = _
    unfold walk
    rw [get_some hs.1]
    simp only [Outcome.bind_ok]
    have a1 : (decide (some x.1 = t.tail) || (firstId r none).isSome) = true := by
      cases r with
      | nil => rw [ht, lastId_concat]; simp
      | cons y r => simp [firstId]
    have a2 : (decide (some x.1 = t.head) || (lastId none pre).isSome) = true := by
      cases pre with
      | nil => rw [hh]; simp [firstId]
      | cons y r =>
        obtain ⟨b, hb⟩ := lastId_some y r none
        rw [hb]; simp
    rw [a1, a2]
    simp only [assert_true, Outcome.bind_ok]
    have h1 : lastId none (pre ++ [x]) = some x.1 := lastId_concat _ _ _
    have h2 : pre ++ [x] ++ r = pre ++ x :: r := by simp
    rw [ih (pre ++ [x]) fuel (ct + 1) (by simp at hf; omega) (by rw [h1]; exact hs.2) (by rw [h2]; exact hh) (by rw [h2]; exact ht)]
    simp; omega

theorem last_node (m : Nat → Option Node) (l : List (Nat × Int)) (h : Seg m none l none) (hl : l ≠ []) : ∃ b nd, lastId none l = some b ∧ m b = some nd ∧ nd.next = none := by
  rcases List.eq_nil_or_concat l with h0 | ⟨l0, x, h0⟩
  · exact absurd h0 hl
  · have h0 : l = l0 ++ [x] := by simpa using h0
    subst h0
    obtain ⟨_, h2, _⟩ := (seg_append m none l0 [x] none).mp h
    exact ⟨x.1, _, lastId_concat _ _ _, h2, rfl⟩

/-- The assertions about the queue hold. -/
theorem sane_ok (t : Thread) (l : List (Nat × Int)) (h : Rep t l) (hm : l.length ≤ t.max) : sane t = .ok () := by
  unfold sane
  cases l with
  | nil =>
    rw [if_pos (show t.num = 0 from h.num), h.head, h.tail]; rfl
  | cons x r =>
    rw [if_neg (by rw [h.num]; simp), show decide (t.num ≤ t.max) = true from decide_eq_true (by rw [h.num]; exact hm)]
    simp only [assert_true, Outcome.bind_ok]
    obtain ⟨b, nd, h1, h2, h3⟩ := last_node t.mem _ h.seg (by simp)
    have e1 : t.head = some x.1 := h.head
    have e2 : t.tail = some b := h.tail.trans h1
    rw [e1, e2]
    dsimp only
    rw [get_some h.seg.1]
    simp only [Outcome.bind_ok, Option.isNone_none, assert_true]
    rw [get_some h2]
    simp only [Outcome.bind_ok]
    rw [h3]
    simp only [Outcome.bind_ok, Option.isNone_none, assert_true]
    have := walk_ok t (x :: r) [] t.num 0 (by rw [h.num]; exact Nat.le_refl _) h.seg h.head h.tail
    rw [show firstId (x :: r) none = some x.1 from rfl] at this
    rw [this]
    simp only [Outcome.bind_ok]
    rw [Nat.zero_add, h.num]
    simp

/-- What `connq_adjust_timer` sets. -/
def adjTimer (t : Thread) (l : List (Nat × Int)) : Option Int :=
  match l with
  | [] => none
  | x :: _ => if t.grace then t.timer else some (t.now + if t.timeout + 250 - (t.now - x.2) < 250 then 250 else t.timeout + 250 - (t.now - x.2))

theorem adjust_ok (t : Thread) (l : List (Nat × Int)) (h : Rep t l) (hm : l.length ≤ t.max) : adjust t = .ok { t with timer := adjTimer t l } := by
  unfold adjust
  rw [sane_ok t l h hm, h.head]
  simp only [Outcome.bind_ok]
  cases l with
  | nil =>
    rw [show t.num = 0 from h.num]
    rfl
  | cons x r =>
    dsimp only [firstId, adjTimer]
    cases hg : t.grace with
    | true =>
      simp only [if_true]
      rw [show some x.1 = t.head from h.head.symm, ← hg]
    | false =>
      simp only [Bool.false_eq_true, if_false]
      rw [get_some h.seg.1]
      rfl

theorem rep_timer {t : Thread} {l : List (Nat × Int)} (h : Rep t l) (d : Option Int) : Rep { t with timer := d } l := ⟨h.seg, h.head, h.tail, h.num, h.nodup⟩

theorem ids_append (l1 l2 : List (Nat × Int)) : ids (l1 ++ l2) = ids l1 ++ ids l2 := List.map_append
theorem ids_cons (x : Nat × Int) (l : List (Nat × Int)) : ids (x :: l) = x.1 :: ids l := rfl

end Gdnsd.Connq
