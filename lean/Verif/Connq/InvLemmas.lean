/-
The invariant of a thread's queue, kept by every event.
-/
import Verif.Connq.EventLemmas
import Verif.Connq.Spec
namespace Gdnsd.Connq

structure Inv (t : Thread) (l : List (Nat × Int)) : Prop where
  rep : Rep t l
  only : ∀ b, b ∉ ids l → t.mem b = none
  sorted : l.Pairwise (fun x y => x.2 ≤ y.2)
  past : ∀ x ∈ l, x.2 ≤ t.now
  lim : l.length < t.max
  two : 2 ≤ t.max
  off : l = [] → t.timer = none
  on : l ≠ [] → ∃ d, t.timer = some d
  acc : t.grace = true → t.accepting = false
  due : t.grace = false → ∀ x r, l = x :: r → ∃ a, a ≤ t.now ∧ t.timer = some (max (x.2 + t.timeout + 250) (a + 250))

/-- The queue after an event. -/
def after (t : Thread) (l : List (Nat × Int)) : Event → List (Nat × Int)
  | .connect a => if l.length + 1 = t.max then (l ++ [(a, t.now)]).tail else l ++ [(a, t.now)]
  | .request a => l.filter (fun x => decide (x.1 ≠ a)) ++ [(a, t.now)]
  | .gone a => l.filter (fun x => decide (x.1 ≠ a))
  | .full => l.tail
  | .tick _ => l
  | .fire => if t.grace then [] else l.dropWhile fun x => decide (x.2 ≤ t.now - t.timeout)
  | .stop fails => l.filter fun x => !fails x.1

theorem mem_split {l : List (Nat × Int)} {a : Nat} (h : a ∈ ids l) : ∃ l1 i l2, l = l1 ++ (a, i) :: l2 := by
  obtain ⟨x, hx, rfl⟩ := List.mem_map.mp h
  obtain ⟨l1, l2, e⟩ := List.append_of_mem hx
  exact ⟨l1, x.2, l2, e⟩

theorem filter_ne {l : List (Nat × Int)} {a : Nat} (h : a ∉ ids l) : l.filter (fun x => decide (x.1 ≠ a)) = l := by
  rw [List.filter_eq_self]
  intro x hx
  simp only [ne_eq, decide_not, Bool.not_eq_true', decide_eq_false_iff_not]
  exact fun hc => h (List.mem_map.mpr ⟨x, hx, hc⟩)

theorem filter_mid {l1 l2 : List (Nat × Int)} {x : Nat × Int} (h : (ids (l1 ++ x :: l2)).Nodup) :
    (l1 ++ x :: l2).filter (fun y => decide (y.1 ≠ x.1)) = l1 ++ l2 := by
  have n := (nodup_mid h).2.1
  rw [ids_append, List.mem_append] at n
  rw [List.filter_append, filter_ne (fun hc => n (.inl hc)), List.filter_cons_of_neg (by simp), filter_ne (fun hc => n (.inr hc))]

theorem mem_ids {t : Thread} {l : List (Nat × Int)} (h : Inv t l) {b : Nat} (hb : t.mem b ≠ none) : b ∈ ids l :=
  Classical.byContradiction fun hc => hb (h.only b hc)

theorem adj_due (t : Thread) (x : Nat × Int) (r : List (Nat × Int)) (hg : t.grace = false) :
    adjTimer t (x :: r) = some (max (x.2 + t.timeout + 250) (t.now + 250)) := by
  unfold adjTimer
  simp only [hg, Bool.false_eq_true, if_false]
  congr 1
  split <;> omega

/-- What remains of an invariant when some connections leave. -/
theorem sub_inv {t t' : Thread} {l l' : List (Nat × Int)} (h : Inv t l) (hr : Rep t' l') (hs : l'.Sublist l) (hm : t'.max = t.max) (hn : t'.now = t.now) (hT : t'.timeout = t.timeout)
    (hgr : t'.grace = true → t'.accepting = false) (hmem : ∀ b, b ∉ ids l' → t'.mem b = none)
    (hoff : l' = [] → t'.timer = none) (hon : l' ≠ [] → ∃ d, t'.timer = some d)
    (hdue : t'.grace = false → ∀ x r, l' = x :: r → ∃ a, a ≤ t.now ∧ t'.timer = some (max (x.2 + t.timeout + 250) (a + 250))) : Inv t' l' where
  rep := hr
  only := hmem
  sorted := h.sorted.sublist hs
  past := fun x hx => by rw [hn]; exact h.past x (hs.subset hx)
  lim := by rw [hm]; exact Nat.lt_of_le_of_lt hs.length_le h.lim
  two := by rw [hm]; exact h.two
  off := hoff
  on := hon
  acc := hgr
  due := by rw [hn, hT]; exact hdue

/-- One connection leaves. -/
theorem gone_inv {t : Thread} {l1 l2 : List (Nat × Int)} {x : Nat × Int} (h : Inv t (l1 ++ x :: l2)) :
    ∃ t', destruct t x.1 true = .ok t' ∧ Inv t' (l1 ++ l2) ∧ Same t t' ∧ t'.timer = (if l1 = [] then adjTimer t l2 else t.timer) := by
  obtain ⟨t', e1, e2, e3, e4, e5⟩ := destruct_ok t l1 l2 x h.rep (Nat.le_of_lt h.lim)
  have e3' := e3
  obtain ⟨s1, s2, s3, s4, s5⟩ := e3
  refine ⟨t', e1, ?_, e3', e4⟩
  have hon : ∃ d, t.timer = some d := h.on (by simp)
  refine sub_inv h e2 ?_ s1 s4 s5 (by rw [s2, s3]; exact h.acc) ?_ ?_ ?_ ?_
  · exact List.Sublist.append (List.Sublist.refl _) (List.sublist_cons_self _ _)
  · intro b hb
    rw [e5 b hb]
    by_cases hbx : b = x.1
    · rw [if_pos hbx]
    · rw [if_neg hbx]
      apply h.only
      rw [ids_append, ids_cons, List.mem_append]
      rw [ids_append, List.mem_append] at hb
      rintro (hc | hc)
      · exact hb (.inl hc)
      · rcases List.mem_cons.mp hc with hc | hc
        · exact hbx hc
        · exact hb (.inr hc)
  · intro hn
    obtain ⟨h1, h2⟩ := List.append_eq_nil_iff.mp hn
    rw [e4, if_pos h1, h2]; rfl
  · intro hn
    rw [e4]
    by_cases hl1 : l1 = []
    · rw [if_pos hl1]
      cases l2 with
      | nil => exact absurd (by rw [hl1]; rfl) hn
      | cons y r =>
        unfold adjTimer
        cases t.grace
        · exact ⟨_, rfl⟩
        · exact hon
    · rw [if_neg hl1]; exact hon
  · intro hg y r hy
    rw [s2] at hg
    rw [e4]
    by_cases hl1 : l1 = []
    · subst hl1
      rw [if_pos rfl, show l2 = y :: r from hy]
      exact ⟨t.now, Int.le_refl _, adj_due t y r hg⟩
    · rw [if_neg hl1]
      cases l1 with
      | nil => exact absurd rfl hl1
      | cons z q =>
        have hzy : z = y := (List.cons.inj hy).1
        subst hzy
        exact h.due hg z (q ++ x :: l2) rfl

theorem new_inv {t t' : Thread} {l l0 : List (Nat × Int)} {a : Nat} (h : Inv t l) (hsub : l0.Sublist l) (hr : Rep t' (l0 ++ [(a, t.now)])) (hs : Same t t')
    (hlen : (l0 ++ [(a, t.now)]).length < t.max) (hmem : ∀ b, b ∉ ids (l0 ++ [(a, t.now)]) → t'.mem b = none)
    (ht : (t'.timer = adjTimer t (l0 ++ [(a, t.now)]) ∧ (t.grace = true → l ≠ [])) ∨ (t'.timer = t.timer ∧ l0 ≠ [] ∧ l0.head? = l.head?)) : Inv t' (l0 ++ [(a, t.now)]) := by
  obtain ⟨s1, s2, s3, s4, s5⟩ := hs
  refine ⟨hr, hmem, ?_, ?_, by rw [s1]; exact hlen, by rw [s1]; exact h.two, fun hc => absurd hc (by simp), ?_, by rw [s2, s3]; exact h.acc, ?_⟩
  · rw [List.pairwise_append]
    refine ⟨h.sorted.sublist hsub, by simp, ?_⟩
    intro x hx y hy
    simp at hy; subst hy
    exact h.past x (hsub.subset hx)
  · intro x hx
    rw [s4]
    rcases List.mem_append.mp hx with hx | hx
    · exact h.past x (hsub.subset hx)
    · simp at hx; subst hx; exact Int.le_refl _
  · intro _
    rcases ht with ⟨ht, hgl⟩ | ⟨ht, hne, hh⟩
    · rw [ht]
      cases hg : t.grace with
      | false =>
        cases l0 with
        | nil => exact ⟨_, adj_due t _ _ hg⟩
        | cons y r => exact ⟨_, adj_due t _ _ hg⟩
      | true =>
        obtain ⟨d, hd⟩ := h.on (hgl hg)
        refine ⟨d, ?_⟩
        cases l0 with
        | nil => simp [adjTimer, hg, hd]
        | cons y r => simp [adjTimer, hg, hd]
    · rw [ht]
      apply h.on
      intro hc; rw [hc] at hh
      cases l0 with
      | nil => exact hne rfl
      | cons y r => cases hh
  · intro hg x r hx
    rw [s2] at hg
    rw [s4, s5]
    rcases ht with ⟨ht, _⟩ | ⟨ht, hne, hh⟩
    · rw [ht, hx]
      exact ⟨t.now, Int.le_refl _, adj_due t x r hg⟩
    · rw [ht]
      cases l0 with
      | nil => exact absurd rfl hne
      | cons y q =>
        have hyx : y = x := (List.cons.inj hx).1
        subst hyx
        cases l with
        | nil => cases hh
        | cons z w =>
          have hzy : y = z := Option.some.inj hh
          subst hzy
          exact h.due hg y w rfl

theorem all_none {t : Thread} {l l' : List (Nat × Int)} (h : Inv t l) {m : Nat → Option Node} (hm : ∀ b, b ∉ ids l' → m b = if b ∈ ids l then none else t.mem b) :
    ∀ b, b ∉ ids l' → m b = none := by
  intro b hb
  rw [hm b hb]
  by_cases hbl : b ∈ ids l
  · rw [if_pos hbl]
  · rw [if_neg hbl]; exact h.only b hbl

/-- The timer after an event. -/
def timerAfter (t : Thread) (l : List (Nat × Int)) : Event → Option Int
  | .connect a => if l = [] ∨ l.length + 1 = t.max then adjTimer t (after t l (.connect a)) else t.timer
  | .request a => if firstId l none = some a then adjTimer t (after t l (.request a)) else t.timer
  | .gone a => if firstId l none = some a then adjTimer t (after t l (.gone a)) else t.timer
  | .full => adjTimer t (after t l .full)
  | .tick _ => t.timer
  | .fire => adjTimer t (after t l .fire)
  | .stop f => if after t l (.stop f) = [] then none else some (t.now + 5000)

/-- The time after an event. -/
def nowAfter (t : Thread) : Event → Int
  | .tick n => t.now + n
  | _ => t.now

def graceAfter (t : Thread) (l : List (Nat × Int)) : Event → Bool
  | .stop _ => decide (l ≠ [])
  | _ => t.grace

def accAfter (t : Thread) : Event → Bool
  | .stop _ => false
  | _ => t.accepting

theorem first_mid {l1 l2 : List (Nat × Int)} {x : Nat × Int} (h : (ids (l1 ++ x :: l2)).Nodup) : firstId (l1 ++ x :: l2) none = some x.1 ↔ l1 = [] := by
  cases l1 with
  | nil => simp [firstId]
  | cons y r =>
    have n := (nodup_mid h).2.1
    simp only [List.cons_append, firstId, Option.some.injEq, reduceCtorEq, iff_false]
    exact fun hc => n (by rw [← hc]; simp [ids])

/-- Every event keeps the invariant, and the queue, the timer and the rest change as the
functions above say. -/
theorem step_ok {t : Thread} {l : List (Nat × Int)} (h : Inv t l) (e : Event) (hc : e.Can t) :
    ∃ t', step t e = .ok t' ∧ Inv t' (after t l e) ∧ t'.max = t.max ∧ t'.timeout = t.timeout ∧ t'.now = nowAfter t e ∧
      t'.grace = graceAfter t l e ∧ t'.accepting = accAfter t e ∧ t'.timer = timerAfter t l e := by
  cases e with
  | connect a =>
    have hg : t.grace = false := by
      cases hg : t.grace with
      | false => rfl
      | true => have := h.acc hg; rw [hc.1] at this; cases this
    have ha : a ∉ ids l := fun hm => by
      obtain ⟨l1, i, l2, rfl⟩ := mem_split hm
      obtain ⟨s1, s2, s3⟩ := (seg_append t.mem none l1 _ none).mp h.rep.seg
      rw [hc.2] at s2; cases s2
    obtain ⟨t', e1, e2, e3, e4, e5⟩ := append_ok t l a h.rep ha h.lim h.two hg
    have e2' := e2
    obtain ⟨s1, s2, s3, s4, s5⟩ := e2
    have hbn : ∀ b, b ∉ ids (l ++ [(a, t.now)]) → t.mem b = none := fun b hb => h.only b (fun hc => hb (by rw [ids_append]; exact List.mem_append.mpr (.inl hc)))
    refine ⟨t', e1, ?_, s1, s5, s4, s2, s3, e4⟩
    show Inv t' (if l.length + 1 = t.max then (l ++ [(a, t.now)]).tail else l ++ [(a, t.now)])
    by_cases hmax : l.length + 1 = t.max
    · rw [if_pos hmax] at e3 e4 e5 ⊢
      rw [if_pos (.inr hmax)] at e4
      obtain ⟨z, r, hz⟩ : ∃ z r, l = z :: r := by
        cases l with
        | nil => have := h.two; simp at hmax; omega
        | cons z r => exact ⟨z, r, rfl⟩
      subst hz
      refine new_inv (l0 := r) h (List.sublist_cons_self _ _) e3 e2' ?_ ?_ (.inl ⟨e4, fun _ => by simp⟩)
      · have := h.lim; simp at this ⊢; omega
      · intro b hb
        rw [e5 b hb]
        by_cases hbz : some b = firstId (z :: r) none
        · rw [if_pos ⟨hbz, hmax⟩]
        · rw [if_neg (fun hc => hbz hc.1)]
          apply hbn
          intro hb'
          rw [List.cons_append, ids_cons] at hb'
          rcases List.mem_cons.mp hb' with hb' | hb'
          · exact hbz (by rw [hb']; rfl)
          · exact hb hb'
    · rw [if_neg hmax] at e3 e4 e5 ⊢
      refine new_inv (l0 := l) h (List.Sublist.refl _) e3 e2' ?_ ?_ ?_
      · have := h.lim; simp; omega
      · intro b hb
        rw [e5 b hb, if_neg (fun hc => hmax hc.2)]
        exact hbn b hb
      · by_cases hl : l = []
        · rw [if_pos (.inl hl)] at e4
          exact .inl ⟨e4, fun hgt => by rw [hg] at hgt; cases hgt⟩
        · rw [if_neg (fun hc => hc.elim hl hmax)] at e4
          exact .inr ⟨e4, hl, rfl⟩
  | request a =>
    obtain ⟨l1, i, l2, rfl⟩ := mem_split (mem_ids h hc)
    obtain ⟨t', e1, e2, e3, e4, e5⟩ := refresh_ok t l1 l2 (a, i) h.rep (Nat.le_of_lt h.lim)
    have e3' := e3
    obtain ⟨s1, s2, s3, s4, s5⟩ := e3
    have haft : after t (l1 ++ (a, i) :: l2) (.request a) = l1 ++ l2 ++ [(a, t.now)] := by
      show List.filter _ _ ++ _ = _
      rw [filter_mid (x := (a, i)) h.rep.nodup]
    have hfm := first_mid h.rep.nodup
    refine ⟨t', e1, ?_, s1, s5, s4, s2, s3, ?_⟩
    · rw [haft]
      refine new_inv (l0 := l1 ++ l2) h (List.Sublist.append (List.Sublist.refl _) (List.sublist_cons_self _ _)) e2 e3' ?_ ?_ ?_
      · have := h.lim; simp at this ⊢; omega
      · intro b hb
        have hb' : b ∉ ids (l1 ++ (a, i) :: l2) := by
          intro hx; apply hb
          simp only [ids, List.map_append, List.map_cons, List.map_nil, List.mem_append, List.mem_cons, List.not_mem_nil, or_false] at hx ⊢
          rcases hx with hx | hx | hx
          · exact .inl (.inl hx)
          · exact .inr hx
          · exact .inl (.inr hx)
        rw [e5 b hb']
        exact h.only b hb'
      · by_cases hl1 : l1 = []
        · rw [if_pos hl1] at e4
          subst hl1
          exact .inl ⟨e4, fun _ => by simp⟩
        · rw [if_neg hl1] at e4
          refine .inr ⟨e4, by simp [hl1], ?_⟩
          cases l1 with
          | nil => exact absurd rfl hl1
          | cons y r => rfl
    · show _ = if _ then _ else _
      rw [haft, e4]
      by_cases hl1 : l1 = []
      · rw [if_pos hl1, if_pos (hfm.mpr hl1), hl1]; rfl
      · rw [if_neg hl1, if_neg (fun hc => hl1 (hfm.mp hc))]
  | gone a =>
    obtain ⟨l1, i, l2, rfl⟩ := mem_split (mem_ids h hc)
    have haft : after t (l1 ++ (a, i) :: l2) (.gone a) = l1 ++ l2 := filter_mid (x := (a, i)) h.rep.nodup
    have hfm := first_mid h.rep.nodup
    obtain ⟨t', e1, e2, ⟨s1, s2, s3, s4, s5⟩, e4⟩ := gone_inv h
    refine ⟨t', e1, by rw [haft]; exact e2, s1, s5, s4, s2, s3, ?_⟩
    show _ = if _ then _ else _
    rw [haft, e4]
    by_cases hl1 : l1 = []
    · rw [if_pos hl1, if_pos (hfm.mpr hl1), hl1]; rfl
    · rw [if_neg hl1, if_neg (fun hc => hl1 (hfm.mp hc))]
  | full =>
    cases l with
    | nil =>
      have hh : t.head = none := h.rep.head
      refine ⟨t, ?_, h, rfl, rfl, rfl, rfl, rfl, h.off rfl⟩
      show (match t.head with | some h => destruct t h true | none => .ok t) = _
      rw [hh]
    | cons x r =>
      have hh : t.head = some x.1 := h.rep.head
      obtain ⟨t', e1, e2, ⟨s1, s2, s3, s4, s5⟩, e4⟩ := gone_inv (l1 := []) h
      refine ⟨t', ?_, e2, s1, s5, s4, s2, s3, e4⟩
      show (match t.head with | some h => destruct t h true | none => .ok t) = _
      rw [hh]
      exact e1
  | tick n =>
    refine ⟨_, rfl, ⟨⟨h.rep.seg, h.rep.head, h.rep.tail, h.rep.num, h.rep.nodup⟩, h.only, h.sorted, ?_, h.lim, h.two, h.off, h.on, h.acc, ?_⟩, rfl, rfl, rfl, rfl, rfl, rfl⟩
    · intro x hx
      have := h.past x hx
      show x.2 ≤ t.now + n
      omega
    · intro hg x r hx
      obtain ⟨a, ha, hd⟩ := h.due hg x r hx
      exact ⟨a, by show a ≤ t.now + n; omega, hd⟩
  | fire =>
    have hne : l ≠ [] := by
      intro hl
      obtain ⟨d, hd, _⟩ := hc
      rw [h.off hl] at hd; cases hd
    obtain ⟨t', e1, ⟨s1, s2, s3, s4, s5⟩, e3, e4, e5⟩ := timeout_ok t l h.rep (Nat.le_of_lt h.lim) hne
    have htm : t'.timer = adjTimer t (after t l .fire) := by
      rw [e4]
      show _ = adjTimer t (if t.grace = true then _ else _)
      cases t.grace <;> rfl
    refine ⟨t', e1, ?_, s1, s5, s4, s2, s3, htm⟩
    refine sub_inv h e3 ?_ s1 s4 s5 (by rw [s2, s3]; exact h.acc) (all_none h e5) ?_ ?_ ?_
    · show (if t.grace = true then [] else l.dropWhile _).Sublist l
      split
      · exact List.nil_sublist _
      · exact List.dropWhile_sublist _
    · intro hn; rw [htm, hn]; rfl
    · intro hn
      have hg : t.grace = false := by
        cases hg : t.grace with
        | false => rfl
        | true => exact absurd (by simp [after, hg]) hn
      rw [htm]
      generalize after t l .fire = q at hn
      cases q with
      | nil => exact absurd rfl hn
      | cons y r => exact ⟨_, adj_due t y r hg⟩
    · intro hg y r hy
      rw [s2] at hg
      rw [htm, hy]
      exact ⟨t.now, Int.le_refl _, adj_due t y r hg⟩
  | stop f =>
    have hg : t.grace = false := by
      cases hg : t.grace with
      | false => rfl
      | true => have := h.acc hg; rw [show t.accepting = true from hc] at this; cases this
    obtain ⟨t', e1, e2, s1, s4, s5, s3, s2, e4, e5⟩ := stop_ok t l f h.rep (Nat.le_of_lt h.lim) hg h.off
    refine ⟨t', e1, ?_, s1, s5, s4, s2, s3, e4⟩
    refine sub_inv h e2 List.filter_sublist s1 s4 s5 (fun _ => s3) (all_none h e5) ?_ ?_ ?_
    · intro hn; exact e4.trans (if_pos hn)
    · intro hn; exact ⟨_, e4.trans (if_neg hn)⟩
    · intro hg' x r hx
      rw [s2] at hg'
      have hl : l = [] := by simpa using hg'
      rw [hl] at hx; cases hx

theorem inv_init (max : Nat) (timeout now : Int) (h : 2 ≤ max) : Inv (init max timeout now) [] where
  rep := ⟨trivial, rfl, rfl, rfl, by simp [ids]⟩
  only := fun _ _ => rfl
  sorted := List.Pairwise.nil
  past := fun x hx => by cases hx
  lim := by show 0 < max; omega
  two := h
  off := fun _ => rfl
  on := fun hc => absurd rfl hc
  acc := fun hc => by cases hc
  due := fun _ x r hx => by cases hx

theorem run_inv {max : Nat} {timeout : Int} {t : Thread} (h : Run max timeout t) (hm : 2 ≤ max) : (∃ l, Inv t l) ∧ t.max = max ∧ t.timeout = timeout := by
  induction h with
  | init now => exact ⟨⟨_, inv_init _ _ now hm⟩, rfl, rfl⟩
  | step _ hc hs ih =>
    obtain ⟨⟨l, hl⟩, h1, h2⟩ := ih
    obtain ⟨t', e1, e2, e3, e4, _⟩ := step_ok hl _ hc
    rw [hs] at e1
    cases e1
    exact ⟨⟨_, e2⟩, e3.trans h1, e4.trans h2⟩

theorem idle_mem {t : Thread} {l : List (Nat × Int)} (h : Inv t l) {b : Nat} {i : Int} : t.idleAt b = some i ↔ (b, i) ∈ l := by
  constructor
  · intro hi
    have hb : t.mem b ≠ none := by intro hc; unfold Thread.idleAt at hi; rw [hc] at hi; cases hi
    obtain ⟨l1, j, l2, rfl⟩ := mem_split (mem_ids h hb)
    obtain ⟨nd, e1, e2⟩ := seg_mem _ _ _ _ h.rep.seg (b, j) (by simp)
    unfold Thread.idleAt at hi
    rw [e1] at hi
    cases hi
    dsimp only
    rw [e2]; simp
  · intro hx
    obtain ⟨nd, e1, e2⟩ := seg_mem _ _ _ _ h.rep.seg _ hx
    unfold Thread.idleAt
    rw [e1]
    exact congrArg some e2

theorem idle_ids {t : Thread} {l : List (Nat × Int)} (h : Inv t l) {b : Nat} : t.mem b ≠ none ↔ b ∈ ids l := by
  constructor
  · exact mem_ids h
  · intro hb hc
    obtain ⟨l1, j, l2, rfl⟩ := mem_split hb
    obtain ⟨nd, e1, _⟩ := seg_mem _ _ _ _ h.rep.seg (b, j) (by simp)
    rw [hc] at e1; cases e1

theorem idle_ext {t t' : Thread} {b : Nat} (h : ∀ i, t'.idleAt b = some i ↔ t.idleAt b = some i) : t'.idleAt b = t.idleAt b := by
  cases ht : t'.idleAt b with
  | none =>
    cases hs : t.idleAt b with
    | none => rfl
    | some i => rw [(h i).mpr hs] at ht; cases ht
  | some i => exact ((h i).mp ht).symm

theorem idle_uniq {l : List (Nat × Int)} (h : (ids l).Nodup) {b : Nat} {i j : Int} (h1 : (b, i) ∈ l) (h2 : (b, j) ∈ l) : i = j := by
  induction l with
  | nil => cases h1
  | cons x r ih =>
    obtain ⟨n1, n2⟩ := List.nodup_cons.mp h
    rcases List.mem_cons.mp h1 with e1 | h1
    · rcases List.mem_cons.mp h2 with e2 | h2
      · exact congrArg Prod.snd (e1.trans e2.symm)
      · exact absurd (List.mem_map.mpr ⟨_, h2, by rw [← e1]⟩) n1
    · rcases List.mem_cons.mp h2 with e2 | h2
      · exact absurd (List.mem_map.mpr ⟨_, h1, by rw [← e2]⟩) n1
      · exact ih n2 h1 h2

end Gdnsd.Connq
