/-
The events, as operations on lists.
-/
import Verif.Connq.OpLemmas
namespace Gdnsd.Connq

theorem rep_idle {t : Thread} {l1 l2 : List (Nat × Int)} {x : Nat × Int} (h : Rep t (l1 ++ x :: l2)) (i : Int) :
    t.mem x.1 = some ⟨firstId l2 none, lastId none l1, x.2⟩ ∧
    Rep { t with mem := upd t.mem x.1 (some ⟨firstId l2 none, lastId none l1, i⟩) } (l1 ++ (x.1, i) :: l2) := by
  obtain ⟨s1, s2, s3⟩ := (seg_append t.mem none l1 (x :: l2) none).mp h.seg
  obtain ⟨n1, n2, n3, n4, n5⟩ := nodup_mid h.nodup
  rw [ids_append, List.mem_append] at n2
  refine ⟨s2, (seg_append _ _ _ _ _).mpr ⟨?_, upd_same _ _ _, ?_⟩, ?_, ?_, ?_, ?_⟩
  · exact seg_upd _ _ _ _ _ _ (fun hc => n2 (.inl hc)) s1
  · exact seg_upd _ _ _ _ _ _ (fun hc => n2 (.inr hc)) s3
  · show t.head = _; rw [h.head, firstId_append, firstId_append]; rfl
  · show t.tail = _; rw [h.tail, lastId_append, lastId_append]; rfl
  · show t.num = _; rw [h.num]; simp
  · have := h.nodup; rw [ids_append, ids_cons] at this ⊢; exact this

/-- A connection becomes the least idle one. -/
theorem refresh_ok (t : Thread) (l1 l2 : List (Nat × Int)) (x : Nat × Int) (h : Rep t (l1 ++ x :: l2)) (hm : (l1 ++ x :: l2).length ≤ t.max) :
    ∃ t', refresh t x.1 = .ok t' ∧ Rep t' (l1 ++ l2 ++ [(x.1, t.now)]) ∧ Same t t' ∧
      t'.timer = (if l1 = [] then adjTimer t (l2 ++ [(x.1, t.now)]) else t.timer) ∧ (∀ b, b ∉ ids (l1 ++ x :: l2) → t'.mem b = t.mem b) := by
  obtain ⟨g1, g2⟩ := rep_idle h t.now
  unfold refresh
  rw [sane_ok t _ h hm]
  simp only [Outcome.bind_ok]
  rw [get_some g1]
  simp only [Outcome.bind_ok]
  rw [put_some _ g1]
  simp only [Outcome.bind_ok]
  have hmem : ∀ b, b ∉ ids (l1 ++ x :: l2) → upd t.mem x.1 (some ⟨firstId l2 none, lastId none l1, t.now⟩) b = t.mem b :=
    fun b hb => upd_ne _ _ _ _ (fun hc => hb (by rw [hc]; simp [ids]))
  by_cases h1 : t.num = 1
  · rw [if_pos h1]
    have hl : l1 = [] ∧ l2 = [] := by
      rw [h.num] at h1
      simp at h1
      exact ⟨List.eq_nil_of_length_eq_zero (by omega), List.eq_nil_of_length_eq_zero (by omega)⟩
    obtain ⟨rfl, rfl⟩ := hl
    rw [show decide (some x.1 = t.head) = true from decide_eq_true h.head.symm, show decide (some x.1 = t.tail) = true from decide_eq_true h.tail.symm]
    simp only [assert_true, Outcome.bind_ok]
    rw [adjust_ok _ _ g2 hm]
    exact ⟨_, rfl, rep_timer g2 _, ⟨rfl, rfl, rfl, rfl, rfl⟩, by rw [if_pos trivial]; rfl, hmem⟩
  · rw [if_neg h1]
    cases l2 with
    | nil =>
      have ht : some x.1 = t.tail := by rw [h.tail, lastId_concat]
      rw [if_pos ht]
      refine ⟨_, rfl, by simpa using g2, ⟨rfl, rfl, rfl, rfl, rfl⟩, ?_, hmem⟩
      have hl1 : l1 ≠ [] := fun hc => h1 (by rw [h.num, hc]; rfl)
      rw [if_neg hl1]
    | cons y r =>
      have hn := nodup_mid h.nodup
      have hxr : x.1 ∉ ids (y :: r) := fun hc => hn.2.1 (by rw [ids_append]; exact List.mem_append.mpr (.inr hc))
      have ht : some x.1 ≠ t.tail := by
        rw [h.tail, lastId_append]
        obtain ⟨b, hb, hb2⟩ := lastId_some' (some x.1) (y :: r) (by simp)
        rw [show lastId (lastId none l1) (x :: y :: r) = lastId (some x.1) (y :: r) from rfl, hb]
        intro hc; cases hc
        exact hxr hb2
      rw [if_neg ht]
      obtain ⟨t1, e1, e2, e3, e4, ⟨nd, e5, e6⟩, e7⟩ := pull_ok _ l1 (y :: r) (x.1, t.now) g2 (by simpa using hm)
      rw [e1]
      simp only [Outcome.bind_ok]
      rw [get_some e5]
      simp only [Outcome.bind_ok]
      rw [put_some _ e5]
      simp only [Outcome.bind_ok]
      rcases List.eq_nil_or_concat (l1 ++ y :: r) with h0 | ⟨l0, w, h0⟩
      · simp at h0
      · have h0 : l1 ++ y :: r = l0 ++ [w] := by simpa using h0
        have htl : t1.tail = some w.1 := by rw [e2.tail, h0, lastId_concat]
        have hwx : w.1 ≠ x.1 := fun hc => hn.2.1 (by rw [h0, ← hc]; simp [ids])
        rw [htl]
        dsimp only
        have hnd : (ids (l0 ++ [w] ++ [(x.1, t.now)])).Nodup := by
          rw [ids_append, List.nodup_append, ← h0]
          refine ⟨hn.1, by simp [ids], ?_⟩
          intro p hp q hq hpq
          simp [ids] at hq
          exact hn.2.1 (by rw [← hq, ← hpq]; exact hp)
        obtain ⟨k1, k2⟩ := link_last t1.mem l0 w (x.1, t.now) hnd (h0 ▸ e2.seg)
        have hnd' : ({ nd with prev := some w.1, next := none } : Node) = ⟨none, some w.1, t.now⟩ := by
          cases nd; simp at e6; simp [e6]
        have gw : upd t1.mem x.1 (some ⟨none, some w.1, t.now⟩) w.1 = some ⟨none, lastId none l0, w.2⟩ := (upd_ne _ _ _ _ hwx).trans k1
        have e6' : nd.idle = t.now := e6
        rw [e6']
        rw [get_some (n := ⟨none, lastId none l0, w.2⟩) gw]
        simp only [Outcome.bind_ok]
        rw [put_some (n := ⟨none, lastId none l0, w.2⟩) _ gw]
        simp only [Outcome.bind_ok]
        have hr : Rep { t1 with mem := upd (upd t1.mem x.1 (some ⟨none, some w.1, t.now⟩)) w.1 (some ⟨some x.1, lastId none l0, w.2⟩), tail := some x.1, num := t1.num + 1 }
            (l1 ++ y :: r ++ [(x.1, t.now)]) := by
          rw [h0]
          refine ⟨k2, ?_, by rw [lastId_concat], ?_, hnd⟩
          · show t1.head = _
            rw [e2.head, h0, firstId_append _ [(x.1, t.now)]]
            cases l0 <;> rfl
          · show t1.num + 1 = _
            rw [e2.num, h0]; simp
        have hl : (l1 ++ y :: r ++ [(x.1, t.now)]).length ≤ t1.max := by rw [e3.1]; simp at hm ⊢; omega
        rw [sane_ok _ _ hr hl]
        refine ⟨_, rfl, hr, e3, ?_, ?_⟩
        · show t1.timer = _
          rw [e4]
          by_cases hl1 : l1 = []
          · rw [if_pos hl1, if_pos hl1]; rfl
          · rw [if_neg hl1, if_neg hl1]
        · intro b hb
          show upd (upd _ _ _) _ _ b = _
          have hbw : b ≠ w.1 := fun hc => hb (by
            rw [hc]
            have : w.1 ∈ ids (l1 ++ y :: r) := by rw [h0]; simp [ids]
            rw [ids_append] at this ⊢
            rcases List.mem_append.mp this with h | h
            · exact List.mem_append.mpr (.inl h)
            · exact List.mem_append.mpr (.inr (List.mem_cons_of_mem _ h)))
          have hbx : b ≠ x.1 := fun hc => hb (by rw [hc]; simp [ids])
          rw [upd_ne _ _ _ _ hbw, upd_ne _ _ _ _ hbx]
          refine (e7 b ?_).trans (upd_ne _ _ _ _ hbx)
          rw [ids_append, ids_cons] at hb ⊢
          exact hb

/-- All connections are dropped. -/
theorem dropAll_ok (l : List (Nat × Int)) : ∀ (t : Thread) (p : Option Nat) (fuel : Nat), l.length ≤ fuel → l = [] ∨ t.num ≠ 0 → Seg t.mem p l none → (ids l).Nodup →
    ∃ t', dropAll t fuel (firstId l none) = .ok t' ∧ Same t t' ∧ (∀ b, t'.mem b = if b ∈ ids l then none else t.mem b) := by
  induction l with
  | nil => intro t p fuel _ _ _ _; refine ⟨t, by cases fuel <;> rfl, ⟨rfl, rfl, rfl, rfl, rfl⟩, fun b => by simp [ids]⟩
  | cons x r ih =>
    intro t p fuel hf hn hs hnd
    obtain ⟨fuel, rfl⟩ : ∃ f, fuel = f + 1 := ⟨fuel - 1, by simp at hf; omega⟩
    have hn : t.num ≠ 0 := hn.resolve_left (by simp)
    show ∃ t', dropAll t (fuel + 1) (some x.1) = .ok t' ∧ _
    unfold dropAll
    rw [get_some hs.1]
    simp only [Outcome.bind_ok]
    unfold destruct
    rw [show decide (t.num ≠ 0) = true from decide_eq_true hn]
    simp only [assert_true, Outcome.bind_ok, Bool.false_eq_true, if_false]
    rw [free_some hs.1]
    simp only [Outcome.bind_ok]
    obtain ⟨hx, hnd'⟩ := List.nodup_cons.mp hnd
    obtain ⟨t', e1, e2, e3⟩ := ih { t with mem := upd t.mem x.1 none } (some x.1) fuel (by simp at hf; omega) (.inr hn) (seg_upd _ _ _ _ _ _ hx hs.2) hnd'
    refine ⟨t', e1, e2, fun b => ?_⟩
    rw [e3 b]
    show (if b ∈ ids r then none else upd t.mem x.1 none b) = _
    unfold upd
    rw [ids_cons]
    by_cases hb : b ∈ ids r
    · rw [if_pos hb, if_pos (List.mem_cons_of_mem _ hb)]
    · rw [if_neg hb]
      by_cases hbx : b = x.1
      · rw [if_pos hbx, if_pos (by rw [hbx]; simp)]
      · rw [if_neg hbx, if_neg (by simp [hbx, hb])]

/-- The connections that are idle for too long are dropped, from the front. -/
theorem expire_ok (l : List (Nat × Int)) : ∀ (t : Thread) (p : Option Nat) (fuel : Nat), l.length ≤ fuel → t.num = l.length → Seg t.mem p l none → (ids l).Nodup →
    ∃ t', expire t fuel (firstId l none) = .ok (t', firstId (l.dropWhile fun x => decide (x.2 ≤ t.now - t.timeout)) none) ∧ Same t t' ∧
      t'.num = (l.dropWhile fun x => decide (x.2 ≤ t.now - t.timeout)).length ∧ t'.tail = t.tail ∧ t'.timer = t.timer ∧
      (∃ p', Seg t'.mem p' (l.dropWhile fun x => decide (x.2 ≤ t.now - t.timeout)) none) ∧
      (∀ b, b ∉ ids (l.dropWhile fun x => decide (x.2 ≤ t.now - t.timeout)) → t'.mem b = if b ∈ ids l then none else t.mem b) := by
  induction l with
  | nil =>
    intro t p fuel _ hn _ _
    exact ⟨t, by cases fuel <;> rfl, ⟨rfl, rfl, rfl, rfl, rfl⟩, hn, rfl, rfl, ⟨p, trivial⟩, fun b _ => by simp [ids]⟩
  | cons x r ih =>
    intro t p fuel hf hn hs hnd
    obtain ⟨fuel, rfl⟩ : ∃ f, fuel = f + 1 := ⟨fuel - 1, by simp at hf; omega⟩
    have hn0 : t.num ≠ 0 := by rw [hn]; simp
    rw [show firstId (x :: r) none = some x.1 from rfl]
    unfold expire
    rw [get_some hs.1]
    simp only [Outcome.bind_ok]
    obtain ⟨hx, hnd'⟩ := List.nodup_cons.mp hnd
    by_cases hc : x.2 ≤ t.now - t.timeout
    · rw [if_pos hc, List.dropWhile_cons_of_pos (by simpa using hc)]
      unfold destruct
      rw [show decide (t.num ≠ 0) = true from decide_eq_true hn0]
      simp only [assert_true, Outcome.bind_ok, Bool.false_eq_true, if_false]
      rw [free_some hs.1]
      simp only [Outcome.bind_ok]
      obtain ⟨t', e1, e2, e3, e4, e5, e6, e7⟩ := ih { t with mem := upd t.mem x.1 none, num := t.num - 1 } (some x.1) fuel (by simp at hf; omega)
        (by show t.num - 1 = _; rw [hn]; simp) (seg_upd _ _ _ _ _ _ hx hs.2) hnd'
      refine ⟨t', e1, e2, e3, e4, e5, e6, fun b hb => ?_⟩
      rw [e7 b hb]
      show (if b ∈ ids r then none else upd t.mem x.1 none b) = _
      unfold upd
      rw [ids_cons]
      by_cases hb : b ∈ ids r
      · rw [if_pos hb, if_pos (List.mem_cons_of_mem _ hb)]
      · rw [if_neg hb]
        by_cases hbx : b = x.1
        · rw [if_pos hbx, if_pos (by rw [hbx]; simp)]
        · rw [if_neg hbx, if_neg (by simp [hbx, hb])]
    · rw [if_neg hc, List.dropWhile_cons_of_neg (by simpa using hc)]
      refine ⟨t, rfl, ⟨rfl, rfl, rfl, rfl, rfl⟩, hn, rfl, rfl, ⟨p, hs⟩, fun b hb => ?_⟩
      rw [if_neg hb]

theorem lastId_dropWhile (f : Nat × Int → Bool) (l : List (Nat × Int)) : ∀ p, l.dropWhile f ≠ [] → lastId none (l.dropWhile f) = lastId p l := by
  induction l with
  | nil => intro p h; exact absurd rfl h
  | cons x r ih =>
    intro p h
    by_cases hx : f x = true
    · rw [List.dropWhile_cons_of_pos hx] at h ⊢
      exact ih (some x.1) h
    · rw [List.dropWhile_cons_of_neg hx]
      rfl

/-- The timer fires. -/
theorem timeout_ok (t : Thread) (l : List (Nat × Int)) (h : Rep t l) (hm : l.length ≤ t.max) (hl : l ≠ []) :
    ∃ t', timeout t = .ok t' ∧ Same t t' ∧
      Rep t' (if t.grace then [] else l.dropWhile fun x => decide (x.2 ≤ t.now - t.timeout)) ∧
      t'.timer = (if t.grace then none else adjTimer t (l.dropWhile fun x => decide (x.2 ≤ t.now - t.timeout))) ∧
      (∀ b, b ∉ ids (if t.grace then [] else l.dropWhile fun x => decide (x.2 ≤ t.now - t.timeout)) → t'.mem b = if b ∈ ids l then none else t.mem b) := by
  obtain ⟨z, r, hz⟩ : ∃ z r, l = z :: r := by cases l with | nil => exact absurd rfl hl | cons z r => exact ⟨z, r, rfl⟩
  unfold timeout
  rw [sane_ok t l h hm]
  have hh : t.head.isSome = true := by rw [h.head, hz]; rfl
  rw [hh]
  simp only [assert_true, Outcome.bind_ok]
  cases hg : t.grace with
  | true =>
    simp only [if_true]
    rw [h.head]
    obtain ⟨t', e1, e2, e3⟩ := dropAll_ok l t none (t.num + 1) (by rw [h.num]; omega) (.inr (by rw [h.num, hz]; simp)) h.seg h.nodup
    rw [e1]
    exact ⟨_, rfl, by obtain ⟨a, b, c, d, e⟩ := e2; exact ⟨a, b, c, d, e⟩, ⟨trivial, rfl, rfl, rfl, by simp [ids]⟩, rfl, fun b _ => e3 b⟩
  | false =>
    simp only [Bool.false_eq_true, if_false]
    rw [h.head]
    obtain ⟨t', e1, e2, e3, e4, e5, ⟨p', e6⟩, e7⟩ := expire_ok l t none (t.num + 1) (by rw [h.num]; omega) h.num h.seg h.nodup
    rw [e1]
    simp only [Outcome.bind_ok]
    generalize hd : l.dropWhile (fun x => decide (x.2 ≤ t.now - t.timeout)) = l' at e3 e6 e7 ⊢
    have hnd : (ids l').Nodup := by
      rw [← hd]
      exact List.Sublist.nodup (List.Sublist.map _ (List.dropWhile_sublist _)) h.nodup
    have hlen : l'.length ≤ t'.max := by
      rw [e2.1, ← hd]
      exact Nat.le_trans (List.Sublist.length_le (List.dropWhile_sublist _)) hm
    have hadj : ∀ t1 : Thread, Same t t1 → t1.timer = t.timer → adjTimer t1 l' = adjTimer t l' := by
      intro t1 hs ht
      unfold adjTimer
      cases l' with
      | nil => rfl
      | cons w q =>
        simp only
        rw [ht, hs.2.1, hs.2.2.2.1, hs.2.2.2.2]
    cases l' with
    | nil =>
      dsimp only [firstId]
      rw [e3]
      simp only [List.length_nil, decide_true, assert_true, Outcome.bind_ok]
      have hr : Rep { t' with head := none, tail := none, num := 0 } [] := ⟨trivial, rfl, rfl, rfl, by simp [ids]⟩
      have := adjust_ok _ _ hr (Nat.zero_le _)
      have h0 : ({ t' with head := none, tail := none } : Thread) = { t' with head := none, tail := none, num := 0 } := by
        cases t'; simp at e3; simp [e3]
      rw [h0] at *
      rw [this]
      obtain ⟨a, b, c, d, e⟩ := e2
      exact ⟨_, rfl, ⟨a, b, c, d, e⟩, rep_timer hr _, rfl, e7⟩
    | cons w q =>
      dsimp only [firstId]
      rw [show decide (t'.num ≠ 0) = true from decide_eq_true (by rw [e3]; simp)]
      simp only [assert_true, Outcome.bind_ok]
      rw [get_some e6.1]
      simp only [Outcome.bind_ok]
      rw [put_some _ e6.1]
      simp only [Outcome.bind_ok]
      have hr : Rep { t' with mem := upd t'.mem w.1 (some ⟨firstId q none, none, w.2⟩), head := some w.1 } (w :: q) := by
        refine ⟨seg_setprev _ p' none q w none (List.nodup_cons.mp hnd).1 e6, rfl, ?_, e3, hnd⟩
        show t'.tail = _
        rw [e4, h.tail, ← hd]
        exact (lastId_dropWhile _ l none (by rw [hd]; simp)).symm
      rw [adjust_ok _ _ hr hlen]
      refine ⟨_, rfl, e2, rep_timer hr _, hadj _ e2 e5, fun b hb => ?_⟩
      rw [← e7 b hb]
      exact upd_ne _ _ _ _ (fun hc => hb (by rw [hc]; simp [ids]))

/-- The notifications of a stop. -/
theorem notify_ok (fails : Nat → Bool) (l : List (Nat × Int)) : ∀ (t : Thread) (pre : List (Nat × Int)) (fuel : Nat), l.length ≤ fuel → Rep t (pre ++ l) → (pre ++ l).length ≤ t.max →
    t.grace = true → ∃ t', notify fails t fuel (firstId l none) = .ok t' ∧ Rep t' (pre ++ l.filter fun x => !fails x.1) ∧ Same t t' ∧
      t'.timer = (if pre ++ l ≠ [] ∧ pre ++ l.filter (fun x => !fails x.1) = [] then none else t.timer) ∧
      (∀ b, b ∉ ids (pre ++ l.filter fun x => !fails x.1) → t'.mem b = if b ∈ ids (pre ++ l) then none else t.mem b) := by
  induction l with
  | nil =>
    intro t pre fuel _ h hm hg
    refine ⟨t, by cases fuel <;> rfl, h, ⟨rfl, rfl, rfl, rfl, rfl⟩, ?_, fun b hb => ?_⟩
    · rw [if_neg (fun hc => hc.1 hc.2)]
    · rw [if_neg (show b ∉ ids (pre ++ []) from hb)]
  | cons x r ih =>
    intro t pre fuel hf h hm hg
    obtain ⟨fuel, rfl⟩ : ∃ f, fuel = f + 1 := ⟨fuel - 1, by simp at hf; omega⟩
    obtain ⟨s1, s2, s3⟩ := (seg_append t.mem none pre (x :: r) none).mp h.seg
    rw [show firstId (x :: r) none = some x.1 from rfl]
    unfold notify
    rw [get_some s2]
    simp only [Outcome.bind_ok]
    cases hfx : fails x.1 with
    | false =>
      simp only [Bool.false_eq_true, if_false, Outcome.bind_ok]
      have h' : Rep t (pre ++ [x] ++ r) := by simpa using h
      obtain ⟨t', e1, e2, e3, e4, e5⟩ := ih t (pre ++ [x]) fuel (by simp at hf; omega) h' (by simpa using hm) hg
      have hfil : (x :: r).filter (fun x => !fails x.1) = x :: r.filter (fun x => !fails x.1) := by rw [List.filter_cons_of_pos (by simp [hfx])]
      rw [hfil]
      refine ⟨t', e1, by simpa using e2, e3, ?_, ?_⟩
      · rw [e4, if_neg (by simp), if_neg (by simp)]
      · have hl1 : pre ++ [x] ++ r = pre ++ x :: r := by simp
        have hl2 : pre ++ [x] ++ r.filter (fun x => !fails x.1) = pre ++ x :: r.filter (fun x => !fails x.1) := by simp
        rw [hl1, hl2] at e5
        exact e5
    | true =>
      simp only [if_true]
      obtain ⟨t1, d1, d2, d3, d4, d5⟩ := destruct_ok t pre r x h hm
      rw [d1]
      simp only [Outcome.bind_ok]
      obtain ⟨t', e1, e2, e3, e4, e5⟩ := ih t1 pre fuel (by simp at hf; omega) d2 (by rw [d3.1]; simp at hm ⊢; omega) (d3.2.1.trans hg)
      have hfil : (x :: r).filter (fun x => !fails x.1) = r.filter (fun x => !fails x.1) := by rw [List.filter_cons_of_neg (by simp [hfx])]
      rw [hfil]
      refine ⟨t', e1, e2, ⟨e3.1.trans d3.1, e3.2.1.trans d3.2.1, e3.2.2.1.trans d3.2.2.1, e3.2.2.2.1.trans d3.2.2.2.1, e3.2.2.2.2.trans d3.2.2.2.2⟩, ?_, ?_⟩
      · rw [e4]
        have hadj : ∀ y q, adjTimer t (y :: q) = t.timer := by
          intro y q; unfold adjTimer; simp only [hg, if_true]
        by_cases hnil : pre ++ r = []
        · have hp : pre = [] := (List.append_eq_nil_iff.mp hnil).1
          have hr : r = [] := (List.append_eq_nil_iff.mp hnil).2
          rw [if_neg (fun hc => hc.1 hnil), d4, if_pos hp, hr, if_pos (by simp [hp])]
          rfl
        · have ht1 : t1.timer = t.timer := by
            rw [d4]
            by_cases hp : pre = []
            · rw [if_pos hp]
              cases r with
              | nil => exact absurd (by rw [hp]; rfl) hnil
              | cons y q => exact hadj y q
            · rw [if_neg hp]
          rw [ht1]
          by_cases hlast : pre ++ r.filter (fun x => !fails x.1) = []
          · rw [if_pos ⟨hnil, hlast⟩, if_pos ⟨by simp, hlast⟩]
          · rw [if_neg (fun hc => hlast hc.2), if_neg (fun hc => hlast hc.2)]
      · intro b hb
        rw [e5 b hb]
        by_cases hbr : b ∈ ids (pre ++ r)
        · rw [if_pos hbr, if_pos]
          rw [ids_append, ids_cons, List.mem_append]
          rw [ids_append, List.mem_append] at hbr
          exact hbr.imp id (List.mem_cons_of_mem _)
        · rw [if_neg hbr, d5 b hbr]
          by_cases hbx : b = x.1
          · rw [if_pos hbx, if_pos (by rw [hbx]; simp [ids])]
          · rw [if_neg hbx, if_neg]
            rw [ids_append, ids_cons, List.mem_append]
            rw [ids_append, List.mem_append] at hbr
            rintro (hc | hc)
            · exact hbr (.inl hc)
            · rcases List.mem_cons.mp hc with hc | hc
              · exact hbx hc
              · exact hbr (.inr hc)

/-- The stop. -/
theorem stop_ok (t : Thread) (l : List (Nat × Int)) (fails : Nat → Bool) (h : Rep t l) (hm : l.length ≤ t.max) (hg : t.grace = false) (ht : l = [] → t.timer = none) :
    ∃ t', stop t fails = .ok t' ∧ Rep t' (l.filter fun x => !fails x.1) ∧ t'.max = t.max ∧ t'.now = t.now ∧ t'.timeout = t.timeout ∧ t'.accepting = false ∧
      t'.grace = decide (l ≠ []) ∧ t'.timer = (if l.filter (fun x => !fails x.1) = [] then none else some (t.now + 5000)) ∧
      (∀ b, b ∉ ids (l.filter fun x => !fails x.1) → t'.mem b = if b ∈ ids l then none else t.mem b) := by
  unfold stop
  rw [hg, sane_ok t l h hm]
  simp only [Bool.not_false, assert_true, Outcome.bind_ok]
  cases l with
  | nil =>
    rw [if_pos (show t.num = 0 from h.num), ht rfl]
    simp only [Option.isNone_none, assert_true, Outcome.bind_ok]
    exact ⟨_, rfl, ⟨trivial, h.head, h.tail, h.num, h.nodup⟩, rfl, rfl, rfl, rfl, rfl, rfl, fun b _ => by simp [ids]⟩
  | cons x r =>
    rw [if_neg (by rw [h.num]; simp), h.head]
    simp only [firstId, Option.isSome_some, assert_true, Outcome.bind_ok]
    have h' : Rep { t with accepting := false, grace := true, head := some x.1 } ([] ++ x :: r) := ⟨h.seg, rfl, h.tail, h.num, h.nodup⟩
    obtain ⟨t', e1, e2, e3, e4, e5⟩ := notify_ok fails (x :: r) _ [] (t.num + 1) (by rw [h.num]; omega) h' hm rfl
    rw [show firstId (x :: r) none = some x.1 from rfl] at e1
    rw [e1]
    simp only [Outcome.bind_ok]
    obtain ⟨a1, a2, a3, a4, a5⟩ := e3
    by_cases hnil : (x :: r).filter (fun x => !fails x.1) = []
    · have hn : t'.num = 0 := by rw [e2.num, List.nil_append, hnil]; rfl
      rw [if_neg (by simp [hn])]
      have ht' : t'.timer = none := by rw [e4, if_pos ⟨by simp, hnil⟩]
      rw [ht']
      simp only [Option.isNone_none, assert_true, Outcome.bind_ok]
      exact ⟨_, rfl, e2, a1, a4, a5, a3, by rw [a2]; simp, by rw [ht', if_pos hnil], e5⟩
    · have hn : t'.num ≠ 0 := by
        rw [e2.num, List.nil_append]
        exact fun hc => hnil (List.eq_nil_of_length_eq_zero hc)
      rw [if_pos hn]
      refine ⟨_, rfl, rep_timer e2 _, a1, a4, a5, a3, by rw [show _ = t'.grace from rfl, a2]; simp, ?_, e5⟩
      rw [if_neg hnil]
      show some (t'.now + 5000) = _
      rw [a4]

end Gdnsd.Connq
