/-
The operations on the queue, as operations on lists.
-/
import Verif.Connq.SegLemmas
namespace Gdnsd.Connq

/-- The fields that no operation changes. -/
def Same (t t' : Thread) : Prop := t'.max = t.max ∧ t'.grace = t.grace ∧ t'.accepting = t.accepting ∧ t'.now = t.now ∧ t'.timeout = t.timeout

theorem nodup_mid {l1 l2 : List (Nat × Int)} {x : Nat × Int} (h : (ids (l1 ++ x :: l2)).Nodup) :
    (ids (l1 ++ l2)).Nodup ∧ x.1 ∉ ids (l1 ++ l2) ∧ (∀ b ∈ ids l1, b ∉ ids l2) ∧ (ids l1).Nodup ∧ (ids l2).Nodup := by
  rw [ids_append, ids_cons, List.nodup_append] at h
  obtain ⟨h1, h2, h3⟩ := h
  obtain ⟨h4, h5⟩ := List.nodup_cons.mp h2
  rw [ids_append]
  refine ⟨?_, ?_, ?_, h1, h5⟩
  · rw [List.nodup_append]
    exact ⟨h1, h5, fun a ha b hb => h3 a ha b (List.mem_cons_of_mem _ hb)⟩
  · intro hc
    rcases List.mem_append.mp hc with hc | hc
    · exact h3 _ hc _ (by simp) rfl
    · exact h4 hc
  · intro b hb hc
    exact h3 b hb b (List.mem_cons_of_mem _ hc) rfl

/-- A connection is taken out of the list. Its own memory stays. -/
theorem pull_ok (t : Thread) (l1 l2 : List (Nat × Int)) (x : Nat × Int) (h : Rep t (l1 ++ x :: l2)) (hm : (l1 ++ x :: l2).length ≤ t.max) :
    ∃ t', pull t x.1 = .ok t' ∧ Rep t' (l1 ++ l2) ∧ Same t t' ∧ t'.timer = (if l1 = [] then adjTimer t l2 else t.timer) ∧
      (∃ nd, t'.mem x.1 = some nd ∧ nd.idle = x.2) ∧ (∀ b, b ∉ ids (l1 ++ x :: l2) → t'.mem b = t.mem b) := by
  obtain ⟨n1, n2, n3, n4, n5⟩ := nodup_mid h.nodup
  obtain ⟨s1, s2, s3⟩ := (seg_append t.mem none l1 (x :: l2) none).mp h.seg
  have hlen : t.num = l1.length + l2.length + 1 := by rw [h.num]; simp; omega
  have hxi : x.1 ∉ ids l1 ∧ x.1 ∉ ids l2 := by
    rw [ids_append, List.mem_append] at n2
    exact ⟨fun hc => n2 (.inl hc), fun hc => n2 (.inr hc)⟩
  unfold pull
  rw [sane_ok t _ h hm]
  simp only [Outcome.bind_ok]
  rw [show decide (t.num ≠ 0) = true from decide_eq_true (by omega)]
  simp only [assert_true, Outcome.bind_ok]
  rw [get_some s2]
  simp only [Outcome.bind_ok]
  -- the next pointer
  have hnext : ∃ t1, pullNext { t with num := t.num - 1 } x.1 ⟨firstId l2 none, lastId none l1, x.2⟩ = .ok t1 ∧
      Seg t1.mem none l1 (some x.1) ∧ t1.mem x.1 = t.mem x.1 ∧ Seg t1.mem (lastId none l1) l2 none ∧
      t1.head = t.head ∧ t1.tail = lastId none (l1 ++ l2) ∧ t1.num = t.num - 1 ∧ t1.timer = t.timer ∧ Same t t1 ∧
      (∀ b, b ∉ ids (l1 ++ x :: l2) → t1.mem b = t.mem b) := by
    unfold pullNext
    cases l2 with
    | nil =>
      dsimp only [firstId]
      have ht : t.tail = some x.1 := by rw [h.tail, lastId_concat]
      rw [show decide (some x.1 = t.tail) = true from decide_eq_true ht.symm]
      simp only [assert_true, Outcome.bind_ok]
      exact ⟨_, rfl, s1, rfl, trivial, rfl, by simp, rfl, rfl, ⟨rfl, rfl, rfl, rfl, rfl⟩, fun _ _ => rfl⟩
    | cons y r =>
      dsimp only [firstId]
      have ht : some x.1 ≠ t.tail := by
        rw [h.tail, lastId_append]
        obtain ⟨b, hb, hb2⟩ := lastId_some' (some x.1) (y :: r) (by simp)
        rw [show lastId (lastId none l1) (x :: y :: r) = lastId (some x.1) (y :: r) from rfl, hb]
        intro hc
        cases hc
        exact hxi.2 hb2
      rw [show decide (some x.1 ≠ t.tail) = true from decide_eq_true ht]
      simp only [assert_true, Outcome.bind_ok]
      rw [get_some (t := { t with num := t.num - 1 }) s3.1]
      simp only [Outcome.bind_ok]
      rw [put_some (t := { t with num := t.num - 1 }) _ s3.1]
      have hyx : x.1 ≠ y.1 := fun hc => hxi.2 (by rw [hc]; simp [ids])
      refine ⟨_, rfl, ?_, ?_, ?_, rfl, ?_, rfl, rfl, ⟨rfl, rfl, rfl, rfl, rfl⟩, ?_⟩
      · exact seg_upd _ _ _ _ _ _ (fun hc => n3 _ hc (by simp [ids])) s1
      · exact upd_ne _ _ _ _ hyx
      · exact seg_setprev t.mem (some x.1) (lastId none l1) r y none (List.nodup_cons.mp n5).1 s3
      · show t.tail = _
        rw [h.tail, lastId_append, lastId_append]; rfl
      · intro b hb
        refine upd_ne _ _ _ _ (fun hc => hb ?_)
        rw [hc]; simp [ids]
  obtain ⟨t1, e1, k1, k2, k3, k4, k5, k6, k7, k8, k9⟩ := hnext
  rw [e1]
  simp only [Outcome.bind_ok]
  have hget : t1.mem x.1 = some ⟨firstId l2 none, lastId none l1, x.2⟩ := by rw [k2]; exact s2
  rw [get_some hget]
  simp only [Outcome.bind_ok]
  rcases List.eq_nil_or_concat l1 with h0 | ⟨l0, y, h0⟩
  · subst h0
    unfold pullPrev
    dsimp only [lastId]
    rw [show decide (some x.1 = t1.head) = true from decide_eq_true (by rw [k4, h.head]; rfl)]
    simp only [assert_true, Outcome.bind_ok]
    have hr : Rep { t1 with head := firstId l2 none } l2 := ⟨k3, rfl, k5, by rw [k6, hlen]; simp, n5⟩
    rw [adjust_ok _ l2 hr (by show _ ≤ t1.max; rw [k8.1]; simp at hm; omega)]
    simp only [Outcome.bind_ok]
    rw [sane_ok _ l2 (rep_timer hr _) (by show _ ≤ t1.max; rw [k8.1]; simp at hm; omega)]
    refine ⟨_, rfl, rep_timer hr _, k8, ?_, ⟨_, hget, rfl⟩, k9⟩
    rw [if_pos trivial]
    unfold adjTimer
    cases l2 with
    | nil => rfl
    | cons z r =>
      simp only
      rw [k7, k8.2.1, k8.2.2.2.1, k8.2.2.2.2]
  · have h0 : l1 = l0 ++ [y] := by simpa using h0
    subst h0
    unfold pullPrev
    rw [lastId_concat] at hget k3 ⊢
    dsimp only
    have hyx : y.1 ≠ x.1 := fun hc => hxi.1 (by rw [← hc]; simp [ids])
    have hy0 : y.1 ∉ ids l0 := by
      rw [ids_append, List.nodup_append] at n4
      exact fun hc => n4.2.2 _ hc _ (by simp [ids]) rfl
    rw [show decide (some x.1 ≠ t1.head) = true from decide_eq_true (by
      rw [k4, h.head]
      cases l0 with
      | nil => exact fun hc => hyx (by simpa [firstId] using hc.symm)
      | cons z r => exact fun hc => hxi.1 (by rw [show x.1 = z.1 by simpa [firstId] using hc]; simp [ids]))]
    simp only [assert_true, Outcome.bind_ok]
    obtain ⟨g1, g2⟩ := seg_setnext t1.mem none l0 y (some x.1) (firstId l2 none) hy0 k1
    rw [get_some g1]
    simp only [Outcome.bind_ok]
    rw [put_some _ g1]
    simp only [Outcome.bind_ok]
    have hr : Rep { t1 with mem := upd t1.mem y.1 (some ⟨firstId l2 none, lastId none l0, y.2⟩) } (l0 ++ [y] ++ l2) := by
      refine ⟨?_, ?_, k5, by show t1.num = _; rw [k6, hlen]; simp; omega, n1⟩
      · refine (seg_append _ _ _ _ _).mpr ⟨g2, ?_⟩
        rw [lastId_concat]
        exact seg_upd _ _ _ _ _ _ (n3 _ (by simp [ids])) k3
      · show t1.head = _
        rw [k4, h.head, firstId_append, firstId_append, firstId_append, firstId_append]; rfl
    rw [sane_ok _ _ hr (by show _ ≤ t1.max; rw [k8.1]; simp at hm ⊢; omega)]
    refine ⟨_, rfl, hr, k8, ?_, ⟨_, (upd_ne _ _ _ _ (Ne.symm hyx)).trans hget, rfl⟩, ?_⟩
    · rw [if_neg (by simp)]; exact k7
    · intro b hb
      exact (upd_ne t1.mem y.1 b _ (fun hc => hb (by rw [hc]; simp [ids]))).trans (k9 b hb)

/-- A connection is closed. -/
theorem destruct_ok (t : Thread) (l1 l2 : List (Nat × Int)) (x : Nat × Int) (h : Rep t (l1 ++ x :: l2)) (hm : (l1 ++ x :: l2).length ≤ t.max) :
    ∃ t', destruct t x.1 true = .ok t' ∧ Rep t' (l1 ++ l2) ∧ Same t t' ∧ t'.timer = (if l1 = [] then adjTimer t l2 else t.timer) ∧
      (∀ b, b ∉ ids (l1 ++ l2) → t'.mem b = if b = x.1 then none else t.mem b) := by
  obtain ⟨t1, e1, e2, e3, e4, ⟨nd, e5, _⟩, e6⟩ := pull_ok t l1 l2 x h hm
  have hlen : t.num = l1.length + l2.length + 1 := by rw [h.num]; simp; omega
  obtain ⟨n1, n2, _⟩ := nodup_mid h.nodup
  unfold destruct
  rw [show decide (t.num ≠ 0) = true from decide_eq_true (by omega)]
  simp only [assert_true, Outcome.bind_ok, if_true]
  rw [e1]
  simp only [Outcome.bind_ok]
  rw [free_some e5]
  refine ⟨_, rfl, ⟨seg_upd _ _ _ _ _ _ n2 e2.seg, e2.head, e2.tail, e2.num, e2.nodup⟩, e3, e4, ?_⟩
  intro b hb
  show upd t1.mem x.1 none b = _
  unfold upd
  by_cases hbx : b = x.1
  · rw [if_pos hbx, if_pos hbx]
  · rw [if_neg hbx, if_neg hbx]
    refine e6 b (fun hc => hb ?_)
    rw [ids_append, ids_cons] at hc
    rw [ids_append]
    rcases List.mem_append.mp hc with hc | hc
    · exact List.mem_append.mpr (.inl hc)
    · rcases List.mem_cons.mp hc with hc | hc
      · exact absurd hc hbx
      · exact List.mem_append.mpr (.inr hc)

/-- A new last element. -/
theorem link_last (m : Nat → Option Node) (l0 : List (Nat × Int)) (y x : Nat × Int) (hn : (ids (l0 ++ [y] ++ [x])).Nodup) (hs : Seg m none (l0 ++ [y]) none) :
    m y.1 = some ⟨none, lastId none l0, y.2⟩ ∧
    Seg (upd (upd m x.1 (some ⟨none, some y.1, x.2⟩)) y.1 (some ⟨some x.1, lastId none l0, y.2⟩)) none (l0 ++ [y] ++ [x]) none := by
  rw [ids_append, List.nodup_append] at hn
  obtain ⟨h1, _, h3⟩ := hn
  have hx : x.1 ∉ ids (l0 ++ [y]) := fun hc => h3 _ hc _ (by simp [ids]) rfl
  have hy : y.1 ∉ ids l0 := by
    rw [ids_append, List.nodup_append] at h1
    exact fun hc => h1.2.2 _ hc _ (by simp [ids]) rfl
  have hyx : x.1 ≠ y.1 := fun hc => hx (by rw [hc]; simp [ids])
  obtain ⟨g1, _⟩ := seg_setnext m none l0 y none (some x.1) hy hs
  obtain ⟨_, g3⟩ := seg_setnext (upd m x.1 (some ⟨none, some y.1, x.2⟩)) none l0 y none (some x.1) hy (seg_upd _ _ _ _ _ _ hx hs)
  refine ⟨g1, (seg_append _ _ _ _ _).mpr ⟨g3, ?_, trivial⟩⟩
  rw [upd_ne _ _ _ _ hyx, upd_same, lastId_concat]; rfl

/-- A connection is added. -/
theorem append_ok (t : Thread) (l : List (Nat × Int)) (a : Nat) (h : Rep t l) (ha : a ∉ ids l) (hm : l.length < t.max) (hm2 : 2 ≤ t.max) (hg : t.grace = false) :
    ∃ t', append t a = .ok t' ∧ Same t t' ∧ Rep t' (if l.length + 1 = t.max then (l ++ [(a, t.now)]).tail else l ++ [(a, t.now)]) ∧
      t'.timer = (if l = [] ∨ l.length + 1 = t.max then adjTimer t (if l.length + 1 = t.max then (l ++ [(a, t.now)]).tail else l ++ [(a, t.now)]) else t.timer) ∧
      (∀ b, b ∉ ids (if l.length + 1 = t.max then (l ++ [(a, t.now)]).tail else l ++ [(a, t.now)]) →
        t'.mem b = if some b = firstId l none ∧ l.length + 1 = t.max then none else t.mem b) := by
  unfold append
  rw [sane_ok t l h (by omega), hg]
  have hh : t.head ≠ some a := by
    rw [h.head]
    cases l with
    | nil => simp [firstId]
    | cons x r => exact fun hc => ha (by rw [show a = x.1 by simpa [firstId] using hc.symm]; simp [ids])
  have ht : t.tail ≠ some a := by
    rw [h.tail]
    intro hc
    cases l with
    | nil => cases hc
    | cons x r =>
      obtain ⟨b, hb, hb2⟩ := lastId_some' none (x :: r) (by simp)
      rw [hb] at hc
      cases hc
      exact ha hb2
  rw [show decide (t.head ≠ some a) = true from decide_eq_true hh, show decide (t.tail ≠ some a) = true from decide_eq_true ht]
  simp only [assert_true, Outcome.bind_ok, Bool.not_false]
  rcases List.eq_nil_or_concat l with h0 | ⟨l0, y, h0⟩
  · subst h0
    have h1 : t.head = none := h.head
    have h2 : t.tail = none := h.tail
    have h3 : t.num = 0 := h.num
    rw [h1, h2, h3]
    simp only [Option.isNone_none, decide_true, assert_true, Outcome.bind_ok]
    have hr : Rep { t with mem := upd t.mem a (some ⟨none, none, t.now⟩), head := some a, tail := some a, num := 1, grace := false } [(a, t.now)] :=
      ⟨⟨upd_same _ _ _, trivial⟩, rfl, rfl, rfl, by simp [ids]⟩
    rw [if_neg (by simp; omega), if_pos (.inl trivial)]
    have := adjust_ok _ _ hr (by show 1 ≤ t.max; omega)
    refine ⟨_, this, ⟨rfl, hg.symm, rfl, rfl, rfl⟩, rep_timer hr _, ?_, ?_⟩
    · unfold adjTimer
      simp [hg]
    · intro b hb
      rw [if_neg (by simp [firstId])]
      exact upd_ne _ _ _ _ (fun hc => hb (by rw [hc]; simp [ids]))
  · have h0 : l = l0 ++ [y] := by simpa using h0
    have hne : l ≠ [] := by rw [h0]; simp
    have hnd : (ids (l0 ++ [y] ++ [(a, t.now)])).Nodup := by
      rw [ids_append, List.nodup_append, ← h0]
      refine ⟨h.nodup, by simp [ids], ?_⟩
      intro p hp q hq hpq
      simp [ids] at hq
      exact ha (by rw [← hq, ← hpq]; exact hp)
    obtain ⟨g1, g2⟩ := link_last t.mem l0 y (a, t.now) hnd (h0 ▸ h.seg)
    obtain ⟨z, r, hz⟩ : ∃ z r, l = z :: r := by cases l with | nil => exact absurd rfl hne | cons z r => exact ⟨z, r, rfl⟩
    have h1 : t.head = some z.1 := by rw [h.head, hz]; rfl
    have h2 : t.tail = some y.1 := by rw [h.tail, h0, lastId_concat]
    rw [h1, h2]
    dsimp only
    have hya : y.1 ≠ a := fun hc => ha (by rw [h0, ← hc]; simp [ids])
    rw [get_some (n := ⟨none, lastId none l0, y.2⟩) (by show (if y.1 = a then _ else t.mem y.1) = _; rw [if_neg hya]; exact g1)]
    simp only [Outcome.bind_ok, Option.isNone_none, assert_true]
    rw [get_some (n := ⟨none, none, t.now⟩) (by show (if a = a then _ else _) = _; rw [if_pos rfl])]
    simp only [Outcome.bind_ok]
    rw [put_some (n := ⟨none, none, t.now⟩) _ (by show (if a = a then _ else _) = _; rw [if_pos rfl])]
    simp only [Outcome.bind_ok]
    have hm1 : upd (fun b => if b = a then some ⟨none, none, t.now⟩ else t.mem b) a (some ⟨none, some y.1, t.now⟩) = upd t.mem a (some ⟨none, some y.1, t.now⟩) := by
      funext b
      unfold upd
      by_cases hb : b = a
      · rw [if_pos hb, if_pos hb]
      · rw [if_neg hb, if_neg hb]; exact if_neg hb
    rw [hm1]
    have gy : upd t.mem a (some ⟨none, some y.1, t.now⟩) y.1 = some ⟨none, lastId none l0, y.2⟩ := by rw [upd_ne _ _ _ _ hya]; exact g1
    rw [get_some (n := ⟨none, lastId none l0, y.2⟩) gy]
    simp only [Outcome.bind_ok]
    rw [put_some (n := ⟨none, lastId none l0, y.2⟩) _ gy]
    simp only [Outcome.bind_ok]
    generalize ht1 : ({ t with mem := upd (upd t.mem a (some ⟨none, some y.1, t.now⟩)) y.1 (some ⟨some a, lastId none l0, y.2⟩), head := some z.1, tail := some a, num := t.num + 1, grace := false } : Thread) = t1
    have hs1 : Same t t1 := by subst ht1; exact ⟨rfl, hg.symm, rfl, rfl, rfl⟩
    have hr : Rep t1 (l ++ [(a, t.now)]) := by
      subst ht1
      refine ⟨by rw [h0]; exact g2, ?_, by rw [lastId_concat], ?_, by rw [h0]; exact hnd⟩
      · show some z.1 = _; rw [hz]; rfl
      · show t.num + 1 = _; rw [h.num]; simp
    have htm : t1.timer = t.timer := by subst ht1; rfl
    have hmem : ∀ b, b ∉ ids (l ++ [(a, t.now)]) → t1.mem b = t.mem b := by
      intro b hb
      subst ht1
      show upd (upd _ _ _) _ _ b = _
      rw [upd_ne _ _ _ _ (fun hc => hb (by rw [hc, h0]; simp [ids])), upd_ne _ _ _ _ (fun hc => hb (by rw [hc]; simp [ids]))]
    have hl1 : (l ++ [(a, t.now)]).length ≤ t1.max := by rw [hs1.1]; simp; omega
    rw [sane_ok t1 _ hr hl1]
    simp only [Outcome.bind_ok]
    rw [h.num]
    by_cases hmax : l.length + 1 = t.max
    · rw [if_pos hmax, if_pos hmax, if_pos (.inr hmax)]
      have hr' : Rep t1 ([] ++ z :: (r ++ [(a, t.now)])) := by rw [hz] at hr; exact hr
      obtain ⟨t2, d1, d2, d3, d4, d5⟩ := destruct_ok t1 [] (r ++ [(a, t.now)]) z hr' (by rw [hz] at hl1; exact hl1)
      have htail : (l ++ [(a, t.now)]).tail = r ++ [(a, t.now)] := by rw [hz]; rfl
      refine ⟨t2, d1, ⟨d3.1.trans hs1.1, d3.2.1.trans hs1.2.1, d3.2.2.1.trans hs1.2.2.1, d3.2.2.2.1.trans hs1.2.2.2.1, d3.2.2.2.2.trans hs1.2.2.2.2⟩, by rw [htail]; exact d2, ?_, ?_⟩
      · rw [d4, if_pos rfl, htail]
        unfold adjTimer
        cases hrr : r ++ [(a, t.now)] with
        | nil => rfl
        | cons w r' =>
          simp only
          rw [htm, hs1.2.1, hs1.2.2.2.1, hs1.2.2.2.2]
      · rw [htail]
        intro b hb
        rw [d5 b hb, hz]
        have hfz : firstId (z :: r) none = some z.1 := rfl
        by_cases hbz : b = z.1
        · rw [if_pos hbz, if_pos ⟨by rw [hbz, hfz], by rw [← hz]; exact hmax⟩]
        · rw [if_neg hbz, if_neg (fun hc => hbz (Option.some.inj (hc.1.trans hfz)))]
          refine hmem b (fun hc => hb ?_)
          rw [hz, List.cons_append, ids_cons] at hc
          rcases List.mem_cons.mp hc with hc | hc
          · exact absurd hc hbz
          · exact hc
    · rw [if_neg hmax, if_neg hmax, if_neg (by rintro (hc | hc); · exact hne hc
                                               · exact hmax hc)]
      refine ⟨t1, rfl, hs1, hr, htm, ?_⟩
      intro b hb
      rw [if_neg (fun hc => hmax hc.2)]
      exact hmem b hb

end Gdnsd.Connq
