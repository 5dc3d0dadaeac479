/-
The limit of connections of a thread, idle closing (C40) and its promptness (C67).
-/
import Verif.Connq.InvLemmas
namespace Gdnsd.Connq

theorem idle_none {t : Thread} {b : Nat} : t.idleAt b ≠ none ↔ t.mem b ≠ none := by
  unfold Thread.idleAt
  cases t.mem b <;> simp

theorem lists_ids {t : Thread} {l : List (Nat × Int)} (h : Inv t l) : t.Lists (ids l) :=
  ⟨h.rep.nodup, fun _ => (idle_ids h).symm.trans idle_none.symm⟩

theorem nodup_le (a : List Nat) : ∀ (b : List Nat), a.Nodup → (∀ x ∈ a, x ∈ b) → a.length ≤ b.length := by
  induction a with
  | nil => intro b _ _; exact Nat.zero_le _
  | cons x r ih =>
    intro b ha hs
    obtain ⟨h1, h2⟩ := List.nodup_cons.mp ha
    have hx : x ∈ b := hs x (by simp)
    have := ih (b.erase x) h2 (fun y hy => (List.mem_erase_of_ne (fun hc : y = x => h1 (hc ▸ hy))).mpr (hs y (List.mem_cons_of_mem _ hy)))
    rw [List.length_erase_of_mem hx] at this
    have hp : 0 < b.length := List.length_pos_of_mem hx
    rw [List.length_cons]; omega

theorem lists_length {t : Thread} {l1 l2 : List Nat} (h1 : t.Lists l1) (h2 : t.Lists l2) : l1.length = l2.length := by
  exact Nat.le_antisymm (nodup_le _ _ h1.1 fun x hx => (h2.2 x).mpr ((h1.2 x).mp hx)) (nodup_le _ _ h2.1 fun x hx => (h1.2 x).mpr ((h2.2 x).mp hx))

/-- **C40.** No assertion about the queue fails and no freed connection is used, whatever happens. -/
theorem C40_safe {max : Nat} {timeout : Int} {t : Thread} (h : Run max timeout t) (hm : 2 ≤ max) (e : Event) (hc : e.Can t) : ∃ t', step t e = .ok t' := by
  obtain ⟨⟨l, hl⟩, _⟩ := run_inv h hm
  obtain ⟨t', e1, _⟩ := step_ok hl e hc
  exact ⟨t', e1⟩

/-- **C40.** The open connections are always fewer than the limit: one more closes another. -/
theorem C40_limit {max : Nat} {timeout : Int} {t : Thread} (h : Run max timeout t) (hm : 2 ≤ max) : (∃ l, t.Lists l) ∧ ∀ l, t.Lists l → l.length < max := by
  obtain ⟨⟨l, hl⟩, h1, _⟩ := run_inv h hm
  refine ⟨⟨_, lists_ids hl⟩, fun l' hl' => ?_⟩
  rw [lists_length hl' (lists_ids hl), ← h1]
  simpa [ids] using hl.lim

/-- **C40.** A new connection is added, and the others stay, except that at the limit one
connection that no other has been idle for longer than is closed. -/
theorem C40_connect {max : Nat} {timeout : Int} {t t' : Thread} (h : Run max timeout t) (hm : 2 ≤ max) (a : Nat) (hc : (Event.connect a).Can t)
    (hs : step t (.connect a) = .ok t') (l : List Nat) (hl : t.Lists l) :
    t'.idleAt a = some t.now ∧
    (l.length + 1 < max → ∀ b, b ≠ a → t'.idleAt b = t.idleAt b) ∧
    (l.length + 1 = max → ∃ c i, t.idleAt c = some i ∧ (∀ b j, t.idleAt b = some j → i ≤ j) ∧ t'.idleAt c = none ∧ ∀ b, b ≠ a → b ≠ c → t'.idleAt b = t.idleAt b) := by
  obtain ⟨⟨q, hq⟩, h1, _⟩ := run_inv h hm
  have hlen : l.length = q.length := by rw [lists_length hl (lists_ids hq)]; simp [ids]
  obtain ⟨t1, e1, e2, _⟩ := step_ok hq _ hc
  rw [hs] at e1; cases e1
  have ha : ∀ i, (a, i) ∉ q := by
    intro i hi
    have := (idle_mem hq).mpr hi
    unfold Thread.idleAt at this
    rw [hc.2] at this; cases this
  have hmem : after t q (.connect a) = (if q.length + 1 = max then (q ++ [(a, t.now)]).tail else q ++ [(a, t.now)]) := by rw [← h1]; rfl
  rw [hmem] at e2
  by_cases hmax : q.length + 1 = max
  · rw [if_pos hmax] at e2
    obtain ⟨z, r, hz⟩ : ∃ z r, q = z :: r := by
      cases q with
      | nil => simp at hmax; omega
      | cons z r => exact ⟨z, r, rfl⟩
    subst hz
    have e2 : Inv t' (r ++ [(a, t.now)]) := e2
    have hnd := List.nodup_cons.mp hq.rep.nodup
    refine ⟨(idle_mem e2).mpr (by simp), fun hlt => by omega, fun _ => ⟨z.1, z.2, (idle_mem hq).mpr (by simp), ?_, ?_, ?_⟩⟩
    · intro b j hj
      rcases List.mem_cons.mp ((idle_mem hq).mp hj) with hb | hb
      · rw [← hb]; exact Int.le_refl _
      · exact (List.pairwise_cons.mp hq.sorted).1 _ hb
    · cases hi : t'.idleAt z.1 with
      | none => rfl
      | some i =>
        exfalso
        rcases List.mem_append.mp ((idle_mem e2).mp hi) with hb | hb
        · exact hnd.1 (List.mem_map.mpr ⟨_, hb, rfl⟩)
        · have hza : z.1 = a := congrArg Prod.fst (List.mem_singleton.mp hb)
          exact ha z.2 (by rw [← hza]; simp)
    · intro b hba hbz
      apply idle_ext
      intro i
      rw [idle_mem e2, idle_mem hq]
      constructor
      · intro hb
        rcases List.mem_append.mp hb with hb | hb
        · exact List.mem_cons_of_mem _ hb
        · exact absurd (congrArg Prod.fst (List.mem_singleton.mp hb)) hba
      · intro hb
        rcases List.mem_cons.mp hb with hb | hb
        · exact absurd (congrArg Prod.fst hb) hbz
        · exact List.mem_append.mpr (.inl hb)
  · rw [if_neg hmax] at e2
    refine ⟨(idle_mem e2).mpr (by simp), fun _ b hba => ?_, fun hc => by omega⟩
    apply idle_ext
    intro i
    rw [idle_mem e2, idle_mem hq]
    constructor
    · intro hb
      rcases List.mem_append.mp hb with hb | hb
      · exact hb
      · exact absurd (congrArg Prod.fst (List.mem_singleton.mp hb)) hba
    · exact fun hb => List.mem_append.mpr (.inl hb)

/-- **C40.** A request makes its connection the least idle one, and no other changes. -/
theorem C40_request {max : Nat} {timeout : Int} {t t' : Thread} (h : Run max timeout t) (hm : 2 ≤ max) (a : Nat) (hc : (Event.request a).Can t)
    (hs : step t (.request a) = .ok t') : t'.idleAt a = some t.now ∧ ∀ b, b ≠ a → t'.idleAt b = t.idleAt b := by
  obtain ⟨⟨q, hq⟩, h1, _⟩ := run_inv h hm
  obtain ⟨t1, e1, e2, _⟩ := step_ok hq _ hc
  rw [hs] at e1; cases e1
  have e2 : Inv t' (q.filter (fun x => decide (x.1 ≠ a)) ++ [(a, t.now)]) := e2
  refine ⟨(idle_mem e2).mpr (by simp), fun b hba => idle_ext fun i => ?_⟩
  rw [idle_mem e2, idle_mem hq]
  simp [List.mem_append, List.mem_filter, hba]

/-- **C40.** A connection that ends is gone, and no other changes. -/
theorem C40_gone {max : Nat} {timeout : Int} {t t' : Thread} (h : Run max timeout t) (hm : 2 ≤ max) (a : Nat) (hc : (Event.gone a).Can t)
    (hs : step t (.gone a) = .ok t') : t'.idleAt a = none ∧ ∀ b, b ≠ a → t'.idleAt b = t.idleAt b := by
  obtain ⟨⟨q, hq⟩, h1, _⟩ := run_inv h hm
  obtain ⟨t1, e1, e2, _⟩ := step_ok hq _ hc
  rw [hs] at e1; cases e1
  have e2 : Inv t' (q.filter (fun x => decide (x.1 ≠ a))) := e2
  refine ⟨?_, fun b hba => idle_ext fun i => ?_⟩
  · cases hi : t'.idleAt a with
    | none => rfl
    | some i =>
      have := (List.mem_filter.mp ((idle_mem e2).mp hi)).2
      simp at this
  · rw [idle_mem e2, idle_mem hq]
    simp [List.mem_filter, hba]

/-- **C40.** Out of descriptors, one connection that no other has been idle for longer than is
closed, if there is one. -/
theorem C40_full {max : Nat} {timeout : Int} {t t' : Thread} (h : Run max timeout t) (hm : 2 ≤ max) (hc : Event.full.Can t) (hs : step t .full = .ok t') :
    (∀ b, t.idleAt b = none) ∧ (∀ b, t'.idleAt b = none) ∨
    ∃ c i, t.idleAt c = some i ∧ (∀ b j, t.idleAt b = some j → i ≤ j) ∧ t'.idleAt c = none ∧ ∀ b, b ≠ c → t'.idleAt b = t.idleAt b := by
  obtain ⟨⟨q, hq⟩, h1, _⟩ := run_inv h hm
  obtain ⟨t1, e1, e2, _⟩ := step_ok hq _ hc
  rw [hs] at e1; cases e1
  have e2 : Inv t' q.tail := e2
  cases q with
  | nil =>
    left
    constructor
    · intro b
      cases hi : t.idleAt b with
      | none => rfl
      | some i => cases (idle_mem hq).mp hi
    · intro b
      cases hi : t'.idleAt b with
      | none => rfl
      | some i => cases (idle_mem e2).mp hi
  | cons z r =>
    right
    have e2 : Inv t' r := e2
    have hnd := List.nodup_cons.mp hq.rep.nodup
    refine ⟨z.1, z.2, (idle_mem hq).mpr (by simp), ?_, ?_, ?_⟩
    · intro b j hj
      rcases List.mem_cons.mp ((idle_mem hq).mp hj) with hb | hb
      · rw [← hb]; exact Int.le_refl _
      · exact (List.pairwise_cons.mp hq.sorted).1 _ hb
    · cases hi : t'.idleAt z.1 with
      | none => rfl
      | some i => exact absurd (List.mem_map.mpr ⟨_, (idle_mem e2).mp hi, rfl⟩) hnd.1
    · intro b hbz
      apply idle_ext
      intro i
      rw [idle_mem e2, idle_mem hq]
      constructor
      · exact fun hb => List.mem_cons_of_mem _ hb
      · intro hb
        rcases List.mem_cons.mp hb with hb | hb
        · exact absurd (congrArg Prod.fst hb) hbz
        · exact hb

theorem mem_dropWhile_sorted (c : Int) (l : List (Nat × Int)) (h : l.Pairwise (fun x y => x.2 ≤ y.2)) (x : Nat × Int) :
    x ∈ l.dropWhile (fun x => decide (x.2 ≤ c)) ↔ x ∈ l ∧ c < x.2 := by
  induction l with
  | nil => simp
  | cons y r ih =>
    obtain ⟨h1, h2⟩ := List.pairwise_cons.mp h
    by_cases hy : y.2 ≤ c
    · rw [List.dropWhile_cons_of_pos (by simpa using hy), ih h2]
      constructor
      · exact fun ⟨a, b⟩ => ⟨List.mem_cons_of_mem _ a, b⟩
      · rintro ⟨a, b⟩
        rcases List.mem_cons.mp a with rfl | a
        · omega
        · exact ⟨a, b⟩
    · rw [List.dropWhile_cons_of_neg (by simpa using hy)]
      constructor
      · intro hx
        refine ⟨hx, ?_⟩
        rcases List.mem_cons.mp hx with rfl | hx
        · omega
        · have := h1 x hx; omega
      · exact fun hx => hx.1

/-- **C40.** When the timer fires, exactly the connections idle for at least the timeout are closed. -/
theorem C40_fire {max : Nat} {timeout : Int} {t t' : Thread} (h : Run max timeout t) (hm : 2 ≤ max) (hg : t.grace = false) (hc : Event.fire.Can t)
    (hs : step t .fire = .ok t') (b : Nat) (i : Int) : t'.idleAt b = some i ↔ t.idleAt b = some i ∧ t.now - i < timeout := by
  obtain ⟨⟨q, hq⟩, h1, h2⟩ := run_inv h hm
  obtain ⟨t1, e1, e2, _⟩ := step_ok hq _ hc
  rw [hs] at e1; cases e1
  have hmem : after t q .fire = q.dropWhile (fun x => decide (x.2 ≤ t.now - t.timeout)) := by
    show (if t.grace = true then _ else _) = _
    rw [hg]; rfl
  rw [hmem] at e2
  rw [idle_mem e2, idle_mem hq, mem_dropWhile_sorted _ _ hq.sorted, h2]
  constructor
  · rintro ⟨a, b⟩; exact ⟨a, by dsimp only at b; omega⟩
  · rintro ⟨a, b⟩; exact ⟨a, by dsimp only; omega⟩

/-- **C40.** At the end of the grace phase of a stop all connections are closed. -/
theorem C40_grace {max : Nat} {timeout : Int} {t t' : Thread} (h : Run max timeout t) (hm : 2 ≤ max) (hg : t.grace = true) (hc : Event.fire.Can t)
    (hs : step t .fire = .ok t') (b : Nat) : t'.idleAt b = none := by
  obtain ⟨⟨q, hq⟩, h1, h2⟩ := run_inv h hm
  obtain ⟨t1, e1, e2, _⟩ := step_ok hq _ hc
  rw [hs] at e1; cases e1
  have hmem : after t q .fire = [] := by
    show (if t.grace = true then _ else _) = _
    rw [hg]; rfl
  rw [hmem] at e2
  cases hi : t'.idleAt b with
  | none => rfl
  | some i => cases (idle_mem e2).mp hi

/-- **C40.** A stop ends the acceptance of connections and closes exactly those that cannot be notified. -/
theorem C40_stop {max : Nat} {timeout : Int} {t t' : Thread} (h : Run max timeout t) (hm : 2 ≤ max) (fails : Nat → Bool) (hc : (Event.stop fails).Can t)
    (hs : step t (.stop fails) = .ok t') : t'.accepting = false ∧ ∀ b, t'.idleAt b = if fails b then none else t.idleAt b := by
  obtain ⟨⟨q, hq⟩, h1, h2⟩ := run_inv h hm
  obtain ⟨t1, e1, e2, e3, e4, e5, e6, e7, e8⟩ := step_ok hq _ hc
  rw [hs] at e1; cases e1
  have e2 : Inv t' (q.filter fun x => !fails x.1) := e2
  refine ⟨e7, fun b => ?_⟩
  cases hf : fails b with
  | true =>
    simp only [if_true]
    cases hi : t'.idleAt b with
    | none => rfl
    | some i =>
      have := (List.mem_filter.mp ((idle_mem e2).mp hi)).2
      simp [hf] at this
  | false =>
    simp only [Bool.false_eq_true, if_false]
    apply idle_ext
    intro i
    rw [idle_mem e2, idle_mem hq]
    simp [List.mem_filter, hf]

/-- **C40.** As long as there are connections the timer is set; before a stop it is not set
before the most idle connection has been idle for the timeout. -/
theorem C40_timer {max : Nat} {timeout : Int} {t : Thread} (h : Run max timeout t) (hm : 2 ≤ max) (b : Nat) (i : Int) (hb : t.idleAt b = some i) :
    ∃ d, t.timer = some d ∧ (t.grace = false → ∃ c j, t.idleAt c = some j ∧ j ≤ i ∧ j + timeout + 250 ≤ d) := by
  obtain ⟨⟨q, hq⟩, h1, h2⟩ := run_inv h hm
  have hbm := (idle_mem hq).mp hb
  have hne : q ≠ [] := fun hc => by rw [hc] at hbm; cases hbm
  obtain ⟨d, hd⟩ := hq.on hne
  refine ⟨d, hd, fun hg => ?_⟩
  obtain ⟨z, r, hz⟩ : ∃ z r, q = z :: r := by cases q with | nil => exact absurd rfl hne | cons z r => exact ⟨z, r, rfl⟩
  obtain ⟨a, _, ha⟩ := hq.due hg z r hz
  rw [hd] at ha
  have ha := Option.some.inj ha
  refine ⟨z.1, z.2, (idle_mem hq).mpr (by rw [hz]; simp), ?_, by rw [← h2]; omega⟩
  rw [hz] at hbm
  rcases List.mem_cons.mp hbm with e | hbm
  · rw [← e]; exact Int.le_refl _
  · have := hq.sorted; rw [hz] at this
    exact (List.pairwise_cons.mp this).1 _ hbm

theorem prompt_run {max : Nat} {timeout : Int} {t : Thread} (h : PromptRun max timeout t) : Run max timeout t := by
  induction h with
  | init now => exact .init now
  | step _ hc _ hs ih => exact .step ih hc hs

/-- Closeness of the timer to the deadlines: every place nearer to the front costs at most 250 ms. -/
structure Near (t : Thread) (l : List (Nat × Int)) (max : Nat) : Prop where
  wait : ∀ d, t.timer = some d → t.now ≤ d
  near : t.grace = false → ∀ d, t.timer = some d → ∀ l1 x l2, l = l1 ++ x :: l2 → d + 250 * (l1.length : Int) ≤ x.2 + t.timeout + 250 * (max : Int)

theorem adj_wait (t : Thread) (l : List (Nat × Int)) (h : ∀ d, t.timer = some d → t.now ≤ d) : ∀ d, adjTimer t l = some d → t.now ≤ d := by
  intro d hd
  cases l with
  | nil => cases hd
  | cons x r =>
    unfold adjTimer at hd
    cases hg : t.grace with
    | true => rw [hg] at hd; exact h d hd
    | false =>
      simp only [hg, Bool.false_eq_true, if_false, Option.some.injEq] at hd
      rw [← hd]; split <;> omega

theorem sub_split {l1 l2 : List (Nat × Int)} {x : Nat × Int} {l : List (Nat × Int)} (h : (l1 ++ x :: l2).Sublist l) :
    ∃ m1 m2, l = m1 ++ x :: m2 ∧ l1.length ≤ m1.length := by
  obtain ⟨r1, r2, rfl, h1, h2⟩ := List.append_sublist_iff.mp h
  obtain ⟨s1, s2, rfl, h3, h4⟩ := List.cons_sublist_iff.mp h2 |>.imp (fun _ h => h)
  obtain ⟨u1, u2, rfl⟩ := List.append_of_mem h3
  exact ⟨r1 ++ u1, u2 ++ s2, by simp, by have := h1.length_le; simp; omega⟩

theorem split_concat {l0 : List (Nat × Int)} {y : Nat × Int} {l1 l2 : List (Nat × Int)} {x : Nat × Int} (h : l0 ++ [y] = l1 ++ x :: l2) :
    (l1 = l0 ∧ x = y) ∨ ∃ m, l0 = l1 ++ x :: m := by
  rcases List.eq_nil_or_concat l2 with hl | ⟨m, w, hl⟩
  · subst hl
    obtain ⟨h1, h2⟩ := List.append_inj' h rfl
    exact .inl ⟨h1.symm, (List.cons.inj h2).1.symm⟩
  · have hl : l2 = m ++ [w] := by simpa using hl
    subst hl
    have : l0 ++ [y] = (l1 ++ x :: m) ++ [w] := by rw [h]; simp
    exact .inr ⟨m, (List.append_inj' this rfl).1⟩

theorem near_sub {t : Thread} {l l' : List (Nat × Int)} {max : Nat} (hn : Near t l max) (hg : t.grace = false) (hs : l'.Sublist l) :
    ∀ d, t.timer = some d → ∀ l1 x l2, l' = l1 ++ x :: l2 → d + 250 * (l1.length : Int) ≤ x.2 + t.timeout + 250 * (max : Int) := by
  intro d hd l1 x l2 hl
  obtain ⟨m1, m2, hm, hlen⟩ := sub_split (hl ▸ hs)
  have := hn.near hg d hd m1 x m2 hm
  omega

theorem near_reset {t : Thread} {l' : List (Nat × Int)} {max : Nat} (hg : t.grace = false) (hs : l'.Pairwise (fun x y => x.2 ≤ y.2)) (hlen : l'.length ≤ max)
    (hd : ∀ l1 x l2, l' = l1 ++ x :: l2 → t.now + 250 * ((l1.length : Int) + 1) ≤ x.2 + t.timeout + 250 * (max : Int)) :
    ∀ d, adjTimer t l' = some d → ∀ l1 x l2, l' = l1 ++ x :: l2 → d + 250 * (l1.length : Int) ≤ x.2 + t.timeout + 250 * (max : Int) := by
  intro d hd' l1 x l2 hl
  have h1 := hd l1 x l2 hl
  have h2 : l1.length + 1 ≤ max := by rw [hl] at hlen; simp at hlen; omega
  cases l' with
  | nil => cases hd'
  | cons y r =>
    rw [adj_due t y r hg] at hd'
    have hd' := Option.some.inj hd'
    have h3 : y.2 ≤ x.2 := by
      cases l1 with
      | nil => rw [(List.cons.inj hl).1]; exact Int.le_refl _
      | cons z q =>
        have hr := (List.cons.inj hl).2
        exact (List.pairwise_cons.mp hs).1 x (by rw [hr]; simp)
    omega

theorem near_new {t : Thread} {z : Nat × Int} {r l0 : List (Nat × Int)} {a max : Nat} (h : Inv t (z :: r)) (hn : Near t (z :: r) max) (hg : t.grace = false) (hT : 0 ≤ t.timeout)
    (hs : l0.Sublist r) (hlen : l0.length + 1 ≤ max) :
    ∀ l1 x l2, l0 ++ [(a, t.now)] = l1 ++ x :: l2 → t.now + 250 * ((l1.length : Int) + 1) ≤ x.2 + t.timeout + 250 * (max : Int) := by
  intro l1 x l2 hl
  rcases split_concat hl with ⟨rfl, rfl⟩ | ⟨m, hm⟩
  · dsimp only; omega
  · obtain ⟨m1, m2, e1, e2⟩ := sub_split (hm ▸ hs)
    obtain ⟨d, hd⟩ := h.on (by simp)
    have h1 := hn.wait d hd
    have h2 := hn.near hg d hd (z :: m1) x m2 (by rw [e1]; rfl)
    simp only [List.length_cons] at h2
    omega

theorem near_tail {t : Thread} {z : Nat × Int} {r : List (Nat × Int)} {max : Nat} (h : Inv t (z :: r)) (hn : Near t (z :: r) max) (hg : t.grace = false) :
    ∀ l1 x l2, r = l1 ++ x :: l2 → t.now + 250 * ((l1.length : Int) + 1) ≤ x.2 + t.timeout + 250 * (max : Int) := by
  intro l1 x l2 hl
  obtain ⟨d, hd⟩ := h.on (by simp)
  have h1 := hn.wait d hd
  have h2 := hn.near hg d hd (z :: l1) x l2 (by rw [hl]; rfl)
  simp only [List.length_cons] at h2
  omega

theorem near_append {t : Thread} {l l0 : List (Nat × Int)} {a max : Nat} (h : Inv t l) (hn : Near t l max) (hg : t.grace = false) (hT : 0 ≤ t.timeout)
    (hs : l0.Sublist l) (hlen : l0.length + 1 ≤ max) :
    ∀ d, t.timer = some d → ∀ l1 x l2, l0 ++ [(a, t.now)] = l1 ++ x :: l2 → d + 250 * (l1.length : Int) ≤ x.2 + t.timeout + 250 * (max : Int) := by
  intro d hd l1 x l2 hl
  rcases split_concat hl with ⟨rfl, rfl⟩ | ⟨m, hm⟩
  · cases l with
    | nil => rw [h.off rfl] at hd; cases hd
    | cons z r =>
      obtain ⟨c, hc, he⟩ := h.due hg z r rfl
      have hz := h.past z (by simp)
      rw [hd] at he
      have he := Option.some.inj he
      dsimp only
      omega
  · exact near_sub hn hg hs d hd l1 x m hm

theorem filter_ne_sub {l : List (Nat × Int)} {a : Nat} {z : Nat × Int} (h : z.1 = a) :
    ((z :: l).filter (fun x => decide (x.1 ≠ a))).Sublist l := by
  rw [List.filter_cons_of_neg (by simp [h])]
  exact List.filter_sublist

theorem near_step {t t' : Thread} {l : List (Nat × Int)} {max : Nat} (h : Inv t l) (hmax : t.max = max) (hT : 0 ≤ t.timeout) (hn : Near t l max) (e : Event) (hc : e.Can t) (hp : e.Prompt t)
    (hs : step t e = .ok t') : Near t' (after t l e) max := by
  obtain ⟨t1, e1, e2, e3, e4, e5, e6, e7, e8⟩ := step_ok h e hc
  rw [hs] at e1; cases e1
  have hlim : (after t l e).length ≤ max := by have := e2.lim; rw [e3, hmax] at this; exact Nat.le_of_lt this
  have haw := adj_wait t (after t l e) hn.wait
  have hl0 := h.lim
  have h2 := h.two
  cases e with
  | connect a =>
    have hg : t.grace = false := by
      cases hg : t.grace with
      | false => rfl
      | true => have := h.acc hg; rw [hc.1] at this; cases this
    have e8 : t'.timer = if l = [] ∨ l.length + 1 = t.max then adjTimer t (after t l (.connect a)) else t.timer := e8
    by_cases hr : l = [] ∨ l.length + 1 = t.max
    · rw [if_pos hr] at e8
      refine ⟨by rw [e5, e8]; exact haw, fun _ => ?_⟩
      rw [e8, e4]
      refine near_reset hg e2.sorted hlim ?_
      show ∀ l1 x l2, (if l.length + 1 = t.max then (l ++ [(a, t.now)]).tail else l ++ [(a, t.now)]) = l1 ++ x :: l2 → _
      rcases hr with hr | hr
      · subst hr
        rw [if_neg (by simp; omega)]
        intro l1 x l2 hl
        cases l1 with
        | nil => have := (List.cons.inj hl).1; subst this; simp; omega
        | cons y q => have := (List.cons.inj hl).2; simp at this
      · rw [if_pos hr]
        cases l with
        | nil => simp at hr; omega
        | cons z r => exact near_new h hn hg hT (List.Sublist.refl _) (by simp at hr hl0; omega)
    · rw [if_neg hr] at e8
      refine ⟨by rw [e5, e8]; exact hn.wait, fun _ => ?_⟩
      rw [e8, e4]
      have haf : after t l (.connect a) = l ++ [(a, t.now)] := if_neg (fun hc => hr (.inr hc))
      rw [haf]
      exact near_append h hn hg hT (List.Sublist.refl _) (by omega)
  | request a =>
    have e8 : t'.timer = if firstId l none = some a then adjTimer t (after t l (.request a)) else t.timer := e8
    have hlen : (l.filter (fun x => decide (x.1 ≠ a))).length + 1 ≤ max := by
      have := hlim
      simp only [after, List.length_append, List.length_cons, List.length_nil] at this
      omega
    by_cases hr : firstId l none = some a
    · rw [if_pos hr] at e8
      refine ⟨by rw [e5, e8]; exact haw, fun hg => ?_⟩
      have hg : t.grace = false := e6.symm.trans hg
      rw [e8, e4]
      refine near_reset hg e2.sorted hlim ?_
      cases l with
      | nil => cases hr
      | cons z r => exact near_new h hn hg hT (filter_ne_sub (Option.some.inj hr)) hlen
    · rw [if_neg hr] at e8
      refine ⟨by rw [e5, e8]; exact hn.wait, fun hg => ?_⟩
      have hg : t.grace = false := e6.symm.trans hg
      rw [e8, e4]
      exact near_append h hn hg hT List.filter_sublist hlen
  | gone a =>
    have e8 : t'.timer = if firstId l none = some a then adjTimer t (after t l (.gone a)) else t.timer := e8
    by_cases hr : firstId l none = some a
    · rw [if_pos hr] at e8
      refine ⟨by rw [e5, e8]; exact haw, fun hg => ?_⟩
      have hg : t.grace = false := e6.symm.trans hg
      rw [e8, e4]
      refine near_reset hg e2.sorted hlim ?_
      cases l with
      | nil => cases hr
      | cons z r =>
        have hnd := (List.nodup_cons.mp h.rep.nodup).1
        have hz : z.1 = a := Option.some.inj hr
        have haf : after t (z :: r) (.gone a) = r := by
          show List.filter _ _ = _
          rw [List.filter_cons_of_neg (by simp [hz]), filter_ne (hz ▸ hnd)]
        rw [haf]
        exact near_tail h hn hg
    · rw [if_neg hr] at e8
      refine ⟨by rw [e5, e8]; exact hn.wait, fun hg => ?_⟩
      have hg : t.grace = false := e6.symm.trans hg
      rw [e8, e4]
      exact near_sub hn hg List.filter_sublist
  | full =>
    have e8 : t'.timer = adjTimer t (after t l .full) := e8
    refine ⟨by rw [e5, e8]; exact haw, fun hg => ?_⟩
    have hg : t.grace = false := e6.symm.trans hg
    rw [e8, e4]
    refine near_reset hg e2.sorted hlim ?_
    cases l with
    | nil => intro l1 x l2 hl; simp [after] at hl
    | cons z r => exact near_tail h hn hg
  | tick n =>
    have e8 : t'.timer = t.timer := e8
    refine ⟨?_, fun hg => ?_⟩
    · rw [e5, e8]; exact hp
    · rw [e8, e4]; exact hn.near (e6.symm.trans hg)
  | fire =>
    have e8 : t'.timer = adjTimer t (after t l .fire) := e8
    refine ⟨by rw [e5, e8]; exact haw, fun hg => ?_⟩
    have hg : t.grace = false := e6.symm.trans hg
    rw [e8, e4]
    refine near_reset hg e2.sorted hlim ?_
    intro l1 x l2 hl
    have hlen : l1.length + 1 ≤ max := by have := hlim; rw [hl] at this; simp at this; omega
    have hx : x ∈ after t l .fire := by rw [hl]; simp
    have haf : after t l .fire = l.dropWhile (fun x => decide (x.2 ≤ t.now - t.timeout)) := by
      show (if t.grace = true then _ else _) = _
      rw [hg]; rfl
    rw [haf] at hx
    have := ((mem_dropWhile_sorted _ _ h.sorted x).mp hx).2
    omega
  | stop f =>
    have e8 : t'.timer = if after t l (.stop f) = [] then none else some (t.now + 5000) := e8
    refine ⟨?_, ?_⟩
    · intro d hd
      rw [e8] at hd
      rw [e5]
      show t.now ≤ d
      split at hd
      · cases hd
      · cases hd; omega
    · intro hg d _ l1 x l2 hl
      have e6 : t'.grace = decide (l ≠ []) := e6
      rw [e6] at hg
      have hl0 : l = [] := by simpa using hg
      rw [hl0] at hl
      simp [after] at hl

/-- **C67.** With a timer that fires when it is due, a connection is closed once it has been idle for
the timeout and a quarter of a second for each of the connections that the limit allows. -/
theorem C67_idle_partial {max : Nat} {timeout : Int} {t : Thread} (h : PromptRun max timeout t) (hm : 2 ≤ max) (hT : 0 ≤ timeout) (hg : t.grace = false) (b : Nat) (i : Int)
    (hb : t.idleAt b = some i) : t.now - i ≤ timeout + 250 * (max : Int) := by
  have key : ∃ l, Inv t l ∧ Near t l max ∧ t.max = max ∧ t.timeout = timeout := by
    clear hg hb
    induction h with
    | init now => exact ⟨[], inv_init _ _ _ hm, ⟨(fun d hd => by cases hd), (fun _ d hd => by cases hd)⟩, rfl, rfl⟩
    | step _ hc hp hs ih =>
      obtain ⟨l, h1, h2, h3, h4⟩ := ih
      have := near_step h1 h3 (by rw [h4]; exact hT) h2 _ hc hp hs
      obtain ⟨t', e1, e2, e3, e4, _⟩ := step_ok h1 _ hc
      rw [hs] at e1; cases e1
      exact ⟨_, e2, this, e3.trans h3, e4.trans h4⟩
  obtain ⟨l, h1, h2, h3, h4⟩ := key
  have hbm := (idle_mem h1).mp hb
  obtain ⟨l1, l2, hl⟩ := List.append_of_mem hbm
  obtain ⟨d, hd⟩ := h1.on (by rw [hl]; simp)
  have a1 := h2.wait d hd
  have a2 := h2.near hg d hd l1 _ l2 hl
  rw [h4] at a2
  dsimp only at a2
  omega

/-- **C67.** With a timer that fires when it is due, every connection is closed five seconds after a stop. -/
theorem C67_stop {max : Nat} {timeout : Int} {t t1 t2 : Thread} (h : Run max timeout t) (hm : 2 ≤ max) (fails : Nat → Bool) (hc : (Event.stop fails).Can t)
    (hs : step t (.stop fails) = .ok t1) (hl : Later t1 t2) (b : Nat) (hb : t2.idleAt b ≠ none) : t2.now ≤ t.now + 5000 := by
  obtain ⟨⟨q, hq⟩, _⟩ := run_inv h hm
  obtain ⟨t', e1, e2, e3, e4, e5, e6, e7, e8⟩ := step_ok hq _ hc
  rw [hs] at e1; cases e1
  have key : ∃ l, Inv t2 l ∧ t2.accepting = false ∧ (l ≠ [] → t2.grace = true ∧ t2.timer = some (t.now + 5000) ∧ t2.now ≤ t.now + 5000) := by
    clear hb
    induction hl with
    | refl =>
      refine ⟨_, e2, e7, fun hne => ⟨?_, ?_, ?_⟩⟩
      · rw [e6]
        show decide (q ≠ []) = true
        apply decide_eq_true
        intro hq0; rw [hq0] at hne; exact hne rfl
      · rw [e8]; exact if_neg hne
      · rw [e5]; show t.now ≤ _; omega
    | @step ta tb e _ hca hpa hsa ih =>
      obtain ⟨l, i1, i2, i3⟩ := ih
      obtain ⟨t', f1, f2, f3, f4, f5, f6, f7, f8⟩ := step_ok i1 e hca
      rw [hsa] at f1; cases f1
      refine ⟨_, f2, ?_, fun hne => ?_⟩
      · rw [f7]; cases e with
        | stop f => rfl
        | _ => exact i2
      · cases e with
        | connect a => have := hca.1; rw [i2] at this; cases this
        | full => have : ta.accepting = true := hca; rw [i2] at this; cases this
        | stop f => have : ta.accepting = true := hca; rw [i2] at this; cases this
        | request a =>
          have hl0 : l ≠ [] := fun hc => by
            have := mem_ids i1 hca; rw [hc] at this; cases this
          obtain ⟨g1, g2, g3⟩ := i3 hl0
          refine ⟨f6.trans g1, ?_, by rw [f5]; exact g3⟩
          rw [f8]
          show (if _ then adjTimer ta _ else _) = _
          generalize after ta l (.request a) = q at hne
          cases q with
          | nil => exact absurd rfl hne
          | cons y r => simp only [adjTimer, g1, if_true, ite_self]; exact g2
        | gone a =>
          have hl0 : l ≠ [] := fun hc => by
            have := mem_ids i1 hca; rw [hc] at this; cases this
          obtain ⟨g1, g2, g3⟩ := i3 hl0
          refine ⟨f6.trans g1, ?_, by rw [f5]; exact g3⟩
          rw [f8]
          show (if _ then adjTimer ta _ else _) = _
          generalize after ta l (.gone a) = q at hne
          cases q with
          | nil => exact absurd rfl hne
          | cons y r => simp only [adjTimer, g1, if_true, ite_self]; exact g2
        | tick n =>
          obtain ⟨g1, g2, g3⟩ := i3 hne
          refine ⟨f6.trans g1, f8.trans g2, ?_⟩
          rw [f5]
          exact hpa _ g2
        | fire =>
          have hl0 : l ≠ [] := fun hc => by
            obtain ⟨d, hd, _⟩ := hca
            rw [i1.off hc] at hd; cases hd
          obtain ⟨g1, g2, g3⟩ := i3 hl0
          have : after ta l .fire = [] := by
            show (if ta.grace = true then _ else _) = _
            rw [g1]; rfl
          exact absurd this hne
  obtain ⟨l, k1, k2, k3⟩ := key
  have hbm := (idle_ids k1).mp (idle_none.mp hb)
  exact (k3 (fun hc => by rw [hc] at hbm; cases hbm)).2.2

/-- Runs a list of events. -/
def steps (t : Thread) : List Event → Outcome Thread
  | [] => .ok t
  | e :: r => (step t e).bind fun t => steps t r

/-- A test of whether an event can occur, promptly. -/
def canB (t : Thread) : Event → Bool
  | .connect a => t.accepting && (t.mem a).isNone
  | .request a => (t.mem a).isSome
  | .gone a => (t.mem a).isSome
  | .full => t.accepting
  | .tick n => match t.timer with | none => true | some d => decide (t.now + n ≤ d)
  | .fire => match t.timer with | none => false | some d => decide (d ≤ t.now)
  | .stop _ => t.accepting

def stepsB (t : Thread) : List Event → Option Thread
  | [] => some t
  | e :: r => bif canB t e then match step t e with | .ok t => stepsB t r | .ub => none else none

theorem canB_ok (t : Thread) (e : Event) (h : canB t e = true) : e.Can t ∧ e.Prompt t := by
  cases e with
  | connect a => simp [canB] at h; exact ⟨h, trivial⟩
  | request a => simp only [canB] at h; exact ⟨(fun hc => by rw [hc] at h; cases h), trivial⟩
  | gone a => simp only [canB] at h; exact ⟨(fun hc => by rw [hc] at h; cases h), trivial⟩
  | full => exact ⟨h, trivial⟩
  | tick n =>
    refine ⟨trivial, fun d hd => ?_⟩
    simp only [canB, hd] at h
    exact of_decide_eq_true h
  | fire =>
    refine ⟨?_, trivial⟩
    simp only [canB] at h
    cases hd : t.timer with
    | none => rw [hd] at h; cases h
    | some d => rw [hd] at h; exact ⟨d, hd, of_decide_eq_true h⟩
  | stop f => exact ⟨h, trivial⟩

theorem stepsB_run {max : Nat} {timeout : Int} (es : List Event) : ∀ {t t' : Thread}, PromptRun max timeout t → stepsB t es = some t' → PromptRun max timeout t' := by
  induction es with
  | nil => intro t t' h he; cases he; exact h
  | cons e r ih =>
    intro t t' h he
    unfold stepsB at he
    cases hc : canB t e with
    | false => rw [hc] at he; cases he
    | true =>
      rw [hc] at he
      simp only [cond_true] at he
      cases hs : step t e with
      | ub => rw [hs] at he; cases he
      | ok t1 =>
        rw [hs] at he
        exact ih (.step h (canB_ok t e hc).1 (canB_ok t e hc).2 hs) he

/-- A connection closes shortly before the timer would fire for it, and the timer is set anew. -/
def fudgeTrace : List Event := [.connect 1, .connect 2, .tick 30249, .gone 1, .tick 250]

/-- **C67** is false of the code with the quarter of a second that the source promises: each closing of
the most idle connection postpones the timer by up to another quarter. -/
theorem C67_false_fudge : ∃ t b i, PromptRun 128 30000 t ∧ t.grace = false ∧ t.idleAt b = some i ∧ t.now - i > 30000 + 250 := by
  have h : ((stepsB (init 128 30000 0) fudgeTrace).map fun t => (t.grace, t.idleAt 2, t.now)) = some (false, some 0, 30499) := by decide +kernel
  cases hs : stepsB (init 128 30000 0) fudgeTrace with
  | none => rw [hs] at h; cases h
  | some t =>
    rw [hs] at h
    simp only [Option.map_some, Option.some.injEq, Prod.mk.injEq] at h
    obtain ⟨h1, h2, h3⟩ := h
    exact ⟨t, 2, 0, stepsB_run fudgeTrace (.init 0) hs, h1, h2, by rw [h3]; decide⟩

/-- A full run: four connections at a limit of three, a request, a timeout and a stop. -/
def runTrace : List Event := [.connect 1, .connect 2, .tick 5, .connect 3, .request 2, .tick 10, .connect 4, .tick 1000, .request 4, .tick 9240, .fire, .tick 5, .request 4, .full, .connect 1, .stop (· == 4), .tick 5000, .fire]

example : ((stepsB (init 4 10000 0) (runTrace.take 7)).map fun t => ([1, 2, 3, 4].map t.idleAt, t.timer)) = some ([none, some 5, some 5, some 15], some 10255) := by decide +kernel
example : ((stepsB (init 4 10000 0) (runTrace.take 11)).map fun t => ([1, 2, 3, 4].map t.idleAt, t.timer)) = some ([none, none, none, some 1015], some 11265) := by decide +kernel
example : ((stepsB (init 4 10000 0) runTrace).map fun t => ([1, 2, 3, 4].map t.idleAt, t.timer, t.now)) = some ([none, none, none, none], none, 15260) := by decide +kernel
example : ∃ t, PromptRun 4 10000 t ∧ t.Lists [2, 3, 4] ∧ (Event.connect 1).Can t := by
  have h : ((stepsB (init 4 10000 0) (runTrace.take 7)).map fun t => (canB t (.connect 1), [2, 3, 4].map fun b => (t.idleAt b).isSome)) = some (true, [true, true, true]) := by decide +kernel
  cases hs : stepsB (init 4 10000 0) (runTrace.take 7) with
  | none => rw [hs] at h; cases h
  | some t =>
    rw [hs] at h
    simp only [Option.map_some, Option.some.injEq, Prod.mk.injEq, List.map_cons, List.map_nil, List.cons.injEq] at h
    have hr := stepsB_run (runTrace.take 7) (.init 0) hs
    obtain ⟨⟨l, hl⟩, _⟩ := run_inv (prompt_run hr) (by omega)
    obtain ⟨h1, h2, h3, h4, _⟩ := h
    refine ⟨t, hr, ?_, (canB_ok _ _ h1).1⟩
    have hsub : ∀ b ∈ [2, 3, 4], t.idleAt b ≠ none := by
      intro b hb
      simp only [List.mem_cons, List.not_mem_nil, or_false] at hb
      rcases hb with rfl | rfl | rfl
      · intro hc; rw [hc] at h2; cases h2
      · intro hc; rw [hc] at h3; cases h3
      · intro hc; rw [hc] at h4; cases h4
    have hlt := (C40_limit (prompt_run hr) (by omega)).2
    refine ⟨by decide, fun b => ⟨fun hb => hsub b hb, fun hb => Classical.byContradiction fun hc => ?_⟩⟩
    have hL := lists_ids hl
    have := nodup_le (b :: [2, 3, 4]) (ids l) (List.nodup_cons.mpr ⟨hc, by decide⟩) (by
      intro x hx
      rcases List.mem_cons.mp hx with rfl | hx
      · exact (hL.2 _).mpr hb
      · exact (hL.2 _).mpr (hsub x hx))
    have h5 := hlt _ hL
    simp at this
    omega

end Gdnsd.Connq
