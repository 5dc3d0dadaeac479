/-
Steps keep the invariant, and what becomes of connections.
-/
import Verif.Loop.Lemmas
namespace Gdnsd.Loop
open LoopSpec

theorem Inv.ph {s : St} (h : Inv s) (p : Ph) : Inv { s with ph := p } := ⟨h.nodup, h.fresh, h.mode, h.cnt, h.timer, h.act, h.acc, h.grace⟩

/-- What holds from a state to one that follows it. -/
structure Goes (s s' : St) : Prop where
  inv : Inv s'
  next : s.next ≤ s'.next
  evol : Evol s s'
  quit : s.async = false → s'.async = false ∧ s'.next = s.next
  grace : s.grace = true → s'.grace = true

theorem Goes.same {s s' : St} (h : Inv s') (g : Same s s') (e : Evol s s') : Goes s s' :=
  ⟨h, by rw [g.next]; exact Nat.le_refl _, e, fun ha => ⟨by rw [g.async, ha], g.next⟩, fun hg => by rw [g.grace, hg]⟩

theorem Goes.quiet {s s' : St} (h : Goes s s') (ha : s.async = false) (hc : s.conns = []) : s'.conns = [] := by
  rw [List.eq_nil_iff_forall_not_mem]
  intro x hx
  rcases h.evol x hx with h1 | ⟨c, h1, -⟩ | h1
  · rw [hc] at h1; cases h1
  · rw [hc] at h1; cases h1
  · have := h.inv.fresh x hx
    rw [(h.quit ha).2] at this
    omega

theorem inv_invoke (max : Nat) {s : St} (h : Inv s) {p : Pend} (hp : active s p = true) (e : Ev) :
    ∃ o, invoke max s p e = .ok o ∧ ∀ s', o = some s' → Goes s s' ∧ s'.ph = s.ph ∧
      (∀ id, p = .check id → ∀ x ∈ s'.conns, x.id = id → ∃ c ∈ s.conns, c.id = id ∧ x.served = c.served + 1) ∧
      (p = .timeout → s.grace = true → s'.conns = []) := by
  have bad : ∃ o : Option St, Outcome.ok (none : Option St) = .ok o ∧ ∀ s', o = some s' → Goes s s' ∧ s'.ph = s.ph ∧
      (∀ id, p = .check id → ∀ x ∈ s'.conns, x.id = id → ∃ c ∈ s.conns, c.id = id ∧ x.served = c.served + 1) ∧
      (p = .timeout → s.grace = true → s'.conns = []) := ⟨none, rfl, fun _ h => by cases h⟩
  cases p with
  | stop =>
    have ha : s.async = true := hp
    cases e <;> try exact bad
    rename_i fails
    unfold invoke
    dsimp only
    by_cases hf : among s fails = true
    · rw [if_pos hf]
      obtain ⟨s', g1, g2, g3, g4, g5⟩ := inv_stop h ha hf
      rw [g1]
      refine ⟨some s', rfl, ?_⟩
      rintro _ ⟨⟩
      refine ⟨⟨g2, by omega, g5, fun hb => ?_, fun hg => ?_⟩, g3, fun _ he => (by cases he), fun he => by cases he⟩
      · rw [ha] at hb; cases hb
      · rw [h.grace hg] at ha; cases ha
    · rw [if_neg hf]; exact bad
  | read id =>
    cases e <;> try exact bad
    rename_i g
    obtain ⟨c, hc, rfl, -⟩ := any_iff.mp hp
    obtain ⟨s', g1, g2, g3, g4⟩ := inv_read h hc g
    unfold invoke
    dsimp only
    rw [g1]
    refine ⟨some s', rfl, ?_⟩
    rintro _ ⟨⟩
    exact ⟨.same g2 g3 g4, g3.ph, fun _ he => (by cases he), fun he => by cases he⟩
  | check id =>
    cases e <;> try exact bad
    rename_i r
    obtain ⟨c, hc, rfl, hck⟩ := any_iff.mp hp
    obtain ⟨s', g1, g2, g3, g4⟩ := inv_respond h hc r
    have hg : s.get c.id = some c := get_mem h.nodup hc
    unfold invoke checkH
    dsimp only
    rw [hg]
    dsimp only
    rw [if_neg (by rw [(h.mode c hc).2, hck]; simp), g1]
    refine ⟨some s', rfl, ?_⟩
    rintro _ ⟨⟩
    refine ⟨.same g2 g3 ?_, g3.ph, ?_, fun he => by cases he⟩
    · intro x hx
      rcases g4 x hx with ⟨hx, -⟩ | ⟨h1, h2⟩
      · exact .inl hx
      · exact .inr (.inl ⟨c, hc, h1.symm, h2⟩)
    · rintro _ ⟨⟩ x hx he
      rcases g4 x hx with ⟨-, hx⟩ | ⟨h1, h2⟩
      · exact absurd he hx
      · exact ⟨c, hc, rfl, h2⟩
  | timeout =>
    have ht : s.timer = true := hp
    cases e <;> try exact bad
    rename_i old
    unfold invoke
    dsimp only
    by_cases hf : among s old = true
    · rw [if_pos hf]
      obtain ⟨s', g1, g2, g3, g4, g5⟩ := inv_timeout h ht hf
      rw [g1]
      refine ⟨some s', rfl, ?_⟩
      rintro _ ⟨⟩
      exact ⟨.same g2 g3 g4, g3.ph, fun _ he => (by cases he), fun _ => g5⟩
    · rw [if_neg hf]; exact bad
  | accept =>
    have ha : s.accept = true := hp
    cases e <;> try exact bad
    · refine ⟨some s, rfl, ?_⟩
      rintro _ ⟨⟩
      exact ⟨.same h (Same.refl s) fun x hx => .inl hx, rfl, fun _ he => (by cases he), fun he => by cases he⟩
    · rename_i v
      unfold invoke
      dsimp only
      by_cases hf : among s [v] = true
      · rw [if_pos hf]
        obtain ⟨-, hv⟩ := among_iff.mp hf
        obtain ⟨c, hc, rfl⟩ := hv v (by simp)
        obtain ⟨s', g1, g2, g3, g4, -⟩ := inv_destruct h hc
        rw [g1]
        refine ⟨some s', rfl, ?_⟩
        rintro _ ⟨⟩
        exact ⟨.same g2 g4 fun x hx => .inl (by rw [g3] at hx; exact (mem_drop.mp hx).1), g4.ph, fun _ he => (by cases he), fun he => by cases he⟩
      · rw [if_neg hf]; exact bad
    · rename_i v g
      unfold invoke
      dsimp only
      by_cases hf : s.conns.length + 1 = max → among s [v] = true
      · rw [if_pos hf]
        obtain ⟨s', g1, g2, g3, g4, g5⟩ := inv_accept h ha hf g
        rw [g1]
        refine ⟨some s', rfl, ?_⟩
        rintro _ ⟨⟩
        refine ⟨⟨g2, g4, g5, fun hb => ?_, fun hg => ?_⟩, g3, fun _ he => (by cases he), fun he => by cases he⟩
        · rw [← h.acc, ha] at hb; cases hb
        · have := h.grace hg; rw [← h.acc, ha] at this; cases this
      · rw [if_neg hf]; exact bad

structure Full (s : St) : Prop where
  inv : Inv s
  busy : s.ph = .poll → s.cnt ≠ 0 → s.idle = true
  free : s.ph = .poll → s.cnt = 0 → s.idle = false ∧ s.online = false
  goes : s.ph = .prep → s.act ≠ 0
  ends : s.ph = .ended → s.act = 0

theorem full_init : Full init := by
  refine ⟨⟨by decide, (by intro c hc; cases hc), (by intro c hc; cases hc), rfl, by decide, by decide, rfl, by decide⟩, by decide, by decide, by decide, by decide⟩

theorem prepH_facts (s : St) : (prepH s).conns = s.conns ∧ (prepH s).cnt = s.cnt ∧ (prepH s).act = s.act ∧ (prepH s).next = s.next ∧ (prepH s).async = s.async ∧ (prepH s).grace = s.grace ∧ (prepH s).accept = s.accept ∧ (prepH s).timer = s.timer := by
  unfold prepH
  split <;> exact ⟨rfl, rfl, rfl, rfl, rfl, rfl, rfl, rfl⟩

/-- The phases that a step leads to, and what it does there. -/
theorem full_step (max : Nat) {s : St} (h : Full s) (e : Ev) : ∃ o, step max s e = .ok o ∧ ∀ s', o = some s' → Full s' ∧ Goes s s' ∧
    (s.ph = .poll → s'.conns = s.conns ∧ ∃ l, e = .poll l ∧ legal s l = true ∧ s'.ph = .invoke l) ∧
    (∀ p l, s.ph = .invoke (p :: l) → s'.ph = .invoke l ∧ (active s p = false → s'.conns = s.conns) ∧
      (active s p = true → (∀ id, p = .check id → ∀ x ∈ s'.conns, x.id = id → ∃ c ∈ s.conns, c.id = id ∧ x.served = c.served + 1) ∧ (p = .timeout → s.grace = true → s'.conns = []))) ∧
    (s.ph = .invoke [] → s'.conns = s.conns ∧ ((s.act = 0 ∧ s'.ph = .ended) ∨ (s.act ≠ 0 ∧ s'.ph = .prep))) := by
  have hi := h.inv
  have stay : ∀ p, Goes s { s with ph := p } := fun p => ⟨hi.ph p, Nat.le_refl _, fun x hx => .inl hx, fun ha => ⟨ha, rfl⟩, fun hg => hg⟩
  unfold step
  split
  · rename_i hph
    by_cases he : e = .prep
    · rw [if_pos he]
      refine ⟨_, rfl, ?_⟩
      rintro _ ⟨⟩
      obtain ⟨q1, q2, q3, q4, q5, q6, q7, q8⟩ := prepH_facts s
      have hi' : Inv { prepH s with ph := .poll } := by
        refine ⟨?_, ?_, ?_, ?_, ?_, ?_, ?_, ?_⟩ <;> dsimp only <;> simp only [q1, q2, q3, q4, q5, q6, q7, q8]
        · exact hi.nodup
        · exact hi.fresh
        · exact hi.mode
        · exact hi.cnt
        · exact hi.timer
        · exact hi.act
        · exact hi.acc
        · exact hi.grace
      refine ⟨⟨hi', ?_, ?_, fun hx => (by cases hx), fun hx => (by cases hx)⟩, ⟨hi', ?_, ?_, ?_, ?_⟩, ?_, ?_, ?_⟩
      · intro _ hc
        have hc : s.cnt ≠ 0 := by rw [← q2]; exact hc
        show (prepH s).idle = true
        unfold prepH
        rw [if_pos hc]
      · intro _ hc
        have hc : s.cnt = 0 := by rw [← q2]; exact hc
        show (prepH s).idle = false ∧ (prepH s).online = false
        unfold prepH
        rw [if_neg (by simp [hc])]
        exact ⟨rfl, rfl⟩
      · show s.next ≤ (prepH s).next
        rw [q4]
        exact Nat.le_refl _
      · intro x hx
        have hx : x ∈ (prepH s).conns := hx
        rw [q1] at hx
        exact .inl hx
      · intro ha
        exact ⟨q5.trans ha, q4⟩
      · intro hg
        exact q6.trans hg
      · intro hx; rw [hph] at hx; cases hx
      · intro p l hx; rw [hph] at hx; cases hx
      · intro hx; rw [hph] at hx; cases hx
    · rw [if_neg he]
      exact ⟨none, rfl, fun _ h => by cases h⟩
  · rename_i hph
    cases e <;> try exact ⟨none, rfl, fun _ h => by cases h⟩
    rename_i l
    dsimp only
    by_cases hl : legal s l = true
    · rw [if_pos hl]
      refine ⟨_, rfl, ?_⟩
      rintro _ ⟨⟩
      refine ⟨⟨hi.ph _, fun hx => (by cases hx), fun hx => (by cases hx), fun hx => (by cases hx), fun hx => (by cases hx)⟩, stay _, fun _ => ⟨rfl, l, rfl, hl, rfl⟩, ?_, ?_⟩
      · intro p l hx; rw [hph] at hx; cases hx
      · intro hx; rw [hph] at hx; cases hx
    · rw [if_neg hl]
      exact ⟨none, rfl, fun _ h => by cases h⟩
  · rename_i hph
    by_cases he : e = .turn
    · rw [if_pos he]
      refine ⟨_, rfl, ?_⟩
      rintro _ ⟨⟩
      refine ⟨⟨hi.ph _, ?_, ?_, ?_, ?_⟩, stay _, ?_, ?_, fun _ => ⟨rfl, ?_⟩⟩
      · intro hx; dsimp only at hx; split at hx <;> cases hx
      · intro hx; dsimp only at hx; split at hx <;> cases hx
      · intro hx; dsimp only at hx; split at hx
        · cases hx
        · assumption
      · intro hx; dsimp only at hx; split at hx
        · assumption
        · cases hx
      · intro hx; rw [hph] at hx; cases hx
      · intro p l hx; rw [hph] at hx; cases hx
      · by_cases ha : s.act = 0
        · exact .inl ⟨ha, by simp [ha]⟩
        · exact .inr ⟨ha, by simp [ha]⟩
    · rw [if_neg he]
      exact ⟨none, rfl, fun _ h => by cases h⟩
  · rename_i p l hph
    have noph : ∀ {q : Ph}, q = .invoke l → (q = .poll → False) ∧ (q = .prep → False) ∧ (q = .ended → False) := by
      rintro _ rfl
      exact ⟨fun h => (by cases h), fun h => (by cases h), fun h => (by cases h)⟩
    by_cases ha : active s p = true
    · rw [if_pos ha]
      have ha' : active { s with ph := .invoke l } p = true := by cases p <;> exact ha
      obtain ⟨o, h1, h2⟩ := inv_invoke max (hi.ph (.invoke l)) ha' e
      refine ⟨o, h1, ?_⟩
      intro s' ho
      obtain ⟨g1, g2, g3, g4⟩ := h2 s' ho
      obtain ⟨n1, n2, n3⟩ := noph g2
      refine ⟨⟨g1.inv, fun hx => (n1 hx).elim, fun hx => (n1 hx).elim, fun hx => (n2 hx).elim, fun hx => (n3 hx).elim⟩, ⟨g1.inv, g1.next, g1.evol, g1.quit, g1.grace⟩, ?_, ?_, ?_⟩
      · intro hx; rw [hph] at hx; cases hx
      · intro p' l' hx
        rw [hph] at hx
        cases hx
        exact ⟨g2, fun hb => (by rw [ha] at hb; cases hb), fun _ => ⟨g3, g4⟩⟩
      · intro hx; rw [hph] at hx; cases hx
    · rw [if_neg ha]
      by_cases he : e = .skip
      · rw [if_pos he]
        refine ⟨_, rfl, ?_⟩
        rintro _ ⟨⟩
        refine ⟨⟨hi.ph _, fun hx => (by cases hx), fun hx => (by cases hx), fun hx => (by cases hx), fun hx => (by cases hx)⟩, stay _, ?_, ?_, ?_⟩
        · intro hx; rw [hph] at hx; cases hx
        · intro p' l' hx
          rw [hph] at hx
          cases hx
          exact ⟨rfl, fun _ => rfl, fun hb => absurd hb ha⟩
        · intro hx; rw [hph] at hx; cases hx
      · rw [if_neg he]
        exact ⟨none, rfl, fun _ h => by cases h⟩
  · exact ⟨none, rfl, fun _ h => by cases h⟩

theorem full_reach {max : Nat} {s : St} (h : Reach max s) : Full s := by
  induction h with
  | init => exact full_init
  | step e _ hs ih =>
    obtain ⟨o, h1, h2⟩ := full_step max ih e
    rw [h1] at hs
    cases hs
    exact (h2 _ rfl).1

/-- A connection in check mode gets its turn. -/
theorem round_served {max : Nat} {s s' : St} (h : Round max s s') (hf : Full s) {id n : Nat} (hid : id < s.next)
    (hp : (∃ l, s.ph = .invoke l ∧ ∀ x ∈ s.conns, x.id = id → n < x.served ∨ (x.served = n ∧ x.check = true ∧ .check id ∈ l)) ∨ (∀ x ∈ s.conns, x.id = id → n < x.served)) :
    ∀ x ∈ s'.conns, x.id = id → n < x.served := by
  induction h with
  | @last s hl =>
    rcases hp with ⟨l, hl', -⟩ | hp
    · rw [hl'] at hl
      rcases hl with hl | hl <;> cases hl
    · exact hp
  | @step s s1 s2 e hl hs hr ih =>
    obtain ⟨o, h1, h2⟩ := full_step max hf e
    rw [h1] at hs
    cases hs
    obtain ⟨f1, f2, f3, f4, f5⟩ := h2 s1 rfl
    refine ih f1 (Nat.lt_of_lt_of_le hid f2.next) ?_
    have later : (∀ x ∈ s.conns, x.id = id → n < x.served) → ∀ x ∈ s1.conns, x.id = id → n < x.served := by
      intro hp x hx he
      rcases f2.evol x hx with h | ⟨c, hc, h3, h4⟩ | h
      · exact hp x h he
      · have := hp c hc (h3.trans he)
        omega
      · omega
    rcases hp with ⟨l, hl, hp⟩ | hp
    · cases l with
      | nil =>
        right
        rw [(f5 hl).1]
        intro x hx he
        rcases hp x hx he with h | ⟨-, -, h⟩
        · exact h
        · cases h
      | cons p l =>
        obtain ⟨g1, g2, g3⟩ := f4 p l hl
        by_cases ha : active s p = true
        · by_cases hpc : p = .check id
          · right
            intro x hx he
            obtain ⟨c, hc, h3, h4⟩ := (g3 ha).1 id hpc x hx he
            rcases hp c hc h3 with h | ⟨h, -⟩ <;> omega
          · left
            refine ⟨l, g1, ?_⟩
            intro x hx he
            rcases f2.evol x hx with h | ⟨c, hc, h3, h4⟩ | h
            · rcases hp x h he with h | ⟨h5, h6, h7⟩
              · exact .inl h
              · rcases List.mem_cons.mp h7 with h7 | h7
                · exact absurd h7.symm hpc
                · exact .inr ⟨h5, h6, h7⟩
            · left
              rcases hp c hc (h3.trans he) with h | ⟨h, -⟩ <;> omega
            · omega
        · left
          refine ⟨l, g1, ?_⟩
          rw [g2 (by simpa using ha)]
          intro x hx he
          rcases hp x hx he with h | ⟨h5, h6, h7⟩
          · exact .inl h
          · rcases List.mem_cons.mp h7 with h7 | h7
            · exact absurd (any_iff.mpr ⟨x, hx, he, h6⟩) (by rw [← h7] at ha; exact ha)
            · exact .inr ⟨h5, h6, h7⟩
    · exact .inr (later hp)

/-- In grace mode the timer is the end. -/
theorem round_ends {max : Nat} {s s' : St} (h : Round max s s') (hf : Full s) (hg : s.grace = true) {l : List Pend} (hl : s.ph = .invoke l) (hp : s.conns = [] ∨ .timeout ∈ l) :
    s'.ph = .ended := by
  induction h generalizing l with
  | @last s hl' =>
    rw [hl] at hl'
    rcases hl' with hl' | hl' <;> cases hl'
  | @step s s1 s2 e hl' hs hr ih =>
    obtain ⟨o, h1, h2⟩ := full_step max hf e
    rw [h1] at hs
    cases hs
    obtain ⟨f1, f2, f3, f4, f5⟩ := h2 s1 rfl
    have hasync := hf.inv.grace hg
    cases l with
    | nil =>
      have hc : s.conns = [] := by
        rcases hp with hp | hp
        · exact hp
        · cases hp
      have ht : s.timer = false := by
        cases ht : s.timer with
        | false => rfl
        | true => exact absurd hc (hf.inv.timer.mp ht)
      have hact : s.act = 0 := by
        rw [hf.inv.act, hf.inv.acc, hasync, ht, hc]
        rfl
      rcases (f5 hl).2 with ⟨-, he⟩ | ⟨hne, -⟩
      · cases hr with
        | last _ => exact he
        | step e h' _ _ => exact absurd (.inr he) h'
      · exact absurd hact hne
    | cons p l =>
      obtain ⟨g1, g2, g3⟩ := f4 p l hl
      refine ih f1 (f2.grace hg) g1 ?_
      rcases hp with hp | hp
      · exact .inl (f2.quiet hasync hp)
      · by_cases hc : s.conns = []
        · exact .inl (f2.quiet hasync hc)
        · rcases List.mem_cons.mp hp with hp | hp
          · left
            subst hp
            exact (g3 (hf.inv.timer.mpr hc)).2 rfl hg
          · exact .inr hp

end Gdnsd.Loop
