import Verif.Extmon.HelperLemmas2
namespace Gdnsd.Extmon

theorem get_set {l : List Mon} {i j : Nat} {m' mj : Mon} (h : (l.set i m')[j]? = some mj) : (j = i ∧ mj = m') ∨ (j ≠ i ∧ l[j]? = some mj) := by
  rw [List.getElem?_set] at h
  by_cases hij : i = j
  · subst hij
    rw [if_pos rfl] at h
    split at h
    · exact .inl ⟨rfl, (Option.some.inj h).symm⟩
    · cases h
  · rw [if_neg hij] at h
    exact .inr ⟨fun hc => hij hc.symm, h⟩

theorem WInv.same {h h' : Helper} (W : WInv h) (hp : h'.procs = h.procs) (hm : ∀ (j : Nat) mj, h'.mons[j]? = some mj → ∃ m, h.mons[j]? = some m ∧ mj.cw = m.cw ∧ mj.watched = m.watched) : WInv h' := by
  refine ⟨by rw [hp]; exact W.uniq, ?_⟩
  intro j mj hj hcw
  obtain ⟨m, k1, k2, k3⟩ := hm j mj hj
  rw [hp, k3]
  exact W.cw j m k1 (by rw [← k2, hcw, k3])

/-- Every callback of a run in time is safe and keeps the invariants. -/
theorem hstep_ok {cmds : List Cmd} {L : Nat} {h : Helper} {log : List Entry} (hc : CmdsOk cmds L) (H : HInv cmds L h log) (W : WInv h) (junk : Nat → Nat) (e : Event)
    (can : e.Can h) (ht : e.Timely L h) : ∃ h' es, h.step junk e = .ok (h', es) ∧ HInv cmds L h' (es ++ log) ∧ WInv h' := by
  cases e with
  | tick d => exact ⟨_, [], rfl, tick_ok H d ht, ⟨W.uniq, W.cw⟩⟩
  | interval i pid =>
    obtain ⟨h', es, e1, e2, m, hm, hp, hx⟩ := interval_ok hc H junk i pid can
    refine ⟨h', es, e1, e2, ?_⟩
    rcases hx with ⟨m', k1, k2, k3, k4, k5, _⟩ | ⟨m', k1, k2, k3, k4, k5⟩
    · refine W.same k5 ?_
      intro j mj hj
      rw [k4] at hj
      rcases get_set hj with ⟨rfl, rfl⟩ | ⟨_, hj⟩
      · exact ⟨m, hm, k1, k2⟩
      · exact ⟨mj, hj, rfl, rfl⟩
    · refine ⟨?_, ?_⟩
      · intro p a b ha hb
        rw [k4] at ha hb
        have fresh := can.2
        rcases List.mem_cons.mp ha with ha | ha <;> rcases List.mem_cons.mp hb with hb | hb
        · cases ha; cases hb; rfl
        · cases ha; exact absurd hb (fresh b)
        · cases hb; exact absurd ha (fresh a)
        · exact W.uniq p a b ha hb
      · intro j mj hj hcw
        rw [k3] at hj
        rw [k4]
        rcases get_set hj with ⟨rfl, rfl⟩ | ⟨_, hj⟩
        · rw [k2]; exact List.mem_cons_self
        · exact List.mem_cons_of_mem _ (W.cw j mj hj hcw)
  | timeout i =>
    obtain ⟨h', es, e1, e2, m, m', p, t0, k1, k2, k3, _, k4, k5, _⟩ := timeout_ok hc H junk i can
    refine ⟨h', es, e1, e2, W.same k5 ?_⟩
    intro j mj hj
    rw [k4] at hj
    rcases get_set hj with ⟨rfl, rfl⟩ | ⟨_, hj⟩
    · exact ⟨m, k1, k2, k3⟩
    · exact ⟨mj, hj, rfl, rfl⟩
  | exit pid g =>
    obtain ⟨h', es, e1, e2, e3, hx⟩ := exit_ok hc H W junk pid g
    refine ⟨h', es, e1, e2, ⟨?_, ?_⟩⟩
    · intro p a b ha hb
      rw [e3] at ha hb
      exact W.uniq p a b (List.mem_filter.mp ha).1 (List.mem_filter.mp hb).1
    · have key : ∀ (j : Nat) mj, h.mons[j]? = some mj → ¬ (mj.cw = some (pid % 16) ∧ mj.watched = pid) → mj.cw = some (mj.watched % 16) → (mj.watched, j) ∈ h'.procs := by
        intro j mj hj hn hcw
        rw [e3]
        refine List.mem_filter.mpr ⟨W.cw j mj hj hcw, ?_⟩
        simp only [bne_iff_ne, ne_eq]
        intro hw
        exact hn ⟨by rw [hcw, hw], hw⟩
      intro j mj hj hcw
      rcases hx with ⟨k1, _, k2⟩ | ⟨i, m, m', k1, k2, k3, k4, _, k5, _⟩
      · rw [k1] at hj
        exact key j mj hj (k2 j mj hj) hcw
      · rw [k5] at hj
        rcases get_set hj with ⟨rfl, rfl⟩ | ⟨hne, hj⟩
        · rw [k4] at hcw; cases hcw
        · refine key j mj hj ?_ hcw
          rintro ⟨q1, q2⟩
          apply hne
          have a := W.cw i m k1 (by rw [k3]; exact k2)
          have b := W.cw j mj hj (by rw [q2]; exact q1)
          rw [k3] at a; rw [q2] at b
          exact W.uniq pid j i b a
  | write l =>
    have ho : h.isOpen = true := by
      cases hoo : h.isOpen with
      | true => rfl
      | false => have := (H.q.cl hoo).2; have hw : h.wOn = true := can; rw [hw] at this; cases this
    obtain ⟨h', es, e1, e2, e3, e4, _⟩ := write_ok l H
    refine ⟨h', es, ?_, e2, W.same e4 ?_⟩
    · unfold Helper.step
      dsimp only
      rw [ho]
      exact e1
    · intro j mj hj
      rw [e3] at hj
      exact ⟨mj, hj, rfl, rfl⟩
  | term =>
    obtain ⟨h', e1, e2, e3, f, e4, e5⟩ := term_ok H junk
    refine ⟨h', _, e1, e2, W.same e3 ?_⟩
    intro j mj hj
    rw [e4, List.getElem?_map] at hj
    cases hm : h.mons[j]? with
    | none => rw [hm] at hj; cases hj
    | some m =>
      rw [hm] at hj
      cases hj
      exact ⟨m, rfl, (e5 m).1, (e5 m).2.1⟩

theorem busy_nil (n : Nat) : busy n [] = 0 := by
  unfold busy
  rw [List.countP_eq_zero]
  intro a _
  simp [inProg]

theorem init_ok {cmds : List Cmd} {L : Nat} (junk : Nat → Nat) (now : Nat) : HInv cmds L (Helper.init junk cmds now) [] ∧ WInv (Helper.init junk cmds now) := by
  have hm : ∀ (i : Nat) m, (Helper.init junk cmds now).mons[i]? = some m → ∃ c, cmds[i]? = some c ∧ m = ⟨c, some now, none, none, 0, 0, false⟩ := by
    intro i m h
    have h' : (cmds.map fun c => (⟨c, some now, none, none, 0, 0, false⟩ : Mon))[i]? = some m := h
    rw [List.getElem?_map] at h'
    cases hc : cmds[i]? with
    | none => rw [hc] at h'; cases h'
    | some c => rw [hc] at h'; exact ⟨c, rfl, (Option.some.inj h').symm⟩
  refine ⟨⟨by simp [Helper.init], ?_, rfl, (busy_nil _).symm, .nil, ⟨⟨[], Rep.init junk, rfl, fun _ => rfl⟩, (fun h => by cases h)⟩, (fun t ht => by cases ht)⟩, ⟨(fun p i j h => by cases h), ?_⟩⟩
  · intro i m h
    obtain ⟨c, k1, rfl⟩ := hm i m h
    exact ⟨k1, rfl, rfl, (fun p t0 h => by cases h), (fun p t0 d h => by cases h), fun _ _ => rfl, (fun e c _ h => by cases h), (fun e he => by cases he; exact Nat.le_add_right _ _), (fun c h => by cases h)⟩
  · intro i m h hcw
    obtain ⟨c, k1, rfl⟩ := hm i m h
    cases hcw

/-- Runs in time. -/
theorem hrun_ok {cmds : List Cmd} {L : Nat} {h : Helper} {log : List Entry} {ok : Helper → Event → Prop} (hok : ∀ h e, ok h e → e.Timely L h)
    (hc : CmdsOk cmds L) (r : HRun cmds ok h log) : HInv cmds L h log ∧ WInv h := by
  induction r with
  | init junk now => exact init_ok junk now
  | step junk e _ _ can hk hs ih =>
    obtain ⟨H, W⟩ := ih
    obtain ⟨h', es, e1, e2, e3⟩ := hstep_ok hc H W junk e can (hok _ _ hk)
    rw [e1] at hs
    cases hs
    exact ⟨e2, e3⟩

/-! ### Processes that end in time for the next check -/

structure BInv (h : Helper) : Prop where
  own : ∀ p i, (p, i) ∈ h.procs → ∃ m, h.mons[i]? = some m ∧ m.cw = some (p % 16) ∧ m.watched = p
  pend : ∀ (i : Nat) m, h.mons[i]? = some m → m.pending = true ∨ m.cw ≠ none → (m.watched, i) ∈ h.procs

theorem bstep_ok {cmds : List Cmd} {L : Nat} {h h' : Helper} {log es : List Entry} (hc : CmdsOk cmds L) (H : HInv cmds L h log) (W : WInv h) (B : BInv h) (junk : Nat → Nat) (e : Event)
    (can : e.Can h) (hr : e.Reaped h) (hs : h.step junk e = .ok (h', es)) : BInv h' := by
  cases e with
  | tick d => cases hs; exact ⟨B.own, B.pend⟩
  | interval i pid =>
    obtain ⟨h'', es', e1, e2, m, hm, hp, hx⟩ := interval_ok hc H junk i pid can
    rw [e1] at hs
    cases hs
    have hi : ∀ p, (p, i) ∉ h.procs := hr
    have hlt : i < h.mons.length := (List.getElem?_eq_some_iff.mp hm).1
    rcases hx with ⟨m', k1, k2, k3, k4, k5, _⟩ | ⟨m', k1, k2, k3, k4, k5⟩
    · refine ⟨?_, ?_⟩
      · intro p j hj
        rw [k5] at hj
        obtain ⟨mj, q1, q2, q3⟩ := B.own p j hj
        have hne : i ≠ j := fun hc => hi p (hc ▸ hj)
        exact ⟨mj, by rw [k4, List.getElem?_set_ne hne]; exact q1, q2, q3⟩
      · intro j mj hj hpj
        rw [k4] at hj
        rw [k5]
        rcases get_set hj with ⟨rfl, rfl⟩ | ⟨_, hj⟩
        · rw [k2]
          rw [k1, k3] at hpj
          exact B.pend j m hm (hpj.imp (fun hc => by cases hc) id)
        · exact B.pend j mj hj hpj
    · have hcw : m.cw = none := by
        apply Classical.byContradiction
        intro hcc
        exact hi _ (B.pend i m hm (.inr hcc))
      have hcn : m'.cw = some (pid % 16) := by rw [k1]; unfold Mon.list; rw [hcw]
      refine ⟨?_, ?_⟩
      · intro p j hj
        rw [k4] at hj
        rcases List.mem_cons.mp hj with hj | hj
        · cases hj
          exact ⟨m', by rw [k3, List.getElem?_set_self hlt], hcn, k2⟩
        · obtain ⟨mj, q1, q2, q3⟩ := B.own p j hj
          have hne : i ≠ j := fun hc => hi p (hc ▸ hj)
          exact ⟨mj, by rw [k3, List.getElem?_set_ne hne]; exact q1, q2, q3⟩
      · intro j mj hj hpj
        rw [k3] at hj
        rw [k4]
        rcases get_set hj with ⟨rfl, rfl⟩ | ⟨_, hj⟩
        · rw [k2]; exact List.mem_cons_self
        · exact List.mem_cons_of_mem _ (B.pend j mj hj hpj)
  | timeout i =>
    obtain ⟨h'', es', e1, e2, m, m', p, t0, k1, k2, k3, kp, k4, k5, _⟩ := timeout_ok hc H junk i can
    rw [e1] at hs
    cases hs
    have hlt : i < h.mons.length := (List.getElem?_eq_some_iff.mp k1).1
    refine ⟨?_, ?_⟩
    · intro p j hj
      rw [k5] at hj
      obtain ⟨mj, q1, q2, q3⟩ := B.own p j hj
      by_cases hij : i = j
      · subst hij
        rw [k1] at q1
        cases q1
        exact ⟨m', by rw [k4, List.getElem?_set_self hlt], by rw [k2]; exact q2, by rw [k3]; exact q3⟩
      · exact ⟨mj, by rw [k4, List.getElem?_set_ne hij]; exact q1, q2, q3⟩
    · intro j mj hj hpj
      rw [k4] at hj
      rw [k5]
      rcases get_set hj with ⟨rfl, rfl⟩ | ⟨_, hj⟩
      · rw [k3]
        rw [kp, k2] at hpj
        exact B.pend j m k1 (hpj.imp (fun hc => by cases hc) id)
      · exact B.pend j mj hj hpj
  | exit pid g =>
    obtain ⟨h'', es', e1, e2, e3, hx⟩ := exit_ok hc H W junk pid g
    rw [e1] at hs
    cases hs
    obtain ⟨i0, hi0⟩ := can
    obtain ⟨m0, q1, q2, q3⟩ := B.own pid i0 hi0
    rcases hx with ⟨k1, _, k2⟩ | ⟨i, m, m', k1, k2, k3, k4, kp, k5, _⟩
    · exact absurd ⟨q2, q3⟩ (k2 i0 m0 q1)
    · have hii : i0 = i := by
        have a := W.cw i m k1 (by rw [k3]; exact k2)
        rw [k3] at a
        exact W.uniq pid i0 i hi0 a
      subst hii
      refine ⟨?_, ?_⟩
      · intro p j hj
        rw [e3] at hj
        obtain ⟨hj1, hj2⟩ := List.mem_filter.mp hj
        simp only [bne_iff_ne, ne_eq] at hj2
        obtain ⟨mj, r1, r2, r3⟩ := B.own p j hj1
        have hne : i0 ≠ j := by
          rintro rfl
          rw [q1] at r1
          cases r1
          exact hj2 (r3.symm.trans q3)
        exact ⟨mj, by rw [k5, List.getElem?_set_ne hne]; exact r1, r2, r3⟩
      · intro j mj hj hpj
        rw [k5] at hj
        rw [e3]
        rcases get_set hj with ⟨rfl, rfl⟩ | ⟨hne, hj⟩
        · rw [kp, k4] at hpj
          rcases hpj with hpj | hpj
          · cases hpj
          · exact absurd rfl hpj
        · refine List.mem_filter.mpr ⟨B.pend j mj hj hpj, ?_⟩
          simp only [bne_iff_ne, ne_eq]
          intro hw
          have b := B.pend j mj hj hpj
          rw [hw] at b
          exact hne (W.uniq pid j i0 b hi0)
  | write l =>
    obtain ⟨h'', es', e1, e2, e3, e4, _⟩ := write_ok l H
    have hs' : h.writeLoop l = .ok (h', es) := by
      unfold Helper.step at hs
      dsimp only at hs
      cases ho : h.isOpen with
      | true => rw [ho] at hs; exact hs
      | false => rw [ho] at hs; cases hs
    rw [e1] at hs'
    cases hs'
    exact ⟨by rw [e3, e4]; exact B.own, by rw [e3, e4]; exact B.pend⟩
  | term =>
    obtain ⟨h'', e1, e2, e3, f, e4, e5⟩ := term_ok H junk
    rw [e1] at hs
    cases hs
    refine ⟨?_, ?_⟩
    · intro p j hj
      rw [e3] at hj
      obtain ⟨m, q1, q2, q3⟩ := B.own p j hj
      exact ⟨f m, by rw [e4, List.getElem?_map, q1]; rfl, by rw [(e5 m).1]; exact q2, by rw [(e5 m).2.1]; exact q3⟩
    · intro j mj hj hpj
      rw [e4, List.getElem?_map] at hj
      cases hm : h.mons[j]? with
      | none => rw [hm] at hj; cases hj
      | some m =>
        rw [hm] at hj
        cases hj
        rw [e3, (e5 m).2.1]
        exact B.pend j m hm (by rw [← (e5 m).2.2, ← (e5 m).1]; exact hpj)

theorem brun_ok {cmds : List Cmd} {L : Nat} {h : Helper} {log : List Entry}
    (hc : CmdsOk cmds L) (r : HRun cmds (fun h e => e.Timely L h ∧ e.Reaped h) h log) : HInv cmds L h log ∧ WInv h ∧ BInv h := by
  induction r with
  | init junk now =>
    obtain ⟨a, b⟩ := init_ok (cmds := cmds) (L := L) junk now
    refine ⟨a, b, ⟨(fun p i h => by cases h), ?_⟩⟩
    intro i m h hp
    have hm : (cmds.map fun c => (⟨c, some now, none, none, 0, 0, false⟩ : Mon))[i]? = some m := h
    rw [List.getElem?_map] at hm
    cases hcc : cmds[i]? with
    | none => rw [hcc] at hm; cases hm
    | some c =>
      rw [hcc] at hm
      cases hm
      rcases hp with hp | hp
      · cases hp
      · exact absurd rfl hp
  | step junk e _ _ can hk hs ih =>
    obtain ⟨H, W, B⟩ := ih
    obtain ⟨h', es, e1, e2, e3⟩ := hstep_ok hc H W junk e can hk.1
    have hb := bstep_ok hc H W B junk e can hk.2 hs
    rw [e1] at hs
    cases hs
    exact ⟨e2, e3, hb⟩

end Gdnsd.Extmon
