import Verif.Extmon.HelperLemmas
namespace Gdnsd.Extmon

/-! ### The signal -/

theorem term_ok {cmds : List Cmd} {L : Nat} {h : Helper} {log : List Entry} (H : HInv cmds L h log) (junk : Nat → Nat) :
    ∃ h', h.step junk .term = .ok (h', [.term h.now]) ∧ HInv cmds L h' (.term h.now :: log) ∧ h'.procs = h.procs ∧
      ∃ f : Mon → Mon, h'.mons = h.mons.map f ∧ ∀ m, (f m).cw = m.cw ∧ (f m).watched = m.watched ∧ (f m).pending = m.pending := by
  unfold Helper.step Helper.termCb
  dsimp only
  have hbusy : busy cmds.length (.term h.now :: log) = busy cmds.length log := rfl
  have hterms : ∀ t, Entry.term t ∈ Entry.term h.now :: log → t ≤ h.now := by
    intro t ht
    rcases List.mem_cons.mp ht with ht | ht
    · cases ht; exact Nat.le_refl _
    · exact H.terms t ht
  by_cases hk : h.killed = true
  · rw [if_pos hk]
    have hq : quit log = true := H.killed ▸ hk
    refine ⟨h, rfl, ⟨H.len, ?_, by rw [hk]; rfl, by rw [hbusy]; exact H.num, .term H.fine, ⟨?_, H.q.cl⟩, hterms⟩, rfl, id, by simp, fun m => ⟨rfl, rfl, rfl⟩⟩
    · intro i m hm
      have M := H.mons i m hm
      have hnone : ∀ e, m.it ≠ some e := fun e he => by have := M.itk e he; rw [hq] at this; cases this
      refine ⟨M.cmd, M.prog, M.ct, M.pid, ?_, fun e he => absurd he (hnone e), M.gap, M.itn, M.ctn⟩
      intro p t0 d hp hd
      obtain ⟨a, b, c⟩ := M.ctv p t0 d hp hd
      refine ⟨a, ?_, ?_⟩
      · intro t1 ht1
        rcases List.mem_cons.mp ht1 with ht1 | ht1
        · cases ht1
          obtain ⟨t2, ht2⟩ := (quit_iff log).mp hq
          have := b t2 ht2
          have := H.terms t2 ht2
          omega
        · exact b t1 ht1
      · rcases c with c | ⟨t1, c1, c2⟩
        · exact .inl c
        · exact .inr ⟨t1, List.mem_cons_of_mem _ c1, c2⟩
    · have : words (.term h.now :: log) = words log := by
        show (if quit log = true then _ else _) = _
        rw [if_pos hq]
      rw [this]
      exact H.q.rep
  · rw [if_neg hk]
    have hq : quit log = false := by
      have := H.killed
      cases hqq : quit log with
      | false => rfl
      | true => rw [hqq] at this; exact absurd this hk
    obtain ⟨c, r1, r2, r3⟩ := H.q.rep
    obtain ⟨q', e1, e2⟩ := enq_ok h.q c r1 junk encodeExit
    rw [e1]
    refine ⟨_, rfl, ⟨?_, ?_, rfl, by rw [hbusy]; exact H.num, .term H.fine, ⟨⟨c ++ [encodeExit], e2, ?_, (fun hc => by cases hc)⟩, ?_⟩, hterms⟩, rfl, Mon.stop h.now, rfl, fun m => ⟨rfl, rfl, rfl⟩⟩
    · show (h.mons.map _).length = _
      rw [List.length_map]; exact H.len
    · intro i m' hm'
      have hm'' : (h.mons.map (Mon.stop h.now))[i]? = some m' := hm'
      rw [List.getElem?_map] at hm''
      cases hm : h.mons[i]? with
      | none => rw [hm] at hm''; cases hm''
      | some m =>
        rw [hm] at hm''
        cases hm''
        have M := H.mons i m hm
        have hct : ∀ d', (m.stop h.now).ct = some d' → ∃ d, m.ct = some d ∧ ((d' = h.now + 20 ∧ d' ≤ d) ∨ (d' = d ∧ d ≤ h.now + 20)) := by
          intro d' hd'
          unfold Mon.stop at hd'
          dsimp only at hd'
          cases hd : m.ct with
          | none => rw [hd] at hd'; cases hd'
          | some d =>
            rw [hd] at hd'
            dsimp only at hd'
            split at hd'
            · have e := Option.some.inj hd'; exact ⟨d, rfl, .inl ⟨e.symm, by omega⟩⟩
            · have e := Option.some.inj hd'; exact ⟨d, rfl, .inr ⟨e.symm, by omega⟩⟩
        have hno : ∀ e, (m.stop h.now).it ≠ some e := fun e he => by cases he
        refine ⟨M.cmd, M.prog, ?_, M.pid, ?_, fun e he => absurd he (hno e), fun e c he => absurd he (hno e), fun e he => absurd he (hno e), ?_⟩
        · show _ = m.pending
          rw [← M.ct]
          unfold Mon.stop
          dsimp only
          cases m.ct with
          | none => rfl
          | some d => dsimp only; split <;> rfl
        · intro p t0 d' hp hd'
          obtain ⟨d, k1, k2⟩ := hct d' hd'
          obtain ⟨a, b, c⟩ := M.ctv p t0 d hp k1
          have ha : d ≤ t0 + m.cmd.timeout * 10 := a
          refine ⟨?_, ?_, ?_⟩
          · show d' ≤ t0 + m.cmd.timeout * 10
            rcases k2 with ⟨k2, k3⟩ | ⟨k2, k3⟩ <;> omega
          · intro t1 ht1
            rcases List.mem_cons.mp ht1 with ht1 | ht1
            · cases ht1
              rcases k2 with ⟨k2, k3⟩ | ⟨k2, k3⟩ <;> omega
            · exact absurd ht1 (no_term hq t1)
          · show d' = t0 + m.cmd.timeout * 10 ∨ _
            rcases k2 with ⟨k2, k3⟩ | ⟨k2, k3⟩
            · exact .inr ⟨h.now, List.mem_cons_self, k2⟩
            · rcases c with c | ⟨t1, c1, c2⟩
              · exact .inl (by omega)
              · exact absurd c1 (no_term hq t1)
        · intro d' hd'
          obtain ⟨d, k1, k2⟩ := hct d' hd'
          have := M.ctn d k1
          show h.now ≤ d' + L
          rcases k2 with ⟨k2, k3⟩ | ⟨k2, k3⟩ <;> omega
    · show sents log ++ _ = if quit log = true then _ else _
      rw [hq, if_neg (by simp), ← r2, List.append_assoc]; rfl
    · intro ho
      exact absurd (H.q.cl ho).1 hk

/-! ### Writing -/

theorem sent_ok {cmds : List Cmd} {L : Nat} {h : Helper} {log : List Entry} (H : HInv cmds L h log) (hz : h.q.len ≠ 0) :
    ∃ w q, h.q.peek = .ok w ∧ h.q.commit = .ok q ∧ HInv cmds L { h with q := q } (.sent w :: log) := by
  obtain ⟨c, r1, r2, r3⟩ := H.q.rep
  cases c with
  | nil => exact absurd r1.len hz
  | cons w c =>
    obtain ⟨e1, q, e2, e3⟩ := peek_ok h.q w c r1
    refine ⟨w, q, e1, e2, ⟨H.len, fun i m hm => (H.mons i m hm).frame _ rfl (by intro t hc; cases hc), H.killed, H.num, .sent H.fine, ⟨⟨c, e3, ?_, ?_⟩, H.q.cl⟩, fun t ht => H.terms t (mem_term (fun t hc => by cases hc) ht)⟩⟩
    · show (sents log ++ [w]) ++ c = words log
      rw [← r2]; simp
    · intro ho
      have := r3 ho
      cases this

theorem write_ok {cmds : List Cmd} {L : Nat} (l : List Wr) : ∀ {h : Helper} {log : List Entry}, HInv cmds L h log →
    ∃ h' es, h.writeLoop l = .ok (h', es) ∧ HInv cmds L h' (es ++ log) ∧ h'.mons = h.mons ∧ h'.procs = h.procs ∧ ∀ e ∈ es, ∃ w, e = .sent w := by
  induction l with
  | nil =>
    intro h log H
    unfold Helper.writeLoop
    by_cases hz : h.q.len = 0
    · rw [if_pos hz]
      refine ⟨_, [], rfl, ⟨H.len, H.mons, H.killed, H.num, H.fine, ⟨?_, ?_⟩, H.terms⟩, rfl, rfl, by simp⟩
      · obtain ⟨c, r1, r2, r3⟩ := H.q.rep
        have hc : c = [] := by have := r1.len; rw [hz] at this; exact List.eq_nil_of_length_eq_zero this.symm
        exact ⟨c, r1, r2, fun _ => hc⟩
      · intro ho
        refine ⟨?_, rfl⟩
        cases hk : h.killed with
        | true => rfl
        | false => rw [hk] at ho; have := (H.q.cl ho).1; rw [hk] at this; exact this
    · rw [if_neg hz]
      exact ⟨h, [], rfl, H, rfl, rfl, by simp⟩
  | cons e l ih =>
    intro h log H
    unfold Helper.writeLoop
    by_cases hz : h.q.len = 0
    · rw [if_pos hz]
      refine ⟨_, [], rfl, ⟨H.len, H.mons, H.killed, H.num, H.fine, ⟨?_, ?_⟩, H.terms⟩, rfl, rfl, by simp⟩
      · obtain ⟨c, r1, r2, r3⟩ := H.q.rep
        have hc : c = [] := by have := r1.len; rw [hz] at this; exact List.eq_nil_of_length_eq_zero this.symm
        exact ⟨c, r1, r2, fun _ => hc⟩
      · intro ho
        refine ⟨?_, rfl⟩
        cases hk : h.killed with
        | true => rfl
        | false => rw [hk] at ho; have := (H.q.cl ho).1; rw [hk] at this; exact this
    · rw [if_neg hz]
      cases e with
      | again => exact ⟨h, [], rfl, H, rfl, rfl, by simp⟩
      | bad => exact ⟨_, [], rfl, ⟨H.len, H.mons, H.killed, H.num, H.fine, H.q, H.terms⟩, rfl, rfl, by simp⟩
      | intr => exact ih H
      | good =>
        obtain ⟨w, q, e1, e2, e3⟩ := sent_ok H hz
        obtain ⟨h', es, f1, f2, f3, f4, f5⟩ := ih e3
        dsimp only
        rw [e1]
        simp only [Outcome.bind_ok]
        rw [e2]
        simp only [Outcome.bind_ok]
        rw [f1]
        refine ⟨h', es ++ [.sent w], rfl, by simpa using f2, f3, f4, ?_⟩
        intro e he
        rcases List.mem_append.mp he with he | he
        · exact f5 e he
        · exact ⟨w, by simpa using he⟩

/-! ### Processes -/

/-- A watcher in the right list waits for a process of its own monitor that is not reaped. -/
structure WInv (h : Helper) : Prop where
  uniq : ∀ p i j, (p, i) ∈ h.procs → (p, j) ∈ h.procs → i = j
  cw : ∀ (i : Nat) m, h.mons[i]? = some m → m.cw = some (m.watched % 16) → (m.watched, i) ∈ h.procs

theorem exitCb_skip (junk : Nat → Nat) (pid : Nat) (g : Bool) (h : Helper) : ∀ l : List Nat,
    (∀ j ∈ l, ∃ m, h.mons[j]? = some m ∧ ¬ (m.cw = some (pid % 16) ∧ m.watched = pid)) → Helper.exitCb junk pid g l h = .ok (h, []) := by
  intro l
  induction l with
  | nil => intro _; rfl
  | cons j l ih =>
    intro hl
    obtain ⟨m, hm, hn⟩ := hl j (by simp)
    unfold Helper.exitCb
    rw [hm]
    dsimp only
    rw [if_neg hn]
    exact ih fun k hk => hl k (List.mem_cons_of_mem _ hk)

theorem exitCb_append (junk : Nat → Nat) (pid : Nat) (g : Bool) (h : Helper) (l2 : List Nat) : ∀ l1 : List Nat,
    (∀ j ∈ l1, ∃ m, h.mons[j]? = some m ∧ ¬ (m.cw = some (pid % 16) ∧ m.watched = pid)) → Helper.exitCb junk pid g (l1 ++ l2) h = Helper.exitCb junk pid g l2 h := by
  intro l1
  induction l1 with
  | nil => intro _; rfl
  | cons j l ih =>
    intro hl
    obtain ⟨m, hm, hn⟩ := hl j (by simp)
    rw [List.cons_append]
    conv => lhs; unfold Helper.exitCb
    rw [hm]
    dsimp only
    rw [if_neg hn]
    exact ih fun k hk => hl k (List.mem_cons_of_mem _ hk)

theorem range_split (n i : Nat) (h : i < n) : ∃ l1 l2, List.range n = l1 ++ i :: l2 ∧ i ∉ l1 ∧ i ∉ l2 := by
  obtain ⟨l1, l2, e⟩ := List.append_of_mem (List.mem_range.mpr h)
  have hn : (List.range n).Nodup := List.nodup_range
  rw [e, List.nodup_append] at hn
  refine ⟨l1, l2, e, ?_, ?_⟩
  · intro hc; exact hn.2.2 i hc i (by simp) rfl
  · exact (List.nodup_cons.mp hn.2.1).1

/-- Without the entries of the log, what the end of a process does. -/
theorem exit_ok {cmds : List Cmd} {L : Nat} {h : Helper} {log : List Entry} (hc : CmdsOk cmds L) (H : HInv cmds L h log) (W : WInv h) (junk : Nat → Nat) (pid : Nat) (g : Bool) :
    ∃ h' es, h.step junk (.exit pid g) = .ok (h', es) ∧ HInv cmds L h' (es ++ log) ∧ h'.procs = h.procs.filter (fun p => p.1 != pid) ∧
      ((h'.mons = h.mons ∧ es = [.reap pid g] ∧ ∀ (i : Nat) (m : Mon), h.mons[i]? = some m → ¬ (m.cw = some (pid % 16) ∧ m.watched = pid)) ∨
       (∃ i m m', h.mons[i]? = some m ∧ m.cw = some (pid % 16) ∧ m.watched = pid ∧ m'.cw = none ∧ m'.pending = false ∧ h'.mons = h.mons.set i m' ∧
          ((m.pending = false ∧ es = [.reap pid g]) ∨ (m.pending = true ∧ es = [.finish i (!g) h.now, .reap pid g])))) := by
  have H0 : HInv cmds L { h with procs := h.procs.filter fun p => p.1 != pid } log := ⟨H.len, H.mons, H.killed, H.num, H.fine, H.q, H.terms⟩
  have H1 := H0.note (.reap pid g) (.inr ⟨pid, g, rfl⟩) (.reap H.fine)
  by_cases hx : ∃ (i : Nat) (m : Mon), h.mons[i]? = some m ∧ m.cw = some (pid % 16) ∧ m.watched = pid
  · obtain ⟨i, m, hm, hcw, hw⟩ := hx
    have hlt : i < h.mons.length := (List.getElem?_eq_some_iff.mp hm).1
    obtain ⟨l1, l2, e, n1, n2⟩ := range_split _ _ hlt
    have huniq : ∀ j mj, h.mons[j]? = some mj → j ≠ i → ¬ (mj.cw = some (pid % 16) ∧ mj.watched = pid) := by
      rintro j mj hj hne ⟨k1, k2⟩
      apply hne
      have a := W.cw i m hm (by rw [hw]; exact hcw)
      have b := W.cw j mj hj (by rw [k2]; exact k1)
      rw [hw] at a; rw [k2] at b
      exact W.uniq pid j i b a
    have hin : ∀ j, j ∈ l1 ∨ j ∈ l2 → j < h.mons.length ∧ j ≠ i := by
      intro j hj
      refine ⟨List.mem_range.mp (by rw [e]; rcases hj with hj | hj <;> simp [hj]), ?_⟩
      rintro rfl
      rcases hj with hj | hj
      · exact n1 hj
      · exact n2 hj
    have hskip1 : ∀ j ∈ l1, ∃ mj, ({ h with procs := h.procs.filter fun p => p.1 != pid } : Helper).mons[j]? = some mj ∧ ¬ (mj.cw = some (pid % 16) ∧ mj.watched = pid) := by
      intro j hj
      obtain ⟨k1, k2⟩ := hin j (.inl hj)
      exact ⟨h.mons[j], List.getElem?_eq_getElem k1, huniq j _ (List.getElem?_eq_getElem k1) k2⟩
    have M := H.mons i m hm
    have hskip2 : ∀ (h' : Helper) m', h'.mons = h.mons.set i m' → ∀ j ∈ l2, ∃ mj, h'.mons[j]? = some mj ∧ ¬ (mj.cw = some (pid % 16) ∧ mj.watched = pid) := by
      intro h' m' hh j hj
      obtain ⟨k1, k2⟩ := hin j (.inr hj)
      refine ⟨h.mons[j], ?_, huniq j _ (List.getElem?_eq_getElem k1) k2⟩
      rw [hh, List.getElem?_set_ne (fun hc => k2 hc.symm)]
      exact List.getElem?_eq_getElem k1
    have hstep : ∀ h' es m', Helper.childCb junk { h with procs := h.procs.filter fun p => p.1 != pid } i m g = .ok (h', es) → h'.mons = h.mons.set i m' →
        h.step junk (.exit pid g) = .ok (h', es ++ [.reap pid g]) := by
      intro h' es m' hcb hmm
      unfold Helper.step
      dsimp only
      rw [e, exitCb_append _ _ _ _ _ _ hskip1]
      unfold Helper.exitCb
      dsimp only
      rw [hm]
      dsimp only
      rw [if_pos ⟨hcw, hw⟩, hcb]
      simp only [Outcome.bind_ok]
      rw [exitCb_skip junk pid g h' l2 (hskip2 h' m' hmm)]
      rfl
    by_cases hp : m.pending = true
    · obtain ⟨⟨p, t0⟩, hpt⟩ := Option.isSome_iff_exists.mp (M.prog.symm.trans hp)
      have hpp := (M.pid p t0 hpt).2
      have : p = pid := by rw [← hpp, hw]
      subst this
      have hf : Fine cmds (.finish i (!g) h.now :: .reap p g :: log) := by
        cases g with
        | true => exact .good H1.fine hpt
        | false => exact .bad H1.fine hpt
      obtain ⟨h1, f1, f2, f3, f4, f5⟩ := finish_ok hc H1 junk i m { m with cw := none, ct := none, pid := 0, pending := false } (!g) hm hp hf rfl rfl rfl rfl
      have hmm : (h1.less.put i { m with cw := none, ct := none, pid := 0, pending := false }).mons = h.mons.set i { m with cw := none, ct := none, pid := 0, pending := false } := by
        show h1.mons.set i _ = _
        rw [f4]
      refine ⟨h1.less.put i { m with cw := none, ct := none, pid := 0, pending := false }, [.finish i (!g) h.now, .reap p g], ?_, f5, f3, .inr ⟨i, m, _, hm, hcw, hw, rfl, rfl, hmm, .inr ⟨hp, rfl⟩⟩⟩
      refine hstep _ [.finish i (!g) h.now] _ ?_ hmm
      unfold Helper.childCb
      dsimp only
      rw [if_pos hp, f1]
      show Outcome.ok _ = _
      dsimp only
      rw [f2]
    · have hp' : m.pending = false := by cases hpp : m.pending with | false => rfl | true => exact absurd hpp hp
      have hct : m.ct = none := by
        have := M.ct
        rw [hp'] at this
        cases hx : m.ct with
        | none => rfl
        | some x => rw [hx] at this; cases this
      refine ⟨({ h with procs := h.procs.filter fun p => p.1 != pid } : Helper).put i { m with cw := none, ct := none, pid := 0 }, [.reap pid g], ?_, ?_, rfl, .inr ⟨i, m, { m with cw := none, ct := none, pid := 0 }, hm, hcw, hw, rfl, hp', rfl, .inl ⟨hp', rfl⟩⟩⟩
      · refine hstep _ [] { m with cw := none, ct := none, pid := 0 } ?_ rfl
        unfold Helper.childCb
        dsimp only
        rw [if_neg hp]
      · refine ⟨by show (h.mons.set i _).length = _; rw [List.length_set]; exact H.len, ?_, H1.killed, H1.num, H1.fine, H1.q, H1.terms⟩
        intro j mj hj
        have hj' : (h.mons.set i { m with cw := none, ct := none, pid := 0 })[j]? = some mj := hj
        rw [List.getElem?_set] at hj'
        have M1 := H1.mons i m hm
        have hnone : inProg i (.reap pid g :: log) = none := by
          have := M1.prog
          rw [hp'] at this
          cases hx : inProg i (.reap pid g :: log) with
          | none => rfl
          | some x => rw [hx] at this; cases this
        by_cases hij : i = j
        · subst hij
          rw [if_pos rfl, if_pos hlt] at hj'
          cases hj'
          refine ⟨M1.cmd, M1.prog, by show none.isSome = m.pending; rw [hp']; rfl, ?_, ?_, M1.itk, ?_, M1.itn, ?_⟩
          · intro p t0 hpp; rw [show inProg i ([Entry.reap pid g] ++ log) = none from hnone] at hpp; cases hpp
          · intro p t0 d hpp; rw [show inProg i ([Entry.reap pid g] ++ log) = none from hnone] at hpp; cases hpp
          · intro e c _ hcc; cases hcc
          · intro c hcc; cases hcc
        · rw [if_neg hij] at hj'
          exact H1.mons j mj hj'
  · refine ⟨{ h with procs := h.procs.filter fun p => p.1 != pid }, [.reap pid g], ?_, H1, rfl, .inl ⟨rfl, rfl, fun i m hm hcc => hx ⟨i, m, hm, hcc.1, hcc.2⟩⟩⟩
    unfold Helper.step
    dsimp only
    rw [exitCb_skip]
    · rfl
    · intro j hj
      have k1 := List.mem_range.mp hj
      exact ⟨h.mons[j], List.getElem?_eq_getElem k1, fun hcc => hx ⟨j, _, List.getElem?_eq_getElem k1, hcc.1, hcc.2⟩⟩

end Gdnsd.Extmon
