import Verif.Extmon.HelperSpec
import Verif.Extmon.Lemmas2
namespace Gdnsd.Extmon

/-! ### Counting -/

theorem countP_flip (f g : Nat → Bool) (i : Nat) : ∀ n, i < n → (∀ j, j ≠ i → f j = g j) → f i = false → g i = true →
    (List.range n).countP g = (List.range n).countP f + 1 := by
  intro n
  induction n with
  | zero => intro h; omega
  | succ n ih =>
    intro hi hne hf hg
    rw [List.range_succ, List.countP_append, List.countP_append]
    by_cases h : i = n
    · subst h
      have : (List.range i).countP g = (List.range i).countP f := by
        apply List.countP_congr
        intro x hx
        rw [hne x (by have := List.mem_range.mp hx; omega)]
      rw [this]
      simp [hf, hg]
    · rw [ih (by omega) hne hf hg]
      have : [n].countP g = [n].countP f := by
        apply List.countP_congr
        intro x hx
        rw [hne x (by simp at hx; omega)]
      rw [this]; omega

theorem busy_start (n i p t : Nat) (l : List Entry) (hi : i < n) (h : inProg i l = none) : busy n (.start i p t :: l) = busy n l + 1 := by
  unfold busy
  apply countP_flip _ _ i n hi
  · intro j hj
    have : ¬ i = j := fun hc => hj hc.symm
    simp [inProg, this]
  · simp [h]
  · simp [inProg]

theorem busy_finish (n i t : Nat) (f : Bool) (l : List Entry) (hi : i < n) (h : (inProg i l).isSome = true) : busy n l = busy n (.finish i f t :: l) + 1 := by
  unfold busy
  apply countP_flip _ _ i n hi
  · intro j hj
    have : ¬ i = j := fun hc => hj hc.symm
    simp [inProg, this]
  · simp [inProg]
  · exact h

/-! ### The invariant -/

structure MInv (cmds : List Cmd) (L now : Nat) (log : List Entry) (i : Nat) (m : Mon) : Prop where
  cmd : cmds[i]? = some m.cmd
  prog : m.pending = (inProg i log).isSome
  ct : m.ct.isSome = m.pending
  pid : ∀ p t0, inProg i log = some (p, t0) → m.pid = p ∧ m.watched = p
  ctv : ∀ p t0 d, inProg i log = some (p, t0) → m.ct = some d → d ≤ t0 + m.cmd.timeout * 10 ∧ (∀ t1, Entry.term t1 ∈ log → d ≤ t1 + 20) ∧
    (d = t0 + m.cmd.timeout * 10 ∨ ∃ t1, Entry.term t1 ∈ log ∧ d = t1 + 20)
  itk : ∀ e, m.it = some e → quit log = false
  gap : ∀ e c, m.it = some e → m.ct = some c → c + m.cmd.interval * 10 ≤ e + L + m.cmd.timeout * 10
  itn : ∀ e, m.it = some e → now ≤ e + L
  ctn : ∀ c, m.ct = some c → now ≤ c + L

structure QInv (q : Queue) (wOn isOpen killed : Bool) (log : List Entry) : Prop where
  rep : ∃ c, Rep q c ∧ sents log ++ c = words log ∧ (wOn = false → c = [])
  cl : isOpen = false → killed = true ∧ wOn = false

structure HInv (cmds : List Cmd) (L : Nat) (h : Helper) (log : List Entry) : Prop where
  len : h.mons.length = cmds.length
  mons : ∀ i m, h.mons[i]? = some m → MInv cmds L h.now log i m
  killed : h.killed = quit log
  num : h.numProc = busy cmds.length log
  fine : Fine cmds log
  q : QInv h.q h.wOn h.isOpen h.killed log
  terms : ∀ t, Entry.term t ∈ log → t ≤ h.now

theorem mem_term {e : Entry} {log : List Entry} (h : ∀ t, e ≠ .term t) {t : Nat} (hm : Entry.term t ∈ e :: log) : Entry.term t ∈ log := by
  rcases List.mem_cons.mp hm with hc | hc
  · exact absurd hc.symm (h t)
  · exact hc

theorem quit_iff (l : List Entry) : quit l = true ↔ ∃ t, Entry.term t ∈ l := by
  induction l with
  | nil => simp [quit]
  | cons e l ih => cases e <;> simp [quit, ih]

theorem no_term {l : List Entry} (h : quit l = false) (t : Nat) : Entry.term t ∉ l := by
  intro hc
  rw [(quit_iff l).mpr ⟨t, hc⟩] at h; cases h

/-- Entries that do not concern a monitor. -/
theorem MInv.frame {cmds : List Cmd} {L now : Nat} {log : List Entry} {i : Nat} {m : Mon} (H : MInv cmds L now log i m) (e : Entry)
    (h1 : inProg i (e :: log) = inProg i log) (h2 : ∀ t, e ≠ .term t) : MInv cmds L now (e :: log) i m := by
  have hm : ∀ t, Entry.term t ∈ e :: log ↔ Entry.term t ∈ log := by
    intro t
    constructor
    · intro h
      rcases List.mem_cons.mp h with h | h
      · exact absurd h.symm (h2 t)
      · exact h
    · exact List.mem_cons_of_mem _
  have hq : quit (e :: log) = quit log := by
    cases e <;> first | rfl | exact absurd rfl (h2 _)
  refine ⟨H.cmd, by rw [h1]; exact H.prog, H.ct, by rw [h1]; exact H.pid, ?_, by rw [hq]; exact H.itk, H.gap, H.itn, H.ctn⟩
  intro p t0 d hp hd
  rw [h1] at hp
  obtain ⟨a, b, c⟩ := H.ctv p t0 d hp hd
  refine ⟨a, fun t1 ht => b t1 ((hm t1).mp ht), ?_⟩
  rcases c with c | ⟨t1, c1, c2⟩
  · exact .inl c
  · exact .inr ⟨t1, (hm t1).mpr c1, c2⟩

/-- An entry that changes nothing but the log. -/
theorem HInv.note {cmds : List Cmd} {L : Nat} {h : Helper} {log : List Entry} (H : HInv cmds L h log) (e : Entry)
    (he : (∃ p, e = .kill p) ∨ (∃ p g, e = .reap p g)) (hf : Fine cmds (e :: log)) : HInv cmds L h (e :: log) := by
  have h1 : ∀ i, inProg i (e :: log) = inProg i log := by
    rcases he with ⟨p, rfl⟩ | ⟨p, g, rfl⟩ <;> intro i <;> rfl
  have h2 : ∀ t, e ≠ .term t := by
    rcases he with ⟨p, rfl⟩ | ⟨p, g, rfl⟩ <;> intro t hc <;> cases hc
  have h3 : quit (e :: log) = quit log := by rcases he with ⟨p, rfl⟩ | ⟨p, g, rfl⟩ <;> rfl
  have h4 : words (e :: log) = words log := by rcases he with ⟨p, rfl⟩ | ⟨p, g, rfl⟩ <;> rfl
  have h5 : sents (e :: log) = sents log := by rcases he with ⟨p, rfl⟩ | ⟨p, g, rfl⟩ <;> rfl
  refine ⟨H.len, fun i m hm => (H.mons i m hm).frame e (h1 i) h2, by rw [h3]; exact H.killed, ?_, hf, ⟨by rw [h4, h5]; exact H.q.rep, H.q.cl⟩, fun t ht => H.terms t (mem_term h2 ht)⟩
  rw [H.num]; unfold busy; simp only [h1]

theorem encode_eq (i : Nat) (f : Bool) (h : i < 65536) : encodeMon i f = .ok (word i f) := by
  unfold encodeMon word
  rw [show (decide (i < 0x10000)) = true by simpa using h]
  cases f <;> rfl

theorem result_ok (junk : Nat → Nat) (h : Helper) (log : List Entry) (hq : QInv h.q h.wOn h.isOpen h.killed log) (hk : h.killed = quit log)
    (i : Nat) (f : Bool) (t : Nat) (hi : i < 65536) :
    ∃ q w, h.result junk i f = .ok { h with q := q, wOn := w } ∧ QInv q w h.isOpen h.killed (.finish i f t :: log) := by
  unfold Helper.result
  by_cases hkk : h.killed = true
  · rw [if_pos hkk]
    refine ⟨h.q, h.wOn, rfl, ?_, hq.cl⟩
    have : words (.finish i f t :: log) = words log := by
      show (if quit log = true then _ else _) = _
      rw [if_pos (hk ▸ hkk)]
    rw [this]
    exact hq.rep
  · rw [if_neg hkk, encode_eq i f hi]
    obtain ⟨c, r1, r2, r3⟩ := hq.rep
    obtain ⟨q', e1, e2⟩ := enq_ok h.q c r1 junk (word i f)
    simp only [Outcome.bind_ok]
    rw [e1]
    refine ⟨q', true, rfl, ⟨c ++ [word i f], e2, ?_, (fun hc => by cases hc)⟩, fun ho => ?_⟩
    · show sents log ++ _ = if quit log = true then _ else _
      rw [if_neg (hk ▸ hkk), ← r2, List.append_assoc]
    · exact absurd (hq.cl ho).1 hkk

theorem finish_ok {cmds : List Cmd} {L : Nat} {h : Helper} {log : List Entry} (hc : CmdsOk cmds L) (H : HInv cmds L h log) (junk : Nat → Nat) (i : Nat) (m m' : Mon) (f : Bool)
    (hm : h.mons[i]? = some m) (hp : m.pending = true) (hf : Fine cmds (.finish i f h.now :: log))
    (e1 : m'.cmd = m.cmd) (e2 : m'.it = m.it) (e3 : m'.ct = none) (e4 : m'.pending = false) :
    ∃ h1, h.result junk m.cmd.idx f = .ok h1 ∧ h1.now = h.now ∧ h1.procs = h.procs ∧ h1.mons = h.mons ∧
      HInv cmds L (h1.less.put i m') (.finish i f h.now :: log) := by
  have M := H.mons i m hm
  have hidx := hc.idx i _ M.cmd
  have hlt : i < cmds.length := (List.getElem?_eq_some_iff.mp M.cmd).1
  obtain ⟨q, w, r1, r2⟩ := result_ok junk h log H.q H.killed i f h.now (by have := hc.few; omega)
  rw [hidx, r1]
  refine ⟨_, rfl, rfl, rfl, rfl, ⟨?_, ?_, H.killed, ?_, hf, r2, fun t ht => H.terms t (mem_term (fun t hc => by cases hc) ht)⟩⟩
  · show (h.mons.set i m').length = _
    rw [List.length_set]; exact H.len
  · intro j mj hj
    have hj' : (h.mons.set i m')[j]? = some mj := hj
    rw [List.getElem?_set] at hj'
    by_cases hij : i = j
    · subst hij
      rw [if_pos rfl] at hj'
      split at hj'
      · cases hj'
        refine ⟨by rw [e1]; exact M.cmd, ?_, by rw [e3, e4]; rfl, ?_, ?_, ?_, ?_, ?_, ?_⟩
        · rw [e4]; simp [inProg]
        · intro p t0 hpp; simp [inProg] at hpp
        · intro p t0 d hpp; simp [inProg] at hpp
        · intro e he; rw [e2] at he; exact M.itk e he
        · intro e c _ hcc; rw [e3] at hcc; cases hcc
        · intro e he; rw [e2] at he; exact M.itn e he
        · intro c hcc; rw [e3] at hcc; cases hcc
      · cases hj'
    · rw [if_neg hij] at hj'
      exact (H.mons j mj hj').frame _ (by simp [inProg, hij]) (by intro t hc; cases hc)
  · show (if h.numProc > 0 then h.numProc - 1 else h.numProc) = _
    have := busy_finish cmds.length i h.now f log hlt (by rw [← M.prog]; exact hp)
    rw [H.num]
    rw [if_pos (by omega)]
    omega

/-! ### Timers -/

theorem timeout_ok {cmds : List Cmd} {L : Nat} {h : Helper} {log : List Entry} (hc : CmdsOk cmds L) (H : HInv cmds L h log) (junk : Nat → Nat) (i : Nat)
    (can : (Event.timeout i).Can h) : ∃ h' es, h.step junk (.timeout i) = .ok (h', es) ∧ HInv cmds L h' (es ++ log) ∧
      ∃ m m' p t0, h.mons[i]? = some m ∧ m'.cw = m.cw ∧ m'.watched = m.watched ∧ m'.pending = false ∧ h'.mons = h.mons.set i m' ∧ h'.procs = h.procs ∧
        inProg i log = some (p, t0) ∧ es = [.finish i true h.now, .kill p] ∧ m.watched = p := by
  obtain ⟨m, d, hm, hd, hn⟩ := can
  have M := H.mons i m hm
  have hp : m.pending = true := by rw [← M.ct, hd]; rfl
  obtain ⟨⟨p, t0⟩, hpt⟩ := Option.isSome_iff_exists.mp (M.prog.symm.trans hp)
  obtain ⟨hpid, hwat⟩ := M.pid p t0 hpt
  have H1 := H.note (.kill p) (.inl ⟨p, rfl⟩) (.kill H.fine hpt)
  have hf : Fine cmds (.finish i true h.now :: .kill p :: log) := by
    refine .late H1.fine hpt M.cmd ?_
    rcases (M.ctv p t0 d hpt hd).2.2 with hv | ⟨t1, k1, k2⟩
    · exact .inl (by omega)
    · exact .inr ⟨t1, k1, by omega⟩
  obtain ⟨h1, f1, f2, f3, f4, f5⟩ := finish_ok hc H1 junk i m { m with ct := none, pending := false } true hm hp hf rfl rfl rfl rfl
  refine ⟨h1.less.put i { m with ct := none, pending := false }, [.finish i true h.now, .kill p], ?_, f5, m, { m with ct := none, pending := false }, p, t0, hm, rfl, rfl, rfl, ?_, f3, hpt, rfl, hwat⟩
  · unfold Helper.step
    simp only [hm, Helper.timeoutCb, hp, assert_true, Outcome.bind_ok, f1, Outcome.map_ok]
    rw [f2, hpid]
  · show h1.mons.set i _ = _
    rw [f4]

theorem tick_ok {cmds : List Cmd} {L : Nat} {h : Helper} {log : List Entry} (H : HInv cmds L h log) (d : Nat)
    (ht : (Event.tick d).Timely L h) : HInv cmds L { h with now := h.now + d } log := by
  refine ⟨H.len, ?_, H.killed, H.num, H.fine, H.q, fun t ht => Nat.le_trans (H.terms t ht) (Nat.le_add_right _ _)⟩
  intro i m hm
  have M := H.mons i m hm
  have T := ht m (List.mem_of_getElem? hm)
  exact ⟨M.cmd, M.prog, M.ct, M.pid, M.ctv, M.itk, M.gap, T.1, T.2⟩

theorem interval_ok {cmds : List Cmd} {L : Nat} {h : Helper} {log : List Entry} (hc : CmdsOk cmds L) (H : HInv cmds L h log) (junk : Nat → Nat) (i pid : Nat)
    (can : (Event.interval i pid).Can h) : ∃ h' es, h.step junk (.interval i pid) = .ok (h', es) ∧ HInv cmds L h' (es ++ log) ∧
      ∃ m, h.mons[i]? = some m ∧ m.pending = false ∧
        ((∃ m', m'.cw = m.cw ∧ m'.watched = m.watched ∧ m'.pending = false ∧ h'.mons = h.mons.set i m' ∧ h'.procs = h.procs ∧ es = [] ∧ m.cmd.maxProc > 0 ∧ busy cmds.length log ≥ m.cmd.maxProc) ∨
         (∃ m', m'.cw = m.list pid ∧ m'.watched = pid ∧ h'.mons = h.mons.set i m' ∧ h'.procs = (pid, i) :: h.procs ∧ es = [.start i pid h.now])) := by
  obtain ⟨⟨m, d, hm, hd, hn⟩, _⟩ := can
  have M := H.mons i m hm
  have hlt : i < cmds.length := (List.getElem?_eq_some_iff.mp M.cmd).1
  have hp : m.pending = false := by
    cases hpp : m.pending with
    | false => rfl
    | true =>
      exfalso
      have := M.ct
      rw [hpp] at this
      obtain ⟨c, hcc⟩ := Option.isSome_iff_exists.mp this
      have g1 := M.gap d c hd hcc
      have g2 := M.ctn c hcc
      have g3 := hc.gap m.cmd (List.mem_of_getElem? M.cmd)
      omega
  have hnone : inProg i log = none := by
    have := M.prog
    rw [hp] at this
    cases hx : inProg i log with
    | none => rfl
    | some x => rw [hx] at this; cases this
  have hct : m.ct = none := by
    have := M.ct
    rw [hp] at this
    cases hx : m.ct with
    | none => rfl
    | some x => rw [hx] at this; cases this
  have hstep : h.step junk (.interval i pid) = if m.cmd.maxProc > 0 ∧ h.numProc ≥ m.cmd.maxProc then .ok (h.put i { m with it := some (h.now + 1) }, [])
      else .ok (({ h with numProc := h.numProc + 1, procs := (pid, i) :: h.procs }).put i { m with it := some (max (d + m.cmd.interval * 10) h.now), ct := some (h.now + m.cmd.timeout * 10), pending := true, pid := pid, watched := pid, cw := Mon.list m pid }, [.start i pid h.now]) := by
    unfold Helper.step
    dsimp only
    rw [hm]
    dsimp only
    rw [hd]
    dsimp only
    unfold Helper.intervalCb
    rw [show (!m.pending) = true by rw [hp]; rfl]
    rfl
  by_cases hlim : m.cmd.maxProc > 0 ∧ h.numProc ≥ m.cmd.maxProc
  · refine ⟨h.put i { m with it := some (h.now + 1) }, [], hstep.trans (if_pos hlim), ?_, m, hm, hp, .inl ⟨{ m with it := some (h.now + 1) }, rfl, rfl, hp, rfl, rfl, rfl, hlim.1, by rw [← H.num]; exact hlim.2⟩⟩
    refine ⟨by show (h.mons.set i _).length = _; rw [List.length_set]; exact H.len, ?_, H.killed, H.num, H.fine, H.q, H.terms⟩
    intro j mj hj
    have hj' : (h.mons.set i { m with it := some (h.now + 1) })[j]? = some mj := hj
    rw [List.getElem?_set] at hj'
    by_cases hij : i = j
    · subst hij
      rw [if_pos rfl] at hj'
      split at hj'
      · cases hj'
        refine ⟨M.cmd, M.prog, M.ct, M.pid, M.ctv, fun e _ => M.itk d hd, ?_, ?_, M.ctn⟩
        · intro e c _ hcc
          rw [show m.ct = none from hct] at hcc; cases hcc
        · intro e he
          cases he
          show h.now ≤ h.now + 1 + L
          omega
      · cases hj'
    · rw [if_neg hij] at hj'
      exact H.mons j mj hj'
  · refine ⟨_, [.start i pid h.now], hstep.trans (if_neg hlim), ?_, m, hm, hp, .inr ⟨_, rfl, rfl, rfl, rfl, rfl⟩⟩
    refine ⟨by show (h.mons.set i _).length = _; rw [List.length_set]; exact H.len, ?_, H.killed, ?_, ?_, ⟨H.q.rep, H.q.cl⟩, fun t ht => H.terms t (mem_term (fun t hc => by cases hc) ht)⟩
    · intro j mj hj
      have hj' := hj
      change (h.mons.set i _)[j]? = some mj at hj'
      rw [List.getElem?_set] at hj'
      by_cases hij : i = j
      · subst hij
        rw [if_pos rfl] at hj'
        split at hj'
        · have hmj := (Option.some.inj hj').symm
          subst hmj
          have hin : inProg i ([Entry.start i pid h.now] ++ log) = some (pid, h.now) := by simp [inProg]
          have hqt : quit log = false := M.itk d hd
          refine ⟨M.cmd, ?_, rfl, ?_, ?_, ?_, ?_, ?_, ?_⟩
          · rw [hin]; rfl
          · intro p t0 hpt
            rw [hin] at hpt
            cases hpt
            exact ⟨rfl, rfl⟩
          · intro p t0 c hpt hcc
            rw [hin] at hpt
            cases hpt
            cases hcc
            refine ⟨Nat.le_refl _, ?_, .inl rfl⟩
            intro t1 ht1
            rcases List.mem_cons.mp ht1 with ht1 | ht1
            · cases ht1
            · exact absurd ht1 (no_term hqt t1)
          · intro e _; exact hqt
          · intro e c he hcc
            cases he
            cases hcc
            have := M.itn d hd
            dsimp only
            omega
          · intro e he
            cases he
            dsimp only [Helper.put]
            omega
          · intro c hcc
            cases hcc
            dsimp only [Helper.put]
            omega
        · cases hj'
      · rw [if_neg hij] at hj'
        exact (H.mons j mj hj').frame _ (by simp [inProg, hij]) (by intro t hc; cases hc)
    · show h.numProc + 1 = _
      rw [H.num]
      exact (busy_start cmds.length i pid h.now log hlt hnone).symm
    · refine .start H.fine M.cmd hnone (M.itk d hd) ?_
      intro hpos
      show busy cmds.length log < _
      rw [← H.num]
      omega

end Gdnsd.Extmon
