/-
Properties of external monitors: the commands and results on the pipes (C43, C68), the checks the helper
runs (C69), and what the daemon makes of them (C70).
-/
import Verif.Extmon.DaemonLemmas
import Verif.Extmon.Play
namespace Gdnsd.Extmon

/-! ### Commands -/

/-- Whatever parts `write` takes, what is in the pipe is a prefix of the command, and the whole of it if
the call returns success; no byte is written outside of the buffer. -/
theorem C43_write (junk : Bytes) (hj : junk.length = 2) (l : List Io) (c : Cmd) :
    ∃ out r, writeCmd junk l c = .ok (out, r) ∧ (∃ k, out = c.wire.take k) ∧ (∀ l', r = .done l' → out = c.wire) := by
  unfold writeCmd
  rw [cmdBuf_ok junk c hj]
  obtain ⟨h1, h2⟩ := writeAll_done l c.wire
  exact ⟨_, _, rfl, h1, h2⟩

/-- A command that was written is read back identically, whatever parts `read` gives, if the size of its
strings is below 64 KiB. -/
theorem C43_round (c : Cmd) (h : c.Fits) (rest : Bytes) (l : List Io) (he : Io.error ∉ l) (hp : c.wire.length ≤ l.countP isPart) :
    ∃ l', readCmd l (c.wire ++ rest) = .ok (.done (c, rest, l')) := readCmd_complete c h rest l he hp

/-- Reading never looks outside of the data, and what it accepts is the encoding of the command it returns:
every other string of bytes is rejected. -/
theorem C43_read (l : List Io) (s : Bytes) : ∃ r, readCmd l s = .ok r ∧ ∀ c rest l', r = .done (c, rest, l') → c.Fits ∧ s = c.wire ++ rest :=
  readCmd_sound l s

/-- A command whose strings are too large is not misread: the helper rejects it. -/
theorem C43_long (c : Cmd) (h : c.Ok) (hl : 65536 ≤ c.var.length) (rest : Bytes) (l : List Io) :
    readCmd l (c.wire ++ rest) = .ok .fail ∨ readCmd l (c.wire ++ rest) = .ok .wait := readCmd_long c h hl rest l

/-- A command of one argument. -/
def argCmd (a : Bytes) : Cmd := ⟨0, 5, 10, 0, [a], [97]⟩

theorem argCmd_ok (a : Bytes) (h : 0 ∉ a) : (argCmd a).Ok :=
  ⟨(by simp [argCmd]), (by simp [argCmd]), (by simp [argCmd]), (by simp [argCmd]), (by simp [argCmd]), (by simp [argCmd]),
    (by intro b hb
        have : b = a := by simpa [argCmd] using hb
        rw [this]; exact h), by simp [argCmd]⟩

theorem argCmd_long (a : Bytes) (h : 65536 ≤ a.length) : 65536 ≤ (argCmd a).var.length := by
  simp only [argCmd, Cmd.var, strings, List.length_append, List.length_cons, List.flatMap_cons]
  omega

/-- So commands exist that are written and cannot be read. -/
theorem C43_false_long : ∃ c : Cmd, c.Ok ∧ c.args.length = 1 ∧ ∀ l rest c' rest' l', readCmd l (c.wire ++ rest) ≠ .ok (.done (c', rest', l')) := by
  have key : ∀ a : Bytes, 0 ∉ a → 65536 ≤ a.length → ∃ c : Cmd, c.Ok ∧ c.args.length = 1 ∧ ∀ l rest c' rest' l', readCmd l (c.wire ++ rest) ≠ .ok (.done (c', rest', l')) := by
    intro a h0 hl
    refine ⟨argCmd a, argCmd_ok a h0, rfl, ?_⟩
    intro l rest c' rest' l' h
    rcases C43_long (argCmd a) (argCmd_ok a h0) (argCmd_long a hl) rest l with h' | h' <;> rw [h] at h' <;> cases h'
  refine key (List.replicate 65536 65) ?_ ?_
  · rw [List.mem_replicate]
    rintro ⟨_, hc⟩
    revert hc; decide
  · rw [List.length_replicate]
    exact Nat.le_refl _

/-- Beside C43: a command. -/
def shortCmd : Cmd := ⟨0, 5, 10, 0, [[47, 99], [104]], [97]⟩

example : shortCmd.Fits := ⟨⟨by decide, by decide, by decide, by decide, by decide, by decide, by decide, by decide⟩, by decide, by decide⟩
example : readCmd (List.replicate 40 (.part 1)) (shortCmd.wire ++ [1, 2]) = .ok (.done (shortCmd, [1, 2], List.replicate 29 (.part 1))) := by decide +kernel
example : readCmd (List.replicate 40 (.part 1)) (shortCmd.wire.set 12 1) = .ok .fail := by decide +kernel
example : readCmd (List.replicate 40 (.part 9)) (shortCmd.wire.set 17 1) = .ok .fail := by decide +kernel

/-! ### Results -/

theorem qrun_ok (junk : Nat → Nat) (l : List QOp) : ∀ (q : Queue) (c : List Nat), Rep q c → qrun junk q l = .ok (fifo c l) := by
  induction l with
  | nil => intro q c _; cases c <;> rfl
  | cons o l ih =>
    intro q c hr
    cases o with
    | enq x =>
      obtain ⟨q', e1, e2⟩ := enq_ok q c hr junk x
      show (q.enq junk x).bind _ = _
      rw [e1]
      rw [show fifo c (.enq x :: l) = fifo (c ++ [x]) l by cases c <;> rfl]
      exact ih q' _ e2
    | deq =>
      unfold qrun
      cases c with
      | nil => rw [if_pos (show q.len = 0 from hr.len)]; exact ih q [] hr
      | cons x c =>
        have hn : q.len ≠ 0 := by rw [hr.len]; simp
        obtain ⟨e1, q', e2, e3⟩ := peek_ok q x c hr
        rw [if_neg hn, e1]
        simp only [Outcome.bind_ok]
        rw [e2]
        simp only [Outcome.bind_ok]
        rw [ih q' c e3]
        rfl

/-- The queue of the helper gives out what was put in, in order, for every sequence of operations and
whatever fresh memory holds. -/
theorem C68_queue (junk junk' : Nat → Nat) (l : List QOp) : qrun junk (Queue.init junk') l = .ok (fifo [] l) :=
  qrun_ok junk l _ [] (Rep.init junk')

example : qrun (fun _ => 7) (Queue.init fun _ => 9) ((List.range 15).map .enq ++ [.deq, .deq, .deq] ++ (List.range 30).map (fun x => .enq (100 + x)) ++ [.deq, .deq]) = .ok [0, 1, 2, 3, 4] := by
  decide +kernel

/-- A result is decoded to what was encoded, and is never taken for the message that the helper ends. -/
theorem C68_decode (i : Nat) (failed : Bool) (h : i < 65536) :
    ∃ w, encodeMon i failed = .ok w ∧ w < 4294967296 ∧ isExit w = false ∧ monIdx w = i ∧ monFailed w = failed ∧ isExit encodeExit = true := by
  obtain ⟨a, b, c⟩ := word_decode i failed
  refine ⟨_, encode_eq i failed h, ?_, a, b, c, rfl⟩
  unfold word
  split <;> omega

/-- Nothing but the two letters of success counts as success, whatever word arrives. -/
theorem C68_fail_safe (w : Nat) : monFailed w = false ↔ [w / 256 % 256, w % 256] = "OK".toList.map Char.toNat := by
  have : "OK".toList.map Char.toNat = [79, 75] := by decide
  rw [this]
  simp only [monFailed, Bool.not_eq_false', beq_iff_eq, List.cons.injEq, and_true]
  omega

example : monFailed (3 * 65536 + 79 * 256 + 75) = false ∧ monFailed 0 = true ∧ monFailed 0xFFFFFFFF = true := by decide

/-- What the helper has written is at any time a prefix of the results, in the order of the checks' ends,
followed after a signal by the message of the end; and all of it as soon as it does not wait for the pipe. -/
theorem C68_words (cmds : List Cmd) (L : Nat) (hc : CmdsOk cmds L) (h : Helper) (log : List Entry) (r : HRun cmds (fun h e => e.Timely L h) h log) :
    sents log <+: words log ∧ (h.wOn = false → sents log = words log) := by
  obtain ⟨H, _⟩ := hrun_ok (fun _ _ hk => hk) hc r
  obtain ⟨c, _, r2, r3⟩ := H.q.rep
  refine ⟨⟨c, r2⟩, fun hw => ?_⟩
  have := r3 hw
  subst this
  simpa using r2

/-- The updates the daemon makes because of results are those of the helper's checks, in order, none
lost, repeated or changed, if the pipe gives the daemon what the helper wrote. -/
theorem C68_updates (cmds : List Cmd) (L : Nat) (hc : CmdsOk cmds L) (h : Helper) (log : List Entry) (r : HRun cmds (fun h e => e.Timely L h) h log)
    (kill : Bool) (mons : List DMon) (hlen : mons.length = cmds.length) (L' : Nat) (d : Daemon) (dlog : List DEntry) (r' : DRun kill mons (fun d e => e.Timely L' d) d dlog)
    (hpipe : gots dlog <+: sents log) :
    updates dlog <+: (results log).filterMap (updOf mons) ∧
      (gots dlog = words log → (updates dlog).length = (results log).length) := by
  obtain ⟨H, _⟩ := hrun_ok (fun _ _ hk => hk) hc r
  have D := drun_ok r'
  have hf : ∀ rs : List (Nat × Bool), (rs.map fun r => word r.1 r.2).filterMap (fun w => if isExit w = true then none else updOf mons (monIdx w, monFailed w)) = rs.filterMap (updOf mons) := by
    intro rs
    rw [List.filterMap_map]
    congr 1
    funext ⟨i, f⟩
    obtain ⟨a, b, c⟩ := word_decode i f
    simp [a, b, c]
  have hx : ([0xFFFFFFFF] : List Nat).filterMap (fun w => if isExit w = true then none else updOf mons (monIdx w, monFailed w)) = [] := rfl
  have hw : (words log).filterMap (fun w => if isExit w = true then none else updOf mons (monIdx w, monFailed w)) = (results log).filterMap (updOf mons) := by
    rw [words_results, List.filterMap_append, hf]
    split
    · rw [hx]; simp
    · simp
  refine ⟨?_, ?_⟩
  · rw [D.upds, ← hw]
    exact (hpipe.trans (C68_words cmds L hc h log r).1).filterMap _
  · intro hg
    rw [D.upds, hg, hw]
    have hin := inProg_fine H.fine
    have : ∀ rs : List (Nat × Bool), (∀ r ∈ rs, r.1 < cmds.length) → (rs.filterMap (updOf mons)).length = rs.length := by
      intro rs
      induction rs with
      | nil => intro _; rfl
      | cons a rs ih =>
        intro hr
        have ha : a.1 < mons.length := by rw [hlen]; exact hr a (by simp)
        have : updOf mons a = some (a.1, mons[a.1].idx, if mons[a.1].direct then .sttl a.2 else .state (!a.2)) := by
          unfold updOf
          rw [List.getElem?_eq_getElem ha]
          rfl
        rw [List.filterMap_cons_some this, List.length_cons, List.length_cons, ih fun r h => hr r (List.mem_cons_of_mem _ h)]
    exact this _ hin

/-! ### Checks -/

/-- No assertion of the helper fails, if no callback is late by more than `L`, and timeouts are shorter
than intervals by more than `2 * L`. -/
theorem C69_safe_partial (cmds : List Cmd) (L : Nat) (hc : CmdsOk cmds L) (h : Helper) (log : List Entry) (r : HRun cmds (fun h e => e.Timely L h) h log)
    (junk : Nat → Nat) (e : Event) (can : e.Can h) (ht : e.Timely L h) : ∃ h' es, h.step junk e = .ok (h', es) := by
  obtain ⟨H, W⟩ := hrun_ok (fun _ _ hk => hk) hc r
  obtain ⟨h', es, e1, _⟩ := hstep_ok hc H W junk e can ht
  exact ⟨h', es, e1⟩

/-- What the helper does is as it should be: a check starts only when the one before has its result and
the limit allows it, it is good only if its own process ended with status 0, and it has failed only if its own
process ended otherwise or did not end in time. -/
theorem C69_log_partial (cmds : List Cmd) (L : Nat) (hc : CmdsOk cmds L) (h : Helper) (log : List Entry) (r : HRun cmds (fun h e => e.Timely L h) h log) : Fine cmds log :=
  (hrun_ok (fun _ _ hk => hk) hc r).1.fine

/-- The checks of a monitor that were started, and those with a result. -/
def starts (i : Nat) (log : List Entry) : Nat := log.countP fun e => match e with | .start j _ _ => j == i | _ => false
def ends (i : Nat) (log : List Entry) : Nat := log.countP fun e => match e with | .finish j _ _ => j == i | _ => false

/-- Every check has exactly one result, but for the one that runs. -/
theorem C69_once_partial (cmds : List Cmd) (L : Nat) (hc : CmdsOk cmds L) (h : Helper) (log : List Entry) (r : HRun cmds (fun h e => e.Timely L h) h log) (i : Nat) :
    starts i log = ends i log + if (inProg i log).isSome then 1 else 0 := by
  have hf := (hrun_ok (fun _ _ hk => hk) hc r).1.fine
  clear r
  have fin : ∀ (j p t0 t : Nat) (f : Bool) (l : List Entry), inProg j l = some (p, t0) → starts i l = ends i l + (if (inProg i l).isSome then 1 else 0) →
      starts i (.finish j f t :: l) = ends i (.finish j f t :: l) + if (inProg i (.finish j f t :: l)).isSome then 1 else 0 := by
    intro j p t0 t f l hp ih
    unfold starts ends at *
    rw [List.countP_cons, List.countP_cons, ih]
    by_cases hji : j = i
    · subst hji; simp [inProg, hp]
    · simp [inProg, hji]
  induction hf with
  | nil => rfl
  | @start l j p t c _ _ hn _ _ ih =>
    unfold starts ends at *
    rw [List.countP_cons, List.countP_cons, ih]
    by_cases hji : j = i
    · subst hji; simp [inProg, hn]
    · simp [inProg, hji]
  | kill _ _ ih => exact ih
  | reap _ ih => exact ih
  | good _ h2 ih => exact fin _ _ _ _ _ _ h2 ih
  | bad _ h2 ih => exact fin _ _ _ _ _ _ h2 ih
  | late _ h2 _ _ ih => exact fin _ _ _ _ _ _ h2 ih
  | term _ ih => exact ih
  | sent _ ih => exact ih

/-- A check has its result when the timeout is over, and two seconds after a signal to end. -/
theorem C69_time_partial (cmds : List Cmd) (L : Nat) (hc : CmdsOk cmds L) (h : Helper) (log : List Entry) (r : HRun cmds (fun h e => e.Timely L h) h log)
    (i p t0 : Nat) (hp : inProg i log = some (p, t0)) :
    (∃ c, cmds[i]? = some c ∧ h.now ≤ t0 + c.timeout * 10 + L) ∧ ∀ t1, .term t1 ∈ log → h.now ≤ t1 + 20 + L := by
  obtain ⟨H, _⟩ := hrun_ok (fun _ _ hk => hk) hc r
  have hi : i < cmds.length := by
    have := (H.num ▸ rfl : h.numProc = busy cmds.length log)
    have aux : ∀ {l}, Fine cmds l → ∀ i p t, inProg i l = some (p, t) → i < cmds.length := by
      intro l hl
      induction hl with
      | nil => intro i p t h; cases h
      | @start l j q t' c h1 h2 h3 h4 h5 ih =>
        intro i p t h
        have h' : (if j = i then some (q, t') else inProg i l) = some (p, t) := h
        split at h'
        · subst_vars; exact (List.getElem?_eq_some_iff.mp h2).1
        · exact ih i p t h'
      | kill _ _ ih => exact ih
      | reap _ ih => exact ih
      | @good l j q t0 t' h1 h2 ih => intro i p t h; have h' : (if j = i then none else inProg i l) = some (p, t) := h; split at h'; · cases h'
                                      · exact ih i p t h'
      | @bad l j q t0 t' h1 h2 ih => intro i p t h; have h' : (if j = i then none else inProg i l) = some (p, t) := h; split at h'; · cases h'
                                     · exact ih i p t h'
      | @late l j q t0 t' c h1 h2 h3 h4 ih => intro i p t h; have h' : (if j = i then none else inProg i l) = some (p, t) := h; split at h'; · cases h'
                                              · exact ih i p t h'
      | term _ ih => exact ih
      | sent _ ih => exact ih
    exact aux H.fine i p t0 hp
  have hm : h.mons[i]? = some (h.mons[i]'(by rw [H.len]; exact hi)) := List.getElem?_eq_getElem _
  have M := H.mons i _ hm
  have hpend := M.prog
  rw [hp] at hpend
  have hct := M.ct
  rw [hpend] at hct
  obtain ⟨d, hd⟩ := Option.isSome_iff_exists.mp hct
  obtain ⟨a, b, _⟩ := M.ctv p t0 d hp hd
  have hn := M.ctn d hd
  refine ⟨⟨_, M.cmd, by omega⟩, ?_⟩
  intro t1 ht1
  have := b t1 ht1
  omega

/-- If all services have a limit of at most `m` processes, at most `m` checks run at any time. -/
theorem C69_limit_partial (cmds : List Cmd) (L m : Nat) (hc : CmdsOk cmds L) (hm : ∀ c ∈ cmds, 0 < c.maxProc ∧ c.maxProc ≤ m)
    (h : Helper) (log : List Entry) (r : HRun cmds (fun h e => e.Timely L h) h log) : busy cmds.length log ≤ m := by
  have hf := (hrun_ok (fun _ _ hk => hk) hc r).1.fine
  clear r
  have fin : ∀ (j t : Nat) (f : Bool) (l : List Entry), busy cmds.length l ≤ m → busy cmds.length (.finish j f t :: l) ≤ m := by
    intro j t f l ih
    refine Nat.le_trans ?_ ih
    unfold busy
    apply List.countP_mono_left
    intro x _ hx
    have : (if j = x then none else inProg x l).isSome = true := hx
    split at this
    · cases this
    · exact this
  induction hf with
  | nil => rw [busy_nil]; exact Nat.zero_le _
  | @start l j p t c _ hcc hn _ hl ih =>
    obtain ⟨k1, k2⟩ := hm c (List.mem_of_getElem? hcc)
    rw [busy_start _ _ _ _ _ (List.getElem?_eq_some_iff.mp hcc).1 hn]
    have := hl k1
    omega
  | kill _ _ ih => exact ih
  | reap _ ih => exact ih
  | good _ _ ih => exact fin _ _ _ _ ih
  | bad _ _ ih => exact fin _ _ _ _ ih
  | late _ _ _ _ ih => exact fin _ _ _ _ ih
  | term _ ih => exact ih
  | sent _ ih => exact ih

/-- If in addition each process has ended when the next check of its monitor starts, then the end of a
process whose check runs gives the result of the check at once, and only processes of the helper are killed. -/
theorem C69_noticed_partial (cmds : List Cmd) (L : Nat) (hc : CmdsOk cmds L) (h : Helper) (log : List Entry)
    (r : HRun cmds (fun h e => e.Timely L h ∧ e.Reaped h) h log) (i p t0 : Nat) (hp : inProg i log = some (p, t0)) (junk : Nat → Nat) :
    (p, i) ∈ h.procs ∧ ∀ good, ∃ h', h.step junk (.exit p good) = .ok (h', [.finish i (!good) h.now, .reap p good]) := by
  obtain ⟨H, W, B⟩ := brun_ok hc r
  obtain ⟨⟨c, hcc, _⟩, _⟩ := C69_time_partial cmds L hc h log (by
    clear H W B hp
    induction r with
    | init junk now => exact .init junk now
    | step junk e _ a b c d ih => exact .step junk e ih a b c.1 d) i p t0 hp
  have hi : i < h.mons.length := by rw [H.len]; exact (List.getElem?_eq_some_iff.mp hcc).1
  have hm : h.mons[i]? = some h.mons[i] := List.getElem?_eq_getElem hi
  have M := H.mons i _ hm
  have hpend := M.prog
  rw [hp] at hpend
  have hin := B.pend i _ hm (.inl hpend)
  rw [(M.pid p t0 hp).2] at hin
  refine ⟨hin, fun good => ?_⟩
  obtain ⟨m, q1, q2, q3⟩ := B.own p i hin
  obtain ⟨h', es, e1, _, _, hx⟩ := exit_ok hc H W junk p good
  rcases hx with ⟨_, _, k⟩ | ⟨j, mj, m', k1, k2, k3, _, _, _, k4⟩
  · exact absurd ⟨q2, q3⟩ (k i m q1)
  · have hj : j = i := by
      have a := W.cw j mj k1 (by rw [k3]; exact k2)
      rw [k3] at a
      exact W.uniq p j i a hin
    subst hj
    have hmj : mj.pending = true := by rw [hm] at k1; cases k1; exact hpend
    rcases k4 with ⟨k4, _⟩ | ⟨_, k5⟩
    · rw [hmj] at k4; cases k4
    · exact ⟨h', by rw [e1, k5]⟩

/-- A monitor with an interval of 10 seconds. -/
def aCmd (timeout maxProc i : Nat) : Cmd := ⟨i, timeout, 10, maxProc, [[47, 99]], [97]⟩

theorem aCmds_ok (timeout : Nat) (h : timeout < 9) : CmdsOk [aCmd timeout 1 0, aCmd timeout 1 1] 2 := by
  refine ⟨?_, by simp, ?_⟩
  · intro i c hcc
    match i, hcc with
    | 0, hcc => cases hcc; rfl
    | 1, hcc => cases hcc; rfl
    | n + 2, hcc => simp at hcc
  · intro c hcc
    simp only [List.mem_cons, List.not_mem_nil, or_false] at hcc
    rcases hcc with rfl | rfl <;> simp only [aCmd] <;> omega

theorem some_of_any {α : Type} {o : Option α} {p : α → Bool} (h : o.any p = true) : ∃ x, o = some x ∧ p x = true := by
  cases o with
  | none => cases h
  | some x => exact ⟨x, rfl, h⟩

/-- Beside C68 and C69: two monitors with a limit of one process; the second waits for the first, the first
ends well, the second is killed after its timeout, and then the helper is told to end. -/
def aRun : List Event :=
  [.interval 0 100, .interval 1 101, .tick 1, .exit 100 true, .interval 1 101, .write [.good, .again], .tick 50, .timeout 1, .exit 101 false, .term, .write [.intr, .good, .good]]

example : ∃ h log, HRun [aCmd 5 1 0, aCmd 5 1 1] (fun h e => e.Timely 2 h ∧ e.Reaped h) h log ∧ CmdsOk [aCmd 5 1 0, aCmd 5 1 1] 2 ∧
    sents log = [word 0 false, word 1 true, 0xFFFFFFFF] ∧ results log = [(0, false), (1, true)] ∧ h.isOpen = false ∧ h.procs = [] := by
  have hp : (play (fun h e => e.timelyB 2 h && e.reapedB h) (Helper.init (fun _ => 0) [aCmd 5 1 0, aCmd 5 1 1] 0) [] aRun).any (fun x =>
      decide (sents x.2 = [word 0 false, word 1 true, 0xFFFFFFFF] ∧ results x.2 = [(0, false), (1, true)] ∧ x.1.isOpen = false ∧ x.1.procs = [])) = true := by decide +kernel
  obtain ⟨⟨h, log⟩, e1, e2⟩ := some_of_any hp
  replace e2 := of_decide_eq_true e2
  refine ⟨h, log, play_run ?_ aRun (.init (fun _ => 0) 0) e1, aCmds_ok 5 (by omega), e2⟩
  intro h e hb
  rw [Bool.and_eq_true] at hb
  exact ⟨Event.timely_of hb.1, Event.reaped_of hb.2⟩

/-- Without a bound on delays the assertion of the interval timer fails: the helper is held up for two
seconds once, a check then takes its full time, and the next interval comes before its timeout. -/
theorem C69_false_stall : ∃ (cmds : List Cmd) (h : Helper) (log : List Entry) (e : Event), CmdsOk cmds 4 ∧ HRun cmds (fun h e => e.Timely 20 h) h log ∧
    e.Can h ∧ e.Timely 0 h ∧ ∀ junk, h.step junk e = .ub := by
  have hp : (play (fun h e => e.timelyB 20 h) (Helper.init (fun _ => 0) [aCmd 9 0 0] 0) [] [.tick 20, .interval 0 100, .tick 80]).any (fun x =>
      (Event.interval 0 101).canB x.1 && (match x.1.step (fun _ => 0) (.interval 0 101) with | .ub => true | .ok _ => false)) = true := by decide +kernel
  obtain ⟨⟨h, log⟩, e1, e2⟩ := some_of_any hp
  rw [Bool.and_eq_true] at e2
  obtain ⟨e2, e3⟩ := e2
  have e3 : ∀ junk, h.step junk (.interval 0 101) = .ub := by
    intro junk
    show h.step (fun _ => 0) (.interval 0 101) = .ub
    dsimp only at e3
    split at e3
    · assumption
    · cases e3
  refine ⟨[aCmd 9 0 0], h, log, .interval 0 101, ⟨?_, by decide, ?_⟩, play_run (fun _ _ hb => Event.timely_of hb) _ (.init (fun _ => 0) 0) e1, Event.can_of e2, trivial, e3⟩
  · intro i c hcc
    match i, hcc with
    | 0, hcc => cases hcc; rfl
    | n + 1, hcc => simp at hcc
  · intro c hcc
    simp only [List.mem_cons, List.not_mem_nil, or_false] at hcc
    subst hcc
    decide

/-- If a process that was killed has not ended when the next check starts, the end of the next process
goes unnoticed: it ends well at once, and still the check fails at its timeout, with a signal sent to the number
of a process that is no longer a child of the helper. -/
theorem C69_false_stuck : ∃ (cmds : List Cmd) (h : Helper) (l : List Entry) (p t0 t : Nat), CmdsOk cmds 0 ∧
    HRun cmds (fun h e => e.Timely 0 h) h (.finish 0 true t :: .kill p :: .reap p true :: .start 0 p t0 :: l) ∧ (∀ j, (p, j) ∉ h.procs) ∧ t0 + 50 ≤ t := by
  have hp : (play (fun h e => e.timelyB 0 h) (Helper.init (fun _ => 0) [aCmd 5 0 0] 0) []
      [.interval 0 100, .tick 50, .timeout 0, .tick 50, .interval 0 101, .exit 101 true, .tick 50, .timeout 0]).any (fun x =>
      decide (x.2.take 4 = [.finish 0 true 150, .kill 101, .reap 101 true, .start 0 101 100] ∧ x.1.procs = [(100, 0)])) = true := by decide +kernel
  obtain ⟨⟨h, log⟩, e1, e2⟩ := some_of_any hp
  obtain ⟨e2, e3⟩ := of_decide_eq_true e2
  dsimp only at e2 e3
  obtain ⟨l, e2⟩ : ∃ l, log = .finish 0 true 150 :: .kill 101 :: .reap 101 true :: .start 0 101 100 :: l :=
    ⟨log.drop 4, by conv => lhs; rw [← List.take_append_drop 4 log, e2]
                    rfl⟩
  subst e2
  refine ⟨[aCmd 5 0 0], h, l, 101, 100, 150, ⟨?_, by decide, ?_⟩, play_run (fun _ _ hb => Event.timely_of hb) _ (.init (fun _ => 0) 0) e1, ?_, by decide⟩
  · intro i c hcc
    match i, hcc with
    | 0, hcc => cases hcc; rfl
    | n + 1, hcc => simp at hcc
  · intro c hcc
    simp only [List.mem_cons, List.not_mem_nil, or_false] at hcc
    subst hcc
    decide
  · intro j hj
    rw [e3] at hj
    simp at hj

/-! ### The daemon -/

/-- No assertion of the plugin fails, whatever the helper sends and however late callbacks are. -/
theorem C70_safe (kill : Bool) (mons : List DMon) (L : Nat) (d : Daemon) (log : List DEntry) (r : DRun kill mons (fun d e => e.Timely L d) d log)
    (e : DEvent) (can : e.Can d) : ∃ d' es, d.step e = .ok (d', es) := by
  have D := drun_ok r
  cases e with
  | tick k => exact ⟨_, _, rfl⟩
  | read l => obtain ⟨d', es, h, _⟩ := dstep_ok D (.read l) can trivial; exact ⟨d', es, h⟩
  | timeout i => obtain ⟨d', es, h, _⟩ := dstep_ok D (.timeout i) can trivial; exact ⟨d', es, h⟩
  | start => obtain ⟨d', es, h, _⟩ := dstep_ok D .start can trivial; exact ⟨d', es, h⟩

/-- The daemon's start goes on exactly when every monitor has been updated, or the helper has failed. -/
theorem C70_initial (kill : Bool) (mons : List DMon) (L : Nat) (d : Daemon) (log : List DEntry) (r : DRun kill mons (fun d e => e.Timely L d) d log)
    (hi : d.initPhase = true) : d.Idle ↔ d.dead = true ∨ ∀ i, i < mons.length → wasSeen i log = true := by
  have D := drun_ok r
  have hall : d.dead = false → ∀ (i : Nat) m, d.mons[i]? = some m → m.timer.isSome = !(wasSeen i log) := by
    intro hd i m hm
    rw [(D.first hi hd).2.2 i m hm, D.seen hi i m hm]
  constructor
  · intro hidle
    cases hd : d.dead with
    | true => exact .inl rfl
    | false =>
      refine .inr fun i hlt => ?_
      rw [← D.len] at hlt
      have hm := List.getElem?_eq_getElem hlt
      have := hall hd i _ hm
      rw [hidle.2 _ (List.mem_of_getElem? hm)] at this
      cases h : wasSeen i log with
      | true => rfl
      | false => rw [h] at this; cases this
  · intro h
    cases hd : d.dead with
    | true => exact D.dead hd
    | false =>
      rcases h with h | h
      · rw [hd] at h; cases h
      · obtain ⟨f1, f2, f3⟩ := D.first hi hd
        refine ⟨?_, ?_⟩
        · rw [f2, f1]
          have : d.mons.countP (·.seen) = d.mons.length := by
            rw [List.countP_eq_length]
            intro m hm
            obtain ⟨i, hlt, rfl⟩ := List.getElem_of_mem hm
            rw [D.seen hi i _ (List.getElem?_eq_getElem hlt)]
            exact h i (by rw [← D.len]; exact hlt)
          rw [this]
          simp
        · intro m hm
          obtain ⟨i, hlt, rfl⟩ := List.getElem_of_mem hm
          have := hall hd i _ (List.getElem?_eq_getElem hlt)
          rw [h i (by rw [← D.len]; exact hlt)] at this
          cases hx : (d.mons[i]).timer with
          | none => rfl
          | some x => rw [hx] at this; cases this

/-- While the helper has not failed, a monitor is never without an update, by the helper or else by the
plugin, for more than twice its interval and timeout: in the second phase, and in the first until the monitor
is updated once. So the daemon's start ends, and no result stays in use for ever when the helper hangs. -/
theorem C70_fresh (kill : Bool) (mons : List DMon) (L : Nat) (d : Daemon) (log : List DEntry) (r : DRun kill mons (fun d e => e.Timely L d) d log)
    (hd : d.dead = false) (i : Nat) (m : DMon) (hm : mons[i]? = some m) (hi : d.initPhase = false ∨ wasSeen i log = false) :
    d.now ≤ lastTime i log + (m.timeout + m.interval) * 20 + L ∧ d.readOn = true := by
  have D := drun_ok r
  have hlt : i < d.mons.length := by rw [D.len]; exact (List.getElem?_eq_some_iff.mp hm).1
  have hg := List.getElem?_eq_getElem hlt
  obtain ⟨m0, k1, k2, k3, _⟩ := D.like i _ hg
  rw [hm] at k1
  cases k1
  have hsome : (d.mons[i]).timer ≠ none ∧ d.readOn = true := by
    cases hp : d.initPhase with
    | false =>
      obtain ⟨r1, r2⟩ := D.run hp hd
      exact ⟨r2 _ (List.mem_of_getElem? hg), r1⟩
    | true =>
      rcases hi with hi | hi
      · rw [hp] at hi; cases hi
      · obtain ⟨f1, f2, f3⟩ := D.first hp hd
        have hs : (d.mons[i]).seen = false := by rw [D.seen hp i _ hg, hi]
        have := f3 i _ hg
        rw [hs] at this
        refine ⟨?_, ?_⟩
        · intro hc; rw [hc] at this; cases this
        · rw [f2, f1]
          have : d.mons.countP (·.seen) < d.mons.length := by
            apply Nat.lt_of_le_of_ne List.countP_le_length
            intro hc
            rw [List.countP_eq_length] at hc
            have := hc _ (List.mem_of_getElem? hg)
            rw [hs] at this; cases this
          simp [this]
  refine ⟨?_, hsome.2⟩
  obtain ⟨t, ht⟩ := Option.ne_none_iff_exists'.mp hsome.1
  obtain ⟨a, b⟩ := D.timer i _ t hg ht
  unfold DMon.period at a
  rw [k2, k3] at a
  omega

/-- After the helper has failed, the states of the monitors stay as they are. -/
theorem C70_stasis (kill : Bool) (mons : List DMon) (L : Nat) (d : Daemon) (log : List DEntry) (r : DRun kill mons (fun d e => e.Timely L d) d log)
    (hd : d.dead = true) (e : DEvent) (can : e.Can d) (d' : Daemon) (es : List DEntry) (hs : d.step e = .ok (d', es)) : es = [] ∧ d'.dead = true := by
  have D := drun_ok r
  obtain ⟨h1, h2⟩ := D.dead hd
  cases e with
  | tick k => cases hs; exact ⟨rfl, hd⟩
  | read l => have : d.readOn = true := can; rw [h1] at this; cases this
  | timeout i =>
    obtain ⟨m, t, hm, ht, _⟩ := can
    have := h2 m (List.mem_of_getElem? hm)
    rw [ht] at this; cases this
  | start =>
    unfold Daemon.step at hs
    dsimp only at hs
    rw [if_neg (by rw [hd]; simp)] at hs
    cases hs
    exact ⟨rfl, hd⟩

/-- Beside C70 and C68: the results of the run above; the second monitor is silent in the first phase and
updated by the plugin, and the helper ends. -/
def aMons : List DMon := [⟨5, 10, false, 7, none, false⟩, ⟨5, 10, true, 9, none, false⟩]
def aDRun : List DEvent := [.tick 2, .read [.word (word 0 false), .again], .tick 300, .timeout 1, .start, .tick 3, .read [.word (word 1 true), .word 0xFFFFFFFF]]

example : ∃ d log, DRun false aMons (fun d e => e.Timely 3 d) d log ∧ d.dead = true ∧ d.initPhase = false ∧
    gots log = [word 0 false, word 1 true, 0xFFFFFFFF] ∧ updates log = [(0, 7, .state true), (1, 9, .sttl true)] := by
  have hp : (dplay 3 (Daemon.init false aMons 0) [.begin 0] aDRun).any (fun x => decide (x.1.dead = true ∧ x.1.initPhase = false ∧
      gots x.2 = [word 0 false, word 1 true, 0xFFFFFFFF] ∧ updates x.2 = [(0, 7, .state true), (1, 9, .sttl true)])) = true := by decide +kernel
  obtain ⟨⟨d, log⟩, e1, e2⟩ := some_of_any hp
  replace e2 := of_decide_eq_true e2
  exact ⟨d, log, dplay_run aDRun (.init 0) e1, e2⟩

end Gdnsd.Extmon
