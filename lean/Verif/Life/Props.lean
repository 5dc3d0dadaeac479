/-
C112: what `gdnsd daemonize` tells. C113: the end of child processes. C114: the limit of open files.
-/
import Verif.Life.Daemon
import Verif.Life.Child
namespace Gdnsd.Life
open LifeSpec
open Take (Eff)

/-! ### C112 -/

/-- Whatever fails, whichever process is killed when, and in whatever order they go on: if the first process ends with 0 then the daemon has told that it is ready. -/
theorem C112_sound {main : List Eff} {ign : Bool} {l : List Ev} {s : Sys} (h : run main ign Sys.init l = some s) (h0 : s.fg = .exit 0) : s.did <+: main ∧ .ready ∈ s.did :=
  let i := run_inv (init_inv main) h
  ⟨i.pre, i.zero h0⟩

/-- If the first process ends with another status then no daemon runs, and none has told that it is ready, as long as nobody kills one of the first two processes and SIGCHLD is not ignored from
the start. -/
theorem C112_failed_partial {main : List Eff} {l : List Ev} {s : Sys} {n : Nat} (h : run main false Sys.init l = some s) (hl : Left l) (hf : s.fg = .exit n) (hn : n ≠ 0) :
    NoDaemon s ∧ .ready ∉ s.did :=
  let c := (run_calm (init_inv main) init_calm hl h).fails n hf hn
  ⟨c.1, c.2.1⟩

/-- The first process does not wait for ever: no run is longer than the work of the daemon and 11 steps, and where no process can go on the first one has ended. -/
theorem C112_ends {e : Take.Env} {ign : Bool} {l : List Ev} {s : Sys} (h : run (Take.main e).1 ign Sys.init l = some s) :
    l.length ≤ (Take.main e).1.length + 11 ∧
    (step (Take.main e).1 ign s (.fg true) = none → step (Take.main e).1 ign s (.mid true) = none → step (Take.main e).1 ign s (.dmn true) = none → ∃ n, s.fg = .exit n) := by
  constructor
  · have := run_size (init_inv _) h
    simp only [size, Sys.init, fgSize, midSize, dmnSize] at this
    omega
  · exact stuck (run_inv (init_inv _) h) (main_tells' e)

/-- A daemon does not become ready once the first process has ended without having been told, so that nothing runs behind the back of who interrupted it. -/
theorem C112_orphan {main : List Eff} {ign : Bool} {l l' : List Ev} {s s' : Sys} {n : Nat} (h : run main ign Sys.init l = some s) (hf : s.fg = .exit n) (hr : .ready ∉ s.did)
    (h' : run main ign s l' = some s') : .ready ∉ s'.did :=
  orphan_run (run_inv (init_inv main) h) hf hr h'

/-- False of the code: with `-i` and another daemon running, `start` ends with 0 but `daemonize` never does. -/
theorem C112_false_idempotent {e : Take.Env} (hc : e.check = false) (hr : e.replace = false) (hi : e.idem = true) (hp : e.paths = true) (hs : e.socks = true) (hl : e.lock1 = .busy) :
    (Take.main e).1 = [.busy, .exit 0] ∧ ∀ ign l s, run (Take.main e).1 ign Sys.init l = some s → s.fg ≠ .exit 0 := by
  have hm := (Take.C103_idempotent hc hr hi hp hs).2 hl
  refine ⟨hm, fun ign l s h h0 => ?_⟩
  obtain ⟨h1, h2⟩ := C112_sound h h0
  have := h1.subset h2
  rw [hm] at this
  simp at this

/-- False of the code in general: when SIGCHLD is ignored from the start, the first process fails although the daemon is ready and runs. -/
theorem C112_false_sigchld : ∃ l s, Left l ∧ run [.threads, .ready, .serve] true Sys.init l = some s ∧ s.fg = .exit 42 ∧ .serve ∈ s.did ∧ s.dmn = .run [] false := by
  refine ⟨[.fg true, .fg true, .mid true, .mid true, .mid true, .mid true, .mid true, .dmn true, .dmn true, .dmn true, .dmn true, .fg true], _, ⟨by decide, by decide⟩, rfl, ?_⟩
  decide

/-- With the same events and SIGCHLD at its default, it goes on to wait and then ends with 0. -/
example : (run [.threads, .ready, .serve] false Sys.init
    [.fg true, .fg true, .mid true, .mid true, .mid true, .mid true, .mid true, .dmn true, .dmn true, .dmn true, .dmn true, .fg true, .fg true]).map (·.fg) = some (.exit 0) := by decide +kernel

/-- A daemon that fails. -/
example : (run [.busy, .exit 42] false Sys.init
    [.fg true, .fg true, .mid true, .mid true, .mid true, .mid true, .mid true, .dmn true, .dmn true, .dmn true, .fg true, .fg true]).map (·.fg) = some (.exit 42) := by decide +kernel

/-- One whose first process is killed before. -/
example : (run [.threads, .ready, .serve] false Sys.init
    [.fg true, .fg true, .mid true, .mid true, .mid true, .mid true, .mid true, .dmn true, .dmn true, .killFg, .dmn true]).map (·.dmn) = some (.exit 42) := by decide +kernel

/-! ### C113 -/

/-- Each child gets one SIGTERM, and after ten seconds those that were there all the time, and no others, get SIGKILL. -/
theorem C113_signals {w : World} {cs : List Nat} (h0 : 0 ∉ cs) : (killAll w cs).1 =
    cs.map (fun p => ⟨0, p, .term, w 0 p⟩) ++ (cs.filter (stays w 1000)).map fun p => ⟨1000, p, .kill, w 1000 p⟩ := by
  unfold killAll
  split
  · rename_i h
    rw [h]
    rfl
  · obtain ⟨k, h1, h2, h3, h4⟩ := await_spec w 1000 0 cs
    rw [remaining_all h0] at h2
    rw [h2]
    dsimp only
    have hk : k ≠ 1000 → cs.filter (stays w 1000) = [] := by
      intro hne
      have hz := h3.resolve_left hne
      rw [remaining_upto h0] at hz
      have hz := List.eq_nil_of_length_eq_zero hz
      rw [List.filter_eq_nil_iff] at hz ⊢
      exact fun p hp hs => hz p hp (stays_le h1 hs)
    split
    · rename_i hr
      by_cases hne : k = 1000
      · subst hne
        rw [remaining_upto h0] at hr
        rw [List.eq_nil_of_length_eq_zero hr]
        simp
      · rw [hk hne]
        simp
    · rename_i hr
      have hne : k = 1000 := h3.resolve_right hr
      subst hne
      rw [upto_filter h0, Nat.zero_add]

/-- It takes 15 seconds at most; and it ends as soon as all have been seen to be gone. -/
theorem C113_time {w : World} {cs : List Nat} : (killAll w cs).2 ≤ 1500 ∧
    (0 ∉ cs → ∀ n ≤ 1000, (∀ p ∈ cs, stays w n p = false) → (killAll w cs).2 ≤ n) := by
  unfold killAll
  split
  · exact ⟨Nat.zero_le _, fun _ _ _ _ => Nat.zero_le _⟩
  · constructor
    · have h1 := await_time w 1000 0 cs.length cs
      dsimp only
      split
      · omega
      · exact Nat.le_trans (await_time w 500 _ _ _) (by omega)
    · intro h0 n hn hp
      obtain ⟨k, h1, h2, h3, h4⟩ := await_spec w 1000 0 cs
      rw [remaining_all h0] at h2
      rw [h2]
      dsimp only
      have hz : ∀ m, n ≤ m → remaining (upto w 0 m cs) = 0 := by
        intro m hm
        rw [remaining_upto h0, List.length_eq_zero_iff, List.filter_eq_nil_iff]
        intro p hp' hs
        have := stays_le hm hs
        rw [hp p hp'] at this
        cases this
      have hkn : k ≤ n := by
        apply Nat.le_of_not_lt
        intro hlt
        exact h4 n hlt (hz n (Nat.le_refl _))
      have : remaining (upto w 0 k cs) = 0 := by
        rcases h3 with h3 | h3
        · exact hz k (by omega)
        · exact h3
      rw [if_pos this]
      omega

/-- As long as the numbers belong to the children, no other process gets a signal. -/
theorem C113_own_partial {w : World} {own cs : List Nat} (h0 : 0 ∉ cs) (h : Own w own cs) : ∀ x ∈ (killAll w cs).1, ∀ q, x.to = some q → q ∈ own := by
  rw [C113_signals h0]
  intro x hx q hq
  rcases List.mem_append.mp hx with hx | hx
  · obtain ⟨p, hp, rfl⟩ := List.mem_map.mp hx
    exact h p hp 0 q hq
  · obtain ⟨p, hp, rfl⟩ := List.mem_map.mp hx
    exact h p (List.mem_filter.mp hp).1 1000 q hq

/-- False of the code in general: the number of a child that has ended while the daemon ran stays registered; when another process has got it, that one gets SIGTERM,
and later SIGKILL. -/
theorem C113_false_reused {p q : Nat} (hp : p ≠ 0) (w : World) (h : ∀ t, w t p = some q) :
    ⟨0, p, .term, some q⟩ ∈ (killAll w [p]).1 ∧ ⟨1000, p, .kill, some q⟩ ∈ (killAll w [p]).1 := by
  have hs : stays w 1000 p = true := stays_iff.mpr fun i _ => by rw [h]; rfl
  rw [C113_signals (by simpa using Ne.symm hp)]
  simp [hs, h]

/-- Two children of which one ends in the third round. -/
def worldEx : World := fun t p => if p = 7 then if t < 3 then some 70 else none else if p = 8 then some 80 else none

example : (killAll worldEx [7, 8]).1 = [⟨0, 7, .term, some 70⟩, ⟨0, 8, .term, some 80⟩, ⟨1000, 8, .kill, some 80⟩] := by
  rw [C113_signals (by decide)]
  decide +kernel
example : killAll worldEx [7] = ([⟨0, 7, .term, some 70⟩], 3) := by decide +kernel
example : Own worldEx [70, 80] [7, 8] := by
  intro p hp t q h
  simp only [List.mem_cons, List.not_mem_nil, or_false] at hp
  rcases hp with rfl | rfl
  · simp only [worldEx, if_pos] at h
    split at h
    · cases h; simp
    · cases h
  · simp [worldEx] at h
    simp [← h]

/-! ### C114 -/

/-- The limit of open files is never lowered, stays within the hard limit and reaches what is wanted, or else the hard limit, in which case there is a warning. The hard limit stays. -/
theorem C114_limit {want : Nat} {r : Rlim} (h : le r.cur r.max) : let r' := (raise want r).1.getD r
    r'.max = r.max ∧ le r.cur r'.cur ∧ le r'.cur r'.max ∧ (le (some want) r'.cur ∨ r'.cur = r.max) ∧ (r' = r ∨ le r'.cur (some want)) ∧
    ((raise want r).2 = true ↔ ¬ le (some want) r'.cur) := by
  obtain ⟨c, m⟩ := r
  cases c with
  | none => cases m <;> simp [raise, le] at *
  | some c =>
    cases m with
    | none =>
      by_cases hc : c < want
      · simp [raise, hc, le]; omega
      · simp [raise, hc, le]; omega
    | some m =>
      simp only [le] at h
      by_cases hc : c < want
      · by_cases hm : m > c
        · by_cases hw : m ≥ want
          · simp [raise, hc, hm, hw, le]; omega
          · simp [raise, hc, hm, hw, le]; omega
        · simp [raise, hc, hm, le]; omega
      · simp [raise, hc, le]; omega

example : raise 500 ⟨some 256, some 400⟩ = (some ⟨some 400, some 400⟩, true) := by decide
example : raise 500 ⟨some 256, none⟩ = (some ⟨some 500, none⟩, false) := by decide

end Gdnsd.Life
