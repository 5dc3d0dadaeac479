/-
C120: the threads of listeners start and stop in order.
-/
import Verif.Threads.Live
namespace Gdnsd.Threads
open ThreadsSpec

/-- Nothing undefined happens, however threads are scheduled: the arrays for statistics and for the registry are large enough, all threads for TCP are registered when they are told to stop, and no loop is told that is destroyed. -/
theorem C120_safe (c : Cfg) (s : St) (h : Reach c s) (e : Ev) : step c s e ≠ .ub := by
  obtain ⟨r, h1, -⟩ := inv_step (reach_inv h) e
  rw [h1]
  intro h
  cases h

/-- From the time the daemon tells that it is ready until it is asked to stop, all threads serve. -/
theorem C120_ready (c : Cfg) (s : St) (h : Reach c s) (hm : s.main = .ready ∨ s.main = .run) (i : Nat) (hi : i < c.n) : Up (s.pc i) := by
  have hv := reach_inv h
  have h4 := hv.up (by rcases hm with h | h <;> rw [h] <;> rfl) i hi
  have h6 : ¬ 6 ≤ rank (s.pc i) := fun h6 => by
    have := hv.told i (hv.left i h6)
    rcases hm with h | h <;> rw [h] at this <;> cases this
  unfold Up
  cases hp : s.pc i <;> simp [hp, rank] at h4 h6 ⊢

/-- Statistics of each thread are stored once, and once the daemon has told that it is ready those of all threads are there. -/
theorem C120_stats (c : Cfg) (s : St) (h : Reach c s) : s.stats.Nodup ∧ (∀ i ∈ s.stats, i < c.n) ∧ (Told s.main → ∀ i, i < c.n → i ∈ s.stats) := by
  have hv := reach_inv h
  refine ⟨hv.statsN, ?_, ?_⟩
  · intro i hi
    have h4 := (hv.statsM i).mp hi
    rcases Nat.lt_or_ge i c.n with h | h
    · exact h
    · have := (hv.unborn i).mpr (Nat.le_trans hv.le h)
      rw [this] at h4
      simp [rank] at h4
  · intro ht i hi
    rw [hv.statsM]
    refine hv.up ?_ i hi
    cases hm : s.main <;> rw [hm] at ht <;> first | rfl | cases ht

/-- No thread stops serving, or is told to, before the daemon was asked to stop. -/
theorem C120_serves (c : Cfg) (s : St) (h : Reach c s) (i : Nat) (hi : Stopped (s.pc i) ∨ s.told i = true) : Stopping s.main := by
  have hv := reach_inv h
  have ht : s.told i = true := by
    rcases hi with hi | hi
    · refine hv.left i ?_
      rcases hi with h | h | h <;> simp [h, rank]
    · exact hi
  have := hv.told i ht
  cases hm : s.main <;> rw [hm] at this <;> first | trivial | cases this

/-- When the main thread waits for the end of threads, each was told to stop; a thread ends only if it was told. -/
theorem C120_told (c : Cfg) (s : St) (h : Reach c s) : (∀ k, s.main = .join k → ∀ i, i < c.n → s.told i = true) ∧ ∀ i, Stopped (s.pc i) → s.told i = true := by
  have hv := reach_inv h
  constructor
  · intro k hm i hi
    have htc := hv.tcpT
    have hud := hv.udpT
    rw [hm] at htc hud
    cases hc : c.tcp i with
    | true => exact htc rfl i hi hc
    | false => exact hud i hi hi hc
  · intro i hi
    refine hv.left i ?_
    rcases hi with h | h | h <;> simp [h, rank]

/-- When statistics are given to the successor, all threads have ended, and the registry is empty. -/
theorem C120_final (c : Cfg) (s : St) (h : Reach c s) (hm : s.main = .final) : (∀ i, i < c.n → s.pc i = .gone) ∧ ∀ x ∈ s.reg, x.2 = false := by
  have hv := reach_inv h
  have hj := hv.joinG
  rw [hm] at hj
  have hg : ∀ i, i < c.n → s.pc i = .gone := fun i hi => hj i hi hi
  refine ⟨hg, ?_⟩
  intro x hx
  rw [hv.regB x hx]
  have h3 := (hv.regM x.1).mp (List.mem_map.mpr ⟨x, hx, rfl⟩)
  have hi : x.1 < c.n := by
    rcases Nat.lt_or_ge x.1 c.n with h | h
    · exact h
    · have := (hv.unborn x.1).mpr (Nat.le_trans hv.le h)
      rw [this] at h3
      simp [rank] at h3
  simp [hg x.1 hi, rank]

/-- Nothing is ever stuck: if no thread can go on, the daemon is up and was not asked to stop, or has stopped. -/
theorem C120_not_stuck (c : Cfg) (s : St) (h : Reach c s) (hs : Stuck c s) : s.main = .run ∨ s.main = .final := stuck (reach_inv h) hs

/-- Starting and stopping takes a bounded number of steps, however threads are scheduled, if waits do not end for no reason. -/
theorem C120_bounded (c : Cfg) (s s' : St) (k : Nat) (h : Reach c s) (hk : Steps c k s s') : k ≤ 19 * c.n + 8 := by
  have hv := reach_inv h
  have h1 := steps_weight hk hv
  have h2 := todo_le s.pc c.n
  have h3 : rest c.n s.main ≤ 3 * c.n + 8 := by
    cases hm : s.main <;> simp only [rest] <;> omega
  unfold weight at h1
  omega

/-! A case that meets the hypotheses: one thread for UDP and one for TCP, started and stopped. -/

def exCfg : Cfg := ⟨2, fun i => i = 1⟩

def exRun (c : Cfg) : St → List Ev → Outcome (Option St)
  | s, [] => .ok (some s)
  | s, e :: es =>
    match step c s e with
    | .ok (some s') => exRun c s' es
    | r => r

theorem exRun_reach {c : Cfg} : ∀ (es : List Ev) {s s' : St}, Reach c s → exRun c s es = .ok (some s') → Reach c s'
  | [], _, _, h, he => by cases he; exact h
  | e :: es, s, s', h, he => by
    unfold exRun at he
    split at he
    · rename_i hs
      exact exRun_reach es (.step e h hs) he
    · rename_i r hr
      exact absurd he (hr s')

def exStart : List Ev := [.main, .main, .thread 0, .main, .main, .thread 1, .thread 0, .main, .thread 1, .thread 1, .thread 1, .main, .main]
def exStop : List Ev := [.stop, .main, .thread 1, .main, .main, .main, .thread 0, .thread 0, .main, .thread 1, .thread 1, .main, .main]

/-- The fields that can be compared. -/
def view (r : Outcome (Option St)) : Option (Main × List Pc × List (Nat × Bool) × List Nat) :=
  match r with
  | .ok (some s) => some (s.main, [s.pc 0, s.pc 1], s.reg, s.stats)
  | _ => none

example : view (exRun exCfg init exStart) = some (.run, [.running, .running], [(1, true)], [0, 1]) := by decide +kernel
example : view (exRun exCfg init (exStart ++ exStop)) = some (.final, [.gone, .gone], [(1, false)], [0, 1]) := by decide +kernel

end Gdnsd.Threads
