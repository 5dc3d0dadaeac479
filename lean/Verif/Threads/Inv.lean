/-
An invariant of starting and stopping threads.
-/
import Verif.Threads.Spec
namespace Gdnsd.Threads
open ThreadsSpec

def rank : Pc → Nat
  | .unborn => 0 | .born => 1 | .listens => 2 | .registered => 3 | .counted => 4 | .running => 5 | .left => 6 | .unregistered => 7 | .gone => 8

/-- How many threads are started. -/
def started (n : Nat) : Main → Nat
  | .spawn k => k
  | _ => n

/-- All threads serve. -/
def late : Main → Bool
  | .spawn _ | .check | .wait => false
  | _ => true

/-- Threads for TCP are told to stop. -/
def past : Main → Bool
  | .udpStop _ | .join _ | .final => true
  | _ => false

/-- Threads for UDP that are told to stop. -/
def udpTold (n : Nat) : Main → Nat
  | .udpStop k => k
  | .join _ | .final => n
  | _ => 0

def joined (n : Nat) : Main → Nat
  | .join k => k
  | .final => n
  | _ => 0

structure Inv (c : Cfg) (s : St) : Prop where
  le : started c.n s.main ≤ c.n
  unborn : ∀ i, s.pc i = .unborn ↔ started c.n s.main ≤ i
  statsN : s.stats.Nodup
  statsM : ∀ i, i ∈ s.stats ↔ 4 ≤ rank (s.pc i)
  regN : (s.reg.map Prod.fst).Nodup
  regM : ∀ i, i ∈ s.reg.map Prod.fst ↔ c.tcp i = true ∧ 3 ≤ rank (s.pc i)
  regB : ∀ x ∈ s.reg, x.2 = decide (rank (s.pc x.1) ≤ 6)
  kind : ∀ i, c.tcp i = false → s.pc i ≠ .listens ∧ s.pc i ≠ .registered ∧ s.pc i ≠ .unregistered
  left : ∀ i, 6 ≤ rank (s.pc i) → s.told i = true
  told : ∀ i, s.told i = true → past s.main = true
  tcpT : past s.main = true → ∀ i, i < c.n → c.tcp i = true → s.told i = true
  udpT : ∀ i, i < udpTold c.n s.main → i < c.n → c.tcp i = false → s.told i = true
  joinG : ∀ i, i < joined c.n s.main → i < c.n → s.pc i = .gone
  up : late s.main = true → ∀ i, i < c.n → 4 ≤ rank (s.pc i)
  waitW : s.main = .wait → ∃ i, i < c.n ∧ rank (s.pc i) < 5

theorem inv_init (c : Cfg) : Inv c init := by
  constructor <;> simp [init, started, rank, past, udpTold, joined, late]

/-- A thread goes on. -/
theorem inv_goto {c : Cfg} {s s' : St} {i : Nat} {p : Pc} (h : Inv c s) (hi : i < c.n) (hb : s.pc i ≠ .unborn) (hr : rank (s.pc i) < rank p)
    (hpc : s'.pc = fun x => if x = i then p else s.pc x) (ht : s'.told = s.told) (hm : s'.main = s.main ∨ (s.main = .wait ∧ s'.main = .check)) (hw : 5 ≤ rank p → s'.main ≠ .wait)
    (hl : 6 ≤ rank p → s.told i = true) (hk : c.tcp i = false → p ≠ .listens ∧ p ≠ .registered ∧ p ≠ .unregistered)
    (sN : s'.stats.Nodup) (sM : ∀ x, x ∈ s'.stats ↔ 4 ≤ rank (s'.pc x))
    (rN : (s'.reg.map Prod.fst).Nodup) (rM : ∀ x, x ∈ s'.reg.map Prod.fst ↔ c.tcp x = true ∧ 3 ≤ rank (s'.pc x))
    (rB : ∀ x ∈ s'.reg, x.2 = decide (rank (s'.pc x.1) ≤ 6)) : Inv c s' := by
  have e1 : started c.n s'.main = started c.n s.main := by rcases hm with h | ⟨h1, h2⟩ <;> simp [*, started]
  have e2 : past s'.main = past s.main := by rcases hm with h | ⟨h1, h2⟩ <;> simp [*, past]
  have e3 : udpTold c.n s'.main = udpTold c.n s.main := by rcases hm with h | ⟨h1, h2⟩ <;> simp [*, udpTold]
  have e4 : joined c.n s'.main = joined c.n s.main := by rcases hm with h | ⟨h1, h2⟩ <;> simp [*, joined]
  have e5 : late s'.main = late s.main := by rcases hm with h | ⟨h1, h2⟩ <;> simp [*, late]
  have hp : p ≠ .unborn := by rintro rfl; simp [rank] at hr
  have v : ∀ x, s'.pc x = if x = i then p else s.pc x := fun x => by rw [hpc]
  refine ⟨by rw [e1]; exact h.le, ?_, sN, sM, rN, rM, rB, ?_, ?_, ?_, ?_, ?_, ?_, ?_, ?_⟩
  · intro x
    rw [e1, v, ← h.unborn x]
    split
    · rename_i hx
      subst hx
      simp [hp, hb]
    · rfl
  · intro x hx
    rw [v]
    split
    · rename_i he; subst he; exact hk hx
    · exact h.kind x hx
  · intro x
    rw [v, ht]
    split
    · rename_i he; subst he; exact hl
    · exact h.left x
  · intro x; rw [ht, e2]; exact h.told x
  · rw [e2, ht]; exact h.tcpT
  · rw [e3, ht]; exact h.udpT
  · intro x
    rw [e4, v]
    intro h1 h2
    have hg := h.joinG x h1 h2
    split
    · rename_i he
      subst he
      rw [hg] at hr
      cases p <;> simp [rank] at hr
    · exact hg
  · rw [e5]
    intro h1 x h2
    have := h.up h1 x h2
    rw [v]
    split
    · rename_i he; subst he; omega
    · exact this
  · intro hw'
    have hs : s.main = .wait := by
      rcases hm with h | ⟨h1, h2⟩
      · rw [← h]; exact hw'
      · exact h1
    have h5 : rank p < 5 := by
      rcases Nat.lt_or_ge (rank p) 5 with h | h
      · exact h
      · exact absurd hw' (hw h)
    obtain ⟨x, hx1, hx2⟩ := h.waitW hs
    refine ⟨x, hx1, ?_⟩
    rw [v]
    split
    · exact h5
    · exact hx2

theorem stats_lt {c : Cfg} {s : St} (h : Inv c s) {i : Nat} (hi : i < c.n) (hr : rank (s.pc i) < 4) : s.stats.length < c.n := by
  have hn : i ∉ s.stats := fun hm => by have := (h.statsM i).mp hm; omega
  have := (List.nodup_cons.mpr ⟨hn, h.statsN⟩).length_le_of_subset (l₂ := List.range c.n) (by
    intro x hx
    rw [List.mem_range]
    rcases List.mem_cons.mp hx with rfl | hx
    · exact hi
    · have h4 := (h.statsM x).mp hx
      rcases Nat.lt_or_ge x c.n with h' | h'
      · exact h'
      · have := (h.unborn x).mpr (Nat.le_trans h.le h')
        rw [this] at h4
        simp [rank] at h4)
  simp at this
  omega

theorem reg_lt {c : Cfg} {s : St} (h : Inv c s) {i : Nat} (hi : i < c.n) (ht : c.tcp i = true) (hr : rank (s.pc i) < 3) : s.reg.length < c.size := by
  have hn : i ∉ s.reg.map Prod.fst := fun hm => by have := (h.regM i).mp hm; omega
  have := (List.nodup_cons.mpr ⟨hn, h.regN⟩).length_le_of_subset (l₂ := (List.range c.n).filter c.tcp) (by
    intro x hx
    rw [List.mem_filter, List.mem_range]
    rcases List.mem_cons.mp hx with rfl | hx
    · exact ⟨hi, ht⟩
    · have h4 := (h.regM x).mp hx
      refine ⟨?_, h4.1⟩
      rcases Nat.lt_or_ge x c.n with h' | h'
      · exact h'
      · have := (h.unborn x).mpr (Nat.le_trans h.le h')
        rw [this] at h4
        simp [rank] at h4)
  simp at this
  unfold Cfg.size
  omega

/-- The registry and the statistics do not change. -/
theorem same_stats {c : Cfg} {s : St} (h : Inv c s) {i : Nat} {p : Pc} (he : 4 ≤ rank p ↔ 4 ≤ rank (s.pc i)) (x : Nat) :
    x ∈ s.stats ↔ 4 ≤ rank (if x = i then p else s.pc x) := by
  rw [h.statsM]
  split
  · rename_i hx; subst hx; exact he.symm
  · rfl

theorem same_reg {c : Cfg} {s : St} (h : Inv c s) {i : Nat} {p : Pc} (he : c.tcp i = false ∨ (3 ≤ rank p ↔ 3 ≤ rank (s.pc i))) (x : Nat) :
    x ∈ s.reg.map Prod.fst ↔ c.tcp x = true ∧ 3 ≤ rank (if x = i then p else s.pc x) := by
  rw [h.regM]
  split
  · rename_i hx; subst hx
    rcases he with he | he
    · simp [he]
    · rw [he]
  · rfl

theorem same_flag {c : Cfg} {s : St} (h : Inv c s) {i : Nat} {p : Pc} (he : c.tcp i = false ∨ (rank p ≤ 6 ↔ rank (s.pc i) ≤ 6)) :
    ∀ x ∈ s.reg, x.2 = decide (rank (if x.1 = i then p else s.pc x.1) ≤ 6) := by
  intro x hx
  rw [h.regB x hx]
  split
  · rename_i hxi
    subst hxi
    rcases he with he | he
    · have := (h.regM x.1).mp (List.mem_map.mpr ⟨x, hx, rfl⟩)
      rw [he] at this
      cases this.1
    · simp [he]
  · rfl

theorem inv_store {c : Cfg} {s : St} (h : Inv c s) {i : Nat} (hi : i < c.n) (hb : s.pc i ≠ .unborn) (hr : rank (s.pc i) < 4) (ht : c.tcp i = false ∨ 3 ≤ rank (s.pc i)) :
    ∃ s', store c s i = .ok s' ∧ Inv c s' := by
  have hlt := stats_lt h hi hr
  refine ⟨_, by unfold store; rw [if_pos hlt], ?_⟩
  have hn : i ∉ s.stats := fun hm => by have := (h.statsM i).mp hm; omega
  refine inv_goto (p := .counted) h hi hb (by simpa [rank] using hr) rfl rfl (.inl rfl) (by simp [rank]) (by simp [rank]) (by simp) ?_ ?_ h.regN ?_ ?_
  · simp only [List.nodup_append]
    refine ⟨h.statsN, by simp, ?_⟩
    intro a ha b hb'
    simp at hb'
    subst hb'
    rintro rfl
    exact hn ha
  · intro x
    simp only [St.goto, List.mem_append, List.mem_singleton, h.statsM]
    split
    · rename_i hx; subst hx; simp [rank]
    · rename_i hx; simp [hx]
  · exact same_reg h (ht.imp id fun h3 => ⟨fun _ => h3, fun _ => (by simp [rank])⟩)
  · exact same_flag h (.inr ⟨fun _ => (by omega), fun _ => (by simp [rank])⟩)

theorem inv_thread {c : Cfg} {s : St} (h : Inv c s) {i : Nat} (hi : i < c.n) : ∃ r, thread c s i = .ok r ∧ ∀ s', r = some s' → Inv c s' := by
  unfold thread
  have k := h.kind i
  cases hp : s.pc i with
  | unborn => exact ⟨none, rfl, fun _ h => (by cases h)⟩
  | gone => exact ⟨none, rfl, fun _ h => (by cases h)⟩
  | born =>
    dsimp only
    split
    · rename_i ht
      refine ⟨_, rfl, fun s' he => ?_⟩
      cases he
      refine inv_goto (p := .listens) h hi (by simp [hp]) (by simp [hp, rank]) rfl rfl (.inl rfl) (by simp [rank]) (by simp [rank]) (by simp [ht]) h.statsN ?_ h.regN ?_ ?_
      · exact same_stats h (by simp [hp, rank])
      · exact same_reg h (.inr (by simp [hp, rank]))
      · exact same_flag h (.inr (by simp [hp, rank]))
    · rename_i ht
      obtain ⟨s', h1, h2⟩ := inv_store h hi (by simp [hp]) (by simp [hp, rank]) (.inl (by simpa using ht))
      rw [h1]
      exact ⟨_, rfl, fun _ he => by cases he; exact h2⟩
  | listens =>
    dsimp only
    have ht : c.tcp i = true := by
      cases hc : c.tcp i with
      | true => rfl
      | false => exact absurd hp (k hc).1
    have hlt := reg_lt h hi ht (by simp [hp, rank])
    rw [if_pos hlt]
    refine ⟨_, rfl, fun s' he => ?_⟩
    cases he
    have hn : i ∉ s.reg.map Prod.fst := fun hm => by have := (h.regM i).mp hm; simp [hp, rank] at this
    refine inv_goto (p := .registered) h hi (by simp [hp]) (by simp [hp, rank]) rfl rfl (.inl rfl) (by simp [rank]) (by simp [rank]) (by simp [ht]) h.statsN ?_ ?_ ?_ ?_
    · exact same_stats h (by simp [hp, rank])
    · simp only [List.map_append, List.nodup_append]
      refine ⟨h.regN, by simp, ?_⟩
      intro a ha b hb'
      simp at hb'
      subst hb'
      rintro rfl
      exact hn ha
    · intro x
      simp only [St.goto, List.map_append, List.mem_append, h.regM, List.map_cons, List.map_nil, List.mem_singleton]
      split
      · rename_i hx; subst hx; simp [rank, ht]
      · rename_i hx; simp [hx]
    · intro x hx
      simp only [St.goto, List.mem_append, List.mem_singleton] at hx ⊢
      rcases hx with hx | rfl
      · exact same_flag h (.inr (by simp [hp, rank])) x hx
      · simp [rank]
  | registered =>
    obtain ⟨s', h1, h2⟩ := inv_store h hi (by simp [hp]) (by simp [hp, rank]) (.inr (by simp [hp, rank]))
    dsimp only
    rw [h1]
    exact ⟨_, rfl, fun _ he => by cases he; exact h2⟩
  | counted =>
    refine ⟨_, rfl, fun s' he => ?_⟩
    cases he
    refine inv_goto (p := .running) h hi (by simp [hp]) (by simp [hp, rank]) rfl rfl ?_ ?_ (by simp [rank]) (by simp) h.statsN ?_ h.regN ?_ ?_
    · dsimp only
      split
      · rename_i hm; exact .inr ⟨hm, rfl⟩
      · exact .inl rfl
    · intro _
      dsimp only
      split
      · simp
      · assumption
    · exact same_stats h (by simp [hp, rank])
    · exact same_reg h (.inr (by simp [hp, rank]))
    · exact same_flag h (.inr (by simp [hp, rank]))
  | running =>
    dsimp only
    split
    · rename_i ht
      refine ⟨_, rfl, fun s' he => ?_⟩
      cases he
      have hw : s.main ≠ .wait := fun hm => by
        have := h.told i ht
        rw [hm] at this
        cases this
      refine inv_goto (p := .left) h hi (by simp [hp]) (by simp [hp, rank]) rfl rfl (.inl rfl) (fun _ => hw) (fun _ => ht) (by simp) h.statsN ?_ h.regN ?_ ?_
      · exact same_stats h (by simp [hp, rank])
      · exact same_reg h (.inr (by simp [hp, rank]))
      · exact same_flag h (.inr (by simp [hp, rank]))
    · exact ⟨none, rfl, fun _ h => (by cases h)⟩
  | left =>
    have ht := h.left i (by simp [hp, rank])
    have hw : s.main ≠ .wait := fun hm => by
      have := h.told i ht
      rw [hm] at this
      cases this
    dsimp only
    split
    · rename_i htc
      refine ⟨_, rfl, fun s' he => ?_⟩
      cases he
      have hmap : (s.reg.map fun x => if x.1 = i then (i, false) else x).map Prod.fst = s.reg.map Prod.fst := by
        rw [List.map_map]
        apply List.map_congr_left
        intro x _
        simp only [Function.comp]
        split
        · rename_i h; exact h.symm
        · rfl
      refine inv_goto (p := .unregistered) h hi (by simp [hp]) (by simp [hp, rank]) rfl rfl (.inl rfl) (fun _ => hw) (fun _ => ht) (by simp [htc]) h.statsN ?_ ?_ ?_ ?_
      · exact same_stats h (by simp [hp, rank])
      · rw [hmap]; exact h.regN
      · dsimp only
        rw [hmap]
        exact same_reg h (.inr (by simp [hp, rank]))
      · intro x hx
        obtain ⟨y, hy, rfl⟩ := List.mem_map.mp hx
        simp only [St.goto]
        by_cases hyi : y.1 = i
        · simp [hyi, rank]
        · rw [if_neg hyi]
          simp only [hyi, if_false]
          exact h.regB y hy
    · rename_i htc
      refine ⟨_, rfl, fun s' he => ?_⟩
      cases he
      refine inv_goto (p := .gone) h hi (by simp [hp]) (by simp [hp, rank]) rfl rfl (.inl rfl) (fun _ => hw) (fun _ => ht) (by simp) h.statsN ?_ h.regN ?_ ?_
      · exact same_stats h (by simp [hp, rank])
      · exact same_reg h (.inr (by simp [hp, rank]))
      · exact same_flag h (.inl (by simpa using htc))
  | unregistered =>
    have ht := h.left i (by simp [hp, rank])
    have hw : s.main ≠ .wait := fun hm => by
      have := h.told i ht
      rw [hm] at this
      cases this
    refine ⟨_, rfl, fun s' he => ?_⟩
    cases he
    refine inv_goto (p := .gone) h hi (by simp [hp]) (by simp [hp, rank]) rfl rfl (.inl rfl) (fun _ => hw) (fun _ => ht) (by simp) h.statsN ?_ h.regN ?_ ?_
    · exact same_stats h (by simp [hp, rank])
    · exact same_reg h (.inr (by simp [hp, rank]))
    · exact same_flag h (.inr (by simp [hp, rank]))

/-- When all serve, all threads for TCP are in the registry. -/
theorem reg_full {c : Cfg} {s : St} (h : Inv c s) (hl : late s.main = true) : s.reg.length = c.size := by
  have h1 := h.regN.length_le_of_subset (l₂ := (List.range c.n).filter c.tcp) (by
    intro x hx
    have h4 := (h.regM x).mp hx
    rw [List.mem_filter, List.mem_range]
    refine ⟨?_, h4.1⟩
    rcases Nat.lt_or_ge x c.n with h' | h'
    · exact h'
    · have := (h.unborn x).mpr (Nat.le_trans h.le h')
      rw [this] at h4
      simp [rank] at h4)
  have hnd : ((List.range c.n).filter c.tcp).Nodup := List.Pairwise.filter c.tcp List.nodup_range
  have h2 := hnd.length_le_of_subset (l₂ := s.reg.map Prod.fst) (by
    intro x hx
    rw [List.mem_filter, List.mem_range] at hx
    exact (h.regM x).mpr ⟨hx.2, by have := h.up hl x hx.1; omega⟩)
  simp only [List.length_map] at h1 h2
  unfold Cfg.size
  omega

theorem inv_main {c : Cfg} {s : St} (h : Inv c s) : ∃ r, mainStep c s = .ok r ∧ ∀ s', r = some s' → Inv c s' := by
  unfold mainStep
  have hle := h.le
  have hub := h.unborn
  have hup := h.up
  have htold := h.told
  have htcp := h.tcpT
  have hudp := h.udpT
  have hjoin := h.joinG
  cases hm : s.main with
  | spawn k =>
    rw [hm] at hle hub htold
    simp only [started] at hle hub
    dsimp only
    split
    · rename_i hk
      refine ⟨_, rfl, fun s' he => ?_⟩
      cases he
      have hpk : s.pc k = .unborn := (hub k).mpr (Nat.le_refl _)
      have hnt : ∀ i, s.told i = false := fun i => by
        cases hti : s.told i with
        | false => rfl
        | true => have := htold i hti; cases this
      refine ⟨hk, ?_, h.statsN, ?_, h.regN, ?_, ?_, ?_, ?_, ?_, ?_, ?_, ?_, ?_, ?_⟩
      · intro x
        simp only [St.goto, started]
        split
        · rename_i hx; subst hx; simp
        · rw [hub x]; omega
      · intro x
        simp only [St.goto]
        exact same_stats h (by simp [hpk, rank]) x
      · intro x
        simp only [St.goto]
        exact same_reg h (.inr (by simp [hpk, rank])) x
      · simp only [St.goto]
        exact same_flag h (.inr (by simp [hpk, rank]))
      · intro x hx
        simp only [St.goto]
        split
        · simp
        · exact h.kind x hx
      · intro x
        simp only [St.goto]
        split
        · simp [rank]
        · exact h.left x
      · intro x hx
        simp only [St.goto] at hx
        rw [hnt x] at hx
        cases hx
      · intro h; cases h
      · intro x hx; simp [udpTold] at hx
      · intro x hx; simp [joined] at hx
      · intro h; cases h
      · intro h; cases h
    · rename_i hk
      have e : k = c.n := by omega
      refine ⟨_, rfl, fun s' he => ?_⟩
      cases he
      refine ⟨Nat.le_refl _, ?_, h.statsN, h.statsM, h.regN, h.regM, h.regB, h.kind, h.left, ?_, ?_, ?_, ?_, ?_, ?_⟩
      · intro x; simp only [started]; rw [hub x, e]
      · intro x hx; have := htold x hx; cases this
      · intro h; cases h
      · intro x hx; simp [udpTold] at hx
      · intro x hx; simp [joined] at hx
      · intro h; cases h
      · intro h; cases h
  | check =>
    rw [hm] at hub htold
    simp only [started] at hub
    refine ⟨_, rfl, fun s' he => ?_⟩
    cases he
    by_cases hl : s.stats.length < c.n
    · simp only [hl, if_true]
      refine ⟨Nat.le_refl _, hub, h.statsN, h.statsM, h.regN, h.regM, h.regB, h.kind, h.left, ?_, ?_, ?_, ?_, ?_, ?_⟩
      · intro x hx; have := htold x hx; cases this
      · intro h; cases h
      · intro x hx; simp [udpTold] at hx
      · intro x hx; simp [joined] at hx
      · intro h; cases h
      · intro _
        rcases Classical.em (∃ i, i < c.n ∧ rank (s.pc i) < 5) with hh | hh
        · exact hh
        · exfalso
          have := List.nodup_range.length_le_of_subset (l₁ := List.range c.n) (l₂ := s.stats) (by
            intro x hx
            rw [List.mem_range] at hx
            rw [h.statsM]
            rcases Nat.lt_or_ge (rank (s.pc x)) 5 with h5 | h5
            · exact absurd ⟨x, hx, h5⟩ hh
            · omega)
          simp at this
          omega
    · simp only [hl, if_false]
      refine ⟨Nat.le_refl _, hub, h.statsN, h.statsM, h.regN, h.regM, h.regB, h.kind, h.left, ?_, ?_, ?_, ?_, ?_, ?_⟩
      · intro x hx; have := htold x hx; cases this
      · intro h; cases h
      · intro x hx; simp [udpTold] at hx
      · intro x hx; simp [joined] at hx
      · intro _ i hi
        rcases Nat.lt_or_ge (rank (s.pc i)) 4 with h4 | h4
        · exact absurd (stats_lt h hi h4) hl
        · exact h4
      · intro h; cases h
  | wait => exact ⟨none, rfl, fun _ h => (by cases h)⟩
  | run => exact ⟨none, rfl, fun _ h => (by cases h)⟩
  | final => exact ⟨none, rfl, fun _ h => (by cases h)⟩
  | ready =>
    rw [hm] at hub htold hup
    refine ⟨_, rfl, fun s' he => ?_⟩
    cases he
    refine ⟨Nat.le_refl _, hub, h.statsN, h.statsM, h.regN, h.regM, h.regB, h.kind, h.left, ?_, ?_, ?_, ?_, hup, ?_⟩
    · intro x hx; have := htold x hx; cases this
    · intro h; cases h
    · intro x hx; simp [udpTold] at hx
    · intro x hx; simp [joined] at hx
    · intro h; cases h
  | tcpStop =>
    have hfull := reg_full h (by rw [hm]; rfl)
    rw [hm] at hub htold hup
    have hnt : ∀ i, s.told i = false := fun i => by
      cases hti : s.told i with
      | false => rfl
      | true => have := htold i hti; cases this
    have h6 : ∀ i, rank (s.pc i) < 6 := fun i => by
      rcases Nat.lt_or_ge (rank (s.pc i)) 6 with h' | h'
      · exact h'
      · have := h.left i h'
        rw [hnt i] at this
        cases this
    dsimp only
    unfold tcpStop
    rw [if_pos hfull, if_neg (by
      simp only [List.any_eq_true, Bool.and_eq_true, decide_eq_true_eq]
      rintro ⟨x, hx, _, hg⟩
      have := h6 x.1
      rw [hg] at this
      simp [rank] at this)]
    refine ⟨_, rfl, fun s' he => ?_⟩
    cases he
    refine ⟨Nat.le_refl _, hub, h.statsN, h.statsM, h.regN, h.regM, h.regB, h.kind, ?_, ?_, ?_, ?_, ?_, hup, ?_⟩
    · intro x hx; have := h6 x; dsimp only at hx; omega
    · intro x _; rfl
    · intro _ i hi ht
      have hmem := (h.regM i).mpr ⟨ht, by have := hup rfl i hi; omega⟩
      obtain ⟨x, hx, rfl⟩ := List.mem_map.mp hmem
      simp only [Bool.or_eq_true, List.any_eq_true, Bool.and_eq_true, decide_eq_true_eq]
      refine .inr ⟨x, hx, ?_, rfl⟩
      rw [h.regB x hx]
      have := h6 x.1
      simp
      omega
    · intro x hx; simp [udpTold] at hx
    · intro x hx; simp [joined] at hx
    · intro h; cases h
  | udpStop k =>
    rw [hm] at hub htold hup htcp hudp
    dsimp only
    split
    · rename_i hk
      refine ⟨_, rfl, fun s' he => ?_⟩
      cases he
      refine ⟨Nat.le_refl _, hub, h.statsN, h.statsM, h.regN, h.regM, h.regB, h.kind, ?_, ?_, ?_, ?_, ?_, hup, ?_⟩
      · intro x hx; dsimp only; rw [h.left x hx]; rfl
      · intro x _; rfl
      · intro _ i hi ht; dsimp only; rw [htcp rfl i hi ht]; rfl
      · intro x hx hn ht
        simp only [udpTold] at hx
        dsimp only
        by_cases he : x = k
        · simp [he ▸ ht, he]
        · rw [hudp x (by simp only [udpTold]; omega) hn ht]; rfl
      · intro x hx; simp [joined] at hx
      · intro h; cases h
    · rename_i hk
      refine ⟨_, rfl, fun s' he => ?_⟩
      cases he
      refine ⟨Nat.le_refl _, hub, h.statsN, h.statsM, h.regN, h.regM, h.regB, h.kind, h.left, ?_, htcp, ?_, ?_, hup, ?_⟩
      · intro x _; rfl
      · intro x hx hn ht
        exact hudp x (by simp only [udpTold]; omega) hn ht
      · intro x hx; simp [joined] at hx
      · intro h; cases h
  | join k =>
    rw [hm] at hub htold hup htcp hudp hjoin
    dsimp only
    split
    · rename_i hk
      split
      · rename_i hg
        refine ⟨_, rfl, fun s' he => ?_⟩
        cases he
        refine ⟨Nat.le_refl _, hub, h.statsN, h.statsM, h.regN, h.regM, h.regB, h.kind, h.left, ?_, htcp, hudp, ?_, hup, ?_⟩
        · intro x _; rfl
        · intro x hx hn
          simp only [joined] at hx
          dsimp only
          by_cases he : x = k
          · rw [he]; exact hg
          · exact hjoin x (by simp only [joined]; omega) hn
        · intro h; cases h
      · exact ⟨none, rfl, fun _ h => (by cases h)⟩
    · rename_i hk
      refine ⟨_, rfl, fun s' he => ?_⟩
      cases he
      refine ⟨Nat.le_refl _, hub, h.statsN, h.statsM, h.regN, h.regM, h.regB, h.kind, h.left, ?_, htcp, hudp, ?_, hup, ?_⟩
      · intro x _; rfl
      · intro x hx hn
        exact hjoin x (by simp only [joined]; omega) hn
      · intro h; cases h

theorem inv_step {c : Cfg} {s : St} (h : Inv c s) (e : Ev) : ∃ r, step c s e = .ok r ∧ ∀ s', r = some s' → Inv c s' := by
  cases e with
  | main => exact inv_main h
  | thread i =>
    simp only [step]
    split
    · exact inv_thread h (by assumption)
    · exact ⟨none, rfl, fun _ h => (by cases h)⟩
  | stop =>
    refine ⟨_, rfl, fun s' he => ?_⟩
    split at he
    · rename_i hm
      cases he
      have hub := h.unborn
      have hup := h.up
      have htold := h.told
      rw [hm] at hub hup htold
      refine ⟨Nat.le_refl _, hub, h.statsN, h.statsM, h.regN, h.regM, h.regB, h.kind, h.left, ?_, ?_, ?_, ?_, hup, ?_⟩
      · intro x hx; have := htold x hx; cases this
      · intro h; cases h
      · intro x hx; simp [udpTold] at hx
      · intro x hx; simp [joined] at hx
      · intro h; cases h
    · cases he
  | spurious =>
    refine ⟨_, rfl, fun s' he => ?_⟩
    split at he
    · rename_i hm
      cases he
      have hub := h.unborn
      have htold := h.told
      rw [hm] at hub htold
      refine ⟨Nat.le_refl _, hub, h.statsN, h.statsM, h.regN, h.regM, h.regB, h.kind, h.left, ?_, ?_, ?_, ?_, ?_, ?_⟩
      · intro x hx; have := htold x hx; cases this
      · intro h; cases h
      · intro x hx; simp [udpTold] at hx
      · intro x hx; simp [joined] at hx
      · intro h; cases h
      · intro h; cases h
    · cases he

theorem reach_inv {c : Cfg} {s : St} (h : Reach c s) : Inv c s := by
  induction h with
  | init => exact inv_init c
  | step e _ hs ih =>
    obtain ⟨r, h1, h2⟩ := inv_step ih e
    rw [hs] at h1
    cases h1
    exact h2 _ rfl

end Gdnsd.Threads
