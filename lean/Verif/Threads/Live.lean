/-
Threads cannot get stuck, and runs have bounded length.
-/
import Verif.Threads.Inv
namespace Gdnsd.Threads
open ThreadsSpec

/-- What is left to do. -/
def todo : Nat → (Nat → Pc) → Nat
  | 0, _ => 0
  | n + 1, f => todo n f + (8 - rank (f n))

theorem todo_same {i : Nat} {p : Pc} {f : Nat → Pc} : ∀ n, n ≤ i → todo n (fun x => if x = i then p else f x) = todo n f
  | 0, _ => rfl
  | n + 1, h => by
    simp only [todo]
    rw [todo_same n (by omega), if_neg (by omega)]

theorem todo_goto {i : Nat} {p : Pc} {f : Nat → Pc} (hr : rank (f i) < rank p) : ∀ n, i < n → todo n (fun x => if x = i then p else f x) + 1 ≤ todo n f
  | 0, h => by omega
  | n + 1, h => by
    simp only [todo]
    by_cases he : n = i
    · subst he
      rw [todo_same n (Nat.le_refl _), if_pos rfl]
      have : rank p ≤ 8 := by cases p <;> simp [rank]
      omega
    · rw [if_neg he]
      have := todo_goto hr n (by omega)
      omega

theorem todo_le (f : Nat → Pc) : ∀ n, todo n f ≤ 8 * n
  | 0 => Nat.le_refl _
  | n + 1 => by have := todo_le f n; simp only [todo]; omega

def rest (n : Nat) : Main → Nat
  | .spawn k => 2 * n + 8 + (n - k)
  | .check => 2 * n + 7
  | .wait => 2 * n + 6
  | .ready => 2 * n + 5
  | .run => 2 * n + 4
  | .tcpStop => 2 * n + 3
  | .udpStop k => n + 2 + (n - k)
  | .join k => 1 + (n - k)
  | .final => 0

def weight (c : Cfg) (s : St) : Nat := 2 * todo c.n s.pc + rest c.n s.main

theorem weight_goto {c : Cfg} {s s' : St} {i : Nat} {p : Pc} (hi : i < c.n) (hr : rank (s.pc i) < rank p) (hpc : s'.pc = fun x => if x = i then p else s.pc x)
    (hm : s'.main = s.main ∨ (s.main = .wait ∧ s'.main = .check)) : weight c s' < weight c s := by
  have := todo_goto hr c.n hi
  unfold weight
  rw [hpc]
  rcases hm with h | ⟨h1, h2⟩
  · rw [h]; omega
  · rw [h1, h2]
    simp only [rest]
    omega

theorem weight_store {c : Cfg} {s s' : St} {i : Nat} (hi : i < c.n) (hr : rank (s.pc i) < 4) (h : (store c s i).map some = .ok (some s')) : weight c s' < weight c s := by
  unfold store at h
  split at h
  · cases h
    exact weight_goto (p := .counted) hi hr rfl (.inl rfl)
  · cases h

theorem weight_step {c : Cfg} {s s' : St} (h : Inv c s) (e : Ev) (he : e ≠ .spurious) (hs : step c s e = .ok (some s')) : weight c s' < weight c s := by
  cases e with
  | spurious => exact absurd rfl he
  | stop =>
    simp only [step] at hs
    split at hs
    · rename_i hm
      cases hs
      simp [weight, hm, rest]
    · cases hs
  | thread i =>
    simp only [step] at hs
    split at hs
    · rename_i hi
      unfold thread at hs
      split at hs
      · cases hs
      · rename_i hp
        split at hs
        · cases hs
          exact weight_goto (p := .listens) hi (by simp [hp, rank]) rfl (.inl rfl)
        · exact weight_store hi (by simp [hp, rank]) hs
      · rename_i hp
        split at hs
        · cases hs
          exact weight_goto (p := .registered) hi (by simp [hp, rank]) rfl (.inl rfl)
        · cases hs
      · rename_i hp
        exact weight_store hi (by simp [hp, rank]) hs
      · rename_i hp
        cases hs
        refine weight_goto (p := .running) hi (by simp [hp, rank]) rfl ?_
        dsimp only
        split
        · rename_i hm; exact .inr ⟨hm, rfl⟩
        · exact .inl rfl
      · rename_i hp
        split at hs
        · cases hs
          exact weight_goto (p := .left) hi (by simp [hp, rank]) rfl (.inl rfl)
        · cases hs
      · rename_i hp
        split at hs
        · cases hs
          exact weight_goto (p := .unregistered) hi (by simp [hp, rank]) rfl (.inl rfl)
        · cases hs
          exact weight_goto (p := .gone) hi (by simp [hp, rank]) rfl (.inl rfl)
      · rename_i hp
        cases hs
        exact weight_goto (p := .gone) hi (by simp [hp, rank]) rfl (.inl rfl)
      · cases hs
    · cases hs
  | main =>
    simp only [step] at hs
    unfold mainStep at hs
    split at hs
    · rename_i k hm
      split at hs
      · rename_i hk
        cases hs
        have hp : s.pc k = .unborn := (h.unborn k).mpr (by rw [hm]; exact Nat.le_refl _)
        have := todo_goto (i := k) (p := .born) (f := s.pc) (by simp [hp, rank]) c.n hk
        simp only [weight, St.goto, hm, rest]
        omega
      · cases hs
        simp only [weight, hm, rest]
        omega
    · rename_i hm
      cases hs
      simp only [weight, hm]
      split <;> simp only [rest] <;> omega
    · cases hs
    · rename_i hm
      cases hs
      simp only [weight, hm, rest]
      omega
    · cases hs
    · rename_i hm
      unfold tcpStop at hs
      split at hs
      · split at hs
        · cases hs
        · cases hs
          simp only [weight, hm, rest]
          omega
      · cases hs
    · rename_i k hm
      split at hs
      · cases hs
        simp only [weight, hm, rest]
        omega
      · cases hs
        simp only [weight, hm, rest]
        omega
    · rename_i k hm
      split at hs
      · split at hs
        · cases hs
          simp only [weight, hm, rest]
          omega
        · cases hs
      · cases hs
        simp only [weight, hm, rest]
        omega
    · cases hs

theorem steps_weight {c : Cfg} {k : Nat} {s s' : St} (h : Steps c k s s') : Inv c s → k + weight c s' ≤ weight c s := by
  induction h with
  | refl s => intro _; omega
  | step e he hs _ ih =>
    intro hi
    have h1 := weight_step hi e he hs
    obtain ⟨r, h2, h3⟩ := inv_step hi e
    rw [hs] at h2
    cases h2
    have := ih (h3 _ rfl)
    omega

theorem steps_reach {c : Cfg} {k : Nat} {s s' : St} (h : Steps c k s s') : Reach c s → Reach c s' := by
  induction h with
  | refl s => exact id
  | step e _ hs _ ih => exact fun hr => ih (.step e hr hs)

/-- A thread that has not got to its loop goes on. -/
theorem thread_start {c : Cfg} {s : St} (h : Inv c s) {i : Nat} (hi : i < c.n) (hb : s.pc i ≠ .unborn) (hr : rank (s.pc i) < 5) : step c s (.thread i) ≠ .ok none := by
  obtain ⟨r, h1, -⟩ := inv_thread h hi
  simp only [step, if_pos hi]
  intro hn
  unfold thread at hn
  split at hn
  · contradiction
  · split at hn
    · cases hn
    · cases hst : store c s i <;> rw [hst] at hn <;> cases hn
  · split at hn <;> cases hn
  · cases hst : store c s i <;> rw [hst] at hn <;> cases hn
  · cases hn
  all_goals (rename_i hp; simp [hp, rank] at hr)

/-- A thread that is told to stop goes on. -/
theorem thread_stop {c : Cfg} {s : St} {i : Nat} (hi : i < c.n) (ht : s.told i = true) (hr : 5 ≤ rank (s.pc i)) (hg : s.pc i ≠ .gone) : step c s (.thread i) ≠ .ok none := by
  simp only [step, if_pos hi]
  intro hn
  unfold thread at hn
  split at hn
  all_goals first
    | (rename_i hp; simp [hp, rank] at hr; done)
    | skip
  · rw [if_pos ht] at hn; cases hn
  · split at hn <;> cases hn
  · cases hn
  · contradiction

theorem stuck {c : Cfg} {s : St} (h : Inv c s) (hs : Stuck c s) : s.main = .run ∨ s.main = .final := by
  obtain ⟨h1, h2⟩ := hs
  simp only [step] at h1
  unfold mainStep at h1
  have hu := h.unborn
  have hup := h.up
  have htc := h.tcpT
  have hud := h.udpT
  split at h1
  · split at h1 <;> cases h1
  · cases h1
  · rename_i hm
    obtain ⟨i, hi, hr⟩ := h.waitW hm
    rw [hm] at hu
    refine absurd (h2 i) (thread_start h hi ?_ hr)
    intro hb
    have := (hu i).mp hb
    simp only [started] at this
    omega
  · cases h1
  · exact .inl (by assumption)
  · unfold tcpStop at h1
    split at h1
    · split at h1 <;> cases h1
    · cases h1
  · split at h1 <;> cases h1
  · rename_i k hm
    split at h1
    · rename_i hk
      split at h1
      · cases h1
      · rename_i hg
        rw [hm] at hup htc hud
        have ht : s.told k = true := by
          cases hc : c.tcp k with
          | true => exact htc rfl k hk hc
          | false => exact hud k hk hk hc
        have h4 := hup rfl k hk
        rcases Nat.lt_or_ge (rank (s.pc k)) 5 with h5 | h5
        · exact absurd (h2 k) (thread_start h hk (fun hb => by rw [hb] at h4; simp [rank] at h4) h5)
        · exact absurd (h2 k) (thread_stop hk ht h5 hg)
    · cases h1
  · exact .inr (by assumption)

end Gdnsd.Threads
