/-
C122: the event loop of a thread for TCP. No order of events fails an assertion, uses a connection that is gone or uses zone data offline; the thread is never waiting while it holds back updates of zones; a request that
is buffered gets its turn in the next round whatever the other connections do; and the loop ends when it was told to stop and no connection is left, and not before.
-/
import Verif.Loop.Steps
namespace Gdnsd.Loop
open LoopSpec

/-- In no state that can be reached, and for no decision of the environment, is anything undefined or does an assertion fail. -/
theorem C122_safe {max : Nat} {s : St} (h : Reach max s) (e : Ev) : ∃ o, step max s e = .ok o := by
  obtain ⟨o, h1, -⟩ := full_step max (full_reach h) e
  exact ⟨o, h1⟩

/-- The thread is offline for RCU whenever it may wait in poll, so that it never delays a reload of zones by waiting. -/
theorem C122_offline {max : Nat} {s : St} (h : Reach max s) (hp : s.ph = .poll) (hw : waits s = true) : s.online = false := by
  have hf := full_reach h
  by_cases hc : s.cnt = 0
  · exact (hf.free hp hc).2
  · simp [waits, hf.busy hp hc] at hw

/-- Between any two polls the thread is offline or passes a quiescent state, also if it is never idle. -/
theorem C122_quiescent {max : Nat} {s s' : St} (hp : s.ph = .prep) (hs : step max s .prep = .ok (some s')) : s'.ph = .poll ∧ (s'.online = false ∨ s.quiet < s'.quiet) := by
  unfold step at hs
  rw [hp] at hs
  simp only [if_true] at hs
  cases hs
  refine ⟨rfl, ?_⟩
  show (prepH s).online = false ∨ s.quiet < (prepH s).quiet
  unfold prepH
  split
  · cases ho : s.online with
    | true => right; simp
    | false => left; rfl
  · exact .inl rfl

/-- Each connection waits for exactly one thing: for data to read or, exactly if a complete request is buffered, for its turn; and then the poll does not wait. -/
theorem C122_one {max : Nat} {s : St} (h : Reach max s) {c : Conn} (hc : c ∈ s.conns) : c.read = !c.full ∧ c.check = c.full ∧ (c.full = true → s.ph = .poll → waits s = false) := by
  have hf := full_reach h
  have hm := hf.inv.mode c hc
  refine ⟨by rw [hm.2]; exact hm.1, hm.2.symm, fun hfull hp => ?_⟩
  have hne : s.cnt ≠ 0 := by
    rw [hf.inv.cnt]
    have : c ∈ s.conns.filter Conn.check := List.mem_filter.mpr ⟨hc, by rw [← hm.2]; exact hfull⟩
    have := List.length_pos_of_mem this
    omega
  simp [waits, hf.busy hp hne]

/-- A connection with a complete request in its buffer has it handled in the next round of the loop, or is closed: no traffic of other connections can put it off. -/
theorem C122_fair {max : Nat} {s s' : St} (h : Reach max s) (hp : s.ph = .poll) {c : Conn} (hc : c ∈ s.conns) (hfull : c.full = true) (hr : Round max s s') :
    ∀ x ∈ s'.conns, x.id = c.id → c.served < x.served := by
  have hf := full_reach h
  have hck : c.check = true := by rw [← (hf.inv.mode c hc).2]; exact hfull
  cases hr with
  | last hl => rw [hp] at hl; rcases hl with hl | hl <;> cases hl
  | step e hl hs hr =>
    obtain ⟨o, h1, h2⟩ := full_step max hf e
    rw [h1] at hs
    cases hs
    obtain ⟨f1, f2, f3, -, -⟩ := h2 _ rfl
    obtain ⟨g1, l, -, g2, g3⟩ := f3 hp
    refine round_served hr f1 (Nat.lt_of_lt_of_le (hf.inv.fresh c hc) f2.next) (.inl ⟨l, g3, ?_⟩)
    rw [g1]
    intro x hx he
    have h3 := get_mem hf.inv.nodup hx
    rw [he, get_mem hf.inv.nodup hc] at h3
    cases h3
    unfold legal at g2
    simp only [Bool.and_eq_true, List.all_eq_true] at g2
    have := g2.2 c hc
    simp [hck] at this
    exact .inr ⟨rfl, hck, this⟩

/-- The loop ends only after the stop, with no connection left; and while it was not told to stop or a connection is left it goes on. -/
theorem C122_ends {max : Nat} {s : St} (h : Reach max s) : (s.ph = .ended → s.accept = false ∧ s.async = false ∧ s.conns = []) ∧ (s.ph = .prep → s.async = true ∨ s.conns ≠ []) := by
  have hf := full_reach h
  have hact := hf.inv.act
  rw [hf.inv.acc] at hact
  have ho : ∀ b : Bool, 0 ≤ one b := fun b => by cases b <;> decide
  constructor
  · intro he
    rw [hf.ends he] at hact
    have h1 := ho s.timer
    have h2 := ho s.async
    have hlen : s.conns.length = 0 := by omega
    have ha : s.async = false := by
      cases ha : s.async with
      | false => rfl
      | true =>
        have : one true = 1 := rfl
        rw [ha, this] at hact
        omega
    exact ⟨by rw [hf.inv.acc, ha], ha, List.length_eq_zero_iff.mp hlen⟩
  · intro hp
    cases ha : s.async with
    | true => exact .inl rfl
    | false =>
      right
      intro hc
      have ht : s.timer = false := by
        cases ht : s.timer with
        | false => rfl
        | true => exact absurd hc (hf.inv.timer.mp ht)
      apply hf.goes hp
      rw [hact, ha, hc, ht]
      rfl

/-- After the stop no connection is accepted any more. -/
theorem C122_stopped {max : Nat} {s s' : St} (h : Reach max s) (ha : s.async = false) {e : Ev} (hs : step max s e = .ok (some s')) :
    s'.async = false ∧ s'.accept = false ∧ ∀ x ∈ s'.conns, ∃ c ∈ s.conns, c.id = x.id := by
  obtain ⟨o, h1, h2⟩ := full_step max (full_reach h) e
  rw [h1] at hs
  cases hs
  obtain ⟨f1, f2, -⟩ := h2 _ rfl
  obtain ⟨q1, q2⟩ := f2.quit ha
  refine ⟨q1, by rw [f1.inv.acc, q1], ?_⟩
  intro x hx
  rcases f2.evol x hx with h | ⟨c, hc, h3, -⟩ | h
  · exact ⟨x, h, rfl⟩
  · exact ⟨c, hc, h3⟩
  · have := f1.inv.fresh x hx
    omega

/-- After a stop with connections, the round in which the timer fires is the last, whatever the clients do. -/
theorem C122_grace {max : Nat} {s s1 s' : St} (h : Reach max s) (hp : s.ph = .poll) (hg : s.grace = true) {l : List Pend} (ht : .timeout ∈ l) (hs : step max s (.poll l) = .ok (some s1)) (hr : Round max s1 s') :
    s'.ph = .ended := by
  obtain ⟨o, h1, h2⟩ := full_step max (full_reach h) (.poll l)
  rw [h1] at hs
  cases hs
  obtain ⟨f1, f2, f3, -, -⟩ := h2 _ rfl
  obtain ⟨-, l', he, -, g3⟩ := f3 hp
  cases he
  exact round_ends hr f1 (f2.grace hg) g3 (.inr ht)

/-! ### Cases -/

/-- A run. -/
def runs (max : Nat) : St → List Ev → Option St
  | s, [] => some s
  | s, e :: l => match step max s e with
    | .ok (some s') => runs max s' l
    | _ => none

theorem runs_reach {max : Nat} : ∀ {l : List Ev} {s s' : St}, Reach max s → runs max s l = some s' → Reach max s'
  | [], _, _, h, he => by cases he; exact h
  | e :: l, s, s', h, he => by
    unfold runs at he
    split at he
    · rename_i s1 hs
      exact runs_reach (.step e h hs) he
    · cases he

/-- Two clients; the first sends two requests at once. -/
def day : List Ev := [.prep, .poll [.accept], .accept 0 (.req (.next true)), .turn, .prep]
def stop : List Ev := day ++ [.poll [.stop, .check 0], .stop [], .check (.next true), .turn, .prep]

example : ∃ s, Reach 16 s ∧ s.ph = .poll ∧ waits s = false ∧ s.online = true ∧ ∃ c ∈ s.conns, c.full = true := by
  refine ⟨(runs 16 init day).get (by decide +kernel), runs_reach .init (l := day) (by simp), by decide +kernel, by decide +kernel, by decide +kernel, ?_⟩
  exact ⟨⟨0, false, true, true, 1⟩, by decide +kernel, rfl⟩

example : ∃ s, Reach 16 s ∧ s.ph = .poll ∧ waits s = true := ⟨{ init with online := false, ph := .poll }, .step .prep .init (by decide +kernel), rfl, by decide +kernel⟩

example : ∃ s, Reach 16 s ∧ s.ph = .poll ∧ s.grace = true ∧ s.conns ≠ [] ∧ legal s [.check 0, .timeout] = true := by
  refine ⟨(runs 16 init stop).get (by decide +kernel), runs_reach .init (l := stop) (by simp), by decide +kernel, by decide +kernel, by decide +kernel, by decide +kernel⟩

example : (runs 16 init (stop ++ [.poll [.check 0, .timeout], .check (.next true), .timeout [], .turn])).map St.ph = some .ended := by decide +kernel

example : (runs 16 init [.prep, .poll [.stop], .stop [], .turn]).map St.ph = some .ended := by decide +kernel

end Gdnsd.Loop
