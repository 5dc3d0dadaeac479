/-
C117: how long connections are held. C118: options of sockets. C119: memory.
-/
import Verif.Sock.Lemmas
namespace Gdnsd.Sock
open SockSpec

/-! ### C117 -/

/-- The seconds that are expected of the kernel are the least it can do that is not less than asked for. -/
theorem C117_least (s : Nat) : xlate s = period (tries s) ∧ (s ≤ period 255 → s ≤ xlate s ∧ ∀ k, s ≤ period k → xlate s ≤ period k) := by
  refine ⟨xlate_eq s, fun h => ?_⟩
  rw [xlate_eq]
  unfold tries
  cases hf : (List.range 255).find? fun k => decide (s ≤ period k) with
  | none =>
    rw [List.find?_range_eq_none] at hf
    refine ⟨h, fun k hk => period_mono ?_⟩
    simp only [Option.getD_none]
    rcases Nat.lt_or_ge k 255 with h' | h'
    · have := hf k h'
      simp at this
      omega
    · exact h'
  | some i =>
    rw [List.find?_range_eq_some] at hf
    obtain ⟨a, b, c⟩ := hf
    simp at a b c
    refine ⟨a, fun k hk => period_mono ?_⟩
    simp only [Option.getD_some]
    rcases Nat.lt_or_ge k i with h' | h'
    · have := c k h'
      omega
    · exact h'

/-- Seconds that the kernel told are expected as they are. -/
theorem C117_stable (s : Nat) : xlate (xlate s) = xlate s := by
  have hle : tries s ≤ 255 := by
    unfold tries
    cases hf : (List.range 255).find? fun k => decide (s ≤ period k) with
    | none => simp
    | some i =>
      rw [List.find?_range_eq_some] at hf
      have := List.mem_range.mp hf.2.1
      simp only [Option.getD_some]
      omega
  rw [xlate_eq s, xlate_eq]
  congr 1
  refine tries_of hle ?_ fun _ => Nat.le_refl _
  intro k hk
  have := period_mono (show k + 1 ≤ tries s by omega)
  have := period_lt k
  omega

example : xlate 30 = 31 ∧ xlate 37 = 63 ∧ xlate 5 = 7 := by decide +kernel

/-! ### C118 -/

theorem fair_udp {K : Kernel} {c : Cfg} {limit : Nat} (hk : Linux K limit) (hr : c.rcvbuf ≤ limit) (hs : c.sndbuf ≤ limit) : ∀ st ∈ udp c, Fair K st := by
  intro st hst
  have f : ∀ o ∈ [Opt.reuseaddr, .reuseport, .pktinfo, .v6only, .pktinfo6, .nodelay], K.report o 1 ≠ 0 := fun o ho h => by simpa using (hk.flag o ho 1).mp h
  have g := hk.same
  have b1 := hk.buf .rcvbuf (by simp) c.rcvbuf
  have b2 := hk.buf .sndbuf (by simp) c.sndbuf
  rw [Nat.min_eq_left hr] at b1
  rw [Nat.min_eq_left hs] at b2
  simp only [udp, List.mem_append] at hst
  rcases hst with ((hst | hst) | hst) | hst
  · simp only [List.mem_cons, List.not_mem_nil, or_false] at hst
    rcases hst with rfl | rfl <;> simp [Fair, good, same, compare, f]
  · split at hst
    · simp only [List.mem_cons, List.not_mem_nil, or_false] at hst
      subst hst
      simp [Fair, good, same, compare, b1, Nat.mul_comm]
    · cases hst
  · split at hst
    · simp only [List.mem_cons, List.not_mem_nil, or_false] at hst
      subst hst
      simp [Fair, good, same, compare, b2, Nat.mul_comm]
    · cases hst
  · split at hst
    · simp only [udp6, List.mem_cons, List.not_mem_nil, or_false] at hst
      rcases hst with rfl | rfl | rfl | rfl | rfl <;> simp [Fair, good, same, compare, f, g]
    · simp only [udp4, List.mem_cons, List.mem_append] at hst
      rcases hst with rfl | hst | hst
      · simp [Fair, good, same, compare, g]
      · split at hst
        · simp only [List.mem_cons, List.not_mem_nil, or_false] at hst
          subst hst
          simp [Fair, good, same, compare, f]
        · cases hst
      · simp only [List.not_mem_nil, or_false] at hst
        subst hst
        simp [Fair, good, same, compare, g]

theorem fair_tcp {K : Kernel} {c : Cfg} {limit : Nat} (hk : Linux K limit) : ∀ st ∈ tcp c, Fair K st := by
  intro st hst
  have f : ∀ o ∈ [Opt.reuseaddr, .reuseport, .pktinfo, .v6only, .pktinfo6, .nodelay], K.report o 1 ≠ 0 := fun o ho h => by simpa using (hk.flag o ho 1).mp h
  have g := hk.same
  simp only [tcp, List.mem_append] at hst
  rcases hst with hst | hst
  · simp only [List.mem_cons, List.not_mem_nil, or_false] at hst
    rcases hst with rfl | rfl | rfl | rfl | rfl <;> simp [Fair, good, same, compare, f, g, hk.wait, xlate_eq]
  · split at hst
    · simp only [List.mem_cons, List.not_mem_nil, or_false] at hst
      rcases hst with rfl | rfl <;> simp [Fair, good, same, compare, f]
    · cases hst

theorem udp_nodup (c : Cfg) : ((udp c).map Step.opt).Nodup := by
  obtain ⟨v6, any, r, s, t, f⟩ := c
  cases v6 <;> cases any <;> by_cases hr : r = 0 <;> by_cases hs : s = 0 <;> simp [udp, udp4, udp6, Step.opt, hr, hs]

theorem tcp_nodup (c : Cfg) : ((tcp c).map Step.opt).Nodup := by
  obtain ⟨v6, any, r, s, t, f⟩ := c
  cases v6 <;> simp [tcp, Step.opt]

/-- Whatever options a socket has, be it new or taken over from another daemon: if the daemon goes on, it has those of the configuration, as far as buffers are within the limit of the system. -/
theorem C118_udp_partial {K : Kernel} {limit : Nat} (hk : Linux K limit) {c : Cfg} (hr : c.rcvbuf ≤ limit) (hs : c.sndbuf ≤ limit) {s s' : Sock}
    (h : runAll K (udp c) s = some s') : UdpRight c s'.val := by
  have d := run_done h (fair_udp hk hr hs) (udp_nodup c)
  refine ⟨?_, ?_, ?_, ?_, ?_, ?_⟩
  · have := d (.must .reuseaddr 1 true) (by simp [udp])
    simp only [Step.opt, Done, good, compare] at this
    simpa [same, compare] using this
  · have := d (.must .reuseport 1 true) (by simp [udp])
    simp only [Step.opt, Done, good, compare] at this
    simpa [same, compare] using this
  · intro h0
    have := d (.must .rcvbuf c.rcvbuf false) (by simp [udp, h0])
    simp only [Step.opt, Done, good, compare] at this
    simpa [same, compare, Nat.mul_comm] using this
  · intro h0
    have := d (.must .sndbuf c.sndbuf false) (by simp [udp, h0])
    simp only [Step.opt, Done, good, compare] at this
    simpa [same, compare, Nat.mul_comm] using this
  · intro h6
    constructor
    · have := d (.either .mtudisc 5 0) (by simp [udp, udp4, h6])
      simp only [Step.opt, Done, good, compare] at this
      simpa [same, compare] using this
    · intro ha
      have := d (.must .pktinfo 1 true) (by simp [udp, udp4, h6, ha])
      simp only [Step.opt, Done, good, compare] at this
      simpa [same, compare] using this
  · intro h6
    refine ⟨?_, ?_, ?_, ?_⟩
    · have := d (.must .v6only 1 true) (by simp [udp, udp6, h6])
      simp only [Step.opt, Done, good, compare] at this
      simpa [same, compare] using this
    · have := d (.blind .mtu 1280) (by simp [udp, udp6, h6])
      simpa [Done, Step.opt, hk.same .mtu (by simp)] using this
    · have := d (.either .mtudisc6 5 0) (by simp [udp, udp6, h6])
      simp only [Step.opt, Done, good, compare] at this
      simpa [same, compare] using this
    · have := d (.must .pktinfo6 1 true) (by simp [udp, udp6, h6])
      simp only [Step.opt, Done, good, compare] at this
      simpa [same, compare] using this

theorem C118_tcp {K : Kernel} {limit : Nat} (hk : Linux K limit) {c : Cfg} {s s' : Sock} (h : runAll K (tcp c) s = some s') :
    TcpRight c s'.val ∧ (K.getFails .fastopen = false → K.setFails .fastopen c.fastopen = false → s'.val .fastopen = c.fastopen) := by
  have d := run_done h (fair_tcp hk) (tcp_nodup c)
  refine ⟨⟨?_, ?_, ?_, ?_, ?_⟩, ?_⟩
  · have := d (.must .reuseaddr 1 true) (by simp [tcp])
    simp only [Step.opt, Done, good, compare] at this
    simpa [same, compare] using this
  · have := d (.must .reuseport 1 true) (by simp [tcp])
    simp only [Step.opt, Done, good, compare] at this
    simpa [same, compare] using this
  · have := d (.must .nodelay 1 true) (by simp [tcp])
    simp only [Step.opt, Done, good, compare] at this
    simpa [same, compare] using this
  · have := d (.must .defer (if c.timeout > 30 then 30 else c.timeout) false) (by simp [tcp])
    have e : (if c.timeout > 30 then 30 else c.timeout) = min c.timeout 30 := by split <;> omega
    rw [e] at this
    simp only [Step.opt, Done, good, compare] at this
    simpa [same, compare, xlate_eq] using this
  · intro h6
    constructor
    · have := d (.must .v6only 1 true) (by simp [tcp, h6])
      simp only [Step.opt, Done, good, compare] at this
      simpa [same, compare] using this
    · have := d (.blind .mtu 1280) (by simp [tcp, h6])
      simpa [Done, Step.opt, hk.same .mtu (by simp)] using this
  · intro h1 h2
    have := d (.may .fastopen c.fastopen) (by simp [tcp])
    simp only [Step.opt, Done, good, compare] at this
    simpa [same, compare, h1, h2] using this

/-- A socket that another daemon of the same configuration has left is accepted, and nothing of it is set again but the size of packets, which the kernel does not tell. -/
theorem C118_again {K : Kernel} {limit : Nat} (hk : Linux K limit) {c : Cfg} (hr : c.rcvbuf ≤ limit) (hs : c.sndbuf ≤ limit) {s s' : Sock} :
    (runAll K (udp c) s = some s' → ∃ t, runAll K (udp c) s' = some t ∧ t.val = s'.val ∧ ∃ ws, t.sets = s'.sets ++ ws ∧ ∀ p ∈ ws, p.1 = .mtu ∧ c.v6 = true) ∧
    (runAll K (tcp c) s = some s' → ∃ t, runAll K (tcp c) s' = some t ∧ t.val = s'.val ∧ ∃ ws, t.sets = s'.sets ++ ws ∧ ∀ p ∈ ws, p.1 = .mtu ∧ c.v6 = true) := by
  constructor
  · intro h
    obtain ⟨t, h1, h2, ws, h3, h4⟩ := run_again h (fair_udp hk hr hs) (udp_nodup c) s' fun _ _ => rfl
    refine ⟨t, h1, h2, ws, h3, fun p hp => ?_⟩
    obtain ⟨w, hw⟩ := h4 p hp
    obtain ⟨v6, any, r, sn, tm, f⟩ := c
    cases v6 <;> cases any <;> by_cases hr : r = 0 <;> by_cases hs : sn = 0 <;> simp [udp, udp4, udp6, hr, hs] at hw ⊢ <;> exact hw.1
  · intro h
    obtain ⟨t, h1, h2, ws, h3, h4⟩ := run_again h (fair_tcp hk) (tcp_nodup c) s' fun _ _ => rfl
    refine ⟨t, h1, h2, ws, h3, fun p hp => ?_⟩
    obtain ⟨w, hw⟩ := h4 p hp
    obtain ⟨v6, any, r, sn, tm, f⟩ := c
    cases v6 <;> simp [tcp] at hw ⊢
    exact hw.1

/-- No option is touched but those of the configuration. In particular, false of the code in general: a socket that was taken over keeps its buffers if the configuration has no more sizes for them, unlike a new one. -/
theorem C118_false_kept {K : Kernel} {limit : Nat} (hk : Linux K limit) {c : Cfg} (h0 : c.rcvbuf = 0) (h1 : c.sndbuf = 0) {s s' : Sock} (h : runAll K (udp c) s = some s') :
    s'.val .rcvbuf = s.val .rcvbuf ∧ s'.val .sndbuf = s.val .sndbuf := by
  have f := run_frame h (fair_udp hk (by omega) (by omega))
  obtain ⟨v6, any, r, sn, tm, fo⟩ := c
  dsimp only at h0 h1
  subst h0 h1
  constructor
  · apply f; cases v6 <;> cases any <;> simp [udp, udp4, udp6, Step.opt]
  · apply f; cases v6 <;> cases any <;> simp [udp, udp4, udp6, Step.opt]

/-- Linux, that never refuses. -/
def sane (limit : Nat) : Kernel where
  getFails := fun _ => false
  setFails := fun _ _ => false
  report := fun o v => if o = .rcvbuf ∨ o = .sndbuf then 2 * min v limit else if o = .defer then period (tries v) else v

theorem sane_linux (limit : Nat) : Linux (sane limit) limit := by
  refine ⟨?_, ?_, ?_, ?_⟩
  · intro o ho v
    simp only [List.mem_cons, List.not_mem_nil, or_false] at ho
    rcases ho with rfl | rfl | rfl | rfl | rfl | rfl <;> simp [sane]
  · intro o ho v
    simp only [List.mem_cons, List.not_mem_nil, or_false] at ho
    rcases ho with rfl | rfl | rfl | rfl | rfl | rfl <;> simp [sane]
  · intro o ho v
    simp only [List.mem_cons, List.not_mem_nil, or_false] at ho
    rcases ho with rfl | rfl <;> simp [sane]
  · intro v
    simp [sane]

/-- False of the code in general: with a size beyond the limit the daemon goes on with a smaller buffer, and nothing tells so. -/
theorem C118_false_limit : ∃ s', runAll (sane 212992) (udp ⟨false, false, 1048576, 0, 37, 256⟩) ⟨fun _ => 0, []⟩ = some s' ∧ s'.val .rcvbuf = 425984 ∧ 425984 < 2 * 1048576 :=
  ⟨_, rfl, by decide, by decide⟩

/-- The process goes on exactly if the address was bound; the option that allows addresses that are not there is asked for only if it was refused because it is not there, and never for the one that stands for all. -/
theorem C118_bind (any : Bool) (first : Option Nat) (optFails : Bool) (second : Option Nat) :
    ((bindSock any first optFails second).1 = true ↔ first = none ∨ (first = some 99 ∧ any = false ∧ optFails = false ∧ second = none)) ∧
    ((bindSock any first optFails second).2 = true ↔ first = some 99 ∧ any = false) := by
  cases first with
  | none => simp [bindSock]
  | some e =>
    by_cases he : e = 99 <;> cases any <;> cases optFails <;> cases second <;> simp [bindSock, he]

example : (runAll (sane 212992) (udp ⟨true, false, 8192, 0, 37, 256⟩) ⟨fun _ => 0, []⟩).map (fun s => (s.val .rcvbuf, s.val .mtu)) = some (16384, 1280) := by decide
example : (runAll (sane 212992) (tcp ⟨false, false, 8192, 0, 37, 256⟩) ⟨fun _ => 0, []⟩).map (fun s => (s.val .defer, s.val .fastopen)) = some (31, 256) := by decide +kernel

/-! ### C119 -/

theorem high_zero {x : Nat} (hx : x < 2 ^ 64) (h : (2 ^ 64 - 2 ^ 32) &&& x = 0) : x < 2 ^ 32 := by
  rcases Nat.lt_or_ge x (2 ^ 32) with h1 | h1
  · exact h1
  · obtain ⟨i, hi, hb⟩ := Nat.exists_ge_and_testBit_of_ge_two_pow h1
    have hlt : i < 64 := by
      rcases Nat.lt_or_ge i 64 with h2 | h2
      · exact h2
      · have : x < 2 ^ i := Nat.lt_of_lt_of_le hx (Nat.pow_le_pow_right (by omega) h2)
        rw [Nat.testBit_lt_two_pow this] at hb
        cases hb
    have all : ∀ i : Fin 64, 32 ≤ i.val → (2 ^ 64 - 2 ^ 32 : Nat).testBit i.val = true := by decide +kernel
    have := congrArg (fun y => y.testBit i) h
    simp only [Nat.testBit_and, hb, all ⟨i, hlt⟩ hi, Nat.zero_testBit] at this
    cases this

/-- Whatever the numbers: memory that is given has exactly the size that was asked for, and was not made smaller by an overflow; or else the process ends. And it ends only if there is no memory, or the size is 0 or too large to
be a size. -/
theorem C119_exact {n s : Nat} (hn : n < 2 ^ 64) (hs : s < 2 ^ 64) (gives : Nat → Bool) :
    alloc n s gives = .ok (if 0 < n * s ∧ n * s < 2 ^ 64 ∧ gives (n * s) = true then some (n * s) else none) := by
  unfold alloc
  dsimp only
  by_cases h0 : n * s % 2 ^ 64 = 0
  · rw [if_pos h0, if_neg]
    rintro ⟨h1, h2, _⟩
    rw [Nat.mod_eq_of_lt h2] at h0
    omega
  · have hs0 : s ≠ 0 := by
      rintro rfl
      simp at h0
    have hpos : 0 < s := by omega
    rw [if_neg h0]
    have key : mulOk n s (n * s % 2 ^ 64) = .ok (decide (n * s < 2 ^ 64)) := by
      unfold mulOk
      split
      · rename_i hm
        have hor := high_zero (Nat.or_lt_two_pow hn hs) hm
        have h1 : n < 2 ^ 32 := Nat.lt_of_le_of_lt Nat.left_le_or hor
        have h2 : s < 2 ^ 32 := Nat.lt_of_le_of_lt Nat.right_le_or hor
        have : n * s < 2 ^ 32 * 2 ^ 32 := by
          rcases Nat.eq_zero_or_pos n with rfl | hp
          · simp
          · exact Nat.mul_lt_mul_of_lt_of_lt h1 h2
        rw [show (2 ^ 32 * 2 ^ 32 : Nat) = 2 ^ 64 by decide] at this
        simp [this]
      · congr 1
        apply decide_eq_decide.mpr
        constructor
        · intro h
          have h1 : (n * s % 2 ^ 64) / s * s ≤ n * s % 2 ^ 64 := Nat.div_mul_le_self _ _
          rw [h] at h1
          have : n * s % 2 ^ 64 < 2 ^ 64 := Nat.mod_lt _ (by decide)
          omega
        · intro h
          rw [Nat.mod_eq_of_lt h, Nat.mul_div_cancel _ hpos]
    rw [key]
    by_cases h : n * s < 2 ^ 64
    · rw [Nat.mod_eq_of_lt h] at h0 ⊢
      have hp : 0 < n * s := by omega
      cases hg : gives (n * s) <;> simp [h, hp]
    · simp only [h, decide_false, false_and, and_false, if_false]
      split <;> rfl

example : alloc (2 ^ 33) (2 ^ 33) (fun _ => true) = .ok none := by decide +kernel
example : alloc (2 ^ 40) 16 (fun _ => true) = .ok (some (2 ^ 44)) := by decide +kernel

end Gdnsd.Sock
