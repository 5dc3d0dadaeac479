/-
The buffer always holds what was received and not yet processed.
-/
import Verif.Stream.ParseLemmas
import Verif.Proxy.Props
namespace Gdnsd.Stream
open Gdnsd.Proxy (sub)

/-- The data of the buffer. -/
def Conn.pend (c : Conn) : Bytes := (c.buf.drop c.head).take c.bytes

structure Inv (c : Conn) : Prop where
  len : c.buf.length = 3840
  fit : c.head + c.bytes ≤ 3840
  hl : c.hdr ≤ c.got.length
  px : c.proxy = true → c.head = 0 ∧ c.bytes = 0 ∧ c.got = [] ∧ c.reqs = [] ∧ c.check = false ∧ c.hdr = 0
  legal : ∀ q ∈ c.reqs, Legal q
  str : c.stream = (c.reqs.map frame).flatten ++ c.pend
  rd : c.closed = none → c.check = false → c.head = 0 ∧ Incomplete c.pend
  ck : c.closed = none → c.check = true → c.proxy = false ∧ ∃ q t, Legal q ∧ c.pend = frame q ++ t
  bs : c.closed = some .badSize → Illegal c.pend

theorem pend_len (c : Conn) (h1 : c.buf.length = 3840) (h2 : c.head + c.bytes ≤ 3840) : c.pend.length = c.bytes := by
  simp [Conn.pend]; omega

theorem pend_get (c : Conn) (i : Nat) (h : i < c.bytes) : c.pend[i]? = c.buf[c.head + i]? := by
  unfold Conn.pend
  rw [List.getElem?_take, if_pos h, List.getElem?_drop]

theorem rd_pend (c : Conn) (i : Nat) (x : UInt8) (h : i < c.bytes) (hx : c.pend[i]? = some x) : rd c.buf (c.head + i) = .ok x := by
  unfold rd
  rw [pend_get c i h] at hx
  rw [hx]

theorem nextReq_ok (c : Conn) (h1 : c.buf.length = 3840) (h2 : c.head + c.bytes ≤ 3840) :
    (Illegal c.pend ∧ nextReq c = .ok (.bad, close c .badSize)) ∨
    (Incomplete c.pend ∧ ∃ b', b'.length = 3840 ∧ (b'.take c.bytes) = c.pend ∧ nextReq c = .ok (.more, { c with buf := b', head := 0 })) ∨
    (∃ q t, Legal q ∧ c.pend = frame q ++ t ∧ nextReq c = .ok (.full q.length, c)) := by
  have hpl := pend_len c h1 h2
  unfold nextReq
  by_cases h0 : c.bytes = 0
  · rw [if_pos h0]
    refine .inr (.inl ⟨?_, c.buf, h1, ?_, rfl⟩)
    · rw [List.eq_nil_of_length_eq_zero (hpl.trans h0)]
      exact inc_nil
    · rw [List.eq_nil_of_length_eq_zero (hpl.trans h0), h0]
      simp
  · rw [if_neg h0]
    -- what `more` does
    have move : ∀ p : Nat × Bool, (if c.head ≠ 0 then (sub c.buf c.head c.bytes).bind fun d => .ok (.more, { c with buf := d ++ c.buf.drop c.bytes, head := 0 })
        else .ok (.more, c) : Outcome (Next × Conn)) = .ok (.more, { c with buf := c.pend ++ c.buf.drop c.bytes, head := 0 }) := by
      intro p
      by_cases hh : c.head = 0
      · rw [if_neg (by simpa using hh)]
        have : c.pend ++ c.buf.drop c.bytes = c.buf := by
          unfold Conn.pend
          rw [hh, List.drop_zero, List.take_append_drop]
        rw [this, ← hh]
      · rw [if_pos hh]
        unfold sub
        rw [if_pos (by omega)]
        rfl
    have hmv : (c.pend ++ c.buf.drop c.bytes).length = 3840 ∧ (c.pend ++ c.buf.drop c.bytes).take c.bytes = c.pend := by
      refine ⟨by simp [hpl]; omega, List.take_left' hpl⟩
    match hp : c.pend, hpl with
    | [], hpl => exact absurd hpl.symm h0
    | [hi], hpl =>
      have hb : c.bytes = 1 := hpl.symm
      have r0 := rd_pend c 0 hi (by omega) (by rw [hp]; rfl)
      rw [Nat.add_zero] at r0
      have hs : nextSize c = .ok (256 * hi.toNat, false) := by
        unfold nextSize
        rw [r0]
        simp only [Outcome.bind_ok]
        rw [if_neg (by omega)]
      rw [hs]
      simp only [Outcome.bind_ok]
      by_cases hbig : 1024 < 256 * hi.toNat
      · rw [if_pos (.inr hbig)]
        exact .inl ⟨ill_one hi [] hbig, rfl⟩
      · rw [if_neg (by rintro (hc | hc); · cases hc
                       · exact hbig hc), if_pos (by omega), move (0, false)]
        rw [hp] at hmv ⊢
        exact .inr (.inl ⟨inc_one hi (by omega), _, hmv.1, hmv.2, rfl⟩)
    | hi :: lo :: r, hpl =>
      have hb : c.bytes = r.length + 2 := by simpa using hpl.symm
      have r0 := rd_pend c 0 hi (by omega) (by rw [hp]; rfl)
      rw [Nat.add_zero] at r0
      have r1 := rd_pend c 1 lo (by omega) (by rw [hp]; rfl)
      have hs : nextSize c = .ok (256 * hi.toNat + lo.toNat, decide (256 * hi.toNat + lo.toNat < 12)) := by
        unfold nextSize
        rw [r0]
        simp only [Outcome.bind_ok]
        rw [if_pos (by omega), r1]
        simp only [Outcome.bind_ok]
      rw [hs]
      simp only [Outcome.bind_ok, decide_eq_true_eq]
      by_cases hbad : 256 * hi.toNat + lo.toNat < 12 ∨ RECV < 256 * hi.toNat + lo.toNat
      · rw [if_pos hbad]
        exact .inl ⟨ill_two hi lo r hbad, rfl⟩
      · rw [if_neg hbad]
        unfold RECV at hbad
        by_cases hm : c.bytes < 256 * hi.toNat + lo.toNat + 2
        · rw [if_pos hm, move (0, false)]
          rw [hp] at hmv ⊢
          exact .inr (.inl ⟨inc_two hi lo r (by omega) (by omega) (by omega), _, hmv.1, hmv.2, rfl⟩)
        · rw [if_neg hm]
          have hl : (r.take (256 * hi.toNat + lo.toNat)).length = 256 * hi.toNat + lo.toNat := by simp; omega
          refine .inr (.inr ⟨r.take (256 * hi.toNat + lo.toNat), r.drop (256 * hi.toNat + lo.toNat), ⟨by omega, by omega⟩, ?_, ?_⟩)
          · rw [frame_form hi lo _ hl]
            simp
          · rw [hl]

/-- A request is taken out of the buffer. -/
theorem take_req (c : Conn) (q t : Bytes) (h1 : c.buf.length = 3840) (h2 : c.head + c.bytes ≤ 3840) (hp : c.pend = frame q ++ t) :
    sub c.buf (c.head + 2) q.length = .ok q ∧ q.length + 2 ≤ c.bytes ∧
      (c.buf.drop (c.head + (q.length + 2))).take (c.bytes - (q.length + 2)) = t := by
  have hpl := pend_len c h1 h2
  have hb : c.bytes = q.length + 2 + t.length := by rw [← hpl, hp]; simp [frame_len]
  refine ⟨?_, by omega, ?_⟩
  · unfold sub
    rw [if_pos (by omega)]
    congr 1
    have : ((c.buf.drop (c.head + 2)).take q.length) = (c.pend.drop 2).take q.length := by
      unfold Conn.pend
      rw [List.drop_take, List.drop_drop, List.take_take, Nat.min_eq_left (by omega)]
    rw [this, hp]
    simp [frame]
  · have : (c.buf.drop (c.head + (q.length + 2))).take (c.bytes - (q.length + 2)) = c.pend.drop (q.length + 2) := by
      unfold Conn.pend
      rw [List.drop_take, List.drop_drop]
    rw [this, hp]
    exact List.drop_left' (frame_len q)

/-- `respond` keeps the invariant. -/
theorem respond_ok (c : Conn) (q t : Bytes) (ans : Ans) (h1 : c.buf.length = 3840) (h2 : c.head + c.bytes ≤ 3840) (h3 : c.hdr ≤ c.got.length)
    (h4 : c.proxy = false) (h5 : ∀ q ∈ c.reqs, Legal q) (h6 : c.stream = (c.reqs.map frame).flatten ++ c.pend) (h7 : c.closed = none)
    (hq : Legal q) (hp : c.pend = frame q ++ t) :
    ∃ c', respond c q.length ans = .ok c' ∧ Inv c' ∧ c'.got = c.got ∧ c'.hdr = c.hdr ∧ c'.reqs = c.reqs ++ [q] ∧ c'.pend = t ∧ c'.proxy = false ∧
      (ans = .sent → c'.closed = none ∨ c'.closed = some .badSize) := by
  obtain ⟨g1, g2, g3⟩ := take_req c q t h1 h2 hp
  unfold respond
  rw [show decide (12 ≤ q.length ∧ q.length ≤ RECV) = true from decide_eq_true hq]
  simp only [assert_true, Outcome.bind_ok]
  rw [g1]
  simp only [Outcome.bind_ok]
  generalize hc1 : ({ c with head := c.head + (q.length + 2), bytes := c.bytes - (q.length + 2), reqs := c.reqs ++ [q] } : Conn) = c1
  have hpend : c1.pend = t := by subst hc1; exact g3
  have hlegal : ∀ x ∈ c.reqs ++ [q], Legal x := by
    intro x hx
    rcases List.mem_append.mp hx with hx | hx
    · exact h5 x hx
    · rw [List.mem_singleton.mp hx]; exact hq
  have hstr : c.stream = ((c.reqs ++ [q]).map frame).flatten ++ t := by rw [h6, hp]; simp
  have base : ∀ w, w ≠ Why.badSize → Inv (close c1 w) := by
    intro w hw
    subst hc1
    refine ⟨h1, ?_, h3, ?_, hlegal, ?_, ?_, ?_, ?_⟩
    · show c.head + (q.length + 2) + (c.bytes - (q.length + 2)) ≤ 3840; omega
    · intro hx; rw [show c.proxy = true from hx] at h4; cases h4
    · show c.stream = _ ++ Conn.pend _
      rw [hstr]; congr 1; exact hpend.symm
    · intro hx; cases hx
    · intro hx; cases hx
    · intro hx; cases hx; exact absurd rfl hw
  have hf : c1.got = c.got ∧ c1.hdr = c.hdr ∧ c1.reqs = c.reqs ++ [q] ∧ c1.proxy = false ∧ c1.closed = none ∧ c1.buf.length = 3840 ∧
      c1.head + c1.bytes ≤ 3840 ∧ c1.stream = c.stream := by
    subst hc1
    exact ⟨rfl, rfl, rfl, h4, h7, h1, by show c.head + (q.length + 2) + (c.bytes - (q.length + 2)) ≤ 3840; omega, rfl⟩
  cases ans with
  | drop => exact ⟨_, rfl, base .dropped (by decide), hf.1, hf.2.1, hf.2.2.1, hpend, hf.2.2.2.1, fun h => by cases h⟩
  | noSend => exact ⟨_, rfl, base .sendFail (by decide), hf.1, hf.2.1, hf.2.2.1, hpend, hf.2.2.2.1, fun h => by cases h⟩
  | sent =>
    dsimp only
    obtain ⟨f1, f2, f3, f4, f5, f6, f7, f8⟩ := hf
    have hl1 : c1.hdr ≤ c1.got.length := by rw [f1, f2]; exact h3
    have hs1 : c1.stream = (c1.reqs.map frame).flatten ++ c1.pend := by rw [f8, f3, hpend]; exact hstr
    rcases nextReq_ok c1 f6 f7 with ⟨k1, k2⟩ | ⟨k1, b', k2, k3, k4⟩ | ⟨q', t', k1, k2, k3⟩
    · rw [k2]
      refine ⟨_, rfl, ⟨f6, f7, hl1, ?_, by rw [show (close c1 _).reqs = c1.reqs from rfl, f3]; exact hlegal, hs1, ?_, ?_, fun _ => k1⟩, f1, f2, f3, hpend, f4, fun _ => .inr rfl⟩
      · intro hx; rw [show (close c1 _).proxy = c1.proxy from rfl, f4] at hx; cases hx
      · intro hx; cases hx
      · intro hx; cases hx
    · rw [k4]
      have hpd : Conn.pend { c1 with buf := b', head := 0, check := false } = c1.pend := by
        show (b'.drop 0).take c1.bytes = c1.pend
        rw [List.drop_zero, k3]
      refine ⟨_, rfl, ⟨k2, ?_, hl1, ?_, by rw [f3]; exact hlegal, ?_, ?_, ?_, ?_⟩, f1, f2, f3, hpd.trans hpend, f4, fun _ => .inl f5⟩
      · show 0 + c1.bytes ≤ 3840; omega
      · intro hx; rw [f4] at hx; cases hx
      · rw [hpd]; exact hs1
      · intro _ _; exact ⟨rfl, by rw [hpd]; exact k1⟩
      · intro _ hx; cases hx
      · intro hx; rw [f5] at hx; cases hx
    · rw [k3]
      refine ⟨_, rfl, ⟨f6, f7, hl1, ?_, by rw [f3]; exact hlegal, hs1, ?_, ?_, ?_⟩, f1, f2, f3, hpend, f4, fun _ => .inl f5⟩
      · intro hx; rw [f4] at hx; cases hx
      · intro _ hx; cases hx
      · intro _ _; exact ⟨f4, q', t', k1, k2⟩
      · intro hx; rw [f5] at hx; cases hx

/-- `check_handler` keeps the invariant. -/
theorem check_ok (c : Conn) (ans : Ans) (h : Inv c) (h1 : c.closed = none) (h2 : c.check = true) :
    ∃ c' q t, checkHandler c ans = .ok c' ∧ Inv c' ∧ c'.got = c.got ∧ c'.hdr = c.hdr ∧ Legal q ∧ c.pend = frame q ++ t ∧ c'.reqs = c.reqs ++ [q] ∧ c'.pend = t ∧ c'.proxy = false ∧
      (ans = .sent → c'.closed = none ∨ c'.closed = some .badSize) := by
  obtain ⟨hpx, q, t, hq, hp⟩ := h.ck h1 h2
  obtain ⟨c', r1, r2, r3, r4, r5, r6, r7, r8⟩ := respond_ok c q t ans h.len h.fit h.hl hpx h.legal h.str h1 hq hp
  refine ⟨c', q, t, ?_, r2, r3, r4, hq, hp, r5, r6, r7, r8⟩
  obtain ⟨hi, lo, e1, e2⟩ := frame_split q hq
  have hpl := pend_len c h.len h.fit
  have hb : c.bytes = q.length + 2 + t.length := by rw [← hpl, hp]; simp [frame_len]
  have g0 := rd_pend c 0 hi (by omega) (by rw [hp, e2]; rfl)
  rw [Nat.add_zero] at g0
  have g1 := rd_pend c 1 lo (by omega) (by rw [hp, e2]; rfl)
  unfold checkHandler
  have := hq.1
  rw [hpx, show decide (2 < c.bytes) = true from decide_eq_true (by omega)]
  simp only [Bool.not_false, assert_true, Outcome.bind_ok]
  rw [g0]
  simp only [Outcome.bind_ok]
  rw [g1]
  simp only [Outcome.bind_ok]
  rw [← e1, show decide (12 ≤ q.length ∧ q.length ≤ RECV) = true from decide_eq_true hq, show decide (q.length + 2 ≤ c.bytes) = true from decide_eq_true (by omega)]
  simp only [assert_true, Outcome.bind_ok]
  exact r1

/-- The end of `read_handler` keeps the invariant. -/
theorem go_ok (c : Conn) (ans : Ans) (h1 : c.buf.length = 3840) (h2 : c.head + c.bytes ≤ 3840) (h3 : c.hdr ≤ c.got.length)
    (h4 : c.proxy = false) (h5 : ∀ q ∈ c.reqs, Legal q) (h6 : c.stream = (c.reqs.map frame).flatten ++ c.pend) (h7 : c.closed = none) (h8 : c.check = false) :
    ∃ c', ((nextReq c).bind fun
      | (.full n, c) => respond c n ans
      | (_, c) => .ok c) = .ok c' ∧ Inv c' ∧ c'.got = c.got ∧ c'.hdr = c.hdr ∧ c'.proxy = false ∧ (ans = .sent → c'.closed = none ∨ c'.closed = some .badSize) := by
  rcases nextReq_ok c h1 h2 with ⟨k1, k2⟩ | ⟨k1, b', k2, k3, k4⟩ | ⟨q', t', k1, k2, k3⟩
  · rw [k2]
    refine ⟨_, rfl, ⟨h1, h2, h3, ?_, h5, h6, ?_, ?_, fun _ => k1⟩, rfl, rfl, h4, fun _ => .inr rfl⟩
    · intro hx; rw [show (close c _).proxy = c.proxy from rfl, h4] at hx; cases hx
    · intro hx; cases hx
    · intro hx; cases hx
  · rw [k4]
    have hpd : Conn.pend { c with buf := b', head := 0 } = c.pend := by
      show (b'.drop 0).take c.bytes = c.pend
      rw [List.drop_zero, k3]
    refine ⟨_, rfl, ⟨k2, ?_, h3, ?_, h5, ?_, ?_, ?_, ?_⟩, rfl, rfl, h4, fun _ => .inl h7⟩
    · show 0 + c.bytes ≤ 3840; omega
    · intro hx; rw [h4] at hx; cases hx
    · rw [hpd]; exact h6
    · intro _ _; exact ⟨rfl, by rw [hpd]; exact k1⟩
    · intro _ hx; rw [h8] at hx; cases hx
    · intro hx; rw [h7] at hx; cases hx
  · rw [k3]
    obtain ⟨c', r1, r2, r3, r4, r5, r6, r7, r8⟩ := respond_ok c q' t' ans h1 h2 h3 h4 h5 h6 h7 k1 k2
    exact ⟨c', r1, r2, r3, r4, r7, r8⟩

/-- A read keeps the invariant, unless the data of a proxied connection starts with a version 1
header of more than 108 bytes. -/
theorem read_ok (gai : Bytes → Bytes → Option Proxy.Addr) (c : Conn) (rv : Recv) (ans : Ans) (h : Inv c) (hc : (Event.read rv ans).Can c) :
    (readHandler gai c rv ans = .ub ∧ c.proxy = true ∧ ∃ d n src sport, rv = .data d ∧ Proxy.Header1 d n src sport ∧ 108 < n) ∨
    ∃ c', readHandler gai c rv ans = .ok c' ∧ Inv c' ∧ c'.got = c.got ++ (match rv with | .data d => d | _ => []) ∧
      (c.proxy = false → c'.proxy = false ∧ c'.hdr = c.hdr) ∧
      (∀ d, rv = .data d → ans = .sent → c.proxy = false → c'.closed = none ∨ c'.closed = some .badSize) := by
  have hop : c.closed = none ∧ c.check = false := by
    cases rv with
    | data d => exact ⟨hc.1, hc.2.1⟩
    | _ => exact hc
  obtain ⟨hh, hinc⟩ := h.rd hop.1 hop.2
  have hpl := pend_len c h.len h.fit
  have hlt : c.bytes < READBUF := by
    obtain ⟨q, t, h1, h2, h3⟩ := hinc
    have := congrArg List.length h2
    rw [frame_len, List.length_append, hpl] at this
    have := h1.2
    have := List.length_pos_iff.mpr h3
    unfold READBUF
    omega
  have hcl : ∀ w, w ≠ Why.badSize → Inv (close c w) := fun w hw =>
    ⟨h.len, h.fit, h.hl, h.px, h.legal, h.str, fun hx => (by cases hx), fun hx => (by cases hx), fun hx => (by cases hx; exact absurd rfl hw)⟩
  unfold readHandler
  rw [show decide (c.bytes < READBUF) = true from decide_eq_true hlt]
  simp only [assert_true, Outcome.bind_ok]
  cases rv with
  | eof => exact .inr ⟨_, rfl, hcl .eof (by decide), (List.append_nil _).symm, fun hx => ⟨hx, rfl⟩, fun d hd => by cases hd⟩
  | error => exact .inr ⟨_, rfl, hcl .error (by decide), (List.append_nil _).symm, fun hx => ⟨hx, rfl⟩, fun d hd => by cases hd⟩
  | again => exact .inr ⟨_, rfl, h, (List.append_nil _).symm, fun hx => ⟨hx, rfl⟩, fun d hd => by cases hd⟩
  | data d =>
    have hd : d.length ≤ 3840 - c.bytes := hc.2.2.2
    have hd0 : 0 < d.length := List.length_pos_iff.mpr hc.2.2.1
    have hfit := h.fit
    have hlen := h.len
    dsimp only
    rw [show decide (d.length ≤ READBUF - c.bytes) = true from decide_eq_true hd]
    simp only [assert_true, Outcome.bind_ok]
    rw [if_pos (by omega)]
    unfold afterRecv
    simp only
    rw [show decide (c.bytes + d.length ≠ 0) = true from decide_eq_true (by omega)]
    simp only [assert_true, Outcome.bind_ok]
    -- the buffer after `recv`
    generalize hb : c.buf.take c.bytes ++ d ++ c.buf.drop (c.bytes + d.length) = b
    have htl : (c.buf.take c.bytes).length = c.bytes := by simp; omega
    have hbl : b.length = 3840 := by rw [← hb]; simp; omega
    have hpb : b.take (c.bytes + d.length) = c.pend ++ d := by
      rw [← hb, List.take_left' (by simp; omega)]
      congr 1
      unfold Conn.pend
      rw [hh, List.drop_zero]
    have hstr : (c.got ++ d).drop c.hdr = (c.reqs.map frame).flatten ++ (c.pend ++ d) := by
      rw [List.drop_append_of_le_length h.hl, show c.got.drop c.hdr = c.stream from rfl, h.str, List.append_assoc]
    have hgl : c.hdr ≤ (c.got ++ d).length := by have := h.hl; simp; omega
    cases hpx : c.proxy with
    | false =>
      simp only [Bool.false_eq_true, if_false]
      obtain ⟨c', r1, r2, r3, r4, r5, r6⟩ := go_ok { c with buf := b, bytes := c.bytes + d.length, got := c.got ++ d } ans hbl
        (by show c.head + (c.bytes + d.length) ≤ 3840; omega) hgl hpx h.legal
        (by show (c.got ++ d).drop c.hdr = _ ++ (b.drop c.head).take (c.bytes + d.length); rw [hh, List.drop_zero, hpb]; exact hstr) hop.1 hop.2
      rw [hpx] at r1
      exact .inr ⟨c', r1, r2, r3, fun _ => ⟨r5, r4⟩, fun _ _ hs _ => r6 hs⟩
    | true =>
      obtain ⟨p1, p2, p3, p4, p5, p6⟩ := h.px hpx
      have hpn : c.pend = [] := List.eq_nil_of_length_eq_zero (hpl.trans p2)
      rw [hpn, List.nil_append, p2, Nat.zero_add] at hpb
      simp only [if_true]
      rw [p2, Nat.zero_add]
      cases hparse : Proxy.parse gai b d.length with
      | ub =>
        refine .inl ⟨rfl, trivial, Classical.byContradiction fun hno => ?_⟩
        obtain ⟨o, e1, _⟩ := Proxy.C41_bounds_partial gai b d.length (by omega)
          (by rw [hpb]; exact fun n src sport hx => Nat.le_of_not_lt fun hn => hno ⟨d, n, src, sport, rfl, hx, hn⟩)
        rw [hparse] at e1
        cases e1
      | ok o =>
      simp only [Outcome.bind_ok]
      cases o with
      | none =>
        refine .inr ⟨_, rfl, ⟨hbl, ?_, ?_, ?_, ?_, ?_, ?_, ?_, ?_⟩, rfl, (fun hx => by cases hx), (fun _ _ _ hx => by cases hx)⟩
        · show c.head + d.length ≤ 3840; omega
        · show c.hdr ≤ (c.got ++ d).length; exact hgl
        · intro hx; cases hx
        · exact h.legal
        · show (c.got ++ d).drop c.hdr = (c.reqs.map frame).flatten ++ (b.drop c.head).take d.length
          rw [hh, List.drop_zero, hpb, hstr, hpn, List.nil_append]
        · intro hx; cases hx
        · intro hx; cases hx
        · intro hx; cases hx
      | some r =>
        obtain ⟨g1, g2, g3, g4⟩ := Proxy.parse_some gai b d.length (by omega) r hparse
        dsimp only
        rw [show decide (r.skip ≤ d.length) = true from decide_eq_true g2]
        simp only [assert_true, Outcome.bind_ok]
        obtain ⟨c', r1, r2, r3, r4, r5, r6⟩ := go_ok { c with proxy := false, buf := r.buf, bytes := d.length - r.skip, head := c.head + r.skip, got := c.got ++ d, hdr := r.skip } ans
          (by rw [g3]; exact hbl) (by show c.head + r.skip + (d.length - r.skip) ≤ 3840; omega) (by show r.skip ≤ (c.got ++ d).length; simp; omega) rfl h.legal
          (by
            show (c.got ++ d).drop r.skip = (c.reqs.map frame).flatten ++ (r.buf.drop (c.head + r.skip)).take (d.length - r.skip)
            rw [p3, p4, p1, Nat.zero_add, g4, ← List.drop_take, hpb]; rfl) hop.1 hop.2
        exact .inr ⟨c', r1, r2, r3, (fun hx => by cases hx), (fun _ _ _ hx => by cases hx)⟩

theorem init_inv (proxy : Bool) : Inv (init proxy) := by
  have hp : Conn.pend (init proxy) = [] := List.take_zero
  refine ⟨List.length_replicate, Nat.zero_le _, Nat.zero_le _, fun _ => ⟨rfl, rfl, rfl, rfl, rfl, rfl⟩, (fun q hq => by cases (show q ∈ [] from hq)), ?_, ?_, ?_, ?_⟩
  · rw [hp]; rfl
  · intro _ _; exact ⟨rfl, by rw [hp]; exact inc_nil⟩
  · intro _ hx; cases hx
  · intro hx; cases hx

/-- Every state of every run satisfies the invariant. -/
theorem run_inv (gai : Bytes → Bytes → Option Proxy.Addr) (proxy : Bool) (c : Conn) (h : Run gai proxy c) : Inv c ∧ (proxy = false → c.proxy = false ∧ c.hdr = 0) := by
  induction h with
  | init => exact ⟨init_inv proxy, fun h => ⟨h, rfl⟩⟩
  | @step c c' e _ hcan hst ih =>
    obtain ⟨ih, ihp⟩ := ih
    cases e with
    | check ans =>
      obtain ⟨c'', q, t, r1, r2, r3, r4, _, _, _, _, r5, _⟩ := check_ok c ans ih hcan.1 hcan.2
      rw [show step gai c (.check ans) = checkHandler c ans from rfl, r1] at hst
      cases hst
      exact ⟨r2, fun hx => ⟨r5, r4.trans (ihp hx).2⟩⟩
    | read rv ans =>
      rw [show step gai c (.read rv ans) = readHandler gai c rv ans from rfl] at hst
      rcases read_ok gai c rv ans ih hcan with ⟨r1, _⟩ | ⟨c'', r1, r2, r3, r4, _⟩
      · rw [r1] at hst; cases hst
      · rw [r1] at hst
        cases hst
        exact ⟨r2, fun hx => ⟨(r4 (ihp hx).1).1, (r4 (ihp hx).1).2.trans (ihp hx).2⟩⟩

end Gdnsd.Stream
