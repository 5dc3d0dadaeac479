/-
Properties of the requests of a TCP stream.
-/
import Verif.Stream.InvLemmas
namespace Gdnsd.Stream

/-- The reading of what was received, from the state. -/
theorem run_parse {c : Conn} (h : Inv c) :
    (c.closed = none → c.check = false → Parse c.stream c.reqs false) ∧ (c.closed = some .badSize → Parse c.stream c.reqs true) ∧
    (∀ qs b, Parse c.pend qs b → Parse c.stream (c.reqs ++ qs) b) := by
  refine ⟨fun h1 h2 => ?_, fun h1 => ?_, fun qs b hp => ?_⟩
  · have := parse_frames c.reqs h.legal (.more (h.rd h1 h2).2)
    rw [← h.str, List.append_nil] at this
    exact this
  · have := parse_frames c.reqs h.legal (.bad (h.bs h1))
    rw [← h.str, List.append_nil] at this
    exact this
  · have := parse_frames c.reqs h.legal hp
    rw [← h.str] at this
    exact this

/-- **C39, safety** (partial): every event of every run is handled within the buffer and without a
failed assertion. Missing: proxied connections that start with a version 1 header of more than
108 bytes (`C41_false_long`). -/
theorem C39_safe_partial (gai : Bytes → Bytes → Option Proxy.Addr) (proxy : Bool) (c : Conn) (h : Run gai proxy c) (e : Event) (he : e.Can c)
    (hlong : c.proxy = true → ∀ d n src sport ans, e = .read (.data d) ans → Proxy.Header1 d n src sport → n ≤ 108) : ∃ c', step gai c e = .ok c' := by
  have hi := (run_inv gai proxy c h).1
  cases e with
  | check ans =>
    obtain ⟨c', _, _, r1, _⟩ := check_ok c ans hi he.1 he.2
    exact ⟨c', r1⟩
  | read rv ans =>
    rcases read_ok gai c rv ans hi he with ⟨_, h2, d, n, src, sport, h3, h4, h5⟩ | ⟨c', r1, _⟩
    · exact absurd (hlong h2 d n src sport ans (by rw [h3]) h4) (by omega)
    · exact ⟨c', r1⟩

/-- **C39, requests**: for every run, the requests processed so far are the first requests of the
stream. When the connection waits for data they are all its requests, and the stream has no illegal
size; when it was closed for an illegal size, they are all the requests before an illegal size in
the stream. -/
theorem C39_requests (gai : Bytes → Bytes → Option Proxy.Addr) (proxy : Bool) (c : Conn) (h : Run gai proxy c) (qs : List Bytes) (bad : Bool) (hp : Parse c.stream qs bad) :
    c.reqs <+: qs ∧
    (c.closed = none → c.check = false → c.reqs = qs ∧ bad = false) ∧
    (c.closed = some .badSize → c.reqs = qs ∧ bad = true) ∧
    (c.closed = none → c.check = true → c.reqs ≠ qs) := by
  have hi := (run_inv gai proxy c h).1
  obtain ⟨p1, p2, p3⟩ := run_parse hi
  refine ⟨?_, fun h1 h2 => ?_, fun h1 => ?_, fun h1 h2 he => ?_⟩
  · obtain ⟨qs', b', hq⟩ := parse_exists c.pend
    obtain ⟨e, _⟩ := parse_unique (p3 qs' b' hq) hp
    exact ⟨qs', e⟩
  · obtain ⟨e1, e2⟩ := parse_unique (p1 h1 h2) hp
    exact ⟨e1, e2.symm⟩
  · obtain ⟨e1, e2⟩ := parse_unique (p2 h1) hp
    exact ⟨e1, e2.symm⟩
  · obtain ⟨_, q, t, hq, hpd⟩ := hi.ck h1 h2
    obtain ⟨qs', b', hq'⟩ := parse_exists t
    have := p3 (q :: qs') b' (by rw [hpd]; exact .req hq hq')
    obtain ⟨e, _⟩ := parse_unique this hp
    have := congrArg List.length (e.trans he.symm)
    simp at this

/-- Checks with answered requests, one after another. -/
def drain (c : Conn) : Nat → Outcome Conn
  | 0 => .ok c
  | n + 1 => (checkHandler c .sent).bind fun c' => drain c' n

theorem drain_ok (gai : Bytes → Bytes → Option Proxy.Addr) (proxy : Bool) (qs : List Bytes) : ∀ (c : Conn), Run gai proxy c →
    c.closed = none ∨ c.closed = some .badSize → ∀ bad, Parse c.stream (c.reqs ++ qs) bad →
    ∃ c', drain c qs.length = .ok c' ∧ Run gai proxy c' ∧ c'.got = c.got ∧ c'.hdr = c.hdr ∧ c'.Settled ∧ c'.reqs = c.reqs ++ qs := by
  induction qs with
  | nil =>
    intro c h ho bad hp
    rw [List.append_nil] at hp
    refine ⟨c, rfl, h, rfl, rfl, ?_, (List.append_nil _).symm⟩
    rcases ho with ho | ho
    · cases hk : c.check with
      | false => exact .inl ⟨ho, hk⟩
      | true => exact absurd rfl ((C39_requests gai proxy c h _ _ hp).2.2.2 ho hk)
    · exact .inr ho
  | cons q qs ih =>
    intro c h ho bad hp
    have hi := (run_inv gai proxy c h).1
    obtain ⟨_, c2, c3, _⟩ := C39_requests gai proxy c h _ _ hp
    have hne : c.reqs ≠ c.reqs ++ q :: qs := fun hc => by have := congrArg List.length hc; simp at this
    have hcl : c.closed = none := by
      rcases ho with ho | ho
      · exact ho
      · exact absurd (c3 ho).1 hne
    have hk : c.check = true := by
      cases hk : c.check with
      | true => rfl
      | false => exact absurd (c2 hcl hk).1 hne
    obtain ⟨c', q', t, r1, r2, r3, r4, r5, r6, r7, r8, r9, r10⟩ := check_ok c .sent hi hcl hk
    have hrun : Run gai proxy c' := .step (e := .check .sent) h ⟨hcl, hk⟩ r1
    have hst : c'.stream = c.stream := by unfold Conn.stream; rw [r3, r4]
    have hpre := (C39_requests gai proxy c' hrun _ _ (hst ▸ hp)).1
    have hq : q' = q := by
      rw [r7] at hpre
      obtain ⟨u, hu⟩ := hpre
      simp at hu
      exact hu.1
    subst hq
    have hp' : Parse c'.stream (c'.reqs ++ qs) bad := by rw [hst, r7]; simpa using hp
    obtain ⟨c'', d1, d2, d3, d4, d5, d6⟩ := ih c' hrun (r10 rfl) bad hp'
    refine ⟨c'', ?_, d2, d3.trans r3, d4.trans r4, d5, by rw [d6, r7]; simp⟩
    show (checkHandler c .sent).bind _ = _
    rw [r1]
    exact d1

/-- **C39, all requests are processed**: in every state of every run that is not closed, if the
requests in the buffer are answered, all requests of the stream so far are processed, one per event
and without further data; then the connection waits for data or, if and only if there is an
illegal size, is closed for it. -/
theorem C39_drain (gai : Bytes → Bytes → Option Proxy.Addr) (proxy : Bool) (c : Conn) (h : Run gai proxy c) (ho : c.closed = none)
    (qs : List Bytes) (bad : Bool) (hp : Parse c.stream qs bad) :
    ∃ c', drain c (qs.length - c.reqs.length) = .ok c' ∧ Run gai proxy c' ∧ c'.got = c.got ∧ c'.reqs = qs ∧ c'.Settled ∧ (c'.closed = some .badSize ↔ bad = true) := by
  obtain ⟨u, hu⟩ := (C39_requests gai proxy c h qs bad hp).1
  subst hu
  obtain ⟨c', d1, d2, d3, d4, d5, d6⟩ := drain_ok gai proxy u c h (.inl ho) bad hp
  have hst : c'.stream = c.stream := by unfold Conn.stream; rw [d3, d4]
  obtain ⟨_, c2, c3, _⟩ := C39_requests gai proxy c' d2 _ _ (hst ▸ hp)
  refine ⟨c', by simpa using d1, d2, d3, d6, d5, fun hx => (c3 hx).2, fun hb => ?_⟩
  rcases d5 with ⟨h1, h2⟩ | h1
  · have := (c2 h1 h2).2
    rw [hb] at this; cases this
  · exact h1

/-- **C39, segmentation** (partial): take any two runs of connections without PROXY headers that read the same
bytes, however these are split, up to a point where each waits for data after all of them or was
closed for an illegal size. Both have processed the same requests, and both are closed or neither
is. Missing: PROXY headers (`C39_false_proxy`). -/
theorem C39_segmentation_partial (gai : Bytes → Bytes → Option Proxy.Addr) (s : Bytes) (c c' : Conn) (h : Run gai false c) (h' : Run gai false c')
    (hg : (c.closed = none ∧ c.check = false ∧ c.got = s) ∨ (c.closed = some .badSize ∧ c.got <+: s))
    (hg' : (c'.closed = none ∧ c'.check = false ∧ c'.got = s) ∨ (c'.closed = some .badSize ∧ c'.got <+: s)) :
    c.reqs = c'.reqs ∧ c.closed = c'.closed := by
  have key : ∀ c : Conn, Run gai false c → (c.closed = none ∧ c.check = false ∧ c.got = s) ∨ (c.closed = some .badSize ∧ c.got <+: s) →
      ∃ b, Parse s c.reqs b ∧ c.closed = (if b then some .badSize else none) := by
    intro c h hg
    have hi := run_inv gai false c h
    obtain ⟨p1, p2, _⟩ := run_parse hi.1
    have hs : c.stream = c.got := by unfold Conn.stream; rw [(hi.2 rfl).2]; rfl
    rcases hg with ⟨g1, g2, g3⟩ | ⟨g1, u, hu⟩
    · exact ⟨false, by rw [← g3, ← hs]; exact p1 g1 g2, g1⟩
    · exact ⟨true, by rw [← hu, ← hs]; exact parse_bad_append (p2 g1) rfl u, g1⟩
  obtain ⟨b, k1, k2⟩ := key c h hg
  obtain ⟨b', k1', k2'⟩ := key c' h' hg'
  obtain ⟨e1, e2⟩ := parse_unique k1 k1'
  exact ⟨e1, by rw [k2, k2', e2]⟩

/-! ### The PROXY header must come in one segment -/

theorem split_proxy (gai : Bytes → Bytes → Option Proxy.Addr) (d : Bytes) (hd : d.length < 8) (hd0 : d ≠ []) (ans : Ans) :
    ∃ c', step gai (init true) (.read (.data d) ans) = .ok c' ∧ c'.closed = some .badProxy := by
  have hcan : (Event.read (.data d) ans).Can (init true) := ⟨rfl, rfl, hd0, by show d.length ≤ 3840 - 0; omega⟩
  show ∃ c', readHandler gai (init true) (.data d) ans = .ok c' ∧ c'.closed = some .badProxy
  have h0 : 0 < d.length := List.length_pos_iff.mpr hd0
  unfold readHandler
  rw [show decide ((init true).bytes < READBUF) = true from rfl]
  simp only [assert_true, Outcome.bind_ok]
  rw [show decide (d.length ≤ READBUF - (init true).bytes) = true from decide_eq_true hcan.2.2.2]
  simp only [assert_true, Outcome.bind_ok]
  have hlen : (init true).buf.length = 3840 := List.length_replicate
  have hb0 : (init true).bytes = 0 := rfl
  rw [if_pos (by rw [hlen, hb0]; omega)]
  unfold afterRecv
  simp only
  rw [hb0, show decide (0 + d.length ≠ 0) = true from decide_eq_true (by omega)]
  simp only [assert_true, Outcome.bind_ok]
  rw [if_pos (show (init true).proxy = true from rfl)]
  unfold Proxy.parse Proxy.isV2 Proxy.isV1
  rw [if_neg (by omega), if_neg (by omega)]
  exact ⟨_, rfl, rfl⟩

/-- A test of the state after a step. -/
def okAnd (o : Outcome Conn) (p : Conn → Bool) : Bool := match o with | .ok c => p c | .ub => false

theorem okAnd_iff {o : Outcome Conn} {p : Conn → Bool} (h : okAnd o p = true) : ∃ c, o = .ok c ∧ p c = true := by
  cases o with
  | ok c => exact ⟨c, rfl, h⟩
  | ub => cases h

/-- A PROXY header of version 2, LOCAL, and a request. -/
def proxied : Bytes := Proxy.v2sig ++ [0x20, 0, 0, 0] ++ frame (List.replicate 12 7)

/-- **C39 is false for proxied connections**: the start of a stream, if fewer than eight bytes of it come in a
segment of their own, closes the connection, whatever the stream is; in one segment the request of a
good stream is processed. -/
theorem C39_false_proxy :
    (∀ gai d, d ≠ [] → d.length < 8 → ∃ c, Run gai true c ∧ c.got = d ∧ c.closed = some .badProxy) ∧
    (∃ c c', Run (fun _ _ => none) true c ∧ c.got = proxied ∧ c.closed = none ∧ c.reqs = [List.replicate 12 7] ∧
      Run (fun _ _ => none) true c' ∧ c'.got <+: proxied ∧ c'.closed = some .badProxy) := by
  have first : ∀ gai d, d ≠ [] → d.length < 8 → ∃ c, Run gai true c ∧ c.got = d ∧ c.closed = some .badProxy := by
    intro gai d h0 h8
    have hcan : (Event.read (.data d) .sent).Can (init true) := ⟨rfl, rfl, h0, by show d.length ≤ 3840 - 0; omega⟩
    obtain ⟨c', h1, h2⟩ := split_proxy gai d h8 h0 .sent
    refine ⟨c', .step .init hcan h1, ?_, h2⟩
    rcases read_ok gai (init true) (.data d) .sent (init_inv true) hcan with ⟨r1, _⟩ | ⟨c'', r1, _, r3, _⟩
    · rw [show readHandler gai (init true) (.data d) .sent = .ok c' from h1] at r1
      cases r1
    · rw [show readHandler gai (init true) (.data d) .sent = .ok c' from h1] at r1
      cases r1
      exact r3
  refine ⟨first, ?_⟩
  have hcan : (Event.read (.data proxied) .sent).Can (init true) := ⟨rfl, rfl, by decide, by decide⟩
  obtain ⟨c, h1, h2⟩ := okAnd_iff (o := step (fun _ _ => none) (init true) (.read (.data proxied) .sent))
    (p := fun c => c.got == proxied && c.closed == none && c.reqs == [List.replicate 12 7]) (by decide +kernel)
  simp only [Bool.and_eq_true, beq_iff_eq] at h2
  obtain ⟨c', g1, g2, g3⟩ := first (fun _ _ => none) (proxied.take 7) (by decide) (by decide)
  exact ⟨c, c', .step .init hcan h1, h2.1.1, h2.1.2, h2.2, g1, g2 ▸ List.take_prefix _ _, g3⟩

/-! ### Non-vacuity -/

/-- A request of 12 bytes. -/
def q0 : Bytes := List.replicate 12 7

example : Parse (frame q0 ++ [0, 12, 1]) [q0] false := .req ⟨by decide, by decide⟩ (.more ⟨List.replicate 12 1, List.replicate 11 1, ⟨by decide, by decide⟩, by decide, by decide⟩)
example : Parse (frame q0 ++ [5]) [q0] true := .req ⟨by decide, by decide⟩ (.bad (ill_one 5 [] (by decide)))

/-- Two requests and an illegal size in one segment: the second request waits for the check handler, the
connection is closed after it. -/
def seg : Bytes := frame q0 ++ (frame q0 ++ [0, 11])

example : okAnd (step (fun _ _ => none) (init false) (.read (.data seg) .sent)) (fun c => c.check && c.reqs == [q0] && c.closed == none &&
    okAnd (step (fun _ _ => none) c (.check .sent)) fun c' => c'.reqs == [q0, q0] && c'.closed == some .badSize) = true := by decide +kernel

/-- The same bytes one by one. -/
def bytewise (c : Conn) : Bytes → Outcome Conn
  | [] => .ok c
  | x :: r => (step (fun _ _ => none) c (.read (.data [x]) .sent)).bind fun c => bytewise c r

example : okAnd (bytewise (init false) seg) (fun c => c.reqs == [q0, q0] && c.closed == some .badSize) = true := by decide +kernel

end Gdnsd.Stream
