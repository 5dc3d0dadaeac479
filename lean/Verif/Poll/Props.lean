/-
Properties of the checks of addresses (src/plugins/http_status.c, src/plugins/tcp_connect.c).
-/
import Verif.Poll.TcpLemmas
namespace Gdnsd.Poll
open PollSpec

/-! ### C85: checks over HTTP -/

/-- A service type as `plugin_http_status_add_svctype` makes it: there is a request, and the codes have three
digits. -/
structure Svc.Valid (v : Svc) : Prop where
  req : v.req ≠ []
  ok : ∀ c ∈ v.ok, 100 ≤ c ∧ c ≤ 999

/-- C85. In every history of timers, events and answers of the kernel: no assertion fails. What happens is one check
after the other, each with one result, and one socket that is closed again; a check is under way only as long as its
socket is open, and a timer runs as long. Each round begins a check, or is left out. -/
theorem C85_checks (v : Svc) (hv : v.Valid) (es : List Ev) :
    Http.start.run v [] es ≠ .ub ∧
    ∀ s acts, Http.start.run v [] es = .ok (some (s, acts)) →
      ∃ (checks : List (List Act × Bool)) (rest : List Act),
        noSkips acts = (checks.map (·.1)).flatten ++ rest ∧
        (∀ c ∈ checks, HttpCheck v.req v.ok c.1 c.2) ∧
        reports acts = checks.map (·.2) ∧
        rounds es = left acts + begun acts ∧
        (s.sock = none → rest = [] ∧ begun acts = checks.length) ∧
        (∀ fd, s.sock = some fd → HttpPart v.req fd rest ∧ begun acts = checks.length + 1 ∧ s.tmo ≠ .off) := by
  obtain ⟨h1, h2⟩ := run_good hv.req hv.ok es .start [] [] [] rfl (by simp) (inv_start v)
  refine ⟨h1, ?_⟩
  intro s acts he
  obtain ⟨hr, checks, rest, h3, h4, h5⟩ := h2 s acts he
  obtain ⟨p1, p2⟩ := checks_plain checks h4
  obtain ⟨i1, i2, i3, i4⟩ := h5.part
  have hrep : reports rest = [] := by
    cases hs : s.sock with
    | none => rw [i1 hs]; rfl
    | some fd => exact (i2 fd hs).plain.1
  refine ⟨checks, rest, h3, h4, ?_, by simpa [left, begun] using hr, ?_, ?_⟩
  · rw [← reports_noSkips, h3, reports_append, p1, hrep, List.append_nil]
  · intro hs
    refine ⟨i1 hs, ?_⟩
    rw [← begun_noSkips, h3, begun_append, p2, i1 hs]
    rfl
  · intro fd hs
    refine ⟨i2 fd hs, ?_, ?_⟩
    · rw [← begun_noSkips, h3, begun_append, p2, (i2 fd hs).plain.2]
    · intro ht
      rw [i4.2 ht] at hs
      cases hs

/-- C85. A check that is under way ends with a failure when its time is up, whatever the peer does. -/
theorem C85_timeout (v : Svc) (hv : v.Valid) (es : List Ev) (s : Http) (acts : List Act) (fd : Nat)
    (h : Http.start.run v [] es = .ok (some (s, acts))) (hs : s.sock = some fd) :
    ∃ more s', (more = [Ev.expire, .timeout] ∨ more = [.timeout]) ∧ s.run v acts more = .ok (some (s', acts ++ [.timeout, .closed fd, .report false])) ∧ s'.sock = none := by
  obtain ⟨h1, h2⟩ := run_good hv.req hv.ok es .start [] [] [] rfl (by simp) (inv_start v)
  obtain ⟨hr, checks, rest, h3, h4, h5⟩ := h2 s acts h
  obtain ⟨st, sock, rd, wr, tmo, done, conn, buf⟩ := s
  have key : tmo ≠ .off ∧ ((st = .reading ∧ rd = true ∧ wr = false) ∨ (st = .writing ∧ wr = true ∧ rd = false)) := by
    cases h5 with
    | waiting _ h2 => rw [hs] at h2; cases h2
    | connecting a b c d e => exact ⟨e, .inr ⟨a, d, c⟩⟩
    | writing a b c d e => exact ⟨e, .inr ⟨a, d, c⟩⟩
    | reading a b c d e => exact ⟨e, .inl ⟨a, c, d⟩⟩
  dsimp only at hs
  subst hs
  obtain ⟨ht, hk⟩ := key
  cases tmo with
  | off => exact absurd rfl ht
  | active =>
    refine ⟨[.expire, .timeout], ⟨.waiting, none, false, false, .off, done, conn, buf⟩, .inl rfl, ?_, rfl⟩
    rcases hk with ⟨rfl, rfl, rfl⟩ | ⟨rfl, rfl, rfl⟩ <;> simp [Http.run, Http.step, Http.timeout, Outcome.map, assert, Outcome.bind]
  | pending =>
    refine ⟨[.timeout], ⟨.waiting, none, false, false, .off, done, conn, buf⟩, .inr rfl, ?_, rfl⟩
    rcases hk with ⟨rfl, rfl, rfl⟩ | ⟨rfl, rfl, rfl⟩ <;> simp [Http.run, Http.step, Http.timeout, Outcome.map, assert, Outcome.bind]

/-- C85. When the loop has nothing more to wait for after the first round, there is one result for each round. -/
theorem C85_drained (v : Svc) (hv : v.Valid) (es : List Ev) (s : Http) (acts : List Act)
    (h : Http.start.run v [] es = .ok (some (s, acts))) (hd : s.rd = false ∧ s.wr = false ∧ s.tmo = .off) :
    rounds es = left acts + (reports acts).length ∧ (rounds es ≤ 1 → left acts = 0) := by
  obtain ⟨h1, h2⟩ := run_good hv.req hv.ok es .start [] [] [] rfl (by simp) (inv_start v)
  obtain ⟨hr, checks, rest, h3, h4, h5⟩ := h2 s acts h
  have hsock := h5.part.2.2.2.2 hd.2.2
  obtain ⟨c2, r2, k1, k2, k3, k4, k5, k6⟩ := (C85_checks v hv es).2 s acts h
  have hlen : (reports acts).length = begun acts := by rw [k3, List.length_map, (k5 hsock).2]
  refine ⟨by rw [hlen]; exact k4, ?_⟩
  intro hone
  refine Classical.byContradiction fun hne => ?_
  have hb : begun acts = 0 := by omega
  have hsk : ∀ (es : List Ev) (s : Http) (acts : List Act) (s' : Http) (acts' : List Act), s.run v acts es = .ok (some (s', acts')) →
      begun acts' = 0 → s.st = .waiting → left acts' = left acts := by
    intro es
    induction es with
    | nil => intro s acts s' acts' he _ _; cases he; rfl
    | cons e es ih =>
      intro s acts s' acts' he hb hw
      unfold Http.run at he
      cases hst : s.step v e with
      | ub => rw [hst] at he; cases he
      | ok o =>
        cases o with
        | none => rw [hst] at he; cases he
        | some p =>
          obtain ⟨s1, a⟩ := p
          rw [hst] at he
          have hmono : ∀ (es : List Ev) (s : Http) (acts : List Act) (s' : Http) (acts' : List Act), s.run v acts es = .ok (some (s', acts')) → begun acts ≤ begun acts' := by
            intro es
            induction es with
            | nil => intro s acts s' acts' he; cases he; exact Nat.le_refl _
            | cons e es ih =>
              intro s acts s' acts' he
              unfold Http.run at he
              cases hst : s.step v e with
              | ub => rw [hst] at he; cases he
              | ok o =>
                cases o with
                | none => rw [hst] at he; cases he
                | some p =>
                  obtain ⟨s1, a⟩ := p
                  rw [hst] at he
                  have := ih s1 _ s' acts' he
                  rw [begun_append] at this
                  omega
          have hm := hmono es s1 (acts ++ a) s' acts' he
          rw [begun_append] at hm
          have hba : begun a = 0 := by omega
          cases e with
          | interval c =>
            exfalso
            simp only [Http.step, Http.interval] at hst
            rw [if_neg (by simp [hw])] at hst
            cases hb1 : decide (s.sock = none) <;> rw [hb1] at hst <;> cases hb2 : !s.wr <;> rw [hb2] at hst <;> cases hb3 : decide (s.tmo = .off) <;> rw [hb3] at hst
            all_goals first | (cases hst; done) | (cases c <;> (cases hst; simp [begun] at hba))
          | expire =>
            have hr1 := step_rounds hst
            have : s1.st = .waiting := by
              simp only [Http.step] at hst
              split at hst <;> cases hst
              exact hw
            have h' := ih s1 _ s' acts' he hb this
            rw [h', left_append]
            simp only [rounds] at hr1
            omega
          | timeout =>
            have hr1 := step_rounds hst
            have : s1.st = .waiting := by
              simp only [Http.step, Http.timeout] at hst
              split at hst
              · cases hs : s.sock with
                | none => rw [hs] at hst; cases hst
                | some fd =>
                  rw [hs] at hst
                  simp [hw, assert, Outcome.bind, Outcome.map] at hst
              · cases hst
            have h' := ih s1 _ s' acts' he hb this
            rw [h', left_append]
            simp only [rounds] at hr1
            omega
          | write err r =>
            exfalso
            simp only [Http.step, Http.write] at hst
            split at hst
            · simp [hw, assert, Outcome.bind, Outcome.map] at hst
            · cases hst
          | read r =>
            exfalso
            simp only [Http.step, Http.read] at hst
            split at hst
            · simp [hw, assert, Outcome.bind, Outcome.map] at hst
            · cases hst
  have := hsk es .start [] s acts h hb rfl
  simp only [left] at this
  omega

/-- A service type of the defaults, and what the kernel does in a check with a good end: the request in two parts and
the answer in two parts. A round comes while it is under way. -/
def exSvc : Svc := { req := Request [47] none, ok := [200] }

def exEs (tail : String) : List Ev :=
  [.interval (.wait 7), .write false (.moved 10), .write false .again, .write false (.moved 100), .interval .noSocket,
   .read .again, .read (.got (txt "HTTP/1.")), .read (.got (txt tail)), .interval (.wait 8), .expire]

theorem exSvc_valid : exSvc.Valid := ⟨by decide +kernel, by simp [exSvc]⟩

example : ∃ s acts, Http.start.run exSvc [] (exEs "1 200 OK") = .ok (some (s, acts)) ∧ s.sock = some 8 ∧ reports acts = [true] ∧ left acts = 1 ∧ begun acts = 2 := by
  refine ⟨_, _, rfl, ?_, ?_, ?_, ?_⟩ <;> decide +kernel

example : ∃ s acts, Http.start.run exSvc [] [.interval (.now 3), .write true (.moved 100), .expire, .read .fail] = .ok (some (s, acts)) ∧
    (s.rd = false ∧ s.wr = false ∧ s.tmo = .off) ∧ reports acts = [false] := by
  refine ⟨_, _, rfl, ?_, ?_⟩ <;> decide +kernel

/-! ### C86: the answer and the request -/

/-- C86, as it should be: a check over HTTP says "up" only for an answer with a status line. Missing: the blank behind the
code; `sscanf` has stored its only value before it looks for it. See `C86_no_blank`. -/
theorem C86_status_partial (v : Svc) (hv : v.Valid) (es : List Ev) (s : Http) (acts : List Act)
    (h : Http.start.run v [] es = .ok (some (s, acts))) (hup : true ∈ reports acts) :
    ∃ pre mid post fd x, noSkips acts = pre ++ (.opened fd :: (mid ++ [.closed fd, .report true])) ++ post ∧
      Talk v.req mid ∧ allSent mid = v.req ∧ Good v.ok (allGot mid) x := by
  obtain ⟨checks, rest, k1, k2, k3, k4, k5, k6⟩ := (C85_checks v hv es).2 s acts h
  rw [k3, List.mem_map] at hup
  obtain ⟨c, hc, hct⟩ := hup
  obtain ⟨l1, l2, rfl⟩ := List.append_of_mem hc
  have hk := k2 c hc
  obtain ⟨l, b⟩ := c
  dsimp only at hct hk
  subst hct
  cases hk with
  | @answered fd mid _ ht h1 h2 h3 =>
    obtain ⟨x, hx⟩ := h3.1 rfl
    refine ⟨(l1.map (·.1)).flatten, mid, (l2.map (·.1)).flatten ++ rest, fd, x, ?_, ht, h1, hx⟩
    rw [k1]
    simp

/-- C86. An answer whose code has four digits counts as the code of the first three: the byte behind the code is not
looked at. -/
theorem C86_no_blank : ∃ (v : Svc) (es : List Ev) (s : Http) (acts : List Act), v.Valid ∧ v.ok = [200] ∧
    Http.start.run v [] es = .ok (some (s, acts)) ∧ allGot acts = txt "HTTP/1.1 2000" ∧ reports acts = [true] := by
  refine ⟨exSvc, exEs "1 2000", _, _, exSvc_valid, rfl, rfl, ?_, ?_⟩ <;> decide +kernel

/-- C86. What a response is judged by: thirteen bytes are a good answer exactly if they are the version, a blank and one of
the codes, whatever the C library makes of a string that is too short. -/
theorem C86_status_line (v : Svc) (hv : v.Valid) (g : Bytes) (hg : g.length = 13) :
    status v.short v.ok (g ++ [0]) = true ↔ ∃ x, Good v.ok g x := status_iff v.short v.ok hv.ok g hg

example : Good [200, 301] (txt "HTTP/1.0 301 ") 32 :=
  ⟨48, 51, 48, 49, by decide +kernel, .inl rfl, by unfold Digit; decide, by unfold Digit; decide, by unfold Digit; decide, by decide⟩

theorem sprintf_some (l : Bytes) (f : List (Option UInt8)) (as : List Bytes) : sprintf (l.map some ++ f) as = l ++ sprintf f as := by
  induction l with
  | nil => rfl
  | cons a l ih => simp [sprintf, ih]

/-- C86. The request is complete, with no byte too many: its lines and an empty line. -/
theorem C86_request (url : Bytes) (vhost : Option Bytes) : makeReq url vhost = .ok (Request url vhost) ∧ Request url vhost ≠ [] := by
  cases vhost with
  | none =>
    have ht : reqTmpl = (txt "GET ").map some ++ (none :: (txt " HTTP/1.0\r\nUser-Agent: gdnsd-monitor\r\n\r\n").map some) := by decide +kernel
    have hs : sizeofFmt reqTmpl = 47 := by decide +kernel
    have hr : Request url none = txt "GET " ++ (url ++ txt " HTTP/1.0\r\nUser-Agent: gdnsd-monitor\r\n\r\n") := by
      show txt "GET " ++ url ++ txt " HTTP/1.0" ++ [13, 10] ++ (txt "User-Agent: gdnsd-monitor" ++ [13, 10] ++ ([] ++ [13, 10] ++ [])) = _
      rw [show txt " HTTP/1.0\r\nUser-Agent: gdnsd-monitor\r\n\r\n" = txt " HTTP/1.0" ++ [13, 10] ++ (txt "User-Agent: gdnsd-monitor" ++ [13, 10] ++ ([] ++ [13, 10] ++ [])) from by decide +kernel]
      simp only [List.append_assoc]
    have e : sprintf reqTmpl [url] = Request url none := by
      rw [ht, sprintf_some, hr]
      show _ ++ (url ++ sprintf _ _) = _
      have := sprintf_some (txt " HTTP/1.0\r\nUser-Agent: gdnsd-monitor\r\n\r\n") [] []
      rw [List.append_nil] at this
      rw [this]
      simp [sprintf]
    have hl : (Request url none).length = sizeofFmt reqTmpl - 2 - 1 + url.length := by
      rw [hr, hs, List.length_append, List.length_append, show (txt "GET ").length = 4 from by decide +kernel,
        show (txt " HTTP/1.0\r\nUser-Agent: gdnsd-monitor\r\n\r\n").length = 40 from by decide +kernel]
      omega
    refine ⟨?_, ?_⟩
    · unfold makeReq
      dsimp only
      rw [e, List.take_of_length_le (by omega), if_pos hl]
    · intro h0
      rw [h0, hs] at hl
      simp at hl
      omega
  | some host =>
    have ht : reqTmplVhost = (txt "GET ").map some ++ (none :: ((txt " HTTP/1.1\r\nHost: ").map some ++ (none :: (txt "\r\nConnection: close\r\nUser-Agent: gdnsd-monitor\r\n\r\n").map some))) := by decide +kernel
    have hs : sizeofFmt reqTmplVhost = 76 := by decide +kernel
    have hr : Request url (some host) = txt "GET " ++ (url ++ (txt " HTTP/1.1\r\nHost: " ++ (host ++ txt "\r\nConnection: close\r\nUser-Agent: gdnsd-monitor\r\n\r\n"))) := by
      show txt "GET " ++ url ++ txt " HTTP/1.1" ++ [13, 10] ++ (txt "Host: " ++ host ++ [13, 10] ++ (txt "Connection: close" ++ [13, 10] ++ (txt "User-Agent: gdnsd-monitor" ++ [13, 10] ++ ([] ++ [13, 10] ++ [])))) = _
      rw [show txt " HTTP/1.1\r\nHost: " = txt " HTTP/1.1" ++ [13, 10] ++ txt "Host: " from by decide +kernel,
        show txt "\r\nConnection: close\r\nUser-Agent: gdnsd-monitor\r\n\r\n" = [13, 10] ++ (txt "Connection: close" ++ [13, 10] ++ (txt "User-Agent: gdnsd-monitor" ++ [13, 10] ++ ([] ++ [13, 10] ++ []))) from by decide +kernel]
      simp only [List.append_assoc]
    have e : sprintf reqTmplVhost [url, host] = Request url (some host) := by
      rw [ht, sprintf_some, hr]
      show _ ++ (url ++ sprintf _ [host]) = _
      rw [sprintf_some]
      show _ ++ (url ++ (_ ++ (host ++ sprintf _ []))) = _
      have := sprintf_some (txt "\r\nConnection: close\r\nUser-Agent: gdnsd-monitor\r\n\r\n") [] []
      rw [List.append_nil] at this
      rw [this]
      simp [sprintf]
    have hl : (Request url (some host)).length = sizeofFmt reqTmplVhost - 2 - 2 - 1 + url.length + host.length := by
      rw [hr, hs]
      simp only [List.length_append]
      rw [show (txt "GET ").length = 4 from by decide +kernel, show (txt " HTTP/1.1\r\nHost: ").length = 17 from by decide +kernel,
        show (txt "\r\nConnection: close\r\nUser-Agent: gdnsd-monitor\r\n\r\n").length = 50 from by decide +kernel]
      omega
    refine ⟨?_, ?_⟩
    · unfold makeReq
      dsimp only
      rw [e, List.take_of_length_le (by omega), if_pos hl]
    · intro h0
      rw [h0, hs] at hl
      simp at hl
      omega

/-! ### C87: a peer that hangs up -/

/-- C87. While an answer is awaited, the end of the connection does not end the check, and changes nothing: the same event
comes again at once, as often as the loop runs until the time is up. -/
theorem C87_spins (v : Svc) (hv : v.Valid) (es : List Ev) (s : Http) (acts : List Act)
    (h : Http.start.run v [] es = .ok (some (s, acts))) (hr : s.rd = true) (n : Nat) :
    s.run v acts (List.replicate n (.read (.got []))) = .ok (some (s, acts ++ List.replicate n (.got []))) := by
  obtain ⟨h1, h2⟩ := run_good hv.req hv.ok es .start [] [] [] rfl (by simp) (inv_start v)
  obtain ⟨-, checks, rest, h3, h4, h5⟩ := h2 s acts h
  have key : s.step v (.read (.got [])) = .ok (some (s, [.got []])) := by
    cases h5 with
    | waiting _ _ hx => rw [hx] at hr; cases hr
    | connecting _ _ hx => rw [hx] at hr; cases hr
    | writing _ _ hx => rw [hx] at hr; cases hr
    | @reading fd out into h1 h2 h3 h4 h5 h6 h7 h8 h9 h10 h11 h12 =>
      obtain ⟨st, sock, rd, wr, tmo, done, conn, buf⟩ := s
      dsimp only at h1 h2 h3 h4 h5 h6 h10 h11 h12
      subst h1 h2 h3 h4
      simp only [Http.step, Http.read, if_true, assert, decide_true, Outcome.bind]
      rw [decide_eq_true (by omega : done ≤ 13)]
      simp only [if_true, List.take_nil, List.length_nil, Nat.add_zero]
      rw [decide_eq_true (by omega : done ≤ buf.length)]
      simp only [if_true, List.append_nil, List.take_append_drop]
      rw [if_pos (by omega)]
      rfl
  induction n generalizing acts with
  | zero => simp [Http.run]
  | succ n ih =>
    rw [List.replicate_succ, Http.run, key]
    show s.run v (acts ++ [.got []]) (List.replicate n (.read (.got []))) = _
    have gen : ∀ (m : Nat) (acts : List Act), s.run v acts (List.replicate m (.read (.got []))) = .ok (some (s, acts ++ List.replicate m (.got []))) := by
      intro m
      induction m with
      | zero => intro acts; simp [Http.run]
      | succ m ih =>
        intro acts
        rw [List.replicate_succ, Http.run, key]
        show s.run v (acts ++ [.got []]) (List.replicate m (.read (.got []))) = _
        rw [ih, List.replicate_succ, List.append_assoc]
        rfl
    rw [gen, List.replicate_succ, List.append_assoc]
    rfl

example : ∃ s acts, Http.start.run exSvc [] ((exEs "").take 5) = .ok (some (s, acts)) ∧ s.rd = true := by
  refine ⟨_, _, rfl, ?_⟩
  decide +kernel

/-- C87, as it should be: a connection that ends before there is an answer ends the check. Missing: it ends with the timeout
only, see `C87_spins`. Proved: no answer means no success, however often the end is seen. -/
theorem C87_hangup_partial (v : Svc) (hv : v.Valid) (es : List Ev) (s : Http) (acts : List Act)
    (h : Http.start.run v [] es = .ok (some (s, acts))) (hg : (allGot acts).length < 13) : true ∉ reports acts := by
  intro hup
  obtain ⟨pre, mid, post, fd, x, h1, h2, h3, h4⟩ := C86_status_partial v hv es s acts h hup
  have hskip : ∀ l : List Act, allGot (noSkips l) = allGot l := by
    intro l
    induction l with
    | nil => rfl
    | cons a l ih => cases a <;> simp_all [noSkips, allGot]
  rw [← hskip, h1] at hg
  simp only [allGot_append, allGot, List.length_append] at hg
  obtain ⟨vv, a, b, c, he, -⟩ := h4
  have : (allGot mid).length = 13 := by rw [he]; simp [txt]
  omega

example : ∃ s acts, Http.start.run exSvc [] ((exEs "").take 7) = .ok (some (s, acts)) ∧ (allGot acts).length < 13 := by
  refine ⟨_, _, rfl, ?_⟩
  decide +kernel

/-! ### C88: checks of a connection -/

/-- C88, as it should be: each round that is not left out has a result. Missing: a round without a socket has none, see
`C88_silent`. Proved in every history: no assertion fails; what happens is one check after the other, each with one socket
that is closed again, and one result, except for those without a socket; a check is under way only as long as its socket is
open, and a timer runs as long; each round begins a check, or is left out. -/
theorem C88_checks_partial (es : List Ev) :
    Tcp.start.run [] es ≠ .ub ∧
    ∀ s acts, Tcp.start.run [] es = .ok (some (s, acts)) →
      ∃ (checks : List (List Act × Option Bool)) (rest : List Act),
        noSkips acts = (checks.map (·.1)).flatten ++ rest ∧
        (∀ c ∈ checks, TcpCheck true c.1 c.2) ∧
        reports acts = checks.filterMap (·.2) ∧
        rounds es = left acts + begun acts ∧
        (s.sock = none → rest = [] ∧ begun acts = checks.length) ∧
        (∀ fd, s.sock = some fd → rest = [.opened fd] ∧ begun acts = checks.length + 1 ∧ s.tmo ≠ .off) := by
  obtain ⟨h1, h2⟩ := trun_good es .start [] [] [] rfl (by simp) .waiting
  refine ⟨h1, ?_⟩
  intro s acts he
  obtain ⟨hr, checks, rest, h3, h4, h5⟩ := h2 s acts he
  obtain ⟨p1, p2⟩ := tchecks_plain checks h4
  cases h5 with
  | waiting =>
    refine ⟨checks, [], h3, h4, ?_, by simpa [left, begun] using hr, ?_, by intro fd hs; cases hs⟩
    · rw [← reports_noSkips, h3, reports_append, p1]; simp [reports]
    · intro _
      refine ⟨rfl, ?_⟩
      rw [← begun_noSkips, h3, begun_append, p2]
      rfl
  | @busy fd tmo ht =>
    refine ⟨checks, [.opened fd], h3, h4, ?_, by simpa [left, begun] using hr, (by intro hs; cases hs), ?_⟩
    · rw [← reports_noSkips, h3, reports_append, p1]; simp [reports]
    · intro fd' hs
      cases hs
      refine ⟨rfl, ?_, ht⟩
      rw [← begun_noSkips, h3, begun_append, p2]
      rfl

/-- C88. A round without a socket has no result; all of them may be so, so the address stays what it was before the first
round however long this lasts. -/
theorem C88_silent (n : Nat) : Tcp.start.run [] (List.replicate n (.interval .noSocket)) = .ok (some (.start, List.replicate n .noSocket)) ∧
    rounds (List.replicate n (.interval .noSocket)) = n ∧ reports (List.replicate n .noSocket) = [] := by
  have gen : ∀ (m : Nat) (acts : List Act), Tcp.start.run acts (List.replicate m (.interval .noSocket)) = .ok (some (.start, acts ++ List.replicate m .noSocket)) := by
    intro m
    induction m with
    | zero => intro acts; simp [Tcp.run]
    | succ m ih =>
      intro acts
      rw [List.replicate_succ, Tcp.run]
      show Tcp.start.run (acts ++ [.noSocket]) (List.replicate m (.interval .noSocket)) = _
      rw [ih, List.replicate_succ, List.append_assoc]
      rfl
  refine ⟨by simpa using gen n [], ?_, ?_⟩
  · induction n with
    | zero => rfl
    | succ n ih => simp [List.replicate_succ, rounds, ih]
  · induction n with
    | zero => rfl
    | succ n ih => simp [List.replicate_succ, reports, ih]

/-- C88. A check of a connection that is under way ends with a failure when its time is up. -/
theorem C88_timeout (es : List Ev) (s : Tcp) (acts : List Act) (fd : Nat)
    (h : Tcp.start.run [] es = .ok (some (s, acts))) (hs : s.sock = some fd) :
    ∃ more, (more = [Ev.expire, .timeout] ∨ more = [.timeout]) ∧ s.run acts more = .ok (some (.start, acts ++ [.timeout, .closed fd, .report false])) := by
  obtain ⟨h1, h2⟩ := trun_good es .start [] [] [] rfl (by simp) .waiting
  obtain ⟨hr, checks, rest, h3, h4, h5⟩ := h2 s acts h
  cases h5 with
  | waiting => cases hs
  | @busy fd' tmo ht =>
    cases hs
    cases tmo with
    | off => exact absurd rfl ht
    | active => exact ⟨[.expire, .timeout], .inl rfl, by simp [Tcp.run, Tcp.step, Tcp.timeout, Tcp.start, Outcome.map, assert, Outcome.bind]⟩
    | pending => exact ⟨[.timeout], .inr rfl, by simp [Tcp.run, Tcp.step, Tcp.timeout, Tcp.start, Outcome.map, assert, Outcome.bind]⟩

example : ∃ s acts, Tcp.start.run [] [.interval (.wait 5), .interval .noSocket, .expire, .write false .again, .interval (.now 5), .interval .noSocket, .interval (.wait 6)] = .ok (some (s, acts)) ∧
    s.sock = some 6 ∧ reports acts = [true, true] ∧ left acts = 1 := by
  refine ⟨_, _, rfl, ?_, ?_, ?_⟩ <;> decide

end Gdnsd.Poll
