/-
The control socket: permissions (C44), takeover (C45), reloads (C46), what is written (C73), what requests
get (C74) and what can go wrong (C75).
-/
import Verif.Css.ReplyLemmas
namespace Gdnsd.Css
open CssSpec

/-! ### Runs -/

/-- Callbacks one after the other, while the loop runs. -/
def play (cfg : Cfg) (s : Css) : List Event → Step
  | [] => .ok (s, [])
  | e :: es => if s.running = true then andThen (step cfg s e) fun s => play cfg s es else .ok (s, [])

instance (env : Env) : Decidable (EnvOk env) := by unfold EnvOk; infer_instance
instance (cfg : Cfg) : Decidable (CfgOk cfg) := by unfold CfgOk; infer_instance
instance (e : Event) : Decidable (EventOk e) := by cases e <;> simp only [EventOk] <;> infer_instance

theorem play_run {cfg s l es s' l'} (h : Run cfg s l) (he : ∀ e ∈ es, EventOk e) (hp : play cfg s es = .ok (s', l')) : Run cfg s' (l ++ l') := by
  induction es generalizing s l l' with
  | nil => obtain ⟨rfl, rfl⟩ := one_ok hp; simpa using h
  | cons e es ih =>
    simp only [play] at hp
    split at hp
    · next hr =>
      obtain ⟨s1, l1, l2, h1, h2, rfl⟩ := andThen_ok hp
      rw [← List.append_assoc]
      exact ih (.step h hr (he e (by simp)) h1) (fun e he' => he e (by simp [he'])) h2
    · obtain ⟨rfl, rfl⟩ := one_ok hp; simpa using h

/-- The history of some callbacks. -/
def logOf (cfg : Cfg) (es : List Event) : Option (List Entry) := match play cfg init es with | .ok p => some p.2 | .ub => none

/-- Whether the loop still runs after them. -/
def up (cfg : Cfg) (es : List Event) : Bool := match play cfg init es with | .ok p => p.1.running | .ub => false

/-- Whether one more callback is undefined. -/
def bad (cfg : Cfg) (es : List Event) (e : Event) : Bool :=
  match play cfg init es with | .ok p => (match step cfg p.1 e with | .ub => p.1.running | .ok _ => false) | .ub => false

theorem run_of {cfg es l} (he : ∀ e ∈ es, EventOk e) (h : logOf cfg es = some l) : ∃ s, Run cfg s l ∧ s.running = up cfg es := by
  unfold logOf at h
  unfold up
  split at h
  · next p hp =>
    simp only [Option.some.injEq] at h
    subst h
    exact ⟨p.1, by simpa using play_run (s' := p.1) (l' := p.2) .init he (by rw [hp]), rfl⟩
  · cases h

theorem bad_of {cfg es l e} (he : ∀ e ∈ es, EventOk e) (h : logOf cfg es = some l) (hb : bad cfg es e = true) :
    ∃ s, Run cfg s l ∧ s.running = true ∧ step cfg s e = .ub := by
  unfold logOf at h
  unfold bad at hb
  split at h
  · next p hp =>
    simp only [Option.some.injEq] at h
    subst h
    rw [hp] at hb
    dsimp only at hb
    split at hb
    · next hu => exact ⟨p.1, by simpa using play_run (s' := p.1) (l' := p.2) .init he (by rw [hp]), hb, hu⟩
    · cases hb
  · cases h

/-- For the examples: settings, what functions give, and requests. -/
def cfgEx : Cfg := ⟨[10, 11, 12, 13], 0x030000, 100, fun t => t == 2⟩
def envEx : Env := ⟨200, false, [1], [2], (0, []), true, true⟩
def ask (key : UInt8) (d : Nat) : Rx := .got (msg key 0 d)

example : CfgOk cfgEx := by decide
example : EnvOk envEx := by decide

/-! ### C44 -/

theorem accept_once {cfg s l id p q} (h : Run cfg s l) (hp : .accept id p ∈ l) (hq : .accept id q ∈ l) : p = q := by
  obtain ⟨a, b, rfl⟩ := List.append_of_mem hp
  have hf := ((run_k h).a.conn id).1
  rw [List.mem_append, List.mem_cons] at hq
  rcases hq with hq | hq | hq
  · exact absurd rfl ((hf a _ b rfl).acc p rfl _ hq)
  · cases hq; rfl
  · obtain ⟨b1, b2, rfl⟩ := List.append_of_mem hq
    exact absurd rfl ((hf (a ++ .accept id p :: b1) _ b2 (by simp)).acc q rfl (.accept id p) (by simp))

/-- Whatever needs a permission is done for clients that have it only: of the Unix socket, or of a listener
that gives it. -/
theorem C44_permissions {cfg s a e b id need} (h : Run cfg s (a ++ e :: b)) (hn : Needs e id need) : May a id need :=
  (((run_k h).a.conn id).1 a e b rfl).may need hn

/-- The same for a client of a TCP listener: it never causes what its listener does not allow. -/
theorem C44_remote {cfg s l e id p need} (h : Run cfg s l) (hp : .accept id (some p) ∈ l) (he : e ∈ l) (hn : Needs e id need) : need p = true := by
  obtain ⟨a, b, rfl⟩ := List.append_of_mem he
  obtain ⟨q, hq, hneed⟩ := C44_permissions h hn
  have := accept_once h hp (q := q) (by simp [hq])
  subst this
  exact hneed p rfl

/-- Zones are loaded because a client wants it that may. -/
theorem C44_load {cfg s a t b} (h : Run cfg s (a ++ .load t :: b)) : ∃ id r, Turns id a (some r) ∧ msgKey r = 90 ∧ May a id Perm.ctl :=
  ((run_k h).f a _ b rfl).load t rfl |>.1

/-- A request that the listener does not allow gets one D, and does nothing. -/
theorem C44_denied {cfg s l id r env s' m rest p} (h : Run cfg s l) (hs : step cfg s (.read id r env) = .ok (s', .req id m :: rest))
    (hp : .accept id (some p) ∈ l) (hno : permits p (msgKey m) = false) :
    rest = [.resp id (plain 68) [] false] ∧ s' = { s with conn := s'.conn } ∧ ∀ i, i ≠ id → s'.conn i = s.conn i := by
  obtain ⟨c, hc, _, _, _, _, hcase⟩ := read_req hs
  have hperm : c.perm = some p := accept_once h (((run_k h).a.conn id).2 c hc).1 hp
  rcases hcase with ⟨q, _, _, ha⟩ | ⟨hq, _⟩ | ⟨hq, _⟩
  · obtain ⟨c', _, _, rfl, rfl⟩ := answer_ok ha
    exact ⟨rfl, rfl, fun i hi => by simp [Css.put, hi]⟩
  · have := hq p hperm; rw [permits_eq, hno] at this; cases this
  · have := hq p hperm; rw [permits_eq, hno] at this; cases this

/-- A client of the Unix socket and of a TCP listener that allows nothing. -/
def runEx44 : List Event :=
  [.accept none, .accept (some ⟨false, false⟩), .read 1 (ask 88 0) envEx, .write 1 (.part 8), .read 1 (ask 90 0) envEx, .read 0 (ask 90 0) envEx]

def logEx44 : List Entry :=
  [.accept 0 none, .accept 1 (some ⟨false, false⟩), .req 1 (msg 88 0 0), .resp 1 (plain 68) [] false, .out 1 (plain 68) [], .req 1 (msg 90 0 0), .resp 1 (plain 68) [] false,
    .req 0 (msg 90 0 0), .load 1]

theorem run44 : ∃ s, Run cfgEx s logEx44 ∧ s.running = true :=
  run_of (es := runEx44) (by decide) (by decide +kernel)

example : ∃ s, Run cfgEx s ((.accept 0 none :: logEx44.tail.take 7) ++ .load 1 :: []) := let ⟨s, h, _⟩ := run44; ⟨s, h⟩
example : permits ⟨false, false⟩ 88 = false ∧ permits ⟨true, true⟩ 88 = false ∧ permits ⟨false, true⟩ 90 = true ∧ permits ⟨true, false⟩ 90 = false := by decide
example : Needs (.stop 3) 3 fun _ => false := .stop

/-! ### C45 -/

/-- One replacement at a time: a new one is started only if there is none, and a takeover is accepted only
if there is none or it is of the process that was started. -/
theorem C45_exclusive {cfg s a e b} (h : Run cfg s (a ++ e :: b)) :
    (∀ id p, e = .spawn id p → current a = 0) ∧ ∀ id p, e = .takeover id p → current a = 0 ∨ current a = p :=
  let f := (run_k h).f a e b rfl
  ⟨f.spawn, f.takeover⟩

/-- While there is one, challenges are neither set nor flushed, no load is started, and only the replacement
ends the daemon. -/
theorem C45_deferred {cfg s a e b} (h : Run cfg s (a ++ e :: b)) (hc : current a ≠ 0) :
    (∀ id n d, e ≠ .chal id n d) ∧ (∀ id, e ≠ .flush id) ∧ (∀ t, e ≠ .load t) ∧ (∀ id p, e ≠ .spawn id p) ∧ e ≠ .signal ∧ ∀ id, e = .stop id → Taker a id := by
  have f := (run_k h).f a e b rfl
  exact ⟨fun id n d he => hc (f.chal id n d he), fun id he => hc (f.flush id he), fun t he => hc (f.load t he).2.2, fun id p he => hc (f.spawn id p he), fun he => hc (f.signal he),
    fun id he => (f.stop id he).resolve_left hc⟩

/-- The connection is one that the history says may make the request. -/
theorem allowed_case {cfg s l id r env s' m rest} (h : Run cfg s l) (hs : step cfg s (.read id r env) = .ok (s', .req id m :: rest))
    (hp : ∀ p, .accept id (some p) ∈ l → permits p (msgKey m) = true) (h67 : msgKey m ≠ 67) :
    ∃ c, request cfg (s.put id (some c)) id m env = .ok (s', rest) := by
  obtain ⟨c, hc, _, _, _, _, hcase⟩ := read_req hs
  rcases hcase with ⟨q, hq, hno, _⟩ | ⟨_, h0, _⟩ | ⟨_, _, hr⟩
  · have := hp q (by rw [← hq]; exact (((run_k h).a.conn id).2 c hc).1)
    rw [← permits_eq, hno] at this; cases this
  · exact absurd h0 h67
  · exact ⟨_, hr⟩

/-- Every request that a client may make gets what the protocol says. -/
theorem C74_reply {cfg s l id r env s' m rest} (h : Run cfg s l) (hrun : s.running = true) (hs : step cfg s (.read id r env) = .ok (s', .req id m :: rest))
    (hp : ∀ p, .accept id (some p) ∈ l → permits p (msgKey m) = true) (h67 : msgKey m ≠ 67) : Reply cfg env l id m rest := by
  obtain ⟨c, hr⟩ := allowed_case h hs hp h67
  exact reply ⟨(run_k h).a, (run_k h).f, (run_k h).b hrun⟩ (run_taker h) h67 hr

/-- Challenges with a count of 1 to 100 and 1 to 28400 bytes of data are awaited; else the connection is
closed. -/
theorem C74_challenges {cfg s l id r env s' m rest} (h : Run cfg s l) (hs : step cfg s (.read id r env) = .ok (s', .req id m :: rest))
    (hp : ∀ p, .accept id (some p) ∈ l → permits p (msgKey m) = true) (h67 : msgKey m = 67) :
    if 1 ≤ msgV m ∧ msgV m ≤ 100 ∧ 1 ≤ msgD m ∧ msgD m ≤ 28400 then rest = []
    else rest = (if taker l = some id ∧ s.pid ≠ 0 then [.kill s.pid] else []) ++ [.close id] := by
  obtain ⟨c, hc, _, _, _, _, hcase⟩ := read_req hs
  rcases hcase with ⟨q, hq, hno, _⟩ | ⟨_, _, hb⟩ | ⟨_, h0, _⟩
  · have := hp q (by rw [← hq]; exact (((run_k h).a.conn id).2 c hc).1)
    rw [← permits_eq, hno] at this; cases this
  · rcases hb with ⟨hb, _, rfl⟩ | ⟨hb, hcl⟩
    · rw [if_pos (by omega)]
    · rw [if_neg (by omega)]
      obtain ⟨_, _, _, _, rfl⟩ := cleanup_ok hcl
      rw [run_taker h]
  · exact absurd h67 h0

/-- While there is a replacement, requests that would change something get L and nothing else. -/
theorem C45_later {cfg s l id r env s' m rest} (h : Run cfg s l) (hrun : s.running = true) (hs : step cfg s (.read id r env) = .ok (s', .req id m :: rest))
    (hp : ∀ p, .accept id (some p) ∈ l → permits p (msgKey m) = true) (hc : current l ≠ 0)
    (hk : msgKey m = 90 ∨ msgKey m = 99 ∨ msgKey m = 82 ∨ (msgKey m = 49 ∧ msgD m ≠ current l) ∨ (msgKey m = 88 ∧ taker l ≠ some id)) :
    rest = [.resp id (plain 76) [] false] := by
  have hR := C74_reply h hrun hs hp (by intro h0; rw [h0] at hk; revert hk; simp)
  cases hR with
  | later => rfl
  | info h1 => rw [h1] at hk; revert hk; simp
  | stats h1 => rw [h1] at hk; revert hk; simp
  | states h1 => rw [h1] at hk; revert hk; simp
  | reload h1 h2 => exact absurd h2 hc
  | wait h1 h2 => exact absurd h2 hc
  | flush h1 h2 => exact absurd h2 hc
  | spawnFail h1 h2 => exact absurd h2 hc
  | spawn h1 h2 => exact absurd h2 hc
  | takeover h1 h2 =>
    rw [h1] at hk
    rcases hk with h0 | h0 | h0 | h0 | h0
    · cases h0
    · cases h0
    · cases h0
    · exact absurd h0.2 (fun h3 => (h2.resolve_left hc) |> h3)
    · cases h0.1
  | share h1 => rw [h1] at hk; revert hk; simp
  | hand h1 => rw [h1] at hk; revert hk; simp
  | refuse h1 => rcases h1 with h1 | h1 <;> rw [h1] at hk <;> revert hk <;> simp
  | stop h1 h2 =>
    rw [h1] at hk
    rcases hk with h0 | h0 | h0 | h0 | h0
    · cases h0
    · cases h0
    · cases h0
    · cases h0.1
    · exact absurd (h2.resolve_left hc) h0.2
  | unknown h1 => rcases hk with h0 | h0 | h0 | h0 | h0 <;> simp [h0] at h1

/-- Also challenges whose data arrived. -/
theorem C45_later_data {cfg s l id r env s' i m d f} (h : Run cfg s l) (hrun : s.running = true) (hs : step cfg s (.read id r env) = .ok (s', [.resp i m d f]))
    (hc : current l ≠ 0) : i = id ∧ m = plain 76 ∧ d = [] ∧ f = false := by
  have hpid := ((run_k h).b hrun).pid
  have hclean : ∀ {s0 : Css} {j s1 l0}, cleanup s0 j = .ok (s1, l0) → l0 ≠ [.resp i m d f] := by
    intro s0 j s1 l0 hcl
    obtain ⟨_, _, _, _, rfl⟩ := cleanup_ok hcl
    intro h0
    split at h0 <;> simp at h0
  simp only [step] at hs
  split at hs
  · cases hs
  · split at hs
    · unfold readConn at hs
      obtain ⟨_, _, hs⟩ := bind_ok hs
      split at hs
      · obtain ⟨_, _, hs⟩ := bind_ok hs
        unfold recvData at hs
        split at hs
        · cases hs
        · obtain ⟨_, _, hs⟩ := bind_ok hs
          split at hs
          · cases hs
          · exact absurd rfl (hclean hs)
          · exact absurd rfl (hclean hs)
          · dsimp only at hs
            split at hs
            · rw [if_pos (by rw [hpid]; exact hc)] at hs
              obtain ⟨_, _, _, h2, _⟩ := answer_ok hs
              simp only [List.cons.injEq, Entry.resp.injEq, and_true] at h2
              exact h2
            · cases hs
      · split at hs
        · cases hs
        · exact absurd rfl (hclean hs)
        · dsimp only at hs
          split at hs
          · exact absurd rfl (hclean hs)
          · obtain ⟨s1, l1, l2, h1, h2, h3⟩ := andThen_ok hs
            obtain ⟨_, rfl⟩ := one_ok h1
            simp at h3
    · cases hs

/-- Without a replacement, no request gets L. -/
theorem C45_not_later {cfg s l id r env s' m rest} (h : Run cfg s l) (hrun : s.running = true) (hs : step cfg s (.read id r env) = .ok (s', .req id m :: rest))
    (hp : ∀ p, .accept id (some p) ∈ l → permits p (msgKey m) = true) (h67 : msgKey m ≠ 67) (hc : current l = 0) {x d f} (hx : .resp id x d f ∈ rest) : msgKey x ≠ 76 := by
  have hopen : Turns id l none := by
    obtain ⟨c, hc, hon, hst, _⟩ := read_req hs
    have hJ : J cfg none s l := ⟨(run_k h).a, (run_k h).f, (run_k h).b hrun⟩
    obtain ⟨_, hg⟩ := (hJ.a.conn id).2 c hc
    rcases hg with hg | hg
    · have := hg.turns; simp only [opn, hst] at this; exact this
    · exact hg.turns
  have hnw : ∀ {ids}, Waiters l ids → .resp id x d f ∉ ids.map (fun i => Entry.resp i (plain 76) [] false) := by
    intro ids hw hm
    obtain ⟨i, hi, he⟩ := List.mem_map.mp hm
    simp only [Entry.resp.injEq] at he
    obtain ⟨rfl, _⟩ := he
    obtain ⟨r, hr, _⟩ := hw.2 i hi
    have := hopen.unique hr
    cases this
  have hh : ∀ {v d x}, header 65 v d x → msgKey x ≠ 76 := by
    intro v d x hx; rw [hx.2.1]; decide
  cases C74_reply h hrun hs hp h67 with
  | later h1 => exact absurd hc h1
  | info _ h2 => simp only [List.mem_singleton, Entry.resp.injEq] at hx; rw [hx.2.1]; exact hh h2
  | stats _ h2 => simp only [List.mem_singleton, Entry.resp.injEq] at hx; rw [hx.2.1]; exact hh h2
  | states _ h2 => simp only [List.mem_singleton, Entry.resp.injEq] at hx; rw [hx.2.1]; exact hh h2
  | reload h1 h2 => simp at hx
  | wait h1 h2 => cases hx
  | flush h1 h2 => simp at hx; rw [hx.1]; decide
  | spawnFail h1 h2 => simp at hx; rw [hx.1]; decide
  | spawn _ _ _ _ hw =>
    rw [List.mem_cons] at hx
    rcases hx with hx | hx
    · cases hx
    · exact absurd hx (hnw hw)
  | takeover _ _ _ hw =>
    rw [List.cons_append, List.mem_cons, List.mem_append, List.mem_singleton] at hx
    rcases hx with hx | hx | hx
    · cases hx
    · exact absurd hx (hnw hw)
    · cases hx; decide
  | share _ h1 h2 => simp at hx; rw [hx.1]; exact hh h2
  | hand _ h1 h2 => simp at hx; rw [hx.1]; exact hh h2
  | refuse _ _ h1 =>
    subst h1
    simp only [List.mem_append, List.mem_singleton] at hx
    rcases hx with (hx | hx) | hx
    · cases hx; decide
    · split at hx <;> simp at hx
    · cases hx
  | stop _ _ hk =>
    simp only [List.mem_cons] at hx
    rcases hx with hx | hx | hx
    · cases hx
    · cases hx; decide
    · rcases hk _ hx with ⟨i, r, he, _⟩ | ⟨i, he⟩ | ⟨i, he⟩
      · cases he; decide
      · cases he
      · cases he
  | unknown h1 => simp at hx; rw [hx.1]; decide

/-- Descriptors and challenges are given to the replacement only. -/
theorem C45_handed {cfg s a e b id} (h : Run cfg s (a ++ e :: b)) (he : e = .share id ∨ ∃ d x f, e = .out id d (x :: f)) : Taker a id := by
  have f := (run_k h).f a e b rfl
  rcases he with he | ⟨d, x, g, he⟩
  · exact f.share id he
  · exact f.out id d x g he

/-- At most one connection is the replacement's. -/
theorem C45_one {a id id'} (h : Taker a id) (h' : Taker a id') : id = id' := by
  have hf : ∀ {b : List Entry} {o}, (∀ e ∈ b, e ≠ .close o ∧ (∀ q, e ≠ .died q) ∧ (∀ i q, e ≠ .takeover i q) ∧ ∀ i q, e ≠ .spawn i q) → b.foldl tk1 (some o) = some o := by
    intro b o hb
    induction b with
    | nil => rfl
    | cons e b ih =>
      have he := hb e (by simp)
      have : tk1 (some o) e = some o := by
        cases e with
        | takeover i q => exact absurd rfl (he.2.2.1 i q)
        | died q => exact absurd rfl (he.2.1 q)
        | close i =>
          simp only [tk1]
          rw [if_neg]
          intro h0
          cases h0
          exact he.1 rfl
        | _ => rfl
      rw [List.foldl_cons, this]
      exact ih fun e he => hb e (by simp [he])
  have ht : ∀ {k}, Taker a k → taker a = some k := by
    intro k hk
    obtain ⟨a', p, b, rfl, _, hb⟩ := hk
    rw [taker_append, List.foldl_cons]
    exact hf hb
  have := ht h
  rw [ht h'] at this
  cases this; rfl

/-- No client waits for a reload while there is a replacement: those that did got L. -/
theorem C45_nobody_waits {cfg s l id c r} (h : Run cfg s l) (hrun : s.running = true) (hc : current l ≠ 0) (hid : s.conn id = some c) (hr : Turns id l (some r)) : msgKey r ≠ 90 := by
  have hb := (run_k h).b hrun
  obtain ⟨_, hg⟩ := ((run_k h).a.conn id).2 c hid
  rcases hg with hg | hg
  · have ho := hg.turns.unique hr
    unfold opn at ho
    intro h90
    split at ho
    · next hst =>
      cases ho
      rcases hb.waiting id c hid hst with h1 | h1 | h1
      · cases h1
      · have := hb.noQ (by rw [hb.pid]; exact hc)
        rw [this.1, this.2] at h1
        cases h1
      · obtain ⟨_, _, c', hc', _, hk⟩ := hb.ctl id h1
        rw [hid] at hc'
        cases hc'
        rw [h90] at hk
        cases hk
    · next hst =>
      cases ho
      have := hg.shape
      simp only [Shape, hst] at this
      rw [h90] at this
      exact absurd this.2.2.2.2.1 (by decide)
    · cases ho
  · have := hg.turns.unique hr
    cases this

/-- If the replacement dies, the daemon goes on: there is no replacement any more, connections are accepted
again, the client that wanted it gets F, and the connection of the process is closed. -/
theorem C45_resume {cfg s l} (h : Run cfg s l) (hrun : s.running = true) (hc : current l ≠ 0) :
    ∃ s' l', step cfg s (.tick false) = .ok (s', l') ∧ current (l ++ l') = 0 ∧ taker (l ++ l') = none ∧ s'.running = true ∧
      (∀ p, ∃ s'' n, step cfg s' (.accept p) = .ok (s'', [.accept n p])) ∧
      (∀ k c r, s.conn k = some c → Turns k l (some r) → msgKey r = 82 → .resp k (plain 70) [] false ∈ l') ∧
      ∀ k, taker l = some k → .close k ∈ l' ∧ s'.conn k = none := by
  have hb := (run_k h).b hrun
  have hJ : J cfg none s l := ⟨(run_k h).a, (run_k h).f, hb⟩
  have hp : s.pid ≠ 0 := by rw [hb.pid]; exact hc
  have htimer := hb.timer1 hp
  obtain ⟨⟨s', l'⟩, hw⟩ := watch_safe (cfg := cfg) (alive := false) hJ hp
  have hstep : step cfg s (.tick false) = .ok (s', l') := by simp only [step, htimer, if_true]; exact hw
  have hK := run_k (Run.step h hrun (e := .tick false) trivial hstep)
  have htk := run_taker (Run.step h hrun (e := .tick false) trivial hstep)
  refine ⟨s', l', hstep, ?_⟩
  unfold watch at hw
  obtain ⟨_, _, hw⟩ := bind_ok hw
  rw [if_neg (by decide)] at hw
  obtain ⟨s1, l1, l2, h1, ha, rfl⟩ := andThen_ok hw
  obtain ⟨s2, l3, l4, h2, hbb, rfl⟩ := andThen_ok ha
  obtain ⟨s3, l5, l6, h3, hd, rfl⟩ := andThen_ok hbb
  obtain ⟨rfl, rfl⟩ := one_ok h1
  obtain ⟨rfl, rfl⟩ := one_ok hd
  have hs2 : s2.running = s.running ∧ s2.dmn = s.dmn := by
    split at h2
    · obtain ⟨_, _, _, _, rfl⟩ := answer_ok h2; exact ⟨rfl, rfl⟩
    · obtain ⟨rfl, _⟩ := one_ok h2; exact ⟨rfl, rfl⟩
  have hs3 : s3.running = s.running := by
    split at h3
    · obtain ⟨_, _, _, h5, _⟩ := cleanup_ok h3; rw [h5]; exact hs2.1
    · obtain ⟨rfl, _⟩ := one_ok h3; exact hs2.1
  have hrun' : ({ s3 with pid := 0, ctl := none, dmn := none, accepting := true } : Css).running = true := by show s3.running = true; rw [hs3, hrun]
  refine ⟨?_, htk.symm, hrun', fun p => ⟨_, s3.next, by simp only [step, if_true]; rfl⟩, ?_, ?_⟩
  · exact (hK.b hrun').pid.symm
  · intro k c r hk hr h82
    obtain ⟨_, hg⟩ := (hJ.a.conn k).2 c hk
    have hctl : s.ctl = some k := by
      rcases hg with hg | hg
      · have ho := hg.turns.unique hr
        unfold opn at ho
        split at ho
        · next hst =>
          cases ho
          rcases hb.waiting k c hk hst with h1 | h1 | h1
          · cases h1
          · have := hb.noQ hp
            rw [this.1, this.2] at h1
            cases h1
          · exact h1
        · next hst =>
          cases ho
          have := hg.shape
          simp only [Shape, hst] at this
          rw [h82] at this
          exact absurd this.2.2.2.2.1 (by decide)
        · cases ho
      · have := hg.turns.unique hr
        cases this
    have h2' : answer cfg { s with timer := false } k 70 = .ok (s2, l3) := by
      split at h2
      · next k' hk' => have hk' : s.ctl = some k' := hk'; rw [hctl] at hk'; cases hk'; exact h2
      · next hk' => have hk' : s.ctl = none := hk'; rw [hctl] at hk'; cases hk'
    obtain ⟨_, _, _, rfl, _⟩ := answer_ok h2'
    simp [msg_plain]
  · intro k hk
    have hdm : s2.dmn = some k := by rw [hs2.2, run_taker h, hk]
    have h3' : cleanup s2 k = .ok (s3, l5) := by
      have := h3
      simp only [hdm] at this
      exact this
    obtain ⟨_, _, h4, _, rfl⟩ := cleanup_ok h3'
    exact ⟨by simp, by show s3.conn k = none; rw [h4, if_pos rfl]⟩

/-- The only process that is killed is the replacement, or the one found dead by the callback. -/
theorem C75_kill_partial {cfg s a p b} (h : Run cfg s (a ++ .kill p :: b)) : p ≠ 0 ∧ (p = current a ∨ ∃ a' c, a = a' ++ .died p :: c ∧ c.length ≤ 1) :=
  ((run_k h).f a _ b rfl).kill p rfl

/-- After the end of the loop all connections are closed, and the replacement is left alone. -/
theorem C45_end {cfg s l} (h : Run cfg s l) (hrun : s.running = false) : ∃ s' l', delete s s.next = .ok (s', l') ∧ (∀ p, .kill p ∉ l') ∧ ∀ id, s'.conn id = none := by
  have hfresh := fun id hid => ((run_k h).a.fresh id hid).1
  have hpid := (run_end h).pid hrun
  generalize s.next = n at hfresh ⊢
  clear h hrun
  induction n generalizing s with
  | zero => exact ⟨s, [], rfl, by simp, fun id => hfresh id (Nat.zero_le _)⟩
  | succ n ih =>
    simp only [delete]
    split
    · next hs =>
      obtain ⟨c, hc⟩ := Option.isSome_iff_exists.mp hs
      obtain ⟨⟨s1, l1⟩, h1⟩ := cleanup_safe hc
      obtain ⟨_, _, h2, h3, h4⟩ := cleanup_ok h1
      obtain ⟨s', l', h5, h6, h7⟩ := ih (s := s1) (by rw [h3]; exact hpid) (fun id hid => by
        rw [h2]
        split
        · rfl
        · exact hfresh id (by omega))
      refine ⟨s', l1 ++ l', by unfold andThen; rw [h1]; simp only [Outcome.bind]; rw [h5]; rfl, fun p hp => ?_, h7⟩
      rw [List.mem_append] at hp
      rcases hp with hp | hp
      · rw [h4, if_neg (fun h => h.2 hpid)] at hp
        simp at hp
      · exact h6 p hp
    · next hs =>
      refine ih hpid fun id hid => ?_
      rcases Nat.lt_or_ge n id with h1 | h1
      · exact hfresh id (by omega)
      · have : id = n := by omega
        subst this
        simpa using hs

/-- A takeover: one client wants a replacement, another waits for a reload, process 200 takes over. -/
def runEx45 : List Event :=
  [.accept none, .accept none, .read 0 (ask 90 0) envEx, .read 1 (ask 82 0) envEx, .write 0 (.part 8), .read 0 (ask 90 0) envEx, .accept none, .read 2 (ask 49 200) envEx, .write 2 (.part 8),
    .read 2 (ask 84 200) envEx, .write 2 (.part 8)]

def logEx45 : List Entry :=
  [.accept 0 none, .accept 1 none, .req 0 (msg 90 0 0), .load 1, .req 1 (msg 82 0 0), .spawn 1 200, .resp 0 (plain 76) [] false, .out 0 (plain 76) [],
    .req 0 (msg 90 0 0), .resp 0 (plain 76) [] false, .accept 2 none, .req 2 (msg 49 0 200), .takeover 2 200, .resp 2 (plain 65) [] false, .out 2 (plain 65) [], .req 2 (msg 84 0 200),
    .resp 2 (msg 65 4 0) [] true, .out 2 (msg 65 4 0) [10, 11, 12, 13]]

theorem run45 : ∃ s, Run cfgEx s logEx45 ∧ s.running = true :=
  run_of (es := runEx45) (by decide) (by decide +kernel)

example : current logEx45 = 200 ∧ taker logEx45 = some 2 := by decide
example : ∃ s', Run cfgEx s' (logEx45 ++ [.died 200, .resp 1 (plain 70) [] false, .kill 200, .close 2]) ∧ s'.running = true :=
  run_of (es := runEx45 ++ [.tick false]) (by decide) (by decide +kernel)

/-- **Killed by its number alone.** The process that was found dead is killed, although another process
may have its number by then (src/css.c:382-390 with 164-170). -/
theorem C75_false_dead : ∃ cfg s a b p, CfgOk cfg ∧ Run cfg s (a ++ .kill p :: b) ∧ .died p ∈ a ∧ current a = 0 := by
  obtain ⟨s, h, _⟩ := run_of (cfg := cfgEx) (es := runEx45 ++ [.tick false]) (l := (logEx45 ++ [.died 200, .resp 1 (plain 70) [] false]) ++ .kill 200 :: [.close 2]) (by decide) (by decide +kernel)
  exact ⟨cfgEx, s, _, _, 200, by decide, h, by simp, by decide⟩

/-- **Everyone is killed.** A client of the Unix socket claims the process number 2^32 - 1 and goes away:
as a `pid_t`, the daemon kills -1, which is all processes it may (src/css.c:704 and 167). -/
theorem C75_false_pid : ∃ cfg s a b, CfgOk cfg ∧ Run cfg s (a ++ .kill 4294967295 :: b) := by
  obtain ⟨s, h, _⟩ := run_of (cfg := cfgEx) (es := [.accept none, .read 0 (ask 49 4294967295) envEx, .write 0 (.part 8), .read 0 (.got []) envEx])
    (l := [.accept 0 none, .req 0 (msg 49 0 4294967295), .takeover 0 4294967295, .resp 0 (plain 65) [] false, .out 0 (plain 65) []] ++ .kill 4294967295 :: [.close 0]) (by decide) (by decide +kernel)
  exact ⟨cfgEx, s, _, _, by decide, h⟩

/-! ### C46 -/

/-- A reload that is acknowledged was started after the request, and succeeded. -/
theorem C46_ack {cfg s a id m d f b r} (h : Run cfg s (a ++ .resp id m d f :: b)) (hr : Turns id a (some r)) (hk : msgKey r = 90) (hm : msgKey m = 65) : Loaded a id r :=
  ((run_k h).f a _ b rfl).ack id m d f r rfl hr hk hm

/-- Which reloads fail is what the loads say. -/
theorem C46_result {cfg s a t f b} (h : Run cfg s (a ++ .loaded t f :: b)) : f = cfg.fails t ∧ ∀ f', .loaded t f' ∉ a :=
  ((run_k h).f a _ b rfl).loaded t f rfl

/-- Requests and responses of every connection take turns: no request gets two. -/
theorem C46_once {cfg s l} (h : Run cfg s l) (id : Nat) : ∃ o, Turns id l o := by
  have hf := ((run_k h).a.conn id).1
  clear h
  suffices ∀ (n : Nat) (l : List Entry), l.length = n → Every (Fine cfg id) l → ∃ o, Turns id l o from this l.length l rfl hf
  intro n
  induction n with
  | zero => intro l hl _; rw [List.length_eq_zero_iff.mp hl]; exact ⟨none, .nil⟩
  | succ n ih =>
    intro l hl hf
    rcases List.eq_nil_or_concat l with rfl | ⟨a, e, rfl⟩
    · cases hl
    · rw [List.concat_eq_append] at hf hl ⊢
      have hfe := hf a e [] rfl
      by_cases ht : turn e = some id
      · cases e with
        | req i m => simp only [turn, Option.some.injEq] at ht; subst ht; exact ⟨_, .req (hfe.req m rfl).1⟩
        | resp i m d f => simp only [turn, Option.some.injEq] at ht; subst ht; obtain ⟨r, hr⟩ := hfe.resp m d f rfl; exact ⟨_, .resp hr⟩
        | _ => cases ht
      · obtain ⟨o, ho⟩ := ih a (by simpa using hl) hf.left
        exact ⟨o, .other ho ht⟩

/-- The queue of a client that waits. -/
theorem waiting_queue {cfg s l id c r} (h : Run cfg s l) (hrun : s.running = true) (hid : s.conn id = some c) (hr : Turns id l (some r)) (hk : msgKey r = 90) : id ∈ s.active ++ s.queued := by
  have hb := (run_k h).b hrun
  obtain ⟨_, hg⟩ := ((run_k h).a.conn id).2 c hid
  rcases hg with hg | hg
  · have ho := hg.turns.unique hr
    unfold opn at ho
    split at ho
    · next hst =>
      cases ho
      rcases hb.waiting id c hid hst with h1 | h1 | h1
      · cases h1
      · exact h1
      · obtain ⟨_, _, c', hc', _, hk'⟩ := hb.ctl id h1
        rw [hid] at hc'
        cases hc'
        rw [hk] at hk'
        cases hk'
    · next hst =>
      cases ho
      have := hg.shape
      simp only [Shape, hst] at this
      rw [hk] at this
      exact absurd this.2.2.2.2.1 (by decide)
    · cases ho
  · have := hg.turns.unique hr
    cases this

/-- While a client waits for a reload, a load is under way: its thread still runs, or its end is about to
be noticed, and noticing it is safe. -/
theorem C46_working {cfg s l id c r} (h : Run cfg s l) (hrun : s.running = true) (hid : s.conn id = some c) (hr : Turns id l (some r)) (hk : msgKey r = 90) :
    ∃ t x, loading l t ∧ s.threads[t]? = some x ∧ (x.ended = false ∨ s.async = true) ∧
      (s.async = true → ∃ s' l', step cfg s .async = .ok (s', l') ∧ .loaded t (cfg.fails t) ∈ l') := by
  have hq := waiting_queue h hrun hid hr hk
  have hb := (run_k h).b hrun
  have hJ : J cfg none s l := ⟨(run_k h).a, (run_k h).f, hb⟩
  have hact : s.active ≠ [] := fun h0 => by rw [h0, hb.act h0] at hq; cases hq
  obtain ⟨x, hx, hj, he⟩ := hb.actT hact
  refine ⟨s.tid, x, loading_of hb hact, hx, he.symm, fun ha => ?_⟩
  obtain ⟨⟨s', l'⟩, hsafe⟩ := reload_safe (cfg := cfg) hJ hx hj
  refine ⟨s', l', by simp only [step, ha, if_true]; exact hsafe, ?_⟩
  unfold reloadDone at hsafe
  rw [hx] at hsafe
  dsimp only at hsafe
  rw [if_neg (by rw [hj]; decide)] at hsafe
  obtain ⟨s1, l1, l2, h1, _, rfl⟩ := andThen_ok hsafe
  obtain ⟨_, rfl⟩ := one_ok h1
  simp

/-- A client waits for two loads at most: the one under way at its request, and the next. -/
theorem C46_bound {cfg s id c r a b} (h : Run cfg s (a ++ .req id r :: b)) (hrun : s.running = true) (hid : s.conn id = some c) (hk : msgKey r = 90) (hb : ∀ e ∈ b, turn e ≠ some id) :
    (b.filter isLoaded).length ≤ 1 := by
  obtain ⟨o, ho⟩ := C46_once h id
  have hr : o = some r := ho.tail hb
  subst hr
  have hq := waiting_queue h hrun hid ho hk
  have hS := run_since h
  have hsin : since id (a ++ .req id r :: b) = (b.filter isLoaded).length := by
    rw [since_append, List.foldl_cons]
    have : since1 id (since id a) (.req id r) = 0 := by simp [since1]
    rw [this, since_no hb]
    omega
  rw [← hsin]
  rw [List.mem_append] at hq
  rcases hq with hq | hq
  · exact hS.active id hq
  · rw [hS.queued id hq]; exact Nat.zero_le _

/-- When a load ends, the clients whose request came before it was started get A or F, as it went; if
others wait, the next is started. -/
theorem C46_done {cfg s l s' l'} (h : Run cfg s l) (hrun : s.running = true) (hs : step cfg s .async = .ok (s', l')) :
    l' = [] ∨ ∃ t ids n, l' = .loaded t (cfg.fails t) :: (ids.map fun i => .resp i (plain (if cfg.fails t = true then 70 else 65)) [] false) ++ n ∧ Waiters l ids ∧
      (n = [] ∨ ∃ t', n = [.load t'] ∧ .load t' ∉ l) ∧
      ∀ id c r, s.conn id = some c → Turns id l (some r) → msgKey r = 90 → id ∉ ids → n ≠ [] := by
  have hb := (run_k h).b hrun
  have hJ : J cfg none s l := ⟨(run_k h).a, (run_k h).f, hb⟩
  simp only [step] at hs
  split at hs
  rotate_left
  · obtain ⟨_, rfl⟩ := one_ok hs; exact Or.inl rfl
  right
  unfold reloadDone at hs
  split at hs
  · cases hs
  · split at hs
    · cases hs
    · obtain ⟨s1, l1, l2, h1, ha, rfl⟩ := andThen_ok hs
      obtain ⟨rfl, rfl⟩ := one_ok h1
      unfold notify at ha
      dsimp only at ha
      obtain ⟨s2, l3, l4, h2, hb4, rfl⟩ := andThen_ok ha
      obtain ⟨l5, hl5, _, hf, hm, _⟩ := answers_ok h2
      rw [List.nil_append] at hl5
      subst hl5 hm
      have hw := waiters_of hJ
      refine ⟨s.tid, s.active, l4, ?_, ⟨?_, fun i hi => hw.2 i (by simp [hi])⟩, ?_, ?_⟩
      · simp only [List.singleton_append, List.cons_append, List.cons.injEq, true_and]
        rfl
      · have := hw.1; rw [List.nodup_append] at this; exact this.1
      · split at hb4
        · obtain ⟨_, rfl⟩ := load_ok hb4
          refine Or.inr ⟨_, rfl, fun hl => ?_⟩
          have := ((hb.load _).mp hl).2
          rw [hf] at this
          simp at this
        · obtain ⟨_, rfl⟩ := one_ok hb4; exact Or.inl rfl
      · intro id c r hid hr hk hni
        have hq := waiting_queue h hrun hid hr hk
        have hqu : id ∈ s.queued := (List.mem_append.mp hq).resolve_left hni
        rw [if_pos (by
          rw [hf]
          intro h0
          have h0 : s.queued = [] := h0
          rw [h0] at hqu
          cases hqu)] at hb4
        obtain ⟨_, rfl⟩ := load_ok hb4
        simp

/-- Unless a replacement was accepted during a load, there is never more than one load under way. -/
theorem C75_one_partial {cfg s l t t'} (h : Run cfg s l) (hrun : s.running = true) (hi : ¬ Interrupted l) (ht : loading l t) (ht' : loading l t') : t = t' := by
  have hb := (run_k h).b hrun
  have ho := (run_threads h).resolve_left hi
  have : ∀ {t}, loading l t → t = s.tid := by
    intro t ht
    obtain ⟨h1, h2⟩ := (hb.load t).mp ht.1
    have hthr := hb.thr
    rcases Nat.lt_or_ge t s.tid with h3 | h3
    · obtain ⟨f, hf⟩ := (hb.joined t _ h1 (ho.others t h3)).mp rfl
      exact absurd hf (ht.2 f)
    · omega
  rw [this ht, this ht']

/-- A reload that succeeds, one that is under way, and one that waits for the next. -/
def runEx46 : List Event :=
  [.accept none, .accept none, .accept (some ⟨false, true⟩), .read 0 (ask 90 0) envEx, .read 1 (ask 90 0) envEx, .ended 1, .async, .read 2 (ask 90 0) envEx, .ended 2, .async]

def logEx46 : List Entry :=
  [.accept 0 none, .accept 1 none, .accept 2 (some ⟨false, true⟩), .req 0 (msg 90 0 0), .load 1, .req 1 (msg 90 0 0), .loaded 1 false, .resp 0 (plain 65) [] false, .load 2, .req 2 (msg 90 0 0),
    .loaded 2 true, .resp 1 (plain 70) [] false, .load 3]

theorem run46 : ∃ s, Run cfgEx s logEx46 ∧ s.running = true :=
  run_of (es := runEx46) (by decide) (by decide +kernel)

example : ∃ s, Run cfgEx s (logEx46.take 7 ++ .resp 0 (plain 65) [] false :: logEx46.drop 8) ∧ Loaded (logEx46.take 7) 0 (msg 90 0 0) := by
  obtain ⟨s, h, _⟩ := run46
  exact ⟨s, h, logEx46.take 3, [], logEx46.drop 5 |>.take 2, 1, rfl, by decide, by decide⟩

/-- **Two loads at once.** A takeover is accepted during a load and ends; the next request starts a second
load while the first still runs (src/css.c:541-553, 649-662): both build zones and publish them. -/
theorem C75_false_loads : ∃ cfg s l t t', CfgOk cfg ∧ Run cfg s l ∧ s.running = true ∧ loading l t ∧ loading l t' ∧ t ≠ t' := by
  obtain ⟨s, h, hr⟩ := run_of (cfg := cfgEx) (es := [.accept none, .accept none, .read 0 (ask 90 0) envEx, .read 1 (ask 49 200) envEx, .tick false, .write 0 (.part 8), .read 0 (ask 90 0) envEx])
    (l := [.accept 0 none, .accept 1 none, .req 0 (msg 90 0 0), .load 1, .req 1 (msg 49 0 200), .takeover 1 200, .resp 0 (plain 76) [] false, .resp 1 (plain 65) [] false,
      .died 200, .kill 200, .close 1, .out 0 (plain 76) [], .req 0 (msg 90 0 0), .load 2]) (by decide) (by decide +kernel)
  refine ⟨cfgEx, s, _, 1, 2, by decide, h, ?_, ⟨by decide, by simp⟩, ⟨by decide, by simp⟩, by decide⟩
  rw [hr]
  decide +kernel

/-! ### C73 -/

/-- What is written on a connection is a part from the start of its responses, in their order. -/
theorem C73_prefix {cfg s l} (h : Run cfg s l) (id : Nat) : sent id l <+: owed cfg id l ∧ sentFds id l <+: owedFds cfg id l := by
  have hf := ((run_k h).a.conn id).1
  clear h
  suffices ∀ (n : Nat) (l : List Entry), l.length = n → Every (Fine cfg id) l → sent id l <+: owed cfg id l ∧ sentFds id l <+: owedFds cfg id l from this l.length l rfl hf
  intro n
  induction n with
  | zero => intro l hl _; rw [List.length_eq_zero_iff.mp hl]; exact ⟨List.nil_prefix, List.nil_prefix⟩
  | succ n ih =>
    intro l hl hf
    rcases List.eq_nil_or_concat l with rfl | ⟨a, e, rfl⟩
    · cases hl
    · rw [List.concat_eq_append] at hf hl ⊢
      have hfe := hf a e [] rfl
      obtain ⟨h1, h2⟩ := ih a (by simpa using hl) hf.left
      rw [sent_append, owed_append, sentFds_append, owedFds_append]
      by_cases he : ∃ b f, e = .out id b f
      · obtain ⟨b, f, rfl⟩ := he
        have := hfe.out b f rfl
        simpa [sent, owed, sentFds, owedFds] using this
      · have hs : sent id [e] = [] ∧ sentFds id [e] = [] := by
          cases e with
          | out i b f =>
            have : i ≠ id := fun h0 => he ⟨b, f, by rw [h0]⟩
            simp [sent, sentFds, this]
          | _ => exact ⟨rfl, rfl⟩
        rw [hs.1, hs.2, List.append_nil, List.append_nil]
        exact ⟨h1.trans (List.prefix_append _ _), h2.trans (List.prefix_append _ _)⟩

/-- Before the next request is read, all of them are written. -/
theorem C73_complete {cfg s a id m b} (h : Run cfg s (a ++ .req id m :: b)) : sent id a = owed cfg id a ∧ sentFds id a = owedFds cfg id a ∧ m.length = 8 := by
  have := (((run_k h).a.conn id).1 a _ b rfl).req m rfl
  exact ⟨this.2.2.1, this.2.2.2, this.2.1⟩

/-- A response has eight bytes, and the length of its data and the number of its descriptors are in
there. -/
theorem C73_header {cfg s a id m d f b} (h : Run cfg s (a ++ .resp id m d f :: b)) :
    m.length = 8 ∧ (d ≠ [] → msgD m = d.length) ∧ (f = true → msgKey m = 65 ∧ d = [] ∧ (cfg.fds.length < 2 ^ 24 → msgV m = cfg.fds.length)) := by
  have hf := (((run_k h).a.conn id).1 a _ b rfl).len m d f rfl
  obtain ⟨⟨k, v, n, rfl, hd⟩, hfd⟩ := hf
  have hh : header k v n (msg k v n) := header_msg
  refine ⟨rfl, fun h0 => ?_, fun h0 => ?_⟩
  · obtain ⟨rfl, h2⟩ := hd h0
    rw [hh.2.2.2, Nat.mod_eq_of_lt h2]
  · obtain ⟨h1, h2⟩ := hfd h0
    rw [h1]
    refine ⟨rfl, h2, fun h3 => ?_⟩
    have hh : header 65 cfg.fds.length 0 (msg 65 cfg.fds.length 0) := header_msg
    rw [hh.2.2.1, Nat.mod_eq_of_lt h3]

example : sentFds 2 logEx45 = [10, 11, 12, 13] ∧ owedFds cfgEx 2 logEx45 = [10, 11, 12, 13] ∧ sent 2 logEx45 = plain 65 ++ msg 65 4 0 := by decide

/-- **Never sent.** A TAK2 or TAKE that is not the replacement's is answered with F, but the connection is
closed before it is sent (src/css.c:723-757). -/
theorem C73_false_refused : ∃ cfg s a b id m, CfgOk cfg ∧ Run cfg s (a ++ [.resp id m [] false, .close id] ++ b) ∧ sent id (a ++ [.resp id m [] false, .close id] ++ b) ≠ owed cfg id (a ++ [.resp id m [] false, .close id] ++ b) := by
  obtain ⟨s, h, _⟩ := run_of (cfg := cfgEx) (es := [.accept none, .read 0 (ask 84 200) envEx])
    (l := [.accept 0 none, .req 0 (msg 84 0 200)] ++ [.resp 0 (plain 70) [] false, .close 0] ++ []) (by decide) (by decide +kernel)
  exact ⟨cfgEx, s, _, _, 0, plain 70, by decide, h, by decide⟩

/-! ### C75 -/

/-- Every callback is safe, but for those listed. -/
theorem C75_safe_partial {cfg s l e} (hcfg : CfgOk cfg) (h : Run cfg s l) (hrun : s.running = true) (he : EventOk e) (hno : ¬ Fault l e) : ∃ s' l', step cfg s e = .ok (s', l') := by
  have hb := (run_k h).b hrun
  have hJ : J cfg none s l := ⟨(run_k h).a, (run_k h).f, hb⟩
  have htk := run_taker h
  have hend := run_end h
  obtain ⟨⟨s', l'⟩, hs⟩ := step_safe hcfg he hJ fun hc => hno (by
    cases hc with
    | timer h1 h2 => obtain ⟨id, hid⟩ := hb.timer0 h1 h2; exact .timer hid
    | second h1 h2 h3 =>
      cases hd : s.dmn with
      | none => exact absurd hd h2
      | some k =>
        refine .second (k := k) (by rw [← htk, hd]) ?_
        rcases h3 with h3 | ⟨h3, h4⟩
        · exact Or.inr ⟨h1, hb.timer0 (hend.timer h2 hrun) h3⟩
        · exact Or.inl ⟨h3, by rw [← hb.pid, h4]⟩
    | stopFail h1 h2 h3 h4 =>
      cases hct : s.ctl with
      | none => exact absurd hct h2
      | some k =>
        obtain ⟨_, _, c, hc, hw, hk⟩ := hb.ctl k hct
        exact .stop h1 (by rw [← htk, h3]) (hJ.a.turns hc hw) hk h4
    | join h1 h2 h3 =>
      refine .join ((run_threads h).resolve_right fun ho => ?_)
      by_cases ha : s.active = []
      · rw [(ho.idle ha).2] at h1; cases h1
      · rw [ho.busy ha] at h2
        cases h2
        cases h3)
  exact ⟨s', l', hs⟩

/-- **No number.** TAK1 with process 0 leaves the timer running, which stops the daemon with an assertion
(src/css.c:693-710, 363). -/
theorem C75_false_timer : ∃ cfg s l, CfgOk cfg ∧ Run cfg s l ∧ s.running = true ∧ step cfg s (.tick true) = .ub := by
  obtain ⟨s, h⟩ := bad_of (cfg := cfgEx) (es := [.accept none, .read 0 (ask 49 0) envEx]) (e := .tick true)
    (l := [.accept 0 none, .req 0 (msg 49 0 0), .takeover 0 0, .resp 0 (plain 65) [] false]) (by decide) (by decide +kernel) (by decide +kernel)
  exact ⟨cfgEx, s, _, by decide, h⟩

/-- **Twice.** A second TAK1 of the same process stops the daemon (src/css.c:701). -/
theorem C75_false_second : ∃ cfg s l e, CfgOk cfg ∧ Run cfg s l ∧ s.running = true ∧ EventOk e ∧ step cfg s e = .ub := by
  obtain ⟨s, h1, h2, h3⟩ := bad_of (cfg := cfgEx) (es := [.accept none, .read 0 (ask 49 200) envEx, .write 0 (.part 8)]) (e := .read 0 (ask 49 200) envEx)
    (l := [.accept 0 none, .req 0 (msg 49 0 200), .takeover 0 200, .resp 0 (plain 65) [] false, .out 0 (plain 65) []]) (by decide) (by decide +kernel) (by decide +kernel)
  exact ⟨cfgEx, s, _, _, by decide, h1, h2, by decide, h3⟩

/-- **Not told.** The replacement asks the daemon to stop and goes away before it is told; the client that
wanted the replacement waits: an assertion fails (src/css.c:626-640). -/
theorem C75_false_stop : ∃ cfg s l e, CfgOk cfg ∧ Run cfg s l ∧ s.running = true ∧ EventOk e ∧ step cfg s e = .ub := by
  obtain ⟨s, h1, h2, h3⟩ := bad_of (cfg := cfgEx) (es := runEx45) (e := .read 2 (ask 88 0) { envEx with ack1 := false }) (l := logEx45) (by decide) (by decide +kernel) (by decide +kernel)
  exact ⟨cfgEx, s, _, _, by decide, h1, h2, by decide, h3⟩

/-- **Joined twice.** After two loads at once the second one is joined twice (src/main.c:105-113,
178-192). -/
theorem C75_false_join : ∃ cfg s l, CfgOk cfg ∧ Run cfg s l ∧ s.running = true ∧ step cfg s .async = .ub := by
  obtain ⟨s, h⟩ := bad_of (cfg := cfgEx) (es := [.accept none, .accept none, .read 0 (ask 90 0) envEx, .read 1 (ask 49 200) envEx, .tick false, .write 0 (.part 8), .read 0 (ask 90 0) envEx,
      .ended 2, .async, .ended 1]) (e := .async)
    (l := [.accept 0 none, .accept 1 none, .req 0 (msg 90 0 0), .load 1, .req 1 (msg 49 0 200), .takeover 1 200, .resp 0 (plain 76) [] false, .resp 1 (plain 65) [] false,
      .died 200, .kill 200, .close 1, .out 0 (plain 76) [], .req 0 (msg 90 0 0), .load 2, .loaded 2 true, .resp 0 (plain 70) [] false]) (by decide) (by decide +kernel) (by decide +kernel)
  exact ⟨cfgEx, s, _, by decide, h⟩

/-- The hypotheses of `C75_safe_partial` can be met. -/
example : ∃ s, Run cfgEx s logEx46 ∧ s.running = true ∧ ¬ Fault logEx46 .async := by
  obtain ⟨s, h, hr⟩ := run46
  refine ⟨s, h, hr, ?_⟩
  intro hf
  cases hf with
  | join hi =>
  obtain ⟨a, e, b, t, hl, he, _⟩ := hi
  have : e ∈ logEx46 := by rw [hl]; simp
  rcases he with ⟨id, n, rfl, _⟩ | ⟨id, p, rfl⟩ <;> simp [logEx46] at this

end Gdnsd.Css
