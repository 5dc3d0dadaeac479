/-
C80: requests and replies of a thread that serves datagrams.
-/
import Verif.Udp.Lemmas
namespace Gdnsd.Udp
open UdpSpec

theorem run_inv {σ : Type} {Q : Query σ} {q : σ} {many : Bool} : ∀ {es : List Ev} {s s' : St σ} {pre : List Ev} {log : List (Dgram × Bool)}, Inv Q q pre s log →
    (many = false → ∀ out done run, s.phase = .busy out done run → ∃ o, out = [o] ∧ done = 0) → run Q many s es = .ok (some s') →
    ∃ log', Inv Q q (pre ++ es) s' log'
  | [], s, s', pre, log, h, _, hr => by
    simp only [run, Outcome.ok.injEq, Option.some.injEq] at hr
    subst hr
    exact ⟨log, by simpa using h⟩
  | e :: es, s, s', pre, log, h, hone, hr => by
    have hpre : pre ++ e :: es = pre ++ [e] ++ es := by simp
    unfold run at hr
    cases many with
    | true =>
      rw [if_pos rfl] at hr
      cases hs : step Q s e with
      | ub => rw [hs] at hr; cases hr
      | ok x =>
        rw [hs, Outcome.bind_ok] at hr
        cases x with
        | none => simp at hr
        | some s1 =>
          obtain ⟨log1, h1⟩ := step_inv h hs
          rw [hpre]
          exact run_inv h1 (by simp) hr
    | false =>
      rw [if_neg (by simp)] at hr
      cases hs : step1 Q s e with
      | ub => rw [hs] at hr; cases hr
      | ok x =>
        rw [hs, Outcome.bind_ok] at hr
        cases x with
        | none => simp at hr
        | some s1 =>
          obtain ⟨⟨log1, h1⟩, h2⟩ := step1_inv h (hone rfl) hs
          rw [hpre]
          exact run_inv h1 (fun _ => h2) hr

theorem inv_start {σ : Type} (Q : Query σ) (q : σ) : Inv Q q [] (start q) [] :=
  ⟨.nil, trivial, rfl, rfl, rfl, rfl, by simp [sends]⟩

/-- Whatever the kernel does, in batches or one by one: the replies that were sent or given up are the first
of those that are owed for the requests received, in their order, each once; all of them, when the thread
waits for more. Each that was not sent is counted as failed, each datagram from port 0 as dropped, and it is
never answered. -/
theorem C80_replies {σ : Type} {Q : Query σ} {q : σ} {many : Bool} {es : List Ev} {s : St σ} (h : run Q many (start q) es = .ok (some s)) :
    ∃ rs log, Owed Q q (received es) s.q rs ∧ log.map (·.1) <+: rs ∧ (s.phase = .idle → log.map (·.1) = rs) ∧ s.sent = delivered log ∧
      s.n.sendfail = (log.filter fun x => !x.2).length ∧ s.n.dropped = ((received es).filter fun d => d.peer.port = 0).length ∧
      s.n.recvfail = (es.filter fun e => decide (e = .recvFail)).length := by
  obtain ⟨log, hi⟩ := run_inv (inv_start Q q) (fun _ => by simp [start]) h
  simp only [List.nil_append] at hi
  exact ⟨_, log, hi.owed, List.prefix_append .., fun hp => by rw [hp]; simp [Phase.left], hi.sent, hi.fails, hi.dropped, hi.recvfail⟩

/-- What is owed depends only on what was received. -/
theorem C80_unique {σ : Type} {Q : Query σ} {s s1 s2 : σ} {ds rs rs' : List Dgram} (h : Owed Q s ds s1 rs) (h' : Owed Q s ds s2 rs') : s1 = s2 ∧ rs = rs' := by
  have hr : ∀ {l a b}, Routed l a → Routed l b → a = b := by
    intro l a b ha
    induction ha generalizing b with
    | nil => intro h; cases h; rfl
    | «local» h1 => intro h; cases h with
      | «local» => rfl
      | global h2 => exact absurd h1 h2
    | global h1 => intro h; cases h with
      | «local» h2 => exact absurd h2 h1
      | global => rfl
    | other _ ih => intro h; cases h with
      | other h => rw [ih h]
  have heq : ∀ {d : Dgram} {x : Bytes} {r r' : Dgram}, ReplyTo d x r → ReplyTo d x r' → r = r' := by
    intro d x r r' h4 h6
    obtain ⟨p, c, y⟩ := r
    obtain ⟨p', c', y'⟩ := r'
    have hp := h4.peer.trans h6.peer.symm
    have hx := h4.data.trans h6.data.symm
    have hc : c = c' := by
      cases hv : d.peer.v6 with
      | true => exact hr (h4.ctl6 hv) (h6.ctl6 hv)
      | false => exact (h4.ctl4 hv).trans (h6.ctl4 hv).symm
    simp only at hp hx
    rw [hp, hx, hc]
  induction h generalizing s2 rs' with
  | nil => cases h'; exact ⟨rfl, rfl⟩
  | zero h1 _ ih =>
    cases h' with
    | zero _ h' => exact ih h'
    | silent h2 => exact absurd h1 h2
    | reply h2 => exact absurd h1 h2
  | silent h1 h2 _ ih =>
    cases h' with
    | zero h3 => exact absurd h3 h1
    | silent _ h4 h' =>
      rw [h2] at h4
      simp only [Outcome.ok.injEq, Prod.mk.injEq, and_true] at h4
      subst h4
      exact ih h'
    | reply _ h4 h5 =>
      rw [h2] at h4
      simp only [Outcome.ok.injEq, Prod.mk.injEq] at h4
      exact absurd h4.2.symm h5
  | reply h1 h2 h3 h4 _ ih =>
    cases h' with
    | zero h5 => exact absurd h5 h1
    | silent _ h5 =>
      rw [h2] at h5
      simp only [Outcome.ok.injEq, Prod.mk.injEq] at h5
      exact absurd h5.2 h3
    | reply _ h5 _ h6 h' =>
      rw [h2] at h5
      simp only [Outcome.ok.injEq, Prod.mk.injEq] at h5
      obtain ⟨rfl, rfl⟩ := h5
      obtain ⟨rfl, rfl⟩ := ih h'
      refine ⟨rfl, ?_⟩
      congr 1
      exact heq h4 h6

/-- Sending ends: every call that was not interrupted sends a reply or gives one up. -/
theorem C80_calls {σ : Type} {Q : Query σ} {q : σ} {many : Bool} {es : List Ev} {s : St σ} (h : run Q many (start q) es = .ok (some s))
    {rs : List Dgram} {x : σ} (ho : Owed Q q (received es) x rs) : sends es ≤ rs.length := by
  obtain ⟨log, hi⟩ := run_inv (inv_start Q q) (fun _ => by simp [start]) h
  simp only [List.nil_append] at hi
  obtain ⟨_, rfl⟩ := C80_unique ho hi.owed
  have := hi.calls
  simp only [List.length_append, List.length_map]
  omega

/-- What the kernel may do next: hand over up to 16 datagrams (one if one was asked for), send some of those
offered. -/
def Kernel {σ : Type} (many : Bool) (s : St σ) (e : Ev) : Prop :=
  match s.phase, e with
  | .idle, .recv ds => ds ≠ [] ∧ ds.length ≤ if many = true then 16 else 1
  | .busy _ _ run, .send (.ok k) => 1 ≤ k ∧ k ≤ run
  | .busy _ _ _, .send _ => True
  | .idle, .none => True
  | .idle, .recvFail => True
  | _, _ => False

/-- No assertion fails as long as the kernel keeps to that: there is always a next state. -/
theorem C80_safe {σ : Type} {Q : Query σ} (hQ : ∀ s a b, ∃ r, Q s a b = .ok r) {q : σ} {many : Bool} {es : List Ev} {s : St σ}
    (h : run Q many (start q) es = .ok (some s)) {e : Ev} (he : Kernel many s e) : ∃ s', run Q many (start q) (es ++ [e]) = .ok (some s') := by
  have happ : ∀ (es : List Ev) (s0 : St σ), run Q many s0 es = .ok (some s) →
      run Q many s0 (es ++ [e]) = run Q many s [e] := by
    intro es
    induction es with
    | nil =>
      intro s0 h
      simp only [run, Outcome.ok.injEq, Option.some.injEq] at h
      rw [h]; rfl
    | cons a es ih =>
      intro s0 h
      simp only [List.cons_append]
      unfold run at h ⊢
      cases ha : (if many = true then step Q s0 a else step1 Q s0 a) with
      | ub => rw [ha] at h; cases h
      | ok x =>
        rw [ha, Outcome.bind_ok] at h
        rw [Outcome.bind_ok]
        cases x with
        | none => simp at h
        | some s1 => exact ih s1 h
  rw [happ es _ h]
  obtain ⟨log, hi⟩ := run_inv (inv_start Q q) (fun _ => by simp [start]) h
  have hh : ∀ s n d, ∃ x, handle Q s n d = .ok x := by
    intro s n d
    unfold handle
    split
    · exact ⟨_, rfl⟩
    · obtain ⟨r, hr⟩ := hQ s d.peer d.data
      rw [hr]
      exact ⟨_, rfl⟩
  have hha : ∀ ds s n, ∃ x, handleAll Q s n ds = .ok x := by
    intro ds
    induction ds with
    | nil => exact fun _ _ => ⟨_, rfl⟩
    | cons d ds ih =>
      intro s n
      obtain ⟨⟨s1, n1, o⟩, h1⟩ := hh s n d
      obtain ⟨⟨s2, n2, os⟩, h2⟩ := ih s1 n1
      exact ⟨_, by rw [handleAll, h1, Outcome.bind_ok]; dsimp only; rw [h2, Outcome.bind_ok]⟩
  suffices ∃ s', (if many = true then step Q s e else step1 Q s e) = .ok (some s') by
    obtain ⟨s', hs⟩ := this
    exact ⟨s', by unfold run; rw [hs]; rfl⟩
  obtain ⟨qs, n, ph, sent⟩ := s
  have hok := hi.ok
  cases ph with
  | idle =>
    cases e with
    | send r => simp [Kernel] at he
    | none => exact ⟨_, by cases many <;> rfl⟩
    | recvFail => exact ⟨_, by cases many <;> rfl⟩
    | recv ds =>
      simp only [Kernel] at he
      cases many with
      | true =>
        simp only [if_true] at he ⊢
        obtain ⟨⟨q2, n2, out⟩, h2⟩ := hha ds qs n
        obtain ⟨p, h3, _⟩ := resume_spec (⟨q2, n2, .idle, sent⟩ : St σ) out 0 (by simp)
        have hd : decide (ds.length ≤ 16 ∧ 0 < ds.length) = true := by
          have : 0 < ds.length := List.length_pos_iff.mpr he.1
          exact decide_eq_true ⟨he.2, this⟩
        simp only [step]
        rw [hd, assert_true, Outcome.bind_ok, h2, Outcome.bind_ok]
        dsimp only
        rw [h3]
        exact ⟨_, rfl⟩
      | false =>
        simp only [Bool.false_eq_true, if_false] at he ⊢
        match ds with
        | [] => exact absurd rfl he.1
        | _ :: _ :: _ => exact absurd he.2 (by simp)
        | [d] =>
          obtain ⟨⟨q2, n2, o⟩, h2⟩ := hh qs n d
          simp only [step1, h2, Outcome.bind_ok]
          exact ⟨_, rfl⟩
  | busy out done run =>
    simp only [Phase.Ok] at hok
    cases e with
    | recv ds => simp [Kernel] at he
    | none => simp [Kernel] at he
    | recvFail => simp [Kernel] at he
    | send r =>
      cases r with
      | intr => exact ⟨_, by cases many <;> rfl⟩
      | fail =>
        cases many with
        | false => exact ⟨_, rfl⟩
        | true =>
          obtain ⟨p, h3, _⟩ := resume_spec (⟨qs, { n with sendfail := n.sendfail + 1 }, .busy out done run, sent⟩ : St σ) out (done + 1) (by omega)
          simp only [if_true, step]
          rw [h3]
          exact ⟨_, rfl⟩
      | ok k =>
        cases many with
        | false => exact ⟨_, rfl⟩
        | true =>
          simp only [Kernel] at he
          obtain ⟨p, h3, _⟩ := resume_spec (⟨qs, n, .busy out done run, sent ++ (out.drop done).take k⟩ : St σ) out (done + k) (by omega)
          simp only [if_true, step]
          rw [show decide (k ≠ 0 ∧ k ≤ run) = true by simpa using ⟨by omega, he.2⟩, assert_true, Outcome.bind_ok, h3]
          exact ⟨_, rfl⟩

/-! ### Examples -/

/-- Replies with the request, counts requests, and has nothing to say to an empty one. -/
def echo : Query Nat := fun n _ b => .ok (n + 1, b)

def peerA : Addr := ⟨false, 1000, [192, 0, 2, 1]⟩
def peerB : Addr := ⟨true, 2000, [32, 1]⟩
def peerZ : Addr := ⟨false, 0, [192, 0, 2, 9]⟩

/-- Five requests at once: of the replies the first is sent, the second fails, then one call is interrupted
and the last one is sent. -/
def exEvents : List Ev :=
  [.recvFail, .recv [⟨peerA, [], [1]⟩, ⟨peerB, [.pkt6 [32, 1] 3], [2]⟩, ⟨peerZ, [], [3]⟩, ⟨peerA, [], []⟩, ⟨peerB, [.pkt6 [254, 128] 3], [5]⟩],
    .send (.ok 1), .send .fail, .send .intr, .send (.ok 1), .none]

example : (match run echo true (start 0) exEvents with
    | .ok (some s) => decide (s.q = 4 ∧ s.n = ⟨1, 1, 1⟩ ∧ s.phase = .idle ∧ s.sent = [⟨peerA, [], [1]⟩, ⟨peerB, [.pkt6 [254, 128] 3], [5]⟩])
    | _ => false) = true := by
  decide +kernel

example : (match run echo false (start 0) [.recv [⟨peerB, [.pkt6 [32, 1] 3], [2]⟩], .send .intr, .send (.ok 1)] with
    | .ok (some s) => decide (s.sent = [⟨peerB, [.pkt6 [32, 1] 0], [2]⟩] ∧ s.n = ⟨0, 0, 0⟩)
    | _ => false) = true := by
  decide +kernel

example : ∀ s a b, ∃ r, echo s a b = .ok r := fun _ _ _ => ⟨_, rfl⟩

end Gdnsd.Udp
