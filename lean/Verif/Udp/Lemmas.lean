/-
Helper lemmas for C80.
-/
import Verif.Udp.Spec
namespace Gdnsd.Udp
open UdpSpec

theorem linkLocal_iff (ip : Bytes) : linkLocal ip = true ↔ LinkLocal ip := by
  have hb : ∀ x : BitVec 8, ((⟨x⟩ : UInt8) &&& 192 == 128) = true ↔ (⟨x⟩ : UInt8).toNat / 64 = 2 := by decide +kernel
  unfold linkLocal LinkLocal
  match ip with
  | [] => simp
  | [a] => simp
  | a :: b :: r =>
    simp only [Bool.and_eq_true, beq_iff_eq, List.cons.injEq]
    have := hb b.toBitVec
    simp only [beq_iff_eq] at this
    rw [this]
    constructor
    · rintro ⟨rfl, h⟩; exact ⟨254, b, r, ⟨rfl, rfl, rfl⟩, rfl, h⟩
    · rintro ⟨a', b', r', ⟨rfl, rfl, rfl⟩, h1, h2⟩
      exact ⟨UInt8.toNat_inj.mp h1, h2⟩

theorem fixup_routed : ∀ l, Routed l (fixup l)
  | [] => .nil
  | .pkt6 ip i :: r => by
    unfold fixup
    cases h : linkLocal ip with
    | true => exact .local ((linkLocal_iff ip).mp h)
    | false => exact .global fun h' => by rw [(linkLocal_iff ip).mpr h'] at h; cases h
  | .other d :: r => .other (fixup_routed r)

/-- What is to be sent. -/
def full (l : List Dgram) : List Dgram := l.filter fun d => decide (d.data ≠ [])

/-- How many came from port 0. -/
def zeros (l : List Dgram) : Nat := (l.filter fun d => d.peer.port = 0).length

theorem owed_append {σ : Type} {Q : Query σ} {s s1 s2 : σ} {ds ds' rs rs' : List Dgram} (h : Owed Q s ds s1 rs) (h' : Owed Q s1 ds' s2 rs') :
    Owed Q s (ds ++ ds') s2 (rs ++ rs') := by
  induction h with
  | nil => exact h'
  | zero h1 _ ih => exact .zero h1 (ih h')
  | silent h1 h2 _ ih => exact .silent h1 h2 (ih h')
  | reply h1 h2 h3 h4 _ ih => exact .reply h1 h2 h3 h4 (ih h')

theorem handle_spec {σ : Type} {Q : Query σ} {s s' : σ} {n n' : Counts} {d o : Dgram} (h : handle Q s n d = .ok (s', n', o)) :
    Owed Q s [d] s' (full [o]) ∧ n' = { n with dropped := n.dropped + zeros [d] } := by
  unfold handle at h
  split at h
  · next hp =>
    simp only [Outcome.ok.injEq, Prod.mk.injEq] at h
    obtain ⟨rfl, rfl, rfl⟩ := h
    exact ⟨.zero hp .nil, by simp [zeros, hp]⟩
  · next hp =>
    cases hq : Q s d.peer d.data with
    | ub => rw [hq] at h; cases h
    | ok x =>
      obtain ⟨s1, a⟩ := x
      rw [hq, Outcome.bind_ok] at h
      simp only [Outcome.ok.injEq, Prod.mk.injEq] at h
      obtain ⟨rfl, rfl, rfl⟩ := h
      refine ⟨?_, by simp [zeros, hp]⟩
      cases a with
      | nil => exact .silent hp hq .nil
      | cons c a =>
        refine .reply hp hq (by simp) ⟨rfl, rfl, fun h4 => ?_, fun h6 => ?_⟩ .nil
        · dsimp only; rw [h4]; rfl
        · dsimp only; rw [if_pos h6]; exact fixup_routed _

theorem handleAll_spec {σ : Type} {Q : Query σ} : ∀ {ds os : List Dgram} {s s' : σ} {n n' : Counts}, handleAll Q s n ds = .ok (s', n', os) →
    Owed Q s ds s' (full os) ∧ n' = { n with dropped := n.dropped + zeros ds } ∧ os.length = ds.length
  | [], os, s, s', n, n', h => by
    simp only [handleAll, Outcome.ok.injEq, Prod.mk.injEq] at h
    obtain ⟨rfl, rfl, rfl⟩ := h
    exact ⟨.nil, by simp [zeros], rfl⟩
  | d :: ds, os, s, s', n, n', h => by
    unfold handleAll at h
    cases h1 : handle Q s n d with
    | ub => rw [h1] at h; cases h
    | ok x =>
      obtain ⟨s1, n1, o⟩ := x
      rw [h1, Outcome.bind_ok] at h
      dsimp only at h
      cases h2 : handleAll Q s1 n1 ds with
      | ub => rw [h2] at h; cases h
      | ok y =>
        obtain ⟨s2, n2, os2⟩ := y
        rw [h2, Outcome.bind_ok] at h
        simp only [Outcome.ok.injEq, Prod.mk.injEq] at h
        obtain ⟨rfl, rfl, rfl⟩ := h
        obtain ⟨a1, a2⟩ := handle_spec h1
        obtain ⟨b1, b2, b3⟩ := handleAll_spec h2
        refine ⟨?_, ?_, by simp [b3]⟩
        · have := owed_append a1 b1
          have e : full (o :: os2) = full [o] ++ full os2 := by
            rw [← List.singleton_append, full, List.filter_append]; rfl
          rw [e]
          exact this
        · have e : zeros (d :: ds) = zeros [d] + zeros ds := by
            rw [← List.singleton_append, zeros, List.filter_append, List.length_append]; rfl
          rw [b2, a2, e]
          simp [Nat.add_assoc]

/-- The loop finds datagrams that are not sent, then a run that is. -/
theorem scan_run : ∀ (l : List Dgram) (done send : Nat), send ≠ 0 → ∃ ys rest, l = ys ++ rest ∧ (∀ d ∈ ys, d.data ≠ []) ∧ scan l done send = (done, send + ys.length)
  | [], done, send, _ => ⟨[], [], rfl, by simp, rfl⟩
  | d :: l, done, send, h => by
    by_cases hd : d.data = []
    · exact ⟨[], d :: l, rfl, by simp, by simp [scan, hd, h]⟩
    · obtain ⟨ys, rest, h1, h2, h3⟩ := scan_run l done (send + 1) (by omega)
      refine ⟨d :: ys, rest, by simp [h1], ?_, ?_⟩
      · intro x hx
        rcases List.mem_cons.mp hx with rfl | hx
        · exact hd
        · exact h2 x hx
      · have : d.data.length ≠ 0 := by simpa using hd
        simp only [scan, if_pos this, h3, List.length_cons]
        rw [show send + 1 + ys.length = send + (ys.length + 1) by omega]

theorem scan_spec : ∀ (l : List Dgram) (done : Nat), ∃ zs ys rest, l = zs ++ ys ++ rest ∧ (∀ d ∈ zs, d.data = []) ∧ (∀ d ∈ ys, d.data ≠ []) ∧
    scan l done 0 = (done + zs.length, ys.length) ∧ (ys = [] → rest = [])
  | [], done => ⟨[], [], [], rfl, by simp, by simp, rfl, fun _ => rfl⟩
  | d :: l, done => by
    by_cases hd : d.data = []
    · obtain ⟨zs, ys, rest, h1, h2, h3, h4, h5⟩ := scan_spec l (done + 1)
      refine ⟨d :: zs, ys, rest, by simp [h1], ?_, h3, ?_, h5⟩
      · intro x hx
        rcases List.mem_cons.mp hx with rfl | hx
        · exact hd
        · exact h2 x hx
      · simp only [scan, hd, List.length_nil, ne_eq, not_true_eq_false, if_false, if_true, h4, List.length_cons]
        rw [show done + 1 + zs.length = done + (zs.length + 1) by omega]
    · obtain ⟨ys, rest, h1, h2, h3⟩ := scan_run l done 1 (by omega)
      refine ⟨[], d :: ys, rest, by simp [h1], by simp, ?_, ?_, by simp⟩
      · intro x hx
        rcases List.mem_cons.mp hx with rfl | hx
        · exact hd
        · exact h2 x hx
      · have : d.data.length ≠ 0 := by simpa using hd
        simp only [scan, if_pos this, h3, List.length_cons, List.length_nil]
        rw [show 0 + 1 + ys.length = ys.length + 1 by omega]
        rfl

/-- A phase with a run of datagrams that are all to be sent. -/
def Phase.Ok : Phase → Prop
  | .idle => True
  | .busy out done run => 0 < run ∧ done + run ≤ out.length ∧ ∀ d ∈ (out.drop done).take run, d.data ≠ []

/-- What is still to be sent. -/
def Phase.left : Phase → List Dgram
  | .idle => []
  | .busy out done _ => full (out.drop done)

theorem full_none {l : List Dgram} (h : ∀ d ∈ l, d.data = []) : full l = [] := by
  simpa [full] using h

theorem full_all {l : List Dgram} (h : ∀ d ∈ l, d.data ≠ []) : full l = l := by
  simpa [full] using h

theorem full_append (l r : List Dgram) : full (l ++ r) = full l ++ full r := List.filter_append ..

theorem resume_spec {σ : Type} (s : St σ) (out : List Dgram) (done : Nat) (hd : done ≤ out.length) :
    ∃ p, resume s out done = .ok { s with phase := p } ∧ p.Ok ∧ p.left = full (out.drop done) := by
  unfold resume
  by_cases hlt : done < out.length
  · rw [if_pos hlt]
    obtain ⟨zs, ys, rest, h1, h2, h3, h4, h5⟩ := scan_spec (out.drop done) done
    rw [h4]
    dsimp only
    have hlen : out.length - done = zs.length + ys.length + rest.length := by
      have := congrArg List.length h1
      simp at this
      omega
    cases ys with
    | nil =>
      rw [if_neg (by simp)]
      have hr := h5 rfl
      subst hr
      have : done + zs.length = out.length := by simp at hlen; omega
      rw [show (decide (done + zs.length = out.length)) = true by simpa using this]
      refine ⟨.idle, rfl, trivial, ?_⟩
      rw [h1]
      simp only [List.append_nil]
      exact (full_none h2).symm
    | cons y ys =>
      rw [if_pos (by simp)]
      have hdrop : out.drop (done + zs.length) = y :: ys ++ rest := by
        rw [← List.drop_drop, h1, List.append_assoc, List.drop_left]
      refine ⟨.busy out (done + zs.length) (y :: ys).length, rfl, ⟨by simp, ?_, ?_⟩, ?_⟩
      · simp at hlen ⊢; omega
      · rw [hdrop, List.take_left]
        exact h3
      · simp only [Phase.left]
        rw [hdrop, h1, List.append_assoc, full_append zs, full_none h2, List.nil_append]
  · rw [if_neg hlt]
    refine ⟨.idle, rfl, trivial, ?_⟩
    rw [List.drop_eq_nil_of_le (by omega)]
    rfl

theorem received_append (a b : List Ev) : received (a ++ b) = received a ++ received b := by
  simp [received]

theorem zeros_append (a b : List Dgram) : zeros (a ++ b) = zeros a + zeros b := by
  simp [zeros]

/-- How often receiving failed. -/
def recvFails (es : List Ev) : Nat := (es.filter fun e => decide (e = .recvFail)).length

/-- Calls that sent something or failed. -/
def sends (es : List Ev) : Nat :=
  (es.filter fun
    | .send .fail => true
    | .send (.ok _) => true
    | _ => false).length

theorem sends_append (a b : List Ev) : sends (a ++ b) = sends a + sends b := by
  simp [sends]

/-- The invariant of a thread. -/
structure Inv {σ : Type} (Q : Query σ) (q : σ) (es : List Ev) (s : St σ) (log : List (Dgram × Bool)) : Prop where
  owed : Owed Q q (received es) s.q (log.map (·.1) ++ s.phase.left)
  ok : s.phase.Ok
  sent : s.sent = delivered log
  fails : s.n.sendfail = (log.filter fun x => !x.2).length
  dropped : s.n.dropped = zeros (received es)
  recvfail : s.n.recvfail = recvFails es
  calls : sends es ≤ log.length

theorem delivered_append (a b : List (Dgram × Bool)) : delivered (a ++ b) = delivered a ++ delivered b := by
  simp [delivered]

theorem delivered_all (l : List Dgram) : delivered (l.map fun d => (d, true)) = l := by
  induction l with
  | nil => rfl
  | cons a l ih => simp only [delivered, List.map_cons, List.filter_cons_of_pos] at ih ⊢; rw [ih]

theorem step_inv {σ : Type} {Q : Query σ} {q : σ} {es : List Ev} {s s' : St σ} {log : List (Dgram × Bool)} {e : Ev} (h : Inv Q q es s log)
    (hs : step Q s e = .ok (some s')) : ∃ log', Inv Q q (es ++ [e]) s' (log ++ log') := by
  obtain ⟨qs, n, ph, sent⟩ := s
  have hr := received_append es [e]
  cases ph with
  | idle =>
    cases e with
    | send r => simp [step] at hs
    | none =>
      simp only [step, Outcome.ok.injEq, Option.some.injEq] at hs
      subst hs
      refine ⟨[], ?_, h.ok, by simpa using h.sent, by simpa using h.fails, ?_, ?_, ?_⟩
      · rw [hr]; simpa [received] using h.owed
      · rw [hr]; simpa [received] using h.dropped
      · simpa [recvFails] using h.recvfail
      · rw [sends_append]; simpa [sends] using h.calls
    | recvFail =>
      simp only [step, Outcome.ok.injEq, Option.some.injEq] at hs
      subst hs
      refine ⟨[], ?_, h.ok, by simpa using h.sent, by simpa using h.fails, ?_, ?_, ?_⟩
      · rw [hr]; simpa [received] using h.owed
      · rw [hr]; simpa [received] using h.dropped
      · simpa [recvFails] using h.recvfail
      · rw [sends_append]; simpa [sends] using h.calls
    | recv ds =>
      simp only [step] at hs
      cases ha : decide (ds.length ≤ 16 ∧ 0 < ds.length) with
      | false => rw [ha] at hs; simp [assert, Outcome.bind] at hs
      | true =>
        rw [ha, assert_true, Outcome.bind_ok] at hs
        cases hh : handleAll Q qs n ds with
        | ub => rw [hh] at hs; cases hs
        | ok x =>
          obtain ⟨q2, n2, out⟩ := x
          rw [hh, Outcome.bind_ok] at hs
          dsimp only at hs
          obtain ⟨b1, b2, b3⟩ := handleAll_spec hh
          obtain ⟨p, c1, c2, c3⟩ := resume_spec (⟨q2, n2, .idle, sent⟩ : St σ) out 0 (by simp)
          rw [c1] at hs
          simp only [Outcome.map, Outcome.ok.injEq, Option.some.injEq] at hs
          subst hs
          refine ⟨[], ?_, c2, by simpa using h.sent, ?_, ?_, ?_, ?_⟩
          · rw [hr]
            have := h.owed
            simp only [Phase.left, List.append_nil] at this
            have := owed_append this b1
            simp only [received, List.flatMap_cons, List.flatMap_nil, List.append_nil, List.map_append, c3, List.drop_zero, List.map_nil] at this ⊢
            exact this
          · have := h.fails
            simp only [b2, List.append_nil] at this ⊢
            exact this
          · have := h.dropped
            simp only at this
            rw [hr, zeros_append, ← this, b2]
            simp [received]
          · have := h.recvfail
            simpa [b2, recvFails] using this
          · rw [sends_append]; simpa [sends] using h.calls
  | busy out done run =>
    have hok := h.ok
    have howed := h.owed
    have hsent := h.sent
    have hfails := h.fails
    have hdropped := h.dropped
    have hrecv := h.recvfail
    simp only [Phase.Ok] at hok
    simp only [Phase.left] at howed
    cases e with
    | recv ds => simp [step] at hs
    | none => simp [step] at hs
    | recvFail => simp [step] at hs
    | send r =>
      have hr' : received (es ++ [.send r]) = received es := by rw [hr]; simp [received]
      have hf' : recvFails (es ++ [.send r]) = recvFails es := by simp [recvFails]
      cases r with
      | intr =>
        simp only [step, Outcome.ok.injEq, Option.some.injEq] at hs
        subst hs
        exact ⟨[], by rw [hr']; simpa [Phase.left] using howed, h.ok, by simpa using hsent, by simpa using hfails, by rw [hr']; exact hdropped, by rw [hf']; exact hrecv, by rw [sends_append]; have := h.calls; simp [sends] at this ⊢; omega⟩
      | fail =>
        simp only [step] at hs
        obtain ⟨p, c1, c2, c3⟩ := resume_spec (⟨qs, { n with sendfail := n.sendfail + 1 }, .busy out done run, sent⟩ : St σ) out (done + 1) (by omega)
        rw [c1] at hs
        simp only [Outcome.map, Outcome.ok.injEq, Option.some.injEq] at hs
        subst hs
        have hlt : done < out.length := by omega
        have hd : out.drop done = out[done] :: out.drop (done + 1) := List.drop_eq_getElem_cons hlt
        have hne : out[done].data ≠ [] := hok.2.2 _ (by
          obtain ⟨r, rfl⟩ : ∃ r, run = r + 1 := ⟨run - 1, by omega⟩
          rw [hd, List.take_succ_cons]; exact List.mem_cons_self)
        refine ⟨[(out[done], false)], ?_, c2, ?_, ?_, by rw [hr']; exact hdropped, by rw [hf']; exact hrecv, by rw [sends_append]; have := h.calls; simp [sends] at this ⊢; omega⟩
        · rw [hr', c3]
          rw [hd, ← List.singleton_append, full_append, full_all (by simpa using hne)] at howed
          simpa [List.append_assoc] using howed
        · simpa [delivered] using hsent
        · simpa using hfails
      | ok k =>
        simp only [step] at hs
        cases ha : decide (k ≠ 0 ∧ k ≤ run) with
        | false => rw [ha] at hs; simp [assert, Outcome.bind] at hs
        | true =>
          have hk : k ≠ 0 ∧ k ≤ run := by simpa using ha
          rw [ha, assert_true, Outcome.bind_ok] at hs
          obtain ⟨p, c1, c2, c3⟩ := resume_spec (⟨qs, n, .busy out done run, sent ++ (out.drop done).take k⟩ : St σ) out (done + k) (by omega)
          rw [c1] at hs
          simp only [Outcome.map, Outcome.ok.injEq, Option.some.injEq] at hs
          subst hs
          have hne : ∀ d ∈ (out.drop done).take k, d.data ≠ [] := fun d hd => hok.2.2 d (by
            have : (out.drop done).take k <+: (out.drop done).take run := List.take_prefix_take_left hk.2
            exact this.subset hd)
          refine ⟨((out.drop done).take k).map fun d => (d, true), ?_, c2, ?_, ?_, by rw [hr']; exact hdropped, by rw [hf']; exact hrecv, by rw [sends_append]; have := h.calls; simp [sends] at this ⊢; omega⟩
          · rw [hr', c3]
            rw [← List.take_append_drop k (out.drop done), full_append, full_all hne, List.drop_drop] at howed
            simpa [List.append_assoc, Function.comp_def] using howed
          · simp only at hsent
            rw [delivered_append, delivered_all, hsent]
          · simp only at hfails
            rw [hfails, List.filter_append, List.length_append]
            have e : List.filter (fun x => !x.2) (((out.drop done).take k).map fun d => (d, true)) = [] := by
              rw [List.filter_eq_nil_iff]
              intro x hx
              obtain ⟨d, _, rfl⟩ := List.mem_map.mp hx
              simp
            rw [e]
            rfl

theorem step1_inv {σ : Type} {Q : Query σ} {q : σ} {es : List Ev} {s s' : St σ} {log : List (Dgram × Bool)} {e : Ev} (h : Inv Q q es s log)
    (hone : ∀ out done run, s.phase = .busy out done run → ∃ o, out = [o] ∧ done = 0)
    (hs : step1 Q s e = .ok (some s')) : (∃ log', Inv Q q (es ++ [e]) s' (log ++ log')) ∧ ∀ out done run, s'.phase = .busy out done run → ∃ o, out = [o] ∧ done = 0 := by
  obtain ⟨qs, n, ph, sent⟩ := s
  have hr := received_append es [e]
  cases ph with
  | idle =>
    cases e with
    | send r => simp [step1] at hs
    | none =>
      simp only [step1, Outcome.ok.injEq, Option.some.injEq] at hs
      subst hs
      refine ⟨⟨[], ?_, h.ok, by simpa using h.sent, by simpa using h.fails, ?_, ?_, ?_⟩, by simp⟩
      · rw [hr]; simpa [received] using h.owed
      · rw [hr]; simpa [received] using h.dropped
      · simpa [recvFails] using h.recvfail
      · rw [sends_append]; simpa [sends] using h.calls
    | recvFail =>
      simp only [step1, Outcome.ok.injEq, Option.some.injEq] at hs
      subst hs
      refine ⟨⟨[], ?_, h.ok, by simpa using h.sent, by simpa using h.fails, ?_, ?_, ?_⟩, by simp⟩
      · rw [hr]; simpa [received] using h.owed
      · rw [hr]; simpa [received] using h.dropped
      · simpa [recvFails] using h.recvfail
      · rw [sends_append]; simpa [sends] using h.calls
    | recv ds =>
      match ds with
      | [] => simp [step1] at hs
      | _ :: _ :: _ => simp [step1] at hs
      | [d] =>
        simp only [step1] at hs
        cases hh : handle Q qs n d with
        | ub => rw [hh] at hs; cases hs
        | ok x =>
          obtain ⟨q2, n2, o⟩ := x
          rw [hh, Outcome.bind_ok] at hs
          dsimp only at hs
          obtain ⟨b1, b2⟩ := handle_spec hh
          simp only [Outcome.ok.injEq, Option.some.injEq] at hs
          subst hs
          have hleft : (if o.data.length ≠ 0 then Phase.busy [o] 0 1 else .idle).left = full [o] := by
            split
            · rfl
            · next hn => rw [full_none (by simpa using hn)]; rfl
          refine ⟨⟨[], ?_, ?_, by simpa using h.sent, ?_, ?_, ?_, ?_⟩, ?_⟩
          · rw [hr]
            have := h.owed
            simp only [Phase.left, List.append_nil] at this
            have := owed_append this b1
            simp only [List.append_nil]
            rw [hleft]
            simpa [received] using this
          · dsimp only
            split
            · next hn => exact ⟨by simp, by simp, by simpa using hn⟩
            · trivial
          · have := h.fails
            simp only [b2, List.append_nil] at this ⊢
            exact this
          · have := h.dropped
            simp only at this
            rw [hr, zeros_append, ← this, b2]
            simp [received]
          · have := h.recvfail
            simpa [b2, recvFails] using this
          · rw [sends_append]; simpa [sends] using h.calls
          · intro out done run hp
            dsimp only at hp
            split at hp
            · cases hp; exact ⟨o, rfl, rfl⟩
            · cases hp
  | busy out done run =>
    have hok := h.ok
    have howed := h.owed
    have hsent := h.sent
    have hfails := h.fails
    have hdropped := h.dropped
    have hrecv := h.recvfail
    simp only [Phase.Ok] at hok
    simp only [Phase.left] at howed
    obtain ⟨o, rfl, rfl⟩ := hone out done run rfl
    have hne : o.data ≠ [] := hok.2.2 o (by
      obtain ⟨r, rfl⟩ : ∃ r, run = r + 1 := ⟨run - 1, by omega⟩
      simp)
    have hfull : full ([o].drop 0) = [o] := full_all (by simpa using hne)
    rw [hfull] at howed
    cases e with
    | recv ds => simp [step1] at hs
    | none => simp [step1] at hs
    | recvFail => simp [step1] at hs
    | send r =>
      have hr' : received (es ++ [.send r]) = received es := by rw [hr]; simp [received]
      have hf' : recvFails (es ++ [.send r]) = recvFails es := by simp [recvFails]
      cases r with
      | intr =>
        simp only [step1, Outcome.ok.injEq, Option.some.injEq] at hs
        subst hs
        exact ⟨⟨[], by rw [hr', List.append_nil]; simp only [Phase.left]; rw [hfull]; exact howed, h.ok, by simpa using hsent, by simpa using hfails, by rw [hr']; exact hdropped, by rw [hf']; exact hrecv, by rw [sends_append]; have := h.calls; simp [sends] at this ⊢; omega⟩, hone⟩
      | fail =>
        simp only [step1, Outcome.ok.injEq, Option.some.injEq] at hs
        subst hs
        refine ⟨⟨[(o, false)], ?_, trivial, ?_, ?_, by rw [hr']; exact hdropped, by rw [hf']; exact hrecv, by rw [sends_append]; have := h.calls; simp [sends] at this ⊢; omega⟩, by simp⟩
        · rw [hr']; simpa [Phase.left] using howed
        · simpa [delivered] using hsent
        · simpa using hfails
      | ok k =>
        simp only [step1, Outcome.ok.injEq, Option.some.injEq] at hs
        subst hs
        refine ⟨⟨[(o, true)], ?_, trivial, ?_, ?_, by rw [hr']; exact hdropped, by rw [hf']; exact hrecv, by rw [sends_append]; have := h.calls; simp [sends] at this ⊢; omega⟩, by simp⟩
        · rw [hr']; simpa [Phase.left] using howed
        · simpa [delivered] using hsent
        · simpa using hfails

end Gdnsd.Udp
