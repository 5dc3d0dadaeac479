/-
An invariant of a check over HTTP.
-/
import Verif.Poll.Lemmas
namespace Gdnsd.Poll
open PollSpec

/-! ### Histories -/

theorem allSent_append (l m : List Act) : allSent (l ++ m) = allSent l ++ allSent m := by
  induction l with
  | nil => rfl
  | cons a l ih => cases a <;> simp [allSent, ih]

theorem allGot_append (l m : List Act) : allGot (l ++ m) = allGot l ++ allGot m := by
  induction l with
  | nil => rfl
  | cons a l ih => cases a <;> simp [allGot, ih]

theorem noSkips_append (l m : List Act) : noSkips (l ++ m) = noSkips l ++ noSkips m := by
  unfold noSkips
  rw [List.filter_append]

theorem reports_append (l m : List Act) : reports (l ++ m) = reports l ++ reports m := by
  induction l with
  | nil => rfl
  | cons a l ih => cases a <;> simp [reports, ih]

theorem begun_append (l m : List Act) : begun (l ++ m) = begun l + begun m := by
  induction l with
  | nil => simp [begun]
  | cons a l ih => cases a <;> simp only [List.cons_append, begun, ih] <;> omega

theorem left_append (l m : List Act) : left (l ++ m) = left l + left m := by
  induction l with
  | nil => simp [left]
  | cons a l ih => cases a <;> simp only [List.cons_append, left, ih] <;> omega

theorem reports_noSkips (l : List Act) : reports (noSkips l) = reports l := by
  induction l with
  | nil => rfl
  | cons a l ih => cases a <;> simp_all [noSkips, reports]

theorem begun_noSkips (l : List Act) : begun (noSkips l) = begun l := by
  induction l with
  | nil => rfl
  | cons a l ih => cases a <;> simp_all [noSkips, begun]

theorem allSent_got {l : List Act} (h : ∀ a ∈ l, ∃ b, a = Act.got b) : allSent l = [] := by
  induction l with
  | nil => rfl
  | cons a l ih =>
    obtain ⟨b, rfl⟩ := h a (List.mem_cons_self ..)
    exact ih fun x hx => h x (List.mem_cons_of_mem _ hx)

theorem allGot_sent {l : List Act} (h : ∀ a ∈ l, ∃ b, a = Act.sent b) : allGot l = [] := by
  induction l with
  | nil => rfl
  | cons a l ih =>
    obtain ⟨b, rfl⟩ := h a (List.mem_cons_self ..)
    exact ih fun x hx => h x (List.mem_cons_of_mem _ hx)

theorem plain_sent {l : List Act} (h : ∀ a ∈ l, ∃ b, a = Act.sent b) : reports l = [] ∧ begun l = 0 := by
  induction l with
  | nil => exact ⟨rfl, rfl⟩
  | cons a l ih =>
    obtain ⟨b, rfl⟩ := h a (List.mem_cons_self ..)
    exact ih fun x hx => h x (List.mem_cons_of_mem _ hx)

theorem plain_got {l : List Act} (h : ∀ a ∈ l, ∃ b, a = Act.got b) : reports l = [] ∧ begun l = 0 := by
  induction l with
  | nil => exact ⟨rfl, rfl⟩
  | cons a l ih =>
    obtain ⟨b, rfl⟩ := h a (List.mem_cons_self ..)
    exact ih fun x hx => h x (List.mem_cons_of_mem _ hx)

theorem _root_.Gdnsd.PollSpec.Talk.plain {req : Bytes} {l : List Act} (h : Talk req l) : reports l = [] ∧ begun l = 0 := by
  cases h with
  | nothing => exact ⟨rfl, rfl⟩
  | talk h1 h2 _ _ =>
    obtain ⟨a, b⟩ := plain_sent h1
    obtain ⟨c, d⟩ := plain_got h2
    simp [reports, begun, reports_append, begun_append, a, b, c, d]

theorem _root_.Gdnsd.PollSpec.HttpCheck.plain {req : Bytes} {ok : List Nat} {l : List Act} {b : Bool} (h : HttpCheck req ok l b) : reports l = [b] ∧ begun l = 1 := by
  cases h with
  | noSocket => exact ⟨rfl, rfl⟩
  | failed ht hw =>
    obtain ⟨a, b⟩ := ht.plain
    rcases hw with rfl | rfl | rfl <;> simp [reports, begun, reports_append, begun_append, a, b]
  | answered ht _ _ _ =>
    obtain ⟨a, b⟩ := ht.plain
    simp [reports, begun, reports_append, begun_append, a, b]

theorem _root_.Gdnsd.PollSpec.HttpPart.plain {req : Bytes} {fd : Nat} {l : List Act} (h : HttpPart req fd l) : reports l = [] ∧ begun l = 1 := by
  cases h with
  | part ht _ =>
    obtain ⟨a, b⟩ := ht.plain
    simp [reports, begun, a, b]

/-! ### The invariant -/

/-- How the state of a check belongs to what was seen of it. -/
inductive Inv (v : Svc) : Http → List Act → Prop
  | waiting {s : Http} : s.st = .waiting → s.sock = none → s.rd = false → s.wr = false → s.tmo = .off → s.buf.length = 14 → Inv v s []
  | connecting {s : Http} {fd} : s.st = .writing → s.sock = some fd → s.rd = false → s.wr = true → s.tmo ≠ .off → s.buf.length = 14 →
      s.conn = false → s.done = 0 → Inv v s [.opened fd]
  | writing {s : Http} {fd out} : s.st = .writing → s.sock = some fd → s.rd = false → s.wr = true → s.tmo ≠ .off → s.buf.length = 14 →
      s.conn = true → s.done < v.req.length → (∀ a ∈ out, ∃ b, a = Act.sent b) → allSent out = v.req.take s.done →
      Inv v s (.opened fd :: .connected :: out)
  | reading {s : Http} {fd out into} : s.st = .reading → s.sock = some fd → s.rd = true → s.wr = false → s.tmo ≠ .off → s.buf.length = 14 →
      (∀ a ∈ out, ∃ b, a = Act.sent b) → allSent out = v.req → (∀ a ∈ into, ∃ b, a = Act.got b) → s.done < 13 →
      s.done = (allGot into).length → s.buf.take s.done = allGot into →
      Inv v s (.opened fd :: .connected :: (out ++ into))

/-- What one event may do. -/
def Good1 (v : Svc) (rest : List Act) (o : Outcome (Option (Http × List Act))) : Prop :=
  o ≠ .ub ∧ ∀ s' a, o = .ok (some (s', a)) →
    Inv v s' (rest ++ noSkips a) ∨ (∃ b, HttpCheck v.req v.ok (rest ++ noSkips a) b) ∧ Inv v s' []

theorem good_go {v : Svc} {rest : List Act} {s' : Http} {a : List Act} (h : Inv v s' (rest ++ noSkips a)) : Good1 v rest (.ok (some (s', a))) :=
  ⟨nofun, by intro s2 a2 e; cases e; exact .inl h⟩

theorem good_end {v : Svc} {rest : List Act} {s' : Http} {a : List Act} {b : Bool} (h : HttpCheck v.req v.ok (rest ++ noSkips a) b) (h2 : Inv v s' []) :
    Good1 v rest (.ok (some (s', a))) :=
  ⟨nofun, by intro s2 a2 e; cases e; exact .inr ⟨⟨b, h⟩, h2⟩⟩

theorem good_none {v : Svc} {rest : List Act} : Good1 v rest (.ok none) := ⟨nofun, by intro s2 a2 e; cases e⟩

theorem talk_mid {v : Svc} {out : List Act} (h : ∀ a ∈ out, ∃ b, a = Act.sent b) {n : Nat} (he : allSent out = v.req.take n) : Talk v.req (.connected :: out) := by
  have := Talk.talk (req := v.req) (out := out) (into := []) h (by simp) (by rw [he]; exact List.take_prefix _ _) (by simp)
  simpa using this

theorem good_interval {v : Svc} (hreq : v.req ≠ []) {s : Http} {rest : List Act} (h : Inv v s rest) (c : Conn) : Good1 v rest ((s.interval c).map some) := by
  have skip : s.st ≠ .waiting → Good1 v rest ((s.interval c).map some) := by
    intro hs
    unfold Http.interval
    rw [if_pos hs]
    exact good_go (by simpa [noSkips] using h)
  cases h with
  | waiting h1 h2 h3 h4 h5 h6 =>
    unfold Http.interval
    rw [if_neg (by simp [h1]), h2, h4, h5]
    have hl : 0 < v.req.length := by
      cases hv : v.req with
      | nil => exact absurd hv hreq
      | cons => simp
    cases c with
    | noSocket => exact good_end (b := false) .noSocket (.waiting rfl rfl h3 rfl rfl h6)
    | refused fd => exact good_end (b := false) (.failed (fd := fd) (mid := []) .nothing (.inl rfl)) (.waiting rfl rfl h3 rfl rfl h6)
    | now fd => exact good_go (.writing (out := []) rfl rfl h3 rfl (by simp) h6 rfl hl (by simp) (by simp [allSent]))
    | wait fd => exact good_go (.connecting rfl rfl h3 rfl (by simp) h6 rfl rfl)
  | connecting h1 => exact skip (by simp [h1])
  | writing h1 => exact skip (by simp [h1])
  | reading h1 => exact skip (by simp [h1])

theorem good_timeout {v : Svc} {s : Http} {rest : List Act} (h : Inv v s rest) : Good1 v rest (if s.tmo = .pending then (s.timeout).map some else .ok none) := by
  by_cases ht : s.tmo = .pending
  case neg => rw [if_neg ht]; exact good_none
  rw [if_pos ht]
  unfold Http.timeout
  cases h with
  | waiting h1 h2 h3 h4 h5 h6 => rw [ht] at h5; cases h5
  | @connecting fd h1 h2 h3 h4 h5 h6 h7 h8 =>
    rw [h2]
    simp only [h1, h4, h3]
    exact good_end (b := false) (.failed (fd := fd) (mid := []) .nothing (.inr (.inr rfl))) (.waiting rfl rfl rfl rfl rfl h6)
  | @writing fd out h1 h2 h3 h4 h5 h6 h7 h8 h9 h10 =>
    rw [h2]
    simp only [h1, h4, h3]
    exact good_end (b := false) (.failed (fd := fd) (talk_mid h9 h10) (.inr (.inr rfl))) (.waiting rfl rfl rfl rfl rfl h6)
  | @reading fd out into h1 h2 h3 h4 h5 h6 h7 h8 h9 h10 h11 h12 =>
    rw [h2]
    simp only [h1, h4, h3]
    refine good_end (b := false) (.failed (fd := fd) (mid := .connected :: (out ++ into)) (.talk h7 h9 (by rw [h8]; exact List.prefix_refl _) fun _ => h8) (.inr (.inr rfl))) (.waiting rfl rfl rfl rfl rfl h6)

theorem good_send {v : Svc} {s : Http} {fd : Nat} {out : List Act} (h1 : s.st = .writing) (h2 : s.sock = some fd) (h3 : s.rd = false) (h4 : s.wr = true)
    (h5 : s.tmo ≠ .off) (h6 : s.buf.length = 14) (h7 : s.conn = true) (h8 : s.done < v.req.length) (h9 : ∀ a ∈ out, ∃ b, a = Act.sent b)
    (h10 : allSent out = v.req.take s.done) {rest acts : List Act} (hr : rest ++ noSkips acts = .opened fd :: .connected :: out) (r : Send) :
    Good1 v rest ((s.send v fd r acts).map some) := by
  unfold Http.send
  rw [decide_eq_true h8]
  cases r with
  | again => exact good_go (by rw [hr]; exact .writing h1 h2 h3 h4 h5 h6 h7 h8 h9 h10)
  | fail =>
    refine good_end (b := false) ?_ (.waiting rfl rfl h3 rfl rfl h6)
    rw [noSkips_append, ← List.append_assoc, hr]
    exact .failed (fd := fd) (mid := .connected :: out) (talk_mid h9 h10) (.inr (.inl rfl))
  | moved k =>
    dsimp only [assert, Outcome.bind]
    have hs : ∀ n, n ≤ v.req.length - s.done → allSent (out ++ [.sent ((v.req.drop s.done).take n)]) = v.req.take (s.done + n) := by
      intro n hn
      rw [allSent_append, h10]
      simp only [allSent, List.append_nil]
      rw [← List.take_add]
    have ho : ∀ b, ∀ a ∈ out ++ [.sent b], ∃ b, a = Act.sent b := by
      intro b a ha
      rcases List.mem_append.1 ha with h | h
      · exact h9 a h
      · exact ⟨b, by simpa using h⟩
    have hn : min k (v.req.length - s.done) ≤ v.req.length - s.done := Nat.min_le_right ..
    generalize min k (v.req.length - s.done) = n at hn
    by_cases hd : n ≠ v.req.length - s.done
    · rw [if_pos hd]
      refine good_go ?_
      rw [noSkips_append, ← List.append_assoc, hr]
      exact .writing (out := out ++ _) h1 h2 h3 h4 h5 h6 h7 (by show s.done + n < _; omega) (ho _) (hs n hn)
    · rw [if_neg hd]
      refine good_go ?_
      rw [noSkips_append, ← List.append_assoc, hr]
      have := Inv.reading (v := v) (s := { s with done := 0, st := .reading, wr := false, rd := true }) (fd := fd) (out := out ++ [.sent ((v.req.drop s.done).take n)]) (into := [])
        rfl h2 rfl rfl h5 h6 (ho _) (by rw [hs n hn, List.take_of_length_le (by omega)]) (by simp) (by show 0 < 13; decide) rfl (by simp [allGot])
      simpa [noSkips] using this

theorem good_write {v : Svc} (hreq : v.req ≠ []) {s : Http} {rest : List Act} (h : Inv v s rest) (err : Bool) (r : Send) :
    Good1 v rest (if s.wr = true then (s.write v err r).map some else .ok none) := by
  by_cases hw : s.wr = true
  case neg => rw [if_neg hw]; exact good_none
  rw [if_pos hw]
  unfold Http.write
  have hl : 0 < v.req.length := by
    cases hv : v.req with
    | nil => exact absurd hv hreq
    | cons => simp
  cases h with
  | waiting h1 h2 h3 h4 => rw [h4] at hw; cases hw
  | @connecting fd h1 h2 h3 h4 h5 h6 h7 h8 =>
    obtain ⟨st, sock, rd, wr, tmo, done, conn, buf⟩ := s
    dsimp only at h1 h2 h3 h4 h5 h6 h7 h8
    subst h1 h2 h3 h4 h7 h8
    dsimp only
    rw [decide_eq_true h5]
    cases err with
    | true => exact good_end (b := false) (.failed (fd := fd) (mid := []) .nothing (.inl rfl)) (.waiting rfl rfl rfl rfl rfl h6)
    | false =>
      exact good_send (s := ⟨.writing, some fd, false, true, tmo, 0, true, buf⟩) (out := []) rfl rfl rfl rfl h5 h6 rfl hl (by simp) rfl rfl r
  | @writing fd out h1 h2 h3 h4 h5 h6 h7 h8 h9 h10 =>
    obtain ⟨st, sock, rd, wr, tmo, done, conn, buf⟩ := s
    dsimp only at h1 h2 h3 h4 h5 h6 h7 h8 h10
    subst h1 h2 h3 h4 h7
    dsimp only
    rw [decide_eq_true h5]
    exact good_send (s := ⟨.writing, some fd, false, true, tmo, done, true, buf⟩) rfl rfl rfl rfl h5 h6 rfl h8 h9 h10 (by simp [noSkips]) r
  | reading h1 h2 h3 h4 => rw [h4] at hw; cases hw

theorem good_read {v : Svc} (hok : ∀ c ∈ v.ok, 100 ≤ c ∧ c ≤ 999) {s : Http} {rest : List Act} (h : Inv v s rest) (r : Recv) :
    Good1 v rest (if s.rd = true then (s.read v r).map some else .ok none) := by
  by_cases hw : s.rd = true
  case neg => rw [if_neg hw]; exact good_none
  rw [if_pos hw]
  unfold Http.read
  cases h with
  | waiting h1 h2 h3 h4 => rw [h3] at hw; cases hw
  | connecting h1 h2 h3 h4 => rw [h3] at hw; cases hw
  | writing h1 h2 h3 h4 => rw [h3] at hw; cases hw
  | @reading fd out into h1 h2 h3 h4 h5 h6 h7 h8 h9 h10 h11 h12 =>
    obtain ⟨st, sock, rd, wr, tmo, done, conn, buf⟩ := s
    dsimp only at h1 h2 h3 h4 h5 h6 h10 h11 h12
    subst h1 h2 h3 h4
    dsimp only
    simp only [assert, if_true, Outcome.bind, decide_true]
    rw [decide_eq_true (by omega : done ≤ 13)]
    simp only [if_true]
    cases r with
    | again => exact good_go (by rw [show noSkips [] = [] from rfl, List.append_nil]; exact .reading rfl rfl rfl rfl h5 h6 h7 h8 h9 h10 h11 h12)
    | fail =>
      exact good_end (b := false) (.failed (fd := fd) (mid := .connected :: (out ++ into)) (.talk h7 h9 (by rw [h8]; exact List.prefix_refl _) fun _ => h8) (.inr (.inl rfl)))
        (.waiting rfl rfl rfl rfl rfl h6)
    | got b0 =>
      dsimp only
      have hb : (b0.take (13 - done)).length ≤ 13 - done := by rw [List.length_take]; omega
      generalize b0.take (13 - done) = b at hb
      rw [decide_eq_true (by omega : done + b.length ≤ buf.length)]
      simp only [if_true]
      have hi : ∀ a ∈ into ++ [.got b], ∃ b, a = Act.got b := by
        intro a ha
        rcases List.mem_append.1 ha with h | h
        · exact h9 a h
        · exact ⟨b, by simpa using h⟩
      have hg : allGot (into ++ [.got b]) = allGot into ++ b := by rw [allGot_append]; simp [allGot]
      have hlen : (buf.take done ++ b ++ buf.drop (done + b.length)).length = 14 := by
        simp only [List.length_append, List.length_take, List.length_drop]; omega
      by_cases hd : b.length < 13 - done
      · rw [if_pos hd]
        refine good_go ?_
        have := Inv.reading (v := v) (s := ⟨.reading, some fd, true, false, tmo, done + b.length, conn, buf.take done ++ b ++ buf.drop (done + b.length)⟩) (fd := fd) (out := out) (into := into ++ [.got b])
          rfl rfl rfl rfl h5 hlen h7 h8 hi (by show done + b.length < 13; omega) (by show done + b.length = _; rw [hg, List.length_append]; omega) (by
            show (buf.take done ++ b ++ buf.drop (done + b.length)).take (done + b.length) = _
            rw [hg, List.take_left' (by rw [List.length_append, List.length_take]; omega), h12])
        simpa [noSkips] using this
      · rw [if_neg hd]
        rw [decide_eq_true (by omega : 13 < (buf.take done ++ b ++ buf.drop (done + b.length)).length)]
        simp only [if_true]
        have hdone : done + b.length = 13 := by omega
        have hset : (buf.take done ++ b ++ buf.drop (done + b.length)).set 13 0 = (allGot into ++ b) ++ [0] := by
          rw [h12]
          rw [List.set_append_right (h := by rw [List.length_append]; omega)]
          have hl1 : (buf.drop (done + b.length)).length = 1 := by rw [List.length_drop]; omega
          match buf.drop (done + b.length), hl1 with
          | [z], _ =>
            have : 13 - (allGot into ++ b).length = 0 := by rw [List.length_append]; omega
            rw [this]
            rfl
        rw [hset]
        have hst := status_iff v.short v.ok hok (allGot into ++ b) (by rw [List.length_append]; omega)
        have ht : Talk v.req (.connected :: (out ++ (into ++ [.got b]))) := .talk h7 hi (by rw [h8]; exact List.prefix_refl _) fun _ => h8
        have hag : allGot (.connected :: (out ++ (into ++ [.got b]))) = allGot into ++ b := by
          show allGot (out ++ (into ++ [.got b])) = _
          rw [allGot_append, allGot_sent h7, hg]
          rfl
        have hc := HttpCheck.answered (req := v.req) (ok := v.ok) (fd := fd) (up := status v.short v.ok (allGot into ++ b ++ [0])) ht
          (by show allSent (out ++ (into ++ [.got b])) = _; rw [allSent_append, allSent_got hi, h8, List.append_nil])
          (by rw [hag, List.length_append]; omega) (by rw [hag]; exact hst)
        refine good_end (b := status v.short v.ok (allGot into ++ b ++ [0])) ?_ (.waiting rfl rfl rfl rfl rfl (by simp only [List.length_append]; simp; omega))
        simpa [noSkips] using hc

/-- Each event keeps the invariant. -/
theorem good_step {v : Svc} (hreq : v.req ≠ []) (hok : ∀ c ∈ v.ok, 100 ≤ c ∧ c ≤ 999) {s : Http} {rest : List Act} (h : Inv v s rest) (e : Ev) :
    Good1 v rest (s.step v e) := by
  cases e with
  | interval c => exact good_interval hreq h c
  | expire =>
    show Good1 v rest (.ok (if s.tmo = .active then some ({ s with tmo := .pending }, []) else none))
    by_cases ht : s.tmo = .active
    · rw [if_pos ht]
      refine good_go ?_
      rw [show noSkips [] = [] from rfl, List.append_nil]
      cases h with
      | waiting h1 h2 h3 h4 h5 h6 => rw [ht] at h5; cases h5
      | connecting h1 h2 h3 h4 h5 h6 h7 h8 => exact .connecting h1 h2 h3 h4 (by simp) h6 h7 h8
      | writing h1 h2 h3 h4 h5 h6 h7 h8 h9 h10 => exact .writing h1 h2 h3 h4 (by simp) h6 h7 h8 h9 h10
      | reading h1 h2 h3 h4 h5 h6 h7 h8 h9 h10 h11 h12 => exact .reading h1 h2 h3 h4 (by simp) h6 h7 h8 h9 h10 h11 h12
    · rw [if_neg ht]; exact good_none
  | timeout => exact good_timeout h
  | write err r => exact good_write hreq h err r
  | read r => exact good_read hok h r

theorem Inv.part {v : Svc} {s : Http} {rest : List Act} (h : Inv v s rest) :
    (s.sock = none → rest = []) ∧ (∀ fd, s.sock = some fd → HttpPart v.req fd rest) ∧
    (s.sock = none ↔ s.rd = false ∧ s.wr = false) ∧ (s.sock = none ↔ s.tmo = .off) := by
  cases h with
  | waiting h1 h2 h3 h4 h5 h6 => simp [h2, h3, h4, h5]
  | connecting h1 h2 h3 h4 h5 h6 h7 h8 =>
    refine ⟨by simp [h2], ?_, by simp [h2, h4], by simp [h2, h5]⟩
    intro fd hf
    rw [h2] at hf
    cases hf
    exact .part .nothing (by simp [allGot])
  | writing h1 h2 h3 h4 h5 h6 h7 h8 h9 h10 =>
    refine ⟨by simp [h2], ?_, by simp [h2, h4], by simp [h2, h5]⟩
    intro fd hf
    rw [h2] at hf
    cases hf
    exact .part (talk_mid h9 h10) (by rw [allGot, allGot_sent h9]; simp; exact nofun)
  | @reading fd out into h1 h2 h3 h4 h5 h6 h7 h8 h9 h10 h11 h12 =>
    refine ⟨by simp [h2], ?_, by simp [h2, h3], by simp [h2, h5]⟩
    intro fd hf
    rw [h2] at hf
    cases hf
    exact .part (.talk h7 h9 (by rw [h8]; exact List.prefix_refl _) fun _ => h8) (by
      show (allGot (out ++ into)).length < 13
      rw [allGot_append, allGot_sent h7]
      simpa [← h11] using h10)

/-- Rounds are begun or left out. -/
theorem step_rounds {v : Svc} {s s' : Http} {e : Ev} {a : List Act} (h : s.step v e = .ok (some (s', a))) : rounds [e] = left a + begun a := by
  cases e with
  | interval c =>
    simp only [Http.step, Http.interval] at h
    split at h
    · cases h; rfl
    · cases hb1 : decide (s.sock = none) <;> rw [hb1] at h <;> cases hb2 : !s.wr <;> rw [hb2] at h <;> cases hb3 : decide (s.tmo = .off) <;> rw [hb3] at h
      all_goals first | (cases h; done) | (cases c <;> (cases h; rfl))
  | expire =>
    simp only [Http.step] at h
    split at h <;> cases h
    rfl
  | timeout =>
    simp only [Http.step, Http.timeout] at h
    split at h
    · cases hs : s.sock with
      | none => rw [hs] at h; cases h
      | some fd =>
        rw [hs] at h
        dsimp only at h
        by_cases hd : (s.st = .reading ∧ s.rd = true) ∨ (s.st = .writing ∧ s.wr = true)
        · rw [decide_eq_true hd] at h
          cases h; rfl
        · rw [decide_eq_false hd] at h
          cases h
    · cases h
  | write err r =>
    simp only [Http.step, Http.write] at h
    split at h
    · cases hb1 : decide (s.st = .writing) <;> rw [hb1] at h <;> cases hb2 : !s.rd <;> rw [hb2] at h <;> cases hb3 : decide (s.tmo ≠ .off) <;> rw [hb3] at h <;> cases hb4 : s.wr <;> rw [hb4] at h <;> cases hs : s.sock <;> rw [hs] at h
      all_goals first | (cases h; done) | skip
      next fd =>
      have key : ∀ (s0 : Http) (acts : List Act), left acts = 0 → begun acts = 0 → ∀ s1 a1, ((s0.send v fd r acts).map some) = .ok (some (s1, a1)) → left a1 = 0 ∧ begun a1 = 0 := by
        intro s0 acts hl hb s1 a1 he
        unfold Http.send at he
        by_cases hd : s0.done < v.req.length
        case neg => rw [decide_eq_false hd] at he; cases he
        · rw [decide_eq_true hd] at he
          simp only [assert, if_true, Outcome.bind] at he
          cases r with
          | again => cases he; exact ⟨hl, hb⟩
          | fail => cases he; rw [left_append, begun_append, hl, hb]; exact ⟨rfl, rfl⟩
          | moved k =>
            dsimp only at he
            split at he <;> (cases he; rw [left_append, begun_append, hl, hb]; exact ⟨rfl, rfl⟩)
      simp only [assert, if_true, Outcome.bind] at h
      split at h
      · split at h
        · cases h; rfl
        · obtain ⟨x, y⟩ := key _ _ rfl rfl _ _ h
          rw [x, y]; rfl
      · obtain ⟨x, y⟩ := key _ _ rfl rfl _ _ h
        rw [x, y]; rfl
    · cases h
  | read r =>
    simp only [Http.step, Http.read] at h
    split at h
    · cases hb1 : decide (s.st = .reading) <;> rw [hb1] at h <;> cases hb2 : s.rd <;> rw [hb2] at h <;> cases hs : s.sock <;> rw [hs] at h
      all_goals first | (cases h; done) | skip
      next fd =>
      simp only [assert, if_true, Outcome.bind] at h
      split at h
      · cases r with
        | again => cases h; rfl
        | fail => cases h; rfl
        | got b =>
          dsimp only at h
          split at h
          · split at h
            · cases h; rfl
            · split at h
              · cases h; rfl
              · cases h
          · cases h
      · cases h
    · cases h

/-- A whole history. -/
theorem run_good {v : Svc} (hreq : v.req ≠ []) (hok : ∀ c ∈ v.ok, 100 ≤ c ∧ c ≤ 999) : ∀ (es : List Ev) (s : Http) (acts : List Act)
    (checks : List (List Act × Bool)) (rest : List Act), noSkips acts = (checks.map (·.1)).flatten ++ rest →
    (∀ c ∈ checks, HttpCheck v.req v.ok c.1 c.2) → Inv v s rest →
    s.run v acts es ≠ .ub ∧ ∀ s' acts', s.run v acts es = .ok (some (s', acts')) →
      rounds es + (left acts + begun acts) = left acts' + begun acts' ∧
      ∃ (checks' : List (List Act × Bool)) (rest' : List Act), noSkips acts' = (checks'.map (·.1)).flatten ++ rest' ∧ (∀ c ∈ checks', HttpCheck v.req v.ok c.1 c.2) ∧ Inv v s' rest' := by
  intro es
  induction es with
  | nil =>
    intro s acts checks rest h1 h2 h3
    refine ⟨nofun, ?_⟩
    intro s' acts' he
    cases he
    exact ⟨by simp [rounds], checks, rest, h1, h2, h3⟩
  | cons e es ih =>
    intro s acts checks rest h1 h2 h3
    have hg := good_step hreq hok h3 e
    unfold Http.run
    cases hs : s.step v e with
    | ub => exact absurd hs hg.1
    | ok o =>
      cases o with
      | none => exact ⟨nofun, by intro s' a' he; cases he⟩
      | some p =>
        obtain ⟨s1, a⟩ := p
        have hr := step_rounds hs
        have fin : ∀ (checks : List (List Act × Bool)) (rest : List Act), noSkips (acts ++ a) = (checks.map (·.1)).flatten ++ rest → (∀ c ∈ checks, HttpCheck v.req v.ok c.1 c.2) → Inv v s1 rest → _ :=
          fun checks rest x y z => ih s1 (acts ++ a) checks rest x y z
        have res : (Http.run v s1 (acts ++ a) es ≠ .ub ∧ ∀ s' acts', Http.run v s1 (acts ++ a) es = .ok (some (s', acts')) →
            rounds es + (left (acts ++ a) + begun (acts ++ a)) = left acts' + begun acts' ∧
            ∃ (checks' : List (List Act × Bool)) (rest' : List Act), noSkips acts' = (checks'.map (·.1)).flatten ++ rest' ∧ (∀ c ∈ checks', HttpCheck v.req v.ok c.1 c.2) ∧ Inv v s' rest') := by
          rcases hg.2 s1 a hs with hi | ⟨⟨b, hc⟩, hi⟩
          · exact fin checks (rest ++ noSkips a) (by rw [noSkips_append, h1, List.append_assoc]) h2 hi
          · refine fin (checks ++ [(rest ++ noSkips a, b)]) [] (by rw [noSkips_append, h1]; simp) ?_ hi
            intro c hc'
            rcases List.mem_append.1 hc' with h | h
            · exact h2 c h
            · rw [List.mem_singleton.1 h]; exact hc
        refine ⟨res.1, ?_⟩
        intro s' acts' he
        obtain ⟨x, y⟩ := res.2 s' acts' he
        refine ⟨?_, y⟩
        rw [left_append, begun_append] at x
        have : rounds (e :: es) = rounds [e] + rounds es := by
          cases e <;> simp [rounds] <;> omega
        omega

theorem inv_start (v : Svc) : Inv v .start [] := .waiting rfl rfl rfl rfl rfl (by decide)

theorem checks_plain {req : Bytes} {ok : List Nat} : ∀ checks : List (List Act × Bool), (∀ c ∈ checks, HttpCheck req ok c.1 c.2) →
    reports (checks.map (·.1)).flatten = checks.map (·.2) ∧ begun (checks.map (·.1)).flatten = checks.length := by
  intro checks
  induction checks with
  | nil => intro _; exact ⟨rfl, rfl⟩
  | cons c r ih =>
    intro h
    obtain ⟨a, b⟩ := ih fun x hx => h x (List.mem_cons_of_mem _ hx)
    obtain ⟨x, y⟩ := (h c (List.mem_cons_self ..)).plain
    simp only [List.map_cons, List.flatten_cons, reports_append, begun_append, a, b, x, y, List.length_cons]
    exact ⟨rfl, by omega⟩

end Gdnsd.Poll
