/-
What acknowledgements of the daemon mean, and the first two requests of a connection.
-/
import Verif.Css.Props
import Verif.Ctl.Spec
namespace Gdnsd.Ctl
open CssSpec CtlSpec
open Css (Entry Css Cfg step msgKey msgV msgD Event)

/-- No response among the entries. -/
def mute : Entry → Bool
  | .resp _ _ _ _ => false
  | _ => true

theorem cleanup_mute {s : Css} {id s' l} (h : Css.cleanup s id = .ok (s', l)) : ∀ e ∈ l, mute e = true := by
  obtain ⟨_, _, _, _, rfl⟩ := Css.cleanup_ok h
  intro e he
  split at he <;> simp at he <;> rcases he with rfl | rfl <;> rfl

theorem no_mute {id m d f} {x y : List Entry} (h : ∀ e ∈ x ++ .resp id m d f :: y, mute e = true) : False := by
  have := h (.resp id m d f) (by simp)
  cases this

theorem write_mute {cfg s id r s' l} (h : step cfg s (.write id r) = .ok (s', l)) : ∀ e ∈ l, mute e = true := by
  simp only [step] at h
  split at h
  · obtain ⟨_, rfl⟩ := Css.one_ok h; simp
  split at h
  rotate_left
  · obtain ⟨_, rfl⟩ := Css.one_ok h; simp
  split at h
  · unfold Css.writeData at h
    obtain ⟨_, _, h⟩ := Css.bind_ok h
    split at h
    · cases h
    obtain ⟨_, _, h⟩ := Css.bind_ok h
    split at h
    rotate_left
    · cases h
    split at h
    · obtain ⟨_, rfl⟩ := Css.one_ok h; simp
    · exact cleanup_mute h
    · dsimp only at h
      split at h <;> (obtain ⟨_, rfl⟩ := Css.one_ok h; simp [mute])
  · unfold Css.writeResp at h
    obtain ⟨_, _, h⟩ := Css.bind_ok h
    obtain ⟨_, _, h⟩ := Css.bind_ok h
    split at h
    · obtain ⟨_, rfl⟩ := Css.one_ok h; simp
    · exact cleanup_mute h
    · dsimp only at h
      split at h
      · exact cleanup_mute h
      split at h
      · split at h <;> (obtain ⟨_, rfl⟩ := Css.one_ok h; simp [mute])
      · split at h <;> (obtain ⟨_, rfl⟩ := Css.one_ok h; simp [mute])

/-- The timer: responses are failures without anything. -/
theorem tick_resp {cfg s a s' l} (h : step cfg s (.tick a) = .ok (s', l)) {i m d f} (hm : .resp i m d f ∈ l) : m = plain 70 ∧ d = [] ∧ f = false := by
  simp only [step] at h
  split at h
  rotate_left
  · obtain ⟨_, rfl⟩ := Css.one_ok h; cases hm
  unfold Css.watch at h
  obtain ⟨_, _, h⟩ := Css.bind_ok h
  split at h
  · obtain ⟨_, rfl⟩ := Css.one_ok h; cases hm
  obtain ⟨s1, l1, l2, h1, h2, rfl⟩ := Css.andThen_ok h
  obtain ⟨_, rfl⟩ := Css.one_ok h1
  obtain ⟨s2, l3, l4, h3, h4, rfl⟩ := Css.andThen_ok h2
  obtain ⟨s3, l5, l6, h5, h6, rfl⟩ := Css.andThen_ok h4
  obtain ⟨_, rfl⟩ := Css.one_ok h6
  have h5m : ∀ e ∈ l5, mute e = true := by
    split at h5
    · exact cleanup_mute h5
    · obtain ⟨_, rfl⟩ := Css.one_ok h5; simp
  simp only [List.append_nil, List.mem_append, List.mem_cons, List.not_mem_nil, or_false] at hm
  rcases hm with hm | hm | hm
  · cases hm
  · split at h3
    · obtain ⟨_, _, _, rfl, _⟩ := Css.answer_ok h3
      simp only [List.mem_cons, List.not_mem_nil, or_false, Entry.resp.injEq] at hm
      exact ⟨hm.2.1, hm.2.2.1, hm.2.2.2⟩
    · obtain ⟨_, rfl⟩ := Css.one_ok h3; cases hm
  · have := h5m _ hm; cases this

/-- What a response says: data only for some requests, descriptors only for a takeover, and what it means to be
acknowledged. -/
structure Why (cfg : Cfg) (a : List Entry) (id : Nat) (m d : Bytes) (f : Bool) (r : Bytes) : Prop where
  data : msgKey r ∉ [83, 69, 50] → d = []
  fds : msgKey r ≠ 84 → f = false
  size : msgKey r = 83 ∨ msgKey r = 69 → msgKey m = 65 → d.length = msgD m
  info : msgKey r = 73 → msgKey m = 65 → header 65 cfg.version cfg.self m
  ack : msgKey m = 65 → ∃ x b, a = x ++ .req id r :: b ∧ (∀ e ∈ b, turn e ≠ some id) ∧ Acked x id r b

theorem not_ack {cfg a id m d f r} (h : d = []) (h' : f = false) (h0 : msgKey m ≠ 65) : Why cfg a id m d f r :=
  ⟨fun _ => h, fun _ => h', fun _ h => absurd h h0, fun _ h => absurd h h0, fun h => absurd h h0⟩

/-- The last request, and what came since. -/
theorem since {id a r} (h : Turns id a (some r)) : ∃ x b, a = x ++ .req id r :: b ∧ ∀ e ∈ b, turn e ≠ some id := h.last r rfl

/-- A reload that is acknowledged. -/
theorem ack_reload {cfg s l a id m d f b r} (h : Run cfg s l) (hl : l = a ++ .resp id m d f :: b) (hr : Turns id a (some r)) (hk : msgKey r = 90) (hm : msgKey m = 65) :
    ∃ x b, a = x ++ .req id r :: b ∧ (∀ e ∈ b, turn e ≠ some id) ∧ Acked x id r b := by
  subst hl
  obtain ⟨x, y, z, t, ha, hin, hno⟩ := Css.C46_ack h hr hk hm
  refine ⟨x, y ++ .load t :: z, by rw [ha]; simp, fun e he => ?_, ⟨fun _ => ⟨t, y, z, rfl, hin⟩, ?_, ?_, ?_, ?_⟩⟩
  · simp only [List.mem_append, List.mem_cons] at he
    rcases he with he | rfl | he
    · exact hno e (by simp [he])
    · simp [turn]
    · exact hno e (by simp [he])
  all_goals intro h; rw [hk] at h; exact absurd h (by decide)

theorem acked_none {x id r b} (h : msgKey r ∉ [90, 99, 88, 82, 67]) : Acked x id r b := by
  simp only [List.mem_cons, List.not_mem_nil, or_false, not_or] at h
  exact ⟨fun h0 => absurd h0 h.1, fun h0 => absurd h0 h.2.1, fun h0 => absurd h0 h.2.2.1, fun h0 => absurd h0 h.2.2.2.1, fun h0 => absurd h0 h.2.2.2.2⟩

/-- Without requests of the client among them, and with one that is not answered at the end, the last entries are none of its. -/
theorem turns_back {id : Nat} {l a : List Entry} {r : Bytes} {o} (hF : Turns id l o) (h : Turns id (l ++ a) (some r)) (hno : ∀ m, .req id m ∉ a) : Turns id l (some r) ∧ ∀ e ∈ a, turn e ≠ some id := by
  obtain ⟨x, b, hx, hb⟩ := h.last r rfl
  have : ∀ e ∈ a, turn e ≠ some id := by
    rcases List.append_eq_append_iff.mp hx with ⟨c, rfl, h2⟩ | ⟨c, rfl, h2⟩
    · cases c with
      | nil => exfalso; simp at h2; exact hno r (by rw [h2]; simp)
      | cons e c =>
        exfalso; exact hno r (by rw [h2]; simp)
    · cases c with
      | nil => exfalso; simp at h2; exact hno r (by rw [← h2]; simp)
      | cons e c =>
        simp only [List.cons_append, List.cons.injEq] at h2
        intro e he; exact hb e (by rw [h2.2]; simp [he])
  have hu := (Css.Turns.more hF this).unique h
  subst hu
  exact ⟨hF, this⟩

/-! ### The data of challenges -/

/-- The data so far. -/
def Fill (o : Option Css.Conn) : Prop := ∀ c, o = some c → c.st = .readingData → c.size = msgD c.rbuf ∧ ∃ b, c.data = some b ∧ b.length = c.done

theorem fill_l {cfg id o l o'} (h : Css.L cfg id o l o') (hf : Fill o) : Fill o' := by
  intro c' hc' hst
  cases h with
  | other _ => exact hf c' hc' hst
  | reqData _ _ _ _ _ _ => simp only [Option.some.injEq] at hc'; subst hc'; exact ⟨rfl, [], rfl, rfl⟩
  | recv h1 h2 h3 =>
    simp only [Option.some.injEq] at hc'; subst hc'
    obtain ⟨h4, b, h5, h6⟩ := hf _ rfl h1
    rw [h2, Option.some.injEq] at h5
    subst h5
    exact ⟨h4, _, rfl, by simp [h6]⟩
  | act _ _ _ => exact hf c' hc' hst
  | close => cases hc'
  | @nofd c => simp only [Option.some.injEq] at hc'; subst hc'; exact hf c rfl hst
  | fds h0 _ _ => simp only [Option.some.injEq] at hc'; subst hc'; simp only [h0] at hst; cases hst
  | data h0 _ _ _ => simp only [Option.some.injEq] at hc'; subst hc'; simp only [h0] at hst; cases hst
  | _ => simp only [Option.some.injEq] at hc'; subst hc'; cases hst

theorem fill_ls {cfg id o l o'} (h : Css.LS cfg id o l o') : Fill o → Fill o' := by
  induction h with
  | nil => exact fun hf => hf
  | step _ h2 ih => exact fun hf => fill_l h2 (ih hf)

theorem run_fill {cfg s l} (h : Run cfg s l) (id : Nat) : Fill (s.conn id) := by
  induction h generalizing id with
  | init => intro c hc; cases hc
  | @step s l e s' l' h hrun he hs ih =>
    by_cases ha : ∃ p, e = .accept p
    · obtain ⟨p, rfl⟩ := ha
      simp only [step] at hs
      split at hs
      · obtain ⟨rfl, rfl⟩ := Css.one_ok hs
        intro c hc hst
        simp only [Css.Css.put] at hc
        split at hc
        · simp only [Option.some.injEq] at hc; subst hc; cases hst
        · exact ih id c hc hst
      · obtain ⟨rfl, rfl⟩ := Css.one_ok hs; exact ih id
    · refine fill_ls (Css.step_loc he (fun id c hc hst => ?_) (fun p h0 => ha ⟨p, h0⟩) hs id) (ih id)
      obtain ⟨_, hg⟩ := ((Css.run_k h).a.conn id).2 c hc
      have hg := Css.Good.notLast hg (Or.inl (by rw [hst]; decide))
      have := hg.shape
      simp only [Css.Shape, hst] at this
      exact this.2.2.2.2.2

/-! ### Which responses there are -/

/-- A client that is told of a replacement is told because the replacement has ended the daemon. -/
theorem stop_taker {cfg s l id r env s' m rest} (h : Run cfg s l) (hrun : s.running = true) (hs : step cfg s (.read id r env) = .ok (s', .req id m :: rest))
    (hk : msgKey m = 88) {i x d f} (hm : .resp i x d f ∈ rest) (hi : i ≠ id) (hx : msgKey x = 65) : current l ≠ 0 := by
  obtain ⟨c, hc, _, _, _, _, hcase⟩ := Css.read_req hs
  rcases hcase with ⟨p, _, _, ha⟩ | ⟨_, h67, _⟩ | ⟨_, _, hr⟩
  · obtain ⟨_, _, _, rfl, _⟩ := Css.answer_ok ha
    simp only [List.mem_cons, List.not_mem_nil, or_false, Entry.resp.injEq] at hm
    exact absurd hm.1 hi
  · rw [hk] at h67; cases h67
  · have hb := (Css.run_k h).b hrun
    unfold Css.request at hr
    simp only [hk] at hr
    rw [if_neg (by decide), if_pos trivial] at hr
    unfold Css.reqStop at hr
    split at hr
    · next hp => rw [← hb.pid]; exact hp.1
    · obtain ⟨⟨ok, s1, e⟩, h1, hr⟩ := Css.bind_ok hr
      dsimp only at hr
      obtain ⟨s2, h2, hr⟩ := Css.bind_ok hr
      have hctl : s2.ctl = none ∨ s2.ctl = s.ctl := by
        have h3 : s2.ctl = s1.ctl := by
          split at h2
          · obtain ⟨_, _, h2⟩ := Css.map_ok h2; subst h2; rfl
          · simp only [Outcome.ok.injEq] at h2; subst h2; rfl
        rw [h3]
        unfold Css.blockingAck at h1
        obtain ⟨_, _, h1⟩ := Css.bind_ok h1
        obtain ⟨_, _, h1⟩ := Css.bind_ok h1
        dsimp only at h1
        split at h1
        · simp only [Outcome.ok.injEq, Prod.mk.injEq] at h1; obtain ⟨_, rfl, _⟩ := h1; exact Or.inr rfl
        · obtain ⟨⟨s3, l3⟩, h4, h1⟩ := Css.map_ok h1
          simp only [Prod.mk.injEq] at h1; obtain ⟨_, rfl, _⟩ := h1
          unfold Css.cleanup at h4
          obtain ⟨_, _, h4⟩ := Css.bind_ok h4
          dsimp only at h4
          obtain ⟨rfl, _⟩ := Css.one_ok h4
          simp only [Css.Css.put]
          by_cases hx : s.ctl = some id <;> by_cases hy : s.dmn = some id <;> simp [hx, hy]
      have he : ∀ y ∈ e, ∀ j z d' f', y = .resp j z d' f' → j = id := by
        unfold Css.blockingAck at h1
        obtain ⟨_, _, h1⟩ := Css.bind_ok h1
        obtain ⟨_, _, h1⟩ := Css.bind_ok h1
        dsimp only at h1
        split at h1
        · simp only [Outcome.ok.injEq, Prod.mk.injEq] at h1; obtain ⟨_, _, rfl⟩ := h1
          rintro y hy j z d' f' rfl
          simp at hy; exact hy.1
        · obtain ⟨⟨s3, l3⟩, h4, h1⟩ := Css.map_ok h1
          simp only [Prod.mk.injEq] at h1; obtain ⟨_, _, rfl⟩ := h1
          rintro y hy j z d' f' rfl
          simp only [List.mem_cons, Entry.resp.injEq] at hy
          rcases hy with hy | hy
          · exact hy.1
          · have := cleanup_mute h4 _ hy; cases this
      split at hr
      · obtain ⟨_, rfl⟩ := Css.one_ok hr
        simp only [List.mem_cons, reduceCtorEq, false_or] at hm
        exact absurd (he _ hm _ _ _ _ rfl) hi
      · next k hk2 =>
        rcases hctl with h3 | h3
        · rw [h3] at hk2; cases hk2
        · rw [h3] at hk2
          rw [← hb.pid]
          exact (hb.ctl k hk2).2.1

/-- What is read: a request, the end of the data of challenges, or nothing that is answered. -/
theorem read_kinds {cfg s id r env s' l} (h : step cfg s (.read id r env) = .ok (s', l)) :
    (∃ m rest, l = .req id m :: rest) ∨ (∀ e ∈ l, mute e = true) ∨
    ∃ c b x, s.conn id = some c ∧ c.st = .readingData ∧ c.data = some b ∧ c.done + x.length = c.size ∧
      (l = [.resp id (plain 76) [] false] ∨ l = [.chal id (msgV c.rbuf) (b ++ x), .resp id (plain (if env.chalBad = true then 70 else 65)) [] false]) := by
  simp only [step] at h
  split at h
  · obtain ⟨_, rfl⟩ := Css.one_ok h; simp
  next c hc =>
  split at h
  rotate_left
  · obtain ⟨_, rfl⟩ := Css.one_ok h; simp
  unfold Css.readConn at h
  obtain ⟨_, _, h⟩ := Css.bind_ok h
  split at h
  · next hst =>
    obtain ⟨_, _, h⟩ := Css.bind_ok h
    unfold Css.recvData at h
    split at h
    · cases h
    next b hb =>
    obtain ⟨_, _, h⟩ := Css.bind_ok h
    split at h
    · obtain ⟨_, rfl⟩ := Css.one_ok h; simp
    · exact Or.inr (Or.inl (cleanup_mute h))
    · exact Or.inr (Or.inl (cleanup_mute h))
    · dsimp only at h
      split at h
      · next hd =>
        refine Or.inr (Or.inr ⟨c, b, _, hc, hst, hb, hd, ?_⟩)
        split at h
        · obtain ⟨_, _, _, rfl, _⟩ := Css.answer_ok h; exact Or.inl rfl
        · obtain ⟨s1, l1, l2, h1, h2, rfl⟩ := Css.andThen_ok h
          obtain ⟨_, rfl⟩ := Css.one_ok h1
          obtain ⟨_, _, _, rfl, _⟩ := Css.answer_ok h2
          exact Or.inr rfl
      · obtain ⟨_, rfl⟩ := Css.one_ok h; simp
  · split at h
    · obtain ⟨_, rfl⟩ := Css.one_ok h; simp
    · exact Or.inr (Or.inl (cleanup_mute h))
    · dsimp only at h
      split at h
      · exact Or.inr (Or.inl (cleanup_mute h))
      · obtain ⟨s1, l1, l2, h1, h2, rfl⟩ := Css.andThen_ok h
        obtain ⟨_, rfl⟩ := Css.one_ok h1
        exact Or.inl ⟨_, _, rfl⟩

theorem split_cases {α} {l l' a b : List α} {e : α} (h : l ++ l' = a ++ e :: b) : (∃ c, l = a ++ e :: c) ∨ ∃ a', a = l ++ a' ∧ l' = a' ++ e :: b := by
  rcases List.append_eq_append_iff.mp h with ⟨c, rfl, h2⟩ | ⟨c, rfl, h2⟩
  · exact Or.inr ⟨c, rfl, h2⟩
  · cases c with
    | nil => exact Or.inr ⟨[], by simp, by simpa using h2.symm⟩
    | cons x c =>
      simp only [List.cons_append, List.cons.injEq] at h2
      exact Or.inl ⟨c, by rw [h2.1]⟩

/-- A request that is answered at once: what comes between. -/
theorem at_once {cfg : Cfg} {l a1 id m r x d f} (hr : Turns id (l ++ .req id m :: a1) (some r)) (hno : ∀ e ∈ a1, turn e ≠ some id)
    (h1 : msgKey m ∉ [83, 69, 50] → d = []) (h2 : msgKey m ≠ 84 → f = false) (h5 : msgKey m = 83 ∨ msgKey m = 69 → d.length = msgD x)
    (h3 : msgKey m = 73 → msgKey x = 65 → header 65 cfg.version cfg.self x) (h4 : msgKey x = 65 → Acked l id m a1) : Why cfg (l ++ .req id m :: a1) id x d f r := by
  have := hr.tail hno
  simp only [Option.some.injEq] at this
  subst this
  exact ⟨h1, h2, fun h _ => h5 h, h3, fun h0 => ⟨l, a1, rfl, hno, h4 h0⟩⟩

theorem plain_ack {k : UInt8} (h : k ≠ 65) : msgKey (plain k) ≠ 65 := h

theorem mem_split {α} {e e' : α} {x y : List α} (h : [e'] = x ++ e :: y) : x = [] ∧ e = e' := by
  cases x with
  | nil => simp at h; exact ⟨rfl, h.1.symm⟩
  | cons z x => simp at h

theorem split_cons {α} {e0 e : α} {l x y : List α} (h : e0 :: l = x ++ e :: y) : (x = [] ∧ e = e0 ∧ y = l) ∨ ∃ x', x = e0 :: x' ∧ l = x' ++ e :: y := by
  cases x with
  | nil => simp at h; exact Or.inl ⟨rfl, h.1.symm, h.2.symm⟩
  | cons z x => simp at h; exact Or.inr ⟨x, by rw [h.1], h.2⟩

theorem resp_why {cfg s L} (h : Run cfg s L) : ∀ {a id m d f b r}, L = a ++ .resp id m d f :: b → Turns id a (some r) → Why cfg a id m d f r := by
  induction h with
  | init => intro a id m d f b r h; simp at h
  | @step s l e s' l' h hrun he hs ih =>
    intro a id m d f b r hL hr
    have hR : Run cfg s' (l ++ l') := .step h hrun he hs
    rcases split_cases hL with ⟨c, hc⟩ | ⟨a1, rfl, hl'⟩
    · exact ih hc hr
    obtain ⟨o, ho⟩ := Css.C46_once h id
    cases e with
    | accept p =>
      simp only [step] at hs
      split at hs <;> (obtain ⟨_, rfl⟩ := Css.one_ok hs)
      · exact (no_mute (by rw [← hl']; simp [mute])).elim
      · simp at hl'
    | ended t =>
      simp only [step] at hs
      split at hs
      · obtain ⟨_, rfl⟩ := Css.one_ok hs; simp at hl'
      · split at hs <;> (obtain ⟨_, rfl⟩ := Css.one_ok hs; simp at hl')
    | signal =>
      simp only [step] at hs
      split at hs <;> (obtain ⟨_, rfl⟩ := Css.one_ok hs)
      · simp at hl'
      · exact (no_mute (by rw [← hl']; simp [mute])).elim
    | write i w => exact (no_mute (by rw [← hl']; exact write_mute hs)).elim
    | tick al =>
      obtain ⟨rfl, h1, h2⟩ := tick_resp hs (i := id) (m := m) (d := d) (f := f) (by rw [hl']; simp)
      exact not_ack h1 h2 (by decide)
    | async =>
      rcases Css.C46_done h hrun hs with rfl | ⟨t, ids, n, h1, ⟨hnd, hw⟩, hn, _⟩
      · simp at hl'
      · rw [h1] at hl'
        have hin : .resp id m d f ∈ ids.map fun i => Entry.resp i (plain (if cfg.fails t = true then 70 else 65)) [] false := by
          have : .resp id m d f ∈ .loaded t (cfg.fails t) :: (ids.map fun i => Entry.resp i (plain (if cfg.fails t = true then 70 else 65)) [] false) ++ n := by rw [hl']; simp
          simp only [List.cons_append, List.mem_cons, List.mem_append, reduceCtorEq, false_or] at this
          rcases this with h0 | h0
          · exact h0
          · rcases hn with rfl | ⟨t', rfl, _⟩ <;> simp at h0
        obtain ⟨i, hi, h3⟩ := List.mem_map.mp hin
        simp only [Entry.resp.injEq] at h3
        obtain ⟨rfl, rfl, rfl, rfl⟩ := h3
        obtain ⟨r', hr', h90⟩ := hw i hi
        have hno : ∀ q, .req i q ∉ a1 := by
          intro q hq
          have : .req i q ∈ .loaded t (cfg.fails t) :: (ids.map fun i => Entry.resp i (plain (if cfg.fails t = true then 70 else 65)) [] false) ++ n := by rw [hl']; simp [hq]
          rcases hn with rfl | ⟨t', rfl, _⟩ <;> simp at this
        have hb := (turns_back hr' hr hno).1.unique hr'
        simp only [Option.some.injEq] at hb
        subst hb
        refine ⟨fun _ => rfl, fun _ => rfl, fun h0 => by rw [h90] at h0; exact absurd h0 (by decide), fun h73 => by rw [h90] at h73; exact absurd h73 (by decide), fun hm => ?_⟩
        exact ack_reload hR hL hr h90 hm
    | read i rx env =>
      rcases read_kinds hs with ⟨q, rest, rfl⟩ | hmute | ⟨c, b0, x, hc, hst, hdat, hlen, hl0⟩
      · rcases split_cons hl' with ⟨_, h0, _⟩ | ⟨x', rfl, hnew⟩
        · cases h0
        replace hl' := hnew
        clear hnew
        obtain ⟨c, hc, hon, hst, hq8, _, hcase⟩ := Css.read_req hs
        have hopen : Turns i l none := by
          obtain ⟨_, hg⟩ := ((Css.run_k h).a.conn i).2 c hc
          have := (Css.Good.notLast hg (Or.inl (by rw [hst]; decide))).turns
          simpa only [Css.opn, hst] using this
        by_cases hden : ∃ p, c.perm = some p ∧ Css.allowed p (msgKey q) = false
        · obtain ⟨p, hp, hno⟩ := hden
          rcases hcase with ⟨_, _, _, ha⟩ | ⟨hal, _⟩ | ⟨hal, _⟩
          · obtain ⟨_, _, _, rfl, _⟩ := Css.answer_ok ha
            obtain ⟨_, h0⟩ := mem_split hl'
            simp only [Entry.resp.injEq] at h0
            obtain ⟨rfl, rfl, rfl, rfl⟩ := h0
            exact not_ack rfl rfl (by decide)
          · rw [hal p hp] at hno; cases hno
          · rw [hal p hp] at hno; cases hno
        have hall : ∀ p, c.perm = some p → Css.allowed p (msgKey q) = true := fun p hp => by
          cases hx : Css.allowed p (msgKey q) with
          | true => rfl
          | false => exact absurd ⟨p, hp, hx⟩ hden
        by_cases h67 : msgKey q = 67
        · rcases hcase with ⟨p, hp, hno, _⟩ | ⟨_, _, h0⟩ | ⟨_, h0, _⟩
          · rw [hall p hp] at hno; cases hno
          · rcases h0 with ⟨_, _, rfl⟩ | ⟨_, h0⟩
            · simp at hl'
            · exact (no_mute (by rw [← hl']; exact cleanup_mute h0)).elim
          · exact absurd h67 h0
        have hperm : ∀ p, .accept i (some p) ∈ l → permits p (msgKey q) = true := fun p hp => by
          rw [← Css.permits_eq]
          exact hall p (Css.accept_once h (((Css.run_k h).a.conn i).2 c hc).1 hp)
        have hdup : ∀ {ids : List Nat} {k : UInt8}, k ≠ 65 → .resp id m d f ∈ (ids.map fun i => Entry.resp i (plain k) [] false) → Why cfg (l ++ .req i q :: x') id m d f r := by
          intro ids k hk hin
          obtain ⟨j, _, h3⟩ := List.mem_map.mp hin
          simp only [Entry.resp.injEq] at h3
          obtain ⟨rfl, rfl, rfl, rfl⟩ := h3
          exact not_ack rfl rfl (plain_ack hk)
        cases Css.C74_reply h hrun hs hperm h67 with
        | info hk hh =>
          obtain ⟨rfl, h0⟩ := mem_split hl'
          simp only [Entry.resp.injEq] at h0
          obtain ⟨rfl, rfl, rfl, rfl⟩ := h0
          exact at_once hr (by simp) (fun _ => rfl) (fun _ => rfl) (fun h0 => by rw [hk] at h0; exact absurd h0 (by decide)) (fun _ _ => hh) fun _ => acked_none (by rw [hk]; decide)
        | stats hk hh =>
          obtain ⟨rfl, h0⟩ := mem_split hl'
          simp only [Entry.resp.injEq] at h0
          obtain ⟨rfl, rfl, rfl, rfl⟩ := h0
          exact at_once hr (by simp) (fun h0 => absurd (by rw [hk]; decide) h0) (fun _ => rfl) (fun _ => by rw [hh.2.2.2]; exact (Nat.mod_eq_of_lt he.2.2.1).symm) (fun h0 => absurd (hk.symm.trans h0) (by decide)) fun _ => acked_none (by rw [hk]; decide)
        | states hk hh =>
          obtain ⟨rfl, h0⟩ := mem_split hl'
          simp only [Entry.resp.injEq] at h0
          obtain ⟨rfl, rfl, rfl, rfl⟩ := h0
          exact at_once hr (by simp) (fun h0 => absurd (by rw [hk]; decide) h0) (fun _ => rfl) (fun _ => by rw [hh.2.2.2]; exact (Nat.mod_eq_of_lt he.2.2.2.1).symm) (fun h0 => absurd (hk.symm.trans h0) (by decide)) fun _ => acked_none (by rw [hk]; decide)
        | later _ _ =>
          obtain ⟨rfl, h0⟩ := mem_split hl'
          simp only [Entry.resp.injEq] at h0
          obtain ⟨rfl, rfl, rfl, rfl⟩ := h0
          exact not_ack rfl rfl (by decide)
        | reload _ _ _ => exact absurd (mem_split hl').2 (by simp)
        | wait _ _ _ => simp at hl'
        | flush hk _ =>
          rcases split_cons hl' with ⟨_, h0, _⟩ | ⟨y, rfl, hnew⟩
          · cases h0
          replace hl' := hnew
          clear hnew
          obtain ⟨rfl, h0⟩ := mem_split hl'
          simp only [Entry.resp.injEq] at h0
          obtain ⟨rfl, rfl, rfl, rfl⟩ := h0
          refine at_once hr (by simp [turn]) (fun _ => rfl) (fun _ => rfl) (fun h0 => by rw [hk] at h0; exact absurd h0 (by decide)) (fun h0 => absurd (hk.symm.trans h0) (by decide)) fun _ => ⟨?_, fun _ => by simp, ?_, ?_, ?_⟩ <;>
            exact fun h0 => absurd (hk.symm.trans h0) (by decide)
        | spawnFail hk _ _ =>
          rcases split_cons hl' with ⟨_, h0, _⟩ | ⟨y, rfl, hnew⟩
          · cases h0
          replace hl' := hnew
          clear hnew
          obtain ⟨rfl, h0⟩ := mem_split hl'
          simp only [Entry.resp.injEq] at h0
          obtain ⟨rfl, rfl, rfl, rfl⟩ := h0
          exact not_ack rfl rfl (by decide)
        | spawn hk _ _ _ _ =>
          rcases split_cons hl' with ⟨_, h0, _⟩ | ⟨y, rfl, hnew⟩
          · cases h0
          replace hl' := hnew
          clear hnew
          exact hdup (k := 76) (by decide) (by rw [hl']; simp)
        | takeover hk _ _ hw =>
          rcases split_cons hl' with ⟨_, h0, _⟩ | ⟨y, rfl, hnew⟩
          · cases h0
          replace hl' := hnew
          clear hnew
          rcases split_cases hl' with ⟨z, h0⟩ | ⟨y', rfl, h0⟩
          · exact hdup (k := 76) (by decide) (by rw [h0]; simp)
          · obtain ⟨rfl, h1⟩ := mem_split h0
            clear h0
            simp only [Entry.resp.injEq] at h1
            have h0 := h1
            clear h1
            obtain ⟨rfl, rfl, rfl, rfl⟩ := h0
            refine at_once hr ?_ (fun _ => rfl) (fun _ => rfl) (fun h0 => by rw [hk] at h0; exact absurd h0 (by decide)) (fun h0 => absurd (hk.symm.trans h0) (by decide)) fun _ => acked_none (by rw [hk]; decide)
            intro e he
            simp only [List.append_nil, List.mem_cons, List.mem_map] at he
            rcases he with rfl | ⟨j, hj, rfl⟩
            · simp [turn]
            · intro h0
              simp only [turn, Option.some.injEq] at h0
              subst h0
              obtain ⟨r', hr', _⟩ := hw.2 j hj
              have := hopen.unique hr'
              cases this
        | share hk _ hh =>
          rcases split_cons hl' with ⟨_, h0, _⟩ | ⟨y, rfl, hnew⟩
          · cases h0
          replace hl' := hnew
          clear hnew
          obtain ⟨rfl, h0⟩ := mem_split hl'
          simp only [Entry.resp.injEq] at h0
          obtain ⟨rfl, rfl, rfl, rfl⟩ := h0
          exact at_once hr (by simp [turn]) (fun h0 => absurd (by rw [hk]; decide) h0) (fun _ => rfl) (fun h0 => by rw [hk] at h0; exact absurd h0 (by decide)) (fun h0 => absurd (hk.symm.trans h0) (by decide)) fun _ => acked_none (by rw [hk]; decide)
        | hand hk _ hh =>
          obtain ⟨rfl, h0⟩ := mem_split hl'
          simp only [Entry.resp.injEq] at h0
          obtain ⟨rfl, rfl, rfl, rfl⟩ := h0
          exact at_once hr (by simp) (fun _ => rfl) (fun h0 => absurd hk h0) (fun h0 => by rw [hk] at h0; exact absurd h0 (by decide)) (fun h0 => absurd (hk.symm.trans h0) (by decide)) fun _ => acked_none (by rw [hk]; decide)
        | @refuse k0 _ _ hk =>
          have hin : .resp id m d f ∈ [Entry.resp i (plain 70) [] false] ++ k0 ++ [.close i] := by rw [hl']; simp
          have : .resp id m d f = Entry.resp i (plain 70) [] false := by
            rw [hk] at hin
            split at hin <;> simpa using hin
          simp only [Entry.resp.injEq] at this
          obtain ⟨rfl, rfl, rfl, rfl⟩ := this
          exact not_ack rfl rfl (by decide)
        | @stop k hk hcur hkk =>
          rcases split_cons hl' with ⟨_, h0, _⟩ | ⟨y, rfl, hnew⟩
          · cases h0
          replace hl' := hnew
          clear hnew
          rcases split_cons hl' with ⟨rfl, h0, _⟩ | ⟨z, rfl, hl2⟩
          · simp only [Entry.resp.injEq] at h0
            obtain ⟨rfl, rfl, rfl, rfl⟩ := h0
            refine at_once hr (by simp [turn]) (fun _ => rfl) (fun _ => rfl) (fun h0 => by rw [hk] at h0; exact absurd h0 (by decide)) (fun h0 => absurd (hk.symm.trans h0) (by decide)) fun _ => ⟨?_, ?_, fun _ => by simp, ?_, ?_⟩ <;>
              exact fun h0 => absurd (hk.symm.trans h0) (by decide)
          · have hin := hkk (.resp id m d f) (by rw [hl2]; simp)
            rcases hin with ⟨j, r', h0, hr', h82⟩ | ⟨j, h0⟩ | ⟨j, h0⟩
            · simp only [Entry.resp.injEq] at h0
              obtain ⟨rfl, rfl, rfl, rfl⟩ := h0
              have hne : id ≠ i := by
                rintro rfl
                have := hopen.unique hr'
                cases this
              have hnz : ∀ q', .req id q' ∉ z := by
                intro q' hq'
                rcases hkk (.req id q') (by rw [hl2]; simp [hq']) with ⟨_, _, h0, _⟩ | ⟨_, h0⟩ | ⟨_, h0⟩ <;> cases h0
              obtain ⟨hT, hno⟩ := turns_back hr' hr (by intro q' hq'; simp only [List.mem_cons, Entry.req.injEq, reduceCtorEq, false_or] at hq'; exact hq'.elim (fun hq' => hne hq'.1) (hnz q'))
              have := hT.unique hr'
              simp only [Option.some.injEq] at this
              subst this
              have hcl : current l ≠ 0 := stop_taker h hrun hs hk (i := id) (x := plain 65) (d := []) (f := false) (by rw [hl2]; simp) hne rfl
              obtain ⟨u, v, rfl, hv⟩ := hT.last r rfl
              refine ⟨fun _ => rfl, fun _ => rfl, fun h0 => by rw [h82] at h0; exact absurd h0 (by decide), fun h0 => absurd (h82.symm.trans h0) (by decide), fun _ => ⟨u, v ++ .req i q :: .stop i :: .resp i (plain 65) [] false :: z, by simp, ?_, ?_, ?_, ?_, ?_, ?_⟩⟩
              · intro e he
                rw [List.mem_append] at he
                exact he.elim (hv e) (hno e)
              · exact fun h0 => absurd (h82.symm.trans h0) (by decide)
              · exact fun h0 => absurd (h82.symm.trans h0) (by decide)
              · exact fun h0 => absurd (h82.symm.trans h0) (by decide)
              · intro _
                refine ⟨i, v ++ [.req i q], .resp i (plain 65) [] false :: z, by simp, fun h0 => hne h0.symm, ?_⟩
                have hst := ((Css.run_k hR).f (u ++ .req id r :: (v ++ [.req i q])) (.stop i) _ (by simp; rfl)).stop i rfl
                refine hst.resolve_left ?_
                have : current (u ++ .req id r :: (v ++ [.req i q])) = current (u ++ .req id r :: v) := by
                  unfold current
                  rw [show u ++ .req id r :: (v ++ [.req i q]) = (u ++ .req id r :: v) ++ [.req i q] by simp, List.foldl_append]
                  rfl
                rw [this]; exact hcl
              · exact fun h0 => absurd (h82.symm.trans h0) (by decide)
            · cases h0
            · cases h0
        | unknown _ =>
          obtain ⟨rfl, h0⟩ := mem_split hl'
          simp only [Entry.resp.injEq] at h0
          obtain ⟨rfl, rfl, rfl, rfl⟩ := h0
          exact not_ack rfl rfl (by decide)
      · exact (no_mute (by rw [← hl']; exact hmute)).elim
      · have hg := (Css.Good.notLast (((Css.run_k h).a.conn i).2 c hc).2 (Or.inl (by rw [hst]; decide)))
        have ht := hg.turns
        simp only [Css.opn, hst] at ht
        have hsh := hg.shape
        simp only [Css.Shape, hst] at hsh
        have h67 := hsh.2.2.2.2.1
        obtain ⟨hsz, b1, hb1, hbl⟩ := run_fill h i c hc hst
        rw [hdat, Option.some.injEq] at hb1
        subst hb1
        rcases hl0 with rfl | rfl
        · obtain ⟨rfl, h0⟩ := mem_split hl'
          simp only [Entry.resp.injEq] at h0
          obtain ⟨rfl, rfl, rfl, rfl⟩ := h0
          exact not_ack rfl rfl (by decide)
        · rcases split_cons hl' with ⟨_, h0, _⟩ | ⟨y, rfl, hnew⟩
          · cases h0
          replace hl' := hnew
          clear hnew
          obtain ⟨rfl, h0⟩ := mem_split hl'
          simp only [Entry.resp.injEq] at h0
          obtain ⟨rfl, rfl, rfl, rfl⟩ := h0
          obtain ⟨hT, hno⟩ := turns_back ht hr (by simp)
          have := hT.unique ht
          simp only [Option.some.injEq] at this
          subst this
          obtain ⟨u, v, rfl, hv⟩ := hT.last _ rfl
          refine ⟨fun _ => rfl, fun _ => rfl, fun h0 => by rw [h67] at h0; exact absurd h0 (by decide), fun h0 => absurd (h67.symm.trans h0) (by decide), fun _ => ⟨u, v ++ [.chal id (msgV c.rbuf) (b0 ++ x)], by simp, ?_, ?_, ?_, ?_, ?_, ?_⟩⟩
          · intro e he
            rw [List.mem_append] at he
            exact he.elim (hv e) (hno e)
          · exact fun h0 => absurd (h67.symm.trans h0) (by decide)
          · exact fun h0 => absurd (h67.symm.trans h0) (by decide)
          · exact fun h0 => absurd (h67.symm.trans h0) (by decide)
          · exact fun h0 => absurd (h67.symm.trans h0) (by decide)
          · intro _
            exact ⟨b0 ++ x, by simp, by rw [List.length_append, hbl, hlen, hsz]⟩

end Gdnsd.Ctl
