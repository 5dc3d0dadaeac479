/-
The requests of a start in the history of the other daemon.
-/
import Verif.Take.MainLemmas
import Verif.Take.ImportLemmas
namespace Gdnsd.Take
open TakeSpec CssSpec
open Css (Entry Css Cfg step msg msgKey msgV msgD Event owner Acts)
open Ctl (split_cases split_cons mem_split taken_append)
open CtlSpec (taken)

/-! ### Where entries come from -/

theorem ls_acts {cfg id o l' o'} (h : Css.LS cfg id o l' o') : ∀ {l}, Css.CInv cfg id l o → ∀ {a e b k}, l' = a ++ e :: b → Acts id k e → ∃ r, Turns id (l ++ a) (some r) ∧ msgKey r = k := by
  induction h with
  | nil => intro l _ a e b k h; simp at h
  | @step _ _ l1 l2 h1 h2 ih =>
    intro l hi a e b k hl hk
    rcases split_cases hl with ⟨c, hc⟩ | ⟨a', rfl, hl'⟩
    · exact ih hi hc hk
    have hi' := h1.inv hi
    cases h2 with
    | other ho =>
      obtain ⟨_, rfl⟩ := mem_split hl'
      exact absurd (by cases hk <;> rfl) ho
    | @act c _ hw _ ha =>
      obtain ⟨rfl, rfl⟩ := mem_split hl'
      obtain ⟨_, hg⟩ := hi'.2 c rfl
      have hg := (Css.Good.notLast hg (Or.inl (by rw [hw]; decide))).turns
      simp only [Css.opn, hw] at hg
      refine ⟨c.rbuf, by simpa using hg, ?_⟩
      generalize msgKey c.rbuf = k' at ha
      cases ha <;> cases hk <;> rfl
    | block _ =>
      rcases split_cons hl' with ⟨_, h0, _⟩ | ⟨_, _, h0⟩
      · subst h0; cases hk
      · have := (mem_split h0).2; subst this; cases hk
    | recv _ _ _ => simp at hl'
    | recvAll _ => simp at hl'
    | nofd => simp at hl'
    | _ => have := (mem_split hl').2; subst this; cases hk

/-- While descriptors are written, the header is known. -/
def Hd (cfg : Cfg) (o : Option Css.Conn) : Prop := ∀ c, o = some c → c.st = .writingFds → c.wbuf = msg 65 cfg.fds.length 0

theorem ls_out {cfg id o l' o'} (h : Css.LS cfg id o l' o') : Hd cfg o → Hd cfg o' ∧ ∀ {a x f b c}, l' = a ++ .out id b (x :: f) :: c → b = msg 65 cfg.fds.length 0 := by
  induction h with
  | nil => intro ho; exact ⟨ho, fun h => by simp at h⟩
  | @step _ o2 l1 l2 h1 h2 ih =>
    intro ho
    obtain ⟨i1, i2⟩ := ih ho
    have key : Hd cfg o2 ∧ ∀ {a x f b c}, l2 = a ++ .out id b (x :: f) :: c → b = msg 65 cfg.fds.length 0 := by
      cases h2 with
      | other ho =>
        refine ⟨i1, fun hl => ?_⟩
        obtain ⟨_, h0⟩ := mem_split hl
        exact absurd (by rw [← h0]; rfl) ho
      | @act c e hw _ ha =>
        refine ⟨i1, fun hl => ?_⟩
        obtain ⟨_, h0⟩ := mem_split hl
        rw [← h0] at ha
        generalize msgKey c.rbuf = k at ha
        cases ha
      | @fds c hst hon hd =>
        have hw := i1 c rfl hst
        refine ⟨fun c' hc' _ => by simp only [Option.some.injEq] at hc'; subst hc'; exact hw, fun hl => ?_⟩
        obtain ⟨_, h0⟩ := mem_split hl
        simp only [Entry.out.injEq] at h0
        rw [h0.2.1, hw]
      | @fdsEnd c hst hon hd hd' =>
        have hw := i1 c rfl hst
        refine ⟨fun c' hc' h0 => by simp only [Option.some.injEq] at hc'; subst hc'; simp [Css.Conn.again] at h0, fun hl => ?_⟩
        obtain ⟨_, h0⟩ := mem_split hl
        simp only [Entry.out.injEq] at h0
        rw [h0.2.1, hw]
      | @respFds c hst _ _ _ =>
        exact ⟨fun c' hc' _ => by simp only [Option.some.injEq] at hc'; subst hc'; rfl, fun hl => absurd (mem_split hl).2 (by simp)⟩
      | @block c hst =>
        refine ⟨fun c' hc' h0 => by simp only [Option.some.injEq] at hc'; subst hc'; simp at h0, fun hl => ?_⟩
        rcases split_cons hl with ⟨_, h0, _⟩ | ⟨_, _, h0⟩
        · cases h0
        · exact absurd (mem_split h0).2 (by simp)
      | close => exact ⟨fun c' hc' => by simp at hc', fun hl => absurd (mem_split hl).2 (by simp)⟩
      | @nofd c => exact ⟨fun c' hc' h0 => by simp only [Option.some.injEq] at hc'; subst hc'; exact i1 c rfl h0, fun hl => by simp at hl⟩
      | @recv c b l hst _ _ => exact ⟨fun c' hc' h0 => by simp only [Option.some.injEq] at hc'; subst hc'; simp [hst] at h0, fun hl => by simp at hl⟩
      | @recvAll c hst => exact ⟨fun c' hc' h0 => by simp only [Option.some.injEq] at hc'; subst hc'; simp at h0, fun hl => by simp at hl⟩
      | @data c b k hst _ _ _ => exact ⟨fun c' hc' h0 => by simp only [Option.some.injEq] at hc'; subst hc'; simp [hst] at h0, fun hl => absurd (mem_split hl).2 (by simp)⟩
      | _ => exact ⟨fun c' hc' h0 => by simp only [Option.some.injEq] at hc'; subst hc'; simp [Css.Conn.again] at h0, fun hl => absurd (mem_split hl).2 (by simp)⟩
    refine ⟨key.1, fun hl => ?_⟩
    rcases split_cases hl with ⟨c, hc⟩ | ⟨a', rfl, hl'⟩
    · exact i2 hc
    · exact key.2 hl'

theorem acts_turn {cfg s L} (h : Run cfg s L) : ∀ {a id e b k}, L = a ++ e :: b → Acts id k e → ∃ r, Turns id a (some r) ∧ msgKey r = k := by
  induction h with
  | init => intro a id e b k h; simp at h
  | @step s l ev s' l' h hrun he hs ih =>
    intro a id e b k hL hk
    rcases split_cases hL with ⟨c, hc⟩ | ⟨a1, rfl, hl'⟩
    · exact ih hc hk
    by_cases ha : ∃ p, ev = .accept p
    · obtain ⟨p, rfl⟩ := ha
      simp only [step] at hs
      split at hs <;> (obtain ⟨_, rfl⟩ := Css.one_ok hs)
      · have := (mem_split hl').2; subst this; cases hk
      · simp at hl'
    · refine ls_acts (Css.step_loc he (fun id c hc hst => ?_) (fun p h0 => ha ⟨p, h0⟩) hs id) ((Css.run_k h).a.conn id) hl' hk
      obtain ⟨_, hg⟩ := ((Css.run_k h).a.conn id).2 c hc
      have hg := Css.Good.notLast hg (Or.inl (by rw [hst]; decide))
      have := hg.shape
      simp only [Css.Shape, hst] at this
      exact this.2.2.2.2.2

theorem out_header {cfg s L} (h : Run cfg s L) (id : Nat) : Hd cfg (s.conn id) ∧ ∀ {a x f b c}, L = a ++ .out id b (x :: f) :: c → b = msg 65 cfg.fds.length 0 := by
  induction h with
  | init => exact ⟨fun c hc => by simp [Css.init] at hc, fun h => by simp at h⟩
  | @step s l ev s' l' h hrun he hs ih =>
    have key : Hd cfg (s'.conn id) ∧ ∀ {a x f b c}, l' = a ++ .out id b (x :: f) :: c → b = msg 65 cfg.fds.length 0 := by
      by_cases ha : ∃ p, ev = .accept p
      · obtain ⟨p, rfl⟩ := ha
        simp only [step] at hs
        split at hs <;> (obtain ⟨rfl, rfl⟩ := Css.one_ok hs)
        · refine ⟨fun c hc h0 => ?_, fun hl => absurd (mem_split hl).2 (by simp)⟩
          simp only [Css.put] at hc
          split at hc
          · simp only [Option.some.injEq] at hc; subst hc; simp at h0
          · exact ih.1 c hc h0
        · exact ⟨ih.1, fun hl => by simp at hl⟩
      · refine ls_out (Css.step_loc he (fun id c hc hst => ?_) (fun p h0 => ha ⟨p, h0⟩) hs id) ih.1
        obtain ⟨_, hg⟩ := ((Css.run_k h).a.conn id).2 c hc
        have hg := Css.Good.notLast hg (Or.inl (by rw [hst]; decide))
        have := hg.shape
        simp only [Css.Shape, hst] at this
        exact this.2.2.2.2.2
    refine ⟨key.1, fun hl => ?_⟩
    rcases split_cases hl with ⟨c, hc⟩ | ⟨a', rfl, hl'⟩
    · exact ih.2 hc
    · exact key.2 hl'

/-! ### Requests -/

/-- The requests of a connection. -/
def reqs (id : Nat) (l : List Entry) : List Bytes := l.flatMap fun e => match e with | .req i m => if i = id then [m] else [] | _ => []

theorem reqs_append {id l l'} : reqs id (l ++ l') = reqs id l ++ reqs id l' := by simp [reqs]

theorem mem_reqs {id l m} : m ∈ reqs id l ↔ .req id m ∈ l := by
  simp only [reqs, List.mem_flatMap]
  constructor
  · rintro ⟨e, he, hm⟩
    split at hm
    · next i m' =>
      split at hm
      · next hi => subst hi; rw [List.mem_singleton.mp hm]; exact he
      · simp at hm
    · simp at hm
  · intro h; exact ⟨_, h, by simp⟩

/-- What the daemon has taken is of the requests that were sent. -/
theorem reqs_prefix {cfg s L id} {xs : List Bytes} (h : Run cfg s L) (ht : taken id L <+: xs.flatten) (h8 : ∀ m ∈ xs, m.length = 8) (h67 : ∀ m ∈ xs, msgKey m ≠ 67) : reqs id L <+: xs := by
  suffices ∀ (n : Nat) (a b : List Entry), a.length = n → L = a ++ b → taken id a = (reqs id a).flatten ∧ reqs id a <+: xs from (this _ L [] rfl (by simp)).2
  intro n
  induction n with
  | zero => intro a b ha _; rw [List.length_eq_zero_iff.mp ha]; exact ⟨rfl, List.nil_prefix⟩
  | succ n ih =>
    intro a b ha hL
    rcases List.eq_nil_or_concat a with rfl | ⟨a, e, rfl⟩
    · cases ha
    rw [List.concat_eq_append] at ha hL ⊢
    have hL' : L = a ++ e :: b := by rw [hL]; simp
    obtain ⟨i1, i2⟩ := ih a (e :: b) (by simpa using ha) hL'
    rw [taken_append, reqs_append, List.flatten_append, i1]
    have hpre : taken id (a ++ [e]) <+: xs.flatten := by
      rw [hL, taken_append] at ht
      exact (List.prefix_append _ _).trans ht
    rw [taken_append, i1] at hpre
    by_cases hreq : ∃ m, e = .req id m
    · obtain ⟨m, rfl⟩ := hreq
      obtain ⟨_, hm, _⟩ := (((Css.run_k h).a.conn id).1 a _ b hL').req m rfl
      have e1 : taken id [.req id m] = m := by simp [taken]
      have e2 : reqs id [.req id m] = [m] := by simp [reqs]
      rw [e1] at hpre ⊢
      rw [e2]
      refine ⟨by simp, ?_⟩
      obtain ⟨ys, rfl⟩ := i2
      rw [List.flatten_append, List.prefix_append_right_inj] at hpre
      rw [List.prefix_append_right_inj]
      cases ys with
      | nil => rw [List.flatten_nil, List.prefix_nil] at hpre; rw [hpre] at hm; cases hm
      | cons y ys =>
        rw [List.flatten_cons] at hpre
        have : m = y := (Ctl.prefix_eq (b := []) (by simpa using hpre) (by rw [hm, h8 y (by simp)])).1
        rw [this]
        exact List.prefix_cons_inj _ |>.mpr List.nil_prefix
    · have hq : reqs id [e] = [] := by
        cases e with
        | req i m =>
          have : i ≠ id := fun h0 => hreq ⟨m, by rw [h0]⟩
          simp [reqs, this]
        | _ => rfl
      have htk : taken id [e] = [] := by
        cases e with
        | req i m =>
          have : i ≠ id := fun h0 => hreq ⟨m, by rw [h0]⟩
          simp [taken, this]
        | chal i k d =>
          by_cases hi : i = id
          · subst hi
            obtain ⟨r, hr, hk⟩ := acts_turn h hL' Acts.chal
            obtain ⟨x, y, rfl, _⟩ := hr.last r rfl
            exact absurd hk (h67 r (i2.subset (mem_reqs.mpr (by simp))))
          · simp [taken, hi]
        | _ => rfl
      rw [htk, hq]
      simpa using i2

/-- Answers with descriptors are for such requests, one by one. -/
theorem fds_reqs {cfg s L id} (h : Run cfg s L) : ∀ {a b}, L = a ++ b →
    (∃ n, owedFds cfg id a = (List.replicate n cfg.fds).flatten ∧ (∀ r, Turns id a (some r) → msgKey r = 84 → n + 1 ≤ (reqs id a).countP (msgKey · = 84)) ∧ n ≤ (reqs id a).countP (msgKey · = 84)) := by
  suffices ∀ (k : Nat) (a b : List Entry), a.length = k → L = a ++ b →
    (∃ n, owedFds cfg id a = (List.replicate n cfg.fds).flatten ∧ (∀ r, Turns id a (some r) → msgKey r = 84 → n + 1 ≤ (reqs id a).countP (msgKey · = 84)) ∧ n ≤ (reqs id a).countP (msgKey · = 84)) from fun {a b} hL => this _ a b rfl hL
  intro k
  induction k with
  | zero =>
    intro a b ha _
    rw [List.length_eq_zero_iff.mp ha]
    refine ⟨0, rfl, fun r hr => ?_, Nat.zero_le _⟩
    have := hr.unique Turns.nil
    cases this
  | succ k ih =>
    intro a b ha hL
    rcases List.eq_nil_or_concat a with rfl | ⟨a, e, rfl⟩
    · cases ha
    rw [List.concat_eq_append] at ha hL ⊢
    have hL' : L = a ++ e :: b := by rw [hL]; simp
    obtain ⟨n, i1, i2, i3⟩ := ih a (e :: b) (by simpa using ha) hL'
    have hap : owedFds cfg id (a ++ [e]) = owedFds cfg id a ++ owedFds cfg id [e] := by simp [owedFds]
    rw [hap, reqs_append, List.countP_append]
    by_cases hresp : ∃ m d f, e = .resp id m d f
    · obtain ⟨m, d, f, rfl⟩ := hresp
      obtain ⟨r, hr⟩ := (((Css.run_k h).a.conn id).1 a _ b hL').resp m d f rfl
      have hw := Ctl.resp_why h hL' hr
      have hno : ∀ r', ¬ Turns id (a ++ [.resp id m d f]) (some r') := fun r' h' => by
        have := h'.unique (Turns.resp (m := m) (d := d) (f := f) hr); cases this
      cases f with
      | false => exact ⟨n, by rw [i1]; simp [owedFds], fun r' h' => absurd h' (hno r'), by simp only [reqs, List.flatMap_cons, List.flatMap_nil, List.append_nil, List.countP_nil]; exact i3⟩
      | true =>
        have hk : msgKey r = 84 := Decidable.byContradiction fun h0 => by have := hw.fds h0; cases this
        refine ⟨n + 1, ?_, fun r' h' => absurd h' (hno r'), Nat.le_trans (i2 r hr hk) (Nat.le_add_right _ _)⟩
        rw [i1, List.replicate_succ', List.flatten_append]
        simp [owedFds]
    · have hz : owedFds cfg id [e] = [] := by
        cases e with
        | resp i m d f =>
          have : i ≠ id := fun h0 => hresp ⟨m, d, f, by rw [h0]⟩
          simp [owedFds, this]
        | _ => rfl
      rw [hz, List.append_nil]
      refine ⟨n, i1, fun r hr hk => ?_, Nat.le_trans i3 (Nat.le_add_right _ _)⟩
      rcases hr.inv_snoc with ⟨m, rfl, h0, _⟩ | ⟨_, m, d, f, rfl, _⟩ | ⟨_, hr'⟩
      · simp only [Option.some.injEq] at h0
        subst h0
        have : (reqs id [.req id r]).countP (msgKey · = 84) = 1 := by simp [reqs, hk]
        omega
      · exact absurd ⟨m, d, f, rfl⟩ hresp
      · exact Nat.le_trans (i2 r hr' hk) (Nat.le_add_right _ _)

theorem nodup_count {xs : List Bytes} {k : UInt8} (h : (xs.map msgKey).Nodup) : xs.countP (msgKey · = k) ≤ 1 := by
  have : xs.countP (msgKey · = k) = (xs.map msgKey).count k := by
    rw [List.count, List.countP_map]
    congr 1
  rw [this]
  exact List.nodup_iff_count.mp h k

/-! ### Single effects -/

theorem mem_bind {α β} {x : Boot α} {f : α → Boot β} {y : Eff} (h : y ∈ (Boot.bind x f).1) : y ∈ x.1 ∨ ∃ a, x.2 = some a ∧ y ∈ (f a).1 := by
  unfold Boot.bind at h
  split at h
  · exact Or.inl h
  · next a ha =>
    rcases List.mem_append.mp h with h | h
    · exact Or.inl h
    · exact Or.inr ⟨a, ha, h⟩

theorem bind_some {α β} {x : Boot α} {f : α → Boot β} {b} (h : (Boot.bind x f).2 = some b) : ∃ a, x.2 = some a ∧ (f a).2 = some b := by
  unfold Boot.bind at h
  split at h
  · cases h
  · next a ha => exact ⟨a, ha, h⟩

theorem mem_part {ok e} {y : Eff} (h : y ∈ (part ok e).1) : y ∈ e ∨ y = .exit 42 := by
  cases ok with
  | true => exact Or.inl h
  | false => exact Or.inr (List.mem_singleton.mp h)

theorem mem_die {α} {c} {y : Eff} (h : y ∈ (die c : Boot α).1) : y = .exit c := List.mem_singleton.mp h

theorem mem_fail {α} {c c' : Ctl.Chan} {y : Eff} (h : y ∈ (Boot.bind ((said c c', some ()) : Boot Unit) fun _ => (die 42 : Boot α)).1) : (∃ x, y = .say x) ∨ y = .exit 42 := by
  rcases mem_bind h with h | ⟨_, _, h⟩
  · exact Or.inl (mem_said h)
  · exact Or.inr (mem_die h)

/-- The listeners that are bound anew. -/
def fresh (ts : List Thread) : List (Bool × Addr) := (ts.filter fun t => t.sock = none).map fun t => (t.udp, t.addr)

/-- What single effects tell. -/
def Tells (e : Env) (y : Eff) : Prop :=
  (y = .exit 0 → e.lock1 = .busy ∧ e.idem = true) ∧
  (∀ lk ct ts c, y = .took lk ct ts c → e.lock1 = .busy ∧ e.lock2 = .busy ∧ ∃ fds, getFds none [] e.msgs = some (lk :: ct :: fds) ∧ importFds e.kind e.threads fds = (ts, c)) ∧
  (∀ new, y = .bound new → ((e.lock1 = .got ∨ e.lock2 = .got) ∧ new = fresh e.threads) ∨
    e.lock1 = .busy ∧ e.lock2 = .busy ∧ ∃ lk ct fds, getFds none [] e.msgs = some (lk :: ct :: fds) ∧ new = fresh (importFds e.kind e.threads fds).1)

theorem tells_say {e y} (h : (∃ x, y = .say x) ∨ y = .exit 42) : Tells e y := by
  rcases h with ⟨x, rfl⟩ | rfl <;> exact ⟨by simp, by simp, by simp⟩

theorem tells_of {e y} (h1 : y ≠ .exit 0) (h2 : ∀ lk ct ts c, y ≠ .took lk ct ts c) (h3 : ∀ n, y ≠ .bound n) : Tells e y :=
  ⟨fun h => absurd h h1, fun lk ct ts c h => absurd h (h2 lk ct ts c), fun n h => absurd h (h3 n)⟩

theorem sockets_tells {e y} (h : y ∈ (sockets e).1) : Tells e y := by
  unfold sockets at h
  rcases mem_bind h with h | ⟨_, _, h⟩
  · rw [List.mem_singleton.mp h]; exact tells_of (by simp) (by simp) (by simp)
  rcases mem_bind h with h | ⟨_, _, h⟩
  · rcases mem_part h with h | h
    · rw [List.mem_singleton.mp h]; exact tells_of (by simp) (by simp) (by simp)
    · exact tells_say (Or.inr h)
  · rcases mem_part h with h | h
    · rw [List.mem_singleton.mp h]; exact tells_of (by simp) (by simp) (by simp)
    · exact tells_say (Or.inr h)

theorem first_tells {e y} (h : y ∈ (first e).1) : Tells e y := by
  unfold first at h
  cases hl : e.lock1 with
  | err => rw [hl] at h; exact tells_say (Or.inr (mem_die h))
  | busy => rw [hl] at h; rw [List.mem_singleton.mp h]; exact tells_of (by simp) (by simp) (by simp)
  | got =>
    rw [hl] at h
    rcases mem_bind h with h | ⟨_, _, h⟩
    · exact sockets_tells h
    · simp [Boot.pure] at h
theorem first_some {e mine} (h : (first e).2 = some mine) : (mine = true ∧ e.lock1 = .got) ∨ mine = false ∧ e.lock1 = .busy := by
  unfold first at h
  cases hl : e.lock1 with
  | err => rw [hl] at h; cases h
  | busy => rw [hl] at h; simp only [Option.some.injEq] at h; exact Or.inr ⟨h.symm, rfl⟩
  | got =>
    rw [hl] at h
    obtain ⟨_, _, h⟩ := bind_some h
    simp only [Boot.pure, Option.some.injEq] at h
    exact Or.inl ⟨h.symm, rfl⟩

theorem join_tells {e mine y} (hm : mine = false → e.lock1 = .busy) (h : y ∈ (join e mine).1) : Tells e y := by
  unfold join at h
  cases mine with
  | true => simp [Boot.pure] at h
  | false =>
    rw [if_neg (by simp)] at h
    cases hi : e.idem with
    | true => rw [hi, if_pos rfl] at h; rw [mem_die h]; exact ⟨fun _ => ⟨hm rfl, hi⟩, by simp, by simp⟩
    | false =>
      rw [hi, if_neg (by simp)] at h
      cases hr : e.replace with
      | false => rw [hr, if_pos rfl] at h; exact tells_say (Or.inr (mem_die h))
      | true =>
        rw [hr, if_neg (by simp)] at h
        rcases mem_bind h with h | ⟨x, _, h⟩
        · unfold connect at h
          cases hc : e.conn with
          | none => rw [hc] at h; exact tells_say (Or.inr (mem_die h))
          | some c =>
            rw [hc] at h
            rcases ht : Ctl.txn c (msg 73 e.version 0) with ⟨r, c'⟩
            simp only [ht] at h
            cases r with
            | ok m => exact tells_say (Or.inl (mem_said h))
            | _ => exact tells_say (mem_fail h)
        rcases mem_bind h with h | ⟨_, _, h⟩
        · unfold tak1 at h
          cases hc : modern x.1 with
          | false => rw [hc, if_neg (by simp)] at h; simp [Boot.pure] at h
          | true =>
            rw [hc, if_pos rfl] at h
            rcases ht : Ctl.txn x.2 (msg 49 0 e.pid) with ⟨r, c'⟩
            simp only [ht] at h
            cases r with
            | ok m => exact tells_say (Or.inl (mem_said h))
            | _ => exact tells_say (mem_fail h)
        · simp [Boot.pure] at h

theorem join_some {e mine old} (h : (join e mine).2 = some old) : mine = old.isNone := by
  unfold join at h
  cases mine with
  | true => rw [if_pos rfl] at h; simp only [Boot.pure, Option.some.injEq] at h; rw [← h]; rfl
  | false =>
    rw [if_neg (by simp)] at h
    cases hi : e.idem with
    | true => rw [hi, if_pos rfl] at h; cases h
    | false =>
      rw [hi, if_neg (by simp)] at h
      cases hr : e.replace with
      | false => rw [hr, if_pos rfl] at h; cases h
      | true =>
        rw [hr, if_neg (by simp)] at h
        obtain ⟨_, _, h⟩ := bind_some h
        obtain ⟨_, _, h⟩ := bind_some h
        simp only [Boot.pure, Option.some.injEq] at h
        rw [← h]; rfl

theorem challenge_tells {e old y} (h : y ∈ (challenge e old).1) : Tells e y := by
  cases old with
  | none => simp [challenge, Boot.pure] at h
  | some x =>
    simp only [challenge] at h
    rcases mem_bind h with h | ⟨_, _, h⟩
    · unfold tak2 at h
      cases hc : modern x.1 with
      | false => rw [hc, if_neg (by simp)] at h; simp [Boot.pure] at h
      | true =>
        rw [hc, if_pos rfl] at h
        rcases ht : Ctl.txnGet x.2 (msg 50 0 e.pid) with ⟨r, c'⟩
        simp only [ht] at h
        cases r with
        | ok m =>
          rcases mem_bind h with h | ⟨_, _, h⟩
          · exact tells_say (Or.inl (mem_said h))
          rcases mem_bind h with h | ⟨_, _, h⟩
          · rcases mem_part h with h | h
            · rw [List.mem_singleton.mp h]; exact tells_of (by simp) (by simp) (by simp)
            · exact tells_say (Or.inr h)
          · simp [Boot.pure] at h
        | _ => exact tells_say (mem_fail h)
    · simp [Boot.pure] at h

theorem challenge_some {e old o} (h : (challenge e old).2 = some o) : o.isNone = old.isNone := by
  cases old with
  | none => simp only [challenge, Boot.pure, Option.some.injEq] at h; rw [← h]; rfl
  | some x =>
    obtain ⟨_, _, h⟩ := bind_some h
    simp only [Boot.pure, Option.some.injEq] at h
    rw [← h]; rfl

/-- Whose sockets the threads have. -/
def Whose (e : Env) (ts : List Thread) : Prop :=
  ((e.lock1 = .got ∨ e.lock2 = .got) ∧ ts = e.threads) ∨
    e.lock1 = .busy ∧ e.lock2 = .busy ∧ ∃ lk ct fds, getFds none [] e.msgs = some (lk :: ct :: fds) ∧ ts = (importFds e.kind e.threads fds).1

theorem replace_tells {e old} (hl : (old.isNone = true → e.lock1 = .got) ∧ (old.isNone = false → e.lock1 = .busy)) :
    (∀ y ∈ (replaceOld e old).1, Tells e y) ∧ ∀ x, (replaceOld e old).2 = some x → Whose e x.2 := by
  cases old with
  | none =>
    refine ⟨by simp [replaceOld, Boot.pure], fun x hx => ?_⟩
    simp only [replaceOld, Boot.pure, Option.some.injEq] at hx
    rw [← hx]; exact Or.inl ⟨Or.inl (hl.1 rfl), rfl⟩
  | some c =>
    have hb := hl.2 rfl
    simp only [replaceOld]
    unfold second
    cases h2 : e.lock2 with
    | err => exact ⟨fun y h => tells_say (Or.inr (mem_die h)), fun x h => by cases h⟩
    | got =>
      refine ⟨fun y h => ?_, fun x h => ?_⟩
      · rcases mem_bind h with h | ⟨_, _, h⟩
        · exact sockets_tells h
        · simp [Boot.pure] at h
      · obtain ⟨_, _, h⟩ := bind_some h
        simp only [Boot.pure, Option.some.injEq] at h
        rw [← h]; exact Or.inl ⟨Or.inr h2, rfl⟩
    | busy =>
      rcases ht : Ctl.send c (msg 84 0 e.pid) with ⟨r, c'⟩
      dsimp only
      cases r with
      | err => exact ⟨fun y h => tells_say (mem_fail h), fun x h => by obtain ⟨_, _, h⟩ := bind_some h; cases h⟩
      | pipe => exact ⟨fun y h => tells_say (mem_fail h), fun x h => by obtain ⟨_, _, h⟩ := bind_some h; cases h⟩
      | n k =>
        dsimp only
        by_cases hk : k ≠ 8
        · rw [if_pos hk]
          exact ⟨fun y h => tells_say (mem_fail h), fun x h => by obtain ⟨_, _, h⟩ := bind_some h; cases h⟩
        rw [if_neg hk]
        rcases hg : getFds none [] e.msgs with _ | _ | ⟨lk, _ | ⟨ct, fds⟩⟩
        · exact ⟨fun y h => tells_say (mem_fail h), fun x h => by obtain ⟨_, _, h⟩ := bind_some h; cases h⟩
        · exact ⟨fun y h => tells_say (mem_fail h), fun x h => by obtain ⟨_, _, h⟩ := bind_some h; cases h⟩
        · exact ⟨fun y h => tells_say (mem_fail h), fun x h => by obtain ⟨_, _, h⟩ := bind_some h; cases h⟩
        · refine ⟨fun y h => ?_, fun x h => ?_⟩
          · rcases mem_bind h with h | ⟨_, _, h⟩
            · exact tells_say (Or.inl (mem_said h))
            rcases mem_bind h with h | ⟨_, _, h⟩
            · rw [List.mem_singleton.mp h]
              refine ⟨by simp, fun lk' ct' ts c he => ?_, by simp⟩
              simp only [Eff.took.injEq] at he
              obtain ⟨rfl, rfl, rfl, rfl⟩ := he
              exact ⟨hb, h2, fds, hg, rfl⟩
            rcases mem_bind h with h | ⟨_, _, h⟩
            · rcases mem_part h with h | h
              · rw [List.mem_singleton.mp h]; exact tells_of (by simp) (by simp) (by simp)
              · exact tells_say (Or.inr h)
            · simp [Boot.pure] at h
          · obtain ⟨_, _, h⟩ := bind_some h
            obtain ⟨_, _, h⟩ := bind_some h
            obtain ⟨_, _, h⟩ := bind_some h
            simp only [Boot.pure, Option.some.injEq] at h
            rw [← h]; exact Or.inr ⟨hb, h2, lk, ct, fds, hg, rfl⟩

theorem finish_tells {e c ts y} (hw : Whose e ts) (h : y ∈ (finish e c ts).1) : Tells e y := by
  unfold finish at h
  rcases mem_bind h with h | ⟨_, _, h⟩
  · rcases mem_part h with h | h
    · rw [List.mem_singleton.mp h]
      refine ⟨by simp, by simp, fun new hn => ?_⟩
      simp only [Eff.bound.injEq] at hn
      rcases hw with ⟨h1, rfl⟩ | ⟨h1, h2, lk, ct, fds, h3, rfl⟩
      · exact Or.inl ⟨h1, hn.symm⟩
      · exact Or.inr ⟨h1, h2, lk, ct, fds, h3, hn.symm⟩
    · exact tells_say (Or.inr h)
  rcases mem_bind h with h | ⟨_, _, h⟩
  · rcases mem_part h with h | h
    · simp only [List.mem_cons, List.not_mem_nil, or_false] at h
      rcases h with rfl | rfl <;> exact tells_of (by simp) (by simp) (by simp)
    · exact tells_say (Or.inr h)
  · cases c with
    | none => rw [List.mem_singleton.mp h]; exact tells_of (by simp) (by simp) (by simp)
    | some c =>
      rcases List.mem_append.mp h with h | h
      · exact tells_say (Or.inl (mem_said h))
      · rw [List.mem_singleton.mp h]; exact tells_of (by simp) (by simp) (by simp)

theorem main_tells {e y} (hc : e.check = false) (h : y ∈ (main e).1) : Tells e y := by
  have hpart : ∀ {ok l}, (∀ x ∈ l, Tells e x) → y ∈ (part ok l).1 → Tells e y := by
    intro ok l hl h
    rcases mem_part h with h | h
    · exact hl y h
    · exact tells_say (Or.inr h)
  have hone : ∀ {x : Eff}, x = .conf ∨ x = .zones ∨ x = .monitored ∨ x = .prerun → ∀ z ∈ [x], Tells e z := by
    intro x hx z hz
    rw [List.mem_singleton.mp hz]
    rcases hx with rfl | rfl | rfl | rfl <;> exact tells_of (by simp) (by simp) (by simp)
  unfold main at h
  rcases mem_bind h with h | ⟨_, _, h⟩
  · by_cases hu : e.replace = true ∧ e.idem = true
    · rw [if_pos hu] at h; rw [mem_die h]; exact tells_of (by simp) (by simp) (by simp)
    · rw [if_neg hu] at h; simp [Boot.pure] at h
  rcases mem_bind h with h | ⟨_, _, h⟩
  · exact hpart (by simp) h
  rw [hc, if_neg (by simp)] at h
  rcases mem_bind h with h | ⟨mine, hmine, h⟩
  · exact first_tells h
  have hf := first_some hmine
  rcases mem_bind h with h | ⟨old, hold, h⟩
  · exact join_tells (fun h0 => by rcases hf with ⟨h1, _⟩ | h1; rw [h0] at h1; cases h1; exact h1.2) h
  have hj := join_some hold
  rcases mem_bind h with h | ⟨_, _, h⟩
  · exact hpart (hone (by simp)) h
  rcases mem_bind h with h | ⟨_, _, h⟩
  · exact hpart (hone (by simp)) h
  rcases mem_bind h with h | ⟨_, _, h⟩
  · exact hpart (by simp) h
  rcases mem_bind h with h | ⟨_, _, h⟩
  · exact hpart (hone (by simp)) h
  rcases mem_bind h with h | ⟨old', hold', h⟩
  · exact challenge_tells h
  have hch := challenge_some hold'
  rcases mem_bind h with h | ⟨_, _, h⟩
  · exact hpart (hone (by simp)) h
  have hr := replace_tells (e := e) (old := old') (by
    rw [hch, ← hj]
    rcases hf with ⟨h1, h2⟩ | ⟨h1, h2⟩ <;> simp [h1, h2])
  rcases mem_bind h with h | ⟨x, hx, h⟩
  · exact hr.1 y h
  exact finish_tells (hr.2 x hx) h

end Gdnsd.Take
