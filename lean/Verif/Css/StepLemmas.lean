/-
Every callback keeps the invariants.
-/
import Verif.Css.GlobLemmas
namespace Gdnsd.Css
open CssSpec

/-- Between callbacks: the invariant of the daemon holds until the loop ends. -/
structure K (cfg : Cfg) (s : Css) (l : List Entry) : Prop where
  a : AInv cfg s l
  f : Every (FineB cfg) l
  b : s.running = true → BInv cfg none s l

theorem J.k {cfg s l} (h : J cfg none s l) : K cfg s l := ⟨h.a, h.f, fun _ => h.b⟩

theorem _root_.Gdnsd.CssSpec.Turns.tail {id r o} {b a : List Entry} (h : Turns id (a ++ .req id r :: b) o) (hb : ∀ e ∈ b, turn e ≠ some id) : o = some r := by
  induction hn : b.length generalizing b o with
  | zero =>
    have := List.length_eq_zero_iff.mp hn
    subst this
    rcases h.inv_snoc with ⟨m, he, rfl, _⟩ | ⟨_, _, _, _, he, _⟩ | ⟨he, _⟩
    · simp only [Entry.req.injEq, true_and] at he; rw [he]
    · cases he
    · exact absurd rfl he
  | succ n ih =>
    rcases List.eq_nil_or_concat b with rfl | ⟨b', x, rfl⟩
    · cases hn
    rw [List.concat_eq_append, ← List.cons_append, ← List.append_assoc] at h
    have hx := hb x (by simp)
    rcases h.inv_snoc with ⟨m, rfl, _⟩ | ⟨_, _, _, _, rfl, _⟩ | ⟨_, h⟩
    · exact absurd rfl hx
    · exact absurd rfl hx
    · exact ih h (fun e he => hb e (by simp [he])) (by simpa using hn)

theorem may_ctl {cfg s l id c} (h : AInv cfg s l) (hc : s.conn id = some c) (hp : Permitted c) (hk : msgKey c.rbuf = 90) : May l id Perm.ctl := by
  obtain ⟨ha, _⟩ := (h.conn id).2 c hc
  refine ⟨c.perm, ha, fun p hp' => ?_⟩
  have := hp p hp'
  rw [hk] at this
  simpa [allowed] using this

/-- What does not depend on the queues. -/
structure BCore (cfg : Cfg) (s : Css) (l : List Entry) : Prop where
  pid : s.pid = current l
  timer1 : s.pid ≠ 0 → s.timer = true
  timer0 : s.timer = true → s.pid = 0 → ∃ id, .takeover id 0 ∈ l
  ctl : ∀ k, s.ctl = some k → s.pid ≠ 0 ∧ ∃ c, s.conn k = some c ∧ c.st = .waiting ∧ msgKey c.rbuf = 82
  dmn : ∀ k, s.dmn = some k → (∃ c, s.conn k = some c) ∧ s.ctl ≠ some k ∧ (s.pid ≠ 0 → Taker l k)
  fds : ∀ k c, s.conn k = some c → c.st = .writingFds → s.dmn = some k ∧ s.pid ≠ 0
  thr : s.tid + 1 = s.threads.length
  thr0 : ∃ x, s.threads[0]? = some x ∧ x.joined = true
  load : ∀ t, .load t ∈ l ↔ 1 ≤ t ∧ t < s.threads.length
  loadedLt : ∀ t f, .loaded t f ∈ l → t < s.threads.length
  joined : ∀ t x, 1 ≤ t → s.threads[t]? = some x → (x.joined = true ↔ ∃ f, .loaded t f ∈ l)
  acc : s.accepting = false → s.pid ≠ 0

theorem BInv.core {cfg X s l} (h : BInv cfg X s l) : BCore cfg s l :=
  ⟨h.pid, h.timer1, h.timer0, fun k hk => (h.ctl k hk).2, h.dmn, h.fds, h.thr, h.thr0, h.load, h.loadedLt, h.joined, h.acc⟩

structure J0 (cfg : Cfg) (s : Css) (l : List Entry) : Prop where
  a : AInv cfg s l
  f : Every (FineB cfg) l
  b : BCore cfg s l

theorem J.core {cfg X s l} (h : J cfg X s l) : J0 cfg s l := ⟨h.a, h.f, h.b.core⟩

/-- A load is started for the clients `Q`. -/
theorem J0.load {cfg s l Q s' l'} (h : J0 cfg s l) (hp : s.pid = 0) (hQ : Q ≠ []) (hn : Q.Nodup)
    (hq : ∀ id ∈ Q, ∃ c, s.conn id = some c ∧ c.st = .waiting ∧ msgKey c.rbuf = 90 ∧ Permitted c)
    (hw : ∀ k c, s.conn k = some c → c.st = .waiting → k ∈ Q ∨ s.ctl = some k)
    (hr : Css.load { s with active := Q, queued := [] } = .ok (s', l')) : J cfg none s' (l ++ l') := by
  have hl := (load_loc (cfg := cfg) hr).conn (s := s) rfl
  obtain ⟨rfl, rfl⟩ := load_ok hr
  have hmem : ∀ id c, s.conn id = some c → c.st = .waiting → Pending (l ++ [.load s.threads.length]) id s.threads.length := by
    intro id c hc hw
    obtain ⟨a, b, rfl, hb⟩ := (h.a.turns hc hw).last _ rfl
    exact ⟨a, c.rbuf, b, [], by simp, by simpa using hb⟩
  refine ⟨h.a.loc hl rfl, ?_, ?_⟩
  · refine h.f.snoc ?_
    have hd : (∃ id r, Turns id l (some r) ∧ msgKey r = 90 ∧ May l id Perm.ctl) ∧ .load s.threads.length ∉ l ∧ current l = 0 := by
      refine ⟨?_, ?_, by rw [← h.b.pid]; exact hp⟩
      · cases Q with
        | nil => exact absurd rfl hQ
        | cons id Q => obtain ⟨c, h1, h2, h3, h4⟩ := hq id (by simp); exact ⟨id, c.rbuf, h.a.turns h1 h2, h3, may_ctl h.a h1 h4 h3⟩
      · intro hm; have := (h.b.load _).mp hm; omega
    constructor <;> intros <;> simp_all
  · refine ⟨?_, ?_, by simpa using hn, fun h => absurd h hQ, fun h0 => absurd hp h0, fun h0 => absurd hp h0, ?_, ?_, ?_, h.b.fds, ?_, by simp, ?_, ?_, ?_, ?_, fun _ => ⟨⟨false, false⟩, by simp, rfl, Or.inr rfl⟩, ?_, h.b.acc⟩
    · show s.pid = _
      rw [current_snoc, h.b.pid]; rfl
    · intro id hid
      exact ⟨by simp, hq id (by simpa using hid)⟩
    · intro h1 h2
      obtain ⟨id, hid⟩ := h.b.timer0 h1 h2
      exact ⟨id, by simp [hid]⟩
    · intro k hk
      exact absurd hp (h.b.ctl k hk).1
    · intro k hk
      obtain ⟨h1, h2, h3⟩ := h.b.dmn k hk
      exact ⟨h1, h2, fun h0 => absurd hp h0⟩
    · intro k c hk hst
      rcases hw k c hk hst with h1 | h1
      · exact Or.inr (Or.inl (by simpa using h1))
      · exact Or.inr (Or.inr h1)
    · obtain ⟨x, h1, h2⟩ := h.b.thr0
      refine ⟨x, ?_, h2⟩
      show (s.threads ++ _)[0]? = _
      rw [List.getElem?_append_left (by have := h.b.thr; omega)]; exact h1
    · intro t
      rw [List.mem_append, List.mem_singleton, h.b.load t]
      have := h.b.thr
      simp only [Entry.load.injEq, List.length_append, List.length_singleton]
      omega
    · intro t f hf
      simp only [List.mem_append, List.mem_singleton, reduceCtorEq, or_false] at hf
      have := h.b.loadedLt t f hf
      simp only [List.length_append, List.length_singleton]; omega
    · intro t x ht hx
      simp only [List.mem_append, List.mem_singleton, reduceCtorEq, or_false]
      change (s.threads ++ _)[t]? = _ at hx
      by_cases hlt : t < s.threads.length
      · rw [List.getElem?_append_left hlt] at hx
        exact h.b.joined t x ht hx
      · rw [List.getElem?_append_right (by omega)] at hx
        have h0 : t - s.threads.length = 0 := by
          apply Classical.byContradiction; intro h0
          rw [List.getElem?_eq_none (by simp; omega)] at hx; cases hx
        rw [h0] at hx
        simp only [List.getElem?_cons_zero, Option.some.injEq] at hx
        subst hx
        simp only [Bool.false_eq_true, false_iff]
        rintro ⟨f, hf⟩
        exact hlt (h.b.loadedLt t f hf)
    · intro id hid
      obtain ⟨c, h1, h2, _⟩ := hq id hid
      exact hmem id c h1 h2

theorem J.zrel {cfg s l id c s' l'} (h : J cfg (some id) s l) (hc : s.conn id = some c) (hw : c.st = .waiting) (hk : msgKey c.rbuf = 90) (hp : Permitted c)
    (hr : reqZrel cfg s id = .ok (s', l')) : J cfg none s' (l ++ l') := by
  unfold reqZrel at hr
  split at hr
  · exact h.answer hc (fun _ => by decide) hr
  · next hpid =>
    have hpid : s.pid = 0 := Classical.not_not.mp hpid
    dsimp only at hr
    obtain ⟨hq, _⟩ := h.b.notQ hc (Or.inr rfl)
    have hwt : ∀ k c, s.conn k = some c → c.st = .waiting → k = id ∨ k ∈ s.active ++ s.queued ∨ s.ctl = some k := by
      intro k c hk hst
      rcases h.b.waiting k c hk hst with h1 | h1
      · left; simpa using h1.symm
      · exact Or.inr h1
    split at hr
    · next hact =>
      have hque := h.b.act hact
      rw [hact, hque] at hr
      refine J0.load (Q := [id]) h.core hpid (by simp) (by simp) ?_ ?_ hr
      · simpa using ⟨c, hc, hw, hk, hp⟩
      · intro k c' h1 h2
        rcases hwt k c' h1 h2 with h3 | h3 | h3
        · simp [h3]
        · rw [hact, hque] at h3; cases h3
        · exact Or.inr h3
    · next hact =>
      obtain ⟨rfl, rfl⟩ := one_ok hr
      rw [List.append_nil]
      refine ⟨⟨h.a.conn, h.a.fresh⟩, h.f, ⟨h.b.pid, ?_, ?_, fun h0 => absurd h0 hact, fun h0 => absurd hpid h0, h.b.timer1, h.b.timer0, ?_, h.b.dmn, h.b.fds, ?_, h.b.thr, h.b.thr0, h.b.load, h.b.loadedLt, h.b.joined, h.b.actT, h.b.actL, h.b.acc⟩⟩
      · intro i hi
        simp only [← List.append_assoc] at hi
        rw [List.mem_append, List.mem_singleton] at hi
        rcases hi with hi | rfl
        · exact ⟨by simp, (h.b.que i hi).2⟩
        · exact ⟨by simp, c, hc, hw, hk, hp⟩
      · simp only [← List.append_assoc]
        rw [List.nodup_append]
        exact ⟨h.b.nodup, by simp, by intro a ha b hb; simp only [List.mem_singleton] at hb; subst hb; rintro rfl; exact hq ha⟩
      · intro k hk
        obtain ⟨_, h1⟩ := h.b.ctl k hk
        exact ⟨by simp, h1⟩
      · intro k c' h1 h2
        rcases hwt k c' h1 h2 with h3 | h3 | h3
        · subst h3; simp
        · refine Or.inr (Or.inl ?_); simp only [← List.append_assoc]; rw [List.mem_append]; exact Or.inl h3
        · exact Or.inr (Or.inr h3)

/-! ### Answers to the queues -/

theorem Taker.mono {l k} {l' : List Entry} (h : Taker l k) (h' : ∀ e ∈ l', ∃ i m, e = .resp i m [] false) : Taker (l ++ l') k := by
  induction l' generalizing l with
  | nil => simpa using h
  | cons e l' ih =>
    rw [show l ++ e :: l' = (l ++ [e]) ++ l' by simp]
    obtain ⟨i, m, rfl⟩ := h' e (by simp)
    exact ih (Taker.snoc h (by simp) (by simp) (by simp) (by simp)) fun e' he' => h' e' (by simp [he'])

theorem current_resps {l} {l' : List Entry} (h' : ∀ e ∈ l', ∃ i m, e = .resp i m [] false) : current (l ++ l') = current l := by
  induction l' generalizing l with
  | nil => simp
  | cons e l' ih =>
    rw [show l ++ e :: l' = (l ++ [e]) ++ l' by simp, ih fun e' he' => h' e' (by simp [he']), current_snoc]
    obtain ⟨i, m, rfl⟩ := h' e (by simp)
    rfl

theorem fine_latr {cfg} {ids : List Nat} {l} (h : Every (FineB cfg) l) : Every (FineB cfg) (l ++ ids.map fun id => .resp id (msg 76 0 0) [] false) := by
  induction ids generalizing l with
  | nil => simpa using h
  | cons id ids ih =>
    rw [List.map_cons, show ∀ (e : Entry) l', l ++ e :: l' = (l ++ [e]) ++ l' by simp]
    exact ih (h.snoc (FineB.resp fun r _ _ h65 => absurd h65 (by decide)))

theorem FineB.taken {cfg a id p} (h : current a = 0 ∨ current a = p) : FineB cfg a (.takeover id p) := by
  constructor <;> intros <;> simp_all

theorem J.latr {cfg s l id c p ct dm X' e s' l'} (h : J cfg (some id) s l) (hc : s.conn id = some c) (hw : c.st = .waiting) (hp : Permitted c) (hdm : s.dmn = none)
    (he : (∃ n : Int, e = .spawn id n ∧ 0 < n ∧ p = n.toNat ∧ ct = some id ∧ dm = none ∧ X' = none ∧ s.pid = 0 ∧ msgKey c.rbuf = 82) ∨
      (e = .takeover id p ∧ ct = s.ctl ∧ dm = some id ∧ X' = some id ∧ (s.pid = 0 ∨ s.pid = p) ∧ msgKey c.rbuf = 49))
    (hr : latrAll cfg { s with pid := p, ctl := ct, dmn := dm, timer := true } = .ok (s', l')) : J cfg X' s' (l ++ e :: l') ∧ s'.conn id = some c := by
  obtain ⟨h1, h2, h3, h4, h5⟩ := latrAll_ok hr
  dsimp only at h2 h3 h4 h5
  obtain ⟨hq, hctl⟩ := h.b.notQ hc (Or.inr rfl)
  have hcid : s'.conn id = some c := by rw [h4 id hq, hc]
  have hl : Loc cfg s (e :: l') s' := by
    refine Loc.trans (l := [e]) (s' := { s with pid := p, ctl := ct, dmn := dm, timer := true }) ?_ h1
    rcases he with ⟨n, rfl, _, _, _, _, _, _, hk⟩ | ⟨rfl, _, _, _, _, hk⟩
    · exact Loc.act hc hw hp (hk ▸ Acts.spawn) rfl rfl
    · exact Loc.act hc hw hp (hk ▸ Acts.takeover) rfl rfl
  have hresp : ∀ e' ∈ l', ∃ i m, e' = .resp i m [] false := by
    rw [h3]; intro e' he'; obtain ⟨i, _, rfl⟩ := List.mem_map.mp he'; exact ⟨_, _, rfl⟩
  have hcur : current (l ++ e :: l') = p := by
    rw [show l ++ e :: l' = (l ++ [e]) ++ l' by simp, current_resps hresp, current_snoc]
    rcases he with ⟨n, rfl, hn, rfl, _⟩ | ⟨rfl, _⟩
    · simp [cur1, hn]
    · rfl
  have hmem : ∀ e', (∀ i m, e' ≠ .resp i m [] false) → e' ≠ e → (e' ∈ l ++ e :: l' ↔ e' ∈ l) := by
    intro e' hne hne'
    rw [List.mem_append, List.mem_cons]
    constructor
    · rintro (h | h | h)
      · exact h
      · exact absurd h hne'
      · obtain ⟨i, m, rfl⟩ := hresp _ h; exact absurd rfl (hne i m)
    · exact Or.inl
  have hel : ∀ t, (.load t : Entry) ≠ e := by rcases he with ⟨n, rfl, _⟩ | ⟨rfl, _⟩ <;> simp
  have held : ∀ t f, (.loaded t f : Entry) ≠ e := by rcases he with ⟨n, rfl, _⟩ | ⟨rfl, _⟩ <;> simp
  have hconn : ∀ k c', s'.conn k = some c' → c'.st = .waiting ∨ c'.st = .writingFds → s.conn k = some c' ∧ k ∉ s.active ++ s.queued := by
    intro k c' hk hst
    by_cases hkq : k ∈ s.active ++ s.queued
    · obtain ⟨c1, _, _, h8⟩ := h5 k hkq
      rw [h8] at hk
      simp only [Option.some.injEq] at hk
      subst hk
      rcases hst with hst | hst <;> cases hst
    · rw [h4 k hkq] at hk; exact ⟨hk, hkq⟩
  refine ⟨⟨h.a.loc hl (by rw [h2]), ?_, ?_⟩, hcid⟩
  · rw [show l ++ e :: l' = (l ++ [e]) ++ l' by simp, h3]
    refine fine_latr (h.f.snoc ?_)
    rcases he with ⟨n, rfl, hn, rfl, _, _, _, h0, _⟩ | ⟨rfl, _, _, _, h0, _⟩
    · exact FineB.acts (id := id) Acts.spawn (by rw [← h.b.pid]; exact h0) (by decide)
    · rw [h.b.pid] at h0
      exact FineB.taken h0
  · rw [h2]
    generalize hcn : s'.conn = cn at *
    refine ⟨hcur.symm, by simp, by simp, fun _ => rfl, fun _ => ⟨rfl, rfl⟩, fun _ => rfl, ?_, ?_, ?_, ?_, ?_, h.b.thr, h.b.thr0, ?_, ?_, ?_, fun h0 => absurd rfl h0, by simp, ?_⟩
    · intro _ h0
      change p = 0 at h0
      rcases he with ⟨n, rfl, hn, rfl, _⟩ | ⟨rfl, _⟩
      · omega
      · exact ⟨id, by rw [h0]; simp⟩
    · intro k hk
      rcases he with ⟨n, rfl, hn, rfl, rfl, _, rfl, _, h82⟩ | ⟨rfl, rfl, _, rfl, h0, _⟩
      · simp only [Option.some.injEq] at hk; subst hk
        exact ⟨by simp, by show n.toNat ≠ 0; omega, c, hcid, hw, h82⟩
      · obtain ⟨h6, h7, c', h8, h9, h10⟩ := h.b.ctl k hk
        obtain ⟨hn1, hn2⟩ := h.b.noQ h7
        refine ⟨h6, ?_, c', ?_, h9, h10⟩
        · show p ≠ 0
          rcases h0 with h0 | h0
          · exact absurd h0 h7
          · omega
        · show cn k = _
          rw [h4 k (by rw [hn1, hn2]; simp), h8]
    · intro k hk
      rcases he with ⟨n, _, _, _, _, rfl, _⟩ | ⟨rfl, rfl, rfl, _⟩
      · cases hk
      · simp only [Option.some.injEq] at hk; subst hk
        refine ⟨⟨c, hcid⟩, hctl, fun h0 => ?_⟩
        rw [show l ++ Entry.takeover id p :: l' = (l ++ [Entry.takeover id p]) ++ l' by simp]
        exact Taker.mono ⟨l, p, [], rfl, h0, by simp⟩ hresp
    · intro k c' hk hst
      obtain ⟨h6, _⟩ := hconn k c' hk (Or.inr hst)
      have := (h.b.fds k c' h6 hst).1
      rw [hdm] at this; cases this
    · intro k c' hk hst
      obtain ⟨h6, h7⟩ := hconn k c' hk (Or.inl hst)
      rcases h.b.waiting k c' h6 hst with h8 | h8 | h8
      · rcases he with ⟨n, _, _, _, rfl, _⟩ | ⟨rfl, rfl, rfl, rfl, _⟩
        · exact Or.inr (Or.inr h8)
        · exact Or.inl h8
      · exact absurd h8 h7
      · rcases he with ⟨n, _, _, _, rfl, _, _, h0, _⟩ | ⟨rfl, rfl, rfl, rfl, _⟩
        · exact absurd h0 (h.b.ctl k h8).2.1
        · exact Or.inr (Or.inr h8)
    · intro t; rw [hmem _ (by simp) (hel t)]; exact h.b.load t
    · intro t f hf; rw [hmem _ (by simp) (held t f)] at hf; exact h.b.loadedLt t f hf
    · intro t x ht hx
      rw [h.b.joined t x ht hx]
      constructor <;> rintro ⟨f, hf⟩
      · exact ⟨f, (hmem _ (by simp) (held t f)).mpr hf⟩
      · exact ⟨f, (hmem _ (by simp) (held t f)).mp hf⟩
    · intro h0
      have := h.b.acc h0
      show p ≠ 0
      rcases he with ⟨n, _, _, _, _, _, _, h1, _⟩ | ⟨_, _, _, _, h1, _⟩
      · exact absurd h1 this
      · rcases h1 with h1 | h1
        · exact absurd h1 this
        · omega

theorem J.repl {cfg s l id c env s' l'} (h : J cfg (some id) s l) (hc : s.conn id = some c) (hw : c.st = .waiting) (hp : Permitted c) (hk : msgKey c.rbuf = 82)
    (hr : reqRepl cfg s id env = .ok (s', l')) : J cfg none s' (l ++ l') := by
  unfold reqRepl at hr
  split at hr
  · exact h.answer hc (fun h0 => by rw [hk] at h0; cases h0) hr
  · next hpid =>
    have hpid : s.pid = 0 := Classical.not_not.mp hpid
    obtain ⟨_, h1, hr⟩ := bind_ok hr
    obtain ⟨_, h2, hr⟩ := bind_ok hr
    have hdm : s.dmn = none := by simpa using assert_ok h2
    obtain ⟨s1, l1, l2, h3, h4, rfl⟩ := andThen_ok hr
    obtain ⟨rfl, rfl⟩ := one_ok h3
    split at h4
    · next hle =>
      rw [← List.append_assoc]
      refine J.answer (id := id) ?_ hc (fun h0 => by rw [hk] at h0; cases h0) h4
      exact h.entry hc hw hp (hk ▸ Acts.spawn) rfl ⟨hle, hpid⟩ (FineB.acts (id := id) Acts.spawn (by rw [← h.b.pid]; exact hpid) (by decide))
    · next hgt =>
      have hgt : 0 < env.spawn := by omega
      have := (J.latr (p := env.spawn.toNat) (ct := some id) (dm := s1.dmn) (X' := none) (e := .spawn id env.spawn) h hc hw hp hdm (Or.inl ⟨_, rfl, hgt, rfl, rfl, hdm, rfl, hpid, hk⟩) h4).1
      simpa using this

theorem J.tak1 {cfg s l id c d s' l'} (h : J cfg (some id) s l) (hc : s.conn id = some c) (hw : c.st = .waiting) (hp : Permitted c) (hk : msgKey c.rbuf = 49)
    (hr : reqTak1 cfg s id d = .ok (s', l')) : J cfg none s' (l ++ l') := by
  unfold reqTak1 at hr
  have hne : ∀ k, msgKey c.rbuf = 90 → k ≠ (65 : UInt8) := fun k h0 => by rw [hk] at h0; cases h0
  split at hr
  · exact h.answer hc (hne _) hr
  · next hpid =>
    obtain ⟨_, h2, hr⟩ := bind_ok hr
    have hdm : s.dmn = none := by simpa using assert_ok h2
    obtain ⟨s1, l1, l2, h3, h4, rfl⟩ := andThen_ok hr
    obtain ⟨rfl, rfl⟩ := one_ok h3
    obtain ⟨s2, l3, l4, h5, h6, rfl⟩ := andThen_ok h4
    have h0 : s.pid = 0 ∨ s.pid = d := by
      by_cases h0 : s.pid = 0
      · exact Or.inl h0
      · exact Or.inr (Classical.byContradiction fun h1 => hpid ⟨h0, h1⟩)
    obtain ⟨hj, hc'⟩ := J.latr (p := d) (ct := s.ctl) (dm := some id) (X' := some id) (e := .takeover id d) h hc hw hp hdm (Or.inr ⟨rfl, rfl, rfl, rfl, h0, hk⟩) h5
    have := hj.answer hc' (hne _) h6
    simpa using this

theorem J.tak2 {cfg s l id c d env s' l'} (he : EnvOk env) (h : J cfg (some id) s l) (hc : s.conn id = some c) (hw : c.st = .waiting) (hp : Permitted c) (hk : msgKey c.rbuf = 50)
    (hr : reqTak2 cfg s id d env = .ok (s', l')) : J cfg none s' (l ++ l') := by
  unfold reqTak2 at hr
  have hne : ∀ k, msgKey c.rbuf = 90 → k ≠ (65 : UInt8) := fun k h0 => by rw [hk] at h0; cases h0
  split at hr
  · obtain ⟨s1, l1, l2, h3, h4, rfl⟩ := andThen_ok hr
    have hj := h.answer hc (hne _) h3
    rw [← List.append_assoc]
    obtain ⟨c', _, hw', _, rfl⟩ := answer_ok h3
    exact hj.cleanup (c := { c' with wbuf := msg 70 0 0, st := .writing, wOn := true }) (by simp [Css.put]) (Or.inl (by simp)) (Or.inl rfl) h4
  · next hno =>
    simp only [not_or, ne_eq, Classical.not_not] at hno
    obtain ⟨s1, l1, l2, h3, h4, rfl⟩ := andThen_ok hr
    obtain ⟨rfl, rfl⟩ := one_ok h3
    rw [← List.append_assoc]
    have htk := (h.b.dmn id hno.2.2).2.2 hno.1
    have hj : J cfg (some id) s1 (l ++ [.share id]) := h.entry hc hw hp (hk ▸ Acts.share) rfl trivial (by constructor <;> intros <;> simp_all)
    refine hj.respond hc ?_ (hne _) (fun h => by cases h) h4
    split
    · exact Or.inl rfl
    · next hb => exact Or.inr ⟨_, rfl, hb, rfl, he.2.2.2.2.2⟩

theorem J.take {cfg s l id c d s' l'} (h : J cfg (some id) s l) (hc : s.conn id = some c) (hp : Permitted c) (hk : msgKey c.rbuf = 84)
    (hr : reqTake cfg s id d = .ok (s', l')) : J cfg none s' (l ++ l') := by
  unfold reqTake at hr
  have hne : ∀ k, msgKey c.rbuf = 90 → k ≠ (65 : UInt8) := fun k h0 => by rw [hk] at h0; cases h0
  split at hr
  · obtain ⟨s1, l1, l2, h3, h4, rfl⟩ := andThen_ok hr
    have hj := h.answer hc (hne _) h3
    rw [← List.append_assoc]
    obtain ⟨c', _, hw', _, rfl⟩ := answer_ok h3
    exact hj.cleanup (c := { c' with wbuf := msg 70 0 0, st := .writing, wOn := true }) (by simp [Css.put]) (Or.inl (by simp)) (Or.inl rfl) h4
  · next hno =>
    simp only [not_or, ne_eq, Classical.not_not] at hno
    obtain ⟨_, h2, hr⟩ := bind_ok hr
    have h2 := of_decide_eq_true (assert_ok h2)
    have hj : J cfg (some id) { s with accepting := false } l :=
      ⟨⟨h.a.conn, h.a.fresh⟩, h.f, ⟨h.b.pid, h.b.que, h.b.nodup, h.b.act, h.b.noQ, h.b.timer1, h.b.timer0, h.b.ctl, h.b.dmn, h.b.fds, h.b.waiting, h.b.thr, h.b.thr0, h.b.load, h.b.loadedLt, h.b.joined, h.b.actT, h.b.actL, fun _ => hno.1⟩⟩
    exact hj.respond hc (Or.inl rfl) (hne _) (fun _ => ⟨hno.2.2, hno.1, h2, hp, hk⟩) hr

/-! ### Stopping -/

theorem blockingAck_fine {cfg s l id c good r s' l'} (ha : AInv cfg s l) (hf : Every (FineB cfg) l) (hp : s.pid = 0) (hc : s.conn id = some c) (hk : msgKey c.rbuf ≠ 90)
    (h : blockingAck s id good = .ok (r, s', l')) : Every (FineB cfg) (l ++ l') ∧ (∀ i, i ≠ id → s'.conn i = s.conn i) ∧ s'.pid = 0 ∧ s'.next = s.next ∧ s'.running = s.running ∧
      (s.ctl ≠ some id → s'.ctl = s.ctl) ∧ (s'.dmn = s.dmn ∨ s'.dmn = none) := by
  obtain ⟨c', hc', h⟩ := bind_ok h
  have hc' := get_ok hc'
  rw [hc] at hc'; simp only [Option.some.injEq] at hc'; subst hc'
  obtain ⟨_, h1, h⟩ := bind_ok h
  have hw := of_decide_eq_true (assert_ok h1)
  dsimp only at h
  have hr : FineB cfg l (.resp id (msg 65 0 0) [] false) := FineB.resp fun r hr h90 _ => by
    have := (ha.turns hc hw).unique hr
    simp only [Option.some.injEq] at this; subst this; exact absurd h90 hk
  cases good with
  | true =>
    simp only [if_true, Outcome.ok.injEq, Prod.mk.injEq] at h
    obtain ⟨rfl, rfl, rfl⟩ := h
    refine ⟨?_, fun i hi => by simp [Css.put, hi], hp, rfl, rfl, fun _ => rfl, Or.inl rfl⟩
    rw [show l ++ [Entry.resp id (msg 65 0 0) [] false, .out id (msg 65 0 0) []] = (l ++ [.resp id (msg 65 0 0) [] false]) ++ [.out id (msg 65 0 0) []] by simp]
    exact (hf.snoc hr).snoc (FineB.plain (Or.inr (Or.inr (Or.inl ⟨_, _, rfl⟩))))
  | false =>
    simp only [Bool.false_eq_true, if_false] at h
    obtain ⟨⟨s1, l1⟩, h2, h⟩ := map_ok h
    simp only [Prod.mk.injEq] at h
    obtain ⟨rfl, rfl, rfl⟩ := h
    obtain ⟨c2, hc2, h3, h4, rfl⟩ := cleanup_ok h2
    refine ⟨?_, fun i hi => by rw [h3 i, if_neg hi]; simp [Css.put, hi], by rw [h4]; exact hp, by rw [h4]; rfl, by rw [h4]; rfl, fun hne => ?_, ?_⟩
    · rw [if_neg (by intro h; exact h.2 hp)]
      rw [show l ++ Entry.resp id (msg 65 0 0) [] false :: ([] ++ [Entry.close id]) = (l ++ [.resp id (msg 65 0 0) [] false]) ++ [.close id] by simp]
      exact (hf.snoc hr).snoc (FineB.plain (Or.inr (Or.inr (Or.inr ⟨_, rfl⟩))))
    · rw [h4]; show (if s.ctl = some id then none else s.ctl) = _; rw [if_neg hne]
    · rw [h4]
      show (if s.dmn = some id then none else s.dmn) = _ ∨ (if s.dmn = some id then none else s.dmn) = _
      split
      · exact Or.inr rfl
      · exact Or.inl rfl

theorem FineB.stopped {cfg a id} (h : current a = 0 ∨ Taker a id) : FineB cfg a (.stop id) := by
  constructor <;> intros <;> simp_all

theorem nofd_ok {s s' : Css} {id : Nat} (h : ((s.get id).map fun c => s.put id (some { c with fd := false })) = .ok s') :
    Frame s s' ∧ (∀ i, i ≠ id → s'.conn i = s.conn i) := by
  obtain ⟨c, hc, rfl⟩ := map_ok h
  exact ⟨Frame.put, fun i hi => by simp [Css.put, hi]⟩

theorem J.stop {cfg s l id c env s' l'} (h : J cfg (some id) s l) (hc : s.conn id = some c) (hw : c.st = .waiting) (hp : Permitted c) (hk : msgKey c.rbuf = 88)
    (hr : reqStop cfg s id env = .ok (s', l')) : K cfg s' (l ++ l') := by
  have hloc := reqStop_loc hc hw hp hk hr
  unfold reqStop at hr
  split at hr
  · exact (h.answer hc (fun h0 => by rw [hk] at h0; cases h0) hr).k
  · next hno =>
    have h0 : current l = 0 ∨ Taker l id := by
      by_cases hp0 : s.pid = 0
      · left; rw [← h.b.pid]; exact hp0
      · right
        have hd : s.dmn = some id := Classical.byContradiction fun hd => hno ⟨hp0, hd⟩
        exact (h.b.dmn id hd).2.2 hp0
    obtain ⟨⟨r1, s1, l1⟩, h1, hr⟩ := bind_ok hr
    obtain ⟨s2, h2, hr⟩ := bind_ok hr
    have hstop : Loc cfg s [.stop id] { s with pid := 0, running := false } := Loc.act hc hw hp (hk ▸ Acts.stop) rfl rfl
    have ha0 : AInv cfg { s with pid := 0, running := false } (l ++ [.stop id]) := h.a.loc hstop rfl
    have hf0 : Every (FineB cfg) (l ++ [.stop id]) := h.f.snoc (FineB.stopped h0)
    obtain ⟨hf1, hcn1, hpid1, hnx1, hrun1, hctl1, hdm1⟩ := blockingAck_fine ha0 hf0 rfl hc (by rw [hk]; decide) h1
    have ha1 := ha0.loc (blockingAck_ok (cfg := cfg) h1).1 hnx1
    have h2' : Loc cfg s1 [] s2 ∧ Frame s1 s2 ∧ ∀ i, i ≠ id → s2.conn i = s1.conn i := by
      split at h2
      · exact ⟨(nofd_loc h2).1, nofd_ok h2⟩
      · simp only [Outcome.ok.injEq] at h2; subst h2; exact ⟨Loc.refl rfl, Frame.refl, fun _ _ => rfl⟩
    obtain ⟨hl2, hfr2, hcn2⟩ := h2'
    have ha2 := ha1.loc hl2 hfr2.next
    rw [List.append_nil] at ha2
    have hnx2 : s2.next = s.next := by rw [hfr2.next, hnx1]
    have hrun2 : s2.running = false := by rw [hfr2]; exact hrun1
    dsimp only at hr
    split at hr
    · obtain ⟨rfl, rfl⟩ := one_ok hr
      exact ⟨h.a.loc hloc hnx2, by simpa using hf1, fun hx => by rw [hrun2] at hx; cases hx⟩
    · next k hk2 =>
      obtain ⟨_, h3, hr⟩ := bind_ok hr
      have h3 := of_decide_eq_true (assert_ok h3)
      obtain ⟨⟨r3, s3, l3⟩, h4, hr⟩ := bind_ok hr
      obtain ⟨s4, h5, hr⟩ := map_ok hr
      simp only [Prod.mk.injEq] at hr
      obtain ⟨rfl, rfl⟩ := hr
      have hsc : s.ctl ≠ some id := (h.b.notQ hc (Or.inr rfl)).2
      have hsk : s.ctl = some k := by
        have : s2.ctl = s.ctl := by rw [hfr2]; exact hctl1 hsc
        rw [← this]; exact hk2
      have hkid : k ≠ id := by rintro rfl; exact hsc hsk
      obtain ⟨_, _, ck, hck, hwk, hkk⟩ := h.b.ctl k hsk
      have hck2 : s2.conn k = some ck := by rw [hcn2 k hkid, hcn1 k hkid]; exact hck
      obtain ⟨hf3, _, _, hnx3, hrun3, _, _⟩ := blockingAck_fine ha2 hf1 (by rw [hfr2]; exact hpid1) hck2 (by rw [hkk]; decide) h4
      have h5' : Frame s3 s4 := by
        split at h5
        · exact (nofd_ok h5).1
        · simp only [Outcome.ok.injEq] at h5; subst h5; exact Frame.refl
      refine ⟨h.a.loc hloc (by rw [h5'.next, hnx3, hnx2]), by simpa using hf3, fun hx => ?_⟩
      rw [h5'] at hx
      change s3.running = true at hx
      rw [hrun3, hrun2] at hx; cases hx

theorem J.request {cfg s l id c m env s' l'} (he : EnvOk env) (h : J cfg (some id) s l) (hc : s.conn id = some c) (hw : c.st = .waiting) (hp : Permitted c) (hm : c.rbuf = m)
    (hr : request cfg s id m env = .ok (s', l')) : K cfg s' (l ++ l') := by
  subst hm
  unfold Css.request at hr
  dsimp only at hr
  split at hr
  · next hk => exact (h.respond hc (Or.inl rfl) (fun h0 => by rw [hk] at h0; cases h0) (fun h => by cases h) hr).k
  split at hr
  · next hk => exact h.stop hc hw hp hk hr
  split at hr
  · next hk => exact (h.respond hc (Or.inr ⟨_, rfl, he.1, rfl, he.2.2.1⟩) (fun h0 => by rw [hk] at h0; cases h0) (fun h => by cases h) hr).k
  split at hr
  · next hk => exact (h.respond hc (Or.inr ⟨_, rfl, he.2.1, rfl, he.2.2.2.1⟩) (fun h0 => by rw [hk] at h0; cases h0) (fun h => by cases h) hr).k
  split at hr
  · next hk => exact (h.zrel hc hw hk hp hr).k
  split at hr
  · next hk =>
    split at hr
    · exact (h.answer hc (fun h0 => by rw [hk] at h0; cases h0) hr).k
    · next hpid =>
      have hpid : s.pid = 0 := Classical.not_not.mp hpid
      obtain ⟨s1, l1, l2, h1, h2, rfl⟩ := andThen_ok hr
      obtain ⟨rfl, rfl⟩ := one_ok h1
      rw [← List.append_assoc]
      have hj : J cfg (some id) s1 (l ++ [.flush id]) := h.entry hc hw hp (hk ▸ Acts.flush) rfl trivial (FineB.acts (id := id) Acts.flush (by rw [← h.b.pid]; exact hpid) (by decide))
      exact (hj.answer hc (fun h0 => by rw [hk] at h0; cases h0) h2).k
  split at hr
  · next hk => exact (h.repl hc hw hp hk hr).k
  split at hr
  · next hk => exact (h.tak1 hc hw hp hk hr).k
  split at hr
  · next hk => exact (h.tak2 he hc hw hp hk hr).k
  split at hr
  · next hk => exact (h.take hc hp hk hr).k
  · exact (h.answer hc (fun _ => by decide) hr).k

theorem J.quiet {cfg s l id c} {s' : Css} (h : J cfg none s l) (hl : Loc cfg s [] s') (hc : s.conn id = some c) (hst : c.st ≠ .waiting) {c' : Conn} {X'} (hs' : s' = s.put id (some c'))
    (hf : c'.st ≠ .writingFds) (hw : c'.st = .waiting → X' = some id) (hX : X' = none ∨ X' = some id) : J cfg X' s' l := by
  have := J.upd (X' := X') h hl hc (Or.inl hst) (by rw [hs']; rfl) (fun i hi => by rw [hs']; simp [Css.put, hi]) ⟨c', by rw [hs']; simp [Css.put]⟩ ?_ ?_ (Or.inl rfl) hX (by simpa using h.f) (by simp)
  · simpa using this
  · intro c1 h1; rw [hs'] at h1; simp only [Css.put, if_true, Option.some.injEq] at h1; subst h1; exact fun h => absurd h hf
  · intro c1 h1; rw [hs'] at h1; simp only [Css.put, if_true, Option.some.injEq] at h1; subst h1; exact hw

theorem J.recvData {cfg s l id c r env s' l'} (h : J cfg none s l) (hc : s.conn id = some c) (hst : c.st = .readingData) (hp : Permitted c) (hk : msgKey c.rbuf = 67)
    (hr : recvData cfg s id c r env = .ok (s', l')) : J cfg none s' (l ++ l') := by
  have hw : c.st ≠ .waiting := by rw [hst]; decide
  unfold Css.recvData at hr
  split at hr
  · cases hr
  · next b hb =>
    obtain ⟨_, h1, hr⟩ := bind_ok hr
    have h1 := of_decide_eq_true (assert_ok h1)
    split at hr
    · obtain ⟨rfl, rfl⟩ := one_ok hr; simpa using h
    · exact h.cleanup hc (Or.inl hw) (Or.inl rfl) hr
    · exact h.cleanup hc (Or.inl hw) (Or.inl rfl) hr
    · next x _ _ =>
      dsimp only at hr
      split at hr
      · have ha : Loc cfg s [] (s.put id (some { c with rOn := false, st := .waiting, data := none, size := 0, done := 0 })) :=
          Loc.put hc (LS.one (L.recvAll hst)) (by simp) fun i => rfl
        have hj : J cfg (some id) (s.put id (some { c with rOn := false, st := .waiting, data := none, size := 0, done := 0 })) l :=
          h.quiet ha hc hw rfl (by simp) (fun _ => rfl) (Or.inr rfl)
        have hc' : (s.put id (some { c with rOn := false, st := .waiting, data := none, size := 0, done := 0 })).conn id = some { c with rOn := false, st := .waiting, data := none, size := 0, done := 0 } := by
          simp [Css.put]
        split at hr
        · exact hj.answer hc' (fun h0 => by change msgKey c.rbuf = 90 at h0; rw [hk] at h0; cases h0) hr
        · next hpid =>
          have hpid : s.pid = 0 := Classical.not_not.mp hpid
          obtain ⟨s1, l1, l2, h2, h3, rfl⟩ := andThen_ok hr
          obtain ⟨rfl, rfl⟩ := one_ok h2
          rw [← List.append_assoc]
          refine J.answer ?_ hc' (fun h0 => by change msgKey c.rbuf = 90 at h0; rw [hk] at h0; cases h0) h3
          refine hj.entry hc' rfl hp ?_ rfl trivial (FineB.acts (id := id) Acts.chal (by rw [← h.b.pid]; exact hpid) (by decide))
          show Acts id (msgKey c.rbuf) _
          rw [hk]; exact Acts.chal
      · obtain ⟨rfl, rfl⟩ := one_ok hr
        rw [List.append_nil]
        refine h.quiet (Loc.put hc (LS.one (L.recv hst hb ?_)) (by simp) fun i => rfl) hc hw rfl (by simp [hst]) (by simp [hst]) (Or.inl rfl)
        have : (x.take (c.size - c.done)).length ≤ c.size - c.done := by rw [List.length_take]; omega
        omega

theorem shape_of {cfg s l id c} (h : AInv cfg s l) (hc : s.conn id = some c) (hs : c.st ≠ .writing ∨ c.wOn = true) : Shape cfg c := by
  obtain ⟨_, hg⟩ := (h.conn id).2 c hc
  exact (Good.notLast hg hs).shape

theorem J.readConn {cfg s l id c r env s' l'} (he : EnvOk env) (h : J cfg none s l) (hc : s.conn id = some c) (hon : c.rOn = true)
    (hr : readConn cfg s id c r env = .ok (s', l')) : K cfg s' (l ++ l') := by
  unfold Css.readConn at hr
  obtain ⟨_, h1, hr⟩ := bind_ok hr
  have h1 := of_decide_eq_true (assert_ok h1)
  split at hr
  · next hst =>
    obtain ⟨_, h2, hr⟩ := bind_ok hr
    have hsh := shape_of h.a hc (Or.inl (by rw [hst]; decide))
    simp only [Shape, hst] at hsh
    exact (h.recvData hc hst hsh.2.2.2.2.2 (by simpa using assert_ok h2) hr).k
  · next hr' =>
    have hst : c.st = .readingReq := by rcases h1 with h | h; exact h; exact absurd h hr'
    have hw : c.st ≠ .waiting := by rw [hst]; decide
    split at hr
    · obtain ⟨rfl, rfl⟩ := one_ok hr; simpa using h.k
    · exact (h.cleanup hc (Or.inl hw) (Or.inl rfl) hr).k
    · rename_i x _
      dsimp only at hr
      split at hr
      · exact (h.cleanup hc (Or.inl hw) (Or.inl rfl) hr).k
      · next h8 =>
        have h8 : (x.take 8).length = 8 := Classical.not_not.mp h8
        obtain ⟨s1, l1, l2, h2, h3, rfl⟩ := andThen_ok hr
        obtain ⟨rfl, rfl⟩ := one_ok h2
        have hj := h.req hc hst hon h8
        have hput : ∀ d, (s1.put id d).conn id = d := fun d => by simp [Css.put]
        rw [← List.append_assoc]
        split at h3
        · exact (hj.answer (hput _) (fun _ => by decide) h3).k
        · next hp =>
          split at h3
          · rename_i hkey
            split at h3
            · rw [← cleanup_put (x := { c with rbuf := x.take 8, rOn := false, st := .waiting }) hc] at h3
              exact (hj.cleanup (hput _) (Or.inr rfl) (Or.inr rfl) h3).k
            · next hlim =>
              obtain ⟨rfl, rfl⟩ := one_ok h3
              rw [List.append_nil]
              refine J.k (h.upd (Loc.put hc (LS.one (L.reqData hst hon h8 hkey (permitted_of hp) (by intro h0; exact hlim (Or.inr (Or.inr (Or.inl h0)))))) (by simp [owner]) fun i => rfl)
                hc (Or.inl hw) rfl (fun i hi => by simp [Css.put, hi]) ⟨_, hput _⟩ ?_ ?_ (Or.inl rfl) (Or.inl rfl) (h.f.snoc (FineB.plain (Or.inr (Or.inl ⟨_, _, rfl⟩)))) (by simp [Quiet, turn]))
              · intro c1 h1; rw [hput] at h1; simp only [Option.some.injEq] at h1; subst h1; simp
              · intro c1 h1; rw [hput] at h1; simp only [Option.some.injEq] at h1; subst h1; simp
          · exact hj.request he (hput _) rfl (permitted_of hp) rfl h3

theorem FineB.handed {cfg a id b f} (h : Taker a id) : FineB cfg a (.out id b f) := by
  constructor <;> intros <;> simp_all

/-- Writing. -/
theorem J.out {cfg s l id c b f} {c' : Conn} (h : J cfg none s l) (hl : Loc cfg s [.out id b f] (s.put id (some c'))) (hc : s.conn id = some c) (hw : c.st ≠ .waiting) (hw' : c'.st ≠ .waiting)
    (hf : c'.st = .writingFds → c.st = .writingFds) (hfd : f ≠ [] → c.st = .writingFds) : J cfg none (s.put id (some c')) (l ++ [.out id b f]) := by
  have hput : ∀ d, (s.put id d).conn id = d := fun d => by simp [Css.put]
  refine h.upd hl hc (Or.inl hw) rfl (fun i hi => by simp [Css.put, hi]) ⟨_, hput _⟩ ?_ ?_ (Or.inl rfl) (Or.inl rfl) (h.f.snoc ?_) (by simp [Quiet, turn])
  · intro c1 h1; rw [hput] at h1; simp only [Option.some.injEq] at h1; subst h1; exact fun hx => h.b.fds id c hc (hf hx)
  · intro c1 h1; rw [hput] at h1; simp only [Option.some.injEq] at h1; subst h1; exact fun hx => absurd hx hw'
  · by_cases hff : f = []
    · subst hff; exact FineB.plain (Or.inr (Or.inr (Or.inl ⟨_, _, rfl⟩)))
    · obtain ⟨h1, h2⟩ := h.b.fds id c hc (hfd hff)
      exact FineB.handed ((h.b.dmn id h1).2.2 h2)

theorem J.writeData {cfg s l id c r s' l'} (h : J cfg none s l) (hc : s.conn id = some c) (hon : c.wOn = true) (hr : writeData s id c r = .ok (s', l')) : J cfg none s' (l ++ l') := by
  have hloc := writeData_loc (cfg := cfg) hc hon hr
  unfold Css.writeData at hr
  obtain ⟨_, h1, hr⟩ := bind_ok hr
  have h1 := of_decide_eq_true (assert_ok h1)
  have hw : c.st ≠ .waiting := by rw [h1]; decide
  split at hr
  · cases hr
  · obtain ⟨_, h2, hr⟩ := bind_ok hr
    split at hr
    · split at hr
      · obtain ⟨rfl, rfl⟩ := one_ok hr; simpa using h
      · exact h.cleanup hc (Or.inl hw) (Or.inl rfl) hr
      · dsimp only at hr
        split at hr
        · obtain ⟨rfl, rfl⟩ := one_ok hr; exact h.out hloc hc hw (by simp [Conn.again]) (by simp [Conn.again]) (by simp)
        · obtain ⟨rfl, rfl⟩ := one_ok hr; exact h.out hloc hc hw (by simp [h1]) (by simp [h1]) (by simp)
    · cases hr

theorem J.writeResp {cfg s l id c r s' l'} (h : J cfg none s l) (hc : s.conn id = some c) (hon : c.wOn = true) (hr : writeResp cfg s id c r = .ok (s', l')) : J cfg none s' (l ++ l') := by
  have hloc := writeResp_loc (cfg := cfg) hc hon hr
  unfold Css.writeResp at hr
  obtain ⟨_, h1, hr⟩ := bind_ok hr
  have h1 := of_decide_eq_true (assert_ok h1)
  have hw : c.st ≠ .waiting := by rcases h1 with h1 | h1 <;> rw [h1] <;> decide
  obtain ⟨_, h2, hr⟩ := bind_ok hr
  split at hr
  · obtain ⟨rfl, rfl⟩ := one_ok hr; simpa using h
  · exact h.cleanup hc (Or.inl hw) (Or.inl rfl) hr
  · split at hr
    · exact h.cleanup hc (Or.inl hw) (Or.inl rfl) hr
    split at hr
    · next hf =>
      dsimp only at hr
      split at hr
      · obtain ⟨rfl, rfl⟩ := one_ok hr; exact h.out hloc hc hw (by simp [hf]) (fun _ => hf) (fun _ => hf)
      · obtain ⟨rfl, rfl⟩ := one_ok hr; exact h.out hloc hc hw (by simp [Conn.again]) (fun _ => hf) (fun _ => hf)
    · next hf =>
      dsimp only at hr
      split at hr
      · obtain ⟨rfl, rfl⟩ := one_ok hr; exact h.out hloc hc hw (by simp) (by simp) (by simp)
      · obtain ⟨rfl, rfl⟩ := one_ok hr; exact h.out hloc hc hw (by simp [Conn.again]) (by simp [Conn.again]) (by simp)

/-! ### Replacements that die -/

theorem FineB.dead {cfg a p} (h : p = current a) (h0 : p ≠ 0) : FineB cfg a (.died p) := by
  constructor <;> intros <;> simp_all

theorem current_ends {l p} {l' : List Entry} (h' : ∀ e ∈ l', e = .kill p ∨ ∃ k, e = .close k) : current (l ++ l') = current l := by
  induction l' generalizing l with
  | nil => simp
  | cons e l' ih =>
    rw [show l ++ e :: l' = (l ++ [e]) ++ l' by simp, ih fun e' he' => h' e' (by simp [he']), current_snoc]
    rcases h' e (by simp) with rfl | ⟨k, rfl⟩ <;> rfl

/-- Entries after the death of a replacement. -/
theorem J.watch {cfg s l alive s' l'} (h : J cfg none s l) (hr : watch cfg s alive = .ok (s', l')) : J cfg none s' (l ++ l') := by
  have hloc := watch_loc hr
  unfold Css.watch at hr
  obtain ⟨_, h1, hr⟩ := bind_ok hr
  have hpid := of_decide_eq_true (assert_ok h1)
  split at hr
  · obtain ⟨rfl, rfl⟩ := one_ok hr; simpa using h
  · obtain ⟨s1, l1, l2, h2, h3, rfl⟩ := andThen_ok hr
    obtain ⟨rfl, rfl⟩ := one_ok h2
    obtain ⟨s2, l3, l4, h4, h5, rfl⟩ := andThen_ok h3
    obtain ⟨s3, l5, l6, h6, h7, rfl⟩ := andThen_ok h5
    obtain ⟨rfl, rfl⟩ := one_ok h7
    rw [List.append_nil] at hloc ⊢
    obtain ⟨hnq1, hnq2⟩ := h.b.noQ hpid
    have hfd : Every (FineB cfg) (l ++ [.died s.pid]) := h.f.snoc (FineB.dead h.b.pid hpid)
    -- the client of the replacement
    have hctl : Every (FineB cfg) ((l ++ [.died s.pid]) ++ l3) ∧ Frame { s with timer := false } s2 ∧ l3.length ≤ 1 ∧ (∀ e ∈ l3, ∃ i m, e = .resp i m [] false) ∧
        (∀ k, s.ctl ≠ some k → s2.conn k = s.conn k) ∧ (∀ k, s.ctl = some k → ∃ c, s2.conn k = some c ∧ c.st = .writing) := by
      dsimp only at h4
      split at h4
      · next k hk =>
        obtain ⟨c, hc, hw, rfl, rfl⟩ := answer_ok h4
        refine ⟨hfd.snoc (FineB.resp fun _ _ _ h65 => absurd h65 (by decide)), Frame.put, by simp, by simp, ?_, ?_⟩
        · intro k' hk'
          have : k' ≠ k := by rintro rfl; exact hk' hk
          simp [Css.put, this]
        · intro k' hk'
          rw [hk] at hk'; simp only [Option.some.injEq] at hk'; subst hk'
          exact ⟨_, by simp [Css.put]; rfl, rfl⟩
      · next hk =>
        obtain ⟨rfl, rfl⟩ := one_ok h4
        exact ⟨by simpa using hfd, Frame.refl, by simp, by simp, fun _ _ => rfl, fun k h => by rw [hk] at h; cases h⟩
    obtain ⟨hf2, hfr2, hlen, hresp, hc2, hc2'⟩ := hctl
    have hp2 : s2.pid = s.pid := by rw [hfr2]
    have hd2 : s2.dmn = s.dmn := by rw [hfr2]
    have hct2 : s2.ctl = s.ctl := by rw [hfr2]
    -- its connection
    have hdm : Every (FineB cfg) (((l ++ [.died s.pid]) ++ l3) ++ l5) ∧ (∀ k, s.dmn ≠ some k → s3.conn k = s2.conn k) ∧ (∀ k, s.dmn = some k → s3.conn k = none) ∧
        s3 = { s2 with conn := s3.conn, dmn := none } ∧ ∀ e ∈ l5, e = .kill s.pid ∨ ∃ k, e = .close k := by
      split at h6
      · next k hk =>
        obtain ⟨c, hc, h8, h9, rfl⟩ := cleanup_ok h6
        rw [hd2] at hk
        have hck : s2.ctl ≠ some k := by rw [hct2]; exact (h.b.dmn k hk).2.1
        refine ⟨?_, ?_, ?_, ?_, ?_⟩
        · rw [← List.append_assoc]
          refine Every.snoc ?_ (FineB.plain (Or.inr (Or.inr (Or.inr ⟨_, rfl⟩))))
          rw [if_pos ⟨by rw [hd2]; exact hk, by rw [hp2]; exact hpid⟩, hp2]
          exact hf2.snoc (FineB.kill' (Or.inr ⟨l, l3, by simp, hlen⟩) hpid)
        · intro k' hk'
          have : k' ≠ k := by rintro rfl; exact hk' hk
          rw [h8, if_neg this]
        · intro k' hk'
          rw [hk] at hk'; simp only [Option.some.injEq] at hk'; subst hk'
          rw [h8, if_pos rfl]
        · rw [h9, if_neg hck, if_pos (by rw [hd2]; exact hk)]
        · intro e he
          split at he
          · simp only [List.mem_append, List.mem_singleton] at he
            rcases he with rfl | rfl
            · left; rw [hp2]
            · exact Or.inr ⟨_, rfl⟩
          · simp only [List.nil_append, List.mem_singleton] at he; exact Or.inr ⟨_, he⟩
      · next hk =>
        obtain ⟨rfl, rfl⟩ := one_ok h6
        rw [hd2] at hk
        exact ⟨by simpa using hf2, fun _ _ => rfl, fun k h => (by rw [hk] at h; cases h), (by rw [← hd2] at hk; rw [← hk]), by simp⟩
    obtain ⟨hf3, hc3, hc3', hs3, hl5⟩ := hdm
    have hl : l ++ ([Entry.died s.pid] ++ (l3 ++ l5)) = ((l ++ [.died s.pid]) ++ l3) ++ l5 := by simp
    have hmem : ∀ e, (∀ i m, e ≠ .resp i m [] false) → (∀ p, e ≠ .kill p) → (∀ k, e ≠ .close k) → (∀ p, e ≠ .died p) → (e ∈ l ++ ([Entry.died s.pid] ++ (l3 ++ l5)) ↔ e ∈ l) := by
      intro e h8 h9 h10 h11
      simp only [List.mem_append, List.mem_singleton]
      constructor
      · rintro (hh | hh | hh | hh)
        · exact hh
        · exact absurd hh (h11 _)
        · obtain ⟨i, m, rfl⟩ := hresp _ hh; exact absurd rfl (h8 i m)
        · rcases hl5 _ hh with rfl | ⟨k, rfl⟩
          · exact absurd rfl (h9 _)
          · exact absurd rfl (h10 k)
      · exact Or.inl
    have hcur : current (l ++ ([Entry.died s.pid] ++ (l3 ++ l5))) = 0 := by
      rw [hl]
      have h0 : current ((l ++ [.died s.pid]) ++ l3) = 0 := by rw [current_resps hresp, current_snoc]; rfl
      rw [current_ends hl5, h0]
    have hglob : s3 = { s with conn := s3.conn, timer := false, dmn := none } := by rw [hs3, hfr2]
    refine ⟨h.a.loc hloc (by rw [hglob]), by rw [hl]; exact hf3, ?_⟩
    rw [hglob]
    generalize hcn : s3.conn = cn at *
    have hst : ∀ k c, cn k = some c → (c.st = .waiting ∨ c.st = .writingFds) → False := by
      intro k c hk hcs
      by_cases hdk : s.dmn = some k
      · rw [hc3' k hdk] at hk; cases hk
      · rw [hc3 k hdk] at hk
        by_cases hck : s.ctl = some k
        · obtain ⟨c', h8, h9⟩ := hc2' k hck
          rw [hk] at h8; simp only [Option.some.injEq] at h8; subst h8
          rw [h9] at hcs; rcases hcs with hcs | hcs <;> cases hcs
        · rw [hc2 k hck] at hk
          rcases hcs with hcs | hcs
          · rcases h.b.waiting k c hk hcs with h8 | h8 | h8
            · cases h8
            · rw [hnq1, hnq2] at h8; cases h8
            · exact hck h8
          · exact hdk (h.b.fds k c hk hcs).1
    refine ⟨hcur.symm, ?_, ?_, fun _ => hnq2, fun h0 => absurd rfl h0, fun h0 => absurd rfl h0, fun h0 => (by cases h0), by simp, by simp, ?_, ?_, h.b.thr, h.b.thr0, ?_, ?_, ?_, ?_, ?_, fun h0 => by cases h0⟩
    · intro i hi; change i ∈ s.active ++ s.queued at hi; rw [hnq1, hnq2] at hi; cases hi
    · show (s.active ++ s.queued).Nodup; rw [hnq1, hnq2]; simp
    · intro k c hk hs; exact (hst k c hk (Or.inr hs)).elim
    · intro k c hk hs; exact (hst k c hk (Or.inl hs)).elim
    · intro t; rw [hmem _ (by simp) (by simp) (by simp) (by simp)]; exact h.b.load t
    · intro t f hf; rw [hmem _ (by simp) (by simp) (by simp) (by simp)] at hf; exact h.b.loadedLt t f hf
    · intro t x ht hx
      rw [h.b.joined t x ht hx]
      constructor <;> rintro ⟨f, hf⟩
      · exact ⟨f, (hmem _ (by simp) (by simp) (by simp) (by simp)).mpr hf⟩
      · exact ⟨f, (hmem _ (by simp) (by simp) (by simp) (by simp)).mp hf⟩
    · intro h0; exact absurd hnq1 h0
    · intro i hi; change i ∈ s.active at hi; rw [hnq1] at hi; cases hi

/-! ### Loads that end -/

theorem FineB.joined' {cfg a t} (h : ∀ f', .loaded t f' ∉ a) : FineB cfg a (.loaded t (cfg.fails t)) := by
  constructor
  case loaded => intro t' f' he; cases he; exact ⟨rfl, h⟩
  all_goals (intros; simp_all)

theorem fine_acks {cfg key} {ids : List Nat} {l : List Entry} (h : Every (FineB cfg) l) (hn : ids.Nodup) (hl : ∀ id ∈ ids, ∀ r, Turns id l (some r) → key = 65 → Loaded l id r) :
    Every (FineB cfg) (l ++ ids.map fun id => .resp id (msg key 0 0) [] false) := by
  induction ids generalizing l with
  | nil => simpa using h
  | cons id ids ih =>
    rw [List.map_cons, show ∀ (e : Entry) l', l ++ e :: l' = (l ++ [e]) ++ l' by simp]
    rw [List.nodup_cons] at hn
    refine ih (h.snoc (FineB.resp fun r hr _ h65 => hl id (by simp) r hr h65)) hn.2 ?_
    intro i hi r hr h65
    have hne : i ≠ id := by rintro rfl; exact hn.1 hi
    have hte : turn (.resp id (msg key 0 0) [] false) ≠ some i := by simp only [turn, ne_eq, Option.some.injEq]; exact fun h => hne h.symm
    rcases hr.inv_snoc with ⟨m, he, _⟩ | ⟨_, _, _, _, he, _⟩ | ⟨_, hr⟩
    · cases he
    · simp only [Entry.resp.injEq] at he; exact absurd he.1.symm hne
    · obtain ⟨a, b, c, t, rfl, h1, h2⟩ := hl i (by simp [hi]) r hr h65
      refine ⟨a, b, c ++ [.resp id (msg key 0 0) [] false], t, by simp, by simp [h1], fun e he => ?_⟩
      rw [← List.append_assoc, List.mem_append, List.mem_singleton] at he
      rcases he with he | rfl
      · exact h2 e he
      · exact hte

theorem J.reload {cfg s l s' l'} (h : J cfg none s l) (hr : reloadDone cfg s = .ok (s', l')) : J cfg none s' (l ++ l') := by
  have hloc := reloadDone_loc hr
  unfold reloadDone at hr
  split at hr
  · cases hr
  · next x hx =>
    split at hr
    · cases hr
    · next hj =>
      obtain ⟨s1, l1, l2, h1, h2, rfl⟩ := andThen_ok hr
      obtain ⟨rfl, rfl⟩ := one_ok h1
      obtain ⟨s2, l3, l4, rfl, h3, h4⟩ := notify_ok h2
      obtain ⟨l5, hl35, h5, h6, h7, h8, h9⟩ := answers_ok h3
      have hl35 : l3 = l5 := hl35
      subst hl35
      dsimp only at h3 h4 h5 h6 h7 h8 h9
      have htid : 1 ≤ s.tid := by
        obtain ⟨y, h10, h11⟩ := h.b.thr0
        cases htd : s.tid with
        | zero => rw [htd, h10] at hx; simp only [Option.some.injEq] at hx; subst hx; exact absurd h11 hj
        | succ n => omega
      have hlt : s.tid < s.threads.length := by have := h.b.thr; omega
      have hnl : ∀ f, .loaded s.tid f ∉ l := by
        intro f hf
        exact hj ((h.b.joined s.tid x htid hx).mpr ⟨f, hf⟩)
      have hf1 : Every (FineB cfg) (l ++ [.loaded s.tid (cfg.fails s.tid)]) := h.f.snoc (FineB.joined' hnl)
      have hnd := h.b.nodup
      rw [List.nodup_append] at hnd
      have hf2 : Every (FineB cfg) ((l ++ [.loaded s.tid (cfg.fails s.tid)]) ++ l3) := by
        rw [h7]
        refine fine_acks hf1 hnd.1 ?_
        intro id hid r hr h65
        obtain ⟨a, r', b, c, rfl, hb⟩ := h.b.actL id hid
        have hfl : cfg.fails s.tid = false := by
          cases hff : cfg.fails s.tid with
          | false => rfl
          | true => rw [hff] at h65; exact absurd h65 (by decide)
        have hr' : Turns id (a ++ Entry.req id r' :: (b ++ Entry.load s.tid :: c ++ [.loaded s.tid (cfg.fails s.tid)])) (some r) := by simpa using hr
        have := hr'.tail (by
          intro e he
          simp only [List.mem_append, List.mem_cons, List.mem_singleton, List.not_mem_nil, or_false] at he
          rcases he with (he | rfl | he) | rfl
          · exact hb e (by simp [he])
          · simp [turn]
          · exact hb e (by simp [he])
          · simp [turn])
        simp only [Option.some.injEq] at this
        subst this
        refine ⟨a, b, c ++ [.loaded s.tid false], s.tid, by rw [hfl]; simp, by simp, fun e he => ?_⟩
        rw [← List.append_assoc, List.mem_append, List.mem_singleton] at he
        rcases he with he | rfl
        · exact hb e he
        · simp [turn]
      -- the state before a next load
      have hresp : ∀ e' ∈ l3, ∃ i m, e' = .resp i m [] false := by
        rw [h7]; intro e' he'; obtain ⟨i, _, rfl⟩ := List.mem_map.mp he'; exact ⟨_, _, rfl⟩
      have hcur : current (l ++ ([Entry.loaded s.tid (cfg.fails s.tid)] ++ l3)) = current l := by
        rw [← List.append_assoc, current_resps hresp, current_snoc]; rfl
      have hmem : ∀ e, (∀ i m, e ≠ .resp i m [] false) → (∀ f, e ≠ .loaded s.tid f) → (e ∈ l ++ ([Entry.loaded s.tid (cfg.fails s.tid)] ++ l3) ↔ e ∈ l) := by
        intro e h10 h11
        simp only [List.mem_append, List.mem_singleton]
        constructor
        · rintro (hh | hh | hh)
          · exact hh
          · exact absurd hh (h11 _)
          · obtain ⟨i, m, rfl⟩ := hresp _ hh; exact absurd rfl (h10 i m)
        · exact Or.inl
      obtain ⟨cn, hs2⟩ : ∃ cn, s2 = { s with conn := cn, async := !x.ended, threads := s.threads.set s.tid ⟨true, true⟩ } := ⟨s2.conn, by rw [h6]⟩
      clear h6
      subst hs2
      dsimp only at h4 h8 h9
      have hconn : ∀ k c, cn k = some c → (c.st = .waiting ∨ c.st = .writingFds) → s.conn k = some c ∧ k ∉ s.active := by
        intro k c hk hcs
        by_cases hka : k ∈ s.active
        · obtain ⟨c', _, _, h12⟩ := h9 k hka
          rw [hk] at h12; simp only [Option.some.injEq] at h12; subst h12
          rcases hcs with hcs | hcs <;> cases hcs
        · rw [h8 k hka] at hk; exact ⟨hk, hka⟩
      have hlocB : Loc cfg s ([Entry.loaded s.tid (cfg.fails s.tid)] ++ l3) { s with conn := cn, async := !x.ended, threads := s.threads.set s.tid ⟨true, true⟩, active := [], queued := [] } := by
        refine Loc.trans (Loc.free rfl (by simp [owner])) ?_
        exact h5
      -- as if nobody waited
      have hB : ∀ k c, cn k = some c → c.st = .waiting → k ∈ s.queued ∨ s.ctl = some k := by
        intro k c hk hcs
        obtain ⟨h12, h13⟩ := hconn k c hk (Or.inl hcs)
        rcases h.b.waiting k c h12 hcs with h14 | h14 | h14
        · cases h14
        · rw [List.mem_append] at h14; exact Or.inl (h14.resolve_left h13)
        · exact Or.inr h14
      have hQ : ∀ id ∈ s.queued, ∃ c, cn id = some c ∧ c.st = .waiting ∧ msgKey c.rbuf = 90 ∧ Permitted c := by
        intro id hid
        obtain ⟨_, c, h12, h13⟩ := h.b.que id (by simp [hid])
        refine ⟨c, ?_, h13⟩
        rw [h8 id (fun ha => hnd.2.2 id ha id hid rfl)]; exact h12
      have hA : AInv cfg { s with conn := cn, async := !x.ended, threads := s.threads.set s.tid ⟨true, true⟩, active := [], queued := [] } (l ++ ([Entry.loaded s.tid (cfg.fails s.tid)] ++ l3)) := h.a.loc hlocB rfl
      have hF : Every (FineB cfg) (l ++ ([Entry.loaded s.tid (cfg.fails s.tid)] ++ l3)) := by rw [← List.append_assoc]; exact hf2
      have hC : BCore cfg { s with conn := cn, async := !x.ended, threads := s.threads.set s.tid ⟨true, true⟩, active := [], queued := [] } (l ++ ([Entry.loaded s.tid (cfg.fails s.tid)] ++ l3)) := by
        refine ⟨by show s.pid = _; rw [hcur]; exact h.b.pid, h.b.timer1, ?_, ?_, ?_, ?_, ?_, ?_, ?_, ?_, ?_, h.b.acc⟩
        · intro h10 h11
          obtain ⟨id, hid⟩ := h.b.timer0 h10 h11
          exact ⟨id, (hmem _ (by simp) (by simp)).mpr hid⟩
        · intro k hk
          obtain ⟨_, h10, c, h11, h12, h13⟩ := h.b.ctl k hk
          refine ⟨h10, c, ?_, h12, h13⟩
          show cn k = _
          rw [h8 k (by rw [(h.b.noQ h10).1]; simp)]; exact h11
        · intro k hk
          obtain ⟨⟨c, h10⟩, h11, h12⟩ := h.b.dmn k hk
          refine ⟨?_, h11, fun h0 => ?_⟩
          · show ∃ c, cn k = some c
            by_cases hka : k ∈ s.active
            · obtain ⟨c', _, _, h12⟩ := h9 k hka; exact ⟨_, h12⟩
            · rw [h8 k hka]; exact ⟨c, h10⟩
          · rw [← List.append_assoc]
            exact Taker.mono (Taker.snoc (h12 h0) (by simp) (by simp) (by simp) (by simp)) hresp
        · intro k c hk hcs
          exact h.b.fds k c (hconn k c hk (Or.inr hcs)).1 hcs
        · show s.tid + 1 = (s.threads.set _ _).length; rw [List.length_set]; exact h.b.thr
        · obtain ⟨y, h10, h11⟩ := h.b.thr0
          refine ⟨y, ?_, h11⟩
          show (s.threads.set _ _)[0]? = _
          rw [List.getElem?_set_ne (by omega)]; exact h10
        · intro t
          show _ ↔ 1 ≤ t ∧ t < (s.threads.set _ _).length
          rw [hmem _ (by simp) (by simp), List.length_set]; exact h.b.load t
        · intro t f hf
          show t < (s.threads.set _ _).length
          rw [List.length_set]
          by_cases ht : t = s.tid
          · omega
          · rw [hmem _ (by simp) (by intro f'; simp only [ne_eq, Entry.loaded.injEq, not_and]; intro h; exact absurd h ht)] at hf
            exact h.b.loadedLt t f hf
        · intro t y ht hy
          change (s.threads.set _ _)[t]? = _ at hy
          by_cases htt : t = s.tid
          · subst htt
            rw [List.getElem?_set_self hlt] at hy
            simp only [Option.some.injEq] at hy
            subst hy
            simp only [true_iff]
            exact ⟨cfg.fails s.tid, by simp⟩
          · rw [List.getElem?_set_ne (fun h => htt h.symm)] at hy
            rw [h.b.joined t y ht hy]
            have hm : ∀ f, (Entry.loaded t f ∈ l ++ ([Entry.loaded s.tid (cfg.fails s.tid)] ++ l3) ↔ Entry.loaded t f ∈ l) := fun f =>
              hmem _ (by simp) (by intro f'; simp only [ne_eq, Entry.loaded.injEq, not_and]; intro h; exact absurd h htt)
            constructor <;> rintro ⟨f, hf⟩
            · exact ⟨f, (hm f).mpr hf⟩
            · exact ⟨f, (hm f).mp hf⟩
      rcases h4 with ⟨h10, h4⟩ | ⟨h10, rfl, rfl⟩
      · have hpid : s.pid = 0 := Classical.byContradiction fun h0 => h10 (h.b.noQ h0).2
        have := J0.load (Q := s.queued) ⟨hA, hF, hC⟩ hpid h10 hnd.2.1 hQ (fun k c hk hcs => hB k c hk hcs) h4
        simpa using this
      · rw [List.append_nil]
        have hsq : s.queued = [] := h10
        rw [hsq]
        refine ⟨hA, hF, ⟨hC.pid, by simp, by simp, fun _ => rfl, fun _ => ⟨rfl, rfl⟩, hC.timer1, hC.timer0, fun k hk => ⟨by simp, hC.ctl k hk⟩, hC.dmn, hC.fds, ?_, hC.thr, hC.thr0, hC.load, hC.loadedLt, hC.joined, fun h0 => absurd rfl h0, by simp, hC.acc⟩⟩
        intro k c hk hcs
        rcases hB k c hk hcs with h11 | h11
        · rw [hsq] at h11; cases h11
        · exact Or.inr (Or.inr h11)

end Gdnsd.Css
