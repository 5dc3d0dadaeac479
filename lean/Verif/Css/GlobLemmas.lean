/-
What holds of the daemon as a whole: replacements, queues and threads.
-/
import Verif.Css.ConnLemmas
namespace Gdnsd.Css
open CssSpec

/-! ### Histories -/

theorem _root_.Gdnsd.CssSpec.Turns.inv_snoc {id l e o} (h : Turns id (l ++ [e]) o) :
    (∃ m, e = .req id m ∧ o = some m ∧ Turns id l none) ∨ (∃ r m d f, e = .resp id m d f ∧ o = none ∧ Turns id l (some r)) ∨ (turn e ≠ some id ∧ Turns id l o) := by
  generalize hl : l ++ [e] = l0 at h
  cases h with
  | nil => simp at hl
  | req h => obtain ⟨h1, h2⟩ := List.append_inj' hl rfl; simp only [List.cons.injEq, and_true] at h2; subst h1 h2; exact Or.inl ⟨_, rfl, rfl, h⟩
  | resp h => obtain ⟨h1, h2⟩ := List.append_inj' hl rfl; simp only [List.cons.injEq, and_true] at h2; subst h1 h2; exact Or.inr (Or.inl ⟨_, _, _, _, rfl, rfl, h⟩)
  | other h h' => obtain ⟨h1, h2⟩ := List.append_inj' hl rfl; simp only [List.cons.injEq, and_true] at h2; subst h1 h2; exact Or.inr (Or.inr ⟨h', h⟩)

theorem _root_.Gdnsd.CssSpec.Turns.unique {id l o} (h : Turns id l o) : ∀ {o'}, Turns id l o' → o = o' := by
  induction h with
  | nil => intro o' h'; generalize hl : ([] : List Entry) = l0 at h'; cases h' <;> simp at hl; rfl
  | req h ih =>
    intro o' h'
    rcases h'.inv_snoc with ⟨m, he, rfl, _⟩ | ⟨r, m, d, f, he, _⟩ | ⟨he, _⟩
    · simpa using he
    · cases he
    · exact absurd rfl he
  | resp h ih =>
    intro o' h'
    rcases h'.inv_snoc with ⟨m, he, _⟩ | ⟨r, m, d, f, he, rfl, _⟩ | ⟨he, _⟩
    · cases he
    · rfl
    · exact absurd rfl he
  | other h he' ih =>
    intro o' h'
    rcases h'.inv_snoc with ⟨m, rfl, _⟩ | ⟨r, m, d, f, rfl, _⟩ | ⟨he, h''⟩
    · exact absurd rfl he'
    · exact absurd rfl he'
    · exact ih h''

theorem _root_.Gdnsd.CssSpec.Turns.last {id l o} (h : Turns id l o) : ∀ r, o = some r → ∃ a b, l = a ++ .req id r :: b ∧ ∀ e ∈ b, turn e ≠ some id := by
  induction h with
  | nil => intro r h; cases h
  | req h ih => intro r hr; simp only [Option.some.injEq] at hr; subst hr; exact ⟨_, [], rfl, by simp⟩
  | resp h ih => intro r h; cases h
  | @other l o e0 h he ih =>
    intro r hr
    obtain ⟨a, b, rfl, hb⟩ := ih r hr
    refine ⟨a, b ++ [e0], by simp, fun e' he' => ?_⟩
    rw [List.mem_append, List.mem_singleton] at he'
    rcases he' with he' | rfl
    · exact hb e' he'
    · exact he

/-- One entry of `current`. -/
def cur1 (p : Nat) (e : Entry) : Nat :=
  match e with
  | .spawn _ n => if 0 < n then n.toNat else p
  | .takeover _ n => n
  | .died _ => 0
  | .stop _ => 0
  | _ => p

theorem current_eq {l} : current l = l.foldl cur1 0 := rfl
theorem current_snoc {l e} : current (l ++ [e]) = cur1 (current l) e := by rw [current_eq, current_eq, List.foldl_append]; rfl

/-- An entry that changes nothing of what is known of replacements and loads. -/
def Quiet (s : Css) (e : Entry) : Prop :=
  match e with
  | .load _ => False
  | .loaded _ _ => False
  | .died _ => False
  | .takeover _ _ => False
  | .stop _ => False
  | .spawn _ p => p ≤ 0 ∧ s.pid = 0
  | .close id => s.dmn ≠ some id
  | _ => True

theorem Quiet.current {s e l} (h : Quiet s e) : current (l ++ [e]) = current l := by
  rw [current_snoc]
  cases e <;> simp_all [Quiet, cur1]
  intro h0; omega

theorem Taker.snoc {l k e} (h : Taker l k) (h1 : e ≠ .close k) (h2 : ∀ p, e ≠ .died p) (h3 : ∀ i q, e ≠ .takeover i q) (h4 : ∀ i q, e ≠ .spawn i q) : Taker (l ++ [e]) k := by
  obtain ⟨a, p, b, rfl, hp, hb⟩ := h
  refine ⟨a, p, b ++ [e], by simp, hp, fun e' he' => ?_⟩
  rw [List.mem_append, List.mem_singleton] at he'
  rcases he' with he' | rfl
  · exact hb e' he'
  · exact ⟨h1, h2, h3, h4⟩

/-- A client of a load under way: its request came before, and is not answered. -/
def Pending (l : List Entry) (id t : Nat) : Prop := ∃ a r b c, l = a ++ .req id r :: b ++ .load t :: c ∧ ∀ e ∈ b ++ c, turn e ≠ some id

theorem Pending.snoc {l id t e} (h : Pending l id t) (he : turn e ≠ some id) : Pending (l ++ [e]) id t := by
  obtain ⟨a, r, b, c, rfl, hb⟩ := h
  refine ⟨a, r, b, c ++ [e], by simp, fun e' he' => ?_⟩
  rw [← List.append_assoc, List.mem_append, List.mem_singleton] at he'
  rcases he' with he' | rfl
  · exact hb e' he'
  · exact he

/-! ### The invariant -/

structure BInv (cfg : Cfg) (X : Option Nat) (s : Css) (l : List Entry) : Prop where
  pid : s.pid = current l
  que : ∀ id ∈ s.active ++ s.queued, X ≠ some id ∧ ∃ c, s.conn id = some c ∧ c.st = .waiting ∧ msgKey c.rbuf = 90 ∧ Permitted c
  nodup : (s.active ++ s.queued).Nodup
  act : s.active = [] → s.queued = []
  noQ : s.pid ≠ 0 → s.active = [] ∧ s.queued = []
  timer1 : s.pid ≠ 0 → s.timer = true
  timer0 : s.timer = true → s.pid = 0 → ∃ id, .takeover id 0 ∈ l
  ctl : ∀ k, s.ctl = some k → X ≠ some k ∧ s.pid ≠ 0 ∧ ∃ c, s.conn k = some c ∧ c.st = .waiting ∧ msgKey c.rbuf = 82
  dmn : ∀ k, s.dmn = some k → (∃ c, s.conn k = some c) ∧ s.ctl ≠ some k ∧ (s.pid ≠ 0 → Taker l k)
  fds : ∀ k c, s.conn k = some c → c.st = .writingFds → s.dmn = some k ∧ s.pid ≠ 0
  waiting : ∀ k c, s.conn k = some c → c.st = .waiting → X = some k ∨ k ∈ s.active ++ s.queued ∨ s.ctl = some k
  thr : s.tid + 1 = s.threads.length
  thr0 : ∃ x, s.threads[0]? = some x ∧ x.joined = true
  load : ∀ t, .load t ∈ l ↔ 1 ≤ t ∧ t < s.threads.length
  loadedLt : ∀ t f, .loaded t f ∈ l → t < s.threads.length
  joined : ∀ t x, 1 ≤ t → s.threads[t]? = some x → (x.joined = true ↔ ∃ f, .loaded t f ∈ l)
  actT : s.active ≠ [] → ∃ x, s.threads[s.tid]? = some x ∧ x.joined = false ∧ (s.async = true ∨ x.ended = false)
  actL : ∀ id ∈ s.active, Pending l id s.tid
  acc : s.accepting = false → s.pid ≠ 0

structure FineB (cfg : Cfg) (a : List Entry) (e : Entry) : Prop where
  ack : ∀ id m d f r, e = .resp id m d f → Turns id a (some r) → msgKey r = 90 → msgKey m = 65 → Loaded a id r
  out : ∀ id b x f, e = .out id b (x :: f) → Taker a id
  share : ∀ id, e = .share id → Taker a id
  takeover : ∀ id p, e = .takeover id p → current a = 0 ∨ current a = p
  spawn : ∀ id p, e = .spawn id p → current a = 0
  kill : ∀ p, e = .kill p → p ≠ 0 ∧ (p = current a ∨ ∃ a' b, a = a' ++ .died p :: b ∧ b.length ≤ 1)
  died : ∀ p, e = .died p → p = current a ∧ p ≠ 0
  chal : ∀ id n d, e = .chal id n d → current a = 0
  flush : ∀ id, e = .flush id → current a = 0
  stop : ∀ id, e = .stop id → current a = 0 ∨ Taker a id
  signal : e = .signal → current a = 0
  load : ∀ t, e = .load t → (∃ id r, Turns id a (some r) ∧ msgKey r = 90 ∧ May a id Perm.ctl) ∧ .load t ∉ a ∧ current a = 0
  loaded : ∀ t f, e = .loaded t f → f = cfg.fails t ∧ ∀ f', .loaded t f' ∉ a

/-- Entries without any demand. -/
theorem FineB.plain {cfg a e} (h : (∃ id p, e = .accept id p) ∨ (∃ id m, e = .req id m) ∨ (∃ id b, e = .out id b []) ∨ (∃ id, e = .close id)) : FineB cfg a e := by
  rcases h with ⟨id, p, rfl⟩ | ⟨id, m, rfl⟩ | ⟨id, b, rfl⟩ | ⟨id, rfl⟩ <;> constructor <;> intros <;> simp_all

theorem FineB.resp {cfg a id m d f} (h : ∀ r, Turns id a (some r) → msgKey r = 90 → msgKey m = 65 → Loaded a id r) : FineB cfg a (.resp id m d f) := by
  constructor <;> intros <;> simp_all

theorem FineB.kill' {cfg a p} (h : p = current a ∨ ∃ a' b, a = a' ++ .died p :: b ∧ b.length ≤ 1) (h0 : p ≠ 0) : FineB cfg a (.kill p) := by
  constructor <;> intros <;> simp_all

theorem FineB.acts {cfg a e id k} (h : Acts id k e) (h0 : current a = 0) (hk : k ≠ 50) : FineB cfg a e := by
  cases h <;> constructor <;> intros <;> simp_all

structure J (cfg : Cfg) (X : Option Nat) (s : Css) (l : List Entry) : Prop where
  a : AInv cfg s l
  f : Every (FineB cfg) l
  b : BInv cfg X s l

theorem BInv.snoc {cfg X s l e} (h : BInv cfg X s l) (hq : Quiet s e) (ht : ∀ id ∈ s.active, turn e ≠ some id) : BInv cfg X s (l ++ [e]) where
  pid := by rw [hq.current]; exact h.pid
  que := h.que
  nodup := h.nodup
  act := h.act
  noQ := h.noQ
  timer1 := h.timer1
  timer0 := fun h1 h2 => by obtain ⟨i, hi⟩ := h.timer0 h1 h2; exact ⟨i, by simp [hi]⟩
  ctl := h.ctl
  dmn := by
    intro k hk
    obtain ⟨h1, h2, h3⟩ := h.dmn k hk
    refine ⟨h1, h2, fun hp => ?_⟩
    refine Taker.snoc (h3 hp) ?_ ?_ ?_ ?_ <;> intros <;> intro he <;> subst he <;> simp_all [Quiet]
  fds := h.fds
  waiting := h.waiting
  thr := h.thr
  thr0 := h.thr0
  loadedLt := by
    intro t f hf
    rw [List.mem_append, List.mem_singleton] at hf
    rcases hf with hf | rfl
    · exact h.loadedLt t f hf
    · exact absurd hq (by simp [Quiet])
  load := by
    intro t
    rw [← h.load t, List.mem_append, List.mem_singleton]
    constructor
    · rintro (h1 | rfl)
      · exact h1
      · exact absurd hq (by simp [Quiet])
    · exact Or.inl
  joined := by
    intro t x h1 h2
    rw [h.joined t x h1 h2]
    constructor
    · rintro ⟨f, hf⟩; exact ⟨f, by simp [hf]⟩
    · rintro ⟨f, hf⟩
      rw [List.mem_append, List.mem_singleton] at hf
      rcases hf with hf | rfl
      · exact ⟨f, hf⟩
      · exact absurd hq (by simp [Quiet])
  actT := h.actT
  actL := fun id hid => (h.actL id hid).snoc (ht id hid)
  acc := h.acc

/-- Another state of one connection that is not in a queue. -/
theorem BInv.upd {cfg X s l id} {s' : Css} {X'} (h : BInv cfg X s l) (hs' : s' = { s with conn := s'.conn }) (ho : ∀ i, i ≠ id → s'.conn i = s.conn i)
    (hq : id ∉ s.active ++ s.queued) (hc : s.ctl ≠ some id) (hd : s.dmn = some id → ∃ c, s'.conn id = some c)
    (hf : ∀ c, s'.conn id = some c → c.st = .writingFds → s.dmn = some id ∧ s.pid ≠ 0) (hw : ∀ c, s'.conn id = some c → c.st = .waiting → X' = some id)
    (hX : X = none ∨ X = some id) (hX' : X' = none ∨ X' = some id) : BInv cfg X' s' l := by
  have hX'' : ∀ i, i ≠ id → X' ≠ some i := by intro i hi; rcases hX' with rfl | rfl <;> simp; exact fun h => hi h.symm
  generalize hcn : s'.conn = cn at *
  subst hs'
  refine ⟨h.pid, ?_, h.nodup, h.act, h.noQ, h.timer1, h.timer0, ?_, ?_, ?_, ?_, h.thr, h.thr0, h.load, h.loadedLt, h.joined, h.actT, h.actL, h.acc⟩
  · intro i hi
    have hne : i ≠ id := fun he => hq (he ▸ hi)
    obtain ⟨_, c, h1, h2⟩ := h.que i hi
    exact ⟨hX'' i hne, c, by rw [← h1]; exact ho i hne, h2⟩
  · intro k hk
    have hne : k ≠ id := fun he => hc (he ▸ hk)
    obtain ⟨_, h0, c, h1, h2⟩ := h.ctl k hk
    exact ⟨hX'' k hne, h0, c, by rw [← h1]; exact ho k hne, h2⟩
  · intro k hk
    obtain ⟨⟨c, h1⟩, h2⟩ := h.dmn k hk
    by_cases hne : k = id
    · subst hne; exact ⟨hd hk, h2⟩
    · exact ⟨⟨c, by rw [← h1]; exact ho k hne⟩, h2⟩
  · intro k c hk hst
    by_cases hne : k = id
    · subst hne; exact hf c hk hst
    · exact h.fds k c (by rw [← ho k hne]; exact hk) hst
  · intro k c hk hst
    by_cases hne : k = id
    · subst hne; exact Or.inl (hw c hk hst)
    · rcases h.waiting k c (by rw [← ho k hne]; exact hk) hst with h1 | h1
      · rcases hX with rfl | rfl
        · cases h1
        · simp only [Option.some.injEq] at h1; exact absurd h1.symm hne
      · exact Or.inr h1

theorem BInv.notQ {cfg X s l id c} (h : BInv cfg X s l) (hc : s.conn id = some c) (hx : c.st ≠ .waiting ∨ X = some id) : id ∉ s.active ++ s.queued ∧ s.ctl ≠ some id := by
  constructor
  · intro hm
    obtain ⟨h1, c', h2, h3, _⟩ := h.que id hm
    rw [hc] at h2; simp only [Option.some.injEq] at h2; subst h2
    rcases hx with hx | hx
    · exact hx h3
    · exact h1 hx
  · intro hm
    obtain ⟨h1, _, c', h2, h3, _⟩ := h.ctl id hm
    rw [hc] at h2; simp only [Option.some.injEq] at h2; subst h2
    rcases hx with hx | hx
    · exact hx h3
    · exact h1 hx

theorem AInv.turns {cfg s l id c} (h : AInv cfg s l) (hc : s.conn id = some c) (hw : c.st = .waiting) : Turns id l (some c.rbuf) := by
  obtain ⟨_, hg⟩ := (h.conn id).2 c hc
  have := (Good.notLast hg (Or.inl (by rw [hw]; decide))).turns
  simpa [opn, hw] using this

/-! ### The parts -/

/-- A change of one connection with entries of it. -/
theorem J.upd {cfg X s l id c l'} {s' : Css} {X'} (h : J cfg X s l) (hl : Loc cfg s l' s') (hc : s.conn id = some c) (hx : c.st ≠ .waiting ∨ X = some id)
    (hs' : s' = { s with conn := s'.conn }) (ho : ∀ i, i ≠ id → s'.conn i = s.conn i) (hsome : ∃ c', s'.conn id = some c')
    (hf : ∀ c, s'.conn id = some c → c.st = .writingFds → s.dmn = some id ∧ s.pid ≠ 0) (hw : ∀ c, s'.conn id = some c → c.st = .waiting → X' = some id)
    (hX : X = none ∨ X = some id) (hX' : X' = none ∨ X' = some id) (hfine : Every (FineB cfg) (l ++ l')) (hq : ∀ e ∈ l', Quiet s e ∧ ∀ i, turn e = some i → i = id) : J cfg X' s' (l ++ l') := by
  refine ⟨h.a.loc hl (by rw [hs']), hfine, ?_⟩
  obtain ⟨h1, h2⟩ := h.b.notQ hc hx
  have hb : BInv cfg X' s' l := h.b.upd hs' ho h1 h2 (fun _ => hsome) hf hw hX hX'
  have hqs : ∀ e, Quiet s e → Quiet s' e := by
    intro e he; rw [hs']; cases e <;> simpa [Quiet] using he
  have hact : s'.active = s.active := by rw [hs']
  clear hfine hl
  induction l' generalizing l with
  | nil => simpa using hb
  | cons e l' ih =>
    rw [show l ++ e :: l' = (l ++ [e]) ++ l' by simp]
    have hqe := hq e (by simp)
    have hb1 : BInv cfg X' s' (l ++ [e]) := by
      refine hb.snoc (hqs e hqe.1) fun i hi => ?_
      intro ht
      have := hqe.2 i ht
      subst this
      exact h1 (by rw [hact] at hi; simp [hi])
    exact go hb1 (fun e he => hqs e (hq e (by simp [he])).1) (fun e he => (hq e (by simp [he])).2) (by rw [hact]; simpa using fun h => h1 (by simp [h]))
where
  go {cfg X' s' id} {l l' : List Entry} (hb : BInv cfg X' s' l) (h1 : ∀ e ∈ l', Quiet s' e) (h2 : ∀ e ∈ l', ∀ i, turn e = some i → i = id) (h3 : id ∉ s'.active) :
      BInv cfg X' s' (l ++ l') := by
    induction l' generalizing l with
    | nil => simpa using hb
    | cons e l' ih =>
      rw [show l ++ e :: l' = (l ++ [e]) ++ l' by simp]
      refine ih (hb.snoc (h1 e (by simp)) fun i hi ht => ?_) (fun e he => h1 e (by simp [he])) fun e he => h2 e (by simp [he])
      exact h3 (h2 e (by simp) i ht ▸ hi)

theorem J.respond {cfg s l id c key v d data f s' l'} (h : J cfg (some id) s l) (hc : s.conn id = some c) (hd : data = none ∨ ∃ b, data = some b ∧ b ≠ [] ∧ d = b.length ∧ b.length < 2 ^ 32)
    (hk : msgKey c.rbuf = 90 → key ≠ 65) (hf : f = true → s.dmn = some id ∧ s.pid ≠ 0 ∧ 2 ≤ cfg.fds.length ∧ Permitted c ∧ msgKey c.rbuf = 84)
    (hr : respond cfg s id key v d data f = .ok (s', l')) : J cfg none s' (l ++ l') := by
  obtain ⟨c', hc', hw, hfr, hh⟩ := respond_ok hr
  have : c' = c := by rw [hc] at hc'; simpa using hc'.symm
  subst this
  have ht := h.a.turns hc hw
  have hfin : ∀ m dd ff, msgKey m = key → Every (FineB cfg) (l ++ [.resp id m dd ff]) := fun m dd ff hm => h.f.snoc (FineB.resp fun r hr h90 h65 => by
    have := ht.unique hr; simp only [Option.some.injEq] at this; subst this; exact absurd (hm ▸ h65) (hk h90))
  have hmk : ∀ v d, msgKey (msg key v d) = key := fun v d => rfl
  rcases hh with ⟨b, hb, rfl, rfl, rfl⟩ | ⟨rfl, rfl, rfl, rfl, rfl, rfl⟩ | ⟨rfl, rfl, rfl, rfl⟩
  · obtain ⟨b', hb', hne, rfl, hlt⟩ := hd.resolve_left (by rw [hb]; simp)
    rw [hb] at hb'; simp only [Option.some.injEq] at hb'; subst hb'
    refine h.upd (Loc.put hc (LS.one (L.respData hw hne hlt)) (by simp [owner]) fun i => rfl) hc (Or.inr rfl) rfl (fun i hi => by simp [Css.put, hi]) ⟨_, by simp [Css.put]; rfl⟩ ?_ ?_ (Or.inr rfl) (Or.inl rfl) (hfin _ _ _ (hmk _ _)) (by simp [Quiet, turn])
    · intro c1 h1; simp only [Css.put, if_true, Option.some.injEq] at h1; subst h1; simp
    · intro c1 h1; simp only [Css.put, if_true, Option.some.injEq] at h1; subst h1; simp
  · obtain ⟨h1, h2, h3, h4, h5⟩ := hf rfl
    refine h.upd (Loc.put hc (LS.one (L.respFds hw h3 h4 h5)) (by simp [owner]) fun i => rfl) hc (Or.inr rfl) rfl (fun i hi => by simp [Css.put, hi]) ⟨_, by simp [Css.put]; rfl⟩ ?_ ?_ (Or.inr rfl) (Or.inl rfl) (hfin _ _ _ rfl) (by simp [Quiet, turn])
    · intro c1 _ _; exact ⟨h1, h2⟩
    · intro c1 h1; simp only [Css.put, if_true, Option.some.injEq] at h1; subst h1; simp
  · refine h.upd (Loc.put hc (LS.one (L.respNone hw)) (by simp [owner]) fun i => rfl) hc (Or.inr rfl) rfl (fun i hi => by simp [Css.put, hi]) ⟨_, by simp [Css.put]; rfl⟩ ?_ ?_ (Or.inr rfl) (Or.inl rfl) (hfin _ _ _ (hmk _ _)) (by simp [Quiet, turn])
    · intro c1 h1; simp only [Css.put, if_true, Option.some.injEq] at h1; subst h1; simp
    · intro c1 h1; simp only [Css.put, if_true, Option.some.injEq] at h1; subst h1; simp

theorem J.answer {cfg s l id c key s' l'} (h : J cfg (some id) s l) (hc : s.conn id = some c) (hk : msgKey c.rbuf = 90 → key ≠ 65)
    (hr : answer cfg s id key = .ok (s', l')) : J cfg none s' (l ++ l') :=
  h.respond hc (Or.inl rfl) hk (fun h => by cases h) hr

/-- An entry without a change. -/
theorem J.entry {cfg s l id c e} (h : J cfg (some id) s l) (hc : s.conn id = some c) (hw : c.st = .waiting) (hp : Permitted c) (ha : Acts id (msgKey c.rbuf) e) (ho : owner e = some id)
    (hq : Quiet s e) (hf : FineB cfg l e) : J cfg (some id) s (l ++ [e]) := by
  refine h.upd (Loc.act hc hw hp ha ho rfl) hc (Or.inr rfl) rfl (fun i _ => rfl) ⟨c, hc⟩ ?_ (fun _ _ _ => rfl) (Or.inr rfl) (Or.inr rfl) (h.f.snoc hf) ?_
  · intro c1 h1; rw [hc] at h1; simp only [Option.some.injEq] at h1; subst h1; rw [hw]; intro h; cases h
  · intro e' he'
    rw [List.mem_singleton] at he'; subst he'
    refine ⟨hq, fun i hi => ?_⟩
    exact absurd hi (by intro hi; have := (acts_owner ha).1; generalize msgKey c.rbuf = k at ha; cases ha <;> simp [turn] at hi)

theorem cleanup_put {s : Css} {id c x} (hc : s.conn id = some c) : cleanup (s.put id (some x)) id = cleanup s id := by
  unfold cleanup Css.get
  rw [hc]
  simp only [Css.put, if_true, Outcome.bind, Outcome.ok.injEq, Prod.mk.injEq, and_true]
  by_cases h1 : s.ctl = some id <;> by_cases h2 : s.dmn = some id <;> simp [h1, h2] <;> funext i <;> by_cases hi : i = id <;> simp [hi]

theorem J.cleanup {cfg X s l id c s' l'} (h : J cfg X s l) (hc : s.conn id = some c) (hx : c.st ≠ .waiting ∨ X = some id) (hX : X = none ∨ X = some id)
    (hr : cleanup s id = .ok (s', l')) : J cfg none s' (l ++ l') := by
  have hl := cleanup_loc (cfg := cfg) hr
  obtain ⟨c', hc', h1, h2, rfl⟩ := cleanup_ok hr
  obtain ⟨hq, hctl⟩ := h.b.notQ hc hx
  refine ⟨h.a.loc hl (by rw [h2]), ?_, ?_⟩
  · rw [← List.append_assoc]
    refine Every.snoc ?_ (FineB.plain (Or.inr (Or.inr (Or.inr ⟨_, rfl⟩))))
    split
    · next hk => exact h.f.snoc (FineB.kill' (Or.inl h.b.pid) hk.2)
    · simpa using h.f
  · rw [← List.append_assoc]
    have hb1 : BInv cfg X s (l ++ if s.dmn = some id ∧ s.pid ≠ 0 then [.kill s.pid] else []) := by
      split
      · exact h.b.snoc trivial (by simp [turn])
      · simpa using h.b
    have hX' : ∀ i, (none : Option Nat) ≠ some i := by simp
    rw [h2]
    generalize hcn : s'.conn = cn at *
    rw [if_neg hctl]
    have hb2 : BInv cfg none { s with conn := cn, dmn := if s.dmn = some id then none else s.dmn } (l ++ if s.dmn = some id ∧ s.pid ≠ 0 then [.kill s.pid] else []) := by
      refine ⟨hb1.pid, ?_, hb1.nodup, hb1.act, hb1.noQ, hb1.timer1, hb1.timer0, ?_, ?_, ?_, ?_, hb1.thr, hb1.thr0, hb1.load, hb1.loadedLt, hb1.joined, hb1.actT, hb1.actL, hb1.acc⟩
      · intro i hi
        obtain ⟨_, c, h3, h4⟩ := hb1.que i hi
        refine ⟨by simp, c, ?_, h4⟩
        show cn i = _
        rw [h1 i, if_neg (fun he : i = id => hq (he ▸ hi)), h3]
      · intro k hk
        obtain ⟨_, h0, c, h3, h4⟩ := hb1.ctl k hk
        refine ⟨by simp, h0, c, ?_, h4⟩
        show cn k = _
        rw [h1 k, if_neg (fun he : k = id => hctl (he ▸ hk)), h3]
      · intro k hk
        dsimp only at hk
        split at hk
        · cases hk
        · next hne =>
          obtain ⟨⟨c, h3⟩, h4⟩ := hb1.dmn k hk
          refine ⟨⟨c, ?_⟩, h4⟩
          show cn k = _
          rw [h1 k, if_neg (fun he : k = id => hne (he ▸ hk)), h3]
      · intro k c3 hk hst
        change cn k = _ at hk
        rw [h1 k] at hk
        split at hk
        · cases hk
        · next hne =>
          obtain ⟨h3, h4⟩ := hb1.fds k c3 hk hst
          refine ⟨?_, h4⟩
          dsimp only
          rw [if_neg ?_]; exact h3
          rw [h3]; simpa using hne
      · intro k c3 hk hst
        change cn k = _ at hk
        rw [h1 k] at hk
        split at hk
        · cases hk
        · next hne =>
          rcases hb1.waiting k c3 hk hst with h3 | h3
          · rcases hX with rfl | rfl
            · cases h3
            · simp only [Option.some.injEq] at h3; exact absurd h3.symm hne
          · exact Or.inr h3
    refine hb2.snoc ?_ (by simp [turn])
    simp only [Quiet]
    split
    · simp
    · assumption

theorem J.req {cfg s l id c m} (h : J cfg none s l) (hc : s.conn id = some c) (hst : c.st = .readingReq) (hon : c.rOn = true) (h8 : m.length = 8) :
    J cfg (some id) (s.put id (some { c with rbuf := m, rOn := false, st := .waiting })) (l ++ [.req id m]) := by
  refine h.upd (Loc.put hc (LS.one (L.req hst hon h8)) (by simp [owner]) fun i => rfl) hc (Or.inl (by rw [hst]; decide)) rfl (fun i hi => by simp [Css.put, hi]) ⟨_, by simp [Css.put]; rfl⟩ ?_ (fun _ _ _ => rfl)
    (Or.inl rfl) (Or.inr rfl) (h.f.snoc (FineB.plain (Or.inr (Or.inl ⟨_, _, rfl⟩)))) (by simp [Quiet, turn])
  intro c1 h1; simp only [Css.put, if_true, Option.some.injEq] at h1; subst h1; simp

end Gdnsd.Css
