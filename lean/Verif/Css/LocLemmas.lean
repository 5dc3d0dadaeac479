/-
What a callback does to one connection: every callback is, for each connection, a sequence of the small
steps `L`.
-/
import Verif.Css.Spec
namespace Gdnsd.Css
open CssSpec

/-- The connection an entry belongs to. -/
def owner : Entry → Option Nat
  | .accept id _ => some id
  | .req id _ => some id
  | .resp id _ _ _ => some id
  | .out id _ _ => some id
  | .close id => some id
  | .chal id _ _ => some id
  | .flush id => some id
  | .share id => some id
  | .spawn id _ => some id
  | .takeover id _ => some id
  | .stop id => some id
  | _ => none

/-- The request a connection must have sent for an entry. -/
inductive Acts (id : Nat) : UInt8 → Entry → Prop
  | chal {n d} : Acts id 67 (.chal id n d)
  | flush : Acts id 99 (.flush id)
  | spawn {p} : Acts id 82 (.spawn id p)
  | takeover {p} : Acts id 49 (.takeover id p)
  | share : Acts id 50 (.share id)
  | stop : Acts id 88 (.stop id)

/-- A client that may send the request it has sent. -/
def Permitted (c : Conn) : Prop := ∀ p, c.perm = some p → allowed p (msgKey c.rbuf) = true

inductive L (cfg : Cfg) (id : Nat) : Option Conn → List Entry → Option Conn → Prop
  | other {c e} : owner e ≠ some id → L cfg id c [e] c
  | req {c m} : c.st = .readingReq → c.rOn = true → m.length = 8 → L cfg id (some c) [.req id m] (some { c with rbuf := m, rOn := false, st := .waiting })
  | reqData {c m} : c.st = .readingReq → c.rOn = true → m.length = 8 → msgKey m = 67 → (∀ p, c.perm = some p → allowed p (msgKey m) = true) → msgD m ≠ 0 →
      L cfg id (some c) [.req id m] (some { c with rbuf := m, st := .readingData, done := 0, size := msgD m, data := some [] })
  | recv {c b l} : c.st = .readingData → c.data = some b → c.done + l.length < c.size → L cfg id (some c) [] (some { c with data := some (b ++ l), done := c.done + l.length })
  | recvAll {c} : c.st = .readingData → L cfg id (some c) [] (some { c with rOn := false, st := .waiting, data := none, size := 0, done := 0 })
  | act {c e} : c.st = .waiting → Permitted c → Acts id (msgKey c.rbuf) e → L cfg id (some c) [e] (some c)
  | respData {c key v b} : c.st = .waiting → b ≠ [] → b.length < 2 ^ 32 →
      L cfg id (some c) [.resp id (msg key v b.length) b false] (some { c with wbuf := msg key v b.length, st := .writing, data := some b, size := b.length, done := 0, wOn := true })
  | respFds {c} : c.st = .waiting → 2 ≤ cfg.fds.length → Permitted c → msgKey c.rbuf = 84 →
      L cfg id (some c) [.resp id (msg 65 cfg.fds.length 0) [] true] (some { c with wbuf := msg 65 cfg.fds.length 0, st := .writingFds, size := cfg.fds.length, done := 0, wOn := true })
  | respNone {c key v d} : c.st = .waiting →
      L cfg id (some c) [.resp id (msg key v d) [] false] (some { c with wbuf := msg key v d, st := .writing, wOn := true })
  | block {c} : c.st = .waiting → L cfg id (some c) [.resp id (msg 65 0 0) [] false, .out id (msg 65 0 0) []] (some { c with wbuf := msg 65 0 0, st := .writing })
  | blockFail {c} : c.st = .waiting → L cfg id (some c) [.resp id (msg 65 0 0) [] false] (some { c with wbuf := msg 65 0 0, st := .writing })
  | head {c} : c.st = .writing → c.wOn = true → c.data.isSome → L cfg id (some c) [.out id c.wbuf []] (some { c with st := .writingData })
  | headEnd {c} : c.st = .writing → c.wOn = true → c.data = none → L cfg id (some c) [.out id c.wbuf []] (some c.again)
  | fds {c} : c.st = .writingFds → c.wOn = true → c.done + 253 < c.size →
      L cfg id (some c) [.out id c.wbuf ((cfg.fds.drop c.done).take 253)] (some { c with done := c.done + 253 })
  | fdsEnd {c} : c.st = .writingFds → c.wOn = true → c.done < c.size → c.size ≤ c.done + 253 →
      L cfg id (some c) [.out id c.wbuf ((cfg.fds.drop c.done).take (c.size - c.done))] (some { c with size := 0, done := 0 }.again)
  | data {c b k} : c.st = .writingData → c.wOn = true → c.data = some b → c.done + k < c.size → L cfg id (some c) [.out id ((b.drop c.done).take k) []] (some { c with done := c.done + k })
  | dataEnd {c b k} : c.st = .writingData → c.wOn = true → c.data = some b → c.done + k = c.size →
      L cfg id (some c) [.out id ((b.drop c.done).take k) []] (some { c with data := none, size := 0, done := 0 }.again)
  | close {c} : L cfg id (some c) [.close id] none
  | nofd {c} : L cfg id (some c) [] (some { c with fd := false })

/-- Sequences. -/
inductive LS (cfg : Cfg) (id : Nat) : Option Conn → List Entry → Option Conn → Prop
  | nil {c} : LS cfg id c [] c
  | step {a b c l l'} : LS cfg id a l b → L cfg id b l' c → LS cfg id a (l ++ l') c

theorem LS.one {cfg id a l b} (h : L cfg id a l b) : LS cfg id a l b := by simpa using LS.step LS.nil h

theorem LS.trans {cfg id a l b l' c} (h : LS cfg id a l b) (h' : LS cfg id b l' c) : LS cfg id a (l ++ l') c := by
  induction h' with
  | nil => simpa using h
  | step h1 h2 ih => rw [← List.append_assoc]; exact LS.step ih h2

theorem LS.others {cfg id c} {l : List Entry} (h : ∀ e ∈ l, owner e ≠ some id) : LS cfg id c l c := by
  induction l with
  | nil => exact LS.nil
  | cons e l ih => exact LS.trans (l := [e]) (LS.one (L.other (h e (by simp)))) (ih fun e' he' => h e' (by simp [he']))

/-- For all connections. -/
def Loc (cfg : Cfg) (s : Css) (l : List Entry) (s' : Css) : Prop := ∀ id, LS cfg id (s.conn id) l (s'.conn id)

theorem Loc.refl {cfg s s'} (h : s'.conn = s.conn) : Loc cfg s [] s' := fun id => by rw [h]; exact LS.nil

theorem Loc.trans {cfg s l s' l' s''} (h : Loc cfg s l s') (h' : Loc cfg s' l' s'') : Loc cfg s (l ++ l') s'' := fun id => LS.trans (h id) (h' id)

theorem Loc.put {cfg s id c l c'} (hc : s.conn id = some c) (h : LS cfg id (some c) l c') (ho : ∀ e ∈ l, owner e = some id) {s' : Css}
    (hs' : ∀ i, s'.conn i = if i = id then c' else s.conn i) : Loc cfg s l s' := by
  intro i
  rw [hs' i]
  by_cases hi : i = id
  · subst hi; rw [hc, if_pos rfl]; exact h
  · rw [if_neg hi]; exact LS.others fun e he => by rw [ho e he]; simpa using fun h => hi h.symm

theorem Loc.free {cfg s} {l : List Entry} {s'} (h : s'.conn = s.conn) (ho : ∀ e ∈ l, owner e = none) : Loc cfg s l s' := by
  intro i; rw [h]; exact LS.others fun e he => by rw [ho e he]; simp

/-! ### Outcomes -/

theorem bind_ok {α β} {x : Outcome α} {f : α → Outcome β} {b} (h : x.bind f = .ok b) : ∃ a, x = .ok a ∧ f a = .ok b := by
  cases x with
  | ok a => exact ⟨a, rfl, h⟩
  | ub => cases h

theorem map_ok {α β} {x : Outcome α} {f : α → β} {b} (h : x.map f = .ok b) : ∃ a, x = .ok a ∧ f a = b := by
  cases x with
  | ok a => exact ⟨a, rfl, by simpa [Outcome.map] using h⟩
  | ub => cases h

theorem assert_ok {b : Bool} {u} (h : assert b = .ok u) : b = true := by
  cases b <;> simp [assert] at h ⊢

theorem andThen_ok {x : Step} {f : Css → Step} {s l} (h : andThen x f = .ok (s, l)) :
    ∃ s1 l1 l2, x = .ok (s1, l1) ∧ f s1 = .ok (s, l2) ∧ l = l1 ++ l2 := by
  obtain ⟨⟨s1, l1⟩, hx, h⟩ := bind_ok h
  obtain ⟨⟨s2, l2⟩, hf, h⟩ := map_ok h
  simp only [Prod.mk.injEq] at h
  obtain ⟨rfl, rfl⟩ := h
  exact ⟨s1, l1, l2, hx, hf, rfl⟩

theorem one_ok {s s' : Css} {l l' : List Entry} (h : (Outcome.ok (s, l) : Step) = .ok (s', l')) : s' = s ∧ l' = l := by
  simp only [Outcome.ok.injEq, Prod.mk.injEq] at h; exact ⟨h.1.symm, h.2.symm⟩

theorem get_ok {s : Css} {id c} (h : s.get id = .ok c) : s.conn id = some c := by
  unfold Css.get at h
  split at h
  · simp only [Outcome.ok.injEq] at h; subst h; assumption
  · cases h

/-! ### The parts -/

/-- Only connections change. -/
def Frame (s s' : Css) : Prop := s' = { s with conn := s'.conn }

theorem Frame.refl {s : Css} : Frame s s := rfl
theorem Frame.trans {s s' s'' : Css} (h : Frame s s') (h' : Frame s' s'') : Frame s s'' := by
  unfold Frame at *; rw [h'] ; rw [h]
theorem Frame.put {s : Css} {id c} : Frame s (s.put id c) := rfl

/-- What `respond` gives. -/
theorem respond_ok {cfg s id key v d data fds s' l} (h : respond cfg s id key v d data fds = .ok (s', l)) :
    ∃ c, s.conn id = some c ∧ c.st = .waiting ∧ Frame s s' ∧
      ((∃ b, data = some b ∧ fds = false ∧ l = [.resp id (msg key v d) b false] ∧
        s' = s.put id (some { c with wbuf := msg key v d, st := .writing, data := some b, size := d, done := 0, wOn := true })) ∨
      (data = none ∧ fds = true ∧ key = 65 ∧ d = 0 ∧ l = [.resp id (msg 65 cfg.fds.length 0) [] true] ∧
        s' = s.put id (some { c with wbuf := msg 65 cfg.fds.length 0, st := .writingFds, size := cfg.fds.length, done := 0, wOn := true })) ∨
      (data = none ∧ fds = false ∧ l = [.resp id (msg key v d) [] false] ∧ s' = s.put id (some { c with wbuf := msg key v d, st := .writing, wOn := true }))) := by
  obtain ⟨c, hc, h⟩ := bind_ok h
  have hc := get_ok hc
  obtain ⟨_, h1, h⟩ := bind_ok h
  obtain ⟨_, h2, h⟩ := bind_ok h
  obtain ⟨_, h3, h⟩ := bind_ok h
  have h1 := of_decide_eq_true (assert_ok h1)
  have h3 := assert_ok h3
  refine ⟨c, hc, h1, ?_⟩
  cases data with
  | some b =>
    simp only [Outcome.ok.injEq, Prod.mk.injEq] at h
    obtain ⟨rfl, rfl⟩ := h
    refine ⟨Frame.put, Or.inl ⟨b, rfl, by simpa using h3, rfl, rfl⟩⟩
  | none =>
    cases fds with
    | true =>
      dsimp only at h
      rw [if_pos rfl] at h
      obtain ⟨_, h4, h⟩ := bind_ok h
      obtain ⟨_, h5, hE⟩ := bind_ok h
      have h4 := assert_ok h4
      simp only [Bool.and_eq_true, beq_iff_eq] at h4
      obtain ⟨⟨rfl, rfl⟩, rfl⟩ := h4
      obtain ⟨rfl, rfl⟩ := one_ok hE
      exact ⟨Frame.put, Or.inr (Or.inl ⟨rfl, rfl, rfl, rfl, rfl, rfl⟩)⟩
    | false =>
      simp only [Bool.false_eq_true, if_false, Outcome.ok.injEq, Prod.mk.injEq] at h
      obtain ⟨rfl, rfl⟩ := h
      exact ⟨Frame.put, Or.inr (Or.inr ⟨rfl, rfl, rfl, rfl⟩)⟩

theorem answer_ok {cfg s id key s' l} (h : answer cfg s id key = .ok (s', l)) :
    ∃ c, s.conn id = some c ∧ c.st = .waiting ∧ l = [.resp id (msg key 0 0) [] false] ∧ s' = s.put id (some { c with wbuf := msg key 0 0, st := .writing, wOn := true }) := by
  obtain ⟨c, hc, hw, _, h⟩ := respond_ok h
  rcases h with ⟨b, h, _⟩ | ⟨_, h, _⟩ | ⟨_, _, h1, h2⟩
  · cases h
  · cases h
  · exact ⟨c, hc, hw, h1, h2⟩

theorem answer_loc {cfg s id key s' l} (h : answer cfg s id key = .ok (s', l)) : Loc cfg s l s' := by
  obtain ⟨c, hc, hw, rfl, rfl⟩ := answer_ok h
  exact Loc.put hc (LS.one (L.respNone hw)) (by simp [owner]) fun i => rfl

theorem cleanup_ok {s id s' l} (h : cleanup s id = .ok (s', l)) :
    ∃ c, s.conn id = some c ∧ (∀ i, s'.conn i = if i = id then none else s.conn i) ∧
      s' = { s with conn := s'.conn, ctl := if s.ctl = some id then none else s.ctl, dmn := if s.dmn = some id then none else s.dmn } ∧
      l = (if s.dmn = some id ∧ s.pid ≠ 0 then [.kill s.pid] else []) ++ [.close id] := by
  obtain ⟨c, hc, h⟩ := bind_ok h
  have hc := get_ok hc
  dsimp only at h
  simp only [Outcome.ok.injEq, Prod.mk.injEq] at h
  obtain ⟨rfl, rfl⟩ := h
  refine ⟨c, hc, ?_, ?_, ?_⟩
  · intro i
    by_cases h1 : s.ctl = some id <;> by_cases h2 : s.dmn = some id <;> simp [h1, h2, Css.put]
  · by_cases h1 : s.ctl = some id <;> by_cases h2 : s.dmn = some id <;> simp [h1, h2, Css.put]
  · by_cases h1 : s.ctl = some id <;> simp [h1]

theorem cleanup_loc {cfg s id s' l} (h : cleanup s id = .ok (s', l)) : Loc cfg s l s' := by
  obtain ⟨c, hc, h1, _, rfl⟩ := cleanup_ok h
  have hk : Loc cfg s (if s.dmn = some id ∧ s.pid ≠ 0 then [.kill s.pid] else []) s := by
    split
    · exact Loc.free rfl (by simp [owner])
    · exact Loc.refl rfl
  exact Loc.trans hk (Loc.put hc (LS.one L.close) (by simp [owner]) h1)

theorem blockingAck_ok {cfg s id good r s' l} (h : blockingAck s id good = .ok (r, s', l)) :
    Loc cfg s l s' ∧ r = good ∧ (∃ c, s.conn id = some c ∧ c.st = .waiting) ∧ (good = true → Frame s s' ∧ ∃ c, s'.conn id = some c) := by
  obtain ⟨c, hc, h⟩ := bind_ok h
  have hc := get_ok hc
  obtain ⟨_, h1, h⟩ := bind_ok h
  have h1 := of_decide_eq_true (assert_ok h1)
  dsimp only at h
  cases good with
  | true =>
    simp only [if_true, Outcome.ok.injEq, Prod.mk.injEq] at h
    obtain ⟨rfl, rfl, rfl⟩ := h
    exact ⟨Loc.put hc (LS.one (L.block h1)) (by simp [owner]) fun i => rfl, rfl, ⟨c, hc, h1⟩, fun _ => ⟨Frame.put, _, by simp [Css.put]; rfl⟩⟩
  | false =>
    simp only [Bool.false_eq_true, if_false] at h
    obtain ⟨⟨s1, l1⟩, h2, h⟩ := map_ok h
    simp only [Prod.mk.injEq] at h
    obtain ⟨rfl, rfl, rfl⟩ := h
    refine ⟨?_, rfl, ⟨c, hc, h1⟩, fun h => by cases h⟩
    exact Loc.trans (l := [_]) (Loc.put hc (LS.one (L.blockFail h1)) (by simp [owner]) fun i => rfl) (cleanup_loc h2)

/-- Answers to a list of clients. -/
theorem answers_ok {cfg key} {ids : List Nat} {s : Css} {l s' l'}
    (h : ids.foldl (fun (x : Step) (id : Nat) => andThen x fun s => answer cfg s id key) (.ok (s, l)) = .ok (s', l')) :
    ∃ l2, l' = l ++ l2 ∧ Loc cfg s l2 s' ∧ Frame s s' ∧ l2 = ids.map (fun id => .resp id (msg key 0 0) [] false) ∧ (∀ i, i ∉ ids → s'.conn i = s.conn i) ∧
      ∀ i ∈ ids, ∃ c, s.conn i = some c ∧ c.st = .waiting ∧ s'.conn i = some { c with wbuf := msg key 0 0, st := .writing, wOn := true } := by
  induction ids generalizing s l with
  | nil => simp only [List.foldl_nil, Outcome.ok.injEq, Prod.mk.injEq] at h; obtain ⟨rfl, rfl⟩ := h; exact ⟨[], by simp, Loc.refl rfl, Frame.refl, rfl, fun _ _ => rfl, by simp⟩
  | cons id ids ih =>
    rw [List.foldl_cons] at h
    cases hx : andThen (Outcome.ok (s, l)) (fun s => answer cfg s id key) with
    | ub =>
      rw [hx] at h
      exfalso
      have : ∀ ids : List Nat, ids.foldl (fun (x : Step) (id : Nat) => andThen x fun s => answer cfg s id key) .ub = .ub := by
        intro ids; induction ids with
        | nil => rfl
        | cons i ids ih => rw [List.foldl_cons]; exact ih
      rw [this] at h; cases h
    | ok p =>
      obtain ⟨s1, l1⟩ := p
      rw [hx] at h
      obtain ⟨s0, l0, l3, h0, h1, rfl⟩ := andThen_ok hx
      simp only [Outcome.ok.injEq, Prod.mk.injEq] at h0
      obtain ⟨rfl, rfl⟩ := h0
      obtain ⟨l2, rfl, h2, h3, rfl, h4, h5⟩ := ih h
      have hl := answer_loc h1
      obtain ⟨c, hc, hw, rfl, rfl⟩ := answer_ok h1
      refine ⟨_, by rw [List.append_assoc], Loc.trans hl h2, Frame.trans Frame.put h3, rfl, ?_, ?_⟩
      · intro i hi
        rw [List.mem_cons, not_or] at hi
        rw [h4 i hi.2]
        simp [Css.put, hi.1]
      · intro i hi
        by_cases hid : i = id
        · subst hid
          refine ⟨c, hc, hw, ?_⟩
          by_cases hm : i ∈ ids
          · exfalso
            obtain ⟨c', hc', hw', _⟩ := h5 i hm
            simp only [Css.put, if_true, Option.some.injEq] at hc'
            subst hc'
            simp at hw'
          · rw [h4 i hm]; simp [Css.put]
        · have hm : i ∈ ids := by simpa [hid] using hi
          obtain ⟨c', hc', hw', hs'⟩ := h5 i hm
          simp only [Css.put, if_neg hid] at hc'
          exact ⟨c', hc', hw', hs'⟩

theorem latrAll_ok {cfg s s' l} (h : latrAll cfg s = .ok (s', l)) :
    Loc cfg s l s' ∧ s' = { s with conn := s'.conn, active := [], queued := [] } ∧ l = (s.active ++ s.queued).map (fun id => .resp id (msg 76 0 0) [] false) ∧
      (∀ i, i ∉ s.active ++ s.queued → s'.conn i = s.conn i) ∧
      ∀ i ∈ s.active ++ s.queued, ∃ c, s.conn i = some c ∧ c.st = .waiting ∧ s'.conn i = some { c with wbuf := msg 76 0 0, st := .writing, wOn := true } := by
  unfold latrAll at h
  dsimp only at h
  obtain ⟨s1, l1, l2, h1, h2, rfl⟩ := andThen_ok h
  simp only [Outcome.ok.injEq, Prod.mk.injEq] at h2
  obtain ⟨rfl, rfl⟩ := h2
  obtain ⟨l2, rfl, h2, h3, h4, h5, h6⟩ := answers_ok h1
  simp only [List.nil_append, List.append_nil]
  refine ⟨h2, ?_, h4, h5, h6⟩
  rw [h3]

/-! ### The callbacks -/

theorem Loc.act {cfg s id c e} {s' : Css} (hc : s.conn id = some c) (hw : c.st = .waiting) (hp : Permitted c) (ha : Acts id (msgKey c.rbuf) e) (ho : owner e = some id)
    (hs : s'.conn = s.conn) : Loc cfg s [e] s' := by
  refine Loc.put hc (LS.one (L.act hw hp ha)) (by simpa using ho) fun i => ?_
  rw [hs]
  split
  · next h => rw [h, hc]
  · rfl

theorem nofd_loc {cfg s id} {s' : Css} (h : ((s.get id).map fun c => s.put id (some { c with fd := false })) = .ok s') : Loc cfg s [] s' ∧ Frame s s' := by
  obtain ⟨c, hc, rfl⟩ := map_ok h
  exact ⟨Loc.put (get_ok hc) (LS.one L.nofd) (by simp) fun i => rfl, Frame.put⟩

theorem reqStop_loc {cfg s id c env s' l} (hc : s.conn id = some c) (hw : c.st = .waiting) (hp : Permitted c) (hk : msgKey c.rbuf = 88)
    (h : reqStop cfg s id env = .ok (s', l)) : Loc cfg s l s' := by
  unfold reqStop at h
  split at h
  · exact answer_loc h
  · obtain ⟨⟨r1, s1, l1⟩, h1, h⟩ := bind_ok h
    obtain ⟨s2, h2, h⟩ := bind_ok h
    have hst : Loc cfg s [.stop id] { s with pid := 0, running := false } := Loc.act hc hw hp (hk ▸ Acts.stop) rfl rfl
    have ha := (blockingAck_ok (cfg := cfg) h1).1
    have hb : Loc cfg s1 [] s2 := by
      split at h2
      · exact (nofd_loc h2).1
      · simp only [Outcome.ok.injEq] at h2; subst h2; exact Loc.refl rfl
    have hab : Loc cfg s (.stop id :: l1) s2 := by simpa using Loc.trans hst (Loc.trans ha hb)
    dsimp only at h
    split at h
    · obtain ⟨rfl, rfl⟩ := one_ok h; exact hab
    · obtain ⟨_, _, h⟩ := bind_ok h
      obtain ⟨⟨r3, s3, l3⟩, h3, h⟩ := bind_ok h
      obtain ⟨s4, h4, h⟩ := map_ok h
      simp only [Prod.mk.injEq] at h
      obtain ⟨rfl, rfl⟩ := h
      have hc3 := (blockingAck_ok (cfg := cfg) h3).1
      have hd : Loc cfg s3 [] s4 := by
        split at h4
        · exact (nofd_loc h4).1
        · simp only [Outcome.ok.injEq] at h4; subst h4; exact Loc.refl rfl
      simpa using Loc.trans hab (Loc.trans hc3 hd)

theorem load_ok {s s' l} (h : load s = .ok (s', l)) : s' = { s with threads := s.threads ++ [⟨false, false⟩], tid := s.threads.length } ∧ l = [.load s.threads.length] := one_ok h

theorem load_loc {cfg s s' l} (h : load s = .ok (s', l)) : Loc cfg s l s' := by
  obtain ⟨rfl, rfl⟩ := load_ok h
  exact Loc.free rfl (by simp [owner])

theorem Loc.conn {cfg s s1 l s'} (h : Loc cfg s1 l s') (hs : s1.conn = s.conn) : Loc cfg s l s' := fun i => by rw [← hs]; exact h i

theorem reqZrel_loc {cfg s id s' l} (h : reqZrel cfg s id = .ok (s', l)) : Loc cfg s l s' := by
  unfold reqZrel at h
  split at h
  · exact answer_loc h
  · dsimp only at h
    split at h
    · exact (load_loc h).conn rfl
    · obtain ⟨rfl, rfl⟩ := one_ok h; exact Loc.refl rfl

theorem reqRepl_loc {cfg s id c env s' l} (hc : s.conn id = some c) (hw : c.st = .waiting) (hp : Permitted c) (hk : msgKey c.rbuf = 82)
    (h : reqRepl cfg s id env = .ok (s', l)) : Loc cfg s l s' := by
  unfold reqRepl at h
  split at h
  · exact answer_loc h
  · obtain ⟨_, _, h⟩ := bind_ok h
    obtain ⟨_, _, h⟩ := bind_ok h
    obtain ⟨s1, l1, l2, h1, h2, rfl⟩ := andThen_ok h
    obtain ⟨rfl, rfl⟩ := one_ok h1
    have ha : Loc cfg s1 [.spawn id env.spawn] s1 := Loc.act hc hw hp (hk ▸ Acts.spawn) rfl rfl
    refine Loc.trans ha ?_
    split at h2
    · exact answer_loc h2
    · exact (latrAll_ok h2).1.conn rfl

theorem reqTak1_loc {cfg s id c d s' l} (hc : s.conn id = some c) (hw : c.st = .waiting) (hp : Permitted c) (hk : msgKey c.rbuf = 49)
    (h : reqTak1 cfg s id d = .ok (s', l)) : Loc cfg s l s' := by
  unfold reqTak1 at h
  split at h
  · exact answer_loc h
  · obtain ⟨_, _, h⟩ := bind_ok h
    obtain ⟨s1, l1, l2, h1, h2, rfl⟩ := andThen_ok h
    obtain ⟨rfl, rfl⟩ := one_ok h1
    obtain ⟨s2, l3, l4, h3, h4, rfl⟩ := andThen_ok h2
    exact Loc.trans (Loc.act hc hw hp (hk ▸ Acts.takeover) rfl rfl) (Loc.trans (latrAll_ok h3).1 (answer_loc h4))

theorem reqTak2_loc {cfg s id c d env s' l} (he : EnvOk env) (hc : s.conn id = some c) (hw : c.st = .waiting) (hp : Permitted c) (hk : msgKey c.rbuf = 50)
    (h : reqTak2 cfg s id d env = .ok (s', l)) : Loc cfg s l s' := by
  unfold reqTak2 at h
  split at h
  · obtain ⟨s1, l1, l2, h1, h2, rfl⟩ := andThen_ok h
    exact Loc.trans (answer_loc h1) (cleanup_loc h2)
  · obtain ⟨s1, l1, l2, h1, h2, rfl⟩ := andThen_ok h
    obtain ⟨rfl, rfl⟩ := one_ok h1
    refine Loc.trans (Loc.act hc hw hp (hk ▸ Acts.share) rfl rfl) ?_
    obtain ⟨c', hc', hw', _, hh⟩ := respond_ok h2
    rcases hh with ⟨b, hb, _, rfl, rfl⟩ | ⟨_, hh, _⟩ | ⟨_, _, rfl, rfl⟩
    · have hne : b = env.csets.2 ∧ b ≠ [] := by
        split at hb
        · cases hb
        · simp only [Option.some.injEq] at hb; exact ⟨hb.symm, by rw [← hb]; assumption⟩
      obtain ⟨rfl, hne⟩ := hne
      exact Loc.put hc' (LS.one (L.respData hw' hne he.2.2.2.2.2)) (by simp [owner]) fun i => rfl
    · cases hh
    · exact Loc.put hc' (LS.one (L.respNone hw')) (by simp [owner]) fun i => rfl

theorem reqTake_loc {cfg s id c d s' l} (hc : s.conn id = some c) (hp : Permitted c) (hk : msgKey c.rbuf = 84)
    (h : reqTake cfg s id d = .ok (s', l)) : Loc cfg s l s' := by
  unfold reqTake at h
  split at h
  · obtain ⟨s1, l1, l2, h1, h2, rfl⟩ := andThen_ok h
    exact Loc.trans (answer_loc h1) (cleanup_loc h2)
  · obtain ⟨_, h1, h⟩ := bind_ok h
    have h1 := of_decide_eq_true (assert_ok h1)
    obtain ⟨c', hc', hw', _, hh⟩ := respond_ok h
    rcases hh with ⟨b, hb, _⟩ | ⟨_, _, _, _, rfl, rfl⟩ | ⟨_, hh, _⟩
    · cases hb
    · have : c' = c := by simpa [hc] using hc'.symm
      subst this
      exact (Loc.put (s := { s with accepting := false }) hc' (LS.one (L.respFds hw' h1 hp hk)) (by simp [owner]) fun i => rfl).conn rfl
    · cases hh

theorem request_loc {cfg s id c m env s' l} (he : EnvOk env) (hc : s.conn id = some c) (hw : c.st = .waiting) (hp : Permitted c) (hk : c.rbuf = m)
    (h : request cfg s id m env = .ok (s', l)) : Loc cfg s l s' := by
  subst hk
  have hd : ∀ {b key v}, b ≠ [] → b.length < 2 ^ 32 → respond cfg s id key v b.length (some b) false = .ok (s', l) → Loc cfg s l s' := by
    intro b key v hb hlt h
    obtain ⟨c', hc', hw', _, hh⟩ := respond_ok h
    rcases hh with ⟨b', hb', _, rfl, rfl⟩ | ⟨hh, _⟩ | ⟨hh, _⟩
    · simp only [Option.some.injEq] at hb'
      subst hb'
      exact Loc.put hc' (LS.one (L.respData hw' hb hlt)) (by simp [owner]) fun i => rfl
    · cases hh
    · cases hh
  unfold request at h
  dsimp only at h
  split at h
  · obtain ⟨c', hc', hw', _, hh⟩ := respond_ok h
    rcases hh with ⟨b', hb', _⟩ | ⟨_, hh, _⟩ | ⟨_, _, rfl, rfl⟩
    · cases hb'
    · cases hh
    · exact Loc.put hc' (LS.one (L.respNone hw')) (by simp [owner]) fun i => rfl
  split at h
  · next hk => exact reqStop_loc hc hw hp hk h
  split at h
  · exact hd he.1 he.2.2.1 h
  split at h
  · exact hd he.2.1 he.2.2.2.1 h
  split at h
  · exact reqZrel_loc h
  split at h
  · next hk =>
    split at h
    · exact answer_loc h
    · obtain ⟨s1, l1, l2, h1, h2, rfl⟩ := andThen_ok h
      obtain ⟨rfl, rfl⟩ := one_ok h1
      exact Loc.trans (Loc.act hc hw hp (hk ▸ Acts.flush) rfl rfl) (answer_loc h2)
  split at h
  · next hk => exact reqRepl_loc hc hw hp hk h
  split at h
  · next hk => exact reqTak1_loc hc hw hp hk h
  split at h
  · next hk => exact reqTak2_loc he hc hw hp hk h
  split at h
  · next hk => exact reqTake_loc hc hp hk h
  · exact answer_loc h

theorem recvData_loc {cfg s id c r env s' l} (hc : s.conn id = some c) (hr : c.st = .readingData) (hp : Permitted c) (hk : msgKey c.rbuf = 67)
    (h : recvData cfg s id c r env = .ok (s', l)) : Loc cfg s l s' := by
  unfold recvData at h
  split at h
  · cases h
  · next b hb =>
    obtain ⟨_, h1, h⟩ := bind_ok h
    split at h
    · obtain ⟨rfl, rfl⟩ := one_ok h; exact Loc.refl rfl
    · exact cleanup_loc h
    · exact cleanup_loc h
    · next x _ _ =>
      dsimp only at h
      have ha : Loc cfg s [] (s.put id (some { c with rOn := false, st := .waiting, data := none, size := 0, done := 0 })) :=
        Loc.put hc (LS.one (L.recvAll hr)) (by simp) fun i => rfl
      split at h
      · split at h
        · exact Loc.trans (l := []) ha (answer_loc h)
        · obtain ⟨s1, l1, l2, h2, h3, rfl⟩ := andThen_ok h
          obtain ⟨rfl, rfl⟩ := one_ok h2
          refine Loc.trans (l := []) ha (Loc.trans (Loc.act (c := { c with rOn := false, st := .waiting, data := none, size := 0, done := 0 }) (by simp [Css.put]) rfl hp (?_) rfl rfl) (answer_loc h3))
          show Acts id (msgKey c.rbuf) _
          rw [hk]; exact Acts.chal
      · next hn =>
        obtain ⟨rfl, rfl⟩ := one_ok h
        have h1 := of_decide_eq_true (assert_ok h1)
        refine Loc.put hc (LS.one (L.recv hr hb ?_)) (by simp) fun i => rfl
        have : (x.take (c.size - c.done)).length ≤ c.size - c.done := by rw [List.length_take]; omega
        omega

theorem permitted_of {c : Conn} {m : Bytes} (h : ¬ (c.perm.any fun p => !allowed p (msgKey m)) = true) : ∀ p, c.perm = some p → allowed p (msgKey m) = true := by
  intro p hp
  simpa [hp] using h

theorem readConn_loc {cfg s id c r env s' l} (he : EnvOk env) (hc : s.conn id = some c) (hon : c.rOn = true) (hd : c.st = .readingData → Permitted c)
    (h : readConn cfg s id c r env = .ok (s', l)) : Loc cfg s l s' := by
  unfold readConn at h
  obtain ⟨_, h1, h⟩ := bind_ok h
  have h1 := of_decide_eq_true (assert_ok h1)
  split at h
  · next hr =>
    obtain ⟨_, h2, h⟩ := bind_ok h
    exact recvData_loc hc hr (hd hr) (by simpa using assert_ok h2) h
  · next hr =>
    have hst : c.st = .readingReq := by rcases h1 with h | h; exact h; exact absurd h hr
    split at h
    · obtain ⟨rfl, rfl⟩ := one_ok h; exact Loc.refl rfl
    · exact cleanup_loc h
    · rename_i x _
      dsimp only at h
      split at h
      · exact cleanup_loc h
      · next h8 =>
        have h8 : (x.take 8).length = 8 := Classical.not_not.mp h8
        obtain ⟨s1, l1, l2, h2, h3, rfl⟩ := andThen_ok h
        obtain ⟨rfl, rfl⟩ := one_ok h2
        have hq : Loc cfg s1 [.req id (x.take 8)] (s1.put id (some { c with rbuf := x.take 8, rOn := false, st := .waiting })) :=
          Loc.put hc (LS.one (L.req hst hon h8)) (by simp [owner]) fun i => rfl
        have hput : ∀ d, (s1.put id d).conn id = d := fun d => by simp [Css.put]
        split at h3
        · exact Loc.trans hq (answer_loc h3)
        · next hp =>
          split at h3
          · rename_i hkey
            split at h3
            · obtain ⟨c', hc', h5, h6, rfl⟩ := cleanup_ok h3
              have hk : Loc cfg s1 (if s1.dmn = some id ∧ s1.pid ≠ 0 then [.kill s1.pid] else []) s1 := by
                split
                · exact Loc.free rfl (by simp [owner])
                · exact Loc.refl rfl
              have hk' : ∀ s2 : Css, Loc cfg s2 (if s1.dmn = some id ∧ s1.pid ≠ 0 then [.kill s1.pid] else []) s2 := by
                intro s2
                split
                · exact Loc.free rfl (by simp [owner])
                · exact Loc.refl rfl
              refine Loc.trans hq (Loc.trans (hk' _) (Loc.put (hput _) (LS.one L.close) (by simp [owner]) fun i => ?_))
              rw [h5 i]
              by_cases hi : i = id <;> simp [hi, Css.put]
            · next hlim =>
              obtain ⟨rfl, rfl⟩ := one_ok h3
              exact Loc.put hc (LS.one (L.reqData hst hon h8 hkey (permitted_of hp) (by intro h0; exact hlim (Or.inr (Or.inr (Or.inl h0)))))) (by simp [owner]) fun i => rfl
          · exact Loc.trans hq (request_loc he (hput _) rfl (permitted_of hp) rfl h3)

theorem writeData_loc {cfg s id c r s' l} (hc : s.conn id = some c) (hon : c.wOn = true) (h : writeData s id c r = .ok (s', l)) : Loc cfg s l s' := by
  unfold writeData at h
  obtain ⟨_, h1, h⟩ := bind_ok h
  have h1 := of_decide_eq_true (assert_ok h1)
  split at h
  · cases h
  · next b hb =>
    obtain ⟨_, h2, h⟩ := bind_ok h
    have h2 := of_decide_eq_true (assert_ok h2)
    split at h
    · split at h
      · obtain ⟨rfl, rfl⟩ := one_ok h; exact Loc.refl rfl
      · exact cleanup_loc h
      · dsimp only at h
        split at h
        · next he => obtain ⟨rfl, rfl⟩ := one_ok h; exact Loc.put hc (LS.one (L.dataEnd h1 hon hb he)) (by simp [owner]) fun i => rfl
        · next n he => obtain ⟨rfl, rfl⟩ := one_ok h; exact Loc.put hc (LS.one (L.data h1 hon hb (by omega))) (by simp [owner]) fun i => rfl
    · cases h

theorem writeResp_loc {cfg s id c r s' l} (hc : s.conn id = some c) (hon : c.wOn = true) (h : writeResp cfg s id c r = .ok (s', l)) : Loc cfg s l s' := by
  unfold writeResp at h
  obtain ⟨_, h1, h⟩ := bind_ok h
  have h1 := of_decide_eq_true (assert_ok h1)
  obtain ⟨_, h2, h⟩ := bind_ok h
  have h2 := of_decide_eq_true (assert_ok h2)
  split at h
  · obtain ⟨rfl, rfl⟩ := one_ok h; exact Loc.refl rfl
  · exact cleanup_loc h
  · split at h
    · exact cleanup_loc h
    next hk =>
    simp only [Nat.sub_eq_zero_of_le (Nat.le_of_not_lt hk), Nat.sub_zero, List.take_length] at h
    split at h
    · next hf =>
      have h2 := h2 hf
      simp only [hf, if_true, scmMax] at h
      split at h
      · next hlt =>
        have hmin : min (c.size - c.done) 253 = 253 := by omega
        obtain ⟨rfl, rfl⟩ := one_ok h
        rw [hmin]
        exact Loc.put hc (LS.one (L.fds hf hon (by omega))) (by simp [owner]) fun i => by simp [Css.put, ← hf]
      · next hge =>
        have hmin : min (c.size - c.done) 253 = c.size - c.done := by omega
        obtain ⟨rfl, rfl⟩ := one_ok h
        rw [hmin]
        exact Loc.put hc (LS.one (L.fdsEnd hf hon h2 (by omega))) (by simp [owner]) fun i => rfl
    · next hf =>
      have hst : c.st = .writing := by rcases h1 with h | h; exact h; exact absurd h hf
      split at h
      · next hd => obtain ⟨rfl, rfl⟩ := one_ok h; exact Loc.put hc (LS.one (L.head hst hon hd)) (by simp [owner]) fun i => rfl
      · next hd =>
        obtain ⟨rfl, rfl⟩ := one_ok h
        exact Loc.put hc (LS.one (L.headEnd hst hon (by simpa using hd))) (by simp [owner]) fun i => rfl

theorem watch_loc {cfg s alive s' l} (h : watch cfg s alive = .ok (s', l)) : Loc cfg s l s' := by
  unfold watch at h
  obtain ⟨_, h1, h⟩ := bind_ok h
  split at h
  · obtain ⟨rfl, rfl⟩ := one_ok h; exact Loc.refl rfl
  · obtain ⟨s1, l1, l2, h2, h3, rfl⟩ := andThen_ok h
    obtain ⟨rfl, rfl⟩ := one_ok h2
    obtain ⟨s2, l3, l4, h4, h5, rfl⟩ := andThen_ok h3
    obtain ⟨s3, l5, l6, h6, h7, rfl⟩ := andThen_ok h5
    obtain ⟨rfl, rfl⟩ := one_ok h7
    refine Loc.trans (Loc.free (s' := { s with timer := false }) rfl (by simp [owner])) (Loc.trans (s' := s2) ?_ (Loc.trans (s' := s3) ?_ (Loc.refl rfl)))
    · split at h4
      · exact answer_loc h4
      · obtain ⟨rfl, rfl⟩ := one_ok h4; exact Loc.refl rfl
    · split at h6
      · exact cleanup_loc h6
      · obtain ⟨rfl, rfl⟩ := one_ok h6; exact Loc.refl rfl

theorem notify_ok {cfg s failed s' l} (h : notify cfg s failed = .ok (s', l)) : ∃ s1 l1 l2, l = l1 ++ l2 ∧
    s.active.foldl (fun (x : Step) (id : Nat) => andThen x fun s => answer cfg s id (if failed = true then 70 else 65)) (.ok (s, [])) = .ok (s1, l1) ∧
    ((s1.queued ≠ [] ∧ load { s1 with active := s1.queued, queued := [] } = .ok (s', l2)) ∨ (s1.queued = [] ∧ s' = { s1 with active := s1.queued, queued := [] } ∧ l2 = [])) := by
  unfold notify at h
  dsimp only at h
  obtain ⟨s1, l1, l2, h2, h3, rfl⟩ := andThen_ok h
  refine ⟨s1, l1, l2, rfl, h2, ?_⟩
  split at h3
  · next hq => exact Or.inl ⟨hq, h3⟩
  · next hq => obtain ⟨rfl, rfl⟩ := one_ok h3; exact Or.inr ⟨Classical.not_not.mp hq, rfl, rfl⟩

theorem notify_loc {cfg s failed s' l} (h : notify cfg s failed = .ok (s', l)) : Loc cfg s l s' := by
  obtain ⟨s1, l1, l2, rfl, h1, h2⟩ := notify_ok h
  obtain ⟨l3, rfl, h3, _⟩ := answers_ok h1
  refine Loc.trans (by simpa using h3) ?_
  rcases h2 with ⟨_, h2⟩ | ⟨_, rfl, rfl⟩
  · exact (load_loc h2).conn rfl
  · exact Loc.refl rfl

theorem reloadDone_loc {cfg s s' l} (h : reloadDone cfg s = .ok (s', l)) : Loc cfg s l s' := by
  unfold reloadDone at h
  split at h
  · cases h
  split at h
  · cases h
  obtain ⟨s1, l1, l2, h2, h3, rfl⟩ := andThen_ok h
  obtain ⟨rfl, rfl⟩ := one_ok h2
  refine Loc.trans ?_ (notify_loc h3)
  exact Loc.free rfl (by simp [owner])

/-- Every callback but `accept`. -/
theorem step_loc {cfg s e s' l} (he : EventOk e) (hd : ∀ id c, s.conn id = some c → c.st = .readingData → Permitted c) (ha : ∀ p, e ≠ .accept p)
    (h : step cfg s e = .ok (s', l)) : Loc cfg s l s' := by
  cases e with
  | accept p => exact absurd rfl (ha p)
  | read id r env =>
    simp only [step] at h
    split at h
    · obtain ⟨rfl, rfl⟩ := one_ok h; exact Loc.refl rfl
    · next c hc =>
      split at h
      · next hon => exact readConn_loc he hc hon (hd id c hc) h
      · obtain ⟨rfl, rfl⟩ := one_ok h; exact Loc.refl rfl
  | write id r =>
    simp only [step] at h
    split at h
    · obtain ⟨rfl, rfl⟩ := one_ok h; exact Loc.refl rfl
    · next c hc =>
      split at h
      · next hon =>
        split at h
        · exact writeData_loc hc hon h
        · exact writeResp_loc hc hon h
      · obtain ⟨rfl, rfl⟩ := one_ok h; exact Loc.refl rfl
  | tick a =>
    simp only [step] at h
    split at h
    · exact watch_loc h
    · obtain ⟨rfl, rfl⟩ := one_ok h; exact Loc.refl rfl
  | ended t =>
    simp only [step] at h
    split at h
    · obtain ⟨rfl, rfl⟩ := one_ok h; exact Loc.refl rfl
    · split at h <;> (obtain ⟨rfl, rfl⟩ := one_ok h; exact Loc.refl rfl)
  | async =>
    simp only [step] at h
    split at h
    · exact reloadDone_loc h
    · obtain ⟨rfl, rfl⟩ := one_ok h; exact Loc.refl rfl
  | signal =>
    simp only [step] at h
    split at h
    · obtain ⟨rfl, rfl⟩ := one_ok h; exact Loc.refl rfl
    · obtain ⟨rfl, rfl⟩ := one_ok h; exact Loc.free rfl (by simp [owner])

end Gdnsd.Css
