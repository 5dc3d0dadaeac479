/-
What holds of every connection at all times, from the small steps.
-/
import Verif.Css.LocLemmas
namespace Gdnsd.Css
open CssSpec

/-! ### Histories -/

/-- At every entry. -/
def Every (P : List Entry → Entry → Prop) (l : List Entry) : Prop := ∀ a e b, l = a ++ e :: b → P a e

theorem Every.nil {P} : Every P [] := fun a e b h => by cases a <;> cases h

theorem Every.snoc {P l e} (h : Every P l) (he : P l e) : Every P (l ++ [e]) := by
  intro a e' b hl
  rcases List.eq_nil_or_concat b with rfl | ⟨b', x, rfl⟩
  · have := List.append_inj' hl rfl
    obtain ⟨rfl, h2⟩ := this
    simp only [List.cons.injEq, and_true] at h2
    subst h2
    exact he
  · rw [List.concat_eq_append, ← List.cons_append, ← List.append_assoc] at hl
    exact h a e' b' (List.append_inj' hl rfl).1

theorem Every.left {P l l'} (h : Every P (l ++ l')) : Every P l := fun a e b hl => h a e (b ++ l') (by rw [hl]; simp)

theorem Turns.more {id l o} {l' : List Entry} (h : Turns id l o) (h' : ∀ e ∈ l', turn e ≠ some id) : Turns id (l ++ l') o := by
  induction l' generalizing l with
  | nil => simpa using h
  | cons e l' ih =>
    rw [show l ++ e :: l' = (l ++ [e]) ++ l' by simp]
    exact ih (Turns.other h (h' e (by simp))) fun e' he' => h' e' (by simp [he'])

theorem turn_owner {e : Entry} {id} (h : owner e ≠ some id) : turn e ≠ some id := by
  cases e <;> simp_all [owner, turn]

theorem owed_append {cfg id l l'} : owed cfg id (l ++ l') = owed cfg id l ++ owed cfg id l' := by simp [owed]
theorem sent_append {id l l'} : sent id (l ++ l') = sent id l ++ sent id l' := by simp [sent]
theorem owedFds_append {cfg id l l'} : owedFds cfg id (l ++ l') = owedFds cfg id l ++ owedFds cfg id l' := by simp [owedFds]
theorem sentFds_append {id l l'} : sentFds id (l ++ l') = sentFds id l ++ sentFds id l' := by simp [sentFds]

theorem owed_other {cfg id e} (h : owner e ≠ some id) : owed cfg id [e] = [] := by
  cases e <;> simp_all [owner, owed]
theorem sent_other {id e} (h : owner e ≠ some id) : sent id [e] = [] := by
  cases e <;> simp_all [owner, sent]
theorem owedFds_other {cfg id e} (h : owner e ≠ some id) : owedFds cfg id [e] = [] := by
  cases e <;> simp_all [owner, owedFds]
theorem sentFds_other {id e} (h : owner e ≠ some id) : sentFds id [e] = [] := by
  cases e <;> simp_all [owner, sentFds]

/-! ### Connections -/

/-- What is still to be written. -/
def pend (cfg : Cfg) (c : Conn) : Bytes :=
  match c.st with
  | .writing => c.wbuf ++ c.data.getD []
  | .writingFds => (List.replicate ((cfg.fds.length - c.done + 252) / 253) c.wbuf).flatten
  | .writingData => (c.data.getD []).drop c.done
  | _ => []

def pendFds (cfg : Cfg) (c : Conn) : List Nat := if c.st = .writingFds then cfg.fds.drop c.done else []

/-- The request that is not answered. -/
def opn (c : Conn) : Option Bytes :=
  match c.st with
  | .waiting => some c.rbuf
  | .readingData => some c.rbuf
  | _ => none

def Shape (cfg : Cfg) (c : Conn) : Prop :=
  match c.st with
  | .readingReq => c.rOn = true ∧ c.wOn = false ∧ c.data = none
  | .readingData => c.rOn = true ∧ c.wOn = false ∧ (∃ b, c.data = some b) ∧ c.done < c.size ∧ msgKey c.rbuf = 67 ∧ Permitted c
  | .waiting => c.rOn = false ∧ c.wOn = false ∧ c.data = none
  | .writing => c.rOn = false ∧ c.wOn = true ∧ ∀ b, c.data = some b → b ≠ [] ∧ c.size = b.length ∧ c.done = 0
  | .writingFds => c.rOn = false ∧ c.wOn = true ∧ c.data = none ∧ c.size = cfg.fds.length ∧ c.done < c.size ∧ c.perm = none
  | .writingData => c.rOn = false ∧ c.wOn = true ∧ ∃ b, c.data = some b ∧ c.size = b.length ∧ c.done < c.size

structure Good (cfg : Cfg) (id : Nat) (l : List Entry) (c : Conn) : Prop where
  shape : Shape cfg c
  turns : Turns id l (opn c)
  bytes : owed cfg id l = sent id l ++ pend cfg c
  fds : owedFds cfg id l = sentFds id l ++ pendFds cfg c

/-- A connection that got a blocking answer at the end of the loop. -/
structure Last (cfg : Cfg) (id : Nat) (l : List Entry) (c : Conn) : Prop where
  st : c.st = .writing
  rOn : c.rOn = false
  wOn : c.wOn = false
  turns : Turns id l none
  bytes : sent id l <+: owed cfg id l
  fds : sentFds id l <+: owedFds cfg id l

/-- At one entry. -/
structure Fine (cfg : Cfg) (id : Nat) (a : List Entry) (e : Entry) : Prop where
  may : ∀ need, Needs e id need → May a id need
  req : ∀ m, e = .req id m → Turns id a none ∧ m.length = 8 ∧ sent id a = owed cfg id a ∧ sentFds id a = owedFds cfg id a
  resp : ∀ m d f, e = .resp id m d f → ∃ r, Turns id a (some r)
  out : ∀ b f, e = .out id b f → sent id a ++ b <+: owed cfg id a ∧ sentFds id a ++ f <+: owedFds cfg id a
  acc : ∀ p, e = .accept id p → ∀ e' ∈ a, owner e' ≠ some id
  len : ∀ m d f, e = .resp id m d f → (∃ k v n, m = msg k v n ∧ (d ≠ [] → n = d.length ∧ d.length < 2 ^ 32)) ∧ (f = true → m = msg 65 cfg.fds.length 0 ∧ d = [])

theorem fine_other {cfg id a e} (h : owner e ≠ some id) : Fine cfg id a e := by
  refine ⟨?_, ?_, ?_, ?_, ?_, ?_⟩
  · intro need hn; cases hn <;> exact absurd rfl h
  · rintro m rfl; exact absurd rfl h
  · rintro m d f rfl; exact absurd rfl h
  · rintro m d rfl; exact absurd rfl h
  · rintro p rfl; exact absurd rfl h
  · rintro m d f rfl; exact absurd rfl h

def CInv (cfg : Cfg) (id : Nat) (l : List Entry) (c : Option Conn) : Prop :=
  Every (Fine cfg id) l ∧ ∀ c', c = some c' → .accept id c'.perm ∈ l ∧ (Good cfg id l c' ∨ Last cfg id l c')

theorem Good.other {cfg id l c e} (h : Good cfg id l c) (he : owner e ≠ some id) : Good cfg id (l ++ [e]) c :=
  ⟨h.shape, Turns.other h.turns (turn_owner he), by rw [owed_append, sent_append, owed_other he, sent_other he]; simpa using h.bytes,
    by rw [owedFds_append, sentFds_append, owedFds_other he, sentFds_other he]; simpa using h.fds⟩

theorem Last.other {cfg id l c e} (h : Last cfg id l c) (he : owner e ≠ some id) : Last cfg id (l ++ [e]) c :=
  ⟨h.st, h.rOn, h.wOn, Turns.other h.turns (turn_owner he), by rw [owed_append, sent_append, owed_other he, sent_other he]; simpa using h.bytes,
    by rw [owedFds_append, sentFds_append, owedFds_other he, sentFds_other he]; simpa using h.fds⟩

theorem Good.notLast {cfg id l c} {l' : List Entry} (h : Good cfg id l c ∨ Last cfg id l' c) (hs : c.st ≠ .writing ∨ c.wOn = true) : Good cfg id l c := by
  rcases h with h | h
  · exact h
  · rcases hs with hs | hs
    · exact absurd h.st hs
    · rw [h.wOn] at hs; cases hs

theorem may_of {l id} {c : Conn} {need : Perm → Bool} (ha : .accept id c.perm ∈ l) (h : ∀ p, c.perm = some p → need p = true) : May l id need := ⟨c.perm, ha, h⟩

theorem acts_may {l id e need} {c : Conn} (ha : .accept id c.perm ∈ l) (hp : Permitted c) (h : Acts id (msgKey c.rbuf) e) (hn : Needs e id need) : May l id need := by
  refine may_of ha fun p hp' => ?_
  have := hp p hp'
  cases hn with
  | chal => generalize hk : msgKey c.rbuf = k at *; cases h; simpa [allowed] using this
  | flush => generalize hk : msgKey c.rbuf = k at *; cases h; simpa [allowed] using this
  | spawn => generalize hk : msgKey c.rbuf = k at *; cases h; simpa [allowed] using this
  | takeover => generalize hk : msgKey c.rbuf = k at *; cases h; simp [allowed] at this
  | share => generalize hk : msgKey c.rbuf = k at *; cases h; simp [allowed] at this
  | stop => generalize hk : msgKey c.rbuf = k at *; cases h; simp [allowed] at this
  | handover => generalize hk : msgKey c.rbuf = k at *; cases h

theorem acts_owner {id k e} (h : Acts id k e) : turn e ≠ some id ∧ (∀ cfg l, owed cfg id (l ++ [e]) = owed cfg id l) ∧ (∀ l, sent id (l ++ [e]) = sent id l) ∧
    (∀ cfg l, owedFds cfg id (l ++ [e]) = owedFds cfg id l) ∧ ∀ l, sentFds id (l ++ [e]) = sentFds id l := by
  cases h <;> simp [turn, owed, sent, owedFds, sentFds]

theorem needs_none {e id need} (h : (∃ m, e = .req id m) ∨ (∃ m d f, e = .resp id m d f) ∨ (∃ b, e = .out id b []) ∨ e = .close id ∨ ∃ p, e = .accept id p) : ¬ Needs e id need := by
  intro hn
  rcases h with ⟨m, rfl⟩ | ⟨m, d, f, rfl⟩ | ⟨b, rfl⟩ | rfl | ⟨p, rfl⟩ <;> cases hn

theorem CInv.resp {cfg id l c m d f} {c' : Conn} (h : CInv cfg id l (some c)) (hw : c.st = .waiting) (hperm : c'.perm = c.perm) (hst : opn c' = none)
    (hlen : (∃ k v n, m = msg k v n ∧ (d ≠ [] → n = d.length ∧ d.length < 2 ^ 32)) ∧ (f = true → m = msg 65 cfg.fds.length 0 ∧ d = []))
    (hsh : Shape cfg c → Shape cfg c') (hb : pend cfg c' = wire cfg m d f) (hf : pendFds cfg c' = if f = true then cfg.fds else []) : CInv cfg id (l ++ [.resp id m d f]) (some c') := by
  obtain ⟨hev, hc⟩ := h
  obtain ⟨ha, hg⟩ := hc c rfl
  have hg := Good.notLast hg (Or.inl (by rw [hw]; decide))
  have ho : opn c = some c.rbuf := by simp [opn, hw]
  have hp : pend cfg c = [] := by simp [pend, hw]
  have hpf : pendFds cfg c = [] := by simp [pendFds, hw]
  have ht := hg.turns
  rw [ho] at ht
  refine ⟨hev.snoc ⟨fun need hn => absurd hn (needs_none (Or.inr (Or.inl ⟨_, _, _, rfl⟩))), by simp, ?_, by simp, by simp, ?_⟩, ?_⟩
  · intro _ _ _ _; exact ⟨_, ht⟩
  · rintro m' d' f' he; simp only [Entry.resp.injEq, true_and] at he; obtain ⟨rfl, rfl, rfl⟩ := he; exact hlen
  · rintro c1 hc1
    simp only [Option.some.injEq] at hc1
    subst hc1
    refine ⟨by rw [hperm]; simp [ha], Or.inl ⟨hsh hg.shape, ?_, ?_, ?_⟩⟩
    · rw [hst]; exact Turns.resp ht
    · rw [owed_append, sent_append, hg.bytes, hp, hb]; simp [owed, sent]
    · rw [owedFds_append, sentFds_append, hg.fds, hpf, hf]; simp [owedFds, sentFds]

theorem CInv.out {cfg id l c b f} {c' : Conn} (h : CInv cfg id l (some c)) (hw : c.st ≠ .writing ∨ c.wOn = true) (hperm : c'.perm = c.perm) (hst : opn c' = opn c)
    (hsh : Shape cfg c → Shape cfg c') (hb : Shape cfg c → pend cfg c = b ++ pend cfg c') (hf : Shape cfg c → pendFds cfg c = f ++ pendFds cfg c') (hper : f ≠ [] → Shape cfg c → c.perm = none) :
    CInv cfg id (l ++ [.out id b f]) (some c') := by
  obtain ⟨hev, hc⟩ := h
  obtain ⟨ha, hg⟩ := hc c rfl
  have hg := Good.notLast hg hw
  have hb := hb hg.shape
  have hf := hf hg.shape
  refine ⟨hev.snoc ⟨?_, by simp, by simp, ?_, by simp, by simp⟩, ?_⟩
  · intro need hn
    cases hn with
    | handover =>
      refine may_of ha ?_
      rw [hper (by simp) hg.shape]
      intro p hp; cases hp
  · intro b' f' he
    simp only [Entry.out.injEq, true_and] at he
    obtain ⟨rfl, rfl⟩ := he
    rw [hg.bytes, hb, hg.fds, hf]
    exact ⟨⟨pend cfg c', by simp⟩, ⟨pendFds cfg c', by simp⟩⟩
  · rintro c1 hc1
    simp only [Option.some.injEq] at hc1
    subst hc1
    refine ⟨by rw [hperm]; simp [ha], Or.inl ⟨hsh hg.shape, ?_, ?_, ?_⟩⟩
    · rw [hst]; exact Turns.other hg.turns (by simp [turn])
    · rw [owed_append, sent_append, hg.bytes, hb]; simp [owed, sent]
    · rw [owedFds_append, sentFds_append, hg.fds, hf]; simp [owedFds, sentFds]

theorem CInv.silent {cfg id l c} {c' : Conn} (h : CInv cfg id l (some c)) (hw : c.st ≠ .writing) (hperm : c'.perm = c.perm) (hst : opn c' = opn c)
    (hsh : Shape cfg c → Shape cfg c') (hb : pend cfg c' = pend cfg c) (hf : pendFds cfg c' = pendFds cfg c) : CInv cfg id l (some c') := by
  obtain ⟨hev, hc⟩ := h
  obtain ⟨ha, hg⟩ := hc c rfl
  have hg := Good.notLast hg (Or.inl hw)
  refine ⟨hev, ?_⟩
  rintro c1 hc1
  simp only [Option.some.injEq] at hc1
  subst hc1
  exact ⟨by rw [hperm]; exact ha, Or.inl ⟨hsh hg.shape, by rw [hst]; exact hg.turns, by rw [hb]; exact hg.bytes, by rw [hf]; exact hg.fds⟩⟩

theorem CInv.req {cfg id l c m} {c' : Conn} (h : CInv cfg id l (some c)) (hw : c.st = .readingReq) (h8 : m.length = 8) (hperm : c'.perm = c.perm) (hst : opn c' = some m)
    (hsh : Shape cfg c → Shape cfg c') (hb : pend cfg c' = []) (hf : pendFds cfg c' = []) : CInv cfg id (l ++ [.req id m]) (some c') := by
  obtain ⟨hev, hc⟩ := h
  obtain ⟨ha, hg⟩ := hc c rfl
  have hg := Good.notLast hg (Or.inl (by rw [hw]; decide))
  have ho : opn c = none := by simp [opn, hw]
  have hp : pend cfg c = [] := by simp [pend, hw]
  have hpf : pendFds cfg c = [] := by simp [pendFds, hw]
  have ht := hg.turns
  rw [ho] at ht
  refine ⟨hev.snoc ⟨fun need hn => absurd hn (needs_none (Or.inl ⟨_, rfl⟩)), ?_, by simp, by simp, by simp, by simp⟩, ?_⟩
  · rintro m' hm'; simp only [Entry.req.injEq, true_and] at hm'; subst hm'; exact ⟨ht, h8, by rw [hg.bytes, hp, List.append_nil], by rw [hg.fds, hpf, List.append_nil]⟩
  · rintro c1 hc1
    simp only [Option.some.injEq] at hc1
    subst hc1
    refine ⟨by rw [hperm]; simp [ha], Or.inl ⟨hsh hg.shape, ?_, ?_, ?_⟩⟩
    · rw [hst]; exact Turns.req ht
    · rw [owed_append, sent_append, hg.bytes, hp, hb]; simp [owed, sent]
    · rw [owedFds_append, sentFds_append, hg.fds, hpf, hf]; simp [owedFds, sentFds]

theorem blockLen {cfg : Cfg} {id : Nat} : ∀ m d f, Entry.resp id (msg 65 0 0) [] false = .resp id m d f →
    (∃ k v n, m = msg k v n ∧ (d ≠ [] → n = d.length ∧ d.length < 2 ^ 32)) ∧ (f = true → m = msg 65 cfg.fds.length 0 ∧ d = []) := by
  intro m d f h
  simp only [Entry.resp.injEq, true_and] at h
  obtain ⟨rfl, rfl, rfl⟩ := h
  exact ⟨⟨_, _, _, rfl, fun h => absurd rfl h⟩, fun h => by cases h⟩

theorem L.inv {cfg id c l' c' l} (h : L cfg id c l' c') (hi : CInv cfg id l c) : CInv cfg id (l ++ l') c' := by
  cases h with
  | other he =>
    obtain ⟨hev, hc⟩ := hi
    refine ⟨hev.snoc (fine_other he), fun c' h' => ?_⟩
    obtain ⟨ha, hg⟩ := hc c' h'
    exact ⟨by simp [ha], hg.imp (·.other he) (·.other he)⟩
  | req hst hon h8 => exact hi.req hst h8 rfl rfl (by simp only [Shape, hst]; intro h; exact ⟨trivial, h.2.1, h.2.2⟩) rfl rfl
  | reqData hst hon h8 hk hp hd =>
    exact hi.req hst h8 rfl rfl (by simp only [Shape, hst]; intro h; exact ⟨h.1, h.2.1, ⟨_, rfl⟩, by omega, hk, hp⟩) rfl rfl
  | recv hst hd hlt =>
    rw [List.append_nil]
    refine hi.silent (by rw [hst]; decide) rfl (by simp [opn, hst]) ?_ (by simp [pend, hst]) (by simp [pendFds, hst])
    simp only [Shape, hst]; intro h; exact ⟨h.1, h.2.1, ⟨_, rfl⟩, hlt, h.2.2.2.2⟩
  | recvAll hst =>
    rw [List.append_nil]
    refine hi.silent (by rw [hst]; decide) rfl (by simp [opn, hst]) ?_ (by simp [pend, hst]) (by simp [pendFds, hst])
    simp only [Shape, hst]; intro h; exact ⟨trivial, h.2.1, trivial⟩
  | act hw hp ha' =>
    obtain ⟨hev, hc⟩ := hi
    obtain ⟨ha, hg⟩ := hc _ rfl
    have hg := Good.notLast hg (Or.inl (by rw [hw]; decide))
    obtain ⟨h1, h2, h3, h4, h5⟩ := acts_owner ha'
    refine ⟨hev.snoc ⟨fun need hn => acts_may ha hp ha' hn, ?_, ?_, ?_, ?_, ?_⟩, ?_⟩
    · rintro m rfl; exact absurd rfl h1
    · rintro m d f rfl; exact absurd rfl h1
    · rintro b f rfl; generalize msgKey _ = k at ha'; cases ha'
    · rintro p rfl; generalize msgKey _ = k at ha'; cases ha'
    · rintro m d f rfl; exact absurd rfl h1
    · intro c' hc'
      simp only [Option.some.injEq] at hc'
      subst hc'
      exact ⟨by simp [ha], Or.inl ⟨hg.shape, Turns.other hg.turns h1, by rw [h2, h3]; exact hg.bytes, by rw [h4, h5]; exact hg.fds⟩⟩
  | @respData c key v b hw hb hlt =>
    refine hi.resp hw rfl rfl ⟨⟨_, _, _, rfl, fun _ => ⟨rfl, hlt⟩⟩, fun h => by cases h⟩ ?_ (by simp [pend, wire]) (by simp [pendFds])
    simp only [Shape, hw]; intro h; exact ⟨h.1, trivial, fun b' hb' => by simp only [Option.some.injEq] at hb'; subst hb'; exact ⟨hb, rfl, trivial⟩⟩
  | respFds hw h2 hp hk =>
    refine hi.resp hw rfl rfl ⟨⟨_, _, _, rfl, fun h => absurd rfl h⟩, fun _ => ⟨rfl, rfl⟩⟩ ?_ (by simp [pend, wire]) (by simp [pendFds])
    simp only [Shape, hw]; intro h
    refine ⟨h.1, trivial, h.2.2, trivial, by omega, ?_⟩
    cases hpm : Conn.perm _ with
    | none => rfl
    | some p => have := hp p hpm; rw [hk] at this; simp [allowed] at this
  | @respNone c key v d hw =>
    have hd : c.data = none := by
      obtain ⟨_, hg⟩ := hi.2 _ rfl
      have := (Good.notLast hg (Or.inl (by rw [hw]; decide))).shape
      simp only [Shape, hw] at this
      exact this.2.2
    refine hi.resp hw rfl rfl ⟨⟨_, _, _, rfl, fun h => absurd rfl h⟩, fun h => by cases h⟩ ?_ (by simp [pend, wire, hd]) (by simp [pendFds])
    simp only [Shape, hw]; intro h; exact ⟨h.1, trivial, fun b hb => by rw [hd] at hb; cases hb⟩
  | @block c hw =>
    obtain ⟨hev, hc⟩ := hi
    obtain ⟨ha, hg⟩ := hc _ rfl
    have hg := Good.notLast hg (Or.inl (by rw [hw]; decide))
    have hsh := hg.shape
    simp only [Shape, hw] at hsh
    have ht := hg.turns
    rw [show opn c = some c.rbuf by simp [opn, hw]] at ht
    have hb := hg.bytes
    rw [show pend cfg c = [] by simp [pend, hw]] at hb
    have hf := hg.fds
    rw [show pendFds cfg c = [] by simp [pendFds, hw]] at hf
    rw [show l ++ [Entry.resp id (msg 65 0 0) [] false, .out id (msg 65 0 0) []] = (l ++ [.resp id (msg 65 0 0) [] false]) ++ [.out id (msg 65 0 0) []] by simp]
    refine ⟨Every.snoc (hev.snoc ⟨fun need hn => absurd hn (needs_none (Or.inr (Or.inl ⟨_, _, _, rfl⟩))), by simp, fun _ _ _ _ => ⟨_, ht⟩, by simp, by simp, blockLen⟩)
      ⟨fun need hn => absurd hn (needs_none (Or.inr (Or.inr (Or.inl ⟨_, rfl⟩)))), by simp, by simp, ?_, by simp, by simp⟩, ?_⟩
    · intro b f he
      simp only [Entry.out.injEq, true_and] at he
      obtain ⟨rfl, rfl⟩ := he
      rw [owed_append, sent_append, hb, owedFds_append, sentFds_append, hf]
      simp [owed, sent, wire, owedFds, sentFds]
    · intro c' hc'
      simp only [Option.some.injEq] at hc'
      subst hc'
      refine ⟨by simp [ha], Or.inr ⟨rfl, hsh.1, hsh.2.1, Turns.other (Turns.resp ht) (by simp [turn]), ?_, ?_⟩⟩
      · rw [owed_append, owed_append, sent_append, sent_append, hb]; simp [owed, sent, wire]
      · rw [owedFds_append, owedFds_append, sentFds_append, sentFds_append, hf]; simp [owedFds, sentFds]
  | @blockFail c hw =>
    obtain ⟨hev, hc⟩ := hi
    obtain ⟨ha, hg⟩ := hc _ rfl
    have hg := Good.notLast hg (Or.inl (by rw [hw]; decide))
    have hsh := hg.shape
    simp only [Shape, hw] at hsh
    have ht := hg.turns
    rw [show opn c = some c.rbuf by simp [opn, hw]] at ht
    have hb := hg.bytes
    rw [show pend cfg c = [] by simp [pend, hw]] at hb
    have hf := hg.fds
    rw [show pendFds cfg c = [] by simp [pendFds, hw]] at hf
    refine ⟨hev.snoc ⟨fun need hn => absurd hn (needs_none (Or.inr (Or.inl ⟨_, _, _, rfl⟩))), by simp, fun _ _ _ _ => ⟨_, ht⟩, by simp, by simp, blockLen⟩, ?_⟩
    intro c' hc'
    simp only [Option.some.injEq] at hc'
    subst hc'
    refine ⟨by simp [ha], Or.inr ⟨rfl, hsh.1, hsh.2.1, Turns.resp ht, ?_, ?_⟩⟩
    · rw [owed_append, sent_append, hb]; simp [sent]
    · rw [owedFds_append, sentFds_append, hf]; simp [sentFds]
  | head hst hon hd =>
    refine hi.out (Or.inr hon) rfl (by simp [opn, hst]) ?_ ?_ (by simp [pendFds, hst]) (by simp)
    · simp only [Shape, hst]; intro h
      obtain ⟨b, hb⟩ := Option.isSome_iff_exists.mp hd
      obtain ⟨h1, h2, h3⟩ := h.2.2 b hb
      exact ⟨h.1, h.2.1, b, hb, h2, by rw [h3, h2]; exact List.length_pos_iff.mpr h1⟩
    · simp only [Shape, hst]; intro h
      obtain ⟨b, hb⟩ := Option.isSome_iff_exists.mp hd
      obtain ⟨h1, h2, h3⟩ := h.2.2 b hb
      simp [pend, hst, hb, h3]
  | headEnd hst hon hd =>
    refine hi.out (Or.inr hon) rfl (by simp [opn, hst, Conn.again]) ?_ ?_ (by simp [pendFds, hst, Conn.again]) (by simp)
    · simp only [Shape, hst, Conn.again]; intro h; exact ⟨trivial, trivial, hd⟩
    · intro h; simp [pend, hst, Conn.again, hd]
  | @fds c hst hon hlt =>
    refine hi.out (Or.inr hon) rfl (by simp [opn, hst]) ?_ ?_ ?_ ?_
    · simp only [Shape, hst]; intro h; exact ⟨h.1, h.2.1, h.2.2.1, h.2.2.2.1, hlt, h.2.2.2.2.2⟩
    · simp only [Shape, hst]; intro h
      have hs := h.2.2.2.1
      simp only [pend, hst]
      rw [show (cfg.fds.length - c.done + 252) / 253 = (cfg.fds.length - (c.done + 253) + 252) / 253 + 1 by omega, List.replicate_succ, List.flatten_cons]
    · intro h; simp only [pendFds, hst, if_true]
      rw [← List.drop_drop, List.take_append_drop]
    · intro _; simp only [Shape, hst]; intro h; exact h.2.2.2.2.2
  | @fdsEnd c hst hon hlt hle =>
    refine hi.out (Or.inr hon) rfl (by simp [opn, hst, Conn.again]) ?_ ?_ ?_ ?_
    · simp only [Shape, hst, Conn.again]; intro h; exact ⟨trivial, trivial, h.2.2.1⟩
    · simp only [Shape, hst]; intro h
      have hs := h.2.2.2.1
      simp only [pend, hst, Conn.again]
      rw [show (cfg.fds.length - c.done + 252) / 253 = 1 by omega]
      simp
    · simp only [Shape, hst]; intro h
      have hs := h.2.2.2.1
      simp only [pendFds, hst, if_true, Conn.again]
      rw [List.take_of_length_le (by simp; omega)]; simp
    · intro _; simp only [Shape, hst]; intro h; exact h.2.2.2.2.2
  | @data c b k hst hon hd hlt =>
    refine hi.out (Or.inr hon) rfl (by simp [opn, hst]) ?_ ?_ (by simp [pendFds, hst]) (by simp)
    · simp only [Shape, hst]; rintro ⟨h1, h2, b', hb', hs, _⟩; exact ⟨h1, h2, b', hb', hs, hlt⟩
    · intro h
      simp only [pend, hst, hd, Option.getD_some]
      rw [← List.drop_drop, List.take_append_drop]
  | @dataEnd c b k hst hon hd he =>
    refine hi.out (Or.inr hon) rfl (by simp [opn, hst, Conn.again]) ?_ ?_ (by simp [pendFds, hst, Conn.again]) (by simp)
    · simp only [Shape, hst, Conn.again]; intro h; exact ⟨trivial, trivial, trivial⟩
    · simp only [Shape, hst]; rintro ⟨h1, h2, b', hb', hs, _⟩
      rw [hd] at hb'
      simp only [Option.some.injEq] at hb'
      subst hb'
      simp only [pend, hst, hd, Option.getD_some, Conn.again, List.append_nil]
      rw [List.take_of_length_le (by simp; omega)]
  | close =>
    exact ⟨hi.1.snoc ⟨fun need hn => absurd hn (needs_none (Or.inr (Or.inr (Or.inr (Or.inl rfl))))), by simp, by simp, by simp, by simp, by simp⟩, fun c' h => by cases h⟩
  | @nofd c =>
    rw [List.append_nil]
    refine ⟨hi.1, fun c' hc' => ?_⟩
    simp only [Option.some.injEq] at hc'
    subst hc'
    obtain ⟨ha, hg⟩ := hi.2 c rfl
    refine ⟨ha, hg.imp (fun h => ⟨?_, h.turns, h.bytes, h.fds⟩) (fun h => ⟨h.st, h.rOn, h.wOn, h.turns, h.bytes, h.fds⟩)⟩
    exact h.shape

theorem LS.inv {cfg id c l' c' l} (h : LS cfg id c l' c') (hi : CInv cfg id l c) : CInv cfg id (l ++ l') c' := by
  induction h with
  | nil => simpa using hi
  | step h1 h2 ih => rw [← List.append_assoc]; exact h2.inv ih

/-! ### Runs -/

/-- For all connections, and numbers not given yet. -/
structure AInv (cfg : Cfg) (s : Css) (l : List Entry) : Prop where
  conn : ∀ id, CInv cfg id l (s.conn id)
  fresh : ∀ id, s.next ≤ id → s.conn id = none ∧ ∀ e ∈ l, owner e ≠ some id

theorem LS.none {cfg id c l c'} (h : LS cfg id c l c') (hc : c = none) : c' = none ∧ ∀ e ∈ l, owner e ≠ some id := by
  induction h with
  | nil => exact ⟨hc, by simp⟩
  | step h1 h2 ih =>
    obtain ⟨rfl, h3⟩ := ih
    cases h2 with
    | other he => exact ⟨rfl, by simpa [or_imp, forall_and] using ⟨h3, he⟩⟩

theorem turns_new {id} {l : List Entry} (h : ∀ e ∈ l, owner e ≠ some id) : Turns id l none := by
  simpa using Turns.more (id := id) (l := []) Turns.nil fun e he => turn_owner (h e he)

theorem new_nil {cfg id} {l : List Entry} (h : ∀ e ∈ l, owner e ≠ some id) : owed cfg id l = [] ∧ sent id l = [] ∧ owedFds cfg id l = [] ∧ sentFds id l = [] := by
  induction l with
  | nil => simp [owed, sent, owedFds, sentFds]
  | cons e l ih =>
    obtain ⟨h1, h2, h3, h4⟩ := ih fun e' he' => h e' (by simp [he'])
    have he := h e (by simp)
    rw [show e :: l = [e] ++ l from rfl, owed_append, sent_append, owedFds_append, sentFds_append, owed_other he, sent_other he, owedFds_other he, sentFds_other he, h1, h2, h3, h4]
    simp

/-- The number of connections changes only by `accept`. -/
theorem Frame.next {s s' : Css} (h : Frame s s') : s'.next = s.next := by rw [h]

theorem AInv.accept {cfg s l p s' l'} (hi : AInv cfg s l) (h : accept s p = .ok (s', l')) : AInv cfg s' (l ++ l') := by
  obtain ⟨rfl, rfl⟩ := one_ok h
  refine ⟨fun id => ?_, fun id hid => ?_⟩
  · by_cases hid : id = s.next
    · subst hid
      obtain ⟨h1, h2⟩ := hi.fresh _ (Nat.le_refl _)
      simp only [Css.put, if_true]
      refine ⟨(hi.conn _).1.snoc ⟨fun need hn => absurd hn (needs_none (Or.inr (Or.inr (Or.inr (Or.inr ⟨_, rfl⟩))))), by simp, by simp, by simp, fun p hp => h2, by simp⟩, ?_⟩
      intro c' hc'
      simp only [Option.some.injEq] at hc'
      subst hc'
      obtain ⟨h3, h4, h5, h6⟩ := new_nil (cfg := cfg) h2
      refine ⟨by simp, Or.inl ⟨by simp [Shape], Turns.other (turns_new h2) (by simp [turn]), ?_, ?_⟩⟩
      · rw [owed_append, sent_append, h3, h4]; simp [owed, sent, pend]
      · rw [owedFds_append, sentFds_append, h5, h6]; simp [owedFds, sentFds, pendFds]
    · simp only [Css.put, if_neg hid]
      exact (LS.one (L.other (by simp only [owner, ne_eq, Option.some.injEq]; exact fun h => hid h.symm))).inv (hi.conn id)
  · dsimp only at hid
    obtain ⟨h1, h2⟩ := hi.fresh id (by omega)
    refine ⟨by simp only [Css.put]; rw [if_neg (by omega), h1], ?_⟩
    intro e he
    rw [List.mem_append, List.mem_singleton] at he
    rcases he with he | rfl
    · exact h2 e he
    · simp only [owner, ne_eq, Option.some.injEq]; omega

theorem AInv.loc {cfg s l s' l'} (hi : AInv cfg s l) (h : Loc cfg s l' s') (hn : s'.next = s.next) : AInv cfg s' (l ++ l') := by
  refine ⟨fun id => (h id).inv (hi.conn id), fun id hid => ?_⟩
  obtain ⟨h1, h2⟩ := hi.fresh id (by omega)
  obtain ⟨h3, h4⟩ := (h id).none h1
  refine ⟨h3, fun e he => ?_⟩
  rw [List.mem_append] at he
  exact he.elim (h2 e) (h4 e)

end Gdnsd.Css
