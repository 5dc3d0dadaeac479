/-
White space and strings: what the automaton does with them, in both directions.
-/
import Verif.Vscf.Spec
import Verif.Dname.Props
namespace Gdnsd.Vscf
open VscfSpec

theorem u8_all (p : UInt8 → Prop) (h : ∀ b : BitVec 8, p ⟨b⟩) (c : UInt8) : p c := h c.toBitVec

@[simp] theorem andThen_some {α β : Type} (a : α) (f : α → Outcome (Option β)) : andThen (.ok (some a)) f = f a := rfl
@[simp] theorem andThen_none {α β : Type} (f : α → Outcome (Option β)) : andThen (.ok none : Outcome (Option α)) f = .ok none := rfl
@[simp] theorem andThen_ub {α β : Type} (f : α → Outcome (Option β)) : andThen (.ub : Outcome (Option α)) f = .ub := rfl

theorem andThen_ok {α β : Type} {x : Outcome (Option α)} {f : α → Outcome (Option β)} {b : β} (h : andThen x f = .ok (some b)) :
    ∃ a, x = .ok (some a) ∧ f a = .ok (some b) := by
  unfold andThen at h
  split at h
  · simp at h
  · simp at h
  · exact ⟨_, rfl, h⟩

theorem andThen_assoc {α β γ : Type} (x : Outcome (Option α)) (f : α → Outcome (Option β)) (g : β → Outcome (Option γ)) :
    andThen (andThen x f) g = andThen x fun a => andThen (f a) g := by
  cases x with
  | ub => rfl
  | ok o => cases o <;> rfl

/-- What a machine works with. -/
structure Mach where
  early : Bool
  env : Env
  load : Bytes → Outcome (Option Val)
  fn : Option Bytes

namespace Mach
variable (m : Mach)

abbrev step := Vscf.step m.early m.env m.load m.fn
abbrev run := Vscf.run m.early m.env m.load m.fn
abbrev exec := Vscf.exec m.env m.load m.fn
abbrev execs := Vscf.execs m.env m.load m.fn
abbrev leave := Vscf.leave m.env m.load m.fn
abbrev finish := Vscf.finish m.env m.load m.fn

/-- From this state the rest of the text is accepted. -/
def Acc (s : St) (r : Bytes) (v : Val) : Prop := andThen (m.run r s) m.finish = .ok (some v)

end Mach

variable {m : Mach}

@[simp] theorem run_nil (s : St) : m.run [] s = .ok (some s) := rfl

theorem run_cons (c : UInt8) (r : Bytes) (s : St) : m.run (c :: r) s = andThen (m.step s c) (m.run r) := rfl

theorem run_append (a b : Bytes) (s : St) : m.run (a ++ b) s = andThen (m.run a s) (m.run b) := by
  induction a generalizing s with
  | nil => rfl
  | cons c a ih =>
    rw [List.cons_append, run_cons, run_cons, andThen_assoc]
    congr 1; funext s'; exact ih s'

theorem acc_cons {s : St} {c : UInt8} {r : Bytes} {v : Val} : m.Acc s (c :: r) v ↔ ∃ s', m.step s c = .ok (some s') ∧ m.Acc s' r v := by
  unfold Mach.Acc
  rw [run_cons, andThen_assoc]
  constructor
  · intro h
    obtain ⟨s', h1, h2⟩ := andThen_ok h
    exact ⟨s', h1, h2⟩
  · rintro ⟨s', h1, h2⟩
    rw [h1]; exact h2

theorem acc_append {s s' : St} {a r : Bytes} {v : Val} (h : m.run a s = .ok (some s')) : m.Acc s (a ++ r) v ↔ m.Acc s' r v := by
  unfold Mach.Acc
  rw [run_append, h]; rfl

/-- A step without actions that does not end in a string. -/
theorem step_plain {s : St} {c : UInt8} {p : Pos} (h : trans m.early s.ctx s.pos c = some (p, [])) (hp : p.inStr = false) :
    m.step s c = .ok (some { s with pos := p }) := by
  simp [Mach.step, step, h, execs, hp]

/-- A step without actions that ends in a string. -/
theorem step_str {s : St} {c : UInt8} {p : Pos} (h : trans m.early s.ctx s.pos c = some (p, [])) (hp : p.inStr = true) :
    m.step s c = .ok (some { s with pos := p, tok := s.tok.map (· ++ [c]) }) := by
  simp [Mach.step, step, h, execs, hp]

theorem step_fail {s : St} {c : UInt8} (h : trans m.early s.ctx s.pos c = none) : m.step s c = .ok none := by
  simp [Mach.step, step, h]

/-! ### White space -/

def isGap (c : UInt8) : Bool := c == 32 || c == 9 || c == 10 || c == 59 || c == 35

theorem run_comment {s : St} {w : Ws} (hs : s.pos = .comment w) (t : Bytes) (ht : (10 : UInt8) ∉ t) :
    m.run (t ++ [10]) s = .ok (some { s with pos := .ws w }) := by
  induction t with
  | nil =>
    have h : trans m.early s.ctx s.pos 10 = some (.ws w, []) := by rw [hs]; rfl
    rw [List.nil_append, run_cons, step_plain h rfl]; rfl
  | cons c t ih =>
    have hc : (c == 10) = false := by simp; intro e; exact ht (by simp [e])
    have h : trans m.early s.ctx s.pos c = some (.comment w, []) := by rw [hs]; simp [trans, hc]
    rw [List.cons_append, run_cons, step_plain h rfl]
    have : { s with pos := Pos.comment w } = s := by cases s; simp_all
    rw [this]; exact ih (fun e => ht (by simp [e]))

theorem wsT_blank {ctx : Ctx} {w : Ws} {c : UInt8} (h : c = 32 ∨ c = 9 ∨ c = 10) : wsT ctx w c = some (.ws w, []) := by
  rcases h with rfl | rfl | rfl <;> rfl

theorem wsT_comment {ctx : Ctx} {w : Ws} {c : UInt8} (h : c = 59 ∨ c = 35) : wsT ctx w c = some (.comment w, []) := by
  rcases h with rfl | rfl <;> rfl

theorem run_gap {g : Bytes} (hg : Gap g) {s : St} {w : Ws} (hs : s.pos = .ws w) : m.run g s = .ok (some s) := by
  have he : { s with pos := Pos.ws w } = s := by cases s; simp_all
  induction hg with
  | nil => rfl
  | @blank c r hc _ ih =>
    have h : trans m.early s.ctx s.pos c = some (.ws w, []) := by rw [hs]; exact wsT_blank hc
    rw [run_cons, step_plain h rfl, he]; exact ih
  | @comment c t r hc ht _ ih =>
    have h : trans m.early s.ctx s.pos c = some (.comment w, []) := by rw [hs]; exact wsT_comment hc
    have e : c :: t ++ 10 :: r = c :: ((t ++ [10]) ++ r) := by simp
    rw [e, run_cons, step_plain h rfl, andThen_some, run_append, run_comment rfl t ht]
    simp only [he, andThen_some]; exact ih

theorem comment_inv {s : St} {w : Ws} {r : Bytes} {v : Val} (hs : s.pos = .comment w) (h : m.Acc s r v) :
    ∃ t r', r = t ++ 10 :: r' ∧ (10 : UInt8) ∉ t ∧ m.Acc { s with pos := .ws w } r' v := by
  induction r with
  | nil =>
    exfalso
    unfold Mach.Acc at h
    simp only [run_nil, andThen_some, Mach.finish, finish, hs] at h
    cases hc : s.ctx <;> simp [hc] at h
  | cons c r ih =>
    obtain ⟨s', h1, h2⟩ := acc_cons.1 h
    by_cases hc : c = 10
    · subst hc
      have ht : trans m.early s.ctx s.pos 10 = some (.ws w, []) := by rw [hs]; rfl
      rw [step_plain ht rfl] at h1
      simp only [Outcome.ok.injEq, Option.some.injEq] at h1
      exact ⟨[], r, rfl, by simp, h1 ▸ h2⟩
    · have hc' : (c == 10) = false := by simpa using hc
      have ht : trans m.early s.ctx s.pos c = some (.comment w, []) := by rw [hs]; simp [trans, hc']
      have he : { s with pos := Pos.comment w } = s := by cases s; simp_all
      rw [step_plain ht rfl, he] at h1
      simp only [Outcome.ok.injEq, Option.some.injEq] at h1
      obtain ⟨t, r', e, ht', h3⟩ := ih (h1 ▸ h2)
      exact ⟨c :: t, r', by simp [e], by simpa [ht'] using Ne.symm hc, h3⟩

/-- White space is skipped. -/
theorem gap_inv (n : Nat) {s : St} {w : Ws} {r : Bytes} {v : Val} (hn : r.length ≤ n) (hs : s.pos = .ws w) (h : m.Acc s r v) :
    ∃ g r', r = g ++ r' ∧ Gap g ∧ m.Acc s r' v ∧ ∀ c, r'.head? = some c → isGap c = false := by
  have he : { s with pos := Pos.ws w } = s := by cases s; simp_all
  induction n generalizing r with
  | zero =>
    have : r = [] := List.length_eq_zero_iff.1 (by omega)
    subst this
    exact ⟨[], [], rfl, .nil, h, by simp⟩
  | succ n ih =>
    cases r with
    | nil => exact ⟨[], [], rfl, .nil, h, by simp⟩
    | cons c r =>
      simp only [List.length_cons, Nat.add_le_add_iff_right] at hn
      by_cases h1 : c = 32 ∨ c = 9 ∨ c = 10
      · have ht : trans m.early s.ctx s.pos c = some (.ws w, []) := by rw [hs]; exact wsT_blank h1
        obtain ⟨s', h2, h3⟩ := acc_cons.1 h
        rw [step_plain ht rfl, he] at h2
        simp only [Outcome.ok.injEq, Option.some.injEq] at h2
        obtain ⟨g, r', e, hg, ha, hh⟩ := ih hn (h2 ▸ h3)
        exact ⟨c :: g, r', by simp [e], .blank h1 hg, ha, hh⟩
      · by_cases h4 : c = 59 ∨ c = 35
        · have ht : trans m.early s.ctx s.pos c = some (.comment w, []) := by rw [hs]; exact wsT_comment h4
          obtain ⟨s', h2, h3⟩ := acc_cons.1 h
          rw [step_plain ht rfl] at h2
          simp only [Outcome.ok.injEq, Option.some.injEq] at h2
          subst h2
          obtain ⟨t, r1, e1, ht1, h5⟩ := comment_inv rfl h3
          rw [show ({ ({ s with pos := Pos.comment w } : St) with pos := Pos.ws w } : St) = s from he] at h5
          obtain ⟨g, r', e, hg, ha, hh⟩ := ih (by rw [e1] at hn; simp at hn; omega) h5
          exact ⟨c :: t ++ 10 :: g, r', by simp [e1, e], .comment h4 ht1 hg, ha, hh⟩
        · refine ⟨[], c :: r, rfl, .nil, h, ?_⟩
          intro x hx
          simp only [List.head?_cons, Option.some.injEq] at hx
          subst hx
          simp only [not_or] at h1 h4
          simp [isGap, h1, h4]

/-! ### Strings -/

theorem isChr_iff {c : UInt8} : isChr c = true ↔ c ∉ special ∧ c ≠ 92 := by
  simp [isChr, special]
  constructor
  · intro h; simp [h]
  · intro h; simp [h]

theorem digit_iff (c : UInt8) : (decide (48 ≤ c) && decide (c ≤ 57)) = true ↔ digit c := by
  simp [digit, UInt8.le_iff_toNat_le]

/-- A character that stands for itself in a string. -/
def lit (q : Bool) (c : UInt8) : Prop := if q then c ≠ 34 else c ∉ special

theorem unescape_units {ok : UInt8 → Prop} {t v : Bytes} (h : Units ok t v) : DnameSpec.Unesc t v := by
  induction h with
  | nil => exact .nil
  | chr _ h1 _ ih => exact .lit h1 ih
  | esc h1 _ ih => exact .chr h1 ih
  | num h1 h2 h3 h4 _ ih =>
    rename_i n _ _ _
    have := DnameSpec.Unesc.num h1 h2 h3 rfl (by rw [h4]; have := n.toNat_lt; omega) ih
    rw [h4] at this
    simpa using this

/-- What the grammar accepts as a string can always be decoded. -/
theorem unescape_eq {ok : UInt8 → Prop} {t v : Bytes} (h : Units ok t v) : unescape t = .ok (some v) := by
  unfold unescape
  cases t with
  | nil => cases h; rfl
  | cons c t =>
    have hu := unescape_units h
    rcases Dname.C02_unescape_exact ((c :: t).length + 1) (c :: t) (c :: t).length (by simp) (Nat.le_refl _) (by omega) with ⟨o, h1, h2, h3, h4⟩ | ⟨h1, h2⟩
    · rw [h1]
      rw [List.take_length] at h2
      have : o = v := (Dname.unesc_iff _ _).2 h2 |>.symm.trans ((Dname.unesc_iff _ _).2 hu) |> Option.some.inj
      subst this
      have : o.isEmpty = false := by cases o <;> simp_all
      have h5 : o.length ≤ t.length + 1 := by simpa using h4
      simp [assert, this, h5]
    · exact absurd (by rwa [List.take_length]) (h2 v)

theorem escT_bs {c : UInt8} (h : ¬ digit c) : escT .bs c = some .plain := by
  rw [← digit_iff] at h
  have h' : ∀ c : UInt8, (decide (48 ≤ c) && decide (c ≤ 57)) = false → escT .bs c = some .plain := u8_all _ (by decide +kernel)
  exact h' c (by simpa using h)

/-- Three digits are taken if the number is at most 255. -/
theorem esc3_ok {a b c : UInt8} (ha : digit a) (hb : digit b) (hc : digit c)
    (h : (a.toNat - 48) * 100 + (b.toNat - 48) * 10 + (c.toNat - 48) ≤ 255) :
    ∃ e1 e2, escT .bs a = some e1 ∧ escT e1 b = some e2 ∧ escT e2 c = some .plain ∧ e1 ≠ .plain ∧ e2 ≠ .plain := by
  have hb' := (digit_iff b).2 hb
  have hc' := (digit_iff c).2 hc
  unfold digit at ha hb hc
  by_cases h1 : a = 48 ∨ a = 49
  · refine ⟨.d01, .last, ?_, ?_, ?_, nofun, nofun⟩
    · rcases h1 with rfl | rfl <;> rfl
    · simp only [escT, hb', cond_true]
    · simp only [escT, hc', cond_true]
  · have h2 : a = 50 := by
      apply UInt8.toNat_inj.1
      have : a.toNat ≠ 48 ∧ a.toNat ≠ 49 := by
        constructor
        · intro e; exact h1 (.inl (UInt8.toNat_inj.1 e))
        · intro e; exact h1 (.inr (UInt8.toNat_inj.1 e))
      show a.toNat = 50
      omega
    subst h2
    have h3 : (50 : UInt8).toNat = 50 := rfl
    rw [h3] at h
    by_cases h4 : b.toNat ≤ 52
    · refine ⟨.d2, .last, rfl, ?_, ?_, nofun, nofun⟩
      · have : (decide (48 ≤ b) && decide (b ≤ 52)) = true := by
          simp [UInt8.le_iff_toNat_le]; omega
        simp only [escT, this, cond_true]
      · simp only [escT, hc', cond_true]
    · have h5 : b = 53 := UInt8.toNat_inj.1 (by show b.toNat = 53; omega)
      subst h5
      refine ⟨.d2, .d25, rfl, rfl, ?_, nofun, nofun⟩
      have : (decide (48 ≤ c) && decide (c ≤ 53)) = true := by
        simp [UInt8.le_iff_toNat_le]
        have : (53 : UInt8).toNat = 53 := rfl
        omega
      simp only [escT, this, cond_true]

theorem esc_bs_inv {c : UInt8} {e : Esc} (h : escT .bs c = some e) :
    (e = .plain ∧ ¬ digit c) ∨ (e = .d01 ∧ digit c ∧ c.toNat ≤ 49) ∨ (e = .d2 ∧ c = 50) := by
  simp only [escT, cond_eq_ite] at h
  split at h
  · rename_i h1
    simp at h1 h
    right; left
    rcases h1 with rfl | rfl <;> exact ⟨h.symm, ⟨by decide, by decide⟩, by decide⟩
  · split at h
    · rename_i h1
      simp at h1 h
      exact .inr (.inr ⟨h.symm, h1⟩)
    · split at h
      · simp at h
      · rename_i h1
        simp only [Option.some.injEq] at h
        left
        exact ⟨h.symm, fun hd => h1 ((digit_iff c).2 hd)⟩

/-- The ends of escapes that begin with a digit. -/
theorem esc_d_inv {a b c : UInt8} {e1 e2 e3 : Esc} (h1 : escT .bs a = some e1) (h0 : e1 ≠ .plain) (h2 : escT e1 b = some e2) (h3 : escT e2 c = some e3) :
    e3 = .plain ∧ digit a ∧ digit b ∧ digit c ∧ (a.toNat - 48) * 100 + (b.toNat - 48) * 10 + (c.toNat - 48) ≤ 255 := by
  rcases esc_bs_inv h1 with ⟨rfl, _⟩ | ⟨rfl, ha, hle⟩ | ⟨rfl, rfl⟩
  · exact absurd rfl h0
  · simp only [escT, cond_eq_ite] at h2
    split at h2
    · rename_i hb
      simp only [Option.some.injEq] at h2
      subst h2
      simp only [escT, cond_eq_ite] at h3
      split at h3
      · rename_i hc
        simp only [Option.some.injEq] at h3
        have hb' := (digit_iff b).1 hb
        have hc' := (digit_iff c).1 hc
        refine ⟨h3.symm, ha, hb', hc', ?_⟩
        unfold digit at *
        omega
      · simp at h3
    · simp at h2
  · simp only [escT, cond_eq_ite] at h2
    have h50 : (50 : UInt8).toNat = 50 := rfl
    split at h2
    · rename_i hb
      simp only [Option.some.injEq] at h2
      subst h2
      simp only [escT, cond_eq_ite] at h3
      simp [UInt8.le_iff_toNat_le] at hb
      split at h3
      · rename_i hc
        simp only [Option.some.injEq] at h3
        have hc' := (digit_iff c).1 hc
        refine ⟨h3.symm, ⟨by decide, by decide⟩, ⟨by omega, by omega⟩, hc', ?_⟩
        unfold digit at *
        omega
      · simp at h3
    · split at h2
      · rename_i hb
        simp only [Option.some.injEq] at h2
        subst h2
        simp at hb
        subst hb
        simp only [escT, cond_eq_ite] at h3
        split at h3
        · rename_i hc
          simp only [Option.some.injEq] at h3
          simp [UInt8.le_iff_toNat_le] at hc
          have h53 : (53 : UInt8).toNat = 53 := rfl
          refine ⟨h3.symm, ⟨by decide, by decide⟩, ⟨by decide, by decide⟩, ⟨by omega, by omega⟩, ?_⟩
          omega
        · simp at h3
      · simp at h2

theorem escT_e1 {a b : UInt8} {e1 e2 : Esc} (h1 : escT .bs a = some e1) (h0 : e1 ≠ .plain) (h2 : escT e1 b = some e2) : e2 ≠ .plain := by
  rcases esc_bs_inv h1 with ⟨rfl, _⟩ | ⟨rfl, ha, hle⟩ | ⟨rfl, rfl⟩
  · exact absurd rfl h0
  · simp only [escT, cond_eq_ite] at h2
    split at h2 <;> simp at h2; subst h2; nofun
  · simp only [escT, cond_eq_ite] at h2
    split at h2
    · simp at h2; subst h2; nofun
    · split at h2 <;> simp at h2; subst h2; nofun

/-- A step inside of an escape. -/
theorem step_esc {s : St} {u : Use} {q : Bool} {e e' : Esc} {c : UInt8} (hs : s.pos = .str u q e) (he : e ≠ .plain) (h : escT e c = some e') :
    m.step s c = .ok (some { s with pos := .str u q e', tok := s.tok.map (· ++ [c]) }) := by
  have ht : trans m.early s.ctx s.pos c = some (.str u q e', []) := by
    rw [hs]
    cases e <;> first | exact absurd rfl he | simp [trans, h]
  exact step_str ht rfl

theorem step_bs {s : St} {u : Use} {q : Bool} (hs : s.pos = .str u q .plain) :
    m.step s 92 = .ok (some { s with pos := .str u q .bs, tok := s.tok.map (· ++ [92]) }) := by
  have ht : trans m.early s.ctx s.pos 92 = some (.str u q .bs, []) := by rw [hs]; rfl
  exact step_str ht rfl

theorem step_lit {s : St} {u : Use} {q : Bool} {c : UInt8} (hs : s.pos = .str u q .plain) (hc : lit q c) (h92 : c ≠ 92) :
    m.step s c = .ok (some { s with pos := .str u q .plain, tok := s.tok.map (· ++ [c]) }) := by
  have h1 : (c == 92) = false := by simpa using h92
  have ht : trans m.early s.ctx s.pos c = some (.str u q .plain, []) := by
    rw [hs]
    cases q with
    | true =>
      simp only [lit, if_true] at hc
      have h2 : (c == 34) = false := by simpa using hc
      simp [trans, h1, h2]
    | false =>
      simp only [lit] at hc
      have h2 : isChr c = true := isChr_iff.2 ⟨by simpa using hc, h92⟩
      simp [trans, h1, h2]
  exact step_str ht rfl

/-- The contents of a string. -/
theorem run_units {q : Bool} {x v : Bytes} (hx : Units (lit q) x v) {s : St} {u : Use} (hs : s.pos = .str u q .plain) :
    m.run x s = .ok (some { s with tok := s.tok.map (· ++ x) }) := by
  induction hx generalizing s with
  | nil => cases s with | mk _ _ _ _ _ tok => cases tok <;> simp
  | chr h1 h2 _ ih =>
    rw [run_cons, step_lit hs h1 h2, andThen_some, ih rfl]
    cases s with | mk _ _ _ _ _ tok => cases tok <;> simp_all
  | esc h1 _ ih =>
    rw [run_cons, step_bs hs, andThen_some, run_cons, step_esc rfl (by nofun) (escT_bs h1), andThen_some, ih rfl]
    cases s with | mk _ _ _ _ _ tok => cases tok <;> simp_all
  | @num a b c n r v h1 h2 h3 h4 _ ih =>
    obtain ⟨e1, e2, g1, g2, g3, g4, g5⟩ := esc3_ok h1 h2 h3 (by rw [h4]; have := n.toNat_lt; omega)
    rw [run_cons, step_bs hs, andThen_some, run_cons, step_esc rfl (by nofun) g1, andThen_some, run_cons,
      step_esc rfl g4 g2, andThen_some, run_cons, step_esc rfl g5 g3, andThen_some, ih rfl]
    cases s with | mk _ _ _ _ _ tok => cases tok <;> simp_all

theorem acc_inStr_nil {s : St} {v : Val} {u : Use} {q : Bool} {e : Esc} (hs : s.pos = .str u q e) (h : m.Acc s [] v) : e = .plain ∧ q = false ∧ u = .simple := by
  unfold Mach.Acc at h
  simp only [run_nil, andThen_some, Mach.finish, finish, hs] at h
  cases hc : s.ctx <;> cases u <;> cases q <;> cases e <;> simp_all

theorem acc_esc {s : St} {c : UInt8} {r : Bytes} {v : Val} {u : Use} {q : Bool} {e : Esc} (hs : s.pos = .str u q e) (he : e ≠ .plain) (h : m.Acc s (c :: r) v) :
    ∃ e', escT e c = some e' ∧ m.Acc { s with pos := .str u q e', tok := s.tok.map (· ++ [c]) } r v := by
  obtain ⟨s', h1, h2⟩ := acc_cons.1 h
  cases ht : escT e c with
  | none =>
    have : trans m.early s.ctx s.pos c = none := by
      rw [hs]; cases e <;> first | exact absurd rfl he | simp [trans, ht]
    rw [step_fail this] at h1; simp at h1
  | some e' =>
    rw [step_esc hs he ht] at h1
    simp only [Outcome.ok.injEq, Option.some.injEq] at h1
    exact ⟨e', rfl, h1 ▸ h2⟩

/-- A string in an accepted text is made of units, up to its end. -/
theorem units_inv (n : Nat) {s : St} {u : Use} {q : Bool} {r : Bytes} {w : Val} (hn : r.length ≤ n) (hs : s.pos = .str u q .plain) (h : m.Acc s r w) :
    ∃ x v r', r = x ++ r' ∧ Units (lit q) x v ∧ m.Acc { s with tok := s.tok.map (· ++ x) } r' w ∧
      (if q then r'.head? = some 34 else ∀ c, r'.head? = some c → c ∈ special) := by
  have hid : { s with tok := s.tok.map (· ++ []) } = s := by cases s with | mk _ _ _ _ _ tok => cases tok <;> simp
  induction n generalizing s r with
  | zero =>
    have : r = [] := List.length_eq_zero_iff.1 (by omega)
    subst this
    obtain ⟨_, rfl, _⟩ := acc_inStr_nil hs h
    exact ⟨[], [], [], rfl, .nil, by rw [hid]; exact h, by simp⟩
  | succ n ih =>
    cases r with
    | nil =>
      obtain ⟨_, rfl, _⟩ := acc_inStr_nil hs h
      exact ⟨[], [], [], rfl, .nil, by rw [hid]; exact h, by simp⟩
    | cons c r =>
      simp only [List.length_cons, Nat.add_le_add_iff_right] at hn
      by_cases h92 : c = 92
      · subst h92
        obtain ⟨s1, g1, g2⟩ := acc_cons.1 h
        rw [step_bs hs] at g1
        simp only [Outcome.ok.injEq, Option.some.injEq] at g1
        subst g1
        cases r with
        | nil => exact absurd (acc_inStr_nil rfl g2).1 (by nofun)
        | cons a r =>
          simp only [List.length_cons] at hn
          obtain ⟨e1, f1, g3⟩ := acc_esc rfl (by nofun) g2
          by_cases he1 : e1 = .plain
          · subst he1
            have ha : ¬ digit a := by
              rcases esc_bs_inv f1 with ⟨_, h⟩ | ⟨h, _⟩ | ⟨h, _⟩
              · exact h
              · cases h
              · cases h
            obtain ⟨x, v, r', e, hu, ha', hh⟩ := ih (by omega) (by rfl) g3 (by cases s with | mk _ _ _ _ _ tok => cases tok <;> simp)
            refine ⟨92 :: a :: x, a :: v, r', by simp [e], .esc ha hu, ?_, hh⟩
            have : ({ s with tok := s.tok.map (· ++ (92 :: a :: x)) } : St) = { s with pos := .str u q .plain, tok := ((s.tok.map (· ++ [92])).map (· ++ [a])).map (· ++ x) } := by
              cases s with | mk _ _ _ _ _ tok => cases tok <;> simp_all
            rw [this]; exact ha'
          · cases r with
            | nil => exact absurd (acc_inStr_nil rfl g3).1 he1
            | cons b r =>
              simp only [List.length_cons] at hn
              obtain ⟨e2, f2, g4⟩ := acc_esc rfl he1 g3
              have he2 := escT_e1 f1 he1 f2
              cases r with
              | nil => exact absurd (acc_inStr_nil rfl g4).1 he2
              | cons c r =>
                simp only [List.length_cons] at hn
                obtain ⟨e3, f3, g5⟩ := acc_esc rfl he2 g4
                obtain ⟨rfl, d1, d2, d3, hle⟩ := esc_d_inv f1 he1 f2 f3
                obtain ⟨x, v, r', e, hu, ha', hh⟩ := ih (by omega) (by rfl) g5 (by cases s with | mk _ _ _ _ _ tok => cases tok <;> simp)
                refine ⟨92 :: a :: b :: c :: x, UInt8.ofNat ((a.toNat - 48) * 100 + (b.toNat - 48) * 10 + (c.toNat - 48)) :: v, r', by simp [e],
                  .num d1 d2 d3 (by rw [UInt8.toNat_ofNat', Nat.mod_eq_of_lt (by omega)]) hu, ?_, hh⟩
                have : ({ s with tok := s.tok.map (· ++ (92 :: a :: b :: c :: x)) } : St) =
                    { s with pos := .str u q .plain, tok := ((((s.tok.map (· ++ [92])).map (· ++ [a])).map (· ++ [b])).map (· ++ [c])).map (· ++ x) } := by
                  cases s with | mk _ _ _ _ _ tok => cases tok <;> simp_all
                rw [this]; exact ha'
      · by_cases hl : lit q c
        · obtain ⟨s1, g1, g2⟩ := acc_cons.1 h
          rw [step_lit hs hl h92] at g1
          simp only [Outcome.ok.injEq, Option.some.injEq] at g1
          subst g1
          obtain ⟨x, v, r', e, hu, ha', hh⟩ := ih hn (by rfl) g2 (by cases s with | mk _ _ _ _ _ tok => cases tok <;> simp)
          refine ⟨c :: x, c :: v, r', by simp [e], .chr hl h92 hu, ?_, hh⟩
          have : ({ s with tok := s.tok.map (· ++ (c :: x)) } : St) = { s with pos := .str u q .plain, tok := (s.tok.map (· ++ [c])).map (· ++ x) } := by
            cases s with | mk _ _ _ _ _ tok => cases tok <;> simp_all
          rw [this]; exact ha'
        · refine ⟨[], [], c :: r, rfl, .nil, by rw [hid]; exact h, ?_⟩
          cases q with
          | true => simpa [lit] using hl
          | false =>
            simp only [lit] at hl
            simpa using hl

end Gdnsd.Vscf
