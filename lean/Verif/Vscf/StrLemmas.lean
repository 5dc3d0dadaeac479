/-
Whole strings and `$include{}`: what the automaton does with them, in both directions.
-/
import Verif.Vscf.WordLemmas
namespace Gdnsd.Vscf
open VscfSpec

variable {m : Mach}

/-! ### What is not in a string does not depend on the last token -/

theorem strT_acts {u : Use} {c : UInt8} {p : Pos} {as : List Act} (h : strT u c = some (p, as)) : as = [.start] ∧ p.inStr = true := by
  unfold strT at h
  simp only [cond_eq_ite] at h
  split at h
  · simp at h; exact ⟨h.2.symm, by rw [← h.1]; rfl⟩
  · split at h
    · simp at h; exact ⟨h.2.symm, by rw [← h.1]; rfl⟩
    · split at h
      · simp at h; exact ⟨h.2.symm, by rw [← h.1]; rfl⟩
      · simp at h

theorem valueT_acts {c : UInt8} {p : Pos} {as : List Act} (h : valueT c = some (p, as)) :
    (as = [.start] ∧ p.inStr = true) ∨ (as = [.openArr] ∧ p = .ws .after) ∨ (as = [.openHash] ∧ p = .ws .after) ∨ (as = [] ∧ p = .kw 1) := by
  unfold valueT at h
  simp only [cond_eq_ite] at h
  split at h
  · simp at h; exact .inr (.inl ⟨h.2.symm, h.1.symm⟩)
  · split at h
    · simp at h; exact .inr (.inr (.inl ⟨h.2.symm, h.1.symm⟩))
    · split at h
      · simp at h; exact .inr (.inr (.inr ⟨h.2, h.1.symm⟩))
      · exact .inl (strT_acts h)

/-- Actions of a transition that is not inside of a string. -/
def Fresh (p : Pos) (as : List Act) : Prop :=
  (as = [.start] ∧ p.inStr = true) ∨ (p.inStr = false ∧ (as = [] ∨ as = [.openArr] ∨ as = [.openHash] ∨ as = [.close] ∨ as = [.topArr]))

theorem itemT_acts {ctx : Ctx} {c : UInt8} {p : Pos} {as : List Act} (h : itemT ctx c = some (p, as)) : Fresh p as := by
  have hv : ∀ {c}, valueT c = some (p, as) → Fresh p as := by
    intro c h
    rcases valueT_acts h with h | ⟨h1, h2⟩ | ⟨h1, h2⟩ | ⟨h1, h2⟩
    · exact .inl h
    · exact .inr ⟨by rw [h2]; rfl, by simp [h1]⟩
    · exact .inr ⟨by rw [h2]; rfl, by simp [h1]⟩
    · exact .inr ⟨by rw [h2]; rfl, by simp [h1]⟩
  have hs : ∀ {u c}, strT u c = some (p, as) → Fresh p as := fun h => .inl (strT_acts h)
  unfold itemT at h
  simp only [cond_eq_ite] at h
  cases ctx with
  | top =>
    simp only at h
    split at h
    · simp at h; exact .inr ⟨by rw [← h.1]; rfl, by simp [h.2]⟩
    · exact hs h
  | hash =>
    simp only at h
    split at h
    · simp at h; exact .inr ⟨by rw [← h.1]; rfl, by simp [← h.2]⟩
    · split at h
      · simp at h; exact .inr ⟨by rw [← h.1]; rfl, by simp [h.2]⟩
      · exact hs h
  | arr =>
    simp only at h
    split at h
    · simp at h; exact .inr ⟨by rw [← h.1]; rfl, by simp [← h.2]⟩
    · exact hv h
  | topArr =>
    simp only at h
    split at h
    · simp at h; exact .inr ⟨by rw [← h.1]; rfl, by simp [h.2]⟩
    · exact hv h

theorem wsT_acts {ctx : Ctx} {w : Ws} {c : UInt8} {p : Pos} {as : List Act} (h : wsT ctx w c = some (p, as)) : Fresh p as := by
  unfold wsT at h
  simp only [cond_eq_ite] at h
  split at h
  · simp at h; exact .inr ⟨by rw [← h.1]; rfl, by simp [h.2]⟩
  split at h
  · simp at h; exact .inr ⟨by rw [← h.1]; rfl, by simp [h.2]⟩
  cases w with
  | start =>
    simp only at h
    split at h
    · simp at h; exact .inr ⟨by rw [← h.1]; rfl, by simp [← h.2]⟩
    · exact itemT_acts h
  | item => exact itemT_acts h
  | after =>
    simp only at h
    split at h
    · simp at h; exact .inr ⟨by rw [← h.1]; rfl, by simp [h.2]⟩
    · exact itemT_acts h
  | eq =>
    simp only at h
    split at h
    · simp at h; exact .inr ⟨by rw [← h.1]; rfl, by simp [h.2]⟩
    · simp at h
  | val =>
    rcases valueT_acts h with h | ⟨h1, h2⟩ | ⟨h1, h2⟩ | ⟨h1, h2⟩
    · exact .inl h
    · exact .inr ⟨by rw [h2]; rfl, by simp [h1]⟩
    · exact .inr ⟨by rw [h2]; rfl, by simp [h1]⟩
    · exact .inr ⟨by rw [h2]; rfl, by simp [h1]⟩
  | inc => exact .inl (strT_acts h)
  | incEnd =>
    simp only at h
    split at h
    · simp at h; exact .inr ⟨by rw [← h.1]; rfl, by simp [h.2]⟩
    · simp at h
  | done => simp at h

theorem trans_acts {e : Bool} {ctx : Ctx} {p0 : Pos} {c : UInt8} {p : Pos} {as : List Act} (h0 : p0.inStr = false)
    (h : trans e ctx p0 c = some (p, as)) : Fresh p as := by
  cases p0 with
  | ws w => exact wsT_acts h
  | comment w =>
    simp only [trans, Option.some.injEq, Prod.mk.injEq] at h
    refine .inr ⟨?_, .inl h.2.symm⟩
    rw [← h.1]; cases hc : (c == 10) <;> rfl
  | opr =>
    simp only [trans, cond_eq_ite] at h
    split at h
    · simp at h; exact .inr ⟨by rw [← h.1]; rfl, by simp [h.2]⟩
    · exact wsT_acts h
  | kw n =>
    simp only [trans, cond_eq_ite] at h
    split at h
    · simp at h
      refine .inr ⟨?_, by simp [h.2]⟩
      rw [← h.1]; split <;> rfl
    · simp at h
  | str _ _ _ => simp [Pos.inStr] at h0
  | endq _ => simp [Pos.inStr] at h0

/-- Two states that differ only in a token that does not matter. -/
def Same (a b : St) : Prop := (a.pos.inStr = false ∧ ∃ t, b = { a with tok := t }) ∨ a = b

theorem Same.step {a b : St} (h : Same a b) (c : UInt8) :
    (∃ a' b', m.step a c = .ok (some a') ∧ m.step b c = .ok (some b') ∧ Same a' b') ∨ (m.step a c = m.step b c) := by
  rcases h with ⟨hp, t, rfl⟩ | rfl
  rotate_left
  · exact .inr rfl
  cases ht : trans m.early a.ctx a.pos c with
  | none =>
    right
    rw [step_fail ht, step_fail (s := { a with tok := t }) ht]
  | some x =>
    obtain ⟨p, as⟩ := x
    have ht' : trans m.early ({ a with tok := t } : St).ctx ({ a with tok := t } : St).pos c = some (p, as) := ht
    rcases trans_acts hp ht with ⟨rfl, hi⟩ | ⟨hi, rfl | rfl | rfl | rfl | rfl⟩
    · right
      simp [Mach.step, Vscf.step, ht, execs, exec]
    · left
      rw [step_plain ht hi, step_plain ht' hi]
      exact ⟨_, _, rfl, rfl, .inl ⟨hi, t, rfl⟩⟩
    · simp only [Mach.step, Vscf.step, ht, execs, exec, openC]
      cases hc : a.dat.cur with
      | arr vs =>
        left
        simp [hc, Pos.inStr]
        exact .inl ⟨rfl, t, rfl⟩
      | hash es =>
        cases hk : a.dat.key with
        | none => right; simp [hc, hk]
        | some k =>
          by_cases hd : (keys es).contains k = true
          · right; simp only [hc, hk, hd, cond_true, andThen_none]
          · simp only [Bool.not_eq_true] at hd
            left
            simp only [hc, hk, hd, cond_false, andThen_some]
            exact ⟨_, _, rfl, rfl, .inl ⟨rfl, t, rfl⟩⟩
    · simp only [Mach.step, Vscf.step, ht, execs, exec, openC]
      cases hc : a.dat.cur with
      | arr vs =>
        left
        simp [hc, Pos.inStr]
        exact .inl ⟨rfl, t, rfl⟩
      | hash es =>
        cases hk : a.dat.key with
        | none => right; simp [hc, hk]
        | some k =>
          by_cases hd : (keys es).contains k = true
          · right; simp only [hc, hk, hd, cond_true, andThen_none]
          · simp only [Bool.not_eq_true] at hd
            left
            simp only [hc, hk, hd, cond_false, andThen_some]
            exact ⟨_, _, rfl, rfl, .inl ⟨rfl, t, rfl⟩⟩
    · simp only [Mach.step, Vscf.step, ht, execs, exec, closeC]
      cases hu : a.up with
      | nil => right; simp [hu]
      | cons x up =>
        cases hr : a.ret with
        | nil => right; simp [hu, hr]
        | cons ctx ret =>
          left
          simp only [hu, hr, andThen_some]
          exact ⟨_, _, rfl, rfl, .inl ⟨rfl, t, rfl⟩⟩
    · simp only [Mach.step, Vscf.step, ht, execs, exec]
      cases hu : a.up with
      | cons _ _ => right; simp [hu]
      | nil =>
        cases hc : a.dat.cur with
        | arr vs => right; simp [hc, hu]
        | hash es =>
          left
          simp only [hc, hu, andThen_some, hi, cond_false]
          exact ⟨_, _, rfl, rfl, .inl ⟨hi, t, rfl⟩⟩

theorem Same.finish {a b : St} (h : Same a b) : m.finish a = m.finish b := by
  rcases h with ⟨hp, t, rfl⟩ | rfl
  · simp only [Mach.finish, Vscf.finish]
    cases hc : a.ctx <;> rcases hq : a.pos with w | w | _ | ⟨u, q, e⟩ | u | n <;> (try cases w) <;> simp_all [Pos.inStr, result]
  · rfl

theorem Same.run {a b : St} (h : Same a b) (r : Bytes) : andThen (m.run r a) m.finish = andThen (m.run r b) m.finish := by
  induction r generalizing a b with
  | nil => simp only [run_nil, andThen_some]; exact h.finish
  | cons c r ih =>
    rw [run_cons, run_cons, andThen_assoc, andThen_assoc]
    rcases h.step (m := m) c with ⟨a', b', h1, h2, h3⟩ | h1
    · rw [h1, h2]; exact ih h3
    · rw [h1]

theorem Same.acc {a b : St} (h : Same a b) {r : Bytes} {v : Val} : m.Acc a r v ↔ m.Acc b r v := by
  unfold Mach.Acc; rw [h.run]

/-- Without the token. -/
def St.clean (s : St) : St := { s with tok := none }

theorem acc_clean {s : St} (h : s.pos.inStr = false) {r : Bytes} {v : Val} : m.Acc s r v ↔ m.Acc s.clean r v :=
  Same.acc (.inl ⟨h, none, rfl⟩)

end Gdnsd.Vscf
