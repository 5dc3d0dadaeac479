/-
Lemmas on the preprocessor.
-/
import Verif.Zscan.Spec
namespace Gdnsd.Zscan
open ZscanSpec

def puts (l : Bytes) (x : Outcome (Except Nat Bytes)) : Outcome (Except Nat Bytes) := x.map fun e => e.map (l ++ ·)

theorem put_puts (c : UInt8) (l : Bytes) (x) : put c (puts l x) = puts (c :: l) x := by
  cases x with
  | ub => rfl
  | ok e => cases e <;> rfl

theorem put_eq (c : UInt8) (x) : put c x = puts [c] x := rfl

theorem puts_puts (a b : Bytes) (x) : puts a (puts b x) = puts (a ++ b) x := by
  cases x with
  | ub => rfl
  | ok e =>
    cases e with
    | error n => rfl
    | ok o => show Outcome.ok (Except.ok (a ++ (b ++ o))) = Outcome.ok (Except.ok (a ++ b ++ o)); rw [List.append_assoc]

theorem put_ok {c : UInt8} {x out} (h : put c x = .ok (.ok out)) : ∃ o, x = .ok (.ok o) ∧ out = c :: o := by
  cases x with
  | ub => cases h
  | ok e =>
    cases e with
    | error n => cases h
    | ok o => cases h; exact ⟨o, rfl, rfl⟩

theorem put_error {c : UInt8} {x n} (h : put c x = .ok (.error n)) : x = .ok (.error n) := by
  cases x with
  | ub => cases h
  | ok e =>
    cases e with
    | error m => cases h; rfl
    | ok o => cases h

theorem put_ub {c : UInt8} {x} (h : put c x = .ub) : x = .ub := by
  cases x with
  | ub => rfl
  | ok e => cases h

/-! ### Complete -/

theorem pre_str (p : Bool) (gs : List Glyph) (hg : ∀ g ∈ gs, ∀ c, g = .chr c → c ≠ 34 ∧ c ≠ 92) (r : Bytes) (ln : Nat) :
    ∃ ln', pre true p .plain ln (gs.flatMap Glyph.text ++ 34 :: r) = puts (gs.flatMap Glyph.text ++ [34]) (pre false p .plain ln' r) := by
  induction gs generalizing ln with
  | nil => exact ⟨ln, by simp [pre, put_eq]⟩
  | cons g gs ih =>
    have ih := ih fun g h => hg g (by simp [h])
    cases g with
    | esc c =>
      obtain ⟨l, h⟩ := ih (bif c == 10 then ln + 1 else ln)
      refine ⟨l, ?_⟩
      have : pre true p .plain ln (92 :: c :: (gs.flatMap Glyph.text ++ 34 :: r)) = put 92 (put c (pre true p .plain (bif c == 10 then ln + 1 else ln) (gs.flatMap Glyph.text ++ 34 :: r))) := by
        rw [pre]; simp [pre]
      show pre true p .plain ln (92 :: c :: (gs.flatMap Glyph.text ++ 34 :: r)) = _
      rw [this, h, put_puts, put_puts]
      rfl
    | chr c =>
      obtain ⟨h1, h2⟩ := hg (.chr c) (by simp) c rfl
      have : ∃ ln', pre true p .plain ln (c :: (gs.flatMap Glyph.text ++ 34 :: r)) = put c (pre true p .plain ln' (gs.flatMap Glyph.text ++ 34 :: r)) := by
        by_cases h10 : c = 10
        · subst h10; exact ⟨ln + 1, by simp [pre]⟩
        · refine ⟨ln, ?_⟩
          simp [pre, cond_eq_ite, h1, h2, h10]
      obtain ⟨ln', h⟩ := this
      obtain ⟨l, h'⟩ := ih ln'
      refine ⟨l, ?_⟩
      show pre true p .plain ln (c :: (gs.flatMap Glyph.text ++ 34 :: r)) = _
      rw [h, h', put_puts]
      rfl

theorem pre_comment (p : Bool) (t : Bytes) (ht : 10 ∉ t) (r : Bytes) (ln : Nat) :
    pre false p .comment ln (t ++ 10 :: r) = puts (t.map (fun _ => 32) ++ [if p then 12 else 10]) (pre false p .plain (ln + 1) r) := by
  induction t with
  | nil => cases p <;> simp [pre, put_eq]
  | cons c t ih =>
    have h1 : c ≠ 10 := fun h => ht (by simp [h])
    have h2 := ih fun h => ht (by simp [h])
    show pre false p .comment ln (c :: (t ++ 10 :: r)) = _
    rw [pre]
    simp only [cond_false, beq_eq_false_iff_ne.mpr h1]
    rw [h2, put_puts]
    rfl

theorem map_some {α β : Type} {f : α → β} {x : Option α} {b : β} (h : x.map f = some b) : ∃ a, x = some a ∧ b = f a := by
  cases x with
  | none => cases h
  | some a => cases h; exact ⟨a, rfl, rfl⟩

theorem pre_complete (ps : List Piece) (hp : ∀ p ∈ ps, p.Ok) (par : Bool) (out : Bytes) (h : flat par ps = some out) (ln : Nat) :
    pre false par .plain ln (ps.flatMap Piece.text) = .ok (.ok out) := by
  induction ps generalizing par out ln with
  | nil =>
    cases par with
    | true => simp [flat] at h
    | false => simp [flat] at h; subst h; rfl
  | cons p ps ih =>
    have hp1 := hp p (by simp)
    have ih := ih fun p h => hp p (by simp [h])
    cases p with
    | glyph g =>
      obtain ⟨o, h1, rfl⟩ := map_some (show (flat par ps).map (g.text ++ ·) = some out from h)
      have ih := ih par o h1
      cases g with
      | chr c =>
        have : pre false par .plain ln (c :: ps.flatMap Piece.text) = put c (pre false par .plain ln (ps.flatMap Piece.text)) := by
          simp [Piece.Ok] at hp1
          simp [pre, cond_eq_ite, hp1]
        show pre false par .plain ln (c :: ps.flatMap Piece.text) = _
        rw [this, ih]; rfl
      | esc c =>
        have : pre false par .plain ln (92 :: c :: ps.flatMap Piece.text) = put 92 (put c (pre false par .plain (bif c == 10 then ln + 1 else ln) (ps.flatMap Piece.text))) := by
          rw [pre]; simp [pre]
        show pre false par .plain ln (92 :: c :: ps.flatMap Piece.text) = _
        rw [this, ih]; rfl
    | str gs =>
      obtain ⟨o, h1, rfl⟩ := map_some (show (flat par ps).map ((Piece.str gs).text ++ ·) = some out from h)
      have ih := ih par o h1
      obtain ⟨l, hs⟩ := pre_str par gs hp1 (ps.flatMap Piece.text) ln
      have : pre false par .plain ln (34 :: (gs.flatMap Glyph.text ++ 34 :: ps.flatMap Piece.text)) = put 34 (pre true par .plain ln (gs.flatMap Glyph.text ++ 34 :: ps.flatMap Piece.text)) := by
        simp [pre]
      have e : (Piece.str gs :: ps).flatMap Piece.text = 34 :: (gs.flatMap Glyph.text ++ 34 :: ps.flatMap Piece.text) := by
        simp [Piece.text]
      rw [e, this, hs, ih, put_puts]
      simp [puts, Piece.text, Except.map]
    | comment t =>
      obtain ⟨o, h1, rfl⟩ := map_some (show (flat par ps).map (fun r => 32 :: t.map (fun _ => 32) ++ (if par then 12 else 10) :: r) = some out from h)
      have ih := ih par o h1
      have e : (Piece.comment t :: ps).flatMap Piece.text = 59 :: (t ++ 10 :: ps.flatMap Piece.text) := by simp [Piece.text]
      have : pre false par .plain ln (59 :: (t ++ 10 :: ps.flatMap Piece.text)) = put 32 (pre false par .comment ln (t ++ 10 :: ps.flatMap Piece.text)) := by simp [pre]
      rw [e, this, pre_comment par t hp1, ih, put_puts]
      simp [puts, Except.map]
    | newline =>
      obtain ⟨o, h1, rfl⟩ := map_some (show (flat par ps).map ((if par then 12 else 10) :: ·) = some out from h)
      have ih := ih par o h1
      show pre false par .plain ln (10 :: ps.flatMap Piece.text) = _
      rw [pre]
      simp only [ih, beq_self_eq_true, cond_true, Bool.not_false, Bool.and_true]
      cases par <;> rfl
    | opn =>
      cases par with
      | true => simp [flat] at h
      | false =>
        obtain ⟨o, h1, rfl⟩ := map_some (show (flat true ps).map (32 :: ·) = some out from h)
        have ih := ih true o h1
        show pre false false .plain ln (40 :: ps.flatMap Piece.text) = _
        simp [pre, ih, put, Except.map]
    | cls =>
      cases par with
      | false => simp [flat] at h
      | true =>
        obtain ⟨o, h1, rfl⟩ := map_some (show (flat false ps).map (32 :: ·) = some out from h)
        have ih := ih false o h1
        show pre false true .plain ln (41 :: ps.flatMap Piece.text) = _
        simp [pre, ih, put, Except.map]

/-! ### Sound -/

/-- What an accepted text is, depending on where one is in it. -/
def Acc (quotes parens : Bool) (mode : Mode) (text out : Bytes) : Prop :=
  match quotes, mode with
  | false, .plain => ∃ ps : List Piece, (∀ p ∈ ps, p.Ok) ∧ text = ps.flatMap Piece.text ∧ flat parens ps = some out
  | false, .comment => ∃ (t : Bytes) (ps : List Piece) (o : Bytes), 10 ∉ t ∧ (∀ p ∈ ps, p.Ok) ∧ text = t ++ 10 :: ps.flatMap Piece.text ∧ flat parens ps = some o ∧
      out = t.map (fun _ => 32) ++ (if parens then 12 else 10) :: o
  | false, .escape => ∃ (c : UInt8) (ps : List Piece) (o : Bytes), (∀ p ∈ ps, p.Ok) ∧ text = c :: ps.flatMap Piece.text ∧ flat parens ps = some o ∧ out = c :: o
  | true, .plain => ∃ (gs : List Glyph) (ps : List Piece) (o : Bytes), (∀ g ∈ gs, ∀ c, g = .chr c → c ≠ 34 ∧ c ≠ 92) ∧ (∀ p ∈ ps, p.Ok) ∧
      text = gs.flatMap Glyph.text ++ 34 :: ps.flatMap Piece.text ∧ flat parens ps = some o ∧ out = gs.flatMap Glyph.text ++ 34 :: o
  | true, .escape => ∃ (c : UInt8) (gs : List Glyph) (ps : List Piece) (o : Bytes), (∀ g ∈ gs, ∀ c, g = .chr c → c ≠ 34 ∧ c ≠ 92) ∧ (∀ p ∈ ps, p.Ok) ∧
      text = c :: (gs.flatMap Glyph.text ++ 34 :: ps.flatMap Piece.text) ∧ flat parens ps = some o ∧ out = c :: (gs.flatMap Glyph.text ++ 34 :: o)
  | true, .comment => True

theorem pre_sound (text : Bytes) (q p : Bool) (m : Mode) (ln : Nat) (out : Bytes) (h : pre q p m ln text = .ok (.ok out)) : Acc q p m text out := by
  induction text generalizing q p m ln out with
  | nil =>
    cases m with
    | plain =>
      cases q <;> cases p <;> simp [pre] at h
      subst h
      exact ⟨[], by simp, rfl, rfl⟩
    | comment => simp [pre] at h
    | escape => simp [pre] at h
  | cons c r ih =>
    cases m with
    | comment =>
      cases q with
      | true => trivial
      | false =>
        rw [pre] at h
        by_cases hc : c = 10
        · subst hc
          obtain ⟨o, h1, rfl⟩ := put_ok (by simpa using h)
          obtain ⟨ps, a1, a2, a3⟩ := ih _ _ _ _ _ h1
          exact ⟨[], ps, o, by simp, a1, by simp [a2], a3, by cases p <;> rfl⟩
        · simp only [beq_eq_false_iff_ne.mpr hc, cond_false] at h
          obtain ⟨o, h1, rfl⟩ := put_ok h
          obtain ⟨t, ps, o', a0, a1, a2, a3, a4⟩ := ih _ _ _ _ _ h1
          exact ⟨c :: t, ps, o', by simp [a0]; exact fun h => hc h.symm, a1, by simp [a2], a3, by simp [a4]⟩
    | escape =>
      rw [pre] at h
      obtain ⟨o, h1, rfl⟩ := put_ok h
      have := ih _ _ _ _ _ h1
      cases q with
      | false =>
        obtain ⟨ps, a1, a2, a3⟩ := this
        exact ⟨c, ps, o, a1, by rw [a2], a3, rfl⟩
      | true =>
        obtain ⟨gs, ps, o', a0, a1, a2, a3, a4⟩ := this
        exact ⟨c, gs, ps, o', a0, a1, by rw [a2], a3, by rw [a4]⟩
    | plain =>
      rw [pre] at h
      cases q with
      | true =>
        have hchr : ∀ ln' o, pre true p .plain ln' r = .ok (.ok o) → c ≠ 34 → c ≠ 92 → Acc true p .plain (c :: r) (c :: o) := by
          intro ln' o h1 h2 h3
          obtain ⟨gs, ps, o', a0, a1, a2, a3, a4⟩ := ih _ _ _ _ _ h1
          refine ⟨.chr c :: gs, ps, o', ?_, a1, by simp [a2, Glyph.text], a3, by simp [a4, Glyph.text]⟩
          intro g hg d hd
          rcases List.mem_cons.mp hg with rfl | hg
          · cases hd; exact ⟨h2, h3⟩
          · exact a0 g hg d hd
        by_cases h10 : c = 10
        · subst h10
          obtain ⟨o, h1, rfl⟩ := put_ok (by simpa using h)
          exact hchr _ _ h1 (by decide) (by decide)
        by_cases h34 : c = 34
        · subst h34
          obtain ⟨o, h1, rfl⟩ := put_ok (by simpa using h)
          obtain ⟨ps, a1, a2, a3⟩ := ih _ _ _ _ _ h1
          exact ⟨[], ps, o, by simp, a1, by simp [a2], a3, by simp⟩
        by_cases h92 : c = 92
        · subst h92
          obtain ⟨o, h1, rfl⟩ := put_ok (by simpa using h)
          obtain ⟨d, gs, ps, o', a0, a1, a2, a3, a4⟩ := ih _ _ _ _ _ h1
          refine ⟨.esc d :: gs, ps, o', ?_, a1, by simp [a2, Glyph.text], a3, by simp [a4, Glyph.text]⟩
          intro g hg e he
          rcases List.mem_cons.mp hg with rfl | hg
          · cases he
          · exact a0 g hg e he
        have : put c (pre true p .plain ln r) = .ok (.ok out) := by
          rw [← h]
          simp [cond_eq_ite, h10, h34, h92]
        obtain ⟨o, h1, rfl⟩ := put_ok this
        exact hchr _ _ h1 h34 h92
      | false =>
        by_cases h10 : c = 10
        · subst h10
          obtain ⟨o, h1, rfl⟩ := put_ok (by simpa using h)
          obtain ⟨ps, a1, a2, a3⟩ := ih _ _ _ _ _ h1
          refine ⟨.newline :: ps, ?_, by simp [a2, Piece.text], by simp [flat, a3]⟩
          intro x hx
          rcases List.mem_cons.mp hx with rfl | hx
          · trivial
          · exact a1 x hx
        by_cases h59 : c = 59
        · subst h59
          obtain ⟨o, h1, rfl⟩ := put_ok (by simpa using h)
          obtain ⟨t, ps, o', a0, a1, a2, a3, a4⟩ := ih _ _ _ _ _ h1
          refine ⟨.comment t :: ps, ?_, by simp [a2, Piece.text], by simp [flat, a3, a4]⟩
          intro x hx
          rcases List.mem_cons.mp hx with rfl | hx
          · exact a0
          · exact a1 x hx
        by_cases h34 : c = 34
        · subst h34
          obtain ⟨o, h1, rfl⟩ := put_ok (by simpa using h)
          obtain ⟨gs, ps, o', a0, a1, a2, a3, a4⟩ := ih _ _ _ _ _ h1
          refine ⟨.str gs :: ps, ?_, by simp [a2, Piece.text], by simp [flat, a3, a4, Piece.text]⟩
          intro x hx
          rcases List.mem_cons.mp hx with rfl | hx
          · exact a0
          · exact a1 x hx
        by_cases h40 : c = 40
        · subst h40
          cases p with
          | true => simp at h
          | false =>
            obtain ⟨o, h1, rfl⟩ := put_ok (by simpa using h)
            obtain ⟨ps, a1, a2, a3⟩ := ih _ _ _ _ _ h1
            refine ⟨.opn :: ps, ?_, by simp [a2, Piece.text], by simp [flat, a3]⟩
            intro x hx
            rcases List.mem_cons.mp hx with rfl | hx
            · trivial
            · exact a1 x hx
        by_cases h41 : c = 41
        · subst h41
          cases p with
          | false => simp at h
          | true =>
            obtain ⟨o, h1, rfl⟩ := put_ok (by simpa using h)
            obtain ⟨ps, a1, a2, a3⟩ := ih _ _ _ _ _ h1
            refine ⟨.cls :: ps, ?_, by simp [a2, Piece.text], by simp [flat, a3]⟩
            intro x hx
            rcases List.mem_cons.mp hx with rfl | hx
            · trivial
            · exact a1 x hx
        by_cases h92 : c = 92
        · subst h92
          obtain ⟨o, h1, rfl⟩ := put_ok (by simpa using h)
          obtain ⟨d, ps, o', a1, a2, a3, a4⟩ := ih _ _ _ _ _ h1
          refine ⟨.glyph (.esc d) :: ps, ?_, by simp [a2, Piece.text, Glyph.text], by simp [flat, a3, a4, Piece.text, Glyph.text]⟩
          intro x hx
          rcases List.mem_cons.mp hx with rfl | hx
          · trivial
          · exact a1 x hx
        by_cases h12 : c = 12
        · subst h12; simp at h
        have : put c (pre false p .plain ln r) = .ok (.ok out) := by
          rw [← h]
          simp [cond_eq_ite, h10, h34, h92, h59, h40, h41, h12]
        obtain ⟨o, h1, rfl⟩ := put_ok this
        obtain ⟨ps, a1, a2, a3⟩ := ih _ _ _ _ _ h1
        refine ⟨.glyph (.chr c) :: ps, ?_, by simp [a2, Piece.text, Glyph.text], by simp [flat, a3, Piece.text, Glyph.text]⟩
        intro x hx
        rcases List.mem_cons.mp hx with rfl | hx
        · simp [Piece.Ok, h10, h34, h92, h59, h40, h41, h12]
        · exact a1 x hx

/-! ### Safe, and the lines of errors -/

theorem pre_safe (text : Bytes) (q p : Bool) (m : Mode) (ln : Nat) (hm : text = [] → m = .plain) (hl : text ≠ [] → text.getLast? = some 10) :
    pre q p m ln text ≠ .ub := by
  induction text generalizing q p m ln with
  | nil => rw [hm rfl]; simp [pre]
  | cons c r ih =>
    have hr : r ≠ [] → r.getLast? = some 10 := by
      intro hr
      have := hl (by simp)
      rwa [List.getLast?_cons_of_ne_nil hr] at this
    have hnil : c ≠ 10 → r ≠ [] := by
      intro hc hr
      subst hr
      have := hl (by simp)
      simp at this
      exact hc this
    have iht : ∀ q p m ln, (r = [] → m = .plain) → pre q p m ln r ≠ .ub := fun q p m ln h => ih q p m ln h hr
    have put_ne : ∀ {d : UInt8} {x}, x ≠ .ub → put d x ≠ .ub := fun h h' => h (put_ub h')
    cases m with
    | comment =>
      rw [pre]
      by_cases hc : c = 10
      · simp only [hc, beq_self_eq_true, cond_true]; exact put_ne (iht _ _ _ _ fun _ => rfl)
      · simp only [beq_eq_false_iff_ne.mpr hc, cond_false]; exact put_ne (iht _ _ _ _ fun h => absurd h (hnil hc))
    | escape => rw [pre]; exact put_ne (iht _ _ _ _ fun _ => rfl)
    | plain =>
      rw [pre]
      by_cases h10 : c = 10
      · simp only [h10, beq_self_eq_true, cond_true]; exact put_ne (iht _ _ _ _ fun _ => rfl)
      simp only [beq_eq_false_iff_ne.mpr h10, cond_false]
      by_cases h59 : c = 59
      · simp only [h59, beq_self_eq_true, cond_true]
        cases q
        · exact put_ne (iht _ _ _ _ fun h => absurd h (hnil h10))
        · exact put_ne (iht _ _ _ _ fun _ => rfl)
      simp only [beq_eq_false_iff_ne.mpr h59, cond_false]
      by_cases h34 : c = 34
      · simp only [h34, beq_self_eq_true, cond_true]; exact put_ne (iht _ _ _ _ fun _ => rfl)
      simp only [beq_eq_false_iff_ne.mpr h34, cond_false]
      by_cases h40 : c = 40
      · simp only [h40, beq_self_eq_true, cond_true]
        cases q <;> cases p <;> first | exact put_ne (iht _ _ _ _ fun _ => rfl) | simp
      simp only [beq_eq_false_iff_ne.mpr h40, cond_false]
      by_cases h41 : c = 41
      · simp only [h41, beq_self_eq_true, cond_true]
        cases q <;> cases p <;> first | exact put_ne (iht _ _ _ _ fun _ => rfl) | simp
      simp only [beq_eq_false_iff_ne.mpr h41, cond_false]
      by_cases h92 : c = 92
      · simp only [h92, beq_self_eq_true, cond_true]; exact put_ne (iht _ _ _ _ fun h => absurd h (hnil h10))
      simp only [beq_eq_false_iff_ne.mpr h92, cond_false]
      by_cases h12 : c = 12
      · simp only [h12, beq_self_eq_true, cond_true]
        cases q <;> first | exact put_ne (iht _ _ _ _ fun _ => rfl) | simp
      simp only [beq_eq_false_iff_ne.mpr h12, cond_false]
      exact put_ne (iht _ _ _ _ fun _ => rfl)

theorem pre_line (text : Bytes) (q p : Bool) (m : Mode) (ln n : Nat) (h : pre q p m ln text = .ok (.error n)) :
    ∃ a b, text = a ++ b ∧ n = ln + a.count 10 ∧ (b = [] ∨ b.head? = some 40 ∨ b.head? = some 41 ∨ b.head? = some 12) := by
  induction text generalizing q p m ln with
  | nil =>
    cases m with
    | plain =>
      refine ⟨[], [], rfl, ?_, .inl rfl⟩
      cases q <;> cases p <;> simp [pre] at h <;> simp [h]
    | comment => simp [pre] at h
    | escape => simp [pre] at h
  | cons c r ih =>
    have step : ∀ {d q p m ln'}, put d (pre q p m ln' r) = .ok (.error n) → ln' = ln + (if c = 10 then 1 else 0) →
        ∃ a b, c :: r = a ++ b ∧ n = ln + a.count 10 ∧ (b = [] ∨ b.head? = some 40 ∨ b.head? = some 41 ∨ b.head? = some 12) := by
      intro d q p m ln' h1 h2
      obtain ⟨a, b, e1, e2, e3⟩ := ih _ _ _ _ (put_error h1)
      refine ⟨c :: a, b, by rw [e1]; rfl, ?_, e3⟩
      rw [e2, h2, List.count_cons]
      by_cases hc : c = 10 <;> simp [hc] <;> omega
    have here : ln = n → (c = 40 ∨ c = 41 ∨ c = 12) → ∃ a b, c :: r = a ++ b ∧ n = ln + a.count 10 ∧ (b = [] ∨ b.head? = some 40 ∨ b.head? = some 41 ∨ b.head? = some 12) := by
      intro h1 h2
      refine ⟨[], c :: r, rfl, by simp [h1], .inr ?_⟩
      rcases h2 with rfl | rfl | rfl <;> simp
    cases m with
    | comment =>
      rw [pre] at h
      by_cases hc : c = 10
      · simp only [hc, beq_self_eq_true, cond_true] at h; exact step h (by simp [hc])
      · simp only [beq_eq_false_iff_ne.mpr hc, cond_false] at h; exact step h (by simp [hc])
    | escape =>
      rw [pre] at h
      by_cases hc : c = 10
      · simp only [hc, beq_self_eq_true, cond_true] at h; exact step h (by simp [hc])
      · simp only [beq_eq_false_iff_ne.mpr hc, cond_false] at h; exact step h (by simp [hc])
    | plain =>
      rw [pre] at h
      by_cases h10 : c = 10
      · simp only [h10, beq_self_eq_true, cond_true] at h; exact step h (by simp [h10])
      simp only [beq_eq_false_iff_ne.mpr h10, cond_false] at h
      by_cases h59 : c = 59
      · simp only [h59, beq_self_eq_true, cond_true] at h
        cases q <;> exact step h (by simp [h10])
      simp only [beq_eq_false_iff_ne.mpr h59, cond_false] at h
      by_cases h34 : c = 34
      · simp only [h34, beq_self_eq_true, cond_true] at h; exact step h (by simp [h10])
      simp only [beq_eq_false_iff_ne.mpr h34, cond_false] at h
      by_cases h40 : c = 40
      · simp only [h40, beq_self_eq_true, cond_true] at h
        cases q <;> cases p <;> first | exact step h (by simp [h10]) | (exact here (by simpa using h) (by simp [h40]))
      simp only [beq_eq_false_iff_ne.mpr h40, cond_false] at h
      by_cases h41 : c = 41
      · simp only [h41, beq_self_eq_true, cond_true] at h
        cases q <;> cases p <;> first | exact step h (by simp [h10]) | (exact here (by simpa using h) (by simp [h41]))
      simp only [beq_eq_false_iff_ne.mpr h41, cond_false] at h
      by_cases h92 : c = 92
      · simp only [h92, beq_self_eq_true, cond_true] at h; exact step h (by simp [h10])
      simp only [beq_eq_false_iff_ne.mpr h92, cond_false] at h
      by_cases h12 : c = 12
      · simp only [h12, beq_self_eq_true, cond_true] at h
        cases q <;> first | exact step h (by simp [h10]) | (exact here (by simpa using h) (by simp [h12]))
      simp only [beq_eq_false_iff_ne.mpr h12, cond_false] at h
      exact step h (by simp [h10])

theorem flattens_iff (text out : Bytes) (ln : Nat) : pre false false .plain ln text = .ok (.ok out) ↔ Flattens text out := by
  constructor
  · exact fun h => pre_sound text false false .plain ln out h
  · rintro ⟨ps, h1, rfl, h3⟩
    exact pre_complete ps h1 false out h3 ln

end Gdnsd.Zscan
