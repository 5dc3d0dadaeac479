/-
Whole strings and `$include{}`, in both directions.
-/
import Verif.Vscf.StrLemmas
namespace Gdnsd.Vscf
open VscfSpec

variable {m : Mach}

/-- The state behind a string that has been read. -/
def St.behind (s : St) (u : Use) (k : Kind) (x : Bytes) : St :=
  { s with pos := if k = .quoted then .endq u else .str u false .plain, tok := some x }

theorem word_units {k : Kind} {x t v : Bytes} (h : Word k x t v) : unescape t = .ok (some v) := by
  cases h with
  | bare _ _ h => exact unescape_eq h
  | quoted h => exact unescape_eq h

theorem units_lit {ok ok' : UInt8 → Prop} (h : ∀ c, ok c → ok' c) {t v : Bytes} (hu : Units ok t v) : Units ok' t v := by
  induction hu with
  | nil => exact .nil
  | chr h1 h2 _ ih => exact .chr (h _ h1) h2 ih
  | esc h1 _ ih => exact .esc h1 ih
  | num h1 h2 h3 h4 _ ih => exact .num h1 h2 h3 h4 ih

theorem strT_34 (u : Use) : strT u 34 = some (.str u true .plain, [.start]) := rfl
theorem strT_92 (u : Use) : strT u 92 = some (.str u false .bs, [.start]) := rfl

theorem isFchr_iff {c : UInt8} : isFchr c = true ↔ c ∉ special ∧ c ≠ 92 ∧ c ≠ 36 := by
  simp [isFchr, isChr_iff, and_assoc]

theorem strT_fchr {u : Use} {c : UInt8} (h : isFchr c = true) : strT u c = some (.str u false .plain, [.start]) := by
  have h1 := isFchr_iff.1 h
  have h2 : (c == 34) = false := by
    simp; rintro rfl; exact h1.1 (by simp [special])
  have h3 : (c == 92) = false := by simpa using h1.2.1
  simp [strT, h, h2, h3]

theorem strT_inv {u : Use} {c : UInt8} {p : Pos} {as : List Act} (h : strT u c = some (p, as)) :
    (c = 34 ∧ p = .str u true .plain) ∨ (c = 92 ∧ p = .str u false .bs) ∨ (isFchr c = true ∧ p = .str u false .plain) := by
  unfold strT at h
  simp only [cond_eq_ite] at h
  split at h
  · rename_i hc; simp at h hc; exact .inl ⟨hc, h.1.symm⟩
  · split at h
    · rename_i hc; simp at h hc; exact .inr (.inl ⟨hc, h.1.symm⟩)
    · split at h
      · rename_i hc; simp at h; exact .inr (.inr ⟨hc, h.1.symm⟩)
      · simp at h

theorem step_startAct {s : St} {c : UInt8} {p : Pos} (h : trans m.early s.ctx s.pos c = some (p, [.start])) (hp : p.inStr = true) :
    m.step s c = .ok (some { s with pos := p, tok := some [c] }) := by
  simp [Mach.step, step, h, execs, exec, hp]

/-- A string without quotes may as well have begun before its first character. -/
theorem step_start {s : St} {u : Use} {c : UInt8} (h : trans m.early s.ctx s.pos c = strT u c) (hc : isFchr c = true ∨ c = 92) :
    m.step s c = m.step { s with pos := .str u false .plain, tok := some [] } c := by
  rcases hc with hc | rfl
  · rw [strT_fchr hc] at h
    have h1 := isFchr_iff.1 hc
    rw [step_startAct h rfl, step_lit (m := m) (s := { s with pos := .str u false .plain, tok := some [] }) rfl (by simpa [lit] using h1.1) h1.2.1]
    simp
  · rw [strT_92] at h
    rw [step_startAct h rfl, step_bs (m := m) (s := { s with pos := .str u false .plain, tok := some [] }) rfl]
    simp

theorem bare_head {t v : Bytes} (h0 : t ≠ []) (h36 : t.head? ≠ some 36) (h : Units (· ∉ special) t v) :
    ∃ c r, t = c :: r ∧ (isFchr c = true ∨ c = 92) := by
  cases h with
  | nil => exact absurd rfl h0
  | chr h1 h2 _ => exact ⟨_, _, rfl, .inl (isFchr_iff.2 ⟨h1, h2, by simpa using h36⟩)⟩
  | esc _ _ => exact ⟨_, _, rfl, .inr rfl⟩
  | num _ _ _ _ _ => exact ⟨_, _, rfl, .inr rfl⟩

theorem word_head {k : Kind} {x t v : Bytes} (h : Word k x t v) : ∃ c r, x = c :: r ∧ (isFchr c = true ∨ c = 92 ∨ c = 34) := by
  cases h with
  | bare h0 h1 h2 =>
    obtain ⟨c, r, e, hc⟩ := bare_head h0 h1 h2
    exact ⟨c, r, e, hc.imp_right .inl⟩
  | quoted _ => exact ⟨_, _, rfl, .inr (.inr rfl)⟩

/-- A whole string. -/
theorem run_word {k : Kind} {x t v : Bytes} (hw : Word k x t v) {s : St} {u : Use}
    (hs : ∀ c, x.head? = some c → trans m.early s.ctx s.pos c = strT u c) : m.run x s = .ok (some (s.behind u k x)) := by
  cases hw with
  | bare h0 h1 h2 =>
    obtain ⟨c, r, rfl, hc⟩ := bare_head h0 h1 h2
    have hu : Units (lit false) (c :: r) v := units_lit (fun _ h => by simpa [lit] using h) h2
    rw [run_cons, step_start (hs c rfl) hc, ← run_cons, run_units hu rfl]
    simp [St.behind]
  | quoted h =>
    have hu : Units (lit true) t v := units_lit (fun _ h => by simpa [lit] using h) h
    have hs' := hs 34 (by simp)
    rw [strT_34] at hs'
    rw [show (34 :: t ++ [34] : Bytes) = 34 :: (t ++ [34]) from rfl, run_cons, step_startAct hs' rfl, andThen_some, run_append, run_units hu rfl, andThen_some, run_cons,
      step_str (p := .endq u) rfl rfl]
    simp [St.behind]

theorem token_behind {k : Kind} {x t v : Bytes} (hw : Word k x t v) (s : St) (u : Use) (p : Pos) :
    token { s.behind u k x with pos := p } (k == .quoted) = .ok t := by
  cases hw with
  | bare => rfl
  | @quoted _ v h =>
    have h' : ¬ (t.length + 1 + 1 < 2) := by omega
    simp [token, St.behind, h']

theorem word_kind {k : Kind} {x t v : Bytes} (hw : Word k x t v) : k = .bare ∨ k = .quoted := by
  cases hw
  · exact .inl rfl
  · exact .inr rfl

theorem trans_behind {k : Kind} {x t v : Bytes} (hw : Word k x t v) {s : St} {u : Use} {c : UInt8} (hc : k = .bare → c ∈ special) :
    trans m.early (s.behind u k x).ctx (s.behind u k x).pos c =
      (wsT s.ctx (next u) c).map fun y => (y.1, pend m.early (.leave u (k == .quoted)) y.2) := by
  rcases word_kind hw with rfl | rfl
  · have h1 := hc rfl
    have h2 : isChr c = false := by
      cases h : isChr c with
      | false => rfl
      | true => exact absurd h1 (isChr_iff.1 h).1
    have h3 : (c == 92) = false := by
      simp; rintro rfl; simp [special] at h1
    simp [St.behind, trans, h2, h3]
    rfl
  · rfl

/-- The state when the action at the end of a string has run. -/
def St.left (s : St) (u : Use) (d : Dat) : St := { s with pos := .ws (next u), dat := d, tok := none }

theorem pend_eq {e : Bool} {a : Act} {as : List Act} (h : e = true → as ≠ [.start]) : pend e a as = a :: as := by
  unfold pend
  cases e with
  | false => rfl
  | true =>
    have : (as == [Act.start]) = false := by simpa using h rfl
    simp [this]

theorem exec_leave {k : Kind} {x t v : Bytes} (hw : Word k x t v) (s : St) (u : Use) (p : Pos) :
    m.exec (.leave u (k == .quoted)) { s.behind u k x with pos := p } =
      andThen (m.leave u t s.dat) fun d => .ok (some { s with pos := p, dat := d, tok := none }) := by
  show (token { s.behind u k x with pos := p } (k == .quoted)).bind _ = _
  rw [token_behind hw]
  rfl

theorem step_leave {k : Kind} {x t v : Bytes} (hw : Word k x t v) {s : St} {u : Use} {d : Dat} (hl : m.leave u t s.dat = .ok (some d)) {c : UInt8}
    (hc : k = .bare → c ∈ special) (he : m.early = true → ∀ p, wsT s.ctx (next u) c ≠ some (p, [.start])) :
    m.step (s.behind u k x) c = m.step (s.left u d) c := by
  have ht := trans_behind (m := m) hw (s := s) (u := u) hc
  have ht' : trans m.early (s.left u d).ctx (s.left u d).pos c = wsT s.ctx (next u) c := rfl
  cases hx : wsT s.ctx (next u) c with
  | none =>
    rw [hx] at ht ht'
    rw [step_fail ht, step_fail ht']
  | some y =>
    obtain ⟨p, as⟩ := y
    rw [hx] at ht ht'
    simp only [Option.map_some] at ht
    rw [pend_eq (fun e h => he e p (by rw [hx, h]))] at ht
    unfold Mach.step step
    rw [ht, ht']
    simp only [execs]
    have := exec_leave (m := m) hw s u p
    unfold Mach.exec at this
    rw [this]
    rw [hl]
    rfl

theorem finish_leave {k : Kind} {x t v : Bytes} (hw : Word k x t v) {s : St} {d : Dat} (hl : m.leave .simple t s.dat = .ok (some d)) :
    m.finish (s.behind .simple k x) = m.finish (s.left .simple d) := by
  have h : ∀ p, m.exec (.leave .simple (k == .quoted)) { s.behind .simple k x with pos := p } = .ok (some { s with pos := p, dat := d, tok := none }) := by
    intro p; rw [exec_leave hw, hl]; rfl
  have h' := h (s.behind .simple k x).pos
  rw [show ({ s.behind .simple k x with pos := (s.behind .simple k x).pos } : St) = s.behind .simple k x from rfl] at h'
  unfold Mach.exec at h'
  rcases word_kind hw with rfl | rfl
  · have e : (Kind.bare == Kind.quoted) = false := rfl
    rw [e] at h'
    cases hc : s.ctx <;> simp [Mach.finish, finish, St.left, next, hc] <;> simp [St.behind, hc]
    have h2 : exec m.env m.load m.fn (.leave .simple false) (s.behind .simple .bare x) = _ := h'
    simp only [St.behind, reduceCtorEq, if_false, hc] at h2
    rw [h2]
    rfl
  · have e : (Kind.quoted == Kind.quoted) = true := rfl
    rw [e] at h'
    cases hc : s.ctx <;> simp [Mach.finish, finish, St.left, next, hc] <;> simp [St.behind, hc]
    have h2 : exec m.env m.load m.fn (.leave .simple true) (s.behind .simple .quoted x) = _ := h'
    simp only [St.behind, if_true, hc] at h2
    rw [h2]
    rfl

/-- Behind a string it goes on as if its action had run. -/
theorem acc_leave {k : Kind} {x t v : Bytes} (hw : Word k x t v) {s : St} {u : Use} {d : Dat} (hl : m.leave u t s.dat = .ok (some d)) {r : Bytes} {w : Val}
    (hc : ∀ c, r.head? = some c → (k = .bare → c ∈ special) ∧ (m.early = true → ∀ p, wsT s.ctx (next u) c ≠ some (p, [.start])))
    (hr : r ≠ [] ∨ u = .simple) : m.Acc (s.behind u k x) r w ↔ m.Acc (s.left u d) r w := by
  cases r with
  | nil =>
    rcases hr with hr | rfl
    · exact absurd rfl hr
    · unfold Mach.Acc
      simp only [run_nil, andThen_some]
      rw [finish_leave hw hl]
  | cons c r =>
    have := hc c rfl
    rw [acc_cons, acc_cons, step_leave hw hl this.1 this.2]

/-! ### The other direction -/

theorem wsT_start {ctx : Ctx} {w : Ws} {c : UInt8} {p : Pos} (h : wsT ctx w c = some (p, [.start])) : ∃ u, strT u c = some (p, [.start]) := by
  unfold wsT at h
  simp only [cond_eq_ite] at h
  split at h
  · simp at h
  split at h
  · simp at h
  have hv : valueT c = some (p, [.start]) → ∃ u, strT u c = some (p, [.start]) := by
    intro h
    unfold valueT at h
    simp only [cond_eq_ite] at h
    split at h
    · simp at h
    split at h
    · simp at h
    split at h
    · simp at h
    exact ⟨_, h⟩
  have hi : itemT ctx c = some (p, [.start]) → ∃ u, strT u c = some (p, [.start]) := by
    intro h
    unfold itemT at h
    simp only [cond_eq_ite] at h
    cases ctx <;> simp only at h
    · split at h
      · simp at h
      · exact ⟨_, h⟩
    · split at h
      · simp at h
      · exact hv h
    · split at h
      · simp at h
      · split at h
        · simp at h
        · exact ⟨_, h⟩
    · split at h
      · simp at h
      · exact hv h
  cases w <;> simp only at h
  · split at h
    · simp at h
    · exact hi h
  · exact hi h
  · split at h
    · simp at h
    · exact hi h
  · split at h <;> simp at h
  · exact hv h
  · exact ⟨_, h⟩
  · split at h <;> simp at h
  · simp at h

/-- A string whose start is unknown is never accepted. -/
theorem acc_lost (n : Nat) {s : St} {r : Bytes} {w : Val} {u : Use} {q : Bool} (hn : r.length ≤ n) (hp : s.pos = .str u q .plain) (ht : s.tok = none) :
    ¬ m.Acc s r w := by
  induction n generalizing s r u q with
  | zero =>
    have : r = [] := List.length_eq_zero_iff.1 (by omega)
    subst this
    intro h
    obtain ⟨_, rfl, rfl⟩ := acc_inStr_nil hp h
    unfold Mach.Acc at h
    simp only [run_nil, andThen_some, Mach.finish, finish, hp] at h
    cases hc : s.ctx <;> simp [hc, exec, token, ht] at h
  | succ n ih =>
    intro h
    obtain ⟨x, v, r', e, hu, ha, hh⟩ := units_inv _ (Nat.le_refl _) hp h
    have hs : { s with tok := s.tok.map (· ++ x) } = s := by cases s; simp_all
    rw [hs] at ha
    -- leaving is impossible
    have key : ∀ {s : St} {c : UInt8} {r : Bytes} {q : Bool}, r.length < r'.length → s.tok = none →
        (∀ p as, trans m.early s.ctx s.pos c = some (p, as) → ∃ as', as = pend m.early (.leave u q) as' ∧ wsT s.ctx (next u) c = some (p, as')) →
        (q = false → c ∈ special) → ¬ m.Acc s (c :: r) w := by
      intro s c r q hlen htok htr hsp h
      obtain ⟨s', h1, h2⟩ := acc_cons.1 h
      unfold Mach.step step at h1
      cases hx : trans m.early s.ctx s.pos c with
      | none => rw [hx] at h1; simp at h1
      | some y =>
        obtain ⟨p, as⟩ := y
        obtain ⟨as', rfl, hw⟩ := htr p as hx
        rw [hx] at h1
        simp only at h1
        by_cases hst : m.early = true ∧ as' = [.start]
        · obtain ⟨he, rfl⟩ := hst
          have hpe : pend m.early (.leave u q) [.start] = [.start, .leave u q] := by rw [he]; rfl
          rw [hpe] at h1
          cases q with
          | true => simp [execs, exec, token] at h1
          | false =>
            obtain ⟨u', hu'⟩ := wsT_start hw
            have hp' : c = 34 ∧ p = .str u' true .plain := by
              rcases strT_inv hu' with h | ⟨rfl, _⟩ | ⟨h, _⟩
              · exact h
              · exact absurd (hsp rfl) (by simp [special])
              · exact absurd (hsp rfl) (isFchr_iff.1 h).1
            simp only [execs, exec, token, andThen_some, cond_false, Outcome.bind_ok] at h1
            obtain ⟨s2, h3, h4⟩ := andThen_ok h1
            obtain ⟨s3, h5, h6⟩ := andThen_ok h3
            obtain ⟨d, h7, h8⟩ := andThen_ok h5
            simp only [Outcome.ok.injEq, Option.some.injEq] at h8 h6 h4
            subst h8
            subst h6
            rw [hp'.2] at h4
            simp only [Pos.inStr, cond_true, Option.map_none] at h4
            subst h4
            refine ih (r := r) (u := u') (q := true) ?_ rfl rfl h2
            have : r'.length ≤ r.length + 0 ∨ True := .inr trivial
            have e' : r'.length ≤ n + 1 := by have := congrArg List.length e; simp at this; omega
            omega
        · have hpe : pend m.early (.leave u q) as' = .leave u q :: as' := pend_eq (fun he hs => hst ⟨he, hs⟩)
          rw [hpe] at h1
          simp [execs, exec, token, htok] at h1
    cases q with
    | false =>
      cases r' with
      | nil =>
        obtain ⟨_, _, rfl⟩ := acc_inStr_nil hp ha
        unfold Mach.Acc at ha
        simp only [run_nil, andThen_some, Mach.finish, finish, hp] at ha
        cases hc : s.ctx <;> simp [hc, exec, token, ht] at ha
      | cons c r'' =>
        have hcs : c ∈ special := by simpa using hh
        refine key (q := false) (by simp) ht ?_ (fun _ => hcs) ha
        intro p as htr
        rw [hp] at htr
        have h2 : isChr c = false := by
          cases h : isChr c with
          | false => rfl
          | true => exact absurd hcs (isChr_iff.1 h).1
        have h3 : (c == 92) = false := by
          simp; rintro rfl; simp [special] at hcs
        simp [trans, h2, h3] at htr
        obtain ⟨p1, as1, h4, rfl, h5⟩ := htr
        exact ⟨as1, h5.symm, h4⟩
    | true =>
      simp only [if_true] at hh
      cases r' with
      | nil => simp at hh
      | cons c r'' =>
        simp only [List.head?_cons, Option.some.injEq] at hh
        subst hh
        obtain ⟨s1, g1, g2⟩ := acc_cons.1 ha
        rw [step_str (p := .endq u) (by rw [hp]; rfl) rfl] at g1
        simp only [Outcome.ok.injEq, Option.some.injEq, ht, Option.map_none] at g1
        subst g1
        cases r'' with
        | nil =>
          unfold Mach.Acc at g2
          simp only [run_nil, andThen_some, Mach.finish, finish] at g2
          cases hc : s.ctx <;> cases u <;> simp [hc, exec, token] at g2
        | cons c r2 =>
          refine key (q := true) (by simp; omega) (by rfl) ?_ (by nofun) g2
          intro p as htr
          simp [trans] at htr
          obtain ⟨p1, as1, h4, rfl, h5⟩ := htr
          exact ⟨as1, h5.symm, h4⟩

/-- A string in an accepted text, up to its end. -/
theorem word_inv {s : St} {u : Use} {c : UInt8} {r : Bytes} {w : Val} (hs : trans m.early s.ctx s.pos c = strT u c) (h : m.Acc s (c :: r) w) :
    ∃ k x t v r', c :: r = x ++ r' ∧ Word k x t v ∧ m.Acc (s.behind u k x) r' w ∧ (k = .bare → ∀ c, r'.head? = some c → c ∈ special) := by
  cases hx : strT u c with
  | none =>
    rw [hx] at hs
    obtain ⟨s', h1, _⟩ := acc_cons.1 h
    rw [step_fail hs] at h1
    simp at h1
  | some y =>
    obtain ⟨p, as⟩ := y
    obtain ⟨rfl, hp⟩ := strT_acts hx
    by_cases hc : c = 34
    · subst hc
      rw [strT_34] at hs
      obtain ⟨s', h1, h2⟩ := acc_cons.1 h
      rw [step_startAct hs rfl] at h1
      simp only [Outcome.ok.injEq, Option.some.injEq] at h1
      subst h1
      obtain ⟨x, v, r', e, hu, ha, hh⟩ := units_inv _ (Nat.le_refl _) (by rfl) h2
      simp only [if_true] at hh
      cases r' with
      | nil => simp at hh
      | cons c r' =>
        simp only [List.head?_cons, Option.some.injEq] at hh
        subst hh
        obtain ⟨s1, g1, g2⟩ := acc_cons.1 ha
        rw [step_str (p := .endq u) rfl rfl] at g1
        simp only [Outcome.ok.injEq, Option.some.injEq] at g1
        subst g1
        refine ⟨.quoted, 34 :: x ++ [34], x, v, r', by simp [e], .quoted (units_lit (fun _ h => by simpa [lit] using h) hu), ?_, nofun⟩
        simpa [St.behind] using g2
    · have hc' : isFchr c = true ∨ c = 92 := by
        rcases strT_inv hx with ⟨h, _⟩ | ⟨h, _⟩ | ⟨h, _⟩
        · exact absurd h hc
        · exact .inr h
        · exact .inl h
      rw [acc_cons, step_start hs hc', ← acc_cons] at h
      obtain ⟨x, v, r', e, hu, ha, hh⟩ := units_inv _ (Nat.le_refl _) (by rfl) h
      have hx0 : x ≠ [] := by
        rintro rfl
        simp only [List.nil_append] at e
        subst e
        have := hh c rfl
        rcases hc' with h | rfl
        · exact absurd this (isFchr_iff.1 h).1
        · simp [special] at this
      have hx36 : x.head? ≠ some 36 := by
        cases x with
        | nil => exact absurd rfl hx0
        | cons a x =>
          simp only [List.cons_append, List.cons.injEq] at e
          rw [← e.1]
          rcases hc' with h | rfl
          · simpa using (isFchr_iff.1 h).2.2
          · simp
      refine ⟨.bare, x, x, v, r', e, .bare hx0 hx36 (units_lit (fun _ h => by simpa [lit] using h) hu), ?_, fun _ => hh⟩
      simpa [St.behind] using ha

/-- Behind a string of an accepted text the action has run, and no other string follows if that would take
its place. -/
theorem leave_inv {k : Kind} {x t v : Bytes} (hw : Word k x t v) {s : St} {u : Use} {r : Bytes} {w : Val}
    (hk : k = .bare → ∀ c, r.head? = some c → c ∈ special) (h : m.Acc (s.behind u k x) r w) :
    ∃ d, m.leave u t s.dat = .ok (some d) ∧ m.Acc (s.left u d) r w ∧
      (∀ c, r.head? = some c → m.early = true → ∀ p, wsT s.ctx (next u) c ≠ some (p, [.start])) := by
  cases r with
  | nil =>
    have h0 := h
    unfold Mach.Acc at h
    simp only [run_nil, andThen_some, Mach.finish, finish] at h
    have hex : u = .simple ∧ ∃ a, exec m.env m.load m.fn (.leave .simple (k == .quoted)) (s.behind .simple k x) = .ok (some a) := by
      rcases word_kind hw with rfl | rfl
      · cases hc : s.ctx <;> cases u <;> simp [St.behind, hc] at h
        obtain ⟨a, h1, _⟩ := andThen_ok h
        refine ⟨rfl, a, ?_⟩
        simp only [St.behind, hc]; exact h1
      · cases hc : s.ctx <;> cases u <;> simp [St.behind, hc] at h
        obtain ⟨a, h1, _⟩ := andThen_ok h
        refine ⟨rfl, a, ?_⟩
        simp only [St.behind, hc]; exact h1
    obtain ⟨rfl, a, ha⟩ := hex
    have h2 := exec_leave (m := m) hw s .simple (s.behind .simple k x).pos
    rw [show ({ s.behind .simple k x with pos := (s.behind .simple k x).pos } : St) = s.behind .simple k x from rfl] at h2
    unfold Mach.exec at h2
    rw [h2] at ha
    obtain ⟨d, h3, _⟩ := andThen_ok ha
    exact ⟨d, h3, (acc_leave hw h3 (by simp) (.inr rfl)).1 h0, by simp⟩
  | cons c r =>
    have hc : k = .bare → c ∈ special := fun e => hk e c rfl
    have ht := trans_behind (m := m) hw (s := s) (u := u) hc
    obtain ⟨s', h1, h2⟩ := acc_cons.1 h
    unfold Mach.step step at h1
    rw [ht] at h1
    cases hx : wsT s.ctx (next u) c with
    | none => rw [hx] at h1; simp at h1
    | some y =>
      obtain ⟨p, as⟩ := y
      rw [hx] at h1
      simp only [Option.map_some] at h1
      by_cases hst : m.early = true ∧ as = [.start]
      · exfalso
        obtain ⟨he, rfl⟩ := hst
        have hpe : pend m.early (.leave u (k == .quoted)) [.start] = [.start, .leave u (k == .quoted)] := by rw [he]; rfl
        rw [hpe] at h1
        rcases word_kind hw with rfl | rfl
        · obtain ⟨u', hu'⟩ := wsT_start hx
          have hp' : c = 34 ∧ p = .str u' true .plain := by
            rcases strT_inv hu' with h | ⟨rfl, _⟩ | ⟨h, _⟩
            · exact h
            · exact absurd (hc rfl) (by simp [special])
            · exact absurd (hc rfl) (isFchr_iff.1 h).1
          have e : (Kind.bare == Kind.quoted) = false := rfl
          simp only [e, execs, exec, token, andThen_some, cond_false, Outcome.bind_ok] at h1
          obtain ⟨s2, h3, h4⟩ := andThen_ok h1
          obtain ⟨s3, h5, h6⟩ := andThen_ok h3
          obtain ⟨d, h7, h8⟩ := andThen_ok h5
          simp only [Outcome.ok.injEq, Option.some.injEq] at h8 h6 h4
          subst h8
          subst h6
          rw [hp'.2] at h4
          simp only [Pos.inStr, cond_true, Option.map_none] at h4
          subst h4
          exact acc_lost _ (Nat.le_refl _) rfl rfl h2
        · have e : (Kind.quoted == Kind.quoted) = true := rfl
          simp [e, execs, exec, token] at h1
      · have hpe : pend m.early (.leave u (k == .quoted)) as = .leave u (k == .quoted) :: as := pend_eq (fun he hs => hst ⟨he, hs⟩)
        rw [hpe] at h1
        simp only [execs] at h1
        have h3 := exec_leave (m := m) hw s u p
        unfold Mach.exec at h3
        rw [h3] at h1
        obtain ⟨a, h4, _⟩ := andThen_ok h1
        obtain ⟨b, h5, _⟩ := andThen_ok h4
        obtain ⟨d, h6, _⟩ := andThen_ok h5
        have hno : m.early = true → ∀ p', wsT s.ctx (next u) c ≠ some (p', [.start]) := by
          intro he p' hp'
          rw [hx] at hp'
          simp only [Option.some.injEq, Prod.mk.injEq] at hp'
          exact hst ⟨he, hp'.2⟩
        refine ⟨d, h6, (acc_leave hw h6 ?_ (.inl (by simp))).1 h, ?_⟩
        · intro c' hc'
          simp only [List.head?_cons, Option.some.injEq] at hc'
          subst hc'
          exact ⟨hc, hno⟩
        · intro c' hc'
          simp only [List.head?_cons, Option.some.injEq] at hc'
          subst hc'
          exact hno

/-! ### Touching strings -/

/-- Where a string may begin behind a value. -/
theorem item_start {ctx : Ctx} {c : UInt8} : (∃ p, wsT ctx .after c = some (p, [.start])) ↔ c = 34 ∨ c = 92 ∨ isFchr c = true := by
  have h : ∀ (ctx : Ctx) (c : UInt8), (match wsT ctx .after c with | some (_, as) => as == [.start] | none => false) = (c == 34 || c == 92 || isFchr c) := by
    intro ctx
    cases ctx <;> exact u8_all _ (by decide +kernel)
  have h' := h ctx c
  constructor
  · rintro ⟨p, hp⟩
    rw [hp] at h'
    simpa [or_assoc] using h'.symm
  · intro hc
    have e : (c == 34 || c == 92 || isFchr c) = true := by simpa [or_assoc] using hc
    rw [e] at h'
    split at h'
    · rename_i p as hp
      have : as = [.start] := by simpa using h'
      exact ⟨p, by rw [hp, this]⟩
    · simp at h'

theorem apart_iff {k : Kind} (hk : k = .bare ∨ k = .quoted) {ctx : Ctx} {r : Bytes} {e : Bool} :
    Apart (!e) k r ↔ ∀ c, r.head? = some c → (k = .bare → c ∈ special) ∧ (e = true → ∀ p, wsT ctx .after c ≠ some (p, [.start])) := by
  have hst : ∀ c, (∀ p, wsT ctx .after c ≠ some (p, [.start])) ↔ ¬ (c = 34 ∨ c = 92 ∨ isFchr c = true) := by
    intro c
    rw [← item_start (ctx := ctx)]
    simp
  constructor
  · intro h c hc
    rcases hk with rfl | rfl
    · have h1 := h c hc
      refine ⟨fun _ => h1.1, fun he => (hst c).2 ?_⟩
      rintro (rfl | rfl | h2)
      · exact h1.2 (by simp [he]) rfl
      · simp [special] at h1
      · exact (isFchr_iff.1 h2).1 h1.1
    · refine ⟨nofun, fun he => (hst c).2 ?_⟩
      rcases h (by simp [he]) c hc with rfl | ⟨h1, h2⟩
      · decide
      · rintro (rfl | rfl | h3)
        · exact h2 rfl
        · simp [special] at h1
        · exact (isFchr_iff.1 h3).1 h1
  · intro h
    rcases hk with rfl | rfl
    · intro c hc
      refine ⟨(h c hc).1 rfl, fun he => ?_⟩
      have := (hst c).1 ((h c hc).2 (by simpa using he))
      exact fun e => this (.inl e)
    · intro he c hc
      have h1 := (hst c).1 ((h c hc).2 (by simpa using he))
      simp only [not_or] at h1
      by_cases h36 : c = 36
      · exact .inl h36
      · right
        refine ⟨?_, h1.1⟩
        apply Classical.byContradiction
        intro h2
        exact h1.2.2 (isFchr_iff.2 ⟨h2, h1.2.1, h36⟩)

end Gdnsd.Vscf
