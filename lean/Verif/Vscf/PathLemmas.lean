/-
`$include{}` and the paths in it.
-/
import Verif.Vscf.IncLemmas
namespace Gdnsd.Vscf
open VscfSpec

variable {m : Mach}

theorem mem_takeWhile' {f : UInt8 → Bool} {l : Bytes} {c : UInt8} (h : c ∈ l.takeWhile f) : f c = true := by
  induction l with
  | nil => simp at h
  | cons a l ih =>
    rw [List.takeWhile_cons] at h
    split at h
    · rename_i ha
      rcases List.mem_cons.1 h with rfl | h
      · exact ha
      · exact ih h
    · simp at h

theorem cstr_upto (t : Bytes) : Upto t (cstr t) := by
  refine ⟨t.dropWhile fun c => c != 0, (List.takeWhile_append_dropWhile).symm, ?_, ?_⟩
  · intro h
    have := mem_takeWhile' h
    simp at this
  · cases h : t.dropWhile fun c => c != 0 with
    | nil => exact .inl rfl
    | cons a l =>
      right
      have := List.head?_dropWhile_not (fun c : UInt8 => c != 0) t
      rw [h] at this
      simp at this
      simp [this]

theorem upto_eq {t p : Bytes} (h : Upto t p) : p = cstr t := by
  obtain ⟨z, rfl, h0, hz⟩ := h
  unfold cstr
  rw [List.takeWhile_append_of_pos (by intro a ha; simp; rintro rfl; exact h0 ha)]
  rcases hz with rfl | hz
  · simp
  · cases z with
    | nil => simp
    | cons a z => simp at hz; subst hz; simp

theorem dirOf_split (f : Bytes) : ∃ b, f = dirOf f ++ b ∧ 47 ∉ b ∧ (dirOf f = [] ∨ (dirOf f).getLast? = some 47) := by
  refine ⟨(f.reverse.takeWhile fun c => c != 47).reverse, ?_, ?_, ?_⟩
  · unfold dirOf
    rw [← List.reverse_append, List.takeWhile_append_dropWhile, List.reverse_reverse]
  · intro h
    rw [List.mem_reverse] at h
    have := mem_takeWhile' h
    simp at this
  · unfold dirOf
    cases h : f.reverse.dropWhile fun c => c != 47 with
    | nil => exact .inl rfl
    | cons a l =>
      right
      have := List.head?_dropWhile_not (fun c : UInt8 => c != 47) f.reverse
      rw [h] at this
      simp at this
      simp [this]

theorem dirOf_eq {d b : Bytes} (hb : (47 : UInt8) ∉ b) (hd : d = [] ∨ d.getLast? = some 47) : dirOf (d ++ b) = d := by
  unfold dirOf
  rw [List.reverse_append, List.dropWhile_append_of_pos (by
    intro a ha; simp; rintro rfl; exact hb (List.mem_reverse.1 ha))]
  rcases hd with rfl | hd
  · simp
  · cases h : d.reverse with
    | nil => rw [List.reverse_eq_nil_iff] at h; subst h; simp
    | cons a l =>
      have h2 : d = l.reverse ++ [a] := by rw [← List.reverse_reverse d, h]; simp
      subst h2
      simp at hd
      subst hd
      simp

theorem paths_iff {env : Env} {p : Bytes} {ps : List Bytes} : paths env p = some ps ↔ Found env p ps := by
  unfold paths Found
  cases hd : env.isDir p with
  | true =>
    simp only [cond_true, if_true]
    by_cases h : p = [] ∨ p.getLast? = some 47
    · have e : (p.isEmpty || p.getLast? == some 47) = true := by
        rcases h with h | h <;> simp [h]
      rw [if_pos h, e]
      simp
    · rw [if_neg h]
      simp only [not_or] at h
      have e : (p.isEmpty || p.getLast? == some 47) = false := by
        cases p with
        | nil => exact absurd rfl h.1
        | cons a l => simpa using h.2
      rw [e]
      simp
  | false =>
    simp only [cond_false, Bool.false_eq_true, if_false, Option.map_eq_some_iff]
    constructor
    · rintro ⟨l, h1, h2⟩
      refine ⟨l, h1, ?_⟩
      rw [← h2]
      cases l <;> simp
    · rintro ⟨l, h1, h2⟩
      refine ⟨l, h1, ?_⟩
      rw [h2]
      cases l <;> simp

theorem proc_fwd {env : Env} {load : Bytes → Outcome (Option Val)} {fn : Option Bytes} {t p : Bytes} {ps : List Bytes} (hp : Path fn t p) (hf : Found env p ps) (d : Dat) :
    procInclude env load fn t d = incGlob load (some ps) d := by
  unfold procInclude
  rcases hp with ⟨h1, h2⟩ | ⟨h1, dd, b, rfl, hb, hd, h2⟩
  · have e : (t.head? == some 47) = true := by simp [h1]
    rw [e, ← upto_eq h2, cond_true, paths_iff.2 hf]
  · have e : (t.head? == some 47) = false := by simpa using h1
    rw [e, cond_false]
    simp only [dirOf_eq hb hd]
    rw [← upto_eq h2, paths_iff.2 hf]

theorem proc_inv {env : Env} {load : Bytes → Outcome (Option Val)} {fn : Option Bytes} {t : Bytes} {d d' : Dat} (h : procInclude env load fn t d = .ok (some d')) :
    ∃ p ps, Path fn t p ∧ Found env p ps ∧ incGlob load (some ps) d = .ok (some d') := by
  unfold procInclude at h
  cases e : (t.head? == some 47) with
  | true =>
    rw [e, cond_true] at h
    have e' : t.head? = some 47 := by simpa using e
    cases hp : paths env (cstr t) with
    | none => rw [hp] at h; simp [incGlob] at h
    | some ps => exact ⟨_, ps, .inl ⟨e', cstr_upto t⟩, paths_iff.1 hp, by rw [hp] at h; exact h⟩
  | false =>
    rw [e, cond_false] at h
    have e' : t.head? ≠ some 47 := by simpa using e
    cases fn with
    | none => simp at h
    | some f =>
      simp only at h
      cases hp : paths env (cstr (dirOf f ++ t)) with
      | none => rw [hp] at h; simp [incGlob] at h
      | some ps =>
        obtain ⟨b, hb1, hb2, hb3⟩ := dirOf_split f
        exact ⟨_, ps, .inr ⟨e', dirOf f, b, by rw [← hb1], hb2, hb3, cstr_upto _⟩, paths_iff.1 hp, by rw [hp] at h; exact h⟩

/-! ### The keyword -/

theorem kw_step {s : St} {n : Nat} {c : UInt8} (hs : s.pos = .kw n) (hc : kwText[n]? = some c) :
    m.step s c = .ok (some { s with pos := bif n == 8 then .ws .inc else .kw (n + 1) }) := by
  have ht : trans m.early s.ctx s.pos c = some ((bif n == 8 then .ws .inc else .kw (n + 1)), []) := by
    rw [hs]; simp [trans, hc]
  exact step_plain ht (by cases h : (n == 8) <;> rfl)

theorem run_kw {s : St} (hs : trans m.early s.ctx s.pos 36 = some (.kw 1, [])) :
    m.run [36, 105, 110, 99, 108, 117, 100, 101, 123] s = .ok (some { s with pos := .ws .inc }) := by
  rw [run_cons, step_plain hs rfl, andThen_some, run_cons, kw_step rfl rfl, andThen_some, run_cons, kw_step rfl rfl, andThen_some,
    run_cons, kw_step rfl rfl, andThen_some, run_cons, kw_step rfl rfl, andThen_some, run_cons, kw_step rfl rfl, andThen_some,
    run_cons, kw_step rfl rfl, andThen_some, run_cons, kw_step rfl rfl, andThen_some, run_cons, kw_step rfl rfl, andThen_some]
  rfl

theorem kw_inv1 {s : St} {n : Nat} {r : Bytes} {w : Val} (hs : s.pos = .kw n) (h : m.Acc s r w) :
    ∃ c r', r = c :: r' ∧ kwText[n]? = some c ∧ m.Acc { s with pos := bif n == 8 then .ws .inc else .kw (n + 1) } r' w := by
  cases r with
  | nil =>
    unfold Mach.Acc at h
    simp only [run_nil, andThen_some, Mach.finish, finish, hs] at h
    cases hc : s.ctx <;> simp [hc] at h
  | cons c r =>
    obtain ⟨s', h1, h2⟩ := acc_cons.1 h
    by_cases hk : kwText[n]? = some c
    · rw [kw_step hs hk] at h1
      simp only [Outcome.ok.injEq, Option.some.injEq] at h1
      exact ⟨c, r, rfl, hk, h1 ▸ h2⟩
    · have ht : trans m.early s.ctx s.pos c = none := by
        have hk' : (kwText[n]? == some c) = false := by simpa using hk
        rw [hs]; simp only [trans, hk', cond_false]
      rw [step_fail ht] at h1
      simp at h1

theorem kw_inv {s : St} {r : Bytes} {w : Val} (hs : s.pos = .kw 1) (h : m.Acc s r w) :
    ∃ r', r = [105, 110, 99, 108, 117, 100, 101, 123] ++ r' ∧ m.Acc { s with pos := .ws .inc } r' w := by
  obtain ⟨c1, r1, rfl, k1, h1⟩ := kw_inv1 hs h
  obtain ⟨c2, r2, rfl, k2, h2⟩ := kw_inv1 rfl h1
  obtain ⟨c3, r3, rfl, k3, h3⟩ := kw_inv1 rfl h2
  obtain ⟨c4, r4, rfl, k4, h4⟩ := kw_inv1 rfl h3
  obtain ⟨c5, r5, rfl, k5, h5⟩ := kw_inv1 rfl h4
  obtain ⟨c6, r6, rfl, k6, h6⟩ := kw_inv1 rfl h5
  obtain ⟨c7, r7, rfl, k7, h7⟩ := kw_inv1 rfl h6
  obtain ⟨c8, r8, rfl, k8, h8⟩ := kw_inv1 rfl h7
  simp [kwText] at k1 k2 k3 k4 k5 k6 k7 k8
  refine ⟨r8, ?_, h8⟩
  simp [← k1, ← k2, ← k3, ← k4, ← k5, ← k6, ← k7, ← k8]

/-! ### `$include{}` -/

theorem incEnd_no_start {ctx : Ctx} {c : UInt8} {p : Pos} : wsT ctx .incEnd c ≠ some (p, [.start]) := by
  intro h
  have h' : ∀ (ctx : Ctx) (c : UInt8), (match wsT ctx .incEnd c with | some (_, as) => as == [.start] | none => false) = false := by
    intro ctx
    cases ctx <;> exact u8_all _ (by decide +kernel)
  have := h' ctx c
  rw [h] at this
  simp at this

theorem eq_no_start {ctx : Ctx} {c : UInt8} {p : Pos} : wsT ctx .eq c ≠ some (p, [.start]) := by
  intro h
  have h' : ∀ (ctx : Ctx) (c : UInt8), (match wsT ctx .eq c with | some (_, as) => as == [.start] | none => false) = false := by
    intro ctx
    cases ctx <;> exact u8_all _ (by decide +kernel)
  have := h' ctx c
  rw [h] at this
  simp at this

theorem gap_head {g : Bytes} (hg : Gap g) (c : UInt8) (h : g.head? = some c) : isGap c = true := by
  cases hg with
  | nil => simp at h
  | blank hc _ =>
    simp at h; subst h
    rcases hc with rfl | rfl | rfl <;> rfl
  | comment hc _ _ =>
    simp at h; subst h
    rcases hc with rfl | rfl <;> rfl

theorem isGap_special {c : UInt8} (h : isGap c = true) : c ∈ special := by
  simp only [isGap, Bool.or_eq_true, beq_iff_eq] at h
  rcases h with (((rfl | rfl) | rfl) | rfl) | rfl <;> decide

theorem gap_append_head {g r : Bytes} (hg : Gap g) {c : UInt8} (h : (g ++ r).head? = some c) : isGap c = true ∨ (g = [] ∧ r.head? = some c) := by
  cases g with
  | nil => exact .inr ⟨rfl, h⟩
  | cons a g => exact .inl (gap_head hg c (by simpa using h))

/-- The state behind a value or include, when it has been added. -/
def St.added (s : St) (d : Dat) : St := { s with pos := .ws .after, dat := d, tok := none }

theorem include_fwd {x : Bytes} {ps : List Bytes} (hi : Include m.env m.fn x ps) {s : St} (hs : trans m.early s.ctx s.pos 36 = some (.kw 1, []))
    {d : Dat} (hd : incGlob m.load (some ps) s.dat = .ok (some d)) {r : Bytes} {w : Val} (h : m.Acc (s.added d) r w) : m.Acc s (x ++ r) w := by
  obtain ⟨g, y, k, t, v, p, g', rfl, hg, hw, hg', hp, hf⟩ := hi
  simp only [List.append_assoc]
  rw [acc_append (run_kw hs), acc_append (run_gap hg (w := .inc) rfl)]
  have hst : ∀ c, y.head? = some c → trans m.early ({ s with pos := .ws .inc } : St).ctx ({ s with pos := .ws .inc } : St).pos c = strT .file c := by
    intro c hc
    obtain ⟨a, r', rfl, ha⟩ := word_head hw
    simp at hc; subst hc
    have h' : ∀ (ctx : Ctx) (c : UInt8), (isFchr c || c == 92 || c == 34) = true → wsT ctx .inc c = strT .file c := by
      intro ctx
      cases ctx <;> exact u8_all _ (by decide +kernel)
    exact h' s.ctx _ (by simpa [or_assoc] using ha)
  rw [acc_append (run_word hw hst)]
  have hl : m.leave .file t ({ s with pos := .ws .inc } : St).dat = .ok (some d) := by
    show procInclude m.env m.load m.fn t s.dat = _
    rw [proc_fwd hp hf, hd]
  rw [acc_leave hw hl ?_ (.inl (by simp))]
  · rw [acc_append (run_gap hg' (w := .incEnd) rfl)]
    rw [show ([125] ++ r : Bytes) = 125 :: r from rfl, acc_cons]
    refine ⟨_, step_plain (p := .ws .after) ?_ rfl, ?_⟩
    · rfl
    · exact h
  · intro c hc
    refine ⟨fun _ => ?_, fun _ p => incEnd_no_start⟩
    rcases gap_append_head hg' hc with h1 | ⟨_, h1⟩
    · exact isGap_special h1
    · simp at h1; subst h1; decide

theorem include_inv {s : St} {r : Bytes} {w : Val} (hs : trans m.early s.ctx s.pos 36 = some (.kw 1, [])) (h : m.Acc s (36 :: r) w) :
    ∃ x ps d r', 36 :: r = x ++ r' ∧ Include m.env m.fn x ps ∧ incGlob m.load (some ps) s.dat = .ok (some d) ∧ m.Acc (s.added d) r' w ∧ 0 < x.length := by
  obtain ⟨s1, h1, h2⟩ := acc_cons.1 h
  rw [step_plain hs rfl] at h1
  simp only [Outcome.ok.injEq, Option.some.injEq] at h1
  subst h1
  obtain ⟨r1, rfl, h3⟩ := kw_inv rfl h2
  obtain ⟨g, r2, rfl, hg, h4, hh⟩ := gap_inv _ (Nat.le_refl _) (w := .inc) rfl h3
  cases r2 with
  | nil =>
    unfold Mach.Acc at h4
    simp only [run_nil, andThen_some, Mach.finish, finish] at h4
    cases hc : s.ctx <;> simp [hc] at h4
  | cons c r2 =>
    have hst : trans m.early ({ s with pos := .ws .inc } : St).ctx ({ s with pos := .ws .inc } : St).pos c = strT .file c := by
      have h' : ∀ (ctx : Ctx) (c : UInt8), isGap c = false → wsT ctx .inc c = strT .file c := by
        intro ctx
        cases ctx <;> exact u8_all _ (by decide +kernel)
      exact h' s.ctx _ (hh c rfl)
    obtain ⟨k, y, t, v, r3, e, hw, h5, hk⟩ := word_inv hst h4
    obtain ⟨d, hl, h6, _⟩ := leave_inv hw hk h5
    obtain ⟨p, ps, hp, hf, hd⟩ := proc_inv (show procInclude m.env m.load m.fn t s.dat = _ from hl)
    obtain ⟨g', r4, rfl, hg', h7, hh'⟩ := gap_inv _ (Nat.le_refl _) (w := .incEnd) rfl h6
    cases r4 with
    | nil =>
      unfold Mach.Acc at h7
      simp only [run_nil, andThen_some, Mach.finish, finish, St.left, next] at h7
      cases hc : s.ctx <;> simp [hc] at h7
    | cons c4 r4 =>
      obtain ⟨s2, h8, h9⟩ := acc_cons.1 h7
      have hc4 : c4 = 125 := by
        apply Classical.byContradiction
        intro hne
        have h' : ∀ (ctx : Ctx) (c : UInt8), isGap c = false → c ≠ 125 → wsT ctx .incEnd c = none := by
          intro ctx
          cases ctx <;> exact u8_all _ (by decide +kernel)
        have ht : trans m.early (({ s with pos := .ws .inc } : St).left .file d).ctx (({ s with pos := .ws .inc } : St).left .file d).pos c4 = none :=
          h' s.ctx _ (hh' c4 rfl) hne
        rw [step_fail ht] at h8
        simp at h8
      subst hc4
      rw [step_plain (p := .ws .after) (by rfl) rfl] at h8
      simp only [Outcome.ok.injEq, Option.some.injEq] at h8
      subst h8
      refine ⟨[36, 105, 110, 99, 108, 117, 100, 101, 123] ++ g ++ y ++ g' ++ [125], ps, d, r4, ?_, ⟨g, y, k, t, v, p, g', rfl, hg, hw, hg', hp, hf⟩, hd, h9, by simp⟩
      simp [e]

end Gdnsd.Vscf
