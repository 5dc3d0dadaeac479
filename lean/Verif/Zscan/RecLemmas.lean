/-
Lemmas on records.
-/
import Verif.Zscan.FieldLemmas
namespace Gdnsd.Zscan
open ZscanSpec DnameSpec LookupSpec EncSpec Dname Load

/-! ### Ends of lines -/

theorem eol_some {r q : Bytes} : eol r = some q ↔ ∃ b, (∀ c ∈ b, isWs c = true) ∧ r = b ++ 10 :: q := by
  constructor
  · intro h
    unfold eol at h
    split at h
    · rename_i q' heq
      cases h
      refine ⟨(run isWs r).1, run_all isWs r, ?_⟩
      rw [← heq]; exact run_split isWs r
    · cases h
  · rintro ⟨b, hb, rfl⟩
    unfold eol
    rw [run_append isWs b (10 :: q) hb (by intro c hc; simp at hc; subst hc; rfl)]
    rfl

theorem eol_ends {r q : Bytes} (h : eol r = some q) : ends r = true := by
  obtain ⟨b, hb, rfl⟩ := eol_some.mp h
  cases b with
  | nil => rfl
  | cons c b => simp [ends, hb c (by simp)]

theorem eol_ws {b r : Bytes} (hb : ∀ c ∈ b, isWs c = true) : eol (b ++ r) = eol r := by
  have : (run isWs (b ++ r)).2 = (run isWs r).2 := by
    induction b with
    | nil => rfl
    | cons c b ih =>
      simp only [List.cons_append, run, hb c (by simp), cond_true]
      exact ih (fun c hc => hb c (by simp [hc]))
  unfold eol
  rw [this]

theorem ends_ws {b r : Bytes} (hb : ∀ c ∈ b, isWs c = true) (h : ends r = true) : ends (b ++ r) = true := by
  cases b with
  | nil => exact h
  | cons c b => simp [ends, hb c (by simp)]

/-! ### TXT -/

theorem word_first {w t : Bytes} (h : Word w t) : ∃ x w', w = x :: w' ∧ isWs x = false ∧ x ≠ 10 ∧ (x = 34 ∨ isLit x = true ∨ x = 92) := by
  rcases word_head h with ⟨rfl, _⟩ | ⟨rfl, h0, hu, _⟩
  · exact ⟨34, _, rfl, by decide, by decide, .inl rfl⟩
  · cases hu with
    | nil => exact absurd rfl h0
    | chr a _ _ =>
      have := (isLit_iff _).mpr a
      refine ⟨_, _, rfl, ?_, ?_, .inr (.inl this)⟩
      · cases hws : isWs _ with
        | false => rfl
        | true => rw [ws_not_lit hws] at this; cases this
      · rintro rfl; exact a (by decide)
    | esc _ _ => exact ⟨92, _, rfl, by decide, by decide, .inr (.inr rfl)⟩
    | num _ _ _ _ => exact ⟨92, _, rfl, by decide, by decide, .inr (.inr rfl)⟩

theorem items_first {cfg : Cfg} {s o : Bytes} (h : Items cfg s o) : ∃ x w', s = x :: w' ∧ isWs x = false ∧ x ≠ 10 ∧ (x = 34 ∨ isLit x = true ∨ x = 92) := by
  cases h with
  | one hw _ => exact word_first hw
  | sep hw _ _ _ => obtain ⟨x, w', rfl, hx⟩ := word_first hw; exact ⟨x, _, rfl, hx⟩
  | adj hw _ _ _ => obtain ⟨x, w', rfl, hx⟩ := word_first hw; exact ⟨x, _, rfl, hx⟩

theorem long_add {cfg : Cfg} {text t out : Bytes} (h : addTok cfg true text t = .ok (some out)) :
    ∃ s, out = text ++ s ∧ Long cfg t s ∧ out.length ≤ 16000 := by
  obtain ⟨o, s, h1, h2, h3, h4⟩ := (addTok_some _ _ _ _ _).mp h
  refine ⟨s, h2, ⟨o, h1, ?_⟩, h3⟩
  rcases h4 with h | ⟨a, b, _, c, d⟩
  · exact .inl h
  · exact .inr ⟨a, b, c, d⟩

theorem add_long {cfg : Cfg} {text t s : Bytes} (h : Long cfg t s) (hl : (text ++ s).length ≤ 16000) : addTok cfg true text t = .ok (some (text ++ s)) := by
  obtain ⟨o, h1, h2⟩ := h
  refine (addTok_some _ _ _ _ _).mpr ⟨o, s, h1, rfl, hl, ?_⟩
  rcases h2 with h | ⟨a, b, c, d⟩
  · exact .inl h
  · exact .inr ⟨a, b, rfl, c, d⟩

theorem txt_sound {cfg : Cfg} (f : Nat) {text s out r : Bytes} (h : txtLoop cfg f text s = .ok (some (out, r))) (ht : text.length ≤ 16000) :
    ∃ t b, s = t ++ b ++ r ∧ (∀ c ∈ b, isWs c = true) ∧ r.head? = some 10 ∧ out.length ≤ 16000 ∧
      ((t = [] ∧ out = text) ∨ ∃ b0 t' o, (∀ c ∈ b0, isWs c = true) ∧ t = b0 ++ t' ∧ Items cfg t' o ∧ out = text ++ o) := by
  induction f generalizing text s with
  | zero => cases h
  | succ f ih =>
    unfold txtLoop at h
    cases s with
    | nil => simp at h
    | cons c s =>
      simp only at h
      cases hws : isWs c with
      | true =>
        rw [hws] at h
        simp only [cond_true] at h
        obtain ⟨t, b, e1, e2, e3, e4, e5⟩ := ih h ht
        rcases e5 with ⟨rfl, e5⟩ | ⟨b0, t', o, d1, d2, d3, d4⟩
        · refine ⟨[], c :: b, by simp [e1], ?_, e3, e4, .inl ⟨rfl, e5⟩⟩
          simp only [List.mem_cons, forall_eq_or_imp]; exact ⟨hws, e2⟩
        · refine ⟨c :: t, b, by simp [e1], e2, e3, e4, .inr ⟨c :: b0, t', o, ?_, by simp [d2], d3, d4⟩⟩
          simp only [List.mem_cons, forall_eq_or_imp]; exact ⟨hws, d1⟩
      | false =>
        rw [hws] at h
        simp only [cond_false] at h
        by_cases hc : c = 10
        · subst hc
          simp only [beq_self_eq_true, cond_true, Outcome.ok.injEq, Option.some.injEq, Prod.mk.injEq] at h
          obtain ⟨rfl, rfl⟩ := h
          exact ⟨[], [], rfl, by simp, rfl, ht, .inl ⟨rfl, rfl⟩⟩
        · simp only [beq_eq_false_iff_ne.mpr hc, cond_false] at h
          cases hw : word (c :: s) with
          | none => rw [hw] at h; simp at h
          | some x =>
            obtain ⟨u, q⟩ := x
            rw [hw] at h
            simp only at h
            cases hq : q.isEmpty with
            | true => rw [hq] at h; simp at h
            | false =>
              rw [hq] at h
              simp only [cond_false] at h
              obtain ⟨text', h1, h2⟩ := andThen_some.mp h
              obtain ⟨s0, rfl, hlong, h16⟩ := long_add h1
              obtain ⟨w, w1, w2, w3⟩ := word_sound hw
              obtain ⟨t, b, e1, e2, e3, e4, e5⟩ := ih h2 h16
              rcases e5 with ⟨rfl, e5⟩ | ⟨b0, t', o, d1, d2, d3, d4⟩
              · refine ⟨w, b, by rw [w1, e1]; simp, e2, e3, e4, .inr ⟨[], w, s0, by simp, rfl, .one w2 hlong, e5⟩⟩
              · refine ⟨w ++ t, b, by rw [w1, e1]; simp, e2, e3, e4, .inr ⟨[], w ++ t, s0 ++ o, by simp, rfl, ?_, by rw [d4]; simp⟩⟩
                rw [d2]
                cases b0 with
                | nil =>
                  refine .adj w2 hlong ?_ d3
                  rcases w3 with w3 | w3
                  · exact .inl w3
                  · right
                    obtain ⟨x, t'', rfl, _, _, hx⟩ := items_first d3
                    have := w3 x (by rw [e1, d2]; simp)
                    rcases hx with rfl | hx | hx
                    · rfl
                    · rw [hx] at this; simp at this
                    · exact absurd hx this.2
                | cons y b0 =>
                  rw [← List.append_assoc]
                  exact .sep w2 hlong ((blank_iff _).mpr ⟨by simp, d1⟩) d3

theorem txtLoop_blank (cfg : Cfg) (b : Bytes) (hb : ∀ c ∈ b, isWs c = true) (f : Nat) (text s : Bytes) :
    txtLoop cfg (f + b.length) text (b ++ s) = txtLoop cfg f text s := by
  induction b with
  | nil => rfl
  | cons c b ih =>
    rw [show f + (c :: b).length = (f + b.length) + 1 by simp; omega, List.cons_append, txtLoop]
    simp only [hb c (by simp), cond_true]
    exact ih (fun c hc => hb c (by simp [hc]))

theorem txt_complete {cfg : Cfg} {t o : Bytes} (h : Items cfg t o) (f : Nat) {text b q : Bytes} (hb : ∀ c ∈ b, isWs c = true) (hf : (t ++ b).length < f)
    (hl : (text ++ o).length ≤ 16000) : txtLoop cfg f text (t ++ b ++ 10 :: q) = .ok (some (text ++ o, 10 :: q)) := by
  have step : ∀ {w u s r : Bytes} {f : Nat} {text : Bytes}, Word w u → Long cfg u s → (w.head? = some 34 ∨ ∀ c, r.head? = some c → isLit c = false ∧ c ≠ 92) →
      r ≠ [] → (text ++ s).length ≤ 16000 → txtLoop cfg (f + 1) text (w ++ r) = txtLoop cfg f (text ++ s) r := by
    intro w u s r f text hw hlong hr hne hl
    obtain ⟨x, w', hx, hx1, hx2, _⟩ := word_first hw
    have hwc := word_complete hw hr
    rw [hx] at hwc ⊢
    simp only [List.cons_append] at hwc ⊢
    rw [txtLoop]
    simp only [hx1, cond_false, beq_eq_false_iff_ne.mpr hx2]
    rw [hwc]
    have : r.isEmpty = false := by cases r; exact absurd rfl hne; rfl
    simp only [this, cond_false]
    rw [add_long hlong hl]
    rfl
  have hlit : ∀ x : UInt8, x = 34 → isLit x = false ∧ x ≠ 92 := by rintro x rfl; decide
  induction h generalizing f text with
  | one hw hlong =>
    rename_i w u s
    obtain ⟨f', rfl⟩ : ∃ f', f = f' + 1 + b.length + 1 := ⟨f - b.length - 2, by
      have := List.length_pos_iff.mpr (word_ne hw); simp at hf; omega⟩
    rw [List.append_assoc, step hw hlong (.inr ?_) (by simp) hl, show f' + 1 + b.length = (f' + 1) + b.length from rfl, txtLoop_blank cfg b hb, txtLoop]
    · rfl
    · exact ends_word (ends_ws hb rfl)
  | sep hw hlong hbl hi ih =>
    rename_i w u s b1 r o
    have h1 := List.length_pos_iff.mpr (word_ne hw)
    obtain ⟨f', rfl⟩ : ∃ f', f = f' + b1.length + 1 := ⟨f - b1.length - 1, by simp at hf; omega⟩
    rw [show w ++ b1 ++ r ++ b ++ 10 :: q = w ++ (b1 ++ (r ++ b ++ 10 :: q)) by simp,
      step hw hlong (.inr (ends_word (ends_of_blank hbl))) (by simp) (by simp at hl ⊢; omega), txtLoop_blank cfg b1 ((blank_iff _).mp hbl).2,
      ih f' (by simp at hf ⊢; omega) (by simp at hl ⊢; omega)]
    simp
  | adj hw hlong hadj hi ih =>
    rename_i w u s r o
    have h1 := List.length_pos_iff.mpr (word_ne hw)
    obtain ⟨f', rfl⟩ : ∃ f', f = f' + 1 := ⟨f - 1, by simp at hf; omega⟩
    rw [show w ++ r ++ b ++ 10 :: q = w ++ (r ++ b ++ 10 :: q) by simp,
      step hw hlong ?_ (by simp) (by simp at hl ⊢; omega),
      ih f' (by simp at hf ⊢; omega) (by simp at hl ⊢; omega)]
    · simp
    · rcases hadj with h | h
      · exact .inl h
      · right
        intro c hc
        obtain ⟨x, r', rfl, _⟩ := items_first hi
        simp at h hc; subst hc; exact hlit _ h

/-! ### Hexadecimal data -/

theorem nibble_eq {c : UInt8} (h : isHex c = true) : nibble c = hexValue c := by
  revert h; exact u8_all (fun c => isHex c = true → nibble c = hexValue c) (by decide +kernel) c

theorem hex_not_ws {c : UInt8} (h : isHex c = true) : isWs c = false ∧ c ≠ 10 := by
  revert h; exact u8_all (fun c => isHex c = true → isWs c = false ∧ c ≠ 10) (by decide +kernel) c

theorem octets_sound (n : Nat) {len : Nat} {acc s x r : Bytes} (hn : s.length ≤ n) (h : octets len acc s = .ok (some (x, r))) :
    ∃ t o, s = t ++ r ∧ Hex t o ∧ x = acc ++ o ∧ r.head? = some 10 := by
  induction n generalizing s acc with
  | zero =>
    cases s with
    | nil => simp [octets] at h
    | cons => simp at hn
  | succ n ih =>
    cases s with
    | nil => simp [octets] at h
    | cons a s =>
      simp only [List.length_cons] at hn
      unfold octets at h
      by_cases ha : a = 10
      · subst ha
        simp only [beq_self_eq_true, cond_true, Outcome.ok.injEq, Option.some.injEq, Prod.mk.injEq] at h
        obtain ⟨rfl, rfl⟩ := h
        exact ⟨[], [], rfl, .nil, by simp, rfl⟩
      · simp only [beq_eq_false_iff_ne.mpr ha, cond_false] at h
        cases hws : isWs a with
        | true =>
          rw [hws] at h
          simp only [cond_true] at h
          obtain ⟨t, o, e1, e2, e3, e4⟩ := ih (by omega) h
          exact ⟨a :: t, o, by simp [e1], .blank ((isWs_iff _).mp hws) e2, e3, e4⟩
        | false =>
          rw [hws] at h
          simp only [cond_false] at h
          match s, hn, h with
          | [], _, h => simp at h
          | b :: s, hn, h =>
            simp only at h
            cases hx : (isHex a && isHex b && octetEnds s) with
            | false => rw [hx] at h; simp at h
            | true =>
              rw [hx] at h
              simp only [cond_true] at h
              simp only [Bool.and_eq_true] at hx
              obtain ⟨⟨h1, h2⟩, _⟩ := hx
              cases hl : (acc.length == len) with
              | true => rw [hl] at h; simp at h
              | false =>
                rw [hl] at h
                simp only [cond_false] at h
                obtain ⟨t, o, e1, e2, e3, e4⟩ := ih (by simp at hn; omega) h
                refine ⟨a :: b :: t, hexbyte a b :: o, by simp [e1], ?_, by simp [e3], e4⟩
                have := Hex.byte ((isHex_iff _).mp h1) ((isHex_iff _).mp h2) e2
                rw [← nibble_eq h1, ← nibble_eq h2] at this
                exact this

theorem octets_complete {t o : Bytes} (h : Hex t o) {len : Nat} {acc b q : Bytes} (hb : ∀ c ∈ b, isWs c = true) (hl : (acc ++ o).length ≤ len) :
    octets len acc (t ++ b ++ 10 :: q) = .ok (some (acc ++ o, 10 :: q)) := by
  induction h generalizing acc with
  | nil =>
    simp only [List.nil_append]
    induction b with
    | nil => unfold octets; simp
    | cons c b ih =>
      have hc := hb c (by simp)
      simp only [List.cons_append]
      unfold octets
      have : c ≠ 10 := by rintro rfl; cases hc
      simp only [beq_eq_false_iff_ne.mpr this, cond_false, hc, cond_true]
      exact ih (fun c hc => hb c (by simp [hc]))
  | blank hc _ ih =>
    rename_i c r o _
    simp only [List.cons_append]
    unfold octets
    have hc := (isWs_iff c).mpr hc
    have : c ≠ 10 := by rintro rfl; cases hc
    simp only [beq_eq_false_iff_ne.mpr this, cond_false, hc, cond_true]
    exact ih hl
  | byte h1 h2 hx ih =>
    rename_i a b' r o
    have h1 := (isHex_iff a).mpr h1
    have h2 := (isHex_iff b').mpr h2
    obtain ⟨g1, g2⟩ := hex_not_ws h1
    have hend : octetEnds (r ++ b ++ 10 :: q) = true := by
      cases hx with
      | nil =>
        cases b with
        | nil => rfl
        | cons c b => simp [octetEnds, hb c (by simp)]
      | blank hc _ => simp [octetEnds, (isWs_iff _).mpr hc]
      | byte hc _ _ => simp [octetEnds, (isHex_iff _).mpr hc]
    simp only [List.cons_append]
    unfold octets
    simp only [beq_eq_false_iff_ne.mpr g2, cond_false, g1]
    rw [h1, h2, hend]
    simp only [Bool.and_self, cond_true]
    have : (acc.length == len) = false := by
      rw [beq_eq_false_iff_ne]; simp at hl; omega
    simp only [this, cond_false]
    rw [ih (by simp at hl ⊢; omega)]
    unfold hexbyte
    rw [nibble_eq h1, nibble_eq h2]
    simp

/-! ### Words of the grammar -/

theorem keyword_sound {k : String} {s : Bytes} (h : (run isAlpha s).1.map low = str k) : Keyword k (run isAlpha s).1 := by
  refine ⟨fun c hc => (isAlpha_iff c).mp (run_all isAlpha s c hc), ?_⟩
  rw [← low_fun]; exact h

theorem keyword_complete {k : String} {w r : Bytes} (h : Keyword k w) (hr : ∀ c, r.head? = some c → isAlpha c = false) :
    run isAlpha (w ++ r) = (w, r) ∧ w.map low = str k := by
  refine ⟨run_append isAlpha w r (fun c hc => (isAlpha_iff c).mpr (h.1 c hc)) hr, ?_⟩
  rw [low_fun]; exact h.2

theorem keyword_ne {k : String} {w : Bytes} (h : Keyword k w) (hk : str k ≠ []) : ∃ x w', w = x :: w' ∧ isAlpha x = true := by
  cases w with
  | nil => exact absurd h.2.symm hk
  | cons x w => exact ⟨x, w, rfl, (isAlpha_iff x).mpr (h.1 x (by simp))⟩

theorem blank_alpha {b r : Bytes} (hb : Blank b) : ∀ c, (b ++ r).head? = some c → isAlpha c = false := by
  obtain ⟨h0, h1⟩ := (blank_iff b).mp hb
  intro c hc
  cases b with
  | nil => exact absurd rfl h0
  | cons x b => simp at hc; subst hc; exact ws_not_alpha (h1 x (by simp))

theorem alpha_first {k : String} {w r : Bytes} (h : Keyword k w) (hk : str k ≠ []) : ∀ c, (w ++ r).head? = some c → isWs c = false := by
  obtain ⟨x, w', rfl, hx⟩ := keyword_ne h hk
  intro c hc; simp at hc; subst hc; exact alpha_not_ws hx

/-! ### Generic records -/

theorem generic_sound {z : Z} {c : Ctx} (R : Rel z c) {s r : Bytes} {d : Rdata} (h : generic z s = .ok (some (d, r))) :
    ∃ n t b1 b2 m l b3 u o, s = n ++ b1 ++ [92, 35] ++ b2 ++ m ++ b3 ++ u ++ r ∧ Num n t ∧ Blank b1 ∧ Blank b2 ∧ Num m l ∧ Blank b3 ∧ Hex u o ∧
      l.toNat = o.length ∧ l ≠ 0 ∧ ¬ outside c ∧ d = .raw t o ∧ r.head? = some 10 := by
  unfold generic at h
  cases h1 : run1 isDigit s with
  | none => rw [h1] at h; simp at h
  | some x =>
    obtain ⟨n, s1⟩ := x
    rw [h1] at h
    simp only at h
    obtain ⟨a1, a2, a3, _⟩ := run1_sound h1
    split at h
    · rename_i t s2 hu hw
      obtain ⟨b1, c1, c2, _⟩ := ws_sound hw
      cases h2 : ws s2 with
      | none => rw [h2] at h; simp at h
      | some s3 =>
        obtain ⟨b2, d1, d2, _⟩ := ws_sound h2
        rw [h2] at h
        simp only at h
        cases h3 : run1 isDigit s3 with
        | none => rw [h3] at h; simp at h
        | some x =>
          obtain ⟨m, s4⟩ := x
          obtain ⟨m1, m2, m3, _⟩ := run1_sound h3
          rw [h3] at h
          simp only at h
          cases hb : blank s4 with
          | false => rw [hb] at h; simp at h
          | true =>
            rw [hb] at h
            simp only [cond_true] at h
            obtain ⟨b3, g1, g2, _⟩ := blank_sound hb
            cases hl : uval m with
            | none => rw [hl] at h; simp at h
            | some l =>
              rw [hl] at h
              simp only at h
              by_cases hl0 : l = 0
              · subst hl0; simp [assert] at h
              · have : (l != 0) = true := by simpa using hl0
                rw [this] at h
                simp only [assert, if_true, Outcome.bind_ok] at h
                obtain ⟨⟨o, r'⟩, h5, h6⟩ := andThen_some.mp h
                obtain ⟨u, o', e1, e2, e3, e4⟩ := octets_sound _ (Nat.le_refl _) h5
                simp only [List.nil_append] at e3
                subst e3
                simp only [Outcome.ok.injEq] at h6
                by_cases ho : outside c
                · simp [ooz_iff R, ho] at h6
                by_cases hlt : o.length < l.toNat
                · simp [hlt] at h6
                simp only [hlt, decide_false, ooz_iff R, ho, Bool.or_false, cond_false, Option.some.injEq, Prod.mk.injEq] at h6
                obtain ⟨rfl, rfl⟩ := h6
                have hle : o.length ≤ l.toNat := by
                  have : ∀ (n : Nat) {len : Nat} {acc s x r : Bytes}, s.length ≤ n → acc.length ≤ len → octets len acc s = .ok (some (x, r)) → x.length ≤ len := by
                    intro n
                    induction n with
                    | zero =>
                      intro len acc s x r hn _ h
                      cases s with
                      | nil => simp [octets] at h
                      | cons => simp at hn
                    | succ n ih =>
                      intro len acc s x r hn ha h
                      cases s with
                      | nil => simp [octets] at h
                      | cons a s =>
                        simp only [List.length_cons] at hn
                        unfold octets at h
                        by_cases ha10 : a = 10
                        · subst ha10
                          simp only [beq_self_eq_true, cond_true, Outcome.ok.injEq, Option.some.injEq, Prod.mk.injEq] at h
                          rw [← h.1]; exact ha
                        · simp only [beq_eq_false_iff_ne.mpr ha10, cond_false] at h
                          cases hws : isWs a with
                          | true => rw [hws] at h; exact ih (by omega) ha h
                          | false =>
                            rw [hws] at h
                            simp only [cond_false] at h
                            match s, hn, h with
                            | [], _, h => simp at h
                            | b :: s, hn, h =>
                              simp only at h
                              cases hx : (isHex a && isHex b && octetEnds s) with
                              | false => rw [hx] at h; simp at h
                              | true =>
                                rw [hx] at h
                                simp only [cond_true] at h
                                cases hl : (acc.length == len) with
                                | true => rw [hl] at h; simp at h
                                | false =>
                                  rw [hl] at h
                                  rw [beq_eq_false_iff_ne] at hl
                                  exact ih (by simp at hn; omega) (by simp; omega) h
                  exact this _ (Nat.le_refl _) (by simp) h5
                refine ⟨n, t, b1, b2, m, l, b3, u, o, ?_, (num_iff _ _).mpr ⟨⟨a2, a3⟩, hu⟩, c1, d1, (num_iff _ _).mpr ⟨⟨m2, m3⟩, hl⟩, g1, e2, by omega, hl0, ho, rfl, e4⟩
                rw [a1, c2, d2, m1, g2, e1]
                simp
    · simp at h

theorem generic_complete {z : Z} {c : Ctx} (R : Rel z c) {n b1 b2 m b3 u o b q : Bytes} {t l : UInt32} (hn : Num n t) (hb1 : Blank b1) (hb2 : Blank b2)
    (hm : Num m l) (hb3 : Blank b3) (hx : Hex u o) (hl : l.toNat = o.length) (hl0 : l ≠ 0) (ho : ¬ outside c) (hb : ∀ c ∈ b, isWs c = true) :
    generic z (n ++ b1 ++ [92, 35] ++ b2 ++ m ++ b3 ++ u ++ (b ++ 10 :: q)) = .ok (some (.raw t o, 10 :: q)) := by
  obtain ⟨⟨n1, n2⟩, n3⟩ := (num_iff _ _).mp hn
  obtain ⟨⟨m1, m2⟩, m3⟩ := (num_iff _ _).mp hm
  have hbd : ∀ {b r : Bytes}, Blank b → ∀ c, (b ++ r).head? = some c → isDigit c = false := by
    intro b r hb c hc
    obtain ⟨h0, h1⟩ := (blank_iff b).mp hb
    cases b with
    | nil => exact absurd rfl h0
    | cons x b => simp at hc; subst hc; exact ws_not_digit (h1 x (by simp))
  have e : n ++ b1 ++ [92, 35] ++ b2 ++ m ++ b3 ++ u ++ (b ++ 10 :: q) = n ++ (b1 ++ (92 :: 35 :: (b2 ++ (m ++ (b3 ++ (u ++ b ++ 10 :: q)))))) := by simp
  unfold generic
  rw [e, run1_complete n1 n2 (hbd hb1)]
  simp only
  rw [n3, ws_complete hb1 (by intro c hc; simp at hc; subst hc; decide)]
  simp only
  have hm' : ∀ c, (m ++ (b3 ++ (u ++ b ++ 10 :: q))).head? = some c → isWs c = false := by
    intro c hc
    cases m with
    | nil => exact absurd rfl m1
    | cons x m => simp at hc; subst hc; exact digit_not_ws (m2 x (by simp))
  rw [ws_complete hb2 hm']
  simp only
  rw [run1_complete m1 m2 (hbd hb3)]
  simp only
  rw [blank_append hb3, m3]
  have : (l != 0) = true := by simpa using hl0
  simp only [cond_true, this, assert, if_true, Outcome.bind_ok]
  -- the blanks before the data
  have hoct : octets l.toNat [] (run isWs (b3 ++ (u ++ b ++ 10 :: q))).2 = .ok (some (o, 10 :: q)) := by
    have hskip : ∀ {len : Nat} {acc : Bytes} (s : Bytes), octets len acc (run isWs s).2 = octets len acc s := by
      intro len acc s
      induction s with
      | nil => rfl
      | cons x s ih =>
        unfold run
        cases hx : isWs x with
        | false => rfl
        | true =>
          simp only [cond_true]
          have : x ≠ 10 := by rintro rfl; cases hx
          rw [octets.eq_def len acc (x :: s)]
          simp only [beq_eq_false_iff_ne.mpr this, cond_false, hx, cond_true]
          exact ih
    rw [hskip]
    have hx3 : Hex (b3 ++ u) o := by
      have := ((blank_iff b3).mp hb3).2
      clear hb3 hskip hm' e
      induction b3 with
      | nil => exact hx
      | cons c b3 ih => exact .blank ((isWs_iff c).mp (this c (by simp))) (ih fun c hc => this c (by simp [hc]))
    have := octets_complete hx3 (len := l.toNat) (acc := []) (q := q) hb (by simp; omega)
    simpa using this
  rw [hoct]
  have h1 : ¬ o.length < l.toNat := by omega
  simp only [andThen_ok, h1, decide_false, ooz_iff R, ho, Bool.or_false, cond_false]

/-! ### Type and data -/

theorem rhs_sound {cfg : Cfg} {z : Z} {c : Ctx} (R : Rel z c) {ttl min : UInt32} {slash : Bool} {s r : Bytes} {a : Add}
    (h : rhs cfg z ttl min slash s = .ok (some (a, r))) :
    ∃ t r' dyn d, s = t ++ r' ∧ Rhs cfg c min t dyn d ∧ (slash = true → dyn = true) ∧ a = ⟨z.lhs, ttl, d⟩ ∧ ends r' = true ∧ eol r' = eol r := by
  unfold rhs at h
  obtain ⟨⟨d, r1⟩, h1, h2⟩ := andThen_some.mp h
  simp only [Outcome.ok.injEq, Option.some.injEq, Prod.mk.injEq] at h2
  obtain ⟨rfl, rfl⟩ := h2
  have hs := run_split isAlpha s
  have ends10 : ∀ {r : Bytes}, r.head? = some 10 → ends r = true := by
    intro r hr; cases r with
    | nil => cases hr
    | cons x r => simp at hr; subst hr; rfl
  by_cases ht : (run isAlpha s).1.map low = [116, 120, 116]
  · simp only [ht, beq_self_eq_true, cond_true] at h1
    have hk : Keyword "txt" (run isAlpha s).1 := keyword_sound (by rw [ht]; decide)
    split at h1
    · rename_i x q hq
      cases hc : (isWs x && !slash && !(q.headD 10 == 10)) with
      | false => rw [hc] at h1; simp at h1
      | true =>
        rw [hc] at h1
        simp only [cond_true] at h1
        simp only [Bool.and_eq_true, Bool.not_eq_true', beq_eq_false_iff_ne] at hc
        obtain ⟨⟨hx, hsl⟩, hq10⟩ := hc
        obtain ⟨⟨out, r2⟩, h3, h4⟩ := andThen_some.mp h1
        simp only [Outcome.ok.injEq] at h4
        by_cases ho : outside c
        · simp [ooz_iff R, ho] at h4
        simp only [ooz_iff R, ho, decide_false, cond_false, Option.some.injEq, Prod.mk.injEq] at h4
        obtain ⟨rfl, rfl⟩ := h4
        obtain ⟨t, b, e1, e2, e3, e4, e5⟩ := txt_sound _ h3 (by simp)
        rcases e5 with ⟨rfl, rfl⟩ | ⟨b0, t', o, d1, d2, d3, d4⟩
        · refine ⟨(run isAlpha s).1 ++ (x :: b), r2, false, .txt [], ?_, .txtNone hk ((blank_iff _).mpr ⟨by simp, ?_⟩) ?_ ho, by simp [hsl], rfl, ends10 e3, rfl⟩
          · rw [List.append_assoc, List.cons_append]
            simp only [List.nil_append] at e1
            rw [← e1, ← hq]; exact hs
          · simp only [List.mem_cons, forall_eq_or_imp]; exact ⟨hx, e2⟩
          · cases b with
            | nil =>
              exfalso
              simp only [List.append_nil, List.nil_append] at e1
              subst e1
              cases q with
              | nil => cases e3
              | cons y q => simp at e3 hq10; exact hq10 e3
            | cons => simp
        · simp only [List.nil_append] at d4
          subst d4
          refine ⟨(run isAlpha s).1 ++ (x :: b0) ++ t', b ++ r2, false, .txt out, ?_, .txt hk ((blank_iff _).mpr ⟨by simp, ?_⟩) d3 e4 ho, by simp [hsl], rfl, ends_ws e2 (ends10 e3), eol_ws e2⟩
          · have : (run isAlpha s).1 ++ (x :: b0) ++ t' ++ (b ++ r2) = (run isAlpha s).1 ++ (x :: (b0 ++ t' ++ b ++ r2)) := by simp
            rw [this, ← d2, ← e1, ← hq]; exact hs
          · simp only [List.mem_cons, forall_eq_or_imp]; exact ⟨hx, d1⟩
    · simp at h1
  · simp only [beq_eq_false_iff_ne.mpr ht, cond_false] at h1
    by_cases hty : (run isAlpha s).1.map low = [116, 121, 112, 101]
    · simp only [hty, beq_self_eq_true, cond_true] at h1
      have hk : Keyword "type" (run isAlpha s).1 := keyword_sound (by rw [hty]; decide)
      cases slash with
      | true => simp at h1
      | false =>
        simp only [cond_false] at h1
        obtain ⟨n, t, b1, b2, m, l, b3, u, o, e1, e2, e3, e4, e5, e6, e7, e8, e9, e10, rfl, e12⟩ := generic_sound R h1
        refine ⟨_, r1, false, _, ?_, .generic hk e2 e3 e4 e5 e6 e7 e8 e9 e10, by simp, rfl, ends10 e12, rfl⟩
        have := hs
        rw [e1] at this
        refine this.trans ?_
        simp only [List.append_assoc]
    · simp only [beq_eq_false_iff_ne.mpr hty, cond_false] at h1
      split at h1
      · rename_i ks dyn q hl hw
        cases hsd : (slash && !dyn) with
        | true => rw [hsd] at h1; simp at h1
        | false =>
          rw [hsd] at h1
          simp only [cond_false] at h1
          obtain ⟨⟨vs, r2⟩, h3, h4⟩ := andThen_some.mp h1
          obtain ⟨d', h5, h6⟩ := andThen_some.mp h4
          simp only [Outcome.ok.injEq, Option.some.injEq, Prod.mk.injEq] at h6
          obtain ⟨rfl, rfl⟩ := h6
          have hks : ks ≠ [] := by
            rintro rfl
            unfold layout at hl
            split at hl <;> simp at hl
          obtain ⟨t, ws', e1, e2, e3, e4⟩ := fields_sound R hks h3
          obtain ⟨k, hk, hd⟩ := data_sound R hl e3 h5
          obtain ⟨b, b1, b2, _⟩ := ws_sound hw
          refine ⟨(run isAlpha s).1 ++ b ++ t, r2, dyn, d', ?_, .fixed (keyword_sound hk) b1 e2 hd, ?_, rfl, e4, rfl⟩
          · rw [List.append_assoc, List.append_assoc, ← e1, ← b2]; exact hs
          · rintro rfl; simpa using hsd
      · simp at h1

theorem rhs_complete {cfg : Cfg} {z : Z} {c : Ctx} (R : Rel z c) {ttl min : UInt32} {slash : Bool} {t r q : Bytes} {dyn : Bool} {d : Rdata}
    (h : Rhs cfg c min t dyn d) (hs : slash = true → dyn = true) (hr : eol r = some q) :
    ∃ r', rhs cfg z ttl min slash (t ++ r) = .ok (some (⟨z.lhs, ttl, d⟩, r')) ∧ eol r' = some q := by
  obtain ⟨be, hbe, hreq⟩ := eol_some.mp hr
  have h10 : eol (10 :: q) = some q := rfl
  cases h with
  | fixed hk hb hj hd =>
    rename_i k w b fs s
    obtain ⟨ks, vs, h1, h2, h3⟩ := data_complete R hd
    obtain ⟨e1, e2⟩ := keyword_complete hk (r := b ++ (s ++ r)) (blank_alpha hb)
    obtain ⟨x, s', hx, hx1, _⟩ := joined_head hj h2
    refine ⟨r, ?_, hr⟩
    unfold rhs
    rw [show w ++ b ++ s ++ r = w ++ (b ++ (s ++ r)) by simp, e1]
    simp only [e2]
    have n1 : (str k == [116, 120, 116]) = false := by cases hd <;> decide
    have n2 : (str k == [116, 121, 112, 101]) = false := by cases hd <;> decide
    rw [n1, n2]
    simp only [cond_false]
    rw [h1, ws_complete hb (by rw [hx]; intro y hy; simp at hy; subst hy; exact hx1)]
    have : (slash && !dyn) = false := by
      cases slash
      · rfl
      · rw [hs rfl]; rfl
    simp only [this, cond_false]
    rw [fields_complete R hj h2 (eol_ends hr)]
    simp only [andThen_ok]
    rw [h3]
    rfl
  | txt hk hb hi ho hout =>
    rename_i w b s o
    obtain ⟨e1, e2⟩ := keyword_complete hk (r := b ++ (s ++ r)) (blank_alpha hb)
    refine ⟨10 :: q, ?_, h10⟩
    unfold rhs
    rw [show w ++ b ++ s ++ r = w ++ (b ++ (s ++ r)) by simp, e1]
    simp only [e2]
    have n1 : (str "txt" == [116, 120, 116]) = true := by decide
    rw [n1]
    simp only [cond_true]
    obtain ⟨b0, b1⟩ := (blank_iff b).mp hb
    have hsl : slash = false := by cases slash; rfl; cases hs rfl
    obtain ⟨x, s', hx, hx1, hx2, _⟩ := items_first hi
    cases b with
    | nil => exact absurd rfl b0
    | cons y b =>
      simp only [List.cons_append, b1 y (by simp), hsl, Bool.not_false, Bool.and_self, Bool.true_and]
      have hb' : ∀ c ∈ b, isWs c = true := fun c hc => b1 c (by simp [hc])
      have hh : ((b ++ (s ++ r)).headD 10 == 10) = false := by
        rw [beq_eq_false_iff_ne]
        cases b with
        | nil => rw [hx]; exact hx2
        | cons v b => intro hc; simp at hc; subst hc; have := hb' 10 (by simp); cases this
      simp only [hh, Bool.not_false, cond_true]
      rw [hreq, show (b ++ (s ++ (be ++ 10 :: q))).length + 1 = (s ++ (be ++ 10 :: q)).length + 1 + b.length by simp; omega, txtLoop_blank cfg b hb',
        ← List.append_assoc s, txt_complete hi _ hbe (by simp; omega) (by simpa using ho)]
      simp only [andThen_ok, ooz_iff R, hout, decide_false, cond_false, List.nil_append]
  | txtNone hk hb h2 hout =>
    rename_i w b
    obtain ⟨e1, e2⟩ := keyword_complete hk (r := b ++ r) (blank_alpha hb)
    refine ⟨10 :: q, ?_, h10⟩
    unfold rhs
    rw [List.append_assoc, e1]
    simp only [e2]
    have n1 : (str "txt" == [116, 120, 116]) = true := by decide
    rw [n1]
    simp only [cond_true]
    obtain ⟨b0, b1⟩ := (blank_iff b).mp hb
    have hsl : slash = false := by cases slash; rfl; cases hs rfl
    match b, h2 with
    | y :: v :: b, _ =>
      have hv := b1 v (by simp)
      simp only [List.cons_append, b1 y (by simp), hsl, Bool.not_false, Bool.and_self, Bool.true_and]
      have hb' : ∀ c ∈ v :: b ++ be, isWs c = true := by
        intro c hc
        simp only [List.mem_append] at hc
        rcases hc with hc | hc
        · exact b1 c (by simp at hc ⊢; exact .inr hc)
        · exact hbe c hc
      have hh : ((v :: (b ++ r)).headD 10 == 10) = false := by
        rw [beq_eq_false_iff_ne]
        intro hc; simp at hc; subst hc; cases hv
      simp only [hh, Bool.not_false, cond_true]
      have e : v :: (b ++ r) = (v :: b ++ be) ++ 10 :: q := by rw [hreq]; simp
      rw [e, show ((v :: b ++ be) ++ 10 :: q).length + 1 = (q.length + 1) + 1 + (v :: b ++ be).length by simp; omega, txtLoop_blank cfg _ hb', txtLoop]
      simp [isWs, ooz_iff R, hout]
  | generic hk hn hb1 hb2 hm hb3 hx hl hl0 hout =>
    rename_i w n t b1 b2 m l b3 s o
    have hnd : ∀ c, (n ++ b1 ++ [92, 35] ++ b2 ++ m ++ b3 ++ s ++ (be ++ 10 :: q)).head? = some c → isAlpha c = false := by
      obtain ⟨⟨n1, n2⟩, _⟩ := (num_iff _ _).mp hn
      intro c hc
      cases n with
      | nil => exact absurd rfl n1
      | cons x n => simp at hc; subst hc; exact digit_not_alpha (n2 x (by simp))
    obtain ⟨e1, e2⟩ := keyword_complete hk hnd
    refine ⟨10 :: q, ?_, h10⟩
    unfold rhs
    rw [hreq, show w ++ n ++ b1 ++ [92, 35] ++ b2 ++ m ++ b3 ++ s ++ (be ++ 10 :: q) = w ++ (n ++ b1 ++ [92, 35] ++ b2 ++ m ++ b3 ++ s ++ (be ++ 10 :: q)) by simp, e1]
    simp only [e2]
    have n1 : (str "type" == [116, 120, 116]) = false := by decide
    have n2 : (str "type" == [116, 121, 112, 101]) = true := by decide
    rw [n1, n2]
    have hsl : slash = false := by cases slash; rfl; cases hs rfl
    simp only [cond_true, cond_false, hsl]
    rw [generic_complete R hn hb1 hb2 hm hb3 hx hl hl0 hout hbe]
    rfl

/-- A right side begins with a word that is not the class. -/
theorem rhs_first {cfg : Cfg} {c : Ctx} {min : UInt32} {t : Bytes} {dyn : Bool} {d : Rdata} (h : Rhs cfg c min t dyn d) :
    ∃ x w' u k, t = x :: w' ++ u ∧ isAlpha x = true ∧ Keyword k (x :: w') ∧ str k ≠ str "in" ∧ (∀ c, u.head? = some c → isAlpha c = false) ∧ u ≠ [] := by
  cases h with
  | fixed hk hb hj hd =>
    rename_i k w b fs s
    have hne : str k ≠ [] ∧ str k ≠ str "in" := by cases hd <;> decide
    obtain ⟨x, w', rfl, hx⟩ := keyword_ne hk hne.1
    refine ⟨x, w', b ++ s, k, by simp, hx, hk, hne.2, blank_alpha hb, ?_⟩
    have := hb.1
    cases b <;> simp_all
  | txt hk hb h1 h2 h3 =>
    rename_i w b s o
    obtain ⟨x, w', rfl, hx⟩ := keyword_ne hk (by decide)
    refine ⟨x, w', b ++ s, "txt", by simp, hx, hk, by decide, blank_alpha hb, ?_⟩
    have := hb.1
    cases b <;> simp_all
  | txtNone hk hb h1 h2 =>
    rename_i w b
    obtain ⟨x, w', rfl, hx⟩ := keyword_ne hk (by decide)
    refine ⟨x, w', b, "txt", rfl, hx, hk, by decide, ?_, hb.1⟩
    have := blank_alpha (r := []) hb
    simpa using this
  | generic hk hn h1 h2 h3 h4 h5 h6 h7 h8 =>
    rename_i w n t b1 b2 m l b3 s o
    obtain ⟨x, w', rfl, hx⟩ := keyword_ne hk (by decide)
    obtain ⟨⟨n1, n2⟩, _⟩ := (num_iff _ _).mp hn
    refine ⟨x, w', n ++ b1 ++ [92, 35] ++ b2 ++ m ++ b3 ++ s, "type", by simp, hx, hk, by decide, ?_, by simp⟩
    intro c hc
    cases n with
    | nil => exact absurd rfl n1
    | cons x n => simp at hc; subst hc; exact digit_not_alpha (n2 x (by simp))

/-! ### TTL and class -/

theorem shr_one (v : UInt32) : (v >>> 1).toNat = v.toNat / 2 := by
  rw [UInt32.toNat_shiftRight]
  simp [Nat.shiftRight_eq_div_pow]

theorem ttlDyn_sound {s r : Bytes} {v m : UInt32} {sl : Bool} (h : ttlDyn s = .ok (some (v, m, sl, r))) :
    ∃ t, s = t ++ r ∧ TtlMin t v m sl ∧ blank r = true := by
  unfold ttlDyn at h
  cases h1 : ttlTok s with
  | none => rw [h1] at h; simp at h
  | some x =>
    obtain ⟨t, q⟩ := x
    rw [h1] at h
    simp only at h
    obtain ⟨v', h2, h3⟩ := andThen_some.mp h
    obtain ⟨e1, e2⟩ := ttlTok_sound h1 v' h2
    split at h3
    · rename_i q'
      cases h4 : ttlTok q' with
      | none => rw [h4] at h3; simp at h3
      | some x =>
        obtain ⟨u, q2⟩ := x
        rw [h4] at h3
        simp only at h3
        cases hb : blank q2 with
        | false => rw [hb] at h3; simp at h3
        | true =>
          rw [hb] at h3
          simp only [cond_true] at h3
          obtain ⟨m', h5, h6⟩ := andThen_some.mp h3
          simp only [Outcome.ok.injEq, Option.some.injEq, Prod.mk.injEq] at h6
          obtain ⟨rfl, rfl, rfl, rfl⟩ := h6
          obtain ⟨f1, f2⟩ := ttlTok_sound h4 m' h5
          refine ⟨t ++ 47 :: u, by rw [e1, f1]; simp, .two e2 f2 ?_, hb⟩
          by_cases hm : m' = 0
          · subst hm; exact shr_one _
          · have h0 : m'.toNat ≠ 0 := fun hc => hm (UInt32.toNat_inj.mp (by simpa using hc))
            have : (m' != 0) = true := by simpa using hm
            rw [this, if_neg h0]; rfl
    · simp only [Outcome.ok.injEq] at h3
      cases hb : blank q with
      | false => rw [hb] at h3; simp at h3
      | true =>
        rw [hb] at h3
        simp only [cond_true, Option.some.injEq, Prod.mk.injEq] at h3
        obtain ⟨rfl, rfl, rfl, rfl⟩ := h3
        exact ⟨t, e1, .one e2 (shr_one _), hb⟩

theorem ttlDyn_complete {t r : Bytes} {v m : UInt32} {sl : Bool} (h : TtlMin t v m sl) (hr : blank r = true) :
    ttlDyn (t ++ r) = .ok (some (v, m, sl, r)) := by
  have hend := ends_of_blank' hr
  have hstop : ∀ c, r.head? = some c → isDigit c = false ∧ isMult c = false := fun c hc =>
    ⟨ends_stop hend hc _ (by decide +kernel), ends_stop hend hc _ (by decide +kernel)⟩
  cases h with
  | one ht hm =>
    obtain ⟨e1, e2⟩ := ttl_complete (r := r) ht hstop
    unfold ttlDyn
    rw [e1]
    simp only
    rw [e2]
    simp only [andThen_ok]
    have hm' : m = v >>> 1 := UInt32.toNat_inj.mp (by rw [hm, shr_one])
    split
    · simp [blank, isWs] at hr
    · rw [hr, hm']; rfl
  | two ht hu hm =>
    rename_i t u w
    obtain ⟨f1, f2⟩ := ttl_complete (r := r) hu hstop
    obtain ⟨e1, e2⟩ := ttl_complete (r := 47 :: (u ++ r)) ht (by intro c hc; simp at hc; subst hc; decide)
    unfold ttlDyn
    rw [show t ++ 47 :: u ++ r = t ++ 47 :: (u ++ r) by simp, e1]
    simp only
    rw [e2]
    simp only [andThen_ok]
    rw [f1]
    simp only [hr, cond_true]
    rw [f2]
    simp only [andThen_ok]
    have hm' : m = bif w != 0 then w else v >>> 1 := by
      apply UInt32.toNat_inj.mp
      rw [hm]
      by_cases hw : w = 0
      · subst hw; exact (shr_one _).symm
      · have h0 : w.toNat ≠ 0 := fun hc => hw (UInt32.toNat_inj.mp (by simpa using hc))
        have : (w != 0) = true := by simpa using hw
        rw [this, if_neg h0]; rfl
    rw [hm']

theorem ttlMin_first {t : Bytes} {v m : UInt32} {sl : Bool} (h : TtlMin t v m sl) : ∃ x t', t = x :: t' ∧ isDigit x = true := by
  have hT : ∀ {t v}, Ttl t v → ∃ x t', t = x :: t' ∧ isDigit x = true := by
    intro t v h
    have hN : ∀ {t v}, Num t v → ∃ x t', t = x :: t' ∧ isDigit x = true := by
      intro t v h
      obtain ⟨⟨n1, n2⟩, _⟩ := (num_iff _ _).mp h
      cases t with
      | nil => exact absurd rfl n1
      | cons x t => exact ⟨x, t, rfl, n2 x (by simp)⟩
    cases h with
    | plain h => exact hN h
    | unit h _ _ => obtain ⟨x, t', rfl, hx⟩ := hN h; exact ⟨x, _, rfl, hx⟩
  cases h with
  | one h _ => exact hT h
  | two h _ _ => obtain ⟨x, t', rfl, hx⟩ := hT h; exact ⟨x, _, rfl, hx⟩

theorem class_sound {s r : Bytes} (h : class? s = some r) : ∃ i b, Keyword "in" i ∧ Blank b ∧ s = i ++ b ++ r := by
  unfold class? at h
  by_cases hk : (run isAlpha s).1.map low = [105, 110]
  · simp only [hk, beq_self_eq_true, cond_true] at h
    obtain ⟨b, b1, b2, _⟩ := ws_sound h
    refine ⟨(run isAlpha s).1, b, keyword_sound (by rw [hk]; decide), b1, ?_⟩
    rw [List.append_assoc, ← b2]; exact run_split isAlpha s
  · simp only [beq_eq_false_iff_ne.mpr hk, cond_false] at h
    cases h

theorem class_complete {i b r : Bytes} (hk : Keyword "in" i) (hb : Blank b) (hr : ∀ c, r.head? = some c → isWs c = false) :
    class? (i ++ (b ++ r)) = some r := by
  obtain ⟨e1, e2⟩ := keyword_complete hk (r := b ++ r) (blank_alpha hb)
  unfold class?
  rw [e1]
  simp only [e2]
  have : (str "in" == [105, 110]) = true := by decide
  rw [this]
  exact ws_complete hb hr

theorem class_none {cfg : Cfg} {c : Ctx} {min : UInt32} {t r : Bytes} {dyn : Bool} {d : Rdata} (h : Rhs cfg c min t dyn d) : class? (t ++ r) = none := by
  obtain ⟨x, w', u, k, rfl, hx, hk, hne, hu, hu0⟩ := rhs_first h
  obtain ⟨e1, e2⟩ := keyword_complete hk (r := u ++ r) (by
    intro c hc
    cases u with
    | nil => exact absurd rfl hu0
    | cons y u => exact hu c (by simpa using hc))
  unfold class?
  rw [List.append_assoc, e1]
  simp only [e2]
  have : (str k == [105, 110]) = false := by
    rw [beq_eq_false_iff_ne]
    have : str "in" = [105, 110] := by decide
    rw [← this]; exact hne
  rw [this]
  rfl

theorem rhs_head {cfg : Cfg} {c : Ctx} {min : UInt32} {t r : Bytes} {dyn : Bool} {d : Rdata} (h : Rhs cfg c min t dyn d) :
    ∃ x t', t ++ r = x :: t' ∧ isAlpha x = true := by
  obtain ⟨x, w', u, k, rfl, hx, _⟩ := rhs_first h
  exact ⟨x, _, rfl, hx⟩

theorem owner_lhs {z : Z} {c : Ctx} (R : Rel z c) : ∃ o, z.lhs = encode o true ∧ (if outside c then o = c.owner else c.owner = o ++ c.zone) := by
  have := R.lhs
  by_cases h : outside c
  · rw [if_pos h] at this; exact ⟨c.owner, this.2, by rw [if_pos h]⟩
  · rw [if_neg h] at this
    obtain ⟨_, o, h1, h2⟩ := this
    exact ⟨o, h2, by rw [if_neg h]; exact h1⟩

theorem record_sound {cfg : Cfg} {z : Z} {c : Ctx} (R : Rel z c) {s r : Bytes} {a : Add} (h : record cfg z s = .ok (some (a, r))) :
    ∃ t r', s = t ++ r' ∧ Record cfg c t a ∧ ends r' = true ∧ eol r' = eol r := by
  obtain ⟨o, ho, hc⟩ := owner_lhs R
  have key : ∀ {p s' : Bytes} {v m : UInt32} {sl : Bool}, Prefix c p v m sl → rhs cfg z v m sl s' = .ok (some (a, r)) → s = p ++ s' →
      ∃ t r', s = t ++ r' ∧ Record cfg c t a ∧ ends r' = true ∧ eol r' = eol r := by
    intro p s' v m sl hp hr hs
    obtain ⟨t, r', dyn, d, e1, e2, e3, e4, e5, e6⟩ := rhs_sound R hr
    refine ⟨p ++ t, r', by rw [hs, e1]; simp, ?_, e5, e6⟩
    rw [e4, ho]
    exact .mk hp e2 e3 hc
  unfold record at h
  cases hd : isDigit (s.headD 0) with
  | true =>
    rw [hd] at h
    simp only [cond_true] at h
    obtain ⟨⟨v, m, sl, q⟩, h1, h2⟩ := andThen_some.mp h
    simp only at h2
    obtain ⟨t, e1, e2, e3⟩ := ttlDyn_sound h1
    obtain ⟨b, b1, b2, _⟩ := blank_sound e3
    cases hcl : class? (run isWs q).2 with
    | none =>
      rw [hcl] at h2
      exact key (.ttl e2 b1) h2 (by rw [e1, List.append_assoc]; exact congrArg _ b2)
    | some q' =>
      rw [hcl] at h2
      obtain ⟨i, b', c1, c2, c3⟩ := class_sound hcl
      refine key (.ttlCls e2 b1 c1 c2) h2 ?_
      rw [e1]
      rw [c3] at b2
      rw [b2]
      simp
  | false =>
    rw [hd] at h
    simp only [cond_false] at h
    cases hcl : class? s with
    | some q =>
      obtain ⟨i, b, c1, c2, c3⟩ := class_sound hcl
      rw [hcl] at h
      simp only at h
      cases hd2 : isDigit (q.headD 0) with
      | true =>
        rw [hd2] at h
        simp only [cond_true] at h
        obtain ⟨⟨v, m, sl, q'⟩, h1, h2⟩ := andThen_some.mp h
        simp only at h2
        obtain ⟨t, e1, e2, e3⟩ := ttlDyn_sound h1
        obtain ⟨b', b1, b2, _⟩ := blank_sound e3
        refine key (.clsTtl c1 c2 e2 b1) h2 ?_
        rw [c3, e1]
        simp only [List.append_assoc]
        rw [← b2]
      | false =>
        rw [hd2] at h
        simp only [cond_false] at h
        exact key (.cls (m := z.defTtl >>> 1) c1 c2 (by rw [shr_one, R.ttl])) (by rw [← R.ttl]; exact h) c3
    | none =>
      rw [hcl] at h
      simp only at h
      exact key (.none (m := z.defTtl >>> 1) (by rw [shr_one, R.ttl])) (by rw [← R.ttl]; exact h) rfl

theorem prefix_first {c : Ctx} {p : Bytes} {v m : UInt32} {sl : Bool} (h : Prefix c p v m sl) : p = [] ∨ ∃ x p', p = x :: p' ∧ (isDigit x = true ∨ isAlpha x = true) := by
  cases h with
  | none _ => exact .inl rfl
  | cls hk _ _ => obtain ⟨x, w', rfl, hx⟩ := keyword_ne hk (by decide); exact .inr ⟨x, _, rfl, .inr hx⟩
  | ttl ht _ => obtain ⟨x, w', rfl, hx⟩ := ttlMin_first ht; exact .inr ⟨x, _, rfl, .inl hx⟩
  | ttlCls ht _ _ _ => obtain ⟨x, w', rfl, hx⟩ := ttlMin_first ht; exact .inr ⟨x, _, rfl, .inl hx⟩
  | clsTtl hk _ _ _ => obtain ⟨x, w', rfl, hx⟩ := keyword_ne hk (by decide); exact .inr ⟨x, _, rfl, .inr hx⟩

theorem record_first {cfg : Cfg} {c : Ctx} {t : Bytes} {a : Add} (h : Record cfg c t a) : ∃ x t', t = x :: t' ∧ (isDigit x = true ∨ isAlpha x = true) := by
  cases h with
  | mk hp hr _ _ =>
    rcases prefix_first hp with rfl | ⟨x, p', rfl, hx⟩
    · obtain ⟨x, t', e, hx⟩ := rhs_head (r := []) hr
      rw [List.append_nil] at e
      exact ⟨x, t', by simpa using e, .inr hx⟩
    · exact ⟨x, _, rfl, hx⟩

theorem encode_lhs_inj {a b : List Bytes} (ha : WF a) (hb : WF b) (h : encode a true = encode b true) : a = b := (encode_inj ha hb h).1

theorem record_complete {cfg : Cfg} {z : Z} {c : Ctx} (R : Rel z c) {t r q : Bytes} {a : Add} (h : Record cfg c t a) (hr : eol r = some q) :
    ∃ r', record cfg z (t ++ r) = .ok (some (a, r')) ∧ eol r' = some q := by
  cases h with
  | mk hp hrhs hsl hown =>
    rename_i p v m sl s dyn d o
    have hlhs : encode o true = z.lhs := by
      obtain ⟨o', ho', hc'⟩ := owner_lhs R
      rw [ho']
      by_cases hout : outside c
      · rw [if_pos hout] at hown hc'; rw [hown, hc']
      · rw [if_neg hout] at hown hc'
        rw [hown] at hc'
        rw [List.append_cancel_right hc']
    rw [hlhs]
    obtain ⟨x, t', hx, hxa⟩ := rhs_head (r := r) hrhs
    have hws : ∀ c, (s ++ r).head? = some c → isWs c = false := by
      rw [hx]; intro c hc; simp at hc; subst hc; exact alpha_not_ws hxa
    have hxd : isDigit ((s ++ r).headD 0) = false := by rw [hx]; exact alpha_not_digit hxa
    obtain ⟨r', g1, g2⟩ := rhs_complete (ttl := v) R hrhs hsl hr
    refine ⟨r', ?_, g2⟩
    unfold record
    cases hp with
    | none hm =>
      have hm' : m = z.defTtl >>> 1 := UInt32.toNat_inj.mp (by rw [hm, shr_one, R.ttl])
      rw [List.nil_append, hxd, class_none hrhs]
      simp only [cond_false]
      rw [← hm', R.ttl]; exact g1
    | cls hk hb hm =>
      rename_i i b
      have hm' : m = z.defTtl >>> 1 := UInt32.toNat_inj.mp (by rw [hm, shr_one, R.ttl])
      obtain ⟨y, w', hy, hya⟩ := keyword_ne hk (by decide)
      have e : i ++ b ++ s ++ r = i ++ (b ++ (s ++ r)) := by simp
      have : isDigit ((i ++ b ++ s ++ r).headD 0) = false := by rw [hy]; exact alpha_not_digit hya
      rw [this, e, class_complete hk hb hws]
      simp only [cond_false, hxd]
      rw [← hm', R.ttl]; exact g1
    | ttl ht hb =>
      rename_i t b
      obtain ⟨y, w', hy, hya⟩ := ttlMin_first ht
      have e : t ++ b ++ s ++ r = t ++ (b ++ (s ++ r)) := by simp
      have : isDigit ((t ++ b ++ s ++ r).headD 0) = true := by rw [hy]; exact hya
      rw [this, e, ttlDyn_complete ht (blank_append hb)]
      simp only [cond_true, andThen_ok]
      rw [run_blank hb hws]
      simp only
      rw [class_none hrhs]
      exact g1
    | ttlCls ht hb hk hb' =>
      rename_i t b i b'
      obtain ⟨y, w', hy, hya⟩ := ttlMin_first ht
      have e : t ++ b ++ i ++ b' ++ s ++ r = t ++ (b ++ (i ++ (b' ++ (s ++ r)))) := by simp
      have : isDigit ((t ++ b ++ i ++ b' ++ s ++ r).headD 0) = true := by rw [hy]; exact hya
      rw [this, e, ttlDyn_complete ht (blank_append hb)]
      simp only [cond_true, andThen_ok]
      rw [run_blank hb (alpha_first hk (by decide))]
      simp only
      rw [class_complete hk hb' hws]
      exact g1
    | clsTtl hk hb ht hb' =>
      rename_i i b t b'
      obtain ⟨y, w', hy, hya⟩ := keyword_ne hk (by decide)
      obtain ⟨y2, w2, hy2, hya2⟩ := ttlMin_first ht
      have e : i ++ b ++ t ++ b' ++ s ++ r = i ++ (b ++ (t ++ (b' ++ (s ++ r)))) := by simp
      have : isDigit ((i ++ b ++ t ++ b' ++ s ++ r).headD 0) = false := by rw [hy]; exact alpha_not_digit hya
      rw [this, e, class_complete hk hb (by rw [hy2]; intro c hc; simp at hc; subst hc; exact digit_not_ws hya2)]
      have h2 : isDigit ((t ++ (b' ++ (s ++ r))).headD 0) = true := by rw [hy2]; exact hya2
      simp only [cond_false, h2, cond_true]
      rw [ttlDyn_complete ht (blank_append hb')]
      simp only [andThen_ok]
      rw [run_blank hb' hws]
      exact g1

end Gdnsd.Zscan
