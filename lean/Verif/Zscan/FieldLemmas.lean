/-
Lemmas on the fields of records.
-/
import Verif.Zscan.TokLemmas
namespace Gdnsd.Zscan
open ZscanSpec DnameSpec LookupSpec EncSpec Dname Load

/-- What a field of a kind means. -/
def F (cfg : Cfg) (c : Ctx) : Kind → Bytes → Val → Prop
  | .num, w, v => ∃ n, v = .num n ∧ Num w n
  | .ttl, w, v => ∃ n, v = .num n ∧ Ttl w n
  | .name, w, v => ∃ d, v = .bytes d ∧ Name c w d
  | .email, w, v => ∃ d, v = .bytes d ∧ Name c w d
  | .ip4, w, v => ∃ b, v = .bytes b ∧ Ip4 cfg w b
  | .ip6, w, v => ∃ b, v = .bytes b ∧ Ip6 cfg w b
  | .item, w, v => ∃ b, v = .bytes b ∧ Str w b
  | .huge, w, v => ∃ b, v = .bytes b ∧ ∃ t, Word w t ∧ DnameSpec.Unesc t b ∧ b.length ≤ 16000
  | .prop, w, v => v = .bytes w ∧ Tag w
  | .plug, w, v => ∃ b, v = .bytes b ∧ Plug w b

theorem omap_some {α β : Type} {x : Outcome (Option α)} {f : α → β} {b : β} :
    (x.map fun o => o.map f) = .ok (some b) ↔ ∃ a, x = .ok (some a) ∧ f a = b := by
  cases x with
  | ub => simp
  | ok o => cases o <;> simp

theorem name_field {z : Z} {c : Ctx} (R : Rel z c) {t : Bytes} {x : Bytes × Bool} (h : dnameSet z t false = .ok (some x)) :
    t ≠ [] ∧ ∃ n, Resolves c t n ∧ x = (encode n true, false) := by
  have ht : t ≠ [] := by
    rintro rfl
    simp [dnameSet] at h
  refine ⟨ht, ?_⟩
  rcases dnameSet_rhs z c R t ht with ⟨n, h1, h2⟩ | ⟨_, h2⟩
  · rw [h] at h2
    simp only [Outcome.ok.injEq, Option.some.injEq] at h2
    exact ⟨n, h1, h2⟩
  · rw [h] at h2; simp at h2

theorem name_field' {z : Z} {c : Ctx} (R : Rel z c) {t : Bytes} {n : List Bytes} (ht : t ≠ []) (h : Resolves c t n) :
    dnameSet z t false = .ok (some (encode n true, false)) := by
  rcases dnameSet_rhs z c R t ht with ⟨m, h1, h2⟩ | ⟨h1, _⟩
  · rw [h2, resolves_unique h h1]
  · exact absurd ⟨n, h⟩ h1

theorem isPlug_iff (c : UInt8) : isPlug c = true ↔ c ∉ special ∧ c ≠ 33 := by
  simp [isPlug, isLit_iff]

theorem field_sound {cfg : Cfg} {z : Z} {c : Ctx} (R : Rel z c) {k : Kind} {s t r : Bytes} {v : Val}
    (h : tok k s = some (t, r)) (ha : act cfg z k t = .ok (some v)) : ∃ w, s = w ++ r ∧ F cfg c k w v := by
  cases k with
  | num =>
    obtain ⟨e1, e2, e3, _⟩ := run1_sound h
    simp only [act, Outcome.ok.injEq, Option.map_eq_some_iff] at ha
    obtain ⟨n, hn, rfl⟩ := ha
    exact ⟨t, e1, n, rfl, (num_iff _ _).mpr ⟨⟨e2, e3⟩, hn⟩⟩
  | ttl =>
    obtain ⟨n, hn, rfl⟩ := omap_some.mp ha
    obtain ⟨e1, e2⟩ := ttlTok_sound h n hn
    exact ⟨t, e1, n, rfl, e2⟩
  | name =>
    obtain ⟨x, hx, rfl⟩ := omap_some.mp ha
    obtain ⟨w, e1, e2, e3⟩ := nameTok_sound h
    obtain ⟨ht, n, hn, rfl⟩ := name_field R hx
    exact ⟨w, e1, _, rfl, e3, t, n, ht, e2, hn, rfl⟩
  | email =>
    obtain ⟨x, hx, rfl⟩ := omap_some.mp ha
    obtain ⟨w, e1, e2, e3⟩ := nameTok_sound h
    obtain ⟨ht, n, hn, rfl⟩ := name_field R hx
    exact ⟨w, e1, _, rfl, e3, t, n, ht, e2, hn, rfl⟩
  | ip4 =>
    obtain ⟨e1, e2, e3, _⟩ := run1_sound h
    simp only [act, Outcome.ok.injEq] at ha
    by_cases hl : 15 < t.length
    · simp [hl] at ha
    · simp only [hl, decide_false, cond_false, Option.map_eq_some_iff] at ha
      obtain ⟨b, hb, rfl⟩ := ha
      refine ⟨t, e1, b, rfl, e2, ?_, by omega, hb⟩
      intro c hc
      have := e3 c hc
      simpa [isDigit_iff] using this
  | ip6 =>
    obtain ⟨e1, e2, e3, _⟩ := run1_sound h
    simp only [act, Outcome.ok.injEq] at ha
    by_cases hl : 46 < t.length
    · simp [hl] at ha
    · simp only [hl, decide_false, cond_false, Option.map_eq_some_iff] at ha
      obtain ⟨b, hb, rfl⟩ := ha
      refine ⟨t, e1, b, rfl, e2, ?_, by omega, hb⟩
      intro c hc
      have := e3 c hc
      simpa [isHex_iff, or_assoc] using this
  | item =>
    obtain ⟨x, hx, rfl⟩ := omap_some.mp ha
    obtain ⟨w, e1, e2, _⟩ := word_sound h
    obtain ⟨o, s', h1, h2, h3, h4⟩ := (addTok_some _ _ _ _ _).mp hx
    rcases h4 with ⟨h4, h5⟩ | ⟨_, _, h4, _⟩
    · exact ⟨w, e1, x, rfl, t, o, e2, h1, h4, by rw [h2, h5]; rfl⟩
    · cases h4
  | huge =>
    obtain ⟨x, hx, rfl⟩ := omap_some.mp ha
    obtain ⟨w, e1, e2, _⟩ := word_sound h
    unfold hugeTok at hx
    obtain ⟨o, h1, h2⟩ := andThen_some.mp hx
    by_cases hl : 16000 < o.length
    · simp [hl] at h2
    · simp only [hl, decide_false, cond_false, Outcome.ok.injEq, Option.some.injEq] at h2
      subst h2
      exact ⟨w, e1, o, rfl, t, e2, (unesc_iff' _ _).mp h1, by omega⟩
  | prop =>
    obtain ⟨e1, e2, e3, _⟩ := run1_sound h
    simp only [act, Outcome.ok.injEq] at ha
    by_cases hl : 255 < t.length
    · simp [hl] at ha
    · simp only [hl, decide_false, cond_false, Option.some.injEq] at ha
      subst ha
      refine ⟨t, e1, rfl, e2, ?_, by omega⟩
      intro c hc
      have := e3 c hc
      simpa [isDigit_iff, isAlpha_iff] using this
  | plug =>
    simp only [act, Outcome.ok.injEq] at ha
    by_cases hl : 255 < t.length
    · simp [hl] at ha
    · simp only [hl, decide_false, cond_false, Option.some.injEq] at ha
      subst ha
      have hm : ∀ {u : Bytes}, Units (fun c => isPlug c = true) u → Units (fun c => c ∉ special ∧ c ≠ 33) u :=
        fun hu => hu.mono fun c hc => (isPlug_iff c).mp hc
      unfold tok plugTok at h
      simp only [Option.bind_eq_some_iff] at h
      obtain ⟨⟨a, q⟩, h1, h2⟩ := h
      obtain ⟨e1, e2, e3, _⟩ := units1_sound h1
      simp only at h2
      split at h2
      · rename_i q'
        simp only [Option.map_eq_some_iff, Prod.mk.injEq] at h2
        obtain ⟨⟨b, q''⟩, h3, rfl, rfl⟩ := h2
        obtain ⟨d1, d2, d3, _⟩ := units1_sound h3
        refine ⟨_, ?_, _, rfl, by omega, rfl, a, e2, hm e3, .inr ⟨b, d2, hm d3, rfl⟩⟩
        rw [e1, d1]; simp
      · simp only [Option.some.injEq, Prod.mk.injEq] at h2
        obtain ⟨rfl, rfl⟩ := h2
        exact ⟨_, e1, _, rfl, by omega, rfl, a, e2, hm e3, .inl rfl⟩

theorem field_complete {cfg : Cfg} {z : Z} {c : Ctx} (R : Rel z c) {k : Kind} {w r : Bytes} {v : Val}
    (h : F cfg c k w v) (hr : ends r = true) : ∃ t, tok k (w ++ r) = some (t, r) ∧ act cfg z k t = .ok (some v) := by
  cases k with
  | num =>
    obtain ⟨n, rfl, hn⟩ := h
    obtain ⟨⟨e1, e2⟩, e3⟩ := (num_iff _ _).mp hn
    exact ⟨w, run1_complete e1 e2 fun c hc => ends_stop hr hc _ (by decide +kernel), by simp [act, e3]⟩
  | ttl =>
    obtain ⟨n, rfl, hn⟩ := h
    obtain ⟨e1, e2⟩ := ttl_complete (r := r) hn fun c hc => ⟨ends_stop hr hc _ (by decide +kernel), ends_stop hr hc _ (by decide +kernel)⟩
    exact ⟨w, e1, by simp [act, e2]⟩
  | name =>
    obtain ⟨d, rfl, h36, t, n, ht, hw, hres, rfl⟩ := h
    exact ⟨t, nameTok_complete hw h36 hr, by simp [act, name_field' R ht hres]⟩
  | email =>
    obtain ⟨d, rfl, h36, t, n, ht, hw, hres, rfl⟩ := h
    exact ⟨t, nameTok_complete hw h36 hr, by simp [act, name_field' R ht hres]⟩
  | ip4 =>
    obtain ⟨b, rfl, h1, h2, h3, h4⟩ := h
    refine ⟨w, run1_complete (ok := fun c => isDigit c || c == 46) h1 ?_ fun c hc => ends_stop hr hc (fun c => isDigit c || c == 46) (by decide +kernel), ?_⟩
    · intro c hc; have := h2 c hc; simpa [isDigit_iff] using this
    · have : ¬ 15 < w.length := by omega
      simp [act, this, h4]
  | ip6 =>
    obtain ⟨b, rfl, h1, h2, h3, h4⟩ := h
    refine ⟨w, run1_complete (ok := fun c => isHex c || c == 58 || c == 46) h1 ?_ fun c hc => ends_stop hr hc (fun c => isHex c || c == 58 || c == 46) (by decide +kernel), ?_⟩
    · intro c hc; have := h2 c hc; simpa [isHex_iff, or_assoc] using this
    · have : ¬ 46 < w.length := by omega
      simp [act, this, h4]
  | item =>
    obtain ⟨b, rfl, t, o, h1, h2, h3, rfl⟩ := h
    refine ⟨t, word_complete h1 (.inr (ends_word hr)), ?_⟩
    simp only [act]
    rw [omap_some]
    exact ⟨_, (addTok_some _ _ _ _ _).mpr ⟨o, _, h2, rfl, by simp; omega, .inl ⟨h3, rfl⟩⟩, by simp⟩
  | huge =>
    obtain ⟨b, rfl, t, h1, h2, h3⟩ := h
    refine ⟨t, word_complete h1 (.inr (ends_word hr)), ?_⟩
    simp only [act]
    rw [omap_some]
    refine ⟨b, ?_, rfl⟩
    unfold hugeTok
    rw [(unesc_iff' _ _).mpr h2]
    have : ¬ 16000 < b.length := by omega
    simp [this]
  | prop =>
    obtain ⟨rfl, h1, h2, h3⟩ := h
    refine ⟨w, run1_complete (ok := fun c => isDigit c || isAlpha c) h1 ?_ fun c hc => ends_stop hr hc (fun c => isDigit c || isAlpha c) (by decide +kernel), ?_⟩
    · intro c hc; have := h2 c hc; simpa [isDigit_iff, isAlpha_iff] using this
    · have : ¬ 255 < w.length := by omega
      simp [act, this]
  | plug =>
    obtain ⟨b, rfl, h1, rfl, a, h2, h3, h4⟩ := h
    refine ⟨w, ?_, ?_⟩
    · have hm : ∀ {u : Bytes}, Units (fun c => c ∉ special ∧ c ≠ 33) u → Units (fun c => isPlug c = true) u :=
        fun hu => hu.mono fun c hc => (isPlug_iff c).mpr hc
      have hend : ∀ x, r.head? = some x → isPlug x = false ∧ x ≠ 92 := fun x hx =>
        ⟨ends_stop hr hx _ (by decide +kernel), (ends_word hr x hx).2⟩
      show plugTok (w ++ r) = some (w, r)
      unfold plugTok
      rcases h4 with rfl | ⟨b, h5, h6, rfl⟩
      · rw [units1_complete h2 (hm h3) hend]
        simp only [Option.bind_some]
        split
        · rename_i q
          simp [ends, isWs] at hr
        · rfl
      · rw [show a ++ 33 :: b ++ r = a ++ 33 :: (b ++ r) by simp, units1_complete h2 (hm h3) (by intro x hx; simp at hx; subst hx; decide)]
        simp only [Option.bind_some]
        rw [units1_complete h5 (hm h6) hend]
        rfl
    · have : ¬ 255 < w.length := by omega
      simp [act, this, cstr]

/-! ### Lists of fields -/

def Fs (cfg : Cfg) (c : Ctx) : List Kind → List Bytes → List Val → Prop
  | [], [], [] => True
  | k :: ks, w :: ws, v :: vs => F cfg c k w v ∧ Fs cfg c ks ws vs
  | _, _, _ => False

theorem Fs_cons {cfg : Cfg} {c : Ctx} {k : Kind} {ks : List Kind} {ws : List Bytes} {vs : List Val} (h : Fs cfg c (k :: ks) ws vs) :
    ∃ w ws' v vs', ws = w :: ws' ∧ vs = v :: vs' ∧ F cfg c k w v ∧ Fs cfg c ks ws' vs' := by
  match ws, vs, h with
  | w :: ws, v :: vs, h => exact ⟨w, ws, v, vs, rfl, rfl, h.1, h.2⟩

theorem Fs_nil {cfg : Cfg} {c : Ctx} {ws : List Bytes} {vs : List Val} (h : Fs cfg c [] ws vs) : ws = [] ∧ vs = [] := by
  match ws, vs, h with
  | [], [], _ => exact ⟨rfl, rfl⟩

/-- A field does not begin with a blank. -/
theorem F_head {cfg : Cfg} {c : Ctx} {k : Kind} {w : Bytes} {v : Val} (h : F cfg c k w v) : ∃ x w', w = x :: w' ∧ isWs x = false ∧ x ≠ 10 := by
  have hword : ∀ {w t : Bytes}, Word w t → ∃ x w', w = x :: w' ∧ isWs x = false ∧ x ≠ 10 := by
    intro w t hw
    rcases word_head hw with ⟨rfl, _⟩ | ⟨rfl, h0, hu, _⟩
    · exact ⟨34, _, rfl, by decide, by decide⟩
    · cases hu with
      | nil => exact absurd rfl h0
      | chr a _ _ =>
        refine ⟨_, _, rfl, ?_, ?_⟩
        · have := (isLit_iff _).mpr a
          cases hws : isWs _ with
          | false => rfl
          | true => rw [ws_not_lit hws] at this; cases this
        · rintro rfl; exact a (by decide)
      | esc _ _ => exact ⟨92, _, rfl, by decide, by decide⟩
      | num _ _ _ _ => exact ⟨92, _, rfl, by decide, by decide⟩
  have hrun : ∀ {ok : UInt8 → Bool} {w : Bytes}, (∀ b : BitVec 8, ok ⟨b⟩ = true → isWs ⟨b⟩ = false ∧ (⟨b⟩ : UInt8) ≠ 10) → w ≠ [] → (∀ c ∈ w, ok c = true) →
      ∃ x w', w = x :: w' ∧ isWs x = false ∧ x ≠ 10 := by
    intro ok w h0 h1 h2
    cases w with
    | nil => exact absurd rfl h1
    | cons x w => exact ⟨x, w, rfl, h0 x.toBitVec (h2 x (by simp))⟩
  cases k with
  | num =>
    obtain ⟨n, _, hn⟩ := h
    obtain ⟨⟨e1, e2⟩, _⟩ := (num_iff _ _).mp hn
    exact hrun (by decide +kernel) e1 e2
  | ttl =>
    obtain ⟨n, _, hn⟩ := h
    cases hn with
    | plain hn =>
      obtain ⟨⟨e1, e2⟩, _⟩ := (num_iff _ _).mp hn
      exact hrun (by decide +kernel) e1 e2
    | unit hn _ _ =>
      obtain ⟨⟨e1, e2⟩, _⟩ := (num_iff _ _).mp hn
      obtain ⟨x, w', rfl, hx⟩ := hrun (by decide +kernel) e1 e2
      exact ⟨x, _, rfl, hx⟩
  | name => obtain ⟨d, _, _, t, n, _, hw, _⟩ := h; exact hword hw
  | email => obtain ⟨d, _, _, t, n, _, hw, _⟩ := h; exact hword hw
  | ip4 =>
    obtain ⟨b, _, h1, h2, _⟩ := h
    exact hrun (ok := fun c => isDigit c || c == 46) (by decide +kernel) h1 fun c hc => by have := h2 c hc; simpa [isDigit_iff] using this
  | ip6 =>
    obtain ⟨b, _, h1, h2, _⟩ := h
    exact hrun (ok := fun c => isHex c || c == 58 || c == 46) (by decide +kernel) h1 fun c hc => by have := h2 c hc; simpa [isHex_iff, or_assoc] using this
  | item => obtain ⟨b, _, t, o, hw, _⟩ := h; exact hword hw
  | huge => obtain ⟨b, _, t, hw, _⟩ := h; exact hword hw
  | prop =>
    obtain ⟨_, h1, h2, _⟩ := h
    exact hrun (ok := fun c => isDigit c || isAlpha c) (by decide +kernel) h1 fun c hc => by have := h2 c hc; simpa [isDigit_iff, isAlpha_iff] using this
  | plug =>
    obtain ⟨b, _, _, _, a, h2, h3, h4⟩ := h
    have : ∃ x w', a = x :: w' ∧ isWs x = false ∧ x ≠ 10 := by
      cases h3 with
      | nil => exact absurd rfl h2
      | chr hc _ _ =>
        refine ⟨_, _, rfl, ?_, ?_⟩
        · have := (isLit_iff _).mpr hc.1
          cases hws : isWs _ with
          | false => rfl
          | true => rw [ws_not_lit hws] at this; cases this
        · rintro rfl; exact hc.1 (by decide)
      | esc _ _ => exact ⟨92, _, rfl, by decide, by decide⟩
      | num _ _ _ _ => exact ⟨92, _, rfl, by decide, by decide⟩
    obtain ⟨x, w', rfl, hx⟩ := this
    rcases h4 with rfl | ⟨b, _, _, rfl⟩
    · exact ⟨x, _, rfl, hx⟩
    · exact ⟨x, _, rfl, hx⟩

theorem fields_sound {cfg : Cfg} {z : Z} {c : Ctx} (R : Rel z c) {ks : List Kind} (hk : ks ≠ []) {s r : Bytes} {vs : List Val}
    (h : fields cfg z ks s = .ok (some (vs, r))) : ∃ t ws, s = t ++ r ∧ Joined ws t ∧ Fs cfg c ks ws vs ∧ ends r = true := by
  induction ks generalizing s vs with
  | nil => exact absurd rfl hk
  | cons k ks ih =>
    unfold fields at h
    cases ht : tok k s with
    | none => rw [ht] at h; simp at h
    | some x =>
      obtain ⟨t, q⟩ := x
      rw [ht] at h
      simp only at h
      cases ks with
      | nil =>
        simp only [List.isEmpty_nil, cond_true] at h
        cases he : ends q with
        | false => rw [he] at h; simp at h
        | true =>
          rw [he] at h
          simp only [cond_true] at h
          obtain ⟨v, h1, h2⟩ := andThen_some.mp h
          simp only [Outcome.ok.injEq, Option.some.injEq, Prod.mk.injEq] at h2
          obtain ⟨rfl, rfl⟩ := h2
          obtain ⟨w, e1, e2⟩ := field_sound R ht h1
          exact ⟨w, [w], e1, .one w, ⟨e2, trivial⟩, he⟩
      | cons k' ks =>
        simp only [List.isEmpty_cons, cond_false] at h
        cases hb : blank q with
        | false => rw [hb] at h; simp at h
        | true =>
          rw [hb] at h
          simp only [cond_true] at h
          obtain ⟨v, h1, h2⟩ := andThen_some.mp h
          obtain ⟨⟨vs', r'⟩, h3, h4⟩ := andThen_some.mp h2
          simp only [Outcome.ok.injEq, Option.some.injEq, Prod.mk.injEq] at h4
          obtain ⟨rfl, rfl⟩ := h4
          obtain ⟨w, e1, e2⟩ := field_sound R ht h1
          obtain ⟨b, b1, b2, _⟩ := blank_sound hb
          obtain ⟨t', ws', f1, f2, f3, f4⟩ := ih (by simp) h3
          refine ⟨w ++ b ++ t', w :: ws', ?_, .cons b1 f2, ⟨e2, f3⟩, f4⟩
          rw [e1, b2, f1]; simp

theorem joined_head {cfg : Cfg} {c : Ctx} {ks : List Kind} {ws : List Bytes} {vs : List Val} {t : Bytes} (hj : Joined ws t) (h : Fs cfg c ks ws vs) :
    ∃ x t', t = x :: t' ∧ isWs x = false ∧ x ≠ 10 := by
  cases hj with
  | one w =>
    match ks, vs, h with
    | k :: ks, v :: vs, h => exact F_head h.1
  | cons _ _ =>
    match ks, vs, h with
    | k :: ks, v :: vs, h =>
      obtain ⟨x, t', rfl, hx⟩ := F_head h.1
      exact ⟨x, _, rfl, hx⟩

theorem fields_complete {cfg : Cfg} {z : Z} {c : Ctx} (R : Rel z c) {ks : List Kind} {ws : List Bytes} {vs : List Val} {t r : Bytes}
    (hj : Joined ws t) (h : Fs cfg c ks ws vs) (hr : ends r = true) : fields cfg z ks (t ++ r) = .ok (some (vs, r)) := by
  induction hj generalizing ks vs with
  | one w =>
    match ks, h with
    | [], h => exact absurd (Fs_nil h).1 (by simp)
    | k :: ks, h =>
      obtain ⟨w', ws', v, vs', e1, rfl, h1, h2⟩ := Fs_cons h
      simp only [List.cons.injEq] at e1
      obtain ⟨rfl, rfl⟩ := e1
      have : ks = [] ∧ vs' = [] := by
        match ks, vs', h2 with
        | [], [], _ => exact ⟨rfl, rfl⟩
      obtain ⟨rfl, rfl⟩ := this
      obtain ⟨t, h1, h2⟩ := field_complete R h1 hr
      unfold fields
      rw [h1]
      simp [hr, h2]
  | cons hb hj ih =>
    rename_i w b l s
    match ks, vs, h with
    | k :: ks, v :: vs, h =>
      obtain ⟨h1, h2⟩ := h
      obtain ⟨x, s', hs, hx, _⟩ := joined_head hj h2
      obtain ⟨t, h3, h4⟩ := field_complete R h1 (ends_of_blank hb (r := s ++ r))
      have hk : ks.isEmpty = false := by
        cases ks with
        | cons => rfl
        | nil => obtain ⟨rfl, _⟩ := Fs_nil h2; cases hj
      unfold fields
      rw [show w ++ b ++ s ++ r = w ++ (b ++ (s ++ r)) by simp, h3]
      simp only [hk, cond_false]
      rw [blank_append hb, run_blank hb (by rw [hs]; intro y hy; simp at hy; subst hy; exact hx)]
      simp only [cond_true]
      rw [h4]
      simp only [andThen_ok]
      rw [ih h2]
      rfl

/-! ### Types with fields -/

theorem ooz_iff {z : Z} {c : Ctx} (R : Rel z c) : z.ooz = decide (outside c) := by
  have := R.lhs
  by_cases h : outside c
  · rw [if_pos h] at this; rw [this.1]; simp [h]
  · rw [if_neg h] at this; rw [this.1]; simp [h]

theorem soa_owner {z : Z} {c : Ctx} (R : Rel z c) :
    ∃ l, rd z.lhs 0 = .ok l ∧ ((z.ooz || l != 1) = false ↔ c.owner = c.zone) := by
  have hl := R.lhs
  rw [ooz_iff R]
  by_cases h : outside c
  · rw [if_pos h] at hl
    have r0 := rd_encode_zero c.owner true []
    rw [List.append_nil] at r0
    refine ⟨_, by rw [hl.2]; exact r0, ?_⟩
    simp only [h, decide_true, Bool.true_or, Bool.true_eq_false, false_iff]
    intro hc
    exact h (by rw [hc]; exact List.suffix_refl _)
  · rw [if_neg h] at hl
    obtain ⟨_, o, ho, hlhs⟩ := hl
    have r0 := rd_encode_zero o true []
    rw [List.append_nil] at r0
    refine ⟨_, by rw [hlhs]; exact r0, ?_⟩
    simp only [h, decide_false, Bool.false_or, bne_eq_false_iff_eq]
    rw [ho]
    have hwo : WF o := by have := R.wown; rw [ho] at this; exact WF_prefix this
    constructor
    · intro hc
      have := congrArg UInt8.toNat hc
      rw [toNat_ofNat_lt (by have := hwo.2; omega)] at this
      cases o with
      | nil => rfl
      | cons a o =>
        have h1 := wireLen_cons a o
        have h2 := wireLen_pos o
        simp at this; omega
    · intro hc
      have := congrArg List.length hc
      simp at this
      subst this
      rfl

theorem data_sound {cfg : Cfg} {z : Z} {c : Ctx} (R : Rel z c) {min : UInt32} {type : Bytes} {ks : List Kind} {dyn : Bool} {ws : List Bytes} {vs : List Val} {d : Rdata}
    (hl : layout type = some (ks, dyn)) (hf : Fs cfg c ks ws vs) (hb : build z min type vs = .ok (some d)) :
    ∃ k, type = str k ∧ Data cfg c min k ws dyn d := by
  have hooz := ooz_iff R
  unfold layout at hl
  split at hl <;> (try (cases hl; done)) <;> simp only [Option.some.injEq, Prod.mk.injEq] at hl <;> obtain ⟨rfl, rfl⟩ := hl
  · obtain ⟨w, _, v, _, rfl, rfl, ⟨b, rfl, f1⟩, hf1⟩ := Fs_cons hf
    obtain ⟨rfl, rfl⟩ := Fs_nil hf1
    simp only [build, Outcome.ok.injEq, Option.some.injEq] at hb
    subst hb; rw [hooz]
    exact ⟨"a", by decide, .a f1⟩
  · obtain ⟨w, _, v, _, rfl, rfl, ⟨b, rfl, f1⟩, hf1⟩ := Fs_cons hf
    obtain ⟨rfl, rfl⟩ := Fs_nil hf1
    simp only [build, Outcome.ok.injEq, Option.some.injEq] at hb
    subst hb; rw [hooz]
    exact ⟨"aaaa", by decide, .aaaa f1⟩
  · obtain ⟨w, _, v, _, rfl, rfl, ⟨b, rfl, f1⟩, hf1⟩ := Fs_cons hf
    obtain ⟨rfl, rfl⟩ := Fs_nil hf1
    simp only [build, Outcome.ok.injEq] at hb
    by_cases ho : outside c <;> simp [hooz, ho] at hb
    subst hb
    exact ⟨"ns", by decide, .ns f1 ho⟩
  · obtain ⟨w, _, v, _, rfl, rfl, ⟨b, rfl, f1⟩, hf1⟩ := Fs_cons hf
    obtain ⟨rfl, rfl⟩ := Fs_nil hf1
    simp only [build, Outcome.ok.injEq] at hb
    by_cases ho : outside c <;> simp [hooz, ho] at hb
    subst hb
    exact ⟨"cname", by decide, .cname f1 ho⟩
  · obtain ⟨w, _, v, _, rfl, rfl, ⟨b, rfl, f1⟩, hf1⟩ := Fs_cons hf
    obtain ⟨rfl, rfl⟩ := Fs_nil hf1
    simp only [build, Outcome.ok.injEq] at hb
    by_cases ho : outside c <;> simp [hooz, ho] at hb
    subst hb
    exact ⟨"ptr", by decide, .ptr f1 ho⟩
  · obtain ⟨w1, _, v, _, rfl, rfl, ⟨b1, rfl, f1⟩, hf1⟩ := Fs_cons hf
    obtain ⟨w2, _, v, _, rfl, rfl, ⟨b2, rfl, f2⟩, hf2⟩ := Fs_cons hf1
    obtain ⟨rfl, rfl⟩ := Fs_nil hf2
    simp only [build, Outcome.ok.injEq] at hb
    by_cases ho : outside c <;> simp [hooz, ho] at hb
    subst hb
    exact ⟨"mx", by decide, .mx f1 f2 ho⟩
  · obtain ⟨w1, _, v, _, rfl, rfl, ⟨b1, rfl, f1⟩, hf1⟩ := Fs_cons hf
    obtain ⟨w2, _, v, _, rfl, rfl, ⟨b2, rfl, f2⟩, hf2⟩ := Fs_cons hf1
    obtain ⟨w3, _, v, _, rfl, rfl, ⟨b3, rfl, f3⟩, hf3⟩ := Fs_cons hf2
    obtain ⟨w4, _, v, _, rfl, rfl, ⟨b4, rfl, f4⟩, hf4⟩ := Fs_cons hf3
    obtain ⟨rfl, rfl⟩ := Fs_nil hf4
    simp only [build, Outcome.ok.injEq] at hb
    by_cases ho : outside c <;> simp [hooz, ho] at hb
    subst hb
    exact ⟨"srv", by decide, .srv f1 f2 f3 f4 ho⟩
  · obtain ⟨w1, _, v, _, rfl, rfl, ⟨b1, rfl, f1⟩, hf1⟩ := Fs_cons hf
    obtain ⟨w2, _, v, _, rfl, rfl, ⟨b2, rfl, f2⟩, hf2⟩ := Fs_cons hf1
    obtain ⟨w3, _, v, _, rfl, rfl, ⟨b3, rfl, f3⟩, hf3⟩ := Fs_cons hf2
    obtain ⟨w4, _, v, _, rfl, rfl, ⟨b4, rfl, f4⟩, hf4⟩ := Fs_cons hf3
    obtain ⟨w5, _, v, _, rfl, rfl, ⟨b5, rfl, f5⟩, hf5⟩ := Fs_cons hf4
    obtain ⟨w6, _, v, _, rfl, rfl, ⟨b6, rfl, f6⟩, hf6⟩ := Fs_cons hf5
    obtain ⟨rfl, rfl⟩ := Fs_nil hf6
    simp only [build, Outcome.ok.injEq] at hb
    by_cases ho : outside c <;> simp only [hooz, ho, decide_true, decide_false, cond_true, cond_false, Option.some.injEq, reduceCtorEq] at hb
    subst hb
    exact ⟨"naptr", by decide, .naptr f1 f2 f3 f4 f5 f6 ho⟩
  · obtain ⟨w1, _, v, _, rfl, rfl, ⟨b1, rfl, f1⟩, hf1⟩ := Fs_cons hf
    obtain ⟨w2, _, v, _, rfl, rfl, ⟨b2, rfl, f2⟩, hf2⟩ := Fs_cons hf1
    obtain ⟨w3, _, v, _, rfl, rfl, ⟨b3, rfl, f3⟩, hf3⟩ := Fs_cons hf2
    obtain ⟨w4, _, v, _, rfl, rfl, ⟨b4, rfl, f4⟩, hf4⟩ := Fs_cons hf3
    obtain ⟨w5, _, v, _, rfl, rfl, ⟨b5, rfl, f5⟩, hf5⟩ := Fs_cons hf4
    obtain ⟨w6, _, v, _, rfl, rfl, ⟨b6, rfl, f6⟩, hf6⟩ := Fs_cons hf5
    obtain ⟨w7, _, v, _, rfl, rfl, ⟨b7, rfl, f7⟩, hf7⟩ := Fs_cons hf6
    obtain ⟨rfl, rfl⟩ := Fs_nil hf7
    obtain ⟨l, hl, ho⟩ := soa_owner R
    simp only [build] at hb
    rw [hl] at hb
    simp only [Outcome.map_ok, Outcome.ok.injEq] at hb
    cases hx : (z.ooz || l != 1) with
    | true => rw [hx] at hb; cases hb
    | false =>
      rw [hx] at hb
      simp only [cond_false, Option.some.injEq] at hb
      subst hb
      exact ⟨"soa", by decide, .soa f1 f2 f3 f4 f5 f6 f7 (ho.mp hx)⟩
  · obtain ⟨w1, _, v, _, rfl, rfl, ⟨b1, rfl, f1⟩, hf1⟩ := Fs_cons hf
    obtain ⟨w2, _, v, _, rfl, rfl, ⟨rfl, f2⟩, hf2⟩ := Fs_cons hf1
    obtain ⟨w3, _, v, _, rfl, rfl, ⟨b3, rfl, t, f3, f4, f5⟩, hf3⟩ := Fs_cons hf2
    obtain ⟨rfl, rfl⟩ := Fs_nil hf3
    simp only [build, Outcome.ok.injEq] at hb
    by_cases ho : outside c
    · simp [hooz, ho] at hb
    by_cases h255 : 255 < b1.toNat
    · simp [h255] at hb
    simp only [hooz, ho, h255, decide_false, Bool.or_false, cond_false, Option.some.injEq] at hb
    subst hb
    exact ⟨"caa", by decide, .caa f1 (by omega) f2 f3 f4 f5 ho⟩
  · obtain ⟨w, _, v, _, rfl, rfl, ⟨b, rfl, f1⟩, hf1⟩ := Fs_cons hf
    obtain ⟨rfl, rfl⟩ := Fs_nil hf1
    simp only [build, Outcome.ok.injEq] at hb
    by_cases ho : outside c <;> simp [hooz, ho] at hb
    subst hb
    exact ⟨"dyna", by decide, .dyna f1 ho⟩
  · obtain ⟨w, _, v, _, rfl, rfl, ⟨b, rfl, f1⟩, hf1⟩ := Fs_cons hf
    obtain ⟨rfl, rfl⟩ := Fs_nil hf1
    simp only [build, Outcome.ok.injEq] at hb
    by_cases ho : outside c <;> simp [hooz, ho] at hb
    subst hb
    exact ⟨"dync", by decide, .dync f1 ho⟩

theorem data_complete {cfg : Cfg} {z : Z} {c : Ctx} (R : Rel z c) {min : UInt32} {k : String} {ws : List Bytes} {dyn : Bool} {d : Rdata}
    (h : Data cfg c min k ws dyn d) :
    ∃ ks vs, layout (str k) = some (ks, dyn) ∧ Fs cfg c ks ws vs ∧ build z min (str k) vs = .ok (some d) := by
  have hooz := ooz_iff R
  cases h with
  | a f1 => exact ⟨_, [_], rfl, ⟨⟨_, rfl, f1⟩, trivial⟩, by rw [← hooz]; rfl⟩
  | aaaa f1 => exact ⟨_, [_], rfl, ⟨⟨_, rfl, f1⟩, trivial⟩, by rw [← hooz]; rfl⟩
  | ns f1 ho =>
    refine ⟨_, [_], rfl, ⟨⟨_, rfl, f1⟩, trivial⟩, ?_⟩
    rw [decide_eq_false ho] at hooz
    show Outcome.ok (bif z.ooz then _ else _) = _
    rw [hooz]; rfl
  | cname f1 ho =>
    refine ⟨_, [_], rfl, ⟨⟨_, rfl, f1⟩, trivial⟩, ?_⟩
    rw [decide_eq_false ho] at hooz
    show Outcome.ok (bif z.ooz then _ else _) = _
    rw [hooz]; rfl
  | ptr f1 ho =>
    refine ⟨_, [_], rfl, ⟨⟨_, rfl, f1⟩, trivial⟩, ?_⟩
    rw [decide_eq_false ho] at hooz
    show Outcome.ok (bif z.ooz then _ else _) = _
    rw [hooz]; rfl
  | mx f1 f2 ho =>
    refine ⟨_, [_, _], rfl, ⟨⟨_, rfl, f1⟩, ⟨_, rfl, f2⟩, trivial⟩, ?_⟩
    rw [decide_eq_false ho] at hooz
    show Outcome.ok (bif z.ooz then _ else _) = _
    rw [hooz]; rfl
  | srv f1 f2 f3 f4 ho =>
    refine ⟨_, [_, _, _, _], rfl, ⟨⟨_, rfl, f1⟩, ⟨_, rfl, f2⟩, ⟨_, rfl, f3⟩, ⟨_, rfl, f4⟩, trivial⟩, ?_⟩
    rw [decide_eq_false ho] at hooz
    show Outcome.ok (bif z.ooz then _ else _) = _
    rw [hooz]; rfl
  | naptr f1 f2 f3 f4 f5 f6 ho =>
    refine ⟨_, [_, _, _, _, _, _], rfl, ⟨⟨_, rfl, f1⟩, ⟨_, rfl, f2⟩, ⟨_, rfl, f3⟩, ⟨_, rfl, f4⟩, ⟨_, rfl, f5⟩, ⟨_, rfl, f6⟩, trivial⟩, ?_⟩
    rw [decide_eq_false ho] at hooz
    show Outcome.ok (bif z.ooz then _ else _) = _
    rw [hooz]; rfl
  | soa f1 f2 f3 f4 f5 f6 f7 ho =>
    refine ⟨_, [_, _, _, _, _, _, _], rfl, ⟨⟨_, rfl, f1⟩, ⟨_, rfl, f2⟩, ⟨_, rfl, f3⟩, ⟨_, rfl, f4⟩, ⟨_, rfl, f5⟩, ⟨_, rfl, f6⟩, ⟨_, rfl, f7⟩, trivial⟩, ?_⟩
    obtain ⟨l, hl, hx⟩ := soa_owner R
    show (rd z.lhs 0).map (fun l => bif z.ooz || l != 1 then _ else _) = _
    rw [hl]
    simp only [Outcome.map_ok]
    rw [hx.mpr ho]
    rfl
  | caa f1 f2 f3 f4 f5 f6 ho =>
    refine ⟨_, [_, _, _], rfl, ⟨⟨_, rfl, f1⟩, ⟨rfl, f3⟩, ⟨_, rfl, _, f4, f5, f6⟩, trivial⟩, ?_⟩
    rw [decide_eq_false ho] at hooz
    show Outcome.ok (bif decide _ || z.ooz then _ else _) = _
    rw [hooz, decide_eq_false (by omega)]; rfl
  | dyna f1 ho =>
    refine ⟨_, [_], rfl, ⟨⟨_, rfl, f1⟩, trivial⟩, ?_⟩
    rw [decide_eq_false ho] at hooz
    show Outcome.ok (bif z.ooz then _ else _) = _
    rw [hooz]; rfl
  | dync f1 ho =>
    refine ⟨_, [_], rfl, ⟨⟨_, rfl, f1⟩, trivial⟩, ?_⟩
    rw [decide_eq_false ho] at hooz
    show Outcome.ok (bif z.ooz then _ else _) = _
    rw [hooz]; rfl

end Gdnsd.Zscan
