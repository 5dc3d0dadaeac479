/-
Lemmas on safety: what makes the scanner stop for good.
-/
import Verif.Zscan.FileLemmas
namespace Gdnsd.Zscan
open ZscanSpec DnameSpec LookupSpec EncSpec Dname Load

/-- Nothing in the text stops the scanner. -/
def Good (s : Bytes) : Prop := ¬ [34, 34] <:+: s ∧ ¬ [92, 35] <:+: s

theorem Good.suffix {a b s : Bytes} (h : Good s) (e : s = a ++ b) : Good b :=
  ⟨fun ⟨x, y, hx⟩ => h.1 ⟨a ++ x, y, by rw [e, ← hx]; simp⟩, fun ⟨x, y, hx⟩ => h.2 ⟨a ++ x, y, by rw [e, ← hx]; simp⟩⟩

theorem cond_eq {α : Type} {b : Bool} {x y v : α} (h : (bif b then x else y) = v) : (b = true ∧ x = v) ∨ (b = false ∧ y = v) := by
  cases b
  · exact .inr ⟨rfl, h⟩
  · exact .inl ⟨rfl, h⟩

theorem word_good {s w t r : Bytes} (h : Good s) (e : s = w ++ r) (hw : Word w t) : t ≠ [] := by
  rintro rfl
  cases hw with
  | bare h0 _ => exact h0 rfl
  | quoted _ => exact h.1 ⟨[], r, by rw [e]; simp⟩

theorem dname_safe {z : Z} {c : Ctx} (R : Rel z c) {t : Bytes} (ht : t ≠ []) : dnameSet z t false ≠ .ub := by
  rcases dnameSet_rhs z c R t ht with ⟨n, _, h⟩ | ⟨_, h⟩ <;> rw [h] <;> simp

theorem unesc_safe (t : Bytes) : unesc t ≠ .ub := by
  rcases unesc_eq t with ⟨o, h, _⟩ | ⟨h, _⟩ <;> rw [h] <;> simp

theorem addTok_safe (cfg : Cfg) (big : Bool) (text t : Bytes) : addTok cfg big text t ≠ .ub := by
  unfold addTok
  intro h
  rcases andThen_ub.mp h with h | ⟨o, _, h⟩
  · exact unesc_safe t h
  · by_cases h1 : 255 < o.length
    · simp only [h1, decide_true, cond_true] at h
      cases h2 : (!big || cfg.noSplit) with
      | true => rw [h2] at h; cases h
      | false =>
        rw [h2] at h
        simp only [cond_false] at h
        by_cases h3 : 16000 < o.length
        · simp [h3] at h
        · simp only [h3, decide_false, cond_false] at h
          rcases cond_eq h with ⟨_, h⟩ | ⟨_, h⟩
          · cases h
          · have hl := chunks_length ((o.length - o.length % 255) / 255) o (by omega) (by omega)
            have he : (o.length == 255 * ((o.length - o.length % 255) / 255)) = (o.length % 255 == 0) := by
              rw [Bool.eq_iff_iff]; simp only [beq_iff_eq]; omega
            rw [he] at hl
            simp [hl, assert] at h
    · simp only [h1, decide_false, cond_false] at h
      rcases cond_eq h with ⟨_, h⟩ | ⟨_, h⟩ <;> cases h

theorem ttlVal_safe {s t r : Bytes} (h : ttlTok s = some (t, r)) : ttlVal t ≠ .ub := by
  unfold ttlTok at h
  simp only [Option.map_eq_some_iff] at h
  obtain ⟨⟨d, q⟩, h1, h2⟩ := h
  obtain ⟨e1, e2, e3, e4⟩ := run1_sound h1
  have hplain : ttlVal d ≠ .ub := by
    unfold ttlVal
    have := run_append isDigit d [] e3 (by simp)
    rw [List.append_nil] at this
    rw [this]
    cases uval d <;> simp
  cases q with
  | nil => cases h2; exact hplain
  | cons x q =>
    simp only at h2
    cases hx : isMult x with
    | false => rw [hx] at h2; cases h2; exact hplain
    | true =>
      rw [hx] at h2
      cases h2
      unfold ttlVal
      have := run_append isDigit d [x] e3 (by intro c hc; simp at hc; subst hc; exact e4 x rfl)
      rw [this]
      cases uval d with
      | none => simp
      | some v =>
        simp only
        have : ∀ v, (mult x v).map some ≠ .ub := by
          intro v
          unfold mult
          unfold isMult at hx
          simp only [List.contains_eq_mem, List.mem_cons, List.not_mem_nil, or_false, decide_eq_true_eq] at hx
          rcases hx with hx | hx | hx | hx <;> simp [hx]
        exact this v

theorem map_ub {α β : Type} {x : Outcome α} {f : α → β} : x.map f = .ub ↔ x = .ub := by cases x <;> simp

theorem act_safe {cfg : Cfg} {z : Z} {c : Ctx} (R : Rel z c) {k : Kind} {s t r : Bytes} (hg : Good s) (h : tok k s = some (t, r)) : act cfg z k t ≠ .ub := by
  cases k with
  | num => simp [act]
  | ttl =>
    simp only [act, ne_eq, map_ub]
    exact ttlVal_safe h
  | name =>
    simp only [act, ne_eq, map_ub]
    obtain ⟨w, e, hw, _⟩ := nameTok_sound h
    exact dname_safe R (word_good hg e hw)
  | email =>
    simp only [act, ne_eq, map_ub]
    obtain ⟨w, e, hw, _⟩ := nameTok_sound h
    exact dname_safe R (word_good hg e hw)
  | ip4 => simp [act]
  | ip6 => simp [act]
  | item =>
    simp only [act, ne_eq, map_ub]
    exact addTok_safe _ _ _ _
  | huge =>
    simp only [act, ne_eq, map_ub]
    unfold hugeTok
    intro h
    rcases andThen_ub.mp h with h | ⟨o, _, h⟩
    · exact unesc_safe _ h
    · rcases cond_eq h with ⟨_, h⟩ | ⟨_, h⟩ <;> cases h
  | prop => simp [act]
  | plug => simp [act]

theorem fields_safe {cfg : Cfg} {z : Z} {c : Ctx} (R : Rel z c) {ks : List Kind} {s : Bytes} (hg : Good s) : fields cfg z ks s ≠ .ub := by
  induction ks generalizing s with
  | nil => simp [fields]
  | cons k ks ih =>
    unfold fields
    cases ht : tok k s with
    | none => simp
    | some x =>
      obtain ⟨t, r⟩ := x
      simp only
      intro h
      have ha := act_safe (cfg := cfg) R hg ht
      cases hk : ks.isEmpty with
      | true =>
        rw [hk] at h
        simp only [cond_true] at h
        cases he : ends r with
        | false => rw [he] at h; cases h
        | true =>
          rw [he] at h
          simp only [cond_true] at h
          rcases andThen_ub.mp h with h | ⟨o, _, h⟩
          · exact ha h
          · cases h
      | false =>
        rw [hk] at h
        simp only [cond_false] at h
        cases he : blank r with
        | false => rw [he] at h; cases h
        | true =>
          rw [he] at h
          simp only [cond_true] at h
          rcases andThen_ub.mp h with h | ⟨v, hv, h⟩
          · exact ha h
          · obtain ⟨w, e, _⟩ := field_sound R ht hv
            have hs := run_split isWs r
            rcases andThen_ub.mp h with h | ⟨_, _, h⟩
            · exact ih ((hg.suffix e).suffix hs) h
            · cases h

theorem lhs_read {z : Z} {c : Ctx} (R : Rel z c) : rd z.lhs 0 ≠ .ub := by
  obtain ⟨o, ho, _⟩ := owner_lhs R
  rw [ho]
  simp [encode, rd]

theorem build_safe {cfg : Cfg} {z : Z} {c : Ctx} (R : Rel z c) {min : UInt32} {type : Bytes} {ks : List Kind} {dyn : Bool} {ws : List Bytes} {vs : List Val}
    (hl : layout type = some (ks, dyn)) (hf : Fs cfg c ks ws vs) : build z min type vs ≠ .ub := by
  have h0 := lhs_read R
  unfold layout at hl
  split at hl <;> (try (cases hl; done)) <;> simp only [Option.some.injEq, Prod.mk.injEq] at hl <;> obtain ⟨rfl, rfl⟩ := hl
  · obtain ⟨_, _, _, _, rfl, rfl, ⟨_, rfl, _⟩, hf1⟩ := Fs_cons hf
    obtain ⟨rfl, rfl⟩ := Fs_nil hf1
    simp [build]
  · obtain ⟨_, _, _, _, rfl, rfl, ⟨_, rfl, _⟩, hf1⟩ := Fs_cons hf
    obtain ⟨rfl, rfl⟩ := Fs_nil hf1
    simp [build]
  · obtain ⟨_, _, _, _, rfl, rfl, ⟨_, rfl, _⟩, hf1⟩ := Fs_cons hf
    obtain ⟨rfl, rfl⟩ := Fs_nil hf1
    simp [build]
  · obtain ⟨_, _, _, _, rfl, rfl, ⟨_, rfl, _⟩, hf1⟩ := Fs_cons hf
    obtain ⟨rfl, rfl⟩ := Fs_nil hf1
    simp [build]
  · obtain ⟨_, _, _, _, rfl, rfl, ⟨_, rfl, _⟩, hf1⟩ := Fs_cons hf
    obtain ⟨rfl, rfl⟩ := Fs_nil hf1
    simp [build]
  · obtain ⟨_, _, _, _, rfl, rfl, ⟨_, rfl, _⟩, hf1⟩ := Fs_cons hf
    obtain ⟨_, _, _, _, rfl, rfl, ⟨_, rfl, _⟩, hf2⟩ := Fs_cons hf1
    obtain ⟨rfl, rfl⟩ := Fs_nil hf2
    simp [build]
  · obtain ⟨_, _, _, _, rfl, rfl, ⟨_, rfl, _⟩, hf1⟩ := Fs_cons hf
    obtain ⟨_, _, _, _, rfl, rfl, ⟨_, rfl, _⟩, hf2⟩ := Fs_cons hf1
    obtain ⟨_, _, _, _, rfl, rfl, ⟨_, rfl, _⟩, hf3⟩ := Fs_cons hf2
    obtain ⟨_, _, _, _, rfl, rfl, ⟨_, rfl, _⟩, hf4⟩ := Fs_cons hf3
    obtain ⟨rfl, rfl⟩ := Fs_nil hf4
    simp [build]
  · obtain ⟨_, _, _, _, rfl, rfl, ⟨_, rfl, _⟩, hf1⟩ := Fs_cons hf
    obtain ⟨_, _, _, _, rfl, rfl, ⟨_, rfl, _⟩, hf2⟩ := Fs_cons hf1
    obtain ⟨_, _, _, _, rfl, rfl, ⟨_, rfl, _⟩, hf3⟩ := Fs_cons hf2
    obtain ⟨_, _, _, _, rfl, rfl, ⟨_, rfl, _⟩, hf4⟩ := Fs_cons hf3
    obtain ⟨_, _, _, _, rfl, rfl, ⟨_, rfl, _⟩, hf5⟩ := Fs_cons hf4
    obtain ⟨_, _, _, _, rfl, rfl, ⟨_, rfl, _⟩, hf6⟩ := Fs_cons hf5
    obtain ⟨rfl, rfl⟩ := Fs_nil hf6
    simp [build]
  · obtain ⟨_, _, _, _, rfl, rfl, ⟨_, rfl, _⟩, hf1⟩ := Fs_cons hf
    obtain ⟨_, _, _, _, rfl, rfl, ⟨_, rfl, _⟩, hf2⟩ := Fs_cons hf1
    obtain ⟨_, _, _, _, rfl, rfl, ⟨_, rfl, _⟩, hf3⟩ := Fs_cons hf2
    obtain ⟨_, _, _, _, rfl, rfl, ⟨_, rfl, _⟩, hf4⟩ := Fs_cons hf3
    obtain ⟨_, _, _, _, rfl, rfl, ⟨_, rfl, _⟩, hf5⟩ := Fs_cons hf4
    obtain ⟨_, _, _, _, rfl, rfl, ⟨_, rfl, _⟩, hf6⟩ := Fs_cons hf5
    obtain ⟨_, _, _, _, rfl, rfl, ⟨_, rfl, _⟩, hf7⟩ := Fs_cons hf6
    obtain ⟨rfl, rfl⟩ := Fs_nil hf7
    simp only [build, ne_eq, map_ub]
    exact h0
  · obtain ⟨_, _, _, _, rfl, rfl, ⟨_, rfl, _⟩, hf1⟩ := Fs_cons hf
    obtain ⟨_, _, _, _, rfl, rfl, ⟨rfl, _⟩, hf2⟩ := Fs_cons hf1
    obtain ⟨_, _, _, _, rfl, rfl, ⟨_, rfl, _⟩, hf3⟩ := Fs_cons hf2
    obtain ⟨rfl, rfl⟩ := Fs_nil hf3
    simp [build]
  · obtain ⟨_, _, _, _, rfl, rfl, ⟨_, rfl, _⟩, hf1⟩ := Fs_cons hf
    obtain ⟨rfl, rfl⟩ := Fs_nil hf1
    simp [build]
  · obtain ⟨_, _, _, _, rfl, rfl, ⟨_, rfl, _⟩, hf1⟩ := Fs_cons hf
    obtain ⟨rfl, rfl⟩ := Fs_nil hf1
    simp [build]

theorem txt_safe {cfg : Cfg} (f : Nat) {text s : Bytes} (hf : s.length < f) : txtLoop cfg f text s ≠ .ub := by
  induction f generalizing text s with
  | zero => omega
  | succ f ih =>
    unfold txtLoop
    cases s with
    | nil => simp
    | cons c r =>
      simp only
      intro h
      simp only [List.length_cons] at hf
      rcases cond_eq h with ⟨_, h⟩ | ⟨_, h⟩
      · exact absurd h (ih (by omega))
      · rcases cond_eq h with ⟨_, h⟩ | ⟨_, h⟩
        · cases h
        · cases hw : word (c :: r) with
          | none => rw [hw] at h; cases h
          | some x =>
            obtain ⟨t, r'⟩ := x
            rw [hw] at h
            simp only at h
            obtain ⟨w, e, hww, _⟩ := word_sound hw
            have hl : r'.length < f := by
              have := congrArg List.length e
              simp only [List.length_cons, List.length_append] at this
              have := List.length_pos_iff.mpr (word_ne hww)
              omega
            rcases cond_eq h with ⟨_, h⟩ | ⟨_, h⟩
            · cases h
            · rcases andThen_ub.mp h with h | ⟨_, _, h⟩
              · exact addTok_safe _ _ _ _ h
              · exact ih hl h

theorem octets_safe (n len : Nat) (acc s : Bytes) (hn : s.length ≤ n) : octets len acc s ≠ .ub := by
  induction n generalizing acc s with
  | zero =>
    cases s with
    | nil => simp [octets]
    | cons => simp at hn
  | succ n ih =>
    cases s with
    | nil => simp [octets]
    | cons a r =>
      intro h
      unfold octets at h
      simp only [List.length_cons] at hn
      rcases cond_eq h with ⟨_, h⟩ | ⟨_, h⟩
      · cases h
      · rcases cond_eq h with ⟨_, h⟩ | ⟨_, h⟩
        · exact ih _ _ (by omega) h
        · cases r with
          | nil => cases h
          | cons b r =>
            simp only [List.length_cons] at hn
            simp only at h
            rcases cond_eq h with ⟨_, h⟩ | ⟨_, h⟩
            · rcases cond_eq h with ⟨_, h⟩ | ⟨_, h⟩
              · cases h
              · exact ih _ _ (by omega) h
            · cases h

theorem generic_safe {z : Z} {s : Bytes} (hg : Good s) : generic z s ≠ .ub := by
  unfold generic
  cases h1 : run1 isDigit s with
  | none => simp
  | some x =>
    obtain ⟨t, r⟩ := x
    simp only
    obtain ⟨e1, _⟩ := run1_sound h1
    cases h2 : uval t with
    | none => simp
    | some v =>
      cases h3 : ws r with
      | none => simp
      | some q =>
        obtain ⟨b, _, b2, _⟩ := ws_sound h3
        split
        · rename_i u _ heq
          simp only [Option.some.injEq] at heq
          exact absurd ⟨t ++ b, u, by rw [e1, b2, heq]; simp⟩ hg.2
        · simp

theorem rhs_safe {cfg : Cfg} {z : Z} {c : Ctx} (R : Rel z c) {ttl min : UInt32} {slash : Bool} {s : Bytes} (hg : Good s) : rhs cfg z ttl min slash s ≠ .ub := by
  unfold rhs
  intro h
  have hs := run_split isAlpha s
  have hg' := hg.suffix hs
  rcases andThen_ub.mp h with h | ⟨_, _, h⟩
  · rcases cond_eq h with ⟨_, h⟩ | ⟨_, h⟩
    · split at h
      · rcases cond_eq h with ⟨_, h⟩ | ⟨_, h⟩
        · rcases andThen_ub.mp h with h | ⟨_, _, h⟩
          · exact txt_safe _ (by omega) h
          · cases h
        · cases h
      · cases h
    · rcases cond_eq h with ⟨_, h⟩ | ⟨_, h⟩
      · rcases cond_eq h with ⟨_, h⟩ | ⟨_, h⟩
        · cases h
        · exact generic_safe hg' h
      · cases hl : layout ((run isAlpha s).1.map low) with
        | none => rw [hl] at h; cases h
        | some x =>
          obtain ⟨ks, dyn⟩ := x
          cases hw : ws (run isAlpha s).2 with
          | none => rw [hl, hw] at h; cases h
          | some q =>
            rw [hl, hw] at h
            simp only at h
            obtain ⟨b, _, b2, _⟩ := ws_sound hw
            rcases cond_eq h with ⟨_, h⟩ | ⟨_, h⟩
            · cases h
            · rcases andThen_ub.mp h with h | ⟨⟨vs, r⟩, hv, h⟩
              · exact fields_safe R (hg'.suffix b2) h
              · have hk : ks ≠ [] := by
                  rintro rfl
                  unfold layout at hl
                  split at hl <;> cases hl
                obtain ⟨_, ws', _, _, hfs, _⟩ := fields_sound R hk hv
                rcases andThen_ub.mp h with h | ⟨_, _, h⟩
                · exact build_safe R hl hfs h
                · cases h
  · cases h

theorem ttlDyn_safe (s : Bytes) : ttlDyn s ≠ .ub := by
  unfold ttlDyn
  cases h1 : ttlTok s with
  | none => simp
  | some x =>
    obtain ⟨t, q⟩ := x
    simp only
    intro h
    rcases andThen_ub.mp h with h | ⟨_, _, h⟩
    · exact ttlVal_safe h1 h
    · split at h
      · cases h2 : ttlTok _ with
        | none => rw [h2] at h; cases h
        | some x =>
          rw [h2] at h
          simp only at h
          rcases cond_eq h with ⟨_, h⟩ | ⟨_, h⟩
          · rcases andThen_ub.mp h with h | ⟨_, _, h⟩
            · exact ttlVal_safe h2 h
            · cases h
          · cases h
      · cases h

theorem record_safe {cfg : Cfg} {z : Z} {c : Ctx} (R : Rel z c) {s : Bytes} (hg : Good s) : record cfg z s ≠ .ub := by
  unfold record
  intro h
  rcases cond_eq h with ⟨_, h⟩ | ⟨_, h⟩
  · rcases andThen_ub.mp h with h | ⟨⟨v, m, sl, r⟩, hx, h⟩
    · exact ttlDyn_safe _ h
    · obtain ⟨t, e, _⟩ := ttlDyn_sound hx
      have hg' := (hg.suffix e).suffix (run_split isWs r)
      refine rhs_safe R ?_ h
      cases hc : class? (run isWs r).2 with
      | none => exact hg'
      | some q =>
        obtain ⟨i, b, _, _, e⟩ := class_sound hc
        exact hg'.suffix e
  · cases hc : class? s with
    | none => rw [hc] at h; exact rhs_safe R hg h
    | some q =>
      rw [hc] at h
      obtain ⟨i, b, _, _, e⟩ := class_sound hc
      have hg' := hg.suffix e
      simp only at h
      rcases cond_eq h with ⟨_, h⟩ | ⟨_, h⟩
      · rcases andThen_ub.mp h with h | ⟨⟨v, m, sl, r⟩, hx, h⟩
        · exact ttlDyn_safe _ h
        · obtain ⟨t, e, _⟩ := ttlDyn_sound hx
          exact rhs_safe R ((hg'.suffix e).suffix (run_split isWs r)) h
      · exact rhs_safe R hg' h

theorem inZone_safe {z : Z} {c : Ctx} (R : Rel z c) {n : List Bytes} (hn : WF n) : inZone z (encode n true) ≠ .ub := by
  rw [inZone_eq R hn]; simp

theorem zfn_safe {cur f : Bytes} (h : 47 ∈ cur) : zfn cur f ≠ .ub := by
  unfold zfn
  intro h'
  rcases cond_eq h' with ⟨_, h'⟩ | ⟨_, h'⟩
  · cases h'
  · obtain ⟨d, g, e, hf⟩ := last_slash h
    rw [dirOf_dir e hf] at h'; cases h'

theorem incl_safe {z : Z} {c : Ctx} (R : Rel z c) {s : Bytes} (hg : Good s) (hfn : 47 ∈ z.fn) : inclCmd z s ≠ .ub := by
  unfold inclCmd
  cases h1 : ws s with
  | none => simp
  | some s1 =>
    obtain ⟨b, _, b2, _⟩ := ws_sound h1
    simp only
    cases h2 : word s1 with
    | none => simp
    | some x =>
      obtain ⟨f, q⟩ := x
      obtain ⟨t, t1, _⟩ := word_sound h2
      simp only
      intro h
      have hq := (hg.suffix b2).suffix t1
      rcases cond_eq h with ⟨_, h⟩ | ⟨_, h⟩
      · rcases cond_eq h with ⟨_, h⟩ | ⟨_, h⟩
        · cases h
        · rcases andThen_ub.mp h with h | ⟨o, _, h⟩
          · exact unesc_safe _ h
          · rcases andThen_ub.mp h with h | ⟨⟨d, r⟩, hx, h⟩
            · rcases cond_eq h with ⟨_, h⟩ | ⟨_, h⟩
              · cases h9 : nameTok (run isWs q).2 with
                | none => rw [h9] at h; cases h
                | some y =>
                  obtain ⟨v, q2⟩ := y
                  rw [h9] at h
                  simp only at h
                  obtain ⟨u, u1, u2, _⟩ := nameTok_sound h9
                  rcases cond_eq h with ⟨_, h⟩ | ⟨_, h⟩
                  · rcases andThen_ub.mp h with h | ⟨_, _, h⟩
                    · exact dname_safe R (word_good (hq.suffix (run_split isWs q)) u1 u2) h
                    · cases h
                  · cases h
              · cases h
            · have hd : ∃ n, WF n ∧ d = encode n true := by
                rcases cond_eq hx with ⟨_, hx⟩ | ⟨_, hx⟩
                · cases h9 : nameTok (run isWs q).2 with
                  | none => rw [h9] at hx; simp at hx
                  | some y =>
                    obtain ⟨v, q2⟩ := y
                    rw [h9] at hx
                    simp only at hx
                    rcases cond_eq hx with ⟨_, hx⟩ | ⟨_, hx⟩
                    · obtain ⟨dd, g1, g2⟩ := andThen_some.mp hx
                      simp only [Outcome.ok.injEq, Option.some.injEq, Prod.mk.injEq] at g2
                      obtain ⟨rfl, rfl⟩ := g2
                      obtain ⟨_, n, hn, rfl⟩ := name_field R g1
                      exact ⟨n, resolves_wf hn, rfl⟩
                    · simp at hx
                · simp only [Outcome.ok.injEq, Option.some.injEq, Prod.mk.injEq] at hx
                  obtain ⟨rfl, rfl⟩ := hx
                  exact ⟨c.origin, R.wo, R.origin⟩
              obtain ⟨n, hn, rfl⟩ := hd
              rcases andThen_ub.mp h with h | ⟨_, _, h⟩
              · exact inZone_safe R hn h
              · cases hz : zfn z.fn (cstr o) with
                | ub => exact zfn_safe hfn hz
                | ok p => rw [hz] at h; cases h
      · cases h

theorem cmd_safe {cfg : Cfg} {z : Z} {c : Ctx} (R : Rel z c) {s : Bytes} (hg : Good s) (hfn : 47 ∈ z.fn) : cmd cfg z s ≠ .ub := by
  unfold cmd
  have hg' := hg.suffix (run_split isAlpha s)
  intro h
  simp only at h
  rcases cond_eq h with ⟨_, h⟩ | ⟨_, h⟩
  · cases h2 : ws (run isAlpha s).2 with
    | none => rw [h2] at h; cases h
    | some q =>
      obtain ⟨b, _, b2, _⟩ := ws_sound h2
      rw [h2] at h
      simp only at h
      rcases andThen_ub.mp h with h | ⟨⟨vs, r⟩, hx, h⟩
      · exact fields_safe R (hg'.suffix b2) h
      · obtain ⟨w, v, _, rfl, ⟨n, rfl, _⟩, _⟩ := one_field_sound R hx
        cases h
  · rcases cond_eq h with ⟨_, h⟩ | ⟨_, h⟩
    · cases h2 : ws (run isAlpha s).2 with
      | none => rw [h2] at h; cases h
      | some q =>
        obtain ⟨b, _, b2, _⟩ := ws_sound h2
        rw [h2] at h
        simp only at h
        rcases andThen_ub.mp h with h | ⟨⟨vs, r⟩, hx, h⟩
        · exact fields_safe R (hg'.suffix b2) h
        · obtain ⟨w, v, _, rfl, ⟨d, rfl, _, t, n, _, _, a4, rfl⟩, _⟩ := one_field_sound R hx
          simp only at h
          rcases andThen_ub.mp h with h | ⟨_, _, h⟩
          · exact inZone_safe R (resolves_wf a4) h
          · cases h
    · rcases cond_eq h with ⟨_, h⟩ | ⟨_, h⟩
      · rcases andThen_ub.mp h with h | ⟨_, _, h⟩
        · exact incl_safe R hg' hfn h
        · cases h
      · cases h

theorem statement_safe {cfg : Cfg} {z : Z} {c : Ctx} (R : Rel z c) {s : Bytes} (hg : Good s) (hfn : 47 ∈ z.fn) : statement cfg z s ≠ .ub := by
  unfold statement
  cases s with
  | nil => simp
  | cons x s =>
    intro h
    simp only at h
    rcases cond_eq h with ⟨_, h⟩ | ⟨_, h⟩
    · cases h
    · rcases cond_eq h with ⟨_, h⟩ | ⟨_, h⟩
      · exact cmd_safe R (hg.suffix (a := [x]) rfl) hfn h
      · rcases cond_eq h with ⟨_, h⟩ | ⟨_, h⟩
        · rcases cond_eq h with ⟨_, h⟩ | ⟨_, h⟩
          · cases h
          · rcases andThen_ub.mp h with h | ⟨_, _, h⟩
            · exact record_safe R (hg.suffix (run_split isWs (x :: s))) h
            · cases h
        · cases hn : nameTok (x :: s) with
          | none => rw [hn] at h; cases h
          | some y =>
            obtain ⟨u, q⟩ := y
            rw [hn] at h
            simp only at h
            obtain ⟨w, w1, w2, _⟩ := nameTok_sound hn
            rcases cond_eq h with ⟨_, h⟩ | ⟨_, h⟩
            · rcases dnameSet_lhs z c R u with ⟨n, d, ooz, _, g2, g3, g4⟩ | ⟨_, g4⟩
              · rw [g4] at h
                simp only [andThen_ok] at h
                rcases andThen_ub.mp h with h | ⟨_, _, h⟩
                · exact record_safe (rel_owner R g2 g3) ((hg.suffix w1).suffix (run_split isWs q)) h
                · cases h
              · rw [g4] at h; cases h
            · cases h

/-- The text names the file `p` for inclusion. -/
def Names (fn s p : Bytes) : Prop :=
  ∃ a w b t f o r, s = a ++ 36 :: w ++ b ++ t ++ r ∧ Keyword "include" w ∧ Blank b ∧ Word t f ∧ DnameSpec.Unesc f o ∧ Path fn (o.takeWhile fun c => c != 0) p

theorem statement_names {cfg : Cfg} {z z' : Z} {c : Ctx} (R : Rel z c) {s r p o : Bytes} (h : statement cfg z s = .ok (some (.incl p o, z', r))) : Names c.fn s p := by
  obtain ⟨t, r', may, c', e1, _, _, _, e5, e6, n, e7, e8, e9⟩ := statement_sound (I := fun p' _ _ _ => p' = p) R h
  have := e6 [⟨[], 0, .txt []⟩, ⟨[], 0, .txt []⟩] ⟨n, e7, e8, e5 ▸ e9, rfl⟩
  generalize hl : [(⟨[], 0, .txt []⟩ : Add), ⟨[], 0, .txt []⟩] = l at this
  cases this with
  | empty => cases hl
  | again => cases hl
  | owner => cases hl
  | ttl => cases hl
  | origin => cases hl
  | incl hk hb ht hf hu hp hI =>
    subst hI
    exact ⟨[], _, _, _, _, _, r', by rw [e1]; rfl, hk, hb, ht, hu, hp⟩
  | inclOrigin hk hb ht hf hu hp hb' hname hw hin hI =>
    subst hI
    exact ⟨[], _, _, _, _, _, _, by rw [e1, List.nil_append, List.append_assoc, List.append_assoc], hk, hb, ht, hu, hp⟩

theorem statement_fn {cfg : Cfg} {I : Bytes → List Bytes → UInt32 → List Add → Prop} {c c' : Ctx} {t : Bytes} {may : Bool} {l : List Add}
    (h : Statement cfg I c t may c' l) : c'.fn = c.fn := by cases h <;> rfl

theorem lines_names {cfg : Cfg} {incl : Bytes → Bytes → UInt32 → Outcome (Option (List Add))} (f : Nat) {z : Z} {c : Ctx} (R : Rel z c) {s : Bytes}
    (hg : Good s) (hfn : 47 ∈ z.fn) (hf : s.length < f) (h : lines cfg incl f z s = .ub) : ∃ p n ttl, incl p (encode n true) ttl = .ub ∧ WF n ∧ c.zone <:+ n ∧ Names c.fn s p := by
  induction f generalizing z c s with
  | zero => omega
  | succ f ih =>
    unfold lines at h
    rcases cond_eq h with ⟨_, h⟩ | ⟨_, h⟩
    · cases h
    · rcases andThen_ub.mp h with h | ⟨⟨e, z', r⟩, h1, h⟩
      · exact absurd h (statement_safe R hg hfn)
      · rcases andThen_ub.mp h with h | ⟨l, _, h⟩
        · cases e with
          | nothing => cases h
          | add => cases h
          | incl p o =>
            obtain ⟨_, _, _, _, _, _, _, _, _, _, n, rfl, n2, n3⟩ := statement_sound (I := fun _ _ _ _ => True) R h1
            exact ⟨p, n, _, h, n2, n3, statement_names R h1⟩
        · obtain ⟨t, r', may, c', e1, e2, _, e4, e5, e6, e7⟩ := statement_sound (I := fun _ _ _ _ => True) R h1
          simp only at h
          cases h5 : eol r with
          | none => rw [h5] at h; cases h
          | some q =>
            rw [h5] at h e2
            simp only at h
            rcases andThen_ub.mp h with h | ⟨_, _, h⟩
            · obtain ⟨b, _, b2⟩ := eol_some.mp e2
              have es : s = (t ++ b ++ [10]) ++ q := by rw [e1, b2]; simp
              have hc : c'.fn = c.fn := by
                have : ∃ l, EffOk (fun _ _ _ _ => True) c' e l := by
                  cases e with
                  | nothing => exact ⟨[], rfl⟩
                  | add a => exact ⟨[a], rfl⟩
                  | incl p o =>
                    obtain ⟨n, n1, n2, n3⟩ := e7
                    exact ⟨[], n, n1, n2, by rw [e5]; exact n3, trivial⟩
                obtain ⟨l, hl⟩ := this
                exact statement_fn (e6 l hl)
              have hlen : q.length < f := by
                have := congrArg List.length es
                simp only [List.length_append, List.length_cons, List.length_nil] at this
                omega
              obtain ⟨p, n, ttl, i1, n2, n3, a, w, b', u, g, o', r2, i2, i3⟩ := ih e4 (hg.suffix es) (by rw [e4.fn, hc, ← R.fn]; exact hfn) hlen h
              rw [hc] at i3
              exact ⟨p, n, ttl, i1, n2, e5 ▸ n3, t ++ b ++ [10] ++ a, w, b', u, g, o', r2, by rw [es, i2]; simp, i3⟩
            · cases h

/-! ### The preprocessor only writes blanks -/

def Shadow : Bytes → Bytes → Prop
  | [], [] => True
  | a :: l, b :: m => (b = a ∨ (b = 32 ∧ a ≠ 10) ∨ (b = 12 ∧ a = 10)) ∧ Shadow l m
  | _, _ => False

theorem put_shadow {c : UInt8} {x : Outcome (Except Nat Bytes)} {out : Bytes} (h : put c x = .ok (.ok out)) : ∃ o, x = .ok (.ok o) ∧ out = c :: o := by
  unfold put at h
  cases x with
  | ub => cases h
  | ok e =>
    cases e with
    | error n => cases h
    | ok o => cases h; exact ⟨o, rfl, rfl⟩

theorem pre_shadow {text out : Bytes} {q p : Bool} {m : Mode} {ln : Nat} (h : pre q p m ln text = .ok (.ok out)) : Shadow text out := by
  induction text generalizing q p m ln out with
  | nil =>
    cases m with
    | plain =>
      simp only [pre, Outcome.ok.injEq] at h
      rcases cond_eq h with ⟨_, h⟩ | ⟨_, h⟩
      · cases h
      · cases h; trivial
    | comment => cases h
    | escape => cases h
  | cons c r ih =>
    have key : ∀ {d q' p' m' ln'}, (d = c ∨ (d = 32 ∧ c ≠ 10) ∨ (d = 12 ∧ c = 10)) → put d (pre q' p' m' ln' r) = .ok (.ok out) → Shadow (c :: r) out := by
      intro d q' p' m' ln' hd hp
      obtain ⟨o, h1, rfl⟩ := put_shadow hp
      exact ⟨hd, ih h1⟩
    have nl : ∀ b : Bool, c = 10 → (bif b then (12 : UInt8) else 10) = c ∨ ((bif b then (12 : UInt8) else 10) = 32 ∧ c ≠ 10) ∨ ((bif b then (12 : UInt8) else 10) = 12 ∧ c = 10) := by
      intro b hb; cases b <;> simp [hb]
    have beq : ∀ {k : UInt8}, (c == k) = true → c = k := fun h => by simpa using h
    have bne : ∀ {k : UInt8}, (c == k) = false → c ≠ k := fun h => by simpa using h
    unfold pre at h
    split at h
    · rename_i heq; cases heq
    · cases h
    · cases h
    · rename_i heq; cases heq
      rcases cond_eq h with ⟨h0, h⟩ | ⟨h0, h⟩
      · exact key (nl _ (beq h0)) h
      · exact key (.inr (.inl ⟨rfl, bne h0⟩)) h
    · rename_i heq; cases heq
      exact key (.inl rfl) h
    · rename_i heq; cases heq
      rcases cond_eq h with ⟨h0, h⟩ | ⟨h0, h⟩
      · exact key (nl _ (beq h0)) h
      · have hne := bne h0
        rcases cond_eq h with ⟨_, h⟩ | ⟨_, h⟩
        · rcases cond_eq h with ⟨_, h⟩ | ⟨_, h⟩
          · exact key (.inl rfl) h
          · exact key (.inr (.inl ⟨rfl, hne⟩)) h
        · rcases cond_eq h with ⟨_, h⟩ | ⟨_, h⟩
          · exact key (.inl rfl) h
          · rcases cond_eq h with ⟨_, h⟩ | ⟨_, h⟩
            · rcases cond_eq h with ⟨_, h⟩ | ⟨_, h⟩
              · exact key (.inl rfl) h
              · rcases cond_eq h with ⟨_, h⟩ | ⟨_, h⟩
                · cases h
                · exact key (.inr (.inl ⟨rfl, hne⟩)) h
            · rcases cond_eq h with ⟨_, h⟩ | ⟨_, h⟩
              · rcases cond_eq h with ⟨_, h⟩ | ⟨_, h⟩
                · exact key (.inl rfl) h
                · rcases cond_eq h with ⟨_, h⟩ | ⟨_, h⟩
                  · exact key (.inr (.inl ⟨rfl, hne⟩)) h
                  · cases h
              · rcases cond_eq h with ⟨_, h⟩ | ⟨_, h⟩
                · exact key (.inl rfl) h
                · rcases cond_eq h with ⟨_, h⟩ | ⟨_, h⟩
                  · rcases cond_eq h with ⟨_, h⟩ | ⟨_, h⟩
                    · exact key (.inl rfl) h
                    · cases h
                  · exact key (.inl rfl) h

theorem shadow_get {l m : List UInt8} (h : Shadow l m) : m.length = l.length ∧
    ∀ (i : Nat) (a b : UInt8), l[i]? = some a → m[i]? = some b → b = a ∨ (b = 32 ∧ a ≠ 10) ∨ (b = 12 ∧ a = 10) := by
  induction l generalizing m with
  | nil =>
    cases m with
    | nil => exact ⟨rfl, by simp⟩
    | cons => exact h.elim
  | cons x l ih =>
    cases m with
    | nil => exact h.elim
    | cons y m =>
      obtain ⟨h1, h2⟩ := h
      obtain ⟨i1, i2⟩ := ih h2
      refine ⟨by simp [i1], ?_⟩
      intro i a b ha hb
      cases i with
      | zero => simp at ha hb; subst ha; subst hb; exact h1
      | succ i => simp at ha hb; exact i2 i a b ha hb

theorem shadow_infix {x y : UInt8} (hx : x ≠ 32 ∧ x ≠ 12) (hy : y ≠ 32 ∧ y ≠ 12) {l m : Bytes} (h : Shadow l m) (a b : Bytes)
    (hm : m = a ++ x :: y :: b) : [x, y] <:+: l := by
  induction a generalizing l m with
  | nil =>
    subst hm
    match l, h with
    | c :: d :: l, ⟨h1, h2, _⟩ =>
      have e1 : x = c := by rcases h1 with h1 | ⟨h1, _⟩ | ⟨h1, _⟩; exact h1; exact absurd h1 hx.1; exact absurd h1 hx.2
      have e2 : y = d := by rcases h2 with h1 | ⟨h1, _⟩ | ⟨h1, _⟩; exact h1; exact absurd h1 hy.1; exact absurd h1 hy.2
      subst e1; subst e2
      exact ⟨[], l, rfl⟩
  | cons z a ih =>
    subst hm
    match l, h with
    | c :: l, ⟨_, h2⟩ =>
      obtain ⟨u, v, e⟩ := ih h2 rfl
      exact ⟨c :: u, v, by rw [← e]; rfl⟩

theorem calm_good {text out : Bytes} {ln : Nat} (hc : Calm text) (h : pre false false .plain ln text = .ok (.ok out)) : Good out := by
  have hs := pre_shadow h
  constructor
  · rintro ⟨a, b, e⟩
    exact hc.2.1 (shadow_infix (by decide) (by decide) hs a b (by rw [← e]; simp))
  · rintro ⟨a, b, e⟩
    exact hc.2.2 (shadow_infix (by decide) (by decide) hs a b (by rw [← e]; simp))

theorem path_slash {fn f p : Bytes} (h : Path fn f p) : 47 ∈ p := by
  unfold Path at h
  by_cases hf : f.head? = some 47
  · rw [if_pos hf] at h
    subst h
    cases p with
    | nil => cases hf
    | cons c p => simp at hf; subst hf; simp
  · rw [if_neg hf] at h
    obtain ⟨d, ⟨d', g, _, _, rfl⟩, rfl⟩ := h
    simp

theorem scanFile_chain (cfg : Cfg) (hfiles : ∀ p text, cfg.files p = some text → Calm text) (zone : List Bytes) (hz : WF zone) (depth : Nat) (fn : Bytes)
    (hfn : 47 ∈ fn) (origin : List Bytes) (ho : WF origin) (hin : zone <:+ origin) (ttl : UInt32)
    (h : scanFile cfg (encode zone true) depth fn (encode origin true) ttl = .ub) : Chain cfg depth fn := by
  induction depth generalizing fn origin ttl with
  | zero => trivial
  | succ depth ih =>
    unfold scanFile at h
    cases hfile : cfg.files fn with
    | none => rw [hfile] at h; cases h
    | some text =>
      rw [hfile] at h
      simp only at h
      have hc := hfiles fn text hfile
      have he : text.isEmpty = false := by cases text; exact absurd rfl hc.1; rfl
      rw [he] at h
      simp only [Bool.not_false, assert, if_true, Outcome.bind_ok] at h
      by_cases hl : text.getLast? = some 10
      · simp only [hl, bne_self_eq_false, cond_false] at h
        cases hp : pre false false .plain 1 text with
        | ub => exact absurd hp (pre_safe text _ _ _ _ (fun _ => rfl) (fun _ => hl))
        | ok e =>
          rw [hp] at h
          simp only [Outcome.bind_ok] at h
          cases e with
          | error => cases h
          | ok out =>
            simp only at h
            obtain ⟨p, n, ttl', i1, n2, n3, a, w, b, t, f, o, r, i2, k1, k2, k3, k4, k5⟩ := lines_names _ (rel_start hz ho hin fn ttl) (calm_good hc hp) hfn (by omega) h
            exact ⟨p, ⟨text, out, a, w, b, t, f, o, r, hfile, (flattens_iff text out 1).mp hp, i2, k1, k2, k3, k4, k5⟩, ih p (path_slash k5) n n2 n3 ttl' i1⟩
      · have : (text.getLast? != some 10) = true := by simpa using hl
        rw [this] at h
        cases h

end Gdnsd.Zscan
