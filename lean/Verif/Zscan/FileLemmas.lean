/-
Lemmas on statements and files.
-/
import Verif.Zscan.RecLemmas
namespace Gdnsd.Zscan
open ZscanSpec DnameSpec LookupSpec EncSpec Dname Load

/-! ### Paths -/

theorem dropWhile_stop {p : UInt8 → Bool} {a : Bytes} {x : UInt8} {b : Bytes} (ha : ∀ c ∈ a, p c = true) (hx : p x = false) :
    (a ++ x :: b).dropWhile p = x :: b := by
  induction a with
  | nil => simp [hx]
  | cons c a ih =>
    simp only [List.cons_append, List.dropWhile, ha c (by simp)]
    exact ih (fun c hc => ha c (by simp [hc]))

theorem dirOf_dir {fn d f : Bytes} (h : fn = d ++ 47 :: f) (hf : 47 ∉ f) : dirOf fn = some (d ++ [47]) := by
  unfold dirOf
  have hc : fn.contains 47 = true := by rw [h]; simp
  rw [hc]
  simp only [cond_true, Option.some.injEq]
  rw [h]
  simp only [List.reverse_append, List.reverse_cons, List.append_assoc]
  rw [show ([47] ++ d.reverse : Bytes) = 47 :: d.reverse from rfl, dropWhile_stop (by intro c hc; simp at hc ⊢; rintro rfl; exact hf hc) (by decide)]
  simp

theorem last_slash {fn : Bytes} (h : 47 ∈ fn) : ∃ d f, fn = d ++ 47 :: f ∧ 47 ∉ f := by
  induction fn with
  | nil => cases h
  | cons c fn ih =>
    by_cases hm : (47 : UInt8) ∈ fn
    · obtain ⟨d, f, rfl, hf⟩ := ih hm
      exact ⟨c :: d, f, rfl, hf⟩
    · simp only [List.mem_cons] at h
      rcases h with h | h
      · exact ⟨[], fn, by rw [← h]; rfl, hm⟩
      · exact absurd h hm

theorem dirOf_iff {fn d : Bytes} : dirOf fn = some d ↔ Dir fn d := by
  constructor
  · intro h
    have hm : (47 : UInt8) ∈ fn := by
      unfold dirOf at h
      cases hc : fn.contains 47 with
      | false => rw [hc] at h; cases h
      | true => simpa using hc
    obtain ⟨d', f, e, hf⟩ := last_slash hm
    rw [dirOf_dir e hf] at h
    cases h
    exact ⟨d', f, e, hf, rfl⟩
  · rintro ⟨d', f, e, hf, rfl⟩
    exact dirOf_dir e hf

theorem zfn_iff {fn f p : Bytes} : zfn fn f = .ok p ↔ Path fn f p := by
  unfold zfn Path
  by_cases hf : f.head? = some 47
  · simp [hf, eq_comm]
  · simp only [beq_eq_false_iff_ne.mpr hf, cond_false, hf, if_false]
    cases hd : dirOf fn with
    | none =>
      simp only [reduceCtorEq, false_iff]
      rintro ⟨d, h, _⟩
      rw [dirOf_iff.mpr h] at hd; cases hd
    | some d =>
      simp only [Outcome.ok.injEq]
      constructor
      · rintro rfl; exact ⟨d, dirOf_iff.mp hd, rfl⟩
      · rintro ⟨d', h, rfl⟩
        rw [dirOf_iff.mpr h] at hd; cases hd; rfl

/-! ### Directives -/

theorem inZone_eq {z : Z} {c : Ctx} (R : Rel z c) {n : List Bytes} (hn : WF n) : inZone z (encode n true) = .ok (if c.zone <:+ n then some () else none) := by
  unfold inZone
  rw [R.zone]
  have := C04_isinzone c.zone n R.wz hn [] []
  rw [List.append_nil, List.append_nil] at this
  rw [this]
  by_cases h : c.zone <:+ n <;> simp [h]

theorem resolves_wf {c : Ctx} {t : Bytes} {n : List Bytes} (h : Resolves c t n) : WF n := by
  obtain ⟨_, _, _, _, h, _⟩ := h; exact h

theorem rel_ttl {z : Z} {c : Ctx} (R : Rel z c) (v : UInt32) : Rel { z with defTtl := v } { c with ttl := v } :=
  ⟨R.zone, R.origin, R.fileOrigin, R.wz, R.wo, R.wf, R.io, R.iff, R.wown, R.lhs, rfl, R.fn⟩

theorem rel_origin {z : Z} {c : Ctx} (R : Rel z c) {n : List Bytes} (hn : WF n) (hs : c.zone <:+ n) :
    Rel { z with origin := encode n true } { c with origin := n } :=
  ⟨R.zone, rfl, R.fileOrigin, R.wz, hn, R.wf, hs, R.iff, R.wown, R.lhs, R.ttl, R.fn⟩

theorem rel_owner {z : Z} {c : Ctx} (R : Rel z c) {n : List Bytes} {d : Bytes} {ooz : Bool} (hn : WF n) (h : OwnerIs c d ooz n) :
    Rel { z with lhs := d, ooz := ooz } { c with owner := n } :=
  ⟨R.zone, R.origin, R.fileOrigin, R.wz, R.wo, R.wf, R.io, R.iff, hn, h, R.ttl, R.fn⟩

/-- What the effect of a statement means. -/
def EffOk (I : Bytes → List Bytes → UInt32 → List Add → Prop) (c : Ctx) : Eff → List Add → Prop
  | .nothing, l => l = []
  | .add a, l => l = [a]
  | .incl p o, l => ∃ n, o = encode n true ∧ WF n ∧ c.zone <:+ n ∧ I p n c.ttl l

/-- Files are included for names in the zone. -/
def InclOk (c : Ctx) : Eff → Prop
  | .incl _ o => ∃ n, o = encode n true ∧ WF n ∧ c.zone <:+ n
  | _ => True

theorem incl_sound {z : Z} {c : Ctx} (R : Rel z c) {s r : Bytes} {e : Eff} (h : inclCmd z s = .ok (some (e, r))) :
    ∃ b t f o p, Blank b ∧ Word t f ∧ f ≠ [] ∧ DnameSpec.Unesc f o ∧ Path c.fn (o.takeWhile fun c => c != 0) p ∧
      ((s = b ++ t ++ r ∧ ends r = true ∧ blank r = false ∧ e = .incl p (encode c.origin true)) ∨
       ∃ b' u n, s = b ++ t ++ b' ++ u ++ r ∧ Blank b' ∧ Name c u (encode n true) ∧ WF n ∧ c.zone <:+ n ∧ ends r = true ∧ e = .incl p (encode n true)) := by
  unfold inclCmd at h
  cases h1 : ws s with
  | none => rw [h1] at h; simp at h
  | some s1 =>
    obtain ⟨b, b1, b2, _⟩ := ws_sound h1
    rw [h1] at h
    simp only at h
    cases h2 : word s1 with
    | none => rw [h2] at h; simp at h
    | some x =>
      obtain ⟨f, q⟩ := x
      obtain ⟨t, t1, t2, _⟩ := word_sound h2
      rw [h2] at h
      simp only at h
      cases he : ends q with
      | false => rw [he] at h; simp at h
      | true =>
        rw [he] at h
        simp only [cond_true] at h
        cases hf : f.isEmpty with
        | true => rw [hf] at h; simp at h
        | false =>
          rw [hf] at h
          simp only [cond_false] at h
          have hf0 : f ≠ [] := by rintro rfl; simp at hf
          obtain ⟨o, h3, h4⟩ := andThen_some.mp h
          have hu := (unesc_iff' _ _).mp h3
          obtain ⟨⟨d, r1⟩, h5, h6⟩ := andThen_some.mp h4
          obtain ⟨_, h7, h8⟩ := andThen_some.mp h6
          cases hz : zfn z.fn (cstr o) with
          | ub => rw [hz] at h8; simp at h8
          | ok p =>
            rw [hz] at h8
            simp only [Outcome.bind_ok, Outcome.ok.injEq, Option.some.injEq, Prod.mk.injEq] at h8
            obtain ⟨rfl, rfl⟩ := h8
            rw [R.fn] at hz
            have hp := zfn_iff.mp hz
            refine ⟨b, t, f, o, p, b1, t2, hf0, hu, hp, ?_⟩
            cases hb : blank q with
            | false =>
              rw [hb] at h5
              simp only [cond_false, Outcome.ok.injEq, Option.some.injEq, Prod.mk.injEq] at h5
              obtain ⟨rfl, rfl⟩ := h5
              exact .inl ⟨by rw [b2, t1]; simp, he, hb, by rw [R.origin]⟩
            | true =>
              rw [hb] at h5
              simp only [cond_true] at h5
              obtain ⟨b', c1, c2, _⟩ := blank_sound hb
              cases h9 : nameTok (run isWs q).2 with
              | none => rw [h9] at h5; simp at h5
              | some x =>
                obtain ⟨v, q2⟩ := x
                rw [h9] at h5
                simp only at h5
                cases he2 : ends q2 with
                | false => rw [he2] at h5; simp at h5
                | true =>
                  rw [he2] at h5
                  simp only [cond_true] at h5
                  obtain ⟨dd, g1, g2⟩ := andThen_some.mp h5
                  simp only [Outcome.ok.injEq, Option.some.injEq, Prod.mk.injEq] at g2
                  obtain ⟨rfl, rfl⟩ := g2
                  obtain ⟨hv, n, hn, rfl⟩ := name_field R g1
                  obtain ⟨u, u1, u2, u3⟩ := nameTok_sound h9
                  have hw := resolves_wf hn
                  simp only at h7
                  rw [inZone_eq R hw] at h7
                  have hin : c.zone <:+ n := by
                    by_cases hin : c.zone <:+ n
                    · exact hin
                    · simp [hin] at h7
                  refine .inr ⟨b', u, n, ?_, c1, ⟨u3, v, n, hv, u2, hn, rfl⟩, hw, hin, he2, rfl⟩
                  rw [b2, t1, c2, u1]; simp

theorem incl_complete {z : Z} {c : Ctx} (R : Rel z c) {b t f o p r : Bytes} (hb : Blank b) (ht : Word t f) (hf : f ≠ []) (hu : DnameSpec.Unesc f o)
    (hp : Path c.fn (o.takeWhile fun c => c != 0) p) (hr : ends r = true) :
    (blank r = false → inclCmd z (b ++ t ++ r) = .ok (some (.incl p (encode c.origin true), r))) ∧
    (∀ b' u n, Blank b' → Name c u (encode n true) → WF n → c.zone <:+ n →
      inclCmd z (b ++ t ++ b' ++ u ++ r) = .ok (some (.incl p (encode n true), r))) := by
  have hz := zfn_iff.mpr hp
  rw [← R.fn] at hz
  have hfe : f.isEmpty = false := by cases f; exact absurd rfl hf; rfl
  have hws : ∀ {r : Bytes}, ∀ c, (t ++ r).head? = some c → isWs c = false := by
    intro r c hc
    obtain ⟨x, t', rfl, hx, _⟩ := word_first ht
    simp at hc; subst hc; exact hx
  constructor
  · intro hbl
    unfold inclCmd
    rw [List.append_assoc, ws_complete hb hws]
    simp only
    rw [word_complete ht (.inr (ends_word hr))]
    simp only [hr, cond_true, hfe, cond_false]
    rw [(unesc_iff' _ _).mpr hu]
    simp only [andThen_ok, hbl, cond_false]
    rw [R.origin, inZone_eq R R.wo]
    simp only [R.io, if_true, andThen_ok]
    rw [show cstr o = o.takeWhile fun c => c != 0 from rfl, hz]
    rfl
  · intro b' u n hb' hname hw hin
    obtain ⟨h36, v, m, hv, hword, hres, henc⟩ := hname
    have hnm : n = m := encode_lhs_inj hw (resolves_wf hres) henc
    subst hnm
    unfold inclCmd
    rw [show b ++ t ++ b' ++ u ++ r = b ++ (t ++ (b' ++ (u ++ r))) by simp, ws_complete hb hws]
    simp only
    rw [word_complete ht (.inr (ends_word (ends_of_blank hb')))]
    have huws : ∀ c, (u ++ r).head? = some c → isWs c = false := by
      intro c hc
      obtain ⟨x, t', rfl, hx, _⟩ := word_first hword
      simp at hc; subst hc; exact hx
    simp only [ends_of_blank hb', blank_append hb', cond_true, hfe, cond_false]
    rw [(unesc_iff' _ _).mpr hu]
    simp only [andThen_ok]
    rw [run_blank hb' huws]
    simp only
    rw [nameTok_complete hword h36 hr]
    simp only [hr, cond_true]
    rw [name_field' R hv hres]
    simp only [andThen_ok]
    rw [inZone_eq R hw]
    simp only [hin, if_true, andThen_ok]
    rw [show cstr o = o.takeWhile fun c => c != 0 from rfl, hz]
    rfl

/-! ### Statements -/

theorem one_field_sound {cfg : Cfg} {z : Z} {c : Ctx} (R : Rel z c) {k : Kind} {s r : Bytes} {vs : List Val} (h : fields cfg z [k] s = .ok (some (vs, r))) :
    ∃ w v, s = w ++ r ∧ vs = [v] ∧ F cfg c k w v ∧ ends r = true := by
  obtain ⟨t, ws', e1, e2, e3, e4⟩ := fields_sound R (by simp) h
  obtain ⟨w, ws2, v, vs2, rfl, rfl, f1, f2⟩ := Fs_cons e3
  obtain ⟨rfl, rfl⟩ := Fs_nil f2
  cases e2 with
  | one => exact ⟨_, v, e1, rfl, f1, e4⟩
  | cons _ h => cases h

theorem one_field_complete {cfg : Cfg} {z : Z} {c : Ctx} (R : Rel z c) {k : Kind} {w r : Bytes} {v : Val} (h : F cfg c k w v) (hr : ends r = true) :
    fields cfg z [k] (w ++ r) = .ok (some ([v], r)) := fields_complete R (.one w) ⟨h, trivial⟩ hr

theorem cmd_sound {cfg : Cfg} {I : Bytes → List Bytes → UInt32 → List Add → Prop} {z z' : Z} {c : Ctx} (R : Rel z c) {s r : Bytes} {e : Eff}
    (h : cmd cfg z s = .ok (some (e, z', r))) :
    ∃ t may c', s = t ++ r ∧ ends r = true ∧ (may = false → blank r = false) ∧ Rel z' c' ∧ c'.zone = c.zone ∧ (∀ l, EffOk I c' e l → Statement cfg I c (36 :: t) may c' l) ∧
      InclOk c e := by
  unfold cmd at h
  have hs := run_split isAlpha s
  by_cases h1 : (run isAlpha s).1.map low = [116, 116, 108]
  · have hk : Keyword "ttl" (run isAlpha s).1 := keyword_sound (by rw [h1]; decide)
    simp only [h1, beq_self_eq_true, cond_true] at h
    cases h2 : ws (run isAlpha s).2 with
    | none => rw [h2] at h; simp at h
    | some q =>
      obtain ⟨b, b1, b2, _⟩ := ws_sound h2
      rw [h2] at h
      simp only at h
      obtain ⟨⟨vs, r'⟩, h3, h4⟩ := andThen_some.mp h
      obtain ⟨w, v, e1, rfl, ⟨n, rfl, hn⟩, e4⟩ := one_field_sound R h3
      simp only [Outcome.ok.injEq, Option.some.injEq, Prod.mk.injEq] at h4
      obtain ⟨rfl, rfl, rfl⟩ := h4
      refine ⟨(run isAlpha s).1 ++ b ++ w, true, { c with ttl := n }, ?_, e4, by simp, rel_ttl R n, rfl, ?_, trivial⟩
      · rw [List.append_assoc, List.append_assoc, ← e1, ← b2]; exact hs
      · rintro l rfl
        exact .ttl hk b1 hn
  · simp only [beq_eq_false_iff_ne.mpr h1, cond_false] at h
    by_cases h2 : (run isAlpha s).1.map low = [111, 114, 105, 103, 105, 110]
    · have hk : Keyword "origin" (run isAlpha s).1 := keyword_sound (by rw [h2]; decide)
      simp only [h2, beq_self_eq_true, cond_true] at h
      cases h3 : ws (run isAlpha s).2 with
      | none => rw [h3] at h; simp at h
      | some q =>
        obtain ⟨b, b1, b2, _⟩ := ws_sound h3
        rw [h3] at h
        simp only at h
        obtain ⟨⟨vs, r'⟩, h4, h5⟩ := andThen_some.mp h
        obtain ⟨w, v, e1, rfl, ⟨d, rfl, hn⟩, e4⟩ := one_field_sound R h4
        obtain ⟨_, h6, h7⟩ := andThen_some.mp h5
        simp only [Outcome.ok.injEq, Option.some.injEq, Prod.mk.injEq] at h7
        obtain ⟨rfl, rfl, rfl⟩ := h7
        obtain ⟨a1, t, n, a2, a3, a4, rfl⟩ := id hn
        have hw := resolves_wf a4
        rw [inZone_eq R hw] at h6
        have hin : c.zone <:+ n := by
          by_cases hin : c.zone <:+ n
          · exact hin
          · simp [hin] at h6
        refine ⟨(run isAlpha s).1 ++ b ++ w, true, { c with origin := n }, ?_, e4, by simp, rel_origin R hw hin, rfl, ?_, trivial⟩
        · rw [List.append_assoc, List.append_assoc, ← e1, ← b2]; exact hs
        · rintro l rfl
          exact .origin hk b1 hn hw hin
    · simp only [beq_eq_false_iff_ne.mpr h2, cond_false] at h
      by_cases h3 : (run isAlpha s).1.map low = [105, 110, 99, 108, 117, 100, 101]
      · have hk : Keyword "include" (run isAlpha s).1 := keyword_sound (by rw [h3]; decide)
        simp only [h3, beq_self_eq_true, cond_true] at h
        obtain ⟨⟨e', r'⟩, h4, h5⟩ := andThen_some.mp h
        simp only [Outcome.ok.injEq, Option.some.injEq, Prod.mk.injEq] at h5
        obtain ⟨rfl, rfl, rfl⟩ := h5
        obtain ⟨b, t, f, o, p, g1, g2, g3, g4, g5, g6⟩ := incl_sound R h4
        rcases g6 with ⟨g6, g7, g8, rfl⟩ | ⟨b', u, n, g6, g7, g8, g9, g10, g11, rfl⟩
        · refine ⟨(run isAlpha s).1 ++ b ++ t, false, c, ?_, g7, fun _ => g8, R, rfl, ?_, ⟨_, rfl, R.wo, R.io⟩⟩
          · rw [List.append_assoc, List.append_assoc, ← List.append_assoc b, ← g6]; exact hs
          · rintro l ⟨n, i1, i2, i3, i4⟩
            have := encode_lhs_inj R.wo i2 i1
            subst this
            exact .incl hk g1 g2 g3 g4 g5 i4
        · refine ⟨(run isAlpha s).1 ++ b ++ t ++ b' ++ u, true, c, ?_, g11, by simp, R, rfl, ?_, ⟨_, rfl, g9, g10⟩⟩
          · rw [show (run isAlpha s).1 ++ b ++ t ++ b' ++ u ++ r' = (run isAlpha s).1 ++ (b ++ t ++ b' ++ u ++ r') by simp, ← g6]; exact hs
          · rintro l ⟨m, i1, i2, i3, i4⟩
            have := encode_lhs_inj g9 i2 i1
            subst this
            exact .inclOrigin hk g1 g2 g3 g4 g5 g7 g8 g9 g10 i4
      · simp only [beq_eq_false_iff_ne.mpr h3, cond_false] at h
        simp at h

theorem statement_sound {cfg : Cfg} {I : Bytes → List Bytes → UInt32 → List Add → Prop} {z z' : Z} {c : Ctx} (R : Rel z c) {s r : Bytes} {e : Eff}
    (h : statement cfg z s = .ok (some (e, z', r))) :
    ∃ t r' may c', s = t ++ r' ∧ eol r' = eol r ∧ (may = false → blank r' = false) ∧ Rel z' c' ∧ c'.zone = c.zone ∧ (∀ l, EffOk I c' e l → Statement cfg I c t may c' l) ∧
      InclOk c e := by
  unfold statement at h
  cases s with
  | nil => simp at h
  | cons x s =>
    simp only at h
    by_cases h10 : x = 10
    · subst h10
      simp only [beq_self_eq_true, cond_true, Outcome.ok.injEq, Option.some.injEq, Prod.mk.injEq] at h
      obtain ⟨rfl, rfl, rfl⟩ := h
      exact ⟨[], _, true, c, rfl, rfl, by simp, R, rfl, by rintro l rfl; exact .empty, trivial⟩
    · simp only [beq_eq_false_iff_ne.mpr h10, cond_false] at h
      by_cases h36 : x = 36
      · subst h36
        simp only [beq_self_eq_true, cond_true] at h
        obtain ⟨t, may, c', e1, e2, e3, e4, e5, e6, e7⟩ := cmd_sound (I := I) R h
        exact ⟨36 :: t, r, may, c', by rw [e1]; rfl, rfl, e3, e4, e5, e6, e7⟩
      · simp only [beq_eq_false_iff_ne.mpr h36, cond_false] at h
        cases hws : isWs x with
        | true =>
          rw [hws] at h
          simp only [cond_true] at h
          cases hl : ((run isWs (x :: s)).2.headD 0 == 10) with
          | true =>
            rw [hl] at h
            simp only [cond_true, Outcome.ok.injEq, Option.some.injEq, Prod.mk.injEq] at h
            obtain ⟨rfl, rfl, rfl⟩ := h
            exact ⟨[], _, true, c, rfl, rfl, by simp, R, rfl, by rintro l rfl; exact .empty, trivial⟩
          | false =>
            rw [hl] at h
            simp only [cond_false] at h
            obtain ⟨⟨a, r1⟩, h1, h2⟩ := andThen_some.mp h
            simp only [Outcome.ok.injEq, Option.some.injEq, Prod.mk.injEq] at h2
            obtain ⟨rfl, rfl, rfl⟩ := h2
            obtain ⟨t, r', e1, e2, e3, e4⟩ := record_sound R h1
            obtain ⟨b, b1, b2, _⟩ := blank_sound (r := x :: s) hws
            refine ⟨b ++ t, r', true, c, ?_, e4, by simp, R, rfl, by rintro l rfl; exact .again b1 e2, trivial⟩
            rw [List.append_assoc, ← e1]; exact b2
        | false =>
          rw [hws] at h
          simp only [cond_false] at h
          cases hn : nameTok (x :: s) with
          | none => rw [hn] at h; simp at h
          | some y =>
            obtain ⟨u, q⟩ := y
            rw [hn] at h
            simp only at h
            cases hb : blank q with
            | false => rw [hb] at h; simp at h
            | true =>
              rw [hb] at h
              simp only [cond_true] at h
              obtain ⟨⟨d, ooz⟩, h1, h2⟩ := andThen_some.mp h
              obtain ⟨⟨a, r1⟩, h3, h4⟩ := andThen_some.mp h2
              simp only [Outcome.ok.injEq, Option.some.injEq, Prod.mk.injEq] at h4
              obtain ⟨rfl, rfl, rfl⟩ := h4
              obtain ⟨w, w1, w2, w3⟩ := nameTok_sound hn
              obtain ⟨b, b1, b2, _⟩ := blank_sound hb
              rcases dnameSet_lhs z c R u with ⟨n, d', ooz', g1, g2, g3, g4⟩ | ⟨_, g4⟩
              · rw [h1] at g4
                simp only [Outcome.ok.injEq, Option.some.injEq, Prod.mk.injEq] at g4
                obtain ⟨rfl, rfl⟩ := g4
                have R' := rel_owner R g2 g3
                obtain ⟨t, r', e1, e2, e3, e4⟩ := record_sound R' h3
                refine ⟨w ++ b ++ t, r', true, { c with owner := n }, ?_, e4, by simp, R', rfl, by rintro l rfl; exact .owner ⟨w3, u, w2, g1⟩ b1 e2, trivial⟩
                rw [w1, b2, e1]; simp
              · rw [h1] at g4; simp at g4

theorem statement_complete {cfg : Cfg} {I : Bytes → List Bytes → UInt32 → List Add → Prop} {z : Z} {c c' : Ctx} (R : Rel z c) {t r q : Bytes} {may : Bool} {l : List Add}
    (h : Statement cfg I c t may c' l) (hr : eol r = some q) (hm : may = false → blank r = false) :
    ∃ e z' r', statement cfg z (t ++ r) = .ok (some (e, z', r')) ∧ eol r' = some q ∧ Rel z' c' ∧ EffOk I c' e l := by
  have hend := eol_ends hr
  have hkw : ∀ {k : String} {w b s : Bytes}, Keyword k w → Blank b → run isAlpha (w ++ (b ++ s)) = (w, b ++ s) ∧ w.map low = str k :=
    fun hk hb => keyword_complete hk (blank_alpha hb)
  have hrec : ∀ {u : Bytes} {a : Add} {c : Ctx}, Record cfg c u a → ∀ x, (u ++ r).head? = some x → isWs x = false ∧ x ≠ 10 := by
    intro u a c h x hx
    obtain ⟨y, u', rfl, hy⟩ := record_first h
    simp at hx; subst hx
    rcases hy with hy | hy
    · exact ⟨digit_not_ws hy, by rintro rfl; cases hy⟩
    · exact ⟨alpha_not_ws hy, by rintro rfl; cases hy⟩
  have hcmd : ∀ s, statement cfg z (36 :: s) = cmd cfg z s := fun s => rfl
  cases h with
  | empty =>
    refine ⟨.nothing, z, r, ?_, hr, R, rfl⟩
    rw [List.nil_append]
    obtain ⟨b, hb, rfl⟩ := eol_some.mp hr
    unfold statement
    cases b with
    | nil => rfl
    | cons x b =>
      simp only [List.cons_append]
      have hx := hb x (by simp)
      have x10 : x ≠ 10 := by rintro rfl; cases hx
      have x36 : x ≠ 36 := by rintro rfl; cases hx
      simp only [beq_eq_false_iff_ne.mpr x10, beq_eq_false_iff_ne.mpr x36, cond_false, hx, cond_true]
      rw [show x :: (b ++ 10 :: q) = (x :: b) ++ 10 :: q from rfl, run_append isWs (x :: b) (10 :: q) hb (by intro c hc; simp at hc; subst hc; rfl)]
      rfl
  | again hb hre =>
    rename_i b s a
    obtain ⟨r', g1, g2⟩ := record_complete R hre hr
    refine ⟨.add a, z, r', ?_, g2, R, rfl⟩
    obtain ⟨b0, b1⟩ := (blank_iff b).mp hb
    have hrun := run_blank hb (r := s ++ r) (fun x hx => (hrec hre x hx).1)
    cases b with
    | nil => exact absurd rfl b0
    | cons x b =>
      have hx := b1 x (by simp)
      have x10 : x ≠ 10 := by rintro rfl; cases hx
      have x36 : x ≠ 36 := by rintro rfl; cases hx
      rw [show x :: b ++ s ++ r = x :: (b ++ (s ++ r)) by simp]
      unfold statement
      simp only [beq_eq_false_iff_ne.mpr x10, beq_eq_false_iff_ne.mpr x36, cond_false, hx, cond_true]
      rw [show x :: (b ++ (s ++ r)) = x :: b ++ (s ++ r) by simp, hrun]
      have hh : ((s ++ r).headD 0 == 10) = false := by
        rw [beq_eq_false_iff_ne]
        obtain ⟨y, u', hy, _⟩ := record_first hre
        rw [hy]
        exact (hrec hre y (by rw [hy]; rfl)).2
      simp only [hh, cond_false]
      rw [g1]
      rfl
  | owner ho hb hre =>
    rename_i w n b s a
    obtain ⟨h36, u, hw, hn⟩ := ho
    rcases dnameSet_lhs z c R u with ⟨n', d, ooz, g1, g2, g3, g4⟩ | ⟨g1, _⟩
    · have hnn : n' = n := by
        by_cases hu : u = []
        · rw [if_pos hu] at g1 hn; rw [g1, hn]
        · rw [if_neg hu] at g1 hn; exact resolves_unique g1 hn
      subst hnn
      have R' := rel_owner R g2 g3
      obtain ⟨r', e1, e2⟩ := record_complete R' hre hr
      refine ⟨.add a, _, r', ?_, e2, R', rfl⟩
      have hrun := run_blank hb (r := s ++ r) (fun x hx => (hrec hre x hx).1)
      have htok := nameTok_complete hw h36 (ends_of_blank hb (r := s ++ r))
      obtain ⟨x, w', hx, x1, x2, _⟩ := word_first hw
      have x36 : x ≠ 36 := by rintro rfl; rw [hx] at h36; exact h36 rfl
      rw [show w ++ b ++ s ++ r = w ++ (b ++ (s ++ r)) by simp]
      rw [hx] at htok ⊢
      simp only [List.cons_append] at htok ⊢
      unfold statement
      simp only [beq_eq_false_iff_ne.mpr x2, beq_eq_false_iff_ne.mpr x36, cond_false, x1]
      rw [htok]
      simp only [blank_append hb, cond_true]
      rw [g4]
      simp only [andThen_ok]
      rw [hrun]
      simp only
      rw [e1]
      rfl
    · exact absurd ⟨n, hn⟩ g1
  | ttl hk hb ht =>
    rename_i w b u v
    refine ⟨.nothing, _, r, ?_, hr, rel_ttl R v, rfl⟩
    obtain ⟨e1, e2⟩ := hkw hk hb (s := u ++ r)
    rw [show 36 :: w ++ b ++ u ++ r = 36 :: (w ++ (b ++ (u ++ r))) by simp, hcmd]
    unfold cmd
    rw [e1]
    simp only [e2]
    have : (str "ttl" == [116, 116, 108]) = true := by decide
    rw [this]
    simp only [cond_true]
    have hF : F cfg c .ttl u (.num v) := ⟨v, rfl, ht⟩
    obtain ⟨x, u', hx, hx1, _⟩ := F_head hF
    rw [ws_complete hb (by rw [hx]; intro y hy; simp at hy; subst hy; exact hx1)]
    simp only
    rw [one_field_complete R hF hend]
    rfl
  | origin hk hb hname hw hin =>
    rename_i w b u n
    refine ⟨.nothing, _, r, ?_, hr, rel_origin R hw hin, rfl⟩
    obtain ⟨e1, e2⟩ := hkw hk hb (s := u ++ r)
    rw [show 36 :: w ++ b ++ u ++ r = 36 :: (w ++ (b ++ (u ++ r))) by simp, hcmd]
    unfold cmd
    rw [e1]
    simp only [e2]
    have t1 : (str "origin" == [116, 116, 108]) = false := by decide
    have t2 : (str "origin" == [111, 114, 105, 103, 105, 110]) = true := by decide
    rw [t1, t2]
    simp only [cond_true, cond_false]
    have hF : F cfg c .name u (.bytes (encode n true)) := ⟨_, rfl, hname⟩
    obtain ⟨x, u', hx, hx1, _⟩ := F_head hF
    rw [ws_complete hb (by rw [hx]; intro y hy; simp at hy; subst hy; exact hx1)]
    simp only
    rw [one_field_complete R hF hend]
    simp only [andThen_ok]
    rw [inZone_eq R hw]
    simp [hin]
  | incl hk hb ht hf hu hp hI =>
    rename_i w b u f o p
    refine ⟨.incl p (encode c.origin true), z, r, ?_, hr, R, ⟨_, rfl, R.wo, R.io, hI⟩⟩
    obtain ⟨e1, e2⟩ := hkw hk hb (s := u ++ r)
    rw [show 36 :: w ++ b ++ u ++ r = 36 :: (w ++ (b ++ (u ++ r))) by simp, hcmd]
    unfold cmd
    rw [e1]
    simp only [e2]
    have t1 : (str "include" == [116, 116, 108]) = false := by decide
    have t2 : (str "include" == [111, 114, 105, 103, 105, 110]) = false := by decide
    have t3 : (str "include" == [105, 110, 99, 108, 117, 100, 101]) = true := by decide
    rw [t1, t2, t3]
    simp only [cond_true, cond_false]
    rw [← List.append_assoc, (incl_complete R hb ht hf hu hp hend).1 (hm rfl)]
    rfl
  | inclOrigin hk hb ht hf hu hp hb' hname hw hin hI =>
    rename_i w b u f o p b' v n
    refine ⟨.incl p (encode n true), z, r, ?_, hr, R, ⟨_, rfl, hw, hin, hI⟩⟩
    obtain ⟨e1, e2⟩ := hkw hk hb (s := u ++ b' ++ v ++ r)
    rw [show 36 :: w ++ b ++ u ++ b' ++ v ++ r = 36 :: (w ++ (b ++ (u ++ b' ++ v ++ r))) by simp, hcmd]
    unfold cmd
    rw [e1]
    simp only [e2]
    have t1 : (str "include" == [116, 116, 108]) = false := by decide
    have t2 : (str "include" == [111, 114, 105, 103, 105, 110]) = false := by decide
    have t3 : (str "include" == [105, 110, 99, 108, 117, 100, 101]) = true := by decide
    rw [t1, t2, t3]
    simp only [cond_true, cond_false]
    rw [show b ++ (u ++ b' ++ v ++ r) = b ++ u ++ b' ++ v ++ r by simp, (incl_complete R hb ht hf hu hp hend).2 b' v n hb' hname hw hin]
    rfl

/-! ### Lines and files -/

theorem lines_sound {cfg : Cfg} {I : Bytes → List Bytes → UInt32 → List Add → Prop} {incl : Bytes → Bytes → UInt32 → Outcome (Option (List Add))}
    {zone : List Bytes}
    (hI : ∀ p n ttl l, WF n → zone <:+ n → incl p (encode n true) ttl = .ok (some l) → I p n ttl l)
    (f : Nat) {z : Z} {c : Ctx} (hz : c.zone = zone) (R : Rel z c) {s : Bytes} {l : List Add} (h : lines cfg incl f z s = .ok (some l)) : Lines cfg I c s l := by
  induction f generalizing z c s l with
  | zero => cases h
  | succ f ih =>
    unfold lines at h
    cases he : s.isEmpty with
    | true =>
      rw [he] at h
      simp only [cond_true, Outcome.ok.injEq, Option.some.injEq] at h
      subst h
      have : s = [] := by cases s; rfl; cases he
      subst this
      exact .nil
    | false =>
      rw [he] at h
      simp only [cond_false] at h
      obtain ⟨⟨e, z', r⟩, h1, h2⟩ := andThen_some.mp h
      obtain ⟨l1, h3, h4⟩ := andThen_some.mp h2
      obtain ⟨t, r', may, c', e1, e2, e3, e4, e5, e6, e7⟩ := statement_sound (I := I) R h1
      cases h5 : eol r with
      | none => simp only [h5] at h4; simp at h4
      | some q =>
        simp only [h5] at h4
        obtain ⟨m, h6, h7⟩ := andThen_some.mp h4
        simp only [Outcome.ok.injEq, Option.some.injEq] at h7
        subst h7
        have hl := ih (e5.trans hz) e4 h6
        have heff : EffOk I c' e l1 := by
          cases e with
          | nothing => cases h3; rfl
          | add a => cases h3; rfl
          | incl p o =>
            obtain ⟨n, rfl, n2, n3⟩ := e7
            exact ⟨n, rfl, n2, by rw [e5]; exact n3, by rw [← e4.ttl]; exact hI p n _ l1 n2 (hz ▸ n3) h3⟩
        rw [h5] at e2
        obtain ⟨b, b1, b2⟩ := eol_some.mp e2
        rw [e1, b2, ← List.append_assoc]
        refine .cons (may := may) (e6 l1 heff) ?_ hl
        cases b with
        | nil => exact .inl rfl
        | cons x b =>
          right
          refine ⟨?_, (blank_iff _).mpr ⟨by simp, b1⟩⟩
          cases may with
          | true => rfl
          | false =>
            have := e3 rfl
            rw [b2] at this
            simp only [List.cons_append, blank, b1 x (by simp)] at this
            cases this

theorem statement_zone {cfg : Cfg} {I : Bytes → List Bytes → UInt32 → List Add → Prop} {c c' : Ctx} {t : Bytes} {may : Bool} {l : List Add}
    (h : Statement cfg I c t may c' l) : c'.zone = c.zone := by cases h <;> rfl

theorem lines_complete {cfg : Cfg} {I : Bytes → List Bytes → UInt32 → List Add → Prop} {incl : Bytes → Bytes → UInt32 → Outcome (Option (List Add))}
    {zone : List Bytes}
    (hI : ∀ p n ttl l, WF n → zone <:+ n → I p n ttl l → incl p (encode n true) ttl = .ok (some l))
    {c : Ctx} {s : Bytes} {l : List Add} (h : Lines cfg I c s l) (hz : c.zone = zone) (f : Nat) (hf : s.length < f) {z : Z} (R : Rel z c) :
    lines cfg incl f z s = .ok (some l) := by
  induction h generalizing f z with
  | nil =>
    cases f with
    | zero => simp at hf
    | succ f => rfl
  | cons hst hb hl ih =>
    rename_i c s may b c' l r m
    cases f with
    | zero => simp at hf
    | succ f =>
      have hr : eol (b ++ 10 :: r) = some r := by
        refine eol_some.mpr ⟨b, ?_, rfl⟩
        rcases hb with rfl | ⟨_, hb⟩
        · simp
        · exact ((blank_iff b).mp hb).2
      have hm : may = false → blank (b ++ 10 :: r) = false := by
        rintro rfl
        rcases hb with rfl | ⟨hc, _⟩
        · rfl
        · cases hc
      obtain ⟨e, z', r', g1, g2, g3, g4⟩ := statement_complete R hst hr hm
      have hzz := (statement_zone hst).trans hz
      unfold lines
      have hne : (s ++ b ++ 10 :: r).isEmpty = false := by cases s <;> cases b <;> rfl
      rw [hne, List.append_assoc, g1]
      simp only [cond_false, andThen_ok]
      have hx : effect incl z'.defTtl e = .ok (some l) := by
        cases e with
        | nothing => rw [show l = [] from g4]; rfl
        | add a => rw [show l = [a] from g4]; rfl
        | incl p o =>
          obtain ⟨n, rfl, n2, n3, n4⟩ := g4
          rw [← g3.ttl] at n4
          exact hI p n _ l n2 (hzz ▸ n3) n4
      rw [hx]
      simp only [andThen_ok, g2]
      rw [ih hzz f (by simp at hf; omega) g3]
      rfl

theorem rel_start {zone origin : List Bytes} (hz : WF zone) (ho : WF origin) (hin : zone <:+ origin) (fn : Bytes) (ttl : UInt32) :
    Rel ⟨encode zone true, encode origin true, encode origin true, [1, 0], false, ttl, fn⟩ ⟨zone, origin, origin, zone, ttl, fn⟩ := by
  refine ⟨rfl, rfl, rfl, hz, ho, ho, hin, hin, hz, ?_, rfl, rfl⟩
  rw [if_neg (by simp [outside])]
  exact ⟨rfl, [], rfl, rfl⟩

theorem scanFile_iff (cfg : Cfg) (zone : List Bytes) (hz : WF zone) (depth : Nat) (fn : Bytes) (origin : List Bytes) (ho : WF origin) (hin : zone <:+ origin)
    (ttl : UInt32) (l : List Add) :
    scanFile cfg (encode zone true) depth fn (encode origin true) ttl = .ok (some l) ↔ Holds cfg zone depth fn origin ttl l := by
  induction depth generalizing fn origin ttl l with
  | zero =>
    unfold scanFile Holds
    simp
  | succ depth ih =>
    have hI : ∀ p n ttl l, WF n → zone <:+ n → (scanFile cfg (encode zone true) depth p (encode n true) ttl = .ok (some l) ↔ Holds cfg zone depth p n ttl l) :=
      fun p n ttl l hn hs => ih p n hn hs ttl l
    unfold scanFile Holds
    have R := rel_start hz ho hin fn ttl
    constructor
    · intro h
      cases hfile : cfg.files fn with
      | none => rw [hfile] at h; simp at h
      | some text =>
        rw [hfile] at h
        simp only at h
        cases he : text.isEmpty with
        | true => rw [he] at h; simp [assert] at h
        | false =>
          rw [he] at h
          simp only [Bool.not_false, assert, if_true, Outcome.bind_ok] at h
          have hne : text ≠ [] := by rintro rfl; cases he
          by_cases hl : text.getLast? = some 10
          · simp only [hl, bne_self_eq_false, cond_false] at h
            cases hp : pre false false .plain 1 text with
            | ub => rw [hp] at h; simp at h
            | ok e =>
              rw [hp] at h
              simp only [Outcome.bind_ok] at h
              cases e with
              | error _ => simp at h
              | ok out =>
                simp only at h
                refine ⟨text, out, rfl, hne, hl, (flattens_iff text out 1).mp hp, ?_⟩
                exact lines_sound (zone := zone) (fun p n ttl l hn hs hh => (hI p n ttl l hn hs).mp hh) _ rfl R h
          · have : (text.getLast? != some 10) = true := by simpa using hl
            rw [this] at h
            simp at h
    · rintro ⟨text, out, h1, h2, h3, h4, h5⟩
      rw [h1]
      simp only
      have he : text.isEmpty = false := by cases text; exact absurd rfl h2; rfl
      rw [he]
      simp only [Bool.not_false, assert, if_true, Outcome.bind_ok, h3, bne_self_eq_false, cond_false]
      rw [(flattens_iff text out 1).mpr h4]
      simp only [Outcome.bind_ok]
      exact lines_complete (zone := zone) (fun p n ttl l hn hs hh => (hI p n ttl l hn hs).mpr hh) h5 rfl _ (by omega) R

end Gdnsd.Zscan
