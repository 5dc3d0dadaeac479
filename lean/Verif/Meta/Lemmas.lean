/-
Lemmas: what is inherited, and the stanzas that are made.
-/
import Verif.Meta.Spec
import Verif.Res.MfView
import Verif.Conf.Props
import Verif.Dname.Props
import Verif.Conf.LoadProps
namespace Gdnsd.Meta
open Vscf VscfSpec Conf ConfSpec SvcSpec MetaSpec
open ResSpec (Others SvcsOf FlagOf)
open Res (Lib texts svcNames label marks marks_eq others others_iff clean_sound cleanOf_sound find_setMark find_append)

/-! ### Inheritance -/

/-- What is inherited. -/
def miss (ks : List Bytes) (own es : List (Entry Val)) : List (Entry Val) := es.filter fun e => !ks.contains e.key && (find own e.key).isNone

theorem has_find {es : List (Entry Val)} {k : Bytes} : Has es k ↔ (find es k).isNone = false := by
  rw [← Bool.not_eq_true, Option.isNone_iff_eq_none, find_none]
  exact ⟨fun h h' => h' h, fun h => Classical.byContradiction h⟩

theorem inherits_iff {ks : List Bytes} {own es l : List (Entry Val)} : Inherits ks own es l ↔ l = miss ks own es := by
  induction es generalizing l with
  | nil =>
    constructor
    · intro h; cases h; rfl
    · rintro rfl; exact .nil
  | cons e es ih =>
    by_cases hk : e.key ∈ ks ∨ Has own e.key
    · have hm : miss ks own (e :: es) = miss ks own es := by
        unfold miss
        rw [List.filter_cons_of_neg]
        rcases hk with hk | hk
        · simp [hk]
        · simp [has_find.mp hk]
      rw [hm, ← ih]
      constructor
      · intro h
        cases h with
        | skip _ h => exact h
        | take h1 h2 _ => exact absurd hk (by simp [h1, h2])
      · exact .skip hk
    · have hm : miss ks own (e :: es) = e :: miss ks own es := by
        unfold miss
        rw [List.filter_cons_of_pos]
        have h1 : e.key ∉ ks := fun h => hk (.inl h)
        have h2 : find own e.key = none := find_none.mpr fun h => hk (.inr h)
        simp [h1, h2]
      rw [hm]
      constructor
      · intro h
        cases h with
        | skip h _ => exact absurd h hk
        | take _ _ h => rw [ih.mp h]
      · rintro rfl
        exact .take (fun h => hk (.inl h)) (fun h => hk (.inr h)) (ih.mpr rfl)

mutual

theorem copy_eq {ig : Bool} : ∀ {v w}, Clean v → Copy ig v w → w = v
  | _, _, _, .simple => rfl
  | _, _, .array h, .array h' => by rw [copies_eq h h']
  | _, _, .hash _ h, .hash h' => by rw [copyOf_eq h h']

theorem copies_eq {ig : Bool} : ∀ {vs ws}, Cleans vs → Copies ig vs ws → ws = vs
  | _, _, _, .nil => rfl
  | _, _, .cons h hs, .cons h' hs' => by rw [copy_eq h h', copies_eq hs hs']

theorem copyOf_eq {ig : Bool} : ∀ {es fs}, CleanOf es → CopyOf ig es fs → fs = es
  | _, _, _, .nil => rfl
  | _, _, .cons h hs, .keep _ h' hs' => by rw [copy_eq h h', copyOf_eq hs hs']

end

theorem clone_clean {ig : Bool} {v : Val} (h : Clean v) : clone ig v = .ok v := by
  obtain ⟨w, h1, h2⟩ := clone_ok ig v (clean_sound h)
  rw [h1, copy_eq h h2]

theorem cleanOf_of {es : List (Entry Val)} (h : ∀ e ∈ es, Clean e.val ∧ e.marked = false) : CleanOf es := by
  induction es with
  | nil => exact .nil
  | cons e es ih =>
    obtain ⟨k, m, v⟩ := e
    obtain ⟨h1, h2⟩ := h _ List.mem_cons_self
    dsimp only at h1 h2
    subst h2
    exact .cons h1 (ih fun e he => h e (by simp [he]))

theorem soundOf_marks {es : List (Entry Val)} (h : CleanOf es) (ks : List Bytes) : SoundOf (marks es ks) := by
  refine Res.soundOf_of fun e he => ?_
  rw [marks_eq] at he
  obtain ⟨a, ha, rfl⟩ := List.mem_map.mp he
  have := clean_sound (cleanOf_mem h ha).1
  split <;> exact this

theorem keys_marks (es : List (Entry Val)) (ks : List Bytes) : (marks es ks).map (·.key) = es.map (·.key) := by
  rw [marks_eq, List.map_map]
  apply List.map_congr_left
  intro e _
  simp only [Function.comp]
  split <;> rfl

theorem handDown_miss {ks : List Bytes} {dest : List (Entry Val)} : ∀ {es fs : List (Entry Val)}, CleanOf es →
    HandDown true dest (es.map fun e => if ks.contains e.key = true then { e with marked := true } else e) fs → fs = miss ks dest es
  | [], fs, _, h => by cases h; rfl
  | ⟨k, _, v⟩ :: es, fs, .cons hv hs, h => by
    rw [List.map_cons] at h
    dsimp only at h
    by_cases hk : ks.contains k = true
    · have hm : miss ks dest (⟨k, false, v⟩ :: es) = miss ks dest es := by
        unfold miss
        rw [List.filter_cons_of_neg (by simp [show k ∈ ks by simpa using hk])]
      rw [hm]
      rw [if_pos hk] at h
      cases h with
      | give h1 _ _ _ => exact absurd (h1 rfl) (by simp)
      | own _ h => exact handDown_miss hs h
      | skip _ _ h => exact handDown_miss hs h
    · rw [if_neg hk] at h
      have hkn : k ∉ ks := by simpa using hk
      cases h with
      | give _ h1 h2 h3 =>
        have hm : miss ks dest (⟨k, false, v⟩ :: es) = ⟨k, false, v⟩ :: miss ks dest es := by
          unfold miss
          rw [List.filter_cons_of_pos (by simp [hkn, find_none.mpr h1])]
        rw [hm, copy_eq hv h2, handDown_miss hs h3]
      | own h1 h =>
        have hm : miss ks dest (⟨k, false, v⟩ :: es) = miss ks dest es := by
          unfold miss
          rw [List.filter_cons_of_neg (by simp [show (find dest k).isNone = false from has_find.mp h1])]
        rw [hm]
        exact handDown_miss hs h
      | skip _ h1 _ => cases h1

/-- A level below another inherits what it does not have. -/
theorem inheritAll_eq {src dest : List (Entry Val)} (hc : Clean (.hash src)) (hz : ∀ e ∈ src, (0 : UInt8) ∉ e.key) (ks : List Bytes) :
    inheritAll (marks src ks) dest true = .ok (dest ++ miss ks dest src) := by
  obtain ⟨hn, _, ho⟩ := clean_hash hc
  have hk := keys_marks src ks
  have hz' : ∀ e ∈ marks src ks, (0 : UInt8) ∉ e.key := by
    intro e he
    have : e.key ∈ (marks src ks).map (·.key) := List.mem_map_of_mem he
    rw [hk] at this
    obtain ⟨a, ha, h⟩ := List.mem_map.mp this
    rw [← h]
    exact hz a ha
  obtain ⟨fs, h1, h2⟩ := C79_inherit_all (dest := dest) (skip := true) hz' (by rw [hk]; exact hn) (soundOf_marks ho ks)
  rw [h1]
  rw [marks_eq] at h2
  rw [handDown_miss ho h2]

theorem clean_append {own l : List (Entry Val)} {ks : List Bytes} {es : List (Entry Val)} (ho : Clean (.hash own)) (he : Clean (.hash es)) (h : l = miss ks own es) : Clean (.hash (own ++ l)) := by
  subst h
  obtain ⟨hn, _, hc⟩ := clean_hash ho
  obtain ⟨hn', _, hc'⟩ := clean_hash he
  refine .hash ?_ (cleanOf_append hc (cleanOf_of fun e he => cleanOf_mem hc' (List.mem_filter.mp he).1))
  rw [List.map_append, List.nodup_append]
  refine ⟨hn, List.Sublist.nodup (List.Sublist.map _ List.filter_sublist) hn', ?_⟩
  intro a ha b hb hab
  subst hab
  obtain ⟨x, hx, rfl⟩ := List.mem_map.mp ha
  obtain ⟨y, hy, h⟩ := List.mem_map.mp hb
  have := (List.mem_filter.mp hy).2
  simp only [Bool.and_eq_true] at this
  rw [h] at this
  rw [has_find.mp ⟨x, hx, rfl⟩] at this
  simp at this

theorem whole_append {own l : List (Entry Val)} {ks : List Bytes} {es : List (Entry Val)} (ho : ∀ e ∈ own, (0 : UInt8) ∉ e.key) (he : ∀ e ∈ es, (0 : UInt8) ∉ e.key) (h : l = miss ks own es) :
    ∀ e ∈ own ++ l, (0 : UInt8) ∉ e.key := by
  subst h
  intro e h
  rcases List.mem_append.mp h with h | h
  · exact ho e h
  · exact he e (List.mem_filter.mp h).1

/-! ### The stanza without the plugin -/

theorem cloneEs_eq : ∀ {es acc : List (Entry Val)} {k : Bytes}, CleanOf es → (es.map (·.key)).Nodup → (∀ e ∈ es, ¬ Has acc e.key) →
    cloneEs true (setMark es k) acc = .ok (acc ++ others [k] es)
  | [], acc, k, _, _, _ => by simp [setMark, others, cloneEs]
  | ⟨k', _, v⟩ :: es, acc, k, .cons hv hs, hn, hno => by
    simp only [List.map_cons, List.nodup_cons] at hn
    have e1 : setMark (⟨k', false, v⟩ :: es) k = (if k' = k then ⟨k', true, v⟩ else ⟨k', false, v⟩) :: setMark es k := by
      simp only [setMark, List.map_cons]
    rw [e1]
    by_cases hk : k' = k
    · rw [if_pos hk]
      simp only [cloneEs, Bool.not_true, Bool.or_self, cond_false]
      rw [cloneEs_eq hs hn.2 fun e he => hno e (by simp [he])]
      simp [others, List.filter_cons, hk]
    · rw [if_neg hk]
      simp only [cloneEs, Bool.not_true, Bool.not_false, Bool.or_true, cond_true, clone_clean hv, Outcome.bind_ok]
      rw [addEntry_new (hno _ List.mem_cons_self)]
      dsimp only
      rw [cloneEs_eq hs hn.2 ?_]
      · simp [others, List.filter_cons, hk]
      · rintro e he ⟨f, hf, h⟩
        rcases List.mem_append.mp hf with hf | hf
        · exact hno e (by simp [he]) ⟨f, hf, h⟩
        · simp only [List.mem_singleton] at hf
          subst hf
          refine hn.1 ?_
          have h : k' = e.key := h
          rw [h]
          exact List.mem_map_of_mem he

theorem clone_stanza {es : List (Entry Val)} {k : Bytes} (h : Clean (.hash es)) : clone true (.hash (setMark es k)) = .ok (.hash (others [k] es)) := by
  obtain ⟨hn, _, hc⟩ := clean_hash h
  rw [clone, cloneEs_eq hc hn (by simp [Has])]
  rfl

/-! ### Options -/

theorem digits_decimal : ∀ (f n : Nat), n < 10 ^ f → 0 < f → Decimal n (Statio.digits f n)
  | 0, _, _, h => absurd h (by omega)
  | f + 1, n, hn, _ => by
    unfold Statio.digits
    by_cases h : n < 10
    · rw [show decide (n < 10) = true by simpa using h]
      exact .one h
    · rw [show decide (n < 10) = false by simpa using h]
      have h1 : n / 10 < 10 ^ f := by
        rw [Nat.pow_succ] at hn
        omega
      have h2 : 0 < f := by
        rcases Nat.eq_zero_or_pos f with rfl | h'
        · simp at hn; omega
        · exact h'
      exact .more (by omega) (digits_decimal f (n / 10) h1 h2)

theorem decimal_unique {n : Nat} {d d' : Bytes} (h : Decimal n d) (h' : Decimal n d') : d = d' := by
  induction h generalizing d' with
  | one h =>
    cases h' with
    | one _ => rfl
    | more h2 _ => omega
  | more h _ ih =>
    cases h' with
    | one h2 => omega
    | more _ h2 => rw [ih h2]

theorem label_decimal (n : Nat) : Decimal n (label n) :=
  digits_decimal (n + 1) n (Nat.lt_of_lt_of_le (Nat.lt_succ_self n) (Nat.le_of_lt (Nat.lt_pow_self (by decide)))) (by omega)

theorem decimal_iff {n : Nat} {d : Bytes} : Decimal n d ↔ d = label n :=
  ⟨fun h => decimal_unique h (label_decimal n), fun h => h ▸ label_decimal n⟩

theorem labels_iff {vs : List Val} {i : Nat} {es : List (Entry Val)} : Labels (i + 1) vs es ↔ numberedFrom i vs = some es := by
  induction vs generalizing i es with
  | nil =>
    constructor
    · intro h; cases h; rfl
    · intro h; cases h; exact .nil
  | cons v vs ih =>
    cases v with
    | simple r t =>
      simp only [numberedFrom, Option.map_eq_some_iff]
      constructor
      · intro h
        cases h with
        | cons h1 h2 => exact ⟨_, ih.mp h2, by rw [decimal_iff.mp h1]⟩
      · rintro ⟨es', h1, rfl⟩
        exact .cons (label_decimal _) (ih.mpr h1)
    | array _ => exact ⟨nofun, nofun⟩
    | hash _ => exact ⟨nofun, nofun⟩

theorem several_iff {v : Val} {vs : List Val} : Several v vs ↔ vs = Svc.items v := by
  unfold Several Svc.items
  cases v <;> simp [eq_comm]

theorem asHash_iff {v : Val} {es : List (Entry Val)} : Options v es ↔ asHash v = some es := by
  have hlist : ∀ {v}, (∀ es, v ≠ .hash es) → (Options v es ↔ (numberedFrom 0 (Svc.items v)).map (⟨str "plugin", false, .simple (str "multifo") (str "multifo")⟩ :: ·) = some es) := by
    intro v hv
    rw [Option.map_eq_some_iff]
    constructor
    · intro h
      cases h with
      | hash => exact absurd rfl (hv _)
      | list _ h1 h2 =>
        rw [several_iff.mp h1] at h2
        exact ⟨_, labels_iff.mp h2, rfl⟩
    · rintro ⟨l, h1, rfl⟩
      exact .list hv (several_iff.mpr rfl) (labels_iff.mpr h1)
  cases v with
  | simple r t => exact hlist nofun
  | array vs => exact hlist nofun
  | hash fs =>
    constructor
    · intro h
      cases h with
      | hash => rfl
      | list h _ _ => exact absurd rfl (h _)
    · intro h
      cases h
      exact .hash

theorem numberedFrom_labelled : ∀ {vs : List Val} {i : Nat} {es : List (Entry Val)}, numberedFrom i vs = some es → es = Res.labelled i vs ∧ ∀ v ∈ vs, ∃ r t, v = .simple r t
  | [], i, es, h => by cases h; exact ⟨rfl, nofun⟩
  | .simple r t :: vs, i, es, h => by
    simp only [numberedFrom, Option.map_eq_some_iff] at h
    obtain ⟨l, h1, rfl⟩ := h
    obtain ⟨h2, h3⟩ := numberedFrom_labelled h1
    refine ⟨by rw [h2]; rfl, ?_⟩
    intro v hv
    rcases List.mem_cons.mp hv with rfl | hv
    · exact ⟨_, _, rfl⟩
    · exact h3 v hv

theorem label_digits (n : Nat) : ∀ d ∈ label n, 48 ≤ d.toNat ∧ d.toNat ≤ 57 := by
  have hp : n < 10 ^ (n + 1) := Nat.lt_of_lt_of_le (Nat.lt_succ_self n) (Nat.le_of_lt (Nat.lt_pow_self (by decide)))
  exact (Statio.digits_value (n + 1) n hp (by omega)).2.2.2.1

theorem asHash_clean {v : Val} {es : List (Entry Val)} (h : asHash v = some es) (hc : Clean v) (hz : WholeKeys v) : Clean (.hash es) ∧ ∀ e ∈ es, (0 : UInt8) ∉ e.key := by
  have hlist : (numberedFrom 0 (Svc.items v)).map (⟨str "plugin", false, .simple (str "multifo") (str "multifo")⟩ :: ·) = some es → Clean (.hash es) ∧ ∀ e ∈ es, (0 : UInt8) ∉ e.key := by
    intro h
    rw [Option.map_eq_some_iff] at h
    obtain ⟨l, h1, rfl⟩ := h
    obtain ⟨rfl, h2⟩ := numberedFrom_labelled h1
    have hkey : ∀ e ∈ Res.labelled 0 (Svc.items v), ∀ d ∈ e.key, 48 ≤ d.toNat ∧ d.toNat ≤ 57 := by
      intro e he
      obtain ⟨_, _, j, _, _, hj⟩ := Res.labelled_mem he
      rw [hj]
      exact label_digits j
    refine ⟨.hash ?_ (.cons .simple (cleanOf_of fun e he => ?_)), ?_⟩
    · rw [List.map_cons, List.nodup_cons]
      refine ⟨?_, Res.labelled_nodup _ _⟩
      intro hm
      obtain ⟨e, he, h⟩ := List.mem_map.mp hm
      have := hkey e he 112 (by rw [h]; decide)
      exact absurd this.2 (by decide)
    · obtain ⟨h3, h4, _⟩ := Res.labelled_mem he
      obtain ⟨r, t, h5⟩ := h2 _ h4
      rw [h5]
      exact ⟨.simple, h3⟩
    · intro e he h0
      rcases List.mem_cons.mp he with rfl | he
      · exact absurd h0 (by change (0 : UInt8) ∉ str "plugin"; decide)
      · exact absurd (hkey e he 0 h0).1 (by decide)
  cases v with
  | simple r t => exact hlist h
  | array vs => exact hlist h
  | hash fs =>
    cases h
    exact ⟨hc, hz _ .refl⟩

/-! ### The plugin -/

theorem setMark_absent {es : List (Entry Val)} {k : Bytes} (h : find es k = none) : setMark es k = es := by
  have hno := find_none.mp h
  unfold setMark
  conv => rhs; rw [← List.map_id es]
  apply List.map_congr_left
  intro e he
  rw [if_neg fun hk => hno ⟨e, he, hk⟩]
  rfl

theorem plugOf_iff {es : List (Entry Val)} (hn : (es.map (·.key)).Nodup) {p : Bytes} : PlugOf es p ↔ plugName es = some (p, setMark es (str "plugin")) := by
  unfold PlugOf TextOf plugName
  cases hf : find es (str "plugin") with
  | none =>
    dsimp only
    rw [setMark_absent hf]
    constructor
    · rintro (⟨_, h⟩ | ⟨r, t, u, h, _⟩)
      · cases h; rfl
      · rw [(is_iff hn).mp h] at hf
        cases hf
    · intro h
      cases h
      exact .inl ⟨absent_iff.mpr hf, rfl⟩
  | some v =>
    have habs : ¬ Absent es "plugin" := fun h => by rw [absent_iff.mp h] at hf; cases hf
    cases v with
    | simple r t =>
      constructor
      · rintro (⟨h, _⟩ | ⟨r', t', u, h, h1, h2⟩)
        · exact absurd h habs
        · rw [(is_iff hn).mp h] at hf
          cases hf
          cases h2
          rw [upToZero_iff.mp h1]
      · intro h
        simp only [Option.some.injEq, Prod.mk.injEq] at h
        exact .inr ⟨r, t, cstr t, (is_iff hn).mpr hf, upToZero_iff.mpr rfl, by rw [h.1]⟩
    | array vs =>
      refine ⟨?_, nofun⟩
      rintro (⟨h, _⟩ | ⟨r', t', u, h, h1, h2⟩)
      · exact absurd h habs
      · rw [(is_iff hn).mp h] at hf
        cases hf
    | hash vs =>
      refine ⟨?_, nofun⟩
      rintro (⟨h, _⟩ | ⟨r', t', u, h, h1, h2⟩)
      · exact absurd h habs
      · rw [(is_iff hn).mp h] at hf
        cases hf

theorem find_marks (es : List (Entry Val)) (ks : List Bytes) (k : Bytes) : find (marks es ks) k = find es k := by
  unfold marks
  induction ks generalizing es with
  | nil => rfl
  | cons k' ks ih => rw [List.foldl_cons, ih, find_setMark]

theorem setMark_marks (es : List (Entry Val)) (k : Bytes) (ks : List Bytes) : setMark (marks es ks) k = marks es (k :: ks) := by
  rw [marks_eq, marks_eq, setMark, List.map_map]
  apply List.map_congr_left
  intro e _
  simp only [Function.comp]
  by_cases h2 : e.key = k
  · subst h2
    by_cases h1 : e.key ∈ ks <;> simp [h1]
  · by_cases h1 : e.key ∈ ks <;> simp [h1, h2]

/-! ### The stanzas of other plugins -/

theorem replace_iff {k : Bytes} {w : Val} : ∀ {es : List (Entry Val)} {v : Val}, find es k = some v →
    ∃ A m B, es = A ++ ⟨k, m, v⟩ :: B ∧ ¬ Has A k ∧ replace k w es = A ++ ⟨k, m, w⟩ :: B
  | [], v, h => by cases h
  | e :: es, v, h => by
    rw [Res.find_cons] at h
    obtain ⟨key, m, x⟩ := e
    by_cases hk : key = k
    · rw [if_pos hk] at h
      cases h
      subst hk
      exact ⟨[], m, es, rfl, by simp [Has], by simp [replace]⟩
    · rw [if_neg hk] at h
      obtain ⟨A, m', B, rfl, h2, h3⟩ := replace_iff (w := w) h
      refine ⟨⟨key, m, x⟩ :: A, m', B, rfl, ?_, by simp [replace, hk, h3]⟩
      rintro ⟨f, hf, hfk⟩
      rcases List.mem_cons.mp hf with rfl | hf
      · exact hk hfk
      · exact h2 ⟨f, hf, hfk⟩

theorem split_unique {k : Bytes} {m m' : Bool} {v v' : Val} : ∀ {A B A' B' : List (Entry Val)}, A ++ ⟨k, m, v⟩ :: B = A' ++ ⟨k, m', v'⟩ :: B' → ¬ Has A k → ¬ Has A' k →
    A = A' ∧ m = m' ∧ v = v' ∧ B = B'
  | [], B, [], B', h, _, _ => by cases h; exact ⟨rfl, rfl, rfl, rfl⟩
  | [], B, a' :: A', B', h, _, h2 => by
    simp only [List.nil_append, List.cons_append, List.cons.injEq] at h
    exact absurd ⟨a', List.mem_cons_self, by rw [← h.1]⟩ h2
  | a :: A, B, [], B', h, h1, _ => by
    simp only [List.nil_append, List.cons_append, List.cons.injEq] at h
    exact absurd ⟨a, List.mem_cons_self, by rw [h.1]⟩ h1
  | a :: A, B, a' :: A', B', h, h1, h2 => by
    simp only [List.cons_append, List.cons.injEq] at h
    obtain ⟨rfl, h⟩ := h
    obtain ⟨rfl, h3⟩ := split_unique h (fun ⟨f, hf, h⟩ => h1 ⟨f, by simp [hf], h⟩) fun ⟨f, hf, h⟩ => h2 ⟨f, by simp [hf], h⟩
    exact ⟨rfl, h3⟩

theorem find_split {k : Bytes} {m : Bool} {v : Val} {A B : List (Entry Val)} (h : ¬ Has A k) : find (A ++ ⟨k, m, v⟩ :: B) k = some v := by
  rw [find_append, find_none.mpr h, Res.find_cons, if_pos rfl]
  rfl

theorem within_iff {k : Bytes} {f : List (Entry Val) → Outcome (Option (List (Entry Val)))} {P : List (Entry Val) → List (Entry Val) → Prop}
    (hf : ∀ es es', f es = .ok (some es') ↔ P es es') {es es' : List (Entry Val)} : within k f es = .ok (some es') ↔ Within k P es es' := by
  unfold within
  cases h : find es k with
  | none =>
    have hno := find_none.mp h
    dsimp only
    constructor
    · intro h1
      cases h2 : f [] with
      | ub => rw [h2] at h1; cases h1
      | ok o =>
        rw [h2] at h1
        cases o with
        | none => cases h1
        | some fs =>
          cases h1
          exact .new hno ((hf _ _).mp h2)
    · intro h1
      cases h1 with
      | new _ h2 => rw [(hf _ _).mpr h2]; rfl
      | old h2 _ => rw [find_split h2] at h; cases h
  | some v =>
    cases v with
    | hash fs =>
      dsimp only
      constructor
      · intro h1
        cases h2 : f fs with
        | ub => rw [h2] at h1; cases h1
        | ok o =>
          rw [h2] at h1
          cases o with
          | none => cases h1
          | some fs' =>
            cases h1
            obtain ⟨A, m, B, rfl, h4, h5⟩ := replace_iff (w := .hash fs') h
            dsimp only
            rw [h5]
            exact .old h4 ((hf _ _).mp h2)
      · intro h1
        cases h1 with
        | new h2 _ => rw [find_none.mpr h2] at h; cases h
        | @old A m gs gs' B h2 h3 =>
          rw [find_split h2] at h
          cases h
          rw [(hf _ _).mpr h3]
          obtain ⟨A', m', B', h4, h5, h6⟩ := replace_iff (w := .hash gs') (find_split (m := m) (v := .hash fs) (B := B) h2)
          obtain ⟨rfl, rfl, _, rfl⟩ := split_unique h4 h2 h5
          change Outcome.ok (some (replace k (.hash gs') _)) = _
          rw [h6]
    | simple r t =>
      refine ⟨nofun, fun h1 => ?_⟩
      cases h1 with
      | new h2 _ => rw [find_none.mpr h2] at h; cases h
      | old h2 _ => rw [find_split h2] at h; cases h
    | array vs =>
      refine ⟨nofun, fun h1 => ?_⟩
      cases h1 with
      | new h2 _ => rw [find_none.mpr h2] at h; cases h
      | old h2 _ => rw [find_split h2] at h; cases h

theorem addChild_iff {child : Bytes} {opts es es' : List (Entry Val)} : Outcome.ok (addChild child (.hash opts) es) = .ok (some es') ↔ NewResource child opts es es' := by
  unfold addChild NewResource
  cases h : find es child with
  | none =>
    have := find_none.mp h
    constructor
    · intro h; cases h; exact ⟨this, rfl⟩
    · rintro ⟨_, rfl⟩; rfl
  | some v =>
    refine ⟨nofun, ?_⟩
    rintro ⟨h1, _⟩
    rw [find_none.mpr h1] at h
    cases h

theorem addTo_iff {p child : Bytes} {opts tops tops' : List (Entry Val)} : addTo p child (.hash opts) tops = .ok (some tops') ↔ Synthesized p child opts tops tops' := by
  unfold addTo Synthesized
  by_cases hp : p = str "metafo"
  · have hp' : p = nm "metafo" := hp
    rw [within_iff (P := Within (nm "resources") (NewResource child opts))]
    · constructor
      · exact fun h => .inr ⟨hp', h⟩
      · rintro (⟨h, _⟩ | ⟨_, h⟩)
        · exact absurd hp' h
        · exact h
    · intro es es'
      rw [if_pos hp]
      exact within_iff fun es es' => addChild_iff
  · have hp' : p ≠ nm "metafo" := hp
    rw [within_iff (P := NewResource child opts)]
    · constructor
      · exact fun h => .inl ⟨hp', h⟩
      · rintro (⟨_, h⟩ | ⟨h, _⟩)
        · exact h
        · exact absurd h hp'
    · intro es es'
      rw [if_neg hp]
      exact addChild_iff

end Gdnsd.Meta
