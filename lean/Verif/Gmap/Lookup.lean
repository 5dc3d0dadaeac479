/-
Lookups in the tree of the `map` stanza.
-/
import Verif.Gmap.Lemmas
namespace Gdnsd.Gmap
open Vscf VscfSpec Conf ConfSpec SvcSpec GmapSpec
open Maps (LIST_MAX)

/-! ### Names -/

theorem lower_toNat (a : UInt8) : (Mon.lower a).toNat = if 65 ≤ a.toNat ∧ a.toNat ≤ 90 then a.toNat + 32 else a.toNat := by
  unfold Mon.lower
  by_cases h : 65 ≤ a ∧ a ≤ 90
  · have h' : 65 ≤ a.toNat ∧ a.toNat ≤ 90 := h
    rw [if_pos h, if_pos h', UInt8.toNat_add]
    change (a.toNat + 32) % 256 = _
    omega
  · have h' : ¬ (65 ≤ a.toNat ∧ a.toNat ≤ 90) := h
    rw [if_neg h, if_neg h']

theorem sameByte_iff {a b : UInt8} : SameByte a b ↔ Mon.lower a = Mon.lower b := by
  rw [← UInt8.toNat_inj, lower_toNat, lower_toNat]
  unfold SameByte
  rw [← UInt8.toNat_inj]
  split <;> split <;> omega

theorem sameName_iff {x y : Bytes} : SameName x y ↔ Svc.caseEq y x = true := by
  unfold Svc.caseEq
  rw [beq_iff_eq]
  constructor
  · intro h
    induction h with
    | nil => rfl
    | cons h _ ih => rw [List.map_cons, List.map_cons, ih, sameByte_iff.mp h]
  · intro h
    induction x generalizing y with
    | nil =>
      cases y with
      | nil => exact .nil
      | cons _ _ => simp at h
    | cons a x ih =>
      cases y with
      | nil => simp at h
      | cons b y =>
        simp only [List.map_cons, List.cons.injEq] at h
        exact .cons (sameByte_iff.mpr h.1.symm) (ih h.2)

theorem for_iff {e : Entry Val} {x : Bytes} : For e x ↔ e.key ≠ str "default" ∧ Svc.caseEq x (cstr e.key) = true := by
  unfold For
  constructor
  · rintro ⟨h1, k, h2, h3⟩
    obtain rfl := upToZero_iff.mp h2
    exact ⟨h1, sameName_iff.mp h3⟩
  · rintro ⟨h1, h2⟩
    exact ⟨h1, _, upToZero_iff.mpr rfl, sameName_iff.mpr h2⟩

theorem search_spec {names : List Bytes} {auto : Bool} {L : List Bytes} {x : Bytes} : ∀ {es : List (Entry Val)} {o : Option Bytes} {ks : Kids}, BuiltKids names auto L o es ks →
    match ks.search x with
    | none => ∀ e ∈ es, ¬ For e x
    | some t => ∃ v, First es x v ∧ Built names auto L o v t
  | [], _, _, h => by
    cases h
    simp [Kids.search]
  | ⟨k, m, v⟩ :: es, o, ks, h => by
    cases h with
    | skip h =>
      have ih := search_spec (x := x) h
      have hno : ¬ For ⟨str "default", m, v⟩ x := fun h => (for_iff.mp h).1 rfl
      cases hs : ks.search x with
      | none =>
        rw [hs] at ih
        intro e he
        rcases List.mem_cons.mp he with rfl | he
        · exact hno
        · exact ih e he
      | some t =>
        rw [hs] at ih
        obtain ⟨w, ⟨pre, e, post, rfl, h2, h3, h4⟩, h5⟩ := ih
        refine ⟨w, ⟨_ :: pre, e, post, rfl, h2, h3, fun f hf => ?_⟩, h5⟩
        rcases List.mem_cons.mp hf with rfl | hf
        · exact hno
        · exact h4 f hf
    | @cons _ _ _ _ t _ ks' h1 h2 h3 =>
      have ih := search_spec (x := x) h3
      rw [Kids.search]
      by_cases hc : Svc.caseEq x (cstr k) = true
      · rw [if_pos hc]
        exact ⟨v, ⟨[], _, es, rfl, for_iff.mpr ⟨h1, hc⟩, rfl, by simp⟩, h2⟩
      · rw [if_neg hc]
        have hno : ¬ For ⟨k, m, v⟩ x := fun h => hc (for_iff.mp h).2
        cases hs : ks'.search x with
        | none =>
          rw [hs] at ih
          intro e he
          rcases List.mem_cons.mp he with rfl | he
          · exact hno
          · exact ih e he
        | some t =>
          rw [hs] at ih
          obtain ⟨w, ⟨pre, e, post, rfl, h5, h6, h7⟩, h8⟩ := ih
          refine ⟨w, ⟨_ :: pre, e, post, rfl, h5, h6, fun f hf => ?_⟩, h8⟩
          rcases List.mem_cons.mp hf with rfl | hf
          · exact hno
          · exact h7 f hf

theorem kids_nil {names : List Bytes} {auto : Bool} {L : List Bytes} : ∀ {es : List (Entry Val)} {o : Option Bytes}, BuiltKids names auto L o es .nil → ∀ e ∈ es, e.key = str "default"
  | [], _, _, _, he => by cases he
  | ⟨k, m, v⟩ :: es, _, h, e, he => by
    cases h with
    | skip h =>
      rcases List.mem_cons.mp he with rfl | he
      · rfl
      · exact kids_nil h e he

/-! ### Records -/

theorem nameIn_fetch {g : Got} {t : Bytes} (h : NameIn g t) : fetch g = .ok (some t) := by
  rcases h with ⟨b, rfl, h1, h2⟩ | ⟨rfl, rfl⟩
  · unfold fetch copy
    dsimp only
    rw [if_neg (by omega), ← upToZero_iff.mp h2]
    rfl
  · rfl

theorem copy_ok {b t : Bytes} (h : b.length < 128) (hu : UpToZero b t) : copy b = .ok t := by
  unfold copy
  rw [if_neg (by omega), ← upToZero_iff.mp hu]

/-- The names that are left. -/
inductive Left (city : Bool) (r : Record) : Nat → Bool → List Bytes → Prop
  | out {n} : Left city r n true []
  | start {l} : Place city r l → Left city r 0 false l
  | noCountry : NameIn r.country [] → Left city r 1 false []
  | country {k} : NameIn r.country k → k ≠ [] → city = false → Left city r 1 false [k]
  | inCountry {k l} : NameIn r.country k → k ≠ [] → city = true → Below r 0 l → Left city r 1 false (k :: l)
  | below {i l} : Below r i l → Left city r (i + 2) false l

theorem callback_left {city : Bool} {r : Record} {n : Nat} {out : Bool} {xs : List Bytes} (h : Left city r n out xs) :
    ∃ x out', callback city r out n = .ok (some (x, out')) ∧ ((x = [] ∧ xs = []) ∨ ∃ xs', xs = x :: xs' ∧ x ≠ [] ∧ Left city r (n + 1) out' xs') := by
  cases h with
  | out => exact ⟨[], true, rfl, Or.inl ⟨rfl, rfl⟩⟩
  | start h =>
    cases h with
    | nowhere h =>
      refine ⟨[], false, ?_, Or.inl ⟨rfl, rfl⟩⟩
      unfold callback; rw [nameIn_fetch h]; rfl
    | continent h1 h2 h3 =>
      refine ⟨_, false, ?_, Or.inr ⟨_, rfl, h2, .noCountry h3⟩⟩
      unfold callback; rw [nameIn_fetch h1]; rfl
    | country h1 h2 h3 h4 h5 =>
      refine ⟨_, false, ?_, Or.inr ⟨_, rfl, h2, .country h3 h4 h5⟩⟩
      unfold callback; rw [nameIn_fetch h1]; rfl
    | below h1 h2 h3 h4 h5 h6 =>
      refine ⟨_, false, ?_, Or.inr ⟨_, rfl, h2, .inCountry h3 h4 h5 h6⟩⟩
      unfold callback; rw [nameIn_fetch h1]; rfl
  | noCountry h =>
    refine ⟨[], !city, ?_, Or.inl ⟨rfl, rfl⟩⟩
    unfold callback; rw [nameIn_fetch h]; rfl
  | country h1 h2 h3 =>
    refine ⟨_, true, ?_, Or.inr ⟨_, rfl, h2, .out⟩⟩
    unfold callback; rw [nameIn_fetch h1, h3]; rfl
  | inCountry h1 h2 h3 h4 =>
    refine ⟨_, false, ?_, Or.inr ⟨_, rfl, h2, .below h4⟩⟩
    unfold callback; rw [nameIn_fetch h1, h3]; rfl
  | @below i l h =>
    have hcb : i < 10 → callback city r false (i + 2) = match r.sub i with
        | .text t => (copy t).map fun t => some (t, false)
        | .absent => (fetch r.city).map fun o => o.map fun t => (t, true)
        | .error => .ok none := by
      intro hi
      unfold callback
      rw [if_neg (by simp), if_neg (by omega), if_neg (by omega), if_neg (by omega)]
      rfl
    cases h with
    | limit => exact ⟨[], true, rfl, Or.inl ⟨rfl, rfl⟩⟩
    | sub h1 h2 h3 h4 h5 h6 =>
      refine ⟨_, false, ?_, Or.inr ⟨_, rfl, h5, .below h6⟩⟩
      rw [hcb h1, h2]; dsimp only; rw [copy_ok h3 h4]; rfl
    | blank h1 h2 h3 h4 =>
      refine ⟨[], false, ?_, Or.inl ⟨rfl, rfl⟩⟩
      rw [hcb h1, h2]; dsimp only; rw [copy_ok h3 h4]; rfl
    | city h1 h2 h3 h4 =>
      refine ⟨_, true, ?_, Or.inr ⟨_, rfl, h4, .out⟩⟩
      rw [hcb h1, h2]; dsimp only; rw [nameIn_fetch h3]; rfl
    | done h1 h2 h3 =>
      refine ⟨[], true, ?_, Or.inl ⟨rfl, rfl⟩⟩
      rw [hcb h1, h2]; dsimp only; rw [nameIn_fetch h3]; rfl

theorem below_length {r : Record} {i : Nat} {l : List Bytes} (h : Below r i l) : i + l.length ≤ 10 ∨ (l.length = 0 ∧ i ≤ 10) := by
  induction h with
  | limit => right; simp
  | sub h1 _ _ _ _ _ ih => left; simp only [List.length_cons]; omega
  | blank _ _ _ _ => right; simp; omega
  | city h1 _ _ _ => left; simp; omega
  | done _ _ _ => right; simp; omega

theorem place_length {city : Bool} {r : Record} {l : List Bytes} (h : Place city r l) : l.length ≤ 12 := by
  cases h with
  | nowhere _ => simp
  | continent _ _ _ => simp
  | country _ _ _ _ _ => simp
  | below _ _ _ _ _ h =>
    have := below_length h
    simp only [List.length_cons]
    omega

/-! ### Lookups -/

theorem leads_none {names : List Bytes} {auto : Bool} {es : List (Entry Val)} {outer r : Option Bytes} (h : ∀ e ∈ es, e.key = str "default") (hd : Default names auto es outer r) :
    ∀ (xs : List Bytes) (n : Nat), Leads names auto es outer n xs r
  | [], _ => .nothing hd
  | x :: xs, n => by
    have hno : ∀ e ∈ es, ¬ For e x := fun e he hf => (for_iff.mp hf).1 (h e he)
    by_cases hn : n < 2
    · exact .unknown hno hn hd
    · exact .deeper hno (by omega) (leads_none h hd xs (n + 1))

theorem llc_leads {names : List Bytes} {auto : Bool} {L : List Bytes} {city : Bool} {rec : Record} : ∀ (f : Nat) {es : List (Entry Val)} {d : Ref} {ks : Kids} {outer r0 : Option Bytes} {n : Nat} {out : Bool} {xs : List Bytes},
    xs.length < f → Left city rec n out xs → Default names auto es outer r0 → Stands L d r0 → BuiltKids names auto L r0 es ks →
    ∃ ref r, llc city rec f (.node d ks) n out = .ok (some ref) ∧ Stands L ref r ∧ Leads names auto es outer n xs r
  | 0, _, _, _, _, _, _, _, _, hf, _, _, _, _ => by omega
  | f + 1, es, d, ks, outer, r0, n, out, xs, hf, hl, hd, hs, hb => by
    cases ks with
    | nil => exact ⟨d, r0, by unfold llc; rfl, hs, leads_none (kids_nil hb) hd xs n⟩
    | cons nam m ks =>
      obtain ⟨x, out', h1, h2⟩ := callback_left hl
      unfold llc
      rw [h1, Outcome.bind_ok]
      dsimp only
      rcases h2 with ⟨rfl, rfl⟩ | ⟨xs', rfl, hx, hl'⟩
      · rw [if_pos rfl]
        exact ⟨d, r0, rfl, hs, .nothing hd⟩
      · rw [if_neg hx]
        simp only [List.length_cons] at hf
        have hss := search_spec (x := x) hb
        cases hsr : (Kids.cons nam m ks).search x with
        | none =>
          rw [hsr] at hss
          dsimp only at hss ⊢
          by_cases hn : n < 2
          · rw [if_neg (by omega)]
            exact ⟨d, r0, rfl, hs, .unknown hss hn hd⟩
          · rw [if_pos (by omega)]
            obtain ⟨ref, r, h3, h4, h5⟩ := llc_leads f (by omega) hl' hd hs hb
            exact ⟨ref, r, h3, h4, .deeper hss (by omega) h5⟩
        | some t =>
          rw [hsr] at hss
          obtain ⟨v, h3, h4⟩ := hss
          dsimp only
          cases h4 with
          | list h5 h6 h7 => exact ⟨_, _, by unfold llc; rfl, h7, .list h3 h6⟩
          | node h5 h6 h7 =>
            obtain ⟨ref, r, h8, h9, h10⟩ := llc_leads f (by omega) hl' h5 h6 h7
            exact ⟨ref, r, h8, h9, .sub h3 hd h10⟩

/-! ### There is only one -/

theorem default_fun {names : List Bytes} {auto : Bool} (hau : nm "auto" ∉ names) {es : List (Entry Val)} (hn : (es.map (·.key)).Nodup) {o r r' : Option Bytes}
    (h : Default names auto es o r) (h' : Default names auto es o r') : r = r' := by
  cases h with
  | own h1 h2 =>
    cases h' with
    | own h3 h4 =>
      rw [is_iff hn] at h1 h3
      rw [h1] at h3
      obtain rfl := Option.some.inj h3
      exact listOf_fun hau h2 h4
    | outer h3 =>
      rw [is_iff hn, absent_iff.mp h3] at h1
      cases h1
  | outer h1 =>
    cases h' with
    | own h3 h4 =>
      rw [is_iff hn, absent_iff.mp h1] at h3
      cases h3
    | outer _ => rfl

theorem first_fun {es : List (Entry Val)} {x : Bytes} {v v' : Val} (h : First es x v) (h' : First es x v') : v = v' := by
  obtain ⟨pre, e, post, h1, h2, h3, h4⟩ := h
  obtain ⟨pre', e', post', h1', h2', h3', h4'⟩ := h'
  rw [h1] at h1'
  rcases List.append_eq_append_iff.mp h1' with ⟨as, h5, h6⟩ | ⟨as, h5, h6⟩
  · cases as with
    | nil => simp only [List.nil_append, List.cons.injEq] at h6; rw [← h3, ← h3', h6.1]
    | cons a as =>
      simp only [List.cons_append, List.cons.injEq] at h6
      exact absurd (h6.1 ▸ h2) (h4' a (by rw [h5]; simp))
  · cases as with
    | nil => simp only [List.nil_append, List.cons.injEq] at h6; rw [← h3, ← h3', h6.1]
    | cons a as =>
      simp only [List.cons_append, List.cons.injEq] at h6
      exact absurd (h6.1 ▸ h2') (h4 a (by rw [h5]; simp))

theorem first_mem {es : List (Entry Val)} {x : Bytes} {v : Val} (h : First es x v) : ∃ e ∈ es, For e x ∧ e.val = v := by
  obtain ⟨pre, e, post, rfl, h2, h3, _⟩ := h
  exact ⟨e, by simp, h2, h3⟩

theorem listOf_hash {names : List Bytes} {auto : Bool} {fs : List (Entry Val)} {r : Option Bytes} (h : ListOf names auto (.hash fs) r) : False := by
  cases h with
  | auto _ h4 _ => rw [Meta.several_iff] at h4; cases h4
  | names h4 h5 _ => rw [Meta.several_iff] at h4; subst h4; cases h5

theorem leads_fun {names : List Bytes} {auto : Bool} (hau : nm "auto" ∉ names) {es : List (Entry Val)} {o r r' : Option Bytes} {n : Nat} {xs : List Bytes} (hc : Clean (.hash es))
    (h : Leads names auto es o n xs r) (h' : Leads names auto es o n xs r') : r = r' := by
  induction h generalizing r' with
  | nothing h1 =>
    cases h' with
    | nothing h2 => exact default_fun hau (clean_hash hc).1 h1 h2
  | list h1 h2 =>
    cases h' with
    | list h3 h4 => obtain rfl := first_fun h1 h3; exact listOf_fun hau h2 h4
    | sub h3 h4 h5 => obtain rfl := first_fun h1 h3; exact (listOf_hash h2).elim
    | unknown h3 _ _ => obtain ⟨e, h4, h5, _⟩ := first_mem h1; exact absurd h5 (h3 e h4)
    | deeper h3 _ _ => obtain ⟨e, h4, h5, _⟩ := first_mem h1; exact absurd h5 (h3 e h4)
  | sub h1 h2 h3 ih =>
    cases h' with
    | list h4 h5 => obtain rfl := first_fun h1 h4; exact (listOf_hash h5).elim
    | sub h4 h5 h6 =>
      obtain h7 := first_fun h1 h4
      cases h7
      obtain rfl := default_fun hau (clean_hash hc).1 h2 h5
      obtain ⟨e, h8, _, h9⟩ := first_mem h1
      have := (cleanOf_mem (clean_hash hc).2.2 h8).1
      rw [h9] at this
      exact ih this h6
    | unknown h3 _ _ => obtain ⟨e, h4, h5, _⟩ := first_mem h1; exact absurd h5 (h3 e h4)
    | deeper h3 _ _ => obtain ⟨e, h4, h5, _⟩ := first_mem h1; exact absurd h5 (h3 e h4)
  | unknown h1 h2 h3 =>
    cases h' with
    | list h4 _ => obtain ⟨e, h6, h5, _⟩ := first_mem h4; exact absurd h5 (h1 e h6)
    | sub h4 _ _ => obtain ⟨e, h6, h5, _⟩ := first_mem h4; exact absurd h5 (h1 e h6)
    | unknown _ _ h4 => exact default_fun hau (clean_hash hc).1 h3 h4
    | deeper _ h4 _ => omega
  | deeper h1 h2 h3 ih =>
    cases h' with
    | list h4 _ => obtain ⟨e, h6, h5, _⟩ := first_mem h4; exact absurd h5 (h1 e h6)
    | sub h4 _ _ => obtain ⟨e, h6, h5, _⟩ := first_mem h4; exact absurd h5 (h1 e h6)
    | unknown _ h4 _ => omega
    | deeper _ _ h4 => exact ih hc h4

/-! ### The whole stanza -/

theorem top_some {names : List Bytes} {auto : Bool} {L : List Bytes} {d : Ref} {es : List (Entry Val)} (hn : (es.map (·.key)).Nodup)
    (h : topDefault names auto [everyDc names] (find es (str "default")) = .ok (some (L, d))) :
    L.length = 1 ∧ (∃ l, L[0]? = some l ∧ Fallback names auto es l) ∧ ∃ r, Default names auto es (if auto = true then none else some (everyDc names)) r ∧ Stands L d r := by
  cases hf : find es (str "default") with
  | none =>
    rw [hf] at h
    unfold topDefault at h
    simp only [Outcome.ok.injEq, Option.some.injEq, Prod.mk.injEq] at h
    obtain ⟨rfl, rfl⟩ := h
    refine ⟨rfl, ⟨_, rfl, Or.inr ⟨fun v hv => ?_, rfl⟩⟩, _, .outer (absent_iff.mpr hf), ?_⟩
    · rw [is_iff hn, hf] at hv; cases hv
    · cases auto <;> simp [Stands]
  | some v =>
    rw [hf] at h
    unfold topDefault at h
    dsimp only at h
    cases hx : xlate names auto v with
    | ub => rw [hx] at h; cases h
    | ok o =>
      rw [hx, Outcome.map_ok] at h
      have h := Outcome.ok.inj h
      cases o with
      | none => cases h
      | some p =>
        have hl := xlate_some hx
        cases p with
        | none =>
          simp only [Option.map_some, Option.some.injEq, Prod.mk.injEq] at h
          obtain ⟨rfl, rfl⟩ := h
          refine ⟨rfl, ⟨_, rfl, Or.inr ⟨fun w hw => ?_, rfl⟩⟩, none, .own ((is_iff hn).mpr hf) hl, trivial⟩
          rw [is_iff hn, hf] at hw
          exact Option.some.inj hw ▸ hl
        | some l =>
          simp only [Option.map_some, Option.some.injEq, Prod.mk.injEq] at h
          obtain ⟨rfl, rfl⟩ := h
          exact ⟨rfl, ⟨l, rfl, Or.inl ⟨v, (is_iff hn).mpr hf, hl⟩⟩, some l, .own ((is_iff hn).mpr hf) hl, rfl⟩

theorem dcmapNew_some {names : List Bytes} {auto : Bool} {L : List Bytes} {t : Dcmap} {es : List (Entry Val)} (hc : Clean (.hash es)) (h : dcmapNew names auto [everyDc names] es = .ok (some (L, t))) :
    L.length ≤ LIST_MAX + 1 ∧ (∃ l, L[0]? = some l ∧ Fallback names auto es l) ∧ Built names auto L (if auto = true then none else some (everyDc names)) (.hash es) t := by
  obtain ⟨hn, -, hco⟩ := clean_hash hc
  unfold dcmapNew at h
  cases hi : topDefault names auto [everyDc names] (find es (str "default")) with
  | ub => rw [hi] at h; cases h
  | ok x =>
    rw [hi, Outcome.bind_ok] at h
    match x, hi, h with
    | none, _, h => cases h
    | some (L1, d), hi, h =>
      obtain ⟨h1, ⟨l, h2, h3⟩, r, h4, h5⟩ := top_some hn hi
      dsimp only at h
      cases hk : kids names auto d L1 es with
      | ub => rw [hk] at h; cases h
      | ok y =>
        rw [hk, Outcome.map_ok] at h
        match y, hk, h with
        | none, _, h => cases h
        | some (L2, ks), hk, h =>
          simp only [Option.map_some, Outcome.ok.injEq, Option.some.injEq, Prod.mk.injEq] at h
          obtain ⟨rfl, rfl⟩ := h
          obtain ⟨h6, h7, h8⟩ := kids_some hco h5 hk
          refine ⟨h7 (by rw [h1]; unfold LIST_MAX; omega), ⟨l, ?_, h3⟩, .node h4 (stands_mono h6 h5) h8⟩
          obtain ⟨M, rfl⟩ := h6
          rw [List.getElem?_append_left (by omega)]
          exact h2

theorem dcmapNew_of {names : List Bytes} {auto : Bool} (hau : nm "auto" ∉ names) {es : List (Entry Val)} (hlaw : Lawful names auto es) (hbr : Briefs es) (hw : weights es < LIST_MAX) (l : Bytes) :
    ∃ L t, dcmapNew names auto [l] es = .ok (some (L, t)) := by
  have hd : ∃ L1 d, topDefault names auto [l] (find es (str "default")) = .ok (some (L1, d)) ∧ L1.length = 1 := by
    cases hf : find es (str "default") with
    | none => exact ⟨_, _, rfl, rfl⟩
    | some v =>
      obtain ⟨r, hr⟩ := lawful_default hlaw hf
      unfold topDefault
      dsimp only
      rw [xlate_of hr hau (briefs_default hbr hf)]
      cases r with
      | none => exact ⟨_, _, rfl, rfl⟩
      | some l => exact ⟨_, _, rfl, rfl⟩
  obtain ⟨L1, d, h1, h2⟩ := hd
  obtain ⟨L2, ks, h3, h4⟩ := kids_of hau (d := d) hlaw hbr (by rw [h2]; omega : L1.length + weights es ≤ LIST_MAX)
  refine ⟨L2, .node d ks, ?_⟩
  unfold dcmapNew
  rw [h1, Outcome.bind_ok]
  dsimp only
  rw [h3]
  rfl

theorem dcmapNew_safe {names : List Bytes} {auto : Bool} {es : List (Entry Val)} (hbr : Briefs es) (L : List Bytes) : dcmapNew names auto L es ≠ .ub := by
  unfold dcmapNew
  cases hi : topDefault names auto L (find es (str "default")) with
  | ub =>
    exfalso
    cases hf : find es (str "default") with
    | none => rw [hf] at hi; cases hi
    | some v =>
      rw [hf] at hi
      unfold topDefault at hi
      dsimp only at hi
      cases hx : xlate names auto v with
      | ub => exact xlate_safe (briefs_default hbr hf) hx
      | ok _ => rw [hx] at hi; cases hi
  | ok x =>
    rw [Outcome.bind_ok]
    match x with
    | none => simp
    | some (L1, d) =>
      have := kids_safe (names := names) (auto := auto) (es := es) (L := L1) (d := d) hbr
      dsimp only
      cases hk : kids names auto d L1 es with
      | ub => exact absurd hk this
      | ok _ => simp [Outcome.map_ok]

end Gdnsd.Gmap
