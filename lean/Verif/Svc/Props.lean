/-
C89: what service types of the configuration become.
-/
import Verif.Svc.Lemmas
import Verif.Conf.ListenLemmas
namespace Gdnsd.Svc
open Vscf VscfSpec ConfSpec SvcSpec Conf

theorem phase1_iff {es : List (Entry Val)} (hc : CleanOf es) {ds : List Decl} :
    es.mapM declOf = some ds ↔ All (fun e d => Declares e d.name d.plug d.es) es ds := by
  induction es generalizing ds with
  | nil =>
    simp only [List.mapM_nil]
    constructor
    · intro h
      cases h
      exact .nil
    · intro h
      cases h
      rfl
  | cons e es ih =>
    obtain ⟨h1, _⟩ := cleanOf_mem hc (List.mem_cons_self ..)
    have hcs : CleanOf es := by cases hc; assumption
    have hd := fun {d} => declOf_iff (e := e) (d := d) fun es he => by rw [he] at h1; exact (clean_hash h1).1
    rw [List.mapM_cons]
    constructor
    · intro h
      cases ha : declOf e with
      | none => rw [ha] at h; cases h
      | some d =>
        rw [ha] at h
        cases hb : es.mapM declOf with
        | none => rw [hb] at h; cases h
        | some ds' =>
          rw [hb] at h
          cases h
          exact .cons (hd.mp ha) ((ih hcs).mp hb)
    · intro h
      cases h with
      | cons ha hb =>
        rw [hd.mpr ha, (ih hcs).mpr hb]
        rfl

theorem declares_hash {e : Entry Val} {n : Bytes} {p : Plug} {es : List (Entry Val)} (h : Declares e n p es) : e.val = .hash es := by
  cases h
  rfl

theorem declares_unique {e : Entry Val} {es : List (Entry Val)} {n n' : Bytes} {p p' : Plug} (hn : (es.map (·.key)).Nodup)
    (ha : Declares e n p es) (hb : Declares e n' p' es) : n = n' ∧ p = p' := by
  cases ha with
  | intro q1 _ _ q4 q5 q6 =>
    cases hb with
    | intro r1 _ _ r4 r5 r6 =>
      have e2 := ((is_iff hn).mp q4).symm.trans ((is_iff hn).mp r4)
      cases e2
      rw [upToZero_iff.mp q1, upToZero_iff.mp r1]
      obtain rfl := upToZero_iff.mp q5
      obtain rfl := upToZero_iff.mp r5
      have e3 := (findPlugin_iff.mpr q6).1.symm.trans (findPlugin_iff.mpr r6).1
      cases e3
      exact ⟨rfl, rfl⟩

theorem addSvc_plain {e : Entry Val} (hp : Plain e) {n : Bytes} {p : Plug} {es : List (Entry Val)} (hd : Declares e n p es)
    (hn : (es.map (·.key)).Nodup) : addSvc p es ≠ .ub := by
  have h := hp n es
  cases p with
  | http => exact http_plain hn (h.1 hd)
  | tcp => exact nofun
  | extmon => exact extmon_plain hn (h.2 hd)
  | extfile => exact nofun
  | static => exact nofun
  | null => exact nofun
  | resolver =>
    cases hd with
    | intro _ _ _ _ _ hx =>
      exfalso
      cases hx

theorem stypeOf_plain {e : Entry Val} (hp : Plain e) {d : Decl} (hd : Declares e d.name d.plug d.es) (hn : (d.es.map (·.key)).Nodup) :
    stypeOf d ≠ .ub := by
  unfold stypeOf
  cases hg : genOpts d.es with
  | none => exact nofun
  | some q =>
    dsimp only
    cases ha : addSvc d.plug d.es with
    | ub => exact absurd ha (addSvc_plain hp hd hn)
    | ok o => cases o <;> exact nofun

theorem stypes_iff {es : List (Entry Val)} (hc : CleanOf es) (hp : ∀ e ∈ es, Plain e) {ds : List Decl}
    (hd : All (fun e d => Declares e d.name d.plug d.es) es ds) :
    stypes ds ≠ .ub ∧ ∀ l, stypes ds = .ok (some l) ↔ All Means es l := by
  induction hd with
  | nil =>
    refine ⟨nofun, fun l => ⟨?_, ?_⟩⟩
    · intro h
      cases h
      exact .nil
    · intro h
      cases h
      rfl
  | @cons e d es ds h1 _ ih =>
    obtain ⟨ih1, ih2⟩ := ih (by cases hc; assumption) fun e he => hp e (List.mem_cons_of_mem _ he)
    have hp := hp e (List.mem_cons_self ..)
    obtain ⟨g1, _⟩ := cleanOf_mem hc (List.mem_cons_self ..)
    rw [declares_hash h1] at g1
    obtain ⟨hn, hf, _⟩ := clean_hash g1
    have hub := stypeOf_plain hp h1 hn
    have hiff := fun {s} => stypeOf_iff (d := d) hn hf (s := s)
    have hmeans : ∀ s, stypeOf d = .ok (some s) ↔ Means e s := by
      intro s
      rw [hiff]
      constructor
      · rintro ⟨a, b, c, f⟩
        obtain ⟨n, g, k⟩ := s
        dsimp only at a b c
        subst a
        exact .intro h1 b c f
      · intro h
        cases h with
        | intro a b c f =>
          have e1 := declares_hash h1
          rw [declares_hash a, Val.hash.injEq] at e1
          subst e1
          obtain ⟨rfl, rfl⟩ := declares_unique hn a h1
          exact ⟨rfl, b, c, f⟩
    unfold stypes
    cases hs : stypeOf d with
    | ub => exact absurd hs hub
    | ok o =>
      cases o with
      | none =>
        refine ⟨nofun, fun l => ⟨nofun, ?_⟩⟩
        intro h
        cases h with
        | cons a b =>
          rw [← hmeans, hs] at a
          cases a
      | some s =>
        simp only [Outcome.bind]
        cases ht : stypes ds with
        | ub => exact absurd ht ih1
        | ok o =>
          refine ⟨nofun, fun l => ?_⟩
          simp only [Outcome.map, Outcome.ok.injEq, Option.map_eq_some_iff]
          constructor
          · rintro ⟨l', rfl, rfl⟩
            exact .cons ((hmeans s).mp hs) ((ih2 l').mp ht)
          · intro h
            cases h with
            | @cons _ s' _ l' a b =>
              rw [← hmeans, hs] at a
              cases a
              rw [← ih2, ht] at b
              cases b
              exact ⟨l', rfl, rfl⟩

/-- No service type is one of `static`. -/
def NoStatic (es : List (Entry Val)) : Prop := ∀ e ∈ es, ∀ n fs, ¬ Declares e n .static fs

theorem configureAll_ok {st : Bool} {es : List (Entry Val)} (hst : st = true ∨ NoStatic es) {ds : List Decl}
    (hd : All (fun e d => Declares e d.name d.plug d.es) es ds) : configureAll st ds = some () := by
  unfold configureAll
  rw [if_neg]
  rintro ⟨h1, h2⟩
  rcases hst with h | h
  · rw [h] at h1
    cases h1
  · induction hd with
    | nil => cases h2
    | @cons e d es ds h3 _ ih =>
      rw [List.any_cons, Bool.or_eq_true] at h2
      rcases h2 with h2 | h2
      · rw [beq_iff_eq] at h2
        rw [h2] at h3
        exact h e (List.mem_cons_self ..) _ _ h3
      · exact ih h2 (fun e he => h e (List.mem_cons_of_mem _ he))

/-- C89: the service types of a configuration that something monitored uses. Reading them never goes wrong, and it gives
exactly what the entries say one by one: each has a name other than "up" and "down" and a plugin that monitors, the numbers
within their ranges or the defaults, a timeout below the interval, the options of the plugin, and no option that there is
not. Missing of the manual: data of `ok_codes` and `direct` must be of the right kind (`Plain`, see `C89_kinds`), and for a
service type of `static` there must be `plugins => { static => … }` as well (see `C89_static_alone`). -/
theorem C89_types_partial {st : Bool} {es : List (Entry Val)} (hc : Clean (.hash es)) (hp : ∀ e ∈ es, Plain e) (hst : st = true ∨ NoStatic es) :
    configure st true (some (.hash es)) ≠ .ub ∧
    ∀ l, (∃ ds, configure st true (some (.hash es)) = .ok (some (ds, some l))) ↔ All Means es l := by
  replace hc := (clean_hash hc).2.2
  unfold configure phase1
  dsimp only
  cases hm : es.mapM declOf with
  | none =>
    refine ⟨nofun, fun l => ⟨nofun, ?_⟩⟩
    intro h
    exfalso
    have : ∃ ds, All (fun e (d : Decl) => Declares e d.name d.plug d.es) es ds := by
      clear hm hc hp hst
      induction h with
      | nil => exact ⟨[], .nil⟩
      | cons a _ ih =>
        obtain ⟨ds, ih⟩ := ih
        cases a with
        | intro a _ _ _ => exact ⟨⟨_, _, _⟩ :: ds, .cons a ih⟩
    obtain ⟨ds, h2⟩ := this
    rw [(phase1_iff hc).mpr h2] at hm
    cases hm
  | some ds =>
    have hd := (phase1_iff hc).mp hm
    obtain ⟨h1, h2⟩ := stypes_iff hc hp hd
    dsimp only
    rw [configureAll_ok hst hd]
    dsimp only
    rw [if_neg (by exact nofun)]
    cases hs : stypes ds with
    | ub => exact absurd hs h1
    | ok o =>
      refine ⟨nofun, fun l => ?_⟩
      rw [← h2, hs]
      simp only [Outcome.map, Outcome.ok.injEq, Option.map_eq_some_iff, Prod.mk.injEq, Option.some.injEq]
      constructor
      · rintro ⟨_, _, rfl, rfl, rfl⟩
        rfl
      · rintro rfl
        exact ⟨ds, l, rfl, rfl, rfl⟩

/-- C89: names and plugins are looked at even when nothing is monitored, and nothing else is: the options can be anything. -/
theorem C89_unused {st : Bool} {es : List (Entry Val)} (hc : Clean (.hash es)) (hst : st = true ∨ NoStatic es) :
    (∃ ds, configure st false (some (.hash es)) = .ok (some (ds, none))) ↔ ∀ e ∈ es, ∃ n p fs, Declares e n p fs := by
  replace hc := (clean_hash hc).2.2
  unfold configure phase1
  dsimp only
  cases hm : es.mapM declOf with
  | none =>
    refine ⟨nofun, ?_⟩
    intro h
    exfalso
    have : ∃ ds, All (fun e (d : Decl) => Declares e d.name d.plug d.es) es ds := by
      clear hm hc hst
      induction es with
      | nil => exact ⟨[], .nil⟩
      | cons e es ih =>
        obtain ⟨ds, ih⟩ := ih fun e he => h e (List.mem_cons_of_mem _ he)
        obtain ⟨n, p, fs, hd⟩ := h e (List.mem_cons_self ..)
        exact ⟨⟨n, p, fs⟩ :: ds, .cons hd ih⟩
    obtain ⟨ds, h2⟩ := this
    rw [(phase1_iff hc).mpr h2] at hm
    cases hm
  | some ds =>
    have hd := (phase1_iff hc).mp hm
    dsimp only
    rw [configureAll_ok hst hd]
    dsimp only
    rw [if_pos rfl]
    refine ⟨fun _ => ?_, fun _ => ⟨ds, rfl⟩⟩
    rename_i hx
    clear hx
    clear hm hc hst
    induction hd with
    | nil => exact nofun
    | cons a _ ih =>
      intro e he
      rcases List.mem_cons.mp he with rfl | he
      · exact ⟨_, _, _, a⟩
      · exact ih e he

/-- C89: without `service_types` there is nothing to configure; with something else than a hash, the program ends. -/
theorem C89_none (st m : Bool) : (configure st m none = .ok (some ([], if m = true then some [] else none))) ∧
    ∀ v, (∀ es, v ≠ .hash es) → configure st m (some v) = .ok none := by
  constructor
  · cases st <;> cases m <;> rfl
  · intro v h
    cases v with
    | hash es => exact absurd rfl (h es)
    | simple r t => rfl
    | array vs => rfl

/-! ### Where the manual and the code differ -/

/-- Data that is a text. -/
def word (s : String) : Val := .simple (nm s) (nm s)
/-- An entry of a hash. -/
def entry (k : String) (v : Val) : Entry Val := ⟨nm k, false, v⟩

/-- C89: the type of the data is not looked at before it is taken for a text, in `ok_codes` of `http_status` and in `direct`
of `extmon`: something else is taken for one. -/
theorem C89_kinds (st : Bool) (fs : List (Entry Val)) (vs : List Val) :
    configure st true (some (.hash [entry "web" (.hash [entry "plugin" (word "http_status"), entry "ok_codes" (.hash fs)])])) = .ub ∧
    configure st true (some (.hash [entry "ext" (.hash [entry "plugin" (word "extmon"), entry "cmd" (word "/bin/check"), entry "direct" (.array vs)])])) = .ub := by
  cases st <;> exact ⟨by with_unfolding_all rfl, by with_unfolding_all rfl⟩

/-- C89: a service type of `static` as in its manual page ends the program, unless `plugins` has an entry for `static`. -/
theorem C89_static_alone (m : Bool) : configure false m (some (.hash [entry "foo" (.hash [entry "plugin" (word "static"), entry "state" (word "up")])])) = .ok none ∧
    All Means [entry "foo" (.hash [entry "plugin" (word "static"), entry "state" (word "up")])] [⟨nm "foo", ⟨20, 10, 10, 10, 5⟩, .static (sttlOf false 268435455)⟩] := by
  refine ⟨by cases m <;> rfl, ?_⟩
  have hc : Clean (.hash [entry "foo" (.hash [entry "plugin" (word "static"), entry "state" (word "up")])]) :=
    .hash (by decide) (.cons (.hash (by decide) (.cons .simple (.cons .simple .nil))) .nil)
  have hp : ∀ e ∈ [entry "foo" (.hash [entry "plugin" (word "static"), entry "state" (word "up")])], Plain e := by
    intro e he
    rw [List.mem_singleton.mp he]
    intro name es
    constructor
    · intro h
      cases h with
      | intro _ _ _ h4 h5 h6 =>
        have hf := (is_iff (by decide)).mp h4
        cases hf
        obtain rfl := upToZero_iff.mp h5
        exact absurd (findPlugin_iff.mpr h6).1 (by decide)
    · intro h
      cases h with
      | intro _ _ _ h4 h5 h6 =>
        have hf := (is_iff (by decide)).mp h4
        cases hf
        obtain rfl := upToZero_iff.mp h5
        exact absurd (findPlugin_iff.mpr h6).1 (by decide)
  exact ((C89_types_partial (st := true) hc hp (.inl rfl)).2 _).mp ⟨_, by rfl⟩

end Gdnsd.Svc
