/-
Lemmas: a resource of `weighted`, and all of them.
-/
import Verif.Wt.View
import Verif.Res.MfProps
namespace Gdnsd.Wt
open Vscf VscfSpec Conf ConfSpec SvcSpec WtSpec
open ResSpec hiding SetOf sizes
open Res hiding ASet most params params_zero params_nodup View configAddrs_set configAuto configRes optStanza Good configAuto_view opt_good configRes_good most_from most_max most_le addrOf reqsOf slots
open Svc (Addr)

/-! ### Copies -/

mutual

theorem clone_clean (ig : Bool) : ∀ {v}, Clean v → clone ig v = .ok v
  | _, .simple => by simp [clone]
  | _, .array h => by simp [clone, cloneVs_clean ig h]
  | .hash es, .hash hn h => by
    have := cloneEs_clean ig h (acc := []) (by simpa using hn)
    simp [clone, this]

theorem cloneVs_clean (ig : Bool) : ∀ {vs}, Cleans vs → cloneVs ig vs = .ok vs
  | _, .nil => by simp [cloneVs]
  | _, .cons h hs => by simp [cloneVs, clone_clean ig h, cloneVs_clean ig hs]

theorem cloneEs_clean (ig : Bool) : ∀ {es acc}, CleanOf es → ((acc ++ es).map (·.key)).Nodup → cloneEs ig es acc = .ok (acc ++ es)
  | _, _, .nil, _ => by simp [cloneEs]
  | _, acc, @CleanOf.cons k v es h hs, hn => by
    have hno : ¬ Has acc k := by
      intro hh
      rw [List.map_append, List.nodup_append] at hn
      exact hn.2.2 k (has_iff.mp hh) k (by simp) rfl
    have ih := cloneEs_clean ig (acc := acc ++ [⟨k, false, v⟩]) hs (by simpa using hn)
    simp only [cloneEs, Bool.not_false, Bool.or_true, cond_true, clone_clean ig h, Outcome.bind_ok, addEntry_new hno, ih]
    simp

end

theorem cloneEs_unmarked : ∀ {es acc : List (Entry Val)}, (∀ e ∈ unmarked es, Clean e.val) → ((acc ++ es).map (·.key)).Nodup → cloneEs true es acc = .ok (acc ++ unmarked es)
  | [], _, _, _ => by simp [cloneEs, unmarked]
  | ⟨k, true, v⟩ :: es, acc, h, hn => by
    have hu : unmarked (⟨k, true, v⟩ :: es) = unmarked es := rfl
    have hn' : ((acc ++ es).map (·.key)).Nodup := by
      refine hn.sublist ?_
      exact List.Sublist.map _ (List.Sublist.append_left (List.sublist_cons_self _ _) _)
    rw [hu] at h ⊢
    simp only [cloneEs, Bool.not_true, Bool.or_false, cond_false]
    exact cloneEs_unmarked h hn'
  | ⟨k, false, v⟩ :: es, acc, h, hn => by
    have hu : unmarked (⟨k, false, v⟩ :: es) = ⟨k, false, v⟩ :: unmarked es := rfl
    rw [hu] at h ⊢
    have hno : ¬ Has acc k := by
      intro hh
      rw [List.map_append, List.nodup_append] at hn
      exact hn.2.2 k (has_iff.mp hh) k (by simp) rfl
    have ih := cloneEs_unmarked (es := es) (acc := acc ++ [⟨k, false, v⟩]) (fun e he => h e (by simp [he])) (by simpa using hn)
    simp only [cloneEs, Bool.not_false, Bool.or_true, cond_true, clone_clean true (h ⟨k, false, v⟩ (by simp)), Outcome.bind_ok, addEntry_new hno, ih]
    simp

/-! ### Levels -/

/-- What is known of a value of the configuration. -/
structure Good (lib : Lib) (v : Val) : Prop where
  clean : Clean v
  nan : NoNan lib v
  labels : Labelled v

theorem Good.lvl {lib : Lib} {es : List (Entry Val)} (h : Good lib (.hash es)) : Lvl lib es := ⟨(clean_hash h.clean).1, h.nan es .refl⟩

theorem Good.mem {lib : Lib} {es : List (Entry Val)} (h : Good lib (.hash es)) {e : Entry Val} (he : e ∈ es) : Good lib e.val where
  clean := (cleanOf_mem (clean_hash h.clean).2.2 he).1
  nan := fun fs hw => h.nan fs (.child he hw)
  labels := fun fs hw => h.labels fs (.child he hw)

theorem Good.others {lib : Lib} {es : List (Entry Val)} (h : Good lib (.hash es)) : ∀ v ∈ (others params es).map (·.val), Clean v ∧ Labelled v := by
  intro v hv
  obtain ⟨e, he, rfl⟩ := List.mem_map.mp hv
  have := h.mem (List.mem_filter.mp he).1
  exact ⟨this.clean, this.labels⟩

theorem soundOf_marks {es : List (Entry Val)} (h : SoundOf es) (ks : List Bytes) : SoundOf (marks es ks) := by
  refine soundOf_of fun e he => ?_
  rw [marks_eq] at he
  obtain ⟨x, hx, rfl⟩ := List.mem_map.mp he
  have := soundOf_mem h hx
  split <;> exact this

theorem marks_append (es : List (Entry Val)) (ks ks' : List Bytes) : marks (marks es ks) ks' = marks es (ks ++ ks') := by
  simp [marks, List.foldl_append]

/-- A resource's hash, with what was handed down to it. -/
structure Below (es opts o : List (Entry Val)) : Prop where
  nodup : (o.map (·.key)).Nodup
  sound : SoundOf o
  fresh : ∀ e ∈ o, e.marked = false
  param : ∀ k ∈ params, (find o k).map shape = (firstOf [opts, es] k).map shape
  others : others params o = others params opts
  value : ∀ k, k ∉ params → find o k = find opts k
  keys : ∀ k, k ∉ params → (Has o k ↔ Has opts k)

theorem below {mk : List Bytes} {es : List (Entry Val)} {a b : Entry Val} (h : Handed mk params es a b) {opts : List (Entry Val)} (ha : a.val = .hash opts) (hf : Fresh opts) :
    ∃ o, b.val = .hash o ∧ Below es opts o := by
  obtain ⟨xs, h1, h2, h3⟩ := h.hash opts ha
  have hs := h.sound
  rw [h1] at hs
  cases hs with
  | hash hn hso =>
    refine ⟨opts ++ xs, h1, hn, hso, ?_, ?_, ?_, ?_, ?_⟩
    · intro e he
      rcases List.mem_append.mp he with he | he
      · exact hf e he
      · exact (h2 e he).2.2
    · intro k hk
      rw [h3 k hk, firstOf_cons, firstOf_cons]
      simp [firstOf]
    · rw [others_append, others_in fun x hx => (h2 x hx).1, List.append_nil]
    · intro k hk
      have : find xs k = none := by
        rw [find_none]
        rintro ⟨x, hx, rfl⟩
        exact hk (h2 x hx).1
      rw [find_append, this, Option.or_none]
    · intro k hk
      rw [has_append]
      constructor
      · rintro (h | ⟨x, hx, rfl⟩)
        · exact h
        · exact absurd (h2 x hx).1 hk
      · exact Or.inl

theorem Below.view {es opts o : List (Entry Val)} (h : Below es opts o) : View [opts, es] ((Res.others params opts).map (·.val)) o where
  nodup := h.nodup
  marked := fun e he hm => by rw [h.fresh e he] at hm; cases hm
  vals := by rw [h.others]
  levels := h.param

theorem or_again {α β : Type} {f : α → β} {x a b : Option α} (h : x.map f = (a.or b).map f) : (x.or b).map f = (a.or b).map f := by
  cases x with
  | some _ => exact h
  | none =>
    cases a with
    | some _ => cases h
    | none =>
      cases b with
      | none => rfl
      | some _ => cases h

/-- Parameters that were handed down are not inherited again. -/
theorem takeOver_again {P es opts : List (Entry Val)} (hn : (P.map (·.key)).Nodup) (hs : SoundOf P) (hP : ∀ k ∈ params, (find P k).map shape = (firstOf [es] k).map shape)
    {vals : List Val} {o : List (Entry Val)} (hv : View [opts, es] vals o) : ∃ p fs, takeOver params P o = .ok (p, fs) ∧ View [opts, es] vals fs := by
  obtain ⟨fs, h1, h2⟩ := takeOver_view hn hs hP hv.nodup hv.marked
  refine ⟨_, fs, h1, h2.nodup, h2.marked, by rw [h2.vals, hv.vals], ?_⟩
  intro k hk
  rw [h2.levels k hk, firstOf_cons]
  have := hv.levels k hk
  rw [firstOf_cons] at this ⊢
  exact or_again this

/-! ### Directly -/

section
variable {lib : Lib} {name : Bytes} {P es opts : List (Entry Val)} {vals : List Val} {o : List (Entry Val)}

theorem directSet_ok (hn : (P.map (·.key)).Nodup) (hs : SoundOf P) (hP : ∀ k ∈ params, (find P k).map shape = (firstOf [es] k).map shape) (hv : View [opts, es] vals o)
    (hl : ∀ x ∈ [opts, es], Lvl lib x) (hg : ∀ v ∈ vals, Clean v ∧ Labelled v) (a : Addr) :
    directSet lib name P o a ≠ .ub ∧ ∀ r, directSet lib name P o a = .ok (some r) ↔
      ∃ s, SetOf lib a.v6 [opts, es] vals s ∧ r = if a.v6 = true then ⟨name, none, none, some s⟩ else ⟨name, none, some s, none⟩ := by
  obtain ⟨p, fs, h1, h2⟩ := takeOver_again hn hs hP hv
  obtain ⟨g1, g2⟩ := setOf_ok (lib := lib) (v6 := a.v6) h2 (lvl_nodup hl) (lvl_nan hl) hg
  simp only [directSet, configAddrset, h1, Outcome.bind_ok]
  cases hc : setOf lib a.v6 fs with
  | ub => exact absurd hc g1
  | ok x =>
    rw [hc] at g2
    refine ⟨by simp [Outcome.map], fun r => ?_⟩
    simp only [Outcome.map_ok, Outcome.ok.injEq, Option.map_map, Option.map_eq_some_iff]
    constructor
    · rintro ⟨s, rfl, rfl⟩
      exact ⟨s, (g2 s).mp rfl, rfl⟩
    · rintro ⟨s, h3, rfl⟩
      have := (g2 s).mpr h3
      simp only [Outcome.ok.injEq] at this
      exact ⟨s, this, rfl⟩

/-- What a resource without stanzas says. -/
def AutoOf (lib : Lib) (name : Bytes) (levels : List (List (Entry Val))) (vals : List Val) (r : Resource) : Prop :=
  (∃ s, SetOf lib false levels vals s ∧ r = ⟨name, none, some s, none⟩) ∨ (∃ s, SetOf lib true levels vals s ∧ r = ⟨name, none, none, some s⟩) ∨
    ∃ s, NoAddr lib vals ∧ NamesOf lib levels vals s ∧ r = ⟨name, some s, none, none⟩

/-- The family of the first address of the first value. -/
theorem first_family {lib : Lib} {v6 : Bool} {levels : List (List (Entry Val))} {v0 : Val} {vs : List Val} {s : ASet} (h : SetOf lib v6 levels (v0 :: vs) s) :
    ∃ r t l a, (v0 = .array (.simple r t :: l) ∨ ∃ k m es, v0 = .hash (⟨k, m, .array (.simple r t :: l)⟩ :: es)) ∧ lib.addr (cstr t) = some a ∧ a.v6 = v6 := by
  have item : ∀ v p, IsItem lib v6 v p → ∃ r t l a, v = .array (.simple r t :: l) ∧ lib.addr (cstr t) = some a ∧ a.v6 = v6 := by
    rintro v p ⟨x, ⟨r', t', m, rfl, _⟩, r, t, u, rfl, h3, h4, h5⟩
    rw [upToZero_iff.mp h3] at h4
    exact ⟨r, t, _, _, rfl, h4, h5⟩
  rcases h.items with ⟨as, h1, _⟩ | h1
  · cases h1 with
    | cons h1 _ =>
      obtain ⟨r, t, l, a, h2, h3⟩ := item _ _ h1
      exact ⟨r, t, l, a, Or.inl h2, h3⟩
  · generalize s.groups = gs at h1
    cases h1 with
    | cons h1 _ =>
      obtain ⟨es, rfl, h2, _, h4⟩ := h1
      cases es with
      | nil => cases h4; exact absurd rfl h2
      | cons e es =>
        rw [List.map_cons] at h4
        cases h4 with
        | cons h5 _ =>
          obtain ⟨r, t, l, a, h6, h7⟩ := item _ _ h5
          obtain ⟨k, m, v⟩ := e
          change v = _ at h6
          subst h6
          exact ⟨r, t, l, a, Or.inr ⟨k, m, es, rfl⟩, h7⟩

theorem first_name {lib : Lib} {levels : List (List (Entry Val))} {v0 : Val} {vs : List Val} {s : CSet} (h : NamesOf lib levels (v0 :: vs) s) :
    ∃ r t w, v0 = .array [.simple r t, w] := by
  have h1 := h.names
  generalize s.names = cs at h1
  cases h1 with
  | cons h1 _ =>
    obtain ⟨r, t, ls, ⟨r', t', m, rfl, _⟩, _⟩ := h1
    exact ⟨r, t, _, rfl⟩

theorem configAuto_ok (hn : (P.map (·.key)).Nodup) (hs : SoundOf P) (hP : ∀ k ∈ params, (find P k).map shape = (firstOf [es] k).map shape) (hv : View [opts, es] vals o)
    (hl : ∀ x ∈ [opts, es], Lvl lib x) (hg : ∀ v ∈ vals, Clean v ∧ Labelled v) :
    configAuto lib name P o ≠ .ub ∧ ∀ r, configAuto lib name P o = .ok (some r) ↔ AutoOf lib name [opts, es] vals r := by
  have hvm := hv.marks
  have hcl : ∀ e ∈ others params o, Clean e.val := hv.mem fun v h => (hg v h).1
  have hclone : clone true (.hash (marks o params)) = .ok (.hash (others params o)) := by
    have := cloneEs_unmarked (es := marks o params) (acc := []) (by rw [hv.unmarked]; exact hcl) (by simpa using hvm.nodup)
    rw [hv.unmarked] at this
    simp [clone, this]
  have bad : (∀ v6 s, ¬ SetOf lib v6 [opts, es] vals s) → (∀ s, ¬ (NoAddr lib vals ∧ NamesOf lib [opts, es] vals s)) → ∀ r : Resource,
      (Outcome.ok (none : Option Resource) = .ok (some r) ↔ AutoOf lib name [opts, es] vals r) := by
    intro hb hb' r
    constructor
    · intro h; cases h
    · rintro (⟨s, h, _⟩ | ⟨s, h, _⟩ | ⟨s, h, h', _⟩)
      · exact absurd h (hb _ s)
      · exact absurd h (hb _ s)
      · exact absurd ⟨h, h'⟩ (hb' s)
  have direct : ∀ a, (∀ v6 s, SetOf lib v6 [opts, es] vals s → v6 = a.v6) → ¬ NoAddr lib vals →
      directSet lib name P (marks o params) a ≠ .ub ∧ ∀ r, directSet lib name P (marks o params) a = .ok (some r) ↔ AutoOf lib name [opts, es] vals r := by
    intro a h1 h2
    obtain ⟨g1, g2⟩ := directSet_ok (name := name) hn hs hP hvm hl hg a
    refine ⟨g1, fun r => ?_⟩
    rw [g2]
    constructor
    · rintro ⟨s, h3, rfl⟩
      cases ha : a.v6 with
      | true => rw [ha] at h3; exact Or.inr (Or.inl ⟨s, h3, by simp⟩)
      | false => rw [ha] at h3; exact Or.inl ⟨s, h3, by simp⟩
    · rintro (⟨s, h, rfl⟩ | ⟨s, h, rfl⟩ | ⟨s, h, _⟩)
      · have := h1 _ s h
        rw [← this]
        exact ⟨s, h, by simp⟩
      · have := h1 _ s h
        rw [← this]
        exact ⟨s, h, by simp⟩
      · exact absurd h h2
  unfold configAuto
  simp only [hclone, Outcome.bind_ok]
  have hvals := hv.vals
  cases hot : others params o with
  | nil =>
    rw [hot] at hvals
    subst hvals
    dsimp only
    refine ⟨nofun, bad (fun _ s h => h.some rfl) fun s h => h.2.some rfl⟩
  | cons f rest =>
    rw [hot] at hvals
    subst hvals
    simp only [List.map_cons] at bad direct ⊢
    cases hfv : f.val with
    | simple r t =>
      rw [hfv] at bad
      dsimp only
      refine ⟨nofun, bad (fun v6 s h => ?_) (fun s h => ?_)⟩
      · obtain ⟨_, _, _, _, h | ⟨_, _, _, h⟩, _⟩ := first_family h <;> cases h
      · obtain ⟨_, _, _, h⟩ := first_name h.2; cases h
    | hash us =>
      rw [hfv] at bad direct
      have nonames : ∀ vs s, ¬ (NoAddr lib (Val.hash us :: vs) ∧ NamesOf lib [opts, es] (Val.hash us :: vs) s) := by
        intro vs s h
        obtain ⟨_, _, _, h⟩ := first_name h.2
        cases h
      have noaddr : ∀ vs, ¬ NoAddr lib (Val.hash us :: vs) := by
        rintro vs ⟨_, _, _, _, _, h, _⟩
        cases h
      cases us with
      | nil =>
        dsimp only
        refine ⟨nofun, bad (fun v6 s h => ?_) (nonames _)⟩
        obtain ⟨_, _, _, _, h | ⟨_, _, _, h⟩, _⟩ := first_family h <;> cases h
      | cons g us =>
        dsimp only
        obtain ⟨gk, gm, gv⟩ := g
        dsimp only
        split
        · split
          · rename_i r t l hla
            refine ⟨nofun, bad (fun v6 s h => ?_) (nonames _)⟩
            obtain ⟨_, _, _, _, h | ⟨_, _, _, h⟩, h2, _⟩ := first_family h <;> cases h
            rw [hla] at h2
            cases h2
          · rename_i r t l a hla
            refine direct a (fun v6 s h => ?_) (noaddr _)
            obtain ⟨_, _, _, _, h | ⟨_, _, _, h⟩, h2, h3⟩ := first_family h <;> cases h
            rw [hla] at h2
            cases h2
            exact h3.symm
        · rename_i hno
          refine ⟨nofun, bad (fun v6 s h => ?_) (nonames _)⟩
          obtain ⟨_, _, _, _, h | ⟨_, _, _, h⟩, h2, _⟩ := first_family h <;> cases h
          exact hno _ _ _ rfl
    | array us =>
      rw [hfv] at bad direct
      have other : (∀ r t l, us ≠ .simple r t :: l) → ∀ r : Resource,
          (Outcome.ok (none : Option Resource) = .ok (some r) ↔ AutoOf lib name [opts, es] (Val.array us :: rest.map (·.val)) r) := by
        intro hno
        refine bad (fun v6 s h => ?_) (fun s h => ?_)
        · obtain ⟨_, _, _, _, h | ⟨_, _, _, h⟩, h2, _⟩ := first_family h
          · cases h; exact hno _ _ _ rfl
          · cases h
        · obtain ⟨_, _, _, h⟩ := first_name h.2
          cases h
          exact hno _ _ _ rfl
      cases us with
      | nil => exact ⟨nofun, other nofun⟩
      | cons u us =>
        cases u with
        | array _ => exact ⟨nofun, other nofun⟩
        | hash _ => exact ⟨nofun, other nofun⟩
        | simple r t =>
          dsimp only
          cases hla : lib.addr (cstr t) with
          | some a =>
            dsimp only
            refine direct a (fun v6 s h => ?_) ?_
            · obtain ⟨_, _, _, _, h | ⟨_, _, _, h⟩, h2, h3⟩ := first_family h <;> cases h
              rw [hla] at h2
              cases h2
              exact h3.symm
            · rintro ⟨_, _, _, _, _, h, h2, h3⟩
              cases h
              rw [upToZero_iff.mp h2, hla] at h3
              cases h3
          | none =>
            dsimp only
            obtain ⟨g1, g2⟩ := configCnameset_ok (lib := lib) hvm (lvl_nodup hl) (lvl_nan hl)
            rw [List.map_cons, hfv] at g2
            cases hc : configCnameset lib (marks o params) with
            | ub => exact absurd hc g1
            | ok x =>
              rw [hc] at g2
              refine ⟨by simp [Outcome.map], fun r' => ?_⟩
              simp only [Outcome.map_ok, Outcome.ok.injEq, Option.map_eq_some_iff]
              constructor
              · rintro ⟨s, rfl, rfl⟩
                have hn' := (g2 s).mp rfl
                refine Or.inr (Or.inr ⟨s, ?_, hn', rfl⟩)
                obtain ⟨r0, t0, w0, h0⟩ := first_name hn'
                rw [h0]
                cases h0
                exact ⟨r, t, _, w0, _, rfl, upToZero_iff.mpr rfl, hla⟩
              · rintro (⟨s, h, _⟩ | ⟨s, h, _⟩ | ⟨s, _, h, rfl⟩)
                · obtain ⟨_, _, _, _, h | ⟨_, _, _, h⟩, h2, h3⟩ := first_family h <;> cases h
                  rw [hla] at h2
                  cases h2
                · obtain ⟨_, _, _, _, h | ⟨_, _, _, h⟩, h2, h3⟩ := first_family h <;> cases h
                  rw [hla] at h2
                  cases h2
                · have := (g2 s).mpr h
                  simp only [Outcome.ok.injEq] at this
                  exact ⟨s, this, rfl⟩

end

/-! ### Stanzas -/

theorem marks_none {es : List (Entry Val)} {ks : List Bytes} (h : ∀ k ∈ ks, ¬ Has es k) : marks es ks = es := by
  rw [marks_eq]
  have : ∀ e ∈ es, (if ks.contains e.key = true then ({ e with marked := true } : Entry Val) else e) = id e := by
    intro e he
    rw [if_neg]
    · rfl
    · intro hc
      exact h _ (List.contains_iff_mem.mp hc) ⟨e, he, rfl⟩
  rw [List.map_congr_left this, List.map_id]

theorem optStanza_ok {lib : Lib} {v6 : Bool} {P es opts : List (Entry Val)} (hn : (P.map (·.key)).Nodup) (hs : SoundOf P)
    (hP : ∀ k ∈ params, (find P k).map shape = (firstOf [opts, es] k).map shape) (hg : Good lib (.hash opts)) (hl : Lvl lib es) (k : String) :
    optStanza lib v6 P (find opts (str k)) ≠ .ub ∧ ∀ P' x, optStanza lib v6 P (find opts (str k)) = .ok (some (P', x)) ↔
      MaybeSet lib v6 [opts, es] opts k x ∧ P' = if find opts (str k) = none then P else marks P params := by
  have hno := hg.lvl.nodup
  cases hf : find opts (str k) with
  | none =>
    refine ⟨nofun, fun P' x => ?_⟩
    simp only [optStanza, Outcome.ok.injEq, Option.some.injEq, Prod.mk.injEq, if_true]
    constructor
    · rintro ⟨rfl, rfl⟩
      exact ⟨absent_iff.mpr hf, rfl⟩
    · rintro ⟨h, rfl⟩
      cases x with
      | none => exact ⟨rfl, rfl⟩
      | some s =>
        obtain ⟨_, _, h1, _⟩ := h
        rw [(is_iff hno).mp h1] at hf
        cases hf
  | some v =>
    have hab : ¬ Absent opts k := fun ha => by rw [absent_iff.mp ha] at hf; cases hf
    rw [if_neg (by simp)]
    have hgv : Good lib v := by
      obtain ⟨e, he, _, rfl⟩ := find_some hf
      exact hg.mem he
    have flat : (∀ fs, v ≠ .hash fs) → optStanza lib v6 P (some v) = .ok none → optStanza lib v6 P (some v) ≠ .ub ∧ ∀ P' x, optStanza lib v6 P (some v) = .ok (some (P', x)) ↔
        MaybeSet lib v6 [opts, es] opts k x ∧ P' = marks P params := by
      intro h1 h2
      rw [h2]
      refine ⟨nofun, fun P' x => ⟨fun h => (by cases h), ?_⟩⟩
      rintro ⟨h, _⟩
      cases x with
      | none => exact absurd h hab
      | some s =>
        obtain ⟨fs, _, h3, _⟩ := h
        rw [(is_iff hno).mp h3] at hf
        cases hf
        exact absurd rfl (h1 fs)
    cases v with
    | simple r t => exact flat nofun rfl
    | array vs => exact flat nofun rfl
    | hash fs =>
      obtain ⟨hn', hf', hco⟩ := clean_hash hgv.clean
      obtain ⟨gs, h1, h2⟩ := takeOver_view hn hs hP hn' (fun e he hm => by rw [hf' e he] at hm; cases hm)
      have hls : ∀ x ∈ [fs, opts, es], Lvl lib x := by
        intro x hx
        simp only [List.mem_cons, List.not_mem_nil, or_false] at hx
        rcases hx with rfl | rfl | rfl
        · exact hgv.lvl
        · exact hg.lvl
        · exact hl
      obtain ⟨g1, g2⟩ := setOf_ok (lib := lib) (v6 := v6) h2 (lvl_nodup hls) (lvl_nan hls) hgv.others
      simp only [optStanza, configAddrset, h1, Outcome.bind_ok]
      cases hc : setOf lib v6 gs with
      | ub => exact absurd hc g1
      | ok o =>
        rw [hc] at g2
        refine ⟨by simp [Outcome.map], fun P' x => ?_⟩
        simp only [Outcome.map_ok, Outcome.ok.injEq, Option.map_map, Option.map_eq_some_iff, Function.comp, Prod.mk.injEq]
        constructor
        · rintro ⟨s, rfl, rfl, rfl⟩
          exact ⟨⟨fs, _, (is_iff hno).mpr hf, others_iff.mpr rfl, (g2 s).mp rfl⟩, rfl⟩
        · rintro ⟨h, rfl⟩
          cases x with
          | none => exact absurd h hab
          | some s =>
            obtain ⟨fs', rest, h3, h4, h5⟩ := h
            rw [(is_iff hno).mp h3] at hf
            cases hf
            rw [others_iff.mp h4] at h5
            have := (g2 s).mpr h5
            simp only [Outcome.ok.injEq] at this
            exact ⟨s, this, rfl, rfl⟩

theorem stanza_keys : str "addrs_v4" ∉ params ∧ str "addrs_v6" ∉ params ∧ str "cnames" ∉ params := by decide

theorem only_iff {es opts o : List (Entry Val)} (h : Below es opts o) (hc : Absent opts "cnames") {ks : List Bytes}
    (hk : ∀ k, k ∈ ks ↔ k ∈ [str "addrs_v4", str "addrs_v6", str "cnames"] ∨ k ∈ params) :
    (unmarked (marks o ks)).isEmpty = true ↔ Only opts (["addrs_v4", "addrs_v6"] ++ wtParams) := by
  rw [marks_empty (ms := []) (fun e he => by rw [h.fresh e he]; rfl)]
  simp only [List.not_mem_nil, or_false, hk]
  have hmem : ∀ x, (∃ k ∈ ["addrs_v4", "addrs_v6"] ++ wtParams, x = nm k) ↔ x ∈ [str "addrs_v4", str "addrs_v6"] ∨ x ∈ params := by
    intro x
    have : params = wtParams.map nm := by decide
    rw [this]
    simp only [List.mem_append, List.mem_map, List.mem_cons, List.not_mem_nil, or_false, wtParams]
    constructor
    · rintro ⟨k, (rfl | rfl) | h, rfl⟩
      · exact Or.inl (Or.inl rfl)
      · exact Or.inl (Or.inr rfl)
      · exact Or.inr ⟨k, h, rfl⟩
    · rintro ((rfl | rfl) | ⟨k, h, rfl⟩)
      · exact ⟨"addrs_v4", Or.inl (Or.inl rfl), rfl⟩
      · exact ⟨"addrs_v6", Or.inl (Or.inr rfl), rfl⟩
      · exact ⟨k, Or.inr h, rfl⟩
  constructor
  · intro hall e he
    rw [hmem]
    by_cases hin : e.key ∈ params
    · exact Or.inr hin
    · obtain ⟨x, hx, hxk⟩ := (h.keys e.key hin).mpr ⟨e, he, rfl⟩
      rcases hall x hx with h' | h'
      · rw [hxk] at h'
        simp only [List.mem_cons, List.not_mem_nil, or_false] at h' ⊢
        rcases h' with h' | h' | h'
        · exact Or.inl (Or.inl h')
        · exact Or.inl (Or.inr h')
        · exact absurd h' (hc e he)
      · rw [hxk] at h'; exact Or.inr h'
  · intro hall x hx
    by_cases hin : x.key ∈ params
    · exact Or.inr hin
    · left
      obtain ⟨e, he, hek⟩ := (h.keys x.key hin).mp ⟨x, hx, rfl⟩
      rcases (hmem _).mp (hall e he) with h' | h'
      · rw [hek] at h'
        simp only [List.mem_cons, List.not_mem_nil, or_false] at h' ⊢
        rcases h' with h' | h'
        · exact Or.inl h'
        · exact Or.inr (Or.inl h')
      · rw [hek] at h'; exact absurd h' hin

/-! ### Resources -/

theorem configRes_ok {lib : Lib} {es es1 : List (Entry Val)} (hg : Good lib (.hash es)) (hall : All (Handed params params es) es es1) {a b : Entry Val}
    (ha : a ∈ es) (h : Handed params params es a b) : configRes lib es1 b ≠ .ub ∧ ∀ r, configRes lib es1 b = .ok (some r) ↔ WeightedOf lib es a r := by
  have hga := hg.mem ha
  have hkey : cstr b.key = cstr a.key := by rw [h.key]
  have hn1 : (es1.map (·.key)).Nodup := by rw [handed_keys hall]; exact hg.lvl.nodup
  have hs1 := handed_soundOf hall
  have hP1 : ∀ k ∈ params, (find es1 k).map shape = (firstOf [es] k).map shape := by
    intro k hk
    rw [(find_handed hall k).1, firstOf_cons]
    simp [firstOf]
  have flat : (∀ opts, a.val ≠ .hash opts) → configRes lib es1 b ≠ .ub ∧ ∀ r, configRes lib es1 b = .ok (some r) ↔ WeightedOf lib es a r := by
    intro hno
    have hb := h.other hno
    have : configRes lib es1 b = .ok none := by
      unfold configRes
      rw [hb]
      cases hav : a.val with
      | hash opts => exact absurd hav (hno opts)
      | simple _ _ => rfl
      | array _ => rfl
    rw [this]
    refine ⟨nofun, fun r => ⟨fun h => (by cases h), fun h => ?_⟩⟩
    cases h <;> exact absurd (by assumption) (hno _)
  cases hav : a.val with
  | simple r t => exact flat (by simp [hav])
  | array vs => exact flat (by simp [hav])
  | hash opts =>
    rw [hav] at hga
    obtain ⟨o, hb, hbel⟩ := below h hav (clean_hash hga.clean).2.1
    have hno := hga.lvl.nodup
    obtain ⟨k4, k6, kc⟩ := stanza_keys
    unfold configRes
    simp only [hb, hbel.value _ k4, hbel.value _ k6, hbel.value _ kc]
    split
    · rename_i hc
      refine ⟨nofun, fun r => ⟨fun h => (by cases h), fun h => ?_⟩⟩
      exfalso
      cases h with
      | split g1 g2 g3 =>
        rw [hav] at g1
        cases g1
        cases hf : find opts (str "cnames") with
        | none => exact hc hf
        | some v =>
          obtain ⟨e, he, hek, _⟩ := find_some hf
          obtain ⟨k, h1, h2⟩ := g3 e he
          rw [hek] at h2
          have : ∀ k ∈ ["addrs_v4", "addrs_v6"] ++ wtParams, str "cnames" ≠ nm k := by decide
          exact this k h1 h2
      | direct4 g1 g2 => rw [hav] at g1; cases g1; exact hc (absent_iff.mp g2.2.2)
      | direct6 g1 g2 => rw [hav] at g1; cases g1; exact hc (absent_iff.mp g2.2.2)
      | names g1 g2 => rw [hav] at g1; cases g1; exact hc (absent_iff.mp g2.2.2)
    · rename_i hc
      have hc : find opts (str "cnames") = none := Decidable.byContradiction fun h => hc h
      have hcab : Absent opts "cnames" := absent_iff.mpr hc
      have hls : ∀ x ∈ [opts, es], Lvl lib x := by
        intro x hx
        simp only [List.mem_cons, List.not_mem_nil, or_false] at hx
        rcases hx with rfl | rfl
        · exact hga.lvl
        · exact hg.lvl
      have hfacts : ∀ ks, ((marks o ks).map (·.key)).Nodup ∧ SoundOf (marks o ks) ∧ ∀ k ∈ params, (find (marks o ks) k).map shape = (firstOf [opts, es] k).map shape := by
        intro ks
        refine ⟨by rw [keys_marks]; exact hbel.nodup, soundOf_marks hbel.sound ks, fun k hk => ?_⟩
        rw [find_marks]
        exact hbel.param k hk
      obtain ⟨n1, s1, p1⟩ := hfacts [str "addrs_v4", str "addrs_v6", str "cnames"]
      obtain ⟨a1, a2⟩ := optStanza_ok (v6 := false) n1 s1 p1 hga hg.lvl "addrs_v4"
      by_cases hd : find opts (str "addrs_v4") = none ∧ find opts (str "addrs_v6") = none
      · rw [hd.1, hd.2]
        simp only [optStanza, Outcome.bind_ok, and_self, if_true]
        have hdir : Direct opts := ⟨absent_iff.mpr hd.1, absent_iff.mpr hd.2, hcab⟩
        have hm : marks o [str "addrs_v4", str "addrs_v6", str "cnames"] = o := by
          apply marks_none
          intro k hk
          simp only [List.mem_cons, List.not_mem_nil, or_false] at hk
          rw [← find_none]
          rcases hk with rfl | rfl | rfl
          · rw [hbel.value _ k4, hd.1]
          · rw [hbel.value _ k6, hd.2]
          · rw [hbel.value _ kc, hc]
        rw [hm]
        obtain ⟨c1, c2⟩ := configAuto_ok (lib := lib) (name := cstr b.key) hn1 hs1 hP1 hbel.view hls hga.others
        refine ⟨c1, fun r => ?_⟩
        rw [c2]
        constructor
        · rintro (⟨s, g, rfl⟩ | ⟨s, g, rfl⟩ | ⟨s, g, g', rfl⟩)
          · exact .direct4 hav hdir (upToZero_iff.mpr hkey) (others_iff.mpr rfl) g
          · exact .direct6 hav hdir (upToZero_iff.mpr hkey) (others_iff.mpr rfl) g
          · exact .names hav hdir (upToZero_iff.mpr hkey) (others_iff.mpr rfl) g g'
        · intro h'
          cases h' with
          | split g1 g2 => rw [hav] at g1; cases g1; exact absurd ⟨hdir.1, hdir.2.1⟩ g2
          | direct4 g1 _ g3 g4 g5 =>
            rw [hav] at g1
            cases g1
            rw [others_iff.mp g4] at g5
            exact Or.inl ⟨_, g5, by rw [hkey, upToZero_iff.mp g3]⟩
          | direct6 g1 _ g3 g4 g5 =>
            rw [hav] at g1
            cases g1
            rw [others_iff.mp g4] at g5
            exact Or.inr (Or.inl ⟨_, g5, by rw [hkey, upToZero_iff.mp g3]⟩)
          | names g1 _ g3 g4 g5 g6 =>
            rw [hav] at g1
            cases g1
            rw [others_iff.mp g4] at g5 g6
            exact Or.inr (Or.inr ⟨_, g5, g6, by rw [hkey, upToZero_iff.mp g3]⟩)
      · have hnd : ¬ (Absent opts "addrs_v4" ∧ Absent opts "addrs_v6") := fun h => hd ⟨absent_iff.mp h.1, absent_iff.mp h.2⟩
        have hsplit : ∀ r, WeightedOf lib es a r ↔ ∃ s4 s6, r = ⟨cstr b.key, none, s4, s6⟩ ∧ Only opts (["addrs_v4", "addrs_v6"] ++ wtParams) ∧
            MaybeSet lib false [opts, es] opts "addrs_v4" s4 ∧ MaybeSet lib true [opts, es] opts "addrs_v6" s6 := by
          intro r
          constructor
          · intro h'
            cases h' with
            | split g1 _ g3 g4 g5 g6 =>
              rw [hav] at g1
              cases g1
              exact ⟨_, _, by rw [hkey, upToZero_iff.mp g4], g3, g5, g6⟩
            | direct4 g1 g2 => rw [hav] at g1; cases g1; exact absurd ⟨g2.1, g2.2.1⟩ hnd
            | direct6 g1 g2 => rw [hav] at g1; cases g1; exact absurd ⟨g2.1, g2.2.1⟩ hnd
            | names g1 g2 => rw [hav] at g1; cases g1; exact absurd ⟨g2.1, g2.2.1⟩ hnd
          · rintro ⟨s4, s6, rfl, g1, g2, g3⟩
            exact .split hav hnd g1 (upToZero_iff.mpr hkey) g2 g3
        cases h4 : optStanza lib false (marks o [str "addrs_v4", str "addrs_v6", str "cnames"]) (find opts (str "addrs_v4")) with
        | ub => exact absurd h4 a1
        | ok x4 =>
          rw [h4] at a2
          simp only [Outcome.bind_ok]
          cases x4 with
          | none =>
            refine ⟨nofun, fun r => ?_⟩
            rw [hsplit]
            constructor
            · intro h; cases h
            · rintro ⟨s4, s6, _, _, g, _⟩
              have := (a2 _ s4).mpr ⟨g, rfl⟩
              cases this
          | some p =>
            obtain ⟨P4, s4⟩ := p
            obtain ⟨m4, e4⟩ := (a2 P4 s4).mp rfl
            obtain ⟨ks, hks, hP4⟩ : ∃ ks, P4 = marks o ks ∧ ks = [str "addrs_v4", str "addrs_v6", str "cnames"] ++ if find opts (str "addrs_v4") = none then [] else params := by
              refine ⟨_, ?_, rfl⟩
              rw [e4]
              split
              · simp
              · rw [marks_append]
            dsimp only
            obtain ⟨n2, s2, p2⟩ := hfacts ks
            rw [← hks] at n2 s2 p2
            obtain ⟨b1, b2⟩ := optStanza_ok (v6 := true) n2 s2 p2 hga hg.lvl "addrs_v6"
            cases h6 : optStanza lib true P4 (find opts (str "addrs_v6")) with
            | ub => exact absurd h6 b1
            | ok x6 =>
              rw [h6] at b2
              simp only [Outcome.bind_ok]
              cases x6 with
              | none =>
                refine ⟨nofun, fun r => ?_⟩
                rw [hsplit]
                constructor
                · intro h; cases h
                · rintro ⟨_, s6, _, _, _, g⟩
                  have := (b2 _ s6).mpr ⟨g, rfl⟩
                  cases this
              | some q =>
                obtain ⟨P6, s6⟩ := q
                obtain ⟨m6, e6⟩ := (b2 P6 s6).mp rfl
                dsimp only
                rw [if_neg hd]
                have honly : (unmarked P6).isEmpty = true ↔ Only opts (["addrs_v4", "addrs_v6"] ++ wtParams) := by
                  have : P6 = marks o (ks ++ if find opts (str "addrs_v6") = none then [] else params) := by
                    rw [e6, hks]
                    split
                    · simp
                    · rw [marks_append]
                  rw [this]
                  apply only_iff hbel hcab
                  intro k
                  rw [hP4]
                  by_cases c4 : find opts (str "addrs_v4") = none
                  · have c6 : find opts (str "addrs_v6") ≠ none := fun h => hd ⟨c4, h⟩
                    rw [if_pos c4, if_neg c6]
                    simp only [List.append_nil, List.mem_append]
                  · by_cases c6 : find opts (str "addrs_v6") = none
                    · rw [if_neg c4, if_pos c6]
                      simp only [List.append_nil, List.mem_append]
                    · rw [if_neg c4, if_neg c6]
                      simp only [List.mem_append, or_assoc, or_self]
                by_cases ho : (unmarked P6).isEmpty = true
                · rw [if_pos ho]
                  refine ⟨nofun, fun r => ?_⟩
                  rw [hsplit]
                  constructor
                  · intro h
                    simp only [Outcome.ok.injEq, Option.some.injEq] at h
                    exact ⟨s4, s6, h.symm, honly.mp ho, m4, m6⟩
                  · rintro ⟨t4, t6, rfl, _, g1, g2⟩
                    have f1 := (a2 _ t4).mpr ⟨g1, rfl⟩
                    have f2 := (b2 _ t6).mpr ⟨g2, rfl⟩
                    simp only [Outcome.ok.injEq, Option.some.injEq, Prod.mk.injEq] at f1 f2
                    rw [f1.2, f2.2]
                · rw [if_neg ho]
                  refine ⟨nofun, fun r => ?_⟩
                  rw [hsplit]
                  constructor
                  · intro h; cases h
                  · rintro ⟨_, _, _, g, _⟩
                    exact absurd (honly.mpr g) ho

/-! ### Limits -/

/-- A number that is the greatest of some, or 0 if there are none. -/
def Top (l : List Nat) (x : Nat) : Prop := (∀ y ∈ l, y ≤ x) ∧ (x = 0 ∨ x ∈ l)

theorem fold_max : ∀ (l : List Nat) (m : Nat), let x := l.foldl (fun m y => if m < y then y else m) m; m ≤ x ∧ (∀ y ∈ l, y ≤ x) ∧ (x = m ∨ x ∈ l)
  | [], m => ⟨Nat.le_refl _, nofun, Or.inl rfl⟩
  | y :: l, m => by
    simp only [List.foldl_cons]
    obtain ⟨h1, h2, h3⟩ := fold_max l (if m < y then y else m)
    refine ⟨Nat.le_trans (by split <;> omega) h1, ?_, ?_⟩
    · intro z hz
      rcases List.mem_cons.mp hz with rfl | hz
      · exact Nat.le_trans (by split <;> omega) h1
      · exact h2 z hz
    · rcases h3 with h3 | h3
      · rw [h3]
        split
        · exact Or.inr (by simp)
        · exact Or.inl rfl
      · exact Or.inr (List.mem_cons_of_mem _ h3)

theorem size_top (s : ASet) : Top (sizes s) s.size := by
  unfold sizes ASet.size
  split
  · exact ⟨by simp, Or.inr (by simp)⟩
  · have : s.groups.foldl (fun m g => if m < g.length then g.length else m) 0 = (s.groups.map (·.length)).foldl (fun m y => if m < y then y else m) 0 := by
      rw [List.foldl_map]
    rw [this]
    obtain ⟨_, h2, h3⟩ := fold_max (s.groups.map (·.length)) 0
    exact ⟨h2, h3⟩

theorem most_top (f : Resource → Option ASet) (rs : List Resource) : Top (allSizes f rs) (most f rs) := by
  have h1 : most f rs = ((rs.filterMap f).map ASet.size).foldl (fun m y => if m < y then y else m) 0 := by
    unfold most
    generalize (0 : Nat) = m
    induction rs generalizing m with
    | nil => rfl
    | cons r rs ih =>
      simp only [List.foldl_cons]
      cases hf : f r with
      | none => rw [List.filterMap_cons_none hf]; exact ih m
      | some s => rw [List.filterMap_cons_some hf]; exact ih _
  obtain ⟨_, h2, h3⟩ := fold_max ((rs.filterMap f).map ASet.size) 0
  rw [← h1] at h2 h3
  constructor
  · intro y hy
    obtain ⟨s, hs, hy⟩ := List.mem_flatMap.mp hy
    exact Nat.le_trans ((size_top s).1 y hy) (h2 _ (List.mem_map_of_mem hs))
  · rcases h3 with h3 | h3
    · exact Or.inl h3
    · obtain ⟨s, hs, he⟩ := List.mem_map.mp h3
      rcases (size_top s).2 with h0 | h0
      · exact Or.inl (he ▸ h0)
      · exact Or.inr (List.mem_flatMap.mpr ⟨s, hs, he ▸ h0⟩)

theorem top_max {l : List Nat} {x : Nat} (h : Top l x) (n m : Nat) : m = (if x > n then x else n) ↔ IsMax (n :: l) m := by
  obtain ⟨h2, h3⟩ := h
  constructor
  · rintro rfl
    split
    · rename_i hgt
      refine ⟨?_, ?_⟩
      · rcases h3 with h3 | h3
        · omega
        · exact List.mem_cons_of_mem _ h3
      · intro y hy
        rcases List.mem_cons.mp hy with rfl | hy
        · omega
        · exact h2 y hy
    · rename_i hgt
      refine ⟨by simp, ?_⟩
      intro y hy
      rcases List.mem_cons.mp hy with rfl | hy
      · omega
      · have := h2 y hy; omega
  · rintro ⟨h4, h5⟩
    have h6 := h5 n (by simp)
    rcases List.mem_cons.mp h4 with rfl | h4
    · rw [if_neg]
      rcases h3 with h3 | h3
      · omega
      · have := h5 _ (List.mem_cons_of_mem _ h3); omega
    · have := h2 m h4
      rcases h3 with h3 | h3
      · have : x ≤ n := by omega
        rw [if_neg (by omega)]
        omega
      · have := h5 _ (List.mem_cons_of_mem _ h3)
        split <;> omega

theorem top_le {l : List Nat} {x : Nat} (h : Top l x) (c : Nat) : x ≤ c ↔ ∀ y ∈ l, y ≤ c := by
  obtain ⟨h2, h3⟩ := h
  constructor
  · intro h y hy
    exact Nat.le_trans (h2 y hy) h
  · intro h
    rcases h3 with h3 | h3
    · omega
    · exact h _ h3

end Gdnsd.Wt
