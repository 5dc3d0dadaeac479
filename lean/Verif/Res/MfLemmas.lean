/-
Lemmas: a set of addresses of multifo.
-/
import Verif.Res.Lemmas
import Verif.Conf.ListenLemmas
namespace Gdnsd.Res
open Vscf VscfSpec Conf ConfSpec SvcSpec ResSpec
open Svc (Addr)

/-! ### Data -/

mutual

theorem clean_sound : ∀ {v}, Clean v → Sound v
  | _, .simple => .simple
  | _, .array h => .array (cleans_sound h)
  | _, .hash hn h => .hash hn (cleanOf_sound h)

theorem cleans_sound : ∀ {vs}, Cleans vs → Sounds vs
  | _, .nil => .nil
  | _, .cons h hs => .cons (clean_sound h) (cleans_sound hs)

theorem cleanOf_sound : ∀ {es}, CleanOf es → SoundOf es
  | _, .nil => .nil
  | _, .cons h hs => .cons (clean_sound h) (cleanOf_sound hs)

end

theorem soundOf_of : ∀ {es : List (Entry Val)}, (∀ e ∈ es, Sound e.val) → SoundOf es
  | [], _ => .nil
  | ⟨_, _, _⟩ :: _, h => .cons (h _ List.mem_cons_self) (soundOf_of fun e he => h e (by simp [he]))

/-! ### Levels -/

/-- The innermost value. -/
def firstOf (levels : List (List (Entry Val))) (k : Bytes) : Option Val := levels.foldr (fun es o => (find es k).or o) none

theorem firstOf_cons (es : List (Entry Val)) (l : List (List (Entry Val))) (k : Bytes) : firstOf (es :: l) k = (find es k).or (firstOf l k) := rfl

theorem first_iff {levels : List (List (Entry Val))} (hn : ∀ es ∈ levels, (es.map (·.key)).Nodup) {k : String} {o : Option Val} :
    First levels k o ↔ o = firstOf levels (str k) := by
  induction levels generalizing o with
  | nil =>
    constructor
    · intro h; cases h; rfl
    · rintro rfl; exact .none
  | cons es l ih =>
    have h1 := hn es (by simp)
    have h2 := fun o => ih (o := o) fun x hx => hn x (by simp [hx])
    rw [firstOf_cons]
    constructor
    · intro h
      cases h with
      | here h => rw [(is_iff h1).mp h]; rfl
      | next h h' => rw [absent_iff.mp h, (h2 _).mp h']; rfl
    · intro h
      cases hf : find es (str k) with
      | none => rw [hf] at h; exact .next (absent_iff.mpr hf) ((h2 _).mpr h)
      | some v => rw [hf] at h; subst h; exact .here ((is_iff h1).mpr hf)

/-! ### Values of parameters -/

theorem texts_iff {vs : List Val} {l : List Bytes} : texts vs = some l ↔ Texts vs l := by
  have : texts vs = Svc.cmdArgs vs := by
    induction vs with
    | nil => rfl
    | cons v vs ih => cases v <;> simp [texts, Svc.cmdArgs, ih]
  rw [this, Svc.cmdArgs_iff]

theorem svcs_iff {o : Option Val} {l : List Bytes} : SvcsOf o l ↔ svcNames o = some l := by
  cases o with
  | none => simp [SvcsOf, svcNames, nm_str, eq_comm]
  | some v =>
    simp only [SvcsOf, svcNames, texts_iff]
    constructor
    · rintro ⟨vs, h1, h2⟩
      rw [← Svc.items_iff.mp h1]
      exact h2
    · intro h
      exact ⟨_, Svc.items_iff.mpr rfl, h⟩

theorem flag_iff {o : Option Val} {b : Bool} : FlagOf o b ↔ ignoreOf o = some b := by
  cases o with
  | none => simp [FlagOf, ignoreOf, eq_comm]
  | some v =>
    simp only [FlagOf, truth_iff]
    constructor
    · rintro ⟨r, t, rfl, h⟩; exact h
    · intro h
      cases v with
      | simple r t => exact ⟨r, t, rfl, h⟩
      | _ => cases h

theorem share_iff {lib : Lib} {o : Option Val} {m k : Nat} : ShareOf lib o m k ↔ threshOf lib o = some (.num false m k) := by
  cases o with
  | none =>
    simp only [ShareOf, threshOf, Option.some.injEq, Dbl.num.injEq, true_and]
    constructor <;> (rintro ⟨h1, h2⟩; exact ⟨h1.symm, h2.symm⟩)
  | some v =>
    simp only [ShareOf]
    constructor
    · rintro ⟨r, t, rfl, h1, h2, h3⟩
      simp only [threshOf, h1]
      rw [if_neg]
      simp only [refused, Bool.false_or, Bool.or_eq_true, beq_iff_eq, decide_eq_true_eq]
      omega
    · intro h
      cases v with
      | simple r t =>
        simp only [threshOf] at h
        cases hd : lib.dbl t with
        | none => rw [hd] at h; cases h
        | some d =>
          rw [hd] at h
          simp only at h
          split at h
          · cases h
          · next hr =>
            simp only [Option.some.injEq] at h
            subst h
            simp only [refused, Bool.false_or, Bool.or_eq_true, beq_iff_eq, decide_eq_true_eq] at hr
            exact ⟨r, t, rfl, hd, by omega, by omega⟩
      | _ => cases h

theorem thresh_cases {lib : Lib} {o : Option Val} {d : Dbl} (h : threshOf lib o = some d) : d = .nan ∨ ∃ m k, d = .num false m k ∧ 0 < m ∧ m ≤ 2 ^ k := by
  cases o with
  | none =>
    simp only [threshOf, Option.some.injEq] at h
    exact Or.inr ⟨1, 1, h.symm, by decide, by decide⟩
  | some v =>
    cases v with
    | simple r t =>
      simp only [threshOf] at h
      cases hd : lib.dbl t with
      | none => rw [hd] at h; cases h
      | some d' =>
        rw [hd] at h
        simp only at h
        split at h
        · cases h
        · next hr =>
          simp only [Option.some.injEq] at h
          subst h
          cases d' with
          | nan => exact Or.inl rfl
          | inf n => simp [refused] at hr
          | num neg m k =>
            cases neg with
            | true => simp [refused] at hr
            | false =>
              simp only [refused, Bool.false_or, Bool.or_eq_true, beq_iff_eq, decide_eq_true_eq] at hr
              exact Or.inr ⟨m, k, rfl, by omega, by omega⟩
    | _ => cases h

theorem addr_iff {lib : Lib} {v6 : Bool} {v : Val} {a : Addr} : IsAddr lib v6 v a ↔ addrOf lib v6 v = some a := by
  constructor
  · rintro ⟨r, t, u, rfl, h1, h2, h3⟩
    rw [upToZero_iff.mp h1] at h2
    simp only [addrOf, h2, h3, if_true]
  · intro h
    cases v with
    | simple r t =>
      simp only [addrOf] at h
      cases hd : lib.addr (cstr t) with
      | none => rw [hd] at h; cases h
      | some a' =>
        rw [hd] at h
        simp only at h
        split at h
        · next hv =>
          simp only [Option.some.injEq] at h
          subst h
          exact ⟨r, t, _, rfl, upToZero_iff.mpr rfl, hd, hv⟩
        · cases h
    | _ => cases h

theorem addrOf_shape {lib : Lib} {v6 : Bool} {v w : Val} (h : shape v = shape w) : addrOf lib v6 v = addrOf lib v6 w := by
  cases v <;> cases w <;> simp_all [shape, addrOf]

/-! ### Entries that are no parameters -/

/-- The entries with other keys. -/
def others (ks : List Bytes) (es : List (Entry Val)) : List (Entry Val) := es.filter fun e => !ks.contains e.key

theorem others_iff {ks : List String} {es l : List (Entry Val)} : Others ks es l ↔ l = others (ks.map str) es := by
  induction es generalizing l with
  | nil =>
    constructor
    · intro h; cases h; rfl
    · rintro rfl; exact .nil
  | cons e es ih =>
    by_cases h : ∃ k ∈ ks, e.key = nm k
    · have hc : others (ks.map str) (e :: es) = others (ks.map str) es := by
        have : (ks.map str).contains e.key = true := by
          obtain ⟨k, h1, h2⟩ := h
          rw [h2]
          simp only [List.contains_iff_mem]
          exact List.mem_map_of_mem h1
        simp only [others, List.filter_cons, this, Bool.not_true, Bool.false_eq_true, if_false]
      rw [hc]
      constructor
      · intro h'
        cases h' with
        | skip _ h' => exact ih.mp h'
        | keep hn _ => obtain ⟨k, h1, h2⟩ := h; exact absurd h2 (hn k h1)
      · intro h'
        exact .skip h (ih.mpr h')
    · have hc : others (ks.map str) (e :: es) = e :: others (ks.map str) es := by
        have : (ks.map str).contains e.key = false := by
          rw [Bool.eq_false_iff]
          intro hc
          simp only [List.contains_iff_mem, List.mem_map] at hc
          obtain ⟨k, h1, h2⟩ := hc
          exact h ⟨k, h1, h2.symm⟩
        simp only [others, List.filter_cons, this, Bool.not_false, if_true]
      rw [hc]
      constructor
      · intro h'
        cases h' with
        | skip hs _ => exact absurd hs h
        | keep _ h' => rw [ih.mp h']
      · rintro rfl
        exact .keep (fun k hk he => h ⟨k, hk, he⟩) (ih.mpr rfl)

theorem marks_eq (es : List (Entry Val)) (ks : List Bytes) : marks es ks = es.map fun e => if ks.contains e.key = true then { e with marked := true } else e := by
  induction ks generalizing es with
  | nil => simp [marks]
  | cons k ks ih =>
    have : marks es (k :: ks) = marks (setMark es k) ks := rfl
    rw [this, ih, setMark, List.map_map]
    apply List.map_congr_left
    intro e _
    simp only [Function.comp]
    by_cases h : e.key = k
    · subst h
      simp
    · simp [h]

theorem find_marks (es : List (Entry Val)) (ks : List Bytes) (k : Bytes) : find (marks es ks) k = find es k := by
  induction ks generalizing es with
  | nil => rfl
  | cons k' ks ih =>
    have : marks es (k' :: ks) = marks (setMark es k') ks := rfl
    rw [this, ih, find_setMark]

theorem keys_marks (es : List (Entry Val)) (ks : List Bytes) : (marks es ks).map (·.key) = es.map (·.key) := by
  rw [marks_eq, List.map_map]
  apply List.map_congr_left
  intro e _
  simp only [Function.comp]
  split <;> rfl

theorem others_marks (es : List (Entry Val)) (ks : List Bytes) : others ks (marks es ks) = others ks es := by
  rw [marks_eq]
  induction es with
  | nil => rfl
  | cons e es ih =>
    simp only [others] at ih
    by_cases h : ks.contains e.key = true
    · simp only [others, List.map_cons, List.filter_cons, h, if_true, Bool.not_true, Bool.false_eq_true, if_false]
      exact ih
    · have h' : ks.contains e.key = false := by simpa using h
      simp only [others, List.map_cons, List.filter_cons, h', Bool.false_eq_true, if_false, Bool.not_false, if_true]
      rw [ih]

theorem unmarked_marks {es : List (Entry Val)} {ks ks' : List Bytes} (h : ∀ e ∈ es, e.marked = true → e.key ∈ ks') (hs : ∀ k ∈ ks', k ∈ ks) :
    unmarked (marks es ks) = others ks es := by
  rw [marks_eq]
  induction es with
  | nil => rfl
  | cons e es ih =>
    have ih := ih fun x hx => h x (by simp [hx])
    simp only [unmarked, others] at ih
    by_cases hk : ks.contains e.key = true
    · simp only [unmarked, others, List.map_cons, List.filter_cons, hk, if_true, Bool.not_true, Bool.false_eq_true, if_false]
      exact ih
    · have hm : e.marked = false := by
        cases hm : e.marked with
        | false => rfl
        | true => exact absurd (List.contains_iff_mem.mpr (hs _ (h e (by simp) hm))) hk
      have h' : ks.contains e.key = false := by simpa using hk
      simp only [unmarked, others, List.map_cons, List.filter_cons, h', Bool.false_eq_true, if_false, hm, Bool.not_false, if_true]
      rw [ih]

theorem present_length {es : List (Entry Val)} (hn : (es.map (·.key)).Nodup) {ks : List Bytes} (hk : ks.Nodup) : es.length = present es ks + (others ks es).length := by
  have hone : ∀ (es : List (Entry Val)) (k : Bytes), (es.map (·.key)).Nodup → (es.filter fun e => e.key == k).length = if (find es k).isSome = true then 1 else 0 := by
    intro es k hn
    induction es with
    | nil => rfl
    | cons e es ih =>
      simp only [List.map_cons, List.nodup_cons] at hn
      rw [find_cons]
      by_cases h : e.key = k
      · have : (es.filter fun e => e.key == k) = [] := by
          rw [List.filter_eq_nil_iff]
          intro x hx
          simp only [beq_iff_eq]
          intro hxk
          exact hn.1 (by rw [h, ← hxk]; exact List.mem_map_of_mem hx)
        simp [h, this]
      · simp [h, ih hn.2]
  have hp : present es ks = (es.filter fun e => ks.contains e.key).length := by
    induction ks with
    | nil => simp only [present, List.filter_nil, List.length_nil, List.contains_nil]; rw [List.filter_eq_nil_iff.mpr (by simp)]; rfl
    | cons k ks ih =>
      rw [List.nodup_cons] at hk
      have h1 : present es (k :: ks) = (if (find es k).isSome = true then 1 else 0) + present es ks := by
        simp only [present, List.filter_cons]
        split <;> simp [Nat.add_comm]
      rw [h1, ih hk.2, ← hone es k hn]
      clear hn ih h1
      induction es with
      | nil => rfl
      | cons e es ih =>
        simp only [List.contains_cons] at ih
        by_cases h : e.key = k
        · have h' : ks.contains e.key = false := by
            rw [Bool.eq_false_iff]
            intro hc
            exact hk.1 (by rw [← h]; exact List.contains_iff_mem.mp hc)
          simp only [List.filter_cons, List.contains_cons, h', h, BEq.rfl, Bool.true_or, if_true, List.length_cons, Bool.false_eq_true, if_false]
          rw [h] at h'
          simp only [h', Bool.false_eq_true, if_false]
          omega
        · have hb : (e.key == k) = false := by simpa using h
          simp only [List.filter_cons, List.contains_cons, hb, Bool.false_or, Bool.false_eq_true, if_false]
          by_cases h' : ks.contains e.key = true
          · simp only [h', if_true, List.length_cons]; omega
          · simp only [h', Bool.false_eq_true, if_false]; omega
  rw [hp, others]
  clear hp hn
  induction es with
  | nil => rfl
  | cons e es ih =>
    by_cases h : ks.contains e.key = true
    · simp only [List.filter_cons, h, if_true, List.length_cons, Bool.not_true, Bool.false_eq_true, if_false]; omega
    · have h' : ks.contains e.key = false := by simpa using h
      simp only [List.filter_cons, h', Bool.false_eq_true, if_false, List.length_cons, Bool.not_false, if_true]
      omega

/-! ### The loop over the addresses -/

theorem addrsLoop_ok {lib : Lib} {v6 : Bool} : ∀ (es : List (Entry Val)), ∃ o, addrsLoop lib v6 es.length es = .ok o ∧
    ∀ as, o = some as ↔ All (fun e a => addrOf lib v6 e.val = some a) es as
  | [] => ⟨some [], rfl, fun as => ⟨fun h => by cases h; exact .nil, fun h => by cases h; rfl⟩⟩
  | e :: es => by
    obtain ⟨o, h1, h2⟩ := addrsLoop_ok (lib := lib) (v6 := v6) es
    simp only [List.length_cons, addrsLoop]
    cases ha : addrOf lib v6 e.val with
    | none =>
      refine ⟨none, rfl, fun as => ⟨nofun, fun h => ?_⟩⟩
      cases h with
      | cons h _ => rw [ha] at h; cases h
    | some a =>
      refine ⟨o.map (a :: ·), by simp [h1], fun as => ?_⟩
      constructor
      · intro h
        cases o with
        | none => cases h
        | some as' =>
          simp only [Option.map_some, Option.some.injEq] at h
          subst h
          exact .cons ha ((h2 as').mp rfl)
      · intro h
        cases h with
        | @cons _ b _ as' h h' =>
          rw [ha] at h
          simp only [Option.some.injEq] at h
          subst h
          rw [(h2 as').mpr h']
          rfl

/-! ### A set -/

/-- Entries as `config_addrs` gets them: the values `vals` under some labels, and the parameters of some levels. -/
structure View (levels : List (List (Entry Val))) (vals : List Val) (fs : List (Entry Val)) : Prop where
  nodup : (fs.map (·.key)).Nodup
  marked : ∀ e ∈ fs, e.marked = true → e.key ∈ params
  sound : SoundOf fs
  vals : (others params fs).map (fun e => shape e.val) = vals.map shape
  levels : ∀ k ∈ params, (find fs k).map shape = (firstOf levels k).map shape

theorem View.marks {levels : List (List (Entry Val))} {vals : List Val} {fs : List (Entry Val)} (h : View levels vals fs) : View levels vals (marks fs params) where
  nodup := by rw [keys_marks]; exact h.nodup
  marked := by
    intro e he hm
    rw [marks_eq] at he
    obtain ⟨x, hx, rfl⟩ := List.mem_map.mp he
    split at hm
    next hc => rw [if_pos hc]; exact List.contains_iff_mem.mp hc
    next hc => rw [if_neg hc]; exact h.marked x hx hm
  sound := by
    refine soundOf_of fun e he => ?_
    rw [marks_eq] at he
    obtain ⟨x, hx, rfl⟩ := List.mem_map.mp he
    have := soundOf_mem h.sound hx
    split <;> exact this
  vals := by rw [others_marks]; exact h.vals
  levels := by
    intro k hk
    rw [find_marks]
    exact h.levels k hk

theorem all_shape {lib : Lib} {v6 : Bool} {as : List Addr} : ∀ {es : List (Entry Val)} {vs : List Val}, es.map (fun e => shape e.val) = vs.map shape →
    (All (fun e a => addrOf lib v6 e.val = some a) es as ↔ All (IsAddr lib v6) vs as)
  | [], [], _ => ⟨fun h => by cases h; exact .nil, fun h => by cases h; exact .nil⟩
  | [], _ :: _, h => by cases h
  | _ :: _, [], h => by cases h
  | e :: es, v :: vs, h => by
    simp only [List.map_cons, List.cons.injEq] at h
    constructor
    · intro h'
      cases h' with
      | cons h1 h2 => exact .cons (addr_iff.mpr (by rw [← addrOf_shape h.1]; exact h1)) ((all_shape h.2).mp h2)
    · intro h'
      cases h' with
      | cons h1 h2 => exact .cons (by rw [addrOf_shape h.1]; exact addr_iff.mp h1) ((all_shape h.2).mpr h2)

theorem param_mem : str "service_types" ∈ params ∧ str "up_thresh" ∈ params ∧ str "ignore_health" ∈ params := by decide

theorem params_nodup : params.Nodup := by decide

theorem configAddrs_set {lib : Lib} {v6 : Bool} {levels : List (List (Entry Val))} {vals : List Val} {fs : List (Entry Val)} (hv : View levels vals fs)
    (hl : ∀ es ∈ levels, (es.map (·.key)).Nodup) (hnan : threshOf lib (firstOf levels (str "up_thresh")) ≠ some .nan) (hsize : vals.length < 2 ^ 53) :
    configAddrs lib v6 fs ≠ .ub ∧ ∀ s, configAddrs lib v6 fs = .ok (some s) ↔ SetOf lib v6 levels vals s := by
  have hs := svcNames_shape (hv.levels _ param_mem.1)
  have ht := threshOf_shape (lib := lib) (hv.levels _ param_mem.2.1)
  have hi := ignoreOf_shape (hv.levels _ param_mem.2.2)
  have hlen : (others params fs).length = vals.length := by
    have := congrArg List.length hv.vals
    simpa using this
  have hnum : fs.length - present fs params = vals.length := by
    have := present_length hv.nodup params_nodup
    omega
  have hset : ∀ s, SetOf lib v6 levels vals s ↔ vals ≠ [] ∧ All (fun e a => addrOf lib v6 e.val = some a) (others params fs) s.as ∧
      svcNames (firstOf levels (str "service_types")) = some s.svcs ∧
      (∃ m k, threshOf lib (firstOf levels (str "up_thresh")) = some (.num false m k) ∧ Plug.uscaleCeil s.as.length m k = .ok s.thresh) ∧
      ignoreOf (firstOf levels (str "ignore_health")) = some s.ignore := by
    intro s
    rw [all_shape hv.vals]
    constructor
    · rintro ⟨h1, h2, ⟨o, h3, h4⟩, ⟨o', m, k, h5, h6, h7⟩, ⟨o'', h8, h9⟩⟩
      rw [(first_iff hl).mp h3] at h4
      rw [(first_iff hl).mp h5] at h6
      rw [(first_iff hl).mp h8] at h9
      exact ⟨h1, h2, svcs_iff.mp h4, ⟨m, k, share_iff.mp h6, h7⟩, flag_iff.mp h9⟩
    · rintro ⟨h1, h2, h3, ⟨m, k, h4, h5⟩, h6⟩
      exact ⟨h1, h2, ⟨_, (first_iff hl).mpr rfl, svcs_iff.mpr h3⟩, ⟨_, m, k, (first_iff hl).mpr rfl, share_iff.mpr h4, h5⟩, ⟨_, (first_iff hl).mpr rfl, flag_iff.mpr h6⟩⟩
  have heq : configAddrs lib v6 fs = (match svcNames (firstOf levels (str "service_types")), threshOf lib (firstOf levels (str "up_thresh")), ignoreOf (firstOf levels (str "ignore_health")) with
      | some svcs, some d, some ig =>
        if vals.length = 0 then .ok none
        else (scale vals.length d).bind fun th => (addrsLoop lib v6 vals.length (others params fs)).map fun o => o.map fun as => ⟨as, svcs, th, ig⟩
      | _, _, _ => .ok none) := by
    unfold configAddrs
    rw [hs, ht, hi]
    dsimp only
    rw [hnum, unmarked_marks hv.marked fun k hk => hk]
    rfl
  rw [heq]
  simp only [hset]
  cases hcs : svcNames (firstOf levels (str "service_types")) with
  | none => exact ⟨nofun, fun s => ⟨nofun, fun h => nomatch h.2.2.1⟩⟩
  | some svcs =>
    cases hct : threshOf lib (firstOf levels (str "up_thresh")) with
    | none => exact ⟨nofun, fun s => ⟨nofun, fun h => by obtain ⟨_, _, _, ⟨_, _, h, _⟩, _⟩ := h; cases h⟩⟩
    | some d =>
      cases hci : ignoreOf (firstOf levels (str "ignore_health")) with
      | none => exact ⟨nofun, fun s => ⟨nofun, fun h => nomatch h.2.2.2.2⟩⟩
      | some ig =>
        dsimp only
        by_cases h0 : vals.length = 0
        · rw [if_pos h0]
          exact ⟨nofun, fun s => ⟨nofun, fun h => absurd (List.length_eq_zero_iff.mp h0) h.1⟩⟩
        · rw [if_neg h0]
          rcases thresh_cases hct with rfl | ⟨m, k, rfl, hm, hk⟩
          · exact absurd hct hnan
          · obtain ⟨n, hn, _⟩ := Plug.uscale_spec (v := vals.length) (by omega) hsize hm hk
            obtain ⟨o, ho, hall⟩ := addrsLoop_ok (lib := lib) (v6 := v6) (others params fs)
            rw [hlen] at ho
            simp only [scale, hn, Outcome.bind_ok, ho, Outcome.map_ok]
            refine ⟨nofun, fun s => ?_⟩
            obtain ⟨as, sv, th, ig'⟩ := s
            have hvn : vals ≠ [] := fun h => h0 (by simp [h])
            constructor
            · intro h
              cases o with
              | none => cases h
              | some as' =>
                simp only [Option.map_some, Outcome.ok.injEq, Option.some.injEq, ASet.mk.injEq] at h
                obtain ⟨rfl, rfl, rfl, rfl⟩ := h
                have ha := (hall as').mp rfl
                refine ⟨hvn, ha, rfl, ⟨m, k, rfl, ?_⟩, rfl⟩
                rw [all_length ha, hlen]
                exact hn
            · rintro ⟨_, ha, h1, ⟨m', k', h2, h3⟩, h4⟩
              simp only [Option.some.injEq, Dbl.num.injEq, true_and] at h1 h2 h4
              obtain ⟨rfl, rfl⟩ := h2
              subst h1 h4
              dsimp only at ha h3
              rw [(hall as).mpr ha]
              rw [all_length ha, hlen, hn] at h3
              simp only [Outcome.ok.injEq] at h3
              subst h3
              rfl

end Gdnsd.Res
