/-
C91: service types that read a file.
-/
import Verif.Svc.FileSpec
import Verif.Svc.ReqProps
namespace Gdnsd.Svc
open Vscf VscfSpec ConfSpec SvcSpec Conf Mon

/-! ### States as text, with another default -/

theorem parse_accepts {d : UInt32} (hd1 : isDown d = false) (hd2 : isForced d = false) (hd3 : Valid d) {s : Bytes} {down : Bool} {n : Option Nat}
    (h : StateString s down n) :
    ∃ v, parseSttl s d = .ok (some v) ∧ isDown v = down ∧ ttl v = n.getD (ttl d) ∧ isForced v = false ∧ Valid v := by
  obtain ⟨w, rest, rfl, hw, hr⟩ := h
  have hp : parseSttl (w ++ rest) d = parseSuffix (if down then d ||| DOWN else d) rest := by
    unfold parseSttl
    rw [if_neg (by rw [(valid_iff _).mp hd3]; exact fun h => h rfl)]
    cases down
    · have hl : w.length = 2 := by have := congrArg List.length hw; simpa using this
      have hc : casePrefix (w ++ rest) [117, 112] = true := (casePrefix_iff _ _).2 ⟨w, rest, rfl, hw⟩
      have hdr : (w ++ rest).drop 2 = rest := by rw [← hl]; simp
      rw [if_pos hc, hdr]; rfl
    · have hl : w.length = 4 := by have := congrArg List.length hw; simpa using this
      have hc : ¬ casePrefix (w ++ rest) [117, 112] = true := by
        rw [casePrefix_iff]
        rintro ⟨w', r', h1, h2⟩
        exact up_not_down h1.symm h2 hw
      have hc2 : casePrefix (w ++ rest) [100, 111, 119, 110] = true := (casePrefix_iff _ _).2 ⟨w, rest, rfl, hw⟩
      have hdr : (w ++ rest).drop 4 = rest := by rw [← hl]; simp
      rw [if_neg hc, if_pos hc2, hdr]; rfl
  rw [hp]
  have o1 : isDown (if down then d ||| DOWN else d) = down := by
    cases down
    · exact hd1
    · simp only [if_true, isDown_or]
      rw [show isDown DOWN = true by decide, Bool.or_true]
  have o2 : isForced (if down then d ||| DOWN else d) = false := by
    cases down
    · exact hd2
    · simp only [if_true, isForced_or, hd2]
      decide
  have o3 : Valid (if down then d ||| DOWN else d) := by
    cases down
    · exact hd3
    · exact Valid_or hd3 (by decide)
  have o4 : ttl (if down then d ||| DOWN else d) = ttl d := by
    cases down
    · rfl
    · simp only [if_true, ttl_or]
      rw [show ttl DOWN = 0 by decide, Nat.or_zero]
  generalize (if down then d ||| DOWN else d) = o at o1 o2 o3 o4
  rcases hr with ⟨rfl, rfl⟩ | ⟨ds, rfl, hne, hds, rfl, hlt⟩
  · exact ⟨o, rfl, o1, o4, o2, o3⟩
  · have hle : decimal ds ≤ TTLMASK.toNat := by
      have : TTLMASK.toNat = 2 ^ 28 - 1 := rfl
      omega
    have hst : Mon.strtoul ds = some (decimal ds, []) := by
      rw [strtoul_digits ds hne hds, if_pos (by omega)]
    have hv' : UInt32.ofNat (decimal ds) ≤ TTLMASK := by
      rw [UInt32.le_iff_toNat_le, UInt32.toNat_ofNat_of_lt' (by show _ < 2 ^ 32; omega)]
      exact hle
    obtain ⟨j1, j2, j3, j4⟩ := small hv'
    rw [UInt32.toNat_ofNat_of_lt' (by show _ < 2 ^ 32; omega)] at j4
    have hval : Valid (o &&& ~~~TTLMASK ||| UInt32.ofNat (decimal ds)) := by
      refine Valid_or ?_ j3
      unfold Valid at *
      simp [o3]
    refine ⟨o &&& ~~~TTLMASK ||| UInt32.ofNat (decimal ds), ?_, ?_, ?_, ?_, hval⟩
    · simp only [parseSuffix, hne, ne_eq, not_false_eq_true, and_self, if_true, hst, hle,
        (valid_iff _).mp hval, not_true_eq_false, if_false]
    · rw [isDown_or, isDown_and, o1, j1, show isDown (~~~TTLMASK) = true by decide]
      simp
    · rw [ttl_or, j4]
      have : ttl (o &&& ~~~TTLMASK) = 0 := by
        rw [ttl_eq, UInt32.and_assoc, show ~~~TTLMASK &&& TTLMASK = 0 by decide, UInt32.and_zero]
        rfl
      rw [this, Nat.zero_or]
      rfl
    · rw [isForced_or, isForced_and, o2, j2]
      rfl

/-- Whether a text is a state does not depend on the default. -/
theorem suffix_some (o o' : UInt32) (ho : Valid o) (ho' : Valid o') (rest : Bytes) :
    (∃ v, parseSuffix o rest = .ok (some v)) → ∃ v, parseSuffix o' rest = .ok (some v) := by
  have hv : ∀ (o : UInt32) n, Valid o → n ≤ TTLMASK.toNat → Valid (o &&& ~~~TTLMASK ||| UInt32.ofNat n) := by
    intro o n h hn
    have e : TTLMASK.toNat = 2 ^ 28 - 1 := rfl
    refine Valid_or ?_ (small ?_).2.2.1
    · unfold Valid at *
      simp [h]
    · rw [UInt32.le_iff_toNat_le, UInt32.toNat_ofNat_of_lt' (by show _ < 2 ^ 32; omega)]
      exact hn
  rintro ⟨v, h⟩
  unfold parseSuffix at h ⊢
  cases rest with
  | nil => exact ⟨_, rfl⟩
  | cons c rest =>
    dsimp only at h ⊢
    split at h
    next hc =>
      rw [if_pos hc]
      split at h
      next n hs =>
        split at h
        next hn =>
          rw [if_pos hn, if_neg (fun hx => hx ((valid_iff _).mp (hv o' n ho' hn)))]
          exact ⟨_, rfl⟩
        next => cases h
      next => cases h
    next => cases h

theorem parse_rejects {d : UInt32} (hd3 : Valid d) {s : Bytes} (hs : ∀ b ∈ s, Mon.isSpace b = false ∧ b ≠ 43 ∧ b ≠ 45) {v : UInt32}
    (h : parseSttl s d = .ok (some v)) : ∃ down n, StateString s down n := by
  have : ∃ v, parseSttl s TTLMASK = .ok (some v) := by
    unfold parseSttl at h ⊢
    rw [if_neg (by rw [(valid_iff _).mp hd3]; exact fun h => h rfl)] at h
    rw [if_neg (by decide)]
    split at h
    next hc =>
      rw [if_pos hc]
      exact suffix_some d TTLMASK hd3 (by decide) _ ⟨v, h⟩
    next hc =>
      rw [if_neg hc]
      split at h
      next hc2 =>
        rw [if_pos hc2]
        exact suffix_some (d ||| DOWN) (TTLMASK ||| DOWN) (Valid_or hd3 (by decide)) (by decide) _ ⟨v, h⟩
      next => cases h
  obtain ⟨v', h'⟩ := this
  exact C53_rejects_partial s hs v' h'

theorem parse_ok {d : UInt32} (hd3 : Valid d) (s : Bytes) : ∃ o, parseSttl s d = .ok o := by
  have hsuf : ∀ (o : UInt32) rest, Valid o → ∃ x, parseSuffix o rest = .ok x := by
    intro o rest ho
    cases rest with
    | nil => exact ⟨_, rfl⟩
    | cons c rest =>
      simp only [parseSuffix]
      split
      · split
        next n _ =>
          split
          next hn =>
            have e : TTLMASK.toNat = 2 ^ 28 - 1 := rfl
            have : Valid (o &&& ~~~TTLMASK ||| UInt32.ofNat n) := by
              refine Valid_or ?_ (small ?_).2.2.1
              · unfold Valid at *
                simp [ho]
              · rw [UInt32.le_iff_toNat_le, UInt32.toNat_ofNat_of_lt' (by show _ < 2 ^ 32; omega)]
                exact hn
            rw [if_neg (fun hx => hx ((valid_iff _).mp this))]
            exact ⟨_, rfl⟩
          next => exact ⟨_, rfl⟩
        next => exact ⟨_, rfl⟩
      · exact ⟨_, rfl⟩
  unfold parseSttl
  rw [if_neg (by rw [(valid_iff _).mp hd3]; exact fun h => h rfl)]
  split
  · exact hsuf _ _ hd3
  · split
    · exact hsuf _ _ (Valid_or hd3 (by decide))
    · exact ⟨_, rfl⟩

/-! ### The entries -/

theorem default_ttl {v : UInt32} (h : IsDefault v) : isDown (v &&& TTLMASK) = false ∧ isForced (v &&& TTLMASK) = false ∧ Valid (v &&& TTLMASK) ∧ ttl (v &&& TTLMASK) = ttl v := by
  refine ⟨?_, ?_, Valid_and (by decide), ttl_masked v⟩
  · rw [isDown_and, show isDown TTLMASK = false by decide, Bool.and_false]
  · rw [isForced_and, show isForced TTLMASK = false by decide, Bool.and_false]

/-- What a slot of the results has, after some entries. -/
def SlotIs (es : List (Entry Val)) (deflt : UInt32) (name : Bytes) (v : UInt32) : Prop :=
  (∃ down n, LastFor es name down n ∧ isDown v = down ∧ ttl v = n.getD (ttl deflt) ∧ isForced v = false ∧ Valid v) ∨
  ((∀ e ∈ es, ¬ UpToZero e.key name) ∧ v = deflt ||| FORCED)

theorem slot_snoc {es : List (Entry Val)} {deflt : UInt32} {name : Bytes} {v : UInt32} (h : SlotIs es deflt name v) {e : Entry Val} (hne : ¬ UpToZero e.key name) :
    SlotIs (es ++ [e]) deflt name v := by
  rcases h with ⟨down, n, ⟨l1, x, l2, rfl, hx, hl⟩, hv⟩ | ⟨h1, h2⟩
  · refine .inl ⟨down, n, ⟨l1, x, l2 ++ [e], by simp, hx, ?_⟩, hv⟩
    intro e' he'
    rcases List.mem_append.mp he' with he' | he'
    · exact hl e' he'
    · rw [List.mem_singleton.mp he']
      exact hne
  · refine .inr ⟨?_, h2⟩
    intro e' he'
    rcases List.mem_append.mp he' with he' | he'
    · exact h1 e' he'
    · rw [List.mem_singleton.mp he']
      exact hne

theorem entryOf_ok {bs : Search} {svc : FSvc} (hd : IsDefault svc.deflt) (e : Entry Val) (res : List UInt32) : ∃ o, entryOf bs svc e res = .ok o := by
  unfold entryOf
  split
  next t _ =>
    obtain ⟨o, ho⟩ := parse_ok (default_ttl hd).2.2.1 (cstr t)
    rw [ho]
    exact ⟨_, rfl⟩
  next => exact ⟨_, rfl⟩

/-- The state of the loop over entries. -/
def Loop (svc : FSvc) (es : List (Entry Val)) (res : List UInt32) : Prop :=
  res.length = svc.mons.length ∧ ∀ (i : Nat) m v, svc.mons[i]? = some m → res[i]? = some v → SlotIs es svc.deflt m.name v

theorem entryOf_step {bs : Search} (hb : ∀ n i, bs mons n = some i → ∃ m, mons[i]? = some m ∧ m.name = n) (hm : ∀ n, bs mons n = none → ∀ m ∈ mons, m.name ≠ n)
    {d : Bool} {deflt : UInt32} (hd : IsDefault deflt) (hn : (mons.map (·.name)).Nodup) {es : List (Entry Val)} {e : Entry Val} {res : List UInt32}
    (hl : Loop ⟨d, deflt, mons⟩ es res) {name : Bytes} {down : Bool} {n : Option Nat} (he : Line e name down n) :
    ∃ res', entryOf bs ⟨d, deflt, mons⟩ e res = .ok (some res') ∧ Loop ⟨d, deflt, mons⟩ (es ++ [e]) res' := by
  obtain ⟨r, t, u, h1, h2, h3, h4⟩ := he
  obtain ⟨p1, p2, p3, p4⟩ := default_ttl hd
  obtain ⟨v, g1, g2, g3, g4, g5⟩ := parse_accepts p1 p2 p3 h4
  rw [p4] at g3
  obtain rfl := upToZero_iff.mp h1
  obtain rfl := upToZero_iff.mp h3
  unfold entryOf
  rw [h2]
  dsimp only
  rw [g1]
  simp only [Outcome.map]
  obtain ⟨hlen, hl⟩ := hl
  dsimp only at hlen hl
  have hdist : ∀ (i j : Nat) m m', mons[i]? = some m → mons[j]? = some m' → m.name = m'.name → i = j := by
    intro i j m m' hi hj hnm
    have hi' : (mons.map (·.name))[i]? = some m.name := by rw [List.getElem?_map, hi]; rfl
    have hj' : (mons.map (·.name))[j]? = some m.name := by rw [List.getElem?_map, hj, hnm]; rfl
    have hil := (List.getElem?_eq_some_iff.mp hi').1
    exact (List.getElem?_inj hil hn).mp (hi'.trans hj'.symm)
  cases hf : bs mons (cstr e.key) with
  | some i =>
    obtain ⟨m, hm1, hm2⟩ := hb _ _ hf
    refine ⟨_, rfl, by simp [hlen], ?_⟩
    intro j m' v' hj hv'
    dsimp only at hj ⊢
    by_cases hij : i = j
    · subst hij
      rw [hm1] at hj
      cases hj
      have hlt : i < res.length := by rw [hlen]; exact (List.getElem?_eq_some_iff.mp hm1).1
      rw [List.getElem?_set_self hlt] at hv'
      cases hv'
      refine .inl ⟨down, n, ⟨es, e, [], rfl, ⟨r, t, _, ?_, h2, h3, h4⟩, nofun⟩, g2, g3, g4, g5⟩
      rw [hm2]
      exact h1
    · rw [List.getElem?_set_ne hij] at hv'
      refine slot_snoc (hl j m' v' hj hv') ?_
      intro hx
      have := upToZero_iff.mp hx
      exact hij (hdist i j m m' hm1 hj (by rw [hm2, this]))
  | none =>
    refine ⟨_, rfl, hlen, ?_⟩
    intro j m' v' hj hv'
    refine slot_snoc (hl j m' v' hj hv') ?_
    intro hx
    exact hm _ hf m' (List.mem_of_getElem? hj) (upToZero_iff.mp hx)

theorem entries_all {bs : Search} (hb : ∀ n i, bs mons n = some i → ∃ m, mons[i]? = some m ∧ m.name = n) (hm : ∀ n, bs mons n = none → ∀ m ∈ mons, m.name ≠ n)
    {d : Bool} {deflt : UInt32} (hd : IsDefault deflt) (hn : (mons.map (·.name)).Nodup) {es0 es : List (Entry Val)} {res : List UInt32}
    (hl : Loop ⟨d, deflt, mons⟩ es0 res) (he : AllStates es) :
    ∃ res', entries bs ⟨d, deflt, mons⟩ es res = .ok (some res') ∧ Loop ⟨d, deflt, mons⟩ (es0 ++ es) res' := by
  induction es generalizing es0 res with
  | nil =>
    rw [List.append_nil]
    exact ⟨res, rfl, hl⟩
  | cons e es ih =>
    obtain ⟨name, down, n, h1⟩ := he e (List.mem_cons_self ..)
    obtain ⟨res1, h2, h3⟩ := entryOf_step hb hm hd hn hl h1
    obtain ⟨res2, h4, h5⟩ := ih h3 fun e he' => he e (List.mem_cons_of_mem _ he')
    rw [entries, h2]
    refine ⟨res2, h4, ?_⟩
    rw [List.append_assoc] at h5
    exact h5

theorem entries_bad {bs : Search} {svc : FSvc} (hd : IsDefault svc.deflt) {es : List (Entry Val)} (hs : NoSigns es) (he : ¬ AllStates es) (res : List UInt32) :
    entries bs svc es res = .ok none := by
  induction es generalizing res with
  | nil => exact absurd (fun e he => nomatch he) he
  | cons e es ih =>
    obtain ⟨o, ho⟩ := entryOf_ok (bs := bs) hd e res
    rw [entries, ho]
    cases o with
    | none => rfl
    | some res' =>
      refine ih (fun e he' => hs e (List.mem_cons_of_mem _ he')) (fun hx => he ?_) res'
      have hline : ∃ name down n, Line e name down n := by
        unfold entryOf at ho
        split at ho
        next r t hv =>
          cases hp : parseSttl (cstr t) (svc.deflt &&& TTLMASK) with
          | ub => rw [hp] at ho; cases ho
          | ok o =>
            cases o with
            | none => rw [hp] at ho; cases ho
            | some v =>
              obtain ⟨down, n, hst⟩ := parse_rejects (default_ttl hd).2.2.1 (hs e (List.mem_cons_self ..) r t _ hv (upToZero_iff.mpr rfl)) hp
              exact ⟨_, down, n, r, t, _, upToZero_iff.mpr rfl, hv, upToZero_iff.mpr rfl, hst⟩
        next => cases ho
      intro e' he'
      rcases List.mem_cons.mp he' with rfl | he'
      · exact hline
      · exact hx e' he'

/-! ### Defaults and updates -/

theorem unforce {v : UInt32} (h : IsDefault v) : (v ||| FORCED) &&& ~~~FORCED = v := by
  obtain ⟨h1, h2⟩ := h
  apply sttl_ext
  · have hv := Valid_or h2 (show Valid FORCED by decide)
    unfold Valid at *
    simp only [UInt32.toNat_and, Nat.testBit_and, hv, Bool.false_and, and_self]
  · exact h2
  · rw [isDown_and, isDown_or, show isDown FORCED = false by decide, show isDown (~~~FORCED) = true by decide]
    simp
  · rw [isForced_and, isForced_or, h1, show isForced (~~~FORCED) = false by decide]
    simp
  · have : ttl ((v ||| FORCED) &&& ~~~FORCED) = ttl (v ||| FORCED) := by
      rw [ttl_eq, UInt32.and_assoc, show ~~~FORCED &&& TTLMASK = TTLMASK by decide, ← ttl_eq]
    rw [this, ttl_or, show ttl FORCED = 0 by decide, Nat.or_zero]

/-- A slot after the defaults are put in. -/
def FinalIs (es : List (Entry Val)) (deflt : UInt32) (name : Bytes) (v : UInt32) : Prop :=
  ∃ down life, FileSays es deflt name down life ∧ isDown v = down ∧ ttl v = life ∧ isForced v = false ∧ Valid v

theorem defaults_all {d : Bool} {deflt : UInt32} {ms0 : List FMon} (hd : IsDefault deflt) {es : List (Entry Val)} {res : List UInt32} {mons : List FMon}
    (hlen : res.length = mons.length) (h : ∀ (i : Nat) m v, mons[i]? = some m → res[i]? = some v → SlotIs es deflt m.name v) :
    ∃ vs, defaults ⟨d, deflt, ms0⟩ res = .ok vs ∧ vs.length = mons.length ∧ ∀ (i : Nat) m v, mons[i]? = some m → vs[i]? = some v → FinalIs es deflt m.name v := by
  induction res generalizing mons with
  | nil => exact ⟨[], rfl, hlen, fun i m v _ hv => by simp at hv⟩
  | cons v vs ih =>
    match mons, hlen with
    | m :: mons, hlen =>
      obtain ⟨vs', h1, h2, h3⟩ := ih (mons := mons) (by simpa using hlen) fun i m' v' hm hv => h (i + 1) m' v' (by simpa using hm) (by simpa using hv)
      have h0 := h 0 m v rfl rfl
      have hfin : ∃ v', defaults ⟨d, deflt, ms0⟩ (v :: vs) = .ok (v' :: vs') ∧ FinalIs es deflt m.name v' := by
        rcases h0 with ⟨down, n, g1, g2, g3, g4, g5⟩ | ⟨g1, rfl⟩
        · refine ⟨v, ?_, down, _, .inl ⟨n, g1, rfl⟩, g2, g3, g4, g5⟩
          rw [defaults, if_neg (by
            intro hx
            rw [isForced_iff] at g4
            simp [hx] at g4), h1]
          rfl
        · refine ⟨deflt, ?_, isDown deflt, ttl deflt, .inr ⟨g1, rfl, rfl⟩, rfl, rfl, hd.1, hd.2⟩
          have hf : isForced (deflt ||| FORCED) = true := by
            rw [isForced_or, show isForced FORCED = true by decide, Bool.or_true]
          rw [isForced_iff] at hf
          rw [defaults, if_pos (by simpa using hf)]
          dsimp only
          rw [unforce hd, h1]
          simp [assert, Outcome.bind, Outcome.map]
      obtain ⟨v', e1, e2⟩ := hfin
      refine ⟨v' :: vs', e1, by simp [h2], ?_⟩
      intro i m' v'' hm hv
      cases i with
      | zero =>
        simp only [List.getElem?_cons_zero, Option.some.injEq] at hm hv
        subst hm hv
        exact e2
      | succ i => exact h3 i m' v'' (by simpa using hm) (by simpa using hv)

theorem update_is {direct : Bool} {m : FMon} {v : UInt32} {down : Bool} {life : Nat} (h1 : isDown v = down) (h2 : ttl v = life) (h3 : isForced v = false) (h4 : Valid v) :
    IsUpdate direct m down life (update direct m v) := by
  unfold IsUpdate update
  split
  · exact ⟨v, rfl, h1, h2, h3, h4⟩
  · rw [← h1, isDown_iff]
    simp [bne]

/-- A service type after its start. -/
def Ready (bs : Search) (svc : FSvc) : Prop :=
  (∀ n i, bs svc.mons n = some i → ∃ m, svc.mons[i]? = some m ∧ m.name = n) ∧
  (∀ n, bs svc.mons n = none → ∀ m ∈ svc.mons, m.name ≠ n) ∧ IsDefault svc.deflt ∧ (svc.mons.map (·.name)).Nodup

theorem process_all {bs : Search} {svc : FSvc} (hr : Ready bs svc) {es : List (Entry Val)} (he : AllStates es) :
    ∃ evs, processFile bs svc (some (.hash es)) = .ok evs ∧ evs.length = svc.mons.length ∧
      ∀ (i : Nat) m ev, svc.mons[i]? = some m → evs[i]? = some ev → ∃ down life, FileSays es svc.deflt m.name down life ∧ IsUpdate svc.direct m down life ev := by
  obtain ⟨d, deflt, mons⟩ := svc
  obtain ⟨hb, hm, hd, hn⟩ := hr
  unfold processFile
  dsimp only at *
  split
  next h0 =>
    refine ⟨[], rfl, h0.symm, ?_⟩
    intro i m ev _ hv
    simp at hv
  next =>
    have hl0 : Loop ⟨d, deflt, mons⟩ [] (List.replicate mons.length (deflt ||| FORCED)) := by
      refine ⟨by simp, fun i m v _ hv => .inr ⟨nofun, ?_⟩⟩
      exact (List.mem_replicate.mp (List.mem_of_getElem? hv)).2
    obtain ⟨res, h1, h2, h3⟩ := entries_all hb hm hd hn hl0 he
    rw [h1]
    simp only [Outcome.bind]
    obtain ⟨vs, g1, g2, g3⟩ := defaults_all (d := d) (ms0 := mons) hd h2 h3
    rw [g1]
    refine ⟨_, rfl, by simp [g2], ?_⟩
    intro i m ev hmi hev
    rw [List.getElem?_zipWith] at hev
    rw [hmi] at hev
    cases hv : vs[i]? with
    | none => rw [hv] at hev; cases hev
    | some v =>
      rw [hv] at hev
      obtain ⟨down, life, k1, k2, k3, k4, k5⟩ := g3 i m v hmi hv
      cases hev
      exact ⟨down, life, k1, update_is k2 k3 k4 k5⟩

theorem process_bad {bs : Search} {svc : FSvc} (hd : IsDefault svc.deflt) {scan : Option Val} (h : ∀ es, scan = some (.hash es) → NoSigns es ∧ ¬ AllStates es) :
    processFile bs svc scan = .ok [] := by
  unfold processFile
  split
  · rfl
  · split
    next es => 
      rw [entries_bad hd (h es rfl).1 (h es rfl).2]
      rfl
    next => rfl

theorem ready {qsort : Sorter} {bs : Search} (hc : Libc qsort bs) {svc : FSvc} (hd : IsDefault svc.deflt) (hn : (svc.mons.map (·.name)).Nodup) :
    Ready bs { svc with mons := qsort svc.mons } :=
  ⟨fun n i h => hc.found _ n i (hc.sorted _) h, fun n h => hc.missing _ n (hc.sorted _) h, hd, ((hc.perm svc.mons).map _).nodup_iff.mpr hn⟩

theorem suffix_forced {o : UInt32} (h1 : isForced o = false) (h2 : Valid o) {rest : Bytes} {v : UInt32} (h : parseSuffix o rest = .ok (some v)) : isForced v = false := by
  unfold parseSuffix at h
  cases rest with
  | nil =>
    cases h
    exact h1
  | cons c rest =>
    dsimp only at h
    split at h
    next hc =>
      split at h
      next n hs =>
        split at h
        next hn =>
          split at h
          · cases h
          · cases h
            have e : TTLMASK.toNat = 2 ^ 28 - 1 := rfl
            rw [isForced_or, isForced_and, h1, Bool.false_and, Bool.false_or]
            refine (small ?_).2.1
            rw [UInt32.le_iff_toNat_le, UInt32.toNat_ofNat_of_lt' (by show _ < 2 ^ 32; omega)]
            exact hn
        next => cases h
      next => cases h
    next => cases h

theorem parse_forced {d : UInt32} (hd2 : isForced d = false) (hd3 : Valid d) {s : Bytes} {v : UInt32} (h : parseSttl s d = .ok (some v)) : isForced v = false := by
  unfold parseSttl at h
  rw [if_neg (by rw [(valid_iff _).mp hd3]; exact fun h => h rfl)] at h
  split at h
  · exact suffix_forced hd2 hd3 h
  · split at h
    · refine suffix_forced ?_ (Valid_or hd3 (by decide)) h
      rw [isForced_or, hd2]
      decide
    · cases h

theorem entries_marks {bs : Search} {svc : FSvc} (hd : IsDefault svc.deflt) (es : List (Entry Val)) {res : List UInt32} (hr : ∀ v ∈ res, isForced v = false ∨ v = svc.deflt ||| FORCED) :
    ∃ o, entries bs svc es res = .ok o ∧ ∀ res', o = some res' → ∀ v ∈ res', isForced v = false ∨ v = svc.deflt ||| FORCED := by
  induction es generalizing res with
  | nil => exact ⟨_, rfl, fun res' h => by cases h; exact hr⟩
  | cons e es ih =>
    obtain ⟨o, ho⟩ := entryOf_ok (bs := bs) hd e res
    rw [entries, ho]
    cases o with
    | none => exact ⟨none, rfl, nofun⟩
    | some res' =>
      refine ih (res := res') ?_
      unfold entryOf at ho
      split at ho
      next r t hv =>
        cases hp : parseSttl (cstr t) (svc.deflt &&& TTLMASK) with
        | ub => rw [hp] at ho; cases ho
        | ok o =>
          rw [hp] at ho
          cases o with
          | none => cases ho
          | some v =>
            have hf := parse_forced (default_ttl hd).2.1 (default_ttl hd).2.2.1 hp
            simp only [Outcome.map, Outcome.ok.injEq] at ho
            split at ho
            · cases ho
              intro x hx
              rcases List.mem_or_eq_of_mem_set hx with hx | rfl
              · exact hr x hx
              · exact .inl hf
            · cases ho
              exact hr
      next => cases ho

theorem defaults_ok {svc : FSvc} (hd : IsDefault svc.deflt) {res : List UInt32} (hr : ∀ v ∈ res, isForced v = false ∨ v = svc.deflt ||| FORCED) :
    ∃ vs, defaults svc res = .ok vs := by
  induction res with
  | nil => exact ⟨_, rfl⟩
  | cons v vs ih =>
    obtain ⟨vs', h⟩ := ih fun v hv => hr v (List.mem_cons_of_mem _ hv)
    rw [defaults, h]
    split
    next hf =>
      rcases hr v (List.mem_cons_self ..) with h1 | rfl
      · rw [isForced_iff] at h1
        exact absurd (by simpa using h1) hf
      · dsimp only
        rw [unforce hd]
        simp [assert, Outcome.bind, Outcome.map]
    next => exact ⟨_, rfl⟩

/-! ### C91 -/

/-- **C91**: nothing that is in the file makes the daemon fail. -/
theorem C91_defined {bs : Search} {svc : FSvc} (hd : IsDefault svc.deflt) (scan : Option Val) : ∃ evs, processFile bs svc scan = .ok evs := by
  unfold processFile
  split
  · exact ⟨_, rfl⟩
  · split
    next es =>
      obtain ⟨o, h1, h2⟩ := entries_marks (bs := bs) hd es (res := List.replicate svc.mons.length (svc.deflt ||| FORCED)) fun v hv => .inr (List.mem_replicate.mp hv).2
      rw [h1]
      cases o with
      | none => exact ⟨_, rfl⟩
      | some res =>
        obtain ⟨vs, h3⟩ := defaults_ok hd (h2 res rfl)
        refine ⟨List.zipWith (update svc.direct) svc.mons vs, ?_⟩
        simp only [Outcome.bind]
        rw [h3]
        rfl
    next => exact ⟨_, rfl⟩

/-- **C91**: the default of a service type of the configuration is one. -/
theorem C91_default {e : Entry Val} {s : Stype} (h : Means e s) {f : Bytes} {d : Bool} {v : UInt32} (hk : s.kind = .extfile f d v) : IsDefault v := by
  cases h with
  | @intro n p fs g kind a _ b _ =>
    dsimp only at hk
    subst hk
    cases b with
    | @extfile _ _ ttl down _ _ p2 _ =>
      have hle := uintOf_le p2 (by decide)
      rw [sttlOf_eq down ttl hle]
      have hs : ttl.toUInt32 ≤ TTLMASK := by
        rw [UInt32.le_iff_toNat_le, show ttl.toUInt32.toNat = ttl by simp; omega]
        exact hle
      obtain ⟨j1, j2, j3, j4⟩ := small hs
      split
      · refine ⟨?_, Valid_or j3 (by decide)⟩
        rw [isForced_or, j2]
        decide
      · exact ⟨j2, j3⟩

/-- **C91**: when a service type starts, and whenever its file is read after that, a file all of whose entries are states gives
exactly one update for everything that is monitored this way, in some order: the state that the last entry for its name says, and
the default if there is none. Nothing is undefined. -/
theorem C91_loaded {qsort : Sorter} {bs : Search} (hc : Libc qsort bs) {svc : FSvc} (hd : IsDefault svc.deflt) (hn : (svc.mons.map (·.name)).Nodup)
    (first : Option Val) {es : List (Entry Val)} (he : AllStates es) :
    ∃ svc' evs0 evs, initSvc qsort bs svc first = .ok (svc', evs0) ∧ processFile bs svc' (some (.hash es)) = .ok evs ∧
      (first = some (.hash es) → evs0 = evs) ∧
      ∃ ms : List FMon, ms.Perm svc.mons ∧ evs.length = ms.length ∧
        ∀ (i : Nat) m ev, ms[i]? = some m → evs[i]? = some ev → ∃ down life, FileSays es svc.deflt m.name down life ∧ IsUpdate svc.direct m down life ev := by
  have hr := ready hc hd hn
  obtain ⟨evs, h1, h2, h3⟩ := process_all hr he
  obtain ⟨evs0, h0⟩ := C91_defined (bs := bs) (svc := { svc with mons := qsort svc.mons }) hd first
  refine ⟨_, evs0, evs, by unfold initSvc; dsimp only; rw [h0]; rfl, h1, ?_, _, hc.perm _, h2, h3⟩
  rintro rfl
  rw [h0] at h1
  cases h1
  rfl

/-- **C91**: a file that cannot be scanned, is not a hash, or has just one entry that is not a state changes nothing at all.
Partial: the values have no white space and no signs in them (`strtoul` takes these, C53). -/
theorem C91_all_or_nothing_partial {bs : Search} {svc : FSvc} (hd : IsDefault svc.deflt) {scan : Option Val}
    (h : ∀ es, scan = some (.hash es) → NoSigns es ∧ ¬ AllStates es) : processFile bs svc scan = .ok [] := process_bad hd h

/-- **C91**: with `direct`, the file is read once after changes of it were noticed, no sooner than 1.02 seconds after the last of
them; and as long as it was not, the timer for that is running. -/
theorem C91_settles {interval start : Nat} {timer : Option Nat} {now : Nat} {h : List Did} (hr : FRun true interval start timer now h) :
    (∀ t h1 h2, h = h1 ++ .read t :: h2 → ∃ s h3, h2 = .changed s :: h3 ∧ s + 102 ≤ t) ∧
    (∀ s h2, h = .changed s :: h2 → timer = some (s + 102)) ∧ ((h = [] ∨ ∃ t h2, h = .read t :: h2) → timer = none) := by
  induction hr with
  | start =>
    refine ⟨?_, nofun, fun _ => rfl⟩
    intro t h1 h2 he
    cases h1 <;> cases he
  | @step timer now h timer' now' ev rd _ hle hst ih =>
    obtain ⟨i1, i2, i3⟩ := ih
    cases ev with
    | stat =>
      cases hst
      refine ⟨?_, ?_, ?_⟩
      · intro t h1 h2 he
        cases h1 with
        | nil => cases he
        | cons x h1 =>
          cases he
          exact i1 t h1 h2 rfl
      · intro s h2 he
        cases he
        rfl
      · rintro (he | ⟨t, h2, he⟩) <;> cases he
    | expired =>
      unfold fileStep at hst
      cases timer with
      | none => cases hst
      | some d =>
        dsimp only at hst
        split at hst
        · cases hst
        · cases hst
          next hd =>
          refine ⟨?_, ?_, fun _ => rfl⟩
          · intro t h1 h2 he
            cases h1 with
            | nil =>
              cases he
              match h, i2, i3 with
              | [], _, i3 => cases i3 (.inl rfl)
              | .read t :: h2, _, i3 => cases i3 (.inr ⟨t, h2, rfl⟩)
              | .changed s :: h2, i2, _ =>
                cases i2 s h2 rfl
                exact ⟨s, h2, rfl, by omega⟩
            | cons x h1 =>
              cases he
              exact i1 t h1 h2 rfl
          · intro s h2 he
            cases he

/-- **C91**: without `direct`, the file is read at every interval: never more often than intervals have passed, and the timer
for the next time is always running and not further away than one interval. -/
theorem C91_repeats {interval start : Nat} {timer : Option Nat} {now : Nat} {h : List Did} (hr : FRun false interval start timer now h) :
    (∀ x ∈ h, ∃ t, x = .read t) ∧ start + h.length * (interval * 100) ≤ now ∧ ∃ d, timer = some d ∧ d ≤ now + interval * 100 := by
  have : (∀ x ∈ h, ∃ t, x = .read t) ∧ start + h.length * (interval * 100) ≤ now ∧ ∃ d, timer = some d ∧ d ≤ now + interval * 100 ∧
      start + (h.length + 1) * (interval * 100) ≤ d := by
    induction hr with
    | start =>
      refine ⟨nofun, by simp, _, rfl, Nat.le_refl _, by simp⟩
    | @step timer now h timer' now' ev rd _ hle hst ih =>
      obtain ⟨i1, i2, d, rfl, i3, i4⟩ := ih
      cases ev with
      | stat => cases hst
      | expired =>
        unfold fileStep at hst
        dsimp only at hst
        split at hst
        · cases hst
        · cases hst
          next hd =>
          have e : (h.length + 1 + 1) * (interval * 100) = (h.length + 1) * (interval * 100) + interval * 100 := by rw [Nat.add_mul (h.length + 1), Nat.one_mul]
          refine ⟨?_, ?_, _, rfl, by omega, ?_⟩
          · intro x hx
            rcases List.mem_cons.mp hx with rfl | hx
            · exact ⟨_, rfl⟩
            · exact i1 x hx
          · simp only [logged, if_true, List.length_cons, reduceCtorEq, if_false]
            omega
          · simp only [logged, if_true, List.length_cons, reduceCtorEq, if_false]
            omega
  obtain ⟨h1, h2, d, h3, h4, _⟩ := this
  exact ⟨h1, h2, d, h3, h4⟩

/-! ### A case -/

/-- Texts by their bytes. -/
def strLe : Bytes → Bytes → Bool
  | [], _ => true
  | _ :: _, [] => false
  | a :: s, b :: t => decide (a < b) || (a == b && strLe s t)

theorem strLe_trans : ∀ a b c : Bytes, strLe a b = true → strLe b c = true → strLe a c = true
  | [], _, _, _, _ => rfl
  | _ :: _, [], _, h, _ => by cases h
  | _ :: _, _ :: _, [], _, h => by cases h
  | a :: s, b :: t, c :: u, h1, h2 => by
    simp only [strLe, Bool.or_eq_true, decide_eq_true_eq, Bool.and_eq_true, beq_iff_eq] at *
    rcases h1 with h1 | ⟨rfl, h1⟩
    · rcases h2 with h2 | ⟨rfl, h2⟩
      · exact .inl (UInt8.lt_trans h1 h2)
      · exact .inl h1
    · rcases h2 with h2 | ⟨rfl, h2⟩
      · exact .inl h2
      · exact .inr ⟨rfl, strLe_trans s t u h1 h2⟩

theorem strLe_total : ∀ a b : Bytes, (strLe a b || strLe b a) = true
  | [], _ => rfl
  | _ :: _, [] => rfl
  | a :: s, b :: t => by
    have := strLe_total s t
    simp only [strLe, Bool.or_eq_true, decide_eq_true_eq, Bool.and_eq_true, beq_iff_eq] at *
    by_cases h : a = b
    · subst h
      rcases this with h | h
      · exact .inl (.inr ⟨rfl, h⟩)
      · exact .inr (.inr ⟨rfl, h⟩)
    · have h' : a.toNat ≠ b.toNat := fun hx => h (UInt8.toNat_inj.mp hx)
      rw [UInt8.lt_iff_toNat_lt, UInt8.lt_iff_toNat_lt]
      omega

theorem strLe_before : ∀ {a b : Bytes}, strLe a b = true → Before a b
  | [], _, _ => .nil
  | _ :: _, [], h => by cases h
  | a :: s, b :: t, h => by
    simp only [strLe, Bool.or_eq_true, decide_eq_true_eq, Bool.and_eq_true, beq_iff_eq] at h
    rcases h with h | ⟨rfl, h⟩
    · exact .lt h
    · exact .cons (strLe_before h)

/-- A C library. -/
def exSort (ms : List FMon) : List FMon := ms.mergeSort fun a b => strLe a.name b.name

def exSearch (ms : List FMon) (n : Bytes) : Option Nat := ms.findIdx? fun m => m.name == n

theorem exLibc : Libc exSort exSearch where
  perm := fun ms => List.mergeSort_perm ..
  sorted := fun ms => (List.pairwise_mergeSort (le := fun a b : FMon => strLe a.name b.name) (fun a b c => strLe_trans _ _ _) (fun a b => strLe_total _ _) ms).imp strLe_before
  found := by
    intro ms n i _ h
    obtain ⟨hi, h1, _⟩ := List.findIdx?_eq_some_iff_getElem.mp h
    exact ⟨ms[i], List.getElem?_eq_getElem hi, beq_iff_eq.mp h1⟩
  missing := by
    intro ms n _ h m hm
    have := List.findIdx?_eq_none_iff.mp h m hm
    simpa using this

/-- **C91**, what a file is for: the names it sets are those, and only those, that are monitored with its service type, each
with its state; the service type says whether states have lifetimes, and what the default is. -/
theorem C91_monitored {s : Stype} {ws : List Watch} {f : FSvc} (h : fileSvc s ws = some f) :
    (∃ p, s.kind = .extfile p f.direct f.deflt) ∧ (∀ n i, FMon.mk n i ∈ f.mons ↔ ∃ w ∈ ws, w.svc = s ∧ w.text = n ∧ w.idx = i) ∧
    ((ws.map (·.idx)).Nodup → (f.mons.map (·.sidx)).Nodup) := by
  unfold fileSvc at h
  cases hk : s.kind with
  | extfile p d v =>
    rw [hk] at h
    simp only [Option.some.injEq] at h
    subst h
    refine ⟨⟨p, rfl⟩, fun n i => ?_, fun hn => ?_⟩
    · simp only [List.mem_map, List.mem_filter, beq_iff_eq, FMon.mk.injEq]
      constructor
      · rintro ⟨w, ⟨h1, h2⟩, h3, h4⟩
        exact ⟨w, h1, h2, h3, h4⟩
      · rintro ⟨w, h1, h2, h3, h4⟩
        exact ⟨w, ⟨h1, h2⟩, h3, h4⟩
    · rw [List.map_map]
      exact ((List.filter_sublist).map _).nodup hn
  | _ => rw [hk] at h; cases h

/-- What the file of the example monitors: `Www.Example.com.`, which is down by default. -/
theorem exFile : ∃ w s, (∃ b, boot (fun a => some a.bytes) false (some (.hash exCfg)) exReqs = .ok (some b) ∧ b.watches = w) ∧
    fileSvc s w = some ⟨false, 0x8fffffff, [⟨str "www.example.com.", 1⟩]⟩ :=
  ⟨_, ⟨str "ext", ⟨20, 10, 10, 10, 5⟩, .extfile (str "states") false 0x8fffffff⟩, ⟨_, exBoot, rfl⟩, by decide +kernel⟩

/-- The service type of the example. -/
def exSvc : FSvc := ⟨false, 0x8fffffff, [⟨str "www.example.com.", 1⟩]⟩

theorem exDefault : IsDefault exSvc.deflt := by
  unfold IsDefault exSvc
  decide

/-- A line of a file. -/
theorem exLine (n : String) : Line (entry n (word "UP")) (cstr (str n)) false none :=
  ⟨_, _, _, upToZero_iff.mpr rfl, rfl, upToZero_iff.mpr rfl, str "UP", [], by decide, by decide, .inl ⟨rfl, rfl⟩⟩

example : ∃ evs, processFile exSearch exSvc (some (.hash [entry "www.example.com." (word "UP")])) = .ok evs ∧ evs = [.result 1 true] := ⟨_, by decide +kernel, rfl⟩

/-- **C91**, the negation for names in upper case: the name that is monitored is written with capitals in the configuration
(`Www.Example.com.`), and the file says that exactly this name is up; it stays down. -/
theorem C91_case : ∃ evs, processFile exSearch exSvc (some (.hash [entry "Www.Example.com." (word "UP")])) = .ok evs ∧
    (∃ d t, Req.service (str "ext") (.cname (str "Www.Example.com.") d) ∈ exReqs ∧ t = str "Www.Example.com." ∧ LastFor [entry "Www.Example.com." (word "UP")] t false none) ∧
    evs = [.result 1 false] := by
  refine ⟨_, by decide +kernel, ⟨[1], _, by decide +kernel, rfl, [], _, [], rfl, ?_, nofun⟩, rfl⟩
  exact exLine "Www.Example.com."

example : ∃ svc' evs0 evs, initSvc exSort exSearch exSvc none = .ok (svc', evs0) ∧ processFile exSearch svc' (some (.hash [entry "www.example.com." (word "UP")])) = .ok evs ∧ evs.length = 1 := by
  obtain ⟨svc', evs0, evs, h1, h2, _, ms, h3, h4, _⟩ := C91_loaded exLibc exDefault (by decide) none (es := [entry "www.example.com." (word "UP")]) (by
    intro e he
    rw [List.mem_singleton.mp he]
    exact ⟨_, _, _, exLine _⟩)
  exact ⟨svc', evs0, evs, h1, h2, h4.trans h3.length_eq⟩

example : FRun true 5 0 none 1200 [.read 1200, .changed 1050, .changed 1000] := by
  have h0 : FRun true 5 0 none 0 [] := .start
  have h1 : FRun true 5 0 (some 1102) 1000 [.changed 1000] := .step (ev := .stat) (rd := false) h0 (by decide) rfl
  have h2 : FRun true 5 0 (some 1152) 1050 [.changed 1050, .changed 1000] := .step (ev := .stat) (rd := false) h1 (by decide) rfl
  exact .step (ev := .expired) (rd := true) h2 (by decide) rfl

example : FRun false 5 0 (some 1500) 1200 [.read 1200, .read 503] := by
  have h0 : FRun false 5 0 (some 500) 0 [] := .start
  have h1 : FRun false 5 0 (some 1000) 503 [.read 503] := .step (ev := .expired) (rd := true) h0 (by decide) rfl
  exact .step (ev := .expired) (rd := true) h1 (by decide) rfl

end Gdnsd.Svc
