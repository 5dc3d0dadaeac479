import Verif.Mon.Flap
/- System-level lemmas about mon.c: tables, admin file, runs. -/
namespace Gdnsd.Mon

/-! ### New states -/

theorem clip_le (v : UInt32) : (if v > TTLMASK then TTLMASK else v) ≤ TTLMASK := by
  split
  · exact UInt32.le_refl _
  · rename_i h; exact UInt32.not_lt.mp h

theorem newSttl_facts (t : SvcType) (nF nS : Nat) (d : Bool) :
    Valid (newSttl t nF nS d) ∧ isForced (newSttl t nF nS d) = false ∧ isDown (newSttl t nF nS d) = d := by
  unfold newSttl
  dsimp only
  generalize UInt32.ofNat (t.interval * if d = true then t.up - nS else t.down - nF) = v
  obtain ⟨h1, h2, h3, h4⟩ := small (clip_le v)
  cases d
  · simp only [Bool.false_eq_true, if_false]
    exact ⟨h3, h2, h1⟩
  · simp only [if_true]
    refine ⟨Valid_or h3 (by decide), ?_, ?_⟩
    · rw [isForced_or, h2]; decide
    · rw [isDown_or]; simp; right; decide

theorem newSttl_ttl (t : SvcType) (nF nS : Nat) (d : Bool) (hi : t.interval ≤ 3600) (hu : t.up ≤ 65535)
    (hd : t.down ≤ 65535) :
    ttl (newSttl t nF nS d) = t.interval * (if d then t.up - nS else t.down - nF) := by
  have hb : t.interval * (if d then t.up - nS else t.down - nF) < 2 ^ 28 := by
    have h1 : (if d then t.up - nS else t.down - nF) ≤ 65535 := by split <;> omega
    have := Nat.mul_le_mul hi h1
    omega
  have hv : UInt32.ofNat (t.interval * (if d then t.up - nS else t.down - nF)) ≤ TTLMASK := by
    rw [UInt32.le_iff_toNat_le, UInt32.toNat_ofNat_of_lt' (by show _ < 2 ^ 32; omega)]
    have e : TTLMASK.toNat = 2 ^ 28 - 1 := rfl
    omega
  unfold newSttl
  simp only [if_neg (UInt32.not_lt.mpr hv)]
  obtain ⟨-, -, -, h4⟩ := small hv
  rw [UInt32.toNat_ofNat_of_lt' (by show _ < 2 ^ 32; omega)] at h4
  cases d
  · simpa using h4
  · simp only [if_true] at h4 ⊢
    rw [ttl_or, h4]
    simp [show ttl DOWN = 0 by decide]

/-! ### Tables -/

/-- Table invariants outside the initial round. -/
structure Wf (s : St) : Prop where
  len : s.sttl.length = s.smgrs.length
  clen : s.cons.length = s.smgrs.length
  real : ∀ (i : Nat) (m : Smgr), s.smgrs[i]? = some m → Valid m.real ∧ isForced m.real = false
  sync : s.timer = false → s.cons = s.sttl
  nodelay : s.nodelay = true → s.timer = false

theorem kick_smgrs (s : St) : (kick s).smgrs = s.smgrs := by unfold kick flush; split <;> rfl
theorem kick_sttl (s : St) : (kick s).sttl = s.sttl := by unfold kick flush; split <;> rfl
theorem kick_initial (s : St) : (kick s).initial = s.initial := by unfold kick flush; split <;> rfl
theorem kick_nodelay (s : St) : (kick s).nodelay = s.nodelay := by unfold kick flush; split <;> rfl

theorem kick_cons (s : St) : (kick s).timer = false ∧ (kick s).cons = s.sttl ∧ s.nodelay = true ∨
    (kick s).timer = true ∧ (kick s).cons = s.cons ∧ s.nodelay = false := by
  unfold kick flush
  cases s.nodelay <;> simp

/-- The value resource `i` has from now on, given its own event. -/
def mres (m : Smgr) (b : Bool) : Smgr :=
  match m.type with
  | none => m
  | some t =>
    let c := count t m.nFail m.nSucc (isDown m.real) b
    { m with nFail := c.1, nSucc := c.2.1, real := newSttl t c.1 c.2.1 c.2.2 }

/-- Effect of a runtime direct update. -/
theorem rawUpdate_eq {s : St} {i : Nat} {m : Smgr} (hw : Wf s) (hini : s.initial = false)
    (hm : s.smgrs[i]? = some m) (m0 : Smgr) {v : UInt32} (hv : Valid v) (hvf : isForced v = false) :
    ∃ s', rawUpdate { s with smgrs := s.smgrs.set i { m0 with real := m.real } } i v = .ok s' ∧
      s'.smgrs = s.smgrs.set i { m0 with real := v } ∧ s'.initial = false ∧ s'.nodelay = s.nodelay ∧
      (∃ cur, s.sttl[i]? = some cur ∧
        (s'.sttl = if isForced cur = true ∨ v = m.real then s.sttl else s.sttl.set i v)) ∧
      ((s'.timer = s.timer ∧ s'.cons = s.cons ∧ s'.sttl = s.sttl) ∨
       (s'.timer = false ∧ s'.cons = s'.sttl ∧ s.nodelay = true) ∨
       (s'.timer = true ∧ s'.cons = s.cons ∧ s.nodelay = false)) := by
  have hi : i < s.smgrs.length := (List.getElem?_eq_some_iff.mp hm).1
  have hcur : s.sttl[i]? = some (s.sttl[i]'(by rw [hw.len]; exact hi)) := List.getElem?_eq_getElem _
  generalize s.sttl[i]'(by rw [hw.len]; exact hi) = cur at hcur
  have hg : (s.smgrs.set i { m0 with real := m.real })[i]? = some { m0 with real := m.real } := by
    simp [hi]
  have hv1 : v &&& RESERVED = 0 := (valid_iff v).mp hv
  have hv2 : v &&& FORCED = 0 := by
    rw [isForced_iff] at hvf; simpa using hvf
  have hf : isForced cur = true ↔ ¬ cur &&& FORCED = 0 := by rw [isForced_iff]; simp
  unfold rawUpdate
  simp only [hg, hcur, hv1, hv2, hini]
  simp only [ne_eq, not_true_eq_false, or_self, if_false, Bool.false_eq_true, List.set_set]
  by_cases h1 : v = m.real
  · subst h1
    simp only [not_true_eq_false, if_false]
    refine ⟨_, rfl, rfl, rfl, rfl, ⟨cur, rfl, by simp⟩, .inl ⟨rfl, rfl, rfl⟩⟩
  · simp only [h1, not_false_eq_true, if_true]
    by_cases h2 : cur &&& FORCED = 0
    · by_cases h3 : v = cur
      · subst h3
        simp only [not_true_eq_false, false_and, if_false]
        refine ⟨_, rfl, rfl, rfl, rfl, ⟨v, rfl, ?_⟩, .inl ⟨rfl, rfl, rfl⟩⟩
        have : s.sttl.set i v = s.sttl := by
          rw [List.getElem?_eq_some_iff] at hcur
          obtain ⟨hl, he⟩ := hcur
          rw [← he, List.set_getElem_self]
        rw [this]; simp
      · simp only [h3, h2, not_false_eq_true, and_self, if_true]
        refine ⟨_, rfl, by rw [kick_smgrs], by rw [kick_initial], by rw [kick_nodelay],
          ⟨cur, rfl, ?_⟩, ?_⟩
        · rw [kick_sttl]
          have : ¬ isForced cur = true := by rw [hf]; simpa using h2
          simp [this]
        · rcases kick_cons { s with smgrs := s.smgrs.set i { m0 with real := v }, sttl := s.sttl.set i v, initial := false } with
            ⟨h4, h5, h6⟩ | ⟨h4, h5, h6⟩
          · exact .inr (.inl ⟨h4, by rw [h5, kick_sttl], h6⟩)
          · exact .inr (.inr ⟨h4, h5, h6⟩)
    · simp only [h2, and_false, if_false]
      refine ⟨_, rfl, rfl, rfl, rfl, ⟨cur, rfl, ?_⟩, .inl ⟨rfl, rfl, rfl⟩⟩
      rw [if_pos (.inl (hf.mpr h2))]

/-! ### Parsing keeps the reserved and forced bits clear -/

theorem parseSttl_ok (str : Bytes) : ∃ r, parseSttl str TTLMASK = .ok r ∧
    ∀ v, r = some v → Valid v ∧ isForced v = false := by
  unfold parseSttl
  rw [if_neg (by decide)]
  have key : ∀ (out : UInt32) (rest : Bytes), (out = TTLMASK ∨ out = TTLMASK ||| DOWN) →
      ∃ r, parseSuffix out rest = .ok r ∧ ∀ v, r = some v → Valid v ∧ isForced v = false := by
    intro out rest ho
    have ho' : Valid out ∧ isForced out = false := by
      rcases ho with rfl | rfl <;> decide
    have hoo : Valid (out &&& ~~~TTLMASK) ∧ isForced (out &&& ~~~TTLMASK) = false := by
      rcases ho with rfl | rfl <;> decide
    cases rest with
    | nil => exact ⟨_, rfl, by rintro v ⟨⟩; exact ho'⟩
    | cons c rest =>
      simp only [parseSuffix]
      split
      · split
        · rename_i v hs
          split
          · rename_i hv
            have hv' : UInt32.ofNat v ≤ TTLMASK := by
              have : TTLMASK.toNat = 2 ^ 28 - 1 := rfl
              rw [UInt32.le_iff_toNat_le, UInt32.toNat_ofNat_of_lt' (by show _ < 2 ^ 32; omega)]
              exact hv
            obtain ⟨h1, h2, h3, h4⟩ := small hv'
            have hval : Valid (out &&& ~~~TTLMASK ||| UInt32.ofNat v) := Valid_or hoo.1 h3
            rw [if_neg (by rw [(valid_iff _).mp hval]; simp)]
            refine ⟨_, rfl, ?_⟩
            rintro w ⟨⟩
            exact ⟨hval, by rw [isForced_or, hoo.2, h2]; rfl⟩
          · exact ⟨_, rfl, by simp⟩
        · exact ⟨_, rfl, by simp⟩
      · exact ⟨_, rfl, by simp⟩
  split
  · exact key _ _ (.inl rfl)
  · split
    · exact key _ _ (.inr rfl)
    · exact ⟨_, rfl, by simp⟩

/-! ### The admin file -/

/-- What the file forces a resource to. -/
def forceVal (fnm : Fnmatch) (desc : Bytes) (f : List (Bytes × Option Bytes)) : Option UInt32 :=
  match lastMatch fnm desc f with
  | some (some str) =>
    match parseSttl str TTLMASK with
    | .ok (some v) => some (v ||| FORCED)
    | _ => none
  | _ => none

theorem processEntry_spec (fnm : Fnmatch) (g : Bytes) (v : UInt32) (ms : List Smgr) (u : List UInt32)
    (hl : u.length = ms.length) :
    ((∀ d, d ∈ ms.map (·.desc) → fnm g d ≠ none) ∧ ∃ u', processEntry fnm g v ms u = some u' ∧
      u'.length = ms.length ∧ ∀ (j : Nat) m, ms[j]? = some m →
        u'[j]? = if fnm g m.desc = some true then some v else u[j]?) ∨
    ((∃ d, d ∈ ms.map (·.desc) ∧ fnm g d = none) ∧ processEntry fnm g v ms u = none) := by
  induction ms generalizing u with
  | nil =>
    obtain rfl : u = [] := by simpa using hl
    exact .inl ⟨by simp, [], rfl, rfl, by simp⟩
  | cons m ms ih =>
    cases u with
    | nil => simp at hl
    | cons x u =>
      have hl' : u.length = ms.length := by simpa using hl
      cases hf : fnm g m.desc with
      | none => exact .inr ⟨⟨m.desc, by simp, hf⟩, by simp [processEntry, hf]⟩
      | some b =>
        rcases ih u hl' with ⟨h1, u', h2, h3, h4⟩ | ⟨⟨d, h1, h1'⟩, h2⟩
        · left
          refine ⟨?_, (if b then v else x) :: u', ?_, by simp [h3], ?_⟩
          · intro d hd
            rw [List.map_cons, List.mem_cons] at hd
            rcases hd with rfl | hd
            · simp [hf]
            · exact h1 d hd
          · cases b <;> simp [processEntry, hf, h2]
          · intro j m' hj
            cases j with
            | zero =>
              simp at hj
              subst hj
              cases b <;> simp [hf]
            | succ j =>
              simp only [List.getElem?_cons_succ] at hj ⊢
              exact h4 j m' hj
        · right
          refine ⟨⟨d, by rw [List.map_cons]; exact List.mem_cons_of_mem _ h1, h1'⟩, ?_⟩
          cases b <;> simp [processEntry, hf, h2]

theorem collect_spec (fnm : Fnmatch) (ms : List Smgr) (es : List (Bytes × Option Bytes)) (u : List UInt32)
    (hl : u.length = ms.length) :
    (Acceptable fnm (ms.map (·.desc)) es ∧ ∃ u', collect fnm ms es u = .ok (some u') ∧
      u'.length = ms.length ∧ ∀ (j : Nat) m, ms[j]? = some m →
        u'[j]? = match forceVal fnm m.desc es with | some v => some v | none => u[j]?) ∨
    (¬ Acceptable fnm (ms.map (·.desc)) es ∧ collect fnm ms es u = .ok none) := by
  induction es generalizing u with
  | nil => exact .inl ⟨by simp [Acceptable], u, rfl, hl, by intros; rfl⟩
  | cons e es ih =>
    obtain ⟨g, val⟩ := e
    cases val with
    | none =>
      right
      refine ⟨fun h => ?_, rfl⟩
      obtain ⟨⟨str, _, h1, _⟩, _⟩ := h g none (by simp)
      simp at h1
    | some str =>
      obtain ⟨r, hr, hr2⟩ := parseSttl_ok str
      cases r with
      | none =>
        right
        refine ⟨fun h => ?_, by simp [collect, hr]⟩
        obtain ⟨⟨str', w, h1, h2⟩, _⟩ := h g (some str) (by simp)
        obtain rfl : str = str' := by simpa using h1
        rw [hr] at h2; simp at h2
      | some v =>
        rcases processEntry_spec fnm g (v ||| FORCED) ms u hl with ⟨h1, u1, h2, h3, h4⟩ | ⟨⟨d, h1, h1'⟩, h2⟩
        · rcases ih u1 h3 with ⟨k1, u', k2, k3, k4⟩ | ⟨k1, k2⟩
          · left
            refine ⟨?_, u', by simp [collect, hr, h2, k2], k3, ?_⟩
            · intro g' v' hm
              rw [List.mem_cons] at hm
              rcases hm with h | h
              · obtain ⟨rfl, rfl⟩ := Prod.mk.injEq .. ▸ h
                exact ⟨⟨str, v, rfl, hr⟩, h1⟩
              · exact k1 g' v' h
            · intro j m hj
              rw [k4 j m hj]
              have hfv : forceVal fnm m.desc ((g, some str) :: es) =
                  match forceVal fnm m.desc es with
                  | some w => some w
                  | none => if fnm g m.desc = some true then some (v ||| FORCED) else none := by
                unfold forceVal
                simp only [lastMatch]
                cases hlm : lastMatch fnm m.desc es with
                | some o =>
                  have ho : ∃ g0, (g0, o) ∈ es := by
                    clear k4 k1 k2 ih
                    revert hlm
                    induction es with
                    | nil => simp [lastMatch]
                    | cons e es ih =>
                      obtain ⟨a, b⟩ := e
                      simp only [lastMatch]
                      split
                      · rename_i r hr
                        rintro ⟨⟩
                        obtain ⟨g0, h0⟩ := ih hr
                        exact ⟨g0, List.mem_cons_of_mem _ h0⟩
                      · split
                        · rintro ⟨⟩; exact ⟨a, by simp⟩
                        · simp
                  obtain ⟨g0, h0⟩ := ho
                  obtain ⟨⟨str0, w0, e0, e1⟩, _⟩ := k1 g0 o h0
                  subst e0
                  simp [e1]
                | none =>
                  by_cases hmt : fnm g m.desc = some true
                  · simp [hmt, hr]
                  · simp [hmt]
              rw [hfv]
              cases hfe : forceVal fnm m.desc es with
              | some w => rfl
              | none =>
                simp only
                rw [h4 j m hj]
                split <;> rfl
          · right
            refine ⟨fun h => k1 (fun g' v' hm => h g' v' (List.mem_cons_of_mem _ hm)), by simp [collect, hr, h2, k2]⟩
        · right
          refine ⟨fun h => ?_, by simp [collect, hr, h2]⟩
          exact (h g (some str) (by simp)).2 d h1 h1'

theorem forceVal_facts {fnm : Fnmatch} {desc : Bytes} {f : List (Bytes × Option Bytes)} {v : UInt32}
    (h : forceVal fnm desc f = some v) : isForced v = true ∧ Valid v ∧ v ≠ 0 := by
  unfold forceVal at h
  split at h
  · rename_i str _
    obtain ⟨r, hr, hr2⟩ := parseSttl_ok str
    rw [hr] at h
    cases r with
    | none => simp at h
    | some w =>
      obtain rfl : w ||| FORCED = v := by simpa using h
      have hf : isForced (w ||| FORCED) = true := by
        rw [isForced_or]; simp; right; decide
      refine ⟨hf, Valid_or (hr2 w rfl).1 (by decide), fun h0 => ?_⟩
      rw [h0] at hf; revert hf; decide
  · simp at h

/-- What a slot should hold. -/
def target (fnm : Fnmatch) (f : List (Bytes × Option Bytes)) (m : Smgr) : UInt32 :=
  (forceVal fnm m.desc f).getD m.real

/-- Every slot holds what it should. -/
def Shows (fnm : Fnmatch) (f : List (Bytes × Option Bytes)) (ms : List Smgr) (tbl : List UInt32) : Prop :=
  tbl = ms.map (target fnm f)

theorem applyAll_spec (fnm : Fnmatch) (f f' : List (Bytes × Option Bytes)) (ms : List Smgr) (u : List UInt32)
    (hr : ∀ (i : Nat) (m : Smgr), ms[i]? = some m → Valid m.real ∧ isForced m.real = false)
    (hl : u.length = ms.length)
    (hu : ∀ (j : Nat) m, ms[j]? = some m → u[j]? = some ((forceVal fnm m.desc f').getD 0)) :
    ∃ b, applyAll u (ms.map (target fnm f)) ms = .ok (ms.map (target fnm f'), b) ∧
      (b = false → ms.map (target fnm f') = ms.map (target fnm f)) := by
  induction ms generalizing u with
  | nil =>
    obtain rfl : u = [] := by simpa using hl
    exact ⟨false, rfl, fun _ => rfl⟩
  | cons m ms ih =>
    cases u with
    | nil => simp at hl
    | cons x u =>
      obtain ⟨b, h1, h2⟩ := ih u (fun i m' h => hr (i + 1) m' (by simpa using h)) (by simpa using hl)
        (fun j m' hj => by have := hu (j + 1) m' (by simpa using hj); simpa using this)
      have hx : x = (forceVal fnm m.desc f').getD 0 := by
        have := hu 0 m (by simp); simpa using this
      obtain ⟨hv, hnf⟩ := hr 0 m (by simp)
      have hslot : ∃ c, applySlot x (target fnm f m) m.real = .ok (target fnm f' m, c) ∧
          (c = false → target fnm f' m = target fnm f m) := by
        have hrf : m.real &&& FORCED = 0 := by rw [isForced_iff] at hnf; simpa using hnf
        unfold applySlot
        cases hf' : forceVal fnm m.desc f' with
        | some v =>
          have hv0 := (forceVal_facts hf').2.2
          have hxv : x = v := by rw [hx, hf']; rfl
          have ht : target fnm f' m = v := by simp [target, hf']
          subst hxv
          rw [if_pos hv0, ht]
          by_cases hc : target fnm f m = x
          · simp [hc]
          · simp [hc]
        | none =>
          have hx0 : x = 0 := by rw [hx, hf']; rfl
          have ht : target fnm f' m = m.real := by simp [target, hf']
          subst hx0
          rw [ht]
          simp only [ne_eq, not_true_eq_false, if_false, hrf]
          cases hf : forceVal fnm m.desc f with
          | some v =>
            have htf : target fnm f m = v := by simp [target, hf]
            have hvf := (forceVal_facts hf).1
            rw [isForced_iff] at hvf
            have hvf' : ¬ v &&& FORCED = 0 := by simpa using hvf
            rw [htf]
            simp [hvf']
          | none =>
            have htf : target fnm f m = m.real := by simp [target, hf]
            rw [htf]
            simp [hrf]
      obtain ⟨c, h3, h4⟩ := hslot
      refine ⟨c || b, by simp [applyAll, h3, h1], ?_⟩
      intro hb
      rw [Bool.or_eq_false_iff] at hb
      simp only [List.map_cons]
      rw [h4 hb.1, h2 hb.2]

/-- Loading a file at any time. -/
theorem processFile_spec (fnm : Fnmatch) (s : St) (f : List (Bytes × Option Bytes)) (file : File)
    (hr : ∀ (i : Nat) (m : Smgr), s.smgrs[i]? = some m → Valid m.real ∧ isForced m.real = false)
    (hs : Shows fnm f s.smgrs s.sttl) :
    (∃ es, file = some es ∧ Acceptable fnm (s.smgrs.map (·.desc)) es ∧ ∃ s', processFile fnm s file = .ok (s', true) ∧
      s'.smgrs = s.smgrs ∧ Shows fnm es s.smgrs s'.sttl ∧ s'.initial = s.initial ∧ s'.nodelay = s.nodelay ∧
      ((s'.timer = s.timer ∧ s'.cons = s.cons ∧ (s'.sttl = s.sttl ∨ s.initial = true)) ∨
       (s'.timer = false ∧ s'.cons = s'.sttl ∧ s.nodelay = true) ∨
       (s'.timer = true ∧ s'.cons = s.cons ∧ s.nodelay = false))) ∨
    ((∀ es, file = some es → s.smgrs ≠ [] ∧ ¬ Acceptable fnm (s.smgrs.map (·.desc)) es) ∧
      processFile fnm s file = .ok (s, false)) ∨
    (∃ es, file = some es ∧ s.smgrs = [] ∧ ¬ Acceptable fnm (s.smgrs.map (·.desc)) es ∧
      processFile fnm s file = .ok (s, true)) := by
  cases file with
  | none => exact .inr (.inl ⟨by simp, rfl⟩)
  | some es =>
    by_cases h0 : s.smgrs = []
    · by_cases ha : Acceptable fnm (s.smgrs.map (·.desc)) es
      · left
        refine ⟨es, rfl, ha, s, by simp [processFile, h0], rfl, ?_, rfl, rfl, .inl ⟨rfl, rfl, .inl rfl⟩⟩
        have : s.sttl = [] := by unfold Shows at hs; rw [hs, h0]; rfl
        rw [this, h0]; rfl
      · exact .inr (.inr ⟨es, rfl, h0, ha, by simp [processFile, h0]⟩)
    · rcases collect_spec fnm s.smgrs es (List.replicate s.smgrs.length 0) (by simp) with
        ⟨ha, u, h1, h2, h3⟩ | ⟨ha, h1⟩
      · left
        have hu : ∀ (j : Nat) m, s.smgrs[j]? = some m → u[j]? = some ((forceVal fnm m.desc es).getD 0) := by
          intro j m hj
          rw [h3 j m hj]
          cases forceVal fnm m.desc es with
          | some v => rfl
          | none =>
            have : j < s.smgrs.length := (List.getElem?_eq_some_iff.mp hj).1
            simp [this]
        obtain ⟨b, k1, k2⟩ := applyAll_spec fnm f es s.smgrs u hr h2 hu
        rw [← hs] at k1
        refine ⟨es, rfl, ha, (if b && !s.initial then kick { s with sttl := s.smgrs.map (target fnm es) } else
            { s with sttl := s.smgrs.map (target fnm es) }), ?_, ?_⟩
        · simp [processFile, h0, h1, k1]
        · cases b
          · simp only [Bool.false_and, Bool.false_eq_true, if_false]
            exact ⟨trivial, rfl, trivial, trivial, .inl ⟨trivial, trivial, .inl (by rw [k2 rfl, hs])⟩⟩
          · cases hi : s.initial
            · simp only [Bool.not_false, Bool.and_self, if_true]
              refine ⟨kick_smgrs _, ?_, ?_, kick_nodelay _, ?_⟩
              · rw [kick_sttl]; rfl
              · rw [kick_initial]
              · rcases kick_cons { s with sttl := s.smgrs.map (target fnm es), initial := false } with ⟨h4, h5, h6⟩ | ⟨h4, h5, h6⟩
                · exact .inr (.inl ⟨h4, by rw [h5, kick_sttl], h6⟩)
                · exact .inr (.inr ⟨h4, h5, h6⟩)
            · simp only [Bool.not_true, Bool.and_false, Bool.false_eq_true, if_false]
              exact ⟨trivial, rfl, trivial, trivial, .inl ⟨trivial, trivial, .inr trivial⟩⟩
      · right; left
        refine ⟨?_, by simp [processFile, h0, h1]⟩
        rintro es' ⟨⟩
        exact ⟨h0, ha⟩

theorem deletedFile_spec (fnm : Fnmatch) (s : St) (f : List (Bytes × Option Bytes))
    (hr : ∀ (i : Nat) (m : Smgr), s.smgrs[i]? = some m → Valid m.real ∧ isForced m.real = false)
    (hs : Shows fnm f s.smgrs s.sttl) :
    ∃ s', deletedFile s = .ok s' ∧ s'.smgrs = s.smgrs ∧ Shows fnm [] s.smgrs s'.sttl ∧ s'.initial = s.initial ∧
      s'.nodelay = s.nodelay ∧
      ((s'.timer = s.timer ∧ s'.cons = s.cons ∧ s'.sttl = s.sttl) ∨
       (s'.timer = false ∧ s'.cons = s'.sttl ∧ s.nodelay = true) ∨
       (s'.timer = true ∧ s'.cons = s.cons ∧ s.nodelay = false)) := by
  obtain ⟨b, k1, k2⟩ := applyAll_spec fnm f [] s.smgrs (List.replicate s.smgrs.length 0) hr (by simp)
    (by
      intro j m hj
      have : j < s.smgrs.length := (List.getElem?_eq_some_iff.mp hj).1
      simp [this, forceVal, lastMatch])
  rw [← hs] at k1
  refine ⟨(if b then kick { s with sttl := s.smgrs.map (target fnm []) } else
      { s with sttl := s.smgrs.map (target fnm []) }), by simp [deletedFile, k1], ?_⟩
  cases b
  · simp only [Bool.false_eq_true, if_false]
    exact ⟨trivial, rfl, trivial, trivial, .inl ⟨trivial, trivial, by rw [k2 rfl, hs]⟩⟩
  · simp only [if_true]
    refine ⟨kick_smgrs _, by rw [kick_sttl]; rfl, kick_initial _, kick_nodelay _, ?_⟩
    rcases kick_cons { s with sttl := s.smgrs.map (target fnm []) } with ⟨h4, h5, h6⟩ | ⟨h4, h5, h6⟩
    · exact .inr (.inl ⟨h4, by rw [h5, kick_sttl], h6⟩)
    · exact .inr (.inr ⟨h4, h5, h6⟩)

end Gdnsd.Mon
