import Verif.Mon.Run
/-
C25 (anti-flap), C26 (administrative forcing), C27 (combining states), C53 (state strings).
-/
namespace Gdnsd.Mon

/-! ### C27 -/

theorem minLoop_facts (tbl : List UInt32) (idx : List Nat) (rv : UInt32) (h : ∀ i ∈ idx, i < tbl.length) :
    ∃ r, minLoop tbl idx rv = .ok r ∧
      isDown r = (isDown rv || (idx.filterMap (tbl[·]?)).any isDown) ∧
      isForced r = (isForced rv || (idx.filterMap (tbl[·]?)).any isForced) ∧
      ttl r = (idx.filterMap (tbl[·]?)).foldl (fun n v => min n (ttl v)) (ttl rv) ∧ (Valid rv → Valid r) := by
  induction idx generalizing rv with
  | nil => exact ⟨rv, rfl, by simp, by simp, rfl, id⟩
  | cons i is ih =>
    have hi := h i (by simp)
    obtain ⟨r, h1, h2, h3, h4, h5⟩ := ih (min2 rv tbl[i]) (fun j hj => h j (by simp [hj]))
    obtain ⟨k1, k2, k3, k4⟩ := min2_facts rv tbl[i]
    have hg : tbl[i]? = some tbl[i] := List.getElem?_eq_getElem hi
    refine ⟨r, by simp [minLoop, hg, h1], ?_, ?_, ?_, fun _ => h5 k4⟩
    · rw [h2, k1, List.filterMap_cons, hg]; simp [Bool.or_assoc]
    · rw [h3, k2, List.filterMap_cons, hg]; simp [Bool.or_assoc]
    · rw [h4, k3, List.filterMap_cons, hg]; rfl

theorem foldl_min (l : List UInt32) (n : Nat) :
    l.foldl (fun n v => min n (ttl v)) n ≤ n ∧ (∀ v ∈ l, l.foldl (fun n v => min n (ttl v)) n ≤ ttl v) ∧
    (l.foldl (fun n v => min n (ttl v)) n = n ∨ ∃ v ∈ l, l.foldl (fun n v => min n (ttl v)) n = ttl v) := by
  induction l generalizing n with
  | nil => simp
  | cons x l ih =>
    obtain ⟨h1, h2, h3⟩ := ih (min n (ttl x))
    simp only [List.foldl_cons]
    refine ⟨by omega, ?_, ?_⟩
    · intro v hv
      rw [List.mem_cons] at hv
      rcases hv with rfl | hv
      · omega
      · exact h2 v hv
    · rcases h3 with h3 | ⟨v, hv, h3⟩
      · rw [h3]
        by_cases hx : n ≤ ttl x
        · left; omega
        · right; exact ⟨x, by simp, by omega⟩
      · right; exact ⟨v, by simp [hv], h3⟩

/-- C27. Combining two states. -/
theorem C27_two (a b : UInt32) :
    isDown (min2 a b) = (isDown a || isDown b) ∧ isForced (min2 a b) = (isForced a || isForced b) ∧
    ttl (min2 a b) = min (ttl a) (ttl b) ∧ Valid (min2 a b) := min2_facts a b

/-- C27. Combining any list of table slots never reads outside the table; the result is
down exactly when one of them is, forced exactly when one of them is, its TTL is a lower
bound that is attained (by one of them, or is the maximum when the list is empty). -/
theorem C27_combine (tbl : List UInt32) (idx : List Nat) (h : ∀ i ∈ idx, i < tbl.length) :
    ∃ r, sttlMin tbl idx = .ok r ∧
      (isDown r = true ↔ ∃ i v, i ∈ idx ∧ tbl[i]? = some v ∧ isDown v = true) ∧
      (isForced r = true ↔ ∃ i v, i ∈ idx ∧ tbl[i]? = some v ∧ isForced v = true) ∧
      (∀ i v, i ∈ idx → tbl[i]? = some v → ttl r ≤ ttl v) ∧
      (ttl r = 2 ^ 28 - 1 ∨ ∃ i v, i ∈ idx ∧ tbl[i]? = some v ∧ ttl r = ttl v) ∧ Valid r := by
  obtain ⟨r, h1, h2, h3, h4, h5⟩ := minLoop_facts tbl idx TTLMASK h
  obtain ⟨k1, k2, k3⟩ := foldl_min (idx.filterMap (tbl[·]?)) (ttl TTLMASK)
  rw [← h4] at k1 k2 k3
  refine ⟨r, h1, ?_, ?_, ?_, ?_, h5 (by decide)⟩
  · rw [h2, show isDown TTLMASK = false by decide]
    simp only [Bool.false_or, List.any_eq_true, List.mem_filterMap]
    constructor
    · rintro ⟨v, ⟨i, hi, hv⟩, hd⟩; exact ⟨i, v, hi, hv, hd⟩
    · rintro ⟨i, v, hi, hv, hd⟩; exact ⟨v, ⟨i, hi, hv⟩, hd⟩
  · rw [h3, show isForced TTLMASK = false by decide]
    simp only [Bool.false_or, List.any_eq_true, List.mem_filterMap]
    constructor
    · rintro ⟨v, ⟨i, hi, hv⟩, hd⟩; exact ⟨i, v, hi, hv, hd⟩
    · rintro ⟨i, v, hi, hv, hd⟩; exact ⟨v, ⟨i, hi, hv⟩, hd⟩
  · intro i v hi hv
    exact k2 v (List.mem_filterMap.mpr ⟨i, hi, hv⟩)
  · rcases k3 with k3 | ⟨v, hv, k3⟩
    · left; rw [k3]; decide
    · obtain ⟨i, hi, hv⟩ := List.mem_filterMap.mp hv
      exact .inr ⟨i, v, hi, hv, k3⟩

/-- C27. The order (and repetition) of the slots does not matter: index lists with the
same members give the same state. -/
theorem C27_order (tbl : List UInt32) (idx idx' : List Nat) (h : ∀ i ∈ idx, i < tbl.length)
    (hm : ∀ i, i ∈ idx ↔ i ∈ idx') : sttlMin tbl idx = sttlMin tbl idx' := by
  obtain ⟨r, h1, h2, h3, h4, h5, h6⟩ := C27_combine tbl idx h
  obtain ⟨r', k1, k2, k3, k4, k5, k6⟩ := C27_combine tbl idx' (fun i hi => h i ((hm i).2 hi))
  have hd : isDown r = isDown r' := by
    rw [Bool.eq_iff_iff, h2, k2]; simp only [hm]
  have hf : isForced r = isForced r' := by
    rw [Bool.eq_iff_iff, h3, k3]; simp only [hm]
  have ht : ttl r = ttl r' := by
    have a : ttl r ≤ ttl r' := by
      rcases k5 with k5 | ⟨i, v, hi, hv, k5⟩
      · have := ttl_lt r; omega
      · rw [k5]; exact h4 i v ((hm i).2 hi) hv
    have b : ttl r' ≤ ttl r := by
      rcases h5 with h5 | ⟨i, v, hi, hv, h5⟩
      · have := ttl_lt r'; omega
      · rw [h5]; exact k4 i v ((hm i).1 hi) hv
    omega
  rw [h1, k1, sttl_ext h6 k6 hd hf ht]

/-- Slots up/100, forced down/7, down/max: the combination is forced down/7. -/
example : sttlMin [100, 0xC0000007, 0x8fffffff] [2, 0, 1, 0] = .ok 0xC0000007 := by decide

/-! ### C25 -/

/-- The check results of resource `i` in a history of events. -/
def resultsOf (i : Nat) (es : List Event) : List Bool :=
  es.filterMap fun e => match e with
    | .result j b => if j = i then some b else none
    | _ => none

/-- No plugin bypasses the anti-flap counters of resource `i`. -/
def NoDirect (i : Nat) (es : List Event) : Prop := ∀ v, Event.direct i v ∉ es

theorem effects_at (i : Nat) (es : List Event) (ms : List Smgr) (m : Smgr) (hm : ms[i]? = some m)
    (hn : NoDirect i es) : (effects es ms)[i]? = some ((resultsOf i es).foldl mres m) := by
  induction es generalizing ms m with
  | nil => exact hm
  | cons e es ih =>
    have hn' : NoDirect i es := fun v hv => hn v (by simp [hv])
    show (effects es (effect e ms))[i]? = _
    cases e with
    | result j b =>
      by_cases hj : j = i
      · subst hj
        have : (effect (.result j b) ms)[j]? = some (mres m b) := by
          simp [effect, hm]
        rw [ih _ _ this hn']
        simp [resultsOf]
      · have : (effect (.result j b) ms)[i]? = some m := by
          simp only [effect, List.getElem?_modify, hj, if_false, hm]; rfl
        rw [ih _ _ this hn']
        simp [resultsOf, hj]
    | direct j v =>
      have hj : j ≠ i := fun h => hn v (by simp [h])
      have : (effect (.direct j v) ms)[i]? = some m := by
        simp only [effect, List.getElem?_modify, hj, if_false, hm]; rfl
      rw [ih _ _ this hn']
      simp [resultsOf]
    | _ => exact ih ms m hm hn'

theorem fold_flap {t : SvcType} (ht : t.Pos) (m : Smgr) (hmt : m.type = some t) (hz : m.nFail = 0 ∧ m.nSucc = 0)
    (h : List Bool) :
    ∃ d s, Flap t (isDown m.real) h d s ∧ isDown (h.foldl mres m).real = d ∧
      Counters t (h.foldl mres m).nFail (h.foldl mres m).nSucc d s ∧ (h.foldl mres m).type = some t ∧
      (h = [] ∨ (h.foldl mres m).real = newSttl t (h.foldl mres m).nFail (h.foldl mres m).nSucc d) := by
  generalize hr : h.reverse = r
  induction r generalizing h with
  | nil =>
    obtain rfl : h = [] := by simpa using hr
    refine ⟨isDown m.real, [], .start, rfl, ?_, hmt, .inl rfl⟩
    show Counters t m.nFail m.nSucc _ _
    rw [hz.1, hz.2]
    exact counters_start ht _
  | cons x r ih =>
    obtain rfl : h = r.reverse ++ [x] := by
      have := congrArg List.reverse hr; simpa using this
    obtain ⟨d, s, h1, h2, h3, h4, -⟩ := ih r.reverse (by simp)
    rw [List.foldl_append, List.foldl_cons, List.foldl_nil]
    generalize r.reverse.foldl mres m = m1 at h2 h3 h4
    obtain ⟨s', k1, k2⟩ := count_flap ht h1 h3 x
    have e : mres m1 x = { m1 with
        nFail := (count t m1.nFail m1.nSucc d x).1, nSucc := (count t m1.nFail m1.nSucc d x).2.1,
        real := newSttl t (count t m1.nFail m1.nSucc d x).1 (count t m1.nFail m1.nSucc d x).2.1
          (count t m1.nFail m1.nSucc d x).2.2 } := by
      unfold mres; rw [h4]; simp only [h2]
    rw [e]
    exact ⟨_, s', k1, (newSttl_facts _ _ _ _).2.2, k2, h4, .inr rfl⟩

/-- C25. Whatever resources are configured, whatever the initial round, administrator's
files and other resources did, the monitored state of resource `i` after any history
follows the anti-flap rule applied to its own check results: it is down exactly when the
rule says so. -/
theorem C25_history (fnm : Fnmatch) (regs : List Reg) (nodelay : Bool) (round es : List Event) (admin : Option File)
    (hc : ∀ e ∈ round, e.isCheck) (hr : ∀ e ∈ round, EvOk (registered regs nodelay).smgrs e)
    (he : ∀ e ∈ es, EvOk (registered regs nodelay).smgrs e)
    (i : Nat) (desc : Bytes) (t : SvcType) (b : Bool) (hi : regs[i]? = some (desc, some t, b)) (ht : t.Pos)
    (hn : NoDirect i es) :
    ∃ s0 s m0 m d rec, start fnm (registered regs nodelay) round admin = .ok s0 ∧ run fnm s0 es = .ok s ∧
      s0.smgrs[i]? = some m0 ∧ s.smgrs[i]? = some m ∧
      Flap t (isDown m0.real) (resultsOf i es) d rec ∧ isDown m.real = d := by
  have hne : regs ≠ [] := by rintro rfl; simp at hi
  obtain ⟨s0, f0, h1, h2, h3, h4, h5, h6, h7⟩ := start_spec fnm regs nodelay hne round hc hr admin
  have hty : s0.smgrs.map (·.type) = (registered regs nodelay).smgrs.map (·.type) := by
    rw [h4]
    have : ∀ (es : List Event) (ms : List Smgr), (ieffects es ms).map (·.type) = ms.map (·.type) := by
      intro es
      induction es with
      | nil => intro _; rfl
      | cons e es ih => intro ms; show (ieffects es (ieffect e ms)).map _ = _; rw [ih, ieffect_types]
    rw [this]
  obtain ⟨s, f, k1, k2, k3, -⟩ := run_spec h2 h3 es (fun e h => EvOk_of_types hty (he e h))
  have hti : (s0.smgrs.map (·.type))[i]? = some (some t) := by
    rw [hty]
    have := congrArg (List.map Prod.snd) (registered_inv regs nodelay).2.1
    simp only [List.map_map, Function.comp_def] at this
    rw [this, List.getElem?_map, hi]; rfl
  rw [List.getElem?_map] at hti
  cases hm : s0.smgrs[i]? with
  | none => rw [hm] at hti; simp at hti
  | some m0 =>
    rw [hm] at hti
    have hmt : m0.type = some t := by simpa using hti
    obtain ⟨d, rec, j1, j2, -⟩ := fold_flap ht m0 hmt (h7 i m0 hm) (resultsOf i es)
    exact ⟨s0, s, m0, _, d, rec, h1, k1, hm, by rw [k3]; exact effects_at i es _ m0 hm hn, j1, j2⟩

/-- C25. The rule leaves no freedom: for any history and starting state exactly one state
and one list of recent results satisfy it. -/
theorem C25_rule_functional (t : SvcType) (ht : t.Pos) (d0 : Bool) (h : List Bool) :
    ∃ d s, Flap t d0 h d s ∧ ∀ d' s', Flap t d0 h d' s' → d' = d ∧ s' = s := by
  have := fold_flap ht ⟨[], some t, 0, 0, if d0 then DOWN else 0⟩ rfl ⟨rfl, rfl⟩ h
  obtain ⟨d, s, h1, -⟩ := this
  have e : isDown (if d0 then DOWN else 0) = d0 := by cases d0 <;> decide
  rw [e] at h1
  exact ⟨d, s, h1, fun d' s' h2 => by
    obtain ⟨a, b⟩ := Flap.det h1 h2
    exact ⟨a.symm, b.symm⟩⟩

theorem ieffects_at (i : Nat) (es : List Event) (ms : List Smgr) (m : Smgr) (t : SvcType) (hm : ms[i]? = some m)
    (hmt : m.type = some t) (hn : NoDirect i es) :
    (ieffects es ms)[i]? = some (match (resultsOf i es).getLast? with
      | none => m
      | some b => { m with real := newSttl t 0 0 (!b) }) := by
  induction es generalizing ms m with
  | nil => exact hm
  | cons e es ih =>
    have hn' : NoDirect i es := fun v hv => hn v (by simp [hv])
    show (ieffects es (ieffect e ms))[i]? = _
    cases e with
    | result j b =>
      by_cases hj : j = i
      · subst hj
        have : (ieffect (.result j b) ms)[j]? = some { m with real := newSttl t 0 0 (!b) } := by
          simp [ieffect, hm, hmt]
        rw [ih _ _ this hmt hn']
        have : resultsOf j (.result j b :: es) = b :: resultsOf j es := by simp [resultsOf]
        rw [this, List.getLast?_cons]
        cases (resultsOf j es).getLast? <;> rfl
      · have : (ieffect (.result j b) ms)[i]? = some m := by
          simp only [ieffect, List.getElem?_modify, hj, if_false, hm]; rfl
        rw [ih _ _ this hmt hn']
        simp [resultsOf, hj]
    | direct j v =>
      have hj : j ≠ i := fun h => hn v (by simp [h])
      have : (ieffect (.direct j v) ms)[i]? = some m := by
        simp only [ieffect, List.getElem?_modify, hj, if_false, hm]; rfl
      rw [ih _ _ this hmt hn']
      simp [resultsOf]
    | _ => exact ih ms m hm hmt hn'

/-- C25. The state a resource starts its history in is the result of its last check in the
initial round; before any check it is up, or down for the special type "down". -/
theorem C25_initial (fnm : Fnmatch) (regs : List Reg) (nodelay : Bool) (round : List Event) (admin : Option File)
    (hc : ∀ e ∈ round, e.isCheck) (hr : ∀ e ∈ round, EvOk (registered regs nodelay).smgrs e)
    (i : Nat) (desc : Bytes) (t : SvcType) (b : Bool) (hi : regs[i]? = some (desc, some t, b))
    (hn : NoDirect i round) :
    ∃ s0 m0, start fnm (registered regs nodelay) round admin = .ok s0 ∧ s0.smgrs[i]? = some m0 ∧
      isDown m0.real = ((resultsOf i round).getLast?.map not).getD b := by
  have hne : regs ≠ [] := by rintro rfl; simp at hi
  obtain ⟨s0, f0, h1, h2, h3, h4, h5, h6, h7⟩ := start_spec fnm regs nodelay hne round hc hr admin
  have hreg : ∃ m, (registered regs nodelay).smgrs[i]? = some m ∧ m.type = some t ∧ isDown m.real = b := by
    clear h1 h2 h3 h4 h5 h6 h7 hne hr
    have key : ∀ (rs : List Reg) (s : St), 
        ∀ k : Nat, (rs.foldl (fun s r => register s r.1 r.2.1 r.2.2) s).smgrs[k]? =
          (s.smgrs ++ rs.map (fun r => (⟨r.1, r.2.1, 0, 0, if r.2.2 then TTLMASK ||| DOWN else TTLMASK⟩ : Smgr)))[k]? := by
      intro rs
      induction rs with
      | nil => intro s k; simp
      | cons r rs ih =>
        intro s k
        simp only [List.foldl_cons]
        rw [ih]
        simp [register]
    have := key regs ⟨[], [], [], false, false, nodelay⟩ i
    simp only [List.nil_append, List.getElem?_map, hi, Option.map_some] at this
    refine ⟨_, this, rfl, ?_⟩
    show isDown (if b then TTLMASK ||| DOWN else TTLMASK) = b
    cases b <;> decide
  obtain ⟨m, hm, hmt, hmd⟩ := hreg
  have := ieffects_at i round _ m t hm hmt hn
  rw [← h4] at this
  refine ⟨s0, _, h1, this, ?_⟩
  cases (resultsOf i round).getLast? with
  | none => exact hmd
  | some b' => exact (newSttl_facts _ _ _ _).2.2

/-- C25. Consequence for operators: whatever happened before, `up` successes in a row leave
the resource up. -/
theorem C25_recovers (t : SvcType) (ht : t.Pos) (d0 d : Bool) (h s : List Bool)
    (hf : Flap t d0 (h ++ List.replicate t.up true) d s) : d = false := by
  -- walk through the successes
  have key : ∀ n d1 h1 s1, Flap t d0 h1 d1 s1 → (d1 = true → t.up ≤ trail s1 + n) →
      ∀ d2 s2, Flap t d0 (h1 ++ List.replicate n true) d2 s2 → 0 < n ∨ d1 = false → d2 = false := by
    intro n
    induction n with
    | zero =>
      intro d1 h1 s1 hf1 _ d2 s2 hf2 hz
      simp at hf2
      rcases hz with hz | hz
      · omega
      · rw [← (Flap.det hf1 hf2).1, hz]
    | succ n ih =>
      intro d1 h1 s1 hf1 hle d2 s2 hf2 _
      have e : h1 ++ List.replicate (n + 1) true = (h1 ++ [true]) ++ List.replicate n true := by
        simp [List.replicate_succ]
      rw [e] at hf2
      cases d1 with
      | false =>
        have hp : pending t.ok (s1 ++ [true]) < t.down ∨ t.down ≤ pending t.ok (s1 ++ [true]) := by omega
        rcases hp with hp | hp
        · exact ih false _ _ (.stayUp hf1 hp) (by simp) d2 s2 hf2 (.inr rfl)
        · exfalso
          -- the counters never exceed the threshold on a success
          have hlt : pending t.ok s1 < t.down := by
            generalize hd1 : false = dd at hf1
            cases hf1 with
            | start => exact ht.2.2
            | goDown => simp at hd1
            | stayUp _ hq => exact hq
            | goUp => exact ht.2.2
            | stayDown => simp at hd1
          rw [pending_true] at hp
          split at hp
          · have := ht.2.2; omega
          · omega
      | true =>
        by_cases hr : List.replicate t.up true <:+ s1 ++ [true]
        · exact ih false _ _ (.goUp hf1 hr) (by simp) d2 s2 hf2 (.inr rfl)
        · have hr' := hr
          rw [suffix_iff_trail, trail_true] at hr'
          have := hle rfl
          exact ih true _ _ (.stayDown hf1 hr) (by intro _; rw [trail_true]; omega) d2 s2 hf2 (.inl (by omega))
  obtain ⟨d1, s1, h1, -⟩ := C25_rule_functional t ht d0 h
  exact key t.up d1 h s1 h1 (fun _ => by omega) d s hf (.inl ht.1)

/-- C25. … and `down` failures in a row leave it down. -/
theorem C25_fails (t : SvcType) (ht : t.Pos) (d0 d : Bool) (h s : List Bool)
    (hf : Flap t d0 (h ++ List.replicate t.down false) d s) : d = true := by
  have key : ∀ n d1 h1 s1, Flap t d0 h1 d1 s1 → (d1 = false → t.down ≤ pending t.ok s1 + n) →
      ∀ d2 s2, Flap t d0 (h1 ++ List.replicate n false) d2 s2 → 0 < n ∨ d1 = true → d2 = true := by
    intro n
    induction n with
    | zero =>
      intro d1 h1 s1 hf1 _ d2 s2 hf2 hz
      simp at hf2
      rcases hz with hz | hz
      · omega
      · rw [← (Flap.det hf1 hf2).1, hz]
    | succ n ih =>
      intro d1 h1 s1 hf1 hle d2 s2 hf2 _
      have e : h1 ++ List.replicate (n + 1) false = (h1 ++ [false]) ++ List.replicate n false := by
        simp [List.replicate_succ]
      rw [e] at hf2
      cases d1 with
      | true =>
        refine ih true _ _ (.stayDown hf1 ?_) (by simp) d2 s2 hf2 (.inr rfl)
        rw [suffix_iff_trail, trail_false]
        have := ht.1; omega
      | false =>
        have hp := pending_false ht.2.1 s1
        have := hle rfl
        by_cases hr : t.down ≤ pending t.ok (s1 ++ [false])
        · exact ih true _ _ (.goDown hf1 hr) (by simp) d2 s2 hf2 (.inr rfl)
        · exact ih false _ _ (.stayUp hf1 (by omega)) (by intro _; omega) d2 s2 hf2 (.inl (by omega))
  obtain ⟨d1, s1, h1, -⟩ := C25_rule_functional t ht d0 h
  exact key t.down d1 h s1 h1 (fun _ => by omega) d s hf (.inl ht.2.2)

/-- Results needed to change state, by counters. -/
theorem flip_distance {t : SvcType} (ht : t.Pos) {d0 d : Bool} {h s : List Bool} {nF nS : Nat}
    (hf : Flap t d0 h d s) (hc : Counters t nF nS d s) (xs : List Bool)
    (hlen : xs.length < if d then t.up - nS else t.down - nF) :
    ∃ s', Flap t d0 (h ++ xs) d s' := by
  induction xs generalizing h s nF nS with
  | nil => exact ⟨s, by simpa using hf⟩
  | cons x xs ih =>
    obtain ⟨s', k1, k2⟩ := count_flap ht hf hc x
    have e : h ++ x :: xs = (h ++ [x]) ++ xs := by simp
    rw [e]
    cases d
    · simp only [Bool.false_eq_true, if_false, List.length_cons] at hlen
      have hd : (count t nF nS false x).2.2 = false ∧ (count t nF nS false x).1 ≤ nF + 1 := by
        cases x
        · have : ¬ nF + 1 = t.down := by omega
          simp [count, this]
        · simp only [count, Bool.false_eq_true, if_false, if_true]
          split
          · split
            · simp
            · simp
          · simp
      rw [hd.1] at k1 k2
      exact ih k1 k2 (by simp only [Bool.false_eq_true, if_false]; omega)
    · simp only [if_true, List.length_cons] at hlen
      have hd : (count t nF nS true x).2.2 = true ∧ (count t nF nS true x).2.1 ≤ nS + 1 := by
        cases x
        · simp [count]
        · have : ¬ nS + 1 = t.up := by omega
          simp [count, this]
      rw [hd.1] at k1 k2
      exact ih k1 k2 (by simp only [if_true]; omega)

theorem flip_reached {t : SvcType} (ht : t.Pos) {d0 d : Bool} {h s : List Bool} {nF nS : Nat}
    (hf : Flap t d0 h d s) (hc : Counters t nF nS d s) :
    ∃ s', Flap t d0 (h ++ List.replicate (if d then t.up - nS else t.down - nF) d) (!d) s' := by
  generalize hn : (if d then t.up - nS else t.down - nF) = n
  induction n generalizing h s nF nS with
  | zero =>
    exfalso
    cases d
    · simp [Counters] at hc hn; omega
    · simp [Counters] at hc hn; omega
  | succ n ih =>
    obtain ⟨s', k1, k2⟩ := count_flap ht hf hc d
    have e : h ++ List.replicate (n + 1) d = (h ++ [d]) ++ List.replicate n d := by simp [List.replicate_succ]
    rw [e]
    cases d
    · simp only [Bool.false_eq_true, if_false] at hn
      by_cases hx : nF + 1 = t.down
      · have e2 : count t nF nS false false = (0, 0, true) := by simp [count, hx]
        rw [e2] at k1
        obtain rfl : n = 0 := by omega
        exact ⟨s', by simpa using k1⟩
      · have e2 : count t nF nS false false = (nF + 1, 0, false) := by simp [count, hx]
        rw [e2] at k1 k2
        exact ih k1 k2 (by simp only [Bool.false_eq_true, if_false]; omega)
    · simp only [if_true] at hn
      by_cases hx : nS + 1 = t.up
      · have e2 : count t nF nS true true = (0, 0, false) := by simp [count, hx]
        rw [e2] at k1
        obtain rfl : n = 0 := by omega
        exact ⟨s', by simpa using k1⟩
      · have e2 : count t nF nS true true = (nF, nS + 1, true) := by simp [count, hx]
        rw [e2] at k1 k2
        exact ih k1 k2 (by simp only [if_true]; omega)

/-- C25. The TTL published with the monitored state is the check interval times `n`, where
`n` is exactly the least number of further checks after which the state can change: no
fewer results can change it, and some `n` results do. Thresholds and interval are within
the configurable bounds. -/
theorem C25_ttl (fnm : Fnmatch) (regs : List Reg) (nodelay : Bool) (round es : List Event) (admin : Option File)
    (hc : ∀ e ∈ round, e.isCheck) (hr : ∀ e ∈ round, EvOk (registered regs nodelay).smgrs e)
    (he : ∀ e ∈ es, EvOk (registered regs nodelay).smgrs e)
    (i : Nat) (desc : Bytes) (t : SvcType) (b : Bool) (hi : regs[i]? = some (desc, some t, b)) (ht : t.Pos)
    (hb : t.up ≤ 65535 ∧ t.down ≤ 65535 ∧ t.interval ≤ 3600)
    (hn : NoDirect i es) (hh : resultsOf i es ≠ []) :
    ∃ s0 s m0 m d rec n, start fnm (registered regs nodelay) round admin = .ok s0 ∧ run fnm s0 es = .ok s ∧
      s0.smgrs[i]? = some m0 ∧ s.smgrs[i]? = some m ∧
      Flap t (isDown m0.real) (resultsOf i es) d rec ∧ ttl m.real = t.interval * n ∧
      (∀ xs d' rec', xs.length < n → Flap t (isDown m0.real) (resultsOf i es ++ xs) d' rec' → d' = d) ∧
      (∃ xs rec', xs.length = n ∧ Flap t (isDown m0.real) (resultsOf i es ++ xs) (!d) rec') := by
  have hne : regs ≠ [] := by rintro rfl; simp at hi
  obtain ⟨s0, f0, h1, h2, h3, h4, h5, h6, h7⟩ := start_spec fnm regs nodelay hne round hc hr admin
  have hty : s0.smgrs.map (·.type) = (registered regs nodelay).smgrs.map (·.type) := by
    rw [h4]
    have : ∀ (es : List Event) (ms : List Smgr), (ieffects es ms).map (·.type) = ms.map (·.type) := by
      intro es
      induction es with
      | nil => intro _; rfl
      | cons e es ih => intro ms; show (ieffects es (ieffect e ms)).map _ = _; rw [ih, ieffect_types]
    rw [this]
  obtain ⟨s, f, k1, k2, k3, -⟩ := run_spec h2 h3 es (fun e h => EvOk_of_types hty (he e h))
  have hti : (s0.smgrs.map (·.type))[i]? = some (some t) := by
    rw [hty]
    have := congrArg (List.map Prod.snd) (registered_inv regs nodelay).2.1
    simp only [List.map_map, Function.comp_def] at this
    rw [this, List.getElem?_map, hi]; rfl
  rw [List.getElem?_map] at hti
  cases hm : s0.smgrs[i]? with
  | none => rw [hm] at hti; simp at hti
  | some m0 =>
    rw [hm] at hti
    have hmt : m0.type = some t := by simpa using hti
    obtain ⟨d, rec, j1, j2, j3, j4, j5⟩ := fold_flap ht m0 hmt (h7 i m0 hm) (resultsOf i es)
    refine ⟨s0, s, m0, _, d, rec, (if d then t.up - ((resultsOf i es).foldl mres m0).nSucc else
        t.down - ((resultsOf i es).foldl mres m0).nFail), h1, k1, hm,
      by rw [k3]; exact effects_at i es _ m0 hm hn, j1, ?_, ?_, ?_⟩
    · rcases j5 with j5 | j5
      · exact absurd j5 hh
      · rw [j5]; exact newSttl_ttl t _ _ d hb.2.2 hb.1 hb.2.1
    · intro xs d' rec' hl hf
      obtain ⟨s', hs'⟩ := flip_distance ht j1 j3 xs hl
      exact (Flap.det hf hs').1
    · obtain ⟨s', hs'⟩ := flip_reached ht j1 j3
      exact ⟨_, s', by simp, hs'⟩

/-- Thresholds up 2, ok 2, down 2: fail, ok, ok clears the failure; fail, ok, fail brings
it down; ok, fail, ok, ok brings it up. -/
example : Flap ⟨2, 2, 2, 10⟩ false [false, true, true, false, true, false] true [] :=
  .goDown (h := [false, true, true, false, true])
    (.stayUp (h := [false, true, true, false])
      (.stayUp (h := [false, true, true])
        (.stayUp (h := [false, true])
          (.stayUp (h := [false]) (.stayUp (h := []) .start (by decide)) (by decide)) (by decide)) (by decide))
      (by decide)) (by decide)

/-- The hypotheses of `C25_history` and `C25_ttl` hold for a two-resource system. -/
example : ∃ s0 s, let regs : List Reg := [([97], some ⟨2, 2, 2, 10⟩, false), ([98], none, false)]
    let es : List Event := [.result 0 false, .deleted, .result 0 false]
    SvcType.Pos ⟨2, 2, 2, 10⟩ ∧ NoDirect 0 es ∧ (∀ e ∈ es, EvOk (registered regs false).smgrs e) ∧
    start (fun _ _ => some false) (registered regs false) [.result 0 true] none = .ok s0 ∧
    run (fun _ _ => some false) s0 es = .ok s ∧ (s.smgrs.map (·.real)) = [0x80000014, 0x0fffffff] := by
  refine ⟨_, _, by simp [SvcType.Pos], by simp [NoDirect], ?_, rfl, rfl, rfl⟩
  intro e he
  simp only [List.mem_cons, List.not_mem_nil, or_false] at he
  rcases he with rfl | rfl | rfl
  · exact ⟨⟨[97], some ⟨2, 2, 2, 10⟩, 0, 0, TTLMASK⟩, ⟨2, 2, 2, 10⟩, rfl, rfl⟩
  · trivial
  · exact ⟨⟨[97], some ⟨2, 2, 2, 10⟩, 0, 0, TTLMASK⟩, ⟨2, 2, 2, 10⟩, rfl, rfl⟩

/-! ### C53 -/

/-- The decimal value of a digit string, most significant digit first. -/
def decimal : Bytes → Nat
  | [] => 0
  | d :: ds => (d.toNat - 48) * 10 ^ ds.length + decimal ds

/-- The documented form STATE[/TTL] (mon.h:50-51): UP or DOWN in any case, optionally a
slash and a decimal number of at most 2^28-1. `down` is the state, `n` the TTL if given. -/
def StateString (s : Bytes) (down : Bool) (n : Option Nat) : Prop :=
  ∃ w rest, s = w ++ rest ∧ w.map lower = (if down then [100, 111, 119, 110] else [117, 112]) ∧
    ((rest = [] ∧ n = none) ∨
     (∃ ds, rest = 47 :: ds ∧ ds ≠ [] ∧ (∀ d ∈ ds, isDigit d = true) ∧ n = some (decimal ds) ∧ decimal ds < 2 ^ 28))

theorem digitsVal_eq (ds : Bytes) : digitsVal ds = decimal ds := by
  have : ∀ (ds : Bytes) (n : Nat), ds.foldl (fun n d => n * 10 + (d.toNat - 48)) n = n * 10 ^ ds.length + decimal ds := by
    intro ds
    induction ds with
    | nil => intro n; simp [decimal]
    | cons d ds ih =>
      intro n
      simp only [List.foldl_cons, ih, List.length_cons, decimal, Nat.pow_succ]
      rw [Nat.add_mul, Nat.mul_assoc, Nat.mul_comm 10, Nat.add_assoc]
  unfold digitsVal
  rw [this]; simp

theorem takeWhile_all {p : UInt8 → Bool} {l : Bytes} (h : ∀ x ∈ l, p x = true) :
    l.takeWhile p = l ∧ l.dropWhile p = [] := by
  induction l with
  | nil => exact ⟨rfl, rfl⟩
  | cons a l ih =>
    obtain ⟨h1, h2⟩ := ih (fun x hx => h x (by simp [hx]))
    have := h a (by simp)
    simp [this, h1, h2]

theorem strtoul_digits (ds : Bytes) (hne : ds ≠ []) (hd : ∀ d ∈ ds, isDigit d = true) :
    strtoul ds = if decimal ds < 2 ^ 64 then some (decimal ds, []) else none := by
  cases ds with
  | nil => exact absurd rfl hne
  | cons d ds =>
    have h0 := hd d (by simp)
    have hsp : isSpace d = false ∧ d ≠ 45 ∧ d ≠ 43 := by
      have : ∀ x : BitVec 8, isDigit ⟨x⟩ = true → isSpace ⟨x⟩ = false ∧ (⟨x⟩ : UInt8) ≠ 45 ∧ (⟨x⟩ : UInt8) ≠ 43 := by
        decide +kernel
      exact this d.toBitVec h0
    obtain ⟨htw, hdw⟩ := takeWhile_all hd
    unfold strtoul
    rw [List.dropWhile_cons, hsp.1]
    simp only [Bool.false_eq_true, if_false]
    split
    · rename_i h; simp at h; exact absurd h.1 hsp.2.1
    · rename_i h; simp at h; exact absurd h.1 hsp.2.2
    · rw [htw, hdw, digitsVal_eq]
      simp

theorem casePrefix_iff (s p : Bytes) : casePrefix s p = true ↔ ∃ w rest, s = w ++ rest ∧ w.map lower = p := by
  induction p generalizing s with
  | nil => simp [casePrefix]
  | cons x p ih =>
    cases s with
    | nil =>
      simp only [casePrefix, Bool.false_eq_true, false_iff]
      rintro ⟨w, rest, h1, h2⟩
      have : w = [] := by
        have := congrArg List.length h1; simp at this; exact List.length_eq_zero_iff.mp (by omega)
      subst this; simp at h2
    | cons y s =>
      simp only [casePrefix, Bool.and_eq_true, beq_iff_eq, ih]
      constructor
      · rintro ⟨h1, w, rest, rfl, h2⟩
        exact ⟨y :: w, rest, rfl, by simp [h1, h2]⟩
      · rintro ⟨w, rest, h1, h2⟩
        cases w with
        | nil => simp at h2
        | cons z w =>
          simp at h1 h2
          obtain ⟨rfl, rfl⟩ := h1
          exact ⟨h2.1, w, rest, rfl, h2.2⟩

/-- Number parsing without white space or signs takes exactly the digits. -/
theorem strtoul_plain (s : Bytes) (hs : ∀ b ∈ s, isSpace b = false ∧ b ≠ 43 ∧ b ≠ 45) {v : Nat}
    (h : strtoul s = some (v, [])) (hne : s ≠ []) : (∀ d ∈ s, isDigit d = true) ∧ v = decimal s := by
  cases s with
  | nil => exact absurd rfl hne
  | cons a s =>
    obtain ⟨h1, h2, h3⟩ := hs a (by simp)
    unfold strtoul at h
    rw [List.dropWhile_cons, h1] at h
    simp only [Bool.false_eq_true, if_false] at h
    split at h
    · rename_i he; simp at he; exact absurd he.1 h3
    · rename_i he; simp at he; exact absurd he.1 h2
    · simp only at h
      split at h
      · simp at h
      · split at h
        · simp only [Bool.false_eq_true, if_false, Option.some.injEq, Prod.mk.injEq] at h
          obtain ⟨rfl, hd⟩ := h
          have hall : (a :: s).takeWhile isDigit = a :: s := by
            have := List.takeWhile_append_dropWhile (p := isDigit) (l := a :: s)
            rw [hd, List.append_nil] at this
            exact this
          refine ⟨?_, by rw [hall, digitsVal_eq]⟩
          have ha : ((a :: s).takeWhile isDigit).all isDigit := List.all_takeWhile
          rw [hall, List.all_eq_true] at ha
          exact ha
        · simp at h

theorem up_not_down {w w' r r' : Bytes} (h : w ++ r = w' ++ r') (h1 : w.map lower = [117, 112])
    (h2 : w'.map lower = [100, 111, 119, 110]) : False := by
  cases w with
  | nil => simp at h1
  | cons a w =>
    cases w' with
    | nil => simp at h2
    | cons b w' =>
      simp at h h1 h2
      obtain ⟨rfl, -⟩ := h
      rw [h1.1] at h2
      simp at h2

/-- C53. Every string of the documented form is accepted, with the state and TTL it names;
without a TTL the TTL is the maximum. The parser never fails an assertion. -/
theorem C53_accepts (s : Bytes) (down : Bool) (n : Option Nat) (h : StateString s down n) :
    ∃ v, parseSttl s TTLMASK = .ok (some v) ∧ isDown v = down ∧ ttl v = n.getD (2 ^ 28 - 1) ∧
      isForced v = false ∧ Valid v := by
  obtain ⟨w, rest, rfl, hw, hr⟩ := h
  have hp : parseSttl (w ++ rest) TTLMASK = parseSuffix (if down then TTLMASK ||| DOWN else TTLMASK) rest := by
    unfold parseSttl
    rw [if_neg (by decide)]
    cases down
    · have hl : w.length = 2 := by have := congrArg List.length hw; simpa using this
      have hc : casePrefix (w ++ rest) [117, 112] = true := (casePrefix_iff _ _).2 ⟨w, rest, rfl, hw⟩
      have hdr : (w ++ rest).drop 2 = rest := by rw [← hl]; simp
      rw [if_pos hc, hdr]; rfl
    · have hl : w.length = 4 := by have := congrArg List.length hw; simpa using this
      have hc : ¬ casePrefix (w ++ rest) [117, 112] = true := by
        rw [casePrefix_iff]
        rintro ⟨w', r', h1, h2⟩
        exact up_not_down h1.symm h2 hw
      have hc2 : casePrefix (w ++ rest) [100, 111, 119, 110] = true := (casePrefix_iff _ _).2 ⟨w, rest, rfl, hw⟩
      have hdr : (w ++ rest).drop 4 = rest := by rw [← hl]; simp
      rw [if_neg hc, if_pos hc2, hdr]; rfl
  rw [hp]
  rcases hr with ⟨rfl, rfl⟩ | ⟨ds, rfl, hne, hd, rfl, hlt⟩
  · refine ⟨_, rfl, ?_⟩
    cases down <;> decide
  · have hle : decimal ds ≤ TTLMASK.toNat := by
      have : TTLMASK.toNat = 2 ^ 28 - 1 := rfl
      omega
    have hst : strtoul ds = some (decimal ds, []) := by
      rw [strtoul_digits ds hne hd, if_pos (by omega)]
    have ho : ∀ o, (o = TTLMASK ∨ o = TTLMASK ||| DOWN) → Valid (o &&& ~~~TTLMASK) ∧
        isForced (o &&& ~~~TTLMASK) = false ∧ ttl (o &&& ~~~TTLMASK) = 0 ∧ isDown (o &&& ~~~TTLMASK) = isDown o := by
      rintro o (rfl | rfl) <;> decide
    obtain ⟨k1, k2, k3, k4⟩ := ho (if down then TTLMASK ||| DOWN else TTLMASK) (by cases down <;> simp)
    generalize hO : (if down then TTLMASK ||| DOWN else TTLMASK) = o at k1 k2 k3 k4
    have hv' : UInt32.ofNat (decimal ds) ≤ TTLMASK := by
      rw [UInt32.le_iff_toNat_le, UInt32.toNat_ofNat_of_lt' (by show _ < 2 ^ 32; omega)]
      exact hle
    obtain ⟨j1, j2, j3, j4⟩ := small hv'
    rw [UInt32.toNat_ofNat_of_lt' (by show _ < 2 ^ 32; omega)] at j4
    have hval : Valid (o &&& ~~~TTLMASK ||| UInt32.ofNat (decimal ds)) := Valid_or k1 j3
    refine ⟨o &&& ~~~TTLMASK ||| UInt32.ofNat (decimal ds), ?_, ?_, ?_, ?_, hval⟩
    · simp only [parseSuffix, hne, ne_eq, not_false_eq_true, and_self, if_true, hst, hle,
        (valid_iff _).mp hval, not_true_eq_false, if_false]
    · rw [isDown_or, k4, j1, ← hO]; cases down <;> decide
    · rw [ttl_or, k3, j4]; simp
    · rw [isForced_or, k2, j2]; rfl

/-- C53, partial: a string without white space and signs is accepted only if it has the
documented form. Full claim (any string) is false: see `C53_false`. -/
theorem C53_rejects_partial (s : Bytes) (hs : ∀ b ∈ s, isSpace b = false ∧ b ≠ 43 ∧ b ≠ 45) (v : UInt32)
    (h : parseSttl s TTLMASK = .ok (some v)) : ∃ down n, StateString s down n := by
  have suf : ∀ (o : UInt32) (rest : Bytes), (∀ b ∈ rest, isSpace b = false ∧ b ≠ 43 ∧ b ≠ 45) →
      parseSuffix o rest = .ok (some v) → rest = [] ∨
        ∃ ds, rest = 47 :: ds ∧ ds ≠ [] ∧ (∀ d ∈ ds, isDigit d = true) ∧ decimal ds < 2 ^ 28 := by
    intro o rest hr hp
    cases rest with
    | nil => exact .inl rfl
    | cons c rest =>
      right
      simp only [parseSuffix] at hp
      split at hp
      · rename_i hc
        obtain ⟨rfl, hne⟩ := hc
        split at hp
        · rename_i n hn
          obtain ⟨h1, rfl⟩ := strtoul_plain rest (fun b hb => hr b (by simp [hb])) hn hne
          split at hp
          · rename_i hle
            have : TTLMASK.toNat = 2 ^ 28 - 1 := rfl
            exact ⟨rest, rfl, hne, h1, by omega⟩
          · simp at hp
        · simp at hp
      · simp at hp
  unfold parseSttl at h
  rw [if_neg (by decide)] at h
  split at h
  · rename_i hc
    obtain ⟨w, rest, rfl, hw⟩ := (casePrefix_iff _ _).1 hc
    have hl : w.length = 2 := by have := congrArg List.length hw; simpa using this
    have hdr : (w ++ rest).drop 2 = rest := by rw [← hl]; simp
    rw [hdr] at h
    rcases suf _ rest (fun b hb => hs b (by simp [hb])) h with rfl | ⟨ds, rfl, a, b, c⟩
    · exact ⟨false, none, w, [], by simp, hw, .inl ⟨rfl, rfl⟩⟩
    · exact ⟨false, some (decimal ds), w, _, rfl, hw, .inr ⟨ds, rfl, a, b, rfl, c⟩⟩
  · split at h
    · rename_i hc
      obtain ⟨w, rest, rfl, hw⟩ := (casePrefix_iff _ _).1 hc
      have hl : w.length = 4 := by have := congrArg List.length hw; simpa using this
      have hdr : (w ++ rest).drop 4 = rest := by rw [← hl]; simp
      rw [hdr] at h
      rcases suf _ rest (fun b hb => hs b (by simp [hb])) h with rfl | ⟨ds, rfl, a, b, c⟩
      · exact ⟨true, none, w, [], by simp, hw, .inl ⟨rfl, rfl⟩⟩
      · exact ⟨true, some (decimal ds), w, _, rfl, hw, .inr ⟨ds, rfl, a, b, rfl, c⟩⟩
    · simp at h

/-- C53 is false for strings with signs or white space: "UP", a slash and "-18446744073709551615" is
accepted as UP with TTL 1, although it is not of the documented form. -/
theorem C53_false : ∃ s, parseSttl s TTLMASK = .ok (some 1) ∧ ∀ down n, ¬ StateString s down n := by
  refine ⟨[85, 80, 47, 45, 49, 56, 52, 52, 54, 55, 52, 52, 48, 55, 51, 55, 48, 57, 53, 53, 49, 54, 49, 53], by decide +kernel, ?_⟩
  rintro down n ⟨w, rest, h, hw, hr⟩
  cases down
  · have hl : w.length = 2 := by have := congrArg List.length hw; simpa using this
    have hrest : rest = [47, 45, 49, 56, 52, 52, 54, 55, 52, 52, 48, 55, 51, 55, 48, 57, 53, 53, 49, 54, 49, 53] := by
      have := congrArg (List.drop 2) h
      rw [List.drop_append_of_le_length (by omega), ← hl, List.drop_length] at this
      exact this.symm.trans (by rw [hl]; rfl)
    rcases hr with ⟨h1, -⟩ | ⟨ds, h1, -, h2, -⟩
    · rw [hrest] at h1; simp at h1
    · rw [hrest] at h1
      simp at h1
      have := h2 45 (by rw [← h1]; simp)
      revert this; decide
  · cases w with
    | nil => simp at hw
    | cons a w =>
      simp at h hw
      obtain ⟨rfl, -⟩ := h
      have := hw.1
      revert this; decide

/-- "DoWn/007" is of the documented form and accepted. -/
example : StateString [68, 111, 87, 110, 47, 48, 48, 55] true (some 7) ∧
    parseSttl [68, 111, 87, 110, 47, 48, 48, 55] TTLMASK = .ok (some 0x80000007) :=
  ⟨⟨[68, 111, 87, 110], [47, 48, 48, 55], rfl, by decide, .inr ⟨[48, 48, 55], rfl, by simp, by decide, by decide, by decide⟩⟩,
    by decide⟩

/-! ### C26 -/

theorem lastMatch_mem {fnm : Fnmatch} {desc : Bytes} {es : List (Bytes × Option Bytes)} {o : Option Bytes}
    (h : lastMatch fnm desc es = some o) : ∃ g, (g, o) ∈ es := by
  induction es with
  | nil => simp [lastMatch] at h
  | cons e es ih =>
    obtain ⟨a, b⟩ := e
    simp only [lastMatch] at h
    split at h
    · rename_i r hr
      obtain rfl : r = o := by simpa using h
      obtain ⟨g0, h0⟩ := ih hr
      exact ⟨g0, List.mem_cons_of_mem _ h0⟩
    · split at h
      · obtain rfl : b = o := by simpa using h
        exact ⟨a, by simp⟩
      · simp at h

theorem target_shown {fnm : Fnmatch} {descs : List Bytes} {f : List (Bytes × Option Bytes)}
    (ha : Acceptable fnm descs f) (m : Smgr) : Shown fnm f m.desc m.real (target fnm f m) := by
  unfold Shown
  cases hl : lastMatch fnm m.desc f with
  | none => simp [target, forceVal, hl]
  | some v =>
    obtain ⟨g, hg⟩ := lastMatch_mem hl
    obtain ⟨⟨str, w, rfl, hp⟩, -⟩ := ha g v hg
    have ht : target fnm f m = w ||| FORCED := by simp [target, forceVal, hl, hp]
    obtain ⟨r, hr, hr2⟩ := parseSttl_ok str
    rw [hp] at hr
    obtain rfl : some w = r := by simpa using hr
    obtain ⟨k1, k2⟩ := hr2 w rfl
    refine ⟨str, w, rfl, hp, ?_, ?_, ?_, ?_⟩
    · rw [ht, isForced_or]; simp; right; decide
    · rw [ht, isDown_or, show isDown FORCED = false by decide, Bool.or_false]
    · rw [ht, ttl_or, show ttl FORCED = 0 by decide, Nat.or_zero]
    · rw [ht]; exact Valid_or k1 (by decide)

theorem InForce.acceptable {fnm : Fnmatch} {descs : List Bytes} {f0 : List (Bytes × Option Bytes)} {es : List Event}
    {f : List (Bytes × Option Bytes)} (h : InForce fnm descs f0 es f) (h0 : Acceptable fnm descs f0) :
    Acceptable fnm descs f := by
  induction h with
  | start => exact h0
  | load _ ha _ => exact ha
  | refuse _ _ ih => exact ih
  | delete _ _ => simp [Acceptable]
  | other _ _ _ ih => exact ih

/-- A state table shows, for every resource, the forced state of the file in force or the
monitored state. -/
def TableShows (fnm : Fnmatch) (f : List (Bytes × Option Bytes)) (ms : List Smgr) (tbl : List UInt32) : Prop :=
  tbl.length = ms.length ∧ ∀ (i : Nat) (m : Smgr) (v : UInt32), ms[i]? = some m → tbl[i]? = some v → Shown fnm f m.desc m.real v

theorem tableShows_of {fnm : Fnmatch} {descs : List Bytes} {f : List (Bytes × Option Bytes)}
    (ha : Acceptable fnm descs f) (ms : List Smgr) : TableShows fnm f ms (ms.map (target fnm f)) := by
  refine ⟨by simp, fun i m v hm hv => ?_⟩
  rw [List.getElem?_map, hm] at hv
  obtain rfl : target fnm f m = v := by simpa using hv
  exact target_shown ha m

/-- C26. For any resources, initial round, admin file at startup and any later
interleaving of check results, direct updates, file loads, file deletions and table-update
timers: nothing fails; the table readers see is exactly right for the state of the world
after some prefix `pre` of the events with no table update since (no prefix needed when
updates are immediate), and it is right for the present whenever no update is pending. The
table is one consistent snapshot: one `pre` serves all resources. Unacceptable files never
enter into force. -/
theorem C26_forcing (fnm : Fnmatch) (regs : List Reg) (nodelay : Bool) (hne : regs ≠ []) (round es : List Event)
    (admin : Option File) (hc : ∀ e ∈ round, e.isCheck)
    (hr : ∀ e ∈ round, EvOk (registered regs nodelay).smgrs e)
    (he : ∀ e ∈ es, EvOk (registered regs nodelay).smgrs e) :
    ∃ s0 s f0 f, start fnm (registered regs nodelay) round admin = .ok s0 ∧ run fnm s0 es = .ok s ∧
      ((∃ x, admin = some (some x) ∧ Acceptable fnm (regs.map (·.1)) x ∧ f0 = x) ∨
       ((∀ x, admin = some (some x) → ¬ Acceptable fnm (regs.map (·.1)) x) ∧ f0 = [])) ∧
      InForce fnm (regs.map (·.1)) f0 es f ∧
      (s.timer = false → TableShows fnm f s.smgrs s.cons) ∧
      (nodelay = true → s.timer = false) ∧
      TableShows fnm f s.smgrs s.sttl ∧
      ∃ pre post sp fp, es = pre ++ post ∧ Event.timer ∉ post ∧ run fnm s0 pre = .ok sp ∧
        InForce fnm (regs.map (·.1)) f0 pre fp ∧ TableShows fnm fp sp.smgrs s.cons := by
  obtain ⟨s0, f0, h1, h2, h3, h4, h5, h6, h7⟩ := start_spec fnm regs nodelay hne round hc hr admin
  have hiff : ∀ (es : List Event) (ms : List Smgr), (ieffects es ms).map (·.type) = ms.map (·.type) ∧
      (ieffects es ms).map (·.desc) = ms.map (·.desc) := by
    intro es
    induction es with
    | nil => intro _; exact ⟨rfl, rfl⟩
    | cons e es ih =>
      intro ms
      obtain ⟨a, b⟩ := ih (ieffect e ms)
      exact ⟨by show (ieffects es (ieffect e ms)).map _ = _; rw [a, ieffect_types],
        by show (ieffects es (ieffect e ms)).map _ = _; rw [b, ieffect_descs]⟩
  have hty : s0.smgrs.map (·.type) = (registered regs nodelay).smgrs.map (·.type) := by rw [h4, (hiff _ _).1]
  have hde : s0.smgrs.map (·.desc) = regs.map (·.1) := by
    rw [h4, (hiff _ _).2]
    have := congrArg (List.map Prod.fst) (registered_inv regs nodelay).2.1
    simpa only [List.map_map, Function.comp_def] using this
  obtain ⟨s, f, k1, k2, k3, k4, k5, pre, post, sp, fp, j1, j2, j3, j4, j5, j6⟩ :=
    run_spec h2 h3 es (fun e h => EvOk_of_types hty (he e h))
  rw [hde] at k4 j5
  have hacc0 : Acceptable fnm (regs.map (·.1)) f0 := by
    rcases h6 with ⟨x, _, ha, rfl⟩ | ⟨_, rfl⟩
    · exact ha
    · simp [Acceptable]
  have hsh : TableShows fnm f s.smgrs s.sttl := by
    have := k2.shows
    unfold Shows at this
    rw [this]
    exact tableShows_of (k4.acceptable hacc0) _
  refine ⟨s0, s, f0, f, h1, k1, h6, k4, ?_, ?_, hsh, pre, post, sp, fp, j1, j2, j4, j5, ?_⟩
  · intro ht
    rw [k2.wf.sync ht]; exact hsh
  · intro hn
    exact k2.wf.nodelay (by rw [k5, h5, hn])
  · rw [j6]
    exact tableShows_of (j5.acceptable hacc0) _

/-- C26. A change is never forgotten: whenever the table readers see differs from the
current state of the world, the update timer is running, and when it fires they are equal. -/
theorem C26_delivered (fnm : Fnmatch) (regs : List Reg) (nodelay : Bool) (hne : regs ≠ []) (round es : List Event)
    (admin : Option File) (hc : ∀ e ∈ round, e.isCheck)
    (hr : ∀ e ∈ round, EvOk (registered regs nodelay).smgrs e)
    (he : ∀ e ∈ es, EvOk (registered regs nodelay).smgrs e) (s0 s : St)
    (h1 : start fnm (registered regs nodelay) round admin = .ok s0) (h2 : run fnm s0 es = .ok s) :
    (s.cons ≠ s.sttl → s.timer = true) ∧ ∃ s', step fnm s .timer = .ok s' ∧ s'.cons = s.sttl ∧ s'.sttl = s.sttl := by
  obtain ⟨s0', f0, k1, k2, k3, k4, -⟩ := start_spec fnm regs nodelay hne round hc hr admin
  rw [h1] at k1
  obtain rfl : s0 = s0' := by simpa using k1
  have hty : s0.smgrs.map (·.type) = (registered regs nodelay).smgrs.map (·.type) := by
    rw [k4]
    have : ∀ (es : List Event) (ms : List Smgr), (ieffects es ms).map (·.type) = ms.map (·.type) := by
      intro es
      induction es with
      | nil => intro _; rfl
      | cons e es ih => intro ms; show (ieffects es (ieffect e ms)).map _ = _; rw [ih, ieffect_types]
    rw [this]
  obtain ⟨s1, f, j1, j2, -⟩ := run_spec k2 k3 es (fun e h => EvOk_of_types hty (he e h))
  rw [h2] at j1
  obtain rfl : s = s1 := by simpa using j1
  refine ⟨fun h => ?_, _, rfl, ?_, ?_⟩
  · cases ht : s.timer
    · exact absurd (j2.wf.sync ht) h
    · rfl
  · cases ht : s.timer
    · exact j2.wf.sync ht
    · rfl
  · cases ht : s.timer <;> rfl

/-- Check results and direct updates for resource `i`. -/
def concerns (i : Nat) : Event → Bool
  | .result j _ => j == i
  | .direct j _ => j == i
  | _ => false

/-- C26. The monitored state itself is untouched by administrative forcing: it depends
only on the resource's own results and direct updates. -/
theorem C26_monitored_independent (fnm : Fnmatch) (regs : List Reg) (nodelay : Bool) (hne : regs ≠ []) (round es es' : List Event)
    (admin admin' : Option File) (hc : ∀ e ∈ round, e.isCheck)
    (hr : ∀ e ∈ round, EvOk (registered regs nodelay).smgrs e)
    (he : ∀ e ∈ es, EvOk (registered regs nodelay).smgrs e)
    (he' : ∀ e ∈ es', EvOk (registered regs nodelay).smgrs e) (s0 s0' s s' : St)
    (h1 : start fnm (registered regs nodelay) round admin = .ok s0) (h2 : run fnm s0 es = .ok s)
    (h1' : start fnm (registered regs nodelay) round admin' = .ok s0') (h2' : run fnm s0' es' = .ok s')
    (i : Nat)
    (hsame : es.filter (concerns i) =
      es'.filter (concerns i)) :
    s.smgrs[i]? = s'.smgrs[i]? := by
  have eff : ∀ (es : List Event) (ms : List Smgr), (effects es ms)[i]? =
      (effects (es.filter (concerns i)) ms)[i]? := by
    intro es
    have congr : ∀ (es : List Event) (ms ms' : List Smgr), ms[i]? = ms'[i]? → (effects es ms)[i]? = (effects es ms')[i]? := by
      intro es
      induction es with
      | nil => intro ms ms' h; exact h
      | cons e es ih =>
        intro ms ms' h
        show (effects es (effect e ms))[i]? = (effects es (effect e ms'))[i]?
        apply ih
        cases e <;> simp only [effect, List.getElem?_modify, h]
    induction es with
    | nil => intro _; rfl
    | cons e es ih =>
      intro ms
      rw [List.filter_cons]
      split
      · exact ih (effect e ms)
      · rename_i hk
        rw [← ih]
        show (effects es (effect e ms))[i]? = _
        apply congr
        cases e with
        | result j b =>
          have : j ≠ i := by simpa [concerns] using hk
          simp [effect, this]
        | direct j b =>
          have : j ≠ i := by simpa [concerns] using hk
          simp [effect, this]
        | _ => rfl
  have one : ∀ (admin : Option File) (es : List Event) (s0 s : St), (∀ e ∈ es, EvOk (registered regs nodelay).smgrs e) →
      start fnm (registered regs nodelay) round admin = .ok s0 → run fnm s0 es = .ok s →
      s.smgrs = effects es (ieffects round (registered regs nodelay).smgrs) := by
    intro admin es s0 s he h1 h2
    obtain ⟨s0', f0, k1, k2, k3, k4, -⟩ := start_spec fnm regs nodelay hne round hc hr admin
    rw [h1] at k1
    obtain rfl : s0 = s0' := by simpa using k1
    have hty : s0.smgrs.map (·.type) = (registered regs nodelay).smgrs.map (·.type) := by
      rw [k4]
      have : ∀ (es : List Event) (ms : List Smgr), (ieffects es ms).map (·.type) = ms.map (·.type) := by
        intro es
        induction es with
        | nil => intro _; rfl
        | cons e es ih => intro ms; show (ieffects es (ieffect e ms)).map _ = _; rw [ih, ieffect_types]
      rw [this]
    obtain ⟨s1, f, j1, -, j3, -⟩ := run_spec k2 k3 es (fun e h => EvOk_of_types hty (he e h))
    rw [h2] at j1
    obtain rfl : s = s1 := by simpa using j1
    rw [j3, k4]
  rw [one admin es s0 s he h1 h2, one admin' es' s0' s' he' h1' h2', eff es, eff es', hsame]

/-- Two resources "a" and "b"; a file forcing "a" down, an unacceptable file, a failed
check, then the timer, then deletion. -/
example : ∃ s0 s s', let fnm : Fnmatch := fun g d => some (g == d || g == [42])
    let regs : List Reg := [([97], some ⟨2, 2, 2, 10⟩, false), ([98], some ⟨2, 2, 2, 10⟩, false)]
    let es : List Event := [.file (some [([42], some [85, 80]), ([97], some [68, 79, 87, 78, 47, 55])]),
      .file (some [([42], some [88])]), .result 1 false, .timer]
    Acceptable fnm [[97], [98]] [([42], some [85, 80]), ([97], some [68, 79, 87, 78, 47, 55])] ∧
    ¬ Acceptable fnm [[97], [98]] [([42], some [88])] ∧
    start fnm (registered regs false) [.result 0 true, .result 1 true] none = .ok s0 ∧
    run fnm s0 es = .ok s ∧ s.cons = [0xC0000007, 0x4fffffff] ∧
    run fnm s0 (es ++ [.deleted, .timer]) = .ok s' ∧ s'.cons = [20, 10] := by
  refine ⟨_, _, _, ?_, ?_, rfl, rfl, rfl, rfl, rfl⟩
  · intro g v h
    simp only [List.mem_cons, List.not_mem_nil, or_false, Prod.mk.injEq] at h
    rcases h with ⟨rfl, rfl⟩ | ⟨rfl, rfl⟩
    · exact ⟨⟨[85, 80], TTLMASK, rfl, by decide⟩, by simp⟩
    · exact ⟨⟨[68, 79, 87, 78, 47, 55], 0x80000007, rfl, by decide⟩, by simp⟩
  · intro h
    obtain ⟨⟨str, w, h1, h2⟩, -⟩ := h [42] (some [88]) (by simp)
    obtain rfl : [88] = str := by simpa using h1
    revert h2
    rw [show parseSttl [88] TTLMASK = .ok none by decide]
    simp

end Gdnsd.Mon
