import Verif.Plugins.Lemmas
import Verif.Plugins.Scale
/-
C28 (multifo), C29 (simplefo).
-/
namespace Gdnsd.Plug
open Mon

theorem fam_false {as : List Addr} (h : ∀ a ∈ as, a.isFam false = true) : as.filterMap Addr.v6? = [] := by
  rw [List.filterMap_eq_nil_iff]
  intro a ha
  have := h a ha
  cases a <;> simp_all [Addr.isFam, Addr.v6?]

theorem fam_true {as : List Addr} (h : ∀ a ∈ as, a.isFam true = true) : as.filterMap Addr.v4? = [] := by
  rw [List.filterMap_eq_nil_iff]
  intro a ha
  have := h a ha
  cases a <;> simp_all [Addr.isFam, Addr.v4?]

/-- Slots of the answer in one family. -/
def famEmpty (isv6 : Bool) (r : Result) : Prop := if isv6 then r.v6 = [] else r.v4 = []

theorem wipe_push {isv6 : Bool} {r : Result} {as : List Addr} (h : ∀ a ∈ as, a.isFam isv6 = true)
    (he : famEmpty isv6 r) : wipeFam isv6 (r.push as) = r := by
  cases isv6 with
  | false => simp [famEmpty] at he; cases r; simp_all [wipeFam, Result.push, fam_false h]
  | true => simp [famEmpty] at he; cases r; simp_all [wipeFam, Result.push, fam_true h]

theorem mfLoop_spec {lim : Limits} {tbl : List UInt32} {ih : Bool} (as : List MfAddr) (rv : UInt32) (n : Nat)
    (r : Result) (hI : ∀ a ∈ as, InTbl tbl a.idx) (hroom : Room lim r (as.map (·.addr))) (hv : Valid rv) :
    ∃ rv', mfLoop lim tbl ih as rv n r = .ok (rv', n + (as.filter fun a => up tbl a.idx).length,
        r.push ((if ih then as else as.filter fun a => up tbl a.idx).map (·.addr))) ∧
      ttl rv' = min (ttl rv) (minTtl tbl (as.flatMap (·.idx))) ∧ Valid rv' := by
  induction as generalizing rv n r with
  | nil =>
    refine ⟨rv, by cases ih <;> simp [mfLoop], ?_, hv⟩
    have := ttl_lt rv
    simp only [List.flatMap_nil, minTtl, List.filterMap_nil, List.foldl_nil]; omega
  | cons a as hrec =>
    obtain ⟨s, hs1, hs2, hs3, hs4⟩ := sttlMin_ok (hI a (by simp))
    obtain ⟨k1, k2, k3, k4⟩ := min2_facts rv s
    rw [List.map_cons] at hroom
    obtain ⟨hra, hrr⟩ := hroom.cons
    have hI' : ∀ b ∈ as, InTbl tbl b.idx := fun b hb => hI b (by simp [hb])
    have hmin : ∀ x, ttl x = min (ttl (min2 rv s)) (minTtl tbl (as.flatMap (·.idx))) →
        ttl x = min (ttl rv) (minTtl tbl ((a :: as).flatMap (·.idx))) := by
      intro x hx
      rw [List.flatMap_cons, minTtl_append, ← hs3, hx, k3]; omega
    by_cases hup : up tbl a.idx = true
    · have hd : s &&& DOWN = 0 := by rw [and_down, hs2, hup]; rfl
      obtain ⟨rv', h1, h2, h3⟩ := hrec (min2 rv s) (n + 1) (r.push [a.addr]) hI' hrr k4
      refine ⟨rv', ?_, hmin _ h2, h3⟩
      simp only [mfLoop, hs1, Outcome.bind_ok, hd, if_true, addAnysin_ok hra, h1, push_push, List.filter_cons, hup]
      congr 1
      refine Prod.ext rfl (Prod.ext ?_ ?_)
      · simp; omega
      · cases ih <;> simp
    · have hup : up tbl a.idx = false := by simpa using hup
      have hd : ¬ s &&& DOWN = 0 := by rw [and_down, hs2, hup]; simp
      cases ih with
      | true =>
        obtain ⟨rv', h1, h2, h3⟩ := hrec (min2 rv s) n (r.push [a.addr]) hI' hrr k4
        refine ⟨rv', ?_, hmin _ h2, h3⟩
        simp only [mfLoop, hs1, Outcome.bind_ok, hd, if_true, if_false, addAnysin_ok hra, h1, push_push,
          List.filter_cons, hup]
        simp
      | false =>
        have hroom' : Room lim r (as.map (·.addr)) := hroom.sub (List.sublist_cons_self ..)
        obtain ⟨rv', h1, h2, h3⟩ := hrec (min2 rv s) n r hI' hroom' k4
        refine ⟨rv', ?_, hmin _ h2, h3⟩
        simp only [mfLoop, hs1, Outcome.bind_ok, hd, if_false, h1, List.filter_cons, hup]
        simp

theorem mfSet_spec {lim : Limits} {tbl : List UInt32} {s : MfSet} {isv6 : Bool} {r : Result}
    (hok : s.Ok tbl isv6) (hroom : Room lim r s.all) (he : famEmpty isv6 r) :
    ∃ rv, mfResolveSet lim tbl s isv6 r = .ok (rv, r.push (s.answer tbl)) ∧ isDown rv = !s.enough tbl ∧
      ttl rv = minTtl tbl s.slots ∧ Valid rv := by
  obtain ⟨hne, hall⟩ := hok
  obtain ⟨rv, h1, h2, h3⟩ := mfLoop_spec (ih := s.ignoreHealth) s.as TTLMASK 0 r (fun a ha => (hall a ha).2) hroom (by decide)
  have hemp : (!s.as.isEmpty) = true := by cases hs : s.as <;> simp_all
  have httl : ttl rv = minTtl tbl s.slots := by
    rw [h2]
    have := minTtl_le tbl s.slots
    have e : ttl TTLMASK = 2 ^ 28 - 1 := by decide
    rw [e]; unfold MfSet.slots at *; omega
  have hlen : (s.as.filter fun a => up tbl a.idx).length = (s.ups tbl).length := by simp [MfSet.ups]
  simp only [mfResolveSet, hemp, assert_true, Outcome.bind_ok, h1, Nat.zero_add, hlen]
  by_cases hen : (s.ups tbl).length < s.upThresh
  · have hen' : s.enough tbl = false := by simp [MfSet.enough]; omega
    obtain ⟨d1, d2, d3, d4⟩ := set_down rv
    refine ⟨rv ||| DOWN, ?_, by rw [d1, hen']; rfl, by rw [d2, httl], d4 h3⟩
    rw [if_pos hen]
    cases hih : s.ignoreHealth with
    | true => simp [hih, MfSet.answer, MfSet.all, assertValid_ok (d4 h3)]
    | false =>
      have hfam : ∀ a ∈ (s.as.filter fun a => up tbl a.idx).map (·.addr), a.isFam isv6 = true := by
        intro a ha
        simp only [List.mem_map, List.mem_filter] at ha
        obtain ⟨b, ⟨hb, -⟩, rfl⟩ := ha
        exact (hall b hb).1
      have hw := wipe_push hfam he
      have hadd : addAll lim (s.as.map (·.addr)) r = .ok (r.push s.all) := addAll_ok hroom
      simp [hih, hw, hadd, MfSet.answer, hen', assertValid_ok (d4 h3)]
  · have hen' : s.enough tbl = true := by simp [MfSet.enough]; omega
    obtain ⟨d1, d2, d3, d4⟩ := clear_down rv
    refine ⟨rv &&& ~~~DOWN, ?_, by rw [d1, hen']; rfl, by rw [d2, httl], d4 h3⟩
    rw [if_neg hen]
    cases hih : s.ignoreHealth with
    | true => simp [hih, MfSet.answer, MfSet.all, assertValid_ok (d4 h3)]
    | false => simp [hih, MfSet.answer, MfSet.ups, hen', assertValid_ok (d4 h3)]

/-- The address limit of a family. -/
def Limits.fam (lim : Limits) (isv6 : Bool) : Nat := if isv6 then lim.v6 else lim.v4

/-- A result into which the addresses of one family may be put. -/
structure Ready (lim : Limits) (isv6 : Bool) (r : Result) : Prop where
  cname : r.cname = none
  emp : famEmpty isv6 r
  l4 : r.v4.length ≤ lim.v4
  l6 : r.v6.length ≤ lim.v6

theorem Ready.room {lim : Limits} {isv6 : Bool} {r : Result} {as : List Addr} (h : Ready lim isv6 r)
    (hf : ∀ a ∈ as, a.isFam isv6 = true) (hl : as.length ≤ lim.fam isv6) : Room lim r as := by
  obtain ⟨h1, h2, h3, h4⟩ := h
  refine ⟨h1, ?_, ?_⟩
  · cases isv6 with
    | true => rw [fam_true hf]; simpa using h3
    | false =>
      simp [famEmpty] at h2; simp [Limits.fam] at hl
      have := List.length_filterMap_le Addr.v4? as
      simp only [h2, List.length_nil]; omega
  · cases isv6 with
    | false => rw [fam_false hf]; simpa using h4
    | true =>
      simp [famEmpty] at h2; simp [Limits.fam] at hl
      have := List.length_filterMap_le Addr.v6? as
      simp only [h2, List.length_nil]; omega

theorem Fresh.ready {r : Result} (h : Fresh r) (lim : Limits) (isv6 : Bool) : Ready lim isv6 r :=
  ⟨h.1, by cases isv6 <;> simp [famEmpty, h.2.1, h.2.2], by simp [h.2.1], by simp [h.2.2]⟩

theorem Ready.push {lim : Limits} {r : Result} {as : List Addr} (h : Fresh r)
    (hf : ∀ a ∈ as, a.isFam false = true) (hl : as.length ≤ lim.fam false) : Ready lim true (r.push as) := by
  obtain ⟨-, h2, h3⟩ := (h.ready lim false).room hf hl
  exact ⟨h.1, by simp [famEmpty, Result.push, h.2.2, fam_false hf],
    by simpa [Result.push] using h2, by simpa [Result.push] using h3⟩

theorem both_det {α : Type} {lim : Limits} {one : α → Bool → Result → Outcome (UInt32 × Result)}
    {ans : α → List Addr} {dn : α → Bool} {t : α → Nat} {v4 v6 : Option α} {r : Result} (hr : Fresh r)
    (hne : v4.isSome || v6.isSome)
    (hone : ∀ f s, (if f then v6 else v4) = some s → (∀ a ∈ ans s, a.isFam f = true) ∧ (ans s).length ≤ lim.fam f ∧
      t s ≤ 2 ^ 28 - 1 ∧
      ∀ r, Ready lim f r → ∃ rv, one s f r = .ok (rv, r.push (ans s)) ∧ isDown rv = dn s ∧ ttl rv = t s ∧ Valid rv) :
    ∃ rv, bothFamilies one v4 v6 r = .ok (rv, r.push (v4.elim [] ans ++ v6.elim [] ans)) ∧
      isDown rv = (v4.elim false dn || v6.elim false dn) ∧
      ttl rv = min (v4.elim (2 ^ 28 - 1) t) (v6.elim (2 ^ 28 - 1) t) ∧ Valid rv := by
  cases v4 with
  | none =>
    cases v6 with
    | none => simp at hne
    | some b =>
      obtain ⟨-, -, hb, h⟩ := hone true b rfl
      obtain ⟨rv, h1, h2, h3, h4⟩ := h r (hr.ready lim true)
      refine ⟨rv, by simp [bothFamilies, h1, assertValid_ok h4], by simp [h2], ?_, h4⟩
      simp only [Option.elim]; omega
  | some a =>
    obtain ⟨hf, hl, ha, h⟩ := hone false a rfl
    obtain ⟨rv, h1, h2, h3, h4⟩ := h r (hr.ready lim false)
    cases v6 with
    | none =>
      refine ⟨rv, by simp [bothFamilies, h1, assertValid_ok h4], by simp [h2], ?_, h4⟩
      simp only [Option.elim]; omega
    | some b =>
      obtain ⟨-, -, hb, k⟩ := hone true b rfl
      obtain ⟨rv6, k1, k2, k3, k4⟩ := k (r.push (ans a)) (Ready.push hr hf hl)
      obtain ⟨m1, m2, m3, m4⟩ := min2_facts rv rv6
      refine ⟨min2 rv rv6, by simp [bothFamilies, h1, k1, assertValid_ok m4, push_push], ?_, ?_, m4⟩
      · simp [m1, h2, k2]
      · simp only [Option.elim, m3, h3, k3]

/-! ### C28 -/

theorem answer_sub (tbl : List UInt32) (s : MfSet) : (s.answer tbl).Sublist s.all := by
  unfold MfSet.answer
  split
  · exact List.Sublist.refl _
  · split
    · exact (List.filter_sublist).map _
    · exact List.Sublist.refl _

theorem answer_ne {tbl : List UInt32} {s : MfSet} (h1 : s.as ≠ []) (h2 : 1 ≤ s.upThresh) : s.answer tbl ≠ [] := by
  have hall : s.all ≠ [] := by simpa [MfSet.all] using h1
  unfold MfSet.answer
  split
  · exact hall
  · split
    · rename_i h
      simp [MfSet.enough] at h
      intro h0; rw [h0] at h; simp at h; omega
    · exact hall

theorem push_nonempty {r : Result} {as : List Addr} (h : as ≠ []) : (r.push as).nonempty = true := by
  cases as with
  | nil => exact absurd rfl h
  | cons a as =>
    cases a with
    | v4 x => simp [Result.nonempty, Result.push, List.filterMap_cons, Addr.v4?]
    | v6 x => simp [Result.nonempty, Result.push, List.filterMap_cons, Addr.v6?]

/-- C28. For every configured resource (one or both families, within the declared address
limits), every state table and every fresh result: the answer of each family is exactly the
addresses that are up when at least the threshold number is, and all of them otherwise; the
result is down exactly when some family fell below its threshold; it is never empty; the
TTL is the smallest over all slots involved. -/
theorem C28_multifo (lim : Limits) (tbl : List UInt32) (v4 v6 : Option MfSet) (r : Result) (hr : Fresh r)
    (hne : v4.isSome || v6.isSome)
    (hok : ∀ (f : Bool) s, (if f then v6 else v4) = some s →
      s.Ok tbl f ∧ 1 ≤ s.upThresh ∧ s.as.length ≤ (if f then lim.v6 else lim.v4)) :
    ∃ rv, mfResolve lim tbl v4 v6 r =
        .ok (rv, r.push (v4.elim [] (·.answer tbl) ++ v6.elim [] (·.answer tbl))) ∧
      isDown rv = (v4.elim false (fun s => !s.enough tbl) || v6.elim false (fun s => !s.enough tbl)) ∧
      ttl rv = min (v4.elim (2 ^ 28 - 1) fun s => minTtl tbl s.slots) (v6.elim (2 ^ 28 - 1) fun s => minTtl tbl s.slots) ∧
      Valid rv ∧
      v4.elim [] (·.answer tbl) ++ v6.elim [] (·.answer tbl) ≠ [] := by
  obtain ⟨rv, h1, h2, h3, h4⟩ := both_det (lim := lim) (one := mfResolveSet lim tbl) (ans := (·.answer tbl))
    (dn := fun s => !s.enough tbl) (t := fun s => minTtl tbl s.slots) hr hne (by
      intro f s hs
      obtain ⟨h1, h2, h3⟩ := hok f s hs
      have hfam : ∀ a ∈ s.all, a.isFam f = true := by
        intro a ha
        simp only [MfSet.all, List.mem_map] at ha
        obtain ⟨b, hb, rfl⟩ := ha
        exact (h1.2 b hb).1
      have hlen : s.all.length ≤ lim.fam f := by simpa [MfSet.all, Limits.fam] using h3
      have hsub := answer_sub tbl s
      refine ⟨fun a ha => hfam a (hsub.subset ha), Nat.le_trans hsub.length_le hlen, minTtl_le _ _, fun r hr => ?_⟩
      exact mfSet_spec h1 (hr.room hfam hlen) hr.emp)
  refine ⟨rv, h1, h2, h3, h4, ?_⟩
  cases v4 with
  | some a => simp [answer_ne (hok false a rfl).1.1 (hok false a rfl).2.1]
  | none =>
    cases v6 with
    | some b => simp [answer_ne (hok true b rfl).1.1 (hok true b rfl).2.1]
    | none => simp at hne

/-- C28. The threshold number computed from the configured share `m / 2^k` (a double in
(0, 1]): it exists and is between 1 and the number of addresses; a share that is reached
is always enough; a share missed by more than one part in 2^53 is never enough. -/
theorem C28_share (tbl : List UInt32) (s : MfSet) (m k : Nat) (hne : s.as ≠ []) (hlen : s.as.length ≤ 360)
    (hm : 0 < m) (hk : m ≤ 2 ^ k) :
    ∃ n, uscaleCeil s.as.length m k = .ok n ∧ 1 ≤ n ∧ n ≤ s.as.length ∧
      (s.upThresh = n →
        (s.as.length * m ≤ (s.ups tbl).length * 2 ^ k → s.enough tbl = true) ∧
        ((s.ups tbl).length * 2 ^ k * 2 ^ 53 + s.as.length * m < s.as.length * m * 2 ^ 53 → s.enough tbl = false)) := by
  have h0 : 0 < s.as.length := List.length_pos_iff.2 hne
  obtain ⟨n, h1, h2, h3, h4, h5⟩ := uscale_spec (v := s.as.length) h0 (by omega) hm hk
  refine ⟨n, h1, h2, h3, fun hn => ⟨fun h => ?_, fun h => ?_⟩⟩
  · simp only [MfSet.enough, hn, decide_eq_true_eq]; exact h4 _ h
  · simp only [MfSet.enough, hn, decide_eq_false_iff_not]
    intro hc
    have := h5 _ hc
    omega

/-- Three addresses, one of them down, default threshold 1/2: the other two are served. -/
example :
    let s : MfSet := { as := [⟨.v4 1, [0]⟩, ⟨.v4 2, [1]⟩, ⟨.v4 3, [0, 2]⟩], upThresh := 2, ignoreHealth := false }
    let tbl : List UInt32 := [TTLMASK, DOWN ||| 30, 60]
    s.Ok tbl false ∧ uscaleCeil 3 1 1 = .ok 2 ∧
      mfResolve {} tbl (some s) none {} = .ok (30, { v4 := [1, 3] }) := by
  refine ⟨⟨by decide, ?_⟩, by decide, by decide⟩
  intro a ha
  simp at ha
  rcases ha with rfl | rfl | rfl <;> exact ⟨rfl, by intro i hi; simp at hi; simp; omega⟩

/-! ### C29 -/

theorem sfSet_spec {lim : Limits} {tbl : List UInt32} {s : SfSet} {isv6 : Bool} {r : Result}
    (hok : s.Ok tbl isv6) (hroom : Room lim r [(s.chart tbl).1]) :
    ∃ rv, sfResolveAddr lim tbl s r = .ok (rv, r.push [(s.chart tbl).1]) ∧ isDown rv = (s.chart tbl).2.1 ∧
      ttl rv = (s.chart tbl).2.2 ∧ Valid rv := by
  obtain ⟨-, -, hp, hs⟩ := hok
  obtain ⟨p, p1, p2, p3, p4⟩ := sttlMin_ok hp
  obtain ⟨q, q1, q2, q3, q4⟩ := sttlMin_ok hs
  have hadd := addAnysin_ok hroom
  have hpd : (p &&& DOWN = 0) ↔ up tbl s.priIdx = true := by rw [and_down, p2]; simp
  have hqd : (q &&& DOWN = 0) ↔ up tbl s.secIdx = true := by rw [and_down, q2]; simp
  simp only [SfSet.chart] at hadd ⊢
  cases hpu : up tbl s.priIdx with
  | true =>
    rw [hpu] at hadd
    have h0 : p &&& DOWN = 0 := hpd.2 hpu
    exact ⟨p, by simp only [] at hadd; simp [sfResolveAddr, p1, h0, assertValid_ok p4, hadd], by simp [p2, hpu], p3, p4⟩
  | false =>
    have h0 : ¬ p &&& DOWN = 0 := by rw [hpd, hpu]; decide
    cases hqu : up tbl s.secIdx with
    | false =>
      rw [hpu, hqu] at hadd
      have h1 : ¬ q &&& DOWN = 0 := by rw [hqd, hqu]; decide
      exact ⟨q, by simp only [] at hadd; simp [sfResolveAddr, p1, q1, h0, h1, assertValid_ok q4, hadd], by simp [q2, hqu], q3, q4⟩
    | true =>
      rw [hpu, hqu] at hadd
      have h1 : q &&& DOWN = 0 := hqd.2 hqu
      have hlt : (p &&& TTLMASK < q &&& TTLMASK) ↔ ttl p < ttl q := by
        rw [UInt32.lt_iff_toNat_lt, ttl_eq, ttl_eq]
      have hm : ∀ x : UInt32, isDown (x &&& TTLMASK) = false ∧ ttl (x &&& TTLMASK) = ttl x ∧ Valid (x &&& TTLMASK) := by
        intro x
        exact ⟨by rw [isDown_and]; simp [show isDown TTLMASK = false by decide], ttl_masked x, Valid_and (by decide)⟩
      by_cases hc : p &&& TTLMASK < q &&& TTLMASK
      · refine ⟨p &&& TTLMASK, ?_, (hm p).1, ?_, (hm p).2.2⟩
        · simp only [] at hadd; simp [sfResolveAddr, p1, q1, h0, h1, hc, assertValid_ok (hm p).2.2, hadd]
        · rw [hlt] at hc
          simp only [(hm p).2.1, ← p3, ← q3]; omega
      · refine ⟨q &&& TTLMASK, ?_, (hm q).1, ?_, (hm q).2.2⟩
        · simp only [] at hadd; simp [sfResolveAddr, p1, q1, h0, h1, hc, assertValid_ok (hm q).2.2, hadd]
        · rw [hlt] at hc
          simp only [(hm q).2.1, ← p3, ← q3]; omega

theorem chart_ttl (tbl : List UInt32) (s : SfSet) : (s.chart tbl).2.2 ≤ 2 ^ 28 - 1 := by
  have h1 := minTtl_le tbl s.priIdx
  have h2 := minTtl_le tbl s.secIdx
  unfold SfSet.chart
  split <;> dsimp only <;> omega

theorem chart_addr (tbl : List UInt32) (s : SfSet) : (s.chart tbl).1 = s.pri ∨ (s.chart tbl).1 = s.sec := by
  unfold SfSet.chart
  split <;> simp

/-- C29. For every resource, table and fresh result: each family answers with exactly one
address, chosen by the documented state chart; the result is down exactly when some family
has both addresses down. -/
theorem C29_simplefo (lim : Limits) (tbl : List UInt32) (v4 v6 : Option SfSet) (r : Result) (hr : Fresh r)
    (hlim : 1 ≤ lim.v4 ∧ 1 ≤ lim.v6) (hne : v4.isSome || v6.isSome)
    (hok : ∀ (f : Bool) s, (if f then v6 else v4) = some s → s.Ok tbl f) :
    ∃ rv, sfResolve lim tbl v4 v6 r = .ok (rv, r.push
        (v4.elim [] (fun s => [(s.chart tbl).1]) ++ v6.elim [] (fun s => [(s.chart tbl).1]))) ∧
      isDown rv = (v4.elim false (fun s => (s.chart tbl).2.1) || v6.elim false (fun s => (s.chart tbl).2.1)) ∧
      ttl rv = min (v4.elim (2 ^ 28 - 1) fun s => (s.chart tbl).2.2) (v6.elim (2 ^ 28 - 1) fun s => (s.chart tbl).2.2) ∧
      Valid rv := by
  refine both_det (lim := lim) (one := fun as _ r => sfResolveAddr lim tbl as r)
    (ans := fun s => [(s.chart tbl).1]) (dn := fun s => (s.chart tbl).2.1) (t := fun s => (s.chart tbl).2.2) hr hne ?_
  intro f s hs
  have h := hok f s hs
  have hfam : ∀ a ∈ [(s.chart tbl).1], a.isFam f = true := by
    intro a ha
    rw [List.mem_singleton] at ha
    rcases chart_addr tbl s with h' | h' <;> rw [ha, h']
    · exact h.1
    · exact h.2.1
  have hl : [(s.chart tbl).1].length ≤ lim.fam f := by cases f <;> simp [Limits.fam, hlim]
  exact ⟨hfam, hl, chart_ttl tbl s, fun r hr => sfSet_spec h (hr.room hfam hl)⟩

/-- C29. The chart in words: the primary is answered unless it is down and the secondary is
up; the family is down exactly when both are. -/
theorem C29_choice (tbl : List UInt32) (s : SfSet) :
    ((s.chart tbl).1 = if up tbl s.priIdx = false ∧ up tbl s.secIdx = true then s.sec else s.pri) ∧
    ((s.chart tbl).2.1 = true ↔ up tbl s.priIdx = false ∧ up tbl s.secIdx = false) := by
  unfold SfSet.chart
  cases up tbl s.priIdx <;> cases up tbl s.secIdx <;> simp

/-- Primary down, secondary up in IPv4; both down in IPv6. -/
example :
    let tbl : List UInt32 := [DOWN ||| 5, 9]
    let s4 : SfSet := ⟨.v4 1, .v4 2, [0], [1]⟩
    let s6 : SfSet := ⟨.v6 1, .v6 2, [0, 1], [0]⟩
    s4.Ok tbl false ∧ s6.Ok tbl true ∧
      sfResolve {} tbl (some s4) (some s6) {} = .ok (DOWN ||| 5, { v4 := [2], v6 := [1] }) := by
  refine ⟨⟨rfl, rfl, ?_, ?_⟩, ⟨rfl, rfl, ?_, ?_⟩, by decide⟩ <;>
    (intro i hi; simp at hi; simp; omega)

end Gdnsd.Plug
