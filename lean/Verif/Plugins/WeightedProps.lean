import Verif.Plugins.Weighted
/-
C30 (weighted), C56 (weighted choices are proportional).
-/
namespace Gdnsd.Plug
open Mon

/-- The two-family wrapper when the answer of a family is only known up to a relation. -/
theorem both_rel {α : Type} {lim : Limits} {one : α → Bool → Result → Outcome (UInt32 × Result)}
    {P : α → List Addr → Prop} {dn : α → Bool} {t : α → Nat} {v4 v6 : Option α} {r : Result} (hr : Fresh r)
    (hne : v4.isSome || v6.isSome)
    (hone : ∀ (f : Bool) s, (if f then v6 else v4) = some s →
      (∀ as, P s as → (∀ a ∈ as, a.isFam f = true) ∧ as.length ≤ lim.fam f) ∧ t s ≤ 2 ^ 28 - 1 ∧
      ∀ r, Ready lim f r → ∃ rv as d, one s f r = .ok (rv, { r.push as with draws := d }) ∧ P s as ∧
        isDown rv = dn s ∧ ttl rv = t s ∧ Valid rv) :
    ∃ rv a4 a6 d, bothFamilies one v4 v6 r = .ok (rv, { r.push (a4 ++ a6) with draws := d }) ∧
      v4.elim (a4 = []) (P · a4) ∧ v6.elim (a6 = []) (P · a6) ∧
      isDown rv = (v4.elim false dn || v6.elim false dn) ∧
      ttl rv = min (v4.elim (2 ^ 28 - 1) t) (v6.elim (2 ^ 28 - 1) t) ∧ Valid rv := by
  cases v4 with
  | none =>
    cases v6 with
    | none => simp at hne
    | some b =>
      obtain ⟨-, hb, h⟩ := hone true b rfl
      obtain ⟨rv, as, d, h1, hp, h2, h3, h4⟩ := h r (hr.ready lim true)
      refine ⟨rv, [], as, d, by simp [bothFamilies, h1, assertValid_ok h4], rfl, hp, by simp [h2], ?_, h4⟩
      simp only [Option.elim]; omega
  | some a =>
    obtain ⟨hf, ha, h⟩ := hone false a rfl
    obtain ⟨rv, as, d, h1, hp, h2, h3, h4⟩ := h r (hr.ready lim false)
    cases v6 with
    | none =>
      refine ⟨rv, as, [], d, by simp [bothFamilies, h1, assertValid_ok h4], hp, rfl, by simp [h2], ?_, h4⟩
      simp only [Option.elim]; omega
    | some b =>
      obtain ⟨-, hb, k⟩ := hone true b rfl
      have hrd : Ready lim true { r.push as with draws := d } := by
        obtain ⟨q1, q2, q3, q4⟩ := Ready.push (lim := lim) hr (hf as hp).1 (hf as hp).2
        exact ⟨q1, by simpa [famEmpty] using q2, q3, q4⟩
      obtain ⟨rv6, as6, d6, k1, kp, k2, k3, k4⟩ := k _ hrd
      obtain ⟨m1, m2, m3, m4⟩ := min2_facts rv rv6
      refine ⟨min2 rv rv6, as, as6, d6, ?_, hp, kp, ?_, ?_, m4⟩
      · simp only [bothFamilies, h1, k1, Outcome.bind_ok, assertValid_ok m4]
        simp [Result.push]
      · simp [m1, h2, k2]
      · simp only [Option.elim, m3, h3, k3]

theorem weighted_fam {tbl : List UInt32} {isv6 : Bool} {gs : List (List WAddr)} {s : WSet} {as : List Addr}
    (hok : GroupsOk tbl isv6 gs) (h : WeightedAnswer tbl gs s as) :
    (∀ a ∈ as, a.isFam isv6 = true) ∧ as.length ≤ maxAnswer gs s.multi := by
  have hel : ∀ g ∈ gs, ∀ a ∈ eligible tbl (s.enough tbl gs) g, a.isFam isv6 = true := by
    intro g hg a ha
    obtain ⟨v, hv, rfl, -⟩ := mem_eligible ha
    exact ((hok.2.2 g hg).2.2 v hv).1
  obtain ⟨-, h⟩ := h
  unfold maxAnswer
  cases hm : s.multi with
  | true =>
    rw [hm, if_pos rfl] at h
    refine ⟨fun a ha => ?_, by simpa using h.length⟩
    obtain ⟨l, hl, hal⟩ := h.mem a ha
    obtain ⟨g, hg, rfl⟩ := List.mem_map.1 hl
    exact hel g hg a hal
  | false =>
    rw [hm] at h
    obtain ⟨g, hg, hs⟩ := h
    refine ⟨fun a ha => hel g hg a (hs.subset ha), ?_⟩
    have h1 := hs.length_le
    have h2 : (eligible tbl (s.enough tbl gs) g).length ≤ g.length := by
      simpa [eligible] using List.length_filter_le _ g
    have h3 := group_le gs g hg
    simp only [Bool.false_eq_true, if_false]; omega

/-- C30. Every configuration the server accepts gives a set: the 32-bit sums are the exact
totals, the weight needed is between 1 and the total, a share of up weight that is reached
is always enough, and a share missed by more than one part in 2^53 never is. -/
theorem C30_config (tbl : List UInt32) (isv6 : Bool) (c : WConf) (hok : GroupsOk tbl isv6 c.groups)
    (hm : 0 < c.m) (hk : c.m ≤ 2 ^ c.k) :
    ∃ s, mkSet c.groups c.multi c.m c.k = .ok s ∧ s.weight.toNat = weightOf c.groups ∧ s.multi = c.multi ∧
      1 ≤ s.upWeight.toNat ∧ s.upWeight.toNat ≤ weightOf c.groups ∧
      (weightOf c.groups * c.m ≤ upWeightOf tbl c.groups * 2 ^ c.k → s.enough tbl c.groups = true) ∧
      (upWeightOf tbl c.groups * 2 ^ c.k * 2 ^ 53 + weightOf c.groups * c.m < weightOf c.groups * c.m * 2 ^ 53 →
        s.enough tbl c.groups = false) := by
  obtain ⟨s, n, e1, e2, e3, e4, e5, e6, e7, e8, e9, e10⟩ := mkSet_spec hok c.multi hm hk
  have hlt : weightOf c.groups < 2 ^ 53 := by omega
  obtain ⟨n', u1, u2, u3, u4, u5⟩ := uscale_spec (v := weightOf c.groups) (by omega) hlt hm hk
  obtain rfl : n = n' := by rw [e6] at u1; exact Outcome.ok.inj u1
  refine ⟨s, e1, e3, e5, by omega, by omega, fun h => ?_, fun h => ?_⟩
  · simp only [WSet.enough, e7, decide_eq_true_eq]; exact u4 _ h
  · simp only [WSet.enough, e7, decide_eq_false_iff_not]
    intro hc
    have := u5 _ hc
    omega

/-- C30. For every address resource (one or both families), every state table, every random
stream and every fresh result: the answer of each configured family is non-empty and drawn
only from what is eligible (what is up when enough weight is up, everything otherwise), with
`multi` at most one address per group and without it addresses of a single group; the result
is down exactly when some family has too little weight up; the TTL is the smallest over all
slots involved; nothing overflows or leaves an array. -/
theorem C30_weighted (rnd : Rnd) (hrnd : rnd.Legal) (lim : Limits) (tbl : List UInt32)
    (v4 v6 : Option (WConf × WSet)) (r : Result) (hr : Fresh r) (hne : v4.isSome || v6.isSome)
    (hok : ∀ (f : Bool) p, (if f then v6 else v4) = some p → p.1.Gives lim tbl f p.2) :
    ∃ rv a4 a6 d, wResolve rnd lim tbl { v4 := v4.map (·.2), v6 := v6.map (·.2) } r =
        .ok (rv, { r.push (a4 ++ a6) with draws := d }) ∧
      v4.elim (a4 = []) (fun p => WeightedAnswer tbl p.1.groups p.2 a4) ∧
      v6.elim (a6 = []) (fun p => WeightedAnswer tbl p.1.groups p.2 a6) ∧
      isDown rv = (v4.elim false (fun p => !p.2.enough tbl p.1.groups) || v6.elim false (fun p => !p.2.enough tbl p.1.groups)) ∧
      ttl rv = min (v4.elim (2 ^ 28 - 1) fun p => minTtl tbl (wSlots p.1.groups))
        (v6.elim (2 ^ 28 - 1) fun p => minTtl tbl (wSlots p.1.groups)) ∧
      Valid rv := by
  have hb := both_rel (lim := lim) (one := fun (p : WConf × WSet) _ r => wResolveSet rnd lim tbl p.2 r)
    (P := fun p as => WeightedAnswer tbl p.1.groups p.2 as) (dn := fun p => !p.2.enough tbl p.1.groups)
    (t := fun p => minTtl tbl (wSlots p.1.groups)) (v4 := v4) (v6 := v6) hr hne (by
      intro f p hp
      obtain ⟨g1, g2, g3, g4, g5⟩ := hok f p hp
      obtain ⟨s', n, e1, e2, e3, e4, e5, -⟩ := mkSet_spec g1 p.1.multi g2 g3
      obtain rfl : p.2 = s' := by rw [g4] at e1; exact Outcome.ok.inj e1
      refine ⟨fun as has => ?_, minTtl_le _ _, fun r hr => wSet_spec hrnd g1 g2 g3 g4 hr g5⟩
      obtain ⟨w1, w2⟩ := weighted_fam g1 has
      rw [e5] at w2
      exact ⟨w1, Nat.le_trans w2 g5⟩)
  obtain ⟨rv, a4, a6, d, h1, h2, h3, h4, h5, h6⟩ := hb
  refine ⟨rv, a4, a6, d, ?_, h2, h3, h4, h5, h6⟩
  have hmap : bothFamilies (fun s _ r => wResolveSet rnd lim tbl s r) (v4.map (·.2)) (v6.map (·.2)) r =
      bothFamilies (fun (p : WConf × WSet) _ r => wResolveSet rnd lim tbl p.2 r) v4 v6 r := by
    cases v4 <;> cases v6 <;> rfl
  simp only [wResolve, hmap, h1, Outcome.bind_ok, assertValid_ok h6]

/-- C30. Spelled out: whatever is served was configured, and it is up unless too little
weight is up. -/
theorem C30_served_up (tbl : List UInt32) (gs : List (List WAddr)) (s : WSet) (as : List Addr)
    (h : WeightedAnswer tbl gs s as) (he : s.enough tbl gs = true) :
    ∀ a ∈ as, ∃ g ∈ gs, ∃ w ∈ g, w.addr = a ∧ up tbl w.idx = true := by
  intro a ha
  obtain ⟨-, h⟩ := h
  have key : ∃ g ∈ gs, a ∈ eligible tbl (s.enough tbl gs) g := by
    split at h
    · obtain ⟨l, hl, hal⟩ := h.mem a ha
      obtain ⟨g, hg, rfl⟩ := List.mem_map.1 hl
      exact ⟨g, hg, hal⟩
    · obtain ⟨g, hg, hs⟩ := h
      exact ⟨g, hg, hs.subset ha⟩
  obtain ⟨g, hg, h⟩ := key
  rw [he] at h
  obtain ⟨w, hw, e, hu⟩ := mem_eligible h
  exact ⟨g, hg, w, hw, e, hu rfl⟩

/-! ### CNAME sets -/

/-- Dynamic weight of a name. -/
def cdynw (tbl : List UInt32) (c : WCname) : UInt32 := if up tbl c.idx then c.weight else 0

theorem dynCnames_spec {tbl : List UInt32} (cs : List WCname) (rv : UInt32) (hI : ∀ a ∈ cs, InTbl tbl a.idx) (hv : Valid rv) :
    ∃ rv', dynCnames tbl cs rv = .ok (rv', cs.map (cdynw tbl)) ∧
      ttl rv' = min (ttl rv) (minTtl tbl (cs.flatMap (·.idx))) ∧ Valid rv' := by
  induction cs generalizing rv with
  | nil =>
    refine ⟨rv, rfl, ?_, hv⟩
    have := ttl_lt rv
    simp only [List.flatMap_nil, minTtl, List.filterMap_nil, List.foldl_nil]; omega
  | cons a as ih =>
    obtain ⟨s, hs1, hs2, hs3, hs4⟩ := sttlMin_ok (hI a (by simp))
    obtain ⟨k1, k2, k3, k4⟩ := min2_facts rv s
    obtain ⟨rv', h1, h2, h3⟩ := ih (min2 rv s) (fun b hb => hI b (by simp [hb])) k4
    refine ⟨rv', ?_, ?_, h3⟩
    · have hd : (s &&& DOWN = 0) ↔ up tbl a.idx = true := by rw [and_down, hs2]; simp
      simp only [dynCnames, hs1, Outcome.bind_ok, h1, List.map_cons, cdynw, hd, ne_eq, ite_not]
    · rw [List.flatMap_cons, minTtl_append, ← hs3, h2, k3]; omega

theorem natSum_cdynw (tbl : List UInt32) (cs : List WCname) : natSum (cs.map (cdynw tbl)) = cUpWeight tbl cs := by
  unfold cUpWeight
  induction cs with
  | nil => rfl
  | cons a as ih =>
    rw [List.map_cons, natSum_cons, ih, List.filter_cons]
    cases hu : up tbl a.idx <;> simp [cdynw, hu, natSum_cons]

theorem mkCSet_spec {tbl : List UInt32} {cs : List WCname} (hok : CnamesOk tbl cs) {m k : Nat} (hm : 0 < m)
    (hk : m ≤ 2 ^ k) :
    ∃ s n, mkCSet cs m k = .ok s ∧ s.items = cs ∧ s.weight.toNat = natSum (cs.map (·.weight)) ∧
      uscaleCeil (natSum (cs.map (·.weight))) m k = .ok n ∧ s.upWeight.toNat = n ∧ 1 ≤ n ∧
      n ≤ natSum (cs.map (·.weight)) ∧ natSum (cs.map (·.weight)) ≤ 64 * 1048575 := by
  obtain ⟨hne, hlen, hg⟩ := hok
  have hle : natSum (cs.map (·.weight)) ≤ 64 * 1048575 := natSum_le (by
    intro x hx
    obtain ⟨c, hc, rfl⟩ := List.mem_map.1 hx
    exact (hg c hc).2.2.2) (by simpa using hlen)
  have hsU : (sumU (cs.map (·.weight))).toNat = natSum (cs.map (·.weight)) := sumU_toNat (by omega)
  have hpos : 0 < natSum (cs.map (·.weight)) := by
    cases cs with
    | nil => exact absurd rfl hne
    | cons c cs => rw [List.map_cons, natSum_cons]; have := (hg c (by simp)).2.2.1; omega
  obtain ⟨n, u1, u2, u3, -, -⟩ := uscale_spec hpos (by omega) hm hk
  have ha1 : cs.all (fun i => decide (i.weight ≠ 0)) = true := by
    rw [List.all_eq_true]
    intro c hc
    have := (hg c hc).2.2.1
    simp only [decide_eq_true_eq]
    intro h0; rw [h0] at this; simp at this
  have ha2 : sumU (cs.map (·.weight)) ≠ 0 := by
    intro h0; rw [h0] at hsU; simp at hsU; omega
  refine ⟨WCSet.mk cs (sumU (cs.map (·.weight))) (UInt32.ofNat n), n, ?_, rfl, hsU, u1, ?_, u2, u3, hle⟩
  · simp only [mkCSet, ha1, assert_true, Outcome.bind_ok, hsU, u1, ne_eq, ha2, not_false_eq_true, decide_true]
  · simp only [UInt32.toNat_ofNat']
    exact Nat.mod_eq_of_lt (by omega)

/-- C30, CNAME sets. The configuration is accepted, and for every state table, random stream
and fresh result the answer is exactly one configured name, one that is up when enough
weight is up; the result is down exactly when it is not; the TTL is the smallest. -/
theorem C30_cname (rnd : Rnd) (hrnd : rnd.Legal) (lim : Limits) (tbl : List UInt32) (cs : List WCname) (m k : Nat)
    (hok : CnamesOk tbl cs) (hm : 0 < m) (hk : m ≤ 2 ^ k) (r : Result) (hr : Fresh r) :
    ∃ s, mkCSet cs m k = .ok s ∧ s.weight.toNat = natSum (cs.map (·.weight)) ∧
      1 ≤ s.upWeight.toNat ∧ s.upWeight.toNat ≤ natSum (cs.map (·.weight)) ∧
      (natSum (cs.map (·.weight)) * m ≤ cUpWeight tbl cs * 2 ^ k → s.enough tbl cs = true) ∧
      ∃ rv c d, wResolve rnd lim tbl { cnames := some s } r = .ok (rv, { r with cname := some c.dname, draws := d }) ∧
        c ∈ cs ∧ (s.enough tbl cs = true → up tbl c.idx = true) ∧
        isDown rv = !s.enough tbl cs ∧ ttl rv = minTtl tbl (cs.flatMap (·.idx)) ∧ Valid rv := by
  obtain ⟨s, n, e1, e2, e3, e4, e5, e6, e7, e8⟩ := mkCSet_spec hok hm hk
  refine ⟨s, e1, e3, by omega, by omega, fun h => ?_, ?_⟩
  · obtain ⟨n', u1, u2, u3, u4, u5⟩ := uscale_spec (v := natSum (cs.map (·.weight))) (by omega) (by omega) hm hk
    obtain rfl : n = n' := by rw [e4] at u1; exact Outcome.ok.inj u1
    simp only [WCSet.enough, e5, decide_eq_true_eq]; exact u4 _ h
  obtain ⟨hne, hlen, hg⟩ := hok
  obtain ⟨rv, r1, r2, r3⟩ := dynCnames_spec cs TTLMASK (fun c hc => (hg c hc).2.1) (by decide)
  have httl : ttl rv = minTtl tbl (cs.flatMap (·.idx)) := by
    rw [r2, show ttl TTLMASK = 2 ^ 28 - 1 by decide]
    have := minTtl_le tbl (cs.flatMap (·.idx)); omega
  have hle : cUpWeight tbl cs ≤ 64 * 1048575 := by
    rw [← natSum_cdynw]
    refine natSum_le ?_ (by simpa using hlen)
    intro x hx
    obtain ⟨c, hc, rfl⟩ := List.mem_map.1 hx
    have := (hg c hc).2.2.2
    unfold cdynw; split
    · exact this
    · simp
  have hsU : (sumU (cs.map (cdynw tbl))).toNat = cUpWeight tbl cs := by
    rw [sumU_toNat (by rw [natSum_cdynw]; omega), natSum_cdynw]
  have hbad : ¬(s.weight = 0 ∨ s.items.length > 64) := by
    rw [e2]
    rintro (h | h)
    · rw [h] at e3
      have h00 : (0 : UInt32).toNat = 0 := rfl
      omega
    · omega
  have hcond : (sumU (cs.map (cdynw tbl)) < s.upWeight) ↔ s.enough tbl cs = false := by
    rw [UInt32.lt_iff_toNat_lt, hsU, WCSet.enough, decide_eq_false_iff_not]; omega
  have finish : ∀ (w : WCname → UInt32) (st sm : UInt32), Valid st → sm.toNat = natSum (cs.map w) →
      natSum (cs.map w) < 2 ^ 32 → 0 < natSum (cs.map w) →
      ∃ c d, ((getRand rnd sm r).bind fun (x, r) =>
        match (choose x 0 (cs.zip (cs.map w))).or cs.head? with
        | some c => (addCname r c.dname).bind fun r => .ok (st, r)
        | none => .ub) = .ok (st, { r with cname := some c.dname, draws := d }) ∧ c ∈ cs ∧ w c ≠ 0 := by
    intro w st sm hst hsm hb hp
    have hsm0 : sm ≠ 0 := by intro h0; rw [h0] at hsm; have h00 : (0 : UInt32).toNat = 0 := rfl; omega
    have hmap : cs.zip (cs.map w) = cs.map fun c => (c, w c) := by
      have h := List.zip_map' (f := fun c : WCname => c) (g := w) (l := cs)
      simpa using h
    have hmap2 : (cs.map fun c => (c, w c)).map (·.2) = cs.map w := by simp
    obtain ⟨c, v, c1, c2, c3⟩ := choose_zero (x := rnd r.draws sm) (l := cs.map fun c => (c, w c)) (s := sm)
      (by rw [hmap2]; exact hb) (by rw [hmap2]; exact hsm) (hrnd _ _ hsm0)
    obtain ⟨c', hc', e⟩ := List.mem_map.1 c2
    obtain ⟨rfl, rfl⟩ : c' = c ∧ w c' = v := by simpa using e
    refine ⟨c', r.draws + 1, ?_, hc', c3⟩
    rw [getRand_ok hsm0]
    simp only [Outcome.bind_ok, hmap, c1, Option.some_or]
    have hst := (hg c' hc').1
    simp [addCname, hst, hr.1, hr.2.1, hr.2.2]
  simp only [wResolve, wResolveCname]
  rw [if_neg hbad, e2, r1]
  simp only [Outcome.bind_ok, hcond]
  cases hen : s.enough tbl cs with
  | false =>
    obtain ⟨d1, d2, d3, d4⟩ := set_down rv
    obtain ⟨c, d, f1, f2, f3⟩ := finish (·.weight) (rv ||| DOWN) s.weight (d4 r3) e3 (by omega) (by omega)
    refine ⟨rv ||| DOWN, c, d, ?_, f2, by simp, by rw [d1]; rfl, by rw [d2, httl], d4 r3⟩
    rw [if_pos rfl]
    refine (congrArg (Outcome.bind · _) f1).trans ?_
    simp only [Outcome.bind_ok, assertValid_ok (d4 r3)]
  | true =>
    obtain ⟨d1, d2, d3, d4⟩ := clear_down rv
    have hge : s.upWeight.toNat ≤ cUpWeight tbl cs := by simpa [WCSet.enough] using hen
    obtain ⟨c, d, f1, f2, f3⟩ := finish (cdynw tbl) (rv &&& ~~~DOWN) (sumU (cs.map (cdynw tbl))) (d4 r3)
      (by rw [hsU, natSum_cdynw]) (by rw [natSum_cdynw]; omega) (by rw [natSum_cdynw]; omega)
    refine ⟨rv &&& ~~~DOWN, c, d, ?_, f2, ?_, by rw [d1]; rfl, by rw [d2, httl], d4 r3⟩
    · rw [if_neg (by decide)]
      refine (congrArg (Outcome.bind · _) f1).trans ?_
      simp only [Outcome.bind_ok, assertValid_ok (d4 r3)]
    · intro _
      unfold cdynw at f3
      cases hu : up tbl c.idx
      · simp [hu] at f3
      · rfl

/-! ### Proportionality -/

theorem count_range_shift (p : Nat → Bool) (a b : Nat) :
    ((List.range (a + b)).filter p).length =
      ((List.range a).filter p).length + ((List.range b).filter fun i => p (a + i)).length := by
  rw [List.range_add, List.filter_append, List.length_append, List.filter_map, List.length_map]
  rfl

theorem choose_ge {α : Type} (x tot : UInt32) (a : α) (w : UInt32) (l : List (α × UInt32)) (h : ¬ x < tot + w) :
    choose x tot ((a, w) :: l) = choose x (tot + w) l := by
  simp [choose, h]

theorem choose_count {α : Type} (p : α → Bool) (l : List (α × UInt32)) (tot : UInt32)
    (hb : tot.toNat + natSum (l.map (·.2)) < 2 ^ 32) :
    ((List.range (natSum (l.map (·.2)))).filter
        fun i => (choose (UInt32.ofNat (tot.toNat + i)) tot l).any p).length =
      natSum ((l.filter fun q => p q.1).map (·.2)) := by
  induction l generalizing tot with
  | nil => rfl
  | cons q l ih =>
    obtain ⟨a, w⟩ := q
    rw [List.map_cons, natSum_cons] at hb ⊢
    dsimp only at hb ⊢
    have ht : (tot + w).toNat = tot.toNat + w.toNat := by
      rw [UInt32.toNat_add, Nat.mod_eq_of_lt (by omega)]
    rw [count_range_shift]
    have h1 : ((List.range w.toNat).filter
        fun i => (choose (UInt32.ofNat (tot.toNat + i)) tot ((a, w) :: l)).any p).length =
        if p a then w.toNat else 0 := by
      have : ∀ i ∈ List.range w.toNat, (choose (UInt32.ofNat (tot.toNat + i)) tot ((a, w) :: l)).any p = p a := by
        intro i hi
        have hi' : i < w.toNat := List.mem_range.1 hi
        have hlt : UInt32.ofNat (tot.toNat + i) < tot + w := by
          rw [UInt32.lt_iff_toNat_lt, ht, UInt32.toNat_ofNat', Nat.mod_eq_of_lt (by omega)]; omega
        rw [choose, if_pos hlt]; rfl
      rw [List.filter_congr this]
      cases p a with
      | true => rw [List.filter_eq_self.2 (by simp)]; simp
      | false => rw [List.filter_eq_nil_iff.2 (by simp)]; simp
    have h2 : ((List.range (natSum (l.map (·.2)))).filter
        fun i => (choose (UInt32.ofNat (tot.toNat + (w.toNat + i))) tot ((a, w) :: l)).any p).length =
        natSum ((l.filter fun q => p q.1).map (·.2)) := by
      rw [← ih (tot + w) (by rw [ht]; omega)]
      congr 1
      apply List.filter_congr
      intro i hi
      have hi' := List.mem_range.1 hi
      have hge : ¬ UInt32.ofNat (tot.toNat + (w.toNat + i)) < tot + w := by
        rw [UInt32.lt_iff_toNat_lt, ht, UInt32.toNat_ofNat', Nat.mod_eq_of_lt (by omega)]; omega
      rw [choose_ge _ _ _ _ _ hge, ht, Nat.add_assoc]
    rw [h1, h2, List.filter_cons]
    cases p a <;> simp [natSum_cons]

/-- C56. The running-total choice used for CNAME sets, for the group without `multi` and for
the address within a group with `multi` is exactly proportional: of all the equally likely
draws below the total weight, precisely as many lead to an entry with property `p` as the
entries with that property weigh together. Every draw leads to some entry. -/
theorem C56_proportional {α : Type} (p : α → Bool) (l : List (α × UInt32)) (hb : natSum (l.map (·.2)) < 2 ^ 32) :
    ((List.range (natSum (l.map (·.2)))).filter fun x => (choose (UInt32.ofNat x) 0 l).any p).length =
      natSum ((l.filter fun q => p q.1).map (·.2)) := by
  have := choose_count p l 0 (by simpa using hb)
  simpa using this

/-- Three names, one of them down: only the other two are ever drawn, in proportion. -/
example : (List.range 5).map (fun x => choose (UInt32.ofNat x) 0 [("a", 2), ("b", 0), ("c", 3)]) =
    [some "a", some "a", some "c", some "c", some "c"] := by decide

/-- Two groups, the second with one address down; enough weight is up. -/
def exConf : WConf := ⟨[[⟨.v4 1, 10, [0]⟩], [⟨.v4 2, 20, [0]⟩, ⟨.v4 3, 5, [1]⟩]], false, 1, 1⟩
def exTbl : List UInt32 := [60, DOWN ||| 30]

example : GroupsOk exTbl false exConf.groups ∧ (0 < exConf.m ∧ exConf.m ≤ 2 ^ exConf.k) ∧
    maxAnswer exConf.groups exConf.multi ≤ 12 ∧ weightOf exConf.groups = 35 ∧ upWeightOf exTbl exConf.groups = 30 ∧
    (mkSet exConf.groups false 1 1).map (fun s => s.upWeight) = .ok 18 ∧
    ((mkSet exConf.groups false 1 1).bind fun s =>
      wResolve (fun _ _ => 12) {} exTbl { v4 := some s } {}) = .ok (30, { v4 := [2], draws := 3 }) := by
  refine ⟨⟨by decide, by decide, ?_⟩, by decide, by decide, by decide, by decide, by decide, by decide⟩
  intro g hg
  simp only [exConf, List.mem_cons, List.not_mem_nil, or_false] at hg
  rcases hg with rfl | rfl
  · refine ⟨by decide, by decide, ?_⟩
    intro a ha
    simp only [List.mem_cons, List.not_mem_nil, or_false] at ha
    subst ha
    exact ⟨rfl, by intro i hi; simp at hi; simp [exTbl]; omega, by decide, by decide⟩
  · refine ⟨by decide, by decide, ?_⟩
    intro a ha
    simp only [List.mem_cons, List.not_mem_nil, or_false] at ha
    rcases ha with rfl | rfl <;> exact ⟨rfl, by intro i hi; simp at hi; simp [exTbl]; omega, by decide, by decide⟩

example : Rnd.Legal (fun k b => UInt32.ofNat k % b) := by
  intro k b hb
  exact UInt32.mod_lt _ (by
    rw [UInt32.lt_iff_toNat_lt]
    have : b.toNat ≠ 0 := fun h => hb (UInt32.toNat_inj.1 h)
    simp; omega)

/-- A CNAME set meeting `CnamesOk`, the only name that is up has enough weight. -/
example :
    let cs : List WCname := [⟨[3, 1, 97, 0], 1, [1]⟩, ⟨[3, 1, 98, 0], 3, [0]⟩]
    CnamesOk exTbl cs ∧
      ((mkCSet cs 1 1).bind fun s => wResolve (fun _ _ => 0) {} exTbl { cnames := some s } {}) =
        .ok (30, { cname := some [3, 1, 98, 0], draws := 1 }) := by
  refine ⟨⟨by decide, by decide, ?_⟩, by decide⟩
  intro c hc
  simp only [List.mem_cons, List.not_mem_nil, or_false] at hc
  rcases hc with rfl | rfl <;>
    exact ⟨by decide, by intro i hi; simp at hi; simp [exTbl]; omega, by decide, by decide⟩

end Gdnsd.Plug
