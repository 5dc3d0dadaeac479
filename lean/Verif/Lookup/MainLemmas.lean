import Verif.Lookup.DyncLemmas
import Verif.Tree.Props
/-
`db_lookup` as a whole.
-/
namespace Gdnsd.Lookup
open DnameSpec EncSpec Dname Enc Tree TreeSpec LookupSpec

/-! ### The tree -/

theorem referral_of_cut {root : Node} {q z : List Bytes} : ∀ (n : Nat) (c : List Bytes), c.length = n → c <:+ q → z <:+ c → z ≠ c →
    IsCut root c → ∃ c', IsReferral root q z c' := by
  intro n
  induction n using Nat.strongRecOn with
  | _ n ih =>
    intro c hn h1 h2 h3 h4
    by_cases h : ∃ s, s <:+ c ∧ z <:+ s ∧ s ≠ z ∧ s ≠ c ∧ IsCut root s
    · obtain ⟨s, a1, a2, a3, a4, a5⟩ := h
      have hlt : s.length < c.length := by
        have := a1.length_le
        apply Decidable.byContradiction
        intro hh
        exact a4 (a1.eq_of_length (by omega))
      exact ih s.length (by omega) s rfl (a1.trans h1) a2 (Ne.symm a3) a5
    · exact ⟨c, h1, h2, h3, h4, fun s b1 b2 b3 b4 b5 => h ⟨s, b1, b2, b3, b4, b5⟩⟩

/-- NS and SOA data is at the zone's own name. -/
theorem apex_data {resolve : Nat → DynRes} {root : Node} (db : DbOk resolve root) {q z : List Bytes} {n : Node}
    (h : Located root q (.data z n)) {r : RRset} (hr : r ∈ n.rrs) (ht : r.type = 2 ∨ r.type = 6) : q = z := by
  obtain ⟨h1, h2, h3⟩ := h
  rcases h3 with h3 | ⟨_, e, _, h3⟩
  · obtain ⟨c1, _⟩ := db.cut q n r h3 hr ht
    apply Decidable.byContradiction
    intro hne
    obtain ⟨c, hc⟩ := referral_of_cut (root := root) (q := q) (z := z) q.length q rfl (List.suffix_refl _) h1.1 (Ne.symm hne) ⟨n, h3, c1⟩
    exact h2 c hc
  · obtain ⟨_, c2⟩ := db.cut _ n r h3 hr ht
    exact absurd rfl (c2 e)

theorem data_ok {resolve : Nat → DynRes} {root : Node} (db : DbOk resolve root) {q z : List Bytes} {n : Node}
    (h : Located root q (.data z n)) : NodeOk resolve n.rrs := by
  rcases h.2.2 with h3 | ⟨_, e, _, h3⟩
  · exact db.node _ n h3
  · exact db.node _ n h3

/-- NS and SOA sets are found among ordinary data. -/
theorem node_ns {resolve : Nat → DynRes} {rrs : List RRset} (h : NodeOk resolve rrs) {r : RRset} (hr : r ∈ rrs)
    (ht : r.type = 2) : ∃ ttl l, r = ⟨ttl, .ns l⟩ ∧ getType rrs 2 = some r ∧ RRsetOk resolve r := by
  rcases h with ⟨ttl, res, m, rfl, _⟩ | ⟨ttl, d, rfl, _⟩ | h
  · simp only [List.mem_singleton] at hr; subst hr; simp [RRset.type, Body.type] at ht
  · simp only [List.mem_singleton] at hr; subst hr; simp [RRset.type, Body.type] at ht
  · obtain ⟨l, hl⟩ := plain_ns h hr ht
    refine ⟨r.ttl, l, ?_, find_type_of_mem h.1 hr ht, (h.2 r hr).1⟩
    obtain ⟨ttl, body⟩ := r
    simp only at hl; rw [hl]

theorem node_soa {resolve : Nat → DynRes} {rrs : List RRset} (h : NodeOk resolve rrs) {r : RRset} (hr : r ∈ rrs)
    (ht : r.type = 6) : (∃ m n t, r.body = .soa m n t) ∧ getType rrs 6 = some r ∧ RRsetOk resolve r := by
  rcases h with ⟨ttl, res, m, rfl, _⟩ | ⟨ttl, d, rfl, _⟩ | h
  · simp only [List.mem_singleton] at hr; subst hr; simp [RRset.type, Body.type] at ht
  · simp only [List.mem_singleton] at hr; subst hr; simp [RRset.type, Body.type] at ht
  · exact ⟨plain_soa h hr ht, find_type_of_mem h.1 hr ht, (h.2 r hr).1⟩

/-! ### The state along the chain -/

/-- The state when the name `q` is looked up, as the query's own name or as a CNAME's
target. -/
structure At (root : Node) (qraw ql : List Bytes) (env : Env) (st : St) (q : List Bytes) (via : Bool) : Prop where
  inv : Inv qraw ql env st
  ts : ChainTs ql st.ts
  wf : WF q
  low : lowerName q = q
  name : NamePtr st.out st.qc q
  pos : 12 ≤ st.qc
  source : (via = false ∧ q = ql ∧ st.qc = 12) ∨
    (via = true ∧ (∃ z, IsZone root q z ∧ z <:+ ql ∧ env.noChain = false ∧ z <:+ qraw) ∧
      ∃ a bs rest, st.out = a ++ bs ++ rest ∧ a.length = st.qc ∧ ChainBytes ql q bs)
  zero : st.an = 0 ∧ st.ns = 0 ∧ st.ar = 0 ∧ st.rcode = 0
  scope : st.scope = 0
  aa : st.aa = via

/-- `auth_comp` in `db_lookup`. -/
def authOff (st : St) (via : Bool) (n : Nat) : Outcome Nat :=
  bif via then
    (assert (decide (st.qc ≠ 0) && decide (st.qc < 16376) && decide (n < 256))).bind fun _ =>
    chaseAuth st.out (st.qc + 2 * n + 1) st.qc n
  else .ok (st.qc + n)

theorem at_auth {root : Node} {qraw ql q : List Bytes} {env : Env} {st : St} {via : Bool} (h : At root qraw ql env st q via)
    (hlen : st.out.length ≤ 16376) {x c : List Bytes} (hx : q = x ++ c) :
    ∃ ac, authOff st via (wireLabels x).length = .ok ac ∧ NamePtr st.out ac c ∧
      (c <:+ ql → ∃ cr, PlainAt st.out ac cr ∧ WF cr ∧ (cr <:+ qraw ∧ lowerName cr = c ∨ via = true ∧ cr = c)) := by
  have hql := h.inv.wf
  have hlow := h.inv.low
  have hraw : WF qraw := WF_of_lower (by rw [hlow]; exact hql)
  obtain ⟨hdr, qq, hh, hpk⟩ := h.inv.pkt
  rcases h.source with ⟨rfl, h2, h3⟩ | ⟨rfl, _, a, bs, rest, h3, h4, h5⟩
  · subst h2
    obtain ⟨x', c', q1, q2, q3⟩ := lowerName_split (hlow.trans hx)
    have hpl : PlainAt st.out 12 (x' ++ c') := by rw [hpk, ← q1, ← hh]; exact PlainAt_intro hdr qraw qq
    have hpl2 := PlainAt_suffix hpl
    have hwc : WF c' := WF_suffix hraw ⟨x', q1.symm⟩
    have hxl : (wireLabels x).length = (wireLabels x').length := by rw [← q2]; exact lowerName_wire x'
    have hna := PlainAt_names hwc hpl2
    refine ⟨12 + (wireLabels x').length, by rw [authOff, cond_false, h3, hxl], ⟨?_, _, c', hna, ?_⟩, fun _ => ⟨c', hpl2, hwc, .inl ⟨⟨x', q1.symm⟩, q3⟩⟩⟩
    · have := NameAt_end hna; omega
    · rw [← q3, lowerName_idem]
  · have hqc : st.qc < st.out.length := by
      obtain ⟨_, e, l, hn, _⟩ := h.name
      have := NameAt_end hn; omega
    have hn256 : (wireLabels x).length < 256 := by
      have := wireLabels_length x
      have := wireLen_append x c
      have := wireLen_pos c
      have := h.wf.2
      rw [hx] at this
      omega
    have hass : (decide (st.qc ≠ 0) && decide (st.qc < 16376) && decide ((wireLabels x).length < 256)) = true := by
      simp only [Bool.and_eq_true, decide_eq_true_eq]
      have := h.pos
      omega
    have hoff : authOff st true (wireLabels x).length =
        chaseAuth st.out (st.qc + 2 * (wireLabels x).length + 1) st.qc (wireLabels x).length := by
      rw [authOff, cond_true, hass, assert_true, Outcome.bind_ok]
    obtain ⟨_, e, l, hn, hl⟩ := h.name
    rw [h.low, hx] at hl
    obtain ⟨x', c', q1, q2, q3⟩ := lowerName_split hl
    have hxl : (wireLabels x).length = (wireLabels x').length := by rw [← q2]; exact lowerName_wire x'
    obtain ⟨ac, e', g1, g2, g3, g4⟩ := chase_name hn x' c' (st.qc + 2 * (wireLabels x).length + 1) q1 (by omega)
    rw [← hxl] at g1
    refine ⟨ac, by rw [hoff]; exact g1, ⟨?_, e', c', g2, ?_⟩, ?_⟩
    · have := NameAt_end g2; have := g4 h.name.1.1; omega
    · rw [← q3, lowerName_idem]
    · intro hc
      have hxn := labels_le x
      have := h.pos
      obtain ⟨ac', cr, f1, f2, f3⟩ := chase_stored (rest := rest) (a := a) h5 hql h.wf hlow hh (by rw [← h3]; exact hpk) hx hc
        (fuel := st.qc + 2 * (wireLabels x).length + 1) (by omega)
      rw [← h3, h4, g1] at f1
      cases f1
      rw [← h3] at f2
      refine ⟨cr, f2, ?_, ?_⟩
      · rcases f3 with rfl | ⟨f3, _⟩
        · exact WF_suffix h.wf ⟨x, hx.symm⟩
        · exact WF_suffix hraw f3
      · rcases f3 with f3 | f3
        · exact .inr ⟨rfl, f3⟩
        · exact .inl f3

/-- The decision to follow. -/
theorem chase_decision {root : Node} {qraw ql q z d : List Bytes} {env : Env} {st : St} {via : Bool}
    (h : At root qraw ql env st q via) (hz : IsZone root q z) {ac : Nat} (hd : WF d) (hdl : lowerName d = d)
    (hp : z <:+ ql → ∃ cr, PlainAt st.out ac cr ∧ WF cr ∧ (cr <:+ qraw ∧ lowerName cr = z ∨ via = true ∧ cr = z)) :
    (bif !env.noChain then inWireZone st.out ac (encode d true) else .ok false) =
      .ok (decide (env.noChain = false ∧ z <:+ qraw ∧ z <:+ d)) := by
  have hzq : z <:+ ql := by
    rcases h.source with ⟨_, h2, _⟩ | ⟨_, ⟨z', g1, g2, _⟩, _⟩
    · rw [← h2]; exact hz.1
    · rw [IsZone_unique hz g1]; exact g2
  obtain ⟨cr, p1, p2, p3⟩ := hp hzq
  cases hn : env.noChain with
  | true => simp
  | false =>
    rw [Bool.not_false, cond_true, inWireZone_eq p2 hd p1]
    congr 1
    rw [decide_eq_decide]
    have hsame : ∀ y, y <:+ qraw → cr <:+ qraw → y.length = cr.length → y = cr := by
      intro y h1 h2 h3
      rcases suffix_total h1 h2 with h | h
      · exact h.eq_of_length h3
      · exact (h.eq_of_length h3.symm).symm
    have hlow : ∀ y, y <:+ d → lowerName y = y := by
      rintro y ⟨b, rfl⟩
      rw [lowerName_append] at hdl
      exact (List.append_inj hdl (lowerName_length b)).2
    rcases p3 with ⟨p3, p4⟩ | ⟨p3, p4⟩
    · have hlen : z.length = cr.length := by rw [← p4, lowerName_length]
      constructor
      · intro hs
        have : cr = z := by rw [← p4]; exact (hlow cr hs).symm
        rw [this] at p3 hs
        exact ⟨rfl, p3, hs⟩
      · rintro ⟨_, h1, h2⟩
        have := hsame z h1 p3 hlen
        rw [← this]; exact h2
    · subst p4
      rcases h.source with ⟨h1, _⟩ | ⟨_, ⟨z', g1, g2, g3, g4⟩, _⟩
      · rw [p3] at h1; cases h1
      · have := IsZone_unique hz g1
        subst this
        exact ⟨fun hs => ⟨rfl, g4, hs⟩, fun hs => hs.2.2⟩

/-- The surroundings of one query. -/
structure Ctx (qraw : List Bytes) (env : Env) (w : World) (root : Node) (t : Nat) : Prop where
  res : env.resolve = w.resolve
  chals : ChalsOk env w.chals
  follow : ∀ z, w.follow z ↔ env.noChain = false ∧ z <:+ qraw
  db : DbOk w.resolve root
  type : t < 128 ∨ 256 ≤ t ∨ t = 255

/-- What the lookup leaves behind. -/
structure Done (qraw ql : List Bytes) (env : Env) (w : World) (t k : Nat) (st st' : St) (cs : List (List Bytes × RRset))
    (e : List Bytes) (v : Verdict) : Prop where
  chain : ∃ base, RecsAt base st.out.length (cs.flatMap fun c => answerRecs w.resolve c.1 c.2) base.length ∧ st.out <+: base ∧
    Holds qraw ql env base st' { endReply w t k e v with aa := (endReply w t k e v).aa || (st.aa || !cs.isEmpty) }
  cn : st'.cn = st.cn + cs.length
  size : (t = 16 ∧ chalRecs w e ≠ [] ∧ st'.out.length ≤ env.thisMax) ∨ st'.out.length ≤ st.out.length + (chainSize w cs + endSize w t v)
  k : KOk w t k e v env.thisMax st'.out.length

theorem Done_final {qraw ql : List Bytes} {env : Env} {w : World} {t k : Nat} {st st' : St} {e : List Bytes} {z : List Bytes} {soa : RRset}
    {rrs : Option (List RRset)} (h : Holds qraw ql env st.out st' (finalReply w t k e z soa rrs)) (hcn : st'.cn = st.cn)
    (hs : (t = 16 ∧ chalRecs w e ≠ [] ∧ st'.out.length ≤ env.thisMax) ∨ st'.out.length ≤ st.out.length + endSize w t (.final z soa rrs))
    (hk : KOk w t k e (.final z soa rrs) env.thisMax st'.out.length) : Done qraw ql env w t k st st' [] e (.final z soa rrs) := by
  have haa : (finalReply w t k e z soa rrs).aa = true := by
    simp only [finalReply]
    repeat' split
    all_goals rfl
  refine ⟨⟨st.out, .nil, List.prefix_refl _, ?_⟩, hcn, by simpa [chainSize] using hs, hk⟩
  have : (endReply w t k e (.final z soa rrs)) = finalReply w t k e z soa rrs := rfl
  rw [this, haa, Bool.true_or]
  obtain ⟨a1, a2, a3, a4, a5, a6⟩ := h
  exact ⟨a1, a2, a3, a4, by rw [a5, haa], a6⟩

/-- One turn of `db_lookup` up to the use of `auth_comp`. -/
def turn (root : Nat → Node) (env : Env) (fuel i : Nat) (st : St) (qname : Bytes) (r : Tree.Found) (auth : Node) : Outcome St :=
  if r.status = .deleg then
    match r.dom with
    | none => .ub
    | some dom =>
      match getType dom.rrs 2 with
      | some ⟨ttl, .ns l⟩ => (encNs env st ttl l).bind fun st => .ok { st with ns := st.an, an := 0 }
      | _ => .ub
  else
    match rrsOf r.dom with
    | ⟨ttl, .dync res m⟩ :: rest =>
      (assert rest.isEmpty).bind fun _ =>
      (processDync env st res ttl m).bind fun x =>
      finalAuth env { x.2 with qtype := bif headIs x.1 5 then 5 else x.2.qtype } qname r.dom.isSome auth x.1
    | ⟨ttl, .cname d⟩ :: rest =>
      bif decide (st.qtype ≠ 5) && decide (st.qtype ≠ 255) then
        (assert rest.isEmpty).bind fun _ =>
        (bif !env.noChain then inWireZone st.out st.ac d else .ok false).bind fun chase =>
        bif chase then
          (encCname env { st with aa := true } ttl d true).bind fun st =>
          dbLookup root env fuel (i + 1) st d true
        else finalAuth env { st with qtype := 5 } qname r.dom.isSome auth (rrsOf r.dom)
      else finalAuth env st qname r.dom.isSome auth (rrsOf r.dom)
    | rrs => finalAuth env st qname r.dom.isSome auth rrs

theorem dbLookup_turn {rt : Nat → Node} {env : Env} {fuel i : Nat} {st : St} {q : Bytes} {via : Bool} {r : Tree.Found} {ad : Nat}
    {auth : Node} {ac : Nat} (hs : search (rt i) q = .ok (r, ad)) (hst : r.status ≠ .noauth) (ha : r.auth = some auth)
    (hoff : authOff st via ad = .ok ac) :
    dbLookup rt env (fuel + 1) i st q via = turn rt env fuel i { st with ac := ac } q r auth := by
  rw [dbLookup, hs, Outcome.bind_ok]
  simp only
  have hoff' : (bif via then
      (assert (decide (st.qc ≠ 0) && decide (st.qc < 16376) && decide (ad < 256))).bind fun _ =>
      chaseAuth st.out (st.qc + 2 * ad + 1) st.qc ad
    else .ok (st.qc + ad)) = .ok ac := hoff
  cases hstat : r.status with
  | noauth => exact absurd hstat hst
  | auth =>
    simp only [ha, hoff', Outcome.bind_ok]
    rw [turn, hstat]
    rfl
  | deleg =>
    simp only [ha, hoff', Outcome.bind_ok]
    rw [turn, hstat]
    rfl

/-- Ordinary data does not start with CNAME or DYNC. -/
theorem turn_plain {root : Nat → Node} {env : Env} {fuel i : Nat} {st : St} {q : Bytes} {r : Tree.Found} {auth : Node}
    {resolve : Nat → DynRes} (h : r.status = .auth) (hp : Plain resolve (rrsOf r.dom)) :
    turn root env fuel i st q r auth = finalAuth env st q r.dom.isSome auth (rrsOf r.dom) := by
  rw [turn, if_neg (by rw [h]; decide)]
  generalize rrsOf r.dom = rrs at hp
  cases rrs with
  | nil => rfl
  | cons x xs =>
    obtain ⟨h1, h2, _⟩ := hp.2 x (by simp)
    obtain ⟨ttl, body⟩ := x
    cases body with
    | cname d => exact absurd rfl (h2 d)
    | dync res m => exact absurd h1 id
    | _ => rfl

theorem prefix_of_suffix {q z : List Bytes} (h : z <:+ q) {ad : Nat} (had : ad + wireLen z = wireLen q) :
    ∃ x, q = x ++ z ∧ ad = (wireLabels x).length := by
  obtain ⟨x, rfl⟩ := h
  refine ⟨x, rfl, ?_⟩
  have := wireLen_append x z
  have := wireLabels_length x
  omega

theorem ns_sum_le (l : List NsRd) : (l.map fun x => 12 + nameLen x.dname).sum ≤
    (l.map fun x => 12 + nameLen x.dname + glueSize 4 x.glue4 + glueSize 16 x.glue6).sum := by
  induction l with
  | nil => simp
  | cons a l ih => simp only [List.map_cons, List.sum_cons]; omega

/-- The last name of a chain. -/
theorem lookup_stop {qraw ql q : List Bytes} {env : Env} {w : World} {root : Node} {t : Nat} (hx : Ctx qraw env w root t)
    (hno : ∀ r d, ¬ Follows w root t q r d) (st : St) (via : Bool) (ha : At root qraw ql env st q via) (ht : st.qtype = t)
    (v : Verdict) (hv : Ends root q v) (hsz : st.out.length + endSize w t v ≤ 16376) (fuel i : Nat)
    (rt : Nat → Node) (hrt : rt i = root) :
    ∃ st' k, dbLookup rt env (fuel + 1) i st (encode q true) via = .ok st' ∧ Done qraw ql env w t k st st' [] q v := by
  obtain ⟨r, ad, p, hs, hp, hres⟩ := C18_search root q ha.wf
  rw [← hrt] at hs
  obtain ⟨z1, z2, z3, z4⟩ := ha.zero
  cases v with
  | refused =>
    have hv : Located root q .outside := hv
    have := Located_unique hp hv
    subst this
    simp only at hres
    have hvia : via = false := by
      rcases ha.source with h | ⟨_, ⟨z, h1, _⟩, _⟩
      · exact h.1
      · exact absurd h1.2.1 (hv z h1.1)
    refine ⟨{ st with rcode := 5 }, 0, ?_, ⟨⟨st.out, .nil, List.prefix_refl _, ?_⟩, rfl, .inr (by simp), trivial⟩⟩
    · rw [dbLookup, hs, Outcome.bind_ok]
      simp only [hres]
      rw [hvia, Bool.not_false, assert_true, Outcome.bind_ok]
    · refine ⟨ha.inv.extend [] (by simp) rfl, List.prefix_refl _, rfl, ha.scope, by simp [endReply], [], [], [], .nil, .refl _, .refl _, .refl _, z1, z2, z3⟩
  | referral c rr =>
    obtain ⟨z, n, h1, h2, h3, h4⟩ := hv
    have := Located_unique hp h1
    subst this
    obtain ⟨e1, e2, e3, e4⟩ := hres
    obtain ⟨zn, hzn, _⟩ := h1.1.2.1
    obtain ⟨x, hqx, hadx⟩ := prefix_of_suffix h1.2.1 e4
    obtain ⟨ac, g1, g2, _⟩ := at_auth ha (by omega) hqx
    rw [← hadx] at g1
    obtain ⟨ttl, l, n1, n2, n3⟩ := node_ns (hx.db.node c n h2) h3 h4
    subst n1
    rw [dbLookup_turn hs (by rw [e1]; decide) (by rw [e3]; exact hzn) g1, turn, if_pos e1, e2, h2]
    simp only [n2]
    obtain ⟨o1, o2, o3⟩ := n3
    have hi : Inv qraw ql env { st with ac := ac } := ha.inv.extend [] (by simp) rfl
    have hsize : endSize w t (.referral c ⟨ttl, .ns l⟩) =
      (l.map fun x => 12 + nameLen x.dname + glueSize 4 x.glue4 + glueSize 16 x.glue6).sum := rfl
    have hle : (l.map fun x => 12 + nameLen x.dname).sum ≤
        (l.map fun x => 12 + nameLen x.dname + glueSize 4 x.glue4 + glueSize 16 x.glue6).sum := ns_sum_le l
    obtain ⟨st', add, f1, f2, f3, f4, f5, f6, f7, f8, f9⟩ := encNs_spec (owner := c) ttl l { st with ac := ac } hi g2 o1 o2 o3
      (by simp only; omega)
    obtain ⟨m1, m2, m3, m4, m5⟩ := f4
    obtain ⟨bs, b1, b2⟩ := f3.out
    simp only at b1 f5 f6 f7 f8 f9 m1 m2 m3 m4
    rw [f1, Outcome.bind_ok]
    refine ⟨_, 0, rfl, ⟨⟨st.out, .nil, List.prefix_refl _, ?_⟩, by simpa using f6, .inr ?_, trivial⟩⟩
    · refine ⟨f3.inv.extend [] (by simp) rfl, ⟨bs, b1.symm⟩, m4.trans z4, f7.trans ha.scope, ?_, [], _, add, ?_, .refl _, .refl _, f2, rfl, ?_, ?_⟩
      · show st'.aa = _
        rw [m3]; simp [endReply]
      · have := f3.recs
        simpa [endReply, answerRecs] using this
      · show st'.an = _
        rw [f8, z1]; simp [endReply, answerRecs]
      · show st'.ar = _
        rw [f9, z3]; simp
    · simp only [chainSize, List.map_nil, List.sum_nil, Nat.zero_add, hsize, b1, List.length_append]; omega
  | final z soa rrs =>
    obtain ⟨a, s1, s2, s3, s4⟩ := hv
    obtain ⟨sb, sg, sok⟩ := node_soa (hx.db.node z a s1) s2 s3
    have hes : endSize w t (.final z soa rrs) = max (ownSize w t (rrs.getD [])) (max 21 (rrSize w.resolve soa)) := rfl
    rw [hes] at hsz
    cases rrs with
    | none =>
      simp only at s4
      have := Located_unique hp s4
      subst this
      obtain ⟨e1, e2, e3, e4⟩ := hres
      obtain ⟨x, hqx, hadx⟩ := prefix_of_suffix s4.1.1 e4
      obtain ⟨ac, g1, g2, _⟩ := at_auth ha (by omega) hqx
      rw [← hadx] at g1
      rw [dbLookup_turn hs (by rw [e1]; decide) (by rw [e3]; exact s1) g1]
      have hpl : Plain w.resolve (rrsOf r.dom) := by rw [e2]; exact ⟨by simp [rrsOf], by simp [rrsOf]⟩
      rw [turn_plain e1 hpl, e2]
      rw [e2] at hpl
      have hi : Inv qraw ql env { st with ac := ac } := ha.inv.extend [] (by simp) rfl
      have hos := (plain_spec hpl t q).2.2.2.2
      simp only [rrsOf, Option.getD_none] at hos hsz hpl ⊢
      obtain ⟨st', k, f1, f2, f3, f4, f5, f6⟩ := finalAuth_plain (w := w) (q := q) (z := z) hx.res ha.wf hx.chals { st with ac := ac } hi [] hpl
        (by rw [ht]; exact hx.type) ha.name g2 (by simp) ⟨z1, z2, z3, z4⟩ false a soa sg sb sok (by simp only [ht]; omega)
      simp only [ha.scope, Nat.max_zero, ht] at f2 f3 f4 f5 f6
      refine ⟨st', k, f1, Done_final ?_ f3 ?_ ?_⟩
      · rw [finalReply_missing]; exact f2
      · rw [hes]; simp only [Option.getD_none]; rw [hos]; exact f4
      · intro h16 _ hk
        rw [if_pos h16] at f6
        exact f6 hk
    | some l =>
      obtain ⟨n, n1, n2⟩ := s4
      have := Located_unique hp n1
      subst this
      obtain ⟨e1, e2, e3, e4⟩ := hres
      obtain ⟨x, hqx, hadx⟩ := prefix_of_suffix n1.1.1 e4
      obtain ⟨ac, g1, g2, g3⟩ := at_auth ha (by omega) hqx
      rw [← hadx] at g1
      rw [dbLookup_turn hs (by rw [e1]; decide) (by rw [e3]; exact s1) g1]
      have hnok := data_ok hx.db n1
      have hi : Inv qraw ql env { st with ac := ac } := ha.inv.extend [] (by simp) rfl
      have hrr : rrsOf r.dom = l := by rw [e2, ← n2]; rfl
      have hsome : r.dom.isSome = true := by rw [e2]; rfl
      simp only [Option.getD_some] at hsz
      rw [n2] at hnok
      rcases hnok with ⟨ttl, res, m, rfl, d1, d2, d3, d4⟩ | ⟨ttl, d, rfl, d1, d2⟩ | hpl
      · obtain ⟨st', k, f1, f2, f3, f4, f5⟩ := dync_final (w := w) (q := q) (z := z) hx.res ha.wf hx.chals { st with ac := ac } hi ttl m res
          d1 d2 d3 d4 (by simp only [ht]; exact hx.type) ha.name g2 ⟨z1, z2, z3, z4⟩ ha.scope a soa sg sb sok (by simp only [ht]; omega)
        simp only [ht] at f2 f3 f4 f5
        refine ⟨st', k, ?_, Done_final f2 f3 ?_ f5⟩
        · rw [turn, if_neg (by rw [e1]; decide), hrr]
          simp only [List.isEmpty_nil, assert_true, Outcome.bind_ok, hsome]
          exact f1
        · rw [hes]; exact f4
      · obtain ⟨dw, de⟩ := NameOk_encode d1
        have hos : ownSize w t [⟨ttl, .cname d⟩] = 12 + nameLen d := rfl
        rw [hos] at hsz
        have hkok : ∀ k len, KOk w t k q (.final z soa (some [⟨ttl, .cname d⟩])) env.thisMax len := by
          intro k len _ h; simp [aliasOf] at h
        by_cases ht5 : t = 5 ∨ t = 255
        · obtain ⟨st', k, f1, f2, f3, f4, f5⟩ := finalAuth_cname (w := w) (q := q) (z := z) hx.res ha.wf hx.chals { st with ac := ac } hi ttl d d1
            (by simp only [ht]; exact ht5) ha.name g2 ⟨z1, z2, z3, z4⟩ true a soa sg sb sok (by simp only; omega)
          simp only [ha.scope] at f2 f3 f4
          refine ⟨st', k, ?_, Done_final ?_ f3 ?_ (hkok k _)⟩
          · rw [turn, if_neg (by rw [e1]; decide), hrr]
            simp only [hsome]
            have hb : (decide (({ st with ac := ac } : St).qtype ≠ 5) && decide (({ st with ac := ac } : St).qtype ≠ 255)) = false := by
              rw [Bool.eq_false_iff]
              intro hh
              simp only [ht, Bool.and_eq_true, decide_eq_true_eq] at hh
              omega
            rw [hb, cond_false]; exact f1
          · rw [finalReply_cname]; exact f2
          · rw [hes]; simp only [Option.getD_some, hos]; right; omega
        · have hi5 : Inv qraw ql env { st with ac := ac, qtype := 5 } := ha.inv.extend [] (by simp) rfl
          obtain ⟨st', k, f1, f2, f3, f4, f5⟩ := finalAuth_cname (w := w) (q := q) (z := z) hx.res ha.wf hx.chals { st with ac := ac, qtype := 5 } hi5 ttl d d1
            (.inl rfl) ha.name g2 ⟨z1, z2, z3, z4⟩ true a soa sg sb sok (by simp only; omega)
          simp only [ha.scope] at f2 f3 f4
          have hdec := chase_decision ha n1.1 (ac := ac) dw d2 g3
          rw [← de] at hdec
          have hnf : decide (env.noChain = false ∧ z <:+ qraw ∧ z <:+ labelsOf d) = false := by
            apply decide_eq_false
            rintro ⟨c1, c2, c3⟩
            exact hno ⟨ttl, .cname d⟩ (labelsOf d) ⟨z, n, d, n1, n2, rfl, rfl, fun h => ht5 (.inl h), fun h => ht5 (.inr h),
              (hx.follow z).mpr ⟨c1, c2⟩, c3⟩
          rw [hnf] at hdec
          refine ⟨st', k, ?_, Done_final ?_ f3 ?_ (hkok k _)⟩
          · rw [turn, if_neg (by rw [e1]; decide), hrr]
            simp only [hsome]
            have hb : (decide (({ st with ac := ac } : St).qtype ≠ 5) && decide (({ st with ac := ac } : St).qtype ≠ 255)) = true := by
              simp only [ht, Bool.and_eq_true, decide_eq_true_eq]
              omega
            rw [hb, cond_true]
            simp only [List.isEmpty_nil, assert_true, Outcome.bind_ok]
            rw [hdec, Outcome.bind_ok, cond_false]
            exact f1
          · rw [finalReply_cname]; exact f2
          · rw [hes]; simp only [Option.getD_some, hos]; right; omega
      · have hos := (plain_spec hpl t q).2.2.2.2
        have hpl' : Plain w.resolve (rrsOf r.dom) := by rw [hrr]; exact hpl
        rw [turn_plain e1 hpl', hrr, hsome]
        obtain ⟨st', k, f1, f2, f3, f4, f5, f6⟩ := finalAuth_plain (w := w) (q := q) (z := z) hx.res ha.wf hx.chals { st with ac := ac } hi l hpl
          (by simp only [ht]; exact hx.type) ha.name g2 (fun rr hr ht => apex_data hx.db n1 (by rw [n2]; exact hr) ht)
          ⟨z1, z2, z3, z4⟩ true a soa sg sb sok (by simp only [ht]; omega)
        simp only [ha.scope, Nat.max_zero, ht] at f2 f3 f4 f5 f6
        refine ⟨st', k, f1, Done_final ?_ f3 ?_ ?_⟩
        · rw [finalReply_plain hpl]; exact f2
        · rw [hes]; simp only [Option.getD_some]; rw [hos]; exact f4
        · intro h16 _ hk
          rw [if_pos h16] at f6
          exact f6 hk

theorem encCname_inv {env : Env} {st st' : St} {ttl : UInt32} {d : Bytes} (h : encCname env st ttl d true = .ok st') :
    ∃ h b, storeComp (st.out ++ h) env.lq st.ts d ((st.out ++ h).length + 2) false = .ok b ∧
      st'.out = st.out ++ h ++ put16 b.1.length ++ b.1 ∧ st'.ts = b.2 ∧ st'.qc = (st.out ++ h).length + 2 := by
  rw [encCname] at h
  cases h1 : rrHead st.out st.qc 5 ttl with
  | ub => rw [h1] at h; cases h
  | ok hd =>
    rw [h1, Outcome.bind_ok] at h
    cases h2 : storeComp (st.out ++ hd) env.lq st.ts d ((st.out ++ hd).length + 2) false with
    | ub => rw [h2] at h; cases h
    | ok b =>
      rw [h2, Outcome.bind_ok] at h
      cases h
      exact ⟨hd, b, h2, rfl, rfl, rfl⟩

/-- A whole lookup. -/
theorem lookup_chain {qraw ql q e : List Bytes} {env : Env} {w : World} {root : Node} {t : Nat} (hx : Ctx qraw env w root t)
    {cs : List (List Bytes × RRset)} (hc : Chain w root t q cs e) :
    ∀ (st : St) (via : Bool) (fuel i : Nat) (v : Verdict) (rt : Nat → Node), (∀ j, j ≤ cs.length → rt (i + j) = root) → At root qraw ql env st q via → st.qtype = t → Ends root e v →
      st.out.length + (chainSize w cs + endSize w t v) ≤ 16376 → cs.length < fuel →
      ∃ st' k, dbLookup rt env fuel i st (encode q true) via = .ok st' ∧ Done qraw ql env w t k st st' cs e v := by
  induction hc with
  | stop hno =>
    intro st via fuel i v rt hrt ha ht hv hsz hf
    obtain ⟨f, rfl⟩ : ∃ f, fuel = f + 1 := ⟨fuel - 1, by simp at hf; omega⟩
    exact lookup_stop hx hno st via ha ht v hv (by simpa [chainSize] using hsz) f i rt (by simpa using hrt 0 (by simp))
  | step hfo hch ih =>
    rename_i q rr dl cs e
    intro st via fuel i v rt hrt ha ht hv hsz hf
    obtain ⟨f, rfl⟩ : ∃ f, fuel = f + 1 := ⟨fuel - 1, by simp at hf; omega⟩
    obtain ⟨z, n, d, n1, n2, n3, n4, t5, t255, n5, n6⟩ := hfo
    obtain ⟨ttl, body⟩ := rr
    simp only at n3
    subst n3
    obtain ⟨r, ad, p, hs, hp, hres⟩ := C18_search root q ha.wf
    have hrt0 : rt i = root := by simpa using hrt 0 (by simp)
    rw [← hrt0] at hs
    have := Located_unique hp n1
    subst this
    obtain ⟨e1, e2, e3, e4⟩ := hres
    have hnok := data_ok hx.db n1
    rw [n2] at hnok
    have hcn : NameOk d ∧ lowerName (labelsOf d) = labelsOf d := by
      rcases hnok with ⟨_, _, _, h, _⟩ | ⟨ttl', d', h, h1, h2⟩ | h
      · simp at h
      · simp only [List.cons.injEq, RRset.mk.injEq, Body.cname.injEq, and_true] at h
        rw [h.2]; exact ⟨h1, h2⟩
      · exact absurd rfl ((h.2 _ (List.mem_singleton.mpr rfl)).2.1 d)
    obtain ⟨d1, d2⟩ := hcn
    obtain ⟨dw, de⟩ := NameOk_encode d1
    have hcsz : chainSize w ((q, (⟨ttl, .cname d⟩ : RRset)) :: cs) = 12 + nameLen d + chainSize w cs := by
      simp [chainSize, rrSize]
    rw [hcsz] at hsz
    obtain ⟨x, hqx, hadx⟩ := prefix_of_suffix n1.1.1 e4
    obtain ⟨ac, g1, g2, g3⟩ := at_auth ha (by omega) hqx
    rw [← hadx] at g1
    obtain ⟨zn, hzn, _⟩ := n1.1.2.1
    rw [dbLookup_turn hs (by rw [e1]; decide) (by rw [e3]; exact hzn) g1]
    have hfol := (hx.follow z).mp n5
    have hdec := chase_decision ha n1.1 (ac := ac) dw d2 g3
    rw [← de, decide_eq_true (⟨hfol.1, hfol.2, n4 ▸ n6⟩ : env.noChain = false ∧ z <:+ qraw ∧ z <:+ labelsOf d)] at hdec
    have hi : Inv qraw ql env { st with ac := ac, aa := true } := ha.inv.extend [] (by simp) rfl
    obtain ⟨st1, f1, f2, f3, f4, f5, f6, f7, f8, _⟩ := encCname_spec (owner := q) ttl d d1 true { st with ac := ac, aa := true } hi ha.name
      (by simp only; omega)
    obtain ⟨m1, m2, m3, m4, m5⟩ := f3
    obtain ⟨z1, z2, z3, z4⟩ := ha.zero
    simp only [cond_true] at f4 f5 f6 f7 m1 m2 m3 m4 m5
    obtain ⟨bs, b1, b2⟩ := f2.out
    simp only at b1
    obtain ⟨hd, b, c1, c2, c3, c4⟩ := encCname_inv f1
    simp only at c1 c2 c3 c4
    rw [ha.inv.lq, de] at c1
    obtain ⟨ct1, ct2⟩ := storeComp_chain ha.inv.wf dw ha.ts c1
    have hzd : IsZone root dl z := ⟨n6, n1.1.2⟩
    have hzq : z <:+ ql := by
      rcases ha.source with ⟨_, h2, _⟩ | ⟨_, ⟨z', k1, k2, _⟩, _⟩
      · rw [← h2]; exact n1.1.1
      · rw [IsZone_unique n1.1 k1]; exact k2
    have ha1 : At root qraw ql env st1 dl true := by
      refine ⟨f2.inv, by rw [c3]; exact ct1, n4 ▸ dw, n4 ▸ d2, n4 ▸ f8 rfl, ?_, .inr ⟨rfl, ⟨z, hzd, hzq, hfol⟩, ?_⟩,
        ⟨by rw [f4]; exact z1, by rw [m1]; exact z2, by rw [f5]; exact z3, by rw [m4]; exact z4⟩, by rw [f7]; exact ha.scope, m3⟩
      · rw [c4, List.length_append]
        have := ha.pos
        obtain ⟨_, en, l, hn, _⟩ := ha.name
        have := NameAt_end hn
        omega
      · refine ⟨st.out ++ hd ++ put16 b.1.length, b.1, [], by rw [c2, List.append_nil], ?_, n4 ▸ ct2⟩
        rw [c4]; simp [put16_length]; omega
    have hlen1 : st1.out.length ≤ st.out.length + (12 + nameLen d) := by rw [b1, List.length_append]; omega
    obtain ⟨st', k, j1, j2⟩ := ih st1 true f (i + 1) v rt
      (fun j hj => by have := hrt (j + 1) (by simp; omega); rw [← this]; congr 1; omega) ha1 (m2.trans ht) hv (by omega) (by simp at hf; omega)
    refine ⟨st', k, ?_, ?_⟩
    · rw [turn, if_neg (by rw [e1]; decide), e2]
      simp only [rrsOf, n2]
      have hb : (decide (st.qtype ≠ 5) && decide (st.qtype ≠ 255)) = true := by
        simp only [ht, Bool.and_eq_true, decide_eq_true_eq]
        exact ⟨t5, t255⟩
      rw [hb, cond_true]
      simp only [List.isEmpty_nil, assert_true, Outcome.bind_ok]
      rw [hdec, Outcome.bind_ok, cond_true, f1, Outcome.bind_ok, de]
      rw [n4] at j1; exact j1
    · obtain ⟨⟨base, k1, k2, k3⟩, k4, k5, k6⟩ := j2
      refine ⟨⟨base, ?_, ?_, ?_⟩, ?_, ?_, k6⟩
      · rw [List.flatMap_cons]
        obtain ⟨tl, htl⟩ := k2
        have h1 := RecsAt_append tl f2.recs
        rw [htl] at h1
        exact RecsAt_trans h1 k1
      · exact List.IsPrefix.trans ⟨bs, b1.symm⟩ k2
      · rw [m3] at k3
        simpa using k3
      · rw [k4, f6]; simp; omega
      · rw [hcsz]
        rcases k5 with h | h
        · exact .inl h
        · right; omega

end Gdnsd.Lookup
