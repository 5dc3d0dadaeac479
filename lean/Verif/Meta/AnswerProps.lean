/-
C98: what `metafo` and `geoip` answer, from the configuration and the states.
-/
import Verif.Meta.AnswerLemmas
namespace Gdnsd.Meta
open Vscf VscfSpec Conf ConfSpec SvcSpec MetaSpec
open Res (Lib exLib)
open Svc (Addr Req Boot boot Thing)
open WtSpec (States Published healthy ttls)
open Wt (published_append published_one published_part states_exist)
open ResSpec (IsMin)

/-! ### What was configured -/

theorem means_name {lib : Lib} {pn rn dn : Bytes} {keys : List Bytes} {res tops tops' : List (Entry Val)} {v : Val} {t : Target} (h : Means lib pn rn dn keys res v tops t tops') :
    ∀ tx d svcs, t = .cname tx d svcs → Dname.status d = .ok .valid := by
  intro tx d svcs ht
  cases h with
  | @name r t u ls svcs tops h1 h2 h3 h4 h5 h6 =>
    cases ht
    have := Dname.C01_parse_complete r r.length (Nat.le_refl _) ls true (by rw [List.take_length]; exact h4) h5
    exact (Dname.C01_parse_status r r.length (Nat.le_refl _) _ _ this (by simp)).1
  | reference => cases ht
  | plugin => cases ht
  | short => cases ht
  | options => cases ht

theorem dcs_sane {lib : Lib} {pn rn : Bytes} {names keys : List Bytes} {res : List (Entry Val)} {short : Bool} {es tops tops' : List (Entry Val)} {ds : List Dc}
    (h : Datacenters lib pn rn names keys res short es tops ds tops') (hz : ∀ e ∈ es, (0 : UInt8) ∉ e.key) :
    ds.map (·.name) = es.map (·.key) ∧ (∀ d ∈ ds, NumberOf names d.name d.idx) ∧ ∀ d ∈ ds, ∀ t dn svcs, d.target = .cname t dn svcs → Dname.status dn = .ok .valid := by
  induction h with
  | nil => exact ⟨rfl, by simp, by simp⟩
  | cons h1 h2 h3 _ _ ih =>
    obtain ⟨e1, e2, e3⟩ := ih fun x hx => hz x (by simp [hx])
    refine ⟨?_, ?_, ?_⟩
    · simp only [List.map_cons, e1]
      rw [upToZero_iff.mp h1, Vscf.cstr_self (hz _ (by simp))]
    · intro d hd
      rcases List.mem_cons.mp hd with rfl | hd
      · exact h2
      · exact e2 d hd
    · intro d hd
      rcases List.mem_cons.mp hd with rfl | hd
      · exact means_name h3
      · exact e3 d hd

theorem resource_sane {lib : Lib} {p : Plugin} {config : List (Entry Val)} (hc : Clean (.hash config)) (hz : WholeKeys (.hash config)) {e : Entry Val} (hce : Clean e.val) (hze : WholeKeys e.val)
    {tops tops' : List (Entry Val)} {r : Resource} (h : ResourceOf lib p config e tops r tops') :
    Sane r ∧ ∃ undef v, p.Names config undef v r.names ∧ (undef = false → r.dcs.length = r.names.length) := by
  obtain ⟨_, own, l, full, undef, v, dcs, h1, h2, rfl, _, h4, _, h6, h7, h8⟩ := h
  rw [h1] at hce hze
  have hl := inherits_iff.mp h2
  have hcf := clean_append hce hc hl
  have hzf := whole_full hze hz hl
  obtain ⟨hn, _, hco⟩ := clean_hash hcf
  obtain ⟨d, d1, d2, d3⟩ := find_some ((is_iff hn).mp h6)
  have hcd := clean_hash (d3 ▸ (cleanOf_mem hco d1).1)
  have hzd : ∀ e ∈ dcs, (0 : UInt8) ∉ e.key := hzf dcs (.child d1 (d3 ▸ .refl))
  obtain ⟨e1, e2, e3⟩ := dcs_sane h8 hzd
  refine ⟨⟨e2, e1 ▸ hcd.1, e3⟩, undef, v, h4, ?_⟩
  intro hu
  subst hu
  rw [length_dcs h8]
  simpa using h7

theorem resources_sane {lib : Lib} {p : Plugin} {config : List (Entry Val)} (hc : Clean (.hash config)) (hz : WholeKeys (.hash config)) {es tops tops' : List (Entry Val)} {rs : List Resource}
    (h : ResourcesOf lib p config es tops rs tops') (hce : ∀ e ∈ es, Clean e.val ∧ WholeKeys e.val) :
    ∀ r ∈ rs, Sane r ∧ ∃ undef v, p.Names config undef v r.names ∧ (undef = false → r.dcs.length = r.names.length) := by
  induction h with
  | nil => intro r hr; simp at hr
  | cons h1 _ ih =>
    intro r hr
    rcases List.mem_cons.mp hr with rfl | hr
    · exact resource_sane hc hz (hce _ (by simp)).1 (hce _ (by simp)).2 h1
    · exact ih (fun e he => hce e (by simp [he])) r hr

theorem loads_sane {lib : Lib} {p : Plugin} {config tops tops' : List (Entry Val)} {rs : List Resource} (hc : Clean (.hash config)) (hz : WholeKeys (.hash config)) (h : Loads lib p config tops rs tops') :
    ∀ r ∈ rs, Sane r ∧ ∃ undef v, p.Names config undef v r.names ∧ (undef = false → r.dcs.length = r.names.length) := by
  obtain ⟨es, h1, _, _, h4⟩ := h
  obtain ⟨hn, _, hco⟩ := clean_hash hc
  obtain ⟨d, d1, d2, d3⟩ := find_some ((is_iff hn).mp h1)
  have hcd := clean_hash (d3 ▸ (cleanOf_mem hco d1).1)
  refine resources_sane hc hz h4 fun e he => ⟨(cleanOf_mem hcd.2.2 he).1, ?_⟩
  intro fs hfs
  exact hz fs (.child d1 (d3 ▸ .child he hfs))

/-! ### The states for the administrator -/

theorem flat_get {α : Type} {g : α → List Req} (hg : ∀ a, ∃ x xs, g a = x :: xs) : ∀ {rs : List α} {post : List Req} {j : Nat} {r : α}, rs[j]? = some r →
    ∀ (i : Nat), i < (g r).length → (rs.flatMap g ++ post)[((rs.take j).flatMap g).length + i]? = (g r)[i]?
  | [], _, _, _, h, _, _ => by simp at h
  | a :: rs, post, 0, r, h, i, hi => by
    simp only [List.getElem?_cons_zero, Option.some.injEq] at h
    subst h
    simp only [List.take_zero, List.flatMap_nil, List.length_nil, Nat.zero_add, List.flatMap_cons, List.append_assoc]
    rw [List.getElem?_append_left hi]
  | a :: rs, post, j + 1, r, h, i, hi => by
    simp only [List.getElem?_cons_succ] at h
    simp only [List.take_succ_cons, List.flatMap_cons, List.length_append, List.append_assoc]
    rw [List.getElem?_append_right (by omega), show (g a).length + ((rs.take j).flatMap g).length + i - (g a).length = ((rs.take j).flatMap g).length + i by omega]
    exact flat_get hg h i hi

theorem admins_exist {pn : Bytes} {tbl : List UInt32} {is : List Nat} {r : Resource} (hn : (r.dcs.map (·.name)).Nodup) (hl : (r.reqs pn).length ≤ is.length) (hi : ∀ k ∈ is, k < tbl.length) :
    ∃ g, Administered pn tbl is r g := by
  have hreq : ∀ (i : Nat) d, r.dcs[i]? = some d → (r.reqs pn)[((r.dcs.take i).flatMap (Dc.reqs pn r.name)).length]? = some (.admin (adminName pn r.name d.name)) := by
    intro i d hd
    have := flat_get (g := Dc.reqs pn r.name) (post := []) (fun a => ⟨_, _, rfl⟩) hd 0 (by simp [Dc.reqs])
    rw [List.append_nil, Nat.add_zero] at this
    exact this
  have hx : ∀ n, ∃ v, ∀ (i : Nat) d, r.dcs[i]? = some d → d.name = n → ∃ k, is[((r.dcs.take i).flatMap (Dc.reqs pn r.name)).length]? = some k ∧ tbl[k]? = some v := by
    intro n
    by_cases h : ∃ (i : Nat) (d : Dc), r.dcs[i]? = some d ∧ d.name = n
    · obtain ⟨i, d, h1, h2⟩ := h
      have hlt := (List.getElem?_eq_some_iff.mp (hreq i d h1)).1
      have hk := hi _ (List.getElem_mem (h := Nat.lt_of_lt_of_le hlt hl))
      refine ⟨tbl[is[((r.dcs.take i).flatMap (Dc.reqs pn r.name)).length]'(Nat.lt_of_lt_of_le hlt hl)], fun j d' h3 h4 => ?_⟩
      have hii := (List.getElem?_eq_some_iff.mp h1).1
      have : i = j := (List.getElem?_inj (by simpa using hii) hn).mp (by simp [List.getElem?_map, h1, h3, h2, h4])
      subst this
      exact ⟨_, List.getElem?_eq_getElem _, List.getElem?_eq_getElem _⟩
    · exact ⟨0, fun i d h1 h2 => absurd ⟨i, d, h1, h2⟩ h⟩
  refine ⟨fun n => (hx n).choose, fun i d hd => ?_⟩
  obtain ⟨k, h1, h2⟩ := (hx d.name).choose_spec i d hd rfl
  exact ⟨k, hreq i d hd, h1, h2⟩

/-! ### Answers -/

/-- Exactly one datacenter is picked, and what it says counts. -/
theorem C98_pick (st : Dc → Bool × Nat) (ds : List Dc) (h : ds ≠ []) : ∃ d dn tried, Picks st ds d dn tried ∧ ∀ d' dn' tried', Picks st ds d' dn' tried' → d' = d ∧ dn' = dn ∧ tried' = tried := by
  obtain ⟨d, dn, tried, hp⟩ := picks_exists st ds h
  refine ⟨d, dn, tried, hp, ?_⟩
  intro d' dn' tried' hq
  cases hp with
  | @up pre d post g1 g2 =>
    generalize hl : pre ++ d :: post = l at hq
    cases hq with
    | @up pre' d' post' k1 k2 =>
      have : pre = pre' ∧ d = d' := by
        clear h
        induction pre generalizing pre' with
        | nil =>
          cases pre' with
          | nil => simp only [List.nil_append, List.cons.injEq] at hl; exact ⟨rfl, hl.1⟩
          | cons x xs =>
            simp only [List.nil_append, List.cons_append, List.cons.injEq] at hl
            have := k1 x (by simp)
            rw [← hl.1, g2] at this
            cases this
        | cons y ys ih =>
          cases pre' with
          | nil =>
            simp only [List.nil_append, List.cons_append, List.cons.injEq] at hl
            have := g1 y (by simp)
            rw [hl.1, k2] at this
            cases this
          | cons x xs =>
            simp only [List.cons_append, List.cons.injEq] at hl
            obtain ⟨e1, e2⟩ := ih (fun z hz => g1 z (by simp [hz])) (fun z hz => k1 z (by simp [hz])) hl.2
            exact ⟨by rw [hl.1, e1], e2⟩
      obtain ⟨rfl, rfl⟩ := this
      exact ⟨rfl, rfl, rfl⟩
    | @down d' ds' k1 =>
      have := k1 d (by rw [← hl]; simp)
      rw [g2] at this
      cases this
  | @down d ds' g1 =>
    generalize hl : d :: ds' = l at hq g1
    cases hq with
    | @up pre' d' post' k1 k2 =>
      have := g1 d' (by simp)
      rw [k2] at this
      cases this
    | @down d' ds'' k1 =>
      cases hl
      exact ⟨rfl, rfl, rfl⟩

section
variable {lib : Lib} {p : Plugin} {config tops tops' : List (Entry Val)} {rs : List Resource} (hc : Clean (.hash config)) (hz : WholeKeys (.hash config)) (hload : Loads lib p config tops rs tops')
  {text : Addr → Option Bytes} {st : Bool} {cfg : Option Val} {ces : List (Entry Val)} (he : Entries cfg ces) (hcc : ∀ v, cfg = some v → Clean v) (hp : ∀ e ∈ ces, Plain e)
  {pre post : List Req} {b : Boot} (hb : boot text st cfg (pre ++ (rs.flatMap (Resource.reqs p.name) ++ post)) = .ok (some b))
  {tbl : List UInt32} (ht : tbl.length = b.regs.length) (hv : ∀ s ∈ tbl, Mon.Valid s)

include hc hz hload he hcc hp hb ht hv in
/-- For both plugins. -/
theorem meta_all : ∃ (f : States) (G : Nat → Bytes → UInt32), Published tbl (pre ++ (rs.flatMap (Resource.reqs p.name) ++ post)) b.indices f ∧
    ∀ (j : Nat) r, rs[j]? = some r → r.names.length ≤ 255 →
      let is := b.indices.drop (pre.length + ((rs.take j).flatMap (Resource.reqs p.name)).length)
      Sane r ∧ Administered p.name tbl is r (G j) ∧
      ∀ (map : Nat → Option Nat) (resolve : Bytes → Option Bytes → Plug.Resolver) (sub : Bytes → Option Bytes → Bool × Nat) (synth : UInt8) (ns junk : Bytes) (scope : Nat) (res : Plug.Result) (ds : List Dc),
        (∀ n k, map n = some k → k < tbl.length) → (∀ d ∈ r.dcs, ∀ p n, d.target = .res p n → Plug.Healthy (resolve p n) (sub p n).1 (sub p n).2) →
        (∀ n ∈ Plug.startList synth ns, n ≠ 0 ∧ n.toNat ≤ r.names.length) → (Plug.startList synth ns).length ≤ 254 ∨ r.dcs.length = r.names.length →
        Chosen r.dcs (Plug.startList synth ns) ds →
        Answered resolve (stateOf f sub (G j) fun n => (map n).bind (tbl[·]?)) r.skip ds (Plug.startScope synth scope) res
            (Plug.metaResolve tbl (r.numbered p.name resolve map is) synth (ns ++ 0 :: junk, scope) res) ∧
        ∃ dn t, Plug.Healthy (Plug.metaResolve tbl (r.numbered p.name resolve map is) synth (ns ++ 0 :: junk, scope)) dn t := by
  obtain ⟨f, hf⟩ := states_exist he hcc hp hb ht
  obtain ⟨hlen, _⟩ := Svc.C90_share he hcc hp hb
  obtain ⟨hin, _⟩ := Svc.C90_states he hcc hp hb
  have hsane := loads_sane hc hz hload
  have hadm : ∀ (j : Nat), ∃ g, ∀ r, rs[j]? = some r → Administered p.name tbl (b.indices.drop (pre.length + ((rs.take j).flatMap (Resource.reqs p.name)).length)) r g := by
    intro j
    cases hj : rs[j]? with
    | none => exact ⟨fun _ => 0, nofun⟩
    | some r =>
      have hsp : rs = rs.take j ++ r :: rs.drop (j + 1) := by
        obtain ⟨h1, h2⟩ := List.getElem?_eq_some_iff.mp hj
        rw [← h2, ← List.drop_eq_getElem_cons h1, List.take_append_drop]
      obtain ⟨g, hg⟩ := admins_exist (pn := p.name) (tbl := tbl) (is := b.indices.drop (pre.length + ((rs.take j).flatMap (Resource.reqs p.name)).length)) (hsane r (List.mem_of_getElem? hj)).1.nodup (by
        rw [List.length_drop, hlen]
        have : (rs.flatMap (Resource.reqs p.name)).length = ((rs.take j).flatMap (Resource.reqs p.name)).length + ((Resource.reqs p.name r).length + ((rs.drop (j + 1)).flatMap (Resource.reqs p.name)).length) := by
          conv => lhs; rw [hsp]
          rw [List.flatMap_append, List.flatMap_cons, List.length_append, List.length_append]
        simp only [List.length_append, this]
        omega) (by
        intro k hk
        rw [ht]
        exact hin k (List.mem_of_mem_drop hk))
      exact ⟨g, fun r' h => by cases h; exact hg⟩
  obtain ⟨G, hG⟩ : ∃ G : Nat → Bytes → UInt32, ∀ (j : Nat) r, rs[j]? = some r → Administered p.name tbl (b.indices.drop (pre.length + ((rs.take j).flatMap (Resource.reqs p.name)).length)) r (G j) :=
    ⟨fun j => (hadm j).choose, fun j => (hadm j).choose_spec⟩
  refine ⟨f, G, hf, ?_⟩
  intro j r hj hl
  dsimp only
  have hg := hG j r hj
  have hs := (hsane r (List.mem_of_getElem? hj)).1
  refine ⟨hs, hg, ?_⟩
  have hpub := published_part (published_append hf).2 hj
  rw [List.drop_drop] at hpub
  generalize b.indices.drop (pre.length + ((rs.take j).flatMap (Resource.reqs p.name)).length) = is at hg hpub
  intro map resolve sub synth ns junk scope res ds hm hr hns hle hch
  have key := fun res => meta_answer (sub := sub) hv hs hl hpub hg hm hr synth ns junk scope res hns hle hch
  by_cases h0 : candidates r.skip ds = []
  · refine ⟨.inl ⟨h0, (key res).1 h0⟩, false, 2 ^ 28 - 1, fun k => ?_⟩
    exact ⟨Mon.TTLMASK, _, (key { draws := k }).1 h0, by decide, by decide, by decide⟩
  · obtain ⟨d, dn, tried, hpk⟩ := picks_exists (stateOf f sub (G j) fun n => (map n).bind (tbl[·]?)) _ h0
    constructor
    · obtain ⟨rv, res', k, h1, h2, h3, h4, _⟩ := (key res).2 d dn tried hpk
      exact .inr ⟨d, dn, tried, rv, res', k, hpk, h1, h2, h3, h4⟩
    · obtain ⟨rv0, _, _, _, _, _, q1, _⟩ := (key { draws := 0 }).2 d dn tried hpk
      refine ⟨dn, Mon.ttl rv0, fun k => ?_⟩
      obtain ⟨rv, res', k', h1, h2, h3, h4, h5⟩ := (key { draws := k }).2 d dn tried hpk
      refine ⟨rv, _, h1, h3, ?_, h5⟩
      exact Nat.le_antisymm (h4.2 _ q1.1) (q1.2 _ h4.1)

end

/-- A resource of `metafo` has all datacenters of its list, in the order of the list. -/
theorem all_named {r : Resource} (h : Sane r) (hl : r.dcs.length = r.names.length) (h255 : r.names.length ≤ 255) :
    ∃ ds, All (fun n d => d ∈ r.dcs ∧ d.name = n) r.names ds ∧ Chosen r.dcs ((List.range r.names.length).map fun i => UInt8.ofNat (i + 1)) ds := by
  have hall : ∀ i < r.names.length, ∃ d ∈ r.dcs, d.idx = i + 1 := by
    intro i hi
    apply Decidable.byContradiction
    intro hno
    have hsub : (r.dcs.map (·.idx)) ⊆ (((List.range r.names.length).map (· + 1)).erase (i + 1)) := by
      intro x hx
      obtain ⟨d, h1, rfl⟩ := List.mem_map.mp hx
      obtain ⟨g1, g2⟩ := h.range h1
      have hne : d.idx ≠ i + 1 := fun he => hno ⟨d, h1, he⟩
      rw [List.mem_erase_of_ne hne]
      exact List.mem_map.mpr ⟨d.idx - 1, List.mem_range.mpr (by omega), by omega⟩
    have := List.Nodup.length_le_of_subset h.idx hsub
    rw [List.length_erase_of_mem (List.mem_map.mpr ⟨i, List.mem_range.mpr hi, rfl⟩)] at this
    simp only [List.length_map, List.length_range] at this
    omega
  have key : ∀ k m, k + m = r.names.length → ∃ ds, All (fun n d => d ∈ r.dcs ∧ d.name = n) (r.names.drop k) ds ∧ Chosen r.dcs ((List.range' k m).map fun i => UInt8.ofNat (i + 1)) ds := by
    intro k m
    induction m generalizing k with
    | zero =>
      intro hk
      rw [List.drop_of_length_le (by omega)]
      exact ⟨[], .nil, .nil⟩
    | succ m ih =>
      intro hk
      obtain ⟨ds, h1, h2⟩ := ih (k + 1) (by omega)
      obtain ⟨d, d1, d2⟩ := hall k (by omega)
      obtain ⟨i, e1, e2, _⟩ := h.number d d1
      have : i = k := by omega
      subst this
      obtain ⟨e3, e4⟩ := List.getElem?_eq_some_iff.mp e2
      refine ⟨d :: ds, ?_, ?_⟩
      · rw [List.drop_eq_getElem_cons e3]
        exact .cons ⟨d1, e4.symm⟩ h1
      · rw [List.range'_succ, List.map_cons]
        refine .take d1 ?_ h2
        rw [d2, UInt8.toNat_ofNat']
        omega
  obtain ⟨ds, h1, h2⟩ := key 0 r.names.length (by omega)
  rw [List.drop_zero] at h1
  rw [List.range_eq_range']
  exact ⟨ds, h1, h2⟩

/-- From the configuration to the answers of `metafo`: whatever else asks for monitoring before or after, each resource answers
with the first of its datacenters, in the order of `datacenters`, that is up; the states are those of the names for their service
types, or what the resources say that the datacenters refer to, unless the administrator set another; and the resource can itself
be what a datacenter refers to.

Missing: more than 255 datacenters, see `C57_false`. -/
theorem C98_metafo_partial {lib : Lib} {config tops tops' : List (Entry Val)} {rs : List Resource} (hc : Clean (.hash config)) (hz : WholeKeys (.hash config))
    (hload : load lib metafo config tops = .ok (some (rs, tops')))
    {text : Addr → Option Bytes} {st : Bool} {cfg : Option Val} {ces : List (Entry Val)} (he : Entries cfg ces) (hcc : ∀ v, cfg = some v → Clean v) (hp : ∀ e ∈ ces, Plain e)
    {pre post : List Req} {b : Boot} (hb : boot text st cfg (pre ++ (rs.flatMap (Resource.reqs (nm "metafo")) ++ post)) = .ok (some b))
    {tbl : List UInt32} (ht : tbl.length = b.regs.length) (hv : ∀ s ∈ tbl, Mon.Valid s) :
    ∃ (f : States) (G : Nat → Bytes → UInt32), Published tbl (pre ++ (rs.flatMap (Resource.reqs (nm "metafo")) ++ post)) b.indices f ∧
    ∀ (j : Nat) r, rs[j]? = some r → r.names.length ≤ 255 →
      let is := b.indices.drop (pre.length + ((rs.take j).flatMap (Resource.reqs (nm "metafo"))).length)
      Administered (nm "metafo") tbl is r (G j) ∧
      ∃ ds, All (fun n d => d ∈ r.dcs ∧ d.name = n) r.names ds ∧
      ∀ (resolve : Bytes → Option Bytes → Plug.Resolver) (sub : Bytes → Option Bytes → Bool × Nat) (res : Plug.Result),
        (∀ d ∈ r.dcs, ∀ p n, d.target = .res p n → Plug.Healthy (resolve p n) (sub p n).1 (sub p n).2) →
        Answered resolve (stateOf f sub (G j) fun _ => none) r.skip ds 0 res (Plug.metaResolve tbl (r.numbered (nm "metafo") resolve (fun _ => none) is) 0 (Plug.metafoList r.names.length, 0) res) ∧
        ∃ dn t, Plug.Healthy (Plug.metaResolve tbl (r.numbered (nm "metafo") resolve (fun _ => none) is) 0 (Plug.metafoList r.names.length, 0)) dn t := by
  have hlo := (C97_metafo lib config tops hc hz rs tops').mp hload
  obtain ⟨f, G, h1, h2⟩ := meta_all hc hz hlo he hcc hp hb ht hv
  refine ⟨f, G, h1, fun j r hj hl => ?_⟩
  obtain ⟨hs, ha, h3⟩ := h2 j r hj hl
  obtain ⟨_, undef, v, hu, hlen⟩ := loads_sane hc hz hlo r (List.mem_of_getElem? hj)
  have hlen := hlen hu.1
  obtain ⟨ds, e1, e2⟩ := all_named hs hlen hl
  refine ⟨ha, ds, e1, fun resolve sub res hr => ?_⟩
  have hst : ∀ ds : Bytes, Plug.startList 0 ds = ds := fun _ => rfl
  have := h3 (fun _ => none) resolve sub 0 ((List.range r.names.length).map fun i => UInt8.ofNat (i + 1)) [] 0 res ds nofun hr (by
    intro n hn
    rw [hst] at hn
    obtain ⟨i, g1, rfl⟩ := List.mem_map.mp hn
    have := List.mem_range.mp g1
    have hto : (UInt8.ofNat (i + 1)).toNat = i + 1 := by rw [UInt8.toNat_ofNat']; omega
    refine ⟨fun h0 => ?_, by omega⟩
    rw [h0] at hto
    simp at hto) (.inr hlen) e2
  exact this

/-- From the configuration to the answers of `geoip`: for every list of datacenters that a map has for a client (or for the one
datacenter that a synthesized name asks for), the answer is that of the first that is up among those that the resource has. The
administrator may also have set the state of a datacenter for the whole map. -/
theorem C98_geoip {lib : Lib} {gdmaps : List (Entry Val) → Option (List (Bytes × List Bytes))} {config tops tops' : List (Entry Val)} {rs : List Resource} (hc : Clean (.hash config)) (hz : WholeKeys (.hash config))
    (hload : load lib (geoip gdmaps) config tops = .ok (some (rs, tops')))
    {text : Addr → Option Bytes} {st : Bool} {cfg : Option Val} {ces : List (Entry Val)} (he : Entries cfg ces) (hcc : ∀ v, cfg = some v → Clean v) (hp : ∀ e ∈ ces, Plain e)
    {pre post : List Req} {b : Boot} (hb : boot text st cfg (pre ++ (rs.flatMap (Resource.reqs (nm "geoip")) ++ post)) = .ok (some b))
    {tbl : List UInt32} (ht : tbl.length = b.regs.length) (hv : ∀ s ∈ tbl, Mon.Valid s) :
    ∃ (f : States) (G : Nat → Bytes → UInt32), Published tbl (pre ++ (rs.flatMap (Resource.reqs (nm "geoip")) ++ post)) b.indices f ∧
    ∀ (j : Nat) r, rs[j]? = some r → r.names.length ≤ 254 →
      let is := b.indices.drop (pre.length + ((rs.take j).flatMap (Resource.reqs (nm "geoip"))).length)
      Administered (nm "geoip") tbl is r (G j) ∧
      ∀ (map : Nat → Option Nat) (resolve : Bytes → Option Bytes → Plug.Resolver) (sub : Bytes → Option Bytes → Bool × Nat) (synth : UInt8) (ns junk : Bytes) (scope : Nat) (res : Plug.Result) (ds : List Dc),
        (∀ n k, map n = some k → k < tbl.length) → (∀ d ∈ r.dcs, ∀ p n, d.target = .res p n → Plug.Healthy (resolve p n) (sub p n).1 (sub p n).2) →
        (synth ≠ 0 → synth.toNat ≤ r.names.length) → (∀ n ∈ ns, n ≠ 0 ∧ n.toNat ≤ r.names.length) → ns.Nodup →
        Chosen r.dcs (if synth ≠ 0 then [synth] else ns) ds →
        Answered resolve (stateOf f sub (G j) fun n => (map n).bind (tbl[·]?)) r.skip ds (if synth ≠ 0 then 0 else scope) res
            (Plug.metaResolve tbl (r.numbered (nm "geoip") resolve map is) synth (ns ++ 0 :: junk, scope) res) ∧
        ∃ dn t, Plug.Healthy (Plug.metaResolve tbl (r.numbered (nm "geoip") resolve map is) synth (ns ++ 0 :: junk, scope)) dn t := by
  have hlo := (C97_geoip lib gdmaps config tops hc hz rs tops').mp hload
  obtain ⟨f, G, h1, h2⟩ := meta_all (p := MetaSpec.geoip gdmaps) hc hz hlo he hcc hp hb ht hv
  refine ⟨f, G, h1, fun j r hj hl => ?_⟩
  obtain ⟨hs, ha, h3⟩ := h2 j r hj (by omega)
  refine ⟨ha, ?_⟩
  intro map resolve sub synth ns junk scope res ds hm hr hsy hns hnd hch
  have hlen : ns.length ≤ 254 := by
    have := List.Nodup.length_le_of_subset (l₁ := ns.map UInt8.toNat) (l₂ := (List.range r.names.length).map (· + 1)) (by
      rw [List.nodup_iff_pairwise_ne, List.pairwise_map]
      exact hnd.imp fun h he => h (UInt8.toNat_inj.mp he)) (by
      intro x hx
      obtain ⟨n, g1, rfl⟩ := List.mem_map.mp hx
      obtain ⟨g2, g3⟩ := hns n g1
      have : n.toNat ≠ 0 := fun h => g2 (UInt8.toNat_inj.mp h)
      exact List.mem_map.mpr ⟨n.toNat - 1, List.mem_range.mpr (by omega), by omega⟩)
    simp only [List.length_map, List.length_range] at this
    omega
  refine h3 map resolve sub synth ns junk scope res ds hm hr ?_ ?_ hch
  · unfold Plug.startList
    split
    · rename_i h
      intro n hn
      simp only [List.mem_cons, List.not_mem_nil, or_false] at hn
      subst hn
      exact ⟨h, hsy h⟩
    · exact hns
  · left
    unfold Plug.startList
    split
    · simp
    · exact hlen

/-! ### Concrete cases -/

/-- `service_types => { web => { plugin => extfile, file => states } }`. -/
def exTypes : List (Entry Val) := [Res.ent "web" (.hash [Res.ent "plugin" (Res.txt "extfile"), Res.ent "file" (Res.txt "states")])]

theorem exTypes_clean : Clean (.hash exTypes) := .hash (by decide) (.cons (.hash (by decide) (.cons .simple (.cons .simple .nil))) .nil)

theorem exTypes_plain : ∀ e ∈ exTypes, Plain e := by
  intro e he name es
  rw [List.mem_singleton.mp he]
  constructor
  · intro h v hv
    cases h
    have hf := (is_iff (by decide)).mp hv
    cases hf
  · intro h v hv
    cases h
    have hf := (is_iff (by decide)).mp hv
    cases hf

theorem exMeta_boot : ∃ b, boot (fun a => some a.bytes) false (some (.hash exTypes)) ([.admin (str "dc")] ++ (exResources.flatMap (Resource.reqs (nm "metafo")) ++ [])) = .ok (some b) ∧
    b.indices = [0, 1, 2, 3, 4, 5, 6] ∧ b.regs.length = 7 :=
  ⟨_, by with_unfolding_all rfl, by decide +kernel, by decide +kernel⟩

/-- A resource of `weighted` that is down, any other is up. -/
def exResolve (p : Bytes) (_ : Option Bytes) (r : Plug.Result) : Outcome (UInt32 × Plug.Result) :=
  .ok (if p = str "weighted" then 0x8000003C else 300, { r with v4 := [1] })

/-- The administrator forced `metafo/www/us` down with a TTL of 10. -/
def exTbl : List UInt32 := [1, 0xC000000A, 7, 7, 7, 7, 7]

/-- What it says: datacenter "us" was set to down, "eu" is down, and "as" is a name that is up. -/
example : ∃ (f : States) (g : Bytes → UInt32), f (str "web") (.cname (str "www.example.") [13, 3, 119, 119, 119, 7, 101, 120, 97, 109, 112, 108, 101, 0]) = 7 ∧ g (str "us") = 0xC000000A ∧
    ∃ ds, All (fun n d => d ∈ (exResources.head (by decide)).dcs ∧ d.name = n) [str "us", str "eu", str "as"] ds ∧
      Answered exResolve (stateOf f (fun p _ => if p = str "weighted" then (true, 60) else (false, 300)) g fun _ => none) false ds 0 {}
        (Plug.metaResolve exTbl ((exResources.head (by decide)).numbered (nm "metafo") exResolve (fun _ => none) [1, 2, 3, 4, 5, 6]) 0 (Plug.metafoList 3, 0) {}) := by
  obtain ⟨b, hb, hi, hl⟩ := exMeta_boot
  obtain ⟨f, G, h1, h2⟩ := C98_metafo_partial exMeta_clean exMeta_whole exMeta_load (.inr rfl) (fun v hv => by cases hv; exact exTypes_clean) exTypes_plain hb
    (tbl := exTbl) (by rw [hl]; rfl) (by decide)
  obtain ⟨h3, ds, h4, h5⟩ := h2 0 _ rfl (by decide)
  rw [hi] at h3 h5
  refine ⟨f, G 0, ?_, ?_, ds, h4, (h5 exResolve (fun p _ => if p = str "weighted" then (true, 60) else (false, 300)) {} ?_).1⟩
  · obtain ⟨k, e4, e5⟩ := h1 4 (str "web") (.cname (str "www.example.") [13, 3, 119, 119, 119, 7, 101, 120, 97, 109, 112, 108, 101, 0]) (by decide +kernel)
    rw [hi] at e4
    cases e4
    exact (Option.some.inj e5).symm
  · obtain ⟨k, _, e4, e5⟩ := h3 0 _ rfl
    cases e4
    exact (Option.some.inj e5).symm
  · intro d _ p n _ k
    refine ⟨_, _, rfl, ?_⟩
    by_cases hp : p = str "weighted"
    · simp only [hp, if_true]
      decide
    · simp only [hp, if_false]
      decide

/-- The same, computed. -/
example : Plug.metaResolve exTbl ((exResources.head (by decide)).numbered (nm "metafo") exResolve (fun _ => none) [1, 2, 3, 4, 5, 6]) 0 (Plug.metafoList 3, 0) {} =
    .ok (0x40000007, { cname := some [13, 3, 119, 119, 119, 7, 101, 120, 97, 109, 112, 108, 101, 0] }) := by decide +kernel

end Gdnsd.Meta
