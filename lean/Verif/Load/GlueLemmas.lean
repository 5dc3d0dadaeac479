import Verif.Load.PostLemmas
/-
The data of every name of a zone that passed its post-processing is in order.
-/
namespace Gdnsd.Load
open Enc Tree TreeSpec DnameSpec EncSpec LookupSpec LoadSpec

theorem foldlM_dyn {cfg : Cfg} {origin : Bytes} {t : Nat} (l : List Add) : ∀ (b c : Body),
    l.foldlM (fun b x => append b (bodyOf cfg origin t x)) b = some c → isDyn c = true → l = [] ∧ c = b := by
  induction l with
  | nil => intro b c h _; cases h; exact ⟨rfl, rfl⟩
  | cons x l ih =>
    intro b c h hd
    rw [List.foldlM_cons] at h
    cases ha : append b (bodyOf cfg origin t x) with
    | none => rw [ha] at h; cases h
    | some b' =>
      rw [ha] at h
      obtain ⟨-, e⟩ := ih b' c h hd
      rw [e, append_nodyn ha] at hd
      cases hd

theorem setOf_dyn {cfg : Cfg} {origin : Bytes} {t : Nat} {l : List Add} {s : RRset} (h : setOf cfg origin t l = some s)
    (hd : isDyn s.body = true) : ∃ r, l = [r] ∧ isDyn (bodyOf cfg origin t r) = true := by
  cases l with
  | nil => cases h
  | cons r l =>
    simp only [setOf, Option.map_eq_some_iff] at h
    obtain ⟨b, hb, rfl⟩ := h
    obtain ⟨h1, h2⟩ := foldlM_dyn l _ _ hb hd
    subst h1
    exact ⟨r, rfl, by rw [← h2]; exact hd⟩

theorem Zoned.setOk {cfg : Cfg} {zone : List Bytes} {l : List Add} {z : Zone} (h : Zoned cfg zone l z) {x : List Bytes}
    (hx : ∀ y ∈ x, y ≠ []) {t : Nat} {r : RRset} (hr : setOf cfg z.dname t (recsAt l x t) = some r) : SetOk cfg r ∧ r.type = t := by
  rw [← (h.sets hx t).1] at hr
  cases hn : nodeAt z.root x with
  | none => rw [hn] at hr; cases hr
  | some n =>
    rw [hn] at hr
    obtain ⟨a, b⟩ := getType_some hr
    exact ⟨(h.node hn).ok r a, b⟩

theorem Zoned.oozOk {cfg : Cfg} {zone : List Bytes} {l : List Add} {z : Zone} (h : Zoned cfg zone l z) {q : List Bytes}
    (hq : WF q) {t : Nat} {r : RRset} (hr : setOf cfg z.dname t (oozAt l q t) = some r) :
    SetOk cfg r ∧ r.type = t ∧ isDyn r.body = false := by
  have hr0 := hr
  rw [← (h.ooz hq t).1] at hr
  cases hf : z.root.find oozLabel with
  | none => rw [hf] at hr; cases hr
  | some o =>
    rw [hf, Option.bind_some] at hr
    cases hn : o.find ((encode q true).drop 1) with
    | none => rw [hn] at hr; cases hr
    | some n =>
      rw [hn] at hr
      obtain ⟨a, b⟩ := getType_some hr
      have hat : nodeAt z.root [(encode q true).drop 1, oozLabel] = some n := by
        unfold nodeAt
        rw [show [(encode q true).drop 1, oozLabel].reverse = [oozLabel, (encode q true).drop 1] from rfl]
        simp only [follow, hf, Option.bind_some, hn]
      refine ⟨(h.node hat).ok r a, b, ?_⟩
      cases hd : isDyn r.body with
      | false => rfl
      | true =>
        obtain ⟨s, hs, hsd⟩ := setOf_dyn hr0 hd
        have hm : s ∈ oozAt l q t := by rw [hs]; exact List.mem_cons_self
        have := (List.mem_filter.mp hm).2
        simp only [Bool.and_eq_true] at this
        have hz := this.1
        unfold bodyOf at hsd
        cases hdd : s.data <;> rw [hdd] at hz hsd <;> cases hz <;> cases hsd

/-- Address sets become usable glue. -/
theorem glueOf_ok {cfg : Cfg} {r : Option RRset} {g : Option Glue} (n t : Nat) (hnt : (n = 4 ∧ t = 1) ∨ (n = 16 ∧ t = 28))
    (hs : ∀ x, r = some x → SetOk cfg x ∧ x.type = t ∧ isDyn x.body = false) (hg : glueOf r = .ok g) :
    GlueOk n g ∧ g = r.bind toGlue ∧ (r.isSome = true → g.isSome = true) := by
  cases r with
  | none => cases hg; exact ⟨trivial, rfl, fun h => h⟩
  | some x =>
    obtain ⟨ttl, b⟩ := x
    obtain ⟨h1, h2, h3⟩ := hs _ rfl
    have h2 : b.type = t := h2
    cases b with
    | a l =>
      cases hg
      rcases hnt with ⟨rfl, rfl⟩ | ⟨rfl, rfl⟩
      · exact ⟨h1, rfl, fun _ => rfl⟩
      · simp [Body.type] at h2
    | aaaa l =>
      cases hg
      rcases hnt with ⟨rfl, rfl⟩ | ⟨rfl, rfl⟩
      · simp [Body.type] at h2
      · exact ⟨h1, rfl, fun _ => rfl⟩
    | dynA res m => cases h3
    | dynAAAA res m => cases h3
    | _ => cases hg

theorem noCount_dyn {r : Option RRset} (h : noCount r = false) {x : RRset} (hx : r = some x) : isDyn x.body = false := by
  subst hx
  obtain ⟨ttl, b⟩ := x
  cases b <;> first | rfl | (cases h; done)

/-- What the glue of a nameserver is. -/
inductive GlueFor (cfg : Cfg) (zone : List Bytes) (l : List Add) (z : Zone) (q : List Bytes) : Option Glue → Option Glue → Prop
  | auth (x) : q = x ++ zone → (∀ s, s ≠ [] → s <:+ x → ¬ IsCut z.root s) → GlueFor cfg zone l z q none none
  | below (x s) : q = x ++ zone → s ≠ [] → s <:+ x → IsCut z.root s → (recsAt l x 1 ≠ [] ∨ recsAt l x 28 ≠ []) →
      (∀ t r, t = 1 ∨ t = 28 → setOf cfg z.dname t (recsAt l x t) = some r → isDyn r.body = false) →
      GlueFor cfg zone l z q ((setOf cfg z.dname 1 (recsAt l x 1)).bind toGlue) ((setOf cfg z.dname 28 (recsAt l x 28)).bind toGlue)
  | outside : ¬ zone <:+ q →
      GlueFor cfg zone l z q ((setOf cfg z.dname 1 (oozAt l q 1)).bind toGlue) ((setOf cfg z.dname 28 (oozAt l q 28)).bind toGlue)

theorem procNs_spec {cfg : Cfg} {zone : List Bytes} {l : List Add} {z : Zone} (h : Zoned cfg zone l z) {q : List Bytes} (hq : WF q)
    {g : Option Glue × Option Glue} (hp : procNs z (encode q true) = .ok (some g)) :
    GlueFor cfg zone l z q g.1 g.2 ∧ GlueOk 4 g.1 ∧ GlueOk 16 g.2 := by
  rcases procNs_cases h hq hp with ⟨x, h1, h2, h3⟩ | ⟨x, s, h1, h2, h3, h4, h5, h6, h7, h8, h9⟩ | ⟨h1, h2, h3⟩
  · subst h3; exact ⟨.auth x h1 h2, trivial, trivial⟩
  · have hx : ∀ y ∈ x, y ≠ [] := by
      intro y hy e
      have := (hq.1 y (by rw [h1]; exact List.mem_append_left _ hy)).1
      rw [e] at this; exact absurd this (by decide)
    have k4 := glueOf_ok (cfg := cfg) 4 1 (.inl ⟨rfl, rfl⟩) (fun y hy => by
      obtain ⟨a, b⟩ := h.setOk hx hy
      exact ⟨a, b, noCount_dyn h8 hy⟩) h6
    have k6 := glueOf_ok (cfg := cfg) 16 28 (.inr ⟨rfl, rfl⟩) (fun y hy => by
      obtain ⟨a, b⟩ := h.setOk hx hy
      exact ⟨a, b, noCount_dyn h9 hy⟩) h7
    refine ⟨?_, k4.1, k6.1⟩
    rw [k4.2.1, k6.2.1]
    refine .below x s h1 h2 h3 h4 h5 ?_
    rintro t r (rfl | rfl) hr
    · exact noCount_dyn h8 hr
    · exact noCount_dyn h9 hr
  · have k4 := glueOf_ok (cfg := cfg) 4 1 (.inl ⟨rfl, rfl⟩) (fun y hy => h.oozOk hq hy) h2
    have k6 := glueOf_ok (cfg := cfg) 16 28 (.inr ⟨rfl, rfl⟩) (fun y hy => h.oozOk hq hy) h3
    refine ⟨?_, k4.1, k6.1⟩
    rw [k4.2.1, k6.2.1]
    exact .outside h1

theorem procNsList_spec {cfg : Cfg} {zone : List Bytes} {l : List Add} {z : Zone} (h : Zoned cfg zone l z) (ns : List NsRd) :
    ∀ ns', (∀ x ∈ ns, NameOk x.dname) → procNsList z ns = .ok (some ns') →
    ns'.map NsRd.dname = ns.map NsRd.dname ∧
      ∀ y ∈ ns', NameOk y.dname ∧ GlueOk 4 y.glue4 ∧ GlueOk 16 y.glue6 ∧ GlueFor cfg zone l z (labelsOf y.dname) y.glue4 y.glue6 := by
  induction ns with
  | nil => intro ns' _ hp; cases hp; exact ⟨rfl, by simp⟩
  | cons x r ih =>
    intro ns' hx hp
    rw [procNsList] at hp
    obtain ⟨g, h1, hp⟩ := andThen_some hp
    obtain ⟨r', h2, hp⟩ := andThen_some hp
    cases hp
    obtain ⟨i1, i2⟩ := ih r' (fun y hy => hx y (List.mem_cons_of_mem _ hy)) h2
    have hxn := hx x List.mem_cons_self
    obtain ⟨hw, he⟩ := NameOk_encode hxn
    rw [he] at h1
    obtain ⟨g1, g2, g3⟩ := procNs_spec h hw h1
    refine ⟨by simp [i1], ?_⟩
    intro y hy
    rcases List.mem_cons.mp hy with rfl | hy
    · exact ⟨hxn, g2, g3, g1⟩
    · exact i2 y hy

theorem withGlue_eq {z : Zone} {r r' : RRset} (h : procSet z r = .ok (some r')) : withGlue z r = r' := by
  unfold withGlue; rw [h]

theorem procSet_type {z : Zone} {r r' : RRset} (h : procSet z r = .ok (some r')) : r'.type = r.type ∧ r'.ttl = r.ttl := by
  unfold procSet at h
  split at h
  · next l hb =>
    obtain ⟨l', -, h⟩ := andThen_some h
    cases h
    constructor
    · unfold RRset.type; rw [hb]; rfl
    · rfl
  · cases h; exact ⟨rfl, rfl⟩

theorem withGlue_type (z : Zone) (r : RRset) : (withGlue z r).type = r.type := by
  unfold withGlue
  split
  · next r' h => exact (procSet_type h).1
  · rfl

theorem withGlue_of_not_ns {z : Zone} {r : RRset} (h : ∀ l, r.body ≠ .ns l) : withGlue z r = r := by
  apply withGlue_eq
  unfold procSet
  split
  · next l hl => exact absurd hl (h l)
  · rfl

/-- A set of ordinary data is usable once it has its glue. -/
theorem rrsetOk_of {cfg : Cfg} {resolve : Nat → DynRes} (hpl : PlugOk cfg resolve) {zone : List Bytes} {l : List Add} {z : Zone}
    (h : Zoned cfg zone l z) {r r' : RRset} (hs : SetOk cfg r) (hd : ∀ a b, r.body ≠ .dync a b)
    (hp : procSet z r = .ok (some r')) : RRsetOk resolve r' := by
  obtain ⟨ttl, b⟩ := r
  unfold procSet at hp
  cases b with
  | ns ns =>
    obtain ⟨ns', h1, h2⟩ := andThen_some (show andThen (procNsList z ns) _ = _ from hp)
    cases h2
    obtain ⟨s1, s2, s3⟩ := hs
    obtain ⟨i1, i2⟩ := procNsList_spec h ns ns' (fun x hx => (s3 x hx).1) h1
    have hlen : ns'.length = ns.length := by
      have := congrArg List.length i1
      simpa using this
    refine ⟨?_, by omega, fun y hy => ⟨(i2 y hy).1, (i2 y hy).2.1, (i2 y hy).2.2.1⟩⟩
    intro e
    rw [e] at hlen
    exact s1 (List.eq_nil_of_length_eq_zero hlen.symm)
  | dync a b => exact absurd rfl (hd a b)
  | a l => cases hp; exact hs
  | aaaa l => cases hp; exact hs
  | dynA res m =>
    cases hp
    obtain ⟨rhs, hr⟩ := hs
    exact (hpl.dyna rhs res hr).1
  | dynAAAA res m =>
    cases hp
    obtain ⟨rhs, hr⟩ := hs
    exact (hpl.dyna rhs res hr).1
  | soa m n t => cases hp; exact hs
  | cname d => cases hp; exact hs.1
  | ptr l => cases hp; exact hs
  | mx l => cases hp; exact hs
  | srv l => cases hp; exact hs
  | naptr l => cases hp; exact hs
  | txt l => cases hp; exact hs
  | raw t l => cases hp; exact hs.1

theorem type5 {cfg : Cfg} {r : RRset} (hs : SetOk cfg r) (h : r.type = 5) : ∃ d, r.body = .cname d := by
  obtain ⟨ttl, b⟩ := r
  cases b <;> first
    | exact ⟨_, rfl⟩
    | (simp [RRset.type, Body.type] at h; done)
    | (have h : _ = 5 := h; subst h; exact absurd (noGeneric_of hs.2).1 (by decide))

theorem typeDync {cfg : Cfg} {r : RRset} (hs : SetOk cfg r) (h : r.type = 0xFF0F) : ∃ a b, r.body = .dync a b := by
  obtain ⟨ttl, b⟩ := r
  cases b <;> first
    | exact ⟨_, _, rfl⟩
    | (simp [RRset.type, Body.type] at h; done)
    | (have h : _ = 0xFF0F := h; subst h; exact absurd (noGeneric_of hs.2).1 (by decide))

/-- The sets of a name that passed the checks, before glue: a lone CNAME, a lone DYNC, or
neither. -/
theorem kinds {cfg : Cfg} {origin : Bytes} {l : List Add} {rrs : List RRset} (h : NodeInv cfg origin l rrs)
    (hc : checkCname rrs = .ok (some ())) :
    (∃ ttl d, rrs = [⟨ttl, .cname d⟩]) ∨ (∃ ttl res m, rrs = [⟨ttl, .dync res m⟩]) ∨
    (∀ r ∈ rrs, (∀ d, r.body ≠ .cname d) ∧ ∀ a b, r.body ≠ .dync a b) := by
  cases rrs with
  | nil => exact .inr (.inr (by simp))
  | cons r rest =>
    by_cases h5 : r.type = 5
    · obtain ⟨d, hd⟩ := type5 (h.ok r List.mem_cons_self) h5
      have := checkCname_parts hc rfl (.inl h5)
      subst this
      exact .inl ⟨r.ttl, d, by rw [← hd]⟩
    · by_cases hf : r.type = 0xFF0F
      · obtain ⟨a, b, hd⟩ := typeDync (h.ok r List.mem_cons_self) hf
        have := checkCname_parts hc rfl (.inr hf)
        subst this
        exact .inr (.inl ⟨r.ttl, a, b, by rw [← hd]⟩)
      · refine .inr (.inr ?_)
        intro x hx
        have hty : x.type ≠ 5 ∧ x.type ≠ 0xFF0F := by
          rcases List.mem_cons.mp hx with rfl | hx
          · exact ⟨h5, hf⟩
          · exact h.tail x.type (by rw [List.map_cons, List.tail_cons]; exact List.mem_map.mpr ⟨x, hx, rfl⟩)
        constructor
        · intro d e; exact hty.1 (by unfold RRset.type; rw [e]; rfl)
        · intro a b e; exact hty.2 (by unfold RRset.type; rw [e]; rfl)

theorem cnameAt_of {n : Node} {ttl : UInt32} {d : Bytes} (h : n.rrs = [⟨ttl, .cname d⟩]) : cnameAt (some n) = some d := by
  unfold cnameAt; simp only [h]

theorem cnameAt_none {n : Node} (h : ∀ r ∈ n.rrs, ∀ d, r.body ≠ .cname d) : cnameAt (some n) = none := by
  unfold cnameAt
  split
  · rfl
  · next m hm =>
    cases hm
    split
    · next a d l hl => exact absurd rfl (h ⟨a, .cname d⟩ (by rw [hl]; exact List.mem_cons_self) d)
    · rfl

/-- The data of a name of a zone that passed. -/
theorem nodeOk_of {cfg : Cfg} {resolve : Nat → DynRes} (hpl : PlugOk cfg resolve) {zone : List Bytes} {l : List Add} {z : Zone}
    (h : Zoned cfg zone l z) {x : List Bytes} {n : Node} (hn : nodeAt z.root x = some n) {d : Bool}
    (hp : phase1 cfg z n x d = .ok (some ())) : NodeOk resolve (n.rrs.map (withGlue z)) := by
  have hinv := h.node hn
  obtain ⟨-, p2, p3, p4⟩ := phase1_parts hp
  rcases kinds hinv p2 with ⟨ttl, t, hr⟩ | ⟨ttl, res, m, hr⟩ | hk
  · refine .inr (.inl ⟨ttl, t, ?_, ?_⟩)
    · rw [hr, List.map_cons, List.map_nil, withGlue_of_not_ns (by simp)]
    · exact hinv.ok ⟨ttl, .cname t⟩ (by rw [hr]; exact List.mem_cons_self)
  · refine .inl ⟨ttl, res, m, ?_, ?_⟩
    · rw [hr, List.map_cons, List.map_nil, withGlue_of_not_ns (by simp)]
    · obtain ⟨rhs, o, hres⟩ := hinv.ok ⟨ttl, .dync res m⟩ (by rw [hr]; exact List.mem_cons_self)
      obtain ⟨a, b, c, d, -⟩ := hpl.dync rhs o res hres
      exact ⟨a, b, c, d⟩
  · refine .inr (.inr ⟨?_, ?_⟩)
    · rw [List.map_map, show (RRset.type ∘ withGlue z) = RRset.type from funext fun r => withGlue_type z r]
      exact hinv.types
    · intro r' hr'
      obtain ⟨r, hr, rfl⟩ := List.mem_map.mp hr'
      obtain ⟨m, hm, -⟩ := p4 (cnameAt_none (fun r hr => (hk r hr).1))
      obtain ⟨r', s, hps, -⟩ := (sizeLoop_parts _ _ _ hm).2 r hr
      have hso := hinv.ok r hr
      refine ⟨?_, ?_, ?_⟩
      · rw [withGlue_eq hps]; exact rrsetOk_of hpl h hso (hk r hr).2 hps
      · intro t e
        by_cases hns : ∃ l, r.body = .ns l
        · obtain ⟨l, hl⟩ := hns
          have := withGlue_type z r
          unfold RRset.type at this
          rw [e, hl] at this; cases this
        · rw [withGlue_of_not_ns (fun l e => hns ⟨l, e⟩)] at e
          exact (hk r hr).1 t e
      · intro t rl e
        by_cases hns : ∃ l, r.body = .ns l
        · obtain ⟨l, hl⟩ := hns
          unfold withGlue at e
          rw [hps] at e
          unfold procSet at hps
          rw [hl] at hps
          obtain ⟨l', -, hps⟩ := andThen_some hps
          cases hps
          cases e
        · rw [withGlue_of_not_ns (fun l e => hns ⟨l, e⟩)] at e
          unfold SetOk at hso
          rw [e] at hso
          obtain ⟨a, b⟩ := noGeneric_of hso.2
          intro hm
          simp only [List.mem_cons, List.not_mem_nil, or_false] at hm a
          omega

end Gdnsd.Load
