import Verif.Load.AllLemmas
import Verif.Load.DataLemmas
/-
What a loaded zone answers with is what its file says.
-/
namespace Gdnsd.Load
open Enc Tree TreeSpec DnameSpec EncSpec LookupSpec LoadSpec

theorem NameOf_iff {f : File} {zn : List Bytes} : NameOf f zn ↔ NamesZone f.name zn := by
  unfold NameOf NamesZone zoneName fileText ZoneText
  have hm : f.name.map (fun c => bif c == 64 then (47 : UInt8) else c) = f.name.map fun c => if c = 64 then 47 else c := by
    refine List.map_congr_left fun c _ => ?_
    by_cases h : c = 64
    · rw [if_pos h, beq_iff_eq.mpr h]; rfl
    · rw [if_neg h, beq_eq_false_iff_ne.mpr h]; rfl
  by_cases hl : 1004 < f.name.length
  · rw [decide_eq_true hl]
    constructor
    · rintro ⟨t, h, -⟩; cases h
    · rintro ⟨h, -⟩; omega
  · rw [decide_eq_false hl, cond_false]
    by_cases hr : f.name = [82, 79, 79, 84, 95, 90, 79, 78, 69]
    · rw [decide_eq_true hr, cond_true, if_pos hr]
      constructor
      · rintro ⟨t, h, h2⟩; cases h; exact ⟨by omega, h2⟩
      · rintro ⟨-, h2⟩; exact ⟨_, rfl, h2⟩
    · rw [decide_eq_false hr, cond_false, if_neg hr, hm]
      constructor
      · rintro ⟨t, h, h2⟩; cases h; exact ⟨by omega, h2⟩
      · rintro ⟨-, h2⟩; exact ⟨_, rfl, h2⟩

/-- The TTL of plugin data. -/
theorem dynTtl_eq {cfg : Cfg} (hg : cfg.ttls.accepted = true) (ttl m : UInt32) (d : DynRes) :
    dynTtl d (Ttl.dynTtls cfg.ttls ttl m).1 (Ttl.dynTtls cfg.ttls ttl m).2 = dynTtlOf cfg.ttls ttl m (Mon.ttl d.sttl) := by
  have hc := Ttl.clampTtl_toNat cfg.ttls hg ttl
  have hmin : (Ttl.dynTtls cfg.ttls ttl m).2.toNat =
      min (Ttl.clampTtl cfg.ttls ttl).toNat (max cfg.ttls.minTtl.toNat m.toNat) := by
    simp only [Ttl.dynTtls, GT.gt, UInt32.lt_iff_toNat_lt]
    split <;> split <;> omega
  have hmax : ttlVal (Ttl.dynTtls cfg.ttls ttl m).1 = (Ttl.clampTtl cfg.ttls ttl).toNat := ttlVal_bswap _
  unfold dynTtl dynTtlOf
  rw [hmin, hmax, hc]
  generalize Ttl.Spec.clamp cfg.ttls.minTtl.toNat cfg.ttls.maxTtl.toNat ttl.toNat = hi
  generalize Mon.ttl d.sttl = s
  generalize max cfg.ttls.minTtl.toNat m.toNat = k
  unfold Ttl.Spec.clamp
  simp only []
  split <;> omega

theorem filter_getType {rrs : List RRset} (hn : (rrs.map RRset.type).Nodup) (t : Nat) :
    (rrs.filter fun r => r.type == t) = (getType rrs t).toList := by
  unfold getType
  induction rrs with
  | nil => rfl
  | cons r rest ih =>
    rw [List.map_cons, List.nodup_cons] at hn
    by_cases ht : r.type = t
    · have hb : (r.type == t) = true := beq_iff_eq.mpr ht
      have : (rest.filter fun r => r.type == t) = [] := by
        rw [List.filter_eq_nil_iff]
        intro x hx e
        exact hn.1 (List.mem_map.mpr ⟨x, hx, (beq_iff_eq.mp e).trans ht.symm⟩)
      rw [List.filter_cons_of_pos (p := fun r : RRset => r.type == t) hb, this, List.find?_cons_of_pos (p := fun r : RRset => r.type == t) hb]
      rfl
    · have hb : ¬ (r.type == t) = true := fun e => ht (beq_iff_eq.mp e)
      rw [List.filter_cons_of_neg (p := fun r : RRset => r.type == t) hb, List.find?_cons_of_neg (p := fun r : RRset => r.type == t) hb]
      exact ih hn.2

/-- Sets that start with plugin data have one record. -/
theorem foldlM_lone {cfg : Cfg} {origin : Bytes} {t : Nat} {r : Add} {l : List Add} {b : Body} (hd : isDyn (bodyOf cfg origin t r) = true)
    (h : l.foldlM (fun b x => append b (bodyOf cfg origin t x)) (bodyOf cfg origin t r) = some b) : l = [] := by
  cases l with
  | nil => rfl
  | cons x l =>
    rw [List.foldlM_cons] at h
    cases ha : append (bodyOf cfg origin t r) (bodyOf cfg origin t x) with
    | none => rw [ha] at h; cases h
    | some b' =>
      generalize bodyOf cfg origin t r = bb at ha hd
      generalize bodyOf cfg origin t x = bc at ha
      cases append_iff.mp ha <;> cases hd

theorem foldlM_dync {cfg : Cfg} {origin : Bytes} {t : Nat} {r : Add} {l : List Add} {b : Body} {res : Nat} {m : UInt32}
    (hd : bodyOf cfg origin t r = .dync res m)
    (h : l.foldlM (fun b x => append b (bodyOf cfg origin t x)) (bodyOf cfg origin t r) = some b) : l = [] := by
  cases l with
  | nil => rfl
  | cons x l =>
    rw [List.foldlM_cons, hd] at h
    cases ha : append (.dync res m) (bodyOf cfg origin t x) with
    | none => rw [ha] at h; cases h
    | some b' =>
      generalize bodyOf cfg origin t x = bc at ha
      have := append_iff.mp ha
      cases this

theorem foldlM_cname {cfg : Cfg} {origin : Bytes} {t : Nat} {r : Add} {l : List Add} {b : Body} {d : Bytes}
    (hd : bodyOf cfg origin t r = .cname d)
    (h : l.foldlM (fun b x => append b (bodyOf cfg origin t x)) (bodyOf cfg origin t r) = some b) : l = [] := by
  cases l with
  | nil => rfl
  | cons x l =>
    rw [List.foldlM_cons, hd] at h
    cases ha : append (.cname d) (bodyOf cfg origin t x) with
    | none => rw [ha] at h; cases h
    | some b' =>
      generalize bodyOf cfg origin t x = bc at ha
      have := append_iff.mp ha
      cases this

/-- Records of reserved types are what they say. -/
theorem typed {cfg : Cfg} {zone : List Bytes} {l : List Add} {z : Zone} (h : Zoned cfg zone l z) {r : Add} (hr : r ∈ l) {t : Nat}
    (hng : noGeneric t = true) (ht : hasType t r.data = true) : ∀ u rd, r.data ≠ .raw u rd := by
  intro u rd e
  have hres := h.inv.res r hr
  unfold ResOk at hres
  rw [e] at hres ht
  have ht : _ = _ := beq_iff_eq.mp ht
  have hres : noGeneric _ = false := hres
  rw [← ht, hng] at hres
  cases hres

theorem recsAt_mem {l : List Add} {x : List Bytes} {t : Nat} {r : Add} (h : r ∈ recsAt l x t) : r ∈ l := (List.mem_filter.mp h).1

theorem cname_rec {cfg : Cfg} {zone : List Bytes} {l : List Add} {z : Zone} (h : Zoned cfg zone l z) {x : List Bytes} {r : Add}
    (hr : r ∈ recsAt l x 5) : ∃ d, r.data = .cname d := by
  have ht := recsAt_type hr
  have hn := typed h (recsAt_mem hr) (by rfl) ht
  cases hd : r.data <;> rw [hd] at ht <;> first
    | exact ⟨_, rfl⟩
    | (cases ht; done)
    | exact absurd hd (hn _ _)

theorem dync_rec {cfg : Cfg} {zone : List Bytes} {l : List Add} {z : Zone} (h : Zoned cfg zone l z) {x : List Bytes} {r : Add}
    (hr : r ∈ recsAt l x 0xFF0F) : ∃ d m, r.data = .dync d m := by
  have ht := recsAt_type hr
  have hn := typed h (recsAt_mem hr) (by rfl) ht
  cases hd : r.data <;> rw [hd] at ht <;> first
    | exact ⟨_, _, rfl⟩
    | (cases ht; done)
    | exact absurd hd (hn _ _)

/-- The sets of a name that has passed. -/
theorem Loaded.kinds {cfg : Cfg} {zone : List Bytes} {l : List Add} {z : Zone} {root : Node} (h : Loaded cfg zone l z root)
    {x : List Bytes} {m : Node} (hm : nodeAt z.root x = some m) :
    (∃ ttl d, m.rrs = [⟨ttl, .cname d⟩]) ∨ (∃ ttl res k, m.rrs = [⟨ttl, .dync res k⟩]) ∨
    (∀ r ∈ m.rrs, (∀ d, r.body ≠ .cname d) ∧ ∀ a b, r.body ≠ .dync a b) := by
  obtain ⟨⟨d, hp, -⟩, -⟩ := h.phase hm
  exact Load.kinds (h.zoned.node hm) (phase1_parts hp).2.1

/-- No sets but those of the file's records. -/
theorem Zoned.getType {cfg : Cfg} {zone : List Bytes} {l : List Add} {z : Zone} (h : Zoned cfg zone l z) {x : List Bytes}
    (hx : ∀ y ∈ x, y ≠ []) {m : Node} (hm : nodeAt z.root x = some m) (t : Nat) :
    Tree.getType m.rrs t = setOf cfg z.dname t (recsAt l x t) ∧ (recsAt l x t = [] ↔ Tree.getType m.rrs t = none) := by
  obtain ⟨h1, h2⟩ := h.sets hx t
  rw [hm, Option.bind_some] at h1
  refine ⟨h1, ?_⟩
  rw [h1]
  constructor
  · intro e; rw [e]; rfl
  · intro e
    rcases Classical.em (recsAt l x t = []) with h | h
    · exact h
    · have := h2 h; rw [e] at this; cases this

/-- The alias at a name. -/
theorem alias_file {cfg : Cfg} (hg : cfg.ttls.accepted = true) (w : World) {zone : List Bytes} {l : List Add} {z : Zone} {root : Node}
    (h : Loaded cfg zone l z root) {x : List Bytes} (hx : ∀ y ∈ x, y ≠ []) {m : Node} (hm : nodeAt z.root x = some m) :
    aliasOf w (m.rrs.map (withGlue z)) = aliasIn cfg w.resolve zone l x ∧
    (recsAt l x 5 ≠ [] → ∃ ttl d, m.rrs = [⟨ttl, .cname d⟩]) ∧
    (∀ r rest, recsAt l x 0xFF0F = r :: rest → ∃ rhs k res, r.data = .dync rhs k ∧ cfg.resource rhs (some (encode zone true)) = some res ∧
      m.rrs = [⟨(Ttl.dynTtls cfg.ttls r.ttl k).1, .dync res (Ttl.dynTtls cfg.ttls r.ttl k).2⟩]) := by
  obtain ⟨g5, n5⟩ := h.zoned.getType hx hm 5
  obtain ⟨gf, nf⟩ := h.zoned.getType hx hm 0xFF0F
  rcases h.kinds hm with ⟨ttl, d, hr⟩ | ⟨ttl, res, k, hr⟩ | hr
  · rw [hr] at g5 n5 gf nf
    have e5 : Tree.getType [(⟨ttl, .cname d⟩ : RRset)] 5 = some ⟨ttl, .cname d⟩ := rfl
    have ef : Tree.getType [(⟨ttl, .cname d⟩ : RRset)] 0xFF0F = none := rfl
    rw [ef] at nf
    have nf := nf.mpr rfl
    cases hrec : recsAt l x 5 with
    | nil => rw [hrec, e5] at n5; cases n5.mp rfl
    | cons r rest =>
      obtain ⟨d', hd⟩ := cname_rec h.zoned (x := x) (r := r) (by rw [hrec]; exact List.mem_cons_self)
      rw [hrec, e5] at g5
      simp only [setOf] at g5
      have g5 := g5.symm
      rw [Option.map_eq_some_iff] at g5
      obtain ⟨b, hb, hb2⟩ := g5
      have hbody : bodyOf cfg z.dname 5 r = .cname d' := by unfold bodyOf; rw [hd]
      have := foldlM_cname hbody hb
      subst this
      rw [List.foldlM_nil, hbody] at hb
      cases hb
      cases hb2
      refine ⟨?_, fun _ => ⟨_, _, hr⟩, ?_⟩
      · rw [hr]
        unfold aliasIn
        rw [hrec]
        simp only [hd, List.map_cons, List.map_nil]
        rw [withGlue_of_not_ns (by simp)]
        simp only [aliasOf]
        rw [ttl0_of hg r (by rw [hd]; rfl)]
      · intro r' rest' e; rw [nf] at e; cases e
  · rw [hr] at g5 n5 gf nf
    have e5 : Tree.getType [(⟨ttl, .dync res k⟩ : RRset)] 5 = none := rfl
    have ef : Tree.getType [(⟨ttl, .dync res k⟩ : RRset)] 0xFF0F = some ⟨ttl, .dync res k⟩ := rfl
    rw [e5] at n5
    have n5 := n5.mpr rfl
    cases hrec : recsAt l x 0xFF0F with
    | nil => rw [hrec, ef] at nf; cases nf.mp rfl
    | cons r rest =>
      have hmem : r ∈ recsAt l x 0xFF0F := by rw [hrec]; exact List.mem_cons_self
      obtain ⟨rhs, k', hd⟩ := dync_rec h.zoned (x := x) (r := r) hmem
      have hres := h.zoned.inv.res r (recsAt_mem hmem)
      unfold ResOk at hres
      rw [hd] at hres
      obtain ⟨res', hres'⟩ := Option.isSome_iff_exists.mp hres
      rw [hrec, ef] at gf
      simp only [setOf] at gf
      have gf := gf.symm
      rw [Option.map_eq_some_iff] at gf
      obtain ⟨b, hb, hb2⟩ := gf
      have hbody : bodyOf cfg z.dname 0xFF0F r = .dync res' (Ttl.dynTtls cfg.ttls r.ttl k').2 := by
        unfold bodyOf; rw [hd]; simp only [hres', Option.getD_some]
      have := foldlM_dync hbody hb
      subst this
      rw [List.foldlM_nil, hbody] at hb
      cases hb
      have ht0 : ttl0 cfg r = (Ttl.dynTtls cfg.ttls r.ttl k').1 := by unfold ttl0; rw [hd]
      rw [ht0] at hb2
      cases hb2
      rw [h.zoned.dname] at hres'
      refine ⟨?_, fun e => absurd n5 e, ?_⟩
      · rw [hr]
        unfold aliasIn
        rw [n5, hrec]
        simp only [hd, List.map_cons, List.map_nil]
        rw [withGlue_of_not_ns (by simp)]
        simp only [aliasOf, hres', Option.bind_some, dynTtl_eq hg]
      · intro r' rest' e
        cases e
        exact ⟨rhs, k', _, hd, hres', hr⟩
  · have no5 : recsAt l x 5 = [] := by
      rw [n5, Tree.getType, List.find?_eq_none]
      intro r hr' e
      obtain ⟨d, hd⟩ := type5 ((h.zoned.node hm).ok r hr') (beq_iff_eq.mp e)
      exact (hr r hr').1 d hd
    have nof : recsAt l x 0xFF0F = [] := by
      rw [nf, Tree.getType, List.find?_eq_none]
      intro r hr' e
      obtain ⟨a, b, hd⟩ := typeDync ((h.zoned.node hm).ok r hr') (beq_iff_eq.mp e)
      exact (hr r hr').2 a b hd
    refine ⟨?_, fun e => absurd no5 e, fun r rest e => by rw [nof] at e; cases e⟩
    unfold aliasIn
    rw [no5, nof]
    simp only []
    have hr' : ∀ r ∈ m.rrs.map (withGlue z), (∀ d, r.body ≠ .cname d) ∧ ∀ a b, r.body ≠ .dync a b := by
      intro r hrm
      obtain ⟨s, hs, rfl⟩ := List.mem_map.mp hrm
      have hty := withGlue_type z s
      have ht5 : s.type ≠ 5 := fun e => by
        obtain ⟨d, hd⟩ := type5 ((h.zoned.node hm).ok s hs) e
        exact (hr s hs).1 d hd
      have htf : s.type ≠ 0xFF0F := fun e => by
        obtain ⟨a, b, hd⟩ := typeDync ((h.zoned.node hm).ok s hs) e
        exact (hr s hs).2 a b hd
      constructor
      · intro d e; apply ht5; rw [← hty]; unfold RRset.type; rw [e]; rfl
      · intro a b e; apply htf; rw [← hty]; unfold RRset.type; rw [e]; rfl
    generalize m.rrs.map (withGlue z) = rrs at hr'
    unfold aliasOf
    split
    · next ttl d => exact absurd rfl ((hr' _ List.mem_cons_self).1 d)
    · next ttl a b => exact absurd rfl ((hr' _ List.mem_cons_self).2 a b)
    · rfl

theorem typedRecs_of {w : World} {t : Nat} {q : List Bytes} {rrs : List RRset} (h : ∀ r ∈ rrs, ∀ a b, r.body ≠ .dync a b) :
    typedRecs w t q rrs = (rrs.filter fun r => r.type == t).flatMap (answerRecs w.resolve q) := by
  unfold typedRecs
  split
  · next ttl a b => exact absurd rfl (h _ List.mem_cons_self a b)
  · rfl

theorem filter_withGlue (z : Zone) (rrs : List RRset) (t : Nat) :
    ((rrs.map (withGlue z)).filter fun r => r.type == t) = (rrs.filter fun r => r.type == t).map (withGlue z) := by
  rw [List.filter_map]
  congr 1
  refine List.filter_congr fun r _ => ?_
  simp only [Function.comp, withGlue_type]

/-- The records of one type that a set of the file's records answers with. -/
theorem setOf_typed {cfg : Cfg} (hg : cfg.ttls.accepted = true) (resolve : Nat → DynRes) (q : List Bytes) {zone : List Bytes} {l : List Add}
    {z : Zone} (h : Zoned cfg zone l z) {x : List Bytes} {t : Nat} {r : Add} {rest : List Add} (hrec : recsAt l x t = r :: rest) {s : RRset}
    (hs : setOf cfg z.dname t (r :: rest) = some s) (ht : t ≠ 0xFF0F) :
    answerRecs resolve q s = match r.data with
      | .dyna rhs m => ((cfg.resource rhs none).map fun res =>
          dynRecs q t (dynTtlOf cfg.ttls r.ttl m (Mon.ttl (resolve res).sttl)) (resolve res)).getD []
      | _ => served cfg.ttls q t (r :: rest) := by
  have hmem : ∀ y ∈ r :: rest, hasType t y.data = true ∧ y ∈ l := by
    intro y hy; rw [← hrec] at hy; exact ⟨recsAt_type hy, recsAt_mem hy⟩
  by_cases hdy : ∃ rhs m, r.data = .dyna rhs m
  · obtain ⟨rhs, m, hd⟩ := hdy
    rw [hd]
    simp only []
    obtain ⟨ht1, hl1⟩ := hmem r List.mem_cons_self
    have hres := h.inv.res r hl1
    unfold ResOk at hres
    rw [hd] at hres ht1
    obtain ⟨res, hres⟩ := Option.isSome_iff_exists.mp hres
    have ht12 : t = 1 ∨ t = 28 := by
      simp only [hasType, Bool.or_eq_true, beq_iff_eq] at ht1; exact ht1
    simp only [setOf, Option.map_eq_some_iff] at hs
    obtain ⟨b, hb, rfl⟩ := hs
    have ht0 : ttl0 cfg r = (Ttl.dynTtls cfg.ttls r.ttl m).1 := by unfold ttl0; rw [hd]
    have hlone : isDyn (bodyOf cfg z.dname t r) = true := by
      unfold bodyOf; rw [hd]; simp only []; split <;> rfl
    have := foldlM_lone hlone hb
    subst this
    rw [List.foldlM_nil] at hb
    cases hb
    rw [ht0]
    unfold bodyOf
    rw [hd, hres]
    simp only [Option.getD_some, Option.map_some]
    rcases ht12 with rfl | rfl
    · simp only [if_true, answerRecs, dynRecs, dynTtl_eq hg, hres, Option.getD_some]
    · simp only [show ¬ (28 : Nat) = 1 by decide, if_false, if_true, answerRecs, dynRecs, dynTtl_eq hg, hres, Option.getD_some]
  · have hst : ∀ y ∈ r :: rest, isStatic y.data = true := by
      by_cases ht12 : t = 1 ∨ t = 28
      · refine setOf_static ht12 (fun y hy => (hmem y hy).1) hs ?_
        simp only [setOf, Option.map_eq_some_iff] at hs
        obtain ⟨b, hb, rfl⟩ := hs
        have hr0 : isDyn (bodyOf cfg z.dname t r) = false := by
          unfold bodyOf
          cases hd : r.data <;> first
            | rfl
            | exact absurd ⟨_, _, hd⟩ hdy
        have key : ∀ (l : List Add) (b c : Body), isDyn b = false → l.foldlM (fun b x => append b (bodyOf cfg z.dname t x)) b = some c →
            isDyn c = false := by
          intro l
          induction l with
          | nil => intro b c h1 h2; cases h2; exact h1
          | cons y l ih =>
            intro b c h1 h2
            rw [List.foldlM_cons] at h2
            cases ha : append b (bodyOf cfg z.dname t y) with
            | none => rw [ha] at h2; cases h2
            | some b' =>
              rw [ha] at h2
              refine ih b' c ?_ h2
              generalize bodyOf cfg z.dname t y = bc at ha
              cases append_iff.mp ha <;> rfl
        exact key _ _ _ hr0 hb
      · intro y hy
        have hty := (hmem y hy).1
        cases hd : y.data <;> rw [hd] at hty <;> first
          | rfl
          | (simp only [hasType, Bool.or_eq_true, beq_iff_eq] at hty; omega)
    rw [setOf_answer hg resolve q z.dname (fun y hy => ⟨(hmem y hy).1, hst y hy⟩) hs]
    split
    · next rhs m hd => exact absurd ⟨rhs, m, hd⟩ hdy
    · rfl

/-- What a name answers with. -/
theorem ownRecs_file {cfg : Cfg} (hg : cfg.ttls.accepted = true) (w : World) {zone : List Bytes} {l : List Add} {z : Zone} {root : Node}
    (h : Loaded cfg zone l z root) {x : List Bytes} (hx : ∀ y ∈ x, y ≠ []) {m : Node} (hm : nodeAt z.root x = some m) (t : Nat) (q : List Bytes) :
    ownRecs w t q (m.rrs.map (withGlue z)) = nameRecs cfg w.resolve zone l x q t := by
  obtain ⟨ha, h5, hf⟩ := alias_file hg w h hx hm
  unfold ownRecs nameRecs
  rw [ha]
  cases hal : aliasIn cfg w.resolve zone l x with
  | some a => rfl
  | none =>
    simp only []
    split
    · rfl
    unfold typedIn
    cases hrec : recsAt l x 0xFF0F with
    | cons r rest =>
      obtain ⟨rhs, k, res, hd, hres, hm'⟩ := hf r rest hrec
      rw [hm']
      simp only [hd, hres, Option.map_some, Option.getD_some, List.map_cons, List.map_nil]
      rw [withGlue_of_not_ns (by simp)]
      simp only [typedRecs, dynRecs, dynTtl_eq hg]
    | nil =>
      simp only []
      have hno : ∀ r ∈ m.rrs, ∀ a b, r.body ≠ .dync a b := by
        intro r hr a b e
        have := (h.zoned.getType hx hm 0xFF0F).2.mp hrec
        rw [Tree.getType, List.find?_eq_none] at this
        exact this r hr (by unfold RRset.type; rw [e]; rfl)
      have hno' : ∀ r ∈ m.rrs.map (withGlue z), ∀ a b, r.body ≠ .dync a b := by
        intro r hr a b e
        obtain ⟨s, hs, rfl⟩ := List.mem_map.mp hr
        have ht : (withGlue z s).type = 0xFF0F := by unfold RRset.type; rw [e]; rfl
        rw [withGlue_type] at ht
        obtain ⟨a, b, hd⟩ := typeDync ((h.zoned.node hm).ok s hs) ht
        exact hno s hs a b hd
      rw [typedRecs_of hno', filter_withGlue, filter_getType (h.zoned.node hm).types]
      obtain ⟨hgt, hn⟩ := h.zoned.getType hx hm t
      rw [hgt]
      cases hr : recsAt l x t with
      | nil => rfl
      | cons r rest =>
        simp only []
        rw [hr] at hgt hn
        cases hs : setOf cfg z.dname t (r :: rest) with
        | none => rw [hgt, hs] at hn; cases hn.mpr rfl
        | some s =>
          have htf : t ≠ 0xFF0F := by
            intro e; subst e; rw [hrec] at hr; cases hr
          simp only [Option.toList_some, List.map_cons, List.map_nil, List.flatMap_cons, List.flatMap_nil, List.append_nil]
          rw [answer_withGlue, setOf_typed hg w.resolve q h.zoned hr hs htf]
          cases r.data <;> rfl

end Gdnsd.Load
