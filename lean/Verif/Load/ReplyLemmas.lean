import Verif.Load.FileLemmas
import Verif.Load.ReplySpec
/-
Replies from the tree are replies from the files.
-/
namespace Gdnsd.Load
open Enc hiding scopeOf
open Tree TreeSpec DnameSpec EncSpec LookupSpec LoadSpec

theorem labels_ne {x : List Bytes} (h : WF x) : ∀ y ∈ x, y ≠ [] := by
  intro y hy e
  have := (h.1 y hy).1
  rw [e] at this; exact absurd this (by decide)

theorem WF_left {x y : List Bytes} (h : WF (x ++ y)) : ∀ l ∈ x, l ≠ [] := fun l hl =>
  labels_ne h l (List.mem_append_left _ hl)

/-- The nodes of a zone are its names. -/
theorem Zoned.exists_iff {cfg : Cfg} {zone : List Bytes} {l : List Add} {z : Zone} (h : Zoned cfg zone l z) {x : List Bytes}
    (hx : ∀ y ∈ x, y ≠ []) : Present z.root x ↔ InZone l x := by
  have hp := h.inv.present x.reverse
  have e : (view z.root x.reverse).isSome = true ↔ Present z.root x := by
    unfold view Present nodeAt; simp
  rw [← e, hp]
  unfold InZone
  constructor
  · rintro (h1 | ⟨r, hr, h1⟩)
    · exact .inl (by simpa using h1)
    · cases hz : isOoz r.data with
      | false =>
        have : place r = (owner r).reverse := by unfold place; rw [hz]; rfl
        rw [this] at h1
        exact .inr ⟨r, hr, hz, List.reverse_prefix.mp h1⟩
      | true =>
        cases hxr : x.reverse with
        | nil => exact .inl (by simpa using hxr)
        | cons a b =>
          exfalso
          have hpl : ∃ c, place r = oozLabel :: c := by unfold place; rw [hz]; exact ⟨_, rfl⟩
          obtain ⟨c, hc⟩ := hpl
          rw [hxr, hc] at h1
          have := (List.cons_prefix_cons.mp h1).1
          have ha : a ∈ x := by rw [← List.mem_reverse, hxr]; exact List.mem_cons_self
          exact hx a ha this
  · rintro (rfl | ⟨r, hr, hz, h1⟩)
    · exact .inl rfl
    · refine .inr ⟨r, hr, ?_⟩
      have : place r = (owner r).reverse := by unfold place; rw [hz]; rfl
      rw [this]
      exact List.reverse_prefix.mpr h1

theorem wild_ne {e : List Bytes} (he : ∀ y ∈ e, y ≠ []) : ∀ y ∈ [42] :: e, y ≠ [] := by
  intro y hy
  rcases List.mem_cons.mp hy with rfl | hy
  · simp
  · exact he y hy

theorem Zoned.source {cfg : Cfg} {zone : List Bytes} {l : List Add} {z : Zone} (h : Zoned cfg zone l z) {x : List Bytes}
    (hx : ∀ y ∈ x, y ≠ []) {m : Node} (hd : HasData z.root x m) :
    ∃ y, Source l x y ∧ (∀ a ∈ y, a ≠ []) ∧ nodeAt z.root y = some m := by
  have sub : ∀ s : List Bytes, s <:+ x → ∀ y ∈ s, y ≠ [] := fun s hs y hy => hx y (hs.subset hy)
  rcases hd with hd | ⟨hd, e, ⟨e1, e2, e3⟩, hw⟩
  · refine ⟨x, .inl ⟨(h.exists_iff hx).mp ?_, rfl⟩, hx, hd⟩
    unfold Present; rw [hd]; rfl
  · refine ⟨[42] :: e, .inr ⟨?_, e, e1, (h.exists_iff (sub e e1)).mp e2, ?_, ?_, rfl⟩, wild_ne (sub e e1), hw⟩
    · rw [← h.exists_iff hx]; unfold Present; rw [hd]; simp
    · intro s hs hex
      exact e3 s hs ((h.exists_iff (sub s hs)).mpr hex)
    · rw [← h.exists_iff (wild_ne (sub e e1))]
      unfold Present; rw [hw]; rfl

theorem Zoned.source' {cfg : Cfg} {zone : List Bytes} {l : List Add} {z : Zone} (h : Zoned cfg zone l z) {x y : List Bytes}
    (hx : ∀ y ∈ x, y ≠ []) (hs : Source l x y) : ∃ m, HasData z.root x m ∧ nodeAt z.root y = some m := by
  have sub : ∀ s : List Bytes, s <:+ x → ∀ y ∈ s, y ≠ [] := fun s hs y hy => hx y (hs.subset hy)
  rcases hs with ⟨h1, rfl⟩ | ⟨h1, e, e1, e2, e3, e4, rfl⟩
  · have := (h.exists_iff hx).mpr h1
    obtain ⟨m, hm⟩ := Option.isSome_iff_exists.mp this
    exact ⟨m, .inl hm, hm⟩
  · have := (h.exists_iff (wild_ne (sub e e1))).mpr e4
    obtain ⟨m, hm⟩ := Option.isSome_iff_exists.mp this
    refine ⟨m, .inr ⟨?_, e, ⟨e1, (h.exists_iff (sub e e1)).mpr e2, ?_⟩, hm⟩, hm⟩
    · rw [← h.exists_iff hx] at h1
      unfold Present at h1
      simpa using h1
    · intro s hs hp
      exact e3 s hs ((h.exists_iff (sub s hs)).mp hp)

theorem scopeOf_other {w : World} {t : Nat} {r : RRset} (hd : ∀ a b, r.body ≠ .dync a b) (ht : r.type ≠ t) : scopeOf w t r = 0 := by
  obtain ⟨ttl, b⟩ := r
  cases b <;> simp only [scopeOf] <;> first
    | exact absurd rfl (hd _ _)
    | (simp [RRset.type, Body.type] at ht; rw [if_neg (fun e => ht e.symm)])

theorem ownScope_getType {w : World} {t : Nat} {rrs : List RRset} (hn : (rrs.map RRset.type).Nodup) (hd : ∀ r ∈ rrs, ∀ a b, r.body ≠ .dync a b) :
    ownScope w t rrs = ((getType rrs t).map (scopeOf w t)).getD 0 := by
  unfold ownScope getType
  induction rrs with
  | nil => rfl
  | cons r rest ih =>
    rw [List.map_cons, List.nodup_cons] at hn
    have ih := ih hn.2 (fun x hx => hd x (List.mem_cons_of_mem _ hx))
    rw [List.map_cons, List.foldr_cons, ih]
    by_cases ht : r.type = t
    · have hb : (r.type == t) = true := beq_iff_eq.mpr ht
      have : rest.find? (fun r => r.type == t) = none := by
        rw [List.find?_eq_none]
        intro x hx e
        exact hn.1 (List.mem_map.mpr ⟨x, hx, (beq_iff_eq.mp e).trans ht.symm⟩)
      rw [List.find?_cons_of_pos (p := fun r : RRset => r.type == t) hb, this]
      simp
    · have hb : ¬ (r.type == t) = true := fun e => ht (beq_iff_eq.mp e)
      rw [List.find?_cons_of_neg (p := fun r : RRset => r.type == t) hb, scopeOf_other (hd r List.mem_cons_self) ht]
      simp

theorem scope_withGlue (w : World) (t : Nat) (z : Zone) (r : RRset) : scopeOf w t (withGlue z r) = scopeOf w t r := by
  unfold withGlue
  split
  · next r' h =>
    obtain ⟨ttl, b⟩ := r
    unfold procSet at h
    cases b with
    | ns l =>
      obtain ⟨l', h1, h2⟩ := andThen_some (show andThen (procNsList z l) _ = _ from h)
      cases h2; rfl
    | _ => cases h; rfl
  · rfl

theorem ownScope_withGlue (w : World) (t : Nat) (z : Zone) (rrs : List RRset) : ownScope w t (rrs.map (withGlue z)) = ownScope w t rrs := by
  unfold ownScope
  rw [List.map_map]
  congr 2
  exact funext fun r => scope_withGlue w t z r

/-- The scope of a name's data. -/
theorem ownScope_file {cfg : Cfg} (w : World) {zone : List Bytes} {l : List Add} {z : Zone} {root : Node} (hg : cfg.ttls.accepted = true)
    (h : Loaded cfg zone l z root) {x : List Bytes} (hx : ∀ y ∈ x, y ≠ []) {m : Node} (hm : nodeAt z.root x = some m) (t : Nat) :
    ownScope w t (m.rrs.map (withGlue z)) = scopeIn cfg w.resolve zone l x t := by
  rw [ownScope_withGlue]
  obtain ⟨-, -, hf⟩ := alias_file hg w h hx hm
  unfold scopeIn
  cases hrec : recsAt l x 0xFF0F with
  | cons r rest =>
    obtain ⟨rhs, k, res, hd, hres, hm'⟩ := hf r rest hrec
    rw [hm']
    simp [hd, hres, ownScope, scopeOf]
  | nil =>
    simp only []
    have hno : ∀ r ∈ m.rrs, ∀ a b, r.body ≠ .dync a b := by
      intro r hr a b e
      have := (h.zoned.getType hx hm 0xFF0F).2.mp hrec
      rw [Tree.getType, List.find?_eq_none] at this
      exact this r hr (by unfold RRset.type; rw [e]; rfl)
    rw [ownScope_getType (h.zoned.node hm).types hno]
    obtain ⟨hgt, hn⟩ := h.zoned.getType hx hm t
    rw [hgt]
    cases hr : recsAt l x t with
    | nil => rfl
    | cons r rest =>
      simp only []
      rw [hr] at hgt hn
      have hmem : r ∈ recsAt l x t := by rw [hr]; exact List.mem_cons_self
      have htt := recsAt_type hmem
      have hlm := recsAt_mem hmem
      cases hs : setOf cfg z.dname t (r :: rest) with
      | none => rw [hgt, hs] at hn; cases hn.mpr rfl
      | some s =>
        simp only [Option.map_some, Option.getD_some]
        simp only [setOf, Option.map_eq_some_iff] at hs
        obtain ⟨b, hb, rfl⟩ := hs
        have key : ∀ (l : List Add) (b c : Body), isDyn b = false → l.foldlM (fun b x => append b (bodyOf cfg z.dname t x)) b = some c →
            isDyn c = false := by
          intro l
          induction l with
          | nil => intro b c h1 h2; cases h2; exact h1
          | cons y l ih =>
            intro b c h1 h2
            rw [List.foldlM_cons] at h2
            cases ha : append b (bodyOf cfg z.dname t y) with
            | none => rw [ha] at h2; cases h2
            | some b' =>
              rw [ha] at h2
              refine ih b' c ?_ h2
              generalize bodyOf cfg z.dname t y = bc at ha
              cases append_iff.mp ha <;> rfl
        have static : (∀ rhs k, r.data ≠ .dyna rhs k) → scopeOf w t ⟨ttl0 cfg r, b⟩ = 0 := by
          intro hnd
          have hr0 : isDyn (bodyOf cfg z.dname t r) = false := by
            unfold bodyOf
            cases hd : r.data <;> first
              | rfl
              | exact absurd hd (hnd _ _)
          have hb' := key _ _ _ hr0 hb
          have hb2 : ∀ a c, b ≠ .dync a c := by
            intro a c e
            rw [e] at hb
            have hgm : Tree.getType m.rrs t = some ⟨ttl0 cfg r, b⟩ := by
              rw [hgt]; simp only [setOf, e]; rw [hb]; rfl
            exact hno _ (getType_some hgm).1 a c e
          cases b <;> first
            | rfl
            | (cases hb'; done)
            | exact absurd rfl (hb2 _ _)
        cases hd : r.data with
        | dyna rhs k =>
          simp only []
          have hres := h.zoned.inv.res r hlm
          unfold ResOk at hres
          rw [hd] at hres htt
          obtain ⟨res, hres⟩ := Option.isSome_iff_exists.mp hres
          have ht12 : t = 1 ∨ t = 28 := by
            simp only [hasType, Bool.or_eq_true, beq_iff_eq] at htt; exact htt
          have hlone : isDyn (bodyOf cfg z.dname t r) = true := by
            unfold bodyOf; rw [hd]; simp only []; split <;> rfl
          have := foldlM_lone hlone hb
          subst this
          rw [List.foldlM_nil] at hb
          cases hb
          unfold bodyOf
          rw [hd]
          rcases ht12 with rfl | rfl
          · simp [scopeOf, hres]
          · simp [scopeOf, hres]
        | _ => exact static (by rw [hd]; simp)

/-- The set a stored type answers with. -/
theorem answer_set {cfg : Cfg} (hg : cfg.ttls.accepted = true) (resolve : Nat → DynRes) (q : List Bytes) {zone : List Bytes} {l : List Add}
    {z : Zone} {root : Node} (h : Loaded cfg zone l z root) {x : List Bytes} (hx : ∀ y ∈ x, y ≠ []) {m : Node} (hm : nodeAt z.root x = some m)
    {r : RRset} {t : Nat} (hr : r ∈ m.rrs) (ht : r.type = t) (h1 : t ≠ 1) (h28 : t ≠ 28) (hf : t ≠ 0xFF0F) :
    setOf cfg z.dname t (recsAt l x t) = some r ∧ recsAt l x t ≠ [] ∧ answerRecs resolve q r = served cfg.ttls q t (recsAt l x t) := by
  obtain ⟨hgt, hn⟩ := h.zoned.getType hx hm t
  have hgr : Tree.getType m.rrs t = some r := by
    have e := filter_getType (h.zoned.node hm).types t
    have hmem : r ∈ (m.rrs.filter fun r => r.type == t) := List.mem_filter.mpr ⟨hr, beq_iff_eq.mpr ht⟩
    rw [e] at hmem
    exact Option.mem_toList.mp hmem
  rw [hgr] at hgt hn
  refine ⟨hgt.symm, fun e => (by cases hn.mp e), ?_⟩
  cases hrec : recsAt l x t with
  | nil => cases hn.mp hrec
  | cons a rest =>
    rw [hrec] at hgt
    rw [setOf_typed hg resolve q h.zoned hrec hgt.symm hf]
    split
    · next rhs k hd =>
      have := recsAt_type (l := l) (x := x) (t := t) (r := a) (by rw [hrec]; exact List.mem_cons_self)
      rw [hd] at this
      simp only [hasType, Bool.or_eq_true, beq_iff_eq] at this
      omega
    · rfl

theorem extra_of_not_ns {r : RRset} (h : r.type ≠ 2) : extraRecs r = [] := by
  obtain ⟨ttl, b⟩ := r
  cases b <;> first
    | rfl
    | exact absurd rfl h

/-- The glue of the stored NS set. -/
theorem extra_set {cfg : Cfg} (hg : cfg.ttls.accepted = true) (resolve : Nat → DynRes) {zone : List Bytes} {l : List Add}
    {z : Zone} {root : Node} (h : Loaded cfg zone l z root) {x : List Bytes} (hx : ∀ y ∈ x, y ≠ []) {m : Node} (hm : nodeAt z.root x = some m)
    {r : RRset} (hr : r ∈ m.rrs) (ht : r.type = 2) : extraRecs (withGlue z r) = allGlue cfg.ttls zone l x := by
  obtain ⟨h1, -, -⟩ := answer_set hg resolve [] h hx hm hr ht (by decide) (by decide) (by decide)
  obtain ⟨⟨d, hp, -⟩, -⟩ := h.phase hm
  obtain ⟨-, -, p3, p4⟩ := phase1_parts hp
  have hnc : cnameAt (some m) = none := by
    rcases h.kinds hm with ⟨ttl, d, e⟩ | ⟨ttl, res, k, e⟩ | e
    · rw [e] at hr; cases List.mem_singleton.mp hr; cases ht
    · rw [e] at hr; cases List.mem_singleton.mp hr; cases ht
    · exact cnameAt_none fun r hr => (e r hr).1
  obtain ⟨k, hk, -⟩ := p4 hnc
  obtain ⟨r', _, hr', -⟩ := (sizeLoop_parts _ _ _ hk).2 r hr
  rw [withGlue_eq hr']
  exact extra_spec hg resolve h.zoned hx h1 hr'

/-- The glue in an answer. -/
theorem ownExtra_file {cfg : Cfg} (hg : cfg.ttls.accepted = true) (w : World) {zone : List Bytes} {l : List Add} {z : Zone} {root : Node}
    (h : Loaded cfg zone l z root) {x : List Bytes} (hx : ∀ y ∈ x, y ≠ []) {m : Node} (hm : nodeAt z.root x = some m) (t : Nat) :
    ownExtra w t (m.rrs.map (withGlue z)) = if t = 2 ∧ aliasIn cfg w.resolve zone l x = none then allGlue cfg.ttls zone l x else [] := by
  obtain ⟨ha, -, -⟩ := alias_file hg w h hx hm
  unfold ownExtra
  rw [ha]
  cases hal : aliasIn cfg w.resolve zone l x with
  | some a => simp
  | none =>
    simp only [and_true]
    by_cases ht : t = 2
    · subst ht
      rw [if_neg (by decide), if_pos rfl, filter_withGlue, filter_getType (h.zoned.node hm).types]
      obtain ⟨hgt, hn⟩ := h.zoned.getType hx hm 2
      cases hgr : Tree.getType m.rrs 2 with
      | none =>
        have := hn.mpr hgr
        unfold allGlue
        rw [this]; rfl
      | some r =>
        obtain ⟨h1, h2⟩ := getType_some hgr
        simp only [Option.toList_some, List.map_cons, List.map_nil, List.flatMap_cons, List.flatMap_nil, List.append_nil]
        exact extra_set hg w.resolve h hx hm h1 h2
    · rw [if_neg ht]
      split
      · rfl
      · rw [List.flatMap_eq_nil_iff]
        intro r hr
        have := (List.mem_filter.mp hr).2
        rw [beq_iff_eq] at this
        exact extra_of_not_ns (by omega)

/-! ### The whole tree -/

/-- The zones of a tree and the records they were made of. -/
structure Sources (cfg : Cfg) (zs : List (List Bytes × Node)) (zones : Zones) : Prop where
  file : ∀ x ∈ zs, ∃ l z, zones x.1 l ∧ Loaded cfg x.1 l z x.2
  zone : ∀ zone l, zones zone l → ∃ x ∈ zs, x.1 = zone
  one : ∀ zone l l', zones zone l → zones zone l' → l = l'

theorem Sources.all {cfg : Cfg} {zs : List (List Bytes × Node)} {zones : Zones} (h : Sources cfg zs zones) :
    AllLoaded cfg zs := by
  intro x hx
  obtain ⟨l, z, -, hl⟩ := h.file x hx
  exact ⟨l, z, hl⟩

theorem Sources.at {cfg : Cfg} {zs : List (List Bytes × Node)} {zones : Zones} (h : Sources cfg zs zones) {zone : List Bytes} {l : List Add}
    (hz : zones zone l) : ∃ x ∈ zs, ∃ z, x.1 = zone ∧ Loaded cfg x.1 l z x.2 := by
  obtain ⟨x, hx, rfl⟩ := h.zone zone l hz
  obtain ⟨l', z, h1, h2⟩ := h.file x hx
  cases h.one _ _ _ hz h1
  exact ⟨x, hx, z, rfl, h2⟩

theorem Merged.hasData' {cfg : Cfg} {zs : List (List Bytes × Node)} {root : Node} (h : Merged zs root) {x : List Bytes × Node}
    (hx : x ∈ zs) {l : List Add} {z : Zone} (hl : Loaded cfg x.1 l z x.2) {y : List Bytes} {m : Node} (hd : HasData z.root y m) :
    HasData root (y ++ x.1) (attach z m) := by
  have node : ∀ s, nodeAt root (s ++ x.1) = (nodeAt z.root s).map (attach z) := by
    intro s; rw [h.nodeIn hx, hl.root, attach_nodeAt]
  have pres : ∀ s, Present root (s ++ x.1) ↔ Present z.root s := by
    intro s
    unfold Present; rw [node]; simp
  rcases hd with hd | ⟨hd, e, ⟨e1, e2, e3⟩, hw⟩
  · exact .inl (by rw [node, hd]; rfl)
  · refine .inr ⟨by rw [node, hd]; rfl, e ++ x.1, ⟨?_, (pres e).mpr e2, ?_⟩, ?_⟩
    · obtain ⟨u, rfl⟩ := e1; exact ⟨u, by simp⟩
    · intro s hs hp
      rcases List.suffix_or_suffix_of_suffix hs (List.suffix_append y x.1) with hsx | hsx
      · exact hsx.trans (List.suffix_append _ _)
      · obtain ⟨s', rfl, hs'⟩ := suffix_split hs hsx
        obtain ⟨u, rfl⟩ := e3 s' hs' ((pres s').mp hp)
        exact ⟨u, by simp⟩
    · rw [← List.cons_append, node, hw]; rfl

theorem WF_suffix_ne {y zn : List Bytes} (h : WF (y ++ zn)) {s : List Bytes} (hs : s <:+ y) : ∀ a ∈ s, a ≠ [] :=
  fun a ha => WF_left h a (hs.subset ha)

theorem final_file {cfg : Cfg} (hg : cfg.ttls.accepted = true) (w : World) {zone : List Bytes} {l : List Add} {z : Zone} {root : Node}
    (h : Loaded cfg zone l z root) (t k : Nat) (q : List Bytes) {soa : RRset} (hs : soa ∈ root.rrs) (ht : soa.type = 6)
    (src : Option (List Bytes)) (rrs : Option (List RRset))
    (hsrc : match src, rrs with
      | none, none => True
      | some y, some r => (∀ a ∈ y, a ≠ []) ∧ ∃ m, nodeAt z.root y = some m ∧ r = m.rrs.map (withGlue z)
      | _, _ => False) :
    finalReply w t k q zone soa rrs = finalIn cfg w t k zone l q src := by
  have hsoa : answerRecs w.resolve zone soa = served cfg.ttls zone 6 (recsAt l [] 6) := by
    rw [h.root, attach_rrs] at hs
    obtain ⟨s, hs', rfl⟩ := List.mem_map.mp hs
    rw [withGlue_type] at ht
    rw [answer_withGlue]
    exact (answer_set hg w.resolve zone h (x := []) (by simp) (m := z.root) rfl hs' ht (by decide) (by decide) (by decide)).2.2
  unfold finalReply finalIn
  rw [hsoa]
  cases src with
  | none =>
    cases rrs with
    | some r => cases hsrc
    | none =>
      have e : ownExtra w t [] = if t = 2 then [] else [] := by unfold ownExtra aliasOf; simp
      simp only [Option.getD_none, Option.map_none, Option.bind_none, Option.isSome_none]
      have e1 : ownRecs w t q [] = [] := by unfold ownRecs aliasOf typedRecs; simp
      have e2 : ownExtra w t [] = [] := by rw [e]; split <;> rfl
      have e3 : ownScope w t [] = 0 := rfl
      have e4 : aliasOf w [] = none := rfl
      simp only [e1, e2, e3, e4, and_true, ite_self]
  | some y =>
    cases rrs with
    | none => cases hsrc
    | some r =>
      obtain ⟨hy, m, hm, rfl⟩ := hsrc
      simp only [Option.getD_some, Option.map_some, Option.bind_some, Option.isSome_some]
      simp only [ownRecs_file hg w h hy hm, ownExtra_file hg w h hy hm, ownScope_file w hg h hy hm, (alias_file hg w h hy hm).1]

/-- A CNAME record that is followed is the one stored. -/
theorem followsIn_cname {cfg : Cfg} (hg : cfg.ttls.accepted = true) {w : World} {zone : List Bytes} {l : List Add} {z : Zone} {root : Node}
    (hl : Loaded cfg zone l z root) {y : List Bytes} (hy : ∀ a ∈ y, a ≠ []) {m : Node} (hm : nodeAt z.root y = some m) {t : Nat} {r : Add}
    {d : List Bytes} (hf : FollowsIn w zone l t y r d) :
    recsAt l y 5 = [r] ∧ ∃ ttl b, m.rrs = [⟨ttl, .cname b⟩] ∧ d = labelsOf b := by
  obtain ⟨f1, -, -, -, -, b, f6, f7⟩ := hf
  obtain ⟨-, f8, -⟩ := alias_file hg w hl hy hm
  obtain ⟨ttl, d', f9⟩ := f8 (by intro e; rw [e] at f1; cases f1)
  obtain ⟨f11, -, f12⟩ := answer_set hg w.resolve [] hl hy hm (r := ⟨ttl, .cname d'⟩) (t := 5) (by rw [f9]; exact List.mem_singleton.mpr rfl) rfl
    (by decide) (by decide) (by decide)
  cases hrec : recsAt l y 5 with
  | nil => rw [hrec] at f1; cases f1
  | cons r0 rest =>
    rw [hrec] at f12 f1
    have hlen : rest = [] := by
      have := congrArg List.length f12
      simp only [answerRecs, served, List.length_map, List.length_cons, List.length_nil] at this
      exact List.eq_nil_of_length_eq_zero (by omega)
    subst hlen
    cases List.mem_singleton.mp f1
    refine ⟨rfl, ttl, d', f9, ?_⟩
    simp only [answerRecs, served, List.map_cons, List.map_nil, f6, pieces] at f12
    rw [f7]
    have := (List.cons.inj f12).1
    injection this with _ _ _ h4
    injection h4 with h5 _
    injection h5 with h6
    exact h6.symm

/-- C64, for the tree of some zones. -/
theorem reply_file {cfg : Cfg} (hg : cfg.ttls.accepted = true) {zs : List (List Bytes × Node)} {root : Node} (h : Merged zs root)
    {zones : Zones} (hz : Sources cfg zs zones) {w : World} {t : Nat} {q e : List Bytes}
    {cs : List (List Bytes × RRset)} (hc : Chain w root t q cs e) (hq : WF q) {v : Verdict} (hv : Ends root e v) (k : Nat) :
    FileReply cfg w zones t k q (reply w t k cs e v) := by
  induction hc with
  | @stop q hno =>
    have e0 : reply w t k [] q v = endReply w t k q v := by
      unfold reply; simp
    rw [e0]
    rcases Classical.em (∃ x ∈ zs, x.1 <:+ q) with ⟨x, hx, y, rfl⟩ | hout
    · obtain ⟨l, z, hmem, hl⟩ := hz.file x hx
      have hy := WF_left hq
      have notDel : (∀ s, s ≠ [] → s <:+ y → ¬ IsCut z.root s) → delegated l y = false := by
        intro hs
        rw [Bool.eq_false_iff, ne_eq, hl.zoned.delegated_iff hy]
        rintro ⟨s, a, b, c⟩; exact hs s a b c
      cases v with
      | refused => exact absurd hv (fun hv => h.placed hx hl (p := .outside) hv)
      | referral c r =>
        obtain ⟨zn, n, h1, h2, h3, h4⟩ := hv
        obtain ⟨rfl, s, rfl, s1, s2, s3⟩ := h.placed hx hl h1
        have hs := WF_suffix_ne hq s2
        rw [h.nodeIn hx] at h2
        obtain ⟨m, m1, -, -, m4⟩ := hl.node h2
        rw [m4] at h3
        obtain ⟨r', hr', rfl⟩ := List.mem_map.mp h3
        rw [withGlue_type] at h4
        obtain ⟨-, a2, a3⟩ := answer_set hg w.resolve (s ++ x.1) hl hs m1 hr' h4 (by decide) (by decide) (by decide)
        show FileReply _ _ _ _ _ _ { authority := answerRecs w.resolve (s ++ x.1) (withGlue z r'), additional := extraRecs (withGlue z r') }
        rw [answer_withGlue, a3, extra_set hg w.resolve hl hs m1 hr' h4]
        exact .referral hmem s1 s2 a2
      | final zn soa rrs =>
        obtain ⟨a, h1, h2, h3, h4⟩ := hv
        cases rrs with
        | none =>
          have h4 : Located root (y ++ x.1) (.missing zn) := h4
          obtain ⟨rfl, p2⟩ := h.placed hx hl h4
          rw [h.zone x hx] at h1
          cases h1
          show FileReply _ _ _ _ _ _ (finalReply w t k (y ++ x.1) x.1 soa none)
          rw [final_file hg w hl t k (y ++ x.1) h2 h3 none none trivial]
          refine .missing hmem (notDel p2) ?_
          intro y' hsrc
          obtain ⟨m, hm, -⟩ := hl.zoned.source' hy hsrc
          exact h4.2.2 _ (h.hasData' hx hl hm)
        | some rr =>
          obtain ⟨n, hn, rfl⟩ := h4
          obtain ⟨rfl, p2, m, hm, hm2⟩ := h.placed hx hl hn
          rw [h.zone x hx] at h1
          cases h1
          obtain ⟨y', s1, s2, s3⟩ := hl.zoned.source hy hm
          show FileReply _ _ _ _ _ _ (finalReply w t k (y ++ x.1) x.1 soa (some n.rrs))
          rw [final_file hg w hl t k (y ++ x.1) h2 h3 (some y') (some n.rrs) ⟨s2, m, s3, hm2⟩]
          refine .data hmem (notDel p2) s1 ?_
          rintro r d hfo
          obtain ⟨-, ttl, d', f9, f13⟩ := followsIn_cname hg hl s2 s3 hfo
          obtain ⟨-, f2, f3, f4, f5, -⟩ := hfo
          have f10 : n.rrs = [⟨ttl, .cname d'⟩] := by
            rw [hm2, f9, List.map_cons, List.map_nil, withGlue_of_not_ns (by simp)]
          exact hno ⟨ttl, .cname d'⟩ d ⟨x.1, n, d', hn, f10, rfl, f13, f2, f3, f4, f5⟩
    · have hall : ∀ zone l, zones zone l → ¬ zone <:+ q := by
        intro zone l hy hs
        obtain ⟨x, hx, e⟩ := hz.zone zone l hy
        exact hout ⟨x, hx, by rw [e]; exact hs⟩
      have nozone : ∀ zn, ¬ IsZone root q zn := by
        rintro zn ⟨h1, ⟨m, h2, h3⟩, -⟩
        obtain ⟨x, hx, h4⟩ := h.cutAt h2 h3
        exact hout ⟨x, hx, h4.trans h1⟩
      cases v with
      | refused => exact .refused hall
      | referral c r => obtain ⟨zn, n, h1, -⟩ := hv; exact absurd h1.1 (nozone _)
      | final zn soa rrs =>
        obtain ⟨a, -, -, -, h4⟩ := hv
        cases rrs with
        | none => exact absurd h4.1 (nozone _)
        | some rr => obtain ⟨n, hn, -⟩ := h4; exact absurd hn.1 (nozone _)
  | @step q r d cs e hf hrest ih =>
    obtain ⟨x, hx, y, rfl⟩ := Follows.inZone h hf
    obtain ⟨l, z, hmem, hl⟩ := hz.file x hx
    have hy := WF_left hq
    obtain ⟨m0, b0, ttl0, -, -, -, hwd, -⟩ := follows_step h hx hl hf
    obtain ⟨zn, n, b, h1, h2, h3, rfl, h5, h6, h7, h8⟩ := hf
    obtain ⟨rfl, p2, m, hm, hm2⟩ := h.placed hx hl h1
    obtain ⟨y', s1, s2, s3⟩ := hl.zoned.source hy hm
    have hdel : delegated l y = false := by
      rw [Bool.eq_false_iff, ne_eq, hl.zoned.delegated_iff hy]
      rintro ⟨s, a, b, c⟩; exact p2 s a b c
    rw [h2] at hm2
    have hrm : ∃ r' ∈ m.rrs, r = withGlue z r' := by
      have : r ∈ m.rrs.map (withGlue z) := by rw [← hm2]; exact List.mem_singleton.mpr rfl
      obtain ⟨r', h9, h10⟩ := List.mem_map.mp this
      exact ⟨r', h9, h10.symm⟩
    obtain ⟨r', hr', rfl⟩ := hrm
    have ht : r'.type = 5 := by rw [← withGlue_type z r']; unfold RRset.type; rw [h3]; rfl
    obtain ⟨-, a2, a3⟩ := answer_set hg w.resolve (y ++ x.1) hl s2 s3 hr' ht (by decide) (by decide) (by decide)
    cases hrec : recsAt l y' 5 with
    | nil => exact absurd hrec a2
    | cons a rest =>
      rw [hrec] at a3
      rw [← answer_withGlue z] at a3
      have hone : answerRecs w.resolve (y ++ x.1) (withGlue z r') = [⟨y ++ x.1, 5, ttlVal (withGlue z r').ttl, [.name (labelsOf b)]⟩] := by
        unfold answerRecs; rw [h3]
      have hlen : rest = [] := by
        have := congrArg List.length (hone.symm.trans a3)
        simp only [served, List.length_map, List.length_cons, List.length_nil] at this
        exact List.eq_nil_of_length_eq_zero (by omega)
      subst hlen
      have hamem : a ∈ recsAt l y' 5 := by rw [hrec]; exact List.mem_cons_self
      obtain ⟨b', hb'⟩ := cname_rec hl.zoned hamem
      have hbb : labelsOf b = labelsOf b' := by
        have := hone.symm.trans a3
        simp only [served, List.map_cons, List.map_nil, hb', pieces] at this
        have := (List.cons.inj this).1
        injection this with _ _ _ h4
        injection h4 with h5 _
        injection h5
      have hrep : reply w t k ((y ++ x.1, withGlue z r') :: cs) e v =
          { reply w t k cs e v with
            aa := true
            answer := ⟨y ++ x.1, 5, ttlOf cfg.ttls a, pieces cfg.ttls a.data⟩ :: (reply w t k cs e v).answer } := by
        unfold reply
        simp only [List.flatMap_cons, a3, served, List.map_cons, List.map_nil, List.isEmpty_cons, Bool.not_false, Bool.or_true,
          List.cons_append, List.nil_append]
      rw [hrep]
      exact .chain hmem hdel s1 ⟨hamem, h5, h6, h7, h8, b', hb', hbb⟩ (ih hwd hv)

/-- Names that are answered from data, in the tree. -/
theorem located_data {cfg : Cfg} {zs : List (List Bytes × Node)} {root : Node} (h : Merged zs root) {x : List Bytes × Node} (hx : x ∈ zs)
    {l : List Add} {z : Zone} (hl : Loaded cfg x.1 l z x.2) {y y' : List Bytes} (hy : ∀ a ∈ y, a ≠ []) (hd : delegated l y = false)
    (hs : Source l y y') : ∃ m, nodeAt z.root y' = some m ∧ Located root (y ++ x.1) (.data x.1 (attach z m)) := by
  obtain ⟨m, h1, h2⟩ := hl.zoned.source' hy hs
  refine ⟨m, h2, ⟨List.suffix_append _ _, ⟨x.2, h.zone x hx, h.cut x hx⟩, ?_⟩, ?_, h.hasData' hx hl h1⟩
  · rintro s s1 s2 ⟨n, s3, s4⟩
    obtain ⟨x', hx', s5⟩ := h.cutAt s3 s4
    cases h.one hx' hx (s5.trans s1)
    exact s2 (s1.eq_of_length (Nat.le_antisymm s1.length_le s5.length_le))
  · rintro c ⟨c1, c2, c3, c4, -⟩
    obtain ⟨s, rfl, hs'⟩ := suffix_split c1 c2
    rw [h.cutIn hx, hl.isCut] at c4
    have : delegated l y = true := (hl.zoned.delegated_iff hy).mpr ⟨s, by rintro rfl; exact c3 rfl, hs', c4⟩
    rw [hd] at this; cases this

/-- CNAMEs that can be followed in the files can be followed in the tree. -/
theorem hops_path {cfg : Cfg} (hg : cfg.ttls.accepted = true) {zs : List (List Bytes × Node)} {root : Node} (h : Merged zs root)
    {zones : Zones} (hz : Sources cfg zs zones) {w : World} {t n : Nat} {q : List Bytes} (hh : Hops w zones t q n) (hq : WF q) :
    ∃ cs e, Path w root t q cs e ∧ cs.length = n := by
  induction hh with
  | none => exact ⟨[], _, .here, rfl⟩
  | @hop zone l x y r d n h1 h2 h3 h4 _ ih =>
    obtain ⟨p, hp, z, rfl, hl⟩ := hz.at h1
    obtain ⟨m, m1, m2⟩ := located_data h hp hl (WF_left hq) h2 h3
    have hy : ∀ a ∈ y, a ≠ [] := by
      rcases h3 with ⟨-, rfl⟩ | ⟨-, e, e1, -, -, -, rfl⟩
      · exact WF_left hq
      · exact wild_ne (fun a ha => WF_left hq a (e1.subset ha))
    obtain ⟨-, ttl, b, m3, m4⟩ := followsIn_cname hg hl hy m1 h4
    obtain ⟨-, f2, f3, f4, f5, -⟩ := h4
    have hf : Follows w root t (x ++ p.1) ⟨ttl, .cname b⟩ d :=
      ⟨p.1, attach z m, b, m2, by rw [attach_rrs, m3, List.map_cons, List.map_nil, withGlue_of_not_ns (by simp)], rfl, m4, f2, f3, f4, f5⟩
    obtain ⟨-, -, -, -, -, -, hwd, -⟩ := follows_step h hp hl hf
    obtain ⟨cs, e, c1, c2⟩ := ih hwd
    exact ⟨_, e, .step hf c1, by rw [List.length_cons, c2]⟩

theorem source_unique {l : List Add} {x y y' : List Bytes} (h : Source l x y) (h' : Source l x y') : y = y' := by
  rcases h with ⟨h1, rfl⟩ | ⟨h1, e, e1, e2, e3, e4, rfl⟩ <;> rcases h' with ⟨h1', rfl⟩ | ⟨h1', e', e1', e2', e3', e4', rfl⟩
  · rfl
  · exact absurd h1 h1'
  · exact absurd h1' h1
  · have a := e3 e' e1' e2'
    have b := e3' e e1 e2
    rw [a.eq_of_length (Nat.le_antisymm a.length_le b.length_le)]

/-- The cases of a reply for a name of a zone. -/
theorem fileReply_inv {cfg : Cfg} {w : World} {zones : Zones} {t k : Nat} {q : List Bytes} {rep : Reply}
    (hap : ∀ a l b m, zones a l → zones b m → a <:+ b → a = b) (h1 : ∀ a l m, zones a l → zones a m → l = m)
    (h : FileReply cfg w zones t k q rep) {zone : List Bytes} {l : List Add} {x : List Bytes} (hz : zones zone l) (hq : q = x ++ zone) :
    (∃ c, c ≠ [] ∧ c <:+ x ∧ recsAt l c 2 ≠ [] ∧
      rep = { authority := served cfg.ttls (c ++ zone) 2 (recsAt l c 2), additional := allGlue cfg.ttls zone l c }) ∨
    (delegated l x = false ∧ (∀ y, ¬ Source l x y) ∧ rep = finalIn cfg w t k zone l q none) ∨
    (∃ y, delegated l x = false ∧ Source l x y ∧ (∀ r d, ¬ FollowsIn w zone l t y r d) ∧ rep = finalIn cfg w t k zone l q (some y)) ∨
    (∃ y r d rep', delegated l x = false ∧ Source l x y ∧ FollowsIn w zone l t y r d ∧ FileReply cfg w zones t k d rep' ∧
      rep = { rep' with aa := true, answer := ⟨q, 5, ttlOf cfg.ttls r, pieces cfg.ttls r.data⟩ :: rep'.answer }) := by
  have same : ∀ x' zone' l', zones zone' l' → x' ++ zone' = x ++ zone → x' = x ∧ zone' = zone ∧ l' = l := by
    intro x' zone' l' hz' e
    have e2 : zone' = zone := by
      have s1 : zone' <:+ x ++ zone := by rw [← e]; exact List.suffix_append _ _
      rcases List.suffix_or_suffix_of_suffix s1 (List.suffix_append x zone) with s | s
      · exact hap _ _ _ _ hz' hz s
      · exact (hap _ _ _ _ hz hz' s).symm
    subst e2
    exact ⟨List.append_cancel_right e, rfl, h1 _ _ _ hz' hz⟩
  cases h with
  | refused hn => exact absurd (by rw [hq]; exact List.suffix_append _ _) (hn zone l hz)
  | referral a b c d =>
    obtain ⟨rfl, rfl, rfl⟩ := same _ _ _ a hq
    exact .inl ⟨_, b, c, d, rfl⟩
  | missing a b c =>
    obtain ⟨rfl, rfl, rfl⟩ := same _ _ _ a hq
    exact .inr (.inl ⟨b, c, rfl⟩)
  | data a b c d =>
    obtain ⟨rfl, rfl, rfl⟩ := same _ _ _ a hq
    exact .inr (.inr (.inl ⟨_, b, c, d, rfl⟩))
  | chain a b c d e =>
    obtain ⟨rfl, rfl, rfl⟩ := same _ _ _ a hq
    exact .inr (.inr (.inr ⟨_, _, _, _, b, c, d, e, rfl⟩))

theorem delegated_of {l : List Add} {x c : List Bytes} (h1 : c ≠ []) (h2 : c <:+ x) (h3 : recsAt l c 2 ≠ []) : delegated l x = true := by
  obtain ⟨r, hr⟩ := List.exists_mem_of_ne_nil _ h3
  unfold recsAt at hr
  rw [List.mem_filter] at hr
  obtain ⟨hr, h4⟩ := hr
  simp only [Bool.and_eq_true, Bool.not_eq_true', beq_iff_eq] at h4
  obtain ⟨a, b, c⟩ := h4
  unfold delegated
  rw [List.any_eq_true]
  refine ⟨r, hr, ?_⟩
  simp only [Bool.and_eq_true, Bool.not_eq_true', List.isEmpty_eq_false_iff, List.isSuffixOf_iff_suffix]
  rw [b]
  exact ⟨a, c, h1, h2⟩

/-- The files leave no choice. -/
theorem fileReply_unique {cfg : Cfg} (hg : cfg.ttls.accepted = true) {zs : List (List Bytes × Node)} {root : Node} (hm : Merged zs root)
    {zones : Zones} (hz : Sources cfg zs zones) {w : World} {t k : Nat} {q : List Bytes} {rep : Reply} (h : FileReply cfg w zones t k q rep)
    (hq : WF q) : ∀ rep', FileReply cfg w zones t k q rep' → rep = rep' := by
  have hap : ∀ a l b m, zones a l → zones b m → a <:+ b → a = b := by
    intro a l b m ha hb hs
    obtain ⟨x, hx, -, rfl, -⟩ := hz.at ha
    obtain ⟨y, hy, -, rfl, -⟩ := hz.at hb
    rw [hm.one hx hy hs]
  have h1 := fun a l m => hz.one a l m
  induction h with
  | refused hn =>
    intro rep' h'
    cases h' with
    | refused => rfl
    | referral a => exact absurd (List.suffix_append _ _) (hn _ _ a)
    | missing a => exact absurd (List.suffix_append _ _) (hn _ _ a)
    | data a => exact absurd (List.suffix_append _ _) (hn _ _ a)
    | chain a => exact absurd (List.suffix_append _ _) (hn _ _ a)
  | @referral zone l x c a b d e =>
    intro rep' h'
    have hdel := delegated_of b d e
    rcases fileReply_inv hap h1 h' a rfl with ⟨c', b', d', e', rfl⟩ | ⟨f, -⟩ | ⟨_, f, -⟩ | ⟨_, _, _, _, f, -⟩
    · have : c = c' := by
        obtain ⟨p, hp, z, rfl, hl⟩ := hz.at a
        have cut : ∀ s, s ≠ [] → s <:+ x → recsAt l s 2 ≠ [] → IsCut z.root s := by
          intro s s1 s2 s3
          obtain ⟨r, hr⟩ := List.exists_mem_of_ne_nil _ s3
          have hmem := recsAt_mem hr
          obtain ⟨d, hd⟩ := ns_only hl.zoned hmem (recsAt_type hr)
          refine (hl.zoned.cut_iff (WF_suffix_ne hq s2) s1).mpr ⟨r, hmem, ?_, d, hd⟩
          have := (List.mem_filter.mp hr).2
          simp only [Bool.and_eq_true, beq_iff_eq] at this
          exact this.2.1
        have key : ∀ s s', s ≠ [] → s' ≠ [] → s <:+ s' → s' <:+ x → recsAt l s 2 ≠ [] → recsAt l s' 2 ≠ [] → s = s' := by
          intro s s' s1 s2 s3 s4 s5 s6
          have c1 := cut s s1 (s3.trans s4) s5
          have c2 := cut s' s2 s4 s6
          obtain ⟨n, hn, -⟩ := id c2
          exact (hl.phase hn).2 s s1 s3 c1 c2
        rcases List.suffix_or_suffix_of_suffix d d' with s | s
        · exact key c c' b b' s d' e e'
        · exact (key c' c b' b s d e' e).symm
      subst this; rfl
    · rw [hdel] at f; cases f
    · rw [hdel] at f; cases f
    · rw [hdel] at f; cases f
  | @missing zone l x a b d =>
    intro rep' h'
    rcases fileReply_inv hap h1 h' a rfl with ⟨c', b', d', e', rfl⟩ | ⟨f, -, rfl⟩ | ⟨_, f, f2, -⟩ | ⟨_, _, _, _, f, f2, -⟩
    · rw [delegated_of b' d' e'] at b; cases b
    · rfl
    · exact absurd f2 (d _)
    · exact absurd f2 (d _)
  | @data zone l x y a b d e =>
    intro rep' h'
    rcases fileReply_inv hap h1 h' a rfl with ⟨c', b', d', e', rfl⟩ | ⟨f, f2, rfl⟩ | ⟨y', f, f2, -, rfl⟩ | ⟨_, _, _, _, f, f2, f3, -⟩
    · rw [delegated_of b' d' e'] at b; cases b
    · exact absurd d (f2 _)
    · rw [source_unique d f2]
    · rw [← source_unique d f2] at f3; exact absurd f3 (e _ _)
  | @chain zone l x y r d rep a b c e hrep ih =>
    intro rep' h'
    rcases fileReply_inv hap h1 h' a rfl with ⟨c', b', d', e', rfl⟩ | ⟨f, f2, rfl⟩ | ⟨y', f, f2, f3, rfl⟩ | ⟨y', r', d', rep2, f, f2, f3, f4, rfl⟩
    · rw [delegated_of b' d' e'] at b; cases b
    · exact absurd c (f2 _)
    · rw [← source_unique c f2] at f3; exact absurd e (f3 _ _)
    · have hyy := source_unique c f2
      subst hyy
      obtain ⟨p, hp, z, rfl, hl⟩ := hz.at a
      obtain ⟨m, m1, m2⟩ := located_data hm hp hl (WF_left hq) b c
      have hy : ∀ a ∈ y, a ≠ [] := by
        rcases c with ⟨-, rfl⟩ | ⟨-, e, e1, -, -, -, rfl⟩
        · exact WF_left hq
        · exact wild_ne (fun a ha => WF_left hq a (e1.subset ha))
      obtain ⟨g1, ttl, b1, g2, g3⟩ := followsIn_cname hg hl hy m1 e
      obtain ⟨g1', ttl', b1', g2', g3'⟩ := followsIn_cname hg hl hy m1 f3
      rw [g1] at g1'; cases g1'
      rw [g2] at g2'; cases g2'
      subst g3'
      subst g3
      obtain ⟨-, k2, k3, k4, k5, -⟩ := e
      have hf : Follows w root t (x ++ p.1) ⟨ttl, .cname b1⟩ (labelsOf b1) :=
        ⟨p.1, attach z m, b1, m2, by rw [attach_rrs, g2, List.map_cons, List.map_nil, withGlue_of_not_ns (by simp)], rfl, rfl, k2, k3, k4, k5⟩
      obtain ⟨-, -, -, -, -, -, hwd, -⟩ := follows_step hm hp hl hf
      rw [ih hwd rep2 f4]

end Gdnsd.Load
