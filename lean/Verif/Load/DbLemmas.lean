import Verif.Load.NewZone
import Verif.Load.MergeAll
/-
Trees merged from zones that passed are in order.
-/
namespace Gdnsd.Load
open Enc Tree TreeSpec DnameSpec EncSpec LookupSpec LoadSpec

theorem Loaded.node {cfg : Cfg} {zone : List Bytes} {l : List Add} {z : Zone} {root : Node} (h : Loaded cfg zone l z root)
    {x : List Bytes} {n : Node} (hn : nodeAt root x = some n) :
    ∃ m, nodeAt z.root x = some m ∧ n = attach z m ∧ n.zcut = m.zcut ∧ n.rrs = m.rrs.map (withGlue z) := by
  rw [h.root, attach_nodeAt] at hn
  obtain ⟨m, h1, h2⟩ := Option.map_eq_some_iff.mp hn
  subst h2
  exact ⟨m, h1, rfl, attach_zcut z m, attach_rrs z m⟩

theorem Loaded.isCut {cfg : Cfg} {zone : List Bytes} {l : List Add} {z : Zone} {root : Node} (h : Loaded cfg zone l z root)
    (x : List Bytes) : IsCut root x ↔ IsCut z.root x := by
  rw [h.root]; exact attach_isCut z z.root x

theorem Loaded.present {cfg : Cfg} {zone : List Bytes} {l : List Add} {z : Zone} {root : Node} (h : Loaded cfg zone l z root)
    (x : List Bytes) : Present root x ↔ Present z.root x := by
  rw [h.root]; exact attach_present z z.root x

theorem Loaded.phase {cfg : Cfg} {zone : List Bytes} {l : List Add} {z : Zone} {root : Node} (h : Loaded cfg zone l z root)
    {x : List Bytes} {m : Node} (hm : nodeAt z.root x = some m) :
    (∃ d', phase1 cfg z m x d' = .ok (some ()) ∧ (d' = true ↔ ∃ s, s ≠ [] ∧ s <:+ x ∧ IsCut z.root s)) ∧
    (∀ s, s ≠ [] → s <:+ x → IsCut z.root s → IsCut z.root x → s = x) := procInner_root h.walk x m hm

theorem Loaded.nodeOk {cfg : Cfg} {resolve : Nat → DynRes} (hpl : PlugOk cfg resolve) {zone : List Bytes} {l : List Add} {z : Zone}
    {root : Node} (h : Loaded cfg zone l z root) {x : List Bytes} {n : Node} (hn : nodeAt root x = some n) : NodeOk resolve n.rrs := by
  obtain ⟨m, h1, -, -, h4⟩ := h.node hn
  obtain ⟨⟨d, h5, -⟩, -⟩ := h.phase h1
  rw [h4]; exact nodeOk_of hpl h.zoned h1 h5

/-- A set at a name comes from a record there. -/
theorem Zoned.origin_of {cfg : Cfg} {zone : List Bytes} {l : List Add} {z : Zone} (h : Zoned cfg zone l z) {x : List Bytes} {m : Node}
    (hm : nodeAt z.root x = some m) {r : RRset} (hr : r ∈ m.rrs) :
    ∃ a ∈ l, place a = x.reverse ∧ hasType r.type a.data = true ∧ RecOk zone a ∧ ResOk cfg z.dname a := by
  have hinv := h.node hm
  have hs := hinv.sets r.type
  rw [getType_of_mem hinv.types hr] at hs
  cases hl : (l.filter fun a => decide (place a = x.reverse)).filter fun a => hasType r.type a.data with
  | nil => rw [hl] at hs; cases hs
  | cons a rest =>
    have ha : a ∈ (l.filter fun a => decide (place a = x.reverse)).filter fun a => hasType r.type a.data := by
      rw [hl]; exact List.mem_cons_self
    obtain ⟨h1, h2⟩ := List.mem_filter.mp ha
    obtain ⟨h3, h4⟩ := List.mem_filter.mp h1
    exact ⟨a, h3, of_decide_eq_true h4, h2, h.recs a h3, h.inv.res a h3⟩

/-- NS and SOA records are at cuts only, and not at wildcards. -/
theorem Zoned.nsCut {cfg : Cfg} {zone : List Bytes} {l : List Add} {z : Zone} (h : Zoned cfg zone l z) {x : List Bytes} {m : Node}
    (hm : nodeAt z.root x = some m) {r : RRset} (hr : r ∈ m.rrs) (ht : r.type = 2 ∨ r.type = 6) :
    m.zcut = true ∧ x.head? ≠ some [42] := by
  obtain ⟨a, h1, h2, h3, h4, h5⟩ := h.origin_of hm hr
  have hv := view_of_node hm
  have raw : ∀ u rd, a.data = .raw u rd → False := by
    intro u rd e
    unfold ResOk at h5
    rw [e] at h3 h5
    have h3 : (r.type == u.toNat) = true := h3
    have h3 := beq_iff_eq.mp h3
    have h5 : noGeneric u.toNat = false := h5
    rw [← h3] at h5
    have := (noGeneric_of h5).1
    simp only [List.mem_cons, List.not_mem_nil, or_false] at this
    omega
  have ns : ∀ d, a.data = .ns d → m.zcut = true ∧ x.head? ≠ some [42] := by
    intro d e
    refine ⟨(h.inv.cut _ _ hv).mpr (.inr ⟨a, h1, h2, d, e⟩), ?_⟩
    have := h.inv.wild a h1 d e
    rw [h2, List.getLast?_reverse] at this
    exact this
  have soa : ∀ m n s rf rt ex nc, a.data = .soa m n s rf rt ex nc → x = [] := by
    intro m' n s rf rt ex nc e
    obtain ⟨o, -, -, ho, hd⟩ := RecOk_WF h4
    rw [e] at hd
    have hd : _ ∧ _ ∧ o = [] := hd
    rw [hd.2.2] at ho
    unfold place at h2
    rw [e] at h2
    have h2 : (owner a).reverse = x.reverse := h2
    rw [ho] at h2
    simpa using h2
  rcases ht with ht | ht <;> rw [ht] at h3 <;> cases hd : a.data <;>
    first
    | exact ns _ hd
    | exact absurd hd (fun e => raw _ _ e)
    | (have := soa _ _ _ _ _ _ _ hd
       subst this
       exact ⟨(h.inv.cut _ _ hv).mpr (.inl rfl), by simp⟩)
    | (rw [hd] at h3; exact absurd h3 (by simp [hasType]))

theorem Loaded.soa {cfg : Cfg} {zone : List Bytes} {l : List Add} {z : Zone} {root : Node} (h : Loaded cfg zone l z root) :
    ∃ r ∈ root.rrs, r.type = 6 := by
  obtain ⟨t, m, n, b, t', ns, h1, h2⟩ := zrootPhase1_parts h.first
  obtain ⟨a, b⟩ := getType_some h1
  refine ⟨withGlue z _, ?_, (withGlue_type z _).trans b⟩
  rw [h.root, attach_rrs]
  exact List.mem_map.mpr ⟨_, a, rfl⟩

theorem Loaded.ns {cfg : Cfg} {zone : List Bytes} {l : List Add} {z : Zone} {root : Node} (h : Loaded cfg zone l z root)
    {x : List Bytes} {n : Node} (hn : nodeAt root x = some n) (hc : n.zcut = true) : ∃ r ∈ n.rrs, r.type = 2 := by
  obtain ⟨m, h1, -, h3, h4⟩ := h.node hn
  rw [h3] at hc
  suffices h : ∃ r ∈ m.rrs, r.type = 2 by
    obtain ⟨r, a, b⟩ := h
    exact ⟨withGlue z r, by rw [h4]; exact List.mem_map.mpr ⟨r, a, rfl⟩, (withGlue_type z r).trans b⟩
  have hv := view_of_node h1
  rcases (h.zoned.inv.cut _ _ hv).mp hc with he | ⟨a, h5, h6, d, h7⟩
  · have : x = [] := by simpa using he
    subst this
    cases h1
    obtain ⟨t, m, n, b, t', ns, -, h2⟩ := zrootPhase1_parts h.first
    obtain ⟨a, b⟩ := getType_some h2
    exact ⟨_, a, b⟩
  · have := (h.zoned.node h1).some 2 (by
      intro e
      have : a ∈ (l.filter fun r => decide (place r = x.reverse)).filter fun r => hasType 2 r.data :=
        List.mem_filter.mpr ⟨List.mem_filter.mpr ⟨h5, decide_eq_true h6⟩, by rw [h7]; rfl⟩
      rw [e] at this; cases this)
    obtain ⟨r, hr⟩ := Option.isSome_iff_exists.mp this
    obtain ⟨a, b⟩ := getType_some hr
    exact ⟨r, a, b⟩

theorem Loaded.rootCut {cfg : Cfg} {zone : List Bytes} {l : List Add} {z : Zone} {root : Node} (h : Loaded cfg zone l z root) :
    root.zcut = true := by
  rw [h.root, attach_zcut]
  exact (h.zoned.inv.cut [] (z.root.zcut, z.root.rrs) rfl).mpr (.inl rfl)

/-- Zones that passed, by name. -/
def AllLoaded (cfg : Cfg) (zs : List (List Bytes × Node)) : Prop := ∀ x ∈ zs, ∃ l z, Loaded cfg x.1 l z x.2

theorem Merged.split {zs : List (List Bytes × Node)} {root : Node} (h : Merged zs root) {p : List Bytes} {m : Node}
    (hm : nodeAt root p = some m) : (∃ x ∈ zs, ∃ y, p = y ++ x.1 ∧ nodeAt x.2 y = some m) ∨ (m.zcut = false ∧ m.rrs = []) := by
  by_cases hx : ∃ x ∈ zs, x.1 <:+ p
  · obtain ⟨x, hx, y, rfl⟩ := hx
    left
    rw [nodeAt_append, h.zone x hx] at hm
    exact ⟨x, hx, y, rfl, hm⟩
  · right
    have := h.above p m hm (fun x hx' hs => hx ⟨x, hx', hs⟩)
    exact ⟨this.1, this.2.1⟩

theorem Merged.isZone {zs : List (List Bytes × Node)} {root : Node} (h : Merged zs root) {q zn : List Bytes}
    (hz : IsZone root q zn) : ∃ x ∈ zs, x.1 = zn := by
  obtain ⟨h1, ⟨n, hn, hc⟩, h3⟩ := hz
  obtain ⟨x, hx, hs⟩ := h.cutAt hn hc
  refine ⟨x, hx, ?_⟩
  apply Decidable.byContradiction
  intro e
  exact h3 x.1 hs e ⟨x.2, h.zone x hx, h.cut x hx⟩

theorem dbOk_of {cfg : Cfg} {resolve : Nat → DynRes} (hpl : PlugOk cfg resolve) {zs : List (List Bytes × Node)} {root : Node}
    (h : Merged zs root) (hl : AllLoaded cfg zs) : DbOk resolve root := by
  refine ⟨?_, ?_, ?_, ?_⟩
  · intro name n hn
    rcases h.split hn with ⟨x, hx, y, rfl, hy⟩ | ⟨-, he⟩
    · obtain ⟨l, z, hz⟩ := hl x hx
      exact hz.nodeOk hpl hy
    · rw [he]; exact .inr (.inr ⟨by simp, by simp⟩)
  · intro name n r hn hr ht
    rcases h.split hn with ⟨x, hx, y, rfl, hy⟩ | ⟨-, he⟩
    · obtain ⟨l, z, hz⟩ := hl x hx
      obtain ⟨m, h1, -, h3, h4⟩ := hz.node hy
      rw [h4] at hr
      obtain ⟨r', hr', rfl⟩ := List.mem_map.mp hr
      rw [withGlue_type] at ht
      obtain ⟨a, b⟩ := hz.zoned.nsCut h1 hr' ht
      refine ⟨h3.trans a, ?_⟩
      intro w e
      cases y with
      | nil =>
        have := hz.nowild
        rw [List.nil_append] at e
        rw [e] at this
        exact this rfl
      | cons c y => cases e; exact b rfl
    · rw [he] at hr; cases hr
  · intro q zn n hq hn
    obtain ⟨x, hx, rfl⟩ := h.isZone hq
    obtain ⟨l, z, hz⟩ := hl x hx
    rw [h.zone x hx] at hn
    cases hn
    exact hz.soa
  · intro q zn c n hq hr hn
    obtain ⟨-, -, -, ⟨n', hn', hc⟩, -⟩ := hr
    rw [hn] at hn'; cases hn'
    rcases h.split hn with ⟨x, hx, y, rfl, hy⟩ | ⟨he, -⟩
    · obtain ⟨l, z, hz⟩ := hl x hx
      exact hz.ns hy hc
    · rw [he] at hc; cases hc

end Gdnsd.Load
