import Verif.Load.SetLemmas
/-
What the sets of a name are after adding records.
-/
namespace Gdnsd.Load
open Enc Tree TreeSpec DnameSpec EncSpec LookupSpec LoadSpec

/-- A record set before glue is attached. -/
def SetOk (cfg : Cfg) (r : RRset) : Prop :=
  match r.body with
  | .a l => AddrsOk 4 l
  | .aaaa l => AddrsOk 16 l
  | .dynA res _ => ∃ rhs, cfg.resource rhs none = some res
  | .dynAAAA res _ => ∃ rhs, cfg.resource rhs none = some res
  | .soa m n t => NameOk m ∧ NameOk n ∧ t.length = 20
  | .cname d => NameOk d ∧ lowerName (labelsOf d) = labelsOf d
  | .dync res _ => ∃ rhs o, cfg.resource rhs (some o) = some res
  | .ns l => l ≠ [] ∧ l.length ≤ 64 ∧ ∀ x ∈ l, NameOk x.dname ∧ x.glue4 = none ∧ x.glue6 = none
  | .ptr l => ∀ d ∈ l, NameOk d
  | .mx l => ∀ x ∈ l, x.1.length = 2 ∧ NameOk x.2
  | .srv l => ∀ x ∈ l, x.1.length = 6 ∧ NameOk x.2
  | .naptr l => ∀ x ∈ l, x.1.length = 4 ∧ NameOk x.2.2
  | .txt _ => True
  | .raw t _ => t < 65536 ∧ noGeneric t = false

theorem be32_length (x : UInt32) : (be32 x).length = 4 := rfl
theorem be16_length (x : UInt32) : (be16 x).length = 2 := rfl

theorem bodyOf_ok {cfg : Cfg} {zone : List Bytes} {origin : Bytes} {r : Add} (hr : RecOk zone r) (hs : ResOk cfg origin r)
    (t : Nat) (ttl : UInt32) : SetOk cfg ⟨ttl, bodyOf cfg origin t r⟩ := by
  obtain ⟨o, -, -, -, hd⟩ := RecOk_WF hr
  unfold SetOk bodyOf
  unfold ResOk at hs
  cases h : r.data <;> rw [h] at hd hs <;> simp only [DataOk] at hd <;> simp only
  case a addr z => exact ⟨by simp, by simpa using hd⟩
  case aaaa addr z => exact ⟨by simp, by simpa using hd⟩
  case dyna rhs m =>
    obtain ⟨res, hres⟩ := Option.isSome_iff_exists.mp hs
    by_cases ht : t = 1
    · simp only [if_pos ht, hres]; exact ⟨rhs, hres⟩
    · simp only [if_neg ht, hres]; exact ⟨rhs, hres⟩
  case cname rhs => exact hd
  case dync rhs m =>
    obtain ⟨res, hres⟩ := Option.isSome_iff_exists.mp hs
    rw [hres]; exact ⟨rhs, origin, hres⟩
  case ptr rhs => simpa using hd
  case ns rhs => simpa using hd
  case mx p rhs => simpa [be16_length] using hd
  case srv p w po rhs => simpa [be16_length] using hd
  case naptr p w po rhs => simpa [be16_length] using hd
  case soa m n a b c d e => exact ⟨hd.1, hd.2.1, by simp [be32_length]⟩
  case raw u rd => exact ⟨hd.1, hs⟩

theorem append_ok {cfg : Cfg} {ttl ttl' ttl'' : UInt32} {a b c : Body} (h : append a b = some c) (ha : SetOk cfg ⟨ttl, a⟩)
    (hb : SetOk cfg ⟨ttl', b⟩) (h2 : c.type = 2 → count c ≤ 64) : SetOk cfg ⟨ttl'', c⟩ := by
  unfold SetOk at *
  cases append_iff.mp h <;> simp only at *
  case a l m =>
    refine ⟨by simp [ha.1], fun x hx => ?_⟩
    rcases List.mem_append.mp hx with hx | hx
    · exact ha.2 x hx
    · exact hb.2 x hx
  case aaaa l m =>
    refine ⟨by simp [ha.1], fun x hx => ?_⟩
    rcases List.mem_append.mp hx with hx | hx
    · exact ha.2 x hx
    · exact hb.2 x hx
  case ns l m =>
    refine ⟨by simp [ha.1], h2 rfl, fun x hx => ?_⟩
    rcases List.mem_append.mp hx with hx | hx
    · exact ha.2.2 x hx
    · exact hb.2.2 x hx
  case raw t l m => exact ha
  all_goals
    intro x hx
    rcases List.mem_append.mp hx with hx | hx
    · exact ha x hx
    · exact hb x hx

/-- The sets of a name after the records `l` were added. -/
structure NodeInv (cfg : Cfg) (origin : Bytes) (l : List Add) (rrs : List RRset) : Prop where
  types : (rrs.map RRset.type).Nodup
  tail : ∀ t ∈ (rrs.map RRset.type).tail, t ≠ 5 ∧ t ≠ 0xFF0F
  sets : ∀ t, getType rrs t = setOf cfg origin t (l.filter fun r => hasType t r.data)
  some : ∀ t, (l.filter fun r => hasType t r.data) ≠ [] → (getType rrs t).isSome = true
  ok : ∀ r ∈ rrs, SetOk cfg r

theorem NodeInv_nil (cfg : Cfg) (origin : Bytes) : NodeInv cfg origin [] [] :=
  ⟨by simp, by simp, fun _ => rfl, by simp, by simp⟩

theorem tail_append {l : List Nat} {x : Nat} (hl : ∀ t ∈ l.tail, t ≠ 5 ∧ t ≠ 0xFF0F)
    (hx : (x = 5 ∨ x = 0xFF0F) → l = []) : ∀ t ∈ (l ++ [x]).tail, t ≠ 5 ∧ t ≠ 0xFF0F := by
  cases l with
  | nil => simp
  | cons y r =>
    intro t ht
    simp only [List.cons_append, List.tail_cons, List.mem_append, List.mem_singleton] at ht
    rcases ht with ht | rfl
    · exact hl t ht
    · refine ⟨fun e => ?_, fun e => ?_⟩
      · cases hx (.inl e)
      · cases hx (.inr e)

theorem NodeInv.first {cfg : Cfg} {zone : List Bytes} {origin : Bytes} {l : List Add} {rrs : List RRset} {r : Add}
    (h : NodeInv cfg origin l rrs) (hr : RecOk zone r) (hs : ResOk cfg origin r) {key : Nat}
    (hk : ∀ t, hasType t r.data = (t == key)) (hg : getType rrs key = none) (h5 : (key = 5 ∨ key = 0xFF0F) → rrs = []) :
    NodeInv cfg origin (l ++ [r]) (rrs ++ [⟨ttl0 cfg r, bodyOf cfg origin key r⟩]) := by
  have htype : (⟨ttl0 cfg r, bodyOf cfg origin key r⟩ : RRset).type = key := bodyOf_type (by rw [hk]; simp)
  have hget : ∀ t, getType (rrs ++ [⟨ttl0 cfg r, bodyOf cfg origin key r⟩]) t =
      if t = key then .some ⟨ttl0 cfg r, bodyOf cfg origin key r⟩ else getType rrs t := by
    intro t
    rw [getType_append, getType_one, htype]
    by_cases e : t = key
    · rw [if_pos e, if_pos e, e, hg]; rfl
    · rw [if_neg e, if_neg e, Option.or_none]
  have hfil : ∀ t, (l ++ [r]).filter (fun r => hasType t r.data) =
      l.filter (fun r => hasType t r.data) ++ if t = key then [r] else [] := by
    intro t
    rw [List.filter_append]
    congr 1
    by_cases e : t = key
    · simp [hk, e]
    · simp [hk, e]
  have hnil : l.filter (fun r => hasType key r.data) = [] := by
    apply Decidable.byContradiction
    intro hn
    have := h.some key hn
    rw [hg] at this; cases this
  refine ⟨?_, ?_, ?_, ?_, ?_⟩
  · rw [List.map_append, List.map_cons, List.map_nil, htype, List.nodup_append]
    refine ⟨h.types, by simp, ?_⟩
    intro a ha b hb e
    rw [List.mem_singleton.mp hb] at e
    obtain ⟨x, hx, rfl⟩ := List.mem_map.mp ha
    exact getType_none hg x hx e
  · rw [List.map_append, List.map_cons, List.map_nil, htype]
    exact tail_append h.tail (fun e => by rw [h5 e]; rfl)
  · intro t
    rw [hget, hfil]
    by_cases e : t = key
    · subst e; rw [if_pos rfl, if_pos rfl, hnil]; rfl
    · rw [if_neg e, if_neg e, List.append_nil]; exact h.sets t
  · intro t ht
    rw [hget]
    rw [hfil] at ht
    by_cases e : t = key
    · rw [if_pos e]; rfl
    · rw [if_neg e] at ht ⊢
      exact h.some t (by simpa using ht)
  · intro x hx
    rcases List.mem_append.mp hx with hx | hx
    · exact h.ok x hx
    · rw [List.mem_singleton.mp hx]; exact bodyOf_ok hr hs key _

theorem NodeInv.next {cfg : Cfg} {zone : List Bytes} {origin : Bytes} {l : List Add} {rrs : List RRset} {r : Add}
    (h : NodeInv cfg origin l rrs) (hr : RecOk zone r) (hs : ResOk cfg origin r) {key : Nat} {old : RRset} {b : Body}
    (hk : ∀ t, hasType t r.data = (t == key)) (hg : getType rrs key = .some old)
    (ha : append old.body (bodyOf cfg origin key r) = .some b) (h2 : key = 2 → count b ≤ 64) :
    NodeInv cfg origin (l ++ [r]) (setType rrs key ⟨old.ttl, b⟩) := by
  have htype : (⟨old.ttl, b⟩ : RRset).type = key := (append_type ha).trans (getType_some hg).2
  have hfil : ∀ t, (l ++ [r]).filter (fun r => hasType t r.data) =
      l.filter (fun r => hasType t r.data) ++ if t = key then [r] else [] := by
    intro t
    rw [List.filter_append]
    congr 1
    by_cases e : t = key
    · simp [hk, e]
    · simp [hk, e]
  refine ⟨?_, ?_, ?_, ?_, ?_⟩
  · rw [setType_types _ _ _ htype]; exact h.types
  · rw [setType_types _ _ _ htype]; exact h.tail
  · intro t
    rw [getType_setType hg htype, hfil]
    by_cases e : t = key
    · subst e
      rw [if_pos rfl, if_pos rfl]
      exact (setOf_snoc ((h.sets t).symm.trans hg) ha).symm
    · rw [if_neg e, if_neg e, List.append_nil]; exact h.sets t
  · intro t ht
    rw [getType_setType hg htype]
    rw [hfil] at ht
    by_cases e : t = key
    · rw [if_pos e]; rfl
    · rw [if_neg e] at ht ⊢
      exact h.some t (by simpa using ht)
  · intro x hx
    rcases setType_mem hx with hx | rfl
    · exact h.ok x hx
    · refine append_ok (ttl := old.ttl) (ttl' := 0) ha (h.ok old (getType_some hg).1) (bodyOf_ok hr hs key 0) ?_
      intro e
      exact h2 (htype.symm.trans e)

theorem NodeInv.dyna {cfg : Cfg} {zone : List Bytes} {origin : Bytes} {l : List Add} {rrs : List RRset} {r : Add}
    (h : NodeInv cfg origin l rrs) (hr : RecOk zone r) (hs : ResOk cfg origin r)
    (hk : ∀ t, hasType t r.data = (t == 1 || t == 28)) (hg : getType rrs 1 = none) (hg' : getType rrs 28 = none) :
    NodeInv cfg origin (l ++ [r]) (rrs ++ [⟨ttl0 cfg r, bodyOf cfg origin 1 r⟩, ⟨ttl0 cfg r, bodyOf cfg origin 28 r⟩]) := by
  have t1 : (⟨ttl0 cfg r, bodyOf cfg origin 1 r⟩ : RRset).type = 1 := bodyOf_type (by rw [hk]; simp)
  have t28 : (⟨ttl0 cfg r, bodyOf cfg origin 28 r⟩ : RRset).type = 28 := bodyOf_type (by rw [hk]; simp)
  have hget : ∀ t, getType (rrs ++ [⟨ttl0 cfg r, bodyOf cfg origin 1 r⟩, ⟨ttl0 cfg r, bodyOf cfg origin 28 r⟩]) t =
      if t = 1 ∨ t = 28 then .some ⟨ttl0 cfg r, bodyOf cfg origin t r⟩ else getType rrs t := by
    intro t
    rw [getType_append, show [(⟨ttl0 cfg r, bodyOf cfg origin 1 r⟩ : RRset), ⟨ttl0 cfg r, bodyOf cfg origin 28 r⟩] =
      [⟨ttl0 cfg r, bodyOf cfg origin 1 r⟩] ++ [⟨ttl0 cfg r, bodyOf cfg origin 28 r⟩] from rfl, getType_append,
      getType_one, getType_one, t1, t28]
    by_cases e : t = 1
    · subst e; rw [if_pos rfl, if_pos (show (1 : Nat) = 1 ∨ (1 : Nat) = 28 from .inl rfl), hg]; rfl
    · by_cases e' : t = 28
      · subst e'; rw [if_neg e, if_pos rfl, if_pos (show (28 : Nat) = 1 ∨ (28 : Nat) = 28 from .inr rfl), hg']; rfl
      · rw [if_neg e, if_neg e', if_neg (by simp [e, e'])]
        simp
  have hfil : ∀ t, (l ++ [r]).filter (fun r => hasType t r.data) =
      l.filter (fun r => hasType t r.data) ++ if t = 1 ∨ t = 28 then [r] else [] := by
    intro t
    rw [List.filter_append]
    congr 1
    by_cases e : t = 1 ∨ t = 28
    · rcases e with rfl | rfl <;> simp [hk]
    · rw [if_neg e]
      have : hasType t r.data = false := by
        rw [hk]
        simp only [not_or] at e
        simp [e.1, e.2]
      simp [this]
  have hnil : ∀ key, getType rrs key = none → l.filter (fun r => hasType key r.data) = [] := by
    intro key hg
    apply Decidable.byContradiction
    intro hn
    have := h.some key hn
    rw [hg] at this; cases this
  refine ⟨?_, ?_, ?_, ?_, ?_⟩
  · rw [List.map_append, List.map_cons, List.map_cons, List.map_nil, t1, t28, List.nodup_append]
    refine ⟨h.types, by simp, ?_⟩
    intro a ha b hb e
    obtain ⟨x, hx, rfl⟩ := List.mem_map.mp ha
    simp only [List.mem_cons, List.not_mem_nil, or_false] at hb
    rcases hb with rfl | rfl
    · exact getType_none hg x hx e
    · exact getType_none hg' x hx e
  · rw [List.map_append, List.map_cons, List.map_cons, List.map_nil, t1, t28,
      show [1, 28] = [1] ++ [28] from rfl, ← List.append_assoc]
    exact tail_append (tail_append h.tail (by rintro (e | e) <;> cases e)) (by rintro (e | e) <;> cases e)
  · intro t
    rw [hget, hfil]
    by_cases e : t = 1 ∨ t = 28
    · rw [if_pos e, if_pos e, hnil t (by rcases e with rfl | rfl <;> assumption)]; rfl
    · rw [if_neg e, if_neg e, List.append_nil]; exact h.sets t
  · intro t ht
    rw [hget]
    rw [hfil] at ht
    by_cases e : t = 1 ∨ t = 28
    · rw [if_pos e]; rfl
    · rw [if_neg e] at ht ⊢
      exact h.some t (by simpa using ht)
  · intro x hx
    rcases List.mem_append.mp hx with hx | hx
    · exact h.ok x hx
    · simp only [List.mem_cons, List.not_mem_nil, or_false] at hx
      rcases hx with rfl | rfl
      · exact bodyOf_ok hr hs _ _
      · exact bodyOf_ok hr hs _ _

/-- Adding a record keeps the invariant. -/
theorem NodeInv.added {cfg : Cfg} {zone : List Bytes} {origin : Bytes} {l : List Add} {rrs rrs' : List RRset} {r : Add}
    (h : NodeInv cfg origin l rrs) (hr : RecOk zone r) (hs : ResOk cfg origin r) (ha : Added cfg origin r rrs rrs') :
    NodeInv cfg origin (l ++ [r]) rrs' := by
  cases ha with
  | first key hk hg h5 => exact h.first hr hs hk hg h5
  | next key old b hk hg ha h2 => exact h.next hr hs hk hg ha h2
  | dyna hk hg hg' => exact h.dyna hr hs hk hg hg'

/-! ### No undefined behaviour at a node -/

theorem noGeneric_of {t : Nat} (h : noGeneric t = false) : t ∉ [1, 28, 6, 5, 2, 12, 15, 33, 35, 16, 13, 0xFF0F, 0] ∧ ¬ (127 < t ∧ t < 256) := by
  unfold noGeneric at h
  rw [Bool.or_eq_false_iff] at h
  refine ⟨?_, ?_⟩
  · intro hm
    have := h.1
    rw [List.contains_iff_mem.mpr hm] at this
    cases this
  · rintro ⟨a, b⟩
    have := h.2
    rw [decide_eq_true a, decide_eq_true b] at this
    cases this

/-- Sets of equal type can be appended, unless they are of the kinds that stand alone. -/
theorem append_some {cfg : Cfg} {ttl ttl' : UInt32} {a b : Body} (ha : SetOk cfg ⟨ttl, a⟩) (hb : SetOk cfg ⟨ttl', b⟩)
    (ht : a.type = b.type) (hd : isDyn a = false) (hb1 : ∀ x y z, b ≠ .soa x y z) (hb2 : ∀ d, b ≠ .cname d)
    (hb3 : ∀ x y, b ≠ .dync x y) (hb4 : isDyn b = false) : ∃ c, append a b = some c := by
  cases b <;> simp only [isDyn] at hb4 <;> first
    | cases hb4
    | exact absurd rfl (hb1 _ _ _)
    | exact absurd rfl (hb2 _)
    | exact absurd rfl (hb3 _ _)
    | skip
  all_goals
    cases a <;> simp only [Body.type] at ht <;> first
      | exact ⟨_, rfl⟩
      | exact ⟨_, if_pos ht⟩
      | exact absurd rfl (hb1 _ _ _)
      | exact absurd rfl (hb2 _)
      | exact absurd rfl (hb3 _ _)
      | (exact absurd ht (by decide))
      | (cases hd; done)
      | (subst ht; exact absurd (noGeneric_of ha.2).1 (by decide))
      | (rename_i t _ _; subst ht; exact absurd (noGeneric_of hb.2).1 (by decide))
      | skip

end Gdnsd.Load
