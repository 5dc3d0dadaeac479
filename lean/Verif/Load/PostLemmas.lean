import Verif.Load.ZoneLemmas
import Verif.Load.WalkLemmas
import Verif.Tree.Props
/-
What a zone that passed its post-processing looks like.
-/
namespace Gdnsd.Load
open Enc Tree TreeSpec DnameSpec EncSpec LookupSpec LoadSpec

/-! ### Names and places -/

theorem place_in {r : Add} {x : List Bytes} (hx : ∀ l ∈ x, l ≠ []) :
    place r = x.reverse ↔ isOoz r.data = false ∧ owner r = x := by
  unfold place
  cases hz : isOoz r.data with
  | false => simp
  | true =>
    simp only [if_true]
    constructor
    · intro e
      have : oozLabel ∈ x := by rw [← List.mem_reverse, ← e]; exact List.mem_cons_self
      exact absurd rfl (hx _ this)
    · rintro ⟨e, -⟩; cases e

theorem encode_inj {a b : List Bytes} (ha : WF a) (hb : WF b) (h : (encode a true).drop 1 = (encode b true).drop 1) : a = b := by
  have h1 := labelsOf_encode a ha
  have h2 := labelsOf_encode b hb
  have e : ∀ c : List Bytes, (encode c true).length = ((encode c true).drop 1).length + 1 := by
    intro c; unfold encode; simp
  unfold labelsOf at h1 h2
  rw [e a, h] at h1
  rw [e b, h1] at h2
  exact h2

theorem place_ooz {zone : List Bytes} {r : Add} (hr : RecOk zone r) {q : List Bytes} (hq : WF q) :
    place r = [oozLabel, (encode q true).drop 1] ↔ isOoz r.data = true ∧ owner r = q := by
  obtain ⟨o, hro, hw, ho, -⟩ := RecOk_WF hr
  unfold place
  cases hz : isOoz r.data with
  | true =>
    simp only [if_true, List.cons.injEq, and_true, true_and]
    rw [hro, ho]
    constructor
    · exact fun e => encode_inj hw hq e
    · rintro rfl; rfl
  | false =>
    constructor
    · intro e
      have : oozLabel ∈ owner r := by
        have : (owner r).reverse = [oozLabel, (encode q true).drop 1] := e
        rw [← List.mem_reverse, this]; exact List.mem_cons_self
      rw [ho] at this
      have := (hw.1 _ this).1
      exact absurd this (by decide)
    · rintro ⟨e, -⟩; cases e

theorem filter_in {l : List Add} {x : List Bytes} (hx : ∀ y ∈ x, y ≠ []) (t : Nat) :
    ((l.filter fun r => decide (place r = x.reverse)).filter fun r => hasType t r.data) = recsAt l x t := by
  unfold recsAt
  rw [List.filter_filter]
  refine List.filter_congr fun r _ => ?_
  have := place_in (r := r) hx
  rw [Bool.eq_iff_iff]
  simp only [Bool.and_eq_true, decide_eq_true_eq, Bool.not_eq_true', beq_iff_eq, this]
  constructor
  · rintro ⟨a, b, c⟩; exact ⟨b, c, a⟩
  · rintro ⟨b, c, a⟩; exact ⟨a, b, c⟩

theorem filter_ooz {zone : List Bytes} {l : List Add} (hl : ∀ r ∈ l, RecOk zone r) {q : List Bytes} (hq : WF q) (t : Nat) :
    ((l.filter fun r => decide (place r = [oozLabel, (encode q true).drop 1])).filter fun r => hasType t r.data) = oozAt l q t := by
  unfold oozAt
  rw [List.filter_filter]
  refine List.filter_congr fun r hr => ?_
  have := place_ooz (hl r hr) hq
  rw [Bool.eq_iff_iff]
  simp only [Bool.and_eq_true, decide_eq_true_eq, beq_iff_eq, this]
  constructor
  · rintro ⟨a, b, c⟩; exact ⟨b, c, a⟩
  · rintro ⟨b, c, a⟩; exact ⟨a, b, c⟩

/-! ### The state after adding, by name -/

/-- A zone with the records `l`, before post-processing. -/
structure Zoned (cfg : Cfg) (zone : List Bytes) (l : List Add) (z : Zone) : Prop where
  wf : WF zone
  dname : z.dname = encode zone true
  recs : ∀ r ∈ l, RecOk zone r
  inv : ZInv cfg z.dname l z.root

theorem view_of_node {root n : Node} {x : List Bytes} (h : nodeAt root x = some n) : view root x.reverse = some (n.zcut, n.rrs) := by
  unfold view; unfold nodeAt at h; rw [h]; rfl

theorem Zoned.node {cfg : Cfg} {zone : List Bytes} {l : List Add} {z : Zone} (h : Zoned cfg zone l z) {x : List Bytes} {n : Node}
    (hn : nodeAt z.root x = some n) : NodeInv cfg z.dname (l.filter fun r => decide (place r = x.reverse)) n.rrs :=
  h.inv.node _ _ (view_of_node hn)

theorem Zoned.sets {cfg : Cfg} {zone : List Bytes} {l : List Add} {z : Zone} (h : Zoned cfg zone l z) {x : List Bytes}
    (hx : ∀ y ∈ x, y ≠ []) (t : Nat) :
    ((nodeAt z.root x).bind fun n => getType n.rrs t) = setOf cfg z.dname t (recsAt l x t) ∧
    (recsAt l x t ≠ [] → (setOf cfg z.dname t (recsAt l x t)).isSome = true) := by
  have key := h.inv.nodeD x.reverse
  have e : getType ((view z.root x.reverse).getD (false, [])).2 t = (nodeAt z.root x).bind fun n => getType n.rrs t := by
    unfold view nodeAt
    cases follow z.root x.reverse <;> rfl
  have h1 := key.sets t
  have h2 := key.some t
  rw [e, filter_in hx] at h1
  rw [e, filter_in hx] at h2
  exact ⟨h1, fun hne => by rw [← h1]; exact h2 hne⟩

theorem Zoned.ooz {cfg : Cfg} {zone : List Bytes} {l : List Add} {z : Zone} (h : Zoned cfg zone l z) {q : List Bytes}
    (hq : WF q) (t : Nat) :
    ((((z.root.find oozLabel).bind fun o => o.find ((encode q true).drop 1)).bind fun n => getType n.rrs t)) =
      setOf cfg z.dname t (oozAt l q t) ∧
    (oozAt l q t ≠ [] → (setOf cfg z.dname t (oozAt l q t)).isSome = true) := by
  have key := h.inv.nodeD [oozLabel, (encode q true).drop 1]
  have e : getType ((view z.root [oozLabel, (encode q true).drop 1]).getD (false, [])).2 t =
      ((z.root.find oozLabel).bind fun o => o.find ((encode q true).drop 1)).bind fun n => getType n.rrs t := by
    unfold view
    simp only [follow]
    cases z.root.find oozLabel with
    | none => rfl
    | some o =>
      simp only [Option.bind_some]
      generalize o.find ((encode q true).drop 1) = f
      cases f <;> rfl
  have h1 := key.sets t
  have h2 := key.some t
  rw [e, filter_ooz h.recs hq] at h1
  rw [e, filter_ooz h.recs hq] at h2
  exact ⟨h1, fun hne => by rw [← h1]; exact h2 hne⟩

/-! ### Post-processing, taken apart -/

theorem postproc_parts {cfg : Cfg} {z z' : Zone} (h : postproc cfg z = .ok (some z')) :
    zrootPhase1 cfg z = .ok (some ()) ∧ procInner (phase1 cfg z) z.root [] false = .ok (some ()) ∧
    z' = ⟨z.dname, attach z z.root⟩ := by
  unfold postproc at h
  obtain ⟨_, h1, h⟩ := andThen_some h
  obtain ⟨_, h2, h⟩ := andThen_some h
  obtain ⟨_, _, h⟩ := andThen_some h
  obtain ⟨_, _, h⟩ := andThen_some h
  cases h
  exact ⟨h1, h2, rfl⟩

theorem zrootPhase1_parts {cfg : Cfg} {z : Zone} (h : zrootPhase1 cfg z = .ok (some ())) :
    ∃ t m n b t' l, getType z.root.rrs 6 = some ⟨t, .soa m n b⟩ ∧ getType z.root.rrs 2 = some ⟨t', .ns l⟩ := by
  unfold zrootPhase1 at h
  split at h
  · next a b => exact ⟨_, _, _, _, _, _, a, b⟩
  · cases h
  · cases h
  · cases h

theorem checkDeleg_parts {n : Node} {name : List Bytes} {d a : Bool} (h : checkDeleg n name d a = .ok (some ())) (hd : d = true) :
    name ≠ [] ∧ name.head? ≠ some wild ∧ ∀ r ∈ n.rrs, r.type = 1 ∨ r.type = 28 ∨ (r.type = 2 ∧ a = true) := by
  subst hd
  unfold checkDeleg at h
  obtain ⟨_, h1, h⟩ := bind_some (show (assert (!name.isEmpty)).bind _ = _ from h)
  obtain ⟨_, h2, h⟩ := andThen_some h
  have h1 := assert_some h1
  have h2 := fatal_some h2
  have h3 := fatal_some h
  refine ⟨by simpa using h1, by simpa using h2, ?_⟩
  intro r hr
  rw [Bool.not_eq_false'] at h3
  have := List.all_eq_true.mp h3 r hr
  simp only [Bool.or_eq_true, Bool.and_eq_true, beq_iff_eq] at this
  rcases this with (h | h) | h
  · exact .inl h
  · exact .inr (.inl h)
  · exact .inr (.inr h)

theorem checkCname_parts {rrs : List RRset} (h : checkCname rrs = .ok (some ())) {r : RRset} {l : List RRset} (hr : rrs = r :: l)
    (ht : r.type = 5 ∨ r.type = 0xFF0F) : l = [] := by
  subst hr
  cases l with
  | nil => rfl
  | cons x y =>
    have := fatal_some (show fatal _ = _ from h)
    simp only [Bool.or_eq_false_iff, beq_eq_false_iff_ne] at this
    rcases ht with ht | ht
    · exact absurd ht this.1
    · exact absurd ht this.2

theorem sizeLoop_parts {cfg : Cfg} {z : Zone} {via d : Bool} (rrs : List RRset) : ∀ (m0 m : Nat),
    sizeLoop cfg z via d rrs m0 = .ok (some m) →
    m0 ≤ m ∧ ∀ r ∈ rrs, ∃ r' s, procSet z r = .ok (some r') ∧ setSize cfg d r' = .ok s ∧ s ≤ m := by
  induction rrs with
  | nil => intro m0 m h; cases h; exact ⟨Nat.le_refl _, by simp⟩
  | cons r l ih =>
    intro m0 m h
    rw [sizeLoop] at h
    obtain ⟨r', h1, h⟩ := andThen_some h
    obtain ⟨_, _, h⟩ := andThen_some h
    obtain ⟨s, h2, h⟩ := bind_some h
    obtain ⟨i1, i2⟩ := ih _ _ h
    refine ⟨by omega, ?_⟩
    intro x hx
    rcases List.mem_cons.mp hx with rfl | hx
    · exact ⟨r', s, h1, h2, by omega⟩
    · exact i2 x hx

theorem phase1_parts {cfg : Cfg} {z : Zone} {n : Node} {name : List Bytes} {d : Bool} (h : phase1 cfg z n name d = .ok (some ())) :
    checkDeleg n name d (n.zcut && !name.isEmpty) = .ok (some ()) ∧ checkCname n.rrs = .ok (some ()) ∧
    (∀ t, cnameAt (some n) = some t → ∃ c m, chaseCname cfg z t = .ok (some c) ∧ sizeLoop cfg z true d c.1 c.2.2 = .ok (some m) ∧
      baseSize cfg z name (n.zcut && !name.isEmpty) + (c.2.1 + m) ≤ 16376) ∧
    (cnameAt (some n) = none → ∃ m, sizeLoop cfg z false d n.rrs 0 = .ok (some m) ∧
      baseSize cfg z name (n.zcut && !name.isEmpty) + m ≤ 16376) := by
  unfold phase1 at h
  obtain ⟨_, h1, h⟩ := andThen_some h
  obtain ⟨_, h2, h⟩ := andThen_some h
  obtain ⟨m, h3, h⟩ := andThen_some h
  have hm : baseSize cfg z name (n.zcut && !name.isEmpty) + m ≤ 16376 := by simpa using fatal_some h
  refine ⟨h1, h2, ?_, ?_⟩
  · intro t ht
    rw [ht] at h3
    obtain ⟨c, h4, h3⟩ := andThen_some h3
    obtain ⟨m', h5, h3⟩ := andThen_some h3
    cases h3
    exact ⟨c, m', h4, h5, hm⟩
  · intro ht
    rw [ht] at h3
    exact ⟨m, h3, hm⟩

/-! ### Glue -/

/-- Addresses as glue. -/
def toGlue : RRset → Option Glue
  | ⟨t, .a l⟩ => some ⟨t, l⟩
  | ⟨t, .aaaa l⟩ => some ⟨t, l⟩
  | _ => none

theorem procNs_cases {cfg : Cfg} {zone : List Bytes} {l : List Add} {z : Zone} (h : Zoned cfg zone l z) {q : List Bytes} (hq : WF q)
    {g : Option Glue × Option Glue} (hp : procNs z (encode q true) = .ok (some g)) :
    (∃ x, q = x ++ zone ∧ (∀ s, s ≠ [] → s <:+ x → ¬ IsCut z.root s) ∧ g = (none, none)) ∨
    (∃ x s, q = x ++ zone ∧ s ≠ [] ∧ s <:+ x ∧ IsCut z.root s ∧ (recsAt l x 1 ≠ [] ∨ recsAt l x 28 ≠ []) ∧
      glueOf (setOf cfg z.dname 1 (recsAt l x 1)) = .ok g.1 ∧ glueOf (setOf cfg z.dname 28 (recsAt l x 28)) = .ok g.2 ∧
      noCount (setOf cfg z.dname 1 (recsAt l x 1)) = false ∧ noCount (setOf cfg z.dname 28 (recsAt l x 28)) = false) ∨
    (¬ zone <:+ q ∧ glueOf (setOf cfg z.dname 1 (oozAt l q 1)) = .ok g.1 ∧ glueOf (setOf cfg z.dname 28 (oozAt l q 28)) = .ok g.2) := by
  obtain ⟨dn, root⟩ := z
  have hdn : dn = encode zone true := h.dname
  by_cases hz : zone <:+ q
  · obtain ⟨x, rfl⟩ := hz
    obtain ⟨n, st, c, hs, h1, h2, h3⟩ := C18_zone zone root x (x ++ zone) none h.wf hq
    obtain ⟨h4, h5, h6⟩ := h3 rfl
    have hx : ∀ y ∈ x, y ≠ [] := by
      intro y hy e
      have := (hq.1 y (List.mem_append_left _ hy)).1
      rw [e] at this; exact absurd this (by decide)
    unfold procNs at hp
    rw [hdn] at hp
    rw [hs, Outcome.bind_ok] at hp
    cases st with
    | noauth => exact absurd ⟨x, rfl⟩ (h1.mp rfl)
    | auth =>
      refine .inl ⟨x, rfl, ?_, ?_⟩
      · intro s a b c
        cases h4.mpr ⟨s, a, b, c⟩
      · simp only [if_true] at hp; cases hp; rfl
    | deleg =>
      refine .inr (.inl ?_)
      obtain ⟨hn, s, s1, s2, s3, -⟩ := h5 rfl
      simp only [reduceCtorEq, if_false] at hp
      obtain ⟨_, _, hp⟩ := bind_some hp
      obtain ⟨_, p1, hp⟩ := andThen_some hp
      obtain ⟨_, p2, hp⟩ := andThen_some hp
      obtain ⟨g4, p3, hp⟩ := bind_some hp
      obtain ⟨g6, p4, hp⟩ := bind_some hp
      cases hp
      obtain ⟨a1, a2⟩ := h.sets hx 1
      obtain ⟨b1, b2⟩ := h.sets hx 28
      simp only [ne_eq, reduceCtorEq, not_false_eq_true, decide_true, decide_false, cond_false, Bool.true_and] at p1 p2 p3 p4
      rw [hn] at p1 p2 p3 p4
      have p1 := fatal_some p1
      have p2 := fatal_some p2
      change ((nodeAt root x).bind fun n => getType n.rrs 1) = _ at a1
      change ((nodeAt root x).bind fun n => getType n.rrs 28) = _ at b1
      rw [a1, b1] at p1 p2
      rw [a1] at p3
      rw [b1] at p4
      refine ⟨x, s, rfl, s1, s2, s3, ?_, p3, p4, ?_, ?_⟩
      · apply Decidable.byContradiction
        intro hn
        have : recsAt l x 1 = [] ∧ recsAt l x 28 = [] := by
          constructor
          · apply Decidable.byContradiction; intro e; exact hn (.inl e)
          · apply Decidable.byContradiction; intro e; exact hn (.inr e)
        rw [this.1, this.2] at p1
        cases p1
      · exact (Bool.or_eq_false_iff.mp p2).1
      · exact (Bool.or_eq_false_iff.mp p2).2
  · refine .inr (.inr ⟨hz, ?_⟩)
    obtain ⟨n, st, c, hs, h1, h2, h3⟩ := C18_zone zone root [] q none h.wf hq
    have hst := h1.mpr hz
    obtain ⟨hn, -⟩ := h2 hst
    subst hst
    subst hn
    unfold procNs at hp
    rw [hdn] at hp
    rw [hs, Outcome.bind_ok] at hp
    simp only [reduceCtorEq, if_false] at hp
    obtain ⟨_, _, hp⟩ := bind_some hp
    obtain ⟨_, p1, hp⟩ := andThen_some hp
    obtain ⟨_, p2, hp⟩ := andThen_some hp
    obtain ⟨g4, p3, hp⟩ := bind_some hp
    obtain ⟨g6, p4, hp⟩ := bind_some hp
    cases hp
    simp only [decide_true, cond_true] at p3 p4
    have a := (h.ooz hq 1).1
    have b := (h.ooz hq 28).1
    simp only at a b
    rw [a] at p3
    rw [b] at p4
    exact ⟨p3, p4⟩

end Gdnsd.Load
