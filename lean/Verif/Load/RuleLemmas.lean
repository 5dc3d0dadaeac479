import Verif.Load.ReplyLemmas
/-
A file that loads follows the rules.
-/
namespace Gdnsd.Load
open Enc hiding scopeOf
open Tree TreeSpec DnameSpec EncSpec LookupSpec LoadSpec

/-- Data that form no set with others. -/
def Lone (b : Body) : Prop := ∀ c, append b c = none ∧ append c b = none

theorem foldlM_lone' {cfg : Cfg} {origin : Bytes} {t : Nat} {r : Add} (hb : Lone (bodyOf cfg origin t r)) (l : List Add) :
    ∀ (b c : Body), r ∈ l → l.foldlM (fun b x => append b (bodyOf cfg origin t x)) b ≠ some c := by
  induction l with
  | nil => intro b c h; cases h
  | cons x l ih =>
    intro b c h e
    rw [List.foldlM_cons] at e
    rcases List.mem_cons.mp h with rfl | h
    · rw [(hb b).2] at e; cases e
    · cases ha : append b (bodyOf cfg origin t x) with
      | none => rw [ha] at e; cases e
      | some b' => rw [ha] at e; exact ih b' c h e

theorem setOf_lone {cfg : Cfg} {origin : Bytes} {t : Nat} {l : List Add} {r : Add} {s : RRset} (hb : Lone (bodyOf cfg origin t r))
    (h : setOf cfg origin t l = some s) (hr : r ∈ l) : l = [r] := by
  cases l with
  | nil => cases h
  | cons a l =>
    simp only [setOf, Option.map_eq_some_iff] at h
    obtain ⟨b, h, -⟩ := h
    rcases List.mem_cons.mp hr with rfl | hr
    · cases l with
      | nil => rfl
      | cons x l => rw [List.foldlM_cons, (hb _).1] at h; cases h
    · exact absurd h (foldlM_lone' hb l _ _ hr)

theorem lone_soa (m n : Bytes) (t : Bytes) : Lone (.soa m n t) := fun c => by cases c <;> exact ⟨rfl, rfl⟩
theorem lone_cname (d : Bytes) : Lone (.cname d) := fun c => by cases c <;> exact ⟨rfl, rfl⟩
theorem lone_dync (a : Nat) (b : UInt32) : Lone (.dync a b) := fun c => by cases c <;> exact ⟨rfl, rfl⟩
theorem lone_dynA (a : Nat) (b : UInt32) : Lone (.dynA a b) := fun c => by cases c <;> exact ⟨rfl, rfl⟩
theorem lone_dynAAAA (a : Nat) (b : UInt32) : Lone (.dynAAAA a b) := fun c => by cases c <;> exact ⟨rfl, rfl⟩

theorem recsAt_records {l : List Add} {x : List Bytes} {t : Nat} {r : Add} :
    r ∈ recsAt l x t ↔ r ∈ recordsAt l x ∧ hasType t r.data = true := by
  unfold recsAt recordsAt
  simp only [List.mem_filter, Bool.and_eq_true]
  constructor
  · rintro ⟨a, b, c, d⟩; exact ⟨⟨a, b, c⟩, d⟩
  · rintro ⟨⟨a, b, c⟩, d⟩; exact ⟨a, b, c, d⟩

theorem some_type (d : Rdata) : ∃ t, hasType t d = true := by
  cases d <;> first
    | exact ⟨1, rfl⟩ | exact ⟨28, rfl⟩ | exact ⟨5, rfl⟩ | exact ⟨0xFF0F, rfl⟩ | exact ⟨12, rfl⟩ | exact ⟨2, rfl⟩ | exact ⟨15, rfl⟩
    | exact ⟨33, rfl⟩ | exact ⟨35, rfl⟩ | exact ⟨16, rfl⟩ | exact ⟨6, rfl⟩
    | (rename_i t rd; exact ⟨t.toNat, beq_self_eq_true _⟩)

/-- A name with records is a node. -/
theorem Zoned.nodeOf {cfg : Cfg} {zone : List Bytes} {l : List Add} {z : Zone} (h : Zoned cfg zone l z) {x : List Bytes} {r : Add}
    (hr : r ∈ recordsAt l x) : (∀ y ∈ x, y ≠ []) ∧ ∃ m, nodeAt z.root x = some m := by
  unfold recordsAt at hr
  rw [List.mem_filter, Bool.and_eq_true, Bool.not_eq_true', beq_iff_eq] at hr
  obtain ⟨h1, h2, rfl⟩ := hr
  obtain ⟨o, -, hw, ho, -⟩ := RecOk_WF (h.recs r h1)
  have hx : ∀ y ∈ owner r, y ≠ [] := by rw [ho]; exact labels_ne hw
  refine ⟨hx, Option.isSome_iff_exists.mp ?_⟩
  exact (h.exists_iff hx).mpr (.inr ⟨r, h1, h2, List.suffix_refl _⟩)

/-- The set a record is in. -/
theorem Zoned.setAt {cfg : Cfg} {zone : List Bytes} {l : List Add} {z : Zone} (h : Zoned cfg zone l z) {x : List Bytes} {t : Nat} {r : Add}
    (hr : r ∈ recsAt l x t) : (∀ y ∈ x, y ≠ []) ∧ ∃ m s, nodeAt z.root x = some m ∧ s ∈ m.rrs ∧ s.type = t ∧
      setOf cfg z.dname t (recsAt l x t) = some s := by
  obtain ⟨hx, m, hm⟩ := h.nodeOf (recsAt_records.mp hr).1
  obtain ⟨h1, h2⟩ := h.getType hx hm t
  cases hg : Tree.getType m.rrs t with
  | none => rw [h2.mpr hg] at hr; cases hr
  | some s =>
    obtain ⟨a, b⟩ := getType_some hg
    exact ⟨hx, m, s, hm, a, b, by rw [← h1, hg]⟩

theorem soa_rec {cfg : Cfg} {zone : List Bytes} {l : List Add} {z : Zone} (h : Zoned cfg zone l z) {x : List Bytes} {r : Add}
    (hr : r ∈ recsAt l x 6) : ∃ m n a b c d e, r.data = .soa m n a b c d e := by
  have ht := recsAt_type hr
  have hn := typed h (recsAt_mem hr) (by rfl) ht
  cases hd : r.data <;> rw [hd] at ht <;> first
    | exact ⟨_, _, _, _, _, _, _, rfl⟩
    | (cases ht; done)
    | exact absurd hd (hn _ _)

theorem ns_len (l : List Add) (h : ∀ r ∈ l, ∃ d, r.data = .ns d) : (l.filterMap fun r => nsName r.data).length = l.length := by
  induction l with
  | nil => rfl
  | cons r l ih =>
    obtain ⟨d, hd⟩ := h r List.mem_cons_self
    rw [List.filterMap_cons, hd]
    show (labelsOf d :: _).length = _
    rw [List.length_cons, ih (fun x hx => h x (List.mem_cons_of_mem _ hx)), List.length_cons]

/-- The nameservers of a loaded zone: they are no more than 64, and have the glue they need. -/
theorem Loaded.nameservers {cfg : Cfg} {zone : List Bytes} {l : List Add} {z : Zone} {root : Node} (h : Loaded cfg zone l z root)
    {c : List Bytes} {r : Add} (hr : r ∈ recsAt l c 2) : (recsAt l c 2).length ≤ 64 ∧
    ∀ y, nsName r.data = some (y ++ zone) → delegated l y = true →
      (recsAt l y 1 ≠ [] ∨ recsAt l y 28 ≠ []) ∧
      ∀ t s, t = 1 ∨ t = 28 → setOf cfg z.dname t (recsAt l y t) = some s → isDyn s.body = false := by
  obtain ⟨hx, m, s, hm, hs, ht, hset⟩ := h.zoned.setAt hr
  have hall : ∀ a ∈ recsAt l c 2, ∃ d, a.data = .ns d := fun a ha => ns_only h.zoned (recsAt_mem ha) (recsAt_type ha)
  obtain ⟨ns, h1, h2⟩ := setOf_ns (l := recsAt l c 2) hall hset
  have hok := (h.zoned.setOk hx hset).1
  obtain ⟨ttl, b⟩ := s
  have h1 : b = .ns ns := h1
  subst h1
  refine ⟨?_, ?_⟩
  · rw [← ns_len _ hall, ← h2, List.length_map]; exact hok.2.1
  · intro y hy hd
    obtain ⟨⟨d, hp, -⟩, -⟩ := h.phase hm
    obtain ⟨-, -, -, p4⟩ := phase1_parts hp
    have hnc : cnameAt (some m) = none := by
      rcases h.kinds hm with ⟨ttl, d, e⟩ | ⟨ttl, res, k, e⟩ | e
      · rw [e] at hs; cases List.mem_singleton.mp hs
      · rw [e] at hs; cases List.mem_singleton.mp hs
      · exact cnameAt_none fun r hr => (e r hr).1
    obtain ⟨k, hk, -⟩ := p4 hnc
    obtain ⟨r', _, hr', -⟩ := (sizeLoop_parts _ _ _ hk).2 _ hs
    obtain ⟨ns', h3, h4⟩ := andThen_some (show andThen (procNsList z ns) _ = _ from hr')
    obtain ⟨i1, i2⟩ := procNsList_spec h.zoned ns ns' (fun y hy => (hok.2.2 y hy).1) h3
    have hmem : y ++ zone ∈ ns'.map fun x => labelsOf x.dname := by
      have : (ns'.map fun x => labelsOf x.dname) = ns.map fun x => labelsOf x.dname := by
        rw [show (fun x : NsRd => labelsOf x.dname) = labelsOf ∘ NsRd.dname from rfl, ← List.map_map, ← List.map_map, i1]
      rw [this, h2]
      exact List.mem_filterMap.mpr ⟨r, hr, hy⟩
    obtain ⟨e, he, hey⟩ := List.mem_map.mp hmem
    obtain ⟨n1, -, -, n4⟩ := i2 e he
    have hw : WF (y ++ zone) := by rw [← hey]; exact (NameOk_encode n1).1
    rw [hey] at n4
    have hcut := (h.zoned.delegated_iff (WF_left hw)).mp hd
    generalize e.glue4 = g4 at n4
    generalize e.glue6 = g6 at n4
    cases n4 with
    | auth x a1 a2 =>
      obtain ⟨s, b1, b2, b3⟩ := hcut
      rw [List.append_cancel_right a1] at b2
      exact absurd b3 (a2 s b1 b2)
    | below x s a1 a2 a3 a4 a5 a6 =>
      rw [List.append_cancel_right a1]
      exact ⟨a5, a6⟩
    | outside a1 => exact absurd (List.suffix_append _ _) a1

theorem append_raw_right {b b' : Body} {u : Nat} {m : List Bytes} (h : append b (.raw u m) = some b') : ∃ l, b' = .raw u l := by
  cases b <;> simp only [append, reduceCtorEq] at h
  next v l =>
    split at h
    · next e => cases h; rw [e]; exact ⟨_, rfl⟩
    · cases h

theorem append_raw_left {b b' : Body} {u : Nat} {m : List Bytes} (h : append (.raw u m) b = some b') : ∃ l, b' = .raw u l := by
  cases b <;> simp only [append, reduceCtorEq] at h
  next v l =>
    split at h
    · cases h; exact ⟨_, rfl⟩
    · cases h

theorem fold_raw {cfg : Cfg} {origin : Bytes} {t u : Nat} : ∀ {l : List Add} {b b' : Body},
    l.foldlM (fun b x => append b (bodyOf cfg origin t x)) b = some b' →
    ((∃ m, b = .raw u m) ∨ ∃ r ∈ l, ∃ m, bodyOf cfg origin t r = .raw u m) → ∃ m, b' = .raw u m := by
  intro l
  induction l with
  | nil =>
    intro b b' h hr
    cases h
    rcases hr with h | ⟨r, hr, -⟩
    · exact h
    · cases hr
  | cons x l ih =>
    intro b b' h hr
    rw [List.foldlM_cons] at h
    cases ha : append b (bodyOf cfg origin t x) with
    | none => rw [ha] at h; cases h
    | some b1 =>
      rw [ha] at h
      refine ih h ?_
      rcases hr with ⟨m, rfl⟩ | ⟨r, hr, m, hm⟩
      · exact .inl (append_raw_left ha)
      · rcases List.mem_cons.mp hr with e | hr
        · rw [← e, hm] at ha; exact .inl (append_raw_right ha)
        · exact .inr ⟨r, hr, m, hm⟩

theorem setOf_raw {cfg : Cfg} {origin : Bytes} {t u : Nat} {l : List Add} {s : RRset} (h : setOf cfg origin t l = some s)
    {r : Add} (hr : r ∈ l) {m : List Bytes} (hm : bodyOf cfg origin t r = .raw u m) : ∃ m, s.body = .raw u m := by
  cases l with
  | nil => cases hr
  | cons x l =>
    simp only [setOf, Option.map_eq_some_iff] at h
    obtain ⟨b, hb, rfl⟩ := h
    refine fold_raw hb ?_
    rcases List.mem_cons.mp hr with e | hr
    · rw [← e]; exact .inl ⟨m, hm⟩
    · exact .inr ⟨r, hr, m, hm⟩

theorem Loaded.rules {cfg : Cfg} {zone : List Bytes} {l : List Add} {z : Zone} {root : Node} (h : Loaded cfg zone l z root) :
    Rules zone l := by
  have hset : ∀ {x : List Bytes} {t : Nat} {r : Add}, r ∈ recsAt l x t → Lone (bodyOf cfg z.dname t r) → recsAt l x t = [r] := by
    intro x t r hr hl
    obtain ⟨-, m, s, -, -, -, hs⟩ := h.zoned.setAt hr
    exact setOf_lone hl hs hr
  have hnil : ∀ y ∈ ([] : List Bytes), y ≠ [] := by simp
  have hroot : nodeAt z.root [] = some z.root := rfl
  obtain ⟨st, sm, sn, sb, nt, nl, hsoa, hns⟩ := zrootPhase1_parts h.first
  have hdyn : ∀ x r rhs m, r ∈ recordsAt l x → r.data = .dyna rhs m → recsAt l x 1 = [r] ∧ recsAt l x 28 = [r] := by
    intro x r rhs m hr hd
    refine ⟨hset (recsAt_records.mpr ⟨hr, by rw [hd]; rfl⟩) ?_, hset (recsAt_records.mpr ⟨hr, by rw [hd]; rfl⟩) ?_⟩
    · unfold bodyOf; rw [hd]; exact lone_dynA _ _
    · unfold bodyOf; rw [hd]; exact lone_dynAAAA _ _
  have hdel : ∀ x, delegated l x = true → ∀ r ∈ recordsAt l x,
      x.head? ≠ some Tree.wild ∧ (hasType 1 r.data = true ∨ hasType 28 r.data = true ∨ hasType 2 r.data = true) := by
    intro x hd r hr
    obtain ⟨hx, m, hm⟩ := h.zoned.nodeOf hr
    obtain ⟨⟨d, hp, hd'⟩, -⟩ := h.phase hm
    obtain ⟨-, h2, h3⟩ := checkDeleg_parts (phase1_parts hp).1 (hd'.mpr ((h.zoned.delegated_iff hx).mp hd))
    refine ⟨h2, ?_⟩
    obtain ⟨t, ht⟩ := some_type r.data
    obtain ⟨-, m', s, hm', hs, hst, -⟩ := h.zoned.setAt (recsAt_records.mpr ⟨hr, ht⟩)
    rw [hm] at hm'; cases hm'
    rcases h3 s hs with e | e | ⟨e, -⟩ <;> rw [hst] at e <;> subst e
    · exact .inl ht
    · exact .inr (.inl ht)
    · exact .inr (.inr ht)
  have cutOf : ∀ x, x ≠ [] → recsAt l x 2 ≠ [] → (∀ y ∈ x, y ≠ []) ∧ IsCut z.root x ∧ ∃ m, nodeAt z.root x = some m := by
    intro x hx h2
    obtain ⟨r, hr⟩ := List.exists_mem_of_ne_nil _ h2
    obtain ⟨hxl, hm⟩ := h.zoned.nodeOf (recsAt_records.mp hr).1
    refine ⟨hxl, (h.zoned.cut_iff hxl hx).mpr ⟨r, recsAt_mem hr, ?_, ns_only h.zoned (recsAt_mem hr) (recsAt_type hr)⟩, hm⟩
    have := (List.mem_filter.mp hr).2
    simp only [Bool.and_eq_true, beq_iff_eq] at this
    exact this.2.1
  constructor
  · have ⟨_, h2⟩ := h.zoned.getType hnil hroot 6
    cases hrec : recsAt l [] 6 with
    | nil => rw [h2.mp hrec] at hsoa; cases hsoa
    | cons r rest =>
      have hr : r ∈ recsAt l [] 6 := by rw [hrec]; exact List.mem_cons_self
      obtain ⟨m, n, a, b, c, d, e, hd⟩ := soa_rec h.zoned hr
      refine ⟨r, ?_, ?_⟩
      · rw [← hrec]; refine hset hr ?_
        unfold bodyOf; rw [hd]; exact lone_soa _ _ _
      · intro x hx
        cases hrec' : recsAt l x 6 with
        | nil => rfl
        | cons r' rest' =>
          have hr' : r' ∈ recsAt l x 6 := by rw [hrec']; exact List.mem_cons_self
          obtain ⟨_, _, _, _, _, _, _, hd'⟩ := soa_rec h.zoned hr'
          obtain ⟨o, -, -, ho, hok⟩ := RecOk_WF (h.zoned.recs r' (recsAt_mem hr'))
          rw [hd'] at hok
          have ho' := (List.mem_filter.mp hr').2
          simp only [Bool.and_eq_true, beq_iff_eq] at ho'
          rw [← ho'.2.1, ho] at hx
          exact absurd hok.2.2 hx
  · have ⟨_, h2⟩ := h.zoned.getType hnil hroot 2
    intro e; rw [h2.mp e] at hns; cases hns
  · intro x r hr
    have key : ∀ t, r ∈ recsAt l x t → Lone (bodyOf cfg z.dname t r) → (∃ m s, nodeAt z.root x = some m ∧ m.rrs = [s] ∧ s.type = t) →
        recordsAt l x = [r] := by
      rintro t hr hl ⟨m, s, hm, hs, hst⟩
      have e1 := hset hr hl
      rw [← e1]
      unfold recsAt recordsAt
      refine List.filter_congr fun a ha => ?_
      cases hz : !isOoz a.data
      · rfl
      · cases ho : owner a == x
        · rfl
        · have har : a ∈ recordsAt l x := by
            unfold recordsAt; rw [List.mem_filter, hz, ho]; exact ⟨ha, rfl⟩
          obtain ⟨t', ht'⟩ := some_type a.data
          obtain ⟨-, m', s', hm', hs', hst', -⟩ := h.zoned.setAt (recsAt_records.mpr ⟨har, ht'⟩)
          rw [hm] at hm'; cases hm'
          rw [hs] at hs'
          cases List.mem_singleton.mp hs'
          rw [← hst, hst', ht']; rfl
    rcases hr with hr | hr
    · obtain ⟨d, hd⟩ := cname_rec h.zoned hr
      obtain ⟨hx, m, s, hm, hs, hst, -⟩ := h.zoned.setAt hr
      refine key 5 hr (by unfold bodyOf; rw [hd]; exact lone_cname _) ⟨m, s, hm, ?_, hst⟩
      obtain ⟨d', hd'⟩ := type5 ((h.zoned.node hm).ok s hs) hst
      rcases h.kinds hm with ⟨ttl, d, e⟩ | ⟨ttl, res, k, e⟩ | e
      · rw [e] at hs ⊢; rw [List.mem_singleton.mp hs]
      · rw [e] at hs ⊢; rw [List.mem_singleton.mp hs]
      · exact absurd hd' ((e s hs).1 _)
    · obtain ⟨d, k, hd⟩ := dync_rec h.zoned hr
      obtain ⟨hx, m, s, hm, hs, hst, -⟩ := h.zoned.setAt hr
      refine key 0xFF0F hr (by unfold bodyOf; rw [hd]; exact lone_dync _ _) ⟨m, s, hm, ?_, hst⟩
      obtain ⟨a, b, hd'⟩ := typeDync ((h.zoned.node hm).ok s hs) hst
      rcases h.kinds hm with ⟨ttl, d, e⟩ | ⟨ttl, res, k, e⟩ | e
      · rw [e] at hs ⊢; rw [List.mem_singleton.mp hs]
      · rw [e] at hs ⊢; rw [List.mem_singleton.mp hs]
      · exact absurd hd' ((e s hs).2 _ _)
  · exact hdyn
  · intro x
    cases hrec : recsAt l x 2 with
    | nil => simp
    | cons r rest =>
      rw [← hrec]
      exact (h.nameservers (c := x) (r := r) (by rw [hrec]; exact List.mem_cons_self)).1
  · intro x hx
    refine ⟨?_, fun hd => ?_⟩
    · cases hrec : recsAt l x 2 with
      | nil => rfl
      | cons r rest =>
        have hr : r ∈ recsAt l x 2 := by rw [hrec]; exact List.mem_cons_self
        obtain ⟨hxl, -⟩ := h.zoned.nodeOf (recsAt_records.mp hr).1
        obtain ⟨d, hd⟩ := ns_only h.zoned (recsAt_mem hr) (recsAt_type hr)
        have ho := (List.mem_filter.mp hr).2
        simp only [Bool.and_eq_true, beq_iff_eq, Bool.not_eq_true'] at ho
        have hp := (place_in hxl).mpr ⟨ho.1, ho.2.1⟩
        refine absurd ?_ (h.zoned.inv.wild r (recsAt_mem hr) d hd)
        rw [hp, List.getLast?_reverse, hx]; rfl
    · cases hrec : recordsAt l x with
      | nil => rfl
      | cons r rest => exact absurd hx (hdel x hd r (by rw [hrec]; exact List.mem_cons_self)).1
  · intro c x hc hcx h1 h2
    have hxn : x ≠ [] := by rintro rfl; exact hc (List.suffix_nil.mp hcx)
    obtain ⟨-, c1, -⟩ := cutOf c hc h1
    obtain ⟨-, c2, m, hm⟩ := cutOf x hxn h2
    exact (h.phase hm).2 c hc hcx c1 c2
  · exact fun x hd r hr => (hdel x hd r hr).2
  · intro c y r hr hy hd
    obtain ⟨-, h2⟩ := h.nameservers hr
    obtain ⟨h3, h4⟩ := h2 y hy hd
    refine ⟨h3, fun a ha => ?_⟩
    cases had : a.data <;> first | rfl | skip
    · next rhs m =>
      obtain ⟨e1, -⟩ := hdyn y a rhs m ha had
      obtain ⟨-, m', s, -, -, -, hs⟩ := h.zoned.setAt (recsAt_records.mpr ⟨ha, show hasType 1 a.data = true by rw [had]; rfl⟩)
      have := h4 1 s (.inl rfl) hs
      rw [e1] at hs
      simp only [setOf, List.foldlM_nil, Option.pure_def, Option.map_some, Option.some.injEq] at hs
      rw [← hs] at this
      unfold bodyOf at this
      rw [had] at this
      cases this
    · next rhs m =>
      rcases (hdel y hd a ha).2 with e | e | e <;> rw [had] at e <;> cases e
  · intro r hr t rd hd
    have hrec : r ∈ recsAt l (owner r) t.toNat := by
      refine recsAt_records.mpr ⟨?_, by rw [hd]; exact beq_self_eq_true _⟩
      unfold recordsAt
      rw [List.mem_filter, hd]
      exact ⟨hr, by rw [beq_self_eq_true]; rfl⟩
    obtain ⟨-, m, s, hm, hs, hst, hset⟩ := h.zoned.setAt hrec
    obtain ⟨b, hb⟩ := setOf_raw (u := t.toNat) hset hrec (by unfold bodyOf; rw [hd])
    have hok := (h.zoned.node hm).ok s hs
    unfold SetOk at hok
    rw [hb] at hok
    obtain ⟨h1, h2⟩ := noGeneric_of hok.2
    have ht : t.toNat < 65536 := by
      obtain ⟨o, -, ho, -⟩ := h.zoned.recs r hr
      rw [hd] at ho; exact ho.1
    rw [Nat.mod_eq_of_lt ht]
    refine ⟨fun hmem => h1 ?_, fun hc => h2 (by omega)⟩
    simp only [List.mem_cons, List.not_mem_nil, or_false] at hmem ⊢
    omega
  · exact h.zoned.inv.nums

end Gdnsd.Load
