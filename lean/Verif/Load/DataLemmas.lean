import Verif.Load.ChainLemmas
import Verif.Rand.TtlProps
/-
The records of a zone file are the records served.
-/
namespace Gdnsd.Load
open Enc Tree TreeSpec DnameSpec EncSpec LookupSpec LoadSpec

theorem put32_be (x : UInt32) : be32 x = u32 x.toNat := by
  have hx := x.toNat_lt
  unfold be32 Ttl.put32 u32 u16
  have h : ∃ a b c d : Nat, a < 256 ∧ b < 256 ∧ c < 256 ∧ d < 256 ∧ x.toNat = a + 256 * b + 65536 * c + 16777216 * d :=
    ⟨x.toNat % 256, x.toNat / 256 % 256, x.toNat / 65536 % 256, x.toNat / 16777216, by omega, by omega, by omega, by omega, by omega⟩
  obtain ⟨a, b, c, d, ha, hb, hc, hd, he⟩ := h
  rw [Ttl.bswap_digits x a b c d ha hb hc hd he, he]
  have e1 : (d + 256 * c + 65536 * b + 16777216 * a) % 256 = d := by omega
  have e2 : (d + 256 * c + 65536 * b + 16777216 * a) / 256 % 256 = c := by omega
  have e3 : (d + 256 * c + 65536 * b + 16777216 * a) / 65536 % 256 = b := by
    have : (d + 256 * c + 65536 * b + 16777216 * a) / 65536 = b + 256 * a := by omega
    omega
  have e4 : (d + 256 * c + 65536 * b + 16777216 * a) / 16777216 = a := by omega
  have f1 : (a + 256 * b + 65536 * c + 16777216 * d) / 65536 = c + 256 * d := by omega
  have f2 : (a + 256 * b + 65536 * c + 16777216 * d) % 65536 = a + 256 * b := by omega
  rw [e1, e2, e3, e4, f1, f2]
  have g : ∀ u v : Nat, v < 256 → [UInt8.ofNat ((v + 256 * u) / 256), UInt8.ofNat (v + 256 * u)] = [UInt8.ofNat u, UInt8.ofNat v] := by
    intro u v hv
    rw [show (v + 256 * u) / 256 = u by omega]
    congr 2
    apply UInt8.toNat.inj
    rw [UInt8.toNat_ofNat', UInt8.toNat_ofNat']; omega
  rw [g d c hc, g b a ha]
  rfl

theorem be16_u16 (x : UInt32) : be16 x = u16 x.toNat := by
  unfold be16 put16 u16
  have h : ∀ n, UInt8.ofNat (n % 256) = UInt8.ofNat n := by
    intro n
    apply UInt8.toNat.inj
    rw [UInt8.toNat_ofNat', UInt8.toNat_ofNat']; omega
  rw [h, h]

theorem ttlVal_bswap (x : UInt32) : ttlVal (Ttl.bswap x) = x.toNat := by
  unfold ttlVal; rw [Ttl.bswap_bswap]

theorem ttl0_of {cfg : Cfg} (hg : cfg.ttls.accepted = true) (r : Add) (hs : isStatic r.data = true) :
    ttlVal (ttl0 cfg r) = ttlOf cfg.ttls r := by
  have hc := Ttl.clampTtl_toNat cfg.ttls hg r.ttl
  unfold ttl0 ttlOf
  cases hd : r.data <;> rw [hd] at hs <;> simp only [] <;> first
    | (cases hs; done)
    | (rw [ttlVal_bswap, hc]; done)
    | (rw [ttlVal_bswap, (Ttl.C59_soa_partial cfg.ttls hg r.ttl _).2.1, (Ttl.C59_soa_partial cfg.ttls hg r.ttl _).1]; rfl)
    | (rw [ttlVal_bswap, (Ttl.C59_txt_partial cfg.ttls hg _ r.ttl).1]
       simp only [decide_eq_true_eq])

theorem answer_append (resolve : Nat → DynRes) (q : List Bytes) (ttl : UInt32) {a b c : Body} (h : append a b = some c) :
    answerRecs resolve q ⟨ttl, c⟩ = answerRecs resolve q ⟨ttl, a⟩ ++ answerRecs resolve q ⟨ttl, b⟩ := by
  cases append_iff.mp h <;> simp [answerRecs]

theorem answer_one {cfg : Cfg} (hg : cfg.ttls.accepted = true) (resolve : Nat → DynRes) (q : List Bytes) (ttl : UInt32) (origin : Bytes)
    {t : Nat} {r : Add} (ht : hasType t r.data = true) (hs : isStatic r.data = true) :
    answerRecs resolve q ⟨ttl, bodyOf cfg origin t r⟩ = [⟨q, t, ttlVal ttl, pieces cfg.ttls r.data⟩] := by
  unfold bodyOf
  cases hd : r.data <;> rw [hd] at ht hs <;> simp only [] <;> first
    | (cases hs; done)
    | (have ht : _ = _ := beq_iff_eq.mp ht
       subst ht
       simp only [answerRecs, pieces, List.map_cons, List.map_nil, be16_u16, put32_be, negTtl,
         (Ttl.C59_soa_partial cfg.ttls hg r.ttl _).1])

theorem foldlM_answer {cfg : Cfg} (hg : cfg.ttls.accepted = true) (resolve : Nat → DynRes) (q : List Bytes) (ttl : UInt32) (origin : Bytes)
    {t : Nat} (l : List Add) : ∀ (b c : Body), (∀ r ∈ l, hasType t r.data = true ∧ isStatic r.data = true) →
    l.foldlM (fun b x => append b (bodyOf cfg origin t x)) b = some c →
    answerRecs resolve q ⟨ttl, c⟩ = answerRecs resolve q ⟨ttl, b⟩ ++ l.map fun x => ⟨q, t, ttlVal ttl, pieces cfg.ttls x.data⟩ := by
  induction l with
  | nil => intro b c _ h; cases h; simp
  | cons r l ih =>
    intro b c hl h
    rw [List.foldlM_cons] at h
    cases ha : append b (bodyOf cfg origin t r) with
    | none => rw [ha] at h; cases h
    | some b' =>
      rw [ha] at h
      obtain ⟨h1, h2⟩ := hl r List.mem_cons_self
      rw [ih b' c (fun x hx => hl x (List.mem_cons_of_mem _ hx)) h, answer_append resolve q ttl ha, answer_one hg resolve q ttl origin h1 h2]
      simp

/-- The records of a static set, in the order of the file. -/
theorem setOf_answer {cfg : Cfg} (hg : cfg.ttls.accepted = true) (resolve : Nat → DynRes) (q : List Bytes) (origin : Bytes)
    {t : Nat} {l : List Add} {s : RRset} (hl : ∀ r ∈ l, hasType t r.data = true ∧ isStatic r.data = true)
    (h : setOf cfg origin t l = some s) : answerRecs resolve q s = served cfg.ttls q t l := by
  cases l with
  | nil => cases h
  | cons r l =>
    simp only [setOf, Option.map_eq_some_iff] at h
    obtain ⟨b, hb, rfl⟩ := h
    obtain ⟨h1, h2⟩ := hl r List.mem_cons_self
    rw [foldlM_answer hg resolve q _ origin l _ _ (fun x hx => hl x (List.mem_cons_of_mem _ hx)) hb, answer_one hg resolve q _ origin h1 h2,
      ttl0_of hg r h2]
    rfl

/-- Names and TTLs are the same with glue. -/
theorem answer_glue {z : Zone} {r r' : RRset} (h : procSet z r = .ok (some r')) (resolve : Nat → DynRes) (q : List Bytes)
    (hn : ∀ ns ns', procNsList z ns = .ok (some ns') → ns'.map NsRd.dname = ns.map NsRd.dname) :
    answerRecs resolve q r' = answerRecs resolve q r := by
  obtain ⟨ttl, b⟩ := r
  unfold procSet at h
  cases b with
  | ns ns =>
    obtain ⟨l', h1, h2⟩ := andThen_some (show andThen (procNsList z ns) _ = _ from h)
    cases h2
    have := hn _ _ h1
    simp only [answerRecs]
    have e : ∀ l : List NsRd, (l.map fun x => (⟨q, 2, ttlVal ttl, [.name (labelsOf x.dname)]⟩ : Rec)) =
        (l.map NsRd.dname).map fun d => ⟨q, 2, ttlVal ttl, [.name (labelsOf d)]⟩ := by intro l; rw [List.map_map]; rfl
    rw [e, e, this]
  | _ => cases h; rfl

theorem procNsList_names {z : Zone} (ns : List NsRd) : ∀ ns', procNsList z ns = .ok (some ns') →
    ns'.map NsRd.dname = ns.map NsRd.dname := by
  induction ns with
  | nil => intro ns' h; cases h; rfl
  | cons x r ih =>
    intro ns' h
    rw [procNsList] at h
    obtain ⟨g, h1, h⟩ := andThen_some h
    obtain ⟨r', h2, h⟩ := andThen_some h
    cases h
    simp [ih r' h2]

theorem answer_withGlue (z : Zone) (r : RRset) (resolve : Nat → DynRes) (q : List Bytes) :
    answerRecs resolve q (withGlue z r) = answerRecs resolve q r := by
  unfold withGlue
  split
  · next r' h => exact answer_glue h resolve q procNsList_names
  · rfl

/-! ### Glue -/

theorem foldlM_static {cfg : Cfg} {origin : Bytes} {t : Nat} (l : List Add) : ∀ (b c : Body),
    l.foldlM (fun b x => append b (bodyOf cfg origin t x)) b = some c → ∀ r ∈ l, isDyn (bodyOf cfg origin t r) = false := by
  induction l with
  | nil => intro b c _ r hr; cases hr
  | cons x l ih =>
    intro b c h r hr
    rw [List.foldlM_cons] at h
    cases ha : append b (bodyOf cfg origin t x) with
    | none => rw [ha] at h; cases h
    | some b' =>
      rw [ha] at h
      rcases List.mem_cons.mp hr with e | hr
      · rw [e]
        generalize bodyOf cfg origin t x = bb at ha
        cases append_iff.mp ha <;> rfl
      · exact ih b' c h r hr

theorem setOf_static {cfg : Cfg} {origin : Bytes} {t : Nat} {l : List Add} {s : RRset} (ht : t = 1 ∨ t = 28)
    (hl : ∀ r ∈ l, hasType t r.data = true) (h : setOf cfg origin t l = some s) (hd : isDyn s.body = false) :
    ∀ r ∈ l, isStatic r.data = true := by
  cases l with
  | nil => cases h
  | cons r l =>
    simp only [setOf, Option.map_eq_some_iff] at h
    obtain ⟨b, hb, rfl⟩ := h
    have key : ∀ x, hasType t x.data = true → isDyn (bodyOf cfg origin t x) = false → isStatic x.data = true := by
      intro x hx hb
      cases hxd : x.data <;> first
        | rfl
        | (rw [hxd] at hx; simp only [hasType, beq_iff_eq] at hx; omega)
        | (unfold bodyOf at hb; rw [hxd] at hb; simp only [] at hb; split at hb <;> cases hb)
    intro x hx
    rcases List.mem_cons.mp hx with e | hx
    · rw [e]
      refine key r (hl r List.mem_cons_self) ?_
      cases l with
      | nil => cases hb; exact hd
      | cons y l =>
        rw [List.foldlM_cons] at hb
        cases ha : append (bodyOf cfg origin t r) (bodyOf cfg origin t y) with
        | none => rw [ha] at hb; cases hb
        | some b' =>
          generalize bodyOf cfg origin t r = bb at ha
          generalize bodyOf cfg origin t y = bc at ha
          cases append_iff.mp ha <;> rfl
    · exact key x (hl x (List.mem_cons_of_mem _ hx)) (foldlM_static l _ _ hb x hx)

theorem glue_served {cfg : Cfg} (hg : cfg.ttls.accepted = true) (resolve : Nat → DynRes) (q : List Bytes) (origin : Bytes) {t : Nat} (ht : t = 1 ∨ t = 28)
    {l : List Add} (hl : ∀ r ∈ l, hasType t r.data = true) (hsome : l ≠ [] → (setOf cfg origin t l).isSome = true)
    (hd : ∀ s, setOf cfg origin t l = some s → isDyn s.body = false ∧ s.type = t ∧ SetOk cfg s) :
    glueRecs q t ((setOf cfg origin t l).bind toGlue) = served cfg.ttls q t l := by
  cases hs : setOf cfg origin t l with
  | none =>
    cases l with
    | nil => rfl
    | cons r l => have := hsome (by simp); rw [hs] at this; cases this
  | some s =>
    obtain ⟨d1, d2, d3⟩ := hd s hs
    have hst := setOf_static ht hl hs d1
    have ha := setOf_answer hg resolve q origin (fun r hr => ⟨hl r hr, hst r hr⟩) hs
    rw [← ha]
    obtain ⟨ttl, b⟩ := s
    have hraw : ∀ u m, b = .raw u m → False := by
      intro u m e
      subst e
      have d2 : u = t := d2
      have := (noGeneric_of d3.2).1
      simp only [List.mem_cons, List.not_mem_nil, or_false] at this
      omega
    have d2 : b.type = t := d2
    cases b <;> rcases ht with rfl | rfl <;> first
      | rfl
      | (cases d1; done)
      | exact absurd rfl (fun e => hraw _ _ e)
      | (simp [Body.type] at d2; done)

/-- Cuts below the zone root are where the file has NS records. -/
theorem Zoned.cut_iff {cfg : Cfg} {zone : List Bytes} {l : List Add} {z : Zone} (h : Zoned cfg zone l z) {s : List Bytes}
    (hs : ∀ y ∈ s, y ≠ []) (hne : s ≠ []) : IsCut z.root s ↔ ∃ r ∈ l, owner r = s ∧ ∃ d, r.data = .ns d := by
  constructor
  · rintro ⟨n, hn, hc⟩
    rcases (h.inv.cut _ _ (view_of_node hn)).mp hc with e | ⟨r, hr, hp, d, hd⟩
    · exact absurd (by simpa using e) hne
    · exact ⟨r, hr, ((place_in hs).mp hp).2, d, hd⟩
  · rintro ⟨r, hr, ho, d, hd⟩
    have hp : place r = s.reverse := (place_in hs).mpr ⟨by rw [hd]; rfl, ho⟩
    have := (h.inv.present s.reverse).mpr (.inr ⟨r, hr, by rw [hp]; exact List.prefix_refl _⟩)
    obtain ⟨v, hv⟩ := Option.isSome_iff_exists.mp this
    have hc := (h.inv.cut _ _ hv).mpr (.inr ⟨r, hr, hp, d, hd⟩)
    unfold view at hv
    obtain ⟨n, hn, rfl⟩ := Option.map_eq_some_iff.mp hv
    exact ⟨n, hn, hc⟩

theorem Zoned.delegated_iff {cfg : Cfg} {zone : List Bytes} {l : List Add} {z : Zone} (h : Zoned cfg zone l z) {x : List Bytes}
    (hx : ∀ y ∈ x, y ≠ []) : delegated l x = true ↔ ∃ s, s ≠ [] ∧ s <:+ x ∧ IsCut z.root s := by
  unfold delegated
  rw [List.any_eq_true]
  constructor
  · rintro ⟨r, hr, h1⟩
    simp only [Bool.and_eq_true, Bool.not_eq_true', List.isEmpty_eq_false_iff, List.isSuffixOf_iff_suffix] at h1
    obtain ⟨h0, h1, h2, h3⟩ := h1
    refine ⟨owner r, h2, h3, (h.cut_iff (fun y hy => hx y (h3.subset hy)) h2).mpr ⟨r, hr, rfl, ?_⟩⟩
    have hres := h.inv.res r hr
    unfold ResOk at hres
    cases hd : r.data <;> rw [hd] at h1 hres <;> first
      | exact ⟨_, rfl⟩
      | (cases h1; done)
      | (have h1 : _ = _ := beq_iff_eq.mp h1
         have hres : noGeneric _ = false := hres
         rw [← h1] at hres
         cases hres)
  · rintro ⟨s, h1, h2, h3⟩
    obtain ⟨r, hr, rfl, d, hd⟩ := (h.cut_iff (fun y hy => hx y (h2.subset hy)) h1).mp h3
    refine ⟨r, hr, ?_⟩
    simp only [Bool.and_eq_true, Bool.not_eq_true', List.isEmpty_eq_false_iff, List.isSuffixOf_iff_suffix]
    exact ⟨by rw [hd]; rfl, by rw [hd]; rfl, h1, h2⟩

theorem recsAt_type {l : List Add} {x : List Bytes} {t : Nat} {r : Add} (h : r ∈ recsAt l x t) : hasType t r.data = true := by
  have := (List.mem_filter.mp h).2
  simp only [Bool.and_eq_true] at this
  exact this.2.2

theorem oozAt_type {l : List Add} {x : List Bytes} {t : Nat} {r : Add} (h : r ∈ oozAt l x t) : hasType t r.data = true := by
  have := (List.mem_filter.mp h).2
  simp only [Bool.and_eq_true] at this
  exact this.2.2

theorem glueFor_spec {cfg : Cfg} (hg : cfg.ttls.accepted = true) (resolve : Nat → DynRes) {zone : List Bytes} {l : List Add} {z : Zone}
    (h : Zoned cfg zone l z) {q : List Bytes} (hq : WF q) {g4 g6 : Option Glue} (hgl : GlueFor cfg zone l z q g4 g6) :
    glueRecs q 1 g4 ++ glueRecs q 28 g6 = glueFor cfg.ttls zone l q := by
  have ne : ∀ x, q = x ++ zone → ∀ y ∈ x, y ≠ [] := by
    intro x hx y hy e
    have := (hq.1 y (by rw [hx]; exact List.mem_append_left _ hy)).1
    rw [e] at this; exact absurd this (by decide)
  have tk : ∀ x, q = x ++ zone → q.take (q.length - zone.length) = x := by
    intro x hx; rw [hx]; simp
  unfold glueFor
  cases hgl with
  | auth x h1 h2 =>
    have hsuf : zone.isSuffixOf q = true := by rw [List.isSuffixOf_iff_suffix, h1]; exact List.suffix_append _ _
    rw [if_pos hsuf, tk x h1, if_neg]
    · rfl
    · rw [h.delegated_iff (ne x h1)]
      rintro ⟨s, a, b, c⟩; exact h2 s a b c
  | below x s h1 h2 h3 h4 h5 h6 =>
    have hsuf : zone.isSuffixOf q = true := by rw [List.isSuffixOf_iff_suffix, h1]; exact List.suffix_append _ _
    rw [if_pos hsuf, tk x h1, if_pos ((h.delegated_iff (ne x h1)).mpr ⟨s, h2, h3, h4⟩)]
    congr 1
    · exact glue_served hg resolve q z.dname (.inl rfl) (fun r hr => recsAt_type hr) (h.sets (ne x h1) 1).2
        (fun s hs => ⟨h6 1 s (.inl rfl) hs, (h.setOk (ne x h1) hs).2, (h.setOk (ne x h1) hs).1⟩)
    · exact glue_served hg resolve q z.dname (.inr rfl) (fun r hr => recsAt_type hr) (h.sets (ne x h1) 28).2
        (fun s hs => ⟨h6 28 s (.inr rfl) hs, (h.setOk (ne x h1) hs).2, (h.setOk (ne x h1) hs).1⟩)
  | outside h1 =>
    rw [if_neg (by rw [List.isSuffixOf_iff_suffix]; exact h1)]
    congr 1
    · exact glue_served hg resolve q z.dname (.inl rfl) (fun r hr => oozAt_type hr) (h.ooz hq 1).2
        (fun s hs => ⟨(h.oozOk hq hs).2.2, (h.oozOk hq hs).2.1, (h.oozOk hq hs).1⟩)
    · exact glue_served hg resolve q z.dname (.inr rfl) (fun r hr => oozAt_type hr) (h.ooz hq 28).2
        (fun s hs => ⟨(h.oozOk hq hs).2.2, (h.oozOk hq hs).2.1, (h.oozOk hq hs).1⟩)

theorem foldlM_ns {cfg : Cfg} {origin : Bytes} (l : List Add) : ∀ (b c : Body), (∀ r ∈ l, ∃ d, r.data = .ns d) →
    l.foldlM (fun b x => append b (bodyOf cfg origin 2 x)) b = some c → ∀ ns, b = .ns ns →
    ∃ ns', c = .ns ns' ∧ ns'.map (fun x => labelsOf x.dname) = ns.map (fun x => labelsOf x.dname) ++ l.filterMap fun r => nsName r.data := by
  induction l with
  | nil => intro b c _ h ns e; cases h; exact ⟨ns, e, by simp⟩
  | cons r l ih =>
    intro b c hl h ns e
    subst e
    rw [List.foldlM_cons] at h
    obtain ⟨d, hd⟩ := hl r List.mem_cons_self
    have hb : bodyOf cfg origin 2 r = .ns [⟨d, none, none⟩] := by unfold bodyOf; rw [hd]
    rw [hb] at h
    obtain ⟨ns', h1, h2⟩ := ih _ c (fun x hx => hl x (List.mem_cons_of_mem _ hx)) h _ rfl
    refine ⟨ns', h1, ?_⟩
    rw [h2, List.filterMap_cons, hd]
    simp [nsName]

theorem setOf_ns {cfg : Cfg} {origin : Bytes} {l : List Add} {s : RRset} (hl : ∀ r ∈ l, ∃ d, r.data = .ns d)
    (h : setOf cfg origin 2 l = some s) : ∃ ns, s.body = .ns ns ∧ ns.map (fun x => labelsOf x.dname) = l.filterMap fun r => nsName r.data := by
  cases l with
  | nil => cases h
  | cons r l =>
    simp only [setOf, Option.map_eq_some_iff] at h
    obtain ⟨b, hb, rfl⟩ := h
    obtain ⟨d, hd⟩ := hl r List.mem_cons_self
    have hb0 : bodyOf cfg origin 2 r = .ns [⟨d, none, none⟩] := by unfold bodyOf; rw [hd]
    obtain ⟨ns', h1, h2⟩ := foldlM_ns l _ _ (fun x hx => hl x (List.mem_cons_of_mem _ hx)) hb _ hb0
    exact ⟨ns', h1, by rw [h2, List.filterMap_cons, hd]; simp [nsName]⟩

theorem ns_only {cfg : Cfg} {zone : List Bytes} {l : List Add} {z : Zone} (h : Zoned cfg zone l z) {r : Add} (hr : r ∈ l)
    (ht : hasType 2 r.data = true) : ∃ d, r.data = .ns d := by
  have hres := h.inv.res r hr
  unfold ResOk at hres
  cases hd : r.data <;> rw [hd] at ht hres <;> first
    | exact ⟨_, rfl⟩
    | (cases ht; done)
    | (have ht : _ = _ := beq_iff_eq.mp ht
       have hres : noGeneric _ = false := hres
       rw [← ht] at hres
       cases hres)

/-- The glue of the NS set of a name. -/
theorem extra_spec {cfg : Cfg} (hg : cfg.ttls.accepted = true) (resolve : Nat → DynRes) {zone : List Bytes} {l : List Add} {z : Zone}
    (h : Zoned cfg zone l z) {x : List Bytes} (hx : ∀ y ∈ x, y ≠ []) {r r' : RRset}
    (hr : setOf cfg z.dname 2 (recsAt l x 2) = some r) (hp : procSet z r = .ok (some r')) :
    extraRecs r' = allGlue cfg.ttls zone l x := by
  obtain ⟨ns, h1, h2⟩ := setOf_ns (l := recsAt l x 2) (fun a ha => ns_only h (List.mem_filter.mp ha).1 (recsAt_type ha)) hr
  have hok := (h.setOk hx hr).1
  obtain ⟨ttl, b⟩ := r
  have h1 : b = .ns ns := h1
  subst h1
  obtain ⟨ns', h3, h4⟩ := andThen_some (show andThen (procNsList z ns) _ = _ from hp)
  cases h4
  obtain ⟨i1, i2⟩ := procNsList_spec h ns ns' (fun y hy => (hok.2.2 y hy).1) h3
  unfold allGlue
  rw [← h2, show (ns.map fun x => labelsOf x.dname) = (ns.map NsRd.dname).map labelsOf by rw [List.map_map]; rfl, ← i1,
    List.map_map, List.flatMap_map]
  show nsGlueRecs ns' = _
  unfold nsGlueRecs
  have key : ∀ m : List NsRd, (∀ y ∈ m, y ∈ ns') →
      (m.flatMap fun x => glueRecs (labelsOf x.dname) 1 x.glue4 ++ glueRecs (labelsOf x.dname) 28 x.glue6) =
      m.flatMap fun a => glueFor cfg.ttls zone l ((labelsOf ∘ NsRd.dname) a) := by
    intro m
    induction m with
    | nil => intro _; rfl
    | cons y m ih =>
      intro hm
      obtain ⟨n1, -, -, n4⟩ := i2 y (hm y List.mem_cons_self)
      rw [List.flatMap_cons, List.flatMap_cons, ih (fun a ha => hm a (List.mem_cons_of_mem _ ha)),
        glueFor_spec hg resolve h (NameOk_encode n1).1 n4]
      rfl
  exact key ns' (fun y hy => hy)

end Gdnsd.Load
