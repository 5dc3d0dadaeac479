import Verif.Load.SizeLemmas
/-
Names in the merged tree and in the zone while it was loaded; CNAME chains; the size of every
reply.
-/
namespace Gdnsd.Load
open Enc Tree TreeSpec DnameSpec EncSpec LookupSpec LoadSpec

/-! ### From the merged tree to the zone -/

theorem pairwise_mem {α : Type} {R : α → α → Prop} {l : List α} (h : l.Pairwise R) {a b : α} (ha : a ∈ l) (hb : b ∈ l) :
    a = b ∨ R a b ∨ R b a := by
  induction l with
  | nil => cases ha
  | cons x r ih =>
    rw [List.pairwise_cons] at h
    rcases List.mem_cons.mp ha with ea | ha' <;> rcases List.mem_cons.mp hb with eb | hb'
    · exact .inl (ea.trans eb.symm)
    · rw [ea]; exact .inr (.inl (h.1 b hb'))
    · rw [eb]; exact .inr (.inr (h.1 a ha'))
    · exact ih h.2 ha' hb'

theorem Merged.one {zs : List (List Bytes × Node)} {root : Node} (h : Merged zs root) {a b : List Bytes × Node}
    (ha : a ∈ zs) (hb : b ∈ zs) (hs : a.1 <:+ b.1) : a = b := by
  rcases pairwise_mem h.apart ha hb with e | e | e
  · exact e
  · exact absurd hs e.1
  · exact absurd hs e.2

/-- Everything below a zone's name belongs to the zone. -/
theorem Merged.zoneOf {zs : List (List Bytes × Node)} {root : Node} (h : Merged zs root) {x : List Bytes × Node} (hx : x ∈ zs)
    {q zn : List Bytes} (hq : x.1 <:+ q) (hz : IsZone root q zn) : zn = x.1 := by
  obtain ⟨y, hy, rfl⟩ := h.isZone hz
  have := hz.1
  rcases List.suffix_or_suffix_of_suffix hq this with hs | hs
  · rw [h.one hx hy hs]
  · rw [h.one hy hx hs]

theorem Merged.nodeIn {zs : List (List Bytes × Node)} {root : Node} (h : Merged zs root) {x : List Bytes × Node} (hx : x ∈ zs)
    (y : List Bytes) : nodeAt root (y ++ x.1) = nodeAt x.2 y := by
  rw [nodeAt_append, h.zone x hx]; rfl

theorem Merged.cutIn {zs : List (List Bytes × Node)} {root : Node} (h : Merged zs root) {x : List Bytes × Node} (hx : x ∈ zs)
    (y : List Bytes) : IsCut root (y ++ x.1) ↔ IsCut x.2 y := by
  unfold IsCut; rw [h.nodeIn hx]

theorem suffix_split {s y c : List Bytes} (h : s <:+ y ++ c) (h' : c <:+ s) : ∃ s', s = s' ++ c ∧ s' <:+ y := by
  obtain ⟨s', rfl⟩ := h'
  exact ⟨s', rfl, by
    obtain ⟨u, hu⟩ := h
    rw [← List.append_assoc] at hu
    exact ⟨u, List.append_cancel_right hu⟩⟩

/-- There is a referral as soon as there is a cut below the zone. -/
theorem exists_referral {root : Node} {q zn : List Bytes} : ∀ (k : Nat) (c : List Bytes), c.length ≤ k → c <:+ q → zn <:+ c → zn ≠ c →
    IsCut root c → ∃ c', IsReferral root q zn c' := by
  intro k
  induction k with
  | zero =>
    intro c hk hq hz hne _
    have : c = [] := List.eq_nil_of_length_eq_zero (by omega)
    subst this
    exact absurd (List.suffix_nil.mp hz) hne
  | succ k ih =>
    intro c hk hq hz hne hc
    by_cases hs : ∃ s, s <:+ c ∧ zn <:+ s ∧ s ≠ zn ∧ s ≠ c ∧ IsCut root s
    · obtain ⟨s, h1, h2, h3, h4, h5⟩ := hs
      have hlen : s.length < c.length := by
        rcases Nat.lt_or_ge s.length c.length with h | h
        · exact h
        · exact absurd (h1.eq_of_length (Nat.le_antisymm h1.length_le h)) h4
      exact ih s (by omega) (h1.trans hq) h2 (Ne.symm h3) h5
    · exact ⟨c, hq, hz, hne, hc, fun s h1 h2 h3 h4 h5 => hs ⟨s, h1, h2, h3, h4, h5⟩⟩

theorem Merged.hasData {cfg : Cfg} {zs : List (List Bytes × Node)} {root : Node} (h : Merged zs root) {x : List Bytes × Node}
    (hx : x ∈ zs) {l : List Add} {z : Zone} (hl : Loaded cfg x.1 l z x.2) {y : List Bytes} {n : Node} (hd : HasData root (y ++ x.1) n) :
    ∃ m, HasData z.root y m ∧ n.rrs = m.rrs.map (withGlue z) := by
  rcases hd with hd | ⟨hd, e, he, hw⟩
  · rw [h.nodeIn hx] at hd
    obtain ⟨m, h1, -, -, h2⟩ := hl.node hd
    exact ⟨m, .inl h1, h2⟩
  · obtain ⟨e1, e2, e3⟩ := he
    have hze : x.1 <:+ e := e3 x.1 (List.suffix_append _ _) (by
      unfold Present; rw [h.zone x hx]; rfl)
    obtain ⟨e', rfl, he'⟩ := suffix_split e1 hze
    rw [← List.cons_append, h.nodeIn hx] at hw
    obtain ⟨m, h1, -, -, h2⟩ := hl.node hw
    have pres : ∀ s, Present root (s ++ x.1) ↔ Present z.root s := by
      intro s
      rw [← hl.present]
      unfold Present; rw [h.nodeIn hx]
    refine ⟨m, .inr ⟨?_, e', ⟨he', (pres e').mp e2, ?_⟩, h1⟩, h2⟩
    · have : ¬ Present root (y ++ x.1) := by unfold Present; rw [hd]; simp
      rw [pres] at this
      unfold Present at this
      simpa using this
    · intro s h3 h4
      obtain ⟨u, hu⟩ := e3 (s ++ x.1) (by obtain ⟨v, rfl⟩ := h3; exact ⟨v, by simp⟩) ((pres s).mpr h4)
      rw [← List.append_assoc] at hu
      exact ⟨u, List.append_cancel_right hu⟩

/-- What a place in the merged tree is in the zone. -/
theorem Merged.placed {cfg : Cfg} {zs : List (List Bytes × Node)} {root : Node} (h : Merged zs root) {x : List Bytes × Node}
    (hx : x ∈ zs) {l : List Add} {z : Zone} (hl : Loaded cfg x.1 l z x.2) {y : List Bytes} {p : Place}
    (hp : Located root (y ++ x.1) p) :
    match p with
    | .outside => False
    | .referral zn c => zn = x.1 ∧ ∃ s, c = s ++ x.1 ∧ s ≠ [] ∧ s <:+ y ∧ IsCut z.root s
    | .data zn n => zn = x.1 ∧ (∀ s, s ≠ [] → s <:+ y → ¬ IsCut z.root s) ∧ ∃ m, HasData z.root y m ∧ n.rrs = m.rrs.map (withGlue z)
    | .missing zn => zn = x.1 ∧ ∀ s, s ≠ [] → s <:+ y → ¬ IsCut z.root s := by
  have hsuf : x.1 <:+ y ++ x.1 := List.suffix_append _ _
  have nocut : (∀ c, ¬ IsReferral root (y ++ x.1) x.1 c) → ∀ s, s ≠ [] → s <:+ y → ¬ IsCut z.root s := by
    intro hno s h1 h2 h3
    rw [← hl.isCut, ← h.cutIn hx] at h3
    obtain ⟨c, hc⟩ := exists_referral (q := y ++ x.1) (zn := x.1) _ (s ++ x.1) (Nat.le_refl _)
      (by obtain ⟨v, rfl⟩ := h2; exact ⟨v, by simp⟩) (List.suffix_append _ _)
      (fun e => h1 (by have := congrArg List.length e; simp at this; exact this)) h3
    exact hno c hc
  cases p with
  | outside => exact hp x.1 hsuf ⟨x.2, h.zone x hx, h.cut x hx⟩
  | referral zn c =>
    obtain ⟨h1, h2, h3, h4, h5, -⟩ := hp
    have := h.zoneOf hx hsuf h1
    subst this
    obtain ⟨s, rfl, hs⟩ := suffix_split h2 h3
    refine ⟨rfl, s, rfl, ?_, hs, ?_⟩
    · rintro rfl; exact h4 rfl
    · rw [← hl.isCut, ← h.cutIn hx]; exact h5
  | data zn n =>
    obtain ⟨h1, h2, h3⟩ := hp
    have := h.zoneOf hx hsuf h1
    subst this
    exact ⟨rfl, nocut h2, h.hasData hx hl h3⟩
  | missing zn =>
    obtain ⟨h1, h2, -⟩ := hp
    have := h.zoneOf hx hsuf h1
    subst this
    exact ⟨rfl, nocut h2⟩

/-- The search of the loader, for a name whose place is known. -/
theorem search_at {cfg : Cfg} {zone : List Bytes} {l : List Add} {z : Zone} (hz : Zoned cfg zone l z) {q : List Bytes} (hq : WF q)
    {c : Option Node} {s : Option Node × Auth × Option Node} (hs : searchZone z (encode q true) c = .ok s) :
    (s.2.1 = .noauth ↔ ¬ zone <:+ q) ∧ ∀ y, q = y ++ zone →
      ((∀ t, t ≠ [] → t <:+ y → ¬ IsCut z.root t) → s.2.1 = .auth ∧ ∀ m, HasData z.root y m → s.1 = some m) ∧
      (s.2.1 = .deleg → ∃ t, t ≠ [] ∧ t <:+ y ∧ IsCut z.root t ∧ s.2.2 = nodeAt z.root t ∧
        ∀ u, u ≠ [] → u <:+ y → IsCut z.root u → u <:+ t) ∧
      ((∃ t, t ≠ [] ∧ t <:+ y ∧ IsCut z.root t) → s.2.1 = .deleg) := by
  obtain ⟨dn, root⟩ := z
  have hdn : dn = encode zone true := hz.dname
  have noy := C18_zone zone root [] q c hz.wf hq
  have hy : ∀ y, q = y ++ zone → _ := fun y _ => C18_zone zone root y q c hz.wf hq
  rw [hdn] at hs
  constructor
  · obtain ⟨n, st, c', h1, h2, -⟩ := noy
    rw [hs] at h1; cases h1
    exact h2
  · intro y hqy
    obtain ⟨n, st, c', h1, h2, h3, h4⟩ := hy y hqy
    rw [hs] at h1; cases h1
    obtain ⟨h5, h6, h7⟩ := h4 hqy
    refine ⟨?_, ?_, ?_⟩
    · intro hno
      have hst : st = .auth := by
        cases st with
        | auth => rfl
        | deleg => obtain ⟨t, a, b, d⟩ := h5.mp rfl; exact absurd d (hno t a b)
        | noauth => exact absurd (by rw [hqy]; exact List.suffix_append _ _) (h2.mp rfl)
      exact ⟨hst, fun m hm => ((h7 hst).2 m).mpr hm⟩
    · intro hd
      exact (h6 hd).2
    · intro ht
      exact h5.mpr ht

/-! ### Chains -/

theorem HasData_node {root : Node} {y : List Bytes} {m : Node} (h : HasData root y m) :
    ∃ p, nodeAt root p = some m ∧ (p = y ∨ ∃ e, p = [42] :: e ∧ e <:+ y) := by
  rcases h with h | ⟨-, e, he, h⟩
  · exact ⟨y, h, .inl rfl⟩
  · exact ⟨_, h, .inr ⟨e, rfl, he.1⟩⟩

theorem withGlue_cname {z : Zone} {rrs : List RRset} {r : RRset} {b : Bytes} (h : rrs.map (withGlue z) = [r]) (hb : r.body = .cname b) :
    rrs = [r] := by
  cases rrs with
  | nil => cases h
  | cons r0 rest =>
    simp only [List.map_cons, List.cons.injEq, List.map_eq_nil_iff] at h
    obtain ⟨h1, rfl⟩ := h
    by_cases hns : ∃ l, r0.body = .ns l
    · obtain ⟨l, hl⟩ := hns
      have := withGlue_type z r0
      unfold RRset.type at this
      rw [h1, hb, hl] at this
      cases this
    · rw [withGlue_of_not_ns (fun l e => hns ⟨l, e⟩)] at h1
      rw [h1]

/-- A step of a chain is a step of the loader. -/
theorem follows_step {cfg : Cfg} {zs : List (List Bytes × Node)} {root : Node} (h : Merged zs root) {x : List Bytes × Node}
    (hx : x ∈ zs) {l : List Add} {z : Zone} (hl : Loaded cfg x.1 l z x.2) {w : World} {t : Nat} {y : List Bytes} {r : RRset}
    {d : List Bytes} (hf : Follows w root t (y ++ x.1) r d) :
    ∃ m b ttl, HasData z.root y m ∧ m.rrs = [⟨ttl, .cname b⟩] ∧ r = ⟨ttl, .cname b⟩ ∧ WF d ∧ b = encode d true ∧ x.1 <:+ d ∧
      (∀ s, s ≠ [] → s <:+ y → ¬ IsCut z.root s) := by
  obtain ⟨zn, n, b, h1, h2, h3, h4, -, -, -, h5⟩ := hf
  obtain ⟨rfl, hno, m, hm, he⟩ := h.placed hx hl h1
  rw [h2] at he
  have hmr := withGlue_cname he.symm h3
  obtain ⟨ttl, body⟩ := r
  have h3 : body = .cname b := h3
  subst h3
  obtain ⟨p, hp, -⟩ := HasData_node hm
  have hok := (hl.zoned.node hp).ok ⟨ttl, .cname b⟩ (by rw [hmr]; exact List.mem_cons_self)
  obtain ⟨hw, hb⟩ := NameOk_encode (show NameOk b from hok.1)
  subst h4
  exact ⟨m, b, ttl, hm, hmr, rfl, hw, hb, h5, hno⟩

theorem chase {cfg : Cfg} {zs : List (List Bytes × Node)} {root : Node} (h : Merged zs root) {x : List Bytes × Node}
    (hx : x ∈ zs) {l : List Add} {z : Zone} (hl : Loaded cfg x.1 l z x.2) {w : World} {t : Nat} {d e : List Bytes}
    {cs : List (List Bytes × RRset)} (hc : Chain w root t d cs e) : ∀ (k : Nat) (c : Option Node) (s : Option Node × Auth × Option Node)
    (size : Nat) (r : (Option Node × Auth × Option Node) × Nat), WF d → x.1 <:+ d → searchZone z (encode d true) c = .ok s →
    chaseLoop z k s size = .ok (some r) →
    cs.length ≤ k ∧ x.1 <:+ e ∧ WF e ∧ chainSize w cs ≤ 267 * cs.length ∧ ∃ c1 s1, searchZone z (encode e true) c1 = .ok s1 ∧
      ((r.1 = s1 ∧ r.2 = size + chainSize w cs) ∨ (s1.2.1 = .auth ∧ (cnameAt s1.1).isSome = true)) := by
  induction hc with
  | @stop q hn =>
    intro k c s size r hw hz hs hr
    refine ⟨Nat.zero_le _, hz, hw, Nat.le_refl _, c, s, hs, ?_⟩
    unfold chaseLoop at hr
    cases hca : cnameAt s.1 with
    | none => rw [hca] at hr; cases hr; exact .inl ⟨rfl, rfl⟩
    | some b =>
      rw [hca] at hr
      simp only [] at hr
      by_cases ha : s.2.1 = .auth
      · exact .inr ⟨ha, rfl⟩
      · rw [if_neg ha] at hr; cases hr; exact .inl ⟨rfl, rfl⟩
  | @step q rr d cs e hf hrest ih =>
    intro k c s size r hw hz hs hr
    obtain ⟨y, rfl⟩ := hz
    obtain ⟨m, b, ttl, h1, h2, rfl, h4, h5, h6, h7⟩ := follows_step h hx hl hf
    obtain ⟨h8, h9⟩ := ((search_at hl.zoned hw hs).2 y rfl).1 h7
    have h9 := h9 m h1
    unfold chaseLoop at hr
    rw [h9, cnameAt_of h2] at hr
    simp only [h8, if_true] at hr
    cases k with
    | zero => cases hr
    | succ k =>
      obtain ⟨s', hs', hr⟩ := bind_some hr
      rw [h5] at hs'
      obtain ⟨i1, i2, i3, i0, c1, s1, i4, i5⟩ := ih k s.2.2 s' (size + (12 + len b)) r h4 h6 hs' hr
      have hsz : rrSize w.resolve ⟨ttl, .cname b⟩ = 12 + len b := by
        rw [len_name ⟨d, h4, h5⟩]; rfl
      have hb : len b ≤ 255 := by rw [len_name ⟨d, h4, h5⟩]; exact nameLen_le ⟨d, h4, h5⟩
      have hsum : chainSize w ((y ++ x.1, ⟨ttl, .cname b⟩) :: cs) = (12 + len b) + chainSize w cs := by
        unfold chainSize
        rw [List.map_cons, List.sum_cons, hsz]
      refine ⟨by simpa using i1, i2, i3, ?_, c1, s1, i4, ?_⟩
      · rw [hsum, List.length_cons]; omega
      · rcases i5 with ⟨a, b⟩ | a
        · left
          refine ⟨a, ?_⟩
          rw [b, hsum]; omega
        · exact .inr a

/-! ### Every reply fits -/

/-- Room for EDNS: the OPT record with a keepalive option, and client subnet, NSID and cookie
options if they are in use. -/
def ednsRoom (cfg : Cfg) : Nat :=
  17 + (if cfg.ecs then 24 else 0) + (if cfg.nsidLen ≠ 0 then 4 + cfg.nsidLen else 0) + (if cfg.cookies then 20 else 0)

theorem wireLen_append (a b : List Bytes) : wireLen (a ++ b) = (a.map fun l => 1 + l.length).sum + wireLen b := by
  unfold wireLen
  rw [List.map_append, List.sum_append]
  rw [show (a.map fun l => l.length + 1) = a.map fun l => 1 + l.length from List.map_congr_left fun l _ => Nat.add_comm _ _]
  omega

theorem baseSize_ge {cfg : Cfg} {zone : List Bytes} {l : List Add} {z : Zone} (hz : Zoned cfg zone l z) {y p : List Bytes}
    (hw : WF (y ++ zone)) {a : Bool} (h : p = y ∨ (∃ e, p = [42] :: e) ∨ a = true) :
    16 + ednsRoom cfg + wireLen (y ++ zone) ≤ baseSize cfg z p a := by
  have h255 := hw.2
  have hdn : len z.dname = wireLen zone := by rw [hz.dname, len_encode hz.wf]
  have hcore : 16 + ednsRoom cfg = 12 + 4 + 11 + 6 + (bif cfg.ecs then 24 else 0) + (bif decide (cfg.nsidLen ≠ 0) then 4 + cfg.nsidLen else 0) +
      (bif cfg.cookies then 20 else 0) := by
    unfold ednsRoom
    cases cfg.ecs <;> cases cfg.cookies <;> by_cases hn : cfg.nsidLen ≠ 0 <;> simp [hn] <;> omega
  unfold baseSize
  simp only []
  rw [← hcore]
  refine Nat.add_le_add_left ?_ _
  rcases h with rfl | ⟨e, rfl⟩ | rfl
  · have key : ∀ b : Bool, wireLen (p ++ zone) ≤ bif b then 255 else len z.dname + (p.map fun l => 1 + l.length).sum := by
      intro b
      cases b with
      | true => exact h255
      | false => rw [cond_false, wireLen_append, hdn]; omega
    exact key _
  · rw [show (a || decide (([42] : Bytes) = wild)) = true by simp [wild], cond_true]; exact h255
  · rw [Bool.true_or, cond_true]; exact h255

/-- A name with data of its own is not in a delegation. -/
theorem notDeleg {cfg : Cfg} {zone : List Bytes} {l : List Add} {z : Zone} (hz : Zoned cfg zone l z) {y p : List Bytes} {m : Node}
    (hm : nodeAt z.root p = some m) (hno : ∀ s, s ≠ [] → s <:+ y → ¬ IsCut z.root s) (hp : p = y ∨ ∃ e, p = [42] :: e ∧ e <:+ y) :
    ¬ ∃ s, s ≠ [] ∧ s <:+ p ∧ IsCut z.root s := by
  rintro ⟨s, h1, h2, h3⟩
  rcases hp with rfl | ⟨e, rfl, he⟩
  · exact hno s h1 h2 h3
  · rcases List.suffix_cons_iff.mp h2 with rfl | h2
    · obtain ⟨n, hn, hc⟩ := h3
      rcases (hz.inv.cut _ _ (view_of_node hn)).mp hc with h | ⟨a, ha, hpl, d, hd⟩
      · simp at h
      · have := hz.inv.wild a ha d hd
        rw [hpl, List.getLast?_reverse] at this
        exact this rfl
    · exact hno s h1 (h2.trans he) h3

theorem soa_size {resolve : Nat → DynRes} {rrs : List RRset} (h : NodeOk resolve rrs) {r : RRset} (hr : r ∈ rrs) (ht : r.type = 6) :
    rrSize resolve r ≤ 542 := by
  rcases h with ⟨ttl, res, m, rfl, -⟩ | ⟨ttl, d, rfl, -⟩ | ⟨-, h⟩
  · rw [List.mem_singleton.mp hr] at ht; cases ht
  · rw [List.mem_singleton.mp hr] at ht; cases ht
  · obtain ⟨h1, -, h3⟩ := h r hr
    obtain ⟨ttl, b⟩ := r
    cases b <;> first
      | (simp [RRset.type, Body.type] at ht; done)
      | (obtain ⟨a, b, -⟩ := h1
         have := nameLen_le a
         have := nameLen_le b
         simp only [rrSize]; omega)
      | (have ht : _ = 6 := ht
         subst ht
         exact absurd (by decide) (h3 _ _ rfl))

/-- The size of the end of a chain. -/
theorem end_size {cfg : Cfg} {w : World} (hpl : PlugOk cfg w.resolve) {zs : List (List Bytes × Node)} {root : Node} (h : Merged zs root)
    (hall : AllLoaded cfg zs) {x : List Bytes × Node} (hx : x ∈ zs) {l : List Add} {z : Zone} (hl : Loaded cfg x.1 l z x.2)
    {y : List Bytes} {v : Verdict} (hv : Ends root (y ++ x.1) v) {t B : Nat}
    (href : ∀ s m r, s ≠ [] → s <:+ y → IsCut z.root s → nodeAt z.root s = some m → r ∈ m.rrs → r.type = 2 →
      rrSize w.resolve (withGlue z r) ≤ B)
    (hdata : ∀ m, HasData z.root y m → (∀ s, s ≠ [] → s <:+ y → ¬ IsCut z.root s) → cnameAt (some m) = none → ∀ r ∈ m.rrs,
      rrSize w.resolve (withGlue z r) ≤ B) :
    endSize w t v ≤ max B 10080 := by
  cases v with
  | refused => exact absurd hv (fun hv => h.placed hx hl (p := .outside) hv)
  | referral c r =>
    obtain ⟨zn, n, h1, h2, h3, h4⟩ := hv
    obtain ⟨rfl, s, rfl, s1, s2, s3⟩ := h.placed hx hl h1
    rw [h.nodeIn hx] at h2
    obtain ⟨m, m1, -, -, m2⟩ := hl.node h2
    rw [m2] at h3
    obtain ⟨r0, hr0, rfl⟩ := List.mem_map.mp h3
    rw [withGlue_type] at h4
    have := href s m r0 s1 s2 s3 m1 hr0 h4
    simp only [endSize]
    omega
  | final zn soa rrs =>
    obtain ⟨a, h1, h2, h3, h4⟩ := hv
    have hsoa : rrSize w.resolve soa ≤ 542 := soa_size ((dbOk_of hpl h hall).node _ _ h1) h2 h3
    have hown : ownSize w t (rrs.getD []) ≤ max B 10080 := by
      cases rrs with
      | none => show 0 ≤ _; exact Nat.zero_le _
      | some lst =>
        obtain ⟨n, h5, rfl⟩ := h4
        obtain ⟨-, hno, m, hm, he⟩ := h.placed hx hl h5
        obtain ⟨p, hp, -⟩ := HasData_node hm
        obtain ⟨⟨d', p1, -⟩, -⟩ := hl.phase hp
        rw [Option.getD_some, he]
        exact ownSize_le hpl hl.zoned hp p1 (fun hc r hr _ => hdata m hm hno hc r hr)
    simp only [endSize]
    omega

/-- Every chain has at most 16 CNAMEs, and every reply fits. -/
theorem reply_fits {cfg : Cfg} (hnsid : cfg.nsidLen ≤ 128) {w : World} (hpl : PlugOk cfg w.resolve) {zs : List (List Bytes × Node)}
    {root : Node} (h : Merged zs root) (hall : AllLoaded cfg zs) {q e : List Bytes} (hq : WF q) {t : Nat}
    {cs : List (List Bytes × RRset)} {v : Verdict} (hc : Chain w root t q cs e) (hv : Ends root e v) :
    cs.length ≤ 16 ∧ 12 + wireLen q + 4 + (chainSize w cs + endSize w t v) + ednsRoom cfg ≤ 16376 := by
  have hroom : ednsRoom cfg ≤ 193 := by
    unfold ednsRoom
    cases cfg.ecs <;> cases cfg.cookies <;> by_cases hn : cfg.nsidLen ≠ 0 <;> simp [hn] <;> omega
  have hq255 := hq.2
  by_cases hin : ∃ x ∈ zs, x.1 <:+ q
  · obtain ⟨x, hx, y, rfl⟩ := hin
    obtain ⟨l, z, hl⟩ := hall x hx
    -- the sets of a node whose phase-1 check is known
    have sets : ∀ {rrs : List RRset} {via d : Bool} {m0 m : Nat}, sizeLoop cfg z via d rrs m0 = .ok (some m) →
        (∀ r ∈ rrs, SetOk cfg r) → ∀ r ∈ rrs, d = false ∨ r.type = 2 → rrSize w.resolve (withGlue z r) ≤ m := by
      intro rrs via d m0 m hm hok r hr hd
      obtain ⟨r', s, a, b, c⟩ := (sizeLoop_parts _ _ _ hm).2 r hr
      exact Nat.le_trans (setSize_le hpl hl.zoned (hok r hr) a b hd) c
    cases hc with
    | stop hn =>
      refine ⟨Nat.zero_le _, ?_⟩
      have := end_size (t := t) hpl h hall hx hl hv (B := 16376 - (16 + ednsRoom cfg + wireLen (y ++ x.1))) ?_ ?_
      · show 12 + wireLen (y ++ x.1) + 4 + (0 + endSize w t v) + ednsRoom cfg ≤ 16376
        omega
      · intro s m r s1 s2 s3 hm hr ht
        obtain ⟨⟨d', p1, p2⟩, -⟩ := hl.phase hm
        have hd : d' = true := p2.mpr ⟨s, s1, List.suffix_refl _, s3⟩
        obtain ⟨q1, q2, q3, q4⟩ := phase1_parts p1
        have hty := (checkDeleg_parts q1 hd).2.2
        obtain ⟨M, hM, hb⟩ := q4 (cnameAt_none (by
          intro r hr b e
          have := hty r hr
          unfold RRset.type at this
          rw [e] at this
          simp [Body.type] at this))
        have hcut : m.zcut = true := by obtain ⟨m', a, b⟩ := s3; rw [hm] at a; cases a; exact b
        have hne : (m.zcut && !s.isEmpty) = true := by
          rw [hcut]; cases s with | nil => exact absurd rfl s1 | cons _ _ => rfl
        rw [hne] at hb
        have hbase := baseSize_ge (p := s) hl.zoned hq (a := true) (.inr (.inr rfl))
        have := sets hM (hl.zoned.node hm).ok r hr (.inr ht)
        omega
      · intro m hm hno hcn r hr
        obtain ⟨p, hp, hpy⟩ := HasData_node hm
        obtain ⟨⟨d', p1, p2⟩, -⟩ := hl.phase hp
        have hd : d' = false := by
          cases hd : d' with
          | false => rfl
          | true => exact absurd (p2.mp hd) (notDeleg hl.zoned hp hno hpy)
        obtain ⟨q1, q2, q3, q4⟩ := phase1_parts p1
        obtain ⟨M, hM, hb⟩ := q4 hcn
        have hbase := baseSize_ge (p := p) hl.zoned hq (a := (m.zcut && !p.isEmpty))
          (hpy.elim .inl fun ⟨e, he, _⟩ => .inr (.inl ⟨e, he⟩))
        have := sets hM (hl.zoned.node hp).ok r hr (.inl hd)
        omega
    | @step _ rr d cs' _ hf hrest =>
      obtain ⟨m0, b, ttl, h1, h2, rfl, h4, h5, h6, hno0⟩ := follows_step h hx hl hf
      obtain ⟨p, hp, hpy⟩ := HasData_node h1
      obtain ⟨⟨d', p1, p2⟩, -⟩ := hl.phase hp
      have hd : d' = false := by
        cases hd : d' with
        | false => rfl
        | true => exact absurd (p2.mp hd) (notDeleg hl.zoned hp hno0 hpy)
      subst hd
      obtain ⟨q1, q2, q3, q4⟩ := phase1_parts p1
      obtain ⟨c, M, hch, hM, hb⟩ := q3 b (cnameAt_of h2)
      have hbase := baseSize_ge (p := p) hl.zoned hq (a := (m0.zcut && !p.isEmpty))
        (hpy.elim .inl fun ⟨e, he, _⟩ => .inr (.inl ⟨e, he⟩))
      unfold chaseCname at hch
      obtain ⟨s, hs, hch⟩ := bind_some hch
      obtain ⟨_, -, hch⟩ := andThen_some hch
      obtain ⟨r, hr, hch⟩ := andThen_some hch
      rw [h5] at hs
      obtain ⟨k1, k2, k3, k4, c1, s1, k5, k6⟩ := chase h hx hl hrest 15 none s _ r h4 h6 hs hr
      obtain ⟨u, rfl⟩ := k2
      have hbl : 12 + len b ≤ 267 := by
        have := nameLen_le ⟨d, h4, h5⟩
        rw [len_name ⟨d, h4, h5⟩]; omega
      have hsum : chainSize w ((y ++ x.1, ⟨ttl, .cname b⟩) :: cs') = (12 + len b) + chainSize w cs' := by
        unfold chainSize
        rw [List.map_cons, List.sum_cons]
        rw [len_name ⟨d, h4, h5⟩]; rfl
      have hsa := (search_at hl.zoned k3 k5).2 u rfl
      refine ⟨by rw [List.length_cons]; omega, ?_⟩
      have hB : c.2.1 = r.2 := by
        split at hch
        · split at hch
          · cases hch; rfl
          · cases hch
        · split at hch
          · obtain ⟨_, -, hch⟩ := bind_some hch; cases hch; rfl
          · cases hch
        · cases hch; rfl
      have hend : ∃ B, endSize w t v ≤ max B 10080 ∧ (B = 0 ∨ (B = M ∧ r.2 = 12 + len b + chainSize w cs')) := by
        rcases k6 with ⟨k6, k7⟩ | ⟨k6, k7⟩
        · refine ⟨M, end_size (t := t) hpl h hall hx hl hv ?_ ?_, .inr ⟨rfl, k7⟩⟩
          · intro sg m rx s1' s2' s3' hm hrx ht
            have hdel := hsa.2.2 ⟨sg, s1', s2', s3'⟩
            obtain ⟨tt, t1, t2, t3, t4, t5⟩ := hsa.2.1 hdel
            have : sg = tt := by
              obtain ⟨mt, hmt, hct⟩ := t3
              exact (hl.phase hmt).2 sg s1' (t5 sg s1' s2' s3') s3' ⟨mt, hmt, hct⟩
            subst this
            rw [k6] at hch
            rw [hdel] at hch
            simp only [] at hch
            rw [t4, hm] at hch
            obtain ⟨_, -, hch⟩ := bind_some hch
            cases hch
            exact sets hM (hl.zoned.node hm).ok rx hrx (.inr ht)
          · intro m hm hno hcn rx hrx
            obtain ⟨a1, a2⟩ := hsa.1 hno
            have a2 := a2 m hm
            rw [k6, a1] at hch
            simp only [a2] at hch
            split at hch
            · cases hch
              obtain ⟨p', hp', -⟩ := HasData_node hm
              exact sets hM (hl.zoned.node hp').ok rx hrx (.inl rfl)
            · cases hch
        · refine ⟨0, end_size (t := t) hpl h hall hx hl hv ?_ ?_, .inl rfl⟩
          · intro sg m rx s1' s2' s3' hm hrx ht
            have hdel := hsa.2.2 ⟨sg, s1', s2', s3'⟩
            rw [k6] at hdel; cases hdel
          · intro m hm hno hcn rx hrx
            obtain ⟨a1, a2⟩ := hsa.1 hno
            rw [a2 m hm, hcn] at k7
            cases k7
      obtain ⟨B, hB1, hB2⟩ := hend
      rw [hsum]
      rcases hB2 with rfl | ⟨rfl, hB2⟩ <;> omega
  · have hout : Located root q .outside := by
      rintro s hs ⟨n, hn, hcut⟩
      obtain ⟨x, hx, hxs⟩ := h.cutAt hn hcut
      exact hin ⟨x, hx, hxs.trans hs⟩
    cases hc with
    | stop hn =>
      have : endSize w t v = 0 := by
        cases v with
        | refused => rfl
        | referral c r => obtain ⟨z, n, hl, -⟩ := hv; cases C18_unique _ _ _ _ hout hl
        | final z soa rrs =>
          obtain ⟨a, -, -, -, hl⟩ := hv
          cases rrs with
          | none => cases C18_unique _ _ _ _ hout hl
          | some l => obtain ⟨n, hl, -⟩ := hl; cases C18_unique _ _ _ _ hout hl
      refine ⟨Nat.zero_le _, ?_⟩
      rw [this]
      show 12 + wireLen q + 4 + (0 + 0) + ednsRoom cfg ≤ 16376
      omega
    | step hf hrest =>
      obtain ⟨z, n, b, hl, -⟩ := hf
      cases C18_unique _ _ _ _ hout hl

end Gdnsd.Load
