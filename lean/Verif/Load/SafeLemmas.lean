import Verif.Load.PathLemmas
/-
Loading a zone file runs into no undefined behaviour.
-/
namespace Gdnsd.Load
open Enc Tree TreeSpec DnameSpec EncSpec LookupSpec LoadSpec

theorem Zoned.okAt {cfg : Cfg} {zone : List Bytes} {l : List Add} {z : Zone} (h : Zoned cfg zone l z) {p : List Bytes} {n : Node}
    (hn : follow z.root p = some n) : NodeInv cfg z.dname (l.filter fun r => decide (place r = p)) n.rrs :=
  h.inv.node p _ (by unfold view; rw [hn]; rfl)

theorem search_ok {cfg : Cfg} {zone : List Bytes} {l : List Add} {z : Zone} (h : Zoned cfg zone l z) {q : List Bytes} (hq : WF q)
    (c : Option Node) : ∃ s, searchZone z (encode q true) c = .ok s ∧ (s.2.1 = .noauth → s.1 = none) ∧
      (∀ m, s.1 = some m → ∃ p, follow z.root p = some m) ∧
      (s.2.1 = .deleg → ∃ t m, t ≠ [] ∧ nodeAt z.root t = some m ∧ m.zcut = true ∧ s.2.2 = some m) := by
  obtain ⟨dn, root⟩ := z
  have hdn : dn = encode zone true := h.dname
  by_cases hz : zone <:+ q
  · obtain ⟨x, rfl⟩ := hz
    obtain ⟨n, st, c', hs, h1, h2, h3⟩ := C18_zone zone root x (x ++ zone) c h.wf hq
    obtain ⟨h4, h5, h6⟩ := h3 rfl
    refine ⟨_, by rw [hdn]; exact hs, fun hn => (h2 hn).1, ?_, ?_⟩
    · intro m hm
      simp only [] at hm
      cases st with
      | noauth => rw [(h2 rfl).1] at hm; cases hm
      | deleg => rw [(h5 rfl).1] at hm; exact ⟨_, hm⟩
      | auth =>
        obtain ⟨p, hp, -⟩ := HasData_node (((h6 rfl).2 m).mp hm)
        exact ⟨_, hp⟩
    · intro hd
      obtain ⟨-, t, a, -, ⟨m, b, b'⟩, e, -⟩ := h5 hd
      exact ⟨t, m, a, b, b', by rw [e]; exact b⟩
  · obtain ⟨n, st, c', hs, h1, h2, -⟩ := C18_zone zone root [] q c h.wf hq
    have hst := h1.mpr hz
    refine ⟨_, by rw [hdn]; exact hs, fun hn => (h2 hn).1, ?_, ?_⟩
    · intro m hm
      rw [show n = none from (h2 hst).1] at hm; cases hm
    · intro hd
      rw [show st = .noauth from hst] at hd; cases hd

theorem glueOf_ne_ub {cfg : Cfg} {r : Option RRset} {t : Nat} (ht : t = 1 ∨ t = 28) (h : ∀ s, r = some s → SetOk cfg s ∧ s.type = t) :
    glueOf r ≠ .ub := by
  cases r with
  | none => intro h; cases h
  | some s =>
    obtain ⟨h1, h2⟩ := h s rfl
    obtain ⟨ttl, b⟩ := s
    cases b <;> first
      | (intro h; cases h; done)
      | (exfalso; simp only [RRset.type, Body.type] at h2; omega)
      | skip
    exfalso
    rename_i u m
    simp only [RRset.type, Body.type] at h2
    have := h1.2
    subst h2
    rcases ht with rfl | rfl <;> cases this

theorem assert_ne_ub {c : Bool} (h : c = true) : assert c ≠ .ub := by subst h; intro h; cases h

theorem procNs_ne_ub {cfg : Cfg} {zone : List Bytes} {l : List Add} {z : Zone} (h : Zoned cfg zone l z) {d : Bytes} (hd : NameOk d) :
    procNs z d ≠ .ub := by
  obtain ⟨hq, he⟩ := NameOk_encode hd
  obtain ⟨s, hs, h1, h2, -⟩ := search_ok h hq none
  rw [← he] at hs
  unfold procNs
  rw [hs, Outcome.bind_ok]
  by_cases ha : s.2.1 = .auth
  · rw [if_pos ha]; intro h; cases h
  · rw [if_neg ha]
    refine bind_ne_ub (assert_ne_ub ?_) fun _ _ => ?_
    · by_cases hn : s.2.1 = .noauth
      · rw [h1 hn]; simp
      · simp [hn]
    · have key : ∀ t, ∀ r, ((bif decide (s.2.1 = .noauth) then (z.root.find oozLabel).bind fun o => o.find (d.drop 1) else s.1).bind
          fun n => getType n.rrs t) = some r → SetOk cfg r ∧ r.type = t := by
        intro t r hr
        obtain ⟨n, hn, hg⟩ := Option.bind_eq_some_iff.mp hr
        have hp : ∃ p, follow z.root p = some n := by
          cases hb : decide (s.2.1 = .noauth) with
          | true =>
            rw [hb, cond_true] at hn
            obtain ⟨o, ho, hn⟩ := Option.bind_eq_some_iff.mp hn
            exact ⟨[oozLabel, d.drop 1], by rw [follow, ho, Option.bind_some, follow, hn, Option.bind_some]; rfl⟩
          | false => rw [hb, cond_false] at hn; exact h2 n hn
        obtain ⟨p, hp⟩ := hp
        have := getType_some hg
        exact ⟨(h.okAt hp).ok r this.1, this.2⟩
      refine andThen_ne_ub (fatal_ne_ub _) fun _ _ => andThen_ne_ub (fatal_ne_ub _) fun _ _ => ?_
      refine bind_ne_ub (glueOf_ne_ub (.inl rfl) (key 1)) fun _ _ => bind_ne_ub (glueOf_ne_ub (.inr rfl) (key 28)) fun _ _ => ?_
      intro h; cases h

theorem procNsList_ne_ub {cfg : Cfg} {zone : List Bytes} {l : List Add} {z : Zone} (h : Zoned cfg zone l z) (ns : List NsRd)
    (hn : ∀ x ∈ ns, NameOk x.dname) : procNsList z ns ≠ .ub := by
  induction ns with
  | nil => intro h; cases h
  | cons x r ih =>
    rw [procNsList]
    refine andThen_ne_ub (procNs_ne_ub h (hn x List.mem_cons_self)) fun _ _ =>
      andThen_ne_ub (ih fun y hy => hn y (List.mem_cons_of_mem _ hy)) fun _ _ => ?_
    intro h; cases h

theorem procSet_ne_ub {cfg : Cfg} {zone : List Bytes} {l : List Add} {z : Zone} (h : Zoned cfg zone l z) {r : RRset} (hr : SetOk cfg r) :
    procSet z r ≠ .ub := by
  obtain ⟨ttl, b⟩ := r
  cases b <;> first | (intro h; cases h; done) | skip
  rename_i ns
  show andThen (procNsList z ns) _ ≠ _
  refine andThen_ne_ub (procNsList_ne_ub h ns fun x hx => (hr.2.2 x hx).1) fun _ _ => ?_
  intro h; cases h

theorem setSize_ne_ub {cfg : Cfg} {z : Zone} {r r' : RRset} {d : Bool} (hr : SetOk cfg r) (hc : ∀ b, r.body ≠ .cname b)
    (hp : procSet z r = .ok (some r')) : setSize cfg d r' ≠ .ub := by
  obtain ⟨ttl, b⟩ := r
  cases b with
  | ns ns =>
    obtain ⟨ns', -, h⟩ := andThen_some (show andThen (procNsList z ns) _ = _ from hp)
    cases h
    intro h; cases h
  | cname b => exact absurd rfl (hc b)
  | raw t l =>
    cases hp
    have : hasLayout t = false := hasLayout_of hr.2
    simp only [setSize, this, cond_false]
    intro h; cases h
  | _ =>
    cases hp
    intro h; cases h

theorem checkAddrs_ne_ub {cfg : Cfg} {zone : List Bytes} {l : List Add} {z : Zone} (h : Zoned cfg zone l z) (ds : List Bytes)
    (hd : ∀ d ∈ ds, NameOk d) : checkAddrs cfg z ds ≠ .ub := by
  induction ds with
  | nil => intro h; cases h
  | cons d r ih =>
    rw [checkAddrs]
    obtain ⟨hq, he⟩ := NameOk_encode (hd d List.mem_cons_self)
    obtain ⟨s, hs, -⟩ := search_ok h hq none
    refine bind_ne_ub ?_ fun _ _ => andThen_ne_ub (warn_ne_ub _ _) fun _ _ => ih fun y hy => hd y (List.mem_cons_of_mem _ hy)
    unfold validAddr
    rw [he, hs, Outcome.bind_ok]
    intro h; cases h

theorem checkMxSrv_ne_ub {cfg : Cfg} {zone : List Bytes} {l : List Add} {z : Zone} (h : Zoned cfg zone l z) {r : RRset} (hr : SetOk cfg r) :
    checkMxSrv cfg z r ≠ .ub := by
  obtain ⟨ttl, b⟩ := r
  cases b <;> first | (intro h; cases h; done) | skip
  · refine checkAddrs_ne_ub h _ ?_
    intro d hd
    obtain ⟨x, hx, rfl⟩ := List.mem_map.mp hd
    exact (hr x hx).2
  · refine checkAddrs_ne_ub h _ ?_
    intro d hd
    obtain ⟨x, hx, rfl⟩ := List.mem_map.mp hd
    exact (hr x hx).2

theorem sizeLoop_ne_ub {cfg : Cfg} {zone : List Bytes} {l : List Add} {z : Zone} (h : Zoned cfg zone l z) (via d : Bool) (rrs : List RRset) :
    (∀ r ∈ rrs, SetOk cfg r ∧ ∀ b, r.body ≠ .cname b) → ∀ m, sizeLoop cfg z via d rrs m ≠ .ub := by
  induction rrs with
  | nil => intro _ m h; cases h
  | cons r rest ih =>
    intro hr m
    obtain ⟨h1, h2⟩ := hr r List.mem_cons_self
    rw [sizeLoop]
    refine andThen_ne_ub (procSet_ne_ub h h1) fun r' hr' => andThen_ne_ub ?_ fun _ _ => ?_
    · cases via with
      | true => intro h; cases h
      | false => exact checkMxSrv_ne_ub h h1
    · exact bind_ne_ub (setSize_ne_ub h1 h2 hr') fun s _ => ih (fun x hx => hr x (List.mem_cons_of_mem _ hx)) _

/-- What the loader holds after a search. -/
def Found (z : Zone) (s : Option Node × Auth × Option Node) : Prop :=
  (∀ m, s.1 = some m → ∃ p, follow z.root p = some m) ∧
  (s.2.1 = .deleg → ∃ t m, t ≠ [] ∧ nodeAt z.root t = some m ∧ m.zcut = true ∧ s.2.2 = some m)

theorem cnameAt_some {m : Option Node} {d : Bytes} (h : cnameAt m = some d) : ∃ n ttl rest, m = some n ∧ n.rrs = ⟨ttl, .cname d⟩ :: rest := by
  unfold cnameAt at h
  split at h
  · cases h
  · next n =>
    split at h
    · next ttl d' rest hr => cases h; exact ⟨n, ttl, rest, rfl, hr⟩
    · cases h

theorem chaseLoop_ne_ub {cfg : Cfg} {zone : List Bytes} {l : List Add} {z : Zone} (h : Zoned cfg zone l z) (fuel : Nat) :
    ∀ (s : Option Node × Auth × Option Node) (size : Nat), Found z s →
    chaseLoop z fuel s size ≠ .ub ∧ ∀ r, chaseLoop z fuel s size = .ok (some r) → Found z r.1 ∧ (r.1.2.1 = .auth → cnameAt r.1.1 = none) := by
  induction fuel with
  | zero =>
    intro s size hs
    unfold chaseLoop
    cases hc : cnameAt s.1 with
    | none => exact ⟨nofun, fun r hr => by cases hr; exact ⟨hs, fun _ => hc⟩⟩
    | some d =>
      simp only []
      by_cases ha : s.2.1 = .auth
      · rw [if_pos ha]; exact ⟨nofun, fun r hr => by cases hr⟩
      · rw [if_neg ha]; exact ⟨nofun, fun r hr => by cases hr; exact ⟨hs, fun e => absurd e ha⟩⟩
  | succ k ih =>
    intro s size hs
    unfold chaseLoop
    cases hc : cnameAt s.1 with
    | none => exact ⟨nofun, fun r hr => by cases hr; exact ⟨hs, fun _ => hc⟩⟩
    | some d =>
      simp only []
      by_cases ha : s.2.1 = .auth
      · rw [if_pos ha]
        obtain ⟨n, ttl, rest, hn, hr⟩ := cnameAt_some hc
        obtain ⟨p, hp⟩ := hs.1 n hn
        have hok := (h.okAt hp).ok ⟨ttl, .cname d⟩ (by rw [hr]; exact List.mem_cons_self)
        obtain ⟨hw, he⟩ := NameOk_encode (show NameOk d from hok.1)
        obtain ⟨s', hs', -, h2, h3⟩ := search_ok h hw s.2.2
        rw [← he] at hs'
        rw [hs', Outcome.bind_ok]
        exact ih s' _ ⟨h2, h3⟩
      · rw [if_neg ha]; exact ⟨nofun, fun r hr => by cases hr; exact ⟨hs, fun e => absurd e ha⟩⟩

theorem cnameAt_first {n : Node} {ttl : UInt32} {b : Bytes} {rest : List RRset} (h : n.rrs = ⟨ttl, .cname b⟩ :: rest) :
    cnameAt (some n) = some b := by
  cases n with
  | mk zc rrs kids =>
    have h : rrs = ⟨ttl, .cname b⟩ :: rest := h
    subst h; rfl

/-- Only the first set of a name can be a CNAME. -/
theorem NodeInv.noCname {cfg : Cfg} {o : Bytes} {l : List Add} {n : Node} (h : NodeInv cfg o l n.rrs)
    (hc : cnameAt (Option.some n) = none) : ∀ r ∈ n.rrs, ∀ b, r.body ≠ .cname b := by
  intro r hr b hb
  have ht := h.tail
  cases hrr : n.rrs with
  | nil => rw [hrr] at hr; cases hr
  | cons r0 rest =>
    rw [hrr] at hr ht
    rcases List.mem_cons.mp hr with e | hr
    · subst e
      obtain ⟨ttl, body⟩ := r
      have hb : body = .cname b := hb
      subst hb
      rw [cnameAt_first hrr] at hc
      cases hc
    · have := (ht r.type (by simp only [List.map_cons, List.tail_cons]; exact List.mem_map_of_mem hr)).1
      unfold RRset.type at this
      rw [hb] at this
      exact this rfl

theorem Zoned.cutNodes {cfg : Cfg} {zone : List Bytes} {l : List Add} {z : Zone} (h : Zoned cfg zone l z)
    (hmix : ∀ x, recsAt l x 5 = [] ∨ recsAt l x 2 = []) {t : List Bytes} {m : Node} (ht : t ≠ []) (hm : nodeAt z.root t = some m)
    (hc : m.zcut = true) : m.rrs ≠ [] ∧ ∀ r ∈ m.rrs, ∀ b, r.body ≠ .cname b := by
  have hv := view_of_node hm
  rcases (h.inv.cut _ _ hv).mp hc with e | ⟨r, hr, hp, d, hd⟩
  · exact absurd (by simpa using e) ht
  · have hz : isOoz r.data = false := by rw [hd]; rfl
    have ho : owner r = t := by
      unfold place at hp
      rw [hz] at hp
      simpa using hp
    have h2 : r ∈ recsAt l t 2 := by
      unfold recsAt
      refine List.mem_filter.mpr ⟨hr, ?_⟩
      rw [hz, ho, hd]; simp [hasType]
    have inv := h.node hm
    have hmem : r ∈ (l.filter fun r => decide (place r = t.reverse)).filter fun r => hasType 2 r.data := by
      refine List.mem_filter.mpr ⟨List.mem_filter.mpr ⟨hr, by simpa using hp⟩, by rw [hd]; rfl⟩
    have hsome := inv.some 2 (List.ne_nil_of_mem hmem)
    refine ⟨?_, ?_⟩
    · intro e; rw [e] at hsome; cases hsome
    · intro s hs b hb
      have hty : s.type = 5 := by unfold RRset.type; rw [hb]; rfl
      have : (getType m.rrs 5).isSome = true := by
        unfold getType
        rw [List.find?_isSome]
        exact ⟨s, hs, by simp [hty]⟩
      rw [inv.sets 5] at this
      have hne : ((l.filter fun r => decide (place r = t.reverse)).filter fun r => hasType 5 r.data) ≠ [] := by
        intro e; rw [e] at this; cases this
      obtain ⟨y, hy⟩ := List.exists_mem_of_ne_nil _ hne
      obtain ⟨hy1, hy2⟩ := List.mem_filter.mp hy
      obtain ⟨hy3, hy4⟩ := List.mem_filter.mp hy1
      have hyz : isOoz y.data = false := by
        cases hyd : y.data <;> rw [hyd] at hy2 <;> first | rfl | (cases hy2; done)
      have hyo : owner y = t := by
        have := of_decide_eq_true hy4
        unfold place at this
        rw [hyz] at this
        simpa using this
      rcases hmix t with e | e
      · have : y ∈ recsAt l t 5 := by
          unfold recsAt
          refine List.mem_filter.mpr ⟨hy3, ?_⟩
          rw [hyz, hyo, hy2]; simp
        rw [e] at this; cases this
      · rw [e] at h2; cases h2

theorem chaseCname_ne_ub {cfg : Cfg} {zone : List Bytes} {l : List Add} {z : Zone} (h : Zoned cfg zone l z)
    (hmix : ∀ x, recsAt l x 5 = [] ∨ recsAt l x 2 = []) (hz : zrootPhase1 cfg z = .ok (some ())) {d : Bytes} (hd : NameOk d) :
    chaseCname cfg z d ≠ .ub ∧ ∀ c, chaseCname cfg z d = .ok (some c) → ∀ r ∈ c.1, SetOk cfg r ∧ ∀ b, r.body ≠ .cname b := by
  obtain ⟨hw, he⟩ := NameOk_encode hd
  obtain ⟨s, hs, -, h2, h3⟩ := search_ok h hw none
  rw [← he] at hs
  obtain ⟨l1, l2⟩ := chaseLoop_ne_ub h 15 s (12 + len d) ⟨h2, h3⟩
  obtain ⟨tt, m, n, b, -, -, hsoa, -⟩ := zrootPhase1_parts hz
  unfold chaseCname
  rw [hs, Outcome.bind_ok]
  constructor
  · refine andThen_ne_ub (warn_ne_ub _ _) fun _ _ => andThen_ne_ub l1 fun r hr => ?_
    obtain ⟨f1, f2⟩ := l2 r hr
    cases ha : r.1.2.1 with
    | auth => simp only [hsoa]; intro h; cases h
    | deleg =>
      obtain ⟨t, m, t1, t2, t3, t4⟩ := f1.2 ha
      rw [t4]
      simp only []
      refine bind_ne_ub (assert_ne_ub ?_) fun _ _ => by intro h; cases h
      have := (h.cutNodes hmix t1 t2 t3).1
      cases hr : m.rrs with
      | nil => exact absurd hr this
      | cons _ _ => rfl
    | noauth => intro h; cases h
  · intro c hc
    obtain ⟨_, -, hc⟩ := andThen_some hc
    obtain ⟨r, hr, hc⟩ := andThen_some hc
    obtain ⟨f1, f2⟩ := l2 r hr
    cases ha : r.1.2.1 with
    | auth =>
      rw [ha] at hc
      simp only [hsoa] at hc
      cases hc
      have hno := f2 ha
      cases hn : r.1.1 with
      | none => intro r hr; cases hr
      | some k =>
        rw [hn] at hno
        obtain ⟨p, hp⟩ := f1.1 k hn
        intro x hx
        exact ⟨(h.okAt hp).ok x hx, (h.okAt hp).noCname hno x hx⟩
    | deleg =>
      obtain ⟨t, m, t1, t2, t3, t4⟩ := f1.2 ha
      rw [ha, t4] at hc
      simp only [] at hc
      obtain ⟨_, -, hc⟩ := bind_some hc
      cases hc
      intro x hx
      exact ⟨(h.node t2).ok x hx, (h.cutNodes hmix t1 t2 t3).2 x hx⟩
    | noauth =>
      rw [ha] at hc
      cases hc
      intro r hr; cases hr

theorem phase1_ne_ub {cfg : Cfg} {zone : List Bytes} {l : List Add} {z : Zone} (h : Zoned cfg zone l z)
    (hmix : ∀ x, recsAt l x 5 = [] ∨ recsAt l x 2 = []) (hz : zrootPhase1 cfg z = .ok (some ())) {n : Node} {p name : List Bytes} {d : Bool}
    (hn : follow z.root p = some n) (hd : d = true → name ≠ []) : phase1 cfg z n name d ≠ .ub := by
  unfold phase1
  have inv := h.okAt hn
  refine andThen_ne_ub ?_ fun _ _ => andThen_ne_ub ?_ fun _ _ => andThen_ne_ub ?_ fun _ _ => fatal_ne_ub _
  · unfold checkDeleg
    cases hdd : d with
    | false => intro h; cases h
    | true =>
      refine bind_ne_ub (assert_ne_ub ?_) fun _ _ => andThen_ne_ub (fatal_ne_ub _) fun _ _ => fatal_ne_ub _
      have := hd hdd
      cases name with
      | nil => exact absurd rfl this
      | cons _ _ => rfl
  · unfold checkCname
    split
    · exact fatal_ne_ub _
    · intro h; cases h
  · cases hc : cnameAt (some n) with
    | none => exact sizeLoop_ne_ub h _ _ _ (fun r hr => ⟨inv.ok r hr, inv.noCname hc r hr⟩) 0
    | some dn =>
      obtain ⟨n', ttl, rest, e, hr⟩ := cnameAt_some hc
      cases e
      have hok := inv.ok ⟨ttl, .cname dn⟩ (by rw [hr]; exact List.mem_cons_self)
      obtain ⟨c1, c2⟩ := chaseCname_ne_ub h hmix hz (show NameOk dn from hok.1)
      refine andThen_ne_ub c1 fun c hc => andThen_ne_ub (sizeLoop_ne_ub h _ _ _ (c2 c hc) _) fun _ _ => ?_
      intro h; cases h

/-! ### The walk -/

mutual
theorem procInner_ne_ub {fn : Node → List Bytes → Bool → Outcome (Option Unit)} (root : Node) :
    ∀ (n : Node) (p : List Bytes) (d : Bool), Tidy n → follow root p = some n → (d = true → p ≠ []) →
    (∀ p' m d', p <+: p' → follow root p' = some m → p'.length ≤ 127 ∧ ((d' = true → p' ≠ []) → fn m p'.reverse d' ≠ .ub)) →
    procInner fn n p.reverse d ≠ .ub
  | .mk zc rrs kids, p, d, ht, hp, hd, hfn => by
    rw [procInner]
    have hd' : (d || (zc && !p.reverse.isEmpty)) = true → p ≠ [] := by
      intro h
      rw [Bool.or_eq_true, Bool.and_eq_true] at h
      rcases h with h | h
      · exact hd h
      · rintro rfl; simp at h
    refine andThen_ne_ub (fatal_ne_ub _) fun _ _ => andThen_ne_ub ?_ fun _ _ => ?_
    · exact (hfn p _ _ (List.prefix_refl _) hp).2 hd'
    · obtain ⟨t1, t2⟩ := (Tidy_iff _).mp ht
      refine procKids_ne_ub root kids p _ t2 ?_ hd' hfn
      intro l c hc
      rw [follow_append, hp]
      show follow (Node.mk zc rrs kids) [l] = _
      simp only [follow, Node.find, lookupKid_of_mem t1 hc, Option.bind_some]
theorem procKids_ne_ub {fn : Node → List Bytes → Bool → Outcome (Option Unit)} (root : Node) :
    ∀ (kids : List (Bytes × Node)) (p : List Bytes) (d : Bool), (∀ x ∈ kids, Tidy x.2) →
    (∀ l c, (l, c) ∈ kids → follow root (p ++ [l]) = some c) → (d = true → p ≠ []) →
    (∀ p' m d', p <+: p' → follow root p' = some m → p'.length ≤ 127 ∧ ((d' = true → p' ≠ []) → fn m p'.reverse d' ≠ .ub)) →
    procKids fn kids p.reverse d ≠ .ub
  | [], _, _, _, _, _, _ => by rw [procKids]; intro h; cases h
  | (l, c) :: r, p, d, ht, hk, hd, hfn => by
    rw [procKids]
    have hc := hk l c List.mem_cons_self
    have hlen := (hfn (p ++ [l]) c false (List.prefix_append _ _) hc).1
    refine bind_ne_ub (assert_ne_ub ?_) fun _ _ => andThen_ne_ub ?_ fun _ _ => ?_
    · simp at hlen ⊢; omega
    · have := procInner_ne_ub root c (p ++ [l]) d (ht _ List.mem_cons_self) hc (fun _ => by simp)
        (fun p' m d' h1 h2 => hfn p' m d' ((List.prefix_append _ _).trans h1) h2)
      rw [List.reverse_append] at this
      exact this
    · exact procKids_ne_ub root r p d (fun x hx => ht x (List.mem_cons_of_mem _ hx))
        (fun l c h => hk l c (List.mem_cons_of_mem _ h)) hd hfn
end

/-! ### The rest -/

theorem NodeInv.source {cfg : Cfg} {o : Bytes} {l : List Add} {rrs : List RRset} (h : NodeInv cfg o l rrs) {r : RRset} (hr : r ∈ rrs) :
    ∃ a ∈ l, hasType r.type a.data = true := by
  have : (getType rrs r.type).isSome = true := by
    unfold getType
    rw [List.find?_isSome]
    exact ⟨r, hr, by simp⟩
  rw [h.sets] at this
  have hne : (l.filter fun a => hasType r.type a.data) ≠ [] := by
    intro e; rw [e] at this; cases this
  obtain ⟨a, ha⟩ := List.exists_mem_of_ne_nil _ hne
  exact ⟨a, (List.mem_filter.mp ha).1, (List.mem_filter.mp ha).2⟩

theorem place_head {zone : List Bytes} {r : Add} (hr : RecOk zone r) {x : List Bytes} (hp : oozLabel :: x <+: place r) :
    isOoz r.data = true ∧ place r = [oozLabel, r.dname.drop 1] := by
  cases hz : isOoz r.data with
  | true => exact ⟨rfl, by unfold place; rw [hz]; rfl⟩
  | false =>
    exfalso
    obtain ⟨o, hro, hw, ho, hd⟩ := RecOk_WF hr
    unfold place at hp
    rw [hz, ho] at hp
    have : oozLabel ∈ o.reverse := hp.subset List.mem_cons_self
    rw [List.mem_reverse] at this
    have := (hw.1 _ this).1
    exact absurd this (by decide)

theorem oozNode_ok {cfg : Cfg} {zone : List Bytes} {l : List Add} {z : Zone} (h : Zoned cfg zone l z) {k : Bytes} {n : Node}
    (hn : follow z.root [oozLabel, k] = some n) : oozNodeOk n.rrs = true := by
  have inv := h.okAt hn
  have hv : view z.root [oozLabel, k] = some (n.zcut, n.rrs) := by unfold view; rw [hn]; rfl
  have hp : ∃ r ∈ l, place r = [oozLabel, k] := by
    rcases (h.inv.present _).mp (by rw [hv]; rfl) with e | ⟨r, hr, hp⟩
    · cases e
    · obtain ⟨-, e⟩ := place_head (h.recs r hr) hp
      rw [e] at hp
      exact ⟨r, hr, by rw [e]; exact (hp.eq_of_length rfl).symm⟩
  have addr : ∀ r ∈ l, place r = [oozLabel, k] → ∀ t, hasType t r.data = true → t = 1 ∨ t = 28 := by
    intro r hr hp t ht
    have hz := (place_head (h.recs r hr) (x := [k]) (by rw [hp]; exact List.prefix_refl _)).1
    cases hd : r.data <;> rw [hd] at hz ht <;> first
      | (cases hz; done)
      | (simp only [hasType, beq_iff_eq] at ht; omega)
  have typ : ∀ r ∈ n.rrs, r.type = 1 ∨ r.type = 28 := by
    intro r hr
    obtain ⟨a, ha, ht⟩ := inv.source hr
    obtain ⟨ha1, ha2⟩ := List.mem_filter.mp ha
    exact addr a ha1 (of_decide_eq_true ha2) _ ht
  have ne : n.rrs ≠ [] := by
    obtain ⟨r, hr, hp⟩ := hp
    have hz := (place_head (h.recs r hr) (x := [k]) (by rw [hp]; exact List.prefix_refl _)).1
    have ht : ∃ t, hasType t r.data = true := by
      cases hd : r.data <;> rw [hd] at hz <;> first
        | (cases hz; done)
        | exact ⟨1, rfl⟩
        | exact ⟨28, rfl⟩
    obtain ⟨t, ht⟩ := ht
    have := inv.some t (List.ne_nil_of_mem (a := r) (List.mem_filter.mpr ⟨List.mem_filter.mpr ⟨hr, by simpa using hp⟩, ht⟩))
    intro e; rw [e] at this; cases this
  have nd := inv.types
  unfold oozNodeOk
  match hrr : n.rrs with
  | [] => exact absurd hrr ne
  | [r] => simp only []; have := typ r (by rw [hrr]; simp); rcases this with e | e <;> rw [e] <;> rfl
  | [r, s] =>
    simp only []
    have h1 := typ r (by rw [hrr]; simp)
    have h2 := typ s (by rw [hrr]; simp)
    rw [hrr] at nd
    simp only [List.map_cons, List.map_nil, List.nodup_cons, List.mem_singleton] at nd
    have h3 := nd.1
    rcases h1 with e | e <;> rcases h2 with f | f <;> rw [e, f] at h3 ⊢ <;> first | rfl | exact absurd rfl h3
  | r :: s :: u :: rest =>
    exfalso
    have h1 := typ r (by rw [hrr]; simp)
    have h2 := typ s (by rw [hrr]; simp)
    have h3 := typ u (by rw [hrr]; simp)
    rw [hrr] at nd
    simp only [List.map_cons, List.nodup_cons, List.mem_cons, not_or] at nd
    omega

theorem oozLoop_ne_ub {cfg : Cfg} {z : Zone} (kids : List (Bytes × Node)) (h : ∀ x ∈ kids, oozNodeOk x.2.rrs = true) :
    oozLoop cfg z kids ≠ .ub := by
  induction kids with
  | nil => intro h; cases h
  | cons x r ih =>
    obtain ⟨k, n⟩ := x
    rw [oozLoop]
    exact bind_ne_ub (assert_ne_ub (h (k, n) List.mem_cons_self)) fun _ _ => andThen_ne_ub (warn_ne_ub _ _) fun _ _ =>
      ih fun x hx => h x (List.mem_cons_of_mem _ hx)

theorem zrootPhase2_ne_ub {cfg : Cfg} {zone : List Bytes} {l : List Add} {z : Zone} (h : Zoned cfg zone l z) :
    zrootPhase2 cfg z ≠ .ub := by
  unfold zrootPhase2
  cases ho : z.root.find oozLabel with
  | none => intro h; cases h
  | some o =>
    simp only []
    have hf : follow z.root [oozLabel] = some o := by rw [follow, ho]; rfl
    have ht := (Tidy_iff o).mp (follow_tidy h.inv.tidy hf)
    have kid : ∀ k n, (k, n) ∈ o.kids → follow z.root [oozLabel, k] = some n := by
      intro k n hk
      rw [follow, ho, Option.bind_some, follow]
      have := lookupKid_of_mem ht.1 hk
      cases o with
      | mk a b c => rw [show Node.find (.mk a b c) k = some n from this]; rfl
    refine bind_ne_ub (assert_ne_ub ?_) fun _ _ => oozLoop_ne_ub _ fun x hx => oozNode_ok h (kid x.1 x.2 hx)
    have hv : view z.root [oozLabel] = some (o.zcut, o.rrs) := by unfold view; rw [hf]; rfl
    rcases (h.inv.present _).mp (by rw [hv]; rfl) with e | ⟨r, hr, hp⟩
    · cases e
    · obtain ⟨-, e⟩ := place_head (h.recs r hr) hp
      have := (h.inv.present [oozLabel, r.dname.drop 1]).mpr (.inr ⟨r, hr, by rw [e]; exact List.prefix_refl _⟩)
      unfold view at this
      rw [follow, ho, Option.bind_some, follow] at this
      cases hk : o.kids with
      | cons _ _ => rfl
      | nil =>
        cases o with
        | mk a b c =>
          have hk : c = [] := hk
          subst hk
          cases this

theorem anySame_ne_ub {m : Bytes} (hm : NameOk m) (l : List NsRd) (hl : ∀ x ∈ l, NameOk x.dname) : anySame m l ≠ .ub := by
  induction l with
  | nil => intro h; cases h
  | cons x r ih =>
    rw [anySame]
    refine bind_ne_ub ?_ fun c _ => ?_
    · obtain ⟨h1, e1⟩ := NameOk_encode hm
      obtain ⟨h2, e2⟩ := NameOk_encode (hl x List.mem_cons_self)
      rw [e1, e2]
      obtain ⟨r, hr, -⟩ := Dname.C04_cmp _ _ true true h1 h2 [] []
      rw [List.append_nil, List.append_nil] at hr
      rw [hr]; intro h; cases h
    · split
      · intro h; cases h
      · exact ih fun y hy => hl y (List.mem_cons_of_mem _ hy)

theorem zrootPhase1_ne_ub {cfg : Cfg} {zone : List Bytes} {l : List Add} {z : Zone} (h : Zoned cfg zone l z) :
    zrootPhase1 cfg z ≠ .ub := by
  have inv := h.okAt (p := []) (n := z.root) rfl
  have soa : ∀ s, getType z.root.rrs 6 = some s → ∃ ttl m n b, s = ⟨ttl, .soa m n b⟩ ∧ NameOk m := by
    intro s hs
    obtain ⟨h1, h2⟩ := getType_some hs
    have hok := inv.ok s h1
    obtain ⟨ttl, b⟩ := s
    cases b <;> first
      | (exfalso; simp only [RRset.type, Body.type] at h2; omega)
      | exact ⟨_, _, _, _, rfl, hok.1⟩
      | skip
    simp only [RRset.type, Body.type] at h2
    subst h2
    exact absurd hok.2 (by decide)
  have ns : ∀ s, getType z.root.rrs 2 = some s → ∃ ttl l, s = ⟨ttl, .ns l⟩ ∧ l ≠ [] ∧ ∀ x ∈ l, NameOk x.dname := by
    intro s hs
    obtain ⟨h1, h2⟩ := getType_some hs
    have hok := inv.ok s h1
    obtain ⟨ttl, b⟩ := s
    cases b <;> first
      | (exfalso; simp only [RRset.type, Body.type] at h2; omega)
      | exact ⟨_, _, rfl, hok.1, fun x hx => (hok.2.2 x hx).1⟩
      | skip
    simp only [RRset.type, Body.type] at h2
    subst h2
    exact absurd hok.2 (by decide)
  unfold zrootPhase1
  cases h1 : getType z.root.rrs 6 with
  | none => intro h; cases h
  | some s =>
    cases h2 : getType z.root.rrs 2 with
    | none =>
      obtain ⟨ttl, m, n, b, rfl, -⟩ := soa s h1
      intro h; cases h
    | some r =>
      obtain ⟨ttl, m, n, b, rfl, hm⟩ := soa s h1
      obtain ⟨ttl', l', rfl, hl, hn⟩ := ns r h2
      simp only []
      refine bind_ne_ub (assert_ne_ub ?_) fun _ _ => andThen_ne_ub (warn_ne_ub _ _) fun _ _ =>
        bind_ne_ub (anySame_ne_ub hm l' hn) fun _ _ => warn_ne_ub _ _
      cases l' with
      | nil => exact absurd rfl hl
      | cons _ _ => rfl

theorem WF_length {o : List Bytes} (h : WF o) : o.length ≤ 127 := by
  have key : ∀ o : List Bytes, (∀ l ∈ o, 1 ≤ l.length) → 2 * o.length + 1 ≤ wireLen o := by
    intro o
    induction o with
    | nil => intro _; simp [wireLen]
    | cons a r ih =>
      intro ho
      have h1 := ho a List.mem_cons_self
      have h2 := ih fun l hl => ho l (List.mem_cons_of_mem _ hl)
      simp only [wireLen, List.map_cons, List.sum_cons, List.length_cons] at h2 ⊢
      omega
  have := key o fun l hl => (h.1 l hl).1
  have := h.2
  omega

theorem Zoned.depth {cfg : Cfg} {zone : List Bytes} {l : List Add} {z : Zone} (h : Zoned cfg zone l z) {p : List Bytes} {m : Node}
    (hm : follow z.root p = some m) : p.length ≤ 127 := by
  have hv : view z.root p = some (m.zcut, m.rrs) := by unfold view; rw [hm]; rfl
  rcases (h.inv.present _).mp (by rw [hv]; rfl) with e | ⟨r, hr, hp⟩
  · rw [e]; exact Nat.zero_le _
  · refine Nat.le_trans hp.length_le ?_
    obtain ⟨o, hro, hw, ho, hd⟩ := RecOk_WF (h.recs r hr)
    unfold place
    cases isOoz r.data with
    | true => show 2 ≤ 127; omega
    | false =>
      simp only [Bool.false_eq_true, if_false, List.length_reverse, ho]
      exact WF_length hw

theorem postproc_ne_ub {cfg : Cfg} {zone : List Bytes} {l : List Add} {z : Zone} (h : Zoned cfg zone l z)
    (hmix : ∀ x, recsAt l x 5 = [] ∨ recsAt l x 2 = []) : postproc cfg z ≠ .ub := by
  unfold postproc
  refine andThen_ne_ub (zrootPhase1_ne_ub h) fun _ h1 => andThen_ne_ub ?_ fun _ _ => andThen_ne_ub (zrootPhase2_ne_ub h) fun _ _ =>
    andThen_ne_ub ?_ fun _ _ => by intro h; cases h
  · refine procInner_ne_ub z.root z.root [] false h.inv.tidy rfl (fun e => by cases e) fun p' m d' _ hm => ⟨h.depth hm, fun hd => ?_⟩
    exact phase1_ne_ub h hmix h1 hm (fun e => by simpa using hd e)
  · refine procInner_ne_ub z.root z.root [] false h.inv.tidy rfl (fun e => by cases e) fun p' m d' _ hm => ⟨h.depth hm, fun hd => ?_⟩
    exact warn_ne_ub _ _

/-- No name of a file has both a CNAME and an NS record. -/
def Unmixed (f : File) : Prop := ∀ zn l, NameOf f zn → f.recs = some l → ∀ x, recsAt l x 5 = [] ∨ recsAt l x 2 = []

theorem loadFile_ne_ub {cfg : Cfg} {f : File} (hf : FileOk f) (hmix : Unmixed f) : loadFile cfg f ≠ .ub := by
  unfold loadFile
  cases hn : zoneName f.name with
  | none => intro h; cases h
  | some n =>
    simp only []
    rcases newZone_spec n with ⟨zn, h1, h2⟩ | ⟨-, h2⟩
    · rw [h2, andThen_ok]
      cases hr : f.recs with
      | none => intro h; cases h
      | some l =>
        simp only []
        have hname : NameOf f zn := ⟨n, hn, h1⟩
        have hrec := hf zn l hname hr
        obtain ⟨w1, w2, w3⟩ := h1.spec
        refine andThen_ne_ub (addAll_ne_ub w1 l [] _ hrec (ZInv_new cfg _) rfl) fun z hz => ?_
        obtain ⟨i1, i2⟩ := addAll_inv l [] _ z hrec (ZInv_new cfg _) hz
        simp only [] at i1 i2
        rw [List.nil_append] at i1
        exact postproc_ne_ub ⟨w1, i2, hrec, by rw [i2]; exact i1⟩ (hmix zn l hname hr)
    · rw [h2]; intro h; cases h

end Gdnsd.Load
