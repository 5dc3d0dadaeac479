import Verif.Plugins.WeightedProps
/-
C31 (datacenter failover), C57 (metafo lists), C58 (synthetic names), C33 (nested scopes).
-/
namespace Gdnsd.Plug
open Mon

theorem blank (r : Result) : resetScope (wipe r) = { draws := r.draws } := rfl

theorem override_ok {tbl : List UInt32} {slot : Nat} (h : slot < tbl.length) (rv : UInt32) :
    override tbl slot rv = .ok ((forcedAt tbl slot).getD rv) := by
  have e : tbl[slot]? = some tbl[slot] := List.getElem?_eq_getElem h
  unfold override forcedAt
  rw [e]
  simp only [Option.filter]
  by_cases hf : isForced tbl[slot] = true
  · have : tbl[slot] &&& FORCED ≠ 0 := by rw [isForced_iff] at hf; simpa using hf
    simp [hf, this]
  · have : ¬ tbl[slot] &&& FORCED ≠ 0 := by rw [isForced_iff] at hf; simpa using hf
    simp [hf, this]

theorem forcedAt_valid {tbl : List UInt32} (hv : ∀ s ∈ tbl, Valid s) {slot : Nat} {s : UInt32}
    (h : forcedAt tbl slot = some s) : Valid s := by
  simp only [forcedAt, Option.filter_eq_some_iff] at h
  exact hv s (List.mem_of_getElem? h.1)

theorem resolveDc_spec {tbl : List UInt32} (hv : ∀ s ∈ tbl, Valid s) {dc : Dc} (hI : dc.InTbl tbl) {dn : Bool} {t : Nat}
    (hc : dc.Computed tbl dn t) (r : Result) :
    ∃ s r', resolveDc tbl dc (resetScope (wipe r)) = .ok (s, r') ∧ dc.Answers r.draws r' ∧
      (isDown s, ttl s) = dc.state tbl dn t ∧ Valid s := by
  rw [blank]
  have h1 : ∃ s r', resolveInner tbl dc { draws := r.draws } = .ok (s, r') ∧ dc.Answers r.draws r' ∧ isDown s = dn ∧ ttl s = t ∧ Valid s := by
    unfold Dc.Computed at hc
    unfold Dc.Answers resolveInner
    cases hw : dc.what with
    | inl p =>
      obtain ⟨d, idx⟩ := p
      rw [hw] at hc
      obtain ⟨c1, c2, c3, c4⟩ := hc
      obtain ⟨s, s1, s2, s3, s4⟩ := sttlMin_ok c2
      refine ⟨s, { cname := some d, draws := r.draws }, ?_, rfl, by rw [s2, c3], by rw [s3, c4], s4⟩
      simp [addCname, c1, s1]
    | inr f =>
      rw [hw] at hc
      obtain ⟨s, r', f1, f2, f3, f4⟩ := hc r.draws
      exact ⟨s, r', f1, ⟨s, f1⟩, f2, f3, f4⟩
  obtain ⟨s, r', e1, e2, e3, e4, e5⟩ := h1
  obtain ⟨i1, i2⟩ := hI
  unfold resolveDc
  rw [e1]
  simp only [Outcome.bind_ok]
  have h2 : mapOverride tbl dc.mapIdx s = .ok ((dc.mapIdx.bind (forcedAt tbl)).getD s) := by
    cases hm : dc.mapIdx with
    | none => rfl
    | some m => exact override_ok (i2 m hm) s
  rw [h2]
  simp only [Outcome.bind_ok, override_ok i1]
  refine ⟨_, r', rfl, e2, ?_, ?_⟩
  · unfold Dc.state
    cases h3 : forcedAt tbl dc.dcIdx with
    | some f => simp
    | none =>
      cases h4 : dc.mapIdx.bind (forcedAt tbl) with
      | some f => simp
      | none => simp [e3, e4]
  · cases h3 : forcedAt tbl dc.dcIdx with
    | some f => exact forcedAt_valid hv h3
    | none =>
      cases h4 : dc.mapIdx.bind (forcedAt tbl) with
      | none => exact e5
      | some f =>
        cases hm : dc.mapIdx with
        | none => rw [hm] at h4; simp at h4
        | some m => rw [hm] at h4; exact forcedAt_valid hv h4

theorem dcTtl_foldl (h : UInt8 → Bool × Nat) (ds : Bytes) (a : Nat) (ha : a ≤ 2 ^ 28 - 1) :
    ds.foldl (fun n d => min n (h d).2) a = min a (dcTtl h ds) := by
  unfold dcTtl
  have key : ∀ (l : Bytes) (a b : Nat), a ≤ b → l.foldl (fun n d => min n (h d).2) a =
      min a (l.foldl (fun n d => min n (h d).2) b) := by
    intro l
    induction l with
    | nil => intro a b h; simp; omega
    | cons x xs ih =>
      intro a b hab
      simp only [List.foldl_cons]
      rw [ih (min a (h x).2) (min b (h x).2) (by omega)]
      have : xs.foldl (fun n d => min n (h d).2) (min b (h x).2) ≤ min b (h x).2 := by
        rw [ih (min b (h x).2) (min b (h x).2) (by omega)]; omega
      omega
  exact key ds a _ ha

theorem dcTtl_cons (h : UInt8 → Bool × Nat) (d : UInt8) (ds : Bytes) :
    dcTtl h (d :: ds) = min (min (2 ^ 28 - 1) (h d).2) (dcTtl h ds) := by
  conv => lhs; unfold dcTtl
  rw [List.foldl_cons, dcTtl_foldl _ _ _ (by omega)]

/-- Datacenter `d` is defined by the resource and in range. -/
def MetaRes.Has (res : MetaRes) (d : UInt8) : Prop := d ≠ 0 ∧ d.toNat ≤ res.numDcs ∧ res.defines d = true

theorem MetaRes.Has.get {res : MetaRes} {d : UInt8} (h : res.Has d) :
    ∃ dc, res.dcs[d.toNat]? = some (some dc) ∧ getDc res.dcs d = .ok dc := by
  obtain ⟨-, -, h⟩ := h
  unfold MetaRes.defines at h
  unfold getDc
  cases e : res.dcs[d.toNat]? with
  | none => rw [e] at h; simp at h
  | some o =>
    cases o with
    | none => rw [e] at h; simp at h
    | some dc => exact ⟨dc, rfl, rfl⟩

theorem dcLoop_step {tbl : List UInt32} {res : MetaRes} {d : UInt8} (hd : res.Has d) (ds : Bytes) (rv : UInt32) (r : Result)
    {dc : Dc} (hg : getDc res.dcs d = .ok dc) {s : UInt32} {r' : Result}
    (hs : resolveDc tbl dc (resetScope (wipe r)) = .ok (s, r')) (hv : Valid s) :
    dcLoop tbl res (d :: ds) rv r =
      if s &&& DOWN = 0 then .ok (min2 rv s &&& ~~~DOWN, r') else dcLoop tbl res ds (min2 rv s) r' := by
  obtain ⟨h0, h1, -⟩ := hd
  simp only [dcLoop, h0, if_false, h1, decide_true, assert_true, Outcome.bind_ok, hg, hs, assertValid_ok hv]

theorem dcLoop_up {tbl : List UInt32} (hv : ∀ s ∈ tbl, Valid s) {res : MetaRes} {h : UInt8 → Bool × Nat}
    (pre : Bytes) (d : UInt8) (rest : Bytes) (rv : UInt32) (r : Result) (hst : res.States tbl h (pre ++ [d]))
    (hhas : ∀ x ∈ pre ++ [d], res.Has x) (hpre : ∀ x ∈ pre, (h x).1 = true) (hd : (h d).1 = false) :
    ∃ rv' r' k dc, dcLoop tbl res (pre ++ d :: rest) rv r = .ok (rv', r') ∧ isDown rv' = false ∧
      ttl rv' = min (ttl rv) (dcTtl h (pre ++ [d])) ∧ Valid rv' ∧ res.dcs[d.toNat]? = some (some dc) ∧ dc.Answers k r' := by
  induction pre generalizing rv r with
  | nil =>
    obtain ⟨dc, e1, e2⟩ := (hhas d (by simp)).get
    obtain ⟨hI, dn, t, hc, hh⟩ := hst d (by simp) dc e1
    obtain ⟨s, r', s1, s2, s3, s4⟩ := resolveDc_spec hv hI hc r
    rw [← hh] at s3
    have hs1 : isDown s = (h d).1 := by rw [← s3]
    have hs2 : ttl s = (h d).2 := by rw [← s3]
    obtain ⟨m1, m2, m3, m4⟩ := min2_facts rv s
    obtain ⟨c1, c2, c3, c4⟩ := clear_down (min2 rv s)
    refine ⟨min2 rv s &&& ~~~DOWN, r', r.draws, dc, ?_, c1, ?_, c4 m4, e1, s2⟩
    · rw [List.nil_append, dcLoop_step (hhas d (by simp)) rest rv r e2 s1 s4,
        if_pos ((and_down s).2 (by rw [hs1, hd]))]
    · rw [c2, m3, hs2, List.nil_append, dcTtl_cons]
      have := ttl_lt rv
      simp only [dcTtl, List.foldl_nil]; omega
  | cons x pre ih =>
    obtain ⟨dc, e1, e2⟩ := (hhas x (by simp)).get
    obtain ⟨hI, dn, t, hc, hh⟩ := hst x (by simp) dc e1
    obtain ⟨s, r', s1, s2, s3, s4⟩ := resolveDc_spec hv hI hc r
    rw [← hh] at s3
    have hs1 : isDown s = (h x).1 := by rw [← s3]
    have hs2 : ttl s = (h x).2 := by rw [← s3]
    obtain ⟨m1, m2, m3, m4⟩ := min2_facts rv s
    obtain ⟨rv', r'', k, dc', l1, l2, l3, l4, l5, l6⟩ := ih (min2 rv s) r'
      (fun y hy => hst y (by simp at hy ⊢; exact Or.inr hy)) (fun y hy => hhas y (by simp at hy ⊢; exact Or.inr hy))
      (fun y hy => hpre y (by simp [hy]))
    refine ⟨rv', r'', k, dc', ?_, l2, ?_, l4, l5, l6⟩
    · rw [List.cons_append, dcLoop_step (hhas x (by simp)) _ rv r e2 s1 s4,
        if_neg (by rw [and_down, hs1, hpre x (by simp)]; decide)]
      exact l1
    · rw [l3, m3, hs2, List.cons_append, dcTtl_cons]
      have := ttl_lt rv; omega

theorem dcLoop_down {tbl : List UInt32} (hv : ∀ s ∈ tbl, Valid s) {res : MetaRes} {h : UInt8 → Bool × Nat}
    (ds : Bytes) (junk : Bytes) (rv : UInt32) (r : Result) (hst : res.States tbl h ds)
    (hhas : ∀ x ∈ ds, res.Has x) (hdn : ∀ x ∈ ds, (h x).1 = true) (hrv : Valid rv) :
    ∃ rv' r', dcLoop tbl res (ds ++ 0 :: junk) rv r = .ok (rv', r') ∧ isDown rv' = (isDown rv || !ds.isEmpty) ∧
      ttl rv' = min (ttl rv) (dcTtl h ds) ∧ Valid rv' := by
  induction ds generalizing rv r with
  | nil =>
    refine ⟨rv, r, by simp [dcLoop], by simp, ?_, hrv⟩
    have := ttl_lt rv
    simp only [dcTtl, List.foldl_nil]; omega
  | cons x ds ih =>
    obtain ⟨dc, e1, e2⟩ := (hhas x (by simp)).get
    obtain ⟨hI, dn, t, hc, hh⟩ := hst x (by simp) dc e1
    obtain ⟨s, r', s1, s2, s3, s4⟩ := resolveDc_spec hv hI hc r
    rw [← hh] at s3
    have hs1 : isDown s = (h x).1 := by rw [← s3]
    have hs2 : ttl s = (h x).2 := by rw [← s3]
    obtain ⟨m1, m2, m3, m4⟩ := min2_facts rv s
    obtain ⟨rv', r'', l1, l2, l3, l4⟩ := ih (min2 rv s) r'
      (fun y hy => hst y (by simp [hy])) (fun y hy => hhas y (by simp [hy])) (fun y hy => hdn y (by simp [hy])) m4
    have hx := hdn x (by simp)
    refine ⟨rv', r'', ?_, ?_, ?_, l4⟩
    · rw [List.cons_append, dcLoop_step (hhas x (by simp)) _ rv r e2 s1 s4,
        if_neg (by rw [and_down, hs1, hx]; decide)]
      exact l1
    · rw [l2, m1, hs1, hx]; simp
    · rw [l3, m3, hs2, dcTtl_cons]
      have := ttl_lt rv; omega

theorem filterList_spec {res : MetaRes} (hok : res.Ok) (ds junk : Bytes) (hds : ∀ d ∈ ds, d ≠ 0 ∧ d.toNat ≤ res.numDcs) (room : Nat)
    (hroom : (ds.filter res.defines).length < room) :
    filterList res.dcs room (ds ++ 0 :: junk) = .ok (ds.filter res.defines ++ [0]) := by
  induction ds generalizing room with
  | nil =>
    have : room ≠ 0 := by omega
    simp [filterList, this]
  | cons d ds ih =>
    obtain ⟨h0, h1⟩ := hds d (by simp)
    have hl : d.toNat < res.dcs.length := by rw [hok.1]; omega
    have e : res.dcs[d.toNat]? = some res.dcs[d.toNat] := List.getElem?_eq_getElem hl
    have hds' : ∀ x ∈ ds, x ≠ 0 ∧ x.toNat ≤ res.numDcs := fun x hx => hds x (by simp [hx])
    cases hx : res.dcs[d.toNat] with
    | none =>
      rw [hx] at e
      have hdef : res.defines d = false := by simp [MetaRes.defines, e]
      rw [List.filter_cons, hdef] at hroom ⊢
      simp only [List.cons_append, filterList, h0, if_false, e]
      exact ih hds' room hroom
    | some dc =>
      rw [hx] at e
      have hdef : res.defines d = true := by simp [MetaRes.defines, e]
      rw [List.filter_cons, hdef, if_pos rfl, List.length_cons] at hroom
      have hr0 : room ≠ 0 := by omega
      simp only [List.cons_append, filterList, h0, if_false, e, hr0, List.filter_cons, hdef, if_true,
        ih hds' (room - 1) (by omega), Outcome.bind_ok]

theorem all_of_filter_length {α : Type} (p : α → Bool) (l : List α) (h : (l.filter p).length = l.length) :
    ∀ a ∈ l, p a = true :=
  List.filter_eq_self.1 (List.filter_sublist.eq_of_length h)

theorem MetaRes.Ok.all {res : MetaRes} (hok : res.Ok) (h : res.numDcs = res.numDefined) {d : UInt8} (h0 : d ≠ 0)
    (h1 : d.toNat ≤ res.numDcs) : res.defines d = true := by
  obtain ⟨k1, k2, k3⟩ := hok
  cases hd : res.dcs with
  | nil => rw [hd] at k1; simp at k1
  | cons x xs =>
    rw [hd] at k1 k2 k3
    have hx : x = none := by
      cases x with
      | none => rfl
      | some a => simp at k2
    subst hx
    rw [List.filter_cons] at k3
    simp only [Option.isSome_none, Bool.false_eq_true, if_false] at k3
    simp only [List.length_cons] at k1
    have hall := all_of_filter_length Option.isSome xs (by omega)
    have hd0 : d.toNat ≠ 0 := fun h => h0 (UInt8.toNat_inj.1 h)
    obtain ⟨n, hn⟩ : ∃ n, d.toNat = n + 1 := ⟨d.toNat - 1, by omega⟩
    unfold MetaRes.defines
    rw [hd, hn, List.getElem?_cons_succ]
    have hlt : n < xs.length := by omega
    rw [List.getElem?_eq_getElem hlt]
    have := hall xs[n] (List.getElem_mem hlt)
    simpa using this

/-- The list the search starts on. -/
theorem list_step {res : MetaRes} (hok : res.Ok) (ds junk : Bytes) (hds : ∀ d ∈ ds, d ≠ 0 ∧ d.toNat ≤ res.numDcs)
    (hlen : ds.length ≤ 254 ∨ res.numDcs = res.numDefined) :
    ∃ junk', ((if res.numDcs ≠ res.numDefined then filterList res.dcs 255 (ds ++ 0 :: junk) else .ok (ds ++ 0 :: junk)).bind
      (skipFirst res.skipFirst)) = .ok (res.considered ds ++ 0 :: junk') := by
  have h1 : ∃ j, (if res.numDcs ≠ res.numDefined then filterList res.dcs 255 (ds ++ 0 :: junk) else .ok (ds ++ 0 :: junk)) =
      .ok (ds.filter res.defines ++ 0 :: j) := by
    by_cases he : res.numDcs = res.numDefined
    · refine ⟨junk, ?_⟩
      rw [if_neg (by simpa using he)]
      rw [List.filter_eq_self.2 fun d hd => hok.all he (hds d hd).1 (hds d hd).2]
    · refine ⟨[], ?_⟩
      rw [if_pos he]
      have := List.length_filter_le res.defines ds
      exact filterList_spec hok ds junk hds 255 (by rcases hlen with h | h; omega; exact absurd h he)
  obtain ⟨j, h1⟩ := h1
  rw [h1]
  simp only [Outcome.bind_ok, MetaRes.considered]
  have hnz : ∀ d ∈ ds.filter res.defines, d ≠ 0 := fun d hd => (hds d (List.mem_filter.1 hd).1).1
  generalize ds.filter res.defines = l at hnz
  cases hs : res.skipFirst with
  | false => exact ⟨j, by simp [skipFirst]⟩
  | true =>
    cases l with
    | nil => exact ⟨j, by simp [skipFirst, rd]⟩
    | cons a l =>
      have ha := hnz a (by simp)
      cases l with
      | nil => exact ⟨j, by simp [skipFirst, rd]⟩
      | cons b l =>
        have hb := hnz b (by simp)
        exact ⟨j, by simp [skipFirst, rd, ha, hb]⟩

theorem considered_sub (res : MetaRes) (ds : Bytes) : (res.considered ds).Sublist (ds.filter res.defines) := by
  unfold MetaRes.considered
  dsimp only
  split
  · exact List.drop_sublist 1 _
  · exact List.Sublist.refl _

/-- The list a query starts with: the datacenter named in a synthetic resource name, or the
client's list. -/
def startList (synth : UInt8) (ds : Bytes) : Bytes := if synth ≠ 0 then [synth] else ds
/-- The scope the query's own map contributes. -/
def startScope (synth : UInt8) (scope : Nat) : Nat := if synth ≠ 0 then 0 else scope

theorem meta_eq {tbl : List UInt32} {res : MetaRes} (hok : res.Ok) (synth : UInt8) (ds junk : Bytes) (scope : Nat) (r : Result)
    (hds : ∀ d ∈ startList synth ds, d ≠ 0 ∧ d.toNat ≤ res.numDcs)
    (hlen : (startList synth ds).length ≤ 254 ∨ res.numDcs = res.numDefined) :
    ∃ junk', metaResolve tbl res synth (ds ++ 0 :: junk, scope) r =
      ((rd (res.considered (startList synth ds) ++ 0 :: junk') 0).bind fun first =>
      (if first = 0 then .ok (TTLMASK, r)
       else
        (dcLoop tbl res (res.considered (startList synth ds) ++ 0 :: junk') TTLMASK r).bind fun (rv, r) =>
        if rv &&& DOWN ≠ 0 then
          (getDc res.dcs first).bind fun dc =>
          (resolveDc tbl dc (resetScope (wipe r))).bind fun (_, r) => .ok (rv, r)
        else .ok (rv, r)).bind fun (rv, r) =>
      (assertValid rv).bind fun _ => .ok (rv, addScope r (startScope synth scope))) := by
  have hstart : ∃ j, (if synth ≠ 0 then ([synth, 0], 0) else (ds ++ 0 :: junk, scope)) =
      (startList synth ds ++ 0 :: j, startScope synth scope) := by
    unfold startList startScope
    split
    · exact ⟨[], rfl⟩
    · exact ⟨junk, rfl⟩
  obtain ⟨j, hstart⟩ := hstart
  obtain ⟨j', hl⟩ := list_step hok (startList synth ds) j hds hlen
  refine ⟨j', ?_⟩
  unfold metaResolve
  rw [hstart]
  dsimp only
  cases ho : (if res.numDcs ≠ res.numDefined then filterList res.dcs 255 (startList synth ds ++ 0 :: j)
      else .ok (startList synth ds ++ 0 :: j)) with
  | ub => rw [ho] at hl; simp [Outcome.bind] at hl
  | ok l =>
    rw [ho] at hl
    simp only [Outcome.bind_ok] at hl ⊢
    rw [hl]
    simp only [Outcome.bind_ok]

theorem has_considered {res : MetaRes} {ds : Bytes} (hds : ∀ d ∈ ds, d ≠ 0 ∧ d.toNat ≤ res.numDcs) :
    ∀ d ∈ res.considered ds, res.Has d := by
  intro d hd
  have := List.mem_filter.1 ((considered_sub res ds).subset hd)
  exact ⟨(hds d this.1).1, (hds d this.1).2, this.2⟩

/-- C31. Some considered datacenter is up: the answer is what the first such datacenter
answers on an empty result, whatever sub-resolver it has; the result is not down; the TTL is
the smallest of those tried; the scope is the larger of its own and the sub-resolver's. -/
theorem C31_first_up (tbl : List UInt32) (hv : ∀ s ∈ tbl, Valid s) (res : MetaRes) (hok : res.Ok) (synth : UInt8)
    (ds junk : Bytes) (scope : Nat) (r : Result) (hds : ∀ d ∈ startList synth ds, d ≠ 0 ∧ d.toNat ≤ res.numDcs)
    (hlen : (startList synth ds).length ≤ 254 ∨ res.numDcs = res.numDefined)
    (h : UInt8 → Bool × Nat) (hst : res.States tbl h (res.considered (startList synth ds)))
    (pre : Bytes) (d : UInt8) (post : Bytes) (hsplit : res.considered (startList synth ds) = pre ++ d :: post)
    (hpre : ∀ x ∈ pre, (h x).1 = true) (hd : (h d).1 = false) :
    ∃ rv r' k dc, metaResolve tbl res synth (ds ++ 0 :: junk, scope) r =
        .ok (rv, { r' with scope := max (startScope synth scope) r'.scope }) ∧
      res.dcs[d.toNat]? = some (some dc) ∧ dc.Answers k r' ∧
      isDown rv = false ∧ ttl rv = dcTtl h (pre ++ [d]) ∧ Valid rv := by
  have hhas := has_considered hds
  obtain ⟨j, heq⟩ := meta_eq (tbl := tbl) hok synth ds junk scope r hds hlen
  rw [heq]
  rw [hsplit] at hhas hst ⊢
  have hsub : ∀ x, x ∈ pre ++ [d] → x ∈ pre ++ d :: post := by
    intro x hx
    simp at hx ⊢
    rcases hx with h | h
    · exact Or.inl h
    · exact Or.inr (Or.inl h)
  obtain ⟨rv, r', k, dc, l1, l2, l3, l4, l5, l6⟩ := dcLoop_up hv pre d (post ++ 0 :: j) TTLMASK r
    (fun x hx => hst x (hsub x hx)) (fun x hx => hhas x (hsub x hx)) hpre hd
  rw [show ttl TTLMASK = 2 ^ 28 - 1 by decide] at l3
  have hle : dcTtl h (pre ++ [d]) ≤ 2 ^ 28 - 1 := by
    cases pre with
    | nil => rw [List.nil_append, dcTtl_cons]; omega
    | cons a l => rw [List.cons_append, dcTtl_cons]; omega
  refine ⟨rv, r', k, dc, ?_, l5, l6, l2, by rw [l3]; omega, l4⟩
  obtain ⟨f, fs, hf⟩ : ∃ f fs, pre ++ d :: post = f :: fs := by cases pre <;> simp
  have hf0 : f ≠ 0 := (hhas f (by rw [hf]; simp)).1
  have hrd : rd ((pre ++ d :: post) ++ 0 :: j) 0 = .ok f := by rw [hf]; rfl
  rw [hrd]
  simp only [Outcome.bind_ok, if_neg hf0]
  rw [show (pre ++ d :: post) ++ 0 :: j = pre ++ d :: (post ++ 0 :: j) by simp, l1]
  have hdn : rv &&& DOWN = 0 := (and_down rv).2 l2
  simp only [Outcome.bind_ok, hdn, ne_eq, not_true_eq_false, if_false, assertValid_ok l4]
  unfold addScope
  split
  · rw [Nat.max_eq_left (by omega)]
  · rw [Nat.max_eq_right (by omega)]

/-- C31. Every considered datacenter is down: the answer is what the first of them answers,
the result is marked down, the TTL is the smallest of all. -/
theorem C31_all_down (tbl : List UInt32) (hv : ∀ s ∈ tbl, Valid s) (res : MetaRes) (hok : res.Ok) (synth : UInt8)
    (ds junk : Bytes) (scope : Nat) (r : Result) (hds : ∀ d ∈ startList synth ds, d ≠ 0 ∧ d.toNat ≤ res.numDcs)
    (hlen : (startList synth ds).length ≤ 254 ∨ res.numDcs = res.numDefined)
    (h : UInt8 → Bool × Nat) (hst : res.States tbl h (res.considered (startList synth ds)))
    (f : UInt8) (fs : Bytes) (hcons : res.considered (startList synth ds) = f :: fs)
    (hdn : ∀ x ∈ f :: fs, (h x).1 = true) :
    ∃ rv r' k dc, metaResolve tbl res synth (ds ++ 0 :: junk, scope) r =
        .ok (rv, { r' with scope := max (startScope synth scope) r'.scope }) ∧
      res.dcs[f.toNat]? = some (some dc) ∧ dc.Answers k r' ∧
      isDown rv = true ∧ ttl rv = dcTtl h (f :: fs) ∧ Valid rv := by
  have hhas := has_considered hds
  obtain ⟨j, heq⟩ := meta_eq (tbl := tbl) hok synth ds junk scope r hds hlen
  rw [heq]
  rw [hcons] at hhas hst ⊢
  obtain ⟨rv, r1, l1, l2, l3, l4⟩ := dcLoop_down hv (f :: fs) j TTLMASK r hst hhas hdn (by decide)
  rw [show ttl TTLMASK = 2 ^ 28 - 1 by decide] at l3
  have hle : dcTtl h (f :: fs) ≤ 2 ^ 28 - 1 := by rw [dcTtl_cons]; omega
  obtain ⟨dc, e1, e2⟩ := (hhas f (by simp)).get
  obtain ⟨hI, dn, t, hc, hh⟩ := hst f (by simp) dc e1
  obtain ⟨s, r', s1, s2, s3, s4⟩ := resolveDc_spec hv hI hc r1
  have hdn' : isDown rv = true := by rw [l2]; simp
  refine ⟨rv, r', r1.draws, dc, ?_, e1, s2, hdn', by rw [l3]; omega, l4⟩
  have hf0 : f ≠ 0 := (hhas f (by simp)).1
  have hrd : rd ((f :: fs) ++ 0 :: j) 0 = .ok f := rfl
  have hdn2 : rv &&& DOWN ≠ 0 := by rw [isDown_iff] at hdn'; simpa using hdn'
  rw [hrd]
  simp only [Outcome.bind_ok, if_neg hf0, l1, if_pos hdn2, e2, s1, assertValid_ok l4]
  unfold addScope
  split
  · rw [Nat.max_eq_left (by omega)]
  · rw [Nat.max_eq_right (by omega)]

/-- C31. No datacenter of the client's list is defined for the resource: nothing is
answered, and the result is not down. -/
theorem C31_none (tbl : List UInt32) (res : MetaRes) (hok : res.Ok) (synth : UInt8)
    (ds junk : Bytes) (scope : Nat) (r : Result) (hds : ∀ d ∈ startList synth ds, d ≠ 0 ∧ d.toNat ≤ res.numDcs)
    (hlen : (startList synth ds).length ≤ 254 ∨ res.numDcs = res.numDefined)
    (hcons : res.considered (startList synth ds) = []) :
    metaResolve tbl res synth (ds ++ 0 :: junk, scope) r =
      .ok (TTLMASK, { r with scope := max (startScope synth scope) r.scope }) := by
  obtain ⟨j, heq⟩ := meta_eq (tbl := tbl) hok synth ds junk scope r hds hlen
  rw [heq, hcons]
  have hrd : rd (([] : Bytes) ++ 0 :: j) 0 = .ok 0 := rfl
  rw [hrd]
  simp only [Outcome.bind_ok, if_true, assertValid_ok (show Valid TTLMASK by decide)]
  unfold addScope
  split
  · rw [Nat.max_eq_left (by omega)]
  · rw [Nat.max_eq_right (by omega)]

/-- C31. Spelled out: a datacenter forced up (its own slot) is up whatever its sub-resolver
or the map-wide slot say, one forced down is down; a forced map-wide slot counts unless the
own slot is forced; otherwise the computed state counts. -/
theorem C31_forced (tbl : List UInt32) (dc : Dc) (dn : Bool) (t : Nat) :
    (∀ s, tbl[dc.dcIdx]? = some s → isForced s = true → dc.state tbl dn t = (isDown s, ttl s)) ∧
    (∀ s m s', tbl[dc.dcIdx]? = some s → isForced s = false → dc.mapIdx = some m → tbl[m]? = some s' →
      isForced s' = true → dc.state tbl dn t = (isDown s', ttl s')) ∧
    (∀ s, tbl[dc.dcIdx]? = some s → isForced s = false →
      (∀ m s', dc.mapIdx = some m → tbl[m]? = some s' → isForced s' = false) → dc.state tbl dn t = (dn, t)) := by
  refine ⟨fun s h1 h2 => ?_, fun s m s' h1 h2 h3 h4 h5 => ?_, fun s h1 h2 h3 => ?_⟩
  · simp [Dc.state, forcedAt, h1, h2, Option.filter]
  · simp [Dc.state, forcedAt, h1, h2, h3, h4, h5, Option.filter]
  · cases hm : dc.mapIdx with
    | none => simp [Dc.state, forcedAt, h1, h2, hm, Option.filter]
    | some m =>
      cases ht : tbl[m]? with
      | none => simp [Dc.state, forcedAt, h1, h2, hm, ht, Option.filter]
      | some s' => simp [Dc.state, forcedAt, h1, h2, hm, ht, h3 m s' hm ht, Option.filter]

theorem split_first_up {h : UInt8 → Bool × Nat} (l : Bytes) (hall : ¬ ∀ x ∈ l, (h x).1 = true) :
    ∃ pre d post, l = pre ++ d :: post ∧ (∀ x ∈ pre, (h x).1 = true) ∧ (h d).1 = false := by
  induction l with
  | nil => simp at hall
  | cons a l ih =>
    by_cases ha : (h a).1 = true
    · have : ¬ ∀ x ∈ l, (h x).1 = true := by
        intro hh
        refine hall fun x hx => ?_
        rcases List.mem_cons.1 hx with rfl | hx
        · exact ha
        · exact hh x hx
      obtain ⟨pre, d, post, e1, e2, e3⟩ := ih this
      refine ⟨a :: pre, d, post, by rw [e1]; rfl, fun x hx => ?_, e3⟩
      rcases List.mem_cons.1 hx with rfl | hx
      · exact ha
      · exact e2 x hx
    · exact ⟨[], a, l, rfl, by simp, by simpa using ha⟩

/-- C31. A meta resource is itself a well-behaved sub-resolver: whatever the random stream it
completes, and its state is down exactly when there are considered datacenters and all are
down. So resources nested to any depth satisfy the theorems above. -/
theorem C31_nested (tbl : List UInt32) (hv : ∀ s ∈ tbl, Valid s) (res : MetaRes) (hok : res.Ok) (synth : UInt8)
    (ds junk : Bytes) (scope : Nat) (hds : ∀ d ∈ startList synth ds, d ≠ 0 ∧ d.toNat ≤ res.numDcs)
    (hlen : (startList synth ds).length ≤ 254 ∨ res.numDcs = res.numDefined)
    (h : UInt8 → Bool × Nat) (hst : res.States tbl h (res.considered (startList synth ds))) :
    ∃ dn t, Healthy (metaResolve tbl res synth (ds ++ 0 :: junk, scope)) dn t ∧
      (dn = true ↔ res.considered (startList synth ds) ≠ [] ∧ ∀ d ∈ res.considered (startList synth ds), (h d).1 = true) := by
  cases hc : res.considered (startList synth ds) with
  | nil =>
    refine ⟨false, 2 ^ 28 - 1, fun k => ?_, by simp⟩
    exact ⟨TTLMASK, _, C31_none tbl res hok synth ds junk scope _ hds hlen hc, by decide, by decide, by decide⟩
  | cons f fs =>
    by_cases hall : ∀ x ∈ f :: fs, (h x).1 = true
    · refine ⟨true, dcTtl h (f :: fs), fun k => ?_, iff_of_true rfl ⟨by simp, hall⟩⟩
      obtain ⟨rv, r', k', dc, h1, -, -, h2, h3, h4⟩ :=
        C31_all_down tbl hv res hok synth ds junk scope { draws := k } hds hlen h hst f fs hc hall
      exact ⟨rv, _, h1, h2, h3, h4⟩
    · obtain ⟨pre, d, post, hs, hpre, hd⟩ := split_first_up (f :: fs) hall
      refine ⟨false, dcTtl h (pre ++ [d]), fun k => ?_, iff_of_false (by simp) fun hh => hall hh.2⟩
      obtain ⟨rv, r', k', dc, h1, -, -, h2, h3, h4⟩ :=
        C31_first_up tbl hv res hok synth ds junk scope { draws := k } hds hlen h hst pre d post (by rw [hc, hs]) hpre hd
      exact ⟨rv, _, h1, h2, h3, h4⟩

/-! The concrete plugins are well-behaved sub-resolvers. -/

theorem fresh_blank (k : Nat) : Fresh { draws := k } := ⟨rfl, rfl, rfl⟩

/-- C31. simplefo, multifo, weighted and static resources meet the contract the theorems
above ask of sub-resolvers. -/
theorem C31_simplefo (lim : Limits) (tbl : List UInt32) (v4 v6 : Option SfSet)
    (hlim : 1 ≤ lim.v4 ∧ 1 ≤ lim.v6) (hne : v4.isSome || v6.isSome)
    (hok : ∀ (f : Bool) s, (if f then v6 else v4) = some s → s.Ok tbl f) :
    ∃ dn t, Healthy (sfResolve lim tbl v4 v6) dn t := by
  refine ⟨v4.elim false (fun s => (s.chart tbl).2.1) || v6.elim false (fun s => (s.chart tbl).2.1),
    min (v4.elim (2 ^ 28 - 1) fun s => (s.chart tbl).2.2) (v6.elim (2 ^ 28 - 1) fun s => (s.chart tbl).2.2), fun k => ?_⟩
  obtain ⟨rv, h1, h2, h3, h4⟩ := C29_simplefo lim tbl v4 v6 _ (fresh_blank k) hlim hne hok
  exact ⟨rv, _, h1, h2, h3, h4⟩

theorem C31_multifo (lim : Limits) (tbl : List UInt32) (v4 v6 : Option MfSet)
    (hne : v4.isSome || v6.isSome)
    (hok : ∀ (f : Bool) s, (if f then v6 else v4) = some s →
      s.Ok tbl f ∧ 1 ≤ s.upThresh ∧ s.as.length ≤ (if f then lim.v6 else lim.v4)) :
    ∃ dn t, Healthy (mfResolve lim tbl v4 v6) dn t := by
  refine ⟨v4.elim false (fun s => !s.enough tbl) || v6.elim false (fun s => !s.enough tbl),
    min (v4.elim (2 ^ 28 - 1) fun s => minTtl tbl s.slots) (v6.elim (2 ^ 28 - 1) fun s => minTtl tbl s.slots), fun k => ?_⟩
  obtain ⟨rv, h1, h2, h3, h4, -⟩ := C28_multifo lim tbl v4 v6 _ (fresh_blank k) hne hok
  exact ⟨rv, _, h1, h2, h3, h4⟩

theorem C31_weighted (rnd : Rnd) (hrnd : rnd.Legal) (lim : Limits) (tbl : List UInt32)
    (v4 v6 : Option (WConf × WSet)) (hne : v4.isSome || v6.isSome)
    (hok : ∀ (f : Bool) p, (if f then v6 else v4) = some p → p.1.Gives lim tbl f p.2) :
    ∃ dn t, Healthy (wResolve rnd lim tbl { v4 := v4.map (·.2), v6 := v6.map (·.2) }) dn t := by
  refine ⟨v4.elim false (fun p => !p.2.enough tbl p.1.groups) || v6.elim false (fun p => !p.2.enough tbl p.1.groups),
    min (v4.elim (2 ^ 28 - 1) fun p => minTtl tbl (wSlots p.1.groups))
      (v6.elim (2 ^ 28 - 1) fun p => minTtl tbl (wSlots p.1.groups)), fun k => ?_⟩
  obtain ⟨rv, a4, a6, d, h1, -, -, h2, h3, h4⟩ := C30_weighted rnd hrnd lim tbl v4 v6 _ (fresh_blank k) hne hok
  exact ⟨rv, _, h1, h2, h3, h4⟩

theorem C31_weighted_cname (rnd : Rnd) (hrnd : rnd.Legal) (lim : Limits) (tbl : List UInt32) (cs : List WCname) (m k : Nat)
    (hok : CnamesOk tbl cs) (hm : 0 < m) (hk : m ≤ 2 ^ k) :
    ∃ s dn t, mkCSet cs m k = .ok s ∧ Healthy (wResolve rnd lim tbl { cnames := some s }) dn t := by
  obtain ⟨s, h0, -⟩ := C30_cname rnd hrnd lim tbl cs m k hok hm hk _ (fresh_blank 0)
  refine ⟨s, !s.enough tbl cs, minTtl tbl (cs.flatMap (·.idx)), h0, fun j => ?_⟩
  obtain ⟨s', g0, -, -, -, -, rv, c, d, g1, -, -, g2, g3, g4⟩ := C30_cname rnd hrnd lim tbl cs m k hok hm hk _ (fresh_blank j)
  obtain rfl : s = s' := by rw [h0] at g0; exact Outcome.ok.inj g0
  exact ⟨rv, _, g1, g2, g3, g4⟩

theorem C31_static (lim : Limits) (hlim : 1 ≤ lim.v4 ∧ 1 ≤ lim.v6) (res : Addr ⊕ Bytes)
    (hok : ∀ d, res = .inr d → Dname.status d = .ok .valid) :
    Healthy (staticResolve lim res) false (2 ^ 28 - 1) := by
  intro k
  cases res with
  | inl a =>
    have hroom : Room lim { draws := k } [a] := by
      refine ⟨rfl, ?_, ?_⟩
      · have := List.length_filterMap_le Addr.v4? [a]; simp at this ⊢; omega
      · have := List.length_filterMap_le Addr.v6? [a]; simp at this ⊢; omega
    exact ⟨TTLMASK, _, by simp only [staticResolve, addAnysin_ok hroom, Outcome.bind_ok]; rfl, by decide, by decide, by decide⟩
  | inr d =>
    exact ⟨TTLMASK, { cname := some d, draws := k }, by simp [staticResolve, addCname, hok d rfl], by decide, by decide, by decide⟩

/-! ### A concrete failover -/

def exDc (slot : Nat) (c : Bytes) (idx : List Nat) : Dc := { mapIdx := some 0, dcIdx := slot, what := .inl (c, idx) }
def exTbl31 : List UInt32 := [100, DOWN ||| 7, 50, FORCED ||| DOWN ||| 9]
/-- Datacenter 1 down by its service, 2 not defined, 3 forced down although its service is up, 4 up. -/
def exRes : MetaRes :=
  { dcs := [none, some (exDc 0 [3, 1, 97, 0] [1]), none, some (exDc 3 [3, 1, 99, 0] [2]), some (exDc 0 [3, 1, 100, 0] [2])]
    numDcs := 4, numDefined := 3, skipFirst := false }

example : exRes.Ok := ⟨rfl, rfl, rfl⟩
example : exRes.considered [3, 2, 1, 4] = [3, 1, 4] := by decide
example : (∀ s ∈ exTbl31, Valid s) ∧
    (metaResolve exTbl31 exRes 0 ([3, 2, 1, 4, 0], 24) {}) = .ok (FORCED ||| 7, { scope := 24, cname := some [3, 1, 100, 0] }) := by
  refine ⟨by decide, by decide⟩
example : exRes.States exTbl31 (fun d => if d = 4 then (false, 50) else if d = 3 then (true, 9) else (true, 7)) [3, 1, 4] := by
  intro d hd dc hdc
  simp only [List.mem_cons, List.not_mem_nil, or_false] at hd
  have hst : ∀ c : UInt8, Dname.status [3, 1, c, 0] = .ok .valid := by
    intro c; simp [Dname.status, Dname.statusWalk, rd, assert]
  rcases hd with rfl | rfl | rfl
  · obtain rfl : exDc 3 [3, 1, 99, 0] [2] = dc := by simpa [exRes] using hdc
    exact ⟨⟨by decide, by intro m hm; simp [exDc] at hm; subst hm; decide⟩, false, 50,
      ⟨hst _, by intro i hi; simp at hi; subst hi; decide, by decide, by decide⟩, by decide⟩
  · obtain rfl : exDc 0 [3, 1, 97, 0] [1] = dc := by simpa [exRes] using hdc
    exact ⟨⟨by decide, by intro m hm; simp [exDc] at hm; subst hm; decide⟩, true, 7,
      ⟨hst _, by intro i hi; simp at hi; subst hi; decide, by decide, by decide⟩, by decide⟩
  · obtain rfl : exDc 0 [3, 1, 100, 0] [2] = dc := by simpa [exRes] using hdc
    exact ⟨⟨by decide, by intro m hm; simp [exDc] at hm; subst hm; decide⟩, false, 50,
      ⟨hst _, by intro i hi; simp at hi; subst hi; decide, by decide, by decide⟩, by decide⟩

/-! ### C57: metafo lists -/

/-- C57. With at most 255 datacenters the list metafo builds names every configured
datacenter, in the configured order. -/
theorem C57_metafo_list_partial (n : Nat) (hn : n ≤ 255) :
    ∃ ds, metafoList n = ds ++ [0] ∧ ds.map UInt8.toNat = (List.range n).map (· + 1) ∧ (∀ d ∈ ds, d ≠ 0) := by
  refine ⟨_, rfl, ?_, ?_⟩
  · rw [List.map_map]
    apply List.map_congr_left
    intro i hi
    have := List.mem_range.1 hi
    simp only [Function.comp, UInt8.toNat_ofNat']
    exact Nat.mod_eq_of_lt (by omega)
  · intro d hd h0
    obtain ⟨i, hi, rfl⟩ := List.mem_map.1 hd
    have := List.mem_range.1 hi
    have h1 : (UInt8.ofNat (i + 1)).toNat = i + 1 := by
      rw [UInt8.toNat_ofNat']; exact Nat.mod_eq_of_lt (by omega)
    rw [h0] at h1; simp at h1

/-- C57 fails beyond that: the list is terminated after datacenter 255, so for every larger
number of datacenters the later ones are never tried, even if only they are up. -/
theorem C57_false (n : Nat) (hn : 256 ≤ n) :
    ∃ junk, metafoList n = (List.range 255).map (fun i => UInt8.ofNat (i + 1)) ++ 0 :: junk := by
  obtain ⟨m, rfl⟩ : ∃ m, n = 256 + m := ⟨n - 256, by omega⟩
  refine ⟨((List.range m).map (fun i => UInt8.ofNat (256 + i + 1))) ++ [0], ?_⟩
  unfold metafoList
  have h : List.range (256 + m) = List.range 255 ++ (255 :: (List.range m).map (256 + ·)) := by
    rw [List.range_add, show (256 : Nat) = 255 + 1 from rfl, List.range_succ]; simp
  rw [h]
  simp only [List.map_append, List.map_cons, List.map_map, List.append_assoc, List.cons_append]
  rfl

/-! ### C58: synthetic names -/

theorem mapWord (i dc : Nat) (hi : i < 2 ^ 24) (hdc : dc < 256) :
    (UInt32.ofNat i ||| (UInt32.ofNat dc <<< 24)).toNat = i + dc * 2 ^ 24 := by
  rw [UInt32.toNat_or, UInt32.toNat_shiftLeft, UInt32.toNat_ofNat', UInt32.toNat_ofNat',
    Nat.mod_eq_of_lt (show i < 2 ^ 32 by omega), Nat.mod_eq_of_lt (show dc < 2 ^ 32 by omega)]
  rw [show (UInt32.toNat 24 % 32) = 24 from rfl, Nat.shiftLeft_eq, Nat.mod_eq_of_lt (show dc * 2 ^ 24 < 2 ^ 32 by omega)]
  rw [Nat.or_comm, Nat.mul_comm dc, ← Nat.two_pow_add_eq_or_of_lt hi]
  omega

theorem splitWord (i dc : Nat) (hi : i < 2 ^ 24) (hdc : dc < 256) :
    splitRes (UInt32.ofNat (i + dc * 2 ^ 24)) = (UInt8.ofNat dc, i) := by
  have hn : (UInt32.ofNat (i + dc * 2 ^ 24)).toNat = i + dc * 2 ^ 24 := by
    rw [UInt32.toNat_ofNat']; exact Nat.mod_eq_of_lt (by omega)
  unfold splitRes
  refine Prod.ext ?_ ?_
  · apply UInt8.toNat_inj.1
    show (((UInt32.ofNat (i + dc * 2 ^ 24) &&& 0xFF000000) >>> 24).toUInt8).toNat = _
    rw [UInt32.toNat_toUInt8, UInt32.toNat_shiftRight, UInt32.toNat_and, hn, UInt8.toNat_ofNat']
    rw [show (UInt32.toNat 24 % 32) = 24 from rfl, Nat.shiftRight_eq_div_pow, Nat.and_div_two_pow]
    rw [show (UInt32.toNat 0xFF000000) / 2 ^ 24 = 2 ^ 8 - 1 from rfl, Nat.and_two_pow_sub_one_eq_mod]
    omega
  · show (UInt32.ofNat (i + dc * 2 ^ 24) &&& 0x00FFFFFF).toNat = i
    rw [UInt32.toNat_and, hn, show (UInt32.toNat 0x00FFFFFF) = 2 ^ 24 - 1 from rfl, Nat.and_two_pow_sub_one_eq_mod]
    omega

/-- C58. A name `resource/datacenter` with datacenter number below 128 is accepted and leads
back to exactly that resource and datacenter. -/
theorem C58_synthetic_partial (i dc : Nat) (hi : i < 2 ^ 24) (hdc : dc < 128) :
    ∃ v : Int, mapRes i dc = .ok v ∧ 0 ≤ v ∧ splitRes (UInt32.ofNat v.toNat) = (UInt8.ofNat dc, i) := by
  have hv := mapWord i dc hi (by omega)
  refine ⟨((i + dc * 2 ^ 24 : Nat) : Int), ?_, by omega, ?_⟩
  · unfold mapRes
    rw [if_neg (by omega)]
    dsimp only
    rw [hv, if_pos (by omega)]
  · rw [Int.toNat_natCast]
    exact splitWord i dc hi (by omega)

/-- C58 fails for datacenter numbers 128 and above: the number handed to the zone loader is
negative, which the loader takes for a rejection of the name. -/
theorem C58_false (i dc : Nat) (hi : i < 2 ^ 24) (hdc : 128 ≤ dc) (hdc' : dc < 256) :
    ∃ v : Int, mapRes i dc = .ok v ∧ v < 0 := by
  have hv := mapWord i dc hi hdc'
  refine ⟨((i + dc * 2 ^ 24 : Nat) : Int) - 2 ^ 32, ?_, by omega⟩
  unfold mapRes
  rw [if_neg (by omega)]
  dsimp only
  rw [hv, if_neg (by omega)]

/-! ### C33: scopes of nested maps -/

/-- A query result depends on the client through the nested map only. -/
def nestedTbl : List UInt32 := [10, 10, DOWN ||| 10]
/-- Inner geoip resource: datacenter 1 is down, datacenter 2 is up. -/
def innerRes : MetaRes :=
  { dcs := [none, some ⟨some 0, 1, .inl ([3, 1, 97, 0], [2])⟩, some ⟨some 0, 1, .inl ([3, 1, 98, 0], [1])⟩]
    numDcs := 2, numDefined := 2, skipFirst := false }
/-- Outer metafo resource: the inner one first, a fixed name as a last resort. -/
def outerRes (client : Bytes × Nat) : MetaRes :=
  { dcs := [none, some ⟨none, 0, .inr (metaResolve nestedTbl innerRes 0 client)⟩, some ⟨none, 0, .inl ([3, 1, 122, 0], [1])⟩]
    numDcs := 2, numDefined := 2, skipFirst := false }

/-- C33 fails for nested resources: the inner map places one network at datacenter 1 and
another at datacenter 2, both with scope 24. A client of the first network gets the last
resort with scope 0, which tells caches the answer holds for everyone, although clients of
the second network get another answer. -/
theorem C33_false_nested :
    metaResolve nestedTbl (outerRes ([1, 0], 24)) 0 (metafoList 2, 0) {} =
      .ok (10, { scope := 0, cname := some [3, 1, 122, 0] }) ∧
    metaResolve nestedTbl (outerRes ([2, 0], 24)) 0 (metafoList 2, 0) {} =
      .ok (10, { scope := 24, cname := some [3, 1, 98, 0] }) := by
  constructor <;> decide +kernel

end Gdnsd.Plug
