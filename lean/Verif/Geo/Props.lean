/-
Properties of client-network lookups: C32 (longest match), C33 (scope), C34 (explicit and
GeoIP networks).
-/
import Verif.Geo.WeakLemmas
import Verif.Geo.SortLemmas
namespace Gdnsd.Geo

theorem lookup_inner {t : Tree} {T : Trie} (h : TreeFor t T) (c : Client) (i : Bool) {d m : Nat}
    (hl : lookupInner t (c.addr i) = .ok (d, m)) :
    lookup t c i = .ok (d, if c.ecsMask ≠ 0 ∧ i = false then m else 0) := by
  obtain ⟨_, _, _, h0, _⟩ := h.v4
  unfold lookup
  rw [decide_eq_true h0, assert_true, Outcome.bind_ok]
  unfold Client.addr at hl
  by_cases hc : c.ecsMask ≠ 0 ∧ i = false
  · rw [if_pos hc] at hl ⊢; rw [if_pos hc, hl]
  · rw [if_neg hc] at hl ⊢; rw [if_neg hc, hl]; rfl

/-- The scope as a client sees it. -/
theorem scope_client {t : Tree} {T : Trie} (hT : TreeFor t T) (hC : Complete T) {c : Client} {i : Bool} (hw : (c.addr i).Wf)
    {d m : Nat} (h : lookup t c i = .ok (d, m)) :
    m ≤ (c.addr i).raw.length ∧
    (c.ecsMask ≠ 0 ∧ i = false → ∀ c' : Client, c'.ecsMask ≠ 0 → c'.ecs.Wf → c.ecs.sameFamily c'.ecs →
      c'.ecs.raw.take m = c.ecs.raw.take m → lookup t c' i = .ok (d, m)) ∧
    (¬ (c.ecsMask ≠ 0 ∧ i = false) → m = 0 ∧ ∀ c' : Client, ¬ (c'.ecsMask ≠ 0 ∧ i = false) → c'.src = c.src →
      lookup t c' i = .ok (d, m)) := by
  obtain ⟨d1, j1, g1, g2⟩ := hC.target _ hw
  obtain ⟨m1, g3, _⟩ := lookupInner_ok hT hw g1 g2
  have h' := lookup_inner hT c i g3
  rw [h] at h'
  obtain ⟨rfl, hm⟩ := Prod.mk.inj (Outcome.ok.inj h')
  obtain ⟨k1, k2⟩ := scope_ok hT hC hw g3
  by_cases hu : c.ecsMask ≠ 0 ∧ i = false
  · rw [if_pos hu] at hm
    subst hm
    have ha : c.addr i = c.ecs := by rw [Client.addr, if_pos hu]
    rw [ha] at k1 k2 ⊢
    refine ⟨k1, fun _ c' hc' hw' hf hr => ?_, fun hn => absurd hu hn⟩
    have hu' : c'.ecsMask ≠ 0 ∧ i = false := ⟨hc', hu.2⟩
    have ha' : c'.addr i = c'.ecs := by rw [Client.addr, if_pos hu']
    have := lookup_inner hT c' i (by rw [ha']; exact k2 _ hw' hf hr)
    rwa [if_pos hu'] at this
  · rw [if_neg hu] at hm
    subst hm
    refine ⟨Nat.zero_le _, fun hn => absurd hn hu, fun _ => ⟨rfl, fun c' hu' hsrc => ?_⟩⟩
    have ha : c.addr i = c.src := by rw [Client.addr, if_neg hu]
    have ha' : c'.addr i = c'.src := by rw [Client.addr, if_neg hu']
    have := lookup_inner hT c' i (by rw [ha', hsrc, ← ha]; exact g3)
    rwa [if_neg hu'] at this

/-- C32: the list chosen for a client is the one of the longest configured network
containing its address, and the default list if there is none. Every legal configuration
loads, and a tree results unless there are too many networks for the node limit.

Missing: configurations in which smaller networks cover a network entirely (see
`C32_false_hidden`), and networks given twice with different lists. -/
theorem C32_longest_match_partial {sort : List Net → List Net} (hs : SortOk sort) {es : List Entry} (hwf : ∀ e ∈ es, e.Wf)
    (hleg : ∀ e ∈ es, e.Legal) (hc : Consistent es) (hh : NoneHidden es) :
    ∃ l, netsMakeList sort es = .ok (some l) ∧ (es.length ≤ 132000 → ∃ t, xlate l = .ok t) ∧
      ∀ t, xlate l = .ok t → ∀ (c : Client) (i : Bool), (c.addr i).Wf →
        ∃ d m, lookup t c i = .ok (d, m) ∧ Answer (es.map Entry.pfx) 0 (target (c.addr i)) d := by
  obtain ⟨l, h1, h2⟩ := nets_tree hs hwf hleg hc hh
  refine ⟨l, h1, ?_, ?_⟩
  · intro hsz
    cases hx : xlate l with
    | ok t => exact ⟨t, rfl⟩
    | ub => rw [hx] at h2; have h2 : 16777216 < 1 + 127 * (es.length + 5) := h2; omega
  · intro t ht c i hw
    rw [ht] at h2
    obtain ⟨T, hT, hC, hA⟩ := h2
    obtain ⟨d, j, g1, g2⟩ := hA _ hw
    obtain ⟨d', j', k1, k2⟩ := hC.target _ hw
    rw [g1] at k1
    obtain ⟨rfl, rfl⟩ := Prod.mk.inj (Option.some.inj k1)
    obtain ⟨m, g3, _⟩ := lookupInner_ok hT hw g1 k2
    exact ⟨d, _, lookup_inner hT c i g3, g2⟩

/-- C32, for every legal configuration, whatever networks overlap and repeat: it loads, and
a lookup gives the list of some configured network containing the address, and the default
list only if no network contains it. -/
theorem C32_contains {sort : List Net → List Net} (hs : SortOk sort) {es : List Entry} (hwf : ∀ e ∈ es, e.Wf)
    (hleg : ∀ e ∈ es, e.Legal) :
    ∃ l, netsMakeList sort es = .ok (some l) ∧ (es.length ≤ 132000 → ∃ t, xlate l = .ok t) ∧
      ∀ t, xlate l = .ok t → ∀ (c : Client) (i : Bool), (c.addr i).Wf →
        ∃ d m, lookup t c i = .ok (d, m) ∧ Candidate es (target (c.addr i)) d := by
  obtain ⟨l, h1, _, _, h2⟩ := nets_tree_weak hs hwf hleg
  refine ⟨l, h1, ?_, ?_⟩
  · intro hsz
    cases hx : xlate l with
    | ok t => exact ⟨t, rfl⟩
    | ub => rw [hx] at h2; have h2 : 16777216 < 1 + 127 * (es.length + 5) := h2; omega
  · intro t ht c i hw
    rw [ht] at h2
    obtain ⟨T, hT, hC, hA⟩ := h2
    obtain ⟨d, j, g1, g2, _⟩ := hA _ hw
    obtain ⟨d', j', k1, k2⟩ := hC.target _ hw
    rw [g1] at k1
    obtain ⟨rfl, rfl⟩ := Prod.mk.inj (Option.some.inj k1)
    obtain ⟨m, g3, _⟩ := lookupInner_ok hT hw g1 k2
    exact ⟨d, _, lookup_inner hT c i g3, g2⟩

/-- C32: a configuration with a network inside one of the five IPv4-like areas, or with a
mask that does not fit, is refused as a whole. -/
theorem C32_refused {sort : List Net → List Net} {es : List Entry} (hwf : ∀ e ∈ es, e.Wf) (h : ∃ e ∈ es, ¬ e.Legal) :
    netsMakeList sort es = .ok none := by
  rw [netsMakeList, (netsParse_ok es [] hwf (by simp)).2 h]
  rfl

/-- A configuration with nested and adjacent networks of both families. -/
def sample : List Entry :=
  [.v4 [10, 0, 0, 0] 8 1, .v4 [10, 1, 0, 0] 16 2, .v4 [10, 1, 1, 0] 24 1, .v4 [192, 0, 2, 0] 25 3, .v4 [192, 0, 2, 128] 25 3,
   .v6 ([0x20, 0x01, 0x0D, 0xB8] ++ List.replicate 12 0) 32 4]

/-- Addresses deciding each network of the sample. -/
def sampleOwn : List (List Bool) :=
  [[10, 0, 0, 1], [10, 1, 0, 1], [10, 1, 1, 1], [192, 0, 2, 1], [192, 0, 2, 129]].map (fun b => List.replicate 96 false ++ bits b) ++
    [bits ([0x20, 0x01, 0x0D, 0xB8] ++ List.replicate 12 0)]

example : (∀ e ∈ sample, e.Wf) ∧ (∀ e ∈ sample, e.Legal) ∧ Consistent sample ∧ NoneHidden sample := by
  refine ⟨?_, ?_, ?_, ?_⟩
  · intro e he; simp only [sample, List.mem_cons, List.not_mem_nil, or_false] at he
    rcases he with rfl | rfl | rfl | rfl | rfl | rfl <;> exact ⟨rfl, by decide⟩
  · intro e he; simp only [sample, List.mem_cons, List.not_mem_nil, or_false] at he
    rcases he with rfl | rfl | rfl | rfl | rfl | rfl
    · show (8 : Nat) ≤ 32; decide
    · show (16 : Nat) ≤ 32; decide
    · show (24 : Nat) ≤ 32; decide
    · show (25 : Nat) ≤ 32; decide
    · show (25 : Nat) ≤ 32; decide
    · exact ⟨by decide, by decide +kernel⟩
  · exact (by decide +kernel : ∀ e ∈ sample, ∀ f ∈ sample, e.pfx.1 = f.pfx.1 → e.pfx.2 = f.pfx.2)
  · have h : ∀ e ∈ sample, ∃ x ∈ sampleOwn, x.length = 128 ∧ e.pfx.1 <+: x ∧ (∀ a ∈ areas, ¬ a <+: x) ∧
        ∀ f ∈ sample, f.pfx.1 <+: x → f.pfx.1.length ≤ e.pfx.1.length := by decide +kernel
    intro e he
    obtain ⟨x, _, hx⟩ := h e he
    exact ⟨x, hx⟩

/-- A network covered by its two halves. -/
def hidden : List Entry := [.v4 [10, 0, 0, 0] 8 1, .v4 [10, 0, 0, 0] 9 2, .v4 [10, 128, 0, 0] 9 2]

/-- The lookup of a client with the tree of a configuration. -/
def ask (sort : List Net → List Net) (es : List Entry) (c : Client) : Outcome (Option (Nat × Nat)) :=
  (netsMakeList sort es).bind fun
    | none => .ok none
    | some l => (xlate l).bind fun t => (lookup t c false).map some

/-- What the stable sort makes of it: the two halves become a second `10.0.0.0/8`, and of
the two the wrong one is kept. -/
theorem hidden_list : (netsMakeList isort hidden).map (fun o => o.map fun l => l.map fun n => (n.ip.drop 12, n.mask, n.dc)) =
    .ok (some [([10, 0, 0, 0], 104, 1), ([0, 0, 0, 0], 96, UNDEF), ([0, 0, 0, 0], 96, UNDEF), ([0, 0, 0, 0], 96, UNDEF),
      ([0, 0, 0, 0], 32, UNDEF), ([0, 0, 0, 0], 16, UNDEF)]) := by
  decide +kernel

/-- C32 does not hold of every legal configuration: with `10.0.0.0/8`, `10.0.0.0/9` and
`10.128.0.0/9`, the client 10.0.0.1 gets the list of the /8 although the /9 is longer. -/
theorem C32_false_hidden : ∃ sort, SortOk sort ∧ (∀ e ∈ hidden, e.Wf ∧ e.Legal) ∧ Consistent hidden ∧
    ask sort hidden ⟨.v4 0x0A000001, .v4 0, 0⟩ = .ok (some (1, 0)) ∧
    ∀ d, Answer (hidden.map Entry.pfx) 0 (target (.v4 0x0A000001)) d → d = 2 := by
  refine ⟨isort, isort_ok, ?_, ?_, by decide +kernel, ?_⟩
  · intro e he; simp only [hidden, List.mem_cons, List.not_mem_nil, or_false] at he
    rcases he with rfl | rfl | rfl
    · exact ⟨⟨rfl, by decide⟩, show (8 : Nat) ≤ 32 by decide⟩
    · exact ⟨⟨rfl, by decide⟩, show (9 : Nat) ≤ 32 by decide⟩
    · exact ⟨⟨rfl, by decide⟩, show (9 : Nat) ≤ 32 by decide⟩
  · exact (by decide +kernel : ∀ e ∈ hidden, ∀ f ∈ hidden, e.pfx.1 = f.pfx.1 → e.pfx.2 = f.pfx.2)
  · intro d hd
    have hc : Conf (hidden.map Entry.pfx) := by unfold Conf; decide +kernel
    refine answer_unique hc hd (Or.inl ⟨(Entry.v4 [10, 0, 0, 0] 9 2).pfx, ⟨by decide +kernel, by decide +kernel, by decide +kernel⟩, rfl⟩)

/-- C33: every client subnet that shares the returned scope with the one of the query gets
the same list and the same scope; the scope fits the address family. Without a client
subnet the scope is 0 and the answer does not depend on it. (Trees of configured networks;
`C33_scope_merged` is about trees with GeoIP networks.) -/
theorem C33_scope_nets {sort : List Net → List Net} (hs : SortOk sort) {es : List Entry} (hwf : ∀ e ∈ es, e.Wf)
    (hleg : ∀ e ∈ es, e.Legal) {l : List Net} {t : Tree}
    (hl : netsMakeList sort es = .ok (some l)) (ht : xlate l = .ok t) {c : Client} {i : Bool} (hw : (c.addr i).Wf) {d m : Nat}
    (h : lookup t c i = .ok (d, m)) :
    m ≤ (c.addr i).raw.length ∧
    (c.ecsMask ≠ 0 ∧ i = false → ∀ c' : Client, c'.ecsMask ≠ 0 → c'.ecs.Wf → c.ecs.sameFamily c'.ecs →
      c'.ecs.raw.take m = c.ecs.raw.take m → lookup t c' i = .ok (d, m)) ∧
    (¬ (c.ecsMask ≠ 0 ∧ i = false) → m = 0 ∧ ∀ c' : Client, ¬ (c'.ecsMask ≠ 0 ∧ i = false) → c'.src = c.src →
      lookup t c' i = .ok (d, m)) := by
  obtain ⟨l', h1, _, _, h2⟩ := nets_tree_weak hs hwf hleg
  rw [hl] at h1
  obtain rfl := Option.some.inj (Outcome.ok.inj h1)
  rw [ht] at h2
  obtain ⟨T, hT, hC, _⟩ := h2
  exact scope_client hT hC hw h

example : ∃ c : Client, (c.addr false).Wf ∧ ask isort [.v4 [10, 0, 0, 0] 8 1] c = .ok (some (1, 8)) ∧ c.ecsMask ≠ 0 :=
  ⟨⟨.v4 0, .v4 0x0A010203, 24⟩, by show (0x0A010203 : Nat) < 4294967296; decide, by decide +kernel, by decide⟩

/-- C34: a database whose search tree gives every address a record loads; otherwise
loading fails in an orderly way. -/
theorem C34_database_loads {sort : List Net → List Net} (hs : SortOk sort) {db : Mmdb} (hdb : ∀ off, db.dcOf off < 2147483647)
    (isV4 : Bool) : (∃ o, geoList sort db isV4 = .ok o) ∧
      ((∀ x : List Bool, x.length = 128 → root isV4 <+: x → dbFollow db (.node 0) (x.drop (root isV4).length) ≠ none) →
        ∃ a, geoList sort db isV4 = .ok (some a)) := by
  rcases geoList_ok hs hdb isV4 with ⟨h, x, hx, hr, hf⟩ | ⟨a, h, _⟩
  · exact ⟨⟨_, h⟩, fun hall => absurd hf (hall x hx hr)⟩
  · exact ⟨⟨_, h⟩, fun _ => ⟨a, h⟩⟩

/-- C34: with a GeoIP database, a client covered by an explicit network gets the list of
the longest such network, and every other client gets what the database says.

Missing: explicit networks entirely covered by smaller ones, see `C32_false_hidden`. -/
theorem C34_override_longest_partial {sort : List Net → List Net} (hs : SortOk sort) {db : Mmdb} (hdb : ∀ off, db.dcOf off < 2147483647)
    {isV4 : Bool} {es : List Entry} (hwf : ∀ e ∈ es, e.Wf) (hleg : ∀ e ∈ es, e.Legal) (hc : Consistent es) (hh : NoneHidden es)
    {a b : List Net} (ha : geoList sort db isV4 = .ok (some a)) (hb : netsMakeList sort es = .ok (some b)) :
    (a.length + b.length ≤ 132000 → ∃ t, merge2tree sort a b = .ok t) ∧
      ∀ t, merge2tree sort a b = .ok t → ∀ (c : Client) (i : Bool), (c.addr i).Wf →
        ∃ d m, lookup t c i = .ok (d, m) ∧
          ((∃ e ∈ es, e.pfx.1 <+: target (c.addr i)) → Answer (es.map Entry.pfx) 0 (target (c.addr i)) d) ∧
          ((∀ e ∈ es, ¬ e.pfx.1 <+: target (c.addr i)) → GeoAnswer db isV4 (target (c.addr i)) d) := by
  have h := merged_tree hs hdb hwf hleg hc hh ha hb
  refine ⟨fun hsz => ?_, fun t ht c i hw => ?_⟩
  · cases hx : merge2tree sort a b with
    | ok t => exact ⟨t, rfl⟩
    | ub => rw [hx] at h; have h : 16777216 < 1 + 127 * (a.length + b.length) := h; omega
  · rw [ht] at h
    obtain ⟨T, hT, hC, hA⟩ := h
    obtain ⟨d, j, g1, g2, g3⟩ := hA _ hw
    obtain ⟨d', j', k1, k2⟩ := hC.target _ hw
    rw [g1] at k1
    obtain ⟨rfl, rfl⟩ := Prod.mk.inj (Option.some.inj k1)
    obtain ⟨m, q, _⟩ := lookupInner_ok hT hw g1 k2
    exact ⟨d, _, lookup_inner hT c i q, g2, g3⟩

/-- C34, for every legal list of explicit networks: with a GeoIP database, a client covered
by an explicit network gets exactly the list it gets without the database, and every other
client gets what the database says. -/
theorem C34_override {sort : List Net → List Net} (hs : SortOk sort) {db : Mmdb} (hdb : ∀ off, db.dcOf off < 2147483647)
    {isV4 : Bool} {es : List Entry} (hwf : ∀ e ∈ es, e.Wf) (hleg : ∀ e ∈ es, e.Legal)
    {a b : List Net} (ha : geoList sort db isV4 = .ok (some a)) (hb : netsMakeList sort es = .ok (some b)) :
    (a.length + b.length ≤ 132000 → ∃ t, merge2tree sort a b = .ok t) ∧
      ∀ t, merge2tree sort a b = .ok t → ∀ (c : Client) (i : Bool), (c.addr i).Wf →
        ∃ d m, lookup t c i = .ok (d, m) ∧
          ((∃ e ∈ es, e.pfx.1 <+: target (c.addr i)) → Candidate es (target (c.addr i)) d ∧
            ∀ t0, xlate b = .ok t0 → ∃ m0, lookup t0 c i = .ok (d, m0)) ∧
          ((∀ e ∈ es, ¬ e.pfx.1 <+: target (c.addr i)) → GeoAnswer db isV4 (target (c.addr i)) d) := by
  have h := merged_tree_weak hs hdb hwf hleg ha hb
  obtain ⟨b', w1, w2, _, w3⟩ := nets_tree_weak hs hwf hleg
  rw [hb] at w1
  obtain rfl := Option.some.inj (Outcome.ok.inj w1)
  refine ⟨fun hsz => ?_, fun t ht c i hw => ?_⟩
  · cases hx : merge2tree sort a b with
    | ok t => exact ⟨t, rfl⟩
    | ub => rw [hx] at h; have h : 16777216 < 1 + 127 * (a.length + b.length) := h; omega
  · rw [ht] at h
    obtain ⟨T, hT, hC, hA⟩ := h
    obtain ⟨d, j, g1, g2, g3⟩ := hA _ hw
    obtain ⟨d', j', k1, k2⟩ := hC.target _ hw
    rw [g1] at k1
    obtain ⟨rfl, rfl⟩ := Prod.mk.inj (Option.some.inj k1)
    obtain ⟨m, q, _⟩ := lookupInner_ok hT hw g1 k2
    refine ⟨d, _, lookup_inner hT c i q, fun he => ⟨?_, fun t0 ht0 => ?_⟩, g3⟩
    · obtain ⟨b', v1, _, _, v4, _⟩ := netsMakeList_weak hs hwf hleg
      rw [hb] at v1
      obtain rfl := Option.some.inj (Outcome.ok.inj v1)
      exact rel_candidate v4 (target_length hw) (target_not_area hw) (g2 he)
    rw [ht0] at w3
    obtain ⟨T0, hT0, hC0, hA0⟩ := w3
    obtain ⟨d0, j0, r1, _, r2⟩ := hA0 _ hw
    obtain ⟨d0', j0', k1', k2'⟩ := hC0.target _ hw
    rw [r1] at k1'
    obtain ⟨rfl, rfl⟩ := Prod.mk.inj (Option.some.inj k1')
    obtain ⟨m0, q0, _⟩ := lookupInner_ok hT0 hw r1 k2'
    rw [answer_unique w2.inv.conf (g2 he) r2]
    exact ⟨_, lookup_inner hT0 c i q0⟩

/-- C34: merging itself, for every list made of a database and every normalized list. -/
theorem C34_merge {sort : List Net → List Net} (hs : SortOk sort) {a b : List Net} (ha : GList a) (hb : ListOk b) :
    ∃ l, merge sort a b = .ok l ∧ ∀ x : List Bool, x.length = 128 → ∀ z d,
      ((∃ q ∈ b.map toP, q.1 <+: x) → (Answer (l.map toP) z x d ↔ Answer (b.map toP) z x d)) ∧
      ((∀ q ∈ b.map toP, ¬ q.1 <+: x) → (Answer (l.map toP) z x d ↔ Answer (a.map toP) z x d)) := by
  obtain ⟨l, h1, _, _, h2⟩ := merge_ok hs ha hb
  exact ⟨l, h1, h2⟩

/-- C33 for trees with GeoIP networks. -/
theorem C33_scope_merged {sort : List Net → List Net} (hs : SortOk sort) {db : Mmdb} (hdb : ∀ off, db.dcOf off < 2147483647)
    {isV4 : Bool} {es : List Entry} (hwf : ∀ e ∈ es, e.Wf) (hleg : ∀ e ∈ es, e.Legal)
    {a b : List Net} {t : Tree} (ha : geoList sort db isV4 = .ok (some a)) (hb : netsMakeList sort es = .ok (some b))
    (ht : merge2tree sort a b = .ok t) {c : Client} {i : Bool} (hw : (c.addr i).Wf) {d m : Nat} (h : lookup t c i = .ok (d, m)) :
    m ≤ (c.addr i).raw.length ∧
    (c.ecsMask ≠ 0 ∧ i = false → ∀ c' : Client, c'.ecsMask ≠ 0 → c'.ecs.Wf → c.ecs.sameFamily c'.ecs →
      c'.ecs.raw.take m = c.ecs.raw.take m → lookup t c' i = .ok (d, m)) ∧
    (¬ (c.ecsMask ≠ 0 ∧ i = false) → m = 0 ∧ ∀ c' : Client, ¬ (c'.ecsMask ≠ 0 ∧ i = false) → c'.src = c.src →
      lookup t c' i = .ok (d, m)) := by
  have h2 := merged_tree_weak hs hdb hwf hleg ha hb
  rw [ht] at h2
  obtain ⟨T, hT, hC, _⟩ := h2
  exact scope_client hT hC hw h

/-- A small IPv4 database: `0/1` and `192/2` have a record, `128/2` has none. -/
def sampleDb : Mmdb where
  read := fun n => if n = 0 then some (.data 5, .node 1) else if n = 1 then some (.empty, .data 5) else none
  dcOf := fun _ => 7

/-- An IPv4 network. -/
def net4 (a : UInt8) (mask dc : Nat) : Net := ⟨List.replicate 12 0 ++ [a, 0, 0, 0], 96 + mask, dc⟩

/-- The list of the small database. -/
def sampleGeo : List Net := [net4 0 1 7, net4 128 2 0, net4 192 2 7]

example : (∀ off, sampleDb.dcOf off < 2147483647) ∧ geoList isort sampleDb true = .ok (some sampleGeo) ∧
    (netsMakeList isort [.v4 [10, 0, 0, 0] 8 1]).map (fun o => o.map List.length) = .ok (some 6) :=
  ⟨fun _ => (by decide : (7 : Nat) < 2147483647), by decide +kernel, by decide +kernel⟩

/-- A merged list, an explicit network inside one from the database. -/
example : merge isort sampleGeo [net4 10 8 1] = .ok [net4 0 1 7, net4 10 8 1, net4 128 2 0, net4 192 2 7] := by decide +kernel

end Gdnsd.Geo
