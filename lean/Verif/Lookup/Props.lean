import Verif.Lookup.MainLemmas
/-
C60: what the server answers from its database. The specification is in
Verif/Lookup/Spec.lean; reading messages is specified in Verif/Enc/Spec.lean.
-/
namespace Gdnsd.Lookup
open DnameSpec EncSpec Dname Enc Tree TreeSpec LookupSpec

/-- The surroundings of a query for the name `qraw` (as sent): `env` is what the code sees of
the world `w`, and the tree is one loading may leave behind. -/
structure Serves (qraw : List Bytes) (env : Env) (w : World) (root : Node) : Prop where
  lq : env.lq = encode (lowerName qraw) true
  draws : ∀ k, Rand.Spec.Legal (env.draws k)
  resolve : env.resolve = w.resolve
  chals : ChalsOk env w.chals
  follow : ∀ z, w.follow z ↔ env.noChain = false ∧ z <:+ qraw
  db : DbOk w.resolve root

/-- The request's header and question, before anything is added. -/
def asked (hdr : Bytes) (qraw : List Bytes) (rest : Bytes) : Bytes := hdr ++ (wireLabels qraw ++ [0]) ++ rest

theorem at_start {qraw : List Bytes} {env : Env} {w : World} {root : Node} (h : Serves qraw env w root) (hq : WF qraw)
    (hdr rest : Bytes) (hh : hdr.length = 12) (t : Nat) :
    At root qraw (lowerName qraw) env { out := asked hdr qraw rest, qtype := t } (lowerName qraw) false := by
  have hw : WF (lowerName qraw) :=
    ⟨fun l hl => by
      obtain ⟨x, hx, rfl⟩ := List.mem_map.mp hl
      have := hq.1 x hx
      simpa using this, by rw [lowerName_wireLen]; exact hq.2⟩
  have hna := NameAt_plain (a := hdr) (q := rest) qraw hq.1
  rw [hh] at hna
  refine ⟨⟨hw, rfl, h.lq, h.draws, ⟨hdr, rest, hh, rfl⟩, by simp, by simp⟩, .inl rfl, hw, lowerName_idem _, ⟨by simp, 12 + wireLen qraw, ?_⟩,
    by simp, .inl ⟨rfl, rfl, rfl⟩, ⟨rfl, rfl, rfl, rfl⟩, rfl, rfl⟩
  exact ⟨qraw, hna, (lowerName_idem _).symm⟩

/-- C60. A lookup never trips an assertion, and what it leaves in the packet reads back as the
reply the specification determines: the records of the CNAME chain in order and then the
answer, authority and additional records, each section in some order; the counts, the
response code, the authority bit and the scope are those of the reply. Challenge records are
left out only when there is no room for one more. The packet grows by no more than its size
bound, except by challenge records, which stay within the size asked for. `rt` is the tree that each of the searches finds;
they must all find the same one (see C20 for what happens otherwise). -/
theorem C60_lookup {qraw : List Bytes} {env : Env} {w : World} {root : Node} (h : Serves qraw env w root) (hq : WF qraw)
    (hdr rest : Bytes) (hh : hdr.length = 12) (t : Nat) (ht : t < 128 ∨ 256 ≤ t ∨ t = 255)
    (cs : List (List Bytes × RRset)) (e : List Bytes) (v : Verdict)
    (hc : Chain w root t (lowerName qraw) cs e) (hv : Ends root e v)
    (hs : (asked hdr qraw rest).length + (chainSize w cs + endSize w t v) ≤ 16376) (fuel : Nat) (hf : cs.length < fuel)
    (rt : Nat → Node) (hrt : ∀ j, j ≤ cs.length → rt j = root) :
    ∃ st k an ns ar,
      dbLookup rt env fuel 0 { out := asked hdr qraw rest, qtype := t } env.lq false = .ok st ∧
      asked hdr qraw rest <+: st.out ∧
      RecsAt st.out (asked hdr qraw rest).length
        ((cs.flatMap fun c => answerRecs w.resolve c.1 c.2) ++ an ++ ns ++ ar) st.out.length ∧
      ((cs.flatMap fun c => answerRecs w.resolve c.1 c.2) ++ an).Perm (reply w t k cs e v).answer ∧
      ns.Perm (reply w t k cs e v).authority ∧ ar.Perm (reply w t k cs e v).additional ∧
      st.cn + st.an = ((cs.flatMap fun c => answerRecs w.resolve c.1 c.2) ++ an).length ∧
      st.ns = ns.length ∧ st.ar = ar.length ∧
      st.rcode = (reply w t k cs e v).rcode ∧ st.aa = (reply w t k cs e v).aa ∧ st.scope = (reply w t k cs e v).scope ∧
      ((t = 16 ∧ chalRecs w e ≠ [] ∧ st.out.length ≤ env.thisMax) ∨
        st.out.length ≤ (asked hdr qraw rest).length + (chainSize w cs + endSize w t v)) ∧
      (∀ z soa rrs, v = .final z soa rrs → t = 16 → aliasOf w (rrs.getD []) = none → k < (chalRecs w e).length →
        env.thisMax < st.out.length + 56) := by
  have ha := at_start h hq hdr rest hh t
  obtain ⟨st, k, h1, h2⟩ := lookup_chain (ql := lowerName qraw) ⟨h.resolve, h.chals, h.follow, h.db, ht⟩ hc
    { out := asked hdr qraw rest, qtype := t } false fuel 0 v rt (fun j hj => by rw [Nat.zero_add]; exact hrt j hj) ha rfl hv hs hf
  obtain ⟨⟨base, b1, b2, b3⟩, c1, c2, c3⟩ := h2
  obtain ⟨d1, ⟨tl, htl⟩, d3, d4, d5, an, ns, ar, d6, d7, d8, d9, d10, d11, d12⟩ := b3
  have hcl : ∀ {q cs e}, Chain w root t q cs e → (cs.flatMap fun c => answerRecs w.resolve c.1 c.2).length = cs.length := by
    intro q cs e hc
    induction hc with
    | stop => rfl
    | step hf _ ih =>
      obtain ⟨z, n, b, -, -, e1, -⟩ := hf
      rw [List.flatMap_cons, List.length_append, ih]
      simp [answerRecs, e1]; omega
  refine ⟨st, k, an, ns, ar, by rw [h.lq]; exact h1, List.IsPrefix.trans b2 ⟨tl, htl⟩, ?_, ?_, d8, d9, ?_, d11, d12, d3, ?_, d4, c2, ?_⟩
  · have := RecsAt_append tl b1
    rw [htl] at this
    have := RecsAt_trans this d6
    simpa [List.append_assoc] using this
  · exact List.Perm.append_left _ d7
  · rw [c1, List.length_append, hcl hc, d10]; simp
  · rw [d5]; simp [reply]
  · intro z soa rrs hv ht ha hk
    subst hv
    exact c3 ht ha hk

/-- C60. Every legal name has a verdict. -/
theorem C60_verdict {resolve : Nat → DynRes} {root : Node} (db : DbOk resolve root) (q : List Bytes) (hq : WF q) :
    ∃ v, Ends root q v := by
  obtain ⟨r, ad, p, hs, hp, hres⟩ := C18_search root q hq
  cases p with
  | outside => exact ⟨.refused, hp⟩
  | referral z c =>
    obtain ⟨n, hn, _⟩ := hp.2.2.2.2.1
    obtain ⟨ns, h1, h2⟩ := db.ns q z c n hp.1 hp.2 hn
    exact ⟨.referral c ns, z, n, hp, hn, h1, h2⟩
  | data z m =>
    obtain ⟨n, hn, _⟩ := hp.1.2.1
    obtain ⟨soa, h1, h2⟩ := db.soa q z n hp.1 hn
    exact ⟨.final z soa (some m.rrs), n, hn, h1, h2, m, hp, rfl⟩
  | missing z =>
    obtain ⟨n, hn, _⟩ := hp.1.2.1
    obtain ⟨soa, h1, h2⟩ := db.soa q z n hp.1 hn
    exact ⟨.final z soa none, n, hn, h1, h2, hp⟩

/-- C60. The specification leaves no choice: chain and verdict of a name are unique. -/
theorem C60_unique {w : World} {root : Node} (db : DbOk w.resolve root) (t : Nat) {q e e' : List Bytes}
    {cs cs' : List (List Bytes × RRset)} {v v' : Verdict} (h : Chain w root t q cs e) (h' : Chain w root t q cs' e')
    (hv : Ends root e v) (hv' : Ends root e' v') : cs = cs' ∧ e = e' ∧ v = v' := by
  have key : ∀ {q cs e}, Chain w root t q cs e → ∀ {cs' e'}, Chain w root t q cs' e' → cs = cs' ∧ e = e' := by
    intro q cs e h
    induction h with
    | stop hno =>
      intro cs' e' h'
      cases h' with
      | stop => exact ⟨rfl, rfl⟩
      | step hf => exact absurd hf (hno _ _)
    | step hf _ ih =>
      intro cs' e' h'
      cases h' with
      | stop hno => exact absurd hf (hno _ _)
      | step hf' hc' =>
        obtain ⟨z, n, b, a1, a2, a3, a4, -⟩ := hf
        obtain ⟨z', n', b', b1, b2, b3, b4, -⟩ := hf'
        have := Located_unique a1 b1
        simp only [Place.data.injEq] at this
        obtain ⟨rfl, rfl⟩ := this
        rw [a2, List.cons.injEq] at b2
        obtain ⟨rfl, -⟩ := b2
        rw [a3, Body.cname.injEq] at b3
        subst b3
        rw [← a4] at b4
        subst b4
        obtain ⟨rfl, rfl⟩ := ih hc'
        exact ⟨rfl, rfl⟩
  obtain ⟨rfl, rfl⟩ := key h h'
  refine ⟨rfl, rfl, ?_⟩
  have soaEq : ∀ {z : List Bytes} {a a' : Node} {s s' : RRset}, nodeAt root z = some a → nodeAt root z = some a' →
      s ∈ a.rrs → s' ∈ a'.rrs → s.type = 6 → s'.type = 6 → s = s' := by
    intro z a a' s s' h1 h2 h3 h4 h5 h6
    rw [h1] at h2
    cases h2
    have e1 := (node_soa (db.node z a h1) h3 h5).2.1
    have e2 := (node_soa (db.node z a h1) h4 h6).2.1
    rw [e1] at e2; cases e2; rfl
  cases v with
  | refused =>
    cases v' with
    | refused => rfl
    | referral c r =>
      obtain ⟨z, n, h1, -⟩ := hv'
      exact absurd (Located_unique (w := .outside) hv h1) (by simp)
    | final z soa rrs =>
      obtain ⟨a, -, -, -, h4⟩ := hv'
      cases rrs with
      | none => exact absurd (Located_unique (w := .outside) hv h4) (by simp)
      | some l => obtain ⟨n, h4, -⟩ := h4; exact absurd (Located_unique (w := .outside) hv h4) (by simp)
  | referral c r =>
    obtain ⟨z, n, h1, h2, h3, h4⟩ := hv
    cases v' with
    | refused => exact absurd (Located_unique (w := .outside) hv' h1) (by simp)
    | referral c' r' =>
      obtain ⟨z', n', g1, g2, g3, g4⟩ := hv'
      have := Located_unique h1 g1
      simp only [Place.referral.injEq] at this
      obtain ⟨rfl, rfl⟩ := this
      rw [h2] at g2; cases g2
      obtain ⟨_, _, _, e1, _⟩ := node_ns (db.node _ _ h2) h3 h4
      obtain ⟨_, _, _, e2, _⟩ := node_ns (db.node _ _ h2) g3 g4
      rw [e1] at e2; cases e2; rfl
    | final z' soa rrs =>
      obtain ⟨a, -, -, -, g4⟩ := hv'
      cases rrs with
      | none => exact absurd (Located_unique h1 g4) (by simp)
      | some l => obtain ⟨n, g4, -⟩ := g4; exact absurd (Located_unique h1 g4) (by simp)
  | final z soa rrs =>
    obtain ⟨a, h1, h2, h3, h4⟩ := hv
    cases v' with
    | refused =>
      cases rrs with
      | none => exact absurd (Located_unique (w := .outside) hv' h4) (by simp)
      | some l => obtain ⟨n, h4, -⟩ := h4; exact absurd (Located_unique (w := .outside) hv' h4) (by simp)
    | referral c r =>
      obtain ⟨z', n', g1, -⟩ := hv'
      cases rrs with
      | none => exact absurd (Located_unique g1 h4) (by simp)
      | some l => obtain ⟨n, h4, -⟩ := h4; exact absurd (Located_unique g1 h4) (by simp)
    | final z' soa' rrs' =>
      obtain ⟨a', g1, g2, g3, g4⟩ := hv'
      cases rrs with
      | none =>
        cases rrs' with
        | none =>
          have := Located_unique h4 g4
          simp only [Place.missing.injEq] at this
          subst this
          rw [soaEq h1 g1 h2 g2 h3 g3]
        | some l => obtain ⟨n, g4, -⟩ := g4; exact absurd (Located_unique h4 g4) (by simp)
      | some l =>
        obtain ⟨n, h4, rfl⟩ := h4
        cases rrs' with
        | none => exact absurd (Located_unique h4 g4) (by simp)
        | some l' =>
          obtain ⟨n', g4, rfl⟩ := g4
          have := Located_unique h4 g4
          simp only [Place.data.injEq] at this
          obtain ⟨rfl, rfl⟩ := this
          rw [soaEq h1 g1 h2 g2 h3 g3]

/-! ### A concrete database -/

mutual
/-- All nodes below a node, with their names. -/
def allNodes : Node → List (List Bytes × Node)
  | .mk z r kids => ([], .mk z r kids) :: allKids kids
def allKids : List (Bytes × Node) → List (List Bytes × Node)
  | [] => []
  | (l, c) :: r => (allNodes c).map (fun x => (x.1 ++ [l], x.2)) ++ allKids r
end

theorem mem_allKids {kids : List (Bytes × Node)} {l : Bytes} {c : Node} (h : lookupKid kids l = some c) {x : List Bytes × Node}
    (hx : x ∈ allNodes c) : (x.1 ++ [l], x.2) ∈ allKids kids := by
  induction kids with
  | nil => simp [lookupKid] at h
  | cons k r ih =>
    obtain ⟨k, n⟩ := k
    rw [lookupKid] at h
    rw [allKids, List.mem_append]
    split at h
    · next hk =>
      cases h; subst hk
      exact .inl (List.mem_map.mpr ⟨x, hx, rfl⟩)
    · exact .inr (ih h)

theorem mem_allNodes : ∀ (p : List Bytes) (n m : Node), follow n p = some m → (p.reverse, m) ∈ allNodes n := by
  intro p
  induction p with
  | nil => intro n m h; cases h; cases n; simp [allNodes]
  | cons l r ih =>
    intro n m h
    obtain ⟨z, rrs, kids⟩ := n
    rw [follow] at h
    cases hf : Node.find (.mk z rrs kids) l with
    | none => rw [hf] at h; simp at h
    | some c =>
      rw [hf, Option.bind_some] at h
      have := mem_allKids (kids := kids) hf (ih c m h)
      rw [allNodes, List.reverse_cons]
      exact List.mem_cons_of_mem _ this

theorem nodeAt_mem {root n : Node} {name : List Bytes} (h : nodeAt root name = some n) : (name, n) ∈ allNodes root := by
  have := mem_allNodes _ _ _ h
  rwa [List.reverse_reverse] at this

namespace Ex

/-- A name in internal form. -/
def nm (ls : List Bytes) : Bytes := encode ls true

def zoneSoa : RRset := ⟨0x100E0000, .soa (nm [[109], [122]]) (nm [[114], [122]]) (List.replicate 20 1)⟩

/-- The zone `z.` with the alias `a.z.` of `b.z.`, an address there, a delegation `d.z.` with
glue and a wildcard `*.w.z.` that is a plugin's address set. -/
def db : Node :=
  .mk false [] [([122], .mk true [zoneSoa, ⟨0x100E0000, .ns [⟨nm [[98], [122]], none, none⟩]⟩]
    [([97], .mk false [⟨0x3C000000, .cname (nm [[98], [122]])⟩] []),
     ([98], .mk false [⟨0x3C000000, .a [[192, 0, 2, 1], [192, 0, 2, 2]]⟩] []),
     ([100], .mk true [⟨0x3C000000, .ns [⟨nm [[110], [100], [122]], some ⟨0x3C000000, [[192, 0, 2, 9]]⟩, none⟩]⟩]
        [([110], .mk false [⟨0x3C000000, .a [[192, 0, 2, 9]]⟩] [])]),
     ([119], .mk false [] [([42], .mk false [⟨0x3C000000, .dynA 0 5⟩] [])])])]

def dyn : DynRes := { sttl := 100, v4 := [[192, 0, 2, 7]], v6 := [], cname := none, scope := 24 }

def env (q : List Bytes) : Env :=
  { lq := nm q, draws := fun _ _ => 0, resolve := fun _ => dyn, noChain := false, chals := fun _ => [], thisMax := 16376 }

def w (qraw : List Bytes) : World := { resolve := fun _ => dyn, chals := fun _ => [], follow := fun z => z <:+ qraw }

theorem nmOk (ls : List Bytes) (h : WF ls) : NameOk (nm ls) := ⟨ls, h, rfl⟩

theorem dbOk (q : List Bytes) : DbOk (w q).resolve db := by
  have hz : ∀ q' z, IsZone db q' z → z = [[122]] := by
    intro q' z h
    obtain ⟨n, hn, hc⟩ := h.2.1
    have hm := nodeAt_mem hn
    simp only [db, allNodes, allKids, List.map_cons, List.map_nil, List.mem_cons, Prod.mk.injEq, List.not_mem_nil,
      or_false, List.nil_append, List.cons_append] at hm
    rcases hm with ⟨rfl, rfl⟩ | ⟨rfl, rfl⟩ | ⟨rfl, rfl⟩ | ⟨rfl, rfl⟩ | ⟨rfl, rfl⟩ | ⟨rfl, rfl⟩ | ⟨rfl, rfl⟩ | ⟨rfl, rfl⟩
    all_goals first | rfl | (simp [Node.zcut] at hc; done) | skip
    exact absurd ⟨_, rfl, rfl⟩ (h.2.2 [[122]] ⟨[[100]], rfl⟩ (by decide))
  refine ⟨?_, ?_, ?_, ?_⟩
  · intro name n hn
    have hm := nodeAt_mem hn
    simp only [db, allNodes, allKids, List.map_cons, List.map_nil, List.mem_cons, Prod.mk.injEq, List.not_mem_nil,
      or_false, List.nil_append, List.cons_append] at hm
    have n1 := nmOk [[98], [122]] (by decide)
    have n2 := nmOk [[109], [122]] (by decide)
    have n3 := nmOk [[114], [122]] (by decide)
    have n4 := nmOk [[110], [100], [122]] (by decide)
    rcases hm with ⟨rfl, rfl⟩ | ⟨rfl, rfl⟩ | ⟨rfl, rfl⟩ | ⟨rfl, rfl⟩ | ⟨rfl, rfl⟩ | ⟨rfl, rfl⟩ | ⟨rfl, rfl⟩ | ⟨rfl, rfl⟩
    · exact .inr (.inr ⟨by simp [Node.rrs], by simp [Node.rrs]⟩)
    · refine .inr (.inr ⟨by decide, ?_⟩)
      simp [Node.rrs, zoneSoa, RRsetOk, n1, n2, n3, GlueOk]
    · exact .inr (.inl ⟨_, _, rfl, n1, by decide +kernel⟩)
    · refine .inr (.inr ⟨by decide, ?_⟩)
      simp [Node.rrs, RRsetOk, AddrsOk]
    · refine .inr (.inr ⟨by decide, ?_⟩)
      simp [Node.rrs, RRsetOk, AddrsOk, n4, GlueOk]
    · refine .inr (.inr ⟨by decide, ?_⟩)
      simp [Node.rrs, RRsetOk, AddrsOk]
    · exact .inr (.inr ⟨by simp [Node.rrs], by simp [Node.rrs]⟩)
    · refine .inr (.inr ⟨by decide, ?_⟩)
      simp [Node.rrs, RRsetOk, DynOk, w, dyn]
      decide
  · intro name n r hn hr ht
    have hm := nodeAt_mem hn
    simp only [db, allNodes, allKids, List.map_cons, List.map_nil, List.mem_cons, Prod.mk.injEq, List.not_mem_nil,
      or_false, List.nil_append, List.cons_append] at hm
    rcases hm with ⟨rfl, rfl⟩ | ⟨rfl, rfl⟩ | ⟨rfl, rfl⟩ | ⟨rfl, rfl⟩ | ⟨rfl, rfl⟩ | ⟨rfl, rfl⟩ | ⟨rfl, rfl⟩ | ⟨rfl, rfl⟩ <;>
      simp [Node.rrs, Node.zcut] at hr ⊢ <;> (try subst hr) <;> simp [RRset.type, Body.type] at ht
  · intro q' z n h hn
    obtain rfl := hz q' z h
    cases hn
    exact ⟨zoneSoa, by simp [Node.rrs], rfl⟩
  · intro q' z c n h hr hn
    obtain rfl := hz q' z h
    obtain ⟨h1, h2, h3, ⟨m, hm, hc⟩, h5⟩ := hr
    have hm := nodeAt_mem hm
    simp only [db, allNodes, allKids, List.map_cons, List.map_nil, List.mem_cons, Prod.mk.injEq, List.not_mem_nil,
      or_false, List.nil_append, List.cons_append] at hm
    rcases hm with ⟨rfl, rfl⟩ | ⟨rfl, rfl⟩ | ⟨rfl, rfl⟩ | ⟨rfl, rfl⟩ | ⟨rfl, rfl⟩ | ⟨rfl, rfl⟩ | ⟨rfl, rfl⟩ | ⟨rfl, rfl⟩
    all_goals first | (simp [Node.zcut] at hc; done) | exact absurd rfl h3 | skip
    cases hn
    exact ⟨_, List.mem_singleton.mpr rfl, rfl⟩

theorem serves (qraw : List Bytes) : Serves qraw (env (lowerName qraw)) (w qraw) db :=
  ⟨rfl, fun _ i => by simp [env], rfl, fun ls _ => ⟨rfl, by simp [w]⟩, fun z => by simp [w, env], dbOk qraw⟩

theorem located (l : Bytes) (n : Node) (h : nodeAt db [l, [122]] = some n) (hc : n.zcut = false) :
    Located db [l, [122]] (.data [[122]] n) := by
  refine ⟨⟨⟨[l], rfl⟩, ⟨_, rfl, rfl⟩, ?_⟩, ?_, .inl h⟩
  · intro s hs hne ⟨m, hm, hmc⟩
    rcases List.suffix_cons_iff.mp hs with rfl | hs
    · exact hne rfl
    · obtain rfl := List.suffix_nil.mp hs
      cases hm; cases hmc
  · rintro c ⟨h1, h2, h3, ⟨m, hm, hmc⟩, -⟩
    rcases List.suffix_cons_iff.mp h1 with rfl | h1
    · rw [h] at hm; cases hm; rw [hc] at hmc; cases hmc
    · exact h3 (h2.eq_of_length_le h1.length_le)

/-- The chain of `a.z.`, and its end. -/
theorem chain (qraw : List Bytes) (h : [[122]] <:+ qraw) :
    Chain (w qraw) db 1 [[97], [122]] [([[97], [122]], ⟨0x3C000000, .cname (nm [[98], [122]])⟩)] [[98], [122]] := by
  have he : labelsOf (nm [[98], [122]]) = [[98], [122]] := by decide +kernel
  refine .step ⟨[[122]], _, _, located [97] _ rfl rfl, rfl, rfl, he.symm, by decide, by decide, h, ⟨[[98]], rfl⟩⟩ (.stop ?_)
  rintro r d ⟨z, n, b, h1, h2, h3, -⟩
  have := Located_unique h1 (located [98] _ rfl rfl)
  simp only [Place.data.injEq] at this
  obtain ⟨rfl, rfl⟩ := this
  simp only [Node.rrs, List.cons.injEq, and_true] at h2
  rw [← h2] at h3
  cases h3

theorem ends : Ends db [[98], [122]] (.final [[122]] zoneSoa (some [⟨0x3C000000, .a [[192, 0, 2, 1], [192, 0, 2, 2]]⟩])) :=
  ⟨_, rfl, by simp [Node.rrs], rfl, _, located [98] _ rfl rfl, rfl⟩

/-- The header and question of a query for `qraw A`. -/
def start (qraw : List Bytes) : St := { out := asked (List.replicate 12 0) qraw [0, 1, 0, 1], qtype := 1 }

/-- The answer counts and response code of a lookup. -/
def counts (r : Outcome St) : Outcome (Nat × Nat × Nat) := r.map fun st => (st.cn, st.an, st.rcode)

end Ex

example : Serves [[97], [122]] (Ex.env [[97], [122]]) (Ex.w [[97], [122]]) Ex.db ∧ WF [[97], [122]] ∧
    (∃ cs e v, Chain (Ex.w [[97], [122]]) Ex.db 1 (lowerName [[97], [122]]) cs e ∧ Ends Ex.db e v ∧
      (asked (List.replicate 12 0) [[97], [122]] [0, 1, 0, 1]).length +
        (chainSize (Ex.w [[97], [122]]) cs + endSize (Ex.w [[97], [122]]) 1 v) ≤ 16376) :=
  ⟨Ex.serves [[97], [122]], by decide, _, _, _, Ex.chain [[97], [122]] ⟨[[97]], rfl⟩, Ex.ends, by decide +kernel⟩

example : Ex.counts (dbLookup (fun _ => Ex.db) (Ex.env [[97], [122]]) 20 0 (Ex.start [[97], [122]]) (Ex.nm [[97], [122]]) false) =
    .ok (1, 2, 0) := by decide +kernel

/-! ### C20: one tree per query -/

/-- C20, part: a query for which no CNAME is followed is answered entirely from one tree, the
one in place at its search, whatever trees come later. Missing: queries that follow CNAMEs,
for which the claim is false (below). -/
theorem C20_query_partial {qraw : List Bytes} {env : Env} {w : World} (rt : Nat → Node) (h : Serves qraw env w (rt 0)) (hq : WF qraw)
    (hdr rest : Bytes) (hh : hdr.length = 12) (t : Nat) (ht : t < 128 ∨ 256 ≤ t ∨ t = 255) (v : Verdict)
    (hc : ∀ r d, ¬ Follows w (rt 0) t (lowerName qraw) r d) (hv : Ends (rt 0) (lowerName qraw) v)
    (hs : (asked hdr qraw rest).length + endSize w t v ≤ 16376) (fuel : Nat) (hf : 0 < fuel) :
    ∃ st k an ns ar,
      dbLookup rt env fuel 0 { out := asked hdr qraw rest, qtype := t } env.lq false = .ok st ∧
      RecsAt st.out (asked hdr qraw rest).length (an ++ ns ++ ar) st.out.length ∧
      an.Perm (reply w t k [] (lowerName qraw) v).answer ∧ ns.Perm (reply w t k [] (lowerName qraw) v).authority ∧
      ar.Perm (reply w t k [] (lowerName qraw) v).additional ∧ st.rcode = (reply w t k [] (lowerName qraw) v).rcode := by
  obtain ⟨st, k, an, ns, ar, h1, -, h3, h4, h5, h6, -, -, -, h10, -⟩ := C60_lookup h hq hdr rest hh t ht [] _ v (.stop hc) hv
    (by simpa [chainSize] using hs) fuel hf rt (fun j hj => by simp at hj; rw [hj])
  exact ⟨st, k, an, ns, ar, h1, by simpa using h3, by simpa using h4, h5, h6, h10⟩

/-- The same zone with another address at `b.z.` and nothing at `a.z.`. -/
def Ex.db2 : Node :=
  .mk false [] [([122], .mk true [zoneSoa, ⟨0x100E0000, .ns [⟨nm [[98], [122]], none, none⟩]⟩]
    [([98], .mk false [⟨0x3C000000, .txt [[1, 65]]⟩] [])])]

/-- C20 is false for queries that follow a CNAME: when a reload replaces the tree between the
two searches, the reply mixes the old and the new data. Here it consists of the old alias and
a negative answer, while the old tree gives the alias and two addresses and the new tree has
no alias at all. -/
theorem C20_false_mixed :
    Ex.counts (dbLookup (fun i => if i = 0 then Ex.db else Ex.db2) (Ex.env [[97], [122]]) 20 0 (Ex.start [[97], [122]])
      (Ex.nm [[97], [122]]) false) = .ok (1, 0, 0) ∧
    Ex.counts (dbLookup (fun _ => Ex.db) (Ex.env [[97], [122]]) 20 0 (Ex.start [[97], [122]]) (Ex.nm [[97], [122]]) false) =
      .ok (1, 2, 0) ∧
    Ex.counts (dbLookup (fun _ => Ex.db2) (Ex.env [[97], [122]]) 20 0 (Ex.start [[97], [122]]) (Ex.nm [[97], [122]]) false) =
      .ok (0, 0, 3) := by decide +kernel

/-- C20 is false, second witness: if the reload removes the zone, the second search trips the
assertion that a followed CNAME stays inside the server's zones. -/
theorem C20_false_assert :
    dbLookup (fun i => if i = 0 then Ex.db else .mk false [] []) (Ex.env [[97], [122]]) 20 0 (Ex.start [[97], [122]])
      (Ex.nm [[97], [122]]) false = .ub ∧
    Ex.counts (dbLookup (fun _ => .mk false [] []) (Ex.env [[97], [122]]) 20 0 (Ex.start [[97], [122]]) (Ex.nm [[97], [122]]) false) =
      .ok (0, 0, 5) := by
  refine ⟨?_, by decide +kernel⟩
  have h : Ex.counts (dbLookup (fun i => if i = 0 then Ex.db else .mk false [] []) (Ex.env [[97], [122]]) 20 0
      (Ex.start [[97], [122]]) (Ex.nm [[97], [122]]) false) = .ub := by decide +kernel
  revert h
  generalize dbLookup _ _ _ _ _ _ _ = r
  cases r with
  | ok st => intro h; cases h
  | ub => intro _; rfl

/-! ### C61: letter case -/

/-- C61, part: two spellings of a query name get the same reply if they agree on whether the
zone's name is spelled in lower case. Missing: other spellings, for which the claim is false
(below). -/
theorem C61_case_partial {q1 q2 : List Bytes} {env1 env2 : Env} {w1 w2 : World} {root : Node} (h1 : Serves q1 env1 w1 root)
    (h2 : Serves q2 env2 w2 root) (hq : lowerName q1 = lowerName q2) (hr : w1.resolve = w2.resolve) (hc : w1.chals = w2.chals)
    (hn : env1.noChain = env2.noChain) (hz : ∀ z, IsZone root (lowerName q1) z → (z <:+ q1 ↔ z <:+ q2))
    (t : Nat) {cs : List (List Bytes × RRset)} {e : List Bytes} (hch : Chain w1 root t (lowerName q1) cs e) :
    Chain w2 root t (lowerName q2) cs e ∧ ∀ k v, reply w1 t k cs e v = reply w2 t k cs e v := by
  constructor
  · rw [← hq]
    have hf : ∀ z, IsZone root (lowerName q1) z → (w1.follow z ↔ w2.follow z) := by
      intro z h
      rw [h1.follow, h2.follow, hn, hz z h]
    generalize lowerName q1 = q at hch hf
    clear hq hz
    induction hch with
    | stop hno =>
      refine .stop ?_
      rintro r d ⟨z, n, b, a1, a2, a3, a4, a5, a6, a7, a8⟩
      exact hno r d ⟨z, n, b, a1, a2, a3, a4, a5, a6, (hf z a1.1).mpr a7, a8⟩
    | step hfo _ ih =>
      obtain ⟨z, n, b, a1, a2, a3, a4, a5, a6, a7, a8⟩ := hfo
      refine .step ⟨z, n, b, a1, a2, a3, a4, a5, a6, (hf z a1.1).mp a7, a8⟩ (ih ?_)
      intro z' hz'
      have : IsZone root _ z := ⟨a8, a1.1.2⟩
      rw [IsZone_unique hz' this]
      exact hf z a1.1
  · intro k v
    obtain ⟨r1, c1, f1⟩ := w1
    obtain ⟨r2, c2, f2⟩ := w2
    simp only at hr hc
    subst hr hc
    rfl

example : Serves [[97], [122]] (Ex.env [[97], [122]]) (Ex.w [[97], [122]]) Ex.db ∧
    Serves [[65], [122]] (Ex.env [[97], [122]]) (Ex.w [[65], [122]]) Ex.db ∧ lowerName [[97], [122]] = lowerName [[65], [122]] ∧
    (∀ z, IsZone Ex.db (lowerName [[97], [122]]) z → (z <:+ [[97], [122]] ↔ z <:+ [[65], [122]])) := by
  refine ⟨Ex.serves [[97], [122]], Ex.serves [[65], [122]], by decide, ?_⟩
  intro z hz
  obtain rfl := IsZone_unique hz (Ex.located [97] _ rfl rfl).1
  exact ⟨fun _ => ⟨[[65]], rfl⟩, fun _ => ⟨[[97]], rfl⟩⟩

/-- C61 is false: a query for `a.Z.` gets the alias only, a query for `a.z.` the alias and the
two addresses, because the check that the target is in the same zone compares the zone's name
byte by byte with the name in the request. -/
theorem C61_false :
    lowerName [[97], [90]] = lowerName [[97], [122]] ∧
    Ex.counts (dbLookup (fun _ => Ex.db) (Ex.env [[97], [122]]) 20 0 (Ex.start [[97], [122]]) (Ex.nm [[97], [122]]) false) =
      .ok (1, 2, 0) ∧
    Ex.counts (dbLookup (fun _ => Ex.db) (Ex.env [[97], [122]]) 20 0 (Ex.start [[97], [90]]) (Ex.nm [[97], [122]]) false) =
      .ok (0, 1, 0) := by decide +kernel

/-! ### C62: challenges -/

/-- C62, part: the answer holds all the challenges of a name unless the reply has reached the
size limit. Missing: that a set is never given in part, which is false (below). -/
theorem C62_challenges_partial {qraw : List Bytes} {env : Env} {w : World} {root : Node} (h : Serves qraw env w root) (hq : WF qraw)
    (hdr rest : Bytes) (hh : hdr.length = 12) (z : List Bytes) (soa : RRset) (rrs : Option (List RRset))
    (hc : ∀ r d, ¬ Follows w root 16 (lowerName qraw) r d) (hv : Ends root (lowerName qraw) (.final z soa rrs))
    (ha : aliasOf w (rrs.getD []) = none)
    (hs : (asked hdr qraw rest).length + endSize w 16 (.final z soa rrs) ≤ 16376) :
    ∃ st, dbLookup (fun _ => root) env 1 0 { out := asked hdr qraw rest, qtype := 16 } env.lq false = .ok st ∧
      (st.out.length + 56 ≤ env.thisMax → ∃ an ns ar,
        RecsAt st.out (asked hdr qraw rest).length (an ++ ns ++ ar) st.out.length ∧ an.length = st.cn + st.an ∧
        ∀ c ∈ chalRecs w (lowerName qraw), c ∈ an) := by
  obtain ⟨st, k, an, ns, ar, h1, -, h3, h4, h5, h6, h7, -, -, h10, -, -, -, h14⟩ := C60_lookup h hq hdr rest hh 16 (.inl (by omega)) [] _ _
    (.stop hc) hv (by simpa [chainSize] using hs) 1 (by simp) (fun _ => root) (fun _ _ => rfl)
  refine ⟨st, h1, fun hroom => ?_⟩
  have hk : (chalRecs w (lowerName qraw)).length ≤ k := by
    apply Decidable.byContradiction
    intro hlt
    have := h14 z soa rrs rfl rfl ha (by omega)
    omega
  refine ⟨an, ns, ar, by simpa using h3, ?_, ?_⟩
  · simpa using h7.symm
  · intro c hcm
    have : an.Perm (reply w 16 k [] (lowerName qraw) (.final z soa rrs)).answer := by simpa using h4
    rw [this.mem_iff]
    have hne : (chalRecs w (lowerName qraw)) ≠ [] := List.ne_nil_of_mem hcm
    simp only [reply, endReply, finalReply, List.flatMap_nil, List.nil_append, true_and, ha, if_true, List.take_of_length_le hk]
    rw [if_pos (by simp [hne])]
    simp [hcm]

/-- Two challenges for `b.z.`, and room for one answer. -/
def Ex.chalEnv (qraw : List Bytes) (mx : Nat) : Env :=
  { Ex.env qraw with
    thisMax := mx
    chals := fun d => if d = Ex.nm [[98], [122]] then [chalBody (0, 43 :: List.replicate 43 65), chalBody (0, 43 :: List.replicate 43 66)]
      else [] }

/-- The same as a world. -/
def Ex.chalWorld (qraw : List Bytes) : World :=
  { Ex.w qraw with
    chals := fun ls => if ls = [[98], [122]] then [(0, 43 :: List.replicate 43 65), (0, 43 :: List.replicate 43 66)] else [] }

example : Serves [acme, [98], [122]] (Ex.chalEnv [acme, [98], [122]] 512) (Ex.chalWorld [acme, [98], [122]]) Ex.db ∧
    WF [acme, [98], [122]] ∧
    (∀ r d, ¬ Follows (Ex.chalWorld [acme, [98], [122]]) Ex.db 16 (lowerName [acme, [98], [122]]) r d) ∧
    Ends Ex.db (lowerName [acme, [98], [122]]) (.final [[122]] Ex.zoneSoa none) ∧
    (chalRecs (Ex.chalWorld [acme, [98], [122]]) (lowerName [acme, [98], [122]])).length = 2 := by
  have hl : lowerName [acme, [98], [122]] = [acme, [98], [122]] := by decide
  have hn : nodeAt Ex.db [acme, [98], [122]] = none := by decide +kernel
  have hm : Located Ex.db [acme, [98], [122]] (.missing [[122]]) := by
    refine ⟨⟨⟨[acme, [98]], rfl⟩, (Ex.located [98] _ rfl rfl).1.2⟩, ?_, ?_⟩
    · rintro c ⟨h1, h2, h3, ⟨m, hm, hmc⟩, -⟩
      rcases List.suffix_cons_iff.mp h1 with rfl | h1
      · rw [hn] at hm; cases hm
      · rcases List.suffix_cons_iff.mp h1 with rfl | h1
        · cases hm; cases hmc
        · exact h3 (h2.eq_of_length_le h1.length_le)
    · rintro n (h | ⟨-, e, ⟨h1, h2, h3⟩, h4⟩)
      · rw [hn] at h; cases h
      · have hs := h3 [[98], [122]] ⟨[acme], rfl⟩ rfl
        rcases List.suffix_cons_iff.mp h1 with rfl | h1
        · rw [Present, hn] at h2; cases h2
        · have := hs.eq_of_length_le h1.length_le
          subst this
          cases h4
  refine ⟨⟨by rw [hl]; rfl, fun _ i => by simp [Ex.chalEnv, Ex.env], rfl, ?_, fun z => by simp [Ex.chalWorld, Ex.w, Ex.chalEnv, Ex.env],
    Ex.dbOk [acme, [98], [122]]⟩, by decide, ?_, ⟨_, rfl, by simp [Node.rrs], rfl, by rw [hl]; exact hm⟩, by decide +kernel⟩
  · intro ls hw
    by_cases h : ls = [[98], [122]]
    · subst h
      exact ⟨rfl, by simp [Ex.chalWorld]⟩
    · have : encode ls true ≠ Ex.nm [[98], [122]] := fun he => h (encode_inj hw (by decide) he).1
      simp [Ex.chalEnv, Ex.chalWorld, h, this]
  · rintro r d ⟨z, n, b, h1, -⟩
    rw [hl] at h1
    have := Located_unique h1 hm
    cases this

/-- The question `_acme-challenge.b.z. TXT`. -/
def Ex.chalStart : St := { out := asked (List.replicate 12 0) [acme, [98], [122]] [0, 16, 0, 1], qtype := 16 }

/-- The answer count and the size of a lookup. -/
def Ex.size (r : Outcome St) : Outcome (Nat × Nat) := r.map fun st => (st.an, st.out.length)

/-- C62 is false: with room for one of two challenges, the reply holds one of them and is
within the size limit, so it is not marked as truncated. -/
theorem C62_false :
    Ex.size (dbLookup (fun _ => Ex.db) (Ex.chalEnv [acme, [98], [122]] 100) 20 0 Ex.chalStart (Ex.nm [acme, [98], [122]]) false) =
      .ok (1, 93) ∧
    Ex.size (dbLookup (fun _ => Ex.db) (Ex.chalEnv [acme, [98], [122]] 512) 20 0 Ex.chalStart (Ex.nm [acme, [98], [122]]) false) =
      .ok (2, 149) := by decide +kernel

end Gdnsd.Lookup
