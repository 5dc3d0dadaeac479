/-
C96: what `weighted` answers, from the configuration and the states.
-/
import Verif.Wt.AnswerLemmas
namespace Gdnsd.Wt
open Vscf VscfSpec Conf ConfSpec SvcSpec WtSpec
open ResSpec (IsMin IsMax ShareOf)
open Res (Lib all_length all_left isMin_both toPlug others_iff exLib)
open Svc (Addr Req Boot boot Thing)

/-- What is known of a resource that was read. -/
theorem weighted_sets {lib : Lib} {es : List (Entry Val)} {e : Entry Val} {r : Resource} (h : WeightedOf lib es e r) :
    ((∃ s, r.cnames = some s ∧ r.v4 = none ∧ r.v6 = none ∧ ∃ levels vals, NamesOf lib levels vals s) ∨ (r.cnames = none ∧ (r.v4.isSome || r.v6.isSome) = true)) ∧
    (∀ s, r.v4 = some s → ∃ levels vals, SetOf lib false levels vals s) ∧ (∀ s, r.v6 = some s → ∃ levels vals, SetOf lib true levels vals s) := by
  cases h with
  | @split opts n s4 s6 h1 h2 h3 h4 h5 h6 =>
    refine ⟨.inr ⟨rfl, ?_⟩, ?_, ?_⟩
    · cases s4 with
      | some _ => rfl
      | none =>
        cases s6 with
        | some _ => rfl
        | none => exact absurd ⟨h5, h6⟩ h2
    · intro s hs
      dsimp only at hs
      subst hs
      obtain ⟨_, _, _, _, g⟩ := h5
      exact ⟨_, _, g⟩
    · intro s hs
      dsimp only at hs
      subst hs
      obtain ⟨_, _, _, _, g⟩ := h6
      exact ⟨_, _, g⟩
  | direct4 h1 h2 h3 h4 h5 => exact ⟨.inr ⟨rfl, rfl⟩, fun s hs => (by cases hs; exact ⟨_, _, h5⟩), fun s hs => (by cases hs)⟩
  | direct6 h1 h2 h3 h4 h5 => exact ⟨.inr ⟨rfl, rfl⟩, fun s hs => (by cases hs), fun s hs => (by cases hs; exact ⟨_, _, h5⟩)⟩
  | names h1 h2 h3 h4 h5 h6 => exact ⟨.inl ⟨_, rfl, rfl, rfl, _, _, h6⟩, fun s hs => (by cases hs), fun s hs => (by cases hs)⟩

/-- From the configuration to the answers of `weighted`: whatever else asks for monitoring before or after, and for all random
numbers, each resource answers from the states of its own addresses or names for its own service types, what the manual says;
never with a failed assertion, and never with nothing.

Missing: "not a number" and empty keys, see `C95_nan` and `C95_label`. -/
theorem C96_weighted_partial {lib : Lib} {lim lim' top : Plug.Limits} {es : List (Entry Val)} (hc : Clean (.hash es)) (hnan : ResSpec.NoNan lib (.hash es)) (hlab : Labelled (.hash es))
    {rs : List Resource} (hload : load lib lim (some (.hash es)) = .ok (some (rs, lim')))
    {text : Addr → Option Bytes} {st : Bool} {cfg : Option Val} {ces : List (Entry Val)} (he : Entries cfg ces) (hcc : ∀ v, cfg = some v → Clean v)
    (hp : ∀ e ∈ ces, Plain e) {pre post : List Req} {b : Boot} (hb : boot text st cfg (pre ++ (rs.flatMap Resource.reqs ++ post)) = .ok (some b))
    {tbl : List UInt32} (ht : tbl.length = b.regs.length) (h4 : lim'.v4 ≤ top.v4) (h6 : lim'.v6 ≤ top.v6) :
    ∃ f, Published tbl (pre ++ (rs.flatMap Resource.reqs ++ post)) b.indices f ∧
      ∀ (j : Nat) r res rnd, rs[j]? = some r → Plug.Fresh res → Plug.Rnd.Legal rnd →
        let w := r.numbered (b.indices.drop (pre.length + ((rs.take j).flatMap Resource.reqs).length))
        (∃ s rv c d, r.cnames = some s ∧ Plug.wResolve rnd top tbl w res = .ok (rv, { res with cname := some c.dname, draws := d }) ∧
          c ∈ s.names ∧ (enoughNames f s = true → healthy f s.svcs (nameOf c) = true) ∧ Mon.isDown rv = !enoughNames f s ∧
          IsMin ((2 ^ 28 - 1) :: nameTtls f s) (Mon.ttl rv)) ∨
        (∃ rv a4 a6 d, r.cnames = none ∧ Plug.wResolve rnd top tbl w res = .ok (rv, { res.push ((a4 ++ a6).map toPlug) with draws := d }) ∧
          r.v4.elim (a4 = []) (Answer f · a4) ∧ r.v6.elim (a6 = []) (Answer f · a6) ∧ a4 ++ a6 ≠ [] ∧
          Mon.isDown rv = (r.v4.elim false (fun s => !enough f s) || r.v6.elim false (fun s => !enough f s)) ∧
          IsMin ((2 ^ 28 - 1) :: (r.v4.elim [] (setTtls f) ++ r.v6.elim [] (setTtls f))) (Mon.ttl rv)) := by
  obtain ⟨f, hf⟩ := states_exist he hcc hp hb ht
  refine ⟨f, hf, ?_⟩
  intro j r res rnd hj hres hrnd
  dsimp only
  obtain ⟨rest, k1, k2, k3, k4, k5, k6⟩ := ((C95_weighted_partial lib lim es hc hnan hlab).2 rs lim').mp hload
  have hmem : r ∈ rs := List.mem_of_getElem? hj
  obtain ⟨e, hem, hmo⟩ := all_left k2 hmem
  obtain ⟨hwhat, hs4, hs6⟩ := weighted_sets hmo
  have hpub := published_part (published_append hf).2 hj
  rw [List.drop_drop] at hpub
  generalize b.indices.drop (pre.length + ((rs.take j).flatMap Resource.reqs).length) = is at hpub
  obtain ⟨hpc, hpa⟩ := published_append hpub
  rcases hwhat with ⟨s, hn, n4, n6, levels, vals, hno⟩ | ⟨hn, hsome⟩
  · left
    rw [hn] at hpc
    obtain ⟨rv, c, d, g1, g2, g3, g4, g5⟩ := names_answer (lim := top) hno hpc hrnd hres
    refine ⟨s, rv, c, d, hn, ?_, g2, g3, g4, g5⟩
    unfold Resource.numbered
    rw [hn, n4, n6]
    exact g1
  · right
    rw [hn] at hpa
    change Published tbl (r.v4.elim [] ASet.reqs ++ r.v6.elim [] ASet.reqs) is f at hpa
    obtain ⟨hp4, hp6⟩ := published_append hpa
    have hq4 : ∀ s, r.v4 = some s → Published tbl s.reqs is f := by
      intro s hs
      rw [hs] at hp4
      exact hp4
    have hq6 : ∀ s, r.v6 = some s → Published tbl s.reqs (is.drop (r.v4.elim [] ASet.reqs).length) f := by
      intro s hs
      rw [hs] at hp6
      exact hp6
    have hg4 : ∀ s, r.v4 = some s → ∃ c : Plug.WConf, c.groups = groupSlots s.svcs.length s.groups is ∧ c.multi = s.multi ∧ c.Gives top tbl false (s.numbered is) := by
      intro s hs
      obtain ⟨levels, vals, h⟩ := hs4 s hs
      refine numbered_gives h (hq4 s hs) fun n hn => Nat.le_trans (k5.2 _ (List.mem_cons_of_mem _ ?_)) h4
      exact List.mem_flatMap.mpr ⟨s, List.mem_filterMap.mpr ⟨r, hmem, hs⟩, hn⟩
    have hg6 : ∀ s, r.v6 = some s → ∃ c : Plug.WConf, c.groups = groupSlots s.svcs.length s.groups (is.drop (r.v4.elim [] ASet.reqs).length) ∧ c.multi = s.multi ∧
        c.Gives top tbl true (s.numbered (is.drop (r.v4.elim [] ASet.reqs).length)) := by
      intro s hs
      obtain ⟨levels, vals, h⟩ := hs6 s hs
      refine numbered_gives h (hq6 s hs) fun n hn => Nat.le_trans (k6.2 _ (List.mem_cons_of_mem _ ?_)) h6
      exact List.mem_flatMap.mpr ⟨s, List.mem_filterMap.mpr ⟨r, hmem, hs⟩, hn⟩
    have hnum : r.numbered is = { v4 := r.v4.map fun s => s.numbered is, v6 := r.v6.map fun s => s.numbered (is.drop (r.v4.elim [] ASet.reqs).length) } := by
      unfold Resource.numbered
      rw [hn]
      rfl
    rw [hnum]
    generalize is.drop (r.v4.elim [] ASet.reqs).length = is6 at *
    have hfam : ∀ (o : Option ASet) (is : List Nat) (v6 : Bool), (∀ s, o = some s → Published tbl s.reqs is f) →
        (∀ s, o = some s → ∃ c : Plug.WConf, c.groups = groupSlots s.svcs.length s.groups is ∧ c.multi = s.multi ∧ c.Gives top tbl v6 (s.numbered is)) →
        ∃ p : Option (Plug.WConf × Plug.WSet), p.isSome = o.isSome ∧ p.map (·.2) = o.map (fun s => s.numbered is) ∧ (∀ q, p = some q → q.1.Gives top tbl v6 q.2) ∧
          (∀ as, p.elim (as = []) (fun p => Plug.WeightedAnswer tbl p.1.groups p.2 as) → ∃ bs, as = bs.map toPlug ∧ o.elim (bs = []) (Answer f · bs) ∧ (o.isSome = true → bs ≠ [])) ∧
          p.elim false (fun p => !p.2.enough tbl p.1.groups) = o.elim false (fun s => !enough f s) ∧
          IsMin ((2 ^ 28 - 1) :: o.elim [] (setTtls f)) (p.elim (2 ^ 28 - 1) fun p => Plug.minTtl tbl (Plug.wSlots p.1.groups)) := by
      intro o is v6 hq hg
      cases o with
      | none => exact ⟨none, rfl, rfl, nofun, fun as h => ⟨[], h, rfl, nofun⟩, rfl, by simp, by simp⟩
      | some s =>
        obtain ⟨c, c1, _, c3⟩ := hg s rfl
        have hpq := hq s rfl
        refine ⟨some (c, s.numbered is), rfl, rfl, fun q h => by cases h; exact c3, ?_, ?_, ?_⟩
        · intro as h
          simp only [Option.elim] at h
          rw [c1] at h
          obtain ⟨bs, e1, e2⟩ := numbered_answer hpq h
          exact ⟨bs, e1, e2, fun _ => e2.1⟩
        · simp only [Option.elim, c1, numbered_enough hpq]
        · simp only [Option.elim, c1]
          exact numbered_ttl hpq
    obtain ⟨p4, f1, f2, f3, f4, f5, f6⟩ := hfam r.v4 is false hq4 hg4
    obtain ⟨p6, f1', f2', f3', f4', f5', f6'⟩ := hfam r.v6 is6 true hq6 hg6
    obtain ⟨rv, a4, a6, d, g1, g2, g3, g4, g5, _⟩ := Plug.C30_weighted rnd hrnd top tbl p4 p6 res hres (by rw [f1, f1']; exact hsome) (by
      intro v6 q hq
      cases v6 with
      | false => exact f3 q hq
      | true => exact f3' q hq)
    obtain ⟨b4, rfl, q1, q2⟩ := f4 a4 g2
    obtain ⟨b6, rfl, q3, q4⟩ := f4' a6 g3
    rw [f2, f2', ← List.map_append] at g1
    rw [f5, f5'] at g4
    refine ⟨rv, b4, b6, d, hn, g1, q1, q3, ?_, g4, ?_⟩
    · intro h0
      obtain ⟨z1, z2⟩ := List.append_eq_nil_iff.mp h0
      cases h : r.v4.isSome with
      | true => exact q2 h z1
      | false =>
        rw [h] at hsome
        exact q4 hsome z2
    · rw [g5]
      exact isMin_both f6 f6'

/-- Whatever is served was configured, and it is up unless too little weight is up. -/
theorem C96_served {f : States} {s : ASet} {as : List Addr} (h : Answer f s as) : ∀ a ∈ as, ∃ g ∈ s.groups, ∃ p ∈ g, p.1 = a ∧
    (s.up.toNat ≤ weightUp f s → ∀ svc ∈ s.svcs, Mon.isDown (f svc (.addr a)) = false) := by
  intro a ha
  have key : ∃ g ∈ s.groups, a ∈ eligible f s g := by
    obtain ⟨_, h⟩ := h
    split at h
    · obtain ⟨l, hl, hal⟩ := h.mem a ha
      obtain ⟨g, hg, rfl⟩ := List.mem_map.1 hl
      exact ⟨g, hg, hal⟩
    · obtain ⟨g, hg, hs⟩ := h
      exact ⟨g, hg, hs.subset ha⟩
  obtain ⟨g, hg, hm⟩ := key
  refine ⟨g, hg, ?_⟩
  unfold eligible at hm
  obtain ⟨p, hp, rfl⟩ := List.mem_map.mp hm
  by_cases he : enough f s = true
  · rw [if_pos he] at hp
    obtain ⟨h1, h2⟩ := List.mem_filter.mp hp
    refine ⟨p, h1, rfl, fun _ svc hsvc => ?_⟩
    have := List.all_eq_true.mp h2 svc hsvc
    simpa using this
  · rw [if_neg he] at hp
    exact ⟨p, hp, rfl, fun hle => absurd (decide_eq_true hle) he⟩

/-! ### Concrete cases -/

theorem exWeighted_boot : ∃ b, boot (fun a => some a.bytes) false (some (.hash Svc.exCfg)) ([.admin (str "dc")] ++ (exSets.flatMap Resource.reqs ++ [])) = .ok (some b) ∧
    b.indices = [0, 1, 2, 3, 4, 5] ∧ b.regs.length = 6 :=
  ⟨_, by with_unfolding_all rfl, by decide +kernel, by decide +kernel⟩

/-- The second address of "web" is down and all the weight is needed, so all addresses may be answered. -/
example : ∃ f : States, f (str "up") (.addr ⟨false, [192, 0, 2, 2], []⟩) = 0x80000005 ∧
    ∀ rnd : Plug.Rnd, rnd.Legal → ∃ rv as d, Plug.wResolve rnd {} [1, 7, 0x80000005, 7, 7, 7] ((exSets.head (by decide)).numbered [1, 2, 3, 4, 5]) {} =
      .ok (rv, { Plug.Result.push {} (as.map toPlug) with draws := d }) ∧ as ≠ [] ∧ Mon.isDown rv = true := by
  obtain ⟨b, hb, hi, hl⟩ := exWeighted_boot
  obtain ⟨f, h1, h2⟩ := C96_weighted_partial (top := {}) exWeighted_clean exWeighted_nan exWeighted_labels exWeighted_load (.inr rfl) (fun v hv => by cases hv; exact Svc.exClean) Svc.exPlain hb
    (tbl := [1, 7, 0x80000005, 7, 7, 7]) (by rw [hl]; rfl) (by decide) (by decide)
  have e1 : f (str "up") (.addr ⟨false, [192, 0, 2, 2], []⟩) = 0x80000005 := by
    obtain ⟨k, e4, e5⟩ := h1 2 (str "up") (.addr ⟨false, [192, 0, 2, 2], []⟩) (by decide +kernel)
    rw [hi] at e4
    cases e4
    exact (Option.some.inj e5).symm
  refine ⟨f, e1, fun rnd hrnd => ?_⟩
  rcases h2 0 _ {} rnd rfl ⟨rfl, rfl, rfl⟩ hrnd with ⟨s, _, _, _, hn, _⟩ | ⟨rv, a4, a6, d, _, g1, g2, g3, g4, g5, _⟩
  · cases hn
  · rw [hi] at g1
    refine ⟨rv, a4 ++ a6, d, g1, g4, ?_⟩
    rw [g5]
    have e2 : Mon.isDown (0x80000005 : UInt32) = true := by decide
    have e3 : itemUp f [str "up"] (⟨false, [192, 0, 2, 2], []⟩, 20) = false := by
      unfold itemUp healthy
      rw [List.all_cons, e1, e2]
      rfl
    have e4 : enough f ⟨[[(⟨false, [192, 0, 2, 1], []⟩, 10), (⟨false, [192, 0, 2, 2], []⟩, 20)], [(⟨false, [192, 0, 2, 3], []⟩, 5)]], [str "up"], true, 35⟩ = false := by
      unfold enough weightUp
      simp only [List.flatten_cons, List.flatten_nil, List.append_nil, List.cons_append, List.nil_append, List.filter_cons, e3, Bool.false_eq_true, if_false, List.filter_nil]
      refine decide_eq_false ?_
      split <;> split <;> decide
    simp only [Option.elim, e4]
    rfl

end Gdnsd.Wt
