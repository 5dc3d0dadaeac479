/-
Properties of reloading a map while lookups run (C35) and of automatic lists (C36).
-/
import Verif.Maps.StepLemmas
import Verif.Maps.AutoLemmas
namespace Gdnsd.Maps
open Gdnsd.Geo

theorem reach_inv {sort : List Net → List Net} {dflt maps} (hs : SortOk sort) {s0 s : State} (h0 : Inv sort dflt maps s0)
    (h : Reach sort s0 s) : Inv sort dflt maps s ∧ s.ignoreEcs = s0.ignoreEcs := by
  induction h with
  | refl => exact ⟨h0, rfl⟩
  | @step s1 s2 a h1 h2 h3 ih =>
    have := step_ok hs ih.1 a h2
    rw [h3] at this
    exact ⟨this.1, this.2.trans ih.2⟩

/-- C35: whatever the interleaving of reloads and lookups, nothing freed is read and no
assertion fails: no lookup uses a freed tree, list array or list, and no index is outside
of the lists. The one exception is the start of an update with more than 132000 networks
(node limit of the tree). -/
theorem C35_safe {sort : List Net → List Net} (hs : SortOk sort) {dflt : Bytes} {maps : List Bytes} {n : Nat} {ign : Bool} {s0 s : State}
    (h0 : init dflt maps n ign = .ok (some s0)) (h : Reach sort s0 s) (a : Action) (ha : a.Wf ign)
    (hub : step sort s a = .ub) : a = .begin ∧ ∃ nets, s.nets = some nets ∧ 132000 < nets.length + (s.geo.elim 0 List.length) := by
  rcases init_ok (sort := sort) (dflt := dflt) (maps := maps) (n := n) (ign := ign) with h1 | ⟨s1, h1, h2, h3⟩
  · rw [h0] at h1; cases h1
  rw [h0] at h1
  obtain rfl := Option.some.inj (Outcome.ok.inj h1)
  obtain ⟨g1, g2⟩ := reach_inv hs h2 h
  have := step_ok hs g1 a (by rw [g2, h3]; exact ha)
  rw [hub] at this
  exact this

/-- C35: starting itself is safe. -/
theorem C35_init_safe (dflt : Bytes) (maps : List Bytes) (n : Nat) (ign : Bool) : init dflt maps n ign ≠ .ub := by
  rcases init_ok (sort := id) (dflt := dflt) (maps := maps) (n := n) (ign := ign) with h | ⟨s, h, _⟩ <;> rw [h] <;> simp

/-- C35: whatever the interleaving, the list that a lookup comes up with is the one that
the index meant when the tree was built from the configuration `m`, and it is the list
that `m` asks for: that of a configured network containing the client, or what the
database says, or the default. -/
theorem C35_meaning {sort : List Net → List Net} (hs : SortOk sort) {dflt : Bytes} {maps : List Bytes} {n : Nat} {ign : Bool} {s0 s : State}
    (h0 : init dflt maps n ign = .ok (some s0)) (h : Reach sort s0 s) {r : Nat} {c : Client} {t d : Nat} {b : Bytes}
    (hr : s.readers[r]? = some (.got c t d b)) :
    ∃ m, s.made[t]? = some m ∧ m.lists[d]? = some b ∧ m.Answer dflt maps (target (c.addr ign)) b := by
  rcases init_ok (sort := sort) (dflt := dflt) (maps := maps) (n := n) (ign := ign) with h1 | ⟨s1, h1, h2, h3⟩
  · rw [h0] at h1; cases h1
  rw [h0] at h1
  obtain rfl := Option.some.inj (Outcome.ok.inj h1)
  obtain ⟨g1, g2⟩ := reach_inv hs h2 h
  have := g1.readers r _ hr
  rw [← h3, ← g2]
  exact this.2

/-- C35: no reload is lost. When the reload thread is in its event loop and its timer is not
running, the tree that new lookups use was made from the networks and the database that
were last loaded successfully. -/
theorem C35_not_lost {sort : List Net → List Net} (hs : SortOk sort) {dflt : Bytes} {maps : List Bytes} {n : Nat} {ign : Bool} {s0 s : State}
    (h0 : init dflt maps n ign = .ok (some s0)) (h : Reach sort s0 s) (hst : s.started = true) (hi : s.writer.isIdle = true)
    (ht : s.timer = false) : ∃ t m, s.tree = some t ∧ s.made[t]? = some m ∧ m.nets = s.netsCfg ∧ m.geo = s.geoCfg := by
  rcases init_ok (sort := sort) (dflt := dflt) (maps := maps) (n := n) (ign := ign) with h1 | ⟨s1, h1, h2, h3⟩
  · rw [h0] at h1; cases h1
  rw [h0] at h1
  obtain rfl := Option.some.inj (Outcome.ok.inj h1)
  obtain ⟨g1, g2⟩ := reach_inv hs h2 h
  exact g1.done (Or.inl (g1.armed hst hi ht))

/-! ### A run -/

/-- Several steps. -/
def run (sort : List Net → List Net) (s : State) : List Action → Outcome (Option State)
  | [] => .ok (some s)
  | a :: as => (step sort s a).bind fun | none => .ok none | some s' => run sort s' as

theorem run_reach {sort : List Net → List Net} : ∀ {as : List Action} {s s' : State}, (∀ a ∈ as, ∀ i, a.Wf i) → run sort s as = .ok (some s') → Reach sort s s' := by
  suffices H : ∀ (as : List Action) (s0 s s' : State), Reach sort s0 s → (∀ a ∈ as, ∀ i, a.Wf i) → run sort s as = .ok (some s') → Reach sort s0 s' from
    fun {as s s'} h1 h2 => H as s s s' .refl h1 h2
  intro as
  induction as with
  | nil => intro s0 s s' h0 _ h; obtain rfl := Option.some.inj (Outcome.ok.inj h); exact h0
  | cons a as ih =>
    intro s0 s s' h0 hw h
    unfold run at h
    cases hs : step sort s a with
    | ub => rw [hs] at h; cases h
    | ok o =>
      rw [hs, Outcome.bind_ok] at h
      cases o with
      | none => cases h
      | some s1 => exact ih s0 s1 s' (.step h0 (hw a List.mem_cons_self _) hs) (fun x hx => hw x (List.mem_cons_of_mem _ hx)) h

/-- The list a reader got. -/
def Phase.result : Phase → Option Bytes
  | .got _ _ _ b => some b
  | _ => none

/-- A client in 10.1.0.0/16. -/
def someone : Client := ⟨.v4 0, .v4 0x0A010203, 24⟩

/-- Two lookups of the same client overlap a reload that moves 10.0.0.0/8 from `[2]` to the
new list `[3]` and adds a network: the first has looked at the old tree before the new one
is published and gets its list afterwards; the second starts after the publication, while
the first still blocks the old tree's destruction. -/
def overlap : List Action :=
  [.nets (some [.v4 [10, 0, 0, 0] 8 [2]]), .begin, .assignTree, .sync, .finish, .start,
   .enter 0 someone, .loadTree 0, .look 0,
   .nets (some [.v4 [11, 0, 0, 0] 8 [3, 1], .v4 [10, 0, 0, 0] 8 [3]]), .begin, .assignTree, .sync,
   .enter 1 someone, .loadTree 1, .look 1,
   .loadLists 0, .getList 0, .use 0, .loadLists 1, .getList 1, .use 1]

/-- The run above is possible, and each lookup gets the list for its tree. -/
example : (init [1, 2, 3] [[2, 1]] 2 false).bind (fun o => match o with
      | none => .ok none
      | some s => (run isort s overlap).map fun o => o.map fun s => (s.readers.map Phase.result, s.made.length, s.netsCfg.length)) =
    .ok (some ([some [2], some [3]], 2, 2)) := by decide +kernel

/-- Its actions are well-formed. -/
example : ∀ a ∈ overlap, ∀ i, a.Wf i := by
  intro a ha i
  simp only [overlap, List.mem_cons, List.not_mem_nil, or_false] at ha
  rcases ha with rfl | rfl | rfl | rfl | rfl | rfl | rfl | rfl | rfl | rfl | rfl | rfl | rfl | rfl | rfl | rfl | rfl | rfl | rfl | rfl | rfl | rfl <;>
    first
    | trivial
    | (cases i; exact (by decide : (0x0A010203 : Nat) < 4294967296); exact (by decide : (0 : Nat) < 4294967296))
    | (intro n hn; simp only [List.mem_cons, List.not_mem_nil, or_false] at hn; rcases hn with rfl | rfl <;> exact ⟨rfl, by decide⟩)
    | (intro n hn; simp only [List.mem_cons, List.not_mem_nil, or_false] at hn; subst hn; exact ⟨rfl, by decide⟩)

/-- The reload cannot finish before the first reader leaves its critical section; then it
does. -/
example : (init [1, 2, 3] [[2, 1]] 2 false).bind (fun o => match o with
      | none => .ok none
      | some s => (run isort s (overlap ++ [.finish])).map fun o => o.map fun _ => ()) = .ok none ∧
    (init [1, 2, 3] [[2, 1]] 2 false).bind (fun o => match o with
      | none => .ok none
      | some s => (run isort s (overlap ++ [.leave 0, .finish])).map fun o => o.map fun s => (s.trees.map Option.isSome, s.objs.map Option.isSome)) =
    .ok (some ([false, true], [false, true])) := by decide +kernel

/-! ### Automatic lists -/

/-- C36: with the default list of all datacenters in any order, the automatic list for a
location has exactly as many datacenters as the limit says, each at most once; it is
ordered by distance, ties in the order of the default list; and no datacenter that is left
out is closer than one that is in. -/
theorem C36_order_partial {n limit : Nat} {list0 : List Nat} {lt : Nat → Nat → Bool} (hn : n ≤ 254) (h0 : list0.Perm (List.range' 1 n)) (hlim : limit ≤ n)
    (hw : Weak lt) : ∃ l, cityList n limit list0 lt = .ok l ∧ l.length = limit ∧ l.Nodup ∧ (∀ a ∈ l, 1 ≤ a ∧ a ≤ n) ∧
      l.Pairwise (Before lt list0) ∧ ∀ a ∈ l, ∀ b, 1 ≤ b → b ≤ n → b ∉ l → Before lt list0 a b := by
  have hlen : list0.length = n := by rw [h0.length_eq]; simp
  have htake : list0.take n = list0 := by rw [← hlen]; exact List.take_length
  have hmem : ∀ k, k ∈ list0 ↔ 1 ≤ k ∧ k ≤ n := by
    intro k
    rw [h0.mem_iff, List.mem_range'_1]
    omega
  have hnd : list0.Nodup := h0.nodup_iff.mpr (List.nodup_range' (step := 1) (by omega))
  refine ⟨_, cityList_ok lt hn (by omega) hlim (by rw [htake]; exact fun k hk => (hmem k).mp hk), ?_⟩
  rw [htake]
  have hp := insSort_perm lt list0 []
  have hsort : (insSort lt [] list0).Pairwise (Before lt list0) :=
    insSort_sorted hw (pos := list0.idxOf) (by simp) (idxOf_lt_pairwise hnd) List.Pairwise.nil
  have hl : (insSort lt [] list0).length = n := by rw [hp.length_eq]; simpa using hlen
  have hmem' : ∀ k, k ∈ insSort lt [] list0 ↔ 1 ≤ k ∧ k ≤ n := by
    intro k; rw [hp.mem_iff, List.nil_append]; exact hmem k
  have hnd' : (insSort lt [] list0).Nodup := hp.nodup_iff.mpr (by simpa using hnd)
  refine ⟨by rw [List.length_take]; omega, hnd'.sublist (List.take_sublist _ _), fun a ha => (hmem' a).mp (List.mem_of_mem_take ha),
    hsort.sublist (List.take_sublist _ _), ?_⟩
  intro a ha b hb1 hb2 hb
  have hbm : b ∈ insSort lt [] list0 := (hmem' b).mpr ⟨hb1, hb2⟩
  rw [← List.take_append_drop limit (insSort lt [] list0)] at hbm hsort
  rcases List.mem_append.mp hbm with h | h
  · exact absurd h hb
  · exact (List.pairwise_append.mp hsort).2.2 a ha b h

/-- C36: only datacenters with coordinates are in the list, when those without count as
infinitely far. -/
theorem C36_only_located_partial {n numAuto : Nat} {list0 : List Nat} {lt : Nat → Nat → Bool} (cfg : Option Nat) (hn : n ≤ 254) (h0 : list0.Perm (List.range' 1 n))
    (hw : Weak lt) {located : List Nat} (hl : located.Nodup) (hl' : ∀ a ∈ located, 1 ≤ a ∧ a ≤ n) (hnum : numAuto = located.length)
    (hfar : ∀ a ∈ located, ∀ b, b ∉ located → lt a b = true) :
    ∃ l, cityList n (autoLimit numAuto cfg) list0 lt = .ok l ∧ l.length = autoLimit numAuto cfg ∧ ∀ a ∈ l, a ∈ located := by
  have hle : autoLimit numAuto cfg ≤ numAuto := by
    unfold autoLimit
    cases cfg with
    | none => dsimp only; split <;> omega
    | some v => dsimp only; split <;> omega
  have hsub : located ⊆ List.range' 1 n := by
    intro a ha
    have := hl' a ha
    rw [List.mem_range'_1]; omega
  have hcount : located.length ≤ n := by
    have := hl.length_le_of_subset hsub
    simpa using this
  obtain ⟨l, h1, h2, h3, h4, h5, h6⟩ := C36_order_partial hn h0 (by omega : autoLimit numAuto cfg ≤ n) hw
  refine ⟨l, h1, h2, fun b hb => Classical.byContradiction fun hnb => ?_⟩
  have hall : (b :: located) ⊆ l := by
    intro a ha
    rcases List.mem_cons.mp ha with rfl | ha
    · exact hb
    · refine Classical.byContradiction fun hna => ?_
      have hab := hfar a ha b hnb
      rcases h6 b hb a (hl' a ha).1 (hl' a ha).2 hna with h | h
      · have := hw.asymm a b hab
        rw [this] at h; cases h
      · rw [hab] at h; cases h.1
  have hnd : (b :: located).Nodup := List.nodup_cons.mpr ⟨hnb, hl⟩
  have := hnd.length_le_of_subset hall
  rw [List.length_cons] at this
  omega

/-- C36: the limit: as configured, but at most the number of datacenters with coordinates;
zero means all; the default is three. -/
theorem C36_limit (numAuto : Nat) : (∀ v, v ≠ 0 → autoLimit numAuto (some v) = min v numAuto) ∧ autoLimit numAuto (some 0) = numAuto ∧
    autoLimit numAuto none = min 3 numAuto := by
  refine ⟨fun v hv => ?_, by simp [autoLimit], ?_⟩
  · unfold autoLimit; dsimp only; split <;> omega
  · unfold autoLimit; dsimp only; split <;> omega

/-- C36 needs the default list to be complete: with one that is shorter (the `default` of
the `map` stanza), every automatic list is made by reading past its end. -/
theorem C36_false_default {n limit : Nat} {list0 : List Nat} (lt : Nat → Nat → Bool) (h : list0.length < n) : cityList n limit list0 lt = .ub := by
  unfold cityList
  by_cases hn : n ≤ 254
  · rw [show assert (decide (n ≤ 254)) = .ok () from by simp [assert, hn], Outcome.bind_ok, if_pos h]
  · rw [show assert (decide (n ≤ 254)) = .ub from by simp [assert, hn]]; rfl

/-- Distances in whole numbers. -/
def byDist (dist : Nat → Nat) (a b : Nat) : Bool := decide (dist a < dist b)

example (dist : Nat → Nat) : Weak (byDist dist) :=
  ⟨by simp [byDist], by simp only [byDist, decide_eq_true_eq, decide_eq_false_iff_not]; omega,
   by simp only [byDist, decide_eq_false_iff_not]; omega⟩

/-- Five datacenters, the third without coordinates, two equally far. -/
example : cityList 5 3 [1, 2, 3, 4, 5] (byDist fun | 1 => 70 | 2 => 20 | 3 => 1000 | 4 => 70 | _ => 30) = .ok [2, 5, 1] := by decide +kernel

/-- The same map with `default => [2, 1]`. -/
example : cityList 5 3 [2, 1] (byDist fun | 1 => 70 | 2 => 20 | 3 => 1000 | 4 => 70 | _ => 30) = .ub := by decide +kernel

end Gdnsd.Maps
