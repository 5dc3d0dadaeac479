/-
C95: the resources of `weighted`.
-/
import Verif.Wt.Load
namespace Gdnsd.Wt
open Vscf VscfSpec Conf ConfSpec SvcSpec WtSpec
open ResSpec hiding SetOf sizes
open Res hiding ASet most params params_zero params_nodup View configAddrs_set configAuto configRes optStanza Good configAuto_view opt_good configRes_good most_from most_max most_le addrOf reqsOf slots
open Svc (Addr)

/-- What `weighted` makes of its configuration: for every configuration in which no `up_thresh` is "not a number" and no key is
empty, the resources are what the manual says, groups or single addresses or names, in their order, each with the parameters
of the innermost hash that has them; there is an error exactly if some resource says nothing; and the limits cover what answers
may have.

Missing: "not a number", see `C95_nan`; empty keys, see `C95_label`; no configuration at all, see `C95_none`. -/
theorem C95_weighted_partial (lib : Lib) (lim : Plug.Limits) (es : List (Entry Val)) (hc : Clean (.hash es)) (hnan : NoNan lib (.hash es)) (hlab : Labelled (.hash es)) :
    load lib lim (some (.hash es)) ≠ .ub ∧
    ∀ rs lim', load lib lim (some (.hash es)) = .ok (some (rs, lim')) ↔
      ∃ rest, Others wtParams es rest ∧ All (WeightedOf lib es) rest rs ∧ (∀ n ∈ allSizes (·.v4) rs, n ≤ 360) ∧ (∀ n ∈ allSizes (·.v6) rs, n ≤ 360) ∧
        IsMax (lim.v4 :: allSizes (·.v4) rs) lim'.v4 ∧ IsMax (lim.v6 :: allSizes (·.v6) rs) lim'.v6 := by
  have hg : Good lib (.hash es) := ⟨hc, hnan, hlab⟩
  obtain ⟨hn, hf, hco⟩ := clean_hash hc
  obtain ⟨es1, h1, h2⟩ := handDown_ok params [] es params_zero (handed_start (cleanOf_sound hco))
  simp only [List.nil_append] at h2
  have hlen : es.length - present es params = (others params es).length := by
    have := present_length hn params_nodup
    omega
  have h3 := handed_others h2
  have hun := handed_unmarked hf h2
  have hone : ∀ a b, a ∈ others params es → b ∈ others params es1 → Handed params params es a b →
      configRes lib es1 b ≠ .ub ∧ ∀ r, configRes lib es1 b = .ok (some r) ↔ WeightedOf lib es a r :=
    fun a b ha _ h => configRes_ok hg h2 (List.mem_filter.mp ha).1 h
  obtain ⟨o, g1, g2⟩ := resLoop_ok (one := configRes lib es1) (others params es1) (others params es).length (by rw [all_length h3]; exact Nat.le_refl _)
    (fun b hb => by
      obtain ⟨a, ha, h⟩ := all_left h3 hb
      exact (hone a b ha hb h).1)
  have hrs : ∀ rs, o = some rs ↔ ∃ rest, Others wtParams es rest ∧ All (WeightedOf lib es) rest rs := by
    intro rs
    rw [g2 rs, all_through h3 (P := WeightedOf lib es) fun a b ha hb h => (hone a b ha hb h).2]
    constructor
    · intro h; exact ⟨_, others_iff.mpr rfl, h⟩
    · rintro ⟨rest, k1, k2⟩
      rw [others_iff.mp k1] at k2
      exact k2
  have hload : load lib lim (some (.hash es)) = .ok (o.bind fun rs => (Plug.addrMax lim (most (·.v4) rs) (most (·.v6) rs)).map fun lim' => (rs, lim')) := by
    unfold load
    simp only [h1, Outcome.bind_ok, hlen]
    have hin : (if (others params es).length = 0 then Outcome.ok (some []) else resLoop (configRes lib es1) (others params es).length (unmarked es1)) = .ok o := by
      split
      · rename_i h0
        have hnil : others params es1 = [] := List.length_eq_zero_iff.mp (by rw [all_length h3]; exact h0)
        rw [hnil] at g1
        cases hh : (others params es).length <;> rw [hh] at g1 <;> simp only [resLoop, Outcome.ok.injEq] at g1 <;> rw [g1]
      · rw [hun, g1]
    rw [hin]
    cases o <;> rfl
  rw [hload]
  refine ⟨nofun, fun rs lim' => ?_⟩
  have hlim : Plug.addrMax lim (most (·.v4) rs) (most (·.v6) rs) = some lim' ↔ (∀ n ∈ allSizes (·.v4) rs, n ≤ 360) ∧ (∀ n ∈ allSizes (·.v6) rs, n ≤ 360) ∧
        IsMax (lim.v4 :: allSizes (·.v4) rs) lim'.v4 ∧ IsMax (lim.v6 :: allSizes (·.v6) rs) lim'.v6 := by
    rw [addrMax_iff, top_le (most_top _ rs), top_le (most_top _ rs), top_max (most_top _ rs), top_max (most_top _ rs)]
  constructor
  · intro h
    cases o with
    | none => cases h
    | some rs' =>
      simp only [Option.bind_some, Outcome.ok.injEq, Option.map_eq_some_iff, Prod.mk.injEq] at h
      obtain ⟨l, k1, rfl, rfl⟩ := h
      obtain ⟨rest, k2, k3⟩ := (hrs rs').mp rfl
      exact ⟨rest, k2, k3, hlim.mp k1⟩
  · rintro ⟨rest, k1, k2, k3⟩
    rw [(hrs rs).mpr ⟨rest, k1, k2⟩]
    simp only [Option.bind_some, hlim.mpr k3, Option.map_some]

theorem share_range {lib : Lib} {o : Option Val} {m k : Nat} (h : ShareOf lib o m k) : 0 < m ∧ m ≤ 2 ^ k := by
  cases o with
  | none =>
    obtain ⟨rfl, rfl⟩ := h
    decide
  | some v =>
    obtain ⟨_, _, _, _, h4, h5⟩ := h
    exact ⟨h4, h5⟩

/-- Every set has 1 to 64 groups of 1 to 64 addresses of its family with weights from 1 to 1048575, no sum of weights overflows,
and the weight that must be up is from 1 to all. So no limit of answers is ever exceeded. -/
theorem C95_ranges (lib : Lib) (v6 : Bool) (levels : List (List (Entry Val))) (vals : List Val) (s : ASet) (h : SetOf lib v6 levels vals s) :
    s.groups ≠ [] ∧ s.groups.length ≤ 64 ∧ (∀ g ∈ s.groups, g ≠ [] ∧ g.length ≤ 64 ∧ ∀ p ∈ g, p.1.v6 = v6 ∧ 1 ≤ p.2.toNat ∧ p.2.toNat ≤ 1048575) ∧
      1 ≤ s.up.toNat ∧ s.up.toNat ≤ total (s.groups.flatten.map (·.2)) ∧ total (s.groups.flatten.map (·.2)) < 2 ^ 32 ∧ ∀ n ∈ sizes s, n ≤ 64 := by
  have hr := items_ranges h.some h.few h.items
  obtain ⟨o, m, k, _, h2, h3⟩ := h.share
  obtain ⟨hm, hk⟩ := share_range h2
  obtain ⟨w, n, _, _, _, _, _, h6, h7, h8, h9, h10⟩ := Plug.mkSet_spec (plain_ok hr) s.multi hm hk
  rw [plain_weight] at h6 h9 h10
  rw [h6] at h3
  cases h3
  refine ⟨hr.some, hr.few, hr.groups, h8, h9, h10, ?_⟩
  intro n hn
  unfold sizes at hn
  split at hn
  · rw [List.mem_singleton] at hn
    subst hn
    exact hr.few
  · obtain ⟨g, hg, rfl⟩ := List.mem_map.mp hn
    exact (hr.groups g hg).2.1

/-- Without any configuration an assertion fails: `load_config(NULL)` is called for plugins that other plugins use. -/
theorem C95_none (lib : Lib) (lim : Plug.Limits) : load lib lim none = .ub := rfl

/-! ### Concrete cases -/

theorem labelled_flat {v : Val} (h : ∀ es, v ≠ .hash es) : Labelled v := by
  intro fs hw
  cases hw with
  | refl => exact absurd rfl (h fs)
  | child => exact absurd rfl (h _)

theorem labelled_hash {es : List (Entry Val)} (h : ∀ e ∈ es, e.key ≠ []) (hs : ∀ e ∈ es, Labelled e.val) : Labelled (.hash es) := by
  intro fs hw
  cases hw with
  | refl => exact h
  | child he hw => exact hs _ he _ hw

/-- `multi => true, web => { addrs_v4 => { up_thresh => 1, one => { a => [ 192.0.2.1, 10 ], b => [ 192.0.2.2, 20 ] },
two => { c => [ 192.0.2.3, 5 ] } } }, six => { a => [ ::1, 7 ] }, far => { multi => false, a => [ "a.example.", 3 ] }`. -/
def exWeighted : List (Entry Val) :=
  [ent "multi" (txt "true"),
   ent "web" (.hash [ent "addrs_v4" (.hash [ent "up_thresh" (txt "1"), ent "one" (.hash [ent "a" (.array [txt "192.0.2.1", txt "10"]), ent "b" (.array [txt "192.0.2.2", txt "20"])]),
     ent "two" (.hash [ent "c" (.array [txt "192.0.2.3", txt "5"])])])]),
   ent "six" (.hash [ent "a" (.array [txt "::1", txt "7"])]),
   ent "far" (.hash [ent "multi" (txt "false"), ent "a" (.array [txt "a.example.", txt "3"])])]

/-- What it says. -/
def exSets : List Resource :=
  [⟨str "web", none, some ⟨[[(⟨false, [192, 0, 2, 1], []⟩, 10), (⟨false, [192, 0, 2, 2], []⟩, 20)], [(⟨false, [192, 0, 2, 3], []⟩, 5)]], [str "up"], true, 35⟩, none⟩,
   ⟨str "six", none, none, some ⟨[[(⟨true, [0, 0, 0, 0, 0, 0, 0, 0, 0, 0, 0, 0, 0, 0, 0, 1], []⟩, 7)]], [str "up"], true, 4⟩⟩,
   ⟨str "far", some ⟨[⟨str "a.example.", [11, 1, 97, 7, 101, 120, 97, 109, 112, 108, 101, 0], 3⟩], [str "up"], 2⟩, none, none⟩]

theorem exWeighted_clean : Clean (.hash exWeighted) := by
  have two : ∀ a b, Clean (.array [txt a, txt b]) := fun _ _ => .array (.cons .simple (.cons .simple .nil))
  refine .hash (by decide) (.cons .simple (.cons (.hash (by decide) (.cons (.hash (by decide) (.cons .simple (.cons (.hash (by decide) (.cons (two _ _) (.cons (two _ _) .nil)))
    (.cons (.hash (by decide) (.cons (two _ _) .nil)) .nil)))) .nil)) (.cons (.hash (by decide) (.cons (two _ _) .nil)) (.cons (.hash (by decide) (.cons .simple (.cons (two _ _) .nil))) .nil))))

theorem exWeighted_labels : Labelled (.hash exWeighted) := by
  have hf : ∀ s : String, Labelled (txt s) := fun s => labelled_flat fun es h => by cases h
  have ha : ∀ l, Labelled (.array l) := fun s => labelled_flat fun es h => by cases h
  refine labelled_hash (by decide) ?_
  simp only [exWeighted, ent, List.forall_mem_cons, List.not_mem_nil, false_implies, implies_true, and_true]
  refine ⟨hf _, labelled_hash (by decide) ?_, labelled_hash (by decide) ?_, labelled_hash (by decide) ?_⟩ <;>
    simp only [List.forall_mem_cons, List.not_mem_nil, false_implies, implies_true, and_true]
  · refine labelled_hash (by decide) ?_
    simp only [List.forall_mem_cons, List.not_mem_nil, false_implies, implies_true, and_true]
    refine ⟨hf _, labelled_hash (by decide) ?_, labelled_hash (by decide) ?_⟩ <;>
      simp only [List.forall_mem_cons, List.not_mem_nil, false_implies, implies_true, and_true]
    · exact ⟨ha _, ha _⟩
    · exact ha _
  · exact ha _
  · exact ⟨hf _, ha _⟩

theorem exWeighted_nan : NoNan exLib (.hash exWeighted) := by
  have hk : ∀ k : String, str k ≠ nm "up_thresh" → ∀ v : Val, str k = nm "up_thresh" → ∀ r t, v = .simple r t → exLib.dbl t ≠ some .nan :=
    fun k h v h' => absurd h' h
  have ht : ∀ s : String, exLib.dbl (str s) ≠ some .nan → str "up_thresh" = nm "up_thresh" → ∀ r t, txt s = .simple r t → exLib.dbl t ≠ some .nan := by
    intro s h _ r t h'
    cases h'
    exact h
  have hf : ∀ s : String, NoNan exLib (txt s) := fun s => nan_flat fun es h => by cases h
  have ha : ∀ l, NoNan exLib (.array l) := fun s => nan_flat fun es h => by cases h
  refine nan_hash ?_ ?_
  · simp only [exWeighted, ent, List.forall_mem_cons, List.not_mem_nil, false_implies, implies_true, and_true]
    exact ⟨hk "multi" (by decide) _, hk "web" (by decide) _, hk "six" (by decide) _, hk "far" (by decide) _⟩
  · simp only [exWeighted, ent, List.forall_mem_cons, List.not_mem_nil, false_implies, implies_true, and_true]
    refine ⟨hf _, nan_hash ?_ ?_, nan_hash ?_ ?_, nan_hash ?_ ?_⟩ <;> simp only [List.forall_mem_cons, List.not_mem_nil, false_implies, implies_true, and_true]
    · exact hk "addrs_v4" (by decide) _
    · refine nan_hash ?_ ?_ <;> simp only [List.forall_mem_cons, List.not_mem_nil, false_implies, implies_true, and_true]
      · exact ⟨ht "1" (by decide +kernel), hk "one" (by decide) _, hk "two" (by decide) _⟩
      · refine ⟨hf _, nan_hash ?_ ?_, nan_hash ?_ ?_⟩ <;> simp only [List.forall_mem_cons, List.not_mem_nil, false_implies, implies_true, and_true]
        · exact ⟨hk "a" (by decide) _, hk "b" (by decide) _⟩
        · exact ⟨ha _, ha _⟩
        · exact hk "c" (by decide) _
        · exact ha _
    · exact hk "a" (by decide) _
    · exact ha _
    · exact ⟨hk "multi" (by decide) _, hk "a" (by decide) _⟩
    · exact ⟨hf _, ha _⟩

theorem exWeighted_load : load exLib {} (some (.hash exWeighted)) = .ok (some (exSets, {})) := by decide +kernel

example : ∃ rest, Others wtParams exWeighted rest ∧ All (WeightedOf exLib exWeighted) rest exSets ∧ (∀ n ∈ allSizes (·.v4) exSets, n ≤ 360) ∧ (∀ n ∈ allSizes (·.v6) exSets, n ≤ 360) ∧
    IsMax (12 :: allSizes (·.v4) exSets) 12 ∧ IsMax (12 :: allSizes (·.v6) exSets) 12 :=
  ((C95_weighted_partial exLib {} exWeighted exWeighted_clean exWeighted_nan exWeighted_labels).2 exSets {}).mp exWeighted_load

/-- Mixed groups and addresses are refused, and so is a weight of 0. -/
example : load exLib {} (some (.hash [ent "web" (.hash [ent "g" (.hash [ent "a" (.array [txt "192.0.2.1", txt "10"])]), ent "b" (.array [txt "192.0.2.2", txt "20"])])])) = .ok none ∧
    load exLib {} (some (.hash [ent "web" (.hash [ent "b" (.array [txt "192.0.2.2", txt "0"])])])) = .ok none := by decide +kernel

theorem all_one (es : List (Entry Val)) (e : Entry Val) (n : Nat) (lib : Lib) (P : List (Entry Val)) (h : configRes lib P e = .ub) : resLoop (configRes lib P) (n + 1) (e :: es) = .ub := by
  simp only [resLoop, h]
  rfl

/-- "Not a number" is accepted as `up_thresh`; an assertion then fails, for every resource for which it is the share. -/
theorem C95_nan (lib : Lib) (lim : Plug.Limits) (t u : Bytes) (a : Addr) (ht : lib.dbl t = some .nan) (ha : lib.addr u = some a) (hu : (0 : UInt8) ∉ u) :
    let es := [ent "up_thresh" (.simple t t), ent "web" (.hash [ent "a" (.array [.simple u u, txt "1"])])]
    Clean (.hash es) ∧ Labelled (.hash es) ∧ load lib lim (some (.hash es)) = .ub := by
  intro es
  refine ⟨.hash (by change [str "up_thresh", str "web"].Nodup; decide) (.cons .simple (.cons (.hash (by change [str "a"].Nodup; decide)
    (.cons (.array (.cons .simple (.cons .simple .nil))) .nil)) .nil)), ?_, ?_⟩
  · refine labelled_hash ?_ ?_ <;> simp only [es, ent, List.forall_mem_cons, List.not_mem_nil, false_implies, implies_true, and_true]
    · exact ⟨by change str "up_thresh" ≠ []; decide, by change str "web" ≠ []; decide⟩
    · refine ⟨labelled_flat nofun, labelled_hash ?_ ?_⟩ <;> simp only [List.forall_mem_cons, List.not_mem_nil, false_implies, implies_true, and_true]
      · change str "a" ≠ []; decide
      · exact labelled_flat nofun
  · have hu' : cstr u = u := cstr_self hu
    let P : List (Entry Val) := [⟨str "up_thresh", true, .simple t t⟩,
      ⟨str "web", false, .hash [⟨str "a", false, .array [.simple u u, txt "1"]⟩, ⟨str "up_thresh", false, .simple t t⟩]⟩]
    have e1 : handDown params es = .ok (P, 1) := by with_unfolding_all rfl
    let o : List (Entry Val) := [⟨str "a", false, .array [.simple u u, txt "1"]⟩, ⟨str "up_thresh", true, .simple t t⟩]
    have e2 : marks (marks [⟨str "a", false, .array [.simple u u, txt "1"]⟩, ⟨str "up_thresh", false, .simple t t⟩] [str "addrs_v4", str "addrs_v6", str "cnames"]) params = o := by
      with_unfolding_all rfl
    have e3 : clone true (.hash o) = .ok (.hash [⟨str "a", false, .array [.simple u u, txt "1"]⟩]) := by with_unfolding_all rfl
    have e4 : takeOver params P o = .ok (P, o) := by with_unfolding_all rfl
    have e5 : ∀ v6, a.v6 = v6 → setOf lib v6 o = .ub := by
      intro v6 hv
      have f1 : find o (str "up_thresh") = some (.simple t t) := by with_unfolding_all rfl
      have f2 : find o (str "service_types") = none := by with_unfolding_all rfl
      have f3 : find o (str "multi") = none := by with_unfolding_all rfl
      have f4 : o.length - present o params = 1 := by with_unfolding_all rfl
      have f5 : unmarked (marks o params) = [⟨str "a", false, .array [.simple u u, txt "1"]⟩] := by with_unfolding_all rfl
      have f6 : weighed (.array [.simple u u, txt "1"]) = some (u, 1) := by
        have : getLong (str "1") = some 1 := by decide +kernel
        simp only [weighed, txt, this]
        rfl
      have f7 : addrOf lib v6 (.array [.simple u u, txt "1"]) = some (a, 1) := by
        simp only [addrOf, f6, hu', ha, hv, if_true]
      have f8 : itemsLoop lib v6 none 1 [⟨str "a", false, .array [.simple u u, txt "1"]⟩] = .ok (some [[(a, 1)]]) := by
        simp [itemsLoop, modeOf, f7]
      unfold setOf
      rw [f1, f2, f3, f4, f5]
      simp only [svcNames, multiOf, threshOf, ht, refused, Bool.false_eq_true, if_false, f8, Outcome.bind_ok]
      rfl
    have e6 : unmarked P = [⟨str "web", false, .hash [⟨str "a", false, .array [.simple u u, txt "1"]⟩, ⟨str "up_thresh", false, .simple t t⟩]⟩] := by with_unfolding_all rfl
    have g1 : find [⟨str "a", false, .array [.simple u u, txt "1"]⟩, ⟨str "up_thresh", false, .simple t t⟩] (str "cnames") = none := by with_unfolding_all rfl
    have g2 : find [⟨str "a", false, .array [.simple u u, txt "1"]⟩, ⟨str "up_thresh", false, .simple t t⟩] (str "addrs_v4") = none := by with_unfolding_all rfl
    have g3 : find [⟨str "a", false, .array [.simple u u, txt "1"]⟩, ⟨str "up_thresh", false, .simple t t⟩] (str "addrs_v6") = none := by with_unfolding_all rfl
    have e7 : configRes lib P ⟨str "web", false, .hash [⟨str "a", false, .array [.simple u u, txt "1"]⟩, ⟨str "up_thresh", false, .simple t t⟩]⟩ = .ub := by
      unfold configRes
      simp only [g1, g2, g3, optStanza, Outcome.bind_ok, and_self, if_true, configAuto, e2, e3, hu', ha, directSet, configAddrset, e4, e5 a.v6 rfl, ne_eq, not_true, if_false]
      rfl
    have e8 : es.length - 1 = 1 := rfl
    simp only [load, e1, Outcome.bind_ok, e6, e8, all_one [] _ 0 lib P e7]
    rfl

example : exLib.dbl (str "nan") = some .nan ∧ exLib.addr (str "::1") = some ⟨true, [0, 0, 0, 0, 0, 0, 0, 0, 0, 0, 0, 0, 0, 0, 0, 1], []⟩ ∧ (0 : UInt8) ∉ str "::1" := by decide +kernel

/-- An empty label in a group, which the syntax allows in quotes, fails an assertion. -/
theorem C95_label (lib : Lib) (lim : Plug.Limits) (u : Bytes) (a : Addr) (ha : lib.addr u = some a) (hu : (0 : UInt8) ∉ u) :
    let es := [ent "web" (.hash [ent "g" (.hash [ent "" (.array [.simple u u, txt "1"])])])]
    Clean (.hash es) ∧ NoNan lib (.hash es) ∧ load lib lim (some (.hash es)) = .ub := by
  intro es
  refine ⟨.hash (by change [str "web"].Nodup; decide) (.cons (.hash (by change [str "g"].Nodup; decide) (.cons (.hash (by change [str ""].Nodup; decide)
    (.cons (.array (.cons .simple (.cons .simple .nil))) .nil)) .nil)) .nil), ?_, ?_⟩
  · have hk : ∀ k : String, str k ≠ nm "up_thresh" → ∀ v : Val, str k = nm "up_thresh" → ∀ r t, v = .simple r t → lib.dbl t ≠ some .nan :=
      fun k h v h' => absurd h' h
    refine nan_hash ?_ ?_ <;> simp only [es, ent, List.forall_mem_cons, List.not_mem_nil, false_implies, implies_true, and_true]
    · exact hk "web" (by decide) _
    · refine nan_hash ?_ ?_ <;> simp only [List.forall_mem_cons, List.not_mem_nil, false_implies, implies_true, and_true]
      · exact hk "g" (by decide) _
      · refine nan_hash ?_ ?_ <;> simp only [List.forall_mem_cons, List.not_mem_nil, false_implies, implies_true, and_true]
        · exact hk "" (by decide) _
        · exact nan_flat nofun
  · have hu' : cstr u = u := cstr_self hu
    let o : List (Entry Val) := [⟨str "g", false, .hash [⟨str "", false, .array [.simple u u, txt "1"]⟩]⟩]
    let P : List (Entry Val) := [⟨str "web", false, .hash o⟩]
    have e1 : handDown params es = .ok (P, 0) := by with_unfolding_all rfl
    have e2 : marks (marks o [str "addrs_v4", str "addrs_v6", str "cnames"]) params = o := by with_unfolding_all rfl
    have e3 : clone true (.hash o) = .ok (.hash [⟨str "g", false, .hash [⟨str "", false, .array [.simple u u, txt "1"]⟩]⟩]) := by with_unfolding_all rfl
    have e4 : takeOver params P o = .ok (P, o) := by with_unfolding_all rfl
    have e5 : ∀ v6, setOf lib v6 o = .ub := by
      intro v6
      have f1 : find o (str "up_thresh") = none := by with_unfolding_all rfl
      have f2 : find o (str "service_types") = none := by with_unfolding_all rfl
      have f3 : find o (str "multi") = none := by with_unfolding_all rfl
      have f4 : o.length - present o params = 1 := by with_unfolding_all rfl
      have f5 : unmarked (marks o params) = o := by with_unfolding_all rfl
      have f6 : itemsLoop lib v6 none 1 o = .ub := by with_unfolding_all rfl
      unfold setOf
      rw [f1, f2, f3, f4, f5]
      simp only [svcNames, multiOf, threshOf, f6]
      rfl
    have e6 : unmarked P = P := by with_unfolding_all rfl
    have g1 : find o (str "cnames") = none := by with_unfolding_all rfl
    have g2 : find o (str "addrs_v4") = none := by with_unfolding_all rfl
    have g3 : find o (str "addrs_v6") = none := by with_unfolding_all rfl
    have e7 : configRes lib P ⟨str "web", false, .hash o⟩ = .ub := by
      unfold configRes
      simp only [g1, g2, g3, optStanza, Outcome.bind_ok, and_self, if_true, configAuto, e2, e3, hu', ha, directSet, configAddrset, e4, e5 a.v6, ne_eq, not_true, if_false]
      rfl
    have e8 : es.length - 0 = 1 := rfl
    simp only [load, e1, Outcome.bind_ok, e6, e8, P, all_one [] _ 0 lib P e7]
    rfl

end Gdnsd.Wt
