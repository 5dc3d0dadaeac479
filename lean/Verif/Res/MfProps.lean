/-
C92: the resources of `multifo`.
-/
import Verif.Res.MfLoad
namespace Gdnsd.Res
open Vscf VscfSpec Conf ConfSpec SvcSpec ResSpec
open Svc (Addr)

theorem addrMax_iff {lim lim' : Plug.Limits} {a b : Nat} : Plug.addrMax lim a b = some lim' ↔
    a ≤ 360 ∧ b ≤ 360 ∧ lim'.v4 = (if a > lim.v4 then a else lim.v4) ∧ lim'.v6 = (if b > lim.v6 then b else lim.v6) := by
  unfold Plug.addrMax
  by_cases h1 : a > 360
  · rw [if_pos h1]
    constructor
    · intro h; cases h
    · rintro ⟨h, _⟩; omega
  · rw [if_neg h1]
    by_cases h2 : b > 360
    · rw [if_pos h2]
      constructor
      · intro h; cases h
      · rintro ⟨_, h, _⟩; omega
    · rw [if_neg h2]
      constructor
      · intro h
        cases h
        exact ⟨by omega, by omega, rfl, rfl⟩
      · rintro ⟨_, _, h3, h4⟩
        rw [← h3, ← h4]

/-- What `multifo` makes of its configuration: for every configuration in which no `up_thresh` is "not a number", the resources
are what the manual says, with the parameters of the innermost hash that has them, in their order; there is an error exactly
if some resource says nothing, or if one has more than 360 addresses; and the limits cover what they have.

Missing: "not a number", see `C92_nan`. -/
theorem C92_multifo_partial (lib : Lib) (lim : Plug.Limits) (es : List (Entry Val)) (hc : Clean (.hash es)) (hnan : NoNan lib (.hash es)) (hfit : Fits (.hash es)) :
    multifoLoad lib lim (some (.hash es)) ≠ .ub ∧
    ∀ rs lim', multifoLoad lib lim (some (.hash es)) = .ok (some (rs, lim')) ↔
      ∃ rest, Others mfParams es rest ∧ All (MultiOf lib es) rest rs ∧ (∀ n ∈ sizes (·.v4) rs, n ≤ 360) ∧ (∀ n ∈ sizes (·.v6) rs, n ≤ 360) ∧
        IsMax (lim.v4 :: sizes (·.v4) rs) lim'.v4 ∧ IsMax (lim.v6 :: sizes (·.v6) rs) lim'.v6 := by
  have hg : Good lib (.hash es) := ⟨hc, hnan, hfit⟩
  obtain ⟨hn, hf, hco⟩ := clean_hash hc
  obtain ⟨es1, h1, h2⟩ := handDown_ok params [] es params_zero (handed_start (cleanOf_sound hco))
  simp only [List.nil_append] at h2
  have hlen : es.length - present es params = (others params es).length := by
    have := present_length hn params_nodup
    omega
  have h3 := handed_others h2
  have hun := handed_unmarked hf h2
  have hone : ∀ a b, a ∈ others params es → b ∈ others params es1 → Handed params params es a b →
      configRes lib es1 b ≠ .ub ∧ ∀ r, configRes lib es1 b = .ok (some r) ↔ MultiOf lib es a r :=
    fun a b ha _ h => configRes_good hg h2 (List.mem_filter.mp ha).1 h
  obtain ⟨o, g1, g2⟩ := resLoop_ok (one := configRes lib es1) (others params es1) (others params es).length (by rw [all_length h3]; exact Nat.le_refl _)
    (fun b hb => by
      obtain ⟨a, ha, h⟩ := all_left h3 hb
      exact (hone a b ha hb h).1)
  have hrs : ∀ rs, o = some rs ↔ ∃ rest, Others mfParams es rest ∧ All (MultiOf lib es) rest rs := by
    intro rs
    rw [g2 rs, all_through h3 (P := MultiOf lib es) fun a b ha hb h => (hone a b ha hb h).2]
    constructor
    · intro h; exact ⟨_, others_iff.mpr rfl, h⟩
    · rintro ⟨rest, k1, k2⟩
      rw [others_iff.mp k1] at k2
      exact k2
  have hload : multifoLoad lib lim (some (.hash es)) = .ok (o.bind fun rs => (Plug.addrMax lim (most (·.v4) rs) (most (·.v6) rs)).map fun lim' => (rs, lim')) := by
    unfold multifoLoad
    simp only [h1, Outcome.bind_ok, hlen]
    split
    · rename_i h0
      have hnil : others params es1 = [] := List.length_eq_zero_iff.mp (by rw [all_length h3]; exact h0)
      rw [hnil] at g1
      have : o = some [] := by
        cases hh : (others params es).length <;> rw [hh] at g1 <;> simp only [resLoop, Outcome.ok.injEq] at g1 <;> exact g1.symm
      subst this
      have h4 : Plug.addrMax lim (most (·.v4) []) (most (·.v6) []) = some lim := by
        rw [addrMax_iff]
        exact ⟨Nat.zero_le _, Nat.zero_le _, rfl, rfl⟩
      simp only [h4, Option.map_some, Option.bind_some]
    · rw [hun, g1]
      cases o <;> rfl
  rw [hload]
  refine ⟨nofun, fun rs lim' => ?_⟩
  have hlim : Plug.addrMax lim (most (·.v4) rs) (most (·.v6) rs) = some lim' ↔ (∀ n ∈ sizes (·.v4) rs, n ≤ 360) ∧ (∀ n ∈ sizes (·.v6) rs, n ≤ 360) ∧
        IsMax (lim.v4 :: sizes (·.v4) rs) lim'.v4 ∧ IsMax (lim.v6 :: sizes (·.v6) rs) lim'.v6 := by
    rw [addrMax_iff, most_le, most_le, most_max, most_max]
  constructor
  · intro h
    cases o with
    | none => cases h
    | some rs' =>
      simp only [Option.bind_some, Outcome.ok.injEq, Option.map_eq_some_iff, Prod.mk.injEq] at h
      obtain ⟨l, k1, rfl, rfl⟩ := h
      obtain ⟨rest, k2, k3⟩ := (hrs rs').mp rfl
      exact ⟨rest, k2, k3, hlim.mp k1⟩
  · rintro ⟨rest, k1, k2, k3⟩
    rw [(hrs rs).mpr ⟨rest, k1, k2⟩]
    simp only [Option.bind_some, hlim.mpr k3, Option.map_some]

/-- No configuration at all is an error. -/
theorem C92_none (lib : Lib) (lim : Plug.Limits) : multifoLoad lib lim none = .ok none := rfl

/-- The resources of a configuration are the same whatever the rest of the program is. -/
theorem C92_share (lib : Lib) (v6 : Bool) (levels : List (List (Entry Val))) (vals : List Val) (s : ASet) (h : SetOf lib v6 levels vals s) (hsize : vals.length < 2 ^ 53) :
    s.as.length = vals.length ∧ (∀ a ∈ s.as, a.v6 = v6) ∧ 1 ≤ s.thresh ∧ s.thresh ≤ s.as.length := by
  have hlen := all_length h.addrs
  have hpos : 0 < s.as.length := by
    rw [hlen]
    exact List.length_pos_iff.mpr h.some
  obtain ⟨o, m, k, _, h2, h3⟩ := h.share
  have hmk : 0 < m ∧ m ≤ 2 ^ k := by
    cases o with
    | none =>
      obtain ⟨rfl, rfl⟩ := h2
      decide
    | some v =>
      obtain ⟨_, _, _, _, h4, h5⟩ := h2
      exact ⟨h4, h5⟩
  obtain ⟨n, e1, e2, e3, _⟩ := Plug.uscale_spec (v := s.as.length) hpos (by omega) hmk.1 hmk.2
  rw [e1] at h3
  cases h3
  refine ⟨hlen, ?_, e2, e3⟩
  intro a ha
  obtain ⟨v, _, hv⟩ := all_left h.addrs ha
  obtain ⟨_, _, _, _, _, _, h5⟩ := hv
  exact h5

/-! ### Concrete cases -/

theorem fits_simple {r t : Bytes} : Fits (.simple r t) := ⟨fun _ h => (by cases h), fun _ h => (by cases h)⟩

theorem fits_array {vs : List Val} (h : vs.length < 2 ^ 32) : Fits (.array vs) := ⟨fun _ h => (by cases h), fun _ hw => (by cases hw; exact h)⟩

theorem fits_hash {es : List (Entry Val)} (h : es.length < 2 ^ 32) (hs : ∀ e ∈ es, Fits e.val) : Fits (.hash es) := by
  constructor
  · intro fs hw
    cases hw with
    | refl => exact h
    | child he hw => exact (hs _ he).1 _ hw
  · intro vs hw
    cases hw with
    | child he hw => exact (hs _ he).2 _ hw

theorem nan_flat {lib : Lib} {v : Val} (h : ∀ es, v ≠ .hash es) : NoNan lib v := by
  intro fs hw
  cases hw with
  | refl => exact absurd rfl (h fs)
  | child => exact absurd rfl (h _)

theorem nan_hash {lib : Lib} {es : List (Entry Val)} (h : ∀ e ∈ es, e.key = nm "up_thresh" → ∀ r t, e.val = .simple r t → lib.dbl t ≠ some .nan)
    (hs : ∀ e ∈ es, NoNan lib e.val) : NoNan lib (.hash es) := by
  intro fs hw
  cases hw with
  | refl =>
    rintro r t ⟨e, he, hk, hv⟩
    exact h e he hk r t hv
  | child he hw => exact hs _ he _ hw

/-- A text. -/
def txt (s : String) : Val := .simple (str s) (str s)

/-- An entry. -/
def ent (k : String) (v : Val) : Entry Val := ⟨str k, false, v⟩

/-- What the C library makes of some texts. -/
def exLib : Lib where
  addr t :=
    if t = str "192.0.2.1" then some ⟨false, [192, 0, 2, 1], []⟩
    else if t = str "192.0.2.2" then some ⟨false, [192, 0, 2, 2], []⟩
    else if t = str "192.0.2.3" then some ⟨false, [192, 0, 2, 3], []⟩
    else if t = str "::1" then some ⟨true, [0, 0, 0, 0, 0, 0, 0, 0, 0, 0, 0, 0, 0, 0, 0, 1], []⟩
    else none
  dbl t := if t = str "0.25" then some (.num false 1 2) else if t = str "1" then some (.num false 1 0) else if t = str "nan" then some .nan else none

/-- `up_thresh => 0.25, web => { service_types => [web, up], addrs_v4 => { up_thresh => 1, a => 192.0.2.1, b => 192.0.2.2 },
addrs_v6 => ::1 }, mail => [ 192.0.2.3 ]`. -/
def exMulti : List (Entry Val) :=
  [ent "up_thresh" (txt "0.25"),
   ent "web" (.hash [ent "service_types" (.array [txt "web", txt "up"]), ent "addrs_v4" (.hash [ent "up_thresh" (txt "1"), ent "a" (txt "192.0.2.1"), ent "b" (txt "192.0.2.2")]),
     ent "addrs_v6" (txt "::1")]),
   ent "mail" (.array [txt "192.0.2.3"])]

/-- What it says. -/
def exSets : List MRes :=
  [⟨str "web", some ⟨[⟨false, [192, 0, 2, 1], []⟩, ⟨false, [192, 0, 2, 2], []⟩], [str "web", str "up"], 2, false⟩,
      some ⟨[⟨true, [0, 0, 0, 0, 0, 0, 0, 0, 0, 0, 0, 0, 0, 0, 0, 1], []⟩], [str "web", str "up"], 1, false⟩⟩,
   ⟨str "mail", some ⟨[⟨false, [192, 0, 2, 3], []⟩], [str "up"], 1, false⟩, none⟩]

theorem exMulti_clean : Clean (.hash exMulti) :=
  .hash (by decide) (.cons .simple (.cons (.hash (by decide) (.cons (.array (.cons .simple (.cons .simple .nil))) (.cons
    (.hash (by decide) (.cons .simple (.cons .simple (.cons .simple .nil)))) (.cons .simple .nil)))) (.cons (.array (.cons .simple .nil)) .nil)))

theorem exMulti_fits : Fits (.hash exMulti) := by
  refine fits_hash (by decide) ?_
  simp only [exMulti, ent, txt, List.forall_mem_cons, List.not_mem_nil, false_implies, implies_true, and_true]
  refine ⟨fits_simple, fits_hash (by decide) ?_, fits_array (by decide)⟩
  simp only [List.forall_mem_cons, List.not_mem_nil, false_implies, implies_true, and_true]
  refine ⟨fits_array (by decide), fits_hash (by decide) ?_, fits_simple⟩
  simp only [List.forall_mem_cons, List.not_mem_nil, false_implies, implies_true, and_true]
  exact ⟨fits_simple, fits_simple, fits_simple⟩

theorem exMulti_nan : NoNan exLib (.hash exMulti) := by
  have hk : ∀ k : String, str k ≠ nm "up_thresh" → ∀ v : Val, (ent k v).key = nm "up_thresh" → ∀ r t, (ent k v).val = .simple r t → exLib.dbl t ≠ some .nan :=
    fun k h v h' => absurd h' h
  have ht : ∀ s : String, exLib.dbl (str s) ≠ some .nan → (ent "up_thresh" (txt s)).key = nm "up_thresh" → ∀ r t, (ent "up_thresh" (txt s)).val = .simple r t → exLib.dbl t ≠ some .nan := by
    intro s h _ r t h'
    cases h'
    exact h
  have hf : ∀ s : String, NoNan exLib (txt s) := fun s => nan_flat fun es h => by cases h
  refine nan_hash ?_ ?_
  · simp only [exMulti, List.forall_mem_cons, List.not_mem_nil, false_implies, implies_true, and_true]
    exact ⟨ht _ (by decide +kernel), hk _ (by decide) _, hk _ (by decide) _⟩
  · simp only [exMulti, ent, List.forall_mem_cons, List.not_mem_nil, false_implies, implies_true, and_true]
    refine ⟨hf _, nan_hash ?_ ?_, nan_flat fun es h => by cases h⟩
    · simp only [List.forall_mem_cons, List.not_mem_nil, false_implies, implies_true, and_true]
      exact ⟨hk "service_types" (by decide) _, hk "addrs_v4" (by decide) _, hk "addrs_v6" (by decide) _⟩
    · simp only [List.forall_mem_cons, List.not_mem_nil, false_implies, implies_true, and_true]
      refine ⟨nan_flat fun es h => (by cases h), nan_hash ?_ ?_, hf _⟩
      · simp only [List.forall_mem_cons, List.not_mem_nil, false_implies, implies_true, and_true]
        exact ⟨ht "1" (by decide +kernel), hk "a" (by decide) _, hk "b" (by decide) _⟩
      · simp only [List.forall_mem_cons, List.not_mem_nil, false_implies, implies_true, and_true]
        exact ⟨hf _, hf _, hf _⟩

theorem exMulti_load : multifoLoad exLib {} (some (.hash exMulti)) = .ok (some (exSets, {})) := by decide +kernel

example : ∃ rest, Others mfParams exMulti rest ∧ All (MultiOf exLib exMulti) rest exSets ∧ (∀ n ∈ sizes (·.v4) exSets, n ≤ 360) ∧ (∀ n ∈ sizes (·.v6) exSets, n ≤ 360) ∧
    IsMax (12 :: sizes (·.v4) exSets) 12 ∧ IsMax (12 :: sizes (·.v6) exSets) 12 :=
  ((C92_multifo_partial exLib {} exMulti exMulti_clean exMulti_nan exMulti_fits).2 exSets {}).mp exMulti_load

/-- A share that is not above 0 is refused. -/
example : multifoLoad { exLib with dbl := fun _ => some (.num false 0 0) } {} (some (.hash exMulti)) = .ok none := by decide +kernel

/-- "Not a number" is neither at most 0 nor above 1, so it is accepted as `up_thresh`; the assertions that it is at least 0
and at most 1 then fail, for every resource with addresses for which it is the share. -/
theorem C92_nan (lib : Lib) (lim : Plug.Limits) (t u : Bytes) (a : Addr) (ht : lib.dbl t = some .nan) (ha : lib.addr u = some a) (hu : (0 : UInt8) ∉ u) :
    let es := [ent "up_thresh" (.simple t t), ent "web" (.simple u u)]
    Clean (.hash es) ∧ Fits (.hash es) ∧ multifoLoad lib lim (some (.hash es)) = .ub := by
  intro es
  refine ⟨.hash (by change [str "up_thresh", str "web"].Nodup; decide) (.cons .simple (.cons .simple .nil)), ?_, ?_⟩
  · refine fits_hash (by change 2 < 2 ^ 32; decide) ?_
    simp only [es, ent, List.forall_mem_cons, List.not_mem_nil, false_implies, implies_true, and_true]
    exact ⟨fits_simple, fits_simple⟩
  · have hu' : cstr u = u := cstr_self hu
    have e1 : handDown params es = .ok ([⟨str "up_thresh", true, .simple t t⟩, ⟨str "web", false, .simple u u⟩], 1) := by with_unfolding_all rfl
    have e2 : stanza [⟨str "up_thresh", true, .simple t t⟩, ⟨str "web", false, .simple u u⟩] (.simple u u) =
      .ok (some [⟨str "1", false, .simple u u⟩, ⟨str "up_thresh", false, .simple t t⟩]) := by with_unfolding_all rfl
    have e3 : clone true (.hash (marks [⟨str "1", false, .simple u u⟩, ⟨str "up_thresh", false, .simple t t⟩] params)) = .ok (.hash [⟨str "1", false, .simple u u⟩]) := by
      with_unfolding_all rfl
    have e4 : ∀ v6, configAddrs lib v6 (marks [⟨str "1", false, .simple u u⟩, ⟨str "up_thresh", false, .simple t t⟩] params) = .ub := by
      intro v6
      have f1 : find (marks [⟨str "1", false, .simple u u⟩, ⟨str "up_thresh", false, .simple t t⟩] params) (str "up_thresh") = some (.simple t t) := by with_unfolding_all rfl
      have f2 : find (marks [⟨str "1", false, .simple u u⟩, ⟨str "up_thresh", false, .simple t t⟩] params) (str "service_types") = none := by with_unfolding_all rfl
      have f3 : find (marks [⟨str "1", false, .simple u u⟩, ⟨str "up_thresh", false, .simple t t⟩] params) (str "ignore_health") = none := by with_unfolding_all rfl
      have f4 : (marks [⟨str "1", false, .simple u u⟩, ⟨str "up_thresh", false, .simple t t⟩] params).length -
          present (marks [⟨str "1", false, .simple u u⟩, ⟨str "up_thresh", false, .simple t t⟩] params) params = 1 := by with_unfolding_all rfl
      unfold configAddrs
      rw [f1, f2, f3]
      simp only [svcNames, threshOf, ht, refused, Bool.false_eq_true, if_false, ignoreOf, f4, scale]
      rfl
    simp only [multifoLoad, e1, Outcome.bind_ok]
    have e5 : configRes lib [⟨str "up_thresh", true, .simple t t⟩, ⟨str "web", false, .simple u u⟩] ⟨str "web", false, .simple u u⟩ = .ub := by
      simp only [configRes, configAuto, e2, Outcome.bind_ok, e3, hu', ha, e4]
      rfl
    have e6 : unmarked [⟨str "up_thresh", true, .simple t t⟩, ⟨str "web", false, .simple u u⟩] = [⟨str "web", false, .simple u u⟩] := rfl
    have e7 : es.length - 1 = 1 := rfl
    rw [e6, e7, if_neg (by decide)]
    simp only [resLoop, e5]
    rfl

example : exLib.dbl (str "nan") = some .nan ∧ exLib.addr (str "::1") = some ⟨true, [0, 0, 0, 0, 0, 0, 0, 0, 0, 0, 0, 0, 0, 0, 0, 1], []⟩ ∧ (0 : UInt8) ∉ str "::1" := by decide +kernel

end Gdnsd.Res
