/-
Lemmas: a set, from a hash to which the parameters were handed down.
-/
import Verif.Wt.Lemmas
namespace Gdnsd.Wt
open Vscf VscfSpec Conf ConfSpec SvcSpec WtSpec Res
open ResSpec hiding SetOf
open Svc (Addr)

theorem params_zero : ∀ k ∈ params, (0 : UInt8) ∉ k := by decide

theorem param_mem : str "service_types" ∈ params ∧ str "multi" ∈ params ∧ str "up_thresh" ∈ params := by decide

theorem params_nodup : params.Nodup := by decide

/-! ### Thresholds -/

theorem total_sum (l : List UInt32) : total l = Plug.natSum l := rfl

/-- The groups with their addresses as results have them, without indices. -/
def plain (gs : List (List (Addr × UInt32))) : List (List Plug.WAddr) := gs.map fun g => g.map fun p => ⟨toPlug p.1, p.2, []⟩

theorem plain_weight (gs : List (List (Addr × UInt32))) : Plug.weightOf (plain gs) = total (gs.flatten.map (·.2)) := by
  rw [total_sum]
  unfold Plug.weightOf plain
  rw [← List.map_flatten, List.map_map]
  rfl

/-- What is known of the groups of a set. -/
structure Ranges (v6 : Bool) (gs : List (List (Addr × UInt32))) : Prop where
  some : gs ≠ []
  few : gs.length ≤ 64
  groups : ∀ g ∈ gs, g ≠ [] ∧ g.length ≤ 64 ∧ ∀ p ∈ g, p.1.v6 = v6 ∧ 1 ≤ p.2.toNat ∧ p.2.toNat ≤ 1048575

theorem toPlug_isFam (a : Addr) : (toPlug a).isFam a.v6 = true := by
  unfold toPlug
  cases h : a.v6 <;> simp [Plug.Addr.isFam]

theorem plain_ok {v6 : Bool} {gs : List (List (Addr × UInt32))} (h : Ranges v6 gs) : Plug.GroupsOk [] v6 (plain gs) := by
  refine ⟨?_, by simpa [plain] using h.few, ?_⟩
  · intro h0
    exact h.some (List.map_eq_nil_iff.mp h0)
  · intro g hg
    obtain ⟨g', hg', rfl⟩ := List.mem_map.mp hg
    obtain ⟨h1, h2, h3⟩ := h.groups g' hg'
    refine ⟨fun h0 => h1 (List.map_eq_nil_iff.mp h0), by simpa using h2, ?_⟩
    intro a ha
    obtain ⟨p, hp, rfl⟩ := List.mem_map.mp ha
    obtain ⟨h4, h5, h6⟩ := h3 p hp
    refine ⟨?_, nofun, h5, h6⟩
    rw [← h4]
    exact toPlug_isFam p.1

theorem finish_ok {v6 : Bool} {gs : List (List (Addr × UInt32))} (h : Ranges v6 gs) (svcs : List Bytes) (multi : Bool) {m k : Nat} (hm : 0 < m) (hk : m ≤ 2 ^ k) :
    ∃ up : UInt32, finish gs svcs multi (.num false m k) = .ok ⟨gs, svcs, multi, up⟩ ∧ Plug.uscaleCeil (total (gs.flatten.map (·.2))) m k = .ok up.toNat := by
  obtain ⟨s, n, h1, h2, h3, h4, h5, h6, h7, _⟩ := Plug.mkSet_spec (plain_ok h) multi hm hk
  refine ⟨s.upWeight, ?_, ?_⟩
  · change (Plug.mkSet (plain gs) multi m k).map _ = _
    rw [h1]
    rfl
  · rw [← plain_weight, h6, h7]

theorem items_ranges {lib : Lib} {v6 : Bool} {vals : List Val} {gs : List (List (Addr × UInt32))} (hne : vals ≠ []) (hf : vals.length ≤ 64)
    (h : (∃ as, All (IsItem lib v6) vals as ∧ gs = as.map fun a => [a]) ∨ All (IsGroup lib v6) vals gs) : Ranges v6 gs := by
  rcases h with ⟨as, h, rfl⟩ | h
  · have hl := all_length h
    refine ⟨?_, by simpa [hl] using hf, ?_⟩
    · intro h0
      rw [List.map_eq_nil_iff] at h0
      subst h0
      exact hne (List.length_eq_zero_iff.mp hl.symm)
    · intro g hg
      obtain ⟨a, ha, rfl⟩ := List.mem_map.mp hg
      refine ⟨by simp, by simp, ?_⟩
      intro p hp
      rw [List.mem_singleton] at hp
      subst hp
      obtain ⟨v, _, hv⟩ := all_left h ha
      exact item_weight hv
  · have hl := all_length h
    refine ⟨?_, by omega, ?_⟩
    · rintro rfl
      exact hne (List.length_eq_zero_iff.mp hl.symm)
    · intro g hg
      obtain ⟨v, _, es, _, h1, h2, h3⟩ := all_left h hg
      refine ⟨h1, h2, fun p hp => ?_⟩
      obtain ⟨v', _, hv'⟩ := all_left h3 hp
      exact item_weight hv'

theorem finishC_ok {cs : List Cname} (hne : cs ≠ []) (hf : cs.length ≤ 64) (hr : ∀ c ∈ cs, 1 ≤ c.weight.toNat ∧ c.weight.toNat ≤ 1048575 ∧ Dname.status c.dname = .ok .valid)
    (svcs : List Bytes) {m k : Nat} (hm : 0 < m) (hk : m ≤ 2 ^ k) :
    ∃ up : UInt32, finishC cs svcs (.num false m k) = .ok ⟨cs, svcs, up⟩ ∧ Plug.uscaleCeil (total (cs.map (·.weight))) m k = .ok up.toNat := by
  have hok : Plug.CnamesOk [] (cs.map fun c => (⟨c.dname, c.weight, []⟩ : Plug.WCname)) := by
    refine ⟨fun h0 => hne (List.map_eq_nil_iff.mp h0), by simpa using hf, ?_⟩
    intro c hc
    obtain ⟨c', hc', rfl⟩ := List.mem_map.mp hc
    obtain ⟨h1, h2, h3⟩ := hr c' hc'
    exact ⟨h3, nofun, h1, h2⟩
  obtain ⟨s, n, h1, h2, h3, h4, h5, _⟩ := Plug.mkCSet_spec hok hm hk
  refine ⟨s.upWeight, ?_, ?_⟩
  · simp only [finishC, h1]
    rfl
  · rw [h5, ← h4, List.map_map]
    rfl

/-! ### Views -/

/-- Entries as `config_addrset` gets them: the values `vals` under some labels, and the parameters of some levels. -/
structure View (levels : List (List (Entry Val))) (vals : List Val) (fs : List (Entry Val)) : Prop where
  nodup : (fs.map (·.key)).Nodup
  marked : ∀ e ∈ fs, e.marked = true → e.key ∈ params
  vals : (others params fs).map (·.val) = vals
  levels : ∀ k ∈ params, (find fs k).map shape = (firstOf levels k).map shape

theorem View.marks {levels : List (List (Entry Val))} {vals : List Val} {fs : List (Entry Val)} (h : View levels vals fs) : View levels vals (marks fs params) where
  nodup := by rw [keys_marks]; exact h.nodup
  marked := by
    intro e he hm
    rw [marks_eq] at he
    obtain ⟨x, hx, rfl⟩ := List.mem_map.mp he
    split at hm
    next hc => rw [if_pos hc]; exact List.contains_iff_mem.mp hc
    next hc => rw [if_neg hc]; exact h.marked x hx hm
  vals := by rw [others_marks]; exact h.vals
  levels := by
    intro k hk
    rw [find_marks]
    exact h.levels k hk

theorem multiOf_eq (o : Option Val) : multiOf o = ignoreOf o := by
  cases o with
  | none => rfl
  | some v => cases v <;> rfl

section
variable {lib : Lib} {v6 : Bool} {levels : List (List (Entry Val))} {vals : List Val} {fs : List (Entry Val)}

theorem View.count (h : View levels vals fs) : fs.length - present fs params = vals.length := by
  have := present_length h.nodup params_nodup
  rw [← h.vals, List.length_map]
  omega

theorem View.unmarked (h : View levels vals fs) : unmarked (Res.marks fs params) = others params fs := unmarked_marks h.marked fun _ h => h

theorem View.size (h : View levels vals fs) : (others params fs).length = vals.length := by rw [← h.vals, List.length_map]

theorem View.mem (h : View levels vals fs) {P : Val → Prop} (hv : ∀ v ∈ vals, P v) : ∀ e ∈ others params fs, P e.val := by
  intro e he
  apply hv
  rw [← h.vals]
  exact List.mem_map_of_mem he

theorem setOf_ok (h : View levels vals fs) (hl : ∀ es ∈ levels, (es.map (·.key)).Nodup) (hnan : threshOf lib (firstOf levels (str "up_thresh")) ≠ some .nan)
    (hv : ∀ v ∈ vals, Clean v ∧ Labelled v) : setOf lib v6 fs ≠ .ub ∧ ∀ s, setOf lib v6 fs = .ok (some s) ↔ SetOf lib v6 levels vals s := by
  obtain ⟨k1, k2, k3⟩ := param_mem
  have e1 := svcNames_shape (h.levels _ k1)
  have e2 : multiOf (find fs (str "multi")) = ignoreOf (firstOf levels (str "multi")) := by rw [multiOf_eq]; exact ignoreOf_shape (h.levels _ k2)
  have e3 := threshOf_shape (lib := lib) (h.levels _ k3)
  have f1 : ∀ s, SetOf lib v6 levels vals s → svcNames (firstOf levels (str "service_types")) = some s.svcs := by
    intro s hs
    obtain ⟨o, g1, g2⟩ := hs.svcs
    rw [← (first_iff hl).mp g1]
    exact svcs_iff.mp g2
  have f2 : ∀ s, SetOf lib v6 levels vals s → ignoreOf (firstOf levels (str "multi")) = some s.multi := by
    intro s hs
    obtain ⟨o, g1, g2⟩ := hs.multi
    rw [← (first_iff hl).mp g1]
    exact flag_iff.mp g2
  have f3 : ∀ s, SetOf lib v6 levels vals s → ∃ m k, threshOf lib (firstOf levels (str "up_thresh")) = some (.num false m k) ∧
      Plug.uscaleCeil (total (s.groups.flatten.map (·.2))) m k = .ok s.up.toNat := by
    intro s hs
    obtain ⟨o, m, k, g1, g2, g3⟩ := hs.share
    rw [← (first_iff hl).mp g1]
    exact ⟨m, k, share_iff.mp g2, g3⟩
  unfold setOf
  rw [e1, e2, e3]
  cases hs : svcNames (firstOf levels (str "service_types")) with
  | none => exact ⟨nofun, fun s => ⟨fun h => (by cases h), fun h => (by rw [f1 s h] at hs; cases hs)⟩⟩
  | some svcs =>
    cases hm : ignoreOf (firstOf levels (str "multi")) with
    | none => exact ⟨nofun, fun s => ⟨fun h => (by cases h), fun h => (by rw [f2 s h] at hm; cases hm)⟩⟩
    | some multi =>
      cases ht : threshOf lib (firstOf levels (str "up_thresh")) with
      | none => exact ⟨nofun, fun s => ⟨fun h => (by cases h), fun h => (by obtain ⟨m, k, g, _⟩ := f3 s h; rw [g] at ht; cases ht)⟩⟩
      | some d =>
        rw [ht] at hnan
        rcases thresh_cases ht with rfl | ⟨m, k, rfl, hm0, hmk⟩
        · exact absurd rfl hnan
        · dsimp only
          rw [h.count, h.unmarked]
          split
          · rename_i h64
            exact ⟨nofun, fun s => ⟨fun h => (by cases h), fun h => (by have := h.few; omega)⟩⟩
          · rename_i h64
            split
            · rename_i h0
              exact ⟨nofun, fun s => ⟨fun h => (by cases h), fun h => absurd (List.length_eq_zero_iff.mp h0) h.some⟩⟩
            · rename_i h0
              have hne : vals ≠ [] := fun h => h0 (by rw [h]; rfl)
              obtain ⟨o, g1, g2⟩ := itemsLoop_ok (lib := lib) (v6 := v6) (others params fs) (h.mem hv) (fun h1 => h0 (by rw [← h.size, h1]; rfl))
              rw [h.size] at g1
              rw [h.vals] at g2
              rw [g1]
              simp only [Outcome.bind_ok]
              cases o with
              | none =>
                refine ⟨nofun, fun s => ⟨fun h => (by cases h), fun h => ?_⟩⟩
                have := (g2 _).mpr h.items
                cases this
              | some gs =>
                have hit := (g2 gs).mp rfl
                have hr := items_ranges hne (by omega) hit
                obtain ⟨up, p1, p2⟩ := finish_ok hr svcs multi hm0 hmk
                dsimp only
                rw [p1]
                refine ⟨by simp [Outcome.map], fun s => ?_⟩
                simp only [Outcome.map_ok, Outcome.ok.injEq, Option.some.injEq]
                constructor
                · rintro rfl
                  exact ⟨hne, by omega, hit, ⟨_, (first_iff hl).mpr rfl, svcs_iff.mpr hs⟩, ⟨_, (first_iff hl).mpr rfl, flag_iff.mpr hm⟩,
                    ⟨_, m, k, (first_iff hl).mpr rfl, share_iff.mpr ht, p2⟩⟩
                · intro h'
                  have q1 := (g2 _).mpr h'.items
                  have q2 := f1 s h'
                  have q3 := f2 s h'
                  obtain ⟨m', k', q4, q5⟩ := f3 s h'
                  rw [hs] at q2
                  rw [hm] at q3
                  rw [ht] at q4
                  simp only [Option.some.injEq, Dbl.num.injEq, true_and] at q1 q2 q3 q4
                  obtain ⟨rfl, rfl⟩ := q4
                  rw [← q1, p2] at q5
                  simp only [Outcome.ok.injEq] at q5
                  have q6 : up = s.up := UInt32.toNat_inj.mp q5
                  cases s
                  simp_all

theorem configCnameset_ok (h : View levels vals fs) (hl : ∀ es ∈ levels, (es.map (·.key)).Nodup) (hnan : threshOf lib (firstOf levels (str "up_thresh")) ≠ some .nan) :
    configCnameset lib fs ≠ .ub ∧ ∀ s, configCnameset lib fs = .ok (some s) ↔ NamesOf lib levels vals s := by
  obtain ⟨k1, k2, k3⟩ := param_mem
  have e1 := svcNames_shape (h.levels _ k1)
  have e3 := threshOf_shape (lib := lib) (h.levels _ k3)
  have f1 : ∀ s, NamesOf lib levels vals s → svcNames (firstOf levels (str "service_types")) = some s.svcs := by
    intro s hs
    obtain ⟨o, g1, g2⟩ := hs.svcs
    rw [← (first_iff hl).mp g1]
    exact svcs_iff.mp g2
  have f3 : ∀ s, NamesOf lib levels vals s → ∃ m k, threshOf lib (firstOf levels (str "up_thresh")) = some (.num false m k) ∧
      Plug.uscaleCeil (total (s.names.map (·.weight))) m k = .ok s.up.toNat := by
    intro s hs
    obtain ⟨o, m, k, g1, g2, g3⟩ := hs.share
    rw [← (first_iff hl).mp g1]
    exact ⟨m, k, share_iff.mp g2, g3⟩
  unfold configCnameset
  rw [e1, e3]
  cases hs : svcNames (firstOf levels (str "service_types")) with
  | none => exact ⟨nofun, fun s => ⟨fun h => (by cases h), fun h => (by rw [f1 s h] at hs; cases hs)⟩⟩
  | some svcs =>
    cases ht : threshOf lib (firstOf levels (str "up_thresh")) with
    | none => exact ⟨nofun, fun s => ⟨fun h => (by cases h), fun h => (by obtain ⟨m, k, g, _⟩ := f3 s h; rw [g] at ht; cases ht)⟩⟩
    | some d =>
      rw [ht] at hnan
      rcases thresh_cases ht with rfl | ⟨m, k, rfl, hm0, hmk⟩
      · exact absurd rfl hnan
      · dsimp only
        rw [h.count, h.unmarked]
        split
        · rename_i h64
          exact ⟨nofun, fun s => ⟨fun h => (by cases h), fun h => (by have := h.few; omega)⟩⟩
        · rename_i h64
          split
          · rename_i h0
            exact ⟨nofun, fun s => ⟨fun h => (by cases h), fun h => absurd (List.length_eq_zero_iff.mp h0) h.some⟩⟩
          · rename_i h0
            have hne : vals ≠ [] := fun h => h0 (by rw [h]; rfl)
            obtain ⟨o, g1, g2⟩ := cnamesLoop_ok (others params fs)
            rw [h.size] at g1
            rw [h.vals] at g2
            rw [g1]
            simp only [Outcome.bind_ok]
            cases o with
            | none =>
              refine ⟨nofun, fun s => ⟨fun h => (by cases h), fun h => ?_⟩⟩
              have := (g2 _).mpr h.names
              cases this
            | some cs =>
              have hit := (g2 cs).mp rfl
              have hlen := all_length hit
              obtain ⟨up, p1, p2⟩ := finishC_ok (cs := cs) (fun h1 => by subst h1; exact h0 hlen.symm) (by omega)
                (fun c hc => by obtain ⟨v, _, hv⟩ := all_left hit hc; exact name_weight hv) svcs hm0 hmk
              dsimp only
              rw [p1]
              refine ⟨by simp [Outcome.map], fun s => ?_⟩
              simp only [Outcome.map_ok, Outcome.ok.injEq, Option.some.injEq]
              constructor
              · rintro rfl
                exact ⟨hne, by omega, hit, ⟨_, (first_iff hl).mpr rfl, svcs_iff.mpr hs⟩, ⟨_, m, k, (first_iff hl).mpr rfl, share_iff.mpr ht, p2⟩⟩
              · intro h'
                have q1 := (g2 _).mpr h'.names
                have q2 := f1 s h'
                obtain ⟨m', k', q4, q5⟩ := f3 s h'
                rw [hs] at q2
                rw [ht] at q4
                simp only [Option.some.injEq, Dbl.num.injEq, true_and] at q1 q2 q4
                obtain ⟨rfl, rfl⟩ := q4
                rw [← q1, p2] at q5
                simp only [Outcome.ok.injEq] at q5
                have q6 : up = s.up := UInt32.toNat_inj.mp q5
                cases s
                simp_all

end

/-! ### Inheritance -/

theorem inheritKeys_congr {src src' : List (Entry Val)} (h : ∀ k, find src k = find src' k) : ∀ (ks : List Bytes) (dest : List (Entry Val)), inheritKeys src ks dest = inheritKeys src' ks dest
  | [], _ => rfl
  | k :: ks, dest => by
    have h1 : (inherit src dest k false).map (·.2) = (inherit src' dest k false).map (·.2) := by
      simp only [inherit, h]
      cases find src' (cstr k) with
      | none => rfl
      | some v =>
        cases find dest (cstr k) with
        | some _ => rfl
        | none => dsimp only; cases clone false v <;> rfl
    have h2 : ∀ (s : List (Entry Val)), inheritKeys s (k :: ks) dest = ((inherit s dest k false).map (·.2)).bind fun d => inheritKeys s ks d := by
      intro s
      simp only [inheritKeys]
      cases inherit s dest k false <;> rfl
    rw [h2, h2, h1]
    congr 1
    funext d
    exact inheritKeys_congr h ks d

theorem takeOver_eq : ∀ (ks : List Bytes) (src dest : List (Entry Val)), (∀ k ∈ ks, (0 : UInt8) ∉ k) →
    takeOver ks src dest = (inheritKeys src ks dest).map fun d => (marks src ks, d)
  | [], _, _, _ => rfl
  | k :: ks, src, dest, hz => by
    have hc : cstr k = k := cstr_self (hz k (by simp))
    have h1 : inherit src dest k true = ((inherit src dest k false).map (·.2)).map fun d => (setMark src k, d) := by
      simp only [inherit, hc, if_true, Bool.false_eq_true, if_false]
      cases find src k with
      | none => rfl
      | some v =>
        cases find dest k with
        | some _ => rfl
        | none => dsimp only; cases clone false v <;> rfl
    have h2 : inheritKeys src (k :: ks) dest = ((inherit src dest k false).map (·.2)).bind fun d => inheritKeys src ks d := by
      simp only [inheritKeys]
      cases inherit src dest k false <;> rfl
    simp only [takeOver]
    rw [h1, h2]
    cases (inherit src dest k false).map (·.2) with
    | ub => rfl
    | ok d =>
      simp only [Outcome.map_ok, Outcome.bind_ok]
      rw [takeOver_eq ks (setMark src k) d fun x hx => hz x (by simp [hx]), inheritKeys_congr (fun k' => find_setMark src k k') ks d]
      rfl

/-- What a hash inherits. -/
theorem takeOver_view {P : List (Entry Val)} (hn : (P.map (·.key)).Nodup) (hs : SoundOf P) {outer : List (List (Entry Val))}
    (hP : ∀ k ∈ params, (find P k).map shape = (firstOf outer k).map shape) {es : List (Entry Val)} (he : (es.map (·.key)).Nodup)
    (hm : ∀ e ∈ es, e.marked = true → e.key ∈ params) :
    ∃ fs, takeOver params P es = .ok (marks P params, fs) ∧ View (es :: outer) ((others params es).map (·.val)) fs := by
  obtain ⟨xs, h1, h2, h3, h4⟩ := inheritKeys_ok hn hs params es params_zero
  refine ⟨es ++ xs, ?_, ?_, ?_, ?_, ?_⟩
  · rw [takeOver_eq _ _ _ params_zero, h1]
    rfl
  · rw [List.map_append, List.nodup_append]
    refine ⟨he, h3, ?_⟩
    intro a ha b hb hab
    subst hab
    obtain ⟨x, hx, hk⟩ := List.mem_map.mp hb
    exact (h2 x hx).2.1 (has_iff.mpr (hk ▸ ha))
  · intro e hmem hmk
    rcases List.mem_append.mp hmem with h | h
    · exact hm e h hmk
    · exact (h2 e h).1
  · rw [others_append, others_in fun x hx => (h2 x hx).1, List.append_nil]
  · intro k hk
    rw [h4 k hk, firstOf_cons]
    exact shape_or rfl (hP k hk)

end Gdnsd.Wt
