/-
C77: hashes behave as lists of entries in order, whatever the hash function.
-/
import Verif.Vscf.TableLemmas
namespace Gdnsd.Vscf
open VscfSpec

variable {α σ : Type}

/-- Each operation on the table. -/
def Table.step (H : Bytes → Nat) (t : Table α) : TOp α → Outcome (Table α × TRes α)
  | .add k v => (add H t k v).map fun
    | none => (t, .done false)
    | some t' => (t', .done true)
  | .get k mark => (getKey H t k mark).map fun r => (r.1, .val r.2)
  | .nth i => (getAt t i).map fun r => (t, .entry (r.map fun n => (n.key, n.val)))
  | .index k => (indexOf H t k).map fun i => (t, .num i)
  | .sort p => (sort t p).map fun t' => (t', .done true)

/-- One after the other. -/
def Table.steps (H : Bytes → Nat) (t : Table α) : List (TOp α) → Outcome (Table α × List (TRes α))
  | [] => .ok (t, [])
  | o :: os => (t.step H o).bind fun r => (Table.steps H r.1 os).map fun r' => (r'.1, r.2 :: r'.2)

/-- One operation on a table that stands for a list of entries gives what it gives on the list, and the
table stands for the new list. -/
theorem step_ok {H : Bytes → Nat} {t : Table α} (h : TInv H t) (hc : t.count + 1 < 2 ^ 31) {o : TOp α} (ho : OpOk t.view o) :
    ∃ t', t.step H o = .ok (t', (t.view.step o).2) ∧ TInv H t' ∧ t'.view = (t.view.step o).1 ∧ t'.count ≤ t.count + 1 := by
  have hlen : ∀ t' : Table α, TInv H t' → t'.view.length ≤ t.view.length + 1 → t'.count ≤ t.count + 1 := fun t' h1 h2 => by rwa [h1.view_len, h.view_len] at h2
  cases o with
  | add k v =>
    rcases add_ok h hc k v with ⟨h1, h2⟩ | ⟨t', h1, h2, h3⟩
    · exact ⟨t, by simp [Table.step, h2, Dict.step, h1], h, by simp [Dict.step, h1], by omega⟩
    · refine ⟨t', by simp [Table.step, h1, Dict.step, h3], h2, by simp [Dict.step, h3], hlen t' h2 ?_⟩
      unfold Dict.add at h3
      split at h3
      · cases h3
      · simp only [Option.some.injEq] at h3; rw [← h3]; simp
  | get k mark =>
    obtain ⟨t', h1, h2, h3⟩ := get_ok h k mark
    refine ⟨t', by simp [Table.step, h1, Dict.step], h2, by simp [Dict.step, h3], hlen t' h2 ?_⟩
    rw [h3]
    split
    · simp [Dict.mark]
    · omega
  | nth i =>
    obtain ⟨r, h1, h2⟩ := at_ok h i
    refine ⟨t, ?_, h, rfl, by omega⟩
    simp only [Table.step, h1, Dict.step, h2, Outcome.map, Option.map_map]
    rfl
  | index k => exact ⟨t, by simp only [Table.step, index_ok h k, Dict.step, Outcome.map]; rfl, h, rfl, by omega⟩
  | sort p =>
    obtain ⟨t', h1, h2, h3⟩ := sort_ok h (p := p) ho
    refine ⟨t', by simp [Table.step, h1, Dict.step], h2, h3, hlen t' h2 ?_⟩
    rw [h3]
    refine Nat.le_trans (List.length_filterMap_le _ _) ?_
    have := List.Perm.length_eq ho
    rw [List.length_range] at this
    omega

/-- Whatever is done with a new hash, one thing after the other, every result is that for the list of
entries, and none fails. -/
theorem C77_refines {H : Bytes → Nat} {os : List (TOp α)} (hn : os.length + 1 < 2 ^ 31) (ho : OpsOk [] os) :
    ∃ t, Table.steps H .new os = .ok (t, (Dict.steps [] os).2) ∧ t.view = (Dict.steps [] os).1 := by
  suffices ∀ (os : List (TOp α)) (t : Table α), TInv H t → t.count + os.length + 1 < 2 ^ 31 → OpsOk t.view os →
      ∃ t', Table.steps H t os = .ok (t', (Dict.steps t.view os).2) ∧ t'.view = (Dict.steps t.view os).1 from
    this os .new tinv_new (by simpa [Table.new] using hn) ho
  intro os
  induction os with
  | nil => exact fun t _ _ _ => ⟨t, rfl, rfl⟩
  | cons o os ih =>
    intro t h hc ⟨ho, hos⟩
    simp only [List.length_cons] at hc
    obtain ⟨t', h1, h2, h3, h4⟩ := step_ok h (by omega) ho
    obtain ⟨t'', h5, h6⟩ := ih t' h2 (by omega) (by rw [h3]; exact hos)
    rw [h3] at h5 h6
    exact ⟨t'', by simp [Table.steps, h1, h5, Dict.steps], by simp [Dict.steps, h6]⟩

/-- Iterating over a hash at any time calls the callback for the entries of the list, in their order, without
those that are marked if these are not wanted, until it says no. -/
theorem C77_iterate {H : Bytes → Nat} {os : List (TOp α)} (hn : os.length + 1 < 2 ^ 31) (ho : OpsOk [] os) {t : Table α} {rs : List (TRes α)}
    (h : Table.steps H .new os = .ok (t, rs)) (ignore : Bool) (f : σ → Bytes → α → Bool × σ) (x : σ) :
    iterate t ignore f t.count 0 x = .ok (Dict.walk ignore f (Dict.steps [] os).1 x) := by
  suffices ∀ (os : List (TOp α)) (t0 t : Table α) rs, TInv H t0 → t0.count + os.length + 1 < 2 ^ 31 → OpsOk t0.view os → Table.steps H t0 os = .ok (t, rs) →
      TInv H t ∧ t.view = (Dict.steps t0.view os).1 by
    obtain ⟨h1, h2⟩ := this os .new t rs tinv_new (by simpa [Table.new] using hn) ho h
    rw [iterate_ok h1 ignore f t.count 0 x (by omega), List.drop_zero, h2]
    rfl
  clear h hn ho rs t os
  intro os
  induction os with
  | nil =>
    intro t0 t rs h _ _ hr
    simp only [Table.steps, Outcome.ok.injEq, Prod.mk.injEq] at hr
    obtain ⟨rfl, _⟩ := hr
    exact ⟨h, rfl⟩
  | cons o os ih =>
    intro t0 t rs h hc ⟨ho, hos⟩ hr
    simp only [List.length_cons] at hc
    obtain ⟨t', h1, h2, h3, h4⟩ := step_ok h (by omega) ho
    obtain ⟨t'', h5, h6⟩ : ∃ t'' rs', Table.steps H t' os = .ok (t'', rs') ∧ t'' = t := by
      simp only [Table.steps, h1, Outcome.bind_ok] at hr
      cases hx : Table.steps H t' os with
      | ub => rw [hx] at hr; simp [Outcome.map] at hr
      | ok p =>
        rw [hx] at hr
        simp only [Outcome.map, Outcome.ok.injEq, Prod.mk.injEq] at hr
        exact ⟨p.1, p.2, rfl, hr.1⟩
    obtain ⟨h5, rfl⟩ := h6
    obtain ⟨h7, h8⟩ := ih t' t'' _ h2 (by omega) (by rw [h3]; exact hos) h5
    exact ⟨h7, by rw [h8, h3]; simp [Dict.steps]⟩

/-- Keys are always different, in the list. -/
theorem C77_keys {os : List (TOp α)} (ho : OpsOk [] os) : ((Dict.steps [] os).1.map (·.key)).Nodup := by
  suffices ∀ (os : List (TOp α)) (d : Dict α), (d.map (·.key)).Nodup → OpsOk d os → ((Dict.steps d os).1.map (·.key)).Nodup from this os [] (by simp) ho
  intro os
  induction os with
  | nil => exact fun d h _ => h
  | cons o os ih =>
    intro d h ⟨ho, hos⟩
    refine ih (d.step o).1 ?_ hos
    cases o with
    | add k v =>
      simp only [Dict.step, Dict.add]
      split
      · next hx =>
        split at hx
        · exact h
        · cases hx
      · next d' hx =>
        split at hx
        · cases hx
        · next hno =>
          simp only [Option.some.injEq] at hx
          subst hx
          rw [List.map_append, List.nodup_append]
          refine ⟨h, by simp, ?_⟩
          rintro a ha b hb rfl
          simp only [List.map_cons, List.map_nil, List.mem_singleton] at hb
          subst hb
          obtain ⟨e, he, hk⟩ := List.mem_map.mp ha
          exact hno ⟨e, he, hk⟩
    | get k mark =>
      simp only [Dict.step]
      split
      · have : (d.mark k).map (·.key) = d.map (·.key) := by
          unfold Dict.mark
          rw [List.map_map]
          apply List.map_congr_left
          intro e _
          simp only [Function.comp]
          split <;> rfl
        rw [this]; exact h
      · exact h
    | nth i => exact h
    | index k => exact h
    | sort p =>
      simp only [Dict.step]
      have hp : (d.reorder p).Perm d := by
        have := List.Perm.filterMap (fun i => d[i]?) ho
        refine this.trans (.of_eq ?_)
        apply List.ext_getElem?
        intro i
        rw [filterMap_total (by intro x hx; simp [List.mem_range.mp hx])]
        by_cases hi : i < d.length
        · simp [List.getElem?_range hi]
        · rw [List.getElem?_eq_none (by simpa using hi), List.getElem?_eq_none (by simpa using hi)]; rfl
      exact (hp.map _).nodup_iff.mpr h

/-- Both forms of `count2mask` give the least number of the form `2^n - 1` that is not less than their
argument, but at least 1. -/
theorem C77_mask {x : Nat} (hx : x < 2 ^ 32) :
    c2mClz x = c2m x ∧ x ≤ c2m x ∧ c2m x < 2 ^ 32 ∧ (∃ n, 1 ≤ n ∧ c2m x = 2 ^ n - 1) ∧ ∀ n, 1 ≤ n → x ≤ 2 ^ n - 1 → c2m x ≤ 2 ^ n - 1 := by
  have h0 : (x ||| 1) ≠ 0 := by
    intro h
    have := congrArg (fun n => n.testBit 0) h
    simp at this
  have h32 : x ||| 1 < 2 ^ 32 := Nat.or_lt_two_pow hx (by decide)
  have hlog : (x ||| 1).log2 < 32 := (Nat.log2_lt h0).mpr h32
  have hp : 0 < 2 ^ ((x ||| 1).log2 + 1) := Nat.two_pow_pos _
  refine ⟨c2m_clz hx, ?_, ?_, ⟨_, Nat.le_add_left 1 _, c2m_log hx⟩, fun n hn hxn => ?_⟩
  · rw [c2m_log hx]
    have : x ||| 1 < 2 ^ ((x ||| 1).log2 + 1) := Nat.lt_log2_self
    have : x ≤ x ||| 1 := Nat.left_le_or
    omega
  · rw [c2m_log hx]
    have : 2 ^ ((x ||| 1).log2 + 1) ≤ 2 ^ 32 := Nat.pow_le_pow_right (by omega) (by omega)
    omega
  · rw [c2m_log hx]
    have hpn : 0 < 2 ^ n := Nat.two_pow_pos _
    have hlt : x ||| 1 < 2 ^ n := Nat.or_lt_two_pow (by omega) (Nat.one_lt_two_pow (by omega))
    have := (Nat.log2_lt h0).mpr hlt
    have : 2 ^ ((x ||| 1).log2 + 1) ≤ 2 ^ n := Nat.pow_le_pow_right (by omega) (by omega)
    omega

/-! ### Examples -/

/-- Five keys that all have the same hash, one of them twice, a search that marks, a sort. -/
def exOps : List (TOp Nat) :=
  [.add [1] 10, .add [2] 20, .add [3] 30, .add [1] 11, .add [4] 40, .add [5] 50, .get [3] true, .get [9] false, .sort [4, 3, 2, 1, 0], .index [1], .nth 0, .add [6] 60, .index [6]]

example : OpsOk [] exOps ∧ exOps.length + 1 < 2 ^ 31 := by
  refine ⟨?_, by decide⟩
  refine ⟨trivial, trivial, trivial, trivial, trivial, trivial, trivial, trivial, ?_, trivial, trivial, trivial, trivial, trivial⟩
  show [4, 3, 2, 1, 0].Perm (List.range 5)
  decide

def natKeys (o : Outcome (Table Nat × List (TRes Nat))) : List (Bytes × Bool × Nat) × List (Option Int) :=
  match o with
  | .ub => ([], [])
  | .ok (t, rs) => (t.view.map fun e => (e.key, e.marked, e.val), rs.map fun | .num i => some i | .done b => some (if b then 1 else 0) | .val (some v) => some v | .val none => none | .entry e => e.map fun x => x.2)

example : natKeys (Table.steps (fun _ => 7) .new exOps) =
    ([([5], false, 50), ([4], false, 40), ([3], true, 30), ([2], false, 20), ([1], false, 10), ([6], false, 60)],
     [some 1, some 1, some 1, some 0, some 1, some 1, some 30, none, some 1, some 4, some 50, some 1, some 5]) := by decide +kernel

example : natKeys (Table.steps (fun k => k.length + (k.headD 0).toNat) .new exOps) = natKeys (Table.steps (fun _ => 0) .new exOps) := by decide +kernel

end Gdnsd.Vscf
