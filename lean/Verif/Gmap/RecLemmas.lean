/-
Records and what is found for them.
-/
import Verif.Gmap.InitLemmas
import Verif.Maps.Props
namespace Gdnsd.Gmap
open Vscf VscfSpec Conf ConfSpec SvcSpec GmapSpec
open Res (Dbl)
open Maps (LIST_MAX)

theorem nameIn_fun {g : Got} {t t' : Bytes} (h : NameIn g t) (h' : NameIn g t') : t = t' := by
  have h1 := nameIn_fetch h
  rw [nameIn_fetch h'] at h1
  exact (Option.some.inj (Outcome.ok.inj h1)).symm

theorem below_fun {r : Record} {i : Nat} {l l' : List Bytes} (h : Below r i l) (h' : Below r i l') : l = l' := by
  induction h generalizing l' with
  | limit => cases h' <;> first | rfl | omega
  | sub h1 h2 h3 h4 h5 _ ih =>
    cases h' with
    | limit => omega
    | sub g1 g2 g3 g4 g5 g6 =>
      rw [h2] at g2
      cases g2
      rw [upToZero_iff.mp h4, upToZero_iff.mp g4, ih g6]
    | blank g1 g2 g3 g4 =>
      rw [h2] at g2
      cases g2
      rw [upToZero_iff.mp h4, ← upToZero_iff.mp g4] at h5
      exact absurd rfl h5
    | city _ g2 _ _ => exact nomatch h2.symm.trans g2
    | done _ g2 _ => exact nomatch h2.symm.trans g2
  | blank h1 h2 h3 h4 =>
    cases h' with
    | limit => omega
    | sub g1 g2 g3 g4 g5 g6 =>
      rw [h2] at g2
      cases g2
      rw [upToZero_iff.mp g4, ← upToZero_iff.mp h4] at g5
      exact absurd rfl g5
    | blank _ _ _ _ => rfl
    | city _ g2 _ _ => exact nomatch h2.symm.trans g2
    | done _ g2 _ => exact nomatch h2.symm.trans g2
  | city h1 h2 h3 h4 =>
    cases h' with
    | limit => omega
    | sub _ g2 _ _ _ _ => exact nomatch h2.symm.trans g2
    | blank _ g2 _ _ => exact nomatch h2.symm.trans g2
    | city _ _ g3 _ => rw [nameIn_fun h3 g3]
    | done _ _ g3 => exact absurd (nameIn_fun h3 g3) h4
  | done h1 h2 h3 =>
    cases h' with
    | limit => rfl
    | sub _ g2 _ _ _ _ => exact nomatch h2.symm.trans g2
    | blank _ g2 _ _ => exact nomatch h2.symm.trans g2
    | city _ _ g3 g4 => exact absurd (nameIn_fun g3 h3) g4
    | done _ _ _ => rfl

theorem place_fun {city : Bool} {r : Record} {l l' : List Bytes} (h : Place city r l) (h' : Place city r l') : l = l' := by
  cases h with
  | nowhere h =>
    cases h' with
    | nowhere _ => rfl
    | continent g1 g2 _ => exact absurd (nameIn_fun g1 h) g2
    | country g1 g2 _ _ _ => exact absurd (nameIn_fun g1 h) g2
    | below g1 g2 _ _ _ _ => exact absurd (nameIn_fun g1 h) g2
  | continent h1 h2 h3 =>
    cases h' with
    | nowhere g1 => exact absurd (nameIn_fun h1 g1) h2
    | continent g1 _ _ => rw [nameIn_fun h1 g1]
    | country _ _ g3 g4 _ => exact absurd (nameIn_fun g3 h3) g4
    | below _ _ g3 g4 _ _ => exact absurd (nameIn_fun g3 h3) g4
  | country h1 h2 h3 h4 h5 =>
    cases h' with
    | nowhere g1 => exact absurd (nameIn_fun h1 g1) h2
    | continent _ _ g3 => exact absurd (nameIn_fun h3 g3) h4
    | country g1 _ g3 _ _ => rw [nameIn_fun h1 g1, nameIn_fun h3 g3]
    | below _ _ _ _ g5 _ => rw [h5] at g5; cases g5
  | below h1 h2 h3 h4 h5 h6 =>
    cases h' with
    | nowhere g1 => exact absurd (nameIn_fun h1 g1) h2
    | continent _ _ g3 => exact absurd (nameIn_fun h3 g3) h4
    | country _ _ _ _ g5 => rw [h5] at g5; cases g5
    | below g1 _ g3 _ _ g6 => rw [nameIn_fun h1 g1, nameIn_fun h3 g3, below_fun h6 g6]

/-! ### Safety -/

theorem fetch_safe {g : Got} (h : ∀ t, g = .text t → t.length < 128) : fetch g ≠ .ub := by
  cases g with
  | text t => have := h t rfl; unfold fetch copy; dsimp only; rw [if_neg (by omega)]; nofun
  | absent => nofun
  | error => nofun

theorem map_safe {α β : Type} {x : Outcome α} {f : α → β} (h : x ≠ .ub) : x.map f ≠ .ub := by
  cases x with
  | ub => exact absurd rfl h
  | ok _ => nofun

theorem callback_safe {city : Bool} {r : Record} (h : Short r) (out : Bool) (n : Nat) : callback city r out n ≠ .ub := by
  unfold callback
  split
  · nofun
  split
  · exact map_safe (fetch_safe h.continent)
  split
  · exact map_safe (fetch_safe h.country)
  split
  · nofun
  · cases hs : r.sub (n - 2) with
    | text t => have := h.sub _ t hs; dsimp only; unfold copy; rw [if_neg (by omega)]; nofun
    | absent => exact map_safe (fetch_safe h.city)
    | error => nofun

theorem callback_end {city : Bool} {r : Record} {out : Bool} {n : Nat} (h : 12 ≤ n) : callback city r out n = .ok (some ([], true)) := by
  unfold callback
  split
  · rfl
  · rw [if_neg (by omega), if_neg (by omega), if_pos (by omega)]

theorem llc_safe {city : Bool} {r : Record} (h : Short r) : ∀ (f : Nat) {t : Dcmap} {n : Nat} {out : Bool}, 1 ≤ f → 13 ≤ n + f → llc city r f t n out ≠ .ub
  | 0, _, _, _, h1, _ => by omega
  | f + 1, t, n, out, _, h2 => by
    match t with
    | .list _ => unfold llc; nofun
    | .node _ .nil => unfold llc; nofun
    | .node d (.cons nam m ks) =>
      unfold llc
      by_cases hn : 12 ≤ n
      · rw [callback_end hn, Outcome.bind_ok]
        dsimp only
        rw [if_pos rfl]
        nofun
      · cases hc : callback city r out n with
        | ub => exact absurd hc (callback_safe h out n)
        | ok x =>
          rw [Outcome.bind_ok]
          match x with
          | none => nofun
          | some (y, out') =>
            dsimp only
            split
            · nofun
            · cases (Kids.cons nam m ks).search y with
              | some t => exact llc_safe h f (by omega) (by omega)
              | none =>
                dsimp only
                split
                · exact llc_safe h f (by omega) (by omega)
                · nofun

/-! ### Lists -/

theorem leads_auto {names : List Bytes} {es : List (Entry Val)} {o r : Option Bytes} {n : Nat} {xs : List Bytes} (h : Leads names false es o n xs r) (ho : o ≠ none) : r ≠ none := by
  have hd : ∀ {es o r}, Default names false es o r → o ≠ none → r ≠ none := by
    intro es o r h ho
    cases h with
    | own _ h2 => rintro rfl; exact listOf_false h2
    | outer _ => exact ho
  induction h with
  | nothing h1 => exact hd h1 ho
  | list _ h2 => rintro rfl; exact listOf_false h2
  | sub _ h2 _ ih => exact ih (hd h2 ho)
  | unknown _ _ h3 => exact hd h3 ho
  | deeper _ _ _ ih => exact ih ho

theorem every_toNat {names : List Bytes} (h : names.length ≤ 255) : (everyDc names).map UInt8.toNat = List.range' 1 names.length := by
  unfold everyDc
  rw [List.map_map]
  conv => rhs; rw [← List.map_id (List.range' 1 names.length)]
  refine List.map_congr_left fun n hn => ?_
  rw [List.mem_range'_1] at hn
  show (UInt8.ofNat n).toNat = n
  rw [UInt8.toNat_ofNat']
  omega

theorem located_count {lib : Lib} {names : List Bytes} {cs : List (Entry Val)} {ds : List Dc} (hn : (cs.map (·.key)).Nodup) (hz : ∀ e ∈ cs, (0 : UInt8) ∉ e.key) (h : Located lib names cs ds) :
    cs.length ≤ ds.length := by
  have hsub : cs.map (·.key) ⊆ names := by
    intro k hk
    obtain ⟨e, he, rfl⟩ := List.mem_map.mp hk
    obtain ⟨n, d, h1, i, _, h2, _⟩ := h.keys e he
    obtain rfl := upToZero_iff.mp h1
    rw [cstr_self (hz e he)] at h2
    exact List.mem_of_getElem? h2
  have := hn.length_le_of_subset hsub
  rw [List.length_map, ← h.all, List.length_map] at this
  exact this

theorem limit_le {es : List (Entry Val)} {n k : Nat} (h : LimitOf es n k) : k ≤ n := by
  cases h <;> omega

theorem ofNat_map {l : List Nat} (h : ∀ a ∈ l, a ≤ 255) : (l.map Nat.toUInt8).map UInt8.toNat = l := by
  rw [List.map_map]
  conv => rhs; rw [← List.map_id l]
  refine List.map_congr_left fun n hn => ?_
  have := h n hn
  show (UInt8.ofNat n).toNat = n
  rw [UInt8.toNat_ofNat']
  omega

theorem nearest_of {lt : Nat → Nat → Bool} {n limit : Nat} {l0 : Bytes} (hn : n ≤ 254) (h0 : (l0.map UInt8.toNat).Perm (List.range' 1 n)) (hl : limit ≤ n) (hw : Maps.Weak lt) :
    ∃ l, Maps.cityList n limit (l0.map UInt8.toNat) lt = .ok l ∧ Nearest lt limit n l0 (l.map Nat.toUInt8) := by
  obtain ⟨l, h1, h2, h3, h4, h5, h6⟩ := Maps.C36_order_partial hn h0 hl hw
  have hb : (l.map Nat.toUInt8).map UInt8.toNat = l := ofNat_map fun a ha => by have := h4 a ha; omega
  have hmem : ∀ a : UInt8, a ∈ l.map Nat.toUInt8 ↔ a.toNat ∈ l := by
    intro a
    constructor
    · intro h; rw [← hb]; exact List.mem_map_of_mem h
    · intro h
      refine List.mem_map.mpr ⟨_, h, ?_⟩
      exact UInt8.ofNat_toNat
  refine ⟨l, h1, by rw [List.length_map, h2], ?_, fun a ha => h4 _ ((hmem a).mp ha), ?_, fun a ha b h7 h8 h9 => h6 _ ((hmem a).mp ha) _ h7 h8 fun h => h9 ((hmem b).mpr h)⟩
  · rw [← hb] at h3
    exact h3.of_map _ fun a b h1 h2 => h1 (by rw [h2])
  · rw [← hb] at h5
    exact List.pairwise_map.mp h5

/-- What is found, when there is a tree. -/
theorem lookup_built {names : List Bytes} {auto : Bool} {L : List Bytes} {o : Option Bytes} {ms : List (Entry Val)} {t : Dcmap} {city : Bool} {r : Record} {place : List Bytes}
    (h : Built names auto L o (.hash ms) t) (hp : Place city r place) : ∃ ref x, lookupLoc city r t = .ok (some ref) ∧ Stands L ref x ∧ Leads names auto ms o 0 place x := by
  cases h with
  | list h _ _ => exact absurd rfl (h ms)
  | node h1 h2 h3 => exact llc_leads 13 (by have := place_length hp; omega) (.start hp) h1 h2 h3

end Gdnsd.Gmap
