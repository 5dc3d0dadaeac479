/-
What is resolved after references have been mapped.
-/
import Verif.Refs.Stores
namespace Gdnsd.Refs
open RefsSpec
open Meta (Target Dc Resource)

/-! ### What a resolver looks at -/

section
variable {tbl : List UInt32} {a b : Plug.MetaRes}

theorem filterList_congr {xs ys : List (Option Plug.Dc)} : ∀ {l : Bytes} {room : Nat}, (∀ d ∈ l, xs[d.toNat]? = ys[d.toNat]?) → Plug.filterList xs room l = Plug.filterList ys room l
  | [], _, _ => rfl
  | d :: l, room, h => by
    unfold Plug.filterList
    rw [h d (by simp)]
    have ih : ∀ room, Plug.filterList xs room l = Plug.filterList ys room l := fun room => filterList_congr fun d hd => h d (by simp [hd])
    simp only [ih]

theorem filterList_mem {xs : List (Option Plug.Dc)} : ∀ {l l' : Bytes} {room : Nat}, Plug.filterList xs room l = .ok l' → ∀ d ∈ l', d ∈ l
  | [], _, _, h => by cases h
  | d :: l, l', room, h => by
    unfold Plug.filterList at h
    split at h
    · split at h
      · cases h
      · rename_i h0 _
        cases h
        intro x hx
        simp only [List.mem_cons, List.not_mem_nil, or_false] at hx
        subst hx
        simp [h0]
    · split at h
      · cases h
      · intro x hx
        exact List.mem_cons_of_mem _ (filterList_mem h x hx)
      · split at h
        · cases h
        · cases hf : Plug.filterList xs (room - 1) l with
          | ub => rw [hf] at h; cases h
          | ok l2 =>
            rw [hf] at h
            cases h
            intro x hx
            rcases List.mem_cons.mp hx with rfl | hx
            · simp
            · exact List.mem_cons_of_mem _ (filterList_mem hf x hx)

theorem skipFirst_mem {skip : Bool} {l l' : Bytes} (h : Plug.skipFirst skip l = .ok l') : ∀ d ∈ l', d ∈ l := by
  unfold Plug.skipFirst at h
  split at h
  · cases h0 : rd l 0 with
    | ub => rw [h0] at h; cases h
    | ok x =>
      rw [h0] at h
      dsimp only [Outcome.bind] at h
      split at h
      · cases h; exact fun _ h => h
      · cases h1 : rd l 1 with
        | ub => rw [h1] at h; cases h
        | ok y =>
          rw [h1] at h
          dsimp only [Outcome.bind] at h
          split at h <;> cases h
          · exact fun _ h => h
          · exact fun _ h => List.mem_of_mem_drop h
  · cases h; exact fun _ h => h

theorem rd_mem {l : Bytes} {x : UInt8} (h : rd l 0 = .ok x) : x ∈ l := by
  cases l with
  | nil => cases h
  | cons y l => cases h; simp

theorem dcLoop_congr (hn : a.numDcs = b.numDcs) : ∀ {l : Bytes} {rv : UInt32} {r : Plug.Result}, (∀ d ∈ l, a.dcs[d.toNat]? = b.dcs[d.toNat]?) → Plug.dcLoop tbl a l rv r = Plug.dcLoop tbl b l rv r
  | [], _, _, _ => rfl
  | d :: l, rv, r, h => by
    unfold Plug.dcLoop Plug.getDc
    rw [h d (by simp), hn]
    have ih : ∀ rv r, Plug.dcLoop tbl a l rv r = Plug.dcLoop tbl b l rv r := fun rv r => dcLoop_congr hn fun d hd => h d (by simp [hd])
    simp only [ih]

theorem outcome_congr {α β : Type} {x y : Outcome α} {f g : α → Outcome β} (h : x = y) (hf : ∀ v, y = .ok v → f v = g v) : x.bind f = y.bind g := by
  subst h
  cases x with
  | ub => rfl
  | ok v => exact hf v rfl

/-- Only the datacenters of the list matter. -/
theorem metaResolve_congr {synth : UInt8} {map : Bytes × Nat} {r : Plug.Result} (h1 : a.numDcs = b.numDcs) (h2 : a.numDefined = b.numDefined) (h3 : a.skipFirst = b.skipFirst)
    (h : ∀ d ∈ (if synth ≠ 0 then ([synth, 0], 0) else map).1, a.dcs[d.toNat]? = b.dcs[d.toNat]?) : Plug.metaResolve tbl a synth map r = Plug.metaResolve tbl b synth map r := by
  unfold Plug.metaResolve
  dsimp only
  generalize (if synth ≠ 0 then ([synth, 0], 0) else map) = start at h ⊢
  rw [h1, h2, h3]
  refine outcome_congr (by split; exact filterList_congr h; rfl) fun l hl => ?_
  have g1 : ∀ d ∈ l, a.dcs[d.toNat]? = b.dcs[d.toNat]? := by
    intro d hd
    split at hl
    · exact h d (filterList_mem hl d hd)
    · cases hl; exact h d hd
  refine outcome_congr rfl fun l2 hl2 => ?_
  have g2 : ∀ d ∈ l2, a.dcs[d.toNat]? = b.dcs[d.toNat]? := fun d hd => g1 d (skipFirst_mem hl2 d hd)
  refine outcome_congr rfl fun first hf => ?_
  have e : Plug.getDc a.dcs first = Plug.getDc b.dcs first := by unfold Plug.getDc; rw [g2 first (rd_mem hf)]
  rw [dcLoop_congr h1 g2, e]

end

/-! ### What a resolver says -/

theorem cells_congr {pn rn : Bytes} {sub : Nat → Bytes → Plug.Resolver} {sub' : Bytes → Option Bytes → Plug.Resolver} {map : Nat → Option Nat} {n : Nat} :
    ∀ {ds : List Dc} {is : List Nat}, (∀ d, ds.find? (fun d => d.idx == n) = some d → ∀ q m, d.target = .res q m → sub n q = sub' q m) →
      (cells pn rn sub map ds is).find? (fun p => p.1 == n) = (Meta.numbered pn rn sub' map ds is).find? fun p => p.1 == n
  | [], _, _ => rfl
  | d :: ds, is, h => by
    rw [cells, Meta.numbered, List.find?_cons, List.find?_cons]
    dsimp only
    by_cases hd : d.idx = n
    · have hb : (d.idx == n) = true := by simpa using hd
      rw [List.find?_cons] at h
      simp only [hb, Option.some.injEq, forall_eq'] at h
      simp only [hb]
      cases ht : d.target with
      | cname t x svcs => rfl
      | res q m =>
        have := h q m ht
        dsimp only
        rw [hd, this]
    · have hb : (d.idx == n) = false := by simpa using hd
      rw [List.find?_cons] at h
      simp only [hb] at h ⊢
      exact cells_congr h

theorem resource_congr {pn : Bytes} {sub : Nat → Bytes → Plug.Resolver} {sub' : Bytes → Option Bytes → Plug.Resolver} {map : Nat → Option Nat} {r : Resource} {is : List Nat} {n : Nat}
    (h : n ≠ 0 → n ≤ r.names.length → ∀ d, dcAt r n = some d → ∀ q m, d.target = .res q m → sub n q = sub' q m) :
    (resource pn sub map r is).dcs[n]? = (r.numbered pn sub' map is).dcs[n]? := by
  unfold resource Resource.numbered
  dsimp only
  cases n with
  | zero => rfl
  | succ n =>
    rw [List.getElem?_cons_succ, List.getElem?_cons_succ, List.getElem?_map, List.getElem?_map]
    by_cases hn : n < r.names.length
    · rw [List.getElem?_range hn]
      simp only [Option.map_some]
      rw [cells_congr (h (by omega) (by omega))]
    · rw [List.getElem?_eq_none (by simpa using hn)]
      rfl

section
variable {c : Conf} {zone : Option Bytes} {env : Env} {σ : Cells}

/-- With what was mapped stored, numbers resolve to what names mean. -/
theorem resolve_meaning (hs : ∀ p rs, find c p = some (.multi rs) → rs.length ≤ 2 ^ 24) :
    ∀ {k : Nat} {p : Bytes} {rn : Option Bytes} {n : Nat}, (mapRes c zone k p rn).res = .ok n → (∀ s, .found s ∈ (mapRes c zone k p rn).writes → RightCell c σ s) →
      resolve c env σ k p n = meaning c env k p rn
  | 0, _, _, _, h, _ => by cases h
  | k + 1, p, rn, n, h, hr => by
    rcases mapRes_cases h with ⟨num, cn, h1, h2, _⟩ | ⟨rs, m, i, r, dc, hm, hw⟩
    · rw [resolve, meaning, h1]
      dsimp only
      rw [h2]
    · rw [hw] at hr
      obtain ⟨h1, rfl, h3, h4, h5, h6, h7⟩ := hm
      obtain ⟨g1, g2⟩ := firstOf_iff.mp h3
      have hi : i < 2 ^ 24 := Nat.lt_of_lt_of_le (List.getElem?_eq_some_iff.mp g2).1 (hs p rs h1)
      rw [number_eq hi h5] at h7
      have hdc : dc < 128 := by
        refine Decidable.byContradiction fun hc => ?_
        rw [if_neg hc] at h7
        cases h7
      rw [if_pos hdc] at h7
      cases h7
      have hsynth : only r.names (splitSlash m).2 = UInt8.ofNat dc := by
        cases hsl : (splitSlash m).2 with
        | none => rw [hsl] at h4; rw [asked_none.mp h4]; rfl
        | some dn => rw [hsl] at h4; rw [(asked_iff.mp h4).1]; rfl
      rw [resolve, meaning, h1]
      dsimp only
      rw [Plug.splitWord i dc hi h5]
      dsimp only
      rw [g1, g2]
      dsimp only
      rw [g2]
      dsimp only
      rw [hsynth]
      have hd := (mapDcs_done (zone := zone) h1 g2 (fun q m n hn => mapRes_done hn) h6).2
      funext res
      refine metaResolve_congr rfl rfl rfl fun d hdm => resource_congr fun hn0 hnl dd hdd q m' ht => ?_
      have hj : d.toNat ∈ (if dc ≠ 0 then [dc] else (List.range r.names.length).map (· + 1)) := by
        by_cases h0 : dc = 0
        · rw [if_neg (by simp [h0])]
          simp only [List.mem_map, List.mem_range]
          exact ⟨d.toNat - 1, by omega, by omega⟩
        · rw [if_pos h0]
          have hne : UInt8.ofNat dc ≠ 0 := by
            intro e
            have := congrArg UInt8.toNat e
            rw [UInt8.toNat_ofNat', Nat.mod_eq_of_lt (by omega)] at this
            exact h0 this
          rw [if_pos hne] at hdm
          simp only [List.mem_cons, List.not_mem_nil, or_false] at hdm
          rcases hdm with rfl | rfl
          · rw [UInt8.toNat_ofNat', Nat.mod_eq_of_lt (by omega)]
            simp
          · exact absurd rfl hn0
      obtain ⟨hf, hsub⟩ := hd d.toNat hj dd q m' hdd ht
      obtain ⟨r1, r2⟩ := hr _ hf
      rw [if_pos r1]
      obtain ⟨_, n, hn⟩ := (mapDcs_ok.mp h6 d.toNat hj dd hdd).2 q m' ht
      have : (σ ⟨p, i, d.toNat⟩).num = n := by
        obtain ⟨rs', r', d', q', m2, z', k', a1, a2, a3, a4, a5⟩ := r2
        dsimp only at a1 a2 a3 a5
        rw [h1] at a1
        cases a1
        rw [g2] at a2
        cases a2
        rw [hdd] at a3
        cases a3
        rw [ht] at a4
        cases a4
        exact mapRes_det a5 hn
      rw [this]
      exact resolve_meaning hs hn fun s hs' => hr s (hsub _ hs')

end

/-! ### Names as answers -/

section
variable {tbl : List UInt32} {P : Plug.Result → Prop}

theorem resolveDc_keeps {dc : Plug.Dc} {r : Plug.Result} {s : UInt32} {r' : Plug.Result} (h : Plug.resolveDc tbl dc r = .ok (s, r')) : ∃ s', Plug.resolveInner tbl dc r = .ok (s', r') := by
  unfold Plug.resolveDc at h
  cases h1 : Plug.resolveInner tbl dc r with
  | ub => rw [h1] at h; cases h
  | ok v =>
    obtain ⟨s1, r1⟩ := v
    rw [h1] at h
    dsimp only [Outcome.bind] at h
    cases h2 : Plug.mapOverride tbl dc.mapIdx s1 with
    | ub => rw [h2] at h; cases h
    | ok s2 =>
      rw [h2] at h
      dsimp only [Outcome.bind] at h
      cases h3 : Plug.override tbl dc.dcIdx s2 with
      | ub => rw [h3] at h; cases h
      | ok s3 => rw [h3] at h; cases h; exact ⟨s1, rfl⟩

theorem dcLoop_keeps {res : Plug.MetaRes} : ∀ {l : Bytes} {rv : UInt32} {r : Plug.Result} {s r'},
    (∀ d ∈ l, ∀ dc, res.dcs[d.toNat]? = some (some dc) → ∀ r s r', Plug.resolveDc tbl dc (Plug.resetScope (Plug.wipe r)) = .ok (s, r') → P r') → P r → Plug.dcLoop tbl res l rv r = .ok (s, r') → P r'
  | [], _, _, _, _, _, _, h => by cases h
  | d :: l, rv, r, s, r', hd, hr, h => by
    unfold Plug.dcLoop at h
    split at h
    · cases h; exact hr
    · cases ha : assert (decide (d.toNat ≤ res.numDcs)) with
      | ub => rw [ha] at h; cases h
      | ok _ =>
        rw [ha] at h
        dsimp only [Outcome.bind] at h
        cases hg : Plug.getDc res.dcs d with
        | ub => rw [hg] at h; cases h
        | ok dc =>
          rw [hg] at h
          dsimp only [Outcome.bind] at h
          have hdc : res.dcs[d.toNat]? = some (some dc) := by
            unfold Plug.getDc at hg
            split at hg
            · rename_i he; cases hg; exact he
            · cases hg
          cases h1 : Plug.resolveDc tbl dc (Plug.resetScope (Plug.wipe r)) with
          | ub => rw [h1] at h; cases h
          | ok v =>
            obtain ⟨s1, r1⟩ := v
            rw [h1] at h
            dsimp only [Outcome.bind] at h
            have hp := hd d (by simp) dc hdc r s1 r1 h1
            cases h2 : Plug.assertValid s1 with
            | ub => rw [h2] at h; cases h
            | ok _ =>
              rw [h2] at h
              dsimp only [Outcome.bind] at h
              split at h
              · cases h; exact hp
              · exact dcLoop_keeps (fun d hd' => hd d (by simp [hd'])) hp h

theorem obind {α β : Type} {x : Outcome α} {f : α → Outcome β} {v : β} (h : x.bind f = .ok v) : ∃ a, x = .ok a ∧ f a = .ok v := by
  cases x with
  | ub => cases h
  | ok a => exact ⟨a, rfl, h⟩

theorem getDc_ok {dcs : List (Option Plug.Dc)} {d : UInt8} {dc : Plug.Dc} (hg : Plug.getDc dcs d = .ok dc) : dcs[d.toNat]? = some (some dc) := by
  unfold Plug.getDc at hg
  split at hg
  · rename_i he; cases hg; exact he
  · cases hg

/-- A result is what one of the datacenters of the list has answered, or nothing. -/
theorem metaResolve_keeps {res : Plug.MetaRes} {synth : UInt8} {map : Bytes × Nat} {r : Plug.Result} {s r'}
    (hP : ∀ r n, P r → P (Plug.addScope r n))
    (hd : ∀ d ∈ (if synth ≠ 0 then ([synth, 0], 0) else map).1, ∀ dc, res.dcs[d.toNat]? = some (some dc) → ∀ r s r', Plug.resolveDc tbl dc (Plug.resetScope (Plug.wipe r)) = .ok (s, r') → P r')
    (hr : P r) (h : Plug.metaResolve tbl res synth map r = .ok (s, r')) : P r' := by
  unfold Plug.metaResolve at h
  dsimp only at h
  generalize (if synth ≠ 0 then ([synth, 0], 0) else map) = start at h hd
  obtain ⟨l, h1, h⟩ := obind h
  obtain ⟨l2, h2, h⟩ := obind h
  obtain ⟨first, h3, h⟩ := obind h
  obtain ⟨v, heq, h⟩ := obind h
  obtain ⟨_, _, h⟩ := obind h
  cases h
  have g1 : ∀ d ∈ l, d ∈ start.1 := by
    split at h1
    · exact filterList_mem h1
    · cases h1; exact fun _ h => h
  have g2 : ∀ d ∈ l2, d ∈ start.1 := fun d hd => g1 d (skipFirst_mem h2 d hd)
  refine hP _ _ ?_
  split at heq
  · cases heq; exact hr
  · obtain ⟨⟨s1, r1⟩, h4, heq⟩ := obind heq
    have hp := dcLoop_keeps (fun d hd' => hd d (g2 d hd')) hr h4
    dsimp only at heq
    split at heq
    · obtain ⟨dc, hg, heq⟩ := obind heq
      obtain ⟨⟨s2, r2⟩, h5, heq⟩ := obind heq
      cases heq
      exact hd first (g2 first (rd_mem h3)) dc (getDc_ok hg) r1 s2 r2 h5
    · cases heq; exact hp

end

end Gdnsd.Refs
