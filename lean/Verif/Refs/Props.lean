/-
C106: references from zones to resources of plugins.
-/
import Verif.Refs.Answers
open Gdnsd.Conf (str)
namespace Gdnsd.Refs
open RefsSpec
open Meta (Target Dc Resource)

/-! ### Which references are accepted -/

theorem bounded {α : Type} {Q : α → Nat → Prop} : ∀ (l : List α), (∀ x ∈ l, ∃ k, ∀ k' ≥ k, Q x k') → ∃ K, ∀ x ∈ l, ∀ k' ≥ K, Q x k'
  | [], _ => ⟨0, nofun⟩
  | x :: l, h => by
    obtain ⟨k1, h1⟩ := h x (by simp)
    obtain ⟨k2, h2⟩ := bounded l fun y hy => h y (by simp [hy])
    refine ⟨max k1 k2, fun y hy k' hk => ?_⟩
    rcases List.mem_cons.mp hy with rfl | hy
    · exact h1 k' (by omega)
    · exact h2 y hy k' (by omega)

theorem dcAt_some {r : Resource} {j : Nat} {d : Dc} (h : dcAt r j = some d) : d ∈ r.dcs ∧ d.idx = j :=
  ⟨List.mem_of_find?_eq_some h, by simpa using List.find?_some h⟩

theorem dcAt_of {r : Resource} (hn : (r.dcs.map (·.idx)).Nodup) {d : Dc} (hd : d ∈ r.dcs) : dcAt r d.idx = some d := by
  unfold dcAt
  generalize r.dcs = ds at hn hd
  induction ds with
  | nil => cases hd
  | cons a ds ih =>
    rw [List.map_cons, List.nodup_cons] at hn
    rw [List.find?_cons]
    rcases List.mem_cons.mp hd with rfl | hd
    · simp
    · have : (a.idx == d.idx) = false := by
        have : a.idx ≠ d.idx := fun he => hn.1 (List.mem_map.mpr ⟨d, hd, he.symm⟩)
        simpa using this
      simp only [this]
      exact ih hn.2 hd

theorem usable_of {c : Conf} (hs : Sound c) {zone : Option Bytes} : ∀ {k : Nat} {p : Bytes} {rn : Option Bytes} {n : Nat}, (mapRes c zone k p rn).res = .ok n → Usable c zone p rn n
  | 0, _, _, _, h => by cases h
  | k + 1, p, rn, n, h => by
    rcases mapRes_cases h with ⟨num, cn, h1, h2, h3, _⟩ | ⟨rs, m, i, r, dc, h1, _⟩
    · exact .leaf h1 h2 h3
    · obtain ⟨h1, rfl, h3, h4, h5, h6, h7⟩ := h1
      have hr := (firstOf_iff.mp h3).2
      obtain ⟨s1, s2⟩ := hs p rs h1
      obtain ⟨s3, s4⟩ := s2 r (List.mem_of_getElem? hr)
      have hi : i < 2 ^ 24 := Nat.lt_of_lt_of_le (List.getElem?_eq_some_iff.mp hr).1 s1
      rw [number_eq hi h5] at h7
      have hdc : dc < 128 := by
        refine Decidable.byContradiction fun hc => ?_
        rw [if_neg hc] at h7
        cases h7
      rw [if_pos hdc] at h7
      cases h7
      have hj : ∀ d ∈ r.dcs, Matters dc d → DcFine c zone (mapRes c zone k) d := by
        intro d hd hm
        refine mapDcs_ok.mp h6 d.idx ?_ d (dcAt_of s4 hd)
        split
        · rename_i h0
          rcases hm with hm | hm
          · exact absurd hm h0
          · simp [hm]
        · have := s3 d hd
          exact List.mem_map.mpr ⟨d.idx - 1, by simp; omega, by omega⟩
      refine .multi (fun d => match d.target with | .res q m => (match (mapRes c zone k q m).res with | .ok n => n | .error _ => 0) | .cname _ _ _ => 0)
        h1 (splits_iff.mpr rfl) h3 h4 hdc (fun d hd hm t x svcs ht => (hj d hd hm).1 t x svcs ht) fun d hd hm q m ht => ?_
      obtain ⟨_, n, hn⟩ := (hj d hd hm).2 q m ht
      simp only [ht, hn]
      exact usable_of hs hn

theorem of_usable {c : Conf} (hs : Sound c) {zone : Option Bytes} {p : Bytes} {rn : Option Bytes} {n : Nat} (h : Usable c zone p rn n) :
    ∃ k, ∀ k' ≥ k, (mapRes c zone k' p rn).res = .ok n := by
  induction h with
  | @leaf p num cn rn i h1 h2 h3 =>
    refine ⟨1, fun k' hk => ?_⟩
    obtain ⟨k, rfl⟩ : ∃ k, k' = k + 1 := ⟨k' - 1, by omega⟩
    rw [mapRes, h1]
    dsimp only
    rw [h2]
    exact bind_ok.mpr ⟨(), checkNames_ok.mpr h3, rfl⟩
  | @multi p rs m base dn i r dc nums h1 h2 h3 h4 h5 h6 h7 ih =>
    have h2 := splits_iff.mp h2
    have hr := (firstOf_iff.mp h3).2
    obtain ⟨s1, s2⟩ := hs p rs h1
    have hi : i < 2 ^ 24 := Nat.lt_of_lt_of_le (List.getElem?_eq_some_iff.mp hr).1 s1
    obtain ⟨K, hK⟩ := bounded (Q := fun d k => Matters dc d → ∀ q m, d.target = .res q m → (mapRes c zone k q m).res = .ok (nums d)) r.dcs fun d hd => by
      by_cases hm : Matters dc d
      · cases ht : d.target with
        | cname t x svcs => exact ⟨0, fun _ _ _ _ _ h => by cases h⟩
        | res q m =>
          obtain ⟨k, hk⟩ := ih d hd hm q m ht
          exact ⟨k, fun k' hk' _ _ _ h => by cases h; exact hk k' hk'⟩
      · exact ⟨0, fun _ _ h => absurd h hm⟩
    refine ⟨K + 1, fun k' hk => ?_⟩
    obtain ⟨k, rfl⟩ : ∃ k, k' = k + 1 := ⟨k' - 1, by omega⟩
    refine mapRes_multi (rs := rs) (i := i) (r := r) (dc := dc) ⟨h1, rfl, by rw [h2]; exact h3, by rw [h2]; exact h4, by omega, ?_, by rw [number_eq hi (by omega), if_pos h5]; rfl⟩
    refine mapDcs_ok.mpr fun j hj d hd => ?_
    obtain ⟨hd1, hd2⟩ := dcAt_some hd
    have hm : Matters dc d := by
      split at hj
      · simp only [List.mem_cons, List.not_mem_nil, or_false] at hj
        exact Or.inr (hd2.trans hj)
      · rename_i h0
        exact Or.inl (by simpa using h0)
    refine ⟨fun t x svcs ht => h6 d hd1 hm t x svcs ht, fun q m ht => ?_⟩
    have := hK d hd1 k (by omega) hm q m ht
    exact ⟨mapRes_kind this, _, this⟩

/-- **What is accepted.** A reference gets a number exactly if the plugin exists and answers, has a resource of that name, and
so have all that the resource refers to in turn, and no name may be the answer where only addresses may or that is in the zone. -/
theorem C106_accepts {c : Conf} (hs : Sound c) (zone : Option Bytes) (p : Bytes) (rn : Option Bytes) (n : Nat) :
    (∃ k, (mapRes c zone k p rn).res = .ok n) ↔ Usable c zone p rn n :=
  ⟨fun ⟨_, h⟩ => usable_of hs h, fun h => (of_usable hs h).imp fun k hk => hk k (Nat.le_refl k)⟩

/-- The number of a resource is the same for all zones. -/
theorem C106_number {c : Conf} (hs : Sound c) {z z' : Option Bytes} {p : Bytes} {rn : Option Bytes} {n n' : Nat} (h : Usable c z p rn n) (h' : Usable c z' p rn n') : n = n' := by
  obtain ⟨k, hk⟩ := of_usable hs h
  obtain ⟨k', hk'⟩ := of_usable hs h'
  exact mapRes_det (hk k (Nat.le_refl _)) (hk' k' (Nat.le_refl _))

/-! ### No undefined behaviour -/

/-- A call that ends, and not the daemon with it. -/
def Ends {α : Type} (x : Act α) : Prop := (∃ a, x.res = .ok a) ∨ x.res = .error .rejected

theorem bind_ends {α β : Type} {x : Act α} {f : α → Act β} (hx : Ends x) (hf : ∀ a, x.res = .ok a → Ends (f a)) : Ends (x.bind f) := by
  rcases hx with ⟨a, ha⟩ | hx
  · rcases hf a ha with ⟨b, hb⟩ | hb
    · exact Or.inl ⟨b, bind_ok.mpr ⟨a, ha, hb⟩⟩
    · refine Or.inr ?_
      unfold Act.bind
      rw [ha]
      exact hb
  · refine Or.inr ?_
    unfold Act.bind
    rw [hx]

theorem checkName_ends {zone : Option Bytes} {d : Bytes} (h : Readable zone d) : Ends (checkName zone d) := by
  unfold checkName
  cases zone with
  | none => exact Or.inr rfl
  | some z =>
    obtain ⟨b, hb⟩ := h z rfl
    dsimp only
    rw [hb]
    cases b
    · exact Or.inl ⟨(), rfl⟩
    · exact Or.inr rfl

theorem checkNames_ends {zone : Option Bytes} : ∀ {ds : List Bytes}, (∀ d ∈ ds, Readable zone d) → Ends (checkNames zone ds)
  | [], _ => Or.inl ⟨(), rfl⟩
  | d :: ds, h => bind_ends (checkName_ends (h d (by simp))) fun _ _ => checkNames_ends fun x hx => h x (by simp [hx])

theorem mapDcs_ends {c : Conf} {zone : Option Bytes} {f : Bytes → Option Bytes → Act Nat} {p : Bytes} {i : Nat} {r : Resource} :
    ∀ {js : List Nat}, (∀ d ∈ r.dcs, (∀ t x svcs, d.target = .cname t x svcs → Readable zone x) ∧ ∀ q m, d.target = .res q m → find c q ≠ none ∧ Ends (f q m)) → Ends (mapDcs c zone f p i r js)
  | [], _ => Or.inl ⟨(), rfl⟩
  | j :: js, h => by
    have ih := mapDcs_ends (c := c) (p := p) (i := i) (js := js) h
    cases hd : dcAt r j with
    | none => rw [mapDcs_none hd]; exact ih
    | some d =>
      obtain ⟨h1, h2⟩ := h d (dcAt_some hd).1
      cases ht : d.target with
      | cname t x svcs => rw [mapDcs_cname hd ht]; exact bind_ends (checkName_ends (h1 t x svcs ht)) fun _ _ => ih
      | res q m =>
        obtain ⟨h3, h4⟩ := h2 q m ht
        cases hf : find c q with
        | none => exact absurd hf h3
        | some kind =>
          by_cases hm : kind = .monitor
          · subst hm
            rw [mapDcs, hd]
            dsimp only
            rw [ht]
            dsimp only
            rw [hf]
            exact Or.inr rfl
          · rw [mapDcs_res hd ht hf hm]
            exact bind_ends (Or.inl ⟨(), rfl⟩) fun _ _ => bind_ends h4 fun _ _ => bind_ends (Or.inl ⟨(), rfl⟩) fun _ _ => ih

theorem number_ends {i dc : Nat} (hi : i < 2 ^ 24) (hdc : dc < 256) : Ends (number i dc) := by
  rw [number_eq hi hdc]
  split
  · exact Or.inl ⟨_, rfl⟩
  · exact Or.inr rfl

theorem grounded_kind {c : Conf} {zone : Option Bytes} {p : Bytes} {rn : Option Bytes} (h : Grounded c zone p rn) : find c p ≠ none := by
  cases h with
  | monitor h => rw [h]; simp
  | leaf h => rw [h]; simp
  | multi h => rw [h]; simp

/-- **Safety.** A reference that leads to plugins that exist, and not back to where it came from, is accepted or rejected: no
assertion fails, and the daemon lives on. -/
theorem C106_safe {c : Conf} (hs : Sound c) {zone : Option Bytes} {p : Bytes} {rn : Option Bytes} (h : Grounded c zone p rn) :
    ∃ k, ∀ k' ≥ k, (∃ n, (mapRes c zone k' p rn).res = .ok n) ∨ (mapRes c zone k' p rn).res = .error .rejected := by
  show ∃ k, ∀ k' ≥ k, Ends (mapRes c zone k' p rn)
  induction h with
  | @monitor p rn h =>
    refine ⟨1, fun k' hk => ?_⟩
    obtain ⟨k, rfl⟩ : ∃ k, k' = k + 1 := ⟨k' - 1, by omega⟩
    rw [mapRes, h]
    exact Or.inr rfl
  | @leaf p rn num cn h h2 =>
    refine ⟨1, fun k' hk => ?_⟩
    obtain ⟨k, rfl⟩ : ∃ k, k' = k + 1 := ⟨k' - 1, by omega⟩
    rw [mapRes, h]
    dsimp only
    cases hn : num rn with
    | none => exact Or.inr rfl
    | some i => exact bind_ends (checkNames_ends (h2 i hn)) fun _ _ => Or.inl ⟨_, rfl⟩
  | @multi p rn rs h1 h2 h3 h4 ih =>
    obtain ⟨s1, _⟩ := hs p rs h1
    cases rn with
    | none =>
      refine ⟨1, fun k' hk => ?_⟩
      obtain ⟨k, rfl⟩ : ∃ k, k' = k + 1 := ⟨k' - 1, by omega⟩
      rw [mapRes, h1]
      exact Or.inr rfl
    | some m =>
      cases hf : rs.findIdx? fun r => r.name == (splitSlash m).1 with
      | none =>
        refine ⟨1, fun k' hk => ?_⟩
        obtain ⟨k, rfl⟩ : ∃ k, k' = k + 1 := ⟨k' - 1, by omega⟩
        rw [mapRes, h1]
        dsimp only
        rw [hf]
        exact Or.inr rfl
      | some i =>
        have hlt : i < rs.length := by
          have := List.findIdx?_eq_some_iff_getElem.mp hf
          exact this.1
        have hr : rs[i]? = some rs[i] := List.getElem?_eq_getElem hlt
        generalize rs[i] = r at hr
        have hfo : FirstOf (splitSlash m).1 rs i r := firstOf_iff.mpr ⟨hf, hr⟩
        have hsp : Splits m (splitSlash m).1 (splitSlash m).2 := splits_iff.mpr rfl
        obtain ⟨K, hK⟩ := bounded (Q := fun d k => ∀ q m, d.target = .res q m → Ends (mapRes c zone k q m)) r.dcs fun d hd => by
          cases ht : d.target with
          | cname t x svcs => exact ⟨0, fun _ _ _ _ h => by cases h⟩
          | res q m' =>
            obtain ⟨k, hk⟩ := ih m _ _ i r d rfl hsp hfo hd q m' ht
            exact ⟨k, fun k' hk' _ _ h => by cases h; exact hk k' hk'⟩
        refine ⟨K + 1, fun k' hk => ?_⟩
        obtain ⟨k, rfl⟩ : ∃ k, k' = k + 1 := ⟨k' - 1, by omega⟩
        rw [mapRes, h1]
        dsimp only
        rw [hf]
        dsimp only
        rw [hr]
        dsimp only
        have hdc : Ends (fixedDc r.names (splitSlash m).2) := by
          unfold fixedDc
          cases (splitSlash m).2 with
          | none => exact Or.inl ⟨_, rfl⟩
          | some dn =>
            dsimp only
            split
            · exact Or.inr rfl
            · split
              · exact Or.inl ⟨_, rfl⟩
              · rename_i hbig
                refine absurd ?_ hbig
                have hl := h2 m _ _ i r rfl hsp hfo
                unfold Meta.dcIdx
                split
                · rename_i x hx
                  have := (List.findIdx?_eq_some_iff_getElem.mp hx).1
                  omega
                · omega
        refine bind_ends hdc fun dc hdc' => bind_ends (mapDcs_ends fun d hd => ⟨fun t x svcs ht => h3 m _ _ i r d rfl hsp hfo hd t x svcs ht, fun q m' ht => ?_⟩) fun _ _ =>
          number_ends (by omega) (fixedDc_ok.mp hdc').2
        exact ⟨grounded_kind (h4 m _ _ i r d rfl hsp hfo hd q m' ht), hK d hd k (by omega) q m' ht⟩

/-! ### What is stored -/

theorem right_of {c : Conf} (hs : Sound c) {s : Slot} {n : Nat} (h : Right' c s n) : Right c s n := by
  obtain ⟨rs, r, d, q, m, zone, k, h1, h2, h3, h4, h5⟩ := h
  obtain ⟨h6, h7⟩ := dcAt_some h3
  exact ⟨rs, r, d, q, m, zone, h1, h2, h6, h7, h4, usable_of hs h5⟩

/-- **At any time.** Whatever has been stored so far by any zones, whether they load or not, the number of a datacenter is what
it was before, or zero, or right. -/
theorem C106_between {c : Conf} (hs : Sound c) {ws : List Write} (hw : ∀ w ∈ ws, ∃ zone k p rn, w ∈ (mapRes c zone k p rn).writes) (σ : Cells) (s : Slot) :
    (store σ ws s).num = (σ s).num ∨ (store σ ws s).num = 0 ∨ Right c s (store σ ws s).num := by
  rw [store_cell]
  dsimp only
  cases hl : last s ws with
  | none => exact Or.inl rfl
  | some n =>
    obtain ⟨zone, k, p, rn, h⟩ := hw _ (last_mem hl)
    exact Or.inr ((mapRes_fine s n h).imp id (right_of hs))

theorem loaded_right {c : Conf} {refs : List Ref} {σ : Cells} (h : Loaded c refs σ) : ∀ x ∈ refs, x.Accepted c ∧ ∀ s, .found s ∈ x.writes c → RightCell c σ s := by
  induction h with
  | init => exact nofun
  | @load old σ new ws h1 h2 h3 ih =>
    have hd : Done c ws := merge_done h3 fun l hl => by
      obtain ⟨x, hx, rfl⟩ := List.mem_map.mp hl
      exact mapRes_done (h2 x hx)
    intro x hx
    rcases List.mem_append.mp hx with hx | hx
    · exact ⟨h2 x hx, fun s hs => store_right hd (Or.inr ((merge_mem h3).mpr ⟨_, List.mem_map.mpr ⟨x, hx, rfl⟩, hs⟩))⟩
    · exact ⟨(ih x hx).1, fun s hs => store_right hd (Or.inl ((ih x hx).2 s hs))⟩

/-- **Answers.** After any number of loads that succeed, each of any number of zones at the same time in any order, every
reference is answered from the resource that it names, and that from those it names in turn. -/
theorem C106_answers {c : Conf} (hs : Sound c) {refs : List Ref} {σ : Cells} (h : Loaded c refs σ) {x : Ref} (hx : x ∈ refs) (env : Env) {k : Nat} (hk : x.deep ≤ k) :
    resolve c env σ k x.plugin x.num = meaning c env k x.plugin x.res := by
  obtain ⟨h1, h2⟩ := loaded_right h x hx
  have hm := mapRes_mono h1 k hk
  refine resolve_meaning (fun p rs hp => (hs p rs hp).1) (zone := x.zone) ?_ fun s hs => h2 s ?_
  · rw [hm]; exact h1
  · rw [hm] at hs; exact hs

/-! ### Names as answers -/

theorem numbered_from {pn rn : Bytes} {sub : Bytes → Option Bytes → Plug.Resolver} {map : Nat → Option Nat} {n : Nat} {x : Plug.Dc} :
    ∀ {ds : List Dc} {is : List Nat}, ((Meta.numbered pn rn sub map ds is).find? fun p => p.1 == n) = some (n, x) →
      ∃ d, ds.find? (fun d => d.idx == n) = some d ∧ ∀ r s r', Plug.resolveInner tbl x r = .ok (s, r') →
        (∃ t dn svcs, d.target = .cname t dn svcs ∧ r'.cname = some dn) ∨ ∃ q m, d.target = .res q m ∧ sub q m r = .ok (s, r')
  | [], _, h => by cases h
  | d :: ds, is, h => by
    rw [Meta.numbered, List.find?_cons] at h
    dsimp only at h
    rw [List.find?_cons]
    by_cases hd : d.idx = n
    · have hb : (d.idx == n) = true := by simpa using hd
      simp only [hb, Option.some.injEq, Prod.mk.injEq] at h ⊢
      obtain ⟨_, rfl⟩ := h
      refine ⟨d, rfl, fun r s r' hr => ?_⟩
      cases ht : d.target with
      | cname t dn svcs =>
        rw [ht] at hr
        unfold Plug.resolveInner at hr
        dsimp only at hr
        obtain ⟨r1, h1, hr⟩ := obind hr
        obtain ⟨_, _, hr⟩ := obind hr
        cases hr
        unfold Plug.addCname at h1
        obtain ⟨_, _, h1⟩ := obind h1
        split at h1
        · cases h1; exact Or.inl ⟨t, dn, svcs, rfl, rfl⟩
        · cases h1
      | res q m =>
        rw [ht] at hr
        unfold Plug.resolveInner at hr
        exact Or.inr ⟨q, m, rfl, hr⟩
    · have hb : (d.idx == n) = false := by simpa using hd
      simp only [hb] at h ⊢
      exact numbered_from h

theorem resource_from {pn : Bytes} {sub : Bytes → Option Bytes → Plug.Resolver} {map : Nat → Option Nat} {r : Resource} {is : List Nat} {n : Nat} {x : Plug.Dc}
    (h : (r.numbered pn sub map is).dcs[n]? = some (some x)) :
    ∃ d, dcAt r n = some d ∧ 1 ≤ n ∧ n ≤ r.names.length ∧ ∀ r s r', Plug.resolveInner tbl x r = .ok (s, r') →
      (∃ t dn svcs, d.target = .cname t dn svcs ∧ r'.cname = some dn) ∨ ∃ q m, d.target = .res q m ∧ sub q m r = .ok (s, r') := by
  unfold Resource.numbered at h
  dsimp only at h
  cases n with
  | zero => cases h
  | succ n =>
    rw [List.getElem?_cons_succ, List.getElem?_map] at h
    by_cases hn : n < r.names.length
    · rw [List.getElem?_range hn] at h
      simp only [Option.map_some, Option.some.injEq] at h
      cases hf : (Meta.numbered pn r.name sub map r.dcs is).find? fun p => p.1 == n + 1 with
      | none => rw [hf] at h; cases h
      | some y =>
        obtain ⟨a, b⟩ := y
        rw [hf] at h
        cases h
        have ha : a = n + 1 := by simpa using List.find?_some hf
        subst ha
        obtain ⟨d, h1, h2⟩ := numbered_from (tbl := tbl) hf
        exact ⟨d, h1, by omega, by omega, h2⟩
    · rw [List.getElem?_eq_none (by simpa using hn)] at h
      cases h

theorem addScope_cname (r : Plug.Result) (n : Nat) : (Plug.addScope r n).cname = r.cname := by
  unfold Plug.addScope
  split <;> rfl

/-- **Names.** A reference for addresses is never answered with a name, and one for names never with a name in its own zone,
however deep the resource that answers. -/
theorem C106_names {c : Conf} {env : Env} (hl : Leaves c env) {zone : Option Bytes} : ∀ {k : Nat} {p : Bytes} {rn : Option Bytes} {n : Nat}, (mapRes c zone k p rn).res = .ok n →
    ∀ (r : Plug.Result) s r', r.cname = none → meaning c env k p rn r = .ok (s, r') → ∀ d, r'.cname = some d → Allowed zone d
  | 0, _, _, _, h => by cases h
  | k + 1, p, rn, n, h => by
    intro res s r' hc hm
    rcases mapRes_cases h with ⟨num, cn, h1, h2, h3, _⟩ | ⟨rs, m, i, r, dc, hh, _⟩
    · rw [meaning, h1] at hm
      dsimp only at hm
      rw [h2] at hm
      exact fun d hd => h3 d (hl p num cn n res s r' h1 hm hc d hd)
    · obtain ⟨h1, rfl, h3, h4, h5, h6, h7⟩ := hh
      obtain ⟨g1, g2⟩ := firstOf_iff.mp h3
      rw [meaning, h1] at hm
      dsimp only at hm
      rw [g1] at hm
      dsimp only at hm
      rw [g2] at hm
      dsimp only at hm
      have hsynth : only r.names (splitSlash m).2 = UInt8.ofNat dc := by
        cases hsl : (splitSlash m).2 with
        | none => rw [hsl] at h4; rw [asked_none.mp h4]; rfl
        | some dn => rw [hsl] at h4; rw [(asked_iff.mp h4).1]; rfl
      rw [hsynth] at hm
      refine metaResolve_keeps (P := fun r => ∀ d, r.cname = some d → Allowed zone d) (fun r n h d hd => h d (by rwa [addScope_cname] at hd)) ?_ (fun d hd => by rw [hc] at hd; cases hd) hm
      intro d hdm x hx r0 s0 r1 hr1
      obtain ⟨s1, hr1⟩ := resolveDc_keeps hr1
      obtain ⟨dd, e1, e2, e3, e4⟩ := resource_from (tbl := env.tbl) hx
      have hj : d.toNat ∈ (if dc ≠ 0 then [dc] else (List.range r.names.length).map (· + 1)) := by
        by_cases h0 : dc = 0
        · rw [if_neg (by simp [h0])]
          simp only [List.mem_map, List.mem_range]
          exact ⟨d.toNat - 1, by omega, by omega⟩
        · rw [if_pos h0]
          have hne : UInt8.ofNat dc ≠ 0 := by
            intro e
            have := congrArg UInt8.toNat e
            rw [UInt8.toNat_ofNat', Nat.mod_eq_of_lt (by omega)] at this
            exact h0 this
          rw [if_pos hne] at hdm
          simp only [List.mem_cons, List.not_mem_nil, or_false] at hdm
          rcases hdm with rfl | rfl
          · rw [UInt8.toNat_ofNat', Nat.mod_eq_of_lt (by omega)]
            simp
          · exact absurd e2 (by decide)
      obtain ⟨f1, f2⟩ := mapDcs_ok.mp h6 d.toNat hj dd e1
      rcases e4 _ _ _ hr1 with ⟨t, dn, svcs, ht, hcn⟩ | ⟨q, m', ht, hsub⟩
      · intro d' hd'
        rw [hcn] at hd'
        cases hd'
        exact f1 t _ svcs ht
      · obtain ⟨_, n, hn⟩ := f2 q m' ht
        exact C106_names hl hn _ _ _ rfl hsub

/-! ### What configuration guarantees -/

theorem multi_find {c : Conf} {p : Bytes} {rs : List Resource} (h : find c p = some (.multi rs)) : rs = c.geoip ∨ rs = c.metafo := by
  unfold find at h
  cases hf : (plugins c).find? fun x => x.1 == p with
  | none => rw [hf] at h; cases h
  | some x =>
    rw [hf] at h
    have h1 := List.mem_of_find?_eq_some hf
    simp only [Option.map_some, Option.some.injEq] at h
    simp only [plugins, List.mem_cons, List.not_mem_nil, or_false] at h1
    rcases h1 with rfl | rfl | rfl | rfl | rfl | rfl | rfl | rfl | rfl | rfl | rfl | rfl
    · cases h; exact Or.inl rfl
    · cases h; exact Or.inr rfl
    all_goals cases h

theorem resources_length {lib : Res.Lib} {p : MetaSpec.Plugin} {config : List (Vscf.Entry Vscf.Val)} : ∀ {es tops rs tops'}, MetaSpec.ResourcesOf lib p config es tops rs tops' → rs.length = es.length := by
  intro es tops rs tops' h
  induction h with
  | nil => rfl
  | cons _ _ ih => simp [ih]

/-- **Sound.** What geoip and metafo make of any configuration is as the other theorems want it (C97). -/
theorem C106_sound {c : Conf} (h : ∀ rs, rs = c.geoip ∨ rs = c.metafo → rs = [] ∨
    ∃ lib p config tops tops', ConfSpec.Clean (.hash config) ∧ MetaSpec.WholeKeys (.hash config) ∧ MetaSpec.Loads lib p config tops rs tops') : Sound c := by
  intro p rs hf
  rcases h rs (multi_find hf) with rfl | ⟨lib, pl, config, tops, tops', hc, hz, hl⟩
  · exact ⟨by decide, nofun⟩
  · have hsane := Meta.loads_sane hc hz hl
    obtain ⟨es, _, _, h3, h4⟩ := hl
    exact ⟨by rw [resources_length h4]; exact h3, fun r hr => ⟨fun d hd => (hsane r hr).1.range hd, (hsane r hr).1.idx⟩⟩

/-! ### Examples -/

instance : DecidableEq (Except Stop Nat)
  | .ok a, .ok b => if h : a = b then isTrue (h ▸ rfl) else isFalse fun e => h (by cases e; rfl)
  | .error a, .error b => if h : a = b then isTrue (h ▸ rfl) else isFalse fun e => h (by cases e; rfl)
  | .ok _, .error _ => isFalse nofun
  | .error _, .ok _ => isFalse nofun

instance (c : Conf) (x : Ref) : Decidable (x.Accepted c) := inferInstanceAs (Decidable (_ = _))

def wEx : Bytes := str "w"
def mEx : Bytes := str "m"
def dEx : Bytes := str "d"
/-- `w.example.` -/
def cnEx : Bytes := [11, 1, 119, 7, 101, 120, 97, 109, 112, 108, 101, 0]
/-- `example.` and `test.` -/
def zoneEx : Bytes := [9, 7, 101, 120, 97, 109, 112, 108, 101, 0]
def otherEx : Bytes := [6, 4, 116, 101, 115, 116, 0]

/-- Two resources of weighted, the second with a name in `example.`; a resource of metafo that refers to it. -/
def confEx : Conf := ⟨[], [], [(str "v", []), (wEx, [cnEx])], [], [], [⟨mEx, [dEx], [⟨1, dEx, .res (str "weighted") (some wEx)⟩], false⟩]⟩

theorem find_ex (p : Bytes) : find confEx p = ((plugins confEx).find? fun x => x.1 == p).map (·.2) := rfl

theorem multi_ex {p : Bytes} {rs : List Resource} (h : find confEx p = some (.multi rs)) : (p = str "geoip" ∧ rs = []) ∨ (p = str "metafo" ∧ rs = confEx.metafo) := by
  unfold find at h
  cases hf : (plugins confEx).find? fun x => x.1 == p with
  | none => rw [hf] at h; cases h
  | some x =>
    rw [hf] at h
    have h1 := List.mem_of_find?_eq_some hf
    have h2 : x.1 = p := by simpa using List.find?_some hf
    simp only [Option.map_some, Option.some.injEq] at h
    simp only [plugins, List.mem_cons, List.not_mem_nil, or_false] at h1
    rcases h1 with rfl | rfl | rfl | rfl | rfl | rfl | rfl | rfl | rfl | rfl | rfl | rfl
    · cases h; exact Or.inl ⟨h2.symm, rfl⟩
    · cases h; exact Or.inr ⟨h2.symm, rfl⟩
    all_goals cases h

theorem sound_ex : Sound confEx := by
  intro p rs h
  rcases multi_ex h with ⟨_, rfl⟩ | ⟨_, rfl⟩
  · exact ⟨by decide, nofun⟩
  · refine ⟨by decide, fun r hr => ?_⟩
    simp only [confEx, List.mem_cons, List.not_mem_nil, or_false] at hr
    subst hr
    exact ⟨fun d hd => by simp only [List.mem_cons, List.not_mem_nil, or_false] at hd; subst hd; exact ⟨by decide, by decide⟩, by decide⟩

/-- A reference of the zone `test.`. -/
def refEx : Ref := ⟨some otherEx, 2, str "metafo", some mEx, 0⟩

theorem accepted_ex : refEx.Accepted confEx := by decide +kernel
theorem writes_ex : refEx.writes confEx = [.found ⟨str "metafo", 0, 1⟩, .num ⟨str "metafo", 0, 1⟩ 0, .num ⟨str "metafo", 0, 1⟩ 1] := by decide +kernel

def cellsEx : Cells := store (fun _ => ⟨false, 0⟩) (refEx.writes confEx)

theorem loaded_ex : Loaded confEx [refEx] cellsEx := by
  refine .load (old := []) (new := [refEx]) .init (fun x hx => ?_) ?_
  · simp only [List.mem_cons, List.not_mem_nil, or_false] at hx
    subst hx
    exact accepted_ex
  · rw [List.map_cons, List.map_nil, writes_ex]
    exact .step (as := []) (bs := []) (.step (as := []) (bs := []) (.step (as := []) (bs := []) (.done (by simp))))

/-- The second resource answers with its name, the first with an address. -/
def leafEx (p : Bytes) (i : Nat) (r : Plug.Result) : Outcome (UInt32 × Plug.Result) :=
  if p = str "weighted" ∧ i = 1 then .ok (60, { r with cname := some cnEx }) else .ok (60, { r with v4 := [1] })

def envEx : Env := ⟨leafEx, fun _ _ => ([1, 0], 0), [60], fun _ _ _ => none, fun _ _ => [0]⟩

theorem leaves_ex : Leaves confEx envEx := by
  intro p num cn i r s r' hf h hc d hd
  show d ∈ cn i
  change leafEx p i r = _ at h
  unfold leafEx at h
  split at h
  · rename_i hp
    obtain ⟨rfl, rfl⟩ := hp
    cases h
    cases hd
    have : find confEx (str "weighted") = some (named confEx.weighted) := rfl
    rw [this] at hf
    cases hf
    exact List.mem_cons_self
  · cases h
    rw [show ({ r with v4 := [1] } : Plug.Result).cname = r.cname from rfl, hc] at hd
    cases hd

/-- A reference in `test.` is accepted, by its number answered with the name of the second resource; in `example.` and for
addresses it is rejected. -/
example : Usable confEx (some otherEx) (str "metafo") (some mEx) 0 := (C106_accepts sound_ex _ _ _ _).mp ⟨2, accepted_ex⟩

example : (resolve confEx envEx cellsEx 2 (str "metafo") 0 {} = .ok (60, { cname := some cnEx })) ∧
    (mapRes confEx (some zoneEx) 2 (str "metafo") (some mEx)).res = .error .rejected ∧ (mapRes confEx none 2 (str "metafo") (some mEx)).res = .error .rejected := by
  decide +kernel

example : resolve confEx envEx cellsEx 2 (str "metafo") 0 = meaning confEx envEx 2 (str "metafo") (some mEx) :=
  C106_answers sound_ex loaded_ex (x := refEx) (by simp) envEx (by decide)

/-- The name that answers is not in `test.`. -/
example : Allowed (some otherEx) cnEx := C106_names leaves_ex accepted_ex {} 60 { cname := some cnEx } rfl (by decide +kernel) cnEx rfl

example : Grounded confEx (some zoneEx) (str "metafo") (some mEx) := by
  refine .multi (rs := confEx.metafo) rfl (fun n base dn i r _ _ h => ?_) (fun n base dn i r d _ _ h hd t x svcs ht => ?_) fun n base dn i r d _ _ h hd q m ht => ?_
  all_goals
    have hr := List.mem_of_getElem? (firstOf_iff.mp h).2
    simp only [confEx, List.mem_cons, List.not_mem_nil, or_false] at hr
    subst hr
  · decide
  · simp only [List.mem_cons, List.not_mem_nil, or_false] at hd
    subst hd
    cases ht
  · simp only [List.mem_cons, List.not_mem_nil, or_false] at hd
    subst hd
    cases ht
    refine .leaf rfl fun i hi d hd z hz => ?_
    cases hz
    have : i = 1 := by
      have h1 : byName (confEx.weighted.map (·.1)) (some wEx) = some 1 := by decide +kernel
      rw [h1] at hi
      cases hi
      rfl
    subst this
    have : d = cnEx := by
      change d ∈ [cnEx] at hd
      simpa using hd
    subst this
    exact ⟨true, by decide +kernel⟩

/-! ### What is false -/

/-- **Unknown plugins.** A reference to a plugin that is not there, in a zone or in a datacenter, is not rejected: the daemon ends. The message
of the zone's loader for that case is never seen. -/
theorem C106_false_unknown (c : Conf) (zone : Option Bytes) (k : Nat) (p : Bytes) (rn : Option Bytes) (h : ∀ x ∈ plugins c, x.1 ≠ p) :
    (mapRes c zone (k + 1) p rn).res = .error .fatal := by
  have : find c p = none := by
    unfold find
    rw [List.find?_eq_none.mpr fun x hx => by simpa using h x hx]
    rfl
  rw [mapRes, this]
  rfl

example : ∀ x ∈ plugins confEx, x.1 ≠ str "wieghted" := by
  intro x hx
  simp only [plugins, List.mem_cons, List.not_mem_nil, or_false] at hx
  rcases hx with rfl | rfl | rfl | rfl | rfl | rfl | rfl | rfl | rfl | rfl | rfl | rfl <;> decide +kernel

/-- `metafo => { resources => { m => { datacenters => d, dcmap => { d => "%metafo!w" } }, w => { datacenters => d, dcmap => { d => "%metafo!m" } } } }`. -/
def circleEx : List (Vscf.Entry Vscf.Val) :=
  [Res.ent "resources" (.hash [
    Res.ent "m" (.hash [Res.ent "datacenters" (Res.txt "d"), Res.ent "dcmap" (.hash [Res.ent "d" (Res.txt "%metafo!w")])]),
    Res.ent "w" (.hash [Res.ent "datacenters" (Res.txt "d"), Res.ent "dcmap" (.hash [Res.ent "d" (Res.txt "%metafo!m")])])])]

def rEx : Resource := ⟨mEx, [dEx], [⟨1, dEx, .res (str "metafo") (some wEx)⟩], false⟩
def sEx : Resource := ⟨wEx, [dEx], [⟨1, dEx, .res (str "metafo") (some mEx)⟩], false⟩

theorem circle_load : Meta.load Res.exLib Meta.metafo circleEx [] = .ok (some ([rEx, sEx], [])) := by with_unfolding_all rfl

theorem circle_ub {c : Conf} (hc : c.metafo = [rEx, sEx]) (zone : Option Bytes) : ∀ k, (mapRes c zone k (str "metafo") (some mEx)).res = .error .ub ∧ (mapRes c zone k (str "metafo") (some wEx)).res = .error .ub
  | 0 => ⟨rfl, rfl⟩
  | k + 1 => by
    obtain ⟨ih1, ih2⟩ := circle_ub hc zone k
    have h1 : find c (str "metafo") = some (.multi [rEx, sEx]) := by rw [← hc]; rfl
    have hr : dcAt rEx 1 = some ⟨1, dEx, .res (str "metafo") (some wEx)⟩ := rfl
    have hs : dcAt sEx 1 = some ⟨1, dEx, .res (str "metafo") (some mEx)⟩ := rfl
    constructor
    · have h2 : mapRes c zone (k + 1) (str "metafo") (some mEx) = (mapDcs c zone (mapRes c zone k) (str "metafo") 0 rEx [1]).bind fun _ => number 0 0 := by
        rw [mapRes, h1]
        rfl
      rw [h2, mapDcs_res hr rfl h1 (by simp)]
      unfold Act.bind
      rw [ih2]
      rfl
    · have h2 : mapRes c zone (k + 1) (str "metafo") (some wEx) = (mapDcs c zone (mapRes c zone k) (str "metafo") 1 sEx [1]).bind fun _ => number 1 0 := by
        rw [mapRes, h1]
        rfl
      rw [h2, mapDcs_res hs rfl h1 (by simp)]
      unfold Act.bind
      rw [ih1]
      rfl

/-- **Circles.** Two resources that refer to each other are accepted by metafo, and mapping one of them nests without end, in every zone. -/
theorem C106_false_cycle : ∃ lib config rs, Meta.load lib Meta.metafo config [] = .ok (some (rs, [])) ∧
    ∀ c : Conf, c.metafo = rs → ∀ zone k, (mapRes c zone k (str "metafo") (some mEx)).res = .error .ub :=
  ⟨Res.exLib, circleEx, _, circle_load, fun _ hc zone k => (circle_ub hc zone k).1⟩

/-- **While zones are loaded.** A number is zero for a while, even if the load succeeds and even if it was there before: answers come from the first resource of
the plugin meanwhile, whatever the record refers to. -/
theorem C106_false_window : ∃ c env refs σ x pre r, Loaded c refs σ ∧ x ∈ refs ∧ x.Accepted c ∧ pre <+: x.writes c ∧
    resolve c env (store σ pre) x.deep x.plugin x.num r ≠ .ub ∧ resolve c env (store σ pre) x.deep x.plugin x.num r ≠ meaning c env x.deep x.plugin x.res r := by
  refine ⟨confEx, envEx, [refEx], cellsEx, refEx, [.found ⟨str "metafo", 0, 1⟩, .num ⟨str "metafo", 0, 1⟩ 0], {}, loaded_ex, by simp, accepted_ex, ?_, ?_, ?_⟩
  · rw [writes_ex]
    exact ⟨[.num ⟨str "metafo", 0, 1⟩ 1], rfl⟩
  · decide +kernel
  · decide +kernel

/-- **After a load that fails.** A zone that is rejected leaves a number zero, and records of other zones that were right before are answered from the first resource of the plugin. -/
theorem C106_false_failed : ∃ c env refs σ x y r, Loaded c refs σ ∧ x ∈ refs ∧ (mapRes c y x.deep x.plugin x.res).res = .error .rejected ∧
    resolve c env (store σ (mapRes c y x.deep x.plugin x.res).writes) x.deep x.plugin x.num r ≠ .ub ∧
    resolve c env (store σ (mapRes c y x.deep x.plugin x.res).writes) x.deep x.plugin x.num r ≠ meaning c env x.deep x.plugin x.res r := by
  refine ⟨confEx, envEx, [refEx], cellsEx, refEx, some zoneEx, {}, loaded_ex, by simp, ?_, ?_, ?_⟩ <;> decide +kernel

/-! ### The plugins and the names of their resources -/

/-- The plugins that can be referred to, which of them do not answer, and what the resources of the others are called: without
a name there is none, and with one it is the first that is called so. -/
theorem C106_plugins (c : Refs.Conf) (p : Bytes) :
    (Refs.find c p = none ↔ p ∉ pluginNames) ∧ (Refs.find c p = some .monitor ↔ p ∈ monitorNames) ∧
    ∀ l, (p, l) ∈ leafNames c → ∃ num cn, Refs.find c p = some (.leaf num cn) ∧ num none = none ∧
      ∀ n i, num (some n) = some i ↔ l[i]? = some n ∧ ∀ j < i, l[j]? ≠ some n := by
  have by_name : ∀ l : List Bytes, ∀ n i, Refs.byName l (some n) = some i ↔ l[i]? = some n ∧ ∀ j < i, l[j]? ≠ some n := by
    intro l n i
    unfold Refs.byName
    rw [List.findIdx?_eq_some_iff_getElem]
    constructor
    · rintro ⟨hi, h1, h2⟩
      refine ⟨by rw [List.getElem?_eq_getElem hi]; simpa using h1, ?_⟩
      intro j hj
      rw [List.getElem?_eq_getElem (by omega)]
      have := h2 j hj
      simpa using this
    · rintro ⟨h1, h2⟩
      obtain ⟨hi, h1⟩ := List.getElem?_eq_some_iff.mp h1
      refine ⟨hi, by simpa using h1, ?_⟩
      intro j hj
      have := h2 j hj
      rw [List.getElem?_eq_getElem (by omega)] at this
      simpa using this
  by_cases h : p ∈ pluginNames
  · refine ⟨⟨fun hn => ?_, fun hn => absurd h hn⟩, ?_, ?_⟩
    · simp only [pluginNames, List.mem_cons, List.not_mem_nil, or_false] at h
      rcases h with rfl | rfl | rfl | rfl | rfl | rfl | rfl | rfl | rfl | rfl | rfl | rfl <;> exact absurd hn (by intro h; cases h)
    · simp only [pluginNames, List.mem_cons, List.not_mem_nil, or_false] at h
      rcases h with rfl | rfl | rfl | rfl | rfl | rfl | rfl | rfl | rfl | rfl | rfl | rfl <;>
        first
        | exact ⟨fun _ => by decide, fun _ => rfl⟩
        | exact ⟨fun hm => (by cases hm), fun hm => absurd hm (by decide)⟩
    · intro l hl
      simp only [leafNames, List.mem_cons, List.not_mem_nil, or_false, Prod.mk.injEq] at hl
      rcases hl with ⟨rfl, rfl⟩ | ⟨rfl, rfl⟩ | ⟨rfl, rfl⟩ | ⟨rfl, rfl⟩ <;> exact ⟨_, _, rfl, rfl, by_name _⟩
  · have hn : Refs.find c p = none := by
      simp only [pluginNames, List.mem_cons, List.not_mem_nil, or_false, not_or] at h
      obtain ⟨h1, h2, h3, h4, h5, h6, h7, h8, h9, h10, h11, h12⟩ := h
      have hne : ∀ s : Bytes, ¬ p = s → (s == p) = false := fun s hs => by simpa using fun e => hs e.symm
      simp only [Refs.find, Refs.plugins, List.find?, hne _ h1, hne _ h2, hne _ h3, hne _ h4, hne _ h5, hne _ h6, hne _ h7, hne _ h8, hne _ h9, hne _ h10, hne _ h11, hne _ h12, Option.map_none]
    refine ⟨⟨fun _ => h, fun _ => hn⟩, ⟨fun hm => (by rw [hn] at hm; cases hm), fun hm => absurd ?_ h⟩, ?_⟩
    · simp only [monitorNames, pluginNames, List.mem_cons, List.not_mem_nil, or_false] at hm ⊢
      rcases hm with rfl | rfl | rfl | rfl <;> simp
    · intro l hl
      refine absurd ?_ h
      simp only [leafNames, List.mem_cons, List.not_mem_nil, or_false, Prod.mk.injEq] at hl
      rcases hl with ⟨rfl, _⟩ | ⟨rfl, _⟩ | ⟨rfl, _⟩ | ⟨rfl, _⟩ <;> simp [pluginNames]

/-- Beside it: a plugin with two resources. -/
example : ∃ num cn, Refs.find ⟨[str "a", str "b"], [], [], [], [], []⟩ (str "multifo") = some (.leaf num cn) ∧ num (some (str "b")) = some 1 ∧ num (some (str "c")) = none :=
  ⟨_, _, rfl, by decide, by decide⟩

end Gdnsd.Refs
