import Verif.Refs.Spec
import Verif.Meta.AnswerProps
namespace Gdnsd.Refs
open RefsSpec
open Meta (Target Dc Resource)

/-! ### Actions -/

variable {α β : Type}

theorem bind_ok {x : Act α} {f : α → Act β} {b : β} : (x.bind f).res = .ok b ↔ ∃ a, x.res = .ok a ∧ (f a).res = .ok b := by
  unfold Act.bind
  cases hx : x.res with
  | error s => simp
  | ok a => simp

theorem bind_writes {x : Act α} {f : α → Act β} {a : α} (h : x.res = .ok a) : (x.bind f).writes = x.writes ++ (f a).writes := by
  unfold Act.bind
  rw [h]

theorem bind_writes_error {x : Act α} {f : α → Act β} {s : Stop} (h : x.res = .error s) : (x.bind f).writes = x.writes := by
  unfold Act.bind
  rw [h]

theorem bind_congr {x y : Act α} {f g : α → Act β} (h : x = y) (hf : ∀ a, y.res = .ok a → f a = g a) : x.bind f = y.bind g := by
  subst h
  unfold Act.bind
  cases hx : x.res with
  | error s => rfl
  | ok a => simp only [hf a hx]

theorem pure_res {a : α} : (Act.pure a).res = .ok a := rfl
theorem tell_res {ws} : (Act.tell ws).res = .ok () := rfl

/-! ### Names -/

theorem firstOf_iff {n : Bytes} : ∀ {rs : List Resource} {i r}, FirstOf n rs i r ↔ rs.findIdx? (fun r => r.name == n) = some i ∧ rs[i]? = some r
  | [], i, r => ⟨nofun, fun h => by simp at h⟩
  | x :: rs, i, r => by
    constructor
    · intro h
      cases h with
      | here h => simp [List.findIdx?_cons, h]
      | there h h2 =>
        obtain ⟨g1, g2⟩ := firstOf_iff.mp h2
        rw [List.findIdx?_cons, if_neg (by simpa using h), g1]
        exact ⟨rfl, g2⟩
    · intro ⟨h1, h2⟩
      rw [List.findIdx?_cons] at h1
      by_cases hx : x.name = n
      · rw [if_pos (by simpa using hx)] at h1
        cases h1
        cases h2
        exact .here hx
      · rw [if_neg (by simpa using hx)] at h1
        cases hf : rs.findIdx? (fun r => r.name == n) with
        | none => rw [hf] at h1; cases h1
        | some k =>
          rw [hf] at h1
          cases h1
          exact .there hx (firstOf_iff.mpr ⟨hf, h2⟩)

theorem splits_iff : ∀ {n a : Bytes} {b}, Splits n a b ↔ splitSlash n = (a, b)
  | [], a, b => by
    constructor
    · intro h
      generalize hn : ([] : Bytes) = n at h
      cases h with
      | plain h => subst hn; rfl
      | slash h => simp at hn
    · intro h
      cases h
      exact .plain (by simp)
  | c :: cs, a, b => by
    unfold splitSlash
    by_cases hc : c = 47
    · subst hc
      rw [if_pos rfl]
      constructor
      · intro h
        generalize hn : (47 :: cs : Bytes) = n at h
        cases h with
        | plain h => subst hn; simp at h
        | @slash a b h =>
          cases a with
          | nil => cases hn; rfl
          | cons x xs => cases hn; simp at h
      · intro h
        cases h
        exact .slash (a := []) (by simp)
    · rw [if_neg hc]
      constructor
      · intro h
        generalize hn : (c :: cs : Bytes) = n at h
        cases h with
        | plain h =>
          subst hn
          have : Splits cs cs none := .plain fun h1 => h (by simp [h1])
          rw [splits_iff.mp this]
        | @slash a b h =>
          cases a with
          | nil => cases hn; exact absurd rfl hc
          | cons x xs =>
            cases hn
            have : Splits (xs ++ 47 :: b) xs (some b) := .slash fun h1 => h (by simp [h1])
            show (c :: (splitSlash (xs ++ 47 :: b)).1, (splitSlash (xs ++ 47 :: b)).2) = _
            rw [splits_iff.mp this]
      · intro h
        cases h
        have : Splits cs (splitSlash cs).1 (splitSlash cs).2 := splits_iff.mpr rfl
        generalize (splitSlash cs).1 = x at this
        generalize (splitSlash cs).2 = y at this
        cases this with
        | plain h => exact .plain (by simp only [List.mem_cons, not_or]; exact ⟨fun h => hc h.symm, h⟩)
        | slash h => exact .slash (a := c :: x) (by simp only [List.mem_cons, not_or]; exact ⟨fun h => hc h.symm, h⟩)

theorem asked_iff {names : List Bytes} {dn : Bytes} {dc : Nat} : Asked names (some dn) dc ↔ dc = Meta.dcIdx names dn ∧ dc ≠ 0 := by
  unfold Meta.dcIdx
  constructor
  · intro h
    cases h with
    | @one _ i h1 h2 =>
      have : names.findIdx? (· == dn) = some i := by
        rw [List.findIdx?_eq_some_iff_getElem]
        obtain ⟨hi, h3⟩ := List.getElem?_eq_some_iff.mp h1
        refine ⟨hi, by simp [h3], fun j hj => ?_⟩
        have := h2 j hj
        rw [List.getElem?_eq_getElem (by omega)] at this
        simpa using this
      rw [this]
      exact ⟨rfl, by omega⟩
  · intro ⟨h1, h2⟩
    cases hf : names.findIdx? (· == dn) with
    | none => rw [hf] at h1; exact absurd h1 h2
    | some i =>
      rw [hf] at h1
      subst h1
      rw [List.findIdx?_eq_some_iff_getElem] at hf
      obtain ⟨hi, h3, h4⟩ := hf
      refine .one (by rw [List.getElem?_eq_getElem hi]; simpa using h3) fun j hj => ?_
      rw [List.getElem?_eq_getElem (by omega)]
      simpa using h4 j hj

theorem asked_none {names : List Bytes} {dc : Nat} : Asked names none dc ↔ dc = 0 := ⟨fun h => by cases h; rfl, fun h => h ▸ .all⟩

theorem fixedDc_ok {names : List Bytes} {o : Option Bytes} {dc : Nat} : (fixedDc names o).res = .ok dc ↔ Asked names o dc ∧ dc < 256 := by
  cases o with
  | none =>
    rw [asked_none]
    show Except.ok 0 = _ ↔ _
    constructor
    · intro h; cases h; exact ⟨rfl, by omega⟩
    · rintro ⟨rfl, _⟩; rfl
  | some dn =>
    rw [asked_iff]
    unfold fixedDc
    dsimp only
    split
    · rename_i h0
      exact ⟨nofun, fun h => absurd (h.1.1.trans h0) h.1.2⟩
    · rename_i h0
      split
      · rename_i h1
        constructor
        · intro h; cases h; exact ⟨⟨rfl, h0⟩, h1⟩
        · rintro ⟨⟨rfl, _⟩, _⟩; rfl
      · rename_i h1
        exact ⟨nofun, fun h => absurd (h.1.1 ▸ h.2) h1⟩

theorem fixedDc_writes {names : List Bytes} {o : Option Bytes} : (fixedDc names o).writes = [] := by
  unfold fixedDc
  split
  · rfl
  · split
    · rfl
    · split <;> rfl

theorem number_eq {i dc : Nat} (hi : i < 2 ^ 24) (hdc : dc < 256) : number i dc = if dc < 128 then .pure (i + dc * 2 ^ 24) else .stop .rejected := by
  have hv := Plug.mapWord i dc hi hdc
  unfold number Plug.mapRes
  rw [if_neg (by omega)]
  dsimp only
  rw [hv]
  by_cases h : dc < 128
  · have h1 : i + dc * 2 ^ 24 < 2 ^ 31 := by omega
    simp only [if_pos h1, if_pos h]
    rw [if_neg (by omega), Int.toNat_natCast]
  · have h1 : ¬ i + dc * 2 ^ 24 < 2 ^ 31 := by omega
    simp only [if_neg h1, if_neg h]
    rw [if_pos (by omega)]

theorem number_writes {i dc : Nat} : (number i dc).writes = [] := by
  unfold number
  split
  · rfl
  · split <;> rfl

theorem checkName_ok {zone : Option Bytes} {d : Bytes} : (checkName zone d).res = .ok () ↔ Allowed zone d := by
  unfold checkName Allowed
  cases zone with
  | none => exact ⟨nofun, fun ⟨_, h, _⟩ => by cases h⟩
  | some z =>
    dsimp only
    unfold barred
    split
    · rename_i h; exact ⟨nofun, fun ⟨_, h1, h2⟩ => by cases h1; rw [h] at h2; cases h2⟩
    · rename_i h; exact ⟨nofun, fun ⟨_, h1, h2⟩ => by cases h1; rw [h] at h2; cases h2⟩
    · rename_i h; exact ⟨fun _ => ⟨z, rfl, h⟩, fun _ => rfl⟩

theorem checkName_writes {zone : Option Bytes} {d : Bytes} : (checkName zone d).writes = [] := by
  unfold checkName
  split
  · rfl
  · unfold barred
    split <;> rfl

theorem checkNames_writes {zone : Option Bytes} : ∀ {ds : List Bytes}, (checkNames zone ds).writes = []
  | [] => rfl
  | d :: ds => by
    unfold checkNames
    cases h : (checkName zone d).res with
    | error s => rw [bind_writes_error h, checkName_writes]
    | ok a => rw [bind_writes h, checkName_writes, checkNames_writes]; rfl

theorem checkNames_ok {zone : Option Bytes} : ∀ {ds : List Bytes}, (checkNames zone ds).res = .ok () ↔ ∀ d ∈ ds, Allowed zone d
  | [] => ⟨fun _ => by simp, fun _ => rfl⟩
  | d :: ds => by
    unfold checkNames
    rw [bind_ok]
    simp only [List.mem_cons, forall_eq_or_imp]
    constructor
    · rintro ⟨a, h1, h2⟩
      exact ⟨checkName_ok.mp h1, checkNames_ok.mp h2⟩
    · rintro ⟨h1, h2⟩
      exact ⟨(), checkName_ok.mpr h1, checkNames_ok.mpr h2⟩

/-! ### The loop over datacenters -/

section
variable {c : Conf} {zone : Option Bytes} {f : Bytes → Option Bytes → Act Nat} {p : Bytes} {i : Nat} {r : Resource}

/-- What the loop comes to for one datacenter. -/
def DcFine (c : Conf) (zone : Option Bytes) (f : Bytes → Option Bytes → Act Nat) (d : Dc) : Prop :=
  (∀ t x svcs, d.target = .cname t x svcs → Allowed zone x) ∧
  ∀ q m, d.target = .res q m → (∃ k, find c q = some k ∧ k ≠ .monitor) ∧ ∃ n, (f q m).res = .ok n

/-- One step of the loop that stores. -/
theorem mapDcs_res {j js d q m kind} (hd : dcAt r j = some d) (ht : d.target = .res q m) (hf : find c q = some kind) (hm : kind ≠ .monitor) :
    mapDcs c zone f p i r (j :: js) = (Act.tell [.found ⟨p, i, j⟩, .num ⟨p, i, j⟩ 0]).bind fun _ =>
      (f q m).bind fun k => (Act.tell [.num ⟨p, i, j⟩ k]).bind fun _ => mapDcs c zone f p i r js := by
  rw [mapDcs, hd]
  dsimp only
  rw [ht]
  dsimp only
  rw [hf]
  cases kind with
  | monitor => exact absurd rfl hm
  | leaf => rfl
  | multi => rfl

theorem mapDcs_cname {j js d t x svcs} (hd : dcAt r j = some d) (ht : d.target = .cname t x svcs) :
    mapDcs c zone f p i r (j :: js) = (checkName zone x).bind fun _ => mapDcs c zone f p i r js := by
  rw [mapDcs, hd]
  dsimp only
  rw [ht]

theorem mapDcs_none {j js} (hd : dcAt r j = none) : mapDcs c zone f p i r (j :: js) = mapDcs c zone f p i r js := by
  rw [mapDcs, hd]

theorem mapDcs_ok : ∀ {js : List Nat}, (mapDcs c zone f p i r js).res = .ok () ↔ ∀ j ∈ js, ∀ d, dcAt r j = some d → DcFine c zone f d
  | [] => ⟨fun _ => by simp, fun _ => rfl⟩
  | j :: js => by
    have ih := mapDcs_ok (js := js)
    unfold mapDcs
    simp only [List.mem_cons, forall_eq_or_imp]
    cases hd : dcAt r j with
    | none => simp only [reduceCtorEq, false_implies, implies_true, true_and]; exact ih
    | some d =>
      simp only [Option.some.injEq, forall_eq']
      unfold DcFine
      cases ht : d.target with
      | cname t x svcs =>
        dsimp only
        rw [bind_ok]
        constructor
        · rintro ⟨_, h1, h2⟩
          exact ⟨⟨fun t x s h => by cases h; exact checkName_ok.mp h1, nofun⟩, ih.mp h2⟩
        · rintro ⟨h1, h2⟩
          exact ⟨(), checkName_ok.mpr (h1.1 t x svcs rfl), ih.mpr h2⟩
      | res q m =>
        dsimp only
        cases hf : find c q with
        | none => exact ⟨nofun, fun h => by obtain ⟨k, h1, _⟩ := (h.1.2 q m rfl).1; rw [hf] at h1; cases h1⟩
        | some kind =>
          by_cases hm : kind = .monitor
          · subst hm
            refine ⟨fun h => ?_, fun h => by obtain ⟨k, h1, h2⟩ := (h.1.2 q m rfl).1; rw [hf] at h1; cases h1; exact absurd rfl h2⟩
            obtain ⟨_, _, h⟩ := bind_ok.mp h
            cases h
          · have := mapDcs_res (c := c) (zone := zone) (f := f) (p := p) (i := i) (js := js) hd ht hf hm
            rw [mapDcs, hd] at this
            dsimp only at this
            rw [ht] at this
            dsimp only at this
            rw [hf] at this
            rw [this]
            simp only [bind_ok, tell_res]
            constructor
            · rintro ⟨_, _, n, h1, _, _, h2⟩
              exact ⟨⟨nofun, fun q' m' h => by cases h; exact ⟨⟨kind, hf, hm⟩, n, h1⟩⟩, ih.mp h2⟩
            · rintro ⟨h1, h2⟩
              obtain ⟨_, n, h3⟩ := h1.2 q m rfl
              exact ⟨(), trivial, n, h3, (), trivial, ih.mpr h2⟩

theorem mapDcs_congr {g : Bytes → Option Bytes → Act Nat} : ∀ {js : List Nat}, (∀ j ∈ js, ∀ d, dcAt r j = some d → ∀ q m, d.target = .res q m → f q m = g q m) →
    mapDcs c zone f p i r js = mapDcs c zone g p i r js
  | [], _ => rfl
  | j :: js, h => by
    have ih := mapDcs_congr (js := js) fun j hj => h j (by simp [hj])
    unfold mapDcs
    cases hd : dcAt r j with
    | none => exact ih
    | some d =>
      dsimp only
      cases ht : d.target with
      | cname t x svcs => dsimp only; rw [ih]
      | res q m => dsimp only; rw [ih, h j (by simp) d hd q m ht]

end

/-! ### What `map_res` comes to -/

/-- The steps for a resource of geoip or metafo. -/
structure Multi (c : Conf) (zone : Option Bytes) (k : Nat) (p : Bytes) (rn : Option Bytes) (n : Nat) (rs : List Resource) (m : Bytes) (i : Nat) (r : Resource) (dc : Nat) : Prop where
  kind : find c p = some (.multi rs)
  name : rn = some m
  first : FirstOf (splitSlash m).1 rs i r
  asked : Asked r.names (splitSlash m).2 dc
  small : dc < 256
  dcs : (mapDcs c zone (mapRes c zone k) p i r (if dc ≠ 0 then [dc] else (List.range r.names.length).map (· + 1))).res = .ok ()
  num : (number i dc).res = .ok n

theorem mapRes_cases {c : Conf} {zone : Option Bytes} {k : Nat} {p : Bytes} {rn : Option Bytes} {n : Nat} (h : (mapRes c zone (k + 1) p rn).res = .ok n) :
    (∃ num cn, find c p = some (.leaf num cn) ∧ num rn = some n ∧ (∀ d ∈ cn n, Allowed zone d) ∧ (mapRes c zone (k + 1) p rn).writes = []) ∨
    ∃ rs m i r dc, Multi c zone k p rn n rs m i r dc ∧
      (mapRes c zone (k + 1) p rn).writes = (mapDcs c zone (mapRes c zone k) p i r (if dc ≠ 0 then [dc] else (List.range r.names.length).map (· + 1))).writes := by
  unfold mapRes at h ⊢
  cases hf : find c p with
  | none => rw [hf] at h; cases h
  | some kind =>
    rw [hf] at h
    cases kind with
    | monitor => cases h
    | leaf num cn =>
      left
      dsimp only at h ⊢
      cases hn : num rn with
      | none => rw [hn] at h; cases h
      | some i =>
        rw [hn] at h
        obtain ⟨_, h1, h2⟩ := bind_ok.mp h
        cases h2
        refine ⟨num, cn, rfl, hn, checkNames_ok.mp h1, ?_⟩
        dsimp only
        rw [bind_writes h1, checkNames_writes]
        rfl
    | multi rs =>
      right
      dsimp only at h ⊢
      cases rn with
      | none => cases h
      | some m =>
        dsimp only at h ⊢
        cases hi : rs.findIdx? fun r => r.name == (splitSlash m).1 with
        | none => rw [hi] at h; cases h
        | some i =>
          rw [hi] at h
          dsimp only at h ⊢
          cases hr : rs[i]? with
          | none => rw [hr] at h; cases h
          | some r =>
            rw [hr] at h
            dsimp only at h ⊢
            obtain ⟨dc, h1, h2⟩ := bind_ok.mp h
            obtain ⟨_, h3, h4⟩ := bind_ok.mp h2
            obtain ⟨h5, h6⟩ := fixedDc_ok.mp h1
            refine ⟨rs, m, i, r, dc, ⟨hf, rfl, firstOf_iff.mpr ⟨hi, hr⟩, h5, h6, h3, h4⟩, ?_⟩
            rw [bind_writes h1, fixedDc_writes, List.nil_append, bind_writes h3, number_writes, List.append_nil]

theorem mapRes_multi {c : Conf} {zone : Option Bytes} {k : Nat} {p : Bytes} {rn : Option Bytes} {n : Nat} {rs m i r dc} (h : Multi c zone k p rn n rs m i r dc) :
    (mapRes c zone (k + 1) p rn).res = .ok n := by
  obtain ⟨h1, rfl, h3, h4, h5, h6, h7⟩ := h
  obtain ⟨g1, g2⟩ := firstOf_iff.mp h3
  unfold mapRes
  rw [h1]
  dsimp only
  rw [g1]
  dsimp only
  rw [g2]
  dsimp only
  exact bind_ok.mpr ⟨dc, fixedDc_ok.mpr ⟨h4, h5⟩, bind_ok.mpr ⟨(), h6, h7⟩⟩

/-- The kind of plugin whose resources can be mapped. -/
theorem mapRes_kind {c : Conf} {zone : Option Bytes} {k : Nat} {p : Bytes} {rn : Option Bytes} {n : Nat} (h : (mapRes c zone k p rn).res = .ok n) :
    ∃ kind, find c p = some kind ∧ kind ≠ .monitor := by
  cases k with
  | zero => cases h
  | succ k =>
    rcases mapRes_cases h with ⟨_, _, h1, _⟩ | ⟨_, _, _, _, _, h1, _⟩
    · exact ⟨_, h1, nofun⟩
    · exact ⟨_, h1.kind, nofun⟩

/-- More room for nesting changes nothing. -/
theorem mapRes_more {c : Conf} {zone : Option Bytes} : ∀ {k : Nat} {p : Bytes} {rn : Option Bytes} {n : Nat}, (mapRes c zone k p rn).res = .ok n → mapRes c zone (k + 1) p rn = mapRes c zone k p rn
  | 0, _, _, _, h => by cases h
  | k + 1, p, rn, n, h => by
    rcases mapRes_cases h with ⟨num, cn, h1, h2, _⟩ | ⟨rs, m, i, r, dc, h1, _⟩
    · rw [mapRes, mapRes, h1]
    · obtain ⟨h1, rfl, h3, h4, h5, h6, h7⟩ := h1
      obtain ⟨g1, g2⟩ := firstOf_iff.mp h3
      have hfix := fixedDc_ok.mpr ⟨h4, h5⟩
      rw [mapRes, mapRes, h1]
      dsimp only
      rw [g1]
      dsimp only
      rw [g2]
      dsimp only
      refine bind_congr rfl fun dc' hdc' => ?_
      have : dc' = dc := by rw [hfix] at hdc'; cases hdc'; rfl
      subst this
      refine bind_congr (mapDcs_congr fun j hj d hd q m ht => ?_) fun _ _ => rfl
      obtain ⟨n, hn⟩ := ((mapDcs_ok.mp h6 j hj d hd).2 q m ht).2
      exact mapRes_more hn

theorem mapRes_mono {c : Conf} {zone : Option Bytes} {k : Nat} {p : Bytes} {rn : Option Bytes} {n : Nat} (h : (mapRes c zone k p rn).res = .ok n) : ∀ k', k ≤ k' → mapRes c zone k' p rn = mapRes c zone k p rn := by
  intro k' hk
  obtain ⟨x, rfl⟩ := Nat.exists_eq_add_of_le hk
  induction x with
  | zero => rfl
  | succ x ih =>
    have := ih (by omega)
    rw [← this] at h
    rw [← Nat.add_assoc, mapRes_more h, this]

end Gdnsd.Refs
