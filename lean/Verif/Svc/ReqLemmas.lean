/-
Monitoring requests: lemmas.
-/
import Verif.Svc.ReqSpec
import Verif.Svc.Lemmas
namespace Gdnsd.Svc
open Vscf VscfSpec ConfSpec SvcSpec Conf

theorem sameThing_iff {t t' : Thing} : sameThing t t' = true ↔ SameThing t t' := by
  cases t with
  | addr a =>
    cases t' with
    | addr b =>
      obtain ⟨v, x, r⟩ := a
      obtain ⟨v', x', r'⟩ := b
      simp only [sameThing, Bool.and_eq_true, beq_iff_eq]
      constructor
      · rintro ⟨rfl, rfl⟩
        exact .addr
      · intro h
        cases h
        exact ⟨rfl, rfl⟩
    | cname _ _ => exact ⟨nofun, nofun⟩
  | cname s d =>
    cases t' with
    | addr _ => exact ⟨nofun, nofun⟩
    | cname s' d' =>
      simp only [sameThing, beq_iff_eq]
      constructor
      · rintro rfl
        exact .cname
      · intro h
        cases h
        rfl

theorem SameThing_refl (t : Thing) : SameThing t t := by
  cases t with
  | addr a => obtain ⟨v, x, r⟩ := a; exact .addr
  | cname _ _ => exact .cname

theorem SameThing_symm {t t' : Thing} (h : SameThing t t') : SameThing t' t := by
  cases h
  · exact .addr
  · exact .cname

theorem SameThing_trans {t t' t'' : Thing} (h : SameThing t t') (h' : SameThing t' t'') : SameThing t t'' := by
  cases h <;> cases h'
  · exact .addr
  · exact .cname

/-- The place in the table of a service type's name. -/
def place (types : List (Bytes × Option Plug)) (svc : Bytes) : Option Nat := types.findIdx? fun e => e.1 == svc

theorem place_iff {types : List (Bytes × Option Plug)} {svc : Bytes} {k : Nat} :
    place types svc = some k ↔ ∃ p, FirstWith (fun e : Bytes × Option Plug => e.1 = svc) types k (svc, p) := by
  unfold place
  rw [List.findIdx?_eq_some_iff_getElem]
  constructor
  · rintro ⟨h, h1, h2⟩
    rw [beq_iff_eq] at h1
    refine ⟨types[k].2, ?_, rfl, ?_⟩
    · rw [List.getElem?_eq_getElem h, ← h1]
    · intro j y hj hy
      obtain ⟨hl, rfl⟩ := List.getElem?_eq_some_iff.mp hy
      have := h2 j hj
      rw [Bool.not_eq_true, beq_eq_false_iff_ne] at this
      exact this
  · rintro ⟨p, h1, _, h3⟩
    obtain ⟨hl, he⟩ := List.getElem?_eq_some_iff.mp h1
    refine ⟨hl, by rw [he]; exact beq_self_eq_true _, ?_⟩
    intro j hj
    have := h3 j _ hj (List.getElem?_eq_getElem (by omega))
    rw [Bool.not_eq_true, beq_eq_false_iff_ne]
    exact this

theorem place_inj {types : List (Bytes × Option Plug)} {s s' : Bytes} {k : Nat} (h : place types s = some k) (h' : place types s' = some k) : s = s' := by
  obtain ⟨p, h1, _⟩ := place_iff.mp h
  obtain ⟨p', h2, _⟩ := place_iff.mp h'
  rw [h1] at h2
  cases h2
  rfl

/-- A slot is the one that a first request for something makes. -/
inductive Made (text : Addr → Option Bytes) (types : List (Bytes × Option Plug)) : Req → Slot → Prop
  | admin {desc} : Made text types (.admin desc) ⟨none, desc, [], false⟩
  | service {svc t k p s} : place types svc = some k → types[k]? = some (svc, p) → CanMonitor p t → Written text t s →
      Made text types (.service svc t) ⟨some (k, t), s ++ str "/" ++ svc, downcase s, svc == str "down"⟩

/-- The slot of a request. -/
def Fits (types : List (Bytes × Option Plug)) (m : Slot) : Req → Prop
  | .admin desc => m = ⟨none, desc, [], false⟩
  | .service svc t => ∃ k t', place types svc = some k ∧ m.type = some (k, t') ∧ SameThing t t'

/-- The state after some requests. -/
structure Inv (text : Addr → Option Bytes) (types : List (Bytes × Option Plug)) (rs : List Req) (ms : List Slot) (is : List Nat) : Prop where
  len : is.length = rs.length
  fits : ∀ (i : Nat) r k, rs[i]? = some r → is[i]? = some k → ∃ m, ms[k]? = some m ∧ Fits types m r
  made : ∀ (k : Nat) m, ms[k]? = some m → ∃ i r, FirstWith (· = k) is i k ∧ rs[i]? = some r ∧ Made text types r m
  same : ∀ (i j : Nat) r r' k k', rs[i]? = some r → rs[j]? = some r' → is[i]? = some k → is[j]? = some k' → (k = k' ↔ i = j ∨ SameReq r r')

theorem inv_nil {text : Addr → Option Bytes} {types : List (Bytes × Option Plug)} : Inv text types [] [] [] :=
  ⟨rfl, by simp, by simp, by simp⟩

theorem get_append {α : Type} {l : List α} {x y : α} {i : Nat} (h : (l ++ [x])[i]? = some y) : l[i]? = some y ∨ (i = l.length ∧ y = x) := by
  by_cases hi : i < l.length
  · rw [List.getElem?_append_left hi] at h
    exact .inl h
  · rw [List.getElem?_append_right (by omega)] at h
    obtain ⟨hl, he⟩ := List.getElem?_eq_some_iff.mp h
    simp only [List.length_singleton] at hl
    refine .inr ⟨by omega, ?_⟩
    rw [← he]
    simp

theorem get_left {α : Type} {l : List α} {x y : α} {i : Nat} (h : l[i]? = some y) : (l ++ [x])[i]? = some y := by
  rw [List.getElem?_append_left (List.getElem?_eq_some_iff.mp h).1]
  exact h

theorem holds_iff {k : Nat} {t : Thing} {m : Slot} : holds k t m = true ↔ ∃ t', m.type = some (k, t') ∧ SameThing t t' := by
  unfold holds
  split
  next k' t' h =>
    rw [Bool.and_eq_true, beq_iff_eq, sameThing_iff, h]
    constructor
    · rintro ⟨h1, rfl⟩
      exact ⟨t', rfl, h1⟩
    · rintro ⟨_, h1, h2⟩
      cases h1
      exact ⟨h2, rfl⟩
  next h =>
    rw [h]
    exact ⟨nofun, nofun⟩

theorem unsupported_iff {p : Option Plug} {t : Thing} : unsupported p t = false ↔ CanMonitor p t := by
  constructor
  · intro h
    cases t with
    | addr a =>
      refine .addr ?_
      rintro rfl
      cases h
    | cname s d =>
      refine .cname ?_ ?_ ?_ <;> (rintro rfl; cases h)
  · intro h
    cases h with
    | addr h =>
      cases p with
      | none => rfl
      | some p => cases p <;> first | rfl | exact absurd rfl h
    | cname h1 h2 h3 =>
      cases p with
      | none => rfl
      | some p => cases p <;> first | rfl | exact absurd rfl h1 | exact absurd rfl h2 | exact absurd rfl h3

theorem written_iff {text : Addr → Option Bytes} {t : Thing} {s : Bytes} : written text t = some s ↔ Written text t s := by
  cases t with
  | addr a => rfl
  | cname c d => simp [written, Written]

/-- A slot fits two service requests only if they are the same; it fits what is the same as what it fits. -/
theorem fits_same {types : List (Bytes × Option Plug)} {m : Slot} {svc svc' : Bytes} {t t' : Thing}
    (h : Fits types m (.service svc t)) (h' : Fits types m (.service svc' t')) : SameReq (.service svc t) (.service svc' t') := by
  obtain ⟨k, u, h1, h2, h3⟩ := h
  obtain ⟨k', u', h1', h2', h3'⟩ := h'
  rw [h2] at h2'
  cases h2'
  obtain rfl := place_inj h1 h1'
  exact .intro (SameThing_trans h3 (SameThing_symm h3'))

theorem fits_of {types : List (Bytes × Option Plug)} {m : Slot} {r r' : Req} (h : Fits types m r) (h' : SameReq r r') : Fits types m r' := by
  cases h' with
  | intro hs =>
    obtain ⟨k, u, h1, h2, h3⟩ := h
    exact ⟨k, u, h1, h2, SameThing_trans (SameThing_symm hs) h3⟩

theorem made_fits {text : Addr → Option Bytes} {types : List (Bytes × Option Plug)} {r : Req} {m : Slot} (h : Made text types r m) : Fits types m r := by
  cases h with
  | admin => rfl
  | service h1 _ _ _ => exact ⟨_, _, h1, rfl, SameThing_refl _⟩

theorem SameReq_symm {r r' : Req} (h : SameReq r r') : SameReq r' r := by
  cases h with
  | intro h => exact .intro (SameThing_symm h)

/-- A request that gets a new slot. -/
theorem inv_new {text : Addr → Option Bytes} {types : List (Bytes × Option Plug)} {rs : List Req} {ms : List Slot} {is : List Nat} (hi : Inv text types rs ms is)
    {r : Req} {m : Slot} (hm : Made text types r m) (hn : ∀ svc t, r = .service svc t → ∀ m ∈ ms, ¬ Fits types m r) :
    Inv text types (rs ++ [r]) (ms ++ [m]) (is ++ [ms.length]) := by
  have hb : ∀ (i : Nat) k, is[i]? = some k → k < ms.length := by
    intro i k hk
    obtain ⟨hl, _⟩ := List.getElem?_eq_some_iff.mp hk
    obtain ⟨m', h, _⟩ := hi.fits i _ k (List.getElem?_eq_getElem (by rw [← hi.len]; exact hl)) hk
    exact (List.getElem?_eq_some_iff.mp h).1
  have hfresh : ∀ (i : Nat) r' k, rs[i]? = some r' → is[i]? = some k → ¬ SameReq r' r := by
    intro i r' k h1 h2 hs
    obtain ⟨m', h3, h4⟩ := hi.fits i r' k h1 h2
    have h5 := fits_of h4 hs
    cases hs with
    | intro _ => exact hn _ _ rfl m' (List.mem_of_getElem? h3) h5
  refine ⟨by simp [hi.len], ?_, ?_, ?_⟩
  · intro i r' k h1 h2
    rcases get_append h1 with h1 | ⟨rfl, rfl⟩
    · rcases get_append h2 with h2 | ⟨rfl, rfl⟩
      · obtain ⟨m', h3, h4⟩ := hi.fits i r' k h1 h2
        exact ⟨m', get_left h3, h4⟩
      · exact absurd (List.getElem?_eq_some_iff.mp h1).1 (by rw [hi.len]; omega)
    · rcases get_append h2 with h2 | ⟨_, rfl⟩
      · exact absurd (List.getElem?_eq_some_iff.mp h2).1 (by rw [hi.len]; omega)
      · exact ⟨m, by simp, made_fits hm⟩
  · intro k m' h
    rcases get_append h with h | ⟨rfl, rfl⟩
    · obtain ⟨i, r', ⟨h1, h2, h3⟩, h4, h5⟩ := hi.made k m' h
      refine ⟨i, r', ⟨get_left h1, h2, ?_⟩, get_left h4, h5⟩
      intro j y hj hy
      rcases get_append hy with hy | ⟨rfl, _⟩
      · exact h3 j y hj hy
      · exact absurd (List.getElem?_eq_some_iff.mp h1).1 (by omega)
    · refine ⟨is.length, r, ⟨by simp, rfl, ?_⟩, by rw [hi.len]; simp, hm⟩
      intro j y hj hy
      rcases get_append hy with hy | ⟨rfl, _⟩
      · have := hb j y hy
        omega
      · omega
  · intro i j r1 r2 k1 k2 g1 g2 g3 g4
    rcases get_append g1 with h1 | ⟨rfl, rfl⟩
    · rcases get_append g3 with h3 | ⟨rfl, rfl⟩
      · rcases get_append g2 with h2 | ⟨rfl, rfl⟩
        · rcases get_append g4 with h4 | ⟨rfl, rfl⟩
          · exact hi.same i j r1 r2 k1 k2 h1 h2 h3 h4
          · exact absurd (List.getElem?_eq_some_iff.mp h2).1 (by rw [hi.len]; omega)
        · rcases get_append g4 with h4 | ⟨_, rfl⟩
          · exact absurd (List.getElem?_eq_some_iff.mp h4).1 (by rw [hi.len]; omega)
          · have e1 := hb _ _ h3
            have e2 := (List.getElem?_eq_some_iff.mp h1).1
            constructor
            · intro h
              omega
            · rintro (h | h)
              · omega
              · exact absurd h (hfresh _ _ _ h1 h3)
      · exact absurd (List.getElem?_eq_some_iff.mp h1).1 (by rw [hi.len]; omega)
    · rcases get_append g3 with h3 | ⟨_, rfl⟩
      · exact absurd (List.getElem?_eq_some_iff.mp h3).1 (by rw [hi.len]; omega)
      · rcases get_append g2 with h2 | ⟨rfl, rfl⟩
        · rcases get_append g4 with h4 | ⟨rfl, rfl⟩
          · have e1 := hb _ _ h4
            have e2 := (List.getElem?_eq_some_iff.mp h2).1
            constructor
            · intro h
              omega
            · rintro (h | h)
              · omega
              · exact absurd (SameReq_symm h) (hfresh _ _ _ h2 h4)
          · exact absurd (List.getElem?_eq_some_iff.mp h2).1 (by rw [hi.len]; omega)
        · rcases get_append g4 with h4 | ⟨_, rfl⟩
          · exact absurd (List.getElem?_eq_some_iff.mp h4).1 (by rw [hi.len]; omega)
          · exact ⟨fun _ => .inl rfl, fun _ => rfl⟩

/-- A request that shares a slot. -/
theorem inv_old {text : Addr → Option Bytes} {types : List (Bytes × Option Plug)} {rs : List Req} {ms : List Slot} {is : List Nat} (hi : Inv text types rs ms is)
    {svc : Bytes} {t : Thing} {k : Nat} {m : Slot} (hk : ms[k]? = some m) (hf : Fits types m (.service svc t))
    (hfirst : ∀ j m', ms[j]? = some m' → Fits types m' (.service svc t) → j = k) :
    Inv text types (rs ++ [.service svc t]) ms (is ++ [k]) := by
  have hshare : ∀ (i : Nat) r' k', rs[i]? = some r' → is[i]? = some k' → (k' = k ↔ SameReq r' (.service svc t)) := by
    intro i r' k' h1 h2
    obtain ⟨m', h3, h4⟩ := hi.fits i r' k' h1 h2
    constructor
    · rintro rfl
      rw [hk] at h3
      cases h3
      cases r' with
      | admin d =>
        obtain ⟨_, _, _, h5, _⟩ := hf
        rw [h4] at h5
        cases h5
      | service s u => exact fits_same h4 hf
    · intro hs
      exact hfirst k' m' h3 (fits_of h4 hs)
  refine ⟨by simp [hi.len], ?_, ?_, ?_⟩
  · intro i r' k' h1 h2
    rcases get_append h1 with h1 | ⟨rfl, rfl⟩
    · rcases get_append h2 with h2 | ⟨rfl, rfl⟩
      · exact hi.fits i r' k' h1 h2
      · exact absurd (List.getElem?_eq_some_iff.mp h1).1 (by rw [hi.len]; omega)
    · rcases get_append h2 with h2 | ⟨_, rfl⟩
      · exact absurd (List.getElem?_eq_some_iff.mp h2).1 (by rw [hi.len]; omega)
      · exact ⟨m, hk, hf⟩
  · intro k' m' h
    obtain ⟨i, r', ⟨h1, h2, h3⟩, h4, h5⟩ := hi.made k' m' h
    refine ⟨i, r', ⟨get_left h1, h2, ?_⟩, get_left h4, h5⟩
    intro j y hj hy
    rcases get_append hy with hy | ⟨rfl, _⟩
    · exact h3 j y hj hy
    · exact absurd (List.getElem?_eq_some_iff.mp h1).1 (by omega)
  · intro i j r1 r2 k1 k2 g1 g2 g3 g4
    rcases get_append g1 with h1 | ⟨rfl, rfl⟩
    · rcases get_append g3 with h3 | ⟨rfl, rfl⟩
      · rcases get_append g2 with h2 | ⟨rfl, rfl⟩
        · rcases get_append g4 with h4 | ⟨rfl, rfl⟩
          · exact hi.same i j r1 r2 k1 k2 h1 h2 h3 h4
          · exact absurd (List.getElem?_eq_some_iff.mp h2).1 (by rw [hi.len]; omega)
        · rcases get_append g4 with h4 | ⟨_, rfl⟩
          · exact absurd (List.getElem?_eq_some_iff.mp h4).1 (by rw [hi.len]; omega)
          · have e2 := (List.getElem?_eq_some_iff.mp h1).1
            rw [hshare _ _ _ h1 h3]
            constructor
            · exact .inr
            · rintro (h | h)
              · omega
              · exact h
      · exact absurd (List.getElem?_eq_some_iff.mp h1).1 (by rw [hi.len]; omega)
    · rcases get_append g3 with h3 | ⟨_, rfl⟩
      · exact absurd (List.getElem?_eq_some_iff.mp h3).1 (by rw [hi.len]; omega)
      · rcases get_append g2 with h2 | ⟨rfl, rfl⟩
        · rcases get_append g4 with h4 | ⟨rfl, rfl⟩
          · have e2 := (List.getElem?_eq_some_iff.mp h2).1
            rw [eq_comm, hshare _ _ _ h2 h4]
            constructor
            · exact fun h => .inr (SameReq_symm h)
            · rintro (h | h)
              · omega
              · exact SameReq_symm h
          · exact absurd (List.getElem?_eq_some_iff.mp h2).1 (by rw [hi.len]; omega)
        · rcases get_append g4 with h4 | ⟨_, rfl⟩
          · exact absurd (List.getElem?_eq_some_iff.mp h4).1 (by rw [hi.len]; omega)
          · exact ⟨fun _ => .inl rfl, fun _ => rfl⟩

/-- Slots of service types differ. -/
theorem inv_unique {text : Addr → Option Bytes} {types : List (Bytes × Option Plug)} {rs : List Req} {ms : List Slot} {is : List Nat} (hi : Inv text types rs ms is)
    {j k : Nat} {m m' : Slot} {svc : Bytes} {t : Thing} (h1 : ms[j]? = some m) (h2 : ms[k]? = some m') (f1 : Fits types m (.service svc t)) (f2 : Fits types m' (.service svc t)) :
    j = k := by
  obtain ⟨i1, r1, ⟨a1, _, _⟩, b1, c1⟩ := hi.made j m h1
  obtain ⟨i2, r2, ⟨a2, _, _⟩, b2, c2⟩ := hi.made k m' h2
  refine (hi.same i1 i2 r1 r2 j k b1 b2 a1 a2).mpr (.inr ?_)
  have g1 := made_fits c1
  have g2 := made_fits c2
  cases c1 with
  | admin =>
    obtain ⟨_, _, _, h, _⟩ := f1
    cases h
  | service _ _ _ _ =>
    cases c2 with
    | admin =>
      obtain ⟨_, _, _, h, _⟩ := f2
      cases h
    | service _ _ _ _ =>
      have e1 := fits_same g1 f1
      have e2 := fits_same g2 f2
      cases e1 with
      | intro e1 =>
        cases e2 with
        | intro e2 => exact .intro (SameThing_trans e1 (SameThing_symm e2))

/-- What a request may ask for. -/
inductive Legal (text : Addr → Option Bytes) (types : List (Bytes × Option Plug)) : Req → Prop
  | admin {desc} : Legal text types (.admin desc)
  | service {svc t k p s} : FirstWith (fun e : Bytes × Option Plug => e.1 = svc) types k (svc, p) → CanMonitor p t → Written text t s →
      Legal text types (.service svc t)

theorem request_inv {text : Addr → Option Bytes} {types : List (Bytes × Option Plug)} {rs : List Req} {ms : List Slot} {is : List Nat} (hi : Inv text types rs ms is)
    {r : Req} {ms' : List Slot} {k : Nat} (h : request text types ms r = some (ms', k)) : Inv text types (rs ++ [r]) ms' (is ++ [k]) := by
  cases r with
  | admin desc =>
    cases h
    exact inv_new hi .admin nofun
  | service svc t =>
    simp only [request] at h
    cases hp : types.findIdx? (fun e => e.1 == svc) with
    | none => rw [hp] at h; cases h
    | some q =>
      rw [hp] at h
      dsimp only at h
      have hp : place types svc = some q := hp
      have hfit : ∀ m, Fits types m (.service svc t) ↔ holds q t m = true := by
        intro m
        rw [holds_iff]
        constructor
        · rintro ⟨q', t', h1, h2, h3⟩
          rw [hp] at h1
          cases h1
          exact ⟨t', h2, h3⟩
        · rintro ⟨t', h2, h3⟩
          exact ⟨q, t', hp, h2, h3⟩
      cases hf : ms.findIdx? (holds q t) with
      | some i =>
        rw [hf] at h
        cases h
        obtain ⟨hl, h1, h2⟩ := List.findIdx?_eq_some_iff_getElem.mp hf
        have hg : ms[k]? = some ms[k] := List.getElem?_eq_getElem hl
        exact inv_old hi hg ((hfit _).mpr h1) fun j m' h3 h4 => inv_unique hi h3 hg h4 ((hfit _).mpr h1)
      | none =>
        rw [hf] at h
        dsimp only at h
        obtain ⟨p, hp1, _⟩ := place_iff.mp hp
        rw [hp1] at h
        simp only [Option.bind_some] at h
        split at h
        next => cases h
        next hu =>
          cases hw : written text t with
          | none => rw [hw] at h; cases h
          | some s =>
            rw [hw] at h
            cases h
            refine inv_new hi (.service hp hp1 (unsupported_iff.mp (by simpa using hu)) (written_iff.mp hw)) ?_
            intro svc' t' e m hm
            cases e
            rw [hfit]
            have := List.findIdx?_eq_none_iff.mp hf m hm
            rw [this]
            exact nofun

theorem requests_inv {text : Addr → Option Bytes} {types : List (Bytes × Option Plug)} {rs0 : List Req} {ms : List Slot} {is0 : List Nat} (hi : Inv text types rs0 ms is0)
    {rs : List Req} {ms' : List Slot} {is : List Nat} (h : requests text types rs ms = some (ms', is)) : Inv text types (rs0 ++ rs) ms' (is0 ++ is) := by
  induction rs generalizing rs0 ms is0 is with
  | nil =>
    cases h
    rw [List.append_nil, List.append_nil]
    exact hi
  | cons r rs ih =>
    simp only [requests] at h
    cases hr : request text types ms r with
    | none => rw [hr] at h; cases h
    | some q =>
      obtain ⟨ms1, i⟩ := q
      rw [hr] at h
      simp only [Option.map_eq_some_iff] at h
      obtain ⟨⟨ms2, is2⟩, h1, h2⟩ := h
      cases h2
      have := ih (request_inv hi hr) h1
      rw [List.append_assoc, List.append_assoc] at this
      exact this

theorem made_legal {text : Addr → Option Bytes} {types : List (Bytes × Option Plug)} {r : Req} {m : Slot} (h : Made text types r m) : Legal text types r := by
  cases h with
  | admin => exact .admin
  | service h1 h2 h3 h4 =>
    obtain ⟨p, hf⟩ := place_iff.mp h1
    rw [hf.1] at h2
    cases h2
    exact .service hf h3 h4

/-- Whether a request that is the same can be written does not matter: it shares the text of the first one. -/
theorem request_some {text : Addr → Option Bytes} {types : List (Bytes × Option Plug)} {ms : List Slot} {r : Req} (h : Legal text types r) :
    ∃ q, request text types ms r = some q := by
  cases h with
  | admin => exact ⟨_, rfl⟩
  | @service svc t k p s h1 h2 h3 =>
    have hp : types.findIdx? (fun e => e.1 == svc) = some k := place_iff.mpr ⟨p, h1⟩
    simp only [request, hp]
    cases ms.findIdx? (holds k t) with
    | some i => exact ⟨_, rfl⟩
    | none =>
      dsimp only
      rw [h1.1]
      simp only [Option.bind_some, unsupported_iff.mpr h2, written_iff.mpr h3]
      exact ⟨_, rfl⟩

theorem requests_some {text : Addr → Option Bytes} {types : List (Bytes × Option Plug)} {rs : List Req} (h : ∀ r ∈ rs, Legal text types r) {ms : List Slot} :
    ∃ q, requests text types rs ms = some q := by
  induction rs generalizing ms with
  | nil => exact ⟨_, rfl⟩
  | cons r rs ih =>
    obtain ⟨⟨ms1, i⟩, h1⟩ := request_some (ms := ms) (h r (List.mem_cons_self ..))
    obtain ⟨q, h2⟩ := ih (fun r hr => h r (List.mem_cons_of_mem _ hr)) (ms := ms1)
    simp only [requests, h1, h2]
    exact ⟨_, rfl⟩

end Gdnsd.Svc
