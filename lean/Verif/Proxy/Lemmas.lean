/-
The version 1 parser in closed form.
-/
import Verif.Proxy.Spec
namespace Gdnsd.Proxy

/-- The text before the first space, and that after it; nothing if a NUL or the end
comes first. -/
def splitW : Bytes → Option (Bytes × Bytes)
  | [] => none
  | x :: r => if x = 32 then some ([], r) else if x = 0 then none else (splitW r).map fun p => (x :: p.1, p.2)

theorem splitW_iff (t w u : Bytes) : splitW t = some (w, u) ↔ t = w ++ 32 :: u ∧ ∀ x ∈ w, x ≠ 32 ∧ x ≠ 0 := by
  induction t generalizing w with
  | nil => simp [splitW]
  | cons x r ih =>
    unfold splitW
    by_cases h : x = 32
    · rw [if_pos h]
      subst h
      cases w with
      | nil => simp [eq_comm]
      | cons y w' =>
        constructor
        · intro he
          simp at he
        · rintro ⟨he, hw⟩
          simp at he
          exact absurd he.1.symm (hw y (by simp)).1
    · rw [if_neg h]
      by_cases h0 : x = 0
      · rw [if_pos h0]
        constructor
        · intro he; cases he
        · rintro ⟨he, hw⟩
          cases w with
          | nil => simp at he; exact absurd he.1 h
          | cons y w' =>
            simp at he
            exact absurd (he.1 ▸ h0) (hw y (by simp)).2
      · rw [if_neg h0]
        cases w with
        | nil =>
          constructor
          · intro he
            cases hs : splitW r with
            | none => rw [hs] at he; cases he
            | some p => rw [hs] at he; simp at he
          · rintro ⟨he, _⟩
            simp at he
            exact absurd he.1 h
        | cons y w' =>
          have := ih w'
          constructor
          · intro he
            cases hs : splitW r with
            | none => rw [hs] at he; cases he
            | some p =>
              rw [hs] at he
              simp at he
              obtain ⟨⟨h1, h2⟩, h3⟩ := he
              have hp : splitW r = some (w', u) := by rw [hs, ← h2, ← h3]
              have h4 := this.mp hp
              refine ⟨by rw [h4.1, h1]; rfl, fun z hz => ?_⟩
              rcases List.mem_cons.mp hz with rfl | hz
              · exact h1 ▸ ⟨h, h0⟩
              · exact h4.2 z hz
          · rintro ⟨he, hw⟩
            simp at he
            rw [this.mpr ⟨he.2, fun z hz => hw z (List.mem_cons_of_mem _ hz)⟩, he.1]
            rfl

theorem strchrAt_split (t rest : Bytes) (i : Nat) :
    strchrAt 32 (t ++ 0 :: rest) i = .ok ((splitW t).map fun p => i + p.1.length) := by
  induction t generalizing i with
  | nil => simp [strchrAt, splitW]
  | cons x r ih =>
    rw [List.cons_append]
    unfold strchrAt splitW
    by_cases h : x = 32
    · rw [if_pos h, if_pos h]; simp
    · rw [if_neg h, if_neg h]
      by_cases h0 : x = 0
      · rw [if_pos h0, if_pos h0]; simp
      · rw [if_neg h0, if_neg h0, ih]
        cases splitW r with
        | none => rfl
        | some p => simp; omega

theorem set_at (l r : Bytes) (x y : UInt8) (i : Nat) (h : i = l.length) : (l ++ x :: r).set i y = l ++ y :: r := by
  subst h
  induction l with
  | nil => rfl
  | cons z l ih => simp [ih]

theorem cut_split (pre t rest : Bytes) (start stop : Nat) (h1 : start = pre.length) (h2 : stop = pre.length + t.length) :
    cut (pre ++ t ++ 0 :: rest) start stop = .ok ((splitW t).map fun p => (pre.length + p.1.length, pre ++ p.1 ++ 0 :: p.2 ++ 0 :: rest)) := by
  subst h1
  unfold cut
  rw [List.append_assoc, List.drop_left, strchrAt_split]
  cases hs : splitW t with
  | none => rfl
  | some p =>
    have h := (splitW_iff t p.1 p.2).mp hs
    have hl : t.length = p.1.length + 1 + p.2.length := by rw [h.1]; simp; omega
    simp only [Option.map_some, Outcome.bind_ok]
    rw [if_neg (by omega)]
    conv => lhs; rw [h.1]
    have : pre ++ (p.1 ++ 32 :: p.2 ++ 0 :: rest) = (pre ++ p.1) ++ 32 :: (p.2 ++ 0 :: rest) := by simp
    rw [this, set_at _ _ _ _ _ (by simp)]
    simp

theorem cstr_at (pre w rest : Bytes) (i : Nat) (h : i = pre.length) (hw : ∀ x ∈ w, x ≠ 0) : cstr (pre ++ w ++ 0 :: rest) i = w := by
  subst h
  unfold cstr
  rw [List.append_assoc, List.drop_left, List.takeWhile_append_of_pos (fun x hx => by simpa using hw x hx)]
  simp

theorem findIdx_none (l : Bytes) (c : UInt8) (h : ∀ x ∈ l, x ≠ c) : l.findIdx? (· == c) = none := by
  rw [List.findIdx?_eq_none_iff]
  intro x hx
  simpa using h x hx

theorem findIdx_at (l r : Bytes) (c : UInt8) (h : ∀ x ∈ l, x ≠ c) : (l ++ c :: r).findIdx? (· == c) = some l.length := by
  rw [List.findIdx?_append, findIdx_none l c h]
  simp [List.findIdx?_cons]

/-- A list has the character, with none before it, or does not have it. -/
theorem first (c : UInt8) (l : Bytes) : (∀ x ∈ l, x ≠ c) ∨ ∃ u v, l = u ++ c :: v ∧ ∀ x ∈ u, x ≠ c := by
  induction l with
  | nil => exact .inl (by simp)
  | cons y r ih =>
    by_cases h : y = c
    · exact .inr ⟨[], r, by rw [h]; rfl, by simp⟩
    · rcases ih with ih | ⟨u, v, h1, h2⟩
      · exact .inl fun x hx => by
          rcases List.mem_cons.mp hx with rfl | hx
          · exact h
          · exact ih x hx
      · refine .inr ⟨y :: u, v, by rw [h1]; rfl, fun x hx => ?_⟩
        rcases List.mem_cons.mp hx with rfl | hx
        · exact h
        · exact h2 x hx

/-- What follows the protocol, cut at three spaces. -/
def fields (t : Bytes) : Option (Bytes × Bytes × Bytes × Bytes) :=
  match splitW t with
  | none => none
  | some (src, t1) =>
    match splitW t1 with
    | none => none
    | some (dst, t2) =>
      match splitW t2 with
      | none => none
      | some (sport, dport) => some (src, dst, sport, dport)

theorem fields_iff (t src dst sport dport : Bytes) :
    fields t = some (src, dst, sport, dport) ↔ t = src ++ [32] ++ dst ++ [32] ++ sport ++ [32] ++ dport ∧
      (∀ x ∈ src, x ≠ 32 ∧ x ≠ 0) ∧ (∀ x ∈ dst, x ≠ 32 ∧ x ≠ 0) ∧ (∀ x ∈ sport, x ≠ 32 ∧ x ≠ 0) := by
  constructor
  · intro h
    unfold fields at h
    cases h1 : splitW t with
    | none => rw [h1] at h; cases h
    | some p1 =>
      rw [h1] at h
      cases h2 : splitW p1.2 with
      | none => dsimp only at h; rw [h2] at h; cases h
      | some p2 =>
        dsimp only at h
        rw [h2] at h
        cases h3 : splitW p2.2 with
        | none => dsimp only at h; rw [h3] at h; cases h
        | some p3 =>
          dsimp only at h
          rw [h3] at h
          simp only [Option.some.injEq, Prod.mk.injEq] at h
          obtain ⟨e1, e2, e3, e4⟩ := h
          have g1 := (splitW_iff t p1.1 p1.2).mp h1
          have g2 := (splitW_iff p1.2 p2.1 p2.2).mp h2
          have g3 := (splitW_iff p2.2 p3.1 p3.2).mp h3
          subst e1 e2 e3 e4
          refine ⟨?_, g1.2, g2.2, g3.2⟩
          conv => lhs; rw [g1.1, g2.1, g3.1]
          simp
  · rintro ⟨h, hs, hd, hp⟩
    have g1 : splitW t = some (src, dst ++ [32] ++ sport ++ [32] ++ dport) := (splitW_iff _ _ _).mpr ⟨by rw [h]; simp, hs⟩
    have g2 : splitW (dst ++ [32] ++ sport ++ [32] ++ dport) = some (dst, sport ++ [32] ++ dport) := (splitW_iff _ _ _).mpr ⟨by simp, hd⟩
    have g3 : splitW (sport ++ [32] ++ dport) = some (sport, dport) := (splitW_iff _ _ _).mpr ⟨by simp, hp⟩
    unfold fields
    rw [g1]; dsimp only
    rw [g2]; dsimp only
    rw [g3]

/-- The version 1 parser on a line that ends in CRLF. -/
theorem parseV1_line (gai : Bytes → Bytes → Option Addr) (proto t after : Bytes) (dlen : Nat)
    (hp : proto.length = 5) (hcr : ∀ x ∈ v1sig ++ proto ++ t, x ≠ 13)
    (hd : (v1sig ++ proto ++ t).length + 2 ≤ dlen) (hb : dlen ≤ (v1sig ++ proto ++ t ++ [13, 10] ++ after).length) :
    parseV1 gai (v1sig ++ proto ++ t ++ [13, 10] ++ after) dlen =
      (if t.length < 5 ∨ (proto ≠ tcp4 ∧ proto ≠ tcp6) then .ok none
       else match fields t with
        | none => .ok none
        | some (src, dst, sport, dport) =>
          match gai src sport with
          | none => .ok none
          | some a =>
            if t.length + 13 ≤ HDR then
              .ok (some ⟨t.length + 13, some a, v1sig ++ proto ++ src ++ 0 :: dst ++ 0 :: sport ++ 0 :: dport ++ 0 :: 10 :: after⟩)
            else .ub) := by
  have hsig : v1sig.length = 6 := rfl
  have hll : (v1sig ++ proto ++ t).length = t.length + 11 := by simp [hp, hsig]; omega
  unfold parseV1
  have e : v1sig ++ proto ++ t ++ [13, 10] ++ after = (v1sig ++ proto ++ t) ++ 13 :: 10 :: after := by simp
  have hs0 : sub (v1sig ++ proto ++ t ++ [13, 10] ++ after) 0 6 = .ok v1sig := by
    unfold sub
    rw [if_pos (by omega)]
    simp only [List.drop_zero, List.append_assoc]
    rw [List.take_left' hsig]
  have hm : memchr (v1sig ++ proto ++ t ++ [13, 10] ++ after) 13 (dlen - 1) = .ok (some (t.length + 11)) := by
    unfold memchr
    rw [if_pos (by omega), e, List.take_append, List.take_of_length_le (by omega)]
    obtain ⟨k, hk⟩ : ∃ k, dlen - 1 - (v1sig ++ proto ++ t).length = k + 1 := ⟨dlen - 1 - (v1sig ++ proto ++ t).length - 1, by omega⟩
    rw [hk, List.take_succ_cons, findIdx_at _ _ _ hcr, hll]
  rw [show decide (8 ≤ dlen) = true by simp; omega]
  simp only [assert_true, Outcome.bind_ok]
  rw [hs0]
  simp only [Outcome.bind_ok, decide_true, assert_true]
  rw [hm]
  simp only [Outcome.bind_ok]
  have hr : rd (v1sig ++ proto ++ t ++ [13, 10] ++ after) (t.length + 11 + 1) = .ok 10 := by
    unfold rd
    rw [e, List.getElem?_append_right (by omega), hll]
    rw [show t.length + 11 + 1 - (t.length + 11) = 1 by omega]
    rfl
  rw [hr]
  simp only [Outcome.bind_ok, ne_eq, not_true, false_or]
  by_cases h5 : t.length < 5
  · rw [if_pos (by omega), if_pos (.inl h5)]
  · rw [if_neg (by omega)]
    have hset : (v1sig ++ proto ++ t ++ [13, 10] ++ after).set (t.length + 11) 0 = (v1sig ++ proto) ++ t ++ 0 :: 10 :: after := by
      rw [e, set_at _ _ _ _ _ hll.symm]
    rw [hset]
    have hs6 : sub ((v1sig ++ proto) ++ t ++ 0 :: 10 :: after) 6 5 = .ok proto := by
      unfold sub
      rw [if_pos (by simp [hsig, hp]; omega)]
      simp only [List.append_assoc]
      rw [List.drop_left' hsig, List.take_left' hp]
    rw [hs6]
    simp only [Outcome.bind_ok]
    by_cases hpr : proto ≠ tcp4 ∧ proto ≠ tcp6
    · rw [if_pos hpr, if_pos (.inr hpr)]
    · rw [if_neg hpr, if_neg (fun hc => hc.elim h5 hpr)]
      have hpre : (v1sig ++ proto).length = 11 := by simp [hsig, hp]
      rw [cut_split (v1sig ++ proto) t (10 :: after) 11 (t.length + 11) hpre.symm (by omega)]
      unfold fields
      cases h1 : splitW t with
      | none => rfl
      | some p1 =>
        obtain ⟨src, t1⟩ := p1
        have g1 := (splitW_iff t src t1).mp h1
        have l1 : t.length = src.length + 1 + t1.length := by rw [g1.1]; simp; omega
        simp only [Option.map_some, Outcome.bind_ok]
        have e1 : v1sig ++ proto ++ src ++ 0 :: t1 ++ 0 :: 10 :: after = (v1sig ++ proto ++ src ++ [0]) ++ t1 ++ 0 :: 10 :: after := by simp
        rw [e1, cut_split (v1sig ++ proto ++ src ++ [0]) t1 (10 :: after) _ _ (by simp <;> omega) (by simp [hsig, hp]; omega)]
        cases h2 : splitW t1 with
        | none => rfl
        | some p2 =>
          obtain ⟨dst, t2⟩ := p2
          have g2 := (splitW_iff t1 dst t2).mp h2
          have l2 : t1.length = dst.length + 1 + t2.length := by rw [g2.1]; simp; omega
          simp only [Option.map_some, Outcome.bind_ok]
          have e2 : v1sig ++ proto ++ src ++ [0] ++ dst ++ 0 :: t2 ++ 0 :: 10 :: after = (v1sig ++ proto ++ src ++ [0] ++ dst ++ [0]) ++ t2 ++ 0 :: 10 :: after := by simp
          rw [e2, cut_split (v1sig ++ proto ++ src ++ [0] ++ dst ++ [0]) t2 (10 :: after) _ _ (by simp <;> omega) (by simp [hsig, hp]; omega)]
          cases h3 : splitW t2 with
          | none => rfl
          | some p3 =>
            obtain ⟨sport, dport⟩ := p3
            have g3 := (splitW_iff t2 sport dport).mp h3
            simp only [Option.map_some, Outcome.bind_ok]
            have c1 : cstr (v1sig ++ proto ++ src ++ [0] ++ dst ++ [0] ++ sport ++ 0 :: dport ++ 0 :: 10 :: after) 11 = src := by
              have : v1sig ++ proto ++ src ++ [0] ++ dst ++ [0] ++ sport ++ 0 :: dport ++ 0 :: 10 :: after =
                (v1sig ++ proto) ++ src ++ 0 :: (dst ++ [0] ++ sport ++ 0 :: dport ++ 0 :: 10 :: after) := by simp
              rw [this]
              exact cstr_at _ _ _ _ hpre.symm (fun x hx => (g1.2 x hx).2)
            have c2 : cstr (v1sig ++ proto ++ src ++ [0] ++ dst ++ [0] ++ sport ++ 0 :: dport ++ 0 :: 10 :: after) ((v1sig ++ proto ++ src ++ [0]).length + dst.length + 1) = sport := by
              have : v1sig ++ proto ++ src ++ [0] ++ dst ++ [0] ++ sport ++ 0 :: dport ++ 0 :: 10 :: after =
                (v1sig ++ proto ++ src ++ [0] ++ dst ++ [0]) ++ sport ++ 0 :: (dport ++ 0 :: 10 :: after) := by simp
              rw [this]
              exact cstr_at _ _ _ _ (by simp <;> omega) (fun x hx => (g3.2 x hx).2)
            rw [c1, c2]
            cases gai src sport with
            | none => rfl
            | some a =>
              dsimp only
              by_cases hh : t.length + 13 ≤ HDR
              · rw [if_pos hh, show decide (t.length + 11 + 2 ≤ HDR) = true by simp; omega]
                simp
              · rw [if_neg hh, show decide (t.length + 11 + 2 ≤ HDR) = false by simp; omega]
                simp

/-- The version 1 parser without CR and LF in the data. -/
theorem parseV1_no (gai : Bytes → Bytes → Option Addr) (b : Bytes) (dlen : Nat) (h8 : 8 ≤ dlen) (hb : dlen ≤ b.length) (hp : b.take 6 = v1sig)
    (h : (∀ x ∈ b.take (dlen - 1), x ≠ 13) ∨ ∃ u x v, b.take dlen = u ++ 13 :: x :: v ∧ (∀ y ∈ u, y ≠ 13) ∧ (x ≠ 10 ∨ u.length < 16)) :
    parseV1 gai b dlen = .ok none := by
  unfold parseV1
  rw [show decide (8 ≤ dlen) = true by simp; omega]
  have hs0 : sub b 0 6 = .ok v1sig := by
    unfold sub
    rw [if_pos (by omega)]
    simp [hp]
  simp only [assert_true, Outcome.bind_ok]
  rw [hs0]
  simp only [Outcome.bind_ok, decide_true, assert_true]
  have hm : memchr b 13 (dlen - 1) = .ok ((b.take (dlen - 1)).findIdx? (· == 13)) := by
    unfold memchr; rw [if_pos (by omega)]
  rw [hm]
  rcases h with h | ⟨u, x, v, h1, h2, h3⟩
  · rw [findIdx_none _ _ h]; rfl
  · have hlen : (b.take dlen).length = dlen := by simp; omega
    have hul : u.length + 2 + v.length = dlen := by rw [← hlen, h1]; simp; omega
    have ht : b.take (dlen - 1) = u ++ 13 :: (x :: v).take (v.length) := by
      have : b.take (dlen - 1) = (b.take dlen).take (dlen - 1) := by rw [List.take_take]; congr 1; omega
      rw [this, h1, List.take_append, List.take_of_length_le (by omega)]
      rw [show dlen - 1 - u.length = v.length + 1 by omega, List.take_succ_cons]
    rw [ht, findIdx_at _ _ _ h2]
    simp only [Outcome.bind_ok]
    have hr : rd b (u.length + 1) = .ok x := by
      have : b[u.length + 1]? = (b.take dlen)[u.length + 1]? := by rw [List.getElem?_take, if_pos (by omega)]
      unfold rd
      rw [this, h1, List.getElem?_append_right (by omega), show u.length + 1 - u.length = 1 by omega]
      rfl
    rw [hr]
    simp only [Outcome.bind_ok]
    rw [if_pos h3]

end Gdnsd.Proxy
