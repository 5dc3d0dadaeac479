/-
Names and parsing.
-/
import Verif.Chal.Spec
namespace Gdnsd.Chal
open Gdnsd.Dname

theorem rd_some {b : Bytes} {i : Nat} {x : UInt8} (h : b[i]? = some x) : rd b i = .ok x := by unfold rd; rw [h]

theorem walk_ok (d : Bytes) (oal : Nat) (h : oal + 1 ≤ d.length) : ∀ (fuel off : Nat), off < oal → oal < off + fuel →
    statusWalk d oal off fuel = .ok none ∨ ∃ ll off', statusWalk d oal off fuel = .ok (some (ll, off')) ∧ off < off' ∧ off' ≤ oal ∧
      (ll = 0 ∨ ll = 255) ∧ ∀ d' : Bytes, (∀ k, k < off' → d'[k]? = d[k]?) → ∀ x : UInt8, (x = 0 ∨ x = 255) → d'[off']? = some x →
        statusWalk d' oal off fuel = .ok (some (x.toNat, off')) := by
  intro fuel
  induction fuel with
  | zero => intro off h1 h2; omega
  | succ fuel ih =>
    intro off h1 h2
    have hlt : off + 1 < d.length := by omega
    unfold statusWalk
    rw [rd_lt hlt, Outcome.bind_ok]
    dsimp only
    by_cases hl : (d[off + 1]).toNat = 0 ∨ (d[off + 1]).toNat = 255
    · rw [if_pos hl]
      refine Or.inr ⟨_, off + 1, rfl, by omega, by omega, hl, ?_⟩
      intro d' hd x hx hx'
      rw [rd_some hx', Outcome.bind_ok]
      rw [if_pos (by rcases hx with rfl | rfl <;> simp)]
    · rw [if_neg hl]
      by_cases ho : oal ≤ off + 1 + (d[off + 1]).toNat
      · rw [if_pos ho]; exact Or.inl rfl
      · rw [if_neg ho]
        rcases ih (off + 1 + (d[off + 1]).toNat) (by omega) (by omega) with h3 | ⟨ll, off', h3, h4, h5, h6, h7⟩
        · exact Or.inl h3
        · refine Or.inr ⟨ll, off', h3, by omega, h5, h6, ?_⟩
          intro d' hd x hx hx'
          have he : d'[off + 1]? = some d[off + 1] := by
            rw [hd (off + 1) (by omega), List.getElem?_eq_getElem hlt]
          rw [rd_some he, Outcome.bind_ok]
          rw [if_neg hl, if_neg ho]
          exact h7 d' hd x hx hx'

/-- The status of a name that is inside its buffer is always determined, only depends on
the name, and is `valid` after termination. -/
theorem status_total {l : UInt8} {r : Bytes} (h : l.toNat ≤ r.length) : ∃ st, status (l :: r) = .ok st ∧
    (st ≠ .invalid → 0 < l.toNat ∧ Stored (l :: r.take l.toNat) st ∧ Stored (l :: (r.take (l.toNat - 1) ++ [0])) .valid) := by
  unfold status
  rw [rd_some (x := l) rfl, Outcome.bind_ok]
  dsimp only
  by_cases h0 : l.toNat = 0
  · rw [if_pos h0]; exact ⟨_, rfl, fun hne => absurd rfl hne⟩
  rw [if_neg h0]
  rcases walk_ok (l :: r) l.toNat (by simpa using h) (l.toNat + 1) 0 (by omega) (by omega) with h1 | ⟨ll, off, h1, h2, h3, h4, h5⟩
  · rw [h1, Outcome.bind_ok]; exact ⟨_, rfl, fun hne => absurd rfl hne⟩
  rw [h1, Outcome.bind_ok]
  dsimp only
  by_cases ho : off < l.toNat
  · rw [if_pos ho]; exact ⟨_, rfl, fun hne => absurd rfl hne⟩
  have he : off = l.toNat := by omega
  subst he
  rw [if_neg ho]
  simp only [BEq.rfl, assert_true, Outcome.bind_ok]
  refine ⟨_, rfl, fun _ => ⟨by omega, ⟨?_, l, _, rfl, by rw [List.length_take]; omega⟩, ⟨?_, l, _, rfl, by simp; omega⟩⟩⟩
  · have hbnd : l.toNat < (l :: r).length := by simp; omega
    -- the terminator is what the walk found
    have hx : ∃ x : UInt8, (l :: r)[l.toNat]? = some x := ⟨_, List.getElem?_eq_getElem hbnd⟩
    obtain ⟨x, hx⟩ := hx
    have hxl : (x = 0 ∨ x = 255) ∧ x.toNat = ll := by
      by_cases hc : x = 0 ∨ x = 255
      · have := h5 (l :: r) (fun _ _ => rfl) x hc hx
        rw [h1] at this
        injection this with this
        injection this with this
        injection this with this
        exact ⟨hc, this.symm⟩
      · -- walking the list with another terminator
        exfalso
        have hw := h1
        clear h1
        have key : ∀ (fuel off : Nat), off < l.toNat → l.toNat < off + fuel → statusWalk (l :: r) l.toNat off fuel = .ok (some (ll, l.toNat)) →
            x.toNat = ll := by
          intro fuel
          induction fuel with
          | zero => intro off a b; omega
          | succ fuel ih =>
            intro off a b hh
            unfold statusWalk at hh
            have hlt : off + 1 < (l :: r).length := by simp; omega
            rw [rd_lt hlt, Outcome.bind_ok] at hh
            dsimp only at hh
            split at hh
            · injection hh with hh
              injection hh with hh
              injection hh with e1 e2
              have : (l :: r)[l.toNat]? = some (l :: r)[off + 1] := by rw [← e2]; exact List.getElem?_eq_getElem hlt
              rw [hx] at this
              rw [Option.some.inj this]; exact e1
            · split at hh
              · cases hh
              · exact ih _ (by omega) (by omega) hh
        have := key _ 0 (by omega) (by omega) hw
        rcases h4 with h4 | h4
        · exact hc (Or.inl (UInt8.toNat_inj.mp (by rw [this, h4]; rfl)))
        · exact hc (Or.inr (UInt8.toNat_inj.mp (by rw [this, h4]; rfl)))
    have := h5 (l :: r.take l.toNat) (by
      intro k hk
      cases k with
      | zero => rfl
      | succ k => simp only [List.getElem?_cons_succ]; rw [List.getElem?_take_of_lt (by omega)]) x hxl.1 (by
      rw [← hx]
      obtain ⟨m, hm⟩ : ∃ m, l.toNat = m + 1 := ⟨l.toNat - 1, by omega⟩
      rw [hm]
      simp only [List.getElem?_cons_succ]; rw [List.getElem?_take_of_lt (by omega)])
    unfold status
    rw [rd_some (x := l) rfl, Outcome.bind_ok]
    dsimp only
    rw [if_neg h0, this, Outcome.bind_ok]
    simp only [Nat.lt_irrefl, gt_iff_lt, if_false, BEq.rfl, assert_true, Outcome.bind_ok, hxl.2]
  · have := h5 (l :: (r.take (l.toNat - 1) ++ [0])) (by
      intro k hk
      cases k with
      | zero => rfl
      | succ k =>
        simp only [List.getElem?_cons_succ]
        rw [List.getElem?_append_left (by rw [List.length_take]; omega), List.getElem?_take_of_lt (by omega)]) 0 (Or.inl rfl) (by
      obtain ⟨m, hm⟩ : ∃ m, l.toNat = m + 1 := ⟨l.toNat - 1, by omega⟩
      rw [hm]
      simp only [List.getElem?_cons_succ, Nat.add_sub_cancel]
      rw [List.getElem?_append_right (by rw [List.length_take]; omega), List.length_take, show m - min m r.length = 0 from by omega]
      rfl)
    unfold status
    rw [rd_some (x := l) rfl, Outcome.bind_ok]
    dsimp only
    rw [if_neg h0, this, Outcome.bind_ok]
    simp [Nat.lt_irrefl]

/-- Comparison of stored names. -/
theorem memcmp_eq : ∀ {a b : Bytes}, a.length = b.length → ∃ r, memcmp a b a.length = .ok r ∧ (r = 0 ↔ a = b) := by
  intro a
  induction a with
  | nil => intro b h; cases b with | nil => exact ⟨0, rfl, by simp⟩ | cons _ _ => simp at h
  | cons x xs ih =>
    intro b h
    cases b with
    | nil => simp at h
    | cons y ys =>
      simp only [List.length_cons, memcmp]
      by_cases he : x = y
      · subst he
        obtain ⟨r, h1, h2⟩ := ih (b := ys) (by simpa using h)
        exact ⟨r, by rw [if_pos rfl]; exact h1, by rw [h2]; simp⟩
      · rw [if_neg he]
        refine ⟨_, rfl, ?_⟩
        have : x.toNat ≠ y.toNat := fun hc => he (UInt8.toNat_inj.mp hc)
        simp only [List.cons.injEq, he, false_and, iff_false]
        omega

theorem cmp_stored {a b : Bytes} {s t : Status} (ha : Stored a s) (hb : Stored b t) (hs : s ≠ .invalid) (ht : t ≠ .invalid) :
    ∃ r, cmp a b = .ok r ∧ (r = 0 ↔ a = b) := by
  obtain ⟨ha, l1, r1, rfl, h1⟩ := ha
  obtain ⟨hb, l2, r2, rfl, h2⟩ := hb
  unfold cmp
  rw [ha, Outcome.bind_ok, show (s != Status.invalid) = true from by simpa using hs, assert_true, Outcome.bind_ok, hb, Outcome.bind_ok,
    show (t != Status.invalid) = true from by simpa using ht, assert_true, Outcome.bind_ok, rd_some (x := l1) rfl, Outcome.bind_ok,
    rd_some (x := l2) rfl, Outcome.bind_ok]
  dsimp only
  by_cases he : l1 = l2
  · subst he
    obtain ⟨r, h3, h4⟩ := memcmp_eq (a := r1) (b := r2) (by omega)
    rw [if_pos (by omega)]
    simp only [List.drop_succ_cons, List.drop_zero]
    rw [← h1, h3]
    exact ⟨r, rfl, by rw [h4]; simp⟩
  · have : l1.toNat ≠ l2.toNat := fun hc => he (UInt8.toNat_inj.mp hc)
    rw [if_neg (by omega)]
    refine ⟨_, rfl, ?_⟩
    simp only [List.cons.injEq, he, false_and, iff_false]
    omega

/-- What `cset_create` stores. -/
def Item.chal (cfg : Cfg) (i : Item) : Chal := ⟨dnameHash cfg i.full, i.full, mkRR cfg i.payload⟩

theorem full_eq {l : UInt8} {r : Bytes} (h : 0 < l.toNat) (hr : r.length = l.toNat) : (l :: r).dropLast ++ [0] = l :: (r.take (l.toNat - 1) ++ [0]) := by
  rw [List.dropLast_eq_take]
  obtain ⟨m, hm⟩ : ∃ m, l.toNat = m + 1 := ⟨l.toNat - 1, by omega⟩
  simp [hr, hm]

theorem full_stored {i : Item} (h : i.Ok) : Stored i.full .valid := by
  obtain ⟨⟨st, ⟨h1, l, r, h2, h3⟩, hne⟩, _⟩ := h
  unfold Item.full
  rw [h2] at h1 ⊢
  obtain ⟨st', h4, h5⟩ := status_total (l := l) (r := r) (by omega)
  rw [h1] at h4
  obtain rfl := Outcome.ok.inj h4
  obtain ⟨h6, _, h7⟩ := h5 hne
  rw [full_eq h6 h3]
  exact h7

theorem copyName_eq {l : UInt8} {r : Bytes} (h0 : 0 < l.toNat) (h : l.toNat ≤ r.length) : copyName (l :: r) = .ok (l :: r.take l.toNat) := by
  unfold copyName
  rw [rd_some (x := l) rfl, Outcome.bind_ok]
  simp [h0, h]

theorem terminate_eq {l : UInt8} {r : Bytes} (h0 : 0 < l.toNat) (h : r.length = l.toNat) : terminate (l :: r) = .ok ((l :: r).dropLast ++ [0]) := by
  unfold terminate
  rw [rd_some (x := l) rfl, Outcome.bind_ok, full_eq h0 h]
  obtain ⟨m, hm⟩ : ∃ m, l.toNat = m + 1 := ⟨l.toNat - 1, by omega⟩
  simp only [h0, decide_true, assert_true, Outcome.bind_ok]
  rw [if_pos (by simp; omega)]
  congr 1
  rw [hm]
  simp only [List.set_cons_succ, Nat.add_sub_cancel, List.cons.injEq, true_and]
  rw [List.set_eq_take_append_cons_drop, if_pos (by omega), List.drop_eq_nil_of_le (by omega)]

/-- Parsing never fails badly; what is accepted is a list of legal challenges. -/
theorem parse_total (cfg : Cfg) (data : Bytes) : ∀ (n didx : Nat), didx ≤ data.length →
    parse cfg data data.length n didx = .ok none ∨ ∃ (is : List Item) (rest : Bytes), is.length = n ∧ (∀ i ∈ is, i.Ok) ∧
      data.drop didx = is.flatMap Item.wire ++ rest ∧
      parse cfg data data.length n didx = .ok (some (is.map (Item.chal cfg), didx + (is.flatMap Item.wire).length)) := by
  intro n
  induction n with
  | zero => intro didx h; exact Or.inr ⟨[], data.drop didx, rfl, by simp, by simp, by simp [parse]⟩
  | succ n ih =>
    intro didx h
    unfold parse
    rw [show assert (decide (didx ≤ data.length)) = .ok () from by simp [assert, h], Outcome.bind_ok]
    cases hd : data.drop didx with
    | nil =>
      have : data.length - didx = 0 := by
        have := congrArg List.length hd
        simpa using this
      left
      unfold statusBuflen
      rw [if_pos this]
      rfl
    | cons l r =>
      have hlen : r.length + 1 = data.length - didx := by
        have := congrArg List.length hd
        simpa using this.symm
      unfold statusBuflen
      rw [if_neg (by omega), rd_some (x := l) rfl, Outcome.bind_ok]
      by_cases hb : l.toNat + 1 > data.length - didx
      · left; rw [if_pos hb]; rfl
      rw [if_neg hb]
      obtain ⟨st, h1, h2⟩ := status_total (l := l) (r := r) (by omega)
      rw [h1, Outcome.bind_ok]
      by_cases hst : st = .invalid
      · left; rw [if_pos hst]
      obtain ⟨h3, h4, h5⟩ := h2 hst
      have hdl : data[didx]? = some l := by
        have : (data.drop didx)[0]? = some l := by rw [hd]; rfl
        simpa using this
      have htl : (r.take l.toNat).length = l.toNat := by rw [List.length_take]; omega
      rw [if_neg hst, copyName_eq h3 (by omega), Outcome.bind_ok, terminate_eq h3 htl, Outcome.bind_ok, rd_some hdl, Outcome.bind_ok]
      dsimp only
      rw [show assert (decide (didx + (l.toNat + 1) ≤ data.length)) = .ok () from by
        rw [show decide (didx + (l.toNat + 1) ≤ data.length) = true from decide_eq_true (by omega)]; rfl, Outcome.bind_ok]
      by_cases h44 : data.length - (didx + (l.toNat + 1)) < 44
      · left; rw [if_pos h44]
      rw [if_neg h44, if_neg (by omega)]
      rcases ih (didx + (l.toNat + 1) + 44) (by omega) with hp | ⟨is, rest, g1, g2, g3, g4⟩
      · left; rw [hp]; rfl
      right
      have hdrop : data.drop (didx + (l.toNat + 1)) = r.drop l.toNat := by
        rw [← List.drop_drop, hd]; rfl
      have hdrop2 : data.drop (didx + (l.toNat + 1) + 44) = r.drop (l.toNat + 44) := by
        rw [← List.drop_drop, hdrop, List.drop_drop]
      have hz : ∃ z, (r.drop l.toNat)[43]? = some z := by
        rw [List.getElem?_drop]
        exact ⟨_, List.getElem?_eq_getElem (by omega)⟩
      obtain ⟨z, hz⟩ := hz
      have hok : Item.Ok ⟨l :: r.take l.toNat, (r.drop l.toNat).take 43, z⟩ := by
        refine ⟨⟨st, h4, hst⟩, ?_⟩
        show ((r.drop l.toNat).take 43).length = 43
        rw [List.length_take, List.length_drop]; omega
      refine ⟨⟨l :: r.take l.toNat, (r.drop l.toNat).take 43, z⟩ :: is, rest, by simp [g1], ?_, ?_, ?_⟩
      · intro i hi
        rcases List.mem_cons.mp hi with rfl | hi
        · exact hok
        · exact g2 i hi
      · simp only [List.flatMap_cons, Item.wire, List.append_assoc, List.cons_append]
        congr 1
        rw [← g3, hdrop2]
        have e1 : r.drop (l.toNat + 44) = (r.drop l.toNat).drop 44 := by rw [List.drop_drop]
        have e2 : (r.drop l.toNat).drop 43 = z :: (r.drop l.toNat).drop 44 := by
          have hlt : 43 < (r.drop l.toNat).length := by rw [List.length_drop]; omega
          rw [List.drop_eq_getElem_cons hlt]
          congr 1
          rw [List.getElem?_eq_getElem hlt] at hz
          exact Option.some.inj hz
        rw [e1, List.nil_append, ← e2, List.take_append_drop, List.take_append_drop]
      · rw [g4, hdrop]
        simp only [Outcome.map_ok, Option.map_some, List.map_cons, List.flatMap_cons, List.length_append]
        have hw : (Item.wire ⟨l :: r.take l.toNat, (r.drop l.toNat).take 43, z⟩).length = l.toNat + 1 + 44 := by
          simp only [Item.wire, List.length_append, List.length_cons, List.length_nil, hok.2, htl]
        rw [hw]
        simp only [Item.chal, Item.full]
        congr 3
        omega

theorem walk_congr {d d' : Bytes} {oal : Nat} (h : ∀ k, k ≤ oal → d'[k]? = d[k]?) : ∀ (fuel off : Nat), off < oal →
    statusWalk d' oal off fuel = statusWalk d oal off fuel := by
  intro fuel
  induction fuel with
  | zero => intro off _; rfl
  | succ fuel ih =>
    intro off ho
    unfold statusWalk
    have : rd d' (off + 1) = rd d (off + 1) := by unfold rd; rw [h (off + 1) (by omega)]
    rw [this]
    cases rd d (off + 1) with
    | ub => rfl
    | ok x =>
      rw [Outcome.bind_ok, Outcome.bind_ok]
      dsimp only
      split
      · rfl
      · split
        · rfl
        · exact ih _ (by omega)

theorem status_append (l : UInt8) (r t : Bytes) (h : r.length = l.toNat) : status (l :: (r ++ t)) = status (l :: r) := by
  unfold status
  rw [rd_some (x := l) rfl, Outcome.bind_ok, rd_some (x := l) rfl, Outcome.bind_ok]
  dsimp only
  split
  · rfl
  · rw [walk_congr (d := l :: r) (d' := l :: (r ++ t)) (by
      intro k hk
      cases k with
      | zero => rfl
      | succ k => simp only [List.getElem?_cons_succ]; rw [List.getElem?_append_left (by omega)]) _ 0 (by omega)]

/-- Legal challenges are accepted. -/
theorem parse_wire (cfg : Cfg) {data : Bytes} : ∀ (is : List Item) (didx : Nat), (∀ i ∈ is, i.Ok) → didx ≤ data.length → ∀ rest, data.drop didx = is.flatMap Item.wire ++ rest →
    parse cfg data data.length is.length didx = .ok (some (is.map (Item.chal cfg), didx + (is.flatMap Item.wire).length)) := by
  intro is
  induction is with
  | nil => intro didx _ _ rest _; simp [parse]
  | cons i is ih =>
    intro didx hok hle rest hd
    have hi := hok i List.mem_cons_self
    obtain ⟨⟨st, ⟨h1, l, r, h2, h3⟩, hne⟩, h4⟩ := hi
    have hd' : data.drop didx = l :: (r ++ (i.payload ++ (i.z :: (is.flatMap Item.wire ++ rest)))) := by
      rw [hd]; simp [Item.wire, h2]
    have hlen := congrArg List.length hd'
    simp only [List.length_drop, List.length_cons, List.length_append] at hlen
    rw [h2] at h1
    obtain ⟨st', k1, k2⟩ := status_total (l := l) (r := r) (by omega)
    rw [k1] at h1
    obtain rfl := Outcome.ok.inj h1
    obtain ⟨k3, _, _⟩ := k2 hne
    have hdl : data[didx]? = some l := by
      have : (data.drop didx)[0]? = some l := by rw [hd']; rfl
      simpa using this
    simp only [List.length_cons]
    unfold parse
    rw [show assert (decide (didx ≤ data.length)) = .ok () from by simp [assert, hle], Outcome.bind_ok, hd']
    unfold statusBuflen
    rw [if_neg (by omega), rd_some (x := l) rfl, Outcome.bind_ok, if_neg (by omega), status_append l r _ h3, k1, Outcome.bind_ok, if_neg hne,
      copyName_eq k3 (by simp; omega), Outcome.bind_ok, List.take_append_of_le_length (by omega), List.take_of_length_le (by omega),
      terminate_eq k3 h3, Outcome.bind_ok, rd_some hdl, Outcome.bind_ok]
    dsimp only
    rw [show assert (decide (didx + (l.toNat + 1) ≤ data.length)) = .ok () from by
      rw [show decide (didx + (l.toNat + 1) ≤ data.length) = true from decide_eq_true (by omega)]; rfl, Outcome.bind_ok, if_neg (by omega), if_neg (by omega)]
    have hdrop : data.drop (didx + (l.toNat + 1)) = i.payload ++ (i.z :: (is.flatMap Item.wire ++ rest)) := by
      rw [← List.drop_drop, hd', List.drop_succ_cons, ← h3, List.drop_left]
    have hdrop2 : data.drop (didx + (l.toNat + 1) + 44) = is.flatMap Item.wire ++ rest := by
      rw [← List.drop_drop, hdrop, show (44 : Nat) = i.payload.length + 1 from by omega, ← List.drop_drop, List.drop_left]; rfl
    rw [ih _ (fun x hx => hok x (List.mem_cons_of_mem _ hx)) (by omega) rest hdrop2, hdrop, ← h4, List.take_left]
    simp only [Outcome.map_ok, Option.map_some, List.map_cons, List.flatMap_cons, List.length_append]
    have hw : i.wire.length = l.toNat + 1 + 44 := by
      simp only [Item.wire, List.length_append, List.length_cons, List.length_nil, h4, h2, h3]
    rw [hw]
    simp only [Item.chal, Item.full, h2]
    congr 3
    omega

end Gdnsd.Chal
