import Verif.Extmon.Spec
namespace Gdnsd.Extmon

/-! ### Reading and writing in parts -/

theorem writeAll_done (l : List Io) : ∀ (d : Bytes), (∃ k, (writeAll l d).1 = d.take k) ∧ (∀ l', (writeAll l d).2 = .done l' → (writeAll l d).1 = d) := by
  induction l with
  | nil =>
    intro d
    cases d with
    | nil => exact ⟨⟨0, rfl⟩, fun _ _ => rfl⟩
    | cons x r => exact ⟨⟨0, rfl⟩, fun l' h => by cases h⟩
  | cons e l ih =>
    intro d
    cases d with
    | nil => cases e <;> exact ⟨⟨0, rfl⟩, fun _ _ => rfl⟩
    | cons x r =>
      cases e with
      | again => exact ih (x :: r)
      | error => exact ⟨⟨0, rfl⟩, fun l' h => by cases h⟩
      | part n =>
        obtain ⟨⟨k, h1⟩, h2⟩ := ih ((x :: r).drop (n + 1))
        unfold writeAll
        refine ⟨⟨n + 1 + k, ?_⟩, fun l' h => ?_⟩
        · dsimp only; rw [h1]; exact (List.take_add).symm
        · dsimp only at h ⊢; rw [h2 l' h, List.take_append_drop]

theorem readAll_done (l : List Io) : ∀ (k : Nat) (s b s' : Bytes) (l' : List Io), readAll l k s = .done (b, s', l') → b = s.take k ∧ s' = s.drop k ∧ k ≤ s.length := by
  induction l with
  | nil =>
    intro k s b s' l' h
    cases k with
    | zero => unfold readAll at h; cases h; exact ⟨rfl, rfl, Nat.zero_le _⟩
    | succ k => unfold readAll at h; cases h
  | cons e l ih =>
    intro k s b s' l' h
    cases k with
    | zero =>
      have h' : readAll (e :: l) 0 s = .done ([], s, e :: l) := by cases e <;> simp [readAll]
      rw [h'] at h; cases h; exact ⟨rfl, rfl, Nat.zero_le _⟩
    | succ k =>
      cases e with
      | again => unfold readAll at h; exact ih _ _ _ _ _ h
      | error => unfold readAll at h; cases h
      | part n =>
        cases s with
        | nil => unfold readAll at h; cases h
        | cons x r =>
          generalize hq : min (min (n + 1) (k + 1)) (x :: r).length = q at *
          unfold readAll at h
          rw [hq] at h
          cases hr : readAll l (k + 1 - q) ((x :: r).drop q) with
          | fail => rw [hr] at h; cases h
          | wait => rw [hr] at h; cases h
          | done p =>
            obtain ⟨b1, s1, l1⟩ := p
            rw [hr] at h
            dsimp only at h
            obtain ⟨e1, e2, e3⟩ := ih _ _ _ _ _ hr
            cases h
            have hqk : q ≤ k + 1 := by omega
            have hqs : q ≤ (x :: r).length := by omega
            rw [List.length_drop] at e3
            refine ⟨?_, ?_, by omega⟩
            · rw [e1]
              have : k + 1 = q + (k + 1 - q) := by omega
              conv => rhs; rw [this, List.take_add]
            · rw [e2, List.drop_drop]
              congr 1
              omega

/-- The calls that move bytes. -/
def isPart : Io → Bool
  | .part _ => true
  | _ => false

theorem readAll_total (l : List Io) (he : Io.error ∉ l) : ∀ (k : Nat) (s : Bytes), k ≤ s.length → k ≤ l.countP isPart →
    ∃ l', readAll l k s = .done (s.take k, s.drop k, l') ∧ Io.error ∉ l' ∧ l.countP isPart ≤ l'.countP isPart + k := by
  induction l with
  | nil =>
    intro k s hk hc
    have : k = 0 := by simpa using hc
    subst this
    exact ⟨[], rfl, by simp, by simp⟩
  | cons e l ih =>
    have he' : Io.error ∉ l := fun hc => he (List.mem_cons_of_mem _ hc)
    intro k s hk hc
    cases k with
    | zero => exact ⟨e :: l, by cases e <;> simp [readAll], he, by omega⟩
    | succ k =>
      cases e with
      | again =>
        rw [List.countP_cons_of_neg (by simp [isPart])] at hc ⊢
        unfold readAll
        exact ih he' (k + 1) s hk hc
      | error => exact absurd (List.mem_cons_self) he
      | part n =>
        rw [List.countP_cons_of_pos (by simp [isPart])] at hc ⊢
        cases s with
        | nil => simp at hk
        | cons x r =>
          generalize hq : min (min (n + 1) (k + 1)) (x :: r).length = q
          have hq1 : 1 ≤ q := by rw [← hq, List.length_cons]; omega
          have hqk : q ≤ k + 1 := by omega
          obtain ⟨l', e1, e2, e3⟩ := ih he' (k + 1 - q) ((x :: r).drop q) (by rw [List.length_drop]; omega) (by omega)
          refine ⟨l', ?_, e2, by omega⟩
          unfold readAll
          rw [hq, e1]
          dsimp only
          congr 2
          · have : k + 1 = q + (k + 1 - q) := by omega
            conv => rhs; rw [this, List.take_add]
          · rw [List.drop_drop]
            congr 2
            omega

/-! ### Writing a command -/

theorem le_double (n : Nat) : ∀ a, 0 < a → n ≤ a * 2 ^ n := by
  intro a ha
  have : n < 2 ^ n := Nat.lt_two_pow_self
  exact Nat.le_trans (Nat.le_of_lt this) (Nat.le_mul_of_pos_left _ ha)

theorem grow_ge (fuel : Nat) : ∀ (alloc need : Nat), need ≤ alloc * 2 ^ fuel → need ≤ grow fuel alloc need := by
  induction fuel with
  | zero => intro alloc need h; simpa [grow] using h
  | succ f ih =>
    intro alloc need h
    unfold grow
    split
    · apply ih
      rw [Nat.pow_succ] at h
      rw [Nat.mul_assoc, Nat.mul_comm 2]
      exact h
    · omega

theorem putStr_ok (st : Nat × Bytes) (s : Bytes) (h : 0 < st.1) : ∃ a, putStr st s = .ok (a, st.2 ++ s ++ [0]) ∧ 0 < a := by
  unfold putStr
  have := grow_ge (st.2.length + (s.length + 1) + 16) st.1 (st.2.length + (s.length + 1) + 16) (le_double _ _ h)
  dsimp only
  rw [if_pos (by omega)]
  exact ⟨_, rfl, by omega⟩

theorem putArgs_ok (l : List Bytes) : ∀ (st : Nat × Bytes), 0 < st.1 → ∃ a, putArgs st l = .ok (a, st.2 ++ strings l) ∧ 0 < a := by
  induction l with
  | nil => intro st h; exact ⟨st.1, by simp [putArgs, strings], h⟩
  | cons s r ih =>
    intro st h
    obtain ⟨a, e1, e2⟩ := putStr_ok st s h
    obtain ⟨b, f1, f2⟩ := ih (a, st.2 ++ s ++ [0]) e2
    unfold putArgs
    rw [e1]
    simp only [Outcome.bind_ok]
    rw [f1]
    exact ⟨b, by simp [strings], f2⟩

theorem cmdBuf_ok (junk : Bytes) (c : Cmd) (hj : junk.length = 2) : cmdBuf junk c = .ok c.wire := by
  unfold cmdBuf
  obtain ⟨a, e1, e2⟩ := putArgs_ok c.args (256, [67, 77, 68, 58] ++ be16 c.idx ++ be16 c.timeout ++ be16 c.interval ++ be16 c.maxProc ++ junk ++ [UInt8.ofNat c.args.length]) (by omega)
  dsimp only
  rw [e1]
  simp only [Outcome.bind_ok]
  obtain ⟨b, f1, _⟩ := putStr_ok (a, [67, 77, 68, 58] ++ be16 c.idx ++ be16 c.timeout ++ be16 c.interval ++ be16 c.maxProc ++ junk ++ [UInt8.ofNat c.args.length] ++ strings c.args) c.desc e2
  rw [f1]
  simp only [Outcome.bind_ok]
  match junk, hj with
  | [x, y], _ =>
    unfold Cmd.wire Cmd.var be16
    simp

/-! ### Reading a command -/

theorem rd_drop (b : Bytes) (i : Nat) (x : UInt8) (r : Bytes) (h : b.drop i = x :: r) : rd b i = .ok x := by
  have hlt : i < b.length := by
    apply Classical.byContradiction
    intro hc
    rw [List.drop_of_length_le (by omega)] at h; cases h
  rw [rd_lt hlt]
  rw [List.drop_eq_getElem_cons hlt] at h
  rw [(List.cons.inj h).1]

theorem drop_next (b : Bytes) (i : Nat) (x : UInt8) (r : Bytes) (h : b.drop i = x :: r) : b.drop (i + 1) = r := by
  rw [← List.drop_drop, h]; rfl

theorem strnlen_eq (b : Bytes) (n : Nat) : ∀ i, i + n = b.length → strnlen b i n = .ok ((b.drop i).takeWhile (· ≠ 0)).length := by
  induction n with
  | zero => intro i h; rw [List.drop_of_length_le (by omega)]; rfl
  | succ n ih =>
    intro i h
    obtain ⟨x, r, hx⟩ : ∃ x r, b.drop i = x :: r := by
      cases hd : b.drop i with
      | nil => have := congrArg List.length hd; simp at this; omega
      | cons x r => exact ⟨x, r, rfl⟩
    unfold strnlen
    rw [rd_drop b i x r hx, hx]
    simp only [Outcome.bind_ok]
    by_cases h0 : x = 0
    · rw [if_pos h0, List.takeWhile_cons_of_neg (by simp [h0])]; rfl
    · rw [if_neg h0, ih (i + 1) (by omega), drop_next b i x r hx, List.takeWhile_cons_of_pos (by simp [h0])]; rfl

theorem nulWithin_eq (b : Bytes) (n : Nat) : ∀ i, i + n = b.length → nulWithin b i n = .ok (decide ((0 : UInt8) ∈ b.drop i)) := by
  induction n with
  | zero => intro i h; rw [List.drop_of_length_le (by omega)]; rfl
  | succ n ih =>
    intro i h
    obtain ⟨x, r, hx⟩ : ∃ x r, b.drop i = x :: r := by
      cases hd : b.drop i with
      | nil => have := congrArg List.length hd; simp at this; omega
      | cons x r => exact ⟨x, r, rfl⟩
    unfold nulWithin
    rw [rd_drop b i x r hx, hx]
    simp only [Outcome.bind_ok]
    by_cases h0 : x = 0
    · rw [if_pos h0]; simp [h0]
    · rw [if_neg h0, ih (i + 1) (by omega), drop_next b i x r hx]
      have h0' : ¬ 0 = x := fun hc => h0 hc.symm
      simp [h0']

theorem strlen_eq (b : Bytes) (fuel : Nat) : ∀ i, (0 : UInt8) ∈ b.drop i → b.length < i + fuel → strlen b i fuel = .ok ((b.drop i).takeWhile (· ≠ 0)).length := by
  induction fuel with
  | zero => intro i h hl; rw [List.drop_of_length_le (by omega)] at h; cases h
  | succ n ih =>
    intro i h hl
    obtain ⟨x, r, hx⟩ : ∃ x r, b.drop i = x :: r := by
      cases hd : b.drop i with
      | nil => rw [hd] at h; cases h
      | cons x r => exact ⟨x, r, rfl⟩
    unfold strlen
    rw [rd_drop b i x r hx, hx]
    simp only [Outcome.bind_ok]
    by_cases h0 : x = 0
    · rw [if_pos h0, List.takeWhile_cons_of_neg (by simp [h0])]; rfl
    · rw [hx] at h
      have h' : (0 : UInt8) ∈ b.drop (i + 1) := by
        rw [drop_next b i x r hx]
        rcases List.mem_cons.mp h with h | h
        · exact absurd h.symm h0
        · exact h
      rw [if_neg h0, ih (i + 1) h' (by omega), drop_next b i x r hx, List.takeWhile_cons_of_pos (by simp [h0])]; rfl

/-- The first string of data. -/
theorem split_nul (s : Bytes) (h : (0 : UInt8) ∈ s) : ∃ r, s = s.takeWhile (· ≠ 0) ++ 0 :: r ∧ (0 : UInt8) ∉ s.takeWhile (· ≠ 0) := by
  induction s with
  | nil => cases h
  | cons x s ih =>
    by_cases h0 : x = 0
    · subst h0
      exact ⟨s, by simp, by simp⟩
    · rw [List.takeWhile_cons_of_pos (by simp [h0])]
      have hs : (0 : UInt8) ∈ s := by
        rcases List.mem_cons.mp h with h | h
        · exact absurd h.symm h0
        · exact h
      obtain ⟨r, e1, e2⟩ := ih hs
      refine ⟨r, by rw [List.cons_append, ← e1], ?_⟩
      intro hc
      rcases List.mem_cons.mp hc with hc | hc
      · exact h0 hc.symm
      · exact e2 hc

theorem takeWhile_nul (a r : Bytes) (h : (0 : UInt8) ∉ a) : (a ++ 0 :: r).takeWhile (· ≠ 0) = a := by
  induction a with
  | nil => simp
  | cons x a ih =>
    have hx : x ≠ 0 := fun hc => h (by rw [hc]; simp)
    rw [List.cons_append, List.takeWhile_cons_of_pos (by simp [hx]), ih (fun hc => h (List.mem_cons_of_mem _ hc))]

/-- The strings of the data, in the manner of the code. -/
def pargs : Nat → Bytes → Option (List Bytes × Bytes)
  | 0, s => some ([], s)
  | k + 1, s =>
    if (0 : UInt8) ∈ s then (pargs k (s.drop ((s.takeWhile (· ≠ 0)).length + 1))).map fun r => (s.takeWhile (· ≠ 0) :: r.1, r.2)
    else none

theorem pargs_iff (k : Nat) : ∀ (s : Bytes) (args : List Bytes) (t : Bytes), pargs k s = some (args, t) ↔ s = strings args ++ t ∧ args.length = k ∧ ∀ a ∈ args, (0 : UInt8) ∉ a := by
  induction k with
  | zero =>
    intro s args t
    constructor
    · intro h; cases h; exact ⟨by simp [strings], rfl, by simp⟩
    · rintro ⟨h1, h2, _⟩
      have : args = [] := List.eq_nil_of_length_eq_zero h2
      subst this
      simp [pargs, h1, strings]
  | succ k ih =>
    intro s args t
    constructor
    · intro h
      unfold pargs at h
      split at h
      · rename_i h0
        obtain ⟨r, e1, e2⟩ := split_nul s h0
        cases hp : pargs k (s.drop ((s.takeWhile (· ≠ 0)).length + 1)) with
        | none => rw [hp] at h; cases h
        | some p =>
          obtain ⟨as, t'⟩ := p
          rw [hp] at h
          simp only [Option.map_some, Option.some.injEq, Prod.mk.injEq] at h
          obtain ⟨rfl, rfl⟩ := h
          obtain ⟨f1, f2, f3⟩ := (ih _ _ _).mp hp
          generalize hw : s.takeWhile (· ≠ 0) = w at *
          refine ⟨?_, by simp [f2], ?_⟩
          · have hr : s.drop (w.length + 1) = r := by rw [e1, ← List.drop_drop]; simp
            rw [hr] at f1
            rw [e1, f1]; simp [strings]
          · intro a ha
            rcases List.mem_cons.mp ha with rfl | ha
            · exact e2
            · exact f3 a ha
      · cases h
    · rintro ⟨h1, h2, h3⟩
      cases args with
      | nil => cases h2
      | cons a as =>
        have ha : (0 : UInt8) ∉ a := h3 a (by simp)
        have hs : s = a ++ 0 :: (strings as ++ t) := by rw [h1]; simp [strings]
        have htw : s.takeWhile (· ≠ 0) = a := by rw [hs]; exact takeWhile_nul a _ ha
        have hd : s.drop (a.length + 1) = strings as ++ t := by rw [hs, ← List.drop_drop]; simp
        unfold pargs
        rw [if_pos (by rw [hs]; simp), htw, hd, (ih _ _ _).mpr ⟨rfl, by simpa using h2, fun b hb => h3 b (List.mem_cons_of_mem _ hb)⟩]
        rfl

theorem pargs_suffix (k : Nat) : ∀ (s : Bytes) (args : List Bytes) (t : Bytes), pargs k s = some (args, t) → t.length ≤ s.length := by
  intro s args t h
  rw [((pargs_iff k s args t).mp h).1]; simp

theorem getArgs_eq (b : Bytes) (k : Nat) : ∀ cur remain, cur + remain = b.length →
    getArgs b k cur remain = .ok ((pargs k (b.drop cur)).map fun r => (r.1, b.length - r.2.length, r.2.length)) := by
  induction k with
  | zero => intro cur remain h; simp [getArgs, pargs]; omega
  | succ k ih =>
    intro cur remain h
    unfold getArgs pargs
    rw [strnlen_eq b remain cur h, nulWithin_eq b remain cur h]
    simp only [Outcome.bind_ok]
    by_cases h0 : (0 : UInt8) ∈ b.drop cur
    · obtain ⟨r, e1, e2⟩ := split_nul _ h0
      generalize hw : (b.drop cur).takeWhile (· ≠ 0) = w at *
      have hlen : (b.drop cur).length = w.length + 1 + r.length := by rw [e1]; simp; omega
      rw [List.length_drop] at hlen
      rw [if_neg (by simp [h0]), if_pos (by omega), if_pos h0, ih _ _ (by omega), List.drop_drop]
      have ht : (b.drop cur).take w.length = w := by rw [e1]; simp
      rw [ht]
      cases pargs k (b.drop (cur + (w.length + 1))) with
      | none => rfl
      | some p => rfl
    · rw [if_pos (by simp [h0]), if_neg h0]; rfl

/-- The variable part is parsed exactly if it is one. -/
theorem getVar_iff (b : Bytes) (hb : 0 < b.length) :
    ∃ o, getVar b b.length = .ok o ∧ ∀ args desc, o = some (args, desc) ↔
      b = [UInt8.ofNat args.length] ++ strings args ++ desc ++ [0] ∧ 0 < args.length ∧ args.length < 256 ∧ (∀ a ∈ args, (0 : UInt8) ∉ a) ∧ (0 : UInt8) ∉ desc := by
  cases b with
  | nil => simp at hb
  | cons n s =>
    unfold getVar
    rw [rd_lt (by simp)]
    simp only [Outcome.bind_ok, List.getElem_cons_zero]
    by_cases hn : n = 0
    · rw [if_pos hn]
      refine ⟨none, rfl, fun args desc => ⟨(fun h => by cases h), ?_⟩⟩
      rintro ⟨h1, h2, h3, _⟩
      exfalso
      have h1 := (List.cons.inj h1).1
      rw [hn] at h1
      have := congrArg UInt8.toNat h1
      simp at this; omega
    · rw [if_neg hn, getArgs_eq (n :: s) n.toNat 1 _ (by simp; omega)]
      simp only [Outcome.bind_ok]
      have hd1 : (n :: s).drop 1 = s := rfl
      rw [hd1]
      have hn1 : 0 < n.toNat := by
        have : n.toNat ≠ 0 := fun hc => hn (UInt8.toNat_inj.mp (by simpa using hc))
        omega
      have key : ∀ args desc, (n :: s = [UInt8.ofNat args.length] ++ strings args ++ desc ++ [0] ∧ 0 < args.length ∧ args.length < 256 ∧ (∀ a ∈ args, (0 : UInt8) ∉ a) ∧ (0 : UInt8) ∉ desc) →
          pargs n.toNat s = some (args, desc ++ [0]) := by
        rintro args desc ⟨h1, h2, h3, h4, h5⟩
        obtain ⟨e1, e2⟩ := List.cons.inj h1
        refine (pargs_iff _ _ _ _).mpr ⟨by rw [e2]; simp, ?_, h4⟩
        rw [e1]
        show args.length = (UInt8.ofNat args.length).toNat
        simp; omega
      cases hp : pargs n.toNat s with
      | none =>
        refine ⟨none, rfl, fun args desc => ⟨(fun h => by cases h), fun h => ?_⟩⟩
        rw [key args desc h] at hp; cases hp
      | some p =>
        obtain ⟨args, t⟩ := p
        obtain ⟨f1, f2, f3⟩ := (pargs_iff _ _ _ _).mp hp
        simp only [Option.map_some]
        have hl : s.length = (strings args).length + t.length := by rw [f1]; simp
        have hcur : (n :: s).length - t.length = 1 + (strings args).length := by simp; omega
        have hdrop : (n :: s).drop ((n :: s).length - t.length) = t := by
          rw [hcur, ← List.drop_drop, hd1, f1]; simp
        rw [nulWithin_eq _ _ _ (by simp; omega), hdrop]
        simp only [Outcome.bind_ok]
        by_cases h0 : (0 : UInt8) ∈ t
        · obtain ⟨r, e1, e2⟩ := split_nul t h0
          rw [if_neg (by simp [h0]), strlen_eq _ _ _ (by rw [hdrop]; exact h0) (by omega), hdrop]
          simp only [Outcome.bind_ok]
          generalize hw : t.takeWhile (· ≠ 0) = w at *
          have hlt : t.length = w.length + 1 + r.length := by rw [e1]; simp; omega
          by_cases hr : r = []
          · subst hr
            rw [if_neg (by simp at hlt ⊢; omega)]
            have htk : t.take w.length = w := by rw [e1]; simp
            rw [htk]
            refine ⟨_, rfl, fun args' desc => ⟨?_, ?_⟩⟩
            · intro h
              simp only [Option.some.injEq, Prod.mk.injEq] at h
              obtain ⟨rfl, rfl⟩ := h
              refine ⟨?_, by omega, by have := n.toNat_lt; omega, f3, e2⟩
              rw [f1, e1, f2]
              simp
            · intro h
              have := key args' desc h
              rw [hp] at this
              simp only [Option.some.injEq, Prod.mk.injEq] at this
              obtain ⟨rfl, e⟩ := this
              rw [e1] at e
              have := (List.append_inj' e rfl).1
              rw [this]
          · have : 0 < r.length := List.length_pos_iff.mpr hr
            rw [if_pos (by simp at hlt ⊢; omega)]
            refine ⟨none, rfl, fun args' desc => ⟨(fun h => by cases h), fun h => ?_⟩⟩
            have h' := key args' desc h
            rw [hp] at h'
            simp only [Option.some.injEq, Prod.mk.injEq] at h'
            obtain ⟨_, e⟩ := h'
            have hnd : (0 : UInt8) ∉ desc := h.2.2.2.2
            have htd : t.takeWhile (· ≠ 0) = desc := by rw [e]; exact takeWhile_nul desc [] hnd
            rw [htd] at hw
            rw [e, ← hw] at hlt
            exact absurd (by simpa using hlt) hr
        · rw [if_pos (by simp [h0])]
          refine ⟨none, rfl, fun args' desc => ⟨(fun h => by cases h), fun h => ?_⟩⟩
          have := key args' desc h
          rw [hp] at this
          simp only [Option.some.injEq, Prod.mk.injEq] at this
          exact absurd (by rw [this.2]; simp) h0

end Gdnsd.Extmon
