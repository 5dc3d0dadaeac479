import Verif.Extmon.Lemmas
namespace Gdnsd.Extmon

theorem be16_get (n : Nat) (h : n < 65536) : ∃ x y, be16 n = [x, y] ∧ 256 * x.toNat + y.toNat = n := by
  refine ⟨_, _, rfl, ?_⟩
  simp
  omega

theorem be16_of (x y : UInt8) : be16 (256 * x.toNat + y.toNat) = [x, y] := by
  unfold be16
  have hx := x.toNat_lt
  have hy := y.toNat_lt
  congr 1
  · apply UInt8.toNat_inj.mp; simp; omega
  · congr 1
    apply UInt8.toNat_inj.mp; simp

theorem list14 (b : Bytes) (h : b.length = 14) : ∃ b0 b1 b2 b3 b4 b5 b6 b7 b8 b9 b10 b11 b12 b13, b = [b0, b1, b2, b3, b4, b5, b6, b7, b8, b9, b10, b11, b12, b13] := by
  match b, h with
  | [b0, b1, b2, b3, b4, b5, b6, b7, b8, b9, b10, b11, b12, b13], _ => exact ⟨b0, b1, b2, b3, b4, b5, b6, b7, b8, b9, b10, b11, b12, b13, rfl⟩

theorem readCmd_sound (l : List Io) (s : Bytes) : ∃ r, readCmd l s = .ok r ∧ ∀ c rest l', r = .done (c, rest, l') → c.Fits ∧ s = c.wire ++ rest := by
  unfold readCmd
  cases h1 : readAll l 14 s with
  | fail => exact ⟨_, rfl, fun c rest l' h => by cases h⟩
  | wait => exact ⟨_, rfl, fun c rest l' h => by cases h⟩
  | done p =>
    obtain ⟨fixed, s1, l1⟩ := p
    obtain ⟨e1, e2, e3⟩ := readAll_done l 14 s fixed s1 l1 h1
    obtain ⟨b0, b1, b2, b3, b4, b5, b6, b7, b8, b9, b10, b11, b12, b13, hb⟩ := list14 fixed (by rw [e1]; simp; omega)
    dsimp only
    rw [hb]
    by_cases hm : [b0, b1, b2, b3] = [67, 77, 68, 58]
    · rw [if_neg (by intro hc; exact hc hm)]
      simp only [get16, rd, List.getElem?_cons_succ, List.getElem?_cons_zero, Outcome.bind_ok]
      split
      · exact ⟨_, rfl, fun c rest l' h => by cases h⟩
      · rename_i hv
        cases h2 : readAll l1 (256 * b12.toNat + b13.toNat) s1 with
        | fail => exact ⟨_, rfl, fun c rest l' h => by cases h⟩
        | wait => exact ⟨_, rfl, fun c rest l' h => by cases h⟩
        | done p =>
          obtain ⟨var, s2, l2⟩ := p
          obtain ⟨f1, f2, f3⟩ := readAll_done _ _ _ _ _ _ h2
          have hvl : var.length = 256 * b12.toNat + b13.toNat := by rw [f1]; simp; omega
          dsimp only
          rw [← hvl]
          obtain ⟨o, g1, g2⟩ := getVar_iff var (by omega)
          rw [g1]
          simp only [Outcome.bind_ok]
          cases o with
          | none => exact ⟨_, rfl, fun c rest l' h => by cases h⟩
          | some p =>
            obtain ⟨args, desc⟩ := p
            refine ⟨_, rfl, fun c rest l' h => ?_⟩
            cases h
            obtain ⟨k1, k2, k3, k4, k5⟩ := (g2 args desc).mp rfl
            have := b4.toNat_lt; have := b5.toNat_lt; have := b6.toNat_lt; have := b7.toNat_lt; have := b8.toNat_lt
            have := b9.toNat_lt; have := b10.toNat_lt; have := b11.toNat_lt; have := b12.toNat_lt; have := b13.toNat_lt
            have hvar : Cmd.var ⟨256 * b4.toNat + b5.toNat, 256 * b6.toNat + b7.toNat, 256 * b8.toNat + b9.toNat, 256 * b10.toNat + b11.toNat, args, desc⟩ = var := k1.symm
            refine ⟨⟨⟨by dsimp only; omega, by dsimp only; omega, by dsimp only; omega, by dsimp only; omega, k2, k3, k4, k5⟩, ?_, ?_⟩, ?_⟩
            · rw [hvar]; omega
            · rw [hvar]; omega
            · unfold Cmd.wire
              rw [hvar, hvl]
              simp only [be16_of]
              rw [← hm, f2]
              have : s = fixed ++ s1 := by rw [e1, e2, List.take_append_drop]
              rw [this, hb]
              have hs1 : s1 = var ++ s1.drop (256 * b12.toNat + b13.toNat) := by rw [f1, List.take_append_drop]
              conv => lhs; rw [hs1]
              simp
    · rw [if_pos (show List.take 4 [b0, b1, b2, b3, b4, b5, b6, b7, b8, b9, b10, b11, b12, b13] ≠ [67, 77, 68, 58] from hm)]
      exact ⟨_, rfl, fun c rest l' h => by cases h⟩

theorem wire_length (c : Cmd) : c.wire.length = 14 + c.var.length := by
  unfold Cmd.wire be16; simp; omega

theorem readCmd_complete (c : Cmd) (h : c.Fits) (rest : Bytes) (l : List Io) (he : Io.error ∉ l) (hp : c.wire.length ≤ l.countP isPart) :
    ∃ l', readCmd l (c.wire ++ rest) = .ok (.done (c, rest, l')) := by
  obtain ⟨i0, i1, hi, hi'⟩ := be16_get _ h.idx
  obtain ⟨t0, t1, ht, ht'⟩ := be16_get _ h.timeout
  obtain ⟨n0, n1, hn, hn'⟩ := be16_get _ h.interval
  obtain ⟨m0, m1, hm, hm'⟩ := be16_get _ h.maxProc
  obtain ⟨v0, v1, hv, hv'⟩ := be16_get _ h.large
  have hw : c.wire = [67, 77, 68, 58, i0, i1, t0, t1, n0, n1, m0, m1, v0, v1] ++ c.var := by
    unfold Cmd.wire; rw [hi, ht, hn, hm, hv]; rfl
  rw [wire_length] at hp
  have hsm := h.small
  obtain ⟨l1, e1, e2, e3⟩ := readAll_total l he 14 (c.wire ++ rest) (by simp [hw]) (by omega)
  obtain ⟨l2, f1, f2, f3⟩ := readAll_total l1 e2 c.var.length (c.var ++ rest) (by simp) (by omega)
  have ht1 : (c.wire ++ rest).take 14 = [67, 77, 68, 58, i0, i1, t0, t1, n0, n1, m0, m1, v0, v1] := by rw [hw]; simp
  have hd1 : (c.wire ++ rest).drop 14 = c.var ++ rest := by rw [hw]; simp
  rw [ht1, hd1] at e1
  refine ⟨l2, ?_⟩
  unfold readCmd
  rw [e1]
  dsimp only
  have hq : ¬ ([67, 77, 68, 58, i0, i1, t0, t1, n0, n1, m0, m1, v0, v1] : Bytes).take 4 ≠ [67, 77, 68, 58] := fun hc => hc rfl
  rw [if_neg hq]
  simp only [get16, rd, List.getElem?_cons_succ, List.getElem?_cons_zero, Outcome.bind_ok]
  rw [hv', if_neg (by omega), f1]
  dsimp only
  have ht2 : (c.var ++ rest).take c.var.length = c.var := by simp
  have hd2 : (c.var ++ rest).drop c.var.length = rest := by simp
  rw [ht2, hd2]
  obtain ⟨o, g1, g2⟩ := getVar_iff c.var (by omega)
  have ho := (g2 c.args c.desc).mpr ⟨rfl, h.pos, h.few, h.args, h.desc⟩
  subst ho
  rw [g1]
  simp only [Outcome.bind_ok]
  rw [hi', ht', hn', hm']

theorem nul_inj (a b r s : Bytes) (ha : (0 : UInt8) ∉ a) (hb : (0 : UInt8) ∉ b) (h : a ++ 0 :: r = b ++ 0 :: s) : a = b ∧ r = s := by
  have h1 : a = b := by rw [← takeWhile_nul a r ha, h, takeWhile_nul b s hb]
  subst h1
  exact ⟨rfl, (List.cons.inj (List.append_cancel_left h)).2⟩

theorem strings_inj : ∀ (l m : List Bytes) (r s : Bytes), (∀ a ∈ l, (0 : UInt8) ∉ a) → (∀ a ∈ m, (0 : UInt8) ∉ a) → l.length = m.length → strings l ++ r = strings m ++ s → l = m ∧ r = s
  | [], [], r, s, _, _, _, h => ⟨rfl, by simpa [strings] using h⟩
  | a :: l, b :: m, r, s, hl, hm, hk, h => by
    have h' : a ++ 0 :: (strings l ++ r) = b ++ 0 :: (strings m ++ s) := by simpa [strings] using h
    obtain ⟨e1, e2⟩ := nul_inj _ _ _ _ (hl a (by simp)) (hm b (by simp)) h'
    obtain ⟨e3, e4⟩ := strings_inj l m r s (fun x hx => hl x (List.mem_cons_of_mem _ hx)) (fun x hx => hm x (List.mem_cons_of_mem _ hx)) (by simpa using hk) e2
    exact ⟨by rw [e1, e3], e4⟩

/-- A command determines its own end. -/
theorem var_inj (c d : Cmd) (hc : c.Ok) (hd : d.Ok) (r s : Bytes) (h : c.var ++ r = d.var ++ s) : c.args = d.args ∧ c.desc = d.desc := by
  unfold Cmd.var at h
  have h1 : UInt8.ofNat c.args.length = UInt8.ofNat d.args.length := by
    have := congrArg List.head? h; simpa using this
  have h2 : c.args.length = d.args.length := by
    have := congrArg UInt8.toNat h1
    have := hc.few; have := hd.few
    simp at *; omega
  have h3 : strings c.args ++ (c.desc ++ 0 :: r) = strings d.args ++ (d.desc ++ 0 :: s) := by
    have := congrArg List.tail h; simpa using this
  obtain ⟨e1, e2⟩ := strings_inj _ _ _ _ hc.args hd.args h2 h3
  exact ⟨e1, (nul_inj _ _ _ _ hc.desc hd.desc e2).1⟩

theorem readCmd_long (c : Cmd) (h : c.Ok) (hl : 65536 ≤ c.var.length) (rest : Bytes) (l : List Io) :
    readCmd l (c.wire ++ rest) = .ok .fail ∨ readCmd l (c.wire ++ rest) = .ok .wait := by
  obtain ⟨r, e1, e2⟩ := readCmd_sound l (c.wire ++ rest)
  cases r with
  | fail => exact .inl e1
  | wait => exact .inr e1
  | done p =>
    obtain ⟨d, s, l'⟩ := p
    obtain ⟨f1, f2⟩ := e2 d s l' rfl
    exfalso
    unfold Cmd.wire at f2
    have h3 : c.var ++ rest = d.var ++ s := by
      have := congrArg (List.drop 14) f2
      simpa [be16] using this
    obtain ⟨k1, k2⟩ := var_inj c d h f1.toOk rest s h3
    have hv : c.var = d.var := by unfold Cmd.var; rw [k1, k2]
    have := f1.large
    rw [← hv] at this
    omega

/-! ### The queue -/

/-- What the queue holds. -/
structure Rep (q : Queue) (l : List Nat) : Prop where
  len : q.len = l.length
  le : l.length ≤ q.alloc
  arr : q.arr.length = q.alloc
  pow : ∃ k, q.alloc = 2 ^ k
  head : q.head < q.alloc
  get : ∀ i, i < l.length → q.arr[(q.head + i) % q.alloc]? = l[i]?

theorem Rep.mask {q : Queue} {l : List Nat} (h : Rep q l) (n : Nat) : n &&& (q.alloc - 1) = n % q.alloc := by
  obtain ⟨k, hk⟩ := h.pow
  rw [hk, Nat.and_two_pow_sub_one_eq_mod]

theorem Rep.init (junk : Nat → Nat) : Rep (Queue.init junk) [] :=
  ⟨rfl, by simp, by simp [Queue.init, fresh], ⟨4, rfl⟩, Nat.zero_lt_succ 15, fun i h => by simp at h⟩

theorem copy_ok (q : Queue) (l : List Nat) (h : Rep q l) : ∀ n i, i + n = l.length → q.copy (q.alloc - 1) i n = .ok (l.drop i) := by
  intro n
  induction n with
  | zero => intro i hi; rw [List.drop_of_length_le (by omega)]; rfl
  | succ n ih =>
    intro i hi
    unfold Queue.copy
    rw [h.mask]
    unfold Queue.get
    rw [h.get i (by omega)]
    rw [List.getElem?_eq_getElem (by omega)]
    simp only [Outcome.bind_ok]
    rw [ih (i + 1) (by omega), List.drop_eq_getElem_cons (show i < l.length by omega)]
    rfl

theorem enq_ok (q : Queue) (l : List Nat) (h : Rep q l) (junk : Nat → Nat) (x : Nat) : ∃ q', q.enq junk x = .ok q' ∧ Rep q' (l ++ [x]) := by
  unfold Queue.enq
  have hpos : 0 < q.alloc := Nat.lt_of_le_of_lt (Nat.zero_le _) h.head
  by_cases hlt : q.len < q.alloc
  · rw [if_pos hlt]
    dsimp only
    have hll := h.len
    rw [h.mask, h.arr, if_pos (Nat.mod_lt _ hpos)]
    refine ⟨_, rfl, ⟨by simp [h.len], by simp; omega, by simp [h.arr], h.pow, h.head, ?_⟩⟩
    intro i hi
    dsimp only
    simp only [List.length_append, List.length_singleton] at hi
    by_cases hi' : i = l.length
    · subst hi'
      rw [← h.len, List.getElem?_set_self (by rw [h.arr]; exact Nat.mod_lt _ hpos), h.len]
      simp
    · have hne : (q.head + q.len) % q.alloc ≠ (q.head + i) % q.alloc := by
        intro hc
        rw [h.len] at hc hlt
        have hh := h.head
        have m1 : (q.head + l.length) % q.alloc = if q.head + l.length < q.alloc then q.head + l.length else q.head + l.length - q.alloc := by
          split
          · exact Nat.mod_eq_of_lt ‹_›
          · rw [Nat.mod_eq_sub_mod (by omega)]; exact Nat.mod_eq_of_lt (by omega)
        have m2 : (q.head + i) % q.alloc = if q.head + i < q.alloc then q.head + i else q.head + i - q.alloc := by
          split
          · exact Nat.mod_eq_of_lt ‹_›
          · rw [Nat.mod_eq_sub_mod (by omega)]; exact Nat.mod_eq_of_lt (by omega)
        rw [m1, m2] at hc
        split at hc <;> split at hc <;> omega
      rw [List.getElem?_set_ne hne, h.get i (by omega), List.getElem?_append_left (by omega)]
  · rw [if_neg hlt]
    have hl : l.length = q.alloc := by have := h.len; have := h.le; omega
    rw [copy_ok q l h q.len 0 (by rw [h.len]; simp)]
    simp only [Outcome.bind_ok, List.drop_zero]
    rw [if_pos (by rw [h.len]; omega)]
    obtain ⟨k, hk⟩ := h.pow
    refine ⟨_, rfl, ⟨by simp [h.len], by simp; omega, by simp [fresh, h.len, hl]; omega, ⟨k + 1, by rw [Nat.pow_succ, ← hk]⟩, by dsimp only; omega, ?_⟩⟩
    intro i hi
    dsimp only
    rw [Nat.zero_add, Nat.mod_eq_of_lt (by simp at hi; omega), List.getElem?_append_left hi]

theorem peek_ok (q : Queue) (x : Nat) (l : List Nat) (h : Rep q (x :: l)) : q.peek = .ok x ∧ ∃ q', q.commit = .ok q' ∧ Rep q' l := by
  have hlen := h.len
  have hle := h.le
  rw [List.length_cons] at hlen hle
  unfold Queue.peek Queue.commit
  have hz : q.len ≠ 0 := by omega
  simp only [hz, ne_eq, not_false_eq_true, decide_true, assert_true, Outcome.bind_ok]
  refine ⟨?_, _, rfl, ⟨by simp [hlen], by dsimp only; omega, h.arr, h.pow, ?_, ?_⟩⟩
  · have := h.get 0 (by simp)
    rw [Nat.add_zero, Nat.mod_eq_of_lt h.head] at this
    unfold Queue.get
    rw [this]; rfl
  · dsimp only; rw [h.mask]; exact Nat.mod_lt _ (by omega)
  · intro i hi
    dsimp only
    rw [h.mask, Nat.mod_add_mod]
    have := h.get (i + 1) (by simp; omega)
    rw [Nat.add_assoc, Nat.add_comm 1 i, this]
    rfl

end Gdnsd.Extmon
