/-
Byte-level operations on addresses in terms of their bits.
-/
import Verif.Geo.Spec
namespace Gdnsd.Geo

theorem byteBits_length (b : UInt8) : (byteBits b).length = 8 := rfl

theorem byte_forall {P : UInt8 → Prop} (h : ∀ n < 256, P (UInt8.ofNat n)) (b : UInt8) : P b := by
  have := h b.toNat b.toNat_lt
  rwa [UInt8.ofNat_toNat] at this

theorem byteBits_inj {a b : UInt8} (h : byteBits a = byteBits b) : a = b := by
  have key : ∀ c : UInt8, (byteBits c).foldl (fun n x => 2 * n + (bif x then 1 else 0)) 0 = c.toNat :=
    byte_forall (by decide +kernel)
  exact UInt8.toNat_inj.mp (by rw [← key a, ← key b, h])

theorem byteBits_or (b : UInt8) (i : Nat) (hi : i < 8) :
    byteBits (b ||| UInt8.ofNat (2 ^ (7 - i))) = (byteBits b).set i true := by
  revert i
  exact byte_forall (P := fun b => ∀ i < 8, byteBits (b ||| UInt8.ofNat (2 ^ (7 - i))) = (byteBits b).set i true)
    (by decide +kernel) b

theorem byteBits_chk (b : UInt8) (i : Nat) (hi : i < 8) :
    some ((b &&& UInt8.ofNat (2 ^ (7 - i))) != 0) = (byteBits b)[i]? := by
  revert i
  exact byte_forall (P := fun b => ∀ i < 8, some ((b &&& UInt8.ofNat (2 ^ (7 - i))) != 0) = (byteBits b)[i]?)
    (by decide +kernel) b

theorem byteBits_low (b : UInt8) (r : Nat) (hr : r < 8) :
    byteBits (b &&& ~~~ UInt8.ofNat (2 ^ r - 1)) = (byteBits b).take (8 - r) ++ List.replicate r false := by
  revert r
  exact byte_forall (P := fun b => ∀ r < 8, byteBits (b &&& ~~~ UInt8.ofNat (2 ^ r - 1)) =
    (byteBits b).take (8 - r) ++ List.replicate r false) (by decide +kernel) b

theorem byteBits_hi (b : UInt8) (k : Nat) (hk : k < 8) :
    byteBits (b &&& UInt8.ofNat (0xFF00 / 2 ^ k % 256)) = (byteBits b).take k ++ List.replicate (8 - k) false := by
  revert k
  exact byte_forall (P := fun b => ∀ k < 8, byteBits (b &&& UInt8.ofNat (0xFF00 / 2 ^ k % 256)) =
    (byteBits b).take k ++ List.replicate (8 - k) false) (by decide +kernel) b

theorem hi_eq (k : Nat) (hk : k < 8) : 0xFF * 2 ^ (8 - k) % 256 = 0xFF00 / 2 ^ k % 256 :=
  (by decide : ∀ k < 8, 0xFF * 2 ^ (8 - k) % 256 = 0xFF00 / 2 ^ k % 256) k hk

theorem bits_nil : bits [] = [] := rfl
theorem bits_cons (b : UInt8) (l : Bytes) : bits (b :: l) = byteBits b ++ bits l := rfl
theorem bits_append (a b : Bytes) : bits (a ++ b) = bits a ++ bits b := by simp [bits]

theorem bits_length (l : Bytes) : (bits l).length = 8 * l.length := by
  induction l with
  | nil => rfl
  | cons b l ih => rw [bits_cons, List.length_append, ih, byteBits_length, List.length_cons]; omega

theorem bits_take (l : Bytes) (n : Nat) : bits (l.take n) = (bits l).take (8 * n) := by
  induction l generalizing n with
  | nil => simp [bits_nil]
  | cons b l ih =>
    cases n with
    | zero => simp [bits_nil]
    | succ n =>
      rw [List.take_succ_cons, bits_cons, bits_cons, List.take_append, byteBits_length, ih,
        List.take_of_length_le (l := byteBits b) (by rw [byteBits_length]; omega)]
      congr 2

theorem bits_drop (l : Bytes) (n : Nat) : bits (l.drop n) = (bits l).drop (8 * n) := by
  induction l generalizing n with
  | nil => simp [bits_nil]
  | cons b l ih =>
    cases n with
    | zero => simp
    | succ n =>
      rw [List.drop_succ_cons, bits_cons, List.drop_append, byteBits_length, ih,
        List.drop_of_length_le (l := byteBits b) (by rw [byteBits_length]; omega), List.nil_append]
      congr 1

theorem append_inj_len {α : Type} {a b c d : List α} (h : a ++ b = c ++ d) (hl : a.length = c.length) :
    a = c ∧ b = d := List.append_inj h hl

theorem bits_inj {a b : Bytes} (h : bits a = bits b) : a = b := by
  induction a generalizing b with
  | nil =>
    cases b with
    | nil => rfl
    | cons x b => have := congrArg List.length h; simp [bits_nil, bits_length] at this
  | cons x a ih =>
    cases b with
    | nil => have := congrArg List.length h; simp [bits_nil, bits_length] at this
    | cons y b =>
      rw [bits_cons, bits_cons] at h
      obtain ⟨h1, h2⟩ := append_inj_len h rfl
      rw [byteBits_inj h1, ih h2]

/-- An address split around one byte. -/
theorem bits_split {l : Bytes} {n : Nat} (h : n < l.length) :
    bits l = bits (l.take n) ++ (byteBits l[n] ++ bits (l.drop (n + 1))) := by
  conv => lhs; rw [← List.take_append_drop n l, List.drop_eq_getElem_cons h, bits_append, bits_cons]

theorem bits_take_split {l : Bytes} {n k : Nat} (h : n < l.length) (hk : k ≤ 8) :
    (bits l).take (8 * n + k) = bits (l.take n) ++ (byteBits l[n]).take k := by
  rw [bits_split h, List.take_append, bits_length, List.length_take, Nat.min_eq_left (Nat.le_of_lt h),
    List.take_of_length_le (by rw [bits_length, List.length_take]; omega), Nat.add_sub_cancel_left,
    List.take_append, byteBits_length, show k - 8 = 0 by omega, List.take_zero, List.append_nil]

theorem masked_take_eq {a b : Bytes} {n k : Nat} (ha : n < a.length) (hb : n < b.length) (hk : k < 8) :
    (a.take n == b.take n && (a[n] &&& UInt8.ofNat (0xFF00 / 2 ^ k % 256)) == (b[n] &&& UInt8.ofNat (0xFF00 / 2 ^ k % 256))) =
    decide ((bits a).take (8 * n + k) = (bits b).take (8 * n + k)) := by
  rw [bits_take_split ha (by omega), bits_take_split hb (by omega), Bool.eq_iff_iff, decide_eq_true_iff,
    Bool.and_eq_true, beq_iff_eq, beq_iff_eq]
  constructor
  · rintro ⟨h1, h2⟩
    have h3 := congrArg byteBits h2
    rw [byteBits_hi _ _ hk, byteBits_hi _ _ hk] at h3
    rw [h1, (append_inj_len h3 (by simp [byteBits_length])).1]
  · intro h
    obtain ⟨h1, h2⟩ := append_inj_len h (by simp [bits_length]; omega)
    refine ⟨bits_inj h1, byteBits_inj ?_⟩
    rw [byteBits_hi _ _ hk, byteBits_hi _ _ hk, h2]

theorem maskedEq_eq {a b : Bytes} {m : Nat} (ha : a.length = 16) (hb : b.length = 16) (hm : m < 128) :
    maskedEq a b m = .ok (decide ((bits a).take m = (bits b).take m)) := by
  have h1 : m / 8 < a.length := by omega
  have h2 : m / 8 < b.length := by omega
  simp only [maskedEq, hm, decide_true, assert_true, Outcome.bind_ok, rd_lt h1, rd_lt h2]
  rw [masked_take_eq h1 h2 (Nat.mod_lt _ (by omega)), Nat.div_add_mod]

theorem subnetOf_eq {a b : Net} (ha : a.ip.length = 16) (hb : b.ip.length = 16) (ma : a.mask ≤ 128) (mb : b.mask ≤ 128) :
    subnetOf a b = .ok (decide (b.mask ≤ a.mask ∧ (bits a.ip).take b.mask = (bits b.ip).take b.mask)) := by
  simp only [subnetOf, show a.mask < 129 by omega, show b.mask < 129 by omega, decide_true, assert_true, Outcome.bind_ok]
  by_cases h : b.mask ≤ a.mask
  · simp only [h, if_true, true_and]
    by_cases h16 : b.mask / 8 = 16
    · have hm : b.mask = 128 := by omega
      rw [h16, if_pos rfl, hm, List.take_of_length_le (l := bits a.ip) (by rw [bits_length]; omega),
        List.take_of_length_le (l := bits b.ip) (by rw [bits_length]; omega), List.take_of_length_le (l := a.ip) (by omega),
        List.take_of_length_le (l := b.ip) (by omega)]
      by_cases he : a.ip = b.ip
      · simp [he]
      · have : bits a.ip ≠ bits b.ip := fun h => he (bits_inj h)
        simp [he, this]
    · have h1 : b.mask / 8 < a.ip.length := by omega
      have h2 : b.mask / 8 < b.ip.length := by omega
      rw [if_neg h16, rd_lt h1, rd_lt h2]
      simp only [Outcome.bind_ok]
      rw [hi_eq _ (Nat.mod_lt _ (by omega))]
      have := masked_take_eq h1 h2 (Nat.mod_lt b.mask (y := 8) (by omega))
      rw [Nat.div_add_mod] at this
      rw [← this]
      by_cases he : a.ip.take (b.mask / 8) == b.ip.take (b.mask / 8)
      · rw [if_pos he, he, Bool.true_and, Bool.beq_comm]
      · rw [if_neg he]; simp [he]
  · simp [h]

theorem bits_zeros (n : Nat) : bits (List.replicate n 0) = List.replicate (8 * n) false := by
  induction n with
  | zero => rfl
  | succ n ih =>
    rw [List.replicate_succ, bits_cons, ih, show 8 * (n + 1) = 8 + 8 * n by omega, ← List.replicate_append_replicate]; rfl

theorem clearMaskBits_eq {a : Bytes} {m : Nat} (ha : a.length = 16) (hm : m ≤ 128) :
    ∃ c, clearMaskBits a m = .ok c ∧ c.length = 16 ∧ bits c = (bits a).take m ++ List.replicate (128 - m) false := by
  by_cases h0 : m = 0
  · refine ⟨List.replicate 16 0, ?_, List.length_replicate, ?_⟩
    · simp only [clearMaskBits, h0]; rfl
    · rw [bits_zeros, h0]; rfl
  · have hb : 15 - (128 - m) / 8 < a.length := by omega
    refine ⟨_, by simp [clearMaskBits, show m < 129 by omega, h0, rd_lt hb]; rfl, by simp; omega, ?_⟩
    rw [bits_append, bits_cons, bits_zeros, byteBits_low _ _ (Nat.mod_lt _ (by omega))]
    have hk : m = 8 * (15 - (128 - m) / 8) + (8 - (128 - m) % 8) := by omega
    conv => rhs; rw [hk]
    rw [bits_take_split hb (by omega), List.append_assoc, List.append_assoc, List.replicate_append_replicate]
    congr 2
    congr 1
    omega

theorem setBit_eq {a : Bytes} {i : Nat} (ha : a.length = 16) (hi : i < 128) :
    ∃ c, setBit a i = .ok c ∧ c.length = 16 ∧ bits c = (bits a).set i true := by
  have hb : i / 8 < a.length := by omega
  refine ⟨_, by simp only [setBit, hi, decide_true, assert_true, Outcome.bind_ok, rd_lt hb]; rfl, by simp [ha], ?_⟩
  rw [List.set_eq_take_append_cons_drop, if_pos hb, bits_append, bits_cons, byteBits_or _ _ (Nat.mod_lt _ (by omega)),
    bits_split hb]
  have h8 : (bits (a.take (i / 8))).length = 8 * (i / 8) := by rw [bits_length, List.length_take]; omega
  rw [List.set_append, if_neg (by rw [h8]; omega), h8, show i - 8 * (i / 8) = i % 8 by omega,
    List.set_append, if_pos (by rw [byteBits_length]; omega)]

theorem chkBit6_eq {a : Bytes} {i : Nat} (ha : a.length = 16) (hi : i < 128) :
    ∃ b, chkBit6 a i = .ok b ∧ (bits a)[i]? = some b := by
  have hb : i / 8 < a.length := by omega
  refine ⟨_, by simp only [chkBit6, hi, decide_true, assert_true, Outcome.bind_ok, rd_lt hb]; rfl, ?_⟩
  have h8 : (bits (a.take (i / 8))).length = 8 * (i / 8) := by rw [bits_length, List.length_take]; omega
  rw [bits_split hb, List.getElem?_append_right (by rw [h8]; omega), h8, show i - 8 * (i / 8) = i % 8 by omega,
    List.getElem?_append_left (by rw [byteBits_length]; omega), byteBits_chk _ _ (Nat.mod_lt _ (by omega))]

/-! ### Order -/

/-- Lexicographic order on bits; a prefix comes first. -/
def lexLt : List Bool → List Bool → Bool
  | [], [] => false
  | [], _ :: _ => true
  | _ :: _, [] => false
  | a :: p, b :: q => bif a == b then lexLt p q else b

theorem lexLt_cons (a b : Bool) (p q : List Bool) :
    lexLt (a :: p) (b :: q) = bif a == b then lexLt p q else b := rfl

theorem lexLt_append (w p q : List Bool) : lexLt (w ++ p) (w ++ q) = lexLt p q := by
  induction w with
  | nil => rfl
  | cons a w ih => simp [lexLt_cons, ih]

theorem lexLt_irrefl (p : List Bool) : lexLt p p = false := by
  induction p with
  | nil => rfl
  | cons a p ih => simp [lexLt_cons, ih]

theorem lexLt_trans {p q r : List Bool} (h1 : lexLt p q = true) (h2 : lexLt q r = true) : lexLt p r = true := by
  induction p generalizing q r with
  | nil =>
    cases q with
    | nil => simp [lexLt] at h1
    | cons b q => cases r with
      | nil => simp [lexLt] at h2
      | cons c r => rfl
  | cons a p ih =>
    cases q with
    | nil => simp [lexLt] at h1
    | cons b q =>
      cases r with
      | nil => simp [lexLt] at h2
      | cons c r =>
        rw [lexLt_cons] at *
        cases a <;> cases b <;> cases c <;> simp_all
        all_goals exact ih h1 h2

theorem lexLt_total {p q : List Bool} (h1 : lexLt p q = false) (h2 : lexLt q p = false) : p = q := by
  induction p generalizing q with
  | nil => cases q with
    | nil => rfl
    | cons b q => simp [lexLt] at h1
  | cons a p ih =>
    cases q with
    | nil => simp [lexLt] at h2
    | cons b q =>
      rw [lexLt_cons] at *
      cases a <;> cases b <;> simp_all
      all_goals exact ih h1 h2

theorem lexLt_asymm {p q : List Bool} (h : lexLt p q = true) : lexLt q p = false := by
  cases h2 : lexLt q p with
  | false => rfl
  | true => rw [← lexLt_irrefl p, lexLt_trans h h2]

theorem lexLt_prefix {p q : List Bool} (h : p <+: q) (hne : p ≠ q) : lexLt p q = true := by
  obtain ⟨r, rfl⟩ := h
  cases r with
  | nil => simp at hne
  | cons b r =>
    have := lexLt_append p [] (b :: r)
    rw [List.append_nil] at this
    rw [this]; rfl

/-- Smaller, but not a prefix: the order is decided before either ends. -/
theorem lexLt_diverge {p q : List Bool} (h : lexLt p q = true) (hp : ¬ p <+: q) :
    ∃ w p' q', p = w ++ false :: p' ∧ q = w ++ true :: q' := by
  induction p generalizing q with
  | nil => exact absurd (List.nil_prefix) hp
  | cons a p ih =>
    cases q with
    | nil => simp [lexLt] at h
    | cons b q =>
      rw [lexLt_cons] at h
      by_cases hab : a = b
      · subst hab
        obtain ⟨w, p', q', h1, h2⟩ := ih (q := q) (by simpa using h) (fun hpq => hp (by simpa using hpq))
        exact ⟨a :: w, p', q', by rw [h1]; rfl, by rw [h2]; rfl⟩
      · have : b = true := by simpa [hab] using h
        subst this
        have : a = false := by simpa using hab
        subst this
        exact ⟨[], p, q, rfl, rfl⟩

theorem lexLt_of_diverge {p q p' q' : List Bool} (h : lexLt p q = true) (hp : ¬ p <+: q)
    (h1 : p <+: p') (h2 : q <+: q') : lexLt p' q' = true := by
  obtain ⟨w, a, b, rfl, rfl⟩ := lexLt_diverge h hp
  obtain ⟨x, rfl⟩ := h1
  obtain ⟨y, rfl⟩ := h2
  rw [List.append_assoc, List.append_assoc, lexLt_append]; rfl

/-- `a ≤ b` in this order. -/
def lexLe (p q : List Bool) : Prop := lexLt q p = false

theorem lexLe_refl (p : List Bool) : lexLe p p := lexLt_irrefl p

theorem lexLe_of_lt {p q : List Bool} (h : lexLt p q = true) : lexLe p q := lexLt_asymm h

theorem lexLe_cases {p q : List Bool} (h : lexLe p q) : p = q ∨ lexLt p q = true := by
  cases h2 : lexLt p q with
  | true => exact Or.inr rfl
  | false => exact Or.inl (lexLt_total h2 h)

theorem lexLe_trans {p q r : List Bool} (h1 : lexLe p q) (h2 : lexLe q r) : lexLe p r := by
  rcases lexLe_cases h1 with rfl | h1
  · exact h2
  · rcases lexLe_cases h2 with rfl | h2
    · exact lexLe_of_lt h1
    · exact lexLe_of_lt (lexLt_trans h1 h2)

theorem lexLe_antisymm {p q : List Bool} (h1 : lexLe p q) (h2 : lexLe q p) : p = q := lexLt_total h2 h1

theorem lexLe_prefix {p q : List Bool} (h : p <+: q) : lexLe p q := by
  by_cases he : p = q
  · subst he; exact lexLe_refl _
  · exact lexLe_of_lt (lexLt_prefix h he)

theorem lexLt_of_lt_of_le {p q r : List Bool} (h1 : lexLt p q = true) (h2 : lexLe q r) : lexLt p r = true := by
  rcases lexLe_cases h2 with rfl | h2
  · exact h1
  · exact lexLt_trans h1 h2

theorem lexLt_of_le_of_lt {p q r : List Bool} (h1 : lexLe p q) (h2 : lexLt q r = true) : lexLt p r = true := by
  rcases lexLe_cases h1 with rfl | h1
  · exact h2
  · exact lexLt_trans h1 h2

/-- What lies between a prefix and one of its extensions also extends it. -/
theorem prefix_between {p q r : List Bool} (h : p <+: r) (h1 : lexLe p q) (h2 : lexLe q r) : p <+: q := by
  rcases lexLe_cases h1 with rfl | h1
  · exact List.prefix_refl _
  · apply Decidable.byContradiction
    intro hn
    have := lexLt_of_diverge h1 hn h (List.prefix_refl q)
    rw [h2] at this
    exact absurd this (by simp)

theorem zeros_le (n : Nat) (q : List Bool) (h : q.length = n) : lexLe (List.replicate n false) q := by
  induction n generalizing q with
  | zero => rw [List.length_eq_zero_iff] at h; subst h; rfl
  | succ n ih =>
    cases q with
    | nil => simp at h
    | cons b q =>
      have := ih q (by simpa using h)
      unfold lexLe at *
      rw [List.replicate_succ, lexLt_cons]
      cases b <;> simp [this]

/-- Padded addresses with their masks are ordered as their prefixes are. -/
theorem pad_lt (n : Nat) (p q : List Bool) (hp : p.length ≤ n) (hq : q.length ≤ n) :
    (lexLt (p ++ List.replicate (n - p.length) false) (q ++ List.replicate (n - q.length) false) = true ∨
      (p ++ List.replicate (n - p.length) false = q ++ List.replicate (n - q.length) false ∧ p.length < q.length)) ↔
    lexLt p q = true := by
  induction p generalizing q n with
  | nil =>
    have hz : lexLe (List.replicate n false) (q ++ List.replicate (n - q.length) false) :=
      zeros_le n _ (by simp; omega)
    cases q with
    | nil => simp [lexLt_irrefl, lexLt]
    | cons b q =>
      simp only [lexLt, iff_true, List.nil_append, List.length_nil, Nat.sub_zero, List.length_cons, Nat.zero_lt_succ,
        and_true]
      rcases lexLe_cases hz with h | h
      · right; exact h
      · left; exact h
  | cons a p ih =>
    cases q with
    | nil =>
      have hz : lexLe (List.replicate n false) (a :: p ++ List.replicate (n - (a :: p).length) false) :=
        zeros_le n _ (by simp at hp ⊢; omega)
      unfold lexLe at hz
      simp only [List.nil_append, List.length_nil, Nat.sub_zero, hz, Nat.not_lt_zero, and_false, or_false, lexLt]
    | cons b q =>
      cases n with
      | zero => simp at hp
      | succ n =>
        have := ih n q (by simpa using hp) (by simpa using hq)
        simp only [List.length_cons, Nat.add_sub_add_right, List.cons_append, lexLt_cons, List.cons.injEq] at *
        by_cases hab : a = b
        · subst hab; simpa using this
        · simp [hab]

theorem bits_lt_eq {a b : Bytes} (h : a.length = b.length) : memLt a b = lexLt (bits a) (bits b) := by
  have val : ∀ (p q : List Bool), p.length = q.length → ∀ i j : Nat,
      (lexLt p q = decide (p.foldl (fun n x => 2 * n + (bif x then 1 else 0)) 0 < q.foldl (fun n x => 2 * n + (bif x then 1 else 0)) 0)) := by
    intro p
    have shift : ∀ (l : List Bool) (i : Nat), l.foldl (fun n x => 2 * n + (bif x then 1 else 0)) i =
        i * 2 ^ l.length + l.foldl (fun n x => 2 * n + (bif x then 1 else 0)) 0 := by
      intro l
      induction l with
      | nil => simp
      | cons x l ih =>
        intro i
        rw [List.foldl_cons, ih, List.foldl_cons, ih (2 * 0 + _), List.length_cons, Nat.pow_succ]
        rw [Nat.mul_zero, Nat.zero_add, Nat.add_mul, ← Nat.add_assoc]
        congr 2
        rw [Nat.mul_comm 2 i, Nat.mul_assoc, Nat.mul_comm 2]
    have bound : ∀ (l : List Bool), l.foldl (fun n x => 2 * n + (bif x then 1 else 0)) 0 < 2 ^ l.length := by
      intro l
      induction l with
      | nil => simp
      | cons x l ih =>
        rw [List.foldl_cons, shift, List.length_cons, Nat.pow_succ]
        cases x <;> simp <;> omega
    induction p with
    | nil => intro q hq _ _; rw [List.length_nil] at hq; rw [List.length_eq_zero_iff.mp hq.symm]; rfl
    | cons x p ih =>
      intro q hq i j
      cases q with
      | nil => simp at hq
      | cons y q =>
        have hq' : p.length = q.length := by simpa using hq
        rw [lexLt_cons, List.foldl_cons, List.foldl_cons, shift p, shift q, ih q hq' i j, hq']
        have b1 := bound p
        have b2 := bound q
        rw [hq'] at b1
        cases x <;> cases y <;> simp <;> omega
  have key : ∀ c : UInt8, (byteBits c).foldl (fun n x => 2 * n + (bif x then 1 else 0)) 0 = c.toNat :=
    byte_forall (by decide +kernel)
  have same : ∀ x y : UInt8, ∀ p q : List Bool, lexLt (byteBits x ++ p) (byteBits y ++ q) =
      (decide (x < y) || (x == y && lexLt p q)) := by
    intro x y p q
    by_cases hxy : x = y
    · subst hxy; simp [lexLt_append, UInt8.lt_irrefl]
    · have hl := val (byteBits x) (byteBits y) rfl 0 0
      rw [key, key] at hl
      have : (x == y) = false := by simpa using hxy
      rw [this, Bool.false_and, Bool.or_false]
      have hnp : ∀ u v : UInt8, u ≠ v → ¬ byteBits u <+: byteBits v := by
        intro u v huv h
        exact huv (byteBits_inj (h.eq_of_length rfl))
      rw [show decide (x < y) = decide (x.toNat < y.toNat) from rfl, ← hl]
      cases hc : lexLt (byteBits x) (byteBits y) with
      | true => exact lexLt_of_diverge hc (hnp _ _ hxy) (List.prefix_append _ _) (List.prefix_append _ _)
      | false =>
        have hc2 : lexLt (byteBits y) (byteBits x) = true := by
          cases h2 : lexLt (byteBits y) (byteBits x) with
          | true => rfl
          | false => exact absurd (byteBits_inj (lexLt_total hc h2)) hxy
        exact lexLt_asymm (lexLt_of_diverge hc2 (hnp _ _ (Ne.symm hxy)) (List.prefix_append _ _) (List.prefix_append _ _))
  induction a generalizing b with
  | nil => cases b with
    | nil => rfl
    | cons y b => simp at h
  | cons x a ih =>
    cases b with
    | nil => simp at h
    | cons y b =>
      rw [bits_cons, bits_cons, same, memLt, ih (by simpa using h)]

end Gdnsd.Geo
