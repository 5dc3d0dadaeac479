/-
Proofs about statistics.
-/
import Verif.Statio.Spec
namespace Gdnsd.Statio

/-! ### Accumulation -/

/-- What is added to a slot. -/
def slotOf (i : Nat) (l : List (Nat × UInt64)) : UInt64 := (l.map fun p => if p.1 = i then p.2 else 0).foldr (· + ·) 0

theorem addAll_get (l : List (Nat × UInt64)) : ∀ (st : List UInt64) (i : Nat), i < st.length →
    (l.foldl add st).length = st.length ∧ (l.foldl add st).getD i 0 = st.getD i 0 + slotOf i l := by
  induction l with
  | nil => intro st i _; simp [slotOf]
  | cons p l ih =>
    intro st i hi
    rw [List.foldl_cons]
    obtain ⟨h1, h2⟩ := ih (add st p) i (by unfold add; rw [List.length_set]; exact hi)
    refine ⟨by rw [h1]; unfold add; rw [List.length_set], ?_⟩
    rw [h2]
    have : (add st p).getD i 0 = st.getD i 0 + if p.1 = i then p.2 else 0 := by
      unfold add
      rw [List.getD_eq_getElem?_getD, List.getD_eq_getElem?_getD, List.getD_eq_getElem?_getD]
      by_cases hp : p.1 = i
      · subst hp
        rw [List.getElem?_set_self hi, if_pos rfl]
        rfl
      · rw [List.getElem?_set_ne hp, if_neg hp, UInt64.add_zero]
    rw [this, UInt64.add_assoc]
    rfl

theorem populate_get (ts : List Thread) : ∀ (st : List UInt64) (i : Nat), i < st.length →
    (populate st ts).length = st.length ∧ (populate st ts).getD i 0 = st.getD i 0 + total (fun t => slotOf i (adds t)) ts := by
  induction ts with
  | nil => intro st i _; simp [populate, total]
  | cons t ts ih =>
    intro st i hi
    obtain ⟨a1, a2⟩ := addAll_get (adds t) st i hi
    obtain ⟨h1, h2⟩ := ih (accumulate st t) i (by unfold accumulate; rw [a1]; exact hi)
    refine ⟨by rw [← a1]; exact h1, ?_⟩
    show (populate (accumulate st t) ts).getD i 0 = _
    rw [h2]
    unfold accumulate
    rw [a2, UInt64.add_assoc]
    rfl

theorem total_append (f : Thread → UInt64) (a b : List Thread) : total f (a ++ b) = total f a + total f b := by
  unfold total
  induction a with
  | nil => simp
  | cons t a ih =>
    show f t + ((a ++ b).map f).foldr (· + ·) 0 = (f t + _) + _
    rw [ih, UInt64.add_assoc]

/-! ### Numbers -/

theorem digits_value (f : Nat) : ∀ n, n < 10 ^ f → 0 < f → value (digits f n) = n ∧ (digits f n).length ≤ f ∧ 0 < (digits f n).length ∧ (∀ d ∈ digits f n, 48 ≤ d.toNat ∧ d.toNat ≤ 57) ∧ (digits f n = [48] ∨ (digits f n).head? ≠ some 48) := by
  induction f with
  | zero => intro n _ h; omega
  | succ f ih =>
    intro n hn _
    unfold digits
    by_cases h : n < 10
    · rw [show decide (n < 10) = true from decide_eq_true h]
      simp only [cond_true]
      have hd : (48 + n).toUInt8.toNat = 48 + n := by simp [Nat.toUInt8]; omega
      refine ⟨?_, by simp, by simp, ?_, ?_⟩
      · show 10 * 0 + ((48 + n).toUInt8.toNat - 48) = n
        rw [hd]; omega
      · intro d hm
        have : d = (48 + n).toUInt8 := by simpa using hm
        rw [this, hd]; omega
      · by_cases h0 : n = 0
        · subst h0; exact .inl rfl
        · right
          intro hc
          have : (48 + n).toUInt8 = 48 := by simpa using hc
          have := congrArg UInt8.toNat this
          rw [hd] at this
          simp at this
          omega
    · rw [show decide (n < 10) = false from decide_eq_false h]
      simp only [cond_false]
      have hf : 0 < f := by
        cases f with
        | zero => simp at hn; omega
        | succ _ => omega
      obtain ⟨h1, h2, h3, h4, h5⟩ := ih (n / 10) (by rw [Nat.pow_succ] at hn; omega) hf
      have hd : (48 + n % 10).toUInt8.toNat = 48 + n % 10 := by simp [Nat.toUInt8]; omega
      refine ⟨?_, ?_, ?_, ?_, ?_⟩
      · unfold value at h1 ⊢
        rw [List.foldl_append, h1]
        show 10 * (n / 10) + ((48 + n % 10).toUInt8.toNat - 48) = n
        rw [hd]; omega
      · rw [List.length_append]; simp; omega
      · rw [List.length_append]; simp
      · intro d hm
        rcases List.mem_append.mp hm with h | h
        · exact h4 d h
        · have : d = (48 + n % 10).toUInt8 := by simpa using h
          rw [this, hd]; omega
      · right
        rw [show (digits f (n / 10) ++ [(48 + n % 10).toUInt8]).head? = (digits f (n / 10)).head? by
          cases hh : digits f (n / 10) with
          | nil => rw [hh] at h3; simp at h3
          | cons _ _ => rfl]
        rcases h5 with h5 | h5
        · rw [h5] at h1
          have : n / 10 = 0 := h1.symm
          omega
        · exact h5

theorem dec_length (v : UInt64) : (dec v).length ≤ 20 := (digits_value 20 v.toNat (Nat.lt_of_lt_of_le v.toNat_lt (by decide)) (by decide)).2.1

/-! ### The document -/

/-- A format that takes `as` and gives `s`. -/
def Fills (p : List (Option UInt8)) (as : List UInt64) (s : Bytes) : Prop :=
  ∀ q rest, fill (p ++ q) (as ++ rest) = (fill q rest).map (s ++ ·)

theorem Fills.nil : Fills [] [] [] := by
  intro q rest
  show fill q rest = (fill q rest).map _
  cases fill q rest <;> rfl

theorem Fills.append {p q : List (Option UInt8)} {as bs : List UInt64} {s t : Bytes} (h1 : Fills p as s) (h2 : Fills q bs t) : Fills (p ++ q) (as ++ bs) (s ++ t) := by
  intro r rest
  rw [List.append_assoc, List.append_assoc, h1, h2]
  cases fill r rest with
  | ub => rfl
  | ok x => simp

theorem Fills.lit (b : Bytes) : Fills (b.map some) [] b := by
  induction b with
  | nil => exact Fills.nil
  | cons c b ih =>
    intro q rest
    show (fill (b.map some ++ q) ([] ++ rest)).map (c :: ·) = _
    rw [ih q rest]
    cases fill q rest <;> rfl

theorem Fills.hole (v : UInt64) : Fills [none] [v] (dec v) := fun _ _ => rfl

/-- The document with holes for the numbers. -/
def sepByT (sep : List (Option UInt8)) : List (List (Option UInt8)) → List (Option UInt8)
  | [] => []
  | [x] => x
  | x :: y :: l => x ++ sep ++ sepByT sep (y :: l)

def lit (b : Bytes) : List (Option UInt8) := b.map some

def memberT (depth : Nat) (key : String) (v : List (Option UInt8)) : List (Option UInt8) := lit (List.replicate depth 9 ++ txt "\"" ++ txt key ++ txt "\": ") ++ v

def objectT (depth : Nat) (ms : List (List (Option UInt8))) : List (Option UInt8) := lit (txt "{\n") ++ sepByT (lit (txt ",\n")) ms ++ lit (txt "\n" ++ List.replicate depth 9 ++ txt "}")

def reportT (keys : List (String × List String)) : List (Option UInt8) :=
  objectT 0 (memberT 1 "uptime" [none] :: keys.map fun o => memberT 1 o.1 (objectT 1 (o.2.map fun m => memberT 2 m [none]))) ++ lit (txt "\n")

theorem Fills.sepBy (sep : Bytes) (l : List (List (Option UInt8) × List UInt64 × Bytes)) (h : ∀ x ∈ l, Fills x.1 x.2.1 x.2.2) :
    Fills (sepByT (Statio.lit sep) (l.map (·.1))) (l.flatMap (·.2.1)) (Statio.sepBy sep (l.map (·.2.2))) := by
  induction l with
  | nil => exact Fills.nil
  | cons x l ih =>
    cases l with
    | nil =>
      have := h x (by simp)
      simpa [sepByT, Statio.sepBy] using this
    | cons y l =>
      have h1 := h x (by simp)
      have h2 := ih fun z hz => h z (by simp at hz ⊢; exact .inr hz)
      have := (h1.append (Fills.lit sep)).append h2
      rw [List.append_nil] at this
      exact this

theorem Fills.member (depth : Nat) (key : String) {p as s} (h : Fills p as s) : Fills (memberT depth key p) as (Statio.member depth key s) :=
  (Fills.lit _).append h

theorem Fills.object (depth : Nat) (l : List (List (Option UInt8) × List UInt64 × Bytes)) (h : ∀ x ∈ l, Fills x.1 x.2.1 x.2.2) :
    Fills (objectT depth (l.map (·.1))) (l.flatMap (·.2.1)) (Statio.object depth (l.map (·.2.2))) := by
  have := ((Fills.lit (txt "{\n")).append (Fills.sepBy (txt ",\n") l h)).append (Fills.lit (txt "\n" ++ List.replicate depth 9 ++ txt "}"))
  rw [List.nil_append, List.append_nil] at this
  unfold objectT Statio.object
  rw [show txt "{\n" ++ Statio.sepBy (txt ",\n") (l.map (·.2.2)) ++ txt "\n" ++ List.replicate depth 9 ++ txt "}" =
    txt "{\n" ++ Statio.sepBy (txt ",\n") (l.map (·.2.2)) ++ (txt "\n" ++ List.replicate depth 9 ++ txt "}") by
      rw [List.append_assoc, List.append_assoc, List.append_assoc (txt "\n")]]
  exact this

theorem Fills.report (up : UInt64) (ts : List Thread) :
    Fills (reportT (doc.map fun o => (o.1, o.2.map (·.1)))) (up :: doc.flatMap fun o => o.2.map fun m => total m.2 ts) (Statio.report up ts) := by
  have inner : ∀ o : String × List (String × (Thread → UInt64)),
      Fills (memberT 1 o.1 (objectT 1 ((o.2.map (·.1)).map fun m => memberT 2 m [none]))) (o.2.map fun m => total m.2 ts) (Statio.member 1 o.1 (Statio.object 1 (o.2.map fun m => Statio.member 2 m.1 (dec (total m.2 ts))))) := by
    intro o
    refine Fills.member 1 o.1 ?_
    have := Fills.object 1 (o.2.map fun m => (memberT 2 m.1 [none], [total m.2 ts], Statio.member 2 m.1 (dec (total m.2 ts)))) (by
      intro x hx
      obtain ⟨m, _, rfl⟩ := List.mem_map.mp hx
      exact Fills.member 2 m.1 (Fills.hole _))
    rw [List.map_map, List.map_map, List.flatMap_map] at this
    rw [List.map_map]
    have e : (o.2.flatMap fun m => [total m.2 ts]) = o.2.map fun m => total m.2 ts := by
      rw [List.map_eq_flatMap]
    rw [← e]
    exact this
  have outer := Fills.object 0 ((memberT 1 "uptime" [none], [up], Statio.member 1 "uptime" (dec up)) :: doc.map fun o =>
      (memberT 1 o.1 (objectT 1 ((o.2.map (·.1)).map fun m => memberT 2 m [none])), o.2.map (fun m => total m.2 ts), Statio.member 1 o.1 (Statio.object 1 (o.2.map fun m => Statio.member 2 m.1 (dec (total m.2 ts)))))) (by
    intro x hx
    rcases List.mem_cons.mp hx with rfl | hx
    · exact Fills.member 1 "uptime" (Fills.hole up)
    · obtain ⟨o, _, rfl⟩ := List.mem_map.mp hx
      exact inner o)
  have := outer.append (Fills.lit (txt "\n"))
  rw [List.append_nil] at this
  unfold reportT Statio.report
  rw [List.map_cons, List.map_cons, List.flatMap_cons, List.map_map, List.map_map, List.flatMap_map] at this
  rw [List.map_map]
  exact this

theorem fmt_eq : parseFmt jsonFixed = reportT (doc.map fun o => (o.1, o.2.map (·.1))) := by decide +kernel

/-- The slots in the order of the document. -/
theorem order_eq (t : Thread) : (order.map fun i => slotOf i (adds t)) = doc.flatMap fun o => o.2.map fun m => m.2 t := by
  cases h : t.isUdp <;> simp [order, slotOf, adds, doc, ofUdp, ofTcp, Thread.reqs, h]

theorem fill_length (p : List (Option UInt8)) : ∀ (as : List UInt64) (s : Bytes), fill p as = .ok s → s.length ≤ p.countP (·.isSome) + 20 * p.countP (·.isNone) ∧ p.countP (·.isSome) ≤ s.length := by
  induction p with
  | nil => intro as s h; cases as <;> cases h <;> simp
  | cons c p ih =>
    intro as s h
    cases c with
    | some c =>
      cases he : fill p as with
      | ub => simp [fill, he] at h
      | ok x =>
        simp [fill, he] at h
        subst h
        have := ih as x he
        simp; omega
    | none =>
      cases as with
      | nil => simp [fill] at h
      | cons a as =>
        cases he : fill p as with
        | ub => simp [fill, he] at h
        | ok x =>
          simp [fill, he] at h
          subst h
          have := ih as x he
          have := dec_length a
          simp; omega

theorem counts : (parseFmt jsonFixed).countP (·.isSome) + 20 * (parseFmt jsonFixed).countP (·.isNone) < jsonMax ∧ 0 < (parseFmt jsonFixed).countP (·.isSome) := by
  decide +kernel

/-! ### Serialization -/

theorem le64_length (v : UInt64) : (le64 v).length = 8 := by simp [le64]

theorem le_value (k : Nat) : ∀ n, ((List.range k).map fun i => (n / 256 ^ i % 256).toUInt8).foldr (fun (b : UInt8) (m : Nat) => b.toNat + 256 * m) 0 = n % 256 ^ k := by
  induction k with
  | zero => intro n; simp [Nat.mod_one]
  | succ k ih =>
    intro n
    rw [List.range_succ_eq_map, List.map_cons, List.map_map, List.foldr_cons]
    have e : (fun i => (n / 256 ^ i % 256).toUInt8) ∘ Nat.succ = fun i => (n / 256 / 256 ^ i % 256).toUInt8 := by
      funext i
      show (n / 256 ^ (i + 1) % 256).toUInt8 = _
      rw [Nat.div_div_eq_div_mul, Nat.pow_succ, Nat.mul_comm]
    have h8 : ((n / 256 ^ 0 % 256).toUInt8).toNat = n % 256 := by simp [Nat.toUInt8]
    rw [e, ih (n / 256), h8, Nat.pow_succ, Nat.mul_comm (256 ^ k) 256, Nat.mod_mul]

theorem le64_value (v : UInt64) : (le64 v).foldr (fun (b : UInt8) (n : Nat) => b.toNat + 256 * n) 0 = v.toNat := by
  unfold le64
  rw [le_value]
  exact Nat.mod_eq_of_lt v.toNat_lt

theorem get64_flat (l : List UInt64) : ∀ (i : Nat) (h : i < l.length), get64 (l.flatMap le64) i = .ok l[i] := by
  have len : ∀ l : List UInt64, (l.flatMap le64).length = 8 * l.length := by
    intro l
    induction l with
    | nil => rfl
    | cons v l ih => rw [List.flatMap_cons, List.length_append, le64_length, ih, List.length_cons]; omega
  intro i h
  unfold get64
  rw [if_pos (by rw [len]; omega)]
  have : ((l.flatMap le64).drop (8 * i)).take 8 = le64 l[i] := by
    clear len
    induction l generalizing i with
    | nil => simp at h
    | cons v l ih =>
      cases i with
      | zero =>
        rw [List.flatMap_cons, Nat.mul_zero, List.drop_zero, List.take_append_of_le_length (by rw [le64_length]; omega), List.take_of_length_le (by rw [le64_length]; omega)]
        rfl
      | succ i =>
        rw [List.flatMap_cons, show 8 * (i + 1) = (le64 v).length + 8 * i by rw [le64_length]; omega, ← List.drop_drop, List.drop_left]
        exact ih i (by simpa using h)
  rw [this, le64_value]
  simp

theorem flat_length (l : List UInt64) : (l.flatMap le64).length = 8 * l.length := by
  induction l with
  | nil => rfl
  | cons v l ih => rw [List.flatMap_cons, List.length_append, le64_length, ih, List.length_cons]; omega

theorem load_ok (l : List UInt64) (n : Nat) : ∀ (i : Nat) (base : List UInt64), i + n ≤ l.length → i + n ≤ base.length →
    load (l.flatMap le64) n i base = .ok (base.take i ++ (l.drop i).take n ++ base.drop (i + n)) := by
  induction n with
  | zero =>
    intro i base _ _
    show Outcome.ok base = _
    simp
  | succ n ih =>
    intro i base h1 h2
    unfold load
    rw [get64_flat l i (by omega)]
    simp only [Outcome.bind_ok]
    rw [ih (i + 1) (base.set i l[i]) (by omega) (by rw [List.length_set]; omega)]
    congr 1
    rw [List.take_set, List.drop_set_of_lt (by omega), List.take_add_one, List.getElem?_eq_getElem (by omega : i < base.length)]
    rw [List.drop_eq_getElem_cons (by omega : i < l.length), List.take_succ_cons]
    rw [List.set_append_right _ _ (by rw [List.length_take]; omega)]
    rw [List.length_take, show i - min i base.length = 0 by omega]
    simp [Nat.add_assoc, Nat.add_comm 1 n]

/-- Loading any list of 64-bit numbers. -/
theorem deserialize_flat (l : List UInt64) (s : UInt64) (base : List UInt64) (start : UInt64) (hb : base.length = slotCount) (hl : l.length < 2 ^ 60) :
    deserialize ((l ++ [s]).flatMap le64) base start = .ok (l.take slotCount ++ base.drop l.length, s) := by
  have hlen := flat_length (l ++ [s])
  rw [List.length_append, List.length_singleton] at hlen
  unfold deserialize
  rw [hlen, if_neg (by omega)]
  have hc : (8 * (l.length + 1) / 8 + (2 ^ 64 - 1)) % 2 ^ 64 = l.length := by
    rw [Nat.mul_div_cancel_left _ (by decide), show l.length + 1 + (2 ^ 64 - 1) = l.length + 2 ^ 64 by omega, Nat.add_mod_right, Nat.mod_eq_of_lt (by omega)]
  dsimp only
  rw [hc, get64_flat _ _ (by simp)]
  simp only [Outcome.bind_ok]
  rw [load_ok _ _ 0 base (by simp; omega) (by rw [hb]; omega)]
  simp only [Outcome.map_ok, List.take_zero, List.nil_append, List.drop_zero, Nat.zero_add]
  have e1 : (l ++ [s]).take (min slotCount l.length) ++ base.drop (min slotCount l.length) = l.take slotCount ++ base.drop l.length := by
    rw [List.take_append_of_le_length (by omega)]
    by_cases h : l.length ≤ slotCount
    · rw [Nat.min_eq_right h, List.take_of_length_le (Nat.le_refl _), List.take_of_length_le h]
    · rw [Nat.min_eq_left (by omega), List.drop_of_length_le (by omega), List.drop_of_length_le (by omega)]
  rw [e1]
  have e2 : (l ++ [s])[l.length]'(by simp) = s := by simp
  rw [e2]

/-! ### The transfer -/

theorem sendAll_prefix (l : List Io) : ∀ d, ∃ k, sendAll l d = d.take k := by
  induction l with
  | nil => intro d; exact ⟨0, by cases d <;> rfl⟩
  | cons io l ih =>
    intro d
    cases d with
    | nil => exact ⟨0, by cases io <;> rfl⟩
    | cons b d =>
      cases io with
      | error => exact ⟨0, rfl⟩
      | part n =>
        obtain ⟨k, hk⟩ := ih ((b :: d).drop n)
        refine ⟨n + k, ?_⟩
        show (b :: d).take n ++ sendAll l _ = _
        rw [hk, List.take_add]

theorem recvAll_some (l : List Io) : ∀ (w : Nat) (s g : Bytes), recvAll l w s = some g → w ≤ s.length ∧ g = s.take w := by
  induction l with
  | nil =>
    intro w s g h
    cases w with
    | zero => cases h; simp
    | succ w => cases h
  | cons io l ih =>
    intro w s g h
    cases w with
    | zero => cases io <;> cases h <;> simp
    | succ w =>
      cases io with
      | error => cases h
      | part n =>
        unfold recvAll at h
        dsimp only at h
        split at h
        · cases h
        · obtain ⟨x, hx, rfl⟩ := Option.map_eq_some_iff.mp h
          obtain ⟨h1, rfl⟩ := ih _ _ _ hx
          rw [List.length_drop] at h1
          refine ⟨by omega, ?_⟩
          rw [← List.take_add]
          congr 1
          omega

theorem hdr_len (n : Nat) : ((List.range 4).map fun i => (n / 256 ^ i % 256).toUInt8).foldr (fun (b : UInt8) (m : Nat) => b.toNat + 256 * m) 0 = n % 2 ^ 32 :=
  le_value 4 n

/-- Whatever the calls do, what arrives is what was sent, or nothing. -/
theorem handoff_same (f : Io) (l : List Io) (f' : Io) (l' : List Io) (data got : Bytes) (hd : data.length < 65536)
    (h : recvHandoff f' l' (sendHandoff f l data) = some got) : got = data := by
  unfold recvHandoff at h
  cases f' with
  | error => cases h
  | part n =>
    dsimp only at h
    split at h
    · cases h
    rename_i h8
    split at h
    · cases h
    split at h
    · cases h
    rename_i hdz
    obtain ⟨h1, rfl⟩ := recvAll_some _ _ _ _ h
    cases f with
    | error => simp [sendHandoff] at h8
    | part m =>
      by_cases hm : 8 ≤ m
      · obtain ⟨k, hk⟩ := sendAll_prefix l data
        have hs : sendHandoff (.part m) l data = [115, 0, 0, 0] ++ ((List.range 4).map fun i => (data.length / 256 ^ i % 256).toUInt8) ++ data.take k := by
          unfold sendHandoff
          dsimp only
          rw [if_pos hm, hk]
        have hdrop : (sendHandoff (.part m) l data).drop 8 = data.take k := by
          rw [hs]
          exact List.drop_left' (by simp)
        have hfour : ((sendHandoff (.part m) l data).drop 4).take 4 = (List.range 4).map fun i => (data.length / 256 ^ i % 256).toUInt8 := by
          rw [hs, List.append_assoc, List.drop_left' (by simp), List.take_left' (by simp)]
        rw [hfour, hdr_len, Nat.mod_eq_of_lt (by omega)] at h1 ⊢
        rw [hdrop] at h1 ⊢
        rw [List.length_take] at h1
        rw [List.take_take, Nat.min_eq_left (by omega), List.take_of_length_le (Nat.le_refl _)]
      · have : (sendHandoff (.part m) l data).length < 8 := by
          unfold sendHandoff
          dsimp only
          rw [if_neg hm, List.length_take]
          omega
        omega

theorem serialize_eq (base : List UInt64) (start : UInt64) (ts : List Thread) (hb : base.length = slotCount) :
    serialize base start ts = (populate base ts ++ [start]).flatMap le64 := by
  unfold serialize
  dsimp only
  have hl : (populate base ts).length = slotCount := by
    rw [(populate_get ts base 0 (by rw [hb]; decide)).1, hb]
  have : ((List.range slotCount).map fun i => (populate base ts).getD i 0) = populate base ts := by
    apply List.ext_getElem
    · simp [hl]
    · intro i h1 h2
      simp [h2]
  rw [this]

end Gdnsd.Statio
