/-
C108 to C111: the rate of messages, names in messages, replacing text, and reading files.
-/
import Verif.Util.Rate
import Verif.Util.Subst
namespace Gdnsd.Util
open UtilSpec

/-! ### C108 -/

/-- While the clock does not go back, a message about a client passes exactly if there were fewer than 10 attempts in that second before it and the
second is not guarded; and exactly the eleventh attempt of a second is answered by the message that says so. -/
theorem C108_passes {ts : List Int} (hr : Rising ts) (h0 : ∀ t ∈ ts, 0 < t) (hb : ∀ u, ts.count u ≤ 2 ^ 32) :
    ∀ i t, ts[i]? = some t → ∃ x, (Rate.init.run ts)[i]? = some x ∧
      (x.pass = true ↔ (ts.take i).count t < 10 ∧ ¬ Guarded (ts.take i) t) ∧ (x.meta' = true ↔ (ts.take i).count t = 10) := by
  intro i t h
  cases ts with
  | nil => cases h
  | cons now ts =>
    obtain ⟨t1, t2, t3, t4⟩ := init_after (now := now) (by have := h0 now (by simp); omega)
    obtain ⟨ha, hp, hm⟩ := call_after (pre := []) t1 t2 t3 t4
    cases i with
    | zero =>
      cases h
      exact ⟨_, rfl, hp, hm⟩
    | succ i =>
      have hsec : (Rate.init.call now).2.second = now := by
        unfold Rate.call
        dsimp only
        split
        · exact t1
        · split <;> exact t1
      exact run_after ts [now] _ ha hr.2 (by rw [hsec]; exact hr.1) hb i t h

/-- So no second has more than 11 lines. -/
theorem C108_bounded {ts : List Int} (hr : Rising ts) (h0 : ∀ t ∈ ts, 0 < t) (hb : ∀ u, ts.count u ≤ 2 ^ 32) (u : Int) :
    ((ts.zip (Rate.init.run ts)).filter fun p => p.1 == u && (p.2.pass || p.2.meta')).length ≤ 11 := by
  exact few u _ _ (C108_passes hr h0 hb)

/-- False of the code in general: when the clock jumps back and forth, every message passes, however many there are. -/
theorem C108_false_clock {t : Int} (h : 1 < t) (n : Nat) : Rate.init.run (jumping t n) = List.replicate n ⟨true, false⟩ :=
  jumps n _ rfl (by show (0 : Int) ≠ t; omega)

example : Rising (List.replicate 12 5 ++ [6, 7, 8]) ∧ (∀ t ∈ List.replicate 12 (5 : Int) ++ [6, 7, 8], 0 < t) := by
  constructor
  · simp [Rising, List.replicate]
  · decide

example : (Rate.init.run (List.replicate 12 5 ++ [6, 7, 8])).map (·.pass) = List.replicate 10 true ++ [false, false, false, false, true] := by decide +kernel
example : Guarded (List.replicate 12 5 ++ [6]) 7 := by right; exact ⟨by unfold Tripped; decide, by decide⟩

/-! ### C109 -/

/-- A name of at most 255 bytes always fits in the buffer, and if none of its bytes is above 127 then the text is the one expected. -/
theorem C109_text_partial (ls : List Bytes) (h : wire ls < 255) : ∃ out, lstack ls = .ok out ∧ out.length < 1024 ∧
    ((∀ l ∈ ls, ∀ b ∈ l, b.toNat < 128) → out = text ls.reverse) := by
  have hw := wire_reverse ls
  have hp := putLabels_ok 1024 ls.reverse [] (by simp only [List.length_nil]; omega)
  refine ⟨_, hp, ?_, ?_⟩
  · rw [List.nil_append]
    have := all_length ls.reverse
    omega
  · intro hb
    rw [List.nil_append]
    exact flat_text _ fun l hl => hb l (List.mem_reverse.mp hl)

/-- False of the code in general: a byte above 127 is not shown as its number. -/
theorem C109_false_high : ∀ b : UInt8, 128 ≤ b.toNat → lstack [[b]] ≠ .ok (text [[b]]) := by
  intro b hb
  rw [lstack, putLabels_ok 1024 _ [] (by simp [wire])]
  intro h
  simp only [List.reverse_singleton, List.flatMap_cons, List.flatMap_nil, List.append_nil, List.nil_append, text, Outcome.ok.injEq] at h
  exact shown_high b hb (List.append_cancel_right h)

/-- What a message asks for is apart, and it ends the process only if it asks for nothing or for more than there is. -/
theorem C109_buffers (l : List Nat) : match fmtAllocs 0 l with
    | none => 0 ∈ l ∨ 4096 < l.sum
    | some os => os.length = l.length ∧ Apart 4096 0 (os.zip l) := by
  have := allocs l 0 (Nat.zero_le _)
  revert this
  cases fmtAllocs 0 l with
  | none => intro h; rcases h with h | h; exact .inl h; exact .inr (by omega)
  | some os => exact id

/-- A name below a zone, the zone and one more name always fit. -/
theorem C109_names {a b : Nat} (ha : 0 < a ∧ a ≤ 1024) (hb : 0 < b ∧ b ≤ 1024) : (fmtAllocs 0 [1024, a, b]).isSome := by
  have := C109_buffers [1024, a, b]
  cases h : fmtAllocs 0 [1024, a, b] with
  | some _ => rfl
  | none =>
    rw [h] at this
    simp at this
    omega

example : lstack [[0x77], [0x61, 0x20]] = .ok [0x61, 0x5C, 0x30, 0x33, 0x32, 0x2E, 0x77, 0x2E] := by decide +kernel
example : lstack [[200]] = .ok [0x5C, 0x30, 0x2B, 0x2A, 0x2E] := by decide +kernel
example : fmtAllocs 0 [1024, 3, 5] = some [0, 1024, 1027] := by decide +kernel

/-! ### C110 -/

/-- Whatever the sizes, a result is the text with every occurrence replaced, from left to right. -/
theorem C110_replaced {h n r out : Bytes} (e : subst h n r = .ok (some out)) : n ≠ [] ∧ Replaced n r h out := by
  have hn : n ≠ [] := by
    rintro rfl
    simp [subst, assert, Outcome.bind] at e
  obtain ⟨c, o, h1, h2, h3, h4, h6, h5⟩ := loops r hn (h.length + 1) h (Nat.lt_succ_self _)
  refine ⟨hn, ?_⟩
  unfold subst at e
  rw [show (!n.isEmpty) = true by simpa using hn, assert_true, Outcome.bind_ok] at e
  split at e
  · cases e
  · rw [h1, Outcome.bind_ok] at e
    have hc : c < half := by
      have : c ≤ c * n.length := Nat.le_mul_of_pos_right _ (by cases n with | nil => exact absurd rfl hn | cons => simp)
      omega
    rw [show decide (c < half) = true by simpa using hc, assert_true, Outcome.bind_ok] at e
    split at e
    · rename_i hz
      cases e
      rw [← h6 hz]
      rw [h6 hz] at h2 ⊢
      exact h2
    · dsimp only at e
      split at e
      · cases e
      · split at e
        · cases e
        · rw [h5] at e
          split at e
          · rw [Outcome.bind_ok, List.nil_append] at e
            unfold assert at e
            split at e
            · cases e; exact h2
            · cases e
          · cases e

/-- With texts of less than two gigabytes it does not fail, and ends the process only when the result has 2^32 - 1 bytes or more. -/
theorem C110_total_partial {h n r : Bytes} (hn : n ≠ []) (hh : h.length < 2 ^ 31) (hl : n.length < 2 ^ 31) (hr : r.length < 2 ^ 31) :
    ∃ out, Replaced n r h out ∧ subst h n r = .ok (if out.length < 2 ^ 32 - 1 then some out else none) := by
  obtain ⟨c, o, h1, h2, h3, h4, h6, h5⟩ := loops r hn (h.length + 1) h (Nat.lt_succ_self _)
  refine ⟨o, h2, ?_⟩
  have hnl : 0 < n.length := by cases n with | nil => exact absurd rfl hn | cons => simp
  have hcl : c ≤ c * n.length := Nat.le_mul_of_pos_right _ hnl
  have hc : c < half := by unfold half; omega
  unfold subst
  rw [show (!n.isEmpty) = true by simpa using hn, assert_true, Outcome.bind_ok, if_neg (by unfold half; omega), h1, Outcome.bind_ok,
    show decide (c < half) = true by simpa using hc, assert_true, Outcome.bind_ok]
  split
  · rename_i hz
    rw [h6 hz, if_pos (by omega)]
  · dsimp only
    have hp : ((r.length : Int) - n.length) * c = (o.length : Int) - h.length := by
      have : ((o.length + c * n.length : Nat) : Int) = ((h.length + c * r.length : Nat) : Int) := by rw [h3]
      simp only [Int.natCast_add, Int.natCast_mul] at this
      rw [Int.sub_mul, Int.mul_comm _ (c : Int), Int.mul_comm _ (c : Int)]
      omega
    have hrc : c * r.length ≤ 2 ^ 31 * 2 ^ 31 := Nat.mul_le_mul (by omega) (by omega)
    have ho : o.length < 2 ^ 63 := by omega
    rw [hp, if_neg (by omega)]
    have e : (((h.length : Int) + ((o.length : Int) - h.length)) % 2 ^ 64).toNat = o.length := by omega
    rw [e, h5]
    unfold half
    by_cases hb : o.length < 2 ^ 32 - 1
    · rw [if_neg (by omega), if_pos (by simp), if_pos hb, Outcome.bind_ok, List.nil_append, show decide (o.length = o.length) = true by simp, assert_true, Outcome.map_ok]
    · rw [if_pos (by omega), if_neg hb]

/-- False of the code in general: the size of the result is computed with signed numbers, and these can overflow although each text has an allowed size. -/
theorem C110_false_overflow : ∃ h n r : Bytes, n ≠ [] ∧ h.length < half ∧ n.length < half ∧ r.length < half ∧ subst h n r = .ub := by
  refine ⟨List.replicate (2 ^ 32 - 2) 97, [97], List.replicate (2 ^ 32 - 2) 98, by simp, by rw [List.length_replicate]; decide, by decide, by rw [List.length_replicate]; decide, ?_⟩
  have key : ∀ m k, m < k → needles [97] k (List.replicate m 97) = .ok m := by
    intro m
    induction m with
    | zero => intro k hk; cases k with
      | zero => omega
      | succ k => rfl
    | succ m ih => intro k hk; cases k with
      | zero => omega
      | succ k =>
        have : strstr [97] (97 :: List.replicate m 97) = some 0 := rfl
        simp only [needles, List.replicate_succ, this, List.length_singleton, Nat.zero_add, List.drop_succ_cons, List.drop_zero, ih k (by omega), Outcome.map_ok]
  unfold subst
  rw [show (!([97] : Bytes).isEmpty) = true from rfl, assert_true, Outcome.bind_ok, List.length_replicate, List.length_replicate, if_neg (by decide), key _ _ (Nat.lt_succ_self _),
    Outcome.bind_ok, show decide (2 ^ 32 - 2 < half) = true by decide, assert_true, Outcome.bind_ok, if_neg (by decide)]
  dsimp only
  rw [if_pos (by decide)]

example : subst [1, 7, 7, 7, 2] [7, 7] [9] = .ok (some [1, 9, 7, 2]) := by decide +kernel

/-! ### C111 -/

/-- A file that is read is exactly what the reads gave, with the size it had when it was opened. -/
theorem C111_contents {len : Nat} {l : List Read} {buf : Bytes} (h : slurp len [] l = .ok (.done buf)) : buf.length = len ∧
    ∃ k, buf = (l.take k).flatMap got := by
  obtain ⟨h1, k, h2⟩ := slurp_done h
  exact ⟨h1, k, by simpa using h2⟩

/-- However the kernel splits and interrupts the reads of a file whose size stays, it is read in full. -/
theorem C111_complete {file : Bytes} {l : List Read} (h1 : .err ∉ l) (h2 : l.flatMap got = file) (h3 : file ≠ []) :
    slurp file.length [] l = .ok (.done file) :=
  slurp_all (by simpa using h2) h1 (by cases file with | nil => exact absurd rfl h3 | cons => simp)

/-- False of the code in general: when the file got shorter after it was opened, the loop never ends. -/
theorem C111_false_truncated {len : Nat} {file : Bytes} (h : file.length < len) (n : Nat) :
    slurp len [] (.got file :: List.replicate n (.got [])) = .ok .more := by
  unfold slurp
  rw [if_neg (by simp; omega), if_pos (by simpa using h), List.nil_append]
  induction n with
  | zero => rfl
  | succ n ih =>
    rw [List.replicate_succ]
    unfold slurp
    rw [if_neg (by simp; omega), if_pos (by simpa using h), List.append_nil]
    exact ih

example : slurp 3 [] [.intr, .got [1], .got [], .got [2, 3]] = .ok (.done [1, 2, 3]) := by decide +kernel

end Gdnsd.Util
