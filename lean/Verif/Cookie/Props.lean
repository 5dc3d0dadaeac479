import Verif.Cookie.Model
/-
C24: DNS cookies validate exactly in the key-rotation window.
-/
namespace Gdnsd.Cookie

variable {Key : Type}

/-! ### Specification -/

/-- The server cookie of hour `h` for a client address and client cookie: what any server
sharing the primary key computes. -/
def serverCookie (c : Crypto Key) (primary : Bytes) (h : Nat) (client : Addr) (cc : Bytes) : Bytes :=
  c.hash (c.kdf primary (UInt64.ofNat h)) (addrBytes client ++ cc)

/-- The time of the last key rotation in a history, starting at `start`. -/
def lastRotation (start : UInt64) : List Event → UInt64
  | [] => start
  | .timer now :: es => lastRotation now es
  | .query _ _ :: es => lastRotation start es

/-- The hour number of a time. -/
def hour (t : UInt64) : Nat := t.toNat / 3600

/-- Legal cookie option lengths (RFC 7873). -/
def LegalLen (inp : Bytes) : Prop := inp.length = 8 ∨ (16 ≤ inp.length ∧ inp.length ≤ 40)

instance (inp : Bytes) : Decidable (LegalLen inp) := inferInstanceAs (Decidable (_ ∨ _))

/-! ### Helpers -/

theorem xor_eq_zero {a b : Nat} : a ^^^ b = 0 ↔ a = b := by
  constructor
  · intro h
    have h2 : a ^^^ b ^^^ b = 0 ^^^ b := by rw [h]
    rw [Nat.xor_assoc, Nat.xor_self, Nat.xor_zero, Nat.zero_xor] at h2
    exact h2
  · rintro rfl; exact Nat.xor_self _

theorem rotate_eq (c : Crypto Key) (primary : Bytes) (now : UInt64) (hpos : 0 < hour now) :
    rotate c primary now = ⟨c.kdf primary (UInt64.ofNat (hour now - 1)), c.kdf primary (UInt64.ofNat (hour now)),
      c.kdf primary (UInt64.ofNat (hour now + 1))⟩ := by
  have hlt := now.toNat_lt
  have hc : now / 3600 = UInt64.ofNat (hour now) := by
    apply UInt64.toNat_inj.1
    rw [UInt64.toNat_div, UInt64.toNat_ofNat']
    unfold hour
    rw [Nat.mod_eq_of_lt (by omega)]; rfl
  unfold rotate
  simp only [hc]
  congr 2
  · apply UInt64.toNat_inj.1
    rw [UInt64.toNat_sub_of_le, UInt64.toNat_ofNat', UInt64.toNat_ofNat', Nat.mod_eq_of_lt, Nat.mod_eq_of_lt]
    · rfl
    · unfold hour; omega
    · unfold hour; omega
    · rw [UInt64.le_iff_toNat_le, UInt64.toNat_ofNat', Nat.mod_eq_of_lt]
      · exact hpos
      · unfold hour; omega
  · apply UInt64.toNat_inj.1
    rw [UInt64.toNat_add, UInt64.toNat_ofNat', UInt64.toNat_ofNat', Nat.mod_eq_of_lt (show hour now < 2 ^ 64 by unfold hour; omega)]
    rfl

theorem run_keys (c : Crypto Key) (primary : Bytes) (es : List Event) (start : UInt64) (keys : TimeKeys Key)
    (h : run c primary (rotate c primary start) es = .ok keys) : keys = rotate c primary (lastRotation start es) := by
  induction es generalizing start with
  | nil => simp only [run, Outcome.ok.injEq] at h; exact h.symm
  | cons e es ih =>
    cases e with
    | timer now => exact ih now (by simpa [run, step] using h)
    | query a inp =>
      simp only [run, step] at h
      cases hp : process c (rotate c primary start) a inp with
      | ub => rw [hp] at h; simp [Outcome.bind] at h
      | ok r => rw [hp] at h; exact ih start (by simpa using h)

/-! ### Properties -/

/-- C24. For every legal option the result is defined, a fresh pair is always handed out,
and the option validates exactly when it has 16 bytes and its second half is the keyed
hash, under the previous, current or next key, of the client's address and its first half. -/
theorem C24_process (c : Crypto Key) (keys : TimeKeys Key) (client : Addr) (inp : Bytes) (hl : LegalLen inp) :
    ∃ valid, process c keys client inp = .ok (valid, inp.take 8 ++ c.hash keys.current (addrBytes client ++ inp.take 8)) ∧
      (inp.take 8 ++ c.hash keys.current (addrBytes client ++ inp.take 8)).length = 16 ∧
      (valid = true ↔ ∃ cc sc, inp = cc ++ sc ∧ cc.length = 8 ∧ sc.length = 8 ∧
        (sc = c.hash keys.previous (addrBytes client ++ cc) ∨ sc = c.hash keys.current (addrBytes client ++ cc) ∨
         sc = c.hash keys.next (addrBytes client ++ cc))) := by
  have ha : (inp.length == 8 || (decide (inp.length ≥ 16) && decide (inp.length ≤ 40))) = true := by
    unfold LegalLen at hl; simp; omega
  unfold process
  rw [ha]
  simp only [assert_true, Outcome.bind_ok]
  refine ⟨_, rfl, ?_, ?_⟩
  · simp [c.hash_len]; unfold LegalLen at hl; omega
  · by_cases h16 : inp.length = 16
    · rw [if_pos (by omega)]
      have hx : inp.length ^^^ 16 = 0 := xor_eq_zero.2 h16
      have ht : (inp.drop 8).take 8 = inp.drop 8 := List.take_of_length_le (by simp; omega)
      simp only [hx, and_true, decide_eq_true_eq, ht, memcmp8, ite_eq_left_iff, Int.reduceNeg, reduceCtorEq, imp_false,
        Decidable.not_not]
      constructor
      · intro h
        refine ⟨inp.take 8, inp.drop 8, (List.take_append_drop _ _).symm, by simp; omega, by simp; omega, ?_⟩
        rcases h with h | h | h
        · left; refine Classical.byContradiction fun hc => ?_; simp [Ne.symm hc] at h
        · right; left; refine Classical.byContradiction fun hc => ?_; simp [Ne.symm hc] at h
        · right; right; refine Classical.byContradiction fun hc => ?_; simp [Ne.symm hc] at h
      · rintro ⟨cc, sc, rfl, h1, h2, h3⟩
        have e1 : (cc ++ sc).take 8 = cc := by rw [← h1]; simp
        have e2 : (cc ++ sc).drop 8 = sc := by rw [← h1]; simp
        rw [e1, e2]
        rcases h3 with h | h | h <;> simp [← h]
    · have hx : ¬ inp.length ^^^ 16 = 0 := fun h => h16 (xor_eq_zero.1 h)
      have : ¬ ∃ cc sc, inp = cc ++ sc ∧ cc.length = 8 ∧ sc.length = 8 ∧
        (sc = c.hash keys.previous (addrBytes client ++ cc) ∨ sc = c.hash keys.current (addrBytes client ++ cc) ∨
         sc = c.hash keys.next (addrBytes client ++ cc)) := by
        rintro ⟨cc, sc, rfl, h1, h2, -⟩; apply h16; simp [h1, h2]
      rw [iff_false_right this]
      split
      · simp [hx]
      · simp

/-- C24. In every history of timer firings and requests, the answer to a legal cookie
option depends only on the hour of the last rotation: the cookie handed out is that hour's,
and exactly the cookies of that hour and the two neighbouring ones are accepted. -/
theorem C24_history (c : Crypto Key) (primary : Bytes) (start : UInt64) (es : List Event) (keys : TimeKeys Key)
    (hrun : run c primary (rotate c primary start) es = .ok keys) (hpos : 0 < hour (lastRotation start es))
    (client : Addr) (inp : Bytes) (hl : LegalLen inp) :
    ∃ valid, process c keys client inp =
        .ok (valid, inp.take 8 ++ serverCookie c primary (hour (lastRotation start es)) client (inp.take 8)) ∧
      (valid = true ↔ inp.length = 16 ∧ ∃ h, (h + 1 = hour (lastRotation start es) ∨ h = hour (lastRotation start es) ∨
          h = hour (lastRotation start es) + 1) ∧ inp.drop 8 = serverCookie c primary h client (inp.take 8)) := by
  have hk := run_keys c primary es start keys hrun
  rw [rotate_eq _ _ _ hpos] at hk
  generalize hour (lastRotation start es) = H at *
  subst hk
  obtain ⟨valid, h1, -, h3⟩ := C24_process c _ client inp hl
  refine ⟨valid, h1, ?_⟩
  rw [h3]
  simp only [serverCookie]
  constructor
  · rintro ⟨cc, sc, rfl, e1, e2, h⟩
    have e3 : (cc ++ sc).take 8 = cc := by rw [← e1]; simp
    have e4 : (cc ++ sc).drop 8 = sc := by rw [← e1]; simp
    rw [e3, e4]
    refine ⟨by simp [e1, e2], ?_⟩
    rcases h with h | h | h
    · exact ⟨H - 1, .inl (by omega), h⟩
    · exact ⟨H, .inr (.inl rfl), h⟩
    · exact ⟨H + 1, .inr (.inr rfl), h⟩
  · rintro ⟨h16, h, hh, heq⟩
    refine ⟨inp.take 8, inp.drop 8, (List.take_append_drop _ _).symm, by simp; omega, by simp; omega, ?_⟩
    rcases hh with hh | hh | hh
    · left; rw [heq, show h = H - 1 by omega]
    · right; left; rw [heq, hh]
    · right; right; rw [heq, hh]

/-- C24. A cookie handed out by one server (history `es1`) and presented, by the same
client address, to any server with the same primary key (history `es2`) is accepted when
the two servers' last rotations are at most an hour number apart. -/
theorem C24_accepted (c : Crypto Key) (primary : Bytes) (start1 start2 : UInt64) (es1 es2 : List Event)
    (keys1 keys2 : TimeKeys Key)
    (hrun1 : run c primary (rotate c primary start1) es1 = .ok keys1)
    (hrun2 : run c primary (rotate c primary start2) es2 = .ok keys2)
    (hpos1 : 0 < hour (lastRotation start1 es1)) (hpos2 : 0 < hour (lastRotation start2 es2))
    (client : Addr) (inp : Bytes) (hl : LegalLen inp) (v : Bool) (out : Bytes)
    (hp : process c keys1 client inp = .ok (v, out))
    (hnear : hour (lastRotation start2 es2) ≤ hour (lastRotation start1 es1) + 1 ∧
      hour (lastRotation start1 es1) ≤ hour (lastRotation start2 es2) + 1) :
    ∃ out', process c keys2 client out = .ok (true, out') := by
  obtain ⟨v1, h1, -⟩ := C24_history c primary start1 es1 keys1 hrun1 hpos1 client inp hl
  rw [hp] at h1
  simp only [Outcome.ok.injEq, Prod.mk.injEq] at h1
  have h8 : (inp.take 8).length = 8 := by unfold LegalLen at hl; simp; omega
  have e1 : out.take 8 = inp.take 8 := by rw [h1.2, List.take_append_of_le_length (by omega), List.take_of_length_le (by omega)]
  have e2 : out.drop 8 = serverCookie c primary (hour (lastRotation start1 es1)) client (inp.take 8) := by
    have h8' : 8 = (inp.take 8).length := h8.symm
    rw [h1.2]
    conv => lhs; arg 1; rw [h8']
    simp
  have e3 : out.length = 16 := by rw [h1.2]; simp only [List.length_append, serverCookie, c.hash_len, h8]
  obtain ⟨v2, h2, h3⟩ := C24_history c primary start2 es2 keys2 hrun2 hpos2 client out (.inr ⟨by omega, by omega⟩)
  have hv : v2 = true := h3.2 ⟨e3, hour (lastRotation start1 es1), by omega, by rw [e2, e1]⟩
  rw [hv] at h2
  exact ⟨_, h2⟩

/-- C24. If the hours are further apart, or the client address or client cookie differ,
acceptance of a cookie handed out earlier means a collision of the keyed hash. -/
theorem C24_rejected (c : Crypto Key) (primary : Bytes) (start1 start2 : UInt64) (es1 es2 : List Event)
    (keys1 keys2 : TimeKeys Key)
    (hrun1 : run c primary (rotate c primary start1) es1 = .ok keys1)
    (hrun2 : run c primary (rotate c primary start2) es2 = .ok keys2)
    (hpos1 : 0 < hour (lastRotation start1 es1)) (hpos2 : 0 < hour (lastRotation start2 es2))
    (client client' : Addr) (hc : client.Ok) (hc' : client'.Ok) (inp : Bytes) (hl : LegalLen inp) (v : Bool) (out : Bytes)
    (hp : process c keys1 client inp = .ok (v, out))
    (hfar : hour (lastRotation start1 es1) + 1 < hour (lastRotation start2 es2) ∨
      hour (lastRotation start2 es2) + 1 < hour (lastRotation start1 es1) ∨ addrBytes client ≠ addrBytes client')
    (out' : Bytes) (hacc : process c keys2 client' out = .ok (true, out')) :
    ∃ h m m', (h ≠ hour (lastRotation start1 es1) ∨ m ≠ m') ∧ m.length = 24 ∧ m'.length = 24 ∧
      c.hash (c.kdf primary (UInt64.ofNat h)) m = c.hash (c.kdf primary (UInt64.ofNat (hour (lastRotation start1 es1)))) m' := by
  obtain ⟨v1, h1, -⟩ := C24_history c primary start1 es1 keys1 hrun1 hpos1 client inp hl
  rw [hp] at h1
  simp only [Outcome.ok.injEq, Prod.mk.injEq] at h1
  have h8 : (inp.take 8).length = 8 := by unfold LegalLen at hl; simp; omega
  have e1 : out.take 8 = inp.take 8 := by rw [h1.2, List.take_append_of_le_length (by omega), List.take_of_length_le (by omega)]
  have e2 : out.drop 8 = serverCookie c primary (hour (lastRotation start1 es1)) client (inp.take 8) := by
    have h8' : 8 = (inp.take 8).length := h8.symm
    rw [h1.2]
    conv => lhs; arg 1; rw [h8']
    simp
  have e3 : out.length = 16 := by rw [h1.2]; simp only [List.length_append, serverCookie, c.hash_len, h8]
  obtain ⟨v2, h2, h3⟩ := C24_history c primary start2 es2 keys2 hrun2 hpos2 client' out (.inr ⟨by omega, by omega⟩)
  rw [hacc] at h2
  simp only [Outcome.ok.injEq, Prod.mk.injEq] at h2
  obtain ⟨-, h, hh, heq⟩ := h3.1 h2.1.symm
  rw [e2, e1] at heq
  have alen : ∀ a : Addr, a.Ok → (addrBytes a).length = 16 := by
    intro a ha
    cases a <;> simp only [Addr.Ok] at ha <;> simp [addrBytes, ha]
  refine ⟨h, addrBytes client' ++ inp.take 8, addrBytes client ++ inp.take 8, ?_, ?_, ?_, heq.symm⟩
  · rcases hfar with hf | hf | hf
    · left; omega
    · left; omega
    · right
      intro he
      exact hf (List.append_cancel_right he).symm
  · rw [List.length_append, alen _ hc', h8]
  · rw [List.length_append, alen _ hc, h8]

/-- C24. The timing guarantee. Times in milliseconds; the timer fires 2.02 s after each
hour with at most `delay` ms of lateness, so at time `t` the last rotation `r` (in ms) is
such that no firing time plus delay lies in between. A cookie handed out at `t1` and
presented at `t2 ≥ t1` no more than an hour minus that lateness later is accepted: the
hour numbers of the last rotations then differ by at most one. -/
theorem C24_one_hour (delay r1 r2 t1 t2 : Nat) (h1 : r1 ≤ t1) (h2 : r2 ≤ t2)
    (hmono : r1 ≤ r2)
    (hfire1 : ∀ k, 3600000 * k + 2020 + delay ≤ t1 → 3600000 * k + 2020 ≤ r1)
    (ht : t1 ≤ t2) (hdt : t2 + 2020 + delay ≤ t1 + 3600000) :
    r2 / 3600000 ≤ r1 / 3600000 + 1 ∧ r1 / 3600000 ≤ r2 / 3600000 + 1 := by
  constructor
  · -- the earlier rotation is at most one firing behind
    by_cases hk : 2020 + delay ≤ t1
    · have := hfire1 ((t1 - (2020 + delay)) / 3600000) (by omega)
      omega
    · omega
  · omega

/-! ### Key files -/

/-- C24. With a key file configured, the primary key is exactly its first 32 bytes, and the
server does not start when it has fewer or cannot be read. -/
theorem C24_keyfile (f : Option Bytes) (auto : Option Bytes) (w : Bool) (rnd : Bytes) :
    (∀ b rest, f = some (b ++ rest) → b.length = 32 → config (some f) auto w rnd = some (b, auto)) ∧
    (f = none ∨ (∃ b, f = some b ∧ b.length < 32) → config (some f) auto w rnd = none) := by
  constructor
  · rintro b rest rfl hb
    have : (b ++ rest).take 32 = b := by rw [← hb]; simp
    simp [config, readKeyfile, this, hb]
  · rintro (rfl | ⟨b, rfl, hb⟩)
    · rfl
    · have h : ¬ (b.take 32).length = 32 := by simp; omega
      simp only [config, readKeyfile, if_neg h, Option.map_none]

/-- C24. Without a key file the generated key survives restarts as long as the file can be
written the first time or is already there: every later start uses the same key, whatever
its random numbers. -/
theorem C24_autokey (auto : Option Bytes) (w w' : Bool) (rnd rnd' : Bytes) (hr : rnd.length = 32)
    (h : auto = none ∧ w = true ∨ ∃ b, auto = some b ∧ 32 ≤ b.length) (k : Bytes) (auto' : Option Bytes)
    (h1 : config none auto w rnd = some (k, auto')) : config none auto' w' rnd' = some (k, auto') := by
  rcases h with ⟨rfl, rfl⟩ | ⟨b, rfl, hb⟩
  · simp only [config, readKeyfile, writeKeyfile, if_true, Option.some.injEq, Prod.mk.injEq] at h1
    obtain ⟨rfl, rfl⟩ := h1
    have ht : rnd.take 32 = rnd := List.take_of_length_le (by omega)
    simp [config, readKeyfile, ht, hr]
  · have ht : (b.take 32).length = 32 := by simp; omega
    simp only [config, readKeyfile, if_pos ht, Option.some.injEq, Prod.mk.injEq] at h1
    obtain ⟨rfl, rfl⟩ := h1
    simp [config, readKeyfile, hb]

/-- C24. A key file that exists is never changed by a start, whatever it contains (even
when it is unusable because it is too short, in which case the random key is used). -/
theorem C24_keyfile_untouched (keyFile : Option (Option Bytes)) (b : Bytes) (w : Bool) (rnd k : Bytes)
    (auto' : Option Bytes) (h : config keyFile (some b) w rnd = some (k, auto')) :
    auto' = some b ∧ (keyFile = none → b.length < 32 → k = rnd) := by
  cases keyFile with
  | some f =>
    simp only [config, Option.map_eq_some_iff, Prod.mk.injEq] at h
    obtain ⟨_, _, _, rfl⟩ := h
    simp
  | none =>
    by_cases hb : (b.take 32).length = 32
    · simp only [config, readKeyfile, if_pos hb, Option.some.injEq, Prod.mk.injEq] at h
      obtain ⟨_, rfl⟩ := h
      refine ⟨rfl, fun _ hl => ?_⟩
      simp at hb
      omega
    · simp only [config, readKeyfile, if_neg hb, writeKeyfile, Option.some.injEq, Prod.mk.injEq] at h
      obtain ⟨rfl, rfl⟩ := h
      exact ⟨rfl, fun _ _ => rfl⟩

/-! ### The hypotheses are satisfiable -/

/-- A toy instance: keys are hour numbers, the hash is the hour and the message's sum. -/
def toy : Crypto (UInt64) where
  kdf _ h := h
  hash k m := [k.toUInt8, m.foldl (· + ·) 0, 0, 0, 0, 0, 0, 0]
  hash_len _ _ := rfl

/-- Cookie handed out in hour 277777 and presented in hours 277778 (accepted) and 277779
(rejected), after a history with other requests. -/
example :
    let es1 : List Event := [.timer 999997202, .query (.v4 [192, 0, 2, 1]) [1, 2, 3, 4, 5, 6, 7, 8]]
    let es2 : List Event := es1 ++ [.timer 1000000802]
    let es3 : List Event := es2 ++ [.timer 1000004402]
    (run toy [] (rotate toy [] 999990000) es1).map (·.current) = .ok 277777 ∧
    ((run toy [] (rotate toy [] 999990000) es1).bind fun k => process toy k (.v4 [192, 0, 2, 1]) [1, 2, 3, 4, 5, 6, 7, 8]) =
      .ok (false, [1, 2, 3, 4, 5, 6, 7, 8, 17, 231, 0, 0, 0, 0, 0, 0]) ∧
    (((run toy [] (rotate toy [] 999990000) es2).bind fun k => process toy k (.v4 [192, 0, 2, 1])
      [1, 2, 3, 4, 5, 6, 7, 8, 17, 231, 0, 0, 0, 0, 0, 0]).map (·.1)) = .ok true ∧
    (((run toy [] (rotate toy [] 999990000) es3).bind fun k => process toy k (.v4 [192, 0, 2, 1])
      [1, 2, 3, 4, 5, 6, 7, 8, 17, 231, 0, 0, 0, 0, 0, 0]).map (·.1)) = .ok false ∧
    hour (lastRotation 999990000 es2) = 277778 := by decide +kernel

example : LegalLen [1, 2, 3, 4, 5, 6, 7, 8] := by decide
/-- The timing hypotheses hold of rotations at 1:00:02.02 and 2:00:02.02, issue at 1:30 and
presentation at 2:20. -/
example : 2 * 3600000 + 1200000 + 2020 + 500 ≤ 3600000 + 1800000 + 3600000 ∧
    (3600000 + 2020) / 3600000 = 1 ∧ (2 * 3600000 + 2020) / 3600000 = 2 := by decide
example : config none none true (List.replicate 32 7) = some (List.replicate 32 7, some (List.replicate 32 7)) := by decide

end Gdnsd.Cookie
