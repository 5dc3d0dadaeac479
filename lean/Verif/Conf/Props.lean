/-
C82: options. C83: listeners and control addresses.
-/
import Verif.Conf.ListenLemmas
namespace Gdnsd.Conf
open Vscf VscfSpec ConfSpec

/-! ### Data from files -/

theorem cleanOf_append : ∀ {es fs}, CleanOf es → CleanOf fs → CleanOf (es ++ fs)
  | _, _, .nil, h => h
  | _, _, .cons h hs, h' => .cons h (cleanOf_append hs h')

mutual

theorem value_clean {env : Env} {touch : Bool} : ∀ {fn x k v}, Value env touch fn x k v → Clean v
  | _, _, _, _, .word _ => .simple
  | _, _, _, _, .array h => .array (values_clean h)
  | _, _, _, _, .hash h hn => .hash hn (assigns_clean h)
  | _, _, _, _, .incl _ h => file_clean h

theorem values_clean {env : Env} {touch : Bool} : ∀ {fn t vs}, Values env touch fn t vs → Cleans vs
  | _, _, _, .nil _ => .nil
  | _, _, _, .cons _ h _ _ hs _ => .cons (value_clean h) (values_clean hs)

theorem assigns_clean {env : Env} {touch : Bool} : ∀ {fn t es}, Assigns env touch fn t es → CleanOf es
  | _, _, _, .nil _ => .nil
  | _, _, _, .cons _ _ _ _ _ h _ _ hs _ => .cons (value_clean h) (assigns_clean hs)
  | _, _, _, .merge _ _ h _ _ hs => cleanOf_append (merged_clean h) (assigns_clean hs)

theorem merged_clean {env : Env} {touch : Bool} : ∀ {ps es}, Merged env touch ps es → CleanOf es
  | _, _, .nil => .nil
  | _, _, .cons (.mk _ (.hash h _)) hs => cleanOf_append (assigns_clean h) (merged_clean hs)

theorem file_clean {env : Env} {touch : Bool} : ∀ {p v}, File env touch p v → Clean v
  | _, _, .mk _ (.hash h hn) => .hash hn (assigns_clean h)
  | _, _, .mk _ (.array _ h _) => .array (values_clean h)

end

/-- What is read from files meets what the theorems below need of it. -/
theorem C82_files {env : Env} {touch : Bool} {p : Bytes} {v : Val} (h : File env touch p v) : Clean v := file_clean h

/-! ### The answer to CHAOS queries and the NSID -/

theorem setChaos_iff {d w : Bytes} : setChaos d = some w ↔ d.length ≤ 254 ∧ w = chaosRecord d := by
  unfold setChaos
  have e : d.length ≤ 254 → chaosPrefix ++ [0, (d.length + 1).toUInt8, d.length.toUInt8] ++ d = chaosRecord d := by
    intro h
    have h1 : (d.length + 1) / 256 = 0 := by omega
    have h2 : (d.length + 1) % 256 = d.length + 1 := by omega
    simp only [chaosRecord, charString, List.length_cons, h1, h2, chaosPrefix]
    rfl
  by_cases h : d.length > 254
  · rw [if_pos h]
    simp only [reduceCtorEq, false_iff, not_and]
    omega
  · rw [if_neg h]
    simp only [Option.some.injEq]
    rw [e (by omega)]
    constructor
    · rintro rfl; exact ⟨by omega, rfl⟩
    · rintro ⟨_, rfl⟩; rfl

theorem ahex_table : ∀ c : UInt8, hexDigits.contains c = ((digitVal c).any (· < 16)) ∧
    (hexDigits.contains c = true → ahexAt c = .ok (UInt8.ofNat ((digitVal c).getD 0)) ∧ (digitVal c).getD 0 < 16) := by
  have : ∀ n : Fin 256, hexDigits.contains (UInt8.ofNat n.val) = ((digitVal (UInt8.ofNat n.val)).any (· < 16)) ∧
    (hexDigits.contains (UInt8.ofNat n.val) = true → ahexAt (UInt8.ofNat n.val) = .ok (UInt8.ofNat ((digitVal (UInt8.ofNat n.val)).getD 0)) ∧
      (digitVal (UInt8.ofNat n.val)).getD 0 < 16) := by decide +kernel
  intro c
  have h := this ⟨c.toNat, c.toNat_lt⟩
  simpa using h

theorem hexDigit_iff {c : UInt8} : hexDigits.contains c = true ↔ ∃ x, IsDigit 16 c x := by
  rw [(ahex_table c).1]
  constructor
  · intro h
    cases hd : digitVal c with
    | none => rw [hd] at h; cases h
    | some x => rw [hd] at h; exact ⟨x, digitVal_some.mp ⟨hd, by simpa using h⟩⟩
  · rintro ⟨x, h⟩
    obtain ⟨h1, h2⟩ := digitVal_some.mpr h
    simp [h1, h2]

theorem ahexAt_eq {c : UInt8} {x : Nat} (h : IsDigit 16 c x) : ahexAt c = .ok (UInt8.ofNat x) := by
  have h1 := ((ahex_table c).2 (hexDigit_iff.mpr ⟨x, h⟩)).1
  rw [(digitVal_some.mpr h).1] at h1
  exact h1

theorem nibbles {x y : Nat} (hx : x < 16) (hy : y < 16) : (UInt8.ofNat x <<< 4) ||| UInt8.ofNat y = UInt8.ofNat (x * 16 + y) := by
  have : ∀ (i j : Fin 16), (UInt8.ofNat i.val <<< 4) ||| UInt8.ofNat j.val = UInt8.ofNat (i.val * 16 + j.val) := by decide +kernel
  exact this ⟨x, hx⟩ ⟨y, hy⟩

theorem nsidBytes_hex {t b : Bytes} (h : Hex t b) : nsidBytes t = .ok b := by
  induction h with
  | nil => rfl
  | cons h1 h2 h3 ih =>
    simp only [nsidBytes, ahexAt_eq h1, ahexAt_eq h2, Outcome.bind_ok, ih, Outcome.map, nibbles h1.1 h2.1]

theorem hex_exists : ∀ (t : Bytes), t.length % 2 = 0 → (∀ c ∈ t, ∃ x, IsDigit 16 c x) → ∃ b, Hex t b ∧ t.length = 2 * b.length
  | [], _, _ => ⟨[], .nil, rfl⟩
  | [_], h, _ => by simp at h
  | a :: b :: r, h, hd => by
    obtain ⟨x, hx⟩ := hd a (by simp)
    obtain ⟨y, hy⟩ := hd b (by simp)
    obtain ⟨l, h1, h2⟩ := hex_exists r (by simp only [List.length_cons] at h; omega) (fun c hc => hd c (by simp [hc]))
    exact ⟨_, .cons hx hy h1, by simp only [List.length_cons]; omega⟩

theorem hex_facts {t b : Bytes} (h : Hex t b) : t.length = 2 * b.length ∧ ∀ c ∈ t, ∃ x, IsDigit 16 c x := by
  induction h with
  | nil => simp
  | cons h1 h2 h3 ih =>
    refine ⟨by simp only [List.length_cons]; omega, fun c hc => ?_⟩
    simp only [List.mem_cons] at hc
    rcases hc with rfl | rfl | hc
    · exact ⟨_, h1⟩
    · exact ⟨_, h2⟩
    · exact ih.2 c hc

theorem takeWhile_full {p : UInt8 → Bool} : ∀ {t : Bytes}, t.length = (t.takeWhile p).length ↔ ∀ c ∈ t, p c = true
  | [] => by simp
  | x :: t => by
    by_cases h : p x = true
    · simp [h, takeWhile_full (t := t)]
    · simp [h]

theorem setNsid_eq {t : Bytes} {o : Option Bytes} : setNsid t = .ok o ↔
    (∃ b, o = some b ∧ Hex t b ∧ b ≠ [] ∧ b.length ≤ 128) ∨ (o = none ∧ ¬ ∃ b, Hex t b ∧ b ≠ [] ∧ b.length ≤ 128) := by
  unfold setNsid
  by_cases h : t.length = 0 ∨ t.length > 256 ∨ t.length % 2 = 1 ∨ t.length ≠ (t.takeWhile fun c => hexDigits.contains c).length
  · rw [if_pos h]
    have hno : ¬ ∃ b, Hex t b ∧ b ≠ [] ∧ b.length ≤ 128 := by
      rintro ⟨b, h1, h2, h3⟩
      obtain ⟨h4, h5⟩ := hex_facts h1
      have : b.length ≠ 0 := fun h => h2 (List.length_eq_zero_iff.mp h)
      rcases h with h | h | h | h
      · omega
      · omega
      · omega
      · exact h (takeWhile_full.mpr fun c hc => hexDigit_iff.mpr (h5 c hc))
    constructor
    · intro h; cases h; exact Or.inr ⟨rfl, hno⟩
    · rintro (⟨b, _, h1, h2, h3⟩ | ⟨rfl, _⟩)
      · exact absurd ⟨b, h1, h2, h3⟩ hno
      · rfl
  · rw [if_neg h]
    simp only [not_or, Nat.not_lt, gt_iff_lt, ne_eq, Decidable.not_not] at h
    obtain ⟨h1, h2, h3, h4⟩ := h
    obtain ⟨b, hb, hl⟩ := hex_exists t (by omega) (fun c hc => hexDigit_iff.mp (takeWhile_full.mp h4 c hc))
    have hne : b ≠ [] := fun h => by rw [h] at hl; exact h1 hl
    simp only [nsidBytes_hex hb, Outcome.map]
    constructor
    · intro h; cases h; exact Or.inl ⟨b, rfl, hb, hne, by omega⟩
    · rintro (⟨b', rfl, h5, _⟩ | ⟨rfl, h5⟩)
      · have := nsidBytes_hex h5
        rw [nsidBytes_hex hb] at this
        cases this; rfl
      · exact absurd ⟨b, hb, hne, by omega⟩ h5

theorem setNsid_ok (t : Bytes) : ∃ o, setNsid t = .ok o := by
  by_cases h : ∃ b, Hex t b ∧ b ≠ [] ∧ b.length ≤ 128
  · obtain ⟨b, h1, h2, h3⟩ := h
    exact ⟨_, setNsid_eq.mpr (Or.inl ⟨b, rfl, h1, h2, h3⟩)⟩
  · exact ⟨_, setNsid_eq.mpr (Or.inr ⟨rfl, h⟩)⟩

theorem setNsidAscii_iff {t b : Bytes} : setNsidAscii t = some b ↔ b = t ∧ t ≠ [] ∧ t.length ≤ 128 ∧ ∀ c ∈ t, 32 ≤ c.toNat ∧ c.toNat ≤ 126 := by
  have e : (t.any fun c => c < 0x20 || c > 0x7E) = true ↔ ¬ ∀ c ∈ t, 32 ≤ c.toNat ∧ c.toNat ≤ 126 := by
    simp only [List.any_eq_true, Bool.or_eq_true, decide_eq_true_eq, Classical.not_forall]
    constructor
    · rintro ⟨c, hc, h⟩
      refine ⟨c, hc, fun h' => ?_⟩
      rcases h with h | h
      · have := UInt8.lt_iff_toNat_lt.mp h; simp at this; omega
      · have := UInt8.lt_iff_toNat_lt.mp h; simp at this; omega
    · rintro ⟨c, hc, h⟩
      refine ⟨c, hc, ?_⟩
      rcases Nat.lt_or_ge c.toNat 32 with h' | h'
      · exact Or.inl (UInt8.lt_iff_toNat_lt.mpr (by simpa using h'))
      · exact Or.inr (UInt8.lt_iff_toNat_lt.mpr (by simp; omega))
  unfold setNsidAscii
  by_cases h : t.length = 0 ∨ t.length > 128
  · rw [if_pos h]
    simp only [reduceCtorEq, false_iff]
    rintro ⟨_, h1, h2, _⟩
    have : t.length ≠ 0 := fun h => h1 (List.length_eq_zero_iff.mp h)
    omega
  · rw [if_neg h]
    have h1 : t ≠ [] := fun h' => h (Or.inl (by rw [h']; rfl))
    have h2 : t.length ≤ 128 := by omega
    by_cases ha : (t.any fun c => c < 0x20 || c > 0x7E) = true
    · rw [if_pos ha]
      have := e.mp ha
      simp only [reduceCtorEq, false_iff]
      rintro ⟨_, _, _, h⟩
      exact this h
    · rw [if_neg ha]
      have := Classical.not_not.mp (fun h => ha (e.mpr h))
      simp only [Option.some.injEq]
      exact ⟨fun h => ⟨h.symm, h1, h2, this⟩, fun h => h.1.symm⟩

/-- How `confRest` ends. -/
theorem confRest_iff {force : Bool} {c c' : Cfg} {ch : Bytes} {x y : Option Bytes} (hc : c.nsid = none) :
    confRest force c ch x y = .ok (some c') ↔
      ∃ n, Nsid x y n ∧ ch.length ≤ 254 ∧ c' = { c with chaos := chaosRecord ch, nsid := n, zonesStrictData := force || c.zonesStrictData } := by
  have he : ∀ n : Option Bytes, ({ (if force = true then { c with zonesStrictData := true } else c) with chaos := chaosRecord ch, nsid := n } : Cfg) =
      { c with chaos := chaosRecord ch, nsid := n, zonesStrictData := force || c.zonesStrictData } := by
    intro n; cases force <;> rfl
  unfold confRest
  dsimp only
  cases hs : setChaos ch with
  | none =>
    simp only [Outcome.ok.injEq, reduceCtorEq, false_iff]
    rintro ⟨n, _, h, _⟩
    have := setChaos_iff.mpr ⟨h, rfl⟩
    rw [hs] at this; cases this
  | some w =>
    obtain ⟨hl, rfl⟩ := setChaos_iff.mp hs
    match x, y with
    | some a, some b =>
      simp only [Option.isSome_some, and_self, if_true, Outcome.ok.injEq, reduceCtorEq, false_iff]
      rintro ⟨n, h, _⟩
      cases h
    | none, none =>
      simp only [Option.isSome_none, Bool.false_eq_true, and_self, if_false, nsidHex, nsidText, Outcome.map, Option.bind_some, Option.map_some, Outcome.ok.injEq,
        Option.some.injEq, he]
      constructor
      · rintro rfl; exact ⟨none, .none, hl, rfl⟩
      · rintro ⟨n, h, _, rfl⟩; cases h; rfl
    | none, some b =>
      simp only [Option.isSome_none, Bool.false_eq_true, false_and, if_false, nsidHex, nsidText, Outcome.map, Option.bind_some, Outcome.ok.injEq,
        Option.map_eq_some_iff, he]
      constructor
      · rintro ⟨n, ⟨m, hm, rfl⟩, rfl⟩
        obtain ⟨rfl, h1, h2, h3⟩ := setNsidAscii_iff.mp hm
        exact ⟨_, .ascii h1 h2 h3, hl, rfl⟩
      · rintro ⟨n, h, _, rfl⟩
        cases h with
        | ascii h1 h2 h3 => exact ⟨_, ⟨b, setNsidAscii_iff.mpr ⟨rfl, h1, h2, h3⟩, rfl⟩, rfl⟩
    | some a, none =>
      obtain ⟨o, ho⟩ := setNsid_ok a
      simp only [Option.isSome_none, Bool.false_eq_true, and_false, if_false, nsidHex, ho, nsidText, Outcome.map, Outcome.ok.injEq,
        Option.bind_eq_some_iff, Option.map_eq_some_iff, Option.some.injEq, he]
      constructor
      · rintro ⟨n, ⟨m, rfl, rfl⟩, n', rfl, rfl⟩
        rcases setNsid_eq.mp ho with ⟨b, hb, h1, h2, h3⟩ | ⟨h1, _⟩
        · cases hb; exact ⟨_, .hex h2 h3 h1, hl, rfl⟩
        · cases h1
      · rintro ⟨n, h, _, rfl⟩
        cases h with
        | hex h1 h2 h3 =>
          have := setNsid_eq.mpr (Or.inl ⟨_, rfl, h3, h1, h2⟩)
          rw [ho] at this
          cases this
          exact ⟨_, ⟨_, rfl, rfl⟩, _, rfl, rfl⟩

theorem confRest_ok (force : Bool) (c : Cfg) (ch : Bytes) (x y : Option Bytes) : ∃ r, confRest force c ch x y = .ok r := by
  unfold confRest
  dsimp only
  cases setChaos ch with
  | none => exact ⟨_, rfl⟩
  | some w =>
    dsimp only
    split
    · exact ⟨_, rfl⟩
    · have : ∃ o, nsidHex x = .ok o := by
        cases x with
        | none => exact ⟨_, rfl⟩
        | some t =>
          obtain ⟨o, ho⟩ := setNsid_ok t
          simp only [nsidHex, ho, Outcome.map]
          exact ⟨_, rfl⟩
      obtain ⟨o, ho⟩ := this
      rw [ho]
      exact ⟨_, rfl⟩

end Gdnsd.Conf
