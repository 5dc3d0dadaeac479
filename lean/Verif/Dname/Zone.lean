import Verif.Dname.Unesc
/- Proof helpers: comparison, in-zone test, concatenation, printing. -/
namespace Gdnsd.Dname
open DnameSpec

theorem memcmp_ok (a b : Bytes) (n : Nat) (ha : n ≤ a.length) (hb : n ≤ b.length) :
    ∃ r, memcmp a b n = .ok r ∧ (r = 0 ↔ a.take n = b.take n) := by
  induction n generalizing a b with
  | zero => exact ⟨0, by simp [memcmp], by simp⟩
  | succ n ih =>
    cases a with
    | nil => simp at ha
    | cons x xs =>
      cases b with
      | nil => simp at hb
      | cons y ys =>
        simp only [List.length_cons, Nat.add_le_add_iff_right] at ha hb
        simp only [memcmp, List.take_succ_cons]
        by_cases h : x = y
        · subst h
          obtain ⟨r, h1, h2⟩ := ih xs ys ha hb
          exact ⟨r, by simp [h1], by simp [h2]⟩
        · refine ⟨_, by rw [if_neg h], ?_⟩
          constructor
          · intro h'
            exfalso; apply h
            apply UInt8.toNat_inj.1; omega
          · intro h'; simp at h'; exact absurd h'.1 h

theorem take_app_succ {l : Bytes} {x : UInt8} {j : Bytes} {n : Nat} (h : n = l.length + 1) :
    (l ++ x :: j).take n = l ++ [x] := by
  subst h; rw [List.take_append, List.take_of_length_le (by omega)]; simp

/-- Bytes after the length byte of a stored name. -/
theorem encode_drop_one (ls : List Bytes) (q : Bool) (j : Bytes) :
    (encode ls q ++ j).drop 1 = wireLabels ls ++ (if q then 0 else 255) :: j := by
  simp [encode]

theorem boundaryWalk_spec (c : List Bytes) (hc : ∀ l ∈ c, 1 ≤ l.length ∧ l.length ≤ 63)
    (pre rest : Bytes) (target : Nat) (ht : target ≤ pre.length + (wireLabels c).length) :
    ∃ idx, boundaryWalk (pre ++ wireLabels c ++ rest) target pre.length = .ok idx ∧
      (idx = target ∨ (pre.length ≤ target ∧ target < idx) ∨ target < pre.length) ∧
      ((idx = target) ↔ ∃ x y, c = x ++ y ∧ pre.length + (wireLabels x).length = target) := by
  induction c generalizing pre with
  | nil =>
    simp [wireLabels] at ht
    rw [boundaryWalk]
    refine ⟨pre.length, by simp; omega, by omega, ?_⟩
    simp [wireLabels]
  | cons l ls ih =>
    by_cases hlt : pre.length < target
    · have hl := hc l (by simp)
      have hn : (UInt8.ofNat l.length).toNat = l.length := toNat_ofNat_lt (by omega)
      obtain ⟨idx, h1, h2, h3⟩ := ih (fun x hx => hc x (by simp [hx])) (pre ++ UInt8.ofNat l.length :: l)
        (by simp [wireLabels] at ht ⊢; omega)
      refine ⟨idx, ?_, ?_, ?_⟩
      · rw [boundaryWalk, dif_pos hlt]
        have e : pre ++ wireLabels (l :: ls) ++ rest =
            pre ++ UInt8.ofNat l.length :: (l ++ wireLabels ls ++ rest) := by simp [wireLabels]
        have e2 : (pre ++ wireLabels (l :: ls) ++ rest)[pre.length]? = some (UInt8.ofNat l.length) := by
          rw [e]; simp
        rw [e2]
        simp only [hn]
        rw [← h1]
        congr 1
        · simp [wireLabels]
        · simp; omega
      · by_cases he : idx = target
        · exact .inl he
        · right; left
          refine ⟨by omega, ?_⟩
          rcases h2 with h2 | h2 | h2
          · exact absurd h2 he
          · exact h2.2
          · -- the walk stops immediately past the target
            rw [boundaryWalk, dif_neg (by omega)] at h1
            simp at h1 h2; omega
      · rw [h3]
        constructor
        · rintro ⟨x, y, rfl, hxy⟩
          exact ⟨l :: x, y, by simp, by simp [wireLabels] at hxy ⊢; omega⟩
        · rintro ⟨x, y, hxy, hl2⟩
          cases x with
          | nil => simp [wireLabels] at hl2; omega
          | cons a x =>
            simp at hxy
            obtain ⟨rfl, rfl⟩ := hxy
            exact ⟨x, y, rfl, by simp [wireLabels] at hl2 ⊢; omega⟩
    · rw [boundaryWalk, dif_neg hlt]
      refine ⟨_, rfl, by omega, ?_⟩
      constructor
      · intro h; exact ⟨[], l :: ls, rfl, by simpa [wireLabels] using h⟩
      · rintro ⟨x, y, _, h⟩; omega

theorem isInZone_eq (p c : List Bytes) (hp : WF p) (hc : WF c) (j1 j2 : Bytes) :
    isInZone (encode p true ++ j1) (encode c true ++ j2) = .ok (decide (p <:+ c)) := by
  have hlp := wireLabels_length p
  have hlc := wireLabels_length c
  unfold isInZone
  rw [status_encode _ _ _ hp, status_encode _ _ _ hc, rd_encode_zero, rd_encode_zero]
  simp only [Outcome.bind_ok, if_true, wireLen_toNat hp, wireLen_toNat hc, beq_self_eq_true, assert_true,
    decide_true, show (0 < wireLen p) from wireLen_pos p, show (0 < wireLen c) from wireLen_pos c]
  by_cases hgt : wireLen p > wireLen c
  · rw [if_pos hgt]
    have : ¬ p <:+ c := by
      rintro ⟨x, rfl⟩
      have := wireLen_append x p
      have := wireLen_pos x
      omega
    simp [this]
  rw [if_neg hgt, encode_drop_one, encode_drop_one]
  simp only [if_true]
  obtain ⟨r, hr1, hr2⟩ := memcmp_ok ((wireLabels c ++ 0 :: j2).drop (wireLen c - wireLen p)) (wireLabels p ++ 0 :: j1)
    (wireLen p) (by simp; omega) (by simp; omega)
  rw [hr1]
  simp only [Outcome.bind_ok]
  have hbw := boundaryWalk_spec c hc.1 [] (0 :: j2) (wireLen c - wireLen p) (by simp; omega)
  simp only [List.nil_append, List.length_nil, Nat.zero_add] at hbw
  obtain ⟨idx, hi1, _, hi2⟩ := hbw
  have hdrop : wireLen c - wireLen p ≤ (wireLabels c).length := by have := wireLen_pos p; omega
  have htp : (wireLabels p ++ 0 :: j1).take (wireLen p) = wireLabels p ++ [0] := by
    exact take_app_succ hlp.symm
  have htc : ((wireLabels c ++ 0 :: j2).drop (wireLen c - wireLen p)).take (wireLen p) =
      (wireLabels c).drop (wireLen c - wireLen p) ++ [0] := by
    rw [List.drop_append_of_le_length hdrop]
    exact take_app_succ (by simp; omega)
  rw [htp, htc] at hr2
  by_cases hr : r = 0
  · rw [if_neg (by simpa using hr), hi1]
    simp only [Outcome.bind_ok]
    congr 1
    rw [Bool.eq_iff_iff]
    simp only [beq_iff_eq, decide_eq_true_eq]
    rw [hi2]
    constructor
    · rintro ⟨x, y, rfl, hx⟩
      refine ⟨x, ?_⟩
      congr 1
      have h1 := hr2.1 hr
      rw [← hx, wireLabels_append, List.drop_left] at h1
      have hy := (WF_suffix hc (List.suffix_append x y))
      exact ((wireLabels_inj hy.1 hp.1 (by simp) (by simp) h1).1).symm
    · rintro ⟨x, rfl⟩
      refine ⟨x, p, rfl, ?_⟩
      have := wireLen_append x p
      have := wireLabels_length x
      omega
  · rw [if_pos (by simpa using hr)]
    congr 1
    symm
    simp only [decide_eq_false_iff_not]
    rintro ⟨x, rfl⟩
    apply hr; rw [hr2]
    have h1 := wireLen_append x p
    have h2 := wireLabels_length x
    have : wireLen (x ++ p) - wireLen p = (wireLabels x).length := by omega
    rw [this, wireLabels_append, List.drop_left]

theorem dropZone_eq (x z : List Bytes) (h : WF (x ++ z)) (j1 j2 : Bytes) :
    dropZone (encode (x ++ z) true ++ j1) (encode z true ++ j2) = .ok (encode x true) := by
  have hz : WF z := WF_suffix h (List.suffix_append x z)
  have hlx := wireLabels_length x
  have hlz := wireLabels_length z
  have hl := wireLen_append x z
  unfold dropZone
  rw [status_encode _ _ _ h, status_encode _ _ _ hz, rd_encode_zero, rd_encode_zero]
  have hle : wireLen z ≤ wireLen (x ++ z) := by have := wireLen_pos x; omega
  simp only [Outcome.bind_ok, if_true, wireLen_toNat h, wireLen_toNat hz, beq_self_eq_true, assert_true,
    decide_true, hle]
  have hnt : wireLen (x ++ z) - (wireLen z - 1) = wireLen x := by have := wireLen_pos z; omega
  rw [hnt]
  have e1 : encode (x ++ z) true ++ j1 =
      (UInt8.ofNat (wireLen (x ++ z)) :: wireLabels x) ++ (wireLabels z ++ 0 :: j1) := by
    simp [encode, wireLabels_append]
  have e2 : encode z true ++ j2 = [UInt8.ofNat (wireLen z)] ++ (wireLabels z ++ 0 :: j2) := by
    simp [encode]
  have hrd : rd (encode (x ++ z) true ++ j1) (wireLen x) = rd (wireLabels z ++ 0 :: j1) 0 := by
    rw [e1]
    have := rd_append_right (UInt8.ofNat (wireLen (x ++ z)) :: wireLabels x) (wireLabels z ++ 0 :: j1) 0
    rw [← this]; congr 1; simp; omega
  have hrd2 : rd (encode z true ++ j2) 1 = rd (wireLabels z ++ 0 :: j2) 0 := by
    rw [e2]; exact rd_append_right _ _ 0
  have hsame : rd (wireLabels z ++ 0 :: j1) 0 = rd (wireLabels z ++ 0 :: j2) 0 := by
    cases hz : wireLabels z <;> simp
  rw [hrd, hrd2, hsame]
  have : ∃ b, rd (wireLabels z ++ 0 :: j2) 0 = .ok b := by cases hz : wireLabels z <;> simp
  obtain ⟨b, hb⟩ := this
  rw [hb]
  simp only [Outcome.bind_ok, beq_self_eq_true, assert_true]
  congr 1
  rw [e1, ← hlx, List.take_append, List.take_of_length_le (by simp)]
  simp [encode, hlx]

theorem cat_eq (a b : List Bytes) (p q : Bool) (ha : WF a) (hb : WF b) (j1 j2 : Bytes) :
    cat (encode a p ++ j1) (encode b q ++ j2) =
      if wireLen (a ++ b) ≤ 255 then
        .ok (if q then .valid else .partialName, encode (a ++ b) q)
      else .ok (.invalid, encode a p ++ j1) := by
  have hla := wireLabels_length a
  have hlb := wireLabels_length b
  have hl := wireLen_append a b
  have hpa := wireLen_pos a
  have hpb := wireLen_pos b
  have hsa : ∀ q : Bool, (((if q then Status.valid else .partialName) != .invalid) = true) := by
    intro q; cases q <;> rfl
  unfold cat
  rw [status_encode _ _ _ ha, status_encode _ _ _ hb, rd_encode_zero, rd_encode_zero]
  simp only [Outcome.bind_ok, wireLen_toNat ha, wireLen_toNat hb, hsa, assert_true]
  have hfin : wireLen a + wireLen b - 1 = wireLen (a ++ b) := by omega
  rw [hfin]
  by_cases hs : wireLen (a ++ b) ≤ 255
  · rw [if_pos (by omega), if_pos hs, if_pos (by simp [encode_length]; omega)]
    have e : UInt8.ofNat (wireLen (a ++ b)) :: ((encode a p ++ j1).take (wireLen a)).drop 1 ++
        ((encode b q ++ j2).drop 1).take (wireLen b) = encode (a ++ b) q := by
      rw [encode_drop_one, take_app_succ hlb.symm]
      have : (encode a p ++ j1).take (wireLen a) = UInt8.ofNat (wireLen a) :: wireLabels a := by
        simp only [encode, List.cons_append, List.append_assoc]
        rw [← List.cons_append, ← hla, List.take_append, List.take_of_length_le (by simp)]; simp
      rw [this]
      simp [encode, wireLabels_append]
    simp only [e]
    have e3 : encode (a ++ b) q = (UInt8.ofNat (wireLen (a ++ b)) :: wireLabels (a ++ b)) ++
        (if q then 0 else 255) :: [] := by simp [encode]
    have hw := wireLabels_length (a ++ b)
    rw [show rd (encode (a ++ b) q) (wireLen (a ++ b)) = .ok (if q then 0 else 255) by
      rw [e3]; exact rd_at _ _ _ _ (by simp; omega)]
    cases q <;> simp
  · rw [if_neg (by omega), if_neg hs]

theorem cmp_eq (a b : List Bytes) (p q : Bool) (ha : WF a) (hb : WF b) (j1 j2 : Bytes) :
    ∃ r, cmp (encode a p ++ j1) (encode b q ++ j2) = .ok r ∧ (r = 0 ↔ (a = b ∧ p = q)) := by
  have hla := wireLabels_length a
  have hlb := wireLabels_length b
  have hsa : ∀ q : Bool, (((if q then Status.valid else .partialName) != .invalid) = true) := by
    intro q; cases q <;> rfl
  unfold cmp
  rw [status_encode _ _ _ ha, status_encode _ _ _ hb, rd_encode_zero, rd_encode_zero]
  simp only [Outcome.bind_ok, wireLen_toNat ha, wireLen_toNat hb, hsa, assert_true]
  by_cases he : ((wireLen a : Int) - wireLen b) = 0
  · rw [if_pos he, encode_drop_one, encode_drop_one]
    obtain ⟨r, h1, h2⟩ := memcmp_ok (wireLabels a ++ (if p then 0 else 255) :: j1)
      (wireLabels b ++ (if q then 0 else 255) :: j2) (wireLen a) (by simp; omega) (by simp; omega)
    refine ⟨r, h1, h2.trans ?_⟩
    have hlen : wireLen b = wireLen a := by omega
    have t1 : (wireLabels a ++ (if p then (0 : UInt8) else 255) :: j1).take (wireLen a) = wireLabels a ++ [if p then 0 else 255] := by
      rw [← hla, List.take_append, List.take_of_length_le (by omega)]; simp
    have t2 : (wireLabels b ++ (if q then (0 : UInt8) else 255) :: j2).take (wireLen a) = wireLabels b ++ [if q then 0 else 255] := by
      rw [← hlen, ← hlb, List.take_append, List.take_of_length_le (by omega)]; simp
    rw [t1, t2]
    constructor
    · intro h
      obtain ⟨e1, e2, _⟩ := wireLabels_inj ha.1 hb.1 (by cases p <;> simp) (by cases q <;> simp) h
      refine ⟨e1, ?_⟩
      cases p <;> cases q <;> simp at e2 ⊢
    · rintro ⟨rfl, rfl⟩; rfl
  · refine ⟨_, by rw [if_neg he], ?_⟩
    constructor
    · intro h; exact absurd h he
    · rintro ⟨rfl, rfl⟩; simp at he

end Gdnsd.Dname
