/-
Streams of requests.
-/
import Verif.Stream.Spec
namespace Gdnsd.Stream

theorem frame_len (q : Bytes) : (frame q).length = q.length + 2 := by simp [frame]

/-- The two bytes of the size. -/
theorem frame_form (hi lo : UInt8) (q : Bytes) (h : q.length = 256 * hi.toNat + lo.toNat) : frame q = hi :: lo :: q := by
  have h1 := hi.toNat_lt
  have h2 := lo.toNat_lt
  have e1 : q.length / 256 = hi.toNat := by omega
  have e2 : q.length % 256 = lo.toNat := by omega
  simp [frame, e1, e2]

theorem frame_split (q : Bytes) (h : Legal q) : ∃ hi lo : UInt8, q.length = 256 * hi.toNat + lo.toNat ∧ frame q = hi :: lo :: q := by
  refine ⟨UInt8.ofNat (q.length / 256), UInt8.ofNat (q.length % 256), ?_, rfl⟩
  obtain ⟨h1, h2⟩ := h
  rw [UInt8.toNat_ofNat', UInt8.toNat_ofNat', Nat.mod_eq_of_lt (a := q.length / 256) (by omega), Nat.mod_eq_of_lt (a := q.length % 256) (by omega)]
  omega

theorem byte_eq (a b : UInt8) (h : a.toNat = b.toNat) : a = b := UInt8.toNat_inj.mp h

/-- A stream starts with one frame at most. -/
theorem frame_inj (q q' t u : Bytes) (h : Legal q) (h' : Legal q') (he : frame q ++ t = frame q' ++ u) : q = q' ∧ t = u := by
  obtain ⟨hi, lo, e1, e2⟩ := frame_split q h
  obtain ⟨hi', lo', e1', e2'⟩ := frame_split q' h'
  rw [e2, e2'] at he
  simp only [List.cons_append, List.cons.injEq] at he
  obtain ⟨g1, g2, g3⟩ := he
  subst g1 g2
  have hl : q.length = q'.length := by omega
  exact ⟨List.append_inj_left g3 hl, List.append_inj_right g3 hl⟩

theorem inc_nil : Incomplete [] := ⟨List.replicate 12 0, frame (List.replicate 12 0), ⟨by simp, by simp⟩, rfl, by simp [frame]⟩

theorem inc_one (hi : UInt8) (h : 256 * hi.toNat ≤ 1024) : Incomplete [hi] := by
  have hx := hi.toNat_lt
  by_cases h0 : hi.toNat = 0
  · have hl : (List.replicate 12 (0 : UInt8)).length = 256 * hi.toNat + (12 : UInt8).toNat := by rw [h0]; rfl
    exact ⟨List.replicate 12 0, 12 :: List.replicate 12 0, ⟨by simp, by simp⟩, by rw [frame_form hi 12 _ hl]; rfl, by simp⟩
  · have hl : (List.replicate (256 * hi.toNat) (0 : UInt8)).length = 256 * hi.toNat + (0 : UInt8).toNat := by simp
    exact ⟨List.replicate (256 * hi.toNat) 0, 0 :: List.replicate (256 * hi.toNat) 0, ⟨by simp; omega, by simpa using h⟩,
      by rw [frame_form hi 0 _ hl]; rfl, by simp⟩

theorem inc_two (hi lo : UInt8) (r : Bytes) (h1 : 12 ≤ 256 * hi.toNat + lo.toNat) (h2 : 256 * hi.toNat + lo.toNat ≤ 1024)
    (h3 : r.length < 256 * hi.toNat + lo.toNat) : Incomplete (hi :: lo :: r) := by
  have hl : (r ++ List.replicate (256 * hi.toNat + lo.toNat - r.length) (0 : UInt8)).length = 256 * hi.toNat + lo.toNat := by simp; omega
  refine ⟨r ++ List.replicate (256 * hi.toNat + lo.toNat - r.length) 0, List.replicate (256 * hi.toNat + lo.toNat - r.length) 0, ⟨by omega, by omega⟩, ?_, ?_⟩
  · rw [frame_form hi lo _ hl]; simp
  · intro hc
    have := congrArg List.length hc
    simp at this
    omega

theorem ill_one (hi : UInt8) (r : Bytes) (h : 1024 < 256 * hi.toNat) : Illegal (hi :: r) := by
  intro q t u hq he
  obtain ⟨a, b, e1, e2⟩ := frame_split q hq
  rw [e2] at he
  simp only [List.cons_append, List.cons.injEq] at he
  have := he.1
  subst this
  have := hq.2
  omega

theorem ill_two (hi lo : UInt8) (r : Bytes) (h : 256 * hi.toNat + lo.toNat < 12 ∨ 1024 < 256 * hi.toNat + lo.toNat) : Illegal (hi :: lo :: r) := by
  intro q t u hq he
  obtain ⟨a, b, e1, e2⟩ := frame_split q hq
  rw [e2] at he
  simp only [List.cons_append, List.cons.injEq] at he
  obtain ⟨h1, h2, _⟩ := he
  subst h1 h2
  obtain ⟨h3, h4⟩ := hq
  omega

/-- The three kinds of data exclude each other. -/
theorem inc_not_ill {r : Bytes} (h : Incomplete r) : ¬Illegal r := by
  obtain ⟨q, t, h1, h2, _⟩ := h
  exact fun hc => hc q [] t h1 (by simp [h2])

theorem inc_not_full {q t : Bytes} (h : Incomplete (frame q ++ t)) (hq : Legal q) : False := by
  obtain ⟨q', t', h1, h2, h3⟩ := h
  have he : frame q' ++ [] = frame q ++ (t ++ t') := by simp [h2]
  obtain ⟨_, h5⟩ := frame_inj q' q [] (t ++ t') h1 hq he
  exact h3 (List.append_eq_nil_iff.mp h5.symm).2

theorem ill_not_full {q t : Bytes} (h : Illegal (frame q ++ t)) (hq : Legal q) : False := h q t [] hq (by simp)

theorem ill_append {r : Bytes} (s : Bytes) (h : Illegal r) : Illegal (r ++ s) := by
  intro q t u hq he
  exact h q t (s ++ u) hq (by rw [he]; simp)

/-- Every data is one of the three. -/
theorem kinds (r : Bytes) : Incomplete r ∨ Illegal r ∨ ∃ q t, Legal q ∧ r = frame q ++ t := by
  match r with
  | [] => exact .inl inc_nil
  | [hi] =>
    by_cases h : 256 * hi.toNat ≤ 1024
    · exact .inl (inc_one hi h)
    · exact .inr (.inl (ill_one hi [] (by omega)))
  | hi :: lo :: r =>
    by_cases h : 256 * hi.toNat + lo.toNat < 12 ∨ 1024 < 256 * hi.toNat + lo.toNat
    · exact .inr (.inl (ill_two hi lo r h))
    · by_cases h2 : r.length < 256 * hi.toNat + lo.toNat
      · exact .inl (inc_two hi lo r (by omega) (by omega) h2)
      · refine .inr (.inr ⟨r.take (256 * hi.toNat + lo.toNat), r.drop (256 * hi.toNat + lo.toNat), ⟨?_, ?_⟩, ?_⟩)
        · simp; omega
        · simp; omega
        · rw [frame_form hi lo _ (by simp; omega)]
          simp

/-- A stream has one reading. -/
theorem parse_unique {s : Bytes} {qs qs' : List Bytes} {b b' : Bool} (h : Parse s qs b) (h' : Parse s qs' b') : qs = qs' ∧ b = b' := by
  induction h generalizing qs' b' with
  | more hi =>
    cases h' with
    | more _ => exact ⟨rfl, rfl⟩
    | bad hb => exact absurd hb (inc_not_ill hi)
    | req hq _ => exact (inc_not_full hi hq).elim
  | bad hb =>
    cases h' with
    | more hi => exact absurd hb (inc_not_ill hi)
    | bad _ => exact ⟨rfl, rfl⟩
    | req hq _ => exact (ill_not_full hb hq).elim
  | @req q r qs b hq hr ih =>
    generalize hs : frame q ++ r = s at h'
    cases h' with
    | more hi => rw [← hs] at hi; exact (inc_not_full hi hq).elim
    | bad hb => rw [← hs] at hb; exact (ill_not_full hb hq).elim
    | @req q' r' qs'' b'' hq' hr' =>
      obtain ⟨e1, e2⟩ := frame_inj q q' r r' hq hq' hs
      subst e1 e2
      obtain ⟨e3, e4⟩ := ih hr'
      exact ⟨by rw [e3], e4⟩

/-- Every stream has a reading. -/
theorem parse_exists (s : Bytes) : ∃ qs b, Parse s qs b := by
  rcases kinds s with h | h | ⟨q, t, h1, h2⟩
  · exact ⟨[], false, .more h⟩
  · exact ⟨[], true, .bad h⟩
  · have : t.length < s.length := by rw [h2]; simp [frame_len]
    obtain ⟨qs, b, h3⟩ := parse_exists t
    exact ⟨q :: qs, b, h2 ▸ .req h1 h3⟩
termination_by s.length

theorem parse_frames (rs : List Bytes) (h : ∀ q ∈ rs, Legal q) {r : Bytes} {qs : List Bytes} {b : Bool} (hp : Parse r qs b) :
    Parse ((rs.map frame).flatten ++ r) (rs ++ qs) b := by
  induction rs with
  | nil => exact hp
  | cons q rs ih =>
    rw [List.map_cons, List.flatten_cons, List.append_assoc, List.cons_append]
    exact .req (h q (by simp)) (ih fun x hx => h x (List.mem_cons_of_mem _ hx))

/-- An illegal size stays one, whatever follows. -/
theorem parse_bad_append {s : Bytes} {qs : List Bytes} {b : Bool} (h : Parse s qs b) (hb : b = true) (u : Bytes) : Parse (s ++ u) qs true := by
  induction h with
  | more _ => cases hb
  | bad h => exact .bad (ill_append u h)
  | req hq _ ih => rw [List.append_assoc]; exact .req hq (ih hb)

end Gdnsd.Stream
