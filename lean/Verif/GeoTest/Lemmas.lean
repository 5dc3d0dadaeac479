/-
Lemmas about lines, lists and masks.
-/
import Verif.GeoTest.Spec
namespace Gdnsd.GeoTest
open GeoTestSpec

theorem fgets_line {l : Bytes} (r : Bytes) (h : ∀ c ∈ l, c ≠ 10) : ∀ {k : Nat}, l.length < k → fgets k (l ++ 10 :: r) = (l ++ [10], r) := by
  induction l with
  | nil =>
    intro k hk
    cases k with
    | zero => cases hk
    | succ k => simp [fgets]
  | cons c l ih =>
    intro k hk
    cases k with
    | zero => cases hk
    | succ k =>
      have := ih (fun x hx => h x (by simp [hx])) (k := k) (by simpa using hk)
      have hc := h c (by simp)
      simp [fgets, this, hc]

theorem word_plain {w : Bytes} (r : Bytes) (h : ∀ c ∈ w, blank c = false) (hr : r = [] ∨ ∃ c t, r = c :: t ∧ blank c = true) : ∀ {k : Nat}, w.length ≤ k → word k (w ++ r) = (w, r) := by
  induction w with
  | nil =>
    intro k _
    cases k with
    | zero => simp [word]
    | succ k =>
      rcases hr with rfl | ⟨c, t, rfl, hb⟩
      · simp [word]
      · simp [word, hb]
  | cons c w ih =>
    intro k hk
    cases k with
    | zero => cases hk
    | succ k =>
      have := ih (fun x hx => h x (by simp [hx])) (k := k) (by simpa using hk)
      have hc := h c (by simp)
      simp [word, this, hc]

/-- What a word is. -/
theorem word_sound : ∀ (k : Nat) (l : Bytes), l = (word k l).1 ++ (word k l).2 ∧ (∀ c ∈ (word k l).1, blank c = false) ∧ (word k l).1.length ≤ k ∧
    ((word k l).1.length < k → (word k l).2 = [] ∨ ∃ c t, (word k l).2 = c :: t ∧ blank c = true)
  | 0, l => by simp [word]
  | k + 1, [] => by simp [word]
  | k + 1, c :: l => by
    obtain ⟨h1, h2, h3, h4⟩ := word_sound k l
    unfold word
    by_cases hb : blank c = true
    · rw [if_pos hb]
      exact ⟨by simp, by simp, by simp, fun _ => .inr ⟨c, l, rfl, hb⟩⟩
    · rw [if_neg hb]
      refine ⟨?_, ?_, ?_, ?_⟩
      · show c :: l = c :: ((word k l).1 ++ (word k l).2)
        rw [← h1]
      · intro x hx
        rcases List.mem_cons.mp hx with rfl | hx
        · simpa using hb
        · exact h2 x hx
      · simpa using h3
      · intro hl
        exact h4 (by simpa using hl)

theorem plain_blank {c : UInt8} (h : c.toNat > 32) : blank c = false ∧ space c = false ∧ c ≠ 0 ∧ c ≠ 10 := by
  refine ⟨?_, ?_, ?_, ?_⟩
  · simp only [blank, Bool.or_eq_false_iff, beq_eq_false_iff_ne]
    refine ⟨⟨?_, ?_⟩, ?_⟩ <;> (rintro rfl; revert h; decide)
  · simp only [space, Bool.or_eq_false_iff, beq_eq_false_iff_ne, Bool.and_eq_false_iff, decide_eq_false_iff_not]
    refine ⟨by rintro rfl; revert h; decide, ?_⟩
    right; omega
  · rintro rfl; revert h; decide
  · rintro rfl; revert h; decide

theorem gap_space {c : UInt8} (h : c = 32 ∨ c = 9) : blank c = true ∧ space c = true ∧ c ≠ 0 ∧ c ≠ 10 := by
  rcases h with rfl | rfl <;> decide

theorem dropWhile_gap {g : Bytes} (h : ∀ c ∈ g, space c = true) {r : Bytes} (hr : ∃ c t, r = c :: t ∧ space c = false) : (g ++ r).dropWhile space = r := by
  induction g with
  | nil =>
    obtain ⟨c, t, rfl, hc⟩ := hr
    simp [List.dropWhile, hc]
  | cons c g ih =>
    have hc := h c (by simp)
    simp [List.dropWhile, hc]
    exact ih fun x hx => h x (by simp [hx])

theorem dropWhile_split : ∀ (l : Bytes), ∃ g, l = g ++ l.dropWhile space ∧ ∀ c ∈ g, space c = true
  | [] => ⟨[], by simp⟩
  | c :: l => by
    obtain ⟨g, h1, h2⟩ := dropWhile_split l
    cases hc : space c with
    | true =>
      refine ⟨c :: g, ?_, ?_⟩
      · simp [List.dropWhile, hc]
        exact h1
      · intro x hx
        rcases List.mem_cons.mp hx with rfl | hx
        · exact hc
        · exact h2 x hx
    | false => exact ⟨[], by simp [List.dropWhile, hc], by simp⟩

theorem scan_line {l : Line} (h : l.Wf) (hm : l.map.length ≤ 127) (ha : l.addr.length ≤ 127) : scan l.text = some (l.map, l.addr) := by
  have hz : ∀ c ∈ l.map ++ l.gap ++ l.addr, (c != 0) = true := by
    intro c hc
    simp only [List.mem_append] at hc
    rcases hc with (hc | hc) | hc
    · simpa using (plain_blank (h.map.2 c hc)).2.2.1
    · simpa using (gap_space (h.gap.1 c hc)).2.2.1
    · simpa using (plain_blank (h.addr.2 c hc)).2.2.1
  obtain ⟨t, ht, htb⟩ : ∃ t, (l.tail ++ [10]).takeWhile (fun c => c != 0) = t ∧ (t = [] ∨ ∃ c r, t = c :: r ∧ blank c = true) := by
    refine ⟨_, rfl, ?_⟩
    right
    rcases h.tail with hn | ⟨c, r, hr, hc, -⟩
    · rw [hn]
      exact ⟨10, [], by decide, by decide⟩
    · rw [hr]
      have := gap_space hc
      refine ⟨c, (r ++ [10]).takeWhile (fun c => c != 0), ?_, this.1⟩
      simp [List.takeWhile, this.2.2.1]
  have hl : l.text.takeWhile (fun c => c != 0) = l.map ++ (l.gap ++ (l.addr ++ t)) := by
    unfold Line.text
    rw [List.append_assoc (l.map ++ l.gap ++ l.addr), List.takeWhile_append_of_pos hz, ht]
    simp
  obtain ⟨g, gs, hg⟩ : ∃ g gs, l.gap = g :: gs := by
    cases hg : l.gap with
    | nil => exact absurd hg h.gap.2
    | cons g gs => exact ⟨g, gs, rfl⟩
  obtain ⟨b, bs, hb⟩ : ∃ b bs, l.addr = b :: bs := by
    cases hb : l.addr with
    | nil => exact absurd hb h.addr.1
    | cons b bs => exact ⟨b, bs, rfl⟩
  have w1 : word 127 (l.map ++ (l.gap ++ (l.addr ++ t))) = (l.map, l.gap ++ (l.addr ++ t)) :=
    word_plain _ (fun c hc => (plain_blank (h.map.2 c hc)).1) (.inr ⟨g, gs ++ (l.addr ++ t), by rw [hg]; rfl, (gap_space (h.gap.1 g (by rw [hg]; simp))).1⟩) hm
  have w2 : (l.gap ++ (l.addr ++ t)).dropWhile space = l.addr ++ t :=
    dropWhile_gap (fun c hc => (gap_space (h.gap.1 c hc)).2.1) ⟨b, bs ++ t, by rw [hb]; rfl, (plain_blank (h.addr.2 b (by rw [hb]; simp))).2.1⟩
  have w3 : word 127 (l.addr ++ t) = (l.addr, t) := word_plain _ (fun c hc => (plain_blank (h.addr.2 c hc)).1) htb ha
  unfold scan
  dsimp only
  rw [hl, w1]
  dsimp only
  rw [if_neg h.map.1, w2, w3]
  dsimp only
  rw [if_neg h.addr.1]

theorem line_nonl {l : Line} (h : l.Wf) : ∀ c ∈ l.map ++ l.gap ++ l.addr ++ l.tail, c ≠ 10 := by
  intro c hc
  simp only [List.mem_append] at hc
  rcases hc with ((hc | hc) | hc) | hc
  · exact (plain_blank (h.map.2 c hc)).2.2.2
  · exact (gap_space (h.gap.1 c hc)).2.2.2
  · exact (plain_blank (h.addr.2 c hc)).2.2.2
  · rcases h.tail with hn | ⟨d, r, hr, hd, hx⟩
    · rw [hn] at hc; cases hc
    · rw [hr] at hc
      rcases List.mem_cons.mp hc with rfl | hc
      · exact (gap_space hd).2.2.2
      · exact hx c hc

theorem repl_line {l : Bytes} (h : ∀ c ∈ l, c ≠ 10) (hk : l.length < 254) (r : Bytes) : repl (l ++ 10 :: r) = scan (l ++ [10]) :: repl r := by
  have hf := fgets_line r h hk
  cases l with
  | nil =>
    rw [List.nil_append, repl]
    rw [List.nil_append] at hf
    rw [hf]
  | cons c l =>
    rw [List.cons_append, repl]
    rw [List.cons_append] at hf
    rw [hf]

/-! ### Lists -/

theorem joined_cons (a : Bytes) : ∀ l : List Bytes, joined (a :: l) = a ++ (l.map fun x => [44, 32] ++ x).flatten
  | [] => by simp [joined]
  | b :: l => by
    rw [joined, joined_cons b l]
    simp

theorem sized_rest (dcs : List Bytes) (r : Bytes) : ∀ (d : Bytes), (∀ n ∈ d, n ≠ 0) →
    sized dcs false (d ++ 0 :: r) = .ok ((d.map fun n => [44, 32] ++ dcName dcs n.toNat).flatten).length
  | [], _ => by simp [sized]
  | n :: d, h => by
    have hn := h n (by simp)
    have := sized_rest dcs r d fun x hx => h x (by simp [hx])
    rw [List.cons_append, sized, if_neg hn, this]
    simp
    omega

theorem written_rest (dcs : List Bytes) (r : Bytes) {cap : Nat} : ∀ (d buf : Bytes), (∀ n ∈ d, n ≠ 0) →
    buf.length + ((d.map fun n => [44, 32] ++ dcName dcs n.toNat).flatten).length + 1 ≤ cap →
    written dcs cap false buf (d ++ 0 :: r) = .ok (buf ++ (d.map fun n => [44, 32] ++ dcName dcs n.toNat).flatten ++ [0])
  | [], buf, _, hc => by
    simp at hc
    simp [written, put, hc]
  | n :: d, buf, h, hc => by
    have hn := h n (by simp)
    have hc' := hc
    simp only [List.map_cons, List.flatten_cons, List.length_append, List.length_cons, List.length_nil] at hc'
    have := written_rest dcs r (cap := cap) d (buf ++ [44, 32] ++ dcName dcs n.toNat) (fun x hx => h x (by simp [hx])) (by
      simp only [List.length_append, List.length_cons, List.length_nil]
      omega)
    rw [List.cons_append, written, if_neg hn]
    simp only [Bool.false_eq_true, if_false]
    have p1 : put cap buf [44, 32] = .ok (buf ++ [44, 32]) := by
      unfold put
      rw [if_pos (by simp; omega)]
    have p2 : put cap (buf ++ [44, 32]) (dcName dcs n.toNat) = .ok (buf ++ [44, 32] ++ dcName dcs n.toNat) := by
      unfold put
      rw [if_pos (by simp; omega)]
    rw [p1, Outcome.bind_ok, p2, Outcome.bind_ok, this]
    simp

theorem sized_ok (dcs : List Bytes) (r : Bytes) {d : Bytes} (h : ∀ n ∈ d, n ≠ 0) : sized dcs true (d ++ 0 :: r) = .ok (joined (d.map fun n => dcName dcs n.toNat)).length := by
  cases d with
  | nil => simp [sized, joined]
  | cons n d =>
    rw [List.cons_append, sized, if_neg (h n (by simp)), sized_rest dcs r d fun x hx => h x (by simp [hx]), List.map_cons, joined_cons]
    simp [List.map_map, Function.comp_def]

theorem written_ok (dcs : List Bytes) (r : Bytes) {d : Bytes} (h : ∀ n ∈ d, n ≠ 0) :
    written dcs ((joined (d.map fun n => dcName dcs n.toNat)).length + 1) true [] (d ++ 0 :: r) = .ok (joined (d.map fun n => dcName dcs n.toNat) ++ [0]) := by
  cases d with
  | nil => simp [written, joined, put]
  | cons n d =>
    rw [List.map_cons, joined_cons, List.cons_append, written, if_neg (h n (by simp))]
    simp only [if_true, Outcome.bind_ok]
    unfold put
    rw [if_pos (by simp; omega), Outcome.bind_ok, List.nil_append, written_rest dcs r d _ (fun x hx => h x (by simp [hx])) (by simp [List.map_map, Function.comp_def])]
    simp [List.map_map, Function.comp_def]

theorem logf_ok (dcs : List Bytes) (r : Bytes) {d : Bytes} (h : ∀ n ∈ d, n ≠ 0) {used : Nat} :
    logf dcs used (d ++ 0 :: r) = .ok (if (joined (d.map fun n => dcName dcs n.toNat)).length + 1 ≤ Util.fmtSize - used then some (joined (d.map fun n => dcName dcs n.toNat) ++ [0]) else none) := by
  unfold logf
  rw [sized_ok dcs r h, Outcome.bind_ok]
  unfold Util.fmtAlloc
  rw [if_neg (by omega)]
  by_cases hs : (joined (d.map fun n => dcName dcs n.toNat)).length + 1 ≤ Util.fmtSize - used
  · rw [if_pos hs, if_pos hs]
    dsimp only
    rw [written_ok dcs r h]
    rfl
  · rw [if_neg hs, if_neg hs]

/-! ### Masks -/

theorem bind_ok_inv {α β : Type} {o : Outcome α} {f : α → Outcome β} {b : β} (h : o.bind f = .ok b) : ∃ a, o = .ok a ∧ f a = .ok b := by
  cases o with
  | ok a => exact ⟨a, rfl, h⟩
  | ub => cases h

theorem assert_inv {c : Bool} (h : assert c = .ok ()) : c = true := by
  cases c with
  | true => rfl
  | false => cases h

theorem lookup4_mask (t : Geo.Tree) (ip : Nat) : ∀ (k chk off : Nat) {d m : Nat}, chk ≤ 32 → Geo.lookup4 t ip k chk off = .ok (d, m) → m ≤ 32 := by
  intro k
  induction k with
  | zero =>
    intro chk off d m hc h
    unfold Geo.lookup4 at h
    cases hd : Geo.isDc off with
    | true =>
      rw [hd, cond_true] at h
      obtain ⟨-, -, h⟩ := bind_ok_inv h
      cases h
      exact hc
    | false =>
      rw [hd, cond_false] at h
      cases h
  | succ k ih =>
    intro chk off d m hc h
    unfold Geo.lookup4 at h
    cases hd : Geo.isDc off with
    | true =>
      rw [hd, cond_true] at h
      obtain ⟨-, -, h⟩ := bind_ok_inv h
      cases h
      exact hc
    | false =>
      rw [hd, cond_false] at h
      cases hs : t.store[off]? with
      | none => rw [hs] at h; cases h
      | some n =>
        rw [hs] at h
        dsimp only at h
        obtain ⟨-, -, h⟩ := bind_ok_inv h
        obtain ⟨b, -, h⟩ := bind_ok_inv h
        obtain ⟨⟨⟩, ha, h⟩ := bind_ok_inv h
        have := of_decide_eq_true (assert_inv ha)
        exact ih _ _ (by omega) h

theorem lookup6_mask (t : Geo.Tree) (ip : Bytes) : ∀ (k chk off : Nat) {d m : Nat}, Geo.lookup6 t ip k chk off = .ok (d, m) → m ≤ 128 := by
  intro k
  induction k with
  | zero => intro chk off d m h; cases h
  | succ k ih =>
    intro chk off d m h
    unfold Geo.lookup6 at h
    cases hs : t.store[off]? with
    | none => rw [hs] at h; cases h
    | some n =>
      rw [hs] at h
      dsimp only at h
      obtain ⟨-, -, h⟩ := bind_ok_inv h
      obtain ⟨b, -, h⟩ := bind_ok_inv h
      obtain ⟨⟨⟩, ha, h⟩ := bind_ok_inv h
      have := of_decide_eq_true (assert_inv ha)
      generalize (bif b then n.one else n.zero) = off' at h
      cases hd : Geo.isDc off' with
      | true =>
        rw [hd, cond_true] at h
        obtain ⟨-, -, h⟩ := bind_ok_inv h
        cases h
        omega
      | false =>
        rw [hd, cond_false] at h
        exact ih _ _ h

theorem fixup_mask (ip : Bytes) : (Geo.v4fixup ip).2 ≤ 96 := by
  unfold Geo.v4fixup
  split
  · simp
  · split
    · simp
    · split <;> simp

theorem inner_mask {t : Geo.Tree} {a : Geo.Addr} {d m : Nat} (h : Geo.lookupInner t a = .ok (d, m)) : m ≤ 128 := by
  cases a with
  | v4 ip =>
    unfold Geo.lookupInner at h
    obtain ⟨-, -, h⟩ := bind_ok_inv h
    have := lookup4_mask t ip 32 0 _ (by omega) h
    omega
  | v6 ip =>
    unfold Geo.lookupInner at h
    dsimp only at h
    split at h
    · obtain ⟨-, -, h⟩ := bind_ok_inv h
      cases hl : Geo.lookup4 t (Geo.v4fixup ip).1 32 0 t.ipv4 with
      | ub => rw [hl] at h; cases h
      | ok r =>
        rw [hl] at h
        cases h
        have h1 := lookup4_mask t _ 32 0 _ (by omega) hl
        have h2 := fixup_mask ip
        omega
    · exact lookup6_mask t ip _ _ _ h

end Gdnsd.GeoTest
