/-
An invariant of the loop.
-/
import Verif.Loop.Spec
namespace Gdnsd.Loop
open LoopSpec

structure Inv (s : St) : Prop where
  nodup : (s.conns.map Conn.id).Nodup
  fresh : ∀ c ∈ s.conns, c.id < s.next
  mode : ∀ c ∈ s.conns, c.read = !c.check ∧ c.full = c.check
  cnt : s.cnt = (s.conns.filter Conn.check).length
  timer : s.timer = true ↔ s.conns ≠ []
  act : s.act = one s.accept + one s.async + s.conns.length + one s.timer
  acc : s.accept = s.async
  grace : s.grace = true → s.async = false

/-- What connections do not change. -/
structure Same (s s' : St) : Prop where
  ph : s'.ph = s.ph
  idle : s'.idle = s.idle
  grace : s'.grace = s.grace
  accept : s'.accept = s.accept
  async : s'.async = s.async
  next : s'.next = s.next

theorem Same.refl (s : St) : Same s s := ⟨rfl, rfl, rfl, rfl, rfl, rfl⟩
theorem Same.trans {a b c : St} (h : Same a b) (g : Same b c) : Same a c :=
  ⟨g.ph.trans h.ph, g.idle.trans h.idle, g.grace.trans h.grace, g.accept.trans h.accept, g.async.trans h.async, g.next.trans h.next⟩

def drop (id : Nat) (l : List Conn) : List Conn := l.filter fun c => !decide (c.id = id)

theorem get_mem {l : List Conn} (h : (l.map Conn.id).Nodup) {c : Conn} (hc : c ∈ l) : l.find? (fun x => decide (x.id = c.id)) = some c := by
  induction l with
  | nil => cases hc
  | cons a l ih =>
    rw [List.map_cons, List.nodup_cons] at h
    rcases List.mem_cons.mp hc with rfl | hc
    · simp
    · have hne : ¬ a.id = c.id := fun he => h.1 (by rw [he]; exact List.mem_map.mpr ⟨c, hc, rfl⟩)
      rw [List.find?_cons_of_neg (by simp [hne])]
      exact ih h.2 hc

theorem drop_absent {id : Nat} {l : List Conn} (h : id ∉ l.map Conn.id) : drop id l = l := by
  unfold drop
  rw [List.filter_eq_self]
  intro a ha
  have : ¬ a.id = id := fun he => h (by rw [← he]; exact List.mem_map.mpr ⟨a, ha, rfl⟩)
  simp [this]

theorem drop_count {l : List Conn} (h : (l.map Conn.id).Nodup) {c : Conn} (hc : c ∈ l) (p : Conn → Bool) :
    (l.filter p).length = ((drop c.id l).filter p).length + if p c = true then 1 else 0 := by
  induction l with
  | nil => cases hc
  | cons a l ih =>
    rw [List.map_cons, List.nodup_cons] at h
    rcases List.mem_cons.mp hc with rfl | hc
    · have hd : drop c.id (c :: l) = l := by
        unfold drop
        rw [List.filter_cons]
        simp only [decide_true, Bool.not_true, Bool.false_eq_true, if_false]
        exact drop_absent h.1
      rw [hd, List.filter_cons]
      split <;> simp
    · have hne : ¬ a.id = c.id := fun he => h.1 (by rw [he]; exact List.mem_map.mpr ⟨c, hc, rfl⟩)
      have hd : drop c.id (a :: l) = a :: drop c.id l := by
        unfold drop
        rw [List.filter_cons]
        simp [hne]
      have := ih h.2 hc
      rw [hd, List.filter_cons, List.filter_cons]
      cases p a <;> simp <;> omega

theorem drop_length {l : List Conn} (h : (l.map Conn.id).Nodup) {c : Conn} (hc : c ∈ l) : l.length = (drop c.id l).length + 1 := by
  have := drop_count h hc fun _ => true
  rw [List.filter_eq_self.mpr (by simp), List.filter_eq_self.mpr (by simp)] at this
  simpa using this

theorem mem_drop {l : List Conn} {id : Nat} {x : Conn} : x ∈ drop id l ↔ x ∈ l ∧ x.id ≠ id := by simp [drop]

theorem drop_nodup {l : List Conn} (h : (l.map Conn.id).Nodup) (id : Nat) : ((drop id l).map Conn.id).Nodup :=
  List.Sublist.nodup (List.Sublist.map _ List.filter_sublist) h

def upd (id : Nat) (f : Conn → Conn) (l : List Conn) : List Conn := l.map fun c => if c.id = id then f c else c

theorem upd_absent {id : Nat} {f : Conn → Conn} {l : List Conn} (h : id ∉ l.map Conn.id) : upd id f l = l := by
  unfold upd
  rw [List.map_congr_left (g := fun x => x)]
  · simp
  · intro a ha
    have : ¬ a.id = id := fun he => h (by rw [← he]; exact List.mem_map.mpr ⟨a, ha, rfl⟩)
    simp [this]

theorem upd_ids {id : Nat} {f : Conn → Conn} (hf : ∀ c, (f c).id = c.id) (l : List Conn) : (upd id f l).map Conn.id = l.map Conn.id := by
  unfold upd
  rw [List.map_map]
  apply List.map_congr_left
  intro a _
  simp only [Function.comp]
  split
  · exact hf a
  · rfl

theorem mem_upd {id : Nat} {f : Conn → Conn} {l : List Conn} {x : Conn} (h : (l.map Conn.id).Nodup) {c : Conn} (hc : c ∈ l) (hid : c.id = id) (hx : x ∈ upd id f l) : (x ∈ l ∧ x.id ≠ id) ∨ x = f c := by
  obtain ⟨y, hy, rfl⟩ := List.mem_map.mp hx
  by_cases he : y.id = id
  · have h1 := get_mem h hy
    rw [he, ← hid] at h1
    rw [get_mem h hc] at h1
    cases h1
    simp [he]
  · simp [he, hy]

theorem upd_count {l : List Conn} (h : (l.map Conn.id).Nodup) {c : Conn} (hc : c ∈ l) {f : Conn → Conn} (p : Conn → Bool) :
    ((upd c.id f l).filter p).length + (if p c = true then 1 else 0) = (l.filter p).length + if p (f c) = true then 1 else 0 := by
  induction l with
  | nil => cases hc
  | cons a l ih =>
    rw [List.map_cons, List.nodup_cons] at h
    rcases List.mem_cons.mp hc with rfl | hc
    · have hd : upd c.id f (c :: l) = f c :: l := by
        show (if c.id = c.id then f c else c) :: upd c.id f l = _
        rw [if_pos rfl, upd_absent h.1]
      rw [hd, List.filter_cons, List.filter_cons]
      cases p c <;> cases p (f c) <;> simp
    · have hne : ¬ a.id = c.id := fun he => h.1 (by rw [he]; exact List.mem_map.mpr ⟨c, hc, rfl⟩)
      have hd : upd c.id f (a :: l) = a :: upd c.id f l := by
        show (if a.id = c.id then f a else a) :: upd c.id f l = _
        rw [if_neg hne]
      have := ih h.2 hc
      rw [hd, List.filter_cons, List.filter_cons]
      cases p a <;> simp <;> omega

/-! ### Handlers -/

theorem calm_same (s : St) : (calm s).conns = s.conns ∧ Same s (calm s) ∧ (calm s).online = s.online := by
  unfold calm
  split
  · exact ⟨rfl, ⟨rfl, rfl, rfl, rfl, rfl, rfl⟩, rfl⟩
  · exact ⟨rfl, Same.refl s, rfl⟩

theorem inv_destruct {s : St} (h : Inv s) {c : Conn} (hc : c ∈ s.conns) : ∃ s', destruct s c.id = .ok s' ∧ Inv s' ∧ s'.conns = drop c.id s.conns ∧ Same s s' ∧ s'.online = s.online := by
  have hg : s.get c.id = some c := get_mem h.nodup hc
  have hcnt := drop_count h.nodup hc Conn.check
  have hlen := drop_length h.nodup hc
  have hm := h.mode c hc
  have hne : s.conns ≠ [] := fun he => by rw [he] at hc; cases hc
  have ht := h.timer.mpr hne
  have hact := h.act
  unfold destruct
  rw [hg]
  dsimp only
  rw [if_neg (by
    rintro ⟨h1, h2⟩
    rw [h.cnt, hcnt, if_pos h1] at h2
    omega)]
  refine ⟨_, rfl, ?_, ?_, ?_, ?_⟩
  · unfold calm
    have e : s.conns.filter (fun x => !decide (x.id = c.id)) = drop c.id s.conns := rfl
    dsimp only
    rw [e]
    split
    · rename_i he
      rw [he] at hlen hcnt
      refine ⟨by simp [he], by simp [he], by simp [he], ?_, by simp [he], ?_, h.acc, h.grace⟩
      · dsimp only
        rw [he, h.cnt, hcnt]
        split <;> simp [*]
      · dsimp only
        rw [hact, he, hlen, ht, hm.1]
        cases c.check <;> simp [one] <;> omega
    · rename_i he
      refine ⟨drop_nodup h.nodup _, fun x hx => h.fresh x (mem_drop.mp hx).1, fun x hx => h.mode x (mem_drop.mp hx).1, ?_, by simp [ht, he], ?_, h.acc, h.grace⟩
      · dsimp only
        rw [h.cnt, hcnt]
        omega
      · dsimp only
        rw [hact, hlen, hm.1]
        cases c.check <;> simp [one] <;> omega
  · rw [(calm_same _).1]; rfl
  · have hq := fun t => (calm_same t).2.1
    exact ⟨(hq _).ph, (hq _).idle, (hq _).grace, (hq _).accept, (hq _).async, (hq _).next⟩
  · exact (calm_same _).2.2

theorem inv_all : ∀ (l : List Nat) {s : St}, Inv s → l.Nodup → (∀ i ∈ l, ∃ c ∈ s.conns, c.id = i) →
    ∃ s', destructAll l s = .ok s' ∧ Inv s' ∧ (∀ x, x ∈ s'.conns ↔ x ∈ s.conns ∧ x.id ∉ l) ∧ Same s s' ∧ s'.online = s.online
  | [], s, h, _, _ => ⟨s, rfl, h, by simp, Same.refl s, rfl⟩
  | i :: l, s, h, hn, hm => by
    obtain ⟨c, hc, rfl⟩ := hm i (by simp)
    obtain ⟨s1, h1, h2, h3, h4, h5⟩ := inv_destruct h hc
    rw [List.nodup_cons] at hn
    obtain ⟨s', g1, g2, g3, g4, g5⟩ := inv_all l h2 hn.2 (by
      intro j hj
      obtain ⟨d, hd, rfl⟩ := hm j (by simp [hj])
      exact ⟨d, by rw [h3]; exact mem_drop.mpr ⟨hd, fun he => hn.1 (by rw [← he]; exact hj)⟩, rfl⟩)
    refine ⟨s', by unfold destructAll; rw [h1]; exact g1, g2, ?_, h4.trans g4, g5.trans h5⟩
    intro x
    rw [g3, h3, mem_drop]
    simp
    constructor
    · rintro ⟨⟨a, b⟩, c⟩; exact ⟨a, b, c⟩
    · rintro ⟨a, b, c⟩; exact ⟨⟨a, b⟩, c⟩

theorem inv_online {s : St} (h : Inv s) : Inv (online s) ∧ (online s).conns = s.conns ∧ Same s (online s) ∧ (online s).online = true := by
  unfold online
  split
  · exact ⟨⟨h.nodup, h.fresh, h.mode, h.cnt, h.timer, h.act, h.acc, h.grace⟩, rfl, ⟨rfl, rfl, rfl, rfl, rfl, rfl⟩, rfl⟩
  · rename_i ho
    exact ⟨⟨h.nodup, h.fresh, h.mode, h.cnt, h.timer, h.act, h.acc, h.grace⟩, rfl, ⟨rfl, rfl, rfl, rfl, rfl, rfl⟩, by simpa using ho⟩

theorem inv_set {s : St} (h : Inv s) {c : Conn} (hc : c ∈ s.conns) {f : Conn → Conn} (hid : ∀ x, (f x).id = x.id) (hm : (f c).read = !(f c).check ∧ (f c).full = (f c).check) {n : Nat}
    (hn : n + (if c.check = true then 1 else 0) = s.cnt + if (f c).check = true then 1 else 0) : Inv ({ s with cnt := n }.set c.id f) := by
  have hu := upd_count h.nodup hc (f := f) Conn.check
  have hl : (upd c.id f s.conns).length = s.conns.length := by simp [upd]
  refine ⟨?_, ?_, ?_, ?_, ?_, ?_, h.acc, h.grace⟩
  · show ((upd c.id f s.conns).map Conn.id).Nodup
    rw [upd_ids hid]
    exact h.nodup
  · intro x hx
    rcases mem_upd h.nodup hc rfl hx with ⟨hx, _⟩ | rfl
    · exact h.fresh x hx
    · rw [hid]; exact h.fresh c hc
  · intro x hx
    rcases mem_upd h.nodup hc rfl hx with ⟨hx, _⟩ | rfl
    · exact h.mode x hx
    · exact hm
  · show n = ((upd c.id f s.conns).filter Conn.check).length
    have := h.cnt
    omega
  · show s.timer = true ↔ upd c.id f s.conns ≠ []
    rw [h.timer, ← List.length_pos_iff, ← List.length_pos_iff, hl]
  · show s.act = one s.accept + one s.async + (upd c.id f s.conns).length + one s.timer
    rw [hl]
    exact h.act

theorem inv_set' {s : St} (h : Inv s) {c : Conn} (hc : c ∈ s.conns) {f : Conn → Conn} (hid : ∀ x, (f x).id = x.id) (hm : (f c).read = !(f c).check ∧ (f c).full = (f c).check)
    (hn : (f c).check = c.check) : Inv (s.set c.id f) := inv_set (n := s.cnt) h hc hid hm (by rw [hn])

/-- After a response the connection is closed, or the response is counted and the others are as they were. -/
theorem inv_respond {s : St} (h : Inv s) {c : Conn} (hc : c ∈ s.conns) (r : Resp) : ∃ s', respond s c.id r = .ok s' ∧ Inv s' ∧ Same s s' ∧
    ∀ x ∈ s'.conns, (x ∈ s.conns ∧ x.id ≠ c.id) ∨ (x.id = c.id ∧ x.served = c.served + 1) := by
  obtain ⟨h1, h2, h3, h4⟩ := inv_online h
  have hc1 : c ∈ (online s).conns := by rw [h2]; exact hc
  have hm := h.mode c hc
  unfold respond
  dsimp only
  rw [if_neg (by simp [h4])]
  cases r with
  | close =>
    obtain ⟨s', g1, g2, g3, g4, g5⟩ := inv_destruct h1 hc1
    refine ⟨s', g1, g2, h3.trans g4, ?_⟩
    intro x hx
    rw [g3, h2] at hx
    exact .inl (mem_drop.mp hx)
  | next full =>
    have hg : (online s).get c.id = some c := get_mem h1.nodup hc1
    dsimp only
    rw [hg]
    dsimp only
    have fin : ∀ {s' : St} {f : Conn → Conn}, s'.conns = upd c.id f (online s).conns → (∀ x, (f x).id = x.id) → (∀ x, (f x).served = x.served + 1) →
        ∀ x ∈ s'.conns, (x ∈ s.conns ∧ x.id ≠ c.id) ∨ (x.id = c.id ∧ x.served = c.served + 1) := by
      intro s' f he hid hsv x hx
      rw [he, h2] at hx
      rcases mem_upd h.nodup hc rfl hx with hx | rfl
      · exact .inl hx
      · exact .inr ⟨hid c, hsv c⟩
    have hpos : c.check = true → (online s).cnt ≠ 0 := by
      intro hck
      rw [h1.cnt, h2, drop_count h.nodup hc Conn.check, if_pos hck]
      omega
    unfold watch
    cases full with
    | false =>
      rw [if_pos rfl]
      cases hck : c.check with
      | true =>
        have hrd : c.read = false := by rw [hm.1, hck]; rfl
        rw [if_pos rfl, if_neg (by simp [hrd]), if_neg (hpos hck)]
        refine ⟨_, rfl, by
          refine inv_set h1 hc1 ?_ ?_ ?_
          · intro _; rfl
          · exact ⟨rfl, rfl⟩
          · have := hpos; simp [hck] at this ⊢; try omega, ⟨h3.ph, h3.idle, h3.grace, h3.accept, h3.async, h3.next⟩, by
          refine fin rfl ?_ ?_ <;> intro _ <;> rfl⟩
      | false =>
        have hrd : c.read = true := by rw [hm.1, hck]; rfl
        rw [if_neg (by simp), if_pos hrd]
        refine ⟨_, rfl, by
          refine inv_set' h1 hc1 ?_ ?_ ?_
          · intro _; rfl
          · simp [hrd, hck]
          · rfl, ⟨h3.ph, h3.idle, h3.grace, h3.accept, h3.async, h3.next⟩, by
          refine fin rfl ?_ ?_ <;> intro _ <;> rfl⟩
    | true =>
      rw [if_neg (by simp)]
      cases hck : c.check with
      | true =>
        have hrd : c.read = false := by rw [hm.1, hck]; rfl
        rw [if_neg (by simp [hrd]), if_pos rfl]
        refine ⟨_, rfl, by
          refine inv_set' h1 hc1 ?_ ?_ ?_
          · intro _; rfl
          · simp [hrd, hck]
          · rfl, ⟨h3.ph, h3.idle, h3.grace, h3.accept, h3.async, h3.next⟩, by
          refine fin rfl ?_ ?_ <;> intro _ <;> rfl⟩
      | false =>
        have hrd : c.read = true := by rw [hm.1, hck]; rfl
        rw [if_pos hrd, if_neg (by simp)]
        refine ⟨_, rfl, by
          refine inv_set h1 hc1 ?_ ?_ ?_
          · intro _; rfl
          · exact ⟨rfl, rfl⟩
          · have := hpos; simp [hck] at this ⊢; try omega, ⟨h3.ph, h3.idle, h3.grace, h3.accept, h3.async, h3.next⟩, by
          refine fin rfl ?_ ?_ <;> intro _ <;> rfl⟩

/-- How connections go on: they stay as they are, are answered, or are new. -/
def Evol (s s' : St) : Prop := ∀ x ∈ s'.conns, x ∈ s.conns ∨ (∃ c ∈ s.conns, c.id = x.id ∧ x.served = c.served + 1) ∨ s.next ≤ x.id

theorem inv_read {s : St} (h : Inv s) {c : Conn} (hc : c ∈ s.conns) (g : Got) : ∃ s', readH s c.id g = .ok s' ∧ Inv s' ∧ Same s s' ∧ Evol s s' := by
  cases g with
  | again => exact ⟨s, rfl, h, Same.refl s, fun x hx => .inl hx⟩
  | more => exact ⟨s, rfl, h, Same.refl s, fun x hx => .inl hx⟩
  | closed =>
    obtain ⟨s', g1, g2, g3, g4, -⟩ := inv_destruct h hc
    exact ⟨s', g1, g2, g4, fun x hx => .inl (by rw [g3] at hx; exact (mem_drop.mp hx).1)⟩
  | req r =>
    obtain ⟨s', g1, g2, g3, g4⟩ := inv_respond h hc r
    refine ⟨s', g1, g2, g3, fun x hx => ?_⟩
    rcases g4 x hx with ⟨hx, -⟩ | ⟨h1, h2⟩
    · exact .inl hx
    · exact .inr (.inl ⟨c, hc, h1.symm, h2⟩)

theorem among_iff {s : St} {l : List Nat} : among s l = true ↔ l.Nodup ∧ ∀ i ∈ l, ∃ c ∈ s.conns, c.id = i := by
  simp [among]

theorem any_iff {s : St} {id : Nat} {p : Conn → Bool} : (s.conns.any fun c => decide (c.id = id) && p c) = true ↔ ∃ c ∈ s.conns, c.id = id ∧ p c = true := by
  simp

theorem inv_stop {s : St} (h : Inv s) (ha : s.async = true) {fails : List Nat} (hf : among s fails = true) : ∃ s', stopH s fails = .ok s' ∧ Inv s' ∧ s'.ph = s.ph ∧ s'.next = s.next ∧ Evol s s' := by
  have hg : s.grace = false := by
    cases hg : s.grace with
    | false => rfl
    | true => have := h.grace hg; rw [ha] at this; cases this
  have hacc : s.accept = true := by rw [h.acc, ha]
  have hact := h.act
  unfold stopH
  rw [if_neg (by simp [hg])]
  dsimp only
  split
  · rename_i he
    have ht : s.timer = false := by
      cases ht : s.timer with
      | false => rfl
      | true => exact absurd he (h.timer.mp ht)
    rw [if_neg (by simp [ht])]
    refine ⟨_, rfl, ⟨h.nodup, h.fresh, h.mode, h.cnt, h.timer, ?_, rfl, fun _ => rfl⟩, rfl, rfl, fun x hx => .inl hx⟩
    dsimp only
    rw [hact, ha, hacc]
    simp [one]
    omega
  · have h1 : Inv { s with async := false, accept := false, act := s.act - one s.async - one s.accept, grace := true } := by
      refine ⟨h.nodup, h.fresh, h.mode, h.cnt, h.timer, ?_, rfl, fun _ => rfl⟩
      dsimp only
      rw [hact, ha, hacc]
      simp [one]
      omega
    obtain ⟨hf1, hf2⟩ := among_iff.mp hf
    obtain ⟨s', g1, g2, g3, g4, -⟩ := inv_all fails h1 hf1 hf2
    rw [g1]
    simp only [Outcome.bind_ok]
    have hev : Evol s s' := fun x hx => .inl ((g3 x).mp hx).1
    split
    · rename_i he
      have ht : s'.timer = false := by
        cases ht : s'.timer with
        | false => rfl
        | true => exact absurd he (g2.timer.mp ht)
      rw [if_neg (by simp [ht])]
      exact ⟨s', rfl, g2, g4.ph, g4.next, hev⟩
    · rename_i he
      have ht := g2.timer.mpr he
      refine ⟨_, rfl, ⟨g2.nodup, g2.fresh, g2.mode, g2.cnt, by simp [he], ?_, g2.acc, g2.grace⟩, g4.ph, g4.next, hev⟩
      dsimp only
      rw [g2.act, ht]
      simp [one]

theorem inv_timeout {s : St} (h : Inv s) (ht : s.timer = true) {old : List Nat} (hf : among s old = true) : ∃ s', timeoutH s old = .ok s' ∧ Inv s' ∧ Same s s' ∧ Evol s s' ∧ (s.grace = true → s'.conns = []) := by
  unfold timeoutH
  rw [if_neg (h.timer.mp ht)]
  obtain ⟨hf1, hf2⟩ := among_iff.mp hf
  split
  · rename_i hg
    obtain ⟨s', g1, g2, g3, g4, -⟩ := inv_all (s.conns.map Conn.id) h h.nodup (by simp)
    refine ⟨s', g1, g2, g4, fun x hx => .inl ((g3 x).mp hx).1, fun _ => ?_⟩
    rw [List.eq_nil_iff_forall_not_mem]
    intro x hx
    have := (g3 x).mp hx
    exact this.2 (List.mem_map.mpr ⟨x, this.1, rfl⟩)
  · rename_i hg
    obtain ⟨s', g1, g2, g3, g4, -⟩ := inv_all old h hf1 hf2
    exact ⟨s', g1, g2, g4, fun x hx => .inl ((g3 x).mp hx).1, fun h => absurd h hg⟩

theorem inv_accept {max : Nat} {s : St} (h : Inv s) (ha : s.accept = true) {v : Nat} (hv : s.conns.length + 1 = max → among s [v] = true) (g : Got) :
    ∃ s', acceptH max s v g = .ok s' ∧ Inv s' ∧ s'.ph = s.ph ∧ s.next ≤ s'.next ∧ Evol s s' := by
  have hg : s.grace = false := by
    cases hg : s.grace with
    | false => rfl
    | true => have := h.grace hg; rw [← h.acc, ha] at this; cases this
  unfold acceptH
  rw [if_neg (by simp [hg])]
  dsimp only
  -- the state with the new connection, its watcher started at once
  let n : Conn := ⟨s.next, true, false, false, 0⟩
  let n0 : Conn := ⟨s.next, false, false, false, 0⟩
  have hnew : s.next ∉ s.conns.map Conn.id := by
    intro hm
    obtain ⟨c, hc, he⟩ := List.mem_map.mp hm
    have := h.fresh c hc
    omega
  have base : ∀ {s1 : St} {l : List Conn}, s1.conns = l ++ [n0] → (∀ x ∈ l, x ∈ s.conns) → (l.map Conn.id).Nodup → s1.cnt = (l.filter Conn.check).length → s1.timer = true →
      s1.act = one s1.accept + one s1.async + l.length + 1 → s1.accept = s1.async → (s1.grace = true → s1.async = false) → s1.next = s.next + 1 →
      Inv { s1.set s.next (fun c => { c with read := true }) with act := s1.act + 1 } ∧ ({ s1.set s.next (fun c => { c with read := true }) with act := s1.act + 1 } : St).conns = l ++ [n] := by
    intro s1 l e1 e2 e3 e4 e5 e6 e7 e8 e9
    have hl : s.next ∉ l.map Conn.id := by
      intro hm
      obtain ⟨c, hc, he⟩ := List.mem_map.mp hm
      exact hnew (List.mem_map.mpr ⟨c, e2 c hc, he⟩)
    have hconns : upd s.next (fun c => { c with read := true }) s1.conns = l ++ [n] := by
      rw [e1]
      show upd s.next _ (l ++ [n0]) = _
      have : upd s.next (fun c => { c with read := true }) (l ++ [n0]) = upd s.next (fun c => { c with read := true }) l ++ upd s.next (fun c => { c with read := true }) [n0] := by simp [upd]
      rw [this, upd_absent hl]
      simp [upd, n0, n]
    refine ⟨⟨?_, ?_, ?_, ?_, ?_, ?_, e7, e8⟩, hconns⟩
    · show ((upd s.next _ s1.conns).map Conn.id).Nodup
      rw [hconns, List.map_append, List.nodup_append]
      refine ⟨e3, by simp, ?_⟩
      intro a ha b hb
      simp [n] at hb
      subst hb
      rintro rfl
      exact hl ha
    · intro x hx
      have hx : x ∈ upd s.next _ s1.conns := hx
      rw [hconns, List.mem_append, List.mem_singleton] at hx
      show x.id < s1.next
      rw [e9]
      rcases hx with hx | rfl
      · have := h.fresh x (e2 x hx); omega
      · exact Nat.lt_succ_self _
    · intro x hx
      have hx : x ∈ upd s.next _ s1.conns := hx
      rw [hconns, List.mem_append, List.mem_singleton] at hx
      rcases hx with hx | rfl
      · exact h.mode x (e2 x hx)
      · exact ⟨rfl, rfl⟩
    · show s1.cnt = ((upd s.next _ s1.conns).filter Conn.check).length
      rw [hconns, e4]
      simp [n]
    · show s1.timer = true ↔ upd s.next _ s1.conns ≠ []
      rw [hconns]
      simp [e5]
    · show s1.act + 1 = one s1.accept + one s1.async + (upd s.next _ s1.conns).length + one s1.timer
      rw [hconns, e6, e5]
      simp [one]
      omega
  have hact : s.act + one (!s.timer) = one s.accept + one s.async + s.conns.length + 1 := by
    rw [h.act]
    cases s.timer <;> simp [one]
  have fin : ∀ {s2 : St} {l : List Conn}, Inv s2 → s2.conns = l ++ [n] → (∀ x ∈ l, x ∈ s.conns) → s2.ph = s.ph → s2.next = s.next + 1 →
      ∃ s', readH s2 s.next g = .ok s' ∧ Inv s' ∧ s'.ph = s.ph ∧ s.next ≤ s'.next ∧ Evol s s' := by
    intro s2 l hi hcs hl hph hnx
    obtain ⟨s', g1, g2, g3, g4⟩ := inv_read hi (c := n) (by rw [hcs]; simp) g
    refine ⟨s', g1, g2, g3.ph.trans hph, by rw [g3.next, hnx]; omega, ?_⟩
    intro x hx
    have hm : ∀ y ∈ s2.conns, y ∈ s.conns ∨ s.next ≤ y.id := by
      intro y hy
      rw [hcs, List.mem_append, List.mem_singleton] at hy
      rcases hy with hy | rfl
      · exact .inl (hl y hy)
      · exact .inr (Nat.le_refl _)
    rcases g4 x hx with hx | ⟨c, hc, h1, h2⟩ | hx
    · rcases hm x hx with hx | hx
      · exact .inl hx
      · exact .inr (.inr hx)
    · rcases hm c hc with hc | hc
      · exact .inr (.inl ⟨c, hc, h1, h2⟩)
      · exact .inr (.inr (by rw [← h1]; exact hc))
    · exact .inr (.inr (by omega))
  by_cases hmax : (s.conns ++ [n0]).length = max
  · rw [if_pos hmax]
    obtain ⟨-, hv2⟩ := among_iff.mp (hv (by simpa using hmax))
    obtain ⟨c, hc, rfl⟩ := hv2 v (by simp)
    have hne : ¬ n0.id = c.id := by
      have := h.fresh c hc
      show ¬ s.next = c.id
      omega
    have hm := h.mode c hc
    have hcnt := drop_count h.nodup hc Conn.check
    have hlen := drop_length h.nodup hc
    have hget : (s.conns ++ [n0]).find? (fun x => decide (x.id = c.id)) = some c := by
      rw [List.find?_append, get_mem h.nodup hc]
      rfl
    have hfil : (s.conns ++ [n0]).filter (fun x => !decide (x.id = c.id)) = drop c.id s.conns ++ [n0] := by
      rw [List.filter_append]
      simp [drop, hne]
    unfold destruct St.get
    dsimp only
    rw [hget]
    dsimp only
    rw [if_neg (by
      rintro ⟨h1, h2⟩
      rw [h.cnt, hcnt, if_pos h1] at h2
      omega)]
    simp only [Outcome.bind_ok, calm]
    rw [hfil, if_neg (by simp)]
    obtain ⟨b1, b2⟩ := base (s1 := { s with timer := true, act := s.act + one (!s.timer) - one c.read - one c.check, conns := drop c.id s.conns ++ [n0], next := s.next + 1, cnt := s.cnt - if c.check = true then 1 else 0 })
      (l := drop c.id s.conns) rfl (fun x hx => (mem_drop.mp hx).1) (drop_nodup h.nodup _) (by dsimp only; rw [h.cnt, hcnt]; omega) rfl (by
        dsimp only
        rw [hact, hlen, hm.1]
        cases c.check <;> simp [one] <;> omega) h.acc h.grace rfl
    exact fin b1 b2 (fun x hx => (mem_drop.mp hx).1) rfl rfl
  · rw [if_neg hmax]
    simp only [Outcome.bind_ok]
    obtain ⟨b1, b2⟩ := base (s1 := { s with timer := true, act := s.act + one (!s.timer), conns := s.conns ++ [n0], next := s.next + 1 })
      (l := s.conns) rfl (fun x hx => hx) h.nodup h.cnt rfl hact h.acc h.grace rfl
    exact fin b1 b2 (fun x hx => hx) rfl rfl

end Gdnsd.Loop
