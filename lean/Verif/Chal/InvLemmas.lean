/-
The invariant.
-/
import Verif.Chal.TblLemmas
namespace Gdnsd.Chal

/-- The replaced table that is not yet freed. -/
def Writer.old : Writer → Option Nat
  | .idle => none
  | .swapped _ o _ => o
  | .wait _ o _ _ => o

/-- The number of sets to be freed. -/
def Writer.k : Writer → Nat
  | .idle => 0
  | .swapped _ _ k => k
  | .wait _ _ k _ => k

/-- Why. -/
def Writer.why : Writer → Option Why
  | .idle => none
  | .swapped w _ _ => some w
  | .wait w _ _ _ => some w

/-- Whether reader `r` may still hold what is being replaced. -/
def Writer.holds (r : Nat) : Writer → Prop
  | .wait _ _ _ ws => r ∈ ws
  | _ => True

/-- A legal set. -/
def CsetOk (cfg : Cfg) (c : Cset) : Prop :=
  c.chals ≠ [] ∧ c.chals.length ≤ MAX_COUNT ∧ ∃ is : List Item, (∀ i ∈ is, i.Ok) ∧ c.chals = is.map (Item.chal cfg) ∧ (is.flatMap Item.wire).length ≤ MAX_DLEN

/-- The sets that stay. -/
def State.keep (s : State) : List Nat := s.live.drop s.writer.k

/-- A table that lookups may use. -/
def Good (s : State) (t : Nat) (m : List Nat × List Chal) : Prop :=
  ∃ T, s.tbls[t]? = some (some T) ∧ s.made[t]? = some m ∧ (∀ id ∈ m.1, id ∈ s.live) ∧ m.2 = allChals s.sets m.1 ∧ TblOk s.sets T m.1 m.2

/-- A table as seen by reader `r`. -/
def Sees (s : State) (r t : Nat) : Prop := s.cur = some t ∨ (s.writer.old = some t ∧ s.writer.holds r)

/-- What a reader knows. -/
def ReaderOk (cfg : Cfg) (s : State) (r : Nat) : Phase → Prop
  | .off => True
  | .on key => KeyOk key
  | .scan key t i acc snap => KeyOk key ∧ Sees s r t ∧ ∃ T m, s.tbls[t]? = some (some T) ∧ s.made[t]? = some m ∧ InForce cfg snap m.2 ∧
      acc = answers key ((inSlot T.mask (dnameHash cfg key &&& T.mask) m.2).take i)
  | .got key acc snap => ∃ content, InForce cfg snap content ∧ acc = answers key content

/-- The sets and the log. -/
structure Hist (cfg : Cfg) (s : State) (j : Nat) : Prop where
  le : j ≤ s.log.length
  same : s.keep.map (s.sets[·]?) = (s.log.drop j).map fun e => some (some e.2)
  gone : ∀ e ∈ s.log.take j, e.2.expiry ≤ s.now + FUDGE
  sorted : s.log.Pairwise fun a b => a.1 ≤ b.1
  times : ∀ e ∈ s.log, e.1 ≤ s.now ∧ e.2.expiry ≤ e.1 + 1000 * cfg.ttl
  expire : s.writer.why = some .expire → ∀ e rest, s.log.drop j = e :: rest → s.now + FUDGE < e.2.expiry
  flush : s.writer.why = some .flush → s.keep = []
  timer : s.writer.why = none ∨ s.writer.why = some .add → s.writer.k = 0 ∧ (s.live = [] → s.timer = none) ∧
    ∀ e rest, s.log.drop j = e :: rest → ∃ t, s.timer = some t ∧ t ≤ e.1 + 1000 * cfg.ttl

/-- The invariant. -/
structure Inv (cfg : Cfg) (s : State) : Prop where
  alive : ∀ id ∈ s.live, ∃ c, s.sets[id]? = some (some c) ∧ CsetOk cfg c
  nodup : s.live.Nodup
  size : (allChals s.sets s.live).length < LIMIT
  cur : (s.cur = none ∧ s.keep = []) ∨ ∃ t m, s.cur = some t ∧ m.1 = s.keep ∧ Good s t m
  old : ∀ t, s.writer.old = some t → s.cur ≠ some t ∧ ∃ m, Good s t m
  made : s.made.length = s.tbls.length
  hist : ∃ j, Hist cfg s j
  readers : ∀ r ph, s.readers[r]? = some ph → ReaderOk cfg s r ph

theorem flatMap_of_map {h : Heap} : ∀ {ids : List Nat} {l : List (Nat × Cset)}, ids.map (h[·]?) = l.map (fun e => some (some e.2)) →
    allChals h ids = l.flatMap fun e => e.2.chals := by
  intro ids
  induction ids with
  | nil => intro l hl; cases l with | nil => rfl | cons _ _ => cases hl
  | cons id ids ih =>
    intro l hl
    cases l with
    | nil => cases hl
    | cons e l =>
      simp only [List.map_cons, List.cons.injEq] at hl
      rw [allChals_cons hl.1, ih hl.2, List.flatMap_cons]

theorem drop_later {log : List (Nat × Cset)} {j : Nat} {e : Nat × Cset} {rest : List (Nat × Cset)} (hs : log.Pairwise fun a b => a.1 ≤ b.1)
    (hd : log.drop j = e :: rest) : ∀ x ∈ log.drop j, e.1 ≤ x.1 := by
  have := List.Pairwise.sublist (List.drop_sublist j log) hs
  rw [hd] at this ⊢
  rw [List.pairwise_cons] at this
  intro x hx
  rcases List.mem_cons.mp hx with rfl | hx
  · exact Nat.le_refl _
  · exact this.1 x hx

/-- What is in force is in the sets that stay. -/
theorem inForce {cfg s} (h : Inv cfg s) : InForce cfg s.snap (allChals s.sets s.keep) := by
  obtain ⟨j, hj⟩ := h.hist
  refine ⟨j, flatMap_of_map hj.same, hj.gone, ?_⟩
  intro hdue e he
  simp only [State.snap] at hdue he ⊢
  cases hd : s.log.drop j with
  | nil => rw [hd] at he; cases he
  | cons e0 rest =>
    have hle := drop_later hj.sorted hd e he
    suffices s.now < e0.1 + 1000 * cfg.ttl by omega
    have htimer : s.writer.why = none ∨ s.writer.why = some .add → s.now < e0.1 + 1000 * cfg.ttl := by
      intro hw
      obtain ⟨t, ht, hle⟩ := (hj.timer hw).2.2 e0 rest hd
      rw [ht] at hdue
      simp at hdue
      omega
    cases hw : s.writer.why with
    | none => exact htimer (Or.inl hw)
    | some w =>
      cases w with
      | add => exact htimer (Or.inr hw)
      | expire =>
        have := hj.expire hw e0 rest hd
        have he0 : e0 ∈ s.log := List.mem_of_mem_drop (i := j) (by rw [hd]; exact List.mem_cons_self)
        have := (hj.times e0 he0).2
        unfold FUDGE at *
        omega
      | flush =>
        have h1 := hj.same
        rw [hj.flush hw, hd] at h1
        cases h1

/-- Only a reader moved. -/
theorem inv_reader {cfg s} (h : Inv cfg s) {r : Nat} {ph : Phase} (hr : ReaderOk cfg s r ph) : Inv cfg (s.setReader r ph) := by
  refine ⟨h.alive, h.nodup, h.size, h.cur, h.old, h.made, ?_, ?_⟩
  · obtain ⟨j, hj⟩ := h.hist
    exact ⟨j, hj.le, hj.same, hj.gone, hj.sorted, hj.times, hj.expire, hj.flush, hj.timer⟩
  intro r' ph' hr'
  by_cases he : r = r'
  · subst he
    have hr' : (s.readers.set r ph)[r]? = some ph' := hr'
    rw [List.getElem?_set] at hr'
    simp only [if_true] at hr'
    split at hr'
    · obtain rfl := Option.some.inj hr'; exact hr
    · cases hr'
  · have hr' : (s.readers.set r ph)[r']? = some ph' := hr'
    rw [List.getElem?_set_ne he] at hr'
    exact h.readers r' ph' hr'

/-- The main thread moves on in its wait, or a reader leaves. -/
theorem inv_wait {cfg s} (h : Inv cfg s) {w : Writer} {rs : List Phase} (ho : w.old = s.writer.old) (hk : w.k = s.writer.k) (hy : w.why = s.writer.why)
    (hr : ∀ r ph, rs[r]? = some ph → ph ≠ .off → s.readers[r]? = some ph ∧ (s.writer.holds r → w.holds r)) :
    Inv cfg { s with writer := w, readers := rs } := by
  have hkeep : State.keep { s with writer := w, readers := rs } = s.keep := by simp only [State.keep, hk]
  refine ⟨h.alive, h.nodup, h.size, ?_, ?_, h.made, ?_, ?_⟩
  · rw [hkeep]; exact h.cur
  · simp only [ho]; exact h.old
  · obtain ⟨j, hj⟩ := h.hist
    refine ⟨j, hj.le, by rw [hkeep]; exact hj.same, hj.gone, hj.sorted, hj.times, ?_, ?_, ?_⟩
    · simp only [hy]; exact hj.expire
    · rw [hkeep]; simp only [hy]; exact hj.flush
    · simp only [hy, hk]; exact hj.timer
  · intro r ph hph
    cases ph with
    | off => trivial
    | on key => exact h.readers r _ (hr r _ hph (by simp)).1
    | got key acc snap => exact h.readers r _ (hr r _ hph (by simp)).1
    | scan key t i acc snap =>
      obtain ⟨h1, h2⟩ := hr r _ hph (by simp)
      obtain ⟨h3, h4, h5⟩ := h.readers r _ h1
      refine ⟨h3, ?_, h5⟩
      rcases h4 with h4 | ⟨h4, h6⟩
      · exact Or.inl h4
      · exact Or.inr ⟨by simp only [ho]; exact h4, h2 h6⟩

theorem online_mem {rs : List Phase} {r : Nat} {ph : Phase} (h : rs[r]? = some ph) (hne : ph ≠ .off) : r ∈ online rs := by
  unfold online
  refine List.mem_filter.mpr ⟨List.mem_range.mpr (List.getElem?_eq_some_iff.mp h).1, ?_⟩
  rw [h]
  cases ph <;> simp at hne ⊢

end Gdnsd.Chal
