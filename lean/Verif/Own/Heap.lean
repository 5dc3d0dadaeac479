/-
Memory as a bag of blocks: what allocation and freeing do to it.
-/
import Verif.Own.Spec
namespace Gdnsd.Own

/-- The allocated blocks are these, and each has a number of its own. -/
structure Owns (h : Heap) (l : List Nat) : Prop where
  eq : ∀ p, h.live.count p = l.count p
  nd : h.live.Nodup
  lt : ∀ p ∈ h.live, p < h.next

theorem Owns.of {h : Heap} {l l' : List Nat} (o : Owns h l) (e : ∀ p, l.count p = l'.count p) : Owns h l' :=
  ⟨fun p => (o.eq p).trans (e p), o.nd, o.lt⟩

theorem Owns.exactly {h : Heap} {l : List Nat} (o : Owns h l) : Exactly h l := by
  constructor
  · rw [List.nodup_iff_count]
    intro p
    rw [← o.eq p]
    exact List.nodup_iff_count.mp o.nd p
  · intro p
    rw [← List.count_pos_iff, ← List.count_pos_iff, o.eq p]

/-- What is left of `x` when a function hands it over unless it fails. -/
def rest (bad : Bool) (x : List Nat) : List Nat := if bad then x else []

theorem rest_true (x : List Nat) : rest true x = x := rfl
theorem rest_false (x : List Nat) : rest false x = [] := rfl
theorem rest_nil (b : Bool) : rest b [] = [] := by cases b <;> rfl

/-- The blocks of a scanner. -/
def Scan.blocks (s : Scan) : List Nat := s.self :: s.fmap :: (s.buf.toList ++ s.text.toList ++ s.raw.toList ++ s.name.toList)

/-- The blocks of an entry of the list of files. -/
def Entry.blocks (e : Entry) : List Nat := e.self :: e.fullFn :: e.zone.elim [] Zone.blocks

/-- Counting in lists that are put together. -/
macro "cnt" : tactic => `(tactic| (intro p; simp only [List.count_append, List.count_cons, List.count_nil, rest_true, rest_false, rest_nil, Option.toList, List.append_nil, List.nil_append, List.cons_append, List.filterMap_nil, List.flatMap_nil, List.flatMap_append, List.flatMap_cons, RRset.blocks, Hdr.blocks, Kids.blocks, Arena.blocks, Zone.blocks, Scan.blocks, Entry.blocks, Option.elim_some, Option.elim_none]; try omega))

theorem alloc_owns {h : Heap} {l : List Nat} (o : Owns h l) : Owns h.alloc.2 (h.alloc.1 :: l) := by
  refine ⟨?_, ?_, ?_⟩
  · intro p
    simp only [Heap.alloc, List.count_cons, o.eq p]
  · simp only [Heap.alloc, List.nodup_cons]
    exact ⟨fun hm => Nat.lt_irrefl _ (o.lt _ hm), o.nd⟩
  · intro p hp
    simp only [Heap.alloc, List.mem_cons] at hp ⊢
    rcases hp with rfl | hp
    · exact Nat.lt_succ_self _
    · exact Nat.lt_succ_of_lt (o.lt _ hp)

theorem free_owns {h : Heap} {q : Nat} {l : List Nat} (o : Owns h (q :: l)) : ∃ h', h.free q = .ok h' ∧ Owns h' l := by
  have hm : q ∈ h.live := by
    rw [← List.count_pos_iff, o.eq q, List.count_cons_self]
    omega
  refine ⟨⟨h.next, h.live.erase q⟩, ?_, ?_, ?_, ?_⟩
  · simp [Heap.free, hm]
  · intro p
    dsimp only
    rw [List.count_erase, o.eq p, List.count_cons]
    omega
  · exact o.nd.erase q
  · intro p hp
    exact o.lt p (List.mem_of_mem_erase hp)

theorem freeOpt_owns {h : Heap} {q : Option Nat} {l : List Nat} (o : Owns h (q.toList ++ l)) : ∃ h', h.freeOpt q = .ok h' ∧ Owns h' l := by
  cases q with
  | none => exact ⟨h, rfl, o⟩
  | some q => exact free_owns o

theorem realloc_owns {h : Heap} {q : Option Nat} {l : List Nat} (o : Owns h (q.toList ++ l)) : ∃ x, h.realloc q = .ok x ∧ Owns x.2 (x.1 :: l) := by
  cases q with
  | none => exact ⟨h.alloc, rfl, alloc_owns o⟩
  | some q =>
    have hm : q ∈ h.live := by
      rw [← List.count_pos_iff, o.eq q]
      simp
    exact ⟨(q, h), by simp [Heap.realloc, hm], o⟩

theorem freeAll_owns {l : List Nat} (q : List Nat) : ∀ {h : Heap}, Owns h (q ++ l) → ∃ h', h.freeAll q = .ok h' ∧ Owns h' l := by
  induction q with
  | nil => intro h o; exact ⟨h, rfl, o⟩
  | cons p q ih =>
    intro h o
    obtain ⟨h1, e1, o1⟩ := free_owns o
    obtain ⟨h2, e2, o2⟩ := ih o1
    exact ⟨h2, by simp [Heap.freeAll, e1, e2], o2⟩

theorem freeOpts_owns {l : List Nat} (q : List (Option Nat)) : ∀ {h : Heap}, Owns h (q.filterMap _root_.id ++ l) → ∃ h', h.freeOpts q = .ok h' ∧ Owns h' l := by
  induction q with
  | nil => intro h o; exact ⟨h, rfl, o⟩
  | cons p q ih =>
    intro h o
    have o' : Owns h (p.toList ++ (q.filterMap _root_.id ++ l)) := by
      cases p <;> exact o
    obtain ⟨h1, e1, o1⟩ := freeOpt_owns o'
    obtain ⟨h2, e2, o2⟩ := ih o1
    exact ⟨h2, by simp [Heap.freeOpts, e1, e2], o2⟩

/-! ### Arenas -/

theorem arenaNew_owns {h : Heap} {l : List Nat} (o : Owns h l) : Owns (Arena.new h).2 ((Arena.new h).1.blocks ++ l) := by
  have o3 := alloc_owns (alloc_owns (alloc_owns o))
  exact o3.of (by unfold Arena.new; cnt)

theorem dup_owns {h : Heap} {a : Arena} (s : Nat) {l : List Nat} (o : Owns h (a.blocks ++ l)) :
    Owns (a.dup s h).2 ((a.dup s h).1.blocks ++ l) := by
  unfold Arena.dup
  split
  · exact (alloc_owns o).of (by cnt)
  · exact o

theorem arenaDestroy_owns {h : Heap} {a : Arena} {l : List Nat} (o : Owns h (a.blocks ++ l)) : ∃ h', a.destroy h = .ok h' ∧ Owns h' l := by
  obtain ⟨h1, e1, o1⟩ := freeAll_owns (l := a.array :: a.self :: l) a.pools (o.of (by cnt))
  obtain ⟨h2, e2, o2⟩ := free_owns o1
  obtain ⟨h3, e3, o3⟩ := free_owns o2
  exact ⟨h3, by simp [Arena.destroy, e1, e2, e3], o3⟩

theorem arenaMerge_owns {h : Heap} {t s : Arena} {l : List Nat} (o : Owns h (t.blocks ++ s.blocks ++ l)) :
    ∃ x, t.merge s h = .ok x ∧ Owns x.2 (x.1.blocks ++ l) := by
  obtain ⟨h1, e1, o1⟩ := free_owns (q := s.array) (l := s.self :: (t.blocks ++ s.pools ++ l)) (o.of (by cnt))
  obtain ⟨h2, e2, o2⟩ := free_owns o1
  exact ⟨({ t with pools := s.pools ++ t.pools }, h2), by simp only [Arena.merge, e1, e2, Outcome.bind_ok, Outcome.map_ok], o2.of (by cnt)⟩

/-! ### Destroying -/

/-- The pointers of a set are what its type and number say. -/
def RRset.WF (r : RRset) : Prop :=
  if r.type = 1 then (r.data.isSome ↔ r.count > v4a) ∧ r.texts = []
  else if r.type = 28 then (r.data.isSome ↔ r.count ≠ 0) ∧ r.texts = []
  else if r.type = 2 ∨ r.type = 15 ∨ r.type = 12 ∨ r.type = 33 then r.data.isSome ∧ r.texts = []
  else if r.type = 6 ∨ r.type = 5 ∨ r.type = 65295 then r.data = none ∧ r.texts = []
  else r.data.isSome ∧ r.texts.length = r.count

theorem rrset_owns {h : Heap} {r : RRset} {l : List Nat} (w : r.WF) (o : Owns h (r.blocks ++ l)) : ∃ h', r.destroy h = .ok h' ∧ Owns h' l := by
  have key : ∃ h', Owns h' (r.id :: l) ∧ r.destroy h = h'.free r.id := by
    have ot : r.texts.length = r.count → ∃ h', (if r.count ≤ r.texts.length then (h.freeOpts (r.texts.take r.count)).bind fun h => h.freeOpt r.data else .ub) = .ok h' ∧ Owns h' (r.id :: l) := by
      intro hc
      rw [if_pos (by omega), ← hc, List.take_length]
      obtain ⟨h1, e1, o1⟩ := freeOpts_owns (l := r.data.toList ++ r.id :: l) r.texts (o.of (by cnt))
      obtain ⟨h2, e2, o2⟩ := freeOpt_owns o1
      exact ⟨h2, by simp [e1, e2], o2⟩
    have od : r.texts = [] → ∃ h', h.freeOpt r.data = .ok h' ∧ Owns h' (r.id :: l) := by
      intro ht
      exact freeOpt_owns (o.of (by intro p; simp only [RRset.blocks, ht]; revert p; cnt))
    have on : r.texts = [] → r.data = none → Owns h (r.id :: l) := by
      intro ht hd
      exact o.of (by intro p; simp only [RRset.blocks, ht, hd]; revert p; cnt)
    unfold RRset.WF at w
    unfold RRset.destroy
    dsimp only
    by_cases h1 : r.type = 1
    · rw [if_pos h1] at w ⊢
      by_cases hc : r.count > v4a
      · obtain ⟨p, hp⟩ := Option.isSome_iff_exists.mp (w.1.mpr hc)
        obtain ⟨h', e, o'⟩ := od w.2
        rw [if_pos hc]
        rw [hp] at e ⊢
        exact ⟨h', o', by simp only [Heap.freeOpt] at e; simp [e]⟩
      · rw [if_neg hc]
        have : r.data = none := by
          cases hd : r.data with
          | none => rfl
          | some p => exact absurd (w.1.mp (by simp [hd])) hc
        exact ⟨h, on w.2 this, rfl⟩
    rw [if_neg h1] at w ⊢
    by_cases h2 : r.type = 28
    · rw [if_pos h2] at w ⊢
      by_cases hc : r.count ≠ 0
      · obtain ⟨p, hp⟩ := Option.isSome_iff_exists.mp (w.1.mpr hc)
        obtain ⟨h', e, o'⟩ := od w.2
        rw [if_pos hc]
        rw [hp] at e ⊢
        exact ⟨h', o', by simp only [Heap.freeOpt] at e; simp [e]⟩
      · rw [if_neg hc]
        have : r.data = none := by
          cases hd : r.data with
          | none => rfl
          | some p => exact absurd (w.1.mp (by simp [hd])) hc
        exact ⟨h, on w.2 this, rfl⟩
    rw [if_neg h2] at w ⊢
    by_cases h3 : r.type = 2 ∨ r.type = 15 ∨ r.type = 12 ∨ r.type = 33
    · rw [if_pos h3] at w
      rw [if_neg (by omega), if_neg (by omega), if_pos h3]
      obtain ⟨h', e, o'⟩ := od w.2
      exact ⟨h', o', by simp [e]⟩
    rw [if_neg h3] at w
    by_cases h4 : r.type = 6 ∨ r.type = 5 ∨ r.type = 65295
    · rw [if_pos h4] at w
      rw [if_neg (by omega), if_neg (by omega), if_neg h3, if_pos h4]
      exact ⟨h, on w.2 w.1, rfl⟩
    rw [if_neg h4] at w
    rw [if_neg h3, if_neg h4]
    obtain ⟨h', e, o'⟩ := ot w.2
    refine ⟨h', o', ?_⟩
    rw [e]
    simp
  obtain ⟨h', o', e⟩ := key
  rw [e]
  exact free_owns o'

theorem rrsets_owns {l : List Nat} (rs : List RRset) : ∀ {h : Heap}, (∀ r ∈ rs, r.WF) → Owns h (rs.flatMap RRset.blocks ++ l) →
    ∃ h', destroyRRs rs h = .ok h' ∧ Owns h' l := by
  induction rs with
  | nil => intro h _ o; exact ⟨h, rfl, o⟩
  | cons r rs ih =>
    intro h w o
    obtain ⟨h1, e1, o1⟩ := rrset_owns (l := rs.flatMap RRset.blocks ++ l) (w r (by simp)) (by simpa [List.append_assoc] using o)
    obtain ⟨h2, e2, o2⟩ := ih (fun r hr => w r (by simp [hr])) o1
    exact ⟨h2, by simp [destroyRRs, e1, e2], o2⟩

/-- A node that has a table just if it has children, and sets that are as they should be. -/
def Ok (n : Hdr) (k : Kids) : Prop := (∀ r ∈ n.rrsets, r.WF) ∧ (n.table.isSome ↔ k ≠ .nil)

def Kids.Good : Kids → Prop
  | .nil => True
  | .cons n k next => Ok n k ∧ k.Good ∧ next.Good

theorem kids_owns (k : Kids) : ∀ {l : List Nat} {h : Heap}, k.Good → Owns h (k.blocks ++ l) → ∃ h', k.destroy h = .ok h' ∧ Owns h' l := by
  induction k with
  | nil => intro l h _ o; exact ⟨h, rfl, o⟩
  | cons n k next ihk ihn =>
    intro l h g o
    obtain ⟨h1, e1, o1⟩ := rrsets_owns (l := k.blocks ++ (n.table.toList ++ n.id :: (next.blocks ++ l))) n.rrsets g.1.1 (o.of (by cnt))
    obtain ⟨h2, e2, o2⟩ := ihk g.2.1 o1
    obtain ⟨h3, e3, o3⟩ := freeOpt_owns o2
    obtain ⟨h4, e4, o4⟩ := free_owns o3
    obtain ⟨h5, e5, o5⟩ := ihn g.2.2 o4
    refine ⟨h5, ?_, o5⟩
    unfold Kids.destroy
    rw [e1, Outcome.bind_ok]
    cases hk : n.table.isSome with
    | true => rw [if_pos rfl, e2, Outcome.bind_ok, e3, Outcome.bind_ok, e4, Outcome.bind_ok, e5]
    | false =>
      have hn : k = .nil := by
        apply Classical.byContradiction
        intro hne
        have := g.1.2.mpr hne
        rw [hk] at this
        cases this
      subst hn
      have ht : n.table = none := by cases ht : n.table <;> simp_all
      rw [ht] at e3
      cases e2
      cases e3
      rw [if_neg (by simp), Outcome.bind_ok, e4, Outcome.bind_ok, e5]

theorem tree_owns {n : Hdr} {k : Kids} {l : List Nat} {h : Heap} (w : Ok n k) (g : k.Good) (o : Owns h (n.blocks ++ k.blocks ++ l)) :
    ∃ h', destroyTree n k h = .ok h' ∧ Owns h' l := by
  obtain ⟨h', e, o'⟩ := kids_owns (.cons n k .nil) (l := l) (h := h) ⟨w, g, trivial⟩ (o.of (by cnt))
  refine ⟨h', ?_, o'⟩
  rw [← e]
  unfold Kids.destroy destroyTree
  congr 1
  funext h1
  congr 1
  funext h2
  cases h2.free n.id <;> rfl

end Gdnsd.Own
