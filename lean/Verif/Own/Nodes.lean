/-
What the functions on nodes do to memory.
-/
import Verif.Own.Heap
namespace Gdnsd.Own

/-! ### Sets -/

/-- A function on a set that takes `x` into it unless it fails. -/
def OldSpec (t : Nat) (old : RRset → Heap → Outcome (Bool × RRset × Heap)) (x : List Nat) : Prop :=
  ∀ r h l, r.WF → r.type = t → Owns h (r.blocks ++ x ++ l) →
    ∃ y, old r h = .ok y ∧ y.2.1.WF ∧ Owns y.2.2 (y.2.1.blocks ++ rest y.1 x ++ l)

def NewSpec (new : Heap → RRset × Heap) (x : List Nat) : Prop :=
  ∀ h l, Owns h (x ++ l) → (new h).1.WF ∧ Owns (new h).2 ((new h).1.blocks ++ l)

theorem onSet_owns {t : Nat} {old new} {x : List Nat} (so : OldSpec t old x) (sn : NewSpec new x) (rs : List RRset) :
    ∀ {h l}, (∀ r ∈ rs, r.WF) → Owns h (rs.flatMap RRset.blocks ++ x ++ l) →
    ∃ s, onSet t old new rs h = .ok s ∧ (∀ r ∈ s.rs, r.WF) ∧ Owns s.h (s.rs.flatMap RRset.blocks ++ rest s.bad x ++ l) := by
  induction rs with
  | nil =>
    intro h l _ o
    obtain ⟨w, o'⟩ := sn h l (o.of (by cnt))
    refine ⟨_, rfl, ?_, ?_⟩
    · intro r hr
      rw [List.mem_singleton.mp hr]
      exact w
    · exact o'.of (by cnt)
  | cons r rs ih =>
    intro h l w o
    unfold onSet
    split
    · rename_i ht
      obtain ⟨y, e, wy, oy⟩ := so r h (rs.flatMap RRset.blocks ++ l) (w r (by simp)) ht (o.of (by cnt))
      rw [e, Outcome.map_ok]
      refine ⟨_, rfl, ?_, ?_⟩
      · intro q hq
        rcases List.mem_cons.mp hq with rfl | hq
        · exact wy
        · exact w q (by simp [hq])
      · exact oy.of (by cnt)
    · obtain ⟨s, e, ws, os⟩ := ih (h := h) (l := r.blocks ++ l) (fun q hq => w q (by simp [hq])) (o.of (by cnt))
      rw [e, Outcome.map_ok]
      refine ⟨_, rfl, ?_, ?_⟩
      · intro q hq
        rcases List.mem_cons.mp hq with rfl | hq
        · exact w q (by simp)
        · exact ws q hq
      · exact os.of (by cnt)

theorem oldA_spec (c : Rec) : OldSpec 1 (oldA c) [] := by
  intro r h l w ht o
  unfold RRset.WF at w
  rw [if_pos ht] at w
  unfold oldA
  split
  · exact ⟨_, rfl, by unfold RRset.WF; rw [if_pos ht]; exact w, o.of (by cnt)⟩
  split
  · exact ⟨_, rfl, by unfold RRset.WF; rw [if_pos ht]; exact w, o.of (by cnt)⟩
  split
  · rename_i hc
    have hd : r.data = none := by
      cases hd : r.data with
      | none => rfl
      | some p => exact absurd (w.1.mp (by simp [hd])) (by omega)
    split
    · refine ⟨_, rfl, ?_, ?_⟩
      · unfold RRset.WF
        rw [if_pos ht]
        exact ⟨by simp, w.2⟩
      · refine (alloc_owns o).of ?_
        simp only [RRset.blocks, hd]
        cnt
    · rename_i hc'
      refine ⟨_, rfl, ?_, o.of (by cnt)⟩
      unfold RRset.WF
      rw [if_pos ht]
      refine ⟨?_, w.2⟩
      dsimp only
      rw [hd]
      simp
      omega
  · rename_i hc
    obtain ⟨x, e, ox⟩ := realloc_owns (q := r.data) (l := r.id :: (r.texts.filterMap _root_.id ++ l)) (o.of (by cnt))
    rw [e, Outcome.map_ok]
    refine ⟨_, rfl, ?_, ox.of (by cnt)⟩
    unfold RRset.WF
    rw [if_pos ht]
    refine ⟨?_, w.2⟩
    simp
    omega

theorem newA_spec : NewSpec newA [] := by
  intro h l o
  refine ⟨?_, (alloc_owns o).of (by unfold newA; cnt)⟩
  unfold RRset.WF newA
  rw [if_pos rfl]
  simp [v4a]

theorem oldAaaa_spec (c : Rec) : OldSpec 28 (oldAaaa c) [] := by
  intro r h l w ht o
  have w0 := w
  unfold RRset.WF at w
  rw [if_neg (by omega), if_pos ht] at w
  unfold oldAaaa
  split
  · exact ⟨_, rfl, w0, o.of (by cnt)⟩
  split
  · exact ⟨_, rfl, w0, o.of (by cnt)⟩
  obtain ⟨x, e, ox⟩ := realloc_owns (q := r.data) (l := r.id :: (r.texts.filterMap _root_.id ++ l)) (o.of (by cnt))
  rw [e, Outcome.map_ok]
  refine ⟨_, rfl, ?_, ox.of (by cnt)⟩
  unfold RRset.WF
  dsimp only
  rw [if_neg (by omega), if_pos ht]
  exact ⟨by simp, w.2⟩

theorem newAaaa_spec : NewSpec newAaaa [] := by
  intro h l o
  refine ⟨?_, (alloc_owns (alloc_owns o)).of (by unfold newAaaa; cnt)⟩
  unfold RRset.WF newAaaa
  simp

/-- Types whose elements have no texts. -/
def Bare (t : Nat) : Prop := t = 2 ∨ t = 15 ∨ t = 12 ∨ t = 33

/-- Types whose elements have one each. -/
def Textual (t : Nat) : Prop := t ≠ 1 ∧ t ≠ 28 ∧ ¬ Bare t ∧ ¬ (t = 6 ∨ t = 5 ∨ t = 65295)

theorem WF_bare {r : RRset} (h : Bare r.type) : r.WF ↔ r.data.isSome ∧ r.texts = [] := by
  unfold Bare at h
  unfold RRset.WF
  rw [if_neg (by omega), if_neg (by omega), if_pos h]

theorem WF_textual {r : RRset} (h : Textual r.type) : r.WF ↔ r.data.isSome ∧ r.texts.length = r.count := by
  obtain ⟨h1, h2, h3, h4⟩ := h
  unfold Bare at h3
  unfold RRset.WF
  rw [if_neg h1, if_neg h2, if_neg h3, if_neg h4]

theorem oldNext_spec (t assume : Nat) (tx : List (Option Nat)) (ht : (Bare t ∧ tx = []) ∨ (Textual t ∧ tx.length = 1)) (c : Rec) :
    OldSpec t (oldNext assume tx c) (tx.filterMap _root_.id) := by
  intro r h l w hty o
  unfold oldNext
  split
  · exact ⟨_, rfl, w, o.of (by cnt)⟩
  have wf : ∀ d : Nat, ∀ r' : RRset, r'.type = r.type → r'.data.isSome → r'.count = r.count + 1 → r'.texts = r.texts ++ tx → r'.WF := by
    intro d r' h1 h2 h3 h4
    rcases ht with ⟨hb, htx⟩ | ⟨hb, htx⟩
    · rw [← hty] at hb
      rw [WF_bare (h1 ▸ hb)]
      rw [WF_bare hb] at w
      exact ⟨h2, by rw [h4, w.2, htx]; rfl⟩
    · rw [← hty] at hb
      rw [WF_textual (h1 ▸ hb)]
      rw [WF_textual hb] at w
      exact ⟨h2, by rw [h4, List.length_append, w.2, htx, h3]⟩
  split
  · obtain ⟨x, e, ox⟩ := realloc_owns (q := r.data) (l := r.id :: (r.texts.filterMap _root_.id ++ tx.filterMap _root_.id ++ l)) (o.of (by cnt))
    rw [e, Outcome.map_ok]
    refine ⟨_, rfl, wf 0 _ rfl rfl rfl rfl, ox.of ?_⟩
    simp only [RRset.blocks, List.filterMap_append]
    cnt
  · have hd : r.data.isSome := by
      rcases ht with ⟨hb, _⟩ | ⟨hb, _⟩
      · rw [← hty] at hb
        exact ((WF_bare hb).mp w).1
      · rw [← hty] at hb
        exact ((WF_textual hb).mp w).1
    refine ⟨_, rfl, wf 0 _ rfl hd rfl rfl, o.of ?_⟩
    simp only [RRset.blocks, List.filterMap_append]
    cnt

theorem newNext_spec (t : Nat) (tx : List (Option Nat)) (ht : (Bare t ∧ tx = []) ∨ (Textual t ∧ tx.length = 1)) :
    NewSpec (newNext t tx) (tx.filterMap _root_.id) := by
  intro h l o
  refine ⟨?_, (alloc_owns (alloc_owns o)).of (by unfold newNext; cnt)⟩
  rcases ht with ⟨hb, htx⟩ | ⟨hb, htx⟩
  · exact (WF_bare hb).mpr ⟨rfl, htx⟩
  · exact (WF_textual hb).mpr ⟨rfl, htx⟩

theorem addSet_WF {i t c : Nat} (h : (t = 6 ∨ t = 5 ∨ t = 65295) ∨ ((t = 1 ∨ t = 28) ∧ c = 0)) : RRset.WF ⟨i, t, c, none, []⟩ := by
  unfold RRset.WF
  dsimp only
  rcases h with h | ⟨h | h, hc⟩
  · rw [if_neg (by omega), if_neg (by omega), if_neg (by omega), if_pos h]
    exact ⟨rfl, rfl⟩
  · rw [if_pos h]
    simp [hc]
  · rw [if_neg (by omega), if_pos h]
    simp [hc]

/-! ### Nodes -/

/-- A function on a node that takes `x` into it unless it fails. -/
def NodeSpec (P : Hdr → Kids → Prop) (f : Hdr → Kids → Arena → Heap → Outcome Res) (x : List Nat) : Prop :=
  ∀ n k a h l, P n k → Owns h (n.blocks ++ k.blocks ++ a.blocks ++ x ++ l) →
    ∃ r, f n k a h = .ok r ∧ P r.n r.k ∧ (n.zcut = true → r.n.zcut = true) ∧
      Owns r.h (r.n.blocks ++ r.k.blocks ++ r.a.blocks ++ rest r.bad x ++ l)

/-- Conditions for nodes and lists of children that go together. -/
structure Closed (stop : Hdr → Bool) (P : Hdr → Kids → Prop) (G : Kids → Prop) : Prop where
  down : ∀ n k, stop n = false → P n k → G k
  nil : G .nil
  cons : ∀ n k next, G (.cons n k next) ↔ P n k ∧ G next
  fresh : ∀ i l, P ⟨i, l, false, [], none⟩ .nil
  ok : ∀ n k, P n k → Ok n k
  keep : ∀ n k k', stop n = false → P n k → k ≠ .nil → k' ≠ .nil → G k' → P n k'
  table : ∀ n k k' t, stop n = false → P n k → k' ≠ .nil → G k' → P { n with table := some t } k'

theorem upd_owns {stop P G} (C : Closed stop P G) {g x} (sg : NodeSpec P g x) (lb : Bytes) (k : Kids) :
    ∀ {a h l}, k.has lb = true → G k → Owns h (k.blocks ++ a.blocks ++ x ++ l) →
    ∃ r, k.upd lb g a h = .ok r ∧ G r.k ∧ r.k ≠ .nil ∧ Owns r.h (r.k.blocks ++ r.a.blocks ++ rest r.bad x ++ l) := by
  induction k with
  | nil => intro a h l hh _ _; cases hh
  | cons n k next _ ih =>
    intro a h l hh hg o
    obtain ⟨hp, hn⟩ := (C.cons _ _ _).mp hg
    unfold Kids.upd
    split
    · obtain ⟨r, e, hr, _, or⟩ := sg n k a h (next.blocks ++ l) hp (o.of (by cnt))
      rw [e, Outcome.map_ok]
      exact ⟨_, rfl, (C.cons _ _ _).mpr ⟨hr, hn⟩, (by simp), or.of (by cnt)⟩
    · rename_i hl
      have hh' : next.has lb = true := by
        simp only [Kids.has, Bool.or_eq_true, beq_iff_eq] at hh
        exact hh.resolve_left hl
      obtain ⟨r, e, hr, _, or⟩ := ih (a := a) (h := h) (l := n.blocks ++ k.blocks ++ l) hh' hn (o.of (by cnt))
      rw [e, Outcome.map_ok]
      exact ⟨_, rfl, (C.cons _ _ _).mpr ⟨hp, hr⟩, (by simp), or.of (by cnt)⟩

theorem snoc_ne (c : Hdr) (ck k : Kids) : snoc c ck k ≠ .nil := by
  cases k <;> (intro h; cases h)

theorem snoc_G {stop P G} (C : Closed stop P G) {c : Hdr} {ck : Kids} (hc : P c ck) (k : Kids) (hk : G k) : G (snoc c ck k) := by
  induction k with
  | nil => exact (C.cons _ _ _).mpr ⟨hc, C.nil⟩
  | cons n k next _ ih =>
    obtain ⟨h1, h2⟩ := (C.cons _ _ _).mp hk
    exact (C.cons _ _ _).mpr ⟨h1, ih h2⟩

theorem snoc_blocks (c : Hdr) (ck k : Kids) : ∀ p, (snoc c ck k).blocks.count p = (c.blocks ++ ck.blocks ++ k.blocks).count p := by
  induction k with
  | nil => intro p; simp [snoc, Kids.blocks]
  | cons n k next _ ih =>
    intro p
    have := ih p
    simp only [snoc, Kids.blocks, List.count_append] at this ⊢
    omega

theorem count_ne {k : Kids} (h : k.count ≠ 0) : k ≠ .nil := by
  rintro rfl
  exact h rfl

theorem grow_owns {stop P G} (C : Closed stop P G) {n : Hdr} {k : Kids} {h : Heap} {l : List Nat} (hs : stop n = false) (hp : P n k)
    (o : Owns h (n.blocks ++ l)) :
    ∃ g, grow n k.count h = .ok g ∧ (∀ k', k' ≠ .nil → G k' → P g.1 k') ∧ g.1.zcut = n.zcut ∧ Owns g.2 (g.1.blocks ++ l) := by
  unfold grow
  split
  · have o1 := alloc_owns o
    obtain ⟨h', e, o'⟩ := freeOpt_owns (q := n.table) (l := h.alloc.1 :: (n.id :: (n.rrsets.flatMap RRset.blocks ++ l))) (o1.of (by cnt))
    exact ⟨({ n with table := some h.alloc.1 }, h'), by dsimp only; rw [e]; rfl, fun k' h1 h2 => C.table n k k' _ hs hp h1 h2, rfl, o'.of (by cnt)⟩
  · rename_i hc
    exact ⟨(n, h), rfl, fun k' h1 h2 => C.keep n k k' hs hp (count_ne (fun h0 => hc (Or.inl h0))) h1 h2, rfl, o⟩

theorem descend_owns {stop P G} (C : Closed stop P G) {f x} (sf : NodeSpec P f x) (path : List Bytes) :
    NodeSpec P (descend stop f path) x := by
  induction path with
  | nil => exact sf
  | cons lb path ih =>
    intro n k a h l hp o
    unfold descend
    split
    · exact ⟨_, rfl, hp, fun hz => hz, o⟩
    rename_i hs
    have hs : stop n = false := by simpa using hs
    split
    · rename_i hh
      obtain ⟨r, e, hr, hne, or⟩ := upd_owns C ih lb k (a := a) (h := h) (l := n.blocks ++ l) hh (C.down _ _ hs hp) (o.of (by cnt))
      have hkne : k ≠ .nil := by rintro rfl; cases hh
      rw [e, Outcome.map_ok]
      exact ⟨_, rfl, C.keep n k _ hs hp hkne hne hr, fun hz => hz, or.of (by cnt)⟩
    · obtain ⟨g, eg, hg, hz, og⟩ := grow_owns C (l := k.blocks ++ a.blocks ++ x ++ l) hs hp (o.of (by cnt))
      have oc := alloc_owns og
      have od := dup_owns (a := a) (lb.length + 1) (l := g.2.alloc.1 :: (g.1.blocks ++ k.blocks ++ x ++ l)) (oc.of (by cnt))
      obtain ⟨r, e, hr, _, or⟩ := ih ⟨g.2.alloc.1, lb, false, [], none⟩ .nil (a.dup (lb.length + 1) g.2.alloc.2).1 (a.dup (lb.length + 1) g.2.alloc.2).2
        (g.1.blocks ++ k.blocks ++ l) (C.fresh _ _) (od.of (by cnt))
      rw [eg, Outcome.bind_ok, e, Outcome.map_ok]
      refine ⟨_, rfl, hg _ (snoc_ne _ _ _) (snoc_G C hr k (C.down _ _ hs hp)), fun h0 => hz.trans h0, or.of ?_⟩
      intro p
      have := snoc_blocks r.n r.k k p
      simp only [List.count_append] at this ⊢
      omega

/-! ### Records -/

def Tree (n : Hdr) (k : Kids) : Prop := Ok n k ∧ k.Good

theorem tree_closed : Closed (fun _ => false) Tree Kids.Good where
  down := fun _ _ _ h => h.2
  nil := trivial
  cons := fun n k next => ⟨fun h => ⟨⟨h.1, h.2.1⟩, h.2.2⟩, fun h => ⟨h.1.1, h.1.2, h.2⟩⟩
  fresh := fun i l => ⟨⟨fun r hr => by simp at hr, by simp⟩, trivial⟩
  ok := fun _ _ h => h.1
  keep := fun n k k' _ h h1 h2 h3 => ⟨⟨h.1.1, ⟨fun _ => h2, fun _ => h.1.2.mpr h1⟩⟩, h3⟩
  table := fun n k k' t _ h h2 h3 => ⟨⟨h.1.1, ⟨fun _ => h2, fun _ => rfl⟩⟩, h3⟩

theorem tree_sets {n n' : Hdr} {k : Kids} (h : Tree n k) (ht : n'.table = n.table) (w : ∀ r ∈ n'.rrsets, r.WF) : Tree n' k :=
  ⟨⟨w, by rw [ht]; exact h.1.2⟩, h.2⟩

theorem next_spec (t assume : Nat) (tx : List (Option Nat)) (ht : (Bare t ∧ tx = []) ∨ (Textual t ∧ tx.length = 1)) (c : Rec)
    (hl : c.late = false ∨ tx = []) : NodeSpec Tree (next t assume tx c) (tx.filterMap _root_.id) := by
  intro n k a h l hp o
  obtain ⟨s, e, w, os⟩ := onSet_owns (oldNext_spec t assume tx ht c) (newNext_spec t tx ht) n.rrsets (h := h)
    (l := n.id :: (n.table.toList ++ k.blocks ++ a.blocks ++ l)) hp.1.1 (o.of (by cnt))
  unfold next
  rw [e, Outcome.map_ok]
  cases hb : s.bad with
  | true =>
    refine ⟨_, rfl, tree_sets hp rfl w, fun hz => hz, os.of ?_⟩
    rw [hb]
    simp only [if_true]
    cnt
  | false =>
    have od := dup_owns (a := a) c.size (l := n.id :: (n.table.toList ++ k.blocks ++ l ++ s.rs.flatMap RRset.blocks)) (os.of (by rw [hb]; cnt))
    refine ⟨_, rfl, tree_sets hp rfl w, fun hz => hz, od.of ?_⟩
    have : rest c.late (tx.filterMap _root_.id) = [] := by
      rcases hl with h | h
      · simp [rest, h]
      · simp [rest, h]
    simp only [Bool.false_eq_true, if_false, this]
    cnt

theorem sets_spec {t old new} {x : List Nat} (so : OldSpec t old x) (sn : NewSpec new x) :
    NodeSpec Tree (fun n k a h => (onSet t old new n.rrsets h).map fun s => ⟨s.bad, { n with rrsets := s.rs }, k, a, s.h⟩) x := by
  intro n k a h l hp o
  obtain ⟨s, e, w, os⟩ := onSet_owns so sn n.rrsets (h := h) (l := n.id :: (n.table.toList ++ k.blocks ++ a.blocks ++ l)) hp.1.1 (o.of (by cnt))
  dsimp only
  rw [e, Outcome.map_ok]
  exact ⟨_, rfl, tree_sets hp rfl w, fun hz => hz, os.of (by cnt)⟩

theorem addSet_owns {t c : Nat} {n : Hdr} {k : Kids} {h : Heap} {l : List Nat}
    (ht : (t = 6 ∨ t = 5 ∨ t = 65295) ∨ ((t = 1 ∨ t = 28) ∧ c = 0)) (hp : Tree n k) (o : Owns h (n.blocks ++ l)) :
    Tree (addSet t c n h).1 k ∧ (addSet t c n h).1.zcut = n.zcut ∧ Owns (addSet t c n h).2 ((addSet t c n h).1.blocks ++ l) := by
  refine ⟨tree_sets hp rfl ?_, rfl, (alloc_owns o).of (by unfold addSet; cnt)⟩
  intro r hr
  rcases List.mem_append.mp hr with hr | hr
  · exact hp.1.1 r hr
  · rw [List.mem_singleton.mp hr]
    exact addSet_WF ht

/-- What a record takes over. -/
def given (c : Rec) (text : Option Nat) : List Nat :=
  match c.kind with
  | .naptr => text.toList
  | .txt => text.toList
  | .raw _ => text.toList
  | _ => []

theorem toList_eq (t : Option Nat) : [t].filterMap _root_.id = t.toList := by cases t <;> rfl

theorem refused_not {t : Nat} (h : refused t = false) : Textual t := by
  unfold refused at h
  simp only [Bool.or_eq_false_iff, List.contains_eq_mem, decide_eq_false_iff_not, List.mem_cons, List.not_mem_nil, or_false, beq_eq_false_iff_ne] at h
  unfold Textual Bare
  omega

theorem onNode_spec (c : Rec) (top : Bool) (text : Option Nat) (hs : c.kind = .soa → top = true) :
    NodeSpec Tree (onNode c top text) (given c text) := by
  intro n k a h l hp o
  have stay : ∀ x, Owns h (n.blocks ++ k.blocks ++ a.blocks ++ x ++ l) →
      ∃ r, (.ok ⟨true, n, k, a, h⟩ : Outcome Res) = .ok r ∧ Tree r.n r.k ∧ (n.zcut = true → r.n.zcut = true) ∧
        Owns r.h (r.n.blocks ++ r.k.blocks ++ r.a.blocks ++ rest r.bad x ++ l) :=
    fun x o => ⟨_, rfl, hp, fun hz => hz, o⟩
  have bare : ∀ t, Bare t → (Bare t ∧ ([] : List (Option Nat)) = []) ∨ (Textual t ∧ ([] : List (Option Nat)).length = 1) := fun t h => Or.inl ⟨h, rfl⟩
  have text1 : ∀ t, Textual t → (Bare t ∧ [text] = []) ∨ (Textual t ∧ [text].length = 1) := fun t h => Or.inr ⟨h, rfl⟩
  unfold onNode
  cases hk : c.kind with
  | a =>
    simp only [given, hk] at o ⊢
    exact sets_spec (oldA_spec c) newA_spec n k a h l hp o
  | aaaa =>
    simp only [given, hk] at o ⊢
    exact sets_spec (oldAaaa_spec c) newAaaa_spec n k a h l hp o
  | dyna =>
    simp only [given, hk] at o ⊢
    split
    · exact stay [] o
    split
    · exact stay [] o
    obtain ⟨p1, z1, o1⟩ := addSet_owns (t := 1) (c := 0) (l := k.blocks ++ a.blocks ++ l) (Or.inr ⟨Or.inl rfl, rfl⟩) hp (o.of (by cnt))
    obtain ⟨p2, z2, o2⟩ := addSet_owns (t := 28) (c := 0) (Or.inr ⟨Or.inr rfl, rfl⟩) p1 o1
    exact ⟨_, rfl, p2, fun hz => hz, o2.of (by cnt)⟩
  | cname =>
    simp only [given, hk] at o ⊢
    split
    · exact stay [] o
    obtain ⟨p1, z1, o1⟩ := addSet_owns (t := 5) (c := 1) (l := k.blocks ++ a.blocks ++ l) (Or.inl (by omega)) hp (o.of (by cnt))
    have od := dup_owns (a := a) c.size (l := (addSet 5 1 n h).1.blocks ++ k.blocks ++ l) (o1.of (by cnt))
    exact ⟨_, rfl, p1, fun hz => hz, od.of (by cnt)⟩
  | dync =>
    simp only [given, hk] at o ⊢
    split
    · exact stay [] o
    obtain ⟨p1, z1, o1⟩ := addSet_owns (t := 65295) (c := 0) (l := k.blocks ++ a.blocks ++ l) (Or.inl (by omega)) hp (o.of (by cnt))
    exact ⟨_, rfl, p1, fun hz => hz, o1.of (by cnt)⟩
  | ptr =>
    simp only [given, hk] at o ⊢
    exact next_spec 12 1 [] (bare 12 (by unfold Bare; omega)) c (Or.inr rfl) n k a h l hp o
  | ns =>
    simp only [given, hk] at o ⊢
    have hp' : Tree (if top = true then n else { n with zcut := true }) k := by
      split
      · exact hp
      · exact tree_sets hp rfl hp.1.1
    have hb' : (if top = true then n else { n with zcut := true }).blocks = n.blocks := by split <;> rfl
    have hz' : n.zcut = true → (if top = true then n else { n with zcut := true }).zcut = true := by
      intro hz
      split
      · exact hz
      · rfl
    rw [← hb'] at o
    generalize (if top = true then n else { n with zcut := true }) = n' at *
    split
    · exact ⟨_, rfl, hp', hz', o.of (by cnt)⟩
    obtain ⟨s, e, w, os⟩ := onSet_owns (oldNext_spec 2 2 [] (bare 2 (by unfold Bare; omega)) c) (newNext_spec 2 [] (bare 2 (by unfold Bare; omega))) n'.rrsets (h := h)
      (l := n'.id :: (n'.table.toList ++ k.blocks ++ a.blocks ++ l)) hp'.1.1 (o.of (by cnt))
    rw [e, Outcome.map_ok]
    split
    · exact ⟨_, rfl, tree_sets hp' rfl w, hz', os.of (by cnt)⟩
    · have od := dup_owns (a := a) c.size (l := n'.id :: (n'.table.toList ++ k.blocks ++ l ++ s.rs.flatMap RRset.blocks)) (os.of (by cnt))
      exact ⟨_, rfl, tree_sets hp' rfl w, hz', od.of (by cnt)⟩
  | mx =>
    simp only [given, hk] at o ⊢
    exact next_spec 15 2 [] (bare 15 (by unfold Bare; omega)) _ (Or.inr rfl) n k a h l hp o
  | srv =>
    simp only [given, hk] at o ⊢
    exact next_spec 33 1 [] (bare 33 (by unfold Bare; omega)) _ (Or.inr rfl) n k a h l hp o
  | naptr =>
    simp only [given, hk] at o ⊢
    rw [← toList_eq] at o ⊢
    exact next_spec 35 1 [text] (text1 35 (by unfold Textual Bare; omega)) _ (Or.inl rfl) n k a h l hp o
  | txt =>
    simp only [given, hk] at o ⊢
    split
    · exact stay _ o
    · rw [← toList_eq] at o ⊢
      exact sets_spec (oldNext_spec 16 1 [text] (text1 16 (by unfold Textual Bare; omega)) c) (newNext_spec 16 [text] (text1 16 (by unfold Textual Bare; omega))) n k a h l hp o
  | soa =>
    simp only [given, hk] at o ⊢
    rw [hs hk]
    simp only [assert_true, Outcome.bind_ok]
    split
    · exact stay [] o
    obtain ⟨p1, z1, o1⟩ := addSet_owns (t := 6) (c := 0) (l := k.blocks ++ a.blocks ++ l) (Or.inl (by omega)) hp (o.of (by cnt))
    have od := dup_owns (a := a) c.size (l := (addSet 6 0 n h).1.blocks ++ k.blocks ++ l) (o1.of (by cnt))
    exact ⟨_, rfl, p1, fun hz => hz, od.of (by cnt)⟩
  | raw t =>
    simp only [given, hk] at o ⊢
    split
    · exact stay _ o
    · rename_i hr
      have ht := refused_not (by simpa using hr : refused t = false)
      rw [← toList_eq] at o ⊢
      exact sets_spec (oldNext_spec t 1 [text] (text1 t ht) c) (newNext_spec t [text] (text1 t ht)) n k a h l hp o

end Gdnsd.Own
