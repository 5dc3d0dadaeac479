/-
What loading a zone file and merging a zone do to memory.
-/
import Verif.Own.Nodes
namespace Gdnsd.Own

/-! ### Zones -/

def Zone.Good (z : Zone) : Prop := Tree z.root z.kids ∧ z.root.zcut = true

theorem zoneNew_owns (s : Nat) {h : Heap} {l : List Nat} (o : Owns h l) :
    (Zone.new s h).1.Good ∧ Owns (Zone.new s h).2 ((Zone.new s h).1.blocks ++ l) := by
  have o3 := arenaNew_owns (alloc_owns (alloc_owns (alloc_owns o)))
  refine ⟨⟨⟨⟨fun r hr => by simp [Zone.new] at hr, by simp [Zone.new]⟩, trivial⟩, rfl⟩, ?_⟩
  unfold Zone.new
  dsimp only
  split
  · exact o3.of (by cnt)
  · exact (dup_owns s o3).of (by cnt)

theorem zoneDestroy_owns {z : Zone} {h : Heap} {l : List Nat} (g : z.Good) (o : Owns h (z.blocks ++ l)) :
    ∃ h', z.destroy h = .ok h' ∧ Owns h' (z.arena.blocks ++ l) := by
  obtain ⟨h1, e1, o1⟩ := tree_owns (l := z.dname :: z.self :: (z.arena.blocks ++ l)) g.1.1 g.1.2 (o.of (by cnt))
  obtain ⟨h2, e2, o2⟩ := free_owns o1
  obtain ⟨h3, e3, o3⟩ := free_owns o2
  exact ⟨h3, by simp [Zone.destroy, e1, e2, e3], o3⟩

theorem zoneAdd_owns {z : Zone} {c : Rec} {text : Option Nat} {h : Heap} {l : List Nat} (g : z.Good) (hs : c.kind = .soa → c.path = [])
    (o : Owns h (z.blocks ++ given c text ++ l)) :
    ∃ r, z.add c text h = .ok r ∧ r.z.Good ∧ Owns r.h (r.z.blocks ++ rest r.bad (given c text) ++ l) := by
  unfold Zone.add
  split
  · exact ⟨_, rfl, g, o⟩
  · obtain ⟨r, e, p, hz, or⟩ := descend_owns tree_closed (onNode_spec c c.path.isEmpty text (fun h => by rw [hs h]; rfl)) c.path z.root z.kids z.arena h
      (z.self :: z.dname :: l) g.1 (o.of (by cnt))
    rw [e, Outcome.map_ok]
    exact ⟨_, rfl, ⟨p, hz g.2⟩, or.of (by cnt)⟩

/-! ### Scanning -/

/-- Between statements nothing is left over. -/
def Scan.Idle (s : Scan) : Prop := s.text = none ∧ s.raw = none ∧ s.name = none

theorem addToks_owns (toks : List Bool) : ∀ {s : Scan} {h : Heap} {l : List Nat}, Owns h (s.blocks ++ l) →
    ∃ y, addToks toks s h = .ok y ∧ y.2.1.raw = s.raw ∧ y.2.1.name = s.name ∧ Owns y.2.2 (y.2.1.blocks ++ l) := by
  induction toks with
  | nil => intro s h l o; exact ⟨_, rfl, rfl, rfl, o⟩
  | cons t toks ih =>
    intro s h l o
    have oa := alloc_owns o
    unfold addToks
    split
    · obtain ⟨x, e, ox⟩ := realloc_owns (q := s.text) (l := h.alloc.1 :: s.self :: s.fmap :: (s.buf.toList ++ s.raw.toList ++ s.name.toList ++ l)) (oa.of (by cnt))
      obtain ⟨h1, e1, o1⟩ := free_owns (q := h.alloc.1) (l := x.1 :: s.self :: s.fmap :: (s.buf.toList ++ s.raw.toList ++ s.name.toList ++ l)) (ox.of (by cnt))
      obtain ⟨y, ey, h2, h3, oy⟩ := ih (s := { s with text := some x.1 }) (h := h1) (l := l) (o1.of (by cnt))
      exact ⟨y, by rw [e, Outcome.bind_ok, e1, Outcome.bind_ok, ey], h2, h3, oy⟩
    · obtain ⟨h1, e1, o1⟩ := free_owns oa
      rw [e1, Outcome.map_ok]
      exact ⟨_, rfl, rfl, rfl, o1⟩

theorem stmt_owns (st : Stmt) {s : Scan} {z : Zone} {h : Heap} {l : List Nat} (g : z.Good) (i : s.Idle) (o : Owns h (s.blocks ++ z.blocks ++ l)) :
    ∃ r, stmt st s z h = .ok r ∧ r.z.Good ∧ (r.bad = false → r.s.Idle) ∧ Owns r.h (r.s.blocks ++ r.z.blocks ++ l) := by
  obtain ⟨i1, i2, i3⟩ := i
  have as : assert s.text.isNone = .ok () := by rw [i1]; rfl
  cases st with
  | plain r =>
    unfold stmt
    dsimp only
    split
    · exact ⟨_, rfl, g, by simp, o⟩
    rename_i hs
    have hg : given r none = [] := by unfold given; split <;> rfl
    obtain ⟨x, e, gx, ox⟩ := zoneAdd_owns (c := r) (text := none) (l := s.blocks ++ l) g (fun hk => by simpa [hk] using hs) (o.of (by rw [hg]; cnt))
    rw [e, Outcome.map_ok]
    exact ⟨_, rfl, gx, fun _ => ⟨i1, i2, i3⟩, ox.of (by rw [hg]; cnt)⟩
  | texts naptr toks cut r =>
    unfold stmt
    dsimp only
    rw [as, Outcome.bind_ok]
    obtain ⟨y, ey, h2, h3, oy⟩ := addToks_owns toks (s := s) (h := h) (l := z.blocks ++ l) (o.of (by cnt))
    rw [ey, Outcome.bind_ok]
    split
    · exact ⟨_, rfl, g, by simp, oy.of (by cnt)⟩
    have hg : given { r with kind := if naptr = true then .naptr else .txt } y.2.1.text = y.2.1.text.toList := by
      unfold given
      cases naptr <;> rfl
    obtain ⟨x, e, gx, ox⟩ := zoneAdd_owns (c := { r with kind := if naptr = true then .naptr else .txt }) (text := y.2.1.text)
      (l := y.2.1.self :: y.2.1.fmap :: (y.2.1.buf.toList ++ y.2.1.raw.toList ++ y.2.1.name.toList ++ l)) g
      (fun hk => by cases naptr <;> cases hk) (oy.of (by rw [hg]; cnt))
    rw [e, Outcome.map_ok]
    rw [hg] at ox
    cases hb : x.bad with
    | true => exact ⟨_, rfl, gx, by simp, ox.of (by rw [hb]; simp only [if_true]; cnt)⟩
    | false => exact ⟨_, rfl, gx, fun _ => ⟨rfl, h2.trans i2, h3.trans i3⟩, ox.of (by rw [hb]; simp only [Bool.false_eq_true, if_false]; cnt)⟩
  | caa tok cut r =>
    unfold stmt
    dsimp only
    rw [as, Outcome.bind_ok]
    have o1 := alloc_owns o
    split
    · obtain ⟨h1, e1, o2⟩ := free_owns o1
      rw [e1, Outcome.map_ok]
      exact ⟨_, rfl, g, by simp, o2⟩
    split
    · exact ⟨_, rfl, g, by simp, o1.of (by simp only [Scan.blocks, i1]; cnt)⟩
    have o2 := alloc_owns o1
    have hg : given { r with kind := .raw 257 } (some h.alloc.2.alloc.1) = [h.alloc.2.alloc.1] := rfl
    obtain ⟨x, e, gx, ox⟩ := zoneAdd_owns (c := { r with kind := .raw 257 }) (text := some h.alloc.2.alloc.1)
      (l := h.alloc.1 :: (s.blocks ++ l)) g (fun hk => by cases hk) (o2.of (by rw [hg]; cnt))
    rw [e, Outcome.bind_ok]
    rw [hg] at ox
    cases hb : x.bad with
    | true =>
      obtain ⟨h1, e1, o3⟩ := free_owns (q := h.alloc.2.alloc.1) (l := h.alloc.1 :: (s.blocks ++ x.z.blocks ++ l)) (ox.of (by rw [hb]; cnt))
      rw [if_pos rfl, e1, Outcome.map_ok]
      exact ⟨_, rfl, gx, by simp, o3.of (by simp only [Scan.blocks, i1]; cnt)⟩
    | false =>
      obtain ⟨h1, e1, o3⟩ := freeOpt_owns (q := some h.alloc.1) (l := s.blocks ++ x.z.blocks ++ l) (ox.of (by rw [hb]; cnt))
      rw [if_neg (by simp), e1, Outcome.map_ok]
      exact ⟨_, rfl, gx, fun _ => ⟨rfl, i2, i3⟩, o3.of (by simp only [Scan.blocks, i1]; cnt)⟩
  | raw t cut r =>
    unfold stmt
    dsimp only
    have o1 := alloc_owns o
    split
    · exact ⟨_, rfl, g, by simp, o1.of (by simp only [Scan.blocks, i2]; cnt)⟩
    have hg : given { r with kind := .raw t } (some h.alloc.1) = [h.alloc.1] := rfl
    obtain ⟨x, e, gx, ox⟩ := zoneAdd_owns (c := { r with kind := .raw t }) (text := some h.alloc.1)
      (l := s.blocks ++ l) g (fun hk => by cases hk) (o1.of (by rw [hg]; cnt))
    rw [e, Outcome.map_ok]
    rw [hg] at ox
    cases hb : x.bad with
    | true => exact ⟨_, rfl, gx, by simp, ox.of (by rw [hb]; simp only [if_true, Scan.blocks, i2]; cnt)⟩
    | false => exact ⟨_, rfl, gx, fun _ => ⟨i1, rfl, i3⟩, ox.of (by rw [hb]; simp only [Bool.false_eq_true, if_false, Scan.blocks, i2]; cnt)⟩
  | err => exact ⟨_, rfl, g, by simp, o⟩

theorem openScan_owns (op : Open) {h : Heap} {l : List Nat} (o : Owns h l) :
    ∃ p, openScan op h = .ok p ∧ match p.1 with
      | none => Owns p.2 l
      | some s => s.Idle ∧ Owns p.2 (s.blocks ++ l) := by
  cases op with
  | no => exact ⟨_, rfl, o⟩
  | unread =>
    obtain ⟨h1, e1, o1⟩ := free_owns (alloc_owns o)
    unfold openScan
    dsimp only
    rw [e1, Outcome.map_ok]
    exact ⟨_, rfl, o1⟩
  | ok mapped closeBad =>
    refine ⟨_, rfl, ⟨rfl, rfl, rfl⟩, ?_⟩
    cases mapped with
    | true => exact (alloc_owns (alloc_owns o)).of (by simp only [if_true]; cnt)
    | false => exact (alloc_owns (alloc_owns (alloc_owns o))).of (by simp only [Bool.false_eq_true, if_false]; cnt)

theorem closeScan_owns (op : Open) (bad : Bool) {s : Scan} {h : Heap} {l : List Nat} (o : Owns h (s.blocks ++ l)) :
    ∃ c, closeScan op bad s h = .ok c ∧ (bad = true → c.1 = true) ∧ Owns c.2 l := by
  obtain ⟨h1, e1, o1⟩ := freeOpt_owns (q := s.buf) (l := s.fmap :: (s.text.toList ++ (s.raw.toList ++ (s.name.toList ++ s.self :: l)))) (o.of (by cnt))
  obtain ⟨h2, e2, o2⟩ := free_owns o1
  obtain ⟨h3, e3, o3⟩ := freeOpt_owns o2
  obtain ⟨h4, e4, o4⟩ := freeOpt_owns o3
  obtain ⟨h5, e5, o5⟩ := freeOpt_owns o4
  obtain ⟨h6, e6, o6⟩ := free_owns o5
  unfold closeScan
  rw [e1, Outcome.bind_ok, e2, Outcome.bind_ok, e3, Outcome.bind_ok, e4, Outcome.bind_ok, e5, Outcome.bind_ok, e6, Outcome.map_ok]
  refine ⟨_, rfl, ?_, o6⟩
  intro hb
  dsimp only
  split
  · rfl
  · exact hb

theorem scan_owns (f : File) : ∀ {s : Scan} {z : Zone} {h : Heap} {l : List Nat}, z.Good → s.Idle → Owns h (s.blocks ++ z.blocks ++ l) →
    ∃ r, scan f s z h = .ok r ∧ r.z.Good ∧ Owns r.h (r.s.blocks ++ r.z.blocks ++ l) := by
  induction f with
  | done bad => intro s z h l g _ o; exact ⟨_, rfl, g, o⟩
  | stmt st fs ih =>
    intro s z h l g i o
    obtain ⟨r, e, gr, ir, or⟩ := stmt_owns st g i o
    unfold scan
    rw [e, Outcome.bind_ok]
    split
    · exact ⟨_, rfl, gr, or⟩
    · rename_i hb
      exact ih gr (ir (by simpa using hb)) or
  | incl nameOk originOk op sub fs ihs ihf =>
    intro s z h l g i o
    obtain ⟨i1, i2, i3⟩ := i
    have o1 := alloc_owns o
    unfold scan
    split
    · obtain ⟨h1, e1, o2⟩ := free_owns o1
      rw [e1, Outcome.map_ok]
      exact ⟨_, rfl, g, o2⟩
    dsimp only
    split
    · exact ⟨_, rfl, g, o1.of (by simp only [Scan.blocks, i3]; cnt)⟩
    have hs : ({ s with name := none } : Scan) = s := by cases s; cases i3; rfl
    rw [hs]
    have o2 := alloc_owns o1
    obtain ⟨h2, e2, o3⟩ := free_owns (q := h.alloc.1) (l := h.alloc.2.alloc.1 :: (s.blocks ++ z.blocks ++ l)) (o2.of (by cnt))
    rw [e2, Outcome.bind_ok]
    obtain ⟨p, ep, hp⟩ := openScan_owns op o3
    rw [ep, Outcome.bind_ok]
    obtain ⟨p1, p2⟩ := p
    cases p1 with
    | none =>
      obtain ⟨h3, e3, o4⟩ := free_owns hp
      dsimp only
      rw [e3, Outcome.map_ok]
      exact ⟨_, rfl, g, o4⟩
    | some s2 =>
      dsimp only
      obtain ⟨r, er, gr, or⟩ := ihs (l := h.alloc.2.alloc.1 :: (s.blocks ++ l)) g hp.1 (hp.2.of (by cnt))
      rw [er, Outcome.bind_ok]
      obtain ⟨c, ec, _, oc⟩ := closeScan_owns op r.bad (s := r.s) (l := r.z.blocks ++ h.alloc.2.alloc.1 :: (s.blocks ++ l)) (or.of (by cnt))
      rw [ec, Outcome.bind_ok]
      obtain ⟨h3, e3, o4⟩ := free_owns (q := h.alloc.2.alloc.1) (l := s.blocks ++ r.z.blocks ++ l) (oc.of (by cnt))
      rw [e3, Outcome.bind_ok]
      split
      · exact ⟨_, rfl, gr, o4⟩
      · exact ihf gr ⟨i1, i2, i3⟩ o4

theorem scanFile_owns (op : Open) (f : File) {z : Zone} {h : Heap} {l : List Nat} (g : z.Good) (o : Owns h (z.blocks ++ l)) :
    ∃ r, scanFile op f z h = .ok r ∧ r.z.Good ∧ (op = .no ∨ f = .done true → r.bad = true) ∧ Owns r.h (r.z.blocks ++ l) := by
  obtain ⟨p, ep, hp⟩ := openScan_owns op o
  unfold scanFile
  rw [ep, Outcome.bind_ok]
  obtain ⟨p1, p2⟩ := p
  cases p1 with
  | none => exact ⟨_, rfl, g, fun _ => rfl, hp⟩
  | some s =>
    dsimp only
    obtain ⟨r, er, gr, or⟩ := scan_owns f (l := l) g hp.1 (hp.2.of (by cnt))
    rw [er, Outcome.bind_ok]
    obtain ⟨c, ec, hc, oc⟩ := closeScan_owns op r.bad (s := r.s) (l := r.z.blocks ++ l) (or.of (by cnt))
    rw [ec, Outcome.map_ok]
    refine ⟨_, rfl, gr, ?_, oc⟩
    rintro (rfl | rfl)
    · cases ep
    · cases er
      exact hc rfl

/-! ### Merging -/

/-- Nodes above zones have no data. -/
def Kids.Top : Kids → Prop
  | .nil => True
  | .cons n k next => (n.zcut = true ∨ (n.rrsets = [] ∧ k.Top)) ∧ next.Top

def Above (n : Hdr) (k : Kids) : Prop := Tree n k ∧ (n.zcut = true ∨ (n.rrsets = [] ∧ k.Top))

theorem above_closed : Closed Hdr.zcut Above (fun k => k.Good ∧ k.Top) where
  down := fun n k hs h => ⟨h.1.2, (h.2.resolve_left (by simp [hs])).2⟩
  nil := ⟨trivial, trivial⟩
  cons := fun n k next => ⟨fun h => ⟨⟨⟨h.1.1, h.1.2.1⟩, h.2.1⟩, h.1.2.2, h.2.2⟩, fun h => ⟨⟨h.1.1.1, h.1.1.2, h.2.1⟩, h.1.2, h.2.2⟩⟩
  fresh := fun i l => ⟨tree_closed.fresh i l, Or.inr ⟨rfl, trivial⟩⟩
  ok := fun _ _ h => h.1.1
  keep := fun n k k' hs h h1 h2 h3 => ⟨tree_closed.keep n k k' rfl h.1 h1 h2 h3.1, Or.inr ⟨(h.2.resolve_left (by simp [hs])).1, h3.2⟩⟩
  table := fun n k k' t hs h h2 h3 => ⟨tree_closed.table n k k' t rfl h.1 h2 h3.1, Or.inr ⟨(h.2.resolve_left (by simp [hs])).1, h3.2⟩⟩

theorem count_zero {k : Kids} (h : ¬ k.count ≠ 0) : k = .nil := by
  cases k with
  | nil => rfl
  | cons n k next => simp [Kids.count] at h

theorem mergeInto_spec {z : Zone} (g : z.Good) : NodeSpec Above (mergeInto z) z.blocks := by
  intro n k a h l hp o
  unfold mergeInto
  split
  · exact ⟨_, rfl, hp, fun hz => hz, o⟩
  rename_i hz
  split
  · exact ⟨_, rfl, hp, fun hz => hz, o⟩
  rename_i hc
  have hk := count_zero hc
  subst hk
  have hr : n.rrsets = [] := (hp.2.resolve_left hz).1
  have ht : n.table = none := by
    cases ht : n.table with
    | none => rfl
    | some t => exact absurd rfl (hp.1.1.2.mp (by simp [ht]))
  rw [ht, hr]
  rw [show assert ((none : Option Nat).isNone && ([] : List RRset).isEmpty) = .ok () from rfl, Outcome.bind_ok]
  obtain ⟨h1, e1, o1⟩ := free_owns (q := z.root.id) (l := z.dname :: (a.blocks ++ z.arena.blocks ++ z.self :: n.id :: (z.root.table.toList ++ z.root.rrsets.flatMap RRset.blocks ++ z.kids.blocks ++ l)))
    (o.of (by simp only [Hdr.blocks, ht, hr]; cnt))
  obtain ⟨h2, e2, o2⟩ := free_owns o1
  obtain ⟨m, e3, o3⟩ := arenaMerge_owns o2
  obtain ⟨h4, e4, o4⟩ := free_owns (q := z.self) (l := m.1.blocks ++ n.id :: (z.root.table.toList ++ z.root.rrsets.flatMap RRset.blocks ++ z.kids.blocks ++ l)) (o3.of (by cnt))
  rw [e1, Outcome.bind_ok, e2, Outcome.bind_ok, e3, Outcome.bind_ok, e4, Outcome.map_ok]
  exact ⟨_, rfl, ⟨⟨⟨g.1.1.1, g.1.1.2⟩, g.1.2⟩, Or.inl g.2⟩, fun _ => g.2, o4.of (by cnt)⟩

theorem merge_spec {z : Zone} (path : List Bytes) (g : z.Good) : NodeSpec Above (merge path z) z.blocks := by
  intro n k a h l hp o
  unfold merge
  rw [g.2, assert_true, Outcome.bind_ok]
  exact descend_owns above_closed (mergeInto_spec g) path n k a h l hp o

end Gdnsd.Own
