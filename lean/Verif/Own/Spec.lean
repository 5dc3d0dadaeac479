/-
What belongs to what: the blocks that can be reached from zone data, and what it means that memory is made up of
exactly these.
-/
import Verif.Own.Model
namespace Gdnsd.Own

def RRset.blocks (r : RRset) : List Nat := r.id :: (r.data.toList ++ r.texts.filterMap _root_.id)

/-- The blocks of a node without its children. -/
def Hdr.blocks (n : Hdr) : List Nat := n.id :: (n.table.toList ++ n.rrsets.flatMap RRset.blocks)

def Kids.blocks : Kids → List Nat
  | .nil => []
  | .cons n k next => n.blocks ++ k.blocks ++ next.blocks

def Arena.blocks (a : Arena) : List Nat := a.self :: a.array :: a.pools

def Zone.blocks (z : Zone) : List Nat := z.self :: z.dname :: (z.root.blocks ++ z.kids.blocks ++ z.arena.blocks)

/-- The memory is exactly these blocks: each of them is allocated, no other is, and none is listed twice. -/
def Exactly (h : Heap) (l : List Nat) : Prop := l.Nodup ∧ ∀ p, p ∈ h.live ↔ p ∈ l

/-- The blocks of the data that is served. -/
def Proc.blocks (p : Proc) : List Nat :=
  match p.data with
  | none => []
  | some (n, k, a) => n.blocks ++ k.blocks ++ a.blocks

/-- A zone file for which a zone is made, but not loaded. -/
def ZFile.Spoilt (f : ZFile) : Prop := f.short = true ∧ f.legal = true ∧ (f.postBad = true ∨ f.opn = .no ∨ f.file = .done true)

/-- The zone files of a directory. -/
def Dir.files : Dir → List ZFile
  | .ok l _ _ => l.filterMap fun | .file f => some f | _ => none
  | _ => []

/-- A directory that exists but cannot be read to its end. -/
def Dir.unread : Dir → Bool
  | .absent => false
  | .no => true
  | .ok l endBad closeBad => l.contains .statBad || endBad || closeBad

/-- A directory that can be read, where all files have names of zones but one of them does not load. -/
def Dir.Spoilt (d : Dir) : Prop :=
  d.unread = false ∧ (∀ f ∈ d.files, f.short = true ∧ f.legal = true) ∧ ∃ f ∈ d.files, f.Spoilt

/-- A history: reloads one after the other, each with its settings, directory and order of the workers, and
whether it failed. -/
inductive Run : Proc → List (Bool × Dir) → Prop
  | init : Run .init []
  | reload (p l threads d sched b p') : Run p l → 0 < threads → p.reload threads d sched = .ok (b, p') → Run p' (l ++ [(b, d)])

/-- The number of files in directories that could be read and were not loaded. -/
def unloaded (l : List (Bool × Dir)) : Nat := ((l.filter fun x => x.1 && !x.2.unread).map fun x => x.2.files.length).sum

end Gdnsd.Own
