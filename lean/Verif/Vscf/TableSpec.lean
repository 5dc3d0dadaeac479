/-
What a hash is to its users: a list of entries with different keys, in order.
-/
import Verif.Vscf.Model
namespace Gdnsd.VscfSpec
open Vscf (Entry)

variable {α σ : Type}

abbrev Dict (α : Type) := List (Entry α)

/-- A new entry is the last one. A key that is there already is refused. -/
def Dict.add (d : Dict α) (k : Bytes) (v : α) : Option (Dict α) :=
  if ∃ e ∈ d, e.key = k then none else some (d ++ [⟨k, false, v⟩])

def Dict.get : Dict α → Bytes → Option α
  | [], _ => none
  | e :: d, k => if e.key = k then some e.val else Dict.get d k

def Dict.mark (d : Dict α) (k : Bytes) : Dict α :=
  List.map (fun e : Entry α => if e.key = k then { e with marked := true } else e) d

/-- The number of entries before the one with this key. -/
def Dict.index : Dict α → Bytes → Option Nat
  | [], _ => none
  | e :: d, k => if e.key = k then some 0 else (Dict.index d k).map (· + 1)

/-- Call `f` for each entry in order, but for those that are marked if these are not wanted, until it says
no. -/
def Dict.walk (ignore : Bool) (f : σ → Bytes → α → Bool × σ) : Dict α → σ → σ
  | [], x => x
  | e :: d, x =>
    if ignore = true ∧ e.marked = true then Dict.walk ignore f d x
    else if (f x e.key e.val).1 = true then Dict.walk ignore f d (f x e.key e.val).2
    else (f x e.key e.val).2

/-- The entries in another order. -/
def Dict.reorder (d : Dict α) (p : List Nat) : Dict α := p.filterMap fun i => d[i]?

/-- What may be done with a hash. -/
inductive TOp (α : Type) where
  | add (k : Bytes) (v : α)
  | get (k : Bytes) (mark : Bool)
  | nth (i : Nat)
  | index (k : Bytes)
  | sort (p : List Nat)

/-- What comes back. -/
inductive TRes (α : Type) where
  | done (b : Bool)
  | val (v : Option α)
  | entry (e : Option (Bytes × α))
  | num (i : Int)

/-- What each of these does, and what comes back. -/
def Dict.step (d : Dict α) : TOp α → Dict α × TRes α
  | .add k v =>
    match d.add k v with
    | none => (d, .done false)
    | some d' => (d', .done true)
  | .get k mark => (if mark = true then d.mark k else d, .val (d.get k))
  | .nth i => (d, .entry (Option.map (fun e : Entry α => (e.key, e.val)) d[i]?))
  | .index k => (d, .num (match d.index k with | none => -1 | some i => i))
  | .sort p => (d.reorder p, .done true)

/-- One after the other. -/
def Dict.steps (d : Dict α) : List (TOp α) → Dict α × List (TRes α)
  | [] => (d, [])
  | o :: os => let (d', r) := d.step o; let (d'', rs) := d'.steps os; (d'', r :: rs)

/-- Sorting gives every entry one place. -/
def OpOk (d : Dict α) : TOp α → Prop
  | .sort p => p.Perm (List.range (d.length))
  | _ => True

/-- All are so, one after the other. -/
def OpsOk (d : Dict α) : List (TOp α) → Prop
  | [] => True
  | o :: os => OpOk d o ∧ OpsOk (d.step o).1 os

end Gdnsd.VscfSpec
