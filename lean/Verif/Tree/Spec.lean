import Verif.Tree.Model
import Verif.Dname.Spec
/-
Which data a name is answered from (RFC 1034 4.3.2, RFC 4592), stated on names: lists of
labels, leftmost first. A tree of nodes is only used through `nodeAt`.
-/
namespace Gdnsd.TreeSpec
open Tree

/-- The node reached from `n` by a path of labels, topmost first. -/
def follow (n : Node) : List Bytes → Option Node
  | [] => some n
  | l :: r => (n.find l).bind fun c => follow c r

/-- The node of a name. -/
def nodeAt (root : Node) (name : List Bytes) : Option Node := follow root name.reverse

def Present (root : Node) (name : List Bytes) : Prop := (nodeAt root name).isSome = true

/-- A zone starts at this name: a zone root or a delegation. -/
def IsCut (root : Node) (name : List Bytes) : Prop := ∃ n, nodeAt root name = some n ∧ n.zcut = true

/-- `z` is the zone that holds `q`: the topmost cut at or above it. -/
def IsZone (root : Node) (q z : List Bytes) : Prop :=
  z <:+ q ∧ IsCut root z ∧ ∀ s, s <:+ z → s ≠ z → ¬ IsCut root s

/-- `c` is the topmost cut strictly below the zone `z`, at or above `q`. -/
def IsReferral (root : Node) (q z c : List Bytes) : Prop :=
  c <:+ q ∧ z <:+ c ∧ z ≠ c ∧ IsCut root c ∧ ∀ s, s <:+ c → z <:+ s → s ≠ z → s ≠ c → ¬ IsCut root s

/-- The closest encloser: the longest existing name at or above `q`. -/
def IsEncloser (root : Node) (q e : List Bytes) : Prop :=
  e <:+ q ∧ Present root e ∧ ∀ s, s <:+ q → Present root s → s <:+ e

/-- The data of a name that may not exist itself: its own, or that of the wildcard below the
closest encloser. -/
def HasData (root : Node) (q : List Bytes) (n : Node) : Prop :=
  nodeAt root q = some n ∨
  (nodeAt root q = none ∧ ∃ e, IsEncloser root q e ∧ nodeAt root ([42] :: e) = some n)

/-- Where a name is. -/
inductive Place where
  | outside
  | referral (zone cut : List Bytes)
  | data (zone : List Bytes) (n : Node)
  | missing (zone : List Bytes)

/-- Where `q` is in the tree. -/
def Located (root : Node) (q : List Bytes) : Place → Prop
  | .outside => ∀ s, s <:+ q → ¬ IsCut root s
  | .referral z c => IsZone root q z ∧ IsReferral root q z c
  | .data z n => IsZone root q z ∧ (∀ c, ¬ IsReferral root q z c) ∧ HasData root q n
  | .missing z => IsZone root q z ∧ (∀ c, ¬ IsReferral root q z c) ∧ ∀ n, ¬ HasData root q n

end Gdnsd.TreeSpec
