import Verif.Mon.Model
/-
Independent vocabulary for C25-C27: what a state value means, the anti-flap rule stated
on histories of check results, and which entry of an admin file applies to a resource.
-/
namespace Gdnsd.Mon

/-- The high bit says down. -/
def isDown (s : UInt32) : Bool := s.toNat.testBit 31
/-- The next bit says forced by the administrator. -/
def isForced (s : UInt32) : Bool := s.toNat.testBit 30
/-- The TTL is the low 28 bits. -/
def ttl (s : UInt32) : Nat := s.toNat % 2 ^ 28
/-- The two reserved bits are zero. -/
def Valid (s : UInt32) : Prop := s.toNat.testBit 28 = false ∧ s.toNat.testBit 29 = false

instance (s : UInt32) : Decidable (Valid s) := by unfold Valid; infer_instance

/-- `n` successes in a row occur somewhere in `s`. -/
def HasRun (n : Nat) (s : List Bool) : Prop := List.replicate n true <:+: s

instance (n : Nat) (s : List Bool) : Decidable (HasRun n s) := by unfold HasRun; infer_instance

/-- Failures that still count: those not followed by `ok` successes in a row. Oldest
result first. -/
def pending (ok : Nat) : List Bool → Nat
  | [] => 0
  | x :: s => pending ok s + if x = false ∧ ¬ HasRun ok s then 1 else 0

/-- The anti-flap rule. `Flap t d0 h d s`: starting (after the initial check) in state
`d0` (`true` is down), results `h` (oldest first) lead to state `d`, and `s` are the
results since the last state change. -/
inductive Flap (t : SvcType) (d0 : Bool) : List Bool → Bool → List Bool → Prop where
  | start : Flap t d0 [] d0 []
  /-- An up resource goes down when `down` failures count … -/
  | goDown {h s x} : Flap t d0 h false s → t.down ≤ pending t.ok (s ++ [x]) → Flap t d0 (h ++ [x]) true []
  /-- … and not before. -/
  | stayUp {h s x} : Flap t d0 h false s → pending t.ok (s ++ [x]) < t.down → Flap t d0 (h ++ [x]) false (s ++ [x])
  /-- A down resource comes up when the last `up` results were successes … -/
  | goUp {h s x} : Flap t d0 h true s → List.replicate t.up true <:+ s ++ [x] → Flap t d0 (h ++ [x]) false []
  /-- … and not before. -/
  | stayDown {h s x} : Flap t d0 h true s → ¬ List.replicate t.up true <:+ s ++ [x] →
      Flap t d0 (h ++ [x]) true (s ++ [x])

/-- The last entry whose pattern matches `desc`, if any. -/
def lastMatch (fnm : Fnmatch) (desc : Bytes) : List (Bytes × Option Bytes) → Option (Option Bytes)
  | [] => none
  | (g, v) :: es =>
    match lastMatch fnm desc es with
    | some r => some r
    | none => if fnm g desc = some true then some v else none

/-- A file is acceptable: it scanned to a hash, every value is a string of the form
STATE[/TTL], and every pattern can be matched against every resource. -/
def Acceptable (fnm : Fnmatch) (descs : List Bytes) (es : List (Bytes × Option Bytes)) : Prop :=
  ∀ g v, (g, v) ∈ es → (∃ str sttl, v = some str ∧ parseSttl str TTLMASK = .ok (some sttl)) ∧
    ∀ d, d ∈ descs → fnm g d ≠ none

/-- The administrator's file in force after some events: the last acceptable one, none
after a deletion; unacceptable files are ignored. -/
inductive InForce (fnm : Fnmatch) (descs : List Bytes) (f0 : List (Bytes × Option Bytes)) :
    List Event → List (Bytes × Option Bytes) → Prop where
  | start : InForce fnm descs f0 [] f0
  | load {es f f'} : InForce fnm descs f0 es f → Acceptable fnm descs f' →
      InForce fnm descs f0 (es ++ [.file (some f')]) f'
  | refuse {es f f'} : InForce fnm descs f0 es f → (∀ x, f' = some x → ¬ Acceptable fnm descs x) →
      InForce fnm descs f0 (es ++ [.file f']) f
  | delete {es f} : InForce fnm descs f0 es f → InForce fnm descs f0 (es ++ [.deleted]) []
  | other {es f e} : InForce fnm descs f0 es f → (∀ f', e ≠ .file f') → e ≠ .deleted →
      InForce fnm descs f0 (es ++ [e]) f

/-- The state of a resource given the file in force and its monitored state: the last
matching entry's state, marked forced, else the monitored one. -/
def Shown (fnm : Fnmatch) (f : List (Bytes × Option Bytes)) (desc : Bytes) (real shown : UInt32) : Prop :=
  match lastMatch fnm desc f with
  | none => shown = real
  | some v => ∃ str sttl, v = some str ∧ parseSttl str TTLMASK = .ok (some sttl) ∧
      isForced shown = true ∧ isDown shown = isDown sttl ∧ ttl shown = ttl sttl ∧ Valid shown

end Gdnsd.Mon
