/-
Copies of data, and what is inherited.
-/
import Verif.Vscf.Model
namespace Gdnsd.VscfSpec
open Vscf (Val Entry)

mutual

/-- The same data without marks, and without what is marked if that is not wanted. -/
inductive Copy (ignore : Bool) : Val → Val → Prop
  | simple {r v} : Copy ignore (.simple r v) (.simple r v)
  | array {vs ws} : Copies ignore vs ws → Copy ignore (.array vs) (.array ws)
  | hash {es fs} : CopyOf ignore es fs → Copy ignore (.hash es) (.hash fs)

inductive Copies (ignore : Bool) : List Val → List Val → Prop
  | nil : Copies ignore [] []
  | cons {v w vs ws} : Copy ignore v w → Copies ignore vs ws → Copies ignore (v :: vs) (w :: ws)

inductive CopyOf (ignore : Bool) : List (Entry Val) → List (Entry Val) → Prop
  | nil : CopyOf ignore [] []
  | keep {k m v w es fs} : (ignore = true → m = false) → Copy ignore v w → CopyOf ignore es fs → CopyOf ignore (⟨k, m, v⟩ :: es) (⟨k, false, w⟩ :: fs)
  | skip {k v es fs} : ignore = true → CopyOf ignore es fs → CopyOf ignore (⟨k, true, v⟩ :: es) fs

end

mutual

/-- In every hash the keys are different. -/
inductive Sound : Val → Prop
  | simple {r v} : Sound (.simple r v)
  | array {vs} : Sounds vs → Sound (.array vs)
  | hash {es} : (es.map (·.key)).Nodup → SoundOf es → Sound (.hash es)

inductive Sounds : List Val → Prop
  | nil : Sounds []
  | cons {v vs} : Sound v → Sounds vs → Sounds (v :: vs)

inductive SoundOf : List (Entry Val) → Prop
  | nil : SoundOf []
  | cons {k m v es} : Sound v → SoundOf es → SoundOf (⟨k, m, v⟩ :: es)

end

/-- A key is in a hash. -/
def Has (es : List (Entry Val)) (k : Bytes) : Prop := ∃ e ∈ es, e.key = k

/-- The entries that are handed down, copied: those of the source the destination does not have. -/
inductive HandDown (skip : Bool) (dest : List (Entry Val)) : List (Entry Val) → List (Entry Val) → Prop
  | nil : HandDown skip dest [] []
  | give {k m v w es fs} : (skip = true → m = false) → ¬ Has dest k → Copy false v w → HandDown skip dest es fs →
      HandDown skip dest (⟨k, m, v⟩ :: es) (⟨k, false, w⟩ :: fs)
  | own {e es fs} : Has dest e.key → HandDown skip dest es fs → HandDown skip dest (e :: es) fs
  | skip {e es fs} : skip = true → e.marked = true → HandDown skip dest es fs → HandDown skip dest (e :: es) fs

/-- What a child is after the value `v` of key `k` was handed down: a hash without that key gets a copy. -/
inductive Child (skip : Bool) (k : Bytes) (v : Val) : Entry Val → Entry Val → Prop
  | gets {key m es w} : (skip = true → m = false) → ¬ Has es k → Copy false v w → Child skip k v ⟨key, m, .hash es⟩ ⟨key, m, .hash (es ++ [⟨k, false, w⟩])⟩
  | has {key m es} : Has es k → Child skip k v ⟨key, m, .hash es⟩ ⟨key, m, .hash es⟩
  | other {e} : (∀ es, e.val ≠ .hash es) → Child skip k v e e
  | skip {e} : skip = true → e.marked = true → Child skip k v e e

/-- So for each child. -/
inductive Children (skip : Bool) (k : Bytes) (v : Val) : List (Entry Val) → List (Entry Val) → Prop
  | nil : Children skip k v [] []
  | cons {e f es fs} : Child skip k v e f → Children skip k v es fs → Children skip k v (e :: es) (f :: fs)

end Gdnsd.VscfSpec
