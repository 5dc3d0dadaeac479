/-
libgdnsd/vscf.rl: copies of data, and keys that are inherited (lines 295-352, 907-928, 1148-1226). Hashes are
lists of entries (C77).
-/
import Verif.Vscf.Model
namespace Gdnsd.Vscf

mutual

/-- `val_clone` with `simple_clone` and `array_clone` (libgdnsd/vscf.rl:312-352). -/
def clone (ignore : Bool) : Val → Outcome Val
  | .simple r v => .ok (.simple r v)
  | .array vs => (cloneVs ignore vs).map .array
  | .hash es => (cloneEs ignore es []).map .hash

/-- The loop of `array_clone` (libgdnsd/vscf.rl:316-318). -/
def cloneVs (ignore : Bool) : List Val → Outcome (List Val)
  | [] => .ok []
  | v :: vs => (clone ignore v).bind fun w => (cloneVs ignore vs).map fun ws => w :: ws

/-- The loop of `hash_clone` (libgdnsd/vscf.rl:299-307), with the new hash. -/
def cloneEs (ignore : Bool) : List (Entry Val) → List (Entry Val) → Outcome (List (Entry Val))
  | [], acc => .ok acc
  | ⟨k, m, v⟩ :: es, acc =>
    bif !ignore || !m then
      (clone ignore v).bind fun w =>
      match addEntry acc k w with
      | none => .ub
      | some acc => cloneEs ignore es acc
    else cloneEs ignore es acc

end

/-- The value of a key, in a list of entries (`vscf_hash_get_data_bykey` by C77). -/
def find (es : List (Entry Val)) (k : Bytes) : Option Val := (es.find? fun e => e.key == k).map (·.val)

/-- The mark it may set. -/
def setMark (es : List (Entry Val)) (k : Bytes) : List (Entry Val) := es.map fun e => if e.key = k then { e with marked := true } else e

/-- `vscf_hash_inherit` (libgdnsd/vscf.rl:1178-1186): the new source and destination. The results of
`vscf_hash_add_val` are not looked at there and in `bequeath`. -/
def inherit (src dest : List (Entry Val)) (k : Bytes) (mark : Bool) : Outcome (List (Entry Val) × List (Entry Val)) :=
  let k := cstr k
  let src' := if mark = true then setMark src k else src
  match find src k with
  | none => .ok (src', dest)
  | some v =>
    match find dest k with
    | some _ => .ok (src', dest)
    | none => (clone false v).map fun w => (src', (addEntry dest k w).getD dest)

/-- The loop of `vscf_hash_inherit_all` (libgdnsd/vscf.rl:1194-1196): what is left of the source. -/
def inheritFrom (src : List (Entry Val)) (skip : Bool) : List (Entry Val) → List (Entry Val) → Outcome (List (Entry Val))
  | [], dest => .ok dest
  | e :: es, dest =>
    if skip = false ∨ e.marked = false then (inherit src dest e.key false).bind fun p => inheritFrom src skip es p.2
    else inheritFrom src skip es dest

/-- `vscf_hash_inherit_all` (libgdnsd/vscf.rl:1188-1197). -/
def inheritAll (src dest : List (Entry Val)) (skip : Bool) : Outcome (List (Entry Val)) := inheritFrom src skip src dest

/-- The loop of `vscf_hash_bequeath_all` (libgdnsd/vscf.rl:1208-1214), at an index. The value that is copied
is looked up once; that it is in the hash itself is modelled by looking it up again. -/
def bequeathFrom (k : Bytes) (skip : Bool) : Nat → Nat → List (Entry Val) → Outcome (List (Entry Val))
  | 0, _, src => .ok src
  | n + 1, i, src =>
    match src[i]?, find src k with
    | some e, some v =>
      match e.val with
      | .hash es =>
        if (skip = false ∨ e.marked = false) ∧ (find es k).isNone then
          (clone false v).bind fun w => bequeathFrom k skip n (i + 1) (src.set i { e with val := .hash ((addEntry es k w).getD es) })
        else bequeathFrom k skip n (i + 1) src
      | _ => bequeathFrom k skip n (i + 1) src
    | _, _ => .ub

/-- `vscf_hash_bequeath_all` (libgdnsd/vscf.rl:1199-1226). -/
def bequeath (src : List (Entry Val)) (k : Bytes) (mark skip : Bool) : Outcome (List (Entry Val) × Bool) :=
  let k := cstr k
  match find src k with
  | none => .ok (src, false)
  | some _ => (bequeathFrom k skip src.length 0 (if mark = true then setMark src k else src)).map fun s => (s, true)

/-- `vscf_array_get_len` (libgdnsd/vscf.rl:914-919). -/
def arrLen : Val → Nat
  | .array vs => vs.length
  | _ => 1

/-- `vscf_array_get_data` (libgdnsd/vscf.rl:921-931). -/
def arrGet (v : Val) (i : Nat) : Option Val :=
  match v with
  | .array vs => if i ≥ vs.length then none else vs[i]?
  | _ => if i ≠ 0 then none else some v

end Gdnsd.Vscf
