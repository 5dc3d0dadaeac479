import Verif.Mon.Run
/-
The JSON state dump (mon.c:838-950): C54.
-/
namespace Gdnsd.Mon

/-- A C string literal's bytes. -/
def lit (s : String) : Bytes := s.toList.map fun c => c.toNat.toUInt8

/-- `json_head` (mon.c:842). -/
def jsonHead : Bytes := lit "{\n"
/-- `json_sep` (mon.c:844). -/
def jsonSep : Bytes := lit ",\n"
/-- `json_foot` (mon.c:845). -/
def jsonFoot : Bytes := lit "\n}\n"
/-- The four literal pieces of `json_tmpl` (mon.c:843). -/
def tmpl1 : Bytes := lit "\t\""
def tmpl2 : Bytes := lit "\": {\"state\": \""
def tmpl3 : Bytes := lit "\", \"real_state\": \""
def tmpl4 : Bytes := lit "\"}"
/-- `json_tmpl_len` (mon.c:848): the template without its three `%s`. -/
def tmplLen : Nat := tmpl1.length + tmpl2.length + tmpl3.length + tmpl4.length

/-- `init_max_states_len` (mon.c:852-871); `size_t` arithmetic, no wrap at real sizes. -/
def maxStatesLen (ms : List Smgr) : Nat :=
  let jsonVarLen := tmplLen + 5 * 2 + jsonSep.length
  2 * (ms.foldl (fun n m => n + m.desc.length) (jsonHead.length + jsonFoot.length + ms.length * jsonVarLen) + 1)

/-- `state_str_map` (mon.c:874-901). -/
def stateStr (hasType forced down : Bool) : Bytes :=
  match hasType, forced, down with
  | false, false, _ => lit "NA"
  | _, true, false => lit "UP!"
  | _, true, true => lit "DOWN!"
  | true, false, false => lit "UP"
  | true, false, true => lit "DOWN"

/-- `get_state_texts` (mon.c:903-918). -/
def stateTexts (m : Smgr) (cur : UInt32) : Bytes × Bytes :=
  (stateStr m.type.isSome (cur &&& FORCED != 0) (cur &&& DOWN != 0),
   stateStr m.type.isSome (m.real &&& FORCED != 0) (m.real &&& DOWN != 0))

/-- The loop of `gdnsd_mon_states_get_json` (mon.c:930-944): `first` is `i == 0`, `out` what
is written so far. `memcpy` past the buffer is undefined behaviour; so is the failed
assertion after `snprintf`, whose descriptions contain no NUL. -/
def jsonLoop (max : Nat) : Bool → List Smgr → List UInt32 → Bytes → Outcome Bytes
  | first, m :: ms, c :: cs, out =>
    let out1 := if first then out else out ++ jsonSep
    if out1.length > max then .ub else
    let t := stateTexts m c
    let txt := tmpl1 ++ m.desc ++ tmpl2 ++ t.1 ++ tmpl3 ++ t.2 ++ tmpl4
    let avail := max - out1.length
    if txt.length > 0 ∧ txt.length < avail then jsonLoop max false ms cs (out1 ++ txt) else .ub
  | _, [], _, out => .ok out
  | _, _ :: _, [], _ => .ub

/-- `gdnsd_mon_states_get_json` (mon.c:920-950); `max` was computed at start-up from the
registered descriptions. -/
def statesJson (max : Nat) (s : St) : Outcome Bytes :=
  if max = 0 then .ub else
  (jsonLoop max true s.smgrs s.sttl jsonHead).bind fun out =>
    let out := out ++ jsonFoot
    if out.length > max then .ub else
    if out.length > 0 ∧ out.length < max then .ok out else .ub

/-! ### C54 -/

/-- One line of the dump. -/
def jsonEntry (m : Smgr) (cur : UInt32) : Bytes :=
  lit "\t\"" ++ m.desc ++ lit "\": {\"state\": \"" ++ stateStr m.type.isSome (isForced cur) (isDown cur) ++
    lit "\", \"real_state\": \"" ++ stateStr m.type.isSome (isForced m.real) (isDown m.real) ++ lit "\"}"

theorem stateStr_len (a b c : Bool) : (stateStr a b c).length ≤ 5 := by
  cases a <;> cases b <;> cases c <;> decide

theorem stateTexts_eq (m : Smgr) (c : UInt32) : stateTexts m c =
    (stateStr m.type.isSome (isForced c) (isDown c), stateStr m.type.isSome (isForced m.real) (isDown m.real)) := by
  simp only [stateTexts, isForced_iff, isDown_iff]

theorem foldl_len (ms : List Smgr) (n : Nat) :
    ms.foldl (fun n m => n + m.desc.length) n = n + (ms.map (·.desc.length)).sum := by
  induction ms generalizing n with
  | nil => simp
  | cons m ms ih => simp only [List.foldl_cons, ih, List.map_cons, List.sum_cons]; omega

theorem jsonLoop_eq (max : Nat) (ms : List Smgr) (cs : List UInt32) (first : Bool) (out : Bytes)
    (hl : cs.length = ms.length)
    (hb : out.length + (ms.map (fun m => m.desc.length + tmplLen + 10 + 2)).sum < max) :
    ∃ r, jsonLoop max first ms cs out = .ok (out ++ r) ∧
      r.length ≤ (ms.map (fun m => m.desc.length + tmplLen + 10 + 2)).sum ∧
      r = (if first then [] else if ms = [] then [] else jsonSep) ++
        jsonSep.intercalate (List.zipWith jsonEntry ms cs) := by
  induction ms generalizing cs first out with
  | nil =>
    refine ⟨[], by simp [jsonLoop], by simp, ?_⟩
    simp [List.intercalate]
  | cons m ms ih =>
    cases cs with
    | nil => simp at hl
    | cons c cs =>
      have hl' : cs.length = ms.length := by simpa using hl
      simp only [List.map_cons, List.sum_cons] at hb
      have l1 := stateStr_len m.type.isSome (isForced c) (isDown c)
      have l2 := stateStr_len m.type.isSome (isForced m.real) (isDown m.real)
      have htl : (jsonEntry m c).length ≤ m.desc.length + tmplLen + 10 := by
        have : tmplLen = (lit "\t\"").length + (lit "\": {\"state\": \"").length + (lit "\", \"real_state\": \"").length + (lit "\"}").length := rfl
        simp only [jsonEntry, List.length_append]
        omega
      have hpos : (jsonEntry m c).length > 0 := by
        simp only [jsonEntry, List.length_append]
        have : (lit "\"}").length = 2 := by decide
        omega
      have hsep : jsonSep.length = 2 := by decide
      have heq : tmpl1 ++ m.desc ++ tmpl2 ++ (stateTexts m c).1 ++ tmpl3 ++ (stateTexts m c).2 ++ tmpl4 = jsonEntry m c := by
        rw [stateTexts_eq]; rfl
      have ho : (if first then out else out ++ jsonSep).length ≤ out.length + 2 := by
        split
        · omega
        · rw [List.length_append]; omega
      obtain ⟨r, h1, h2, h3⟩ := ih cs false ((if first then out else out ++ jsonSep) ++ jsonEntry m c) hl'
        (by rw [List.length_append]; omega)
      refine ⟨(if first then [] else jsonSep) ++ jsonEntry m c ++ r, ?_, ?_, ?_⟩
      · simp only [jsonLoop, heq]
        rw [if_neg (by omega), if_pos ⟨hpos, by omega⟩, h1]
        cases first <;> simp
      · simp only [List.map_cons, List.sum_cons, List.length_append]
        have : (if first then ([] : Bytes) else jsonSep).length ≤ 2 := by split <;> simp [hsep]
        omega
      · rw [h3]
        have hne : ¬ (m :: ms = []) := by simp
        rw [if_neg hne]
        cases ms with
        | nil =>
          obtain rfl : cs = [] := by simpa using hl'
          cases first <;> simp [List.intercalate]
        | cons m2 ms2 =>
          cases cs with
          | nil => simp at hl'
          | cons c2 cs2 =>
            cases first <;> simp [List.intercalate]

/-- C54. Dumping the monitored states never overruns its buffer or fails an assertion, and
lists every resource once, in registration order, with its current and its monitored
state, whatever the descriptions and states are. (Descriptions are copied verbatim: a
quote in one would make the text invalid JSON.) -/
theorem C54_dump (s : St) (hl : s.sttl.length = s.smgrs.length) :
    statesJson (maxStatesLen s.smgrs) s = .ok (lit "{\n" ++
      (lit ",\n").intercalate (List.zipWith jsonEntry s.smgrs s.sttl) ++ lit "\n}\n") := by
  have hmax : maxStatesLen s.smgrs = 2 * (5 + (s.smgrs.map (fun m => m.desc.length + tmplLen + 10 + 2)).sum + 1) := by
    have hsum : (s.smgrs.map (fun m => m.desc.length + tmplLen + 10 + 2)).sum =
        (s.smgrs.map (·.desc.length)).sum + s.smgrs.length * (tmplLen + 5 * 2 + 2) := by
      induction s.smgrs with
      | nil => simp
      | cons m ms ih =>
        simp only [List.map_cons, List.sum_cons, List.length_cons, ih, Nat.add_mul]
        omega
    unfold maxStatesLen
    dsimp only
    rw [foldl_len, hsum, show jsonSep.length = 2 by decide, show jsonHead.length = 2 by decide,
      show jsonFoot.length = 3 by decide]
    omega
  obtain ⟨r, h1, h2, h3⟩ := jsonLoop_eq (maxStatesLen s.smgrs) s.smgrs s.sttl true jsonHead hl
    (by rw [hmax, show jsonHead.length = 2 by decide]; omega)
  unfold statesJson
  rw [if_neg (by omega), h1, Outcome.bind_ok]
  have hlen : (jsonHead ++ r ++ jsonFoot).length = r.length + 5 := by
    rw [List.length_append, List.length_append, show jsonHead.length = 2 by decide, show jsonFoot.length = 3 by decide]
    omega
  dsimp only
  rw [if_neg (by omega), if_pos (by omega), h3]
  simp only [if_true, List.nil_append]
  rfl

/-- A forced-down and an admin-only resource. -/
example : statesJson (maxStatesLen [⟨[97], some ⟨2, 2, 2, 10⟩, 0, 0, 20⟩, ⟨[98], none, 0, 0, TTLMASK⟩])
    ⟨[⟨[97], some ⟨2, 2, 2, 10⟩, 0, 0, 20⟩, ⟨[98], none, 0, 0, TTLMASK⟩], [0xC0000007, TTLMASK], [0, 0], true, false, false⟩ =
    .ok (lit "{\n\t\"a\": {\"state\": \"DOWN!\", \"real_state\": \"UP\"},\n\t\"b\": {\"state\": \"NA\", \"real_state\": \"NA\"}\n}\n") := by
  decide +kernel

end Gdnsd.Mon
