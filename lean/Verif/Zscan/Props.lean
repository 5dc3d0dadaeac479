/-
C48-C50, C71 and C72: zone files.
-/
import Verif.Zscan.TextLemmas
import Verif.Zscan.OkLemmas
import Verif.Load.Props
namespace Gdnsd.Zscan
open ZscanSpec DnameSpec LookupSpec EncSpec LoadSpec Dname
open Load (Rdata Add)

/-! ### C48: comments and parentheses -/

def preIs (text : Bytes) (r : Except Nat Bytes) : Bool :=
  match pre false false .plain 1 text, r with
  | .ok (.ok a), .ok b => decide (a = b)
  | .ok (.error m), .error n => decide (m = n)
  | _, _ => false

theorem preIs_eq {text : Bytes} {r : Except Nat Bytes} (h : preIs text r = true) : pre false false .plain 1 text = .ok r := by
  unfold preIs at h
  split at h
  · rename_i h1; rw [h1, of_decide_eq_true h]
  · rename_i h1; rw [h1, of_decide_eq_true h]
  · cases h

/-- C48. The preprocessor accepts exactly the texts that are a sequence of pieces with matching quotes and
parentheses, and writes what they are in one dimension. -/
theorem C48_flat (text out : Bytes) : pre false false .plain 1 text = .ok (.ok out) ↔ Flattens text out := flattens_iff text out 1

/-- C48. It stays inside of every text that ends in a newline. -/
theorem C48_safe (text : Bytes) (h : text.getLast? = some 10) : ∃ r, pre false false .plain 1 text = .ok r := by
  cases hp : pre false false .plain 1 text with
  | ok r => exact ⟨r, rfl⟩
  | ub => exact absurd hp (pre_safe text _ _ _ _ (fun _ => rfl) (fun _ => h))

/-- C48. Every character keeps its place, and is kept or becomes a blank: a form feed for a newline, a space
for others. -/
theorem C48_places (text out : List UInt8) (h : Flattens text out) : out.length = text.length ∧
    ∀ (i : Nat) (a b : UInt8), text[i]? = some a → out[i]? = some b → b = a ∨ (b = 32 ∧ a ≠ 10) ∨ (b = 12 ∧ a = 10) :=
  shadow_get (pre_shadow ((flattens_iff text out 1).mpr h))

/-- C48. An error is reported with the number of the line: where there is a parenthesis or a form feed, or
the end of the text. -/
theorem C48_line (text : Bytes) (n : Nat) (h : pre false false .plain 1 text = .ok (.error n)) :
    ∃ a b, text = a ++ b ∧ n = 1 + a.count 10 ∧ (b = [] ∨ b.head? = some 40 ∨ b.head? = some 41 ∨ b.head? = some 12) :=
  pre_line text _ _ _ _ _ h

/-- `a ( b ; c` and `"(" )` on two lines. -/
example : Flattens [97, 40, 98, 59, 99, 10, 34, 40, 34, 41, 10] [97, 32, 98, 32, 32, 12, 34, 40, 34, 32, 10] :=
  (C48_flat _ _).mp (preIs_eq (by decide +kernel))

/-- A parenthesis too many, on the second line. -/
example : pre false false .plain 1 [97, 10, 98, 41, 10] = .ok (.error 2) := preIs_eq (by decide +kernel)

/-! ### C49: text -/

/-- C49. The data of a sequence of text tokens are the strings of the texts they stand for: each text in
parts of 255 bytes, none empty but for an empty text, no more than 16000 bytes with the lengths. There are
no others, and it is an error if a text is too long or splitting is switched off. -/
theorem C49_text (cfg : Cfg) (big : Bool) (ts : List Bytes) (out : Bytes) :
    addToks cfg big [] ts = .ok (some out) ↔
      ∃ os pss, Texts ts os ∧ List.length pss = os.length ∧ (∀ x ∈ os.zip pss, Parts x.1 x.2) ∧ out = strings pss.flatten ∧ out.length ≤ 16000 ∧
        ∀ o ∈ os, 255 < o.length → big = true ∧ cfg.noSplit = false := by
  have := toks_parts cfg big [] ts out (by simp)
  simpa using this

/-- C49. It never writes outside of its buffer. -/
theorem C49_safe (cfg : Cfg) (big : Bool) (ts : List Bytes) : ∃ r, addToks cfg big [] ts = .ok r := by
  cases h : addToks cfg big [] ts with
  | ok r => exact ⟨r, rfl⟩
  | ub => exact absurd h (toks_safe cfg big [] ts)

/-- C49. Nothing is lost or added: the parts of a text make the text, and each is as long as its length says. -/
theorem C49_lossless {o : Bytes} {ps : List Bytes} (h : Parts o ps) : ps.flatten = o ∧ ∀ p ∈ ps, p.length ≤ 255 ∧ (UInt8.ofNat p.length).toNat = p.length := by
  refine ⟨h.2.1, fun p hp => ?_⟩
  have hl : p.length ≤ 255 := by
    rw [← List.dropLast_concat_getLast h.1] at hp
    rcases List.mem_append.mp hp with hp | hp
    · exact Nat.le_of_eq (h.2.2.1 p hp)
    · simp only [List.mem_singleton] at hp
      exact (h.2.2.2 p (by rw [List.getLast?_eq_some_getLast h.1, hp])).1
  refine ⟨hl, ?_⟩
  rw [UInt8.toNat_ofNat']
  omega

example : Parts (List.replicate 300 7) [List.replicate 255 7, List.replicate 45 7] := by
  refine ⟨by decide, by decide +kernel, by decide +kernel, ?_⟩
  intro p hp
  simp at hp
  subst hp
  decide +kernel

/-! ### C50: names -/

/-- The scanner somewhere in a file: in the zone `zone`, with these origins. -/
def at_ (zone origin fileOrigin : List Bytes) (lhs : Bytes) (ooz : Bool) (ttl : UInt32) (fn : Bytes) : Z :=
  ⟨encode zone true, encode origin true, encode fileOrigin true, lhs, ooz, ttl, fn⟩

def ctx (zone origin fileOrigin : List Bytes) : Ctx := ⟨zone, origin, fileOrigin, zone, 0, []⟩

theorem rel_at {zone origin fileOrigin : List Bytes} (hz : WF zone) (ho : WF origin) (hf : WF fileOrigin) (io : zone <:+ origin) (jf : zone <:+ fileOrigin) :
    Rel (at_ zone origin fileOrigin [1, 0] false 0 []) (ctx zone origin fileOrigin) := by
  refine ⟨rfl, rfl, rfl, hz, ho, hf, io, jf, hz, ?_, rfl, rfl⟩
  rw [if_neg (by simp [outside, ctx])]
  exact ⟨rfl, [], rfl, rfl⟩

/-- C50. A name on the right side of a record is the one that its text denotes (`Resolves`), or reported if
the text denotes none. -/
theorem C50_right {zone origin fileOrigin : List Bytes} (hz : WF zone) (ho : WF origin) (hf : WF fileOrigin) (io : zone <:+ origin) (jf : zone <:+ fileOrigin)
    (lhs : Bytes) (ooz : Bool) (ttl : UInt32) (fn text : Bytes) (ht : text ≠ []) :
    (∃ n, Resolves (ctx zone origin fileOrigin) text n ∧ dnameSet (at_ zone origin fileOrigin lhs ooz ttl fn) text false = .ok (some (encode n true, false))) ∨
    ((¬ ∃ n, Resolves (ctx zone origin fileOrigin) text n) ∧ dnameSet (at_ zone origin fileOrigin lhs ooz ttl fn) text false = .ok none) :=
  dnameSet_rhs _ _ (rel_at hz ho hf io jf) text ht

/-- C50. The owner of a record likewise; it is stored without the zone's name if it is in the zone, and marked
if it is not. An owner in empty quotes is the origin. -/
theorem C50_left {zone origin fileOrigin : List Bytes} (hz : WF zone) (ho : WF origin) (hf : WF fileOrigin) (io : zone <:+ origin) (jf : zone <:+ fileOrigin)
    (lhs : Bytes) (ooz : Bool) (ttl : UInt32) (fn text : Bytes) :
    (∃ n, (if text = [] then n = origin else Resolves (ctx zone origin fileOrigin) text n) ∧
      ((∃ o, n = o ++ zone ∧ dnameSet (at_ zone origin fileOrigin lhs ooz ttl fn) text true = .ok (some (encode o true, false))) ∨
       (¬ zone <:+ n ∧ dnameSet (at_ zone origin fileOrigin lhs ooz ttl fn) text true = .ok (some (encode n true, true))))) ∨
    ((¬ ∃ n, if text = [] then n = origin else Resolves (ctx zone origin fileOrigin) text n) ∧
      dnameSet (at_ zone origin fileOrigin lhs ooz ttl fn) text true = .ok none) := by
  rcases dnameSet_lhs _ _ (rel_at hz ho hf io jf) text with ⟨n, d, z, h1, h2, h3, h4⟩ | h
  · left
    refine ⟨n, h1, ?_⟩
    unfold OwnerIs at h3
    by_cases hx : ¬ zone <:+ n
    · rw [if_pos (show ¬ (ctx zone origin fileOrigin).zone <:+ n from hx)] at h3
      obtain ⟨rfl, rfl⟩ := h3
      exact .inr ⟨hx, h4⟩
    · rw [if_neg (show ¬ ¬ (ctx zone origin fileOrigin).zone <:+ n from hx)] at h3
      obtain ⟨rfl, o, ho, rfl⟩ := h3
      exact .inl ⟨o, ho, h4⟩
  · exact .inr h

/-- C50. A text denotes at most one name, and that is a legal one. -/
theorem C50_unique {c : Ctx} {text : Bytes} {n m : List Bytes} (h1 : Resolves c text n) (h2 : Resolves c text m) : n = m ∧ WF n :=
  ⟨resolves_unique h1 h2, resolves_wf h1⟩

/-- `a`, `a.@F`, `@` and `a.` in a file for `sub.x` that has set its origin to `o.x`. -/
example : [dnameSet (at_ [[120]] [[111], [120]] [[115], [120]] [] false 0 []) [97] false,
    dnameSet (at_ [[120]] [[111], [120]] [[115], [120]] [] false 0 []) [97, 46, 64, 70] false,
    dnameSet (at_ [[120]] [[111], [120]] [[115], [120]] [] false 0 []) [64] false,
    dnameSet (at_ [[120]] [[111], [120]] [[115], [120]] [] false 0 []) [97, 46] true] =
    [.ok (some ([7, 1, 97, 1, 111, 1, 120, 0], false)), .ok (some ([7, 1, 97, 1, 115, 1, 120, 0], false)),
     .ok (some ([5, 1, 111, 1, 120, 0], false)), .ok (some ([3, 1, 97, 0], true))] := by decide +kernel

/-- An at sign behind a backslash is no ordinary character: it stands for the origin as well (RFC 1035, 5.1:
"used to quote that character so that its special meaning does not apply"). -/
theorem C50_false_escaped (zone origin fileOrigin : List Bytes) (ho : WF origin) : Resolves (ctx zone origin fileOrigin) [92, 64] origin := by
  refine ⟨[[64]], false, ?_, by decide, ho, ?_⟩
  · exact (.last (by decide) (.chr (by decide) .nil))
  · rfl

/-! ### C71: what files mean -/

/-- C71. Scanning a file succeeds exactly if it is a legal one, and adds exactly the records it holds, in
their order. Missing: the language (`Holds`) differs from the documented one in the points of the theorems
`C71_false_…`. -/
theorem C71_exact_partial (cfg : Cfg) (depth : Nat) (zone : List Bytes) (hz : WF zone) (fn : Bytes) (ttl : UInt32) (l : List Add) :
    scan cfg depth (encode zone true) fn ttl = .ok (some l) ↔ Holds cfg zone depth fn zone ttl l :=
  scanFile_iff cfg zone hz depth fn zone hz (List.suffix_refl _) ttl l

/-- C71. A file holds one list of records, no matter how deep includes may go. -/
theorem C71_unique (cfg : Cfg) {depth depth' : Nat} {zone : List Bytes} (hz : WF zone) {fn : Bytes} {ttl : UInt32} {l l' : List Add}
    (h : Holds cfg zone depth fn zone ttl l) (h' : Holds cfg zone depth' fn zone ttl l') : l = l' := by
  have a := (C71_exact_partial cfg (max depth depth') zone hz fn ttl l).mpr (holds_mono (Nat.le_max_left _ _) h)
  have b := (C71_exact_partial cfg (max depth depth') zone hz fn ttl l').mpr (holds_mono (Nat.le_max_right _ _) h')
  rw [a] at b
  simpa using b

/-- C71. Numbers have their decimal value if they are less than 2^32. -/
theorem C71_numbers {t : Bytes} {v : UInt32} (h : Num t v) (hv : value t < 2 ^ 32) : v.toNat = value t := by
  rw [h.2.2, Nat.mod_eq_of_lt hv]

namespace Ex

def main : Bytes :=
  str "$TTL 1h\n@ SOA ns hm ( 1 2 3\n 4 5 ) ; c\n  NS ns\nns A 1.2.3.4\nt 300 IN TXT \"a b\" c\n$INCLUDE s sub\n"

def sub : Bytes := str "a.@Z 600/30 DYNA p!r\nb TYPE300 \\# 2 0a0B\n"

/-- Two files; addresses are as far as needed. -/
def dir (main sub : Bytes) : Cfg :=
  { noSplit := false
    files := fun p => if p = str "/z/x" then some main else if p = str "/z/s" then some sub else none
    pton4 := fun w => if w = str "1.2.3.4" then some [1, 2, 3, 4] else none
    pton6 := fun _ => none }

def okIs (x : Outcome (Option (List Add))) (l : List Add) : Bool :=
  match x with
  | .ok (some m) => decide (m = l)
  | _ => false

def isUb (x : Outcome (Option (List Add))) : Bool :=
  match x with
  | .ub => true
  | _ => false

def isErr (x : Outcome (Option (List Add))) : Bool :=
  match x with
  | .ok none => true
  | _ => false

theorem okIs_eq {x : Outcome (Option (List Add))} {l : List Add} (h : okIs x l = true) : x = .ok (some l) := by
  unfold okIs at h
  split at h
  · rw [of_decide_eq_true h]
  · cases h

theorem isUb_eq {x : Outcome (Option (List Add))} (h : isUb x = true) : x = .ub := by
  unfold isUb at h
  split at h
  · rfl
  · cases h

theorem isErr_eq {x : Outcome (Option (List Add))} (h : isErr x = true) : x = .ok none := by
  unfold isErr at h
  split at h
  · rfl
  · cases h

/-- The records of the zone `x` with the files. -/
def read (main sub : Bytes) : Outcome (Option (List Add)) := scan (dir main sub) 2 [3, 1, 120, 0] (str "/z/x") 60

theorem holds_of {main sub : Bytes} {l : List Add} (h : okIs (read main sub) l = true) : Holds (dir main sub) [[120]] 2 (str "/z/x") [[120]] 60 l :=
  (C71_exact_partial (dir main sub) 2 [[120]] (by decide) (str "/z/x") 60 l).mp (okIs_eq h)

end Ex

/-- A zone with all kinds of statements. -/
example : Holds (Ex.dir Ex.main Ex.sub) [[120]] 2 (str "/z/x") [[120]] 60
    [⟨[1, 0], 3600, .soa [6, 2, 110, 115, 1, 120, 0] [6, 2, 104, 109, 1, 120, 0] 1 2 3 4 5⟩,
     ⟨[1, 0], 3600, .ns [6, 2, 110, 115, 1, 120, 0]⟩,
     ⟨[4, 2, 110, 115, 0], 3600, .a [1, 2, 3, 4] false⟩,
     ⟨[3, 1, 116, 0], 300, .txt [3, 97, 32, 98, 1, 99]⟩,
     ⟨[3, 1, 97, 0], 600, .dyna [112, 33, 114] 30⟩,
     ⟨[7, 1, 98, 3, 115, 117, 98, 0], 3600, .raw 300 [10, 11]⟩] := Ex.holds_of (by decide +kernel)

/-- The preference 4294967297 is read as 1 (and accepted, though it has not 16 bits). -/
theorem C71_false_number : Holds (Ex.dir (str "a MX 4294967297 b\n") []) [[120]] 2 (str "/z/x") [[120]] 60
    [⟨[3, 1, 97, 0], 60, .mx 1 [5, 1, 98, 1, 120, 0]⟩] := Ex.holds_of (by decide +kernel)

/-- A time of 7102 weeks wraps around to 322304 seconds, less than four days. -/
theorem C71_false_weeks : Holds (Ex.dir (str "$TTL 7102w\na NS b\n") []) [[120]] 2 (str "/z/x") [[120]] 60
    [⟨[3, 1, 97, 0], 322304, .ns [5, 1, 98, 1, 120, 0]⟩] := Ex.holds_of (by decide +kernel)

/-- Two blanks behind `TXT` are enough for a record without any string. -/
theorem C71_false_text : Holds (Ex.dir (str "a TXT  \n") []) [[120]] 2 (str "/z/x") [[120]] 60 [⟨[3, 1, 97, 0], 60, .txt []⟩] := Ex.holds_of (by decide +kernel)

/-- An included file is not read "as if its contents existed at the point of the `$INCLUDE` directive": a
record without owner belongs to the zone's own name, not to the last owner. -/
theorem C71_false_owner : Holds (Ex.dir (str "a NS b\n$INCLUDE s\n") (str " NS c\n")) [[120]] 2 (str "/z/x") [[120]] 60
      [⟨[3, 1, 97, 0], 60, .ns [5, 1, 98, 1, 120, 0]⟩, ⟨[1, 0], 60, .ns [5, 1, 99, 1, 120, 0]⟩] ∧
    Holds (Ex.dir (str "a NS b\n NS c\n") []) [[120]] 2 (str "/z/x") [[120]] 60
      [⟨[3, 1, 97, 0], 60, .ns [5, 1, 98, 1, 120, 0]⟩, ⟨[3, 1, 97, 0], 60, .ns [5, 1, 99, 1, 120, 0]⟩] :=
  ⟨Ex.holds_of (by decide +kernel), Ex.holds_of (by decide +kernel)⟩

/-- A comment behind the name of an included file is an error. -/
theorem C71_false_comment : (∃ l, Holds (Ex.dir (str "$INCLUDE s\n") (str "a NS b\n")) [[120]] 2 (str "/z/x") [[120]] 60 l) ∧
    ¬ ∃ l, Holds (Ex.dir (str "$INCLUDE s ; a file\n") (str "a NS b\n")) [[120]] 2 (str "/z/x") [[120]] 60 l := by
  refine ⟨⟨[⟨[3, 1, 97, 0], 60, .ns [5, 1, 98, 1, 120, 0]⟩], Ex.holds_of (by decide +kernel)⟩, ?_⟩
  rintro ⟨l, h⟩
  have h1 := (C71_exact_partial _ 2 [[120]] (by decide) (str "/z/x") 60 l).mpr h
  have h2 : Ex.read (str "$INCLUDE s ; a file\n") (str "a NS b\n") = .ok none := Ex.isErr_eq (by decide +kernel)
  rw [show Ex.read (str "$INCLUDE s ; a file\n") (str "a NS b\n") = .ok (some l) from h1] at h2
  cases h2

/-- A minimum of 0 counts as none: half of the maximum is taken. -/
theorem C71_false_minimum : Holds (Ex.dir (str "a 300/0 DYNA p\n") []) [[120]] 2 (str "/z/x") [[120]] 60
    [⟨[3, 1, 97, 0], 300, .dyna [112] 150⟩] := Ex.holds_of (by decide +kernel)

/-! ### C72: scanning is safe -/

/-- C72. Whatever is in the files, scanning comes to an end without an access out of bounds or a failed
assertion, unless files include each other without end (more than `depth` deep). Missing: empty files, empty
quotes, and generic data, where it is false (`C72_false_…`). -/
theorem C72_safe_partial (cfg : Cfg) (hfiles : ∀ p text, cfg.files p = some text → Calm text) (zone : List Bytes) (hz : WF zone) (depth : Nat) (fn : Bytes)
    (hfn : 47 ∈ fn) (ttl : UInt32) (hd : ¬ Chain cfg depth fn) :
    (∃ l, Holds cfg zone depth fn zone ttl l ∧ scan cfg depth (encode zone true) fn ttl = .ok (some l)) ∨
    ((¬ ∃ l, Holds cfg zone depth fn zone ttl l) ∧ scan cfg depth (encode zone true) fn ttl = .ok none) := by
  cases h : scan cfg depth (encode zone true) fn ttl with
  | ub => exact absurd (scanFile_chain cfg hfiles zone hz depth fn hfn zone hz (List.suffix_refl _) ttl h) hd
  | ok r =>
    cases r with
    | some l => exact .inl ⟨l, (C71_exact_partial cfg depth zone hz fn ttl l).mp h, rfl⟩
    | none =>
      refine .inr ⟨?_, rfl⟩
      rintro ⟨l, hl⟩
      rw [(C71_exact_partial cfg depth zone hz fn ttl l).mpr hl] at h
      cases h

/-- C72. The records of a file are what the loader expects (see C19-C23, C63 and C64 for what it does with
them): legal names in the zone, addresses of the right length, SOA records of the zone's own name. Missing:
numbers of generic records with more than 16 bits, where it is false (`C72_false_type`). -/
theorem C72_records_partial {cfg : Cfg} (hp : PtonOk cfg) {f : Load.File} {fn : Bytes} {depth : Nat} {ttl : UInt32}
    (h : ∀ zone l, NamesZone f.name zone → f.recs = some l → scan cfg depth (encode zone true) fn ttl = .ok (some l))
    (hraw : ∀ l, f.recs = some l → ∀ r ∈ l, RawOk r) : Scanned f := by
  intro zone l hn hl r hr
  obtain ⟨_, ls, q, _, hw, _, rfl⟩ := id hn
  have hwz : WF (lowerName ls) := WF_map_lower hw
  have hh := (C71_exact_partial cfg depth _ hwz fn ttl l).mp (h _ l hn hl)
  rcases holds_ok hp hwz (Lookup.lowerName_idem ls) depth hwz (Lookup.lowerName_idem ls) hh r hr with h1 | ⟨o, t, rd, h1, h2, h3⟩
  · exact h1
  · refine ⟨o, h1, ?_, ?_⟩
    · rw [h3]; exact hraw l hl r hr t rd h3
    · rw [h3]; exact h2

/-- An empty zone file ends the daemon. -/
theorem C72_false_empty : Ex.read [] [] = .ub := Ex.isUb_eq (by decide +kernel)

/-- So do empty quotes for a name. -/
theorem C72_false_quotes : Ex.read (str "a NS \"\"\n") [] = .ub := Ex.isUb_eq (by decide +kernel)

/-- And generic data of no bytes, which RFC 3597 allows. -/
theorem C72_false_nothing : Ex.read (str "a TYPE300 \\# 0 \n") [] = .ub := Ex.isUb_eq (by decide +kernel)

/-- And a file that includes itself, however much memory there is. -/
theorem C72_false_cycle (depth : Nat) : scan (Ex.dir (str "$INCLUDE x\n") []) depth [3, 1, 120, 0] (str "/z/x") 60 = .ub := by
  unfold scan
  induction depth with
  | zero => rfl
  | succ d ih =>
    unfold scanFile
    have h1 : (Ex.dir (str "$INCLUDE x\n") []).files (str "/z/x") = some (str "$INCLUDE x\n") := by decide +kernel
    have h2 : pre false false .plain 1 (str "$INCLUDE x\n") = .ok (.ok (str "$INCLUDE x\n")) := preIs_eq (by decide +kernel)
    have h3 : statement (Ex.dir (str "$INCLUDE x\n") []) ⟨[3, 1, 120, 0], [3, 1, 120, 0], [3, 1, 120, 0], [1, 0], false, 60, str "/z/x"⟩ (str "$INCLUDE x\n") =
        .ok (some (.incl (str "/z/x") [3, 1, 120, 0], ⟨[3, 1, 120, 0], [3, 1, 120, 0], [3, 1, 120, 0], [1, 0], false, 60, str "/z/x"⟩, [10])) := by decide +kernel
    rw [h1]
    simp only
    have h4 : (assert (!(str "$INCLUDE x\n").isEmpty)) = .ok () := by decide +kernel
    have h5 : ((str "$INCLUDE x\n").getLast? != some 10) = false := by decide +kernel
    rw [h4, h5, h2]
    simp only [Outcome.bind_ok, cond_false]
    unfold lines
    have h6 : (str "$INCLUDE x\n").isEmpty = false := by decide +kernel
    rw [h6, h3]
    simp only [cond_false, andThen_ok, effect]
    rw [ih]
    rfl

/-- Type numbers of more than 16 bits are taken (and then for other types, see C63_false_type). -/
theorem C72_false_type : Ex.read (str "a TYPE65541 \\# 1 00\n") [] = .ok (some [⟨[3, 1, 97, 0], 60, .raw 65541 [0]⟩]) := Ex.okIs_eq (by decide +kernel)

/-- Whether a text has the character `a` and `b` behind it. -/
def pair (a b : UInt8) : List UInt8 → Bool
  | [] => false
  | x :: l => (x == a && l.head? == some b) || pair a b l

theorem pair_infix {a b : UInt8} {l : List UInt8} (h : [a, b] <:+: l) : pair a b l = true := by
  obtain ⟨s, t, rfl⟩ := h
  induction s with
  | nil => simp [pair]
  | cons x s ih => simp only [List.cons_append, pair]; rw [ih]; simp

/-- Files in which nothing can go wrong; the second includes nothing, so two levels are enough. -/
example : Calm Ex.main ∧ Calm (str "a A 1.2.3.4\n") := by
  refine ⟨⟨by decide, ?_, ?_⟩, ⟨by decide, ?_, ?_⟩⟩ <;> (intro h; have := pair_infix h; revert this; decide +kernel)

/-- A file without a dollar sign includes nothing. -/
theorem calm_end {cfg : Cfg} {p : Bytes} {text : List UInt8} (hf : cfg.files p = some text) (hd : (36 : UInt8) ∉ text) : ¬ Chain cfg 1 p := by
  rintro ⟨q, ⟨text', out, a, w, b, t, f, o, r, h1, h2, h3, -⟩, -⟩
  rw [hf] at h1
  obtain rfl := Option.some.inj h1
  obtain ⟨hl, hi⟩ := C48_places text out h2
  have ho : out[a.length]? = some 36 := by
    rw [h3]
    simp
  have hlt : a.length < text.length := by
    have := (List.getElem?_eq_some_iff.mp ho).1
    omega
  have := hi a.length text[a.length] 36 (List.getElem?_eq_getElem hlt) ho
  simp only [show (36 : UInt8) ≠ 32 by decide, show (36 : UInt8) ≠ 12 by decide, false_and, or_false] at this
  exact hd (this ▸ List.getElem_mem hlt)

/-- The theorem applies to a directory with a file. -/
example : (∃ l, scan (Ex.dir (str "a A 1.2.3.4\n") (str "b\n")) 1 [3, 1, 120, 0] (str "/z/x") 60 = .ok (some l)) ∨
    scan (Ex.dir (str "a A 1.2.3.4\n") (str "b\n")) 1 [3, 1, 120, 0] (str "/z/x") 60 = .ok none := by
  rcases C72_safe_partial (Ex.dir (str "a A 1.2.3.4\n") (str "b\n")) (fun p text h => by
      have : text = str "a A 1.2.3.4\n" ∨ text = str "b\n" := by
        simp only [Ex.dir] at h
        split at h
        · exact .inl (Option.some.inj h).symm
        · split at h
          · exact .inr (Option.some.inj h).symm
          · cases h
      rcases this with rfl | rfl <;> refine ⟨by decide, ?_, ?_⟩ <;> (intro h; have := pair_infix h; revert this; decide +kernel))
    [[120]] (by decide) 1 (str "/z/x") (by decide +kernel) 60 (calm_end (text := str "a A 1.2.3.4\n") (by decide +kernel) (by decide +kernel)) with ⟨l, _, h⟩ | ⟨_, h⟩
  · exact .inl ⟨l, h⟩
  · exact .inr h

/-- The file `x` of the example is what the loader expects. -/
example : ∃ l, scan (Ex.dir Ex.main Ex.sub) 2 [3, 1, 120, 0] (str "/z/x") 60 = .ok (some l) ∧ l.length = 6 ∧ Scanned ⟨str "x", some l⟩ := by
  have hk := Ex.okIs_eq (x := Ex.read Ex.main Ex.sub) (l := [⟨[1, 0], 3600, .soa [6, 2, 110, 115, 1, 120, 0] [6, 2, 104, 109, 1, 120, 0] 1 2 3 4 5⟩,
     ⟨[1, 0], 3600, .ns [6, 2, 110, 115, 1, 120, 0]⟩,
     ⟨[4, 2, 110, 115, 0], 3600, .a [1, 2, 3, 4] false⟩,
     ⟨[3, 1, 116, 0], 300, .txt [3, 97, 32, 98, 1, 99]⟩,
     ⟨[3, 1, 97, 0], 600, .dyna [112, 33, 114] 30⟩,
     ⟨[7, 1, 98, 3, 115, 117, 98, 0], 3600, .raw 300 [10, 11]⟩]) (by decide +kernel)
  refine ⟨_, hk, rfl, ?_⟩
  refine C72_records_partial (cfg := Ex.dir Ex.main Ex.sub) (depth := 2) (fn := str "/z/x") (ttl := 60) ⟨?_, ?_⟩ ?_ ?_
  · intro w b h
    simp only [Ex.dir] at h
    split at h
    · rw [← Option.some.inj h]; rfl
    · cases h
  · intro w b h
    simp [Ex.dir] at h
  · intro zone l hn hl
    obtain rfl := Option.some.inj hl
    rw [Load.Ex.only Load.Ex.name3 hn]
    exact hk
  · intro l hl r hr t d hd
    obtain rfl := Option.some.inj hl
    simp only [List.mem_cons, List.not_mem_nil, or_false] at hr
    rcases hr with rfl | rfl | rfl | rfl | rfl | rfl <;> simp at hd
    obtain ⟨rfl, rfl⟩ := hd
    decide

end Gdnsd.Zscan
