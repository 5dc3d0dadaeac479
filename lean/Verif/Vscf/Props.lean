/-
C76: what is read from configuration files.
-/
import Verif.Vscf.SafeLemmas
namespace Gdnsd.Vscf
open VscfSpec

/-- A file with a meaning in the grammar is read, and its tree is that meaning, if there is stack enough for
the files in each other. If strings are not separated that depends on the order of actions. -/
theorem C76_scan_complete {early : Bool} {env : Env} {p : Bytes} {v : Val} (h : File env (!early) p v) :
    ∃ N, ∀ n, N ≤ n → scanFile early env n p = .ok (some v) :=
  file_fwd h

/-- The same for a text that is in no file, or in one. -/
theorem C76_scan_buf_complete {early : Bool} {env : Env} {fn : Option Bytes} {t : Bytes} {v : Val} (h : Doc env (!early) fn t v) :
    ∃ N, ∀ n, N ≤ n → scanBuf early env (scanFile early env n) fn t = .ok (some v) :=
  doc_fwd h

/-- A tree that is read from a file is its meaning in the grammar. Partial: not if a directory without files
is included, see `C76_empty_directory`. -/
theorem C76_scan_sound_partial {early : Bool} {env : Env} (hne : ∀ p, ¬ Found env p []) {n : Nat} {p : Bytes} {v : Val}
    (h : scanFile early env n p = .ok (some v)) : File env (!early) p v :=
  file_inv hne h

/-- The same for a text that is in no file, or in one. -/
theorem C76_scan_buf_sound_partial {early : Bool} {env : Env} (hne : ∀ p, ¬ Found env p []) {fn : Option Bytes} {n : Nat} {t : Bytes} {v : Val}
    (h : scanBuf early env (scanFile early env n) fn t = .ok (some v)) : Doc env (!early) fn t v :=
  doc_inv (m := mk early env n fn) (fun _ _ h => file_inv hne h) hne h

/-- A file has at most one meaning. -/
theorem C76_meaning_unique {env : Env} {touch : Bool} {p : Bytes} {v w : Val} (h1 : File env touch p v) (h2 : File env touch p w) : v = w := by
  have e : touch = !(!touch) := by simp
  rw [e] at h1 h2
  obtain ⟨N1, g1⟩ := file_fwd h1
  obtain ⟨N2, g2⟩ := file_fwd h2
  have := (g1 (max N1 N2) (by omega)).symm.trans (g2 (max N1 N2) (by omega))
  simpa using this

/-- And so has a text. -/
theorem C76_text_unique {env : Env} {touch : Bool} {fn : Option Bytes} {t : Bytes} {v w : Val} (h1 : Doc env touch fn t v) (h2 : Doc env touch fn t w) : v = w := by
  have e : touch = !(!touch) := by simp
  rw [e] at h1 h2
  obtain ⟨N1, g1⟩ := doc_fwd h1
  obtain ⟨N2, g2⟩ := doc_fwd h2
  have := (g1 (max N1 N2) (by omega)).symm.trans (g2 (max N1 N2) (by omega))
  simpa using this

/-- If no file includes itself by way of others then reading a file ends, in a tree or an error that is
reported, with stack for as many files as its rank. With the other order of actions, partial: only if there
are no quotes, see `C76_touching`. -/
theorem C76_scan_safe {env : Env} {rank : Bytes → Nat} (hg : Grounded env rank) {n : Nat} {p : Bytes} (hn : rank p < n) : scanFile false env n p ≠ .ub :=
  scanFile_fine hg (by simp) hn

theorem C76_scan_safe_early_partial {env : Env} {rank : Bytes → Nat} (hg : Grounded env rank) (hq : ∀ p t, env.read p = some t → 34 ∉ t) {n : Nat} {p : Bytes}
    (hn : rank p < n) : scanFile true env n p ≠ .ub :=
  scanFile_fine hg (fun _ => hq) hn

/-- A text without includes is read without any other file, and never goes wrong. -/
theorem C76_plain_text_safe {env : Env} {load : Bytes → Outcome (Option Val)} {fn : Option Bytes} {t : Bytes} (h : ∀ x, ¬ Asks t x) : scanBuf false env load fn t ≠ .ub :=
  scan_fine (m := ⟨false, env, load, fn⟩) (fun x p ps p' ha => absurd ha (h x)) (by simp)

/-! ### Examples -/

/-- The keys at the top, and their values if those are strings. -/
def heads : Val → List (Bytes × Option Bytes)
  | .hash es => es.map fun e => (e.key, match e.val with | .simple _ v => some v | _ => none)
  | .array vs => vs.map fun v => ([], match v with | .simple _ v => some v | _ => none)
  | .simple _ v => [([], some v)]

def isTree (x : Outcome (Option Val)) (l : List (Bytes × Option Bytes)) : Bool :=
  match x with
  | .ok (some v) => heads v == l
  | _ => false

theorem isTree_ok {x : Outcome (Option Val)} {l : List (Bytes × Option Bytes)} (h : isTree x l = true) : ∃ v, x = .ok (some v) ∧ heads v = l := by
  match x with
  | .ok (some v) => exact ⟨v, rfl, by simpa [isTree] using h⟩
  | .ok none => simp [isTree] at h
  | .ub => simp [isTree] at h

def isUb : Outcome (Option Val) → Bool
  | .ub => true
  | _ => false

theorem isUb_ok {x : Outcome (Option Val)} (h : isUb x = true) : x = .ub := by
  match x with
  | .ub => rfl
  | .ok _ => simp [isUb] at h

/-- File `a`: `x => [ 1, "two" ] # c`, `$include{b} k = "\065"`; file `b`: `y = { z = q }, w=>v`. -/
def exEnv : Env where
  isDir := fun _ => false
  glob := fun _ => some []
  read := fun p =>
    if p = [97] then some [120, 32, 61, 62, 32, 91, 32, 49, 44, 32, 34, 116, 119, 111, 34, 32, 93, 32, 35, 32, 99, 10, 36, 105, 110, 99, 108, 117, 100, 101, 123, 98, 125, 32, 107, 32, 61,
      32, 34, 92, 48, 54, 53, 34]
    else if p = [98] then some [121, 32, 61, 32, 123, 32, 122, 32, 61, 32, 113, 32, 125, 44, 32, 119, 61, 62, 118]
    else none

theorem exEnv_found (p : Bytes) : ¬ Found exEnv p [] := by
  intro h
  simp only [Found, exEnv, Bool.false_eq_true, if_false] at h
  obtain ⟨l, h1, h2⟩ := h
  split at h2
  · simp at h2
  · rename_i hl
    exact hl h2.symm

def exHeads : List (Bytes × Option Bytes) := [([120], none), ([121], none), ([119], some [118]), ([107], some [65])]

example : ∀ early, ∃ v, File exEnv (!early) [97] v ∧ heads v = exHeads := by
  intro early
  have h : ∀ early, isTree (scanFile early exEnv 2 [97]) exHeads = true := by decide +kernel
  obtain ⟨v, h1, h2⟩ := isTree_ok (h early)
  exact ⟨v, C76_scan_sound_partial exEnv_found h1, h2⟩

example : ∃ v, scanFile true exEnv 2 [97] = .ok (some v) ∧ heads v = exHeads :=
  isTree_ok (by decide +kernel)

/-- `a "b"`: strings that do not touch; the file is called `m`. -/
def plainEnv (t : Bytes) : Env where
  isDir := fun _ => false
  glob := fun _ => some []
  read := fun p => if p = [109] then some t else none

/-- A text in which no byte is a dollar sign asks for nothing. -/
theorem no_asks {t : Bytes} (h : 36 ∉ t) (x : Bytes) : ¬ Asks t x := by
  rintro ⟨a, g, w, b, rfl, _⟩
  exact h (by simp)

theorem plain_grounded {t : Bytes} (h : 36 ∉ t) : Grounded (plainEnv t) (fun _ => 0) := by
  intro f text x p ps f' hr ha
  simp only [plainEnv] at hr
  split at hr
  · simp at hr; subst hr; exact absurd ha (no_asks h x)
  · simp at hr

/-- `k = [ a "b" ]` -/
def exText : Bytes := [107, 32, 61, 32, 91, 32, 97, 32, 34, 98, 34, 32, 93]

example : Grounded (plainEnv exText) (fun _ => 0) ∧ isTree (scanFile false (plainEnv exText) 1 [109]) [([107], none)] = true :=
  ⟨plain_grounded (by decide), by decide +kernel⟩

/-- A file that includes another: `a` has rank 1, all others have rank 0. -/
def incText : Bytes := [36, 105, 110, 99, 108, 117, 100, 101, 123, 98, 125]

def incEnv : Env where
  isDir := fun _ => false
  glob := fun p => some [p]
  read := fun p => if p = [47, 97] then some incText else if p = [47, 98] then some [107, 61, 118] else none

example : isTree (scanFile true incEnv 2 [47, 97]) [([107], some [118])] = true := by decide +kernel

/-! ### What is not so -/

/-- The directory `/d` is empty. `/c`: `k = $include{/d} $include{/f}`; `/f`: `x = y`. -/
def emptyEnv : Env where
  isDir := fun p => p == [47, 100]
  glob := fun p => if p = [47, 100, 47, 42] then some [] else some [p]
  read := fun p =>
    if p = [47, 99] then some [107, 32, 61, 32, 36, 105, 110, 99, 108, 117, 100, 101, 123, 47, 100, 125, 32, 36, 105, 110, 99, 108, 117, 100, 101, 123, 47, 102, 125]
    else if p = [47, 102] then some [120, 32, 61, 32, 121]
    else none

/-- If a directory without files is included as the value of a key, that is no error. The key waits, and the
next file that is to be merged becomes its value. -/
theorem C76_empty_directory (early : Bool) : ∃ v, scanFile early emptyEnv 2 [47, 99] = .ok (some v) ∧ heads v = [([107], none)] := by
  have h : ∀ early, isTree (scanFile early emptyEnv 2 [47, 99]) [([107], none)] = true := by decide +kernel
  exact isTree_ok (h early)

/-- `k = [ a"b" ]` -/
def touchText : Bytes := [107, 32, 61, 32, 91, 32, 97, 34, 98, 34, 32, 93]

/-- Two strings that touch: with one order of actions they are two values, with the other the scanner leaves
its buffer. -/
theorem C76_touching : isTree (scanFile false (plainEnv touchText) 1 [109]) [([107], none)] = true ∧ scanFile true (plainEnv touchText) 1 [109] = .ub :=
  ⟨by decide +kernel, isUb_ok (by decide +kernel)⟩

/-- A file that includes itself: whatever the stack, it is not enough. -/
def selfEnv : Env where
  isDir := fun _ => false
  glob := fun p => some [p]
  read := fun _ => some [36, 105, 110, 99, 108, 117, 100, 101, 123, 47, 97, 125]

theorem C76_self_include (early : Bool) (n : Nat) (p : Bytes) : scanFile early selfEnv n p = .ub := by
  induction n generalizing p with
  | zero => rfl
  | succ n ih =>
    have hl : scanFile early selfEnv n = fun _ => .ub := funext ih
    simp only [scanFile, selfEnv]
    rw [show scanFile early { isDir := fun _ => false, glob := fun p => some [p], read := fun _ => some [36, 105, 110, 99, 108, 117, 100, 101, 123, 47, 97, 125] } n = scanFile early selfEnv n
      from rfl, hl]
    have hfn : ∀ early, isUb (scanBuf early selfEnv (fun _ => .ub) (some p) [36, 105, 110, 99, 108, 117, 100, 101, 123, 47, 97, 125]) = true := by
      intro early
      cases early <;> rfl
    exact isUb_ok (hfn early)

end Gdnsd.Vscf
