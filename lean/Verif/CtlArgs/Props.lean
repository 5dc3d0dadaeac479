/-
C121: the command line of gdnsdctl.
-/
import Verif.CtlArgs.Lemmas
open Gdnsd.Conf (str)
namespace Gdnsd.CtlArgs
open CtlArgsSpec

/-- A command line is accepted exactly if it consists of options, in whatever grouping, and an action with its arguments; options count only in front of the action, and what is behind it is handed on as it is. -/
theorem C121_exact {args : List Bytes} {o : Opts} {act : Bytes} {rest : List Bytes} : parse args = some (o, act, rest) ↔ Means args o (act :: rest) := by
  rw [← scan_iff]
  unfold parse
  cases hs : scan args Opts.init with
  | none => simp
  | some r =>
    obtain ⟨o', ws⟩ := r
    cases ws with
    | nil => simp
    | cons a ws => simp

/-- Arguments of an action reach it as they are, whatever they look like: a payload of a challenge can begin with `-`. -/
theorem C121_verbatim (items : List Item) (h : ∀ x ∈ items, x.Legal) (act : Bytes) (ha : Word act) (rest : List Bytes) :
    parse (items.flatMap Item.render ++ act :: rest) = some (meaning items, act, rest) :=
  C121_exact.mpr ⟨items, h, rfl, .inl ⟨rfl, by intro a h; simp at h; subst h; exact ha⟩⟩

/-- So the program does what it does for the action with these arguments, and `-o` and `-i` are in effect exactly if they are given in front of it. -/
theorem C121_run (version : Nat) (items : List Item) (h : ∀ x ∈ items, x.Legal) (act : Bytes) (ha : Word act) (rest : List Bytes) (ts : List Ctl.Try) :
    run version (items.flatMap Item.render ++ act :: rest) ts = Ctl.main ⟨version, items.any (Item.has .o), items.any (Item.has .i)⟩ act rest ts := by
  unfold run
  rw [C121_verbatim items h act ha rest]
  rfl

/-- Without an action nothing is done. -/
theorem C121_usage (version : Nat) (args : List Bytes) (ts : List Ctl.Try) (h : ∀ o act rest, ¬ Means args o (act :: rest)) : run version args ts = .ok (.exit 2 [] none, []) := by
  unfold run
  cases hp : parse args with
  | none => rfl
  | some r =>
    obtain ⟨o, a, rest⟩ := r
    exact absurd (C121_exact.mp hp) (h o a rest)

/-- The timeout is always one that is documented. -/
theorem C121_timeout {args : List Bytes} {o : Opts} {act : Bytes} {rest : List Bytes} (h : parse args = some (o, act, rest)) : 5 ≤ o.timeo ∧ o.timeo ≤ 300 := by
  obtain ⟨items, h1, rfl, -⟩ := C121_exact.mp h
  unfold meaning
  dsimp only
  cases hf : (items.reverse.filterMap Item.val).findSome? Val.secs? with
  | none => decide
  | some n =>
    obtain ⟨v, hv, hn⟩ := List.exists_of_findSome?_eq_some hf
    obtain ⟨x, hx, hxv⟩ := List.mem_filterMap.mp hv
    have hl := h1 x (List.mem_reverse.mp hx)
    have hvl : v.Legal := by
      cases x with
      | flags f fs => cases hxv
      | joined fs w => cases hxv; exact hl.2
      | apart fs w => cases hxv; exact hl
    cases v with
    | dir v => cases hn
    | addr v => cases hn
    | secs v m =>
      cases hn
      obtain ⟨_, _, _, _, _, _, _, _, _, _, _, h5, h300⟩ := hvl
      exact ⟨h5, h300⟩

/-- For texts of digits: a timeout is accepted exactly if it is the decimal form of a number from 5 to 300, and it is that number. What else is accepted is below. -/
theorem C121_seconds_partial (v : Bytes) (hv : ∀ b ∈ v, Digit b) (n : Nat) : Reads v n ↔ v ≠ [] ∧ n = number v ∧ 5 ≤ n ∧ n ≤ 300 := by
  constructor
  · rintro ⟨ws, sg, ds, rest, rfl, hws, hne, hd, hr, hlt, hn, h5, h300⟩
    have h1 : ws = [] := by
      cases ws with
      | nil => rfl
      | cons b ws =>
        have hs := (space_iff b).mpr (hws b (by simp))
        rw [(digit_first b (hv b (by simp))).1] at hs
        cases hs
    have h2 : rest = [] := by
      cases rest with
      | nil => rfl
      | cons b rest => exact absurd (hv b (by simp)) (hr b rfl)
    have h3 : sg = [] := by
      rcases hn with ⟨h | h, -⟩ | ⟨h, -⟩
      · exact h
      · exact absurd rfl (digit_first 43 (hv 43 (by simp [h]))).2.2
      · exact absurd rfl (digit_first 45 (hv 45 (by simp [h]))).2.1
    subst h1 h2 h3
    rcases hn with ⟨-, hn⟩ | ⟨h, -⟩
    · simp only [List.nil_append, List.append_nil]
      exact ⟨hne, hn, h5, h300⟩
    · cases h
  · rintro ⟨hne, rfl, h5, h300⟩
    exact ⟨[], [], v, [], by simp, by simp, hne, hv, by simp, by omega, .inl ⟨.inl rfl, rfl⟩, h5, h300⟩

/-- False of the code in general: what is behind the number is not looked at, whatever it is. -/
theorem C121_false_junk (b : UInt8) (hb : ¬ Digit b) (junk : Bytes) : parse [str "-t", str "30" ++ b :: junk, str "stop"] = some ({ Opts.init with timeo := 30 }, str "stop", []) := by
  have := C121_verbatim [.apart [] (.secs (str "30" ++ b :: junk) 30)] (by
    intro x hx
    simp at hx
    subst hx
    refine ⟨[], [], str "30", b :: junk, by simp, by simp, by decide, ?_, ?_, by decide, .inl ⟨.inl rfl, by decide⟩, by decide, by decide⟩
    · intro d hd
      have hd' : d = 51 ∨ d = 48 := by simpa [str] using hd
      rcases hd' with rfl | rfl <;> (unfold Digit; decide)
    · intro c hc
      simp at hc
      subst hc
      exact hb) (str "stop") (by intro c cs h; simp [str] at h) []
  exact this

example : parse [str "-oi", str "-t", str "10", str "acme-dns-01", str "example.com", str "-x", str "--"] =
    some (⟨none, none, false, false, true, true, 10⟩, str "acme-dns-01", [str "example.com", str "-x", str "--"]) := by decide +kernel
example : parse [str "-t4", str "stop"] = none := by decide +kernel
example : parse [str "-D", str "--", str "status"] = some (⟨none, none, true, false, false, false, 47⟩, str "status", []) := by decide +kernel
example : Item.Legal (.apart [.o] (.secs [49, 48] 10)) := ⟨[], [], [49, 48], [], rfl, by simp, by simp, by intro b hb; simp at hb; rcases hb with rfl | rfl <;> (unfold Digit; decide), by simp, by decide,
  .inl ⟨.inl rfl, by decide⟩, by decide, by decide⟩

end Gdnsd.CtlArgs
