/-
C84: texts of addresses.
-/
import Verif.Conf.Model
import Verif.Conf.ListenSpec
namespace Gdnsd.Conf
open ConfSpec

theorem chr_none {c : UInt8} {t : Bytes} : chr c t = none ↔ c ∉ t := by
  induction t with
  | nil => simp [chr]
  | cons x r ih =>
    simp only [chr]
    by_cases h : x = c
    · simp [h]
    · rw [if_neg h]
      simp only [Option.map_eq_none_iff, ih, List.mem_cons, not_or]
      exact ⟨fun h' => ⟨fun e => h e.symm, h'⟩, fun h' => h'.2⟩

theorem chr_some {c : UInt8} {t a b : Bytes} : chr c t = some (a, b) ↔ t = a ++ c :: b ∧ c ∉ a := by
  induction t generalizing a with
  | nil => simp [chr]
  | cons x r ih =>
    simp only [chr]
    by_cases h : x = c
    · rw [if_pos h]
      subst h
      constructor
      · intro h
        simp only [Option.some.injEq, Prod.mk.injEq] at h
        obtain ⟨rfl, rfl⟩ := h
        simp
      · rintro ⟨h1, h2⟩
        cases a with
        | nil => simp at h1; simp [h1]
        | cons y a => simp only [List.cons_append, List.cons.injEq] at h1; simp [h1.1] at h2
    · rw [if_neg h]
      simp only [Option.map_eq_some_iff, Prod.exists, Prod.mk.injEq]
      constructor
      · rintro ⟨a', b', h1, rfl, rfl⟩
        obtain ⟨rfl, h2⟩ := ih.mp h1
        exact ⟨rfl, by simp only [List.mem_cons, not_or]; exact ⟨fun e => h e.symm, h2⟩⟩
      · rintro ⟨h1, h2⟩
        cases a with
        | nil => simp only [List.nil_append, List.cons.injEq] at h1; exact absurd h1.1 h
        | cons y a =>
          simp only [List.cons_append, List.cons.injEq] at h1
          simp only [List.mem_cons, not_or] at h2
          exact ⟨a, b, ih.mpr ⟨h1.2, h2.2⟩, by rw [h1.1], rfl⟩

theorem split_plain {t : Bytes} (h : t.head? ≠ some 91) : splitAddr t =
    match chr 58 t with
    | none => (t, none)
    | some (a, p) =>
      if (chr 58 p).isSome = true then (t, none)
      else if a = [] then (invalidAddr, some (58 :: p))
      else if p = [] then (a, none)
      else (a, some p) := by
  match t, h with
  | [], _ => rfl
  | x :: r, h =>
    have : x ≠ 91 := fun e => h (by rw [e]; rfl)
    unfold splitAddr
    split
    · next heq => simp only [List.cons.injEq] at heq; exact absurd heq.1 this
    · rfl

theorem split_bracket {a rest : Bytes} (h : 93 ∉ a) : splitAddr (91 :: a ++ 93 :: rest) =
    match rest with
    | 58 :: p :: q => (a, some (p :: q))
    | _ => (a, none) := by
  have : chr 93 (a ++ 93 :: rest) = some (a, rest) := chr_some.mpr ⟨rfl, h⟩
  simp only [splitAddr, List.cons_append, this]
  rfl

theorem head_append {a b : Bytes} {x : UInt8} (ha : a ≠ []) : (a ++ b).head? = some x ↔ a.head? = some x := by
  cases a with
  | nil => exact absurd rfl ha
  | cons y a => simp

/-- The text of an address is taken apart as it should be. -/
theorem split_of_text {t a : Bytes} {p : Option Bytes} (h : AddrText t a p) : splitAddr t = (a, p) := by
  cases h with
  | plain h1 h2 => rw [split_plain h1, chr_none.mpr h2]
  | @port _ p h1 h2 h3 h4 h5 =>
    rw [split_plain (fun h => h2 ((head_append h1).mp h)), chr_some.mpr ⟨rfl, h3⟩]
    simp only [chr_none.mpr h5, Option.isSome_none, Bool.false_eq_true, if_false, h1, h4]
  | noport h1 h2 h3 =>
    rw [split_plain (fun h => h2 ((head_append h1).mp h)), chr_some.mpr ⟨rfl, h3⟩]
    simp [chr, h1]
  | @colons a b c h1 =>
    rw [split_plain h1]
    cases hx : chr 58 (a ++ 58 :: b ++ 58 :: c) with
    | none => rfl
    | some x =>
      obtain ⟨u, v⟩ := x
      obtain ⟨h2, h3⟩ := chr_some.mp hx
      have hm : 58 ∈ v := by
        rw [List.append_assoc, List.cons_append] at h2
        rcases List.append_eq_append_iff.mp h2 with ⟨w, h4, h5⟩ | ⟨w, h4, h5⟩
        · cases w with
          | nil =>
            simp only [List.nil_append, List.cons.injEq, true_and] at h5
            rw [← h5]; simp
          | cons y w => simp only [List.cons_append, List.cons.injEq] at h5; rw [h4, ← h5.1] at h3; simp at h3
        · cases w with
          | nil =>
            simp only [List.nil_append, List.cons.injEq, true_and] at h5
            rw [h5]; simp
          | cons y w => simp only [List.cons_append, List.cons.injEq] at h5; rw [h5.2]; simp
      have : (chr 58 v).isSome = true := by
        cases hy : chr 58 v with
        | none => exact absurd hm (chr_none.mp hy)
        | some _ => rfl
      simp [this]
  | brackets h1 => exact split_bracket h1
  | bracketsNoport h1 => exact split_bracket h1
  | @bracketsPort _ p h1 h2 =>
    cases p with
    | nil => exact absurd rfl h2
    | cons x p =>
      have := split_bracket (rest := 58 :: x :: p) h1
      simpa using this

/-- Something else than a port follows the bracket. -/
def Junk (t : Bytes) : Prop := ∃ a j, 93 ∉ a ∧ j ≠ [] ∧ j.head? ≠ some 58 ∧ t = 91 :: a ++ 93 :: j

/-- What is needed of `getaddrinfo`: texts that are no addresses are refused, ports have 16 bits. -/
structure Numeric (g : Gai) : Prop where
  invalid : g.host invalidAddr = none
  bracket : ∀ r, g.host (91 :: r) = none
  port : ∀ t n, g.serv t = some n → n < 2 ^ 16

theorem text_of_split {t : Bytes} (hj : ¬ Junk t) : AddrText t (splitAddr t).1 (splitAddr t).2 ∨ (splitAddr t).1 = invalidAddr ∨ ∃ r, (splitAddr t).1 = 91 :: r := by
  by_cases hb : t.head? = some 91
  · match t, hb with
    | x :: r, hb =>
      simp only [List.head?_cons, Option.some.injEq] at hb
      subst hb
      cases hx : chr 93 r with
      | none =>
        right; right
        exact ⟨r, by simp [splitAddr, hx]⟩
      | some y =>
        obtain ⟨a, rest⟩ := y
        obtain ⟨rfl, h3⟩ := chr_some.mp hx
        left
        rw [← List.cons_append, split_bracket h3]
        match rest, hj with
        | [], _ => exact .brackets h3
        | [58], _ => exact .bracketsNoport h3
        | 58 :: p :: q, _ =>
          have := AddrText.bracketsPort (p := p :: q) h3 (by simp)
          simpa using this
        | c :: q, hj =>
          by_cases hc : c = 58
          · subst hc
            match q with
            | [] => exact .bracketsNoport h3
            | p :: q => 
              have := AddrText.bracketsPort (p := p :: q) h3 (by simp)
              simpa using this
          · exact absurd ⟨a, c :: q, h3, by simp, by simpa using hc, by simp⟩ hj
  · rw [split_plain hb]
    cases hx : chr 58 t with
    | none => left; exact .plain hb (chr_none.mp hx)
    | some y =>
      obtain ⟨a, p⟩ := y
      obtain ⟨rfl, h3⟩ := chr_some.mp hx
      dsimp only
      cases hy : chr 58 p with
      | some z =>
        obtain ⟨b, c⟩ := z
        obtain ⟨rfl, _⟩ := chr_some.mp hy
        left
        have := AddrText.colons (a := a) (b := b) (c := c) (by simpa using hb)
        simpa using this
      | none =>
        have h4 := chr_none.mp hy
        simp only [Option.isSome_none, Bool.false_eq_true, if_false]
        by_cases ha : a = []
        · subst ha; right; left; rfl
        · rw [if_neg ha]
          have hh : a.head? ≠ some 91 := fun h => hb ((head_append ha).mpr h)
          by_cases hp : p = []
          · subst hp; left; exact .noport ha hh h3
          · rw [if_neg hp]; left; exact .port ha hh h3 hp h4

/-- A text is accepted as an address if and only if it is one, and then means what it says; the default port is
used if and only if the text has no port. Partial: texts with something else behind a bracket
(`C84_junk`). -/
theorem C84_address_partial {g : Gai} (hg : Numeric g) {t : Bytes} (hj : ¬ Junk t) {port : Nat} (hp : port < 2 ^ 16) {s : Sin} :
    fromstr g t port = some s ↔ Address g t port s := by
  constructor
  · intro h
    have hsp : ∃ a p, splitAddr t = (a, p) := ⟨_, _, rfl⟩
    obtain ⟨a, p, hs⟩ := hsp
    have ht := text_of_split hj
    simp only [fromstr, hs, Option.map_eq_some_iff] at h
    obtain ⟨s', h1, h2⟩ := h
    simp only [getaddrinfo, Option.bind_eq_some_iff] at h1
    obtain ⟨⟨v6, ad, sc⟩, hh, h1⟩ := h1
    rw [hs] at ht
    rcases ht with ht | ht | ⟨r, ht⟩
    · refine ⟨a, p, ht, ?_⟩
      cases p with
      | none =>
        simp only [Option.some.injEq] at h1
        subst h1
        by_cases h0 : port = 0
        · subst h0; simp at h2; subst h2; exact ⟨hh, Or.inl ⟨rfl, rfl⟩⟩
        · simp only [Option.isNone_none, h0, true_and, ne_eq, not_false_eq_true, if_true] at h2
          subst h2
          exact ⟨hh, Or.inl ⟨rfl, Nat.mod_eq_of_lt hp⟩⟩
      | some q =>
        simp only [Option.map_eq_some_iff] at h1
        obtain ⟨n, hn, rfl⟩ := h1
        simp at h2
        subst h2
        exact ⟨hh, Or.inr ⟨q, rfl, hn⟩⟩
    · simp only at ht; rw [ht, hg.invalid] at hh; cases hh
    · simp only at ht; rw [ht, hg.bracket] at hh; cases hh
  · rintro ⟨a, p, ht, hh, h⟩
    simp only [fromstr, split_of_text ht, getaddrinfo, hh, Option.bind_some]
    obtain ⟨v6, ad, pt, sc⟩ := s
    rcases h with ⟨rfl, rfl⟩ | ⟨q, rfl, hq⟩
    · simp only at hp ⊢
      by_cases h0 : pt = 0
      · simp [h0]
      · simp [h0]; omega
    · simp only at hq ⊢
      simp [hq]

/-- In each case a text that is an address is accepted. -/
theorem C84_complete {g : Gai} {t : Bytes} {port : Nat} (hp : port < 2 ^ 16) {s : Sin} (h : Address g t port s) : fromstr g t port = some s := by
  obtain ⟨a, p, ht, hh, h⟩ := h
  simp only [fromstr, split_of_text ht, getaddrinfo, hh, Option.bind_some]
  obtain ⟨v6, ad, pt, sc⟩ := s
  rcases h with ⟨rfl, rfl⟩ | ⟨q, rfl, hq⟩
  · simp only at hp ⊢
    by_cases h0 : pt = 0
    · simp [h0]
    · simp [h0]; omega
  · simp only at hq ⊢
    simp [hq]

/-- An address that is printed for the user is read back as the same address, whatever the default port. -/
theorem C84_roundtrip {g : Gai} {s : Sin} {host serv : Bytes} (hh : g.host host = some (s.v6, s.addr, s.scope)) (hs : g.serv serv = some s.port)
    (hl : host.length ≤ 77 ∧ serv.length ≤ 5) (hserv : serv ≠ [] ∧ 58 ∉ serv)
    (h4 : s.v6 = false → host ≠ [] ∧ host.head? ≠ some 91 ∧ 58 ∉ host) (h6 : s.v6 = true → 93 ∉ host) {port : Nat} (hp : port < 2 ^ 16) :
    fromstr g (tostr s.v6 host serv) port = some s := by
  apply C84_complete hp
  cases h : s.v6 with
  | true =>
    refine ⟨host, some serv, ?_, hh, Or.inr ⟨serv, rfl, hs⟩⟩
    have : tostr true host serv = 91 :: host ++ [93, 58] ++ serv := by
      simp only [tostr, if_true]
      exact List.take_of_length_le (by simp; omega)
    rw [this]
    exact .bracketsPort (h6 h) hserv.1
  | false =>
    refine ⟨host, some serv, ?_, hh, Or.inr ⟨serv, rfl, hs⟩⟩
    have : tostr false host serv = host ++ 58 :: serv := by
      simp only [tostr, Bool.false_eq_true, if_false]
      exact List.take_of_length_le (by simp; omega)
    rw [this]
    exact .port (h4 h).1 (h4 h).2.1 (h4 h).2.2 hserv.1 hserv.2

/-! ### A resolver for examples -/

/-- Some addresses, and ports of at most five digits. -/
def exGai : Gai where
  host t :=
    if t = str "127.0.0.1" then some (false, [127, 0, 0, 1], 0)
    else if t = str "0.0.0.0" then some (false, [0, 0, 0, 0], 0)
    else if t = str "::1" then some (true, [0, 0, 0, 0, 0, 0, 0, 0, 0, 0, 0, 0, 0, 0, 0, 1], 0)
    else if t = str "::" then some (true, [0, 0, 0, 0, 0, 0, 0, 0, 0, 0, 0, 0, 0, 0, 0, 0], 0)
    else none
  serv t := if t = str "53" then some 53 else if t = str "5353" then some 5353 else if t = str "13568" then some 13568 else none

theorem exGai_numeric : Numeric exGai := by
  refine ⟨by decide +kernel, fun r => ?_, fun t n h => ?_⟩
  · have l : ∀ s : String, (str s).head? ≠ some 91 → 91 :: r ≠ str s := by
      intro s hs e
      rw [← e] at hs
      exact hs rfl
    unfold exGai
    simp only [l _ (show (str "127.0.0.1").head? ≠ some 91 by decide +kernel), l _ (show (str "0.0.0.0").head? ≠ some 91 by decide +kernel),
      l _ (show (str "::1").head? ≠ some 91 by decide +kernel), l _ (show (str "::").head? ≠ some 91 by decide +kernel), if_false]
  · unfold exGai at h
    simp only at h
    split at h
    · cases h; decide
    · split at h
      · cases h; decide
      · split at h
        · cases h; decide
        · cases h

/-- What follows the bracket is ignored if it is not a colon: `[::1]5353` is port 53 of `::1`. -/
theorem C84_junk : fromstr exGai (str "[::1]5353") 53 = some ⟨true, [0, 0, 0, 0, 0, 0, 0, 0, 0, 0, 0, 0, 0, 0, 0, 1], 53, 0⟩ ∧
    ∀ a p, ¬ AddrText (str "[::1]5353") a p := by
  refine ⟨by decide +kernel, ?_⟩
  have e : str "[::1]5353" = [91, 58, 58, 49, 93, 53, 51, 53, 51] := by decide +kernel
  intro a p h
  have hs := split_of_text h
  have : splitAddr (str "[::1]5353") = ([58, 58, 49], none) := by decide +kernel
  rw [this, Prod.mk.injEq] at hs
  obtain ⟨rfl, rfl⟩ := hs
  rw [e] at h
  generalize ht : ([91, 58, 58, 49, 93, 53, 51, 53, 51] : Bytes) = t at h
  generalize ha : ([58, 58, 49] : Bytes) = a at h
  generalize hp : (none : Option Bytes) = p at h
  cases h <;> first | (rw [← ha] at ht; simp at ht; done) | (subst ha; simp at ht hp; done)

/-! ### Examples -/

example : fromstr exGai (str "127.0.0.1") 53 = some ⟨false, [127, 0, 0, 1], 53, 0⟩ ∧ fromstr exGai (str "127.0.0.1:5353") 53 = some ⟨false, [127, 0, 0, 1], 5353, 0⟩ ∧
    fromstr exGai (str "[::1]:5353") 53 = some ⟨true, [0, 0, 0, 0, 0, 0, 0, 0, 0, 0, 0, 0, 0, 0, 0, 1], 5353, 0⟩ ∧
    fromstr exGai (str "::1") 53 = some ⟨true, [0, 0, 0, 0, 0, 0, 0, 0, 0, 0, 0, 0, 0, 0, 0, 1], 53, 0⟩ ∧ fromstr exGai (str ":5353") 53 = none := by
  decide +kernel

example : ¬ Junk (str "[::1]:5353") := by
  have e : str "[::1]:5353" = [91, 58, 58, 49, 93, 58, 53, 51, 53, 51] := by decide +kernel
  rintro ⟨a, j, h1, h2, h3, h4⟩
  rw [e] at h4
  simp only [List.cons_append, List.cons.injEq, true_and] at h4
  have := chr_some.mpr ⟨h4, h1⟩
  have h5 : chr 93 [58, 58, 49, 93, 58, 53, 51, 53, 51] = some ([58, 58, 49], [58, 53, 51, 53, 51]) := by decide +kernel
  rw [h5] at this
  simp only [Option.some.injEq, Prod.mk.injEq] at this
  rw [← this.2] at h3
  exact h3 rfl

end Gdnsd.Conf
