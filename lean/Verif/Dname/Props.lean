import Verif.Dname.Print
/-
Properties C01-C05: domain names. Hypotheses `len ≤ instr.length` say only that
the caller's pointer/length pair refers to real memory.
-/
namespace Gdnsd.Dname
open DnameSpec

/-! ### C02: escape decoding -/

/-- C02. `gdnsd_dns_unescape` on any non-empty input with an output buffer at least
as large as the input: no access outside either buffer, success exactly on texts
of the RFC 1035 escape grammar with exactly the denoted bytes, failure otherwise. -/
theorem C02_unescape_exact (cap : Nat) (inp : Bytes) (len : Nat) (h0 : 0 < len)
    (hlen : len ≤ inp.length) (hcap : len ≤ cap) :
    (∃ o, unescape cap inp len = .ok (some o) ∧ Unesc (inp.take len) o ∧ 0 < o.length ∧ o.length ≤ len) ∨
    (unescape cap inp len = .ok none ∧ ∀ o, ¬ Unesc (inp.take len) o) := by
  rw [unescape_eq cap inp len h0 hlen hcap]
  cases h : unesc (inp.take len) with
  | none =>
    right
    refine ⟨rfl, fun o ho => ?_⟩
    rw [(unesc_iff _ _).2 ho] at h; simp at h
  | some o =>
    left
    have hu := (unesc_iff _ _).1 h
    have h1 := (Unesc_length hu).1
    have h2 := Unesc_ne_nil hu (by
      intro h'
      have := congrArg List.length h'
      rw [List.length_take, List.length_nil] at this; omega)
    refine ⟨o, rfl, hu, List.length_pos_iff.2 h2, ?_⟩
    simp at h1; omega

/-- The escape grammar is unambiguous, so the result in `C02_unescape_exact` is unique. -/
theorem C02_grammar_functional {s o o' : Bytes} (h : Unesc s o) (h' : Unesc s o') : o = o' := by
  have h1 := (unesc_iff _ _).2 h
  have h2 := (unesc_iff _ _).2 h'
  rw [h1] at h2; simpa using h2

/-- C02 for the label variant: additionally rejects more than 63 bytes and lower-cases. -/
theorem C02_unescape_label_exact (inp : Bytes) (len : Nat) (h0 : 0 < len) (hlen : len ≤ inp.length) :
    (∃ o, unescapeLabel inp len = .ok (some (o.map lower)) ∧ Unesc (inp.take len) o ∧ o.length ≤ 63) ∨
    (unescapeLabel inp len = .ok none ∧ ∀ o, Unesc (inp.take len) o → 63 < o.length) := by
  rw [unescapeLabel_eq inp len h0 hlen]
  cases h : unesc (inp.take len) with
  | none =>
    right
    refine ⟨rfl, fun o ho => ?_⟩
    rw [(unesc_iff _ _).2 ho] at h; simp at h
  | some o =>
    have hu := (unesc_iff _ _).1 h
    by_cases h63 : o.length ≤ 63
    · left; exact ⟨o, by simp [h63], hu, h63⟩
    · right
      refine ⟨by simp [h63], fun o' ho' => ?_⟩
      rw [← C02_grammar_functional hu ho']; omega

/-- A text with a literal, a character escape and a decimal escape. -/
example : unescape 8 [97, 92, 46, 92, 50, 53, 53] 7 = .ok (some [97, 46, 255]) := by
  simp [unescape, unescapeGo, rd, push, isDigit, digitVal, Outcome.bind]

/-! ### C01: parsing names -/

/-- C01. For every text: parsing never touches memory it must not, and either
yields exactly the stored form of the (lower-cased) labels that the presentation
grammar denotes, with status VALID iff the text ended in an unescaped dot; or it
reports INVALID, in which case the text denotes no legal name (labels of 1..63
bytes, at most 255 bytes in all). -/
theorem C01_parse_exact (instr : Bytes) (len : Nat) (hlen : len ≤ instr.length) :
    (∃ ls q, NameText (instr.take len) ls q ∧ WF ls ∧
      fromString instr len = .ok (if q then .valid else .partialName, encode (ls.map (·.map lower)) q)) ∨
    ((¬ ∃ ls q, NameText (instr.take len) ls q ∧ WF ls) ∧ fromString instr len = .ok (.invalid, [])) :=
  fromString_eq instr len hlen

/-- The presentation grammar denotes at most one name per text. -/
theorem C01_grammar_functional {t : Bytes} {ls ls' : List Bytes} {q q' : Bool}
    (h : NameText t ls q) (h' : NameText t ls' q') : ls = ls' ∧ q = q' := NameText_functional h h'

/-- C01, completeness: every legal name's text is accepted. -/
theorem C01_parse_complete (instr : Bytes) (len : Nat) (hlen : len ≤ instr.length) (ls : List Bytes) (q : Bool)
    (h : NameText (instr.take len) ls q) (hwf : WF ls) :
    fromString instr len = .ok (if q then .valid else .partialName, encode (ls.map (·.map lower)) q) := by
  rcases C01_parse_exact instr len hlen with ⟨ls', q', h1, _, h3⟩ | ⟨h1, _⟩
  · obtain ⟨rfl, rfl⟩ := NameText_functional h h1
    exact h3
  · exact absurd ⟨ls, q, h, hwf⟩ h1

/-- C01: what is accepted also passes the server's own well-formedness check with the same verdict. -/
theorem C01_parse_status (instr : Bytes) (len : Nat) (hlen : len ≤ instr.length) (st : Status) (d : Bytes)
    (h : fromString instr len = .ok (st, d)) (hst : st ≠ .invalid) :
    status d = .ok st ∧ d.length ≤ 256 ∧ rd d 0 = .ok (UInt8.ofNat (d.length - 1)) := by
  rcases C01_parse_exact instr len hlen with ⟨ls, q, _, hwf, h3⟩ | ⟨_, h3⟩
  · rw [h] at h3
    simp only [Outcome.ok.injEq, Prod.mk.injEq] at h3
    obtain ⟨rfl, rfl⟩ := h3
    have hl := encode_length (ls.map (·.map lower)) q
    have hw := WF_map_lower hwf
    refine ⟨status_encode' _ _ hw, by rw [hl]; have := hw.2; omega, ?_⟩
    rw [hl]
    have := rd_encode_zero (ls.map (·.map lower)) q []
    simpa using this
  · rw [h] at h3
    simp only [Outcome.ok.injEq, Prod.mk.injEq] at h3
    exact absurd h3.1 hst

/-- "A\.b.c." denotes the labels "A.b", "c". -/
example : NameText [65, 92, 46, 98, 46, 99, 46] [[65, 46, 98], [99]] true ∧ WF [[65, 46, 98], [99]] := by
  refine ⟨?_, by decide⟩
  have l1 : LabelText [65, 92, 46, 98] [65, 46, 98] :=
    .lit (by decide) (by decide) (.chr (by unfold digit; decide) (.lit (by decide) (by decide) .nil))
  have l2 : LabelText [99] [99] := .lit (by decide) (by decide) .nil
  exact .cons (t := [65, 92, 46, 98]) (by simp) l1 (by simp) (.lastDot (t := [99]) (by simp) l2)

/-! ### C03: printing and re-reading -/

/-- C03 fails as stated: a legal name whose label contains a dot prints as a text
that reads back as a different name (dname.c:201 prints '.' unescaped). -/
theorem C03_false : ∃ ls : List Bytes, WF ls ∧
    ∃ t, toString (encode ls true) = .ok t ∧
      fromString t t.length = .ok (.valid, encode [[97], [98]] true) ∧
      encode [[97], [98]] true ≠ encode ls true := by
  refine ⟨[[97, 46, 98]], by decide, [97, 46, 98, 46], ?_, ?_, by decide⟩
  · rw [toString_eq _ _ (by decide)]; decide
  · have h : NameText ([97, 46, 98, 46].take 4) [[97], [98]] true :=
      .cons (t := [97]) (by simp) (.lit (by decide) (by decide) .nil) (by simp)
        (.lastDot (t := [98]) (by simp) (.lit (by decide) (by decide) .nil))
    have := C01_parse_complete [97, 46, 98, 46] 4 (by decide) _ _ h (by decide)
    rw [show ([97, 46, 98, 46] : Bytes).length = 4 from rfl, this]
    decide

/-- C03 also fails for a label containing a backslash, where the printed text may not parse at all. -/
theorem C03_false_backslash : ∃ ls : List Bytes, WF ls ∧
    ∃ t, toString (encode ls true) = .ok t ∧ fromString t t.length = .ok (.invalid, []) := by
  refine ⟨[[92, 57, 57, 57]], by decide, [92, 57, 57, 57, 46], ?_, ?_⟩
  · rw [toString_eq _ _ (by decide)]; decide
  · rcases C01_parse_exact [92, 57, 57, 57, 46] 5 (by decide) with ⟨ls, q, h1, _, _⟩ | ⟨_, h⟩
    · exfalso
      rcases Classical.em (ls = []) with hls | hls
      · rcases NameText_root h1 hls with ⟨h, _⟩ | ⟨h, _⟩ <;> simp at h
      · have := nmGo_complete h1 hls
        simp [nmGo, unesc, isDigit, digitVal] at this
    · exact h

/-- C03 also fails for the root name, which prints as the empty text (dname.c:198-217). -/
theorem C03_false_root : WF [] ∧ toString (encode [] true) = .ok [] ∧
    fromString [] 0 = .ok (.partialName, encode [] false) := by
  refine ⟨by decide, ?_, rfl⟩
  rw [toString_eq _ _ (by decide)]; decide

/-- C03, partial: the round trip holds for every legal name, qualified or not, none of
whose labels contains a dot, a backslash or (names are stored lower-cased) an
upper-case letter, and which is not the root. Missing: those names, for which it is
false (`C03_false`, `C03_false_backslash`, `C03_false_root`). -/
theorem C03_print_parse_partial (ls : List Bytes) (q : Bool) (h : WF ls) (hroot : ls = [] → q = false)
    (hplain : ∀ l ∈ ls, ∀ x ∈ l, x ≠ 46 ∧ x ≠ 92) (hlow : ∀ l ∈ ls, ∀ x ∈ l, lower x = x) :
    ∃ t, toString (encode ls q) = .ok t ∧
      fromString t t.length = .ok (if q then .valid else .partialName, encode ls q) := by
  have hid : ls.map (·.map lower) = ls := by
    have : ∀ l ∈ ls, l.map lower = l := by
      intro l hl
      exact List.map_id'' (fun _ => rfl) l |>.symm ▸ (List.map_congr_left (fun x hx => hlow l hl x hx)).trans (List.map_id' l)
    exact (List.map_congr_left this).trans (List.map_id' ls)
  refine ⟨_, toString_eq ls q h, ?_⟩
  by_cases hne : ls = []
  · subst hne
    cases q
    · exact C01_parse_complete [] 0 (by simp) [] false .empty (by decide)
    · simp at hroot
  · have h1 : ∀ l ∈ ls, 1 ≤ l.length := fun l hl => (h.1 l hl).1
    cases q
    · have := C01_parse_complete (dotted ls).dropLast _ (Nat.le_refl _) ls false
        (by rw [List.take_length]; exact dotted_dropLast_text ls hne h1 hplain) h
      rw [hid] at this; exact this
    · have := C01_parse_complete (dotted ls) _ (Nat.le_refl _) ls true
        (by simpa using dotted_text ls hne h1 hplain) h
      rw [hid] at this; exact this

/-- C03: the printed text consists of printable ASCII characters only (no blanks, control
or 8-bit characters), whatever the name. -/
theorem C03_print_printable (ls : List Bytes) (q : Bool) (h : WF ls) :
    ∃ t, toString (encode ls q) = .ok t ∧ ∀ x ∈ t, 0x20 < x ∧ x < 0x7F := by
  refine ⟨_, toString_eq ls q h, ?_⟩
  have fb : ∀ y : BitVec 8, ∀ x ∈ printByte ⟨y⟩, 0x20 < x ∧ x < 0x7F := by decide +kernel
  have hall : ∀ x ∈ dotted ls, 0x20 < x ∧ x < 0x7F := by
    intro x hx
    simp only [dotted, List.mem_append, List.mem_singleton, List.mem_flatMap] at hx
    obtain ⟨l, -, ⟨y, -, hx⟩ | rfl⟩ := hx
    · exact fb y.toBitVec x hx
    · decide
  cases q
  · intro x hx; exact hall x (List.dropLast_subset _ hx)
  · exact hall

/-- C03: the printed text plus its NUL always fits in the 1024-byte buffers callers provide. -/
theorem C03_print_fits (ls : List Bytes) (q : Bool) (h : WF ls) :
    ∃ t, toString (encode ls q) = .ok t ∧ t.length + 1 ≤ 1024 := by
  refine ⟨_, toString_eq ls q h, ?_⟩
  have := dotted_len ls h
  cases q <;> simp <;> omega

example : WF [[119, 119, 119], [1, 200], [97]] ∧ (∀ l ∈ [[119, 119, 119], [1, 200], [97]], ∀ x ∈ l, (x : UInt8) ≠ 46 ∧ x ≠ 92) ∧
    (∀ l ∈ [[119, 119, 119], [1, 200], [97]], ∀ x ∈ l, lower x = x) := by decide

/-! ### C04: in-zone test, zone removal, comparison -/

/-- C04. For every pair of legal fully-qualified names (whatever follows them in
memory) the in-zone test is exactly "the zone's labels are a suffix of the name's". -/
theorem C04_isinzone (zone name : List Bytes) (hz : WF zone) (hn : WF name) (j1 j2 : Bytes) :
    isInZone (encode zone true ++ j1) (encode name true ++ j2) = .ok (decide (zone <:+ name)) :=
  isInZone_eq zone name hz hn j1 j2

/-- C04. Removing the zone from a name inside it leaves exactly the leading labels. -/
theorem C04_drop_zone (x zone : List Bytes) (h : WF (x ++ zone)) (j1 j2 : Bytes) :
    dropZone (encode (x ++ zone) true ++ j1) (encode zone true ++ j2) = .ok (encode x true) :=
  dropZone_eq x zone h j1 j2

/-- C04. Comparison returns zero exactly for equal names. -/
theorem C04_cmp (a b : List Bytes) (p q : Bool) (ha : WF a) (hb : WF b) (j1 j2 : Bytes) :
    ∃ r, cmp (encode a p ++ j1) (encode b q ++ j2) = .ok r ∧ (r = 0 ↔ (a = b ∧ p = q)) :=
  cmp_eq a b p q ha hb j1 j2

/-- A zone whose wire bytes are a suffix of the name's bytes but not at a label
boundary (name label = [1,97,0..] style) is correctly not "in zone". -/
example : isInZone (encode [[97]] true) (encode [[98, 1, 97]] true) = .ok false := by
  have := C04_isinzone [[97]] [[98, 1, 97]] (by decide) (by decide) [] []
  rw [List.append_nil, List.append_nil] at this
  rw [this]; decide

example : WF ([[119, 119, 119], [97]] ++ [[99, 111, 109]]) := by decide

/-! ### C05: concatenation -/

/-- C05. Appending a name to another: label concatenation, with the second name's
termination, exactly when the result is at most 255 bytes; otherwise INVALID and the
first name is unchanged. -/
theorem C05_cat (a b : List Bytes) (p q : Bool) (ha : WF a) (hb : WF b) (j1 j2 : Bytes) :
    cat (encode a p ++ j1) (encode b q ++ j2) =
      if wireLen (a ++ b) ≤ 255 then
        .ok (if q then .valid else .partialName, encode (a ++ b) q)
      else .ok (.invalid, encode a p ++ j1) :=
  cat_eq a b p q ha hb j1 j2

/-- C05. The success condition is exactly well-formedness of the concatenation. -/
theorem C05_cat_wf (a b : List Bytes) (ha : WF a) (hb : WF b) :
    wireLen (a ++ b) ≤ 255 ↔ WF (a ++ b) := by
  constructor
  · intro h
    refine ⟨fun l hl => ?_, h⟩
    rcases List.mem_append.1 hl with h1 | h1
    · exact ha.1 l h1
    · exact hb.1 l h1
  · exact fun h => h.2

example : WF [[119, 119, 119]] ∧ WF [[97], [98]] ∧ wireLen ([[119, 119, 119]] ++ [[97], [98]]) ≤ 255 := by decide
/-- and a pair for which concatenation must fail -/
example : WF (List.replicate 3 (List.replicate 63 97)) ∧ WF [List.replicate 63 98] ∧
    ¬ wireLen (List.replicate 3 (List.replicate 63 97) ++ [List.replicate 63 98]) ≤ 255 := by decide

end Gdnsd.Dname
