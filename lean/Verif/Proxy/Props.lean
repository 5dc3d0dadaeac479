/-
Properties of PROXY protocol headers.
-/
import Verif.Proxy.Lemmas
namespace Gdnsd.Proxy

theorem byte_all (P : UInt8 → Bool) (h : (List.range 256).all (fun n => P (UInt8.ofNat n)) = true) (x : UInt8) : P x = true := by
  have := List.all_eq_true.mp h x.toNat (List.mem_range.mpr x.toNat_lt)
  simpa using this

theorem ver_split (x : UInt8) (h : x &&& 0xF0 = 0x20) : ∃ c : UInt8, c &&& 0xF0 = 0 ∧ x = 0x20 ||| c ∧ x &&& 0x0F = c := by
  have := byte_all (fun x => bif x &&& 0xF0 == 0x20 then ((x &&& 0x0F) &&& 0xF0 == 0) && (x == 0x20 ||| (x &&& 0x0F)) else true) (by decide +kernel) x
  rw [show (x &&& 0xF0 == 0x20) = true by simpa using h] at this
  simp at this
  refine ⟨x &&& 0x0F, ?_, this.2, rfl⟩
  have h3 := byte_all (fun x => (x &&& 0x0F) &&& 0xF0 == 0) (by decide +kernel) x
  simpa using h3

theorem ver_join (c : UInt8) (h : c &&& 0xF0 = 0) : (0x20 ||| c) &&& 0xF0 = 0x20 ∧ (0x20 ||| c) &&& 0x0F = c := by
  have := byte_all (fun c => bif c &&& 0xF0 == 0 then ((0x20 ||| c) &&& 0xF0 == 0x20) && ((0x20 ||| c) &&& 0x0F == c) else true) (by decide +kernel) c
  rw [show (c &&& 0xF0 == 0) = true by simpa using h] at this
  simpa only [cond_true, Bool.and_eq_true, beq_iff_eq] using this

theorem sub_take (b : Bytes) (i n : Nat) (dlen : Nat) (h : i + n ≤ dlen) (hb : dlen ≤ b.length) : sub b i n = .ok (((b.take dlen).drop i).take n) := by
  unfold sub
  rw [if_pos (by omega), List.drop_take, List.take_take, Nat.min_eq_left (by omega)]

theorem rd_take (b : Bytes) (i : Nat) (dlen : Nat) (h : i < dlen) (_hb : dlen ≤ b.length) (x : UInt8) (hx : (b.take dlen)[i]? = some x) : rd b i = .ok x := by
  unfold rd
  rw [List.getElem?_take, if_pos h] at hx
  rw [hx]

/-- The branches, by the data. -/
theorem parse_cases (gai : Bytes → Bytes → Option Addr) (b : Bytes) (dlen : Nat) (hb : dlen ≤ b.length) :
    ((b.take dlen).take 12 = v2sig ∧ 16 ≤ dlen ∧ (∃ vc, (b.take dlen)[12]? = some vc ∧ vc &&& 0xF0 = 0x20) ∧ parse gai b dlen = parseV2 b dlen) ∨
    ((b.take dlen).take 6 = v1sig ∧ 8 ≤ dlen ∧ parse gai b dlen = parseV1 gai b dlen) ∨
    (¬((b.take dlen).take 12 = v2sig ∧ 16 ≤ dlen ∧ (∃ vc, (b.take dlen)[12]? = some vc ∧ vc &&& 0xF0 = 0x20)) ∧
      ¬((b.take dlen).take 6 = v1sig ∧ 8 ≤ dlen) ∧ parse gai b dlen = .ok none) := by
  have hl : (b.take dlen).length = dlen := by simp; omega
  have k1 : isV1 b dlen = .ok (decide ((b.take dlen).take 6 = v1sig ∧ 8 ≤ dlen)) := by
    unfold isV1
    by_cases h8 : 8 ≤ dlen
    · rw [if_pos h8, sub_take b 0 6 dlen (by omega) hb]
      simp [h8]
    · rw [if_neg h8]; simp [h8]
  by_cases h2 : (b.take dlen).take 12 = v2sig ∧ 16 ≤ dlen ∧ (∃ vc, (b.take dlen)[12]? = some vc ∧ vc &&& 0xF0 = 0x20)
  · refine .inl ⟨h2.1, h2.2.1, h2.2.2, ?_⟩
    obtain ⟨h1, h16, vc, hv, hv2⟩ := h2
    have k2 : isV2 b dlen = .ok true := by
      unfold isV2
      rw [if_pos h16, sub_take b 0 12 dlen (by omega) hb]
      simp only [List.drop_zero, h1, Outcome.bind_ok]
      rw [if_pos trivial, rd_take b 12 dlen (by omega) hb vc hv]
      simp [hv2]
    unfold parse
    rw [k2]; rfl
  · have k2 : isV2 b dlen = .ok false := by
      unfold isV2
      by_cases h16 : 16 ≤ dlen
      · rw [if_pos h16, sub_take b 0 12 dlen (by omega) hb]
        simp only [List.drop_zero, Outcome.bind_ok]
        by_cases hs : (b.take dlen).take 12 = v2sig
        · rw [if_pos hs]
          have hg : (b.take dlen)[12]? = some ((b.take dlen)[12]'(by omega)) := List.getElem?_eq_getElem _
          rw [rd_take b 12 dlen (by omega) hb _ hg]
          have : ¬((b.take dlen)[12]'(by omega) &&& 0xF0 = 0x20) := fun hc => h2 ⟨hs, h16, _, hg, hc⟩
          simp only [Outcome.bind_ok, this, decide_false]
        · rw [if_neg hs]
      · rw [if_neg h16]
    unfold parse
    rw [k2]
    simp only [Outcome.bind_ok]
    rw [k1]
    by_cases h1 : (b.take dlen).take 6 = v1sig ∧ 8 ≤ dlen
    · refine .inr (.inl ⟨h1.1, h1.2, ?_⟩)
      simp [h1]
    · refine .inr (.inr ⟨h2, h1, ?_⟩)
      simp only [h1, decide_false, Outcome.bind_ok]

/-- A version 1 header, and what the parser does with it. -/
theorem v1_eval (gai : Bytes → Bytes → Option Addr) (b : Bytes) (dlen n : Nat) (src sport : Bytes) (hb : dlen ≤ b.length)
    (h : Header1 (b.take dlen) n src sport) :
    n ≤ dlen ∧ ∃ b', b'.length = b.length ∧ b'.drop n = b.drop n ∧
      parse gai b dlen = match gai src sport with
        | none => .ok none
        | some a => if n ≤ 108 then .ok (some ⟨n, some a, b'⟩) else .ub := by
  obtain ⟨proto, dst, dport, rest, hp, w1, w2, w3, w4, hd, hn, h18⟩ := h
  have hpl : proto.length = 5 := by rcases hp with rfl | rfl <;> rfl
  have hl : (b.take dlen).length = dlen := by simp; omega
  generalize ht : src ++ [32] ++ dst ++ [32] ++ sport ++ [32] ++ dport = t
  have hline : Line proto src dst sport dport = v1sig ++ proto ++ t := by rw [← ht]; simp [Line, v1sig]
  rw [hline] at hd hn
  have hn' : n = t.length + 13 := by rw [hn]; simp [v1sig, hpl]; omega
  have hbb : b = v1sig ++ proto ++ t ++ [13, 10] ++ (rest ++ b.drop dlen) := by
    conv => lhs; rw [← List.take_append_drop dlen b, hd]
    simp
  have hdl : dlen = t.length + 13 + rest.length := by rw [← hl, hd]; simp [v1sig, hpl]; omega
  have hcr : ∀ x ∈ v1sig ++ proto ++ t, x ≠ 13 := by
    intro x hx
    rw [← ht] at hx
    simp only [List.mem_append, List.mem_singleton] at hx
    rcases hx with (hx | hx) | ((((((hx | hx) | hx) | hx) | hx) | hx) | hx)
    · intro hc; subst hc; revert hx; decide
    · intro hc; subst hc; rcases hp with rfl | rfl <;> revert hx <;> decide
    · exact (w1 x hx).2.1
    · rw [hx]; decide
    · exact (w2 x hx).2.1
    · rw [hx]; decide
    · exact (w3 x hx).2.1
    · rw [hx]; decide
    · exact w4 x hx
  have hpp : parse gai b dlen = parseV1 gai b dlen := by
    have h6 : (b.take dlen).take 6 = v1sig := by
      rw [hd]
      simp only [List.append_assoc]
      rw [List.take_left' (by rfl)]
    rcases parse_cases gai b dlen hb with ⟨h12, _⟩ | h1 | ⟨_, h1, _⟩
    · have : v2sig.take 6 = v1sig := by rw [← h12, List.take_take]; exact h6
      exact absurd this (by decide)
    · exact h1.2.2
    · exact absurd ⟨h6, by omega⟩ h1
  have hf : fields t = some (src, dst, sport, dport) := (fields_iff _ _ _ _ _).mpr
    ⟨ht.symm, fun x hx => ⟨(w1 x hx).1, (w1 x hx).2.2⟩, fun x hx => ⟨(w2 x hx).1, (w2 x hx).2.2⟩, fun x hx => ⟨(w3 x hx).1, (w3 x hx).2.2⟩⟩
  have hv := parseV1_line gai proto t (rest ++ b.drop dlen) dlen hpl hcr (by simp [v1sig, hpl]; omega) (by rw [← hbb]; exact hb)
  rw [← hbb] at hv
  have hblen : b.length = t.length + 13 + (rest ++ b.drop dlen).length := by
    conv => lhs; rw [hbb]
    simp [v1sig, hpl]; omega
  have htl : t.length = src.length + dst.length + sport.length + dport.length + 3 := by rw [← ht]; simp; omega
  refine ⟨by omega, v1sig ++ proto ++ src ++ 0 :: dst ++ 0 :: sport ++ 0 :: dport ++ 0 :: 10 :: (rest ++ b.drop dlen), ?_, ?_, ?_⟩
  · rw [hblen]
    simp [v1sig, hpl]; omega
  · have e1 : b.drop n = rest ++ b.drop dlen := by
      conv => lhs; rw [hbb]
      exact List.drop_left' (by simp [v1sig, hpl]; omega)
    have e2 : v1sig ++ proto ++ src ++ 0 :: dst ++ 0 :: sport ++ 0 :: dport ++ 0 :: 10 :: (rest ++ b.drop dlen) =
      (v1sig ++ proto ++ src ++ 0 :: dst ++ 0 :: sport ++ 0 :: dport ++ [0, 10]) ++ (rest ++ b.drop dlen) := by simp
    rw [e1, e2]
    exact List.drop_left' (by simp [v1sig, hpl]; omega)
  · rw [hpp, hv, if_neg (by rintro (hc | hc); · omega
                            · rcases hp with rfl | rfl
                              · exact hc.1 rfl
                              · exact hc.2 rfl), hf]
    dsimp only
    cases gai src sport with
    | none => rfl
    | some a => rw [← hn']; rfl

/-- **C41, version 1 headers** (partial): a header of at most 108 bytes that names an address
`getaddrinfo` understands is consumed exactly, gives that address, and leaves all later data as
it was; one that names no such address is rejected. Missing: the assertion that longer headers
fail (`C41_false_long`). -/
theorem C41_v1_partial (gai : Bytes → Bytes → Option Addr) (b : Bytes) (dlen n : Nat) (src sport : Bytes) (hb : dlen ≤ b.length)
    (h : Header1 (b.take dlen) n src sport) :
    (∀ a, gai src sport = some a → n ≤ 108 → ∃ b', parse gai b dlen = .ok (some ⟨n, some a, b'⟩) ∧ b'.length = b.length ∧ b'.drop n = b.drop n) ∧
    (gai src sport = none → parse gai b dlen = .ok none) := by
  obtain ⟨_, b', h1, h2, h3⟩ := v1_eval gai b dlen n src sport hb h
  refine ⟨fun a ha hn => ⟨b', ?_, h1, h2⟩, fun ha => ?_⟩
  · rw [h3, ha]; dsimp only; rw [if_pos hn]
  · rw [h3, ha]

/-- A version 2 header, and what the parser does with it. -/
theorem v2_eval (gai : Bytes → Bytes → Option Addr) (b : Bytes) (dlen : Nat) (cmd fam : UInt8) (body : Bytes) (hb : dlen ≤ b.length)
    (h : Header2 (b.take dlen) cmd fam body) :
    16 + body.length ≤ dlen ∧ parse gai b dlen = .ok (
      if cmd = 1 ∧ fam = 0x11 ∧ 12 ≤ body.length then some ⟨16 + body.length, some (.v4 (body.take 4) ((body.drop 8).take 2)), b⟩
      else if cmd = 1 ∧ fam = 0x21 ∧ 36 ≤ body.length then some ⟨16 + body.length, some (.v6 (body.take 16) ((body.drop 32).take 2)), b⟩
      else if cmd = 0 then some ⟨16 + body.length, none, b⟩
      else none) := by
  obtain ⟨l0, l1, rest, hbl, hc, hd⟩ := h
  have hl : (b.take dlen).length = dlen := by simp; omega
  have hdl : dlen = 16 + body.length + rest.length := by rw [← hl, hd]; simp; omega
  have g12 : (b.take dlen)[12]? = some (0x20 ||| cmd) := by rw [hd]; simp
  have g13 : (b.take dlen)[13]? = some fam := by rw [hd]; simp
  have g14 : (b.take dlen)[14]? = some l0 := by rw [hd]; simp
  have g15 : (b.take dlen)[15]? = some l1 := by rw [hd]; simp
  have hj := ver_join cmd hc
  have hpp : parse gai b dlen = parseV2 b dlen := by
    have h12 : (b.take dlen).take 12 = v2sig := by rw [hd]; simp [v2sig]
    rcases parse_cases gai b dlen hb with ⟨_, _, _, h1⟩ | ⟨h1, _⟩ | ⟨h1, _, _⟩
    · exact h1
    · have : v2sig.take 6 = v1sig := by rw [← h12, List.take_take]; exact h1
      exact absurd this (by decide)
    · exact absurd ⟨h12, by omega, _, g12, hj.1⟩ h1
  have hbody : ∀ i k, i + k ≤ body.length → sub b (16 + i) k = .ok ((body.drop i).take k) := by
    intro i k hik
    rw [sub_take b (16 + i) k dlen (by omega) hb, hd]
    congr 1
    rw [← List.drop_drop]
    simp only [List.cons_append, List.nil_append, List.drop_succ_cons, List.drop_zero]
    rw [List.drop_append_of_le_length (by omega), List.take_append_of_le_length (by simp; omega)]
  refine ⟨by omega, ?_⟩
  rw [hpp]
  unfold parseV2
  rw [rd_take b 12 dlen (by omega) hb _ g12, rd_take b 13 dlen (by omega) hb _ g13, rd_take b 14 dlen (by omega) hb _ g14, rd_take b 15 dlen (by omega) hb _ g15]
  simp only [Outcome.bind_ok]
  rw [← hbl, if_neg (by omega), hj.2]
  by_cases hc1 : cmd = 1
  · rw [if_pos hc1]
    by_cases h4 : fam = 0x11 ∧ 12 ≤ body.length
    · rw [if_pos ⟨h4.1, by omega⟩, if_pos ⟨hc1, h4⟩]
      have a1 := hbody 0 4 (by omega)
      have a2 := hbody 8 2 (by omega)
      simp only [Nat.add_zero, List.drop_zero] at a1
      rw [a1]
      simp only [Outcome.bind_ok]
      rw [a2]
      rfl
    · have n1 : ¬(fam = 0x11 ∧ 28 ≤ 16 + body.length) := fun hc => h4 ⟨hc.1, by omega⟩
      have n2 : ¬(cmd = 1 ∧ fam = 0x11 ∧ 12 ≤ body.length) := fun hc => h4 hc.2
      rw [if_neg n1, if_neg n2]
      by_cases h6 : fam = 0x21 ∧ 36 ≤ body.length
      · have p1 : fam = 0x21 ∧ 52 ≤ 16 + body.length := ⟨h6.1, by omega⟩
        have p2 : cmd = 1 ∧ fam = 0x21 ∧ 36 ≤ body.length := ⟨hc1, h6⟩
        rw [if_pos p1, if_pos p2]
        have a1 := hbody 0 16 (by omega)
        have a2 := hbody 32 2 (by omega)
        simp only [Nat.add_zero, List.drop_zero] at a1
        rw [a1]
        simp only [Outcome.bind_ok]
        rw [a2]
        rfl
      · have n3 : ¬(fam = 0x21 ∧ 52 ≤ 16 + body.length) := fun hc => h6 ⟨hc.1, by omega⟩
        have n4 : ¬(cmd = 1 ∧ fam = 0x21 ∧ 36 ≤ body.length) := fun hc => h6 hc.2
        have n5 : ¬(cmd = 0) := by rw [hc1]; decide
        rw [if_neg n3, if_neg n4, if_neg n5]
  · have n1 : ¬(cmd = 1 ∧ fam = 0x11 ∧ 12 ≤ body.length) := fun hc => hc1 hc.1
    have n2 : ¬(cmd = 1 ∧ fam = 0x21 ∧ 36 ≤ body.length) := fun hc => hc1 hc.1
    rw [if_neg hc1, if_neg n1, if_neg n2]
    by_cases h0 : cmd = 0
    · rw [if_neg (not_not_intro h0), if_pos h0]
    · rw [if_pos h0, if_neg h0]

/-- **C41, version 2 headers**: a header with the command PROXY that names a TCP client over IPv4
or IPv6 is consumed exactly and gives its address and port; one with the command LOCAL is
consumed and keeps the address of the connection; any other is rejected. The data stays as it
was. -/
theorem C41_v2 (gai : Bytes → Bytes → Option Addr) (b : Bytes) (dlen : Nat) (cmd fam : UInt8) (body : Bytes) (hb : dlen ≤ b.length)
    (h : Header2 (b.take dlen) cmd fam body) :
    parse gai b dlen = .ok (
      if cmd = 1 ∧ fam = 0x11 ∧ 12 ≤ body.length then some ⟨16 + body.length, some (.v4 (body.take 4) ((body.drop 8).take 2)), b⟩
      else if cmd = 1 ∧ fam = 0x21 ∧ 36 ≤ body.length then some ⟨16 + body.length, some (.v6 (body.take 16) ((body.drop 32).take 2)), b⟩
      else if cmd = 0 then some ⟨16 + body.length, none, b⟩
      else none) := (v2_eval gai b dlen cmd fam body hb h).2

/-- **C41, everything else**: data that starts with no header is rejected. -/
theorem C41_rejects (gai : Bytes → Bytes → Option Addr) (b : Bytes) (dlen : Nat) (hb : dlen ≤ b.length)
    (h1 : ¬∃ n src sport, Header1 (b.take dlen) n src sport) (h2 : ¬∃ cmd fam body, Header2 (b.take dlen) cmd fam body) :
    parse gai b dlen = .ok none := by
  have hl : (b.take dlen).length = dlen := by simp; omega
  rcases parse_cases gai b dlen hb with ⟨h12, h16, ⟨vc, hv, hv2⟩, hp⟩ | ⟨h6, h8, hp⟩ | ⟨_, _, hp⟩
  · -- a version 2 header that is longer than the data
    rw [hp]
    unfold parseV2
    have g13 : (b.take dlen)[13]? = some ((b.take dlen)[13]'(by omega)) := List.getElem?_eq_getElem _
    have g14 : (b.take dlen)[14]? = some ((b.take dlen)[14]'(by omega)) := List.getElem?_eq_getElem _
    have g15 : (b.take dlen)[15]? = some ((b.take dlen)[15]'(by omega)) := List.getElem?_eq_getElem _
    rw [rd_take b 12 dlen (by omega) hb _ hv, rd_take b 13 dlen (by omega) hb _ g13, rd_take b 14 dlen (by omega) hb _ g14, rd_take b 15 dlen (by omega) hb _ g15]
    simp only [Outcome.bind_ok]
    split
    · rfl
    · rename_i hskip
      refine absurd ?_ h2
      obtain ⟨c, hc1, hc2, _⟩ := ver_split vc hv2
      refine ⟨c, (b.take dlen)[13]'(by omega), ((b.take dlen).drop 16).take (256 * ((b.take dlen)[14]'(by omega)).toNat + ((b.take dlen)[15]'(by omega)).toNat), (b.take dlen)[14]'(by omega), (b.take dlen)[15]'(by omega),
        ((b.take dlen).drop 16).drop (256 * ((b.take dlen)[14]'(by omega)).toNat + ((b.take dlen)[15]'(by omega)).toNat), ?_, hc1, ?_⟩
      · rw [List.length_take, List.length_drop]
        omega
      · rw [List.append_assoc _ _ (List.drop _ _), List.take_append_drop]
        have e : (b.take dlen) = (b.take dlen).take 12 ++ ((b.take dlen).drop 12) := (List.take_append_drop _ _).symm
        have d12 : (b.take dlen).drop 12 = vc :: (b.take dlen).drop 13 := by
          have := List.getElem?_eq_some_iff.mp hv
          obtain ⟨hi, hi2⟩ := this
          rw [List.drop_eq_getElem_cons hi, hi2]
        have d13 : (b.take dlen).drop 13 = (b.take dlen)[13]'(by omega) :: (b.take dlen).drop 14 := List.drop_eq_getElem_cons (by omega)
        have d14 : (b.take dlen).drop 14 = (b.take dlen)[14]'(by omega) :: (b.take dlen).drop 15 := List.drop_eq_getElem_cons (by omega)
        have d15 : (b.take dlen).drop 15 = (b.take dlen)[15]'(by omega) :: (b.take dlen).drop 16 := List.drop_eq_getElem_cons (by omega)
        conv => lhs; rw [e, h12, d12, d13, d14, d15, hc2]
        simp [v2sig]
  · rw [hp]
    have hb6 : b.take 6 = v1sig := by rw [← h6, List.take_take, Nat.min_eq_left (by omega)]
    rcases first 13 (b.take (dlen - 1)) with hno | ⟨u, v, hu, hu2⟩
    · exact parseV1_no gai b dlen h8 hb hb6 (.inl hno)
    · have hul : u.length + 1 + v.length = dlen - 1 := by
        have := congrArg List.length hu
        simp at this; omega
      have hg : (b.take dlen)[dlen - 1]? = some ((b.take dlen)[dlen - 1]'(by omega)) := List.getElem?_eq_getElem _
      have ht : b.take dlen = u ++ 13 :: (v ++ [(b.take dlen)[dlen - 1]'(by omega)]) := by
        have e : b.take dlen = (b.take dlen).take (dlen - 1) ++ (b.take dlen).drop (dlen - 1) := (List.take_append_drop _ _).symm
        have e2 : (b.take dlen).take (dlen - 1) = u ++ 13 :: v := by rw [List.take_take, Nat.min_eq_left (by omega), hu]
        have e3 : (b.take dlen).drop (dlen - 1) = [(b.take dlen)[dlen - 1]'(by omega)] := by
          rw [List.drop_eq_getElem_cons (by omega), List.drop_eq_nil_of_le (by omega)]
        conv => lhs; rw [e, e2, e3]
        simp
      generalize hw : v ++ [(b.take dlen)[dlen - 1]'(by omega)] = w at ht
      cases w with
      | nil => simp at hw
      | cons x w =>
        by_cases hbad : x ≠ 10 ∨ u.length < 16
        · exact parseV1_no gai b dlen h8 hb hb6 (.inr ⟨u, x, w, ht, hu2, hbad⟩)
        · have hx : x = 10 := Classical.byContradiction fun hc => hbad (.inl hc)
          have hu16 : 16 ≤ u.length := Nat.le_of_not_lt fun hc => hbad (.inr hc)
          -- the parts of the line
          have hu6 : u.take 6 = v1sig := by
            rw [← h6, ht, List.take_append_of_le_length (by omega)]
          have hue : u = v1sig ++ (u.drop 6).take 5 ++ u.drop 11 := by
            conv => lhs; rw [← List.take_append_drop 6 u, hu6, ← List.take_append_drop 5 (u.drop 6), List.drop_drop]
            simp
          have hpl : ((u.drop 6).take 5).length = 5 := by simp; omega
          have hbb : b = v1sig ++ (u.drop 6).take 5 ++ u.drop 11 ++ [13, 10] ++ (w ++ b.drop dlen) := by
            conv => lhs; rw [← List.take_append_drop dlen b, ht, hx]
            rw [← hue]; simp
          have hlen : dlen = u.length + 2 + w.length := by rw [← hl, ht]; simp; omega
          have hv := parseV1_line gai ((u.drop 6).take 5) (u.drop 11) (w ++ b.drop dlen) dlen hpl (by rw [← hue]; exact hu2) (by rw [← hue]; omega)
            (by rw [← hbb]; exact hb)
          rw [← hbb] at hv
          rw [hv]
          split
          · rfl
          · rename_i hcond
            cases hf : fields (u.drop 11) with
            | none => rfl
            | some q =>
              obtain ⟨src, dst, sport, dport⟩ := q
              refine absurd ?_ h1
              obtain ⟨f1, f2, f3, f4⟩ := (fields_iff _ _ _ _ _).mp hf
              have hnc : ∀ x ∈ u.drop 11, x ≠ 13 := fun x hx => hu2 x (List.mem_of_mem_drop hx)
              rw [f1] at hnc
              have hpr : (u.drop 6).take 5 = tcp4 ∨ (u.drop 6).take 5 = tcp6 := by
                by_cases h4 : (u.drop 6).take 5 = tcp4
                · exact .inl h4
                · exact .inr (Classical.byContradiction fun h6 => hcond (.inr ⟨h4, h6⟩))
              have hline : Line ((u.drop 6).take 5) src dst sport dport = u := by
                conv => rhs; rw [hue, f1]
                simp [Line, v1sig]
              refine ⟨_, src, sport, (u.drop 6).take 5, dst, dport, w, hpr, fun x hx => ⟨(f2 x hx).1, hnc x (by simp [hx]), (f2 x hx).2⟩,
                fun x hx => ⟨(f3 x hx).1, hnc x (by simp [hx]), (f3 x hx).2⟩, fun x hx => ⟨(f4 x hx).1, hnc x (by simp [hx]), (f4 x hx).2⟩,
                fun x hx => hnc x (by simp [hx]), ?_, rfl, ?_⟩
              · rw [hline, ht, hx]; simp
              · rw [hline]; omega
  · exact hp

/-- **C41, bounds** (partial): for every data, unless it starts with a version 1 header of more than 108
bytes, the parser behaves, and what it consumes is at least 16 bytes and at most the data; later data
stays as it was. -/
theorem C41_bounds_partial (gai : Bytes → Bytes → Option Addr) (b : Bytes) (dlen : Nat) (hb : dlen ≤ b.length)
    (hlong : ∀ n src sport, Header1 (b.take dlen) n src sport → n ≤ 108) :
    ∃ o, parse gai b dlen = .ok o ∧ ∀ r, o = some r → 16 ≤ r.skip ∧ r.skip ≤ dlen ∧ r.buf.length = b.length ∧ r.buf.drop r.skip = b.drop r.skip := by
  by_cases h1 : ∃ n src sport, Header1 (b.take dlen) n src sport
  · obtain ⟨n, src, sport, h⟩ := h1
    obtain ⟨h0, b', e1, e2, e3⟩ := v1_eval gai b dlen n src sport hb h
    have h18 : 18 ≤ n := by obtain ⟨_, _, _, _, _, _, _, _, _, _, _, h18⟩ := h; exact h18
    rw [e3]
    cases gai src sport with
    | none => exact ⟨none, rfl, fun r hr => by cases hr⟩
    | some a =>
      dsimp only
      rw [if_pos (hlong n src sport h)]
      refine ⟨_, rfl, fun r hr => ?_⟩
      cases hr
      exact ⟨Nat.le_trans (by omega) h18, h0, e1, e2⟩
  · by_cases h2 : ∃ cmd fam body, Header2 (b.take dlen) cmd fam body
    · obtain ⟨cmd, fam, body, h⟩ := h2
      obtain ⟨h0, e⟩ := v2_eval gai b dlen cmd fam body hb h
      refine ⟨_, e, fun r hr => ?_⟩
      split at hr
      · cases hr; exact ⟨by simp, h0, rfl, rfl⟩
      · split at hr
        · cases hr; exact ⟨by simp, h0, rfl, rfl⟩
        · split at hr
          · cases hr; exact ⟨by simp, h0, rfl, rfl⟩
          · cases hr
    · exact ⟨none, C41_rejects gai b dlen hb h1 h2, fun r hr => by cases hr⟩

/-- What the parser consumes when it succeeds. -/
theorem parse_some (gai : Bytes → Bytes → Option Addr) (b : Bytes) (dlen : Nat) (hb : dlen ≤ b.length) (r : Res) (h : parse gai b dlen = .ok (some r)) :
    16 ≤ r.skip ∧ r.skip ≤ dlen ∧ r.buf.length = b.length ∧ r.buf.drop r.skip = b.drop r.skip := by
  by_cases h1 : ∃ n src sport, Header1 (b.take dlen) n src sport
  · obtain ⟨n, src, sport, h1⟩ := h1
    obtain ⟨h0, b', e1, e2, e3⟩ := v1_eval gai b dlen n src sport hb h1
    have h18 : 18 ≤ n := by obtain ⟨_, _, _, _, _, _, _, _, _, _, _, h18⟩ := h1; exact h18
    rw [e3] at h
    cases hg : gai src sport with
    | none => rw [hg] at h; cases h
    | some a =>
      rw [hg] at h
      dsimp only at h
      by_cases hn : n ≤ 108
      · rw [if_pos hn] at h
        cases h
        exact ⟨Nat.le_trans (by omega) h18, h0, e1, e2⟩
      · rw [if_neg hn] at h; cases h
  · obtain ⟨o, e1, e2⟩ := C41_bounds_partial gai b dlen hb (fun n src sport hx => absurd ⟨n, src, sport, hx⟩ h1)
    rw [h] at e1
    cases e1
    exact e2 r rfl

/-- **C41 is false**: every version 1 header of more than 108 bytes with a good address fails an
assertion of the parser. The destination port, which the parser does not look at, may be that
long. -/
theorem C41_false_long (gai : Bytes → Bytes → Option Addr) (b : Bytes) (dlen n : Nat) (src sport : Bytes) (a : Addr) (hb : dlen ≤ b.length)
    (h : Header1 (b.take dlen) n src sport) (ha : gai src sport = some a) (hn : 108 < n) : parse gai b dlen = .ub := by
  obtain ⟨_, b', _, _, h3⟩ := v1_eval gai b dlen n src sport hb h
  rw [h3, ha]; dsimp only; rw [if_neg (by omega)]

/-! ### Non-vacuity -/

/-- A `getaddrinfo` that knows "1.2.3.4" and "5". -/
def gai0 (h p : Bytes) : Option Addr := if h = [49, 46, 50, 46, 51, 46, 52] ∧ p = [53] then some (.text 1) else none

/-- "PROXY TCP4 1.2.3.4 1.1.1.1 5 6" and a request. -/
def ex1 : Bytes := Line tcp4 [49, 46, 50, 46, 51, 46, 52] [49, 46, 49, 46, 49, 46, 49] [53] [54] ++ [13, 10] ++ [0, 12]

example : Header1 (ex1.take 33) 32 [49, 46, 50, 46, 51, 46, 52] [53] :=
  ⟨tcp4, [49, 46, 49, 46, 49, 46, 49], [54], [0], .inl rfl, by unfold Word; decide, by unfold Word; decide, by unfold Word; decide, by decide, by decide, by decide, by decide⟩
example : (match parse gai0 ex1 34 with | .ok (some r) => r.skip == 32 && r.addr == some (.text 1) | _ => false) = true := by decide +kernel
example : gai0 [49, 46, 50, 46, 51, 46, 52] [53] = some (.text 1) := by decide

/-- The same with a destination port of 90 digits. -/
def ex2 : Bytes := Line tcp4 [49, 46, 50, 46, 51, 46, 52] [49, 46, 49, 46, 49, 46, 49] [53] (List.replicate 90 54) ++ [13, 10]

example : Header1 (ex2.take 121) 121 [49, 46, 50, 46, 51, 46, 52] [53] :=
  ⟨tcp4, [49, 46, 49, 46, 49, 46, 49], List.replicate 90 54, [], .inl rfl, by unfold Word; decide, by unfold Word; decide, by unfold Word; decide, by decide, by decide, by decide, by decide⟩
example : parse gai0 ex2 121 = .ub := by decide +kernel

/-- A version 2 header of an IPv4 client, and a byte. -/
def ex3 : Bytes := v2sig ++ [0x21, 0x11, 0, 12] ++ [1, 2, 3, 4, 5, 6, 7, 8, 0, 80, 0, 53] ++ [9]

example : Header2 (ex3.take 29) 1 0x11 [1, 2, 3, 4, 5, 6, 7, 8, 0, 80, 0, 53] := ⟨0, 12, [9], by decide, by decide, by decide⟩
example : parse gai0 ex3 29 = .ok (some ⟨28, some (.v4 [1, 2, 3, 4] [0, 80]), ex3⟩) := by decide +kernel
example : parse gai0 (v2sig ++ [0x20, 0, 0, 0]) 16 = .ok (some ⟨16, none, v2sig ++ [0x20, 0, 0, 0]⟩) := by decide +kernel

end Gdnsd.Proxy
