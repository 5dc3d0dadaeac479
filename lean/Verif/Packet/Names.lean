import Verif.Packet.Opts
import Verif.Dname.Lemmas
import Verif.Dname.Unesc
/- Proof helpers: questions and records. -/
namespace Gdnsd.Packet
open PacketSpec DnameSpec

theorem drop_cons_of {p : Bytes} {i : Nat} (h : i < p.length) : ∃ b, p.drop i = b :: p.drop (i + 1) ∧ rd p i = .ok b :=
  ⟨p[i], List.drop_eq_getElem_cons h, rd_lt h⟩

/-! ### Owner names -/

theorem skipName_cons (c : UInt8) (r : Bytes) : skipName (c :: r) =
    if c = 0 then some (1, false, r)
    else if c.toNat ≥ 64 then
      match r with
      | [] => none
      | _ :: r => some (2, true, r)
    else if r.length < c.toNat then none
    else (skipName (r.drop c.toNat)).map fun x => (x.1 + 1 + c.toNat, x.2) := by
  conv => lhs; unfold skipName
  rfl

theorem skipName_suffix : ∀ (n : Nat) (b : Bytes), b.length ≤ n → ∀ k q r, skipName b = some (k, q, r) →
    0 < k ∧ k ≤ b.length ∧ r = b.drop k := by
  intro n
  induction n with
  | zero =>
    intro b hb k q r h
    have : b = [] := List.length_eq_zero_iff.1 (by omega)
    subst this; simp [skipName] at h
  | succ n ih =>
    intro b hb k q r h
    match b with
    | [] => simp [skipName] at h
    | c :: b =>
      rw [skipName_cons] at h
      split at h
      · simp at h; obtain ⟨rfl, rfl, rfl⟩ := h; simp
      · split at h
        · match b with
          | [] => simp at h
          | _ :: b => simp at h; obtain ⟨rfl, rfl, rfl⟩ := h; simp
        · split at h
          · simp at h
          · rw [Option.map_eq_some_iff] at h
            obtain ⟨⟨k', q', r'⟩, h1, h2⟩ := h
            obtain ⟨h3, h4, h5⟩ := ih (b.drop c.toNat) (by simp at hb ⊢; omega) k' q' r' h1
            simp at h2
            obtain ⟨rfl, rfl, rfl⟩ := h2
            simp at h4
            refine ⟨by omega, by simp; omega, ?_⟩
            rw [h5, List.drop_drop]
            rw [show k' + 1 + c.toNat = (c.toNat + k') + 1 by omega, List.drop_succ_cons]

/-- Result of the name loop from position `pos` with limit `cap`. -/
def nameRes (b : Bytes) (pos cap : Nat) : Nat :=
  match skipName b with
  | some (n, isPtr, _) => if pos + n + (if isPtr then 1 else 0) ≤ cap then pos + n else 0
  | none => 0

theorem rrNameLoop_eq (p : Bytes) (base cap : Nat) (fuel pos : Nat) (hpos : pos < cap)
    (hcap : base + cap ≤ p.length) (hf : cap < fuel + pos + 1) :
    rrNameLoop p base cap fuel pos = .ok (nameRes (p.drop (base + pos)) pos cap) := by
  induction fuel generalizing pos with
  | zero => omega
  | succ fuel ih =>
    obtain ⟨b, hd, hr⟩ := drop_cons_of (show base + pos < p.length by omega)
    rw [rrNameLoop, hr]
    simp only [Outcome.bind_ok, nameRes]
    rw [hd, skipName_cons]
    by_cases h0 : b = 0
    · subst h0
      simp; omega
    · have h0' : b.toNat ≠ 0 := by
        intro h; apply h0; exact UInt8.toNat_inj.1 (by simpa using h)
      rw [if_neg h0', if_neg h0]
      by_cases h64 : b.toNat ≥ 64
      · rw [if_pos h64, if_pos h64]
        by_cases hx : base + pos + 1 < p.length
        · obtain ⟨b2, hd2, -⟩ := drop_cons_of hx
          rw [hd2]
          simp only [if_true]
          split <;> split <;> first | rfl | omega
        · have : p.drop (base + pos + 1) = [] := by simp; omega
          rw [this]; simp only
          rw [if_pos (by omega)]
      · rw [if_neg h64, if_neg h64]
        by_cases hl : (p.drop (base + pos + 1)).length < b.toNat
        · rw [if_pos hl]
          simp at hl
          rw [if_pos (by omega)]
        · rw [if_neg hl]
          simp at hl
          rw [List.drop_drop, show base + pos + 1 + b.toNat = base + (pos + 1 + b.toNat) by omega]
          by_cases hc : pos + 1 + b.toNat ≥ cap
          · rw [if_pos hc]
            cases hs : skipName (p.drop (base + (pos + 1 + b.toNat))) with
            | none => rfl
            | some x =>
              obtain ⟨k, q, r⟩ := x
              have := skipName_suffix _ _ (Nat.le_refl _) k q r hs
              simp only [Option.map_some]
              rw [if_neg (by omega)]
          · rw [if_neg hc, ih _ (by omega) (by omega), nameRes]
            cases hs : skipName (p.drop (base + (pos + 1 + b.toNat))) with
            | none => rfl
            | some x =>
              obtain ⟨k, q, r⟩ := x
              simp only [Option.map_some]
              congr 1
              rw [show pos + (k + 1 + b.toNat) = pos + 1 + b.toNat + k by omega]

theorem parseRrName_eq (p : Bytes) (base : Nat) (h : base < p.length) :
    parseRrName p base (p.length - base) = .ok (nameRes (p.drop base) 0 (min (p.length - base) 255)) := by
  have h0 : (if p.length - base > 255 then 255 else p.length - base) = min (p.length - base) 255 := by
    split <;> omega
  unfold parseRrName
  rw [h0, decide_eq_true (by omega), assert_true, Outcome.bind_ok,
    rrNameLoop_eq p base _ 256 0 (by omega) (by omega) (by omega)]
  rfl

/-- One record against the list specification. -/
theorem parseRr_record (p : Bytes) (off : Nat) (ho : off ≤ p.length) :
    (record (p.drop off) = none ∧ parseRr p off true = .ok none) ∨
    (∃ o', record (p.drop off) = some (p.drop o') ∧ parseRr p off true = .ok (some o') ∧
      off < o' ∧ o' ≤ p.length) := by
  unfold parseRr
  by_cases hz : p.length - off = 0
  · left
    have : p.drop off = [] := by simp; omega
    simp [hz, this, record, ownerName, skipName]
  simp only [if_neg hz]
  rw [parseRrName_eq p off (by omega), Outcome.bind_ok]
  rcases hs : skipName (p.drop off) with _ | ⟨n, q, r⟩
  · left; simp [nameRes, record, ownerName, hs]
  · simp only [if_true, nameRes, record, ownerName, hs]
    obtain ⟨hn0, hnl, hr⟩ := skipName_suffix _ _ (Nat.le_refl _) n q r hs
    simp only [List.length_drop] at hnl
    rw [List.drop_drop] at hr
    simp only [Nat.zero_add]
    by_cases hle : n + (if q = true then 1 else 0) ≤ 255
    · rw [if_pos hle, Option.bind_some]
      by_cases hlen : n + 10 > p.length - off
      · left
        constructor
        · match h : r with
          | _ :: _ :: _ :: _ :: _ :: _ :: _ :: _ :: _ :: _ :: r' =>
            exfalso
            have := congrArg List.length hr
            simp at this; omega
          | [] => rfl
          | [_] => rfl
          | [_, _] => rfl
          | [_, _, _] => rfl
          | [_, _, _, _] => rfl
          | [_, _, _, _, _] => rfl
          | [_, _, _, _, _, _] => rfl
          | [_, _, _, _, _, _, _] => rfl
          | [_, _, _, _, _, _, _, _] => rfl
          | [_, _, _, _, _, _, _, _, _] => rfl
        · by_cases hm : n + (if q = true then 1 else 0) ≤ min (p.length - off) 255
          · rw [if_pos hm, if_neg (by omega), if_pos hlen]
          · rw [if_neg hm, if_pos rfl]
      · have hm : n + (if q = true then 1 else 0) ≤ min (p.length - off) 255 := by
          split at hle <;> simp_all <;> omega
        rw [if_pos hm, if_neg (show ¬ n = 0 by omega), if_neg hlen]
        have hlr : r.length = p.length - off - n := by rw [hr]; simp; omega
        obtain ⟨x1, x2, x3, x4, x5, x6, x7, x8, h, l, r', hrr⟩ :
            ∃ x1 x2 x3 x4 x5 x6 x7 x8 h l r', r = x1 :: x2 :: x3 :: x4 :: x5 :: x6 :: x7 :: x8 :: h :: l :: r' := by
          match r, hlr with
          | _ :: _ :: _ :: _ :: _ :: _ :: _ :: _ :: _ :: _ :: r', _ => exact ⟨_, _, _, _, _, _, _, _, _, _, _, rfl⟩
          | [], hh => simp at hh; omega
          | [_], hh => simp at hh; omega
          | [_, _], hh => simp at hh; omega
          | [_, _, _], hh => simp at hh; omega
          | [_, _, _, _], hh => simp at hh; omega
          | [_, _, _, _, _], hh => simp at hh; omega
          | [_, _, _, _, _, _], hh => simp at hh; omega
          | [_, _, _, _, _, _, _], hh => simp at hh; omega
          | [_, _, _, _, _, _, _, _], hh => simp at hh; omega
          | [_, _, _, _, _, _, _, _, _], hh => simp at hh; omega
        have hrd : rd16 p (off + (n + 8)) = .ok (be16 h l) := by
          rw [show off + (n + 8) = (off + n) + 8 by omega, rd16_drop, ← hr, hrr]
          simp [rd16_cons_succ]
        have hr' : r' = p.drop (off + n + 10) := by
          have : r' = r.drop 10 := by rw [hrr]; rfl
          rw [this, hr, List.drop_drop]
        have hlr' : r'.length = p.length - (off + n + 10) := by rw [hr']; simp
        rw [hrd, Outcome.bind_ok]
        simp only [hrr]
        by_cases hbig : r'.length < be16 h l
        · left
          rw [if_pos hbig, if_pos (by omega)]
          exact ⟨rfl, rfl⟩
        · right
          rw [if_neg hbig, if_neg (by omega), decide_eq_true (by omega)]
          refine ⟨off + (n + 8 + 2 + be16 h l), ?_, rfl, by omega, by omega⟩
          rw [hr', List.drop_drop]
          congr 2; omega
    · left
      have hm : ¬ n + (if q = true then 1 else 0) ≤ min (p.length - off) 255 := by omega
      rw [if_neg hle, if_neg hm]
      exact ⟨rfl, rfl⟩

theorem parseRr_question (p : Bytes) (off : Nat) (ho : off ≤ p.length) :
    (question (p.drop off) = none ∧ parseRr p off false = .ok none) ∨
    (∃ o', question (p.drop off) = some (p.drop o') ∧ parseRr p off false = .ok (some o') ∧
      off < o' ∧ o' ≤ p.length) := by
  unfold parseRr
  by_cases hz : p.length - off = 0
  · left
    have : p.drop off = [] := by simp; omega
    simp [hz, this, question, ownerName, skipName]
  simp only [if_neg hz]
  rw [parseRrName_eq p off (by omega), Outcome.bind_ok]
  rcases hs : skipName (p.drop off) with _ | ⟨n, q, r⟩
  · left; simp [nameRes, question, ownerName, hs]
  · simp only [nameRes, question, ownerName, hs]
    obtain ⟨hn0, hnl, hr⟩ := skipName_suffix _ _ (Nat.le_refl _) n q r hs
    simp only [List.length_drop] at hnl
    rw [List.drop_drop] at hr
    have hlr : r.length = p.length - (off + n) := by rw [hr]; simp
    simp only [Nat.zero_add]
    by_cases hle : n + (if q = true then 1 else 0) ≤ 255
    · rw [if_pos hle, Option.bind_some]
      by_cases hlen : n + 4 > p.length - off
      · left
        rw [if_pos (by omega)]
        refine ⟨rfl, ?_⟩
        by_cases hm : n + (if q = true then 1 else 0) ≤ min (p.length - off) 255
        · rw [if_pos hm, if_neg (by omega), if_neg (by simp), if_pos hlen]
        · rw [if_neg hm, if_pos rfl]
      · right
        have hm : n + (if q = true then 1 else 0) ≤ min (p.length - off) 255 := by
          split at hle <;> simp_all <;> omega
        rw [if_neg (show ¬ r.length < 4 by omega), if_pos hm, if_neg (show ¬ n = 0 by omega), if_neg (by simp),
          if_neg hlen, decide_eq_true (by omega)]
        refine ⟨off + (n + 4), ?_, rfl, by omega, by omega⟩
        rw [hr, List.drop_drop]; congr 2
    · left
      have hm : ¬ n + (if q = true then 1 else 0) ≤ min (p.length - off) 255 := by omega
      rw [if_neg hle, if_neg hm]
      exact ⟨rfl, rfl⟩

theorem parseRrs_eq (p : Bytes) (hasData : Bool) (n : Nat) (off : Nat) (ho : off ≤ p.length) :
    (repeatN (if hasData then record else question) n (p.drop off) = none ∧ parseRrs p hasData n off = .ok none) ∨
    (∃ o', repeatN (if hasData then record else question) n (p.drop off) = some (p.drop o') ∧
      parseRrs p hasData n off = .ok (some o') ∧ off ≤ o' ∧ o' ≤ p.length) := by
  induction n generalizing off with
  | zero => right; exact ⟨off, rfl, rfl, Nat.le_refl _, ho⟩
  | succ n ih =>
    have key : ((if hasData then record else question) (p.drop off) = none ∧ parseRr p off hasData = .ok none) ∨
        (∃ o', (if hasData then record else question) (p.drop off) = some (p.drop o') ∧
          parseRr p off hasData = .ok (some o') ∧ off < o' ∧ o' ≤ p.length) := by
      cases hasData
      · exact parseRr_question p off ho
      · exact parseRr_record p off ho
    rcases key with ⟨h1, h2⟩ | ⟨o', h1, h2, h3, h4⟩
    · left
      simp only [repeatN, parseRrs, h1, h2, Option.bind_none, Outcome.bind_ok, and_self]
    · simp only [repeatN, parseRrs, h1, h2, Option.bind_some, Outcome.bind_ok]
      rcases ih o' h4 with h | ⟨o2, h5, h6, h7, h8⟩
      · exact .inl h
      · exact .inr ⟨o2, h5, h6, by omega, h8⟩

/-! ### The first question -/

theorem lowerByte_eq (c : UInt8) : lowerByte c = lower c := by
  have h : ∀ n : Fin 256, lowerByte (UInt8.ofNat n.val) = lower (UInt8.ofNat n.val) := by decide +kernel
  have := h ⟨c.toNat, c.toNat_lt⟩
  simpa using this

theorem copyLabel_eq (p : Bytes) (base n pos : Nat) (lq : Bytes) (h : base + pos + n ≤ p.length)
    (hl : lq.length + n < 256) :
    copyLabel p base n pos lq = .ok (pos + n, lq ++ ((p.drop (base + pos)).take n).map lower) := by
  induction n generalizing pos lq with
  | zero => simp [copyLabel]
  | succ n ih =>
    obtain ⟨b, hd, hr⟩ := drop_cons_of (show base + pos < p.length by omega)
    rw [copyLabel, hr]
    simp only [Outcome.bind_ok, pushLq]
    rw [if_pos (by omega), Outcome.bind_ok, ih _ _ (by omega) (by simp; omega), hd, lowerByte_eq]
    simp only [List.take_succ_cons, List.map_cons, List.append_assoc, List.cons_append, List.nil_append]
    rw [show pos + 1 + n = pos + (n + 1) by omega, show base + (pos + 1) = base + pos + 1 by omega]

/-- The label loop either reads a terminated run of legal labels, or there is none. -/
theorem questionLoop_eq (p : Bytes) (base : Nat) (fuel pos : Nat) (lq : Bytes) (hpos : base + pos < p.length)
    (hle : pos ≤ 254) (hlq : lq.length = pos) (hf : 256 ≤ fuel + pos) :
    (∃ ls rest, p.drop (base + pos) = wireLabels ls ++ 0 :: rest ∧ (∀ l ∈ ls, 1 ≤ l.length ∧ l.length ≤ 63) ∧
      pos + wireLen ls ≤ 255 ∧
      questionLoop p base (p.length - base) fuel pos lq =
        .ok (some (pos + wireLen ls, lq ++ wireLabels (ls.map (·.map lower)) ++ [0]))) ∨
    ((∀ ls rest, p.drop (base + pos) = wireLabels ls ++ 0 :: rest → (∀ l ∈ ls, 1 ≤ l.length ∧ l.length ≤ 63) →
      ¬ pos + wireLen ls ≤ 255) ∧ questionLoop p base (p.length - base) fuel pos lq = .ok none) := by
  induction fuel generalizing pos lq with
  | zero => omega
  | succ fuel ih =>
    obtain ⟨b, hd, hr⟩ := drop_cons_of hpos
    rw [questionLoop, hr]
    simp only [Outcome.bind_ok, pushLq]
    rw [if_pos (by omega), Outcome.bind_ok]
    by_cases h0 : b = 0
    · left
      subst h0
      refine ⟨[], p.drop (base + pos + 1), hd, by simp, by simp [wireLen]; omega, ?_⟩
      simp [wireLen, wireLabels]
    have h0' : b.toNat ≠ 0 := by
      intro h; apply h0; exact UInt8.toNat_inj.1 (by simpa using h)
    rw [if_neg h0']
    -- in every other case the name starts with a label of length b
    have shape : ∀ ls rest, p.drop (base + pos) = wireLabels ls ++ 0 :: rest →
        (∀ l ∈ ls, 1 ≤ l.length ∧ l.length ≤ 63) →
        ∃ l ls', ls = l :: ls' ∧ l.length = b.toNat ∧ p.drop (base + pos + 1) = l ++ (wireLabels ls' ++ 0 :: rest) := by
      intro ls rest h hls
      cases ls with
      | nil => rw [hd] at h; simp [wireLabels] at h; exact absurd h.1 h0
      | cons l ls' =>
        rw [hd] at h
        simp only [wireLabels, List.cons_append, List.append_assoc, List.cons.injEq] at h
        refine ⟨l, ls', rfl, ?_, h.2⟩
        rw [h.1, toNat_ofNat_lt (by have := (hls l (by simp)).2; omega)]
    by_cases h64 : b.toNat ≥ 64
    · right
      rw [if_pos h64]
      refine ⟨fun ls rest h hls => ?_, rfl⟩
      obtain ⟨l, ls', rfl, hl, -⟩ := shape ls rest h hls
      have := (hls l (by simp)).2
      omega
    rw [if_neg h64]
    by_cases hshort : pos + 1 + b.toNat ≥ p.length - base
    · right
      rw [if_pos hshort]
      refine ⟨fun ls rest h hls => ?_, rfl⟩
      obtain ⟨l, ls', rfl, hl, he⟩ := shape ls rest h hls
      have := congrArg List.length he
      simp at this; omega
    rw [if_neg hshort]
    by_cases hlong : pos + 1 + b.toNat > 254
    · right
      rw [if_pos hlong]
      refine ⟨fun ls rest h hls => ?_, rfl⟩
      obtain ⟨l, ls', rfl, hl, he⟩ := shape ls rest h hls
      rw [Dname.wireLen_cons]
      have := Dname.wireLen_pos ls'
      omega
    rw [if_neg hlong, copyLabel_eq p base _ _ _ (by omega) (by simp; omega)]
    simp only [Outcome.bind_ok]
    have hdl : ((p.drop (base + (pos + 1))).take b.toNat).length = b.toNat := by simp; omega
    have hsplit : p.drop (base + pos + 1) = (p.drop (base + (pos + 1))).take b.toNat ++ p.drop (base + (pos + 1 + b.toNat)) := by
      have h := List.take_append_drop b.toNat (p.drop (base + (pos + 1)))
      rw [List.drop_drop] at h
      rw [show base + (pos + 1 + b.toNat) = base + (pos + 1) + b.toNat by omega, h]; rfl
    rcases ih (pos + 1 + b.toNat) (lq ++ [b] ++ ((p.drop (base + (pos + 1))).take b.toNat).map lower)
      (by omega) (by omega) (by simp; omega) (by omega) with ⟨ls, rest, h1, h2, h3, h4⟩ | ⟨h1, h2⟩
    · left
      refine ⟨(p.drop (base + (pos + 1))).take b.toNat :: ls, rest, ?_, ?_, ?_, ?_⟩
      · rw [hd, hsplit, h1]
        simp only [wireLabels, hdl, List.append_assoc, List.cons_append]
        rw [UInt8.ofNat_toNat]
      · intro l hl
        rcases List.mem_cons.1 hl with rfl | hl
        · rw [hdl]; omega
        · exact h2 l hl
      · rw [Dname.wireLen_cons, hdl]; omega
      · rw [h4, Dname.wireLen_cons, hdl]
        simp only [List.map_cons, wireLabels, List.length_map, hdl, List.append_assoc, List.cons_append,
          List.nil_append, UInt8.ofNat_toNat]
        congr 3; omega
    · right
      refine ⟨fun ls rest h hls => ?_, h2⟩
      obtain ⟨l, ls', rfl, hl, he⟩ := shape ls rest h hls
      have hl' : l = (p.drop (base + (pos + 1))).take b.toNat ∧ p.drop (base + (pos + 1 + b.toNat)) = wireLabels ls' ++ 0 :: rest := by
        rw [hsplit] at he
        have := List.append_inj he (by rw [hdl, hl])
        exact ⟨this.1.symm, this.2⟩
      have := h1 ls' rest hl'.2 (fun x hx => hls x (by simp [hx]))
      rw [Dname.wireLen_cons, hl]; omega

theorem FirstQuestion_unique {b : Bytes} {ls ls' : List Bytes} {ty ty' cl cl' : Nat} {r r' : Bytes}
    (h : FirstQuestion b ls ty cl r) (h' : FirstQuestion b ls' ty' cl' r') :
    ls = ls' ∧ ty = ty' ∧ cl = cl' ∧ r = r' := by
  obtain ⟨hw, t1, t2, c1, c2, he, rfl, rfl⟩ := h
  obtain ⟨hw', t1', t2', c1', c2', he', rfl, rfl⟩ := h'
  rw [he] at he'
  obtain ⟨rfl, -, h⟩ := Dname.wireLabels_inj hw.1 hw'.1 (.inl rfl) (.inl rfl) he'
  simp at h
  simp [h]

theorem parseFirstQuestion_eq (p : Bytes) (t : Txn) (off : Nat) (ho : off ≤ p.length) :
    (∃ ls ty cl o', FirstQuestion (p.drop off) ls ty cl (p.drop o') ∧ off < o' ∧ o' ≤ p.length ∧
      o' = off + wireLen ls + 4 ∧
      parseFirstQuestion p t off = .ok (some ({ t with lqname := encode (ls.map (·.map lower)) true,
                                                       qtype := ty, qclass := cl }, o'))) ∨
    ((∀ ls ty cl r, ¬ FirstQuestion (p.drop off) ls ty cl r) ∧ parseFirstQuestion p t off = .ok none) := by
  unfold parseFirstQuestion
  by_cases hz : p.length - off = 0
  · right
    have hd : p.drop off = [] := by simp; omega
    simp only [if_pos hz, and_true]
    intro ls ty cl r h
    obtain ⟨-, t1, t2, c1, c2, he, -⟩ := h
    rw [hd] at he
    have := congrArg List.length he; simp at this
  simp only [if_neg hz]
  rcases questionLoop_eq p off 256 0 [] (by omega) (by omega) rfl (by omega) with ⟨ls, rest, h1, h2, h3, h4⟩ | ⟨h1, h2⟩
  · rw [h4, Outcome.bind_ok]
    simp only [Nat.zero_add, Nat.add_zero, List.nil_append] at *
    have hwl := Dname.wireLabels_length ls
    have hlen : p.length - off = wireLen ls + rest.length := by
      have := congrArg List.length h1
      simp at this; omega
    by_cases h4' : wireLen ls + 4 ≤ p.length - off
    · left
      rw [if_pos h4']
      obtain ⟨t1, t2, c1, c2, r, hr⟩ : ∃ t1 t2 c1 c2 r, rest = t1 :: t2 :: c1 :: c2 :: r := by
        match rest, hlen with
        | _ :: _ :: _ :: _ :: _, _ => exact ⟨_, _, _, _, _, rfl⟩
        | [], h => simp at h; omega
        | [_], h => simp at h; omega
        | [_, _], h => simp at h; omega
        | [_, _, _], h => simp at h; omega
      have hdw : p.drop (off + wireLen ls) = rest := by
        rw [← List.drop_drop, h1, ← hwl, ← List.drop_drop, List.drop_left]; rfl
      have e1 : rd16 p (off + wireLen ls) = .ok (be16 t1 t2) := by
        have := rd16_drop p (off + wireLen ls) 0
        rw [Nat.add_zero] at this
        rw [this, hdw, hr]; simp
      have e2 : rd16 p (off + wireLen ls + 2) = .ok (be16 c1 c2) := by
        rw [rd16_drop, hdw, hr, rd16_cons_succ, rd16_cons_succ, rd16_cons]
      rw [e1, e2]
      simp only [Outcome.bind_ok]
      rw [decide_eq_true (by omega)]
      refine ⟨ls, be16 t1 t2, be16 c1 c2, off + (wireLen ls + 4), ⟨⟨h2, h3⟩, t1, t2, c1, c2, ?_, rfl, rfl⟩,
        by omega, by omega, by omega, ?_⟩
      · rw [h1, hr]
        have : p.drop (off + (wireLen ls + 4)) = r := by
          rw [← Nat.add_assoc, ← List.drop_drop, hdw, hr]; rfl
        rw [this]
      · simp [encode, Dname.wireLen_map_lower]
    · right
      rw [if_neg h4']
      refine ⟨fun ls' ty cl r h => ?_, rfl⟩
      obtain ⟨hw, t1, t2, c1, c2, he, -⟩ := h
      rw [h1] at he
      obtain ⟨rfl, -, h⟩ := Dname.wireLabels_inj h2 hw.1 (.inl rfl) (.inl rfl) he
      have := congrArg List.length h
      simp at this; omega
  · right
    rw [h2, Outcome.bind_ok]
    refine ⟨fun ls ty cl r h => ?_, rfl⟩
    obtain ⟨hw, t1, t2, c1, c2, he, -⟩ := h
    have := h1 ls _ he hw.1
    have := hw.2
    omega

end Gdnsd.Packet
