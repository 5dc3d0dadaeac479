import Verif.Packet.OptOut
/- Proof helpers: counting the records of a response, and the echoed question. -/
namespace Gdnsd.Packet
open PacketSpec DnameSpec

theorem skipName_append {b r : Bytes} {n : Nat} {q : Bool} (h : skipName b = some (n, q, r)) (x : Bytes) :
    skipName (b ++ x) = some (n, q, r ++ x) := by
  induction hn : b.length using Nat.strongRecOn generalizing b n q r with
  | _ k ih =>
    match b with
    | [] => rw [skipName] at h; simp at h
    | c :: b' =>
      rw [List.cons_append, skipName_cons]
      rw [skipName_cons] at h
      by_cases hc : c = 0
      · rw [if_pos hc] at h ⊢
        simp only [Option.some.injEq, Prod.mk.injEq] at h ⊢
        obtain ⟨rfl, rfl, rfl⟩ := h
        exact ⟨rfl, rfl, rfl⟩
      · rw [if_neg hc] at h ⊢
        by_cases h64 : c.toNat ≥ 64
        · rw [if_pos h64] at h ⊢
          match b' with
          | [] => simp at h
          | y :: b'' =>
            simp only [Option.some.injEq, Prod.mk.injEq, List.cons_append] at h ⊢
            obtain ⟨rfl, rfl, rfl⟩ := h
            exact ⟨rfl, rfl, rfl⟩
        · rw [if_neg h64] at h ⊢
          by_cases hl : b'.length < c.toNat
          · rw [if_pos hl] at h; simp at h
          · rw [if_neg hl] at h
            rw [if_neg (by simp; omega)]
            cases hs : skipName (b'.drop c.toNat) with
            | none => rw [hs] at h; simp at h
            | some v =>
              obtain ⟨n', q', r'⟩ := v
              rw [hs] at h
              simp only [Option.map_some, Option.some.injEq, Prod.mk.injEq] at h
              obtain ⟨rfl, rfl, rfl⟩ := h
              have := ih _ (by simp at hn ⊢; omega) hs rfl
              rw [List.drop_append_of_le_length (by omega), this]
              rfl

theorem ownerName_append {b r : Bytes} (h : ownerName b = some r) (x : Bytes) : ownerName (b ++ x) = some (r ++ x) := by
  unfold ownerName at *
  cases hs : skipName b with
  | none => rw [hs] at h; simp at h
  | some v =>
    obtain ⟨n, q, r'⟩ := v
    rw [hs] at h
    rw [skipName_append hs x]
    simp only at h ⊢
    by_cases hc : n + (if q then 1 else 0) ≤ 255
    · rw [if_pos hc] at h ⊢; simp at h ⊢; exact h
    · rw [if_neg hc] at h; simp at h

theorem record_append {b r : Bytes} (h : record b = some r) (x : Bytes) : record (b ++ x) = some (r ++ x) := by
  unfold record at *
  cases ho : ownerName b with
  | none => rw [ho] at h; simp at h
  | some v =>
    rw [ho] at h
    rw [ownerName_append ho x]
    simp only [Option.bind_some] at h ⊢
    split at h
    · rename_i hh ll rr
      simp only [List.cons_append]
      by_cases hl : rr.length < be16 hh ll
      · rw [if_pos hl] at h; simp at h
      · rw [if_neg hl] at h
        rw [if_neg (by simp; omega), List.drop_append_of_le_length (by omega)]
        simp at h ⊢; exact h
    · simp at h

theorem repeatN_append {f : Bytes → Option Bytes} (hf : ∀ b r x, f b = some r → f (b ++ x) = some (r ++ x)) (n : Nat) :
    ∀ b r x, repeatN f n b = some r → repeatN f n (b ++ x) = some (r ++ x) := by
  induction n with
  | zero => intro b r x h; simp [repeatN] at h ⊢; exact h
  | succ n ih =>
    intro b r x h
    show (f (b ++ x)).bind (repeatN f n) = _
    change (f b).bind (repeatN f n) = _ at h
    cases hb : f b with
    | none => rw [hb] at h; simp at h
    | some v =>
      rw [hb] at h
      rw [hf _ _ x hb]
      exact ih _ _ x h

theorem repeatN_add (f : Bytes → Option Bytes) (m n : Nat) :
    ∀ b, repeatN f (m + n) b = (repeatN f m b).bind (repeatN f n) := by
  induction m with
  | zero => intro b; simp [repeatN]
  | succ m ih =>
    intro b
    rw [Nat.succ_add]
    unfold repeatN
    cases f b with
    | none => rfl
    | some v => exact ih v

theorem skipName_len {b r : Bytes} {n : Nat} {q : Bool} (h : skipName b = some (n, q, r)) : r.length < b.length := by
  induction hn : b.length using Nat.strongRecOn generalizing b n q r with
  | _ k ih =>
    match b with
    | [] => rw [skipName] at h; simp at h
    | c :: b' =>
      rw [skipName_cons] at h
      subst hn
      split at h
      · simp at h; obtain ⟨-, -, rfl⟩ := h; simp
      · split at h
        · split at h
          · simp at h
          · simp at h; obtain ⟨-, -, rfl⟩ := h; simp; omega
        · split at h
          · simp at h
          · rw [Option.map_eq_some_iff] at h
            obtain ⟨⟨n', q', r'⟩, hs, he⟩ := h
            simp at he
            obtain ⟨-, -, rfl⟩ := he
            have := ih _ (by simp; omega) hs rfl
            simp at this ⊢; omega

theorem record_len {b r : Bytes} (h : record b = some r) : r.length + 11 ≤ b.length := by
  unfold record at h
  cases ho : ownerName b with
  | none => rw [ho] at h; simp at h
  | some v =>
    rw [ho] at h
    have hv : v.length < b.length := by
      unfold ownerName at ho
      split at ho
      · rename_i n q r' heq
        by_cases hc : (n + if q = true then 1 else 0) ≤ 255
        · rw [if_pos hc] at ho
          simp only [Option.some.injEq] at ho
          subst ho; exact skipName_len heq
        · rw [if_neg hc] at ho; simp at ho
      · simp at ho
    simp only [Option.bind_some] at h
    split at h
    · split at h
      · simp at h
      · simp at h; subst h; simp at hv ⊢; omega
    · simp at h

theorem repeatN_record_len (n : Nat) : ∀ b r, repeatN record n b = some r → r.length + 11 * n ≤ b.length := by
  induction n with
  | zero => intro b r h; simp [repeatN] at h; subst h; simp
  | succ n ih =>
    intro b r h
    unfold repeatN at h
    cases hb : record b with
    | none => rw [hb] at h; simp at h
    | some v =>
      rw [hb] at h
      have := ih _ _ h
      have := record_len hb
      omega

/-- The OPT record is a record. -/
theorem opt_record (e1 e2 e3 e4 l1 l2 : UInt8) (rdata : Bytes) (h : rdata.length = be16 l1 l2) :
    record ([0, 0, 41, 4, 0, e1, e2, e3, e4, l1, l2] ++ rdata) = some [] := by
  unfold record ownerName
  simp only [List.cons_append, List.nil_append]
  rw [skipName_cons, if_pos rfl]
  simp [h]

/-- The echoed question. -/
theorem echo {g : Cfg} {c : Ctx} {p : Bytes} {rc : Rc} {t : Txn} {off : Nat} (hd : Decoded g c p rc t off) :
    (t.qdcount = 0 ∧ (p.drop 12).take (off - 12) = [] ∧ (p.length < 12 ∨ (∃ b, rd p 2 = .ok b ∧ b.toNat ≥ 128) ∨
      rd16 p 4 = .ok 0 ∨ ∀ ls ty cl rest, ¬ FirstQuestion (p.drop 12) ls ty cl rest)) ∨
    (t.qdcount = 1 ∧ rd16 p 4 ≠ .ok 0 ∧ ∃ ls, FirstQuestion (p.drop 12) ls t.qtype t.qclass (p.drop off) ∧
      p.drop 12 = (p.drop 12).take (off - 12) ++ p.drop off ∧
      (∀ x, FirstQuestion ((p.drop 12).take (off - 12) ++ x) ls t.qtype t.qclass x)) := by
  obtain ⟨t1, hs, ht⟩ := hd.steps
  have keep : t.qtype = t1.qtype ∧ t.qclass = t1.qclass ∧ t.qdcount = t1.qdcount ∧ t.lqname = t1.lqname := by
    rcases ht with ⟨rfl, -⟩ | ⟨rc0, ht, -⟩
    · exact ⟨rfl, rfl, rfl, rfl⟩
    · exact OptEffect_keep ht
  rcases hs with ⟨rfl, rfl, hw⟩ | ⟨ls, ty, cl, hf, h1, h2, hq0, rfl⟩
  · left; exact ⟨keep.2.2.1, by simp, hw⟩
  · right
    refine ⟨keep.2.2.1, hq0, ls, ?_⟩
    rw [keep.1, keep.2.1]
    have hsplit : p.drop 12 = (p.drop 12).take (off - 12) ++ p.drop off := by
      have : p.drop off = (p.drop 12).drop (off - 12) := by rw [List.drop_drop]; congr 1; omega
      rw [this, List.take_append_drop]
    refine ⟨hf, hsplit, fun x => ?_⟩
    obtain ⟨hw, a1, a2, b1, b2, he, e1, e2⟩ := hf
    refine ⟨hw, a1, a2, b1, b2, ?_, e1, e2⟩
    rw [he] at hsplit
    have hq : (p.drop 12).take (off - 12) = wireLabels ls ++ [0, a1, a2, b1, b2] := by
      have hx : wireLabels ls ++ [0, a1, a2, b1, b2] ++ p.drop off = (p.drop 12).take (off - 12) ++ p.drop off := by
        rw [he, ← hsplit]; simp
      exact (List.append_cancel_right hx).symm
    rw [hq]; simp

end Gdnsd.Packet
