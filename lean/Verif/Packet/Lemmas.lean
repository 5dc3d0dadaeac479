import Verif.Packet.Decode
import Verif.Packet.Spec
import Verif.Dname.Zone
/- Proof helpers for the request decoder. -/
namespace Gdnsd

theorem rd_drop (p : Bytes) (off k : Nat) : rd p (off + k) = rd (p.drop off) k := by
  simp [rd, List.getElem?_drop]

theorem rd_take {p : Bytes} {n k : Nat} (h : k < n) : rd (p.take n) k = rd p k := by
  simp [rd, h]

theorem rd_slice {p : Bytes} {off n k : Nat} (h : k < n) :
    rd p (off + k) = rd ((p.drop off).take n) k := by
  rw [rd_take h, rd_drop]

namespace Packet
open PacketSpec

theorem rd16_drop (p : Bytes) (off k : Nat) : rd16 p (off + k) = rd16 (p.drop off) k := by
  simp only [rd16, Nat.add_assoc, rd_drop]

theorem rd16_take {p : Bytes} {n k : Nat} (h : k + 1 < n) : rd16 (p.take n) k = rd16 p k := by
  simp only [rd16, rd_take h, rd_take (show k < n by omega)]

@[simp] theorem rd16_cons (a b : UInt8) (r : Bytes) : rd16 (a :: b :: r) 0 = .ok (be16 a b) := by
  simp [rd16, be16, rd]

theorem rd16_cons_succ (a : UInt8) (r : Bytes) (k : Nat) : rd16 (a :: r) (k + 1) = rd16 r k := by
  simp [rd16, rd]

theorem rd16_ok {p : Bytes} {i : Nat} (h : i + 1 < p.length) : ∃ n, rd16 p i = .ok n ∧ n < 65536 := by
  refine ⟨(p[i]'(by omega)).toNat * 256 + p[i + 1].toNat, by
    simp only [rd16, rd_lt h, rd_lt (show i < p.length by omega), Outcome.bind_ok], ?_⟩
  have h1 := (p[i]'(by omega)).toNat_lt
  have h2 := (p[i+1]).toNat_lt
  omega

theorem rdN_ok {p : Bytes} {i n : Nat} (h : i + n ≤ p.length) : rdN p i n = .ok ((p.drop i).take n) := by
  simp [rdN, h]

/-! ### Client subnet -/

/-- bits below position: mod test equals "no bit set beyond the prefix in the last byte" -/
theorem lowbits (b : Nat) (hb : b < 256) (t : Nat) (ht : 0 < t) (ht8 : t < 8) :
    (b % 2 ^ (8 - t) = 0) ↔ ∀ j, t ≤ j → j < 8 → b.testBit (7 - j) = false := by
  have h : ∀ t, t < 8 → 0 < t → ∀ b, b < 256 →
      ((b % 2 ^ (8 - t) = 0) ↔ ∀ j, j < 8 → t ≤ j → b.testBit (7 - j) = false) := by decide +kernel
  rw [h t ht8 ht b hb]
  exact ⟨fun h j h1 h2 => h j h2 h1, fun h j h1 h2 => h j h2 h1⟩

theorem addrBit_ge {addr : Bytes} {i : Nat} (h : 8 * addr.length ≤ i) : addrBit addr i = false := by
  unfold addrBit
  rw [List.getElem?_eq_none (by omega)]

/-- The zero-tail condition expressed on the last byte. -/
theorem zeros_iff (addr : Bytes) (src : Nat) (hlen : addr.length = src / 8 + (if src % 8 ≠ 0 then 1 else 0)) :
    (∀ i, src ≤ i → addrBit addr i = false) ↔
      (src % 8 ≠ 0 → ∀ b, addr[src / 8]? = some b → b.toNat % 2 ^ (8 - src % 8) = 0) := by
  by_cases h8 : src % 8 = 0
  · simp only [h8, ne_eq, not_true_eq_false, if_false, Nat.add_zero, false_implies, iff_true] at hlen ⊢
    intro i hi
    exact addrBit_ge (by omega)
  · simp only [ne_eq, h8, not_false_eq_true, if_true, true_implies] at hlen ⊢
    have hlt : src / 8 < addr.length := by omega
    have hg : addr[src / 8]? = some addr[src / 8] := by simp [hlt]
    rw [hg]
    simp only [Option.some.injEq, forall_eq']
    rw [lowbits _ (UInt8.toNat_lt _) (src % 8) (by omega) (by omega)]
    constructor
    · intro h j h1 h2
      have := h (8 * (src / 8) + j) (by omega)
      unfold addrBit at this
      have e1 : (8 * (src / 8) + j) / 8 = src / 8 := by omega
      have e2 : (8 * (src / 8) + j) % 8 = j := by omega
      rw [e1, hg, e2] at this
      exact this
    · intro h i hi
      by_cases hi2 : 8 * addr.length ≤ i
      · exact addrBit_ge hi2
      · have e1 : i / 8 = src / 8 := by omega
        unfold addrBit
        rw [e1, hg]
        exact h (i % 8) (by omega) (by omega)

/-- State update of an accepted client-subnet option. -/
def ecsApply (e : Edns) (family src : Nat) (addr : Bytes) : Edns :=
  { e with
    af := if src = 0 then e.af else some (if family = 1 then 4 else 6)
    addr4 := if src ≠ 0 ∧ family = 1 then addr ++ e.addr4.drop addr.length else e.addr4
    addr6 := if src ≠ 0 ∧ family = 2 then addr ++ e.addr6.drop addr.length else e.addr6
    outBytes := e.outBytes + (8 + addr.length)
    respondClientSubnet := true
    ednsClientMask := src
    clientFamily := family }

theorem EcsLegal_functional {d : Bytes} {f s f' s' : Nat} {a a' : Bytes}
    (h : EcsLegal d f s a) (h' : EcsLegal d f' s' a') : f = f' ∧ s = s' ∧ a = a' := by
  obtain ⟨f1, f2, s1, e1, e2, e3⟩ := h.shape
  obtain ⟨g1, g2, t1, k1, k2, k3⟩ := h'.shape
  rw [e1] at k1
  simp only [List.cons.injEq, true_and] at k1
  obtain ⟨rfl, rfl, rfl, rfl⟩ := k1
  exact ⟨by rw [e2, k2], by rw [e3, k3], rfl⟩

theorem handleEcs_eq (e : Edns) (p : Bytes) (off n : Nat) (hn : off + n ≤ p.length)
    (h4 : e.addr4.length = 4) (h6 : e.addr6.length = 16) :
    (∃ f s a, EcsLegal ((p.drop off).take n) f s a ∧ handleEcs e p off n = .ok (.ok, ecsApply e f s a)) ∨
    ((∀ f s a, ¬ EcsLegal ((p.drop off).take n) f s a) ∧ handleEcs e p off n = .ok (.formerr, e)) := by
  generalize hd : (p.drop off).take n = d
  have hdl : d.length = n := by rw [← hd]; simp; omega
  have hshort : n < 4 → ∀ f s a, ¬ EcsLegal d f s a := by
    intro h f s a hl
    obtain ⟨_, _, _, e, _⟩ := hl.shape
    rw [e] at hdl; simp at hdl; omega
  unfold handleEcs
  by_cases hs : n < 4
  · right; exact ⟨hshort hs, by rw [if_pos hs]⟩
  rw [if_neg hs]
  -- expose the four fixed bytes
  obtain ⟨f1, f2, sm, sc, addr, rfl⟩ : ∃ f1 f2 sm sc addr, d = f1 :: f2 :: sm :: sc :: addr := by
    match d, hdl with
    | f1 :: f2 :: sm :: sc :: addr, _ => exact ⟨_, _, _, _, _, rfl⟩
    | [], h => simp at h; omega
    | [_], h => simp at h; omega
    | [_, _], h => simp at h; omega
    | [_, _, _], h => simp at h; omega
  simp only [List.length_cons] at hdl
  have hr : ∀ k, k < n → rd p (off + k) = rd (f1 :: f2 :: sm :: sc :: addr) k := by
    intro k hk; rw [rd_slice hk, hd]
  have hfam : rd16 p off = .ok (be16 f1 f2) := by
    have h0 := hr 0 (by omega)
    have h1 := hr 1 (by omega)
    simp only [Nat.add_zero, rd_cons_zero] at h0
    simp only [rd16, h0, Outcome.bind_ok, h1]
    simp [rd, be16]
  have h2 := hr 2 (by omega)
  have h3 := hr 3 (by omega)
  simp only [rd, List.getElem?_cons_succ, List.getElem?_cons_zero] at h2 h3
  rw [hfam, show rd p (off + 2) = .ok sm from h2, show rd p (off + 3) = .ok sc from h3]
  simp only [Outcome.bind_ok]
  -- every legal reading has these components
  have hcomp : ∀ f s a, EcsLegal (f1 :: f2 :: sm :: sc :: addr) f s a →
      f = be16 f1 f2 ∧ s = sm.toNat ∧ a = addr ∧ sc = 0 := by
    intro f s a hl
    obtain ⟨g1, g2, t, e1, e2, e3⟩ := hl.shape
    simp only [List.cons.injEq] at e1
    obtain ⟨rfl, rfl, rfl, rfl, rfl⟩ := e1
    exact ⟨e2, e3, rfl, rfl⟩
  by_cases hsc : sc ≠ 0
  · right
    refine ⟨fun f s a hl => hsc (hcomp f s a hl).2.2.2, by rw [if_pos hsc]⟩
  rw [if_neg hsc]
  simp only [ne_eq, Decidable.not_not] at hsc
  subst hsc
  by_cases hr1 : be16 f1 f2 = 1 ∧ sm.toNat > 32
  · right
    refine ⟨fun f s a hl => ?_, by rw [if_pos hr1]⟩
    obtain ⟨rfl, rfl, rfl, _⟩ := hcomp f s a hl
    have := hl.range; omega
  rw [if_neg hr1]
  by_cases hr2 : be16 f1 f2 = 2 ∧ sm.toNat > 128
  · right
    refine ⟨fun f s a hl => ?_, by rw [if_pos hr2]⟩
    obtain ⟨rfl, rfl, rfl, _⟩ := hcomp f s a hl
    have := hl.range; omega
  rw [if_neg hr2]
  by_cases hr3 : be16 f1 f2 ≠ 1 ∧ be16 f1 f2 ≠ 2
  · right
    refine ⟨fun f s a hl => ?_, by rw [if_pos hr3]⟩
    obtain ⟨rfl, rfl, rfl, _⟩ := hcomp f s a hl
    have := hl.range; omega
  rw [if_neg hr3]
  have hrange : (be16 f1 f2 = 1 ∧ sm.toNat ≤ 32) ∨ (be16 f1 f2 = 2 ∧ sm.toNat ≤ 128) := by omega
  generalize hsrc : sm.toNat = src at *
  by_cases hlen : n ≠ 4 + (src / 8 + (if src % 8 ≠ 0 then 1 else 0))
  · right
    refine ⟨fun f s a hl => ?_, by rw [if_pos hlen]⟩
    obtain ⟨rfl, rfl, rfl, _⟩ := hcomp f s a hl
    have := hl.minimal
    split at hlen <;> omega
  rw [if_neg hlen]
  simp only [ne_eq, Decidable.not_not] at hlen
  have halen : addr.length = src / 8 + (if src % 8 ≠ 0 then 1 else 0) := by simp only [ne_eq]; omega
  have hz := zeros_iff addr src halen
  -- the trailing-bit test
  obtain ⟨bad, hbad, hbad2⟩ : ∃ bad, (if src % 8 ≠ 0 then
        (rd p (off + 4 + src / 8)).bind fun fb => Outcome.ok (decide (fb.toNat % 2 ^ (8 - src % 8) ≠ 0))
      else .ok false) = .ok bad ∧ (bad = false ↔ ∀ i, src ≤ i → addrBit addr i = false) := by
    by_cases h8 : src % 8 ≠ 0
    · have hlt : src / 8 < addr.length := by rw [halen]; simp [h8]
      have hrd := hr (4 + src / 8) (by omega)
      have hg : addr[src / 8]? = some addr[src / 8] := by simp [hlt]
      have : rd (f1 :: f2 :: sm :: 0 :: addr) (4 + src / 8) = .ok addr[src / 8] := by
        rw [Nat.add_comm 4]; simp only [rd, List.getElem?_cons_succ, hg]
      rw [if_pos h8, Nat.add_assoc, hrd, this]
      refine ⟨_, rfl, ?_⟩
      rw [hz, hg]
      simp [h8]
    · rw [if_neg h8]
      refine ⟨_, rfl, ?_⟩
      rw [hz]
      simp [h8]
  rw [hbad]
  simp only [Outcome.bind_ok]
  by_cases hzero : ∀ i, src ≤ i → addrBit addr i = false
  · left
    rw [if_neg (by simp [hbad2.2 hzero])]
    refine ⟨be16 f1 f2, src, addr, ?_, ?_⟩
    · refine ⟨⟨f1, f2, sm, rfl, rfl, hsrc.symm⟩, hrange, ?_, hzero⟩
      split at halen <;> omega
    · by_cases h0 : src ≠ 0
      · rw [if_pos h0, rdN_ok (by omega)]
        have hdata : (p.drop (off + 4)).take (src / 8 + (if src % 8 ≠ 0 then 1 else 0)) = addr := by
          rw [← halen]
          have : (p.drop (off + 4)).take addr.length = ((p.drop off).take n).drop 4 := by
            rw [List.drop_take, List.drop_drop]; congr 1; omega
          rw [this, hd]; rfl
        rw [hdata]
        simp only [Outcome.bind_ok]
        rcases hrange with ⟨hf, hr⟩ | ⟨hf, hr⟩
        · rw [if_pos hf]
          have : addr.length ≤ e.addr4.length := by rw [h4, halen]; split <;> omega
          simp only [overwrite, this, if_true, Outcome.bind_ok, hf]
          congr 2
          simp [ecsApply, h0, halen]
        · rw [if_neg (by omega)]
          have : addr.length ≤ e.addr6.length := by rw [h6, halen]; split <;> omega
          simp only [overwrite, this, if_true, Outcome.bind_ok, hf, beq_self_eq_true, assert_true]
          congr 2
          simp [ecsApply, h0, halen]
      · rw [if_neg h0]
        simp only [ne_eq, Decidable.not_not] at h0
        congr 2
        simp [ecsApply, h0, halen]
  · right
    have hbt : bad = true := by
      cases hb : bad with
      | false => exact absurd (hbad2.1 hb) hzero
      | true => rfl
    refine ⟨fun f s a hl => ?_, by rw [if_pos hbt]⟩
    obtain ⟨rfl, rfl, rfl, _⟩ := hcomp f s a hl
    exact hzero hl.zeros

end Packet
end Gdnsd
