/-
What gdnsdctl sends and receives, and the challenges among its arguments.
-/
import Verif.Ctl.Spec
import Verif.Css.ReplyLemmas
import Verif.Svc.Lemmas
import Verif.Dname.Props
namespace Gdnsd.Ctl
open CtlSpec DnameSpec
open Css (msg msgKey msgV msgD bind_ok map_ok assert_ok)
open CssSpec (plain header)
open Conf (str)

/-! ### Transactions -/

theorem send_n {c : Chan} {b k c'} (h : send c b = (.n k, c')) : c'.out = c.out ++ b.take k ∧ k ≤ b.length ∧ c'.inp = c.inp ∧ c'.eof = c.eof ∧ c'.rx = c.rx ∧ c'.tx.length + 1 = c.tx.length := by
  unfold send at h
  split at h
  · cases h
  · cases h
  · cases h
  · next k' t ht =>
    simp only [Prod.mk.injEq, Sent.n.injEq] at h
    obtain ⟨rfl, rfl⟩ := h
    refine ⟨?_, Nat.min_le_right _ _, rfl, rfl, rfl, by simp [ht]⟩
    dsimp only
    rw [← List.take_take, List.take_length]

theorem send_other {c : Chan} {b x c'} (h : send c b = (x, c')) : c'.inp = c.inp ∧ c'.eof = c.eof := by
  unfold send at h
  split at h <;> (simp only [Prod.mk.injEq] at h; obtain ⟨_, rfl⟩ := h; exact ⟨rfl, rfl⟩)

theorem recv_some {c : Chan} {w b c'} (h : recv c w = (some b, c')) : c'.inp = c.inp ++ b ∧ b.length ≤ w ∧ c'.out = c.out ∧ c'.eof = (c.eof || b.isEmpty) ∧ c'.tx = c.tx ∧ c'.rx.length + 1 = c.rx.length := by
  unfold recv at h
  split at h
  · cases h
  · cases h
  · next b' r hr =>
    simp only [Prod.mk.injEq, Option.some.injEq] at h
    obtain ⟨rfl, rfl⟩ := h
    exact ⟨rfl, by rw [List.length_take]; exact Nat.min_le_left _ _, rfl, rfl, rfl, by simp [hr]⟩

theorem recv_none {c : Chan} {w c'} (h : recv c w = (none, c')) : c'.inp = c.inp ∧ c'.out = c.out := by
  unfold recv at h
  split at h
  · simp only [Prod.mk.injEq] at h; obtain ⟨_, rfl⟩ := h; exact ⟨rfl, rfl⟩
  · simp only [Prod.mk.injEq] at h; obtain ⟨_, rfl⟩ := h; exact ⟨rfl, rfl⟩
  · cases h

theorem verdict_ok {c : Chan} {m c'} (h : verdict c = (.ok m, c')) : Ack m ∧ c'.inp = c.inp ++ m ∧ c'.out = c.out ∧ c'.eof = c.eof := by
  unfold verdict at h
  split at h
  · cases h
  · next m' c1 hr =>
    obtain ⟨h1, h2, h3, h4, _⟩ := recv_some hr
    split at h
    · cases h
    next hl =>
    split at h
    · next hk =>
      simp only [Prod.mk.injEq, Rv.ok.injEq] at h
      obtain ⟨rfl, rfl⟩ := h
      have hl : m'.length = 8 := Decidable.byContradiction hl
      refine ⟨⟨hl, hk⟩, h1, h3, ?_⟩
      rw [h4]
      cases m' with
      | nil => cases hl
      | cons _ _ => simp
    · split at h <;> cases h

/-- What did not succeed has not got an acknowledgement. -/
theorem verdict_not {c : Chan} {r c'} (h : verdict c = (r, c')) (hr : ∀ m, r ≠ .ok m) : ∃ x, c'.inp = c.inp ++ x ∧ ¬ Ack x := by
  unfold verdict at h
  split at h
  · next c1 hr1 =>
    simp only [Prod.mk.injEq] at h
    obtain ⟨_, rfl⟩ := h
    exact ⟨[], by simpa using (recv_none hr1).1, fun h => by cases h.1⟩
  · next m' c1 hr1 =>
    obtain ⟨h1, _⟩ := recv_some hr1
    split at h
    · next hl =>
      simp only [Prod.mk.injEq] at h
      obtain ⟨_, rfl⟩ := h
      exact ⟨m', h1, fun h => hl h.1⟩
    split at h
    · simp only [Prod.mk.injEq] at h
      exact absurd h.1.symm (hr m')
    · next hk =>
      split at h <;> (simp only [Prod.mk.injEq] at h; obtain ⟨_, rfl⟩ := h; exact ⟨m', h1, fun h => hk h.2⟩)

theorem txn_ok {c : Chan} {req m c'} (h8 : req.length = 8) (h : txn c req = (.ok m, c')) : Ack m ∧ c'.out = c.out ++ req ∧ c'.inp = c.inp ++ m ∧ c'.eof = c.eof := by
  unfold txn at h
  split at h
  · cases h
  · cases h
  · next k c1 hs =>
    obtain ⟨h1, _, h2, h3, _⟩ := send_n hs
    split at h
    · cases h
    next hk =>
    have hk : k = 8 := Decidable.byContradiction hk
    obtain ⟨h4, h5, h6, h7⟩ := verdict_ok h
    refine ⟨h4, ?_, by rw [h5, h2], by rw [h7, h3]⟩
    rw [h6, h1, hk, List.take_of_length_le (by omega)]

theorem txn_not {c : Chan} {req r c'} (h : txn c req = (r, c')) (hr : ∀ m, r ≠ .ok m) : ∃ x, c'.inp = c.inp ++ x ∧ ¬ Ack x := by
  unfold txn at h
  split at h
  · next hs => simp only [Prod.mk.injEq] at h; obtain ⟨_, rfl⟩ := h; exact ⟨[], by simpa using (send_other hs).1, fun h => by cases h.1⟩
  · next hs => simp only [Prod.mk.injEq] at h; obtain ⟨_, rfl⟩ := h; exact ⟨[], by simpa using (send_other hs).1, fun h => by cases h.1⟩
  · next hs =>
    split at h
    · simp only [Prod.mk.injEq] at h; obtain ⟨_, rfl⟩ := h; exact ⟨[], by simpa using (send_other hs).1, fun h => by cases h.1⟩
    · obtain ⟨x, h1, h2⟩ := verdict_not h hr
      exact ⟨x, by rw [h1, (send_other hs).1], h2⟩

theorem pull_ok {f : Nat} {c : Chan} {w d c'} (h : pull f c w = (some d, c')) : d.length = w ∧ c'.inp = c.inp ++ d ∧ c'.out = c.out := by
  induction f generalizing c w d with
  | zero =>
    unfold pull at h
    split at h
    · next h0 => simp only [Prod.mk.injEq, Option.some.injEq] at h; obtain ⟨rfl, rfl⟩ := h; simp [h0]
    · cases h
  | succ f ih =>
    unfold pull at h
    split at h
    · next h0 => simp only [Prod.mk.injEq, Option.some.injEq] at h; obtain ⟨rfl, rfl⟩ := h; simp [h0]
    · split at h
      · cases h
      · cases h
      · next b c1 _ hr =>
        obtain ⟨h1, h2, h3, _⟩ := recv_some hr
        split at h
        · cases h
        · next r c2 hp =>
          simp only [Prod.mk.injEq, Option.some.injEq] at h
          obtain ⟨rfl, rfl⟩ := h
          obtain ⟨h4, h5, h6⟩ := ih hp
          exact ⟨by rw [List.length_append]; omega, by rw [h5, h1]; simp, by rw [h6, h3]⟩

theorem push_ok {f : Nat} {c : Chan} {b k c'} (h : push f c b = (.n k, c')) : c'.out = c.out ++ b ∧ c'.inp = c.inp := by
  induction f generalizing c b with
  | zero =>
    unfold push at h
    split at h
    · next h0 => simp only [Prod.mk.injEq] at h; obtain ⟨_, rfl⟩ := h; simp [h0]
    · cases h
  | succ f ih =>
    unfold push at h
    split at h
    · next h0 => simp only [Prod.mk.injEq] at h; obtain ⟨_, rfl⟩ := h; simp [h0]
    · split at h
      · next k' c1 hs =>
        obtain ⟨h1, _, h2, _⟩ := send_n hs
        obtain ⟨h3, h4⟩ := ih h
        refine ⟨?_, by rw [h4, h2]⟩
        rw [h3, h1, List.append_assoc, List.take_append_drop]
      · next hne => exact absurd h (by intro h0; exact hne _ _ h0)

theorem waitStop_ok {c : Chan} {c'} (h : waitStop c = (true, c')) : c'.eof = true ∧ c'.inp = c.inp ∧ c'.out = c.out := by
  unfold waitStop at h
  split at h
  · next c1 hr =>
    simp only [Prod.mk.injEq, true_and] at h
    subst h
    obtain ⟨h1, _, h2, h3, _⟩ := recv_some hr
    exact ⟨by rw [h3]; simp, by simpa using h1, h2⟩
  · cases h

/-! ### Messages -/

theorem msg_hello (o : Opts) : msg 73 o.version 0 = hello o := rfl

theorem msg_zero {k : UInt8} : msg k 0 0 = plain k := rfl

/-- What follows after a greeting. -/
structure Greeted (o : Opts) (c : Chan) (i : Info) : Prop where
  talk : ∃ m, Ack m ∧ i = ⟨msgD m, msgV m⟩ ∧ c.out = hello o ∧ c.inp = m
  eof : c.eof = false

theorem new_ok {o : Opts} {oc i c l} (hf : ∀ c, oc = some c → Fresh c) (h : new o oc = (.ok (i, c), l)) : Greeted o c i := by
  unfold new at h
  split at h
  · cases h
  · next c0 =>
    obtain ⟨h1, h2, h3⟩ := hf c0 rfl
    split at h
    · next m c1 ht =>
      simp only [Prod.mk.injEq, Rv.ok.injEq] at h
      obtain ⟨⟨rfl, rfl⟩, _⟩ := h
      obtain ⟨h4, h5, h6, h7⟩ := txn_ok rfl ht
      exact ⟨⟨m, h4, rfl, by rw [h5, h1]; rfl, by rw [h6, h2]; rfl⟩, by rw [h7, h3]⟩
    · cases h
    · cases h

theorem new_dead {o : Opts} {oc r l} (hf : ∀ c, oc = some c → Fresh c) (h : new o oc = (r, l)) (hr : r = .hard ∨ r = .soft) : Dead l := by
  unfold new at h
  split at h
  · simp only [Prod.mk.injEq] at h; obtain ⟨_, rfl⟩ := h; trivial
  · next c0 =>
    obtain ⟨_, h2, _⟩ := hf c0 rfl
    have key : ∀ {r' c1}, txn c0 (msg 73 o.version 0) = (r', c1) → (∀ m, r' ≠ .ok m) → Dead [c1] := by
      intro r' c1 ht hne
      obtain ⟨x, h3, h4⟩ := txn_not ht hne
      rw [h2, List.nil_append] at h3
      rintro ⟨m, h5, h6⟩
      rw [h3] at h6
      subst h6
      exact h4 h5
    split at h
    · simp only [Prod.mk.injEq] at h; obtain ⟨rfl, _⟩ := h; rcases hr with h0 | h0 <;> cases h0
    · simp only [Prod.mk.injEq] at h; obtain ⟨rfl, _⟩ := h; rcases hr with h0 | h0 <;> cases h0
    · next r' c1 h0 _ ht =>
      simp only [Prod.mk.injEq] at h
      obtain ⟨_, rfl⟩ := h
      exact key ht h0

/-! ### Challenges -/

theorem b64u_iff {x : UInt8} : b64u x = true ↔ Base64url x := by
  unfold b64u Base64url
  simp only [Bool.or_eq_true, beq_iff_eq, Bool.and_eq_true, decide_eq_true_eq, UInt8.le_iff_toNat_le, or_assoc]
  exact Iff.rfl

theorem strip_eq {t t' : Bytes} : strip t = t' ↔ (t = str "_acme-challenge." ++ t' ∨ ((¬ str "_acme-challenge." <+: t) ∧ t = t')) := by
  unfold strip
  by_cases h : str "_acme-challenge." <+: t
  · rw [if_pos (List.isPrefixOf_iff_prefix.mpr h)]
    obtain ⟨r, rfl⟩ := h
    have h16 : (str "_acme-challenge.").length = 16 := by decide
    rw [show (str "_acme-challenge." ++ r).drop 16 = r by rw [← h16, List.drop_left]]
    constructor
    · rintro rfl; exact Or.inl rfl
    · rintro (h | ⟨h, _⟩)
      · exact List.append_cancel_left h
      · exact absurd (List.prefix_append _ _) h
  · rw [if_neg (by rw [List.isPrefixOf_iff_prefix]; exact h)]
    constructor
    · intro h'; exact Or.inr ⟨h, h'⟩
    · rintro (rfl | ⟨_, h'⟩)
      · exact absurd (List.prefix_append _ _) h
      · exact h'

theorem named_iff {t : Bytes} {ls : List Bytes} : Named t ls ↔ ∃ q, NameText (strip t) ls q ∧ WF ls ∧ wireLen ls ≤ 239 := by
  constructor
  · rintro ⟨t', q, h1, h2⟩
    rw [strip_eq.mpr h1]
    exact ⟨q, h2⟩
  · rintro ⟨q, h⟩
    exact ⟨strip t, q, strip_eq.mp rfl, h⟩

theorem named_fun {t : Bytes} {ls ls' : List Bytes} (h : Named t ls) (h' : Named t ls') : ls = ls' := by
  obtain ⟨_, h, _⟩ := named_iff.mp h
  obtain ⟨_, h', _⟩ := named_iff.mp h'
  exact (Dname.NameText_functional h h').1

theorem terminate_encode {ls : List Bytes} {q : Bool} (h : WF ls) : Dname.terminate (encode ls q) = .ok (encode ls true) := by
  have hp := Dname.wireLen_pos ls
  have hl : (UInt8.ofNat (wireLen ls)).toNat = wireLen ls := by
    rw [UInt8.toNat_ofNat']
    have := h.2
    omega
  have hw := Dname.wireLabels_length ls
  unfold Dname.terminate
  have h0 : rd (encode ls q) 0 = .ok (UInt8.ofNat (wireLen ls)) := rfl
  rw [h0]
  simp only [Outcome.bind_ok, hl]
  rw [decide_eq_true (show 0 < wireLen ls from hp)]
  simp only [assert, if_true, Outcome.bind_ok]
  rw [if_pos (by rw [Dname.encode_length]; omega)]
  congr 1
  unfold encode
  have : wireLen ls = (UInt8.ofNat (wireLen ls) :: wireLabels ls).length := by simp; omega
  rw [List.set_append_right _ _ (by simp; omega)]
  rw [show wireLen ls - (UInt8.ofNat (wireLen ls) :: wireLabels ls).length = 0 by omega]
  rfl

/-- One pair of arguments. -/
theorem pair_eq {buf n p : Bytes} (hb : buf.length + 284 ≤ 28400) :
    (∃ ls, Named n ls ∧ p.length = 43 ∧ (∀ x ∈ p, Base64url x) ∧ pair buf n p = .ok (some (buf ++ (item (ls.map (·.map lower), p)).wire)) ∧ (item (ls.map (·.map lower), p)).wire.length ≤ 284) ∨
    ((¬ ∃ ls, Named n ls ∧ p.length = 43 ∧ ∀ x ∈ p, Base64url x) ∧ pair buf n p = .ok none) := by
  unfold pair
  rw [decide_eq_true (show 284 ≤ 28400 - buf.length ∧ buf.length ≤ 28400 by omega)]
  simp only [assert, if_true, Outcome.bind_ok]
  rcases Dname.C01_parse_exact (strip n) (strip n).length (Nat.le_refl _) with ⟨ls, q, h1, h2, h3⟩ | ⟨h1, h3⟩
  · rw [h3]
    rw [List.take_length] at h1
    have hw := Dname.WF_map_lower h2
    have hlen : (UInt8.ofNat (wireLen (ls.map (·.map lower)))).toNat = wireLen ls := by
      rw [Dname.wireLen_map_lower, UInt8.toNat_ofNat']
      have := h2.2
      omega
    have hst : (if q = true then Dname.Status.valid else Dname.Status.partialName) ≠ .invalid := by cases q <;> decide
    simp only [Outcome.bind_ok, if_neg hst]
    have h0 : rd (encode (ls.map (·.map lower)) q) 0 = .ok (UInt8.ofNat (wireLen (ls.map (·.map lower)))) := rfl
    rw [h0]
    simp only [Outcome.bind_ok, hlen]
    by_cases hbig : 239 < wireLen ls
    · rw [if_pos hbig]
      refine Or.inr ⟨?_, rfl⟩
      rintro ⟨ls', hn, _⟩
      obtain ⟨_, hn, _, hle⟩ := named_iff.mp hn
      obtain ⟨rfl, _⟩ := Dname.NameText_functional h1 hn
      omega
    · rw [if_neg hbig, terminate_encode hw]
      have hn : Named n ls := named_iff.mpr ⟨q, h1, h2, by omega⟩
      have htake : (encode (ls.map (·.map lower)) true).take (wireLen ls + 1) = encode (ls.map (·.map lower)) true := by
        refine List.take_of_length_le ?_
        rw [Dname.encode_length, Dname.wireLen_map_lower]
        exact Nat.le_refl _
      simp only [Outcome.bind_ok, htake]
      by_cases hp : p.length = 43
      · rw [if_neg (fun h => h hp)]
        by_cases hall : p.all b64u = true
        · rw [if_pos hall]
          have hbound : (encode (ls.map (·.map lower)) true).length ≤ 240 := by
            rw [Dname.encode_length, Dname.wireLen_map_lower]
            omega
          rw [decide_eq_true (by simp only [List.length_append, List.length_cons, List.length_nil]; omega)]
          simp only [if_true, Outcome.bind_ok]
          refine Or.inl ⟨ls, hn, hp, fun x hx => b64u_iff.mp (List.all_eq_true.mp hall x hx), ?_, ?_⟩
          · simp [item, Chal.Item.wire]
          · simp only [item, Chal.Item.wire, List.length_append, List.length_cons, List.length_nil]
            omega
        · rw [if_neg hall]
          refine Or.inr ⟨?_, rfl⟩
          rintro ⟨_, _, _, h⟩
          exact hall (List.all_eq_true.mpr fun x hx => b64u_iff.mpr (h x hx))
      · rw [if_pos hp]
        refine Or.inr ⟨?_, rfl⟩
        rintro ⟨_, _, h, _⟩
        exact hp h
  · rw [h3]
    rw [List.take_length] at h1
    refine Or.inr ⟨?_, rfl⟩
    rintro ⟨ls, hn, _⟩
    obtain ⟨q, hn, hw, _⟩ := named_iff.mp hn
    exact h1 ⟨ls, q, hn, hw⟩

theorem means_fun {as : List Bytes} {cs cs' : List (List Bytes × Bytes)} (h : Means as cs) (h' : Means as cs') : cs = cs' := by
  induction h generalizing cs' with
  | nil => cases h'; rfl
  | cons h1 _ _ _ ih =>
    cases h' with
    | cons h2 _ _ h3 => rw [named_fun h1 h2, ih h3]

theorem room1 {a k N x : Nat} (h : a + x * (k + 1) ≤ N) : a + x ≤ N := by rw [Nat.mul_succ] at h; omega

theorem room2 {a b k N x : Nat} (h : a + x * (k + 1) ≤ N) (hb : b ≤ x) : a + b + x * k ≤ N := by rw [Nat.mul_succ] at h; omega

/-- All pairs: room for 100 of them. -/
theorem pairs_eq {N : Nat} (hN : N ≤ 28400) : ∀ (k : Nat) {args : List Bytes} {buf : Bytes}, args.length = 2 * k → buf.length + 284 * k ≤ N →
    (∃ cs, Means args cs ∧ cs.length = k ∧ pairs buf args = .ok (some (buf ++ cs.flatMap fun c => (item c).wire)) ∧ (cs.flatMap fun c => (item c).wire).length ≤ 284 * k) ∨
    ((¬ ∃ cs, Means args cs) ∧ pairs buf args = .ok none)
  | 0, [], buf, _, _ => Or.inl ⟨[], .nil, rfl, by simp [pairs], by simp⟩
  | k + 1, n :: p :: as, buf, hl, hb => by
    simp only [List.length_cons] at hl
    have hb0 : buf.length + 284 ≤ N := room1 hb
    have hb1 : buf.length + 284 ≤ 28400 := Nat.le_trans hb0 hN
    unfold pairs
    rcases pair_eq (n := n) (p := p) hb1 with ⟨ls, h1, h2, h3, h4, h5⟩ | ⟨h1, h2⟩
    · rw [h4]
      simp only [Outcome.bind_ok]
      have hb2 : (buf ++ (item (ls.map (·.map lower), p)).wire).length + 284 * k ≤ N := by rw [List.length_append]; exact room2 hb h5
      have hl2 : as.length = 2 * k := by omega
      rcases pairs_eq hN k hl2 hb2 with ⟨cs, h6, h7, h8, h9⟩ | ⟨h6, h7⟩
      · refine Or.inl ⟨(ls.map (·.map lower), p) :: cs, .cons h1 h2 h3 h6, by simp [h7], ?_, ?_⟩
        · rw [h8]; simp
        · rw [List.flatMap_cons, List.length_append]; omega
      · refine Or.inr ⟨?_, h7⟩
        rintro ⟨_, h⟩
        cases h with
        | cons _ _ _ h => exact h6 ⟨_, h⟩
    · rw [h2]
      refine Or.inr ⟨?_, rfl⟩
      rintro ⟨_, h⟩
      cases h with
      | cons h3 h4 h5 _ => exact h1 ⟨_, h3, h4, h5⟩
  | 0, _ :: _, _, hl, _ => by simp at hl
  | k + 1, [], _, hl, _ => by simp at hl
  | k + 1, [_], _, hl, _ => by simp only [List.length_cons, List.length_nil] at hl; omega

theorem means_len {as : List Bytes} {cs : List (List Bytes × Bytes)} (h : Means as cs) : as.length = 2 * cs.length := by
  induction h with
  | nil => rfl
  | cons _ _ _ _ ih => simp only [List.length_cons, ih]; omega

end Gdnsd.Ctl
