/-
The actions of gdnsdctl, from their end backwards.
-/
import Verif.Ctl.ClientLemmas
namespace Gdnsd.Ctl
open CtlSpec DnameSpec
open Css (msg msgKey msgV msgD bind_ok map_ok assert_ok header_msg)
open CssSpec (plain header)
open Conf (str)

theorem lower_eq (x : UInt8) : Mon.lower x = lower x := by
  unfold Mon.lower lower
  by_cases h : 65 ≤ x ∧ x ≤ 90
  · have h' : 65 ≤ x.toNat ∧ x.toNat ≤ 90 := h
    rw [if_pos h, if_pos h']
    apply UInt8.toNat_inj.mp
    rw [UInt8.toNat_add, UInt8.toNat_ofNat']
    rfl
  · have h' : ¬ (65 ≤ x.toNat ∧ x.toNat ≤ 90) := h
    rw [if_neg h, if_neg h']

theorem is_iff {a : Bytes} {s : String} (h : (str s).map Mon.lower = str s) : Svc.caseEq a (str s) = true ↔ Is a s := by
  unfold Svc.caseEq Is
  rw [h, beq_iff_eq, show Mon.lower = lower from funext lower_eq]

theorem is_ne {a : Bytes} {s t : String} (h : Is a s) (hne : str s ≠ str t) : ¬ Is a t := fun h' => hne (h.symm.trans h')

theorem settle_done {α} {o : Opts} {r : Rv α} {f : α → Act} {out st} (h : settle o r f = .done out st) : ∃ a, r = .ok a ∧ f a = .done out st := by
  cases r with
  | ok a => exact ⟨a, rfl, h⟩
  | hard => cases h
  | soft => simp only [settle] at h; split at h <;> cases h
  | killed => cases h

theorem settle_exit {α} {o : Opts} {r : Rv α} {f : α → Act} {code} (h : settle o r f = .exit code) : code = 42 ∨ ∃ a, r = .ok a ∧ f a = .exit code := by
  cases r with
  | ok a => exact Or.inr ⟨a, rfl, h⟩
  | hard => cases h; exact Or.inl rfl
  | soft =>
    simp only [settle] at h
    split at h
    · cases h; exact Or.inl rfl
    · cases h
  | killed => cases h

theorem Greeted.talk' {o : Opts} {c : Chan} {i} (h : Greeted o c i) : Talk o c i [] [] := by
  obtain ⟨m, h1, h2, h3, h4⟩ := h.talk
  exact ⟨m, h1, h2, by simpa using h3, by simpa using h4⟩

theorem Greeted.next {o : Opts} {c c' : Chan} {i req resp} (h : Greeted o c i) (h1 : c'.out = c.out ++ req) (h2 : c'.inp = c.inp ++ resp) : Talk o c' i req resp := by
  obtain ⟨m, h3, h4, h5, h6⟩ := h.talk
  exact ⟨m, h3, h4, by rw [h1, h5], by rw [h2, h6]⟩

theorem actPlain_done {o : Opts} {key c i out st l} (hg : Greeted o c i) (h : actPlain o key c = (.done out st, l)) :
    out = [] ∧ st = none ∧ ∃ c' a, l = [c'] ∧ Ack a ∧ Talk o c' i (plain key) a := by
  unfold actPlain at h
  split at h
  next r c1 ht =>
  simp only [Prod.mk.injEq] at h
  obtain ⟨hA, rfl⟩ := h
  obtain ⟨m, rfl, hB⟩ := settle_done hA
  simp only [Act.done.injEq] at hB
  obtain ⟨h1, h2, h3, _⟩ := txn_ok rfl ht
  exact ⟨hB.1.symm, hB.2.symm, c1, m, rfl, h1, hg.next h2 h3⟩

theorem actStop_done {o : Opts} {c i out st l} (hg : Greeted o c i) (h : actStop o c = (.done out st, l)) :
    out = [] ∧ st = none ∧ ∃ c' a, l = [c'] ∧ Ack a ∧ Talk o c' i (plain 88) a ∧ c'.eof = true := by
  unfold actStop at h
  split at h
  · next m c1 ht =>
    split at h
    · next c2 hw =>
      simp only [Prod.mk.injEq, Act.done.injEq] at h
      obtain ⟨⟨rfl, rfl⟩, rfl⟩ := h
      obtain ⟨h1, h2, h3, _⟩ := txn_ok rfl ht
      obtain ⟨h4, h5, h6⟩ := waitStop_ok hw
      exact ⟨rfl, rfl, c2, m, rfl, h1, hg.next (by rw [h6, h2]; rfl) (by rw [h5, h3]), h4⟩
    · cases h
  · next r c1 _ _ =>
    simp only [Prod.mk.injEq] at h
    obtain ⟨a, _, h⟩ := settle_done h.1
    cases h

theorem actReplace_done {o : Opts} {c i c2 out st l} (hg : Greeted o c i) (hf : ∀ c, c2 = some c → Fresh c) (h : actReplace o c c2 = (.done out st, l)) :
    out = [] ∧ ∃ c' c2' i2 a, l = [c', c2'] ∧ st = some i2 ∧ Ack a ∧ Talk o c' i (plain 82) a ∧ c'.eof = true ∧ Talk o c2' i2 [] [] := by
  unfold actReplace at h
  split at h
  · next m c1 ht =>
    split at h
    · cases h
    · next c3 hw =>
      split at h
      · next i2 c2' _ hn =>
        simp only [Prod.mk.injEq, Act.done.injEq] at h
        obtain ⟨⟨rfl, rfl⟩, rfl⟩ := h
        obtain ⟨h1, h2, h3, _⟩ := txn_ok rfl ht
        obtain ⟨h4, h5, h6⟩ := waitStop_ok hw
        exact ⟨rfl, c3, c2', i2, m, rfl, rfl, h1, hg.next (by rw [h6, h2]; rfl) (by rw [h5, h3]), h4, (new_ok hf hn).talk'⟩
      · cases h
      · cases h
  · next r c1 _ _ =>
    simp only [Prod.mk.injEq] at h
    obtain ⟨a, _, h⟩ := settle_done h.1
    cases h

theorem actData_done {o : Opts} {key c i out st l} (hg : Greeted o c i) (h : actData o key c = (.done out st, l)) :
    st = none ∧ ∃ c' a, l = [c'] ∧ Ack a ∧ out.length = msgD a ∧ Talk o c' i (plain key) (a ++ out) := by
  unfold actData at h
  split at h
  next r c1 ht =>
  simp only [Prod.mk.injEq] at h
  obtain ⟨hA, rfl⟩ := h
  obtain ⟨⟨m, d⟩, rfl, hB⟩ := settle_done hA
  simp only [Act.done.injEq] at hB
  obtain ⟨rfl, rfl⟩ := hB
  unfold txnGet at ht
  split at ht
  · next m' c2 ht2 =>
    split at ht
    · next d' c3 hp =>
      simp only [Prod.mk.injEq, Rv.ok.injEq] at ht
      obtain ⟨⟨rfl, rfl⟩, rfl⟩ := ht
      obtain ⟨h1, h2, h3, _⟩ := txn_ok rfl ht2
      obtain ⟨h4, h5, h6⟩ := pull_ok hp
      exact ⟨rfl, c3, m', rfl, h1, h4, hg.next (by rw [h6, h2]; rfl) (by rw [h5, h3]; simp)⟩
    · cases ht
  · cases ht
  · cases ht
  · cases ht

theorem txnSend_ok {c : Chan} {req data m c'} (h8 : req.length = 8) (hd : data.length = msgD req) (h : txnSend c req data = .ok (.ok m, c')) :
    Ack m ∧ c'.out = c.out ++ (req ++ data) ∧ c'.inp = c.inp ++ m := by
  unfold txnSend at h
  obtain ⟨_, _, h⟩ := bind_ok h
  split at h
  · cases h
  · cases h
  · next k c1 hs =>
    obtain ⟨h1, _, h2, _⟩ := send_n hs
    split at h
    · cases h
    next hk =>
    have hk : k = 8 := Decidable.byContradiction hk
    split at h
    · cases h
    · cases h
    · next c2 hp =>
      obtain ⟨h3, h4⟩ := push_ok hp
      simp only [Outcome.ok.injEq] at h
      obtain ⟨h5, h6, h7, _⟩ := verdict_ok h
      refine ⟨h5, ?_, by rw [h6, h4, h2]⟩
      rw [h7, h3, h1, hk, List.take_of_length_le (by omega), List.take_of_length_le (by omega)]
      simp

theorem wire_pos {cs : List (List Bytes × Bytes)} (h : 1 ≤ cs.length) : 1 ≤ (cs.flatMap fun c => (item c).wire).length := by
  cases cs with
  | nil => cases h
  | cons c cs => simp [item, Chal.Item.wire]; omega

theorem actChal_done {o : Opts} {c i args out st l} (hg : Greeted o c i) (h : actChal o c args = .ok (.done out st, l)) :
    out = [] ∧ st = none ∧ ∃ c' a req cs, l = [c'] ∧ Means args cs ∧ 1 ≤ cs.length ∧ cs.length ≤ 100 ∧ Ack a ∧ Asks cs req ∧ Talk o c' i req a := by
  unfold actChal at h
  split at h
  · cases h
  next hn =>
  obtain ⟨k, hk⟩ : ∃ k, args.length = 2 * k := ⟨args.length / 2, by omega⟩
  have hk1 : 1 ≤ k ∧ k ≤ 100 := by omega
  rcases pairs_eq (N := 284 * k) (by have := Nat.mul_le_mul_left 284 hk1.2; omega) k hk (buf := []) (by rw [List.length_nil, Nat.zero_add]; exact Nat.le_refl _) with ⟨cs, h1, h2, h3, h4⟩ | ⟨_, h3⟩
  · rw [h3] at h
    simp only [Outcome.bind_ok, List.nil_append] at h
    obtain ⟨⟨r, c1⟩, ht, hM⟩ := map_ok h
    simp only [Prod.mk.injEq] at hM
    obtain ⟨hA, rfl⟩ := hM
    obtain ⟨m, rfl, hB⟩ := settle_done hA
    simp only [Act.done.injEq] at hB
    have hflat : (cs.flatMap fun c => (item c).wire).length < 2 ^ 32 := by
      have := Nat.mul_le_mul_left 284 hk1.2
      omega
    have hh := @header_msg 67 (args.length / 2) (cs.flatMap fun c => (item c).wire).length
    have hmd := hh.2.2.2
    rw [Nat.mod_eq_of_lt hflat] at hmd
    obtain ⟨h5, h6, h7⟩ := txnSend_ok rfl hmd.symm ht
    refine ⟨hB.1.symm, hB.2.symm, c1, m, _, cs, rfl, h1, by omega, by omega, h5, ⟨_, ?_, rfl⟩, hg.next h6 h7⟩
    have : args.length / 2 = cs.length := by omega
    rw [this] at hh ⊢
    exact hh
  · rw [h3] at h
    cases h

theorem doAction_done {o : Opts} {i c c2 action args out st l} (hg : Greeted o c i) (hf : ∀ c, c2 = some c → Fresh c) (h : doAction o i c c2 action args = .ok (.done out st, l)) :
    Did o action args l out st := by
  unfold doAction at h
  split at h
  · next ha =>
    have ha := (is_iff (by decide +kernel)).mp ha
    obtain ⟨rfl, rfl, c', a, req, cs, rfl, h1, h2, h3, h4, h5, h6⟩ := actChal_done hg h
    exact .chal ha h1 h2 h3 h4 h5 h6
  split at h
  · cases h
  next hargs =>
  have hargs : args = [] := Decidable.byContradiction hargs
  split at h
  · next ha =>
    have ha := (is_iff (by decide +kernel)).mp ha
    simp only [Outcome.ok.injEq] at h
    obtain ⟨rfl, rfl, c', a, rfl, h1, h2, h3⟩ := actStop_done hg h
    exact .stop ha hargs h1 h2 h3
  split at h
  · next ha =>
    have ha := (is_iff (by decide +kernel)).mp ha
    simp only [Outcome.ok.injEq] at h
    obtain ⟨rfl, rfl, c', a, rfl, h1, h2⟩ := actPlain_done hg h
    exact .reload ha hargs h1 h2
  split at h
  · next ha =>
    have ha := (is_iff (by decide +kernel)).mp ha
    simp only [Outcome.ok.injEq] at h
    obtain ⟨rfl, c', c2', i2, a, rfl, rfl, h1, h2, h3, h4⟩ := actReplace_done hg hf h
    exact .replace ha hargs h1 h2 h3 h4
  split at h
  · next ha =>
    have ha := (is_iff (by decide +kernel)).mp ha
    simp only [Outcome.ok.injEq, Prod.mk.injEq, Act.done.injEq] at h
    obtain ⟨⟨rfl, rfl⟩, rfl⟩ := h
    exact .status ha hargs hg.talk'
  split at h
  · next ha =>
    have ha := (is_iff (by decide +kernel)).mp ha
    simp only [Outcome.ok.injEq] at h
    obtain ⟨rfl, c', a, rfl, h1, h2, h3⟩ := actData_done hg h
    exact .stats ha hargs h1 h2 h3
  split at h
  · next ha =>
    have ha := (is_iff (by decide +kernel)).mp ha
    simp only [Outcome.ok.injEq] at h
    obtain ⟨rfl, c', a, rfl, h1, h2, h3⟩ := actData_done hg h
    exact .states ha hargs h1 h2 h3
  split at h
  · next ha =>
    have ha := (is_iff (by decide +kernel)).mp ha
    simp only [Outcome.ok.injEq] at h
    obtain ⟨rfl, rfl, c', a, rfl, h1, h2⟩ := actPlain_done hg h
    exact .flush ha hargs h1 h2
  · cases h

/-- No action ends the program with success by itself. -/
theorem doAction_exit {o : Opts} {i c c2 action args code l} (h : doAction o i c c2 action args = .ok (.exit code, l)) : code ≠ 0 := by
  have hs : ∀ {α} {r : Rv α} {f : α → Act}, (∀ a n, f a = .exit n → n ≠ 0) → settle o r f = .exit code → code ≠ 0 := by
    intro α r f hf h
    rcases settle_exit h with rfl | ⟨a, _, h⟩
    · decide
    · exact hf a code h
  have hp : ∀ {key}, actPlain o key c = (.exit code, l) → code ≠ 0 := by
    intro key h
    unfold actPlain at h
    split at h
    simp only [Prod.mk.injEq] at h
    exact hs (by intro _ _ h; cases h) h.1
  have hd : ∀ {key}, actData o key c = (.exit code, l) → code ≠ 0 := by
    intro key h
    unfold actData at h
    split at h
    simp only [Prod.mk.injEq] at h
    exact hs (by intro _ _ h; cases h) h.1
  have h42 : ∀ (a : Bytes) (n : Nat), (fun _ : Bytes => Act.exit 42) a = .exit n → n ≠ 0 := by intro _ n h; cases h; decide
  unfold doAction at h
  split at h
  · unfold actChal at h
    split at h
    · simp only [Outcome.ok.injEq, Prod.mk.injEq, Act.exit.injEq] at h; omega
    · obtain ⟨b, _, h⟩ := bind_ok h
      split at h
      · simp only [Outcome.ok.injEq, Prod.mk.injEq, Act.exit.injEq] at h; omega
      · obtain ⟨⟨r, c1⟩, _, h⟩ := map_ok h
        simp only [Prod.mk.injEq] at h
        exact hs (by intro _ _ h; cases h) h.1
  split at h
  · simp only [Outcome.ok.injEq, Prod.mk.injEq, Act.exit.injEq] at h; omega
  split at h
  · simp only [Outcome.ok.injEq] at h
    unfold actStop at h
    split at h
    · split at h
      · cases h
      · simp only [Prod.mk.injEq, Act.exit.injEq] at h; omega
    · simp only [Prod.mk.injEq] at h; exact hs h42 h.1
  split at h
  · simp only [Outcome.ok.injEq] at h; exact hp h
  split at h
  · simp only [Outcome.ok.injEq] at h
    unfold actReplace at h
    split at h
    · split at h
      · simp only [Prod.mk.injEq, Act.exit.injEq] at h; omega
      · split at h
        · cases h
        · cases h
        · simp only [Prod.mk.injEq, Act.exit.injEq] at h; omega
    · simp only [Prod.mk.injEq] at h; exact hs h42 h.1
  split at h
  · cases h
  split at h
  · simp only [Outcome.ok.injEq] at h; exact hd h
  split at h
  · simp only [Outcome.ok.injEq] at h; exact hd h
  split at h
  · simp only [Outcome.ok.injEq] at h; exact hp h
  · simp only [Outcome.ok.injEq, Prod.mk.injEq, Act.exit.injEq] at h; omega

theorem ignorable_iff {a : Bytes} : ignorable a = true ↔ Ignorable a := by
  unfold ignorable Ignorable
  rw [Bool.or_eq_true, Bool.or_eq_true, Bool.or_eq_true, is_iff (by decide +kernel), is_iff (by decide +kernel), is_iff (by decide +kernel), is_iff (by decide +kernel), or_assoc, or_assoc]

/-- A round without another one, of success. -/
theorem round_zero {o : Opts} {action args t out st l} (hf : (∀ c, t.conn = some c → Fresh c) ∧ ∀ c, t.conn2 = some c → Fresh c)
    (h : round o action args t = .ok (some (.exit 0 out st), l)) : Did o action args l out st ∨ (o.ignoreDead = true ∧ Ignorable action ∧ Dead l ∧ out = [] ∧ st = none) := by
  unfold round at h
  have hdead : ∀ {r l0}, new o t.conn = (r, l0) → (r = .hard ∨ r = .soft) → (Outcome.ok (some (End.exit (if (o.ignoreDead && ignorable action) = true then 0 else 1) [] none), l0) : Outcome (Option End × List Chan)) = .ok (some (.exit 0 out st), l) →
      o.ignoreDead = true ∧ Ignorable action ∧ Dead l ∧ out = [] ∧ st = none := by
    intro r l0 hn hr h
    simp only [Outcome.ok.injEq, Prod.mk.injEq, Option.some.injEq, End.exit.injEq] at h
    obtain ⟨⟨h1, h2, h3⟩, rfl⟩ := h
    split at h1
    · next hi =>
      rw [Bool.and_eq_true] at hi
      exact ⟨hi.1, ignorable_iff.mp hi.2, new_dead hf.1 hn hr, h2.symm, h3.symm⟩
    · cases h1
  split at h
  · cases h
  · next l0 hn => exact Or.inr (hdead hn (Or.inl rfl) h)
  · next l0 hn => exact Or.inr (hdead hn (Or.inr rfl) h)
  · next i c l0 hn =>
    obtain ⟨⟨a, l1⟩, ha, h⟩ := map_ok h
    have hg := new_ok hf.1 hn
    dsimp only at h
    split at h
    · simp only [Prod.mk.injEq, Option.some.injEq, End.exit.injEq, true_and] at h
      obtain ⟨⟨rfl, rfl⟩, rfl⟩ := h
      exact Or.inl (doAction_done hg hf.2 ha)
    · simp only [Prod.mk.injEq, Option.some.injEq, End.exit.injEq] at h
      exact absurd h.1.1 (doAction_exit ha)
    · cases h
    · simp only [Prod.mk.injEq] at h
      obtain ⟨h, _⟩ := h
      split at h <;> cases h

end Gdnsd.Ctl
