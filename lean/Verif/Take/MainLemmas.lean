/-
The parts of a start, one after the other.
-/
import Verif.Take.BootLemmas
namespace Gdnsd.Take
open TakeSpec
open Css (msg msgKey msgV msgD)
open Ctl (Chan Info)

theorem S.unlinks {ks G p} (h : S ks G p) (hl : .lock ∈ p) (hG : Mono G) : S ks G (p ++ [.unlink]) := by
  obtain ⟨xs, h1, h2, h3⟩ := h.says
  have hb : bytes (p ++ [.unlink]) = bytes p := by rw [bytes_append]; exact List.append_nil _
  refine ⟨⟨xs, by rw [hb, h1], each_mono p _ h2, h3⟩, fun _ => mem_mono _ _ _ hl, ?_, ?_, ?_, hG _ _ h.more⟩
  · intro h0
    rcases List.mem_append.mp h0 with h0 | h0
    · exact h.serve h0
    · simp at h0
  · rintro ⟨a, b, c, d, h0⟩
    rcases List.mem_append.mp h0 with h0 | h0
    · exact and_mono ready_mono (mem_mono .busy) _ _ (h.took ⟨a, b, c, d, h0⟩)
    · simp at h0
  · rw [hb]; exact fun h0 => mem_mono _ _ _ (h.talk h0)

theorem tri_sockets {ks G e} (hk : ks.Nodup) (hG : Mono G) : Tri (S ks G) (sockets e) (fun _ => S ks (fun p => G p ∧ .lock ∈ p ∧ .listening ∈ p)) := by
  unfold sockets
  have hG1 : Mono fun p => G p ∧ Eff.lock ∈ p := and_mono hG (mem_mono _)
  refine tri_bind (R := fun _ => S ks (fun p => G p ∧ .lock ∈ p)) (tri_weak (tri_eff (a := ()) hk hG (by simp [plainEff])) (fun _ h => h) fun a p h => h.2.weak fun h => ⟨h.1, h.2 _ (by simp)⟩) fun _ => ?_
  refine tri_bind (R := fun _ => S ks (fun p => G p ∧ .lock ∈ p)) ?_ fun _ =>
    tri_weak (tri_part hk hG1 (by simp [plainEff])) (fun _ h => h) fun a p h => h.weak fun h => ⟨h.1.1, h.1.2, h.2 _ (by simp)⟩
  cases e.unlinks with
  | false => exact tri_die' hk
  | true =>
    intro p hp
    have := hp.unlinks hp.more.2 hG1
    refine ⟨fun q hq => ?_, fun _ _ => this⟩
    rcases List.prefix_cons_iff.mp hq with rfl | ⟨t, rfl, ht⟩
    · rw [List.append_nil]; exact hp.safe hk
    · rw [List.prefix_nil.mp ht]; exact this.safe hk

/-- The lock is had, or another daemon has it. -/
def Have : Bool → List Eff → Prop
  | true, p => .lock ∈ p ∧ .listening ∈ p
  | false, p => .busy ∈ p

theorem have_mono (b : Bool) : Mono (Have b) := by
  cases b with
  | true => exact and_mono (mem_mono _) (mem_mono _)
  | false => exact mem_mono _

theorem tri_first {e} : Tri (S [] fun _ => True) (first e) (fun mine => S [] (Have mine)) := by
  unfold first
  cases e.lock1 with
  | err => exact tri_die' (by simp)
  | busy => exact tri_weak (tri_eff (a := false) (by simp) true_mono (by simp [plainEff])) (fun _ h => h) fun a p h => by rw [h.1]; exact h.2.weak fun h => h.2 _ (by simp)
  | got =>
    refine tri_bind (R := fun _ => S [] (Have true)) (tri_weak (tri_sockets (by simp) true_mono) (fun _ h => h) fun a p h => h.weak And.right) fun _ => ?_
    exact tri_weak (tri_pure (by simp)) (fun _ h => h) fun a p h => by rw [h.1]; exact h.2

theorem due_other {p m} (h : msgKey m = 73 ∨ msgKey m = 49) : Due p m := by
  refine ⟨fun h0 => ?_, fun h0 => ?_, fun h0 => ?_⟩ <;> (rw [h0] at h; exact absurd h (by decide))

/-! ### Transactions -/

theorem pull_out : ∀ {f : Nat} {c : Chan} {w r c'}, Ctl.pull f c w = (r, c') → c'.out = c.out
  | 0, c, w, r, c', h => by
    unfold Ctl.pull at h
    split at h <;> (cases h; rfl)
  | f + 1, c, w, r, c', h => by
    unfold Ctl.pull at h
    split at h
    · cases h; rfl
    · split at h
      · next h1 => cases h; exact (Ctl.recv_none h1).2
      · next h1 => cases h; exact (Ctl.recv_some h1).2.2.1
      · next h1 =>
        split at h
        · next h2 => cases h; rw [pull_out h2]; exact (Ctl.recv_some h1).2.2.1
        · next h2 => cases h; rw [pull_out h2]; exact (Ctl.recv_some h1).2.2.1

theorem txnGet_out {c : Chan} {req r c'} (h : Ctl.txnGet c req = (r, c')) : ∃ x, x <+: req ∧ c'.out = c.out ++ x := by
  unfold Ctl.txnGet at h
  split at h
  · next h1 =>
    obtain ⟨x, hx, he⟩ := Ctl.txn_out h1
    split at h
    · next h2 => cases h; exact ⟨x, hx, by rw [pull_out h2, he]⟩
    · next h2 => cases h; exact ⟨x, hx, by rw [pull_out h2, he]⟩
  · next h1 => cases h; exact Ctl.txn_out h1
  · next h1 => cases h; exact Ctl.txn_out h1
  · next h1 => cases h; exact Ctl.txn_out h1

theorem txnGet_ok {c : Chan} {req a c'} (h8 : req.length = 8) (h : Ctl.txnGet c req = (.ok a, c')) : c'.out = c.out ++ req := by
  unfold Ctl.txnGet at h
  split at h
  · next h1 =>
    have := (Ctl.txn_ok h8 h1).2.1
    split at h
    · next h2 => cases h; rw [pull_out h2, this]
    · cases h
  · cases h
  · cases h
  · cases h

theorem tri_connect {e} : Tri (S [] (Have false)) (connect e) (fun _ => S [73] (Have false)) := by
  unfold connect
  cases e.conn with
  | none => exact tri_die' (by simp)
  | some c =>
    rcases ht : Ctl.txn c (msg 73 e.version 0) with ⟨r, c'⟩
    obtain ⟨x, hx, he⟩ := Ctl.txn_out ht
    have hf : Tri (S [] (Have false)) (Boot.bind ((said c c', some ()) : Boot Unit) fun _ => (die 42 : Boot (Info × Chan))) (fun _ => S [73] (Have false)) :=
      tri_fail (k := 73) he hx rfl rfl (by decide) (fun p _ => due_other (Or.inl rfl)) (fun p h => h) (by decide)
    dsimp only
    rw [ht]
    cases r with
    | ok m =>
      have := (Ctl.txn_ok rfl ht).2.1
      exact tri_weak (tri_said (k := 73) (G := Have false) this rfl rfl (by decide) (fun p _ => due_other (Or.inl rfl)) (fun p h => h) (have_mono _) (by decide)) (fun _ h => h) fun a p h => h.2
    | hard => exact hf
    | soft => exact hf
    | killed => exact hf

theorem tri_tak1 {e i c} : Tri (S [73] (Have false)) (tak1 e i c) (fun _ => S [73, 49] (Have false)) := by
  unfold tak1
  cases modern i with
  | false => exact tri_weak (tri_pure (by decide)) (fun _ h => h) fun a p h => h.2.keys (by decide)
  | true =>
    rcases ht : Ctl.txn c (msg 49 0 e.pid) with ⟨r, c'⟩
    obtain ⟨x, hx, he⟩ := Ctl.txn_out ht
    have hf : Tri (S [73] (Have false)) (Boot.bind ((said c c', some ()) : Boot Unit) fun _ => (die 42 : Boot Chan)) (fun _ => S [73, 49] (Have false)) :=
      tri_fail (k := 49) he hx rfl rfl (by decide) (fun p _ => due_other (Or.inr rfl)) (fun p h => h) (by decide)
    rw [if_pos rfl]
    cases r with
    | ok m =>
      have := (Ctl.txn_ok rfl ht).2.1
      exact tri_weak (tri_said (k := 49) (G := Have false) this rfl rfl (by decide) (fun p _ => due_other (Or.inr rfl)) (fun p h => h) (have_mono _) (by decide)) (fun _ h => h) fun a p h => h.2
    | hard => exact hf
    | soft => exact hf
    | killed => exact hf

theorem tri_join {e mine} : Tri (S [] (Have mine)) (join e mine) (fun old => S [73, 49] (Have old.isNone)) := by
  unfold join
  cases mine with
  | true => exact tri_weak (tri_pure (by simp)) (fun _ h => h) fun a p h => by rw [h.1]; exact h.2.keys (by decide)
  | false =>
    rw [if_neg (by simp)]
    cases e.idem with
    | true => exact tri_die' (by simp)
    | false =>
      rw [if_neg (by simp)]
      cases e.replace with
      | false => exact tri_die' (by simp)
      | true =>
        rw [if_neg (by simp)]
        refine tri_bind tri_connect fun x => tri_bind tri_tak1 fun c => ?_
        exact tri_weak (tri_pure (by decide)) (fun _ h => h) fun a p h => by rw [h.1]; exact h.2

theorem tri_tak2 {e i c} : Tri (S [73, 49] fun p => Have false p ∧ Loaded p) (tak2 e i c) (fun _ => S [73, 49, 50] fun p => Have false p ∧ Loaded p) := by
  have hM : Mono fun p => Have false p ∧ Loaded p := and_mono (have_mono _) loaded_mono
  unfold tak2
  cases modern i with
  | false => exact tri_weak (tri_pure (by decide)) (fun _ h => h) fun a p h => h.2.keys (by decide)
  | true =>
    rcases ht : Ctl.txnGet c (msg 50 0 e.pid) with ⟨r, c'⟩
    obtain ⟨x, hx, he⟩ := txnGet_out ht
    have hdue : ∀ p, (Have false p ∧ Loaded p) → Due p (msg 50 0 e.pid) := fun p h => ⟨fun _ => h.2, fun h0 => absurd h0 (show ¬ (50 : UInt8) = 84 by decide), fun h0 => absurd h0 (show ¬ (50 : UInt8) = 88 by decide)⟩
    have hf : Tri (S [73, 49] fun p => Have false p ∧ Loaded p) (Boot.bind ((said c c', some ()) : Boot Unit) fun _ => (die 42 : Boot Chan)) (fun _ => S [73, 49, 50] fun p => Have false p ∧ Loaded p) :=
      tri_fail (k := 50) he hx rfl rfl (by decide) hdue (fun p h => h.1) (by decide)
    rw [if_pos rfl]
    cases r with
    | ok a =>
      have := txnGet_ok rfl ht
      refine tri_bind (R := fun _ => S [73, 49, 50] fun p => Have false p ∧ Loaded p) (tri_weak (tri_said (k := 50) this rfl rfl (by decide) hdue (fun p h => h.1) hM (by decide)) (fun _ h => h) fun a p h => h.2) fun _ => ?_
      refine tri_bind (R := fun _ => S [73, 49, 50] fun p => Have false p ∧ Loaded p) (tri_weak (tri_part (by decide) hM (by simp [plainEff])) (fun _ h => h) fun a p h => h.weak And.left) fun _ => ?_
      exact tri_weak (tri_pure (by decide)) (fun _ h => h) fun a p h => h.2
    | hard => exact hf
    | soft => exact hf
    | killed => exact hf

theorem tri_challenge {e old} : Tri (S [73, 49] fun p => Have old.isNone p ∧ Loaded p) (challenge e old) (fun old => S [73, 49, 50] fun p => Have old.isNone p ∧ Loaded p) := by
  cases old with
  | none => exact tri_weak (tri_pure (by decide)) (fun _ h => h) fun a p h => by rw [h.1]; exact h.2.keys (by decide)
  | some x => exact tri_bind tri_tak2 fun c => tri_weak (tri_pure (by decide)) (fun _ h => h) fun a p h => by rw [h.1]; exact h.2

/-- Control sockets, and a daemon that may serve. -/
def Own (p : List Eff) : Prop := (.lock ∈ p ∨ Took p) ∧ .listening ∈ p ∧ Ready p

theorem own_mono : Mono Own := and_mono (or_mono (mem_mono _) took_mono) (and_mono (mem_mono _) ready_mono)

theorem S.takes {ks G p lk ct ts c} (h : S ks G p) (hr : Ready p) (hb : .busy ∈ p) (hG : Mono G) : S ks (fun p => G p ∧ Took p) (p ++ [.took lk ct ts c]) := by
  obtain ⟨xs, h1, h2, h3⟩ := h.says
  have hy : bytes (p ++ [.took lk ct ts c]) = bytes p := by rw [bytes_append]; exact List.append_nil _
  refine ⟨⟨xs, by rw [hy, h1], each_mono p _ h2, h3⟩, ?_, ?_, fun _ => ⟨ready_mono _ _ hr, mem_mono _ _ _ hb⟩, fun _ => mem_mono _ _ _ hb, hG _ _ h.more, ⟨lk, ct, ts, c, by simp⟩⟩
  · intro h0
    rcases List.mem_append.mp h0 with h0 | h0
    · exact mem_mono _ _ _ (h.unlink h0)
    · simp at h0
  · intro h0
    rcases List.mem_append.mp h0 with h0 | h0
    · exact h.serve h0
    · simp at h0

theorem tri_second {e c} : Tri (S [73, 49, 50] fun p => Have false p ∧ Ready p) (second e c) (fun x => S [73, 49, 50, 84] fun p => Own p ∧ (x.1.isSome → .busy ∈ p)) := by
  have hM : Mono fun p => Have false p ∧ Ready p := and_mono (have_mono _) ready_mono
  unfold second
  cases e.lock2 with
  | err => exact tri_die' (by decide)
  | got =>
    refine tri_bind (tri_sockets (by decide) hM) fun _ => ?_
    exact tri_weak (tri_pure (by decide)) (fun _ h => h) fun a p h => by rw [h.1]; exact (h.2.weak fun h => ⟨⟨Or.inl h.2.1, h.2.2, h.1.2⟩, by simp⟩).keys (by decide)
  | busy =>
    rcases ht : Ctl.send c (msg 84 0 e.pid) with ⟨r, c'⟩
    obtain ⟨x, hx, he⟩ := Ctl.send_out ht
    have hdue : ∀ p, (Have false p ∧ Ready p) → Due p (msg 84 0 e.pid) := fun p h => ⟨fun h0 => absurd h0 (show ¬ (84 : UInt8) = 50 by decide), fun _ => h.2, fun h0 => absurd h0 (show ¬ (84 : UInt8) = 88 by decide)⟩
    have hf : Tri (S [73, 49, 50] fun p => Have false p ∧ Ready p) (Boot.bind ((said c c', some ()) : Boot Unit) fun _ => (die 42 : Boot (Option Chan × List Thread)))
        (fun x => S [73, 49, 50, 84] fun p => Own p ∧ (x.1.isSome → .busy ∈ p)) :=
      tri_fail (k := 84) he hx rfl rfl (by decide) hdue (fun p h => h.1) (by decide)
    dsimp only
    cases r with
    | err => exact hf
    | pipe => exact hf
    | n k =>
      dsimp only
      by_cases hk : k ≠ 8
      · rw [if_pos hk]; exact hf
      rw [if_neg hk]
      have hk : k = 8 := Decidable.byContradiction hk
      have hall : c'.out = c.out ++ msg 84 0 e.pid := by
        rw [(Ctl.send_n ht).1, hk]; rfl
      refine tri_bind (R := fun _ => S [73, 49, 50, 84] fun p => Have false p ∧ Ready p) (tri_weak (tri_said (k := 84) hall rfl rfl (by decide) hdue (fun p h => h.1) hM (by decide)) (fun _ h => h) fun a p h => h.2) fun _ => ?_
      rcases hg : getFds none [] e.msgs with _ | _ | ⟨lk, _ | ⟨ct, fds⟩⟩
      · exact tri_die' (by decide)
      · exact tri_die' (by decide)
      · exact tri_die' (by decide)
      · dsimp only
        refine tri_bind (R := fun _ => S [73, 49, 50, 84] fun p => (Have false p ∧ Ready p) ∧ Took p) (fun p hp => ?_) fun _ => ?_
        · have := hp.takes (lk := lk) (ct := ct) (ts := (importFds e.kind e.threads fds).1) (c := (importFds e.kind e.threads fds).2) hp.more.2 hp.more.1 hM
          refine ⟨fun q hq => ?_, fun _ _ => this⟩
          rcases List.prefix_cons_iff.mp hq with rfl | ⟨t, rfl, ht⟩
          · rw [List.append_nil]; exact hp.safe (by decide)
          · rw [List.prefix_nil.mp ht]; exact this.safe (by decide)
        · refine tri_bind (tri_part (by decide) (and_mono hM took_mono) (by simp [plainEff])) fun _ => ?_
          exact tri_weak (tri_pure (by decide)) (fun _ h => h) fun a p h => by
            rw [h.1]; exact h.2.weak fun h => ⟨⟨Or.inr h.1.2, h.2 _ (by simp), h.1.1.2⟩, fun _ => h.1.1.1⟩

theorem tri_replace {e old} : Tri (S [73, 49, 50] fun p => Have old.isNone p ∧ Ready p) (replaceOld e old) (fun x => S [73, 49, 50, 84] fun p => Own p ∧ (x.1.isSome → .busy ∈ p)) := by
  cases old with
  | none => exact tri_weak (tri_pure (by decide)) (fun _ h => h) fun a p h => by rw [h.1]; exact (h.2.weak fun h => ⟨⟨Or.inl h.1.1, h.1.2, h.2⟩, by simp⟩).keys (by decide)
  | some c => exact tri_second

theorem Safe.serves {p} (h : Safe p) (hu : Up p) (ho : .lock ∈ p ∨ Took p) : Safe (p ++ [.serve]) := by
  obtain ⟨xs, h1, h2, h3⟩ := h.says
  have hy : bytes (p ++ [.serve]) = bytes p := by rw [bytes_append]; exact List.append_nil _
  refine ⟨⟨xs, by rw [hy]; exact h1, each_mono p _ h2, h3⟩, ?_, fun _ => ⟨up_mono _ _ hu, or_mono (mem_mono _) took_mono _ _ ho⟩, ?_, by rw [hy]; exact fun h0 => mem_mono _ _ _ (h.talk h0)⟩
  · intro h0
    rcases List.mem_append.mp h0 with h0 | h0
    · exact mem_mono _ _ _ (h.unlink h0)
    · simp at h0
  · rintro ⟨a, b, c, d, h0⟩
    rcases List.mem_append.mp h0 with h0 | h0
    · exact and_mono ready_mono (mem_mono .busy) _ _ (h.took ⟨a, b, c, d, h0⟩)
    · simp at h0

theorem tri_finish {e ts} {c : Option Chan} : Tri (S [73, 49, 50, 84] fun p => Own p ∧ (c.isSome → .busy ∈ p)) (finish e c ts) (fun _ _ => True) := by
  have hM : Mono fun p => Own p ∧ (c.isSome → .busy ∈ p) := and_mono own_mono fun p q h h0 => mem_mono _ _ _ (h h0)
  unfold finish
  refine tri_bind (tri_part (by decide) hM (by simp [plainEff])) fun _ => ?_
  refine tri_bind (R := fun _ => S [73, 49, 50, 84] fun p => (Up p ∧ (.lock ∈ p ∨ Took p)) ∧ (c.isSome → .busy ∈ p)) (tri_weak (tri_part (by decide) (fun p q h => ⟨hM p q h.1, fun x hx => mem_mono _ _ _ (h.2 x hx)⟩) (by simp [plainEff])) (fun _ h => h) fun a p h => h.weak ?_) fun _ => ?_
  · rintro ⟨⟨h1, h2⟩, h3⟩
    exact ⟨⟨⟨h1.1.2.2, h1.1.2.1, ⟨_, h2 _ (List.mem_singleton.mpr rfl)⟩, h3 _ (by simp), h3 _ (by simp)⟩, h1.1.1⟩, h1.2⟩
  · intro p hp
    refine ⟨?_, by cases c <;> simp⟩
    cases c with
    | none =>
      intro q hq
      rcases List.prefix_cons_iff.mp hq with rfl | ⟨t, rfl, ht⟩
      · rw [List.append_nil]; exact hp.safe (by decide)
      · rw [List.prefix_nil.mp ht]; exact (hp.safe (by decide)).serves hp.more.1.1 hp.more.1.2
    | some c =>
      intro q hq
      rcases ht : Ctl.txn c (msg 88 0 0) with ⟨r, c'⟩
      obtain ⟨x, hx, he⟩ := Ctl.txn_out ht
      simp only [ht] at hq
      have hs := hp.say (k := 88) he hx rfl rfl (by decide) (fun h => ⟨fun h0 => absurd h0 (show ¬ (88 : UInt8) = 50 by decide), fun h0 => absurd h0 (show ¬ (88 : UInt8) = 84 by decide), fun _ => h.1.1⟩) (fun h => h.2 rfl) (by decide)
      rcases pre_append hq with hq | ⟨t, rfl, hq1⟩
      · rcases prefix_said hq with rfl | rfl
        · rw [List.append_nil]; exact hp.safe (by decide)
        · exact hs
      · rcases List.prefix_cons_iff.mp hq1 with rfl | ⟨t, rfl, ht⟩
        · rw [List.append_nil]; exact hs
        · rw [List.prefix_nil.mp ht, ← List.append_assoc]
          exact hs.serves (up_mono _ _ hp.more.1.1) (or_mono (mem_mono _) took_mono _ _ hp.more.1.2)

theorem tri_main {e} : Tri (S [] fun _ => True) (main e) (fun _ _ => True) := by
  unfold main
  refine tri_bind (R := fun _ => S [] fun _ => True) ?_ fun _ => ?_
  · by_cases h : e.replace = true ∧ e.idem = true
    · rw [if_pos h]; exact tri_die' (by simp)
    · rw [if_neg h]; exact tri_weak (tri_pure (by simp)) (fun _ h => h) fun _ _ h => h.2
  refine tri_bind (R := fun _ => S [] fun _ => True) (tri_weak (tri_part (by simp) true_mono (by simp)) (fun _ h => h) fun _ _ h => h.weak And.left) fun _ => ?_
  cases e.check with
  | true =>
    rw [if_pos rfl]
    refine tri_bind (tri_part (by simp) true_mono (by simp [plainEff])) fun _ => ?_
    refine tri_bind (tri_part (by simp) (fun p q h => ⟨trivial, fun x hx => mem_mono _ _ _ (h.2 x hx)⟩) (by simp [plainEff])) fun _ => tri_die' (by simp)
  | false =>
    rw [if_neg (by simp)]
    refine tri_bind tri_first fun mine => tri_bind tri_join fun old => ?_
    have m0 := have_mono old.isNone
    refine tri_bind (R := fun _ => S [73, 49] fun p => Have old.isNone p ∧ .conf ∈ p) (tri_weak (tri_part (by decide) m0 (by simp [plainEff])) (fun _ h => h) fun _ _ h => h.weak fun h => ⟨h.1, h.2 _ (by simp)⟩) fun _ => ?_
    have m1 : Mono fun p => Have old.isNone p ∧ Eff.conf ∈ p := and_mono m0 (mem_mono _)
    refine tri_bind (R := fun _ => S [73, 49] fun p => (Have old.isNone p ∧ .conf ∈ p) ∧ .zones ∈ p) (tri_weak (tri_part (by decide) m1 (by simp [plainEff])) (fun _ h => h) fun _ _ h => h.weak fun h => ⟨h.1, h.2 _ (by simp)⟩) fun _ => ?_
    have m2 : Mono fun p => (Have old.isNone p ∧ Eff.conf ∈ p) ∧ Eff.zones ∈ p := and_mono m1 (mem_mono _)
    refine tri_bind (R := fun _ => S [73, 49] fun p => (Have old.isNone p ∧ .conf ∈ p) ∧ .zones ∈ p) (tri_weak (tri_part (by decide) m2 (by simp)) (fun _ h => h) fun _ _ h => h.weak And.left) fun _ => ?_
    refine tri_bind (R := fun _ => S [73, 49] fun p => Have old.isNone p ∧ Loaded p) (tri_weak (tri_part (by decide) m2 (by simp [plainEff])) (fun _ h => h) fun _ _ h => h.weak fun h => ⟨h.1.1.1, h.1.1.2, h.1.2, h.2 _ (by simp)⟩) fun _ => ?_
    refine tri_bind tri_challenge fun old => ?_
    refine tri_bind (R := fun _ => S [73, 49, 50] fun p => Have old.isNone p ∧ Ready p)
      (tri_weak (tri_part (by decide) (and_mono (have_mono _) loaded_mono) (by simp [plainEff])) (fun _ h => h) fun _ _ h => h.weak fun h => ⟨h.1.1, h.1.2, h.2 _ (by simp)⟩) fun _ => ?_
    exact tri_bind tri_replace fun x => tri_finish

theorem main_safe {e p} (h : p <+: (main e).1) : Safe p := by
  have h0 : S [] (fun _ => True) [] := ⟨⟨[], rfl, by intro m hm; simp at hm, by simp⟩, by simp, by simp, by rintro ⟨_, _, _, _, h⟩; simp at h, by simp [bytes], trivial⟩
  simpa using (tri_main [] h0).1 p h

end Gdnsd.Take
