/-
C81: a thread that serves datagrams stops when it is told to, and nothing waits for it.
-/
import Verif.Udp.Stop
namespace Gdnsd.Udp

/-! ### What is counted -/

/-- No other process sends the signal to this thread alone. -/
def NoTgkill (es : List Sig) : Prop := Sig.strayOwn ∉ es

/-- Steps of the thread in a history, and those that wait for datagrams for up to 257 milliseconds. -/
def moves : Th → List Sig → Nat
  | _, [] => 0
  | t, e :: es => (match e with
    | .move _ => 1
    | _ => 0) + (match t.step e with
    | some t' => moves t' es
    | none => 0)

def waits : Th → List Sig → Nat
  | _, [] => 0
  | t, e :: es => (match e with
    | .move _ => if t.pc = .recv then 1 else 0
    | _ => 0) + (match t.step e with
    | some t' => waits t' es
    | none => 0)

/-- Quiescent states that were passed. -/
def quiets : Th → List Sig → Nat
  | _, [] => 0
  | t, e :: es => (match e with
    | .move _ => if t.pc = .quiesce then 1 else 0
    | _ => 0) + (match t.step e with
    | some t' => quiets t' es
    | none => 0)

/-! ### Invariants -/

/-- The signal is blocked in `slow_idle_poll` only, where RCU does not wait for the thread. -/
structure Th.Inv (t : Th) : Prop where
  blocked : t.blocked = true ↔ t.pc = .check ∨ t.pc = .poll ∨ t.pc = .unblock
  rcu : t.rcu = false ↔ t.pc = .block ∨ t.pc = .check ∨ t.pc = .poll ∨ t.pc = .unblock ∨ t.pc = .online
  polled : t.pc = .poll → t.flag = false
  flag : t.flag = true → t.asked = true
  own : t.own = some true → t.asked = true
  done : t.pc = .done → t.flag = true

/-- If the main thread sent the signal, it waits or was delivered. -/
def Th.Told (t : Th) : Prop := t.own ≠ some false ∧ (t.asked = true → t.flag = true ∨ t.own = some true)

theorem inv_step {t t' : Th} {e : Sig} (h : t.Inv) (hs : t.step e = some t') : t'.Inv := by
  obtain ⟨h1, h2, h3, h4, h5, h6⟩ := h
  obtain ⟨pc, flag, blocked, own, other, rcu, asked⟩ := t
  cases e with
  | kill =>
    simp only [Th.step] at hs
    split at hs
    · cases hs
    · cases hs
      refine ⟨h1, h2, h3, fun _ => rfl, fun _ => rfl, h6⟩
  | stray => cases hs; exact ⟨h1, h2, h3, h4, h5, h6⟩
  | strayOwn =>
    cases hs
    refine ⟨h1, h2, h3, h4, fun h => h5 ?_, h6⟩
    cases own with
    | none => simp at h
    | some b => exact h
  | deliver =>
    simp only [Th.step] at hs
    split at hs
    · next hb =>
      cases hs
      refine ⟨h1, h2, fun hp => ?_, fun hf => ?_, by simp [Th.deliver], fun hp => ?_⟩
      · have := h1.mpr (Or.inr (Or.inl hp))
        rw [hb.1] at this; cases this
      · simp only [Th.deliver, Bool.or_eq_true, beq_iff_eq] at hf
        exact hf.elim h4 h5
      · have := h6 hp
        simp only at this
        simp [Th.deliver, this]
    · cases hs
  | move got =>
    have ho : (flag || own == some true) = true → asked = true := by
      simp only [Bool.or_eq_true, beq_iff_eq]
      exact fun h => h.elim h4 h5
    simp only at h1 h2 h3 h4 h5 h6 ho
    cases pc <;> simp only [Th.step] at hs
    · cases hs
      cases flag <;> exact ⟨by simpa using h1, by simpa using h2, by simp, h4, h5, by simp⟩
    · cases hs; exact ⟨by simpa using h1, by simpa using h2, by simp, h4, h5, by simp⟩
    · have hb : blocked = false := by simpa using h1
      subst hb
      cases got with
      | none => cases hs; exact ⟨by simp [Th.return, Th.deliver], by simpa [Th.return, Th.deliver] using h2, by simp [Th.return, Th.deliver], ho, by simp [Th.return, Th.deliver], by simp [Th.return, Th.deliver]⟩
      | some b =>
        cases b <;> cases hs <;> exact ⟨by simp [Th.return, Th.deliver], by simpa [Th.return, Th.deliver] using h2, by simp [Th.return, Th.deliver], ho, by simp [Th.return, Th.deliver], by simp [Th.return, Th.deliver]⟩
    · have hb : blocked = false := by simpa using h1
      subst hb
      cases hs
      exact ⟨by simp [Th.return, Th.deliver], by simpa [Th.return, Th.deliver] using h2, by simp [Th.return, Th.deliver], ho, by simp [Th.return, Th.deliver], by simp [Th.return, Th.deliver]⟩
    · cases hs; exact ⟨by simpa using h1, by simp, by simp, h4, h5, by simp⟩
    · cases hs; exact ⟨by simp, by simpa using h2, by simp, h4, h5, by simp⟩
    · cases hs
      cases flag <;> exact ⟨by simpa using h1, by simpa using h2, by simp, h4, h5, by simp⟩
    · have hq : ∀ x, x = some (({ pc := .unblock, flag := flag, blocked := false, own := own, other := other, rcu := rcu, asked := asked } : Th).return.reblock) →
          x = some t' → t'.Inv := by
        rintro x rfl hx
        cases hx
        exact ⟨by simp [Th.return, Th.deliver, Th.reblock], by simpa [Th.return, Th.deliver, Th.reblock] using h2, by simp [Th.return, Th.deliver, Th.reblock], ho,
          by simp [Th.return, Th.deliver, Th.reblock], by simp [Th.return, Th.deliver, Th.reblock]⟩
      cases got with
      | some b => exact hq _ rfl hs
      | none =>
        simp only at hs
        split at hs
        · exact hq _ rfl hs
        · cases hs
    · cases hs
      exact ⟨by simp [Th.return, Th.deliver], by simpa [Th.return, Th.deliver] using h2, by simp [Th.return, Th.deliver], ho, by simp [Th.return, Th.deliver], by simp [Th.return, Th.deliver]⟩
    · cases hs; exact ⟨by simpa using h1, by simp, by simp, h4, h5, by simp⟩
    · cases hs

theorem inv_run {t t' : Th} {es : List Sig} (h : t.Inv) (hs : t.run es = some t') : t'.Inv := by
  induction es generalizing t with
  | nil => cases hs; exact h
  | cons e es ih =>
    simp only [Th.run, Option.bind_eq_some_iff] at hs
    obtain ⟨t1, h1, h2⟩ := hs
    exact ih (inv_step h h1) h2

theorem inv_begin : Th.start.Inv := ⟨by simp [Th.start], by simp [Th.start], by simp [Th.start], by simp [Th.start], by simp [Th.start], by simp [Th.start]⟩

theorem told_deliver {t : Th} (h : t.Told) : t.deliver.Told := by
  obtain ⟨h1, h2⟩ := h
  refine ⟨by simp [Th.deliver], fun ha => Or.inl ?_⟩
  rcases h2 ha with h | h <;> simp [Th.deliver, h]

theorem told_return {t : Th} (h : t.Told) : t.return.Told := by
  unfold Th.return
  split
  · exact h
  · exact told_deliver h

theorem told_congr {t t' : Th} (h : t.Told) (h1 : t'.own = t.own) (h2 : t'.asked = t.asked) (h3 : t'.flag = t.flag) : t'.Told := by
  unfold Th.Told at *
  rw [h1, h2, h3]
  exact h

theorem told_step {t t' : Th} {e : Sig} (h : t.Told) (hne : e ≠ .strayOwn) (hs : t.step e = some t') : t'.Told := by
  cases e with
  | kill =>
    simp only [Th.step] at hs
    split at hs
    · cases hs
    · cases hs
      obtain ⟨h1, h2⟩ := h
      have : t.own.getD true = true := by
        cases ho : t.own with
        | none => rfl
        | some b => cases b with
          | true => rfl
          | false => exact absurd ho h1
      refine ⟨by simp [this], fun _ => Or.inr (by simp [this])⟩
  | stray => cases hs; exact h
  | strayOwn => exact absurd rfl hne
  | deliver =>
    simp only [Th.step] at hs
    split at hs
    · cases hs; exact told_deliver h
    · cases hs
  | move got =>
    simp only [Th.step] at hs
    split at hs
    · cases hs; exact told_congr h rfl rfl rfl
    · cases hs; exact told_congr h rfl rfl rfl
    · split at hs <;> cases hs <;> exact told_return (told_congr h rfl rfl rfl)
    · cases hs; exact told_return (told_congr h rfl rfl rfl)
    · cases hs; exact told_congr h rfl rfl rfl
    · cases hs; exact told_congr h rfl rfl rfl
    · cases hs; exact told_congr h rfl rfl rfl
    · split at hs
      · cases hs
        exact told_congr (told_return (t := { t with pc := .unblock, blocked := false }) (told_congr h rfl rfl rfl)) rfl rfl rfl
      · split at hs
        · cases hs
          exact told_congr (told_return (t := { t with pc := .unblock, blocked := false }) (told_congr h rfl rfl rfl)) rfl rfl rfl
        · cases hs
    · cases hs; exact told_return (told_congr h rfl rfl rfl)
    · cases hs; exact told_congr h rfl rfl rfl
    · cases hs

/-! ### Stopping -/

/-- How many steps a thread that was told to stop makes at most. -/
def Th.left (t : Th) : Nat :=
  if t.flag = true then
    match t.pc with
    | .top => 1 | .quiesce => 8 | .recv => 7 | .work => 2 | .offline => 6 | .block => 5 | .check => 4 | .poll => 4 | .unblock => 3 | .online => 2 | .done => 0
  else
    match t.pc with
    | .top => 10 | .quiesce => 9 | .recv => 8 | .work => 3 | .offline => 7 | .block => 6 | .check => 5 | .poll => 4 | .unblock => 3 | .online => 11 | .done => 0

/-- Whether it may still wait for datagrams. -/
def Th.mayWait (t : Th) : Nat :=
  if t.flag = true then (if t.pc = .quiesce ∨ t.pc = .recv then 1 else 0)
  else (if t.pc = .top ∨ t.pc = .quiesce ∨ t.pc = .recv ∨ t.pc = .online then 1 else 0)

def isMove : Sig → Nat
  | .move _ => 1
  | _ => 0

theorem left_step {t t' : Th} {e : Sig} (hi : t.Inv) (ht : t.Told) (ha : t.asked = true) (hne : e ≠ .strayOwn) (hs : t.step e = some t') :
    t'.asked = true ∧ t'.left + isMove e ≤ t.left ∧ t'.mayWait + (if t.pc = .recv then isMove e else 0) ≤ t.mayWait := by
  obtain ⟨h1, h2, h3, h4, h5, h6⟩ := hi
  obtain ⟨h7, h8⟩ := ht
  obtain ⟨pc, flag, blocked, own, other, rcu, asked⟩ := t
  simp only at ha h1 h2 h3 h4 h5 h6 h7 h8
  subst ha
  have h8 := h8 rfl
  have hd : (flag || own == some true) = true := by rcases h8 with h | h <;> simp [h]
  cases e with
  | kill =>
    simp only [Th.step] at hs
    split at hs
    · cases hs
    · cases hs
      exact ⟨rfl, Nat.le_refl _, by simp [Th.mayWait, isMove]⟩
  | stray => cases hs; exact ⟨rfl, Nat.le_refl _, by simp [Th.mayWait, isMove]⟩
  | strayOwn => exact absurd rfl hne
  | deliver =>
    simp only [Th.step] at hs
    split at hs
    · next hb =>
      cases hs
      refine ⟨rfl, ?_, ?_⟩
      · simp only [Th.left, Th.deliver, hd, if_true, isMove]
        cases flag <;> cases pc <;> simp
      · simp only [Th.mayWait, Th.deliver, hd, if_true, isMove]
        cases flag <;> cases pc <;> simp
    · cases hs
  | move got =>
    cases pc <;> simp only [Th.step] at hs
    · cases hs
      cases flag <;> exact ⟨rfl, by simp [Th.left, isMove], by simp [Th.mayWait]⟩
    · cases hs
      cases flag <;> exact ⟨rfl, by simp [Th.left, isMove], by simp [Th.mayWait]⟩
    · have hb : blocked = false := by simpa using h1
      subst hb
      cases got with
      | none =>
        cases hs
        refine ⟨rfl, ?_, ?_⟩
        · simp only [Th.left, Th.return, Bool.false_eq_true, if_false, Th.deliver, hd, if_true, isMove]
          cases flag <;> simp
        · simp only [Th.mayWait, Th.return, Bool.false_eq_true, if_false, Th.deliver, hd, if_true, isMove]
          cases flag <;> simp
      | some b =>
        cases b <;> cases hs <;> (
          refine ⟨rfl, ?_, ?_⟩
          · simp only [Th.left, Th.return, Bool.false_eq_true, if_false, Th.deliver, hd, if_true, isMove]
            cases flag <;> simp
          · simp only [Th.mayWait, Th.return, Bool.false_eq_true, if_false, Th.deliver, hd, if_true, isMove]
            cases flag <;> simp)
    · have hb : blocked = false := by simpa using h1
      subst hb
      cases hs
      refine ⟨rfl, ?_, ?_⟩
      · simp only [Th.left, Th.return, Bool.false_eq_true, if_false, Th.deliver, hd, if_true, isMove]
        cases flag <;> simp
      · simp only [Th.mayWait, Th.return, Bool.false_eq_true, if_false, Th.deliver, hd, if_true, isMove]
        cases flag <;> simp
    · cases hs
      cases flag <;> exact ⟨rfl, by simp [Th.left, isMove], by simp [Th.mayWait]⟩
    · cases hs
      cases flag <;> exact ⟨rfl, by simp [Th.left, isMove], by simp [Th.mayWait]⟩
    · cases hs
      cases flag <;> exact ⟨rfl, by simp [Th.left, isMove], by simp [Th.mayWait]⟩
    · have hq : ∀ x, x = some (({ pc := .unblock, flag := flag, blocked := false, own := own, other := other, rcu := rcu, asked := true } : Th).return.reblock) →
          x = some t' → t'.asked = true ∧ t'.left + isMove (.move got) ≤ Th.left ⟨.poll, flag, blocked, own, other, rcu, true⟩ ∧
            t'.mayWait + (if Pc.poll = Pc.recv then isMove (.move got) else 0) ≤ Th.mayWait ⟨.poll, flag, blocked, own, other, rcu, true⟩ := by
        rintro x rfl hx
        cases hx
        refine ⟨rfl, ?_, ?_⟩
        · simp only [Th.left, Th.return, Bool.false_eq_true, if_false, Th.deliver, Th.reblock, hd, if_true, isMove]
          cases flag <;> simp
        · simp only [Th.mayWait, Th.return, Bool.false_eq_true, if_false, Th.deliver, Th.reblock, hd, if_true, isMove]
          cases flag <;> simp
      cases got with
      | some b => exact hq _ rfl hs
      | none =>
        simp only at hs
        split at hs
        · exact hq _ rfl hs
        · cases hs
    · cases hs
      refine ⟨rfl, ?_, ?_⟩
      · simp only [Th.left, Th.return, Bool.false_eq_true, if_false, Th.deliver, hd, if_true, isMove]
        cases flag <;> simp
      · simp only [Th.mayWait, Th.return, Bool.false_eq_true, if_false, Th.deliver, hd, if_true, isMove]
        cases flag <;> simp
    · cases hs
      cases flag <;> exact ⟨rfl, by simp [Th.left, isMove], by simp [Th.mayWait]⟩
    · cases hs

theorem told_run {t t' : Th} {es : List Sig} (h : t.Told) (hn : NoTgkill es) (hs : t.run es = some t') : t'.Told := by
  induction es generalizing t with
  | nil => cases hs; exact h
  | cons e es ih =>
    simp only [Th.run, Option.bind_eq_some_iff] at hs
    obtain ⟨t1, h1, h2⟩ := hs
    simp only [NoTgkill, List.mem_cons, not_or] at hn
    exact ih (told_step h (fun he => hn.1 he.symm) h1) hn.2 h2

/-- Once the main thread has sent the signal, at whatever moment, the thread makes at most 11 steps, waits for
datagrams at most once (257 milliseconds), and is never stuck before it is done: the call that could wait
forever returns at once. Partial: no other process may send the signal to just this thread
(`C81_lost_signal`). -/
theorem C81_stop_partial {es : List Sig} {t : Th} (h : Th.start.run es = some t) (hn : NoTgkill es) (ha : t.asked = true) {es' : List Sig} {t' : Th}
    (h' : t.run es' = some t') (hn' : NoTgkill es') :
    moves t es' ≤ 11 ∧ waits t es' ≤ 1 ∧ (t'.pc = .done ∨ ∃ t'', t'.step (.move none) = some t'') := by
  have hi := inv_run inv_begin h
  have ht : t.Told := told_run ⟨by simp [Th.start], by simp [Th.start]⟩ hn h
  clear h hn es
  suffices moves t es' + t'.left ≤ t.left ∧ waits t es' + t'.mayWait ≤ t.mayWait ∧ t'.Inv ∧ t'.Told ∧ t'.asked = true by
    obtain ⟨h1, h2, h3, h4, h5⟩ := this
    have b1 : t.left ≤ 11 := by
      unfold Th.left
      split <;> split <;> omega
    have b2 : t.mayWait ≤ 1 := by
      unfold Th.mayWait
      split <;> split <;> omega
    refine ⟨by omega, by omega, ?_⟩
    obtain ⟨pc, flag, blocked, own, other, rcu, asked⟩ := t'
    cases pc <;> try exact Or.inr ⟨_, rfl⟩
    · have hf := h3.polled rfl
      rcases h4.2 h5 with h | h
      · simp only at h hf; rw [h] at hf; cases hf
      · simp only at h
        subst h
        exact Or.inr ⟨_, rfl⟩
    · exact Or.inl rfl
  induction es' generalizing t with
  | nil => cases h'; exact ⟨by simp [moves], by simp [waits], hi, ht, ha⟩
  | cons e es ih =>
    simp only [Th.run, Option.bind_eq_some_iff] at h'
    obtain ⟨t1, h1, h2⟩ := h'
    simp only [NoTgkill, List.mem_cons, not_or] at hn'
    have hne : e ≠ .strayOwn := fun he => hn'.1 he.symm
    obtain ⟨a, b, c⟩ := left_step hi ht ha hne h1
    obtain ⟨i1, i2, i3⟩ := ih a h2 hn'.2 (inv_step hi h1) (told_step ht hne h1)
    refine ⟨?_, ?_, i3⟩
    · simp only [moves, h1]
      cases e <;> simp only [isMove] at b ⊢ <;> omega
    · simp only [waits, h1]
      cases e <;> simp only [isMove] at c ⊢ <;> (try split at c) <;> simp_all <;> omega

/-- It stops for no other reason. -/
theorem C81_only {es : List Sig} {t : Th} (h : Th.start.run es = some t) (hd : t.pc = .done) : t.asked = true :=
  (inv_run inv_begin h).flag ((inv_run inv_begin h).done hd)

/-- While the thread handles requests, RCU waits for it; while it waits without end, RCU does not. -/
theorem C81_rcu {es : List Sig} {t : Th} (h : Th.start.run es = some t) : (t.pc = .work → t.rcu = true) ∧ (t.pc = .poll → t.rcu = false) := by
  have hi := (inv_run inv_begin h).rcu
  refine ⟨fun hp => ?_, fun hp => hi.mpr (by simp [hp])⟩
  cases hr : t.rcu with
  | true => rfl
  | false =>
    have := hi.mp hr
    simp [hp] at this

theorem quiet_step {t t1 : Th} {e : Sig} (h1 : t.step e = some t1) : (if t.pc = .recv then isMove e else 0) + (if t1.pc = .recv then 1 else 0) ≤
    (if t.pc = .quiesce then isMove e else 0) + (if t.pc = .recv then 1 else 0) := by
  obtain ⟨pc, flag, blocked, own, other, rcu, asked⟩ := t
  cases e with
  | kill =>
    simp only [Th.step] at h1
    split at h1
    · cases h1
    · cases h1; simp [isMove]
  | stray => cases h1; simp [isMove]
  | strayOwn => cases h1; simp [isMove]
  | deliver =>
    simp only [Th.step] at h1
    split at h1
    · cases h1; by_cases hp : pc = Pc.recv <;> simp [Th.deliver, isMove, hp]
    · cases h1
  | move got =>
    have hret : ∀ x : Th, x.return.pc = x.pc := by
      intro x; unfold Th.return Th.deliver; split <;> rfl
    cases pc <;> simp only [Th.step] at h1
    · cases h1; cases flag <;> simp [isMove]
    · cases h1; simp [isMove]
    · cases got with
      | none => cases h1; simp [hret, isMove]
      | some b => cases b <;> cases h1 <;> simp [hret, isMove]
    · cases h1; simp [hret, isMove]
    · cases h1; simp [isMove]
    · cases h1; simp [isMove]
    · cases h1; cases flag <;> simp [isMove]
    · have hq : ∀ x, x = some (({ pc := .unblock, flag := flag, blocked := false, own := own, other := other, rcu := rcu, asked := asked } : Th).return.reblock) →
          x = some t1 → t1.pc = .unblock := by
        rintro x rfl hx
        cases hx
        simp [Th.reblock, hret]
      have : t1.pc = .unblock := by
        cases got with
        | some b => exact hq _ rfl h1
        | none =>
          simp only at h1
          split at h1
          · exact hq _ rfl h1
          · cases h1
      simp [this, isMove]
    · cases h1; simp [hret, isMove]
    · cases h1; simp [isMove]
    · cases h1

/-- It passes a quiescent state before each wait for datagrams: data that was replaced is kept for one such
wait at most. -/
theorem C81_quiet {es : List Sig} {t : Th} (h : Th.start.run es = some t) {es' : List Sig} {t' : Th} (h' : t.run es' = some t') :
    waits t es' ≤ quiets t es' + 1 := by
  clear h
  suffices waits t es' + (if t'.pc = .recv then 1 else 0) ≤ quiets t es' + (if t.pc = .recv then 1 else 0) by
    split at this <;> split at this <;> omega
  induction es' generalizing t with
  | nil => cases h'; simp [waits, quiets]
  | cons e es ih =>
    simp only [Th.run, Option.bind_eq_some_iff] at h'
    obtain ⟨t1, h1, h2⟩ := h'
    have := ih h2
    simp only [waits, quiets, h1]
    have hq := quiet_step h1
    cases e <;> simp only [isMove, ite_self] at hq ⊢ <;> omega

/-- A signal that another process sends to the thread while it is blocked hides the signal of the main
thread: it waits for datagrams without end although it was told to stop, and the daemon waits for it. -/
theorem C81_lost_signal : ∃ es t, Th.start.run es = some t ∧ t.asked = true ∧ t.pc = .poll ∧ t.flag = false ∧ t.waiting = false ∧ t.step (.move none) = none :=
  ⟨[.move none, .move none, .move (some false), .move none, .move none, .strayOwn, .kill, .move none, .move none, .move none, .move none,
    .move none, .move none, .move (some false), .move none, .move none, .move none], ⟨.poll, false, true, none, false, false, true⟩,
    by decide +kernel⟩

/-! ### Examples -/

/-- The signal comes between the test of the flag and `ppoll`. -/
def lateKill : List Sig := [.move none, .move none, .move (some false), .move none, .move none, .move none, .kill]

example : Th.start.run lateKill = some ⟨.poll, false, true, some true, false, false, true⟩ ∧ NoTgkill lateKill ∧
    (Th.start.run (lateKill ++ [.move none, .stray, .move none, .move none, .move none])).map (·.pc) = some .done := by
  refine ⟨by decide, by unfold NoTgkill; decide, by decide⟩

end Gdnsd.Udp
