/-
What the callback does that takes a request, for the theorems about answers.
-/
import Verif.Css.SafeLemmas
namespace Gdnsd.Css
open CssSpec

/-- The three ways a request can go. -/
theorem read_req {cfg s id r env s' m rest} (h : step cfg s (.read id r env) = .ok (s', .req id m :: rest)) :
    ∃ c, s.conn id = some c ∧ c.rOn = true ∧ c.st = .readingReq ∧ m.length = 8 ∧ (∃ b, r = .got b ∧ m = b.take 8) ∧
      ((∃ p, c.perm = some p ∧ allowed p (msgKey m) = false ∧ answer cfg (s.put id (some { c with rbuf := m, rOn := false, st := .waiting })) id 68 = .ok (s', rest)) ∨
       ((∀ p, c.perm = some p → allowed p (msgKey m) = true) ∧ msgKey m = 67 ∧
          ((¬ (msgV m = 0 ∨ 100 < msgV m ∨ msgD m = 0 ∨ 28400 < msgD m) ∧ s' = s.put id (some { c with rbuf := m, st := .readingData, done := 0, size := msgD m, data := some [] }) ∧ rest = []) ∨
           ((msgV m = 0 ∨ 100 < msgV m ∨ msgD m = 0 ∨ 28400 < msgD m) ∧ cleanup s id = .ok (s', rest)))) ∨
       ((∀ p, c.perm = some p → allowed p (msgKey m) = true) ∧ msgKey m ≠ 67 ∧ request cfg (s.put id (some { c with rbuf := m, rOn := false, st := .waiting })) id m env = .ok (s', rest))) := by
  have hclean : ∀ {s0 : Css} {i s1 l}, cleanup s0 i = .ok (s1, l) → ∀ m r, l ≠ .req id m :: r := by
    intro s0 i s1 l hcl m r
    obtain ⟨_, _, _, _, rfl⟩ := cleanup_ok hcl
    intro h0
    split at h0 <;> simp at h0
  simp only [step] at h
  split at h
  · cases h
  · next c hc =>
    split at h
    rotate_left
    · cases h
    next hon =>
    refine ⟨c, hc, hon, ?_⟩
    unfold readConn at h
    obtain ⟨_, h1, h⟩ := bind_ok h
    have h1 := assert_ok h1
    split at h
    · obtain ⟨_, _, h⟩ := bind_ok h
      exfalso
      unfold recvData at h
      split at h
      · cases h
      · obtain ⟨_, _, h⟩ := bind_ok h
        split at h
        · cases h
        · exact hclean h _ _ rfl
        · exact hclean h _ _ rfl
        · dsimp only at h
          split at h
          · split at h
            · obtain ⟨_, _, _, h2, _⟩ := answer_ok h
              simp at h2
            · obtain ⟨s1, l1, l2, h2, h3, h4⟩ := andThen_ok h
              obtain ⟨rfl, rfl⟩ := one_ok h2
              simp at h4
          · cases h
    · next hst =>
      have hst : c.st = .readingReq := by
        have h1 : c.st = .readingReq ∨ c.st = .readingData := by simpa using h1
        exact h1.resolve_right hst
      split at h
      · cases h
      · exact absurd rfl (hclean h _ _)
      · dsimp only at h
        split at h
        · exact absurd rfl (hclean h _ _)
        · next h8 =>
          obtain ⟨s1, l1, l2, h2, h3, h4⟩ := andThen_ok h
          obtain ⟨rfl, rfl⟩ := one_ok h2
          simp only [List.singleton_append, List.cons.injEq, Entry.req.injEq, true_and] at h4
          obtain ⟨rfl, rfl⟩ := h4
          refine ⟨hst, Classical.not_not.mp h8, ⟨_, rfl, rfl⟩, ?_⟩
          split at h3
          · next hp =>
            left
            cases hperm : c.perm with
            | none => simp [hperm] at hp
            | some p => exact ⟨p, rfl, by simpa [hperm] using hp, by rw [← hperm]; exact h3⟩
          · next hp =>
            right
            split at h3
            · next hk =>
              left
              refine ⟨permitted_of hp, hk, ?_⟩
              split at h3
              · next hb => exact Or.inr ⟨hb, h3⟩
              · next hb => obtain ⟨rfl, rfl⟩ := one_ok h3; exact Or.inl ⟨hb, rfl, rfl⟩
            · next hk => exact Or.inr ⟨permitted_of hp, hk, h3⟩

/-! ### The connection of a takeover -/

def tk1 (o : Option Nat) (e : Entry) : Option Nat :=
  match e with
  | .takeover id _ => some id
  | .close id => if o = some id then none else o
  | .died _ => none
  | _ => o

theorem taker_append {l l'} : taker (l ++ l') = l'.foldl tk1 (taker l) := by
  unfold taker; rw [List.foldl_append]; rfl

def Dm (s s' : Css) (l : List Entry) : Prop := s'.dmn = l.foldl tk1 s.dmn

theorem Dm.trans {s s1 s' l l'} (h : Dm s s1 l) (h' : Dm s1 s' l') : Dm s s' (l ++ l') := by
  unfold Dm at *; rw [List.foldl_append, ← h, h']

theorem Dm.of {s s1 s' : Css} {l : List Entry} (h : Dm s1 s' l) (h0 : s1.dmn = s.dmn) : Dm s s' l := by unfold Dm at *; rw [← h0]; exact h

theorem Dm.frame {s s' : Css} {l : List Entry} (h : s'.dmn = s.dmn) (hl : ∀ e ∈ l, ∀ o, tk1 o e = o) : Dm s s' l := by
  unfold Dm
  rw [h]
  generalize s.dmn = o
  induction l with
  | nil => rfl
  | cons e l ih => rw [List.foldl_cons, hl e (by simp)]; exact ih fun e he => hl e (by simp [he])

theorem respond_dm {cfg s id key v d data fds s' l} (h : respond cfg s id key v d data fds = .ok (s', l)) : Dm s s' l := by
  obtain ⟨c, _, _, hf, h⟩ := respond_ok h
  refine Dm.frame (by rw [hf]) ?_
  rcases h with ⟨b, _, _, rfl, _⟩ | ⟨_, _, _, _, rfl, _⟩ | ⟨_, _, rfl, _⟩ <;> simp [tk1]

theorem answer_dm {cfg s id key s' l} (h : answer cfg s id key = .ok (s', l)) : Dm s s' l := respond_dm h

theorem cleanup_dm {s id s' l} (h : cleanup s id = .ok (s', l)) : Dm s s' l := by
  obtain ⟨c, _, _, h1, rfl⟩ := cleanup_ok h
  unfold Dm
  have hk : (if s.dmn = some id ∧ s.pid ≠ 0 then [Entry.kill s.pid] else []).foldl tk1 s.dmn = s.dmn := by split <;> rfl
  rw [List.foldl_append, hk, h1]
  rfl

theorem blockingAck_dm {s id good r s' l} (h : blockingAck s id good = .ok (r, s', l)) : Dm s s' l := by
  obtain ⟨c, hc, h⟩ := bind_ok h
  obtain ⟨_, h1, h⟩ := bind_ok h
  dsimp only at h
  cases good with
  | true =>
    simp only [if_true, Outcome.ok.injEq, Prod.mk.injEq] at h
    obtain ⟨_, rfl, rfl⟩ := h
    exact Dm.frame rfl (by simp [tk1])
  | false =>
    simp only [Bool.false_eq_true, if_false] at h
    obtain ⟨⟨s1, l1⟩, h2, h⟩ := map_ok h
    simp only [Prod.mk.injEq] at h
    obtain ⟨_, rfl, rfl⟩ := h
    exact Dm.trans (l := [_]) (Dm.frame rfl (by simp [tk1])) (Dm.of (cleanup_dm h2) rfl)

theorem latrAll_dm {cfg s s' l} (h : latrAll cfg s = .ok (s', l)) : Dm s s' l := by
  obtain ⟨_, h1, rfl, _⟩ := latrAll_ok h
  refine Dm.frame (by rw [h1]) fun e he => ?_
  obtain ⟨i, _, rfl⟩ := List.mem_map.mp he
  intro o; rfl

theorem nofd_dm {s s' : Css} {b : Prop} [Decidable b] {id : Nat} (h : ((if b then (s.get id).map fun c => s.put id (some { c with fd := false }) else .ok s) : Outcome Css) = .ok s') : s'.dmn = s.dmn := by
  split at h
  · obtain ⟨c, _, rfl⟩ := map_ok h; rfl
  · simp only [Outcome.ok.injEq] at h; rw [h]

theorem request_dm {cfg s id m env s' l} (h : request cfg s id m env = .ok (s', l)) : Dm s s' l := by
  unfold request at h
  dsimp only at h
  split at h
  · exact Dm.of (respond_dm h) rfl
  split at h
  · unfold reqStop at h
    split at h
    · exact Dm.of (answer_dm h) rfl
    · obtain ⟨⟨ok, s1, e1⟩, h1, h⟩ := bind_ok h
      obtain ⟨s2, h2, h⟩ := bind_ok h
      have hb := blockingAck_dm h1
      have h2 := nofd_dm h2
      dsimp only at h h2
      have hs2 : Dm s s2 (.stop id :: e1) := by
        unfold Dm at hb ⊢
        rw [h2, hb]; rfl
      split at h
      · obtain ⟨rfl, rfl⟩ := one_ok h; exact hs2
      · obtain ⟨_, _, h⟩ := bind_ok h
        obtain ⟨⟨ok', s3, e3⟩, h3, h⟩ := bind_ok h
        obtain ⟨s4, h4, h⟩ := map_ok h
        have hb3 := blockingAck_dm h3
        have h4 := nofd_dm h4
        simp only [Prod.mk.injEq] at h
        obtain ⟨rfl, rfl⟩ := h
        refine Dm.trans hs2 ?_
        unfold Dm at hb3 ⊢
        rw [h4, hb3]
  split at h
  · exact Dm.of (respond_dm h) rfl
  split at h
  · exact Dm.of (respond_dm h) rfl
  split at h
  · unfold reqZrel at h
    split at h
    · exact Dm.of (answer_dm h) rfl
    · dsimp only at h
      split at h
      · obtain ⟨rfl, rfl⟩ := load_ok h
        exact Dm.frame rfl (by simp [tk1])
      · obtain ⟨rfl, rfl⟩ := one_ok h
        exact Dm.frame rfl (by simp)
  split at h
  · split at h
    · exact Dm.of (answer_dm h) rfl
    · obtain ⟨s1, l1, l2, h1, h2, rfl⟩ := andThen_ok h
      obtain ⟨rfl, rfl⟩ := one_ok h1
      exact Dm.trans (Dm.frame rfl (by simp [tk1])) (Dm.of (answer_dm h2) rfl)
  split at h
  · unfold reqRepl at h
    split at h
    · exact Dm.of (answer_dm h) rfl
    · obtain ⟨_, _, h⟩ := bind_ok h
      obtain ⟨_, _, h⟩ := bind_ok h
      obtain ⟨s1, l1, l2, h1, h2, rfl⟩ := andThen_ok h
      obtain ⟨rfl, rfl⟩ := one_ok h1
      refine Dm.trans (s1 := s1) (Dm.frame rfl (by simp [tk1])) ?_
      split at h2
      · exact Dm.of (answer_dm h2) rfl
      · exact Dm.of (latrAll_dm h2) rfl
  split at h
  · unfold reqTak1 at h
    split at h
    · exact Dm.of (answer_dm h) rfl
    · obtain ⟨_, _, h⟩ := bind_ok h
      obtain ⟨s1, l1, l2, h1, h2, rfl⟩ := andThen_ok h
      obtain ⟨rfl, rfl⟩ := one_ok h1
      obtain ⟨s3, l3, l4, h3, h4, rfl⟩ := andThen_ok h2
      exact Dm.trans (by unfold Dm; rfl) (Dm.trans (Dm.of (latrAll_dm h3) rfl) (Dm.of (answer_dm h4) rfl))
  split at h
  · unfold reqTak2 at h
    split at h
    · obtain ⟨s1, l1, l2, h1, h2, rfl⟩ := andThen_ok h
      exact Dm.trans (Dm.of (answer_dm h1) rfl) (Dm.of (cleanup_dm h2) rfl)
    · obtain ⟨s1, l1, l2, h1, h2, rfl⟩ := andThen_ok h
      obtain ⟨rfl, rfl⟩ := one_ok h1
      exact Dm.trans (Dm.frame rfl (by simp [tk1])) (Dm.of (respond_dm h2) rfl)
  split at h
  · unfold reqTake at h
    split at h
    · obtain ⟨s1, l1, l2, h1, h2, rfl⟩ := andThen_ok h
      exact Dm.trans (Dm.of (answer_dm h1) rfl) (Dm.of (cleanup_dm h2) rfl)
    · obtain ⟨_, _, h⟩ := bind_ok h
      exact Dm.of (respond_dm h) rfl
  · exact Dm.of (answer_dm h) rfl

theorem recvData_dm {cfg s id c r env s' l} (h : recvData cfg s id c r env = .ok (s', l)) : Dm s s' l := by
  unfold recvData at h
  split at h
  · cases h
  · obtain ⟨_, _, h⟩ := bind_ok h
    split at h
    · obtain ⟨rfl, rfl⟩ := one_ok h; exact Dm.frame rfl (by simp)
    · exact Dm.of (cleanup_dm h) rfl
    · exact Dm.of (cleanup_dm h) rfl
    · dsimp only at h
      split at h
      · split at h
        · exact Dm.of (answer_dm h) rfl
        · obtain ⟨s1, l1, l2, h1, h2, rfl⟩ := andThen_ok h
          obtain ⟨rfl, rfl⟩ := one_ok h1
          exact Dm.trans (Dm.frame rfl (by simp [tk1])) (Dm.of (answer_dm h2) rfl)
      · obtain ⟨rfl, rfl⟩ := one_ok h; exact Dm.frame rfl (by simp)

theorem readConn_dm {cfg s id c r env s' l} (h : readConn cfg s id c r env = .ok (s', l)) : Dm s s' l := by
  unfold readConn at h
  obtain ⟨_, _, h⟩ := bind_ok h
  split at h
  · obtain ⟨_, _, h⟩ := bind_ok h
    exact Dm.of (recvData_dm h) rfl
  · split at h
    · obtain ⟨rfl, rfl⟩ := one_ok h; exact Dm.frame rfl (by simp)
    · exact Dm.of (cleanup_dm h) rfl
    · dsimp only at h
      split at h
      · exact Dm.of (cleanup_dm h) rfl
      · obtain ⟨s1, l1, l2, h1, h2, rfl⟩ := andThen_ok h
        obtain ⟨rfl, rfl⟩ := one_ok h1
        refine Dm.trans (s1 := s1) (Dm.frame rfl (by simp [tk1])) ?_
        split at h2
        · exact Dm.of (answer_dm h2) rfl
        · split at h2
          · split at h2
            · exact Dm.of (cleanup_dm h2) rfl
            · obtain ⟨rfl, rfl⟩ := one_ok h2; exact Dm.frame rfl (by simp)
          · exact Dm.of (request_dm h2) rfl

theorem write_dm {cfg s id c r s' l} (h : (if c.st = .writingData then writeData s id c r else writeResp cfg s id c r) = .ok (s', l)) : Dm s s' l := by
  have hone : ∀ {s1 : Css} {l1 : List Entry}, s1.dmn = s.dmn → (∀ e ∈ l1, ∃ b f, e = .out id b f) → Dm s s1 l1 := fun h1 h2 =>
    Dm.frame h1 fun e he o => by obtain ⟨b, f, rfl⟩ := h2 e he; rfl
  split at h
  · unfold writeData at h
    obtain ⟨_, _, h⟩ := bind_ok h
    split at h
    · cases h
    · obtain ⟨_, _, h⟩ := bind_ok h
      split at h
      · split at h
        · obtain ⟨rfl, rfl⟩ := one_ok h; exact hone rfl (by simp)
        · exact Dm.of (cleanup_dm h) rfl
        · dsimp only at h
          split at h <;> obtain ⟨rfl, rfl⟩ := one_ok h <;> exact hone rfl (by simp)
      · cases h
  · unfold writeResp at h
    obtain ⟨_, _, h⟩ := bind_ok h
    obtain ⟨_, _, h⟩ := bind_ok h
    split at h
    · obtain ⟨rfl, rfl⟩ := one_ok h; exact hone rfl (by simp)
    · exact Dm.of (cleanup_dm h) rfl
    · split at h
      · exact Dm.of (cleanup_dm h) rfl
      · split at h
        · dsimp only at h
          split at h <;> obtain ⟨rfl, rfl⟩ := one_ok h <;> exact hone rfl (by simp)
        · dsimp only at h
          split at h <;> obtain ⟨rfl, rfl⟩ := one_ok h <;> exact hone rfl (by simp)

theorem step_dm {cfg s e s' l} (h : step cfg s e = .ok (s', l)) : Dm s s' l := by
  have hsame : ∀ {s1 : Css} {l1 : List Entry}, (Outcome.ok (s, []) : Step) = .ok (s1, l1) → Dm s s1 l1 := fun h => by
    obtain ⟨rfl, rfl⟩ := one_ok h; exact Dm.frame rfl (by simp)
  cases e with
  | accept p =>
    simp only [step] at h
    split at h
    · obtain ⟨rfl, rfl⟩ := one_ok h; exact Dm.frame rfl (by simp [tk1])
    · exact hsame h
  | read id r env =>
    simp only [step] at h
    split at h
    · exact hsame h
    · split at h
      · exact Dm.of (readConn_dm h) rfl
      · exact hsame h
  | write id r =>
    simp only [step] at h
    split at h
    · exact hsame h
    · split at h
      · exact Dm.of (write_dm h) rfl
      · exact hsame h
  | tick alive =>
    simp only [step] at h
    split at h
    · unfold watch at h
      obtain ⟨_, _, h⟩ := bind_ok h
      split at h
      · exact hsame h
      · obtain ⟨s1, l1, l2, h1, ha, rfl⟩ := andThen_ok h
        obtain ⟨s2, l3, l4, h2, hb, rfl⟩ := andThen_ok ha
        obtain ⟨s3, l5, l6, h3, hd, rfl⟩ := andThen_ok hb
        obtain ⟨rfl, rfl⟩ := one_ok h1
        obtain ⟨rfl, rfl⟩ := one_ok hd
        unfold Dm
        have hnone : ∀ l : List Entry, (∀ e ∈ l, tk1 none e = none) → l.foldl tk1 none = none := by
          intro l hl
          induction l with
          | nil => rfl
          | cons e l ih => rw [List.foldl_cons, hl e (by simp)]; exact ih fun e he => hl e (by simp [he])
        show none = _
        rw [List.singleton_append, List.foldl_cons]
        refine (hnone _ ?_).symm
        intro e he
        rw [List.append_nil, List.mem_append] at he
        rcases he with he | he
        · split at h2
          · obtain ⟨_, _, _, rfl, _⟩ := answer_ok h2
            simp only [List.mem_singleton] at he; subst he; rfl
          · obtain ⟨_, rfl⟩ := one_ok h2; cases he
        · split at h3
          · obtain ⟨_, _, _, _, rfl⟩ := cleanup_ok h3
            rw [List.mem_append, List.mem_singleton] at he
            rcases he with he | rfl
            · split at he
              · simp only [List.mem_singleton] at he; subst he; rfl
              · cases he
            · simp [tk1]
          · obtain ⟨_, rfl⟩ := one_ok h3; cases he
    · exact hsame h
  | ended t =>
    simp only [step] at h
    split at h
    · exact hsame h
    · split at h
      · exact hsame h
      · obtain ⟨rfl, rfl⟩ := one_ok h; exact Dm.frame rfl (by simp)
  | async =>
    simp only [step] at h
    split at h
    · unfold reloadDone at h
      split at h
      · cases h
      · split at h
        · cases h
        · obtain ⟨s1, l1, l2, h1, ha, rfl⟩ := andThen_ok h
          obtain ⟨rfl, rfl⟩ := one_ok h1
          refine Dm.trans (Dm.frame (s' := { s with async := _, threads := _ }) rfl (by simp [tk1])) ?_
          unfold notify at ha
          dsimp only at ha
          obtain ⟨s1, l1, l2, h1, hb, rfl⟩ := andThen_ok ha
          obtain ⟨l3, rfl, _, hf, rfl, _⟩ := answers_ok h1
          refine Dm.trans (Dm.frame (s' := s1) (by rw [hf]) ?_) ?_
          · intro e he o
            simp only [List.nil_append, List.mem_map] at he
            obtain ⟨_, _, rfl⟩ := he
            rfl
          · split at hb
            · obtain ⟨rfl, rfl⟩ := load_ok hb; exact Dm.frame rfl (by simp [tk1])
            · obtain ⟨rfl, rfl⟩ := one_ok hb; exact Dm.frame rfl (by simp)
    · exact hsame h
  | signal =>
    simp only [step] at h
    split at h
    · exact hsame h
    · obtain ⟨rfl, rfl⟩ := one_ok h; exact Dm.frame rfl (by simp [tk1])

theorem run_taker {cfg s l} (h : Run cfg s l) : s.dmn = taker l := by
  induction h with
  | init => rfl
  | step _ _ _ hs ih => rw [taker_append, ← ih]; exact step_dm hs

end Gdnsd.Css
