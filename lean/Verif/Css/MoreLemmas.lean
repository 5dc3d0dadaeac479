/-
More that holds in every run, from what a callback does to the daemon.
-/
import Verif.Css.EffLemmas
namespace Gdnsd.Css
open CssSpec

theorem Soft.of {s s' : Css} {l : List Entry} (h : Soft s s' l) : s'.active = s.active ∧ s'.queued = s.queued ∧ s'.pid = s.pid ∧ s'.timer = s.timer ∧ s'.running = s.running ∧
    s'.threads = s.threads ∧ s'.tid = s.tid ∧ s'.async = s.async := by
  rw [h.eq]; simp

/-! ### The end of the loop, and the timer -/

structure EndInv (s : Css) : Prop where
  pid : s.running = false → s.pid = 0
  timer : s.dmn ≠ none → s.running = true → s.timer = true

theorem EndInv.step {cfg s s' l} (h : EndInv s) (hr : s.running = true) (hE : Eff cfg s s' l) : EndInv s' := by
  cases hE with
  | soft hs =>
    obtain ⟨_, _, h3, h4, h5, _⟩ := hs.of
    refine ⟨by rw [h5, h3]; exact h.pid, ?_⟩
    rw [h5, h4]
    intro h6
    refine h.timer ?_
    rcases hs.dmn with h7 | h7
    · rwa [← h7]
    · exact absurd h7 h6
  | queue id m cn _ _ hs => subst hs; exact ⟨h.pid, h.timer⟩
  | start id m cn _ _ hs => subst hs; exact ⟨h.pid, h.timer⟩
  | taken cn p ct dm l1 e l2 hs => subst hs; exact ⟨fun h0 => (by rw [hr] at h0; cases h0), fun _ _ => rfl⟩
  | stop id l1 l2 hs => exact ⟨fun _ => by rw [hs], fun _ h0 => by rw [hs] at h0; cases h0⟩
  | died cn l2 _ hs => subst hs; exact ⟨fun _ => rfl, fun h0 => absurd rfl h0⟩
  | ended t x _ _ hs => subst hs; exact ⟨h.pid, h.timer⟩
  | joined x cn l2 _ _ _ _ hs => subst hs; exact ⟨h.pid, h.timer⟩
  | again x cn l2 _ _ _ _ hs => subst hs; exact ⟨h.pid, h.timer⟩
  | signal hp hs => subst hs; exact ⟨fun _ => hp, fun _ h0 => by cases h0⟩

theorem run_end {cfg s l} (h : Run cfg s l) : EndInv s := by
  induction h with
  | init => exact ⟨nofun, fun h => absurd rfl h⟩
  | step _ hr _ hs ih => exact ih.step hr (step_eff hs)

/-! ### How long a reload can take -/

def since (id : Nat) : List Entry → Nat := List.foldl (fun n e =>
  match e with
  | .req i _ => if i = id then 0 else n
  | .loaded _ _ => n + 1
  | _ => n) 0

def since1 (id n : Nat) (e : Entry) : Nat :=
  match e with
  | .req i _ => if i = id then 0 else n
  | .loaded _ _ => n + 1
  | _ => n

theorem since_append {id l l'} : since id (l ++ l') = l'.foldl (since1 id) (since id l) := by
  unfold since; rw [List.foldl_append]; rfl

theorem since_soft {id n} {l : List Entry} (h : ∀ e ∈ l, soft e = true) : l.foldl (since1 id) n ≤ n := by
  induction l generalizing n with
  | nil => exact Nat.le_refl _
  | cons e l ih =>
    rw [List.foldl_cons]
    refine Nat.le_trans (ih fun e' he' => h e' (by simp [he'])) ?_
    have := h e (by simp)
    cases e <;> simp_all [since1, soft]
    split <;> omega

theorem since_no {id n} {l : List Entry} (h : ∀ e ∈ l, turn e ≠ some id) : l.foldl (since1 id) n = n + (l.filter isLoaded).length := by
  induction l generalizing n with
  | nil => rfl
  | cons e l ih =>
    rw [List.foldl_cons, ih fun e' he' => h e' (by simp [he'])]
    have := h e (by simp)
    cases e <;> simp_all [since1, isLoaded, turn, List.filter_cons]
    omega

structure SinceInv (s : Css) (l : List Entry) : Prop where
  queued : ∀ id ∈ s.queued, since id l = 0
  active : ∀ id ∈ s.active, since id l ≤ 1

theorem SinceInv.step {cfg s l s' l'} (h : SinceInv s l) (hE : Eff cfg s s' l') (hq : s.active = [] → s.queued = []) : SinceInv s' (l ++ l') := by
  have hle : ∀ {id n} {l' : List Entry}, (∀ e ∈ l', soft e = true) → since id l ≤ n → since id (l ++ l') ≤ n := by
    intro id n l' h1 h2; rw [since_append]; exact Nat.le_trans (since_soft h1) h2
  have h0 : ∀ {id} {l' : List Entry}, (∀ e ∈ l', soft e = true) → since id l = 0 → since id (l ++ l') = 0 := by
    intro id l' h1 h2; exact Nat.le_zero.mp (hle h1 (Nat.le_of_eq h2))
  cases hE with
  | soft hs =>
    obtain ⟨h1, h2, _⟩ := hs.of
    exact ⟨fun id hid => h0 hs.log (h.queued id (by rwa [h2] at hid)), fun id hid => hle hs.log (h.active id (by rwa [h1] at hid))⟩
  | queue i m cn _ ha hs hl =>
    subst hs hl
    refine ⟨fun id hid => ?_, fun id hid => hle (by simp [soft]) (h.active id hid)⟩
    simp only [List.mem_append, List.mem_singleton] at hid
    rcases hid with hid | rfl
    · exact h0 (by simp [soft]) (h.queued id hid)
    · rw [since_append]; simp [since1]
  | start i m cn _ ha hs hl =>
    subst hs hl
    refine ⟨nofun, fun id hid => ?_⟩
    simp only [hq ha, List.nil_append, List.mem_singleton] at hid
    subst hid
    rw [since_append]; simp [since1]
  | taken cn p ct dm l1 e l2 hs => subst hs; exact ⟨nofun, nofun⟩
  | stop i l1 l2 hs hl hsf =>
    have h1 : s'.active = s.active := by rw [hs]
    have h2 : s'.queued = s.queued := by rw [hs]
    have hn : ∀ {id}, since id (l ++ l') ≤ since id l := by
      intro id
      rw [hl, since_append, List.foldl_append, List.foldl_cons]
      refine Nat.le_trans (since_soft fun e he => hsf e (by simp [he])) ?_
      exact since_soft fun e he => hsf e (by simp [he])
    exact ⟨fun id hid => Nat.le_zero.mp (Nat.le_trans hn (Nat.le_of_eq (h.queued id (by rwa [h2] at hid)))), fun id hid => Nat.le_trans hn (h.active id (by rwa [h1] at hid))⟩
  | died cn l2 _ hs hl hsf =>
    subst hs
    have hn : ∀ {id}, since id (l ++ l') ≤ since id l := by
      intro id
      rw [hl, since_append, List.foldl_cons]
      exact since_soft hsf
    exact ⟨fun id hid => Nat.le_zero.mp (Nat.le_trans hn (Nat.le_of_eq (h.queued id hid))), fun id hid => Nat.le_trans hn (h.active id hid)⟩
  | ended t x _ _ hs hl => subst hs hl; rw [List.append_nil]; exact ⟨h.queued, h.active⟩
  | joined x cn l2 _ _ _ _ hs => subst hs; exact ⟨nofun, nofun⟩
  | again x cn l2 _ _ _ _ hs hl hsf =>
    subst hs
    refine ⟨nofun, fun id hid => ?_⟩
    rw [hl, since_append, List.foldl_append, List.foldl_cons, h.queued id hid]
    exact since_soft hsf
  | signal hp hs hl => subst hs hl; exact ⟨fun id hid => by rw [since_append]; exact h.queued id hid, fun id hid => by rw [since_append]; exact h.active id hid⟩

theorem run_since {cfg s l} (h : Run cfg s l) : SinceInv s l := by
  induction h with
  | init => exact ⟨nofun, nofun⟩
  | step h0 hr _ hs ih => exact ih.step (step_eff hs) ((run_k h0).b hr).act

/-! ### Threads -/

structure ThreadsOk (s : Css) : Prop where
  others : ∀ t, t < s.tid → s.threads[t]? = some ⟨true, true⟩
  idle : s.active = [] → s.threads[s.tid]? = some ⟨true, true⟩ ∧ s.async = false
  busy : s.active ≠ [] → s.threads[s.tid]? = some ⟨s.async, false⟩

theorem ThreadsOk.step {cfg s l s' l'} (h : ThreadsOk s) (hb : BInv cfg none s l) (hE : Eff cfg s s' l') : Interrupted (l ++ l') ∨ ThreadsOk s' := by
  have hthr := hb.thr
  cases hE with
  | soft hs =>
    obtain ⟨h1, h2, h3, h4, h5, h6, h7, h8⟩ := hs.of
    right
    refine ⟨by rw [h7, h6]; exact h.others, by rw [h1, h7, h6, h8]; exact h.idle, by rw [h1, h7, h6, h8]; exact h.busy⟩
  | queue i m cn _ ha hs hl => subst hs; right; exact ⟨h.others, fun h0 => absurd h0 ha, h.busy⟩
  | start i m cn _ ha hs hl =>
    subst hs
    right
    obtain ⟨h1, h2⟩ := h.idle ha
    refine ⟨?_, fun h0 => by simp at h0, fun _ => by simp [h2]⟩
    intro t ht
    change t < s.threads.length at ht
    show (s.threads ++ _)[t]? = _
    rw [List.getElem?_append_left ht]
    by_cases htt : t = s.tid
    · rw [htt]; exact h1
    · exact h.others t (by omega)
  | taken cn p ct dm l1 e l2 hs he hl hsf =>
    subst hs
    by_cases ha : s.active = []
    · right; exact ⟨h.others, fun _ => h.idle ha, fun h0 => absurd rfl h0⟩
    · left
      have hbz := h.busy ha
      have htid : 1 ≤ s.tid := by
        obtain ⟨y, h10, h11⟩ := hb.thr0
        cases htd : s.tid with
        | zero => rw [htd, h10] at hbz; simp only [Option.some.injEq] at hbz; subst hbz; cases h11
        | succ n => omega
      refine ⟨l ++ l1, e, l2, s.tid, by simp [hl], ?_, ?_⟩
      · rcases he with he | ⟨id, rfl⟩
        · exact Or.inl he
        · exact Or.inr ⟨id, p, rfl⟩
      · refine ⟨List.mem_append_left _ ((hb.load s.tid).mpr ⟨htid, by omega⟩), fun f hf => ?_⟩
        rw [List.mem_append] at hf
        rcases hf with hf | hf
        · have := (hb.joined s.tid _ htid hbz).mpr ⟨f, hf⟩
          cases this
        · have := hsf _ (List.mem_append_left _ hf)
          cases this
  | stop i l1 l2 hs hl hsf =>
    right
    rw [hs]
    exact ⟨h.others, h.idle, h.busy⟩
  | died cn l2 _ hs hl hsf => subst hs; right; exact ⟨h.others, h.idle, h.busy⟩
  | ended t x hx he hs hl =>
    subst hs
    right
    have hlt := (List.getElem?_eq_some_iff.mp hx).1
    have htt : t = s.tid := by
      by_cases h1 : t < s.tid
      · rw [h.others t h1] at hx; simp only [Option.some.injEq] at hx; subst hx; cases he
      · omega
    subst htt
    have ha : s.active ≠ [] := by
      intro ha
      rw [(h.idle ha).1] at hx; simp only [Option.some.injEq] at hx; subst hx; cases he
    have hbz := h.busy ha
    rw [hx] at hbz; simp only [Option.some.injEq] at hbz; subst hbz
    refine ⟨?_, fun h0 => absurd h0 ha, fun _ => ?_⟩
    · intro u hu
      change u < s.tid at hu
      show (s.threads.set _ _)[u]? = _
      rw [List.getElem?_set_ne (by omega)]; exact h.others u hu
    · show (s.threads.set _ _)[s.tid]? = _
      rw [List.getElem?_set_self hlt]
  | joined x cn l2 hasy hx hj _ hs hl hsf =>
    subst hs
    right
    have hlt := (List.getElem?_eq_some_iff.mp hx).1
    have ha : s.active ≠ [] := by
      intro ha
      rw [(h.idle ha).1] at hx; simp only [Option.some.injEq] at hx; subst hx; cases hj
    have hbz := h.busy ha
    rw [hx] at hbz; simp only [Option.some.injEq] at hbz; subst hbz
    refine ⟨?_, fun _ => ?_, fun h0 => absurd rfl h0⟩
    · intro u hu
      change u < s.tid at hu
      show (s.threads.set _ _)[u]? = _
      rw [List.getElem?_set_ne (by omega)]; exact h.others u hu
    · refine ⟨?_, by simp [hasy]⟩
      show (s.threads.set _ _)[s.tid]? = _
      rw [List.getElem?_set_self hlt]
  | again x cn l2 hasy hx hj hq hs hl hsf =>
    subst hs
    right
    have hlt := (List.getElem?_eq_some_iff.mp hx).1
    have ha : s.active ≠ [] := by
      intro ha
      rw [(h.idle ha).1] at hx; simp only [Option.some.injEq] at hx; subst hx; cases hj
    have hbz := h.busy ha
    rw [hx] at hbz; simp only [Option.some.injEq] at hbz; subst hbz
    refine ⟨?_, fun h0 => absurd h0 hq, fun _ => ?_⟩
    · intro u hu
      change u < s.threads.length at hu
      show (s.threads.set _ _ ++ _)[u]? = _
      rw [List.getElem?_append_left (by simpa using hu)]
      by_cases hut : u = s.tid
      · subst hut; rw [List.getElem?_set_self hlt]
      · rw [List.getElem?_set_ne (fun h => hut h.symm)]; exact h.others u (by omega)
    · show (s.threads.set _ _ ++ _)[s.threads.length]? = _
      rw [List.getElem?_append_right (by simp)]
      simp [hasy]
  | signal hp hs hl => subst hs; right; exact ⟨h.others, h.idle, h.busy⟩

theorem interrupted_append {l l'} (h : Interrupted l) : Interrupted (l ++ l') := by
  obtain ⟨a, e, b, t, rfl, h1, h2⟩ := h
  exact ⟨a, e, b ++ l', t, by simp, h1, h2⟩

theorem run_threads {cfg s l} (h : Run cfg s l) : Interrupted l ∨ ThreadsOk s := by
  induction h with
  | init => right; exact ⟨fun t ht => absurd ht (Nat.not_lt_zero t), fun _ => ⟨rfl, rfl⟩, fun h => absurd rfl h⟩
  | step h0 hr _ hs ih =>
    rcases ih with ih | ih
    · exact Or.inl (interrupted_append ih)
    · exact ih.step ((run_k h0).b hr) (step_eff hs)

end Gdnsd.Css
