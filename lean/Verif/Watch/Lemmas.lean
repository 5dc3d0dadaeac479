/-
Invariants of the watching of geoip's files (C105).
-/
import Verif.Watch.Spec
namespace Gdnsd.Watch
open WatchSpec

attribute [local irreducible] statWait allWait

variable {C : Type}

theorem set_same {s : St C} {f w} : (s.set f w).file f = w := if_pos rfl
theorem set_other {s : St C} {f g w} (h : g ≠ f) : (s.set f w).file g = s.file g := if_neg h

/-- What an event changes of one file. -/
theorem step_file {cfg : Cfg C} {s s' : St C} {e} (h : step cfg s e = .ok (some s')) (f : Bool) :
    (s'.now = s.now ∧ (s'.file f = s.file f ∨
      (∃ a c, e = .write f a c ∧ s'.file f = { s.file f with disk := some (a, c) }) ∨
      (∃ a c o, (s.file f).disk = some (a, c) ∧ s'.file f = { s.file f with disk := some ({ a with other := o }, c) } ∧ ¬ Quiet e) ∨
      (s'.file f = { s.file f with disk := none } ∧ ¬ Quiet e) ∨
      (e = .sample f ∧ cfg.path f = true ∧ s'.file f = look (s.file f)) ∨
      (∃ lag, e = .fire f lag ∧ (s.file f).pending = true ∧ s'.file f = changed s.now lag (s.file f)) ∨
      (∃ lag due, e = .expire f lag ∧ (s.file f).timer = some due ∧ due ≤ s.now ∧ s'.file f = (update (cfg.parse f) { s.file f with timer := none }).2))) ∨
    ∃ d, s'.now = s.now + d ∧ s'.file f = s.file f := by
  unfold step at h
  split at h
  · cases h
  · have key : ∀ g w, (s.set g w).now = s.now ∧ ((s.set g w).file f = s.file f ∨ (g = f ∧ (s.set g w).file f = w)) := by
      intro g w
      refine ⟨rfl, ?_⟩
      by_cases hg : f = g
      · subst hg; exact Or.inr ⟨rfl, set_same⟩
      · exact Or.inl (set_other hg)
    cases e with
    | tick d =>
      simp only [Outcome.ok.injEq, Option.some.injEq] at h
      subst h
      exact Or.inr ⟨d, rfl, rfl⟩
    | write g a c =>
      simp only [Outcome.ok.injEq, Option.some.injEq] at h
      subst h
      refine Or.inl ⟨rfl, ?_⟩
      rcases (key g { s.file g with disk := some (a, c) }).2 with h1 | ⟨rfl, h1⟩
      · exact Or.inl h1
      · exact Or.inr (Or.inl ⟨a, c, rfl, h1⟩)
    | chattr g o =>
      simp only [Outcome.ok.injEq] at h
      split at h
      · cases h
      · rename_i a c hd
        simp only [Option.some.injEq] at h
        subst h
        refine Or.inl ⟨rfl, ?_⟩
        rcases (key g { s.file g with disk := some ({ a with other := o }, c) }).2 with h1 | ⟨rfl, h1⟩
        · exact Or.inl h1
        · exact Or.inr (Or.inr (Or.inl ⟨a, c, o, hd, h1, fun h => h⟩))
    | remove g =>
      simp only [Outcome.ok.injEq, Option.some.injEq] at h
      subst h
      refine Or.inl ⟨rfl, ?_⟩
      rcases (key g { s.file g with disk := none }).2 with h1 | ⟨rfl, h1⟩
      · exact Or.inl h1
      · exact Or.inr (Or.inr (Or.inr (Or.inl ⟨h1, fun h => h⟩)))
    | sample g =>
      simp only [Outcome.ok.injEq] at h
      split at h
      · rename_i hp
        simp only [Option.some.injEq] at h
        subst h
        refine Or.inl ⟨rfl, ?_⟩
        rcases (key g (look (s.file g))).2 with h1 | ⟨rfl, h1⟩
        · exact Or.inl h1
        · exact Or.inr (Or.inr (Or.inr (Or.inr (Or.inl ⟨rfl, hp, h1⟩))))
      · cases h
    | fire g lag =>
      simp only [Outcome.ok.injEq] at h
      split at h
      · rename_i hp
        simp only [Option.some.injEq] at h
        subst h
        refine Or.inl ⟨rfl, ?_⟩
        rcases (key g (changed s.now lag (s.file g))).2 with h1 | ⟨rfl, h1⟩
        · exact Or.inl h1
        · exact Or.inr (Or.inr (Or.inr (Or.inr (Or.inr (Or.inl ⟨lag, rfl, hp, h1⟩)))))
      · cases h
    | expire g lag =>
      simp only [Outcome.ok.injEq] at h
      split at h
      · cases h
      · rename_i due hd
        split at h
        · rename_i hle
          simp only [Option.some.injEq] at h
          subst h
          refine Or.inl ?_
          have hr : (reload cfg s g lag).now = s.now ∧ (reload cfg s g lag).file = (s.set g (update (cfg.parse g) { s.file g with timer := none }).2).file := by
            unfold reload
            split <;> (rename_i w hu; rw [hu]; exact ⟨rfl, rfl⟩)
          refine ⟨hr.1, ?_⟩
          rw [hr.2]
          rcases (key g (update (cfg.parse g) { s.file g with timer := none }).2).2 with h1 | ⟨rfl, h1⟩
          · exact Or.inl h1
          · exact Or.inr (Or.inr (Or.inr (Or.inr (Or.inr (Or.inr ⟨lag, due, rfl, hd, hle, h1⟩)))))
        · cases h
    | expireTree =>
      dsimp only at h
      split at h
      · cases h
      · split at h
        · unfold publish assert at h
          split at h
          · simp only [Outcome.map, Outcome.bind, Outcome.ok.injEq, Option.some.injEq] at h
            subst h
            exact Or.inl ⟨rfl, Or.inl rfl⟩
          · cases h
        · cases h

theorem update_file (p : C → Parsed) (w : Watched C) :
    (update p w).2.disk = w.disk ∧ (update p w).2.attr = w.attr ∧ (update p w).2.prev = w.prev ∧ (update p w).2.pending = w.pending ∧ (update p w).2.timer = w.timer ∧
    (∀ a c, w.disk = some (a, c) → (update p w).2.tried = some c) ∧
    ((update p w).2.kept = w.kept ∨ ∃ c, p c = .good ∧ (update p w).2.kept = some c ∧ (update p w).2.tried = some c) ∧
    (w.disk = none → (update p w).2 = w) := by
  obtain ⟨disk, attr, prev, pending, timer, tried, kept⟩ := w
  cases disk with
  | none => exact ⟨rfl, rfl, rfl, rfl, rfl, fun a c h => (by cases h), Or.inl rfl, fun _ => rfl⟩
  | some x =>
    obtain ⟨a, c⟩ := x
    unfold update
    dsimp only
    cases hp : p c with
    | good => exact ⟨rfl, rfl, rfl, rfl, rfl, fun a' c' h => (by cases h; rfl), Or.inr ⟨c, hp, rfl, rfl⟩, fun h => (by cases h)⟩
    | bad => exact ⟨rfl, rfl, rfl, rfl, rfl, fun a' c' h => (by cases h; rfl), Or.inl rfl, fun h => (by cases h)⟩
    | fatal => exact ⟨rfl, rfl, rfl, rfl, rfl, fun a' c' h => (by cases h; rfl), Or.inl rfl, fun h => (by cases h)⟩

/-- A callback that will start the timer is to come. -/
def Told (w : Watched C) : Prop := w.pending = true ∧ trigger w.prev w.attr = true

/-- What holds of one file. -/
structure FInv (now : Nat) (w : Watched C) : Prop where
  past : ∀ a c, w.disk = some (a, c) → a.sec * 1000 ≤ now ∧ ∀ b, w.attr = some b → b.sec ≤ a.sec
  seen : ∀ b, w.attr = some b → b.sec * 1000 ≤ now
  fresh : ∀ a c, w.disk = some (a, c) → w.tried ≠ some c → w.attr = none ∨ (∃ b, w.attr = some b ∧ b.sec < a.sec) ∨ Told w ∨ ∃ due, w.timer = some due
  calm : ∀ b, w.attr = some b → Told w ∨ (∃ due, w.timer = some due ∧ (b.sec + 1) * 1000 ≤ due) ∨ (b.sec + 1) * 1000 ≤ now
  late : ∀ b due, w.attr = some b → w.timer = some due → Told w ∨ (b.sec + 1) * 1000 ≤ due ∨ (b.sec + 1) * 1000 ≤ now

theorem FInv.later {now d} {w : Watched C} (h : FInv now w) : FInv (now + d) w where
  past a c hd := ⟨by have := (h.past a c hd).1; omega, (h.past a c hd).2⟩
  seen b hb := by have := h.seen b hb; omega
  fresh := h.fresh
  calm b hb := by
    rcases h.calm b hb with h1 | h1 | h1
    · exact Or.inl h1
    · exact Or.inr (Or.inl h1)
    · exact Or.inr (Or.inr (by omega))
  late b due hb hd := by
    rcases h.late b due hb hd with h1 | h1 | h1
    · exact Or.inl h1
    · exact Or.inr (Or.inl h1)
    · exact Or.inr (Or.inr (by omega))

theorem fInv_write {now a c} {w : Watched C} (h : FInv now w) (hs : a.sec = now / 1000) : FInv now { w with disk := some (a, c) } where
  past a' c' hd := by
    simp only [Option.some.injEq, Prod.mk.injEq] at hd
    obtain ⟨rfl, rfl⟩ := hd
    refine ⟨by omega, fun b hb => ?_⟩
    have := h.seen b hb
    omega
  seen := h.seen
  fresh a' c' hd ht := by
    simp only [Option.some.injEq, Prod.mk.injEq] at hd
    obtain ⟨rfl, rfl⟩ := hd
    by_cases hn : w.attr = none
    · exact Or.inl hn
    · obtain ⟨b, hb⟩ : ∃ b, w.attr = some b := by cases hb : w.attr with | none => exact absurd hb hn | some b => exact ⟨b, rfl⟩
      have h1 := h.seen b hb
      by_cases hlt : b.sec < a.sec
      · exact Or.inr (Or.inl ⟨b, hb, hlt⟩)
      · rcases h.calm b hb with h2 | ⟨due, h2, _⟩ | h2
        · exact Or.inr (Or.inr (Or.inl h2))
        · exact Or.inr (Or.inr (Or.inr ⟨due, h2⟩))
        · rw [Nat.succ_mul] at h2
          omega
  calm := h.calm
  late := h.late

theorem fInv_chattr {now a c o} {w : Watched C} (h : FInv now w) (hd : w.disk = some (a, c)) : FInv now { w with disk := some ({ a with other := o }, c) } where
  past a' c' hd' := by
    simp only [Option.some.injEq, Prod.mk.injEq] at hd'
    obtain ⟨rfl, rfl⟩ := hd'
    exact h.past a c hd
  seen := h.seen
  fresh a' c' hd' ht := by
    simp only [Option.some.injEq, Prod.mk.injEq] at hd'
    obtain ⟨rfl, rfl⟩ := hd'
    exact h.fresh a c hd ht
  calm := h.calm
  late := h.late

theorem fInv_remove {now} {w : Watched C} (h : FInv now w) : FInv now { w with disk := none } where
  past a' c' hd' := by cases hd'
  seen := h.seen
  fresh a' c' hd' ht := by cases hd'
  calm := h.calm
  late := h.late

theorem fInv_look {now} {w : Watched C} (h : FInv now w) (hp : w.pending = false) : FInv now (look w) := by
  unfold look
  split
  · exact h
  · rename_i hne
    have nt : ¬ Told w := fun ht => by rw [Told, hp] at ht; cases ht.1
    have told : ∀ b, stat w.disk = some b → (∀ b0, w.attr = some b0 → b0.sec ≠ b.sec) → Told { w with prev := w.attr, attr := stat w.disk, pending := true } := by
      intro b hb h0
      refine ⟨rfl, ?_⟩
      show trigger w.attr (stat w.disk) = true
      rw [hb]
      cases ha : w.attr with
      | none => rfl
      | some b0 => simpa [trigger] using fun h1 => h0 b0 ha h1.symm
    have disk : ∀ b, stat w.disk = some b → ∃ c, w.disk = some (b, c) := by
      intro b hb
      cases hd : w.disk with
      | none => rw [hd] at hb; cases hb
      | some x => rw [hd] at hb; cases hb; exact ⟨x.2, rfl⟩
    refine ⟨fun a c hd => ⟨(h.past a c hd).1, fun b hb => ?_⟩, fun b hb => ?_, fun a c hd ht => ?_, fun b hb => ?_, fun b due hb hdue => ?_⟩
    · have hd : w.disk = some (a, c) := hd
      have hb : stat w.disk = some b := hb
      rw [hd] at hb; cases hb; exact Nat.le_refl _
    · obtain ⟨c, hd⟩ := disk b hb
      exact (h.past b c hd).1
    · have hd : w.disk = some (a, c) := hd
      have hb : stat w.disk = some a := by rw [hd]; rfl
      rcases h.fresh a c hd ht with h1 | ⟨b, h1, h2⟩ | h1 | h1
      · exact Or.inr (Or.inr (Or.inl (told a hb fun b0 h0 => by rw [h1] at h0; cases h0)))
      · exact Or.inr (Or.inr (Or.inl (told a hb fun b0 h0 => by rw [h1] at h0; cases h0; omega)))
      · exact absurd h1 nt
      · exact Or.inr (Or.inr (Or.inr h1))
    · by_cases hs : ∃ b0, w.attr = some b0 ∧ b0.sec = b.sec
      · obtain ⟨b0, h0, h1⟩ := hs
        rcases h.calm b0 h0 with h2 | h2 | h2
        · exact absurd h2 nt
        · rw [h1] at h2; exact Or.inr (Or.inl h2)
        · rw [h1] at h2; exact Or.inr (Or.inr h2)
      · exact Or.inl (told b hb fun b0 h0 h1 => hs ⟨b0, h0, h1⟩)
    · by_cases hs : ∃ b0, w.attr = some b0 ∧ b0.sec = b.sec
      · obtain ⟨b0, h0, h1⟩ := hs
        rcases h.late b0 due h0 hdue with h2 | h2 | h2
        · exact absurd h2 nt
        · rw [h1] at h2; exact Or.inr (Or.inl h2)
        · rw [h1] at h2; exact Or.inr (Or.inr h2)
      · exact Or.inl (told b hb fun b0 h0 h1 => hs ⟨b0, h0, h1⟩)

theorem due_late {x n l : Nat} (h : x * 1000 ≤ n) (hl : l ≤ 4000) : (x + 1) * 1000 ≤ n - l + statWait := by
  rw [Nat.succ_mul]
  unfold statWait
  generalize x * 1000 = y at h ⊢
  omega

theorem fInv_changed {now lag} {w : Watched C} (h : FInv now w) (hl : lag ≤ 4000) : FInv now (changed now lag w) := by
  unfold changed
  by_cases ht : trigger w.prev w.attr = true
  · rw [if_pos ht]
    have hdue : ∀ b, w.attr = some b → (b.sec + 1) * 1000 ≤ now - lag + statWait := by
      intro b hb
      exact due_late (h.seen b hb) hl
    generalize now - lag + statWait = t at hdue
    exact ⟨h.past, h.seen, fun a c hd hc => Or.inr (Or.inr (Or.inr ⟨t, rfl⟩)), fun b hb => Or.inr (Or.inl ⟨t, rfl, hdue b hb⟩),
      fun b due hb hd => by simp only [Option.some.injEq] at hd; rw [← hd]; exact Or.inr (Or.inl (hdue b hb))⟩
  · rw [if_neg ht]
    have nt : ¬ Told w := fun h1 => ht h1.2
    refine ⟨h.past, h.seen, fun a c hd hc => ?_, fun b hb => ?_, fun b due hb hd => ?_⟩
    · rcases h.fresh a c hd hc with h1 | h1 | h1 | h1
      · exact Or.inl h1
      · exact Or.inr (Or.inl h1)
      · exact absurd h1 nt
      · exact Or.inr (Or.inr (Or.inr h1))
    · rcases h.calm b hb with h1 | h1 | h1
      · exact absurd h1 nt
      · exact Or.inr (Or.inl h1)
      · exact Or.inr (Or.inr h1)
    · rcases h.late b due hb hd with h1 | h1
      · exact absurd h1 nt
      · exact Or.inr h1

theorem fInv_update {now due} {p : C → Parsed} {w : Watched C} (h : FInv now w) (hd : w.timer = some due) (hle : due ≤ now) : FInv now (update p { w with timer := none }).2 := by
  obtain ⟨h1, h2, h3, h4, h5, h6, _, _⟩ := update_file p { w with timer := none }
  have ht : Told w → Told (update p { w with timer := none }).2 := fun ht => by unfold Told; rw [h2, h3, h4]; exact ht
  refine ⟨fun a c hd => ?_, fun b hb => ?_, fun a c hd hc => ?_, fun b hb => ?_, fun b due' hb hd' => ?_⟩
  · rw [h1] at hd; rw [h2]; exact h.past a c hd
  · rw [h2] at hb; exact h.seen b hb
  · rw [h1] at hd; exact absurd (h6 a c hd) hc
  · rw [h2] at hb
    rcases h.late b due hb hd with h0 | h0 | h0
    · exact Or.inl (ht h0)
    · exact Or.inr (Or.inr (by omega))
    · exact Or.inr (Or.inr h0)
  · rw [h5] at hd'; cases hd'

theorem finv_step {cfg : Cfg C} {s s' : St C} {e} (h : step cfg s e = .ok (some s')) (hp : Prompt s e) {f} (hi : FInv s.now (s.file f)) : FInv s'.now (s'.file f) := by
  rcases step_file h f with ⟨hn, h1⟩ | ⟨d, hn, h1⟩
  · rw [hn]
    rcases h1 with h1 | ⟨a, c, rfl, h1⟩ | ⟨a, c, o, hd, h1, _⟩ | ⟨h1, _⟩ | ⟨rfl, _, h1⟩ | ⟨lag, rfl, _, h1⟩ | ⟨lag, due, rfl, hd, hle, h1⟩ <;> rw [h1]
    · exact hi
    · exact fInv_write hi hp
    · exact fInv_chattr hi hd
    · exact fInv_remove hi
    · exact fInv_look hi hp
    · exact fInv_changed hi hp
    · exact fInv_update hi hd hle
  · rw [hn, h1]; exact hi.later

/-- What holds of the whole, in any history. -/
structure GInv (cfg : Cfg C) (s : St C) : Prop where
  pend : s.pend = true ↔ s.tree ≠ none
  pub : s.pend = false → ∀ f, s.served f = (s.file f).kept
  good : ∀ f, cfg.path f = true → (∃ c, (s.file f).kept = some c ∧ cfg.parse f c = .good) ∧ ∃ c, s.served f = some c ∧ cfg.parse f c = .good
  stays : ∀ f, cfg.path f = false → s.served f = (s.file f).kept
  idle : ∀ f, cfg.path f = false → (s.file f).pending = false ∧ (s.file f).timer = none
  soon : ∀ f due, (s.file f).timer = some due → due ≤ s.now + statWait
  soonT : ∀ due, s.tree = some due → due ≤ s.now + allWait
  last : s.dead = false → ∀ f c, cfg.path f = true → (s.file f).tried = some c → cfg.parse f c = .good → (s.file f).kept = some c

theorem update_res {p : C → Parsed} {w : Watched C} :
    ((update p w).1 = .good → ∃ a c, w.disk = some (a, c) ∧ p c = .good ∧ (update p w).2.kept = some c ∧ (update p w).2.tried = some c) ∧
    ((update p w).1 ≠ .good → (update p w).2.kept = w.kept) ∧
    ((update p w).1 = .bad → (update p w).2.tried = w.tried ∨ ∃ c, (update p w).2.tried = some c ∧ p c = .bad) := by
  obtain ⟨disk, attr, prev, pending, timer, tried, kept⟩ := w
  cases disk with
  | none => exact ⟨fun h => (by cases h), fun _ => rfl, fun _ => Or.inl rfl⟩
  | some x =>
    obtain ⟨a, c⟩ := x
    unfold update
    dsimp only
    cases hp : p c with
    | good => exact ⟨fun _ => ⟨a, c, rfl, hp, rfl, rfl⟩, fun h => absurd rfl h, fun h => (by cases h)⟩
    | bad => exact ⟨fun h => (by cases h), fun _ => rfl, fun _ => Or.inr ⟨c, rfl, hp⟩⟩
    | fatal => exact ⟨fun h => (by cases h), fun _ => rfl, fun h => (by cases h)⟩

/-- What an event changes of the rest. -/
theorem step_rest {cfg : Cfg C} {s s' : St C} {e} (h : step cfg s e = .ok (some s')) :
    s.dead = false ∧
    ((s'.pend = s.pend ∧ s'.tree = s.tree ∧ s'.served = s.served ∧ s'.dead = false ∧ ∀ f, (s'.file f).kept = (s.file f).kept ∧ (s'.file f).tried = (s.file f).tried) ∨
     (∃ f lag due, e = .expire f lag ∧ (s.file f).timer = some due ∧ due ≤ s.now ∧ s' = reload cfg s f lag) ∨
     (e = .expireTree ∧ s.pend = true ∧ (∃ due, s.tree = some due ∧ due ≤ s.now) ∧ s' = { s with tree := none, pend := false, served := fun f => (s.file f).kept })) := by
  unfold step at h
  split at h
  · cases h
  · rename_i hdead
    have hdead : s.dead = false := by simpa using hdead
    refine ⟨hdead, ?_⟩
    have key : ∀ g w, w.kept = (s.file g).kept → w.tried = (s.file g).tried → s' = s.set g w →
        s'.pend = s.pend ∧ s'.tree = s.tree ∧ s'.served = s.served ∧ s'.dead = false ∧ ∀ f, (s'.file f).kept = (s.file f).kept ∧ (s'.file f).tried = (s.file f).tried := by
      intro g w h1 h2 h3
      subst h3
      refine ⟨rfl, rfl, rfl, hdead, fun f => ?_⟩
      by_cases hg : f = g
      · subst hg; rw [set_same]; exact ⟨h1, h2⟩
      · rw [set_other hg]; exact ⟨rfl, rfl⟩
    cases e with
    | tick d =>
      simp only [Outcome.ok.injEq, Option.some.injEq] at h
      subst h
      exact Or.inl ⟨rfl, rfl, rfl, hdead, fun f => ⟨rfl, rfl⟩⟩
    | write g o c =>
      simp only [Outcome.ok.injEq, Option.some.injEq] at h
      exact Or.inl (key g _ (by rfl) (by rfl) h.symm)
    | chattr g o =>
      simp only [Outcome.ok.injEq] at h
      split at h
      · cases h
      · simp only [Option.some.injEq] at h
        exact Or.inl (key g _ (by rfl) (by rfl) h.symm)
    | remove g =>
      simp only [Outcome.ok.injEq, Option.some.injEq] at h
      exact Or.inl (key g _ (by rfl) (by rfl) h.symm)
    | sample g =>
      simp only [Outcome.ok.injEq] at h
      split at h
      · simp only [Option.some.injEq] at h
        exact Or.inl (key g _ (by unfold look; split <;> rfl) (by unfold look; split <;> rfl) h.symm)
      · cases h
    | fire g lag =>
      simp only [Outcome.ok.injEq] at h
      split at h
      · simp only [Option.some.injEq] at h
        exact Or.inl (key g _ (by unfold changed; split <;> rfl) (by unfold changed; split <;> rfl) h.symm)
      · cases h
    | expire g lag =>
      simp only [Outcome.ok.injEq] at h
      split at h
      · cases h
      · rename_i due hd
        split at h
        · rename_i hle
          simp only [Option.some.injEq] at h
          exact Or.inr (Or.inl ⟨g, lag, due, rfl, hd, hle, h.symm⟩)
        · cases h
    | expireTree =>
      dsimp only at h
      split at h
      · cases h
      · rename_i due hd
        split at h
        · rename_i hle
          unfold publish assert at h
          split at h
          · rename_i hp
            simp only [Outcome.map, Outcome.bind, Outcome.ok.injEq, Option.some.injEq] at h
            exact Or.inr (Or.inr ⟨rfl, hp, ⟨due, hd, hle⟩, h.symm⟩)
          · cases h
        · cases h

theorem step_fire {cfg : Cfg C} {s s' : St C} {f lag} (h : step cfg s (.fire f lag) = .ok (some s')) : (s.file f).pending = true := by
  unfold step at h
  split at h
  · cases h
  · simp only [Outcome.ok.injEq] at h
    split at h
    · assumption
    · cases h

theorem step_expire {cfg : Cfg C} {s s' : St C} {f lag} (h : step cfg s (.expire f lag) = .ok (some s')) : s' = reload cfg s f lag := by
  unfold step at h
  split at h
  · cases h
  · simp only [Outcome.ok.injEq] at h
    split at h
    · cases h
    · split at h
      · exact (Option.some.inj h).symm
      · cases h

/-- The timers of a file after an event. -/
theorem step_timer {cfg : Cfg C} {s s' : St C} {e} (h : step cfg s e = .ok (some s')) {f due} (ht : (s'.file f).timer = some due) :
    (s.file f).timer = some due ∨ (due ≤ s.now + statWait ∧ (s.file f).pending = true) := by
  rcases step_file h f with ⟨_, h1⟩ | ⟨d, _, h1⟩
  · rcases h1 with h1 | ⟨a, c, rfl, h1⟩ | ⟨a, c, o, hd, h1, _⟩ | ⟨h1, _⟩ | ⟨rfl, _, h1⟩ | ⟨lag, rfl, hp, h1⟩ | ⟨lag, due', rfl, hd, hle, h1⟩ <;> rw [h1] at ht
    · exact Or.inl ht
    · exact Or.inl ht
    · exact Or.inl ht
    · exact Or.inl ht
    · unfold look at ht; split at ht <;> exact Or.inl ht
    · unfold changed at ht
      split at ht
      · simp only [Option.some.injEq] at ht
        exact Or.inr ⟨by omega, hp⟩
      · exact Or.inl ht
    · rw [(update_file _ _).2.2.2.2.1] at ht; cases ht
  · rw [h1] at ht; exact Or.inl ht

theorem step_now {cfg : Cfg C} {s s' : St C} {e} (h : step cfg s e = .ok (some s')) : s.now ≤ s'.now := by
  rcases step_file h false with ⟨h1, _⟩ | ⟨d, h1, _⟩ <;> omega

theorem step_idle {cfg : Cfg C} {s s' : St C} {e} (h : step cfg s e = .ok (some s')) {f} (hp : cfg.path f = false) (hi : (s.file f).pending = false ∧ (s.file f).timer = none) :
    (s'.file f).pending = false ∧ (s'.file f).timer = none := by
  rcases step_file h f with ⟨_, h1⟩ | ⟨d, _, h1⟩
  · rcases h1 with h1 | ⟨a, c, rfl, h1⟩ | ⟨a, c, o, hd, h1, _⟩ | ⟨h1, _⟩ | ⟨rfl, h0, h1⟩ | ⟨lag, rfl, h0, h1⟩ | ⟨lag, due', rfl, hd, hle, h1⟩
    · rw [h1]; exact hi
    · rw [h1]; exact hi
    · rw [h1]; exact hi
    · rw [h1]; exact hi
    · rw [hp] at h0; cases h0
    · rw [hi.1] at h0; cases h0
    · rw [hi.2] at hd; cases hd
  · rw [h1]; exact hi

theorem reload_eq {cfg : Cfg C} {s : St C} {f lag} :
    (reload cfg s f lag).file = (s.set f (update (cfg.parse f) { s.file f with timer := none }).2).file ∧ (reload cfg s f lag).served = s.served ∧ (reload cfg s f lag).now = s.now ∧
    ((update (cfg.parse f) { s.file f with timer := none }).1 = .good → (reload cfg s f lag).pend = true ∧ (reload cfg s f lag).tree = some (s.now - lag + allWait)) ∧
    ((update (cfg.parse f) { s.file f with timer := none }).1 ≠ .good → (reload cfg s f lag).pend = s.pend ∧ (reload cfg s f lag).tree = s.tree) ∧
    ((update (cfg.parse f) { s.file f with timer := none }).1 = .fatal → (reload cfg s f lag).dead = true) := by
  unfold reload
  generalize update (cfg.parse f) { s.file f with timer := none } = u
  obtain ⟨r, w⟩ := u
  cases r
  · exact ⟨rfl, rfl, rfl, fun _ => ⟨rfl, rfl⟩, fun h => absurd rfl h, fun h => (by cases h)⟩
  · exact ⟨rfl, rfl, rfl, fun h => (by cases h), fun _ => ⟨rfl, rfl⟩, fun h => (by cases h)⟩
  · exact ⟨rfl, rfl, rfl, fun h => (by cases h), fun _ => ⟨rfl, rfl⟩, fun _ => rfl⟩

theorem ginv_step {cfg : Cfg C} {s s' : St C} {e} (h : step cfg s e = .ok (some s')) (hi : GInv cfg s) : GInv cfg s' := by
  have hidle : ∀ f, cfg.path f = false → (s'.file f).pending = false ∧ (s'.file f).timer = none := fun f hf => step_idle h hf (hi.idle f hf)
  have hsoon : ∀ f due, (s'.file f).timer = some due → due ≤ s'.now + statWait := by
    intro f due hd
    have := step_now h
    rcases step_timer h hd with h1 | ⟨h1, _⟩
    · have := hi.soon f due h1; omega
    · omega
  obtain ⟨hdead, ⟨h1, h2, h3, h4, h5⟩ | ⟨f, lag, due, rfl, hd, hle, rfl⟩ | ⟨rfl, hp, ⟨due, hd, hle⟩, rfl⟩⟩ := step_rest h
  · refine ⟨by rw [h1, h2]; exact hi.pend, fun hp f => by rw [h3, (h5 f).1]; exact hi.pub (h1 ▸ hp) f, fun f hf => by rw [(h5 f).1, h3]; exact hi.good f hf,
      fun f hf => by rw [h3, (h5 f).1]; exact hi.stays f hf, hidle, hsoon, fun due hd => ?_, fun _ f c hf ht hg => ?_⟩
    · have := step_now h
      have := hi.soonT due (h2 ▸ hd)
      omega
    · rw [(h5 f).1]; exact hi.last hdead f c hf ((h5 f).2 ▸ ht) hg
  · obtain ⟨r1, r2, r3, r4, r5, r6⟩ := reload_eq (cfg := cfg) (s := s) (f := f) (lag := lag)
    obtain ⟨u1, u2, u3⟩ := update_res (p := cfg.parse f) (w := { s.file f with timer := none })
    have hpath : cfg.path f = true := by
      cases hp : cfg.path f with
      | true => rfl
      | false => have := (hi.idle f hp).2; rw [this] at hd; cases hd
    have hfile : ∀ g, (reload cfg s f lag).file g = if g = f then (update (cfg.parse f) { s.file f with timer := none }).2 else s.file g := fun g => by rw [r1]; rfl
    by_cases hg : (update (cfg.parse f) { s.file f with timer := none }).1 = .good
    · obtain ⟨a, c, hc1, hc2, hc3, hc4⟩ := u1 hg
      obtain ⟨g1, g2⟩ := r4 hg
      refine ⟨by rw [g1, g2]; simp, fun hp => (by rw [g1] at hp; cases hp), fun g hgp => ?_, fun g hgp => ?_, hidle, hsoon, fun due hd => ?_, fun _ g c' hgp ht hgood => ?_⟩
      · rw [r2, hfile]
        refine ⟨?_, (hi.good g hgp).2⟩
        split
        · rename_i hgf; subst hgf; exact ⟨c, hc3, hc2⟩
        · exact (hi.good g hgp).1
      · rw [r2, hfile]
        split
        · rename_i hgf; subst hgf; rw [hpath] at hgp; cases hgp
        · exact hi.stays g hgp
      · rw [g2] at hd; simp only [Option.some.injEq] at hd; rw [r3]; omega
      · rw [hfile] at ht ⊢
        split at ht
        · rename_i hgf
          rw [if_pos hgf]
          rw [hc4] at ht
          rw [hc3]; exact ht
        · rename_i hgf
          rw [if_neg hgf]
          exact hi.last hdead g c' hgp ht hgood
    · obtain ⟨g1, g2⟩ := r5 hg
      have hk := u2 hg
      have hkept : ∀ g, ((reload cfg s f lag).file g).kept = (s.file g).kept := by
        intro g
        rw [hfile]
        split
        · rename_i hgf; subst hgf; exact hk
        · rfl
      refine ⟨by rw [g1, g2]; exact hi.pend, fun hp g => by rw [r2, hkept]; exact hi.pub (g1 ▸ hp) g, fun g hgp => by rw [r2, hkept]; exact hi.good g hgp,
        fun g hgp => by rw [r2, hkept]; exact hi.stays g hgp, hidle, hsoon, fun due hd => by rw [r3]; exact hi.soonT due (g2 ▸ hd), fun hde g c' hgp ht hgood => ?_⟩
      rw [hkept]
      rw [hfile] at ht
      split at ht
      · rename_i hgf
        subst hgf
        cases hr : (update (cfg.parse g) { s.file g with timer := none }).1 with
        | good => exact absurd hr hg
        | fatal => have := r6 hr; rw [hde] at this; cases this
        | bad =>
          rcases u3 hr with h1 | ⟨c, h1, h2⟩
          · rw [h1] at ht; exact hi.last hdead g c' hgp ht hgood
          · rw [h1] at ht
            simp only [Option.some.injEq] at ht
            rw [← ht, h2] at hgood; cases hgood
      · exact hi.last hdead g c' hgp ht hgood
  · exact ⟨by simp, fun _ f => rfl, fun f hf => ⟨(hi.good f hf).1, (hi.good f hf).1⟩, fun f _ => rfl, hidle, hsoon, fun due hd => (by cases hd), fun hde => hi.last hde⟩

theorem ginv_init {cfg : Cfg C} {now loaded disk s0} (h : init cfg now loaded disk = some s0) : GInv cfg s0 := by
  unfold init at h
  split at h
  · rename_i hl
    simp only [Option.some.injEq] at h
    subst h
    have hg : ∀ f, cfg.path f = true → ∃ c, loaded f = some c ∧ cfg.parse f c = .good := by
      intro f hf
      have := hl f hf
      cases hc : loaded f with
      | none => rw [hc] at this; cases this
      | some c => rw [hc] at this; exact ⟨c, rfl, by simpa using this⟩
    exact ⟨by simp, fun _ f => rfl, fun f hf => ⟨hg f hf, hg f hf⟩, fun f _ => rfl, fun f _ => ⟨rfl, rfl⟩, fun f due hd => (by cases hd), fun due hd => (by cases hd),
      fun _ f c _ ht _ => ht⟩
  · cases h

theorem run_ginv {cfg : Cfg C} {s0 s : St C} (h0 : GInv cfg s0) (h : Run cfg s0 s) : GInv cfg s := by
  induction h with
  | init => exact h0
  | step _ hs ih => exact ginv_step hs ih

theorem prompt_run {cfg : Cfg C} {s0 s : St C} (h : PromptRun cfg s0 s) : Run cfg s0 s := by
  induction h with
  | init => exact .init
  | step _ _ hs ih => exact .step ih hs

theorem finv_init {cfg : Cfg C} {now loaded disk s0} (h : init cfg now loaded disk = some s0) {f} (hp : cfg.path f = true) (hf : Fresh now (loaded f) (disk f)) : FInv s0.now (s0.file f) := by
  unfold init at h
  split at h
  · simp only [Option.some.injEq] at h
    subst h
    dsimp only [start]
    rw [if_pos hp]
    cases hd : disk f with
    | none => exact ⟨fun a c h => (by cases h), fun b h => (by cases h), fun a c h => (by cases h), fun b h => (by cases h), fun b due h => (by cases h)⟩
    | some x =>
      obtain ⟨a, c⟩ := x
      rw [hd] at hf
      obtain ⟨h1, h2⟩ := hf
      have h3 := Nat.succ_mul a.sec 1000 ▸ h2
      refine ⟨fun a' c' h => ?_, fun b h => ?_, fun a' c' h ht => ?_, fun b h => ?_, fun b due h hd => (by cases hd)⟩
      · simp only [Option.some.injEq, Prod.mk.injEq] at h
        obtain ⟨rfl, rfl⟩ := h
        exact ⟨by exact Nat.le_trans (Nat.le_add_right _ _) h3, fun b hb => by cases hb; exact Nat.le_refl _⟩
      · cases h; exact Nat.le_trans (Nat.le_add_right _ _) h3
      · simp only [Option.some.injEq, Prod.mk.injEq] at h
        obtain ⟨rfl, rfl⟩ := h
        exact absurd h1 ht
      · cases h; exact Or.inr (Or.inr h2)
  · cases h

theorem run_finv {cfg : Cfg C} {s0 s : St C} {f} (h0 : FInv s0.now (s0.file f)) (h : PromptRun cfg s0 s) : FInv s.now (s.file f) := by
  induction h with
  | init => exact h0
  | step _ hp hs ih => exact finv_step hs hp ih

end Gdnsd.Watch
