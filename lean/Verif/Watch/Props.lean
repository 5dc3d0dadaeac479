/-
C105: changes of geoip's files are noticed and served.
-/
import Verif.Watch.Lemmas
import Verif.Gmap.Model
namespace Gdnsd.Watch
open WatchSpec

variable {C : Type}

attribute [local irreducible] statWait allWait

/-- In every history, no assertion fails, what is served of a watched file was read without error, and what is in the configuration stays. -/
theorem C105_safe {cfg : Cfg C} {now loaded disk s0 s} (h0 : init cfg now loaded disk = some s0) (h : Run cfg s0 s) :
    (∀ e, step cfg s e ≠ .ub) ∧ (∀ f, cfg.path f = true → ∃ c, s.served f = some c ∧ cfg.parse f c = .good) ∧ ∀ f, cfg.path f = false → s.served f = loaded f := by
  have g := run_ginv (ginv_init h0) h
  refine ⟨fun e hu => ?_, fun f hf => (g.good f hf).2, fun f hf => ?_⟩
  · unfold step at hu
    split at hu
    · cases hu
    · cases e <;> simp only [reduceCtorEq] at hu
      split at hu
      · cases hu
      · rename_i due hd
        split at hu
        · have hp : s.pend = true := g.pend.mpr (by rw [hd]; exact fun h => by cases h)
          unfold publish assert at hu
          rw [hp] at hu
          cases hu
        · cases hu
  · have hk : (s.file f).kept = loaded f := by
      clear g
      induction h with
      | init =>
        unfold init at h0
        split at h0
        · simp only [Option.some.injEq] at h0; subst h0; rfl
        · cases h0
      | @step s s' e hr hs ih =>
        obtain ⟨_, ⟨_, _, _, _, h5⟩ | ⟨f', lag, due, rfl, hd, _, rfl⟩ | ⟨rfl, _, _, rfl⟩⟩ := step_rest hs
        · rw [(h5 f).1]; exact ih
        · rw [(reload_eq (cfg := cfg) (s := s) (f := f') (lag := lag)).1]
          by_cases hff : f = f'
          · subst hff
            have := ((run_ginv (ginv_init h0) hr).idle f hf).2
            rw [this] at hd; cases hd
          · rw [set_other hff]; exact ih
        · exact ih
    rw [g.stays f hf, hk]

/-- Only what was in a file when it was read, or at the start, is ever served: what is read and not right changes nothing. -/
theorem C105_kept {cfg : Cfg C} {s s' : St C} {e} (h : step cfg s e = .ok (some s')) (f : Bool) :
    ((s'.file f).kept = (s.file f).kept ∨ ∃ lag a c, e = .expire f lag ∧ (s.file f).disk = some (a, c) ∧ cfg.parse f c = .good ∧ (s'.file f).kept = some c) ∧
    (s'.served = s.served ∨ e = .expireTree ∧ s'.served = fun f => (s.file f).kept) := by
  obtain ⟨_, ⟨_, _, h3, _, h5⟩ | ⟨f', lag, due, rfl, hd, _, rfl⟩ | ⟨rfl, _, _, rfl⟩⟩ := step_rest h
  · exact ⟨Or.inl (h5 f).1, Or.inl h3⟩
  · obtain ⟨r1, r2, _⟩ := reload_eq (cfg := cfg) (s := s) (f := f') (lag := lag)
    refine ⟨?_, Or.inl r2⟩
    rw [r1]
    by_cases hff : f = f'
    · subst hff
      rw [set_same]
      obtain ⟨u1, u2, _⟩ := update_res (p := cfg.parse f) (w := { s.file f with timer := none })
      by_cases hg : (update (cfg.parse f) { s.file f with timer := none }).1 = .good
      · obtain ⟨a, c, hc1, hc2, hc3, _⟩ := u1 hg
        exact Or.inr ⟨lag, a, c, rfl, hc1, hc2, hc3⟩
      · exact Or.inl (u2 hg)
    · rw [set_other hff]; exact Or.inl rfl
  · exact ⟨Or.inl rfl, Or.inr ⟨rfl, rfl⟩⟩

/-- The daemon lives on, unless a file is read whose contents `log_fatal` is for. -/
theorem C105_alive {cfg : Cfg C} {s s' : St C} {e} (h : step cfg s e = .ok (some s')) (hd : s'.dead = true) :
    ∃ f lag a c, e = .expire f lag ∧ (s.file f).disk = some (a, c) ∧ cfg.parse f c = .fatal := by
  obtain ⟨h0, ⟨_, _, _, h4, _⟩ | ⟨f, lag, due, rfl, _, _, rfl⟩ | ⟨rfl, _, _, rfl⟩⟩ := step_rest h
  · rw [h4] at hd; cases hd
  · refine ⟨f, lag, ?_⟩
    unfold reload update at hd
    dsimp only at hd
    cases hdisk : (s.file f).disk with
    | none =>
      rw [hdisk] at hd
      dsimp only [St.set] at hd
      rw [h0] at hd; cases hd
    | some x =>
      obtain ⟨a, c⟩ := x
      rw [hdisk] at hd
      dsimp only at hd
      cases hp : cfg.parse f c with
      | good => rw [hp] at hd; dsimp only [St.set] at hd; rw [h0] at hd; cases hd
      | bad => rw [hp] at hd; dsimp only [St.set] at hd; rw [h0] at hd; cases hd
      | fatal => exact ⟨a, c, rfl, rfl, hp⟩
  · dsimp only at hd; rw [h0] at hd; cases hd

/-- A file that is gone, or whose time is what it was, is not read because of that. -/
theorem C105_quiet {cfg : Cfg C} {s s' : St C} {f lag} (h : step cfg s (.fire f lag) = .ok (some s'))
    (hq : (s.file f).attr = none ∨ ∃ p a, (s.file f).prev = some p ∧ (s.file f).attr = some a ∧ a.sec = p.sec) : (s'.file f).timer = (s.file f).timer := by
  unfold step at h
  split at h
  · cases h
  · dsimp only at h
    split at h
    · cases h
      rw [set_same]
      unfold changed
      have : trigger (s.file f).prev (s.file f).attr = false := by
        rcases hq with hq | ⟨p, a, h1, h2, h3⟩
        · rw [hq]; cases (s.file f).prev <;> rfl
        · rw [h1, h2]; unfold trigger; simp [h3]
      rw [this]
      rfl
    · cases h

/-- **At rest.** When nothing is going on, each file that is right is the one that is served. -/
theorem C105_settles_partial {cfg : Cfg C} {now loaded disk s0 s} (h0 : init cfg now loaded disk = some s0) (hf : ∀ f, cfg.path f = true → Fresh now (loaded f) (disk f))
    (h : PromptRun cfg s0 s) (hr : AtRest cfg s) (hd : s.dead = false) {f a c} (hp : cfg.path f = true) (hdisk : (s.file f).disk = some (a, c)) (hg : cfg.parse f c = .good) : s.served f = some c := by
  have g := run_ginv (ginv_init h0) (prompt_run h)
  have i := run_finv (f := f) (finv_init h0 hp (hf f hp)) h
  obtain ⟨h1, h2, h3⟩ := hr.1 f hp
  have hpend : s.pend = false := by
    cases hb : s.pend with
    | false => rfl
    | true => exact absurd hr.2 (g.pend.mp hb)
  rw [g.pub hpend f]
  refine g.last hd f c hp ?_ hg
  refine Classical.byContradiction fun hc => ?_
  rcases i.fresh a c hdisk hc with h4 | ⟨b, h4, h5⟩ | h4 | ⟨due, h4⟩
  · rw [h1, hdisk] at h4; cases h4
  · rw [h1, hdisk] at h4; cases h4; exact Nat.lt_irrefl _ h5
  · rw [h4.1] at h2; cases h2
  · rw [h3] at h4; cases h4

/-- **In time.** If libev has looked at all files and told what it saw, nobody changes them any more, and no timer is more than `L` milliseconds late, then
twelve seconds and `2 L` later each file that is right is served. -/
theorem C105_served_partial {cfg : Cfg C} {now loaded disk s0 s1 s L} (h0 : init cfg now loaded disk = some s0) (hf : ∀ f, cfg.path f = true → Fresh now (loaded f) (disk f))
    (h : PromptRun cfg s0 s1) (hl : ∀ f, cfg.path f = true → (s1.file f).attr = stat (s1.file f).disk ∧ (s1.file f).pending = false) (hq : QuietRun cfg L s1 s) (ht : s1.now + (5000 + 7000 + 2 * L) < s.now) (hd : s.dead = false) :
    AtRest cfg s ∧ ∀ f a c, cfg.path f = true → (s1.file f).disk = some (a, c) → cfg.parse f c = .good → s.served f = some c := by
  have e1 : statWait = 5000 := by unfold statWait; rfl
  have e2 : allWait = 7000 := by unfold allWait; rfl
  have key : PromptRun cfg s0 s ∧ Punctual L s ∧ (∀ f, cfg.path f = true → (s.file f).attr = stat (s.file f).disk ∧ (s.file f).pending = false ∧ (s.file f).disk = (s1.file f).disk) ∧
      (∀ f due, (s.file f).timer = some due → due ≤ s1.now + statWait) ∧ ∀ due, s.tree = some due → due ≤ s1.now + (statWait + L + allWait) := by
    clear ht hd
    induction hq with
    | init hL =>
      have g := run_ginv (ginv_init h0) (prompt_run h)
      exact ⟨h, hL, fun f hp => ⟨(hl f hp).1, (hl f hp).2, rfl⟩, g.soon, fun due hd => by have := g.soonT due hd; omega⟩
    | @step s s' e _ hqe hs hL ih =>
      obtain ⟨i1, i2, i3, i4, i5⟩ := ih
      have g := run_ginv (ginv_init h0) (prompt_run i1)
      have hpend : ∀ f, (s.file f).pending = false := by
        intro f
        cases hp : cfg.path f with
        | true => exact (i3 f hp).2.1
        | false => exact (g.idle f hp).1
      have hprompt : Prompt s e := by
        cases e with
        | sample f => exact hpend f
        | fire f lag => have := step_fire hs; rw [hpend f] at this; cases this
        | write => exact hqe.elim
        | _ => trivial
      have hfile : ∀ f, cfg.path f = true → (s'.file f).attr = stat (s'.file f).disk ∧ (s'.file f).pending = false ∧ (s'.file f).disk = (s1.file f).disk := by
        intro f hp
        obtain ⟨j1, j2, j3⟩ := i3 f hp
        rcases step_file hs f with ⟨_, h1⟩ | ⟨d, _, h1⟩
        · rcases h1 with h1 | ⟨a, c, rfl, h1⟩ | ⟨a, c, o, hd, h1, h2⟩ | ⟨h1, h2⟩ | ⟨rfl, _, h1⟩ | ⟨lag, rfl, h2, h1⟩ | ⟨lag, due', rfl, hd, hle, h1⟩
          · rw [h1]; exact ⟨j1, j2, j3⟩
          · exact hqe.elim
          · exact absurd hqe h2
          · exact absurd hqe h2
          · rw [h1]; unfold look; rw [if_pos j1.symm]; exact ⟨j1, j2, j3⟩
          · rw [j2] at h2; cases h2
          · rw [h1]
            obtain ⟨u1, u2, _, u4, _⟩ := update_file (cfg.parse f) { s.file f with timer := none }
            rw [u1, u2, u4]; exact ⟨j1, j2, j3⟩
        · rw [h1]; exact ⟨j1, j2, j3⟩
      refine ⟨.step i1 hprompt hs, hL, hfile, fun f due hd => ?_, fun due hd => ?_⟩
      · rcases step_timer hs hd with h1 | ⟨_, h1⟩
        · exact i4 f due h1
        · rw [hpend f] at h1; cases h1
      · obtain ⟨_, ⟨_, h2, _⟩ | ⟨f, lag, due', rfl, hd', hle, rfl⟩ | ⟨rfl, _, _, rfl⟩⟩ := step_rest hs
        · exact i5 due (h2 ▸ hd)
        · obtain ⟨r1, r2, r3, r4, r5, r6⟩ := reload_eq (cfg := cfg) (s := s) (f := f) (lag := lag)
          have h1 := i2.1 f due' hd'
          have h2 := i4 f due' hd'
          by_cases hg : (update (cfg.parse f) { s.file f with timer := none }).1 = .good
          · rw [(r4 hg).2] at hd
            simp only [Option.some.injEq] at hd
            omega
          · exact i5 due ((r5 hg).2 ▸ hd)
        · cases hd
  obtain ⟨k1, k2, k3, k4, k5⟩ := key
  have hrest : AtRest cfg s := by
    refine ⟨fun f hp => ⟨(k3 f hp).1, (k3 f hp).2.1, ?_⟩, ?_⟩
    · cases htm : (s.file f).timer with
      | none => rfl
      | some due =>
        have := k4 f due htm
        have := k2.1 f due htm
        omega
    · cases htm : s.tree with
      | none => rfl
      | some due =>
        have := k5 due htm
        have := k2.2 due htm
        omega
  exact ⟨hrest, fun f a c hp hdisk hg => C105_settles_partial h0 hf k1 hrest hd hp ((k3 f hp).2.2.trans hdisk) hg⟩

/-- **Together.** What was read is served at the earliest seven seconds later, so that what is read of the other file in this time is served at the same time. -/
theorem C105_together {cfg : Cfg C} {s s1 s2 : St C} {f lag L a c} (h1 : step cfg s (.expire f lag) = .ok (some s1)) (hc : (s.file f).disk = some (a, c)) (hg : cfg.parse f c = .good) (hl : lag ≤ L) (h : LagRun cfg L s1 s2)
    (ht : s2.now < s.now - L + 7000) : s2.served = s.served := by
  have e2 : allWait = 7000 := by unfold allWait; rfl
  have hu : (update (cfg.parse f) { s.file f with timer := none }).1 = .good := by
    simp only [update, hc, hg]
  have hk : s1.tree = some (s.now - lag + 7000) := by
    have := (reload_eq (cfg := cfg) (s := s) (f := f) (lag := lag)).2.2.2.1 hu
    rw [step_expire h1, this.2, e2]
  have hs1 : s1.served = s.served ∧ s1.now = s.now := by
    have := reload_eq (cfg := cfg) (s := s) (f := f) (lag := lag)
    rw [step_expire h1]
    exact ⟨this.2.1, this.2.2.1⟩
  have key : s.now ≤ s2.now ∧ (s2.now < s.now - L + 7000 → s2.served = s.served ∧ ∃ due, s2.tree = some due ∧ s.now - L + 7000 ≤ due) := by
    clear ht
    induction h with
    | init => exact ⟨by omega, fun _ => ⟨hs1.1, _, hk, by omega⟩⟩
    | @step t t' e hr he hs ih =>
      obtain ⟨i1, i2⟩ := ih
      have hn := step_now hs
      refine ⟨by omega, fun hlt => ?_⟩
      obtain ⟨j1, due, j2, j3⟩ := i2 (by omega)
      obtain ⟨_, ⟨_, h2, h3, _⟩ | ⟨g, lag', due', rfl, hd', hle, rfl⟩ | ⟨rfl, _, ⟨due', hd', hle⟩, rfl⟩⟩ := step_rest hs
      · exact ⟨h3.trans j1, due, h2.trans j2, j3⟩
      · obtain ⟨r1, r2, r3, r4, r5, r6⟩ := reload_eq (cfg := cfg) (s := t) (f := g) (lag := lag')
        refine ⟨r2.trans j1, ?_⟩
        by_cases hg : (update (cfg.parse g) { t.file g with timer := none }).1 = .good
        · have := he g lag' rfl
          exact ⟨_, (r4 hg).2, by omega⟩
        · exact ⟨due, (r5 hg).2.trans j2, j3⟩
      · rw [j2] at hd'
        simp only [Option.some.injEq] at hd'
        have hlt : t.now < s.now - L + 7000 := hlt
        omega
  exact (key.2 ht).1

/-! ### Examples -/

def play (cfg : Cfg C) : St C → List (Ev C) → Option (St C)
  | s, [] => some s
  | s, e :: es => match step cfg s e with | .ok (some s') => play cfg s' es | _ => none

theorem play_run {cfg : Cfg C} {s0 s' : St C} : ∀ {es : List (Ev C)} {s : St C}, Run cfg s0 s → play cfg s es = some s' → Run cfg s0 s'
  | [], s, h, hp => by cases hp; exact h
  | e :: es, s, h, hp => by
    unfold play at hp
    split at hp
    · rename_i s1 hs; exact play_run (.step h hs) hp
    · cases hp

def promptly (s : St C) : Ev C → Bool
  | .write _ a _ => a.sec == s.now / 1000
  | .sample f => !(s.file f).pending
  | .fire _ lag => decide (lag ≤ 4000)
  | _ => true

def playPrompt (cfg : Cfg C) : St C → List (Ev C) → Option (St C)
  | s, [] => some s
  | s, e :: es => if promptly s e = true then match step cfg s e with | .ok (some s') => playPrompt cfg s' es | _ => none else none

theorem playPrompt_run {cfg : Cfg C} {s0 s' : St C} : ∀ {es : List (Ev C)} {s : St C}, PromptRun cfg s0 s → playPrompt cfg s es = some s' → PromptRun cfg s0 s'
  | [], s, h, hp => by cases hp; exact h
  | e :: es, s, h, hp => by
    unfold playPrompt at hp
    split at hp
    · rename_i hpr
      split at hp
      · rename_i s1 hs
        refine playPrompt_run (.step h ?_ hs) hp
        cases e <;> simp_all [promptly, Prompt]
      · cases hp
    · cases hp

/-- Contents are numbers: 0 is wrong, 99 is fatal. -/
def cfgEx : Cfg Nat := ⟨fun _ => true, fun _ c => if c = 0 then .bad else if c = 99 then .fatal else .good⟩

def loadedEx : Bool → Option Nat := fun f => if f = true then some 2 else some 1
def diskEx : Bool → Option (Attr × Nat) := fun f => if f = true then some (⟨3, 0⟩, 2) else some (⟨3, 0⟩, 1)
def s0Ex : St Nat := ⟨5000, fun f => start true (loadedEx f) (diskEx f), false, none, loadedEx, false⟩

theorem s0Ex_init : init cfgEx 5000 loadedEx diskEx = some s0Ex := by
  unfold init
  rw [if_pos (by intro f _; cases f <;> rfl)]
  rfl

theorem freshEx : ∀ f, cfgEx.path f = true → Fresh 5000 (loadedEx f) (diskEx f) := by
  intro f _
  cases f <;> exact ⟨rfl, by decide⟩

/-- The database is replaced, twice within a second; `nets` is replaced by something wrong. -/
def changesEx : List (Ev Nat) :=
  [.tick 5000, .write false ⟨10, 1⟩ 6, .sample false, .tick 500, .write false ⟨10, 2⟩ 7, .write true ⟨10, 1⟩ 0, .fire false 100, .sample false, .sample true, .fire false 0, .fire true 0]

def restEx : List (Ev Nat) := [.tick 5000, .expire false 0, .expire true 0, .tick 7000, .expireTree]

def seen (s : St Nat) (f : Bool) : Bool := decide ((s.file f).attr = stat (s.file f).disk ∧ (s.file f).pending = false)
def resting (s : St Nat) : Bool := s.tree.isNone && seen s false && seen s true && (s.file false).timer.isNone && (s.file true).timer.isNone

theorem resting_rest {s : St Nat} (h : resting s = true) : AtRest cfgEx s := by
  simp only [resting, seen, Bool.and_eq_true, Option.isNone_iff_eq_none, decide_eq_true_eq] at h
  refine ⟨fun f _ => ?_, h.1.1.1.1⟩
  cases f
  · exact ⟨h.1.1.1.2.1, h.1.1.1.2.2, h.1.2⟩
  · exact ⟨h.1.1.2.1, h.1.1.2.2, h.2⟩

theorem any_some {α : Type} {o : Option α} {b : α → Bool} (h : o.any b = true) : ∃ a, o = some a ∧ b a = true := by
  cases o with
  | none => cases h
  | some a => exact ⟨a, rfl, h⟩

example : ∃ s, PromptRun cfgEx s0Ex s ∧ AtRest cfgEx s ∧ s.dead = false ∧ (s.file false).disk = some (⟨10, 2⟩, 7) ∧ s.served false = some 7 ∧ (s.file true).disk = some (⟨10, 1⟩, 0) ∧ s.served true = some 2 := by
  obtain ⟨s, hs, hb⟩ := any_some (o := playPrompt cfgEx s0Ex (changesEx ++ restEx))
    (b := fun s => resting s && !s.dead && decide ((s.file false).disk = some (⟨10, 2⟩, 7) ∧ s.served false = some 7 ∧ (s.file true).disk = some (⟨10, 1⟩, 0) ∧ s.served true = some 2)) (by decide +kernel)
  simp only [Bool.and_eq_true, decide_eq_true_eq, Bool.not_eq_true'] at hb
  exact ⟨s, playPrompt_run .init hs, resting_rest hb.1.1, hb.1.2, hb.2⟩

/-- The hypotheses of `C105_together`: after a file was read. -/
example : ∃ s s1, step cfgEx s (.expire false 0) = .ok (some s1) ∧ (s.file false).disk = some (⟨10, 2⟩, 7) ∧ cfgEx.parse false 7 = .good := by
  obtain ⟨s, _, hb⟩ := any_some (o := play cfgEx s0Ex (changesEx ++ [.tick 5000]))
    (b := fun s => match step cfgEx s (.expire false 0) with | .ok (some _) => decide ((s.file false).disk = some (⟨10, 2⟩, 7)) | _ => false) (by decide +kernel)
  split at hb
  · rename_i s1 hs
    exact ⟨s, s1, hs, of_decide_eq_true hb, by decide +kernel⟩
  · cases hb

def punctual (L : Nat) (s : St Nat) : Bool := ((s.file false).timer.all fun d => decide (s.now ≤ d + L)) && ((s.file true).timer.all fun d => decide (s.now ≤ d + L)) && s.tree.all fun d => decide (s.now ≤ d + L)

theorem punctual_ok {L} {s : St Nat} (h : punctual L s = true) : Punctual L s := by
  simp only [punctual, Bool.and_eq_true] at h
  refine ⟨fun f due hd => ?_, fun due hd => ?_⟩
  · cases f
    · have := h.1.1; rw [hd] at this; simpa using this
    · have := h.1.2; rw [hd] at this; simpa using this
  · have := h.2; rw [hd] at this; simpa using this

def quietly : Ev Nat → Bool
  | .write .. => false
  | .chattr .. => false
  | .remove .. => false
  | _ => true

def playQuiet (L : Nat) : St Nat → List (Ev Nat) → Option (St Nat)
  | s, [] => some s
  | s, e :: es => if quietly e = true then match step cfgEx s e with | .ok (some s') => if punctual L s' = true then playQuiet L s' es else none | _ => none else none

theorem playQuiet_run {L} {s1 s' : St Nat} : ∀ {es : List (Ev Nat)} {s : St Nat}, QuietRun cfgEx L s1 s → playQuiet L s es = some s' → QuietRun cfgEx L s1 s'
  | [], s, h, hp => by cases hp; exact h
  | e :: es, s, h, hp => by
    unfold playQuiet at hp
    split at hp
    · rename_i hq
      split at hp
      · rename_i s1 hs
        split at hp
        · rename_i hpu
          refine playQuiet_run (.step h ?_ hs (punctual_ok hpu)) hp
          cases e <;> first | exact trivial | cases hq
        · cases hp
      · cases hp
    · cases hp

/-- A history as in `C105_served_partial`, with timers that are on time. -/
example : ∃ s1 s, PromptRun cfgEx s0Ex s1 ∧ seen s1 false = true ∧ seen s1 true = true ∧ QuietRun cfgEx 1000 s1 s ∧ s1.now + (5000 + 7000 + 2 * 1000) < s.now ∧ s.dead = false := by
  obtain ⟨s1, h1, hb⟩ := any_some (o := playPrompt cfgEx s0Ex changesEx)
    (b := fun s1 => seen s1 false && seen s1 true && punctual 1000 s1 && (playQuiet 1000 s1 (restEx ++ [.tick 3000])).any fun s => decide (s1.now + (5000 + 7000 + 2 * 1000) < s.now) && !s.dead) (by decide +kernel)
  simp only [Bool.and_eq_true] at hb
  obtain ⟨s, h2, hc⟩ := any_some hb.2
  simp only [Bool.and_eq_true, decide_eq_true_eq, Bool.not_eq_true'] at hc
  exact ⟨s1, s, playPrompt_run .init h1, hb.1.1.1, hb.1.1.2, playQuiet_run (.init (punctual_ok hb.1.2)) h2, hc.1, hc.2⟩

/-- The hypotheses of `C105_quiet`: a file is removed, the other gets another mode. -/
example : ∃ s s1, Run cfgEx s0Ex s ∧ step cfgEx s (.fire false 0) = .ok (some s1) ∧ (s.file false).attr = none := by
  obtain ⟨s, h, hb⟩ := any_some (o := play cfgEx s0Ex [.remove false, .sample false])
    (b := fun s => match step cfgEx s (.fire false 0) with | .ok (some _) => decide ((s.file false).attr = none) | _ => false) (by decide +kernel)
  split at hb
  · rename_i s1 hs
    exact ⟨s, s1, play_run .init h, hs, of_decide_eq_true hb⟩
  · cases hb

example : ∃ s s1, Run cfgEx s0Ex s ∧ step cfgEx s (.fire true 0) = .ok (some s1) ∧ (s.file true).prev.map Attr.sec = some 3 ∧ (s.file true).attr.map Attr.sec = some 3 := by
  obtain ⟨s, h, hb⟩ := any_some (o := play cfgEx s0Ex [.chattr true 9, .sample true])
    (b := fun s => match step cfgEx s (.fire true 0) with | .ok (some _) => decide ((s.file true).prev.map Attr.sec = some 3 ∧ (s.file true).attr.map Attr.sec = some 3) | _ => false) (by decide +kernel)
  split at hb
  · rename_i s1 hs
    exact ⟨s, s1, play_run .init h, hs, of_decide_eq_true hb⟩
  · cases hb

/-! ### What may go wrong -/

/-- A map at rest that does not serve the file there is. -/
def Stale (s : St Nat) : Prop := AtRest cfgEx s ∧ s.dead = false ∧ ∃ f a c, (s.file f).disk = some (a, c) ∧ cfgEx.parse f c = .good ∧ s.served f ≠ some c

def stale (s : St Nat) : Bool := resting s && !s.dead && match (s.file false).disk with | some (_, c) => decide (cfgEx.parse false c = .good ∧ s.served false ≠ some c) | none => false

theorem stale_ok {s} (h : stale s = true) : Stale s := by
  simp only [stale, Bool.and_eq_true, Bool.not_eq_true'] at h
  refine ⟨resting_rest h.1.1, h.1.2, ?_⟩
  have := h.2
  split at this
  · rename_i a c hd
    simp only [decide_eq_true_eq] at this
    exact ⟨false, a, c, hd, this⟩
  · cases this

theorem stale_run {es} (h : (play cfgEx s0Ex es).any stale = true) : ∃ s, Run cfgEx s0Ex s ∧ Stale s := by
  obtain ⟨s, h1, h2⟩ := any_some h
  exact ⟨s, play_run .init h1, stale_ok h2⟩

/-- **Not watched yet.** What changes after files were read and before their watchers are set up, goes unnoticed. -/
theorem C105_false_window : ∃ now loaded disk s0, init cfgEx now loaded disk = some s0 ∧ Stale s0 :=
  ⟨5000, loadedEx, fun f => if f = true then some (⟨3, 0⟩, 2) else some (⟨4, 0⟩, 7), ⟨5000, fun f => start true (loadedEx f) (if f = true then some (⟨3, 0⟩, 2) else some (⟨4, 0⟩, 7)), false, none, loadedEx, false⟩,
    by unfold init; rw [if_pos (by intro f _; cases f <;> rfl)]; rfl, stale_ok (by decide +kernel)⟩

/-- **Same second.** Only `st_mtime` counts, and only its seconds: a file that is replaced by one of the same second goes unnoticed. -/
theorem C105_false_mtime : ∃ s, Run cfgEx s0Ex s ∧ Stale s := stale_run (es := [.write false ⟨3, 1⟩ 7, .sample false, .fire false 0]) (by decide +kernel)

/-- **Twice before it is told.** libev keeps what it saw last but one; if it looks twice before the callback and the second change was not one of `st_mtime`,
then the first one goes unnoticed. -/
theorem C105_false_burst : ∃ s, Run cfgEx s0Ex s ∧ Stale s :=
  stale_run (es := [.tick 5000, .write false ⟨10, 1⟩ 7, .sample false, .chattr false 2, .sample false, .fire false 0]) (by decide +kernel)

/-- **Late.** If libev's time is five seconds behind, for instance because another map has been loaded meanwhile, then a file is read at once, and another change within the same
second goes unnoticed. -/
theorem C105_false_lag : ∃ s, Run cfgEx s0Ex s ∧ Stale s :=
  stale_run (es := [.tick 5000, .write false ⟨10, 1⟩ 6, .sample false, .fire false 5000, .expire false 0, .tick 500, .write false ⟨10, 2⟩ 7, .sample false, .fire false 0, .tick 7000, .expireTree]) (by decide +kernel)

/-- How `nets` is parsed (`Verif/Gmap`). -/
def parseNets (lib : Gmap.Lib) (names : List Bytes) (es : List (Vscf.Entry Vscf.Val)) : Parsed :=
  match Gmap.netsParse lib names es with
  | .ok (some (some _)) => .good
  | .ok (some none) => .bad
  | _ => .fatal

/-- **A typo ends the daemon.** A name that is not one of a datacenter, in a `nets` file that is changed while the daemon runs, is fatal, unlike other errors (libgdmaps/dclists.c:137-158). -/
theorem C105_false_fatal : ∃ (lib : Gmap.Lib) (names : List Bytes) (loaded bad : List (Vscf.Entry Vscf.Val)) (s0 s : St (List (Vscf.Entry Vscf.Val))),
    let cfg : Cfg (List (Vscf.Entry Vscf.Val)) := ⟨fun f => f, fun _ => parseNets lib names⟩
    init cfg 5000 (fun _ => some loaded) (fun f => if f = true then some (⟨3, 0⟩, loaded) else none) = some s0 ∧
    PromptRun cfg s0 s ∧ (s.file true).tried = some bad ∧ s.dead = true := by
  let lib : Gmap.Lib := ⟨fun _ => none, fun _ _ => some (.v4 [192, 0, 2, 0] 24), fun _ _ _ => false⟩
  let e : Bytes → List (Vscf.Entry Vscf.Val) := fun dc => [⟨[49, 47, 50], false, .simple dc dc⟩]
  let cfg : Cfg (List (Vscf.Entry Vscf.Val)) := ⟨fun f => f, fun _ => parseNets lib [[97]]⟩
  let s0 : St (List (Vscf.Entry Vscf.Val)) := ⟨5000, fun f => start f (some (e [97])) (if f = true then some (⟨3, 0⟩, e [97]) else none), false, none, fun _ => some (e [97]), false⟩
  have hg : parseNets lib [[97]] (e [97]) = .good := by decide +kernel
  obtain ⟨s, h1, h2⟩ := any_some (o := playPrompt cfg s0 [.tick 5000, .write true ⟨10, 1⟩ (e [98]), .sample true, .fire true 0, .tick 5000, .expire true 0])
    (b := fun s => s.dead && match (s.file true).tried with | some [⟨k, m, .simple x y⟩] => decide (k = [49, 47, 50] ∧ m = false ∧ x = [98] ∧ y = [98]) | _ => false) (by decide +kernel)
  refine ⟨lib, [[97]], e [97], e [98], s0, s, ?_, playPrompt_run .init h1, ?_, ?_⟩
  · show init cfg _ _ _ = _
    unfold init
    rw [if_pos (by intro f _; show some (parseNets lib [[97]] (e [97])) = _; rw [hg])]
  · simp only [Bool.and_eq_true] at h2
    have := h2.2
    split at this
    · rename_i k m x y hk
      simp only [decide_eq_true_eq] at this
      obtain ⟨rfl, rfl, rfl, rfl⟩ := this
      exact hk
    · cases this
  · simp only [Bool.and_eq_true] at h2
    exact h2.1

end Gdnsd.Watch
