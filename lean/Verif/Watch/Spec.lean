/-
What the watching of geoip's files should come to (C105).
-/
import Verif.Watch.Model
namespace Gdnsd.WatchSpec
open Watch (Ev St Cfg Watched Attr Parsed)

variable {C : Type}

/-- Events under which changes must be noticed: files that are written get the present time, libev's time is at most four seconds behind,
and what it saw of a file has been told before it looks again. -/
def Prompt (s : St C) : Ev C → Prop
  | .write _ a _ => a.sec = s.now / 1000
  | .sample f => (s.file f).pending = false
  | .fire _ lag => lag ≤ 4000
  | _ => True

/-- Any history of a map. -/
inductive Run (cfg : Cfg C) (s0 : St C) : St C → Prop
  | init : Run cfg s0 s0
  | step {s s' e} : Run cfg s0 s → Watch.step cfg s e = .ok (some s') → Run cfg s0 s'

/-- A history with events as above only. -/
inductive PromptRun (cfg : Cfg C) (s0 : St C) : St C → Prop
  | init : PromptRun cfg s0 s0
  | step {s s' e} : PromptRun cfg s0 s → Prompt s e → Watch.step cfg s e = .ok (some s') → PromptRun cfg s0 s'

/-- When the watchers were set up, each file was as it had been read, and not changed within the second. -/
def Fresh (now : Nat) (loaded : Option C) : Option (Attr × C) → Prop
  | none => True
  | some (a, c) => loaded = some c ∧ (a.sec + 1) * 1000 ≤ now

/-- libev has nothing to tell of a file, and no timer for it is active. -/
def Settled (s : St C) (f : Bool) : Prop := (s.file f).attr = Watch.stat (s.file f).disk ∧ (s.file f).pending = false ∧ (s.file f).timer = none

/-- Nothing is going on at all. -/
def AtRest (cfg : Cfg C) (s : St C) : Prop := (∀ f, cfg.path f = true → Settled s f) ∧ s.tree = none

/-- Steps in which nobody changes files. -/
def Quiet : Ev C → Prop
  | .write .. => False
  | .chattr .. => False
  | .remove .. => False
  | _ => True

/-- No timer is `L` late. -/
def Punctual (L : Nat) (s : St C) : Prop := (∀ f due, (s.file f).timer = some due → s.now ≤ due + L) ∧ ∀ due, s.tree = some due → s.now ≤ due + L

/-- Histories in which timers are set at most `L` behind. -/
inductive LagRun (cfg : Cfg C) (L : Nat) (s1 : St C) : St C → Prop
  | init : LagRun cfg L s1 s1
  | step {s s' e} : LagRun cfg L s1 s → (∀ f lag, e = .expire f lag → lag ≤ L) → Watch.step cfg s e = .ok (some s') → LagRun cfg L s1 s'

/-- Histories without changes of files from `s1` on. -/
inductive QuietRun (cfg : Cfg C) (L : Nat) (s1 : St C) : St C → Prop
  | init : Punctual L s1 → QuietRun cfg L s1 s1
  | step {s s' e} : QuietRun cfg L s1 s → Quiet e → Watch.step cfg s e = .ok (some s') → Punctual L s' → QuietRun cfg L s1 s'

end Gdnsd.WatchSpec
