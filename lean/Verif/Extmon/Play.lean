/-
Executions of the helper and of the plugin from lists of events, for examples.
-/
import Verif.Extmon.DaemonSpec
namespace Gdnsd.Extmon

/-- `Event.Can`, as a test. -/
def Event.canB (h : Helper) : Event → Bool
  | .tick _ => true
  | .interval i pid => (match h.mons[i]? with | none => false | some m => match m.it with | none => false | some d => decide (d ≤ h.now)) && h.procs.all fun p => p.1 != pid
  | .timeout i => match h.mons[i]? with | none => false | some m => match m.ct with | none => false | some d => decide (d ≤ h.now)
  | .exit pid _ => h.procs.any fun p => p.1 == pid
  | .write _ => h.wOn
  | .term => true

theorem Event.can_of {h : Helper} {e : Event} (hb : e.canB h = true) : e.Can h := by
  cases e with
  | tick d => trivial
  | interval i pid =>
    unfold Event.canB at hb
    rw [Bool.and_eq_true] at hb
    refine ⟨?_, ?_⟩
    · cases hm : h.mons[i]? with
      | none => rw [hm] at hb; cases hb.1
      | some m =>
        rw [hm] at hb
        cases hd : m.it with
        | none => have := hb.1; dsimp only at this; rw [hd] at this; cases this
        | some d => have := hb.1; dsimp only at this; rw [hd] at this; exact ⟨m, d, rfl, hd, by simpa using this⟩
    · intro j hj
      have := List.all_eq_true.mp hb.2 _ hj
      simp at this
  | timeout i =>
    unfold Event.canB at hb
    dsimp only at hb
    cases hm : h.mons[i]? with
    | none => rw [hm] at hb; cases hb
    | some m =>
      rw [hm] at hb
      cases hd : m.ct with
      | none => dsimp only at hb; rw [hd] at hb; cases hb
      | some d => dsimp only at hb; rw [hd] at hb; exact ⟨m, d, hm, hd, by simpa using hb⟩
  | exit pid g =>
    obtain ⟨p, h1, h2⟩ := List.any_eq_true.mp (show (h.procs.any fun p => p.1 == pid) = true from hb)
    have : p.1 = pid := by simpa using h2
    exact ⟨p.2, by rw [← this]; exact h1⟩
  | write l => exact hb
  | term => trivial

def Event.timelyB (L : Nat) (h : Helper) : Event → Bool
  | .tick d => h.mons.all fun m => (match m.it with | none => true | some t => decide (h.now + d ≤ t + L)) && (match m.ct with | none => true | some t => decide (h.now + d ≤ t + L))
  | _ => true

theorem Event.timely_of {L : Nat} {h : Helper} {e : Event} (hb : e.timelyB L h = true) : e.Timely L h := by
  cases e with
  | tick d =>
    intro m hm
    have := List.all_eq_true.mp (show (h.mons.all _) = true from hb) m hm
    rw [Bool.and_eq_true] at this
    refine ⟨?_, ?_⟩
    · intro t ht; have := this.1; rw [ht] at this; simpa using this
    · intro t ht; have := this.2; rw [ht] at this; simpa using this
  | _ => trivial

def Event.reapedB (h : Helper) : Event → Bool
  | .interval i _ => h.procs.all fun p => p.2 != i
  | _ => true

theorem Event.reaped_of {h : Helper} {e : Event} (hb : e.reapedB h = true) : e.Reaped h := by
  cases e with
  | interval i pid =>
    intro p hp
    have := List.all_eq_true.mp (show (h.procs.all _) = true from hb) _ hp
    simp at this
  | _ => trivial

/-- Plays events that can happen and that pass a test. -/
def play (okB : Helper → Event → Bool) : Helper → List Entry → List Event → Option (Helper × List Entry)
  | h, log, [] => some (h, log)
  | h, log, e :: l =>
    if h.ended = false ∧ e.canB h = true ∧ okB h e = true then
      match h.step (fun _ => 0) e with
      | .ok (h', es) => play okB h' (es ++ log) l
      | .ub => none
    else none

theorem play_run {cmds : List Cmd} {ok : Helper → Event → Prop} {okB : Helper → Event → Bool} (hb : ∀ h e, okB h e = true → ok h e) (l : List Event) :
    ∀ {h : Helper} {log : List Entry} {h' : Helper} {log' : List Entry}, HRun cmds ok h log → play okB h log l = some (h', log') → HRun cmds ok h' log' := by
  induction l with
  | nil => intro h log h' log' r hp; cases hp; exact r
  | cons e l ih =>
    intro h log h' log' r hp
    unfold play at hp
    split at hp
    · rename_i hc
      cases hs : h.step (fun _ => 0) e with
      | ub => rw [hs] at hp; cases hp
      | ok p =>
        obtain ⟨h1, es⟩ := p
        rw [hs] at hp
        exact ih (.step (fun _ => 0) e r hc.1 (Event.can_of hc.2.1) (hb _ _ hc.2.2) hs) hp
    · cases hp

/-! ### The plugin -/

def DEvent.canB (d : Daemon) : DEvent → Bool
  | .tick _ => true
  | .read _ => d.readOn
  | .timeout i => match d.mons[i]? with | none => false | some m => match m.timer with | none => false | some t => decide (t ≤ d.now)
  | .start => d.initPhase && !d.readOn && d.mons.all fun m => m.timer.isNone

theorem DEvent.can_of {d : Daemon} {e : DEvent} (hb : e.canB d = true) : e.Can d := by
  cases e with
  | tick k => trivial
  | read l => exact hb
  | timeout i =>
    unfold DEvent.canB at hb
    dsimp only at hb
    cases hm : d.mons[i]? with
    | none => rw [hm] at hb; cases hb
    | some m =>
      rw [hm] at hb
      cases hd : m.timer with
      | none => dsimp only at hb; rw [hd] at hb; cases hb
      | some t => dsimp only at hb; rw [hd] at hb; exact ⟨m, t, hm, hd, by simpa using hb⟩
  | start =>
    unfold DEvent.canB at hb
    simp only [Bool.and_eq_true, Bool.not_eq_true', List.all_eq_true, Option.isNone_iff_eq_none] at hb
    exact ⟨hb.1.1, hb.1.2, hb.2⟩

def DEvent.timelyB (L : Nat) (d : Daemon) : DEvent → Bool
  | .tick k => d.mons.all fun m => match m.timer with | none => true | some t => decide (d.now + k ≤ t + L)
  | _ => true

theorem DEvent.timely_of {L : Nat} {d : Daemon} {e : DEvent} (hb : e.timelyB L d = true) : e.Timely L d := by
  cases e with
  | tick k =>
    intro m hm t ht
    have := List.all_eq_true.mp (show (d.mons.all _) = true from hb) m hm
    rw [ht] at this
    simpa using this
  | _ => trivial

def dplay (L : Nat) : Daemon → List DEntry → List DEvent → Option (Daemon × List DEntry)
  | d, log, [] => some (d, log)
  | d, log, e :: l =>
    if d.exited = false ∧ e.canB d = true ∧ e.timelyB L d = true then
      match d.step e with
      | .ok (d', es) => dplay L d' (es ++ log) l
      | .ub => none
    else none

theorem dplay_run {kill : Bool} {mons : List DMon} {L : Nat} (l : List DEvent) :
    ∀ {d : Daemon} {log : List DEntry} {d' : Daemon} {log' : List DEntry}, DRun kill mons (fun d e => e.Timely L d) d log → dplay L d log l = some (d', log') → DRun kill mons (fun d e => e.Timely L d) d' log' := by
  induction l with
  | nil => intro d log d' log' r hp; cases hp; exact r
  | cons e l ih =>
    intro d log d' log' r hp
    unfold dplay at hp
    split at hp
    · rename_i hc
      cases hs : d.step e with
      | ub => rw [hs] at hp; cases hp
      | ok p =>
        obtain ⟨d1, es⟩ := p
        rw [hs] at hp
        exact ih (.step e r hc.1 (DEvent.can_of hc.2.1) (DEvent.timely_of hc.2.2) hs) hp
    · cases hp

end Gdnsd.Extmon
