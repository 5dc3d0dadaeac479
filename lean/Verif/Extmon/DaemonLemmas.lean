import Verif.Extmon.DaemonSpec
import Verif.Extmon.HelperLemmas3
namespace Gdnsd.Extmon

/-- Times between updates of a monitor. -/
def DMon.period (m : DMon) : Nat := (m.timeout + m.interval) * 2 * 10

/-- What does not change of a monitor. -/
def DMon.Like (a b : DMon) : Prop := a.timeout = b.timeout ∧ a.interval = b.interval ∧ a.direct = b.direct ∧ a.idx = b.idx

structure DInv (mons : List DMon) (L : Nat) (d : Daemon) (log : List DEntry) : Prop where
  len : d.mons.length = mons.length
  like : ∀ (i : Nat) m, d.mons[i]? = some m → ∃ m0, mons[i]? = some m0 ∧ m.Like m0
  /-- In the first phase, the timers of the monitors that were not seen run. -/
  first : d.initPhase = true → d.dead = false → d.count = d.mons.countP (·.seen) ∧ (d.readOn = decide (d.count < d.mons.length)) ∧
    ∀ (i : Nat) m, d.mons[i]? = some m → m.timer.isSome = !m.seen
  seen : d.initPhase = true → ∀ (i : Nat) m, d.mons[i]? = some m → m.seen = wasSeen i log
  dead : d.dead = true → d.Idle
  run : d.initPhase = false → d.dead = false → d.readOn = true ∧ ∀ m ∈ d.mons, m.timer ≠ none
  /-- The start of the second phase is after the first. -/
  after : d.initPhase = false → ∀ i, i < d.mons.length → wasSeen i log = true
  timer : ∀ (i : Nat) m t, d.mons[i]? = some m → m.timer = some t → t = lastTime i log + m.period ∧ d.now ≤ t + L
  upds : updates log = (gots log).filterMap fun w => if isExit w = true then none else updOf mons (monIdx w, monFailed w)

theorem dget_set {l : List DMon} {i j : Nat} {m' mj : DMon} (h : (l.set i m')[j]? = some mj) : (j = i ∧ mj = m') ∨ (j ≠ i ∧ l[j]? = some mj) := by
  rw [List.getElem?_set] at h
  by_cases hij : i = j
  · subst hij
    rw [if_pos rfl] at h
    split at h
    · exact .inl ⟨rfl, (Option.some.inj h).symm⟩
    · cases h
  · rw [if_neg hij] at h
    exact .inr ⟨fun hc => hij hc.symm, h⟩

theorem countP_set (p : DMon → Bool) : ∀ (l : List DMon) (i : Nat) (m m' : DMon), l[i]? = some m → p m = false → p m' = true → (l.set i m').countP p = l.countP p + 1 := by
  intro l
  induction l with
  | nil => intro i m m' h; cases h
  | cons a l ih =>
    intro i m m' h h1 h2
    cases i with
    | zero =>
      cases h
      simp [List.set, h1, h2]
    | succ i =>
      have := ih i m m' h h1 h2
      rw [List.set_cons_succ, List.countP_cons, List.countP_cons, this]
      omega

theorem helperDead_ok {mons : List DMon} {L : Nat} {d : Daemon} {log : List DEntry} (H : DInv mons L d log) (g : Bool) : DInv mons L (d.helperDead g) log := by
  unfold Daemon.helperDead
  split
  · exact ⟨H.len, H.like, H.first, H.seen, H.dead, H.run, H.after, H.timer, H.upds⟩
  · have key : ∀ (i : Nat) m, (d.mons.map fun m => ({ m with timer := none } : DMon))[i]? = some m → ∃ m0, d.mons[i]? = some m0 ∧ m = { m0 with timer := none } := by
      intro i m h
      rw [List.getElem?_map] at h
      cases hm : d.mons[i]? with
      | none => rw [hm] at h; cases h
      | some m0 => rw [hm] at h; exact ⟨m0, rfl, (Option.some.inj h).symm⟩
    refine ⟨?_, ?_, (fun _ h => by cases h), ?_, fun _ => ⟨rfl, ?_⟩, (fun _ h => by cases h), ?_, ?_, H.upds⟩
    · dsimp only; rw [List.length_map]; exact H.len
    · intro i m h
      obtain ⟨m0, k1, rfl⟩ := key i m h
      exact H.like i m0 k1
    · intro hi i m h
      obtain ⟨m0, k1, rfl⟩ := key i m h
      exact H.seen hi i m0 k1
    · intro m h
      dsimp only at h
      obtain ⟨m0, _, rfl⟩ := List.mem_map.mp h
      rfl
    · intro hi i hl
      refine H.after hi i ?_
      dsimp only at hl
      rw [List.length_map] at hl
      exact hl
    · intro i m t h ht
      obtain ⟨m0, k1, rfl⟩ := key i m h
      cases ht

/-- A monitor is updated in the first phase, for the first time. -/
theorem seen_ok {mons : List DMon} {L : Nat} {d : Daemon} {log : List DEntry} (H : DInv mons L d log) (hi : d.initPhase = true) (hd : d.dead = false) (i : Nat) (m : DMon)
    (hm : d.mons[i]? = some m) (hs : m.seen = false) (e : DEntry)
    (he : (∃ idx u, e = .upd i idx d.now u) ∨ (∃ idx u, e = .late i idx d.now u)) (es : List DEntry) (hes : es = [] ∨ ∃ w, es = [.got w])
    (hu : updates ((e :: es) ++ log) = (gots ((e :: es) ++ log)).filterMap fun w => if isExit w = true then none else updOf mons (monIdx w, monFailed w)) :
    DInv mons L (d.seen i { m with timer := none }) ((e :: es) ++ log) := by
  obtain ⟨f1, f2, f3⟩ := H.first hi hd
  have hcount := countP_set (·.seen) d.mons i m { m with timer := none, seen := true } hm hs rfl
  have hle : (d.mons.set i { m with timer := none, seen := true }).countP (·.seen) ≤ d.mons.length := by
    have := List.countP_le_length (p := fun x : DMon => x.seen) (l := d.mons.set i { m with timer := none, seen := true })
    rwa [List.length_set] at this
  have hw : ∀ j, wasSeen j ((e :: es) ++ log) = if i = j then true else wasSeen j log := by
    intro j
    rcases hes with rfl | ⟨w, rfl⟩ <;> rcases he with ⟨idx, u, rfl⟩ | ⟨idx, u, rfl⟩ <;> rfl
  have ht : ∀ j, i ≠ j → lastTime j ((e :: es) ++ log) = lastTime j log := by
    intro j hj
    rcases hes with rfl | ⟨w, rfl⟩ <;> rcases he with ⟨idx, u, rfl⟩ | ⟨idx, u, rfl⟩ <;> simp [lastTime, hj]
  refine ⟨by show (d.mons.set i _).length = _; rw [List.length_set]; exact H.len, ?_, ?_, ?_, ?_, ?_, ?_, ?_, hu⟩
  · intro j mj hj
    rcases dget_set (show (d.mons.set i _)[j]? = some mj from hj) with ⟨rfl, rfl⟩ | ⟨_, hj⟩
    · exact H.like j m hm
    · exact H.like j mj hj
  · intro _ _
    refine ⟨?_, ?_, ?_⟩
    · show d.count + 1 = (d.mons.set i _).countP _
      rw [f1]; exact hcount.symm
    · show (if d.count + 1 = d.mons.length then false else d.readOn) = decide (d.count + 1 < (d.mons.set i _).length)
      rw [List.length_set]
      rw [hcount, ← f1] at hle
      split
      · rename_i h; simp [h]
      · rename_i h
        rw [f2]
        have a : d.count < d.mons.length := by omega
        have b : d.count + 1 < d.mons.length := by omega
        simp [a, b]
    · intro j mj hj
      rcases dget_set (show (d.mons.set i _)[j]? = some mj from hj) with ⟨rfl, rfl⟩ | ⟨_, hj⟩
      · rfl
      · exact f3 j mj hj
  · intro _ j mj hj
    rw [hw]
    rcases dget_set (show (d.mons.set i _)[j]? = some mj from hj) with ⟨rfl, rfl⟩ | ⟨hne, hj⟩
    · rw [if_pos rfl]
    · rw [if_neg (fun hc => hne hc.symm)]
      exact H.seen hi j mj hj
  · intro hdd
    have : d.dead = true := hdd
    rw [hd] at this; cases this
  · intro hii
    have : d.initPhase = false := hii
    rw [hi] at this; cases this
  · intro hii
    have : d.initPhase = false := hii
    rw [hi] at this; cases this
  · intro j mj t hj htt
    rcases dget_set (show (d.mons.set i _)[j]? = some mj from hj) with ⟨rfl, rfl⟩ | ⟨hne, hj⟩
    · cases htt
    · rw [ht j (fun hc => hne hc.symm)]
      exact H.timer j mj t hj htt

/-- A monitor is updated in the second phase. -/
theorem bump_ok {mons : List DMon} {L : Nat} {d : Daemon} {log : List DEntry} (H : DInv mons L d log) (hi : d.initPhase = false) (hd : d.dead = false) (i : Nat) (m : DMon)
    (hm : d.mons[i]? = some m) (e : DEntry)
    (he : (∃ idx u, e = .upd i idx d.now u) ∨ (∃ idx u, e = .late i idx d.now u)) (es : List DEntry) (hes : es = [] ∨ ∃ w, es = [.got w])
    (hu : updates ((e :: es) ++ log) = (gots ((e :: es) ++ log)).filterMap fun w => if isExit w = true then none else updOf mons (monIdx w, monFailed w)) :
    DInv mons L { d with mons := d.mons.set i (m.bump d.now) } ((e :: es) ++ log) := by
  have hw : ∀ j, wasSeen j ((e :: es) ++ log) = if i = j then true else wasSeen j log := by
    intro j
    rcases hes with rfl | ⟨w, rfl⟩ <;> rcases he with ⟨idx, u, rfl⟩ | ⟨idx, u, rfl⟩ <;> rfl
  have ht : ∀ j, lastTime j ((e :: es) ++ log) = if i = j then d.now else lastTime j log := by
    intro j
    rcases hes with rfl | ⟨w, rfl⟩ <;> rcases he with ⟨idx, u, rfl⟩ | ⟨idx, u, rfl⟩ <;> rfl
  refine ⟨by show (d.mons.set i _).length = _; rw [List.length_set]; exact H.len, ?_, ?_, ?_, ?_, ?_, ?_, ?_, hu⟩
  · intro j mj hj
    rcases dget_set hj with ⟨rfl, rfl⟩ | ⟨_, hj⟩
    · exact H.like j m hm
    · exact H.like j mj hj
  · intro hii
    have : d.initPhase = true := hii
    rw [hi] at this; cases this
  · intro hii
    have : d.initPhase = true := hii
    rw [hi] at this; cases this
  · intro hdd
    have : d.dead = true := hdd
    rw [hd] at this; cases this
  · intro _ _
    obtain ⟨r1, r2⟩ := H.run hi hd
    refine ⟨r1, ?_⟩
    intro mj hmj
    rcases List.mem_or_eq_of_mem_set hmj with hmj | rfl
    · exact r2 mj hmj
    · intro hc; cases hc
  · intro _ j hj
    rw [hw]
    split
    · rfl
    · refine H.after hi j ?_
      dsimp only at hj
      rwa [List.length_set] at hj
  · intro j mj t hj htt
    rw [ht]
    rcases dget_set hj with ⟨rfl, rfl⟩ | ⟨hne, hj⟩
    · rw [if_pos rfl]
      cases htt
      refine ⟨rfl, ?_⟩
      dsimp only
      omega
    · rw [if_neg (fun hc => hne hc.symm)]
      exact H.timer j mj t hj htt

theorem upds_got {mons : List DMon} {L : Nat} {d : Daemon} {log : List DEntry} (H : DInv mons L d log) (w : Nat) (hx : isExit w = true ∨ d.mons[monIdx w]? = none) :
    updates (.got w :: log) = (gots (.got w :: log)).filterMap fun w => if isExit w = true then none else updOf mons (monIdx w, monFailed w) := by
  show updates log = (gots log ++ [w]).filterMap _
  rw [List.filterMap_append, ← H.upds]
  have : (if isExit w = true then none else updOf mons (monIdx w, monFailed w)) = none := by
    rcases hx with hx | hx
    · rw [if_pos hx]
    · split
      · rfl
      · have : mons[monIdx w]? = none := by
          rw [List.getElem?_eq_none_iff] at hx ⊢
          rw [← H.len]; exact hx
        simp [updOf, this]
  simp [this]

theorem upds_upd {mons : List DMon} {L : Nat} {d : Daemon} {log : List DEntry} (H : DInv mons L d log) (w : Nat) (hx : isExit w = false) (m : DMon) (hm : d.mons[monIdx w]? = some m) (t : Nat) :
    updates (.upd (monIdx w) m.idx t (if m.direct = true then .sttl (monFailed w) else .state (!monFailed w)) :: .got w :: log) =
      (gots (.upd (monIdx w) m.idx t (if m.direct = true then .sttl (monFailed w) else .state (!monFailed w)) :: .got w :: log)).filterMap fun w => if isExit w = true then none else updOf mons (monIdx w, monFailed w) := by
  show updates log ++ [_] = (gots log ++ [w]).filterMap _
  rw [List.filterMap_append, ← H.upds]
  obtain ⟨m0, k1, k2, k3, k4, k5⟩ := H.like _ _ hm
  simp [hx, updOf, k1, k4, k5]

/-- A word that is read and changes nothing but the log. -/
theorem got_ok {mons : List DMon} {L : Nat} {d : Daemon} {log : List DEntry} (H : DInv mons L d log) (w : Nat) (hx : isExit w = true ∨ d.mons[monIdx w]? = none) : DInv mons L d (.got w :: log) :=
  ⟨H.len, H.like, H.first, H.seen, H.dead, H.run, H.after, H.timer, upds_got H w hx⟩

theorem again_ok {mons : List DMon} {L : Nat} {d : Daemon} {log : List DEntry} (H : DInv mons L d log) (hi : d.initPhase = true) (hd : d.dead = false) (i : Nat) (m : DMon)
    (hm : d.mons[i]? = some m) (hs : m.seen = true) (idx : Nat) (u : Upd) (w : Nat)
    (hu : updates ([.upd i idx d.now u, .got w] ++ log) = (gots ([.upd i idx d.now u, .got w] ++ log)).filterMap fun w => if isExit w = true then none else updOf mons (monIdx w, monFailed w)) :
    DInv mons L { d with mons := d.mons.set i { m with timer := none } } ([.upd i idx d.now u, .got w] ++ log) := by
  obtain ⟨f1, f2, f3⟩ := H.first hi hd
  have hmt : m.timer = none := by
    have := f3 i m hm
    rw [hs] at this
    cases hx : m.timer with
    | none => rfl
    | some x => rw [hx] at this; cases this
  have hset : d.mons.set i { m with timer := none } = d.mons := by
    have : ({ m with timer := none } : DMon) = m := by rw [← hmt]
    rw [this]
    apply List.ext_getElem?
    intro j
    rw [List.getElem?_set]
    split
    · subst_vars; split
      · exact hm.symm
      · rename_i h; exact absurd (List.getElem?_eq_some_iff.mp hm).1 h
    · rfl
  rw [hset]
  have hws := H.seen hi i m hm
  rw [hs] at hws
  refine ⟨H.len, H.like, fun _ _ => ⟨f1, f2, f3⟩, ?_, H.dead, H.run, ?_, ?_, hu⟩
  · intro _ j mj hj
    rw [H.seen hi j mj hj]
    show _ = if i = j then true else wasSeen j log
    split
    · subst_vars; exact hws.symm
    · rfl
  · intro hii
    have : d.initPhase = false := hii
    rw [hi] at this; cases this
  · intro j mj t hj htt
    show t = (if i = j then d.now else lastTime j log) + _ ∧ _
    split
    · rename_i hij
      have hj' : d.mons[i]? = some mj := hij ▸ hj
      rw [hm] at hj'
      cases hj'
      rw [hmt] at htt; cases htt
    · exact H.timer j mj t hj htt

theorem readCb_ok {mons : List DMon} {L : Nat} (l : List Rd) : ∀ {d : Daemon} {log : List DEntry}, DInv mons L d log → d.dead = false → DInv mons L (d.readCb l).1 ((d.readCb l).2 ++ log) := by
  induction l with
  | nil => intro d log H _; exact H
  | cons r l ih =>
    intro d log H hd
    cases r with
    | again => exact H
    | bad => exact helperDead_ok H false
    | word w =>
      unfold Daemon.readCb
      by_cases hx : isExit w = true
      · rw [if_pos hx]
        exact helperDead_ok (got_ok H w (.inl hx)) true
      · rw [if_neg hx]
        have hx' : isExit w = false := by cases h : isExit w with | false => rfl | true => exact absurd h hx
        cases hm : d.mons[monIdx w]? with
        | none =>
          have G := got_ok H w (.inr hm)
          exact ⟨G.len, G.like, G.first, G.seen, G.dead, G.run, G.after, G.timer, G.upds⟩
        | some m =>
          dsimp only
          have hu := upds_upd H w hx' m hm d.now
          by_cases hi : d.initPhase = true
          · rw [if_pos hi]
            by_cases hs : m.seen = false
            · rw [if_pos hs]
              have S := seen_ok H hi hd (monIdx w) m hm hs _ (.inl ⟨m.idx, _, rfl⟩) [.got w] (.inr ⟨w, rfl⟩) hu
              split
              · exact S
              · have := ih S hd
                rw [List.append_assoc]
                exact this
            · rw [if_neg hs]
              have hs' : m.seen = true := by cases h : m.seen with | true => rfl | false => exact absurd h hs
              have := ih (again_ok H hi hd (monIdx w) m hm hs' m.idx _ w hu) hd
              rw [List.append_assoc]
              exact this
          · rw [if_neg hi]
            have hi' : d.initPhase = false := by cases h : d.initPhase with | false => rfl | true => exact absurd h hi
            have := ih (bump_ok H hi' hd (monIdx w) m hm _ (.inl ⟨m.idx, _, rfl⟩) [.got w] (.inr ⟨w, rfl⟩) hu) hd
            rw [List.append_assoc]
            exact this

theorem dstep_ok {mons : List DMon} {L : Nat} {d : Daemon} {log : List DEntry} (H : DInv mons L d log) (e : DEvent) (can : e.Can d) (ht : e.Timely L d) :
    ∃ d' es, d.step e = .ok (d', es) ∧ DInv mons L d' (es ++ log) := by
  cases e with
  | tick k =>
    refine ⟨_, [], rfl, ⟨H.len, H.like, H.first, H.seen, H.dead, H.run, H.after, ?_, H.upds⟩⟩
    intro i m t hm htt
    exact ⟨(H.timer i m t hm htt).1, ht m (List.mem_of_getElem? hm) t htt⟩
  | read l =>
    refine ⟨_, _, rfl, readCb_ok l H ?_⟩
    cases hdd : d.dead with
    | false => rfl
    | true => have := (H.dead hdd).1; have hr : d.readOn = true := can; rw [hr] at this; cases this
  | timeout i =>
    obtain ⟨m, t, hm, htt, hn⟩ := can
    have hd : d.dead = false := by
      cases hdd : d.dead with
      | false => rfl
      | true => have := (H.dead hdd).2 m (List.mem_of_getElem? hm); rw [htt] at this; cases this
    have hstep : d.step (.timeout i) = d.timeoutCb i m := by
      unfold Daemon.step
      dsimp only
      rw [hm]
    rw [hstep]
    unfold Daemon.timeoutCb
    dsimp only
    cases hi : d.initPhase with
    | false =>
      rw [if_pos rfl, ← hi]
      exact ⟨_, _, rfl, bump_ok H hi hd i m hm _ (.inr ⟨m.idx, _, rfl⟩) [] (.inl rfl) H.upds⟩
    | true =>
      have hs : m.seen = false := by
        have := (H.first hi hd).2.2 i m hm
        rw [htt] at this
        cases h : m.seen with
        | false => rfl
        | true => rw [h] at this; cases this
      rw [if_neg (by simp), hs]
      have S := seen_ok H hi hd i m hm hs (.late i m.idx d.now (.state false)) (.inr ⟨m.idx, _, rfl⟩) [] (.inl rfl) H.upds
      exact ⟨_, _, rfl, S⟩
  | start =>
    obtain ⟨hi, hidle⟩ := can
    unfold Daemon.step
    dsimp only
    split
    · rename_i hc
      have key : ∀ (i : Nat) m, (d.mons.map (DMon.bump d.now))[i]? = some m → ∃ m0, d.mons[i]? = some m0 ∧ m = m0.bump d.now := by
        intro i m h
        rw [List.getElem?_map] at h
        cases hm : d.mons[i]? with
        | none => rw [hm] at h; cases h
        | some m0 => rw [hm] at h; exact ⟨m0, rfl, (Option.some.inj h).symm⟩
      refine ⟨_, _, rfl, ⟨?_, ?_, (fun h => by cases h), (fun h => by cases h), ?_, ?_, ?_, ?_, H.upds⟩⟩
      · show (d.mons.map _).length = _; rw [List.length_map]; exact H.len
      · intro i m hm
        obtain ⟨m0, k1, rfl⟩ := key i m hm
        exact H.like i m0 k1
      · intro hdd
        have : d.dead = true := hdd
        rw [hc.2] at this; cases this
      · intro _ _
        refine ⟨rfl, ?_⟩
        intro m hm hn
        obtain ⟨m0, _, rfl⟩ := List.mem_map.mp hm
        cases hn
      · intro _ i hil
        have hil' : i < d.mons.length := by
          have : i < (d.mons.map (DMon.bump d.now)).length := hil
          rwa [List.length_map] at this
        show wasSeen i log = true
        have hg : d.mons[i]? = some d.mons[i] := List.getElem?_eq_getElem hil'
        rw [← H.seen hi i _ hg]
        have := (H.first hi hc.2).2.2 i _ hg
        rw [hidle.2 _ (List.mem_of_getElem? hg)] at this
        cases h : (d.mons[i]).seen with
        | true => rfl
        | false => rw [h] at this; cases this
      · intro i m t hm htt
        obtain ⟨m0, k1, rfl⟩ := key i m hm
        cases htt
        refine ⟨rfl, ?_⟩
        dsimp only
        omega
    · exact ⟨d, [], rfl, H⟩

theorem dinit_ok {L : Nat} (kill : Bool) (mons : List DMon) (now : Nat) : DInv mons L (Daemon.init kill mons now) [.begin now] := by
  have key : ∀ (i : Nat) m, (Daemon.init kill mons now).mons[i]? = some m → ∃ m0, mons[i]? = some m0 ∧ m = ({ m0 with seen := false } : DMon).bump now := by
    intro i m h
    have h' : (mons.map fun m => ({ m with seen := false } : DMon).bump now)[i]? = some m := h
    rw [List.getElem?_map] at h'
    cases hm : mons[i]? with
    | none => rw [hm] at h'; cases h'
    | some m0 => rw [hm] at h'; exact ⟨m0, rfl, (Option.some.inj h').symm⟩
  refine ⟨by simp [Daemon.init], ?_, ?_, ?_, (fun h => by cases h), (fun h => by cases h), (fun h => by cases h), ?_, rfl⟩
  · intro i m h
    obtain ⟨m0, k1, rfl⟩ := key i m h
    exact ⟨m0, k1, rfl, rfl, rfl, rfl⟩
  · intro _ _
    refine ⟨?_, ?_, ?_⟩
    · symm
      show (mons.map _).countP _ = 0
      rw [List.countP_eq_zero]
      intro a ha
      obtain ⟨m0, _, rfl⟩ := List.mem_map.mp ha
      simp [DMon.bump]
    · show decide (mons ≠ []) = decide (0 < (mons.map _).length)
      rw [List.length_map]
      cases mons <;> simp
    · intro i m h
      obtain ⟨m0, k1, rfl⟩ := key i m h
      rfl
  · intro _ i m h
    obtain ⟨m0, k1, rfl⟩ := key i m h
    rfl
  · intro i m t h htt
    obtain ⟨m0, k1, rfl⟩ := key i m h
    cases htt
    refine ⟨rfl, ?_⟩
    show now ≤ _
    omega

theorem drun_ok {kill : Bool} {mons : List DMon} {L : Nat} {d : Daemon} {log : List DEntry} (r : DRun kill mons (fun d e => e.Timely L d) d log) : DInv mons L d log := by
  induction r with
  | init now => exact dinit_ok kill mons now
  | step e _ _ can ht hs ih =>
    obtain ⟨d', es, e1, e2⟩ := dstep_ok ih e can ht
    rw [e1] at hs
    cases hs
    exact e2

/-! ### Words -/

theorem word_decode (i : Nat) (f : Bool) : isExit (word i f) = false ∧ monIdx (word i f) = i ∧ monFailed (word i f) = f := by
  unfold isExit monIdx monFailed word
  cases f <;> simp <;> omega

/-- Words and results. -/
theorem words_results (log : List Entry) : words log = (results log).map (fun r => word r.1 r.2) ++ if quit log then [0xFFFFFFFF] else [] := by
  induction log with
  | nil => rfl
  | cons e l ih =>
    cases e with
    | finish i f t =>
      show (if quit l then words l else words l ++ [word i f]) = (if quit l then results l else results l ++ [(i, f)]).map _ ++ if quit l then _ else _
      cases hq : quit l with
      | true => rw [if_pos rfl, if_pos rfl, ih, hq]
      | false => rw [if_neg (by simp), if_neg (by simp), ih, hq]; simp
    | term t =>
      show (if quit l then words l else words l ++ [0xFFFFFFFF]) = (results l).map _ ++ [0xFFFFFFFF]
      cases hq : quit l with
      | true => rw [if_pos rfl, ih, hq]; simp
      | false => rw [if_neg (by simp), ih, hq]; simp
    | start i p t => exact ih
    | kill p => exact ih
    | reap p g => exact ih
    | sent w => exact ih

theorem inProg_fine {cmds : List Cmd} {log : List Entry} (hf : Fine cmds log) : ∀ r ∈ results log, r.1 < cmds.length := by
  have hin : ∀ {l}, Fine cmds l → ∀ i p t, inProg i l = some (p, t) → i < cmds.length := by
    intro l hl
    induction hl with
    | nil => intro i p t h; cases h
    | @start l j q t' c h1 h2 h3 h4 h5 ih =>
      intro i p t h
      have h' : (if j = i then some (q, t') else inProg i l) = some (p, t) := h
      split at h'
      · subst_vars; exact (List.getElem?_eq_some_iff.mp h2).1
      · exact ih i p t h'
    | kill _ _ ih => exact ih
    | reap _ ih => exact ih
    | @good l j q t0 t' h1 h2 ih =>
      intro i p t h
      have h' : (if j = i then none else inProg i l) = some (p, t) := h
      split at h'
      · cases h'
      · exact ih i p t h'
    | @bad l j q t0 t' h1 h2 ih =>
      intro i p t h
      have h' : (if j = i then none else inProg i l) = some (p, t) := h
      split at h'
      · cases h'
      · exact ih i p t h'
    | @late l j q t0 t' c h1 h2 h3 h4 ih =>
      intro i p t h
      have h' : (if j = i then none else inProg i l) = some (p, t) := h
      split at h'
      · cases h'
      · exact ih i p t h'
    | term _ ih => exact ih
    | sent _ ih => exact ih
  have aux : ∀ (i : Nat) (f : Bool) (t : Nat) (l : List Entry), i < cmds.length → (∀ r ∈ results l, r.1 < cmds.length) → ∀ r ∈ results (.finish i f t :: l), r.1 < cmds.length := by
    intro i f t l hi ih r hr
    have hr' : r ∈ if quit l then results l else results l ++ [(i, f)] := hr
    split at hr'
    · exact ih r hr'
    · rcases List.mem_append.mp hr' with hr' | hr'
      · exact ih r hr'
      · have : r = (i, f) := by simpa using hr'
        rw [this]; exact hi
  induction hf with
  | nil => intro r hr; cases hr
  | start _ _ _ _ _ ih => exact ih
  | kill _ _ ih => exact ih
  | reap _ ih => exact ih
  | good h1 h2 ih => exact aux _ _ _ _ (hin h1 _ _ _ h2) ih
  | bad h1 h2 ih => exact aux _ _ _ _ (hin h1 _ _ _ h2) ih
  | late h1 h2 h3 h4 ih => exact aux _ _ _ _ (hin h1 _ _ _ h2) ih
  | term _ ih => exact ih
  | sent _ ih => exact ih

end Gdnsd.Extmon
