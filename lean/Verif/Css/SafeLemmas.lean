/-
When a callback is undefined.
-/
import Verif.Css.MoreLemmas
namespace Gdnsd.Css
open CssSpec

theorem bind_safe {α β} {x : Outcome α} {f : α → Outcome β} (hx : ∃ a, x = .ok a) (hf : ∀ a, x = .ok a → ∃ b, f a = .ok b) : ∃ b, x.bind f = .ok b := by
  obtain ⟨a, rfl⟩ := hx
  exact hf a rfl

theorem map_safe {α β} {x : Outcome α} {f : α → β} (hx : ∃ a, x = .ok a) : ∃ b, x.map f = .ok b := by
  obtain ⟨a, rfl⟩ := hx
  exact ⟨_, rfl⟩

theorem andThen_safe {x : Step} {f : Css → Step} (hx : ∃ a, x = .ok a) (hf : ∀ s l, x = .ok (s, l) → ∃ b, f s = .ok b) : ∃ b, andThen x f = .ok b := by
  obtain ⟨⟨s, l⟩, rfl⟩ := hx
  obtain ⟨b, hb⟩ := hf s l rfl
  exact ⟨_, by simp only [andThen, Outcome.bind, hb, Outcome.map]; rfl⟩

theorem assert_safe {b : Bool} (h : b = true) : ∃ u, assert b = .ok u := by subst h; exact ⟨_, rfl⟩

theorem get_safe {s : Css} {id c} (h : s.conn id = some c) : s.get id = .ok c := by unfold Css.get; rw [h]

theorem respond_safe {cfg s id c key v d data fds} (hc : s.conn id = some c) (hw : c.st = .waiting) (hv : v ≤ 0xFFFFFF)
    (hf : fds = true → data = none ∧ key = 65 ∧ v = 0 ∧ d = 0 ∧ cfg.fds.length ≤ 0xFFFFFF) : ∃ r, respond cfg s id key v d data fds = .ok r := by
  unfold respond
  refine bind_safe ⟨c, get_safe hc⟩ fun c' hc' => ?_
  rw [get_safe hc] at hc'; cases hc'
  refine bind_safe (assert_safe (by simp [hw])) fun _ _ => bind_safe (assert_safe (by simpa using hv)) fun _ _ => bind_safe (assert_safe ?_) fun _ _ => ?_
  · cases fds with
    | false => simp
    | true => rw [(hf rfl).1]; rfl
  · cases data with
    | some b => exact ⟨_, rfl⟩
    | none =>
      cases fds with
      | false => exact ⟨_, rfl⟩
      | true =>
        obtain ⟨_, rfl, rfl, rfl, h5⟩ := hf rfl
        dsimp only
        rw [if_pos rfl]
        exact bind_safe (assert_safe rfl) fun _ _ => bind_safe (assert_safe (by simpa using h5)) fun _ _ => ⟨_, rfl⟩

theorem answer_safe {cfg s id c key} (hc : s.conn id = some c) (hw : c.st = .waiting) : ∃ r, answer cfg s id key = .ok r :=
  respond_safe hc hw (by decide) (fun h => by cases h)

theorem cleanup_safe {s id c} (hc : s.conn id = some c) : ∃ r, cleanup s id = .ok r := by
  unfold cleanup
  exact bind_safe ⟨c, get_safe hc⟩ fun _ _ => ⟨_, rfl⟩

theorem answers_safe {cfg key} {ids : List Nat} {s : Css} {l} (hn : ids.Nodup) (hw : ∀ id ∈ ids, ∃ c, s.conn id = some c ∧ c.st = .waiting) :
    ∃ r, ids.foldl (fun (x : Step) (id : Nat) => andThen x fun s => answer cfg s id key) (.ok (s, l)) = .ok r := by
  induction ids generalizing s l with
  | nil => exact ⟨_, rfl⟩
  | cons id ids ih =>
    rw [List.nodup_cons] at hn
    rw [List.foldl_cons]
    obtain ⟨c, hc, hcw⟩ := hw id (by simp)
    obtain ⟨⟨s1, l1⟩, h1⟩ := answer_safe (cfg := cfg) (key := key) hc hcw
    obtain ⟨_, _, _, _, rfl⟩ := answer_ok h1
    simp only [andThen, Outcome.bind, h1, Outcome.map]
    refine ih hn.2 fun i hi => ?_
    obtain ⟨c', hc', hw'⟩ := hw i (by simp [hi])
    refine ⟨c', ?_, hw'⟩
    have : i ≠ id := by rintro rfl; exact hn.1 hi
    simpa [Css.put, this] using hc'

theorem latrAll_safe {cfg} {s : Css} (hn : (s.active ++ s.queued).Nodup) (hw : ∀ id ∈ s.active ++ s.queued, ∃ c, s.conn id = some c ∧ c.st = .waiting) : ∃ r, latrAll cfg s = .ok r := by
  unfold latrAll
  exact andThen_safe (answers_safe hn hw) fun _ _ _ => ⟨_, rfl⟩

theorem blockingAck_safe {s id c good} (hc : s.conn id = some c) (hw : c.st = .waiting) : ∃ r, blockingAck s id good = .ok r := by
  unfold blockingAck
  refine bind_safe ⟨c, get_safe hc⟩ fun c' hc' => ?_
  rw [get_safe hc] at hc'; cases hc'
  refine bind_safe (assert_safe (by simp [hw])) fun _ _ => ?_
  dsimp only
  split
  · exact ⟨_, rfl⟩
  · exact map_safe (cleanup_safe (c := { c with wbuf := msg 65 0 0, st := .writing }) (by simp [Css.put]))

/-- The causes of an undefined step, from the state. -/
inductive Cause (s : Css) : Event → Prop
  | timer {alive} : s.timer = true → s.pid = 0 → Cause s (.tick alive)
  | second {id b env} : msgKey b = 49 ∨ msgKey b = 82 → s.dmn ≠ none → (s.pid = 0 ∨ (msgKey b = 49 ∧ s.pid = msgD b)) → Cause s (.read id (.got b) env)
  | stopFail {id b env} : msgKey b = 88 → s.ctl ≠ none → s.dmn = some id → env.ack1 = false → Cause s (.read id (.got b) env)
  | join {x} : s.async = true → s.threads[s.tid]? = some x → x.joined = true → Cause s .async

theorem key_take {b : Bytes} : msgKey (b.take 8) = msgKey b := by
  unfold msgKey; cases b <;> rfl

theorem D_take {b : Bytes} : msgD (b.take 8) = msgD b := by
  unfold msgD
  simp only [List.getD_eq_getElem?_getD, List.getElem?_take]
  rfl

theorem reqStop_safe {cfg s l id c env} (h : J cfg (some id) s l) (hc : s.conn id = some c) (hw : c.st = .waiting)
    (hno : ¬ (s.ctl ≠ none ∧ s.dmn = some id ∧ env.ack1 = false)) : ∃ r, reqStop cfg s id env = .ok r := by
  unfold reqStop
  split
  · exact answer_safe hc hw
  · next hd =>
    refine bind_safe (blockingAck_safe hc hw) ?_
    rintro ⟨ok, s1, e1⟩ h1
    dsimp only
    obtain ⟨_, rfl, _, h2⟩ := blockingAck_ok (cfg := cfg) h1
    cases hct : s.ctl with
    | none =>
      have hs1 := blockingAck_soft h1
      have hct1 : s1.ctl = none := by
        cases hg : env.ack1 with
        | true =>
          obtain ⟨h3, _⟩ := h2 hg
          rw [h3]; exact hct
        | false =>
          rw [hg] at h1
          obtain ⟨c1, hc1, h1⟩ := bind_ok h1
          obtain ⟨_, _, h1⟩ := bind_ok h1
          simp only [Bool.false_eq_true, if_false] at h1
          obtain ⟨⟨s3, l3⟩, h3, h1⟩ := map_ok h1
          simp only [Prod.mk.injEq] at h1
          obtain ⟨_, rfl, _⟩ := h1
          obtain ⟨_, _, _, h4, _⟩ := cleanup_ok h3
          rw [h4]
          show (if s.ctl = some id then none else s.ctl) = none
          rw [hct]; simp
      refine bind_safe ?_ fun s2 h3 => ?_
      · split
        · next hg =>
          obtain ⟨_, c1, hc1⟩ := h2 hg.1
          exact map_safe ⟨c1, get_safe hc1⟩
        · exact ⟨_, rfl⟩
      · have : s2.ctl = none := by
          split at h3
          · rw [(nofd_loc (cfg := cfg) h3).2]; exact hct1
          · cases h3; exact hct1
        rw [this]
        exact ⟨_, rfl⟩
    | some k =>
      obtain ⟨hx, hpid, ck, hck, hckw, hckk⟩ := h.b.ctl k hct
      have hdm : s.dmn = some id := Classical.byContradiction fun hn => hd ⟨hpid, hn⟩
      have hg : env.ack1 = true := by
        cases hg : env.ack1 with
        | true => rfl
        | false => exact absurd ⟨by rw [hct]; simp, hdm, hg⟩ hno
      have hne : k ≠ id := by rintro rfl; exact hx rfl
      rw [hg] at h1
      obtain ⟨c1, hc1, h1⟩ := bind_ok h1
      obtain ⟨_, _, h1⟩ := bind_ok h1
      simp only [if_true, Outcome.ok.injEq, Prod.mk.injEq] at h1
      obtain ⟨_, rfl, rfl⟩ := h1
      refine bind_safe ?_ fun s2 h3 => ?_
      · rw [if_neg (by rintro ⟨_, h⟩; exact h hdm)]; exact ⟨_, rfl⟩
      · rw [if_neg (by rintro ⟨_, h⟩; exact h hdm)] at h3
        cases h3
        have : (Css.put { s with pid := 0, running := false } id (some { c1 with wbuf := msg 65 0 0, st := .writing })).ctl = some k := hct
        rw [this]
        dsimp only
        refine bind_safe (assert_safe (decide_eq_true hdm)) fun _ _ => ?_
        have hck' : (Css.put { s with pid := 0, running := false } id (some { c1 with wbuf := msg 65 0 0, st := .writing })).conn k = some ck := by simpa [Css.put, hne] using hck
        refine bind_safe (blockingAck_safe hck' hckw) ?_
        rintro ⟨ok', s3, e3⟩ h4
        dsimp only
        obtain ⟨_, rfl, _, h5⟩ := blockingAck_ok (cfg := cfg) h4
        refine map_safe ?_
        split
        · next hg2 => obtain ⟨_, c3, hc3⟩ := h5 hg2; exact map_safe ⟨c3, get_safe hc3⟩
        · exact ⟨_, rfl⟩

theorem request_safe {cfg s l id c b env} (hcfg : CfgOk cfg) (he : EnvOk env) (h : J cfg (some id) s l) (hc : s.conn id = some c) (hw : c.st = .waiting) (hno : ¬ Cause s (.read id (.got b) env)) :
    ∃ r, request cfg s id (b.take 8) env = .ok r := by
  have hq : ∀ i ∈ s.active ++ s.queued, ∃ c, s.conn i = some c ∧ c.st = .waiting := fun i hi => by
    obtain ⟨_, c, h1, h2, _⟩ := h.b.que i hi; exact ⟨c, h1, h2⟩
  unfold request
  dsimp only
  rw [key_take, D_take]
  split
  · exact respond_safe hc hw hcfg.2.2 (fun h => by cases h)
  split
  · next hk => exact reqStop_safe h hc hw fun h1 => hno (.stopFail hk h1.1 h1.2.1 h1.2.2)
  split
  · exact respond_safe hc hw (by decide) (fun h => by cases h)
  split
  · exact respond_safe hc hw (by decide) (fun h => by cases h)
  split
  · unfold reqZrel
    split
    · exact answer_safe hc hw
    · dsimp only
      split <;> exact ⟨_, rfl⟩
  split
  · split
    · exact answer_safe hc hw
    · exact andThen_safe ⟨_, rfl⟩ fun s1 l1 h1 => by
        obtain ⟨rfl, rfl⟩ := one_ok h1
        exact answer_safe hc hw
  split
  · next hk =>
    unfold reqRepl
    split
    · exact answer_safe hc hw
    · next hp =>
      have hp : s.pid = 0 := Classical.not_not.mp hp
      refine bind_safe (assert_safe ?_) fun _ _ => bind_safe (assert_safe ?_) fun _ _ => andThen_safe ⟨_, rfl⟩ fun s1 l1 h1 => ?_
      · cases hct : s.ctl with
        | none => rfl
        | some k => exact absurd hp (h.b.ctl k hct).2.1
      · cases hd : s.dmn with
        | none => rfl
        | some k => exact absurd (.second (Or.inr hk) (by rw [hd]; simp) (Or.inl hp)) hno
      · obtain ⟨rfl, rfl⟩ := one_ok h1
        split
        · exact answer_safe hc hw
        · exact latrAll_safe h.b.nodup hq
  split
  · next hk =>
    unfold reqTak1
    split
    · exact answer_safe hc hw
    · next hp =>
      have hp : s.pid = 0 ∨ s.pid = msgD b := by
        by_cases h0 : s.pid = 0
        · exact Or.inl h0
        · exact Or.inr (Classical.byContradiction fun h1 => hp ⟨h0, h1⟩)
      refine bind_safe (assert_safe ?_) fun _ _ => andThen_safe ⟨_, rfl⟩ fun s1 l1 h1 => ?_
      · cases hd : s.dmn with
        | none => rfl
        | some k => exact absurd (.second (Or.inl hk) (by rw [hd]; simp) (hp.imp (fun h => h) fun h1 => ⟨hk, h1⟩)) hno
      · obtain ⟨rfl, rfl⟩ := one_ok h1
        refine andThen_safe (latrAll_safe h.b.nodup hq) fun s2 l2 h2 => ?_
        obtain ⟨_, _, _, h3, _⟩ := latrAll_ok h2
        refine answer_safe (c := c) ?_ hw
        rw [h3 id (h.b.notQ hc (Or.inr rfl)).1]
        exact hc
  split
  · unfold reqTak2
    split
    · refine andThen_safe (answer_safe hc hw) fun s1 l1 h1 => ?_
      obtain ⟨_, _, _, _, rfl⟩ := answer_ok h1
      exact cleanup_safe (by simp [Css.put]; rfl)
    · refine andThen_safe ⟨_, rfl⟩ fun s1 l1 h1 => ?_
      obtain ⟨rfl, rfl⟩ := one_ok h1
      exact respond_safe hc hw he.2.2.2.2.1 (fun h => by cases h)
  split
  · unfold reqTake
    split
    · refine andThen_safe (answer_safe hc hw) fun s1 l1 h1 => ?_
      obtain ⟨_, _, _, _, rfl⟩ := answer_ok h1
      exact cleanup_safe (by simp [Css.put]; rfl)
    · refine bind_safe (assert_safe (by simpa using hcfg.1)) fun _ _ => ?_
      exact respond_safe hc hw (by decide) (fun _ => ⟨rfl, rfl, rfl, rfl, hcfg.2.1⟩)
  · exact answer_safe hc hw

theorem good_of {cfg s l id c} (h : AInv cfg s l) (hc : s.conn id = some c) (hs : c.rOn = true ∨ c.wOn = true) : Shape cfg c := by
  obtain ⟨_, hg⟩ := (h.conn id).2 c hc
  rcases hg with hg | hg
  · exact hg.shape
  · rcases hs with hs | hs
    · rw [hg.rOn] at hs; cases hs
    · rw [hg.wOn] at hs; cases hs

theorem readConn_safe {cfg s l id c r env} (hcfg : CfgOk cfg) (he : EnvOk env) (h : J cfg none s l) (hc : s.conn id = some c) (hon : c.rOn = true) (hno : ¬ Cause s (.read id r env)) :
    ∃ x, readConn cfg s id c r env = .ok x := by
  have hsh := good_of h.a hc (Or.inl hon)
  unfold readConn
  have hput : ∀ d, (s.put id d).conn id = d := fun d => by simp [Css.put]
  cases hst : c.st with
  | waiting => simp only [Shape, hst, hon] at hsh; exact absurd hsh.1 (by decide)
  | writing => simp only [Shape, hst, hon] at hsh; exact absurd hsh.1 (by decide)
  | writingFds => simp only [Shape, hst, hon] at hsh; exact absurd hsh.1 (by decide)
  | writingData => simp only [Shape, hst, hon] at hsh; exact absurd hsh.1 (by decide)
  | readingData =>
    simp only [Shape, hst] at hsh
    obtain ⟨_, _, ⟨b, hb⟩, hlt, hk, hp⟩ := hsh
    refine bind_safe (assert_safe (by simp)) fun _ _ => ?_
    rw [if_pos rfl]
    refine bind_safe (assert_safe (by simp [hk])) fun _ _ => ?_
    unfold recvData
    rw [hb]
    dsimp only
    refine bind_safe (assert_safe (by simp; omega)) fun _ _ => ?_
    split
    · exact ⟨_, rfl⟩
    · exact cleanup_safe hc
    · exact cleanup_safe hc
    · split
      · split
        · exact answer_safe (hput _) rfl
        · exact andThen_safe ⟨_, rfl⟩ fun s1 l1 h1 => by
            obtain ⟨rfl, rfl⟩ := one_ok h1
            exact answer_safe (hput _) rfl
      · exact ⟨_, rfl⟩
  | readingReq =>
    refine bind_safe (assert_safe (by simp)) fun _ _ => ?_
    rw [if_neg (by decide)]
    split
    · exact ⟨_, rfl⟩
    · exact cleanup_safe hc
    · next x =>
      dsimp only
      split
      · exact cleanup_safe hc
      · next h8 =>
        refine andThen_safe ⟨_, rfl⟩ fun s1 l1 h1 => ?_
        obtain ⟨rfl, rfl⟩ := one_ok h1
        split
        · exact answer_safe (hput _) rfl
        · split
          · split
            · exact cleanup_safe hc
            · exact ⟨_, rfl⟩
          · refine request_safe hcfg he (h.req hc hst hon (Classical.not_not.mp h8)) (hput _) rfl fun hcause => hno ?_
            cases hcause with
            | second h2 h3 h4 => exact .second h2 h3 h4
            | stopFail h2 h3 h4 h5 => exact .stopFail h2 h3 h4 h5

theorem write_safe {cfg s l id c r} (h : J cfg none s l) (hc : s.conn id = some c) (hon : c.wOn = true) :
    ∃ x, (if c.st = .writingData then writeData s id c r else writeResp cfg s id c r) = .ok x := by
  have hsh := good_of h.a hc (Or.inr hon)
  cases hst : c.st with
  | readingReq => simp only [Shape, hst, hon] at hsh; exact absurd hsh.2.1 (by decide)
  | readingData => simp only [Shape, hst, hon] at hsh; exact absurd hsh.2.1 (by decide)
  | waiting => simp only [Shape, hst, hon] at hsh; exact absurd hsh.2.1 (by decide)
  | writingData =>
    simp only [Shape, hst] at hsh
    obtain ⟨_, _, b, hb, hsz, hlt⟩ := hsh
    rw [if_pos rfl]
    unfold writeData
    refine bind_safe (assert_safe (by simp [hst])) fun _ _ => ?_
    rw [hb]
    dsimp only
    refine bind_safe (assert_safe (by simp; omega)) fun _ _ => ?_
    rw [if_pos (by omega)]
    split
    · exact ⟨_, rfl⟩
    · exact cleanup_safe hc
    · split <;> exact ⟨_, rfl⟩
  | writing =>
    rw [if_neg (by decide)]
    unfold writeResp
    refine bind_safe (assert_safe (by simp [hst])) fun _ _ => ?_
    refine bind_safe (assert_safe (by simp [hst])) fun _ _ => ?_
    split
    · exact ⟨_, rfl⟩
    · exact cleanup_safe hc
    · split
      · exact cleanup_safe hc
      · rw [if_neg (by rw [hst]; decide)]
        dsimp only
        split <;> exact ⟨_, rfl⟩
  | writingFds =>
    simp only [Shape, hst] at hsh
    rw [if_neg (by decide)]
    unfold writeResp
    refine bind_safe (assert_safe (by simp [hst])) fun _ _ => ?_
    refine bind_safe (assert_safe (by simp [hst, hsh.2.2.2.2.1])) fun _ _ => ?_
    split
    · exact ⟨_, rfl⟩
    · exact cleanup_safe hc
    · split
      · exact cleanup_safe hc
      · first
          | (rw [if_pos hst]; dsimp only; split <;> exact ⟨_, rfl⟩)
          | (rw [if_pos rfl]; dsimp only; split <;> exact ⟨_, rfl⟩)
          | (dsimp only; split <;> exact ⟨_, rfl⟩)

theorem watch_safe {cfg s l alive} (h : J cfg none s l) (hp : s.pid ≠ 0) : ∃ x, watch cfg s alive = .ok x := by
  unfold watch
  refine bind_safe (assert_safe (by simpa using hp)) fun _ _ => ?_
  split
  · exact ⟨_, rfl⟩
  · refine andThen_safe ⟨_, rfl⟩ fun s1 l1 h1 => ?_
    obtain ⟨rfl, rfl⟩ := one_ok h1
    refine andThen_safe ?_ fun s2 l2 h2 => andThen_safe ?_ fun _ _ _ => ⟨_, rfl⟩
    · cases hct : s.ctl with
      | none => exact ⟨_, rfl⟩
      | some k =>
        obtain ⟨_, _, c, h1, h2, _⟩ := h.b.ctl k hct
        exact answer_safe h1 h2
    · have hd2 : s2.dmn = s.dmn ∧ ∀ k c, s.conn k = some c → ∃ c', s2.conn k = some c' := by
        split at h2
        · obtain ⟨c, _, _, _, rfl⟩ := answer_ok h2
          refine ⟨rfl, fun k c hk => ?_⟩
          simp only [Css.put]
          split
          · exact ⟨_, rfl⟩
          · exact ⟨c, hk⟩
        · obtain ⟨rfl, _⟩ := one_ok h2
          exact ⟨rfl, fun k c hk => ⟨c, hk⟩⟩
      rw [hd2.1]
      cases hdm : s.dmn with
      | none => exact ⟨_, rfl⟩
      | some k =>
        obtain ⟨⟨c, h3⟩, _⟩ := h.b.dmn k hdm
        obtain ⟨c', h4⟩ := hd2.2 k c h3
        exact cleanup_safe h4

theorem reload_safe {cfg s l x} (h : J cfg none s l) (hx : s.threads[s.tid]? = some x) (hj : x.joined = false) : ∃ r, reloadDone cfg s = .ok r := by
  unfold reloadDone
  rw [hx]
  dsimp only
  rw [if_neg (by rw [hj]; decide)]
  refine andThen_safe ⟨_, rfl⟩ fun s1 l1 h1 => ?_
  obtain ⟨rfl, rfl⟩ := one_ok h1
  unfold notify
  have hn := h.b.nodup
  rw [List.nodup_append] at hn
  refine andThen_safe (answers_safe hn.1 fun i hi => ?_) fun s2 l2 h2 => ?_
  · obtain ⟨_, c, h1, h2, _⟩ := h.b.que i (List.mem_append_left _ hi); exact ⟨c, h1, h2⟩
  · dsimp only
    split <;> exact ⟨_, rfl⟩

theorem step_safe {cfg s l e} (hcfg : CfgOk cfg) (he : EventOk e) (h : J cfg none s l) (hno : ¬ Cause s e) : ∃ x, step cfg s e = .ok x := by
  cases e with
  | accept p => simp only [step]; split <;> exact ⟨_, rfl⟩
  | read id r env =>
    simp only [step]
    split
    · exact ⟨_, rfl⟩
    · next c hc =>
      split
      · next hon => exact readConn_safe hcfg he h hc hon hno
      · exact ⟨_, rfl⟩
  | write id r =>
    simp only [step]
    split
    · exact ⟨_, rfl⟩
    · next c hc =>
      split
      · next hon => exact write_safe h hc hon
      · exact ⟨_, rfl⟩
  | tick alive =>
    simp only [step]
    split
    · next ht => exact watch_safe h fun h0 => hno (.timer ht h0)
    · exact ⟨_, rfl⟩
  | ended t =>
    simp only [step]
    split
    · exact ⟨_, rfl⟩
    · split <;> exact ⟨_, rfl⟩
  | async =>
    simp only [step]
    split
    · next ha =>
      have hthr := h.b.thr
      have hx : s.threads[s.tid]? = some s.threads[s.tid] := List.getElem?_eq_getElem (by omega)
      refine reload_safe h hx ?_
      cases hj : (s.threads[s.tid]).joined with
      | false => rfl
      | true => exact absurd (.join ha hx hj) hno
    · exact ⟨_, rfl⟩
  | signal => simp only [step]; split <;> exact ⟨_, rfl⟩

end Gdnsd.Css
