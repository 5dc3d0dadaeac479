import Verif.Mon.Lemmas
/- Runs of the monitoring system. -/
namespace Gdnsd.Mon

/-- What an event does to the resources: only their own check results and direct updates
change them. -/
def effect : Event → List Smgr → List Smgr
  | .result i b, ms => ms.modify i (mres · b)
  | .direct i v, ms => ms.modify i ({ · with real := v })
  | _, ms => ms

/-- Well-formed events: check results only for existing resources with a service type,
direct updates with a valid unforced value. -/
def EvOk (ms : List Smgr) : Event → Prop
  | .result i _ => ∃ m t, ms[i]? = some m ∧ m.type = some t
  | .direct i v => i < ms.length ∧ Valid v ∧ isForced v = false
  | _ => True

/-- How the file in force changes. -/
def ForceStep (fnm : Fnmatch) (descs : List Bytes) (f : List (Bytes × Option Bytes)) (e : Event)
    (f' : List (Bytes × Option Bytes)) : Prop :=
  ∀ f0 es, InForce fnm descs f0 es f → InForce fnm descs f0 (es ++ [e]) f'

structure RInv (fnm : Fnmatch) (s : St) (f : List (Bytes × Option Bytes)) : Prop where
  wf : Wf s
  ini : s.initial = false
  shows : Shows fnm f s.smgrs s.sttl
  ne : s.smgrs ≠ []

theorem modify_eq_set {α : Type} (l : List α) (i : Nat) (f : α → α) (a : α) (h : l[i]? = some a) :
    l.modify i f = l.set i (f a) := by
  apply List.ext_getElem?
  intro j
  rw [List.getElem?_modify, List.getElem?_set]
  by_cases hj : i = j
  · subst hj
    obtain ⟨h1, h2⟩ := List.getElem?_eq_some_iff.mp h
    simp [h1, h2]
  · simp [hj]

theorem mres_desc (m : Smgr) (b : Bool) : (mres m b).desc = m.desc := by unfold mres; split <;> rfl
theorem mres_type (m : Smgr) (b : Bool) : (mres m b).type = m.type := by unfold mres; split <;> rfl

theorem modify_map_eq {α β : Type} (l : List α) (i : Nat) (f : α → α) (g : α → β) (h : ∀ a, g (f a) = g a) :
    (l.modify i f).map g = l.map g := by
  apply List.ext_getElem?
  intro j
  simp only [List.getElem?_map, List.getElem?_modify]
  by_cases hj : i = j
  · subst hj
    cases l[i]? <;> simp [h]
  · simp [hj]

theorem effect_descs (e : Event) (ms : List Smgr) : (effect e ms).map (·.desc) = ms.map (·.desc) := by
  cases e with
  | result i b => exact modify_map_eq _ _ _ _ (fun m => mres_desc m b)
  | direct i v => exact modify_map_eq _ _ _ _ (fun m => rfl)
  | _ => rfl

theorem effect_types (e : Event) (ms : List Smgr) : (effect e ms).map (·.type) = ms.map (·.type) := by
  cases e with
  | result i b => exact modify_map_eq _ _ _ _ (fun m => mres_type m b)
  | direct i v => exact modify_map_eq _ _ _ _ (fun m => rfl)
  | _ => rfl

theorem effect_length (e : Event) (ms : List Smgr) : (effect e ms).length = ms.length := by
  have := congrArg List.length (effect_descs e ms)
  simpa using this

/-- `rawUpdate` keeps the invariants. -/
theorem raw_step {fnm : Fnmatch} {s : St} {f : List (Bytes × Option Bytes)} (hI : RInv fnm s f) {i : Nat} {m : Smgr}
    (hm : s.smgrs[i]? = some m) (m0 : Smgr) (hd : m0.desc = m.desc) {v : UInt32} (hv : Valid v) (hvf : isForced v = false) :
    ∃ s', rawUpdate { s with smgrs := s.smgrs.set i { m0 with real := m.real } } i v = .ok s' ∧
      s'.smgrs = s.smgrs.set i { m0 with real := v } ∧ RInv fnm s' f ∧ s'.nodelay = s.nodelay ∧
      (s'.cons = s.cons ∨ s'.cons = s'.sttl) := by
  obtain ⟨s', h1, h2, h3, h4, ⟨cur, h5, h6⟩, h7⟩ := rawUpdate_eq hI.wf hI.ini hm m0 hv hvf
  have hlen : i < s.smgrs.length := (List.getElem?_eq_some_iff.mp hm).1
  have hcur : cur = target fnm f m := by
    have := hI.shows
    unfold Shows at this
    rw [this, List.getElem?_map, hm] at h5
    simpa using h5.symm
  have hrm := hI.wf.real i m hm
  have htgt : (forceVal fnm m.desc f = none ∧ isForced cur = false ∧ target fnm f { m0 with real := v } = v) ∨
      (isForced cur = true ∧ target fnm f { m0 with real := v } = cur) := by
    cases hf : forceVal fnm m.desc f with
    | none =>
      left
      refine ⟨rfl, ?_, by simp [target, hd, hf]⟩
      rw [hcur]; simp [target, hf, hrm.2]
    | some w =>
      right
      rw [hcur]
      exact ⟨by simp [target, hf, (forceVal_facts hf).1], by simp [target, hd, hf]⟩
  have hsh : Shows fnm f s'.smgrs s'.sttl := by
    unfold Shows
    rw [h2, h6]
    have hs := hI.shows
    unfold Shows at hs
    have hset : (s.smgrs.set i { m0 with real := v }).map (target fnm f) =
        s.sttl.set i (target fnm f { m0 with real := v }) := by rw [List.map_set, hs]
    rw [hset]
    have hsame : ∀ w, w = cur → s.sttl.set i w = s.sttl := by
      rintro w rfl
      rw [List.getElem?_eq_some_iff] at h5
      obtain ⟨hl, he⟩ := h5
      rw [← he, List.set_getElem_self]
    rcases htgt with ⟨hn, k1, k2⟩ | ⟨k1, k2⟩
    · rw [k2]
      by_cases hvr : v = m.real
      · have : v = cur := by rw [hcur, hvr]; simp [target, hn]
        simp [hvr]
        rw [← hvr, hsame v this]
      · simp [k1, hvr]
    · rw [k2, hsame _ rfl]; simp [k1]
  refine ⟨s', h1, h2, ⟨⟨?_, ?_, ?_, ?_, ?_⟩, h3, hsh, ?_⟩, h4, ?_⟩
  · unfold Shows at hsh; rw [hsh]; simp
  · rw [h2, List.length_set]
    rcases h7 with ⟨_, k, _⟩ | ⟨_, k, _⟩ | ⟨_, k, _⟩
    · rw [k, hI.wf.clen]
    · rw [k]; unfold Shows at hsh; rw [hsh, h2]; simp
    · rw [k, hI.wf.clen]
  · intro j m' hj
    rw [h2, List.getElem?_set] at hj
    by_cases hij : i = j
    · subst hij
      simp [hlen] at hj
      subst hj
      exact ⟨hv, hvf⟩
    · simp only [hij, if_false] at hj
      exact hI.wf.real j m' hj
  · intro ht
    rcases h7 with ⟨k1, k2, k3⟩ | ⟨k1, k2, k3⟩ | ⟨k1, k2, k3⟩
    · rw [k2, k3]; exact hI.wf.sync (by rw [← k1]; exact ht)
    · exact k2
    · rw [ht] at k1; simp at k1
  · intro hn
    rw [h4] at hn
    rcases h7 with ⟨k1, k2, k3⟩ | ⟨k1, k2, k3⟩ | ⟨k1, k2, k3⟩
    · rw [k1]; exact hI.wf.nodelay hn
    · exact k1
    · rw [hn] at k3; simp at k3
  · rw [h2]; intro h0
    have := congrArg List.length h0
    rw [List.length_set] at this
    exact hI.ne (List.length_eq_zero_iff.mp this)
  · rcases h7 with ⟨k1, k2, k3⟩ | ⟨k1, k2, k3⟩ | ⟨k1, k2, k3⟩
    · exact .inl k2
    · exact .inr k2
    · exact .inl k2

theorem count_isDown (m : Smgr) : (m.real &&& DOWN != 0) = isDown m.real := (isDown_iff _).symm

theorem step_spec {fnm : Fnmatch} {s : St} {f : List (Bytes × Option Bytes)} (hI : RInv fnm s f) {e : Event}
    (he : EvOk s.smgrs e) :
    ∃ s' f', step fnm s e = .ok s' ∧ RInv fnm s' f' ∧ s'.smgrs = effect e s.smgrs ∧
      ForceStep fnm (s.smgrs.map (·.desc)) f e f' ∧
      (s'.cons = s'.sttl ∨ (s'.cons = s.cons ∧ e ≠ .timer ∧ s.nodelay = false)) ∧ s'.nodelay = s.nodelay := by
  have fin : ∀ s', RInv fnm s' f → s'.nodelay = s.nodelay → (s'.cons = s.cons ∨ s'.cons = s'.sttl) → e ≠ .timer →
      (s'.cons = s'.sttl ∨ (s'.cons = s.cons ∧ e ≠ .timer ∧ s.nodelay = false)) := by
    intro s' hR hn hc ht
    cases hnd : s.nodelay
    · rcases hc with h | h
      · exact .inr ⟨h, ht, rfl⟩
      · exact .inl h
    · exact .inl (hR.wf.sync (hR.wf.nodelay (by rw [hn, hnd])))
  cases e with
  | result i b =>
    obtain ⟨m, t, hm, ht⟩ := he
    let c := count t m.nFail m.nSucc (isDown m.real) b
    obtain ⟨hv, hvf, -⟩ := newSttl_facts t c.1 c.2.1 c.2.2
    obtain ⟨s', h1, h2, h3, h4, h5⟩ := raw_step hI hm { m with nFail := c.1, nSucc := c.2.1 } rfl hv hvf
    have hms : s'.smgrs = effect (.result i b) s.smgrs := by
      rw [h2]
      simp only [effect]
      rw [modify_eq_set _ _ _ _ hm]
      simp [mres, ht, c]
    refine ⟨s', f, ?_, h3, hms, ?_, fin s' h3 h4 h5 (by simp), h4⟩
    · simp only [step, stateUpdate, hm, ht, hI.ini, Bool.false_eq_true, if_false, count_isDown m]
      simpa only [hI.ini, ht, c] using h1
    · intro f0 es hf
      exact .other hf (by simp) (by simp)
  | direct i v =>
    obtain ⟨hi, hv, hvf⟩ := he
    have hm : s.smgrs[i]? = some s.smgrs[i] := List.getElem?_eq_getElem hi
    obtain ⟨s', h1, h2, h3, h4, h5⟩ := raw_step hI hm s.smgrs[i] rfl hv hvf
    have hself : s.smgrs.set i { s.smgrs[i] with real := s.smgrs[i].real } = s.smgrs :=
      List.set_getElem_self hi
    rw [hself] at h1
    refine ⟨s', f, h1, h3, ?_, ?_, fin s' h3 h4 h5 (by simp), h4⟩
    · rw [h2]
      simp only [effect]
      rw [modify_eq_set _ _ _ _ hm]
    · intro f0 es hf
      exact .other hf (by simp) (by simp)
  | file file =>
    have conv : ∀ s' f', s'.smgrs = s.smgrs → Shows fnm f' s.smgrs s'.sttl → s'.initial = s.initial →
        s'.nodelay = s.nodelay →
        ((s'.timer = s.timer ∧ s'.cons = s.cons ∧ s'.sttl = s.sttl) ∨
         (s'.timer = false ∧ s'.cons = s'.sttl ∧ s.nodelay = true) ∨
         (s'.timer = true ∧ s'.cons = s.cons ∧ s.nodelay = false)) → RInv fnm s' f' ∧ (s'.cons = s.cons ∨ s'.cons = s'.sttl) := by
      intro s' f' h1 h2 h3 h4 h7
      refine ⟨⟨⟨?_, ?_, ?_, ?_, ?_⟩, by rw [h3, hI.ini], by rw [h1]; exact h2, by rw [h1]; exact hI.ne⟩, ?_⟩
      · unfold Shows at h2; rw [h2, h1]; simp
      · rw [h1]
        rcases h7 with ⟨_, k, _⟩ | ⟨_, k, _⟩ | ⟨_, k, _⟩
        · rw [k, hI.wf.clen]
        · rw [k]; unfold Shows at h2; rw [h2]; simp
        · rw [k, hI.wf.clen]
      · rw [h1]; exact hI.wf.real
      · intro ht
        rcases h7 with ⟨k1, k2, k3⟩ | ⟨k1, k2, k3⟩ | ⟨k1, k2, k3⟩
        · rw [k2, k3]; exact hI.wf.sync (by rw [← k1]; exact ht)
        · exact k2
        · rw [ht] at k1; simp at k1
      · intro hn
        rw [h4] at hn
        rcases h7 with ⟨k1, k2, k3⟩ | ⟨k1, k2, k3⟩ | ⟨k1, k2, k3⟩
        · rw [k1]; exact hI.wf.nodelay hn
        · exact k1
        · rw [hn] at k3; simp at k3
      · rcases h7 with ⟨k1, k2, k3⟩ | ⟨k1, k2, k3⟩ | ⟨k1, k2, k3⟩
        · exact .inl k2
        · exact .inr k2
        · exact .inl k2
    rcases processFile_spec fnm s f file hI.wf.real hI.shows with
      ⟨es, rfl, ha, s', h1, h2, h3, h4, h5, h6⟩ | ⟨h1, h2⟩ | ⟨es, _, h0, _⟩
    · have h6' : ((s'.timer = s.timer ∧ s'.cons = s.cons ∧ s'.sttl = s.sttl) ∨
         (s'.timer = false ∧ s'.cons = s'.sttl ∧ s.nodelay = true) ∨
         (s'.timer = true ∧ s'.cons = s.cons ∧ s.nodelay = false)) := by
        rcases h6 with ⟨a, b, c⟩ | h | h
        · refine .inl ⟨a, b, ?_⟩
          rcases c with c | c
          · exact c
          · rw [hI.ini] at c; simp at c
        · exact .inr (.inl h)
        · exact .inr (.inr h)
      obtain ⟨hR, hc⟩ := conv s' es h2 h3 h4 h5 h6'
      refine ⟨s', es, by simp [step, h1], hR, h2, fun f0 evs hf => .load hf ha, ?_, h5⟩
      cases hnd : s.nodelay
      · rcases hc with h | h
        · exact .inr ⟨h, by simp, rfl⟩
        · exact .inl h
      · exact .inl (hR.wf.sync (hR.wf.nodelay (by rw [h5, hnd])))
    · exact ⟨s, f, by simp [step, h2], hI, rfl, fun f0 evs hf => .refuse hf (fun x hx => (h1 x hx).2),
        fin s hI rfl (.inl rfl) (by simp), rfl⟩
    · exact absurd h0 hI.ne
  | deleted =>
    obtain ⟨s', h1, h2, h3, h4, h5, h7⟩ := deletedFile_spec fnm s f hI.wf.real hI.shows
    have hR : RInv fnm s' [] := by
      refine ⟨⟨?_, ?_, ?_, ?_, ?_⟩, by rw [h4, hI.ini], by rw [h2]; exact h3, by rw [h2]; exact hI.ne⟩
      · unfold Shows at h3; rw [h3, h2]; simp
      · rw [h2]
        rcases h7 with ⟨_, k, _⟩ | ⟨_, k, _⟩ | ⟨_, k, _⟩
        · rw [k, hI.wf.clen]
        · rw [k]; unfold Shows at h3; rw [h3]; simp
        · rw [k, hI.wf.clen]
      · rw [h2]; exact hI.wf.real
      · intro ht
        rcases h7 with ⟨k1, k2, k3⟩ | ⟨k1, k2, k3⟩ | ⟨k1, k2, k3⟩
        · rw [k2, k3]; exact hI.wf.sync (by rw [← k1]; exact ht)
        · exact k2
        · rw [ht] at k1; simp at k1
      · intro hn
        rw [h5] at hn
        rcases h7 with ⟨k1, k2, k3⟩ | ⟨k1, k2, k3⟩ | ⟨k1, k2, k3⟩
        · rw [k1]; exact hI.wf.nodelay hn
        · exact k1
        · rw [hn] at k3; simp at k3
    refine ⟨s', [], by simp [step, h1], hR, h2, fun f0 evs hf => .delete hf, ?_, h5⟩
    cases hnd : s.nodelay
    · rcases h7 with ⟨k1, k2, k3⟩ | ⟨k1, k2, k3⟩ | ⟨k1, k2, k3⟩
      · exact .inr ⟨k2, by simp, rfl⟩
      · exact .inl k2
      · exact .inr ⟨k2, by simp, rfl⟩
    · exact .inl (hR.wf.sync (hR.wf.nodelay (by rw [h5, hnd])))
  | timer =>
    refine ⟨if s.timer then flush s else s, f, rfl, ?_, ?_, fun f0 evs hf => .other hf (by simp) (by simp), ?_, ?_⟩
    · split
      · refine ⟨⟨hI.wf.len, hI.wf.len, hI.wf.real, fun _ => rfl, fun _ => rfl⟩, hI.ini, hI.shows, hI.ne⟩
      · exact hI
    · split <;> rfl
    · left
      split
      · rfl
      · rename_i h
        exact hI.wf.sync (by simpa using h)
    · split <;> rfl

/-- Fold of the events' effects on the resources. -/
def effects (es : List Event) (ms : List Smgr) : List Smgr := es.foldl (fun ms e => effect e ms) ms

theorem effects_types (es : List Event) (ms : List Smgr) : (effects es ms).map (·.type) = ms.map (·.type) := by
  induction es generalizing ms with
  | nil => rfl
  | cons e es ih => show (effects es (effect e ms)).map _ = _; rw [ih, effect_types]

theorem effects_descs (es : List Event) (ms : List Smgr) : (effects es ms).map (·.desc) = ms.map (·.desc) := by
  induction es generalizing ms with
  | nil => rfl
  | cons e es ih => show (effects es (effect e ms)).map _ = _; rw [ih, effect_descs]

theorem EvOk_of_types {ms ms' : List Smgr} (h : ms'.map (·.type) = ms.map (·.type)) {e : Event} (he : EvOk ms e) :
    EvOk ms' e := by
  have hl : ms'.length = ms.length := by simpa using congrArg List.length h
  cases e with
  | result i b =>
    obtain ⟨m, t, hm, ht⟩ := he
    have := congrArg (·[i]?) h
    simp only [List.getElem?_map, hm, Option.map_some] at this
    cases hm' : ms'[i]? with
    | none => rw [hm'] at this; simp at this
    | some m' =>
      rw [hm'] at this
      simp at this
      exact ⟨m', t, hm', by rw [this, ht]⟩
  | direct i v =>
    obtain ⟨a, b⟩ := he
    exact ⟨by omega, b⟩
  | _ => trivial

theorem run_append (fnm : Fnmatch) (s : St) (a b : List Event) :
    run fnm s (a ++ b) = (run fnm s a).bind fun s' => run fnm s' b := by
  induction a generalizing s with
  | nil => rfl
  | cons e a ih =>
    show (step fnm s e).bind (fun s' => run fnm s' (a ++ b)) = ((step fnm s e).bind fun s' => run fnm s' a).bind _
    cases step fnm s e with
    | ok s' => exact ih s'
    | ub => rfl

/-- The whole runtime history. -/
theorem run_spec {fnm : Fnmatch} {s : St} {f0 : List (Bytes × Option Bytes)} (hI : RInv fnm s f0) (hc0 : s.cons = s.sttl)
    (es : List Event) (he : ∀ e ∈ es, EvOk s.smgrs e) :
    ∃ s' f, run fnm s es = .ok s' ∧ RInv fnm s' f ∧ s'.smgrs = effects es s.smgrs ∧
      InForce fnm (s.smgrs.map (·.desc)) f0 es f ∧ s'.nodelay = s.nodelay ∧
      ∃ pre post sp fp, es = pre ++ post ∧ Event.timer ∉ post ∧ (s.nodelay = true → post = []) ∧
        run fnm s pre = .ok sp ∧ InForce fnm (s.smgrs.map (·.desc)) f0 pre fp ∧
        s'.cons = sp.smgrs.map (target fnm fp) := by
  generalize hes : es.reverse = r
  induction r generalizing es with
  | nil =>
    obtain rfl : es = [] := by simpa using hes
    refine ⟨s, f0, rfl, hI, rfl, .start, rfl, [], [], s, f0, rfl, by simp, by simp, rfl, .start, ?_⟩
    rw [hc0]; exact hI.shows
  | cons e r ih =>
    obtain rfl : es = r.reverse ++ [e] := by
      have := congrArg List.reverse hes; simpa using this
    obtain ⟨s1, f1, h1, h2, h3, h4, h5, pre, post, sp, fp, k1, k2, k3, k4, k5, k6⟩ :=
      ih r.reverse (fun e' h' => he e' (by rw [List.mem_append]; exact .inl h')) (by simp)
    have hte : s1.smgrs.map (·.type) = s.smgrs.map (·.type) := by rw [h3, effects_types]
    have hde : s1.smgrs.map (·.desc) = s.smgrs.map (·.desc) := by rw [h3, effects_descs]
    obtain ⟨s2, f2, j1, j2, j3, j4, j5, j6⟩ := step_spec h2 (EvOk_of_types hte (he e (by simp)))
    have hrun : run fnm s (r.reverse ++ [e]) = .ok s2 := by
      rw [run_append, h1, Outcome.bind_ok]
      show (step fnm s1 e).bind (fun s' => run fnm s' []) = _
      rw [j1]; rfl
    have hin : InForce fnm (s.smgrs.map (·.desc)) f0 (r.reverse ++ [e]) f2 := by
      rw [hde] at j4
      exact j4 _ _ h4
    refine ⟨s2, f2, hrun, j2, ?_, hin, by rw [j6, h5], ?_⟩
    · rw [j3, h3]; simp [effects]
    · rcases j5 with j5 | ⟨j5, j5', j5''⟩
      · exact ⟨r.reverse ++ [e], [], s2, f2, by simp, by simp, by simp, hrun, hin, by rw [j5]; exact j2.shows⟩
      · refine ⟨pre, post ++ [e], sp, fp, by rw [k1]; simp, ?_, ?_, k4, k5, by rw [j5, k6]⟩
        · rw [List.mem_append]
          rintro (h | h)
          · exact k2 h
          · simp at h; exact j5' h.symm
        · intro hn
          rw [h5, hn] at j5''; simp at j5''

/-! ### The initial round -/

/-- States before `gdnsd_mon_start`'s admin load. -/
structure IInv (s : St) : Prop where
  ini : s.initial = true
  shows : s.sttl = s.smgrs.map (·.real)
  clen : s.cons.length = s.smgrs.length
  zero : ∀ (i : Nat) (m : Smgr), s.smgrs[i]? = some m → m.nFail = 0 ∧ m.nSucc = 0 ∧ Valid m.real ∧ isForced m.real = false
  timer : s.timer = false

/-- Effect of an initial-round event. -/
def ieffect : Event → List Smgr → List Smgr
  | .result i b, ms => ms.modify i fun m => match m.type with | some t => { m with real := newSttl t 0 0 (!b) } | none => m
  | .direct i v, ms => ms.modify i ({ · with real := v })
  | _, ms => ms

/-- Initial-round events. -/
def Event.isCheck : Event → Prop
  | .result _ _ => True
  | .direct _ _ => True
  | _ => False

theorem ieffect_types (e : Event) (ms : List Smgr) : (ieffect e ms).map (·.type) = ms.map (·.type) := by
  cases e with
  | result i b => exact modify_map_eq _ _ _ _ (fun m => by split <;> rfl)
  | direct i v => exact modify_map_eq _ _ _ _ (fun m => rfl)
  | _ => rfl

theorem ieffect_descs (e : Event) (ms : List Smgr) : (ieffect e ms).map (·.desc) = ms.map (·.desc) := by
  cases e with
  | result i b => exact modify_map_eq _ _ _ _ (fun m => by split <;> rfl)
  | direct i v => exact modify_map_eq _ _ _ _ (fun m => rfl)
  | _ => rfl

theorem iraw {s : St} (hI : IInv s) {i : Nat} {m : Smgr} (hm : s.smgrs[i]? = some m) {v : UInt32} (hv : Valid v)
    (hvf : isForced v = false) :
    ∃ s', rawUpdate s i v = .ok s' ∧ s'.smgrs = s.smgrs.set i { m with real := v } ∧ IInv s' ∧ s'.nodelay = s.nodelay := by
  have hlen : i < s.smgrs.length := (List.getElem?_eq_some_iff.mp hm).1
  have hcur : s.sttl[i]? = some m.real := by rw [hI.shows, List.getElem?_map, hm]; rfl
  have hv1 : v &&& RESERVED = 0 := (valid_iff v).mp hv
  have hv2 : v &&& FORCED = 0 := by rw [isForced_iff] at hvf; simpa using hvf
  refine ⟨{ s with sttl := s.sttl.set i v, smgrs := s.smgrs.set i { m with real := v } },
    by simp [rawUpdate, hm, hcur, hv1, hv2, hI.ini], rfl, ⟨hI.ini, ?_, ?_, ?_, hI.timer⟩, rfl⟩
  · simp [List.map_set, hI.shows]
  · simpa using hI.clen
  · intro j m' hj
    simp only at hj
    rw [List.getElem?_set] at hj
    by_cases hij : i = j
    · subst hij
      simp [hlen] at hj
      subst hj
      obtain ⟨a, b, _, _⟩ := hI.zero i m hm
      exact ⟨a, b, hv, hvf⟩
    · simp only [hij, if_false] at hj
      exact hI.zero j m' hj

theorem istep {fnm : Fnmatch} {s : St} (hI : IInv s) {e : Event} (hc : e.isCheck) (he : EvOk s.smgrs e) :
    ∃ s', step fnm s e = .ok s' ∧ s'.smgrs = ieffect e s.smgrs ∧ IInv s' ∧ s'.nodelay = s.nodelay := by
  cases e with
  | result i b =>
    obtain ⟨m, t, hm, ht⟩ := he
    obtain ⟨hv, hvf, -⟩ := newSttl_facts t 0 0 (!b)
    obtain ⟨s', h1, h2, h3, h4⟩ := iraw hI hm hv hvf
    obtain ⟨z1, z2, -⟩ := hI.zero i m hm
    refine ⟨s', by simp [step, stateUpdate, hm, ht, hI.ini, z1, z2, h1], ?_, h3, h4⟩
    rw [h2]; simp only [ieffect]; rw [modify_eq_set _ _ _ _ hm]; simp [ht]
  | direct i v =>
    obtain ⟨hi, hv, hvf⟩ := he
    have hm : s.smgrs[i]? = some s.smgrs[i] := List.getElem?_eq_getElem hi
    obtain ⟨s', h1, h2, h3, h4⟩ := iraw hI hm hv hvf
    refine ⟨s', h1, ?_, h3, h4⟩
    rw [h2]; simp only [ieffect]; rw [modify_eq_set _ _ _ _ hm]
  | file f => exact absurd hc (by simp [Event.isCheck])
  | deleted => exact absurd hc (by simp [Event.isCheck])
  | timer => exact absurd hc (by simp [Event.isCheck])

def ieffects (es : List Event) (ms : List Smgr) : List Smgr := es.foldl (fun ms e => ieffect e ms) ms

theorem irun {fnm : Fnmatch} {s : St} (hI : IInv s) (es : List Event) (hc : ∀ e ∈ es, e.isCheck) (he : ∀ e ∈ es, EvOk s.smgrs e) :
    ∃ s', run fnm s es = .ok s' ∧ s'.smgrs = ieffects es s.smgrs ∧ IInv s' ∧ s'.nodelay = s.nodelay := by
  induction es generalizing s with
  | nil => exact ⟨s, rfl, rfl, hI, rfl⟩
  | cons e es ih =>
    obtain ⟨s1, h1, h2, h3, h4⟩ := istep (fnm := fnm) hI (hc e (by simp)) (he e (by simp))
    obtain ⟨s2, k1, k2, k3, k4⟩ := ih h3 (fun e' h' => hc e' (by simp [h']))
      (fun e' h' => EvOk_of_types (by rw [h2, ieffect_types]) (he e' (by simp [h'])))
    refine ⟨s2, by simp [run, h1, k1], ?_, k3, by rw [k4, h4]⟩
    rw [k2, h2]; rfl

/-- A configured set of resources: description, service type, and whether it is "down". -/
abbrev Reg := Bytes × Option SvcType × Bool

/-- The state after registration of all resources. -/
def registered (regs : List Reg) (nodelay : Bool) : St :=
  regs.foldl (fun s r => register s r.1 r.2.1 r.2.2) ⟨[], [], [], false, false, nodelay⟩

theorem registered_inv (regs : List Reg) (nodelay : Bool) :
    IInv { registered regs nodelay with initial := true } ∧
    (registered regs nodelay).smgrs.map (fun m => (m.desc, m.type)) = regs.map (fun r => (r.1, r.2.1)) ∧
    (registered regs nodelay).nodelay = nodelay := by
  generalize hr : regs.reverse = r
  induction r generalizing regs with
  | nil =>
    obtain rfl : regs = [] := by simpa using hr
    exact ⟨⟨rfl, rfl, rfl, by simp [registered], rfl⟩, rfl, rfl⟩
  | cons x r ih =>
    obtain rfl : regs = r.reverse ++ [x] := by
      have := congrArg List.reverse hr; simpa using this
    obtain ⟨h1, h2, h3⟩ := ih r.reverse (by simp)
    have e : registered (r.reverse ++ [x]) nodelay = register (registered r.reverse nodelay) x.1 x.2.1 x.2.2 := by
      simp [registered]
    rw [e]
    refine ⟨⟨rfl, ?_, ?_, ?_, h1.timer⟩, ?_, h3⟩
    · have := h1.shows
      simp only at this
      simp [register, this]
    · have := h1.clen
      simp only at this
      simp [register, this]
    · intro i m hm
      simp only [register] at hm
      rw [List.getElem?_append] at hm
      split at hm
      · exact h1.zero i m hm
      · obtain ⟨hi, he⟩ := List.getElem?_eq_some_iff.mp hm
        simp at he
        subst he
        refine ⟨rfl, rfl, ?_⟩
        dsimp only
        split <;> decide
    · simp only [register, List.map_append, h2, List.map_cons, List.map_nil]

/-- Everything up to runtime. -/
theorem start_spec (fnm : Fnmatch) (regs : List Reg) (nodelay : Bool) (hne : regs ≠ []) (round : List Event)
    (hc : ∀ e ∈ round, e.isCheck) (he : ∀ e ∈ round, EvOk (registered regs nodelay).smgrs e) (admin : Option File) :
    ∃ s f0, start fnm (registered regs nodelay) round admin = .ok s ∧ RInv fnm s f0 ∧ s.cons = s.sttl ∧
      s.smgrs = ieffects round (registered regs nodelay).smgrs ∧ s.nodelay = nodelay ∧
      ((∃ es, admin = some (some es) ∧ Acceptable fnm (regs.map (·.1)) es ∧ f0 = es) ∨
       ((∀ es, admin = some (some es) → ¬ Acceptable fnm (regs.map (·.1)) es) ∧ f0 = [])) ∧
      (∀ (i : Nat) (m : Smgr), s.smgrs[i]? = some m → m.nFail = 0 ∧ m.nSucc = 0) := by
  obtain ⟨hI, hreg, hnd⟩ := registered_inv regs nodelay
  obtain ⟨s1, h1, h2, h3, h4⟩ := irun (fnm := fnm) hI round hc he
  have hd : s1.smgrs.map (·.desc) = regs.map (·.1) := by
    rw [h2]
    have : ∀ (es : List Event) (ms : List Smgr), (ieffects es ms).map (·.desc) = ms.map (·.desc) := by
      intro es
      induction es with
      | nil => intro _; rfl
      | cons e es ih => intro ms; show (ieffects es (ieffect e ms)).map _ = _; rw [ih, ieffect_descs]
    rw [this]
    have := congrArg (List.map Prod.fst) hreg
    simpa [List.map_map, Function.comp_def] using this
  have hne1 : s1.smgrs ≠ [] := by
    intro h0
    rw [h0] at hd
    cases regs with
    | nil => exact hne rfl
    | cons a b => simp at hd
  have hreal : ∀ (i : Nat) (m : Smgr), s1.smgrs[i]? = some m → Valid m.real ∧ isForced m.real = false :=
    fun i m hm => (h3.zero i m hm).2.2
  have hsh : Shows fnm [] s1.smgrs s1.sttl := by
    unfold Shows
    rw [h3.shows]
    apply List.map_congr_left
    intro m _
    simp [target, forceVal, lastMatch]
  have mk : ∀ (s2 : St) f0, s2.smgrs = s1.smgrs → Shows fnm f0 s1.smgrs s2.sttl → s2.nodelay = s1.nodelay →
      RInv fnm (flush { s2 with initial := false }) f0 ∧
      (flush { s2 with initial := false }).smgrs = ieffects round (registered regs nodelay).smgrs ∧
      (flush { s2 with initial := false }).nodelay = nodelay := by
    intro s2 f0 a b c
    have hl : s2.sttl.length = s2.smgrs.length := by unfold Shows at b; rw [b, a]; simp
    refine ⟨⟨⟨hl, hl, by show ∀ (i : Nat) (m : Smgr), s2.smgrs[i]? = some m → _; rw [a]; exact hreal, fun _ => rfl, fun _ => rfl⟩,
      rfl, by show Shows fnm f0 s2.smgrs s2.sttl; rw [a]; exact b, by show s2.smgrs ≠ []; rw [a]; exact hne1⟩, ?_, ?_⟩
    · show s2.smgrs = _; rw [a, h2]
    · show s2.nodelay = _; rw [c, h4]; exact hnd
  have hz : ∀ s2 : St, s2.smgrs = s1.smgrs → ∀ (i : Nat) (m : Smgr), s2.smgrs[i]? = some m → m.nFail = 0 ∧ m.nSucc = 0 := by
    intro s2 a i m hm
    rw [a] at hm
    exact ⟨(h3.zero i m hm).1, (h3.zero i m hm).2.1⟩
  cases admin with
  | none =>
    obtain ⟨a, b, c⟩ := mk s1 [] rfl hsh rfl
    exact ⟨_, [], by simp [start, h1], a, rfl, b, c, .inr ⟨by simp, rfl⟩, hz _ rfl⟩
  | some file =>
    rcases processFile_spec fnm s1 [] file hreal hsh with ⟨es, rfl, ha, s2, k1, k2, k3, k4, k5, _⟩ | ⟨k1, k2⟩ | ⟨es, _, h0, _⟩
    · obtain ⟨a, b, c⟩ := mk s2 es k2 k3 k5
      exact ⟨_, es, by simp [start, h1, k1], a, rfl, b, c, .inl ⟨es, rfl, by rw [← hd]; exact ha, rfl⟩, hz _ k2⟩
    · obtain ⟨a, b, c⟩ := mk s1 [] rfl hsh rfl
      refine ⟨_, [], by simp [start, h1, k2], a, rfl, b, c, .inr ⟨?_, rfl⟩, hz _ rfl⟩
      intro es hes
      rw [← hd]
      exact (k1 es (by simpa using hes)).2
    · exact absurd h0 hne1

end Gdnsd.Mon
