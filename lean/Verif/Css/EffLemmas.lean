/-
What a callback does to the daemon apart from the connections.
-/
import Verif.Css.RunLemmas
namespace Gdnsd.Css
open CssSpec

def soft : Entry → Bool
  | .load _ => false
  | .loaded _ _ => false
  | .takeover _ _ => false
  | .died _ => false
  | .stop _ => false
  | .signal => false
  | .spawn _ p => decide (p ≤ 0)
  | _ => true

structure Soft (s s' : Css) (l : List Entry) : Prop where
  eq : s' = { s with conn := s'.conn, ctl := s'.ctl, dmn := s'.dmn, accepting := s'.accepting, next := s'.next }
  dmn : s'.dmn = s.dmn ∨ s'.dmn = none
  log : ∀ e ∈ l, soft e = true

theorem Soft.trans {s s1 s' : Css} {l l' : List Entry} (h : Soft s s1 l) (h' : Soft s1 s' l') : Soft s s' (l ++ l') := by
  refine ⟨?_, ?_, ?_⟩
  · rw [h'.eq, h.eq]
  · rcases h'.dmn with h1 | h1
    · rw [h1]; exact h.dmn
    · exact Or.inr h1
  · intro e he
    rw [List.mem_append] at he
    exact he.elim (h.log e) (h'.log e)

theorem Soft.frame {s s' : Css} {l : List Entry} (h : Frame s s') (hl : ∀ e ∈ l, soft e = true) : Soft s s' l := by
  rw [h]; exact ⟨rfl, Or.inl rfl, hl⟩

theorem Soft.refl {s : Css} : Soft s s [] := Soft.frame Frame.refl (by simp)

theorem respond_soft {cfg s id key v d data fds s' l} (h : respond cfg s id key v d data fds = .ok (s', l)) : Soft s s' l := by
  obtain ⟨c, _, _, hf, h⟩ := respond_ok h
  refine Soft.frame hf ?_
  rcases h with ⟨b, _, _, rfl, _⟩ | ⟨_, _, _, _, rfl, _⟩ | ⟨_, _, rfl, _⟩ <;> simp [soft]

theorem answer_soft {cfg s id key s' l} (h : answer cfg s id key = .ok (s', l)) : Soft s s' l := respond_soft h

theorem cleanup_soft {s id s' l} (h : cleanup s id = .ok (s', l)) : Soft s s' l := by
  obtain ⟨c, _, _, h1, rfl⟩ := cleanup_ok h
  refine ⟨by rw [h1], ?_, ?_⟩
  · rw [h1]; dsimp only; split <;> simp
  · intro e he
    simp only [List.mem_append, List.mem_singleton] at he
    rcases he with he | rfl
    · split at he
      · simp only [List.mem_singleton] at he; subst he; rfl
      · cases he
    · rfl

theorem blockingAck_soft {s id good r s' l} (h : blockingAck s id good = .ok (r, s', l)) : Soft s s' l := by
  obtain ⟨c, hc, h⟩ := bind_ok h
  obtain ⟨_, h1, h⟩ := bind_ok h
  dsimp only at h
  cases good with
  | true =>
    simp only [if_true, Outcome.ok.injEq, Prod.mk.injEq] at h
    obtain ⟨_, rfl, rfl⟩ := h
    exact Soft.frame Frame.put (by simp [soft])
  | false =>
    simp only [Bool.false_eq_true, if_false] at h
    obtain ⟨⟨s1, l1⟩, h2, h⟩ := map_ok h
    simp only [Prod.mk.injEq] at h
    obtain ⟨_, rfl, rfl⟩ := h
    exact Soft.trans (l := [_]) (Soft.frame Frame.put (by simp [soft])) (cleanup_soft h2)

inductive Eff (cfg : Cfg) (s s' : Css) (l : List Entry) : Prop
  | soft : Soft s s' l → Eff cfg s s' l
  | queue (id m cn) : s.pid = 0 → s.active ≠ [] → s' = { s with conn := cn, queued := s.queued ++ [id] } → l = [.req id m] → Eff cfg s s' l
  | start (id m cn) : s.pid = 0 → s.active = [] → s' = { s with conn := cn, active := s.queued ++ [id], queued := [], threads := s.threads ++ [⟨false, false⟩], tid := s.threads.length } →
      l = [.req id m, .load s.threads.length] → Eff cfg s s' l
  | taken (cn p ct dm l1 e l2) : s' = { s with conn := cn, pid := p, ctl := ct, dmn := dm, timer := true, active := [], queued := [] } →
      ((∃ id n, e = .spawn id n ∧ 0 < n) ∨ ∃ id, e = .takeover id p) → l = l1 ++ e :: l2 → (∀ e ∈ l1 ++ l2, Css.soft e = true) → Eff cfg s s' l
  | stop (id l1 l2) : s' = { s with conn := s'.conn, ctl := s'.ctl, dmn := s'.dmn, accepting := s'.accepting, next := s'.next, pid := 0, running := false } → l = l1 ++ .stop id :: l2 → (∀ e ∈ l1 ++ l2, Css.soft e = true) → Eff cfg s s' l
  | died (cn l2) : s.pid ≠ 0 → s' = { s with conn := cn, timer := false, pid := 0, ctl := none, dmn := none, accepting := true } → l = .died s.pid :: l2 → (∀ e ∈ l2, Css.soft e = true) → Eff cfg s s' l
  | ended (t x) : s.threads[t]? = some x → x.ended = false → s' = { s with threads := s.threads.set t { x with ended := true }, async := true } → l = [] → Eff cfg s s' l
  | joined (x cn l2) : s.async = true → s.threads[s.tid]? = some x → x.joined = false → s.queued = [] →
      s' = { s with conn := cn, async := !x.ended, threads := s.threads.set s.tid ⟨true, true⟩, active := [], queued := [] } →
      l = .loaded s.tid (cfg.fails s.tid) :: l2 → (∀ e ∈ l2, Css.soft e = true) → Eff cfg s s' l
  | again (x cn l2) : s.async = true → s.threads[s.tid]? = some x → x.joined = false → s.queued ≠ [] →
      s' = { s with conn := cn, async := !x.ended, threads := s.threads.set s.tid ⟨true, true⟩ ++ [⟨false, false⟩], tid := s.threads.length, active := s.queued, queued := [] } →
      l = .loaded s.tid (cfg.fails s.tid) :: l2 ++ [.load s.threads.length] → (∀ e ∈ l2, Css.soft e = true) → Eff cfg s s' l
  | signal : s.pid = 0 → s' = { s with running := false } → l = [.signal] → Eff cfg s s' l

theorem latrAll_eff {cfg s s' l} (h : latrAll cfg s = .ok (s', l)) : s' = { s with conn := s'.conn, active := [], queued := [] } ∧ ∀ e ∈ l, soft e = true := by
  obtain ⟨_, h1, rfl, _⟩ := latrAll_ok h
  refine ⟨h1, fun e he => ?_⟩
  obtain ⟨i, _, rfl⟩ := List.mem_map.mp he
  rfl

theorem reqStop_eff {cfg s id c m env s' l} (h : reqStop cfg (s.put id (some c)) id env = .ok (s', l)) : Eff cfg s s' (.req id m :: l) := by
  have hput : Soft s (s.put id (some c)) [.req id m] := Soft.frame Frame.put (by simp [soft])
  unfold reqStop at h
  split at h
  · exact Eff.soft (Soft.trans hput (answer_soft h))
  · obtain ⟨⟨r, s1, e1⟩, h1, h⟩ := bind_ok h
    dsimp only at h
    obtain ⟨s2, h2, h⟩ := bind_ok h
    have hs1 := blockingAck_soft h1
    have hs2 : Soft s1 s2 [] := by
      split at h2
      · exact Soft.frame (nofd_loc (cfg := cfg) h2).2 (by simp)
      · cases h2; exact Soft.refl
    have hs12 := hs1.trans hs2
    have hfin : ∀ {s3 : Css} {e2}, Soft { s.put id (some c) with pid := 0, running := false } s3 e2 → Eff cfg s s3 (.req id m :: .stop id :: e2) := by
      intro s3 e2 h3
      refine Eff.stop id [.req id m] e2 (by rw [h3.eq]; rfl) rfl ?_
      intro e he
      simp only [List.mem_append, List.mem_singleton] at he
      rcases he with rfl | he
      · rfl
      · exact h3.log e he
    cases hct : s2.ctl with
    | none =>
      rw [hct] at h
      obtain ⟨rfl, rfl⟩ := one_ok h
      exact hfin (by simpa using hs12)
    | some k =>
      rw [hct] at h
      dsimp only at h
      obtain ⟨_, _, h⟩ := bind_ok h
      obtain ⟨⟨r3, s3, e3⟩, h3, h⟩ := bind_ok h
      dsimp only at h
      obtain ⟨s4, h4, h⟩ := map_ok h
      simp only [Prod.mk.injEq] at h
      obtain ⟨rfl, rfl⟩ := h
      have hs4 : Soft s3 s4 [] := by
        split at h4
        · exact Soft.frame (nofd_loc (cfg := cfg) h4).2 (by simp)
        · cases h4; exact Soft.refl
      exact hfin (by simpa using hs12.trans ((blockingAck_soft h3).trans hs4))

theorem request_eff {cfg s id c m env s' l} (h : request cfg (s.put id (some c)) id m env = .ok (s', l)) : Eff cfg s s' (.req id m :: l) := by
  have hput : Soft s (s.put id (some c)) [.req id m] := Soft.frame Frame.put (by simp [soft])
  have hsoft : ∀ {s1 : Css} {l'}, Soft (s.put id (some c)) s1 l' → Eff cfg s s1 (.req id m :: l') := fun h => Eff.soft (Soft.trans hput h)
  unfold request at h
  dsimp only at h
  split at h
  · exact hsoft (respond_soft h)
  split at h
  · exact reqStop_eff h
  split at h
  · exact hsoft (respond_soft h)
  split at h
  · exact hsoft (respond_soft h)
  split at h
  · unfold reqZrel at h
    split at h
    · exact hsoft (answer_soft h)
    · next hp =>
      have hp : s.pid = 0 := Classical.not_not.mp hp
      dsimp only at h
      split at h
      · next ha =>
        have ha : s.active = [] := ha
        obtain ⟨rfl, rfl⟩ := load_ok h
        refine Eff.start id m (s.put id (some c)).conn hp ha ?_ rfl
        simp only [Css.put, ha]
      · next ha =>
        obtain ⟨rfl, rfl⟩ := one_ok h
        exact Eff.queue id m _ hp ha rfl rfl
  split at h
  · split at h
    · exact hsoft (answer_soft h)
    · obtain ⟨s1, l1, l2, h1, h2, rfl⟩ := andThen_ok h
      obtain ⟨rfl, rfl⟩ := one_ok h1
      exact hsoft (Soft.trans (Soft.frame Frame.refl (by simp [soft])) (answer_soft h2))
  split at h
  · unfold reqRepl at h
    split at h
    · exact hsoft (answer_soft h)
    · obtain ⟨_, _, h⟩ := bind_ok h
      obtain ⟨_, _, h⟩ := bind_ok h
      obtain ⟨s1, l1, l2, h1, h2, rfl⟩ := andThen_ok h
      obtain ⟨rfl, rfl⟩ := one_ok h1
      split at h2
      · next hn => exact hsoft (Soft.trans (Soft.frame Frame.refl (by simp [soft, hn])) (answer_soft h2))
      · next hn =>
        obtain ⟨h3, h4⟩ := latrAll_eff h2
        refine Eff.taken s'.conn env.spawn.toNat (some id) s.dmn [.req id m] _ l2 (by rw [h3]; rfl) (Or.inl ⟨id, env.spawn, rfl, by omega⟩) rfl ?_
        intro e he
        simp only [List.mem_append, List.mem_singleton] at he
        rcases he with rfl | he
        · rfl
        · exact h4 e he
  split at h
  · unfold reqTak1 at h
    split at h
    · exact hsoft (answer_soft h)
    · obtain ⟨_, _, h⟩ := bind_ok h
      obtain ⟨s1, l1, l2, h1, h2, rfl⟩ := andThen_ok h
      obtain ⟨rfl, rfl⟩ := one_ok h1
      obtain ⟨s2, l3, l4, h3, h4, rfl⟩ := andThen_ok h2
      obtain ⟨h5, h6⟩ := latrAll_eff h3
      have h7 := answer_soft h4
      obtain ⟨c', _, _, _, rfl⟩ := answer_ok h4
      refine Eff.taken (s2.put id _).conn (msgD m) s.ctl (some id) [.req id m] _ (l3 ++ l4) (by rw [h5]; rfl) (Or.inr ⟨id, rfl⟩) rfl ?_
      intro e he
      simp only [List.mem_append, List.mem_singleton] at he
      rcases he with rfl | he | he
      · rfl
      · exact h6 e he
      · exact h7.log e he
  split at h
  · unfold reqTak2 at h
    split at h
    · obtain ⟨s1, l1, l2, h1, h2, rfl⟩ := andThen_ok h
      exact hsoft (Soft.trans (answer_soft h1) (cleanup_soft h2))
    · obtain ⟨s1, l1, l2, h1, h2, rfl⟩ := andThen_ok h
      obtain ⟨rfl, rfl⟩ := one_ok h1
      exact hsoft (Soft.trans (Soft.frame Frame.refl (by simp [soft])) (respond_soft h2))
  split at h
  · unfold reqTake at h
    split at h
    · obtain ⟨s1, l1, l2, h1, h2, rfl⟩ := andThen_ok h
      exact hsoft (Soft.trans (answer_soft h1) (cleanup_soft h2))
    · obtain ⟨_, _, h⟩ := bind_ok h
      exact hsoft (Soft.trans (s1 := { s.put id (some c) with accepting := false }) (l := []) ⟨rfl, Or.inl rfl, by simp⟩ (respond_soft h))
  · exact hsoft (answer_soft h)

theorem recvData_soft {cfg s id c r env s' l} (h : recvData cfg s id c r env = .ok (s', l)) : Soft s s' l := by
  unfold recvData at h
  split at h
  · cases h
  obtain ⟨_, _, h⟩ := bind_ok h
  split at h
  · obtain ⟨rfl, rfl⟩ := one_ok h; exact Soft.refl
  · exact cleanup_soft h
  · exact cleanup_soft h
  · dsimp only at h
    split at h
    · split at h
      · exact Soft.trans (l := []) (Soft.frame Frame.put (by simp)) (answer_soft h)
      · obtain ⟨s1, l1, l2, h1, h2, rfl⟩ := andThen_ok h
        obtain ⟨rfl, rfl⟩ := one_ok h1
        exact Soft.trans (Soft.frame Frame.put (by simp [soft])) (answer_soft h2)
    · obtain ⟨rfl, rfl⟩ := one_ok h; exact Soft.frame Frame.put (by simp)

theorem readConn_eff {cfg s id c r env s' l} (h : readConn cfg s id c r env = .ok (s', l)) : Eff cfg s s' l := by
  unfold readConn at h
  obtain ⟨_, _, h⟩ := bind_ok h
  split at h
  · obtain ⟨_, _, h⟩ := bind_ok h
    exact Eff.soft (recvData_soft h)
  · split at h
    · obtain ⟨rfl, rfl⟩ := one_ok h; exact Eff.soft Soft.refl
    · exact Eff.soft (cleanup_soft h)
    · dsimp only at h
      split at h
      · exact Eff.soft (cleanup_soft h)
      · obtain ⟨s1, l1, l2, h1, h2, rfl⟩ := andThen_ok h
        obtain ⟨rfl, rfl⟩ := one_ok h1
        split at h2
        · exact Eff.soft (Soft.trans (Soft.frame Frame.put (by simp [soft])) (answer_soft h2))
        · split at h2
          · split at h2
            · exact Eff.soft (Soft.trans (Soft.frame Frame.refl (by simp [soft])) (cleanup_soft h2))
            · obtain ⟨rfl, rfl⟩ := one_ok h2
              exact Eff.soft (Soft.frame Frame.put (by simp [soft]))
          · exact request_eff h2

theorem writeData_soft {s id c r s' l} (h : writeData s id c r = .ok (s', l)) : Soft s s' l := by
  unfold writeData at h
  obtain ⟨_, _, h⟩ := bind_ok h
  split at h
  · cases h
  obtain ⟨_, _, h⟩ := bind_ok h
  split at h
  · split at h
    · obtain ⟨rfl, rfl⟩ := one_ok h; exact Soft.refl
    · exact cleanup_soft h
    · dsimp only at h
      split at h
      · obtain ⟨rfl, rfl⟩ := one_ok h; exact Soft.frame Frame.put (by simp [soft])
      · obtain ⟨rfl, rfl⟩ := one_ok h; exact Soft.frame Frame.put (by simp [soft])
  · cases h

theorem writeResp_soft {cfg s id c r s' l} (h : writeResp cfg s id c r = .ok (s', l)) : Soft s s' l := by
  unfold writeResp at h
  obtain ⟨_, _, h⟩ := bind_ok h
  dsimp only at h
  obtain ⟨_, _, h⟩ := bind_ok h
  split at h
  · obtain ⟨rfl, rfl⟩ := one_ok h; exact Soft.refl
  · exact cleanup_soft h
  · split at h
    · exact cleanup_soft h
    · split at h
      · split at h
        · obtain ⟨rfl, rfl⟩ := one_ok h; exact Soft.frame Frame.put (by simp [soft])
        · obtain ⟨rfl, rfl⟩ := one_ok h; exact Soft.frame Frame.put (by simp [soft])
      · split at h
        · obtain ⟨rfl, rfl⟩ := one_ok h; exact Soft.frame Frame.put (by simp [soft])
        · obtain ⟨rfl, rfl⟩ := one_ok h; exact Soft.frame Frame.put (by simp [soft])

theorem watch_eff {cfg s alive s' l} (h : watch cfg s alive = .ok (s', l)) : Eff cfg s s' l := by
  unfold watch at h
  obtain ⟨_, h1, h⟩ := bind_ok h
  have h1 := of_decide_eq_true (assert_ok h1)
  split at h
  · obtain ⟨rfl, rfl⟩ := one_ok h; exact Eff.soft Soft.refl
  · obtain ⟨s1, l1, l2, h2, h3, rfl⟩ := andThen_ok h
    obtain ⟨rfl, rfl⟩ := one_ok h2
    obtain ⟨s2, l3, l4, h4, h5, rfl⟩ := andThen_ok h3
    obtain ⟨s3, l5, l6, h6, h7, rfl⟩ := andThen_ok h5
    obtain ⟨rfl, rfl⟩ := one_ok h7
    have hs2 : Soft { s with timer := false } s2 l3 := by
      split at h4
      · exact answer_soft h4
      · obtain ⟨rfl, rfl⟩ := one_ok h4; exact Soft.refl
    have hs3 : Soft s2 s3 l5 := by
      split at h6
      · exact cleanup_soft h6
      · obtain ⟨rfl, rfl⟩ := one_ok h6; exact Soft.refl
    have hs := hs2.trans hs3
    have hnext : s3.next = s.next := by
      have e3 : s3.next = s2.next := by
        split at h6
        · obtain ⟨_, _, _, h8, _⟩ := cleanup_ok h6; rw [h8]
        · obtain ⟨rfl, _⟩ := one_ok h6; rfl
      rw [e3]
      split at h4
      · obtain ⟨_, _, _, _, rfl⟩ := answer_ok h4; rfl
      · obtain ⟨rfl, _⟩ := one_ok h4; rfl
    refine Eff.died s3.conn (l3 ++ l5) h1 ?_ (by simp) hs.log
    rw [hs.eq, hnext]

theorem reload_eff {cfg s s' l} (ha : s.async = true) (h : reloadDone cfg s = .ok (s', l)) : Eff cfg s s' l := by
  unfold reloadDone at h
  split at h
  · cases h
  next x hx =>
  split at h
  · cases h
  next hj =>
  have hj : x.joined = false := by simpa using hj
  obtain ⟨s1, l1, l2, h1, h2, rfl⟩ := andThen_ok h
  obtain ⟨rfl, rfl⟩ := one_ok h1
  obtain ⟨s2, l3, l4, rfl, h3, h4⟩ := notify_ok h2
  obtain ⟨l5, hl35, h5, h6, h7, h8, h9⟩ := answers_ok h3
  have hl35 : l3 = l5 := hl35
  subst hl35
  have hsoft : ∀ e ∈ l3, soft e = true := by
    rw [h7]; intro e he; obtain ⟨i, _, rfl⟩ := List.mem_map.mp he; rfl
  obtain ⟨cn, hs2⟩ : ∃ cn, s2 = { s with conn := cn, async := !x.ended, threads := s.threads.set s.tid ⟨true, true⟩ } := ⟨s2.conn, by rw [h6]⟩
  clear h6
  subst hs2
  rcases h4 with ⟨h10, h4⟩ | ⟨h10, rfl, rfl⟩
  · obtain ⟨rfl, rfl⟩ := load_ok h4
    refine Eff.again x cn l3 ha hx hj h10 (by simp) (by simp) hsoft
  · have h10 : s.queued = [] := h10
    refine Eff.joined x cn l3 ha hx hj h10 (by simp [h10]) (by simp) hsoft

theorem step_eff {cfg s e s' l} (h : step cfg s e = .ok (s', l)) : Eff cfg s s' l := by
  have hsame : (Outcome.ok (s, []) : Step) = .ok (s', l) → Eff cfg s s' l := by
    intro h'; obtain ⟨rfl, rfl⟩ := one_ok h'; exact Eff.soft Soft.refl
  cases e with
  | accept p =>
    simp only [step] at h
    split at h
    · obtain ⟨rfl, rfl⟩ := one_ok h
      exact Eff.soft ⟨rfl, Or.inl rfl, by simp [soft]⟩
    · exact hsame h
  | read id r env =>
    simp only [step] at h
    split at h
    · exact hsame h
    · split at h
      · exact readConn_eff h
      · exact hsame h
  | write id r =>
    simp only [step] at h
    split at h
    · exact hsame h
    · split at h
      · split at h
        · exact Eff.soft (writeData_soft h)
        · exact Eff.soft (writeResp_soft h)
      · exact hsame h
  | tick alive =>
    simp only [step] at h
    split at h
    · exact watch_eff h
    · exact hsame h
  | ended t =>
    simp only [step] at h
    split at h
    · exact hsame h
    · next x hx =>
      split at h
      · exact hsame h
      · next he =>
        obtain ⟨rfl, rfl⟩ := one_ok h
        exact Eff.ended t x hx (by simpa using he) rfl rfl
  | async =>
    simp only [step] at h
    split at h
    · next ha => exact reload_eff ha h
    · exact hsame h
  | signal =>
    simp only [step] at h
    split at h
    · exact hsame h
    · next hp =>
      obtain ⟨rfl, rfl⟩ := one_ok h
      exact Eff.signal (Classical.not_not.mp hp) rfl rfl

end Gdnsd.Css
