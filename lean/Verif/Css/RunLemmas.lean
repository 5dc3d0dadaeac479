/-
The invariants hold in every run.
-/
import Verif.Css.StepLemmas
namespace Gdnsd.Css
open CssSpec

theorem J.accept {cfg s l p s' l'} (h : J cfg none s l) (hr : accept s p = .ok (s', l')) : J cfg none s' (l ++ l') := by
  have hA := h.a.accept hr
  obtain ⟨hn1, hn2⟩ := h.a.fresh s.next (Nat.le_refl _)
  obtain ⟨rfl, rfl⟩ := one_ok hr
  refine ⟨hA, h.f.snoc (FineB.plain (Or.inl ⟨_, _, rfl⟩)), ?_⟩
  have hb := h.b.snoc (e := .accept s.next p) (by simp [Quiet]) (by simp [turn])
  have hne : ∀ k c, s.conn k = some c → k ≠ s.next := by rintro k c hk rfl; rw [hn1] at hk; cases hk
  have hold : ∀ k c, s.conn k = some c → (s.put s.next (some ⟨p, [], [], none, 0, 0, .readingReq, true, false, true⟩)).conn k = some c := by
    intro k c hk; simp only [Css.put, if_neg (hne k c hk)]; exact hk
  have hnew : ∀ k c, (s.put s.next (some ⟨p, [], [], none, 0, 0, .readingReq, true, false, true⟩)).conn k = some c → c.st ≠ .readingReq → s.conn k = some c := by
    intro k c hk hst
    by_cases hk' : k = s.next
    · simp only [Css.put, if_pos hk', Option.some.injEq] at hk; subst hk; exact absurd rfl hst
    · simpa only [Css.put, if_neg hk'] using hk
  refine ⟨hb.pid, ?_, hb.nodup, hb.act, hb.noQ, hb.timer1, hb.timer0, ?_, ?_, ?_, ?_, hb.thr, hb.thr0, hb.load, hb.loadedLt, hb.joined, hb.actT, hb.actL, hb.acc⟩
  · intro id hid
    obtain ⟨h1, c, h2, h3⟩ := hb.que id hid
    exact ⟨h1, c, hold id c h2, h3⟩
  · intro k hk
    obtain ⟨h1, h2, c, h3, h4⟩ := hb.ctl k hk
    exact ⟨h1, h2, c, hold k c h3, h4⟩
  · intro k hk
    obtain ⟨⟨c, h1⟩, h2⟩ := hb.dmn k hk
    exact ⟨⟨c, hold k c h1⟩, h2⟩
  · intro k c hk hst
    exact hb.fds k c (hnew k c hk (by rw [hst]; decide)) hst
  · intro k c hk hst
    exact hb.waiting k c (hnew k c hk (by rw [hst]; decide)) hst

theorem J.ended {cfg s l t x} (h : J cfg none s l) (hx : s.threads[t]? = some x) :
    J cfg none { s with threads := s.threads.set t { x with ended := true }, async := true } l := by
  refine ⟨⟨h.a.conn, h.a.fresh⟩, h.f, ?_⟩
  have hb := h.b
  have hset : ∀ (u : Nat) (y : Thread), (s.threads.set t { x with ended := true })[u]? = some y → ∃ z, s.threads[u]? = some z ∧ z.joined = y.joined := by
    intro u y hy
    by_cases hu : t = u
    · subst hu
      rw [List.getElem?_set_self (List.getElem?_eq_some_iff.mp hx).1] at hy
      simp only [Option.some.injEq] at hy
      exact ⟨x, hx, by rw [← hy]⟩
    · rw [List.getElem?_set_ne hu] at hy; exact ⟨y, hy, rfl⟩
  have hset' : ∀ (u : Nat) (z : Thread), s.threads[u]? = some z → ∃ y, (s.threads.set t { x with ended := true })[u]? = some y ∧ y.joined = z.joined := by
    intro u z hz
    by_cases hu : t = u
    · subst hu
      rw [hx] at hz; simp only [Option.some.injEq] at hz; subst hz
      exact ⟨{ x with ended := true }, List.getElem?_set_self (List.getElem?_eq_some_iff.mp hx).1, rfl⟩
    · exact ⟨z, by rw [List.getElem?_set_ne hu]; exact hz, rfl⟩
  refine ⟨hb.pid, hb.que, hb.nodup, hb.act, hb.noQ, hb.timer1, hb.timer0, hb.ctl, hb.dmn, hb.fds, hb.waiting, ?_, ?_, ?_, ?_, ?_, ?_, hb.actL, hb.acc⟩
  · simpa using hb.thr
  · obtain ⟨z, h1, h2⟩ := hb.thr0
    obtain ⟨y, h3, h4⟩ := hset' 0 z h1
    exact ⟨y, h3, by rw [h4]; exact h2⟩
  · simpa using hb.load
  · simpa using hb.loadedLt
  · intro u y hu hy
    obtain ⟨z, h1, h2⟩ := hset u y hy
    rw [← h2]; exact hb.joined u z hu h1
  · intro ha
    obtain ⟨z, h1, h2, h3⟩ := hb.actT ha
    obtain ⟨y, h4, h5⟩ := hset' s.tid z h1
    exact ⟨y, h4, by rw [h5]; exact h2, Or.inl rfl⟩

theorem FineB.signal' {cfg a} (h : current a = 0) : FineB cfg a .signal := by
  constructor <;> intros <;> simp_all

theorem K.step {cfg s l e s' l'} (h : K cfg s l) (hr : s.running = true) (he : EventOk e) (hs : step cfg s e = .ok (s', l')) : K cfg s' (l ++ l') := by
  have hJ : J cfg none s l := ⟨h.a, h.f, h.b hr⟩
  have hsame : (Outcome.ok (s, []) : Step) = .ok (s', l') → K cfg s' (l ++ l') := by
    intro h'; cases h'; simpa using h
  cases e with
  | accept p =>
    simp only [Css.step] at hs
    split at hs
    · exact (hJ.accept hs).k
    · exact hsame hs
  | read id r env =>
    simp only [Css.step] at hs
    split at hs
    · exact hsame hs
    · next c hc =>
      split at hs
      · next hon => exact hJ.readConn he hc hon hs
      · exact hsame hs
  | write id r =>
    simp only [Css.step] at hs
    split at hs
    · exact hsame hs
    · next c hc =>
      split at hs
      · next hon =>
        split at hs
        · exact (hJ.writeData hc hon hs).k
        · exact (hJ.writeResp hc hon hs).k
      · exact hsame hs
  | tick alive =>
    simp only [Css.step] at hs
    split at hs
    · exact (hJ.watch hs).k
    · exact hsame hs
  | ended t =>
    simp only [Css.step] at hs
    split at hs
    · exact hsame hs
    · next x hx =>
      split at hs
      · exact hsame hs
      · cases hs
        simpa using (hJ.ended hx).k
  | async =>
    simp only [Css.step] at hs
    split at hs
    · exact (hJ.reload hs).k
    · exact hsame hs
  | signal =>
    simp only [Css.step] at hs
    split at hs
    · exact hsame hs
    · next hp =>
      have hp : s.pid = 0 := Classical.byContradiction hp
      cases hs
      refine ⟨h.a.loc (Loc.free rfl (by simp [owner])) rfl, h.f.snoc (FineB.signal' (by rw [← hJ.b.pid]; exact hp)), fun h0 => by cases h0⟩

theorem run_k {cfg s l} (h : Run cfg s l) : K cfg s l := by
  induction h with
  | init =>
    refine ⟨⟨fun id => ⟨Every.nil, fun c hc => by cases hc⟩, fun id _ => ⟨rfl, by simp⟩⟩, Every.nil, fun _ => ?_⟩
    refine ⟨rfl, by simp [init], by simp [init], fun _ => rfl, fun h => absurd rfl h, fun h => absurd rfl h, nofun, nofun, nofun,
      nofun, nofun, rfl, ⟨⟨true, true⟩, rfl, rfl⟩, ?_, by simp, ?_, fun h => absurd rfl h, by simp [init], nofun⟩
    · intro t; simp [init]; omega
    · intro t x ht hx
      have := (List.getElem?_eq_some_iff.mp hx).1
      simp [init] at this; omega
  | step _ hr he hs ih => exact ih.step hr he hs

end Gdnsd.Css
