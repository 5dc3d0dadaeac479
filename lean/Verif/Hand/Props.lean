/-
C124: how the helper of `extmon` gets its commands.
-/
import Verif.Hand.Lemmas
import Verif.Hand.Strict
import Verif.Util.Props
open Gdnsd.Conf (str)
open Gdnsd.Extmon
namespace Gdnsd.Hand
open HandSpec

theorem step_inv {C : List Cmd} (hC : Good C) {cap n : Nat} (hc : 0 < cap) {s : Sys} (h : Inv C s.d s.h s.up s.down n) (e : Ev) :
    ∃ t n', step cap e s = .ok t ∧ Inv C t.d t.h t.up t.down n' ∧ (if t = s then 0 else 1) + (n' + alive t) ≤ n + alive s ∧
      (e ≠ .killD → e ≠ .killH → s.dDead = false → s.hDead = false → t.dDead = false ∧ t.hDead = false) := by
  cases e with
  | d k =>
    rcases stepD_inv hC (k := k) hc h with ⟨e1, -⟩ | ⟨n', h1, h2, h3, h4, h5⟩ | ⟨h1, h2, h3⟩
    · refine ⟨s, n, by rw [step, e1], h, by simp, fun _ _ a b => ⟨a, b⟩⟩
    · refine ⟨_, n', rfl, h2, ?_, fun _ _ a b => ⟨h3.trans a, h4.trans b⟩⟩
      rw [if_neg h5]
      have : alive (stepD cap k s) = alive s := by simp only [alive, h3, h4]
      omega
    · refine ⟨{ s with dDead := true }, n, by rw [step, h3], h, ?_, fun _ _ a b => absurd (h1.symm.trans b) (by decide)⟩
      simp only [alive, h2]
      split <;> simp <;> omega
  | h k =>
    obtain ⟨t, e0, ⟨e1, -⟩ | ⟨n', h1, h2, h3, h4, h5⟩ | ⟨h1, h2, h3⟩⟩ := stepH_inv hC (k := k) hc h
    · subst e1
      refine ⟨t, n, e0, h, by simp, fun _ _ a b => ⟨a, b⟩⟩
    · refine ⟨_, n', e0, h2, ?_, fun _ _ a b => ⟨h3.trans a, h4.trans b⟩⟩
      rw [if_neg h5]
      have : alive t = alive s := by simp only [alive, h3, h4]
      omega
    · subst h3
      refine ⟨{ s with hDead := true }, n, e0, h, ?_, fun _ _ a b => absurd (h1.symm.trans a) (by decide)⟩
      simp only [alive, h2]
      split <;> simp <;> omega
  | killD =>
    refine ⟨{ s with dDead := true }, n, rfl, h, ?_, fun a => absurd rfl a⟩
    obtain ⟨d, hh, up, down, dd, hd⟩ := s
    cases dd <;> simp [alive] <;> omega
  | killH =>
    refine ⟨{ s with hDead := true }, n, rfl, h, ?_, fun _ a => absurd rfl a⟩
    obtain ⟨d, hh, up, down, dd, hd⟩ := s
    cases hd <;> simp [alive] <;> omega

theorem run_inv {C : List Cmd} (hC : Good C) {cap : Nat} (hc : 0 < cap) : ∀ (l : List Ev) (n : Nat) (s : Sys), Inv C s.d s.h s.up s.down n →
    ∃ t n', run cap l s = .ok t ∧ Inv C t.d t.h t.up t.down n' ∧ moves cap l s + (n' + alive t) ≤ n + alive s ∧
      (Calm l → s.dDead = false → s.hDead = false → t.dDead = false ∧ t.hDead = false)
  | [], n, s, h => ⟨s, n, rfl, h, by simp [moves], fun _ a b => ⟨a, b⟩⟩
  | e :: l, n, s, h => by
    obtain ⟨t, n', h1, h2, h3, h4⟩ := step_inv hC hc h e
    obtain ⟨u, m, g1, g2, g3, g4⟩ := run_inv hC hc l n' t h2
    refine ⟨u, m, by rw [run, h1, Outcome.bind_ok, g1], g2, ?_, ?_⟩
    · simp only [moves, h1]
      omega
    · intro hk a b
      have h5 := h4 (fun hx => hk.1 (by simp [hx])) (fun hx => hk.2 (by simp [hx])) a b
      exact g4 ⟨fun hx => hk.1 (List.mem_cons_of_mem _ hx), fun hx => hk.2 (List.mem_cons_of_mem _ hx)⟩ h5.1 h5.2

theorem substAll_filled {thing : Bytes} : ∀ {l m : List Bytes}, substAll thing l = .ok (some m) → Filled thing l m
  | [], m, h => by cases h; exact .nil
  | a :: l, m, h => by
    unfold substAll at h
    cases h1 : Util.subst a (str "%%ITEM%%") thing with
    | ub => rw [h1] at h; cases h
    | ok o =>
      rw [h1, Outcome.bind_ok] at h
      cases o with
      | none => cases h
      | some x =>
        dsimp only at h
        cases h2 : substAll thing l with
        | ub => rw [h2] at h; cases h
        | ok o2 =>
          rw [h2, Outcome.map_ok] at h
          cases o2 with
          | none => cases h
          | some y =>
            cases h
            exact .cons (Util.C110_replaced h1).2 (substAll_filled h2)

theorem cmds_asks : ∀ {mons : List Mon} {i : Nat} {C : List Cmd}, cmds i mons = .ok (some C) →
    C.length = mons.length ∧ ∀ j m, mons[j]? = some m → ∃ c, C[j]? = some c ∧ Asks (i + j) m c
  | [], i, C, h => by cases h; exact ⟨rfl, fun j m h => (by simp at h)⟩
  | m :: l, i, C, h => by
    unfold cmds at h
    cases h1 : substAll m.thing m.args with
    | ub => rw [h1] at h; cases h
    | ok o =>
      rw [h1, Outcome.bind_ok] at h
      cases o with
      | none => cases h
      | some args =>
        dsimp only at h
        cases h2 : cmds (i + 1) l with
        | ub => rw [h2] at h; cases h
        | ok o2 =>
          rw [h2, Outcome.map_ok] at h
          cases o2 with
          | none => cases h
          | some cs =>
            cases h
            obtain ⟨e1, e2⟩ := cmds_asks h2
            refine ⟨by simp [e1], ?_⟩
            intro j m' hj
            cases j with
            | zero =>
              simp only [List.getElem?_cons_zero, Option.some.injEq] at hj
              subst hj
              exact ⟨_, rfl, rfl, rfl, rfl, rfl, substAll_filled h1, rfl⟩
            | succ j =>
              obtain ⟨c, g1, g2⟩ := e2 j m' (by simpa using hj)
              exact ⟨c, by simpa using g1, by rw [show i + (j + 1) = i + 1 + j by omega]; exact g2⟩

theorem cmdMsgs_ok {junk : Bytes} (hj : junk.length = 2) : ∀ cs : List Cmd, cmdMsgs junk cs = .ok (cs.map fun c => (c.wire, str "CMD_ACK"))
  | [] => rfl
  | c :: l => by rw [cmdMsgs, cmdBuf_ok junk c hj, Outcome.bind_ok, cmdMsgs_ok hj l]; rfl

/-- The commands of the monitors can be handed over: there are from 1 to 65535, and each has a form on the wire. -/
structure Fit (mons : List Mon) (C : List Cmd) : Prop where
  made : cmds 0 mons = .ok (some C)
  pos : 0 < mons.length
  few : mons.length < 65536
  fits : ∀ c ∈ C, c.Fits

theorem Fit.good {mons : List Mon} {C : List Cmd} (h : Fit mons C) : Good C := by
  obtain ⟨h1, h2⟩ := cmds_asks h.made
  refine ⟨by rw [h1]; exact h.pos, by rw [h1]; exact h.few, h.fits, ?_⟩
  intro i c hc
  have hi : i < C.length := (List.getElem?_eq_some_iff.mp hc).1
  obtain ⟨m, hm⟩ : ∃ m, mons[i]? = some m := ⟨mons[i]'(by omega), by simp [h1 ▸ hi]⟩
  obtain ⟨c', g1, g2⟩ := h2 i m hm
  rw [hc] at g1
  cases g1
  rw [g2.idx]; omega

theorem start_ok {junk : Bytes} (hj : junk.length = 2) {mons : List Mon} {C : List Cmd} (h : Fit mons C) :
    ∃ s, start junk mons = .ok (some s) ∧ s.dDead = false ∧ s.hDead = false ∧ Inv C s.d s.h s.up s.down (weight (script C)) := by
  have hl := (cmds_asks h.made).1
  have hp : plan junk mons = .ok (some (script C)) := by
    unfold plan
    rw [h.made, Outcome.bind_ok]
    dsimp only
    rw [cmdMsgs_ok hj, Outcome.map_ok, ← hl]
    rfl
  refine ⟨_, by rw [start, hp]; rfl, rfl, rfl, ?_⟩
  exact Inv.next h.good (nx := some .helo) (num := 0) (cs := []) (l := script C) ⟨rfl, rfl⟩

/-- Whatever the sizes of the reads and writes and their order, and whoever is killed and when: nothing undefined happens. -/
theorem C124_safe {junk : Bytes} (hj : junk.length = 2) {cap : Nat} (hc : 0 < cap) {mons : List Mon} {C : List Cmd} (hf : Fit mons C) (l : List Ev) :
    ∃ s t, start junk mons = .ok (some s) ∧ run cap l s = .ok t := by
  obtain ⟨s, h1, -, -, h2⟩ := start_ok hj hf
  obtain ⟨t, n, h3, -⟩ := run_inv hf.good hc l _ s h2
  exact ⟨s, t, h1, h3⟩

theorem inv_done {C cs : List Cmd} {d : D} {h : H} {up down : Bytes} {n : Nat} (hi : Inv C d h up down n) (e : h = .done cs) : cs = C := by
  cases hi with
  | asking => cases e
  | asked => cases e
  | answering => cases e
  | @answered _ _ _ nx _ _ _ hx =>
    cases nx with
    | none => cases e; exact hx.1
    | some ph => cases e
  | over => cases e; rfl

/-- If the helper comes to the end of this, it has just the commands of the monitors, in their order, with the item in place of `%%ITEM%%`; and if the daemon does, the helper has come to it. -/
theorem C124_same {junk : Bytes} (hj : junk.length = 2) {cap : Nat} (hc : 0 < cap) {mons : List Mon} {C : List Cmd} (hf : Fit mons C) {l : List Ev} {s t : Sys}
    (hs : start junk mons = .ok (some s)) (hr : run cap l s = .ok t) :
    (∀ cs, t.h = .done cs → Commands mons cs) ∧ (t.d = .done → ∃ cs, t.h = .done cs ∧ Commands mons cs) := by
  obtain ⟨s', h1, -, -, h2⟩ := start_ok hj hf
  cases h1.symm.trans hs
  obtain ⟨t', n, h3, h4, -⟩ := run_inv hf.good hc l _ s h2
  cases h3.symm.trans hr
  have hC : Commands mons C := by
    obtain ⟨e1, e2⟩ := cmds_asks hf.made
    refine ⟨e1, fun i m hm => ?_⟩
    obtain ⟨c, g1, g2⟩ := e2 i m hm
    exact ⟨c, g1, by rw [Nat.zero_add] at g2; exact g2⟩
  constructor
  · intro cs hcs
    rw [inv_done h4 hcs]
    exact hC
  · intro hd
    obtain ⟨d, hh, up, down, dd, hd'⟩ := t
    dsimp only at hd h4 ⊢
    subst hd
    cases h4
    exact ⟨C, rfl, hC⟩

/-- No deadlock: as long as it is not over for both, the next call of one of them does something, also if the other was killed. -/
theorem C124_live {junk : Bytes} (hj : junk.length = 2) {cap : Nat} (hc : 0 < cap) {mons : List Mon} {C : List Cmd} (hf : Fit mons C) {l : List Ev} {s t : Sys}
    (hs : start junk mons = .ok (some s)) (hr : run cap l s = .ok t) (ho : ¬ Over t) :
    ∃ e u, (e = .d 1 ∨ e = .h 1) ∧ step cap e t = .ok u ∧ u ≠ t := by
  obtain ⟨s', h1, -, -, h2⟩ := start_ok hj hf
  cases h1.symm.trans hs
  obtain ⟨t', n, h3, h4, -⟩ := run_inv hf.good hc l _ s h2
  cases h3.symm.trans hr
  have flip : ∀ {b : Bool}, b = false → b ≠ true := fun h => by rw [h]; decide
  rcases stepD_inv hf.good (k := 1) hc h4 with ⟨-, hbd⟩ | ⟨n', -, -, -, -, h5⟩ | ⟨-, a2, a3⟩
  · obtain ⟨u, e0, ⟨-, hbh⟩ | ⟨n', -, -, -, -, h5⟩ | ⟨-, a2, a3⟩⟩ := stepH_inv hf.good (k := 1) hc h4
    · exfalso
      apply ho
      have hbd' : t.dDead = true ∨ BlockedD cap t := hbd.elim .inl fun h => h.elim (fun h => absurd h (by decide)) .inr
      have hbh' : t.hDead = true ∨ BlockedH cap t := hbh.elim .inl fun h => h.elim (fun h => absurd h (by decide)) .inr
      clear hbd hbh hr h3
      obtain ⟨d, hh, up, down, dd, hd⟩ := t
      dsimp only at h4 hbd' hbh'
      unfold Over
      dsimp only
      cases h4 with
      | asking _ _ _ =>
        rcases hbd' with hbd | ⟨x1, x2⟩ <;> rcases hbh' with hbh | ⟨y1, y2⟩
        · exact ⟨.inl hbd, .inl hbh⟩
        · exact absurd hbd (flip y1)
        · exact absurd hbh (flip x1)
        · dsimp only at x2 y2; rw [y2] at x2; simp at x2; omega
      | asked _ _ hne =>
        rcases hbd' with hbd | ⟨x1, x2⟩ <;> rcases hbh' with hbh | ⟨y1, y2⟩
        · exact ⟨.inl hbd, .inl hbh⟩
        · exact absurd hbd (flip y1)
        · exact absurd hbh (flip x1)
        · exact absurd y2 hne
      | answering _ _ _ =>
        rcases hbd' with hbd | ⟨x1, x2⟩ <;> rcases hbh' with hbh | ⟨y1, y2⟩
        · exact ⟨.inl hbd, .inl hbh⟩
        · exact absurd hbd (flip y1)
        · exact absurd hbh (flip x1)
        · dsimp only at x2 y2; rw [x2] at y2; simp at y2; omega
      | @answered _ _ _ nx _ cs _ _ _ hne =>
        rcases hbd' with hbd | ⟨x1, x2⟩
        · refine ⟨.inl hbd, ?_⟩
          rcases hbh' with hbh | hbh
          · exact .inl hbh
          · cases nx with
            | none => exact .inr ⟨cs, rfl⟩
            | some ph => exact absurd hbd (flip hbh.1)
        · exact absurd x2 hne
      | over => exact ⟨.inr rfl, .inr ⟨C, rfl⟩⟩
    · exact ⟨.h 1, u, .inr rfl, e0, h5⟩
    · refine ⟨.h 1, u, .inr rfl, e0, ?_⟩
      intro hx
      rw [a3] at hx
      have := congrArg Sys.hDead hx
      rw [a2] at this
      cases this
  · exact ⟨.d 1, _, .inl rfl, rfl, h5⟩
  · refine ⟨.d 1, _, .inl rfl, rfl, ?_⟩
    intro hx
    rw [a3] at hx
    have := congrArg Sys.dDead hx
    rw [a2] at this
    cases this

/-- It comes to an end: the events that do anything are at most two for each byte of the messages and two more. -/
theorem C124_ends {junk : Bytes} (hj : junk.length = 2) {cap : Nat} (hc : 0 < cap) {mons : List Mon} {C : List Cmd} (hf : Fit mons C) {s : Sys}
    (hs : start junk mons = .ok (some s)) (l : List Ev) :
    moves cap l s ≤ 2 * (4 + 8 + 7 + 8 + (C.map fun c => c.wire.length + 7).sum + 8 + 12) + 2 := by
  obtain ⟨s', h1, hd, hh, h2⟩ := start_ok hj hf
  cases h1.symm.trans hs
  obtain ⟨t, n, -, -, h5, -⟩ := run_inv hf.good hc l _ s h2
  have ha : alive s = 2 := by simp [alive, hd, hh]
  have hw : ∀ cs : List Cmd, weight (rest cs) = 2 * (cs.map fun c => c.wire.length + 7).sum + 40 := by
    intro cs
    induction cs with
    | nil => decide
    | cons c r ih =>
      have e : weight (rest (c :: r)) = 2 * c.wire.length + 2 * (str "CMD_ACK").length + weight (rest r) := rfl
      rw [e, ih, show (str "CMD_ACK").length = 7 by decide, List.map_cons, List.sum_cons]
      omega
  have hw2 : weight (script C) = 54 + weight (rest C) := by
    have e : weight (script C) = 2 * (str "HELO").length + 2 * (str "HELO_ACK").length + (2 * (str "CMDS:" ++ be16 C.length).length + 2 * (str "CMDS_ACK").length + weight (rest C)) := rfl
    rw [e, List.length_append, show (str "HELO").length = 4 by decide, show (str "HELO_ACK").length = 8 by decide, show (str "CMDS:").length = 5 by decide, show (str "CMDS_ACK").length = 8 by decide,
      show (be16 C.length).length = 2 by rfl]
    omega
  rw [hw] at hw2
  omega

/-- If nobody is killed, neither ends before it is done. -/
theorem C124_calm {junk : Bytes} (hj : junk.length = 2) {cap : Nat} (hc : 0 < cap) {mons : List Mon} {C : List Cmd} (hf : Fit mons C) {l : List Ev} {s t : Sys}
    (hs : start junk mons = .ok (some s)) (hr : run cap l s = .ok t) (hk : Calm l) :
    t.dDead = false ∧ t.hDead = false ∧ (Over t → ∃ cs, t.d = .done ∧ t.h = .done cs ∧ Commands mons cs) := by
  have hsame := C124_same hj hc hf hs hr
  obtain ⟨s', h1, hd, hh, h2⟩ := start_ok hj hf
  cases h1.symm.trans hs
  obtain ⟨t', n, h3, -, -, h5⟩ := run_inv hf.good hc l _ s h2
  cases h3.symm.trans hr
  obtain ⟨a, b⟩ := h5 hk hd hh
  refine ⟨a, b, ?_⟩
  rintro ⟨h6 | h6, -⟩
  · rw [a] at h6; cases h6
  · obtain ⟨cs, g1, g2⟩ := hsame.2 h6
    exact ⟨cs, h6, g1, g2⟩

/-- The helper, with whatever at the other ends of its pipes: it does nothing undefined, and goes on only if it was told commands as the daemon would have told it, of which each is well-formed and has its number. -/
theorem C124_helper {cap : Nat} (l : List Ext) (d : D) :
    ∃ t, runH cap l ⟨d, .recv .helo [] 0 [], [], [], false, false⟩ = .ok t ∧ ∀ cs, t.h = .done cs →
      (∃ x, fed l = HandSpec.told cs ++ x) ∧ 0 < cs.length ∧ cs.length < 65536 ∧ (∀ c ∈ cs, c.Fits) ∧ ∀ (i : Nat) (c : Cmd), cs[i]? = some c → c.idx = i := by
  obtain ⟨t, h1, h2⟩ := runH_heard (cap := cap) l ⟨d, .recv .helo [] 0 [], [], [], false, false⟩ [] (.inr ⟨rfl, [], ⟨rfl, rfl, by decide⟩, rfl⟩)
  refine ⟨t, h1, fun cs hcs => ?_⟩
  rcases h2 with ⟨-, h2⟩ | ⟨-, z, h2, h3⟩
  · exact absurd hcs (h2 cs)
  · rw [hcs] at h2
    obtain ⟨num, ⟨e1, e2, e3, e4, e5⟩, rfl⟩ := h2
    refine ⟨⟨t.up, ?_⟩, e2, e3, e4, e5⟩
    rw [List.nil_append] at h3
    rw [h3, e1]
    rfl

/-- The daemon, with whatever at the other ends: it goes on only if it was given all the answers that it waits for, in their order. -/
theorem C124_daemon {junk : Bytes} (hj : junk.length = 2) {cap : Nat} {mons : List Mon} {C : List Cmd} (hm : cmds 0 mons = .ok (some C)) {s : Sys} (hs : start junk mons = .ok (some s)) (l : List Ext)
    (hd : (runD cap l s).d = .done) :
    ∃ x, fed l = str "HELO_ACK" ++ str "CMDS_ACK" ++ (List.replicate mons.length (str "CMD_ACK")).flatten ++ str "END_CMDS_ACK" ++ x := by
  have hl := (cmds_asks hm).1
  have hp : plan junk mons = .ok (some (script C)) := by
    unfold plan
    rw [hm, Outcome.bind_ok]
    dsimp only
    rw [cmdMsgs_ok hj, Outcome.map_ok, ← hl]
    rfl
  have he : s = ⟨D.next (script C), .recv .helo [] 0 [], [], [], false, false⟩ := by
    rw [start, hp] at hs
    cases hs
    rfl
  subst he
  have h := runD_heeds (cap := cap) l ⟨D.next (script C), .recv .helo [] 0 [], [], [], false, false⟩ ((script C).map Prod.snd).flatten [] (.inr ⟨rfl, [], rfl, rfl⟩)
  rcases h with ⟨-, h⟩ | ⟨-, z, h1, h2⟩
  · exact absurd hd h
  · rw [hd] at h1 h2
    refine ⟨(runD cap l ⟨D.next (script C), .recv .helo [] 0 [], [], [], false, false⟩).down, ?_⟩
    have h3 : z = ((script C).map Prod.snd).flatten := by rw [h1]; simp [D.due]
    have h4 : (C.map fun c => (c.wire, str "CMD_ACK")).map Prod.snd = List.replicate mons.length (str "CMD_ACK") := by
      rw [← hl, List.map_map]
      exact List.map_const'
    rw [List.nil_append] at h2
    rw [h2, h3]
    simp only [script, rest, List.map_cons, List.map_append, List.flatten_cons, List.flatten_append, h4, fini, D.part]
    simp

/-- With 65536 monitors or more, a helper never gets their commands, whatever happens. -/
theorem C124_false_many {cap : Nat} {mons : List Mon} (hm : 65536 ≤ mons.length) (l : List Ext) (d : D) {t : Sys} (h : runH cap l ⟨d, .recv .helo [] 0 [], [], [], false, false⟩ = .ok t) :
    ∀ cs, t.h = .done cs → ¬ Commands mons cs := by
  intro cs hcs hc
  obtain ⟨t', h1, h2⟩ := C124_helper (cap := cap) l d
  cases h1.symm.trans h
  have := (h2 cs hcs).2.2.1
  have := hc.1
  omega

/-- With 65536 monitors, the count that is sent is zero, and the helper ends when it has read it; with 65537 the helper expects just one command. -/
theorem C124_false_count (C D : List Cmd) (hC : C.length = 65536) (hD : D.length = 65537) :
    H.got .count (str "CMDS:" ++ be16 C.length) 0 [] = .ok none ∧
    H.got .count (str "CMDS:" ++ be16 D.length) 0 [] = .ok (some (.send (str "CMDS_ACK") (some .cmd) 1 [])) := by
  rw [hC, hD]
  decide +kernel

/-- Two monitors. -/
def demo : List Mon := [⟨10, 20, 3, [str "/bin/x", str "-a%%ITEM%%"], str "::1", str "d"⟩, ⟨1, 2, 0, [str "%%ITEM%%/y"], str "h", []⟩]
def demoC : List Cmd := [⟨0, 10, 20, 3, [str "/bin/x", str "-a::1"], str "d"⟩, ⟨1, 1, 2, 0, [str "h/y"], []⟩]

example : Fit demo demoC := by
  refine ⟨by decide +kernel, by decide, by decide, ?_⟩
  intro c hc
  simp only [demoC, List.mem_cons, List.not_mem_nil, or_false] at hc
  rcases hc with rfl | rfl
  · exact ⟨⟨by decide, by decide, by decide, by decide, by decide, by decide, by decide, by decide⟩, by decide, by decide⟩
  · exact ⟨⟨by decide, by decide, by decide, by decide, by decide, by decide, by decide, by decide⟩, by decide, by decide⟩

/-- With a pipe of five bytes it comes to the end. -/
example : ((start [1, 2] demo).bind fun s => match s with | none => .ub | some s => run 5 ((List.replicate 80 [Ev.d 3, Ev.h 2, Ev.d 0, Ev.h 9]).flatten) s) =
    .ok ⟨.done, .done demoC, [], [], false, false⟩ := by decide +kernel

/-- A helper that is told one command in pieces, by hand. -/
example : ((runH 64 ([.feed (HandSpec.told (demoC.take 1)), .drain 64] ++ (List.replicate 40 [Ext.call 5, Ext.drain 64]).flatten) ⟨.done, .recv .helo [] 0 [], [], [], false, false⟩).map fun t => t.h) =
    .ok (.done (demoC.take 1)) := by decide +kernel

/-- A daemon that is given the answers beforehand. -/
example : ((start [1, 2] demo).map fun s => s.map fun s => (runD 4096 ([.feed (str "HELO_ACKCMDS_ACKCMD_ACKCMD_ACKEND_CMDS_ACK")] ++ List.replicate 20 (Ext.call 500)) s).d) = .ok (some .done) := by decide +kernel

/-- The helper is killed, and the daemon does not wait for ever. -/
example : ((start [1, 2] demo).bind fun s => match s with | none => .ub | some s => (run 5 [Ev.d 3, Ev.h 2, Ev.killH, Ev.d 1] s).map fun t => (t.dDead, t.hDead)) =
    .ok (true, true) := by decide +kernel

end Gdnsd.Hand
