/-
Every step keeps the invariant.
-/
import Verif.Maps.InvLemmas
namespace Gdnsd.Maps
open Gdnsd.Geo

theorem idle_iff {w : Writer} : w.isIdle = true ↔ w = .idle := by cases w <;> simp [Writer.isIdle]

theorem conts_prefix {strs : Strs} {a b : List Nat} (h : a <+: b) : conts strs a <+: conts strs b := by
  obtain ⟨c, rfl⟩ := h
  rw [conts_append]; exact List.prefix_append _ _

theorem getElem?_append_some {α : Type} {l : List α} {x : α} {i : Nat} {a : α} (h : l[i]? = some a) : (l ++ [x])[i]? = some a :=
  getElem?_prefix (List.prefix_append _ _) h

theorem nets_stores (cfg : List NetCfg) : Stores fun s l => { s with nets := some l, netsCfg := cfg } :=
  ⟨fun s l => ⟨some l, cfg, s.geo, s.geoCfg, rfl⟩⟩

theorem geo_stores (g : GeoCfg) : Stores fun s l => { s with geo := some l, geoCfg := some g } :=
  ⟨fun s l => ⟨s.nets, s.netsCfg, some l, some g, rfl⟩⟩

theorem inv_begin {sort dflt maps s} (hs : SortOk sort) (h : Inv sort dflt maps s) (hidle : s.writer = .idle)
    (hc : s.timer = true ∨ (s.started = false ∧ s.tree = none ∧ s.nets.isSome = true)) :
    match beginUpdate sort s with
    | .ub => ∃ nets, s.nets = some nets ∧ 132000 < nets.length + (s.geo.elim 0 List.length)
    | .ok none => False
    | .ok (some s') => Inv sort dflt maps s' ∧ s'.ignoreEcs = s.ignoreEcs := by
  have hi : s.writer.isIdle = true := idle_iff.mpr hidle
  obtain ⟨i, o, hlat, ho, hcfg⟩ := h.cur
  have hpn : s.pend = some i ∧ s.nets.isSome = true := by
    rcases hc with ht | ⟨_, ht, hn⟩
    · obtain ⟨h1, h2⟩ := h.timer ht
      refine ⟨?_, h2⟩
      obtain ⟨p, hp⟩ := Option.isSome_iff_exists.mp h1
      unfold State.latest at hlat
      rw [hp] at hlat ⊢
      exact hlat
    · refine ⟨?_, hn⟩
      unfold State.latest at hlat
      rw [h.unpub hi ht] at hlat
      simpa using hlat
  obtain ⟨hp, hn⟩ := hpn
  obtain ⟨nets, hn⟩ := Option.isSome_iff_exists.mp hn
  have hm := made_ok hs (by rw [conts_length]; exact ho.2.2) hcfg.fixed.1 (hcfg.nets nets hn) hcfg.geo s.ignoreEcs
  unfold beginUpdate
  rw [hp, hn]
  dsimp only
  cases hT : mkTree sort s.geo nets with
  | ub =>
    rw [hT] at hm
    exact ⟨nets, rfl, hm⟩
  | ok T =>
    rw [hT] at hm
    dsimp only at hm
    rw [Outcome.bind_ok]
    dsimp only
    refine ⟨⟨?_, ?_, fun hb => (by cases hb), ?_, fun ht => (by cases ht), h.started, fun _ hd => (by cases hd), fun hb => (by cases hb), ?_,
      fun _ hb => (by cases hb), fun _ => (by first | rfl | simp), h.made, ?_, fun t ht => (by cases ht), ?_, ?_⟩, rfl⟩
    · exact ⟨i, o, rfl, ho, hcfg.congr rfl (by first | rfl | exact hn.symm) rfl rfl rfl⟩
    · intro l hl
      rcases hl with hl | hl
      · have hl : some i = some l := hl
        obtain rfl := Option.some.inj hl
        exact ⟨o, ho⟩
      · exact h.objs l (Or.inl hl)
    · intro _
      refine ⟨i, rfl, rfl, ?_, (by first | rfl | simp), rfl⟩
      intro hr
      have hr : s.dclists = some i := hr
      exact (h.pend hi i i hp hr).1 rfl
    · intro hd
      rcases hd with hd | hd
      · cases hd
      · cases hd
    · intro t ht
      rcases ht with ht | ht
      · obtain ⟨T', m, D, o', h1, h2, h3, h4, h5, h6⟩ := h.trees t (Or.inl ht)
        exact ⟨T', m, i, o, h1, h2, h3, rfl, ho.1, h6.trans (conts_prefix ((h.pend hi i D hp h4).2 o o' ho.1 h5))⟩
      · cases ht
    · intro a b T' hw
      have hw : Writer.lists s.tree s.dclists T = .lists a b T' := hw
      injection hw with e1 e2 e3
      subst e1 e2 e3
      refine ⟨rfl, ?_⟩
      intro p o' hp' ho'
      obtain rfl := Option.some.inj (show some i = some p from hp')
      have ho' : s.objs[i]? = some (some o') := ho'
      rw [ho.1] at ho'
      obtain rfl := Option.some.inj (Option.some.inj ho')
      exact hm
    · intro r ph hr
      have := h.readers r ph hr
      have hT' : ∀ {t}, SeesT s r t → s.tree = some t := by
        intro t ht
        rcases ht with ht | ht
        · exact ht
        · rw [hidle] at ht; cases ht.1
      have hL' : ∀ {t}, SeesL s r t → s.dclists = some t := by
        intro t ht
        rcases ht with ht | ht
        · exact ht
        · rw [hidle] at ht; cases ht.1
      cases ph with
      | off => trivial
      | on c => exact this
      | tree c t => exact ⟨this.1, this.2.1, Or.inl (hT' this.2.2)⟩
      | idx c t d => exact ⟨this.1, Or.inl (hT' this.2.1), this.2.2⟩
      | arr c t d l => exact ⟨this.1, Or.inr ⟨hL' this.2.1, trivial⟩, this.2.2⟩
      | str c t d i => exact this
      | got c t d b => exact this

theorem inv_assignTree {sort dflt maps s} (h : Inv sort dflt maps s) {a b T} (hw : s.writer = .lists a b T) :
    Inv sort dflt maps { s with
      trees := s.trees ++ [some T], tree := some s.trees.length, writer := .both a b
      made := s.made ++ [⟨(s.pend.bind fun p => s.objs[p]?.join).elim [] fun o => conts s.strs o.list, s.netsCfg, s.geoCfg⟩] } := by
  obtain ⟨p, hp, hd, hrl, hn, htm⟩ := h.busy (by rw [hw]; rfl)
  obtain ⟨o, ho⟩ := h.objs p (Or.inl hd)
  obtain ⟨hat, hnext⟩ := h.next a b T hw
  have hTO := hnext p o hp ho.1
  have hmade : (s.pend.bind fun p => s.objs[p]?.join).elim [] (fun o => conts s.strs o.list) = conts s.strs o.list := by
    rw [hp]
    simp only [Option.bind_some]
    rw [ho.1]; rfl
  rw [hmade]
  have hget : (s.made ++ [Made.mk (conts s.strs o.list) s.netsCfg s.geoCfg])[s.trees.length]? = some ⟨conts s.strs o.list, s.netsCfg, s.geoCfg⟩ := by
    rw [← h.made]; simp
  refine ⟨?_, ?_, fun hb => (by cases hb), ?_, h.timer, fun _ hb => (by cases hb), fun _ => (by rw [hd]; simp),
    fun hb => (by cases hb), ?_, fun _ hb => (by cases hb), fun _ => hn, by simp [h.made], ?_, ?_, fun _ _ _ hb => (by cases hb), ?_⟩
  · obtain ⟨i, o, h1, h2, h3⟩ := h.cur
    exact ⟨i, o, h1, h2, h3.congr rfl rfl rfl rfl rfl⟩
  · intro l hl
    refine h.objs l ?_
    rcases hl with hl | hl
    · exact Or.inl hl
    · exact Or.inr (by rw [hw]; exact hl)
  · intro _
    exact ⟨p, hp, hd, by rw [hw] at hrl; exact hrl, hn, htm⟩
  · intro _
    exact ⟨_, _, rfl, hget, rfl, rfl⟩
  · intro t ht
    rcases ht with ht | ht
    · obtain rfl := Option.some.inj (show some s.trees.length = some t from ht)
      exact ⟨T, _, p, o, by simp, hget, hTO, hd, ho.1, List.prefix_refl _⟩
    · have ht : a = some t := ht
      obtain ⟨T', m, D, o', h1, h2, h3, h4, h5, h6⟩ := h.trees t (Or.inl (by rw [← hat]; exact ht))
      exact ⟨T', m, D, o', getElem?_append_some h1, getElem?_append_some h2, h3, h4, h5, h6⟩
  · intro t ht hc
    have ht : a = some t := ht
    obtain rfl := Option.some.inj (show some s.trees.length = some t from hc)
    obtain ⟨T', m, D, o', h1, h2, h3, h4, h5, h6⟩ := h.trees s.trees.length (Or.inl (by rw [← hat]; exact ht))
    have := (List.getElem?_eq_some_iff.mp h1).1
    omega
  · intro r ph hr
    have := h.readers r ph hr
    have hT' : ∀ {t}, SeesT s r t → a = some t := by
      intro t ht
      rcases ht with ht | ht
      · rw [hat]; exact ht
      · rw [hw] at ht; cases ht.1
    have hL' : ∀ {l}, SeesL s r l → s.dclists = some l ∨ (b = some l ∧ True) := by
      intro l hl
      rcases hl with hl | hl
      · exact Or.inl hl
      · rw [hw] at hl; exact Or.inr hl
    cases ph with
    | off => trivial
    | on c => exact this
    | tree c t => exact ⟨this.1, this.2.1, Or.inr ⟨hT' this.2.2, trivial⟩⟩
    | idx c t d =>
      obtain ⟨h1, h2, m, e, h3, h4⟩ := this
      exact ⟨h1, Or.inr ⟨hT' h2, trivial⟩, m, e, getElem?_append_some h3, h4⟩
    | arr c t d l =>
      obtain ⟨h1, h2, m, e, o, h3, h4⟩ := this
      exact ⟨h1, hL' h2, m, e, o, getElem?_append_some h3, h4⟩
    | str c t d i =>
      obtain ⟨h1, m, e, h3, h4⟩ := this
      exact ⟨h1, m, e, getElem?_append_some h3, h4⟩
    | got c t d b =>
      obtain ⟨h1, m, h3, h4⟩ := this
      exact ⟨h1, m, getElem?_append_some h3, h4⟩

theorem online_mem {rs : List Phase} {r : Nat} {ph : Phase} (h : rs[r]? = some ph) (hne : ph ≠ .off) : r ∈ online rs := by
  unfold online
  rw [List.mem_filter, List.mem_range]
  refine ⟨(List.getElem?_eq_some_iff.mp h).1, ?_⟩
  rw [h]
  cases ph <;> simp_all

/-- Only the writer's set of readers to wait for changed. -/
theorem inv_wait {sort dflt maps s} (h : Inv sort dflt maps s) {w : Writer} {rs : List Phase} (hT : w.retT = s.writer.retT)
    (hL : w.retL = s.writer.retL) (hi : w.isIdle = s.writer.isIdle) (hst : w.stored = s.writer.stored)
    (hn : ∀ a b T, w = .lists a b T → s.writer = .lists a b T)
    (hr : ∀ r ph, rs[r]? = some ph → ph = .off ∨ (s.readers[r]? = some ph ∧ (s.writer.holds r → w.holds r))) :
    Inv sort dflt maps { s with readers := rs, writer := w } := by
  refine ⟨?_, ?_, ?_, ?_, h.timer, h.started, h.tree, ?_, ?_, ?_, h.loaded, h.made, ?_, ?_, ?_, ?_⟩
  · obtain ⟨i, o, h1, h2, h3⟩ := h.cur
    exact ⟨i, o, h1, h2, h3.congr rfl rfl rfl rfl rfl⟩
  · intro l hl; exact h.objs l (by rw [← hL]; exact hl)
  · intro hb; exact h.pend (by rw [← hi]; exact hb)
  · intro hb
    obtain ⟨p, h1, h2, h3, h4⟩ := h.busy (by rw [← hi]; exact hb)
    exact ⟨p, h1, h2, by rw [← hL] at h3; exact h3, h4⟩
  · intro hb; exact h.unpub (by rw [← hi]; exact hb)
  · intro hb; exact h.done (by rw [← hst]; exact hb)
  · intro hs hb; exact h.armed hs (by rw [← hi]; exact hb)
  · intro t ht; exact h.trees t (by rw [← hT]; exact ht)
  · intro t ht; exact h.fresh t (by rw [← hT]; exact ht)
  · intro a b T hw; exact h.next a b T (hn a b T hw)
  · intro r ph hr'
    rcases hr r ph hr' with rfl | ⟨hr', hh⟩
    · trivial
    have := h.readers r ph hr'
    have hT' : ∀ {t}, SeesT s r t → s.tree = some t ∨ (w.retT = some t ∧ w.holds r) := by
      intro t ht
      rcases ht with ht | ht
      · exact Or.inl ht
      · exact Or.inr ⟨by rw [hT]; exact ht.1, hh ht.2⟩
    have hL' : ∀ {l}, SeesL s r l → s.dclists = some l ∨ (w.retL = some l ∧ w.holds r) := by
      intro l hl
      rcases hl with hl | hl
      · exact Or.inl hl
      · exact Or.inr ⟨by rw [hL]; exact hl.1, hh hl.2⟩
    cases ph with
    | off => trivial
    | on c => exact this
    | tree c t => exact ⟨this.1, this.2.1, hT' this.2.2⟩
    | idx c t d => exact ⟨this.1, hT' this.2.1, this.2.2⟩
    | arr c t d l => exact ⟨this.1, hL' this.2.1, this.2.2⟩
    | str c t d i => exact this
    | got c t d b => exact this

theorem kill_ok {α : Type} {l : List (Option α)} {o : Option Nat} (h : ∀ i, o = some i → ∃ a, l[i]? = some (some a)) :
    ∃ l', kill l o = .ok l' ∧ l'.length = l.length ∧ ∀ j, o ≠ some j → l'[j]? = l[j]? := by
  cases o with
  | none => exact ⟨l, rfl, rfl, fun _ _ => rfl⟩
  | some i =>
    obtain ⟨a, ha⟩ := h i rfl
    unfold kill; dsimp only
    rw [ha]
    refine ⟨_, rfl, by simp, fun j hj => ?_⟩
    exact List.getElem?_set_ne (fun e => hj (by rw [e]))

theorem inv_finish {sort dflt maps s} (h : Inv sort dflt maps s) {a b} (hw : s.writer = .wait a b []) :
    ∃ trees objs, kill s.trees a = .ok trees ∧ kill s.objs b = .ok objs ∧
      Inv sort dflt maps { s with pend := none, trees := trees, objs := objs, writer := .idle } := by
  obtain ⟨p, hp, hd, hrl, hn, htm⟩ := h.busy (by rw [hw]; rfl)
  obtain ⟨o, ho⟩ := h.objs p (Or.inl hd)
  have hT : s.writer.retT = a := by rw [hw]; rfl
  have hL : s.writer.retL = b := by rw [hw]; rfl
  obtain ⟨trees, ht1, ht2, ht3⟩ := kill_ok (l := s.trees) (o := a) (by
    intro t ht
    obtain ⟨T, _, _, _, h1, _⟩ := h.trees t (Or.inr (by rw [hT]; exact ht))
    exact ⟨T, h1⟩)
  obtain ⟨objs, ho1, ho2, ho3⟩ := kill_ok (l := s.objs) (o := b) (by
    intro l hl
    obtain ⟨o, h1⟩ := h.objs l (Or.inr (by rw [hL]; exact hl))
    exact ⟨o, h1.1⟩)
  rw [hL] at hrl
  have hkeep : ∀ l, s.dclists = some l → objs[l]? = s.objs[l]? := by
    intro l hl
    refine ho3 l ?_
    rw [hd] at hl
    obtain rfl := Option.some.inj hl
    exact hrl
  have hkt : ∀ t, s.tree = some t → trees[t]? = s.trees[t]? := by
    intro t ht
    refine ht3 t ?_
    intro hc
    exact h.fresh t (by rw [hT]; exact hc) ht
  refine ⟨trees, objs, ht1, ho1, ⟨?_, ?_, fun _ q D hq => (by cases hq), fun hb => (by cases hb), fun ht => ?_, h.started, h.tree, ?_, ?_, fun _ _ _ => rfl,
    h.loaded, (by rw [ht2]; exact h.made), ?_, fun t ht => (by cases ht), fun _ _ _ hb => (by cases hb), ?_⟩⟩
  · obtain ⟨i, o', h1, h2, h3⟩ := h.cur
    unfold State.latest at h1
    rw [hp] at h1
    obtain rfl := Option.some.inj h1
    exact ⟨p, o', hd, ⟨by rw [hkeep p hd]; exact h2.1, h2.2⟩, h3.congr rfl rfl rfl rfl rfl⟩
  · intro l hl
    rcases hl with hl | hl
    · obtain ⟨o', h1⟩ := h.objs l (Or.inl hl)
      exact ⟨o', by rw [hkeep l hl]; exact h1.1, h1.2⟩
    · cases hl
  · have ht : s.timer = true := ht
    rw [htm] at ht; cases ht
  · intro _ ht
    obtain ⟨t, m, h1, _⟩ := h.done (Or.inr (by rw [hw]; rfl))
    have ht : s.tree = none := ht
    rw [ht] at h1; cases h1
  · intro _
    exact h.done (Or.inr (by rw [hw]; rfl))
  · intro t ht
    rcases ht with ht | ht
    · obtain ⟨T, m, D, o', h1, h2, h3, h4, h5, h6⟩ := h.trees t (Or.inl ht)
      exact ⟨T, m, D, o', by rw [hkt t ht]; exact h1, h2, h3, h4,
        by rw [hkeep D h4]; exact h5, h6⟩
    · cases ht
  · intro r ph hr
    have := h.readers r ph hr
    have hT' : ∀ {t}, SeesT s r t → s.tree = some t := by
      intro t ht
      rcases ht with ht | ht
      · exact ht
      · rw [hw] at ht; cases ht.2
    have hL' : ∀ {l}, SeesL s r l → s.dclists = some l := by
      intro l hl
      rcases hl with hl | hl
      · exact hl
      · rw [hw] at hl; cases hl.2
    cases ph with
    | off => trivial
    | on c => exact this
    | tree c t => exact ⟨this.1, this.2.1, Or.inl (hT' this.2.2)⟩
    | idx c t d => exact ⟨this.1, Or.inl (hT' this.2.1), this.2.2⟩
    | arr c t d l =>
      obtain ⟨h1, h2, m, e, o, h3, h4, h5, h6, h7, h8⟩ := this
      exact ⟨h1, Or.inl (hL' h2), m, e, o, h3, h4, h5, h6, by rw [hkeep l (hL' h2)]; exact h7, h8⟩
    | str c t d i => exact this
    | got c t d b => exact this

/-- A step fails badly only when a tree would become too large; otherwise the invariant
is kept. -/
theorem step_ok {sort dflt maps s} (hs : SortOk sort) (h : Inv sort dflt maps s) (a : Action) (ha : a.Wf s.ignoreEcs) :
    match step sort s a with
    | .ub => a = .begin ∧ ∃ nets, s.nets = some nets ∧ 132000 < nets.length + (s.geo.elim 0 List.length)
    | .ok none => True
    | .ok (some s') => Inv sort dflt maps s' ∧ s'.ignoreEcs = s.ignoreEcs := by
  cases a with
  | nets cfg =>
    cases cfg with
    | none =>
      simp only [step]
      cases s.writer.isIdle with
      | false => trivial
      | true => exact ⟨h, rfl⟩
    | some cfg =>
      simp only [step]
      by_cases hi : s.writer.isIdle = true
      · rw [if_pos hi]
        obtain ⟨o, h1, h2⟩ := update_ok h (idle_iff.mp hi) (load := loadNets sort cfg) (fun LC l => NetsOk sort LC cfg l)
          (fun strs list e1 e2 _ => loadNets_ok hs ha e1 e2) (nets_stores cfg)
          (by
            intro s1 LC l _ h1 h2
            refine ⟨h1.fixed, ?_, h1.geo⟩
            intro l' hl'
            obtain rfl := Option.some.inj (show some l = some l' from hl')
            exact h2)
          (fun s1 l _ => rfl)
        rw [h1]
        cases o with
        | none => trivial
        | some s' => exact h2 s' rfl
      · rw [if_neg hi]; trivial
  | geo g =>
    simp only [step]
    by_cases hi : s.writer.isIdle = true
    · rw [if_pos hi]
      obtain ⟨o, h1, h2⟩ := update_ok h (idle_iff.mp hi) (load := loadGeo sort s.dcmap g) (fun LC l => GeoOk sort LC dflt maps g l)
        (fun strs list e1 e2 e3 => loadGeo_ok hs g e1 e2 e3) (geo_stores g)
        (fun s1 LC l _ h1 h2 => ⟨h1.fixed, h1.nets, h2⟩)
        (fun s1 l hn => hn)
      rw [h1]
      cases o with
      | none => trivial
      | some s' => exact h2 s' rfl
    · rw [if_neg hi]; trivial
  | begin =>
    simp only [step]
    by_cases hc : s.writer.isIdle = true ∧ (s.timer = true ∨ (s.started = false ∧ s.tree = none ∧ s.nets.isSome = true))
    · rw [if_pos hc]
      have := inv_begin hs h (idle_iff.mp hc.1) hc.2
      cases hb : beginUpdate sort s with
      | ub => rw [hb] at this; exact ⟨trivial, this⟩
      | ok o =>
        rw [hb] at this
        cases o with
        | none => trivial
        | some s' => exact this
    · rw [if_neg hc]; trivial
  | assignTree =>
    simp only [step]
    cases hw : s.writer with
    | lists a b T => exact ⟨inv_assignTree h hw, rfl⟩
    | _ => trivial
  | sync =>
    simp only [step]
    cases hw : s.writer with
    | both a b =>
      refine ⟨inv_wait h (w := .wait a b (online s.readers)) (rs := s.readers) (by rw [hw]; rfl) (by rw [hw]; rfl) (by rw [hw]; rfl) (by rw [hw]; rfl)
        (fun _ _ _ hc => by cases hc) (fun r ph hr => ?_), rfl⟩
      by_cases hne : ph = .off
      · exact Or.inl hne
      · exact Or.inr ⟨hr, fun _ => online_mem hr hne⟩
    | _ => trivial
  | finish =>
    simp only [step]
    cases hw : s.writer with
    | wait a b ws =>
      cases ws with
      | nil =>
        obtain ⟨trees, objs, h1, h2, h3⟩ := inv_finish h hw
        dsimp only
        rw [h1, Outcome.bind_ok, h2, Outcome.bind_ok]
        exact ⟨h3, rfl⟩
      | cons _ _ => trivial
    | _ => trivial
  | start =>
    simp only [step]
    split
    · exact False.elim (by simp_all)
    · trivial
    · rename_i s' hh
      split at hh
      · rename_i hc
        obtain rfl := Option.some.inj (Outcome.ok.inj hh)
        refine ⟨⟨?_, h.objs, h.pend, h.busy, h.timer, fun _ => hc.2.1, h.tree, h.unpub, h.done, fun _ _ _ => hc.2.2, h.loaded, h.made, h.trees, h.fresh, h.next, ?_⟩, rfl⟩
        · obtain ⟨i, o, h1, h2, h3⟩ := h.cur
          exact ⟨i, o, h1, h2, h3.congr rfl rfl rfl rfl rfl⟩
        · intro r ph hr
          have := h.readers r ph hr
          cases ph with
          | off => trivial
          | _ => exact ⟨rfl, this.2⟩
      · cases hh
  | enter r c =>
    simp only [step]
    cases hr : s.readers[r]? with
    | none => trivial
    | some ph =>
      have := h.readers r ph hr
      cases ph with
      | off =>
        dsimp only
        cases hst : s.started with
        | false => trivial
        | true => exact ⟨inv_reader h ⟨hst, ha⟩, rfl⟩
      | got c' t d b => exact ⟨inv_reader h ⟨this.1, ha⟩, rfl⟩
      | _ => trivial
  | loadTree r =>
    simp only [step]
    cases hr : s.readers[r]? with
    | none => trivial
    | some ph =>
      have := h.readers r ph hr
      cases ph with
      | on c =>
        dsimp only
        cases ht : s.tree with
        | none => exact absurd ht (h.started this.1)
        | some t => exact ⟨inv_reader h ⟨this.1, this.2, Or.inl ht⟩, rfl⟩
      | _ => trivial
  | look r =>
    simp only [step]
    cases hr : s.readers[r]? with
    | none => trivial
    | some ph =>
      have := h.readers r ph hr
      cases ph with
      | tree c t =>
        dsimp only
        obtain ⟨h1, h2, h3⟩ := this
        obtain ⟨T, m, D, o, g1, g2, g3, _⟩ := h.trees t (by
          rcases h3 with h3 | h3
          · exact Or.inl h3
          · exact Or.inr h3.1)
        rw [g1]
        obtain ⟨d, k, e, f1, f2, f3, f4⟩ := g3 c h2
        dsimp only
        rw [f1]
        exact ⟨inv_reader h ⟨h1, h3, m, e, g2, f2, f3, f4⟩, rfl⟩
      | _ => trivial
  | loadLists r =>
    simp only [step]
    cases hr : s.readers[r]? with
    | none => trivial
    | some ph =>
      have := h.readers r ph hr
      cases ph with
      | idx c t d =>
        dsimp only
        obtain ⟨h1, h2, m, e, h3, h4, h5, h6⟩ := this
        obtain ⟨T, m', D, o, g1, g2, g3, g4, g5, g6⟩ := h.trees t (by
          rcases h2 with h2 | h2
          · exact Or.inl h2
          · exact Or.inr h2.1)
        rw [h3] at g2
        obtain rfl := Option.some.inj g2
        rw [g4]
        exact ⟨inv_reader h ⟨h1, Or.inl g4, m, e, o, h3, h4, h5, h6, g5, getElem?_prefix g6 h4⟩, rfl⟩
      | _ => trivial
  | getList r =>
    simp only [step]
    cases hr : s.readers[r]? with
    | none => trivial
    | some ph =>
      have := h.readers r ph hr
      cases ph with
      | arr c t d l =>
        dsimp only
        obtain ⟨h1, h2, m, e, o, h3, h4, h5, h6, h7, h8⟩ := this
        obtain ⟨o', g1⟩ := h.objs l (by
          rcases h2 with h2 | h2
          · exact Or.inl h2
          · exact Or.inr h2.1)
        have g2 := g1.1
        rw [h7] at g2
        obtain rfl := Option.some.inj (Option.some.inj g2)
        obtain ⟨i, g3, g4⟩ := conts_get g1.2.1 h8
        have hlt : d < o.list.length := (List.getElem?_eq_some_iff.mp g3).1
        rw [obj_ok h7, Outcome.bind_ok, show assert (decide (d < o.list.length ∧ d ≤ LIST_MAX)) = .ok () from by simp [assert, hlt, h5], Outcome.bind_ok, g3]
        exact ⟨inv_reader h ⟨h1, m, e, h3, h4, h6, g4⟩, rfl⟩
      | _ => trivial
  | use r =>
    simp only [step]
    cases hr : s.readers[r]? with
    | none => trivial
    | some ph =>
      have := h.readers r ph hr
      cases ph with
      | str c t d i =>
        dsimp only
        obtain ⟨h1, m, e, h2, h3, h4, h5⟩ := this
        rw [show Maps.str s.strs i = .ok e from by unfold Maps.str; rw [h5]]
        exact ⟨inv_reader h ⟨h1, m, h2, h3, h4⟩, rfl⟩
      | _ => trivial
  | leave r =>
    simp only [step]
    cases hr : s.readers[r]? with
    | none => trivial
    | some ph =>
      dsimp only
      refine ⟨inv_wait h (w := s.writer.quiesce r) (rs := s.readers.set r .off) ?_ ?_ ?_ ?_ ?_ ?_, rfl⟩
      · cases s.writer <;> rfl
      · cases s.writer <;> rfl
      · cases s.writer <;> rfl
      · cases s.writer <;> rfl
      · intro a b T hw
        cases hs : s.writer <;> rw [hs] at hw <;> first | exact hw | cases hw
      · intro r' ph' hr'
        by_cases he : r = r'
        · subst he
          rw [List.getElem?_set] at hr'
          simp only [if_true] at hr'
          split at hr'
          · exact Or.inl (Option.some.inj hr').symm
          · cases hr'
        · rw [List.getElem?_set_ne he] at hr'
          refine Or.inr ⟨hr', ?_⟩
          cases hw : s.writer with
          | wait a b ws =>
            intro hm
            exact List.mem_filter.mpr ⟨hm, by simpa using fun hc => he hc.symm⟩
          | _ => intro _; trivial

theorem init_ok {sort dflt maps n ign} : (init dflt maps n ign = .ok none) ∨ ∃ s, init dflt maps n ign = .ok (some s) ∧ Inv sort dflt maps s ∧ s.ignoreEcs = ign := by
  have ha : Alive [some dflt] [0] := by
    intro i hi
    rw [List.mem_singleton] at hi
    subst hi
    exact ⟨dflt, rfl⟩
  unfold init
  rcases addAll_ok maps ha (by unfold LIST_MAX; simp) with h | ⟨strs, list, add, idx, h1, h2, h3, h4⟩
  · left; rw [h]; rfl
  · right
    rw [h1]
    refine ⟨_, rfl, ?_, rfl⟩
    refine ⟨⟨0, ⟨list, 0⟩, rfl, ⟨rfl, h2.alive ha, h2.len⟩, ⟨⟨?_, h3, h4⟩, fun l hl => (by cases hl), trivial⟩⟩, ?_, fun _ p D _ hd => (by cases hd), fun hb => (by cases hb),
      fun hb => (by cases hb), fun hb => (by cases hb), fun hb => (by exact absurd rfl hb), fun _ _ => rfl, ?_, fun hb => (by cases hb), fun hb => (by exact absurd rfl hb), rfl,
      ?_, fun _ hb => (by cases hb), fun _ _ _ hb => (by cases hb), ?_⟩
    · rw [h2.conts ha]; rfl
    · rintro l (hl | hl) <;> cases hl
    · rintro (hd | hd) <;> cases hd
    · rintro t (hd | hd) <;> cases hd
    · intro r ph hr
      have hr : (List.replicate n Phase.off)[r]? = some ph := hr
      rw [List.getElem?_replicate] at hr
      split at hr
      · obtain rfl := Option.some.inj hr; trivial
      · cases hr

end Gdnsd.Maps
