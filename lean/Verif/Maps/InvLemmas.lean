/-
The invariant of a map with its reload thread and readers.
-/
import Verif.Maps.ListLemmas
namespace Gdnsd.Maps
open Gdnsd.Geo

/-- The replaced tree that is not yet freed. -/
def Writer.retT : Writer → Option Nat
  | .both a _ => a
  | .wait a _ _ => a
  | _ => none

/-- The replaced lists that are not yet freed. -/
def Writer.retL : Writer → Option Nat
  | .lists _ b _ => b
  | .both _ b => b
  | .wait _ b _ => b
  | .idle => none

/-- Whether the new tree is published. -/
def Writer.stored : Writer → Bool
  | .both _ _ => true
  | .wait _ _ _ => true
  | _ => false

/-- Whether reader `r` may still hold what is being replaced. -/
def Writer.holds (r : Nat) : Writer → Prop
  | .wait _ _ ws => r ∈ ws
  | _ => True

/-- An object with all its strings. -/
def ObjOk (s : State) (i : Nat) (o : Dcl) : Prop :=
  s.objs[i]? = some (some o) ∧ Alive s.strs o.list ∧ o.list.length ≤ LIST_MAX + 1

/-- A tree answers as recorded. -/
def TreeOk (dflt : Bytes) (maps : List Bytes) (ign : Bool) (T : Geo.Tree) (m : Made) : Prop :=
  ∀ c : Client, (c.addr ign).Wf → ∃ d k e, lookup T c ign = .ok (d, k) ∧ m.lists[d]? = some e ∧ d ≤ LIST_MAX ∧
    m.Answer dflt maps (target (c.addr ign)) e

/-- A tree that lookups may use: it is there, and the current lists extend its own. -/
def TreeGood (dflt : Bytes) (maps : List Bytes) (s : State) (t : Nat) : Prop :=
  ∃ T m D o, s.trees[t]? = some (some T) ∧ s.made[t]? = some m ∧ TreeOk dflt maps s.ignoreEcs T m ∧
    s.dclists = some D ∧ s.objs[D]? = some (some o) ∧ m.lists <+: conts s.strs o.list

/-- A tree as seen by reader `r`. -/
def SeesT (s : State) (r t : Nat) : Prop := s.tree = some t ∨ (s.writer.retT = some t ∧ s.writer.holds r)

/-- Lists as seen by reader `r`. -/
def SeesL (s : State) (r l : Nat) : Prop := s.dclists = some l ∨ (s.writer.retL = some l ∧ s.writer.holds r)

/-- What a reader knows. -/
def ReaderOk (dflt : Bytes) (maps : List Bytes) (s : State) (r : Nat) : Phase → Prop
  | .off => True
  | .on c => s.started = true ∧ (c.addr s.ignoreEcs).Wf
  | .tree c t => s.started = true ∧ (c.addr s.ignoreEcs).Wf ∧ SeesT s r t
  | .idx c t d => s.started = true ∧ SeesT s r t ∧ ∃ m e, s.made[t]? = some m ∧ m.lists[d]? = some e ∧ d ≤ LIST_MAX ∧
      m.Answer dflt maps (target (c.addr s.ignoreEcs)) e
  | .arr c t d l => s.started = true ∧ SeesL s r l ∧ ∃ m e o, s.made[t]? = some m ∧ m.lists[d]? = some e ∧ d ≤ LIST_MAX ∧
      m.Answer dflt maps (target (c.addr s.ignoreEcs)) e ∧ s.objs[l]? = some (some o) ∧ (conts s.strs o.list)[d]? = some e
  | .str c t d i => s.started = true ∧ ∃ m e, s.made[t]? = some m ∧ m.lists[d]? = some e ∧
      m.Answer dflt maps (target (c.addr s.ignoreEcs)) e ∧ s.strs[i]? = some (some e)
  | .got c t d b => s.started = true ∧ ∃ m, s.made[t]? = some m ∧ m.lists[d]? = some b ∧ m.Answer dflt maps (target (c.addr s.ignoreEcs)) b

/-- What is loaded fits the lists `LC`. -/
structure Loaded (sort : List Net → List Net) (dflt : Bytes) (maps : List Bytes) (s : State) (LC : List Bytes) : Prop where
  fixed : MapsOk LC dflt maps s.dcmap
  nets : ∀ l, s.nets = some l → NetsOk sort LC s.netsCfg l
  geo : match s.geo, s.geoCfg with | none, none => True | some a, some g => GeoOk sort LC dflt maps g a | _, _ => False

/-- The lists that are being extended: the pending ones, or else the current ones. -/
def State.latest (s : State) : Option Nat := s.pend.or s.dclists

/-- The invariant. -/
structure Inv (sort : List Net → List Net) (dflt : Bytes) (maps : List Bytes) (s : State) : Prop where
  cur : ∃ i o, s.latest = some i ∧ ObjOk s i o ∧ Loaded sort dflt maps s (conts s.strs o.list)
  objs : ∀ l, (s.dclists = some l ∨ s.writer.retL = some l) → ∃ o, ObjOk s l o
  pend : s.writer.isIdle = true → ∀ p D, s.pend = some p → s.dclists = some D → p ≠ D ∧
    ∀ o o', s.objs[p]? = some (some o) → s.objs[D]? = some (some o') → o'.list <+: o.list
  busy : s.writer.isIdle = false → ∃ p, s.pend = some p ∧ s.dclists = some p ∧ s.writer.retL ≠ some p ∧ s.nets.isSome = true ∧ s.timer = false
  timer : s.timer = true → s.pend.isSome = true ∧ s.nets.isSome = true
  started : s.started = true → s.tree ≠ none
  tree : s.tree ≠ none → s.dclists ≠ none
  unpub : s.writer.isIdle = true → s.tree = none → s.dclists = none
  done : (s.pend = none ∨ s.writer.stored = true) → ∃ t m, s.tree = some t ∧ s.made[t]? = some m ∧ m.nets = s.netsCfg ∧ m.geo = s.geoCfg
  armed : s.started = true → s.writer.isIdle = true → s.timer = false → s.pend = none
  loaded : s.tree ≠ none → s.nets.isSome = true
  made : s.made.length = s.trees.length
  trees : ∀ t, (s.tree = some t ∨ s.writer.retT = some t) → TreeGood dflt maps s t
  fresh : ∀ t, s.writer.retT = some t → s.tree ≠ some t
  next : ∀ a b T, s.writer = .lists a b T → a = s.tree ∧ ∀ p o, s.pend = some p → s.objs[p]? = some (some o) →
    TreeOk dflt maps s.ignoreEcs T ⟨conts s.strs o.list, s.netsCfg, s.geoCfg⟩
  readers : ∀ r ph, s.readers[r]? = some ph → ReaderOk dflt maps s r ph

theorem Loaded.mono {sort dflt maps s LC LC'} (h : Loaded sort dflt maps s LC) (hp : LC <+: LC') : Loaded sort dflt maps s LC' := by
  refine ⟨h.fixed.mono hp, fun l hl => (h.nets l hl).mono hp, ?_⟩
  have := h.geo
  cases hg : s.geo with
  | none =>
    cases hc : s.geoCfg with
    | none => trivial
    | some g => rw [hg, hc] at this; exact this
  | some a =>
    cases hc : s.geoCfg with
    | none => rw [hg, hc] at this; exact this
    | some g => rw [hg, hc] at this; exact GeoOk.mono this hp

theorem Loaded.congr {sort dflt maps LC} {s s' : State} (h : Loaded sort dflt maps s LC) (e1 : s'.dcmap = s.dcmap) (e2 : s'.nets = s.nets)
    (e3 : s'.geo = s.geo) (e4 : s'.netsCfg = s.netsCfg) (e5 : s'.geoCfg = s.geoCfg) : Loaded sort dflt maps s' LC :=
  ⟨by rw [e1]; exact h.fixed, by rw [e2, e4]; exact h.nets, by rw [e3, e5]; exact h.geo⟩

/-- Only a reader moved. -/
theorem inv_reader {sort dflt maps s} (h : Inv sort dflt maps s) {r : Nat} {ph : Phase} (hr : ReaderOk dflt maps s r ph) :
    Inv sort dflt maps (s.setReader r ph) := by
  refine ⟨?_, h.objs, h.pend, h.busy, h.timer, h.started, h.tree, h.unpub, h.done, h.armed, h.loaded, h.made, h.trees, h.fresh, h.next, ?_⟩
  · obtain ⟨i, o, h1, h2, h3⟩ := h.cur
    exact ⟨i, o, h1, h2, h3.congr rfl rfl rfl rfl rfl⟩
  intro r' ph' hr'
  by_cases he : r = r'
  · subst he
    have hr' : (s.readers.set r ph)[r]? = some ph' := hr'
    rw [List.getElem?_set] at hr'
    simp only [if_true] at hr'
    split at hr'
    · obtain rfl := Option.some.inj hr'; exact hr
    · cases hr'
  · have hr' : (s.readers.set r ph)[r']? = some ph' := hr'
    rw [List.getElem?_set_ne he] at hr'
    exact h.readers r' ph' hr'

/-- A reload that leaves what is published alone. -/
theorem inv_frame {sort dflt maps s s'} (h : Inv sort dflt maps s) (hidle : s.writer = .idle) (hstrs : s.strs <+: s'.strs)
    (hobj : ∀ D, s.dclists = some D → s'.objs[D]? = s.objs[D]?) (e1 : s'.trees = s.trees) (e2 : s'.made = s.made) (e3 : s'.tree = s.tree)
    (e4 : s'.dclists = s.dclists) (e5 : s'.writer = s.writer) (e6 : s'.readers = s.readers) (e7 : s'.started = s.started)
    (e8 : s'.ignoreEcs = s.ignoreEcs)
    (hcur : ∃ i o, s'.latest = some i ∧ ObjOk s' i o ∧ Loaded sort dflt maps s' (conts s'.strs o.list))
    (hpend : ∀ p D, s'.pend = some p → s'.dclists = some D → p ≠ D ∧
      ∀ o o', s'.objs[p]? = some (some o) → s'.objs[D]? = some (some o') → o'.list <+: o.list)
    (htimer : s'.timer = true → s'.pend.isSome = true ∧ s'.nets.isSome = true)
    (hnets : s.nets.isSome = true → s'.nets.isSome = true)
    (hdone : s'.pend = none → s.pend = none ∧ s'.netsCfg = s.netsCfg ∧ s'.geoCfg = s.geoCfg)
    (harmed : s.started = true → s'.timer = false → s'.pend = none) : Inv sort dflt maps s' := by
  have hret : s.writer.retL = none ∧ s.writer.retT = none := by rw [hidle]; exact ⟨rfl, rfl⟩
  have hobjs : ∀ l o, s.dclists = some l → ObjOk s l o → ObjOk s' l o := by
    intro l o hl ho
    exact ⟨by rw [hobj l hl]; exact ho.1, alive_mono hstrs ho.2.1, ho.2.2⟩
  have hconts : ∀ l o, s.dclists = some l → s.objs[l]? = some (some o) → conts s'.strs o.list = conts s.strs o.list := by
    intro l o hl ho
    obtain ⟨o', ho'⟩ := h.objs l (Or.inl hl)
    have := ho'.1
    rw [ho] at this
    obtain rfl := Option.some.inj (Option.some.inj this)
    exact conts_mono hstrs ho'.2.1
  refine ⟨hcur, ?_, fun _ => hpend, ?_, htimer, by rw [e7, e3]; exact h.started, by rw [e3, e4]; exact h.tree,
    by rw [e3, e4, e5]; exact h.unpub, ?_, fun hst _ ht => harmed (by rw [← e7]; exact hst) ht, fun ht => hnets (h.loaded (by rw [← e3]; exact ht)), by rw [e2, e1]; exact h.made, ?_,
    by rw [e5, e3]; exact h.fresh, ?_, ?_⟩
  · intro l hl
    rw [e4, e5, hret.1] at hl
    rcases hl with hl | hl
    · obtain ⟨o, ho⟩ := h.objs l (Or.inl hl)
      exact ⟨o, hobjs l o hl ho⟩
    · cases hl
  · intro hb
    rw [e5, hidle] at hb; cases hb
  · intro hd
    rw [e5, hidle] at hd
    rcases hd with hd | hd
    · obtain ⟨h1, h2, h3⟩ := hdone hd
      rw [e3, e2, h2, h3]
      exact h.done (Or.inl h1)
    · cases hd
  · intro t ht
    rw [e3, e5] at ht
    obtain ⟨T, m, D, o, h1, h2, h3, h4, h5, h6⟩ := h.trees t ht
    refine ⟨T, m, D, o, by rw [e1]; exact h1, by rw [e2]; exact h2, by rw [e8]; exact h3, by rw [e4]; exact h4, by rw [hobj D h4]; exact h5, ?_⟩
    rw [hconts D o h4 h5]; exact h6
  · intro a b T hw
    rw [e5, hidle] at hw; cases hw
  · intro r ph hr
    rw [e6] at hr
    have := h.readers r ph hr
    have hT : ∀ t, SeesT s r t → SeesT s' r t := by
      intro t ht
      unfold SeesT at ht ⊢
      rw [e3, e5]; exact ht
    cases ph with
    | off => trivial
    | on c => exact ⟨by rw [e7]; exact this.1, by rw [e8]; exact this.2⟩
    | tree c t => exact ⟨by rw [e7]; exact this.1, by rw [e8]; exact this.2.1, hT t this.2.2⟩
    | idx c t d =>
      obtain ⟨h1, h2, m, e, h3, h4, h5, h6⟩ := this
      exact ⟨by rw [e7]; exact h1, hT t h2, m, e, by rw [e2]; exact h3, h4, h5, by rw [e8]; exact h6⟩
    | arr c t d l =>
      obtain ⟨h1, h2, m, e, o, h3, h4, h5, h6, h7, h8⟩ := this
      have hl : s.dclists = some l := by
        rcases h2 with h2 | h2
        · exact h2
        · rw [hret.1] at h2; cases h2.1
      exact ⟨by rw [e7]; exact h1, Or.inl (by rw [e4]; exact hl), m, e, o, by rw [e2]; exact h3, h4, h5, by rw [e8]; exact h6,
        by rw [hobj l hl]; exact h7, by rw [hconts l o hl h7]; exact h8⟩
    | str c t d i =>
      obtain ⟨h1, m, e, h3, h4, h5, h6⟩ := this
      exact ⟨by rw [e7]; exact h1, m, e, by rw [e2]; exact h3, h4, by rw [e8]; exact h5, getElem?_prefix hstrs h6⟩
    | got c t d b =>
      obtain ⟨h1, m, h3, h4, h5⟩ := this
      exact ⟨by rw [e7]; exact h1, m, by rw [e2]; exact h3, h4, by rw [e8]; exact h5⟩

theorem obj_ok {s : State} {i : Nat} {o : Dcl} (h : s.objs[i]? = some (some o)) : obj s i = .ok o := by unfold obj; rw [h]

/-- What `store` may change. -/
structure Stores (store : State → List Net → State) : Prop where
  eq : ∀ s l, ∃ nets netsCfg geo geoCfg, store s l = { s with nets := nets, netsCfg := netsCfg, geo := geo, geoCfg := geoCfg }

theorem update_ok {sort dflt maps s} (h : Inv sort dflt maps s) (hidle : s.writer = .idle)
    {load : Strs → List Nat → Outcome (Option (Strs × List Nat × Option (List Net)))} {store : State → List Net → State}
    (P : List Bytes → List Net → Prop)
    (hload : ∀ strs list, Alive strs list → list.length ≤ LIST_MAX + 1 → MapsOk (conts strs list) dflt maps s.dcmap →
      load strs list = .ok none ∨ ∃ strs' list' add o, load strs list = .ok (some (strs', list', o)) ∧ Ext strs list add strs' list' ∧
        ∀ l, o = some l → P (conts strs' list') l)
    (hst : Stores store)
    (hstore : ∀ s1 LC l, s1.dcmap = s.dcmap → Loaded sort dflt maps s1 LC → P LC l → Loaded sort dflt maps (store s1 l) LC)
    (hnets : ∀ s1 l, s1.nets.isSome = true → (store s1 l).nets.isSome = true) :
    ∃ o, update s load store = .ok o ∧ ∀ s', o = some s' → Inv sort dflt maps s' ∧ s'.ignoreEcs = s.ignoreEcs := by
  have hstart : s.started = true → s.nets.isSome = true := fun ht => h.loaded (h.started ht)
  obtain ⟨i, o, hlat, ho, hcfg⟩ := h.cur
  unfold update
  cases hp : s.pend with
  | some p =>
    have hip : i = p := by
      unfold State.latest at hlat
      rw [hp] at hlat
      exact (Option.some.inj hlat).symm
    subst hip
    dsimp only
    rw [obj_ok ho.1, Outcome.bind_ok]
    rcases hload s.strs o.list ho.2.1 ho.2.2 hcfg.fixed with hl | ⟨strs', list', add, r, hl, hext, hP⟩
    · rw [hl]; exact ⟨none, rfl, by simp⟩
    rw [hl, Outcome.bind_ok]
    dsimp only
    have hil : i < s.objs.length := (List.getElem?_eq_some_iff.mp ho.1).1
    have hset : (s.objs.set i (some { o with list := list' }))[i]? = some (some { o with list := list' }) := by
      rw [List.getElem?_set]; simp [hil]
    have hcle : Loaded sort dflt maps s (conts strs' list') := hcfg.mono (by rw [hext.conts ho.2.1]; exact List.prefix_append _ _)
    have hpd : ∀ D, s.dclists = some D → i ≠ D := fun D hD => (h.pend (by rw [hidle]; rfl) i D hp hD).1
    have hobj : ∀ D, s.dclists = some D → (s.objs.set i (some { o with list := list' }))[D]? = s.objs[D]? :=
      fun D hD => List.getElem?_set_ne (hpd D hD)
    have hpend : ∀ p D, some i = some p → s.dclists = some D → p ≠ D ∧ ∀ q q', (s.objs.set i (some { o with list := list' }))[p]? = some (some q) →
        (s.objs.set i (some { o with list := list' }))[D]? = some (some q') → q'.list <+: q.list := by
      intro p D hpe hD
      obtain rfl := Option.some.inj hpe
      refine ⟨hpd D hD, fun q q' hq hq' => ?_⟩
      rw [hset] at hq
      obtain rfl := Option.some.inj (Option.some.inj hq)
      rw [hobj D hD] at hq'
      exact ((h.pend (by rw [hidle]; rfl) i D hp hD).2 o q' ho.1 hq').trans hext.lpre
    cases r with
    | none =>
      refine ⟨_, rfl, ?_⟩
      intro s' hs'
      obtain rfl := Option.some.inj hs'
      refine ⟨inv_frame h hidle hext.pre hobj rfl rfl rfl rfl rfl rfl rfl rfl ?_ hpend (fun ht => ⟨rfl, (h.timer ht).2⟩) (fun hn => hn)
        (fun hd => by cases hd) (fun hs ht => by rw [h.armed hs (by rw [hidle]; rfl) ht] at hp; cases hp), rfl⟩
      exact ⟨i, _, rfl, ⟨hset, hext.alive ho.2.1, hext.len⟩, ⟨hcle.fixed, hcle.nets, hcle.geo⟩⟩
    | some l =>
      refine ⟨_, rfl, ?_⟩
      intro s' hs'
      have hS := hstore { s with strs := strs', objs := s.objs.set i (some { o with list := list' }), pend := some i } (conts strs' list') l rfl
        ⟨hcle.fixed, hcle.nets, hcle.geo⟩ (hP l rfl)
      have hN := hnets { s with strs := strs', objs := s.objs.set i (some { o with list := list' }), pend := some i } l
      obtain ⟨n1, n2, n3, n4, he⟩ := hst.eq { s with strs := strs', objs := s.objs.set i (some { o with list := list' }), pend := some i } l
      rw [he] at hS hN
      rw [he] at hs'
      obtain rfl := Option.some.inj hs'
      refine ⟨inv_frame h hidle hext.pre hobj rfl rfl rfl rfl rfl rfl rfl rfl ?_ hpend ?_ hN (fun hd => by cases hd) (fun hs ht => by simp [hs] at ht), rfl⟩
      · exact ⟨i, _, rfl, ⟨hset, hext.alive ho.2.1, hext.len⟩, ⟨hS.fixed, hS.nets, hS.geo⟩⟩
      · intro ht
        refine ⟨rfl, hN ?_⟩
        have ht : (s.timer || s.started) = true := ht
        rw [Bool.or_eq_true] at ht
        rcases ht with ht | ht
        · exact (h.timer ht).2
        · exact hstart ht
  | none =>
    have hid : s.dclists = some i := by
      unfold State.latest at hlat
      rw [hp] at hlat
      exact hlat
    rw [hid]
    dsimp only [clone]
    rw [obj_ok ho.1, Outcome.bind_ok]
    rcases hload s.strs o.list ho.2.1 ho.2.2 hcfg.fixed with hl | ⟨strs', list', add, r, hl, hext, hP⟩
    · rw [hl]; exact ⟨none, rfl, by simp⟩
    rw [hl, Outcome.bind_ok]
    dsimp only
    have hil : i < s.objs.length := (List.getElem?_eq_some_iff.mp ho.1).1
    cases r with
    | none =>
      have hk : killNew strs' (list'.drop o.list.length) = .ok (s.strs ++ List.replicate add.length none) := by
        rw [hext.eql, hext.eqs, List.drop_left]
        exact killNew_ok add s.strs
      dsimp only
      rw [hk]
      refine ⟨_, rfl, ?_⟩
      intro s' hs'
      obtain rfl := Option.some.inj hs'
      refine ⟨inv_frame h hidle (List.prefix_append _ _) (fun _ _ => rfl) rfl rfl rfl hid.symm rfl rfl rfl rfl ?_ ?_ ?_ (fun hn => hn) (fun _ => ⟨hp, rfl, rfl⟩) (fun _ _ => rfl), rfl⟩
      · refine ⟨i, o, rfl, ⟨ho.1, alive_mono (List.prefix_append _ _) ho.2.1, ho.2.2⟩, ?_⟩
        rw [show conts (s.strs ++ List.replicate add.length none) o.list = conts s.strs o.list from conts_mono (List.prefix_append _ _) ho.2.1]
        exact ⟨hcfg.fixed, hcfg.nets, hcfg.geo⟩
      · intro p D hpe; cases hpe
      · intro ht
        have := (h.timer ht).1
        rw [hp] at this; cases this
    | some l =>
      refine ⟨_, rfl, ?_⟩
      intro s' hs'
      have hcle : Loaded sort dflt maps s (conts strs' list') := hcfg.mono (by rw [hext.conts ho.2.1]; exact List.prefix_append _ _)
      have hget : (s.objs ++ [some (Dcl.mk list' o.list.length)])[s.objs.length]? = some (some (Dcl.mk list' o.list.length)) := by simp
      have hobj : ∀ D, s.dclists = some D → (s.objs ++ [some (Dcl.mk list' o.list.length)])[D]? = s.objs[D]? := by
        intro D hD
        rw [hid] at hD
        obtain rfl := Option.some.inj hD
        exact List.getElem?_append_left hil
      have hS := hstore { s with strs := strs', objs := s.objs ++ [some ⟨list', o.list.length⟩], pend := some s.objs.length, dclists := some i } (conts strs' list') l rfl
        ⟨hcle.fixed, hcle.nets, hcle.geo⟩ (hP l rfl)
      have hN := hnets { s with strs := strs', objs := s.objs ++ [some ⟨list', o.list.length⟩], pend := some s.objs.length, dclists := some i } l
      obtain ⟨n1, n2, n3, n4, he⟩ := hst.eq { s with strs := strs', objs := s.objs ++ [some ⟨list', o.list.length⟩], pend := some s.objs.length, dclists := some i } l
      rw [he] at hS hN
      rw [he] at hs'
      obtain rfl := Option.some.inj hs'
      refine ⟨inv_frame h hidle hext.pre hobj rfl rfl rfl hid.symm rfl rfl rfl rfl ?_ ?_ ?_ hN (fun hd => by cases hd) (fun hs ht => by simp [hs] at ht), rfl⟩
      · exact ⟨s.objs.length, _, rfl, ⟨hget, hext.alive ho.2.1, hext.len⟩, ⟨hS.fixed, hS.nets, hS.geo⟩⟩
      · intro p D hpe hD
        obtain rfl := Option.some.inj hpe
        obtain rfl := Option.some.inj hD
        refine ⟨Nat.ne_of_gt hil, fun q q' hq hq' => ?_⟩
        have hq : (s.objs ++ [some (Dcl.mk list' o.list.length)])[s.objs.length]? = some (some q) := hq
        have hq' : (s.objs ++ [some (Dcl.mk list' o.list.length)])[i]? = some (some q') := hq'
        rw [hget] at hq
        obtain rfl := Option.some.inj (Option.some.inj hq)
        rw [hobj i hid, ho.1] at hq'
        obtain rfl := Option.some.inj (Option.some.inj hq')
        exact hext.lpre
      · intro ht
        refine ⟨rfl, hN ?_⟩
        have ht : (s.timer || s.started) = true := ht
        rw [Bool.or_eq_true] at ht
        rcases ht with ht | ht
        · exact (h.timer ht).2
        · exact hstart ht

end Gdnsd.Maps
