/-
C82: the options. C83: listeners and control addresses.
-/
import Verif.Conf.Props
namespace Gdnsd.Conf
open Vscf VscfSpec ConfSpec

/-! ### Sockets -/

theorem uintOf_min {es : List (Entry Val)} {k : String} {min max old n : Nat} (h : UintOf es k min max old n) (hd : min ≤ old) : min ≤ n := by
  rcases h with ⟨_, rfl⟩ | ⟨_, _, _, _, h, _⟩
  · exact hd
  · exact h

/-- A listener has threads, and none for UDP if it is for PROXY. -/
def Served (l : Listener) : Prop := 1 ≤ l.n.tcpThreads ∧ (l.proxy = true → l.n.udpThreads = 0) ∧ (l.proxy = false → 1 ≤ l.n.udpThreads)

theorem each_all {α β : Type} {R : α → β → Prop} {P : β → Prop} : ∀ {xs ys}, Each R xs ys → (∀ x y, R x y → P y) → ∀ y ∈ ys, P y
  | _, _, .nil, _, y, hy => by cases hy
  | _, _, .cons h hs, hp, y, hy => by
    rcases List.mem_cons.mp hy with rfl | hy
    · exact hp _ _ h
    · exact each_all hs hp y hy

theorem listens_served {bad : Nat} {A : Bytes → Nat → Sin → Prop} {port : Nat} {n : Numbers} {v : Option Val} {ls : List Listener}
    (h : Listens bad A port n v ls) (ht : 1 ≤ n.tcpThreads) (hu : 1 ≤ n.udpThreads) : ∀ l ∈ ls, Served l := by
  have hd : ∀ s, Served ⟨s, n, false, false⟩ := fun s => ⟨ht, (fun h => by cases h), fun _ => hu⟩
  have hp : ∀ v l, Plain A port n v l → Served l := by
    rintro _ _ ⟨_, _, _, s, _, _, _, rfl⟩; exact hd s
  have ha : ∀ ls, Any A port n ls → ∀ l ∈ ls, Served l := by
    rintro _ ⟨a, b, _, _, rfl⟩ l hl
    simp only [List.mem_cons, List.not_mem_nil, or_false] at hl
    rcases hl with rfl | rfl
    · exact hd a
    · exact hd b
  cases h with
  | absent h => exact ha _ h
  | any _ h => exact ha _ h
  | one _ h => intro l hl; simp only [List.mem_singleton] at hl; subst hl; exact hp _ _ h
  | many _ h => exact each_all h hp
  | hash _ h =>
    refine each_all h ?_
    rintro _ _ ⟨⟨os, _, ho⟩, _, _⟩
    exact ⟨uintOf_min ho.tcpThreads ht, fun h => (ho.noUdp h).1, fun h => uintOf_min (ho.udp h).2.2.1 hu⟩

theorem listens_ne {bad : Nat} {A : Bytes → Nat → Sin → Prop} {port : Nat} {n : Numbers} {v : Option Val} {ls : List Listener}
    (h : Listens bad A port n v ls) : ls ≠ [] := by
  cases h with
  | absent h => obtain ⟨_, _, _, _, rfl⟩ := h; simp
  | any _ h => obtain ⟨_, _, _, _, rfl⟩ := h; simp
  | one _ h => simp
  | many hne h => exact fun h0 => hne ((each_nil h).mp h0)
  | hash hne h => exact fun h0 => hne ((each_nil h).mp h0)

theorem valueOf_iff {es : List (Entry Val)} (hn : (es.map (·.key)).Nodup) {k : String} {v : Option Val} : ValueOf es k v ↔ v = find es (str k) := by
  cases v with
  | none => rw [show ValueOf es k none = Absent es k from rfl, absent_iff]; exact eq_comm
  | some v => rw [show ValueOf es k (some v) = Is es k v from rfl, is_iff hn]; exact eq_comm

/-- What `socksLoad` makes of data. -/
def socksOf (port : Nat) (ls : List Listener) (cs : List Control) : Socks :=
  ⟨ls.map (ofListener port), threadsFrom 0 (ls.map (ofListener port)), cs.map ofControl, fdEstimate (ls.map (ofListener port)) (cs.map ofControl)⟩

theorem socksLoad_eq {le : Bool} {g : Gai} (hg : ∀ t n, g.serv t = some n → n < 2 ^ 16) {es : List (Entry Val)} (hc : Clean (.hash es)) :
    (∃ port n v w ls cs, Globals es port n ∧ ValueOf es "listen" v ∧ Listens (badPort le) (addrOf g) port n v ls ∧ ValueOf es "tcp_control" w ∧
      Controls (addrOf g) w cs ∧ socksLoad le g (some es) = .ok (some (socksOf port ls cs, socksKeys.map str))) ∨
    (socksLoad le g (some es) = .ok none ∧ ¬ ((∃ port n v ls, Globals es port n ∧ ValueOf es "listen" v ∧ Listens (badPort le) (addrOf g) port n v ls) ∧
      ∃ w cs, ValueOf es "tcp_control" w ∧ Controls (addrOf g) w cs)) := by
  obtain ⟨hn, _, hcl⟩ := clean_hash hc
  unfold socksLoad
  dsimp only
  cases ho : socksOptions addrDefaults es with
  | none =>
    refine Or.inr ⟨rfl, ?_⟩
    rintro ⟨⟨port, n, v, ls, hG, _⟩, _⟩
    have : socksOptions addrDefaults es = some ((ofListener port ⟨addrDefaults.addr, n, false, false⟩, _, _), _) :=
      (socksOptions_iff hn).mpr ⟨hG, rfl, rfl, rfl, rfl, rfl, rfl⟩
    rw [ho] at this; cases this
  | some r =>
    obtain ⟨⟨d, l, t⟩, k⟩ := r
    obtain ⟨hG, ha, hp, hq, rfl, rfl, rfl⟩ := (socksOptions_iff hn).mp ho
    have huniq : ∀ {port n}, Globals es port n → port = d.dnsPort ∧ n = d.numbers := by
      intro port n hG'
      have : socksOptions addrDefaults es = some ((ofListener port ⟨addrDefaults.addr, n, false, false⟩, _, _), _) :=
        (socksOptions_iff hn).mpr ⟨hG', rfl, rfl, rfl, rfl, rfl, rfl⟩
      rw [ho] at this
      simp only [Option.some.injEq, Prod.mk.injEq, true_and, and_true] at this
      rw [this]
      exact ⟨rfl, rfl⟩
    have hcl1 : ∀ v, find es (str "listen") = some v → Clean v := fun v h => clean_find hcl h
    have hcl2 : ∀ v, find es (str "tcp_control") = some v → Clean v := fun v h => clean_find hcl h
    have hno : (¬ ∃ as, fillAddrs le g d (find es (str "listen")) = some as ∧ as ≠ []) →
        ¬ ∃ port n v ls, Globals es port n ∧ ValueOf es "listen" v ∧ Listens (badPort le) (addrOf g) port n v ls := by
      rintro h ⟨port, n, v, ls, hG', hv, hL⟩
      obtain ⟨rfl, rfl⟩ := huniq hG'
      rw [(valueOf_iff hn).mp hv] at hL
      exact h ⟨_, (fillAddrs_iff hg hp hq hcl1).mpr ⟨ls, rfl, hL⟩⟩
    dsimp only
    cases hf : fillAddrs le g d (find es (str "listen")) with
    | none =>
      refine Or.inr ⟨rfl, fun h => hno ?_ h.1⟩
      rintro ⟨as, h, _⟩
      rw [hf] at h; cases h
    | some as =>
      dsimp only
      by_cases hne : as = []
      · rw [if_pos hne]
        refine Or.inr ⟨rfl, fun h => hno ?_ h.1⟩
        rintro ⟨as', h, h'⟩
        rw [hf] at h; cases h; exact h' hne
      · rw [if_neg hne]
        obtain ⟨ls, rfl, hL⟩ := (fillAddrs_iff hg hp hq hcl1).mp ⟨hf, hne⟩
        have hs := listens_served hL (uintOf_min hG.tcpThreads (by decide)) (uintOf_min hG.udpThreads (by decide))
        have h1 : ¬ threadsFrom 0 (ls.map (ofListener d.dnsPort)) = [] := by
          cases ls with
          | nil => exact absurd rfl hne
          | cons l ls =>
            have := (hs l (by simp)).1
            simp only [List.map_cons, threadsFrom, threadsOf, List.append_eq_nil_iff, List.replicate_eq_nil_iff]
            rintro ⟨⟨_, h⟩, _⟩
            have h : l.n.tcpThreads = 0 := h
            omega
        have h2 : ¬ (ls.map (ofListener d.dnsPort)).any (fun a => a.tcpProxy && a.udpThreads != 0) = true := by
          simp only [List.any_map, List.any_eq_true, Function.comp, Bool.and_eq_true, bne_iff_ne, ne_eq, not_exists, not_and, Decidable.not_not]
          intro l hl hpr
          exact (hs l hl).2.1 hpr
        rw [if_neg h1, if_neg h2]
        cases hct : ctlAddrs g (find es (str "tcp_control")) with
        | none =>
          refine Or.inr ⟨rfl, ?_⟩
          rintro ⟨_, w, cs, hw, hC⟩
          rw [(valueOf_iff hn).mp hw] at hC
          have := (ctlAddrs_iff hcl2).mpr ⟨cs, rfl, hC⟩
          rw [hct] at this; cases this
        | some as' =>
          obtain ⟨cs, rfl, hC⟩ := (ctlAddrs_iff hcl2).mp hct
          exact Or.inl ⟨d.dnsPort, d.numbers, _, _, ls, cs, hG, (valueOf_iff hn).mpr rfl, hL, (valueOf_iff hn).mpr rfl, hC, rfl⟩

/-! ### Everything -/

/-- What was loaded. -/
def Loaded.config (c : Loaded) : Config where
  runDir := c.runDir
  stateDir := c.stateDir
  listeners := c.socks.dnsAddrs.map (·.listener)
  controls := c.socks.ctlAddrs.map fun a => ⟨a.addr, a.chalOk, a.ctlOk⟩
  settings := c.cfg.settings
  chaos := c.cfg.chaos
  nsid := c.cfg.nsid

theorem socksOf_view (port : Nat) (ls : List Listener) (cs : List Control) :
    (socksOf port ls cs).dnsAddrs.map (·.listener) = ls ∧ (socksOf port ls cs).ctlAddrs.map (fun a => (⟨a.addr, a.chalOk, a.ctlOk⟩ : Control)) = cs := by
  constructor
  · simp only [socksOf, List.map_map]
    exact List.map_id'' (fun _ => rfl) _
  · simp only [socksOf, List.map_map]
    exact List.map_id'' (fun _ => rfl) _

/-- All names of options are asked for, and no others. -/
theorem keys_mem (b : Bytes) : b ∈ ([str "run_dir", str "state_dir"] ++ socksKeys.map str) ++ confKeys.map str ↔ ∃ k ∈ options ++ oldOptions, b = str k := by
  have h : ∀ k ∈ options ++ oldOptions, k ∈ ["run_dir", "state_dir"] ++ socksKeys ++ confKeys := by decide +kernel
  have h' : ∀ k ∈ ["run_dir", "state_dir"] ++ socksKeys ++ confKeys, k ∈ options ++ oldOptions := by decide +kernel
  have e : ([str "run_dir", str "state_dir"] ++ socksKeys.map str) ++ confKeys.map str = (["run_dir", "state_dir"] ++ socksKeys ++ confKeys).map str := by
    simp only [List.map_append, List.map_cons, List.map_nil]
  rw [e, List.mem_map]
  exact ⟨fun ⟨k, h1, h2⟩ => ⟨k, h' k h1, h2.symm⟩, fun ⟨k, h1, h2⟩ => ⟨k, h k h1, h2.symm⟩⟩

theorem listens_unique {le : Bool} {g : Gai} (hg : ∀ t n, g.serv t = some n → n < 2 ^ 16) {es : List (Entry Val)} (hc : Clean (.hash es)) {port port' : Nat} {n n' : Numbers}
    {v v' : Option Val} {ls ls' : List Listener} (hG : Globals es port n) (hv : ValueOf es "listen" v) (hL : Listens (badPort le) (addrOf g) port n v ls)
    (hG' : Globals es port' n') (hv' : ValueOf es "listen" v') (hL' : Listens (badPort le) (addrOf g) port' n' v' ls') : ls = ls' := by
  obtain ⟨hn, _, hcl⟩ := clean_hash hc
  have o : socksOptions addrDefaults es = some ((ofListener port ⟨addrDefaults.addr, n, false, false⟩, _, _), _) :=
    (socksOptions_iff hn).mpr ⟨hG, rfl, rfl, rfl, rfl, rfl, rfl⟩
  have o' : socksOptions addrDefaults es = some ((ofListener port' ⟨addrDefaults.addr, n', false, false⟩, _, _), _) :=
    (socksOptions_iff hn).mpr ⟨hG', rfl, rfl, rfl, rfl, rfl, rfl⟩
  rw [o] at o'
  simp only [Option.some.injEq, Prod.mk.injEq, and_true] at o'
  obtain rfl : port = port' := congrArg DnsAddr.dnsPort o'
  obtain rfl : n = n' := congrArg DnsAddr.numbers o'
  have hcl1 : ∀ v, find es (str "listen") = some v → Clean v := fun v h => clean_find hcl h
  rw [(valueOf_iff hn).mp hv] at hL
  rw [(valueOf_iff hn).mp hv'] at hL'
  have f := ((fillAddrs_iff (d := ofListener port ⟨addrDefaults.addr, n, false, false⟩) hg rfl rfl hcl1).mpr ⟨ls, rfl, hL⟩).1
  rw [((fillAddrs_iff (d := ofListener port ⟨addrDefaults.addr, n, false, false⟩) hg rfl rfl hcl1).mpr ⟨ls', rfl, hL'⟩).1] at f
  simp only [Option.some.injEq] at f
  have := congrArg (List.map (·.listener)) f
  have e : ∀ p (l : List Listener), (l.map (ofListener p)).map (·.listener) = l := fun p l => (socksOf_view p l []).1
  rw [e, e] at this
  exact this.symm

theorem controls_unique {g : Gai} {es : List (Entry Val)} (hc : Clean (.hash es)) {v v' : Option Val} {cs cs' : List Control} (hv : ValueOf es "tcp_control" v)
    (hC : Controls (addrOf g) v cs) (hv' : ValueOf es "tcp_control" v') (hC' : Controls (addrOf g) v' cs') : cs = cs' := by
  obtain ⟨hn, _, hcl⟩ := clean_hash hc
  have hcl2 : ∀ v, find es (str "tcp_control") = some v → Clean v := fun v h => clean_find hcl h
  rw [(valueOf_iff hn).mp hv] at hC
  rw [(valueOf_iff hn).mp hv'] at hC'
  have f := (ctlAddrs_iff hcl2).mpr ⟨cs, rfl, hC⟩
  rw [(ctlAddrs_iff hcl2).mpr ⟨cs', rfl, hC'⟩] at f
  simp only [Option.some.injEq] at f
  have := congrArg (List.map fun a : CtlAddr => (⟨a.addr, a.chalOk, a.ctlOk⟩ : Control)) f
  have e : ∀ l : List Control, (l.map ofControl).map (fun a : CtlAddr => (⟨a.addr, a.chalOk, a.ctlOk⟩ : Control)) = l := fun l => (socksOf_view 0 [] l).2
  rw [e, e] at this
  exact this.symm

/-- A configuration from settings. -/
def ofSettings (s : Settings) : Cfg :=
  ⟨[], none, s.cookieKeyFile, s.lockMem, s.disableTextAutosplit, s.ednsClientSubnet, s.zonesStrictData, s.disableCookies, s.experimentalNoChain,
    s.disableTcpDso, s.maxNocookieResponse, s.zonesDefaultTtl, s.maxNcacheTtl, s.maxTtl, s.minTtl, s.maxEdnsResponse, s.maxEdnsResponseV6,
    s.acmeChallengeTtl, s.acmeChallengeDnsTtl, s.zonesRfc1035Threads⟩

theorem ofSettings_settings (s : Settings) : (ofSettings s).settings = s := rfl

/-- The part of `Means` that `confLoad` looks after. -/
structure Rest (force : Bool) (es : List (Entry Val)) (c : Settings) (chaos : Bytes) (nsid : Option Bytes) : Prop where
  known : Only es (options ++ oldOptions)
  settings : ∃ s, Says es s ∧ c = { s with zonesStrictData := force || s.zonesStrictData }
  chaos : ∃ t, TextOf es "chaos_response" (some (nm "gdnsd/3")) (some t) ∧ t.length ≤ 254 ∧ chaos = chaosRecord t
  nsid : ∃ x y, TextOf es "nsid" none x ∧ TextOf es "nsid_ascii" none y ∧ Nsid x y nsid

theorem says_opts {es : List (Entry Val)} (hn : (es.map (·.key)).Nodup) {s : Settings} {t : Bytes} {x y : Option Bytes} (hS : Says es s)
    (hT : TextOf es "chaos_response" (some (nm "gdnsd/3")) (some t)) (hx : TextOf es "nsid" none x) (hy : TextOf es "nsid_ascii" none y) :
    confOptions cfgDefaults es = some ((ofSettings s, t, x, y), confKeys.map str) :=
  (confOptions_iff hn).mpr ⟨hS, rfl, rfl, hT, hx, hy, rfl⟩

theorem confLoad_cases {force : Bool} {es : List (Entry Val)} (hn : (es.map (·.key)).Nodup) {asked : List Bytes}
    (hk : allMarked (asked ++ confKeys.map str) es = true ↔ Only es (options ++ oldOptions)) :
    (∃ c, confLoad force asked (some es) = .ok (some c) ∧ Rest force es c.settings c.chaos c.nsid ∧
      ∀ s ch n, Rest force es s ch n → s = c.settings ∧ ch = c.chaos ∧ n = c.nsid) ∨
    (confLoad force asked (some es) = .ok none ∧ ∀ s ch n, ¬ Rest force es s ch n) := by
  unfold confLoad
  dsimp only
  cases ho : confOptions cfgDefaults es with
  | none =>
    refine Or.inr ⟨rfl, ?_⟩
    rintro s ch n ⟨_, ⟨s', hS, _⟩, ⟨t, hT, _⟩, ⟨x, y, hx, hy, _⟩⟩
    have := says_opts hn hS hT hx hy
    rw [ho] at this; cases this
  | some r =>
    obtain ⟨⟨c, ch, x, y⟩, k⟩ := r
    obtain ⟨hS, hc1, hc2, hT, hx, hy, rfl⟩ := (confOptions_iff hn).mp ho
    have huniq : ∀ {s t x' y'}, Says es s → TextOf es "chaos_response" (some (nm "gdnsd/3")) (some t) → TextOf es "nsid" none x' → TextOf es "nsid_ascii" none y' →
        s = c.settings ∧ t = ch ∧ x' = x ∧ y' = y := by
      intro s t x' y' hS' hT' hx' hy'
      have := says_opts hn hS' hT' hx' hy'
      rw [ho] at this
      simp only [Option.some.injEq, Prod.mk.injEq, and_true] at this
      obtain ⟨h1, h2, h3, h4⟩ := this
      exact ⟨by rw [h1]; rfl, h2.symm, h3.symm, h4.symm⟩
    dsimp only
    by_cases hm : allMarked (asked ++ confKeys.map str) es = true
    · rw [if_pos hm]
      obtain ⟨r, hr⟩ := confRest_ok force c ch x y
      rw [hr]
      cases r with
      | none =>
        refine Or.inr ⟨rfl, ?_⟩
        rintro s ch' n ⟨_, ⟨s', hS', _⟩, ⟨t, hT', hl, _⟩, ⟨x', y', hx', hy', hN⟩⟩
        obtain ⟨rfl, rfl, rfl, rfl⟩ := huniq hS' hT' hx' hy'
        have := (confRest_iff (force := force) hc2).mpr ⟨_, hN, hl, rfl⟩
        rw [hr] at this; cases this
      | some c' =>
        obtain ⟨n', hN, hl, rfl⟩ := (confRest_iff hc2).mp hr
        refine Or.inl ⟨_, rfl, ⟨hk.mp hm, ⟨_, hS, rfl⟩, ⟨ch, hT, hl, rfl⟩, ⟨x, y, hx, hy, hN⟩⟩, ?_⟩
        rintro s ch' n ⟨_, ⟨s', hS', rfl⟩, ⟨t, hT', hl', rfl⟩, ⟨x', y', hx', hy', hN'⟩⟩
        obtain ⟨rfl, rfl, rfl, rfl⟩ := huniq hS' hT' hx' hy'
        refine ⟨rfl, rfl, ?_⟩
        have h5 := (confRest_iff (force := force) hc2).mpr ⟨_, hN', hl, rfl⟩
        rw [hr] at h5
        simp only [Outcome.ok.injEq, Option.some.injEq] at h5
        exact (congrArg Cfg.nsid h5).symm
    · rw [if_neg hm]
      exact Or.inr ⟨rfl, fun s ch n h => hm (hk.mpr h.known)⟩

theorem means_rest {bad : Nat} {A : Bytes → Nat → Sin → Prop} {force : Bool} {run state : Bytes} {es : List (Entry Val)} {v : Config} (h : Means bad A force run state es v) :
    Rest force es v.settings v.chaos v.nsid := ⟨h.known, h.settings, h.chaos, h.nsid⟩

/-- All cases of loading options. -/
theorem load_cases {le : Bool} {g : Gai} (hg : ∀ t n, g.serv t = some n → n < 2 ^ 16) {force : Bool} {run state : Bytes} {es : List (Entry Val)} (hc : Clean (.hash es)) :
    (∃ c, loadOptions le g force run state (some es) = .ok (some c) ∧ Means (badPort le) (addrOf g) force run state es c.config ∧
      (∃ port ls cs, c.socks = socksOf port ls cs ∧ ∀ l ∈ ls, Served l) ∧
      ∀ v, Means (badPort le) (addrOf g) force run state es v → v = c.config) ∨
    (loadOptions le g force run state (some es) = .ok none ∧ ∀ v, ¬ Means (badPort le) (addrOf g) force run state es v) := by
  obtain ⟨hn, hfr, hcl⟩ := clean_hash hc
  unfold loadOptions
  dsimp only
  cases hp : pathOptions run state es with
  | none =>
    refine Or.inr ⟨rfl, fun v hv => ?_⟩
    have := (pathOptions_iff hn).mpr ⟨hv.runDir, hv.stateDir, rfl⟩
    rw [hp] at this; cases this
  | some r =>
    obtain ⟨⟨rd, sd⟩, k⟩ := r
    obtain ⟨hrd, hsd, rfl⟩ := (pathOptions_iff hn).mp hp
    have hk := allMarked_iff hfr keys_mem
    dsimp only
    rcases socksLoad_eq (le := le) hg hc with ⟨port, n, v, w, ls, cs, hG, hv, hL, hw, hC, hs⟩ | ⟨hs, hno⟩
    · rw [hs, Outcome.bind_ok]
      dsimp only
      rcases confLoad_cases (force := force) hn hk with ⟨c, h1, h2, h3⟩ | ⟨h1, h2⟩
      · rw [h1]
        refine Or.inl ⟨_, rfl, ⟨h2.known, hrd, hsd, ⟨port, n, v, hG, hv, ?_⟩, ⟨w, hw, ?_⟩, h2.settings, h2.chaos, h2.nsid⟩,
          ⟨port, ls, cs, rfl, listens_served hL (uintOf_min hG.tcpThreads (by decide)) (uintOf_min hG.udpThreads (by decide))⟩, fun v' hv' => ?_⟩
        · simp only [Loaded.config]; rw [(socksOf_view port ls cs).1]; exact hL
        · simp only [Loaded.config]; rw [(socksOf_view port ls cs).2]; exact hC
        · obtain ⟨e1, e2, e3⟩ := h3 _ _ _ (means_rest hv')
          obtain ⟨v1, v2, v3, v4, v5, v6, v7⟩ := v'
          obtain ⟨_, h4, h5, ⟨port', n', v', hG', hv', hL'⟩, ⟨w', hw', hC'⟩, _, _, _⟩ := hv'
          have hpp := (pathOptions_iff hn).mpr ⟨h4, h5, rfl⟩
          rw [hp] at hpp
          simp only [Option.some.injEq, Prod.mk.injEq, and_true] at hpp
          have hll := listens_unique hg hc hG hv hL hG' hv' hL'
          have hcc := controls_unique hc hw hC hw' hC'
          simp only at e1 e2 e3 hll hcc
          simp only [Loaded.config, Config.mk.injEq]
          exact ⟨hpp.1.symm, hpp.2.symm, by rw [(socksOf_view port ls cs).1]; exact hll.symm, by rw [(socksOf_view port ls cs).2]; exact hcc.symm, e1, e2, e3⟩
      · rw [h1]
        exact Or.inr ⟨rfl, fun v hv => h2 _ _ _ (means_rest hv)⟩
    · rw [hs]
      refine Or.inr ⟨rfl, fun v hv => hno ?_⟩
      obtain ⟨port, n, v, h1, h2, h3⟩ := hv.listeners
      obtain ⟨w, h4, h5⟩ := hv.controls
      exact ⟨⟨port, n, v, _, h1, h2, h3⟩, w, _, h4, h5⟩

/-- Options are accepted if and only if all names are known and all values are in their ranges, and then what is used is
what they say, or the default of the manual. -/
theorem C82_options {le : Bool} {g : Gai} (hg : ∀ t n, g.serv t = some n → n < 2 ^ 16) {force : Bool} {run state : Bytes} {es : List (Entry Val)}
    (hc : Clean (.hash es)) {v : Config} :
    (∃ c, loadOptions le g force run state (some es) = .ok (some c) ∧ c.config = v) ↔ Means (badPort le) (addrOf g) force run state es v := by
  rcases load_cases (le := le) (force := force) (run := run) (state := state) hg hc with ⟨c, h1, h2, _, h3⟩ | ⟨h1, h2⟩
  · constructor
    · rintro ⟨c', h, rfl⟩
      rw [h1] at h; cases h; exact h2
    · intro h
      exact ⟨c, h1, (h3 v h).symm⟩
  · constructor
    · rintro ⟨c', h, _⟩
      rw [h1] at h; cases h
    · intro h
      exact absurd h (h2 v)

/-- No assertion fails and no table is read outside its bounds, whatever the options are. -/
theorem C82_total {le : Bool} {g : Gai} (hg : ∀ t n, g.serv t = some n → n < 2 ^ 16) {force : Bool} {run state : Bytes} {es : List (Entry Val)}
    (hc : Clean (.hash es)) : ∃ r, loadOptions le g force run state (some es) = .ok r := by
  rcases load_cases (le := le) (force := force) (run := run) (state := state) hg hc with ⟨c, h1, _⟩ | ⟨h1, _⟩
  · exact ⟨_, h1⟩
  · exact ⟨_, h1⟩

/-- No options are as good as an empty hash of them. -/
theorem C82_none {le : Bool} {g : Gai} {force : Bool} {run state : Bytes} :
    loadOptions le g force run state none = loadOptions le g force run state (some []) := by
  have h1 : pathOptions run state [] = some ((run, state), [str "run_dir", str "state_dir"]) := rfl
  have h2 : socksOptions addrDefaults [] = some ((addrDefaults, none, none), socksKeys.map str) := rfl
  have h3 : confOptions cfgDefaults [] = some ((cfgDefaults, chaosDef, none, none), confKeys.map str) := rfl
  have h4 : ∀ k, allMarked k [] = true := fun _ => rfl
  unfold loadOptions
  simp only [h1]
  unfold socksLoad
  simp only [h2]
  cases fillAddrs le g addrDefaults none with
  | none => rfl
  | some as =>
    dsimp only
    split
    · rfl
    · split
      · rfl
      · split
        · rfl
        · cases ctlAddrs g none with
          | none => rfl
          | some cs =>
            simp only [Option.map_some, Outcome.bind_ok]
            unfold confLoad
            simp only [h3, h4, if_true]

/-- The file as a whole: it has nothing but options, service types and plugins, of which the first must be a hash. -/
theorem C82_root {le : Bool} {g : Gai} (hg : ∀ t n, g.serv t = some n → n < 2 ^ 16) {force : Bool} {run state : Bytes} {others : Option Val → Option Val → Bool}
    {es : List (Entry Val)} (hc : Clean (.hash es)) {v : Config} :
    (∃ c, load le g force run state others (some (.hash es)) = .ok (some c) ∧ c.config = v) ↔
      Only es ["options", "service_types", "plugins"] ∧ (∃ s p, ValueOf es "service_types" s ∧ ValueOf es "plugins" p ∧ others s p = true) ∧
      ((Absent es "options" ∧ Means (badPort le) (addrOf g) force run state [] v) ∨
        ∃ os, Is es "options" (.hash os) ∧ Means (badPort le) (addrOf g) force run state os v) := by
  obtain ⟨hn, hfr, hcl⟩ := clean_hash hc
  have hk : allMarked [str "options", str "service_types", str "plugins"] es = true ↔ Only es ["options", "service_types", "plugins"] :=
    allMarked_iff hfr (by simp)
  have ho : (∃ s p, ValueOf es "service_types" s ∧ ValueOf es "plugins" p ∧ others s p = true) ↔
      others (find es (str "service_types")) (find es (str "plugins")) = true := by
    simp only [valueOf_iff hn]
    constructor
    · rintro ⟨_, _, rfl, rfl, h⟩; exact h
    · intro h; exact ⟨_, _, rfl, rfl, h⟩
  have key : ∀ o, (∃ c, (loadOptions le g force run state o).map (fun r =>
      if others (find es (str "service_types")) (find es (str "plugins")) = true ∧
          allMarked [str "options", str "service_types", str "plugins"] es = true then r else none) = .ok (some c) ∧ c.config = v) ↔
      Only es ["options", "service_types", "plugins"] ∧ (∃ s p, ValueOf es "service_types" s ∧ ValueOf es "plugins" p ∧ others s p = true) ∧
        ∃ c, loadOptions le g force run state o = .ok (some c) ∧ c.config = v := by
    intro o
    rw [ho, ← hk]
    cases hl : loadOptions le g force run state o with
    | ub => simp [Outcome.map]
    | ok r =>
      simp only [Outcome.map, Outcome.ok.injEq]
      constructor
      · rintro ⟨c, h, rfl⟩
        split at h
        next hx => exact ⟨hx.2, hx.1, c, h, rfl⟩
        · cases h
      · rintro ⟨h1, h2, c, h3, rfl⟩
        exact ⟨c, by rw [if_pos ⟨h2, h1⟩]; exact h3, rfl⟩
  unfold load
  dsimp only
  cases hf : find es (str "options") with
  | none =>
    dsimp only
    rw [key, C82_none, C82_options hg (.hash (by simp) .nil)]
    constructor
    · rintro ⟨h1, h2, h3⟩
      exact ⟨h1, h2, Or.inl ⟨absent_iff.mpr hf, h3⟩⟩
    · rintro ⟨h1, h2, h3 | ⟨os, h3, _⟩⟩
      · exact ⟨h1, h2, h3.2⟩
      · rw [is_iff hn, hf] at h3; cases h3
  | some x =>
    have hcx := clean_find hcl hf
    have hab : ¬ Absent es "options" := by rw [absent_iff, hf]; simp
    match x, hcx with
    | .hash os, hcx =>
      dsimp only
      rw [key, C82_options hg hcx]
      constructor
      · rintro ⟨h1, h2, h3⟩
        exact ⟨h1, h2, Or.inr ⟨os, (is_iff hn).mpr hf, h3⟩⟩
      · rintro ⟨h1, h2, h3 | ⟨os', h3, h4⟩⟩
        · exact absurd h3.1 hab
        · rw [is_iff hn, hf] at h3; cases h3; exact ⟨h1, h2, h4⟩
    | .simple _ _, _ =>
      constructor
      · rintro ⟨c, h, _⟩; cases h
      · rintro ⟨_, _, h3 | ⟨os', h3, h4⟩⟩
        · exact absurd h3.1 hab
        · rw [is_iff hn, hf] at h3; cases h3
    | .array _, _ =>
      constructor
      · rintro ⟨c, h, _⟩; cases h
      · rintro ⟨_, _, h3 | ⟨os', h3, h4⟩⟩
        · exact absurd h3.1 hab
        · rw [is_iff hn, hf] at h3; cases h3

/-! ### Listeners -/

/-- PROXY listeners must not have port 53, all else is as the manual says. Partial: only where the most significant
byte of a number is the first in memory (`C83_port53`). -/
theorem C83_listen_partial {g : Gai} (hg : ∀ t n, g.serv t = some n → n < 2 ^ 16) {force : Bool} {run state : Bytes} {es : List (Entry Val)}
    (hc : Clean (.hash es)) {v : Config} :
    (∃ c, loadOptions false g force run state (some es) = .ok (some c) ∧ c.config = v) ↔ Means 53 (addrOf g) force run state es v :=
  C82_options hg hc

/-- On other machines it is another port that PROXY listeners must not have. -/
theorem C83_little_endian {g : Gai} (hg : ∀ t n, g.serv t = some n → n < 2 ^ 16) {force : Bool} {run state : Bytes} {es : List (Entry Val)}
    (hc : Clean (.hash es)) {v : Config} :
    (∃ c, loadOptions true g force run state (some es) = .ok (some c) ∧ c.config = v) ↔ Means 13568 (addrOf g) force run state es v :=
  C82_options hg hc

theorem count_threads (i j : Nat) (b : Bool) (a : DnsAddr) : (threadsOf j a).count (i, b) = if i = j then (if b = true then a.udpThreads else a.tcpThreads) else 0 := by
  simp only [threadsOf, List.count_append, List.count_replicate]
  by_cases h : i = j
  · subst h; cases b <;> simp
  · have h1 : ∀ c, ((j, c) == (i, b)) = false := fun c => by simp; intro h'; exact absurd h'.symm h
    simp [h1, h]

theorem threads_count : ∀ (as : List DnsAddr) (k i : Nat) (b : Bool),
    (threadsFrom k as).count (i, b) = if k ≤ i then (match as[i - k]? with | some a => if b = true then a.udpThreads else a.tcpThreads | none => 0) else 0
  | [], k, i, b => by simp [threadsFrom]
  | a :: as, k, i, b => by
    simp only [threadsFrom, List.count_append, count_threads, threads_count as (k + 1) i b]
    by_cases h : i = k
    · subst h
      simp [show ¬ i + 1 ≤ i by omega]
    · rw [if_neg h]
      by_cases hk : k ≤ i
      · rw [if_pos hk, if_pos (by omega), show i - k = (i - (k + 1)) + 1 by omega]
        simp
      · rw [if_neg hk, if_neg (by omega)]

/-- Each listener gets as many threads for UDP and TCP as it should have, and there are no others. There is at
least one for TCP. There are none for UDP if and only if it is for PROXY. -/
theorem C83_threads {le : Bool} {g : Gai} (hg : ∀ t n, g.serv t = some n → n < 2 ^ 16) {force : Bool} {run state : Bytes} {es : List (Entry Val)}
    (hc : Clean (.hash es)) {c : Loaded} (h : loadOptions le g force run state (some es) = .ok (some c)) :
    (∀ i l, c.config.listeners[i]? = some l → c.socks.dnsThreads.count (i, true) = l.n.udpThreads ∧ c.socks.dnsThreads.count (i, false) = l.n.tcpThreads ∧
      1 ≤ l.n.tcpThreads ∧ (l.n.udpThreads = 0 ↔ l.proxy = true)) ∧
    (∀ t ∈ c.socks.dnsThreads, t.1 < c.config.listeners.length) ∧ c.config.listeners ≠ [] := by
  rcases load_cases (le := le) (force := force) (run := run) (state := state) hg hc with ⟨c', h1, hM, ⟨port, ls, cs, hs, hS⟩, _⟩ | ⟨h1, _⟩
  · rw [h1] at h
    cases h
    have hl : c.config.listeners = ls := by simp only [Loaded.config, hs]; exact (socksOf_view port ls cs).1
    have ht : c.socks.dnsThreads = threadsFrom 0 (ls.map (ofListener port)) := by rw [hs]; rfl
    rw [hl, ht]
    refine ⟨fun i l hi => ?_, fun t hin => ?_, ?_⟩
    · have hm := hS l (List.mem_of_getElem? hi)
      simp only [threads_count, Nat.zero_le, if_true, Nat.sub_zero, List.getElem?_map, hi, Option.map_some, Bool.false_eq_true, if_false]
      refine ⟨rfl, rfl, hm.1, fun h0 => ?_, hm.2.1⟩
      cases hp : l.proxy with
      | true => rfl
      | false => have := hm.2.2 hp; omega
    · have := List.count_pos_iff.mpr hin
      rw [threads_count] at this
      simp only [Nat.zero_le, if_true, Nat.sub_zero, List.getElem?_map] at this
      cases hx : ls[t.1]? with
      | none => rw [hx] at this; simp at this
      | some l => exact (List.getElem?_eq_some_iff.mp hx).1
    · obtain ⟨_, _, _, _, _, hL⟩ := hM.listeners
      rw [hl] at hL
      exact listens_ne hL
  · rw [h1] at h; cases h

/-! ### Examples -/

/-- An entry with a string. -/
def exStr (k v : String) : Entry Val := ⟨str k, false, .simple (str v) (str v)⟩

/-- Options: `lock_mem = true, min_ttl = 10, nsid = 6162, tcp_control = 127.0.0.1:5353, listen = { 127.0.0.1:<port> = { tcp_proxy = true,
tcp_threads = 4 } }`. -/
def exOptions (port : String) : List (Entry Val) :=
  [exStr "lock_mem" "true", exStr "min_ttl" "10", exStr "nsid" "6162", exStr "tcp_control" "127.0.0.1:5353",
   ⟨str "listen", false, .hash [⟨str "127.0.0.1:" ++ str port, false, .hash [exStr "tcp_proxy" "true", exStr "tcp_threads" "4"]⟩]⟩]

theorem exOptions_clean (port : String) : Clean (.hash (exOptions port)) := by
  have hs : ∀ k v es, CleanOf es → CleanOf (exStr k v :: es) := fun k v es h => .cons .simple h
  refine .hash ?_ (hs _ _ _ (hs _ _ _ (hs _ _ _ (hs _ _ _ (.cons (.hash (by simp) (.cons (.hash ?_ (hs _ _ _ (hs _ _ _ .nil))) .nil)) .nil)))))
  · have : (exOptions port).map (·.key) = [str "lock_mem", str "min_ttl", str "nsid", str "tcp_control", str "listen"] := rfl
    rw [this]
    decide +kernel
  · have : [exStr "tcp_proxy" "true", exStr "tcp_threads" "4"].map (·.key) = [str "tcp_proxy", str "tcp_threads"] := rfl
    rw [this]
    decide +kernel

/-- What matters of the result. -/
def exResult (le : Bool) (port : String) : Option (Bool × Nat × Nat × Option Bytes × List (Nat × Nat × Nat) × List (Nat × Bool) × Nat) :=
  match loadOptions le exGai false (str "/run") (str "/var") (some (exOptions port)) with
  | .ok (some c) => some (c.cfg.lockMem, c.cfg.minTtl, c.cfg.maxTtl, c.cfg.nsid, c.socks.dnsAddrs.map (fun a => (a.addr.port, a.udpThreads, a.tcpThreads)),
      c.socks.dnsThreads, c.socks.fdEstimate)
  | _ => none

/-- On common machines a PROXY listener may have port 53, but not 13568. -/
theorem C83_port53 : (∃ c, loadOptions true exGai false (str "/run") (str "/var") (some (exOptions "53")) = .ok (some c)) ∧
    (∀ v, ¬ Means 53 (addrOf exGai) false (str "/run") (str "/var") (exOptions "53") v) ∧
    loadOptions true exGai false (str "/run") (str "/var") (some (exOptions "13568")) = .ok none ∧
    ∃ v, Means 53 (addrOf exGai) false (str "/run") (str "/var") (exOptions "13568") v := by
  have h1 : (exResult true "53").isSome = true := by decide +kernel
  have h2 : exResult false "53" = none := by decide +kernel
  have h3 : exResult true "13568" = none := by decide +kernel
  have h4 : (exResult false "13568").isSome = true := by decide +kernel
  have tot := fun le port => C82_total (le := le) exGai_numeric.port (force := false) (run := str "/run") (state := str "/var") (exOptions_clean port)
  have some' : ∀ {le port}, (exResult le port).isSome = true → ∃ c, loadOptions le exGai false (str "/run") (str "/var") (some (exOptions port)) = .ok (some c) := by
    intro le port h
    unfold exResult at h
    split at h
    next c hc => exact ⟨c, hc⟩
    · cases h
  have none' : ∀ {le port}, exResult le port = none → loadOptions le exGai false (str "/run") (str "/var") (some (exOptions port)) = .ok none := by
    intro le port h
    unfold exResult at h
    obtain ⟨r, hr⟩ := tot le port
    cases r with
    | none => exact hr
    | some c => rw [hr] at h; cases h
  refine ⟨some' h1, fun v hv => ?_, none' h3, ?_⟩
  · obtain ⟨c, hc, _⟩ := (C83_listen_partial exGai_numeric.port (exOptions_clean _)).mpr hv
    rw [none' h2] at hc; cases hc
  · obtain ⟨c, hc⟩ := some' h4
    exact ⟨_, (C83_listen_partial exGai_numeric.port (exOptions_clean _)).mp ⟨c, hc, rfl⟩⟩

example : (exResult true "5353").map (fun r => (r.1, r.2.1, r.2.2.1)) = some (true, 10, 3600000) ∧
    ((exResult true "5353").bind fun r => r.2.2.2.1) = some [0x61, 0x62] ∧ (exResult true "5353").map (fun r => r.2.2.2.2.1) = some [(5353, 0, 4)] ∧
    (exResult true "5353").map (fun r => r.2.2.2.2.2.1) = some [(0, false), (0, false), (0, false), (0, false)] ∧
    (exResult true "5353").map (fun r => r.2.2.2.2.2.2) = some 1061 := by
  decide +kernel

end Gdnsd.Conf
