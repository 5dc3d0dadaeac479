import Verif.Conf.OptLemmas
import Verif.Conf.AddrProps
import Verif.Conf.ConfigSpec
namespace Gdnsd.Conf
open Vscf VscfSpec ConfSpec

/-! ### Data from files -/

theorem cleanOf_mem : ∀ {es} {e : Entry Val}, CleanOf es → e ∈ es → Clean e.val ∧ e.marked = false
  | [], _, _, h => by cases h
  | _ :: _, _, .cons h hs, he => by
    rcases List.mem_cons.mp he with rfl | he
    · exact ⟨h, rfl⟩
    · exact cleanOf_mem hs he

theorem cleans_mem : ∀ {vs v}, Cleans vs → v ∈ vs → Clean v
  | [], _, _, h => by cases h
  | _ :: _, _, .cons h hs, he => by
    rcases List.mem_cons.mp he with rfl | he
    · exact h
    · exact cleans_mem hs he

theorem clean_hash {es : List (Entry Val)} (h : Clean (.hash es)) : (es.map (·.key)).Nodup ∧ Fresh es ∧ CleanOf es := by
  cases h with
  | hash h1 h2 => exact ⟨h1, fun e he => (cleanOf_mem h2 he).2, h2⟩

theorem clean_find {es : List (Entry Val)} (h : CleanOf es) {k : Bytes} {v : Val} (hf : find es k = some v) : Clean v := by
  obtain ⟨e, he, _, rfl⟩ := find_some hf
  exact (cleanOf_mem h he).1

/-! ### Loops -/

theorem each_iff {α β γ : Type} {f : α → Option β} {h : γ → β} {R : α → γ → Prop} : ∀ {xs : List α} {ys : List β},
    (∀ x ∈ xs, ∀ y, f x = some y ↔ ∃ l, y = h l ∧ R x l) → (each f xs = some ys ↔ ∃ ls, ys = ls.map h ∧ Each R xs ls)
  | [], ys, _ => by
    simp only [each, Option.some.injEq]
    constructor
    · rintro rfl; exact ⟨[], rfl, .nil⟩
    · rintro ⟨ls, rfl, h⟩; cases h; rfl
  | x :: xs, ys, hx => by
    simp only [each, Option.bind_eq_some_iff, Option.map_eq_some_iff]
    constructor
    · rintro ⟨y, h1, ys', h2, rfl⟩
      obtain ⟨l, rfl, h3⟩ := (hx x (by simp) y).mp h1
      obtain ⟨ls, rfl, h4⟩ := (each_iff (fun x h => hx x (by simp [h]))).mp h2
      exact ⟨l :: ls, rfl, .cons h3 h4⟩
    · rintro ⟨ls, rfl, h⟩
      cases h with
      | cons h1 h2 =>
        exact ⟨_, (hx x (by simp) _).mpr ⟨_, rfl, h1⟩, _, (each_iff (fun x h => hx x (by simp [h]))).mpr ⟨_, rfl, h2⟩, rfl⟩

theorem each_map {α β γ : Type} (f : α → Option β) (h : γ → α) : ∀ xs, each f (xs.map h) = each (fun x => f (h x)) xs
  | [] => rfl
  | x :: xs => by simp only [List.map_cons, each, each_map f h xs]

theorem each_congr {α β : Type} {f g : α → Option β} : ∀ {xs : List α}, (∀ x ∈ xs, f x = g x) → each f xs = each g xs
  | [], _ => rfl
  | x :: xs, h => by
    have ih : each f xs = each g xs := each_congr (fun x hx => h x (by simp [hx]))
    simp only [each, h x (by simp), ih]

theorem each_range {α β : Type} (f : Option α → Option β) (vs : List α) : each (fun i => f vs[i]?) (List.range vs.length) = each (fun v => f (some v)) vs := by
  induction vs with
  | nil => rfl
  | cons v vs ih =>
    rw [List.length_cons, List.range_succ_eq_map]
    simp only [each, each_map]
    rw [show ((v :: vs)[0]? = some v) from rfl]
    congr 1
    funext y
    congr 1

theorem each_array {β : Type} (f : Option Val → Option β) (vs : List Val) :
    each (fun i => f (arrGet (.array vs) i)) (List.range (arrLen (.array vs))) = each (fun v => f (some v)) vs := by
  rw [← each_range]
  apply each_congr
  intro i hi
  simp only [arrLen, List.mem_range] at hi
  simp only [arrGet]
  rw [if_neg (by omega)]

theorem each_one {β : Type} (f : Option Val → Option β) (r v : Bytes) :
    each (fun i => f (arrGet (.simple r v) i)) (List.range (arrLen (.simple r v))) = each (fun v => f (some v)) [.simple r v] := rfl

/-! ### Listeners -/

/-- Which texts are addresses for the program (C84). -/
def addrOf (g : Gai) (t : Bytes) (port : Nat) (s : Sin) : Prop := fromstr g t port = some s

/-- The port that PROXY listeners must not have. -/
def badPort (le : Bool) : Nat := if le = true then 13568 else 53

/-- An address from a listener. -/
def ofListener (port : Nat) (l : Listener) : DnsAddr where
  addr := l.at'
  dnsPort := port
  udpSndbuf := l.n.udpSndbuf
  udpRcvbuf := l.n.udpRcvbuf
  udpThreads := l.n.udpThreads
  tcpTimeout := l.n.tcpTimeout
  tcpFastopen := l.n.tcpFastopen
  tcpClientsPerThread := l.n.tcpClientsPerThread
  tcpBacklog := l.n.tcpBacklog
  tcpThreads := l.n.tcpThreads
  tcpProxy := l.proxy
  tcpPad := l.pad

theorem ofListener_listener (port : Nat) (l : Listener) : (ofListener port l).listener = l := rfl

theorem listener_ofListener {a : DnsAddr} : a = ofListener a.dnsPort a.listener := rfl

theorem netPort_iff {le : Bool} {p : Nat} (h : p < 2 ^ 16) : netPort le p = 53 ↔ p = badPort le := by
  cases le <;> simp [netPort, badPort]
  omega

theorem fromstr_port {g : Gai} (hg : ∀ t n, g.serv t = some n → n < 2 ^ 16) {t : Bytes} {port : Nat} {s : Sin} (h : fromstr g t port = some s) : s.port < 2 ^ 16 := by
  have hsp : ∃ a p, splitAddr t = (a, p) := ⟨_, _, rfl⟩
  obtain ⟨a, p, hs⟩ := hsp
  simp only [fromstr, hs, Option.map_eq_some_iff] at h
  obtain ⟨s', h1, h2⟩ := h
  have h3 : s'.port < 2 ^ 16 := by
    simp only [getaddrinfo, Option.bind_eq_some_iff] at h1
    obtain ⟨_, _, h1⟩ := h1
    cases p with
    | none => simp only [Option.some.injEq] at h1; rw [← h1]; exact Nat.zero_lt_succ _
    | some q =>
      simp only [Option.map_eq_some_iff] at h1
      obtain ⟨n, hn, rfl⟩ := h1
      exact hg _ _ hn
  split at h2
  · rw [← h2]; exact Nat.mod_lt _ (by decide)
  · rw [← h2]; exact h3

theorem over_iff {os : List (Entry Val)} {d : Numbers} {l : Listener} : Overrides os d l ↔
    Over os d l ∧ Only os (if l.proxy = true then tcpKeys else tcpKeys ++ udpKeys) := by
  constructor
  · rintro ⟨h1, h2, h3, h4, h5, h6, h7, h8, h9⟩
    refine ⟨⟨h1, h2, h3, h4, h5, h6, h7, fun h => ⟨(h8 h).1, (h8 h).2.1, (h8 h).2.2.1⟩, fun h => ⟨(h9 h).1, (h9 h).2.1, (h9 h).2.2.1⟩⟩, ?_⟩
    cases h : l.proxy with
    | true => exact (h8 h).2.2.2
    | false => exact (h9 h).2.2.2
  · rintro ⟨⟨h1, h2, h3, h4, h5, h6, h7, h8, h9⟩, h⟩
    refine ⟨h1, h2, h3, h4, h5, h6, h7, fun hp => ?_, fun hp => ?_⟩
    · rw [hp] at h; exact ⟨(h8 hp).1, (h8 hp).2.1, (h8 hp).2.2, h⟩
    · rw [hp] at h; exact ⟨(h9 hp).1, (h9 hp).2.1, (h9 hp).2.2, h⟩

theorem addrKeys_mem (p : Bool) (b : Bytes) : b ∈ (addrKeys p).map str ↔ ∃ k ∈ (if p = true then tcpKeys else tcpKeys ++ udpKeys), b = str k := by
  have : ∀ k, k ∈ addrKeys p ↔ k ∈ (if p = true then tcpKeys else tcpKeys ++ udpKeys) := by
    intro k
    cases p <;> simp only [addrKeys, tcpKeys, udpKeys, if_true, Bool.false_eq_true, if_false, List.mem_append, List.mem_cons, List.not_mem_nil, or_false, List.cons_append, List.nil_append] <;>
      (constructor <;> (intro h; grind))
  simp only [List.mem_map, this]
  exact ⟨fun ⟨k, h1, h2⟩ => ⟨k, h1, h2.symm⟩, fun ⟨k, h1, h2⟩ => ⟨k, h1, h2.symm⟩⟩

theorem listenEntry_iff {le : Bool} {g : Gai} (hg : ∀ t n, g.serv t = some n → n < 2 ^ 16) {d : DnsAddr} (hp : d.tcpProxy = false) (hq : d.tcpPad = false)
    {e : Entry Val} (hc : Clean e.val) {a : DnsAddr} :
    listenEntry le g d e = some a ↔ ∃ l, a = ofListener d.dnsPort l ∧ ListenEntry (badPort le) (addrOf g) d.dnsPort d.numbers e l := by
  unfold listenEntry
  constructor
  · intro h
    generalize hv : e.val = v at h
    match v, h with
    | .simple _ _, h => cases h
    | .array _, h => cases h
    | .hash os, h =>
      rw [hv] at hc
      obtain ⟨hn, hf, _⟩ := clean_hash hc
      simp only [Option.bind_eq_some_iff, Prod.exists] at h
      obtain ⟨b, k, h1, s, h2, h3⟩ := h
      obtain ⟨ho, ha, hd, rfl⟩ := (addrOptions_iff hn hp hq).mp h1
      rw [hd] at h2
      split at h3
      · cases h3
      next hx =>
        split at h3
        next hm =>
          simp only [Option.some.injEq] at h3
          subst h3
          refine ⟨{ b.listener with at' := s }, ?_, ⟨os, hv, over_iff.mpr ⟨?_, (allMarked_iff hf (addrKeys_mem _)).mp hm⟩⟩, ⟨_, upToZero_iff.mpr rfl, h2⟩, fun hpr hb => ?_⟩
          · rw [← hd]; rfl
          · obtain ⟨h1, h2, h3, h4, h5, h6, h7, h8, h9⟩ := ho
            exact ⟨h1, h2, h3, h4, h5, h6, h7, h8, h9⟩
          · exact hx ⟨hpr, (netPort_iff (fromstr_port hg h2)).mpr hb⟩
        · cases h3
  · rintro ⟨l, rfl, ⟨os, hv, ho⟩, ⟨t, ht, hA⟩, hb⟩
    obtain rfl := upToZero_iff.mp ht
    rw [hv] at hc
    obtain ⟨hn, hf, _⟩ := clean_hash hc
    obtain ⟨ho, hk⟩ := over_iff.mp ho
    rw [hv]
    simp only [Option.bind_eq_some_iff, Prod.exists]
    have ho' : Over os d.numbers (ofListener d.dnsPort { l with at' := d.addr }).listener := by
      obtain ⟨h1, h2, h3, h4, h5, h6, h7, h8, h9⟩ := ho
      exact ⟨h1, h2, h3, h4, h5, h6, h7, h8, h9⟩
    refine ⟨_, _, (addrOptions_iff hn hp hq).mpr ⟨ho', rfl, rfl, rfl⟩, l.at', hA, ?_⟩
    refine (if_neg ?_).trans ((if_pos ((allMarked_iff hf (addrKeys_mem _)).mpr hk)).trans rfl)
    · rintro ⟨h1, h2⟩
      exact hb h1 ((netPort_iff (fromstr_port hg hA)).mp h2)

theorem listenPlain_iff {g : Gai} {d : DnsAddr} (hp : d.tcpProxy = false) (hq : d.tcpPad = false) {v : Val} {a : DnsAddr} :
    listenPlain g d (some v) = some a ↔ ∃ l, a = ofListener d.dnsPort l ∧ Plain (addrOf g) d.dnsPort d.numbers v l := by
  constructor
  · intro h
    match v, h with
    | .simple r v, h =>
      simp only [listenPlain, Option.map_eq_some_iff] at h
      obtain ⟨s, h1, rfl⟩ := h
      refine ⟨_, ?_, r, v, _, s, rfl, upToZero_iff.mpr rfl, h1, rfl⟩
      simp [ofListener, DnsAddr.numbers, hp, hq]
  · rintro ⟨l, rfl, r, t, u, s, rfl, ht, hA, rfl⟩
    obtain rfl := upToZero_iff.mp ht
    simp only [listenPlain, Option.map_eq_some_iff]
    refine ⟨s, hA, ?_⟩
    simp [ofListener, DnsAddr.numbers, hp, hq]

theorem listenAny_iff {g : Gai} {d : DnsAddr} (hp : d.tcpProxy = false) (hq : d.tcpPad = false) {as : List DnsAddr} :
    listenAny g d = some as ↔ ∃ ls, as = ls.map (ofListener d.dnsPort) ∧ Any (addrOf g) d.dnsPort d.numbers ls := by
  have e : ∀ s, { d with addr := s } = ofListener d.dnsPort ⟨s, d.numbers, false, false⟩ := by
    intro s; simp [ofListener, DnsAddr.numbers, hp, hq]
  simp only [listenAny, Option.bind_eq_some_iff, Option.map_eq_some_iff]
  constructor
  · rintro ⟨a, h1, b, h2, rfl⟩
    exact ⟨_, by simp only [e]; rfl, a, b, h1, h2, rfl⟩
  · rintro ⟨ls, rfl, a, b, h1, h2, rfl⟩
    exact ⟨a, h1, b, h2, by simp only [e]; rfl⟩

theorem isAny_iff {r t : Bytes} : isAny (.simple r t) = true ↔ UpToZero t (nm "any") := by
  rw [upToZero_iff]
  simp only [isAny, beq_iff_eq, nm_str]
  exact ⟨Eq.symm, Eq.symm⟩

theorem each_nil {α β : Type} {R : α → β → Prop} {xs : List α} {ys : List β} (h : Each R xs ys) : ys = [] ↔ xs = [] := by
  cases h <;> simp

theorem fillAddrs_iff {le : Bool} {g : Gai} (hg : ∀ t n, g.serv t = some n → n < 2 ^ 16) {d : DnsAddr} (hp : d.tcpProxy = false) (hq : d.tcpPad = false)
    {listen : Option Val} (hc : ∀ v, listen = some v → Clean v) {as : List DnsAddr} :
    (fillAddrs le g d listen = some as ∧ as ≠ []) ↔ ∃ ls, as = ls.map (ofListener d.dnsPort) ∧ Listens (badPort le) (addrOf g) d.dnsPort d.numbers listen ls := by
  have hany : ∀ {ls}, Any (addrOf g) d.dnsPort d.numbers ls → ls ≠ [] := by
    rintro _ ⟨_, _, _, _, rfl⟩; simp
  match listen, hc with
  | none, _ =>
    simp only [fillAddrs, listenAny_iff hp hq]
    constructor
    · rintro ⟨⟨ls, rfl, h⟩, _⟩; exact ⟨ls, rfl, .absent h⟩
    · rintro ⟨ls, rfl, h⟩
      cases h with
      | absent h => exact ⟨⟨ls, rfl, h⟩, by simpa using hany h⟩
  | some (.simple r t), _ =>
    simp only [fillAddrs]
    by_cases ht : UpToZero t (nm "any")
    · rw [if_pos (isAny_iff.mpr ht), listenAny_iff hp hq]
      constructor
      · rintro ⟨⟨ls, rfl, h⟩, _⟩; exact ⟨ls, rfl, .any ht h⟩
      · rintro ⟨ls, rfl, h⟩
        cases h with
        | any _ h => exact ⟨⟨ls, rfl, h⟩, by simpa using hany h⟩
        | one hn _ => exact absurd ht hn
    · rw [if_neg (fun h => ht (isAny_iff.mp h)), each_one (listenPlain g d), each_iff (fun v _ a => listenPlain_iff hp hq)]
      constructor
      · rintro ⟨⟨ls, rfl, h⟩, _⟩
        cases h with
        | cons h1 h2 => cases h2; exact ⟨_, rfl, .one ht h1⟩
      · rintro ⟨ls, rfl, h⟩
        cases h with
        | any h _ => exact absurd h ht
        | one _ h => exact ⟨⟨_, rfl, .cons h .nil⟩, by simp⟩
  | some (.array vs), _ =>
    simp only [fillAddrs, isAny, Bool.false_eq_true, if_false]
    rw [each_array (listenPlain g d), each_iff (fun v _ a => listenPlain_iff hp hq)]
    constructor
    · rintro ⟨⟨ls, rfl, h⟩, hne⟩
      refine ⟨ls, rfl, .many (fun h0 => hne ?_) h⟩
      rw [(each_nil h).mpr h0]; rfl
    · rintro ⟨ls, rfl, h⟩
      cases h with
      | many hne h =>
        refine ⟨⟨ls, rfl, h⟩, fun h0 => hne ((each_nil h).mp ?_)⟩
        simpa using h0
  | some (.hash es), hc =>
    simp only [fillAddrs, isAny, Bool.false_eq_true, if_false]
    obtain ⟨_, _, hcl⟩ := clean_hash (hc _ rfl)
    rw [each_iff (fun e he a => listenEntry_iff hg hp hq (cleanOf_mem hcl he).1)]
    constructor
    · rintro ⟨⟨ls, rfl, h⟩, hne⟩
      refine ⟨ls, rfl, .hash (fun h0 => hne ?_) h⟩
      rw [(each_nil h).mpr h0]; rfl
    · rintro ⟨ls, rfl, h⟩
      cases h with
      | hash hne h =>
        refine ⟨⟨ls, rfl, h⟩, fun h0 => hne ((each_nil h).mp ?_)⟩
        simpa using h0

/-! ### Control addresses -/

/-- An address from a control address. -/
def ofControl (c : Control) : CtlAddr := ⟨c.at', c.chalOk, c.ctlOk⟩

theorem ctlPlain_iff {g : Gai} {v : Val} {a : CtlAddr} :
    ctlPlain g (some v) = some a ↔ ∃ c, a = ofControl c ∧ ControlPlain (addrOf g) v c := by
  constructor
  · intro h
    match v, h with
    | .simple r v, h =>
      simp only [ctlPlain, ctlItem, Option.bind_some, Option.bind_eq_some_iff] at h
      obtain ⟨s, h1, h2⟩ := h
      split at h2
      · cases h2
      next hs =>
        simp only [Option.some.injEq] at h2
        exact ⟨⟨s, false, false⟩, h2.symm, r, v, rfl, ⟨_, upToZero_iff.mpr rfl, h1, hs⟩, rfl, rfl⟩
  · rintro ⟨⟨s, x, y⟩, rfl, r, t, rfl, ⟨u, hu, hA, hs⟩, hx, hy⟩
    obtain rfl := upToZero_iff.mp hu
    simp only at hx hy hA hs
    subst hx hy
    simp only [ctlPlain, ctlItem, Option.bind_some, Option.bind_eq_some_iff]
    exact ⟨s, hA, by rw [if_neg hs]; rfl⟩

theorem ctlKeys_mem (b : Bytes) : b ∈ [str "chal_ok", str "ctl_ok"] ↔ ∃ k ∈ ["chal_ok", "ctl_ok"], b = str k := by simp

theorem ctlEntry_iff {g : Gai} {e : Entry Val} (hc : Clean e.val) {a : CtlAddr} :
    ctlItem g e.key (some e.val) = some a ↔ ∃ c, a = ofControl c ∧ ControlEntry (addrOf g) e c := by
  unfold ctlItem
  constructor
  · intro h
    generalize hv : e.val = v at h
    match v, h with
    | .simple _ _, h => cases h
    | .array _, h => cases h
    | .hash os, h =>
      rw [hv] at hc
      obtain ⟨hn, hf, _⟩ := clean_hash hc
      simp only [Option.bind_eq_some_iff, Prod.exists] at h
      obtain ⟨x, y, ⟨x', y', k, h1, h2⟩, s, h3, h4⟩ := h
      obtain ⟨hx, hy, rfl⟩ := (ctlOptions_iff hn).mp h1
      split at h2
      next hm =>
        simp only [Option.some.injEq, Prod.mk.injEq] at h2
        obtain ⟨rfl, rfl⟩ := h2
        split at h4
        · cases h4
        next hs =>
          simp only [Option.some.injEq] at h4
          exact ⟨⟨s, x', y'⟩, h4.symm, ⟨_, upToZero_iff.mpr rfl, h3, hs⟩, os, hv, hx, hy, (allMarked_iff hf ctlKeys_mem).mp hm⟩
      · cases h2
  · rintro ⟨⟨s, x, y⟩, rfl, ⟨u, hu, hA, hs⟩, os, hv, hx, hy, hk⟩
    obtain rfl := upToZero_iff.mp hu
    rw [hv] at hc
    obtain ⟨hn, hf, _⟩ := clean_hash hc
    rw [hv]
    simp only [Option.bind_eq_some_iff, Prod.exists]
    exact ⟨x, y, ⟨x, y, _, (ctlOptions_iff hn).mpr ⟨hx, hy, rfl⟩, by rw [if_pos ((allMarked_iff hf ctlKeys_mem).mpr hk)]⟩, s, hA, by rw [if_neg hs]; rfl⟩

theorem ctlAddrs_iff {g : Gai} {v : Option Val} (hc : ∀ x, v = some x → Clean x) {as : List CtlAddr} :
    ctlAddrs g v = some as ↔ ∃ cs, as = cs.map ofControl ∧ Controls (addrOf g) v cs := by
  match v, hc with
  | none, _ =>
    simp only [ctlAddrs, Option.some.injEq]
    constructor
    · rintro rfl; exact ⟨[], rfl, .absent⟩
    · rintro ⟨cs, rfl, h⟩; cases h; rfl
  | some (.simple r t), _ =>
    simp only [ctlAddrs]
    rw [each_one (ctlPlain g), each_iff (fun v _ a => ctlPlain_iff)]
    constructor
    · rintro ⟨cs, rfl, h⟩
      cases h with
      | cons h1 h2 => cases h2; exact ⟨_, rfl, .one h1⟩
    · rintro ⟨cs, rfl, h⟩
      cases h with
      | one h => exact ⟨_, rfl, .cons h .nil⟩
  | some (.array vs), _ =>
    simp only [ctlAddrs]
    rw [each_array (ctlPlain g), each_iff (fun v _ a => ctlPlain_iff)]
    constructor
    · rintro ⟨cs, rfl, h⟩; exact ⟨cs, rfl, .many h⟩
    · rintro ⟨cs, rfl, h⟩
      cases h with
      | many h => exact ⟨cs, rfl, h⟩
  | some (.hash es), hc =>
    simp only [ctlAddrs]
    obtain ⟨_, _, hcl⟩ := clean_hash (hc _ rfl)
    rw [each_iff (fun e he a => ctlEntry_iff (cleanOf_mem hcl he).1)]
    constructor
    · rintro ⟨cs, rfl, h⟩; exact ⟨cs, rfl, .hash h⟩
    · rintro ⟨cs, rfl, h⟩
      cases h with
      | hash h => exact ⟨cs, rfl, h⟩

end Gdnsd.Conf
