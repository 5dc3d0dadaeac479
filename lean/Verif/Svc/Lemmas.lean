/-
The options of a service type, against the specification.
-/
import Verif.Svc.Spec
import Verif.Conf.OptLemmas
namespace Gdnsd.Svc
open Vscf VscfSpec ConfSpec SvcSpec Conf

theorem genOpts_iff {es : List (Entry Val)} (hn : (es.map (·.key)).Nodup) {g : Gen} {k : List Bytes} :
    genOpts es = some (g, k) ↔ Numbers es g ∧ k = ["up_thresh", "ok_thresh", "down_thresh", "interval", "timeout"].map str := by
  constructor
  · intro h0
    unfold genOpts at h0
    obtain ⟨a, _, _, g0, h1, rfl⟩ := bind_iff.mp h0; obtain ⟨p1, rfl⟩ := (optUint_iff hn (by decide)).mp g0
    obtain ⟨b, _, _, g1, h2, rfl⟩ := bind_iff.mp h1; obtain ⟨p2, rfl⟩ := (optUint_iff hn (by decide)).mp g1
    obtain ⟨c, _, _, g2, h3, rfl⟩ := bind_iff.mp h2; obtain ⟨p3, rfl⟩ := (optUint_iff hn (by decide)).mp g2
    obtain ⟨d, _, _, g3, h4, rfl⟩ := bind_iff.mp h3; obtain ⟨p4, rfl⟩ := (optUint_iff hn (by decide)).mp g3
    obtain ⟨e, _, _, g4, h5, rfl⟩ := bind_iff.mp h4; obtain ⟨p5, rfl⟩ := (optUint_iff hn (by decide)).mp g4
    obtain ⟨_, _, _, g5, h6, rfl⟩ := bind_iff.mp h5; obtain ⟨q, rfl⟩ := require_iff.mp g5
    obtain ⟨rfl, rfl⟩ := pure_iff.mp h6
    rw [Nat.shiftRight_eq_div_pow] at p5
    exact ⟨⟨p1, p2, p3, p4, p5, by dsimp only; omega⟩, rfl⟩
  · rintro ⟨⟨p1, p2, p3, p4, p5, p6⟩, rfl⟩
    obtain ⟨a, b, c, d, e⟩ := g
    dsimp only at p1 p2 p3 p4 p5 p6
    unfold genOpts
    refine bind_iff.mpr ⟨a, _, _, (optUint_iff hn (by decide)).mpr ⟨p1, rfl⟩, ?_, by rfl⟩
    refine bind_iff.mpr ⟨b, _, _, (optUint_iff hn (by decide)).mpr ⟨p2, rfl⟩, ?_, by rfl⟩
    refine bind_iff.mpr ⟨c, _, _, (optUint_iff hn (by decide)).mpr ⟨p3, rfl⟩, ?_, by rfl⟩
    refine bind_iff.mpr ⟨d, _, _, (optUint_iff hn (by decide)).mpr ⟨p4, rfl⟩, ?_, by rfl⟩
    refine bind_iff.mpr ⟨e, _, _, (optUint_iff hn (by decide)).mpr ⟨by rw [Nat.shiftRight_eq_div_pow]; exact p5, rfl⟩, ?_, by rfl⟩
    refine bind_iff.mpr ⟨(), _, _, require_iff.mpr ⟨by omega, rfl⟩, ?_, by rfl⟩
    exact pure_iff.mpr ⟨rfl, rfl⟩

theorem items_iff {v : Val} {l : List Val} : Several v l ↔ l = items v := by
  unfold Several items
  cases v with
  | simple r t => simp
  | array vs =>
    simp only [Val.array.injEq]
    constructor
    · rintro (h | ⟨_, h⟩)
      · exact h.symm
      · exact absurd rfl (h vs)
    · intro h
      exact .inl h.symm
  | hash es => simp

/-! ### http_status -/

theorem codes_ok {vs : List Val} {l : List Nat} : Codes vs l → codes vs = .ok (some l) := by
  intro h
  induction h with
  | nil => rfl
  | @cons r t n vs ns h1 h2 h3 _ ih =>
    unfold codes
    rw [count_iff.mp h1]
    dsimp only
    rw [if_neg (by omega), ih, Nat.mod_eq_of_lt (by omega)]
    rfl

theorem codes_some {vs : List Val} {l : List Nat} (h : codes vs = .ok (some l)) : Codes vs l := by
  induction vs generalizing l with
  | nil => cases h; exact .nil
  | cons v vs ih =>
    cases v with
    | simple r t =>
      unfold codes at h
      cases hu : getUlong t with
      | none => rw [hu] at h; cases h
      | some n =>
        rw [hu] at h
        dsimp only at h
        by_cases hr : n < 100 ∨ n > 999
        · rw [if_pos hr] at h; cases h
        · rw [if_neg hr] at h
          cases hc : codes vs with
          | ub => rw [hc] at h; cases h
          | ok o =>
            cases o with
            | none => rw [hc] at h; cases h
            | some l' =>
              rw [hc] at h
              simp only [Outcome.map, Option.map_some, Outcome.ok.injEq, Option.some.injEq] at h
              subst h
              rw [Nat.mod_eq_of_lt (by omega)]
              exact .cons (count_iff.mpr hu) (by omega) (by omega) (ih hc)
    | array _ => cases h
    | hash _ => cases h

theorem codes_plain {vs : List Val} (h : ∀ w ∈ vs, ∃ r t, w = Val.simple r t) : codes vs ≠ .ub := by
  induction vs with
  | nil => exact nofun
  | cons v vs ih =>
    obtain ⟨r, t, rfl⟩ := h v (List.mem_cons_self ..)
    have ih := ih fun w hw => h w (List.mem_cons_of_mem _ hw)
    unfold codes
    cases hu : getUlong t with
    | none => exact nofun
    | some n =>
      dsimp only
      split
      · exact nofun
      · cases hc : codes vs with
        | ub => exact absurd hc ih
        | ok o => exact nofun

theorem httpOpts_iff {es : List (Entry Val)} (hn : (es.map (·.key)).Nodup) {u v : Option Bytes} {p : Nat} {c : Option Val} {k : List Bytes} :
    httpOpts es = some ((u, v, p, c), k) ↔ TextOf es "url_path" (some (nm "/")) u ∧ TextOf es "vhost" none v ∧ UintOf es "port" 1 65534 80 p ∧
      c = find es (str "ok_codes") ∧ k = ["url_path", "vhost", "port", "ok_codes"].map str := by
  constructor
  · intro h0
    unfold httpOpts at h0
    obtain ⟨a, _, _, g0, h1, rfl⟩ := bind_iff.mp h0; obtain ⟨p1, rfl⟩ := (optStr_iff hn).mp g0
    obtain ⟨b, _, _, g1, h2, rfl⟩ := bind_iff.mp h1; obtain ⟨p2, rfl⟩ := (optStr_iff hn).mp g1
    obtain ⟨c, _, _, g2, h3, rfl⟩ := bind_iff.mp h2; obtain ⟨p3, rfl⟩ := (optUint_iff hn (by decide)).mp g2
    obtain ⟨d, _, _, g3, h4, rfl⟩ := bind_iff.mp h3; obtain ⟨p4, rfl⟩ := ask_iff.mp g3
    obtain ⟨e, rfl⟩ := pure_iff.mp h4
    simp only [Prod.mk.injEq] at e
    obtain ⟨rfl, rfl, rfl, rfl⟩ := e
    exact ⟨p1, p2, p3, p4, rfl⟩
  · rintro ⟨p1, p2, p3, p4, rfl⟩
    unfold httpOpts
    refine bind_iff.mpr ⟨u, _, _, (optStr_iff hn).mpr ⟨p1, rfl⟩, ?_, by rfl⟩
    refine bind_iff.mpr ⟨v, _, _, (optStr_iff hn).mpr ⟨p2, rfl⟩, ?_, by rfl⟩
    refine bind_iff.mpr ⟨p, _, _, (optUint_iff hn (by decide)).mpr ⟨p3, rfl⟩, ?_, by rfl⟩
    refine bind_iff.mpr ⟨c, _, _, ask_iff.mpr ⟨p4, rfl⟩, ?_, by rfl⟩
    exact pure_iff.mpr ⟨rfl, rfl⟩

/-- What the options of a service type of a plugin are, with the keys it asked for. -/
def Good (p : Plug) (es : List (Entry Val)) (ks : List String) (r : Outcome (Option (Kind × List Bytes))) : Prop :=
  ∀ kind k, r = .ok (some (kind, k)) ↔ Says es p kind ∧ k = ks.map str

theorem http_good {es : List (Entry Val)} (hn : (es.map (·.key)).Nodup) : Good .http es ["url_path", "vhost", "port", "ok_codes"] (httpSvc es) := by
  intro kind k
  unfold httpSvc
  constructor
  · intro h
    cases ho : httpOpts es with
    | none => rw [ho] at h; cases h
    | some q =>
      obtain ⟨⟨u, v, p, c⟩, k'⟩ := q
      rw [ho] at h
      dsimp only at h
      obtain ⟨p1, p2, p3, rfl, rfl⟩ := (httpOpts_iff hn).mp ho
      cases hc : okCodes (find es (str "ok_codes")) with
      | ub => rw [hc] at h; cases h
      | ok o =>
        cases o with
        | none => rw [hc] at h; cases h
        | some l =>
          rw [hc] at h
          cases h
          obtain ⟨y, rfl⟩ := textOf_some p1
          refine ⟨.http p1 p2 p3 ?_, rfl⟩
          rw [absent_iff]
          cases hf : find es (str "ok_codes") with
          | none =>
            rw [hf] at hc
            cases hc
            exact .inl ⟨rfl, rfl⟩
          | some w =>
            rw [hf] at hc
            unfold okCodes at hc
            dsimp only at hc
            by_cases h0 : (items w).length = 0
            · rw [if_pos h0] at hc; cases hc
            · rw [if_neg h0] at hc
              refine .inr ⟨w, items w, (is_iff hn).mpr hf, items_iff.mpr rfl, ?_, codes_some hc⟩
              intro hn
              rw [hn] at h0
              exact h0 rfl
  · rintro ⟨h, rfl⟩
    cases h with
    | @http url vhost port l p1 p2 p3 p4 =>
      rw [(httpOpts_iff hn).mpr ⟨p1, p2, p3, rfl, rfl⟩]
      dsimp only
      have : okCodes (find es (str "ok_codes")) = .ok (some l) := by
        rcases p4 with ⟨h, rfl⟩ | ⟨v, vs, h1, h2, h3, h4⟩
        · rw [absent_iff.mp h]; rfl
        · rw [(is_iff hn).mp h1]
          unfold okCodes
          dsimp only
          obtain rfl := items_iff.mp h2
          rw [if_neg (by intro h; exact h3 (List.length_eq_zero_iff.mp h)), codes_ok h4]
      rw [this]
      rfl

theorem http_plain {es : List (Entry Val)} (hn : (es.map (·.key)).Nodup)
    (h : ∀ v, Is es "ok_codes" v → ∀ vs, Several v vs → ∀ w ∈ vs, ∃ r t, w = .simple r t) : httpSvc es ≠ .ub := by
  unfold httpSvc
  cases ho : httpOpts es with
  | none => exact nofun
  | some q =>
    obtain ⟨⟨u, v, p, c⟩, k'⟩ := q
    obtain ⟨_, _, _, rfl, _⟩ := (httpOpts_iff hn).mp ho
    dsimp only
    have : okCodes (find es (str "ok_codes")) ≠ .ub := by
      cases hf : find es (str "ok_codes") with
      | none => exact nofun
      | some w =>
        unfold okCodes
        dsimp only
        split
        · exact nofun
        · exact codes_plain (h w ((is_iff hn).mpr hf) _ (items_iff.mpr rfl))
    cases hc : okCodes (find es (str "ok_codes")) with
    | ub => exact absurd hc this
    | ok o => exact nofun

/-! ### tcp_connect -/

theorem tcp_good {es : List (Entry Val)} (hn : (es.map (·.key)).Nodup) : Good .tcp es ["port"] (.ok (tcpSvc es)) := by
  intro kind k
  rw [Outcome.ok.injEq]
  constructor
  · intro h0
    unfold tcpSvc at h0
    obtain ⟨a, _, _, g0, h1, rfl⟩ := bind_iff.mp h0; obtain ⟨p1, rfl⟩ := (optUint_iff hn (by decide)).mp g0
    obtain ⟨_, _, _, g1, h2, rfl⟩ := bind_iff.mp h1; obtain ⟨q, rfl⟩ := require_iff.mp g1
    obtain ⟨rfl, rfl⟩ := pure_iff.mp h2
    exact ⟨.tcp p1 q, rfl⟩
  · rintro ⟨h, rfl⟩
    cases h with
    | @tcp port p1 q =>
      unfold tcpSvc
      refine bind_iff.mpr ⟨port, _, _, (optUint_iff hn (by decide)).mpr ⟨p1, rfl⟩, ?_, by rfl⟩
      refine bind_iff.mpr ⟨(), _, _, require_iff.mpr ⟨q, rfl⟩, ?_, by rfl⟩
      exact pure_iff.mpr ⟨rfl, rfl⟩

/-! ### extmon -/

theorem cmdArgs_iff {vs : List Val} {l : List Bytes} : cmdArgs vs = some l ↔ Texts vs l := by
  constructor
  · intro h
    induction vs generalizing l with
    | nil => cases h; exact .nil
    | cons v vs ih =>
      cases v with
      | simple r t =>
        simp only [cmdArgs, Option.map_eq_some_iff] at h
        obtain ⟨l', h1, rfl⟩ := h
        exact .cons (upToZero_iff.mpr rfl) (ih h1)
      | array _ => cases h
      | hash _ => cases h
  · intro h
    induction h with
    | nil => rfl
    | cons h1 _ ih => rw [cmdArgs, ih, upToZero_iff.mp h1]; rfl

theorem extmonOpts_iff {es : List (Entry Val)} (hn : (es.map (·.key)).Nodup) {m : Nat} {args : List Bytes} {d : Option Val} {k : List Bytes} :
    extmonOpts es = some ((m, args, d), k) ↔ UintOf es "max_proc" 0 65534 0 m ∧
      (∃ v vs, Is es "cmd" v ∧ Several v vs ∧ 1 ≤ vs.length ∧ vs.length ≤ 254 ∧ Texts vs args) ∧
      d = find es (str "direct") ∧ k = ["max_proc", "cmd", "direct"].map str := by
  constructor
  · intro h0
    unfold extmonOpts at h0
    obtain ⟨a, _, _, g0, h1, rfl⟩ := bind_iff.mp h0; obtain ⟨p1, rfl⟩ := (optUint_iff hn (by decide)).mp g0
    obtain ⟨b, _, _, g1, h2, rfl⟩ := bind_iff.mp h1; obtain ⟨rfl, rfl⟩ := ask_iff.mp g1
    cases hf : find es (str "cmd") with
    | none => rw [hf] at h2; cases h2
    | some v =>
      rw [hf] at h2
      dsimp only at h2
      obtain ⟨_, _, _, g2, h3, rfl⟩ := bind_iff.mp h2; obtain ⟨q1, rfl⟩ := require_iff.mp g2
      obtain ⟨_, _, _, g3, h4, rfl⟩ := bind_iff.mp h3; obtain ⟨q2, rfl⟩ := require_iff.mp g3
      cases hc : cmdArgs (items v) with
      | none => rw [hc] at h4; cases h4
      | some l =>
        rw [hc] at h4
        dsimp only at h4
        obtain ⟨c, _, _, g4, h5, rfl⟩ := bind_iff.mp h4; obtain ⟨rfl, rfl⟩ := ask_iff.mp g4
        obtain ⟨e, rfl⟩ := pure_iff.mp h5
        simp only [Prod.mk.injEq] at e
        obtain ⟨rfl, rfl, rfl⟩ := e
        exact ⟨p1, ⟨v, items v, (is_iff hn).mpr hf, items_iff.mpr rfl, by omega, by omega, cmdArgs_iff.mp hc⟩, rfl, rfl⟩
  · rintro ⟨p1, ⟨v, vs, h1, h2, h3, h4, h5⟩, rfl, rfl⟩
    obtain rfl := items_iff.mp h2
    unfold extmonOpts
    refine bind_iff.mpr ⟨m, _, _, (optUint_iff hn (by decide)).mpr ⟨p1, rfl⟩, ?_, by rfl⟩
    refine bind_iff.mpr ⟨_, _, _, ask_iff.mpr ⟨rfl, rfl⟩, ?_, by rfl⟩
    rw [(is_iff hn).mp h1]
    dsimp only
    refine bind_iff.mpr ⟨(), _, _, require_iff.mpr ⟨by omega, rfl⟩, ?_, by rfl⟩
    refine bind_iff.mpr ⟨(), _, _, require_iff.mpr ⟨by omega, rfl⟩, ?_, by rfl⟩
    rw [cmdArgs_iff.mpr h5]
    dsimp only
    refine bind_iff.mpr ⟨_, _, _, ask_iff.mpr ⟨rfl, rfl⟩, ?_, by rfl⟩
    exact pure_iff.mpr ⟨rfl, rfl⟩

theorem direct_iff {es : List (Entry Val)} (hn : (es.map (·.key)).Nodup) {b : Bool} :
    direct (find es (str "direct")) = .ok (some b) ↔ BoolOf es "direct" false b := by
  unfold BoolOf
  simp only [absent_iff, is_iff hn, truth_iff]
  generalize find es (str "direct") = o
  match o with
  | none => simp [direct, eq_comm]
  | some (.simple r t) =>
    simp only [direct, Outcome.ok.injEq, Option.some.injEq, Val.simple.injEq, reduceCtorEq, false_and, false_or]
    constructor
    · intro h
      exact ⟨r, t, ⟨rfl, rfl⟩, h⟩
    · rintro ⟨_, _, ⟨rfl, rfl⟩, h⟩
      exact h
  | some (.array _) => simp [direct]
  | some (.hash _) => simp [direct]

theorem extmon_good {es : List (Entry Val)} (hn : (es.map (·.key)).Nodup) : Good .extmon es ["max_proc", "cmd", "direct"] (extmonSvc es) := by
  intro kind k
  unfold extmonSvc
  constructor
  · intro h
    cases ho : extmonOpts es with
    | none => rw [ho] at h; cases h
    | some q =>
      obtain ⟨⟨m, args, d⟩, k'⟩ := q
      rw [ho] at h
      dsimp only at h
      obtain ⟨p1, ⟨v, vs, h1, h2, h3, h4, h5⟩, rfl, rfl⟩ := (extmonOpts_iff hn).mp ho
      cases hd : direct (find es (str "direct")) with
      | ub => rw [hd] at h; cases h
      | ok o =>
        cases o with
        | none => rw [hd] at h; cases h
        | some b =>
          rw [hd] at h
          cases h
          exact ⟨.extmon p1 h1 h2 h3 h4 h5 ((direct_iff hn).mp hd), rfl⟩
  · rintro ⟨h, rfl⟩
    cases h with
    | extmon p1 h1 h2 h3 h4 h5 h6 =>
      rw [(extmonOpts_iff hn).mpr ⟨p1, ⟨_, _, h1, h2, h3, h4, h5⟩, rfl, rfl⟩]
      dsimp only
      rw [(direct_iff hn).mpr h6]
      rfl

theorem extmon_plain {es : List (Entry Val)} (hn : (es.map (·.key)).Nodup) (h : ∀ v, Is es "direct" v → ∃ r t, v = .simple r t) : extmonSvc es ≠ .ub := by
  unfold extmonSvc
  cases ho : extmonOpts es with
  | none => exact nofun
  | some q =>
    obtain ⟨⟨m, args, d⟩, k'⟩ := q
    obtain ⟨_, _, rfl, _⟩ := (extmonOpts_iff hn).mp ho
    dsimp only
    cases hf : find es (str "direct") with
    | none => exact nofun
    | some v =>
      obtain ⟨r, t, rfl⟩ := h v ((is_iff hn).mpr hf)
      exact nofun

/-! ### extfile -/

theorem sttlOf_eq (down : Bool) (ttl : Nat) (h : ttl ≤ 268435455) :
    sttlOf down ttl = if down = true then ttl.toUInt32 ||| Mon.DOWN else ttl.toUInt32 := by
  unfold sttlOf
  cases down with
  | false => simp
  | true =>
    simp only [if_true]
    apply UInt32.toNat.inj
    have e1 : (2 ^ 31 + ttl).toUInt32.toNat = 2 ^ 31 + ttl := by simp; omega
    have e2 : ttl.toUInt32.toNat = ttl := by simp; omega
    rw [e1, UInt32.toNat_or, e2, show Mon.DOWN.toNat = 2 ^ 31 from rfl, Nat.or_comm]
    have := Nat.two_pow_add_eq_or_of_lt (i := 31) (b := ttl) (by omega) 1
    rw [Nat.mul_one] at this
    exact this

theorem uintOf_le {es : List (Entry Val)} {k : String} {min max old n : Nat} (h : UintOf es k min max old n) (ho : old ≤ max) : n ≤ max := by
  rcases h with ⟨_, rfl⟩ | ⟨_, _, _, _, _, h⟩ <;> assumption

theorem extfile_good {es : List (Entry Val)} (hn : (es.map (·.key)).Nodup) : Good .extfile es ["file", "direct", "def_ttl", "def_down"] (.ok (extfileSvc es)) := by
  intro kind k
  rw [Outcome.ok.injEq]
  constructor
  · intro h0
    unfold extfileSvc at h0
    obtain ⟨a, _, _, g0, h1, rfl⟩ := bind_iff.mp h0; obtain ⟨rfl, rfl⟩ := ask_iff.mp g0
    generalize hf : find es (str "file") = o at h1
    match o, h1 with
    | none, h1 => cases h1
    | some (.array _), h1 => cases h1
    | some (.hash _), h1 => cases h1
    | some (.simple r v), h1 =>
      dsimp only at h1
      obtain ⟨b, _, _, g1, h2, rfl⟩ := bind_iff.mp h1; obtain ⟨p1, rfl⟩ := (optBool_iff hn).mp g1
      obtain ⟨c, _, _, g2, h3, rfl⟩ := bind_iff.mp h2; obtain ⟨p2, rfl⟩ := (optUint_iff hn (by decide)).mp g2
      obtain ⟨d, _, _, g3, h4, rfl⟩ := bind_iff.mp h3; obtain ⟨p3, rfl⟩ := (optBool_iff hn).mp g3
      obtain ⟨rfl, rfl⟩ := pure_iff.mp h4
      rw [← sttlOf_eq d c (uintOf_le p2 (by decide))]
      exact ⟨.extfile (.inr ⟨r, v, _, (is_iff hn).mpr hf, upToZero_iff.mpr rfl, rfl⟩) p1 p2 p3, rfl⟩
  · rintro ⟨h, rfl⟩
    cases h with
    | @extfile f d ttl down p0 p1 p2 p3 =>
      rcases p0 with ⟨_, h⟩ | ⟨r, t, u, h1, h2, h3⟩
      · cases h
      cases h3
      obtain rfl := upToZero_iff.mp h2
      unfold extfileSvc
      refine bind_iff.mpr ⟨_, _, _, ask_iff.mpr ⟨rfl, rfl⟩, ?_, by rfl⟩
      rw [(is_iff hn).mp h1]
      dsimp only
      refine bind_iff.mpr ⟨d, _, _, (optBool_iff hn).mpr ⟨p1, rfl⟩, ?_, by rfl⟩
      refine bind_iff.mpr ⟨ttl, _, _, (optUint_iff hn (by decide)).mpr ⟨p2, rfl⟩, ?_, by rfl⟩
      refine bind_iff.mpr ⟨down, _, _, (optBool_iff hn).mpr ⟨p3, rfl⟩, ?_, by rfl⟩
      rw [sttlOf_eq down ttl (uintOf_le p2 (by decide))]
      exact pure_iff.mpr ⟨rfl, rfl⟩

/-! ### static -/

theorem lower_letter {l c : UInt8} (h1 : 97 ≤ l.toNat) (h2 : l.toNat ≤ 122) : Mon.lower c = l ↔ IsLetter l c := by
  rw [letter_iff h1]
  unfold Mon.lower
  split
  next h =>
    obtain ⟨ha, hb⟩ := h
    rw [UInt8.le_iff_toNat_le] at ha hb
    constructor
    · intro e
      right
      rw [← e]
      simp
    · rintro (rfl | rfl)
      · exact absurd h1 (by simp at hb; omega)
      · simp
  next h =>
    constructor
    · exact Or.inl
    · rintro (h3 | rfl)
      · exact h3
      · exfalso
        apply h
        have e : (l - 32).toNat = l.toNat - 32 := by
          rw [UInt8.toNat_sub_of_le l 32 (by rw [UInt8.le_iff_toNat_le]; simp; omega)]
          rfl
        constructor <;> rw [UInt8.le_iff_toNat_le, e] <;> simp <;> omega

theorem caseEq_iff {w s : Bytes} (hw : ∀ l ∈ w, 97 ≤ l.toNat ∧ l.toNat ≤ 122) : caseEq s w = true ↔ SameWord w s := by
  unfold caseEq
  rw [beq_iff_eq]
  induction w generalizing s with
  | nil => cases s <;> simp [SameWord]
  | cons l w ih =>
    cases s with
    | nil => simp [SameWord]
    | cons c s =>
      obtain ⟨h1, h2⟩ := hw l (List.mem_cons_self ..)
      have hl : Mon.lower l = l := (lower_letter h1 h2).mpr (.inl rfl)
      rw [List.map_cons, List.map_cons, List.cons.injEq, hl, ih fun x hx => hw x (List.mem_cons_of_mem _ hx), lower_letter h1 h2]
      rfl

theorem down_iff {s : Bytes} : caseEq s (str "down") = true ↔ Fold s (nm "down") := caseEq_iff (by decide)

theorem up_iff {s : Bytes} : caseEq s (str "up") = true ↔ Fold s (nm "up") := caseEq_iff (by decide)

theorem not_both {s : Bytes} (h1 : Fold s (nm "down")) (h2 : Fold s (nm "up")) : False := by
  rw [← down_iff] at h1
  rw [← up_iff] at h2
  unfold caseEq at h1 h2
  rw [beq_iff_eq] at h1 h2
  rw [h1] at h2
  exact absurd h2 (by decide)

theorem static_good {es : List (Entry Val)} (hn : (es.map (·.key)).Nodup) : Good .static es ["ttl", "state"] (.ok (staticSvc es)) := by
  intro kind k
  rw [Outcome.ok.injEq]
  constructor
  · intro h0
    unfold staticSvc at h0
    obtain ⟨a, _, _, g0, h1, rfl⟩ := bind_iff.mp h0; obtain ⟨p1, rfl⟩ := (optUint_iff hn (by decide)).mp g0
    obtain ⟨b, _, _, g1, h2, rfl⟩ := bind_iff.mp h1; obtain ⟨rfl, rfl⟩ := ask_iff.mp g1
    have hle := uintOf_le p1 (by decide)
    have e0 : a.toUInt32 = sttlOf false a := by rw [sttlOf_eq _ _ hle]; rfl
    have e1 : a.toUInt32 ||| Mon.DOWN = sttlOf true a := by rw [sttlOf_eq _ _ hle]; rfl
    rw [e1, e0] at h2
    generalize hf : find es (str "state") = o at h2
    match o, h2 with
    | none, h2 =>
      obtain ⟨rfl, rfl⟩ := pure_iff.mp h2
      exact ⟨.static p1 (.inl ⟨absent_iff.mpr hf, rfl⟩), rfl⟩
    | some (.array _), h2 => cases h2
    | some (.hash _), h2 => cases h2
    | some (.simple r v), h2 =>
      dsimp only at h2
      have ht : TextOf es "state" none (some (cstr v)) := .inr ⟨r, v, _, (is_iff hn).mpr hf, upToZero_iff.mpr rfl, rfl⟩
      split at h2
      next hd =>
        obtain ⟨rfl, rfl⟩ := pure_iff.mp h2
        exact ⟨.static p1 (.inr ⟨_, ht, .inl ⟨down_iff.mp hd, rfl⟩⟩), rfl⟩
      next hd =>
        split at h2
        next hu =>
          obtain ⟨rfl, rfl⟩ := pure_iff.mp h2
          exact ⟨.static p1 (.inr ⟨_, ht, .inr ⟨up_iff.mp hu, rfl⟩⟩), rfl⟩
        next hu => cases h2
  · rintro ⟨h, rfl⟩
    cases h with
    | @static ttl down p1 p2 =>
      unfold staticSvc
      have hle := uintOf_le p1 (by decide)
      refine bind_iff.mpr ⟨ttl, _, _, (optUint_iff hn (by decide)).mpr ⟨p1, rfl⟩, ?_, by rfl⟩
      refine bind_iff.mpr ⟨_, _, _, ask_iff.mpr ⟨rfl, rfl⟩, ?_, by rfl⟩
      rw [sttlOf_eq _ _ hle]
      rcases p2 with ⟨h1, rfl⟩ | ⟨u, h1, h2⟩
      · rw [absent_iff.mp h1]
        exact pure_iff.mpr ⟨rfl, rfl⟩
      · rcases h1 with ⟨_, h⟩ | ⟨r, t, u', h3, h4, h5⟩
        · cases h
        cases h5
        obtain rfl := upToZero_iff.mp h4
        rw [(is_iff hn).mp h3]
        dsimp only
        rcases h2 with ⟨h6, rfl⟩ | ⟨h6, rfl⟩
        · rw [if_pos (down_iff.mpr h6)]
          exact pure_iff.mpr ⟨rfl, rfl⟩
        · rw [if_neg (fun h => not_both (down_iff.mp h) h6), if_pos (up_iff.mpr h6)]
          exact pure_iff.mpr ⟨rfl, rfl⟩

/-! ### One service type -/

/-- The keys of a plugin. -/
def plugKeys : Plug → List String
  | .http => ["url_path", "vhost", "port", "ok_codes"]
  | .tcp => ["port"]
  | .extmon => ["max_proc", "cmd", "direct"]
  | .extfile => ["file", "direct", "def_ttl", "def_down"]
  | .static => ["ttl", "state"]
  | _ => []

theorem addSvc_good {es : List (Entry Val)} (hn : (es.map (·.key)).Nodup) (p : Plug) : Good p es (plugKeys p) (addSvc p es) := by
  cases p with
  | http => exact http_good hn
  | tcp => exact tcp_good hn
  | extmon => exact extmon_good hn
  | extfile => exact extfile_good hn
  | static => exact static_good hn
  | null =>
    intro kind k
    constructor
    · intro h
      cases h
      exact ⟨.null, rfl⟩
    · rintro ⟨h, rfl⟩
      cases h
      rfl
  | resolver =>
    intro kind k
    constructor
    · exact nofun
    · rintro ⟨h, _⟩
      cases h

theorem stypeOf_iff {d : Decl} (hn : (d.es.map (·.key)).Nodup) (hf : Fresh d.es) {s : Stype} :
    stypeOf d = .ok (some s) ↔ s.name = d.name ∧ Numbers d.es s.gen ∧ Says d.es d.plug s.kind ∧ Only d.es (known d.plug) := by
  obtain ⟨name, p, es⟩ := d
  dsimp only at hn hf
  have hm : allMarked (str "plugin" :: (["up_thresh", "ok_thresh", "down_thresh", "interval", "timeout"].map str ++ (plugKeys p).map str)) es = true ↔ Only es (known p) := by
    apply allMarked_iff hf
    intro b
    cases p <;> simp [plugKeys, known]
  unfold stypeOf
  dsimp only
  constructor
  · intro h
    cases hg : genOpts es with
    | none => rw [hg] at h; cases h
    | some q =>
      obtain ⟨g, k1⟩ := q
      rw [hg] at h
      dsimp only at h
      obtain ⟨h1, rfl⟩ := (genOpts_iff hn).mp hg
      cases ha : addSvc p es with
      | ub => rw [ha] at h; cases h
      | ok o =>
        cases o with
        | none => rw [ha] at h; cases h
        | some q =>
          obtain ⟨kind, k2⟩ := q
          rw [ha] at h
          obtain ⟨h2, rfl⟩ := (addSvc_good hn p kind k2).mp ha
          simp only [Outcome.bind] at h
          split at h
          next hk =>
            cases h
            exact ⟨rfl, h1, h2, hm.mp hk⟩
          next hk => cases h
  · rintro ⟨h0, h1, h2, h3⟩
    obtain ⟨n', g, kind⟩ := s
    dsimp only at h0 h1 h2
    subst h0
    rw [(genOpts_iff hn).mpr ⟨h1, rfl⟩]
    dsimp only
    rw [(addSvc_good hn p kind _).mpr ⟨h2, rfl⟩]
    simp only [Outcome.bind]
    rw [if_pos (hm.mpr h3)]

theorem findPlugin_iff {n : Bytes} {p : Plug} : (findPlugin n = some p ∧ p ≠ .resolver) ↔ Named n p := by
  constructor
  · rintro ⟨h, hp⟩
    unfold findPlugin at h
    rw [Option.map_eq_some_iff] at h
    obtain ⟨⟨s, q⟩, h1, rfl⟩ := h
    have hm := List.mem_of_find?_eq_some h1
    have he := List.find?_some h1
    dsimp only at he
    rw [beq_iff_eq] at he
    subst he
    simp only [plugins, List.mem_cons, List.not_mem_nil, or_false, Prod.mk.injEq] at hm
    rcases hm with h | h | h | h | h | h | h | h | h | h | h | h <;> obtain ⟨rfl, rfl⟩ := h
    all_goals first | (exact absurd rfl hp) | skip
    · exact .http
    · exact .null
    · exact .static
    · exact .tcp
    · exact .extfile
    · exact .extmon
  · intro h
    cases h <;> exact ⟨by decide +kernel, nofun⟩

theorem declOf_iff {e : Entry Val} (hc : ∀ es, e.val = .hash es → (es.map (·.key)).Nodup) {d : Decl} :
    declOf e = some d ↔ Declares e d.name d.plug d.es := by
  obtain ⟨k, m, v⟩ := e
  obtain ⟨name, p, es⟩ := d
  unfold declOf
  dsimp only
  constructor
  · intro h
    split at h
    next => cases h
    next hne =>
      match v, hc, h with
      | .simple _ _, _, h => cases h
      | .array _, _, h => cases h
      | .hash es', hc, h =>
        dsimp only at h
        have hn := hc es' rfl
        generalize hf : find es' (str "plugin") = o at h
        match o, h with
        | none, h => cases h
        | some (.array _), h => cases h
        | some (.hash _), h => cases h
        | some (.simple r t), h =>
          dsimp only at h
          split at h
          next => cases h
          next hl =>
            have fin : ∀ q, findPlugin (cstr t) = some q → q ≠ .resolver → Declares ⟨k, m, .hash es'⟩ (cstr k) q es' := by
              intro q hq hr
              refine .intro (upToZero_iff.mpr rfl) (fun h => hne (.inl h)) (fun h => hne (.inr h)) ((is_iff hn).mpr hf) (upToZero_iff.mpr rfl) (findPlugin_iff.mp ⟨hq, hr⟩)
            cases hp : findPlugin (cstr t) with
            | none => rw [hp] at h; cases h
            | some q =>
              rw [hp] at h
              cases q <;> first | (cases h; done) | (cases h; exact fin _ hp nofun)
  · intro h
    cases h with
    | @intro _ _ _ r t _ u _ h1 h2 h3 h4 h5 h6 =>
      have hn := hc es rfl
      obtain rfl := upToZero_iff.mp h1
      obtain rfl := upToZero_iff.mp h5
      have hl : t.length ≠ 0 := by
        intro h0
        rw [List.length_eq_zero_iff] at h0
        subst h0
        exact absurd (findPlugin_iff.mpr h6).1 (by have : findPlugin (cstr []) = none := by decide +kernel
                                                   rw [this]; exact nofun)
      rw [if_neg (by rintro (h | h); exact h2 h; exact h3 h)]
      dsimp only
      rw [(is_iff hn).mp h4]
      dsimp only
      rw [if_neg hl, (findPlugin_iff.mpr h6).1]
      have hr : p ≠ .resolver := (findPlugin_iff.mpr h6).2
      cases p <;> first | rfl | exact absurd rfl hr

end Gdnsd.Svc
