import Verif.Load.Spec
import Verif.Load.TreeLemmas
import Verif.Lookup.FinalLemmas
/-
Adding records to the sets of one name.
-/
namespace Gdnsd.Load
open Enc Tree TreeSpec DnameSpec EncSpec LookupSpec LoadSpec

/-! ### Sets by type -/

theorem getType_append (rrs l : List RRset) (t : Nat) : getType (rrs ++ l) t = (getType rrs t).or (getType l t) :=
  List.find?_append

theorem getType_one (x : RRset) (t : Nat) : getType [x] t = if t = x.type then some x else none := by
  unfold getType
  rw [List.find?_cons]
  by_cases h : t = x.type
  · rw [if_pos h, h, show (x.type == x.type) = true by simp]
  · rw [if_neg h, show (x.type == t) = false by simp; exact fun e => h e.symm]; rfl

theorem getType_some {rrs : List RRset} {t : Nat} {r : RRset} (h : getType rrs t = some r) : r ∈ rrs ∧ r.type = t := by
  refine ⟨List.mem_of_find?_eq_some h, ?_⟩
  have := List.find?_some h
  simpa using this

theorem getType_none {rrs : List RRset} {t : Nat} (h : getType rrs t = none) : ∀ r ∈ rrs, r.type ≠ t := by
  intro r hr e
  have := List.find?_eq_none.mp h r hr
  exact this (by simpa using e)

theorem getType_of_mem {rrs : List RRset} {r : RRset} (hn : (rrs.map RRset.type).Nodup) (h : r ∈ rrs) :
    getType rrs r.type = some r := by
  induction rrs with
  | nil => cases h
  | cons x l ih =>
    rw [List.map_cons, List.nodup_cons] at hn
    unfold getType
    rw [List.find?_cons]
    rcases List.mem_cons.mp h with rfl | h
    · simp
    · have : (x.type == r.type) = false := by
        simp only [beq_eq_false_iff_ne]
        intro e; exact hn.1 (e ▸ List.mem_map.mpr ⟨r, h, rfl⟩)
      rw [this]; exact ih hn.2 h

theorem setType_types (rrs : List RRset) (t : Nat) (x : RRset) (hx : x.type = t) :
    (setType rrs t x).map RRset.type = rrs.map RRset.type := by
  induction rrs with
  | nil => rfl
  | cons r l ih =>
    simp only [setType]
    by_cases h : r.type = t
    · rw [show (r.type == t) = true by simpa using h]
      simp [hx, h]
    · rw [show (r.type == t) = false by simpa using h]
      simp [ih]

theorem setType_mem {rrs : List RRset} {t : Nat} {x y : RRset} (h : y ∈ setType rrs t x) : y ∈ rrs ∨ y = x := by
  induction rrs with
  | nil => cases h
  | cons r l ih =>
    simp only [setType] at h
    cases hr : (r.type == t) with
    | true =>
      rw [hr] at h
      rcases List.mem_cons.mp h with h | h
      · exact .inr h
      · exact .inl (List.mem_cons_of_mem _ h)
    | false =>
      rw [hr] at h
      rcases List.mem_cons.mp h with h | h
      · exact .inl (h ▸ List.mem_cons_self)
      · rcases ih h with h | h
        · exact .inl (List.mem_cons_of_mem _ h)
        · exact .inr h

theorem getType_setType {rrs : List RRset} {key : Nat} {old x : RRset} (h : getType rrs key = some old)
    (hx : x.type = key) (t : Nat) : getType (setType rrs key x) t = if t = key then some x else getType rrs t := by
  induction rrs with
  | nil => cases h
  | cons r l ih =>
    unfold getType at h ⊢
    simp only [setType]
    rw [List.find?_cons] at h
    cases hr : (r.type == key) with
    | true =>
      rw [cond_true, List.find?_cons, List.find?_cons]
      have hr' : r.type = key := by simpa using hr
      by_cases ht : t = key
      · rw [if_pos ht, ht, hx]; simp
      · rw [if_neg ht, hx, hr', show (key == t) = false by simpa using fun e => ht e.symm]
    | false =>
      rw [hr] at h
      rw [cond_false, List.find?_cons, List.find?_cons]
      have hr' : r.type ≠ key := by simpa using hr
      cases hrt : (r.type == t) with
      | true =>
        have : r.type = t := by simpa using hrt
        rw [if_neg (by rw [← this]; exact hr')]
      | false => exact ih h

/-! ### The set a list of records makes -/

/-- The body of one record. -/
def bodyOf (cfg : Cfg) (origin : Bytes) (t : Nat) (r : Add) : Body :=
  match r.data with
  | .a addr _ => .a [addr]
  | .aaaa addr _ => .aaaa [addr]
  | .dyna rhs m =>
    if t = 1 then .dynA ((cfg.resource rhs none).getD 0) (Ttl.dynTtls cfg.ttls r.ttl m).2
    else .dynAAAA ((cfg.resource rhs none).getD 0) (Ttl.dynTtls cfg.ttls r.ttl m).2
  | .cname rhs => .cname rhs
  | .dync rhs m => .dync ((cfg.resource rhs (some origin)).getD 0) (Ttl.dynTtls cfg.ttls r.ttl m).2
  | .ptr rhs => .ptr [rhs]
  | .ns rhs => .ns [⟨rhs, none, none⟩]
  | .mx pref rhs => .mx [(be16 pref, rhs)]
  | .srv pr w po rhs => .srv [(be16 pr ++ be16 w ++ be16 po, rhs)]
  | .naptr o pr text rhs => .naptr [(be16 o ++ be16 pr, text, rhs)]
  | .txt text => .txt [text]
  | .soa mn rn s rf rt ex nc =>
    .soa mn rn (be32 s ++ be32 rf ++ be32 rt ++ be32 ex ++ be32 (Ttl.soaTtls cfg.ttls r.ttl nc).2)
  | .raw u rd => .raw u.toNat [rd]

/-- The stored TTL of a set that starts with a record. -/
def ttl0 (cfg : Cfg) (r : Add) : UInt32 :=
  match r.data with
  | .dyna _ m => (Ttl.dynTtls cfg.ttls r.ttl m).1
  | .dync _ m => (Ttl.dynTtls cfg.ttls r.ttl m).1
  | .txt _ => Ttl.bswap (Ttl.txtTtl cfg.ttls (decide ((owner r).head? = some acme)) r.ttl)
  | .soa _ _ _ _ _ _ nc => Ttl.bswap (Ttl.soaTtls cfg.ttls r.ttl nc).1
  | _ => Ttl.bswap (Ttl.clampTtl cfg.ttls r.ttl)

/-- The set made of records of one type. -/
def setOf (cfg : Cfg) (origin : Bytes) (t : Nat) : List Add → Option RRset
  | [] => none
  | r :: l => (l.foldlM (fun b x => append b (bodyOf cfg origin t x)) (bodyOf cfg origin t r)).map fun b => ⟨ttl0 cfg r, b⟩

theorem setOf_snoc {cfg : Cfg} {origin : Bytes} {t : Nat} {l : List Add} {x : Add} {old : RRset} {b' : Body}
    (h : setOf cfg origin t l = some old) (ha : append old.body (bodyOf cfg origin t x) = some b') :
    setOf cfg origin t (l ++ [x]) = some ⟨old.ttl, b'⟩ := by
  cases l with
  | nil => cases h
  | cons r l =>
    simp only [setOf, List.cons_append, List.foldlM_append] at h ⊢
    cases hf : l.foldlM (fun b x => append b (bodyOf cfg origin t x)) (bodyOf cfg origin t r) with
    | none => rw [hf] at h; cases h
    | some b =>
      rw [hf] at h
      cases h
      simp only [Option.bind_eq_bind, Option.bind_some, List.foldlM_cons, List.foldlM_nil]
      rw [ha]; rfl

/-- The cases in which a set grows. -/
inductive Appends : Body → Body → Body → Prop
  | a (l m) : Appends (.a l) (.a m) (.a (l ++ m))
  | aaaa (l m) : Appends (.aaaa l) (.aaaa m) (.aaaa (l ++ m))
  | ns (l m) : Appends (.ns l) (.ns m) (.ns (l ++ m))
  | ptr (l m) : Appends (.ptr l) (.ptr m) (.ptr (l ++ m))
  | mx (l m) : Appends (.mx l) (.mx m) (.mx (l ++ m))
  | srv (l m) : Appends (.srv l) (.srv m) (.srv (l ++ m))
  | naptr (l m) : Appends (.naptr l) (.naptr m) (.naptr (l ++ m))
  | txt (l m) : Appends (.txt l) (.txt m) (.txt (l ++ m))
  | raw (t l m) : Appends (.raw t l) (.raw t m) (.raw t (l ++ m))

theorem append_iff {a b c : Body} : append a b = some c ↔ Appends a b c := by
  constructor
  · intro h
    cases a <;> cases b <;> simp only [append] at h <;> first
      | (cases h; done)
      | (injection h with h; subst h; constructor)
      | (split at h
         · next e => subst e; injection h with h; subst h; constructor
         · cases h)
  · intro h
    cases h <;> simp [append]

theorem append_type {a b c : Body} (h : append a b = some c) : c.type = a.type := by
  cases append_iff.mp h <;> rfl

theorem append_nodyn {a b c : Body} (h : append a b = some c) : isDyn c = false := by
  cases append_iff.mp h <;> rfl

theorem bodyOf_type {cfg : Cfg} {origin : Bytes} {t : Nat} {r : Add} (h : hasType t r.data = true) :
    (bodyOf cfg origin t r).type = t := by
  unfold bodyOf
  cases hd : r.data <;> rw [hd] at h <;> simp only [hasType, beq_iff_eq, Bool.or_eq_true] at h <;>
    first
    | (subst h; rfl)
    | (rcases h with h | h <;> subst h <;> rfl)

/-! ### The ways a record is added -/

/-- What adding a record does to the sets of a name. -/
inductive Added (cfg : Cfg) (origin : Bytes) (r : Add) (rrs : List RRset) : List RRset → Prop
  | first (key : Nat) : (∀ t, hasType t r.data = (t == key)) → getType rrs key = none →
      ((key = 5 ∨ key = 0xFF0F) → rrs = []) →
      Added cfg origin r rrs (rrs ++ [⟨ttl0 cfg r, bodyOf cfg origin key r⟩])
  | next (key : Nat) (old : RRset) (b : Body) : (∀ t, hasType t r.data = (t == key)) → getType rrs key = some old →
      append old.body (bodyOf cfg origin key r) = some b → (key = 2 → count b ≤ 64) →
      Added cfg origin r rrs (setType rrs key ⟨old.ttl, b⟩)
  | dyna : (∀ t, hasType t r.data = (t == 1 || t == 28)) → getType rrs 1 = none → getType rrs 28 = none →
      Added cfg origin r rrs (rrs ++ [⟨ttl0 cfg r, bodyOf cfg origin 1 r⟩, ⟨ttl0 cfg r, bodyOf cfg origin 28 r⟩])

theorem insertRR_added {cfg : Cfg} {origin : Bytes} {r : Add} {rrs rrs' : List RRset} {key : Nat} {ttl : UInt32} {b : Body}
    (h : insertRR cfg rrs key ttl b = .ok (some rrs')) (hb : b = bodyOf cfg origin key r) (ht : Ttl.bswap ttl = ttl0 cfg r)
    (hk : ∀ t, hasType t r.data = (t == key)) (h5 : key ≠ 5) (h6 : key ≠ 0xFF0F)
    (h2 : key = 2 → ∀ x, getType rrs' 2 = some x → count x.body ≤ 64) : Added cfg origin r rrs rrs' := by
  unfold insertRR at h
  cases hg : getType rrs key with
  | none =>
    rw [hg] at h
    cases h
    rw [ht, hb]
    exact .first key hk hg (by rintro (h | h) <;> contradiction)
  | some old =>
    rw [hg] at h
    obtain ⟨_, _, h⟩ := andThen_some h
    obtain ⟨_, _, h⟩ := andThen_some h
    obtain ⟨_, _, h⟩ := andThen_some h
    cases ha : append old.body b with
    | none => rw [ha] at h; cases h
    | some b' =>
      rw [ha] at h
      simp only at h
      split at h
      · cases h
      cases h
      refine .next key old b' hk hg (by rw [← hb]; exact ha) ?_
      intro e
      refine h2 e ⟨old.ttl, b'⟩ ?_
      rw [← e, getType_setType hg, if_pos rfl]
      exact (append_type ha).trans (getType_some hg).2

theorem addNs_added {cfg : Cfg} {origin : Bytes} {r : Add} {path : List Bytes} {rhs : Bytes} {rrs rrs' : List RRset}
    (hd : r.data = .ns rhs) (h : addNs cfg path r.ttl rhs rrs = .ok (some rrs')) :
    Added cfg origin r rrs rrs' ∧ path.getLast? ≠ some wild := by
  unfold addNs at h
  obtain ⟨_, h1, h⟩ := andThen_some h
  obtain ⟨x, h2, h⟩ := andThen_some h
  obtain ⟨_, h3, h⟩ := andThen_some h
  cases h
  refine ⟨insertRR_added h2 (by unfold bodyOf; rw [hd]) (by unfold ttl0; rw [hd]) (by intro t; rw [hd]; rfl) (by decide)
    (by decide) ?_, by simpa using fatal_some h1⟩
  intro _ y hy
  have := fatal_some h3
  rw [hy] at this
  simpa using this

theorem addDyna_added {cfg : Cfg} {origin : Bytes} {r : Add} {m : UInt32} {rhs : Bytes} {rrs rrs' : List RRset}
    (hd : r.data = .dyna rhs m) (h : addDyna cfg r.ttl m rhs rrs = .ok (some rrs')) :
    Added cfg origin r rrs rrs' ∧ (cfg.resource rhs none).isSome = true := by
  unfold addDyna at h
  obtain ⟨_, h1, h⟩ := andThen_some h
  obtain ⟨_, h2, h⟩ := andThen_some h
  obtain ⟨_, h3, h⟩ := andThen_some h
  have h1 := fatal_some h1
  simp only [Bool.or_eq_false_iff, Option.isSome_eq_false_iff, Option.isNone_iff_eq_none] at h1
  cases hr : cfg.resource rhs none with
  | none => rw [hr] at h; cases h
  | some res =>
    rw [hr] at h
    cases h
    refine ⟨?_, rfl⟩
    have := Added.dyna (cfg := cfg) (origin := origin) (r := r) (rrs := rrs) (by intro t; rw [hd]; rfl) h1.1 h1.2
    unfold bodyOf ttl0 at this
    simp only [hd, hr, Option.getD_some] at this
    exact this

theorem addCname_added {cfg : Cfg} {origin : Bytes} {r : Add} {rhs : Bytes} {rrs rrs' : List RRset}
    (hd : r.data = .cname rhs) (h : addCname cfg r.ttl rhs rrs = .ok (some rrs')) : Added cfg origin r rrs rrs' := by
  unfold addCname at h
  obtain ⟨_, h1, h⟩ := andThen_some h
  have h1 := fatal_some h1
  cases rrs with
  | cons _ _ => cases h1
  | nil =>
    cases h
    have := Added.first (cfg := cfg) (origin := origin) (r := r) (rrs := []) 5 (by intro t; rw [hd]; rfl) rfl (fun _ => rfl)
    unfold bodyOf ttl0 at this
    simp only [hd, List.nil_append] at this
    exact this

theorem addDync_added {cfg : Cfg} {origin : Bytes} {r : Add} {m : UInt32} {rhs : Bytes} {rrs rrs' : List RRset}
    (hd : r.data = .dync rhs m) (h : addDync cfg origin r.ttl m rhs rrs = .ok (some rrs')) :
    Added cfg origin r rrs rrs' ∧ (cfg.resource rhs (some origin)).isSome = true := by
  unfold addDync at h
  obtain ⟨_, _, g⟩ := andThen_some h
  clear h
  obtain ⟨_, h1, g'⟩ := andThen_some g
  clear g
  obtain ⟨_, _, h⟩ := andThen_some g'
  clear g'
  have h1 := fatal_some h1
  cases rrs with
  | cons _ _ => cases h1
  | nil =>
    cases hr : cfg.resource rhs (some origin) with
    | none => rw [hr] at h; cases h
    | some res =>
      rw [hr] at h
      cases h
      refine ⟨?_, rfl⟩
      have := Added.first (cfg := cfg) (origin := origin) (r := r) (rrs := []) 0xFF0F (by intro t; rw [hd]; rfl) rfl (fun _ => rfl)
      unfold bodyOf ttl0 at this
      simp only [hd, hr, List.nil_append, Option.getD_some] at this
      exact this

theorem isAcme_owner {r : Add} {o : List Bytes} (hr : r.dname = encode o true) (hw : WF o) :
    Lookup.isAcme r.dname = .ok (decide ((owner r).head? = some acme)) ∧ owner r = o := by
  have ho : owner r = o := by unfold owner; rw [hr]; exact labelsOf_encode o hw
  rw [ho, hr]
  exact ⟨Lookup.isAcme_eq o hw, rfl⟩

/-- The resources a record was accepted with. -/
def ResOk (cfg : Cfg) (origin : Bytes) (r : Add) : Prop :=
  match r.data with
  | .dyna rhs _ => (cfg.resource rhs none).isSome = true
  | .dync rhs _ => (cfg.resource rhs (some origin)).isSome = true
  | .raw t _ => noGeneric t.toNat = false
  | _ => True

theorem RecOk_WF {zone : List Bytes} {r : Add} (h : RecOk zone r) : ∃ o, r.dname = encode o true ∧ WF o ∧ owner r = o ∧ DataOk o r.data := by
  obtain ⟨o, h1, h2, h3⟩ := h
  have hw : DnameSpec.WF o := by
    cases hz : isOoz r.data with
    | true => rw [hz] at h3; exact h3.1
    | false =>
      rw [hz] at h3
      exact Dname.WF_prefix h3
  exact ⟨o, h1, hw, by unfold owner; rw [h1]; exact labelsOf_encode o hw, h2⟩

theorem atNode_added {cfg : Cfg} {zone : List Bytes} {origin : Bytes} {r : Add} {path : List Bytes} {rrs rrs' : List RRset}
    (hr : RecOk zone r) (h : atNode cfg origin r path rrs = .ok (some rrs')) :
    Added cfg origin r rrs rrs' ∧ ResOk cfg origin r ∧ (∀ d, r.data = .ns d → path.getLast? ≠ some wild) := by
  obtain ⟨o, hro, hw, ho, hdo⟩ := RecOk_WF hr
  unfold atNode at h
  unfold ResOk
  cases hd : r.data with
  | a addr z =>
    rw [hd] at h
    exact ⟨insertRR_added h (by unfold bodyOf; rw [hd]) (by unfold ttl0; rw [hd]) (by intro t; rw [hd]; rfl) (by decide)
      (by decide) (by intro e; exact absurd e (by decide)), trivial, by intro d e; cases e⟩
  | aaaa addr z =>
    rw [hd] at h
    exact ⟨insertRR_added h (by unfold bodyOf; rw [hd]) (by unfold ttl0; rw [hd]) (by intro t; rw [hd]; rfl) (by decide)
      (by decide) (by intro e; exact absurd e (by decide)), trivial, by intro d e; cases e⟩
  | ptr rhs =>
    rw [hd] at h
    exact ⟨insertRR_added h (by unfold bodyOf; rw [hd]) (by unfold ttl0; rw [hd]) (by intro t; rw [hd]; rfl) (by decide)
      (by decide) (by intro e; exact absurd e (by decide)), trivial, by intro d e; cases e⟩
  | mx p rhs =>
    rw [hd] at h
    exact ⟨insertRR_added h (by unfold bodyOf; rw [hd]) (by unfold ttl0; rw [hd]) (by intro t; rw [hd]; rfl) (by decide)
      (by decide) (by intro e; exact absurd e (by decide)), trivial, by intro d e; cases e⟩
  | srv p w po rhs =>
    rw [hd] at h
    exact ⟨insertRR_added h (by unfold bodyOf; rw [hd]) (by unfold ttl0; rw [hd]) (by intro t; rw [hd]; rfl) (by decide)
      (by decide) (by intro e; exact absurd e (by decide)), trivial, by intro d e; cases e⟩
  | naptr p w po rhs =>
    rw [hd] at h
    exact ⟨insertRR_added h (by unfold bodyOf; rw [hd]) (by unfold ttl0; rw [hd]) (by intro t; rw [hd]; rfl) (by decide)
      (by decide) (by intro e; exact absurd e (by decide)), trivial, by intro d e; cases e⟩
  | txt text =>
    rw [hd] at h
    change addTxt cfg r.dname r.ttl text rrs = _ at h
    unfold addTxt at h
    rw [(isAcme_owner hro hw).1, Outcome.bind_ok] at h
    obtain ⟨_, _, h⟩ := andThen_some h
    exact ⟨insertRR_added h (by unfold bodyOf; rw [hd]) (by unfold ttl0; rw [hd]) (by intro t; rw [hd]; rfl) (by decide)
      (by decide) (by intro e; exact absurd e (by decide)), trivial, by intro d e; cases e⟩
  | ns rhs =>
    rw [hd] at h
    obtain ⟨h1, h2⟩ := addNs_added (origin := origin) hd (show addNs _ _ _ _ _ = _ from h)
    exact ⟨h1, trivial, fun _ _ => h2⟩
  | dyna rhs m =>
    rw [hd] at h
    obtain ⟨h1, h2⟩ := addDyna_added (origin := origin) hd (show addDyna _ _ _ _ _ = _ from h)
    exact ⟨h1, h2, by intro d e; cases e⟩
  | dync rhs m =>
    rw [hd] at h
    obtain ⟨h1, h2⟩ := addDync_added (origin := origin) hd (show addDync _ _ _ _ _ _ = _ from h)
    exact ⟨h1, h2, by intro d e; cases e⟩
  | cname rhs =>
    rw [hd] at h
    exact ⟨addCname_added hd (show addCname _ _ _ _ = _ from h), trivial, by intro d e; cases e⟩
  | soa mn rn s rf rt ex nc =>
    rw [hd] at h
    obtain ⟨_, _, h⟩ := bind_some (show (assert path.isEmpty).bind _ = _ from h)
    unfold addSoa at h
    obtain ⟨_, _, h⟩ := andThen_some h
    obtain ⟨_, h1, h⟩ := andThen_some h
    cases h
    refine ⟨?_, trivial, by intro d e; cases e⟩
    have := Added.first (cfg := cfg) (origin := origin) (r := r) (rrs := rrs) 6 (by intro t; rw [hd]; rfl)
      (by simpa using fatal_some h1) (by rintro (h | h) <;> cases h)
    unfold bodyOf ttl0 at this
    simp only [hd] at this
    exact this
  | raw t rd =>
    rw [hd] at h hdo
    change addRaw cfg r.ttl t rd rrs = _ at h
    unfold addRaw at h
    obtain ⟨_, h1, h⟩ := andThen_some h
    have h1 := fatal_some h1
    have hne : t.toNat ≠ 5 ∧ t.toNat ≠ 0xFF0F ∧ t.toNat ≠ 2 := by
      refine ⟨?_, ?_, ?_⟩ <;> intro e <;> rw [e] at h1 <;> exact absurd h1 (by decide)
    refine ⟨insertRR_added h ?_ (by unfold ttl0; rw [hd]) (by intro t; rw [hd]; rfl) hne.1 hne.2.1
      (fun e => absurd e hne.2.2), h1, by intro d e; cases e⟩
    unfold bodyOf
    rw [hd]
    show Body.raw (t.toNat % 65536) _ = _
    rw [Nat.mod_eq_of_lt hdo.1, Nat.mod_eq_of_lt hdo.2, List.take_length]

end Gdnsd.Load
