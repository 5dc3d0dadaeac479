/-
Resources with the indices that their requests got.
-/
import Verif.Meta.AnswerSpec
import Verif.Meta.Props
import Verif.Wt.AnswerLemmas
import Verif.Plugins.Meta
namespace Gdnsd.Meta
open Vscf VscfSpec Conf ConfSpec SvcSpec MetaSpec
open Res (Lib)
open Svc (Addr Req Boot boot Thing)
open WtSpec (States Published healthy ttls)
open Wt (published_append published_one published_part)
open ResSpec (IsMin)

/-- What configuration guarantees. -/
structure Sane (r : Resource) : Prop where
  number : ∀ d ∈ r.dcs, NumberOf r.names d.name d.idx
  nodup : (r.dcs.map (·.name)).Nodup
  name : ∀ d ∈ r.dcs, ∀ t dn svcs, d.target = .cname t dn svcs → Dname.status dn = .ok .valid

theorem Sane.range {r : Resource} (h : Sane r) {d : Dc} (hd : d ∈ r.dcs) : 1 ≤ d.idx ∧ d.idx ≤ r.names.length := by
  obtain ⟨i, h1, h2, _⟩ := h.number d hd
  have := (List.getElem?_eq_some_iff.mp h2).1
  omega

theorem Sane.idx {r : Resource} (h : Sane r) : (r.dcs.map (·.idx)).Nodup := by
  have hn := h.nodup
  have key : ∀ (ds : List Dc), (∀ d ∈ ds, d ∈ r.dcs) → (ds.map (·.name)).Nodup → (ds.map (·.idx)).Nodup := by
    intro ds
    induction ds with
    | nil => intro _ _; exact List.nodup_nil
    | cons d ds ih =>
      intro hs hn
      rw [List.map_cons, List.nodup_cons] at hn ⊢
      refine ⟨?_, ih (fun x hx => hs x (by simp [hx])) hn.2⟩
      intro hm
      obtain ⟨d', h1, h2⟩ := List.mem_map.mp hm
      obtain ⟨i, e1, e2, _⟩ := h.number d (hs d (by simp))
      obtain ⟨i', e1', e2', _⟩ := h.number d' (hs d' (by simp [h1]))
      have : i = i' := by omega
      subst this
      rw [e2] at e2'
      exact hn.1 (List.mem_map.mpr ⟨d', h1, (Option.some.inj e2').symm⟩)
  exact key _ (fun _ h => h) hn

section
variable {pn rn : Bytes} {sub : Bytes → Option Bytes → Plug.Resolver} {map : Nat → Option Nat}

/-- A datacenter with its indices. -/
def slotted (sub : Bytes → Option Bytes → Plug.Resolver) (map : Nat → Option Nat) (d : Dc) (is : List Nat) : Plug.Dc :=
  ⟨map d.idx, is.headD 0, match d.target with
    | .cname _ dname svcs => Sum.inl (dname, (is.drop 1).take svcs.length)
    | .res p n => Sum.inr (sub p n)⟩

theorem numbered_none : ∀ {ds : List Dc} {is : List Nat} {n : Nat}, (∀ d ∈ ds, d.idx ≠ n) → (numbered pn rn sub map ds is).find? (fun p => p.1 == n) = none
  | [], _, _, _ => rfl
  | d :: ds, is, n, h => by
    rw [numbered, List.find?_cons]
    have : (d.idx == n) = false := by simpa using h d (by simp)
    simp only [this]
    exact numbered_none fun x hx => h x (by simp [hx])

theorem numbered_get : ∀ {ds : List Dc} {is : List Nat} {i : Nat} {d : Dc}, (ds.map (·.idx)).Nodup → ds[i]? = some d →
    (numbered pn rn sub map ds is).find? (fun p => p.1 == d.idx) = some (d.idx, slotted sub map d (is.drop ((ds.take i).flatMap (Dc.reqs pn rn)).length))
  | [], _, _, _, _, h => by simp at h
  | a :: ds, is, 0, d, _, h => by
    simp only [List.getElem?_cons_zero, Option.some.injEq] at h
    subst h
    rw [numbered, List.find?_cons]
    simp only [beq_self_eq_true, List.take_zero, List.flatMap_nil, List.length_nil, List.drop_zero]
    rfl
  | a :: ds, is, i + 1, d, hn, h => by
    simp only [List.getElem?_cons_succ] at h
    rw [List.map_cons, List.nodup_cons] at hn
    have hne : (a.idx == d.idx) = false := by
      have : a.idx ≠ d.idx := fun he => hn.1 (List.mem_map.mpr ⟨d, List.mem_of_getElem? h, he.symm⟩)
      simpa using this
    rw [numbered, List.find?_cons]
    simp only [hne]
    rw [numbered_get hn.2 h, List.drop_drop, List.take_succ_cons, List.flatMap_cons, List.length_append]

variable {r : Resource} {is : List Nat}

theorem dcs_get (h : Sane r) {i : Nat} {d : Dc} (hd : r.dcs[i]? = some d) :
    (r.numbered pn sub map is).dcs[d.idx]? = some (some (slotted sub map d (is.drop ((r.dcs.take i).flatMap (Dc.reqs pn r.name)).length))) := by
  obtain ⟨h1, h2⟩ := h.range (List.mem_of_getElem? hd)
  unfold Resource.numbered
  obtain ⟨n, hn⟩ : ∃ n, d.idx = n + 1 := ⟨d.idx - 1, by omega⟩
  dsimp only
  have := numbered_get (pn := pn) (rn := r.name) (sub := sub) (map := map) (is := is) h.idx hd
  rw [hn] at this ⊢
  rw [List.getElem?_cons_succ, List.getElem?_map, List.getElem?_range (by omega)]
  simp only [Option.map_some, this]

theorem dcs_none {n : Nat} (h : ∀ d ∈ r.dcs, d.idx ≠ n) (hr : n ≤ r.names.length) : (r.numbered pn sub map is).dcs[n]? = some none := by
  unfold Resource.numbered
  dsimp only
  cases n with
  | zero => rfl
  | succ n =>
    rw [List.getElem?_cons_succ, List.getElem?_map, List.getElem?_range (by omega)]
    simp only [Option.map_some, numbered_none h, Option.map_none]

theorem dcs_ok (h : Sane r) : (r.numbered pn sub map is).Ok := by
  refine ⟨by simp [Resource.numbered], by simp [Resource.numbered], ?_⟩
  have hperm : (((List.range r.names.length).filter fun i => (r.dcs.map (·.idx)).contains (i + 1)).map (· + 1)).Perm (r.dcs.map (·.idx)) := by
    rw [List.perm_ext_iff_of_nodup]
    · intro x
      simp only [List.mem_map, List.mem_filter, List.mem_range, List.contains_iff_mem]
      constructor
      · rintro ⟨i, ⟨_, d, h2, h3⟩, rfl⟩
        exact ⟨d, h2, h3⟩
      · rintro ⟨d, h2, rfl⟩
        obtain ⟨g1, g2⟩ := h.range h2
        exact ⟨d.idx - 1, ⟨by omega, d, h2, by omega⟩, by omega⟩
    · rw [List.nodup_iff_pairwise_ne, List.pairwise_map]
      refine List.Pairwise.filter _ ?_
      refine List.nodup_range.imp ?_
      intro a b hab
      omega
    · exact h.idx
  have hlen := hperm.length_eq
  simp only [List.length_map] at hlen
  change r.dcs.length = _
  rw [← hlen]
  unfold Resource.numbered
  simp only [List.filter_cons, Option.isSome_none, Bool.false_eq_true, if_false, List.filter_map, List.length_map]
  congr 1
  apply List.filter_congr
  intro i hi
  have hi := List.mem_range.mp hi
  simp only [Function.comp]
  cases hc : (r.dcs.map (·.idx)).contains (i + 1) with
  | true =>
    rw [List.contains_iff_mem, List.mem_map] at hc
    obtain ⟨d, h1, h2⟩ := hc
    obtain ⟨j, h3⟩ := List.mem_iff_getElem?.mp h1
    have := numbered_get (pn := pn) (rn := r.name) (sub := sub) (map := map) (is := is) h.idx h3
    rw [h2] at this
    rw [this]
    rfl
  | false =>
    rw [numbered_none]
    · rfl
    · intro d hd he
      rw [← Bool.not_eq_true, List.contains_iff_mem] at hc
      exact hc (List.mem_map.mpr ⟨d, hd, he⟩)

theorem defines_iff (h : Sane r) {n : UInt8} (hr : n.toNat ≤ r.names.length) : (r.numbered pn sub map is).defines n = true ↔ ∃ d ∈ r.dcs, d.idx = n.toNat := by
  unfold Plug.MetaRes.defines
  constructor
  · intro hd
    apply Decidable.byContradiction
    intro hno
    rw [dcs_none (fun d hd he => hno ⟨d, hd, he⟩) hr] at hd
    cases hd
  · rintro ⟨d, h1, h2⟩
    obtain ⟨i, h3⟩ := List.mem_iff_getElem?.mp h1
    rw [← h2, dcs_get h h3]
    rfl

/-- The number of a datacenter as the lists have it. -/
def byte (d : Dc) : UInt8 := UInt8.ofNat d.idx

theorem chosen_filter (h : Sane r) {ns : List UInt8} {ds : List Dc} (hc : Chosen r.dcs ns ds) (hr : ∀ n ∈ ns, n.toNat ≤ r.names.length) :
    ns.filter (r.numbered pn sub map is).defines = ds.map byte := by
  induction hc with
  | nil => rfl
  | @skip n ns ds h1 _ ih =>
    have : (r.numbered pn sub map is).defines n = false := by
      rw [← Bool.not_eq_true, defines_iff h (hr n (by simp))]
      rintro ⟨d, g1, g2⟩
      exact h1 d g1 g2
    rw [List.filter_cons, this]
    exact ih fun x hx => hr x (by simp [hx])
  | @take n ns d ds h1 h2 _ ih =>
    have : (r.numbered pn sub map is).defines n = true := (defines_iff h (hr n (by simp))).mpr ⟨d, h1, h2⟩
    rw [List.filter_cons, this, if_pos rfl, ih fun x hx => hr x (by simp [hx]), List.map_cons]
    congr 1
    unfold byte
    rw [h2, UInt8.ofNat_toNat]

theorem chosen_mem {dcs : List Dc} {ns : List UInt8} {ds : List Dc} (hc : Chosen dcs ns ds) : ∀ d ∈ ds, d ∈ dcs := by
  induction hc with
  | nil => intro d hd; simp at hd
  | skip _ _ ih => exact ih
  | take h1 _ _ ih =>
    intro d hd
    rcases List.mem_cons.mp hd with rfl | hd
    · exact h1
    · exact ih d hd

theorem considered_eq (h : Sane r) {ns : List UInt8} {ds : List Dc} (hc : Chosen r.dcs ns ds) (hr : ∀ n ∈ ns, n.toNat ≤ r.names.length) :
    (r.numbered pn sub map is).considered ns = (candidates r.skip ds).map byte := by
  unfold Plug.MetaRes.considered candidates
  dsimp only
  rw [chosen_filter h hc hr, List.length_map]
  change (if r.skip = true ∧ 2 ≤ ds.length then (ds.map byte).drop 1 else ds.map byte) = _
  by_cases hx : r.skip = true ∧ 2 ≤ ds.length
  · rw [if_pos hx, if_pos hx, List.drop_one, List.map_tail]
  · rw [if_neg hx, if_neg hx]

theorem candidates_mem {skip : Bool} {ds : List Dc} : ∀ d ∈ candidates skip ds, d ∈ ds := by
  intro d hd
  unfold candidates at hd
  split at hd
  · exact List.mem_of_mem_tail hd
  · exact hd

end

section answer
variable {pn : Bytes} {tbl : List UInt32} {r : Resource} {is : List Nat} {resolve : Bytes → Option Bytes → Plug.Resolver} {map : Nat → Option Nat} {f : States}
  {sub : Bytes → Option Bytes → Bool × Nat} {g : Bytes → UInt32}

theorem foldl_ttl (l : List UInt32) : ∀ a, l.foldl (fun n v => min n (Mon.ttl v)) a = (l.map Mon.ttl).foldl min a := by
  induction l with
  | nil => intro _; rfl
  | cons x l ih => intro a; exact ih _

/-- The state of a datacenter is what counts for the resolver. -/
theorem dc_state (h : Sane r) (hp : Published tbl (r.reqs pn) is f) (ha : Administered pn tbl is r g) (hm : ∀ n k, map n = some k → k < tbl.length)
    (hs : ∀ d ∈ r.dcs, ∀ p n, d.target = .res p n → Plug.Healthy (resolve p n) (sub p n).1 (sub p n).2) {i : Nat} {d : Dc} (hd : r.dcs[i]? = some d) :
    let dc := slotted resolve map d (is.drop ((r.dcs.take i).flatMap (Dc.reqs pn r.name)).length)
    dc.InTbl tbl ∧ ∃ dn t, dc.Computed tbl dn t ∧ stateOf f sub g (fun n => (map n).bind (tbl[·]?)) d = dc.state tbl dn t := by
  obtain ⟨k, _, h1, h2⟩ := ha i d hd
  have hpd := published_part (g := Dc.reqs pn r.name) (post := []) (by rw [List.append_nil]; exact hp) hd
  generalize hoff : ((r.dcs.take i).flatMap (Dc.reqs pn r.name)).length = off at h1 hpd
  dsimp only
  have hhead : (is.drop off).headD 0 = k := by
    rw [List.headD_eq_head?_getD, List.head?_drop, h1]
    rfl
  have hk := (List.getElem?_eq_some_iff.mp h2).1
  refine ⟨⟨by simp only [slotted, hhead]; exact hk, fun m hm' => hm _ _ hm'⟩, ?_⟩
  have hown : ∃ dn t, (slotted resolve map d (is.drop off)).Computed tbl dn t ∧ (dn, t) = ownState f sub d.target := by
    unfold Plug.Dc.Computed slotted
    cases ht : d.target with
    | cname tx dn svcs =>
      dsimp only
      unfold Dc.reqs at hpd
      rw [ht] at hpd
      dsimp only at hpd
      have hps := (published_append (as := [.admin (adminName pn r.name d.name)]) (bs := svcs.map fun s => .service s (.cname tx dn)) hpd).2
      obtain ⟨e1, e2⟩ := published_one hps
      refine ⟨_, _, ⟨h.name d (List.mem_of_getElem? hd) _ _ _ ht, e1, rfl, rfl⟩, ?_⟩
      simp only [List.length_cons, List.length_nil, Nat.zero_add] at e2
      unfold ownState Plug.up Plug.minTtl healthy ttls
      simp only [e2, List.all_map, foldl_ttl, List.map_map]
      rfl
    | res p n =>
      exact ⟨_, _, hs d (List.mem_of_getElem? hd) p n ht, rfl⟩
  obtain ⟨dn, t, hc, ho⟩ := hown
  refine ⟨dn, t, hc, ?_⟩
  unfold stateOf Plug.Dc.state Plug.forcedAt
  have e1 : (slotted resolve map d (is.drop off)).dcIdx = k := hhead
  have e2 : (slotted resolve map d (is.drop off)).mapIdx = map d.idx := rfl
  rw [e1, e2, h2]
  have hfor : ∀ o : Option UInt32, o.bind forced = (o.filter Mon.isForced).map fun s => (Mon.isDown s, Mon.ttl s) := by
    intro o
    cases o with
    | none => rfl
    | some s =>
      simp only [Option.bind_some, forced, Option.filter]
      split <;> rfl
  have hf1 : forced (g d.name) = ((some (g d.name)).filter Mon.isForced).map fun s => (Mon.isDown s, Mon.ttl s) := hfor (some _)
  have hf2 : ((map d.idx).bind (tbl[·]?)).bind forced = ((map d.idx).bind fun k => tbl[k]?.filter Mon.isForced).map fun s => (Mon.isDown s, Mon.ttl s) := by
    rw [hfor]
    cases map d.idx <;> rfl
  dsimp only
  rw [hf1, hf2]
  generalize Option.filter Mon.isForced (some (g d.name)) = a
  generalize ((map d.idx).bind fun k => tbl[k]?.filter Mon.isForced) = b
  cases a <;> cases b <;> simp [ho]

theorem sane_states (h : Sane r) (hl : r.names.length ≤ 255) (hp : Published tbl (r.reqs pn) is f) (ha : Administered pn tbl is r g) (hm : ∀ n k, map n = some k → k < tbl.length)
    (hs : ∀ d ∈ r.dcs, ∀ p n, d.target = .res p n → Plug.Healthy (resolve p n) (sub p n).1 (sub p n).2) :
    ∃ hh : UInt8 → Bool × Nat, (∀ l, (∀ n ∈ l, ∃ d ∈ r.dcs, n = byte d) → (r.numbered pn resolve map is).States tbl hh l) ∧
      ∀ d ∈ r.dcs, hh (byte d) = stateOf f sub g (fun n => (map n).bind (tbl[·]?)) d := by
  have hb : ∀ d ∈ r.dcs, (byte d).toNat = d.idx := by
    intro d hd
    have := (h.range hd).2
    simp only [byte, UInt8.toNat_ofNat']
    omega
  have hh : ∀ n : UInt8, ∃ x : Bool × Nat, ∀ d ∈ r.dcs, n = byte d → x = stateOf f sub g (fun n => (map n).bind (tbl[·]?)) d := by
    intro n
    by_cases hx : ∃ d ∈ r.dcs, n = byte d
    · obtain ⟨d, h1, rfl⟩ := hx
      refine ⟨stateOf f sub g (fun n => (map n).bind (tbl[·]?)) d, fun d' h2 h3 => ?_⟩
      · have he : d.idx = d'.idx := by rw [← hb d h1, ← hb d' h2, h3]
        have : d = d' := by
          obtain ⟨i, hi⟩ := List.mem_iff_getElem?.mp h1
          obtain ⟨j, hj⟩ := List.mem_iff_getElem?.mp h2
          have hi' := (List.getElem?_eq_some_iff.mp hi).1
          have := (List.getElem?_inj (by simpa using hi') h.idx (j := j)).mp (by simp [List.getElem?_map, hi, hj, he])
          subst this
          rw [hi] at hj
          exact Option.some.inj hj
        rw [this]
    · exact ⟨(false, 0), fun d h1 h2 => absurd ⟨d, h1, h2⟩ hx⟩
  refine ⟨fun n => (hh n).choose, ?_, fun d hd => (hh _).choose_spec d hd rfl⟩
  intro l hin n hn dc hdc
  obtain ⟨d, h1, rfl⟩ := hin n hn
  obtain ⟨i, h2⟩ := List.mem_iff_getElem?.mp h1
  rw [hb d h1, dcs_get h h2] at hdc
  cases hdc
  obtain ⟨g1, dn, t, g2, g3⟩ := dc_state h hp ha hm hs h2
  exact ⟨g1, dn, t, g2, ((hh _).choose_spec d h1 rfl).trans g3⟩

theorem dcTtl_min (hh : UInt8 → Bool × Nat) (st : Dc → Bool × Nat) (ds : List Dc) (h : ∀ d ∈ ds, hh (byte d) = st d) :
    IsMin ((2 ^ 28 - 1) :: ds.map fun d => (st d).2) (Plug.dcTtl hh (ds.map byte)) := by
  unfold Plug.dcTtl
  have key : ∀ (ds : List Dc) (a : Nat), (∀ d ∈ ds, hh (byte d) = st d) → IsMin (a :: ds.map fun d => (st d).2) ((ds.map byte).foldl (fun n d => min n (hh d).2) a) := by
    intro ds
    induction ds with
    | nil => intro a _; exact ⟨by simp, by simp⟩
    | cons d ds ih =>
      intro a h
      obtain ⟨h1, h2⟩ := ih (min a (hh (byte d)).2) fun x hx => h x (by simp [hx])
      simp only [List.map_cons, List.foldl_cons]
      rw [h d (by simp)] at h1 h2 ⊢
      generalize (ds.map byte).foldl (fun n d => min n (hh d).2) (min a (st d).2) = z at h1 h2
      constructor
      · simp only [List.mem_cons] at h1 ⊢
        rcases h1 with h1 | h1
        · rcases Nat.le_total a (st d).2 with h3 | h3
          · exact .inl (by omega)
          · exact .inr (.inl (by omega))
        · exact .inr (.inr h1)
      · intro x hx
        have h3 := h2 _ List.mem_cons_self
        rcases List.mem_cons.mp hx with rfl | hx
        · omega
        · rcases List.mem_cons.mp hx with rfl | hx
          · omega
          · exact h2 x (by simp [hx])
  exact key ds _ h

theorem picks_exists (st : Dc → Bool × Nat) : ∀ (ds : List Dc), ds ≠ [] → ∃ d dn tried, Picks st ds d dn tried := by
  have key : ∀ (ds : List Dc), (∀ x ∈ ds, (st x).1 = true) ∨ ∃ pre d post, ds = pre ++ d :: post ∧ (∀ x ∈ pre, (st x).1 = true) ∧ (st d).1 = false := by
    intro ds
    induction ds with
    | nil => exact .inl (by simp)
    | cons d ds ih =>
      cases hd : (st d).1 with
      | false => exact .inr ⟨[], d, ds, rfl, by simp, hd⟩
      | true =>
        rcases ih with ih | ⟨pre, x, post, rfl, h1, h2⟩
        · exact .inl (by simp [hd]; exact ih)
        · exact .inr ⟨d :: pre, x, post, rfl, by simp [hd]; exact h1, h2⟩
  intro ds hne
  rcases key ds with h | ⟨pre, d, post, rfl, h1, h2⟩
  · cases ds with
    | nil => exact absurd rfl hne
    | cons d ds => exact ⟨d, true, _, .down h⟩
  · exact ⟨d, false, _, .up h1 h2⟩

theorem answers_says {dc : Dc} {l : List Nat} {k : Nat} {res : Plug.Result} (h : (slotted resolve map dc l).Answers k res) : MetaSpec.Says resolve dc.target k res := by
  unfold Plug.Dc.Answers slotted at h
  unfold MetaSpec.Says
  cases ht : dc.target with
  | cname t d svcs => rw [ht] at h; exact h
  | res p n => rw [ht] at h; exact h

/-- What a resource answers. -/
theorem meta_answer (hv : ∀ s ∈ tbl, Mon.Valid s) (h : Sane r) (hl : r.names.length ≤ 255) (hp : Published tbl (r.reqs pn) is f) (ha : Administered pn tbl is r g)
    (hm : ∀ n k, map n = some k → k < tbl.length)
    (hs : ∀ d ∈ r.dcs, ∀ p n, d.target = .res p n → Plug.Healthy (resolve p n) (sub p n).1 (sub p n).2)
    (synth : UInt8) (ns junk : Bytes) (scope : Nat) (res : Plug.Result) (hns : ∀ n ∈ Plug.startList synth ns, n ≠ 0 ∧ n.toNat ≤ r.names.length)
    (hlen : (Plug.startList synth ns).length ≤ 254 ∨ r.dcs.length = r.names.length) {ds : List Dc} (hc : Chosen r.dcs (Plug.startList synth ns) ds) :
    let st := stateOf f sub g fun n => (map n).bind (tbl[·]?)
    let out := Plug.metaResolve tbl (r.numbered pn resolve map is) synth (ns ++ 0 :: junk, scope) res
    (candidates r.skip ds = [] → out = .ok (Mon.TTLMASK, { res with scope := max (Plug.startScope synth scope) res.scope })) ∧
    ∀ d dn tried, Picks st (candidates r.skip ds) d dn tried → ∃ rv res' k, out = .ok (rv, { res' with scope := max (Plug.startScope synth scope) res'.scope }) ∧
      MetaSpec.Says resolve d.target k res' ∧ Mon.isDown rv = dn ∧ IsMin ((2 ^ 28 - 1) :: tried.map fun d => (st d).2) (Mon.ttl rv) ∧ Mon.Valid rv := by
  intro st out
  have hok : (r.numbered pn resolve map is).Ok := dcs_ok h
  have hcons : (r.numbered pn resolve map is).considered (Plug.startList synth ns) = (candidates r.skip ds).map byte := considered_eq h hc fun n hn => (hns n hn).2
  have hcand : ∀ d ∈ candidates r.skip ds, d ∈ r.dcs := fun d hd => chosen_mem hc d (candidates_mem d hd)
  obtain ⟨hh, h1, h2⟩ := sane_states (sub := sub) h hl hp ha hm hs
  have hst : (r.numbered pn resolve map is).States tbl hh ((r.numbered pn resolve map is).considered (Plug.startList synth ns)) := by
    apply h1
    intro n hn
    rw [hcons] at hn
    obtain ⟨d, g1, rfl⟩ := List.mem_map.mp hn
    exact ⟨d, hcand d g1, rfl⟩
  have hlen' : (Plug.startList synth ns).length ≤ 254 ∨ (r.numbered pn resolve map is).numDcs = (r.numbered pn resolve map is).numDefined := by
    rcases hlen with h | h
    · exact .inl h
    · exact .inr h.symm
  have hb : ∀ d ∈ r.dcs, (byte d).toNat = d.idx := by
    intro d hd
    have := (h.range hd).2
    simp only [byte, UInt8.toNat_ofNat']
    omega
  have hget : ∀ d ∈ r.dcs, ∀ dc, (r.numbered pn resolve map is).dcs[(byte d).toNat]? = some (some dc) → ∃ l, dc = slotted resolve map d l := by
    intro d hd dc hdc
    obtain ⟨i, hi⟩ := List.mem_iff_getElem?.mp hd
    rw [hb d hd, dcs_get h hi] at hdc
    cases hdc
    exact ⟨_, rfl⟩
  constructor
  · intro h0
    rw [h0] at hcons
    exact Plug.C31_none tbl _ hok synth ns junk scope res hns hlen' hcons
  · intro d dn tried hpk
    generalize hcd : candidates r.skip ds = cs at hpk hcons hcand
    cases hpk with
    | @up pre d post g1 g2 =>
      have hpre : ∀ x ∈ pre.map byte, (hh x).1 = true := by
        intro x hx
        obtain ⟨y, k1, rfl⟩ := List.mem_map.mp hx
        rw [h2 y (hcand y (by simp [k1]))]
        exact g1 y k1
      have hd := hcand d (by simp)
      obtain ⟨rv, r', k, dc, e1, e2, e3, e4, e5, e6⟩ := Plug.C31_first_up tbl hv _ hok synth ns junk scope res hns hlen' hh hst (pre.map byte) (byte d) (post.map byte)
        (by rw [hcons]; simp) hpre (by rw [h2 d hd]; exact g2)
      obtain ⟨l, rfl⟩ := hget d hd dc e2
      refine ⟨rv, r', k, e1, answers_says e3, e4, ?_, e6⟩
      rw [e5]
      have := dcTtl_min hh st (pre ++ [d]) (by
        intro x hx
        apply h2
        apply hcand
        simp only [List.mem_append, List.mem_cons, List.not_mem_nil, or_false] at hx ⊢
        rcases hx with h | h
        · exact .inl h
        · exact .inr (.inl h))
      simpa using this
    | @down d ds' g1 =>
      have hd := hcand d (by simp)
      obtain ⟨rv, r', k, dc, e1, e2, e3, e4, e5, e6⟩ := Plug.C31_all_down tbl hv _ hok synth ns junk scope res hns hlen' hh hst (byte d) (ds'.map byte)
        (by rw [hcons]; simp) (by
          intro x hx
          rw [← List.map_cons] at hx
          obtain ⟨y, k1, rfl⟩ := List.mem_map.mp hx
          rw [h2 y (hcand y k1)]
          exact g1 y k1)
      obtain ⟨l, rfl⟩ := hget d hd dc e2
      refine ⟨rv, r', k, e1, answers_says e3, e4, ?_, e6⟩
      rw [e5]
      have := dcTtl_min hh st (d :: ds') (fun x hx => h2 x (hcand x hx))
      simpa using this

end answer

end Gdnsd.Meta
