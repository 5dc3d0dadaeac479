/-
C94: what `multifo` and `simplefo` answer, from the configuration and the states.
-/
import Verif.Res.AnswerSpec
import Verif.Res.SfProps
import Verif.Svc.ReqProps
import Verif.Plugins.Props
namespace Gdnsd.Res
open Vscf VscfSpec Conf ConfSpec SvcSpec ResSpec
open Svc (Addr Req Boot boot)

/-! ### Indices -/

theorem published_append {tbl : List UInt32} {as bs : List Req} {is : List Nat} {f : States} (h : Published tbl (as ++ bs) is f) :
    Published tbl as is f ∧ Published tbl bs (is.drop as.length) f := by
  constructor
  · intro i svc a hi
    have hl : i < as.length := by
      rw [List.getElem?_eq_some_iff] at hi
      exact hi.1
    exact h i svc a (by rw [List.getElem?_append_left hl]; exact hi)
  · intro i svc a hi
    obtain ⟨k, h1, h2⟩ := h (as.length + i) svc a (by rw [List.getElem?_append_right (by omega)]; simpa using hi)
    exact ⟨k, by rw [List.getElem?_drop]; exact h1, h2⟩

theorem published_one {tbl : List UInt32} {f : States} {a : Addr} : ∀ {svcs : List Bytes} {is : List Nat}, Published tbl (reqsOf svcs a) is f →
    Plug.InTbl tbl (is.take svcs.length) ∧ (is.take svcs.length).filterMap (tbl[·]?) = svcs.map fun s => f s a
  | [], is, _ => ⟨by intro i hi; simp at hi, by simp⟩
  | s :: svcs, is, h => by
    obtain ⟨k, h1, h2⟩ := h 0 s a rfl
    cases is with
    | nil => simp at h1
    | cons k' is =>
      simp only [List.getElem?_cons_zero, Option.some.injEq] at h1
      subst h1
      have hrest : Published tbl (reqsOf svcs a) is f := (published_append (as := [.service s (.addr a)]) (bs := reqsOf svcs a) (is := k' :: is) h).2
      obtain ⟨e1, e2⟩ := published_one hrest
      constructor
      · intro i hi
        simp only [List.length_cons, List.take_succ_cons, List.mem_cons] at hi
        rcases hi with rfl | hi
        · exact (List.getElem?_eq_some_iff.mp h2).1
        · exact e1 i hi
      · simp only [List.length_cons, List.take_succ_cons, List.filterMap_cons, h2, e2, List.map_cons]

/-- An address with the slots of its requests. -/
structure Slotted (tbl : List UInt32) (f : States) (svcs : List Bytes) (a : Addr) (m : Plug.MfAddr) : Prop where
  addr : m.addr = toPlug a
  inTbl : Plug.InTbl tbl m.idx
  states : m.idx.filterMap (tbl[·]?) = svcs.map fun s => f s a

theorem slots_ok {tbl : List UInt32} {f : States} {svcs : List Bytes} : ∀ {as : List Addr} {is : List Nat}, Published tbl (as.flatMap (reqsOf svcs)) is f →
    All (Slotted tbl f svcs) as (slots svcs.length as is)
  | [], _, _ => .nil
  | a :: as, is, h => by
    rw [List.flatMap_cons] at h
    obtain ⟨h1, h2⟩ := published_append h
    have hl : (reqsOf svcs a).length = svcs.length := by simp [reqsOf]
    rw [hl] at h2
    obtain ⟨e1, e2⟩ := published_one h1
    exact .cons ⟨rfl, e1, e2⟩ (slots_ok h2)

theorem slotted_up {tbl : List UInt32} {f : States} {svcs : List Bytes} {a : Addr} {m : Plug.MfAddr} (h : Slotted tbl f svcs a m) : Plug.up tbl m.idx = healthy f svcs a := by
  unfold Plug.up healthy
  rw [h.states, List.all_map]
  rfl

theorem toPlug_fam (a : Addr) : (toPlug a).isFam a.v6 = true := by
  unfold toPlug
  cases h : a.v6 <;> simp [Plug.Addr.isFam]

theorem toPlug_of {a : Addr} {v6 : Bool} (h : a.v6 = v6) : (toPlug a).isFam v6 = true := by
  subst h
  exact toPlug_fam a

/-- The number that bytes are put together to. -/
def put (l : Bytes) (c : Nat) : Nat := l.foldl (fun n b => n * 256 + b.toNat) c

theorem put_from (l : Bytes) : ∀ c, put l c = c * 256 ^ l.length + put l 0 ∧ put l 0 < 256 ^ l.length := by
  induction l with
  | nil => intro c; simp [put]
  | cons b l ih =>
    intro c
    have e : ∀ c, put (b :: l) c = put l (c * 256 + b.toNat) := fun _ => rfl
    have hb : b.toNat < 256 := b.toNat_lt
    obtain ⟨h1, h2⟩ := ih (c * 256 + b.toNat)
    obtain ⟨h3, _⟩ := ih (0 * 256 + b.toNat)
    rw [e, e, h1, h3, List.length_cons, Nat.pow_succ]
    have : b.toNat * 256 ^ l.length ≤ 255 * 256 ^ l.length := Nat.mul_le_mul_right _ (by omega)
    constructor
    · simp only [Nat.zero_mul, Nat.zero_add, Nat.add_mul, Nat.mul_assoc, Nat.mul_comm 256, Nat.add_assoc]
    · simp only [Nat.zero_mul, Nat.zero_add]
      omega

theorem bigEndian_put (l : Bytes) : ∀ c, bigEndian l.length (put l c) = l := by
  induction l with
  | nil => intro c; rfl
  | cons b l ih =>
    intro c
    have e : put (b :: l) c = put l (c * 256 + b.toNat) := rfl
    rw [e, List.length_cons]
    unfold bigEndian
    rw [ih]
    congr 1
    obtain ⟨h1, h2⟩ := put_from l (c * 256 + b.toNat)
    have hb : b.toNat < 256 := b.toNat_lt
    have hp : 0 < 256 ^ l.length := Nat.pow_pos (by decide)
    rw [h1, Nat.mul_comm, Nat.mul_add_div hp, Nat.div_eq_of_lt h2, Nat.add_zero]
    apply UInt8.toNat_inj.mp
    rw [UInt8.toNat_ofNat']
    omega

/-- An answer has the bytes and the family of the configured address. -/
theorem C94_addr (a : Addr) (h : Sized a) : wire (toPlug a) = a.bytes ∧ (toPlug a).isFam a.v6 = true := by
  refine ⟨?_, toPlug_fam a⟩
  obtain ⟨_, h2⟩ := put_from a.bytes 0
  have h3 := bigEndian_put a.bytes 0
  have e : toPlug a = if a.v6 = true then .v6 (BitVec.ofNat 128 (put a.bytes 0)) else .v4 (UInt32.ofNat (put a.bytes 0)) := rfl
  unfold Sized at h
  rw [e]
  split
  · rename_i hv
    rw [if_pos hv] at h
    rw [h] at h2 h3
    unfold wire
    dsimp only
    rw [BitVec.toNat_ofNat, Nat.mod_eq_of_lt (Nat.lt_of_lt_of_le h2 (by decide))]
    exact h3
  · rename_i hv
    rw [if_neg hv] at h
    rw [h] at h2 h3
    unfold wire
    dsimp only
    rw [UInt32.toNat_ofNat', Nat.mod_eq_of_lt (Nat.lt_of_lt_of_le h2 (by decide))]
    exact h3

example : Sized ⟨false, [192, 0, 2, 1], []⟩ ∧ toPlug ⟨false, [192, 0, 2, 1], []⟩ = .v4 3221225985 ∧ Sized ⟨true, [0x20, 1, 0xd, 0xb8, 0, 0, 0, 0, 0, 0, 0, 0, 0, 0, 0, 1], []⟩ := ⟨rfl, by decide, rfl⟩

section sets
variable {tbl : List UInt32} {f : States} {s : ASet} {is : List Nat}

theorem numbered_all (h : Published tbl s.reqs is f) : (s.numbered is).all = s.as.map toPlug := by
  have := slots_ok h
  unfold Plug.MfSet.all ASet.numbered
  dsimp only
  generalize slots s.svcs.length s.as is = ms at this
  generalize s.as = as at this
  clear h
  induction this with
  | nil => rfl
  | cons h _ ih => simp only [List.map_cons, ih, h.addr]

theorem numbered_ups (h : Published tbl s.reqs is f) : (s.numbered is).ups tbl = (ups f s).map toPlug := by
  have := slots_ok h
  unfold Plug.MfSet.ups ASet.numbered ups
  dsimp only
  generalize slots s.svcs.length s.as is = ms at this
  generalize s.as = as at this
  clear h
  induction this with
  | nil => rfl
  | cons h _ ih =>
    simp only [List.filter_cons, slotted_up h]
    split
    · simp only [List.map_cons, ih, h.addr]
    · exact ih

theorem numbered_answer (h : Published tbl s.reqs is f) : (s.numbered is).answer tbl = (served f s).map toPlug := by
  have e1 := numbered_all h
  have e2 := numbered_ups h
  unfold Plug.MfSet.answer served Plug.MfSet.enough
  rw [e1, e2, List.length_map]
  change (if s.ignore = true then _ else if decide (s.thresh ≤ (ups f s).length) = true then _ else _) = _
  split
  · rfl
  · simp only [decide_eq_true_eq]
    split <;> rfl

theorem numbered_enough (h : Published tbl s.reqs is f) : (!(s.numbered is).enough tbl) = failed f s := by
  unfold Plug.MfSet.enough failed
  rw [numbered_ups h, List.length_map]
  change (!decide (s.thresh ≤ (ups f s).length)) = _
  rw [← decide_not]
  congr 1
  simp only [Nat.not_le]

theorem numbered_ok (h : Published tbl s.reqs is f) (hne : s.as ≠ []) {v6 : Bool} (hv : ∀ a ∈ s.as, a.v6 = v6) : (s.numbered is).Ok tbl v6 := by
  have := slots_ok h
  constructor
  · intro h0
    have hl := all_length this
    change slots s.svcs.length s.as is = [] at h0
    rw [h0] at hl
    exact hne (List.length_eq_zero_iff.mp hl.symm)
  · intro m hm
    obtain ⟨a, ha, hs⟩ := all_left this hm
    refine ⟨?_, hs.inTbl⟩
    rw [hs.addr, ← hv a ha]
    exact toPlug_fam a

theorem numbered_length (h : Published tbl s.reqs is f) : (s.numbered is).as.length = s.as.length := all_length (slots_ok h)

theorem foldl_min (l : List UInt32) : ∀ n : Nat, IsMin (n :: l.map Mon.ttl) (l.foldl (fun n v => min n (Mon.ttl v)) n) := by
  induction l with
  | nil => intro n; exact ⟨by simp, by simp⟩
  | cons v l ih =>
    intro n
    obtain ⟨h1, h2⟩ := ih (min n (Mon.ttl v))
    simp only [List.foldl_cons, List.map_cons]
    constructor
    · rcases List.mem_cons.mp h1 with h | h
      · rw [h]
        by_cases hle : n ≤ Mon.ttl v
        · rw [Nat.min_eq_left hle]; simp
        · rw [Nat.min_eq_right (by omega)]; simp
      · simp only [List.mem_cons]
        exact Or.inr (Or.inr h)
    · intro x hx
      have h0 := h2 _ (List.mem_cons_self)
      rcases List.mem_cons.mp hx with rfl | hx
      · omega
      · rcases List.mem_cons.mp hx with rfl | hx
        · omega
        · exact h2 x (List.mem_cons_of_mem _ hx)

theorem minTtl_min (tbl : List UInt32) (idx : List Nat) : IsMin ((2 ^ 28 - 1) :: (idx.filterMap (tbl[·]?)).map Mon.ttl) (Plug.minTtl tbl idx) := foldl_min _ _

theorem isMin_both {n : Nat} {as bs : List Nat} {x y : Nat} (h : IsMin (n :: as) x) (h' : IsMin (n :: bs) y) : IsMin (n :: (as ++ bs)) (min x y) := by
  constructor
  · have h1 := h.1
    have h2 := h'.1
    simp only [List.mem_cons, List.mem_append] at h1 h2 ⊢
    by_cases hle : x ≤ y
    · rw [Nat.min_eq_left hle]
      rcases h1 with h1 | h1
      · exact Or.inl h1
      · exact Or.inr (Or.inl h1)
    · rw [Nat.min_eq_right (by omega)]
      rcases h2 with h2 | h2
      · exact Or.inl h2
      · exact Or.inr (Or.inr h2)
  · intro z hz
    have h1 := h.2 z
    have h2 := h'.2 z
    simp only [List.mem_cons, List.mem_append] at h1 h2 hz
    rcases hz with hz | hz | hz
    · have := h1 (Or.inl hz); omega
    · have := h1 (Or.inr hz); omega
    · have := h2 (Or.inr hz); omega

theorem numbered_ttl (h : Published tbl s.reqs is f) : IsMin ((2 ^ 28 - 1) :: setTtls f s) (Plug.minTtl tbl (s.numbered is).slots) := by
  have := slots_ok h
  have e : ((s.numbered is).slots.filterMap (tbl[·]?)).map Mon.ttl = setTtls f s := by
    unfold Plug.MfSet.slots ASet.numbered setTtls
    dsimp only
    generalize slots s.svcs.length s.as is = ms at this
    generalize s.as = as at this
    clear h
    induction this with
    | nil => rfl
    | cons h _ ih =>
      simp only [List.flatMap_cons, List.filterMap_append, List.map_append, ih, h.states, List.map_map]
      rfl
  rw [← e]
  exact minTtl_min _ _

end sets

/-! ### What is published -/

/-- There is one state for each service type and address. -/
theorem states_exist {text : Addr → Option Bytes} {st : Bool} {cfg : Option Val} {ces : List (Entry Val)} (he : Entries cfg ces) (hc : ∀ v, cfg = some v → Clean v)
    (hp : ∀ e ∈ ces, Plain e) {rs : List Req} {b : Boot} (h : boot text st cfg rs = .ok (some b)) {tbl : List UInt32} (ht : tbl.length = b.regs.length) :
    ∃ f, Published tbl rs b.indices f := by
  obtain ⟨hlen, hsame⟩ := Svc.C90_share he hc hp h
  obtain ⟨hin, _⟩ := Svc.C90_states he hc hp h
  have hex : ∀ (i : Nat) r, rs[i]? = some r → ∃ k v, b.indices[i]? = some k ∧ tbl[k]? = some v := by
    intro i r hi
    have hl : i < b.indices.length := by
      rw [hlen]
      exact (List.getElem?_eq_some_iff.mp hi).1
    have hk := hin _ (List.getElem_mem hl)
    refine ⟨b.indices[i], tbl[b.indices[i]]'(by omega), List.getElem?_eq_getElem hl, List.getElem?_eq_getElem (by omega)⟩
  have hfun : ∀ svc a, ∃ v, ∀ (i : Nat) k, rs[i]? = some (.service svc (.addr a)) → b.indices[i]? = some k → tbl[k]? = some v := by
    intro svc a
    by_cases hx : ∃ (i : Nat), rs[i]? = some (.service svc (.addr a))
    · obtain ⟨i, hi⟩ := hx
      obtain ⟨k, v, h1, h2⟩ := hex i _ hi
      refine ⟨v, fun j k' h3 h4 => ?_⟩
      have : k = k' := (hsame i j _ _ k k' hi h3 h1 h4).mpr (Or.inr (.intro .addr))
      rw [← this]
      exact h2
    · exact ⟨0, fun i _ hi => absurd ⟨i, hi⟩ hx⟩
  refine ⟨fun svc a => (hfun svc a).choose, ?_⟩
  intro i svc a hi
  obtain ⟨k, v, h1, h2⟩ := hex i _ hi
  exact ⟨k, h1, (hfun svc a).choose_spec i k hi h1⟩

theorem published_part {tbl : List UInt32} {is : List Nat} {f : States} {α : Type} {g : α → List Req} : ∀ {rs : List α} {post : List Req} {j : Nat} {r : α},
    Published tbl (rs.flatMap g ++ post) is f → rs[j]? = some r → Published tbl (g r) (is.drop ((rs.take j).flatMap g).length) f
  | [], _, _, _, _, hj => by simp at hj
  | a :: rs, post, 0, r, h, hj => by
    simp only [List.getElem?_cons_zero, Option.some.injEq] at hj
    subst hj
    rw [List.flatMap_cons, List.append_assoc] at h
    simpa using (published_append h).1
  | a :: rs, post, j + 1, r, h, hj => by
    rw [List.flatMap_cons, List.append_assoc] at h
    have := published_part (published_append h).2 (by simpa using hj)
    rw [List.drop_drop] at this
    simpa using this

/-! ### multifo -/

/-- What is known of a resource that was read. -/
theorem multi_sets {lib : Lib} {es : List (Entry Val)} {e : Entry Val} {r : MRes} (hg : Good lib (.hash es)) (he : e ∈ es) (h : MultiOf lib es e r) :
    (r.v4.isSome || r.v6.isSome) = true ∧
    (∀ s, r.v4 = some s → s.as ≠ [] ∧ (∀ a ∈ s.as, a.v6 = false) ∧ 1 ≤ s.thresh) ∧ (∀ s, r.v6 = some s → s.as ≠ [] ∧ (∀ a ∈ s.as, a.v6 = true) ∧ 1 ≤ s.thresh) := by
  have hset : ∀ {v6 levels vals s}, SetOf lib v6 levels vals s → vals.length < 2 ^ 53 → s.as ≠ [] ∧ (∀ a ∈ s.as, a.v6 = v6) ∧ 1 ≤ s.thresh := by
    intro v6 levels vals s h hl
    obtain ⟨h1, h2, h3, h4⟩ := C92_share lib v6 levels vals s h hl
    refine ⟨?_, h2, h3⟩
    intro h0
    rw [h0] at h4
    simp only [List.length_nil] at h4
    omega
  have hst : ∀ {v6 outer v s}, Good lib v → Stanza lib v6 outer v s → s.as ≠ [] ∧ (∀ a ∈ s.as, a.v6 = v6) ∧ 1 ≤ s.thresh := by
    intro v6 outer v s hg h
    cases h with
    | @hash fs rest _ h1 h2 =>
      refine hset h2 ?_
      rw [List.length_map, others_iff.mp h1]
      exact Nat.lt_of_le_of_lt (List.length_filter_le _ _) (Nat.lt_trans (hg.fits.1 fs .refl) (by decide))
    | @list _ vs _ h1 h2 h3 =>
      refine hset h3 ?_
      rw [Svc.items_iff.mp h2]
      cases v with
      | simple => exact (by decide : 1 < 2 ^ 53)
      | hash fs => exact absurd rfl (h1 fs)
      | array us => exact Nat.lt_trans (hg.fits.2 us .refl) (by decide)
  have hge := hg.mem he
  cases h with
  | @split opts n s4 s6 h1 h2 h3 h4 h5 h6 =>
    rw [h1] at hge
    refine ⟨?_, ?_, ?_⟩
    · cases s4 with
      | some _ => rfl
      | none =>
        cases s6 with
        | some _ => rfl
        | none => exact absurd ⟨h5, h6⟩ h2
    · intro s hs
      dsimp only at hs
      subst hs
      obtain ⟨v, ⟨x, hx, _, hv⟩, g2⟩ := h5
      exact hst (by rw [← hv]; exact hge.mem hx) g2
    · intro s hs
      dsimp only at hs
      subst hs
      obtain ⟨v, ⟨x, hx, _, hv⟩, g2⟩ := h6
      exact hst (by rw [← hv]; exact hge.mem hx) g2
  | direct4 h1 h2 h3 =>
    exact ⟨rfl, fun s hs => by cases hs; exact hst hge h3, fun s hs => by cases hs⟩
  | direct6 h1 h2 h3 =>
    exact ⟨rfl, fun s hs => (by cases hs), fun s hs => by cases hs; exact hst hge h3⟩

/-- From the configuration to the answers of `multifo`: whatever else asks for monitoring before or after, each resource answers
from the states of its own addresses for its own service types, what the manual says; never with a failed assertion, and never
with nothing.

Missing: "not a number", see `C92_nan`. -/
theorem C94_multifo_partial {lib : Lib} {lim lim' top : Plug.Limits} {es : List (Entry Val)} (hc : Clean (.hash es)) (hnan : NoNan lib (.hash es)) (hfit : Fits (.hash es))
    {rs : List MRes} (hload : multifoLoad lib lim (some (.hash es)) = .ok (some (rs, lim')))
    {text : Addr → Option Bytes} {st : Bool} {cfg : Option Val} {ces : List (Entry Val)} (he : Entries cfg ces) (hcc : ∀ v, cfg = some v → Clean v)
    (hp : ∀ e ∈ ces, Plain e) {pre post : List Req} {b : Boot} (hb : boot text st cfg (pre ++ (rs.flatMap MRes.reqs ++ post)) = .ok (some b))
    {tbl : List UInt32} (ht : tbl.length = b.regs.length) (h4 : lim'.v4 ≤ top.v4) (h6 : lim'.v6 ≤ top.v6) :
    ∃ f, Published tbl (pre ++ (rs.flatMap MRes.reqs ++ post)) b.indices f ∧
      ∀ (j : Nat) r res, rs[j]? = some r → Plug.Fresh res →
        let sets := r.numbered (b.indices.drop (pre.length + ((rs.take j).flatMap MRes.reqs).length))
        let answer := r.v4.elim [] (served f) ++ r.v6.elim [] (served f)
        ∃ rv, Plug.mfResolve top tbl sets.1 sets.2 res = .ok (rv, res.push (answer.map toPlug)) ∧
          Mon.isDown rv = (r.v4.elim false (failed f) || r.v6.elim false (failed f)) ∧
          IsMin ((2 ^ 28 - 1) :: (r.v4.elim [] (setTtls f) ++ r.v6.elim [] (setTtls f))) (Mon.ttl rv) ∧ answer ≠ [] := by
  obtain ⟨f, hf⟩ := states_exist he hcc hp hb ht
  refine ⟨f, hf, ?_⟩
  intro j r res hj hres
  dsimp only
  obtain ⟨rest, k1, k2, k3, k4, k5, k6⟩ := ((C92_multifo_partial lib lim es hc hnan hfit).2 rs lim').mp hload
  have hmem : r ∈ rs := List.mem_of_getElem? hj
  obtain ⟨e, hem, hmo⟩ := all_left k2 hmem
  have hee : e ∈ es := by
    rw [others_iff.mp k1] at hem
    exact (List.mem_filter.mp hem).1
  obtain ⟨hsome, hs4, hs6⟩ := multi_sets ⟨hc, hnan, hfit⟩ hee hmo
  have hpub := published_part (published_append hf).2 hj
  rw [List.drop_drop] at hpub
  generalize b.indices.drop (pre.length + ((rs.take j).flatMap MRes.reqs).length) = is at hpub
  have hsz4 : ∀ s, r.v4 = some s → s.as.length ≤ top.v4 := by
    intro s hs
    refine Nat.le_trans (k5.2 _ (List.mem_cons_of_mem _ ?_)) h4
    exact List.mem_map.mpr ⟨s, List.mem_filterMap.mpr ⟨r, hmem, hs⟩, rfl⟩
  have hsz6 : ∀ s, r.v6 = some s → s.as.length ≤ top.v6 := by
    intro s hs
    refine Nat.le_trans (k6.2 _ (List.mem_cons_of_mem _ ?_)) h6
    exact List.mem_map.mpr ⟨s, List.mem_filterMap.mpr ⟨r, hmem, hs⟩, rfl⟩
  obtain ⟨hp4, hp6⟩ := published_append hpub
  have hq4 : ∀ s, r.v4 = some s → Published tbl s.reqs is f := by
    intro s hs
    rw [hs] at hp4
    exact hp4
  have hq6 : ∀ s, r.v6 = some s → Published tbl s.reqs (is.drop (r.v4.elim [] ASet.reqs).length) f := by
    intro s hs
    rw [hs] at hp6
    exact hp6
  obtain ⟨rv, g1, g2, g3, _, g5⟩ := Plug.C28_multifo top tbl (r.numbered is).1 (r.numbered is).2 res hres
    (by simpa [MRes.numbered] using hsome)
    (by
      intro v6 m hm
      cases v6 with
      | false =>
        simp only [Bool.false_eq_true, if_false, MRes.numbered, Option.map_eq_some_iff] at hm ⊢
        obtain ⟨s, hs, rfl⟩ := hm
        obtain ⟨a1, a2, a3⟩ := hs4 s hs
        exact ⟨numbered_ok (hq4 s hs) a1 a2, a3, by rw [numbered_length (hq4 s hs)]; exact hsz4 s hs⟩
      | true =>
        simp only [if_true, MRes.numbered, Option.map_eq_some_iff] at hm ⊢
        obtain ⟨s, hs, rfl⟩ := hm
        obtain ⟨a1, a2, a3⟩ := hs6 s hs
        exact ⟨numbered_ok (hq6 s hs) a1 a2, a3, by rw [numbered_length (hq6 s hs)]; exact hsz6 s hs⟩)
  have ha4 : (r.numbered is).1.elim [] (·.answer tbl) = (r.v4.elim [] (served f)).map toPlug := by
    simp only [MRes.numbered]
    cases h : r.v4 with
    | none => rfl
    | some s => exact numbered_answer (hq4 s h)
  have ha6 : (r.numbered is).2.elim [] (·.answer tbl) = (r.v6.elim [] (served f)).map toPlug := by
    simp only [MRes.numbered]
    cases h : r.v6 with
    | none => rfl
    | some s => exact numbered_answer (hq6 s h)
  have hd4 : (r.numbered is).1.elim false (fun s => !s.enough tbl) = r.v4.elim false (failed f) := by
    simp only [MRes.numbered]
    cases h : r.v4 with
    | none => rfl
    | some s => exact numbered_enough (hq4 s h)
  have hd6 : (r.numbered is).2.elim false (fun s => !s.enough tbl) = r.v6.elim false (failed f) := by
    simp only [MRes.numbered]
    cases h : r.v6 with
    | none => rfl
    | some s => exact numbered_enough (hq6 s h)
  have ht4 : IsMin ((2 ^ 28 - 1) :: r.v4.elim [] (setTtls f)) ((r.numbered is).1.elim (2 ^ 28 - 1) fun s => Plug.minTtl tbl s.slots) := by
    simp only [MRes.numbered]
    cases h : r.v4 with
    | none => exact ⟨by simp, by simp⟩
    | some s => exact numbered_ttl (hq4 s h)
  have ht6 : IsMin ((2 ^ 28 - 1) :: r.v6.elim [] (setTtls f)) ((r.numbered is).2.elim (2 ^ 28 - 1) fun s => Plug.minTtl tbl s.slots) := by
    simp only [MRes.numbered]
    cases h : r.v6 with
    | none => exact ⟨by simp, by simp⟩
    | some s => exact numbered_ttl (hq6 s h)
  rw [ha4, ha6, ← List.map_append] at g1 g5
  rw [hd4, hd6] at g2
  refine ⟨rv, g1, g2, ?_, fun h0 => g5 (by rw [h0]; rfl)⟩
  rw [g3]
  exact isMin_both ht4 ht6

/-! ### simplefo -/

theorem simple_pairs {lib : Lib} {es : List (Entry Val)} {e : Entry Val} {r : SRes} (h : SimpleOf lib es e r) :
    (r.v4.isSome || r.v6.isSome) = true ∧
    (∀ s, r.v4 = some s → s.pri.v6 = false ∧ s.sec.v6 = false) ∧ (∀ s, r.v6 = some s → s.pri.v6 = true ∧ s.sec.v6 = true) := by
  have hpair : ∀ {v6 levels fs s}, PairOf lib v6 levels fs s → s.pri.v6 = v6 ∧ s.sec.v6 = v6 := by
    intro v6 levels fs s h
    obtain ⟨_, _, _, _, _, _, _, _, h1⟩ := h.primary
    obtain ⟨_, _, _, _, _, _, _, _, h2⟩ := h.secondary
    exact ⟨h1, h2⟩
  cases h with
  | @split opts n s4 s6 h1 h2 h3 h4 h5 h6 =>
    refine ⟨?_, ?_, ?_⟩
    · cases s4 with
      | some _ => rfl
      | none =>
        cases s6 with
        | some _ => rfl
        | none => exact absurd ⟨h5, h6⟩ h2
    · intro s hs
      dsimp only at hs
      subst hs
      obtain ⟨fs, _, g2⟩ := h5
      exact hpair g2
    · intro s hs
      dsimp only at hs
      subst hs
      obtain ⟨fs, _, g2⟩ := h6
      exact hpair g2
  | direct4 h1 h2 h3 => exact ⟨rfl, fun s hs => by cases hs; exact hpair h3, fun s hs => by cases hs⟩
  | direct6 h1 h2 h3 => exact ⟨rfl, fun s hs => (by cases hs), fun s hs => by cases hs; exact hpair h3⟩

section pairs
variable {tbl : List UInt32} {f : States} {s : PSet} {is : List Nat}

theorem pair_slots (h : Published tbl s.reqs is f) :
    Plug.InTbl tbl (s.numbered is).priIdx ∧ Plug.InTbl tbl (s.numbered is).secIdx ∧
    (s.numbered is).priIdx.filterMap (tbl[·]?) = s.svcs.map (fun v => f v s.pri) ∧ (s.numbered is).secIdx.filterMap (tbl[·]?) = s.svcs.map (fun v => f v s.sec) := by
  obtain ⟨h1, h2⟩ := published_append h
  have hl : (reqsOf s.svcs s.pri).length = s.svcs.length := by simp [reqsOf]
  rw [hl] at h2
  obtain ⟨e1, e2⟩ := published_one h1
  obtain ⟨e3, e4⟩ := published_one h2
  exact ⟨e1, e3, e2, e4⟩

theorem pair_chart (h : Published tbl s.reqs is f) :
    ((s.numbered is).chart tbl).1 = toPlug (chosen f s) ∧ ((s.numbered is).chart tbl).2.1 = bothDown f s ∧
    IsMin ((2 ^ 28 - 1) :: pairTtls f s) ((s.numbered is).chart tbl).2.2 := by
  obtain ⟨_, _, h3, h4⟩ := pair_slots h
  have u1 : Plug.up tbl (s.numbered is).priIdx = healthy f s.svcs s.pri := by
    unfold Plug.up healthy
    rw [h3, List.all_map]
    rfl
  have u2 : Plug.up tbl (s.numbered is).secIdx = healthy f s.svcs s.sec := by
    unfold Plug.up healthy
    rw [h4, List.all_map]
    rfl
  have t1 := minTtl_min tbl (s.numbered is).priIdx
  have t2 := minTtl_min tbl (s.numbered is).secIdx
  rw [h3, List.map_map] at t1
  rw [h4, List.map_map] at t2
  have t3 := isMin_both t1 t2
  unfold Plug.SfSet.chart
  rw [u1, u2]
  unfold chosen bothDown pairTtls
  cases e1 : healthy f s.svcs s.pri <;> cases e2 : healthy f s.svcs s.sec
  · exact ⟨rfl, rfl, t2⟩
  · exact ⟨rfl, rfl, t3⟩
  · exact ⟨rfl, rfl, t1⟩
  · exact ⟨rfl, rfl, t1⟩

end pairs

/-- From the configuration to the answers of `simplefo`: whatever else asks for monitoring before or after, each resource answers
from the states of its own addresses for its own service types, what the manual says; never with a failed assertion. -/
theorem C94_simplefo {lib : Lib} {lim lim' top : Plug.Limits} {es : List (Entry Val)} (hc : Clean (.hash es))
    {rs : List SRes} (hload : simplefoLoad lib lim (some (.hash es)) = .ok (some (rs, lim')))
    {text : Addr → Option Bytes} {st : Bool} {cfg : Option Val} {ces : List (Entry Val)} (he : Entries cfg ces) (hcc : ∀ v, cfg = some v → Clean v)
    (hp : ∀ e ∈ ces, Plain e) {pre post : List Req} {b : Boot} (hb : boot text st cfg (pre ++ (rs.flatMap SRes.reqs ++ post)) = .ok (some b))
    {tbl : List UInt32} (ht : tbl.length = b.regs.length) (h4 : lim'.v4 ≤ top.v4) (h6 : lim'.v6 ≤ top.v6) :
    ∃ f, Published tbl (pre ++ (rs.flatMap SRes.reqs ++ post)) b.indices f ∧
      ∀ (j : Nat) r res, rs[j]? = some r → Plug.Fresh res →
        let sets := r.numbered (b.indices.drop (pre.length + ((rs.take j).flatMap SRes.reqs).length))
        let answer := r.v4.elim [] (fun s => [chosen f s]) ++ r.v6.elim [] (fun s => [chosen f s])
        ∃ rv, Plug.sfResolve top tbl sets.1 sets.2 res = .ok (rv, res.push (answer.map toPlug)) ∧
          Mon.isDown rv = (r.v4.elim false (bothDown f) || r.v6.elim false (bothDown f)) ∧
          IsMin ((2 ^ 28 - 1) :: (r.v4.elim [] (pairTtls f) ++ r.v6.elim [] (pairTtls f))) (Mon.ttl rv) ∧ answer ≠ [] := by
  obtain ⟨f, hf⟩ := states_exist he hcc hp hb ht
  refine ⟨f, hf, ?_⟩
  intro j r res hj hres
  dsimp only
  obtain ⟨rest, k1, k2, k5, k6⟩ := ((C93_simplefo lib lim es hc).2 rs lim').mp hload
  have hmem : r ∈ rs := List.mem_of_getElem? hj
  obtain ⟨e, hem, hmo⟩ := all_left k2 hmem
  obtain ⟨hsome, hs4, hs6⟩ := simple_pairs hmo
  have hpub := published_part (published_append hf).2 hj
  rw [List.drop_drop] at hpub
  generalize b.indices.drop (pre.length + ((rs.take j).flatMap SRes.reqs).length) = is at hpub
  have hone : ∀ n, n ∈ rs.map (fun _ => 1) ↔ n = 1 := by
    intro n
    constructor
    · intro h
      obtain ⟨_, _, h⟩ := List.mem_map.mp h
      exact h.symm
    · rintro rfl
      exact List.mem_map.mpr ⟨r, hmem, rfl⟩
  have hl4 : 1 ≤ lim'.v4 := k5.2 1 (List.mem_cons_of_mem _ ((hone 1).mpr rfl))
  have hl6 : 1 ≤ lim'.v6 := k6.2 1 (List.mem_cons_of_mem _ ((hone 1).mpr rfl))
  obtain ⟨hp4, hp6⟩ := published_append hpub
  have hq4 : ∀ s, r.v4 = some s → Published tbl s.reqs is f := by
    intro s hs
    rw [hs] at hp4
    exact hp4
  have hq6 : ∀ s, r.v6 = some s → Published tbl s.reqs (is.drop (r.v4.elim [] PSet.reqs).length) f := by
    intro s hs
    rw [hs] at hp6
    exact hp6
  obtain ⟨rv, g1, g2, g3, _⟩ := Plug.C29_simplefo top tbl (r.numbered is).1 (r.numbered is).2 res hres ⟨by omega, by omega⟩
    (by simpa [SRes.numbered] using hsome)
    (by
      intro v6 m hm
      cases v6 with
      | false =>
        simp only [Bool.false_eq_true, if_false, SRes.numbered, Option.map_eq_some_iff] at hm ⊢
        obtain ⟨s, hs, rfl⟩ := hm
        obtain ⟨a1, a2⟩ := hs4 s hs
        obtain ⟨b1, b2, _⟩ := pair_slots (hq4 s hs)
        exact ⟨toPlug_of a1, toPlug_of a2, b1, b2⟩
      | true =>
        simp only [if_true, SRes.numbered, Option.map_eq_some_iff] at hm ⊢
        obtain ⟨s, hs, rfl⟩ := hm
        obtain ⟨a1, a2⟩ := hs6 s hs
        obtain ⟨b1, b2, _⟩ := pair_slots (hq6 s hs)
        exact ⟨toPlug_of a1, toPlug_of a2, b1, b2⟩)
  have ha4 : (r.numbered is).1.elim [] (fun s => [(s.chart tbl).1]) = (r.v4.elim [] (fun s => [chosen f s])).map toPlug := by
    simp only [SRes.numbered]
    cases h : r.v4 with
    | none => rfl
    | some s => simp [(pair_chart (hq4 s h)).1]
  have ha6 : (r.numbered is).2.elim [] (fun s => [(s.chart tbl).1]) = (r.v6.elim [] (fun s => [chosen f s])).map toPlug := by
    simp only [SRes.numbered]
    cases h : r.v6 with
    | none => rfl
    | some s => simp [(pair_chart (hq6 s h)).1]
  have hd4 : (r.numbered is).1.elim false (fun s => (s.chart tbl).2.1) = r.v4.elim false (bothDown f) := by
    simp only [SRes.numbered]
    cases h : r.v4 with
    | none => rfl
    | some s => exact (pair_chart (hq4 s h)).2.1
  have hd6 : (r.numbered is).2.elim false (fun s => (s.chart tbl).2.1) = r.v6.elim false (bothDown f) := by
    simp only [SRes.numbered]
    cases h : r.v6 with
    | none => rfl
    | some s => exact (pair_chart (hq6 s h)).2.1
  have ht4 : IsMin ((2 ^ 28 - 1) :: r.v4.elim [] (pairTtls f)) ((r.numbered is).1.elim (2 ^ 28 - 1) fun s => (s.chart tbl).2.2) := by
    simp only [SRes.numbered]
    cases h : r.v4 with
    | none => exact ⟨by simp, by simp⟩
    | some s => exact (pair_chart (hq4 s h)).2.2
  have ht6 : IsMin ((2 ^ 28 - 1) :: r.v6.elim [] (pairTtls f)) ((r.numbered is).2.elim (2 ^ 28 - 1) fun s => (s.chart tbl).2.2) := by
    simp only [SRes.numbered]
    cases h : r.v6 with
    | none => exact ⟨by simp, by simp⟩
    | some s => exact (pair_chart (hq6 s h)).2.2
  rw [ha4, ha6, ← List.map_append] at g1
  rw [hd4, hd6] at g2
  refine ⟨rv, g1, g2, ?_, ?_⟩
  · rw [g3]
    exact isMin_both ht4 ht6
  · intro h0
    cases e4 : r.v4 with
    | some s => rw [e4] at h0; simp at h0
    | none =>
      cases e6 : r.v6 with
      | some s => rw [e6] at h0; simp at h0
      | none => rw [e4, e6] at hsome; cases hsome

/-! ### Concrete cases -/

/-- What `exMulti` asks for. -/
theorem exMulti_boot : ∃ b, boot (fun a => some a.bytes) false (some (.hash Svc.exCfg)) ([.admin (str "dc")] ++ (exSets.flatMap MRes.reqs ++ [])) = .ok (some b) ∧
    b.indices = [0, 1, 2, 3, 4, 5, 6, 7] ∧ b.regs.length = 8 :=
  ⟨_, by with_unfolding_all rfl, by decide +kernel, by decide +kernel⟩

/-- The first address of "web" is down for one service type, so the share of 1 is not reached. -/
example : ∃ f : States, f (str "web") ⟨false, [192, 0, 2, 1], []⟩ = 0x80000005 ∧ failed f ⟨[⟨false, [192, 0, 2, 1], []⟩, ⟨false, [192, 0, 2, 2], []⟩], [str "web", str "up"], 2, false⟩ = true := by
  obtain ⟨b, hb, hi, hl⟩ := exMulti_boot
  obtain ⟨f, h1, h2⟩ := C94_multifo_partial (top := {}) exMulti_clean exMulti_nan exMulti_fits exMulti_load (.inr rfl) (fun v hv => by cases hv; exact Svc.exClean) Svc.exPlain hb
    (tbl := [1, 0x80000005, 7, 7, 7, 7, 7, 7]) (by rw [hl]; rfl) (by decide) (by decide)
  have hs : ∀ (i k : Nat) svc a v, ([.admin (str "dc")] ++ (exSets.flatMap MRes.reqs ++ []))[i]? = some (.service svc (.addr a)) → b.indices[i]? = some k →
      [1, 0x80000005, 7, 7, 7, 7, 7, 7][k]? = some v → f svc a = v := by
    intro i k svc a v e1 e2 e3
    obtain ⟨k', e4, e5⟩ := h1 i svc a e1
    rw [e2] at e4
    cases e4
    rw [e3] at e5
    cases e5
    rfl
  have e1 : f (str "web") ⟨false, [192, 0, 2, 1], []⟩ = 0x80000005 := hs 1 1 _ _ _ (by decide +kernel) (by rw [hi]; rfl) rfl
  refine ⟨f, e1, ?_⟩
  have e2 : Mon.isDown (0x80000005 : UInt32) = true := by decide
  have e3 : healthy f [str "web", str "up"] ⟨false, [192, 0, 2, 1], []⟩ = false := by
    unfold healthy
    rw [List.all_cons, e1, e2]
    rfl
  unfold failed ups
  rw [List.filter_cons, e3, if_neg (by decide)]
  exact decide_eq_true (Nat.lt_of_le_of_lt (List.length_filter_le _ _) (by decide))

end Gdnsd.Res
