/-
Weighted sets with the indices that their requests got.
-/
import Verif.Wt.AnswerSpec
import Verif.Wt.Props
import Verif.Res.AnswerProps
namespace Gdnsd.Wt
open Vscf VscfSpec Conf ConfSpec SvcSpec WtSpec
open ResSpec (IsMin IsMax ShareOf)
open Res (Lib all_length all_left foldl_min minTtl_min isMin_both toPlug_of toPlug)
open Svc (Addr Req Boot boot Thing)

/-! ### Indices -/

theorem published_append {tbl : List UInt32} {as bs : List Req} {is : List Nat} {f : States} (h : Published tbl (as ++ bs) is f) :
    Published tbl as is f ∧ Published tbl bs (is.drop as.length) f := by
  constructor
  · intro i svc a hi
    have hl : i < as.length := by
      rw [List.getElem?_eq_some_iff] at hi
      exact hi.1
    exact h i svc a (by rw [List.getElem?_append_left hl]; exact hi)
  · intro i svc a hi
    obtain ⟨k, h1, h2⟩ := h (as.length + i) svc a (by rw [List.getElem?_append_right (by omega)]; simpa using hi)
    exact ⟨k, by rw [List.getElem?_drop]; exact h1, h2⟩

theorem published_one {tbl : List UInt32} {f : States} {x : Thing} : ∀ {svcs : List Bytes} {is : List Nat}, Published tbl (svcs.map fun s => .service s x) is f →
    Plug.InTbl tbl (is.take svcs.length) ∧ (is.take svcs.length).filterMap (tbl[·]?) = svcs.map fun s => f s x
  | [], is, _ => ⟨by intro i hi; simp at hi, by simp⟩
  | s :: svcs, is, h => by
    obtain ⟨k, h1, h2⟩ := h 0 s x rfl
    cases is with
    | nil => simp at h1
    | cons k' is =>
      simp only [List.getElem?_cons_zero, Option.some.injEq] at h1
      subst h1
      have hrest : Published tbl (svcs.map fun s => .service s x) is f :=
        (published_append (as := [.service s x]) (bs := svcs.map fun s => .service s x) (is := k' :: is) h).2
      obtain ⟨e1, e2⟩ := published_one hrest
      constructor
      · intro i hi
        simp only [List.length_cons, List.take_succ_cons, List.mem_cons] at hi
        rcases hi with rfl | hi
        · exact (List.getElem?_eq_some_iff.mp h2).1
        · exact e1 i hi
      · simp only [List.length_cons, List.take_succ_cons, List.filterMap_cons, h2, e2, List.map_cons]

theorem published_part {tbl : List UInt32} {is : List Nat} {f : States} {α : Type} {g : α → List Req} : ∀ {rs : List α} {post : List Req} {j : Nat} {r : α},
    Published tbl (rs.flatMap g ++ post) is f → rs[j]? = some r → Published tbl (g r) (is.drop ((rs.take j).flatMap g).length) f
  | [], _, _, _, _, hj => by simp at hj
  | a :: rs, post, 0, r, h, hj => by
    simp only [List.getElem?_cons_zero, Option.some.injEq] at hj
    subst hj
    rw [List.flatMap_cons, List.append_assoc] at h
    simpa using (published_append h).1
  | a :: rs, post, j + 1, r, h, hj => by
    rw [List.flatMap_cons, List.append_assoc] at h
    have := published_part (published_append h).2 (by simpa using hj)
    rw [List.drop_drop] at this
    simpa using this

/-- There is one state for each service type and thing. -/
theorem states_exist {text : Addr → Option Bytes} {st : Bool} {cfg : Option Val} {ces : List (Entry Val)} (he : Entries cfg ces) (hc : ∀ v, cfg = some v → Clean v)
    (hp : ∀ e ∈ ces, Plain e) {rs : List Req} {b : Boot} (h : boot text st cfg rs = .ok (some b)) {tbl : List UInt32} (ht : tbl.length = b.regs.length) :
    ∃ f, Published tbl rs b.indices f := by
  obtain ⟨hlen, hsame⟩ := Svc.C90_share he hc hp h
  obtain ⟨hin, _⟩ := Svc.C90_states he hc hp h
  have hex : ∀ (i : Nat) r, rs[i]? = some r → ∃ k v, b.indices[i]? = some k ∧ tbl[k]? = some v := by
    intro i r hi
    have hl : i < b.indices.length := by
      rw [hlen]
      exact (List.getElem?_eq_some_iff.mp hi).1
    have hk := hin _ (List.getElem_mem hl)
    refine ⟨b.indices[i], tbl[b.indices[i]]'(by omega), List.getElem?_eq_getElem hl, List.getElem?_eq_getElem (by omega)⟩
  have hfun : ∀ svc x, ∃ v, ∀ (i : Nat) k, rs[i]? = some (.service svc x) → b.indices[i]? = some k → tbl[k]? = some v := by
    intro svc x
    by_cases hx : ∃ (i : Nat), rs[i]? = some (.service svc x)
    · obtain ⟨i, hi⟩ := hx
      obtain ⟨k, v, h1, h2⟩ := hex i _ hi
      refine ⟨v, fun j k' h3 h4 => ?_⟩
      have hss : SvcSpec.SameThing x x := by
        cases x with
        | addr a => exact .addr
        | cname t d => exact .cname
      have : k = k' := (hsame i j _ _ k k' hi h3 h1 h4).mpr (Or.inr (.intro hss))
      rw [← this]
      exact h2
    · exact ⟨0, fun i _ hi => absurd ⟨i, hi⟩ hx⟩
  refine ⟨fun svc a => (hfun svc a).choose, ?_⟩
  intro i svc a hi
  obtain ⟨k, v, h1, h2⟩ := hex i _ hi
  exact ⟨k, h1, (hfun svc a).choose_spec i k hi h1⟩

/-! ### Sets of addresses -/

/-- An item with the slots of its requests. -/
structure Slotted (tbl : List UInt32) (f : States) (svcs : List Bytes) (p : Addr × UInt32) (w : Plug.WAddr) : Prop where
  addr : w.addr = toPlug p.1
  weight : w.weight = p.2
  inTbl : Plug.InTbl tbl w.idx
  states : w.idx.filterMap (tbl[·]?) = svcs.map fun s => f s (.addr p.1)

section sets
variable {tbl : List UInt32} {f : States} {svcs : List Bytes}

theorem slots_ok : ∀ {g : List (Addr × UInt32)} {is : List Nat}, Published tbl (g.flatMap fun p => Res.reqsOf svcs p.1) is f →
    All (Slotted tbl f svcs) g (slots svcs.length g is)
  | [], _, _ => .nil
  | p :: g, is, h => by
    rw [List.flatMap_cons] at h
    obtain ⟨h1, h2⟩ := published_append h
    have hl : (Res.reqsOf svcs p.1).length = svcs.length := by simp [Res.reqsOf]
    rw [hl] at h2
    obtain ⟨e1, e2⟩ := published_one h1
    exact .cons ⟨rfl, rfl, e1, e2⟩ (slots_ok h2)

theorem group_length (g : List (Addr × UInt32)) : (g.flatMap fun p => Res.reqsOf svcs p.1).length = svcs.length * g.length := by
  induction g with
  | nil => rfl
  | cons p g ih =>
    have : (Res.reqsOf svcs p.1).length = svcs.length := by simp [Res.reqsOf]
    rw [List.flatMap_cons, List.length_append, ih, this, List.length_cons, Nat.mul_add, Nat.mul_one, Nat.add_comm]

theorem groupSlots_ok : ∀ {gs : List (List (Addr × UInt32))} {is : List Nat}, Published tbl (gs.flatMap fun g => g.flatMap fun p => Res.reqsOf svcs p.1) is f →
    All (All (Slotted tbl f svcs)) gs (groupSlots svcs.length gs is)
  | [], _, _ => .nil
  | g :: gs, is, h => by
    rw [List.flatMap_cons] at h
    obtain ⟨h1, h2⟩ := published_append h
    rw [group_length] at h2
    exact .cons (slots_ok h1) (groupSlots_ok h2)

theorem slotted_up {p : Addr × UInt32} {w : Plug.WAddr} (h : Slotted tbl f svcs p w) : Plug.up tbl w.idx = itemUp f svcs p := by
  unfold Plug.up itemUp healthy
  rw [h.states, List.all_map]
  rfl

theorem all_flatten {α β : Type} {R : α → β → Prop} {as : List (List α)} {bs : List (List β)} (h : All (All R) as bs) : All R as.flatten bs.flatten := by
  induction h with
  | nil => exact .nil
  | @cons a b as bs h _ ih =>
    simp only [List.flatten_cons]
    rename_i hrest
    clear hrest
    induction h with
    | nil => exact ih
    | cons h _ ih' => exact .cons h ih'

theorem flat_up {ps : List (Addr × UInt32)} {ws : List Plug.WAddr} (h : All (Slotted tbl f svcs) ps ws) :
    (ws.filter fun a => Plug.up tbl a.idx).map (·.weight) = (ps.filter (itemUp f svcs)).map (·.2) := by
  induction h with
  | nil => rfl
  | cons h _ ih =>
    simp only [List.filter_cons, slotted_up h]
    split
    · simp only [List.map_cons, ih, h.weight]
    · exact ih

theorem flat_weight {ps : List (Addr × UInt32)} {ws : List Plug.WAddr} (h : All (Slotted tbl f svcs) ps ws) : ws.map (·.weight) = ps.map (·.2) := by
  induction h with
  | nil => rfl
  | cons h _ ih => simp only [List.map_cons, ih, h.weight]

theorem flat_ttl {ps : List (Addr × UInt32)} {ws : List Plug.WAddr} (h : All (Slotted tbl f svcs) ps ws) :
    ((ws.flatMap (·.idx)).filterMap (tbl[·]?)).map Mon.ttl = ps.flatMap fun p => ttls f svcs (.addr p.1) := by
  induction h with
  | nil => rfl
  | cons h _ ih =>
    simp only [List.flatMap_cons, List.filterMap_append, List.map_append, ih, h.states, List.map_map]
    rfl

theorem group_eligible {ps : List (Addr × UInt32)} {ws : List Plug.WAddr} (h : All (Slotted tbl f svcs) ps ws) (b : Bool) :
    Plug.eligible tbl b ws = ((if b = true then ps.filter (itemUp f svcs) else ps).map (·.1)).map toPlug := by
  unfold Plug.eligible
  cases b with
  | false =>
    simp only [Bool.not_false, Bool.true_or, Bool.false_eq_true, if_false]
    induction h with
    | nil => rfl
    | cons h _ ih =>
      simp only [List.filter_cons, if_true, List.map_cons, h.addr] at ih ⊢
      rw [ih]
  | true =>
    simp only [Bool.not_true, Bool.false_or, if_true]
    induction h with
    | nil => rfl
    | cons h _ ih =>
      simp only [List.filter_cons, slotted_up h]
      split
      · simp only [List.map_cons, ih, h.addr]
      · exact ih

theorem groups_eligible {gs : List (List (Addr × UInt32))} {ws : List (List Plug.WAddr)} (h : All (All (Slotted tbl f svcs)) gs ws) (b : Bool) :
    ws.map (Plug.eligible tbl b) = (gs.map fun g => (if b = true then g.filter (itemUp f svcs) else g).map (·.1)).map (·.map toPlug) := by
  induction h with
  | nil => rfl
  | cons h _ ih => simp only [List.map_cons, ih, group_eligible h b]

theorem lengths {gs : List (List (Addr × UInt32))} {ws : List (List Plug.WAddr)} (h : All (All (Slotted tbl f svcs)) gs ws) : ws.map List.length = gs.map List.length := by
  induction h with
  | nil => rfl
  | cons h _ ih => simp only [List.map_cons, ih, all_length h]

end sets

theorem onePer_map {α β : Type} (t : α → β) : ∀ {ls : List (List α)} {as : List β}, Plug.OnePer (ls.map (·.map t)) as → ∃ bs, as = bs.map t ∧ Plug.OnePer ls bs
  | [], _, h => by
    cases h
    exact ⟨[], rfl, .nil⟩
  | l :: ls, _, h => by
    rw [List.map_cons] at h
    cases h with
    | skip h =>
      obtain ⟨bs, rfl, h'⟩ := onePer_map t h
      exact ⟨bs, rfl, .skip h'⟩
    | take ha h =>
      obtain ⟨b, hb, rfl⟩ := List.mem_map.mp ha
      obtain ⟨bs, rfl, h'⟩ := onePer_map t h
      exact ⟨b :: bs, rfl, .take hb h'⟩

theorem assert_bind {α : Type} {b : Bool} {k : Unit → Outcome α} {x : α} (h : (assert b).bind k = .ok x) : k () = .ok x := by
  cases b with
  | false => exact absurd h nofun
  | true => exact h

theorem ok_bind {α β : Type} {o : Outcome α} {k : α → Outcome β} {x : β} (h : o.bind k = .ok x) : ∃ a, k a = .ok x := by
  cases o with
  | ub => exact absurd h nofun
  | ok a => exact ⟨a, h⟩

theorem mkSet_shape {gs : List (List Plug.WAddr)} {multi : Bool} {m k : Nat} {w : Plug.WSet} (h : Plug.mkSet gs multi m k = .ok w) :
    w = ⟨gs.map Plug.mkItem, Plug.sumU ((gs.map Plug.mkItem).map (·.weight)), w.upWeight, Plug.maxU ((gs.map Plug.mkItem).map (·.weight)), multi⟩ := by
  obtain ⟨up, h⟩ := ok_bind (assert_bind (assert_bind h))
  cases assert_bind h
  rfl

theorem mkCSet_shape {cs : List Plug.WCname} {m k : Nat} {w : Plug.WCSet} (h : Plug.mkCSet cs m k = .ok w) : w = ⟨cs, Plug.sumU (cs.map (·.weight)), w.upWeight⟩ := by
  obtain ⟨up, h⟩ := ok_bind (assert_bind (assert_bind h))
  cases h
  rfl

theorem foldl_le (l : List Nat) (b : Nat) (h : ∀ n ∈ l, n ≤ b) : ∀ a, a ≤ b → l.foldl max a ≤ b := by
  induction l with
  | nil => intro a ha; exact ha
  | cons n l ih =>
    intro a ha
    have := h n (by simp)
    exact ih (fun x hx => h x (by simp [hx])) _ (by omega)

section one
variable {tbl : List UInt32} {f : States} {s : ASet} {is : List Nat} {lib : Lib} {v6 : Bool} {levels : List (List (Entry Val))} {vals : List Val}

/-- What `numbered` gives is what the end of `config_addrset` makes of the groups. -/
theorem numbered_gives {lim : Plug.Limits} (h : SetOf lib v6 levels vals s) (hp : Published tbl s.reqs is f) (hl : ∀ n ∈ sizes s, n ≤ if v6 then lim.v6 else lim.v4) :
    ∃ c : Plug.WConf, c.groups = groupSlots s.svcs.length s.groups is ∧ c.multi = s.multi ∧ c.Gives lim tbl v6 (s.numbered is) := by
  obtain ⟨r1, r2, r3, _⟩ := C95_ranges lib v6 levels vals s h
  obtain ⟨o, m, k, _, h2, h3⟩ := h.share
  obtain ⟨hm, hk⟩ := share_range h2
  have hs := groupSlots_ok hp
  have hok : Plug.GroupsOk tbl v6 (groupSlots s.svcs.length s.groups is) := by
    have hlen := all_length hs
    refine ⟨?_, by omega, ?_⟩
    · intro h0
      rw [h0] at hlen
      exact r1 (List.length_eq_zero_iff.mp hlen.symm)
    · intro g hg
      obtain ⟨g', hg', hh⟩ := all_left hs hg
      obtain ⟨a1, a2, a3⟩ := r3 g' hg'
      have hgl := all_length hh
      refine ⟨?_, by omega, ?_⟩
      · intro h0
        rw [h0] at hgl
        exact a1 (List.length_eq_zero_iff.mp hgl.symm)
      · intro a ha
        obtain ⟨p, hp, hsl⟩ := all_left hh ha
        obtain ⟨b1, b2, b3⟩ := a3 p hp
        exact ⟨by rw [hsl.addr]; exact toPlug_of b1, hsl.inTbl, by rw [hsl.weight]; exact b2, by rw [hsl.weight]; exact b3⟩
  obtain ⟨w, n, e1, _, _, _, _, e6, e7, _⟩ := Plug.mkSet_spec hok s.multi hm hk
  refine ⟨⟨groupSlots s.svcs.length s.groups is, s.multi, m, k⟩, rfl, rfl, hok, hm, hk, ?_, ?_⟩
  · have hw : Plug.weightOf (groupSlots s.svcs.length s.groups is) = total (s.groups.flatten.map (·.2)) := by
      unfold Plug.weightOf Plug.natSum total
      rw [flat_weight (all_flatten hs)]
    rw [hw, h3] at e6
    cases e6
    have hu : w.upWeight = s.up := UInt32.toNat_inj.mp e7
    dsimp only
    rw [e1, mkSet_shape e1, hu]
    rfl
  · unfold Plug.maxAnswer
    dsimp only
    unfold sizes at hl
    split
    · rename_i hmu
      rw [if_pos hmu] at hl
      rw [all_length hs]
      exact hl _ (by simp)
    · rename_i hmu
      rw [if_neg hmu] at hl
      rw [lengths hs]
      exact foldl_le _ _ hl _ (Nat.zero_le _)

theorem numbered_enough (hp : Published tbl s.reqs is f) : (s.numbered is).enough tbl (groupSlots s.svcs.length s.groups is) = enough f s := by
  unfold Plug.WSet.enough enough weightUp Plug.upWeightOf Plug.natSum total
  rw [flat_up (all_flatten (groupSlots_ok hp))]
  rfl

theorem numbered_answer (hp : Published tbl s.reqs is f) {as : List Plug.Addr} (h : Plug.WeightedAnswer tbl (groupSlots s.svcs.length s.groups is) (s.numbered is) as) :
    ∃ bs, as = bs.map toPlug ∧ Answer f s bs := by
  obtain ⟨h1, h2⟩ := h
  rw [numbered_enough hp] at h2
  change if s.multi = true then _ else _ at h2
  have hs := groupSlots_ok hp
  by_cases hm : s.multi = true
  · rw [if_pos hm, groups_eligible hs] at h2
    obtain ⟨bs, rfl, h3⟩ := onePer_map toPlug h2
    refine ⟨bs, rfl, fun h0 => h1 (by rw [h0]; rfl), ?_⟩
    rw [if_pos hm]
    exact h3
  · rw [if_neg hm] at h2
    obtain ⟨g, hg, h3⟩ := h2
    obtain ⟨g', hg', hh⟩ := all_left hs hg
    rw [group_eligible hh, List.sublist_map_iff] at h3
    obtain ⟨bs, h4, rfl⟩ := h3
    refine ⟨bs, rfl, fun h0 => h1 (by rw [h0]; rfl), ?_⟩
    rw [if_neg hm]
    exact ⟨g', hg', h4⟩

theorem numbered_ttl (hp : Published tbl s.reqs is f) : IsMin ((2 ^ 28 - 1) :: setTtls f s) (Plug.minTtl tbl (Plug.wSlots (groupSlots s.svcs.length s.groups is))) := by
  have := minTtl_min tbl (Plug.wSlots (groupSlots s.svcs.length s.groups is))
  unfold Plug.wSlots at this ⊢
  rw [flat_ttl (all_flatten (groupSlots_ok hp))] at this
  exact this

end one

/-! ### Names -/

/-- A name with the slots of its requests. -/
structure Named (tbl : List UInt32) (f : States) (svcs : List Bytes) (c : Cname) (w : Plug.WCname) : Prop where
  dname : w.dname = c.dname
  weight : w.weight = c.weight
  inTbl : Plug.InTbl tbl w.idx
  states : w.idx.filterMap (tbl[·]?) = svcs.map fun s => f s (nameOf c)

section names
variable {tbl : List UInt32} {f : States} {svcs : List Bytes}

theorem nameSlots_ok : ∀ {cs : List Cname} {is : List Nat}, Published tbl (cs.flatMap fun c => svcs.map fun svc => .service svc (.cname c.text c.dname)) is f →
    All (Named tbl f svcs) cs (nameSlots svcs.length cs is)
  | [], _, _ => .nil
  | c :: cs, is, h => by
    rw [List.flatMap_cons] at h
    obtain ⟨h1, h2⟩ := published_append h
    rw [List.length_map] at h2
    obtain ⟨e1, e2⟩ := published_one h1
    exact .cons ⟨rfl, rfl, e1, e2⟩ (nameSlots_ok h2)

theorem named_up {c : Cname} {w : Plug.WCname} (h : Named tbl f svcs c w) : Plug.up tbl w.idx = healthy f svcs (nameOf c) := by
  unfold Plug.up healthy
  rw [h.states, List.all_map]
  rfl

theorem names_up {cs : List Cname} {ws : List Plug.WCname} (h : All (Named tbl f svcs) cs ws) :
    (ws.filter fun a => Plug.up tbl a.idx).map (·.weight) = (cs.filter fun c => healthy f svcs (nameOf c)).map (·.weight) := by
  induction h with
  | nil => rfl
  | cons h _ ih =>
    simp only [List.filter_cons, named_up h]
    split
    · simp only [List.map_cons, ih, h.weight]
    · exact ih

theorem names_weight {cs : List Cname} {ws : List Plug.WCname} (h : All (Named tbl f svcs) cs ws) : ws.map (·.weight) = cs.map (·.weight) := by
  induction h with
  | nil => rfl
  | cons h _ ih => simp only [List.map_cons, ih, h.weight]

theorem names_ttl {cs : List Cname} {ws : List Plug.WCname} (h : All (Named tbl f svcs) cs ws) :
    ((ws.flatMap (·.idx)).filterMap (tbl[·]?)).map Mon.ttl = cs.flatMap fun c => ttls f svcs (nameOf c) := by
  induction h with
  | nil => rfl
  | cons h _ ih =>
    simp only [List.flatMap_cons, List.filterMap_append, List.map_append, ih, h.states, List.map_map]
    rfl

end names

/-- What is answered from names. -/
theorem names_answer {tbl : List UInt32} {f : States} {s : CSet} {is : List Nat} {lib : Lib} {levels : List (List (Entry Val))} {vals : List Val} {lim : Plug.Limits}
    (h : NamesOf lib levels vals s) (hp : Published tbl s.reqs is f) {rnd : Plug.Rnd} (hrnd : rnd.Legal) {res : Plug.Result} (hres : Plug.Fresh res) :
    ∃ rv c d, Plug.wResolve rnd lim tbl { cnames := some (s.numbered is) } res = .ok (rv, { res with cname := some c.dname, draws := d }) ∧
      c ∈ s.names ∧ (enoughNames f s = true → healthy f s.svcs (nameOf c) = true) ∧ Mon.isDown rv = !enoughNames f s ∧
      IsMin ((2 ^ 28 - 1) :: nameTtls f s) (Mon.ttl rv) := by
  have hs := nameSlots_ok hp
  obtain ⟨o, m, k, _, h2, h3⟩ := h.share
  obtain ⟨hm, hk⟩ := share_range h2
  have hlen := all_length hs
  have hlen' := all_length h.names
  have hok : Plug.CnamesOk tbl (nameSlots s.svcs.length s.names is) := by
    refine ⟨?_, by have := h.few; omega, ?_⟩
    · intro h0
      rw [h0] at hlen
      refine h.some (List.length_eq_zero_iff.mp ?_)
      rw [← hlen', ← hlen]
      rfl
    · intro w hw
      obtain ⟨c, hc, hn⟩ := all_left hs hw
      obtain ⟨v, _, hv⟩ := all_left h.names hc
      obtain ⟨a1, a2, a3⟩ := name_weight hv
      exact ⟨by rw [hn.dname]; exact a3, hn.inTbl, by rw [hn.weight]; exact a1, by rw [hn.weight]; exact a2⟩
  obtain ⟨w, n, e1, _, _, e4, e5, _⟩ := Plug.mkCSet_spec hok hm hk
  have hw : Plug.natSum ((nameSlots s.svcs.length s.names is).map (·.weight)) = total (s.names.map (·.weight)) := by
    unfold Plug.natSum total
    rw [names_weight hs]
  rw [hw, h3] at e4
  cases e4
  have hu : w.upWeight = s.up := UInt32.toNat_inj.mp e5
  have hnum : w = s.numbered is := by
    rw [mkCSet_shape e1, hu]
    rfl
  obtain ⟨w', g1, _, _, _, _, rv, c, d, g2, g3, g4, g5, g6, _⟩ := Plug.C30_cname rnd hrnd lim tbl _ m k hok hm hk res hres
  rw [e1] at g1
  cases g1
  have hen : w.enough tbl (nameSlots s.svcs.length s.names is) = enoughNames f s := by
    unfold Plug.WCSet.enough enoughNames namesUp Plug.cUpWeight Plug.natSum total
    rw [names_up hs, hu]
  obtain ⟨c', hc', hn⟩ := all_left hs g3
  refine ⟨rv, c', d, ?_, hc', ?_, ?_, ?_⟩
  · rw [← hnum, g2, hn.dname]
  · intro he
    rw [← named_up hn]
    exact g4 (by rw [hen]; exact he)
  · rw [← hen]
    exact g5
  · have := minTtl_min tbl ((nameSlots s.svcs.length s.names is).flatMap (·.idx))
    rw [names_ttl hs] at this
    rw [g6]
    exact this

end Gdnsd.Wt
