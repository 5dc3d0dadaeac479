import Verif.Load.NodeLemmas
/-
Adding all the records of a zone.
-/
namespace Gdnsd.Load
open Enc Tree TreeSpec DnameSpec EncSpec LookupSpec LoadSpec

/-! ### No undefined behaviour while adding -/

theorem append_count {a b c : Body} (h : append a b = some c) : count c = count a + count b := by
  cases a <;> cases b <;> simp only [append] at h <;> first
    | (cases h; simp [count])
    | (split at h <;> cases h; simp [count])
    | cases h

theorem before_numbers {cfg : Cfg} {d : Rdata} (h : before cfg d = .ok (some ())) : Numbers d := by
  unfold before at h
  cases d <;> simp only at h <;> first | trivial | skip
  all_goals
    have := fatal_some h
    simp only [Bool.or_eq_false_iff, decide_eq_false_iff_not] at this
    simp only [Numbers]
    omega

theorem insertRR_ne_ub {cfg : Cfg} {rrs : List RRset} {key : Nat} {ttl ttl' : UInt32} {b : Body}
    (hr : ∀ r ∈ rrs, SetOk cfg r) (hb : SetOk cfg ⟨ttl', b⟩) (ht : b.type = key) (hb1 : ∀ x y z, b ≠ .soa x y z)
    (hb2 : ∀ d, b ≠ .cname d) (hb3 : ∀ x y, b ≠ .dync x y) (hb4 : isDyn b = false) (hb5 : count b = 1) : insertRR cfg rrs key ttl b ≠ .ub := by
  unfold insertRR
  cases hg : getType rrs key with
  | none => intro h; cases h
  | some old =>
    refine andThen_ne_ub (fatal_ne_ub _) fun _ h1 => andThen_ne_ub (warn_ne_ub _ _) fun _ _ => andThen_ne_ub (fatal_ne_ub _) fun _ h3 => ?_
    have hg' := getType_some hg
    obtain ⟨c, hc⟩ := append_some (ttl := old.ttl) (a := old.body) (hr old hg'.1) hb (hg'.2.trans ht.symm) (fatal_some h1) hb1 hb2 hb3 hb4
    have h3 := of_decide_eq_false (fatal_some h3)
    have := append_count hc
    rw [hc]
    simp only
    rw [if_neg (by omega)]
    intro h; cases h

theorem atNode_ne_ub {cfg : Cfg} {zone : List Bytes} {origin : Bytes} {r : Add} {path : List Bytes} {rrs : List RRset}
    (hr : RecOk zone r) (hs : ∀ r ∈ rrs, SetOk cfg r) (hp : ∀ m n a b c d e, r.data = .soa m n a b c d e → path = []) :
    atNode cfg origin r path rrs ≠ .ub := by
  obtain ⟨o, hro, hw, ho, hdo⟩ := RecOk_WF hr
  have hbody : ∀ t ttl, ResOk cfg origin r → SetOk cfg ⟨ttl, bodyOf cfg origin t r⟩ := fun t ttl h => bodyOf_ok hr h t ttl
  unfold atNode
  unfold ResOk at hbody
  unfold bodyOf at hbody
  cases hd : r.data with
  | a addr z =>
    rw [hd] at hbody
    exact insertRR_ne_ub hs (hbody 0 0 trivial) rfl (by simp) (by simp) (by simp) rfl rfl
  | aaaa addr z =>
    rw [hd] at hbody
    exact insertRR_ne_ub hs (hbody 0 0 trivial) rfl (by simp) (by simp) (by simp) rfl rfl
  | ptr rhs =>
    rw [hd] at hbody
    exact insertRR_ne_ub hs (hbody 0 0 trivial) rfl (by simp) (by simp) (by simp) rfl rfl
  | mx p rhs =>
    rw [hd] at hbody
    exact insertRR_ne_ub hs (hbody 0 0 trivial) rfl (by simp) (by simp) (by simp) rfl rfl
  | srv p w po rhs =>
    rw [hd] at hbody
    exact insertRR_ne_ub hs (hbody 0 0 trivial) rfl (by simp) (by simp) (by simp) rfl rfl
  | naptr p w po rhs =>
    rw [hd] at hbody
    exact insertRR_ne_ub hs (hbody 0 0 trivial) rfl (by simp) (by simp) (by simp) rfl rfl
  | txt text =>
    rw [hd] at hbody
    show addTxt cfg r.dname r.ttl text rrs ≠ _
    unfold addTxt
    rw [(isAcme_owner hro hw).1, Outcome.bind_ok]
    exact andThen_ne_ub (warn_ne_ub _ _) fun _ _ => insertRR_ne_ub hs (hbody 0 0 trivial) rfl (by simp) (by simp) (by simp) rfl rfl
  | ns rhs =>
    rw [hd] at hbody
    show addNs cfg path r.ttl rhs rrs ≠ _
    unfold addNs
    refine andThen_ne_ub (fatal_ne_ub _) fun _ _ => andThen_ne_ub ?_ fun _ _ => andThen_ne_ub (fatal_ne_ub _) fun _ _ => by intro h; cases h
    exact insertRR_ne_ub hs (hbody 0 0 trivial) rfl (by simp) (by simp) (by simp) rfl rfl
  | dyna rhs m =>
    show addDyna cfg r.ttl m rhs rrs ≠ _
    unfold addDyna
    refine andThen_ne_ub (fatal_ne_ub _) fun _ _ => andThen_ne_ub ?_ fun _ _ => andThen_ne_ub (fatal_ne_ub _) fun _ _ => ?_
    · exact andThen_ne_ub (warn_ne_ub _ _) fun _ _ => warn_ne_ub _ _
    · cases cfg.resource rhs none <;> (intro h; cases h)
  | dync rhs m =>
    show addDync cfg origin r.ttl m rhs rrs ≠ _
    unfold addDync
    refine andThen_ne_ub ?_ fun _ _ => andThen_ne_ub (fatal_ne_ub _) fun _ _ => andThen_ne_ub (fatal_ne_ub _) fun _ _ => ?_
    · exact andThen_ne_ub (warn_ne_ub _ _) fun _ _ => warn_ne_ub _ _
    · cases cfg.resource rhs (some origin) <;> (intro h; cases h)
  | cname rhs =>
    show addCname cfg r.ttl rhs rrs ≠ _
    unfold addCname
    exact andThen_ne_ub (fatal_ne_ub _) fun _ _ => by intro h; cases h
  | soa mn rn s rf rt ex nc =>
    rw [hp _ _ _ _ _ _ _ hd]
    show addSoa cfg r.ttl mn rn s rf rt ex nc rrs ≠ _
    unfold addSoa
    refine andThen_ne_ub ?_ fun _ _ => andThen_ne_ub (fatal_ne_ub _) fun _ _ => by intro h; cases h
    exact andThen_ne_ub (warn_ne_ub _ _) fun _ _ => warn_ne_ub _ _
  | raw t rd =>
    rw [hd] at hbody hdo
    show addRaw cfg r.ttl t rd rrs ≠ _
    unfold addRaw
    refine andThen_ne_ub (fatal_ne_ub _) fun _ h1 => ?_
    rw [Nat.mod_eq_of_lt hdo.1, Nat.mod_eq_of_lt hdo.2, List.take_length]
    exact insertRR_ne_ub hs (hbody 0 0 (fatal_some h1)) rfl (by simp) (by simp) (by simp) rfl rfl

/-! ### The whole zone -/

/-- Where a record goes. -/
def place (r : Add) : List Bytes := if isOoz r.data then [oozLabel, r.dname.drop 1] else (owner r).reverse

theorem pathOf_eq {zone : List Bytes} {r : Add} (hr : RecOk zone r) : pathOf r.dname (isOoz r.data) = .ok (place r) := by
  obtain ⟨o, hro, hw, ho, -⟩ := RecOk_WF hr
  unfold pathOf place
  cases isOoz r.data with
  | true => rfl
  | false =>
    have := lstack_encode o hw []
    rw [List.append_nil, ← hro] at this
    rw [this, ho]; rfl

theorem place_soa {zone : List Bytes} {r : Add} (hr : RecOk zone r) {m n : Bytes} {a b c d e : UInt32} (h : r.data = .soa m n a b c d e) :
    place r = [] := by
  obtain ⟨o, hro, hw, ho, hd⟩ := RecOk_WF hr
  rw [h] at hd
  unfold place
  rw [h, ho, hd.2.2]; rfl

/-- The zone after the records `l` were added. -/
structure ZInv (cfg : Cfg) (origin : Bytes) (l : List Add) (root : Node) : Prop where
  tidy : Tidy root
  present : ∀ p, (view root p).isSome = true ↔ p = [] ∨ ∃ r ∈ l, p <+: place r
  cut : ∀ p v, view root p = some v → (v.1 = true ↔ p = [] ∨ ∃ r ∈ l, place r = p ∧ ∃ d, r.data = .ns d)
  node : ∀ p v, view root p = some v → NodeInv cfg origin (l.filter fun r => decide (place r = p)) v.2
  wild : ∀ r ∈ l, ∀ d, r.data = .ns d → (place r).getLast? ≠ some Tree.wild
  res : ∀ r ∈ l, ResOk cfg origin r
  nums : ∀ r ∈ l, Numbers r.data

theorem ZInv_new (cfg : Cfg) (origin : Bytes) : ZInv cfg origin [] (.mk true [] []) := by
  have hv : ∀ p, view (.mk true [] []) p = if p = [] then some (true, []) else none := by
    intro p
    cases p <;> rfl
  refine ⟨by rw [Tidy_iff]; simp [Node.kids], ?_, ?_, ?_, by simp, by simp, by simp⟩
  · intro p; rw [hv]; by_cases h : p = [] <;> simp [h]
  · intro p v; rw [hv]; by_cases h : p = []
    · rw [if_pos h]; intro e; cases e; simp [h]
    · rw [if_neg h]; intro e; cases e
  · intro p v; rw [hv]; by_cases h : p = []
    · rw [if_pos h]; intro e; cases e; exact NodeInv_nil cfg origin
    · rw [if_neg h]; intro e; cases e

theorem ZInv.nodeD {cfg : Cfg} {origin : Bytes} {l : List Add} {root : Node} (h : ZInv cfg origin l root) (p : List Bytes) :
    NodeInv cfg origin (l.filter fun r => decide (place r = p)) ((view root p).getD (false, [])).2 := by
  cases hv : view root p with
  | some v => exact h.node p v hv
  | none =>
    have : l.filter (fun r => decide (place r = p)) = [] := by
      rw [List.filter_eq_nil_iff]
      intro r hr
      simp only [decide_eq_true_eq]
      rintro rfl
      have := (h.present (place r)).mpr (.inr ⟨r, hr, List.prefix_refl _⟩)
      rw [hv] at this; cases this
    rw [this]; exact NodeInv_nil cfg origin

theorem nodeOp_kids {cfg : Cfg} {origin : Bytes} {r : Add} {path : List Bytes} (m m' : Node)
    (h : nodeOp cfg origin r path m = .ok (some m')) : m'.kids = m.kids := by
  obtain ⟨rrs, -, h⟩ := andThen_some h
  cases h; rfl

/-- The parts of a successful addition. -/
theorem addRec_parts {cfg : Cfg} {zone : List Bytes} {z z' : Zone} {r : Add} (hr : RecOk zone r)
    (h : addRec cfg z r = .ok (some z')) :
    before cfg r.data = .ok (some ()) ∧ updAt (nodeOp cfg z.dname r (place r)) (place r) z.root = .ok (some z'.root) ∧
      z'.dname = z.dname := by
  unfold addRec at h
  obtain ⟨_, h1, h⟩ := andThen_some h
  rw [pathOf_eq hr, Outcome.bind_ok] at h
  obtain ⟨n, h2, h⟩ := andThen_some h
  obtain ⟨_, h3, h⟩ := andThen_some h
  cases h
  exact ⟨h1, h2, rfl⟩

theorem ZInv.step {cfg : Cfg} {zone : List Bytes} {l : List Add} {z z' : Zone} {r : Add}
    (h : ZInv cfg z.dname l z.root) (hr : RecOk zone r) (ha : addRec cfg z r = .ok (some z')) :
    ZInv cfg z.dname (l ++ [r]) z'.root := by
  obtain ⟨hbef, hu, -⟩ := addRec_parts hr ha
  obtain ⟨m, m', h1, h2, h3⟩ := updAt_view nodeOp_kids _ _ _ hu
  obtain ⟨rrs, hat, hm'⟩ := andThen_some h2
  cases hm'
  obtain ⟨had, hres, hwild⟩ := atNode_added hr hat
  have hinv := h.nodeD (place r)
  rw [h1] at hinv
  have hinv' := hinv.added hr hres had
  have hfil : ∀ p, (l ++ [r]).filter (fun r => decide (place r = p)) =
      l.filter (fun r => decide (place r = p)) ++ if p = place r then [r] else [] := by
    intro p
    rw [List.filter_append]
    congr 1
    by_cases e : p = place r
    · rw [if_pos e]; simp [e]
    · rw [if_neg e, List.filter_cons, if_neg]
      · rfl
      · simpa using fun e' => e e'.symm
  have hmark : ∀ d, marksCut d (place r) = true ↔ (∃ x, d = .ns x) ∧ place r ≠ [] := by
    intro d
    cases d <;> simp [marksCut]
  refine ⟨updAt_tidy nodeOp_kids _ _ _ h.tidy hu, ?_, ?_, ?_, ?_, ?_, ?_⟩
  · intro p
    rw [h3]
    have hex : (∃ x ∈ l ++ [r], p <+: place x) ↔ (∃ x ∈ l, p <+: place x) ∨ p <+: place r := by
      simp only [List.mem_append, List.mem_singleton, or_and_right, exists_or, exists_eq_left]
    by_cases e : p = place r
    · rw [if_pos e, hex]
      simp [e]
    · rw [if_neg e]
      by_cases e' : p <+: place r
      · rw [if_pos e', hex]; simp [e']
      · rw [if_neg e', h.present, hex]
        simp [e']
  · intro p v hv
    rw [h3] at hv
    have hex : (∃ x ∈ l ++ [r], place x = p ∧ ∃ d, x.data = .ns d) ↔
        (∃ x ∈ l, place x = p ∧ ∃ d, x.data = .ns d) ∨ (place r = p ∧ ∃ d, r.data = .ns d) := by
      simp only [List.mem_append, List.mem_singleton, or_and_right, exists_or, exists_eq_left]
    have hold : ∀ p, (((view z.root p).getD (false, [])).1 = true ↔ p = [] ∨ ∃ r ∈ l, place r = p ∧ ∃ d, r.data = .ns d) := by
      intro p
      cases hvp : view z.root p with
      | some v => exact h.cut p v hvp
      | none =>
        constructor
        · intro h; cases h
        · intro hc
          have : (view z.root p).isSome = true := by
            rw [h.present]
            rcases hc with hc | ⟨r, hr, rfl, -⟩
            · exact .inl hc
            · exact .inr ⟨r, hr, List.prefix_refl _⟩
          rw [hvp] at this; cases this
    by_cases e : p = place r
    · rw [if_pos e] at hv
      cases hv
      have ho := hold p
      rw [e, h1] at ho
      subst e
      show (m.zcut || marksCut r.data (place r)) = true ↔ _
      rw [Bool.or_eq_true, ho, hmark, hex]
      constructor
      · rintro ((a | b) | ⟨a, b⟩)
        · exact .inl a
        · exact .inr (.inl b)
        · exact .inr (.inr ⟨rfl, a⟩)
      · rintro (a | (a | ⟨-, a⟩))
        · exact .inl (.inl a)
        · exact .inl (.inr a)
        · by_cases e0 : place r = []
          · exact .inl (.inl e0)
          · exact .inr ⟨a, e0⟩
    · rw [if_neg e] at hv
      have hne : ¬ (place r = p ∧ ∃ d, r.data = .ns d) := fun a => e a.1.symm
      rw [hex]
      by_cases e' : p <+: place r
      · rw [if_pos e'] at hv
        cases hv
        rw [hold p]; simp [hne]
      · rw [if_neg e'] at hv
        rw [h.cut p v hv]; simp [hne]
  · intro p v hv
    rw [h3] at hv
    rw [hfil]
    by_cases e : p = place r
    · rw [if_pos e] at hv ⊢
      cases hv
      rw [e]; exact hinv'
    · rw [if_neg e] at hv ⊢
      rw [List.append_nil]
      by_cases e' : p <+: place r
      · rw [if_pos e'] at hv
        cases hv
        exact h.nodeD p
      · rw [if_neg e'] at hv
        exact h.node p v hv
  · intro x hx d hd
    rcases List.mem_append.mp hx with hx | hx
    · exact h.wild x hx d hd
    · rw [List.mem_singleton.mp hx] at hd ⊢
      exact hwild d hd
  · intro x hx
    rcases List.mem_append.mp hx with hx | hx
    · exact h.res x hx
    · rw [List.mem_singleton.mp hx]; exact hres
  · intro x hx
    rcases List.mem_append.mp hx with hx | hx
    · exact h.nums x hx
    · rw [List.mem_singleton.mp hx]; exact before_numbers hbef

theorem addAll_inv {cfg : Cfg} {zone : List Bytes} (l : List Add) : ∀ (pre : List Add) (z z' : Zone),
    (∀ r ∈ l, RecOk zone r) → ZInv cfg z.dname pre z.root → addAll cfg z l = .ok (some z') →
    ZInv cfg z.dname (pre ++ l) z'.root ∧ z'.dname = z.dname := by
  induction l with
  | nil => intro pre z z' _ h ha; cases ha; rw [List.append_nil]; exact ⟨h, rfl⟩
  | cons r l ih =>
    intro pre z z' hr h ha
    obtain ⟨z1, h1, h2⟩ := andThen_some ha
    have hr1 := hr r List.mem_cons_self
    obtain ⟨-, -, e⟩ := addRec_parts hr1 h1
    have := h.step hr1 h1
    rw [← e] at this
    obtain ⟨a, b⟩ := ih (pre ++ [r]) z1 z' (fun x hx => hr x (List.mem_cons_of_mem _ hx)) this h2
    rw [List.append_assoc, e] at a
    exact ⟨a, b.trans e⟩

theorem updAt_ne_ub {f : Node → Outcome (Option Node)} (path : List Bytes) : ∀ n : Node,
    (∀ m, (view n path).getD (false, []) = (m.zcut, m.rrs) → f m ≠ .ub) → updAt f path n ≠ .ub := by
  induction path with
  | nil => intro n h; exact h n rfl
  | cons l r ih =>
    intro n h
    refine andThen_ne_ub (ih _ ?_) fun _ _ => by intro h; cases h
    intro m hm
    refine h m ?_
    rw [← hm, view_cons]
    cases n.find l with
    | some c => rfl
    | none => cases r <;> rfl

theorem addRec_ne_ub {cfg : Cfg} {zone : List Bytes} {l : List Add} {z : Zone} {r : Add}
    (h : ZInv cfg z.dname l z.root) (hr : RecOk zone r) (hz : WF zone) (hd : z.dname = encode zone true) : addRec cfg z r ≠ .ub := by
  unfold addRec
  refine andThen_ne_ub ?_ fun _ _ => ?_
  · unfold before
    cases r.data <;> first | exact warn_ne_ub _ _ | exact fatal_ne_ub _ | (intro h; cases h)
  · rw [pathOf_eq hr, Outcome.bind_ok]
    refine andThen_ne_ub (updAt_ne_ub _ _ ?_) fun _ _ => andThen_ne_ub ?_ fun _ _ => by intro h; cases h
    · intro m hm
      have hinv := h.nodeD (place r)
      rw [hm] at hinv
      exact andThen_ne_ub (atNode_ne_ub hr hinv.ok (fun _ _ _ _ _ _ _ e => place_soa hr e)) fun _ _ => by intro h; cases h
    · obtain ⟨o, -, -, -, hdo⟩ := RecOk_WF hr
      unfold after
      cases hrd : r.data with
      | ptr rhs =>
        rw [hrd] at hdo
        obtain ⟨ls, hw, rfl⟩ := hdo
        have := Dname.isInZone_eq zone ls hz hw [] []
        rw [List.append_nil, List.append_nil, ← hd] at this
        show (Dname.isInZone z.dname (encode ls true)).bind _ ≠ _
        rw [this, Outcome.bind_ok]; exact warn_ne_ub _ _
      | _ => intro h; cases h

theorem addAll_ne_ub {cfg : Cfg} {zone : List Bytes} (hz : WF zone) (l : List Add) : ∀ (pre : List Add) (z : Zone),
    (∀ r ∈ l, RecOk zone r) → ZInv cfg z.dname pre z.root → z.dname = encode zone true → addAll cfg z l ≠ .ub := by
  induction l with
  | nil => intro pre z _ _ _ h; cases h
  | cons r l ih =>
    intro pre z hr h hd
    have hr1 := hr r List.mem_cons_self
    refine andThen_ne_ub (addRec_ne_ub h hr1 hz hd) fun z1 h1 => ?_
    obtain ⟨-, -, e⟩ := addRec_parts hr1 h1
    have := h.step hr1 h1
    rw [← e] at this
    exact ih (pre ++ [r]) z1 (fun x hx => hr x (List.mem_cons_of_mem _ hx)) this (e.trans hd)

end Gdnsd.Load
