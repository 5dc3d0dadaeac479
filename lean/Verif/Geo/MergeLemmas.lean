/-
Lists without nesting, as GeoIP databases give them, and merging with explicit networks.
-/
import Verif.Geo.ScopeLemmas
namespace Gdnsd.Geo

/-- Sorted, and no network contains another. -/
def Anti (l : List Pfx) : Prop := l.Pairwise fun a b => lexLt a.1 b.1 = true ∧ ¬ a.1 <+: b.1

theorem lexLt_not_prefix {a b : List Bool} (h : lexLt a b = true) : ¬ b <+: a := by
  intro hp
  by_cases he : b = a
  · rw [he, lexLt_irrefl] at h; cases h
  · rw [lexLt_asymm (lexLt_prefix hp he)] at h; cases h

theorem anti_mem {l : List Pfx} (h : Anti l) {a b : Pfx} (ha : a ∈ l) (hb : b ∈ l) (hp : a.1 <+: b.1) : a = b := by
  induction l with
  | nil => cases ha
  | cons c l ih =>
    obtain ⟨h1, h2⟩ := List.pairwise_cons.mp h
    rcases List.mem_cons.mp ha with rfl | ha' <;> rcases List.mem_cons.mp hb with rfl | hb'
    · rfl
    · exact absurd hp (h1 b hb').2
    · exact absurd hp (lexLt_not_prefix (h1 a ha').1)
    · exact ih h2 ha' hb'

theorem anti_strict {l : List Pfx} (h : Anti l) : Strict l := h.imp fun h => h.1

theorem strict_sorted {l : List Pfx} (h : Strict l) : Sorted l := h.imp fun h => lexLe_of_lt h

theorem strict_mem {l : List Pfx} (h : Strict l) {a b : Pfx} (ha : a ∈ l) (hb : b ∈ l) (hp : a.1 = b.1) : a = b := by
  induction l with
  | nil => cases ha
  | cons c l ih =>
    obtain ⟨h1, h2⟩ := List.pairwise_cons.mp h
    rcases List.mem_cons.mp ha with rfl | ha' <;> rcases List.mem_cons.mp hb with rfl | hb'
    · rfl
    · have := h1 b hb'; rw [hp, lexLt_irrefl] at this; cases this
    · have := h1 a ha'; rw [← hp, lexLt_irrefl] at this; cases this
    · exact ih h2 ha' hb'

theorem strict_conf {l : List Pfx} (h : Strict l) : Conf l := fun a ha b hb hab => by rw [strict_mem h ha hb hab]

theorem anti_inv {l : List Pfx} (h : Anti l) (hl : ∀ a ∈ l, a.1.length ≤ 128) : Inv l := by
  refine ⟨strict_sorted (anti_strict h), hl, strict_conf (anti_strict h), fun t ht => Or.inl ?_⟩
  refine ⟨t.1 ++ List.replicate (128 - t.1.length) false, by have := hl t ht; simp; omega, List.prefix_append _ _, ?_⟩
  intro q hq hqx
  refine Nat.le_of_not_lt fun hlt => ?_
  have htq : t.1 <+: q.1 := List.prefix_of_prefix_length_le (List.prefix_append _ _) hqx (by omega)
  rw [anti_mem h ht hq htq] at hlt
  exact Nat.lt_irrefl _ hlt

theorem stable_prefix {u v : List Pfx} (h : Stable (u ++ v)) : Stable u := fun u' a b v' he =>
  h u' a b (v' ++ v) (by rw [he]; simp)

theorem stable_one (a : Pfx) : Stable [a] := by
  intro u x y v he
  have := congrArg List.length he
  simp at this
  omega

theorem stable_snoc {u : List Pfx} {a b : Pfx} (h : Stable (u ++ [a])) (hn : ¬ (a.1 = b.1 ∨ Mrg a b)) : Stable (u ++ [a, b]) := by
  intro u' x y v he
  rcases List.eq_nil_or_concat v with rfl | ⟨v', c, rfl⟩
  · have h2 : (u ++ [a]) ++ [b] = (u' ++ [x]) ++ [y] := by simpa using he
    obtain ⟨h3, h4⟩ := List.append_inj' h2 rfl
    obtain ⟨h5, h6⟩ := List.append_inj' h3 rfl
    simp only [List.cons.injEq, and_true] at h4 h6
    rw [← h4, ← h6]
    exact hn
  · have h2 : (u ++ [a]) ++ [b] = (u' ++ x :: y :: v') ++ [c] := by simpa using he
    exact h u' x y v' (List.append_inj' h2 rfl).1

/-- Networks with a list number that a client may be given. -/
structure GList (l : List Net) : Prop where
  ok : ∀ n ∈ l, NetOk n ∧ n.dc < 2147483647
  anti : Anti (l.map toP)
  stable : Stable (l.map toP)

theorem netOk_len {l : List Net} (h : ∀ n ∈ l, NetOk n) : ∀ a ∈ l.map toP, a.1.length ≤ 128 := by
  intro a ha
  obtain ⟨n, hn, rfl⟩ := List.mem_map.mp ha
  rw [toP_length (h n hn)]
  exact (h n hn).mask

/-- The merge loop of `nlist_append`. -/
theorem mergeBack_ok (ra : List Net) : ∀ nb : Net, (∀ n ∈ nb :: ra, NetOk n ∧ n.dc < 2147483647) →
    Anti (ra.reverse.map toP ++ [toP nb]) → Stable (ra.reverse.map toP) →
    ∃ r, mergeBack nb ra = .ok r ∧ GList r.reverse ∧ Same (ra.reverse.map toP ++ [toP nb]) (r.reverse.map toP) := by
  induction ra with
  | nil =>
    intro nb hok ha _
    refine ⟨[nb], rfl, ⟨by simpa using hok, by simpa using ha, ?_⟩, by simpa using Same.refl _⟩
    simpa using stable_one (toP nb)
  | cons na rest ih =>
    intro nb hok ha hst
    have hnb := hok nb List.mem_cons_self
    have hna := hok na (List.mem_cons_of_mem _ List.mem_cons_self)
    rw [List.reverse_cons, List.map_append, List.map_cons, List.map_nil, List.append_assoc] at ha
    rw [List.reverse_cons, List.map_append, List.map_cons, List.map_nil] at hst ⊢
    have hab : lexLt (toP na).1 (toP nb).1 = true ∧ ¬ (toP na).1 <+: (toP nb).1 := by
      have := (List.pairwise_append.mp ha).2.1
      exact (List.pairwise_cons.mp this).1 _ List.mem_cons_self
    have hz : ¬ (na.mask = 0 ∧ nb.mask = 0) := by
      rintro ⟨h0, _⟩
      apply hab.2
      have : (toP na).1 = [] := by rw [← List.length_eq_zero_iff, toP_length hna.1, h0]
      rw [this]; exact List.nil_prefix
    rw [mergeBack, mergeable_eq hna.1 hnb.1 hz, Outcome.bind_ok]
    by_cases hm : Mrg (toP na) (toP nb)
    · rw [decide_eq_true hm, cond_true]
      obtain ⟨hd, hm⟩ := hm
      rcases hm with ⟨hl, hne, hdl⟩ | ⟨_, hp⟩
      · have hmask : na.mask = nb.mask := by rw [toP_length hna.1, toP_length hnb.1] at hl; exact hl
        rw [if_pos hmask]
        obtain ⟨s, hs1, hs2⟩ := halves (lexLe_of_lt hab.1) (fun he => hab.2 (by rw [he]; exact List.prefix_refl _)) hl hne hdl
        obtain ⟨g1, g2⟩ := shrink hna.1 hs1
        have hlt : ∀ q ∈ rest.reverse.map toP, lexLt q.1 (toP na).1 = true ∧ ¬ q.1 <+: (toP na).1 :=
          fun q hq => (List.pairwise_append.mp ha).2.2 q hq _ List.mem_cons_self
        have hlen : ∀ a ∈ rest.reverse.map toP ++ ([toP na] ++ [toP nb]), a.1.length ≤ 128 := by
          intro a hmem
          have : a ∈ ((nb :: na :: rest)).map toP := by
            simp only [List.mem_append, List.mem_map, List.mem_reverse, List.mem_cons, List.not_mem_nil, or_false] at hmem ⊢
            rcases hmem with ⟨n, hn, rfl⟩ | rfl | rfl
            · exact ⟨n, Or.inr (Or.inr hn), rfl⟩
            · exact ⟨na, by simp, rfl⟩
            · exact ⟨nb, by simp, rfl⟩
          exact netOk_len (fun n hn => (hok n hn).1) a this
        obtain ⟨k1, k2, k3⟩ := step_sib (u := rest.reverse.map toP) (v := []) (a := toP na) (b := toP nb) (s := s)
          (anti_inv ha hlen) (fun q hq => (hlt q hq).1) hs1 hs2 hd
        have hanti : Anti (rest.reverse.map toP ++ [(s, na.dc)]) := by
          refine List.pairwise_append.mpr ⟨(List.pairwise_append.mp ha).1, List.pairwise_singleton _ _, ?_⟩
          intro q hq x hx
          rw [List.mem_singleton.mp hx]
          refine ⟨k3 q hq, fun hp => (hlt q hq).2 ?_⟩
          rw [hs1]; exact hp.trans (List.prefix_append _ _)
        obtain ⟨r, h1, h2, h3⟩ := ih { na with mask := na.mask - 1 } (by
            intro n hn
            rcases List.mem_cons.mp hn with rfl | hn
            · exact ⟨g1, hna.2⟩
            · exact hok n (by simp [hn]))
          (by rw [g2]; exact hanti) (stable_prefix hst)
        refine ⟨r, h1, h2, ?_⟩
        rw [List.append_assoc]
        refine Same.trans ?_ h3
        rw [g2]
        exact k2
      · exact absurd hp hab.2
    · rw [decide_eq_false hm, cond_false]
      have hrev : ((nb :: na :: rest).reverse).map toP = rest.reverse.map toP ++ ([toP na] ++ [toP nb]) := by simp
      refine ⟨_, rfl, ⟨?_, by rw [hrev]; exact ha, ?_⟩, by rw [hrev, List.append_assoc]; exact Same.refl _⟩
      · intro n hn; exact hok n (List.mem_reverse.mp hn)
      · rw [hrev]
        refine stable_snoc hst ?_
        rintro (he | h)
        · exact hab.2 (by rw [he]; exact List.prefix_refl _)
        · exact hm h

/-- `nlist_append` on a list kept normalized. -/
theorem appendNorm_ok {l : List Net} (hl : GList l) {ip : Bytes} {p : List Bool} {dc : Nat} {d : Nat} (hip : ip.length = 16)
    (hb : bits ip = p ++ List.replicate d false) (hp : p.length + d = 128) (hdc : dc < 2147483647)
    (hlt : ∀ q ∈ l.map toP, lexLt q.1 p = true ∧ ¬ q.1 <+: p) :
    ∃ l', append true l ip (128 - d) dc = .ok l' ∧ GList l' ∧ Same (l.map toP ++ [(p, dc)]) (l'.map toP) := by
  have hm : 128 - d = p.length := by omega
  obtain ⟨c, h1, h2, h3⟩ := clearMaskBits_eq hip (show p.length ≤ 128 by omega)
  have htake : (bits ip).take p.length = p := by rw [hb, List.take_left' rfl]
  have hcip : c = ip := by
    apply bits_inj
    rw [h3, htake, hb]
    congr 2
    omega
  subst hcip
  have hn : NetOk ⟨c, p.length, dc⟩ := ⟨hip, by show p.length ≤ 128; omega, by
    show bits c = (bits c).take p.length ++ List.replicate (128 - p.length) false
    rw [htake, hb]; congr 2; omega⟩
  have htoP : toP ⟨c, p.length, dc⟩ = (p, dc) := by show ((bits c).take p.length, dc) = _; rw [htake]
  obtain ⟨r, g1, g2, g3⟩ := mergeBack_ok l.reverse ⟨c, p.length, dc⟩ (by
      intro n hn'
      rcases List.mem_cons.mp hn' with rfl | hn'
      · exact ⟨hn, hdc⟩
      · exact hl.ok n (List.mem_reverse.mp hn')) (by
      rw [List.reverse_reverse, htoP]
      refine List.pairwise_append.mpr ⟨hl.anti, List.pairwise_singleton _ _, ?_⟩
      intro q hq x hx
      rw [List.mem_singleton.mp hx]
      exact hlt q hq) (by rw [List.reverse_reverse]; exact hl.stable)
  rw [List.reverse_reverse, htoP] at g3
  refine ⟨r.reverse, ?_, g2, g3⟩
  rw [hm]
  simp [append, assertClear, h1, g1]

/-! ### Finishing a list that is normalized already -/

theorem absorb_stable {na : Net} {rest : List Net} (hok : ∀ n ∈ na :: rest, NetOk n) (h : Stable ((na :: rest).map toP))
    (hs : Strict ((na :: rest).map toP)) : absorb na rest = .ok (na, [], rest) := by
  cases rest with
  | nil => rfl
  | cons nb rest =>
    have hna := hok na (by simp)
    have hnb := hok nb (by simp)
    have hno := h [] (toP na) (toP nb) (rest.map toP) rfl
    have hlt := (List.pairwise_cons.mp hs).1 (toP nb) (by simp)
    have hz : ¬ (na.mask = 0 ∧ nb.mask = 0) := by
      rintro ⟨h0, h1⟩
      apply hno
      left
      have e1 : (toP na).1 = [] := by rw [← List.length_eq_zero_iff, toP_length hna, h0]
      have e2 : (toP nb).1 = [] := by rw [← List.length_eq_zero_iff, toP_length hnb, h1]
      rw [e1, e2]
    rw [absorb, netEq_eq hna hnb, if_neg (by simpa using fun he => hno (Or.inl he)), mergeable_eq hna hnb hz, Outcome.bind_ok,
      decide_eq_false (fun he => hno (Or.inr he)), cond_false]

theorem passLoop_stable : ∀ (k : Nat) (l : List Net), l.length ≤ k → (∀ n ∈ l, NetOk n) → Stable (l.map toP) → Strict (l.map toP) →
    passLoop k l = .ok (l, 0) := by
  intro k
  induction k with
  | zero => intro l hk _ _ _; obtain rfl := List.length_eq_zero_iff.mp (by omega : l.length = 0); rfl
  | succ k ih =>
    intro l hk hok hst hs
    cases l with
    | nil => rfl
    | cons na rest =>
      rw [passLoop, absorb_stable hok hst hs, Outcome.bind_ok,
        ih rest (by simpa using hk) (fun n hn => hok n (List.mem_cons_of_mem _ hn))
          (fun u a b v he => hst (toP na :: u) a b v (by rw [List.map_cons, he]; rfl)) (List.pairwise_cons.mp hs).2]
      rfl

theorem toP_map_inj {l l' : List Net} (h : ∀ n ∈ l, NetOk n) (h' : ∀ n ∈ l', NetOk n) (he : l.map toP = l'.map toP) : l = l' := by
  induction l generalizing l' with
  | nil => cases l' with
    | nil => rfl
    | cons => cases he
  | cons a l ih =>
    cases l' with
    | nil => cases he
    | cons b l' =>
      simp only [List.map_cons, List.cons.injEq] at he
      rw [NetOk.ext (h a List.mem_cons_self) (h' b List.mem_cons_self) he.1,
        ih (fun n hn => h n (List.mem_cons_of_mem _ hn)) (fun n hn => h' n (List.mem_cons_of_mem _ hn)) he.2]

theorem sort_sorted {sort : List Net → List Net} (hs : SortOk sort) {l : List Net} (hok : ∀ n ∈ l, NetOk n)
    (hst : Strict (l.map toP)) : sort l = l := by
  have hp := hs.perm l
  have hok' : ∀ n ∈ sort l, NetOk n := fun n hn => hok n (hp.mem_iff.mp hn)
  refine (toP_map_inj hok hok' ?_).symm
  exact sorted_unique (strict_conf hst) (strict_sorted hst) (map_sorted (hs.sorted l fun n hn => (hok n hn).len) hok')
    (hp.symm.map toP)

/-- The debugging check of `nlist_finish` passes. -/
theorem finish_norm {sort : List Net → List Net} (hs : SortOk sort) {l : List Net} (h : GList l) : finish sort true l = .ok l := by
  have hok : ∀ n ∈ l, NetOk n := fun n hn => (h.ok n hn).1
  have hst := anti_strict h.anti
  have hn : normalize sort false l = .ok l := by
    unfold normalize
    cases hl : l.isEmpty with
    | true => simp
    | false =>
      rw [if_neg (by simp), cond_false, sort_sorted hs hok hst]
      simp [normLoop, pass, hl, passLoop_stable l.length l (Nat.le_refl _) hok h.stable hst]
  simp [finish, hn]

/-! ### Walking a GeoIP2 database -/

theorem covered_of_answer {l l' : List Pfx} (hc : Conf l') {x : List Bool} (h : ∀ z e, Answer l' z x e ↔ Answer l z x e)
    (hx : ∃ q ∈ l', q.1 <+: x) : ∃ q ∈ l, q.1 <+: x := by
  obtain ⟨p, hp⟩ := longest_exists l' x hx
  refine Classical.byContradiction fun hn => ?_
  have h1 : Answer l (p.2 + 1) x (p.2 + 1) := Or.inr ⟨fun q hq hqx => hn ⟨q, hq, hqx⟩, rfl⟩
  have h2 := (h _ _).mpr h1
  have h3 : Answer l' (p.2 + 1) x p.2 := Or.inl ⟨p, hp, rfl⟩
  have := answer_unique hc h2 h3
  omega

/-- All addresses covered so far come before those under `p`. -/
def Before (l : List Pfx) (p : List Bool) : Prop :=
  ∀ q ∈ l, ∀ x y : List Bool, x.length = 128 → y.length = 128 → q.1 <+: x → p <+: y → lexLt x y = true

theorem before_lt {l : List Pfx} {p : List Bool} (hl : ∀ a ∈ l, a.1.length ≤ 128) (hp : p.length ≤ 128) (h : Before l p) :
    ∀ q ∈ l, lexLt q.1 p = true ∧ ¬ q.1 <+: p := by
  intro q hq
  let pad (w : List Bool) := w ++ List.replicate (128 - w.length) false
  have hpad : ∀ w : List Bool, w.length ≤ 128 → (pad w).length = 128 := by intro w hw; simp [pad]; omega
  have hpre : ∀ w : List Bool, w <+: pad w := fun w => List.prefix_append _ _
  have hno : ¬ q.1 <+: p := by
    intro hqp
    have := h q hq (pad p) (pad p) (hpad p hp) (hpad p hp) (hqp.trans (hpre p)) (hpre p)
    rw [lexLt_irrefl] at this; cases this
  refine ⟨?_, hno⟩
  cases hc : lexLt q.1 p with
  | true => rfl
  | false =>
    exfalso
    by_cases hpq : p <+: q.1
    · have := h q hq (pad q.1) (pad q.1) (hpad _ (hl q hq)) (hpad _ (hl q hq)) (hpre _) (hpq.trans (hpre _))
      rw [lexLt_irrefl] at this; cases this
    · have hlt : lexLt p q.1 = true := by
        cases h2 : lexLt p q.1 with
        | true => rfl
        | false => exact absurd (by rw [lexLt_total hc h2]; exact List.prefix_refl _) hno
      have h1 := lexLt_of_diverge hlt hpq (hpre p) (hpre q.1)
      have h2 := h q hq (pad q.1) (pad p) (hpad _ (hl q hq)) (hpad _ hp) (hpre _) (hpre _)
      rw [lexLt_asymm h1] at h2; cases h2

/-- What a walk below `p` achieves. -/
def Walked (db : Mmdb) (l : List Net) (p : List Bool) (rc : Rec) (o : Outcome (Option (List Net))) : Prop :=
  (o = .ok none ∧ ∃ x : List Bool, x.length = 128 ∧ p <+: x ∧ dbFollow db rc (x.drop p.length) = none) ∨
  ∃ l', o = .ok (some l') ∧ GList l' ∧
    (∀ x : List Bool, x.length = 128 → ¬ p <+: x → ∀ z e, Answer (l'.map toP) z x e ↔ Answer (l.map toP) z x e) ∧
    ∀ x : List Bool, x.length = 128 → p <+: x → (∀ a ∈ areas, ¬ a <+: x) →
      ∃ e, dbFollow db rc (x.drop p.length) = some e ∧ Answer (l'.map toP) 0 x e

theorem walk_fail {db : Mmdb} {l : List Net} {p : List Bool} {rc : Rec} (hp : p.length ≤ 128)
    (h : dbFollow db rc (List.replicate (128 - p.length) false) = none) : Walked db l p rc (.ok none) :=
  Or.inl ⟨rfl, p ++ List.replicate (128 - p.length) false, by simp; omega, List.prefix_append _ _, by
    rw [List.drop_left' rfl]; exact h⟩

theorem walk_leaf {db : Mmdb} {l : List Net} (hl : GList l) {ip : Bytes} {p : List Bool} {dc d : Nat} {rc : Rec} (hip : ip.length = 16)
    (hb : bits ip = p ++ List.replicate d false) (hp : p.length + d = 128) (hdc : dc < 2147483647) (hbf : Before (l.map toP) p)
    (hf : ∀ y, dbFollow db rc y = some dc) : Walked db l p rc ((append true l ip (128 - d) dc).map some) := by
  have hlen := netOk_len fun n hn => (hl.ok n hn).1
  obtain ⟨l', h1, h2, h3⟩ := appendNorm_ok hl hip hb hp hdc (before_lt hlen (by omega) hbf)
  refine Or.inr ⟨l', by rw [h1]; rfl, h2, ?_, ?_⟩
  · intro x hx hno z e
    rw [← h3 z x e hx]
    refine answer_congr fun q hqx => ⟨fun hq => ?_, fun hq => List.mem_append.mpr (Or.inl hq)⟩
    rcases List.mem_append.mp hq with hq | hq
    · exact hq
    · rw [List.mem_singleton.mp hq] at hqx; exact absurd hqx hno
  · intro x hx hpx _
    refine ⟨dc, hf _, (h3 0 x dc hx).mp (Or.inl ⟨(p, dc), ⟨by simp, hpx, ?_⟩, rfl⟩)⟩
    intro q hq hqx
    rcases List.mem_append.mp hq with hq | hq
    · have := hbf q hq x x hx hx hqx hpx
      rw [lexLt_irrefl] at this; cases this
    · rw [List.mem_singleton.mp hq]; exact Nat.le_refl _

theorem skipArea_area {ip : Bytes} {p : List Bool} {d : Nat} (hip : ip.length = 16) (hb : bits ip = p ++ List.replicate d false)
    (hp : p.length + d = 128) (h : skipArea ip d = true) : ∃ a ∈ areas, a <+: p := by
  have e1 : v4mapped.take 12 = [0,0,0,0,0,0,0,0,0,0,0xFF,0xFF] := rfl
  have e2 : siit.take 12 = [0,0,0,0,0,0,0,0,0xFF,0xFF,0,0] := rfl
  have e3 : wkp.take 12 = [0,0x64,0xFF,0x9B,0,0,0,0,0,0,0,0] := rfl
  have e4 : teredo.take 4 = [0x20,0x01,0,0] := rfl
  have e5 : sixto4.take 2 = [0x20,0x02] := rfl
  have hpip : p <+: bits ip := by rw [hb]; exact List.prefix_append _ _
  have fin : ∀ a : List Bool, a ∈ areas → a <+: bits ip → a.length ≤ p.length → ∃ a ∈ areas, a <+: p :=
    fun a ha hpx hl => ⟨a, ha, List.prefix_of_prefix_length_le hpx hpip hl⟩
  unfold skipArea at h
  rw [take_beq_bits (by decide) (by omega), take_beq_bits (by decide) (by omega), take_beq_bits (by decide) (by omega),
    take_beq_bits (by decide) (by omega), take_beq_bits (by decide) (by omega), e1, e2, e3, e4, e5] at h
  simp only [Bool.or_eq_true, Bool.and_eq_true, decide_eq_true_iff] at h
  rcases h with (⟨hd, (h | h) | h⟩ | ⟨hd, h⟩) | ⟨hd, h⟩
  · exact fin _ (by decide +kernel) h (by rw [bits_length]; show 96 ≤ _; omega)
  · exact fin _ (by decide +kernel) h (by rw [bits_length]; show 96 ≤ _; omega)
  · exact fin _ (by decide +kernel) h (by rw [bits_length]; show 96 ≤ _; omega)
  · exact fin _ (by decide +kernel) h (by rw [bits_length]; show 32 ≤ _; omega)
  · exact fin _ (by decide +kernel) h (by rw [bits_length]; show 16 ≤ _; omega)

theorem walk_ok {db : Mmdb} (hdb : ∀ off, db.dcOf off < 2147483647) (d : Nat) : ∀ (l : List Net) (ip : Bytes) (p : List Bool) (rc : Rec),
    GList l → ip.length = 16 → bits ip = p ++ List.replicate d false → p.length + d = 128 → Before (l.map toP) p →
    Walked db l p rc (walkRec db d l ip rc) := by
  induction d with
  | zero =>
    intro l ip p rc hl hip hb hp hbf
    cases rc with
    | node n => exact walk_fail (by omega) (by rw [show 128 - p.length = 0 by omega]; rw [List.replicate_zero, dbFollow])
    | bad => exact walk_fail (by omega) (by rw [dbFollow])
    | empty => exact walk_leaf hl hip hb hp (by omega) hbf fun y => by rw [dbFollow]
    | data off => exact walk_leaf hl hip hb hp (hdb off) hbf fun y => by rw [dbFollow]
  | succ d ih =>
    intro l ip p rc hl hip hb hp hbf
    cases rc with
    | bad => exact walk_fail (by omega) (by rw [dbFollow])
    | empty => exact walk_leaf hl hip hb hp (by omega) hbf fun y => by rw [dbFollow]
    | data off => exact walk_leaf hl hip hb hp (hdb off) hbf fun y => by rw [dbFollow]
    | node n =>
      show Walked db l p _ (walk db (d + 1) l ip n)
      rw [walk, decide_eq_true (by omega : d + 1 < 129), assert_true, Outcome.bind_ok]
      cases hsk : skipArea ip (d + 1) with
      | true =>
        rw [cond_true]
        obtain ⟨a, ha, hap⟩ := skipArea_area hip hb hp hsk
        exact Or.inr ⟨l, rfl, hl, fun _ _ _ _ _ => Iff.rfl, fun x _ hpx hno => absurd (hap.trans hpx) (hno a ha)⟩
      | false =>
        rw [cond_false]
        cases hrd : db.read n with
        | none =>
          exact walk_fail (by omega) (by rw [show 128 - p.length = d + 1 by omega, List.replicate_succ, dbFollow, hrd]; rfl)
        | some lr =>
          obtain ⟨left, right⟩ := lr
          show Walked db l p _ ((walkRec db d l ip left).bind _)
          have hb0 : bits ip = (p ++ [false]) ++ List.replicate d false := by
            rw [hb, List.replicate_succ, List.append_assoc]; rfl
          have hbf0 : Before (l.map toP) (p ++ [false]) := fun q hq x y hx hy hqx hpy =>
            hbf q hq x y hx hy hqx ((List.prefix_append _ _).trans hpy)
          have hfail : ∀ c : Bool, ∀ x : List Bool, x.length = 128 → p ++ [c] <+: x →
              dbFollow db (bif c then right else left) (x.drop (p ++ [c]).length) = none →
              ∃ x : List Bool, x.length = 128 ∧ p <+: x ∧ dbFollow db (.node n) (x.drop p.length) = none := by
            intro c x hx hcx hf
            refine ⟨x, hx, (List.prefix_append _ _).trans hcx, ?_⟩
            have hdrop : x.drop p.length = c :: x.drop (p.length + 1) := by
              obtain ⟨r, rfl⟩ := hcx
              simp
            rw [hdrop, dbFollow, hrd]
            simpa using hf
          rcases ih l ip (p ++ [false]) left hl hip hb0 (by simp; omega) hbf0 with ⟨h0, x, hx, hcx, hf⟩ | ⟨l1, h1, g1, k1, f1⟩
          · rw [h0]; exact Or.inl ⟨rfl, hfail false x hx hcx hf⟩
          · rw [h1, Outcome.bind_ok]
            obtain ⟨ip1, s1, s2, s3⟩ := setBit_eq hip (show 128 - d - 1 < 128 by omega)
            dsimp only
            rw [s1, Outcome.bind_ok]
            have hb1 : bits ip1 = (p ++ [true]) ++ List.replicate d false := by
              rw [s3, hb, show 128 - d - 1 = p.length by omega, List.set_append_right _ _ (Nat.le_refl _), Nat.sub_self,
                List.replicate_succ, List.set_cons_zero, List.append_assoc]
              rfl
            have hdis : ∀ {x : List Bool}, p ++ [false] <+: x → ¬ p ++ [true] <+: x := by
              intro x ha hb
              have := prefix_same ha hb (by simp)
              simp at this
            have hbf1 : Before (l1.map toP) (p ++ [true]) := by
              intro q hq x y hx hy hqx hpy
              by_cases h0 : p ++ [false] <+: x
              · exact lexLt_of_diverge (half_lt p) (by
                  intro hh; have := hh.eq_of_length (by simp); simp at this) h0 hpy
              · obtain ⟨q', hq', hqx'⟩ := covered_of_answer (strict_conf (anti_strict g1.anti)) (k1 x hx h0) ⟨q, hq, hqx⟩
                exact hbf q' hq' x y hx hy hqx' ((List.prefix_append _ _).trans hpy)
            rcases ih l1 ip1 (p ++ [true]) right g1 s2 hb1 (by simp; omega) hbf1 with ⟨h0, x, hx, hcx, hf⟩ | ⟨l2, h2, g2, k2, f2⟩
            · exact Or.inl ⟨h0, hfail true x hx hcx hf⟩
            · refine Or.inr ⟨l2, h2, g2, ?_, ?_⟩
              · intro x hx hno z e
                rw [k2 x hx (fun h => hno ((List.prefix_append _ _).trans h)) z e,
                  k1 x hx (fun h => hno ((List.prefix_append _ _).trans h)) z e]
              · intro x hx hpx hno
                obtain ⟨c, hc⟩ := next_bit hpx (by omega)
                have hdrop : x.drop p.length = c :: x.drop (p.length + 1) := by
                  obtain ⟨r, rfl⟩ := hc
                  simp
                cases c with
                | false =>
                  obtain ⟨e, he1, he2⟩ := f1 x hx hc hno
                  refine ⟨e, ?_, (k2 x hx (hdis hc) 0 e).mpr he2⟩
                  rw [hdrop, dbFollow, hrd]
                  simpa using he1
                | true =>
                  obtain ⟨e, he1, he2⟩ := f2 x hx hc hno
                  refine ⟨e, ?_, he2⟩
                  rw [hdrop, dbFollow, hrd]
                  simpa using he1

/-- The list made of a database. -/
theorem geoList_ok {sort : List Net → List Net} (hs : SortOk sort) {db : Mmdb} (hdb : ∀ off, db.dcOf off < 2147483647) (isV4 : Bool) :
    (geoList sort db isV4 = .ok none ∧ ∃ x : List Bool, x.length = 128 ∧ root isV4 <+: x ∧
      dbFollow db (.node 0) (x.drop (root isV4).length) = none) ∨ ∃ l, geoList sort db isV4 = .ok (some l) ∧ GList l ∧
      (∀ x : List Bool, x.length = 128 → ¬ root isV4 <+: x → Answer (l.map toP) 0 x 0) ∧
      ∀ x : List Bool, x.length = 128 → root isV4 <+: x → (∀ a ∈ areas, ¬ a <+: x) →
        ∃ e, dbFollow db (.node 0) (x.drop (root isV4).length) = some e ∧ Answer (l.map toP) 0 x e := by
  have hnil : GList [] := ⟨by simp, List.Pairwise.nil, stable_nil⟩
  have hb : bits (List.replicate 16 0) = root isV4 ++ List.replicate (bif isV4 then 32 else 128) false := by
    rw [bits_zeros, root, List.replicate_append_replicate]
    cases isV4 <;> rfl
  have h := walk_ok hdb (bif isV4 then 32 else 128) [] (List.replicate 16 0) (root isV4) (.node 0) hnil rfl hb
    (by cases isV4 <;> rfl) (by intro q hq; cases hq)
  have h' : Walked db [] (root isV4) (.node 0) (walk db (bif isV4 then 32 else 128) [] (List.replicate 16 0) 0) := h
  unfold geoList
  rcases h' with ⟨h0, hx⟩ | ⟨l, h1, g, k, f⟩
  · left; rw [h0]; exact ⟨rfl, hx⟩
  · right
    refine ⟨l, by rw [h1]; simp [finish_norm hs g], g, ?_, f⟩
    intro x hx hno
    exact (k x hx hno 0 0).mpr (answer_none (by simp))

/-! ### Merging -/

theorem append_self {m : List Net} {n : Net} (h : NetOk n) : append false m n.ip n.mask n.dc = .ok (m ++ [n]) := by
  obtain ⟨n', h1, h2, h3⟩ := append_ok (l := m) (dc := n.dc) h.len h.mask
  rw [h1, NetOk.ext h2 h (by rw [h3]; rfl)]

theorem skipSub_ok {nb : Net} (hb : NetOk nb) : ∀ {l : List Net}, (∀ n ∈ l, NetOk n) →
    skipSub nb l = .ok (l.dropWhile fun n => decide ((toP nb).1 <+: (toP n).1)) := by
  intro l
  induction l with
  | nil => intro _; rfl
  | cons a l ih =>
    intro h
    rw [skipSub, subnetOf_ok (h a List.mem_cons_self) hb, Outcome.bind_ok, List.dropWhile_cons]
    cases hd : decide ((toP nb).1 <+: (toP a).1) with
    | true => rw [cond_true, if_pos rfl]; exact ih fun n hn => h n (List.mem_cons_of_mem _ hn)
    | false => rw [cond_false, if_neg (by simp)]

theorem mem_takeWhile_imp {α : Type} {p : α → Bool} {l : List α} {x : α} (h : x ∈ l.takeWhile p) : p x = true := by
  induction l with
  | nil => cases h
  | cons a l ih =>
    rw [List.takeWhile_cons] at h
    split at h
    · rcases List.mem_cons.mp h with rfl | h
      · assumption
      · exact ih h
    · cases h

/-- Sorted strictly, on networks. -/
def SNet (l : List Net) : Prop := l.Pairwise fun a b => lexLt (toP a).1 (toP b).1 = true

/-- The loops of `nlist_merge`. -/
theorem mergeLoop_ok (k : Nat) : ∀ (m a b : List Net), a.length + b.length < k → (∀ n ∈ a, NetOk n) → (∀ n ∈ b, NetOk n) →
    SNet a → SNet b → ∃ r, mergeLoop k m a b = .ok (m ++ r) ∧ SNet r ∧ r.length ≤ a.length + b.length ∧
      ∀ n, n ∈ r ↔ n ∈ b ∨ (n ∈ a ∧ ∀ x ∈ b, ¬ (toP x).1 <+: (toP n).1) := by
  induction k with
  | zero => intro m a b h; omega
  | succ k ih =>
    intro m a b hk ha hb hsa hsb
    cases a with
    | nil =>
      cases b with
      | nil => exact ⟨[], by rw [mergeLoop, List.append_nil], List.Pairwise.nil, by simp, by simp⟩
      | cons nb bs =>
        rw [mergeLoop, append_self (hb nb List.mem_cons_self), Outcome.bind_ok]
        obtain ⟨r, h1, h2, hln, h3⟩ := ih (m ++ [nb]) [] bs (by simp at hk ⊢; omega) (by simp)
          (fun n hn => hb n (List.mem_cons_of_mem _ hn)) List.Pairwise.nil (List.pairwise_cons.mp hsb).2
        refine ⟨nb :: r, by rw [h1]; simp, ?_, by simp at *; omega, ?_⟩
        · refine List.pairwise_cons.mpr ⟨?_, h2⟩
          intro n hn
          rcases (h3 n).mp hn with h | ⟨h, _⟩
          · exact (List.pairwise_cons.mp hsb).1 n h
          · cases h
        · intro n; simp [h3]
    | cons na as =>
      have hna := ha na List.mem_cons_self
      have has : ∀ n ∈ as, NetOk n := fun n hn => ha n (List.mem_cons_of_mem _ hn)
      obtain ⟨hsa1, hsa2⟩ := List.pairwise_cons.mp hsa
      cases b with
      | nil =>
        rw [mergeLoop, append_self hna, Outcome.bind_ok]
        obtain ⟨r, h1, h2, hln, h3⟩ := ih (m ++ [na]) as [] (by simp at hk ⊢; omega) has (by simp) hsa2 List.Pairwise.nil
        refine ⟨na :: r, by rw [h1]; simp, ?_, by simp at *; omega, ?_⟩
        · refine List.pairwise_cons.mpr ⟨?_, h2⟩
          intro n hn
          rcases (h3 n).mp hn with h | ⟨h, _⟩
          · cases h
          · exact hsa1 n h
        · intro n; simp [h3]
      | cons nb bs =>
        have hnb := hb nb List.mem_cons_self
        have hbs : ∀ n ∈ bs, NetOk n := fun n hn => hb n (List.mem_cons_of_mem _ hn)
        obtain ⟨hsb1, hsb2⟩ := List.pairwise_cons.mp hsb
        rw [mergeLoop, netLt_eq hna hnb]
        cases hlt : lexLt (toP na).1 (toP nb).1 with
        | true =>
          rw [cond_true, append_self hna, Outcome.bind_ok]
          obtain ⟨r, h1, h2, hln, h3⟩ := ih (m ++ [na]) as (nb :: bs) (by simp at hk ⊢; omega) has hb hsa2 hsb
          have hle : ∀ x ∈ nb :: bs, lexLt (toP na).1 (toP x).1 = true := by
            intro x hx
            rcases List.mem_cons.mp hx with rfl | hx
            · exact hlt
            · exact lexLt_trans hlt (hsb1 x hx)
          refine ⟨na :: r, by rw [h1]; simp, ?_, by simp at *; omega, ?_⟩
          · refine List.pairwise_cons.mpr ⟨?_, h2⟩
            intro n hn
            rcases (h3 n).mp hn with h | ⟨h, _⟩
            · exact hle n h
            · exact hsa1 n h
          · intro n
            rw [List.mem_cons, h3, List.mem_cons (a := n) (b := na)]
            constructor
            · rintro (rfl | h | ⟨h1, h2⟩)
              · exact Or.inr ⟨Or.inl rfl, fun x hx => lexLt_not_prefix (hle x hx)⟩
              · exact Or.inl h
              · exact Or.inr ⟨Or.inr h1, h2⟩
            · rintro (h | ⟨rfl | h1, h2⟩)
              · exact Or.inr (Or.inl h)
              · exact Or.inl rfl
              · exact Or.inr (Or.inr ⟨h1, h2⟩)
        | false =>
          rw [cond_false, append_self hnb, Outcome.bind_ok, skipSub_ok hnb ha, Outcome.bind_ok]
          have hsub : ((na :: as).dropWhile fun n => decide ((toP nb).1 <+: (toP n).1)).Sublist (na :: as) := List.dropWhile_sublist _
          have hnot : ∀ n ∈ (na :: as).dropWhile (fun n => decide ((toP nb).1 <+: (toP n).1)), ¬ (toP nb).1 <+: (toP n).1 := by
            have hs' : SNet ((na :: as).dropWhile fun n => decide ((toP nb).1 <+: (toP n).1)) := hsa.sublist hsub
            cases hdw : (na :: as).dropWhile (fun n => decide ((toP nb).1 <+: (toP n).1)) with
            | nil => intro n hn; cases hn
            | cons h0 t0 =>
              have hhead : ¬ (toP nb).1 <+: (toP h0).1 := by
                have := List.head?_dropWhile_not (fun n => decide ((toP nb).1 <+: (toP n).1)) (na :: as)
                rw [hdw] at this
                simpa using this
              have hle0 : lexLe (toP nb).1 (toP h0).1 := by
                have hmem : h0 ∈ na :: as := hsub.subset (by rw [hdw]; exact List.mem_cons_self)
                rcases List.mem_cons.mp hmem with rfl | hmem
                · exact hlt
                · exact lexLe_trans hlt (lexLe_of_lt (hsa1 h0 hmem))
              intro n hn hp
              rcases List.mem_cons.mp hn with rfl | hn'
              · exact hhead hp
              · rw [hdw] at hs'
                exact hhead (prefix_between hp hle0 (lexLe_of_lt ((List.pairwise_cons.mp hs').1 n hn')))
          have hlen : ((na :: as).dropWhile fun n => decide ((toP nb).1 <+: (toP n).1)).length ≤ (na :: as).length := hsub.length_le
          have hkeep : ∀ n ∈ na :: as, ¬ (toP nb).1 <+: (toP n).1 → n ∈ (na :: as).dropWhile fun n => decide ((toP nb).1 <+: (toP n).1) := by
            intro n hn hp
            have := List.takeWhile_append_dropWhile (p := fun n => decide ((toP nb).1 <+: (toP n).1)) (l := na :: as)
            rw [← this] at hn
            rcases List.mem_append.mp hn with h | h
            · exact absurd (by simpa using mem_takeWhile_imp h) hp
            · exact h
          generalize (na :: as).dropWhile (fun n => decide ((toP nb).1 <+: (toP n).1)) = as' at *
          obtain ⟨r, h1, h2, hln, h3⟩ := ih (m ++ [nb]) as' bs (by simp at hk hlen ⊢; omega) (fun n hn => ha n (hsub.subset hn)) hbs
            (hsa.sublist hsub) hsb2
          refine ⟨nb :: r, by rw [h1]; simp, ?_, by simp at *; omega, ?_⟩
          · refine List.pairwise_cons.mpr ⟨?_, h2⟩
            intro n hn
            rcases (h3 n).mp hn with h | ⟨h, _⟩
            · exact hsb1 n h
            · have hle : lexLe (toP nb).1 (toP n).1 := by
                rcases List.mem_cons.mp (hsub.subset h) with rfl | hmem
                · exact hlt
                · exact lexLe_trans hlt (lexLe_of_lt (hsa1 n hmem))
              rcases lexLe_cases hle with he | hl
              · exact absurd (by rw [he]; exact List.prefix_refl _) (hnot n h)
              · exact hl
          · intro n
            rw [List.mem_cons, h3, List.mem_cons (a := n) (b := nb)]
            constructor
            · rintro (rfl | h | ⟨g1, g2⟩)
              · exact Or.inl (Or.inl rfl)
              · exact Or.inl (Or.inr h)
              · refine Or.inr ⟨hsub.subset g1, ?_⟩
                intro x hx
                rcases List.mem_cons.mp hx with rfl | hx
                · exact hnot n g1
                · exact g2 x hx
            · rintro ((rfl | h) | ⟨g1, g2⟩)
              · exact Or.inl rfl
              · exact Or.inr (Or.inl h)
              · exact Or.inr (Or.inr ⟨hkeep n g1 (g2 nb List.mem_cons_self), fun x hx => g2 x (List.mem_cons_of_mem _ hx)⟩)

/-- Neighbours in a sorted list that are both in a sorted sublist are neighbours there. -/
theorem adjacent_sub {l b : List Pfx} (hl : Strict l) (hb : Strict b) (hsub : ∀ x ∈ b, x ∈ l) {u v : List Pfx} {x y : Pfx}
    (he : l = u ++ x :: y :: v) (hx : x ∈ b) (hy : y ∈ b) : ∃ u' v', b = u' ++ x :: y :: v' := by
  obtain ⟨u', w, rfl⟩ := List.append_of_mem hx
  subst he
  obtain ⟨_, hl2, hl3⟩ := List.pairwise_append.mp hl
  obtain ⟨hl4, hl5⟩ := List.pairwise_cons.mp hl2
  obtain ⟨hl6, _⟩ := List.pairwise_cons.mp hl5
  obtain ⟨hb1, hb2, hb3⟩ := List.pairwise_append.mp hb
  obtain ⟨hb4, hb5⟩ := List.pairwise_cons.mp hb2
  have hxy := hl4 y List.mem_cons_self
  have hyw : y ∈ w := by
    rcases List.mem_append.mp hy with h | h
    · have := hb3 y h x List.mem_cons_self
      rw [lexLt_asymm hxy] at this; cases this
    · rcases List.mem_cons.mp h with rfl | h
      · rw [lexLt_irrefl] at hxy; cases hxy
      · exact h
  cases w with
  | nil => cases hyw
  | cons c w =>
    by_cases hcy : c = y
    · exact ⟨u', w, by rw [hcy]⟩
    · exfalso
      have hxc := hb4 c List.mem_cons_self
      have hcy' : lexLt c.1 y.1 = true := by
        rcases List.mem_cons.mp hyw with rfl | h
        · exact absurd rfl hcy
        · exact (List.pairwise_cons.mp hb5).1 y h
      have hcl := hsub c (by simp)
      rcases List.mem_append.mp hcl with h | h
      · have := hl3 c h x List.mem_cons_self
        rw [lexLt_asymm hxc] at this; cases this
      · rcases List.mem_cons.mp h with rfl | h
        · rw [lexLt_irrefl] at hxc; cases hxc
        · rcases List.mem_cons.mp h with rfl | h
          · exact hcy rfl
          · have := hl6 c h
            rw [lexLt_asymm hcy'] at this; cases this

/-- `nlist_merge` of a list without nesting and a normalized list. -/
theorem merge_ok {sort : List Net → List Net} (hs : SortOk sort) {a b : List Net} (ha : GList a) (hb : ListOk b) :
    ∃ l, merge sort a b = .ok l ∧ ListOk l ∧ l.length ≤ a.length + b.length ∧
      ∀ x : List Bool, x.length = 128 → ∀ z d,
        ((∃ q ∈ b.map toP, q.1 <+: x) → (Answer (l.map toP) z x d ↔ Answer (b.map toP) z x d)) ∧
        ((∀ q ∈ b.map toP, ¬ q.1 <+: x) → (Answer (l.map toP) z x d ↔ Answer (a.map toP) z x d)) := by
  have hoka : ∀ n ∈ a, NetOk n := fun n hn => (ha.ok n hn).1
  have hokb : ∀ n ∈ b, NetOk n := fun n hn => (hb.ok n hn).1
  have hsb : Strict (b.map toP) := hb.rest.strict
  obtain ⟨m, h1, h2, hmlen, h3⟩ := mergeLoop_ok (a.length + b.length + 1) [] a b (by omega) hoka hokb
    (List.pairwise_map.mp (anti_strict ha.anti)) (List.pairwise_map.mp hsb)
  rw [List.nil_append] at h1
  have hsm : Strict (m.map toP) := List.pairwise_map.mpr h2
  have hokm : ∀ n ∈ m, NetOk n := by
    intro n hn
    rcases (h3 n).mp hn with h | ⟨h, _⟩
    · exact hokb n h
    · exact hoka n h
  have hinv : Inv (m.map toP) := by
    refine ⟨strict_sorted hsm, netOk_len hokm, strict_conf hsm, fun t ht => Or.inr ?_⟩
    obtain ⟨tn, htn, rfl⟩ := List.mem_map.mp ht
    -- what is below an entry is explicit
    have hbelow : ∀ q ∈ m.map toP, Below (toP tn).1 q.1 → q ∈ b.map toP := by
      intro q hq hbel
      obtain ⟨n, hn, rfl⟩ := List.mem_map.mp hq
      rcases (h3 n).mp hn with h | ⟨h, hno⟩
      · exact List.mem_map_of_mem h
      · exfalso
        rcases (h3 tn).mp htn with ht | ⟨ht, _⟩
        · exact hno tn ht hbel.1
        · exact hbel.2 (by rw [anti_mem ha.anti (List.mem_map_of_mem ht) (List.mem_map_of_mem h) hbel.1])
    intro u x y v he hx hy
    have hxb := hbelow x (by rw [he]; simp) hx
    have hyb := hbelow y (by rw [he]; simp) hy
    obtain ⟨u', v', he'⟩ := adjacent_sub hsm hsb (by
      intro q hq
      obtain ⟨n, hn, rfl⟩ := List.mem_map.mp hq
      exact List.mem_map_of_mem ((h3 n).mpr (Or.inl hn))) he hxb hyb
    exact hb.stable u' x y v' he'
  obtain ⟨l, k1, k2, k3, k4, k5, k6⟩ := normalize_post hs hokm hinv
  have hdc : ∀ n ∈ l, DcOk n.dc := normalize_dc hs DcOk k1 (by
    intro n hn
    rcases (h3 n).mp hn with h | ⟨h, _⟩
    · exact (hb.ok n h).2
    · exact Or.inl (ha.ok n h).2)
  refine ⟨l, by rw [merge, h1, Outcome.bind_ok, k1], ⟨fun n hn => ⟨k2 n hn, hdc n hn⟩, k3, k5⟩, by omega, ?_⟩
  intro x hx z d
  refine ⟨fun hcov => ?_, fun hno => ?_⟩
  · rw [← k4 z x d hx]
    have hfwd : ∀ e, Answer (b.map toP) z x e → Answer (m.map toP) z x e := by
      rintro e (⟨p, ⟨hp1, hp2, hp3⟩, rfl⟩ | ⟨hno, _⟩)
      · obtain ⟨pn, hpn, rfl⟩ := List.mem_map.mp hp1
        refine Or.inl ⟨toP pn, ⟨List.mem_map_of_mem ((h3 pn).mpr (Or.inl hpn)), hp2, ?_⟩, rfl⟩
        intro q hq hqx
        obtain ⟨n, hn, rfl⟩ := List.mem_map.mp hq
        rcases (h3 n).mp hn with h | ⟨_, hno⟩
        · exact hp3 _ (List.mem_map_of_mem h) hqx
        · refine Nat.le_of_not_lt fun hlt => hno pn hpn ?_
          exact List.prefix_of_prefix_length_le hp2 hqx (by omega)
      · obtain ⟨q, hq, hqx⟩ := hcov
        exact absurd hqx (hno q hq)
    constructor
    · intro h
      obtain ⟨e, he⟩ := answer_exists (b.map toP) z x
      rw [answer_unique hinv.conf h (hfwd e he)]
      exact he
    · exact hfwd d
  · rw [← k4 z x d hx]
    refine answer_congr fun q hqx => ⟨fun hq => ?_, fun hq => ?_⟩
    · obtain ⟨n, hn, rfl⟩ := List.mem_map.mp hq
      rcases (h3 n).mp hn with h | ⟨h, _⟩
      · exact absurd hqx (hno _ (List.mem_map_of_mem h))
      · exact List.mem_map_of_mem h
    · obtain ⟨n, hn, rfl⟩ := List.mem_map.mp hq
      refine List.mem_map_of_mem ((h3 n).mpr (Or.inr ⟨hn, fun y hy hp => ?_⟩))
      exact hno (toP y) (List.mem_map_of_mem hy) (hp.trans hqx)

theorem same_cover {l l' : List Pfx} (hs : Same l l') (hc : Conf l') {x : List Bool} (hx : x.length = 128) :
    (∃ q ∈ l', q.1 <+: x) → ∃ q ∈ l, q.1 <+: x := covered_of_answer hc fun z e => (hs z x e hx).symm

/-- The tree of a database with explicit networks. -/
theorem merged_tree {sort : List Net → List Net} (hs : SortOk sort) {db : Mmdb} (hdb : ∀ off, db.dcOf off < 2147483647) {isV4 : Bool}
    {es : List Entry} (hwf : ∀ e ∈ es, e.Wf) (hleg : ∀ e ∈ es, e.Legal) (hc : Consistent es) (hh : NoneHidden es) {a b : List Net}
    (ha : geoList sort db isV4 = .ok (some a)) (hb : netsMakeList sort es = .ok (some b)) :
    Res (merge2tree sort a b) (fun t => ∃ T, TreeFor t T ∧ Complete T ∧ ∀ c : Addr, c.Wf → ∃ d j, look T (target c) = some (d, j) ∧
        ((∃ e ∈ es, e.pfx.1 <+: target c) → Answer (es.map Entry.pfx) 0 (target c) d) ∧
        ((∀ e ∈ es, ¬ e.pfx.1 <+: target c) → GeoAnswer db isV4 (target c) d))
      (16777216 < 1 + 127 * (a.length + b.length)) := by
  obtain ⟨b', h1, h2, h3, _⟩ := netsMakeList_ok hs hwf hleg hc hh
  rw [hb] at h1
  obtain rfl := Option.some.inj (Outcome.ok.inj h1)
  rcases geoList_ok hs hdb isV4 with ⟨g0, _⟩ | ⟨a', g1, g2, g3, g4⟩
  · rw [ha] at g0; cases g0
  rw [ha] at g1
  obtain rfl := Option.some.inj (Outcome.ok.inj g1)
  obtain ⟨l, k1, k2, k3, k4⟩ := merge_ok hs g2 h2
  have hP : ∀ q ∈ es.map Entry.pfx, ∀ a ∈ areas, ¬ a <+: q.1 := by
    intro q hq a ha
    obtain ⟨e, he, rfl⟩ := List.mem_map.mp hq
    exact legal_area (hleg e he) a ha
  have hsm : ∀ q ∈ es.map Entry.pfx, q.2 < 2147483647 := by
    intro q hq
    obtain ⟨e, he, rfl⟩ := List.mem_map.mp hq
    have := hwf e he
    cases e with
    | v6 ip m d => exact this.2
    | v4 ip m d => exact this.2
  have hsma : ∀ q ∈ a.map toP, q.2 < 2147483647 := by
    intro q hq
    obtain ⟨n, hn, rfl⟩ := List.mem_map.mp hq
    exact (g2.ok n hn).2
  have hconf2 : Conf (es.map Entry.pfx ++ areaNets) := by
    intro p hp q hq hpq
    rcases List.mem_append.mp hp with hp | hp <;> rcases List.mem_append.mp hq with hq | hq
    · obtain ⟨e, he, rfl⟩ := List.mem_map.mp hp
      obtain ⟨f, hf, rfl⟩ := List.mem_map.mp hq
      exact hc e he f hf hpq
    · obtain ⟨f, hf, rfl⟩ := List.mem_map.mp hq
      exact absurd (show f <+: p.1 by rw [hpq]; exact List.prefix_refl _) (hP p hp f hf)
    · obtain ⟨f, hf, rfl⟩ := List.mem_map.mp hp
      exact absurd (show f <+: q.1 by rw [← hpq]; exact List.prefix_refl _) (hP q hq f hf)
    · exact areaNets_same hp hq hpq
  -- which addresses the explicit list covers
  have hcov : ∀ x : List Bool, x.length = 128 → ((∃ q ∈ b.map toP, q.1 <+: x) ↔ ∃ q ∈ es.map Entry.pfx ++ areaNets, q.1 <+: x) :=
    fun x hx => ⟨same_cover h3 h2.inv.conf hx, covered_of_answer hconf2 fun z e => h3 z x e hx⟩
  have hout : ∀ x : List Bool, x.length = 128 → (∀ a ∈ areas, ¬ a <+: x) → ∀ d, Answer (l.map toP) 0 x d →
      ((∃ e ∈ es, e.pfx.1 <+: x) → Answer (es.map Entry.pfx) 0 x d) ∧
      ((∀ e ∈ es, ¬ e.pfx.1 <+: x) → Answer (a.map toP) 0 x d) := by
    intro x hx hno d hd
    refine ⟨fun ⟨e, he, hex⟩ => ?_, fun hne => ?_⟩
    · have hb' : Answer (b.map toP) 0 x d :=
        ((k4 x hx 0 d).1 ((hcov x hx).mpr ⟨e.pfx, List.mem_append.mpr (Or.inl (List.mem_map_of_mem he)), hex⟩)).mp hd
      exact ((areas_answer hP).2 hno 0 d).mp ((h3 0 x d hx).mpr hb')
    · refine ((k4 x hx 0 d).2 ?_).mp hd
      intro q hq hqx
      obtain ⟨q', hq', hqx'⟩ := (hcov x hx).mp ⟨q, hq, hqx⟩
      rcases List.mem_append.mp hq' with h | h
      · obtain ⟨e, he, rfl⟩ := List.mem_map.mp h
        exact hne e he hqx'
      · obtain ⟨y, hy, rfl⟩ := List.mem_map.mp h
        exact hno y hy hqx'
  rw [merge2tree, k1, Outcome.bind_ok]
  have hx := xlate_ok k2.rest
  cases hr : xlate l with
  | ub =>
    rw [hr] at hx
    have hx : 16777216 < 1 + 127 * l.length := hx
    show 16777216 < _
    omega
  | ok t =>
    rw [hr] at hx
    obtain ⟨T, hT, hA⟩ := hx
    refine ⟨T, hT, complete_of hA k2.inv.conf ?_ ?_, ?_⟩
    · intro x hx y hy hyx
      refine ((k4 x hx 0 UNDEF).1 ((hcov x hx).mpr ⟨(y, UNDEF), List.mem_append.mpr (Or.inr (List.mem_map.mpr ⟨y, hy, rfl⟩)), hyx⟩)).mpr ?_
      exact (h3 0 x UNDEF hx).mp ((areas_answer hP).1 y hy hyx)
    · intro x hx hno d hd
      by_cases he : ∃ e ∈ es, e.pfx.1 <+: x
      · exact answer_small hsm ((hout x hx hno d hd).1 he)
      · exact answer_small hsma ((hout x hx hno d hd).2 fun e h1 h2 => he ⟨e, h1, h2⟩)
    · intro c hcw
      obtain ⟨d, j, q1, q2⟩ := hA (target c) (target_length hcw)
      rw [List.nil_append] at q2
      obtain ⟨r1, r2⟩ := hout _ (target_length hcw) (target_not_area hcw) d q2
      refine ⟨d, j, q1, r1, fun hne => ?_⟩
      have hda := r2 hne
      have hca := strict_conf (anti_strict g2.anti)
      unfold GeoAnswer
      by_cases hroot : root isV4 <+: target c
      · rw [if_pos hroot]
        obtain ⟨e, e1, e2⟩ := g4 _ (target_length hcw) hroot (target_not_area hcw)
        rw [answer_unique hca hda e2]; exact e1
      · rw [if_neg hroot]
        exact answer_unique hca hda (g3 _ (target_length hcw) hroot)

end Gdnsd.Geo
