/-
Building the lookup tree from a normalized list.
-/
import Verif.Geo.NlistLemmas
namespace Gdnsd.Geo

/-! ### Values stored in the tree -/

/-- A list index that can be stored. -/
def DcOk (d : Nat) : Prop := d < 2147483647 ∨ d = UNDEF

theorem setDc_lt {d : Nat} (h : d < 2147483647) : setDc d = 2147483648 + d := by
  have := Nat.two_pow_add_eq_or_of_lt (i := 31) (b := d) (by omega) 1
  rw [Nat.mul_one] at this
  rw [setDc, HI, Nat.or_comm]
  exact this.symm

theorem setDc_undef : setDc UNDEF = UNDEF := by decide

theorem setDc_ge {d : Nat} (h : DcOk d) : 2147483648 ≤ setDc d := by
  rcases h with h | rfl
  · rw [setDc_lt h]; omega
  · rw [setDc_undef]; decide

theorem setDc_inj {d e : Nat} (h1 : DcOk d) (h2 : DcOk e) (h : setDc d = setDc e) : d = e := by
  rcases h1 with h1 | rfl <;> rcases h2 with h2 | rfl
  · rw [setDc_lt h1, setDc_lt h2] at h; omega
  · rw [setDc_lt h1, setDc_undef, UNDEF] at h; omega
  · rw [setDc_lt h2, setDc_undef, UNDEF] at h; omega
  · rfl

theorem isDc_setDc {d : Nat} (h : DcOk d) : isDc (setDc d) = true := by
  rcases h with h | rfl
  · have hb : (setDc d).testBit 31 = true := by rw [setDc, Nat.testBit_or, (by decide : HI.testBit 31 = true), Bool.or_true]
    rw [isDc]
    apply bne_iff_ne.mpr
    intro h0
    have := congrArg (fun n => n.testBit 31) h0
    simp only [Nat.testBit_and, hb, (by decide : HI.testBit 31 = true), Nat.zero_testBit] at this
    exact absurd this (by decide)
  · decide

theorem getDc_setDc {d : Nat} (h : d < 2147483647) : getDc (setDc d) = d := by
  have : (2147483647 : Nat) = 2 ^ 31 - 1 := by decide
  rw [getDc, this, Nat.and_two_pow_sub_one_eq_mod, setDc_lt h]
  omega

theorem setDc_ne_undef {d : Nat} (h : d < 2147483647) : setDc d ≠ UNDEF := by
  rw [setDc_lt h, UNDEF]; omega

theorem isDc_small {v : Nat} (h : v < 16777216) : isDc v = false := by
  rw [isDc, bne_eq_false_iff_eq]
  apply Nat.eq_of_testBit_eq
  intro i
  rw [Nat.testBit_and, Nat.zero_testBit]
  by_cases hi : i = 31
  · subst hi
    rw [Nat.testBit_lt_two_pow (by omega)]; rfl
  · have : HI.testBit i = false := by
      have h2 : HI = 2 ^ 31 := by decide
      rw [h2, Nat.testBit_two_pow_of_ne (by omega)]
    rw [this, Bool.and_false]

/-! ### Tries -/

/-- A binary trie with lists at the leaves. -/
inductive Trie where
  | leaf (d : Nat)
  | node (z o : Trie)

/-- Follow the bits: the list found and how many bits were used. -/
def look : Trie → List Bool → Option (Nat × Nat)
  | .leaf d, _ => some (d, 0)
  | .node _ _, [] => none
  | .node z o, b :: y => (look (bif b then o else z) y).map fun r => (r.1, r.2 + 1)

theorem look_leaf (d : Nat) (y : List Bool) : look (.leaf d) y = some (d, 0) := by
  cases y <;> rfl

/-- The value `v` stands for this trie in the store. -/
def Rep (s : List Node) (v : Nat) : Trie → Prop
  | .leaf d => v = setDc d ∧ DcOk d
  | .node z o => v < 16777216 ∧ ∃ n, s[v]? = some n ∧ v < n.zero ∧ v < n.one ∧ Rep s n.zero z ∧ Rep s n.one o

theorem Rep.congr {s s' : List Node} {t : Trie} : ∀ {v : Nat}, Rep s v t → (∀ i n, v ≤ i → s[i]? = some n → s'[i]? = some n) → Rep s' v t := by
  induction t with
  | leaf d => intro v h _; exact h
  | node z o ihz iho =>
    intro v ⟨hv, n, hn, h1, h2, hz, ho⟩ h
    exact ⟨hv, n, h v n (Nat.le_refl _) hn, h1, h2,
      ihz hz fun i m hi => h i m (by omega), iho ho fun i m hi => h i m (by omega)⟩

/-- Outcome of a computation that may run out of nodes. -/
def Res {α : Type} (o : Outcome α) (P : α → Prop) (Q : Prop) : Prop :=
  match o with
  | .ok a => P a
  | .ub => Q

theorem Res.bind {α β : Type} {o : Outcome α} {f : α → Outcome β} {P : α → Prop} {P' : β → Prop} {Q Q' : Prop}
    (h : Res o P Q) (hf : ∀ a, o = .ok a → P a → Res (f a) P' Q') (hq : Q → Q') : Res (o.bind f) P' Q' := by
  cases o with
  | ok a => exact hf a rfl h
  | ub => exact hq h

/-- How many entries lie in a network. -/
def cnt (p : List Bool) (l : List Net) : Nat := l.countP fun n => decide (p <+: (toP n).1)

/-- What building one branch adds to the store. -/
def Child (s s1 : List Node) (v : Nat) (t : Trie) : Prop :=
  (s1 = s ∧ ∃ d, t = .leaf d ∧ v = setDc d ∧ DcOk d) ∨
  (∃ new z o, new ≠ [] ∧ s1 = s ++ new ∧ v = s.length ∧ t = .node z o ∧ Rep s1 v t ∧
    ∀ i n, s.length ≤ i → s1[i]? = some n → n.zero ≠ n.one ∨ s1.length = 1)

theorem Child.rep {s s1 : List Node} {v : Nat} {t : Trie} (h : Child s s1 v t) : Rep s1 v t := by
  rcases h with ⟨_, d, rfl, rfl, hd⟩ | ⟨_, _, _, _, _, _, rfl, hr, _⟩
  · exact ⟨rfl, hd⟩
  · exact hr

/-- The list part of the result: the entries of the network were used up. -/
def Used (p : List Bool) (rest rest' : List Net) : Prop :=
  ∃ w, rest = w ++ rest' ∧ (∀ n ∈ w, p <+: (toP n).1) ∧ ∀ n ∈ rest', ¬ p <+: (toP n).1

/-- The trie answers by longest match below `p`. -/
def Answers (p : List Bool) (d : Nat) (rest : List Net) (t : Trie) (k : Nat) : Prop :=
  ∀ y, y.length = k → ∃ d' j, look t y = some (d', j) ∧ Answer (rest.map toP) d (p ++ y) d'

/-- What the list must look like. -/
structure RestOk (rest : List Net) : Prop where
  ok : ∀ n ∈ rest, NetOk n ∧ DcOk n.dc
  strict : Strict (rest.map toP)

def PRec (k : Nat) : Prop := ∀ (s : List Node) (rest : List Net) (t : Net) (p : List Bool) (d : Nat),
  NetOk t → toP t = (p, d) → p.length + k = 127 → RestOk rest → (∀ n ∈ rest, lexLt p (toP n).1 = true) → DcOk d →
  Res (rec k ⟨rest, s⟩ t)
    (fun r => r.1.store.length ≤ s.length + 1 + k * cnt p rest ∧ Used p rest r.1.rest ∧
      ∃ T, Child s r.1.store r.2 T ∧ Answers p d rest T (k + 1) ∧ (s = [] → ∃ z o, T = .node z o))
    (16777216 < s.length + 1 + k * cnt p rest)

def PDir (k : Nat) : Prop := ∀ (s : List Node) (rest : List Net) (t : Net) (p : List Bool) (d idx : Nat) (dir : Bool),
  NetOk t → toP t = (p, d) → p.length + k = 128 → p ≠ [] → RestOk rest → (∀ n ∈ rest, lexLe p (toP n).1) → DcOk d →
  idx < s.length →
  Res (recDir k ⟨rest, s⟩ t idx dir)
    (fun b => ∃ s1 v T, b.store = setChild s1 idx dir v ∧ s1.length ≤ s.length + k * cnt p rest ∧ Used p rest b.rest ∧
      Child s s1 v T ∧ Answers p d rest T k)
    (16777216 < s.length + k * cnt p rest)

theorem RestOk.tail {n : Net} {r : List Net} (h : RestOk (n :: r)) : RestOk r :=
  ⟨fun m hm => h.ok m (List.mem_cons_of_mem _ hm), (List.pairwise_cons.mp h.strict).2⟩

theorem RestOk.suffix {w r : List Net} (h : RestOk (w ++ r)) : RestOk r := by
  refine ⟨fun m hm => h.ok m (List.mem_append_right _ hm), ?_⟩
  have := h.strict
  rw [List.map_append] at this
  exact (List.pairwise_append.mp this).2.1

theorem RestOk.lt {n m : Net} {r : List Net} (h : RestOk (n :: r)) (hm : m ∈ r) : lexLt (toP n).1 (toP m).1 = true :=
  (List.pairwise_cons.mp h.strict).1 (toP m) (List.mem_map_of_mem hm)

/-- Only networks containing the address matter. -/
theorem answer_congr {l l' : List Pfx} {x : List Bool} (h : ∀ q : Pfx, q.1 <+: x → (q ∈ l ↔ q ∈ l')) {z d : Nat} :
    Answer l z x d ↔ Answer l' z x d := by
  have h1 : ∀ l l' : List Pfx, (∀ q : Pfx, q.1 <+: x → (q ∈ l ↔ q ∈ l')) → Answer l z x d → Answer l' z x d := by
    intro l l' h ha
    rcases ha with ⟨p, ⟨hp, hpx, hm⟩, hd⟩ | ⟨hn, hd⟩
    · exact Or.inl ⟨p, ⟨(h p hpx).mp hp, hpx, fun q hq hqx => hm q ((h q hqx).mpr hq) hqx⟩, hd⟩
    · exact Or.inr ⟨fun q hq hqx => hn q ((h q hqx).mpr hq) hqx, hd⟩
  exact ⟨h1 l l' h, h1 l' l fun q hq => (h q hq).symm⟩

theorem answer_none {l : List Pfx} {x : List Bool} {z : Nat} (h : ∀ q ∈ l, ¬ q.1 <+: x) : Answer l z x z := Or.inr ⟨h, rfl⟩

/-- An entry that equals the branch's network is the default below it. -/
theorem answer_cons {a : Pfx} {l : List Pfx} {x : List Bool} {z d : Nat} (hax : a.1 <+: x)
    (hl : ∀ q ∈ l, q.1 <+: x → a.1.length ≤ q.1.length) (h : Answer l a.2 x d) : Answer (a :: l) z x d := by
  left
  rcases h with ⟨p, ⟨hp, hpx, hm⟩, hd⟩ | ⟨hn, hd⟩
  · refine ⟨p, ⟨List.mem_cons_of_mem _ hp, hpx, fun q hq hqx => ?_⟩, hd⟩
    rcases List.mem_cons.mp hq with rfl | hq
    · exact hl p hp hpx
    · exact hm q hq hqx
  · refine ⟨a, ⟨List.mem_cons_self, hax, fun q hq hqx => ?_⟩, hd⟩
    rcases List.mem_cons.mp hq with rfl | hq
    · exact Nat.le_refl _
    · exact absurd hqx (hn q hq)

/-- No entry of the rest lies in the network if the first one does not. -/
theorem none_below {p : List Bool} {n : Net} {r : List Net} (h : RestOk (n :: r)) (hp : lexLe p (toP n).1)
    (hn : ¬ p <+: (toP n).1) : ∀ m ∈ n :: r, ¬ p <+: (toP m).1 := by
  intro m hm hpm
  rcases List.mem_cons.mp hm with rfl | hm
  · exact hn hpm
  · exact hn (prefix_between hpm hp (lexLe_of_lt (h.lt hm)))

/-- Entries after the network's start that contain an address of it lie in it. -/
theorem inside {p q x : List Bool} (hle : lexLe p q) (hpx : p <+: x) (hqx : q <+: x) : p <+: q := by
  rcases Nat.le_total p.length q.length with h | h
  · exact List.prefix_of_prefix_length_le hpx hqx h
  · have hqp := List.prefix_of_prefix_length_le hqx hpx h
    have := lexLe_antisymm hle (lexLe_prefix hqp)
    rw [this]; exact List.prefix_refl _

theorem setChild_length (s : List Node) (i : Nat) (dir : Bool) (v : Nat) : (setChild s i dir v).length = s.length := by
  simp [setChild]

theorem cnt_none {p : List Bool} {l : List Net} (h : ∀ n ∈ l, ¬ p <+: (toP n).1) : cnt p l = 0 := by
  simp only [cnt, List.countP_eq_zero, decide_eq_true_iff]
  exact h

theorem recDir_unfold (k : Nat) (b : Build) (t : Net) (idx : Nat) (dir : Bool) : recDir k b t idx dir =
    (assert (decide (t.mask < 129 ∧ 0 < t.mask))).bind fun _ =>
      match b.rest with
      | [] => .ok ⟨[], setChild b.store idx dir (setDc t.dc)⟩
      | nl :: r =>
        (subnetOf nl t).bind fun s =>
          bif s then
            if t.mask = nl.mask then
              match r with
              | [] => .ok ⟨r, setChild b.store idx dir (setDc nl.dc)⟩
              | nx :: _ =>
                (subnetOf nx nl).bind fun s' =>
                  bif s' then
                    (match k with
                      | 0 => .ub
                      | k' + 1 => (rec k' ⟨r, b.store⟩ { t with dc := nl.dc }).bind fun x =>
                          .ok ⟨x.1.rest, setChild x.1.store idx dir x.2⟩)
                  else .ok ⟨r, setChild b.store idx dir (setDc nl.dc)⟩
            else
              (match k with
                | 0 => .ub
                | k' + 1 => (rec k' ⟨nl :: r, b.store⟩ t).bind fun x =>
                    .ok ⟨x.1.rest, setChild x.1.store idx dir x.2⟩)
          else .ok ⟨nl :: r, setChild b.store idx dir (setDc t.dc)⟩ := by
  obtain ⟨rest, st⟩ := b
  cases k <;> cases rest with
  | nil => rfl
  | cons nl r =>
    cases r with
    | nil => rfl
    | cons => rfl

theorem pdir_of_prec (k : Nat) (ih : ∀ k', k = k' + 1 → PRec k') : PDir k := by
  intro s rest t p d idx dir ht htp hk hp0 hrest hle hd hidx
  have hmask : t.mask = p.length := by rw [← toP_length ht, htp]
  have hpl : 0 < p.length := List.length_pos_iff.mpr hp0
  have hdc : t.dc = d := by have := congrArg Prod.snd htp; exact this
  have hpt : (toP t).1 = p := by rw [htp]
  rw [recDir_unfold]
  have hass : (decide (t.mask < 129 ∧ 0 < t.mask)) = true := by simp; omega
  rw [hass, assert_true, Outcome.bind_ok]
  -- leaf results
  have leaf : ∀ (r : List Net) (e : Nat) (w : List Net), rest = w ++ r → (∀ n ∈ w, p <+: (toP n).1) →
      (∀ n ∈ r, ¬ p <+: (toP n).1) → DcOk e → Answers p d rest (.leaf e) k →
      Res (.ok ⟨r, setChild s idx dir (setDc e)⟩ : Outcome Build)
        (fun b => ∃ s1 v T, b.store = setChild s1 idx dir v ∧ s1.length ≤ s.length + k * cnt p rest ∧ Used p rest b.rest ∧
          Child s s1 v T ∧ Answers p d rest T k) (16777216 < s.length + k * cnt p rest) := by
    intro r e w h1 h2 h3 h4 h5
    exact ⟨s, setDc e, .leaf e, rfl, by omega, ⟨w, h1, h2, h3⟩, Or.inl ⟨rfl, e, rfl, rfl, h4⟩, h5⟩
  cases rest with
  | nil =>
    show Res (.ok ⟨[], setChild s idx dir (setDc t.dc)⟩ : Outcome Build) _ _
    rw [hdc]
    refine leaf [] d [] rfl (by simp) (by simp) hd fun y _ => ⟨d, 0, look_leaf d y, answer_none (by simp)⟩
  | cons nl r =>
    have hnl := (hrest.ok nl List.mem_cons_self)
    show Res ((subnetOf nl t).bind _) _ _
    rw [subnetOf_ok hnl.1 ht, hpt, Outcome.bind_ok]
    by_cases hsub : p <+: (toP nl).1
    · rw [decide_eq_true hsub, cond_true]
      by_cases hm : t.mask = nl.mask
      · rw [if_pos hm]
        have hnle : (toP nl).1 = p := by
          refine (hsub.eq_of_length ?_).symm
          rw [toP_length hnl.1, ← hm, hmask]
        -- the entries of r in terms of the address
        have hlt : ∀ n ∈ r, lexLt p (toP n).1 = true := fun n hn => hnle ▸ hrest.lt hn
        have hcons : ∀ y e, Answer (r.map toP) nl.dc (p ++ y) e → Answer ((nl :: r).map toP) d (p ++ y) e := by
          intro y e he
          refine answer_cons (a := toP nl) (by rw [hnle]; exact List.prefix_append _ _) ?_ he
          intro q hq hqx
          obtain ⟨n, hn, rfl⟩ := List.mem_map.mp hq
          rw [hnle]
          exact (inside (lexLe_of_lt (hlt n hn)) (List.prefix_append _ _) hqx).length_le
        have hleaf : (∀ m ∈ r, ¬ p <+: (toP m).1) → Res (.ok ⟨r, setChild s idx dir (setDc nl.dc)⟩ : Outcome Build)
            (fun b => ∃ s1 v T, b.store = setChild s1 idx dir v ∧ s1.length ≤ s.length + k * cnt p (nl :: r) ∧
              Used p (nl :: r) b.rest ∧ Child s s1 v T ∧ Answers p d (nl :: r) T k)
            (16777216 < s.length + k * cnt p (nl :: r)) := by
          intro hno
          refine leaf r nl.dc [nl] rfl (by simp [hsub]) hno hnl.2 fun y _ => ⟨nl.dc, 0, look_leaf nl.dc y, hcons y _ (answer_none ?_)⟩
          intro q hq hqx
          obtain ⟨n, hn, rfl⟩ := List.mem_map.mp hq
          exact hno n hn (inside (lexLe_of_lt (hlt n hn)) (List.prefix_append _ _) hqx)
        cases r with
        | nil => exact hleaf (by simp)
        | cons nx r =>
          have hnx := hrest.tail.ok nx List.mem_cons_self
          show Res ((subnetOf nx nl).bind _) _ _
          rw [subnetOf_ok hnx.1 hnl.1, hnle, Outcome.bind_ok]
          by_cases hsub2 : p <+: (toP nx).1
          · rw [decide_eq_true hsub2, cond_true]
            cases k with
            | zero =>
              exfalso
              have h1 := hsub2.length_le
              rw [toP_length hnx.1] at h1
              have h2 := hnx.1.mask
              have : p = (toP nx).1 := hsub2.eq_of_length (by rw [toP_length hnx.1]; omega)
              have h3 := hlt nx List.mem_cons_self
              rw [← this, lexLt_irrefl] at h3
              cases h3
            | succ k' =>
              have hto : NetOk { t with dc := nl.dc } := ⟨ht.len, ht.mask, ht.clear⟩
              have htp' : toP { t with dc := nl.dc } = (p, nl.dc) := by
                rw [← hpt]; rfl
              have hcnt : cnt p (nl :: nx :: r) = cnt p (nx :: r) + 1 := by
                unfold cnt; rw [List.countP_cons_of_pos (by simpa using hsub)]
              have hpos : 1 ≤ cnt p (nx :: r) := by
                unfold cnt; rw [List.countP_cons_of_pos (by simpa using hsub2)]; omega
              have hb : s.length + 1 + k' * cnt p (nx :: r) ≤ s.length + (k' + 1) * cnt p (nl :: nx :: r) := by
                rw [hcnt, Nat.add_mul, Nat.mul_add]; omega
              refine (ih k' rfl s (nx :: r) { t with dc := nl.dc } p nl.dc hto htp' (by omega) hrest.tail hlt hnl.2).bind ?_ (by omega)
              rintro ⟨b', v⟩ _ ⟨h1, ⟨w, hw1, hw2, hw3⟩, T, h3, h4, _⟩
              refine ⟨b'.store, v, T, rfl, Nat.le_trans h1 hb, ⟨nl :: w, by simp [hw1], ?_, hw3⟩, h3, ?_⟩
              · intro n hn
                rcases List.mem_cons.mp hn with rfl | hn
                · exact hsub
                · exact hw2 n hn
              · intro y hy
                obtain ⟨d', j, g1, g2⟩ := h4 y hy
                exact ⟨d', j, g1, hcons y d' g2⟩
          · rw [decide_eq_false hsub2, cond_false]
            exact hleaf (none_below hrest.tail (lexLe_of_lt (hlt nx List.mem_cons_self)) hsub2)
      · rw [if_neg hm]
        have hlen : p.length < (toP nl).1.length := by
          refine Nat.lt_of_le_of_ne hsub.length_le ?_
          rw [toP_length hnl.1]; omega
        have hlt : ∀ n ∈ nl :: r, lexLt p (toP n).1 = true := by
          have h0 : lexLt p (toP nl).1 = true := lexLt_prefix hsub (fun h => by rw [← h] at hlen; omega)
          intro n hn
          rcases List.mem_cons.mp hn with rfl | hn
          · exact h0
          · exact lexLt_trans h0 (hrest.lt hn)
        cases k with
        | zero =>
          exfalso
          rw [toP_length hnl.1] at hlen
          have := hnl.1.mask
          omega
        | succ k' =>
          have hpos : 1 ≤ cnt p (nl :: r) := by
            unfold cnt; rw [List.countP_cons_of_pos (by simpa using hsub)]; omega
          have hb : s.length + 1 + k' * cnt p (nl :: r) ≤ s.length + (k' + 1) * cnt p (nl :: r) := by
            rw [Nat.add_mul]; omega
          refine (ih k' rfl s (nl :: r) t p d ht htp (by omega) hrest hlt hd).bind ?_ (by omega)
          rintro ⟨b', v⟩ _ ⟨h1, h2, T, h3, h4, _⟩
          exact ⟨b'.store, v, T, rfl, Nat.le_trans h1 hb, h2, h3, h4⟩
    · rw [decide_eq_false hsub, cond_false, hdc]
      have hno := none_below hrest (hle nl List.mem_cons_self) hsub
      refine leaf (nl :: r) d [] rfl (by simp) hno hd fun y _ => ⟨d, 0, look_leaf d y, answer_none ?_⟩
      intro q hq hqx
      obtain ⟨n, hn, rfl⟩ := List.mem_map.mp hq
      exact hno n hn (inside (hle n hn) (List.prefix_append _ _) hqx)

theorem grow {t : Net} {p : List Bool} {d : Nat} (ht : NetOk t) (htp : toP t = (p, d)) (hp : p.length < 128) :
    NetOk { t with mask := t.mask + 1 } ∧ toP { t with mask := t.mask + 1 } = (p ++ [false], d) := by
  have hm : t.mask = p.length := by rw [← toP_length ht, htp]
  have hpt : (toP t).1 = p := by rw [htp]
  have hdc : t.dc = d := congrArg Prod.snd htp
  have hb : bits t.ip = p ++ [false] ++ List.replicate (127 - t.mask) false := by
    rw [ht.clear, hpt, show 128 - t.mask = (127 - t.mask) + 1 by omega, List.replicate_succ]; simp
  have htk : (bits t.ip).take (t.mask + 1) = p ++ [false] := by
    rw [hb, List.take_left']; simp [hm]
  refine ⟨⟨ht.len, by show t.mask + 1 ≤ 128; omega, ?_⟩, by simp [toP, htk, hdc]⟩
  show bits t.ip = (bits t.ip).take (t.mask + 1) ++ List.replicate (128 - (t.mask + 1)) false
  rw [htk, hb, show 128 - (t.mask + 1) = 127 - t.mask by omega]

theorem grow_one {t : Net} {p : List Bool} {d : Nat} (ht : NetOk t) (htp : toP t = (p ++ [false], d)) :
    ∃ ip, setBit t.ip (t.mask - 1) = .ok ip ∧ NetOk { t with ip := ip } ∧ toP { t with ip := ip } = (p ++ [true], d) := by
  have hm : t.mask = p.length + 1 := by rw [← toP_length ht, htp]; simp
  have hpt : (toP t).1 = p ++ [false] := by rw [htp]
  have hdc : t.dc = d := congrArg Prod.snd htp
  have hmm := ht.mask
  obtain ⟨c, h1, h2, h3⟩ := setBit_eq (i := t.mask - 1) ht.len (by omega)
  have hb : bits c = p ++ [true] ++ List.replicate (128 - t.mask) false := by
    rw [h3, ht.clear, hpt, List.append_assoc, List.set_append, if_neg (by omega), hm, Nat.add_sub_cancel, Nat.sub_self]
    simp
  have htk : (bits c).take t.mask = p ++ [true] := by rw [hb, List.take_left']; simp [hm]
  refine ⟨c, h1, ⟨h2, ht.mask, ?_⟩, by simp [toP, htk, hdc]⟩
  show bits c = (bits c).take t.mask ++ List.replicate (128 - t.mask) false
  rw [htk, hb]

theorem setChild_get_ne {s : List Node} {i j : Nat} {dir : Bool} {v : Nat} (h : i ≠ j) : (setChild s i dir v)[j]? = s[j]? := by
  simp [setChild, h]

theorem setChild_get_eq {s : List Node} {i : Nat} {dir : Bool} {v : Nat} {n : Node} (h : s[i]? = some n) :
    (setChild s i dir v)[i]? = some (bif dir then { n with one := v } else { n with zero := v }) := by
  simp [setChild, h]

theorem rec_unfold (k : Nat) (b : Build) (t : Net) : rec k b t =
    (assert (decide (t.mask < 128))).bind fun _ =>
      (addNode b.store).bind fun a =>
        (recDir k ⟨b.rest, a.1⟩ { t with mask := t.mask + 1 } a.2 false).bind fun b1 =>
          (setBit t.ip (t.mask + 1 - 1)).bind fun ip =>
            (recDir k b1 { t with mask := t.mask + 1, ip := ip } a.2 true).bind fun b2 =>
              match b2.store[a.2]? with
              | none => .ub
              | some n =>
                if n.zero = n.one ∧ 0 < a.2 then .ok (⟨b2.rest, b2.store.take (b2.store.length - 1)⟩, n.zero)
                else .ok (b2, a.2) := by
  cases k <;> rfl

theorem Child.length_le {s s1 : List Node} {v : Nat} {t : Trie} (h : Child s s1 v t) : s.length ≤ s1.length := by
  rcases h with ⟨rfl, _⟩ | ⟨new, _, _, _, rfl, _⟩
  · exact Nat.le_refl _
  · simp

theorem Child.get {s s1 : List Node} {v : Nat} {t : Trie} (h : Child s s1 v t) {i : Nat} (hi : i < s.length) : s1[i]? = s[i]? := by
  rcases h with ⟨rfl, _⟩ | ⟨new, _, _, _, rfl, _⟩
  · rfl
  · rw [List.getElem?_append_left hi]

theorem prec_of_pdir (k : Nat) (ih : PDir k) : PRec k := by
  intro s rest t p d ht htp hk hrest hlt hd
  have hmask : t.mask = p.length := by rw [← toP_length ht, htp]
  rw [rec_unfold]
  have hass : decide (t.mask < 128) = true := by simp; omega
  rw [hass, assert_true, Outcome.bind_ok]
  by_cases hcap : s.length < 16777216
  · have hadd : addNode s = .ok (s ++ [⟨0, 0⟩], s.length) := by simp [addNode, hcap]
    show Res ((addNode s).bind _) _ _
    rw [hadd, Outcome.bind_ok]
    obtain ⟨ht1, htp1⟩ := grow ht htp (by omega)
    have hle0 : ∀ n ∈ rest, lexLe (p ++ [false]) (toP n).1 := by
      intro n hn
      cases h : lexLt (toP n).1 (p ++ [false]) with
      | false => exact h
      | true =>
        have := lexLt_of_lt_of_le (hlt n hn) (lt_half h)
        rw [lexLt_irrefl] at this; cases this
    have hc0 : cnt (p ++ [false]) rest ≤ cnt p rest := by
      unfold cnt
      refine List.countP_mono_left fun n _ h => ?_
      simp only [decide_eq_true_iff] at *
      exact (List.prefix_append p [false]).trans h
    have hdir0 := ih (s ++ [⟨0, 0⟩]) rest _ (p ++ [false]) d s.length false ht1 htp1 (by simp; omega) (by simp) hrest hle0 hd (by simp)
    have hmul0 : k * cnt (p ++ [false]) rest ≤ k * cnt p rest := Nat.mul_le_mul_left _ hc0
    refine hdir0.bind ?_ (by simp; omega)
    rintro b1 _ ⟨s1, v0, T0, hb1, hl1, ⟨w, hw1, hw2, hw3⟩, hch0, hans0⟩
    obtain ⟨ip, hset, ht2, htp2⟩ := grow_one ht1 htp1
    have hset' : setBit t.ip (t.mask + 1 - 1) = .ok ip := hset
    show Res ((setBit t.ip (t.mask + 1 - 1)).bind _) _ _
    rw [hset', Outcome.bind_ok]
    have hrest1 : RestOk b1.rest := by rw [hw1] at hrest; exact hrest.suffix
    have hmem1 : ∀ n ∈ b1.rest, n ∈ rest := fun n hn => by rw [hw1]; exact List.mem_append_right _ hn
    have hle1 : ∀ n ∈ b1.rest, lexLe (p ++ [true]) (toP n).1 := by
      intro n hn
      cases h : lexLt (toP n).1 (p ++ [true]) with
      | false => exact h
      | true =>
        exfalso
        have h0 := hle0 n (hmem1 n hn)
        have hp : p <+: (toP n).1 := prefix_between (List.prefix_append p [true])
          (lexLe_of_lt (hlt n (hmem1 n hn))) (lexLe_of_lt h)
        obtain ⟨r, hr⟩ := hp
        apply hw3 n hn
        rw [← hr] at h h0 ⊢
        unfold lexLe at h0
        rw [lexLt_append] at h h0
        cases r with
        | nil => simp [lexLt] at h0
        | cons c r =>
          cases c
          · exact ⟨r, by simp⟩
          · simp only [lexLt_cons] at h
            cases r <;> simp [lexLt] at h
    have hcount : cnt (p ++ [false]) rest + cnt (p ++ [true]) b1.rest ≤ cnt p rest := by
      have e1 : cnt (p ++ [false]) rest = w.length := by
        rw [hw1]; unfold cnt
        rw [List.countP_append, List.countP_eq_length.mpr (fun n hn => by simpa using hw2 n hn),
          List.countP_eq_zero.mpr (fun n hn => by simpa using hw3 n hn)]
        rfl
      have e2 : cnt p rest = w.length + cnt p b1.rest := by
        conv => lhs; rw [hw1]
        unfold cnt
        rw [List.countP_append, List.countP_eq_length.mpr (fun n hn => by
          simpa using (List.prefix_append p [false]).trans (hw2 n hn))]
      have e3 : cnt (p ++ [true]) b1.rest ≤ cnt p b1.rest := by
        unfold cnt
        refine List.countP_mono_left fun n _ h => ?_
        simp only [decide_eq_true_iff] at *
        exact (List.prefix_append p [true]).trans h
      omega
    have hmul : k * cnt (p ++ [false]) rest + k * cnt (p ++ [true]) b1.rest ≤ k * cnt p rest := by
      rw [← Nat.mul_add]; exact Nat.mul_le_mul_left _ hcount
    have hs1len : s.length < s1.length := by have := hch0.length_le; simp at this; omega
    have hb1len : b1.store.length = s1.length := by rw [hb1, setChild_length]
    have hdir1 := ih b1.store b1.rest _ (p ++ [true]) d s.length true ht2 htp2 (by simp; omega) (by simp) hrest1 hle1 hd
      (by rw [hb1len]; exact hs1len)
    refine hdir1.bind ?_ (by rw [hb1len]; simp at hl1; omega)
    rintro b2 _ ⟨s2, v1, T1, hb2, hl2, ⟨w', hw1', hw2', hw3'⟩, hch1, hans1⟩
    -- the finished node
    have hnode1 : b1.store[s.length]? = some ⟨v0, 0⟩ := by
      rw [hb1]
      have : s1[s.length]? = some (⟨0, 0⟩ : Node) := by
        rw [hch0.get (by simp)]; simp
      rw [setChild_get_eq this]; rfl
    have hnode2 : b2.store[s.length]? = some ⟨v0, v1⟩ := by
      rw [hb2]
      have : s2[s.length]? = some (⟨v0, 0⟩ : Node) := by
        rw [hch1.get (by rw [hb1len]; exact hs1len)]; exact hnode1
      rw [setChild_get_eq this]; rfl
    have hget2 : ∀ i, i ≠ s.length → b2.store[i]? = s2[i]? := fun i hi => by
      rw [hb2, setChild_get_ne (Ne.symm hi)]
    have hget1 : ∀ i, i ≠ s.length → b1.store[i]? = s1[i]? := fun i hi => by
      rw [hb1, setChild_get_ne (Ne.symm hi)]
    have hold : ∀ i, i < s.length → b2.store[i]? = s[i]? := by
      intro i hi
      rw [hget2 i (by omega), hch1.get (by omega), hget1 i (by omega), hch0.get (by simp; omega), List.getElem?_append_left hi]
    have hlen2 : b2.store.length = s2.length := by rw [hb2, setChild_length]
    have hs2len := hch1.length_le
    have hpre : ∃ new, b2.store = s ++ new := by
      refine ⟨b2.store.drop s.length, ?_⟩
      rw [← List.take_append_drop s.length b2.store]
      have htk : b2.store.take s.length = s := by
        apply List.ext_getElem?
        intro i
        rw [List.getElem?_take]
        split
        · next h => exact hold i h
        · next h => rw [List.getElem?_eq_none (by omega)]
      rw [List.take_append_drop]
      conv => lhs; rw [← List.take_append_drop s.length b2.store, htk]
    have hv0gt : s.length < v0 := by
      rcases hch0 with ⟨_, e, _, rfl, he⟩ | ⟨_, _, _, _, _, rfl, _⟩
      · have := setDc_ge he; omega
      · simp
    have hv1gt : s.length < v1 := by
      rcases hch1 with ⟨_, e, _, rfl, he⟩ | ⟨_, _, _, _, _, rfl, _⟩
      · have := setDc_ge he; omega
      · rw [hb1len]; exact hs1len
    have hrep0 : Rep b2.store v0 T0 := by
      rcases hch0 with ⟨_, e, rfl, rfl, he⟩ | ⟨new, z, o, hnew, hs1, hv, hT, hr, _⟩
      · exact ⟨rfl, he⟩
      · refine hr.congr fun i n hi hn => ?_
        have hin : i < s1.length := (List.getElem?_eq_some_iff.mp hn).1
        rw [hget2 i (by omega), hch1.get (by omega), hget1 i (by omega)]
        exact hn
    have hrep1 : Rep b2.store v1 T1 := by
      refine hch1.rep.congr fun i n hi hn => ?_
      rw [hget2 i (by omega)]
      exact hn
    have hans : Answers p d rest (.node T0 T1) (k + 1) := by
      intro y hy
      cases y with
      | nil => simp at hy
      | cons c y =>
        have hy' : y.length = k := by simpa using hy
        cases c with
        | false =>
          obtain ⟨d', j, h1, h2⟩ := hans0 y hy'
          refine ⟨d', j + 1, by simp [look, h1], ?_⟩
          rw [List.append_assoc] at h2
          exact h2
        | true =>
          obtain ⟨d', j, h1, h2⟩ := hans1 y hy'
          refine ⟨d', j + 1, by simp [look, h1], ?_⟩
          rw [List.append_assoc] at h2
          refine (answer_congr fun q hq => ?_).mpr h2
          rw [hw1, List.map_append, List.mem_append]
          constructor
          · rintro (h | h)
            · exfalso
              obtain ⟨n, hn, rfl⟩ := List.mem_map.mp h
              have h3 := (hw2 n hn).trans hq
              have h4 := prefix_same h3 (show p ++ [true] <+: p ++ ([true] ++ y) from ⟨y, by simp⟩) (by simp)
              simp at h4
            · exact h
          · exact Or.inr
    have hused : Used p rest b2.rest := by
      refine ⟨w ++ w', by rw [List.append_assoc, ← hw1', ← hw1], ?_, ?_⟩
      · intro n hn
        rcases List.mem_append.mp hn with h | h
        · exact (List.prefix_append p [false]).trans (hw2 n h)
        · exact (List.prefix_append p [true]).trans (hw2' n h)
      · intro n hn hpn
        have hn1 : n ∈ b1.rest := by rw [hw1']; exact List.mem_append_right _ hn
        have hne := hlt n (hmem1 n hn1)
        obtain ⟨r, hr⟩ := hpn
        cases r with
        | nil => rw [List.append_nil] at hr; rw [← hr, lexLt_irrefl] at hne; cases hne
        | cons c r =>
          cases c
          · exact hw3 n hn1 ⟨r, by rw [← hr]; simp⟩
          · exact hw3' n hn ⟨r, by rw [← hr]; simp⟩
    have hlenb : b2.store.length ≤ s.length + 1 + k * cnt p rest := by
      rw [hlen2]; rw [hb1len] at hl2; simp at hl1; omega
    -- equal children are equal leaves
    have hleaves : v0 = v1 → ∃ e, T0 = .leaf e ∧ T1 = .leaf e ∧ v0 = setDc e ∧ DcOk e ∧ b2.store.length = s.length + 1 := by
      intro hv
      rcases hch0 with ⟨hs1, e, hT0, hv0, he⟩ | ⟨new, z, o, hnew, hs1, hv0, hT0, hr0, _⟩
      · rcases hch1 with ⟨hs2, e', hT1, hv1, he'⟩ | ⟨new', z', o', hnew', hs2, hv1, hT1, hr1, _⟩
        · have : e = e' := setDc_inj he he' (by rw [← hv0, ← hv1, hv])
          subst this
          exact ⟨e, hT0, hT1, hv0, he, by rw [hlen2, hs2, hb1len, hs1]; simp⟩
        · exfalso
          subst hT1
          have := hr1.1
          have := setDc_ge he
          omega
      · exfalso
        rcases hch1 with ⟨hs2, e', hT1, hv1, he'⟩ | ⟨new', z', o', hnew', hs2, hv1, hT1, hr1, _⟩
        · subst hT0
          have := hr0.1
          have := setDc_ge he'
          omega
        · rw [hb1len, hs1] at hv1
          simp at hv0 hv1
          have := List.length_pos_iff.mpr hnew
          omega
    show Res (match b2.store[s.length]? with
      | none => .ub
      | some n =>
        if n.zero = n.one ∧ 0 < s.length then .ok (⟨b2.rest, b2.store.take (b2.store.length - 1)⟩, n.zero)
        else .ok (b2, s.length)) _ _
    rw [hnode2]
    show Res (if v0 = v1 ∧ 0 < s.length then .ok (⟨b2.rest, b2.store.take (b2.store.length - 1)⟩, v0) else .ok (b2, s.length)) _ _
    by_cases hcol : v0 = v1 ∧ 0 < s.length
    · rw [if_pos hcol]
      obtain ⟨e, hT0, hT1, hv0, he, hlen⟩ := hleaves hcol.1
      have htk : b2.store.take (b2.store.length - 1) = s := by
        obtain ⟨new, hnew⟩ := hpre
        rw [hlen, Nat.add_sub_cancel, hnew, List.take_left]
      refine ⟨?_, hused, .leaf e, Or.inl ⟨htk, e, rfl, hv0, he⟩, ?_, fun h0 => by rw [h0] at hcol; simp at hcol⟩
      · show (b2.store.take (b2.store.length - 1)).length ≤ _
        rw [htk]; omega
      · intro y hy
        obtain ⟨d', j, h1, h2⟩ := hans y hy
        cases y with
        | nil => simp at hy
        | cons c y =>
          have h3 : d' = e := by
            rw [hT0, hT1] at h1
            cases c <;> simp [look, look_leaf] at h1 <;> exact h1.1.symm
          subst h3
          exact ⟨d', 0, look_leaf _ _, h2⟩
    · rw [if_neg hcol]
      refine ⟨hlenb, hused, .node T0 T1, Or.inr ?_, hans, fun _ => ⟨T0, T1, rfl⟩⟩
      obtain ⟨new, hnew⟩ := hpre
      refine ⟨new, T0, T1, ?_, hnew, rfl, rfl, ⟨hcap, _, hnode2, hv0gt, hv1gt, hrep0, hrep1⟩, ?_⟩
      · intro h
        rw [h, List.append_nil] at hnew
        have := congrArg List.length hnew
        omega
      · intro i n hi hn
        by_cases hie : i = s.length
        · subst hie
          have hn' : n = ⟨v0, v1⟩ := by
            have : some n = some (⟨v0, v1⟩ : Node) := by rw [← hn, ← hnode2]
            exact Option.some.inj this
          subst hn'
          by_cases hv : v0 = v1
          · right
            obtain ⟨_, _, _, _, _, hl⟩ := hleaves hv
            show b2.store.length = 1
            have : ¬ 0 < s.length := fun h => hcol ⟨hv, h⟩
            omega
          · exact Or.inl hv
        · left
          have hn2 : s2[i]? = some n := by rw [← hget2 i hie]; exact hn
          by_cases hib : i < b1.store.length
          · have hn1 : s1[i]? = some n := by rw [← hget1 i hie, ← hch1.get hib]; exact hn2
            rcases hch0 with ⟨hs1, _⟩ | ⟨new0, z, o, hnew0, hs1, _, _, _, hopt⟩
            · rw [hb1len, hs1] at hib; simp at hib; omega
            · rcases hopt i n (by simp; omega) hn1 with h | h
              · exact h
              · rw [hs1] at h; simp at h
                have := List.length_pos_iff.mpr hnew0; omega
          · rcases hch1 with ⟨hs2, _⟩ | ⟨new1, z, o, hnew1, hs2, _, _, _, hopt⟩
            · rw [hs2, List.getElem?_eq_none (by omega)] at hn2; cases hn2
            · rcases hopt i n (by omega) hn2 with h | h
              · exact h
              · rw [hs2] at h; simp at h
                have := List.length_pos_iff.mpr hnew1; omega
  · show Res ((addNode s).bind _) _ _
    have hadd : addNode s = .ub := by simp [addNode, hcap]
    rw [hadd, Outcome.bind_ub]
    show 16777216 < s.length + 1 + k * cnt p rest
    omega

theorem build_ok (k : Nat) : PDir k ∧ PRec k := by
  induction k with
  | zero =>
    have h : PDir 0 := pdir_of_prec 0 fun k' h => by omega
    exact ⟨h, prec_of_pdir 0 h⟩
  | succ k ih =>
    have h : PDir (k + 1) := pdir_of_prec (k + 1) fun k' h => by
      have : k' = k := by omega
      rw [this]; exact ih.2
    exact ⟨h, prec_of_pdir (k + 1) h⟩

end Gdnsd.Geo
