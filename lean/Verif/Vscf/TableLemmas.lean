/-
The hash table: sizes, chains, and what it stands for.
-/
import Verif.Vscf.Table
import Verif.Vscf.TableSpec
namespace Gdnsd.Vscf
open VscfSpec

variable {α σ : Type}

/-! ### Sizes -/

/-- `y` has the bits of `x` and of `x` shifted by less than `n`. -/
def Cov (x y n : Nat) : Prop := ∀ i, y.testBit i = true ↔ ∃ j, j < n ∧ x.testBit (i + j) = true

theorem cov_step {x y n : Nat} (h : Cov x y n) : Cov x (y ||| (y >>> n)) (2 * n) := by
  intro i
  rw [Nat.testBit_or, Nat.testBit_shiftRight, Bool.or_eq_true, h i, h (n + i)]
  constructor
  · rintro (⟨j, h1, h2⟩ | ⟨j, h1, h2⟩)
    · exact ⟨j, by omega, h2⟩
    · exact ⟨n + j, by omega, by rwa [show i + (n + j) = n + i + j by omega]⟩
  · rintro ⟨j, h1, h2⟩
    by_cases hj : j < n
    · exact Or.inl ⟨j, hj, h2⟩
    · exact Or.inr ⟨j - n, by omega, by rwa [show n + i + (j - n) = i + j by omega]⟩

theorem cov_one (x : Nat) : Cov x x 1 := by
  intro i
  constructor
  · exact fun h => ⟨0, by omega, by simpa using h⟩
  · rintro ⟨j, h1, h2⟩
    have : j = 0 := by omega
    subst this; simpa using h2

theorem c2m_cov (x : Nat) : Cov (x ||| 1) (c2m x) 32 :=
  cov_step (cov_step (cov_step (cov_step (cov_step (cov_one _)))))

theorem c2m_log {x : Nat} (hx : x < 2 ^ 32) : c2m x = 2 ^ ((x ||| 1).log2 + 1) - 1 := by
  have h0 : (x ||| 1) ≠ 0 := by
    intro h
    have := congrArg (fun n => n.testBit 0) h
    simp at this
  have h32 : x ||| 1 < 2 ^ 32 := Nat.or_lt_two_pow hx (by decide)
  have hlog : (x ||| 1).log2 < 32 := (Nat.log2_lt h0).mpr h32
  apply Nat.eq_of_testBit_eq
  intro i
  rw [Nat.testBit_two_pow_sub_one, Bool.eq_iff_iff, c2m_cov x i, decide_eq_true_eq]
  constructor
  · rintro ⟨j, h1, h2⟩
    have := Nat.ge_two_pow_of_testBit h2
    have hl := (Nat.le_log2 h0).mpr this
    omega
  · intro h
    refine ⟨(x ||| 1).log2 - i, by omega, ?_⟩
    rw [show i + ((x ||| 1).log2 - i) = (x ||| 1).log2 by omega]
    exact Nat.testBit_log2 h0

theorem c2m_eq {n m : Nat} (hm : 1 ≤ m) (hm' : m ≤ 32) (h1 : 2 ^ (m - 1) ≤ max n 1) (h2 : n < 2 ^ m) : c2m n = 2 ^ m - 1 := by
  have h0 : (n ||| 1) ≠ 0 := by
    intro h
    have := congrArg (fun n => n.testBit 0) h
    simp at this
  have h32 : n < 2 ^ 32 := Nat.lt_of_lt_of_le h2 (Nat.pow_le_pow_right (by omega) hm')
  have hu : n ||| 1 < 2 ^ m := Nat.or_lt_two_pow h2 (Nat.one_lt_two_pow (by omega))
  have hl : 2 ^ (m - 1) ≤ n ||| 1 := Nat.le_trans h1 (by
    have a : n ≤ n ||| 1 := Nat.left_le_or
    have b : 1 ≤ n ||| 1 := Nat.right_le_or
    omega)
  have e : (n ||| 1).log2 = m - 1 := by
    have a := (Nat.le_log2 h0).mpr hl
    have b := (Nat.log2_lt h0).mpr hu
    omega
  rw [c2m_log h32, e, Nat.sub_add_cancel hm]

theorem c2m_clz {x : Nat} (hx : x < 2 ^ 32) : c2mClz x = c2m x := by
  rw [c2m_log hx]
  have h0 : (x ||| 1) ≠ 0 := by
    intro h
    have := congrArg (fun n => n.testBit 0) h
    simp at this
  have h32 : x ||| 1 < 2 ^ 32 := Nat.or_lt_two_pow hx (by decide)
  have hlog : (x ||| 1).log2 < 32 := (Nat.log2_lt h0).mpr h32
  unfold c2mClz
  generalize (x ||| 1).log2 = l at hlog ⊢
  have : ∀ l : Fin 32, (2 <<< (31 ^^^ (31 - l.val)) % 2 ^ 32 + 2 ^ 32 - 1) % 2 ^ 32 = 2 ^ (l.val + 1) - 1 := by decide +kernel
  exact this ⟨l, hlog⟩

/-- Facts about sizes. -/
theorem c2m_facts {n : Nat} (h : n < 2 ^ 31) : n ≤ c2m n ∧ c2m n < 2 ^ 32 - 1 ∧ c2m (n + 1) = if n = c2m n then (c2m n <<< 1) ||| 1 else c2m n := by
  have : ∃ m, 1 ≤ m ∧ m ≤ 31 ∧ 2 ^ (m - 1) ≤ max n 1 ∧ n < 2 ^ m := by
    by_cases h0 : n = 0
    · exact ⟨1, by subst h0; decide⟩
    · refine ⟨n.log2 + 1, by omega, ?_, ?_, Nat.lt_log2_self⟩
      · have := (Nat.log2_lt h0).mpr h; omega
      · rw [Nat.add_sub_cancel, Nat.max_eq_left (by omega)]; exact Nat.log2_self_le h0
  obtain ⟨m, h1, h2, h3, h4⟩ := this
  have e := c2m_eq h1 (by omega) h3 h4
  have hp : 2 ^ m ≤ 2 ^ 31 := Nat.pow_le_pow_right (by omega) h2
  have hp1 : 2 ≤ 2 ^ m := Nat.le_trans (by decide) (Nat.pow_le_pow_right (n := 2) (by omega) h1)
  refine ⟨by omega, by omega, ?_⟩
  rw [e]
  split
  · next hn =>
    have hs : (2 ^ m - 1) <<< 1 ||| 1 = 2 ^ (m + 1) - 1 := by
      have := Nat.two_pow_add_eq_or_of_lt (i := 1) (b := 1) (by decide) (2 ^ m - 1)
      rw [Nat.shiftLeft_eq, Nat.mul_comm, ← this, Nat.pow_succ]; omega
    rw [hs]
    apply c2m_eq (by omega) (by omega)
    · rw [Nat.add_sub_cancel]; omega
    · rw [Nat.pow_succ]; omega
  · next hn =>
    exact c2m_eq h1 (by omega) (by omega) (by omega)

/-! ### Chains -/

/-- The entries of `S` are in the chains their keys belong to. -/
def Chained (H : Bytes → Nat) (nodes : List (Node α)) (mask : Nat) (S : Nat → Prop) (tab : List (List Nat)) : Prop :=
  tab.length = mask + 1 ∧ ∀ i c, tab[i]? = some c → ∀ id, id ∈ c ↔ S id ∧ ∃ n, nodes[id]? = some n ∧ H n.key &&& mask = i

theorem slot_lt {H : Bytes → Nat} {k : Bytes} {mask : Nat} : H k &&& mask < mask + 1 := Nat.lt_succ_of_le Nat.and_le_right

theorem Chained.congr {H : Bytes → Nat} {nodes : List (Node α)} {mask S S' tab} (h : Chained H nodes mask S tab) (hs : ∀ x, S x ↔ S' x) : Chained H nodes mask S' tab :=
  ⟨h.1, fun i c hc id => by rw [h.2 i c hc id, hs]⟩

theorem chained_link {H : Bytes → Nat} {nodes : List (Node α)} {mask S tab id n} (h : Chained H nodes mask S tab) (hn : nodes[id]? = some n) :
    ∃ tab', link tab (H n.key &&& mask) id = .ok tab' ∧ Chained H nodes mask (fun x => S x ∨ x = id) tab' := by
  have hlt : H n.key &&& mask < tab.length := by rw [h.1]; exact slot_lt
  have hc := List.getElem?_eq_getElem hlt
  refine ⟨_, by rw [link, hc], by simpa using h.1, ?_⟩
  intro i c hi x
  rw [List.getElem?_set] at hi
  split at hi
  · next he =>
    subst he
    simp only [Option.some.injEq] at hi
    subst hi
    rw [List.mem_append, h.2 _ _ hc x, List.mem_singleton]
    constructor
    · rintro (⟨a, b⟩ | rfl)
      · exact ⟨Or.inl a, b⟩
      · exact ⟨Or.inr rfl, n, hn, rfl⟩
    · rintro ⟨a | rfl, b⟩
      · exact Or.inl ⟨a, b⟩
      · exact Or.inr rfl
  · next he =>
    rw [h.2 _ _ hi x]
    constructor
    · rintro ⟨a, b⟩; exact ⟨Or.inl a, b⟩
    · rintro ⟨a | rfl, b⟩
      · exact ⟨a, b⟩
      · obtain ⟨m, hm, e⟩ := b
        rw [hn] at hm; simp only [Option.some.injEq] at hm; subst hm
        exact absurd e he

theorem chained_chain {H : Bytes → Nat} {nodes : List (Node α)} {mask S tab} {c : List Nat} (h : Chained H nodes mask S tab) (hc : ∀ id ∈ c, ∃ n, nodes[id]? = some n) :
    ∃ tab', moveChain H nodes mask c tab = .ok tab' ∧ Chained H nodes mask (fun x => S x ∨ x ∈ c) tab' := by
  induction c generalizing S tab with
  | nil => exact ⟨tab, rfl, h.congr (by simp)⟩
  | cons id c ih =>
    obtain ⟨n, hn⟩ := hc id (by simp)
    obtain ⟨tab1, h1, p1⟩ := chained_link h hn
    obtain ⟨tab2, h2, p2⟩ := ih p1 fun x hx => hc x (by simp [hx])
    refine ⟨tab2, by simp [moveChain, hn, h1, h2], p2.congr fun x => ?_⟩
    simp only [List.mem_cons]
    constructor
    · rintro ((a | a) | a)
      · exact Or.inl a
      · exact Or.inr (Or.inl a)
      · exact Or.inr (Or.inr a)
    · rintro (a | a | a)
      · exact Or.inl (Or.inl a)
      · exact Or.inl (Or.inr a)
      · exact Or.inr a

theorem chained_all {H : Bytes → Nat} {nodes : List (Node α)} {mask S tab} {old : List (List Nat)} (hc : ∀ c ∈ old, ∀ id ∈ c, ∃ n, nodes[id]? = some n) :
    ∀ (n i : Nat), n + i = old.length → Chained H nodes mask S tab →
    ∃ tab', moveAll H nodes mask old n i tab = .ok tab' ∧ Chained H nodes mask (fun x => S x ∨ ∃ j c, i ≤ j ∧ old[j]? = some c ∧ x ∈ c) tab' := by
  intro n
  induction n generalizing S tab with
  | zero =>
    intro i hi h
    refine ⟨tab, rfl, h.congr fun x => ⟨Or.inl, ?_⟩⟩
    rintro (a | ⟨j, c, hj, hc, _⟩)
    · exact a
    · rw [List.getElem?_eq_none (by omega)] at hc; cases hc
  | succ n ih =>
    intro i hi h
    have hlt : i < old.length := by omega
    have he := List.getElem?_eq_getElem hlt
    obtain ⟨tab1, h1, p1⟩ := chained_chain h (hc old[i] (List.getElem_mem hlt))
    obtain ⟨tab2, h2, p2⟩ := ih (i + 1) (by omega) p1
    refine ⟨tab2, by simp [moveAll, he, h1, h2], p2.congr fun x => ?_⟩
    constructor
    · rintro ((a | a) | ⟨j, c, hj, b⟩)
      · exact Or.inl a
      · exact Or.inr ⟨i, _, Nat.le_refl _, he, a⟩
      · exact Or.inr ⟨j, c, by omega, b⟩
    · rintro (a | ⟨j, c, hj, hc, b⟩)
      · exact Or.inl (Or.inl a)
      · by_cases hji : j = i
        · subst hji
          rw [he] at hc; simp only [Option.some.injEq] at hc; subst hc
          exact Or.inl (Or.inr b)
        · exact Or.inr ⟨j, c, by omega, hc, b⟩

/-- All entries are in the chains their keys belong to. -/
abbrev Chains (H : Bytes → Nat) (nodes : List (Node α)) (mask : Nat) (tab : List (List Nat)) : Prop := Chained H nodes mask (fun _ => True) tab

theorem Chains.valid {H : Bytes → Nat} {nodes : List (Node α)} {mask tab} (h : Chains H nodes mask tab) : ∀ c ∈ tab, ∀ id ∈ c, ∃ n, nodes[id]? = some n := by
  intro c hc id hid
  obtain ⟨i, hi⟩ := List.getElem?_of_mem hc
  obtain ⟨_, n, hn, _⟩ := (h.2 i c hi id).mp hid
  exact ⟨n, hn⟩

theorem chains_move {H : Bytes → Nat} {nodes : List (Node α)} {mask m tab} (h : Chains H nodes mask tab) :
    ∃ tab', moveAll H nodes m tab (mask + 1) 0 (List.replicate (m + 1) []) = .ok tab' ∧ Chains H nodes m tab' := by
  have hp : Chained H nodes m (fun _ => False) (List.replicate (m + 1) []) := by
    refine ⟨by simp, fun i c hc id => ?_⟩
    rw [List.getElem?_replicate] at hc
    split at hc
    · simp only [Option.some.injEq] at hc; subst hc; simp
    · cases hc
  obtain ⟨tab', h1, h2⟩ := chained_all h.valid (mask + 1) 0 (by rw [h.1]) hp
  refine ⟨tab', h1, h2.1, fun i c hc id => ?_⟩
  rw [h2.2 i c hc id]
  constructor
  · rintro ⟨_, b⟩; exact ⟨trivial, b⟩
  · rintro ⟨_, n, hn, e⟩
    refine ⟨Or.inr ?_, n, hn, e⟩
    have hlt : H n.key &&& mask < tab.length := by rw [h.1]; exact slot_lt
    exact ⟨_, _, Nat.zero_le _, List.getElem?_eq_getElem hlt, (h.2 _ _ (List.getElem?_eq_getElem hlt) id).mpr ⟨trivial, n, hn, rfl⟩⟩

theorem seek_ok {nodes : List (Node α)} {k : Bytes} {c : List Nat} (hc : ∀ id ∈ c, ∃ n, nodes[id]? = some n) :
    (∃ id n, seek nodes k c = .ok (some id) ∧ id ∈ c ∧ nodes[id]? = some n ∧ n.key = k) ∨ (seek nodes k c = .ok none ∧ ∀ id ∈ c, ∀ n, nodes[id]? = some n → n.key ≠ k) := by
  induction c with
  | nil => exact Or.inr ⟨rfl, by simp⟩
  | cons id c ih =>
    obtain ⟨n, hn⟩ := hc id (by simp)
    by_cases hk : k = n.key
    · exact Or.inl ⟨id, n, by simp [seek, hn, hk], by simp, hn, hk.symm⟩
    · rcases ih fun x hx => hc x (by simp [hx]) with ⟨id', n', h1, h2, h3⟩ | ⟨h1, h2⟩
      · exact Or.inl ⟨id', n', by simp [seek, hn, hk, h1], by simp [h2], h3⟩
      · refine Or.inr ⟨by simp [seek, hn, hk, h1], fun x hx m hm => ?_⟩
        rcases List.mem_cons.mp hx with rfl | hx
        · rw [hn] at hm; simp only [Option.some.injEq] at hm; subst hm; exact fun e => hk e.symm
        · exact h2 x hx m hm

/-! ### Tables -/

/-- What is true of a table at all times. -/
structure TInv (H : Bytes → Nat) (t : Table α) : Prop where
  cnt : t.count = t.nodes.length
  ord : t.ordered.Perm (List.range t.nodes.length)
  idx : ∀ (i id : Nat) (n : Node α), t.ordered[i]? = some id → t.nodes[id]? = some n → n.index = i
  keys : ∀ (i j : Nat) (n m : Node α), t.nodes[i]? = some n → t.nodes[j]? = some m → n.key = m.key → i = j
  empty : t.children = none → t.nodes = []
  tab : ∀ tab, t.children = some tab → Chains H t.nodes (c2m t.count) tab ∧ t.cap = c2m t.count + 1

def Node.entry (n : Node α) : Entry α := ⟨n.key, n.marked, n.val⟩

/-- The entries in order. -/
def Table.view (t : Table α) : Dict α := t.ordered.filterMap fun id => t.nodes[id]?.map Node.entry

theorem filterMap_total {α β : Type} {l : List α} {f : α → Option β} (h : ∀ x ∈ l, (f x).isSome) (i : Nat) : (l.filterMap f)[i]? = l[i]?.bind f := by
  induction l generalizing i with
  | nil => simp
  | cons a l ih =>
    obtain ⟨b, hb⟩ := Option.isSome_iff_exists.mp (h a (by simp))
    rw [List.filterMap_cons_some hb]
    cases i with
    | zero => simp [hb]
    | succ i => simp [ih fun x hx => h x (by simp [hx])]

theorem filterMap_same {α β : Type} {l : List α} {f g : α → Option β} (h : ∀ x ∈ l, f x = g x) : l.filterMap f = l.filterMap g := by
  induction l with
  | nil => rfl
  | cons a l ih => rw [List.filterMap_cons, List.filterMap_cons, h a (by simp), ih fun x hx => h x (by simp [hx])]

theorem TInv.mem {H : Bytes → Nat} {t : Table α} (h : TInv H t) {id : Nat} : id ∈ t.ordered ↔ id < t.nodes.length := by
  rw [h.ord.mem_iff, List.mem_range]

theorem TInv.len {H : Bytes → Nat} {t : Table α} (h : TInv H t) : t.ordered.length = t.nodes.length := by
  rw [h.ord.length_eq, List.length_range]

theorem TInv.view_at {H : Bytes → Nat} {t : Table α} (h : TInv H t) (i : Nat) :
    t.view[i]? = t.ordered[i]?.bind fun id => t.nodes[id]?.map Node.entry := by
  apply filterMap_total
  intro x hx
  simp [List.getElem?_eq_getElem (h.mem.mp hx)]

theorem TInv.view_len {H : Bytes → Nat} {t : Table α} (h : TInv H t) : t.view.length = t.count := by
  have hl : ∀ (l : List Nat), (∀ x ∈ l, x < t.nodes.length) → (l.filterMap fun id => t.nodes[id]?.map Node.entry).length = l.length := by
    intro l
    induction l with
    | nil => intro _; rfl
    | cons a l ih =>
      intro hl
      rw [List.filterMap_cons_some (b := Node.entry (t.nodes[a]'(hl a (by simp)))) (by simp [List.getElem?_eq_getElem (hl a (by simp))])]
      simp [ih fun x hx => hl x (by simp [hx])]
  rw [h.cnt, ← h.len]
  exact hl _ fun x hx => h.mem.mp hx

theorem nodup_at {l : List Nat} (h : l.Nodup) {i j x : Nat} (hi : l[i]? = some x) (hj : l[j]? = some x) : i = j := by
  exact (List.getElem?_inj (List.getElem?_eq_some_iff.mp hi).1 h).mp (hi.trans hj.symm)

theorem TInv.nodup {H : Bytes → Nat} {t : Table α} (h : TInv H t) : t.ordered.Nodup := h.ord.nodup_iff.mpr List.nodup_range

/-- An entry is in the view at its index. -/
theorem TInv.node_at {H : Bytes → Nat} {t : Table α} (h : TInv H t) {id : Nat} {n : Node α} (hn : t.nodes[id]? = some n) :
    t.view[n.index]? = some n.entry ∧ t.ordered[n.index]? = some id := by
  have hlt : id < t.nodes.length := (List.getElem?_eq_some_iff.mp hn).1
  obtain ⟨i, hi⟩ := List.getElem?_of_mem (h.mem.mpr hlt)
  have := h.idx i id n hi hn
  subst this
  exact ⟨by rw [h.view_at, hi]; simp [hn], hi⟩

theorem TInv.at_node {H : Bytes → Nat} {t : Table α} (h : TInv H t) {i : Nat} {e : Entry α} (he : t.view[i]? = some e) :
    ∃ (id : Nat) (n : Node α), t.nodes[id]? = some n ∧ n.entry = e ∧ n.index = i := by
  rw [h.view_at] at he
  simp only [Option.bind_eq_some_iff, Option.map_eq_some_iff] at he
  obtain ⟨id, hi, n, hn, e⟩ := he
  exact ⟨id, n, hn, e, h.idx i id n hi hn⟩

/-- Keys are different. -/
def Differ (d : Dict α) : Prop := ∀ (i j : Nat) (e f : Entry α), d[i]? = some e → d[j]? = some f → e.key = f.key → i = j

theorem TInv.differ {H : Bytes → Nat} {t : Table α} (h : TInv H t) : Differ t.view := by
  intro i j e f hi hj hk
  obtain ⟨a, n, h1, rfl, rfl⟩ := h.at_node hi
  obtain ⟨b, m, h2, rfl, rfl⟩ := h.at_node hj
  have := h.keys a b n m h1 h2 hk
  subst this
  rw [h1] at h2; simp only [Option.some.injEq] at h2; rw [h2]

theorem dict_found {d : Dict α} (hd : Differ d) {i : Nat} {e : Entry α} (h : d[i]? = some e) : d.get e.key = some e.val ∧ d.index e.key = some i := by
  induction d generalizing i with
  | nil => simp at h
  | cons a d ih =>
    cases i with
    | zero => simp only [List.getElem?_cons_zero, Option.some.injEq] at h; subst h; simp [Dict.get, Dict.index]
    | succ i =>
      have hne : a.key ≠ e.key := fun hk => by
        have := hd 0 (i + 1) a e (by simp) h hk
        omega
      have := ih (fun i j e f hi hj hk => by have := hd (i + 1) (j + 1) e f (by simpa using hi) (by simpa using hj) hk; omega) (i := i) (by simpa using h)
      exact ⟨by simp only [Dict.get, hne, if_false]; exact this.1, by simp only [Dict.index, hne, if_false]; rw [this.2]; rfl⟩

theorem dict_none {d : Dict α} {k : Bytes} (h : ∀ (e : Entry α), e ∈ d → e.key ≠ k) : d.get k = none ∧ d.index k = none := by
  induction d with
  | nil => exact ⟨rfl, rfl⟩
  | cons a d ih =>
    have := ih fun e he => h e (List.mem_cons_of_mem _ he)
    have ha : a.key ≠ k := h a (List.mem_cons_self)
    exact ⟨by simp only [Dict.get, ha, if_false]; exact this.1, by simp only [Dict.index, ha, if_false]; rw [this.2]; rfl⟩

/-- Searching finds the entry with the key. -/
theorem TInv.lookup {H : Bytes → Nat} {t : Table α} (h : TInv H t) (k : Bytes) :
    (∃ id n, lookup H t k = .ok (some id) ∧ t.nodes[id]? = some n ∧ n.key = k) ∨
    (Vscf.lookup H t k = .ok none ∧ ∀ (e : Entry α), e ∈ t.view → e.key ≠ k) := by
  have hnone : (∀ (id : Nat) n, t.nodes[id]? = some n → n.key ≠ k) → ∀ (e : Entry α), e ∈ t.view → e.key ≠ k := by
    intro hn e he
    obtain ⟨i, hi⟩ := List.getElem?_of_mem he
    obtain ⟨id, n, h1, rfl, _⟩ := h.at_node hi
    exact hn id n h1
  unfold Vscf.lookup
  split
  · next h0 =>
    refine Or.inr ⟨rfl, hnone fun id n hn => ?_⟩
    have := (List.getElem?_eq_some_iff.mp hn).1
    rw [← h.cnt, h0] at this; omega
  · next h0 =>
    cases hc : t.children with
    | none => exact absurd (by rw [h.cnt, h.empty hc]; rfl) h0
    | some tab =>
      obtain ⟨hch, _⟩ := h.tab tab hc
      have hlt : H k &&& c2m t.count < tab.length := by rw [hch.1]; exact slot_lt
      have he := List.getElem?_eq_getElem hlt
      simp only [he]
      rcases seek_ok (k := k) (hch.valid _ (List.getElem_mem hlt)) with ⟨id, n, h1, _, h3, h4⟩ | ⟨h1, h2⟩
      · exact Or.inl ⟨id, n, h1, h3, h4⟩
      · refine Or.inr ⟨h1, hnone fun id n hn hk => ?_⟩
        subst hk
        exact h2 id ((hch.2 _ _ he id).mpr ⟨trivial, n, hn, rfl⟩) n hn rfl

/-! ### What is done -/

theorem tinv_new {H : Bytes → Nat} : TInv H (Table.new : Table α) :=
  ⟨rfl, by simp [Table.new], by simp [Table.new], by simp [Table.new], fun _ => rfl, fun _ h => by cases h⟩

theorem add_ok {H : Bytes → Nat} {t : Table α} (h : TInv H t) (hc : t.count + 1 < 2 ^ 31) (k : Bytes) (v : α) :
    (t.view.add k v = none ∧ add H t k v = .ok none) ∨
    (∃ t', add H t k v = .ok (some t') ∧ TInv H t' ∧ t.view.add k v = some t'.view) := by
  have hf := c2m_facts (n := t.count) (by omega)
  -- the table that is there, or a new one
  obtain ⟨tab, cap, hm, hch, hcap⟩ : ∃ tab cap, t.start = (tab, cap) ∧
      Chains H t.nodes (c2m t.count) tab ∧ cap = c2m t.count + 1 := by
    unfold Table.start
    cases hch : t.children with
    | none =>
      have h0 := h.empty hch
      have hc0 : t.count = 0 := by rw [h.cnt, h0]; rfl
      refine ⟨_, _, rfl, ⟨by rw [hc0]; decide, fun i c hi id => ?_⟩, by rw [hc0]; decide⟩
      rw [List.getElem?_replicate] at hi
      split at hi
      · simp only [Option.some.injEq] at hi; subst hi; simp [h0]
      · cases hi
    | some tab => exact ⟨_, _, rfl, h.tab tab hch⟩
  have hlt : H k &&& c2m t.count < tab.length := by rw [hch.1]; exact slot_lt
  have he := List.getElem?_eq_getElem hlt
  have hview : ∀ (e : Entry α), e ∈ t.view ↔ ∃ (id : Nat) (n : Node α), t.nodes[id]? = some n ∧ n.entry = e := by
    intro e
    constructor
    · intro hm
      obtain ⟨i, hi⟩ := List.getElem?_of_mem hm
      obtain ⟨id, n, h1, h2, _⟩ := h.at_node hi
      exact ⟨id, n, h1, h2⟩
    · rintro ⟨id, n, h1, rfl⟩
      exact List.mem_of_getElem? (h.node_at h1).1
  unfold add
  rw [hm]
  simp only [he]
  rcases seek_ok (k := k) (hch.valid _ (List.getElem_mem hlt)) with ⟨id, n, h1, _, h3, h4⟩ | ⟨h1, h2⟩
  · left
    rw [h1]
    exact ⟨if_pos ⟨n.entry, (hview _).mpr ⟨id, n, h3, rfl⟩, h4⟩, rfl⟩
  · right
    have hnew : ∀ (id : Nat) (n : Node α), t.nodes[id]? = some n → n.key ≠ k := fun id n hn hk => by
      subst hk
      exact h2 id ((hch.2 _ _ he id).mpr ⟨trivial, n, hn, rfl⟩) n hn rfl
    have hadd : t.view.add k v = some (t.view ++ [⟨k, false, v⟩]) := by
      refine if_neg ?_
      rintro ⟨e, he, hk⟩
      obtain ⟨id, n, h5, rfl⟩ := (hview e).mp he
      exact hnew id n h5 hk
    rw [h1, hadd]
    simp only [Outcome.bind_ok]
    -- the new entry is in the old table
    have hin : Chains H (t.nodes ++ [⟨k, t.count, false, v⟩]) (c2m t.count) (tab.set (H k &&& c2m t.count) (tab[H k &&& c2m t.count] ++ [t.nodes.length])) := by
      have hold : Chained H (t.nodes ++ [⟨k, t.count, false, v⟩]) (c2m t.count) (fun x => x < t.nodes.length) tab := by
        refine ⟨hch.1, fun i c hi id => ?_⟩
        rw [hch.2 i c hi id]
        constructor
        · rintro ⟨_, n, hn, e⟩
          have hl := (List.getElem?_eq_some_iff.mp hn).1
          exact ⟨hl, n, by rw [List.getElem?_append_left hl]; exact hn, e⟩
        · rintro ⟨hl, n, hn, e⟩
          rw [List.getElem?_append_left hl] at hn
          exact ⟨trivial, n, hn, e⟩
      obtain ⟨tab', hl, hp⟩ := chained_link (id := t.nodes.length) (n := ⟨k, t.count, false, v⟩) hold (by simp)
      rw [link, he] at hl
      simp only [Outcome.ok.injEq] at hl
      subst hl
      refine ⟨hp.1, fun i c hi id => ?_⟩
      rw [hp.2 i c hi id]
      constructor
      · rintro ⟨_, b⟩; exact ⟨trivial, b⟩
      · rintro ⟨_, n, hn, e⟩
        have hl := (List.getElem?_eq_some_iff.mp hn).1
        simp only [List.length_append, List.length_singleton] at hl
        exact ⟨by omega, n, hn, e⟩
    -- growing
    obtain ⟨tab', hgrow, hch'⟩ : ∃ tab', (if t.count = c2m t.count then grow H { t with nodes := t.nodes ++ [⟨k, t.count, false, v⟩], children := some (tab.set (H k &&& c2m t.count) (tab[H k &&& c2m t.count] ++ [t.nodes.length])), cap := cap } (tab.set (H k &&& c2m t.count) (tab[H k &&& c2m t.count] ++ [t.nodes.length]))
        else .ok { t with nodes := t.nodes ++ [⟨k, t.count, false, v⟩], children := some (tab.set (H k &&& c2m t.count) (tab[H k &&& c2m t.count] ++ [t.nodes.length])), cap := cap } : Outcome (Table α)) =
          .ok { t with nodes := t.nodes ++ [⟨k, t.count, false, v⟩], children := some tab', cap := c2m (t.count + 1) + 1 } ∧
        Chains H (t.nodes ++ [⟨k, t.count, false, v⟩]) (c2m (t.count + 1)) tab' := by
      rw [hf.2.2]
      by_cases hg : t.count = c2m t.count
      · rw [if_pos hg, if_pos hg]
        obtain ⟨tab', h5, h6⟩ := chains_move (m := c2m t.count <<< 1 ||| 1) hin
        refine ⟨tab', ?_, h6⟩
        have hfit : c2m t.count <<< 1 ||| 1 < 2 ^ 32 - 1 := by
          have := (c2m_facts (n := t.count + 1) hc).2.1
          rw [hf.2.2, if_pos hg] at this
          exact this
        have hfit : decide ((c2m t.count <<< 1 ||| 1) + 1 < 2 ^ 32) = true := by apply decide_eq_true; omega
        simp only [grow, hfit, assert_true, Outcome.bind_ok, h5]
      · rw [if_neg hg, if_neg hg]
        exact ⟨_, by rw [hcap], hin⟩
    simp only [hgrow, Outcome.bind_ok]
    have hcf := c2m_facts (n := t.count + 1) hc
    have hcnt : decide (t.count < c2m (t.count + 1) + 1 ∧ t.count = t.ordered.length) = true := by
      apply decide_eq_true
      exact ⟨by omega, by rw [h.len, h.cnt]⟩
    simp only [hcnt, assert_true, Outcome.bind_ok]
    refine ⟨_, rfl, ?_, ?_⟩
    · refine ⟨by simp [h.cnt], ?_, ?_, ?_, by simp, ?_⟩
      · show (t.ordered ++ [t.nodes.length]).Perm _
        rw [List.length_append, List.length_singleton, List.range_succ]
        exact h.ord.append_right _
      · intro i id n hi hn
        dsimp only at hi hn
        by_cases hil : i < t.ordered.length
        · rw [List.getElem?_append_left hil] at hi
          have hid := h.mem.mp (List.mem_of_getElem? hi)
          rw [List.getElem?_append_left hid] at hn
          exact h.idx i id n hi hn
        · rw [List.getElem?_append_right (by omega)] at hi
          have : i = t.ordered.length := by
            have := (List.getElem?_eq_some_iff.mp hi).1
            simp only [List.length_singleton] at this
            omega
          subst this
          simp only [Nat.sub_self, List.getElem?_cons_zero, Option.some.injEq] at hi
          subst hi
          simp only [List.getElem?_concat_length, Option.some.injEq] at hn
          subst hn
          show t.count = _
          rw [h.len, h.cnt]
      · intro i j n m hi hj hk
        dsimp only at hi hj
        rw [List.getElem?_append] at hi hj
        split at hi <;> split at hj
        · exact h.keys i j n m hi hj hk
        · have := List.mem_of_getElem? hj
          simp only [List.mem_singleton] at this
          subst this
          exact absurd hk (hnew i n hi)
        · have := List.mem_of_getElem? hi
          simp only [List.mem_singleton] at this
          subst this
          exact absurd hk.symm (hnew j m hj)
        · have h5 := (List.getElem?_eq_some_iff.mp hi).1
          have h6 := (List.getElem?_eq_some_iff.mp hj).1
          simp only [List.length_singleton] at h5 h6
          omega
      · intro tab'' ht
        simp only [Option.some.injEq] at ht
        subst ht
        exact ⟨hch', rfl⟩
    · congr 1
      show _ = (t.ordered ++ [t.nodes.length]).filterMap _
      rw [List.filterMap_append]
      congr 1
      · unfold Table.view
        apply filterMap_same
        intro x hx
        rw [List.getElem?_append_left (h.mem.mp hx)]
      · simp [Node.entry]

theorem mark_ok {H : Bytes → Nat} {t : Table α} (h : TInv H t) {id : Nat} {n : Node α} (hn : t.nodes[id]? = some n) :
    TInv H { t with nodes := t.nodes.set id { n with marked := true } } ∧ Table.view { t with nodes := t.nodes.set id { n with marked := true } } = t.view.mark n.key := by
  have hid := (List.getElem?_eq_some_iff.mp hn).1
  have hset : ∀ (j : Nat) (m : Node α), (t.nodes.set id { n with marked := true })[j]? = some m → ∃ m', t.nodes[j]? = some m' ∧ m'.key = m.key ∧ m'.index = m.index := by
    intro j m hm
    rw [List.getElem?_set] at hm
    split at hm
    · next hj =>
      subst hj
      simp only [hid, if_true, Option.some.injEq] at hm
      subst hm
      exact ⟨n, hn, rfl, rfl⟩
    · exact ⟨m, hm, rfl, rfl⟩
  have hset' : ∀ (j : Nat) (m : Node α), t.nodes[j]? = some m → ∃ m', (t.nodes.set id { n with marked := true })[j]? = some m' ∧ m'.key = m.key := by
    intro j m hm
    rw [List.getElem?_set]
    split
    · next hj =>
      subst hj
      rw [hn] at hm
      simp only [Option.some.injEq] at hm
      subst hm
      simp [hid]
    · exact ⟨m, hm, rfl⟩
  have hI : TInv H { t with nodes := t.nodes.set id { n with marked := true } } := by
    refine ⟨by simpa using h.cnt, by simpa using h.ord, ?_, ?_, ?_, ?_⟩
    · intro i j m hi hm
      obtain ⟨m', h1, h2, h3⟩ := hset j m hm
      rw [← h3]; exact h.idx i j m' hi h1
    · intro i j a b hi hj hk
      obtain ⟨a', h1, h2, _⟩ := hset i a hi
      obtain ⟨b', h3, h4, _⟩ := hset j b hj
      exact h.keys i j a' b' h1 h3 (by rw [h2, h4, hk])
    · intro h0
      have := h.empty h0
      simp [this]
    · intro tab ht
      obtain ⟨h1, h2⟩ := h.tab tab ht
      refine ⟨⟨h1.1, fun i c hi x => ?_⟩, h2⟩
      rw [h1.2 i c hi x]
      constructor
      · rintro ⟨_, m, hm, e⟩
        obtain ⟨m', h3, h4⟩ := hset' x m hm
        exact ⟨trivial, m', h3, by rw [h4]; exact e⟩
      · rintro ⟨_, m, hm, e⟩
        obtain ⟨m', h3, h4, _⟩ := hset x m hm
        exact ⟨trivial, m', h3, by rw [h4]; exact e⟩
  refine ⟨hI, ?_⟩
  apply List.ext_getElem?
  intro i
  rw [hI.view_at, Dict.mark, List.getElem?_map, h.view_at]
  dsimp only
  cases hi : t.ordered[i]? with
  | none => rfl
  | some x =>
    simp only [Option.bind_some]
    have hx := h.mem.mp (List.mem_of_getElem? hi)
    rw [List.getElem?_set]
    split
    · next hj =>
      subst hj
      rw [hn]; simp [hid, Node.entry]
    · next hj =>
      have hxe := List.getElem?_eq_getElem hx
      rw [hxe]
      simp only [Option.map_some, Node.entry]
      have : t.nodes[x].key ≠ n.key := fun hk => hj (h.keys id x n _ hn hxe hk.symm)
      simp [this]

theorem mark_none {d : Dict α} {k : Bytes} (h : ∀ (e : Entry α), e ∈ d → e.key ≠ k) : d.mark k = d := by
  unfold Dict.mark
  rw [List.map_congr_left (g := id)]
  · simp
  · intro e he; simp [h e he]

/-- The table after a search. -/
theorem get_ok {H : Bytes → Nat} {t : Table α} (h : TInv H t) (k : Bytes) (mark : Bool) :
    ∃ t', getKey H t k mark = .ok (t', t.view.get k) ∧ TInv H t' ∧ t'.view = if mark = true then t.view.mark k else t.view := by
  unfold getKey
  rcases h.lookup k with ⟨id, n, h1, h2, rfl⟩ | ⟨h1, h2⟩
  · have hd := dict_found h.differ (h.node_at h2).1
    rw [show n.key = n.entry.key from rfl, hd.1]
    simp only [h1, Outcome.bind_ok, h2, Node.entry]
    cases mark with
    | true => exact ⟨_, rfl, (mark_ok h h2).1, (mark_ok h h2).2⟩
    | false => exact ⟨t, rfl, h, by simp⟩
  · rw [(dict_none h2).1]
    simp only [h1, Outcome.bind_ok]
    refine ⟨t, rfl, h, ?_⟩
    rw [mark_none h2, ite_self]

theorem index_ok {H : Bytes → Nat} {t : Table α} (h : TInv H t) (k : Bytes) :
    indexOf H t k = .ok (match t.view.index k with | none => -1 | some i => i) := by
  unfold indexOf
  rcases h.lookup k with ⟨id, n, h1, h2, rfl⟩ | ⟨h1, h2⟩
  · have hd := dict_found h.differ (h.node_at h2).1
    rw [show n.key = n.entry.key from rfl, hd.2]
    simp [h1, h2, Node.entry]
  · rw [(dict_none h2).2]
    simp [h1]

theorem at_ok {H : Bytes → Nat} {t : Table α} (h : TInv H t) (i : Nat) : ∃ r, getAt t i = .ok r ∧ t.view[i]? = r.map Node.entry := by
  unfold getAt
  rw [h.view_at]
  by_cases hi : i ≥ t.count
  · refine ⟨none, if_pos hi, ?_⟩
    rw [List.getElem?_eq_none (by rw [h.len, ← h.cnt]; exact hi)]; rfl
  · have hlt : i < t.ordered.length := by rw [h.len, ← h.cnt]; omega
    have he := List.getElem?_eq_getElem hlt
    have hx := h.mem.mp (List.getElem_mem hlt)
    refine ⟨some t.nodes[t.ordered[i]], ?_, ?_⟩
    · simp [hi, he, List.getElem?_eq_getElem hx]
    · simp [he, List.getElem?_eq_getElem hx]

theorem iterate_ok {H : Bytes → Nat} {t : Table α} (h : TInv H t) (ignore : Bool) (f : σ → Bytes → α → Bool × σ) :
    ∀ (n i : Nat) (x : σ), n + i = t.count → iterate t ignore f n i x = .ok (Dict.walk ignore f (t.view.drop i) x) := by
  intro n
  induction n with
  | zero =>
    intro i x hi
    rw [List.drop_eq_nil_of_le (by rw [h.view_len]; omega)]
    rfl
  | succ n ih =>
    intro i x hi
    have hlt : i < t.ordered.length := by rw [h.len, ← h.cnt]; omega
    have he := List.getElem?_eq_getElem hlt
    have hx := List.getElem?_eq_getElem (h.mem.mp (List.getElem_mem hlt))
    have hv : t.view[i]? = some (t.nodes[t.ordered[i]]'(h.mem.mp (List.getElem_mem hlt))).entry := by rw [h.view_at, he]; simp [hx]
    obtain ⟨hvl, hve⟩ := List.getElem?_eq_some_iff.mp hv
    rw [List.drop_eq_getElem_cons hvl, hve]
    simp only [iterate, he, hx]
    generalize t.nodes[t.ordered[i]]'(h.mem.mp (List.getElem_mem hlt)) = nd
    simp only [Dict.walk, Node.entry]
    have hmk : nd.marked = true ∨ nd.marked = false := by cases nd.marked <;> simp
    cases ignore <;> rcases hmk with hmk | hmk <;> simp only [hmk, Bool.false_eq_true, if_true, if_false, and_true, and_false, true_or, or_true, or_self, reduceCtorEq]
    all_goals first
      | exact ih (i + 1) x (by omega)
      | (obtain ⟨b, y, hfx⟩ : ∃ b y, f x nd.key nd.val = (b, y) := ⟨_, _, rfl⟩
         cases b with
         | false => simp [hfx]
         | true => simp [hfx, ih (i + 1) y (by omega)])

theorem range_self {l : List Nat} : (List.range l.length).filterMap (fun i => l[i]?) = l := by
  apply List.ext_getElem?
  intro i
  rw [filterMap_total (by intro x hx; simp [List.mem_range.mp hx])]
  by_cases hi : i < l.length
  · simp [List.getElem?_range hi]
  · rw [List.getElem?_eq_none (by simpa using hi), List.getElem?_eq_none (by simpa using hi)]; rfl

theorem reindex_ok {o : List Nat} (ho : o.Nodup) : ∀ (n i : Nat) (nodes : List (Node α)), n + i = o.length → (∀ x ∈ o, x < nodes.length) →
    ∃ nodes', reindex o n i nodes = .ok nodes' ∧ nodes'.length = nodes.length ∧
      ∀ (id : Nat) (m : Node α), nodes[id]? = some m → ∃ x, nodes'[id]? = some { m with index := x } ∧
        (∀ j, i ≤ j → o[j]? = some id → x = j) ∧ ((∀ j, i ≤ j → o[j]? ≠ some id) → x = m.index) := by
  intro n
  induction n with
  | zero =>
    intro i nodes hi hv
    refine ⟨nodes, rfl, rfl, fun id m hm => ⟨m.index, hm, fun j hj h => ?_, fun _ => rfl⟩⟩
    rw [List.getElem?_eq_none (by omega)] at h; cases h
  | succ n ih =>
    intro i nodes hi hv
    have hlt : i < o.length := by omega
    have he := List.getElem?_eq_getElem hlt
    have hx := hv _ (List.getElem_mem hlt)
    have hxe := List.getElem?_eq_getElem hx
    obtain ⟨nodes', h1, h2, h3⟩ := ih (i + 1) (nodes.set o[i] { nodes[o[i]] with index := i }) (by omega) (by simpa using hv)
    refine ⟨nodes', by simp only [reindex, he, hxe, h1], by simpa using h2, fun id m hm => ?_⟩
    by_cases hid : o[i] = id
    · subst hid
      rw [hxe] at hm
      simp only [Option.some.injEq] at hm
      subst hm
      obtain ⟨x, h4, h5, h6⟩ := h3 o[i] { nodes[o[i]] with index := i } (by simp [hx])
      refine ⟨x, h4, fun j hj hj' => ?_, fun hno => absurd he (hno i (Nat.le_refl _))⟩
      have hij := nodup_at ho he hj'
      subst hij
      exact h6 fun j hj hj' => by have := nodup_at ho he hj'; omega
    · obtain ⟨x, h4, h5, h6⟩ := h3 id m (by rw [List.getElem?_set_ne hid]; exact hm)
      refine ⟨x, h4, fun j hj hj' => ?_, fun hno => h6 fun j hj => hno j (by omega)⟩
      by_cases hji : j = i
      · subst hji; rw [he] at hj'; simp only [Option.some.injEq] at hj'; exact absurd hj' hid
      · exact h5 j (by omega) hj'

theorem sort_ok {H : Bytes → Nat} {t : Table α} (h : TInv H t) {p : List Nat} (hp : p.Perm (List.range t.view.length)) :
    ∃ t', sort t p = .ok t' ∧ TInv H t' ∧ t'.view = t.view.reorder p := by
  rw [h.view_len, h.cnt, ← h.len] at hp
  have hperm : (p.filterMap fun i => t.ordered[i]?).Perm t.ordered := by
    have := hp.filterMap (fun i => t.ordered[i]?)
    rwa [range_self] at this
  have hlen := hperm.length_eq
  obtain ⟨nodes', h1, h2, h3⟩ := reindex_ok (α := α) (hperm.nodup_iff.mpr h.nodup) t.count 0 t.nodes (by rw [hlen, h.len, h.cnt]; rfl)
    (fun x hx => h.mem.mp (hperm.mem_iff.mp hx))
  have hback : ∀ (id : Nat) (m : Node α), nodes'[id]? = some m → ∃ x m', t.nodes[id]? = some m' ∧ m = { m' with index := x } := by
    intro id m hm
    have hl : id < t.nodes.length := by rw [← h2]; exact (List.getElem?_eq_some_iff.mp hm).1
    obtain ⟨x, h4, _⟩ := h3 id _ (List.getElem?_eq_getElem hl)
    rw [hm] at h4
    simp only [Option.some.injEq] at h4
    exact ⟨x, _, List.getElem?_eq_getElem hl, h4⟩
  have hent : ∀ id : Nat, nodes'[id]?.map Node.entry = t.nodes[id]?.map Node.entry := by
    intro id
    cases hm : t.nodes[id]? with
    | none =>
      rw [List.getElem?_eq_none_iff] at hm
      rw [List.getElem?_eq_none (by omega)]
    | some m =>
      obtain ⟨x, h4, _⟩ := h3 id m hm
      rw [h4]; rfl
  refine ⟨{ t with ordered := p.filterMap fun i => t.ordered[i]?, nodes := nodes' }, by rw [sort]; simp only [h1, Outcome.bind_ok], ?_, ?_⟩
  · refine ⟨by rw [h2]; exact h.cnt, by rw [h2]; exact hperm.trans h.ord, ?_, ?_, ?_, ?_⟩
    · intro i id n hi hn
      obtain ⟨x, m', h4, rfl⟩ := hback id n hn
      obtain ⟨y, h5, h6, _⟩ := h3 id m' h4
      rw [hn] at h5
      simp only [Option.some.injEq, Node.mk.injEq] at h5
      show x = i
      rw [h5.2.1]
      exact h6 i (Nat.zero_le _) hi
    · intro i j a b hi hj hk
      obtain ⟨_, a', h4, rfl⟩ := hback i a hi
      obtain ⟨_, b', h5, rfl⟩ := hback j b hj
      exact h.keys i j a' b' h4 h5 hk
    · intro h0
      have := h.empty h0
      dsimp only
      rw [this] at h2
      exact List.eq_nil_of_length_eq_zero h2
    · intro tab ht
      obtain ⟨h4, h5⟩ := h.tab tab ht
      refine ⟨⟨h4.1, fun i c hi id => ?_⟩, h5⟩
      rw [h4.2 i c hi id]
      constructor
      · rintro ⟨_, n, hn, e⟩
        obtain ⟨x, h6, _⟩ := h3 id n hn
        exact ⟨trivial, _, h6, e⟩
      · rintro ⟨_, n, hn, e⟩
        obtain ⟨_, m, h6, rfl⟩ := hback id n hn
        exact ⟨trivial, m, h6, e⟩
  · show List.filterMap _ (List.filterMap _ p) = _
    rw [List.filterMap_filterMap]
    unfold Dict.reorder
    apply filterMap_same
    intro i _
    rw [h.view_at]
    cases t.ordered[i]? with
    | none => rfl
    | some id => simp only [Option.bind_some]; exact hent id

end Gdnsd.Vscf
