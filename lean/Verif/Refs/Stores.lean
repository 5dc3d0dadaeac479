/-
What mapping stores, and what is resolved with it.
-/
import Verif.Refs.Lemmas
namespace Gdnsd.Refs
open RefsSpec
open Meta (Target Dc Resource)

/-! ### Numbers -/

theorem mapRes_det {c : Conf} {z z' : Option Bytes} {k k' : Nat} {p : Bytes} {rn : Option Bytes} {n n' : Nat}
    (h : (mapRes c z k p rn).res = .ok n) (h' : (mapRes c z' k' p rn).res = .ok n') : n = n' := by
  cases k with
  | zero => cases h
  | succ k =>
    cases k' with
    | zero => cases h'
    | succ k' =>
      rcases mapRes_cases h with ⟨num, cn, h1, h2, _⟩ | ⟨rs, m, i, r, dc, h1, _⟩ <;> rcases mapRes_cases h' with ⟨num', cn', h1', h2', _⟩ | ⟨rs', m', i', r', dc', h1', _⟩
      · rw [h1] at h1'; cases h1'; rw [h2] at h2'; cases h2'; rfl
      · have := h1'.kind; rw [h1] at this; cases this
      · have := h1.kind; rw [h1'] at this; cases this
      · have a1 := h1.kind
        rw [h1'.kind] at a1
        cases a1
        have a2 := h1.name
        rw [h1'.name] at a2
        cases a2
        obtain ⟨b1, b2⟩ := firstOf_iff.mp h1.first
        obtain ⟨b1', b2'⟩ := firstOf_iff.mp h1'.first
        rw [b1] at b1'
        cases b1'
        rw [b2] at b2'
        cases b2'
        have d1 := fixedDc_ok.mpr ⟨h1.asked, h1.small⟩
        have d2 := fixedDc_ok.mpr ⟨h1'.asked, h1'.small⟩
        rw [d1] at d2
        cases d2
        have e1 := h1.num
        rw [h1'.num] at e1
        cases e1
        rfl

/-- The number that belongs to a datacenter. -/
def Right' (c : Conf) (s : Slot) (n : Nat) : Prop :=
  ∃ rs r d q m zone k, find c s.plugin = some (.multi rs) ∧ rs[s.res]? = some r ∧ dcAt r s.dc = some d ∧ d.target = .res q m ∧ (mapRes c zone k q m).res = .ok n

/-! ### The last store -/

/-- The number that is stored in a datacenter. -/
def Write.to (s : Slot) : Write → Option Nat
  | .num t n => if t = s then some n else none
  | .found _ => none

/-- The number last stored in a datacenter. -/
def last (s : Slot) : List Write → Option Nat
  | [] => none
  | w :: ws => (last s ws).or (w.to s)

theorem last_cons (s : Slot) (w : Write) (ws : List Write) : last s (w :: ws) = (last s ws).or (w.to s) := rfl

theorem last_append (s : Slot) : ∀ a b : List Write, last s (a ++ b) = (last s b).or (last s a)
  | [], b => by simp [last]
  | w :: a, b => by
    rw [List.cons_append, last_cons, last_cons, last_append s a b, Option.or_assoc]

theorem last_mem {s : Slot} {n : Nat} : ∀ {ws : List Write}, last s ws = some n → .num s n ∈ ws
  | [], h => by cases h
  | w :: ws, h => by
    rw [last_cons] at h
    cases hl : last s ws with
    | some m =>
      rw [hl] at h
      cases h
      exact List.mem_cons_of_mem _ (last_mem hl)
    | none =>
      rw [hl, Option.none_or] at h
      cases w with
      | found t => cases h
      | num t m =>
        unfold Write.to at h
        dsimp only at h
        split at h
        · rename_i ht; cases h; subst ht; exact List.mem_cons_self
        · cases h

theorem store_cell (s : Slot) : ∀ (ws : List Write) (σ : Cells), store σ ws s = ⟨(σ s).plugin || decide (.found s ∈ ws), (last s ws).getD (σ s).num⟩
  | [], σ => by simp [store, last]
  | w :: ws, σ => by
    show store (w.apply σ) ws s = _
    rw [store_cell s ws]
    cases w with
    | found t =>
      by_cases h : s = t
      · subst h; simp [Write.apply, last, Write.to]
      · have h' : ¬ t = s := fun e => h e.symm
        simp [Write.apply, last, Write.to, h, eq_comm]
    | num t n =>
      by_cases h : s = t
      · subst h
        simp only [Write.apply, last, Write.to, if_true, List.mem_cons, reduceCtorEq, false_or]
        cases last s ws <;> rfl
      · have h' : ¬ t = s := fun e => h e.symm
        simp [Write.apply, last, Write.to, h, h']

/-! ### What is stored -/

section
variable {c : Conf} {zone : Option Bytes}

/-- Stores of a call, however it ends: zero, or what is right. -/
def Fine (c : Conf) (ws : List Write) : Prop := ∀ s n, .num s n ∈ ws → n = 0 ∨ Right' c s n

theorem Fine.nil : Fine c [] := fun _ _ h => by cases h

theorem Fine.append {a b : List Write} (ha : Fine c a) (hb : Fine c b) : Fine c (a ++ b) := fun s n h => (List.mem_append.mp h).elim (ha s n) (hb s n)

theorem bind_fine {α β : Type} {x : Act α} {f : α → Act β} (hx : Fine c x.writes) (hf : ∀ a, x.res = .ok a → Fine c (f a).writes) : Fine c (x.bind f).writes := by
  cases h : x.res with
  | error s => rw [bind_writes_error h]; exact hx
  | ok a => rw [bind_writes h]; exact hx.append (hf a h)

theorem mapDcs_fine {k : Nat} {p : Bytes} {i : Nat} {r : Resource} {rs : List Resource} (hp : find c p = some (.multi rs)) (hi : rs[i]? = some r)
    (ih : ∀ q m, Fine c (mapRes c zone k q m).writes) : ∀ {js : List Nat}, Fine c (mapDcs c zone (mapRes c zone k) p i r js).writes
  | [] => Fine.nil
  | j :: js => by
    have ih' := mapDcs_fine hp hi ih (js := js)
    rw [mapDcs]
    split
    · exact ih'
    · rename_i d hd
      split
      · exact bind_fine (by rw [checkName_writes]; exact Fine.nil) fun _ _ => ih'
      · rename_i q m ht
        split
        · exact Fine.nil
        · refine bind_fine ?_ fun _ _ => Fine.nil
          intro s n h
          simp [Act.tell] at h
        · refine bind_fine ?_ fun _ _ => bind_fine (ih q m) fun n hn => bind_fine ?_ fun _ _ => ih'
          · intro s n h
            simp only [Act.tell, List.mem_cons, reduceCtorEq, Write.num.injEq, List.not_mem_nil, or_false, false_or] at h
            exact Or.inl h.2
          · intro s n' h
            simp only [Act.tell, List.mem_cons, Write.num.injEq, List.not_mem_nil, or_false] at h
            obtain ⟨rfl, rfl⟩ := h
            exact Or.inr ⟨rs, r, d, q, m, zone, k, hp, hi, hd, ht, hn⟩

theorem mapRes_fine : ∀ {k : Nat} {p : Bytes} {rn : Option Bytes}, Fine c (mapRes c zone k p rn).writes
  | 0, _, _ => Fine.nil
  | k + 1, p, rn => by
    rw [mapRes]
    split
    · exact Fine.nil
    · exact Fine.nil
    · split
      · exact Fine.nil
      · exact bind_fine (by rw [checkNames_writes]; exact Fine.nil) fun _ _ => Fine.nil
    · rename_i rs hp
      split
      · exact Fine.nil
      · split
        · exact Fine.nil
        · split
          · exact Fine.nil
          · rename_i r hr
            refine bind_fine (by rw [fixedDc_writes]; exact Fine.nil) fun dc _ => bind_fine (mapDcs_fine hp hr fun q m => mapRes_fine) fun _ _ => ?_
            rw [number_writes]
            exact Fine.nil

/-- Stores of a call that ends well: the last number is right, and there is one for each datacenter that was touched. -/
def Done (c : Conf) (ws : List Write) : Prop := (∀ s n, last s ws = some n → Right' c s n) ∧ ∀ s, .found s ∈ ws → last s ws ≠ none

theorem Done.nil : Done c [] := ⟨nofun, nofun⟩

theorem Done.append {a b : List Write} (ha : Done c a) (hb : Done c b) : Done c (a ++ b) := by
  refine ⟨fun s n h => ?_, fun s h => ?_⟩
  · rw [last_append] at h
    cases hl : last s b with
    | some m => rw [hl] at h; cases h; exact hb.1 s _ hl
    | none => rw [hl, Option.none_or] at h; exact ha.1 s n h
  · rw [last_append]
    rcases List.mem_append.mp h with h | h
    · have := ha.2 s h
      cases last s b with
      | some m => simp
      | none => simpa using this
    · have := hb.2 s h
      cases hl : last s b with
      | some m => simp
      | none => exact absurd hl this

theorem Done.store {s : Slot} {n : Nat} {a : List Write} (ha : Done c a) (hn : Right' c s n) : Done c ([.found s, .num s 0] ++ (a ++ [.num s n])) := by
  have key : ∀ t, t ≠ s → last t ([.found s, .num s 0] ++ (a ++ [.num s n])) = last t a := by
    intro t ht
    have ht' : ¬ s = t := fun e => ht e.symm
    rw [last_append, last_append]
    simp [last, Write.to, ht']
  have key2 : last s ([.found s, .num s 0] ++ (a ++ [.num s n])) = some n := by
    rw [last_append, last_append]
    simp [last, Write.to]
  refine ⟨fun t m h => ?_, fun t h => ?_⟩
  · by_cases ht : t = s
    · subst ht
      rw [key2] at h
      cases h
      exact hn
    · rw [key t ht] at h
      exact ha.1 t m h
  · by_cases ht : t = s
    · subst ht
      rw [key2]
      simp
    · rw [key t ht]
      have : Write.found t ∈ a := by simpa [ht] using h
      exact ha.2 t this

theorem mapDcs_done {k : Nat} {p : Bytes} {i : Nat} {r : Resource} {rs : List Resource} (hp : find c p = some (.multi rs)) (hi : rs[i]? = some r)
    (ih : ∀ q m n, (mapRes c zone k q m).res = .ok n → Done c (mapRes c zone k q m).writes) :
    ∀ {js : List Nat}, (mapDcs c zone (mapRes c zone k) p i r js).res = .ok () →
      Done c (mapDcs c zone (mapRes c zone k) p i r js).writes ∧
      ∀ j ∈ js, ∀ d q m, dcAt r j = some d → d.target = .res q m → .found ⟨p, i, j⟩ ∈ (mapDcs c zone (mapRes c zone k) p i r js).writes ∧
        ∀ w ∈ (mapRes c zone k q m).writes, w ∈ (mapDcs c zone (mapRes c zone k) p i r js).writes
  | [], _ => ⟨Done.nil, nofun⟩
  | j :: js, h => by
    have hall := mapDcs_ok.mp h
    have hjs : (mapDcs c zone (mapRes c zone k) p i r js).res = .ok () := mapDcs_ok.mpr fun x hx => hall x (by simp [hx])
    obtain ⟨g1, g2⟩ := mapDcs_done hp hi ih hjs
    cases hd : dcAt r j with
    | none =>
      rw [mapDcs_none hd]
      refine ⟨g1, fun x hx d q m h1 h2 => ?_⟩
      rcases List.mem_cons.mp hx with rfl | hx
      · rw [hd] at h1; cases h1
      · exact g2 x hx d q m h1 h2
    | some d =>
      obtain ⟨f1, f2⟩ := hall j (by simp) d hd
      cases ht : d.target with
      | cname t x svcs =>
        rw [mapDcs_cname hd ht, bind_writes (checkName_ok.mpr (f1 t x svcs ht)), checkName_writes, List.nil_append]
        refine ⟨g1, fun x hx d' q m h1 h2 => ?_⟩
        rcases List.mem_cons.mp hx with rfl | hx
        · rw [hd] at h1; cases h1; rw [ht] at h2; cases h2
        · exact g2 x hx d' q m h1 h2
      | res q m =>
        obtain ⟨⟨kind, hk, hm⟩, n, hn⟩ := f2 q m ht
        rw [mapDcs_res hd ht hk hm, bind_writes tell_res, bind_writes hn, bind_writes tell_res]
        have hst := (ih q m n hn).store (s := ⟨p, i, j⟩) ⟨rs, r, d, q, m, zone, k, hp, hi, hd, ht, hn⟩
        refine ⟨?_, fun x hx d' q' m' h1 h2 => ?_⟩
        · have := hst.append g1
          simpa [Act.tell, List.append_assoc] using this
        · rcases List.mem_cons.mp hx with rfl | hx
          · rw [hd] at h1; cases h1; rw [ht] at h2; cases h2
            exact ⟨by simp [Act.tell], fun w hw => by simp [hw]⟩
          · obtain ⟨a1, a2⟩ := g2 x hx d' q' m' h1 h2
            exact ⟨by simp [a1], fun w hw => by simp [a2 w hw]⟩

theorem mapRes_done : ∀ {k : Nat} {p : Bytes} {rn : Option Bytes} {n : Nat}, (mapRes c zone k p rn).res = .ok n → Done c (mapRes c zone k p rn).writes
  | 0, _, _, _, h => by cases h
  | k + 1, p, rn, n, h => by
    rcases mapRes_cases h with ⟨_, _, _, _, _, hw⟩ | ⟨rs, m, i, r, dc, h1, hw⟩
    · rw [hw]; exact Done.nil
    · rw [hw]
      exact (mapDcs_done h1.kind (firstOf_iff.mp h1.first).2 (fun q m n hn => mapRes_done hn) h1.dcs).1

/-! ### At the same time -/

theorem merge_mem {w : Write} {ls : List (List Write)} {ws : List Write} (h : Merge ls ws) : w ∈ ws ↔ ∃ l ∈ ls, w ∈ l := by
  induction h with
  | done h => exact ⟨nofun, fun ⟨l, h1, h2⟩ => by rw [h l h1] at h2; cases h2⟩
  | @step as bs v l ws h ih =>
    rw [List.mem_cons, ih]
    simp only [List.mem_append, List.mem_cons]
    constructor
    · rintro (rfl | ⟨l', h1 | rfl | h1, h2⟩)
      · exact ⟨w :: l, Or.inr (Or.inl rfl), by simp⟩
      · exact ⟨l', Or.inl h1, h2⟩
      · exact ⟨v :: l', Or.inr (Or.inl rfl), by simp [h2]⟩
      · exact ⟨l', Or.inr (Or.inr h1), h2⟩
    · rintro ⟨l', h1 | rfl | h1, h2⟩
      · exact Or.inr ⟨l', Or.inl h1, h2⟩
      · rcases List.mem_cons.mp h2 with rfl | h2
        · exact Or.inl rfl
        · exact Or.inr ⟨l, Or.inr (Or.inl rfl), h2⟩
      · exact Or.inr ⟨l', Or.inr (Or.inr h1), h2⟩

theorem last_of_mem {s : Slot} {n : Nat} : ∀ {ws : List Write}, .num s n ∈ ws → last s ws ≠ none
  | [], h => by cases h
  | w :: ws, h => by
    rw [last_cons]
    rcases List.mem_cons.mp h with rfl | h
    · simp only [Write.to, if_true]
      cases last s ws <;> simp
    · have := last_of_mem h
      cases hh : last s ws with
      | none => exact absurd hh this
      | some x => simp

theorem merge_last {s : Slot} {n : Nat} {ls : List (List Write)} {ws : List Write} (h : Merge ls ws) : last s ws = some n → ∃ l ∈ ls, last s l = some n := by
  induction h with
  | done h => exact nofun
  | @step as bs v l ws h ih =>
    intro hl
    rw [last_cons] at hl
    cases hw : last s ws with
    | some m =>
      rw [hw] at hl
      cases hl
      obtain ⟨l', h1, h2⟩ := ih hw
      simp only [List.mem_append, List.mem_cons] at h1
      rcases h1 with h1 | rfl | h1
      · exact ⟨l', by simp [h1], h2⟩
      · exact ⟨v :: l', by simp, by rw [last_cons, h2]; rfl⟩
      · exact ⟨l', by simp [h1], h2⟩
    | none =>
      rw [hw, Option.none_or] at hl
      refine ⟨v :: l, by simp, ?_⟩
      rw [last_cons]
      cases hl' : last s l with
      | some m =>
        have : Write.num s m ∈ ws := (merge_mem h).mpr ⟨l, by simp, last_mem hl'⟩
        exact absurd hw (last_of_mem this)
      | none => rw [Option.none_or]; exact hl

theorem merge_done {ls : List (List Write)} {ws : List Write} (h : Merge ls ws) (hd : ∀ l ∈ ls, Done c l) : Done c ws := by
  refine ⟨fun s n hl => ?_, fun s hf => ?_⟩
  · obtain ⟨l, h1, h2⟩ := merge_last h hl
    exact (hd l h1).1 s n h2
  · obtain ⟨l, h1, h2⟩ := (merge_mem h).mp hf
    cases hl : last s l with
    | none => exact absurd hl ((hd l h1).2 s h2)
    | some n => exact last_of_mem ((merge_mem h).mpr ⟨l, h1, last_mem hl⟩)

/-- A cell that is right. -/
def RightCell (c : Conf) (σ : Cells) (s : Slot) : Prop := (σ s).plugin = true ∧ Right' c s (σ s).num

theorem store_right {ws : List Write} (hd : Done c ws) {σ : Cells} {s : Slot} (h : RightCell c σ s ∨ .found s ∈ ws) : RightCell c (store σ ws) s := by
  unfold RightCell
  rw [store_cell]
  dsimp only
  cases hl : last s ws with
  | some n =>
    refine ⟨?_, hd.1 s n hl⟩
    rcases h with h | h
    · simp [h.1]
    · simp [h]
  | none =>
    rcases h with h | h
    · exact ⟨by simp [h.1], h.2⟩
    · exact absurd hl (hd.2 s h)

end

end Gdnsd.Refs
