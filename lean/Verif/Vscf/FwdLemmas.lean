/-
Texts of the grammar are accepted, with their meaning.
-/
import Verif.Vscf.PathLemmas
namespace Gdnsd.Vscf
open VscfSpec

variable {m : Mach}

/-! ### Containers -/

/-- Where a value is expected. -/
def Good (d : Dat) : Prop :=
  match d.cur with
  | .arr _ => d.key = none
  | .hash _ => d.key ≠ none

/-- Inside of a container that is a value. -/
def St.inner (s : St) (k : Bytes) (c : Cont) (ctx : Ctx) : St :=
  { s with up := (s.dat.cur, k) :: s.up, dat := ⟨c, none⟩, ret := s.ctx :: s.ret, ctx := ctx, pos := .ws .item }

theorem open_cases {s : St} (hg : Good s.dat) :
    (∃ k, (∀ c ctx p, openC { s with pos := p } c ctx = .ok (some (s.inner k c ctx))) ∧ (∀ v, addVal s.dat v = .ok (some ⟨s.dat.cur.put k v, none⟩))) ∨
    ((∀ c ctx p, openC { s with pos := p } c ctx = .ok none) ∧ ∀ v, addVal s.dat v = .ok none) := by
  obtain ⟨ctx, pos, ret, ⟨cur, key⟩, up, tok⟩ := s
  cases cur with
  | arr vs =>
    have hk : key = none := hg
    subst hk
    exact .inl ⟨[], fun _ _ _ => rfl, fun _ => rfl⟩
  | hash es =>
    cases key with
    | none => exact absurd rfl hg
    | some k =>
      cases h : (keys es).contains k with
      | true => exact .inr ⟨by intros; simp only [openC, h, cond_true], by intros; simp only [addVal, addEntry, h, cond_true, Option.map_none]⟩
      | false => exact .inl ⟨k, by intros; simp only [openC, h, St.inner, cond_false], by intros; simp only [addVal, addEntry, h, Cont.put, cond_false, Option.map_some]⟩

theorem closeT (ctx : Ctx) (w : Ws) (h : w = .item ∨ w = .after) (c : UInt8) (hc : ctx = .arr ∧ c = 93 ∨ ctx = .hash ∧ c = 125) :
    wsT ctx w c = some (.ws .after, [.close]) := by
  rcases h with rfl | rfl <;> rcases hc with ⟨rfl, rfl⟩ | ⟨rfl, rfl⟩ <;> rfl

theorem step_act {s : St} {c : UInt8} {p : Pos} {a : Act} {s' : St} (h : trans m.early s.ctx s.pos c = some (p, [a]))
    (ha : m.exec a { s with pos := p } = .ok (some s')) (hp : s'.pos.inStr = false) : m.step s c = .ok (some s') := by
  unfold Mach.exec at ha
  simp [Mach.step, step, h, execs, ha, hp]

/-- The end of a container. -/
theorem acc_close {s : St} {k : Bytes} {c c' : Cont} {ctx : Ctx} {w : Ws} {tk : Option Bytes} (hw : w = .item ∨ w = .after) {x : UInt8}
    (hx : ctx = .arr ∧ x = 93 ∨ ctx = .hash ∧ x = 125) {r : Bytes} {v : Val} :
    m.Acc { s.inner k c ctx with pos := .ws w, dat := ⟨c', none⟩, tok := tk } (x :: r) v ↔ m.Acc (s.added ⟨s.dat.cur.put k c'.toVal, none⟩) r v := by
  have h : m.step { s.inner k c ctx with pos := .ws w, dat := ⟨c', none⟩, tok := tk } x =
      .ok (some { s with pos := .ws .after, dat := ⟨s.dat.cur.put k c'.toVal, none⟩, tok := tk }) :=
    step_act (p := .ws .after) (a := .close) (closeT ctx w hw x hx) rfl rfl
  rw [acc_cons]
  constructor
  · rintro ⟨s', h1, h2⟩
    rw [h] at h1
    simp only [Outcome.ok.injEq, Option.some.injEq] at h1
    subst h1
    exact (acc_clean rfl).1 h2
  · intro h2
    exact ⟨_, h, (acc_clean rfl).2 h2⟩

/-- The start of a container. -/
theorem step_open {s : St} {k : Bytes} {x : UInt8} {c : Cont} {ctx : Ctx} (hx : x = 91 ∧ c = .arr [] ∧ ctx = .arr ∨ x = 123 ∧ c = .hash [] ∧ ctx = .hash)
    (ht : trans m.early s.ctx s.pos x = valueT x) (ho : ∀ c ctx p, openC { s with pos := p } c ctx = .ok (some (s.inner k c ctx))) :
    m.step s x = .ok (some (s.inner k c ctx)) := by
  rcases hx with ⟨rfl, rfl, rfl⟩ | ⟨rfl, rfl, rfl⟩
  · exact step_act (p := .ws .after) (a := .openArr) ht (ho _ _ _) rfl
  · exact step_act (p := .ws .after) (a := .openHash) ht (ho _ _ _) rfl

/-! ### Places for items -/

def ItemPos (ctx : Ctx) (w : Ws) : Prop := w = .item ∨ w = .after ∨ w = .start ∧ ctx = .top

theorem itemPos_wsT {ctx : Ctx} {w : Ws} (h : ItemPos ctx w) {c : UInt8} (hg : isGap c = false) (h1 : c ≠ 44) (h2 : c ≠ 91 ∨ w ≠ .start) :
    wsT ctx w c = itemT ctx c := by
  simp only [isGap, Bool.or_eq_false_iff, beq_eq_false_iff_ne] at hg
  have e1 : (c == 32 || c == 9 || c == 10) = false := by simp [hg]
  have e2 : (c == 59 || c == 35) = false := by simp [hg]
  unfold wsT
  rw [e1, e2, cond_false, cond_false]
  rcases h with rfl | rfl | ⟨rfl, _⟩
  · rfl
  · have e3 : (c == 44) = false := by simpa using h1
    simp only [e3, cond_false]
  · have e3 : (c == 91) = false := by simpa using h2
    simp only [e3, cond_false]

theorem fchr_facts {c : UInt8} (h : isFchr c = true ∨ c = 92 ∨ c = 34) : isGap c = false ∧ c ≠ 44 ∧ c ≠ 91 ∧ c ≠ 93 ∧ c ≠ 125 ∧ c ≠ 36 ∧ c ≠ 123 := by
  have h' : ∀ c : UInt8, (isFchr c || c == 92 || c == 34) = true → isGap c = false ∧ c ≠ 44 ∧ c ≠ 91 ∧ c ≠ 93 ∧ c ≠ 125 ∧ c ≠ 36 ∧ c ≠ 123 :=
    u8_all _ (by decide +kernel)
  exact h' c (by simpa [or_assoc] using h)

theorem include_head {env : Env} {fn : Option Bytes} {x : Bytes} {ps : List Bytes} (h : Include env fn x ps) : ∃ r, x = 36 :: r := by
  obtain ⟨g, w, k, t, v, p, g', rfl, _⟩ := h
  exact ⟨_, rfl⟩

theorem value_head {env : Env} {touch : Bool} {fn : Option Bytes} {x : Bytes} {k : Kind} {v : Val} (h : Value env touch fn x k v) :
    ∃ c r, x = c :: r ∧ isGap c = false ∧ c ≠ 44 ∧ c ≠ 93 := by
  cases h with
  | word hw =>
    obtain ⟨c, r, e, hc⟩ := word_head hw
    have := fchr_facts hc
    exact ⟨c, r, e, this.1, this.2.1, this.2.2.2.1⟩
  | array _ => exact ⟨91, _, rfl, by decide⟩
  | hash _ _ => exact ⟨123, _, rfl, by decide⟩
  | incl hi _ =>
    obtain ⟨r, rfl⟩ := include_head hi
    exact ⟨36, r, rfl, by decide⟩

/-! ### Entries -/

theorem mergeInto_eq {es r : List (Entry Val)} (hn : ((es ++ r).map (·.key)).Nodup) (hm : ∀ e ∈ r, e.marked = false) : mergeInto es r = some (es ++ r) := by
  induction r generalizing es with
  | nil => simp [mergeInto]
  | cons e r ih =>
    have he : (keys es).contains e.key = false := by
      rw [← Bool.not_eq_true, List.contains_iff_mem]
      intro h
      rw [List.map_append, List.nodup_append] at hn
      exact hn.2.2 _ h _ (by simp) rfl
    have hm' : (⟨e.key, false, e.val⟩ : Entry Val) = e := by
      obtain ⟨k, mk, v⟩ := e
      have : mk = false := hm ⟨k, mk, v⟩ (by simp)
      subst this; rfl
    simp only [mergeInto, addEntry, he, cond_false, Option.bind_some, hm']
    rw [ih (by simpa using hn) (fun e h => hm e (by simp [h]))]
    simp

theorem mergeInto_inv {es r es' : List (Entry Val)} (hm : ∀ e ∈ r, e.marked = false) (hn : (es.map (·.key)).Nodup) (h : mergeInto es r = some es') :
    es' = es ++ r ∧ ((es ++ r).map (·.key)).Nodup := by
  induction r generalizing es with
  | nil => simp [mergeInto] at h; subst h; simp [hn]
  | cons e r ih =>
    have hm' : (⟨e.key, false, e.val⟩ : Entry Val) = e := by
      obtain ⟨k, mk, v⟩ := e
      have : mk = false := hm ⟨k, mk, v⟩ (by simp)
      subst this; rfl
    cases he : (keys es).contains e.key with
    | true => simp only [mergeInto, addEntry, he, cond_true, Option.bind_none, reduceCtorEq] at h
    | false =>
      simp only [mergeInto, addEntry, he, cond_false, Option.bind_some, hm'] at h
      have hn' : ((es ++ [e]).map (·.key)).Nodup := by
        rw [List.map_append, List.nodup_append]
        refine ⟨hn, by simp, ?_⟩
        intro a ha b hb hab
        simp at hb
        subst hb hab
        rw [← Bool.not_eq_true, List.contains_iff_mem] at he
        exact he ha
      have := ih (fun e h => hm e (by simp [h])) hn' h
      simpa using this

mutual

theorem assigns_unmarked {env : Env} {touch : Bool} {fn : Option Bytes} {t : Bytes} {es : List (Entry Val)} : Assigns env touch fn t es → ∀ e ∈ es, e.marked = false
  | .nil _ => by simp
  | .cons _ _ _ _ _ _ _ _ ha _ => by
    intro e he
    rcases List.mem_cons.1 he with rfl | he
    · rfl
    · exact assigns_unmarked ha e he
  | .merge _ _ hm _ _ ha => by
    intro e he
    rcases List.mem_append.1 he with he | he
    · exact merged_unmarked hm e he
    · exact assigns_unmarked ha e he

theorem merged_unmarked {env : Env} {touch : Bool} {ps : List Bytes} {es : List (Entry Val)} : Merged env touch ps es → ∀ e ∈ es, e.marked = false
  | .nil => by simp
  | .cons (.mk _ (.hash ha _)) hm => by
    intro e he
    rcases List.mem_append.1 he with he | he
    · exact assigns_unmarked ha e he
    · exact merged_unmarked hm e he

end

end Gdnsd.Vscf
