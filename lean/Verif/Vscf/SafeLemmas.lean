/-
No text makes the scanner fail an assertion or leave a buffer, but for two strings that touch.
-/
import Verif.Vscf.RejectLemmas
namespace Gdnsd.Vscf
open VscfSpec

variable {m : Mach}

theorem units_append {ok : UInt8 → Prop} {a b v w : Bytes} (ha : Units ok a v) (hb : Units ok b w) : Units ok (a ++ b) (v ++ w) := by
  induction ha with
  | nil => exact hb
  | chr h1 h2 _ ih => exact .chr h1 h2 ih
  | esc h1 _ ih => exact .esc h1 ih
  | num h1 h2 h3 h4 _ ih => exact .num h1 h2 h3 h4 ih

/-! ### The invariant -/

/-- The container that is filled is the one of the machine. -/
def fits : Ctx → Cont → Bool
  | .top, .hash _ => true
  | .hash, .hash _ => true
  | .topArr, .arr _ => true
  | .arr, .arr _ => true
  | _, _ => false

def Stk : Ctx → List (Cont × Bytes) → List Ctx → Prop
  | ctx, [], [] => ctx = .top ∨ ctx = .topArr
  | ctx, (c, _) :: up, r :: ret => (ctx = .hash ∨ ctx = .arr) ∧ fits r c = true ∧ Stk r up ret
  | _, _, _ => False

/-- There is a key for a value. -/
def Keyed (d : Dat) : Prop := ∀ es, d.cur = .hash es → d.key ≠ none

def Ready (w : Ws) (s : St) : Prop := (w = .eq ∨ w = .val → Keyed s.dat) ∧ (w = .start → s.ctx = .top)

/-- Behind `$include{`. -/
def Hist (w : Ws) (pre : Bytes) : Prop := w = .inc → ∃ a g, pre = a ++ kwText ++ g ∧ Gap g

/-- A part of an escape. -/
def Part (e : Esc) (z : Bytes) : Prop :=
  (e = .plain ∧ z = []) ∨ (e = .bs ∧ z = [92]) ∨ (∃ a, z = [92, a] ∧ escT .bs a = some e ∧ e ≠ .plain) ∨
  (∃ a b e1, z = [92, a, b] ∧ escT .bs a = some e1 ∧ e1 ≠ .plain ∧ escT e1 b = some e ∧ e ≠ .plain)

/-- What a string is for, and the text before it. -/
def UseOk (u : Use) (s : St) (pre x : Bytes) : Prop :=
  (u = .simple → Keyed s.dat) ∧ (u = .file → ∃ a g, pre = a ++ kwText ++ g ++ x ∧ Gap g)

structure Core (m : Mach) (pre : Bytes) (s : St) : Prop where
  fit : fits s.ctx s.dat.cur = true
  stk : Stk s.ctx s.up s.ret
  quote : m.early = true → 34 ∉ pre

def PosOk (m : Mach) (pre : Bytes) (s : St) : Prop :=
  match s.pos with
  | .ws w => Ready w s ∧ Hist w pre
  | .comment w => Ready w s ∧ (w = .inc → ∃ a g c t, pre = a ++ kwText ++ g ++ c :: t ∧ Gap g ∧ (c = 59 ∨ c = 35) ∧ 10 ∉ t)
  | .opr => Keyed s.dat
  | .kw n => n ≤ 8 ∧ ∃ a, pre = a ++ kwText.take n
  | .str u q e => ∃ y v z, s.tok = some ((if q then [34] else []) ++ y ++ z) ∧ Units (lit q) y v ∧ Part e z ∧
      UseOk u s pre ((if q then [34] else []) ++ y ++ z) ∧ (m.early = true → q = false)
  | .endq u => ∃ y v, s.tok = some (34 :: y ++ [34]) ∧ Units (lit true) y v ∧ UseOk u s pre (34 :: y ++ [34]) ∧ m.early = false

def J (m : Mach) (pre : Bytes) (s : St) : Prop := Core m pre s ∧ PosOk m pre s

/-- Not undefined, and the invariant holds if it goes on. -/
def Fine (m : Mach) (pre : Bytes) (x : Outcome (Option St)) : Prop :=
  match x with
  | .ub => False
  | .ok none => True
  | .ok (some s) => J m pre s

def upd (c : UInt8) (s : St) : St := bif s.pos.inStr then { s with tok := s.tok.map (· ++ [c]) } else s

theorem core_dat {pre : Bytes} {s : St} (h : Core m pre s) {c : UInt8} (hc : m.early = true → c ≠ 34) {s' : St} (h1 : s'.ctx = s.ctx) (h2 : s'.up = s.up) (h3 : s'.ret = s.ret)
    (h4 : fits s.ctx s'.dat.cur = true) : Core m (pre ++ [c]) s' := by
  refine ⟨by rw [h1]; exact h4, by rw [h1, h2, h3]; exact h.stk, fun he => ?_⟩
  simp only [List.mem_append, List.mem_singleton, not_or]
  exact ⟨h.quote he, fun h => hc he h.symm⟩

theorem str_enter {pre : Bytes} {s : St} {u : Use} {c : UInt8} {p : Pos} {as : List Act} (hC : Core m pre s) (hc : m.early = true → c ≠ 34) (ht : strT u c = some (p, as))
    (h1 : u = .simple → Keyed s.dat) (h2 : u = .file → Hist .inc pre) :
    Fine m (pre ++ [c]) (andThen (m.execs as { s with pos := p }) fun s' => .ok (some (upd c s'))) := by
  obtain ⟨rfl, hp⟩ := strT_acts ht
  have hu : ∀ x, x = [c] → UseOk u s (pre ++ [c]) x := by
    rintro x rfl
    refine ⟨h1, fun hf => ?_⟩
    obtain ⟨a, g, rfl, hg⟩ := h2 hf rfl
    exact ⟨a, g, rfl, hg⟩
  simp only [Mach.execs, execs, exec, andThen_some, upd, hp, cond_true, Option.map_some, List.nil_append]
  refine ⟨core_dat hC hc rfl rfl rfl hC.fit, ?_⟩
  rcases strT_inv ht with ⟨rfl, rfl⟩ | ⟨rfl, rfl⟩ | ⟨hf, rfl⟩
  · exact ⟨[], [], [], rfl, .nil, .inl ⟨rfl, rfl⟩, hu _ rfl, fun he => absurd rfl (hc he)⟩
  · exact ⟨[], [], [92], rfl, .nil, .inr (.inl ⟨rfl, rfl⟩), hu _ rfl, fun _ => rfl⟩
  · have := isFchr_iff.1 hf
    exact ⟨[c], [c], [], rfl, .chr (by simpa [lit] using this.1) this.2.1 .nil, .inl ⟨rfl, rfl⟩, hu _ rfl, fun _ => rfl⟩

theorem plain_enter {pre : Bytes} {s : St} {c : UInt8} {p : Pos} (hC : Core m pre s) (hc : m.early = true → c ≠ 34) (hp : p.inStr = false)
    (h : PosOk m (pre ++ [c]) { s with pos := p }) : Fine m (pre ++ [c]) (andThen (m.execs [] { s with pos := p }) fun s' => .ok (some (upd c s'))) := by
  simp only [Mach.execs, execs, andThen_some, upd, hp, cond_false]
  exact ⟨core_dat hC hc rfl rfl rfl hC.fit, h⟩

theorem kw_enter {pre : Bytes} {s : St} (hC : Core m pre s) :
    Fine m (pre ++ [36]) (andThen (m.execs [] { s with pos := .kw 1 }) fun s' => .ok (some (upd 36 s'))) :=
  plain_enter hC (by simp) rfl ⟨by omega, pre, rfl⟩

theorem keyed_cases {d : Dat} (h : Keyed d) : (∃ vs, d.cur = .arr vs) ∨ ∃ es k, d.cur = .hash es ∧ d.key = some k := by
  obtain ⟨cur, key⟩ := d
  cases cur with
  | arr vs => exact .inl ⟨vs, rfl⟩
  | hash es =>
    cases key with
    | none => exact absurd rfl (h es rfl)
    | some k => exact .inr ⟨es, k, rfl, rfl⟩

theorem open_enter {pre : Bytes} {s : St} {c : UInt8} (hC : Core m pre s) (hc : m.early = true → c ≠ 34) (hk : Keyed s.dat) {a : Act}
    (ha : a = .openArr ∨ a = .openHash) : Fine m (pre ++ [c]) (andThen (m.execs [a] { s with pos := .ws .after }) fun s' => .ok (some (upd c s'))) := by
  have hq : m.early = true → 34 ∉ pre ++ [c] := by
    intro he
    simp only [List.mem_append, List.mem_singleton, not_or]
    exact ⟨hC.quote he, fun h => hc he h.symm⟩
  have hgen : ∀ (cc : Cont) (ctx : Ctx), (ctx = .arr ∧ cc = .arr [] ∨ ctx = .hash ∧ cc = .hash []) →
      Fine m (pre ++ [c]) (andThen (openC { s with pos := .ws .after } cc ctx) fun s' => .ok (some (upd c s'))) := by
    intro cc ctx hcc
    have hfit : fits ctx cc = true := by rcases hcc with ⟨rfl, rfl⟩ | ⟨rfl, rfl⟩ <;> rfl
    have hctx : ctx = .hash ∨ ctx = .arr := by rcases hcc with ⟨rfl, _⟩ | ⟨rfl, _⟩ <;> simp
    rcases keyed_cases hk with ⟨vs, h1⟩ | ⟨es, k, h1, h2⟩
    · simp only [openC, h1, andThen_some, upd, Pos.inStr, cond_false]
      exact ⟨⟨hfit, ⟨hctx, by have := hC.fit; rw [h1] at this; exact this, hC.stk⟩, hq⟩, ⟨by simp, by simp⟩, by simp [Hist]⟩
    · simp only [openC, h1, h2]
      cases (keys es).contains k with
      | true => simp [andThen, Fine]
      | false =>
        simp only [cond_false, andThen_some, upd, Pos.inStr]
        exact ⟨⟨hfit, ⟨hctx, by have := hC.fit; rw [h1] at this; exact this, hC.stk⟩, hq⟩, ⟨by simp, by simp⟩, by simp [Hist]⟩
  have hx : ∀ x : Outcome (Option St), (andThen (andThen x fun s' => m.execs [] s') fun s' => .ok (some (upd c s'))) = andThen x fun s' => .ok (some (upd c s')) := by
    intro x
    cases x with
    | ub => rfl
    | ok o => cases o <;> rfl
  rcases ha with rfl | rfl
  · show Fine m _ (andThen (andThen (openC _ (.arr []) .arr) fun s' => m.execs [] s') _)
    rw [hx]
    exact hgen _ _ (.inl ⟨rfl, rfl⟩)
  · show Fine m _ (andThen (andThen (openC _ (.hash []) .hash) fun s' => m.execs [] s') _)
    rw [hx]
    exact hgen _ _ (.inr ⟨rfl, rfl⟩)

theorem put_fits {ctx : Ctx} {c : Cont} {k : Bytes} {v : Val} (h : fits ctx c = true) : fits ctx (c.put k v) = true := by
  cases c <;> cases ctx <;> simp_all [fits, Cont.put]

theorem close_enter {pre : Bytes} {s : St} {c : UInt8} (hC : Core m pre s) (hc : m.early = true → c ≠ 34) (hx : s.ctx = .hash ∨ s.ctx = .arr) :
    Fine m (pre ++ [c]) (andThen (m.execs [.close] { s with pos := .ws .after }) fun s' => .ok (some (upd c s'))) := by
  have hs := hC.stk
  have hq : m.early = true → 34 ∉ pre ++ [c] := by
    intro he
    simp only [List.mem_append, List.mem_singleton, not_or]
    exact ⟨hC.quote he, fun h => hc he h.symm⟩
  cases hu : s.up with
  | nil =>
    cases hr : s.ret with
    | nil =>
      rw [hu, hr] at hs
      simp only [Stk] at hs
      rcases hx with h | h <;> rw [h] at hs <;> simp at hs
    | cons r ret => rw [hu, hr] at hs; simp [Stk] at hs
  | cons ck up =>
    obtain ⟨c', k⟩ := ck
    cases hr : s.ret with
    | nil => rw [hu, hr] at hs; simp [Stk] at hs
    | cons r ret =>
      rw [hu, hr] at hs
      simp only [Stk] at hs
      simp only [Mach.execs, execs, exec, closeC, hu, hr, andThen_some, upd, Pos.inStr, cond_false]
      exact ⟨⟨put_fits hs.2.1, hs.2.2, hq⟩, ⟨by simp, by simp⟩, by simp [Hist]⟩

theorem value_enter {pre : Bytes} {s : St} {c : UInt8} {p : Pos} {as : List Act} (hC : Core m pre s) (hc : m.early = true → c ≠ 34) (hk : Keyed s.dat)
    (ht : valueT c = some (p, as)) : Fine m (pre ++ [c]) (andThen (m.execs as { s with pos := p }) fun s' => .ok (some (upd c s'))) := by
  simp only [valueT, cond_eq_ite] at ht
  split at ht
  · simp at ht
    obtain ⟨rfl, rfl⟩ := ht
    exact open_enter hC hc hk (.inl rfl)
  · split at ht
    · simp at ht
      obtain ⟨rfl, rfl⟩ := ht
      exact open_enter hC hc hk (.inr rfl)
    · split at ht
      · rename_i h
        simp at ht h
        obtain ⟨rfl, rfl⟩ := ht
        subst h
        exact kw_enter hC
      · exact str_enter hC hc ht (fun _ => hk) (by simp)

theorem keyed_arr {ctx : Ctx} {d : Dat} (h : fits ctx d.cur = true) (hx : ctx = .arr ∨ ctx = .topArr) : Keyed d := by
  intro es he
  rw [he] at h
  rcases hx with rfl | rfl <;> simp [fits] at h

theorem item_enter {pre : Bytes} {s : St} {c : UInt8} {p : Pos} {as : List Act} (hC : Core m pre s) (hc : m.early = true → c ≠ 34)
    (ht : itemT s.ctx c = some (p, as)) : Fine m (pre ++ [c]) (andThen (m.execs as { s with pos := p }) fun s' => .ok (some (upd c s'))) := by
  unfold itemT at ht
  have hcases : s.ctx = .top ∨ s.ctx = .hash ∨ s.ctx = .arr ∨ s.ctx = .topArr := by cases s.ctx <;> simp
  rcases hcases with hx | hx | hx | hx
  · simp only [hx, cond_eq_ite] at ht
    split at ht
    · rename_i h
      simp at ht h
      obtain ⟨rfl, rfl⟩ := ht
      subst h
      exact kw_enter hC
    · exact str_enter hC hc ht (by simp) (by simp)
  · simp only [hx, cond_eq_ite] at ht
    split at ht
    · simp at ht
      obtain ⟨rfl, rfl⟩ := ht
      exact close_enter hC hc (.inl hx)
    · split at ht
      · rename_i h
        simp at ht h
        obtain ⟨rfl, rfl⟩ := ht
        subst h
        exact kw_enter hC
      · exact str_enter hC hc ht (by simp) (by simp)
  · simp only [hx, cond_eq_ite] at ht
    split at ht
    · simp at ht
      obtain ⟨rfl, rfl⟩ := ht
      exact close_enter hC hc (.inr hx)
    · exact value_enter hC hc (keyed_arr hC.fit (.inl hx)) ht
  · simp only [hx, cond_eq_ite] at ht
    split at ht
    · simp at ht
      obtain ⟨rfl, rfl⟩ := ht
      exact plain_enter hC hc rfl ⟨⟨by simp, by simp⟩, by simp [Hist]⟩
    · exact value_enter hC hc (keyed_arr hC.fit (.inr hx)) ht

theorem ws_enter {pre : Bytes} {s : St} {c : UInt8} {w : Ws} {p : Pos} {as : List Act} (hC : Core m pre s) (hc : m.early = true → c ≠ 34)
    (hr : Ready w s) (hh : Hist w pre) (ht : wsT s.ctx w c = some (p, as)) :
    Fine m (pre ++ [c]) (andThen (m.execs as { s with pos := p }) fun s' => .ok (some (upd c s'))) := by
  unfold wsT at ht
  simp only [cond_eq_ite] at ht
  split at ht
  · rename_i hb
    simp at ht
    obtain ⟨rfl, rfl⟩ := ht
    refine plain_enter hC hc rfl ⟨hr, ?_⟩
    intro hi
    obtain ⟨a, g, rfl, hg⟩ := hh hi
    refine ⟨a, g ++ [c], by simp, gap_append hg (.blank ?_ .nil)⟩
    simpa [or_assoc] using hb
  split at ht
  · rename_i hb
    simp at ht
    obtain ⟨rfl, rfl⟩ := ht
    refine plain_enter hC hc rfl ⟨hr, ?_⟩
    intro hi
    obtain ⟨a, g, rfl, hg⟩ := hh hi
    exact ⟨a, g, c, [], by simp, hg, by simpa using hb, by simp⟩
  cases w with
  | start =>
    have hx := hr.2 rfl
    simp only at ht
    split at ht
    · simp at ht
      obtain ⟨rfl, rfl⟩ := ht
      have hs := hC.stk
      have hf := hC.fit
      rw [hx] at hs hf
      cases hd : s.dat.cur with
      | arr _ => rw [hd] at hf; simp [fits] at hf
      | hash es =>
        cases hu : s.up with
        | cons ck up =>
          rw [hu] at hs
          cases hret : s.ret <;> rw [hret] at hs <;> simp [Stk] at hs
        | nil =>
          rw [hu] at hs
          cases hret : s.ret with
          | cons _ _ => rw [hret] at hs; simp [Stk] at hs
          | nil =>
            simp only [Mach.execs, execs, exec, hu, hd, andThen_some, upd, Pos.inStr, cond_false]
            refine ⟨⟨rfl, by simp only [hret]; exact .inr rfl, fun he => ?_⟩, ⟨by simp, by simp⟩, by simp [Hist]⟩
            simp only [List.mem_append, List.mem_singleton, not_or]
            exact ⟨hC.quote he, fun h => hc he h.symm⟩
    · exact item_enter hC hc ht
  | item => exact item_enter hC hc ht
  | after =>
    simp only at ht
    split at ht
    · simp at ht
      obtain ⟨rfl, rfl⟩ := ht
      exact plain_enter hC hc rfl ⟨⟨by simp, by simp⟩, by simp [Hist]⟩
    · exact item_enter hC hc ht
  | eq =>
    simp only at ht
    split at ht
    · simp at ht
      obtain ⟨rfl, rfl⟩ := ht
      exact plain_enter hC hc rfl (hr.1 (.inl rfl))
    · simp at ht
  | val => exact value_enter hC hc (hr.1 (.inr rfl)) ht
  | inc => exact str_enter hC hc ht (by simp) (fun _ => hh)
  | incEnd =>
    simp only at ht
    split at ht
    · simp at ht
      obtain ⟨rfl, rfl⟩ := ht
      exact plain_enter hC hc rfl ⟨⟨by simp, by simp⟩, by simp [Hist]⟩
    · simp at ht
  | done => simp at ht

/-! ### The end of a string -/

/-- What can be included can be loaded, and is no string. -/
def LoadOk (m : Mach) (T : Bytes) : Prop :=
  ∀ t p ps p', Asks T t → Path m.fn t p → Found m.env p ps → p' ∈ ps → m.load p' ≠ .ub ∧ ∀ a b, m.load p' ≠ .ok (some (.simple a b))

theorem addVal_fine {d : Dat} (h : Keyed d) (v : Val) : addVal d v ≠ .ub ∧ ∀ d', addVal d v = .ok (some d') → ∀ ctx, fits ctx d.cur = true → fits ctx d'.cur = true := by
  rcases keyed_cases h with ⟨vs, h1⟩ | ⟨es, k, h1, h2⟩
  · simp only [addVal, h1]
    refine ⟨by simp, ?_⟩
    intro d' h' ctx hf
    simp at h'
    subst h'
    cases ctx <;> simp_all [fits]
  · simp only [addVal, h1, h2]
    refine ⟨by simp, ?_⟩
    intro d' h' ctx hf
    simp at h'
    obtain ⟨es', _, rfl⟩ := h'
    cases ctx <;> simp_all [fits]

theorem incFile_fine {load : Bytes → Outcome (Option Val)} {p : Bytes} (h1 : load p ≠ .ub) (h2 : ∀ a b, load p ≠ .ok (some (.simple a b))) (d : Dat) :
    incFile load d p ≠ .ub ∧ ∀ d', incFile load d p = .ok (some d') → ∀ ctx, fits ctx d.cur = true → fits ctx d'.cur = true := by
  unfold incFile
  cases hl : load p with
  | ub => exact absurd hl h1
  | ok o =>
    cases o with
    | none => simp [andThen]
    | some v =>
      simp only [andThen_some]
      have hk : Keyed d → addVal d v ≠ .ub ∧ ∀ d', addVal d v = .ok (some d') → ∀ ctx, fits ctx d.cur = true → fits ctx d'.cur = true := fun h => addVal_fine h v
      obtain ⟨cur, key⟩ := d
      cases cur with
      | arr vs => exact hk (fun es h => by simp at h)
      | hash es =>
        cases key with
        | some k => exact hk (fun es h => by simp)
        | none =>
          cases v with
          | simple a b => exact absurd hl (h2 a b)
          | array _ => simp
          | hash r =>
            simp only
            refine ⟨by simp, ?_⟩
            intro d' h' ctx hf
            simp at h'
            obtain ⟨es', _, rfl⟩ := h'
            cases ctx <;> simp_all [fits]

theorem incFiles_fine {load : Bytes → Outcome (Option Val)} {ps : List Bytes} (h : ∀ p ∈ ps, load p ≠ .ub ∧ ∀ a b, load p ≠ .ok (some (.simple a b))) (d : Dat) :
    incFiles load ps d ≠ .ub ∧ ∀ d', incFiles load ps d = .ok (some d') → ∀ ctx, fits ctx d.cur = true → fits ctx d'.cur = true := by
  induction ps generalizing d with
  | nil =>
    simp only [incFiles]
    refine ⟨by simp, ?_⟩
    intro d' h' ctx hf
    simp at h'
    subst h'
    exact hf
  | cons p ps ih =>
    have hp := h p (by simp)
    have h1 := incFile_fine hp.1 hp.2 d
    simp only [incFiles]
    cases hx : incFile load d p with
    | ub => exact absurd hx h1.1
    | ok o =>
      cases o with
      | none => simp [andThen]
      | some d1 =>
        simp only [andThen_some]
        have h2 := ih (fun p hp => h p (by simp [hp])) d1
        exact ⟨h2.1, fun d' h' ctx hf => h2.2 d' h' ctx (h1.2 d1 hx ctx hf)⟩

theorem leave_fine {T pre b x t : Bytes} {s : St} {u : Use} (hT : T = pre ++ b) (hL : LoadOk m T) (hU : UseOk u s pre x) (hx : x = t ∨ x = 34 :: t ++ [34]) {ok : UInt8 → Prop} {v : Bytes}
    (hv : Units ok t v) : m.leave u t s.dat ≠ .ub ∧ ∀ d, m.leave u t s.dat = .ok (some d) →
      (∀ ctx, fits ctx s.dat.cur = true → fits ctx d.cur = true) ∧ (u = .key → d.key ≠ none) := by
  cases u with
  | key =>
    show andThen (unescape t) _ ≠ .ub ∧ ∀ d, andThen (unescape t) _ = .ok (some d) → _
    rw [unescape_eq hv]
    simp only [andThen_some]
    refine ⟨by simp, ?_⟩
    intro d hd
    simp at hd
    subst hd
    exact ⟨fun ctx h => h, fun _ => by simp⟩
  | simple =>
    show andThen (simpleNew t) (addVal s.dat) ≠ .ub ∧ ∀ d, andThen (simpleNew t) (addVal s.dat) = .ok (some d) → _
    unfold simpleNew
    rw [unescape_eq hv]
    simp only [andThen_some]
    have := addVal_fine (hU.1 rfl) (.simple t v)
    exact ⟨this.1, fun d hd => ⟨this.2 d hd, by simp⟩⟩
  | file =>
    obtain ⟨a, g, e, hg⟩ := hU.2 rfl
    have hA : Asks T t := ⟨a, g, x, b, by rw [hT, e]; rfl, hg, hx⟩
    show procInclude m.env m.load m.fn t s.dat ≠ .ub ∧ ∀ d, procInclude m.env m.load m.fn t s.dat = .ok (some d) → _
    have hgl : ∀ p, Path m.fn t p → incGlob m.load (paths m.env p) s.dat ≠ .ub ∧ ∀ d, incGlob m.load (paths m.env p) s.dat = .ok (some d) →
        ∀ ctx, fits ctx s.dat.cur = true → fits ctx d.cur = true := by
      intro p hp
      cases hps : paths m.env p with
      | none => simp [incGlob]
      | some ps =>
        have hf := paths_iff.1 hps
        have := incFiles_fine (load := m.load) (ps := ps) (fun p' hp' => hL t p ps p' hA hp hf hp') s.dat
        simp only [incGlob]
        cases (valueCtx s.dat && decide (1 < ps.length)) with
        | true => simp
        | false => exact this
    unfold procInclude
    cases e47 : (t.head? == some 47) with
    | true =>
      have := hgl _ (.inl ⟨by simpa using e47, cstr_upto t⟩)
      exact ⟨this.1, fun d hd => ⟨this.2 d hd, by simp⟩⟩
    | false =>
      cases hfn : m.fn with
      | none => simp
      | some f =>
        obtain ⟨bb, hb1, hb2, hb3⟩ := dirOf_split f
        have := hgl _ (.inr ⟨by simpa using e47, dirOf f, bb, by rw [hfn, ← hb1], hb2, hb3, cstr_upto _⟩)
        exact ⟨this.1, fun d hd => ⟨this.2 d hd, by simp⟩⟩

/-- The step that leaves a string. -/
theorem leave_step {T pre b x t : Bytes} {s : St} {u : Use} {q : Bool} {c : UInt8} {p : Pos} {as : List Act} (hT : T = pre ++ b) (hL : LoadOk m T) (hC : Core m pre s)
    (hc : m.early = true → c ≠ 34) (hU : UseOk u s pre x) (hx : x = t ∨ x = 34 :: t ++ [34]) {ok : UInt8 → Prop} {v : Bytes} (hv : Units ok t v)
    (htok : ∀ p, token { s with pos := p } q = .ok t) (hn : m.early = true → as ≠ [.start]) (ht : wsT s.ctx (next u) c = some (p, as)) :
    Fine m (pre ++ [c]) (andThen (m.execs (pend m.early (.leave u q) as) { s with pos := p }) fun s' => .ok (some (upd c s'))) := by
  rw [pend_eq hn]
  have h := leave_fine hT hL hU hx hv
  have he : m.execs (.leave u q :: as) { s with pos := p } =
      andThen (andThen (m.leave u t s.dat) fun d => .ok (some { s with pos := p, dat := d, tok := none })) fun s' => m.execs as s' := by
    show andThen ((token { s with pos := p } q).bind fun t => _) _ = _
    rw [htok p]
    rfl
  rw [he]
  cases hl : m.leave u t s.dat with
  | ub => exact absurd hl h.1
  | ok o =>
    cases o with
    | none => simp [andThen, Fine]
    | some d =>
      simp only [andThen_some]
      obtain ⟨hf, hkey⟩ := h.2 d hl
      refine ws_enter (s := { s with dat := d, tok := none }) ⟨hf _ hC.fit, hC.stk, hC.quote⟩ hc ?_ ?_ ht
      · refine ⟨?_, ?_⟩
        · intro hw
          cases u with
          | key => exact fun es _ => hkey rfl
          | simple => simp [next] at hw
          | file => simp [next] at hw
        · intro hw
          cases u <;> simp [next] at hw
      · intro hw
        cases u <;> simp [next] at hw

/-! ### One step -/

theorem fine_step {T pre b : Bytes} {s : St} {c : UInt8} (hT : T = pre ++ c :: b) (hL : LoadOk m T) (hJ : J m pre s) (hc : m.early = true → c ≠ 34) :
    Fine m (pre ++ [c]) (m.step s c) := by
  obtain ⟨hC, hP⟩ := hJ
  have hstep : m.step s c = match trans m.early s.ctx s.pos c with
      | none => .ok none
      | some (p, as) => andThen (m.execs as { s with pos := p }) fun s' => .ok (some (upd c s')) := rfl
  rw [hstep]
  cases ht : trans m.early s.ctx s.pos c with
  | none => simp [Fine]
  | some pa =>
    obtain ⟨p, as⟩ := pa
    simp only
    unfold PosOk at hP
    cases hpos : s.pos with
    | ws w =>
      rw [hpos] at hP ht
      exact ws_enter hC hc hP.1 hP.2 ht
    | comment w =>
      rw [hpos] at hP ht
      simp only [trans, Option.some.injEq, Prod.mk.injEq] at ht
      obtain ⟨rfl, rfl⟩ := ht
      by_cases h10 : c = 10
      · subst h10
        refine plain_enter hC hc rfl ⟨hP.1, ?_⟩
        intro hw
        obtain ⟨a, g, c1, t, rfl, hg, hc1, ht⟩ := hP.2 hw
        refine ⟨a, g ++ (c1 :: t ++ 10 :: []), by simp, gap_append hg (.comment hc1 ht .nil)⟩
      · have e : (c == 10) = false := by simpa using h10
        rw [e, cond_false]
        refine plain_enter hC hc rfl ⟨hP.1, ?_⟩
        intro hw
        obtain ⟨a, g, c1, t, rfl, hg, hc1, ht⟩ := hP.2 hw
        refine ⟨a, g, c1, t ++ [c], by simp, hg, hc1, ?_⟩
        simp only [List.mem_append, List.mem_singleton, not_or]
        exact ⟨ht, fun h => h10 h.symm⟩
    | opr =>
      rw [hpos] at hP ht
      simp only [trans, cond_eq_ite] at ht
      split at ht
      · simp at ht
        obtain ⟨rfl, rfl⟩ := ht
        exact plain_enter hC hc rfl ⟨⟨fun _ => hP, by simp⟩, by simp [Hist]⟩
      · exact ws_enter (w := .val) hC hc ⟨fun _ => hP, by simp⟩ (by simp [Hist]) ht
    | kw n =>
      rw [hpos] at hP ht
      simp only [trans, cond_eq_ite] at ht
      split at ht
      · rename_i hk
        simp at ht hk
        obtain ⟨rfl, rfl⟩ := ht
        obtain ⟨hn, a, rfl⟩ := hP
        have htake : kwText.take n ++ [c] = kwText.take (n + 1) := by
          rw [List.take_add_one, hk]; rfl
        by_cases h8 : n = 8
        · subst h8
          refine plain_enter hC hc rfl ⟨⟨by simp, by simp⟩, fun _ => ⟨a, [], ?_, .nil⟩⟩
          rw [List.append_assoc, htake, List.append_nil]
          rfl
        · simp only [h8, if_false]
          refine plain_enter hC hc rfl ⟨by omega, a, ?_⟩
          rw [List.append_assoc, htake]
      · simp at ht
    | str u q e =>
      rw [hpos] at hP ht
      obtain ⟨y, v, z, htok, hu, hp, hU, hq⟩ := hP
      have stay : ∀ {e' : Esc} {y' v' z' : Bytes}, y ++ z ++ [c] = y' ++ z' → Units (lit q) y' v' → Part e' z' →
          Fine m (pre ++ [c]) (andThen (m.execs [] { s with pos := .str u q e' }) fun s' => .ok (some (upd c s'))) := by
        intro e' y' v' z' h1 h2 h3
        simp only [Mach.execs, execs, andThen_some, upd, Pos.inStr, cond_true, htok, Option.map_some]
        have hx : (if q then [34] else []) ++ y ++ z ++ [c] = (if q then [34] else []) ++ y' ++ z' := by
          simp only [List.append_assoc] at h1 ⊢
          rw [h1]
        refine ⟨core_dat hC hc rfl rfl rfl hC.fit, y', v', z', by rw [hx], h2, h3, ⟨hU.1, fun hf => ?_⟩, hq⟩
        obtain ⟨a, g, he, hg⟩ := hU.2 hf
        refine ⟨a, g, ?_, hg⟩
        rw [he, ← hx]
        simp
      by_cases he : e = .plain
      · subst he
        have hz : z = [] := by
          rcases hp with ⟨_, h⟩ | ⟨h, _⟩ | ⟨a, _, _, h⟩ | ⟨a, b, e1, _, _, _, _, h⟩
          · exact h
          · cases h
          · exact absurd rfl h
          · exact absurd rfl h
        subst hz
        simp only [List.append_nil] at htok hU stay
        simp only [trans, cond_eq_ite] at ht
        split at ht
        · rename_i h92
          simp at h92 ht
          obtain ⟨rfl, rfl⟩ := ht
          subst h92
          exact stay rfl hu (.inr (.inl ⟨rfl, rfl⟩))
        rename_i h92
        split at ht
        · rename_i hqt
          subst hqt
          simp at ht
          obtain ⟨rfl, rfl⟩ := ht
          by_cases h34 : c = 34
          · subst h34
            have hE : m.early = false := by
              cases h : m.early with
              | false => rfl
              | true => exact absurd rfl (hc h)
            simp only [if_true, Mach.execs, execs, andThen_some, upd, Pos.inStr, cond_true, htok, Option.map_some]
            refine ⟨core_dat hC hc rfl rfl rfl hC.fit, y, v, rfl, hu, ⟨hU.1, fun hf => ?_⟩, hE⟩
            obtain ⟨a, g, he, hg⟩ := hU.2 hf
            exact ⟨a, g, by rw [he]; simp, hg⟩
          · simp only [h34, if_false]
            exact stay (y' := y ++ [c]) (z' := []) (by simp) (units_append hu (.chr (by simpa [lit] using h34) (by simpa using h92) .nil)) (.inl ⟨rfl, rfl⟩)
        · rename_i hqf
          have hqf' : q = false := by simpa using hqf
          subst hqf'
          split at ht
          · rename_i hch
            simp at ht
            obtain ⟨rfl, rfl⟩ := ht
            have := isChr_iff.1 hch
            exact stay (y' := y ++ [c]) (z' := []) (by simp) (units_append hu (.chr (by simpa [lit] using this.1) this.2 .nil)) (.inl ⟨rfl, rfl⟩)
          · rename_i hch
            simp only [Option.map_eq_some_iff, Prod.mk.injEq] at ht
            obtain ⟨⟨p1, as1⟩, hw, rfl, rfl⟩ := ht
            simp only [Bool.false_eq_true, if_false, List.nil_append] at htok hU
            refine leave_step (x := y) hT hL hC hc hU (.inl rfl) hu (fun p => by simp [token, htok]) ?_ hw
            rintro hE rfl
            obtain ⟨u', hu'⟩ := wsT_start hw
            rcases strT_inv hu' with ⟨h, _⟩ | ⟨h, _⟩ | ⟨h, _⟩
            · exact hc hE h
            · exact h92 (by simpa using h)
            · simp only [isFchr, Bool.and_eq_true] at h
              exact hch h.1
      · have ht' : (escT e c).map (fun e' => (Pos.str u q e', ([] : List Act))) = some (p, as) := by
          cases e <;> first | exact absurd rfl he | exact ht
        simp only [Option.map_eq_some_iff, Prod.mk.injEq] at ht'
        obtain ⟨e', hesc, rfl, rfl⟩ := ht'
        rcases hp with ⟨h, _⟩ | ⟨rfl, rfl⟩ | ⟨a, rfl, h1, _⟩ | ⟨a, b', e1, rfl, h1, h2, h3, _⟩
        · exact absurd h he
        · by_cases hpl : e' = .plain
          · subst hpl
            have hd : ¬ digit c := by
              rcases esc_bs_inv hesc with ⟨_, h⟩ | ⟨h, _⟩ | ⟨h, _⟩
              · exact h
              · cases h
              · cases h
            exact stay (y' := y ++ [92, c]) (z' := []) (by simp) (units_append hu (.esc hd .nil)) (.inl ⟨rfl, rfl⟩)
          · exact stay (y' := y) (z' := [92, c]) (by simp) hu (.inr (.inr (.inl ⟨c, rfl, hesc, hpl⟩)))
        · have hpl := escT_e1 h1 he hesc
          exact stay (y' := y) (z' := [92, a, c]) (by simp) hu (.inr (.inr (.inr ⟨a, c, e, rfl, h1, he, hesc, hpl⟩)))
        · obtain ⟨rfl, d1, d2, d3, hle⟩ := esc_d_inv h1 h2 h3 hesc
          exact stay (y' := y ++ [92, a, b', c]) (z' := []) (by simp) (units_append hu (.num (n := UInt8.ofNat ((a.toNat - 48) * 100 + (b'.toNat - 48) * 10 + (c.toNat - 48))) d1 d2 d3
            (by rw [UInt8.toNat_ofNat', Nat.mod_eq_of_lt (by omega)]) .nil)) (.inl ⟨rfl, rfl⟩)
    | endq u =>
      rw [hpos] at hP ht
      obtain ⟨y, v, htok, hu, hU, hE⟩ := hP
      simp only [trans, Option.map_eq_some_iff, Prod.mk.injEq] at ht
      obtain ⟨⟨p1, as1⟩, hw, rfl, rfl⟩ := ht
      have hlen : ¬ (y.length + 1 + 1 < 2) := by omega
      exact leave_step (x := 34 :: y ++ [34]) hT hL hC hc hU (.inr rfl) hu (fun p => by simp [token, htok, hlen]) (by simp [hE]) hw

theorem stk_nil {ctx : Ctx} {up : List (Cont × Bytes)} {ret : List Ctx} (h : Stk ctx up ret) (hc : ctx = .top ∨ ctx = .topArr) : up = [] := by
  cases up with
  | nil => rfl
  | cons ck up =>
    cases ret with
    | nil => simp [Stk] at h
    | cons r ret =>
      simp only [Stk] at h
      rcases hc with rfl | rfl <;> simp at h

theorem result_fine {pre : Bytes} {s : St} (hC : Core m pre s) (hc : s.ctx = .top ∨ s.ctx = .topArr) : result s ≠ .ub := by
  simp [result, stk_nil hC.stk hc, assert]

theorem fine_finish {T : Bytes} {s : St} (hL : LoadOk m T) (hJ : J m T s) : m.finish s ≠ .ub := by
  obtain ⟨hC, hP⟩ := hJ
  have hlv : s.ctx = .top → ∀ (q : Bool) (x t v : Bytes) (ok : UInt8 → Prop), UseOk .simple s T x → (x = t ∨ x = 34 :: t ++ [34]) → Units ok t v → token s q = .ok t →
      andThen (m.exec (.leave .simple q) s) result ≠ .ub := by
    intro hx q x t v ok hU hxt hv htok
    have h := leave_fine (b := []) (by simp) hL hU hxt hv
    have he : m.exec (.leave .simple q) s = andThen (m.leave .simple t s.dat) fun d => .ok (some { s with dat := d, tok := none }) := by
      show ((token s q).bind fun t => _) = _
      rw [htok]; rfl
    rw [he]
    cases hl : m.leave .simple t s.dat with
    | ub => exact absurd hl h.1
    | ok o =>
      cases o with
      | none => simp [andThen]
      | some d =>
        simp only [andThen_some]
        simp [result, stk_nil hC.stk (.inl hx), assert]
  unfold PosOk at hP
  unfold Mach.finish finish
  cases hx : s.ctx with
  | hash => simp
  | arr => simp
  | topArr =>
    cases hp : s.pos with
    | ws w => cases w <;> simp [result_fine hC (.inr hx)]
    | _ => simp
  | top =>
    cases hp : s.pos with
    | ws w => cases w <;> simp [result_fine hC (.inl hx)]
    | comment w => simp
    | opr => simp
    | kw n => simp
    | str u q e =>
      rw [hp] at hP
      obtain ⟨y, v, z, htok, hu, hpt, hU, hq⟩ := hP
      cases u <;> cases q <;> cases e <;> simp
      have hz : z = [] := by
        rcases hpt with ⟨_, h⟩ | ⟨h, _⟩ | ⟨a, _, _, h⟩ | ⟨a, b, e1, _, _, _, _, h⟩
        · exact h
        · cases h
        · exact absurd rfl h
        · exact absurd rfl h
      subst hz
      simp at htok hU
      exact hlv hx false y y v _ hU (.inl rfl) hu (by simp [token, htok])
    | endq u =>
      rw [hp] at hP
      obtain ⟨y, v, htok, hu, hU, hE⟩ := hP
      cases u <;> simp
      have hlen : ¬ (y.length + 1 + 1 < 2) := by omega
      exact hlv hx true _ y v _ hU (.inr rfl) hu (by simp [token, htok, hlen])

theorem run_fine {T pre r : Bytes} {s : St} (hT : T = pre ++ r) (hL : LoadOk m T) (hq : m.early = true → 34 ∉ T) (hJ : J m pre s) :
    andThen (m.run r s) m.finish ≠ .ub := by
  induction r generalizing pre s with
  | nil =>
    simp only [run_nil, andThen_some]
    rw [List.append_nil] at hT
    subst hT
    exact fine_finish hL hJ
  | cons c r ih =>
    have h := fine_step hT hL hJ (fun he h => hq he (by rw [hT, h]; simp))
    rw [run_cons, andThen_assoc]
    cases hx : m.step s c with
    | ub => rw [hx] at h; exact absurd h (by simp [Fine])
    | ok o =>
      cases o with
      | none => simp [andThen]
      | some s' =>
        rw [hx] at h
        simp only [andThen_some]
        exact ih (pre := pre ++ [c]) (by simpa using hT) h

theorem init_J : J m [] init :=
  ⟨⟨rfl, .inl rfl, by simp⟩, ⟨by simp, fun _ => rfl⟩, by simp [Hist]⟩

theorem scan_fine {T : Bytes} (hL : LoadOk m T) (hq : m.early = true → 34 ∉ T) : scanBuf m.early m.env m.load m.fn T ≠ .ub :=
  run_fine (pre := []) rfl hL hq init_J

theorem scanBuf_container {early : Bool} {env : Env} {load : Bytes → Outcome (Option Val)} {fn : Option Bytes} {t : Bytes} (a b : Bytes) :
    scanBuf early env load fn t ≠ .ok (some (.simple a b)) := by
  have hr : ∀ s, result s ≠ .ok (some (.simple a b)) := by
    intro s h
    unfold result at h
    cases hu : s.up.isEmpty with
    | false => simp [hu, assert] at h
    | true =>
      simp [hu, assert] at h
      cases hc : s.dat.cur <;> simp [hc, Cont.toVal] at h
  intro h
  unfold scanBuf at h
  obtain ⟨s, _, h2⟩ := andThen_ok h
  unfold finish at h2
  split at h2
  · exact hr _ h2
  · exact hr _ h2
  · exact hr _ h2
  · obtain ⟨s', _, h3⟩ := andThen_ok h2
    exact hr _ h3
  · obtain ⟨s', _, h3⟩ := andThen_ok h2
    exact hr _ h3
  · exact hr _ h2
  · simp at h2

theorem scanFile_container {early : Bool} {env : Env} {n : Nat} {p : Bytes} (a b : Bytes) : scanFile early env n p ≠ .ok (some (.simple a b)) := by
  cases n with
  | zero => simp [scanFile]
  | succ n =>
    simp only [scanFile]
    cases env.read p with
    | none => simp
    | some t => exact scanBuf_container a b

theorem scanFile_fine {early : Bool} {env : Env} {rank : Bytes → Nat} (hg : Grounded env rank) (hq : early = true → ∀ p t, env.read p = some t → 34 ∉ t)
    {n : Nat} {p : Bytes} (hn : rank p < n) : scanFile early env n p ≠ .ub := by
  induction n generalizing p with
  | zero => omega
  | succ n ih =>
    simp only [scanFile]
    cases hr : env.read p with
    | none => simp
    | some t =>
      refine scan_fine (m := mk early env n (some p)) ?_ (fun he => hq he p t hr)
      intro t' q ps p' ha hp hf hp'
      exact ⟨ih (by have := hg p t t' q ps p' hr ha hp hf hp'; omega), fun a b => scanFile_container a b⟩

end Gdnsd.Vscf
