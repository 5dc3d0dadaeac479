/-
Texts of the grammar are accepted, with their meaning: the parts put together.
-/
import Verif.Vscf.FwdLemmas
namespace Gdnsd.Vscf
open VscfSpec

/-- The scanner with stack for `n` files. -/
abbrev mk (early : Bool) (env : Env) (n : Nat) (fn : Option Bytes) : Mach := ⟨early, env, scanFile early env n, fn⟩

variable {m : Mach}

theorem apart_append {touch : Bool} {k : Kind} {a b : Bytes} (h : Apart touch k a) (hb : ∀ c, b.head? = some c → c = 93 ∨ c = 125) : Apart touch k (a ++ b) := by
  have hs : ∀ c, b.head? = some c → c ∈ special ∧ c ≠ 34 := by
    intro c hc
    rcases hb c hc with rfl | rfl <;> decide
  cases a with
  | cons x a =>
    cases k with
    | bare => exact fun c hc => h c hc
    | quoted => exact fun ht c hc => h ht c hc
    | other => trivial
  | nil =>
    cases k with
    | bare => exact fun c hc => ⟨(hs c hc).1, fun _ => (hs c hc).2⟩
    | quoted => exact fun _ c hc => .inr (hs c hc)
    | other => trivial

/-- White space and a comma behind an item. -/
theorem acc_sep {s : St} {g cm r : Bytes} {w : Val} {d : Dat} (hg : Gap g) (hc : Comma cm)
    (h : ∀ q, q = .item ∨ q = .after → m.Acc { s with pos := .ws q, dat := d, tok := none } r w) : m.Acc (s.added d) (g ++ cm ++ r) w := by
  rw [List.append_assoc, acc_append (run_gap hg (w := .after) rfl)]
  rcases hc with rfl | rfl
  · exact h .after (.inr rfl)
  · rw [show ([44] ++ r : Bytes) = 44 :: r from rfl, acc_cons]
    exact ⟨_, step_plain (p := .ws .item) rfl rfl, h .item (.inl rfl)⟩

theorem acc_opr {s : St} {t : Bytes} {w : Val} (ht : t.head? ≠ some 62) : m.Acc { s with pos := .opr } t w ↔ m.Acc { s with pos := .ws .val } t w := by
  cases t with
  | nil =>
    unfold Mach.Acc
    simp only [run_nil, andThen_some, Mach.finish, finish]
    cases s.ctx <;> simp
  | cons c t =>
    rw [acc_cons, acc_cons]
    have h : trans m.early s.ctx .opr c = trans m.early s.ctx (.ws .val) c := by
      have : (c == 62) = false := by simpa using ht
      simp only [trans, this, cond_false]
    have e : m.step { s with pos := .opr } c = m.step { s with pos := .ws .val } c := by
      unfold Mach.step step
      simp only [h]
    rw [e]

theorem valT {ctx : Ctx} {c : UInt8} (h : isGap c = false) : wsT ctx .val c = valueT c := by
  simp only [isGap, Bool.or_eq_false_iff, beq_eq_false_iff_ne] at h
  have e1 : (c == 32 || c == 9 || c == 10) = false := by simp [h]
  have e2 : (c == 59 || c == 35) = false := by simp [h]
  unfold wsT
  rw [e1, e2, cond_false, cond_false]

/-- A key and what is behind it, up to its value. -/
theorem acc_key {s : St} {q : Ws} {x g1 o g2 y r t key : Bytes} {k : Kind} {w : Val} {us : List (Entry Val)} (hs : s.pos = .ws q) (hq : ItemPos s.ctx q)
    (hc : s.ctx = .top ∨ s.ctx = .hash) (hd : s.dat = ⟨.hash us, none⟩) (hw : Word k x t key) (hg1 : Gap g1) (ho : Op o (g2 ++ y)) (hg2 : Gap g2)
    (hy : y ≠ []) (h : m.Acc { s with pos := .ws .val, dat := ⟨.hash us, some key⟩, tok := none } (y ++ r) w) :
    m.Acc s (x ++ g1 ++ o ++ g2 ++ y ++ r) w := by
  have hst : ∀ c, x.head? = some c → trans m.early s.ctx s.pos c = strT .key c := by
    intro c hcx
    obtain ⟨a, x', rfl, ha⟩ := word_head hw
    simp at hcx; subst hcx
    have hf := fchr_facts ha
    rw [hs]
    show wsT s.ctx q a = _
    rw [itemPos_wsT hq hf.1 hf.2.1 (.inl hf.2.2.1)]
    have e1 : (a == 125) = false := by simpa using hf.2.2.2.2.1
    have e2 : (a == 36) = false := by simpa using hf.2.2.2.2.2.1
    rcases hc with hc | hc <;> simp only [itemT, hc, e1, e2, cond_false]
  simp only [List.append_assoc]
  rw [acc_append (run_word hw hst)]
  have hl : m.leave .key t s.dat = .ok (some ⟨.hash us, some key⟩) := by
    show andThen (unescape t) _ = _
    rw [word_units hw, hd]
    rfl
  have ho0 : ∃ o', o = 61 :: o' := by rcases ho with rfl | ⟨rfl, _⟩ <;> exact ⟨_, rfl⟩
  rw [acc_leave hw hl ?_ (.inl ?_)]
  · rw [acc_append (run_gap hg1 (w := .eq) rfl)]
    rcases ho with rfl | ⟨rfl, ho⟩
    · rw [show ([61, 62] ++ (g2 ++ (y ++ r)) : Bytes) = 61 :: 62 :: (g2 ++ (y ++ r)) from rfl, acc_cons]
      refine ⟨_, step_plain (p := .opr) rfl rfl, ?_⟩
      rw [acc_cons]
      refine ⟨_, step_plain (p := .ws .val) rfl rfl, ?_⟩
      rw [acc_append (run_gap hg2 (w := .val) rfl)]
      exact h
    · rw [show ([61] ++ (g2 ++ (y ++ r)) : Bytes) = 61 :: (g2 ++ (y ++ r)) from rfl, acc_cons]
      refine ⟨_, step_plain (p := .opr) rfl rfl, ?_⟩
      rw [acc_opr, acc_append (run_gap hg2 (w := .val) rfl)]
      · exact h
      · rw [← List.append_assoc]
        cases hgy : g2 ++ y with
        | nil => simp at hgy; exact absurd hgy.2 hy
        | cons a l => rw [hgy] at ho; exact ho
  · intro c hcr
    refine ⟨fun _ => ?_, fun _ p => eq_no_start⟩
    rcases gap_append_head hg1 hcr with h1 | ⟨_, h1⟩
    · exact isGap_special h1
    · obtain ⟨o', rfl⟩ := ho0
      simp at h1; subst h1; decide
  · obtain ⟨o', rfl⟩ := ho0
    cases g1 <;> simp

theorem addVal_hash {us : List (Entry Val)} {key : Bytes} (h : key ∉ us.map (·.key)) (v : Val) :
    addVal ⟨.hash us, some key⟩ v = .ok (some ⟨.hash (us ++ [⟨key, false, v⟩]), none⟩) := by
  have : (keys us).contains key = false := by rw [← Bool.not_eq_true, List.contains_iff_mem]; exact h
  simp only [addVal, addEntry, this, cond_false, Option.map_some]

theorem good_value {d : Dat} (h : Good d) : valueCtx d = true := by
  obtain ⟨cur, key⟩ := d
  cases cur with
  | arr _ => rfl
  | hash _ =>
    cases key with
    | none => exact absurd rfl h
    | some _ => rfl

theorem incFile_value {load : Bytes → Outcome (Option Val)} {d : Dat} (h : Good d) (p : Bytes) : incFile load d p = andThen (load p) (addVal d) := by
  unfold incFile
  congr 1
  funext v
  obtain ⟨cur, key⟩ := d
  cases cur with
  | arr _ => rfl
  | hash _ =>
    cases key with
    | none => exact absurd rfl h
    | some _ => rfl

mutual

theorem value_fwd {early : Bool} {env : Env} {fn : Option Bytes} {x : Bytes} {k : Kind} {v : Val} : Value env (!early) fn x k v →
    ∃ N, ∀ n, N ≤ n → ∀ (s : St) (d : Dat) (r : Bytes) (w : Val), (∀ c, x.head? = some c → trans early s.ctx s.pos c = valueT c) → Good s.dat →
      addVal s.dat v = .ok (some d) → Apart (!early) k r → (mk early env n fn).Acc (s.added d) r w → (mk early env n fn).Acc s (x ++ r) w
  | .word (t := t) (v := v) hw => by
    refine ⟨0, fun n _ s d r w hs _ ha hk h => ?_⟩
    have hs' : ∀ c, x.head? = some c → trans (mk early env n fn).early s.ctx s.pos c = strT .simple c := by
      intro c hc
      rw [show (mk early env n fn).early = early from rfl, hs c hc]
      obtain ⟨a, x', rfl, ha⟩ := word_head hw
      simp at hc; subst hc
      have hf := fchr_facts ha
      have e1 : (a == 91) = false := by simpa using hf.2.2.1
      have e2 : (a == 123) = false := by simpa using hf.2.2.2.2.2.2
      have e3 : (a == 36) = false := by simpa using hf.2.2.2.2.2.1
      simp only [valueT, e1, e2, e3, cond_false]
    rw [acc_append (run_word hw hs')]
    have hl : (mk early env n fn).leave .simple t s.dat = .ok (some d) := by
      show andThen (simpleNew t) _ = _
      unfold simpleNew
      rw [word_units hw]
      exact ha
    rw [acc_leave hw hl (apart_iff (word_kind hw) |>.1 hk) (.inr rfl)]
    exact h
  | .array (t := t) (vs := vs) hv => by
    obtain ⟨N, hN⟩ := values_fwd hv
    refine ⟨N, fun n hn s d r w hs hg ha _ h => ?_⟩
    have hs' := hs 91 rfl
    rcases open_cases hg with ⟨k, h1, h2⟩ | ⟨_, h2⟩
    · rw [h2] at ha
      simp only [Outcome.ok.injEq, Option.some.injEq] at ha
      subst ha
      rw [show ((91 :: t ++ [93]) ++ r : Bytes) = 91 :: (t ++ 93 :: r) by simp, acc_cons]
      refine ⟨_, step_open (.inl ⟨rfl, rfl, rfl⟩) hs' h1, ?_⟩
      refine hN n hn _ .item [] (93 :: r) w rfl (.inl rfl) (.inl rfl) rfl (by simp) ?_
      intro q hq
      have := (acc_close (m := mk early env n fn) (s := s) (k := k) (c := .arr []) (c' := .arr vs) (ctx := .arr) (w := q) (tk := none) hq (.inl ⟨rfl, rfl⟩) (r := r) (v := w)).2 h
      exact this
    · rw [h2] at ha
      simp at ha
  | .hash (t := t) (es := es) hv hnd => by
    obtain ⟨N, hN⟩ := assigns_fwd hv
    refine ⟨N, fun n hn s d r w hs hg ha _ h => ?_⟩
    have hs' := hs 123 rfl
    rcases open_cases hg with ⟨k, h1, h2⟩ | ⟨_, h2⟩
    · rw [h2] at ha
      simp only [Outcome.ok.injEq, Option.some.injEq] at ha
      subst ha
      rw [show ((123 :: t ++ [125]) ++ r : Bytes) = 123 :: (t ++ 125 :: r) by simp, acc_cons]
      refine ⟨_, step_open (.inr ⟨rfl, rfl, rfl⟩) hs' h1, ?_⟩
      refine hN n hn _ .item [] (125 :: r) w rfl (.inl rfl) (.inr rfl) rfl (by simpa using hnd) (by simp) ?_
      intro q hq
      have hq' : q = .item ∨ q = .after := by
        rcases hq with h | h | ⟨_, h⟩
        · exact .inl h
        · exact .inr h
        · simp [St.inner] at h
      have := (acc_close (m := mk early env n fn) (s := s) (k := k) (c := .hash []) (c' := .hash es) (ctx := .hash) (w := q) (tk := none) hq' (.inr ⟨rfl, rfl⟩) (r := r) (v := w)).2 h
      exact this
    · rw [h2] at ha
      simp at ha
  | .incl (p := p) hi hf => by
    obtain ⟨N, hN⟩ := file_fwd hf
    refine ⟨N, fun n hn s d r w hs hg ha _ h => ?_⟩
    obtain ⟨x', hx⟩ := include_head hi
    have hs' := hs 36 (by rw [hx]; rfl)
    refine include_fwd (m := mk early env n fn) hi hs' ?_ h
    show (bif valueCtx s.dat && decide (1 < [p].length) then _ else incFiles _ [p] s.dat) = _
    rw [good_value hg]
    simp only [List.length_singleton, Nat.lt_irrefl, decide_false, Bool.and_false, cond_false, incFiles]
    rw [incFile_value hg, hN n hn, andThen_some, ha, andThen_some]

theorem values_fwd {early : Bool} {env : Env} {fn : Option Bytes} {t : Bytes} {vs : List Val} : Values env (!early) fn t vs →
    ∃ N, ∀ n, N ≤ n → ∀ (s : St) (q : Ws) (us : List Val) (r : Bytes) (w : Val), s.pos = .ws q → (q = .item ∨ q = .after) → (s.ctx = .arr ∨ s.ctx = .topArr) →
      s.dat = ⟨.arr us, none⟩ → (∀ c, r.head? = some c → c = 93 ∨ c = 125) →
      (∀ q, (q = .item ∨ q = .after) → (mk early env n fn).Acc { s with pos := .ws q, dat := ⟨.arr (us ++ vs), none⟩, tok := none } r w) →
      (mk early env n fn).Acc s (t ++ r) w
  | .nil hg => by
    refine ⟨0, fun n _ s q us r w hs hq hc hd hr h => ?_⟩
    rw [acc_append (run_gap hg hs), acc_clean (by rw [hs]; rfl)]
    have := h q hq
    rw [List.append_nil, ← hd, ← hs] at this
    exact this
  | .cons (g := g) (x := x) (k := k) (v := v) (g' := g') (cm := cm) (r := t) (vs := vs) hg hv hg' hcm hvs hap => by
    obtain ⟨N1, hN1⟩ := value_fwd hv
    obtain ⟨N2, hN2⟩ := values_fwd hvs
    refine ⟨max N1 N2, fun n hn s q us r w hs hq hc hd hr h => ?_⟩
    rw [show (g ++ x ++ g' ++ cm ++ t) ++ r = g ++ (x ++ (g' ++ cm ++ (t ++ r))) by simp]
    rw [acc_append (run_gap hg hs)]
    have ha : addVal s.dat v = .ok (some ⟨.arr (us ++ [v]), none⟩) := by rw [hd]; rfl
    refine hN1 n (by omega) s _ _ w ?_ (by rw [hd]; rfl) ha ?_ ?_
    · intro c hcx
      obtain ⟨a, x', rfl, h1, h2, h3⟩ := value_head hv
      simp at hcx; subst hcx
      rw [hs]
      show wsT s.ctx q a = _
      have e : (a == 93) = false := by simpa using h3
      rw [itemPos_wsT (hq.imp_right .inl) h1 h2 (.inr (by rcases hq with rfl | rfl <;> nofun))]
      rcases hc with hc | hc <;> simp only [itemT, hc, e, cond_false]
    · have := apart_append hap hr
      simpa using this
    · refine acc_sep hg' hcm fun q' hq' => ?_
      refine hN2 n (by omega) { s with pos := .ws q', dat := ⟨.arr (us ++ [v]), none⟩, tok := none } q' (us ++ [v]) r w rfl hq' hc rfl hr ?_
      intro q2 hq2
      have := h q2 hq2
      rw [List.append_assoc]
      exact this

theorem assigns_fwd {early : Bool} {env : Env} {fn : Option Bytes} {t : Bytes} {es : List (Entry Val)} : Assigns env (!early) fn t es →
    ∃ N, ∀ n, N ≤ n → ∀ (s : St) (q : Ws) (us : List (Entry Val)) (r : Bytes) (w : Val), s.pos = .ws q → ItemPos s.ctx q → (s.ctx = .top ∨ s.ctx = .hash) →
      s.dat = ⟨.hash us, none⟩ → ((us ++ es).map (·.key)).Nodup → (∀ c, r.head? = some c → c = 93 ∨ c = 125) →
      (∀ q, ItemPos s.ctx q → (mk early env n fn).Acc { s with pos := .ws q, dat := ⟨.hash (us ++ es), none⟩, tok := none } r w) →
      (mk early env n fn).Acc s (t ++ r) w
  | .nil hg => by
    refine ⟨0, fun n _ s q us r w hs hq hc hd _ hr h => ?_⟩
    rw [acc_append (run_gap hg hs), acc_clean (by rw [hs]; rfl)]
    have := h q hq
    rw [List.append_nil, ← hd, ← hs] at this
    exact this
  | .cons (g := g) (x := x) (key := key) (g1 := g1) (o := o) (g2 := g2) (y := y) (v := v) (g3 := g3) (cm := cm) (r := t) (es := es) hg hx hg1 ho hg2 hv hg3 hcm hes hap => by
    obtain ⟨N1, hN1⟩ := value_fwd hv
    obtain ⟨N2, hN2⟩ := assigns_fwd hes
    refine ⟨max N1 N2, fun n hn s q us r w hs hq hc hd hnd hr h => ?_⟩
    rw [show (g ++ x ++ g1 ++ o ++ g2 ++ y ++ g3 ++ cm ++ t) ++ r = g ++ (x ++ g1 ++ o ++ g2 ++ y ++ (g3 ++ cm ++ (t ++ r))) by simp]
    rw [acc_append (run_gap hg hs)]
    obtain ⟨a, y', hy, h1, h2, h3⟩ := value_head hv
    refine acc_key hs hq hc hd hx hg1 ho hg2 (by rw [hy]; simp) ?_
    have hkey : key ∉ us.map (·.key) := by
      intro hmem
      rw [List.map_append, List.nodup_append] at hnd
      exact hnd.2.2 _ hmem _ (by simp) rfl
    refine hN1 n (by omega) _ _ _ w ?_ (by show some key ≠ none; simp) (addVal_hash hkey v) ?_ ?_
    · intro c hcx
      rw [hy] at hcx
      simp at hcx; subst hcx
      exact valT (ctx := s.ctx) h1
    · have := apart_append hap hr
      simpa using this
    · refine acc_sep hg3 hcm fun q' hq' => ?_
      refine hN2 n (by omega) { s with pos := .ws q', dat := ⟨.hash (us ++ [⟨key, false, v⟩]), none⟩, tok := none } q' (us ++ [⟨key, false, v⟩]) r w rfl
        (hq'.imp_right .inl) hc rfl (by simpa using hnd) hr ?_
      intro q2 hq2
      have := h q2 hq2
      rw [List.append_assoc]
      exact this
  | .merge (g := g) (x := x) (ps := ps) (es' := es') (g' := g') (cm := cm) (r := t) (es := es) hg hi hm hg' hcm hes => by
    obtain ⟨N1, hN1⟩ := merged_fwd hm
    obtain ⟨N2, hN2⟩ := assigns_fwd hes
    refine ⟨max N1 N2, fun n hn s q us r w hs hq hc hd hnd hr h => ?_⟩
    rw [show (g ++ x ++ g' ++ cm ++ t) ++ r = g ++ (x ++ (g' ++ cm ++ (t ++ r))) by simp]
    rw [acc_append (run_gap hg hs)]
    have hnd' : ((us ++ es').map (·.key)).Nodup := by
      rw [← List.append_assoc, List.map_append, List.nodup_append] at hnd
      exact hnd.1
    refine include_fwd (m := mk early env n fn) (d := ⟨.hash (us ++ es'), none⟩) hi ?_ ?_ ?_
    · rw [hs]
      show wsT s.ctx q 36 = _
      rw [itemPos_wsT hq (by decide) (by decide) (.inl (by decide))]
      rcases hc with hc | hc <;> rw [hc] <;> rfl
    · rw [hd]
      exact hN1 n (by omega) us hnd'
    · refine acc_sep hg' hcm fun q' hq' => ?_
      refine hN2 n (by omega) { s with pos := .ws q', dat := ⟨.hash (us ++ es'), none⟩, tok := none } q' (us ++ es') r w rfl (hq'.imp_right .inl) hc rfl
        (by simpa using hnd) hr ?_
      intro q2 hq2
      have := h q2 hq2
      rw [List.append_assoc]
      exact this

theorem merged_fwd {early : Bool} {env : Env} {ps : List Bytes} {es : List (Entry Val)} : Merged env (!early) ps es →
    ∃ N, ∀ n, N ≤ n → ∀ us : List (Entry Val), ((us ++ es).map (·.key)).Nodup →
      incFiles (scanFile early env n) ps ⟨.hash us, none⟩ = .ok (some ⟨.hash (us ++ es), none⟩)
  | .nil => ⟨0, fun n _ us _ => by simp [incFiles]⟩
  | .cons (p := p) (ps := ps) (es := es) (es' := es') hf hm => by
    obtain ⟨N1, hN1⟩ := file_fwd hf
    obtain ⟨N2, hN2⟩ := merged_fwd hm
    refine ⟨max N1 N2, fun n hn us hnd => ?_⟩
    have hnd' : ((us ++ es).map (·.key)).Nodup := by
      rw [← List.append_assoc, List.map_append, List.nodup_append] at hnd
      exact hnd.1
    have hun : ∀ e ∈ es, e.marked = false := by
      cases hf with
      | mk _ hd =>
        cases hd with
        | hash ha _ => exact assigns_unmarked ha
    simp only [incFiles, incFile]
    rw [hN1 n (by omega), andThen_some]
    simp only
    rw [mergeInto_eq hnd' hun, Option.map_some, andThen_some, hN2 n (by omega) _ (by simpa using hnd)]
    simp

theorem file_fwd {early : Bool} {env : Env} {p : Bytes} {v : Val} : File env (!early) p v → ∃ N, ∀ n, N ≤ n → scanFile early env n p = .ok (some v)
  | .mk (t := t) hr hd => by
    obtain ⟨N, hN⟩ := doc_fwd hd
    refine ⟨N + 1, fun n hn => ?_⟩
    obtain ⟨n', rfl⟩ : ∃ n', n = n' + 1 := ⟨n - 1, by omega⟩
    simp only [scanFile, hr]
    exact hN n' (by omega)

theorem doc_fwd {early : Bool} {env : Env} {fn : Option Bytes} {t : Bytes} {v : Val} : Doc env (!early) fn t v →
    ∃ N, ∀ n, N ≤ n → scanBuf early env (scanFile early env n) fn t = .ok (some v)
  | .hash (es := es) ha hnd => by
    obtain ⟨N, hN⟩ := assigns_fwd ha
    refine ⟨N, fun n hn => ?_⟩
    have h := hN n hn init .start [] [] (.hash es) rfl (.inr (.inr ⟨rfl, rfl⟩)) (.inl rfl) rfl (by simpa using hnd) (by simp) ?_
    · rw [List.append_nil] at h
      exact h
    · intro q hq
      unfold Mach.Acc
      rcases hq with rfl | rfl | ⟨rfl, _⟩ <;> rfl
  | .array (g := g) (t := t) (vs := vs) (g' := g') hg hv hg' => by
    obtain ⟨N, hN⟩ := values_fwd hv
    refine ⟨N, fun n hn => ?_⟩
    show (mk early env n fn).Acc init (g ++ 91 :: t ++ 93 :: g') (.array vs)
    rw [show g ++ 91 :: t ++ 93 :: g' = g ++ (91 :: (t ++ 93 :: g')) by simp, acc_append (run_gap hg (w := .start) rfl), acc_cons]
    refine ⟨_, step_act (p := .ws .item) (a := .topArr) rfl rfl rfl, ?_⟩
    refine hN n hn _ .item [] (93 :: g') _ rfl (.inl rfl) (.inr rfl) rfl (by simp) ?_
    intro q hq
    rw [acc_cons]
    refine ⟨_, step_plain (p := .ws .done) (by rcases hq with rfl | rfl <;> rfl) rfl, ?_⟩
    rw [show g' = g' ++ [] by simp, acc_append (run_gap hg' (w := .done) rfl)]
    rfl

end

end Gdnsd.Vscf
