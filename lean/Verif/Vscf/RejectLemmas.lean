/-
Accepted texts are texts of the grammar.
-/
import Verif.Vscf.AcceptLemmas
namespace Gdnsd.Vscf
open VscfSpec

variable {m : Mach}

theorem apart_prefix {touch : Bool} {k : Kind} {a b : Bytes} (h : Apart touch k (a ++ b)) : Apart touch k a := by
  cases a with
  | nil => cases k <;> simp [Apart]
  | cons x a =>
    cases k with
    | bare => exact fun c hc => h c hc
    | quoted => exact fun ht c hc => h ht c hc
    | other => trivial

/-- Without a comma it does not matter which place for items it is. -/
theorem acc_item {s : St} {w : Ws} (hw : w = .after ∨ w = .start ∧ s.ctx = .top) {t : Bytes} {v : Val} (h : ∀ c, t.head? = some c → isGap c = false ∧ c ≠ 44 ∧ c ≠ 91 ∨
    isGap c = false ∧ c ≠ 44 ∧ w = .after) :
    m.Acc { s with pos := .ws w } t v ↔ m.Acc { s with pos := .ws .item } t v := by
  cases t with
  | nil =>
    unfold Mach.Acc
    simp only [run_nil, andThen_some, Mach.finish, finish]
    rcases hw with rfl | ⟨rfl, _⟩ <;> cases s.ctx <;> rfl
  | cons c t =>
    have hp : ItemPos s.ctx w := by
      rcases hw with rfl | ⟨rfl, hx⟩
      · exact .inr (.inl rfl)
      · exact .inr (.inr ⟨rfl, hx⟩)
    have e : trans m.early s.ctx (.ws w) c = trans m.early s.ctx (.ws .item) c := by
      show wsT s.ctx w c = wsT s.ctx .item c
      rcases h c rfl with ⟨h1, h2, h3⟩ | ⟨h1, h2, h3⟩
      · rw [itemPos_wsT hp h1 h2 (.inl h3), itemPos_wsT (.inl rfl) h1 h2 (.inl h3)]
      · rw [itemPos_wsT hp h1 h2 (.inr (by rw [h3]; nofun)), itemPos_wsT (.inl rfl) h1 h2 (.inr (by nofun))]
    rw [acc_cons, acc_cons]
    have e' : m.step { s with pos := .ws w } c = m.step { s with pos := .ws .item } c := by
      unfold Mach.step step
      simp only [e]
    rw [e']

/-- Behind an item. -/
theorem sep_inv {s : St} {d : Dat} {t : Bytes} {v : Val} (h : m.Acc (s.added d) t v) :
    ∃ g cm r, t = g ++ cm ++ r ∧ Gap g ∧ Comma cm ∧ m.Acc { s with pos := .ws .item, dat := d, tok := none } r v := by
  obtain ⟨g, r, rfl, hg, h1, hh⟩ := gap_inv _ (Nat.le_refl _) (w := .after) rfl h
  by_cases hc : r.head? = some 44
  · cases r with
    | nil => simp at hc
    | cons c r =>
      simp at hc; subst hc
      obtain ⟨s', h2, h3⟩ := acc_cons.1 h1
      rw [step_plain (p := .ws .item) rfl rfl] at h2
      simp only [Outcome.ok.injEq, Option.some.injEq] at h2
      subst h2
      exact ⟨g, [44], r, by simp, hg, .inr rfl, h3⟩
  · refine ⟨g, [], r, by simp, hg, .inl rfl, ?_⟩
    refine (acc_item (s := { s with pos := .ws .item, dat := d, tok := none }) (w := .after) (.inl rfl) ?_).1 h1
    intro c hcr
    exact .inr ⟨hh c hcr, by rintro rfl; exact hc hcr, rfl⟩

theorem gap_append {a b : Bytes} (ha : Gap a) (hb : Gap b) : Gap (a ++ b) := by
  induction ha with
  | nil => exact hb
  | blank h _ ih => exact .blank h ih
  | comment h1 h2 _ ih =>
    have := Gap.comment h1 h2 ih
    simpa using this

theorem itemNotGap {ctx : Ctx} {c : UInt8} (h : isGap c = false) : wsT ctx .item c = itemT ctx c := by
  simp only [isGap, Bool.or_eq_false_iff, beq_eq_false_iff_ne] at h
  have e1 : (c == 32 || c == 9 || c == 10) = false := by simp [h]
  have e2 : (c == 59 || c == 35) = false := by simp [h]
  unfold wsT
  rw [e1, e2, cond_false, cond_false]

theorem addVal_inv {us : List (Entry Val)} {key : Bytes} {v : Val} {d : Dat} (h : addVal ⟨.hash us, some key⟩ v = .ok (some d)) :
    key ∉ us.map (·.key) ∧ d = ⟨.hash (us ++ [⟨key, false, v⟩]), none⟩ := by
  cases hk : (keys us).contains key with
  | true => simp only [addVal, addEntry, hk, cond_true, Option.map_none, Outcome.ok.injEq, reduceCtorEq] at h
  | false =>
    simp only [addVal, addEntry, hk, cond_false, Option.map_some, Outcome.ok.injEq, Option.some.injEq] at h
    refine ⟨?_, h.symm⟩
    rw [← Bool.not_eq_true, List.contains_iff_mem] at hk
    exact hk

theorem incFiles_inv {env : Env} {touch : Bool} {load : Bytes → Outcome (Option Val)} (hload : ∀ p v, load p = .ok (some v) → File env touch p v)
    {ps : List Bytes} {us : List (Entry Val)} {d : Dat} (hn : (us.map (·.key)).Nodup) (h : incFiles load ps ⟨.hash us, none⟩ = .ok (some d)) :
    ∃ es, Merged env touch ps es ∧ d = ⟨.hash (us ++ es), none⟩ ∧ ((us ++ es).map (·.key)).Nodup := by
  induction ps generalizing us with
  | nil =>
    simp [incFiles] at h
    exact ⟨[], .nil, by simp [h], by simpa using hn⟩
  | cons p ps ih =>
    simp only [incFiles] at h
    obtain ⟨d1, h1, h2⟩ := andThen_ok h
    simp only [incFile] at h1
    obtain ⟨v, h3, h4⟩ := andThen_ok h1
    have hf := hload p v h3
    cases v with
    | simple _ _ => simp at h4
    | array _ => simp at h4
    | hash r =>
      have hun : ∀ e ∈ r, e.marked = false := by
        cases hf with
        | mk _ hd =>
          cases hd with
          | hash ha _ => exact assigns_unmarked ha
      simp only [Outcome.ok.injEq, Option.map_eq_some_iff] at h4
      obtain ⟨es', h5, rfl⟩ := h4
      obtain ⟨rfl, hn'⟩ := mergeInto_inv hun hn h5
      obtain ⟨es2, h6, h7, h8⟩ := ih hn' h2
      exact ⟨r ++ es2, .cons hf h6, by rw [h7, List.append_assoc], by simpa using h8⟩

/-- What is decoded at a value, in an array and in a hash. -/
def ValueInv (m : Mach) (N : Nat) : Prop :=
  ∀ (s : St) (c : UInt8) (r : Bytes) (w : Val), (c :: r).length ≤ N → trans m.early s.ctx s.pos c = valueT c → Good s.dat → m.Acc s (c :: r) w →
    ∃ x k v d r', c :: r = x ++ r' ∧ Value m.env (!m.early) m.fn x k v ∧ addVal s.dat v = .ok (some d) ∧ m.Acc (s.added d) r' w ∧
      Apart (!m.early) k r' ∧ x ≠ []

def ValuesInv (m : Mach) (N : Nat) : Prop :=
  ∀ (s : St) (t : Bytes) (us : List Val) (w : Val), t.length ≤ N → s.pos = .ws .item → (s.ctx = .arr ∨ s.ctx = .topArr) → s.dat = ⟨.arr us, none⟩ → m.Acc s t w →
    ∃ t' vs r', t = t' ++ 93 :: r' ∧ Values m.env (!m.early) m.fn t' vs ∧ m.Acc { s with dat := ⟨.arr (us ++ vs), none⟩, tok := none } (93 :: r') w

def AssignsInv (m : Mach) (N : Nat) : Prop :=
  ∀ (s : St) (t : Bytes) (us : List (Entry Val)) (w : Val), t.length ≤ N → s.pos = .ws .item → (s.ctx = .top ∨ s.ctx = .hash) → s.dat = ⟨.hash us, none⟩ →
    (us.map (·.key)).Nodup → m.Acc s t w →
    ∃ t' es r', t = t' ++ r' ∧ Assigns m.env (!m.early) m.fn t' es ∧ ((us ++ es).map (·.key)).Nodup ∧
      m.Acc { s with dat := ⟨.hash (us ++ es), none⟩, tok := none } r' w ∧ (s.ctx = .hash → ∃ r2, r' = 125 :: r2) ∧ (s.ctx = .top → r' = [])

theorem value_inv {N : Nat} (hload : ∀ p v, m.load p = .ok (some v) → File m.env (!m.early) p v) (hne : ∀ p, ¬ Found m.env p [])
    (ihB : ∀ n, n < N → ValuesInv m n) (ihC : ∀ n, n < N → AssignsInv m n) : ValueInv m N := by
  intro s c r w hlen ht hg h
  by_cases h91 : c = 91
  · subst h91
    obtain ⟨s1, h1, h2⟩ := acc_cons.1 h
    rcases open_cases hg with ⟨k, ho, ha⟩ | ⟨ho, _⟩
    · rw [step_open (.inl ⟨rfl, rfl, rfl⟩) ht ho] at h1
      simp only [Outcome.ok.injEq, Option.some.injEq] at h1
      subst h1
      obtain ⟨t', vs, r', rfl, hv, h3⟩ := ihB r.length (by simp at hlen; omega) _ r [] w (Nat.le_refl _) rfl (.inl rfl) rfl h2
      refine ⟨91 :: t' ++ [93], .other, .array vs, _, r', by simp, .array hv, ha _, ?_, trivial, by simp⟩
      exact (acc_close (c := .arr []) (c' := .arr vs) (w := .item) (tk := none) (.inl rfl) (.inl ⟨rfl, rfl⟩)).1 h3
    · have : m.step s 91 = .ok none := by
        have ht' : trans m.early s.ctx s.pos 91 = some (.ws .after, [.openArr]) := ht
        simp [Mach.step, step, ht', execs, exec, ho]
      rw [this] at h1
      simp at h1
  by_cases h123 : c = 123
  · subst h123
    obtain ⟨s1, h1, h2⟩ := acc_cons.1 h
    rcases open_cases hg with ⟨k, ho, ha⟩ | ⟨ho, _⟩
    · rw [step_open (.inr ⟨rfl, rfl, rfl⟩) ht ho] at h1
      simp only [Outcome.ok.injEq, Option.some.injEq] at h1
      subst h1
      obtain ⟨t', es, r1, rfl, hv, hn, h3, h4, _⟩ := ihC r.length (by simp at hlen; omega) _ r [] w (Nat.le_refl _) rfl (.inr rfl) rfl (by simp) h2
      obtain ⟨r', rfl⟩ := h4 rfl
      refine ⟨123 :: t' ++ [125], .other, .hash es, _, r', by simp, .hash hv (by simpa using hn), ha _, ?_, trivial, by simp⟩
      exact (acc_close (c := .hash []) (c' := .hash es) (w := .item) (tk := none) (.inl rfl) (.inr ⟨rfl, rfl⟩)).1 h3
    · have : m.step s 123 = .ok none := by
        have ht' : trans m.early s.ctx s.pos 123 = some (.ws .after, [.openHash]) := ht
        simp [Mach.step, step, ht', execs, exec, ho]
      rw [this] at h1
      simp at h1
  by_cases h36 : c = 36
  · subst h36
    obtain ⟨x, ps, d, r', e, hi, hd, h1, hx⟩ := include_inv ht h
    have hl : ∃ p, ps = [p] := by
      match ps with
      | [] =>
        obtain ⟨g, y, k, t, v, p, g', rfl, _, _, _, _, hf⟩ := hi
        exact absurd hf (hne p)
      | [p] => exact ⟨p, rfl⟩
      | p :: q :: ps =>
        simp [incGlob, good_value hg] at hd
    obtain ⟨p, rfl⟩ := hl
    simp only [incGlob, List.length_singleton, Nat.lt_irrefl, decide_false, Bool.and_false, cond_false, incFiles] at hd
    rw [incFile_value hg] at hd
    obtain ⟨d1, h2, h3⟩ := andThen_ok hd
    simp only [Outcome.ok.injEq, Option.some.injEq] at h3
    subst h3
    obtain ⟨v, h4, h5⟩ := andThen_ok h2
    exact ⟨x, .other, v, d1, r', e, .incl hi (hload p v h4), h5, h1, trivial, by rintro rfl; simp at hx⟩
  · have ht' : trans m.early s.ctx s.pos c = strT .simple c := by
      rw [ht]
      have e1 : (c == 91) = false := by simpa using h91
      have e2 : (c == 123) = false := by simpa using h123
      have e3 : (c == 36) = false := by simpa using h36
      simp only [valueT, e1, e2, e3, cond_false]
    obtain ⟨k, x, t, v, r', e, hw, h1, hk⟩ := word_inv ht' h
    obtain ⟨d, hl, h2, he⟩ := leave_inv hw hk h1
    have ha : addVal s.dat (.simple t v) = .ok (some d) := by
      have : m.leave .simple t s.dat = andThen (simpleNew t) (addVal s.dat) := rfl
      rw [this] at hl
      unfold simpleNew at hl
      rw [word_units hw] at hl
      exact hl
    refine ⟨x, k, .simple t v, d, r', e, .word hw, ha, h2, ?_, ?_⟩
    · exact (apart_iff (word_kind hw) (ctx := s.ctx)).2 fun c hc => ⟨fun hb => hk hb c hc, fun hE => he c hc hE⟩
    · obtain ⟨a, x', rfl, _⟩ := word_head hw
      simp

theorem values_inv {N : Nat} (hA : ValueInv m N) (ihB : ∀ n, n < N → ValuesInv m n) : ValuesInv m N := by
  intro s t us w hlen hs hc hd h
  obtain ⟨g, r, rfl, hg, h1, hh⟩ := gap_inv _ (Nat.le_refl _) hs h
  cases r with
  | nil =>
    unfold Mach.Acc at h1
    simp only [run_nil, andThen_some, Mach.finish, finish, hs] at h1
    rcases hc with hc | hc <;> simp [hc] at h1
  | cons c r =>
    by_cases h93 : c = 93
    · subst h93
      refine ⟨g, [], r, rfl, .nil hg, ?_⟩
      rw [acc_clean (by rw [hs]; rfl)] at h1
      rw [List.append_nil, ← hd]
      exact h1
    · have ht : trans m.early s.ctx s.pos c = valueT c := by
        rw [hs]
        show wsT s.ctx .item c = _
        rw [itemNotGap (hh c rfl)]
        have e : (c == 93) = false := by simpa using h93
        rcases hc with hc | hc <;> simp only [itemT, hc, e, cond_false]
      obtain ⟨x, k, v, d, r', e, hv, ha, h2, hap, hx⟩ := hA s c r w (by simp at hlen ⊢; omega) ht (by rw [hd]; rfl) h1
      rw [hd] at ha
      simp only [addVal, Outcome.ok.injEq, Option.some.injEq] at ha
      subst ha
      obtain ⟨g', cm, r2, rfl, hg', hcm, h3⟩ := sep_inv h2
      have hl : r2.length < N := by
        have h1 := congrArg List.length e
        have h2 := List.length_pos_iff.2 hx
        simp only [List.length_append] at h1 hlen
        omega
      obtain ⟨t2, vs, r3, rfl, hvs, h4⟩ := ihB _ hl { s with pos := .ws .item, dat := ⟨.arr (us ++ [v]), none⟩, tok := none } r2 (us ++ [v]) w (Nat.le_refl _) rfl hc rfl h3
      refine ⟨g ++ x ++ g' ++ cm ++ t2, v :: vs, r3, ?_, .cons hg hv hg' hcm hvs ?_, ?_⟩
      · rw [e]; simp
      · refine apart_prefix (b := 93 :: r3) ?_
        simpa using hap
      · rw [List.append_assoc] at h4
        rw [show s = { s with pos := .ws .item } by cases s; simp_all]
        exact h4

theorem assigns_inv {N : Nat} (hload : ∀ p v, m.load p = .ok (some v) → File m.env (!m.early) p v) (ihA : ∀ n, n < N → ValueInv m n)
    (ihC : ∀ n, n < N → AssignsInv m n) : AssignsInv m N := by
  intro s t us w hlen hs hc hd hn h
  have hse : s = { s with pos := .ws .item } := by cases s; simp_all
  obtain ⟨g, r, rfl, hg, h1, hh⟩ := gap_inv _ (Nat.le_refl _) hs h
  have hdone : (s.ctx = .hash → ∃ r2, r = 125 :: r2) → (s.ctx = .top → r = []) → ∃ t' es r', g ++ r = t' ++ r' ∧ Assigns m.env (!m.early) m.fn t' es ∧
      ((us ++ es).map (·.key)).Nodup ∧ m.Acc { s with dat := ⟨.hash (us ++ es), none⟩, tok := none } r' w ∧ (s.ctx = .hash → ∃ r2, r' = 125 :: r2) ∧ (s.ctx = .top → r' = []) := by
    intro ha hb
    refine ⟨g, [], r, rfl, .nil hg, by simpa using hn, ?_, ha, hb⟩
    rw [acc_clean (by rw [hs]; rfl)] at h1
    rw [List.append_nil, ← hd]
    exact h1
  cases r with
  | nil =>
    refine hdone ?_ (fun _ => rfl)
    intro hc'
    unfold Mach.Acc at h1
    simp [Mach.finish, finish, hs, hc'] at h1
  | cons c r =>
    by_cases h125 : c = 125 ∧ s.ctx = .hash
    · obtain ⟨rfl, hc'⟩ := h125
      exact hdone (fun _ => ⟨r, rfl⟩) (fun h => by rw [hc'] at h; simp at h)
    have hit : trans m.early s.ctx s.pos c = bif c == 36 then some (.kw 1, []) else strT .key c := by
      rw [hs]
      show wsT s.ctx .item c = _
      rw [itemNotGap (hh c rfl)]
      rcases hc with hc | hc
      · simp only [itemT, hc]
      · have e : (c == 125) = false := by
          simp; rintro rfl; exact h125 ⟨rfl, hc⟩
        simp only [itemT, hc, e, cond_false]
    by_cases h36 : c = 36
    · subst h36
      obtain ⟨x, ps, d, r', e, hi, hd', h2, hx⟩ := include_inv hit h1
      rw [hd] at hd'
      obtain ⟨es', hm, rfl, hn'⟩ := incFiles_inv hload hn (show incFiles m.load ps ⟨.hash us, none⟩ = .ok (some d) from hd')
      obtain ⟨g', cm, r2, rfl, hg', hcm, h3⟩ := sep_inv h2
      have hl : r2.length < N := by
        have h1 := congrArg List.length e
        simp only [List.length_append] at h1 hlen
        omega
      obtain ⟨t2, es, r3, rfl, hes, hn2, h4, h5, h6⟩ := ihC _ hl { s with pos := .ws .item, dat := ⟨.hash (us ++ es'), none⟩, tok := none } r2 (us ++ es') w (Nat.le_refl _) rfl hc rfl hn' h3
      refine ⟨g ++ x ++ g' ++ cm ++ t2, es' ++ es, r3, by rw [e]; simp, .merge hg hi hm hg' hcm hes, by simpa using hn2, ?_, h5, h6⟩
      rw [List.append_assoc] at h4
      rw [hse]
      exact h4
    · have ht : trans m.early s.ctx s.pos c = strT .key c := by
        rw [hit]
        have e : (c == 36) = false := by simpa using h36
        rw [e, cond_false]
      obtain ⟨k, x, tx, key, r1, e, hw, h2, hk⟩ := word_inv ht h1
      obtain ⟨d, hl, h3, _⟩ := leave_inv hw hk h2
      have hd1 : d = ⟨.hash us, some key⟩ := by
        have : m.leave .key tx s.dat = andThen (unescape tx) fun k => .ok (some { s.dat with key := some k }) := rfl
        rw [this, word_units hw, hd] at hl
        simp only [andThen_some, Outcome.ok.injEq, Option.some.injEq] at hl
        exact hl.symm
      subst hd1
      obtain ⟨g1, r2, rfl, hg1, h4, hh1⟩ := gap_inv _ (Nat.le_refl _) (w := .eq) rfl h3
      cases r2 with
      | nil =>
        unfold Mach.Acc at h4
        simp only [run_nil, andThen_some, Mach.finish, finish, St.left, next] at h4
        cases hc' : s.ctx <;> simp [hc'] at h4
      | cons c2 r2 =>
      obtain ⟨s2, h5, h6⟩ := acc_cons.1 h4
      have hc2 : c2 = 61 := by
        apply Classical.byContradiction
        intro hne
        have h' : ∀ (ctx : Ctx) (c : UInt8), isGap c = false → c ≠ 61 → wsT ctx .eq c = none := by
          intro ctx
          cases ctx <;> exact u8_all _ (by decide +kernel)
        have ht : trans m.early (s.left .key ⟨.hash us, some key⟩).ctx (s.left .key ⟨.hash us, some key⟩).pos c2 = none := h' s.ctx _ (hh1 c2 rfl) hne
        rw [step_fail ht] at h5
        simp at h5
      subst hc2
      rw [step_plain (p := .opr) rfl rfl] at h5
      simp only [Outcome.ok.injEq, Option.some.injEq] at h5
      subst h5
      -- the operator
      have hop : ∃ o r3, 61 :: r2 = o ++ r3 ∧ (o = [61, 62] ∨ o = [61] ∧ r3.head? ≠ some 62) ∧
          m.Acc { s with pos := .ws .val, dat := ⟨.hash us, some key⟩, tok := none } r3 w := by
        by_cases h62 : r2.head? = some 62
        · cases r2 with
          | nil => simp at h62
          | cons c3 r3 =>
            simp at h62; subst h62
            obtain ⟨s3, h7, h8⟩ := acc_cons.1 h6
            rw [step_plain (p := .ws .val) rfl rfl] at h7
            simp only [Outcome.ok.injEq, Option.some.injEq] at h7
            subst h7
            exact ⟨[61, 62], r3, rfl, .inl rfl, h8⟩
        · exact ⟨[61], r2, rfl, .inr ⟨rfl, h62⟩, (acc_opr h62).1 h6⟩
      obtain ⟨o, r3, eo, ho, h7⟩ := hop
      obtain ⟨g2, r4, rfl, hg2, h8, hh2⟩ := gap_inv _ (Nat.le_refl _) (w := .val) rfl h7
      cases r4 with
      | nil =>
        unfold Mach.Acc at h8
        simp only [run_nil, andThen_some, Mach.finish, finish] at h8
        cases hc' : s.ctx <;> simp [hc'] at h8
      | cons c4 r4 =>
      have hx0 : 0 < x.length := by
        obtain ⟨a, x', rfl, _⟩ := word_head hw
        simp
      have hlen4 : (c4 :: r4).length < N := by
        have h1 := congrArg List.length e
        have h2 := congrArg List.length eo
        simp only [List.length_append] at h1 h2 hlen
        omega
      obtain ⟨y, k', v, d, r5, e5, hv, ha, h9, hap, hy⟩ := ihA _ hlen4 { s with pos := .ws .val, dat := ⟨.hash us, some key⟩, tok := none } c4 r4 w (Nat.le_refl _) (valT (ctx := s.ctx) (hh2 c4 rfl)) (show some key ≠ none by simp) h8
      obtain ⟨hkey, rfl⟩ := addVal_inv ha
      obtain ⟨g3, cm, r6, rfl, hg3, hcm, h10⟩ := sep_inv h9
      have hl6 : r6.length < N := by
        have h1 := congrArg List.length e5
        simp only [List.length_append] at h1
        omega
      have hn' : ((us ++ [(⟨key, false, v⟩ : Entry Val)]).map (·.key)).Nodup := by
        rw [List.map_append, List.nodup_append]
        refine ⟨hn, by simp, ?_⟩
        intro a hma b hb hab
        simp at hb
        subst hab hb
        exact hkey hma
      obtain ⟨t2, es, r7, rfl, hes, hn2, h11, h12, h13⟩ := ihC _ hl6 { s with pos := .ws .item, dat := ⟨.hash (us ++ [⟨key, false, v⟩]), none⟩, tok := none } r6 (us ++ [⟨key, false, v⟩]) w (Nat.le_refl _) rfl hc rfl hn' h10
      have hop : Op o (g2 ++ y) := by
        rcases ho with rfl | ⟨rfl, ho⟩
        · exact .inl rfl
        · refine .inr ⟨rfl, ?_⟩
          rw [e5] at ho
          cases hgy : g2 ++ y with
          | nil => simp at hgy; exact absurd hgy.2 hy
          | cons a l =>
            rw [← List.append_assoc, hgy] at ho
            exact ho
      refine ⟨g ++ x ++ g1 ++ o ++ g2 ++ y ++ g3 ++ cm ++ t2, ⟨key, false, v⟩ :: es, r7, ?_, .cons hg hw hg1 hop hg2 hv hg3 hcm hes ?_, by simpa using hn2, ?_, h12, h13⟩
      · rw [e, eo, e5]; simp
      · refine apart_prefix (b := r7) ?_
        simpa using hap
      · rw [List.append_assoc] at h11
        rw [hse]
        exact h11

theorem inv_all (hload : ∀ p v, m.load p = .ok (some v) → File m.env (!m.early) p v) (hne : ∀ p, ¬ Found m.env p []) (N : Nat) :
    ∀ n, n ≤ N → ValueInv m n ∧ ValuesInv m n ∧ AssignsInv m n := by
  induction N with
  | zero =>
    intro n hn
    have hA : ValueInv m n := value_inv hload hne (by omega) (by omega)
    exact ⟨hA, values_inv hA (by omega), assigns_inv hload (by omega) (by omega)⟩
  | succ N ih =>
    intro n hn
    have hA : ValueInv m n := value_inv hload hne (fun k hk => (ih k (by omega)).2.1) (fun k hk => (ih k (by omega)).2.2)
    exact ⟨hA, values_inv hA fun k hk => (ih k (by omega)).2.1, assigns_inv hload (fun k hk => (ih k (by omega)).1) fun k hk => (ih k (by omega)).2.2⟩

theorem doc_inv (hload : ∀ p v, m.load p = .ok (some v) → File m.env (!m.early) p v) (hne : ∀ p, ¬ Found m.env p []) {t : Bytes} {w : Val} (h : m.Acc init t w) :
    Doc m.env (!m.early) m.fn t w := by
  have hall := fun n => inv_all hload hne n n (Nat.le_refl _)
  obtain ⟨g, r, rfl, hg, h1, hh⟩ := gap_inv _ (Nat.le_refl _) (w := .start) rfl h
  by_cases h91 : r.head? = some 91
  · cases r with
    | nil => simp at h91
    | cons c r =>
      simp at h91; subst h91
      obtain ⟨s1, h2, h3⟩ := acc_cons.1 h1
      rw [step_act (p := .ws .item) (a := .topArr) rfl rfl rfl] at h2
      simp only [Outcome.ok.injEq, Option.some.injEq] at h2
      subst h2
      obtain ⟨t', vs, r', rfl, hv, h4⟩ := (hall r.length).2.1 _ r [] w (Nat.le_refl _) rfl (.inr rfl) rfl h3
      obtain ⟨s2, h5, h6⟩ := acc_cons.1 h4
      rw [step_plain (p := .ws .done) rfl rfl] at h5
      simp only [Outcome.ok.injEq, Option.some.injEq] at h5
      subst h5
      obtain ⟨g', r2, rfl, hg', h7, hh2⟩ := gap_inv _ (Nat.le_refl _) (w := .done) rfl h6
      cases r2 with
      | nil =>
        have hw : w = .array vs := by
          unfold Mach.Acc at h7
          simp [Mach.finish, finish, result, Cont.toVal, init, assert] at h7
          exact h7.symm
        subst hw
        have := Doc.array (env := m.env) (touch := !m.early) (fn := m.fn) hg hv hg'
        simpa using this
      | cons c2 r2 =>
        obtain ⟨s3, h8, _⟩ := acc_cons.1 h7
        have h' : ∀ (ctx : Ctx) (c : UInt8), isGap c = false → wsT ctx .done c = none := by
          intro ctx
          cases ctx <;> exact u8_all _ (by decide +kernel)
        have h9 : trans m.early Ctx.topArr (.ws .done) c2 = none := h' .topArr _ (hh2 c2 rfl)
        rw [step_fail h9] at h8
        simp at h8
  · have h2 : m.Acc { init with pos := .ws .item } r w := by
      by_cases h44 : r.head? = some 44
      · cases r with
        | nil => simp at h44
        | cons c r =>
          simp at h44; subst h44
          obtain ⟨s3, h8, _⟩ := acc_cons.1 h1
          rw [step_fail (by rfl)] at h8
          simp at h8
      · refine (acc_item (s := init) (w := .start) (.inr ⟨rfl, rfl⟩) ?_).1 h1
        intro c hc
        exact .inl ⟨hh c hc, by rintro rfl; exact h44 hc, by rintro rfl; exact h91 hc⟩
    obtain ⟨t', es, r', e, ha, hn, h3, _, h5⟩ := (hall r.length).2.2 _ r [] w (Nat.le_refl _) rfl (.inl rfl) rfl (by simp) h2
    have hr := h5 rfl
    subst hr
    have hw : w = .hash es := by
      unfold Mach.Acc at h3
      simp [Mach.finish, finish, result, Cont.toVal, init, assert] at h3
      exact h3.symm
    subst hw
    rw [List.append_nil] at e
    subst e
    refine .hash ?_ (by simpa using hn)
    cases ha with
    | nil hg2 => exact .nil (gap_append hg hg2)
    | cons i1 i2 i3 i4 i5 i6 i7 i8 i9 i10 =>
      have := Assigns.cons (gap_append hg i1) i2 i3 i4 i5 i6 i7 i8 i9 i10
      simpa using this
    | merge i1 i2 i3 i4 i5 i6 =>
      have := Assigns.merge (gap_append hg i1) i2 i3 i4 i5 i6
      simpa using this

theorem file_inv {early : Bool} {env : Env} (hne : ∀ p, ¬ Found env p []) {n : Nat} {p : Bytes} {v : Val} (h : scanFile early env n p = .ok (some v)) :
    File env (!early) p v := by
  induction n generalizing p v with
  | zero => simp [scanFile] at h
  | succ n ih =>
    simp only [scanFile] at h
    cases hr : env.read p with
    | none => simp [hr] at h
    | some t =>
      rw [hr] at h
      exact .mk hr (doc_inv (m := mk early env n (some p)) (fun p v => ih) hne h)

end Gdnsd.Vscf
