import Verif.Dname.Lemmas
/- Proof helpers: escape decoding and name parsing. -/
set_option linter.unusedSimpArgs false
namespace Gdnsd.Dname
open DnameSpec

/-- List-level escape decoder, the bridge between the model and the grammar. -/
def unesc : Bytes → Option Bytes
  | [] => some []
  | c :: s =>
    if c ≠ 92 then (unesc s).map (c :: ·)
    else match s with
      | [] => none
      | a :: s1 =>
        if isDigit a then
          match s1 with
          | b :: c :: s2 =>
            if isDigit b && isDigit c then
              let v := digitVal a * 100 + digitVal b * 10 + digitVal c
              if v > 255 then none else (unesc s2).map (UInt8.ofNat v :: ·)
            else none
          | _ => none
        else (unesc s1).map (a :: ·)
termination_by s => s.length

theorem isDigit_iff (c : UInt8) : isDigit c = true ↔ digit c := by
  simp [isDigit, digit, UInt8.le_iff_toNat_le]

theorem unesc_sound (s o : Bytes) (h : unesc s = some o) : Unesc s o := by
  fun_induction unesc s generalizing o with
  | case1 => simp at h; subst h; exact .nil
  | case2 c s hc ih =>
    simp at h; obtain ⟨x, hx, rfl⟩ := h; exact .lit hc (ih x hx)
  | case3 c hc => simp at h
  | case4 c hc a hd b c2 s2 hbc v hv => simp at h
  | case5 c hc a hd b c2 s2 hbc v hv ih =>
    simp at h; obtain ⟨x, hx, rfl⟩ := h
    simp at hbc hc
    subst hc
    exact .num ((isDigit_iff _).1 hd) ((isDigit_iff _).1 hbc.1) ((isDigit_iff _).1 hbc.2) rfl
      (by simpa using hv) (ih x hx)
  | case6 => simp at h
  | case7 => simp at h
  | case8 c hc a s1 hd ih =>
    simp at h; obtain ⟨x, hx, rfl⟩ := h
    simp at hc; subst hc
    exact .chr (fun h' => hd ((isDigit_iff _).2 h')) (ih x hx)

theorem unesc_complete (s o : Bytes) (h : Unesc s o) : unesc s = some o := by
  induction h with
  | nil => simp [unesc]
  | lit hc _ ih => rw [unesc.eq_def]; simp [hc, ih]
  | @chr c s o hd _ ih =>
    have : isDigit c = false := by
      cases h : isDigit c
      · rfl
      · exact absurd ((isDigit_iff _).1 h) hd
    rw [unesc.eq_def]; simp [this, ih]
  | @num a b c s o v ha hb hc hv hle _ ih =>
    have h1 := (isDigit_iff _).2 ha
    have h2 := (isDigit_iff _).2 hb
    have h3 := (isDigit_iff _).2 hc
    rw [unesc.eq_def]; simp only [h1, h2, h3, ih, digitVal, ← hv]
    simp; omega

theorem unesc_iff (s o : Bytes) : unesc s = some o ↔ Unesc s o :=
  ⟨unesc_sound s o, unesc_complete s o⟩

theorem Unesc_length {s o : Bytes} (h : Unesc s o) : o.length ≤ s.length ∧ s.length ≤ 4 * o.length := by
  induction h <;> simp at * <;> omega

theorem unescapeGo_eq (cap : Nat) (inp : Bytes) (len i : Nat) (out : Bytes)
    (hlen : len ≤ inp.length) (hcap : out.length + (len - i) ≤ cap) :
    unescapeGo cap inp len i out = .ok ((unesc ((inp.take len).drop i)).map (out ++ ·)) := by
  fun_induction unescapeGo cap inp len i out with
  | case1 i out h ih1 ih2 ih3 =>
    have hi : i < inp.length := by omega
    have hd : (inp.take len).drop i = inp[i] :: (inp.take len).drop (i + 1) := by
      rw [List.drop_eq_getElem_cons (by simp; omega)]; simp
    have hp : ∀ x, push cap out x = .ok (out ++ [x]) := fun x => by simp [push]; omega
    rw [rd_lt hi, hd, unesc.eq_def]
    simp only [Outcome.bind_ok]
    by_cases hc : inp[i] ≠ 92
    · rw [if_pos hc, hp]
      simp only [Outcome.bind_ok]
      rw [ih1 _ (by simp; omega)]
      simp [hc, Option.map_map, Function.comp_def]
    · rw [if_neg hc]
      simp only [hc]
      by_cases h1 : i + 1 ≥ len
      · have : (inp.take len).drop (i + 1) = [] := by simp; omega
        rw [if_pos h1, this]; simp
      · rw [if_neg h1, rd_lt (by omega)]
        have hd1 : (inp.take len).drop (i + 1) = inp[i+1]'(by omega) :: (inp.take len).drop (i + 2) := by
          rw [List.drop_eq_getElem_cons (by simp; omega)]; simp
        rw [hd1]
        simp only [Outcome.bind_ok, if_false]
        by_cases hg : isDigit (inp[i+1]'(by omega)) = true
        · rw [if_pos hg]
          simp only [hg, if_true]
          by_cases h3 : i + 3 ≥ len
          · rw [if_pos h3]
            have : ((inp.take len).drop (i + 2)).length ≤ 1 := by simp; omega
            match hq : (inp.take len).drop (i + 2) with
            | [] => simp
            | [x] => simp
            | x :: y :: z => rw [hq] at this; simp at this
          · rw [if_neg h3, rd_lt (by omega)]
            have hd2 : (inp.take len).drop (i + 2) = inp[i+2]'(by omega) :: inp[i+3]'(by omega) :: (inp.take len).drop (i + 4) := by
              rw [List.drop_eq_getElem_cons (by simp; omega), List.drop_eq_getElem_cons (by simp; omega)]; simp
            rw [hd2]
            simp only [Outcome.bind_ok]
            by_cases g2 : isDigit (inp[i+2]'(by omega)) = true
            · rw [rd_lt (by omega)]
              by_cases g3 : isDigit (inp[i+3]'(by omega)) = true
              · simp only [g2, g3, Bool.not_true, Outcome.bind_ok, Bool.and_self, hp]
                simp only [Bool.false_eq_true, if_false, if_true]
                split
                · simp
                · rw [ih2 h3 _ (by simp; omega)]
                  simp [Option.map_map, Function.comp_def]
              · simp [g2, g3]
            · simp [g2]
        · rw [if_neg hg, hp]
          simp only [hg, Outcome.bind_ok]
          rw [ih3 h1 _ (by simp; omega)]
          simp [Option.map_map, Function.comp_def]
  | case2 i out h =>
    have : (inp.take len).drop i = [] := by simp; omega
    rw [this]; simp [unesc]

theorem unescape_eq (cap : Nat) (inp : Bytes) (len : Nat) (h0 : 0 < len)
    (hlen : len ≤ inp.length) (hcap : len ≤ cap) :
    unescape cap inp len = .ok (unesc (inp.take len)) := by
  unfold unescape
  have h := unescapeGo_eq cap inp len 0 [] hlen (by simp; omega)
  simp [h0, h]

theorem downcase_eq (c : UInt8) : downcase c = lower c := by
  have : ∀ n, n < 256 → downcase (UInt8.ofNat n) = lower (UInt8.ofNat n) := by decide +kernel
  simpa using this c.toNat c.toNat_lt

/-! ### Name parsing -/

/-- Final escape state of the scanner, `none` when an unescaped dot is met. -/
def clean (e : Bool) : Bytes → Option Bool
  | [] => some e
  | c :: s => if e then clean false s else if c = 46 then none else clean (c == 92) s

theorem clean_append (e : Bool) (a b : Bytes) :
    clean e (a ++ b) = (clean e a).bind (fun e' => clean e' b) := by
  induction a generalizing e with
  | nil => rfl
  | cons c s ih => 
    simp only [List.cons_append, clean]
    repeat' split
    all_goals simp [ih]

theorem digit_ne {c : UInt8} (h : isDigit c = true) : c ≠ 46 ∧ (c == 92) = false := by
  constructor
  · rintro rfl; exact absurd h (by decide)
  · cases h' : c == 92
    · rfl
    · simp at h'; subst h'; exact absurd h (by decide)

theorem LabelText_of_unesc (s o : Bytes) (h : unesc s = some o) (hc : clean false s ≠ none) :
    LabelText s o := by
  fun_induction unesc s generalizing o with
  | case1 => simp at h; subst h; exact .nil
  | case2 c s hc1 ih =>
    simp at h; obtain ⟨x, hx, rfl⟩ := h
    simp only [clean, Bool.false_eq_true, if_false] at hc
    have h46 : c ≠ 46 := by rintro rfl; simp at hc
    have : (c == 92) = false := by simpa using hc1
    rw [if_neg h46, this] at hc
    exact .lit hc1 h46 (ih x hx hc)
  | case3 c hc => simp at h
  | case4 c hc a hd b c2 s2 hbc v hv => simp at h
  | case5 c hc0 a hd b c2 s2 hbc v hv ih =>
    simp at h; obtain ⟨x, hx, rfl⟩ := h
    simp at hbc hc0
    subst hc0
    have e2 := digit_ne hbc.1
    have e3 := digit_ne hbc.2
    simp [clean, e2, e3] at hc
    exact .num ((isDigit_iff _).1 hd) ((isDigit_iff _).1 hbc.1) ((isDigit_iff _).1 hbc.2) rfl
      (by simpa using hv) (ih x hx hc)
  | case6 => simp at h
  | case7 => simp at h
  | case8 c hc0 a s1 hd ih =>
    simp at h; obtain ⟨x, hx, rfl⟩ := h
    simp at hc0; subst hc0
    simp [clean] at hc
    exact .chr (fun h' => hd ((isDigit_iff _).2 h')) (ih x hx hc)

theorem LabelText_Unesc {s o : Bytes} (h : LabelText s o) : Unesc s o := by
  induction h with
  | nil => exact .nil
  | lit h _ _ ih => exact .lit h ih
  | chr h _ ih => exact .chr h ih
  | num a b c d e _ ih => exact .num a b c d e ih

/-- List-level version of the scanning loop, without the length limits. -/
def nmGo (e : Bool) (cur : Bytes) : Bytes → Option (List Bytes × Bool)
  | [] => if cur = [] then some ([], true) else none
  | c :: r =>
    if !e && c == 46 then
      if cur = [] then none
      else (unesc cur).bind fun l => (nmGo false [] r).map fun p => (l :: p.1, p.2)
    else if r = [] then (unesc (cur ++ [c])).map fun l => ([l], false)
    else nmGo (!e && c == 92) (cur ++ [c]) r

theorem nmGo_label_dot {t l : Bytes} (h : LabelText t l) (cur r : Bytes) :
    nmGo false cur (t ++ 46 :: r) = if cur ++ t = [] then none else
      (unesc (cur ++ t)).bind fun l => (nmGo false [] r).map fun p => (l :: p.1, p.2) := by
  induction h generalizing cur with
  | nil => simp [nmGo]
  | @lit c s o h1 h2 _ ih =>
    simp only [List.cons_append, nmGo]
    have e1 : (c == 46) = false := by simpa using h2
    have e2 : (c == 92) = false := by simpa using h1
    simp [e1, e2, ih]
  | @chr c s o h1 _ ih =>
    simp [nmGo, ih]
  | @num a b c s o v h1 h2 h3 _ _ _ ih =>
    have e2 := digit_ne ((isDigit_iff _).2 h2)
    have e3 := digit_ne ((isDigit_iff _).2 h3)
    simp [nmGo, ih, e2, e3]

theorem nmGo_label_end {t l : Bytes} (h : LabelText t l) (ht : t ≠ []) (cur : Bytes) :
    nmGo false cur t = (unesc (cur ++ t)).map fun l => ([l], false) := by
  induction h generalizing cur with
  | nil => simp at ht
  | @lit c s o h1 h2 _ ih =>
    have e1 : (c == 46) = false := by simpa using h2
    have e2 : (c == 92) = false := by simpa using h1
    simp only [nmGo]
    by_cases hs : s = []
    · simp [e1, hs]
    · simp [e1, e2, hs, ih hs]
  | @chr c s o h1 _ ih =>
    by_cases hs : s = []
    · simp [nmGo, hs]
    · simp [nmGo, hs, ih hs]
  | @num a b c s o v h1 h2 h3 _ _ _ ih =>
    have e2 := digit_ne ((isDigit_iff _).2 h2)
    have e3 := digit_ne ((isDigit_iff _).2 h3)
    by_cases hs : s = []
    · simp [nmGo, hs, e2, e3]
    · simp [nmGo, hs, ih hs, e2, e3]

theorem nmGo_complete {t : Bytes} {ls : List Bytes} {q : Bool} (h : NameText t ls q) (hne : ls ≠ []) :
    nmGo false [] t = some (ls, q) := by
  induction h with
  | empty => simp at hne
  | root => simp at hne
  | last ht hl => simp [nmGo_label_end hl ht, (unesc_iff _ _).2 (LabelText_Unesc hl)]
  | lastDot ht hl =>
    simp [nmGo_label_dot hl, ht, (unesc_iff _ _).2 (LabelText_Unesc hl), nmGo]
  | cons ht hl hls _ ih =>
    simp [nmGo_label_dot hl, ht, (unesc_iff _ _).2 (LabelText_Unesc hl), ih hls]

theorem nmGo_sound (rest : Bytes) (e : Bool) (cur : Bytes) (ls : List Bytes) (q : Bool)
    (hc : clean false cur = some e) (h : nmGo e cur rest = some (ls, q)) :
    (cur = [] ∧ rest = [] ∧ ls = [] ∧ q = true) ∨ (ls ≠ [] ∧ NameText (cur ++ rest) ls q) := by
  induction rest generalizing e cur ls q with
  | nil =>
    simp only [nmGo] at h
    split at h
    · rename_i hcur; simp at h; exact .inl ⟨hcur, rfl, h.1, h.2⟩
    · simp at h
  | cons c r ih =>
    right
    simp only [nmGo] at h
    split at h
    · rename_i hdot
      simp at hdot
      obtain ⟨rfl, rfl⟩ := hdot
      split at h
      · simp at h
      · rename_i hcur
        cases hu : unesc cur with
        | none => simp [hu] at h
        | some l =>
          simp only [hu, Option.bind_some, Option.map_eq_some_iff] at h
          obtain ⟨⟨ls', q'⟩, h1, h2⟩ := h
          simp at h2
          obtain ⟨rfl, rfl⟩ := h2
          have hlt := LabelText_of_unesc cur l hu (by simp [hc])
          refine ⟨by simp, ?_⟩
          rcases ih false [] ls' q' rfl h1 with ⟨_, rfl, rfl, rfl⟩ | ⟨hne, hn⟩
          · exact .lastDot hcur hlt
          · exact .cons hcur hlt hne hn
    · rename_i hdot
      have hcl : clean false (cur ++ [c]) = some (!e && c == 92) := by
        rw [clean_append, hc]
        simp only [Option.bind_some, clean]
        cases e <;> simp at hdot ⊢
        exact hdot
      split at h
      · rename_i hr
        subst hr
        simp only [Option.map_eq_some_iff] at h
        obtain ⟨l, h1, h2⟩ := h
        simp at h2
        obtain ⟨rfl, rfl⟩ := h2
        exact ⟨by simp, .last (by simp) (LabelText_of_unesc _ l h1 (by simp [hcl]))⟩
      · rename_i hr
        rcases ih _ _ _ _ hcl h with ⟨hx, _⟩ | ⟨h1, h2⟩
        · simp at hx
        · exact ⟨h1, by simpa using h2⟩


theorem Unesc_ne_nil {s o : Bytes} (h : Unesc s o) (hs : s ≠ []) : o ≠ [] := by
  cases h <;> simp at *

/-- `gdnsd_dns_unescape_label` against the list-level decoder. -/
theorem unescapeLabel_eq (inp : Bytes) (len : Nat) (h0 : 0 < len) (hlen : len ≤ inp.length) :
    unescapeLabel inp len = .ok ((unesc (inp.take len)).bind fun o =>
      if o.length ≤ 63 then some (o.map lower) else none) := by
  unfold unescapeLabel
  split
  · rename_i h
    rw [unescape_eq 252 inp len h0 hlen h]
    cases hu : unesc (inp.take len) with
    | none => simp
    | some o =>
      have : downcase = lower := funext downcase_eq
      simp only [Outcome.bind_ok, Option.bind_some, this]
      split <;> rfl
  · rename_i h
    cases hu : unesc (inp.take len) with
    | none => simp
    | some o =>
      have := (Unesc_length ((unesc_iff _ _).1 hu)).2
      simp at this
      simp; omega

/-- All limits of a parsed label list, given the space already used. -/
def fits (oal : Nat) (ls : List Bytes) : Prop :=
  (∀ l ∈ ls, l.length ≤ 63) ∧ oal + (wireLabels ls).length ≤ 255

theorem fits_cons (oal : Nat) (l : Bytes) (ls : List Bytes) :
    fits oal (l :: ls) ↔ l.length ≤ 63 ∧ fits (oal + (l.length + 1)) ls := by
  simp [fits, wireLabels, Nat.add_assoc, Nat.add_comm, Nat.add_left_comm, and_assoc]

theorem fits_base {oal : Nat} {ls : List Bytes} (h : fits oal ls) : oal ≤ 255 := by
  have := h.2; omega

instance (oal : Nat) (ls : List Bytes) : Decidable (fits oal ls) := inferInstanceAs (Decidable (_ ∧ _))

/-- What the loop computes from a state, in list terms. -/
def loopResult (s : FS) (r : Option (List Bytes × Bool)) (len : Nat) : Option (Nat × Bytes × Bool × Nat) :=
  match r with
  | none => none
  | some (ls, q) =>
    if fits s.oal ls then
      some (s.oal + (wireLabels ls).length, s.body ++ wireLabels (ls.map (·.map lower)), q, len)
    else none

def view (s : FS) : Nat × Bytes × Bool × Nat := (s.oal, s.body, s.hasDot, s.labelStart)

theorem wireLabels_map_length (ls : List Bytes) (f : UInt8 → UInt8) :
    (wireLabels (ls.map (·.map f))).length = (wireLabels ls).length := by
  induction ls with
  | nil => rfl
  | cons l ls ih => simp [wireLabels, ih]

theorem fsLoop_eq (instr : Bytes) (len i : Nat) (s : FS)
    (hlen : len ≤ instr.length) (hi : i ≤ len) (hls : s.labelStart ≤ i)
    (hend : i = len → s.labelStart = len ∧ s.hasDot = true)
    (hoal : s.oal ≤ 255) (hbody : s.body.length + 1 = s.oal) :
    ∃ r, fsLoop instr len i s = .ok r ∧
      r.map view = loopResult s (nmGo s.escapeNext ((instr.take i).drop s.labelStart) ((instr.take len).drop i)) len := by
  induction hk : len - i generalizing i s with
  | zero =>
    have hil : i = len := by omega
    obtain ⟨h1, h2⟩ := hend hil
    have e1 : (instr.take i).drop s.labelStart = [] := by simp; omega
    have e2 : (instr.take len).drop i = [] := by simp; omega
    refine ⟨some s, by rw [fsLoop]; simp [hil], ?_⟩
    rw [e1, e2]
    simp [nmGo, loopResult, fits, wireLabels, hoal, view, h1, h2]
  | succ k ih =>
    have hil : i < len := by omega
    have hi' : i < instr.length := by omega
    have hd : (instr.take len).drop i = instr[i] :: (instr.take len).drop (i + 1) := by
      rw [List.drop_eq_getElem_cons (by simp; omega)]; simp
    have hcur : (instr.take (i + 1)).drop s.labelStart = (instr.take i).drop s.labelStart ++ [instr[i]] := by
      rw [List.take_succ_eq_append_getElem hi', List.drop_append_of_le_length (by simp; omega)]
    have htk : ∀ n, n ≤ i + 1 → (instr.drop s.labelStart).take (n - s.labelStart) = (instr.take n).drop s.labelStart := by
      intro n _; rw [List.drop_take]
    rw [fsLoop, if_pos hil, hd]
    unfold fsStep
    rw [rd_lt hi']
    simp only [Outcome.bind_ok]
    generalize hc : instr[i] = c at *
    -- the shared tail of an iteration
    have fin : ∀ (n : Nat) (s' : FS), 0 < n → n ≤ i + 1 - s.labelStart →
        s'.oal = s.oal → s'.body = s.body → s'.labelStart = s.labelStart →
        fsFinish instr i n s'
        = Outcome.ok ((unesc ((instr.drop s.labelStart).take n)).bind fun o =>
            if o.length ≤ 63 ∧ s.oal + (o.length + 1) ≤ 255 then
              some { s' with oal := s.oal + (o.length + 1), body := s.body ++ wireLabels [o.map lower], labelStart := i + 1 }
            else none) := by
      intro n s' h0 hn e1 e2 e3
      unfold fsFinish
      rw [if_neg (by omega), e3, unescapeLabel_eq _ _ h0 (by simp; omega)]
      cases hu : unesc ((instr.drop s.labelStart).take n) with
      | none => simp
      | some o =>
        simp only [Option.bind_some, Outcome.bind_ok, e1, e2]
        by_cases h63 : o.length ≤ 63
        · by_cases h255 : s.oal + (o.length + 1) ≤ 255
          · have hng : ¬ (o.length + 1 + s.oal > 255) := by omega
            have hpb : s.body.length + 1 + (UInt8.ofNat o.length :: o.map lower).length ≤ 256 := by
              simp; omega
            simp only [h63, h255, pushBody, hpb, if_true, List.length_map, hng, if_false, and_self,
              Outcome.bind_ok, wireLabels, List.append_nil]
          · simp [h63, h255]; omega
        · simp [h63]
    by_cases hdot : (!s.escapeNext && c == 46) = true
    · -- an unescaped dot
      simp at hdot
      obtain ⟨hesc, rfl⟩ := hdot
      simp only [hesc]
      have hb : (!(!false && (46:UInt8) != 92 && (46:UInt8) == 46)) = false := by decide
      simp only [hb, Bool.false_eq_true, if_false]
      by_cases hz : i - s.labelStart = 0
      · have e1 : (instr.take i).drop s.labelStart = [] := by simp; omega
        refine ⟨none, by simp [hz, fsFinish], ?_⟩
        simp [e1, nmGo, loopResult]
      · have hne : (instr.take i).drop s.labelStart ≠ [] := by simp; omega
        have := fin (i - s.labelStart) { s with escapeNext := false, hasDot := true } (by omega) (by omega) rfl rfl rfl
        simp only at this
        simp only [show (!false && (46:UInt8) == 92) = false by decide,
          show (!false && (46:UInt8) != 92 && (46:UInt8) == 46) = true by decide]
        rw [this, htk i (by omega)]
        simp only [nmGo, hne, if_false, Bool.not_false, Bool.true_and, beq_self_eq_true, if_true]
        cases hu : unesc ((instr.take i).drop s.labelStart) with
        | none => exact ⟨none, by simp, by simp [loopResult]⟩
        | some o =>
          simp only [Option.bind_some]
          by_cases hf : o.length ≤ 63 ∧ s.oal + (o.length + 1) ≤ 255
          · simp only [hf, if_true, Outcome.bind_ok]
            have h3 := ih (i + 1)
              { escapeNext := false, hasDot := true, labelStart := i + 1, oal := s.oal + (o.length + 1),
                body := s.body ++ wireLabels [o.map lower] }
              (by omega) (by simp) (by simp) hf.2 (by simp [wireLabels]; omega) (by omega)
            obtain ⟨r, hr1, hr2⟩ := h3
            refine ⟨r, hr1, ?_⟩
            rw [hr2]
            have e1 : (instr.take (i + 1)).drop (i + 1) = [] := by simp
            simp only [e1]
            cases hn : nmGo false [] ((instr.take len).drop (i + 1)) with
            | none => simp [loopResult]
            | some p =>
              obtain ⟨ls, q⟩ := p
              simp only [loopResult, Option.map_some, fits_cons]
              simp only [hf, true_and]
              split <;> simp [wireLabels, Nat.add_assoc]; omega
          · have : loopResult s (Option.map (fun p : List Bytes × Bool => (o :: p.1, p.2)) (nmGo false [] ((instr.take len).drop (i + 1)))) len = none := by
              cases hn : nmGo false [] ((instr.take len).drop (i + 1)) with
              | none => simp [loopResult]
              | some p =>
                simp only [loopResult, Option.map_some, fits_cons]
                rw [if_neg]
                rintro ⟨g1, g2⟩
                exact hf ⟨g1, by have := fits_base g2; omega⟩
            rw [this, if_neg hf]
            exact ⟨none, by simp, by simp⟩
    · have hb : (!(!s.escapeNext && c != 92 && c == 46)) = true := by
        revert hdot
        cases s.escapeNext <;> simp
        intro h; exact Or.inr h
      have hb2 : (!s.escapeNext && c != 92 && c == 46) = false := by
        revert hb; cases (!s.escapeNext && c != 92 && c == 46) <;> simp
      simp only [hb, hb2, if_true]
      simp only [nmGo, hdot, Bool.false_eq_true, if_false]
      by_cases hlast : i = len - 1
      · rw [if_pos hlast]
        have hr : (instr.take len).drop (i + 1) = [] := by simp; omega
        have := fin (i - s.labelStart + 1) { s with escapeNext := (!s.escapeNext && c == 92), hasDot := false } (by omega) (by omega) rfl rfl rfl
        simp only at this
        rw [this, hr]
        have e2 : i - s.labelStart + 1 = i + 1 - s.labelStart := by omega
        rw [e2, htk (i + 1) (by omega), hcur]
        simp only [if_true]
        cases hu : unesc ((instr.take i).drop s.labelStart ++ [c]) with
        | none => exact ⟨none, by simp, by simp [loopResult]⟩
        | some o =>
          simp only [Option.bind_some, Option.map_some, loopResult, fits_cons]
          by_cases hf : o.length ≤ 63 ∧ s.oal + (o.length + 1) ≤ 255
          · simp only [hf, if_true, Outcome.bind_ok]
            have hfl : ∀ s', fsLoop instr len (i + 1) s' = .ok (some s') := by
              intro s'; rw [fsLoop, if_neg (by omega)]
            simp only [and_self, if_true, hfl]
            refine ⟨_, rfl, ?_⟩
            simp only [Option.map_some, view]
            simp [fits, wireLabels, hf]
            omega
          · rw [if_neg hf]
            refine ⟨none, by simp, ?_⟩
            rw [if_neg]
            · simp
            · rintro ⟨g1, g2⟩; exact hf ⟨g1, fits_base g2⟩
      · rw [if_neg hlast]
        have hr : (instr.take len).drop (i + 1) ≠ [] := by simp; omega
        simp only [hr, if_false, Outcome.bind_ok]
        have h3 := ih (i + 1) { s with escapeNext := (!s.escapeNext && c == 92), hasDot := false }
              (by omega) (by simp; omega) (by omega) hoal hbody (by omega)
        obtain ⟨r, hr1, hr2⟩ := h3
        refine ⟨r, hr1, ?_⟩
        rw [hr2]
        simp only [hcur]
        rfl


theorem wireLen_map_lower (ls : List Bytes) : wireLen (ls.map (·.map lower)) = wireLen ls := by
  rw [← wireLabels_length, ← wireLabels_length, wireLabels_map_length]

theorem WF_map_lower {ls : List Bytes} (h : WF ls) : WF (ls.map (·.map lower)) := by
  refine ⟨?_, by rw [wireLen_map_lower]; exact h.2⟩
  intro l hl
  simp only [List.mem_map] at hl
  obtain ⟨x, hx, rfl⟩ := hl
  simpa using h.1 x hx

/-- A parsed label list only has non-empty labels. -/
theorem NameText_labels {t : Bytes} {ls : List Bytes} {q : Bool} (h : NameText t ls q) :
    ∀ l ∈ ls, 1 ≤ l.length := by
  have key : ∀ {t l : Bytes}, t ≠ [] → LabelText t l → 1 ≤ l.length := by
    intro t l ht hl
    have := Unesc_ne_nil (LabelText_Unesc hl) ht
    cases l <;> simp at *
  induction h with
  | empty => simp
  | root => simp
  | last ht hl => simpa using key ht hl
  | lastDot ht hl => simpa using key ht hl
  | cons ht hl _ _ ih => simp; exact ⟨key ht hl, ih⟩

theorem LabelText_len {t l : Bytes} (h : LabelText t l) : t.length ≤ 4 * l.length :=
  (Unesc_length (LabelText_Unesc h)).2

theorem NameText_len {t : Bytes} {ls : List Bytes} {q : Bool} (h : NameText t ls q) (hne : ls ≠ []) :
    t.length ≤ 4 * ((wireLabels ls).length - ls.length) + ls.length := by
  induction h with
  | empty => simp at hne
  | root => simp at hne
  | last _ hl => have := LabelText_len hl; simp [wireLabels]; omega
  | lastDot _ hl => have := LabelText_len hl; simp [wireLabels]; omega
  | @cons t l r ls q _ hl hls _ ih =>
    have := LabelText_len hl
    have := ih hls
    have := length_le_wireLabels ls
    simp [wireLabels]; omega

theorem labels_le_63 (ls : List Bytes) (h : ∀ l ∈ ls, 1 ≤ l.length ∧ l.length ≤ 63) :
    (wireLabels ls).length ≤ 64 * ls.length := by
  induction ls with
  | nil => simp [wireLabels]
  | cons l ls ih =>
    have h1 := h l (by simp)
    have h2 := ih (fun x hx => h x (by simp [hx]))
    simp [wireLabels]; omega

theorem NameText_root {t : Bytes} {ls : List Bytes} {q : Bool} (h : NameText t ls q) (hls : ls = []) :
    (t = [] ∧ q = false) ∨ (t = [46] ∧ q = true) := by
  cases h <;> simp at *

/-- The up-front limit of 1004 input bytes never rejects a legal name. -/
theorem NameText_le_1004 {t : Bytes} {ls : List Bytes} {q : Bool} (h : NameText t ls q) (hwf : WF ls) :
    t.length ≤ 1004 := by
  by_cases hne : ls = []
  · rcases NameText_root h hne with ⟨rfl, _⟩ | ⟨rfl, _⟩ <;> simp
  have h1 := NameText_len h hne
  have h2 := labels_le_63 ls hwf.1
  have h3 := wireLabels_length ls
  have h4 := hwf.2
  have := length_le_wireLabels ls
  by_cases hk : ls.length ≤ 3 <;> omega

/-- The parser on any text: exact characterization in list terms. -/
theorem fromString_eq (instr : Bytes) (len : Nat) (hlen : len ≤ instr.length) :
    (∃ ls q, NameText (instr.take len) ls q ∧ WF ls ∧
      fromString instr len = .ok (if q then .valid else .partialName, encode (ls.map (·.map lower)) q)) ∨
    ((¬ ∃ ls q, NameText (instr.take len) ls q ∧ WF ls) ∧ fromString instr len = .ok (.invalid, [])) := by
  unfold fromString
  by_cases hbig : len > 1004
  · right
    rw [if_pos hbig]
    refine ⟨?_, rfl⟩
    rintro ⟨ls, q, h, hwf⟩
    have := NameText_le_1004 h hwf
    simp at this; omega
  rw [if_neg hbig]
  by_cases h0 : len = 0
  · left
    subst h0
    refine ⟨[], false, by simpa using NameText.empty, by decide, ?_⟩
    rfl
  rw [if_neg h0, rd_lt (by omega)]
  simp only [Outcome.bind_ok]
  by_cases hdot : len = 1 ∧ instr[0]'(by omega) = 46
  · left
    obtain ⟨rfl, hd⟩ := hdot
    have : instr.take 1 = [46] := by
      cases instr with
      | nil => simp at hlen
      | cons c r => simp at hd; simp [hd]
    refine ⟨[], true, by rw [this]; exact NameText.root, by decide, ?_⟩
    rw [if_pos ⟨rfl, hd⟩]; rfl
  rw [if_neg hdot]
  have hroot : ∀ ls q, NameText (instr.take len) ls q → ls ≠ [] := by
    intro ls q h hls
    rcases NameText_root h hls with ⟨h1, _⟩ | ⟨h1, _⟩
    · have := congrArg List.length h1; rw [List.length_take, List.length_nil] at this; omega
    · have h2 := congrArg List.length h1
      simp at h2
      have hl1 : len = 1 := by omega
      subst hl1
      cases instr with
      | nil => simp at hlen
      | cons c r => simp at h1; exact hdot ⟨rfl, by simpa using h1⟩
  obtain ⟨r, hr1, hr2⟩ := fsLoop_eq instr len 0 {} hlen (by omega) (by simp) (by omega) (by simp) (by simp)
  rw [hr1]
  simp only [Outcome.bind_ok]
  simp only [List.drop_zero, List.take_zero] at hr2
  cases hn : nmGo false [] (instr.take len) with
  | none =>
    right
    rw [hn] at hr2
    simp only [loopResult, Option.map_eq_none_iff] at hr2
    subst hr2
    refine ⟨?_, rfl⟩
    rintro ⟨ls, q, h, hwf⟩
    have := nmGo_complete h (hroot ls q h)
    rw [hn] at this; simp at this
  | some p =>
    obtain ⟨ls, q⟩ := p
    have hnt : NameText (instr.take len) ls q := by
      rcases nmGo_sound _ _ _ _ _ rfl hn with ⟨_, h2, _⟩ | ⟨_, h2⟩
      · have := congrArg List.length h2; rw [List.length_take, List.length_nil] at this; omega
      · simpa using h2
    have hlab := NameText_labels hnt
    have hwl := wireLabels_length ls
    rw [hn] at hr2
    simp only [loopResult] at hr2
    by_cases hf : fits 1 ls
    · left
      rw [if_pos hf] at hr2
      have hwf : WF ls := ⟨fun l hl => ⟨hlab l hl, hf.1 l hl⟩, by have := hf.2; omega⟩
      refine ⟨ls, q, hnt, hwf, ?_⟩
      simp only [Option.map_eq_some_iff] at hr2
      obtain ⟨s, rfl, hv⟩ := hr2
      simp only [view, Prod.mk.injEq, List.nil_append] at hv
      obtain ⟨e1, e2, e3, e4⟩ := hv
      simp only [e1, e2, e3]
      have hpb : (wireLabels (ls.map (·.map lower))).length + 1 + [if q = true then (0 : UInt8) else 255].length ≤ 256 := by
        rw [wireLabels_map_length]
        have := hf.2
        simp; omega
      have henc : UInt8.ofNat (1 + (wireLabels ls).length) ::
          (wireLabels (ls.map (·.map lower)) ++ [if q = true then 0 else 255]) = encode (ls.map (·.map lower)) q := by
        unfold encode; rw [wireLen_map_lower, ← hwl, Nat.add_comm]; simp
      simp only [pushBody, hpb, if_true, Outcome.bind_ok, henc, status_encode' _ _ (WF_map_lower hwf)]
      cases q <;> simp
    · right
      rw [if_neg hf] at hr2
      simp only [Option.map_eq_none_iff] at hr2
      subst hr2
      refine ⟨?_, rfl⟩
      rintro ⟨ls', q', h, hwf⟩
      have h2 := nmGo_complete h (hroot ls' q' h)
      rw [hn] at h2
      simp at h2
      obtain ⟨rfl, rfl⟩ := h2
      exact hf ⟨fun l hl => (hwf.1 l hl).2, by have := hwf.2; omega⟩

theorem NameText_nil {ls : List Bytes} {q : Bool} (h : NameText [] ls q) : [] = ls ∧ false = q := by
  generalize ht : ([] : Bytes) = t at h
  cases h with
  | empty => exact ⟨rfl, rfl⟩
  | root => simp at ht
  | last h => exact absurd ht.symm h
  | lastDot => simp at ht
  | cons => simp at ht

theorem NameText_functional {t : Bytes} {ls ls' : List Bytes} {q q' : Bool}
    (h : NameText t ls q) (h' : NameText t ls' q') : ls = ls' ∧ q = q' := by
  by_cases e : ls = []
  · rcases NameText_root h e with ⟨rfl, rfl⟩ | ⟨rfl, rfl⟩
    · subst e
      exact NameText_nil h'
    · subst e
      by_cases e' : ls' = []
      · rcases NameText_root h' e' with ⟨h1, _⟩ | ⟨_, h2⟩
        · simp at h1
        · exact ⟨e'.symm, h2.symm⟩
      · have := nmGo_complete h' e'
        simp [nmGo] at this
  · by_cases e' : ls' = []
    · rcases NameText_root h' e' with ⟨rfl, rfl⟩ | ⟨rfl, rfl⟩
      · have := NameText_nil h
        exact ⟨by rw [← this.1, e'], this.2.symm⟩
      · have := nmGo_complete h e
        simp [nmGo] at this
    · have h1 := nmGo_complete h e
      have h2 := nmGo_complete h' e'
      rw [h1] at h2; simpa using h2

end Gdnsd.Dname
