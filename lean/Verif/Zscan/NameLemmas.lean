/-
Lemmas on names in zone files.
-/
import Verif.Zscan.PreLemmas
import Verif.Dname.Props
namespace Gdnsd.Zscan
open ZscanSpec DnameSpec LookupSpec EncSpec Dname

/-- The state for a place in a file. -/
structure Rel (z : Z) (c : Ctx) : Prop where
  zone : z.zone = encode c.zone true
  origin : z.origin = encode c.origin true
  fileOrigin : z.fileOrigin = encode c.fileOrigin true
  wz : WF c.zone
  wo : WF c.origin
  wf : WF c.fileOrigin
  io : c.zone <:+ c.origin
  iff : c.zone <:+ c.fileOrigin
  wown : WF c.owner
  lhs : if outside c then z.ooz = true ∧ z.lhs = encode c.owner true else z.ooz = false ∧ ∃ o, c.owner = o ++ c.zone ∧ z.lhs = encode o true
  ttl : z.defTtl = c.ttl
  fn : z.fn = c.fn

theorem finalGo_eq (xs : List Bytes) (x : Bytes) (hl : ∀ l ∈ x :: xs, 1 ≤ l.length ∧ l.length ≤ 63) (p : Bytes) (f : Nat) (hf : xs.length < f) :
    finalGo (p ++ wireLabels (x :: xs) ++ [255]) f p.length = .ok (p.length + (wireLabels (x :: xs).dropLast).length) := by
  induction xs generalizing x p f with
  | nil =>
    cases f with
    | zero => omega
    | succ f =>
      obtain ⟨h1, h2⟩ := hl x (by simp)
      have e : p ++ wireLabels [x] ++ [255] = p ++ (UInt8.ofNat x.length :: x ++ [255]) := by simp [wireLabels]
      rw [e, finalGo, show p.length = p.length + 0 from rfl, rd_append_right]
      simp only [List.cons_append, rd, List.getElem?_cons_zero, Outcome.bind_ok, toNat_ofNat_lt (show x.length < 256 by omega)]
      rw [show ((p ++ UInt8.ofNat x.length :: (x ++ [255]))[p.length + 0 + x.length + 1]?) = some 255 by
        rw [List.getElem?_append_right (by omega), show p.length + 0 + x.length + 1 - p.length = x.length + 1 by omega, List.getElem?_cons_succ,
          List.getElem?_append_right (by omega)]
        simp]
      simp [wireLabels]
  | cons y xs ih =>
    cases f with
    | zero => omega
    | succ f =>
      obtain ⟨h1, h2⟩ := hl x (by simp)
      obtain ⟨h3, h4⟩ := hl y (by simp)
      have e : p ++ wireLabels (x :: y :: xs) ++ [255] = (p ++ (UInt8.ofNat x.length :: x)) ++ wireLabels (y :: xs) ++ [255] := by simp [wireLabels]
      have e2 : p ++ wireLabels (x :: y :: xs) ++ [255] = p ++ (UInt8.ofNat x.length :: (x ++ (UInt8.ofNat y.length :: (y ++ wireLabels xs ++ [255])))) := by simp [wireLabels]
      rw [finalGo]
      have r1 : rd (p ++ wireLabels (x :: y :: xs) ++ [255]) p.length = .ok (UInt8.ofNat x.length) := by
        rw [e2]; exact rd_at _ _ _ _ rfl
      have r2 : rd (p ++ wireLabels (x :: y :: xs) ++ [255]) (p.length + x.length + 1) = .ok (UInt8.ofNat y.length) := by
        rw [e2, show p ++ (UInt8.ofNat x.length :: (x ++ (UInt8.ofNat y.length :: (y ++ wireLabels xs ++ [255])))) = (p ++ (UInt8.ofNat x.length :: x)) ++ (UInt8.ofNat y.length :: (y ++ wireLabels xs ++ [255])) by simp]
        exact rd_at _ _ _ _ (by simp; omega)
      rw [r1]
      simp only [Outcome.bind_ok, toNat_ofNat_lt (show x.length < 256 by omega)]
      rw [r2]
      have hne : (UInt8.ofNat y.length == 255) = false := by
        rw [beq_eq_false_iff_ne]
        intro h
        have := congrArg UInt8.toNat h
        rw [toNat_ofNat_lt (by omega)] at this
        simp at this; omega
      simp only [Outcome.bind_ok, hne, cond_false]
      have := ih y (fun l h => hl l (by simp [h])) (p ++ (UInt8.ofNat x.length :: x)) f (by simp at hf; omega)
      rw [e]
      rw [show p.length + x.length + 1 = (p ++ (UInt8.ofNat x.length :: x)).length by simp; omega, this]
      simp [wireLabels]; omega

theorem encode_false (ls : List Bytes) : encode ls false = UInt8.ofNat (wireLen ls) :: wireLabels ls ++ [255] := rfl

/-- What a relative name stands for. -/
def Target (c : Ctx) (ls name : List Bytes) : Prop :=
  if ls = [[64]] then name = c.origin
  else if ls.getLast? = some [64, 122] then name = ls.dropLast ++ c.zone
  else if ls.getLast? = some [64, 102] then name = ls.dropLast ++ c.fileOrigin
  else (∀ x, ls.getLast? ≠ some [64, x]) ∧ name = ls ++ c.origin

theorem cat_case (a b : List Bytes) (ha : WF a) (hb : WF b) (j : Bytes) :
    (WF (a ++ b) ∧ cat (encode a false ++ j) (encode b true) = .ok (.valid, encode (a ++ b) true)) ∨
    (¬ WF (a ++ b) ∧ ∃ d, cat (encode a false ++ j) (encode b true) = .ok (.invalid, d)) := by
  have := C05_cat a b false true ha hb j []
  rw [List.append_nil] at this
  by_cases h : wireLen (a ++ b) ≤ 255
  · rw [if_pos h] at this; exact .inl ⟨(C05_cat_wf a b ha hb).mp h, this⟩
  · rw [if_neg h] at this; exact .inr ⟨fun hw => h hw.2, _, this⟩

theorem snoc_cases {α : Type} (l : List α) (h : l ≠ []) : ∃ i x, l = i ++ [x] := ⟨l.dropLast, l.getLast h, (List.dropLast_concat_getLast h).symm⟩

theorem qualify_eq (c : Ctx) (wz : WF c.zone) (wo : WF c.origin) (wf : WF c.fileOrigin) (ls : List Bytes) (h : WF ls) (hne : ls ≠ []) :
    (∃ n, Target c ls n ∧ WF n ∧ qualify (encode ls false) (encode c.origin true) (encode c.fileOrigin true) (encode c.zone true) = .ok (.valid, encode n true)) ∨
    ((¬ ∃ n, Target c ls n ∧ WF n) ∧ ∃ d, qualify (encode ls false) (encode c.origin true) (encode c.fileOrigin true) (encode c.zone true) = .ok (.invalid, d)) := by
  obtain ⟨i, l, rfl⟩ := snoc_cases ls hne
  have hlall := h.1
  obtain ⟨hl1, hl2⟩ := hlall l (by simp)
  have hlen := h.2
  have hwl : wireLen (i ++ [l]) = wireLen i + l.length + 1 := by
    have := wireLen_append i [l]
    have : wireLen [l] = l.length + 2 := by simp [wireLen]
    omega
  have hpos := wireLen_pos i
  have wi : WF i := WF_prefix h
  have r0 : rd (encode (i ++ [l]) false) 0 = .ok (UInt8.ofNat (wireLen (i ++ [l]))) := by have := rd_encode_zero (i ++ [l]) false []; simpa using this
  have hL : (encode (i ++ [l]) false).length = wireLen (i ++ [l]) + 1 := encode_length _ _
  have r2 : ∃ b, rd (encode (i ++ [l]) false) 2 = .ok b := ⟨_, rd_lt (by rw [hL]; omega)⟩
  obtain ⟨b2, r2⟩ := r2
  have hst : status (encode (i ++ [l]) false) = .ok .partialName := status_encode' _ _ h
  unfold qualify
  rw [hst]
  simp only [Outcome.bind_ok, beq_self_eq_true, assert, if_true]
  rw [r0]; simp only [Outcome.bind_ok]
  rw [r2]; simp only [Outcome.bind_ok]
  by_cases hat : i ++ [l] = [[64]]
  · have hi : i = [] := by
      cases i with
      | nil => rfl
      | cons a i => have := congrArg List.length hat; simp at this
    subst hi
    simp at hat; subst hat
    have : b2 = 64 := by
      have : rd (encode ([] ++ [[64]]) false) 2 = .ok 64 := by decide
      rw [this] at r2; cases r2; rfl
    subst this
    refine .inl ⟨c.origin, by simp [Target], wo, ?_⟩
    have e1 : rd (encode ([] ++ [[64]]) false) 1 = .ok 1 := by decide
    have e3 : rd (encode ([] ++ [[64]]) false) 3 = .ok 255 := by decide
    rw [e1, e3]
    rfl
  · have hcond : (UInt8.ofNat (wireLen (i ++ [l])) == 3 && b2 == 64) = false := by
      apply Bool.eq_false_iff.mpr
      intro hc
      simp only [Bool.and_eq_true, beq_iff_eq] at hc
      obtain ⟨hc1, hc2⟩ := hc
      have hc1 := congrArg UInt8.toNat hc1
      rw [toNat_ofNat_lt (by omega)] at hc1
      simp at hc1
      have hi : i = [] := by
        cases i with
        | nil => rfl
        | cons a i =>
          obtain ⟨ha, _⟩ := hlall a (by simp)
          have := wireLen_cons a i
          have := wireLen_pos i
          omega
      subst hi
      simp [wireLen] at hc1
      match l, hc1 with
      | [x], _ =>
        have : b2 = x := by
          have : rd (encode ([] ++ [[x]]) false) 2 = .ok x := by simp [encode, wireLabels, rd]
          rw [this] at r2; cases r2; rfl
        rw [this] at hc2
        exact hat (by simp [hc2])
    rw [hcond]
    simp only [cond_false]
    -- the final label
    have hfin : finalLabel (encode (i ++ [l]) false) = .ok (1 + (wireLabels i).length) := by
      unfold finalLabel
      rw [hst]
      simp only [Outcome.bind_ok, beq_self_eq_true, assert, if_true]
      cases hx : i ++ [l] with
      | nil => simp at hx
      | cons x xs =>
        have hlx : xs.length < 256 := by
          have h1 := length_le_wireLabels (i ++ [l])
          have h2 := wireLabels_length (i ++ [l])
          rw [hx] at h1 h2
          rw [hx] at hlen
          simp at h1; omega
        have := finalGo_eq xs x (by rw [← hx]; exact hlall) [UInt8.ofNat (wireLen (x :: xs))] 256 hlx
        have hdl : (x :: xs).dropLast = i := by rw [← hx]; simp
        rw [hdl] at this
        exact this
    rw [hfin]
    simp only [Outcome.bind_ok]
    have henc : encode (i ++ [l]) false = (UInt8.ofNat (wireLen (i ++ [l])) :: wireLabels i) ++ (UInt8.ofNat l.length :: (l ++ [255])) := by
      rw [encode_false, wireLabels_append]; simp [wireLabels]
    have rn : rd (encode (i ++ [l]) false) (1 + (wireLabels i).length) = .ok (UInt8.ofNat l.length) := by
      rw [henc]; exact rd_at _ _ _ _ (by simp; omega)
    rw [rn]
    have hn0 : (UInt8.ofNat l.length != 0) = true := by
      simp only [bne_iff_ne]
      intro hc
      have := congrArg UInt8.toNat hc
      rw [toNat_ofNat_lt (by omega)] at this
      simp at this; subst this; simp at hl1
    simp only [Outcome.bind_ok, hn0, if_true]
    match l, hl1 with
    | c0 :: l', _ =>
      have rc : rd (encode (i ++ [c0 :: l']) false) (1 + (wireLabels i).length + 1) = .ok c0 := by
        rw [henc, show (UInt8.ofNat (wireLen (i ++ [c0 :: l'])) :: wireLabels i) ++ (UInt8.ofNat (c0 :: l').length :: ((c0 :: l') ++ [255])) =
          ((UInt8.ofNat (wireLen (i ++ [c0 :: l'])) :: wireLabels i) ++ [UInt8.ofNat (c0 :: l').length]) ++ (c0 :: (l' ++ [255])) by simp]
        exact rd_at _ _ _ _ (by simp; omega)
      rw [rc]
      simp only [Outcome.bind_ok]
      by_cases hsp : ∃ x, c0 :: l' = [64, x]
      · obtain ⟨x, hx⟩ := hsp
        simp at hx
        obtain ⟨rfl, rfl⟩ := hx
        have rx : rd (encode (i ++ [[64, x]]) false) (1 + (wireLabels i).length + 2) = .ok x := by
          rw [henc, show (UInt8.ofNat (wireLen (i ++ [[64, x]])) :: wireLabels i) ++ (UInt8.ofNat [64, x].length :: ([64, x] ++ [255])) =
            ((UInt8.ofNat (wireLen (i ++ [[64, x]])) :: wireLabels i) ++ [UInt8.ofNat [64, x].length, 64]) ++ (x :: [255]) by simp]
          exact rd_at _ _ _ _ (by simp; omega)
        have hd' : ((encode (i ++ [[64, x]]) false).set (1 + (wireLabels i).length) 255).set 0 (UInt8.ofNat (wireLen (i ++ [[64, x]])) - 3) = encode i false ++ [64, x, 255] := by
          rw [henc, List.set_append_right _ _ (by simp; omega)]
          simp only [List.length_cons]
          rw [show 1 + (wireLabels i).length - ((wireLabels i).length + 1) = 0 by omega]
          simp only [List.set_cons_zero, List.cons_append]
          rw [encode_false]
          have : UInt8.ofNat (wireLen (i ++ [[64, x]])) - 3 = UInt8.ofNat (wireLen i) := by
            rw [hwl]
            apply UInt8.toNat_inj.mp
            rw [UInt8.toNat_sub_of_le]
            · rw [toNat_ofNat_lt (by simp; simp at hwl; omega), toNat_ofNat_lt (by omega)]; simp
            · rw [UInt8.le_iff_toNat_le, toNat_ofNat_lt (by simp; simp at hwl; omega)]; simp
          rw [this]
          simp
        have hn2 : (UInt8.ofNat ([64, x] : Bytes).length == 2 && (64 : UInt8) == 64) = true := rfl
        rw [hn2]
        simp only [cond_true]
        rw [rx]
        simp only [Outcome.bind_ok, hd']
        have hT : ∀ n, Target c (i ++ [[64, x]]) n ↔ (x = 122 ∧ n = i ++ c.zone) ∨ (x = 102 ∧ n = i ++ c.fileOrigin) := by
          intro n
          unfold Target
          rw [if_neg hat]
          simp only [List.getLast?_append, List.getLast?_singleton, Option.some_or, Option.some.injEq, List.cons.injEq, and_true, true_and, List.dropLast_concat]
          by_cases h1 : x = 122
          · subst h1; simp
          · rw [if_neg h1]
            by_cases h2 : x = 102
            · subst h2; simp
            · rw [if_neg h2]
              simp [h1, h2]
        by_cases h1 : x = 122
        · subst h1
          simp only [beq_self_eq_true, cond_true]
          rcases cat_case i c.zone wi wz [64, 122, 255] with ⟨w, e⟩ | ⟨w, d, e⟩
          · exact .inl ⟨_, (hT _).mpr (.inl ⟨rfl, rfl⟩), w, e⟩
          · refine .inr ⟨?_, d, e⟩
            rintro ⟨n, hn, hw⟩
            rcases (hT n).mp hn with ⟨_, rfl⟩ | ⟨h', _⟩
            · exact w hw
            · exact absurd h' (by decide)
        · simp only [beq_eq_false_iff_ne.mpr h1, cond_false]
          by_cases h2 : x = 102
          · subst h2
            simp only [beq_self_eq_true, cond_true]
            rcases cat_case i c.fileOrigin wi wf [64, 102, 255] with ⟨w, e⟩ | ⟨w, d, e⟩
            · exact .inl ⟨_, (hT _).mpr (.inr ⟨rfl, rfl⟩), w, e⟩
            · refine .inr ⟨?_, d, e⟩
              rintro ⟨n, hn, hw⟩
              rcases (hT n).mp hn with ⟨h', _⟩ | ⟨_, rfl⟩
              · exact absurd h' (by decide)
              · exact w hw
          · simp only [beq_eq_false_iff_ne.mpr h2, cond_false]
            refine .inr ⟨?_, _, rfl⟩
            rintro ⟨n, hn, hw⟩
            rcases (hT n).mp hn with ⟨h', _⟩ | ⟨h', _⟩
            · exact h1 h'
            · exact h2 h'
      · have hcond : (UInt8.ofNat (c0 :: l').length == 2 && c0 == 64) = false := by
          apply Bool.eq_false_iff.mpr
          intro hc
          simp only [Bool.and_eq_true, beq_iff_eq] at hc
          obtain ⟨hc1, rfl⟩ := hc
          have hc1 := congrArg UInt8.toNat hc1
          rw [toNat_ofNat_lt (by omega)] at hc1
          simp at hc1
          match l', hc1 with
          | [x], _ => exact hsp ⟨x, rfl⟩
        rw [hcond]
        simp only [cond_false]
        have hT : ∀ n, Target c (i ++ [c0 :: l']) n ↔ n = i ++ [c0 :: l'] ++ c.origin := by
          intro n
          have hx : ∀ x, (i ++ [c0 :: l']).getLast? ≠ some [64, x] := by
            intro x hx
            simp only [List.getLast?_append, List.getLast?_singleton, Option.some_or, Option.some.injEq] at hx
            exact hsp ⟨x, hx⟩
          unfold Target
          rw [if_neg hat, if_neg (hx 122), if_neg (hx 102)]
          exact ⟨fun h => h.2, fun h => ⟨hx, h⟩⟩
        have := cat_case (i ++ [c0 :: l']) c.origin h wo []
        rw [List.append_nil] at this
        rcases this with ⟨w, e⟩ | ⟨w, d, e⟩
        · exact .inl ⟨_, (hT _).mpr rfl, w, e⟩
        · refine .inr ⟨?_, d, e⟩
          rintro ⟨n, hn, hw⟩
          rw [(hT n).mp hn] at hw
          exact w hw

theorem resolves_iff (c : Ctx) (text : Bytes) (n : List Bytes) (ls : List Bytes) (q : Bool) (h : NameText text ls q) (hw : WF ls) :
    Resolves c text n ↔ WF n ∧ if q then n = lowerName ls else Target c (lowerName ls) n := by
  constructor
  · rintro ⟨ls', q', h1, h2, h3, h4⟩
    obtain ⟨rfl, rfl⟩ := NameText_functional h h1
    exact ⟨h3, h4⟩
  · rintro ⟨h3, h4⟩
    exact ⟨ls, q, h, hw, h3, h4⟩

theorem name_nonempty {t : Bytes} {ls : List Bytes} {q : Bool} (h : NameText t ls q) (ht : t ≠ []) (hq : q = false) : ls ≠ [] := by
  cases h with
  | empty => exact absurd rfl ht
  | root => cases hq
  | last _ _ => simp
  | lastDot _ _ => simp
  | cons _ _ _ _ => simp

/-- A name on the right side. -/
theorem dnameSet_rhs (z : Z) (c : Ctx) (R : Rel z c) (text : Bytes) (ht : text ≠ []) :
    (∃ n, Resolves c text n ∧ dnameSet z text false = .ok (some (encode n true, false))) ∨
    ((¬ ∃ n, Resolves c text n) ∧ dnameSet z text false = .ok none) := by
  have hemp : text.isEmpty = false := by cases text; exact absurd rfl ht; rfl
  unfold dnameSet
  rw [hemp]
  simp only [cond_false]
  rcases C01_parse_exact text text.length (Nat.le_refl _) with ⟨ls, q, h1, h2, h3⟩ | ⟨h1, h3⟩
  · rw [List.take_length] at h1
    rw [h3]
    have hr := fun n => resolves_iff c text n ls q h1 h2
    have hlw : WF (lowerName ls) := WF_map_lower h2
    cases q with
    | true =>
      refine .inl ⟨lowerName ls, (hr _).mpr ⟨hlw, rfl⟩, rfl⟩
    | false =>
      simp only [Bool.false_eq_true, if_false] at hr
      simp only [Bool.false_eq_true, if_false, Outcome.bind_ok]
      have hne : lowerName ls ≠ [] := by
        have := name_nonempty h1 ht rfl
        cases ls
        · exact absurd rfl this
        · simp [lowerName]
      rw [R.origin, R.fileOrigin, R.zone]
      rcases qualify_eq c R.wz R.wo R.wf (lowerName ls) hlw hne with ⟨n, a, b, e⟩ | ⟨a, d, e⟩
      · exact .inl ⟨n, (hr n).mpr ⟨b, a⟩, by rw [show ls.map (·.map lower) = lowerName ls from rfl, e]; rfl⟩
      · refine .inr ⟨?_, by rw [show ls.map (·.map lower) = lowerName ls from rfl, e]; rfl⟩
        rintro ⟨n, hn⟩
        obtain ⟨b, a'⟩ := (hr n).mp hn
        exact a ⟨n, a', b⟩
  · rw [List.take_length] at h1
    rw [h3]
    refine .inr ⟨?_, rfl⟩
    rintro ⟨n, ls, q, a, b, _⟩
    exact h1 ⟨ls, q, a, b⟩

theorem target_in (c : Ctx) (io : c.zone <:+ c.origin) (iff : c.zone <:+ c.fileOrigin) (ls n : List Bytes) (h : Target c ls n) : c.zone <:+ n := by
  unfold Target at h
  split at h
  · rw [h]; exact io
  split at h
  · rw [h]; exact List.suffix_append _ _
  split at h
  · rw [h]; exact iff.trans (List.suffix_append _ _)
  · rw [h.2]; exact io.trans (List.suffix_append _ _)

/-- The owner in the state. -/
def OwnerIs (c : Ctx) (d : Bytes) (ooz : Bool) (n : List Bytes) : Prop :=
  if ¬ c.zone <:+ n then ooz = true ∧ d = encode n true else ooz = false ∧ ∃ o, n = o ++ c.zone ∧ d = encode o true

theorem drop_owner (c : Ctx) (n : List Bytes) (hw : WF n) (hs : c.zone <:+ n) :
    ∃ o, n = o ++ c.zone ∧ dropZone (encode n true) (encode c.zone true) = .ok (encode o true) := by
  obtain ⟨o, rfl⟩ := hs
  refine ⟨o, rfl, ?_⟩
  have := C04_drop_zone o c.zone hw [] []
  simpa using this

/-- A left side. -/
theorem dnameSet_lhs (z : Z) (c : Ctx) (R : Rel z c) (text : Bytes) :
    (∃ n d ooz, (if text = [] then n = c.origin else Resolves c text n) ∧ WF n ∧ OwnerIs c d ooz n ∧ dnameSet z text true = .ok (some (d, ooz))) ∨
    ((¬ ∃ n, if text = [] then n = c.origin else Resolves c text n) ∧ dnameSet z text true = .ok none) := by
  have hvalid : ∀ n, WF n → ∃ d ooz, OwnerIs c d ooz n ∧
      ((isInZone z.zone (encode n true)).bind fun inz =>
        bif inz then (dropZone (encode n true) z.zone).bind fun d => Outcome.ok (some (d, false)) else .ok (some (encode n true, true))) = .ok (some (d, ooz)) := by
    intro n hn
    rw [R.zone]
    have := C04_isinzone c.zone n R.wz hn [] []
    rw [List.append_nil, List.append_nil] at this
    rw [this]
    by_cases hs : c.zone <:+ n
    · obtain ⟨o, e1, e2⟩ := drop_owner c n hn hs
      refine ⟨encode o true, false, ?_, ?_⟩
      · unfold OwnerIs; rw [if_neg (by simp [hs])]; exact ⟨rfl, o, e1, rfl⟩
      · simp only [Outcome.bind_ok, decide_eq_true hs, cond_true]
        rw [e2]; rfl
    · refine ⟨encode n true, true, ?_, ?_⟩
      · unfold OwnerIs; rw [if_pos hs]; exact ⟨rfl, rfl⟩
      · simp only [Outcome.bind_ok, decide_eq_false hs, cond_false]
  by_cases ht : text = []
  · subst ht
    obtain ⟨d, ooz, h1, h2⟩ := hvalid c.origin R.wo
    refine .inl ⟨c.origin, d, ooz, rfl, R.wo, h1, ?_⟩
    unfold dnameSet
    simp only [List.isEmpty_nil, cond_true, assert, if_true, Outcome.bind_ok]
    rw [R.origin]
    exact h2
  have hemp : text.isEmpty = false := by cases text; exact absurd rfl ht; rfl
  simp only [ht, if_false]
  unfold dnameSet
  rw [hemp]
  simp only [cond_false, cond_true]
  rcases C01_parse_exact text text.length (Nat.le_refl _) with ⟨ls, q, h1, h2, h3⟩ | ⟨h1, h3⟩
  · rw [List.take_length] at h1
    rw [h3]
    have hr := fun n => resolves_iff c text n ls q h1 h2
    have hlw : WF (lowerName ls) := WF_map_lower h2
    cases q with
    | true =>
      obtain ⟨d, ooz, a, b⟩ := hvalid (lowerName ls) hlw
      exact .inl ⟨lowerName ls, d, ooz, (hr _).mpr ⟨hlw, rfl⟩, hlw, a, b⟩
    | false =>
      simp only [Bool.false_eq_true, if_false] at hr
      simp only [Bool.false_eq_true, if_false, Outcome.bind_ok]
      have hne : lowerName ls ≠ [] := by
        have := name_nonempty h1 ht rfl
        cases ls
        · exact absurd rfl this
        · simp [lowerName]
      rw [R.origin, R.fileOrigin, R.zone]
      rcases qualify_eq c R.wz R.wo R.wf (lowerName ls) hlw hne with ⟨n, a, b, e⟩ | ⟨a, d, e⟩
      · have hs := target_in c R.io R.iff _ _ a
        obtain ⟨o, e1, e2⟩ := drop_owner c n b hs
        refine .inl ⟨n, encode o true, false, (hr n).mpr ⟨b, a⟩, b, ?_, ?_⟩
        · unfold OwnerIs; rw [if_neg (by simp [hs])]; exact ⟨rfl, o, e1, rfl⟩
        · rw [show ls.map (·.map lower) = lowerName ls from rfl, e]
          simp only [Outcome.bind_ok]
          rw [e2]; rfl
      · refine .inr ⟨?_, by rw [show ls.map (·.map lower) = lowerName ls from rfl, e]; rfl⟩
        rintro ⟨n, hn⟩
        obtain ⟨b, a'⟩ := (hr n).mp hn
        exact a ⟨n, a', b⟩
  · rw [List.take_length] at h1
    rw [h3]
    refine .inr ⟨?_, rfl⟩
    rintro ⟨n, ls, q, a, b, _⟩
    exact h1 ⟨ls, q, a, b⟩

theorem resolves_unique {c : Ctx} {text : Bytes} {n m : List Bytes} (h : Resolves c text n) (h' : Resolves c text m) : n = m := by
  obtain ⟨ls, q, a1, a2, _, _⟩ := id h
  have h := ((resolves_iff c text n ls q a1 a2).mp h).2
  have h' := ((resolves_iff c text m ls q a1 a2).mp h').2
  cases q with
  | true => exact h.trans h'.symm
  | false =>
    simp only [Bool.false_eq_true, if_false] at h h'
    unfold Target at h h'
    split at h
    · rw [h]; simp_all
    split at h
    · rw [h]; simp_all
    split at h
    · rw [h]; simp_all
    · rw [h.2]; simp_all

end Gdnsd.Zscan
