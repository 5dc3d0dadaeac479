/-
The command line of gdnsdctl.
-/
import Verif.CtlArgs.Spec
namespace Gdnsd.CtlArgs
open CtlArgsSpec

/-! ### Numbers -/

theorem space_iff (b : UInt8) : Mon.isSpace b = true ↔ Space b := by simp [Mon.isSpace, Space]
theorem digit_iff (b : UInt8) : Mon.isDigit b = true ↔ Digit b := by simp [Mon.isDigit, Digit]

theorem fold_number : ∀ (ds : Bytes) (a : Nat), ds.foldl (fun n d => n * 10 + (d.toNat - 48)) a = a * 10 ^ ds.length + number ds
  | [], a => by simp [number]
  | d :: ds, a => by
    rw [List.foldl_cons, fold_number ds, number, List.length_cons, Nat.pow_succ, Nat.add_mul, Nat.mul_assoc, Nat.mul_comm 10]
    omega

theorem digitsVal_number (ds : Bytes) : Mon.digitsVal ds = number ds := by
  unfold Mon.digitsVal
  rw [fold_number]
  simp

theorem digit_first (b : UInt8) (h : Digit b) : Mon.isSpace b = false ∧ b ≠ 45 ∧ b ≠ 43 := by
  have : ∀ x : BitVec 8, Mon.isDigit ⟨x⟩ = true → Mon.isSpace ⟨x⟩ = false ∧ (⟨x⟩ : UInt8) ≠ 45 ∧ (⟨x⟩ : UInt8) ≠ 43 := by decide +kernel
  exact this b.toBitVec ((digit_iff b).mpr h)

theorem take_digits {ds rest : Bytes} (h1 : ∀ b ∈ ds, Digit b) (h2 : ∀ b, rest.head? = some b → ¬ Digit b) : (ds ++ rest).takeWhile Mon.isDigit = ds := by
  rw [List.takeWhile_append_of_pos fun b hb => (digit_iff b).mpr (h1 b hb)]
  cases rest with
  | nil => simp
  | cons b rest =>
    have : Mon.isDigit b = false := by
      cases h : Mon.isDigit b with
      | false => rfl
      | true => exact absurd ((digit_iff b).mp h) (h2 b rfl)
    simp [this]

theorem timeout_iff {v : Bytes} {n : Nat} : timeout v = some n ↔ Reads v n := by
  constructor
  · intro h
    unfold timeout at h
    split at h
    · cases h
    · rename_i m r hs
      split at h
      · cases h
      · rename_i hr
        cases h
        unfold Mon.strtoul at hs
        dsimp only at hs
        have hv : v = v.takeWhile Mon.isSpace ++ v.dropWhile Mon.isSpace := (List.takeWhile_append_dropWhile).symm
        have hws : ∀ b ∈ v.takeWhile Mon.isSpace, Space b := fun b hb => by
          have := List.all_takeWhile (p := Mon.isSpace) (l := v)
          rw [List.all_eq_true] at this
          exact (space_iff b).mp (this b hb)
        have key : ∀ (t : Bytes), ∃ ds rest, t = ds ++ rest ∧ ds = t.takeWhile Mon.isDigit ∧ (∀ b ∈ ds, Digit b) ∧ ∀ b, rest.head? = some b → ¬ Digit b := by
          intro t
          refine ⟨t.takeWhile Mon.isDigit, t.dropWhile Mon.isDigit, (List.takeWhile_append_dropWhile).symm, rfl, ?_, ?_⟩
          · intro b hb
            have := List.all_takeWhile (p := Mon.isDigit) (l := t)
            rw [List.all_eq_true] at this
            exact (digit_iff b).mp (this b hb)
          · intro b hb hd
            have := List.head?_dropWhile_not Mon.isDigit t
            rw [hb] at this
            simp [(digit_iff b).mpr hd] at this
        generalize hs1 : v.dropWhile Mon.isSpace = s1 at hs hv
        split at hs
        · rename_i t
          obtain ⟨ds, rest, h1, h2, h3, h4⟩ := key t
          dsimp only at hs
          rw [← h2, digitsVal_number] at hs
          split at hs
          · simp at hs; omega
          · rename_i hne
            split at hs
            · rename_i hlt
              simp only [if_true, Option.some.injEq, Prod.mk.injEq] at hs
              refine ⟨_, [45], ds, rest, by rw [← h1]; exact hv, hws, hne, h3, h4, hlt, .inr ⟨rfl, ?_⟩, by omega, by omega⟩
              have hz : number ds ≠ 0 := by
                intro hz
                rw [hz] at hs
                simp at hs
                omega
              omega
            · cases hs
        · rename_i t
          obtain ⟨ds, rest, h1, h2, h3, h4⟩ := key t
          dsimp only at hs
          rw [← h2, digitsVal_number] at hs
          split at hs
          · simp at hs; omega
          · rename_i hne
            split at hs
            · rename_i hlt
              simp only [Bool.false_eq_true, if_false, Option.some.injEq, Prod.mk.injEq] at hs
              exact ⟨_, [43], ds, rest, by rw [← h1]; exact hv, hws, hne, h3, h4, hlt, .inl ⟨.inr rfl, hs.1.symm⟩, by omega, by omega⟩
            · cases hs
        · obtain ⟨ds, rest, h1, h2, h3, h4⟩ := key s1
          dsimp only at hs
          rw [← h2, digitsVal_number] at hs
          split at hs
          · simp at hs; omega
          · rename_i hne
            split at hs
            · rename_i hlt
              simp only [Bool.false_eq_true, if_false, Option.some.injEq, Prod.mk.injEq] at hs
              exact ⟨_, [], ds, rest, by rw [List.nil_append, ← h1]; exact hv, hws, hne, h3, h4, hlt, .inl ⟨.inl rfl, hs.1.symm⟩, by omega, by omega⟩
            · cases hs
  · rintro ⟨ws, sg, ds, rest, rfl, hws, hne, hd, hr, hlt, hn, h5, h300⟩
    have htd := take_digits hd hr
    have hdrop : ∀ l : Bytes, (∀ b, l.head? = some b → Mon.isSpace b = false) → (ws ++ l).dropWhile Mon.isSpace = l := by
      intro l hl
      rw [List.dropWhile_append_of_pos fun b hb => (space_iff b).mpr (hws b hb)]
      cases l with
      | nil => rfl
      | cons b l => simp [hl b rfl]
    rcases hn with ⟨rfl | rfl, hn⟩ | ⟨rfl, hn⟩
    · cases hds : ds with
      | nil => exact absurd hds hne
      | cons d ds' =>
        have hdf := digit_first d (hd d (by simp [hds]))
        rw [hds] at htd
        have hs : Mon.strtoul (ws ++ ([] ++ (d :: ds' ++ rest))) = some (number ds, (d :: ds' ++ rest).dropWhile Mon.isDigit) := by
          unfold Mon.strtoul
          rw [hdrop _ (by intro b hb; simp at hb; subst hb; exact hdf.1)]
          simp only [List.nil_append, List.cons_append] at htd ⊢
          split
          · rename_i h; simp at h; exact absurd h.1 hdf.2.1
          · rename_i h; simp at h; exact absurd h.1 hdf.2.2
          · rw [htd, digitsVal_number, ← hds]
            simp [hne, hlt]
        unfold timeout
        rw [hs]
        dsimp only
        rw [if_neg (by omega), hn]
    · unfold timeout Mon.strtoul
      dsimp only
      rw [hdrop _ (by intro b hb; simp at hb; subst hb; decide)]
      simp only [List.cons_append, List.nil_append, htd, digitsVal_number, hne, hlt, if_true, if_false]
      simp
      omega
    · unfold timeout Mon.strtoul
      dsimp only
      rw [hdrop _ (by intro b hb; simp at hb; subst hb; decide)]
      simp only [List.cons_append, List.nil_append, htd, digitsVal_number, hne, hlt, if_true, if_false]
      simp
      omega

/-! ### Options -/

def setF (o : Opts) : Flag → Opts
  | .D => { o with debug := true }
  | .l => { o with syslog := true }
  | .o => { o with oneshot := true }
  | .i => { o with ignoreDead := true }

def setV (o : Opts) : Val → Opts
  | .dir v => { o with cfg := some v }
  | .addr v => { o with tcp := some v }
  | .secs _ n => { o with timeo := n }

theorem flag_letter (g : Flag) (o : Opts) : flag g.letter o = some (setF o g) := by cases g <;> rfl

theorem flag_some {c : UInt8} {o o' : Opts} (h : flag c o = some o') : ∃ g : Flag, c = g.letter ∧ o' = setF o g := by
  unfold flag at h
  split at h
  · cases h; exact ⟨.D, by assumption, rfl⟩
  split at h
  · cases h; exact ⟨.l, by assumption, rfl⟩
  split at h
  · cases h; exact ⟨.o, by assumption, rfl⟩
  split at h
  · cases h; exact ⟨.i, by assumption, rfl⟩
  · cases h

theorem letter_ne (g : Flag) : takes g.letter = false ∧ g.letter ≠ 0x2D := by cases g <;> decide

theorem arg_val (v : Val) (h : v.Legal) (o : Opts) : arg v.letter v.text o = some (setV o v) := by
  cases v with
  | dir v => rfl
  | addr v => rfl
  | secs v n => simp [arg, Val.letter, Val.text, timeout_iff.mpr h, setV]

theorem arg_some {k : UInt8} {t : Bytes} {o o' : Opts} (hk : takes k = true) (h : arg k t o = some o') : ∃ v : Val, v.Legal ∧ k = v.letter ∧ t = v.text ∧ o' = setV o v := by
  unfold arg at h
  split at h
  · cases h; exact ⟨.dir t, trivial, by assumption, rfl, rfl⟩
  split at h
  · cases h; exact ⟨.addr t, trivial, by assumption, rfl, rfl⟩
  · rename_i h1 h2
    cases ht : timeout t with
    | none => rw [ht] at h; cases h
    | some n =>
      rw [ht] at h
      cases h
      refine ⟨.secs t n, timeout_iff.mp ht, ?_, rfl, rfl⟩
      simpa [takes, h1, h2, Val.letter] using hk

theorem cluster_flags : ∀ (fs : List Flag) (rest : Bytes) (o : Opts), cluster (fs.map Flag.letter ++ rest) o = cluster rest (fs.foldl setF o)
  | [], _, _ => rfl
  | f :: fs, rest, o => by
    rw [List.map_cons, List.cons_append, cluster, if_neg (by simp [(letter_ne f).1]), flag_letter]
    exact cluster_flags fs rest _

theorem cluster_some : ∀ {cs : Bytes} {o o' : Opts} {r : Option (UInt8 × Bytes)}, cluster cs o = some (o', r) → ∃ fs : List Flag, o' = fs.foldl setF o ∧
    (∀ k d, r = some (k, d) → takes k = true) ∧ cs = fs.map Flag.letter ++ (match r with | none => [] | some (k, d) => k :: d)
  | [], o, o', r, h => by cases h; exact ⟨[], rfl, fun _ _ h => (by cases h), rfl⟩
  | c :: cs, o, o', r, h => by
    unfold cluster at h
    split at h
    · rename_i hc
      cases h
      exact ⟨[], rfl, fun _ _ h => (by cases h; exact hc), rfl⟩
    · cases hf : flag c o with
      | none => rw [hf] at h; cases h
      | some o1 =>
        rw [hf] at h
        obtain ⟨g, rfl, rfl⟩ := flag_some hf
        obtain ⟨fs, h1, h2, h3⟩ := cluster_some h
        exact ⟨g :: fs, h1, h2, by rw [h3]; rfl⟩

/-- What an item sets. -/
def apply (o : Opts) : Item → Opts
  | .flags f fs => (f :: fs).foldl setF o
  | .joined fs v => setV (fs.foldl setF o) v
  | .apart fs v => setV (fs.foldl setF o) v

theorem scan_dash {c : UInt8} {cs : Bytes} {rest : List Bytes} {o : Opts} (hne : ¬ (0x2D :: c :: cs : Bytes) = [0x2D, 0x2D]) : scan ((0x2D :: c :: cs) :: rest) o =
    match cluster (c :: cs) o with
    | none => none
    | some (o, none) => scan rest o
    | some (o, some (k, x :: xs)) => match arg k (x :: xs) o with
      | none => none
      | some o => scan rest o
    | some (o, some (k, [])) => match rest with
      | [] => none
      | b :: rest => match arg k b o with
        | none => none
        | some o => scan rest o := by
  rw [scan.eq_def]
  dsimp only
  rw [if_neg hne]
  split
  · rename_i he
    cases he
    rfl
  · rename_i hw
    exact absurd rfl (hw c cs)

theorem takes_letter (v : Val) : takes v.letter = true := by cases v <;> rfl

theorem first_ne (fs : List Flag) (v : Val) (t : Bytes) : fs.map Flag.letter ++ v.letter :: t ≠ [0x2D] := by
  cases fs with
  | nil => cases v <;> simp [Val.letter]
  | cons f fs => simp

theorem scan_item (x : Item) (hx : x.Legal) (rest : List Bytes) (o : Opts) : scan (x.render ++ rest) o = scan rest (apply o x) := by
  cases x with
  | flags f fs =>
    have hc := cluster_flags (f :: fs) [] o
    rw [List.append_nil] at hc
    simp only [Item.render, List.cons_append, List.nil_append]
    rw [List.map_cons] at hc ⊢
    rw [scan_dash (by simp [(letter_ne f).2])]
    rw [hc]
    rfl
  | joined fs v =>
    have hc := cluster_flags fs (v.letter :: v.text) o
    have hne := first_ne fs v v.text
    have ha := arg_val v hx.2 (fs.foldl setF o)
    simp only [Item.render, List.cons_append, List.nil_append]
    cases he : fs.map Flag.letter ++ v.letter :: v.text with
    | nil => simp at he
    | cons c cs =>
      rw [he] at hc hne
      rw [scan_dash (by simpa using hne)]
      rw [hc]
      cases ht : v.text with
      | nil => exact absurd ht hx.1
      | cons y ys =>
        rw [ht] at ha
        simp only [cluster, takes_letter, if_true, ha, apply]
  | apart fs v =>
    have hc := cluster_flags fs [v.letter] o
    have hne := first_ne fs v []
    have ha := arg_val v hx (fs.foldl setF o)
    simp only [Item.render, List.cons_append, List.nil_append]
    cases he : fs.map Flag.letter ++ [v.letter] with
    | nil => simp at he
    | cons c cs =>
      rw [he] at hc hne
      rw [scan_dash (by simpa using hne)]
      rw [hc]
      simp only [cluster, takes_letter, if_true, ha, apply]

theorem scan_items : ∀ (items : List Item) (rest : List Bytes) (o : Opts), (∀ x ∈ items, x.Legal) → scan (items.flatMap Item.render ++ rest) o = scan rest (items.foldl apply o)
  | [], rest, o, _ => rfl
  | x :: items, rest, o, h => by
    rw [List.flatMap_cons, List.append_assoc, scan_item x (h x (by simp)), scan_items items rest _ fun y hy => h y (by simp [hy])]
    rfl

theorem scan_word {rest : List Bytes} (h : ∀ a, rest.head? = some a → Word a) (o : Opts) : scan rest o = some (o, rest) := by
  cases rest with
  | nil => rw [scan]
  | cons a rest =>
    have hw := h a rfl
    rw [scan.eq_def]
    dsimp only
    rw [if_neg (hw 0x2D [])]
    split
    · rename_i c cs
      exact absurd rfl (hw c cs)
    · rfl

/-- The converse. -/
theorem scan_means : ∀ (n : Nat) {args : List Bytes} {o o' : Opts} {ns : List Bytes}, args.length ≤ n → scan args o = some (o', ns) →
    ∃ items : List Item, (∀ x ∈ items, x.Legal) ∧ o' = items.foldl apply o ∧
      (args = items.flatMap Item.render ++ ns ∧ (∀ a, ns.head? = some a → Word a) ∨ args = items.flatMap Item.render ++ [0x2D, 0x2D] :: ns) := by
  have ext : ∀ (x : Item), x.Legal → ∀ {args rest : List Bytes} {o o' : Opts} {ns : List Bytes}, args = x.render ++ rest →
      (∃ items : List Item, (∀ x ∈ items, x.Legal) ∧ o' = items.foldl apply (apply o x) ∧
      (rest = items.flatMap Item.render ++ ns ∧ (∀ a, ns.head? = some a → Word a) ∨ rest = items.flatMap Item.render ++ [0x2D, 0x2D] :: ns)) →
      ∃ items : List Item, (∀ x ∈ items, x.Legal) ∧ o' = items.foldl apply o ∧
      (args = items.flatMap Item.render ++ ns ∧ (∀ a, ns.head? = some a → Word a) ∨ args = items.flatMap Item.render ++ [0x2D, 0x2D] :: ns) := by
    rintro x hx args rest o o' ns rfl ⟨items, h1, h2, h3⟩
    refine ⟨x :: items, ?_, h2, ?_⟩
    · intro y hy
      rcases List.mem_cons.mp hy with rfl | hy
      · exact hx
      · exact h1 y hy
    · rcases h3 with ⟨h3, h4⟩ | h3
      · exact .inl ⟨by rw [h3, List.flatMap_cons, List.append_assoc], h4⟩
      · exact .inr (by rw [h3, List.flatMap_cons, List.append_assoc])
  intro n
  induction n with
  | zero =>
    intro args o o' ns hn h
    cases args with
    | nil =>
      rw [scan] at h
      cases h
      exact ⟨[], by simp, rfl, .inl ⟨rfl, by simp⟩⟩
    | cons => simp at hn
  | succ n ih =>
    intro args o o' ns hn h
    cases args with
    | nil =>
      rw [scan] at h
      cases h
      exact ⟨[], by simp, rfl, .inl ⟨rfl, by simp⟩⟩
    | cons a rest =>
      simp only [List.length_cons] at hn
      rw [scan.eq_def] at h
      dsimp only at h
      split at h
      · rename_i ha
        cases h
        exact ⟨[], by simp, rfl, .inr (by rw [ha]; rfl)⟩
      · rename_i hne
        split at h
        · rename_i c cs
          split at h
          · cases h
          · rename_i o1 hc
            obtain ⟨fs, h1, _, h2⟩ := cluster_some hc
            cases fs with
            | nil => simp at h2
            | cons f fs =>
              refine ext (.flags f fs) trivial (rest := rest) (by simp [Item.render, h2]) ?_
              have := ih (by omega) h
              rw [h1] at this
              exact this
          · rename_i o1 k x xs hc
            obtain ⟨fs, h1, h0, h2⟩ := cluster_some hc
            split at h
            · cases h
            · rename_i o2 ha
              obtain ⟨v, hv, rfl, hvt, rfl⟩ := arg_some (h0 _ _ rfl) ha
              refine ext (.joined fs v) ⟨by rw [← hvt]; simp, hv⟩ (rest := rest) (by simp only [Item.render, h2, hvt]; rfl) ?_
              have := ih (by omega) h
              rw [h1] at this
              exact this
          · rename_i o1 k hc
            obtain ⟨fs, h1, h0, h2⟩ := cluster_some hc
            split at h
            · cases h
            · rename_i b rest
              simp only [List.length_cons] at hn
              split at h
              · cases h
              · rename_i o2 ha
                obtain ⟨v, hv, rfl, rfl, rfl⟩ := arg_some (h0 _ _ rfl) ha
                refine ext (.apart fs v) hv (rest := rest) (by simp only [Item.render, h2]; rfl) ?_
                have := ih (by omega) h
                rw [h1] at this
                exact this
        · rename_i hw
          cases h
          refine ⟨[], by simp, rfl, .inl ⟨rfl, ?_⟩⟩
          intro b hb
          simp at hb
          subst hb
          exact fun c cs he => hw c cs he

def orF (p : Flag → Bool) (o : Opts) : Opts := ⟨o.cfg, o.tcp, o.debug || p .D, o.syslog || p .l, o.oneshot || p .o, o.ignoreDead || p .i, o.timeo⟩

theorem setF_or (o : Opts) (g : Flag) : setF o g = orF (fun x => decide (x = g)) o := by
  obtain ⟨c, t, a1, a2, a3, a4, n⟩ := o
  cases g <;> simp [setF, orF]

theorem fold_or : ∀ (fs : List Flag) (o : Opts), fs.foldl setF o = orF (fun x => decide (x ∈ fs)) o
  | [], o => by simp [orF]
  | f :: fs, o => by
    rw [List.foldl_cons, fold_or fs, setF_or]
    simp only [orF, List.mem_cons, Bool.decide_or, Bool.or_assoc]

theorem apply_meaning (l : List Item) (x : Item) : apply (meaning l) x = meaning (l ++ [x]) := by
  cases x with
  | flags f fs => simp [apply, fold_or, orF, meaning, Item.has, Item.val, List.filterMap_cons, -List.foldl_cons, -Bool.decide_or]
  | joined fs v => cases v <;> simp [apply, fold_or, orF, setV, meaning, Item.has, Item.val, Val.dir?, Val.addr?, Val.secs?, List.findSome?, -List.foldl_cons, -Bool.decide_or]
  | apart fs v => cases v <;> simp [apply, fold_or, orF, setV, meaning, Item.has, Item.val, Val.dir?, Val.addr?, Val.secs?, List.findSome?, -List.foldl_cons, -Bool.decide_or]

theorem fold_meaning : ∀ (items l : List Item), items.foldl apply (meaning l) = meaning (l ++ items)
  | [], l => by simp
  | x :: items, l => by
    rw [List.foldl_cons, apply_meaning, fold_meaning items, List.append_assoc]
    rfl

theorem fold_init (items : List Item) : items.foldl apply Opts.init = meaning items := fold_meaning items []

theorem scan_iff {args : List Bytes} {o : Opts} {ws : List Bytes} : scan args Opts.init = some (o, ws) ↔ Means args o ws := by
  constructor
  · intro h
    obtain ⟨items, h1, h2, h3⟩ := scan_means _ (Nat.le_refl _) h
    exact ⟨items, h1, by rw [h2, fold_init], h3⟩
  · rintro ⟨items, h1, rfl, ⟨rfl, hw⟩ | rfl⟩
    · rw [scan_items items _ Opts.init h1, fold_init, scan_word hw]
    · rw [scan_items items _ Opts.init h1, scan, if_pos rfl, fold_init]

end Gdnsd.CtlArgs
