/-
The command line.
-/
import Verif.Args.Spec
namespace Gdnsd.Args
open ArgsSpec

def setF (o : Opts) : Flag → Opts
  | .D => { o with debug := true }
  | .l => { o with syslog := true }
  | .S => { o with strict := true }
  | .R => { o with replace := true }
  | .i => { o with idem := true }
  | .f => { o with dead := (true, o.dead.2.1, o.dead.2.2) }
  | .s => { o with dead := (o.dead.1, true, o.dead.2.2) }
  | .x => { o with dead := (o.dead.1, o.dead.2.1, true) }

theorem flag_letter (g : Flag) (o : Opts) : flag g.letter o = some (setF o g) := by cases g <;> rfl

theorem flag_some {c : UInt8} {o o' : Opts} (h : flag c o = some o') : ∃ g : Flag, c = g.letter ∧ o' = setF o g := by
  unfold flag at h
  split at h
  · cases h; exact ⟨.D, by assumption, rfl⟩
  split at h
  · cases h; exact ⟨.l, by assumption, rfl⟩
  split at h
  · cases h; exact ⟨.S, by assumption, rfl⟩
  split at h
  · cases h; exact ⟨.R, by assumption, rfl⟩
  split at h
  · cases h; exact ⟨.i, by assumption, rfl⟩
  split at h
  · cases h; exact ⟨.f, by assumption, rfl⟩
  split at h
  · cases h; exact ⟨.s, by assumption, rfl⟩
  split at h
  · cases h; exact ⟨.x, by assumption, rfl⟩
  · cases h

theorem letter_ne (g : Flag) : g.letter ≠ 0x63 ∧ g.letter ≠ 0x2D := by cases g <;> decide

theorem cluster_flags : ∀ (fs : List Flag) (rest : Bytes) (o : Opts), cluster (fs.map Flag.letter ++ rest) o = cluster rest (fs.foldl setF o)
  | [], _, _ => rfl
  | f :: fs, rest, o => by
    rw [List.map_cons, List.cons_append, cluster, if_neg (letter_ne f).1, flag_letter]
    exact cluster_flags fs rest _

theorem cluster_some : ∀ {cs : Bytes} {o o' : Opts} {r : Option Bytes}, cluster cs o = some (o', r) → ∃ fs : List Flag, o' = fs.foldl setF o ∧
    cs = fs.map Flag.letter ++ (match r with | none => [] | some d => 0x63 :: d)
  | [], o, o', r, h => by cases h; exact ⟨[], rfl, rfl⟩
  | c :: cs, o, o', r, h => by
    unfold cluster at h
    split at h
    · rename_i hc
      cases h
      exact ⟨[], rfl, by rw [hc]; rfl⟩
    · cases hf : flag c o with
      | none => rw [hf] at h; cases h
      | some o1 =>
        rw [hf] at h
        obtain ⟨g, rfl, rfl⟩ := flag_some hf
        obtain ⟨fs, h1, h2⟩ := cluster_some h
        exact ⟨g :: fs, h1, by rw [h2]; rfl⟩

/-- What an item sets. -/
def apply (o : Opts) : Item → Opts
  | .flags f fs => (f :: fs).foldl setF o
  | .joined fs b d => { fs.foldl setF o with cfg := some (b :: d) }
  | .apart fs d => { fs.foldl setF o with cfg := some d }
  | .word _ => o

theorem scan_dash {c : UInt8} {cs : Bytes} {rest : List Bytes} {o : Opts} (hne : ¬ (0x2D :: c :: cs : Bytes) = [0x2D, 0x2D]) : scan ((0x2D :: c :: cs) :: rest) o =
    match cluster (c :: cs) o with
    | none => none
    | some (o, none) => scan rest o
    | some (o, some (x :: xs)) => scan rest { o with cfg := some (x :: xs) }
    | some (o, some []) => match rest with
      | [] => none
      | b :: rest => scan rest { o with cfg := some b } := by
  rw [scan.eq_def]
  dsimp only
  rw [if_neg hne]
  split
  · rename_i he
    cases he
    rfl
  · rename_i hw
    exact absurd rfl (hw c cs)

theorem scan_item (x : Item) (hx : x.Legal) (rest : List Bytes) (o : Opts) : scan (x.render ++ rest) o = (scan rest (apply o x)).map fun r => (r.1, x.words ++ r.2) := by
  cases x with
  | flags f fs =>
    have hc := cluster_flags (f :: fs) [] o
    rw [List.append_nil] at hc
    simp only [Item.render, List.cons_append, List.nil_append, Item.words]
    rw [List.map_cons] at hc ⊢
    rw [scan_dash (by simp [(letter_ne f).2])]
    rw [hc]
    simp only [cluster, apply]
    cases scan rest _ <;> rfl
  | joined fs b d =>
    have hc := cluster_flags fs (0x63 :: b :: d) o
    have hne : fs.map Flag.letter ++ 0x63 :: b :: d ≠ [0x2D] := by
      cases fs with
      | nil => simp
      | cons f fs => simp
    simp only [Item.render, List.cons_append, List.nil_append, Item.words]
    cases he : fs.map Flag.letter ++ 0x63 :: b :: d with
    | nil => simp at he
    | cons c cs =>
      rw [he] at hc hne
      rw [scan_dash (by simpa using hne)]
      rw [hc]
      simp only [cluster, if_pos, apply]
      cases scan rest _ <;> rfl
  | apart fs d =>
    have hc := cluster_flags fs [0x63] o
    have hne : fs.map Flag.letter ++ [0x63] ≠ [0x2D] := by
      cases fs with
      | nil => simp
      | cons f fs => simp
    simp only [Item.render, List.cons_append, List.nil_append, Item.words]
    cases he : fs.map Flag.letter ++ [0x63] with
    | nil => simp at he
    | cons c cs =>
      rw [he] at hc hne
      rw [scan_dash (by simpa using hne)]
      rw [hc]
      simp only [cluster, if_pos, apply]
      cases scan rest _ <;> rfl
  | word w =>
    simp only [Item.render, List.cons_append, List.nil_append, Item.words, apply]
    rw [scan.eq_def]
    dsimp only
    rw [if_neg (hx 0x2D [])]
    split
    · rename_i c cs
      exact absurd rfl (hx c cs)
    · rfl

theorem scan_items : ∀ (items : List Item) (rest : List Bytes) (o : Opts), (∀ x ∈ items, x.Legal) →
    scan (items.flatMap Item.render ++ rest) o = (scan rest (items.foldl apply o)).map fun r => (r.1, items.flatMap Item.words ++ r.2)
  | [], rest, o, _ => by simp
  | x :: items, rest, o, h => by
    rw [List.flatMap_cons, List.append_assoc, scan_item x (h x (by simp)), scan_items items rest _ fun y hy => h y (by simp [hy])]
    rw [List.foldl_cons, Option.map_map]
    congr 1
    funext r
    simp

/-- The converse. -/
theorem scan_means : ∀ (n : Nat) {args : List Bytes} {o o' : Opts} {ns : List Bytes}, args.length ≤ n → scan args o = some (o', ns) →
    ∃ items : List Item, (∀ x ∈ items, x.Legal) ∧ o' = items.foldl apply o ∧
      (args = items.flatMap Item.render ∧ ns = items.flatMap Item.words ∨
       ∃ tail, args = items.flatMap Item.render ++ [0x2D, 0x2D] :: tail ∧ ns = items.flatMap Item.words ++ tail) := by
  have ext : ∀ (x : Item), x.Legal → ∀ {args rest : List Bytes} {o o' : Opts} {ns ns' : List Bytes}, args = x.render ++ rest → ns' = x.words ++ ns →
      (∃ items : List Item, (∀ x ∈ items, x.Legal) ∧ o' = items.foldl apply (apply o x) ∧
      (rest = items.flatMap Item.render ∧ ns = items.flatMap Item.words ∨
       ∃ tail, rest = items.flatMap Item.render ++ [0x2D, 0x2D] :: tail ∧ ns = items.flatMap Item.words ++ tail)) →
      ∃ items : List Item, (∀ x ∈ items, x.Legal) ∧ o' = items.foldl apply o ∧
      (args = items.flatMap Item.render ∧ ns' = items.flatMap Item.words ∨
       ∃ tail, args = items.flatMap Item.render ++ [0x2D, 0x2D] :: tail ∧ ns' = items.flatMap Item.words ++ tail) := by
    rintro x hx args rest o o' ns ns' rfl rfl ⟨items, h1, h2, h3⟩
    refine ⟨x :: items, ?_, h2, ?_⟩
    · intro y hy
      rcases List.mem_cons.mp hy with rfl | hy
      · exact hx
      · exact h1 y hy
    · rcases h3 with ⟨h3, h4⟩ | ⟨tail, h3, h4⟩
      · exact .inl ⟨by rw [h3, List.flatMap_cons], by rw [h4, List.flatMap_cons]⟩
      · exact .inr ⟨tail, by rw [h3, List.flatMap_cons, List.append_assoc], by rw [h4, List.flatMap_cons, List.append_assoc]⟩
  intro n
  induction n with
  | zero =>
    intro args o o' ns hn h
    cases args with
    | nil =>
      rw [scan] at h
      cases h
      exact ⟨[], by simp, rfl, .inl ⟨rfl, rfl⟩⟩
    | cons => simp at hn
  | succ n ih =>
    intro args o o' ns hn h
    cases args with
    | nil =>
      rw [scan] at h
      cases h
      exact ⟨[], by simp, rfl, .inl ⟨rfl, rfl⟩⟩
    | cons a rest =>
      simp only [List.length_cons] at hn
      rw [scan.eq_def] at h
      dsimp only at h
      split at h
      · rename_i ha
        cases h
        exact ⟨[], by simp, rfl, .inr ⟨ns, by rw [ha]; rfl, rfl⟩⟩
      · rename_i hne
        split at h
        · rename_i c cs
          split at h
          · cases h
          · rename_i o1 hc
            obtain ⟨fs, h1, h2⟩ := cluster_some hc
            cases fs with
            | nil => simp at h2
            | cons f fs =>
              refine ext (.flags f fs) trivial (rest := rest) (ns := ns) (by simp [Item.render, h2]) rfl ?_
              have := ih (by omega) h
              rw [h1] at this
              exact this
          · rename_i o1 x xs hc
            obtain ⟨fs, h1, h2⟩ := cluster_some hc
            refine ext (.joined fs x xs) trivial (rest := rest) (ns := ns) (by simp only [Item.render, h2]; rfl) rfl ?_
            have := ih (by omega) h
            rw [h1] at this
            exact this
          · rename_i o1 hc
            obtain ⟨fs, h1, h2⟩ := cluster_some hc
            split at h
            · cases h
            · rename_i b rest
              simp only [List.length_cons] at hn
              refine ext (.apart fs b) trivial (rest := rest) (ns := ns) (by simp only [Item.render, h2]; rfl) rfl ?_
              have := ih (by omega) h
              rw [h1] at this
              exact this
        · rename_i hw
          cases hs : scan rest o with
          | none => rw [hs] at h; cases h
          | some r =>
            rw [hs] at h
            cases h
            exact ext (.word a) (fun c cs he => hw c cs he) (rest := rest) (ns := r.2) rfl rfl (ih (by omega) hs)

/-! ### Options -/

def orF (p : Flag → Bool) (o : Opts) : Opts :=
  ⟨o.cfg, o.debug || p .D, o.syslog || p .l, o.strict || p .S, o.replace || p .R, o.idem || p .i, (o.dead.1 || p .f, o.dead.2.1 || p .s, o.dead.2.2 || p .x)⟩

theorem setF_or (o : Opts) (g : Flag) : setF o g = orF (fun x => decide (x = g)) o := by
  obtain ⟨c, a1, a2, a3, a4, a5, a6, a7, a8⟩ := o
  cases g <;> simp [setF, orF]

theorem fold_or : ∀ (fs : List Flag) (o : Opts), fs.foldl setF o = orF (fun x => decide (x ∈ fs)) o
  | [], o => by simp [orF]
  | f :: fs, o => by
    rw [List.foldl_cons, fold_or fs, setF_or]
    simp only [orF, List.mem_cons, Bool.decide_or, Bool.or_assoc]

theorem apply_meaning (l : List Item) (x : Item) : apply (meaning l) x = meaning (l ++ [x]) := by
  cases x <;> simp [apply, fold_or, orF, meaning, Item.has, Item.dir, List.findSome?, -List.foldl_cons, -Bool.decide_or]

theorem fold_meaning : ∀ (items l : List Item), items.foldl apply (meaning l) = meaning (l ++ items)
  | [], l => by simp
  | x :: items, l => by
    rw [List.foldl_cons, apply_meaning, fold_meaning items, List.append_assoc]
    rfl

theorem fold_init (items : List Item) : items.foldl apply Opts.init = meaning items := fold_meaning items []

theorem scan_iff {args : List Bytes} {o : Opts} {ws : List Bytes} : scan args Opts.init = some (o, ws) ↔ Means args o ws := by
  constructor
  · intro h
    obtain ⟨items, h1, h2, h3⟩ := scan_means _ (Nat.le_refl _) h
    exact ⟨items, h1, by rw [h2, fold_init], h3⟩
  · rintro ⟨items, h1, rfl, ⟨rfl, rfl⟩ | ⟨tail, rfl, rfl⟩⟩
    · have := scan_items items [] Opts.init h1
      rw [List.append_nil] at this
      rw [this, scan, fold_init]
      simp
    · rw [scan_items items _ Opts.init h1, scan, if_pos rfl, fold_init]
      rfl

end Gdnsd.Args
