/-
What loading a directory of zone files does to memory.
-/
import Verif.Own.Zones
namespace Gdnsd.Own

/-! ### Workers -/

def Entry.Good (e : Entry) : Prop := ∀ z, e.zone = some z → z.Good

theorem work_owns {e : Entry} {h : Heap} {l : List Nat} (hz : e.zone = none) (o : Owns h (e.blocks ++ l)) :
    ∃ r, e.work h = .ok r ∧ r.2.1.Good ∧ r.2.1.src = e.src ∧ (r.1 = false → r.2.1.zone.isSome = true) ∧
      (e.src.short = true → e.src.legal = true → r.2.1.zone.isSome = true) ∧ (e.src.Spoilt → r.1 = true) ∧ Owns r.2.2 (r.2.1.blocks ++ l) := by
  have ge : e.Good := fun z h => by rw [hz] at h; cases h
  unfold Entry.work
  split
  · rename_i hs
    exact ⟨_, rfl, ge, rfl, by simp, fun h => by simp [h] at hs, fun _ => rfl, o⟩
  dsimp only
  split
  · rename_i hl
    obtain ⟨h1, e1, o1⟩ := free_owns (alloc_owns o)
    rw [e1, Outcome.map_ok]
    exact ⟨_, rfl, ge, rfl, by simp, fun _ h => by simp [h] at hl, fun _ => rfl, o1⟩
  generalize e.src.size = s
  obtain ⟨gz, o2⟩ := zoneNew_owns s (alloc_owns o)
  obtain ⟨h1, e1, o1⟩ := free_owns (q := h.alloc.1) (l := (Zone.new s h.alloc.2).1.blocks ++ (e.blocks ++ l)) (o2.of (by cnt))
  rw [e1, Outcome.bind_ok]
  obtain ⟨r, er, gr, hb, or⟩ := scanFile_owns e.src.opn e.src.file gz o1
  rw [er, Outcome.map_ok]
  refine ⟨_, rfl, ?_, rfl, fun _ => rfl, fun _ _ => rfl, ?_, ?_⟩
  · intro z h
    cases h
    exact gr
  · rintro ⟨_, _, h | h | h⟩
    · simp [h]
    · simp [hb (Or.inl h)]
    · simp [hb (Or.inr h)]
  · refine or.of ?_
    simp only [Entry.blocks, hz]
    cnt

def Worker.entries (w : Worker) : List Entry := w.done ++ w.todo

/-- What holds of a worker at any time. -/
structure Worker.Inv (w : Worker) : Prop where
  good : ∀ e ∈ w.entries, e.Good
  todo : ∀ e ∈ w.todo, e.zone = none
  made : w.bad = false → ∀ e ∈ w.done, e.zone.isSome = true
  named : ∀ e ∈ w.done, e.src.short = true → e.src.legal = true → e.zone.isSome = true
  spoilt : ∀ e ∈ w.done, e.src.Spoilt → w.bad = true
  moved : w.bad = true → w.done ≠ []

theorem step_owns {w : Worker} {h : Heap} {l : List Nat} (i : w.Inv) (o : Owns h (w.entries.flatMap Entry.blocks ++ l)) :
    ∃ r, w.step h = .ok r ∧ r.1.Inv ∧ r.1.entries.map Entry.src = w.entries.map Entry.src ∧
      (r.1.bad = true ∨ r.1.todo.length = w.todo.length - 1) ∧ Owns r.2 (r.1.entries.flatMap Entry.blocks ++ l) := by
  unfold Worker.step
  split
  · rename_i hb
    exact ⟨_, rfl, i, rfl, Or.inl hb, o⟩
  rename_i hb
  have hb : w.bad = false := by simpa using hb
  split
  · rename_i ht
    exact ⟨_, rfl, i, rfl, Or.inr (by simp [ht]), o⟩
  rename_i e es ht
  have he : w.entries = w.done ++ e :: es := by rw [Worker.entries, ht]
  obtain ⟨r, er, h1, h2, h3, h4, h5, or⟩ := work_owns (e := e) (l := w.done.flatMap Entry.blocks ++ es.flatMap Entry.blocks ++ l) (i.todo e (by simp [ht])) (o.of (by
    rw [he]
    intro p
    simp only [List.flatMap_append, List.flatMap_cons, List.count_append]
    omega))
  rw [er, Outcome.map_ok]
  refine ⟨_, rfl, ⟨?_, ?_, ?_, ?_, ?_, ?_⟩, ?_, ?_, ?_⟩
  · intro x hx
    simp only [Worker.entries, List.mem_append, List.mem_singleton] at hx
    rcases hx with (hx | rfl) | hx
    · exact i.good x (by simp [he, hx])
    · exact h1
    · exact i.good x (by simp [he, hx])
  · intro x hx
    exact i.todo x (by rw [ht]; exact List.mem_cons_of_mem _ hx)
  · intro hr x hx
    simp only [List.mem_append, List.mem_singleton] at hx
    rcases hx with hx | rfl
    · exact i.made hb x hx
    · exact h3 hr
  · intro x hx
    simp only [List.mem_append, List.mem_singleton] at hx
    rcases hx with hx | rfl
    · exact i.named x hx
    · rw [h2]; exact h4
  · intro x hx hs
    simp only [List.mem_append, List.mem_singleton] at hx
    rcases hx with hx | rfl
    · have := i.spoilt x hx hs
      rw [hb] at this
      cases this
    · rw [h2] at hs; exact h5 hs
  · simp
  · simp [Worker.entries, ht, h2]
  · simp [ht]
  · refine or.of ?_
    intro p
    simp only [Worker.entries, List.flatMap_append, List.flatMap_cons, List.flatMap_nil, List.append_nil, List.count_append]
    omega

def wblocks (ws : List Worker) : List Nat := ws.flatMap fun w => w.entries.flatMap Entry.blocks

/-- Two lists of workers for the same files. -/
def Same (ws ws' : List Worker) : Prop := ws'.map (fun w => w.entries.map Entry.src) = ws.map (fun w => w.entries.map Entry.src)

theorem stepAt_owns : ∀ (i : Nat) (ws : List Worker) {h : Heap} {l : List Nat}, (∀ w ∈ ws, w.Inv) → Owns h (wblocks ws ++ l) →
    ∃ r, stepAt i ws h = .ok r ∧ (∀ w ∈ r.1, w.Inv) ∧ Same ws r.1 ∧ Owns r.2 (wblocks r.1 ++ l)
  | i, [], h, l, _, o => by
    cases i <;> exact ⟨_, rfl, by simp, rfl, o⟩
  | 0, w :: ws, h, l, i, o => by
    obtain ⟨r, e, ir, hr, _, or⟩ := step_owns (l := wblocks ws ++ l) (i w (by simp)) (o.of (by intro p; simp only [wblocks, List.flatMap_cons, List.count_append]; omega))
    unfold stepAt
    rw [e, Outcome.map_ok]
    refine ⟨_, rfl, ?_, ?_, or.of (by intro p; simp only [wblocks, List.flatMap_cons, List.count_append]; omega)⟩
    · intro x hx
      rcases List.mem_cons.mp hx with rfl | hx
      · exact ir
      · exact i x (by simp [hx])
    · simp [Same, hr]
  | j + 1, w :: ws, h, l, i, o => by
    obtain ⟨r, e, ir, hr, or⟩ := stepAt_owns j ws (l := w.entries.flatMap Entry.blocks ++ l) (fun x hx => i x (by simp [hx]))
      (o.of (by intro p; simp only [wblocks, List.flatMap_cons, List.count_append]; omega))
    unfold stepAt
    rw [e, Outcome.map_ok]
    refine ⟨_, rfl, ?_, ?_, or.of (by intro p; simp only [wblocks, List.flatMap_cons, List.count_append]; omega)⟩
    · intro x hx
      rcases List.mem_cons.mp hx with rfl | hx
      · exact i x (by simp)
      · exact ir x hx
    · unfold Same at hr ⊢
      simp [hr]

theorem interleave_owns : ∀ (s : List Nat) (ws : List Worker) {h : Heap} {l : List Nat}, (∀ w ∈ ws, w.Inv) → Owns h (wblocks ws ++ l) →
    ∃ r, interleave s ws h = .ok r ∧ (∀ w ∈ r.1, w.Inv) ∧ Same ws r.1 ∧ Owns r.2 (wblocks r.1 ++ l)
  | [], ws, h, l, i, o => ⟨_, rfl, i, rfl, o⟩
  | j :: s, ws, h, l, i, o => by
    obtain ⟨r, e, ir, hr, or⟩ := stepAt_owns j ws i o
    obtain ⟨x, e2, ix, hx, ox⟩ := interleave_owns s r.1 ir or
    exact ⟨x, by rw [interleave, e, Outcome.bind_ok, e2], ix, hx.trans hr, ox⟩

theorem finish_owns : ∀ (n : Nat) {w : Worker} {h : Heap} {l : List Nat}, w.Inv → Owns h (w.entries.flatMap Entry.blocks ++ l) →
    ∃ r, w.finish n h = .ok r ∧ r.1.Inv ∧ r.1.entries.map Entry.src = w.entries.map Entry.src ∧
      (w.todo.length ≤ n → r.1.bad = true ∨ r.1.todo = []) ∧ (w.bad = true → r.1.bad = true) ∧ Owns r.2 (r.1.entries.flatMap Entry.blocks ++ l)
  | 0, w, h, l, i, o => ⟨_, rfl, i, rfl, fun hn => Or.inr (List.eq_nil_of_length_eq_zero (Nat.le_zero.mp hn)), fun hb => hb, o⟩
  | n + 1, w, h, l, i, o => by
    obtain ⟨r, e, ir, hr, hd, or⟩ := step_owns i o
    obtain ⟨x, e2, ix, hx, hdx, hbx, ox⟩ := finish_owns n ir or
    refine ⟨x, by rw [Worker.finish, e, Outcome.bind_ok, e2], ix, hx.trans hr, ?_, ?_, ox⟩
    · intro hn
      rcases hd with hd | hd
      · exact Or.inl (hbx hd)
      · exact hdx (by omega)
    · intro hb
      apply hbx
      unfold Worker.step at e
      rw [if_pos hb] at e
      cases e
      exact hb

def Worker.Over (w : Worker) : Prop := w.bad = true ∨ w.todo = []

theorem finishAll_owns : ∀ (ws : List Worker) {h : Heap} {l : List Nat}, (∀ w ∈ ws, w.Inv) → Owns h (wblocks ws ++ l) →
    ∃ r, finishAll ws h = .ok r ∧ (∀ w ∈ r.1, w.Inv ∧ w.Over) ∧ Same ws r.1 ∧ Owns r.2 (wblocks r.1 ++ l)
  | [], h, l, _, o => ⟨_, rfl, by simp, rfl, o⟩
  | w :: ws, h, l, i, o => by
    obtain ⟨r, e, ir, hr, hd, _, or⟩ := finish_owns w.todo.length (l := wblocks ws ++ l) (i w (by simp)) (o.of (by intro p; simp only [wblocks, List.flatMap_cons, List.count_append]; omega))
    obtain ⟨x, e2, ix, hx, ox⟩ := finishAll_owns ws (l := r.1.entries.flatMap Entry.blocks ++ l) (fun x hx => i x (by simp [hx]))
      (or.of (by intro p; simp only [List.count_append]; omega))
    unfold finishAll
    rw [e, Outcome.bind_ok, e2, Outcome.map_ok]
    refine ⟨_, rfl, ?_, ?_, ox.of (by intro p; simp only [wblocks, List.flatMap_cons, List.count_append]; omega)⟩
    · intro y hy
      rcases List.mem_cons.mp hy with rfl | hy
      · exact ⟨ir, hd (Nat.le_refl _)⟩
      · exact ix y hy
    · unfold Same at hx ⊢
      simp [hx, hr]

/-! ### Harvesting -/

def ablocks (lost : List Arena) : List Nat := lost.flatMap Arena.blocks

theorem harvest_owns : ∀ (es : List Entry) (bad : Bool) {n : Hdr} {k : Kids} {a : Arena} {h : Heap} {l : List Nat}, (∀ e ∈ es, e.Good) →
    (bad = false → ∀ e ∈ es, e.zone.isSome = true) → Above n k → Owns h (n.blocks ++ k.blocks ++ a.blocks ++ es.flatMap Entry.blocks ++ l) →
    ∃ r lost, harvest es bad n k a h = .ok r ∧ Above r.n r.k ∧ (r.bad = false → bad = false ∧ lost = []) ∧ lost.length ≤ es.length ∧
      (bad = true → ∀ e ∈ es, ∀ z, e.zone = some z → z.arena ∈ lost) ∧
      Owns r.h (r.n.blocks ++ r.k.blocks ++ r.a.blocks ++ ablocks lost ++ l)
  | [], bad, n, k, a, h, l, _, _, ha, o => ⟨_, [], rfl, ha, fun hb => ⟨hb, rfl⟩, Nat.le_refl _, by simp, o⟩
  | e :: es, bad, n, k, a, h, l, g, hz, ha, o => by
    obtain ⟨h1, e1, o1⟩ := free_owns (q := e.fullFn) (l := n.blocks ++ k.blocks ++ a.blocks ++ e.zone.elim [] Zone.blocks ++ e.self :: (es.flatMap Entry.blocks ++ l))
      (o.of (by intro p; simp only [List.flatMap_cons, Entry.blocks, List.count_append, List.count_cons]; omega))
    have key : ∃ r lost h2, harvestMerge bad e n k a h1 = .ok r ∧ harvestDrop r.bad e r.h = .ok h2 ∧ Above r.n r.k ∧ (r.bad = false → bad = false ∧ lost = []) ∧
        lost.length ≤ 1 ∧ (bad = true → r.bad = true ∧ ∀ z, e.zone = some z → z.arena ∈ lost) ∧
        Owns h2 (r.n.blocks ++ r.k.blocks ++ r.a.blocks ++ ablocks lost ++ e.self :: (es.flatMap Entry.blocks ++ l)) := by
      cases hze : e.zone with
      | none =>
        have hb : bad = true := by
          cases bad with
          | true => rfl
          | false =>
            have := hz rfl e (by simp)
            rw [hze] at this
            cases this
        subst hb
        rw [hze] at o1
        refine ⟨⟨true, n, k, a, h1⟩, [], h1, rfl, by simp [harvestDrop, hze], ha, by simp, by simp, by simp, o1.of (by simp only [ablocks]; cnt)⟩
      | some z =>
        rw [hze, Option.elim_some] at o1
        have gz : z.Good := g e (by simp) z hze
        cases bad with
        | true =>
          obtain ⟨h2, e2, o2⟩ := zoneDestroy_owns (z := z) (l := n.blocks ++ k.blocks ++ a.blocks ++ e.self :: (es.flatMap Entry.blocks ++ l)) gz (o1.of (by intro p; simp only [List.count_append]; omega))
          refine ⟨⟨true, n, k, a, h1⟩, [z.arena], h2, rfl, ?_, ha, by simp, by simp, ?_, o2.of ?_⟩
          · simp only [harvestDrop, hze, if_true, e2]
          · intro _
            exact ⟨rfl, fun z' hz' => by cases hz'; simp⟩
          · intro p
            simp only [ablocks, List.flatMap_cons, List.flatMap_nil, List.count_append, List.count_nil]
            omega
        | false =>
          obtain ⟨r, er, hr, _, or⟩ := merge_spec (z := z) e.src.path gz n k a h1 (e.self :: (es.flatMap Entry.blocks ++ l)) ha o1
          have hm : harvestMerge false e n k a h1 = .ok r := by simp only [harvestMerge, hze, Bool.false_eq_true, if_false, er]
          cases hb : r.bad with
          | false =>
            rw [hb] at or
            exact ⟨r, [], r.h, hm, by simp [harvestDrop, hze, hb], hr, fun _ => ⟨rfl, rfl⟩, by simp, by simp, or⟩
          | true =>
            rw [hb] at or
            obtain ⟨h2, e2, o2⟩ := zoneDestroy_owns (z := z) (l := r.n.blocks ++ r.k.blocks ++ r.a.blocks ++ e.self :: (es.flatMap Entry.blocks ++ l)) gz (or.of (by intro p; simp only [rest_true, List.count_append]; omega))
            refine ⟨r, [z.arena], h2, hm, ?_, hr, by simp [hb], by simp, by simp, o2.of ?_⟩
            · simp only [harvestDrop, hze, hb, if_true, e2]
            · intro p
              simp only [ablocks, List.flatMap_cons, List.flatMap_nil, List.count_append, List.count_nil]
              omega
    obtain ⟨r, lost1, h2, em, ed, hr, hb1, hl1, ht1, o2⟩ := key
    obtain ⟨h3, e3, o3⟩ := free_owns (q := e.self) (l := r.n.blocks ++ r.k.blocks ++ r.a.blocks ++ es.flatMap Entry.blocks ++ (ablocks lost1 ++ l)) (o2.of (by intro p; simp only [List.count_append, List.count_cons]; omega))
    obtain ⟨x, lost2, ex, hx, hb2, hl2, ht2, ox⟩ := harvest_owns es r.bad (fun y hy => g y (by simp [hy])) (fun hb y hy => hz (hb1 hb).1 y (by simp [hy])) hr o3
    refine ⟨x, lost1 ++ lost2, by rw [harvest, e1, Outcome.bind_ok, em, Outcome.bind_ok, ed, Outcome.bind_ok, e3, Outcome.bind_ok, ex], hx, ?_, ?_, ?_, ox.of ?_⟩
    · intro hb
      obtain ⟨h4, h5⟩ := hb2 hb
      obtain ⟨h6, h7⟩ := hb1 h4
      exact ⟨h6, by rw [h5, h7]; rfl⟩
    · simp only [List.length_append, List.length_cons]
      omega
    · intro hb y hy z hzy
      obtain ⟨h4, h5⟩ := ht1 hb
      rcases List.mem_cons.mp hy with rfl | hy
      · exact List.mem_append_left _ (h5 z hzy)
      · exact List.mem_append_right _ (ht2 h4 y hy z hzy)
    · intro p
      simp only [ablocks, List.flatMap_append, List.count_append]
      omega

theorem made_all {w : Worker} (i : w.Inv) (d : w.Over) (hb : w.bad = false) : ∀ e ∈ w.entries, e.zone.isSome = true := by
  intro e he
  have ht : w.todo = [] := d.resolve_left (by simp [hb])
  exact i.made hb e (by simpa [Worker.entries, ht] using he)

theorem harvestAll_owns : ∀ (ws : List Worker) (bad : Bool) {n : Hdr} {k : Kids} {a : Arena} {h : Heap} {l : List Nat}, (∀ w ∈ ws, w.Inv ∧ w.Over) →
    (∀ w ∈ ws, w.entries ≠ []) → Above n k → Owns h (n.blocks ++ k.blocks ++ a.blocks ++ wblocks ws ++ l) →
    ∃ r lost, harvestAll ws bad n k a h = .ok r ∧ Above r.n r.k ∧ (r.bad = false → bad = false ∧ lost = [] ∧ ∀ w ∈ ws, w.bad = false) ∧
      lost.length ≤ (ws.map fun w => w.entries.length).sum ∧ (∀ w ∈ ws, w.bad = true → ∀ e ∈ w.entries, ∀ z, e.zone = some z → z.arena ∈ lost) ∧
      Owns r.h (r.n.blocks ++ r.k.blocks ++ r.a.blocks ++ ablocks lost ++ l)
  | [], bad, n, k, a, h, l, _, _, ha, o => ⟨_, [], rfl, ha, fun hb => ⟨hb, rfl, by simp⟩, by simp, by simp, o⟩
  | w :: ws, bad, n, k, a, h, l, i, hne, ha, o => by
    have hw := i w (by simp)
    obtain ⟨r, lost1, e1, hr, hb1, hl1, ht1, o1⟩ := harvest_owns w.entries (bad || w.bad) (a := a) (l := wblocks ws ++ l) hw.1.good
      (fun hb => made_all hw.1 hw.2 (by cases hwb : w.bad with | false => rfl | true => simp [hwb] at hb)) ha (o.of (by intro p; simp only [wblocks, List.flatMap_cons, List.count_append]; omega))
    obtain ⟨x, lost2, e2, hx, hb2, hl2, ht2, o2⟩ := harvestAll_owns ws r.bad (a := r.a) (l := ablocks lost1 ++ l) (fun y hy => i y (by simp [hy])) (fun y hy => hne y (by simp [hy])) hr
      (o1.of (by intro p; simp only [List.count_append]; omega))
    have hn : (w.done ++ w.todo).isEmpty = false := by
      have := hne w (by simp)
      rw [Worker.entries] at this
      simpa using this
    refine ⟨x, lost1 ++ lost2, ?_, hx, ?_, ?_, ?_, o2.of ?_⟩
    · rw [harvestAll, hn, if_neg (by simp)]
      change (harvest w.entries (bad || w.bad) n k a h).bind _ = _
      rw [e1, Outcome.bind_ok, e2]
    · intro hb
      obtain ⟨h1, h2, h3⟩ := hb2 hb
      obtain ⟨h4, h5⟩ := hb1 h1
      have h4 : bad = false ∧ w.bad = false := by simpa using h4
      refine ⟨h4.1, by rw [h2, h5]; rfl, ?_⟩
      intro y hy
      rcases List.mem_cons.mp hy with rfl | hy
      · exact h4.2
      · exact h3 y hy
    · simp only [List.map_cons, List.sum_cons, List.length_append]
      omega
    · intro y hy hb e he z hz
      rcases List.mem_cons.mp hy with rfl | hy
      · exact List.mem_append_left _ (ht1 (by simp [hb]) e he z hz)
      · exact List.mem_append_right _ (ht2 y hy hb e he z hz)
    · intro p
      simp only [ablocks, List.flatMap_append, List.count_append]
      omega

/-! ### The directory -/

theorem putAt_spec (e : Entry) : ∀ (i : Nat) (ls : List (List Entry)), i < ls.length → ∃ ls', putAt e i ls = .ok ls' ∧ ls'.length = ls.length ∧
    ls'[i]? ≠ some [] ∧ (∀ j, j ≠ i → ls'[j]? = ls[j]?) ∧ (∀ x, x ∈ ls'.flatten ↔ x = e ∨ x ∈ ls.flatten) ∧ ls'.flatten.length = ls.flatten.length + 1 ∧
    ∀ p, (ls'.flatten.flatMap Entry.blocks).count p = e.blocks.count p + (ls.flatten.flatMap Entry.blocks).count p
  | _, [], h => absurd h (Nat.not_lt_zero _)
  | 0, l :: ls, _ => by
    refine ⟨_, rfl, rfl, by simp, ?_, ?_, ?_, ?_⟩
    · intro j hj
      cases j with
      | zero => exact absurd rfl hj
      | succ j => rfl
    · intro x
      simp only [List.flatten_cons, List.mem_append, List.mem_singleton]
      constructor
      · rintro ((h | h) | h) <;> simp [h]
      · rintro (h | h | h) <;> simp [h]
    · simp only [List.flatten_cons, List.length_append, List.length_singleton]
      omega
    · intro p
      simp only [List.flatten_cons, List.flatMap_append, List.flatMap_cons, List.flatMap_nil, List.append_nil, List.count_append]
      omega
  | i + 1, l :: ls, h => by
    obtain ⟨ls', e1, h1, h2, h3, h4, h5, h6⟩ := putAt_spec e i ls (by simpa using h)
    unfold putAt
    rw [e1, Outcome.map_ok]
    refine ⟨_, rfl, by simp [h1], by simpa using h2, ?_, ?_, ?_, ?_⟩
    · intro j hj
      cases j with
      | zero => rfl
      | succ j => simpa using h3 j (by omega)
    · intro x
      simp only [List.flatten_cons, List.mem_append, h4]
      constructor
      · rintro (h | h | h) <;> simp [h]
      · rintro (h | h | h) <;> simp [h]
    · simp only [List.flatten_cons, List.length_append, h5]
      omega
    · intro p
      simp only [List.flatten_cons, List.flatMap_append, List.count_append, h6]
      omega

def Threads.blocks (t : Threads) : List Nat := t.array :: t.ids :: t.self :: t.lists.flatten.flatMap Entry.blocks

/-- The lists while files are added. -/
structure Threads.Inv (t : Threads) (fs : List ZFile) : Prop where
  pos : 0 < t.lists.length
  next : t.nextT = t.total % t.lists.length
  full : ∀ i < t.lists.length, t.lists[i]? = some [] ↔ t.total ≤ i
  none : ∀ e ∈ t.lists.flatten, e.zone = none
  srcs : ∀ f, (∃ e ∈ t.lists.flatten, e.src = f) ↔ f ∈ fs
  len : t.lists.flatten.length = fs.length

theorem threadsNew_owns {n : Nat} (hn : 0 < n) {h : Heap} {l : List Nat} (o : Owns h l) :
    (Threads.new n h).1.Inv [] ∧ Owns (Threads.new n h).2 ((Threads.new n h).1.blocks ++ l) := by
  refine ⟨⟨by simpa [Threads.new] using hn, by simp [Threads.new], ?_, by simp [Threads.new], by simp [Threads.new], by simp [Threads.new]⟩, ?_⟩
  · intro i hi
    simp only [Threads.new, List.length_replicate] at hi ⊢
    simp [List.getElem?_replicate, hi]
  · refine (alloc_owns (alloc_owns (alloc_owns o))).of ?_
    unfold Threads.new Threads.blocks
    simp only [List.flatten_replicate_nil]
    cnt

theorem threadsAdd_owns {t : Threads} {fs : List ZFile} (i : t.Inv fs) (f : ZFile) (q : Nat) {h : Heap} {l : List Nat} (o : Owns h (q :: (t.blocks ++ l))) :
    ∃ r, t.add f q h = .ok r ∧ r.1.Inv (fs ++ [f]) ∧ Owns r.2 (r.1.blocks ++ l) := by
  have hlt : t.nextT < t.lists.length := by rw [i.next]; exact Nat.mod_lt _ i.pos
  obtain ⟨ls, e, h1, h2, h3, h4, h5, h6⟩ := putAt_spec ⟨h.alloc.1, q, none, f⟩ t.nextT t.lists hlt
  unfold Threads.add
  rw [e, Outcome.map_ok]
  refine ⟨_, rfl, ⟨?_, ?_, ?_, ?_, ?_, ?_⟩, ?_⟩
  · dsimp only
    rw [h1]
    exact i.pos
  · dsimp only
    rw [h1, i.next, Nat.mod_add_mod]
  · dsimp only
    rw [h1]
    intro j hj
    by_cases hjn : j = t.nextT
    · subst hjn
      refine ⟨fun h => absurd h h2, fun h => ?_⟩
      exfalso
      rw [i.next] at h
      have := Nat.mod_le t.total t.lists.length
      omega
    · rw [h3 j hjn, i.full j hj]
      constructor
      · intro h
        by_cases hle : t.total < t.lists.length
        · rw [i.next, Nat.mod_eq_of_lt hle] at hjn
          omega
        · omega
      · intro h
        omega
  · intro x hx
    rcases (h4 x).mp hx with rfl | hx
    · rfl
    · exact i.none x hx
  · intro g
    simp only [List.mem_append, List.mem_singleton, ← i.srcs g, h4]
    constructor
    · rintro ⟨x, rfl | hx, rfl⟩
      · exact Or.inr rfl
      · exact Or.inl ⟨x, hx, rfl⟩
    · rintro (⟨x, hx, rfl⟩ | rfl)
      · exact ⟨x, Or.inr hx, rfl⟩
      · exact ⟨_, Or.inl rfl, rfl⟩
  · simp [h5, i.len]
  · refine (alloc_owns o).of ?_
    intro p
    simp only [Threads.blocks, List.count_append, List.count_cons, h6, Entry.blocks, Option.elim_none, List.count_nil]
    omega

theorem readDir_owns : ∀ (ds : List Dirent) (b : Bool) {t : Threads} {fs : List ZFile} {h : Heap} {l : List Nat}, t.Inv fs → Owns h (t.blocks ++ l) →
    ∃ r fs', readDir ds b t h = .ok r ∧ r.1 = (ds.contains .statBad || b) ∧ r.2.1.Inv fs' ∧ (r.1 = false → fs' = fs ++ (Dir.ok ds b false).files) ∧
      Owns r.2.2 (r.2.1.blocks ++ l)
  | [], b, t, fs, h, l, i, o => ⟨_, fs, rfl, by simp, i, by simp [Dir.files], o⟩
  | .dot :: ds, b, t, fs, h, l, i, o => by
    obtain ⟨r, fs', e, h1, h2, h3, h4⟩ := readDir_owns ds b i o
    exact ⟨r, fs', e, by rw [h1]; simp, h2, by simpa [Dir.files] using h3, h4⟩
  | .statBad :: ds, b, t, fs, h, l, i, o => by
    obtain ⟨h1, e1, o1⟩ := free_owns (alloc_owns o)
    unfold readDir
    rw [e1, Outcome.map_ok]
    exact ⟨_, fs, rfl, by simp, i, by simp, o1⟩
  | .other :: ds, b, t, fs, h, l, i, o => by
    obtain ⟨h1, e1, o1⟩ := free_owns (alloc_owns o)
    obtain ⟨r, fs', e, h1, h2, h3, h4⟩ := readDir_owns ds b i o1
    exact ⟨r, fs', by rw [readDir, e1, Outcome.bind_ok, e], by rw [h1]; simp, h2, by simpa [Dir.files] using h3, h4⟩
  | .file f :: ds, b, t, fs, h, l, i, o => by
    obtain ⟨x, e1, i1, o1⟩ := threadsAdd_owns i f h.alloc.1 (alloc_owns o)
    obtain ⟨r, fs', e, h1, h2, h3, h4⟩ := readDir_owns ds b i1 o1
    exact ⟨r, fs', by rw [readDir, e1, Outcome.bind_ok, e], by rw [h1]; simp, h2, by simpa [Dir.files] using h3, h4⟩

theorem dropList_owns : ∀ (es : List Entry) {h : Heap} {l : List Nat}, (∀ e ∈ es, e.zone = none) → Owns h (es.flatMap Entry.blocks ++ l) →
    ∃ h', dropList es h = .ok h' ∧ Owns h' l
  | [], h, l, _, o => ⟨h, rfl, o⟩
  | e :: es, h, l, hz, o => by
    have he := hz e (by simp)
    obtain ⟨h1, e1, o1⟩ := dropList_owns es (l := e.fullFn :: e.self :: l) (fun x hx => hz x (by simp [hx])) (o.of (by
      intro p
      simp only [List.flatMap_cons, Entry.blocks, he, Option.elim_none, List.count_append, List.count_cons, List.count_nil]
      omega))
    obtain ⟨h2, e2, o2⟩ := free_owns o1
    obtain ⟨h3, e3, o3⟩ := free_owns o2
    exact ⟨h3, by rw [dropList, e1, Outcome.bind_ok, he, show assert (none : Option Zone).isNone = .ok () from rfl, Outcome.bind_ok, e2, Outcome.bind_ok, e3], o3⟩

theorem dropLists_owns : ∀ (ls : List (List Entry)) {h : Heap} {l : List Nat}, (∀ e ∈ ls.flatten, e.zone = none) → Owns h (ls.flatten.flatMap Entry.blocks ++ l) →
    ∃ h', dropLists ls h = .ok h' ∧ Owns h' l
  | [], h, l, _, o => ⟨h, rfl, o⟩
  | es :: ls, h, l, hz, o => by
    obtain ⟨h1, e1, o1⟩ := dropList_owns es (l := ls.flatten.flatMap Entry.blocks ++ l) (fun x hx => hz x (by simp [hx])) (o.of (by
      intro p
      simp only [List.flatten_cons, List.flatMap_append, List.count_append]
      omega))
    obtain ⟨h2, e2, o2⟩ := dropLists_owns ls (fun x hx => hz x (by rw [List.flatten_cons]; exact List.mem_append_right _ hx)) o1
    exact ⟨h2, by rw [dropLists, e1, Outcome.bind_ok, e2], o2⟩

theorem threadsFree_owns {t : Threads} {h : Heap} {l : List Nat} (o : Owns h (t.array :: t.ids :: t.self :: l)) : ∃ h', t.free h = .ok h' ∧ Owns h' l := by
  obtain ⟨h1, e1, o1⟩ := free_owns o
  obtain ⟨h2, e2, o2⟩ := free_owns o1
  obtain ⟨h3, e3, o3⟩ := free_owns o2
  exact ⟨h3, by rw [Threads.free, e1, Outcome.bind_ok, e2, Outcome.bind_ok, e3], o3⟩

/-- The lists that get a worker are all that have files. -/
theorem take_useful {t : Threads} {fs : List ZFile} (i : t.Inv fs) :
    (t.lists.take (if t.total < t.lists.length then t.total else t.lists.length)).flatten = t.lists.flatten ∧
    ∀ l ∈ t.lists.take (if t.total < t.lists.length then t.total else t.lists.length), l ≠ [] := by
  generalize hu : (if t.total < t.lists.length then t.total else t.lists.length) = u
  have hul : u ≤ t.lists.length ∧ u ≤ t.total ∧ (u < t.lists.length → u = t.total) := by
    split at hu <;> omega
  constructor
  · have hd : (t.lists.drop u).flatten = [] := by
      rw [List.flatten_eq_nil_iff]
      intro l hl
      obtain ⟨j, hj⟩ := List.mem_iff_getElem?.mp hl
      rw [List.getElem?_drop] at hj
      have hlt : u + j < t.lists.length := by
        rcases Nat.lt_or_ge (u + j) t.lists.length with h | h
        · exact h
        · rw [List.getElem?_eq_none h] at hj; cases hj
      rw [(i.full (u + j) hlt).mpr (by have := hul.2.2 (by omega); omega)] at hj
      exact (Option.some.inj hj).symm
    have := congrArg List.flatten (List.take_append_drop u t.lists)
    rw [List.flatten_append, hd, List.append_nil] at this
    exact this
  · intro l hl hn
    subst hn
    obtain ⟨j, hj⟩ := List.mem_iff_getElem?.mp hl
    have hju : j < u := by
      rcases Nat.lt_or_ge j u with h | h
      · exact h
      · rw [List.getElem?_take, if_neg (by omega)] at hj; cases hj
    rw [List.getElem?_take, if_pos hju] at hj
    have := (i.full j (by omega)).mp hj
    omega

theorem entries_start (ls : List (List Entry)) : wblocks (ls.map fun l => ⟨[], l, false⟩) = ls.flatten.flatMap Entry.blocks := by
  induction ls with
  | nil => rfl
  | cons l ls ih =>
    unfold wblocks at ih ⊢
    simp only [List.map_cons, List.flatMap_cons, List.flatten_cons, List.flatMap_append, ih]
    rfl

theorem same_length {ws ws' : List Worker} (h : Same ws ws') : (ws'.map fun w => w.entries.length).sum = (ws.map fun w => w.entries.length).sum := by
  have := congrArg (fun l => (l.map List.length).sum) h
  simpa [Function.comp_def] using this

theorem start_length (ls : List (List Entry)) : ((ls.map fun l => (⟨[], l, false⟩ : Worker)).map fun w => w.entries.length).sum = ls.flatten.length := by
  induction ls with
  | nil => rfl
  | cons l ls ih =>
    rw [List.map_cons, List.map_cons, List.sum_cons, ih, List.flatten_cons, List.length_append]
    rfl

/-- Which files workers have, from the lists they started with. -/
theorem same_src {ls : List (List Entry)} {ws : List Worker} (h : Same (ls.map fun l => ⟨[], l, false⟩) ws) :
    (∀ w ∈ ws, ∃ l ∈ ls, w.entries.map Entry.src = l.map Entry.src) ∧ (∀ l ∈ ls, ∃ w ∈ ws, w.entries.map Entry.src = l.map Entry.src) := by
  have hs : ws.map (fun w => w.entries.map Entry.src) = ls.map fun l => l.map Entry.src := by
    unfold Same at h
    rw [h, List.map_map]
    rfl
  constructor
  · intro w hw
    have : w.entries.map Entry.src ∈ ls.map fun l => l.map Entry.src := by
      rw [← hs]
      exact List.mem_map.mpr ⟨w, hw, rfl⟩
    obtain ⟨l, hl, e⟩ := List.mem_map.mp this
    exact ⟨l, hl, e.symm⟩
  · intro l hl
    have : l.map Entry.src ∈ ws.map fun w => w.entries.map Entry.src := by
      rw [hs]
      exact List.mem_map.mpr ⟨l, hl, rfl⟩
    obtain ⟨w, hw, e⟩ := List.mem_map.mp this
    exact ⟨w, hw, e⟩

theorem load_owns {t : Threads} {fs : List ZFile} (i : t.Inv fs) (sched : List Nat) {n : Hdr} {k : Kids} {a : Arena} {h : Heap} {l : List Nat} (ha : Above n k)
    (o : Owns h (n.blocks ++ k.blocks ++ a.blocks ++ t.blocks ++ l)) :
    ∃ r lost, t.load sched n k a h = .ok r ∧ Above r.n r.k ∧ (r.bad = false → lost = []) ∧ lost.length ≤ fs.length ∧
      ((∀ f ∈ fs, f.short = true ∧ f.legal = true) → (∃ f ∈ fs, f.Spoilt) → r.bad = true ∧ lost ≠ []) ∧
      Owns r.h (r.n.blocks ++ r.k.blocks ++ r.a.blocks ++ ablocks lost ++ l) := by
  obtain ⟨hf, hne⟩ := take_useful i
  unfold Threads.load
  dsimp only
  generalize (t.lists.take (if t.total < t.lists.length then t.total else t.lists.length)) = ls at hf hne
  have iw : ∀ w ∈ ls.map fun l => (⟨[], l, false⟩ : Worker), w.Inv := by
    intro w hw
    obtain ⟨es, hes, rfl⟩ := List.mem_map.mp hw
    have hz : ∀ e ∈ es, e.zone = none := fun e he => i.none e (by rw [← hf]; exact List.mem_flatten.mpr ⟨es, hes, he⟩)
    exact ⟨fun e he z hez => (by rw [hz e he] at hez; cases hez), hz, by simp, by simp, by simp, by simp⟩
  obtain ⟨w1, e1, i1, s1, o1⟩ := interleave_owns sched _ (h := h) (l := n.blocks ++ k.blocks ++ a.blocks ++ t.array :: t.ids :: t.self :: l) iw (o.of (by
    intro p
    simp only [entries_start, hf, Threads.blocks, List.count_append, List.count_cons]
    omega))
  obtain ⟨w2, e2, i2, s2, o2⟩ := finishAll_owns w1.1 i1 o1
  have s3 : Same (ls.map fun l => (⟨[], l, false⟩ : Worker)) w2.1 := s2.trans s1
  obtain ⟨hs1, hs2⟩ := same_src s3
  obtain ⟨r, lost, e3, hr, hb, hl, ht, o3⟩ := harvestAll_owns w2.1 false (n := n) (k := k) (a := a) (l := t.array :: t.ids :: t.self :: l) i2 (by
    intro w hw hn
    obtain ⟨es, hes, he⟩ := hs1 w hw
    rw [hn] at he
    exact hne es hes (List.map_eq_nil_iff.mp he.symm)) ha (o2.of (by
    intro p
    simp only [List.count_append]
    omega))
  obtain ⟨h4, e4, o4⟩ := threadsFree_owns (t := t) (l := r.n.blocks ++ r.k.blocks ++ r.a.blocks ++ ablocks lost ++ l) (o3.of (by
    intro p
    simp only [List.count_append, List.count_cons]
    omega))
  rw [e1, Outcome.bind_ok, e2, Outcome.bind_ok, e3, Outcome.bind_ok, e4, Outcome.map_ok]
  refine ⟨_, lost, rfl, hr, fun hb' => (hb hb').2.1, ?_, ?_, o4⟩
  · rw [same_length s3, start_length, hf, i.len] at hl
    exact hl
  · rintro hall ⟨f, hff, hsp⟩
    obtain ⟨e, he, hef⟩ := (i.srcs f).mpr hff
    rw [← hf] at he
    obtain ⟨es, hes, hee⟩ := List.mem_flatten.mp he
    obtain ⟨w, hw, hws⟩ := hs2 es hes
    have hfw : f ∈ w.entries.map Entry.src := by
      rw [hws]
      exact List.mem_map.mpr ⟨e, hee, hef⟩
    obtain ⟨e', he', hef'⟩ := List.mem_map.mp hfw
    have hwb : w.bad = true := by
      rcases (i2 w hw).2 with h | h
      · exact h
      · refine (i2 w hw).1.spoilt e' (by simpa [Worker.entries, h] using he') (by rw [hef']; exact hsp)
    obtain ⟨x, xs, hx⟩ := List.exists_cons_of_ne_nil ((i2 w hw).1.moved hwb)
    have hxd : x ∈ w.done := by simp [hx]
    have hxs : x.src ∈ fs := by
      obtain ⟨es', hes', hw'⟩ := hs1 w hw
      have : x.src ∈ w.entries.map Entry.src := List.mem_map.mpr ⟨x, by simp [Worker.entries, hxd], rfl⟩
      rw [hw'] at this
      obtain ⟨y, hy, hyx⟩ := List.mem_map.mp this
      exact (i.srcs _).mp ⟨y, by rw [← hf]; exact List.mem_flatten.mpr ⟨es', hes', hy⟩, hyx⟩
    obtain ⟨z, hz⟩ := Option.isSome_iff_exists.mp ((i2 w hw).1.named x hxd (hall _ hxs).1 (hall _ hxs).2)
    have hm := ht w hw hwb x (by simp [Worker.entries, hxd]) z hz
    refine ⟨?_, fun hn => by rw [hn] at hm; cases hm⟩
    cases hbb : r.bad with
    | true => rfl
    | false =>
      have := (hb hbb).2.2 w hw
      rw [hwb] at this
      cases this

theorem loadZones_owns {threads : Nat} (ht : 0 < threads) (d : Dir) (sched : List Nat) {n : Hdr} {k : Kids} {a : Arena} {h : Heap} {l : List Nat} (ha : Above n k)
    (o : Owns h (n.blocks ++ k.blocks ++ a.blocks ++ l)) :
    ∃ r lost, loadZones threads d sched n k a h = .ok r ∧ Above r.n r.k ∧ (r.bad = false → lost = [] ∧ d.unread = false) ∧ (d.unread = true → lost = []) ∧
      lost.length ≤ d.files.length ∧ (d.Spoilt → r.bad = true ∧ lost ≠ []) ∧
      Owns r.h (r.n.blocks ++ r.k.blocks ++ r.a.blocks ++ ablocks lost ++ l) := by
  cases d with
  | absent => exact ⟨_, [], rfl, ha, fun _ => ⟨rfl, rfl⟩, fun _ => rfl, Nat.le_refl _, fun ⟨_, _, f, hf, _⟩ => (by cases hf), o.of (by simp only [ablocks]; cnt)⟩
  | no => exact ⟨_, [], rfl, ha, nofun, fun _ => rfl, Nat.le_refl _, fun ⟨_, _, f, hf, _⟩ => (by cases hf), o.of (by simp only [ablocks]; cnt)⟩
  | ok ds b c =>
    obtain ⟨i0, o0⟩ := threadsNew_owns ht o
    obtain ⟨r, fs, e, hb, ir, hfs, or⟩ := readDir_owns ds b i0 o0
    unfold loadZones
    dsimp only
    rw [e, Outcome.bind_ok]
    have hu : (Dir.ok ds b c).unread = (r.1 || c) := by rw [hb]; rfl
    split
    · rename_i hc
      obtain ⟨h1, e1, o1⟩ := dropLists_owns r.2.1.lists (l := r.2.1.array :: r.2.1.ids :: r.2.1.self :: (n.blocks ++ k.blocks ++ a.blocks ++ l)) ir.none (or.of (by
        intro p
        simp only [Threads.blocks, List.count_append, List.count_cons]
        omega))
      obtain ⟨h2, e2, o2⟩ := threadsFree_owns o1
      rw [e1, Outcome.bind_ok, e2, Outcome.map_ok]
      exact ⟨_, [], rfl, ha, nofun, fun _ => rfl, Nat.zero_le _, fun ⟨hn, _⟩ => (by rw [hu, hc] at hn; cases hn), o2.of (by simp only [ablocks]; cnt)⟩
    · rename_i hc
      have hc : (r.1 || c) = false := by simpa using hc
      have hr1 : r.1 = false := by cases hr : r.1 with | false => rfl | true => simp [hr] at hc
      have hfs : fs = (Dir.ok ds b c).files := by rw [hfs hr1]; rfl
      obtain ⟨x, lost, ex, hx, h1, h2, h3, ox⟩ := load_owns ir sched (n := n) (k := k) (a := a) (l := l) ha (or.of (by intro p; simp only [List.count_append]; omega))
      rw [ex]
      refine ⟨x, lost, rfl, hx, fun hb => ⟨h1 hb, by rw [hu, hc]⟩, fun hn => (by rw [hu, hc] at hn; cases hn), by rw [← hfs]; exact h2, ?_, ox⟩
      rintro ⟨_, hall, hsp⟩
      rw [← hfs] at hall hsp
      exact h3 hall hsp

/-! ### Reloading -/

/-- What is served is a tree of zones. -/
def Proc.Good (p : Proc) : Prop := ∀ n k a, p.data = some (n, k, a) → Above n k

theorem reload_owns {p : Proc} (g : p.Good) {threads : Nat} (ht : 0 < threads) (d : Dir) (sched : List Nat) {l : List Nat} (o : Owns p.heap (p.blocks ++ l)) :
    ∃ b p' lost, p.reload threads d sched = .ok (b, p') ∧ p'.Good ∧ (b = false → lost = []) ∧ (d.unread = true → b = true ∧ lost = []) ∧ lost.length ≤ d.files.length ∧
      (d.Spoilt → b = true ∧ lost ≠ []) ∧ (b = true → p'.data = p.data) ∧ (b = false → p'.data.isSome = true) ∧ Owns p'.heap (p'.blocks ++ ablocks lost ++ l) := by
  have o1 := alloc_owns (arenaNew_owns o)
  unfold Proc.reload
  dsimp only
  obtain ⟨x, lost, e, hx, h1, h2, h3, h4, ox⟩ := loadZones_owns ht d sched (n := ⟨(Arena.new p.heap).2.alloc.1, [], false, [], none⟩) (k := .nil) (a := (Arena.new p.heap).1) (l := p.blocks ++ l)
    ⟨⟨⟨by simp, by simp⟩, trivial⟩, Or.inr ⟨rfl, trivial⟩⟩ (o1.of (by cnt))
  rw [e, Outcome.bind_ok]
  cases hb : x.bad with
  | true =>
    obtain ⟨h5, e5, o5⟩ := tree_owns (l := x.a.blocks ++ (p.blocks ++ ablocks lost ++ l)) hx.1.1 hx.1.2 (ox.of (by intro p; simp only [List.count_append]; omega))
    obtain ⟨h6, e6, o6⟩ := arenaDestroy_owns o5
    rw [if_pos rfl, e5, Outcome.bind_ok, e6, Outcome.map_ok]
    exact ⟨_, _, lost, rfl, g, nofun, fun hu => ⟨rfl, h2 hu⟩, h3, fun hs => ⟨rfl, (h4 hs).2⟩, fun _ => rfl, nofun, o6⟩
  | false =>
    obtain ⟨rfl, hu⟩ := h1 hb
    rw [if_neg (by simp)]
    have gx : ∀ hp, (⟨hp, some (x.n, x.k, x.a)⟩ : Proc).Good := fun hp n k a h => by cases h; exact hx
    have hs : d.Spoilt → False := fun hs => (h4 hs).2 rfl
    cases hd : p.data with
    | none =>
      refine ⟨_, _, [], rfl, gx _, fun _ => rfl, fun h => (by rw [hu] at h; cases h), Nat.zero_le _, fun h => (hs h).elim, nofun, fun _ => rfl, ox.of ?_⟩
      intro q
      simp only [Proc.blocks, hd, List.count_append, List.count_nil]
      omega
    | some y =>
      obtain ⟨n, k, a⟩ := y
      have hy := g n k a hd
      obtain ⟨h5, e5, o5⟩ := tree_owns (n := n) (k := k) (l := a.blocks ++ (x.n.blocks ++ x.k.blocks ++ x.a.blocks ++ ablocks [] ++ l)) hy.1.1 hy.1.2 (ox.of (by
        intro q
        simp only [Proc.blocks, hd, List.count_append]
        omega))
      obtain ⟨h6, e6, o6⟩ := arenaDestroy_owns o5
      dsimp only
      rw [e5, Outcome.bind_ok, e6, Outcome.map_ok]
      exact ⟨_, _, [], rfl, gx _, fun _ => rfl, fun h => (by rw [hu] at h; cases h), Nat.zero_le _, fun h => (hs h).elim, nofun, fun _ => rfl, o6⟩

end Gdnsd.Own
