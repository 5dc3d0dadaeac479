/-
C107: the memory of zone data across reloads.
-/
import Verif.Own.Loads
namespace Gdnsd.Own

theorem unloaded_snoc (l : List (Bool × Dir)) (b : Bool) (d : Dir) :
    unloaded (l ++ [(b, d)]) = unloaded l + if (b && !d.unread) = true then d.files.length else 0 := by
  unfold unloaded
  rw [List.filter_append, List.map_append, List.sum_append]
  congr 1
  simp only [List.filter_cons, List.filter_nil]
  split <;> simp

theorem Owns.length {h : Heap} {l : List Nat} (o : Owns h l) : h.live.length = l.length :=
  (List.perm_iff_count.mpr o.eq).length_eq

theorem run_owns {p : Proc} {l : List (Bool × Dir)} (h : Run p l) : p.Good ∧ ∃ lost, Owns p.heap (p.blocks ++ ablocks lost) ∧ lost.length ≤ unloaded l := by
  induction h with
  | init => exact ⟨nofun, [], ⟨fun _ => rfl, List.nodup_nil, nofun⟩, Nat.le_refl _⟩
  | reload p l threads d sched b p' _ ht e ih =>
    obtain ⟨g, lost, o, hl⟩ := ih
    obtain ⟨b2, p2, lost2, e2, g2, h1, h2, h3, _, _, _, o2⟩ := reload_owns g ht d sched o
    rw [e] at e2
    cases e2
    refine ⟨g2, lost2 ++ lost, o2.of (by intro q; simp only [ablocks, List.flatMap_append, List.count_append]; omega), ?_⟩
    rw [unloaded_snoc, List.length_append]
    split
    · omega
    · rename_i hc
      have : lost2 = [] := by
        cases hb : b with
        | false => exact h1 hb
        | true =>
          cases hu : d.unread with
          | true => exact (h2 hu).2
          | false => simp [hb, hu] at hc
      rw [this]
      simpa using hl

/-- Whatever the zone files, settings and order of the threads, and whatever was loaded before: nothing is freed twice or
used after it was freed, no pointer that must be there is missing, and no assertion fails. -/
theorem C107_safe {p : Proc} {l : List (Bool × Dir)} (h : Run p l) {threads : Nat} (ht : 0 < threads) (d : Dir) (sched : List Nat) :
    ∃ b p', p.reload threads d sched = .ok (b, p') := by
  obtain ⟨g, lost, o, _⟩ := run_owns h
  obtain ⟨b, p', _, e, _⟩ := reload_owns g ht d sched o
  exact ⟨b, p', e⟩

/-- At any time the memory for zone data is that of the zones that are served, each block once, and at most one arena for
each file of the directories that could be read but not loaded. Missing: that these arenas are freed as well; they are
not (`C107_false_leak`). -/
theorem C107_exact_partial {p : Proc} {l : List (Bool × Dir)} (h : Run p l) :
    ∃ lost : List Arena, Exactly p.heap (p.blocks ++ lost.flatMap Arena.blocks) ∧ lost.length ≤ unloaded l := by
  obtain ⟨_, lost, o, hl⟩ := run_owns h
  exact ⟨lost, o.exactly, hl⟩

/-- As long as every load succeeds, or fails because the directory cannot be read, there is no memory beside that of the
zones that are served. -/
theorem C107_clean {p : Proc} {l : List (Bool × Dir)} (h : Run p l) (hl : ∀ x ∈ l, x.1 = true → x.2.unread = true) : Exactly p.heap p.blocks := by
  obtain ⟨lost, he, hn⟩ := C107_exact_partial h
  have h0 : unloaded l = 0 := by
    unfold unloaded
    rw [show l.filter (fun x => x.1 && !x.2.unread) = [] from List.filter_eq_nil_iff.mpr fun x hx => by
      cases h1 : x.1 with
      | false => simp
      | true => simp [hl x hx h1]]
    rfl
  have : lost = [] := List.eq_nil_of_length_eq_zero (by omega)
  rw [this] at he
  simpa using he

/-- A load that fails leaves what is served as it was, and all of its memory in place; one that succeeds replaces it, and then
none of the old blocks is left unless it is part of the new data. A directory that cannot be read makes it fail. -/
theorem C107_kept {p : Proc} {l : List (Bool × Dir)} (h : Run p l) {threads : Nat} (ht : 0 < threads) {d : Dir} {sched : List Nat} {b : Bool} {p' : Proc}
    (e : p.reload threads d sched = .ok (b, p')) :
    (b = true → p'.data = p.data ∧ ∀ q ∈ p.blocks, q ∈ p'.heap.live) ∧
    (b = false → p'.data.isSome = true ∧ ∀ q ∈ p.blocks, q ∈ p'.heap.live → q ∈ p'.blocks) ∧ (d.unread = true → b = true) := by
  obtain ⟨g, lost, o, _⟩ := run_owns h
  obtain ⟨b2, p2, lost2, e2, g2, h1, h2, h3, h4, h5, h6, o2⟩ := reload_owns g ht d sched o
  rw [e] at e2
  cases e2
  refine ⟨fun hb => ⟨h5 hb, ?_⟩, fun hb => ⟨?_, ?_⟩, fun hu => (h2 hu).1⟩
  · intro q hq
    rw [(o2.exactly).2 q]
    have : p'.blocks = p.blocks := by unfold Proc.blocks; rw [h5 hb]
    simp [this, hq]
  · exact h6 hb
  · intro q hq hm
    have hn := (o2.exactly).2 q
    rw [h1 hb] at hn
    have hm := hn.mp hm
    simp only [ablocks, List.flatMap_nil, List.append_nil, List.mem_append] at hm
    rcases hm with hm | hm
    · exact hm
    · exfalso
      have hd := o.exactly.1
      exact (List.nodup_append.mp hd).2.2 q hq q hm rfl

/-- The full claim, that there is no memory beside that of the served zones, is false: whenever all files have names of zones but
one of them does not load, the reload fails and leaves at least two more blocks behind. `ltree_destroy_zone` (src/ltree.c:1398-1403) does
not destroy the arena of the zone. -/
theorem C107_false_leak {p : Proc} {l : List (Bool × Dir)} (h : Run p l) {threads : Nat} (ht : 0 < threads) {d : Dir} (hd : d.Spoilt) (sched : List Nat) :
    ∃ p', p.reload threads d sched = .ok (true, p') ∧ p.heap.live.length + 2 ≤ p'.heap.live.length := by
  obtain ⟨g, lost, o, _⟩ := run_owns h
  obtain ⟨b, p', lost2, e, _, _, _, _, h4, h5, h6, o2⟩ := reload_owns g ht d sched o
  obtain ⟨hb, hl⟩ := h4 hd
  subst hb
  refine ⟨p', e, ?_⟩
  have hp : p'.blocks = p.blocks := by unfold Proc.blocks; rw [h5 rfl]
  rw [o.length, o2.length, hp]
  obtain ⟨a, as, rfl⟩ := List.exists_cons_of_ne_nil hl
  simp only [List.length_append, ablocks, List.flatMap_cons, Arena.blocks, List.length_cons]
  omega

/-- A zone file without an end of its first record. -/
def spoiltEx : ZFile := ⟨true, true, [[1]], .ok true false, .done true, false⟩

theorem spoilt_ex : (Dir.ok [.dot, .file spoiltEx] false false).Spoilt :=
  ⟨rfl, by simp [Dir.files, spoiltEx], spoiltEx, by simp [Dir.files], rfl, rfl, Or.inr (Or.inr rfl)⟩

/-- So the memory of a daemon has no bound: reloading a directory with such a file again and again takes more each time. -/
theorem C107_false_bound (n : Nat) : ∃ p l, Run p l ∧ l.length = n ∧ p.blocks = [] ∧ 2 * n ≤ p.heap.live.length := by
  induction n with
  | zero => exact ⟨_, _, .init, rfl, rfl, Nat.zero_le _⟩
  | succ n ih =>
    obtain ⟨p, l, hr, hl, hb, hn⟩ := ih
    obtain ⟨p', e, h'⟩ := C107_false_leak hr (threads := 2) (by omega) spoilt_ex []
    refine ⟨p', _, .reload _ _ _ _ _ _ _ hr (by omega) e, by simp [hl], ?_, by omega⟩
    have := ((C107_kept hr (by omega) e).1 rfl).1
    unfold Proc.blocks at hb ⊢
    rw [this]
    exact hb

/-! ### Beside them -/

/-- A zone file with addresses, texts, an include and the records of every zone. -/
def zoneEx : ZFile :=
  ⟨true, true, [[1], [2]], .ok true false,
    .stmt (.plain ⟨.soa, [], 9, false, false, false, false⟩) (.stmt (.plain ⟨.ns, [], 9, false, false, false, false⟩) (.incl true true (.ok false false)
      (.stmt (.texts false [true, true] false ⟨.txt, [[3]], 9, false, false, false, false⟩) (.done false))
      (.stmt (.plain ⟨.a, [[3], [4]], 9, false, false, false, false⟩) (.done false)))), false⟩

def dirEx : Dir := .ok [.dot, .file zoneEx, .other, .file { zoneEx with path := [[5]] }] false false

/-- Loading two zones, loading them again, failing, and failing to read the directory: memory is as the theorems say. -/
def runEx : Option (List Bool × List Nat) :=
  match Proc.init.reload 2 dirEx [1, 0] with
  | .ok (b1, p1) => match p1.reload 1 dirEx [0] with
    | .ok (b2, p2) => match p2.reload 3 (.ok [.file zoneEx, .file spoiltEx] false false) [] with
      | .ok (b3, p3) => match p3.reload 3 .no [] with
        | .ok (b4, p4) => some ([b1, b2, b3, b4], [p1.heap.live.length, p2.heap.live.length, p3.heap.live.length, p4.heap.live.length, p4.blocks.length])
        | .ub => none
      | .ub => none
    | .ub => none
  | .ub => none

example : runEx = some ([false, false, true, true], [33, 33, 36, 36, 33]) := by decide +kernel

/-- A history meets the hypotheses, with any order of the two workers. -/
example (sched : List Nat) : ∃ b p, Run p [(b, dirEx)] := by
  obtain ⟨b, p, e⟩ := C107_safe .init (threads := 2) (by omega) dirEx sched
  exact ⟨b, p, .reload _ _ _ _ _ _ _ .init (by omega) e⟩

/-- And one where the directory cannot be read to its end. -/
example : ∃ p, Run p [(true, .ok [.file zoneEx, .statBad] false false)] ∧ Exactly p.heap p.blocks := by
  obtain ⟨b, p, e⟩ := C107_safe .init (threads := 2) (by omega) (.ok [.file zoneEx, .statBad] false false) [1, 0, 0]
  have hb := (C107_kept .init (by omega) e).2.2 rfl
  subst hb
  have hr := Run.reload _ _ _ _ _ _ _ .init (by omega) e
  exact ⟨p, hr, C107_clean hr (by simp [Dir.unread])⟩

end Gdnsd.Own
