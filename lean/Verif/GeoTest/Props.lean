/-
C123: the tool for testing maps shows what the server does. Its command line is that of the usage; for every map and address, the data centers it shows are those that clients with the address get, with and without EDNS
client subnet, and the scope is that of the server's answers; names are written completely and within their buffer. Each line with a map and an address is looked up: this is false of long names and lines, and the program
ends if the names of data centers are long.
-/
import Verif.GeoTest.Lemmas
namespace Gdnsd.GeoTest
open GeoTestSpec

/-- Command lines are accepted exactly as the usage says. -/
theorem C123_usage (l : List Bytes) (r : Args) : args l = some r ↔ Usage l r := by
  constructor
  · intro h
    unfold args at h
    split at h
    · split at h
      · rename_i he
        cases h
        subst he
        exact .both _ _ _
      · cases h
    · split at h
      · rename_i he
        cases h
        subst he
        exact .dir _
      · rename_i he
        cases h
        exact .query _ _ he
    · cases h
      exact .none
    · cases h
  · intro h
    cases h with
    | none => rfl
    | dir d => rfl
    | query m a h => simp [args, h]
    | both d m a => rfl

/-- Lists of data centers are written as their names with commas between them, within what is allocated, whatever is behind the list; or they do not fit what is left of the buffer for messages. -/
theorem C123_list (dcs : List Bytes) {d : Bytes} (h : ∀ n ∈ d, n ≠ 0 ∧ n.toNat ≤ dcs.length) (r : Bytes) (used : Nat) :
    ∃ names, (∀ i (hi : i < d.length), ∃ hn : (d[i]'hi).toNat - 1 < dcs.length, names[i]? = some (dcs[(d[i]'hi).toNat - 1]'hn)) ∧ names.length = d.length ∧
      logf dcs used (d ++ 0 :: r) = .ok (if (joined names).length + 1 ≤ 4096 - used then some (joined names ++ [0]) else none) := by
  refine ⟨d.map fun n => dcName dcs n.toNat, ?_, by simp, logf_ok dcs r fun n hn => (h n hn).1⟩
  intro i hi
  have hm := h d[i] (List.getElem_mem hi)
  have hp : d[i].toNat ≠ 0 := by
    intro he
    apply hm.1
    rw [← UInt8.toNat_inj, he]
    rfl
  refine ⟨by omega, ?_⟩
  rw [List.getElem?_map, List.getElem?_eq_getElem hi]
  simp only [Option.map_some, Option.some.injEq]
  unfold dcName
  rw [if_neg (by omega), List.getElem?_eq_getElem (by omega)]
  rfl

/-- What is shown for an address of a map is what its clients get: the list is that of the server's lookup for each client from the address and for each with the address in its EDNS client subnet (if the map uses that), and
the scope is the one of the server's answers to the latter. It is always shown. -/
theorem C123_same {parse : Bytes → Option Geo.Addr} {txt : Geo.Addr → Bytes} {maps : List Map} {name ip n : Bytes} {a : Geo.Addr} {sc : Option Nat} {t : Bytes}
    (h : lookup parse txt maps name ip = .ok (.line n a sc t)) :
    parse ip = some a ∧ n = name ∧ ∃ m ∈ maps, m.name = name ∧ ∃ l scope idx, m.lists[idx]? = some l ∧ (∃ used, logf m.dcs used l = .ok (some t)) ∧ sc = some scope ∧ scope ≤ 128 ∧
      (m.ignoreEcs = true → scope = 0) ∧
      (∀ c : Geo.Client, c.src = a → (c.ecsMask = 0 ∨ m.ignoreEcs = true) → Geo.lookup m.tree c m.ignoreEcs = .ok (idx, 0)) ∧
      (∀ c : Geo.Client, c.ecs = a → c.ecsMask ≠ 0 → m.ignoreEcs = false → Geo.lookup m.tree c m.ignoreEcs = .ok (idx, scope)) := by
  unfold lookup at h
  split at h
  · cases h
  · rename_i m hm
    have hmem := List.mem_of_find?_eq_some hm
    have hname : m.name = name := by
      have := List.find?_some hm
      simpa using this
    split at h
    · cases h
    · rename_i b hb
      obtain ⟨⟨idx, sc'⟩, hr, h⟩ := bind_ok_inv h
      obtain ⟨⟨⟩, -, h⟩ := bind_ok_inv h
      dsimp only at h
      split at h
      · cases h
      · rename_i l hl
        split at h
        · cases h
        · rename_i used hu
          cases hf : logf m.dcs used l with
          | ub => rw [hf] at h; cases h
          | ok o =>
            rw [hf] at h
            simp only [Outcome.map_ok, Outcome.ok.injEq] at h
            cases o with
            | none => cases h
            | some t' =>
              simp only [Reply.line.injEq] at h
              obtain ⟨rfl, rfl, rfl, rfl⟩ := h
              -- the lookup for the address
              unfold Geo.lookup at hr
              obtain ⟨⟨⟩, ha, hr⟩ := bind_ok_inv hr
              have key : ∃ s, Geo.lookupInner m.tree b = .ok (idx, s) ∧ s ≤ 128 ∧ sc' = if m.ignoreEcs = true then 0 else s := by
                cases hi : m.ignoreEcs with
                | true =>
                  rw [if_neg (by simp [hi])] at hr
                  dsimp only at hr
                  cases hq : Geo.lookupInner m.tree b with
                  | ub => rw [hq] at hr; cases hr
                  | ok q =>
                    rw [hq] at hr
                    cases hr
                    exact ⟨q.2, rfl, inner_mask hq, by simp⟩
                | false =>
                  rw [if_pos (by simp [hi])] at hr
                  exact ⟨sc', hr, inner_mask hr, by simp⟩
              obtain ⟨s, k1, k2, k3⟩ := key
              have hle : sc' ≤ 128 := by
                rw [k3]
                split <;> omega
              refine ⟨hb, hname, m, hmem, hname, l, sc', idx, hl, ⟨used, hf⟩, if_neg (by omega), hle, fun hi => by rw [k3, if_pos hi], ?_, ?_⟩
              · intro c hc ho
                unfold Geo.lookup
                rw [ha, Outcome.bind_ok, if_neg (by
                  rintro ⟨h1, h2⟩
                  rcases ho with ho | ho
                  · exact h1 ho
                  · rw [ho] at h2; cases h2), hc, k1]
                rfl
              · intro c hc ho hi
                unfold Geo.lookup
                rw [ha, Outcome.bind_ok, if_pos ⟨ho, hi⟩, hc, k1, k3, hi]
                rfl

/-- No assertion fails, for maps whose lookups find lists: there is a line, or the buffer for messages is too small. -/
theorem C123_safe {parse : Bytes → Option Geo.Addr} {txt : Geo.Addr → Bytes} {maps : List Map} {name ip : Bytes}
    (h : ∀ m ∈ maps, ∀ a, ∃ idx s, Geo.lookup m.tree ⟨a, a, 150⟩ m.ignoreEcs = .ok (idx, s) ∧ ∃ d r, m.lists[idx]? = some (d ++ 0 :: r) ∧ ∀ n ∈ d, n ≠ 0) :
    ∃ o, lookup parse txt maps name ip = .ok o ∧ (o = .noMap ↔ ∀ m ∈ maps, m.name ≠ name) ∧ (o = .badAddr → parse ip = none) ∧ (o ≠ .noMap → parse ip = none → o = .badAddr) := by
  unfold lookup
  split
  · rename_i hm
    refine ⟨_, rfl, ⟨fun _ m hmm => ?_, fun _ => rfl⟩, fun h => (by cases h), fun h => absurd rfl h⟩
    have := List.find?_eq_none.mp hm m hmm
    simpa using this
  · rename_i m hm
    have hmem := List.mem_of_find?_eq_some hm
    have hname : m.name = name := by
      have := List.find?_some hm
      simpa using this
    have hno : ¬ ∀ m ∈ maps, m.name ≠ name := fun h => h m hmem hname
    cases hp : parse ip with
    | none => exact ⟨_, rfl, ⟨fun h => (by cases h), fun h => absurd h hno⟩, fun _ => rfl, fun _ _ => rfl⟩
    | some a =>
      dsimp only
      obtain ⟨idx, s, h1, d, r, h2, h3⟩ := h m hmem a
      have hs : s ≤ 128 := by
        unfold Geo.lookup at h1
        obtain ⟨-, -, h1⟩ := bind_ok_inv h1
        split at h1
        · exact inner_mask h1
        · cases hq : Geo.lookupInner m.tree a with
          | ub => dsimp only at h1; rw [hq] at h1; cases h1
          | ok q => dsimp only at h1; rw [hq] at h1; cases h1; omega
      rw [h1, Outcome.bind_ok]
      dsimp only
      rw [decide_eq_true (by omega : s ≠ 175), assert_true, Outcome.bind_ok, h2]
      dsimp only
      split
      · exact ⟨_, rfl, ⟨fun h => (by cases h), fun h => absurd h hno⟩, fun h => (by cases h), fun _ h => (by cases h)⟩
      · rename_i used hu
        rw [logf_ok m.dcs r h3]
        simp only [Outcome.map_ok]
        split
        · exact ⟨_, rfl, ⟨fun h => (by cases h), fun h => absurd h hno⟩, fun h => (by cases h), fun _ h => (by cases h)⟩
        · exact ⟨_, rfl, ⟨fun h => (by cases h), fun h => absurd h hno⟩, fun h => (by cases h), fun _ h => (by cases h)⟩

/-- Lines that ask for an address in a map are looked up, each as it is and in their order, whatever follows the address. Missing, as it is false: lines of more than 253 bytes and names of more than 127. -/
theorem C123_lines_partial : ∀ {ls : List Line}, (∀ l ∈ ls, l.Wf ∧ l.map.length ≤ 127 ∧ l.addr.length ≤ 127 ∧ l.text.length ≤ 254) →
    repl (ls.map Line.text).flatten = ls.map fun l => some (l.map, l.addr)
  | [], _ => by simp [repl]
  | l :: ls, h => by
    obtain ⟨h1, h2, h3, h4⟩ := h l (by simp)
    have ih := C123_lines_partial (ls := ls) fun x hx => h x (List.mem_cons_of_mem _ hx)
    have ht : l.text ++ (ls.map Line.text).flatten = (l.map ++ l.gap ++ l.addr ++ l.tail) ++ 10 :: (ls.map Line.text).flatten := by simp [Line.text]
    rw [List.map_cons, List.flatten_cons, ht, repl_line (line_nonl h1) (by simp [Line.text] at h4 ⊢; omega), ih]
    have : l.map ++ l.gap ++ l.addr ++ l.tail ++ [10] = l.text := rfl
    rw [this, scan_line h1 h2 h3]
    rfl

/-- Nothing else of a short line is looked up than its first two words, and a line that begins with a blank, or has one word, is not (unless the word is longer than 127 bytes). -/
theorem C123_words {l m a : Bytes} (h : scan l = some (m, a)) : ∃ g t, l.takeWhile (fun c => c != 0) = m ++ g ++ a ++ t ∧ (∀ c ∈ m, blank c = false) ∧ (∀ c ∈ a, blank c = false) ∧ (∀ c ∈ g, space c = true) ∧
    m ≠ [] ∧ a ≠ [] ∧ (g = [] → m.length = 127) ∧ (a.length < 127 → t = [] ∨ ∃ c r, t = c :: r ∧ blank c = true) := by
  unfold scan at h
  dsimp only at h
  generalize l.takeWhile (fun c => c != 0) = s at h ⊢
  obtain ⟨p1, p2, p3, p4⟩ := word_sound 127 s
  split at h
  · cases h
  · rename_i hm
    obtain ⟨g, g1, g2⟩ := dropWhile_split (word 127 s).2
    obtain ⟨q1, q2, q3, q4⟩ := word_sound 127 ((word 127 s).2.dropWhile space)
    split at h
    · cases h
    · rename_i ha
      cases h
      refine ⟨g, _, ?_, p2, q2, g2, hm, ha, ?_, q4⟩
      · rw [List.append_assoc, ← q1, List.append_assoc, ← g1]
        exact p1
      · intro hg
        by_cases hl : (word 127 s).1.length < 127
        · exfalso
          rw [hg, List.nil_append] at g1
          rcases p4 hl with hn | ⟨c, t, hc, hb⟩
          · rw [← g1, hn] at ha
            exact ha rfl
          · rw [← g1, hc] at ha
            apply ha
            unfold word
            rw [if_pos hb]
        · omega

/-- A long name alone is taken as a name and an address. -/
theorem C123_false_long : ∃ w : Bytes, Plain w ∧ (repl (w ++ [10])) = [some (w.take 127, w.drop 127)] ∧ w.drop 127 ≠ [] := by
  refine ⟨List.replicate 130 97, ⟨by decide, ?_⟩, by decide +kernel, by decide⟩
  intro c hc
  rw [List.eq_of_mem_replicate hc]
  decide

/-- A long line is taken as two. -/
theorem C123_false_split : ∃ l : Line, l.Wf ∧ l.map.length ≤ 127 ∧ l.addr.length ≤ 127 ∧ repl l.text = [some (l.map, l.addr), some ([98], [99])] := by
  refine ⟨⟨[97], [32], [49], List.replicate 251 32 ++ [98, 32, 99]⟩, ⟨⟨by decide, by decide⟩, ⟨?_, by decide⟩, ⟨by decide, by decide⟩, .inr ⟨32, List.replicate 250 32 ++ [98, 32, 99], rfl, .inl rfl, ?_⟩⟩, by decide, by decide, by decide +kernel⟩
  · intro c hc
    simp at hc
    exact .inl hc
  · intro x hx
    rcases List.mem_append.mp hx with hx | hx
    · rw [List.eq_of_mem_replicate hx]; decide
    · simp at hx
      rcases hx with rfl | rfl | rfl <;> decide

/-- Names of data centers that are legal each end the program. -/
theorem C123_false_names : ∃ (dcs : List Bytes) (d : Bytes), (∀ n ∈ d, n ≠ 0 ∧ n.toNat ≤ dcs.length) ∧ dcs.Nodup ∧ (∀ x ∈ dcs, x.length ≤ 24) ∧ logf dcs 0 (d ++ [0]) = .ok none := by
  refine ⟨(List.range 200).map fun i => UInt8.ofNat i :: List.replicate 23 97, (List.range 200).map fun i => UInt8.ofNat (i + 1), ?_, ?_, ?_, ?_⟩
  · decide +kernel
  · decide +kernel
  · decide +kernel
  · decide +kernel

/-! ### Cases -/

example : args [[45, 99], [47], [109], [97]] = some ⟨some [47], some ([109], [97])⟩ := rfl
example : args [[45, 99], [47], [109]] = none := rfl
example : logf [[97, 98], [99]] 10 [2, 1, 0, 7] = .ok (some [99, 44, 32, 97, 98, 0]) := by decide +kernel
example : repl [109, 32, 49, 10, 10, 32, 109, 32, 49, 10, 109, 9, 50, 32, 120] = [some ([109], [49]), none, none, some ([109], [50])] := by decide +kernel
example : (⟨[109], [32, 9], [49], [32, 0]⟩ : Line).Wf := ⟨⟨by decide, by decide⟩, ⟨by intro c hc; simp at hc; exact hc, by decide⟩, ⟨by decide, by decide⟩, .inr ⟨32, [0], rfl, .inl rfl, by decide⟩⟩

/-- A map with a tree of one node: all of IPv4 is sent to the first list. -/
def toy : Map := ⟨[109], false, ⟨[⟨2147483648, 2147483649⟩], 2147483648⟩, [[1, 2, 0], [2, 0]], [[97], [98]]⟩

example : lookup (fun _ => some (.v4 5)) (fun _ => [53]) [toy] [109] [53] = .ok (.line [109] (.v4 5) (some 0) [97, 44, 32, 98, 0]) := by decide +kernel
example : lookup (fun _ => some (.v4 5)) (fun _ => [53]) [toy] [110] [53] = .ok .noMap := by decide +kernel

end Gdnsd.GeoTest
