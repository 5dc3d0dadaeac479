import Verif.Tree.ZLemmas
/-
C18: the lookups find the right place in the tree. The specification is in
Verif/Tree/Spec.lean.
-/
namespace Gdnsd.Tree
open DnameSpec TreeSpec Dname Enc

/-- C18. The query-time search never trips an assertion on a legal name and reports the place
the specification determines: outside every zone; at or below a delegation, with the name of
the topmost cut; existing or matched by the wildcard of the closest encloser; or missing. The
zone's node comes back too, and so does the number of bytes of the name in front of the
zone's (or cut's) name. -/
theorem C18_search (root : Node) (q : List Bytes) (h : WF q) :
    ∃ r ad w, search root (encode q true) = .ok (r, ad) ∧ Located root q w ∧
      match w with
      | .outside => r.status = .noauth
      | .referral z c => r.status = .deleg ∧ r.dom = nodeAt root c ∧ r.auth = nodeAt root z ∧
          ad + wireLen c = wireLen q
      | .data z n => r.status = .auth ∧ r.dom = some n ∧ r.auth = nodeAt root z ∧ ad + wireLen z = wireLen q
      | .missing z => r.status = .auth ∧ r.dom = none ∧ r.auth = nodeAt root z ∧ ad + wireLen z = wireLen q := by
  have he := search_eq root q h []
  rw [List.append_nil] at he
  obtain ⟨w, hw, hr⟩ := walk_none root q q.reverse [] root q.length (by simp) rfl
    (by intro s hs hne; exact absurd (List.suffix_nil.mp hs) hne)
  refine ⟨_, _, w, he, hw, ?_⟩
  have hsum : ∀ c, c <:+ q → ((q.take (q.length - c.length)).map fun l => l.length + 1).sum + wireLen c = wireLen q := by
    rintro c ⟨x, rfl⟩
    have : (x ++ c).length - c.length = x.length := by simp
    rw [this]; exact take_sum x c
  cases w with
  | outside => exact hr
  | referral z c =>
    obtain ⟨h1, h2, h3, h4⟩ := hr
    refine ⟨h1, h2, h3, ?_⟩
    rw [h1, h4]; exact hsum c hw.2.1
  | data z n =>
    obtain ⟨h1, h2, h3, h4⟩ := hr
    refine ⟨h1, h2, h3, ?_⟩
    rw [h1, h4]; exact hsum z hw.1.1
  | missing z =>
    obtain ⟨h1, h2, h3, h4⟩ := hr
    refine ⟨h1, h2, h3, ?_⟩
    rw [h1, h4]; exact hsum z hw.1.1

/-- C18. The specification leaves no choice: a name is in one place only. -/
theorem C18_unique (root : Node) (q : List Bytes) (w w' : Place) (h : Located root q w)
    (h' : Located root q w') : w = w' := Located_unique h h'

/-- C18. The search inside one zone while it is loaded, for names relative to the zone: it
says not-authoritative for names outside, delegation exactly when a cut lies at or above the
name (and then gives the deepest one and the node of the name itself, if any), and otherwise
gives the data of the name, wildcards included. -/
theorem C18_zone (zn : List Bytes) (root : Node) (x q : List Bytes) (cut : Option Node) (hz : WF zn) (h : WF q) :
    ∃ n st c, searchZone ⟨encode zn true, root⟩ (encode q true) cut = .ok (n, st, c) ∧
      (st = .noauth ↔ ¬ zn <:+ q) ∧ (st = .noauth → n = none ∧ c = cut) ∧
      (q = x ++ zn →
        (st = .deleg ↔ ∃ s, s ≠ [] ∧ s <:+ x ∧ IsCut root s) ∧
        (st = .deleg → n = nodeAt root x ∧ ∃ s, s ≠ [] ∧ s <:+ x ∧ IsCut root s ∧ c = nodeAt root s ∧
          ∀ t, t ≠ [] → t <:+ x → IsCut root t → t <:+ s) ∧
        (st = .auth → c = cut ∧ ∀ m, n = some m ↔ HasData root x m)) := by
  have he := searchZone_eq zn root q cut hz h [] []
  rw [List.append_nil, List.append_nil] at he
  by_cases hs : zn <:+ q
  · rw [if_pos hs] at he
    obtain ⟨y, hy⟩ := hs
    have hlen : q.length - zn.length = y.length := by rw [← hy]; simp
    have htake : q.take (q.length - zn.length) = y := by rw [hlen, ← hy, List.take_left]
    rw [htake] at he
    obtain ⟨h1, h2, h3⟩ := zwalk_spec root cut y y.reverse [] root .auth cut (by simp) rfl
      (.inl ⟨rfl, rfl, by rintro s ⟨a, b, -⟩; exact a (List.suffix_nil.mp b)⟩)
    simp only [decide_true] at h1 h2 h3
    refine ⟨_, _, _, he, ?_, ?_, ?_⟩
    · constructor
      · intro hn; rcases h1 with ⟨a, -⟩ | ⟨a, -⟩ <;> rw [hn] at a <;> cases a
      · intro hn; exact absurd ⟨y, hy⟩ hn
    · intro hn; rcases h1 with ⟨a, -⟩ | ⟨a, -⟩ <;> rw [hn] at a <;> cases a
    · intro hx
      have hxy : x = y := by
        rw [hx] at hy; exact (List.append_cancel_right hy).symm
      subst hxy
      refine ⟨⟨?_, ?_⟩, ?_, ?_⟩
      · intro hd
        rcases h1 with ⟨a, -⟩ | ⟨-, s, b, -⟩
        · rw [hd] at a; cases a
        · exact ⟨s, b⟩
      · rintro ⟨s, b⟩
        rcases h1 with ⟨-, -, a⟩ | ⟨a, -⟩
        · exact absurd b (a s)
        · exact a
      · intro hd
        refine ⟨h2 hd, ?_⟩
        rcases h1 with ⟨a, -⟩ | ⟨-, s, ⟨b1, b2, b3⟩, b4, b5⟩
        · rw [hd] at a; cases a
        · exact ⟨s, b1, b2, b3, b4, fun t t1 t2 t3 => b5 t ⟨t1, t2, t3⟩⟩
      · intro hd
        rcases h1 with ⟨-, a, -⟩ | ⟨a, -⟩
        · exact ⟨a, h3 hd⟩
        · rw [hd] at a; cases a
  · rw [if_neg hs] at he
    refine ⟨_, _, _, he, by simp [hs], by simp, ?_⟩
    intro hx; exact absurd ⟨x, hx.symm⟩ hs

/-- A tree with the zone `z.`, a delegation `d.z.` and a wildcard `*.w.z.`. -/
def exTree : Node :=
  .mk false [] [([122], .mk true [⟨0, .txt [[1]]⟩]
    [([100], .mk true [] [([103], .mk false [] [])]),
     ([119], .mk false [] [([42], .mk false [⟨0, .txt [[2]]⟩] [])])])]

example : WF [[103], [100], [122]] ∧ WF [[120], [120], [119], [122]] ∧ WF [[113]] := by decide
example : (search exTree (encode [[103], [100], [122]] true)).map (fun r => (r.1.status, r.2)) = .ok (.deleg, 2) := by
  decide +kernel
example : (search exTree (encode [[120], [120], [119], [122]] true)).map
    (fun r => (r.1.status, r.1.dom.map Node.rrs, r.2)) = .ok (.auth, some [⟨0, .txt [[2]]⟩], 6) := by decide +kernel
example : (search exTree (encode [[113]] true)).map (fun r => r.1.status) = .ok .noauth := by decide +kernel

end Gdnsd.Tree
