import Verif.Tree.Lemmas
namespace Gdnsd.Tree
open DnameSpec TreeSpec Dname

/-- A delegation inside a zone at or above a name; names are relative to the zone. -/
def Del (root : Node) (q s : List Bytes) : Prop := s ≠ [] ∧ s <:+ q ∧ IsCut root s

/-- The state of the zone search after the nodes at and above `p`. -/
def Seen (root : Node) (c0 : Option Node) (p : List Bytes) (st : Auth) (c : Option Node) : Prop :=
  (st = .auth ∧ c = c0 ∧ ∀ s, ¬ Del root p s) ∨
  (st = .deleg ∧ ∃ s, Del root p s ∧ c = nodeAt root s ∧ ∀ t, Del root p t → t <:+ s)

theorem Del_step {root : Node} {l : Bytes} {pre : List Bytes} {s : List Bytes} :
    Del root (l :: pre) s ↔ (s = l :: pre ∧ IsCut root s) ∨ Del root pre s := by
  unfold Del
  rw [List.suffix_cons_iff]
  constructor
  · rintro ⟨h1, h2 | h2, h3⟩
    · exact .inl ⟨h2, h3⟩
    · exact .inr ⟨h1, h2, h3⟩
  · rintro (⟨h1, h2⟩ | ⟨h1, h2, h3⟩)
    · exact ⟨by simp [h1], .inl h1, h2⟩
    · exact ⟨h1, .inr h2, h3⟩

theorem seen_cur {root cur : Node} {c0 c : Option Node} {pre : List Bytes} {st : Auth}
    (hcur : nodeAt root pre = some cur) (h : Seen root c0 pre.tail st c) :
    Seen root c0 pre (bif cur.zcut && !decide (pre = []) then Auth.deleg else st)
      (bif cur.zcut && !decide (pre = []) then some cur else c) := by
  cases pre with
  | nil => simpa using h
  | cons l pre =>
    simp only [List.tail_cons] at h
    cases hz : cur.zcut with
    | true =>
      refine .inr ⟨by simp, l :: pre, Del_step.mpr (.inl ⟨rfl, (isCut_iff hcur).mpr hz⟩), by simp [hcur], ?_⟩
      intro t ht; exact ht.2.1
    | false =>
      have hn : ¬ IsCut root (l :: pre) := by rw [isCut_iff hcur, hz]; simp
      have he : ∀ s, Del root (l :: pre) s ↔ Del root pre s := by
        intro s; rw [Del_step]; constructor
        · rintro (⟨h1, h2⟩ | h)
          · subst h1; exact absurd h2 hn
          · exact h
        · exact .inr
      simpa [Seen, he] using h

theorem zwalk_spec (root : Node) (c0 : Option Node) (q : List Bytes) (rest : List Bytes) :
    ∀ (pre : List Bytes) (cur : Node) (st : Auth) (c : Option Node), q = rest.reverse ++ pre →
      nodeAt root pre = some cur → Seen root c0 pre.tail st c →
      Seen root c0 q (zwalk cur (decide (pre = [])) st c rest).2.1 (zwalk cur (decide (pre = [])) st c rest).2.2 ∧
      ((zwalk cur (decide (pre = [])) st c rest).2.1 = .deleg →
        (zwalk cur (decide (pre = [])) st c rest).1 = nodeAt root q) ∧
      ((zwalk cur (decide (pre = [])) st c rest).2.1 = .auth →
        ∀ m, (zwalk cur (decide (pre = [])) st c rest).1 = some m ↔ HasData root q m) := by
  induction rest with
  | nil =>
    intro pre cur st c hq hcur hs
    have hpq : pre = q := by simpa using hq.symm
    subst hpq
    have := seen_cur hcur hs
    have hd : ∀ m, some cur = some m ↔ HasData root pre m := by
      intro m
      constructor
      · intro h; exact .inl (by rw [hcur, h])
      · rintro (h | ⟨h, -⟩)
        · rw [← hcur, h]
        · rw [hcur] at h; cases h
    cases hz : (cur.zcut && !decide (pre = [])) with
    | true => simp only [zwalk, hz, cond_true] at *; exact ⟨this, fun _ => hcur.symm, fun _ => hd⟩
    | false => simp only [zwalk, hz, cond_false] at *; exact ⟨this, fun _ => hcur.symm, fun _ => hd⟩
  | cons l rest ih =>
    intro pre cur st c hq hcur hs
    have hq' : q = rest.reverse ++ l :: pre := by simpa using hq
    have hseen := seen_cur hcur hs
    simp only [zwalk]
    cases hf : cur.find l with
    | some next =>
      have := ih (l :: pre) next _ _ hq' (by rw [nodeAt_cons, hcur]; exact hf) hseen
      simpa using this
    | none =>
      have hnl : nodeAt root (l :: pre) = none := by rw [nodeAt_cons, hcur]; exact hf
      have hlq : l :: pre <:+ q := ⟨rest.reverse, hq'.symm⟩
      have hqn : nodeAt root q = none := nodeAt_none_of_suffix hlq hnl
      have hpq : pre <:+ q := (List.suffix_cons l pre).trans hlq
      have hde : ∀ s, Del root q s ↔ Del root pre s := by
        intro s; constructor
        · rintro ⟨h1, h2, h3⟩
          rcases suffix_step hq' h2 with h | h
          · exact ⟨h1, h, h3⟩
          · exact absurd h3 (not_isCut_of_none (nodeAt_none_of_suffix h hnl))
        · rintro ⟨h1, h2, h3⟩; exact ⟨h1, h2.trans hpq, h3⟩
      have henc : IsEncloser root q pre := by
        refine ⟨hpq, by simp [Present, hcur], fun s hs he => ?_⟩
        rcases suffix_step hq' hs with h | h
        · exact h
        · unfold Present at he; rw [nodeAt_none_of_suffix h hnl] at he; simp at he
      refine ⟨by simpa only [Seen, hde] using hseen, ?_, ?_⟩
      · intro h; simp only at h; simp only [h]; simp [hqn]
      · intro h m
        simp only at h; simp only [h, decide_true, cond_true]
        have hw : nodeAt root ([42] :: pre) = cur.find wild := by rw [nodeAt_cons, hcur]; rfl
        constructor
        · intro hm; exact .inr ⟨hqn, pre, henc, by rw [hw]; exact hm⟩
        · rintro (h' | ⟨-, e, he, hn⟩)
          · rw [hqn] at h'; cases h'
          · rw [IsEncloser_unique he henc, hw] at hn; exact hn

theorem searchZone_eq (zn : List Bytes) (root : Node) (q : List Bytes) (cut : Option Node)
    (hz : WF zn) (h : WF q) (j1 j2 : Bytes) :
    searchZone ⟨encode zn true ++ j1, root⟩ (encode q true ++ j2) cut =
      if zn <:+ q then .ok (zwalk root true .auth cut (q.take (q.length - zn.length)).reverse)
      else .ok (none, .noauth, cut) := by
  unfold searchZone
  have hn : (UInt8.ofNat (wireLen q)).toNat = wireLen q := toNat_ofNat_lt (by have := h.2; omega)
  have h0 : UInt8.ofNat (wireLen q) ≠ 0 := by
    intro he; rw [he] at hn; have := wireLen_pos q; simp at hn; omega
  have h2 : UInt8.ofNat (wireLen q) ≠ 2 := by
    intro he; rw [he] at hn; exact wireLen_ne_two q h hn.symm
  rw [rd_encode_zero, Outcome.bind_ok, decide_eq_true h0, decide_eq_true h2, Bool.and_self, assert_true,
    Outcome.bind_ok, isInZone_eq zn q hz h j1 j2, Outcome.bind_ok]
  by_cases hs : zn <:+ q
  · rw [decide_eq_true hs, cond_true, if_pos hs]
    obtain ⟨x, rfl⟩ := hs
    rw [dropZone_eq x zn h j2 j1, Outcome.bind_ok]
    have := lstack_encode x (WF_prefix h) []
    rw [List.append_nil] at this
    rw [this, Outcome.bind_ok]
    have : (x ++ zn).length - zn.length = x.length := by simp
    rw [this, List.take_left]
  · rw [decide_eq_false hs, cond_false, if_neg hs]

end Gdnsd.Tree
