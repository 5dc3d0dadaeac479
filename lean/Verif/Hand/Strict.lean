import Verif.Hand.Lemmas
open Gdnsd.Conf (str)
open Gdnsd.Extmon
namespace Gdnsd.Hand
open HandSpec

theorem gotCmd_sound (got : Bytes) (num : Nat) (cs : List Cmd) (hw : ∀ n, 14 ≤ got.length → get16 got 12 = .ok n → got.length ≤ 14 + n) :
    ∃ o, gotCmd got num cs = .ok o ∧ (o = none ∨
      (o = some (.recv .cmd got num cs) ∧ (got.length < 14 ∨ ∃ n, get16 got 12 = .ok n ∧ got.length < 14 + n)) ∨
      ∃ c : Cmd, c.Fits ∧ got = c.wire ∧ c.idx = cs.length ∧ o = some (.send (str "CMD_ACK") (some (if cs.length + 1 < num then .cmd else .fin)) num (cs ++ [c]))) := by
  unfold gotCmd
  by_cases hlt : got.length < 14
  · rw [if_pos hlt]; exact ⟨_, rfl, .inr (.inl ⟨rfl, .inl hlt⟩)⟩
  rw [if_neg hlt]
  have hg : got = got.take 14 ++ got.drop 14 := (List.take_append_drop 14 got).symm
  obtain ⟨b0, b1, b2, b3, b4, b5, b6, b7, b8, b9, b10, b11, b12, b13, hb⟩ := list14 (got.take 14) (by simp; omega)
  obtain ⟨var, hvar0⟩ : ∃ var, var = got.drop 14 := ⟨_, rfl⟩
  rw [hb, ← hvar0] at hg
  subst hg
  have e4 : str "CMD:" = [67, 77, 68, 58] := by decide
  rw [e4]
  by_cases hm : [b0, b1, b2, b3] = [67, 77, 68, 58]
  · rw [if_neg (by intro hc; exact hc (by simpa using hm))]
    have h12 : get16 ([b0, b1, b2, b3, b4, b5, b6, b7, b8, b9, b10, b11, b12, b13] ++ var) 12 = .ok (256 * b12.toNat + b13.toNat) := rfl
    have hle := hw _ (by simp) h12
    rw [h12, Outcome.bind_ok]
    split
    · exact ⟨_, rfl, .inl rfl⟩
    rename_i hv
    split
    · rename_i hs
      exact ⟨_, rfl, .inr (.inl ⟨rfl, .inr ⟨_, h12, hs⟩⟩)⟩
    rename_i hs
    have hvl : var.length = 256 * b12.toNat + b13.toNat := by simp at hle hs; omega
    have hd : ([b0, b1, b2, b3, b4, b5, b6, b7, b8, b9, b10, b11, b12, b13] ++ var).drop 14 = var := rfl
    simp only [hd]
    simp only [List.cons_append, get16, rd, List.getElem?_cons_succ, List.getElem?_cons_zero, Outcome.bind_ok]
    rw [← hvl]
    obtain ⟨o, g1, g2⟩ := getVar_iff var (by omega)
    rw [g1]
    simp only [Outcome.bind_ok]
    cases o with
    | none => exact ⟨_, rfl, .inl rfl⟩
    | some p =>
      obtain ⟨args, desc⟩ := p
      dsimp only
      split
      · exact ⟨_, rfl, .inl rfl⟩
      · rename_i hi
        obtain ⟨k1, k2, k3, k4, k5⟩ := (g2 args desc).mp rfl
        have := b4.toNat_lt; have := b5.toNat_lt; have := b6.toNat_lt; have := b7.toNat_lt; have := b8.toNat_lt
        have := b9.toNat_lt; have := b10.toNat_lt; have := b11.toNat_lt; have := b12.toNat_lt; have := b13.toNat_lt
        have hvar : Cmd.var ⟨256 * b4.toNat + b5.toNat, 256 * b6.toNat + b7.toNat, 256 * b8.toNat + b9.toNat, 256 * b10.toNat + b11.toNat, args, desc⟩ = var := k1.symm
        refine ⟨_, rfl, .inr (.inr ⟨⟨256 * b4.toNat + b5.toNat, 256 * b6.toNat + b7.toNat, 256 * b8.toNat + b9.toNat, 256 * b10.toNat + b11.toNat, args, desc⟩, ?_, ?_, ?_, rfl⟩)⟩
        · refine ⟨⟨by dsimp only; omega, by dsimp only; omega, by dsimp only; omega, by dsimp only; omega, k2, k3, k4, k5⟩, ?_, ?_⟩
          · rw [hvar]; omega
          · rw [hvar]; omega
        · unfold Cmd.wire
          rw [hvar, hvl]
          simp only [be16_of]
          rw [← hm]
          simp
        · dsimp only
          exact (Classical.not_not.mp hi).symm
  · rw [if_pos (by intro hc; exact hm (by simpa using hc))]
    exact ⟨_, rfl, .inl rfl⟩

def Head (num : Nat) (cs : List Cmd) (z g : Bytes) : Prop :=
  z = str "HELO" ++ (str "CMDS:" ++ be16 num) ++ (cs.map Cmd.wire).flatten ++ g ∧ 0 < num ∧ num < 65536 ∧ (∀ c ∈ cs, c.Fits) ∧ ∀ (i : Nat) (c : Cmd), cs[i]? = some c → c.idx = i

def HRecv (ph : Ph) (g : Bytes) (num : Nat) (cs : List Cmd) (z : Bytes) : Prop :=
  match ph with
  | .helo => cs = [] ∧ z = g ∧ g.length < 4
  | .count => cs = [] ∧ z = str "HELO" ++ g ∧ g.length < 7
  | .cmd => Head num cs z g ∧ cs.length < num ∧ (g.length < 14 ∨ ∃ n, get16 g 12 = .ok n ∧ g.length < 14 + n)
  | .fin => Head num cs z g ∧ cs.length = num ∧ g.length < 8

def After (nx : Option Ph) (num : Nat) (cs : List Cmd) (z : Bytes) : Prop :=
  match nx with
  | some ph => HRecv ph [] num cs z
  | none => Head num cs z (str "END_CMDS") ∧ cs.length = num

/-- What the helper has read when it is there. -/
def HInv (h : H) (z : Bytes) : Prop :=
  match h with
  | .recv ph g num cs => HRecv ph g num cs z
  | .send _ nx num cs => After nx num cs z
  | .done cs => ∃ num, After none num cs z

theorem HInv.after {nx : Option Ph} {num : Nat} {cs : List Cmd} {z : Bytes} (h : After nx num cs z) : HInv (H.after nx num cs) z := by
  cases nx with
  | none => exact ⟨num, h⟩
  | some ph => exact h

theorem Head.more {num : Nat} {cs : List Cmd} {z g : Bytes} (h : Head num cs z g) (b : Bytes) : Head num cs (z ++ b) (g ++ b) :=
  ⟨by rw [h.1, List.append_assoc], h.2⟩

/-- What the helper does when it reads: the bytes that it asks for are all that it takes. -/
theorem got_inv {ph : Ph} {g z : Bytes} {num : Nat} {cs : List Cmd} (h : HRecv ph g num cs z) :
    ∃ w, want ph g = .ok w ∧ g.length ≤ w ∧ ∀ b : Bytes, g.length + b.length ≤ w → ∃ o, H.got ph (g ++ b) num cs = .ok o ∧ ∀ h', o = some h' → HInv h' (z ++ b) := by
  cases ph with
  | helo =>
    obtain ⟨rfl, rfl, hl⟩ := h
    refine ⟨4, rfl, by omega, fun b hb => ?_⟩
    simp only [H.got]
    split
    · rename_i hx
      exact ⟨_, rfl, fun h' e => by cases e; exact ⟨rfl, rfl, hx⟩⟩
    · split
      · rename_i hy
        exact ⟨_, rfl, fun h' e => by cases e; exact ⟨rfl, by rw [hy, List.append_nil], by decide⟩⟩
      · exact ⟨_, rfl, fun h' e => by cases e⟩
  | count =>
    obtain ⟨rfl, rfl, hl⟩ := h
    refine ⟨7, rfl, by omega, fun b hb => ?_⟩
    simp only [H.got]
    split
    · rename_i hx
      exact ⟨_, rfl, fun h' e => by cases e; exact ⟨rfl, by rw [List.append_assoc], hx⟩⟩
    · rename_i hx
      split
      · exact ⟨_, rfl, fun h' e => by cases e⟩
      · rename_i hy
        have hlen : (g ++ b).length = 7 := by rw [List.length_append] at hx ⊢; omega
        obtain ⟨gb, hgb⟩ : ∃ gb, gb = g ++ b := ⟨_, rfl⟩
        rw [List.append_assoc]
        rw [← hgb] at hy hlen ⊢
        match gb, hlen with
        | [b0, b1, b2, b3, b4, b5, b6], _ =>
          have h5 : get16 [b0, b1, b2, b3, b4, b5, b6] 5 = .ok (256 * b5.toNat + b6.toNat) := rfl
          rw [h5, Outcome.map_ok]
          refine ⟨_, rfl, fun h' e => ?_⟩
          split at e
          · cases e
          · rename_i h0
            cases e
            have hm : [b0, b1, b2, b3, b4] = str "CMDS:" := Classical.not_not.mp hy
            have := b5.toNat_lt; have := b6.toNat_lt
            refine ⟨⟨?_, by omega, by omega, fun c hc => (by cases hc), fun i c hc => (by simp at hc)⟩, by simp; omega, .inl (by decide)⟩
            rw [be16_of, ← hm]
            simp
  | cmd =>
    obtain ⟨hh, hl, hr⟩ := h
    have hwant : ∃ w, want .cmd g = .ok w ∧ g.length < w ∧ (14 ≤ g.length → ∃ n, get16 g 12 = .ok n ∧ w = 14 + n) ∧ (g.length < 14 → w = 14) := by
      by_cases hlt : g.length < 14
      · exact ⟨14, by simp [want, hlt], hlt, fun hx => absurd hx (by omega), fun _ => rfl⟩
      · obtain ⟨n, h1, h2⟩ := hr.resolve_left hlt
        exact ⟨14 + n, by simp [want, hlt, h1], h2, fun _ => ⟨n, h1, rfl⟩, fun hx => absurd hx hlt⟩
    obtain ⟨w, h1, h2, h3, h4⟩ := hwant
    refine ⟨w, h1, by omega, fun b hb => ?_⟩
    have hw : ∀ n, 14 ≤ (g ++ b).length → get16 (g ++ b) 12 = .ok n → (g ++ b).length ≤ 14 + n := by
      intro n hn1 hn2
      rw [List.length_append]
      by_cases hlt : g.length < 14
      · have := h4 hlt; omega
      · obtain ⟨m, e1, e2⟩ := h3 (by omega)
        have : get16 (g ++ b) 12 = get16 g 12 := by
          unfold get16 rd
          rw [List.getElem?_append_left (by omega), List.getElem?_append_left (by omega)]
        rw [this, e1] at hn2
        cases hn2
        omega
    obtain ⟨o, e1, rfl | ⟨rfl, e2⟩ | ⟨c, e2, e3, e4, rfl⟩⟩ := gotCmd_sound (g ++ b) num cs hw
    · exact ⟨_, e1, fun h' e => by cases e⟩
    · exact ⟨_, e1, fun h' e => by cases e; exact ⟨hh.more b, hl, e2⟩⟩
    · refine ⟨_, e1, fun h' e => ?_⟩
      cases e
      have hd : Head num (cs ++ [c]) (z ++ b) [] := by
        refine ⟨?_, hh.2.1, hh.2.2.1, ?_, ?_⟩
        · rw [(hh.more b).1, e3]; simp
        · intro x hx
          rcases List.mem_append.mp hx with hx | hx
          · exact hh.2.2.2.1 x hx
          · rw [List.mem_singleton.mp hx]; exact e2
        · intro i x hx
          by_cases hi : i < cs.length
          · rw [List.getElem?_append_left hi] at hx
            exact hh.2.2.2.2 i x hx
          · rw [List.getElem?_append_right (by omega)] at hx
            have : i - cs.length = 0 := by
              have := (List.getElem?_eq_some_iff.mp hx).1
              simp at this; omega
            rw [this] at hx
            cases hx
            rw [e4]; omega
      by_cases hlast : cs.length + 1 < num
      · show After (some (if cs.length + 1 < num then .cmd else .fin)) num (cs ++ [c]) (z ++ b)
        rw [if_pos hlast]
        exact ⟨hd, by simpa using hlast, .inl (by decide)⟩
      · show After (some (if cs.length + 1 < num then .cmd else .fin)) num (cs ++ [c]) (z ++ b)
        rw [if_neg hlast]
        exact ⟨hd, by simp; omega, by decide⟩
  | fin =>
    obtain ⟨hh, hl, hr⟩ := h
    refine ⟨8, rfl, by omega, fun b hb => ?_⟩
    simp only [H.got]
    split
    · rename_i hx
      exact ⟨_, rfl, fun h' e => by cases e; exact ⟨hh.more b, hl, hx⟩⟩
    · split
      · rename_i hy
        exact ⟨_, rfl, fun h' e => by cases e; exact ⟨hy ▸ hh.more b, hl⟩⟩
      · exact ⟨_, rfl, fun h' e => by cases e⟩

/-- `x` is what was written to the helper. -/
def Heard (s : Sys) (x : Bytes) : Prop :=
  (s.hDead = true ∧ ∀ cs, s.h ≠ .done cs) ∨ (s.hDead = false ∧ ∃ z, HInv s.h z ∧ x = z ++ s.up)

theorem stepH_heard {cap k : Nat} {s : Sys} {x : Bytes} (h : Heard s x) : ∃ t, stepH cap k s = .ok t ∧ Heard t x := by
  unfold stepH
  by_cases h0 : s.hDead = true ∨ k = 0
  · rw [if_pos h0]; exact ⟨s, rfl, h⟩
  rw [if_neg h0]
  rcases h with ⟨h1, -⟩ | ⟨h1, z, h2, rfl⟩
  · exact absurd (.inl h1) h0
  obtain ⟨d, hh, up, down, dd, hd⟩ := s
  dsimp only at h1 h2 ⊢
  subst h1
  cases hh with
  | done cs => exact ⟨_, rfl, .inr ⟨rfl, z, h2, rfl⟩⟩
  | send out nx num cs =>
    dsimp only
    split
    · exact ⟨_, rfl, .inl ⟨rfl, fun cs hc => (by cases hc)⟩⟩
    · refine ⟨_, rfl, .inr ⟨rfl, z, ?_, rfl⟩⟩
      dsimp only
      split
      · exact HInv.after h2
      · exact h2
  | recv ph g num cs =>
    dsimp only
    split
    · split
      · exact ⟨_, rfl, .inl ⟨rfl, fun cs hc => (by cases hc)⟩⟩
      · exact ⟨_, rfl, .inr ⟨rfl, z, h2, rfl⟩⟩
    · obtain ⟨w, e1, e0, e2⟩ := got_inv h2
      rw [e1, Outcome.bind_ok]
      obtain ⟨j, hj⟩ : ∃ j, j = min k (min up.length (w - g.length)) := ⟨_, rfl⟩
      rw [← hj]
      obtain ⟨o, f1, f2⟩ := e2 (up.take j) (by simp; omega)
      rw [f1, Outcome.map_ok]
      cases o with
      | none => exact ⟨_, rfl, .inl ⟨rfl, fun cs hc => (by cases hc)⟩⟩
      | some h' => exact ⟨_, rfl, .inr ⟨rfl, z ++ up.take j, f2 h' rfl, by simp⟩⟩

theorem runH_heard {cap : Nat} : ∀ (l : List Ext) (s : Sys) (x : Bytes), Heard s x → ∃ t, runH cap l s = .ok t ∧ Heard t (x ++ fed l)
  | [], s, x, h => ⟨s, rfl, by simpa [fed] using h⟩
  | .feed b :: l, s, x, h => by
    have h' : Heard { s with up := s.up ++ b } (x ++ b) := by
      rcases h with h | ⟨h1, z, h2, rfl⟩
      · exact .inl h
      · exact .inr ⟨h1, z, h2, by simp⟩
    obtain ⟨t, h1, h2⟩ := runH_heard l _ _ h'
    exact ⟨t, h1, by simpa [fed] using h2⟩
  | .drain n :: l, s, x, h => runH_heard l { s with down := s.down.drop n } x h
  | .hangup :: l, s, x, h => runH_heard l { s with dDead := true } x h
  | .call k :: l, s, x, h => by
    obtain ⟨t, h1, h2⟩ := stepH_heard (cap := cap) (k := k) h
    obtain ⟨u, g1, g2⟩ := runH_heard l t x h2
    exact ⟨u, by rw [runH, h1, Outcome.bind_ok, g1], g2⟩

/-- What the daemon has still to hear, with the answer that it reads now. -/
def D.due : D → Bytes
  | .send _ a l => a ++ (l.map Prod.snd).flatten
  | .recv _ a l => a ++ (l.map Prod.snd).flatten
  | .done => []

/-- What it has of that answer. -/
def D.part : D → Bytes
  | .recv got _ _ => got
  | _ => []

/-- `y` is what the daemon wants to hear in all, `x` was written to it. -/
def Heeds (s : Sys) (y x : Bytes) : Prop :=
  (s.dDead = true ∧ s.d ≠ .done) ∨ (s.dDead = false ∧ ∃ z, y = z ++ s.d.due ∧ x = z ++ (s.d.part ++ s.down))

theorem next_due (l : List (Bytes × Bytes)) : (D.next l).due = (l.map Prod.snd).flatten ∧ (D.next l).part = [] := by
  cases l with
  | nil => exact ⟨rfl, rfl⟩
  | cons p l => exact ⟨rfl, rfl⟩

theorem stepD_heeds {cap k : Nat} {s : Sys} {y x : Bytes} (h : Heeds s y x) : Heeds (stepD cap k s) y x := by
  unfold stepD
  by_cases h0 : s.dDead = true ∨ k = 0
  · rw [if_pos h0]; exact h
  rw [if_neg h0]
  rcases h with ⟨h1, -⟩ | ⟨h1, z, h2, rfl⟩
  · exact absurd (.inl h1) h0
  obtain ⟨d, hh, up, down, dd, hd⟩ := s
  dsimp only at h1 h2 ⊢
  subst h1
  cases d with
  | done => exact .inr ⟨rfl, z, h2, rfl⟩
  | send out a l =>
    dsimp only
    split
    · exact .inl ⟨rfl, fun hc => (by cases hc)⟩
    · refine .inr ⟨rfl, z, ?_, ?_⟩
      · rw [h2]; dsimp only; split <;> rfl
      · dsimp only; split <;> rfl
  | recv got a l =>
    dsimp only
    split
    · split
      · exact .inl ⟨rfl, fun hc => (by cases hc)⟩
      · exact .inr ⟨rfl, z, h2, rfl⟩
    · obtain ⟨j, hj⟩ : ∃ j, j = min k (min down.length (a.length - got.length)) := ⟨_, rfl⟩
      rw [← hj]
      split
      · refine .inr ⟨rfl, z, h2, ?_⟩
        simp [D.part]
      · split
        · rename_i hg
          refine .inr ⟨rfl, z ++ a, ?_, ?_⟩
          · rw [h2]; dsimp only; rw [(next_due l).1]; simp [D.due]
          · dsimp only
            rw [(next_due l).2, ← hg]
            simp [D.part]
        · exact .inl ⟨rfl, fun hc => (by cases hc)⟩

theorem runD_heeds {cap : Nat} : ∀ (l : List Ext) (s : Sys) (y x : Bytes), Heeds s y x → Heeds (runD cap l s) y (x ++ fed l)
  | [], s, y, x, h => by simpa [fed, runD] using h
  | .feed b :: l, s, y, x, h => by
    have h' : Heeds { s with down := s.down ++ b } y (x ++ b) := by
      rcases h with h | ⟨h1, z, h2, rfl⟩
      · exact .inl h
      · exact .inr ⟨h1, z, h2, by simp⟩
    have := runD_heeds (cap := cap) l _ _ _ h'
    simpa [fed, runD] using this
  | .drain n :: l, s, y, x, h => runD_heeds l { s with up := s.up.drop n } y x h
  | .hangup :: l, s, y, x, h => runD_heeds l { s with hDead := true } y x h
  | .call k :: l, s, y, x, h => runD_heeds l _ y x (stepD_heeds h)

end Gdnsd.Hand
