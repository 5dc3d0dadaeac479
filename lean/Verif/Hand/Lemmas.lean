import Verif.Hand.Spec
import Verif.Extmon.Lemmas2
open Gdnsd.Conf (str)
open Gdnsd.Extmon
namespace Gdnsd.Hand
open HandSpec

def fini : Bytes × Bytes := (str "END_CMDS", str "END_CMDS_ACK")

def rest (cs : List Cmd) : List (Bytes × Bytes) := cs.map (fun c => (c.wire, str "CMD_ACK")) ++ [fini]

def script (cs : List Cmd) : List (Bytes × Bytes) :=
  (str "HELO", str "HELO_ACK") :: (str "CMDS:" ++ be16 cs.length, str "CMDS_ACK") :: rest cs

/-- The helper, about to read a message, is about to be told `l`. -/
def Pos (C : List Cmd) (ph : Ph) (num : Nat) (cs : List Cmd) (l : List (Bytes × Bytes)) : Prop :=
  match ph with
  | .helo => cs = [] ∧ l = script C
  | .count => cs = [] ∧ l = (str "CMDS:" ++ be16 C.length, str "CMDS_ACK") :: rest C
  | .cmd => num = C.length ∧ ∃ r, r ≠ [] ∧ C = cs ++ r ∧ l = rest r
  | .fin => cs = C ∧ l = [fini]

def Next (C : List Cmd) (nx : Option Ph) (num : Nat) (cs : List Cmd) (l : List (Bytes × Bytes)) : Prop :=
  match nx with
  | none => cs = C ∧ l = []
  | some ph => Pos C ph num cs l

/-- The list of commands can be handed over. -/
structure Good (C : List Cmd) : Prop where
  pos : 0 < C.length
  few : C.length < 65536
  fits : ∀ c ∈ C, c.Fits
  idx : ∀ (i : Nat) (c : Cmd), C[i]? = some c → c.idx = i

structure Reads (C : List Cmd) (ph : Ph) (num : Nat) (cs : List Cmd) (m a : Bytes) (l : List (Bytes × Bytes)) : Prop where
  ne : m ≠ []
  ane : a ≠ []
  part : ∀ g r, m = g ++ r → r ≠ [] → (∃ w, want ph g = .ok w ∧ g.length < w ∧ w ≤ m.length) ∧ H.got ph g num cs = .ok (some (.recv ph g num cs))
  all : ∃ nx num' cs', H.got ph m num cs = .ok (some (.send a nx num' cs')) ∧ Next C nx num' cs' l

theorem part_lt {m g r : Bytes} (h : m = g ++ r) (hr : r ≠ []) : g.length < m.length := by
  rw [h, List.length_append]
  have := List.length_pos_iff.mpr hr
  omega

theorem reads_helo {C : List Cmd} {num : Nat} : Reads C .helo num [] (str "HELO") (str "HELO_ACK") ((str "CMDS:" ++ be16 C.length, str "CMDS_ACK") :: rest C) := by
  refine ⟨by decide, by decide, ?_, ?_⟩
  · intro g r h hr
    have h1 := part_lt h hr
    have h2 : (str "HELO").length = 4 := by decide
    refine ⟨⟨4, rfl, by omega, by omega⟩, ?_⟩
    simp only [H.got]
    rw [if_pos (by omega)]
  · refine ⟨some .count, num, [], ?_, rfl, rfl⟩
    simp only [H.got]
    rw [if_neg (by decide)]
    simp

theorem reads_count {C : List Cmd} (hC : Good C) {num : Nat} : Reads C .count num [] (str "CMDS:" ++ be16 C.length) (str "CMDS_ACK") (rest C) := by
  obtain ⟨x, y, e1, e2⟩ := be16_get _ hC.few
  have e5 : str "CMDS:" = [67, 77, 68, 83, 58] := by decide
  refine ⟨by rw [e5]; simp, by decide, ?_, ?_⟩
  · intro g r h hr
    have h1 := part_lt h hr
    have h2 : (str "CMDS:" ++ be16 C.length).length = 7 := by rw [e1, e5]; rfl
    refine ⟨⟨7, rfl, by omega, by omega⟩, ?_⟩
    simp only [H.got]
    rw [if_pos (by omega)]
  · refine ⟨some .cmd, C.length, [], ?_, rfl, C, ?_, rfl, rfl⟩
    · have hp := hC.pos
      rw [e1, e5]
      simp only [H.got, e5]
      rw [if_neg (by simp)]
      simp only [List.cons_append, List.nil_append, List.take_succ_cons, List.take_zero, ne_eq, not_true_eq_false, if_false, get16, rd, List.getElem?_cons_succ, List.getElem?_cons_zero, Outcome.bind_ok, Outcome.map_ok]
      rw [e2, if_neg (by omega)]
    · intro hc; have := hC.pos; rw [hc] at this; simp at this

theorem reads_fin {C : List Cmd} {num : Nat} : Reads C .fin num C (str "END_CMDS") (str "END_CMDS_ACK") [] := by
  refine ⟨by decide, by decide, ?_, ?_⟩
  · intro g r h hr
    have h1 := part_lt h hr
    have h2 : (str "END_CMDS").length = 8 := by decide
    refine ⟨⟨8, rfl, by omega, by omega⟩, ?_⟩
    simp only [H.got]
    rw [if_pos (by omega)]
  · refine ⟨none, num, C, ?_, rfl, rfl⟩
    simp only [H.got]
    rw [if_neg (by decide)]
    simp

theorem reads_cmd {C cs r : List Cmd} {c : Cmd} (hC : Good C) (h : C = cs ++ c :: r) : Reads C .cmd C.length cs c.wire (str "CMD_ACK") (rest r) := by
  have hf := hC.fits c (by rw [h]; simp)
  have hidx : c.idx = cs.length := hC.idx _ _ (by rw [h]; simp)
  obtain ⟨i0, i1, hi, hi'⟩ := be16_get _ hf.idx
  obtain ⟨t0, t1, ht, ht'⟩ := be16_get _ hf.timeout
  obtain ⟨n0, n1, hn, hn'⟩ := be16_get _ hf.interval
  obtain ⟨m0, m1, hm, hm'⟩ := be16_get _ hf.maxProc
  obtain ⟨v0, v1, hv, hv'⟩ := be16_get _ hf.large
  have hw : c.wire = [67, 77, 68, 58, i0, i1, t0, t1, n0, n1, m0, m1, v0, v1] ++ c.var := by
    unfold Cmd.wire; rw [hi, ht, hn, hm, hv]; rfl
  have hsm := hf.small
  have e4 : str "CMD:" = [67, 77, 68, 58] := by decide
  refine ⟨by rw [hw]; simp, by decide, ?_, ?_⟩
  · intro g q hg hq
    have h1 := part_lt hg hq
    rw [wire_length] at h1
    by_cases hlt : g.length < 14
    · refine ⟨⟨14, by simp [want, hlt], hlt, by rw [wire_length]; omega⟩, ?_⟩
      simp only [H.got, gotCmd]
      rw [if_pos hlt]
    · have hge : ∃ v, g = [67, 77, 68, 58, i0, i1, t0, t1, n0, n1, m0, m1, v0, v1] ++ v := by
        refine ⟨g.drop 14, ?_⟩
        have h2 := congrArg (List.take 14) (hg.symm.trans hw)
        rw [List.take_append_of_le_length (by omega)] at h2
        have h3 : g = g.take 14 ++ g.drop 14 := (List.take_append_drop 14 g).symm
        rw [h2] at h3
        simpa using h3
      obtain ⟨v, rfl⟩ := hge
      have hvl : v.length < c.var.length := by simp at h1; omega
      constructor
      · refine ⟨14 + c.var.length, ?_, by omega, by rw [wire_length]; omega⟩
        simp only [want]
        rw [if_neg hlt]
        simp only [get16, rd, List.cons_append, List.getElem?_cons_succ, List.getElem?_cons_zero, Outcome.bind_ok, Outcome.map_ok]
        rw [hv']
      · simp only [H.got, gotCmd]
        rw [if_neg hlt, e4]
        simp only [List.cons_append, List.nil_append, List.take_succ_cons, List.take_zero, ne_eq, not_true_eq_false, if_false, get16, rd, List.getElem?_cons_succ, List.getElem?_cons_zero, Outcome.bind_ok]
        rw [hv', if_neg (by omega), if_pos (by simp; omega)]
  · refine ⟨some (if cs.length + 1 < C.length then .cmd else .fin), C.length, cs ++ [c], ?_, ?_⟩
    · simp only [H.got, gotCmd]
      rw [if_neg (by rw [wire_length]; omega), e4, hw]
      obtain ⟨o, g1, g2⟩ := getVar_iff c.var (by omega)
      have ho := (g2 c.args c.desc).mpr ⟨rfl, hf.pos, hf.few, hf.args, hf.desc⟩
      subst ho
      simp only [List.cons_append, List.nil_append, List.take_succ_cons, List.take_zero, ne_eq, not_true_eq_false, if_false, get16, rd, List.getElem?_cons_succ, List.getElem?_cons_zero, Outcome.bind_ok, List.drop_succ_cons, List.drop_zero]
      rw [hv', if_neg (by omega), if_neg (by simp; omega), g1]
      simp only [Outcome.bind_ok]
      rw [hi', ht', hn', hm', if_neg (by rw [hidx]; simp)]
    · have hl : C.length = cs.length + (r.length + 1) := by rw [h]; simp
      cases r with
      | nil =>
        rw [if_neg (by simp at hl; omega)]
        exact ⟨h.symm, rfl⟩
      | cons d r =>
        rw [if_pos (by simp at hl; omega)]
        exact ⟨rfl, d :: r, by simp, by rw [h]; simp, rfl⟩

theorem Pos.reads {C : List Cmd} (hC : Good C) {ph : Ph} {num : Nat} {cs : List Cmd} {l : List (Bytes × Bytes)} (h : Pos C ph num cs l) :
    ∃ m a l', l = (m, a) :: l' ∧ Reads C ph num cs m a l' := by
  cases ph with
  | helo => obtain ⟨rfl, rfl⟩ := h; exact ⟨_, _, _, rfl, reads_helo⟩
  | count => obtain ⟨rfl, rfl⟩ := h; exact ⟨_, _, _, rfl, reads_count hC⟩
  | cmd =>
    obtain ⟨rfl, r, hr, h1, rfl⟩ := h
    cases r with
    | nil => exact absurd rfl hr
    | cons c r => exact ⟨_, _, _, rfl, reads_cmd hC h1⟩
  | fin => obtain ⟨rfl, rfl⟩ := h; exact ⟨_, _, _, rfl, reads_fin⟩

/-- What is still to be moved for exchanges to come. -/
def weight (l : List (Bytes × Bytes)) : Nat := (l.map fun p => 2 * p.1.length + 2 * p.2.length).sum

inductive Inv (C : List Cmd) : D → H → Bytes → Bytes → Nat → Prop where
  | asking {out a l ph g num cs up m} : Pos C ph num cs ((m, a) :: l) → m = g ++ (up ++ out) → out ≠ [] →
      Inv C (.send out a l) (.recv ph g num cs) up [] (2 * out.length + up.length + 2 * a.length + weight l)
  | asked {a l ph g num cs up m} : Pos C ph num cs ((m, a) :: l) → m = g ++ up → up ≠ [] →
      Inv C (.recv [] a l) (.recv ph g num cs) up [] (up.length + 2 * a.length + weight l)
  | answering {got a l out nx num cs down} : Next C nx num cs l → a = got ++ (down ++ out) → out ≠ [] →
      Inv C (.recv got a l) (.send out nx num cs) [] down (2 * out.length + down.length + weight l)
  | answered {got a l nx num cs down} : Next C nx num cs l → a = got ++ down → down ≠ [] →
      Inv C (.recv got a l) (H.after nx num cs) [] down (down.length + weight l)
  | over : Inv C .done (.done C) [] [] 0

theorem Inv.next {C : List Cmd} (hC : Good C) {nx : Option Ph} {num : Nat} {cs : List Cmd} {l : List (Bytes × Bytes)} (h : Next C nx num cs l) :
    Inv C (D.next l) (H.after nx num cs) [] [] (weight l) := by
  cases nx with
  | none => obtain ⟨rfl, rfl⟩ := h; exact .over
  | some ph =>
    obtain ⟨m, a, l', rfl, hr⟩ := Pos.reads hC h
    have := Inv.asking (out := m) (up := []) (g := []) h (by simp) hr.ne
    simpa [weight, D.next, H.after, Nat.add_assoc] using this

theorem drop_ne {l : Bytes} {n : Nat} (h : n < l.length) : l.drop n ≠ [] := by
  intro hc
  have := congrArg List.length hc
  simp at this
  omega

/-- The measure of a system. -/
def alive (s : Sys) : Nat := (if s.dDead = true then 0 else 1) + if s.hDead = true then 0 else 1

/-- The next call of the daemon does nothing. -/
def BlockedD (cap : Nat) (s : Sys) : Prop :=
  match s.d with
  | .done => True
  | .send _ _ _ => s.hDead = false ∧ cap ≤ s.up.length
  | .recv _ _ _ => s.hDead = false ∧ s.down = []

def BlockedH (cap : Nat) (s : Sys) : Prop :=
  match s.h with
  | .done _ => True
  | .send _ _ _ _ => s.dDead = false ∧ cap ≤ s.down.length
  | .recv _ _ _ _ => s.dDead = false ∧ s.up = []

theorem no_up {s t : Sys} (h : t.up.length ≠ s.up.length) : t ≠ s := fun hc => h (by rw [hc])
theorem no_down {s t : Sys} (h : t.down.length ≠ s.down.length) : t ≠ s := fun hc => h (by rw [hc])

theorem stepD_inv {C : List Cmd} (hC : Good C) {cap k n : Nat} (hc : 0 < cap) {s : Sys} (h : Inv C s.d s.h s.up s.down n) :
    (stepD cap k s = s ∧ (s.dDead = true ∨ k = 0 ∨ BlockedD cap s)) ∨
    (∃ n', n' < n ∧ Inv C (stepD cap k s).d (stepD cap k s).h (stepD cap k s).up (stepD cap k s).down n' ∧ (stepD cap k s).dDead = s.dDead ∧ (stepD cap k s).hDead = s.hDead ∧ stepD cap k s ≠ s) ∨
    (s.hDead = true ∧ s.dDead = false ∧ stepD cap k s = { s with dDead := true }) := by
  obtain ⟨d, hh, up, down, dd, hd⟩ := s
  dsimp only at h
  unfold stepD
  dsimp only
  by_cases h0 : dd = true ∨ k = 0
  · rw [if_pos h0]; exact .inl ⟨rfl, h0.elim .inl fun h => .inr (.inl h)⟩
  rw [if_neg h0]
  have hk : k ≠ 0 := fun hc => h0 (.inr hc)
  have hdd : dd = false := by cases dd with | false => rfl | true => exact absurd (.inl rfl) h0
  cases h with
  | @asking out a l ph g num cs up m hp hm ho =>
    dsimp only
    by_cases hhd : hd = true
    · rw [if_pos hhd]; exact .inr (.inr ⟨hhd, hdd, rfl⟩)
    rw [if_neg hhd]
    have hol := List.length_pos_iff.mpr ho
    obtain ⟨j, hj⟩ : ∃ j, j = min k (min out.length (cap - up.length)) := ⟨_, rfl⟩
    rw [← hj]
    by_cases hj0 : j = 0
    · left
      rw [hj0]
      refine ⟨by simp [ho], .inr (.inr ⟨by simpa using hhd, ?_⟩)⟩
      show cap ≤ up.length
      omega
    right; left
    by_cases hjl : j < out.length
    · have hne := drop_ne hjl
      rw [if_neg hne]
      refine ⟨2 * (out.drop j).length + (up ++ out.take j).length + 2 * a.length + weight l, ?_, .asking hp ?_ hne, rfl, rfl, no_up ?_⟩
      · simp; omega
      · simp [hm]
      · show (up ++ out.take j).length ≠ up.length; rw [List.length_append, List.length_take]; omega
    · have hje : out.drop j = [] := List.drop_of_length_le (by omega)
      rw [if_pos hje]
      have hte : out.take j = out := List.take_of_length_le (by omega)
      rw [hte]
      refine ⟨(up ++ out).length + 2 * a.length + weight l, ?_, .asked hp hm (by simp [ho]), rfl, rfl, no_up ?_⟩
      · simp; omega
      · simp; omega
  | @asked a l ph g num cs up m hp hm ho =>
    dsimp only
    rw [if_pos rfl]
    by_cases hhd : hd = true
    · rw [if_pos hhd]; exact .inr (.inr ⟨hhd, hdd, rfl⟩)
    · rw [if_neg hhd]; exact .inl ⟨rfl, .inr (.inr ⟨by simpa using hhd, rfl⟩)⟩
  | @answering got a l out nx num cs down hx ha ho =>
    dsimp only
    by_cases hdn : down = []
    · rw [if_pos hdn]
      by_cases hhd : hd = true
      · rw [if_pos hhd]; exact .inr (.inr ⟨hhd, hdd, rfl⟩)
      · rw [if_neg hhd]; exact .inl ⟨rfl, .inr (.inr ⟨by simpa using hhd, hdn⟩)⟩
    rw [if_neg hdn]
    have hol := List.length_pos_iff.mpr ho
    have hdl := List.length_pos_iff.mpr hdn
    have hal : a.length = got.length + (down.length + out.length) := by rw [ha]; simp
    obtain ⟨j, hj⟩ : ∃ j, j = min k (min down.length (a.length - got.length)) := ⟨_, rfl⟩
    rw [← hj]
    have hlt : (got ++ down.take j).length < a.length := by simp; omega
    rw [if_pos hlt]
    refine .inr (.inl ⟨2 * out.length + (down.drop j).length + weight l, ?_, .answering hx ?_ ho, rfl, rfl, no_down ?_⟩)
    · simp; omega
    · rw [ha, List.append_assoc, ← List.append_assoc (down.take j), List.take_append_drop]
    · simp; omega
  | @answered got a l nx num cs down hx ha hdn =>
    dsimp only
    rw [if_neg hdn]
    have hdl := List.length_pos_iff.mpr hdn
    have hal : a.length = got.length + down.length := by rw [ha]; simp
    obtain ⟨j, hj⟩ : ∃ j, j = min k (min down.length (a.length - got.length)) := ⟨_, rfl⟩
    rw [← hj]
    by_cases hjl : j < down.length
    · have hlt : (got ++ down.take j).length < a.length := by simp; omega
      rw [if_pos hlt]
      refine .inr (.inl ⟨(down.drop j).length + weight l, ?_, .answered hx ?_ (drop_ne hjl), rfl, rfl, no_down ?_⟩)
      · simp; omega
      · rw [ha, List.append_assoc, List.take_append_drop]
      · simp; omega
    · have ht : down.take j = down := List.take_of_length_le (by omega)
      have hdr : down.drop j = [] := List.drop_of_length_le (by omega)
      rw [ht, hdr, ← ha, if_neg (by omega), if_pos rfl]
      exact .inr (.inl ⟨weight l, by omega, Inv.next hC hx, rfl, rfl, no_down (by simp; omega)⟩)
  | over => exact .inl ⟨rfl, .inr (.inr trivial)⟩

theorem stepH_inv {C : List Cmd} (hC : Good C) {cap k n : Nat} (hc : 0 < cap) {s : Sys} (h : Inv C s.d s.h s.up s.down n) :
    ∃ t, stepH cap k s = .ok t ∧ ((t = s ∧ (s.hDead = true ∨ k = 0 ∨ BlockedH cap s)) ∨
    (∃ n', n' < n ∧ Inv C t.d t.h t.up t.down n' ∧ t.dDead = s.dDead ∧ t.hDead = s.hDead ∧ t ≠ s) ∨
    (s.dDead = true ∧ s.hDead = false ∧ t = { s with hDead := true })) := by
  obtain ⟨d, hh, up, down, dd, hd⟩ := s
  dsimp only at h
  unfold stepH
  dsimp only
  by_cases h0 : hd = true ∨ k = 0
  · rw [if_pos h0]; exact ⟨_, rfl, .inl ⟨rfl, h0.elim .inl fun h => .inr (.inl h)⟩⟩
  rw [if_neg h0]
  have hk : k ≠ 0 := fun hc => h0 (.inr hc)
  have hhd : hd = false := by cases hd with | false => rfl | true => exact absurd (.inl rfl) h0
  -- reading
  have key : ∀ {a l ph g num cs m up q}, Pos C ph num cs ((m, a) :: l) → m = g ++ (up ++ q) → up ≠ [] → ∃ w, want ph g = .ok w ∧
      ∀ j, j = min k (min up.length (w - g.length)) → 0 < j ∧ j ≤ up.length ∧
        ((j < up.length ∨ q ≠ []) ∧ H.got ph (g ++ up.take j) num cs = .ok (some (.recv ph (g ++ up.take j) num cs)) ∨
         j = up.length ∧ q = [] ∧ ∃ nx num' cs', H.got ph (g ++ up.take j) num cs = .ok (some (.send a nx num' cs')) ∧ Next C nx num' cs' l ∧ a ≠ []) := by
    intro a l ph g num cs m up q hp hm hu
    obtain ⟨m', a', l', e, hr⟩ := Pos.reads hC hp
    cases e
    obtain ⟨⟨w, hw, hw1, hw2⟩, -⟩ := hr.part g (up ++ q) hm (by simp [hu])
    refine ⟨w, hw, ?_⟩
    intro j hj
    have hul := List.length_pos_iff.mpr hu
    refine ⟨by omega, by omega, ?_⟩
    by_cases hb : j < up.length ∨ q ≠ []
    · left
      refine ⟨hb, (hr.part (g ++ up.take j) (up.drop j ++ q) ?_ ?_).2⟩
      · rw [hm, List.append_assoc, ← List.append_assoc (up.take j), List.take_append_drop]
      · rcases hb with hb | hb
        · simp; intro hx; omega
        · simp [hb]
    · right
      have hq : q = [] := by
        by_cases hq : q = []
        · exact hq
        · exact absurd (.inr hq) hb
      have hjl : ¬ j < up.length := fun hx => hb (.inl hx)
      refine ⟨by omega, hq, ?_⟩
      obtain ⟨nx, num', cs', e1, e2⟩ := hr.all
      refine ⟨nx, num', cs', ?_, e2, hr.ane⟩
      rw [List.take_of_length_le (by omega)]
      have : g ++ up = m := by rw [hm, hq, List.append_nil]
      rw [this, e1]
  cases h with
  | @asking out a l ph g num cs up m hp hm ho =>
    dsimp only
    have hol := List.length_pos_iff.mpr ho
    by_cases hu : up = []
    · rw [if_pos hu]
      by_cases hd' : dd = true
      · rw [if_pos (.inl hd')]; exact ⟨_, rfl, .inr (.inr ⟨hd', hhd, rfl⟩)⟩
      · rw [if_neg (by simp [hd'])]; exact ⟨_, rfl, .inl ⟨rfl, .inr (.inr ⟨by simpa using hd', hu⟩)⟩⟩
    rw [if_neg hu]
    obtain ⟨w, e1, e2⟩ := key hp hm hu
    rw [e1, Outcome.bind_ok]
    obtain ⟨j, hj⟩ : ∃ j, j = min k (min up.length (w - g.length)) := ⟨_, rfl⟩
    rw [← hj]
    obtain ⟨h1, h2, ⟨-, h3⟩ | ⟨-, h3, -⟩⟩ := e2 j hj
    · rw [h3, Outcome.map_ok]
      refine ⟨_, rfl, .inr (.inl ⟨2 * out.length + (up.drop j).length + 2 * a.length + weight l, ?_, .asking hp ?_ ho, rfl, rfl, no_up ?_⟩)⟩
      · simp; omega
      · rw [hm, List.append_assoc, ← List.append_assoc (up.take j), List.take_append_drop]
      · simp; omega
    · exact absurd h3 ho
  | @asked a l ph g num cs up m hp hm hu =>
    dsimp only
    rw [if_neg hu]
    obtain ⟨w, e1, e2⟩ := key (q := []) hp (by simpa using hm) hu
    rw [e1, Outcome.bind_ok]
    obtain ⟨j, hj⟩ : ∃ j, j = min k (min up.length (w - g.length)) := ⟨_, rfl⟩
    rw [← hj]
    obtain ⟨h1, h2, ⟨h4, h3⟩ | ⟨h4, -, nx, num', cs', h5, h6, h7⟩⟩ := e2 j hj
    · have hjl : j < up.length := h4.resolve_right (fun hc => hc rfl)
      rw [h3, Outcome.map_ok]
      refine ⟨_, rfl, .inr (.inl ⟨(up.drop j).length + 2 * a.length + weight l, ?_, .asked hp ?_ (drop_ne hjl), rfl, rfl, no_up ?_⟩)⟩
      · simp; omega
      · rw [hm, List.append_assoc, List.take_append_drop]
      · simp; omega
    · rw [h5, Outcome.map_ok]
      have hdr : up.drop j = [] := List.drop_of_length_le (by omega)
      rw [hdr]
      refine ⟨_, rfl, .inr (.inl ⟨2 * a.length + ([] : Bytes).length + weight l, ?_, .answering h6 (by simp) h7, rfl, rfl, no_up ?_⟩)⟩
      · simp; omega
      · simp; omega
  | @answering got a l out nx num cs down hx ha ho =>
    dsimp only
    have hol := List.length_pos_iff.mpr ho
    by_cases hd' : dd = true
    · rw [if_pos hd']; exact ⟨_, rfl, .inr (.inr ⟨hd', hhd, rfl⟩)⟩
    rw [if_neg hd']
    obtain ⟨j, hj⟩ : ∃ j, j = min k (min out.length (cap - down.length)) := ⟨_, rfl⟩
    rw [← hj]
    refine ⟨_, rfl, ?_⟩
    by_cases hj0 : j = 0
    · left
      rw [hj0]
      refine ⟨by simp [ho], .inr (.inr ⟨by simpa using hd', ?_⟩)⟩
      show cap ≤ down.length
      omega
    right; left
    by_cases hjl : j < out.length
    · have hne := drop_ne hjl
      rw [if_neg hne]
      refine ⟨2 * (out.drop j).length + (down ++ out.take j).length + weight l, ?_, .answering hx ?_ hne, rfl, rfl, no_down ?_⟩
      · simp; omega
      · simp [ha]
      · show (down ++ out.take j).length ≠ down.length; rw [List.length_append, List.length_take]; omega
    · have hje : out.drop j = [] := List.drop_of_length_le (by omega)
      rw [if_pos hje]
      have hte : out.take j = out := List.take_of_length_le (by omega)
      rw [hte]
      refine ⟨(down ++ out).length + weight l, ?_, .answered hx ha (by simp [ho]), rfl, rfl, no_down ?_⟩
      · simp; omega
      · simp; omega
  | @answered got a l nx num cs down hx ha hdn =>
    cases nx with
    | none => exact ⟨_, rfl, .inl ⟨rfl, .inr (.inr trivial)⟩⟩
    | some ph =>
      dsimp only [H.after]
      rw [if_pos rfl]
      by_cases hd' : dd = true
      · rw [if_pos (.inl hd')]; exact ⟨_, rfl, .inr (.inr ⟨hd', hhd, rfl⟩)⟩
      · rw [if_neg (by simp [hd'])]; exact ⟨_, rfl, .inl ⟨rfl, .inr (.inr ⟨by simpa using hd', rfl⟩)⟩⟩
  | over => exact ⟨_, rfl, .inl ⟨rfl, .inr (.inr trivial)⟩⟩

end Gdnsd.Hand
