/-
Every step keeps the invariant.
-/
import Verif.Chal.InvLemmas
namespace Gdnsd.Chal

theorem idle_iff {w : Writer} : w.isIdle = true ↔ w = .idle := by cases w <;> simp [Writer.isIdle]

theorem getElem?_append_some {α : Type} {l : List α} {x : α} {i : Nat} {a : α} (h : l[i]? = some a) : (l ++ [x])[i]? = some a := by
  rw [List.getElem?_append_left (List.getElem?_eq_some_iff.mp h).1]; exact h

/-- A new table is published. -/
theorem inv_swap {cfg s s'} (h : Inv cfg s) (hidle : s.writer = .idle) {why : Why} {k : Nat}
    (hsets : ∀ id ∈ s.live, s'.sets[id]? = s.sets[id]?) (hsub : ∀ id ∈ s.live, id ∈ s'.live) (hw : s'.writer = .swapped why s.cur k)
    (hrd : s'.readers = s.readers)
    (htbl : (s'.cur = none ∧ s'.tbls = s.tbls ∧ s'.made = s.made ∧ s'.keep = []) ∨ ∃ T, s'.cur = some s.tbls.length ∧
      s'.tbls = s.tbls ++ [some T] ∧ s'.made = s.made ++ [(s'.keep, allChals s'.sets s'.keep)] ∧ TblOk s'.sets T s'.keep (allChals s'.sets s'.keep))
    (halive : ∀ id ∈ s'.live, ∃ c, s'.sets[id]? = some (some c) ∧ CsetOk cfg c) (hnodup : s'.live.Nodup)
    (hsize : (allChals s'.sets s'.live).length < LIMIT) (hhist : ∃ j, Hist cfg s' j) : Inv cfg s' := by
  have htb : ∀ (i : Nat) (a : Option Tbl), s.tbls[i]? = some a → s'.tbls[i]? = some a := by
    intro i a ha
    rcases htbl with ⟨_, e, _⟩ | ⟨T, _, e, _⟩
    · rw [e]; exact ha
    · rw [e]; exact getElem?_append_some ha
  have hmd : ∀ (i : Nat) (a : List Nat × List Chal), s.made[i]? = some a → s'.made[i]? = some a := by
    intro i a ha
    rcases htbl with ⟨_, _, e, _⟩ | ⟨T, _, _, e, _⟩
    · rw [e]; exact ha
    · rw [e]; exact getElem?_append_some ha
  have hgood : ∀ t m, Good s t m → Good s' t m := by
    rintro t m ⟨T, h1, h2, h3, h4, h5⟩
    refine ⟨T, htb _ _ h1, hmd _ _ h2, fun id hid => hsub id (h3 id hid), ?_, h5.congr fun id hid => hsets id (h3 id hid)⟩
    rw [h4]
    exact (allChals_congr fun id hid => hsets id (h3 id hid)).symm
  have hcurlt : ∀ t, s.cur = some t → ∃ m, Good s t m := by
    intro t ht
    rcases h.cur with ⟨h1, _⟩ | ⟨t', m, h1, _, h2⟩
    · rw [h1] at ht; cases ht
    · rw [h1] at ht; obtain rfl := Option.some.inj ht; exact ⟨m, h2⟩
  refine ⟨halive, hnodup, hsize, ?_, ?_, ?_, hhist, ?_⟩
  · rcases htbl with ⟨e1, _, _, e4⟩ | ⟨T, e1, e2, e3, e4⟩
    · exact Or.inl ⟨e1, e4⟩
    · refine Or.inr ⟨_, (s'.keep, allChals s'.sets s'.keep), e1, rfl, T, by rw [e2]; simp, by rw [e3, ← h.made]; simp, ?_, rfl, e4⟩
      intro id hid
      exact List.mem_of_mem_drop hid
  · intro t ht
    rw [hw] at ht
    obtain ⟨m, hm⟩ := hcurlt t ht
    refine ⟨?_, m, hgood t m hm⟩
    obtain ⟨T, h1, _⟩ := hm
    have hlt := (List.getElem?_eq_some_iff.mp h1).1
    rcases htbl with ⟨e1, _⟩ | ⟨T, e1, _⟩
    · rw [e1]; simp
    · rw [e1]
      intro hc
      have := Option.some.inj hc
      omega
  · rcases htbl with ⟨_, e2, e3, _⟩ | ⟨T, _, e2, e3, _⟩
    · rw [e2, e3]; exact h.made
    · rw [e2, e3]; simp [h.made]
  · intro r ph hph
    rw [hrd] at hph
    have := h.readers r ph hph
    cases ph with
    | off => trivial
    | on key => exact this
    | got key acc snap => exact this
    | scan key t i acc snap =>
      obtain ⟨h1, h2, T, m, h3, h4, h5⟩ := this
      refine ⟨h1, Or.inr ?_, T, m, htb _ _ h3, hmd _ _ h4, h5⟩
      rw [hw]
      rcases h2 with h2 | ⟨h2, _⟩
      · exact ⟨h2, trivial⟩
      · rw [hidle] at h2; cases h2

theorem freeSets_ok {h : Heap} : ∀ {l : List Nat}, Alive h l → l.Nodup → ∃ h', freeSets h l = .ok h' ∧ ∀ id, id ∉ l → h'[id]? = h[id]? := by
  intro l
  induction l generalizing h with
  | nil => intro _ _; exact ⟨h, rfl, fun _ _ => rfl⟩
  | cons id l ih =>
    intro ha hn
    obtain ⟨s, hs⟩ := ha id List.mem_cons_self
    rw [List.nodup_cons] at hn
    unfold freeSets
    rw [getSet_ok hs, Outcome.bind_ok]
    obtain ⟨h', h1, h2⟩ := ih (h := h.set id none) (by
      intro x hx
      rw [List.getElem?_set_ne (fun e => hn.1 (by rw [e]; exact hx))]
      exact ha x (List.mem_cons_of_mem _ hx)) hn.2
    refine ⟨h', h1, fun x hx => ?_⟩
    rw [h2 x (fun hc => hx (List.mem_cons_of_mem _ hc)), List.getElem?_set_ne (fun e => hx (by rw [e]; exact List.mem_cons_self))]

theorem freeTbl_ok {s : State} {o : Option Nat} (h : ∀ t, o = some t → ∃ m, Good s t m) :
    ∃ tb, freeTbl s.tbls o = .ok tb ∧ tb.length = s.tbls.length ∧ ∀ t, o ≠ some t → tb[t]? = s.tbls[t]? := by
  cases o with
  | none => exact ⟨_, rfl, rfl, fun _ _ => rfl⟩
  | some t =>
    obtain ⟨m, T, h1, _⟩ := h t rfl
    unfold freeTbl
    dsimp only
    rw [h1]
    refine ⟨_, rfl, by simp, fun t' ht => ?_⟩
    rw [List.getElem?_set_ne (fun e => ht (by rw [e]))]

theorem inv_finish {cfg s} (h : Inv cfg s) {w o k} (hw : s.writer = .wait w o k []) : ∃ s', finish s w o k = .ok (some s') ∧ Inv cfg s' := by
  have hold : ∀ t, o = some t → s.cur ≠ some t ∧ ∃ m, Good s t m := fun t ht => h.old t (by rw [hw]; exact ht)
  have hkeep : s.keep = s.live.drop k := by simp only [State.keep, hw, Writer.k]
  obtain ⟨tb, ht1, ht2, ht3⟩ := freeTbl_ok (s := s) (o := o) (fun t ht => (hold t ht).2)
  have hsplit : s.live.take k ++ s.live.drop k = s.live := List.take_append_drop k s.live
  have hnd := h.nodup
  rw [← hsplit, List.nodup_append] at hnd
  obtain ⟨hs', hf1, hf2⟩ := freeSets_ok (h := s.sets) (l := s.live.take k) (fun id hid => by
    obtain ⟨c, hc, _⟩ := h.alive id (List.mem_of_mem_take hid)
    exact ⟨c, hc⟩) hnd.1
  have hsets : ∀ id ∈ s.live.drop k, hs'[id]? = s.sets[id]? := fun id hid => hf2 id fun hc => hnd.2.2 id hc id hid rfl
  -- what stays, whatever the timer
  have main : ∀ tm : Option Nat, (∀ j, Hist cfg s j → Hist cfg { s with tbls := tb, sets := hs', live := s.live.drop k, writer := .idle, timer := tm } j) →
      Inv cfg { s with tbls := tb, sets := hs', live := s.live.drop k, writer := .idle, timer := tm } := by
    intro tm hhist
    refine ⟨?_, hnd.2.1, ?_, ?_, ?_, by simpa [ht2] using h.made, ?_, ?_⟩
    · intro id hid
      obtain ⟨c, h1, h2⟩ := h.alive id (List.mem_of_mem_drop hid)
      exact ⟨c, by simp only; rw [hsets id hid]; exact h1, h2⟩
    · have h1 := h.size
      simp only
      rw [allChals_congr hsets]
      rw [← hsplit, allChals_append, List.length_append] at h1
      omega
    · rcases h.cur with ⟨h1, h2⟩ | ⟨t, m, h1, h2, T, h3, h4, h5, h6, h7⟩
      · exact Or.inl ⟨h1, by simp only [State.keep, Writer.k, List.drop_zero]; rw [← hkeep]; exact h2⟩
      · have hm : ∀ id ∈ m.1, id ∈ s.live.drop k := by rw [h2, hkeep]; exact fun _ h => h
        refine Or.inr ⟨t, m, h1, by simp only [State.keep, Writer.k, List.drop_zero]; rw [← hkeep]; exact h2, T, ?_, h4, hm, ?_,
          h7.congr fun id hid => hsets id (hm id hid)⟩
        · simp only
          rw [ht3 t fun hc => (hold t hc).1 h1]
          exact h3
        · rw [h6]; exact (allChals_congr fun id hid => hsets id (hm id hid)).symm
    · intro t ht; cases ht
    · obtain ⟨j, hj⟩ := h.hist
      exact ⟨j, hhist j hj⟩
    · intro r ph hph
      have := h.readers r ph hph
      cases ph with
      | off => trivial
      | on key => exact this
      | got key acc snap => exact this
      | scan key t i acc snap =>
        obtain ⟨h1, h2, T, m, h3, h4, h5⟩ := this
        have hcur : s.cur = some t := by
          rcases h2 with h2 | ⟨_, h2⟩
          · exact h2
          · rw [hw] at h2; cases h2
        refine ⟨h1, Or.inl hcur, T, m, ?_, h4, h5⟩
        simp only
        rw [ht3 t fun hc => (hold t hc).1 hcur]
        exact h3
  have hsame : ∀ j, Hist cfg s j → (s.live.drop k).map (hs'[·]?) = (s.log.drop j).map fun e => some (some e.2) := by
    intro j hj
    rw [← hj.same, hkeep]
    exact List.map_congr_left hsets
  have base : ∀ (tm : Option Nat) j, Hist cfg s j → (s.live.drop k = [] → tm = none) →
      (∀ e rest, s.log.drop j = e :: rest → ∃ t, tm = some t ∧ t ≤ e.1 + 1000 * cfg.ttl) →
      Hist cfg { s with tbls := tb, sets := hs', live := s.live.drop k, writer := .idle, timer := tm } j := by
    intro tm j hj h1 h2
    refine ⟨hj.le, by simpa only [State.keep, Writer.k, List.drop_zero] using hsame j hj, hj.gone, hj.sorted, hj.times, fun hc => (by cases hc), fun hc => (by cases hc), fun _ => ⟨rfl, h1, h2⟩⟩
  unfold finish
  rw [ht1, Outcome.bind_ok, hf1, Outcome.bind_ok]
  dsimp only
  cases w with
  | add =>
    refine ⟨_, rfl, main s.timer fun j hj => ?_⟩
    obtain ⟨hk, h1, h2⟩ := hj.timer (Or.inr (by rw [hw]; rfl))
    rw [hw] at hk
    have hk : k = 0 := hk
    refine base _ j hj (by rw [hk, List.drop_zero]; exact h1) h2
  | flush =>
    refine ⟨_, rfl, main none fun j hj => base _ j hj (fun _ => rfl) ?_⟩
    intro e rest he
    have h1 := hj.same
    rw [hj.flush (by rw [hw]; rfl), he] at h1
    cases h1
  | expire =>
    cases hl : s.live.drop k with
    | nil =>
      dsimp only
      refine ⟨_, rfl, ?_⟩
      rw [← hl]
      refine main none fun j hj => base _ j hj (fun _ => rfl) ?_
      intro e rest he
      have h1 := hj.same
      rw [hkeep, hl, he] at h1
      cases h1
    | cons id rest =>
      dsimp only
      have hid : id ∈ s.live.drop k := by rw [hl]; exact List.mem_cons_self
      obtain ⟨c, hc, _⟩ := h.alive id (List.mem_of_mem_drop hid)
      rw [getSet_ok (s := c) (by rw [hsets id hid]; exact hc), Outcome.bind_ok]
      refine ⟨_, rfl, ?_⟩
      rw [← hl]
      refine main _ fun j hj => base _ j hj (fun hc => by rw [hl] at hc; cases hc) ?_
      intro e rest' he
      refine ⟨_, rfl, ?_⟩
      have h1 := hj.same
      rw [hkeep, hl, he] at h1
      simp only [List.map_cons, List.cons.injEq] at h1
      rw [hc] at h1
      have hce : c = e.2 := Option.some.inj (Option.some.inj h1.1)
      have h2 := hj.expire (by rw [hw]; rfl) e rest' he
      have h3 := (hj.times e (List.mem_of_mem_drop (i := j) (by rw [he]; exact List.mem_cons_self))).2
      rw [hce]
      unfold FUDGE at h2
      omega

theorem expired_ok {h : Heap} {cutoff : Nat} : ∀ {l : List Nat}, Alive h l → ∃ k, expired h cutoff l = .ok k ∧ k ≤ l.length ∧
    (∀ id ∈ l.take k, ∀ c, h[id]? = some (some c) → c.expiry ≤ cutoff) ∧
    ∀ id rest c, l.drop k = id :: rest → h[id]? = some (some c) → cutoff < c.expiry := by
  intro l
  induction l with
  | nil => intro _; exact ⟨0, rfl, by simp, by simp, by simp⟩
  | cons id l ih =>
    intro ha
    obtain ⟨s, hs⟩ := ha id List.mem_cons_self
    unfold expired
    rw [getSet_ok hs, Outcome.bind_ok]
    by_cases he : s.expiry ≤ cutoff
    · rw [if_pos he]
      obtain ⟨k, h1, h2, h3, h4⟩ := ih fun x hx => ha x (List.mem_cons_of_mem _ hx)
      rw [h1]
      refine ⟨k + 1, rfl, by simp; omega, ?_, by simpa using h4⟩
      intro x hx c hc
      rw [List.take_succ_cons] at hx
      rcases List.mem_cons.mp hx with rfl | hx
      · rw [hs] at hc; obtain rfl := Option.some.inj (Option.some.inj hc); exact he
      · exact h3 x hx c hc
    · rw [if_neg he]
      refine ⟨0, rfl, by simp, by simp, ?_⟩
      intro x rest c hx hc
      simp only [List.drop_zero, List.cons.injEq] at hx
      rw [← hx.1, hs] at hc
      obtain rfl := Option.some.inj (Option.some.inj hc)
      omega

theorem alive_of {cfg s} (h : Inv cfg s) : Alive s.sets s.live := fun id hid => by
  obtain ⟨c, hc, _⟩ := h.alive id hid
  exact ⟨c, hc⟩

theorem allChals_nil {cfg s} (h : Inv cfg s) {ids : List Nat} (hsub : ∀ id ∈ ids, id ∈ s.live) (hn : allChals s.sets ids = []) : ids = [] := by
  cases ids with
  | nil => rfl
  | cons id l =>
    obtain ⟨c, hc, hne, _⟩ := h.alive id (hsub id List.mem_cons_self)
    rw [allChals_cons hc] at hn
    exact absurd (List.append_eq_nil_iff.mp hn).1 hne

theorem keep_idle {s : State} (h : s.writer = .idle) : s.keep = s.live := by simp [State.keep, h, Writer.k]

/-- The timer fires. -/
theorem inv_fire {cfg s} (h : Inv cfg s) (hidle : s.writer = .idle) : ∃ s', ((expired s.sets (s.now + FUDGE) s.live).bind fun k =>
        (tblCreate s.sets (s.live.drop k) none).bind fun t =>
          .ok (some (({ s with timer := none } : State).swap .expire t k (s.live.drop k, allChals s.sets (s.live.drop k))))) = .ok (some s') ∧ Inv cfg s' := by
  obtain ⟨k, hk1, hk2, hk3, hk4⟩ := expired_ok (cutoff := s.now + FUDGE) (alive_of h)
  have hsub : ∀ id ∈ s.live.drop k, id ∈ s.live := fun id hid => List.mem_of_mem_drop hid
  have hsz : (allChals s.sets (s.live.drop k)).length < LIMIT := by
    have := h.size
    rw [← List.take_append_drop k s.live, allChals_append, List.length_append] at this
    omega
  rw [hk1, Outcome.bind_ok]
  -- the history
  have hhist : ∀ s' : State, s'.keep = s.live.drop k → s'.sets = s.sets → s'.log = s.log → s'.now = s.now → s'.writer.why = some .expire → ∃ j, Hist cfg s' j := by
    intro s' e1 e2 e3 e4 e5
    obtain ⟨j, hj⟩ := h.hist
    have hsame := hj.same
    rw [keep_idle hidle] at hsame
    have hd : (s.live.drop k).map (s.sets[·]?) = (s.log.drop (j + k)).map fun e => some (some e.2) := by
      rw [List.map_drop, hsame, ← List.map_drop, List.drop_drop]
    have ht : (s.live.take k).map (s.sets[·]?) = ((s.log.drop j).take k).map fun e => some (some e.2) := by
      rw [List.map_take, hsame, ← List.map_take]
    have hlen := congrArg List.length hsame
    simp only [List.length_map, List.length_drop] at hlen
    have hle := hj.le
    refine ⟨j + k, by rw [e3]; omega, ?_, ?_, by rw [e3]; exact hj.sorted, by rw [e3, e4]; exact hj.times, ?_, ?_, ?_⟩
    · rw [e1, e2, e3]; exact hd
    · rw [e3, e4]
      intro e he
      rw [List.take_add] at he
      rcases List.mem_append.mp he with he | he
      · exact hj.gone e he
      · have : some (some e.2) ∈ (s.live.take k).map (s.sets[·]?) := by
          rw [ht]; exact List.mem_map.mpr ⟨e, he, rfl⟩
        obtain ⟨id, hid, hc⟩ := List.mem_map.mp this
        exact hk3 id hid e.2 hc
    · intro _ e rest he
      rw [e3] at he
      rw [e4]
      rw [he] at hd
      cases hl : s.live.drop k with
      | nil => rw [hl] at hd; cases hd
      | cons id rest' =>
        rw [hl] at hd
        simp only [List.map_cons, List.cons.injEq] at hd
        exact hk4 id rest' e.2 hl hd.1
    · intro hc; rw [e5] at hc; cases hc
    · intro hc; rw [e5] at hc; rcases hc with hc | hc <;> cases hc
  rcases create_none (h := s.sets) (ids := s.live.drop k) (fun id hid => alive_of h id (hsub id hid)) hsz with ⟨h1, h2⟩ | ⟨t, h1, h2⟩
  · rw [h2, Outcome.bind_ok]
    have hnil := allChals_nil h hsub h1
    refine ⟨_, rfl, inv_swap h hidle (why := .expire) (k := k) (fun _ _ => rfl) (fun _ h => h) rfl rfl (Or.inl ⟨rfl, rfl, rfl, hnil⟩) h.alive h.nodup h.size
      (hhist _ rfl rfl rfl rfl rfl)⟩
  · rw [h1, Outcome.bind_ok]
    exact ⟨_, rfl, inv_swap h hidle (why := .expire) (k := k) (fun _ _ => rfl) (fun _ h => h) rfl rfl (Or.inr ⟨t, rfl, rfl, rfl, h2⟩) h.alive h.nodup h.size
      (hhist _ rfl rfl rfl rfl rfl)⟩

/-- Everything is flushed. -/
theorem inv_flush {cfg s} (h : Inv cfg s) (hidle : s.writer = .idle) :
    Inv cfg (({ s with log := [] } : State).swap .flush none s.live.length ([], [])) := by
  have hnil : s.live.drop s.live.length = [] := List.drop_length
  refine inv_swap h hidle (why := .flush) (k := s.live.length) (fun _ _ => rfl) (fun _ h => h) rfl rfl (Or.inl ⟨rfl, rfl, rfl, hnil⟩) h.alive h.nodup h.size ?_
  refine ⟨0, Nat.zero_le _, ?_, (fun e he => by cases he), List.Pairwise.nil, (fun e he => by cases he), (fun hc => by cases hc), fun _ => hnil, ?_⟩
  · show (s.live.drop s.live.length).map _ = _
    rw [hnil]; rfl
  · intro hc; rcases hc with hc | hc <;> cases hc

/-- Challenges are added or refused. -/
theorem inv_create {cfg s} (h : Inv cfg s) (hidle : s.writer = .idle) {ttlRemain count : Nat} {data : Bytes}
    (hfit : (allChals s.sets s.live).length + count < LIMIT) :
    create cfg s ttlRemain count data.length data = .ok none ∨ ∃ s', create cfg s ttlRemain count data.length data = .ok (some s') ∧ Inv cfg s' := by
  unfold create
  split
  · exact Or.inl rfl
  next hz =>
  rcases parse_total cfg data count 0 (by omega) with hp | ⟨is, rest, g1, g2, g3, g4⟩
  · left; rw [hp]; rfl
  rw [g4, Outcome.bind_ok]
  dsimp only
  by_cases hd : 0 + (is.flatMap Item.wire).length ≠ data.length
  · rw [if_pos hd]; exact Or.inl rfl
  rw [if_neg hd]
  have hne : is ≠ [] := by
    rintro rfl
    simp at g1
    omega
  let c : Cset := ⟨is.map (Item.chal cfg), s.now + 1000 * lifetime cfg ttlRemain⟩
  show ((tblCreate s.sets s.live (some (s.sets.length, c))).bind _ = _) ∨ ∃ s', (tblCreate s.sets s.live (some (s.sets.length, c))).bind _ = _ ∧ _
  have hlen : c.chals.length = count := by simp [c, g1]
  have hcne : c.chals ≠ [] := by simpa [c] using hne
  rcases create_some (h := s.sets) (ids := s.live) (s := c) (alive_of h) hcne (by omega) with ⟨h1, _⟩ | ⟨t, h1, h2⟩
  · left; rw [h1]; rfl
  right
  rw [h1, Outcome.bind_ok]
  dsimp only
  have hcok : CsetOk cfg c := ⟨hcne, by rw [hlen]; omega, is, g2, rfl, by omega⟩
  have hsets : ∀ id ∈ s.live, (s.sets ++ [some c])[id]? = s.sets[id]? := by
    intro id hid
    obtain ⟨x, hx⟩ := alive_of h id hid
    rw [hx]; exact getElem?_append_some hx
  have hnew : (s.sets ++ [some c])[s.sets.length]? = some (some c) := by simp
  have hall : allChals (s.sets ++ [some c]) (s.live ++ [s.sets.length]) = allChals s.sets s.live ++ c.chals := by
    rw [allChals_append, allChals_congr hsets, allChals_cons hnew]
    simp [allChals]
  refine ⟨_, rfl, inv_swap h hidle (why := .add) (k := 0) hsets (fun id hid => List.mem_append_left _ hid) rfl rfl (Or.inr ⟨t, rfl, rfl, rfl, ?_⟩) ?_ ?_ ?_ ?_⟩
  · show TblOk (s.sets ++ [some c]) t (s.live ++ [s.sets.length]) (allChals (s.sets ++ [some c]) (s.live ++ [s.sets.length]))
    rw [hall]; exact h2
  · intro id hid
    rcases List.mem_append.mp hid with hid | hid
    · obtain ⟨x, h3, h4⟩ := h.alive id hid
      exact ⟨x, by rw [← h3]; exact hsets id hid, h4⟩
    · rw [List.mem_singleton.mp hid]; exact ⟨c, hnew, hcok⟩
  · show (s.live ++ [s.sets.length]).Nodup
    rw [List.nodup_append]
    refine ⟨h.nodup, by simp, ?_⟩
    intro a ha b hb
    rw [List.mem_singleton.mp hb]
    obtain ⟨x, hx⟩ := alive_of h a ha
    have := (List.getElem?_eq_some_iff.mp hx).1
    omega
  · show (allChals (s.sets ++ [some c]) (s.live ++ [s.sets.length])).length < LIMIT
    rw [hall, List.length_append, hlen]; exact hfit
  · obtain ⟨j, hj⟩ := h.hist
    have hsame := hj.same
    rw [keep_idle hidle] at hsame
    -- nothing of the log is beyond its end
    obtain ⟨_, htn, htm⟩ := hj.timer (Or.inl (by rw [hidle]; rfl))
    have hlt : lifetime cfg ttlRemain ≤ cfg.ttl := by unfold lifetime; split <;> omega
    have hjl := hj.le
    · have hdrop : (s.log ++ [(s.now, c)]).drop j = s.log.drop j ++ [(s.now, c)] := List.drop_append_of_le_length hjl
      have htake : (s.log ++ [(s.now, c)]).take j = s.log.take j := List.take_append_of_le_length hjl
      refine ⟨j, by show j ≤ (s.log ++ [(s.now, c)]).length; simp; omega, ?_, ?_, ?_, ?_, (fun hc => by cases hc), (fun hc => by cases hc), fun _ => ⟨rfl, ?_, ?_⟩⟩
      · show (s.live ++ [s.sets.length]).map ((s.sets ++ [some c])[·]?) = ((s.log ++ [(s.now, c)]).drop j).map _
        rw [hdrop, List.map_append, List.map_append, ← hsame, List.map_congr_left hsets]
        simp
      · show ∀ e ∈ (s.log ++ [(s.now, c)]).take j, _
        rw [htake]; exact hj.gone
      · show (s.log ++ [(s.now, c)]).Pairwise _
        rw [List.pairwise_append]
        refine ⟨hj.sorted, by simp, ?_⟩
        intro a ha b hb
        rw [List.mem_singleton.mp hb]
        exact (hj.times a ha).1
      · intro e he
        rcases List.mem_append.mp he with he | he
        · exact hj.times e he
        · rw [List.mem_singleton.mp he]
          refine ⟨Nat.le_refl _, ?_⟩
          show s.now + 1000 * lifetime cfg ttlRemain ≤ s.now + 1000 * cfg.ttl
          omega
      · intro hc
        exact absurd hc (by show ¬ (s.live ++ [s.sets.length] = []); simp)
      · intro e rest' he
        have he : (s.log ++ [(s.now, c)]).drop j = e :: rest' := he
        rw [hdrop] at he
        show ∃ t, (if s.live = [] then some (s.now + 1000 * cfg.ttl) else s.timer) = some t ∧ _
        cases hl : s.log.drop j with
        | nil =>
          have hlive : s.live = [] := by
            rw [hl] at hsame
            exact List.map_eq_nil_iff.mp hsame
          rw [hl] at he
          simp only [List.nil_append, List.cons.injEq] at he
          rw [if_pos hlive]
          exact ⟨_, rfl, by rw [← he.1]; exact Nat.le_refl _⟩
        | cons e0 r0 =>
          have hlive : s.live ≠ [] := by
            intro hc
            rw [hc, hl] at hsame
            cases hsame
          rw [if_neg hlive]
          rw [hl] at he
          simp only [List.cons_append, List.cons.injEq] at he
          rw [← he.1]
          exact htm e0 r0 hl

theorem chals_hash {cfg s} (h : Inv cfg s) {ids : List Nat} (hsub : ∀ id ∈ ids, id ∈ s.live) : ∀ c ∈ allChals s.sets ids,
    c.hash = dnameHash cfg c.name ∧ Stored c.name .valid := by
  intro c hc
  obtain ⟨id, hid, hc⟩ := List.mem_flatMap.mp hc
  obtain ⟨x, hx, _, _, is, h1, h2, _⟩ := h.alive id (hsub id hid)
  rw [hx] at hc
  simp only [Option.join_some, Option.elim_some] at hc
  rw [h2] at hc
  obtain ⟨i, hi, rfl⟩ := List.mem_map.mp hc
  exact ⟨rfl, full_stored (h1 i hi)⟩

theorem answers_slot {cfg : Cfg} {content : List Chal} (h : ∀ c ∈ content, c.hash = dnameHash cfg c.name) (key : Bytes) (mask : Nat) :
    answers key (inSlot mask (dnameHash cfg key &&& mask) content) = answers key content := by
  unfold answers inSlot
  rw [List.filter_filter]
  congr 1
  refine List.filter_congr fun c hc => ?_
  by_cases he : c.name = key
  · rw [h c hc, he]; simp
  · simp [he]

/-- One entry is looked at. -/
theorem look_ok {cfg s} (h : Inv cfg s) {r : Nat} {key : Bytes} {t i : Nat} {acc : List Bytes} {snap : Snap}
    (hr : ReaderOk cfg s r (.scan key t i acc snap)) : ∃ ph, look cfg s key t i acc snap = .ok ph ∧ ReaderOk cfg s r ph := by
  obtain ⟨hkey, hsees, T, m, hT, hm, hforce, hacc⟩ := hr
  have hgood : ∃ m', Good s t m' := by
    rcases hsees with hc | ⟨hc, _⟩
    · rcases h.cur with ⟨h1, _⟩ | ⟨t', m', h1, _, h2⟩
      · rw [h1] at hc; cases hc
      · rw [h1] at hc; obtain rfl := Option.some.inj hc; exact ⟨m', h2⟩
    · exact (h.old t hc).2
  obtain ⟨m', T', hT', hm', hsub, hcont, htbl⟩ := hgood
  rw [hT] at hT'
  obtain rfl := Option.some.inj (Option.some.inj hT')
  rw [hm] at hm'
  obtain rfl := Option.some.inj hm'
  have hle : dnameHash cfg key &&& T.mask ≤ T.mask := Nat.and_le_right
  have hlt : dnameHash cfg key &&& T.mask < T.slots.length := by rw [htbl.1]; omega
  obtain ⟨hslot, hids⟩ := htbl.2 _ _ (List.getElem?_eq_getElem hlt)
  unfold look
  rw [hT]
  dsimp only
  rw [List.getElem?_eq_getElem hlt]
  dsimp only
  generalize T.slots[dnameHash cfg key &&& T.mask] = slot at hslot hids ⊢
  have hlen := congrArg List.length hslot
  simp only [List.length_map] at hlen
  have hch : ∀ c ∈ m.2, c.hash = dnameHash cfg c.name ∧ Stored c.name .valid := by rw [hcont]; exact chals_hash h hsub
  cases hi : slot[i]? with
  | none =>
    have : slot.length ≤ i := List.getElem?_eq_none_iff.mp hi
    refine ⟨_, rfl, m.2, hforce, ?_⟩
    rw [hacc, List.take_of_length_le (by omega)]
    exact answers_slot (fun c hc => (hch c hc).1) key T.mask
  | some rf =>
    dsimp only
    have hil := (List.getElem?_eq_some_iff.mp hi).1
    have hderef : ∃ c, deref s.sets rf = some c ∧ (inSlot T.mask (dnameHash cfg key &&& T.mask) m.2)[i]? = some c := by
      have h1 : (slot.map (deref s.sets))[i]? = some (deref s.sets rf) := by rw [List.getElem?_map, hi]; rfl
      rw [hslot, List.getElem?_map] at h1
      cases hc : (inSlot T.mask (dnameHash cfg key &&& T.mask) m.2)[i]? with
      | none => rw [hc] at h1; cases h1
      | some c => rw [hc] at h1; exact ⟨c, (Option.some.inj h1).symm, rfl⟩
    obtain ⟨c, hc1, hc2⟩ := hderef
    obtain ⟨x, hx⟩ := alive_of h rf.1 (hsub _ (hids rf (List.mem_of_getElem? hi)))
    have hget : getChal s.sets rf = .ok c := by
      unfold getChal
      rw [getSet_ok hx, Outcome.bind_ok]
      have : x.chals[rf.2]? = some c := by rw [← deref_eq hx]; exact hc1
      rw [this]
    have hcm : c ∈ m.2 := (List.mem_filter.mp (List.mem_of_getElem? hc2)).1
    obtain ⟨hh, hst⟩ := hch c hcm
    rw [hget, Outcome.bind_ok]
    obtain ⟨v, hv1, hv2⟩ := cmp_stored hkey hst (by simp) (by simp)
    have hm' : (if c.hash = dnameHash cfg key then (Dname.cmp key c.name).map (· == 0) else .ok false) = .ok (c.name == key) := by
      by_cases hhk : c.hash = dnameHash cfg key
      · rw [if_pos hhk, hv1, Outcome.map_ok]
        congr 1
        by_cases he : key = c.name
        · rw [hv2.mpr he]; simp [he]
        · have : v ≠ 0 := fun hc => he (hv2.mp hc)
          rw [beq_false_of_ne this, beq_false_of_ne (Ne.symm he)]
      · rw [if_neg hhk]
        congr 1
        have : c.name ≠ key := fun hc => hhk (by rw [hh, hc])
        rw [beq_false_of_ne this]
    rw [hm', Outcome.map_ok]
    refine ⟨_, rfl, hkey, hsees, T, m, hT, hm, hforce, ?_⟩
    rw [List.take_add_one, hc2]
    unfold answers at hacc ⊢
    rw [List.filter_append, List.map_append, ← hacc]
    cases hb : c.name == key <;> simp [hb]

/-- Every step is safe and keeps the invariant. -/
theorem step_ok {cfg s} (h : Inv cfg s) (a : Action) (ha : a.Wf s) : step cfg s a = .ok none ∨ ∃ s', step cfg s a = .ok (some s') ∧ Inv cfg s' := by
  cases a with
  | create ttlRemain count dlen data =>
    unfold step
    dsimp only
    obtain ⟨rfl, hfit⟩ := ha
    by_cases hi : s.writer.isIdle = true
    · rw [if_pos hi]; exact inv_create h (idle_iff.mp hi) hfit
    · rw [if_neg hi]; exact Or.inl rfl
  | fire =>
    unfold step
    dsimp only
    by_cases hi : s.writer.isIdle = true ∧ s.timer.any (· ≤ s.now) = true
    · rw [if_pos hi]; exact Or.inr (inv_fire h (idle_iff.mp hi.1))
    · rw [if_neg hi]; exact Or.inl rfl
  | flush =>
    unfold step
    dsimp only
    by_cases hi : s.writer.isIdle = true
    · rw [if_pos hi]; exact Or.inr ⟨_, rfl, inv_flush h (idle_iff.mp hi)⟩
    · rw [if_neg hi]; exact Or.inl rfl
  | sync =>
    unfold step
    dsimp only
    cases hw : s.writer with
    | idle => exact Or.inl rfl
    | wait w o k ws => exact Or.inl rfl
    | swapped w o k =>
      refine Or.inr ⟨_, rfl, ?_⟩
      refine inv_wait h (w := .wait w o k (online s.readers)) (rs := s.readers) (by rw [hw]; rfl) (by rw [hw]; rfl) (by rw [hw]; rfl) ?_
      intro r ph hph hne
      exact ⟨hph, fun _ => online_mem hph hne⟩
  | finish =>
    unfold step
    dsimp only
    cases hw : s.writer with
    | idle => exact Or.inl rfl
    | swapped w o k => exact Or.inl rfl
    | wait w o k ws =>
      cases ws with
      | nil => exact Or.inr (inv_finish h hw)
      | cons _ _ => exact Or.inl rfl
  | advance ms =>
    unfold step
    dsimp only
    by_cases hi : s.writer.isIdle = true
    · rw [if_pos hi]
      refine Or.inr ⟨_, rfl, h.alive, h.nodup, h.size, h.cur, h.old, h.made, ?_, h.readers⟩
      obtain ⟨j, hj⟩ := h.hist
      have hidle := idle_iff.mp hi
      refine ⟨j, hj.le, hj.same, ?_, hj.sorted, ?_, ?_, hj.flush, hj.timer⟩
      · intro e he
        have := hj.gone e he
        show e.2.expiry ≤ s.now + ms + FUDGE
        omega
      · intro e he
        have := hj.times e he
        show e.1 ≤ s.now + ms ∧ _
        exact ⟨by omega, this.2⟩
      · intro hc
        simp only [hidle, Writer.why] at hc
        cases hc
    · rw [if_neg hi]; exact Or.inl rfl
  | enter r key =>
    unfold step
    dsimp only
    cases hr : s.readers[r]? with
    | none => exact Or.inl rfl
    | some ph =>
      cases ph with
      | off => exact Or.inr ⟨_, rfl, inv_reader h ha⟩
      | got _ _ _ => exact Or.inr ⟨_, rfl, inv_reader h ha⟩
      | on _ => exact Or.inl rfl
      | scan _ _ _ _ _ => exact Or.inl rfl
  | load r =>
    unfold step
    dsimp only
    cases hr : s.readers[r]? with
    | none => exact Or.inl rfl
    | some ph =>
      cases ph with
      | off => exact Or.inl rfl
      | got _ _ _ => exact Or.inl rfl
      | scan _ _ _ _ _ => exact Or.inl rfl
      | on key =>
        have hk : KeyOk key := h.readers r _ hr
        have hf := inForce h
        dsimp only
        rcases h.cur with ⟨h1, h2⟩ | ⟨t, m, h1, h2, T, h3, h4, h5, h6, h7⟩
        · rw [h1]
          refine Or.inr ⟨_, rfl, inv_reader h ⟨[], ?_, rfl⟩⟩
          rw [h2] at hf
          exact hf
        · rw [h1]
          refine Or.inr ⟨_, rfl, inv_reader h ⟨hk, Or.inl h1, T, m, h3, h4, ?_, by simp [answers]⟩⟩
          rw [h6, h2]; exact hf
  | look r =>
    unfold step
    dsimp only
    cases hr : s.readers[r]? with
    | none => exact Or.inl rfl
    | some ph =>
      cases ph with
      | off => exact Or.inl rfl
      | on _ => exact Or.inl rfl
      | got _ _ _ => exact Or.inl rfl
      | scan key t i acc snap =>
        obtain ⟨ph, h1, h2⟩ := look_ok h (h.readers r _ hr)
        dsimp only
        rw [h1, Outcome.map_ok]
        exact Or.inr ⟨_, rfl, inv_reader h h2⟩
  | leave r =>
    unfold step
    dsimp only
    cases hr : s.readers[r]? with
    | none => exact Or.inl rfl
    | some ph =>
      refine Or.inr ⟨_, rfl, ?_⟩
      refine inv_wait h (w := s.writer.quiesce r) (rs := s.readers.set r .off) (by cases s.writer <;> rfl) (by cases s.writer <;> rfl)
        (by cases s.writer <;> rfl) ?_
      intro r' ph' hph' hne
      by_cases he : r = r'
      · subst he
        rw [List.getElem?_set] at hph'
        simp only [if_true] at hph'
        split at hph'
        · exact absurd (Option.some.inj hph').symm hne
        · cases hph'
      · rw [List.getElem?_set_ne he] at hph'
        refine ⟨hph', ?_⟩
        cases s.writer with
        | idle => exact fun h => h
        | swapped _ _ _ => exact fun h => h
        | wait _ _ _ ws => exact fun hm => List.mem_filter.mpr ⟨hm, by simpa using Ne.symm he⟩

theorem init_ok (cfg : Cfg) (n now : Nat) : Inv cfg (init n now) := by
  refine ⟨(fun id hid => by cases hid), List.nodup_nil, (by simp [init, allChals, LIMIT]), Or.inl ⟨rfl, rfl⟩, (fun t ht => by cases ht), rfl, ⟨0, Nat.le_refl _, rfl,
    (fun e he => by cases he), List.Pairwise.nil, (fun e he => by cases he), (fun hc => by cases hc), (fun hc => by cases hc),
    fun _ => ⟨rfl, fun _ => rfl, fun e rest he => by cases he⟩⟩, ?_⟩
  intro r ph hph
  have hph : (List.replicate n Phase.off)[r]? = some ph := hph
  rw [List.getElem?_replicate] at hph
  split at hph
  · obtain rfl := Option.some.inj hph; trivial
  · cases hph

theorem reach_inv {cfg s0 s} (h0 : Inv cfg s0) (hr : Reach cfg s0 s) : Inv cfg s := by
  induction hr with
  | refl => exact h0
  | step _ ha hs ih =>
    rcases step_ok ih _ ha with h1 | ⟨s', h1, h2⟩
    · rw [hs] at h1; cases h1
    · rw [hs] at h1; cases h1; exact h2

end Gdnsd.Chal
