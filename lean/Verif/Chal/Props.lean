/-
Properties of ACME challenges: C37 and C38.
-/
import Verif.Chal.HandLemmas
namespace Gdnsd.Chal

/-- C37, no undefined behaviour: in every interleaving of additions, expiry, flushes and
lookups on any number of threads no freed table or set is used, nothing is freed
twice, and nothing is accessed outside its bounds, whatever data clients send and
whatever the hash function does. -/
theorem C37_safe {cfg : Cfg} {n now : Nat} {s : State} (hr : Reach cfg (init n now) s) (a : Action) (ha : a.Wf s) : step cfg s a ≠ .ub := by
  rcases step_ok (reach_inv (init_ok cfg n now) hr) a ha with h | ⟨s', h, _⟩ <;> rw [h] <;> simp

/-- C37, partial: what a lookup on any thread answers for a name is exactly the
challenges for that name, in the order of their addition, of all sets accepted since the
last flush up to the moment of the lookup, except for some of the oldest sets, which have
expired or do so within 3.2 seconds. Unless the timer is overdue at that moment no set
answered is older than the configured time.

Missing: a set that was handed over from another daemon can be answered longer than its
remaining lifetime (`C37_false_import`), and sets can vanish up to 3.2 seconds early. -/
theorem C37_answers_partial {cfg : Cfg} {n now : Nat} {s : State} (hr : Reach cfg (init n now) s) {r : Nat} {key : Bytes} {acc : List Bytes} {snap : Snap}
    (hg : s.readers[r]? = some (.got key acc snap)) : ∃ content, InForce cfg snap content ∧ acc = answers key content :=
  (reach_inv (init_ok cfg n now) hr).readers r _ hg

/-- C37, partial, for sets from clients, which live for the configured time: if the
timer is not overdue, every set that is left out expires within 3.2 seconds and no set
that is answered has expired. -/
theorem C37_client_sets_partial {cfg : Cfg} {n now : Nat} {s : State} (hr : Reach cfg (init n now) s) {r : Nat} {key : Bytes} {acc : List Bytes} {snap : Snap}
    (hg : s.readers[r]? = some (.got key acc snap)) (hdue : snap.due = false) (hcl : ∀ e ∈ snap.log, e.2.expiry = e.1 + 1000 * cfg.ttl) :
    ∃ gone kept, snap.log = gone ++ kept ∧ (∀ e ∈ gone, e.2.expiry ≤ snap.now + 3200) ∧ (∀ e ∈ kept, snap.now < e.2.expiry) ∧
      acc = answers key (kept.flatMap fun e => e.2.chals) := by
  obtain ⟨content, ⟨j, h1, h2, h3⟩, h4⟩ := C37_answers_partial hr hg
  refine ⟨snap.log.take j, snap.log.drop j, (List.take_append_drop _ _).symm, h2, ?_, by rw [h4, h1]⟩
  intro e he
  rw [hcl e (List.mem_of_mem_drop he)]
  exact h3 hdue e he

/-- C37, what is accepted: the data must be exactly as many legal challenges as
announced, at most 100 in at most 28400 bytes; each gets its name, completed to a fully
qualified one, a TXT record with its text, and the set its lifetime. -/
theorem C37_accepted {cfg : Cfg} {n now : Nat} {s s' : State} (hr : Reach cfg (init n now) s) {rem count dlen : Nat} {data : Bytes}
    (hw : Action.Wf s (.create rem count dlen data)) (hs : step cfg s (.create rem count dlen data) = .ok (some s')) :
    ∃ is : List Item, (∀ i ∈ is, i.Ok) ∧ data = is.flatMap Item.wire ∧ is.length = count ∧ 1 ≤ count ∧ count ≤ 100 ∧ dlen ≤ 28400 ∧
      s'.log = s.log ++ [(s.now, ⟨is.map fun i => ⟨dnameHash cfg i.full, i.full, mkRR cfg i.payload⟩, s.now + 1000 * lifetime cfg rem⟩)] := by
  have h := reach_inv (init_ok cfg n now) hr
  obtain ⟨rfl, hfit⟩ := hw
  unfold step at hs
  dsimp only at hs
  split at hs
  · unfold create at hs
    split at hs
    · cases hs
    next hz =>
    rcases parse_total cfg data count 0 (by omega) with hp | ⟨is, rest, g1, g2, g3, g4⟩
    · rw [hp] at hs; cases hs
    rw [g4, Outcome.bind_ok] at hs
    dsimp only at hs
    split at hs
    · cases hs
    next hd =>
    have hrest : rest = [] := by
      have := congrArg List.length g3
      simp only [List.drop_zero, List.length_append] at this
      exact List.eq_nil_of_length_eq_zero (by omega)
    rw [hrest] at g3
    refine ⟨is, g2, by simpa using g3, g1, by unfold MAX_COUNT at hz; omega, by unfold MAX_COUNT at hz; omega, by unfold MAX_DLEN at hz; omega, ?_⟩
    have hne : is ≠ [] := by
      rintro rfl
      simp at g1
      omega
    rcases create_some (h := s.sets) (ids := s.live) (s := ⟨is.map (Item.chal cfg), s.now + 1000 * lifetime cfg rem⟩) (alive_of h) (by simpa using hne)
      (by simp [g1]; exact hfit) with ⟨h1, _⟩ | ⟨t, h1, _⟩
    · rw [h1] at hs; cases hs
    · rw [h1] at hs; cases hs; rfl
  · cases hs

/-- C37: legal challenges are accepted, at least as long as there are at most 201. -/
theorem C37_accepts {cfg : Cfg} {n now : Nat} {s : State} (hr : Reach cfg (init n now) s) (hidle : s.writer = .idle) {is : List Item} (hok : ∀ i ∈ is, i.Ok)
    (h1 : 1 ≤ is.length) (h2 : is.length ≤ 100) (h3 : (is.flatMap Item.wire).length ≤ 28400) (rem : Nat)
    (h4 : (s.log.flatMap fun e => e.2.chals).length + is.length ≤ 201) :
    ∃ s', step cfg s (.create rem is.length (is.flatMap Item.wire).length (is.flatMap Item.wire)) = .ok (some s') := by
  have h := reach_inv (init_ok cfg n now) hr
  have hne : is ≠ [] := by rintro rfl; simp at h1
  have hle := live_le h hidle
  unfold step
  dsimp only
  rw [hidle, if_pos (by rfl), create_eq hok hne h2 h3 rem]
  rcases create_some (h := s.sets) (ids := s.live) (s := ⟨is.map (Item.chal cfg), s.now + 1000 * lifetime cfg rem⟩) (alive_of h) (by simpa using hne)
    (by unfold LIMIT; simp; omega) with ⟨_, g2⟩ | ⟨t, g1, _⟩
  · unfold COLLIDE_MAX at g2
    simp at g2
    omega
  · rw [g1]; exact ⟨_, rfl⟩

/-! ### Runs -/

/-- Several steps. -/
def run (cfg : Cfg) (s : State) : List Action → Outcome (Option State)
  | [] => .ok (some s)
  | a :: as => (step cfg s a).bind fun | none => .ok none | some s => run cfg s as

/-- All actions are well-formed when they happen. -/
def RunWf (cfg : Cfg) (s : State) : List Action → Prop
  | [] => True
  | a :: as => a.Wf s ∧ match step cfg s a with | .ok (some s) => RunWf cfg s as | _ => True

theorem run_reach {cfg : Cfg} {s0 : State} : ∀ {as : List Action} {s s' : State}, Reach cfg s0 s → RunWf cfg s as → run cfg s as = .ok (some s') → Reach cfg s0 s' := by
  intro as
  induction as with
  | nil => intro s s' h0 _ h; obtain rfl := Option.some.inj (Outcome.ok.inj h); exact h0
  | cons a as ih =>
    intro s s' h0 hw h
    unfold run at h
    unfold RunWf at hw
    cases hs : step cfg s a with
    | ub => rw [hs] at h; cases h
    | ok o =>
      rw [hs, Outcome.bind_ok] at h
      rw [hs] at hw
      cases o with
      | none => cases h
      | some s1 => exact ih (.step h0 hw.1 hs) hw.2 h

/-- What lookups have answered. -/
def Phase.result : Phase → Option (List Bytes)
  | .got _ acc _ => some acc
  | _ => none

/-- For the examples: 600 seconds, a hash function with collisions. -/
def exCfg : Cfg := ⟨600, 5, fun _ => 0⟩
/-- `a.` with 43 times `x`. -/
def exA : Item := ⟨[3, 1, 97, 0], List.replicate 43 120, 0⟩
/-- `b`, not terminated, with 43 times `y`. -/
def exB : Item := ⟨[3, 1, 98, 255], List.replicate 43 121, 7⟩
/-- `exA` and `exB` are added with the given lifetime. -/
def exAdd (rem : Nat) : Action := .create rem 2 ((exA.wire ++ exB.wire).length) (exA.wire ++ exB.wire)
/-- Thread `r` looks for `b.` -/
def exLook (r : Nat) : List Action := [.enter r [3, 1, 98, 0], .load r, .look r, .look r, .look r]

theorem exKey : KeyOk [3, 1, 98, 0] := ⟨by decide, 3, [1, 98, 0], rfl, rfl⟩

/-- They are legal challenges. -/
example : exA.Ok ∧ exB.Ok ∧ exB.full = [3, 1, 98, 0] :=
  ⟨⟨⟨.valid, ⟨by decide, 3, [1, 97, 0], rfl, rfl⟩, by decide⟩, rfl⟩, ⟨⟨.partialName, ⟨by decide, 3, [1, 98, 255], rfl, rfl⟩, by decide⟩, rfl⟩, rfl⟩

/-- C37 is false of sets that are handed over: the first set's timer is the full
configured time, even if only 10 seconds are left (src/chal.c:377). Here the challenge is
still answered 60 seconds later and the timer is not overdue. -/
theorem C37_false_import : ∃ s : State, Reach exCfg (init 1 0) s ∧ s.readers.map Phase.result = [some [mkRR exCfg exB.payload]] ∧ s.now = 70000 ∧
    s.snap.due = false ∧ ∀ e ∈ s.log, e.2.expiry = 10000 := by
  let as : List Action := [exAdd 10, .sync, .finish, .advance 70000] ++ exLook 0
  have hr : run exCfg (init 1 0) as = .ok (some ((match run exCfg (init 1 0) as with | .ok o => o | .ub => none).getD (init 0 0))) := rfl
  refine ⟨_, run_reach .refl ?_ hr, by decide +kernel, by decide +kernel, by decide +kernel, by decide +kernel⟩
  exact ⟨⟨rfl, by decide +kernel⟩, trivial, trivial, trivial, exKey, trivial, trivial, trivial, trivial, trivial⟩

/-- A lookup overlaps the expiry of a set: the first thread has read the old table before
it is replaced and still answers the challenge; the second one does not; the old table and
the set are freed only after the first thread is done. Afterwards the second set is
answered. -/
def exRun : List Action :=
  [exAdd 0, .sync, .finish, .advance 300000, exAdd 0, .sync, .finish, .advance 297000,
   .enter 0 [3, 1, 98, 0], .load 0, .look 0, .look 0] ++ [.advance 3000, .fire, .sync] ++ exLook 1 ++ [.look 0, .look 0, .look 0]

/-- The run above is possible; two answers come from the old table, one from the new one. -/
example : (run exCfg (init 2 0) exRun).map (fun o => o.map fun s => s.readers.map fun p => p.result.map List.length) = .ok (some [some 2, some 1]) ∧
    (run exCfg (init 2 0) (exRun ++ [.finish])).map (fun o => o.map fun _ => ()) = .ok none ∧
    (run exCfg (init 2 0) (exRun ++ [.leave 0, .leave 1, .finish])).map (fun o => o.map fun s => (s.sets.map Option.isSome, s.tbls.map Option.isSome, s.timer)) =
      .ok (some ([false, true], [false, false, true], some 900000)) := by decide +kernel

/-- Its actions are well-formed. -/
example : RunWf exCfg (init 2 0) exRun := by
  refine ⟨⟨rfl, by decide +kernel⟩, trivial, trivial, trivial, ⟨rfl, by decide +kernel⟩, trivial, trivial, trivial, exKey, trivial, trivial, trivial, trivial, trivial, trivial,
    exKey, trivial, trivial, trivial, trivial, trivial, trivial, trivial, trivial⟩

/-! ### Hand-off -/

/-- What a challenge says: its name and its text. -/
def Chal.view (c : Chal) : Bytes × Bytes := (c.name, c.txt.drop 11)

/-- The sets to be handed over: those accepted since the last flush that live for more
than 3.2 seconds. -/
def State.toHand (s : State) : List Cset := (s.log.map Prod.snd).filter fun c => s.now + 3200 < c.expiry

theorem idle_sets {cfg s} (h : Inv cfg s) (hidle : s.writer = .idle) : ∃ cs : List Cset, s.live.map (s.sets[·]?) = cs.map (fun c => some (some c)) ∧
    (∀ c ∈ cs, CsetOk cfg c) ∧ (cs.filter fun c => s.now + FUDGE < c.expiry) = s.toHand := by
  obtain ⟨j, hj⟩ := h.hist
  have hsame := hj.same
  rw [keep_idle hidle] at hsame
  refine ⟨(s.log.drop j).map Prod.snd, by rw [hsame, List.map_map]; rfl, ?_, ?_⟩
  · intro c hc
    obtain ⟨e, he, rfl⟩ := List.mem_map.mp hc
    have : some (some e.2) ∈ s.live.map (s.sets[·]?) := by rw [hsame]; exact List.mem_map.mpr ⟨e, he, rfl⟩
    obtain ⟨id, hid, hx⟩ := List.mem_map.mp this
    obtain ⟨c, h1, h2⟩ := h.alive id hid
    rw [hx] at h1
    obtain rfl := Option.some.inj (Option.some.inj h1)
    exact h2
  · unfold State.toHand
    rw [← List.take_append_drop j s.log]
    simp only [List.map_append, List.filter_append]
    have : ((s.log.take j).map Prod.snd).filter (fun c => decide (s.now + 3200 < c.expiry)) = [] := by
      rw [List.filter_eq_nil_iff]
      intro c hc
      obtain ⟨e, he, rfl⟩ := List.mem_map.mp hc
      have := hj.gone e he
      unfold FUDGE at this
      simp; omega
    rw [this, List.take_append_drop]
    rfl

/-- C38: the state of the old daemon is serialized without undefined behaviour, and its
replacement, configured differently perhaps, reads it without undefined behaviour. (The configured time is between 60 and 3600
seconds, src/conf.c:296.) Either
it gives up, which needs more than 201 challenges, or it then has exactly the old
daemon's sets that live for more than 3.2 seconds, in the same order, with the same names
and texts, each with its remaining lifetime in full seconds, limited by the configured
times, and goes on as any other daemon. -/
theorem C38_hand_off {cfg cfg' : Cfg} {n n' now now' : Nat} {s : State} (hr : Reach cfg (init n now) s) (hidle : s.writer = .idle) (ht0 : 1 ≤ cfg.ttl) (ht : cfg.ttl ≤ 65535)
    (hn : s.toHand.length ≤ 151204) : ∃ ct data, serialize cfg s = .ok (ct, data) ∧ ct = s.toHand.length ∧
      ((takeOver cfg' (init n' now') ct data = .ok none ∧ 201 < (s.toHand.flatMap Cset.chals).length) ∨
       ∃ s', takeOver cfg' (init n' now') ct data = .ok (some s') ∧ Reach cfg' (init n' now') s' ∧ s'.writer = .idle ∧ s'.now = now' ∧
         s'.log.map (fun e => (e.1, e.2.chals.map Chal.view, e.2.expiry)) = s.toHand.map fun c =>
           (now', c.chals.map Chal.view, now' + 1000 * min cfg'.ttl (min cfg.ttl ((c.expiry - s.now) / 1000)))) := by
  have h := reach_inv (init_ok cfg n now) hr
  obtain ⟨cs, hcs, hcok, hcf⟩ := idle_sets h hidle
  have hser := serLoop_ok (cfg := cfg) (h := s.sets) (now := s.now) ht (ct := 0) (alloc := 0) (out := []) hcs hcok (by simp) (by simp) (by rw [hcf]; omega)
  rw [hcf] at hser
  rw [Nat.zero_add, List.nil_append] at hser
  refine ⟨_, _, hser, rfl, ?_⟩
  have hok : ∀ c ∈ s.toHand, CsetOk cfg c ∧ s.now + 3200 < c.expiry := by
    intro c hc
    refine ⟨hcok c ?_, by simpa using (List.mem_filter.mp hc).2⟩
    rw [← hcf] at hc
    exact (List.mem_filter.mp hc).1
  -- the blocks
  let bs : List (Nat × List Item) := s.toHand.map fun c => (remain cfg s.now c, (itemsOf cfg c).map Item.norm)
  have hbs : ∀ b ∈ bs, (∀ i ∈ b.2, i.Ok) ∧ b.2 ≠ [] ∧ b.2.length ≤ MAX_COUNT ∧ (b.2.flatMap Item.wire).length ≤ MAX_DLEN ∧ b.1 < 65536 := by
    intro b hb
    obtain ⟨c, hc, rfl⟩ := List.mem_map.mp hb
    obtain ⟨g1, g2, g3, g4, g5⟩ := itemsOf_ok (hok c hc).1
    refine ⟨?_, by simpa using g3, by simpa using g4, by simp only; rw [wires_length g1]; exact g5, by simp only [remain]; omega⟩
    intro i hi
    obtain ⟨i', hi', rfl⟩ := List.mem_map.mp hi
    exact norm_ok (g1 i' hi')
  have hdata : s.toHand.flatMap (blockOf cfg s.now) = bs.flatMap fun b => block b.1 b.2 := by
    simp only [bs, List.flatMap_map]
    rfl
  have hread := readSets_ok (data := s.toHand.flatMap (blockOf cfg s.now)) bs 0 (by
    intro b hb
    obtain ⟨_, _, g3, g4, g5⟩ := hbs b hb
    unfold MAX_COUNT at g3
    unfold MAX_DLEN at g4
    omega) (by omega) (by rw [List.drop_zero]; exact hdata)
  have hlen : bs.length = s.toHand.length := by simp [bs]
  rw [hlen] at hread
  have hcount : (bs.flatMap fun b => b.2).length = (s.toHand.flatMap Cset.chals).length := by
    simp only [bs, List.flatMap_map, List.length_flatMap]
    congr 1
    refine List.map_congr_left fun c hc => ?_
    obtain ⟨_, g2, _⟩ := itemsOf_ok (hok c hc).1
    rw [g2]
    simp
  have hsmall : (bs.flatMap fun b => b.2).length ≤ bs.length * 100 := by
    clear hcount hread hdata hlen
    revert hbs
    induction bs with
    | nil => intro _; simp
    | cons b bs ih =>
      intro hbs
      have := ih fun x hx => hbs x (List.mem_cons_of_mem _ hx)
      have hb := (hbs b List.mem_cons_self).2.2.1
      unfold MAX_COUNT at hb
      simp only [List.flatMap_cons, List.length_append, List.length_cons]
      omega
  have himp := importAll_ok (cfg := cfg') bs (s := init n' now') (init_ok cfg' n' now') ⟨rfl, by
    intro r ph hph
    have hph : (List.replicate n' Phase.off)[r]? = some ph := hph
    rw [List.getElem?_replicate] at hph
    split at hph
    · exact (Option.some.inj hph).symm
    · cases hph⟩ (fun b hb => ⟨(hbs b hb).1, (hbs b hb).2.1, (hbs b hb).2.2.1, (hbs b hb).2.2.2.1⟩) (by
    simp only [init, List.flatMap_nil, List.length_nil, LIMIT]
    omega)
  have htake : takeOver cfg' (init n' now') s.toHand.length (s.toHand.flatMap (blockOf cfg s.now)) =
      importAll cfg' (init n' now') (bs.map fun b => .create b.1 b.2.length (b.2.flatMap Item.wire).length (b.2.flatMap Item.wire)) := by
    unfold takeOver
    rw [hread, Outcome.bind_ok]
  rw [htake]
  rcases himp with ⟨h1, h2⟩ | ⟨s', h1, h2, h3, h4, h5, h6⟩
  · left
    refine ⟨h1, ?_⟩
    simp only [init, List.flatMap_nil, List.length_nil, COLLIDE_MAX] at h2
    omega
  · right
    refine ⟨s', h1, h6 _ .refl, h3.idle, h4, ?_⟩
    rw [h5]
    simp only [init, List.nil_append, bs, List.map_map]
    refine List.map_congr_left fun c hc => ?_
    obtain ⟨g1, g2, _⟩ := itemsOf_ok (hok c hc).1
    have hexp := (hok c hc).2
    simp only [Function.comp, List.map_map]
    have hv : (itemsOf cfg c).map (Chal.view ∘ Item.chal cfg' ∘ Item.norm) = c.chals.map Chal.view := by
      conv => rhs; rw [g2]
      rw [List.map_map]
      refine List.map_congr_left fun i _ => ?_
      simp only [Function.comp, Chal.view, Item.chal, norm_full, mkRR_drop]
      rfl
    have hl : lifetime cfg' (remain cfg s.now c) = min cfg'.ttl (min cfg.ttl ((c.expiry - s.now) / 1000)) := by
      unfold lifetime remain
      split <;> omega
    rw [hl]
    exact congrArg (fun v => (now', v, now' + 1000 * min cfg'.ttl (min cfg.ttl ((c.expiry - s.now) / 1000)))) hv

/-- Hand-off of two sets, one of which is about to expire, to a daemon with a shorter
lifetime. -/
example : (run exCfg (init 1 0) [exAdd 0, .sync, .finish, .advance 300000, exAdd 0, .sync, .finish, .advance 297000]).bind (fun o => match o with
      | none => .ok none
      | some s => (serialize exCfg s).bind fun r => (takeOver ⟨120, 5, fun b => b.length⟩ (init 3 1000) r.1 r.2).map fun o => o.map fun s' =>
          (s.toHand.length, r.1, s'.log.map fun e => (e.2.chals.map Chal.view, e.2.expiry))) =
    .ok (some (1, 1, [([(exA.full, exA.payload), (exB.full, exB.payload)], 121000)])) := by rfl

end Gdnsd.Chal
