/-
The hand-off.
-/
import Verif.Chal.StepLemmas
namespace Gdnsd.Chal

/-- A challenge as it is serialized. -/
def Item.norm (i : Item) : Item := ⟨i.full, i.payload, 0⟩

theorem norm_ok {i : Item} (h : i.Ok) : i.norm.Ok := ⟨⟨.valid, full_stored h, by simp⟩, h.2⟩

theorem norm_full {i : Item} : i.norm.full = i.full := by
  simp [Item.norm, Item.full]

theorem norm_wire_length {i : Item} (h : i.Ok) : i.norm.wire.length = i.wire.length := by
  obtain ⟨⟨st, ⟨_, l, r, h2, _⟩, _⟩, _⟩ := h
  simp [Item.norm, Item.full, Item.wire, h2]
  omega

theorem mkRR_length {cfg : Cfg} {p : Bytes} (h : p.length = 43) : (mkRR cfg p).length = 54 := by simp [mkRR, h]

theorem mkRR_drop {cfg : Cfg} {p : Bytes} : (mkRR cfg p).drop 11 = p := by simp [mkRR]

theorem wires_length : ∀ {is : List Item}, (∀ i ∈ is, i.Ok) → ((is.map Item.norm).flatMap Item.wire).length = (is.flatMap Item.wire).length := by
  intro is
  induction is with
  | nil => intro _; rfl
  | cons i is ih =>
    intro h
    simp only [List.map_cons, List.flatMap_cons, List.length_append]
    rw [norm_wire_length (h i List.mem_cons_self), ih fun x hx => h x (List.mem_cons_of_mem _ hx)]

theorem serChals_ok (cfg : Cfg) : ∀ {is : List Item}, (∀ i ∈ is, i.Ok) → serChals (is.map (Item.chal cfg)) = .ok ((is.map Item.norm).flatMap Item.wire) := by
  intro is
  induction is with
  | nil => intro _; rfl
  | cons i is ih =>
    intro h
    have hi := h i List.mem_cons_self
    obtain ⟨h1, l, r, h2, h3⟩ := full_stored hi
    have h0 : 0 < l.toNat := by
      obtain ⟨st, g1, g2⟩ := status_total (l := l) (r := r) (by omega)
      rw [← h2, h1] at g1
      obtain rfl := Outcome.ok.inj g1
      exact (g2 (by simp)).1
    simp only [List.map_cons]
    unfold serChals
    rw [show (Item.chal cfg i).name = i.full from rfl, show (Item.chal cfg i).txt = mkRR cfg i.payload from rfl, h1, Outcome.bind_ok,
      show assert (decide (Dname.Status.valid = Dname.Status.valid)) = .ok () from rfl, Outcome.bind_ok, h2, copyName_eq h0 (by omega), Outcome.bind_ok,
      if_pos (by rw [mkRR_length hi.2]; omega), Outcome.bind_ok, ih fun x hx => h x (List.mem_cons_of_mem _ hx), Outcome.map_ok, mkRR_drop,
      List.take_of_length_le (by rw [h3]; omega), List.take_of_length_le (by rw [hi.2]; omega)]
    simp [Item.wire, Item.norm, h2]

/-- The remaining lifetime in seconds. -/
def remain (cfg : Cfg) (now : Nat) (c : Cset) : Nat := min cfg.ttl ((c.expiry - now) / 1000)

/-- A set on the wire. -/
def block (rem : Nat) (is : List Item) : Bytes := le16 (is.flatMap Item.wire).length ++ le16 rem ++ [UInt8.ofNat is.length] ++ is.flatMap Item.wire

theorem block_length (rem : Nat) (is : List Item) : (block rem is).length = (is.flatMap Item.wire).length + 5 := by
  simp [block, le16]

theorem wire_pos {is : List Item} (h : is ≠ []) : 0 < (is.flatMap Item.wire).length := by
  cases is with
  | nil => exact absurd rfl h
  | cons i is => simp [Item.wire]; omega

theorem assert_ok {p : Prop} [Decidable p] (h : p) : assert (decide p) = .ok () := by rw [decide_eq_true h]; rfl

theorem serCset_ok {cfg : Cfg} {now : Nat} {c : Cset} {is : List Item} (hok : ∀ i ∈ is, i.Ok) (hc : c.chals = is.map (Item.chal cfg)) (hne : is ≠ [])
    (hn : is.length ≤ MAX_COUNT) (hl : (is.flatMap Item.wire).length ≤ MAX_DLEN) (ht : cfg.ttl ≤ 65535) (he : now < c.expiry) :
    serCset cfg now c = .ok (block (remain cfg now c) (is.map Item.norm)) := by
  have hlen : c.chals.length = is.length := by rw [hc]; simp
  have hpos : 0 < is.length := List.length_pos_iff.mpr hne
  unfold serCset
  have hw := wires_length hok
  have hwp := wire_pos hne
  unfold MAX_DLEN at hl
  rw [assert_ok (by omega), Outcome.bind_ok, assert_ok (by omega), Outcome.bind_ok, assert_ok he, Outcome.bind_ok, assert_ok ht, Outcome.bind_ok]
  dsimp only
  rw [hc, serChals_ok cfg hok, Outcome.bind_ok, assert_ok (by omega), Outcome.bind_ok, assert_ok (by unfold MAX_SERIAL MAX_DLEN; omega), Outcome.bind_ok,
    assert_ok (by omega), Outcome.bind_ok]
  unfold block remain
  have : (if 1000 * cfg.ttl < c.expiry - now then cfg.ttl else (c.expiry - now) / 1000 % 65536) = min cfg.ttl ((c.expiry - now) / 1000) := by
    split
    · omega
    · rw [Nat.mod_eq_of_lt (by omega)]; omega
  rw [this]
  simp

/-- Some items of a legal set. -/
noncomputable def itemsOf (cfg : Cfg) (c : Cset) : List Item := open Classical in if h : CsetOk cfg c then Classical.choose h.2.2 else []

theorem itemsOf_ok {cfg : Cfg} {c : Cset} (h : CsetOk cfg c) : (∀ i ∈ itemsOf cfg c, i.Ok) ∧ c.chals = (itemsOf cfg c).map (Item.chal cfg) ∧
    itemsOf cfg c ≠ [] ∧ (itemsOf cfg c).length ≤ MAX_COUNT ∧ ((itemsOf cfg c).flatMap Item.wire).length ≤ MAX_DLEN := by
  unfold itemsOf
  rw [dif_pos h]
  obtain ⟨h1, h2, h3⟩ := Classical.choose_spec h.2.2
  refine ⟨h1, h2, ?_, ?_, h3⟩
  · intro hc
    rw [hc] at h2
    exact h.1 h2
  · have := h.2.1
    rw [h2] at this
    simpa using this

/-- A set of a list of accepted sets on the wire. -/
noncomputable def blockOf (cfg : Cfg) (now : Nat) (c : Cset) : Bytes := block (remain cfg now c) ((itemsOf cfg c).map Item.norm)

theorem serLoop_ok {cfg : Cfg} {h : Heap} {now : Nat} (ht : cfg.ttl ≤ 65535) : ∀ {ids : List Nat} {cs : List Cset} {ct alloc : Nat} {out : Bytes},
    ids.map (h[·]?) = cs.map (fun c => some (some c)) → (∀ c ∈ cs, CsetOk cfg c) → out.length ≤ ct * MAX_SERIAL → out.length ≤ alloc →
    ct + (cs.filter fun c => now + FUDGE < c.expiry).length ≤ 151204 →
    serLoop cfg h now ids ct alloc out = .ok (ct + (cs.filter fun c => now + FUDGE < c.expiry).length,
      out ++ (cs.filter fun c => now + FUDGE < c.expiry).flatMap (blockOf cfg now)) := by
  intro ids
  induction ids with
  | nil =>
    intro cs ct alloc out hm _ _ _ _
    cases cs with
    | nil => simp [serLoop]
    | cons _ _ => cases hm
  | cons id ids ih =>
    intro cs ct alloc out hm hok hout hal hct
    cases cs with
    | nil => cases hm
    | cons c cs =>
      simp only [List.map_cons, List.cons.injEq] at hm
      have hok' : ∀ c ∈ cs, CsetOk cfg c := fun x hx => hok x (List.mem_cons_of_mem _ hx)
      unfold serLoop
      rw [getSet_ok hm.1, Outcome.bind_ok]
      by_cases he : now + FUDGE < c.expiry
      · rw [if_pos he]
        rw [List.filter_cons_of_pos (by simpa using he)] at hct ⊢
        simp only [List.length_cons] at hct ⊢
        have hused : out.length + MAX_SERIAL ≤ 4294967295 := by
          have : ct * MAX_SERIAL ≤ 151203 * MAX_SERIAL := Nat.mul_le_mul_right _ (by omega)
          unfold MAX_SERIAL MAX_DLEN at this ⊢
          simp only [MAX_SERIAL, MAX_DLEN] at hout
          omega
        rw [if_neg (by omega)]
        obtain ⟨g1, g2, g3, g4, g5⟩ := itemsOf_ok (hok c List.mem_cons_self)
        rw [serCset_ok g1 g2 g3 g4 g5 ht (by omega), Outcome.bind_ok]
        have hb : (blockOf cfg now c).length ≤ MAX_SERIAL := by
          unfold blockOf
          rw [block_length, wires_length g1]
          unfold MAX_SERIAL
          omega
        have hb' : (block (remain cfg now c) ((itemsOf cfg c).map Item.norm)) = blockOf cfg now c := rfl
        rw [hb', assert_ok (by split <;> omega), Outcome.bind_ok]
        rw [ih (cs := cs) hm.2 hok' (by rw [List.length_append, Nat.add_mul]; omega) (by rw [List.length_append]; split <;> omega) (by omega)]
        congr 2
        · omega
        · simp
      · rw [if_neg he]
        rw [List.filter_cons_of_neg (by simpa using he)] at hct ⊢
        exact ih hm.2 hok' hout hal hct

/-! ### Reading -/

theorem getLe16_ok {b : Bytes} {i n : Nat} {rest : Bytes} (hn : n < 65536) (hb : b.drop i = le16 n ++ rest) : getLe16 b i = .ok n := by
  have h0 : b[i]? = some (UInt8.ofNat n) := by
    have : (b.drop i)[0]? = some (UInt8.ofNat n) := by rw [hb]; rfl
    simpa using this
  have h1 : b[i + 1]? = some (UInt8.ofNat (n / 256)) := by
    have : (b.drop i)[1]? = some (UInt8.ofNat (n / 256)) := by rw [hb]; rfl
    simpa using this
  unfold getLe16
  rw [rd_some h0, Outcome.bind_ok, rd_some h1, Outcome.bind_ok]
  simp only [UInt8.toNat_ofNat']
  congr 1
  omega

theorem readSets_ok {data : Bytes} : ∀ (bs : List (Nat × List Item)) (off : Nat),
    (∀ b ∈ bs, b.1 < 65536 ∧ b.2.length < 256 ∧ (b.2.flatMap Item.wire).length < 65536) → off ≤ data.length → data.drop off = bs.flatMap (fun b => block b.1 b.2) →
    readSets data data.length bs.length off = .ok (some (bs.map fun b => .create b.1 b.2.length (b.2.flatMap Item.wire).length (b.2.flatMap Item.wire))) := by
  intro bs
  induction bs with
  | nil => intro off _ _ _; rfl
  | cons b bs ih =>
    intro off hb hoff hd
    obtain ⟨h1, h2, h3⟩ := hb b List.mem_cons_self
    have hlen := congrArg List.length hd
    simp only [List.flatMap_cons, List.length_append, List.length_drop, block_length] at hlen
    simp only [List.flatMap_cons] at hd
    have e0 : data.drop off = le16 (b.2.flatMap Item.wire).length ++ (le16 b.1 ++ (UInt8.ofNat b.2.length :: (b.2.flatMap Item.wire ++ bs.flatMap fun b => block b.1 b.2))) := by
      rw [hd]; simp [block]
    have e2 : data.drop (off + 2) = le16 b.1 ++ (UInt8.ofNat b.2.length :: (b.2.flatMap Item.wire ++ bs.flatMap fun b => block b.1 b.2)) := by
      rw [← List.drop_drop, e0]; rfl
    have e4 : data.drop (off + 4) = UInt8.ofNat b.2.length :: (b.2.flatMap Item.wire ++ bs.flatMap fun b => block b.1 b.2) := by
      rw [show off + 4 = off + 2 + 2 from rfl, ← List.drop_drop, e2]; rfl
    have e5 : data.drop (off + 5) = b.2.flatMap Item.wire ++ bs.flatMap fun b => block b.1 b.2 := by
      rw [show off + 5 = off + 4 + 1 from rfl, ← List.drop_drop, e4]; rfl
    have e6 : data[off + 4]? = some (UInt8.ofNat b.2.length) := by
      have : (data.drop (off + 4))[0]? = some (UInt8.ofNat b.2.length) := by rw [e4]; rfl
      simpa using this
    simp only [List.length_cons]
    unfold readSets
    rw [if_neg (by omega), getLe16_ok h3 e0, Outcome.bind_ok, getLe16_ok h1 e2, Outcome.bind_ok, rd_some e6, Outcome.bind_ok]
    dsimp only
    rw [if_neg (by omega), ih (off + 5 + (b.2.flatMap Item.wire).length) (fun x hx => hb x (List.mem_cons_of_mem _ hx)) (by omega) (by
      rw [← List.drop_drop, e5, List.drop_left]), e5, List.take_left]
    simp only [Outcome.map_ok, Option.map_some, List.map_cons, UInt8.toNat_ofNat']
    rw [Nat.mod_eq_of_lt (show b.2.length < 2 ^ 8 by omega)]

/-! ### Importing -/

/-- Between two sets, in a daemon that does not answer yet. -/
structure Quiet (s : State) : Prop where
  idle : s.writer = .idle
  off : ∀ (r : Nat) (ph : Phase), s.readers[r]? = some ph → ph = .off

theorem online_off {rs : List Phase} (h : ∀ (r : Nat) (ph : Phase), rs[r]? = some ph → ph = .off) : online rs = [] := by
  unfold online
  rw [List.filter_eq_nil_iff]
  intro r _
  cases hr : rs[r]? with
  | none => simp
  | some ph => rw [h r ph hr]; simp

theorem create_eq {cfg : Cfg} {s : State} {is : List Item} (hok : ∀ i ∈ is, i.Ok) (hne : is ≠ []) (hn : is.length ≤ MAX_COUNT)
    (hl : (is.flatMap Item.wire).length ≤ MAX_DLEN) (rem : Nat) :
    create cfg s rem is.length (is.flatMap Item.wire).length (is.flatMap Item.wire) =
      (tblCreate s.sets s.live (some (s.sets.length, ⟨is.map (Item.chal cfg), s.now + 1000 * lifetime cfg rem⟩))).bind fun
        | none => .ok none
        | some t =>
          .ok (some (({ s with
            sets := s.sets ++ [some ⟨is.map (Item.chal cfg), s.now + 1000 * lifetime cfg rem⟩]
            live := s.live ++ [s.sets.length]
            timer := if s.live = [] then some (s.now + 1000 * cfg.ttl) else s.timer
            log := s.log ++ [(s.now, ⟨is.map (Item.chal cfg), s.now + 1000 * lifetime cfg rem⟩)] } : State).swap .add (some t) 0
            (s.live ++ [s.sets.length], allChals (s.sets ++ [some ⟨is.map (Item.chal cfg), s.now + 1000 * lifetime cfg rem⟩]) (s.live ++ [s.sets.length])))) := by
  have h0 : 0 < is.length := List.length_pos_iff.mpr hne
  have h1 := wire_pos hne
  unfold create
  rw [if_neg (by omega)]
  have := parse_wire cfg (data := is.flatMap Item.wire) is 0 hok (by omega) [] (by simp)
  rw [this, Outcome.bind_ok]
  dsimp only
  rw [if_neg (by omega)]
  rfl

theorem live_le {cfg s} (h : Inv cfg s) (hi : s.writer = .idle) : (allChals s.sets s.live).length ≤ (s.log.flatMap fun e => e.2.chals).length := by
  obtain ⟨j, hj⟩ := h.hist
  have := flatMap_of_map hj.same
  rw [keep_idle hi] at this
  rw [this]
  have e : s.log.flatMap (fun e => e.2.chals) = (s.log.take j).flatMap (fun e => e.2.chals) ++ (s.log.drop j).flatMap (fun e => e.2.chals) := by
    rw [← List.flatMap_append, List.take_append_drop]
  rw [e, List.length_append]
  omega

theorem importOne_ok {cfg s} (h : Inv cfg s) (hq : Quiet s) {is : List Item} (hok : ∀ i ∈ is, i.Ok) (hne : is ≠ []) (hn : is.length ≤ MAX_COUNT)
    (hl : (is.flatMap Item.wire).length ≤ MAX_DLEN) (rem : Nat) (hfit : (s.log.flatMap fun e => e.2.chals).length + is.length < LIMIT) :
    (importOne cfg s (.create rem is.length (is.flatMap Item.wire).length (is.flatMap Item.wire)) = .ok none ∧
      COLLIDE_MAX + 1 < (s.log.flatMap fun e => e.2.chals).length + is.length) ∨
    ∃ s', importOne cfg s (.create rem is.length (is.flatMap Item.wire).length (is.flatMap Item.wire)) = .ok (some s') ∧ Inv cfg s' ∧ Quiet s' ∧
      s'.now = s.now ∧ s'.log = s.log ++ [(s.now, ⟨is.map (Item.chal cfg), s.now + 1000 * lifetime cfg rem⟩)] ∧ ∀ s0, Reach cfg s0 s → Reach cfg s0 s' := by
  have hle := live_le h hq.idle
  have hwf : Action.Wf s (.create rem is.length (is.flatMap Item.wire).length (is.flatMap Item.wire)) := ⟨rfl, by unfold LIMIT at hfit; omega⟩
  have hcr := create_eq (s := s) (cfg := cfg) hok hne hn hl rem
  unfold importOne
  have hstep : step cfg s (.create rem is.length (is.flatMap Item.wire).length (is.flatMap Item.wire)) =
      create cfg s rem is.length (is.flatMap Item.wire).length (is.flatMap Item.wire) := by
    unfold step
    dsimp only
    rw [hq.idle]; rfl
  have hcne : (Cset.mk (is.map (Item.chal cfg)) (s.now + 1000 * lifetime cfg rem)).chals ≠ [] := by simpa using hne
  rcases create_some (h := s.sets) (ids := s.live) (s := ⟨is.map (Item.chal cfg), s.now + 1000 * lifetime cfg rem⟩) (alive_of h) hcne (by simp; omega) with ⟨h1, h2⟩ | ⟨t, h1, h2⟩
  · left
    rw [hstep, hcr, h1]
    refine ⟨rfl, ?_⟩
    simp at h2
    omega
  · right
    rw [h1, Outcome.bind_ok] at hcr
    dsimp only at hcr
    rw [hcr] at hstep
    rw [hstep, Outcome.bind_ok]
    dsimp only
    obtain ⟨s1, hs1⟩ : ∃ s1, s1 = (({ s with
            sets := s.sets ++ [some ⟨is.map (Item.chal cfg), s.now + 1000 * lifetime cfg rem⟩]
            live := s.live ++ [s.sets.length]
            timer := if s.live = [] then some (s.now + 1000 * cfg.ttl) else s.timer
            log := s.log ++ [(s.now, ⟨is.map (Item.chal cfg), s.now + 1000 * lifetime cfg rem⟩)] } : State).swap .add (some t) 0
            (s.live ++ [s.sets.length], allChals (s.sets ++ [some ⟨is.map (Item.chal cfg), s.now + 1000 * lifetime cfg rem⟩]) (s.live ++ [s.sets.length]))) := ⟨_, rfl⟩
    have w1 : s1.writer = .swapped .add s.cur 0 := by rw [hs1]; rfl
    have r1 : s1.readers = s.readers := by rw [hs1]; rfl
    have n1 : s1.now = s.now := by rw [hs1]; rfl
    have l1 : s1.log = s.log ++ [(s.now, ⟨is.map (Item.chal cfg), s.now + 1000 * lifetime cfg rem⟩)] := by rw [hs1]; rfl
    rw [← hs1] at hstep ⊢
    have i1 : Inv cfg s1 := by
      rcases step_ok h _ hwf with hc | ⟨s', hc, hi⟩
      · rw [hstep] at hc; cases hc
      · rw [hstep] at hc; cases hc; exact hi
    have hsync : step cfg s1 .sync = .ok (some { s1 with writer := .wait .add s.cur 0 [] }) := by
      unfold step
      dsimp only
      rw [w1, r1, online_off hq.off]
    rw [hsync, Outcome.bind_ok]
    dsimp only
    have i2 : Inv cfg { s1 with writer := .wait .add s.cur 0 [] } := by
      rcases step_ok i1 .sync trivial with hc | ⟨s', hc, hi⟩
      · rw [hsync] at hc; cases hc
      · rw [hsync] at hc; cases hc; exact hi
    obtain ⟨s', hf, hi⟩ := inv_finish i2 rfl
    have hfin : step cfg { s1 with writer := .wait .add s.cur 0 [] } .finish = .ok (some s') := hf
    rw [hfin]
    refine ⟨s', rfl, hi, ?_⟩
    have hs' : s'.writer = .idle ∧ s'.readers = s1.readers ∧ s'.now = s1.now ∧ s'.log = s1.log := by
      unfold finish at hf
      cases ht : freeTbl s1.tbls s.cur with
      | ub => simp only [ht] at hf; cases hf
      | ok tb =>
        simp only [ht, Outcome.bind_ok] at hf
        cases hg : freeSets s1.sets (s1.live.take 0) with
        | ub => rw [hg] at hf; cases hf
        | ok hp => rw [hg] at hf; cases hf; exact ⟨rfl, rfl, rfl, rfl⟩
    obtain ⟨a1, a2, a3, a4⟩ := hs'
    refine ⟨⟨a1, by rw [a2, r1]; exact hq.off⟩, by rw [a3, n1], by rw [a4, l1], ?_⟩
    intro s0 hr
    exact Reach.step (a := .finish) (Reach.step (a := .sync) (hr.step hwf hstep) trivial hsync) trivial hfin

theorem importAll_ok {cfg : Cfg} : ∀ (bs : List (Nat × List Item)) {s : State}, Inv cfg s → Quiet s →
    (∀ b ∈ bs, (∀ i ∈ b.2, i.Ok) ∧ b.2 ≠ [] ∧ b.2.length ≤ MAX_COUNT ∧ (b.2.flatMap Item.wire).length ≤ MAX_DLEN) →
    (s.log.flatMap fun e => e.2.chals).length + (bs.flatMap fun b => b.2).length < LIMIT →
    (importAll cfg s (bs.map fun b => .create b.1 b.2.length (b.2.flatMap Item.wire).length (b.2.flatMap Item.wire)) = .ok none ∧
      COLLIDE_MAX + 1 < (s.log.flatMap fun e => e.2.chals).length + (bs.flatMap fun b => b.2).length) ∨
    ∃ s', importAll cfg s (bs.map fun b => .create b.1 b.2.length (b.2.flatMap Item.wire).length (b.2.flatMap Item.wire)) = .ok (some s') ∧ Inv cfg s' ∧ Quiet s' ∧
      s'.now = s.now ∧ s'.log = s.log ++ bs.map (fun b => (s.now, ⟨b.2.map (Item.chal cfg), s.now + 1000 * lifetime cfg b.1⟩)) ∧
      ∀ s0, Reach cfg s0 s → Reach cfg s0 s' := by
  intro bs
  induction bs with
  | nil => intro s h hq _ _; exact Or.inr ⟨s, rfl, h, hq, rfl, by simp, fun _ h => h⟩
  | cons b bs ih =>
    intro s h hq hb hfit
    obtain ⟨b1, b2, b3, b4⟩ := hb b List.mem_cons_self
    simp only [List.map_cons, List.flatMap_cons, List.length_append] at hfit ⊢
    unfold importAll
    rcases importOne_ok h hq b1 b2 b3 b4 b.1 (by omega) with ⟨h1, h2⟩ | ⟨s1, h1, i1, q1, n1, l1, hr1⟩
    · left; rw [h1]; exact ⟨rfl, by omega⟩
    · rw [h1, Outcome.bind_ok]
      dsimp only
      have hlen : (s1.log.flatMap fun e => e.2.chals).length = (s.log.flatMap fun e => e.2.chals).length + b.2.length := by rw [l1]; simp
      rcases ih i1 q1 (fun x hx => hb x (List.mem_cons_of_mem _ hx)) (by omega) with ⟨g1, g2⟩ | ⟨s2, g1, i2, q2, n2, l2, hr2⟩
      · left; exact ⟨g1, by omega⟩
      · right
        refine ⟨s2, g1, i2, q2, by rw [n2, n1], ?_, fun s0 hr => hr2 s0 (hr1 s0 hr)⟩
        rw [l2, l1, n1]
        simp

end Gdnsd.Chal
