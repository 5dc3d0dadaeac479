/-
C125: the streams of messages that clients get.
-/
import Verif.Frames.Spec
namespace Gdnsd.Frames
open FramesSpec

theorem poke_at {p q b : Bytes} (h : b.length ≤ q.length) : poke (p ++ q) p.length b = .ok ((p ++ b) ++ q.drop b.length) := by
  unfold poke
  rw [if_pos (by simp; omega)]
  simp [List.drop_append]

theorem poke_off {p q b : Bytes} {n : Nat} (hn : n = p.length) (h : b.length ≤ q.length) : poke (p ++ q) n b = .ok ((p ++ b) ++ q.drop b.length) := by
  rw [hn]; exact poke_at h

theorem notice_length (pad : Bool) : (notice pad).length = if pad = true then 468 else 24 := by
  cases pad <;> decide +kernel

theorem dsoUni_ok (pad : Bool) {raw : Bytes} (h : raw.length = BUF) : ∃ raw', dsoUni pad raw = .ok (raw', (notice pad).length) ∧ raw'.take (notice pad).length = notice pad ∧ raw'.length = BUF := by
  have hB : BUF = 16382 := rfl
  have hP : PAD = 468 := rfl
  rw [hB] at h
  unfold dsoUni
  have e0 : poke raw 0 (List.replicate 12 0) = .ok (List.replicate 12 0 ++ raw.drop 12) := by
    have := poke_off (p := []) (q := raw) (b := List.replicate 12 0) (n := 0) rfl (by simp; omega)
    simpa using this
  rw [e0, Outcome.bind_ok]
  have e1 : poke (List.replicate 12 0 ++ raw.drop 12) 2 [UInt8.ofNat (6 * 8)] = .ok ([0, 0, 48, 0, 0, 0, 0, 0, 0, 0, 0, 0] ++ raw.drop 12) := by
    unfold poke
    rw [if_pos (by simp)]
    rfl
  rw [e1, Outcome.bind_ok]
  rw [poke_off (b := be16 1) (by rfl) (by simp [be16]; omega), Outcome.bind_ok]
  rw [poke_off (b := be16 8) (by rfl) (by simp [be16]; omega), Outcome.bind_ok]
  rw [poke_off (b := [0xFF, 0xFF, 0xFF, 0xFF]) (by rfl) (by simp [be16]; omega), Outcome.bind_ok]
  rw [poke_off (b := [0, 0, 0, 0]) (by rfl) (by simp [be16]; omega), Outcome.bind_ok]
  cases pad with
  | false =>
    rw [if_neg (by decide)]
    refine ⟨_, by rw [notice_length]; rfl, ?_, ?_⟩
    · rw [notice_length]
      rw [if_neg (by decide), List.take_append_of_le_length (by decide)]
      decide
    · simp [be16, hB]; omega
  | true =>
    rw [if_pos rfl]
    dsimp only
    rw [poke_off (b := be16 3) (by rfl) (by simp [be16]; omega), Outcome.bind_ok]
    rw [poke_off (b := be16 (PAD - 24 - 4)) (by rfl) (by simp [be16]; omega), Outcome.bind_ok]
    rw [poke_off (b := List.replicate (PAD - 24 - 4) 0) (by rfl) (by simp only [List.length_append, List.length_drop, List.length_replicate, be16, List.length_cons, List.length_nil]; omega), Outcome.bind_ok]
    refine ⟨_, by rw [notice_length]; rfl, ?_, ?_⟩
    · rw [notice_length, if_pos rfl]
      rw [List.take_append_of_le_length (by simp only [List.length_append, List.length_drop, List.length_replicate, be16, List.length_cons, List.length_nil]; omega)]
      decide +kernel
    · simp only [List.length_append, List.length_drop, List.length_replicate, be16, List.length_cons, List.length_nil]; omega

theorem be16_frame {n : Nat} (h : n ≤ 16382) : be16 (n % 65536) = num16 n := by
  rw [Nat.mod_eq_of_lt (by omega)]
  unfold be16 num16
  have h1 : n / 256 % 256 = n / 256 := Nat.mod_eq_of_lt (by omega)
  have h2 : UInt8.ofNat n = UInt8.ofNat (n % 256) := by
    apply UInt8.toNat_inj.mp
    simp
  rw [h1, h2]

/-- What a write does. -/
theorem write_ok {raw m : Bytes} (r : Sent) (c : Conn) (hr : raw.length = BUF) (h0 : 0 < m.length) (h1 : m.length ≤ BUF) (hm : raw.take m.length = m) (hc : c.shut = false) :
    ∃ c', writePacket raw m.length r c = .ok c' ∧
      ((c'.shut = false ∧ c'.wire = c.wire ++ frame m) ∨ (c'.shut = true ∧ ∃ part t, frame m = part ++ t ∧ t ≠ [] ∧ c'.wire = c.wire ++ part)) := by
  have hB : BUF = 16382 := rfl
  have hall : (be16 (m.length % 65536) ++ raw).take (m.length + 2) = frame m := by
    rw [be16_frame (by omega)]
    have : (num16 m.length).length = 2 := rfl
    rw [List.take_append, List.take_of_length_le (by omega), this, Nat.add_sub_cancel, hm]
    rfl
  have hfl : (frame m).length = m.length + 2 := by simp [frame, num16]
  unfold writePacket
  rw [show decide (m.length ≠ 0) = true by simp; intro hx; simp [hx] at h0, show assert true = .ok () from rfl, Outcome.bind_ok]
  dsimp only
  rw [if_neg (by simp [be16]; omega), hall]
  cases r with
  | took n =>
    dsimp only
    by_cases hn : n < m.length + 2
    · rw [if_pos hn]
      refine ⟨_, rfl, .inr ⟨rfl, (frame m).take n, (frame m).drop n, (List.take_append_drop _ _).symm, ?_, rfl⟩⟩
      intro hx
      have := congrArg List.length hx
      simp [hfl] at this
      omega
    · rw [if_neg hn]
      exact ⟨_, rfl, .inl ⟨hc, rfl⟩⟩
  | err =>
    refine ⟨_, rfl, .inr ⟨rfl, [], frame m, rfl, ?_, by simp⟩⟩
    intro hx
    rw [hx] at hfl
    simp at hfl

/-- The connection that an event is for, and the message. -/
def Ev.to : Ev → Nat
  | .resp i _ _ => i
  | .uni i _ => i

def Ev.msg (pad : Bool) : Ev → Bytes
  | .resp _ m _ => m
  | .uni _ _ => notice pad

theorem told_cons (pad : Bool) (i : Nat) (e : Ev) (l : List Ev) : told pad i (e :: l) = if e.to = i then e.msg pad :: told pad i l else told pad i l := by
  cases e <;> rfl

theorem step_ok {pad : Bool} {t : Thr} {e : Ev} (hr : t.raw.length = BUF) (he : Sized e) :
    ∃ u, step pad t e = .ok u ∧ u.raw.length = BUF ∧ (∀ j, j ≠ e.to → u.conns j = t.conns j) ∧
      ((t.conns e.to).shut = true → u.conns e.to = t.conns e.to) ∧
      ((t.conns e.to).shut = false →
        ((u.conns e.to).shut = false ∧ (u.conns e.to).wire = (t.conns e.to).wire ++ frame (e.msg pad)) ∨
        ((u.conns e.to).shut = true ∧ ∃ part s, frame (e.msg pad) = part ++ s ∧ s ≠ [] ∧ (u.conns e.to).wire = (t.conns e.to).wire ++ part)) := by
  have hB : BUF = 16382 := rfl
  have key : ∀ (i : Nat) (raw m : Bytes) (r : Sent), raw.length = BUF → 0 < m.length → m.length ≤ BUF → raw.take m.length = m → (t.conns i).shut = false →
      ∃ u, (writePacket raw m.length r (t.conns i)).map (t.set raw i) = .ok u ∧ u.raw.length = BUF ∧ (∀ j, j ≠ i → u.conns j = t.conns j) ∧
        (((u.conns i).shut = false ∧ (u.conns i).wire = (t.conns i).wire ++ frame m) ∨
         ((u.conns i).shut = true ∧ ∃ part s, frame m = part ++ s ∧ s ≠ [] ∧ (u.conns i).wire = (t.conns i).wire ++ part)) := by
    intro i raw m r h1 h2 h3 h4 h5
    obtain ⟨c, e1, e2⟩ := write_ok r (t.conns i) h1 h2 h3 h4 h5
    refine ⟨t.set raw i c, by rw [e1]; rfl, h1, fun j hj => by simp [Thr.set, hj], ?_⟩
    have : (t.set raw i c).conns i = c := by simp [Thr.set]
    rw [this]
    exact e2
  cases e with
  | resp i m r =>
    dsimp only [Ev.to, Ev.msg, step]
    by_cases hs : (t.conns i).shut = true
    · rw [if_pos hs]
      exact ⟨t, rfl, hr, fun _ _ => rfl, fun _ => rfl, fun hx => absurd (hs.symm.trans hx) (by decide)⟩
    · rw [if_neg hs]
      have hm : poke t.raw 0 m = .ok (m ++ t.raw.drop m.length) := by
        have := poke_off (p := []) (q := t.raw) (b := m) (n := 0) rfl (by rw [hr, hB]; exact he.2)
        simpa using this
      rw [hm, Outcome.bind_ok, show decide (m.length ≤ BUF) = true by simpa [hB] using he.2, show assert true = .ok () from rfl, Outcome.bind_ok]
      obtain ⟨u, h1, h2, h3, h4⟩ := key i (m ++ t.raw.drop m.length) m r (by have := he.2; simp [hr, hB]; omega) he.1 (by rw [hB]; exact he.2) (by simp) (by simpa using hs)
      exact ⟨u, h1, h2, h3, fun hx => absurd hx hs, fun _ => h4⟩
  | uni i r =>
    dsimp only [Ev.to, Ev.msg, step]
    by_cases hs : (t.conns i).shut = true
    · rw [if_pos hs]
      exact ⟨t, rfl, hr, fun _ _ => rfl, fun _ => rfl, fun hx => absurd (hs.symm.trans hx) (by decide)⟩
    · rw [if_neg hs]
      obtain ⟨raw', e1, e2, e3⟩ := dsoUni_ok pad hr
      rw [e1, Outcome.bind_ok]
      have hl := notice_length pad
      obtain ⟨u, h1, h2, h3, h4⟩ := key i raw' (notice pad) r e3 (by rw [hl]; split <;> omega) (by rw [hl, hB]; split <;> omega) e2 (by simpa using hs)
      exact ⟨u, h1, h2, h3, fun hx => absurd hx hs, fun _ => h4⟩

theorem run_shut {pad : Bool} : ∀ (l : List Ev) (t : Thr), t.raw.length = BUF → (∀ e ∈ l, Sized e) →
    ∃ u, run pad l t = .ok u ∧ u.raw.length = BUF ∧ ∀ i,
      ((t.conns i).shut = true → u.conns i = t.conns i) ∧
      ((t.conns i).shut = false →
        ((u.conns i).shut = false ∧ (u.conns i).wire = (t.conns i).wire ++ ((told pad i l).map frame).flatten) ∨
        ((u.conns i).shut = true ∧ ∃ done m rest part s, told pad i l = done ++ m :: rest ∧ frame m = part ++ s ∧ s ≠ [] ∧
          (u.conns i).wire = (t.conns i).wire ++ ((done.map frame).flatten ++ part)))
  | [], t, hr, _ => ⟨t, rfl, hr, fun i => ⟨fun _ => rfl, fun h => .inl ⟨h, by simp [told]⟩⟩⟩
  | e :: l, t, hr, hs => by
    obtain ⟨u, h1, h2, h3, h4, h5⟩ := step_ok (pad := pad) hr (hs e (by simp))
    obtain ⟨v, g1, g2, g3⟩ := run_shut l u h2 fun e he => hs e (List.mem_cons_of_mem _ he)
    refine ⟨v, by rw [run, h1, Outcome.bind_ok, g1], g2, fun i => ?_⟩
    obtain ⟨g4, g5⟩ := g3 i
    rw [told_cons]
    by_cases hi : e.to = i
    · subst hi
      rw [if_pos rfl]
      constructor
      · intro hx
        rw [g4 (by rw [h4 hx]; exact hx), h4 hx]
      · intro hx
        rcases h5 hx with ⟨a1, a2⟩ | ⟨a1, part, s, a2, a3, a4⟩
        · rcases g5 a1 with ⟨b1, b2⟩ | ⟨b1, done, m, rest, part, s, b2, b3, b4, b5⟩
          · exact .inl ⟨b1, by rw [b2, a2]; simp⟩
          · exact .inr ⟨b1, e.msg pad :: done, m, rest, part, s, by rw [b2]; rfl, b3, b4, by rw [b5, a2]; simp⟩
        · refine .inr ⟨by rw [g4 a1]; exact a1, [], e.msg pad, told pad e.to l, part, s, rfl, a2, a3, ?_⟩
          rw [g4 a1, a4]
          rfl
    · rw [if_neg hi]
      have hc : u.conns i = t.conns i := h3 i fun hx => hi hx.symm
      rw [hc] at g4 g5
      exact ⟨g4, g5⟩

/-- Whatever the kernel takes of each write, and whatever the other connections get from the same buffer: the stream of a connection is the messages for it, each in its frame, as long as it is open; and
if it was closed, some of them and a part of the next. Nothing undefined happens. -/
theorem C125_streams {pad : Bool} {raw : Bytes} (hr : raw.length = 16382) {l : List Ev} (hl : ∀ e ∈ l, Sized e) :
    ∃ t, run pad l (init raw) = .ok t ∧ ∀ i, Stream (t.conns i) (told pad i l) := by
  obtain ⟨t, h1, -, h2⟩ := run_shut (pad := pad) l (init raw) hr hl
  refine ⟨t, h1, fun i => ?_⟩
  rcases (h2 i).2 rfl with ⟨a, b⟩ | ⟨a, done, m, rest, part, s, b1, b2, b3, b4⟩
  · exact .inl ⟨a, by rw [b]; rfl⟩
  · exact .inr ⟨a, done, m, rest, part, s, b1, b2, b3, by rw [b4]; rfl⟩

/-- What one gets does not depend on what the buffer has held, nor on the messages for others. -/
theorem C125_apart {pad : Bool} {raw raw' : Bytes} (hr : raw.length = 16382) (hr' : raw'.length = 16382) {l l' : List Ev} (hl : ∀ e ∈ l, Sized e) (hl' : ∀ e ∈ l', Sized e)
    {t t' : Thr} (h : run pad l (init raw) = .ok t) (h' : run pad l' (init raw') = .ok t') {i : Nat} (hi : told pad i l = told pad i l')
    (ho : (t.conns i).shut = false) (ho' : (t'.conns i).shut = false) : (t.conns i).wire = (t'.conns i).wire := by
  obtain ⟨u, e1, e2⟩ := C125_streams (pad := pad) hr hl
  obtain ⟨u', e1', e2'⟩ := C125_streams (pad := pad) hr' hl'
  cases e1.symm.trans h
  cases e1'.symm.trans h'
  rcases e2 i with ⟨-, a⟩ | ⟨a, -⟩
  · rcases e2' i with ⟨-, b⟩ | ⟨b, -⟩
    · rw [a, b, hi]
    · rw [ho'] at b; cases b
  · rw [ho] at a; cases a

/-- A connection is closed exactly if the kernel did not take all of a message at once. -/
theorem C125_closed {pad : Bool} {t u : Thr} {i : Nat} {m : Bytes} {r : Sent} (h : step pad t (.resp i m r) = .ok u) (ho : (t.conns i).shut = false) :
    (u.conns i).shut = true ↔ ∀ n, r = .took n → n < m.length + 2 := by
  have hs : ¬ (t.conns i).shut = true := by rw [ho]; decide
  dsimp only [step] at h
  rw [if_neg hs] at h
  cases hp : poke t.raw 0 m with
  | ub => rw [hp] at h; cases h
  | ok raw =>
    rw [hp, Outcome.bind_ok] at h
    cases ha : assert (decide (m.length ≤ BUF)) with
    | ub => rw [ha] at h; cases h
    | ok x =>
      rw [ha, Outcome.bind_ok] at h
      unfold writePacket at h
      cases hb : assert (decide (m.length ≠ 0)) with
      | ub => rw [hb] at h; cases h
      | ok y =>
        rw [hb, Outcome.bind_ok] at h
        dsimp only at h
        split at h
        · cases h
        · cases r with
          | took n =>
            dsimp only at h
            by_cases hn : n < m.length + 2
            · rw [if_pos hn] at h
              cases h
              simp [Thr.set, hn]
            · rw [if_neg hn] at h
              cases h
              simp [Thr.set, hn, ho]
          | err =>
            cases h
            simp [Thr.set]

/-- The notice has the size of a block if there is padding. -/
theorem C125_block : (notice true).length = 468 ∧ (notice false).length = 24 := ⟨notice_length true, notice_length false⟩

/-- Two connections, and the second cannot take all. -/
example : ∀ e ∈ ([.resp 0 [1, 2, 3] (.took 5), .resp 1 [4] (.took 2), .uni 0 (.took 26), .uni 1 .err] : List Ev), Sized e := by
  intro e he
  simp only [List.mem_cons, List.not_mem_nil, or_false] at he
  rcases he with rfl | rfl | rfl | rfl <;> simp [Sized]
example : ((run false [.resp 0 [1, 2, 3] (.took 5), .resp 1 [4] (.took 2), .uni 0 (.took 26), .uni 1 .err] (init (List.replicate 16382 9))).map fun t => (t.conns 0, t.conns 1)) =
    .ok (⟨[0, 3, 1, 2, 3, 0, 24, 0, 0, 48, 0, 0, 0, 0, 0, 0, 0, 0, 0, 0, 1, 0, 8, 255, 255, 255, 255, 0, 0, 0, 0], false⟩, ⟨[0, 1], true⟩) := by decide +kernel

end Gdnsd.Frames
