import Verif.Enc.RrLemmas
import Verif.Enc.RecSpec
/-
The remaining record encoders.
-/
namespace Gdnsd.Enc
open DnameSpec EncSpec Dname

/-! ### Names in internal form -/

theorem labelsOfWire_eq (ls : List Bytes) (h : ∀ l ∈ ls, 1 ≤ l.length ∧ l.length ≤ 63) :
    ∀ fuel, ls.length < fuel → labelsOfWire fuel (wireLabels ls ++ [0]) = ls := by
  induction ls with
  | nil => intro fuel hf; cases fuel with
    | zero => omega
    | succ n => simp [labelsOfWire, wireLabels]
  | cons l ls ih =>
    intro fuel hf
    have hl := h l (by simp)
    cases fuel with
    | zero => simp at hf
    | succ n =>
      have ht : (UInt8.ofNat l.length).toNat = l.length := toNat_ofNat_lt (by omega)
      have hne : UInt8.ofNat l.length ≠ 0 := by
        intro e; rw [e] at ht; have : (0 : UInt8).toNat = 0 := rfl; omega
      simp only [wireLabels, List.cons_append, List.append_assoc, labelsOfWire, hne, if_false, ht,
        List.take_left, List.drop_left]
      rw [ih (fun x hx => h x (by simp [hx])) n (by simp at hf; omega)]

theorem labelsOf_encode (ls : List Bytes) (h : WF ls) : labelsOf (encode ls true) = ls := by
  have hl := encode_length ls true
  have hw := wireLabels_length ls
  have := length_le_wireLabels ls
  rw [labelsOf]
  have : (encode ls true).drop 1 = wireLabels ls ++ [0] := by simp [encode]
  rw [this]
  exact labelsOfWire_eq ls h.1 _ (by omega)

theorem NameOk_encode {d : Bytes} (h : NameOk d) : WF (labelsOf d) ∧ d = encode (labelsOf d) true := by
  obtain ⟨ls, h1, rfl⟩ := h
  rw [labelsOf_encode ls h1]; exact ⟨h1, rfl⟩

theorem storeNocomp_eq (ls : List Bytes) (h : WF ls) : storeNocomp (encode ls true) = .ok (wireLabels ls ++ [0]) := by
  have hwl : (UInt8.ofNat (wireLen ls)).toNat = wireLen ls := toNat_ofNat_lt (by have := h.2; omega)
  have hrd : rd (encode ls true) 0 = .ok (UInt8.ofNat (wireLen ls)) := by simp [encode, rd]
  have helen := encode_length ls true
  have hwll := wireLabels_length ls
  have hd : (encode ls true).drop 1 = wireLabels ls ++ [0] := by simp [encode]
  rw [storeNocomp, hrd, Outcome.bind_ok, hwl]
  have : decide (1 + wireLen ls ≤ (encode ls true).length) = true := by simp; omega
  rw [this, assert_true, Outcome.bind_ok, hd, List.take_of_length_le (by simp; omega)]

theorem NameAt_wire (a : Bytes) (ls : List Bytes) (h : WF ls) (q : Bytes) :
    ReadsAs (a ++ (wireLabels ls ++ [0]) ++ q) a.length ls (a.length + wireLen ls) :=
  ⟨ls, NameAt_plain ls h.1, rfl⟩

/-! ### Records ending in a name -/

theorem pieces_skip {p : Bytes} {o : Nat} {ps : List Piece} {e : Nat} (h : PiecesAt p o (.bytes [] :: ps) e) :
    PiecesAt p o ps e := by
  cases h with
  | bytes _ h => exact h

theorem RecsAt_skip {α : Type} (f : α → Rec) (g : α → List Bytes) {p : Bytes} : ∀ {l : List α} {o e : Nat},
    RecsAt p o (l.map fun x => ⟨(f x).owner, (f x).type, (f x).ttl, [.bytes [], .name (g x)]⟩) e →
    RecsAt p o (l.map fun x => ⟨(f x).owner, (f x).type, (f x).ttl, [.name (g x)]⟩) e := by
  intro l
  induction l with
  | nil => intro o e h; exact h
  | cons a l ih =>
    intro o e h
    rw [List.map_cons] at h
    cases h with
    | cons h1 h2 =>
      obtain ⟨a1, a2, a3, a4, a5, a6, a7, a8, a9⟩ := h1
      exact .cons ⟨a1, a2, a3, a4, a5, a6, a7, pieces_skip a8, a9⟩ (ih h2)

/-- A record with some bytes followed by a stored name. -/
theorem nameRec {qraw ql owner : List Bytes} {env : Env} {st : St} (hi : Inv qraw ql env st) (t : Nat) (ttl : UInt32)
    (o : Nat) (ho : NamePtr st.out o owner) (ht : t < 65536) (pre : Bytes) (ls : List Bytes) (hw : WF ls) (mk : Bool)
    (hs : st.out.length + (12 + pre.length + wireLen ls) ≤ 16384) :
    ∃ h b ts', rrHead st.out o t ttl = .ok h ∧
      storeComp (st.out ++ h) env.lq st.ts (encode ls true) ((st.out ++ h).length + 2 + pre.length) mk = .ok (b, ts') ∧
      h.length + 2 + pre.length + b.length ≤ 12 + pre.length + wireLen ls ∧
      ∀ n, n = b.length + pre.length →
        (∀ t ∈ ts', Good (st.out ++ h ++ put16 n ++ pre ++ b) t) ∧ ts'.length ≤ COMPMAX ∧
        RecAt (st.out ++ h ++ put16 n ++ pre ++ b) st.out.length
          ⟨owner, t, (Ttl.bswap ttl).toNat, [.bytes pre, .name ls]⟩ (st.out ++ h ++ put16 n ++ pre ++ b).length ∧
        NamePtr (st.out ++ h ++ put16 n ++ pre ++ b) ((st.out ++ h).length + 2 + pre.length) ls := by
  obtain ⟨nm, h1, h2⟩ := rrHead_spec t ttl ho
  have h20 := h2 []
  rw [List.append_nil] at h20
  have hsl := Short_len h1
  have hwp := wireLen_pos ls
  obtain ⟨hdr, q, e1, e2⟩ := hi.pkt
  have hhl : (nm ++ fixed t ++ Ttl.put32 ttl).length = nm.length + 8 := by
    simp [fixed_length, put32_length]
  generalize hhd : nm ++ fixed t ++ Ttl.put32 ttl = hd at *
  have hgood : ∀ t ∈ st.ts, Good (st.out ++ hd) t := fun t ht => Good_append _ (hi.good t ht)
  have hpk : ∃ hdr q : Bytes, hdr.length = 12 ∧ st.out ++ hd = hdr ++ (wireLabels qraw ++ [0]) ++ q :=
    ⟨hdr, q ++ hd, e1, by rw [e2]; simp⟩
  have store : ∀ m : Bytes, m.length = 2 → _ := fun m hm =>
    storeComp_spec (st.out ++ hd) (m ++ pre) ql qraw hi.wf hi.low hpk st.ts hgood hi.cnt ls hw mk
      (by simp [hm]; omega)
  have off : ∀ m : Bytes, m.length = 2 → (st.out ++ hd ++ (m ++ pre)).length = (st.out ++ hd).length + 2 + pre.length := by
    intro m hm; simp [hm]; omega
  obtain ⟨b, ts', f1, f2, f3, f4, f5, f6⟩ := store [0, 0] rfl
  rw [off _ rfl, ← hi.lq] at f1
  refine ⟨hd, b, ts', h20.1, f1, by omega, ?_⟩
  intro n hn
  obtain ⟨b', ts'', g1, g2, g3, g4, g5, g6⟩ := store (put16 n) rfl
  rw [off _ rfl, ← hi.lq, f1] at g1
  simp only [Outcome.ok.injEq, Prod.mk.injEq] at g1
  obtain ⟨rfl, rfl⟩ := g1
  rw [off _ rfl] at g6
  have ea : st.out ++ hd ++ (put16 n ++ pre) ++ b = st.out ++ hd ++ put16 n ++ pre ++ b := by simp
  rw [ea] at g2 g6
  refine ⟨g2, g3, ?_, ?_⟩
  · have hnl : n = (pre ++ b).length := by simp; omega
    have := recAt_intro (p := st.out) (nm := nm) (rd := pre ++ b) (owner := owner) (t := t) (ttl := ttl)
      (ps := [.bytes pre, .name ls]) h20.2 ht (by simp; omega) (by
        rw [hhd, ← hnl]
        refine .bytes ?_ (.name ?_ .nil)
        · have : st.out ++ hd ++ put16 n ++ (pre ++ b) = (st.out ++ hd ++ put16 n) ++ (pre ++ b) := by simp
          have hl : (st.out ++ hd ++ put16 n).length = st.out.length + nm.length + 10 := by
            simp [put16_length]; omega
          rw [this, ← hl, List.drop_left]; exact List.prefix_append _ _
        · rw [← List.append_assoc]
          have : (st.out ++ hd).length + 2 + pre.length = st.out.length + nm.length + 10 + pre.length := by
            simp; omega
          rw [this] at g6
          have hh : st.out.length + nm.length + 10 + n = st.out.length + nm.length + 10 + pre.length + b.length := by
            omega
          rw [hh]; exact g6)
    rw [hhd, ← hnl, ← List.append_assoc] at this
    exact this
  · have := hi.long
    exact ⟨by simp; omega, _, g6⟩

/-! ### NS -/

theorem encNsLoop_spec {qraw ql owner : List Bytes} {env : Env} (ttl : UInt32) :
    ∀ (l : List NsRd) (st : St), Inv qraw ql env st → NamePtr st.out st.ac owner → (∀ x ∈ l, NameOk x.dname) →
    st.out.length + (l.map fun x => 12 + nameLen x.dname).sum ≤ 16384 →
    ∃ os st', encNsLoop env ttl l st = .ok (os, st') ∧ os.length = l.length ∧
      (∀ p ∈ l.zip os, NamePtr st'.out p.2 (labelsOf p.1.dname)) ∧
      Step qraw ql env st st' (l.map fun x => ⟨owner, 2, ttlVal ttl, [.name (labelsOf x.dname)]⟩)
        (l.map fun x => 12 + nameLen x.dname).sum ∧ SameMeta st st' ∧ st'.an = st.an ∧ st'.ar = st.ar ∧
      st'.qc = st.qc ∧ st'.cn = st.cn ∧ st'.scope = st.scope := by
  intro l
  induction l with
  | nil =>
    intro st hi _ _ _
    exact ⟨[], st, rfl, rfl, by simp, .refl hi rfl, ⟨rfl, rfl, rfl, rfl, rfl⟩, rfl, rfl, rfl, rfl, rfl⟩
  | cons x l ih =>
    intro st hi ho hn hs
    obtain ⟨hw, he⟩ := NameOk_encode (hn x (by simp))
    simp only [List.map_cons, List.sum_cons] at hs
    obtain ⟨h, b, ts', f1, f2, f3, f4⟩ := nameRec hi 2 ttl st.ac ho (by omega) [] (labelsOf x.dname) hw true
      (by simp [nameLen] at hs ⊢; omega)
    obtain ⟨g1, g2, g3, g4⟩ := f4 b.length rfl
    simp only [List.append_nil, List.length_nil, Nat.add_zero] at f2 f3 g1 g3 g4
    rw [← he] at f2
    have hstep : Step qraw ql env st { st with out := st.out ++ h ++ put16 b.length ++ b, ts := ts' }
        [⟨owner, 2, ttlVal ttl, [.name (labelsOf x.dname)]⟩] (12 + nameLen x.dname) := by
      refine ⟨hi.extendTs (h ++ put16 b.length ++ b) (by simp) g1 g2, ⟨h ++ put16 b.length ++ b, by simp, ?_⟩, ?_⟩
      · simp [put16_length, nameLen]; omega
      · obtain ⟨a1, a2, a3, a4, a5, a6, a7, a8, a9⟩ := g3
        exact .cons ⟨a1, a2, a3, a4, a5, a6, a7, pieces_skip a8, a9⟩ .nil
    obtain ⟨bs, q1, q2⟩ := hstep.out
    simp only at q1
    obtain ⟨os, st', i1, i2, i3, i4, i5, i6, i7, i8, i9, i10⟩ := ih
      { st with out := st.out ++ h ++ put16 b.length ++ b, ts := ts' }
      hstep.inv (hstep.namePtr ho) (fun y hy => hn y (by simp [hy])) (by
        simp only [q1, List.length_append]; omega)
    refine ⟨((st.out ++ h).length + 2) :: os, st', ?_, by simp [i2], ?_, ?_, i5, i6, i7, i8, i9, i10⟩
    · rw [encNsLoop, f1, Outcome.bind_ok, f2, Outcome.bind_ok, i1, Outcome.bind_ok]
    · intro p hp
      rw [List.zip_cons_cons, List.mem_cons] at hp
      rcases hp with rfl | hp
      · exact i4.namePtr g4
      · exact i3 p hp
    · have := hstep.trans i4
      simpa using this

theorem encGlue_spec {qraw ql owner : List Bytes} {env : Env} {st : St} (hi : Inv qraw ql env st)
    (t alen : Nat) (ht : t < 65536) (ha : alen = 4 ∨ alen = 16) (g : Option Glue) (hg : GlueOk alen g)
    (o : Nat) (ho : NamePtr st.out o owner) :
    ∃ st' recs, encGlue env st t alen g o = .ok st' ∧ recs.Perm (glueRecs owner t g) ∧
      Step qraw ql env st st' recs (glueSize alen g) ∧ SameMeta st st' ∧
      st'.qc = st.qc ∧ st'.cn = st.cn ∧ st'.scope = st.scope ∧ st'.an = st.an ∧ st'.ar = st.ar + recs.length := by
  cases g with
  | none =>
    exact ⟨st, [], rfl, .refl _, .refl hi rfl, ⟨rfl, rfl, rfl, rfl, rfl⟩, rfl, rfl, rfl, rfl, rfl⟩
  | some g =>
    obtain ⟨hne, hl⟩ := hg
    obtain ⟨st', k, h1, h2, h3, h4, h5, h6, h7, h8, h9, _⟩ := encAddrSet_spec hi t alen ht ha g.ttl g.addrs hne hl o ho true
    refine ⟨st', _, h1, h2.map _, h3, h4, h5, h6, h7, h8, ?_⟩
    rw [h9]; simp [h2.length_eq]

theorem encNsGlue_spec {qraw ql : List Bytes} {env : Env} :
    ∀ (l : List NsRd) (os : List Nat) (st : St), Inv qraw ql env st → os.length = l.length →
    (∀ p ∈ l.zip os, NamePtr st.out p.2 (labelsOf p.1.dname)) →
    (∀ x ∈ l, GlueOk 4 x.glue4 ∧ GlueOk 16 x.glue6) →
    ∃ st' recs, encNsGlue env l os st = .ok st' ∧ recs.Perm (nsGlueRecs l) ∧
      Step qraw ql env st st' recs (l.map fun x => glueSize 4 x.glue4 + glueSize 16 x.glue6).sum ∧ SameMeta st st' ∧
      st'.qc = st.qc ∧ st'.cn = st.cn ∧ st'.scope = st.scope ∧ st'.an = st.an ∧ st'.ar = st.ar + recs.length := by
  intro l
  induction l with
  | nil =>
    intro os st hi _ _ _
    refine ⟨st, [], by simp [encNsGlue], .refl _, .refl hi rfl, ⟨rfl, rfl, rfl, rfl, rfl⟩, rfl, rfl, rfl, rfl, rfl⟩
  | cons x l ih =>
    intro os st hi hlen hp hg
    cases os with
    | nil => simp at hlen
    | cons o os =>
      have hx := hg x (by simp)
      have hox := hp (x, o) (by simp)
      obtain ⟨s1, r1, a1, a2, a3, a4, a5, a6, a7, a8, a9⟩ := encGlue_spec hi 1 4 (by omega) (Or.inl rfl) x.glue4 hx.1 o hox
      obtain ⟨s2, r2, b1, b2, b3, b4, b5, b6, b7, b8, b9⟩ := encGlue_spec a3.inv 28 16 (by omega) (Or.inr rfl) x.glue6 hx.2 o
        (a3.namePtr hox)
      obtain ⟨s3, r3, c1, c2, c3, c4, c5, c6, c7, c8, c9⟩ := ih os s2 b3.inv (by simpa using hlen)
        (fun p hp' => b3.namePtr (a3.namePtr (hp p (by simp [hp'])))) (fun y hy => hg y (by simp [hy]))
      refine ⟨s3, r1 ++ r2 ++ r3, ?_, ?_, ?_, ?_, by rw [c5, b5, a5], by rw [c6, b6, a6], by rw [c7, b7, a7],
        by rw [c8, b8, a8], ?_⟩
      · rw [encNsGlue, a1, Outcome.bind_ok, b1, Outcome.bind_ok, c1]
      · simp only [nsGlueRecs, List.flatMap_cons]
        exact (a2.append b2).append c2
      · have := (a3.trans b3).trans c3
        simpa using this
      · obtain ⟨p1, p2, p3, p4, p5⟩ := a4
        obtain ⟨q1, q2, q3, q4, q5⟩ := b4
        obtain ⟨w1, w2, w3, w4, w5⟩ := c4
        exact ⟨by rw [w1, q1, p1], by rw [w2, q2, p2], by rw [w3, q3, p3], by rw [w4, q4, p4], by rw [w5, q5, p5]⟩
      · rw [c9, b9, a9]; simp; omega

theorem sum_map_add {α : Type} (f g : α → Nat) (l : List α) :
    (l.map fun x => f x + g x).sum = (l.map f).sum + (l.map g).sum := by
  induction l with
  | nil => rfl
  | cons a l ih => simp only [List.map_cons, List.sum_cons, ih]; omega

theorem SameMeta.trans {a b c : St} (h1 : SameMeta a b) (h2 : SameMeta b c) : SameMeta a c := by
  obtain ⟨p1, p2, p3, p4, p5⟩ := h1
  obtain ⟨q1, q2, q3, q4, q5⟩ := h2
  exact ⟨by rw [q1, p1], by rw [q2, p2], by rw [q3, p3], by rw [q4, p4], by rw [q5, p5]⟩

theorem SameMeta.refl (a : St) : SameMeta a a := ⟨rfl, rfl, rfl, rfl, rfl⟩

theorem encNs_spec {qraw ql owner : List Bytes} {env : Env} (ttl : UInt32) (l : List NsRd) (st : St)
    (hi : Inv qraw ql env st) (ho : NamePtr st.out st.ac owner) (hne : l ≠ []) (h64 : l.length ≤ 64)
    (hok : ∀ x ∈ l, NameOk x.dname ∧ GlueOk 4 x.glue4 ∧ GlueOk 16 x.glue6)
    (hs : st.out.length + (l.map fun x => 12 + nameLen x.dname).sum ≤ 16384) :
    ∃ st' add, encNs env st ttl l = .ok st' ∧ add.Perm (nsGlueRecs l) ∧
      Step qraw ql env st st' ((l.map fun x => ⟨owner, 2, ttlVal ttl, [.name (labelsOf x.dname)]⟩) ++ add)
        (l.map fun x => 12 + nameLen x.dname + glueSize 4 x.glue4 + glueSize 16 x.glue6).sum ∧ SameMeta st st' ∧
      st'.qc = st.qc ∧ st'.cn = st.cn ∧ st'.scope = st.scope ∧ st'.an = st.an + l.length ∧
      st'.ar = st.ar + add.length := by
  obtain ⟨os, s1, a1, a2, a3, a4, a5, a6, a7, a8, a9, a10⟩ := encNsLoop_spec (qraw := qraw) (ql := ql) (owner := owner) (env := env)
    ttl l { st with an := st.an + l.length } (hi.extend [] (by simp) rfl) ho (fun x hx => (hok x hx).1) hs
  obtain ⟨s2, add, b1, b2, b3, b4, b5, b6, b7, b8, b9⟩ := encNsGlue_spec l os s1 a4.inv a2 a3 (fun x hx => (hok x hx).2)
  refine ⟨s2, add, ?_, b2, ?_, ?_, by rw [b5, a8], by rw [b6, a9], by rw [b7, a10], by rw [b8, a6], by rw [b9, a7]⟩
  · have h1 : (l.length != 0) = true := by
      cases l with
      | nil => exact absurd rfl hne
      | cons _ _ => simp
    rw [encNs, h1, assert_true, Outcome.bind_ok, decide_eq_true h64, assert_true, Outcome.bind_ok, a1, Outcome.bind_ok, b1]
  · have h := a4.trans b3
    rw [← sum_map_add] at h
    simp only [Nat.add_assoc] at h ⊢
    exact ⟨h.inv, h.out, h.recs⟩
  · have := a5.trans b4
    exact this

/-! ### MX, and the uncompressed kinds -/

theorem encMx_spec {qraw ql owner : List Bytes} {env : Env} (ttl : UInt32) :
    ∀ (l : List (Bytes × Bytes)) (st : St), Inv qraw ql env st → NamePtr st.out st.qc owner →
    (∀ x ∈ l, x.1.length = 2 ∧ NameOk x.2) →
    st.out.length + (l.map fun x => 12 + 2 + nameLen x.2).sum ≤ 16384 →
    ∃ st', encMx env ttl l st = .ok st' ∧
      Step qraw ql env st st' (l.map fun x => ⟨owner, 15, ttlVal ttl, [.bytes x.1, .name (labelsOf x.2)]⟩)
        (l.map fun x => 12 + 2 + nameLen x.2).sum ∧ SameMeta st st' ∧ st'.an = st.an + l.length ∧ st'.ar = st.ar ∧
      st'.qc = st.qc ∧ st'.cn = st.cn ∧ st'.scope = st.scope := by
  intro l
  induction l with
  | nil =>
    intro st hi _ _ _
    exact ⟨st, rfl, .refl hi rfl, .refl _, rfl, rfl, rfl, rfl, rfl⟩
  | cons x l ih =>
    intro st hi ho hn hs
    obtain ⟨hx2, hxn⟩ := hn x (by simp)
    obtain ⟨hw, he⟩ := NameOk_encode hxn
    simp only [List.map_cons, List.sum_cons] at hs
    obtain ⟨h, b, ts', f1, f2, f3, f4⟩ := nameRec hi 15 ttl st.qc ho (by omega) x.1 (labelsOf x.2) hw true
      (by simp [nameLen, hx2] at hs ⊢; omega)
    obtain ⟨g1, g2, g3, _⟩ := f4 (b.length + 2) (by omega)
    rw [hx2] at f2 f3
    rw [← he] at f2
    have hstep : Step qraw ql env st
        { st with out := st.out ++ h ++ put16 (b.length + 2) ++ x.1 ++ b, ts := ts', an := st.an + 1 }
        [⟨owner, 15, ttlVal ttl, [.bytes x.1, .name (labelsOf x.2)]⟩] (12 + 2 + nameLen x.2) := by
      refine ⟨hi.extendTs (h ++ put16 (b.length + 2) ++ x.1 ++ b) (by simp) g1 g2,
        ⟨h ++ put16 (b.length + 2) ++ x.1 ++ b, by simp, ?_⟩, .cons g3 .nil⟩
      simp [put16_length, nameLen]; omega
    obtain ⟨bs, q1, q2⟩ := hstep.out
    simp only at q1
    obtain ⟨st', i1, i4, i5, i6, i7, i8, i9, i10⟩ := ih
      { st with out := st.out ++ h ++ put16 (b.length + 2) ++ x.1 ++ b, ts := ts', an := st.an + 1 }
      hstep.inv (hstep.namePtr ho) (fun y hy => hn y (by simp [hy])) (by
        simp only [q1, List.length_append]; omega)
    refine ⟨st', ?_, ?_, i5, by rw [i6]; simp; omega, i7, i8, i9, i10⟩
    · rw [encMx, f1, Outcome.bind_ok, f2, Outcome.bind_ok, i1]
    · have := hstep.trans i4
      simpa using this

theorem encPlain_spec {qraw ql owner : List Bytes} {env : Env} (t : Nat) (ht : t < 65536) (ttl : UInt32) :
    ∀ (l : List (Bytes × Bytes)) (st : St), Inv qraw ql env st → NamePtr st.out st.qc owner →
    (∀ x ∈ l, NameOk x.2) →
    st.out.length + (l.map fun x => 12 + x.1.length + nameLen x.2).sum ≤ 16384 →
    ∃ st', encPlain t ttl l st = .ok st' ∧
      Step qraw ql env st st' (l.map fun x => ⟨owner, t, ttlVal ttl, [.bytes x.1, .name (labelsOf x.2)]⟩)
        (l.map fun x => 12 + x.1.length + nameLen x.2).sum ∧ SameMeta st st' ∧ st'.an = st.an + l.length ∧
      st'.ar = st.ar ∧ st'.qc = st.qc ∧ st'.cn = st.cn ∧ st'.scope = st.scope := by
  intro l
  induction l with
  | nil =>
    intro st hi _ _ _
    exact ⟨st, rfl, .refl hi rfl, .refl _, rfl, rfl, rfl, rfl, rfl⟩
  | cons x l ih =>
    intro st hi ho hn hs
    obtain ⟨hw, he⟩ := NameOk_encode (hn x (by simp))
    simp only [List.map_cons, List.sum_cons] at hs
    obtain ⟨nm, h1, h2⟩ := rrHead_spec t ttl ho
    have h20 := h2 []
    rw [List.append_nil] at h20
    have hsl := Short_len h1
    have hwl := wireLabels_length (labelsOf x.2)
    have hsn := storeNocomp_eq _ hw
    rw [← he] at hsn
    have hrec := recAt_intro (p := st.out) (nm := nm) (rd := x.1 ++ (wireLabels (labelsOf x.2) ++ [0])) (owner := owner) (t := t)
      (ttl := ttl) (ps := [.bytes x.1, .name (labelsOf x.2)]) h20.2 ht (by simp [nameLen] at hs ⊢; omega) (by
        generalize hp : put16 (x.1 ++ (wireLabels (labelsOf x.2) ++ [0])).length = pl
        have hpl : pl.length = 2 := by rw [← hp]; rfl
        have hl1 : (st.out ++ (nm ++ fixed t ++ Ttl.put32 ttl) ++ pl).length = st.out.length + nm.length + 10 := by
          simp [hpl, fixed_length, put32_length]; omega
        refine .bytes ?_ (.name (e1 := st.out.length + nm.length + 10 + x.1.length + wireLen (labelsOf x.2)) ?_ ?_)
        · rw [← hl1, List.drop_left]; exact List.prefix_append _ _
        · have := NameAt_wire (st.out ++ (nm ++ fixed t ++ Ttl.put32 ttl) ++ pl ++ x.1) _ hw []
          rw [List.append_nil, List.length_append, hl1] at this
          rw [← List.append_assoc]; exact this
        · have : st.out.length + nm.length + 10 + x.1.length + wireLen (labelsOf x.2) =
              st.out.length + nm.length + 10 + (x.1 ++ (wireLabels (labelsOf x.2) ++ [0])).length := by
            simp; omega
          rw [this]; exact .nil)
    generalize hhd : nm ++ fixed t ++ Ttl.put32 ttl = hd at *
    have hhl : hd.length = nm.length + 8 := by rw [← hhd]; simp [fixed_length, put32_length]
    generalize hb : wireLabels (labelsOf x.2) ++ [0] = b at *
    have hbl : b.length = nameLen x.2 := by rw [← hb, nameLen]; simp; omega
    have hstep : Step qraw ql env st
        { st with out := st.out ++ hd ++ put16 (x.1.length + b.length) ++ x.1 ++ b, an := st.an + 1 }
        [⟨owner, t, ttlVal ttl, [.bytes x.1, .name (labelsOf x.2)]⟩] (12 + x.1.length + nameLen x.2) := by
      refine ⟨hi.extend (hd ++ put16 (x.1.length + b.length) ++ x.1 ++ b) (by simp) rfl,
        ⟨hd ++ put16 (x.1.length + b.length) ++ x.1 ++ b, by simp, ?_⟩, ?_⟩
      · simp [put16_length]; omega
      · rw [List.length_append (as := x.1), ← List.append_assoc] at hrec
        exact .cons hrec .nil
    obtain ⟨bs, q1, q2⟩ := hstep.out
    simp only at q1
    obtain ⟨st', i1, i4, i5, i6, i7, i8, i9, i10⟩ := ih
      { st with out := st.out ++ hd ++ put16 (x.1.length + b.length) ++ x.1 ++ b, an := st.an + 1 }
      hstep.inv (hstep.namePtr ho) (fun y hy => hn y (by simp [hy])) (by
        simp only [q1, List.length_append]; omega)
    refine ⟨st', ?_, ?_, i5, by rw [i6]; simp; omega, i7, i8, i9, i10⟩
    · rw [encPlain, h20.1, Outcome.bind_ok, hsn, Outcome.bind_ok, i1]
    · have := hstep.trans i4
      simpa using this

theorem encRaw_spec {qraw ql owner : List Bytes} {env : Env} (t : Nat) (ht : t < 65536) (ttl : UInt32) :
    ∀ (l : List Bytes) (st : St), Inv qraw ql env st → NamePtr st.out st.qc owner →
    st.out.length + (l.map fun b => 12 + b.length).sum ≤ 16384 →
    ∃ st', encRaw t ttl l st = .ok st' ∧
      Step qraw ql env st st' (l.map fun b => ⟨owner, t, ttlVal ttl, [.bytes b]⟩)
        (l.map fun b => 12 + b.length).sum ∧ SameMeta st st' ∧ st'.an = st.an + l.length ∧
      st'.ar = st.ar ∧ st'.qc = st.qc ∧ st'.cn = st.cn ∧ st'.scope = st.scope := by
  intro l
  induction l with
  | nil =>
    intro st hi _ _
    exact ⟨st, rfl, .refl hi rfl, .refl _, rfl, rfl, rfl, rfl, rfl⟩
  | cons x l ih =>
    intro st hi ho hs
    simp only [List.map_cons, List.sum_cons] at hs
    obtain ⟨nm, h1, h2⟩ := rrHead_spec t ttl ho
    have h20 := h2 []
    rw [List.append_nil] at h20
    have hsl := Short_len h1
    have hrec := recAt_intro (p := st.out) (nm := nm) (rd := x) (owner := owner) (t := t)
      (ttl := ttl) (ps := [.bytes x]) h20.2 ht (by omega) (by
        have := pieces_bytes (st.out ++ (nm ++ fixed t ++ Ttl.put32 ttl) ++ put16 x.length) x []
        rw [List.append_nil] at this
        have e : (st.out ++ (nm ++ fixed t ++ Ttl.put32 ttl) ++ put16 x.length).length =
            st.out.length + nm.length + 10 := by simp [fixed_length, put32_length, put16_length]; omega
        rwa [e] at this)
    generalize hhd : nm ++ fixed t ++ Ttl.put32 ttl = hd at *
    have hhl : hd.length = nm.length + 8 := by rw [← hhd]; simp [fixed_length, put32_length]
    have hstep : Step qraw ql env st { st with out := st.out ++ hd ++ put16 x.length ++ x, an := st.an + 1 }
        [⟨owner, t, ttlVal ttl, [.bytes x]⟩] (12 + x.length) := by
      refine ⟨hi.extend (hd ++ put16 x.length ++ x) (by simp) rfl, ⟨hd ++ put16 x.length ++ x, by simp, ?_⟩, .cons hrec .nil⟩
      simp [put16_length]; omega
    obtain ⟨bs, q1, q2⟩ := hstep.out
    simp only at q1
    obtain ⟨st', i1, i4, i5, i6, i7, i8, i9, i10⟩ := ih
      { st with out := st.out ++ hd ++ put16 x.length ++ x, an := st.an + 1 }
      hstep.inv (hstep.namePtr ho) (by simp only [q1, List.length_append]; omega)
    refine ⟨st', ?_, ?_, i5, by rw [i6]; simp; omega, i7, i8, i9, i10⟩
    · rw [encRaw, h20.1, Outcome.bind_ok, i1]
    · have := hstep.trans i4
      simpa using this

theorem encCname_spec {qraw ql owner : List Bytes} {env : Env} (ttl : UInt32) (d : Bytes) (hd : NameOk d) (chain : Bool)
    (st : St) (hi : Inv qraw ql env st) (ho : NamePtr st.out st.qc owner)
    (hs : st.out.length + (12 + nameLen d) ≤ 16384) :
    ∃ st', encCname env st ttl d chain = .ok st' ∧
      Step qraw ql env st st' [⟨owner, 5, ttlVal ttl, [.name (labelsOf d)]⟩] (12 + nameLen d) ∧ SameMeta st st' ∧
      st'.an = (bif chain then st.an else st.an + 1) ∧ st'.ar = st.ar ∧
      st'.cn = (bif chain then st.cn + 1 else st.cn) ∧ st'.scope = st.scope ∧
      (chain = true → NamePtr st'.out st'.qc (labelsOf d)) ∧ (chain = false → st'.qc = st.qc) := by
  obtain ⟨hw, he⟩ := NameOk_encode hd
  obtain ⟨h, b, ts', f1, f2, f3, f4⟩ := nameRec hi 5 ttl st.qc ho (by omega) [] (labelsOf d) hw false
    (by simp [nameLen] at hs ⊢; omega)
  obtain ⟨g1, g2, g3, g4⟩ := f4 b.length rfl
  simp only [List.append_nil, List.length_nil, Nat.add_zero] at f2 f3 g1 g3 g4
  rw [← he] at f2
  refine ⟨{ st with
    out := st.out ++ h ++ put16 b.length ++ b, ts := ts',
    qc := bif chain then (st.out ++ h).length + 2 else st.qc,
    cn := bif chain then st.cn + 1 else st.cn,
    an := bif chain then st.an else st.an + 1 }, ?_, ?_, ⟨rfl, rfl, rfl, rfl, rfl⟩, rfl, rfl, rfl, rfl, ?_, ?_⟩
  · rw [encCname, f1, Outcome.bind_ok, f2, Outcome.bind_ok]
  · refine ⟨hi.extendTs (h ++ put16 b.length ++ b) (by simp) g1 g2, ⟨h ++ put16 b.length ++ b, by simp, ?_⟩, ?_⟩
    · simp [put16_length, nameLen]; omega
    · obtain ⟨a1, a2, a3, a4, a5, a6, a7, a8, a9⟩ := g3
      exact .cons ⟨a1, a2, a3, a4, a5, a6, a7, pieces_skip a8, a9⟩ .nil
  · rintro rfl; exact g4
  · rintro rfl; rfl

/-- The packet is only looked at for an assertion. -/
theorem storeComp_pkt {p p' lq : Bytes} {ts : List CT} {d : Bytes} {off : Nat} {mk : Bool} {r r' : Bytes × List CT}
    (h : storeComp p lq ts d off mk = .ok r) (h' : storeComp p' lq ts d off mk = .ok r') : r = r' := by
  rw [storeComp] at h h'
  generalize (if ts.isEmpty then addQname lq else .ok ts) = o1 at h h'
  cases o1 with
  | ub => cases h
  | ok ts0 =>
    rw [Outcome.bind_ok] at h h'
    cases h1 : rd d 0 with
    | ub => rw [h1] at h; cases h
    | ok full =>
      rw [h1, Outcome.bind_ok] at h h'
      cases h2 : search d full.toNat mk (full.toNat + ts0.length + 1) [] ts0 1 full.toNat off with
      | ub => rw [h2] at h; cases h
      | ok x =>
        rw [h2, Outcome.bind_ok] at h h'
        obtain ⟨f, ts'⟩ := x
        cases f with
        | miss a b c => simp only at h h'; rw [h] at h'; exact Outcome.ok.inj h'
        | hit a b =>
          simp only at h h'
          cases h3 : assert (decide (1 + a ≤ d.length)) with
          | ub => rw [h3] at h; cases h
          | ok _ =>
            rw [h3, Outcome.bind_ok] at h h'
            cases h4 : rd p b with
            | ub => rw [h4] at h; cases h
            | ok x =>
              cases h5 : rd p' b with
              | ub => rw [h5] at h'; cases h'
              | ok y =>
                rw [h4, Outcome.bind_ok] at h
                rw [h5, Outcome.bind_ok] at h'
                cases h6 : assert (x &&& 0xC0 == 0) with
                | ub => rw [h6] at h; cases h
                | ok _ =>
                  cases h7 : assert (y &&& 0xC0 == 0) with
                  | ub => rw [h7] at h'; cases h'
                  | ok _ =>
                    rw [h6, Outcome.bind_ok] at h
                    rw [h7, Outcome.bind_ok] at h'
                    rw [← Outcome.ok.inj h, ← Outcome.ok.inj h']

theorem encSoa_spec {qraw ql owner : List Bytes} {env : Env} (ttl : UInt32) (m r times : Bytes) (hm : NameOk m)
    (hr : NameOk r) (htl : times.length = 20) (st : St) (hi : Inv qraw ql env st) (ho : NamePtr st.out st.ac owner)
    (hs : st.out.length + (12 + nameLen m + nameLen r + 20) ≤ 16384) :
    ∃ st', encSoa env st ttl m r times = .ok st' ∧
      Step qraw ql env st st' [⟨owner, 6, ttlVal ttl, [.name (labelsOf m), .name (labelsOf r), .bytes times]⟩]
        (12 + nameLen m + nameLen r + 20) ∧ SameMeta st st' ∧
      st'.an = st.an + 1 ∧ st'.ar = st.ar ∧ st'.cn = st.cn ∧ st'.scope = st.scope ∧ st'.qc = st.qc := by
  obtain ⟨hw, he⟩ := NameOk_encode hm
  obtain ⟨hw2, he2⟩ := NameOk_encode hr
  obtain ⟨nm, h1, h2⟩ := rrHead_spec 6 ttl ho
  have h20 := h2 []
  rw [List.append_nil] at h20
  have hsl := Short_len h1
  obtain ⟨hdr, q, e1, e2⟩ := hi.pkt
  have hhl : (nm ++ fixed 6 ++ Ttl.put32 ttl).length = nm.length + 8 := by
    simp [fixed_length, put32_length]
  generalize hhd : nm ++ fixed 6 ++ Ttl.put32 ttl = hd at *
  have hgood : ∀ t ∈ st.ts, Good (st.out ++ hd) t := fun t ht => Good_append _ (hi.good t ht)
  have hpk : ∃ hdr q : Bytes, hdr.length = 12 ∧ st.out ++ hd = hdr ++ (wireLabels qraw ++ [0]) ++ q :=
    ⟨hdr, q ++ hd, e1, by rw [e2]; simp⟩
  simp only [nameLen] at hs ⊢
  have hwp := wireLen_pos (labelsOf r)
  have store : ∀ w : Bytes, w.length = 2 → _ := fun w hw' =>
    storeComp_spec (st.out ++ hd) w ql qraw hi.wf hi.low hpk st.ts hgood hi.cnt _ hw true
      (by simp [hw']; omega)
  have off : ∀ w : Bytes, w.length = 2 → (st.out ++ hd ++ w).length = (st.out ++ hd).length + 2 := by
    intro w hw'; simp [hw']; omega
  obtain ⟨b, ts', f1, f2, f3, f4, f5, f6⟩ := store [0, 0] rfl
  rw [off _ rfl, ← hi.lq, ← he] at f1
  have hpk2 : ∀ w : Bytes, ∃ hdr q : Bytes, hdr.length = 12 ∧ st.out ++ hd ++ w ++ b = hdr ++ (wireLabels qraw ++ [0]) ++ q :=
    fun w => ⟨hdr, q ++ hd ++ w ++ b, e1, by rw [e2]; simp⟩
  have off2 : ∀ w : Bytes, w.length = 2 → (st.out ++ hd ++ w ++ b).length = (st.out ++ hd).length + 2 + b.length := by
    intro w hw'; simp [hw']; omega
  obtain ⟨c, ts2, k1, k2, k3, k4, k5, k6⟩ := storeComp_spec (st.out ++ hd ++ [0, 0] ++ b) [] ql qraw hi.wf hi.low (hpk2 _) ts' f2 f3
    _ hw2 false (by rw [List.append_nil, off2 _ rfl]; simp; omega)
  rw [List.append_nil, off2 _ rfl, ← hi.lq, ← he2] at k1
  generalize hn : b.length + c.length + times.length = n
  obtain ⟨b', ts3, g1, g2, g3, g4, g5, g6⟩ := store (put16 n) rfl
  rw [off _ rfl, ← hi.lq, ← he, f1] at g1
  simp only [Outcome.ok.injEq, Prod.mk.injEq] at g1
  obtain ⟨rfl, rfl⟩ := g1
  obtain ⟨c', ts4, l1, l2, l3, l4, l5, l6⟩ := storeComp_spec (st.out ++ hd ++ put16 n ++ b) [] ql qraw hi.wf hi.low (hpk2 _) ts' g2 g3
    _ hw2 false (by rw [List.append_nil, off2 _ rfl]; simp; omega)
  rw [List.append_nil, off2 _ rfl, ← hi.lq, ← he2] at l1
  have hcc := storeComp_pkt k1 l1
  simp only [Prod.mk.injEq] at hcc
  obtain ⟨rfl, rfl⟩ := hcc
  rw [List.append_nil] at l2 l6
  have hfin : st.out ++ hd ++ put16 n ++ b ++ c ++ times = st.out ++ (hd ++ put16 n ++ b ++ c ++ times) := by simp
  refine ⟨{ st with
    out := st.out ++ hd ++ put16 n ++ b ++ c ++ times,
    ts := ts2, an := st.an + 1 }, ?_, ?_, ⟨rfl, rfl, rfl, rfl, rfl⟩, rfl, rfl, rfl, rfl, rfl⟩
  · rw [encSoa, h20.1, Outcome.bind_ok, f1, Outcome.bind_ok, k1, Outcome.bind_ok, hn]
  · refine ⟨hi.extendTs _ hfin ?_ l3, ⟨_, hfin, ?_⟩, ?_⟩
    · intro t ht
      exact Good_append _ (l2 t ht)
    · simp [put16_length]; omega
    · have hrl : n = (b ++ c ++ times).length := by simp; omega
      have hrec := recAt_intro (p := st.out) (nm := nm) (rd := b ++ c ++ times) (owner := owner) (t := 6)
        (ttl := ttl) (ps := [.name (labelsOf m), .name (labelsOf r), .bytes times]) h20.2 (by omega) (by simp; omega) (by
          rw [hhd, ← hrl]
          have ea : st.out ++ hd ++ put16 n ++ (b ++ c ++ times) = st.out ++ hd ++ put16 n ++ b ++ c ++ times := by simp
          rw [ea]
          have o1 : (st.out ++ hd ++ put16 n).length = st.out.length + nm.length + 10 := by
            simp [put16_length]; omega
          have o2 : (st.out ++ hd ++ put16 n ++ b).length = st.out.length + nm.length + 10 + b.length := by
            rw [List.length_append, o1]
          have o3 : (st.out ++ hd ++ put16 n ++ b ++ c).length = st.out.length + nm.length + 10 + b.length + c.length := by
            rw [List.length_append, o2]
          rw [o1] at g6
          rw [o2] at l6
          refine .name (ReadsAs_append _ (ReadsAs_append _ g6)) (.name (ReadsAs_append _ l6) ?_)
          have := pieces_bytes (st.out ++ hd ++ put16 n ++ b ++ c) times []
          rw [List.append_nil, o3] at this
          have oe : st.out.length + nm.length + 10 + n = st.out.length + nm.length + 10 + b.length + c.length + times.length := by
            omega
          rw [oe]; exact this)
      rw [hhd, ← hrl] at hrec
      have ea : st.out ++ hd ++ put16 n ++ (b ++ c ++ times) = st.out ++ hd ++ put16 n ++ b ++ c ++ times := by simp
      rw [ea] at hrec
      exact .cons hrec .nil

/-! ### Dynamic addresses -/

theorem dynTtl_eq (d : DynRes) (ttl m : UInt32) (hv : Mon.Valid d.sttl) : Ttl.dynCallbackTtl d.sttl ttl m =
      if (Ttl.bswap ttl).toNat < Mon.ttl d.sttl then .ok ttl
      else if Mon.ttl d.sttl < m.toNat then .ok (Ttl.bswap m) else .ok (Ttl.bswap (d.sttl &&& Mon.TTLMASK)) := by
  have hr : d.sttl &&& Mon.RESERVED = 0 := (Mon.valid_iff _).mp hv
  have ht := Mon.ttl_eq d.sttl
  rw [Ttl.dynCallbackTtl, hr, ht]
  have : ((0:UInt32) == 0) = true := rfl
  simp only [GT.gt, UInt32.lt_iff_toNat_lt]
  rw [this, assert_true, Outcome.bind_ok]
theorem dynTtl_ok (d : DynRes) (ttl m : UInt32) (hv : Mon.Valid d.sttl) : ∃ t, Ttl.dynCallbackTtl d.sttl ttl m = .ok t ∧ 
   ttlVal t = dynTtl d ttl m := by
  have hd := dynTtl_eq d ttl m hv
  have ht := Mon.ttl_eq d.sttl
  rw [hd]
  unfold dynTtl ttlVal
  generalize hv : Mon.ttl d.sttl = v at *
  by_cases h1 : (Ttl.bswap ttl).toNat < v
  · exact ⟨ttl, by rw [if_pos h1], by rw [if_pos h1]⟩
  · by_cases h2 : v < m.toNat
    · exact ⟨Ttl.bswap m, by rw [if_neg h1, if_pos h2], by rw [if_neg h1, Ttl.bswap_bswap]; omega⟩
    · exact ⟨_, by rw [if_neg h1, if_neg h2], by rw [if_neg h1, Ttl.bswap_bswap, ← ht]; omega⟩

theorem dynCallback_ok (env : Env) (st : St) (res : Nat) (ttl m : UInt32) (hv : Mon.Valid (env.resolve res).sttl) :
    ∃ t, dynCallback env st res ttl m = .ok (t, { st with scope := max (env.resolve res).scope st.scope }) ∧
      ttlVal t = dynTtl (env.resolve res) ttl m := by
  obtain ⟨t, h1, h2⟩ := dynTtl_ok (env.resolve res) ttl m hv
  exact ⟨t, by rw [dynCallback, h1, Outcome.bind_ok, Ttl.C16_scope], h2⟩

theorem encDyn_spec {qraw ql owner : List Bytes} {env : Env} {st : St} (hi : Inv qraw ql env st)
    (t alen : Nat) (ht : t < 65536) (ha : alen = 4 ∨ alen = 16) (pick : DynRes → List Bytes) (res : Nat) (ttl m : UInt32)
    (hv : Mon.Valid (env.resolve res).sttl) (hc : (env.resolve res).cname = none)
    (hl : ∀ a ∈ pick (env.resolve res), a.length = alen) (ho : NamePtr st.out st.qc owner) :
    ∃ st' recs, encDyn env st t alen pick res ttl m = .ok st' ∧
      recs.Perm ((pick (env.resolve res)).map fun a => ⟨owner, t, dynTtl (env.resolve res) ttl m, [.bytes a]⟩) ∧
      Step qraw ql env st st' recs ((pick (env.resolve res)).length * (12 + alen)) ∧ SameMeta st st' ∧
      st'.qc = st.qc ∧ st'.cn = st.cn ∧ st'.scope = max (env.resolve res).scope st.scope ∧
      st'.an = st.an + recs.length ∧ st'.ar = st.ar := by
  obtain ⟨tt, h1, h2⟩ := dynCallback_ok env st res ttl m hv
  rw [encDyn, h1, Outcome.bind_ok, hc]
  simp only [Option.isNone_none, assert_true, Outcome.bind_ok]
  generalize hp : pick (env.resolve res) = l at *
  have hi' : Inv qraw ql env { st with scope := max (env.resolve res).scope st.scope } := hi.extend [] (by simp) rfl
  cases l with
  | nil =>
    refine ⟨_, [], rfl, .refl _, (Step.refl (a := st) hi' rfl).mono (by simp), ⟨rfl, rfl, rfl, rfl, rfl⟩, rfl, rfl, rfl, rfl, rfl⟩
  | cons a l =>
    obtain ⟨st', k, g1, g2, g3, g4, g5, g6, g7, g8, g9, _⟩ := encAddrSet_spec hi' t alen ht ha tt (a :: l) (by simp) hl st.qc ho false
    refine ⟨st', addrRecs owner t tt k, ?_, ?_, ⟨g3.inv, g3.out, g3.recs⟩, g4, g5, g6, g7, ?_, g9⟩
    · rw [if_pos (by simp)]; exact g1
    · rw [← h2]; exact g2.map _
    · rw [g8]; simp [addrRecs, g2.length_eq]

/-! ### All kinds -/

/-- NS and SOA records are owned by the zone cut or apex (`auth_comp`), all others by the
name asked for (`qname_comp`). -/
def atAuth (r : RRset) : Bool :=
  match r.body with
  | .ns _ => true
  | .soa _ _ _ => true
  | _ => false

/-- The scope after a record set was used. -/
def scopeOf (resolve : Nat → DynRes) (r : RRset) (s : Nat) : Nat :=
  match r.body with
  | .dynA res _ => max (resolve res).scope s
  | .dynAAAA res _ => max (resolve res).scope s
  | _ => s

theorem encRRset_spec {qraw ql owner : List Bytes} {env : Env} {st : St} (hi : Inv qraw ql env st) (r : RRset)
    (hok : RRsetOk env.resolve r) (ho : NamePtr st.out (bif atAuth r then st.ac else st.qc) owner)
    (hs : st.out.length + rrSize env.resolve r ≤ 16384) :
    ∃ st' ans add, encRRset env st r = .ok st' ∧ ans.Perm (answerRecs env.resolve owner r) ∧
      add.Perm (extraRecs r) ∧ Step qraw ql env st st' (ans ++ add) (rrSize env.resolve r) ∧ SameMeta st st' ∧
      st'.qc = st.qc ∧ st'.cn = st.cn ∧ st'.scope = scopeOf env.resolve r st.scope ∧
      st'.an = st.an + ans.length ∧ st'.ar = st.ar + add.length := by
  obtain ⟨ttl, body⟩ := r
  cases body with
  | a l =>
    obtain ⟨st', k, g1, g2, g3, g4, g5, g6, g7, g8, g9, _⟩ := encAddrSet_spec hi 1 4 (by omega) (Or.inl rfl) ttl l hok.1 hok.2 st.qc ho false
    refine ⟨st', _, [], g1, g2.map _, .refl _, by rw [List.append_nil]; exact g3, g4, g5, g6, g7, ?_, g9⟩
    rw [g8]; simp [g2.length_eq]
  | aaaa l =>
    obtain ⟨st', k, g1, g2, g3, g4, g5, g6, g7, g8, g9, _⟩ := encAddrSet_spec hi 28 16 (by omega) (Or.inr rfl) ttl l hok.1 hok.2 st.qc ho false
    refine ⟨st', _, [], g1, g2.map _, .refl _, by rw [List.append_nil]; exact g3, g4, g5, g6, g7, ?_, g9⟩
    rw [g8]; simp [g2.length_eq]
  | dynA res m =>
    obtain ⟨o1, o2, o3, o4⟩ := hok
    obtain ⟨st', recs, g1, g2, g3, g4, g5, g6, g7, g8, g9⟩ := encDyn_spec hi 1 4 (by omega) (Or.inl rfl) DynRes.v4 res ttl m o1 o2 o3 ho
    exact ⟨st', recs, [], g1, g2, .refl _, by rw [List.append_nil]; exact g3, g4, g5, g6, g7, g8, g9⟩
  | dynAAAA res m =>
    obtain ⟨o1, o2, o3, o4⟩ := hok
    obtain ⟨st', recs, g1, g2, g3, g4, g5, g6, g7, g8, g9⟩ := encDyn_spec hi 28 16 (by omega) (Or.inr rfl) DynRes.v6 res ttl m o1 o2 o4 ho
    exact ⟨st', recs, [], g1, g2, .refl _, by rw [List.append_nil]; exact g3, g4, g5, g6, g7, g8, g9⟩
  | soa m n t =>
    obtain ⟨o1, o2, o3⟩ := hok
    obtain ⟨st', g1, g2, g3, g4, g5, g6, g7, g8⟩ := encSoa_spec ttl m n t o1 o2 o3 st hi ho hs
    exact ⟨st', _, [], g1, .refl _, .refl _, by rw [List.append_nil]; exact g2, g3, g8, g6, g7, g4, g5⟩
  | cname d =>
    obtain ⟨st', g1, g2, g3, g4, g5, g6, g7, g8, g9⟩ := encCname_spec ttl d hok false st hi ho hs
    exact ⟨st', _, [], g1, .refl _, .refl _, by rw [List.append_nil]; exact g2, g3, g9 rfl, g6, g7, g4, g5⟩
  | dync res m => exact absurd hok id
  | ns l =>
    obtain ⟨o1, o2, o3⟩ := hok
    have hle : (l.map fun x => 12 + nameLen x.dname).sum ≤
        (l.map fun x => 12 + nameLen x.dname + glueSize 4 x.glue4 + glueSize 16 x.glue6).sum := by
      simp only [Nat.add_assoc (12 + _)]
      rw [sum_map_add (fun x : NsRd => 12 + nameLen x.dname)]; omega
    simp only [rrSize] at hs
    obtain ⟨st', add, g1, g2, g3, g4, g5, g6, g7, g8, g9⟩ := encNs_spec ttl l st hi ho o1 o2 o3 (by omega)
    exact ⟨st', _, add, g1, .refl _, g2, g3, g4, g5, g6, g7, by rw [g8]; simp [answerRecs], g9⟩
  | ptr l =>
    have hm : (l.map fun d => ((([] : Bytes), d) : Bytes × Bytes)).map (fun x => 12 + x.1.length + nameLen x.2) =
        l.map fun d => 12 + nameLen d := by simp
    obtain ⟨st', g1, g2, g3, g4, g5, g6, g7, g8⟩ := encPlain_spec 12 (by omega) ttl (l.map fun d => ([], d)) st hi ho
      (by intro x hx; obtain ⟨d, hd, rfl⟩ := List.mem_map.mp hx; exact hok d hd) (by rw [hm]; exact hs)
    rw [hm] at g2
    refine ⟨st', _, [], g1, .refl _, .refl _, ?_, g3, g6, g7, g8, by rw [g4]; simp [answerRecs], g5⟩
    rw [List.append_nil]
    refine ⟨g2.inv, g2.out, ?_⟩
    have := g2.recs
    rw [List.map_map] at this
    exact RecsAt_skip (fun d => ⟨owner, 12, ttlVal ttl, []⟩) labelsOf this
  | mx l =>
    obtain ⟨st', g1, g2, g3, g4, g5, g6, g7, g8⟩ := encMx_spec ttl l st hi ho hok hs
    exact ⟨st', _, [], g1, .refl _, .refl _, by rw [List.append_nil]; exact g2, g3, g6, g7, g8, by rw [g4]; simp [answerRecs], g5⟩
  | srv l =>
    have hm : l.map (fun x => 12 + x.1.length + nameLen x.2) = l.map fun x => 12 + 2 + 2 + 2 + nameLen x.2 := by
      apply List.map_congr_left
      intro x hx
      rw [(hok x hx).1]
    obtain ⟨st', g1, g2, g3, g4, g5, g6, g7, g8⟩ := encPlain_spec 33 (by omega) ttl l st hi ho (fun x hx => (hok x hx).2)
      (by rw [hm]; exact hs)
    rw [hm] at g2
    exact ⟨st', _, [], g1, .refl _, .refl _, by rw [List.append_nil]; exact g2, g3, g6, g7, g8, by rw [g4]; simp [answerRecs], g5⟩
  | naptr l =>
    have hm : (l.map fun x => ((x.1 ++ x.2.1, x.2.2) : Bytes × Bytes)).map (fun x => 12 + x.1.length + nameLen x.2) =
        l.map fun x => 12 + 2 + 2 + x.2.1.length + nameLen x.2.2 := by
      rw [List.map_map]
      apply List.map_congr_left
      intro x hx
      have := (hok x hx).1
      simp only [Function.comp, List.length_append]; omega
    obtain ⟨st', g1, g2, g3, g4, g5, g6, g7, g8⟩ := encPlain_spec 35 (by omega) ttl (l.map fun x => (x.1 ++ x.2.1, x.2.2)) st hi ho
      (by intro x hx; obtain ⟨d, hd, rfl⟩ := List.mem_map.mp hx; exact (hok d hd).2) (by rw [hm]; exact hs)
    rw [hm] at g2
    refine ⟨st', answerRecs env.resolve owner ⟨ttl, .naptr l⟩, [], g1, .refl _, .refl _, ?_, g3, g6, g7, g8,
      by rw [g4]; simp [answerRecs], g5⟩
    rw [List.append_nil]
    refine ⟨g2.inv, g2.out, ?_⟩
    have := g2.recs
    rw [List.map_map] at this
    exact this
  | txt l =>
    obtain ⟨st', g1, g2, g3, g4, g5, g6, g7, g8⟩ := encRaw_spec 16 (by omega) ttl l st hi ho hs
    exact ⟨st', _, [], g1, .refl _, .refl _, by rw [List.append_nil]; exact g2, g3, g6, g7, g8, by rw [g4]; simp [answerRecs], g5⟩
  | raw t l =>
    obtain ⟨st', g1, g2, g3, g4, g5, g6, g7, g8⟩ := encRaw_spec t hok ttl l st hi ho hs
    exact ⟨st', _, [], g1, .refl _, .refl _, by rw [List.append_nil]; exact g2, g3, g6, g7, g8, by rw [g4]; simp [answerRecs], g5⟩

end Gdnsd.Enc
