import Verif.Enc.StoreLemmas
import Verif.Enc.Rr
import Verif.Rand.Props
import Verif.Rand.TtlProps
/-
The record encoders write records that read back as the stored data.
-/
namespace Gdnsd.Enc
open DnameSpec EncSpec Dname

/-! ### Reading survives appending -/

theorem U16At_append {p : Bytes} (q : Bytes) {o v : Nat} (h : U16At p o v) : U16At (p ++ q) o v := by
  obtain ⟨a, b, h1, h2, h3⟩ := h
  exact ⟨a, b, getElem?_append_some h1, getElem?_append_some h2, h3⟩

theorem U32At_append {p : Bytes} (q : Bytes) {o v : Nat} (h : U32At p o v) : U32At (p ++ q) o v := by
  obtain ⟨a, b, h1, h2, h3⟩ := h
  exact ⟨a, b, U16At_append q h1, U16At_append q h2, h3⟩

theorem PiecesAt_append {p : Bytes} (q : Bytes) {o : Nat} {ps : List Piece} {e : Nat}
    (h : PiecesAt p o ps e) : PiecesAt (p ++ q) o ps e := by
  induction h with
  | nil => exact .nil
  | bytes h _ ih => exact .bytes (prefix_drop_append h) ih
  | name h _ ih => exact .name (ReadsAs_append q h) ih

theorem RecAt_append {p : Bytes} (q : Bytes) {o : Nat} {r : Rec} {e : Nat}
    (h : RecAt p o r e) : RecAt (p ++ q) o r e := by
  obtain ⟨e1, n, h1, h2, h3, h4, h5, h6, h7⟩ := h
  exact ⟨e1, n, ReadsAs_append q h1, U16At_append q h2, U16At_append q h3, U32At_append q h4,
    U16At_append q h5, PiecesAt_append q h6, h7⟩

theorem RecsAt_append {p : Bytes} (q : Bytes) {o : Nat} {rs : List Rec} {e : Nat}
    (h : RecsAt p o rs e) : RecsAt (p ++ q) o rs e := by
  induction h with
  | nil => exact .nil
  | cons h _ ih => exact .cons (RecAt_append q h) ih

theorem RecsAt_trans {p : Bytes} {o : Nat} {rs rs' : List Rec} {e e' : Nat}
    (h : RecsAt p o rs e) (h' : RecsAt p e rs' e') : RecsAt p o (rs ++ rs') e' := by
  induction h with
  | nil => exact h'
  | cons h _ ih => exact .cons h (ih h')

/-! ### Fields -/

theorem U16At_put16 (a q : Bytes) (v : Nat) (h : v < 65536) : U16At (a ++ put16 v ++ q) a.length v := by
  refine ⟨UInt8.ofNat (v / 256 % 256), UInt8.ofNat (v % 256), ?_, ?_, ?_⟩
  · simp [put16]
  · simp [put16]
  · rw [toNat_ofNat_lt (by omega), toNat_ofNat_lt (by omega)]; omega

theorem U32At_put32 (a q : Bytes) (v : UInt32) :
    U32At (a ++ Ttl.put32 v ++ q) a.length (Ttl.bswap v).toNat := by
  obtain ⟨w, x, y, z, hw, hx, hy, hz, he⟩ := Ttl.digits v.toNat v.toNat_lt
  have hb := Ttl.bswap_digits v w x y z hw hx hy hz he
  obtain ⟨e1, e2, e3, e4⟩ := Ttl.digits_of w x y z hw hx hy
  refine ⟨w * 256 + x, y * 256 + z, ⟨UInt8.ofNat w, UInt8.ofNat x, ?_, ?_, ?_⟩,
    ⟨UInt8.ofNat y, UInt8.ofNat z, ?_, ?_, ?_⟩, by rw [hb]; omega⟩
  · rw [Ttl.put32, he, e1, e2, e3, e4]; simp
  · rw [Ttl.put32, he, e1, e2, e3, e4]; simp
  · rw [toNat_ofNat_lt (by omega), toNat_ofNat_lt (by omega)]
  · rw [Ttl.put32, he, e1, e2, e3, e4]; simp
  · rw [Ttl.put32, he, e1, e2, e3, e4, List.append_assoc, Nat.add_assoc, List.getElem?_append_right (by omega)]
    simp
  · rw [toNat_ofNat_lt (by omega), toNat_ofNat_lt (by omega)]

theorem put32_length (v : UInt32) : (Ttl.put32 v).length = 4 := rfl
theorem put16_length (v : Nat) : (put16 v).length = 2 := rfl
theorem fixed_length (v : Nat) : (fixed v).length = 4 := rfl

/-! ### repeat_name -/

/-- A name that can be pointed at. -/
def NamePtr (p : Bytes) (o : Nat) (ls : List Bytes) : Prop := (12 ≤ o ∧ o < 16384) ∧ ∃ e, ReadsAs p o ls e

theorem NamePtr_append {p : Bytes} (q : Bytes) {o : Nat} {ls : List Bytes} (h : NamePtr p o ls) :
    NamePtr (p ++ q) o ls := by
  obtain ⟨h1, e, h2⟩ := h
  exact ⟨h1, e, ReadsAs_append q h2⟩

theorem and_c0_lt (b : UInt8) : (b &&& 0xC0 = 0) ↔ b.toNat < 64 := by
  have : ∀ x : BitVec 8, ((UInt8.ofBitVec x) &&& 0xC0 = 0) ↔ (UInt8.ofBitVec x).toNat < 64 := by decide +kernel
  exact this b.toBitVec

/-- The two shapes of a repeated name. -/
def Short (nm : Bytes) : Prop := nm = [0] ∨ ∃ hi lo : UInt8, nm = [hi, lo] ∧ 192 ≤ hi.toNat

theorem rd_of_get {p : Bytes} {o : Nat} {b : UInt8} (h : p[o]? = some b) (q : Bytes) :
    rd (p ++ q) o = .ok b := by
  obtain ⟨h1, h2⟩ := List.getElem?_eq_some_iff.mp h
  rw [rd_lt (by rw [List.length_append]; omega), List.getElem_append_left h1, h2]

theorem repeatName_spec {p : Bytes} {o : Nat} {ls : List Bytes} (h : NamePtr p o ls) :
    ∃ nm, Short nm ∧ ∀ q, repeatName (p ++ q) o = .ok nm ∧
      ReadsAs (p ++ q ++ nm) (p ++ q).length ls ((p ++ q).length + nm.length) := by
  obtain ⟨hlt, e, l, hn, hl⟩ := h
  cases hn with
  | root h0 =>
    refine ⟨[0], Or.inl rfl, fun q => ⟨?_, [], ?_, hl⟩⟩
    · have hq : rd (p ++ q) o = .ok 0 := rd_of_get h0 q
      simp [repeatName, hq]
    · exact .root (by simp)
  | label g1 g2 g3 g4 g5 =>
    rename_i lab rest
    refine ⟨put16 (0xC000 ||| o), Or.inr ?_, fun q => ⟨?_, lab :: rest, ?_, hl⟩⟩
    · obtain ⟨hi, lo, h1, h2, _⟩ := put16_ptr o hlt.2
      exact ⟨hi, lo, h1, h2⟩
    · have hq : rd (p ++ q) o = .ok (UInt8.ofNat lab.length) := rd_of_get g3 q
      have ht : (UInt8.ofNat lab.length).toNat = lab.length := toNat_ofNat_lt (by omega)
      have hne : UInt8.ofNat lab.length ≠ 0 := by
        intro h; rw [h] at ht; have : (0 : UInt8).toNat = 0 := rfl; omega
      have hc : UInt8.ofNat lab.length &&& 0xC0 = 0 := (and_c0_lt _).mpr (by omega)
      simp [repeatName, hq, hne, hc]
    · have hi := (List.getElem?_eq_some_iff.mp g3).1
      have := NameAt_ptr (a := p ++ q) (q := []) (t := o) (ls := lab :: rest) (e := e) hlt (by simp; omega) (by
        rw [List.append_nil, List.append_assoc]
        exact NameAt_append _ (.label g1 g2 g3 g4 g5))
      simpa [put16_length] using this
  | ptr g1 g2 g3 g4 g5 g5' g6 =>
    rename_i hi lo e' t
    refine ⟨[hi, lo], Or.inr ⟨hi, lo, rfl, g2⟩, fun q => ⟨?_, l, ?_, hl⟩⟩
    · have hq : rd (p ++ q) o = .ok hi := rd_of_get g1 q
      have hq2 : rd (p ++ q) (o + 1) = .ok lo := rd_of_get g3 q
      have hne : hi ≠ 0 := by
        intro h; rw [h] at g2; have : (0 : UInt8).toNat = 0 := rfl; omega
      have hc : hi &&& 0xC0 ≠ 0 := by
        intro h; have := (and_c0_lt _).mp h; omega
      simp [repeatName, hq, hq2, hne, hc]
    · have h1 := (List.getElem?_eq_some_iff.mp g1).1
      refine .ptr (hi := hi) (lo := lo) (t := t) (e := e') ?_ g2 ?_ g4 ?_ g5' ?_
      · simp
      · rw [List.getElem?_append_right (by omega)]; simp
      · rw [List.length_append]; omega
      · rw [List.append_assoc]; exact NameAt_append _ g6

theorem Short_len {nm : Bytes} (h : Short nm) : 1 ≤ nm.length ∧ nm.length ≤ 2 := by
  rcases h with rfl | ⟨hi, lo, rfl, _⟩ <;> simp

/-- `rrHead` gives the same bytes wherever it is used later. -/
theorem rrHead_spec {p : Bytes} {o : Nat} {ls : List Bytes} (t : Nat) (ttl : UInt32) (h : NamePtr p o ls) :
    ∃ nm, Short nm ∧ ∀ q, rrHead (p ++ q) o t ttl = .ok (nm ++ fixed t ++ Ttl.put32 ttl) ∧
      ReadsAs (p ++ q ++ nm) (p ++ q).length ls ((p ++ q).length + nm.length) := by
  obtain ⟨nm, h1, h2⟩ := repeatName_spec h
  refine ⟨nm, h1, fun q => ⟨?_, (h2 q).2⟩⟩
  rw [rrHead, (h2 q).1, Outcome.bind_ok]

/-- A complete record. -/
theorem recAt_intro {p nm rd : Bytes} {owner : List Bytes} {t : Nat} {ttl : UInt32} {ps : List Piece}
    (hn : ReadsAs (p ++ nm) p.length owner (p.length + nm.length)) (ht : t < 65536) (hr : rd.length < 65536)
    (hp : PiecesAt (p ++ (nm ++ fixed t ++ Ttl.put32 ttl) ++ put16 rd.length ++ rd)
      (p.length + nm.length + 10) ps (p.length + nm.length + 10 + rd.length)) :
    RecAt (p ++ (nm ++ fixed t ++ Ttl.put32 ttl) ++ put16 rd.length ++ rd) p.length
      ⟨owner, t, (Ttl.bswap ttl).toNat, ps⟩
      (p ++ (nm ++ fixed t ++ Ttl.put32 ttl) ++ put16 rd.length ++ rd).length := by
  refine ⟨p.length + nm.length, rd.length, ?_, ?_, ?_, ?_, ?_, ?_, ?_⟩
  · have := ReadsAs_append (fixed t ++ Ttl.put32 ttl ++ put16 rd.length ++ rd) hn
    simpa using this
  · have := U16At_put16 (p ++ nm) (put16 1 ++ Ttl.put32 ttl ++ put16 rd.length ++ rd) t ht
    simpa [fixed] using this
  · have := U16At_put16 (p ++ nm ++ put16 t) (Ttl.put32 ttl ++ put16 rd.length ++ rd) 1 (by omega)
    simpa [fixed, put16_length, Nat.add_assoc] using this
  · have := U32At_put32 (p ++ nm ++ fixed t) (put16 rd.length ++ rd) ttl
    simpa [fixed_length, Nat.add_assoc] using this
  · have := U16At_put16 (p ++ nm ++ fixed t ++ Ttl.put32 ttl) rd rd.length hr
    simpa [fixed_length, put32_length, Nat.add_assoc] using this
  · have : (p ++ (nm ++ fixed t ++ Ttl.put32 ttl) ++ put16 rd.length ++ rd).length =
        p.length + nm.length + 10 + rd.length := by
      simp [fixed_length, put32_length, put16_length]; omega
    rw [this]; exact hp
  · simp [fixed_length, put32_length, put16_length]; omega

theorem pieces_bytes (a rd q : Bytes) : PiecesAt (a ++ rd ++ q) a.length [.bytes rd] (a.length + rd.length) := by
  refine .bytes ?_ .nil
  rw [List.append_assoc, List.drop_left]; exact List.prefix_append _ _

/-! ### What an encoder does -/

/-- The state while a query for `qraw` (as sent) is answered. -/
structure Inv (qraw ql : List Bytes) (env : Env) (st : St) : Prop where
  wf : WF ql
  low : lowerName qraw = ql
  lq : env.lq = encode ql true
  draws : ∀ k, Rand.Spec.Legal (env.draws k)
  pkt : ∃ hdr q : Bytes, hdr.length = 12 ∧ st.out = hdr ++ (wireLabels qraw ++ [0]) ++ q
  good : ∀ t ∈ st.ts, Good st.out t
  cnt : st.ts.length ≤ COMPMAX

theorem Inv.long {qraw ql : List Bytes} {env : Env} {st : St} (h : Inv qraw ql env st) : 12 ≤ st.out.length := by
  obtain ⟨hdr, q, h1, h2⟩ := h.pkt
  rw [h2]; simp; omega

/-- Appending, with the bytes read back as `recs`. -/
structure Step (qraw ql : List Bytes) (env : Env) (st st' : St) (recs : List Rec) (bound : Nat) : Prop where
  inv : Inv qraw ql env st'
  out : ∃ bs, st'.out = st.out ++ bs ∧ bs.length ≤ bound
  recs : RecsAt st'.out st.out.length recs st'.out.length

/-- The parts of the state that record encoders leave alone. -/
def SameMeta (st st' : St) : Prop :=
  st'.ns = st.ns ∧ st'.qtype = st.qtype ∧ st'.aa = st.aa ∧ st'.rcode = st.rcode ∧ st'.ac = st.ac

theorem Step.trans {qraw ql : List Bytes} {env : Env} {a b c : St} {r1 r2 : List Rec} {m n : Nat}
    (h1 : Step qraw ql env a b r1 m) (h2 : Step qraw ql env b c r2 n) : Step qraw ql env a c (r1 ++ r2) (m + n) := by
  obtain ⟨bs1, e1, l1⟩ := h1.out
  obtain ⟨bs2, e2, l2⟩ := h2.out
  refine ⟨h2.inv, ⟨bs1 ++ bs2, by rw [e2, e1, List.append_assoc], by simp; omega⟩, ?_⟩
  apply RecsAt_trans _ h2.recs
  have := h1.recs
  rw [e2]; exact RecsAt_append _ this

theorem Step.refl {qraw ql : List Bytes} {env : Env} {a b : St} (h : Inv qraw ql env b) (ho : b.out = a.out) :
    Step qraw ql env a b [] 0 :=
  ⟨h, ⟨[], by simp [ho], by simp⟩, by rw [ho]; exact .nil⟩

theorem Step.mono {qraw ql : List Bytes} {env : Env} {a b : St} {r : List Rec} {m n : Nat}
    (h : Step qraw ql env a b r m) (hmn : m ≤ n) : Step qraw ql env a b r n := by
  obtain ⟨bs, e, l⟩ := h.out
  exact ⟨h.inv, ⟨bs, e, by omega⟩, h.recs⟩

theorem Step.namePtr {qraw ql : List Bytes} {env : Env} {a b : St} {r : List Rec} {m : Nat}
    (h : Step qraw ql env a b r m) {o : Nat} {ls : List Bytes} (hn : NamePtr a.out o ls) : NamePtr b.out o ls := by
  obtain ⟨bs, e, _⟩ := h.out
  rw [e]; exact NamePtr_append _ hn

/-- Extending the packet keeps the invariant. -/
theorem Inv.extend {qraw ql : List Bytes} {env : Env} {st st' : St} (h : Inv qraw ql env st) (bs : Bytes)
    (ho : st'.out = st.out ++ bs) (ht : st'.ts = st.ts) : Inv qraw ql env st' := by
  obtain ⟨h1, h2, h3, h4, ⟨hdr, q, h5, h6⟩, h7, h8⟩ := h
  refine ⟨h1, h2, h3, h4, ⟨hdr, q ++ bs, h5, by rw [ho, h6]; simp⟩, ?_, by rw [ht]; exact h8⟩
  intro t hm
  rw [ho]; rw [ht] at hm
  exact Good_append _ (h7 t hm)

theorem Inv.extendTs {qraw ql : List Bytes} {env : Env} {st st' : St} (h : Inv qraw ql env st) (bs : Bytes)
    (ho : st'.out = st.out ++ bs) (hg : ∀ t ∈ st'.ts, Good st'.out t) (hc : st'.ts.length ≤ COMPMAX) :
    Inv qraw ql env st' := by
  obtain ⟨h1, h2, h3, h4, ⟨hdr, q, h5, h6⟩, h7, h8⟩ := h
  exact ⟨h1, h2, h3, h4, ⟨hdr, q ++ bs, h5, by rw [ho, h6]; simp⟩, hg, hc⟩

/-! ### Addresses -/

theorem encAddrs_eq {p nm : Bytes} {o : Nat} (t alen : Nat) (ttl : UInt32)
    (h : ∀ q, rrHead (p ++ q) o t ttl = .ok (nm ++ fixed t ++ Ttl.put32 ttl)) :
    ∀ (l : List Bytes) (q : Bytes), encAddrs o t alen ttl l (p ++ q) =
      .ok (p ++ q ++ (l.map fun a => nm ++ fixed t ++ Ttl.put32 ttl ++ put16 alen ++ a).flatten) := by
  intro l
  induction l with
  | nil => intro q; simp [encAddrs]
  | cons a l ih =>
    intro q
    rw [encAddrs, h, Outcome.bind_ok]
    have := ih (q ++ (nm ++ fixed t ++ Ttl.put32 ttl) ++ put16 alen ++ a)
    have e : p ++ (q ++ (nm ++ fixed t ++ Ttl.put32 ttl) ++ put16 alen ++ a) =
        p ++ q ++ (nm ++ fixed t ++ Ttl.put32 ttl) ++ put16 alen ++ a := by simp
    rw [e] at this
    rw [this]
    simp

theorem perm_map_inv {α β : Type} (f : α → β) : ∀ {l' m : List β}, l'.Perm m → ∀ l : List α, m = l.map f →
    ∃ k : List α, k.Perm l ∧ l' = k.map f := by
  intro l' m h
  induction h with
  | nil => intro l hl; exact ⟨[], by rw [List.map_eq_nil_iff.mp hl.symm], rfl⟩
  | cons x h ih =>
    intro l hl
    cases l with
    | nil => simp at hl
    | cons y l =>
      simp only [List.map_cons, List.cons.injEq] at hl
      obtain ⟨k, k1, k2⟩ := ih l hl.2
      exact ⟨y :: k, k1.cons y, by rw [k2, hl.1]; rfl⟩
  | swap x y l =>
    intro m hm
    cases m with
    | nil => simp at hm
    | cons a m =>
      cases m with
      | nil => simp at hm
      | cons b m =>
        simp only [List.map_cons, List.cons.injEq] at hm
        refine ⟨b :: a :: m, List.Perm.swap a b m, ?_⟩
        simp [hm]
  | trans h1 h2 ih1 ih2 =>
    intro l hl
    obtain ⟨k, k1, k2⟩ := ih2 l hl
    obtain ⟨k', k3, k4⟩ := ih1 k k2
    exact ⟨k', k3.trans k1, k4⟩

/-- Address records as written, in the order of the list. -/
theorem addr_recs {p nm : Bytes} {owner : List Bytes} (t alen : Nat) (ttl : UInt32) (ht : t < 65536)
    (ha : alen < 65536)
    (h : ∀ q, ReadsAs (p ++ q ++ nm) (p ++ q).length owner ((p ++ q).length + nm.length)) :
    ∀ (l : List Bytes) (q : Bytes), (∀ a ∈ l, a.length = alen) →
      RecsAt (p ++ q ++ (l.map fun a => nm ++ fixed t ++ Ttl.put32 ttl ++ put16 alen ++ a).flatten) (p ++ q).length
        (l.map fun a => ⟨owner, t, (Ttl.bswap ttl).toNat, [.bytes a]⟩)
        (p ++ q ++ (l.map fun a => nm ++ fixed t ++ Ttl.put32 ttl ++ put16 alen ++ a).flatten).length := by
  intro l
  induction l with
  | nil => intro q _; simp; exact .nil
  | cons a l ih =>
    intro q hl
    have hal := hl a (by simp)
    have hrec := recAt_intro (p := p ++ q) (nm := nm) (rd := a) (owner := owner) (t := t) (ttl := ttl)
      (ps := [.bytes a]) (h q) ht (by omega) (by
        have := pieces_bytes (p ++ q ++ (nm ++ fixed t ++ Ttl.put32 ttl) ++ put16 a.length) a []
        rw [List.append_nil] at this
        have e : (p ++ q ++ (nm ++ fixed t ++ Ttl.put32 ttl) ++ put16 a.length).length =
            (p ++ q).length + nm.length + 10 := by simp [fixed_length, put32_length, put16_length]; omega
        rwa [e] at this)
    have hrest := ih (q ++ (nm ++ fixed t ++ Ttl.put32 ttl) ++ put16 alen ++ a) (fun x hx => hl x (by simp [hx]))
    rw [hal] at hrec
    have e1 : p ++ (q ++ (nm ++ fixed t ++ Ttl.put32 ttl) ++ put16 alen ++ a) =
        p ++ q ++ (nm ++ fixed t ++ Ttl.put32 ttl) ++ put16 alen ++ a := by simp
    rw [e1] at hrest
    have e2 : p ++ q ++ ((a :: l).map fun a => nm ++ fixed t ++ Ttl.put32 ttl ++ put16 alen ++ a).flatten =
        p ++ q ++ (nm ++ fixed t ++ Ttl.put32 ttl) ++ put16 alen ++ a ++
          (l.map fun a => nm ++ fixed t ++ Ttl.put32 ttl ++ put16 alen ++ a).flatten := by simp
    rw [e2, List.map_cons]
    exact .cons (RecAt_append _ hrec) hrest

theorem shuffle_rrs (js : Nat → UInt32) (hjs : Rand.Spec.Legal js) (p nm : Bytes) (hnm : Short nm) (alen : Nat)
    (ha : alen = 4 ∨ alen = 16) (f : Bytes → Bytes) (hf : ∀ a, ∃ c, f a = nm ++ c)
    (l : List Bytes) (hl : l ≠ []) (hlen : ∀ a ∈ l, (f a).length = nm.length + 10 + alen) :
    ∃ k : List Bytes, k.Perm l ∧ Rand.shuffle js p.length l.length (12 + alen) (p ++ (l.map f).flatten) =
      .ok (p ++ (k.map f).flatten) := by
  cases l with
  | nil => exact absurd rfl hl
  | cons a l =>
    obtain ⟨c, hc⟩ := hf a
    obtain ⟨n0, hn0, hn1⟩ : ∃ n0, nm.head? = some n0 ∧
        ((n0 = 0 ∧ nm.length = 1) ∨ (192 ≤ n0.toNat ∧ nm.length = 2)) := by
      rcases hnm with rfl | ⟨hi, lo, rfl, h⟩
      · exact ⟨0, rfl, Or.inl ⟨rfl, rfl⟩⟩
      · exact ⟨hi, rfl, Or.inr ⟨h, rfl⟩⟩
    have hrd : rd (p ++ ((a :: l).map f).flatten) p.length = .ok n0 := by
      rw [List.map_cons, List.flatten_cons, hc]
      cases nm with
      | nil => simp at hn0
      | cons x nm =>
        simp only [List.head?_cons, Option.some.injEq] at hn0
        subst hn0
        rw [List.append_assoc, List.cons_append]
        exact rd_at _ _ _ _ rfl
    have hL : (if n0 = 0 then 12 + alen - 1 else 12 + alen) = nm.length + 10 + alen := by
      rcases hn1 with ⟨h, h'⟩ | ⟨h, h'⟩
      · rw [if_pos h]; omega
      · have : n0 ≠ 0 := by intro e; rw [e] at h; have : (0 : UInt8).toNat = 0 := rfl; omega
        rw [if_neg this]; omega
    have hloop := Rand.shufLoop_eq js hjs (nm.length + 10 + alen) (by have := Short_len hnm; omega) p []
      ((a :: l).length - 1) ((a :: l).map f) (by simp) (by
        intro x hx
        obtain ⟨y, hy, rfl⟩ := List.mem_map.mp hx
        exact hlen y hy)
    obtain ⟨k, k1, k2⟩ := perm_map_inv f (Rand.shufL_perm js ((a :: l).length - 1) ((a :: l).map f)) (a :: l) rfl
    refine ⟨k, k1, ?_⟩
    rw [List.append_nil, List.append_nil, k2] at hloop
    have hassert : ((n0 &&& 0xC0 != 0) || n0 == 0) = true := by
      rcases hn1 with ⟨h, h'⟩ | ⟨h, h'⟩
      · subst h; rfl
      · have : n0 &&& 0xC0 ≠ 0 := by intro e; have := (and_c0_lt _).mp e; omega
        simp [this]
    have hrr : ((12 + alen == 16) || (12 + alen == 28)) = true := by
      rcases ha with rfl | rfl <;> rfl
    have hcnt : ((a :: l).length != 0) = true := by simp
    rw [Rand.shuffle, hcnt, assert_true, Outcome.bind_ok, hrr, assert_true, Outcome.bind_ok, hrd, Outcome.bind_ok,
      hassert, assert_true, Outcome.bind_ok, hL]
    exact hloop

theorem flatten_length_const (l : List Bytes) (f : Bytes → Bytes) (n : Nat) (h : ∀ a ∈ l, (f a).length = n) :
    ((l.map f).flatten).length = l.length * n := by
  induction l with
  | nil => simp
  | cons a l ih =>
    rw [List.map_cons, List.flatten_cons, List.length_append, h a (by simp), ih (fun x hx => h x (by simp [hx])),
      List.length_cons, Nat.add_mul]
    omega

/-- The address records of a set, in the given order. -/
def addrRecs (owner : List Bytes) (t : Nat) (ttl : UInt32) (l : List Bytes) : List Rec :=
  l.map fun a => ⟨owner, t, (Ttl.bswap ttl).toNat, [.bytes a]⟩

theorem encAddrSet_spec {qraw ql owner : List Bytes} {env : Env} {st : St} (hi : Inv qraw ql env st)
    (t alen : Nat) (ht : t < 65536) (ha : alen = 4 ∨ alen = 16) (ttl : UInt32) (l : List Bytes) (hne : l ≠ [])
    (hl : ∀ a ∈ l, a.length = alen) (o : Nat) (ho : NamePtr st.out o owner) (addtl : Bool) :
    ∃ st' k, encAddrSet env st t alen ttl l o addtl = .ok st' ∧ k.Perm l ∧
      Step qraw ql env st st' (addrRecs owner t ttl k) (l.length * (12 + alen)) ∧ SameMeta st st' ∧
      st'.qc = st.qc ∧ st'.cn = st.cn ∧ st'.scope = st.scope ∧
      st'.an = (bif addtl then st.an else st.an + l.length) ∧
      st'.ar = (bif addtl then st.ar + l.length else st.ar) ∧ st'.ts = st.ts := by
  obtain ⟨nm, h1, h2⟩ := rrHead_spec t ttl ho
  have hsl := Short_len h1
  have he := encAddrs_eq t alen ttl (fun q => (h2 q).1) l []
  rw [List.append_nil] at he
  have hlen : ∀ a ∈ l, (nm ++ fixed t ++ Ttl.put32 ttl ++ put16 alen ++ a).length = nm.length + 10 + alen := by
    intro a hma
    have := hl a hma
    simp [fixed_length, put32_length, put16_length]; omega
  obtain ⟨k, k1, k2⟩ := shuffle_rrs (env.draws st.k) (hi.draws st.k) st.out nm h1 alen ha
    (fun a => nm ++ fixed t ++ Ttl.put32 ttl ++ put16 alen ++ a) (fun a => ⟨_, by simp; rfl⟩) l hne hlen
  have hkl : ∀ a ∈ k, a.length = alen := fun a hk => hl a (k1.mem_iff.mp hk)
  refine ⟨{ st with
    out := st.out ++ (k.map fun a => nm ++ fixed t ++ Ttl.put32 ttl ++ put16 alen ++ a).flatten, k := st.k + 1,
    an := bif addtl then st.an else st.an + l.length,
    ar := bif addtl then st.ar + l.length else st.ar }, k, ?_, k1, ?_, ⟨rfl, rfl, rfl, rfl, rfl⟩,
    rfl, rfl, rfl, rfl, rfl, rfl⟩
  · have : (l.length != 0) = true := by
      cases l with
      | nil => exact absurd rfl hne
      | cons _ _ => simp
    rw [encAddrSet, this, assert_true, Outcome.bind_ok, he, Outcome.bind_ok, k2, Outcome.bind_ok]
  · refine ⟨hi.extend _ rfl rfl, ⟨_, rfl, ?_⟩, ?_⟩
    · rw [flatten_length_const k _ (nm.length + 10 + alen) (fun a hk => hlen a (k1.mem_iff.mp hk)), k1.length_eq]
      exact Nat.mul_le_mul_left _ (by omega)
    · have := addr_recs (p := st.out) (nm := nm) (owner := owner) t alen ttl ht (by omega)
        (fun q => (h2 q).2) k [] hkl
      rw [List.append_nil] at this
      exact this

end Gdnsd.Enc
