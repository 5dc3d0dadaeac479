import Verif.Lookup.Model
import Verif.Lookup.Spec
import Verif.Enc.RrLemmas2
import Verif.Tree.Lemmas
/-
The last part of a lookup: challenges, ANY and the negative answer.
-/
namespace Gdnsd.Lookup
open DnameSpec EncSpec Dname Enc Tree TreeSpec LookupSpec

/-! ### Challenges -/

/-- The stored body of a challenge (src/chal.c:283-296): type TXT, class IN, TTL, length and
data. -/
def chalBody (c : Nat × Bytes) : Bytes :=
  put16 16 ++ put16 1 ++ (put16 (c.1 / 65536) ++ put16 (c.1 % 65536)) ++ put16 c.2.length ++ c.2

/-- The challenge table holds these challenges. -/
def ChalsOk (env : Env) (chals : List Bytes → List (Nat × Bytes)) : Prop :=
  ∀ ls, WF ls → env.chals (encode ls true) = (chals ls).map chalBody ∧
    ∀ c ∈ chals ls, c.1 < 4294967296 ∧ c.2.length = 44

theorem acme_eq : acmeLabel = acme := rfl

theorem isAcme_eq (q : List Bytes) (h : WF q) : isAcme (encode q true) = .ok (decide (q.head? = some acme)) := by
  have hs := status_encode q true [] h
  rw [List.append_nil] at hs
  have hn : (UInt8.ofNat (wireLen q)).toNat = wireLen q := toNat_ofNat_lt (by have := h.2; omega)
  have hrd : rd (encode q true) 0 = .ok (UInt8.ofNat (wireLen q)) := by simp [encode, rd]
  rw [isAcme, hs, Outcome.bind_ok]
  simp only [if_true]
  rw [show decide (Status.valid ≠ Status.invalid) = true by decide, assert_true, Outcome.bind_ok, hrd, Outcome.bind_ok, hn]
  have hal : acme.length = 15 := rfl
  cases q with
  | nil => simp [wireLen]
  | cons l r =>
    have hl := h.1 l (by simp)
    have hw := wireLen_cons l r
    have hp := wireLen_pos r
    have hd : encode (l :: r) true = [UInt8.ofNat (wireLen (l :: r))] ++ (UInt8.ofNat l.length :: (l ++ (wireLabels r ++ [0]))) := by
      simp [encode, wireLabels]
    have hln : (UInt8.ofNat l.length).toNat = l.length := toNat_ofNat_lt (by omega)
    by_cases h16 : 16 < wireLen (l :: r)
    · have e1 : decide (16 < wireLen (l :: r)) = true := decide_eq_true h16
      have hr1 : rd (encode (l :: r) true) 1 = .ok (UInt8.ofNat l.length) := by
        rw [hd]; exact rd_at _ _ _ _ rfl
      rw [e1, cond_true, hr1, Outcome.bind_ok]
      by_cases h15 : l.length = 15
      · have e2 : decide (UInt8.ofNat l.length = 15) = true := by rw [h15]; rfl
        have hd2 : (encode (l :: r) true).drop 2 = l ++ (wireLabels r ++ [0]) := by simp [hd]
        rw [e2, cond_true, memeq, hd2, acme_eq, hal]
        have : (decide (15 ≤ (l ++ (wireLabels r ++ [0])).length) && decide (15 ≤ 15)) = true := by
          simp; omega
        rw [this, if_pos rfl, ← h15, List.take_left, List.take_of_length_le (by omega)]
        simp only [List.head?_cons, Option.some.injEq, Outcome.ok.injEq]
        rw [Bool.eq_iff_iff]; simp
      · have e2 : decide (UInt8.ofNat l.length = 15) = false := by
          apply decide_eq_false
          intro h; rw [h] at hln; exact h15 hln.symm
        rw [e2, cond_false]
        congr 1
        symm
        apply decide_eq_false
        simp only [List.head?_cons, Option.some.injEq]
        rintro rfl; exact h15 hal
    · have e1 : decide (16 < wireLen (l :: r)) = false := decide_eq_false h16
      rw [e1, cond_false]
      congr 1
      symm
      apply decide_eq_false
      simp only [List.head?_cons, Option.some.injEq]
      rintro rfl; omega

theorem chalKey_eq (q : List Bytes) (h : WF q) :
    chalKey (encode q true) (decide (q.head? = some acme)) = .ok (encode (chalName q) true) := by
  rw [chalKey]
  cases q with
  | nil => simp [chalName]
  | cons l r =>
    by_cases hl : l = acme
    · subst hl
      have hn : (UInt8.ofNat (wireLen (acme :: r))).toNat = wireLen (acme :: r) := toNat_ofNat_lt (by have := h.2; omega)
      have hrd : rd (encode (acme :: r) true) 0 = .ok (UInt8.ofNat (wireLen (acme :: r))) := by simp [encode, rd]
      have : decide ((acme :: r).head? = some acme) = true := by simp
      rw [this, cond_true, hrd, Outcome.bind_ok, hn]
      have hw := wireLen_cons acme r
      have hal : acme.length = 15 := rfl
      have hd : (encode (acme :: r) true).drop 17 = wireLabels r ++ [0] := by
        have := encode_drop [acme] r
        have hw1 : (wireLabels [acme]).length = 16 := by simp [wireLabels, hal]
        rw [hw1] at this
        exact this
      rw [hd, show wireLen (acme :: r) - 16 = wireLen r by omega]
      simp [chalName, encode]
    · have : decide ((l :: r).head? = some acme) = false := by simp [hl]
      rw [this, cond_false]
      simp [chalName, hl]

theorem WF_chalName {q : List Bytes} (h : WF q) : WF (chalName q) := by
  cases q with
  | nil => exact h
  | cons l r =>
    by_cases hl : l = acme
    · simp only [chalName, hl, if_true]; exact WF_suffix h ⟨[l], rfl⟩
    · simp only [chalName, hl, if_false]; exact h

/-- One challenge record in place. -/
theorem chalRec_at {p : Bytes} {o : Nat} {q : List Bytes} (hn : NamePtr p o q) (c : Nat × Bytes)
    (h1 : c.1 < 4294967296) (h2 : c.2.length = 44) :
    RecAt (p ++ (put16 (0xC000 ||| o) ++ chalBody c)) p.length ⟨q, 16, c.1, [.bytes c.2]⟩
      (p ++ (put16 (0xC000 ||| o) ++ chalBody c)).length := by
  obtain ⟨ho, e, l, hl, hlow⟩ := hn
  have hlt : o < p.length := by have := NameAt_end hl; omega
  have hname : NameAt (p ++ put16 (0xC000 ||| o) ++ chalBody c) p.length l (p.length + 2) :=
    NameAt_ptr ho hlt (by rw [List.append_assoc]; exact NameAt_append _ hl)
  rw [List.append_assoc] at hname
  refine ⟨p.length + 2, 44, ⟨l, hname, hlow⟩, ?_, ?_, ⟨c.1 / 65536, c.1 % 65536, ?_, ?_, by show c.1 = _; omega⟩, ?_, ?_, ?_⟩
  · have := U16At_put16 (p ++ put16 (0xC000 ||| o)) (put16 1 ++ (put16 (c.1 / 65536) ++ put16 (c.1 % 65536)) ++ put16 c.2.length ++ c.2) 16 (by omega)
    simpa [chalBody, put16_length] using this
  · have := U16At_put16 (p ++ put16 (0xC000 ||| o) ++ put16 16) ((put16 (c.1 / 65536) ++ put16 (c.1 % 65536)) ++ put16 c.2.length ++ c.2) 1 (by omega)
    simpa [chalBody, put16_length] using this
  · have := U16At_put16 (p ++ put16 (0xC000 ||| o) ++ put16 16 ++ put16 1) (put16 (c.1 % 65536) ++ put16 c.2.length ++ c.2) (c.1 / 65536) (by omega)
    simpa [chalBody, put16_length] using this
  · have := U16At_put16 (p ++ put16 (0xC000 ||| o) ++ put16 16 ++ put16 1 ++ put16 (c.1 / 65536)) (put16 c.2.length ++ c.2) (c.1 % 65536) (by omega)
    simpa [chalBody, put16_length] using this
  · have := U16At_put16 (p ++ put16 (0xC000 ||| o) ++ put16 16 ++ put16 1 ++ put16 (c.1 / 65536) ++ put16 (c.1 % 65536)) c.2 c.2.length (by omega)
    rw [h2] at this
    simpa [chalBody, put16_length, h2] using this
  · have := pieces_bytes (p ++ put16 (0xC000 ||| o) ++ put16 16 ++ put16 1 ++ put16 (c.1 / 65536) ++ put16 (c.1 % 65536) ++ put16 c.2.length) c.2 []
    simpa [chalBody, put16_length, h2] using this
  · simp [chalBody, put16_length, h2]

theorem chalBody_length (c : Nat × Bytes) (h : c.2.length = 44) : (chalBody c).length = 54 := by
  simp [chalBody, put16_length, h]

/-- What the loop writes. -/
theorem chalLoop_spec {qraw ql q : List Bytes} {env : Env} :
    ∀ (cs : List (Nat × Bytes)) (st : St), Inv qraw ql env st → NamePtr st.out st.qc q →
      (∀ c ∈ cs, c.1 < 4294967296 ∧ c.2.length = 44) →
      ∃ k out, k ≤ cs.length ∧
        chalLoop env true (cs.map chalBody) st = (!cs.isEmpty, { st with out := out, an := st.an + k }) ∧
        Step qraw ql env st { st with out := out, an := st.an + k }
          ((cs.take k).map fun c => ⟨q, 16, c.1, [.bytes c.2]⟩) (56 * k) ∧
        (k = 0 ∨ out.length ≤ env.thisMax) ∧ (k < cs.length → env.thisMax < out.length + 56) := by
  intro cs
  induction cs with
  | nil =>
    intro st hi _ _
    exact ⟨0, st.out, by simp, rfl, Step.refl (a := st) hi rfl, .inl rfl, by simp⟩
  | cons c cs ih =>
    intro st hi hn hc
    simp only [List.map_cons, chalLoop, cond_true, Nat.add_assoc, Nat.reduceAdd]
    by_cases hroom : env.thisMax < st.out.length + 56
    · have : decide (env.thisMax < st.out.length + 56) = true := decide_eq_true hroom
      rw [this, cond_true]
      exact ⟨0, st.out, by simp, rfl, Step.refl (a := st) hi rfl, .inl rfl, fun _ => hroom⟩
    · have : decide (env.thisMax < st.out.length + 56) = false := decide_eq_false hroom
      rw [this, cond_false]
      obtain ⟨c1, c2⟩ := hc c (by simp)
      have hb := chalBody_length c c2
      have hi' : Inv qraw ql env { st with out := st.out ++ (put16 (0xC000 ||| st.qc) ++ chalBody c), an := st.an + 1 } :=
        hi.extend _ rfl rfl
      have hs1 : Step qraw ql env st { st with out := st.out ++ (put16 (0xC000 ||| st.qc) ++ chalBody c), an := st.an + 1 }
          [⟨q, 16, c.1, [.bytes c.2]⟩] 56 :=
        ⟨hi', ⟨_, rfl, by simp [put16_length, hb]⟩, .cons (chalRec_at hn c c1 c2) .nil⟩
      obtain ⟨k, out, g1, g2, g3, g4, g5⟩ := ih _ hi' (NamePtr_append _ hn) (fun x hx => hc x (by simp [hx]))
      refine ⟨k + 1, out, by simp; omega, ?_, ?_, .inr ?_, fun h => g5 (by simp at h; omega)⟩
      · rw [List.append_assoc, g2]
        simp only [List.isEmpty_cons, Bool.not_false, Prod.mk.injEq, true_and]
        rw [Nat.add_assoc, Nat.add_comm 1 k]
      · have := hs1.trans g3
        simp only [List.take_succ_cons, List.map_cons]
        have h2 : st.an + 1 + k = st.an + (k + 1) := by omega
        rw [← h2]
        exact this.mono (by omega)
      · rcases g4 with rfl | h
        · obtain ⟨bs, e1, e2⟩ := g3.out
          simp only at e1
          have : bs = [] := List.eq_nil_of_length_eq_zero (by omega)
          rw [e1, this]
          simp [put16_length, hb]; omega
        · exact h

theorem chalRespond_spec {qraw ql q : List Bytes} {env : Env} {w : World} (hq : WF q) (hc : ChalsOk env w.chals)
    (st : St) (hi : Inv qraw ql env st) (hn : NamePtr st.out st.qc q) :
    ∃ k out, k ≤ (if st.qtype = 16 then chalRecs w q else []).length ∧
      chalRespond env st (encode q true) = .ok (matched w q, { st with out := out, an := st.an + k }) ∧
      Step qraw ql env st { st with out := out, an := st.an + k }
        ((if st.qtype = 16 then chalRecs w q else []).take k) (56 * k) ∧
      (k = 0 ∨ out.length ≤ env.thisMax) ∧
      (k < (if st.qtype = 16 then chalRecs w q else []).length → env.thisMax < out.length + 56) := by
  rw [chalRespond, isAcme_eq q hq, Outcome.bind_ok, chalKey_eq q hq, Outcome.bind_ok]
  obtain ⟨h1, h2⟩ := hc _ (WF_chalName hq)
  rw [h1]
  by_cases hem : (decide (q.head? = some acme) && decide (st.qtype = 16)) = true
  · rw [hem]
    simp only [Bool.and_eq_true, decide_eq_true_eq] at hem
    obtain ⟨r, rfl⟩ : ∃ r, q = acme :: r := by
      cases q with
      | nil => simp at hem
      | cons l r => simp at hem; exact ⟨r, by rw [hem.1]⟩
    have hcn : chalName (acme :: r) = r := by simp [chalName]
    have hcr : (if st.qtype = 16 then chalRecs w (acme :: r) else []) =
        (w.chals r).map fun c => ⟨acme :: r, 16, c.1, [.bytes c.2]⟩ := by
      rw [if_pos hem.2]; simp [chalRecs]
    rw [hcn] at h2 ⊢
    obtain ⟨k, out, g1, g2, g3, g4, g5⟩ := chalLoop_spec (env := env) (w.chals r) st hi hn h2
    rw [hcr]
    refine ⟨k, out, by simpa using g1, ?_, ?_, g4, by simpa using g5⟩
    · rw [g2]; simp [matched, hcn]
    · rw [← List.map_take]; exact g3
  · have hem' : (decide (q.head? = some acme) && decide (st.qtype = 16)) = false := by simpa using hem
    rw [hem']
    have hnil : (if st.qtype = 16 then chalRecs w q else []) = [] := by
      by_cases ht : st.qtype = 16
      · rw [if_pos ht]
        cases q with
        | nil => rfl
        | cons l r =>
          simp only [ht, decide_true, Bool.and_true, decide_eq_false_iff_not, List.head?_cons, Option.some.injEq] at hem'
          simp [chalRecs, hem']
      · rw [if_neg ht]
    rw [hnil]
    refine ⟨0, st.out, by simp, ?_, Step.refl (a := st) hi rfl, .inl rfl, by simp⟩
    cases hcs : w.chals (chalName q) with
    | nil => simp [chalLoop, matched, hcs]
    | cons c cs => simp [chalLoop, matched, hcs]

/-! ### The rest -/

/-- The reply once the records of the name are known. -/
def coreReply (w : World) (t k : Nat) (own extra : List Rec) (sc : Nat) (q z : List Bytes) (soa : RRset) (dom : Bool) : Reply :=
  let ans := own ++ (if t = 16 then (chalRecs w q).take k else [])
  let base : Reply := { aa := true, additional := extra, scope := sc }
  if ans ≠ [] then { base with answer := ans }
  else if t = 255 ∧ (dom || matched w q) = true then { base with answer := [hinfoRec q] }
  else { base with authority := answerRecs w.resolve z soa, rcode := if dom || matched w q then 0 else 3 }

/-- The state holds a reply after the chain of CNAMEs. `base` is the packet after the
chain. -/
structure Holds (qraw ql : List Bytes) (env : Env) (base : Bytes) (st : St) (rep : Reply) : Prop where
  inv : Inv qraw ql env st
  ext : base <+: st.out
  rcode : st.rcode = rep.rcode
  scope : st.scope = rep.scope
  aa : st.aa = rep.aa
  sections : ∃ an ns ar, RecsAt st.out base.length (an ++ ns ++ ar) st.out.length ∧ an.Perm rep.answer ∧
    ns.Perm rep.authority ∧ ar.Perm rep.additional ∧ st.an = an.length ∧ st.ns = ns.length ∧ st.ar = ar.length

theorem hinfo_at {p : Bytes} {o : Nat} {q : List Bytes} (hn : NamePtr p o q) :
    ∃ nm, repeatName p o = .ok nm ∧ nm.length ≤ 2 ∧
      RecAt (p ++ (nm ++ hinfo)) p.length (hinfoRec q) (p ++ (nm ++ hinfo)).length := by
  obtain ⟨nm, h1, h2⟩ := repeatName_spec hn
  obtain ⟨h3, h4⟩ := h2 []
  rw [List.append_nil] at h3 h4
  have h4 := ReadsAs_append hinfo h4
  rw [List.append_assoc] at h4
  have hl := Short_len h1
  refine ⟨nm, h3, hl.2, p.length + nm.length, 9, h4, ?_, ?_, ⟨0, 3600, ?_, ?_, rfl⟩, ?_, ?_, ?_⟩
  · have := U16At_put16 (p ++ nm) (hinfo.drop 2) 13 (by omega)
    simpa [hinfo, put16, hinfoRec] using this
  · have := U16At_put16 (p ++ nm ++ hinfo.take 2) (hinfo.drop 4) 1 (by omega)
    simpa [hinfo, put16, Nat.add_assoc] using this
  · have := U16At_put16 (p ++ nm ++ hinfo.take 4) (hinfo.drop 6) 0 (by omega)
    simpa [hinfo, put16, Nat.add_assoc] using this
  · have := U16At_put16 (p ++ nm ++ hinfo.take 6) (hinfo.drop 8) 3600 (by omega)
    simpa [hinfo, put16, Nat.add_assoc] using this
  · have := U16At_put16 (p ++ nm ++ hinfo.take 8) (hinfo.drop 10) 9 (by omega)
    simpa [hinfo, put16, Nat.add_assoc] using this
  · have := pieces_bytes (p ++ nm ++ hinfo.take 10) (hinfo.drop 10) []
    simpa [hinfo, hinfoRec, Nat.add_assoc] using this
  · simp [hinfo]; omega

/-- The state after the name's own records were written: `base` is the packet before. -/
structure Own (qraw ql : List Bytes) (env : Env) (base : Bytes) (st : St) (own extra : List Rec) (sc : Nat) : Prop where
  inv : Inv qraw ql env st
  ext : base <+: st.out
  recs : ∃ an ar, RecsAt st.out base.length (an ++ ar) st.out.length ∧ an.Perm own ∧ ar.Perm extra ∧
    st.an = an.length ∧ st.ar = ar.length
  scope : st.scope = sc
  ns : st.ns = 0
  aa : st.aa = true
  rcode : st.rcode = 0

theorem final_core {qraw ql q z : List Bytes} {env : Env} {w : World} (hq : WF q)
    (hc : ChalsOk env w.chals) (base : Bytes) (st : St) (own extra : List Rec) (sc : Nat)
    (h : Own qraw ql env base st own extra sc)
    (hex : own = [] ∨ st.qtype = 16 → extra = []) (h255 : st.qtype = 255 → own = [])
    (hn : NamePtr st.out st.qc q) (hz : NamePtr st.out st.ac z)
    (dom : Bool) (auth : Node) (soa : RRset) (hsoa : getType auth.rrs 6 = some soa)
    (hsb : ∃ m n t, soa.body = .soa m n t) (hok : RRsetOk env.resolve soa)
    (rrs : List RRset) (hhd : st.qtype = 255 → headIs rrs 5 = false)
    (hsz : st.an ≠ 0 ∨ st.out.length + rrSize w.resolve soa ≤ 16384) :
    ∃ st' k, ((bif decide (st.qtype = 16) || decide (st.an = 0) then chalRespond env st (encode q true) else .ok (false, st)).bind
        fun x => (anyPart x.2 rrs dom x.1).bind fun st => negative env st dom auth x.1) = .ok st' ∧
      Holds qraw ql env base st' (coreReply w st.qtype k own extra sc q z soa dom) ∧ st'.cn = st.cn ∧
      ((st.qtype = 16 ∧ chalRecs w q ≠ [] ∧ st'.out.length ≤ env.thisMax) ∨ st'.out.length ≤ st.out.length +
        (bif decide (st.an = 0) then max 21 (rrSize w.resolve soa) else 0)) ∧
      k ≤ (if st.qtype = 16 then chalRecs w q else []).length ∧
      (k < (if st.qtype = 16 then chalRecs w q else []).length →
        env.thisMax < st'.out.length + 56 ) := by
  obtain ⟨hi, hext, ⟨an, ar, o1, o2, o3, o4, o5⟩, hsc, hns, haa, hrc⟩ := h
  by_cases hcons : (decide (st.qtype = 16) || decide (st.an = 0)) = true
  · rw [hcons, cond_true]
    obtain ⟨k, out, g1, g2, g3, g4, g5⟩ := chalRespond_spec (w := w) hq hc st hi hn
    rw [g2, Outcome.bind_ok]
    generalize hcr : (if st.qtype = 16 then chalRecs w q else []) = cr at *
    have hcrk : (if st.qtype = 16 then (chalRecs w q).take k else []) = cr.take k := by
      rw [← hcr]; split <;> simp
    have hlenk : (cr.take k).length = k := by rw [List.length_take]; omega
    obtain ⟨bs, e1, e2⟩ := g3.out
    simp only at e1
    by_cases han0 : st.an + k = 0
    · -- nothing so far
      have hk : k = 0 := by omega
      have han : an = [] := List.eq_nil_of_length_eq_zero (by omega)
      subst han
      have hown : own = [] := List.nil_perm.mp o2
      have hextra := hex (.inl hown)
      subst hextra
      have har : ar = [] := List.perm_nil.mp o3
      subst har
      subst hk
      have hbs : bs = [] := List.eq_nil_of_length_eq_zero (by omega)
      subst hbs
      rw [List.append_nil] at e1
      subst e1
      simp only [List.nil_append, List.length_nil] at o1 o5
      have hst : ({ st with out := st.out, an := st.an + 0 } : St) = st := rfl
      rw [hst] at g3
      simp only [hst]
      by_cases h255' : st.qtype = 255
      · rw [anyPart, h255']
        simp only [decide_true, cond_true]
        have ha0 : st.an = 0 := by omega
        rw [ha0]
        rw [show decide (0 = 0) = true from rfl, assert_true, Outcome.bind_ok, hhd h255', Bool.not_false, assert_true,
          Outcome.bind_ok]
        by_cases hdm : (dom || matched w q) = true
        · rw [hdm, cond_true]
          obtain ⟨nm, a1, a2, a3⟩ := hinfo_at hn
          rw [a1, Outcome.bind_ok, Outcome.bind_ok, negative]
          simp only [Nat.one_ne_zero, decide_false, cond_false]
          rw [List.append_assoc]
          refine ⟨_, 0, rfl, ?_, rfl, .inr ?_, Nat.zero_le _, ?_⟩
          · have hrep : coreReply w 255 0 own [] sc q z soa dom =
                { aa := true, additional := [], scope := sc, answer := [hinfoRec q] } := by
              rw [coreReply]
              simp [hown, hdm]
            rw [hrep]
            refine ⟨hi.extend _ rfl rfl, hext.trans (List.prefix_append _ _), hrc, hsc, haa, [hinfoRec q], [], [], ?_, .refl _, .refl _, .refl _, rfl, hns, o5⟩
            have := RecsAt_trans (RecsAt_append (nm ++ hinfo) o1) (.cons a3 .nil)
            simpa using this
          · simp [hinfo]; omega
          · rw [← hcr]; simp [h255']
        · have hdm' : (dom || matched w q) = false := by simpa using hdm
          rw [hdm', cond_false, Outcome.bind_ok, negative, ha0]
          simp only [decide_true, cond_true, hsoa]
          obtain ⟨m, n, t, hb⟩ := hsb
          obtain ⟨ttl, body⟩ := soa
          simp only at hb
          subst hb
          obtain ⟨p1, p2, p3⟩ := hok
          have hsz' : st.out.length + rrSize w.resolve ⟨ttl, .soa m n t⟩ ≤ 16384 := by
            rcases hsz with h | h
            · exact absurd ha0 h
            · exact h
          obtain ⟨st', s1, s2, s3, s4, s5, s6, s7, s8⟩ := encSoa_spec ttl m n t p1 p2 p3 st hi hz hsz'
          obtain ⟨bs, e1, e2⟩ := s2.out
          obtain ⟨q1, q2, q3, q4, q5⟩ := s3
          simp only [s1, Outcome.bind_ok, s4, ha0, q1, hns, decide_true, Bool.and_self, assert_true]
          have hd : (!dom && !matched w q) = true := by
            simp only [Bool.or_eq_false_iff] at hdm'; simp [hdm']
          rw [hd, cond_true]
          refine ⟨_, 0, rfl, ?_, s6, .inr ?_, Nat.zero_le _, ?_⟩
          · have hrep : coreReply w 255 0 own [] sc q z ⟨ttl, .soa m n t⟩ dom =
                { aa := true, additional := [], scope := sc, authority := answerRecs w.resolve z ⟨ttl, .soa m n t⟩, rcode := 3 } := by
              rw [coreReply]
              simp [hown, hdm']
            rw [hrep]
            refine ⟨s2.inv.extend [] (by simp) rfl, hext.trans ⟨bs, e1.symm⟩, rfl, by rw [← hsc]; exact s7, by rw [← haa]; exact q3, [], _, [], ?_, .refl _, .refl _, .refl _, rfl, rfl, s5.trans o5⟩
            simp only [List.nil_append, List.append_nil]
            have := s2.recs
            have h1 := RecsAt_append bs o1
            rw [← e1] at h1
            have := RecsAt_trans h1 this
            simpa [answerRecs] using this
          · simp only [e1, List.length_append]
            have : rrSize w.resolve ⟨ttl, .soa m n t⟩ = 12 + nameLen m + nameLen n + 20 := rfl
            omega
          · rw [← hcr]; simp [h255']
      · have hap : anyPart st rrs dom (matched w q) = .ok st := by
          rw [anyPart, show decide (st.qtype = 255) = false from decide_eq_false h255', cond_false]
        have ha0 : st.an = 0 := by omega
        rw [hap, Outcome.bind_ok, negative, ha0]
        simp only [decide_true, cond_true, hsoa]
        obtain ⟨m, n, t, hb⟩ := hsb
        obtain ⟨ttl, body⟩ := soa
        simp only at hb
        subst hb
        obtain ⟨p1, p2, p3⟩ := hok
        have hsz' : st.out.length + rrSize w.resolve ⟨ttl, .soa m n t⟩ ≤ 16384 := by
          rcases hsz with h | h
          · exact absurd ha0 h
          · exact h
        obtain ⟨st', s1, s2, s3, s4, s5, s6, s7, s8⟩ := encSoa_spec ttl m n t p1 p2 p3 st hi hz hsz'
        obtain ⟨bs, e1, e2⟩ := s2.out
        obtain ⟨q1, q2, q3, q4, q5⟩ := s3
        simp only [s1, Outcome.bind_ok, s4, ha0, q1, hns, decide_true, Bool.and_self, assert_true]
        refine ⟨_, 0, rfl, ?_, s6, .inr ?_, Nat.zero_le _, ?_⟩
        · have hrep : coreReply w st.qtype 0 own [] sc q z ⟨ttl, .soa m n t⟩ dom =
              { aa := true, additional := [], scope := sc, authority := answerRecs w.resolve z ⟨ttl, .soa m n t⟩, rcode := if dom || matched w q then 0 else 3 } := by
            rw [coreReply]
            simp [hown, h255']
          rw [hrep]
          refine ⟨s2.inv.extend [] (by simp) rfl, hext.trans ⟨bs, e1.symm⟩, ?_, by rw [← hsc]; exact s7, by rw [← haa]; exact q3, [], _, [], ?_, .refl _, .refl _, .refl _, rfl, rfl, s5.trans o5⟩
          · show (bif !dom && !matched w q then 3 else st'.rcode) = _
            rw [q4, hrc]
            cases dom <;> cases matched w q <;> rfl
          · simp only [List.nil_append, List.append_nil]
            have := s2.recs
            have h1 := RecsAt_append bs o1
            rw [← e1] at h1
            have := RecsAt_trans h1 this
            simpa [answerRecs] using this
        · simp only [e1, List.length_append]
          have : rrSize w.resolve ⟨ttl, .soa m n t⟩ = 12 + nameLen m + nameLen n + 20 := rfl
          omega
        · intro hlt
          have := g5 hlt
          simp only [e1, List.length_append] at *
          omega
    · have hap : anyPart { st with out := out, an := st.an + k } rrs dom (matched w q) =
          .ok { st with out := out, an := st.an + k } := by
        rw [anyPart]
        have : st.qtype ≠ 255 := by
          intro h
          have hcr' : cr = [] := by rw [← hcr]; simp [h]
          have h1 := h255 h
          subst h1
          have := List.perm_nil.mp o2
          subst this
          rw [hcr'] at g1
          simp at o4 g1
          omega
        simp [this]
      rw [hap, Outcome.bind_ok, negative]
      simp only [decide_eq_false han0, cond_false]
      refine ⟨_, k, rfl, ?_, rfl, ?_, g1, g5⟩
      · have hne : an ++ cr.take k ≠ [] := by
          intro h
          have := congrArg List.length h
          rw [List.length_append, hlenk] at this
          simp only [List.length_nil] at this; omega
        have hperm : (an ++ cr.take k).Perm (own ++ cr.take k) := o2.append (.refl _)
        have hne' : own ++ cr.take k ≠ [] := by
          intro h; rw [h] at hperm; exact hne (List.perm_nil.mp hperm)
        have hrep : coreReply w st.qtype k own extra sc q z soa dom =
            { aa := true, additional := extra, scope := sc, answer := own ++ cr.take k } := by
          rw [coreReply]
          simp only [hcrk, ne_eq, hne', not_false_eq_true, if_true]
        rw [hrep]
        have har : cr.take k = [] ∨ ar = [] := by
          by_cases hk : cr.take k = []
          · exact .inl hk
          · right
            have : st.qtype = 16 := by
              apply Decidable.byContradiction
              intro h16
              apply hk
              rw [← hcr, if_neg h16]; simp
            rw [hex (.inr this)] at o3
            exact List.perm_nil.mp o3
        refine ⟨g3.inv, hext.trans ⟨bs, e1.symm⟩, hrc, hsc, haa, an ++ cr.take k, [], ar, ?_, hperm, .refl _, o3, ?_, hns, o5⟩
        · have h1 := RecsAt_append bs o1
          rw [← e1] at h1
          have := RecsAt_trans h1 g3.recs
          rcases har with h | h
          · rw [h] at this ⊢
            simpa using this
          · subst h
            simpa using this
        · simp only [List.length_append, hlenk, o4]
      · rcases g4 with h | h
        · right
          subst h
          have hbs : bs = [] := List.eq_nil_of_length_eq_zero (by omega)
          simp [e1, hbs]
        · by_cases hk0 : k = 0
          · right
            subst hk0
            have hbs : bs = [] := List.eq_nil_of_length_eq_zero (by omega)
            simp [e1, hbs]
          · left
            by_cases h16 : st.qtype = 16
            · rw [if_pos h16] at hcr
              exact ⟨h16, by rw [hcr]; intro e; rw [e] at g1; simp at g1; omega, h⟩
            · rw [if_neg h16] at hcr
              rw [← hcr] at g1; simp at g1; omega
  · have hcons' : (decide (st.qtype = 16) || decide (st.an = 0)) = false := by simpa using hcons
    rw [hcons', cond_false, Outcome.bind_ok]
    simp only [Bool.or_eq_false_iff, decide_eq_false_iff_not] at hcons'
    obtain ⟨h16, ha0⟩ := hcons'
    have hap : anyPart st rrs dom false = .ok st := by
      rw [anyPart]
      have : st.qtype ≠ 255 := by
        intro h
        have h1 := h255 h
        subst h1
        have := List.perm_nil.mp o2
        subst this
        simp at o4; exact ha0 o4
      simp [this]
    simp only [hap, Outcome.bind_ok, negative, decide_eq_false ha0, cond_false]
    have hown : own ≠ [] := by
      rintro rfl
      have := List.perm_nil.mp o2
      subst this
      simp at o4; exact ha0 o4
    refine ⟨st, 0, rfl, ?_, rfl, .inr (by simp), Nat.zero_le _, by simp [h16]⟩
    have hrep : coreReply w st.qtype 0 own extra sc q z soa dom =
        { aa := true, additional := extra, scope := sc, answer := own } := by
      rw [coreReply]
      simp [h16, hown]
    rw [hrep]
    exact ⟨hi, hext, hrc, hsc, haa, an, [], ar, by simpa using o1, o2, .refl _, o3, o4, hns, o5⟩

end Gdnsd.Lookup
