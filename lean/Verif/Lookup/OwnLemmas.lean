import Verif.Lookup.FinalLemmas
/-
The records of a name, and `do_final_auth_response` as a whole.
-/
namespace Gdnsd.Lookup
open DnameSpec EncSpec Dname Enc Tree TreeSpec LookupSpec

/-- Ordinary data: no CNAME, no DYNC. -/
def Plain (resolve : Nat → DynRes) (rrs : List RRset) : Prop :=
  (rrs.map RRset.type).Nodup ∧ ∀ r ∈ rrs, RRsetOk resolve r ∧ (∀ d, r.body ≠ .cname d) ∧
    ∀ t l, r.body = .raw t l → t ∉ [1, 2, 5, 6, 12, 15, 16, 28, 33, 35, 255, 0xFF0F]

theorem filter_type (t : Nat) : ∀ (rrs : List RRset), (rrs.map RRset.type).Nodup →
    (rrs.filter fun r => r.type == t) = (rrs.find? fun r => r.type == t).toList := by
  intro rrs
  induction rrs with
  | nil => intro _; rfl
  | cons r rs ih =>
    intro h
    rw [List.map_cons, List.nodup_cons] at h
    by_cases hr : (r.type == t) = true
    · rw [List.filter_cons, if_pos hr, List.find?_cons, hr]
      have : rs.filter (fun r => r.type == t) = [] := by
        rw [List.filter_eq_nil_iff]
        intro x hx hxt
        apply h.1
        have e1 := eq_of_beq hr
        have e2 := eq_of_beq hxt
        rw [e1, ← e2]
        exact List.mem_map.mpr ⟨x, hx, rfl⟩
      rw [this]; rfl
    · have hr' : (r.type == t) = false := by simpa using hr
      rw [List.filter_cons, if_neg hr, List.find?_cons, hr', ih h.2]

theorem find_type_mem {rrs : List RRset} {t : Nat} {r : RRset} (h : (rrs.find? fun r => r.type == t) = some r) :
    r ∈ rrs ∧ r.type = t := ⟨List.mem_of_find?_eq_some h, by have := List.find?_some h; simpa using this⟩

theorem find_type_of_mem {rrs : List RRset} {t : Nat} {r : RRset} (hn : (rrs.map RRset.type).Nodup) (h : r ∈ rrs)
    (ht : r.type = t) : (rrs.find? fun r => r.type == t) = some r := by
  have h1 : r ∈ rrs.filter fun r => r.type == t := List.mem_filter.mpr ⟨h, by simp [ht]⟩
  rw [filter_type t rrs hn] at h1
  cases hf : rrs.find? fun r => r.type == t with
  | none => rw [hf] at h1; simp at h1
  | some x => rw [hf] at h1; simp at h1; rw [h1]

/-- Ordinary data has no CNAME set. -/
theorem plain_type {resolve : Nat → DynRes} {rrs : List RRset} (h : Plain resolve rrs) {r : RRset} (hr : r ∈ rrs) :
    r.type ≠ 5 ∧ r.type ≠ 255 := by
  obtain ⟨h1, h2, h3⟩ := h.2 r hr
  obtain ⟨ttl, body⟩ := r
  cases body with
  | cname d => exact absurd rfl (h2 d)
  | raw t l =>
    have := h3 t l rfl
    simp only [List.mem_cons, not_or] at this
    exact ⟨this.2.2.1, this.2.2.2.2.2.2.2.2.2.2.1⟩
  | dync res m => exact absurd h1 id
  | _ => simp [RRset.type, Body.type]

theorem plain_headIs {resolve : Nat → DynRes} {rrs : List RRset} (h : Plain resolve rrs) : headIs rrs 5 = false := by
  cases rrs with
  | nil => rfl
  | cons r rs =>
    have := (plain_type h (r := r) (by simp)).1
    simp [headIs, this]

/-- The right-hand side of a record set of a known type. -/
theorem plain_ns {resolve : Nat → DynRes} {rrs : List RRset} (h : Plain resolve rrs) {r : RRset} (hr : r ∈ rrs)
    (ht : r.type = 2) : ∃ l, r.body = .ns l := by
  obtain ⟨h1, h2, h3⟩ := h.2 r hr
  obtain ⟨ttl, body⟩ := r
  cases body with
  | ns l => exact ⟨l, rfl⟩
  | raw t l =>
    simp only [RRset.type, Body.type] at ht
    subst ht
    exact absurd (by simp) (h3 _ l rfl)
  | _ => simp [RRset.type, Body.type] at ht

theorem plain_soa {resolve : Nat → DynRes} {rrs : List RRset} (h : Plain resolve rrs) {r : RRset} (hr : r ∈ rrs)
    (ht : r.type = 6) : ∃ m n t, r.body = .soa m n t := by
  obtain ⟨h1, h2, h3⟩ := h.2 r hr
  obtain ⟨ttl, body⟩ := r
  cases body with
  | soa m n t => exact ⟨m, n, t, rfl⟩
  | raw t l =>
    simp only [RRset.type, Body.type] at ht
    subst ht
    exact absurd (by simp) (h3 _ l rfl)
  | _ => simp [RRset.type, Body.type] at ht

theorem atAuth_type {r : RRset} (h : atAuth r = true) : r.type = 2 ∨ r.type = 6 := by
  obtain ⟨ttl, body⟩ := r
  cases body <;> simp [atAuth] at h <;> simp [RRset.type, Body.type]

/-- The records of one type of ordinary data. -/
def plainRecs (w : World) (t : Nat) (q : List Bytes) (rrs : List RRset) : List Rec :=
  if t = 255 then [] else (rrs.filter fun r => r.type == t).flatMap (answerRecs w.resolve q)

def plainExtra (t : Nat) (rrs : List RRset) : List Rec :=
  if t = 255 then [] else (rrs.filter fun r => r.type == t).flatMap extraRecs

def plainScope (w : World) (t : Nat) (rrs : List RRset) : Nat :=
  if t = 255 then 0 else ((rrs.filter fun r => r.type == t).map fun r => Enc.scopeOf w.resolve r 0).foldr max 0

def plainSize (w : World) (t : Nat) (rrs : List RRset) : Nat :=
  ((rrs.filter fun r => r.type == t).map (rrSize w.resolve)).sum

theorem scopeOf_max (resolve : Nat → DynRes) (r : RRset) (s : Nat) :
    Enc.scopeOf resolve r s = max (Enc.scopeOf resolve r 0) s := by
  obtain ⟨ttl, body⟩ := r
  cases body <;> simp [Enc.scopeOf]

/-- Ordinary sets have answers unless they are dynamic; only NS has extras. -/
theorem extra_nil {r : RRset} (h : r.type ≠ 2) : extraRecs r = [] := by
  obtain ⟨ttl, body⟩ := r
  cases body with
  | ns l => exact absurd rfl h
  | _ => rfl

theorem plain_construct {qraw ql q z : List Bytes} {env : Env} {w : World} (hw : env.resolve = w.resolve)
    (st : St) (hi : Inv qraw ql env st) (rrs : List RRset) (hp : Plain w.resolve rrs)
    (ht : st.qtype < 128 ∨ 256 ≤ st.qtype ∨ st.qtype = 255)
    (hn : NamePtr st.out st.qc q) (hz : NamePtr st.out st.ac z)
    (hat : ∀ r ∈ rrs, r.type = 2 ∨ r.type = 6 → q = z)
    (hmeta : st.an = 0 ∧ st.ns = 0 ∧ st.ar = 0 ∧ st.aa = true ∧ st.rcode = 0)
    (hsz : st.out.length + plainSize w st.qtype rrs ≤ 16384) :
    ∃ st', (bif !rrs.isEmpty && decide (st.qtype ≠ 255) then constructNormal env st rrs else .ok st) = .ok st' ∧
      Own qraw ql env st.out st' (plainRecs w st.qtype q rrs) (plainExtra st.qtype rrs)
        (max (plainScope w st.qtype rrs) st.scope) ∧
      st'.qtype = st.qtype ∧ st'.qc = st.qc ∧ st'.ac = st.ac ∧ st'.cn = st.cn ∧
      NamePtr st'.out st'.qc q ∧ NamePtr st'.out st'.ac z ∧
      st'.out.length ≤ st.out.length + plainSize w st.qtype rrs := by
  obtain ⟨m1, m2, m3, m4, m5⟩ := hmeta
  have hnone : plainRecs w st.qtype q rrs = [] → plainExtra st.qtype rrs = [] → plainScope w st.qtype rrs = 0 →
      Own qraw ql env st.out st (plainRecs w st.qtype q rrs) (plainExtra st.qtype rrs)
        (max (plainScope w st.qtype rrs) st.scope) := by
    intro e1 e2 e3
    rw [e1, e2, e3]
    exact ⟨hi, List.prefix_refl _, ⟨[], [], .nil, .refl _, .refl _, by simpa using m1, by simpa using m3⟩, by omega, m2, m4, m5⟩
  by_cases hc : (!rrs.isEmpty && decide (st.qtype ≠ 255)) = true
  · rw [hc, cond_true]
    simp only [Bool.and_eq_true, Bool.not_eq_true', decide_eq_true_eq] at hc
    have h255 := hc.2
    rw [constructNormal]
    have : (decide (st.qtype < 128) || decide (256 ≤ st.qtype)) = true := by
      simp only [Bool.or_eq_true, decide_eq_true_eq]; omega
    rw [this, assert_true, Outcome.bind_ok]
    have hfil := filter_type st.qtype rrs hp.1
    cases hf : rrs.find? fun r => r.type == st.qtype with
    | none =>
      rw [hf] at hfil
      simp only [Option.toList_none] at hfil
      refine ⟨st, rfl, hnone ?_ ?_ ?_, rfl, rfl, rfl, rfl, hn, hz, by omega⟩
      · simp [plainRecs, hfil]
      · simp [plainExtra, hfil]
      · simp [plainScope, hfil]
    | some r =>
      rw [hf] at hfil
      simp only [Option.toList_some] at hfil
      obtain ⟨hmem, hty⟩ := find_type_mem hf
      obtain ⟨hok, _, _⟩ := hp.2 r hmem
      have hps : plainSize w st.qtype rrs = rrSize w.resolve r := by simp [plainSize, hfil]
      have ho : NamePtr st.out (bif atAuth r then st.ac else st.qc) q := by
        cases hat' : atAuth r with
        | true =>
          have := hat r hmem (atAuth_type hat')
          subst this; exact hz
        | false => exact hn
      rw [← hw] at hok
      obtain ⟨st', ans, add, g1, g2, g3, g4, g5, g6, g7, g8, g9, g10⟩ := encRRset_spec hi r hok ho (by rw [hw, ← hps]; exact hsz)
      obtain ⟨s1, s2, s3, s4, s5⟩ := g5
      obtain ⟨bs, e1, e2⟩ := g4.out
      have hn' := g4.namePtr hn
      have hz' := g4.namePtr hz
      refine ⟨st', g1, ⟨g4.inv, ⟨bs, e1.symm⟩, ⟨ans, add, g4.recs, ?_, ?_, by omega, by omega⟩, ?_, by omega, by rw [s3]; exact m4, by rw [s4]; exact m5⟩,
        s2, g6, s5, g7, by rw [g6]; exact hn', by rw [s5]; exact hz', ?_⟩
      · rw [plainRecs, if_neg h255, hfil, ← hw]; simpa using g2
      · rw [plainExtra, if_neg h255, hfil]; simpa using g3
      · rw [g8, plainScope, if_neg h255, hfil, ← hw, scopeOf_max]; simp
      · rw [e1, List.length_append, hps, ← hw]; omega
  · have hc' : (!rrs.isEmpty && decide (st.qtype ≠ 255)) = false := by simpa using hc
    rw [hc', cond_false]
    have hor : rrs = [] ∨ st.qtype = 255 := by
      simp only [Bool.and_eq_false_iff, Bool.not_eq_false', decide_eq_false_iff_not, Decidable.not_not, List.isEmpty_iff, ne_eq] at hc'
      exact hc'
    refine ⟨st, rfl, hnone ?_ ?_ ?_, rfl, rfl, rfl, rfl, hn, hz, by omega⟩ <;> rcases hor with rfl | h <;>
      simp_all [plainRecs, plainExtra, plainScope]

theorem RecsAt_nil_end {p : Bytes} {a b : Nat} (h : RecsAt p a [] b) : a = b := by cases h; rfl

theorem plain_extra_nil {w : World} {rrs : List RRset} (hp : Plain w.resolve rrs) (t : Nat) (q : List Bytes)
    (h : plainRecs w t q rrs = [] ∨ t = 16) : plainExtra t rrs = [] := by
  unfold plainRecs plainExtra at *
  by_cases h255 : t = 255
  · rw [if_pos h255]
  · rw [if_neg h255] at h ⊢
    have hfil := filter_type t rrs hp.1
    cases hf : rrs.find? fun r => r.type == t with
    | none => rw [hfil, hf]; rfl
    | some r =>
      rw [hf] at hfil
      obtain ⟨hmem, hty⟩ := find_type_mem hf
      rw [hfil] at h ⊢
      simp only [Option.toList_some, List.flatMap_cons, List.flatMap_nil, List.append_nil] at h ⊢
      by_cases h2 : r.type = 2
      · obtain ⟨l, hl⟩ := plain_ns hp hmem h2
        obtain ⟨ttl, body⟩ := r
        simp only at hl
        subst hl
        rcases h with h | h
        · simp only [answerRecs, List.map_eq_nil_iff] at h
          subst h; rfl
        · omega
      · exact extra_nil h2

theorem finalAuth_plain {qraw ql q z : List Bytes} {env : Env} {w : World} (hw : env.resolve = w.resolve)
    (hq : WF q) (hc : ChalsOk env w.chals)
    (st : St) (hi : Inv qraw ql env st) (rrs : List RRset) (hp : Plain w.resolve rrs)
    (ht : st.qtype < 128 ∨ 256 ≤ st.qtype ∨ st.qtype = 255)
    (hn : NamePtr st.out st.qc q) (hz : NamePtr st.out st.ac z)
    (hat : ∀ r ∈ rrs, r.type = 2 ∨ r.type = 6 → q = z)
    (hmeta : st.an = 0 ∧ st.ns = 0 ∧ st.ar = 0 ∧ st.rcode = 0)
    (dom : Bool) (auth : Node) (soa : RRset) (hsoa : getType auth.rrs 6 = some soa)
    (hsb : ∃ m n t, soa.body = .soa m n t) (hok : RRsetOk w.resolve soa)
    (hsz : st.out.length + max (plainSize w st.qtype rrs) (rrSize w.resolve soa) ≤ 16384) :
    ∃ st' k, finalAuth env st (encode q true) dom auth rrs = .ok st' ∧
      Holds qraw ql env st.out st' (coreReply w st.qtype k (plainRecs w st.qtype q rrs) (plainExtra st.qtype rrs)
        (max (plainScope w st.qtype rrs) st.scope) q z soa dom) ∧ st'.cn = st.cn ∧
      ((st.qtype = 16 ∧ chalRecs w q ≠ [] ∧ st'.out.length ≤ env.thisMax) ∨ st'.out.length ≤ st.out.length +
        max (plainSize w st.qtype rrs) (max 21 (rrSize w.resolve soa))) ∧
      k ≤ (if st.qtype = 16 then chalRecs w q else []).length ∧
      (k < (if st.qtype = 16 then chalRecs w q else []).length → env.thisMax < st'.out.length + 56) := by
  obtain ⟨m1, m2, m3, m4⟩ := hmeta
  have hh := plain_headIs hp
  rw [finalAuth]
  simp only [hh, Bool.and_false, cond_false]
  have hi' : Inv qraw ql env { st with aa := true } := hi.extend [] (by simp) rfl
  obtain ⟨st1, g1, g2, g3, g4, g5, g6, g7, g8, g9⟩ := plain_construct (q := q) (z := z) hw { st with aa := true } hi' rrs hp ht hn hz hat
    ⟨m1, m2, m3, rfl, m4⟩ (by simp only; omega)
  simp only at g1 g2 g3 g4 g5 g6 g9
  rw [g1, Outcome.bind_ok]
  have hlen : st1.an = 0 → st1.out.length = st.out.length := by
    intro h0
    obtain ⟨an, ar, r1, r2, r3, r4, r5⟩ := g2.recs
    have : an = [] := List.eq_nil_of_length_eq_zero (by omega)
    subst this
    rw [plain_extra_nil hp st.qtype q (.inl (List.nil_perm.mp r2))] at r3
    have := List.perm_nil.mp r3
    subst this
    exact (RecsAt_nil_end r1).symm
  obtain ⟨st', k, k1, k2, k3, k4, k5, k6⟩ := final_core (w := w) hq hc st.out st1 _ _ _ g2
    (fun h => plain_extra_nil hp st.qtype q (by rw [g3] at h; exact h))
    (fun h => by rw [g3] at h; rw [plainRecs, if_pos h]) g7 g8 dom auth soa hsoa hsb (by rw [hw]; exact hok) rrs (fun _ => hh)
    (by
      by_cases h0 : st1.an = 0
      · right; rw [hlen h0]; omega
      · exact .inl h0)
  rw [g3] at k1 k2 k5 k6
  rw [g3]
  refine ⟨st', k, k1, k2, k3.trans g6, ?_, k5, k6⟩
  rcases k4 with h | h
  · rw [g3] at h; exact .inl h
  · right
    by_cases h0 : st1.an = 0
    · rw [hlen h0, decide_eq_true h0, cond_true] at h; omega
    · rw [decide_eq_false h0, cond_false] at h; omega

theorem finalAuth_cname {qraw ql q z : List Bytes} {env : Env} {w : World} (hw : env.resolve = w.resolve)
    (hq : WF q) (hc : ChalsOk env w.chals)
    (st : St) (hi : Inv qraw ql env st) (ttl : UInt32) (d : Bytes) (hd : NameOk d)
    (ht : st.qtype = 5 ∨ st.qtype = 255)
    (hn : NamePtr st.out st.qc q) (hz : NamePtr st.out st.ac z)
    (hmeta : st.an = 0 ∧ st.ns = 0 ∧ st.ar = 0 ∧ st.rcode = 0)
    (dom : Bool) (auth : Node) (soa : RRset) (hsoa : getType auth.rrs 6 = some soa)
    (hsb : ∃ m n t, soa.body = .soa m n t) (hok : RRsetOk w.resolve soa)
    (hsz : st.out.length + (12 + nameLen d) ≤ 16384) :
    ∃ st' k, finalAuth env st (encode q true) dom auth [⟨ttl, .cname d⟩] = .ok st' ∧
      Holds qraw ql env st.out st' (coreReply w 5 k [⟨q, 5, ttlVal ttl, [.name (labelsOf d)]⟩] []
        st.scope q z soa dom) ∧ st'.cn = st.cn ∧
      st'.out.length ≤ st.out.length + (12 + nameLen d) ∧ k = 0 := by
  obtain ⟨m1, m2, m3, m4⟩ := hmeta
  rw [finalAuth]
  have hq5 : (bif decide (st.qtype = 255) && headIs [⟨ttl, .cname d⟩] 5 then 5 else st.qtype) = 5 := by
    rcases ht with h | h <;> simp [h, headIs, RRset.type, Body.type]
  simp only [hq5]
  have hi' : Inv qraw ql env { st with aa := true, qtype := 5 } := hi.extend [] (by simp) rfl
  have hcn : constructNormal env { st with aa := true, qtype := 5 } [⟨ttl, .cname d⟩] =
      encCname env { st with aa := true, qtype := 5 } ttl d false := rfl
  obtain ⟨st1, g1, g2, g3, g4, g5, g6, g7, g8, g9⟩ := encCname_spec (owner := q) ttl d hd false { st with aa := true, qtype := 5 } hi' hn hsz
  obtain ⟨s1, s2, s3, s4, s5⟩ := g3
  have g9' := g9 rfl
  simp only [cond_false] at g4 g5 g6 g7 g9' s1 s2 s3 s4 s5
  have e : (bif ![(⟨ttl, .cname d⟩ : RRset)].isEmpty && decide (5 ≠ 255) then
      constructNormal env { st with aa := true, qtype := 5 } [⟨ttl, .cname d⟩] else .ok { st with aa := true, qtype := 5 }) = .ok st1 := by
    rw [hcn]; exact g1
  rw [e, Outcome.bind_ok]
  have hown : Own qraw ql env st.out st1 [⟨q, 5, ttlVal ttl, [.name (labelsOf d)]⟩] [] st.scope := by
    refine ⟨g2.inv, by obtain ⟨bs, e1, _⟩ := g2.out; exact ⟨bs, e1.symm⟩, ⟨_, [], by rw [List.append_nil]; exact g2.recs, .refl _, .refl _, ?_, ?_⟩, g7, ?_, s3, ?_⟩
    · rw [g4, m1]; rfl
    · rw [g5, m3]; rfl
    · rw [s1, m2]
    · rw [s4, m4]
  obtain ⟨st', k, k1, k2, k3, k4, k5, k6⟩ := final_core (w := w) (z := z) hq hc st.out st1 _ _ _ hown (fun _ => rfl)
    (fun h => by rw [s2] at h; cases h) (by rw [g9']; exact g2.namePtr hn) (by rw [s5]; exact g2.namePtr hz) dom auth soa hsoa hsb
    (by rw [hw]; exact hok) [⟨ttl, .cname d⟩] (fun h => by rw [s2] at h; cases h) (.inl (by rw [g4]; omega))
  rw [s2] at k1 k2 k5
  rw [s2]
  refine ⟨st', k, k1, k2, k3.trans g6, ?_, ?_⟩
  · rcases k4 with h | h
    · rw [s2] at h; exact absurd h.1 (by decide)
    · obtain ⟨bs, e1, e2⟩ := g2.out
      have : st1.an ≠ 0 := by omega
      rw [decide_eq_false this, cond_false] at h
      simp only at e1
      rw [e1, List.length_append] at h
      omega
  · simpa using k5

/-! ### The specification's reply -/

theorem scope_foldr {w : World} {rrs : List RRset} (t : Nat) (h : ∀ r ∈ rrs, ∀ res m, r.body ≠ .dync res m) :
    ownScope w t rrs = ((rrs.filter fun r => r.type == t).map fun r => Enc.scopeOf w.resolve r 0).foldr max 0 := by
  unfold ownScope
  induction rrs with
  | nil => rfl
  | cons r rs ih =>
    have ih := ih fun x hx => h x (by simp [hx])
    have hr := h r (by simp)
    rw [List.map_cons, List.foldr_cons, ih, List.filter_cons]
    obtain ⟨ttl, body⟩ := r
    by_cases hc : (RRset.type ⟨ttl, body⟩ == t) = true
    · rw [if_pos hc, List.map_cons, List.foldr_cons]
      have hc := eq_of_beq hc
      congr 1
      cases body <;> simp_all [LookupSpec.scopeOf, Enc.scopeOf, RRset.type, Body.type]
    · rw [if_neg hc]
      have hc : RRset.type ⟨ttl, body⟩ ≠ t := by simpa using hc
      have : LookupSpec.scopeOf w t ⟨ttl, body⟩ = 0 := by
        cases body <;> simp_all [LookupSpec.scopeOf, RRset.type, Body.type]
        · exact fun h => absurd h.symm hc
        · exact fun h => absurd h.symm hc
      rw [this]; simp

theorem plain_filter_255 {w : World} {rrs : List RRset} (hp : Plain w.resolve rrs) :
    (rrs.filter fun r => r.type == 255) = [] := by
  rw [List.filter_eq_nil_iff]
  intro x hx h
  exact (plain_type hp hx).2 (eq_of_beq h)

theorem plain_spec {w : World} {rrs : List RRset} (hp : Plain w.resolve rrs) (t : Nat) (q : List Bytes) :
    aliasOf w rrs = none ∧ ownRecs w t q rrs = plainRecs w t q rrs ∧ ownExtra w t rrs = plainExtra t rrs ∧
    ownScope w t rrs = plainScope w t rrs ∧ ownSize w t rrs = plainSize w t rrs := by
  have hnd : ∀ r ∈ rrs, ∀ res m, r.body ≠ .dync res m := by
    intro r hr res m h
    obtain ⟨h1, _, _⟩ := hp.2 r hr
    obtain ⟨ttl, body⟩ := r
    simp only at h; subst h
    exact h1
  have hnc : ∀ r ∈ rrs, ∀ d, r.body ≠ .cname d := fun r hr => (hp.2 r hr).2.1
  have ha : aliasOf w rrs = none := by
    unfold aliasOf
    split
    · exact absurd rfl (hnc _ (List.mem_singleton.mpr rfl) _)
    · exact absurd rfl (hnd _ (List.mem_singleton.mpr rfl) _ _)
    · rfl
  have ht : typedRecs w t q rrs = (rrs.filter fun r => r.type == t).flatMap (answerRecs w.resolve q) := by
    unfold typedRecs
    split
    · exact absurd rfl (hnd _ (List.mem_singleton.mpr rfl) _ _)
    · rfl
  refine ⟨ha, ?_, ?_, ?_, ?_⟩
  · rw [ownRecs, ha, ht]; rfl
  · rw [ownExtra, ha]; rfl
  · rw [scope_foldr t hnd, plainScope]
    by_cases h : t = 255
    · rw [if_pos h, h, plain_filter_255 hp]; rfl
    · rw [if_neg h]
  · unfold ownSize
    split
    · exact absurd rfl (hnd _ (List.mem_singleton.mpr rfl) _ _)
    · exact absurd rfl (hnc _ (List.mem_singleton.mpr rfl) _)
    · rfl

theorem finalReply_plain {w : World} {rrs : List RRset} (hp : Plain w.resolve rrs) (t k : Nat) (q z : List Bytes) (soa : RRset) :
    finalReply w t k q z soa (some rrs) =
      coreReply w t k (plainRecs w t q rrs) (plainExtra t rrs) (plainScope w t rrs) q z soa true := by
  obtain ⟨h1, h2, h3, h4, _⟩ := plain_spec hp t q
  simp [finalReply, coreReply, h1, h2, h3, h4]

theorem finalReply_missing {w : World} (t k : Nat) (q z : List Bytes) (soa : RRset) :
    finalReply w t k q z soa none = coreReply w t k (plainRecs w t q []) (plainExtra t []) (plainScope w t []) q z soa false := by
  have hp : Plain w.resolve [] := ⟨by simp, by simp⟩
  obtain ⟨h1, h2, h3, h4, _⟩ := plain_spec hp t q
  simp [finalReply, coreReply, h1, h2, h3, h4]

theorem finalReply_cname {w : World} (t k : Nat) (q z : List Bytes) (soa : RRset) (ttl : UInt32) (d : Bytes) :
    finalReply w t k q z soa (some [⟨ttl, .cname d⟩]) =
      coreReply w 5 k [⟨q, 5, ttlVal ttl, [.name (labelsOf d)]⟩] [] 0 q z soa true := by
  simp [finalReply, coreReply, aliasOf, ownRecs, ownExtra, ownScope, LookupSpec.scopeOf]

theorem finalReply_dync_cname {w : World} (t k : Nat) (q z : List Bytes) (soa : RRset) (ttl m : UInt32) (res : Nat) (d : Bytes)
    (h : (w.resolve res).cname = some d) :
    finalReply w t k q z soa (some [⟨ttl, .dync res m⟩]) =
      coreReply w 5 k [⟨q, 5, dynTtl (w.resolve res) ttl m, [.name (labelsOf d)]⟩] [] (w.resolve res).scope q z soa true := by
  simp [finalReply, coreReply, aliasOf, ownRecs, ownExtra, ownScope, LookupSpec.scopeOf, h]

end Gdnsd.Lookup
