import Verif.Load.ServeLemmas
import Verif.Lookup.Props
/-
Answers from loaded files: what C21, C22, C64 and C65 share.
-/
namespace Gdnsd.Load
open Enc hiding scopeOf
open Tree TreeSpec Dname DnameSpec EncSpec LookupSpec LoadSpec Lookup

/-- A directory of zone files that loads, with legal settings. -/
structure Accepted (cfg : Cfg) (threads : Nat) (files : List File) (root : Node) : Prop where
  ttls : cfg.ttls.accepted = true
  nthreads : threads ≠ 0
  scanned : ∀ f ∈ files, Scanned f
  load : loadZones cfg threads files = .ok (some root)

/-- The surroundings of a query for the name `qraw` (as sent): `env` is what the code sees of
the world `w`. -/
structure Around (cfg : Cfg) (qraw : List Bytes) (env : Env) (w : World) : Prop where
  lq : env.lq = encode (lowerName qraw) true
  draws : ∀ k, Rand.Spec.Legal (env.draws k)
  resolve : env.resolve = w.resolve
  chals : ChalsOk env w.chals
  follow : ∀ z, w.follow z ↔ env.noChain = false ∧ z <:+ qraw
  plugins : PlugOk cfg w.resolve
  nsid : cfg.nsidLen ≤ 128

theorem Accepted.zones {cfg : Cfg} {threads : Nat} {files : List File} {root : Node} (h : Accepted cfg threads files root) :
    ∃ zs, Merged zs root ∧ Sources cfg zs (zonesOf files) := by
  obtain ⟨-, ha, zs, b, -⟩ := loadZones_some h.nthreads (fun f hf => Scanned.ok (h.scanned f hf)) (fun f hf => ne_ub_of_some (loadZones_files h.nthreads h.load f hf)) h.load
  exact ⟨zs, b.merged, b.sources ha⟩

theorem WF_lowerName {q : List Bytes} (h : WF q) : WF (lowerName q) :=
  ⟨fun l hl => by
    obtain ⟨x, hx, rfl⟩ := List.mem_map.mp hl
    have := h.1 x hx
    simpa using this, by rw [lowerName_wireLen]; exact h.2⟩

/-- Room for more challenges than there are changes nothing. -/
theorem reply_more {w : World} {t k k' : Nat} {cs : List (List Bytes × RRset)} {e : List Bytes} {v : Verdict}
    (h : ∀ z soa rrs, v = .final z soa rrs → t = 16 → aliasOf w (rrs.getD []) = none → (chalRecs w e).length ≤ k) (hk : k ≤ k') :
    reply w t k' cs e v = reply w t k cs e v := by
  cases v with
  | refused => rfl
  | referral c r => rfl
  | final z soa rrs =>
    have : finalReply w t k' e z soa rrs = finalReply w t k e z soa rrs := by
      unfold finalReply
      by_cases ht : t = 16 ∧ aliasOf w (rrs.getD []) = none
      · have h1 := h z soa rrs rfl ht.1 ht.2
        have e1 : (chalRecs w e).take k' = (chalRecs w e).take k := by
          rw [List.take_of_length_le h1, List.take_of_length_le (by omega)]
        simp only [e1]
      · simp only [ht, if_false]
    show reply w t k' cs e (.final z soa rrs) = _
    simp only [reply, endReply, this]

theorem asked_length {hdr : Bytes} {qraw : List Bytes} {rest : Bytes} (hh : hdr.length = 12) (hr : rest.length = 4) :
    (asked hdr qraw rest).length = 12 + wireLen (lowerName qraw) + 4 := by
  have := wireLabels_length qraw
  have := wireLen_pos qraw
  unfold asked
  rw [lowerName_wireLen]
  simp only [List.length_append, List.length_singleton]
  omega

/-- A lookup in the tree of loaded files. -/
theorem lookup_files {cfg : Cfg} {threads : Nat} {files : List File} {root : Node} (h : Accepted cfg threads files root)
    {qraw : List Bytes} {env : Env} {w : World} (ha : Around cfg qraw env w) (hq : WF qraw)
    (hdr rest : Bytes) (hh : hdr.length = 12) (hr : rest.length = 4) (t : Nat) (ht : t < 128 ∨ 256 ≤ t ∨ t = 255)
    (fuel : Nat) (hf : 16 < fuel) :
    ∃ cs e v, Chain w root t (lowerName qraw) cs e ∧ Ends root e v ∧ cs.length ≤ 16 ∧ DbOk w.resolve root ∧
      (asked hdr qraw rest).length + (chainSize w cs + endSize w t v) + ednsRoom cfg ≤ 16376 ∧
      ∃ st k an ns ar,
      dbLookup (fun _ => root) env fuel 0 { out := asked hdr qraw rest, qtype := t } env.lq false = .ok st ∧
      asked hdr qraw rest <+: st.out ∧
      RecsAt st.out (asked hdr qraw rest).length
        ((cs.flatMap fun c => answerRecs w.resolve c.1 c.2) ++ an ++ ns ++ ar) st.out.length ∧
      an.Perm (endReply w t k e v).answer ∧
      ns.Perm (reply w t k cs e v).authority ∧ ar.Perm (reply w t k cs e v).additional ∧
      st.cn + st.an = ((cs.flatMap fun c => answerRecs w.resolve c.1 c.2) ++ an).length ∧
      st.ns = ns.length ∧ st.ar = ar.length ∧
      st.rcode = (reply w t k cs e v).rcode ∧ st.aa = (reply w t k cs e v).aa ∧ st.scope = (reply w t k cs e v).scope ∧
      ((t = 16 ∧ chalRecs w e ≠ [] ∧ st.out.length ≤ env.thisMax) ∨
        st.out.length ≤ (asked hdr qraw rest).length + (chainSize w cs + endSize w t v)) ∧
      (∀ z soa rrs, v = .final z soa rrs → t = 16 → aliasOf w (rrs.getD []) = none → k < (chalRecs w e).length →
        env.thisMax < st.out.length + 56) := by
  obtain ⟨zs, hm, hs⟩ := h.zones
  have hw := WF_lowerName hq
  obtain ⟨cs, e, hc⟩ := chain_exists hm hs.all w t (lowerName qraw)
  have hdb := dbOk_of ha.plugins hm hs.all
  obtain ⟨v, hv⟩ := C60_verdict hdb e (chain_wf hm hs.all hc hw)
  obtain ⟨hlen, hfit⟩ := reply_fits ha.nsid ha.plugins hm hs.all hw hc hv
  have hal := asked_length (qraw := qraw) hh hr
  obtain ⟨st, k, an, ns, ar, h1, h2, h3, h4, hrest⟩ := C60_lookup ⟨ha.lq, ha.draws, ha.resolve, ha.chals, ha.follow, hdb⟩ hq hdr rest hh t ht cs e v hc hv (by omega) fuel (by omega) (fun _ => root) (fun _ _ => rfl)
  refine ⟨cs, e, v, hc, hv, hlen, hdb, by omega, st, k, an, ns, ar, h1, h2, h3, ?_, hrest⟩
  exact (List.perm_append_left_iff _).mp h4

theorem bind_le {α β : Type} {x : Outcome α} {f g : α → Outcome β} {b : β} (h : x.bind f = .ok b) (hfg : ∀ a, f a = .ok b → g a = .ok b) :
    x.bind g = .ok b := by
  cases x with
  | ub => cases h
  | ok a => exact hfg a h

/-- A lookup that has come to an end does not need more rounds. -/
theorem dbLookup_succ (root : Nat → Node) (env : Env) : ∀ (fuel i : Nat) (st : St) (qname : Bytes) (via : Bool) (st' : St),
    dbLookup root env fuel i st qname via = .ok st' → dbLookup root env (fuel + 1) i st qname via = .ok st' := by
  intro fuel
  induction fuel with
  | zero => intro i st qname via st' h; cases h
  | succ fuel ih =>
    intro i st qname via st' h
    rw [dbLookup] at h ⊢
    refine bind_le h fun r h => ?_
    have step : ∀ (st0 : St) (auth : Node),
        (match rrsOf r.1.dom with
          | ⟨ttl, .dync res m⟩ :: rest =>
            (assert rest.isEmpty).bind fun _ =>
            (processDync env st0 res ttl m).bind fun x =>
            finalAuth env { x.2 with qtype := bif headIs x.1 5 then 5 else x.2.qtype } qname r.1.dom.isSome auth x.1
          | ⟨ttl, .cname d⟩ :: rest =>
            bif decide (st0.qtype ≠ 5) && decide (st0.qtype ≠ 255) then
              (assert rest.isEmpty).bind fun _ =>
              (bif !env.noChain then inWireZone st0.out st0.ac d else .ok false).bind fun chase =>
              bif chase then
                (encCname env { st0 with aa := true } ttl d true).bind fun st =>
                dbLookup root env fuel (i + 1) st d true
              else finalAuth env { st0 with qtype := 5 } qname r.1.dom.isSome auth (rrsOf r.1.dom)
            else finalAuth env st0 qname r.1.dom.isSome auth (rrsOf r.1.dom)
          | rrs => finalAuth env st0 qname r.1.dom.isSome auth rrs) = .ok st' →
        (match rrsOf r.1.dom with
          | ⟨ttl, .dync res m⟩ :: rest =>
            (assert rest.isEmpty).bind fun _ =>
            (processDync env st0 res ttl m).bind fun x =>
            finalAuth env { x.2 with qtype := bif headIs x.1 5 then 5 else x.2.qtype } qname r.1.dom.isSome auth x.1
          | ⟨ttl, .cname d⟩ :: rest =>
            bif decide (st0.qtype ≠ 5) && decide (st0.qtype ≠ 255) then
              (assert rest.isEmpty).bind fun _ =>
              (bif !env.noChain then inWireZone st0.out st0.ac d else .ok false).bind fun chase =>
              bif chase then
                (encCname env { st0 with aa := true } ttl d true).bind fun st =>
                dbLookup root env (fuel + 1) (i + 1) st d true
              else finalAuth env { st0 with qtype := 5 } qname r.1.dom.isSome auth (rrsOf r.1.dom)
            else finalAuth env st0 qname r.1.dom.isSome auth (rrsOf r.1.dom)
          | rrs => finalAuth env st0 qname r.1.dom.isSome auth rrs) = .ok st' := by
      intro st0 auth h
      split
      · next e => rw [e] at h; exact h
      · next ttl d rest e =>
        rw [e] at h
        simp only at h
        cases hc : (decide (st0.qtype ≠ 5) && decide (st0.qtype ≠ 255)) with
        | false => rw [hc] at h; simp only [e]; exact h
        | true =>
          rw [hc] at h
          simp only [cond_true] at h ⊢
          refine bind_le h fun _ h => bind_le h fun c h => ?_
          cases c with
          | false => simp only [e]; exact h
          | true => exact bind_le h fun s h => ih _ _ _ _ _ h
      · next x y z =>
        split at h
        · next e => exact absurd e (y _ _ _ _)
        · next e => exact absurd e (z _ _ _)
        · exact h
    cases hs : r.1.status with
    | noauth => rw [hs] at h; exact h
    | auth =>
      rw [hs] at h
      simp only at h ⊢
      split
      · next e => rw [e] at h; exact h
      · next auth e =>
        rw [e] at h
        simp only at h
        refine bind_le h fun ac h => ?_
        simp only [reduceCtorEq, if_false] at h ⊢
        exact step _ _ h
    | deleg =>
      rw [hs] at h
      simp only at h ⊢
      split
      · next e => rw [e] at h; exact h
      · next auth e => rw [e] at h; exact h

theorem dbLookup_more {root : Nat → Node} {env : Env} {fuel fuel' i : Nat} {st st' : St} {qname : Bytes} {via : Bool}
    (h : dbLookup root env fuel i st qname via = .ok st') (hf : fuel ≤ fuel') : dbLookup root env fuel' i st qname via = .ok st' := by
  induction hf with
  | refl => exact h
  | step _ ih => exact dbLookup_succ _ _ _ _ _ _ _ _ ih

theorem answerRecs_type {resolve : Nat → DynRes} {q : List Bytes} {r : RRset} {x : Rec} (h : x ∈ answerRecs resolve q r) :
    x.type = r.type := by
  obtain ⟨ttl, b⟩ := r
  cases b <;> simp only [answerRecs, List.mem_map, List.mem_singleton, List.not_mem_nil] at h <;>
    first | (obtain ⟨_, -, rfl⟩ := h; rfl) | (subst h; rfl) | (exact h.elim)

theorem own_shape {w : World} {rrs : List RRset} (h : NodeOk w.resolve rrs) (t : Nat) (q : List Bytes) :
    (aliasOf w rrs ≠ none ∧ ∃ r, ownRecs w t q rrs = [r]) ∨ (aliasOf w rrs = none ∧ ∀ r ∈ ownRecs w t q rrs, r.type ≠ 5) := by
  unfold ownRecs
  cases ha : aliasOf w rrs with
  | some a => exact .inl ⟨nofun, _, rfl⟩
  | none =>
    refine .inr ⟨rfl, ?_⟩
    simp only
    split
    · intro r hr; cases hr
    · rcases h with ⟨ttl, res, m, rfl, -⟩ | ⟨ttl, d, rfl, -⟩ | ⟨-, h⟩
      · intro r hr
        simp only [typedRecs] at hr
        split at hr
        · obtain ⟨_, -, rfl⟩ := List.mem_map.mp hr; exact (by decide : (1 : Nat) ≠ 5)
        · split at hr
          · obtain ⟨_, -, rfl⟩ := List.mem_map.mp hr; exact (by decide : (28 : Nat) ≠ 5)
          · cases hr
      · simp [aliasOf] at ha
      · intro r hr
        have key : ∀ s ∈ rrs, s.type ≠ 5 := by
          intro s hs
          obtain ⟨-, h2, h3⟩ := h s hs
          obtain ⟨ttl, b⟩ := s
          cases b <;> simp only [RRset.type, Body.type, ne_eq, Nat.reduceEqDiff, not_false_eq_true]
          · exact absurd rfl (h2 _)
          · next u l => intro e; exact h3 u l rfl (by rw [e]; decide)
        unfold typedRecs at hr
        split at hr
        · exact absurd (h _ (List.mem_singleton.mpr rfl)).1 (by simp [RRsetOk])
        · obtain ⟨s, hs, hx⟩ := List.mem_flatMap.mp hr
          rw [answerRecs_type hx]
          exact key s (List.mem_filter.mp hs).1

/-- The answer at the end of a chain is one record, or none of its records is a CNAME. -/
theorem end_shape {w : World} {root : Node} (hdb : DbOk w.resolve root) {t : Nat} (k : Nat) {e : List Bytes} {v : Verdict} (hv : Ends root e v) :
    (∃ r, (endReply w t k e v).answer = [r]) ∨ ∀ r ∈ (endReply w t k e v).answer, r.type ≠ 5 := by
  cases v with
  | refused => exact .inr nofun
  | referral c r => exact .inr nofun
  | final z soa rrs =>
    have hok : NodeOk w.resolve (rrs.getD []) := by
      cases rrs with
      | none => exact .inr (.inr ⟨List.nodup_nil, nofun⟩)
      | some l =>
        obtain ⟨a, -, -, -, n, hn, rfl⟩ := hv
        rcases hn.2.2 with h | ⟨-, x, -, h⟩
        · exact hdb.node _ _ h
        · exact hdb.node _ _ h
    have hchal : ∀ r ∈ (chalRecs w e).take k, r.type ≠ 5 := by
      intro r hr
      have hr := List.mem_of_mem_take hr
      unfold chalRecs at hr
      split at hr
      · split at hr
        · obtain ⟨_, -, rfl⟩ := List.mem_map.mp hr; exact (by decide : (16 : Nat) ≠ 5)
        · cases hr
      · cases hr
    unfold endReply finalReply
    simp only
    rcases own_shape hok t e with ⟨ha, r, hr⟩ | ⟨ha, hr⟩
    · rw [hr]
      simp only [ha, and_false, if_false, List.append_nil, ne_eq, List.cons_ne_nil, not_false_eq_true, if_true]
      exact .inl ⟨r, rfl⟩
    · have hall : ∀ r ∈ ownRecs w t e (rrs.getD []) ++ (if t = 16 ∧ aliasOf w (rrs.getD []) = none then (chalRecs w e).take k else []), r.type ≠ 5 := by
        intro r h
        rcases List.mem_append.mp h with h | h
        · exact hr r h
        · split at h
          · exact hchal r h
          · cases h
      generalize ownRecs w t e (rrs.getD []) ++ (if t = 16 ∧ aliasOf w (rrs.getD []) = none then (chalRecs w e).take k else []) = ans at hall ⊢
      split
      · exact .inr hall
      · split
        · exact .inl ⟨_, rfl⟩
        · exact .inr (by intro r h; cases h)

/-- The CNAMEs of a chain. -/
theorem chain_types {w : World} {root : Node} {t : Nat} {q e : List Bytes} {cs : List (List Bytes × RRset)} (hc : Chain w root t q cs e) :
    ∀ r ∈ cs.flatMap (fun c => answerRecs w.resolve c.1 c.2), r.type = 5 := by
  induction hc with
  | stop => intro r h; cases h
  | step hf _ ih =>
    intro r h
    rw [List.flatMap_cons] at h
    rcases List.mem_append.mp h with h | h
    · obtain ⟨z, n, b, -, -, e1, -⟩ := hf
      rw [answerRecs_type h, RRset.type, e1]; rfl
    · exact ih r h

end Gdnsd.Load
