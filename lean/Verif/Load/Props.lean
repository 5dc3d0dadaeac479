import Verif.Load.AnswerLemmas
/-
C19 to C23, C63 and C64: loading zone files, and answering from them. The specification is in
Verif/Load/Spec.lean and Verif/Load/ReplySpec.lean.
-/
namespace Gdnsd.Load
open Enc hiding scopeOf
open Tree TreeSpec DnameSpec EncSpec LookupSpec LoadSpec Lookup

/-! ### C19: merging -/

/-- A file loads if it is the only one. -/
def LoadsAlone (cfg : Cfg) (f : File) : Prop := ∃ root, loadZones cfg 1 [f] = .ok (some root)

theorem loadsAlone_iff {cfg : Cfg} {f : File} (hs : Scanned f) (hm : NoMix f) :
    LoadsAlone cfg f ↔ ∃ z, loadFile cfg f = .ok (some z) := by
  constructor
  · rintro ⟨root, h⟩
    exact loadZones_files (by decide) h f (List.mem_singleton.mpr rfl)
  · intro h
    obtain ⟨root, zs, h1, -⟩ := (loadZones_spec (cfg := cfg) (threads := 1) (files := [f]) (by decide)
      (fun g hg => by rw [List.mem_singleton.mp hg]; exact Scanned.ok hs)
      (fun g hg => by rw [List.mem_singleton.mp hg]; exact Scanned.ne_ub hs hm)).1
      (fun g hg => by rw [List.mem_singleton.mp hg]; exact h) (List.pairwise_singleton _ _)
    exact ⟨root, h1⟩

/-- C19. A directory loads exactly if every file of it loads alone and no zone is at or below
another one; otherwise it is rejected as a whole. -/
theorem C19_accept {cfg : Cfg} {threads : Nat} {files : List File} (ht : threads ≠ 0) (hs : ∀ f ∈ files, Scanned f)
    (hm : ∀ f ∈ files, NoMix f) :
    ((∃ root, loadZones cfg threads files = .ok (some root)) ↔ (∀ f ∈ files, LoadsAlone cfg f) ∧ Unrelated files) ∧
    (¬ ((∀ f ∈ files, LoadsAlone cfg f) ∧ Unrelated files) → loadZones cfg threads files = .ok none) := by
  have hf := fun f h => Scanned.ok (hs f h)
  have hu := fun f h => Scanned.ne_ub (cfg := cfg) (hs f h) (hm f h)
  obtain ⟨h1, h2⟩ := loadZones_spec (threads := threads) ht hf hu
  have e : (∀ f ∈ files, LoadsAlone cfg f) ↔ ∀ f ∈ files, ∃ z, loadFile cfg f = .ok (some z) :=
    forall_congr' fun f => forall_congr' fun h => loadsAlone_iff (hs f h) (hm f h)
  rw [e, Unrelated_iff]
  refine ⟨⟨?_, ?_⟩, ?_⟩
  · rintro ⟨root, h⟩
    obtain ⟨a, b, -⟩ := loadZones_some ht hf hu h
    exact ⟨a, b⟩
  · rintro ⟨a, b⟩
    obtain ⟨root, zs, c, -⟩ := h1 a b
    exact ⟨root, c⟩
  · intro hn
    refine h2 ?_
    rcases Classical.em (∃ f ∈ files, loadFile cfg f = .ok none) with h | h
    · exact .inl h
    · refine .inr ?_
      have hall : ∀ f ∈ files, ∃ z, loadFile cfg f = .ok (some z) := by
        intro f hfm
        cases hl : loadFile cfg f with
        | ub => exact absurd hl (hu f hfm)
        | ok r =>
          cases r with
          | some z => exact ⟨z, rfl⟩
          | none => exact absurd ⟨f, hfm, hl⟩ h
      exact ⟨hall, fun ha => hn ⟨hall, ha⟩⟩

/-- C19. Neither the order of the files nor the number of threads matters: another order is
accepted as well, and leads to the same chains and verdicts for every name. -/
theorem C19_order {cfg : Cfg} {threads threads' : Nat} {files files' : List File} (ht : threads ≠ 0) (ht' : threads' ≠ 0)
    (hs : ∀ f ∈ files, Scanned f) (hp : files.Perm files') {root : Node} (h : loadZones cfg threads files = .ok (some root)) :
    ∃ root', loadZones cfg threads' files' = .ok (some root') ∧
      (∀ w t q cs e, Chain w root t q cs e ↔ Chain w root' t q cs e) ∧ ∀ q v, Ends root q v ↔ Ends root' q v := by
  obtain ⟨root', h1, h2⟩ := loadZones_same ht ht' hp (fun f h => Scanned.ok (hs f h))
    (fun f hf => ne_ub_of_some (loadZones_files ht h f hf)) h
  exact ⟨root', h1, fun w t q cs e => ⟨h2.chain, h2.symm.chain⟩, h2.ends⟩

/-- C19. After a successful load, every name of a zone is looked for in this zone, and a name
of no zone in none. -/
theorem C19_zone {cfg : Cfg} {threads : Nat} {files : List File} {root : Node} (ht : threads ≠ 0)
    (hs : ∀ f ∈ files, Scanned f) (h : loadZones cfg threads files = .ok (some root)) (q : List Bytes) :
    (∀ zone l, zonesOf files zone l → zone <:+ q → IsZone root q zone ∧ ∀ z, IsZone root q z → z = zone) ∧
    ((∀ zone l, zonesOf files zone l → ¬ zone <:+ q) → Located root q .outside) := by
  obtain ⟨-, ha, zs, b, -⟩ := loadZones_some ht (fun f hf => Scanned.ok (hs f hf)) (fun f hf => ne_ub_of_some (loadZones_files ht h f hf)) h
  have hsrc := b.sources ha
  constructor
  · intro zone l hz hq
    obtain ⟨x, hx, z, rfl, hl⟩ := hsrc.at hz
    have huniq : ∀ z, IsZone root q z → z = x.1 := fun z hz => b.merged.zoneOf hx hq hz
    refine ⟨⟨hq, ⟨x.2, b.merged.zone x hx, b.merged.cut x hx⟩, ?_⟩, huniq⟩
    rintro s h1 h2 ⟨n, hn, hc⟩
    obtain ⟨y, hy, hys⟩ := b.merged.cutAt hn hc
    have := b.merged.one hy hx (hys.trans h1)
    subst this
    exact h2 (h1.eq_of_length (Nat.le_antisymm h1.length_le hys.length_le))
  · intro hno s hsq hcut
    obtain ⟨n, hn, hc⟩ := hcut
    obtain ⟨x, hx, hxs⟩ := b.merged.cutAt hn hc
    obtain ⟨l, z, hzl, -⟩ := hsrc.file x hx
    exact hno x.1 l hzl (hxs.trans hsq)

/-! ### C20: reloading -/

/-- Whether a directory loads, when looked at on its own. -/
def DirLoads (cfg : Cfg) (threads : Nat) (d : Dir) (root : Node) : Prop := loadDir cfg threads d = .ok (some root)

/-- What the scanner makes of the files of a directory. -/
def DirScanned (d : Dir) : Prop := ∀ l, d = .files l → (∀ f ∈ l, Scanned f) ∧ ∀ f ∈ l, NoMix f

theorem loadDir_ne_ub {cfg : Cfg} {threads : Nat} (ht : threads ≠ 0) {d : Dir} (h : DirScanned d) : ∃ r, loadDir cfg threads d = .ok r := by
  cases d with
  | missing => exact ⟨_, rfl⟩
  | unreadable => exact ⟨_, rfl⟩
  | files l =>
    obtain ⟨h1, h2⟩ := h l rfl
    obtain ⟨a, b⟩ := C19_accept (cfg := cfg) ht h1 h2
    rcases Classical.em ((∀ f ∈ l, LoadsAlone cfg f) ∧ Unrelated l) with h | h
    · obtain ⟨root, hr⟩ := a.mpr h
      exact ⟨_, hr⟩
    · exact ⟨_, b h⟩

/-- C20, the reload's side: after any history of reloads the tree in place is the one of the
last directory that loads, complete; directories that do not load leave no trace. (What one
query sees is C20_query and C20_false_mixed in Verif/Lookup/Props.lean.) -/
theorem C20_reload_partial {cfg : Cfg} {threads : Nat} (ht : threads ≠ 0) : ∀ (ds : List Dir) (root : Node), (∀ d ∈ ds, DirScanned d) →
    ∃ root', reloads cfg threads root ds = .ok root' ∧
      ((root' = root ∧ ∀ d ∈ ds, ∀ n, ¬ DirLoads cfg threads d n) ∨
       ∃ before d rest, ds = before ++ d :: rest ∧ DirLoads cfg threads d root' ∧ ∀ d' ∈ rest, ∀ n, ¬ DirLoads cfg threads d' n) := by
  intro ds
  induction ds with
  | nil => intro root _; exact ⟨root, rfl, .inl ⟨rfl, nofun⟩⟩
  | cons d l ih =>
    intro root hd
    obtain ⟨r, hr⟩ := loadDir_ne_ub (cfg := cfg) ht (hd d (List.mem_cons_self ..))
    have hl := fun x hx => hd x (List.mem_cons_of_mem _ hx)
    cases r with
    | none =>
      obtain ⟨root', h1, h2⟩ := ih root hl
      refine ⟨root', by unfold reloads reload; rw [hr]; exact h1, ?_⟩
      rcases h2 with ⟨a, b⟩ | ⟨p, x, q, a, b⟩
      · refine .inl ⟨a, fun x hx n hn => ?_⟩
        rcases List.mem_cons.mp hx with e | hx
        · rw [e] at hn; unfold DirLoads at hn; rw [hr] at hn; cases hn
        · exact b x hx n hn
      · exact .inr ⟨d :: p, x, q, by rw [a]; rfl, b⟩
    | some new =>
      obtain ⟨root', h1, h2⟩ := ih new hl
      refine ⟨root', by unfold reloads reload; rw [hr]; exact h1, .inr ?_⟩
      rcases h2 with ⟨a, b⟩ | ⟨p, x, q, a, b⟩
      · exact ⟨[], d, l, rfl, by rw [a]; exact hr, b⟩
      · exact ⟨d :: p, x, q, by rw [a]; rfl, b⟩

/-! ### C21: chains of CNAMEs -/

/-- C21. In a directory that loads, no name has more than 16 CNAMEs to follow. -/
theorem C21_bound {cfg : Cfg} {threads : Nat} {files : List File} {root : Node} (h : Accepted cfg threads files root)
    {w : World} {t n : Nat} {q : List Bytes} (hq : WF q) (hh : Hops w (zonesOf files) t q n) : n ≤ 16 := by
  obtain ⟨zs, hm, hs⟩ := h.zones
  obtain ⟨cs, e, hp, rfl⟩ := hops_path h.ttls hm hs hh hq
  exact path_le hm hs.all hp

/-- C21. A directory with a longer chain is rejected; so is one with a loop, where any number
of CNAMEs can be followed. -/
theorem C21_reject {cfg : Cfg} {threads : Nat} {files : List File} (hg : cfg.ttls.accepted = true) (ht : threads ≠ 0)
    (hs : ∀ f ∈ files, Scanned f) (hm : ∀ f ∈ files, NoMix f) {w : World} {t n : Nat} {q : List Bytes} (hq : WF q)
    (hh : Hops w (zonesOf files) t q n) (hn : 16 < n) : loadZones cfg threads files = .ok none := by
  obtain ⟨a, b⟩ := C19_accept (cfg := cfg) ht hs hm
  rcases Classical.em ((∀ f ∈ files, LoadsAlone cfg f) ∧ Unrelated files) with h | h
  · obtain ⟨root, hr⟩ := a.mpr h
    have := C21_bound ⟨hg, ht, hs, hr⟩ hq hh
    omega
  · exact b h

/-- C21. A lookup comes to an end after at most 16 CNAMEs: 17 rounds of the loop are enough,
and more change nothing. -/
theorem C21_lookup {cfg : Cfg} {threads : Nat} {files : List File} {root : Node} (h : Accepted cfg threads files root)
    {qraw : List Bytes} {env : Env} {w : World} (ha : Around cfg qraw env w) (hq : WF qraw)
    (hdr rest : Bytes) (hh : hdr.length = 12) (hr : rest.length = 4) (t : Nat) (ht : t < 128 ∨ 256 ≤ t ∨ t = 255) :
    ∃ st, ∀ fuel, 16 < fuel → dbLookup (fun _ => root) env fuel 0 { out := asked hdr qraw rest, qtype := t } env.lq false = .ok st := by
  obtain ⟨cs, e, v, hc, hv, hlen, hdb, hfit, st, k, an, ns, ar, h1, -⟩ := lookup_files h ha hq hdr rest hh hr t ht 17 (by decide)
  refine ⟨st, fun fuel hf => ?_⟩
  exact dbLookup_more h1 (by omega)

/-! ### C22: sizes -/

/-- C22. A reply built from a directory that loads leaves room for all EDNS options. Only
replies with ACME challenges can be larger (see C66). -/
theorem C22_fits {cfg : Cfg} {threads : Nat} {files : List File} {root : Node} (h : Accepted cfg threads files root)
    {qraw : List Bytes} {env : Env} {w : World} (ha : Around cfg qraw env w) (hq : WF qraw)
    (hdr rest : Bytes) (hh : hdr.length = 12) (hr : rest.length = 4) (t : Nat) (ht : t < 128 ∨ 256 ≤ t ∨ t = 255)
    (hchal : t = 16 → ∀ e, chalRecs w e = []) (fuel : Nat) (hf : 16 < fuel) :
    ∃ st, dbLookup (fun _ => root) env fuel 0 { out := asked hdr qraw rest, qtype := t } env.lq false = .ok st ∧
      st.out.length + ednsRoom cfg ≤ 16376 := by
  obtain ⟨cs, e, v, hc, hv, hlen, hdb, hfit, st, k, an, ns, ar, h1, -, -, -, -, -, -, -, -, -, -, -, h2, -⟩ :=
    lookup_files h ha hq hdr rest hh hr t ht fuel hf
  refine ⟨st, h1, ?_⟩
  rcases h2 with ⟨a, b, -⟩ | h2
  · exact absurd (hchal a e) b
  · omega

/-! ### C23: rules -/

/-- C23. The records of every zone that loads follow the rules. Missing: records in RFC 3597
syntax with a type number of more than 16 bits, where it is false (C23_false). -/
theorem C23_rules_partial {cfg : Cfg} {threads : Nat} {files : List File} {root : Node} (ht : threads ≠ 0)
    (hs : ∀ f ∈ files, Scanned f) (h : loadZones cfg threads files = .ok (some root))
    {zone : List Bytes} {l : List Add} (hz : zonesOf files zone l) : Rules zone l := by
  obtain ⟨-, ha, zs, b, -⟩ := loadZones_some ht (fun f hf => Scanned.ok (hs f hf)) (fun f hf => ne_ub_of_some (loadZones_files ht h f hf)) h
  obtain ⟨x, -, z, rfl, hl⟩ := (b.sources ha).at hz
  exact hl.rules

/-! ### C63: loading is safe -/

/-- C63. Loading a directory never has undefined behaviour and fails no assertion. Missing:
names with CNAME and NS records, and type numbers of more than 16 bits, where it is false
(C63_false_mix, C63_false_type). -/
theorem C63_safe_partial {cfg : Cfg} {threads : Nat} {files : List File} (ht : threads ≠ 0) (hs : ∀ f ∈ files, Scanned f)
    (hm : ∀ f ∈ files, NoMix f) : ∃ r, loadZones cfg threads files = .ok r :=
  loadDir_ne_ub ht (d := .files files) fun l e => by cases e; exact ⟨hs, hm⟩

/-! ### C64: replies and zone files -/

/-- Whether a record is a CNAME. -/
def isCname (r : Rec) : Bool := r.type == 5

/-- C64. A query is answered with the reply that the records of the zone files make for it:
there is exactly one such reply, and what the answer, authority and additional sections hold
are its records, each section in some order; the CNAMEs come first and in the order they were
followed. `k` is the number of ACME challenges there was room for; unless the message is
within 56 bytes of its limit, that is all of them.

Missing: type numbers and data lengths of more than 16 bits in RFC 3597 syntax, where it is
false (C64_false). -/
theorem C64_reply_partial {cfg : Cfg} {threads : Nat} {files : List File} {root : Node} (h : Accepted cfg threads files root)
    {qraw : List Bytes} {env : Env} {w : World} (ha : Around cfg qraw env w) (hq : WF qraw)
    (hdr rest : Bytes) (hh : hdr.length = 12) (hr : rest.length = 4) (t : Nat) (ht : t < 128 ∨ 256 ≤ t ∨ t = 255)
    (fuel : Nat) (hf : 16 < fuel) :
    ∃ k rep, FileReply cfg w (zonesOf files) t k (lowerName qraw) rep ∧
      (∀ rep', FileReply cfg w (zonesOf files) t k (lowerName qraw) rep' → rep = rep') ∧
      ∃ st an ns ar,
      dbLookup (fun _ => root) env fuel 0 { out := asked hdr qraw rest, qtype := t } env.lq false = .ok st ∧
      asked hdr qraw rest <+: st.out ∧
      RecsAt st.out (asked hdr qraw rest).length (an ++ ns ++ ar) st.out.length ∧
      an.Perm rep.answer ∧ ns.Perm rep.authority ∧ ar.Perm rep.additional ∧
      st.cn + st.an = an.length ∧ st.ns = ns.length ∧ st.ar = ar.length ∧
      st.rcode = rep.rcode ∧ st.aa = rep.aa ∧ st.scope = rep.scope ∧
      an = rep.answer.filter isCname ++ an.filter (fun r => !isCname r) ∧
      (st.out.length + 56 ≤ env.thisMax → ∀ k', k ≤ k' → FileReply cfg w (zonesOf files) t k' (lowerName qraw) rep) := by
  obtain ⟨cs, e, v, hc, hv, hlen, hdb, hfit, st, k, an, ns, ar, h1, h2, h3, h4, h5, h6, h7, h8, h9, h10, h11, h12, h13, h14⟩ :=
    lookup_files h ha hq hdr rest hh hr t ht fuel hf
  obtain ⟨zs, hm, hs⟩ := h.zones
  have hw := WF_lowerName hq
  have hrep := reply_file h.ttls hm hs hc hw hv k
  refine ⟨k, _, hrep, fileReply_unique h.ttls hm hs hrep hw, st, _, ns, ar, h1, h2, h3, ?_, h5, h6, h7, h8, h9, h10, h11, h12, ?_, ?_⟩
  · exact h4.append_left _
  · have h5' : ∀ r ∈ cs.flatMap (fun c => answerRecs w.resolve c.1 c.2), isCname r = true := fun r hr => by
      unfold isCname; rw [chain_types hc r hr]; rfl
    have e1 : (cs.flatMap (fun c => answerRecs w.resolve c.1 c.2)).filter isCname = _ := List.filter_eq_self.mpr h5'
    have e2 : (cs.flatMap (fun c => answerRecs w.resolve c.1 c.2)).filter (fun r => !isCname r) = [] :=
      List.filter_eq_nil_iff.mpr fun r hr => by rw [h5' r hr]; simp
    show _ = ((cs.flatMap (fun c => answerRecs w.resolve c.1 c.2)) ++ (endReply w t k e v).answer).filter isCname ++ _
    rw [List.filter_append, List.filter_append, e1, e2, List.nil_append, List.append_assoc]
    congr 1
    rcases end_shape hdb k hv (t := t) with ⟨r, hr⟩ | hr
    · rw [hr] at h4 ⊢
      rw [List.perm_singleton.mp h4]
      cases hi : isCname r <;> simp [List.filter, hi]
    · rw [List.filter_eq_nil_iff.mpr (fun r hx => by unfold isCname; simpa using hr r hx), List.nil_append]
      exact (List.filter_eq_self.mpr fun r hx => by unfold isCname; simpa using hr r (h4.mem_iff.mp hx)).symm
  · intro hroom k' hk
    rw [← reply_more (k := k) (k' := k') ?_ hk]
    · exact reply_file h.ttls hm hs hc hw hv k'
    · intro z soa rrs e1 e2 e3
      rcases Nat.lt_or_ge k (chalRecs w e).length with hlt | hge
      · have := h14 z soa rrs e1 e2 e3 hlt; omega
      · exact hge

/-! ### The hypotheses can be met -/

namespace Ex

def cfg : Cfg := { ttls := ⟨604800, 5, 10800, 0⟩, strict := false, ecs := true, cookies := true, nsidLen := 4, dynaMax := 340, resource := fun _ _ => some 0 }

def nm (ls : List Bytes) : Bytes := encode ls true

def soa : Add := ⟨nm [], 3600, .soa (nm [[109], [122]]) (nm [[114], [122]]) 1 7200 1800 259200 900⟩
def ns : Add := ⟨nm [], 3600, .ns (nm [[98], [122]])⟩

/-- The records of a zone `z.`: the alias `a.z.` of `b.z.`, two addresses there, a delegation
`d.z.` with glue and a wildcard `*.w.z.` that is a plugin's. -/
def recs : List Add := [soa, ns, ⟨nm [[97]], 60, .cname (nm [[98], [122]])⟩, ⟨nm [[98]], 60, .a [192, 0, 2, 1] false⟩,
  ⟨nm [[98]], 60, .a [192, 0, 2, 2] false⟩, ⟨nm [[100]], 60, .ns (nm [[110], [100], [122]])⟩,
  ⟨nm [[110], [100]], 60, .a [192, 0, 2, 9] false⟩, ⟨nm [[42], [119]], 60, .dyna [120] 5⟩]

def file : File := ⟨[122], some recs⟩
/-- Another zone, `y.`. -/
def file2 : File := ⟨[121], some [soa, ns]⟩
/-- A loop: `a.x.` is an alias of itself. -/
def file3 : File := ⟨[120], some [soa, ns, ⟨nm [[97]], 60, .cname (nm [[97], [120]])⟩]⟩

theorem named (c : UInt8) (hc : LabelText [c] [c]) (h1 : c ≠ 64) (h2 : c ≠ 42) (h3 : lower c = c) : NamesZone [c] [[c]] := by
  refine ⟨by simp, [[c]], false, ?_, ?_, by simp [h2], by simp [lowerName, h3]⟩
  · have : fileText [c] = [c] := by simp [fileText, h1]
    rw [this]
    exact .last (by simp) hc
  · exact ⟨by simp, by simp [wireLen]⟩

theorem only {fn : Bytes} {a b : List Bytes} (ha : NamesZone fn a) (hb : NamesZone fn b) : b = a :=
  NameOf.unique (f := ⟨fn, none⟩) (NameOf_iff.mpr hb) (NameOf_iff.mpr ha)

theorem name1 : NamesZone [122] [[122]] := named 122 (.lit (by decide) (by decide) .nil) (by decide) (by decide) (by decide)
theorem name2 : NamesZone [121] [[121]] := named 121 (.lit (by decide) (by decide) .nil) (by decide) (by decide) (by decide)
theorem name3 : NamesZone [120] [[120]] := named 120 (.lit (by decide) (by decide) .nil) (by decide) (by decide) (by decide)

theorem nmOk (ls : List Bytes) (h : WF ls) : NameOk (nm ls) := ⟨ls, h, rfl⟩

theorem soaOk (z : List Bytes) (h : WF z) : RecOk z soa :=
  ⟨[], rfl, ⟨nmOk _ (by decide), nmOk _ (by decide), rfl⟩, h⟩
theorem nsOk (z : List Bytes) (h : WF z) : RecOk z ns := ⟨[], rfl, nmOk _ (by decide), h⟩

theorem scanned1 : Scanned file := by
  intro zone l hz hl r hr
  cases only name1 hz
  cases hl
  simp only [recs, List.mem_cons, List.not_mem_nil, or_false] at hr
  rcases hr with rfl | rfl | rfl | rfl | rfl | rfl | rfl | rfl
  · exact soaOk _ (by decide)
  · exact nsOk _ (by decide)
  · exact ⟨[[97]], rfl, ⟨nmOk _ (by decide), by decide +kernel⟩, (by decide : WF [[97], [122]])⟩
  · exact ⟨[[98]], rfl, rfl, (by decide : WF [[98], [122]])⟩
  · exact ⟨[[98]], rfl, rfl, (by decide : WF [[98], [122]])⟩
  · exact ⟨[[100]], rfl, nmOk _ (by decide), (by decide : WF [[100], [122]])⟩
  · exact ⟨[[110], [100]], rfl, rfl, (by decide : WF [[110], [100], [122]])⟩
  · exact ⟨[[42], [119]], rfl, trivial, (by decide : WF [[42], [119], [122]])⟩

theorem scanned2 : Scanned file2 := by
  intro zone l hz hl r hr
  cases only name2 hz
  cases hl
  simp only [List.mem_cons, List.not_mem_nil, or_false] at hr
  rcases hr with rfl | rfl
  · exact soaOk _ (by decide)
  · exact nsOk _ (by decide)

theorem scanned3 : Scanned file3 := by
  intro zone l hz hl r hr
  cases only name3 hz
  cases hl
  simp only [List.mem_cons, List.not_mem_nil, or_false] at hr
  rcases hr with rfl | rfl | rfl
  · exact soaOk _ (by decide)
  · exact nsOk _ (by decide)
  · exact ⟨[[97]], rfl, ⟨nmOk _ (by decide), by decide +kernel⟩, (by decide : WF [[97], [120]])⟩

/-- No name of a list of records has CNAME and NS records. -/
theorem noMix {fn : Bytes} {l : List Add} (h : ∀ r ∈ l, ∀ r' ∈ l, hasType 5 r.data = true → hasType 2 r'.data = true → owner r ≠ owner r') :
    NoMix ⟨fn, some l⟩ := by
  intro zone l' _ hl x
  cases hl
  cases h5 : recsAt l x 5 with
  | nil => exact .inl rfl
  | cons r rest =>
    cases h2 : recsAt l x 2 with
    | nil => exact .inr rfl
    | cons r' rest' =>
      have m5 : r ∈ recsAt l x 5 := by rw [h5]; exact List.mem_cons_self
      have m2 : r' ∈ recsAt l x 2 := by rw [h2]; exact List.mem_cons_self
      unfold recsAt at m5 m2
      simp only [List.mem_filter, Bool.and_eq_true, beq_iff_eq] at m5 m2
      exact absurd (m5.2.2.1.trans m2.2.2.1.symm) (h r m5.1 r' m2.1 m5.2.2.2 m2.2.2.2)

theorem noMix1 : NoMix file := noMix (by decide +kernel)
theorem noMix2 : NoMix file2 := noMix (by decide +kernel)
theorem noMix3 : NoMix file3 := noMix (by decide +kernel)

def loads (files : List File) : Bool := match loadZones cfg 2 files with | .ok (some _) => true | _ => false

theorem loads_of {files : List File} (h : loads files = true) : ∃ root, loadZones cfg 2 files = .ok (some root) := by
  unfold loads at h
  split at h
  · next root e => exact ⟨root, e⟩
  · cases h

theorem load12 : ∃ root, loadZones cfg 2 [file, file2] = .ok (some root) := loads_of (by decide +kernel)

theorem two {P : File → Prop} {a b : File} (ha : P a) (hb : P b) : ∀ f ∈ [a, b], P f := by
  intro f hf
  simp only [List.mem_cons, List.not_mem_nil, or_false] at hf
  rcases hf with rfl | rfl <;> assumption

theorem accepted : ∃ root, Accepted cfg 2 [file, file2] root := by
  obtain ⟨root, h⟩ := load12
  exact ⟨root, by decide, by decide, two scanned1 scanned2, h⟩

/-- C19: the two zones load in either order; a zone given twice, or one with a file that does
not load, makes the whole directory fail. -/
example : (∀ f ∈ [file, file2], LoadsAlone cfg f) ∧ Unrelated [file, file2] :=
  (C19_accept (threads := 2) (by decide) (two scanned1 scanned2) (two noMix1 noMix2)).1.mp load12
example : ∃ root, loadZones cfg 3 [file2, file] = .ok (some root) := by
  obtain ⟨root, h⟩ := load12
  obtain ⟨root', h', -⟩ := C19_order (threads' := 3) (by decide) (by decide) (two scanned1 scanned2) (List.Perm.swap ..) h
  exact ⟨root', h'⟩
example : loadZones cfg 2 [file, file] = .ok none := by
  refine (C19_accept (by decide) (two scanned1 scanned1) (two noMix1 noMix1)).2 ?_
  rintro ⟨-, h⟩
  exact (List.rel_of_pairwise_cons h (List.mem_singleton.mpr rfl) _ _ name1 name1).1 (List.suffix_refl _)

/-- C20: a reload that works, followed by two that do not. -/
example : ∃ root, DirLoads cfg 2 (.files [file, file2]) root ∧
    reloads cfg 2 .empty [.files [file, file2], .unreadable, .files [file, file]] = .ok root := by
  obtain ⟨root, h⟩ := load12
  refine ⟨root, h, ?_⟩
  have e : loadZones cfg 2 [file, file] = .ok none := by
    refine (C19_accept (by decide) (two scanned1 scanned1) (two noMix1 noMix1)).2 ?_
    rintro ⟨-, h⟩
    exact (List.rel_of_pairwise_cons h (List.mem_singleton.mpr rfl) _ _ name1 name1).1 (List.suffix_refl _)
  simp only [reloads, reload, loadDir, h, e, Outcome.bind_ok]
example : DirScanned (.files [file, file2]) := fun l h => by cases h; exact ⟨two scanned1 scanned2, two noMix1 noMix2⟩

def w : World := { resolve := fun _ => Lookup.Ex.dyn, chals := fun _ => [], follow := fun _ => True }

/-- C21: one CNAME can be followed from `a.z.`, and any number from `a.x.`, so that `x.` does
not load. -/
example : Hops w (zonesOf [file, file2]) 1 [[97], [122]] 1 := by
  refine .hop (zone := [[122]]) (x := [[97]]) (y := [[97]]) (l := recs) ⟨file, by simp, name1, rfl⟩ (by decide +kernel) (.inl ⟨.inr ?_, rfl⟩)
    (r := ⟨nm [[97]], 60, .cname (nm [[98], [122]])⟩) (d := [[98], [122]])
    ⟨?_, by decide, by decide, trivial, ⟨[[98]], rfl⟩, _, rfl, by decide +kernel⟩ .none
  · exact ⟨⟨nm [[97]], 60, .cname (nm [[98], [122]])⟩, by decide +kernel, rfl, [], by decide +kernel⟩
  · decide +kernel

theorem loop (n : Nat) : Hops w (zonesOf [file3]) 1 [[97], [120]] n := by
  induction n with
  | zero => exact .none
  | succ n ih =>
    refine .hop (zone := [[120]]) (x := [[97]]) (y := [[97]]) (l := [soa, ns, ⟨nm [[97]], 60, .cname (nm [[97], [120]])⟩])
      ⟨file3, by simp, name3, rfl⟩ (by decide +kernel) (.inl ⟨.inr ?_, rfl⟩)
      (r := ⟨nm [[97]], 60, .cname (nm [[97], [120]])⟩) (d := [[97], [120]])
      ⟨?_, by decide, by decide, trivial, ⟨[[97]], rfl⟩, _, rfl, by decide +kernel⟩ ih
    · exact ⟨⟨nm [[97]], 60, .cname (nm [[97], [120]])⟩, by decide +kernel, rfl, [], by decide +kernel⟩
    · decide +kernel

example : loadZones cfg 2 [file3] = .ok none :=
  C21_reject (by decide) (by decide) (fun f hf => by cases List.mem_singleton.mp hf; exact scanned3)
    (fun f hf => by cases List.mem_singleton.mp hf; exact noMix3) (by decide) (loop 17) (by decide)

/-- C21, C22 and C64: a query for `a.z.`. -/
example : Around cfg [[97], [122]] (Lookup.Ex.env [[97], [122]]) (Lookup.Ex.w [[97], [122]]) := by
  refine ⟨by decide +kernel, fun k i => ?_, rfl, fun ls _ => ⟨rfl, nofun⟩, fun z => ⟨fun h => ⟨rfl, h⟩, fun h => h.2⟩, ?_, by decide⟩
  · show (0 : UInt32).toNat ≤ i
    exact Nat.zero_le _
  · constructor
    · intro rhs res h
      exact ⟨(by unfold DynOk; decide : DynOk Lookup.Ex.dyn), (by decide : Lookup.Ex.dyn.v4.length * 16 ≤ cfg.dynaMax),
        (by decide : Lookup.Ex.dyn.v6.length * 28 ≤ cfg.dynaMax)⟩
    · intro rhs o res h
      exact ⟨(by decide : Mon.Valid Lookup.Ex.dyn.sttl), nofun, (by decide : ∀ a ∈ Lookup.Ex.dyn.v4, a.length = 4),
        (by decide : ∀ a ∈ Lookup.Ex.dyn.v6, a.length = 16), (by decide : Lookup.Ex.dyn.v4.length ≤ 360),
        (by decide : Lookup.Ex.dyn.v6.length ≤ 360)⟩

/-- C22, C64: there are no challenges in this example. -/
example (e : List Bytes) : chalRecs (Lookup.Ex.w [[97], [122]]) e = [] := by
  unfold chalRecs Lookup.Ex.w
  cases e with
  | nil => rfl
  | cons a r => simp

/-- A name with RFC 3597 data of type `t`. -/
def rawFile (t : UInt32) (rd : Bytes) : File := ⟨[120], some [soa, ns, ⟨nm [[97]], 60, .raw t rd⟩]⟩

/-- `f.x.` is an alias of a name in the delegation `s.x.`, which also has a CNAME. -/
def mixFile : File := ⟨[120], some [soa, ns, ⟨nm [[102]], 60, .cname (nm [[98], [115], [120]])⟩,
  ⟨nm [[115]], 60, .cname (nm [[120]])⟩, ⟨nm [[115]], 60, .ns (nm [[98], [122]])⟩]⟩

def isUb (files : List File) : Bool := match loadZones cfg 2 files with | .ub => true | _ => false

theorem ub_of {files : List File} (h : isUb files = true) : loadZones cfg 2 files = .ub := by
  unfold isUb at h
  split at h
  · assumption
  · cases h

theorem one {P : File → Prop} {a : File} (ha : P a) : ∀ f ∈ [a], P f := by
  intro f hf
  rw [List.mem_singleton.mp hf]
  exact ha

theorem scannedMix : Scanned mixFile := by
  intro zone l hz hl r hr
  cases only name3 hz
  cases hl
  simp only [List.mem_cons, List.not_mem_nil, or_false] at hr
  rcases hr with rfl | rfl | rfl | rfl | rfl
  · exact soaOk _ (by decide)
  · exact nsOk _ (by decide)
  · exact ⟨[[102]], rfl, ⟨nmOk _ (by decide), by decide +kernel⟩, (by decide : WF [[102], [120]])⟩
  · exact ⟨[[115]], rfl, ⟨nmOk _ (by decide), by decide +kernel⟩, (by decide : WF [[115], [120]])⟩
  · exact ⟨[[115]], rfl, nmOk _ (by decide), (by decide : WF [[115], [120]])⟩

end Ex

/-! ### Where the full statements are false -/

/-- `Scanned` without the limits on the numbers of RFC 3597 records: the scanner accepts any
32-bit numbers there (src/zscan_rfc1035.rl:725-730, 985). -/
def ScannedLoosely (f : File) : Prop :=
  ∀ zone l, NamesZone f.name zone → f.recs = some l → ∀ r ∈ l,
    RecOk zone r ∨ ∃ o t rd, r.dname = encode o true ∧ WF (o ++ zone) ∧ r.data = .raw t rd

theorem Ex.scannedRaw (t : UInt32) (rd : Bytes) : ScannedLoosely (Ex.rawFile t rd) := by
  intro zone l hz hl r hr
  cases Ex.only Ex.name3 hz
  cases hl
  simp only [List.mem_cons, List.not_mem_nil, or_false] at hr
  rcases hr with rfl | rfl | rfl
  · exact .inl (Ex.soaOk _ (by decide))
  · exact .inl (Ex.nsOk _ (by decide))
  · exact .inr ⟨[[97]], t, rd, rfl, (by decide : WF [[97], [120]]), rfl⟩

/-- C23 is false for `a TYPE65549 \# 1 00`: it loads, and is a HINFO record afterwards. -/
theorem C23_false : ∃ cfg files root zone l, cfg.ttls.accepted = true ∧ (∀ f ∈ files, ScannedLoosely f) ∧ (∀ f ∈ files, NoMix f) ∧
    loadZones cfg 2 files = .ok (some root) ∧ zonesOf files zone l ∧ ¬ Rules zone l := by
  obtain ⟨root, h⟩ := Ex.loads_of (files := [Ex.rawFile 65549 [0]]) (by decide +kernel)
  refine ⟨Ex.cfg, _, root, [[120]], _, by decide, Ex.one (Ex.scannedRaw _ _), Ex.one (Ex.noMix (by decide +kernel)), h,
    ⟨_, List.mem_singleton.mpr rfl, Ex.name3, rfl⟩, fun hr => ?_⟩
  exact absurd (by decide) (hr.generic _ (List.mem_cons_of_mem _ (List.mem_cons_of_mem _ List.mem_cons_self)) _ _ rfl).1

/-- C63 is false for `a TYPE65541 \# 1 00`: the data are taken for those of a CNAME. -/
theorem C63_false_type : ∃ cfg files, cfg.ttls.accepted = true ∧ (∀ f ∈ files, ScannedLoosely f) ∧ (∀ f ∈ files, NoMix f) ∧
    loadZones cfg 2 files = .ub :=
  ⟨Ex.cfg, [Ex.rawFile 65541 [0]], by decide, Ex.one (Ex.scannedRaw _ _), Ex.one (Ex.noMix (by decide +kernel)), Ex.ub_of (by decide +kernel)⟩

/-- C63 is false for a zone with an alias of a name in a delegation that has a CNAME too: the
loader runs into an assertion that says there is none (src/ltree.c:904-906) if it comes to the
alias first. -/
theorem C63_false_mix : ∃ cfg files, cfg.ttls.accepted = true ∧ (∀ f ∈ files, Scanned f) ∧ loadZones cfg 2 files = .ub :=
  ⟨Ex.cfg, [Ex.mixFile], by decide, Ex.one Ex.scannedMix, Ex.ub_of (by decide +kernel)⟩

/-- Of RFC 3597 data only as many bytes are kept as their length has in 16 bits. -/
theorem Ex.raw_cut (cfg : Cfg) (t : UInt32) (rd rd' : Bytes) (h : rd.take (rd.length % 65536) = rd'.take (rd'.length % 65536)) (n : Nat) :
    loadZones cfg n [Ex.rawFile t rd] = loadZones cfg n [Ex.rawFile t rd'] := by
  have e1 : ∀ z, addRec cfg z ⟨Ex.nm [[97]], 60, .raw t rd⟩ = addRec cfg z ⟨Ex.nm [[97]], 60, .raw t rd'⟩ := by
    intro z
    have : ∀ p x, nodeOp cfg z.dname ⟨Ex.nm [[97]], 60, .raw t rd⟩ p x = nodeOp cfg z.dname ⟨Ex.nm [[97]], 60, .raw t rd'⟩ p x := by
      intro p x
      simp only [nodeOp, atNode, addRaw, h, marksCut]
    have this := fun p => funext fun x => this p x
    simp only [addRec, before, isOoz, after, this]
  have e2 : loadFile cfg (Ex.rawFile t rd) = loadFile cfg (Ex.rawFile t rd') := by
    simp only [loadFile, Ex.rawFile, addAll, e1]
  have e4 : ∀ l, (∀ f ∈ l, f = Ex.rawFile t rd) → worker cfg l = worker cfg (l.map fun _ => Ex.rawFile t rd') := by
    intro l hl
    induction l with
    | nil => rfl
    | cons f l ih =>
      rw [hl f List.mem_cons_self, List.map_cons, worker, worker, e2, ih fun g hg => hl g (List.mem_cons_of_mem _ hg)]
  have e5 : ∀ ls : List (List File), (∀ l ∈ ls, ∀ f ∈ l, f = Ex.rawFile t rd) → ∀ root,
      harvest cfg ls root = harvest cfg (ls.map fun l => l.map fun _ => Ex.rawFile t rd') root := by
    intro ls hls
    induction ls with
    | nil => exact fun _ => rfl
    | cons l ls ih =>
      intro root
      rw [List.map_cons, harvest, harvest, e4 l (hls l List.mem_cons_self)]
      simp only [ih fun l' hl' => hls l' (List.mem_cons_of_mem _ hl')]
  unfold loadZones
  congr 1
  funext _
  rw [e5]
  · congr 1
    simp only [lists, List.length_singleton, List.map_take, List.map_map]
    congr 1
    refine List.map_congr_left fun i _ => ?_
    simp only [List.zipIdx_cons, List.zipIdx_nil, Function.comp, List.filter_cons, List.filter_nil]
    split <;> rfl
  · intro l hl f hf
    have hl := List.mem_of_mem_take hl
    unfold lists at hl
    obtain ⟨i, -, rfl⟩ := List.mem_map.mp hl
    obtain ⟨x, hx, rfl⟩ := List.mem_map.mp hf
    have := (List.mem_filter.mp hx).1
    simp only [List.zipIdx_cons, List.zipIdx_nil, List.mem_singleton] at this
    rw [this]

theorem recs_room {p : Bytes} {off e : Nat} {rs : List Rec} (h : RecsAt p off rs e) {r : Rec} (hr : r ∈ rs) {b : Bytes}
    (hb : r.data = [.bytes b]) : b.length ≤ p.length := by
  induction h with
  | nil => cases hr
  | cons h1 _ ih =>
    rcases List.mem_cons.mp hr with e1 | hr
    · obtain ⟨_, _, -, -, -, -, -, hp, -⟩ := h1
      rw [← e1, hb] at hp
      cases hp with
      | bytes h _ => have := h.length_le; rw [List.length_drop] at this; omega
    · exact ih hr

/-- The size of the reply to a query, if the files load. -/
def Ex.ask (files : List File) (q : List Bytes) (t : Nat) : Option Nat :=
  match loadZones Ex.cfg 2 files with
  | .ok (some root) =>
    match dbLookup (fun _ => root) (Lookup.Ex.env q) 17 0 { out := asked (List.replicate 12 0) q [0, 0, 0, 1], qtype := t } (Lookup.Ex.env q).lq false with
    | .ok st => some st.out.length
    | .ub => none
  | _ => none

/-- C64 is false for `a TYPE300 \# 65537 07 07 ...`: it loads, but a query for it gets one
byte of data. -/
theorem C64_false : ∃ (files : List File) (root : Node) (q : List Bytes) (env : Env) (w : World) (t : Nat) (rep : Reply) (st : St),
    Ex.cfg.ttls.accepted = true ∧ (∀ f ∈ files, ScannedLoosely f) ∧ (∀ f ∈ files, NoMix f) ∧
    loadZones Ex.cfg 2 files = .ok (some root) ∧ (∀ k, FileReply Ex.cfg w (zonesOf files) t k q rep) ∧
    dbLookup (fun _ => root) env 17 0 { out := asked (List.replicate 12 0) q [0, 0, 0, 1], qtype := t } env.lq false = .ok st ∧
    ∀ an ns ar, an.Perm rep.answer → ¬ RecsAt st.out (asked (List.replicate 12 0) q [0, 0, 0, 1]).length (an ++ ns ++ ar) st.out.length := by
  have hask : Ex.ask [Ex.rawFile 300 [7]] [[97], [120]] 300 = some 34 := by decide +kernel
  have hdel : ∀ rd, delegated [Ex.soa, Ex.ns, ⟨Ex.nm [[97]], 60, .raw 300 rd⟩] [[97]] = false := by
    intro rd
    have e1 : (!isOoz Ex.soa.data && (hasType 2 Ex.soa.data && (!(owner Ex.soa).isEmpty && (owner Ex.soa).isSuffixOf [[97]]))) = false := by
      decide +kernel
    have e2 : (!isOoz Ex.ns.data && (hasType 2 Ex.ns.data && (!(owner Ex.ns).isEmpty && (owner Ex.ns).isSuffixOf [[97]]))) = false := by
      decide +kernel
    have e3 : hasType 2 (.raw 300 rd) = false := (by decide : (2 == (300 : UInt32).toNat) = false)
    simp only [delegated, List.any_cons, List.any_nil, e1, e2, e3, Bool.false_and, Bool.and_false, Bool.or_false]
  have hrecs : ∀ rd t, recsAt [Ex.soa, Ex.ns, ⟨Ex.nm [[97]], 60, .raw 300 rd⟩] [[97]] t =
      if t = 300 then [⟨Ex.nm [[97]], 60, .raw 300 rd⟩] else [] := by
    intro rd t
    have o1 : (owner Ex.soa == [[97]]) = false := by decide +kernel
    have o2 : (owner Ex.ns == [[97]]) = false := by decide +kernel
    have o3 : (owner ⟨Ex.nm [[97]], 60, .raw 300 rd⟩ == [[97]]) = true := by
      show (labelsOf (Ex.nm [[97]]) == [[97]]) = true; decide +kernel
    simp only [recsAt, List.filter_cons, List.filter_nil, o1, o2, o3, Bool.false_and, Bool.and_false, Bool.true_and]
    by_cases ht : t = 300 <;> simp [isOoz, hasType, ht]
  unfold Ex.ask at hask
  split at hask
  · next root hload =>
    split at hask
    · next st hst =>
      have h34 := Option.some.inj hask
      obtain ⟨rd, hrd⟩ : ∃ rd : Bytes, rd = List.replicate 65537 7 := ⟨_, rfl⟩
      have hlen : rd.length = 65537 := by rw [hrd, List.length_replicate]
      refine ⟨[Ex.rawFile 300 rd], root, [[97], [120]], Lookup.Ex.env [[97], [120]], Lookup.Ex.w [[97], [120]], 300,
        { aa := true, answer := [⟨[[97], [120]], 300, 60, [.bytes rd]⟩] }, st, by decide, Ex.one (Ex.scannedRaw _ _), ?_, ?_, ?_, hst, ?_⟩
      · refine Ex.one (Ex.noMix ?_)
        intro r hr r' _ h5
        simp only [List.mem_cons, List.not_mem_nil, or_false] at hr
        rcases hr with rfl | rfl | rfl <;> exact absurd h5 (by simp [Ex.soa, Ex.ns, hasType])
      · rw [← hload]
        refine Ex.raw_cut _ _ _ _ ?_ _
        rw [hlen, hrd]; rfl
      · intro k
        have hz : zonesOf [Ex.rawFile 300 rd] [[120]] [Ex.soa, Ex.ns, ⟨Ex.nm [[97]], 60, .raw 300 rd⟩] :=
          ⟨_, List.mem_singleton.mpr rfl, Ex.name3, rfl⟩
        have := FileReply.data (cfg := Ex.cfg) (w := Lookup.Ex.w [[97], [120]]) (t := 300) (k := k) (x := [[97]]) (y := [[97]]) hz
          (hdel rd) (.inl ⟨.inr ⟨⟨Ex.nm [[97]], 60, .raw 300 rd⟩, by simp, rfl, [], (by decide +kernel : [[97]] = labelsOf (Ex.nm [[97]]))⟩, rfl⟩) ?_
        · have ht : Ttl.Spec.clamp Ex.cfg.ttls.minTtl.toNat Ex.cfg.ttls.maxTtl.toNat 60 = 60 := by decide +kernel
          simpa [finalIn, aliasIn, nameRecs, typedIn, scopeIn, hrecs, served, pieces, ttlOf, ht] using this
        · rintro r d ⟨h1, -⟩
          rw [hrecs] at h1
          cases h1
      · intro an ns ar hp hr
        have := recs_room hr (r := ⟨[[97], [120]], 300, 60, [.bytes rd]⟩) (by
          rw [List.append_assoc]; exact List.mem_append_left _ (hp.mem_iff.mpr List.mem_cons_self)) rfl
        rw [hlen] at this
        omega
    · cases hask
  · cases hask

end Gdnsd.Load
