import Verif.Enc.RrLemmas
/-
C14: name compression is lossless.
-/
namespace Gdnsd.Enc
open DnameSpec EncSpec Dname

/-- What an encoder does with a message: write bytes that are not names, store a name
(with or without making it a target), or repeat the `i`-th name stored so far. -/
inductive Op where
  | raw (b : Bytes)
  | name (ls : List Bytes) (mk : Bool)
  | again (i : Nat)

/-- The message, the targets, and where each name was put. -/
structure Msg where
  out : Bytes
  ts : List CT
  names : List (Nat × List Bytes)

/-- One step, with the functions of the code. -/
def Op.run (lq : Bytes) (m : Msg) : Op → Outcome Msg
  | .raw b => .ok { m with out := m.out ++ b }
  | .name ls mk =>
    (storeComp m.out lq m.ts (encode ls true) m.out.length mk).bind fun r =>
    .ok ⟨m.out ++ r.1, r.2, m.names ++ [(m.out.length, ls)]⟩
  | .again i =>
    match m.names[i]? with
    | none => .ok m
    | some n =>
      (repeatName m.out n.1).bind fun b =>
      .ok { m with out := m.out ++ b, names := m.names ++ [(m.out.length, n.2)] }

/-- All steps. -/
def runOps (lq : Bytes) : List Op → Msg → Outcome Msg
  | [], m => .ok m
  | o :: os, m => (o.run lq m).bind (runOps lq os)

/-- The size of a step without compression of stored names. -/
def Op.size : Op → Nat
  | .raw b => b.length
  | .name ls _ => wireLen ls
  | .again _ => 2

/-- Names must be legal. -/
def Op.Legal : Op → Prop
  | .name ls _ => WF ls
  | _ => True

/-- What holds between steps. -/
structure MsgInv (qraw ql : List Bytes) (m : Msg) : Prop where
  pkt : ∃ hdr q : Bytes, hdr.length = 12 ∧ m.out = hdr ++ (wireLabels qraw ++ [0]) ++ q
  good : ∀ t ∈ m.ts, Good m.out t
  cnt : m.ts.length ≤ COMPMAX
  names : ∀ n ∈ m.names, NamePtr m.out n.1 n.2

theorem Op.run_inv (qraw ql : List Bytes) (hqw : WF ql) (hql : lowerName qraw = ql) (m : Msg)
    (hi : MsgInv qraw ql m) (o : Op) (ho : o.Legal) (hs : m.out.length + o.size ≤ 16384) :
    ∃ m', o.run (encode ql true) m = .ok m' ∧ MsgInv qraw ql m' ∧ (∃ b, m'.out = m.out ++ b ∧ b.length ≤ o.size) ∧
      ∃ ns, m'.names = m.names ++ ns := by
  obtain ⟨hdr, q, hh, hp⟩ := hi.pkt
  have h12 : 12 ≤ m.out.length := by simp only [hp, List.length_append]; omega
  cases o with
  | raw b =>
    exact ⟨_, rfl, ⟨⟨hdr, q ++ b, hh, by simp [hp]⟩, fun t ht => Good_append _ (hi.good t ht), hi.cnt,
      fun n hn => NamePtr_append _ (hi.names n hn)⟩, ⟨b, rfl, Nat.le_refl _⟩, [], by simp⟩
  | name ls mk =>
    have hw : WF ls := ho
    simp only [Op.size] at hs
    obtain ⟨bs, ts', h1, h2, h3, h4, h5, h6⟩ := storeComp_spec m.out [] ql qraw hqw hql ⟨hdr, q, hh, hp⟩ m.ts
      hi.good hi.cnt ls hw mk (by simpa using hs)
    simp only [List.append_nil] at h1 h2 h6
    refine ⟨⟨m.out ++ bs, ts', m.names ++ [(m.out.length, ls)]⟩, by simp [Op.run, h1], ?_, ⟨bs, rfl, h4⟩, _, rfl⟩
    refine ⟨⟨hdr, q ++ bs, hh, by simp [hp]⟩, h2, h3, ?_⟩
    intro n hn
    rcases List.mem_append.mp hn with h | h
    · exact NamePtr_append _ (hi.names n h)
    · obtain rfl := List.mem_singleton.mp h
      have := wireLen_pos ls
      exact ⟨by omega, _, h6⟩
  | again i =>
    simp only [Op.size] at hs
    cases hn : m.names[i]? with
    | none => exact ⟨m, by simp [Op.run, hn], hi, ⟨[], by simp, by simp⟩, [], by simp⟩
    | some n =>
      have hm : n ∈ m.names := List.mem_of_getElem? hn
      obtain ⟨nm, s, hr⟩ := repeatName_spec (hi.names n hm)
      have hr0 := hr []
      simp only [List.append_nil] at hr0
      have := Short_len s
      refine ⟨⟨m.out ++ nm, m.ts, m.names ++ [(m.out.length, n.2)]⟩, by simp [Op.run, hn, hr0.1], ?_,
        ⟨nm, rfl, this.2⟩, _, rfl⟩
      refine ⟨⟨hdr, q ++ nm, hh, by simp [hp]⟩, fun t ht => Good_append _ (hi.good t ht), hi.cnt, ?_⟩
      intro x hx
      rcases List.mem_append.mp hx with h | h
      · exact NamePtr_append _ (hi.names x h)
      · obtain rfl := List.mem_singleton.mp h
        exact ⟨by omega, _, hr0.2⟩

theorem runOps_inv (qraw ql : List Bytes) (hqw : WF ql) (hql : lowerName qraw = ql) (os : List Op) :
    ∀ (m : Msg), MsgInv qraw ql m → (∀ o ∈ os, o.Legal) → m.out.length + (os.map Op.size).sum ≤ 16384 →
    ∃ m', runOps (encode ql true) os m = .ok m' ∧ MsgInv qraw ql m' ∧
      m'.out.length ≤ m.out.length + (os.map Op.size).sum ∧ ∃ ns, m'.names = m.names ++ ns := by
  induction os with
  | nil => intro m hi _ _; exact ⟨m, rfl, hi, by simp, [], by simp⟩
  | cons o os ih =>
    intro m hi hl hs
    simp only [List.map_cons, List.sum_cons] at hs
    obtain ⟨m1, h1, h2, ⟨b, h3, h4⟩, ns, h5⟩ := Op.run_inv qraw ql hqw hql m hi o (hl o (by simp)) (by omega)
    have hlen : m1.out.length = m.out.length + b.length := by rw [h3]; simp
    obtain ⟨m2, g1, g2, g3, ns2, g4⟩ := ih m1 h2 (fun x hx => hl x (by simp [hx])) (by omega)
    refine ⟨m2, by rw [runOps, h1, Outcome.bind_ok, g1], g2, ?_, ns ++ ns2, by rw [g4, h5, List.append_assoc]⟩
    simp only [List.map_cons, List.sum_cons]; omega

/-- The names that a sequence of steps stores (`again` repeats an earlier one). -/
def stored : List Op → List (List Bytes) → List (List Bytes)
  | [], acc => acc
  | .raw _ :: os, acc => stored os acc
  | .name ls _ :: os, acc => stored os (acc ++ [ls])
  | .again i :: os, acc =>
    stored os (match acc[i]? with | none => acc | some ls => acc ++ [ls])

theorem runOps_stored (lq : Bytes) (os : List Op) : ∀ (m m' : Msg), runOps lq os m = .ok m' →
    m'.names.map (·.2) = stored os (m.names.map (·.2)) := by
  induction os with
  | nil => intro m m' h; simp [runOps] at h; simp [stored, h]
  | cons o os ih =>
    intro m m' h
    rw [runOps] at h
    cases ho : o.run lq m with
    | ub => rw [ho] at h; simp [Outcome.bind] at h
    | ok m1 =>
      rw [ho, Outcome.bind_ok] at h
      rw [ih m1 m' h]
      cases o with
      | raw b => simp [Op.run] at ho; simp [stored, ← ho]
      | name ls mk =>
        simp only [Op.run] at ho
        cases hs : storeComp m.out lq m.ts (encode ls true) m.out.length mk with
        | ub => rw [hs] at ho; simp [Outcome.bind] at ho
        | ok r =>
          rw [hs, Outcome.bind_ok] at ho
          simp only [Outcome.ok.injEq] at ho
          rw [← ho]
          simp [stored]
      | again i =>
        simp only [Op.run] at ho
        cases hn : m.names[i]? with
        | none =>
          rw [hn] at ho
          simp only [Outcome.ok.injEq] at ho
          subst ho
          simp [stored, hn]
        | some n =>
          rw [hn] at ho
          simp only at ho
          cases hs : repeatName m.out n.1 with
          | ub => rw [hs] at ho; simp [Outcome.bind] at ho
          | ok r =>
            rw [hs, Outcome.bind_ok] at ho
            simp only [Outcome.ok.injEq] at ho
            rw [← ho]
            simp [stored, hn]

/-- C14. Start from a message holding a header and a query name, in whatever letter case
it was sent. Whatever sequence of data, names and repeated names is then written, as long
as the uncompressed size stays within 16384 bytes: no assertion fails, no read is out of
bounds, the message is no longer than the uncompressed one, and at every offset where a
name was put, a resolver reads that name. Letter case may differ where the name shares a
suffix with the query name. By `NameAt`, every pointer followed refers to an earlier
offset behind the header, and pointers carry 14 bits. -/
theorem C14_lossless (hdr : Bytes) (hh : hdr.length = 12) (qraw : List Bytes) (hqw : WF (lowerName qraw))
    (q : Bytes) (os : List Op) (hl : ∀ o ∈ os, o.Legal)
    (hs : (hdr ++ (wireLabels qraw ++ [0]) ++ q).length + (os.map Op.size).sum ≤ 16384) :
    ∃ m', runOps (encode (lowerName qraw) true) os ⟨hdr ++ (wireLabels qraw ++ [0]) ++ q, [], []⟩ = .ok m' ∧
      m'.names.map (·.2) = stored os [] ∧
      (∀ n ∈ m'.names, (12 ≤ n.1 ∧ n.1 < 16384) ∧ ∃ e, ReadsAs m'.out n.1 n.2 e) ∧
      m'.out.length ≤ (hdr ++ (wireLabels qraw ++ [0]) ++ q).length + (os.map Op.size).sum := by
  obtain ⟨m', h1, h2, h3, _⟩ := runOps_inv qraw (lowerName qraw) hqw rfl os
    ⟨hdr ++ (wireLabels qraw ++ [0]) ++ q, [], []⟩ ⟨⟨hdr, q, hh, rfl⟩, by simp, by simp [COMPMAX], by simp⟩ hl hs
  exact ⟨m', h1, runOps_stored _ _ _ _ h1, h2.names, h3⟩

/-- A resolver has no choice: at an offset at most one name can be read. -/
theorem C14_unique {p : Bytes} {o : Nat} {l1 l2 : List Bytes} {e1 e2 : Nat}
    (h1 : NameAt p o l1 e1) (h2 : NameAt p o l2 e2) : l1 = l2 ∧ e1 = e2 := NameAt_unique h1 h2

/-- The query name `Ex.A`, its parent with a label in front, and a repeat: the first stored name
finds its suffix in the query name, the later ones point at the first. -/
example :
    let q : List Bytes := [[0x45, 0x78], [0x41]]
    let os : List Op := [.raw [1, 2], .name [[0x77], [0x65, 0x78], [0x61]] true, .again 0,
      .name [[0x76], [0x77], [0x65, 0x78], [0x61]] true]
    WF (lowerName q) ∧ (∀ o ∈ os, o.Legal) ∧
    (runOps (encode (lowerName q) true) os ⟨List.replicate 12 0 ++ (wireLabels q ++ [0]), [], []⟩).map
      (fun m => (m.out.drop 18, m.names.map (·.1))) =
    .ok ([1, 2, 1, 0x77, 0xC0, 12, 0xC0, 20, 1, 0x76, 0xC0, 20], [20, 24, 26]) := by
  refine ⟨by decide +kernel, ?_, by decide +kernel⟩
  intro o ho
  simp only [List.mem_cons, List.not_mem_nil, or_false] at ho
  rcases ho with rfl | rfl | rfl | rfl
  · trivial
  · show WF _; decide +kernel
  · trivial
  · show WF _; decide +kernel

end Gdnsd.Enc
