import Verif.Load.MergeLemmas
import Verif.Lookup.Spec
/-
Merging many zones, in any order, and what the resulting tree answers.
-/
namespace Gdnsd.Load
open Enc Tree TreeSpec DnameSpec LookupSpec

/-- The zone of a name and a node. -/
def zoneOf (x : List Bytes × Node) : Zone := ⟨encode x.1 true, x.2⟩

/-- Neither name is at or below the other. -/
def Apart (a b : List Bytes × Node) : Prop := ¬ a.1 <:+ b.1 ∧ ¬ b.1 <:+ a.1

theorem Apart.symm {a b : List Bytes × Node} (h : Apart a b) : Apart b a := ⟨h.2, h.1⟩

theorem mergeAll_spec (l : List (List Bytes × Node)) : ∀ (zs : List (List Bytes × Node)) (root : Node),
    (∀ x ∈ l, WF x.1 ∧ x.2.zcut = true) → Merged zs root →
    ((l.reverse ++ zs).Pairwise Apart → ∃ root', mergeAll (l.map zoneOf) root = .ok (some root') ∧ Merged (l.reverse ++ zs) root') ∧
    (¬ (l.reverse ++ zs).Pairwise Apart → mergeAll (l.map zoneOf) root = .ok none) := by
  induction l with
  | nil =>
    intro zs root _ h
    exact ⟨fun _ => ⟨root, rfl, h⟩, fun hn => absurd h.apart hn⟩
  | cons x l ih =>
    intro zs root hx h
    obtain ⟨hw, hc⟩ := hx x List.mem_cons_self
    obtain ⟨m1, m2⟩ := mergeZone_spec h x.1 x.2 hw hc
    have he : (x :: l).reverse ++ zs = l.reverse ++ x :: zs := by simp
    rw [he]
    by_cases hr : ∃ y ∈ zs, y.1 <:+ x.1 ∨ x.1 <:+ y.1
    · constructor
      · intro hp
        obtain ⟨y, hy, hs⟩ := hr
        have := (List.pairwise_cons.mp (List.pairwise_append.mp hp).2.1).1 y hy
        rcases hs with hs | hs
        · exact absurd hs this.2
        · exact absurd hs this.1
      · intro _
        simp only [List.map_cons, mergeAll]
        rw [show mergeZone root (zoneOf x) = .ok none from m1 hr]; rfl
    · obtain ⟨root', h1, h2⟩ := m2 hr
      obtain ⟨i1, i2⟩ := ih (x :: zs) root' (fun y hy => hx y (List.mem_cons_of_mem _ hy)) h2
      simp only [List.map_cons, mergeAll]
      rw [show mergeZone root (zoneOf x) = .ok (some root') from h1]
      exact ⟨i1, i2⟩

/-! ### Trees that answer alike -/

/-- The same names exist, with the same flags and records. -/
def Same (r r' : Node) : Prop := ∀ p, view r p = view r' p

theorem Same.symm {r r' : Node} (h : Same r r') : Same r' r := fun p => (h p).symm

theorem Same.node {r r' : Node} (h : Same r r') {p : List Bytes} {n : Node} (hn : nodeAt r p = some n) :
    ∃ n', nodeAt r' p = some n' ∧ n'.zcut = n.zcut ∧ n'.rrs = n.rrs := by
  have := h p.reverse
  unfold view at this
  unfold nodeAt at hn ⊢
  rw [hn] at this
  cases hf : follow r' p.reverse with
  | none => rw [hf] at this; cases this
  | some n' =>
    rw [hf] at this
    simp only [Option.map_some, Option.some.injEq, Prod.mk.injEq] at this
    exact ⟨n', rfl, this.1.symm, this.2.symm⟩

theorem Same.cut {r r' : Node} (h : Same r r') (p : List Bytes) : IsCut r p ↔ IsCut r' p := by
  have one : ∀ {r r' : Node}, Same r r' → IsCut r p → IsCut r' p := by
    rintro r r' h ⟨n, hn, hc⟩
    obtain ⟨n', a, b, -⟩ := h.node hn
    exact ⟨n', a, b.trans hc⟩
  exact ⟨one h, one h.symm⟩

theorem Same.present {r r' : Node} (h : Same r r') (p : List Bytes) : Present r p ↔ Present r' p := by
  have := h p.reverse
  unfold view at this
  unfold Present nodeAt
  cases h1 : follow r p.reverse <;> cases h2 : follow r' p.reverse <;> rw [h1, h2] at this <;> simp at this ⊢

theorem Same.isZone {r r' : Node} (h : Same r r') (q z : List Bytes) : IsZone r q z ↔ IsZone r' q z := by
  unfold IsZone
  simp only [h.cut]

theorem Same.isReferral {r r' : Node} (h : Same r r') (q z c : List Bytes) : IsReferral r q z c ↔ IsReferral r' q z c := by
  unfold IsReferral
  simp only [h.cut]

theorem Same.isEncloser {r r' : Node} (h : Same r r') (q e : List Bytes) : IsEncloser r q e ↔ IsEncloser r' q e := by
  unfold IsEncloser
  simp only [h.present]

theorem Same.hasData {r r' : Node} (h : Same r r') {q : List Bytes} {n : Node} (hd : HasData r q n) :
    ∃ n', HasData r' q n' ∧ n'.rrs = n.rrs := by
  rcases hd with hd | ⟨hd, e, he, hw⟩
  · obtain ⟨n', a, -, b⟩ := h.node hd
    exact ⟨n', .inl a, b⟩
  · obtain ⟨n', a, -, b⟩ := h.node hw
    refine ⟨n', .inr ⟨?_, e, (h.isEncloser q e).mp he, a⟩, b⟩
    cases hf : nodeAt r' q with
    | none => rfl
    | some m => obtain ⟨k, hk, -⟩ := h.symm.node hf; rw [hd] at hk; cases hk

theorem Same.located {r r' : Node} (h : Same r r') {q z : List Bytes} {n : Node} (hl : Located r q (.data z n)) :
    ∃ n', Located r' q (.data z n') ∧ n'.rrs = n.rrs := by
  obtain ⟨h1, h2, h3⟩ := hl
  obtain ⟨n', a, b⟩ := h.hasData h3
  exact ⟨n', ⟨(h.isZone q z).mp h1, fun c hc => h2 c ((h.isReferral q z c).mpr hc), a⟩, b⟩

theorem Same.ends {r r' : Node} (h : Same r r') (q : List Bytes) (v : Verdict) : Ends r q v ↔ Ends r' q v := by
  have one : ∀ {r r' : Node}, Same r r' → Ends r q v → Ends r' q v := by
    intro r r' h he
    cases v with
    | refused => intro s hs hc; exact he s hs ((h.cut s).mpr hc)
    | referral c rr =>
      obtain ⟨z, n, ⟨h1, h2⟩, h3, h4, h5⟩ := he
      obtain ⟨n', a, -, b⟩ := h.node h3
      exact ⟨z, n', ⟨(h.isZone q z).mp h1, (h.isReferral q z c).mp h2⟩, a, by rw [b]; exact h4, h5⟩
    | final z soa rrs =>
      obtain ⟨a, h1, h2, h3, h4⟩ := he
      obtain ⟨a', i1, -, i2⟩ := h.node h1
      refine ⟨a', i1, by rw [i2]; exact h2, h3, ?_⟩
      cases rrs with
      | some l =>
        obtain ⟨n, j1, j2⟩ := h4
        obtain ⟨n', k1, k2⟩ := h.located j1
        exact ⟨n', k1, k2.trans j2⟩
      | none =>
        obtain ⟨j1, j2, j3⟩ := h4
        refine ⟨(h.isZone q z).mp j1, fun c hc => j2 c ((h.isReferral q z c).mpr hc), ?_⟩
        intro n hn
        obtain ⟨n', k1, -⟩ := h.symm.hasData hn
        exact j3 n' k1
  exact ⟨one h, one h.symm⟩

theorem Same.follows {r r' : Node} (h : Same r r') {w : World} {t : Nat} {q : List Bytes} {rr : RRset} {d : List Bytes}
    (hf : Follows w r t q rr d) : Follows w r' t q rr d := by
  obtain ⟨z, n, b, h1, h2, h3⟩ := hf
  obtain ⟨n', a, e⟩ := h.located h1
  exact ⟨z, n', b, a, e.trans h2, h3⟩

theorem Same.chain {r r' : Node} (h : Same r r') {w : World} {t : Nat} {q e : List Bytes} {cs : List (List Bytes × RRset)}
    (hc : Chain w r t q cs e) : Chain w r' t q cs e := by
  induction hc with
  | stop hn => exact .stop fun rr d hf => hn rr d (h.symm.follows hf)
  | step hf _ ih => exact .step (h.follows hf) ih

/-- The order of merging does not matter. -/
theorem Merged.same {zs zs' : List (List Bytes × Node)} {r r' : Node} (h : Merged zs r) (h' : Merged zs' r')
    (hp : ∀ x, x ∈ zs ↔ x ∈ zs') : Same r r' := by
  have one : ∀ {zs zs' : List (List Bytes × Node)} {r r' : Node}, Merged zs r → Merged zs' r' → (∀ x, x ∈ zs ↔ x ∈ zs') →
      ∀ p v, view r p = some v → view r' p = some v := by
    intro zs zs' r r' h h' hp p v hv
    rw [← List.reverse_reverse p] at hv ⊢
    have hv' : (nodeAt r p.reverse).map (fun m => (m.zcut, m.rrs)) = some v := hv
    show (nodeAt r' p.reverse).map (fun m => (m.zcut, m.rrs)) = some v
    generalize p.reverse = q at hv'
    by_cases hx : ∃ x ∈ zs, x.1 <:+ q
    · obtain ⟨x, hx, ⟨y, rfl⟩⟩ := hx
      rw [nodeAt_append, h.zone x hx] at hv'
      rw [nodeAt_append, h'.zone x ((hp x).mp hx)]
      exact hv'
    · have hx1 : ∀ x ∈ zs, ¬ x.1 <:+ q := fun x h1 h2 => hx ⟨x, h1, h2⟩
      have hx2 : ∀ x ∈ zs', ¬ x.1 <:+ q := fun x h1 h2 => hx ⟨x, (hp x).mpr h1, h2⟩
      cases hm : nodeAt r q with
      | none => rw [hm] at hv'; cases hv'
      | some m =>
        obtain ⟨a, b, c⟩ := h.above q m hm hx1
        rw [hm] at hv'
        have hpres : ∃ m', nodeAt r' q = some m' := by
          rcases c with rfl | ⟨x, hx, ⟨y, hy⟩⟩
          · exact ⟨r', rfl⟩
          · have := h'.zone x ((hp x).mp hx)
            rw [← hy, nodeAt_append] at this
            cases hq : nodeAt r' q with
            | none => rw [hq] at this; cases this
            | some m' => exact ⟨m', rfl⟩
        obtain ⟨m', hm'⟩ := hpres
        obtain ⟨a', b', -⟩ := h'.above q m' hm' hx2
        rw [hm', ← hv']
        simp [a, b, a', b']
  intro p
  cases hv : view r p with
  | some v => exact (one h h' hp p v hv).symm
  | none =>
    cases hv' : view r' p with
    | none => rfl
    | some v => rw [one h' h (fun x => (hp x).symm) p v hv'] at hv; cases hv

/-! ### Files and threads -/

theorem flatMap_filter_perm {α : Type} (f : α → Nat) (l : List α) (k : Nat) :
    ((List.range k).flatMap fun i => l.filter fun x => f x == i).Perm (l.filter fun x => decide (f x < k)) := by
  induction k with
  | zero => simp
  | succ k ih =>
    rw [List.range_succ, List.flatMap_append]
    refine (List.Perm.append_right _ ih).trans ?_
    have hp := List.filter_append_perm (fun x => decide (f x < k)) (l.filter fun x => decide (f x < k + 1))
    rw [List.filter_filter, List.filter_filter] at hp
    refine (List.Perm.of_eq ?_).trans hp
    congr 1
    · congr 1; funext x
      rw [Bool.eq_iff_iff]; simp; omega
    · simp only [List.flatMap_cons, List.flatMap_nil, List.append_nil]
      congr 1; funext x
      rw [Bool.eq_iff_iff]; simp; omega

/-- Every file is in exactly one worker's list. -/
theorem lists_perm (threads : Nat) (h : threads ≠ 0) (files : List File) :
    ((lists threads files).take (min files.length threads)).flatten.Perm files := by
  have h1 : (lists threads files).flatten.Perm files := by
    have : (lists threads files).flatten =
        ((List.range threads).flatMap fun i => files.zipIdx.filter fun x => x.2 % threads == i).map Prod.fst := by
      unfold lists
      rw [List.flatMap_def, List.map_flatten, List.map_map]; rfl
    rw [this]
    refine ((flatMap_filter_perm (fun x : File × Nat => x.2 % threads) files.zipIdx threads).map Prod.fst).trans ?_
    have : (files.zipIdx.filter fun x => decide (x.2 % threads < threads)) = files.zipIdx := by
      rw [List.filter_eq_self]
      intro x _
      simpa using Nat.mod_lt _ (Nat.pos_of_ne_zero h)
    rw [this, List.zipIdx_map_fst]
  refine (List.Perm.of_eq ?_).trans h1
  by_cases hm : threads ≤ files.length
  · rw [Nat.min_eq_right hm]
    congr 1
    rw [List.take_of_length_le]
    simp [lists]
  · rw [Nat.min_eq_left (by omega)]
    conv => rhs; rw [← List.take_append_drop files.length (lists threads files), List.flatten_append]
    have : ((lists threads files).drop files.length).flatten = [] := by
      rw [List.flatten_eq_nil_iff]
      intro l hl
      unfold lists at hl
      rw [← List.map_drop, List.mem_map] at hl
      obtain ⟨i, hi, rfl⟩ := hl
      rw [List.map_eq_nil_iff, List.filter_eq_nil_iff]
      rintro ⟨a, j⟩ hj
      have hj2 := (List.mem_zipIdx hj).2.1
      have hi2 : files.length ≤ i := by
        obtain ⟨n, hn, he⟩ := List.getElem_of_mem hi
        rw [List.getElem_drop, List.getElem_range] at he
        omega
      simp only [beq_iff_eq]
      rw [Nat.mod_eq_of_lt (by omega)]
      omega
    rw [this, List.append_nil]

theorem worker_eq (cfg : Cfg) (zf : File → Zone) (fs : List File) (h : ∀ f ∈ fs, loadFile cfg f = .ok (some (zf f))) :
    worker cfg fs = .ok (some (fs.map zf)) := by
  induction fs with
  | nil => rfl
  | cons f l ih =>
    rw [worker, h f List.mem_cons_self, andThen_ok, ih (fun g hg => h g (List.mem_cons_of_mem _ hg))]; rfl

theorem mergeAll_append (a b : List Zone) (root : Node) :
    mergeAll (a ++ b) root = andThen (mergeAll a root) fun r => mergeAll b r := by
  induction a generalizing root with
  | nil => rfl
  | cons z l ih =>
    simp only [List.cons_append, mergeAll]
    cases mergeZone root z with
    | ub => rfl
    | ok r =>
      cases r with
      | none => rfl
      | some r => simp only [andThen_ok, ih]

theorem harvest_eq (cfg : Cfg) (zf : File → Zone) (ls : List (List File)) (root : Node)
    (h : ∀ f ∈ ls.flatten, loadFile cfg f = .ok (some (zf f))) :
    harvest cfg ls root = mergeAll (ls.flatten.map zf) root := by
  induction ls generalizing root with
  | nil => rfl
  | cons fs l ih =>
    simp only [harvest, List.flatten_cons, List.map_append, mergeAll_append]
    rw [worker_eq cfg zf fs (fun f hf => h f (by simp [hf])), andThen_ok]
    congr 1; funext r
    exact ih r (fun f hf => h f (by rw [List.flatten_cons, List.mem_append]; exact .inr hf))

theorem worker_fail (cfg : Cfg) (fs : List File) (hu : ∀ f ∈ fs, loadFile cfg f ≠ .ub)
    (h : ∃ f ∈ fs, loadFile cfg f = .ok none) : worker cfg fs = .ok none := by
  induction fs with
  | nil => obtain ⟨f, hf, -⟩ := h; cases hf
  | cons g l ih =>
    rw [worker]
    cases hg : loadFile cfg g with
    | ub => exact absurd hg (hu g List.mem_cons_self)
    | ok r =>
      cases r with
      | none => rfl
      | some z =>
        rw [andThen_ok, ih (fun f hf => hu f (List.mem_cons_of_mem _ hf))]; · rfl
        obtain ⟨f, hf, he⟩ := h
        rcases List.mem_cons.mp hf with rfl | hf
        · rw [hg] at he; cases he
        · exact ⟨f, hf, he⟩

theorem worker_dich (cfg : Cfg) (fs : List File) (hu : ∀ f ∈ fs, loadFile cfg f ≠ .ub) :
    (∃ f ∈ fs, loadFile cfg f = .ok none) ∨ ∃ zs, worker cfg fs = .ok (some zs) ∧ ∀ z ∈ zs, ∃ f ∈ fs, loadFile cfg f = .ok (some z) := by
  induction fs with
  | nil => exact .inr ⟨[], rfl, by simp⟩
  | cons g l ih =>
    cases hg : loadFile cfg g with
    | ub => exact absurd hg (hu g List.mem_cons_self)
    | ok r =>
      cases r with
      | none => exact .inl ⟨g, List.mem_cons_self, hg⟩
      | some z =>
        rcases ih (fun f hf => hu f (List.mem_cons_of_mem _ hf)) with ⟨f, hf, he⟩ | ⟨zs, hz, hm⟩
        · exact .inl ⟨f, List.mem_cons_of_mem _ hf, he⟩
        · refine .inr ⟨z :: zs, by rw [worker, hg, andThen_ok, hz]; rfl, ?_⟩
          intro y hy
          rcases List.mem_cons.mp hy with rfl | hy
          · exact ⟨g, List.mem_cons_self, hg⟩
          · obtain ⟨f, hf, he⟩ := hm y hy
            exact ⟨f, List.mem_cons_of_mem _ hf, he⟩

/-- One bad file makes the whole load fail. -/
theorem harvest_fail (cfg : Cfg) (ls : List (List File)) : ∀ (zs : List (List Bytes × Node)) (root : Node),
    Merged zs root →
    (∀ f ∈ ls.flatten, loadFile cfg f ≠ .ub) →
    (∀ f ∈ ls.flatten, ∀ z, loadFile cfg f = .ok (some z) → ∃ zn, WF zn ∧ z.dname = encode zn true ∧ z.root.zcut = true) →
    (∃ f ∈ ls.flatten, loadFile cfg f = .ok none) → harvest cfg ls root = .ok none := by
  induction ls with
  | nil => intro _ _ _ _ _ h; obtain ⟨f, hf, -⟩ := h; cases hf
  | cons fs l ih =>
    intro zs root hm hu hz h
    rw [harvest]
    rcases worker_dich cfg fs (fun f hf => hu f (by simp [hf])) with hbad | ⟨ws, hw, hws⟩
    · rw [worker_fail cfg fs (fun f hf => hu f (by simp [hf])) hbad]; rfl
    · rw [hw, andThen_ok]
      have hgood : ∀ f ∈ fs, loadFile cfg f ≠ .ok none := by
        intro f hf he
        rw [worker_fail cfg fs (fun f hf => hu f (by simp [hf])) ⟨f, hf, he⟩] at hw; cases hw
      have hps : ∃ ps : List (List Bytes × Node), ws = ps.map zoneOf ∧ ∀ x ∈ ps, WF x.1 ∧ x.2.zcut = true := by
        clear hw
        induction ws with
        | nil => exact ⟨[], rfl, by simp⟩
        | cons w r ih' =>
          obtain ⟨ps, h1, h2⟩ := ih' (fun z hz' => hws z (List.mem_cons_of_mem _ hz'))
          obtain ⟨f, hf, he⟩ := hws w List.mem_cons_self
          obtain ⟨zn, a, b, c⟩ := hz f (by simp [hf]) w he
          refine ⟨(zn, w.root) :: ps, ?_, ?_⟩
          · rw [List.map_cons, ← h1]
            congr 1
            unfold zoneOf
            rw [← b]
          · intro x hx
            rcases List.mem_cons.mp hx with rfl | hx
            · exact ⟨a, c⟩
            · exact h2 x hx
      obtain ⟨ps, rfl, hps2⟩ := hps
      obtain ⟨m1, m2⟩ := mergeAll_spec ps zs root hps2 hm
      by_cases hap : (ps.reverse ++ zs).Pairwise Apart
      · obtain ⟨root', h1, h2⟩ := m1 hap
        rw [h1, andThen_ok]
        refine ih _ root' h2 (fun f hf => hu f (by rw [List.flatten_cons, List.mem_append]; exact .inr hf))
          (fun f hf => hz f (by rw [List.flatten_cons, List.mem_append]; exact .inr hf)) ?_
        obtain ⟨f, hf, he⟩ := h
        rw [List.flatten_cons, List.mem_append] at hf
        rcases hf with hf | hf
        · exact absurd he (hgood f hf)
        · exact ⟨f, hf, he⟩
      · rw [m2 hap]; rfl

end Gdnsd.Load
