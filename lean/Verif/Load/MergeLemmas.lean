import Verif.Load.TreeLemmas
/-
Merging a zone into the tree.
-/
namespace Gdnsd.Load
open Enc Tree TreeSpec DnameSpec

/-- What a successful merge changes. -/
theorem mergeAt_follow {new : Node} (path : List Bytes) : ∀ (n n' : Node), mergeAt new path n = .ok (some n') →
    (∀ s, follow n' (path ++ s) = follow new s) ∧
    (∀ p, p <+: path → p ≠ path → ∃ k, follow n' p = some k ∧ k.zcut = false ∧
      k.rrs = ((follow n p).map Node.rrs).getD []) ∧
    (∀ p, ¬ path <+: p → ¬ p <+: path → follow n' p = follow n p) := by
  induction path with
  | nil =>
    intro n n' h
    unfold mergeAt at h
    cases hz : n.zcut with
    | true => rw [hz] at h; cases h
    | false =>
      rw [hz] at h
      cases hk : n.kids.isEmpty with
      | false => rw [hk] at h; cases h
      | true =>
        rw [hk] at h
        obtain ⟨-, -, h⟩ := bind_some (show (assert n.rrs.isEmpty).bind _ = _ from h)
        cases h
        refine ⟨fun s => rfl, ?_, ?_⟩
        · intro p hp hne; exact absurd (List.prefix_nil.mp hp) hne
        · intro p hp; exact absurd List.nil_prefix hp
  | cons l r ih =>
    intro n n' h
    unfold mergeAt at h
    cases hz : n.zcut with
    | true => rw [hz] at h; cases h
    | false =>
      rw [hz] at h
      obtain ⟨c, hc, hn⟩ := andThen_some (show andThen _ _ = _ from h)
      cases hn
      obtain ⟨h1, h2, h3⟩ := ih _ _ hc
      refine ⟨?_, ?_, ?_⟩
      · intro s
        simp only [List.cons_append, follow, find_setKid, if_pos, Option.bind_some]
        exact h1 s
      · intro p hp hne
        cases p with
        | nil => exact ⟨_, rfl, rfl, rfl⟩
        | cons k p =>
          obtain ⟨rfl, hp'⟩ := List.cons_prefix_cons.mp hp
          obtain ⟨m, i1, i2, i3⟩ := h2 p hp' (by intro e; exact hne (by rw [e]))
          refine ⟨m, ?_, i2, ?_⟩
          · simp only [follow, find_setKid, if_pos, Option.bind_some]; exact i1
          · rw [i3]
            simp only [follow]
            cases hf : n.find k with
            | some c => rfl
            | none => cases p <;> rfl
      · intro p hp1 hp2
        cases p with
        | nil => exact absurd List.nil_prefix hp2
        | cons k p =>
          simp only [follow, find_setKid]
          by_cases hk : k = l
          · subst hk
            rw [if_pos rfl, Option.bind_some, h3 p (fun e => hp1 (List.cons_prefix_cons.mpr ⟨rfl, e⟩))
              (fun e => hp2 (List.cons_prefix_cons.mpr ⟨rfl, e⟩))]
            cases hf : n.find k with
            | some c => rfl
            | none =>
              cases p with
              | nil => exact absurd (List.cons_prefix_cons.mpr ⟨rfl, List.nil_prefix⟩) hp2
              | cons _ _ => rfl
          · rw [if_neg hk]; rfl

/-- When a merge goes through. -/
theorem mergeAt_cases (new : Node) (path : List Bytes) : ∀ (n : Node),
    ((∀ s m, s <+: path → follow n s = some m → m.zcut = false) →
      ∀ m, follow n path = some m → m.kids = [] → m.rrs = []) →
    ((∃ s m, s <+: path ∧ follow n s = some m ∧ m.zcut = true) ∨ (∃ m, follow n path = some m ∧ m.kids ≠ []) →
      mergeAt new path n = .ok none) ∧
    (¬ ((∃ s m, s <+: path ∧ follow n s = some m ∧ m.zcut = true) ∨ (∃ m, follow n path = some m ∧ m.kids ≠ [])) →
      ∃ n', mergeAt new path n = .ok (some n')) := by
  induction path with
  | nil =>
    intro n hr
    unfold mergeAt
    cases hz : n.zcut with
    | true =>
      refine ⟨fun _ => rfl, fun h => absurd (.inl ⟨[], n, List.nil_prefix, rfl, hz⟩) h⟩
    | false =>
      cases hk : n.kids with
      | cons x y => exact ⟨fun _ => rfl, fun h => absurd (.inr ⟨n, rfl, by rw [hk]; simp⟩) h⟩
      | nil =>
        rw [hr (by intro s m hs hm; rw [List.prefix_nil.mp hs] at hm; cases hm; exact hz) n rfl hk]
        refine ⟨?_, fun _ => ⟨new, rfl⟩⟩
        rintro (⟨s, m, hs, hm, hc⟩ | ⟨m, hm, hc⟩)
        · rw [List.prefix_nil.mp hs] at hm; cases hm; rw [hz] at hc; cases hc
        · cases hm; exact absurd hk hc
  | cons l r ih =>
    intro n hr
    unfold mergeAt
    cases hz : n.zcut with
    | true =>
      refine ⟨fun _ => rfl, fun h => absurd (.inl ⟨[], n, List.nil_prefix, rfl, hz⟩) h⟩
    | false =>
      obtain ⟨h1, h2⟩ := ih ((n.find l).getD .empty) (by
        intro hcut m hm
        cases hf : n.find l with
        | some c =>
          rw [hf] at hm hcut
          refine hr ?_ m (by simp only [follow, hf]; exact hm)
          intro s k hs hk
          cases s with
          | nil => cases hk; exact hz
          | cons y s =>
            obtain ⟨rfl, hs'⟩ := List.cons_prefix_cons.mp hs
            simp only [follow, hf] at hk
            exact hcut s k hs' hk
        | none =>
          rw [hf] at hm
          cases r with
          | nil => cases hm; intros; rfl
          | cons _ _ => cases hm)
      constructor
      · intro h
        show andThen _ _ = _
        rw [h1 ?_]; · rfl
        rcases h with ⟨s, m, hs, hm, hc⟩ | ⟨m, hm, hc⟩
        · cases s with
          | nil => cases hm; rw [hz] at hc; cases hc
          | cons k s =>
            obtain ⟨rfl, hs'⟩ := List.cons_prefix_cons.mp hs
            simp only [follow] at hm
            cases hf : n.find k with
            | none => rw [hf] at hm; cases hm
            | some c => rw [hf] at hm; exact .inl ⟨s, m, hs', hm, hc⟩
        · simp only [follow] at hm
          cases hf : n.find l with
          | none => rw [hf] at hm; cases hm
          | some c => rw [hf] at hm; exact .inr ⟨m, hm, hc⟩
      · intro h
        obtain ⟨n', hn'⟩ := h2 (by
          rintro (⟨s, m, hs, hm, hc⟩ | ⟨m, hm, hc⟩)
          · cases hf : n.find l with
            | none =>
              rw [hf] at hm
              cases s with
              | nil => cases hm; cases hc
              | cons _ _ => cases hm
            | some c =>
              rw [hf] at hm
              exact h (.inl ⟨l :: s, m, List.cons_prefix_cons.mpr ⟨rfl, hs⟩, by simp only [follow, hf]; exact hm, hc⟩)
          · cases hf : n.find l with
            | none =>
              rw [hf] at hm
              cases r with
              | nil => cases hm; exact hc rfl
              | cons _ _ => cases hm
            | some c => rw [hf] at hm; exact h (.inr ⟨m, by simp only [follow, hf]; exact hm, hc⟩))
        exact ⟨_, by show andThen _ _ = _; rw [hn']; rfl⟩

/-- The tree holds these zones and nothing else. -/
structure Merged (zs : List (List Bytes × Node)) (root : Node) : Prop where
  apart : zs.Pairwise fun a b => ¬ a.1 <:+ b.1 ∧ ¬ b.1 <:+ a.1
  cut : ∀ x ∈ zs, x.2.zcut = true
  zone : ∀ x ∈ zs, nodeAt root x.1 = some x.2
  above : ∀ p m, nodeAt root p = some m → (∀ x ∈ zs, ¬ x.1 <:+ p) → m.zcut = false ∧ m.rrs = [] ∧ (p = [] ∨ ∃ x ∈ zs, p <:+ x.1)

theorem Merged_empty : Merged [] .empty := by
  refine ⟨List.Pairwise.nil, by simp, by simp, ?_⟩
  intro p m h _
  unfold nodeAt at h
  cases hp : p.reverse with
  | nil =>
    rw [hp] at h; cases h
    exact ⟨rfl, rfl, .inl (by simpa using hp)⟩
  | cons l r => rw [hp] at h; cases h

theorem Merged.cutAt {zs : List (List Bytes × Node)} {root : Node} (h : Merged zs root) {p : List Bytes} {m : Node}
    (hm : nodeAt root p = some m) (hc : m.zcut = true) : ∃ x ∈ zs, x.1 <:+ p := by
  apply Decidable.byContradiction
  intro hn
  have := (h.above p m hm (fun x hx hs => hn ⟨x, hx, hs⟩)).1
  rw [hc] at this; cases this

theorem Merged.kids {zs : List (List Bytes × Node)} {root : Node} (h : Merged zs root) {p : List Bytes} {m : Node}
    (hm : nodeAt root p = some m) (hz : ∀ x ∈ zs, ¬ x.1 <:+ p) :
    m.kids ≠ [] ↔ ∃ x ∈ zs, p <:+ x.1 := by
  constructor
  · intro hk
    cases hkk : m.kids with
    | nil => exact absurd hkk hk
    | cons y r =>
      obtain ⟨l, c⟩ := y
      have hf : m.find l = some c := by unfold Node.find; rw [hkk]; simp [lookupKid]
      have hl : nodeAt root (l :: p) = some c := by rw [nodeAt_cons, hm]; exact hf
      by_cases hx : ∃ x ∈ zs, x.1 <:+ l :: p
      · obtain ⟨x, hx, hs⟩ := hx
        rcases List.suffix_cons_iff.mp hs with e | e
        · exact ⟨x, hx, by rw [e]; exact List.suffix_cons _ _⟩
        · exact absurd e (hz x hx)
      · rcases (h.above _ _ hl (fun x hx' hs => hx ⟨x, hx', hs⟩)).2.2 with e | ⟨x, hx, hs⟩
        · cases e
        · exact ⟨x, hx, (List.suffix_cons _ _).trans hs⟩
  · rintro ⟨x, hx, ⟨a, ha⟩⟩
    have hz1 := h.zone x hx
    have hne : a ≠ [] := by
      rintro rfl
      exact hz x hx (by rw [← ha]; exact List.suffix_refl _)
    rw [← ha, nodeAt_append, hm, Option.bind_some] at hz1
    unfold nodeAt at hz1
    cases hr : a.reverse with
    | nil => exact absurd (by simpa using hr) hne
    | cons l r =>
      rw [hr] at hz1
      intro hk
      simp only [follow, Node.find, hk, lookupKid] at hz1
      cases hz1

theorem suffix_iff_prefix {a b : List Bytes} : a <:+ b ↔ a.reverse <+: b.reverse := List.reverse_prefix.symm

/-- Merging one more zone. -/
theorem mergeZone_spec {zs : List (List Bytes × Node)} {root : Node} (h : Merged zs root) (zn : List Bytes) (new : Node)
    (hw : WF zn) (hc : new.zcut = true) :
    ((∃ x ∈ zs, x.1 <:+ zn ∨ zn <:+ x.1) → mergeZone root ⟨encode zn true, new⟩ = .ok none) ∧
    (¬ (∃ x ∈ zs, x.1 <:+ zn ∨ zn <:+ x.1) →
      ∃ root', mergeZone root ⟨encode zn true, new⟩ = .ok (some root') ∧ Merged ((zn, new) :: zs) root') := by
  have hs : mergeZone root ⟨encode zn true, new⟩ = mergeAt new zn.reverse root := by
    unfold mergeZone
    rw [hc]
    have := lstack_encode zn hw []
    rw [List.append_nil] at this
    rw [this]; rfl
  rw [hs]
  have hcutx : ∀ x ∈ zs, x.1 <:+ zn → ∃ s m, s <+: zn.reverse ∧ follow root s = some m ∧ m.zcut = true := fun x hx hs =>
    ⟨x.1.reverse, x.2, suffix_iff_prefix.mp hs, h.zone x hx, h.cut x hx⟩
  obtain ⟨c1, c2⟩ := mergeAt_cases new zn.reverse root (by
    intro hcut m hm _
    refine (h.above zn m hm ?_).2.1
    intro x hx hs
    obtain ⟨s, k, a, b, c⟩ := hcutx x hx hs
    rw [hcut s k a b] at c; cases c)
  constructor
  · rintro ⟨x, hx, hs⟩
    by_cases hu : ∃ y ∈ zs, y.1 <:+ zn
    · obtain ⟨y, hy, hs⟩ := hu
      exact c1 (.inl (hcutx y hy hs))
    · have hs : zn <:+ x.1 := hs.resolve_left (fun e => hu ⟨x, hx, e⟩)
      obtain ⟨a, ha⟩ := hs
      have hz := h.zone x hx
      rw [← ha, nodeAt_append] at hz
      cases hm : nodeAt root zn with
      | none => rw [hm] at hz; cases hz
      | some m =>
        refine c1 (.inr ⟨m, hm, ?_⟩)
        exact (h.kids hm (fun y hy hs => hu ⟨y, hy, hs⟩)).mpr ⟨x, hx, ⟨a, ha⟩⟩
  · intro hn
    have hu : ∀ x ∈ zs, ¬ x.1 <:+ zn := fun x hx hs => hn ⟨x, hx, .inl hs⟩
    have hd : ∀ x ∈ zs, ¬ zn <:+ x.1 := fun x hx hs => hn ⟨x, hx, .inr hs⟩
    obtain ⟨root', hr⟩ := c2 (by
      rintro (⟨s, m, hs, hm, hc⟩ | ⟨m, hm, hk⟩)
      · rw [← List.reverse_reverse s] at hs hm
        obtain ⟨x, hx, hxs⟩ := h.cutAt (p := s.reverse) hm hc
        exact hu x hx (hxs.trans (List.reverse_prefix.mp hs))
      · obtain ⟨x, hx, hs⟩ := (h.kids (p := zn) hm hu).mp hk
        exact hd x hx hs)
    refine ⟨root', hr, ?_⟩
    obtain ⟨f1, f2, f3⟩ := mergeAt_follow _ _ _ hr
    have hoth : ∀ p, ¬ zn <:+ p → ¬ p <:+ zn → nodeAt root' p = nodeAt root p := by
      intro p h1 h2
      exact f3 p.reverse (fun e => h1 (suffix_iff_prefix.mpr e)) (fun e => h2 (suffix_iff_prefix.mpr e))
    refine ⟨?_, ?_, ?_, ?_⟩
    · refine List.pairwise_cons.mpr ⟨?_, h.apart⟩
      intro x hx; exact ⟨hd x hx, hu x hx⟩
    · intro x hx
      rcases List.mem_cons.mp hx with rfl | hx
      · exact hc
      · exact h.cut x hx
    · intro x hx
      rcases List.mem_cons.mp hx with rfl | hx
      · have := f1 []
        rw [List.append_nil] at this; exact this
      · rw [hoth x.1 (hd x hx) (hu x hx)]; exact h.zone x hx
    · intro p m hm hp
      by_cases hpz : p <:+ zn
      · by_cases he : p = zn
        · exact absurd (by rw [he]; exact List.suffix_refl _) (hp (zn, new) List.mem_cons_self)
        · obtain ⟨k, k1, k2, k3⟩ := f2 p.reverse (suffix_iff_prefix.mp hpz) (fun e => he (List.reverse_inj.mp e))
          have hmk : m = k := by
            have : some m = some k := by rw [← hm, ← k1]; rfl
            exact Option.some.inj this
          refine ⟨by rw [hmk]; exact k2, ?_, .inr ⟨(zn, new), List.mem_cons_self, hpz⟩⟩
          rw [hmk, k3]
          cases ho : follow root p.reverse with
          | none => rfl
          | some o => exact (h.above p o ho (fun x hx => hp x (List.mem_cons_of_mem _ hx))).2.1
      · have hzp := hp (zn, new) List.mem_cons_self
        rw [hoth p hzp hpz] at hm
        obtain ⟨a, b, c⟩ := h.above p m hm (fun x hx => hp x (List.mem_cons_of_mem _ hx))
        refine ⟨a, b, ?_⟩
        rcases c with c | ⟨x, hx, hs⟩
        · exact .inl c
        · exact .inr ⟨x, List.mem_cons_of_mem _ hx, hs⟩

end Gdnsd.Load
