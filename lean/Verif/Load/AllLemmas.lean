import Verif.Load.SafeLemmas
/-
Loading a directory of zone files.
-/
namespace Gdnsd.Load
open Enc Tree TreeSpec DnameSpec EncSpec LookupSpec LoadSpec

theorem NameOf.unique {f : File} {a b : List Bytes} (ha : NameOf f a) (hb : NameOf f b) : a = b := by
  obtain ⟨t, h1, ls, q, h2, -, -, rfl⟩ := ha
  obtain ⟨t', h1', ls', q', h2', -, -, rfl⟩ := hb
  rw [h1] at h1'; cases h1'
  obtain ⟨rfl, -⟩ := Dname.C01_grammar_functional h2 h2'
  rfl

theorem NameOf.wf {f : File} {a : List Bytes} (ha : NameOf f a) : WF a := by
  obtain ⟨t, h1, h2⟩ := ha
  exact h2.spec.1

/-- The zone a file becomes. -/
def zf (cfg : Cfg) (f : File) : Zone :=
  match loadFile cfg f with
  | .ok (some z) => z
  | _ => ⟨[], .empty⟩

/-- Its name and tree. -/
def pf (cfg : Cfg) (f : File) : List Bytes × Node := (labelsOf (zf cfg f).dname, (zf cfg f).root)

theorem zf_eq {cfg : Cfg} {f : File} (h : ∃ z, loadFile cfg f = .ok (some z)) : loadFile cfg f = .ok (some (zf cfg f)) := by
  obtain ⟨z, hz⟩ := h
  unfold zf; rw [hz]

/-- What a file that loads gives. -/
theorem pf_spec {cfg : Cfg} {f : File} (hf : FileOk f) (h : ∃ z, loadFile cfg f = .ok (some z)) :
    zoneOf (pf cfg f) = zf cfg f ∧ NameOf f (pf cfg f).1 ∧ ∃ l z, f.recs = some l ∧ Loaded cfg (pf cfg f).1 l z (pf cfg f).2 := by
  obtain ⟨zn, l, z, h1, h2, h3, h4, -⟩ := loadFile_loaded hf (zf_eq h)
  have e : labelsOf (zf cfg f).dname = zn := by rw [h4]; exact labelsOf_encode zn h1.wf
  refine ⟨?_, ?_, l, z, h2, ?_⟩
  · unfold zoneOf pf
    simp only [e]
    rw [← h4]
  · unfold pf; rw [e]; exact h1
  · unfold pf; rw [e]; exact h3

theorem loadFile_shape {cfg : Cfg} {f : File} (hf : FileOk f) {z : Zone} (h : loadFile cfg f = .ok (some z)) :
    ∃ zn, WF zn ∧ z.dname = encode zn true ∧ z.root.zcut = true := by
  obtain ⟨zn, l, z0, h1, h2, h3, h4, -⟩ := loadFile_loaded hf h
  exact ⟨zn, h1.wf, h4, h3.rootCut⟩

/-- What the tree made of some files is. -/
structure Built (cfg : Cfg) (files : List File) (root : Node) (zs : List (List Bytes × Node)) : Prop where
  merged : Merged zs root
  file : ∀ x ∈ zs, ∃ f ∈ files, ∃ l z, NameOf f x.1 ∧ f.recs = some l ∧ Loaded cfg x.1 l z x.2
  zone : ∀ f ∈ files, pf cfg f ∈ zs ∧ NameOf f (pf cfg f).1

theorem Built.all {cfg : Cfg} {files : List File} {root : Node} {zs : List (List Bytes × Node)} (h : Built cfg files root zs) :
    AllLoaded cfg zs := by
  intro x hx
  obtain ⟨f, -, l, z, -, -, hl⟩ := h.file x hx
  exact ⟨l, z, hl⟩

/-- No file's zone is at or below another one's. -/
def NamesApart (files : List File) : Prop :=
  files.Pairwise fun f g => ∀ a b, NameOf f a → NameOf g b → ¬ a <:+ b ∧ ¬ b <:+ a

theorem NamesApart_iff {cfg : Cfg} {files : List File} (h : ∀ f ∈ files, NameOf f (pf cfg f).1) :
    NamesApart files ↔ (files.map (pf cfg)).Pairwise Apart := by
  unfold NamesApart
  rw [List.pairwise_map]
  have := fun f hf => h f hf
  constructor
  · intro hp
    refine List.Pairwise.imp_of_mem ?_ hp
    intro a b ha hb hab
    exact hab _ _ (h a ha) (h b hb)
  · intro hp
    refine List.Pairwise.imp_of_mem ?_ hp
    intro a b ha hb hab x y hx hy
    rw [hx.unique (h a ha), hy.unique (h b hb)]
    exact hab

/-- Loading a directory: nothing but success or rejection, and when. -/
theorem loadZones_spec {cfg : Cfg} {threads : Nat} {files : List File} (ht : threads ≠ 0) (hf : ∀ f ∈ files, FileOk f)
    (hu : ∀ f ∈ files, loadFile cfg f ≠ .ub) :
    ((∀ f ∈ files, ∃ z, loadFile cfg f = .ok (some z)) → NamesApart files →
      ∃ root zs, loadZones cfg threads files = .ok (some root) ∧ Built cfg files root zs ∧ ∀ x, x ∈ zs ↔ ∃ f ∈ files, x = pf cfg f) ∧
    ((∃ f ∈ files, loadFile cfg f = .ok none) ∨ ((∀ f ∈ files, ∃ z, loadFile cfg f = .ok (some z)) ∧ ¬ NamesApart files) →
      loadZones cfg threads files = .ok none) := by
  have hp := lists_perm threads ht files
  unfold loadZones
  rw [decide_eq_true ht]
  simp only [assert_true, Outcome.bind_ok]
  revert hp
  generalize (lists threads files).take (min files.length threads) = ls
  intro hp
  have hmem : ∀ f, f ∈ ls.flatten ↔ f ∈ files := fun f => hp.mem_iff
  have good : (∀ f ∈ files, ∃ z, loadFile cfg f = .ok (some z)) →
      harvest cfg ls .empty = mergeAll ((ls.flatten.map (pf cfg)).map zoneOf) .empty := by
    intro hg
    rw [harvest_eq cfg (zf cfg) ls .empty (fun f hfm => zf_eq (hg f ((hmem f).mp hfm)))]
    congr 1
    rw [List.map_map]
    refine List.map_congr_left fun f hfm => ?_
    exact (pf_spec (hf f ((hmem f).mp hfm)) (hg f ((hmem f).mp hfm))).1.symm
  have names : (∀ f ∈ files, ∃ z, loadFile cfg f = .ok (some z)) → (NamesApart files ↔ ((ls.flatten.map (pf cfg)).reverse ++ []).Pairwise Apart) := by
    intro hg
    rw [NamesApart_iff (fun f hfm => (pf_spec (hf f hfm) (hg f hfm)).2.1), List.append_nil]
    refine List.Perm.pairwise_iff (fun {x y} (h : Apart x y) => h.symm) ?_
    exact ((hp.map (pf cfg)).symm).trans (List.reverse_perm _).symm
  have wf : (∀ f ∈ files, ∃ z, loadFile cfg f = .ok (some z)) → ∀ x ∈ ls.flatten.map (pf cfg), WF x.1 ∧ x.2.zcut = true := by
    intro hg x hx
    obtain ⟨f, hfm, rfl⟩ := List.mem_map.mp hx
    have hfm := (hmem f).mp hfm
    obtain ⟨-, h2, l, z, -, h3⟩ := pf_spec (hf f hfm) (hg f hfm)
    exact ⟨h2.wf, h3.rootCut⟩
  constructor
  · intro hg ha
    rw [good hg]
    obtain ⟨m1, -⟩ := mergeAll_spec _ [] .empty (wf hg) Merged_empty
    obtain ⟨root, h1, h2⟩ := m1 ((names hg).mp ha)
    have mem : ∀ x, x ∈ (ls.flatten.map (pf cfg)).reverse ++ [] ↔ ∃ f ∈ files, x = pf cfg f := by
      intro x
      rw [List.append_nil, List.mem_reverse, List.mem_map]
      constructor
      · rintro ⟨f, a, rfl⟩; exact ⟨f, (hmem f).mp a, rfl⟩
      · rintro ⟨f, a, rfl⟩; exact ⟨f, (hmem f).mpr a, rfl⟩
    refine ⟨root, _, h1, ⟨h2, ?_, ?_⟩, mem⟩
    · intro x hx
      obtain ⟨f, hfm, rfl⟩ := (mem x).mp hx
      obtain ⟨-, h4, l, z, h5, h6⟩ := pf_spec (hf f hfm) (hg f hfm)
      exact ⟨f, hfm, l, z, h4, h5, h6⟩
    · intro f hfm
      exact ⟨(mem _).mpr ⟨f, hfm, rfl⟩, (pf_spec (hf f hfm) (hg f hfm)).2.1⟩
  · rintro (hb | ⟨hg, ha⟩)
    · refine harvest_fail cfg ls [] .empty Merged_empty (fun f hfm => hu f ((hmem f).mp hfm)) ?_ ?_
      · intro f hfm z hz
        exact loadFile_shape (hf f ((hmem f).mp hfm)) hz
      · obtain ⟨f, hfm, h⟩ := hb
        exact ⟨f, (hmem f).mpr hfm, h⟩
    · rw [good hg]
      exact (mergeAll_spec _ [] .empty (wf hg) Merged_empty).2 (fun h => ha ((names hg).mpr h))

/-- What a successful load gives. -/
theorem loadZones_some {cfg : Cfg} {threads : Nat} {files : List File} (ht : threads ≠ 0) (hf : ∀ f ∈ files, FileOk f)
    (hu : ∀ f ∈ files, loadFile cfg f ≠ .ub) {root : Node} (h : loadZones cfg threads files = .ok (some root)) :
    (∀ f ∈ files, ∃ z, loadFile cfg f = .ok (some z)) ∧ NamesApart files ∧
    ∃ zs, Built cfg files root zs ∧ ∀ x, x ∈ zs ↔ ∃ f ∈ files, x = pf cfg f := by
  obtain ⟨h1, h2⟩ := loadZones_spec (threads := threads) ht hf hu
  have hg : ∀ f ∈ files, ∃ z, loadFile cfg f = .ok (some z) := by
    intro f hfm
    cases hl : loadFile cfg f with
    | ub => exact absurd hl (hu f hfm)
    | ok r =>
      cases r with
      | some z => exact ⟨z, rfl⟩
      | none => rw [h2 (.inl ⟨f, hfm, hl⟩)] at h; cases h
  have ha : NamesApart files := by
    rcases Classical.em (NamesApart files) with ha | ha
    · exact ha
    · rw [h2 (.inr ⟨hg, ha⟩)] at h; cases h
  obtain ⟨root', zs, e, b, m⟩ := h1 hg ha
  rw [h] at e; cases e
  exact ⟨hg, ha, zs, b, m⟩

/-- Threads and order make no difference. -/
theorem loadZones_same {cfg : Cfg} {threads threads' : Nat} {files files' : List File} (ht : threads ≠ 0) (ht' : threads' ≠ 0)
    (hp : files.Perm files') (hf : ∀ f ∈ files, FileOk f) (hu : ∀ f ∈ files, loadFile cfg f ≠ .ub) {root : Node}
    (h : loadZones cfg threads files = .ok (some root)) : ∃ root', loadZones cfg threads' files' = .ok (some root') ∧ Same root root' := by
  obtain ⟨hg, ha, zs, b, m⟩ := loadZones_some ht hf hu h
  have ha' : NamesApart files' := by
    refine (List.Perm.pairwise_iff ?_ hp).mp ha
    intro x y hxy a b h1 h2
    exact ⟨(hxy b a h2 h1).2, (hxy b a h2 h1).1⟩
  obtain ⟨root', zs', e, b', m'⟩ := (loadZones_spec (threads := threads') ht' (fun f h => hf f (hp.mem_iff.mpr h))
    (fun f h => hu f (hp.mem_iff.mpr h))).1 (fun f h => hg f (hp.mem_iff.mpr h)) ha'
  refine ⟨root', e, b.merged.same b'.merged fun x => ?_⟩
  rw [m, m']
  exact ⟨fun ⟨f, a, c⟩ => ⟨f, hp.mem_iff.mp a, c⟩, fun ⟨f, a, c⟩ => ⟨f, hp.mem_iff.mpr a, c⟩⟩

end Gdnsd.Load
