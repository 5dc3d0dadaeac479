import Verif.Load.RuleLemmas
/-
From files to answers.
-/
namespace Gdnsd.Load
open Enc hiding scopeOf
open Tree TreeSpec DnameSpec EncSpec LookupSpec LoadSpec Lookup

theorem Scanned.ok {f : File} (h : Scanned f) : FileOk f := fun zn l h1 h2 => h zn l (NameOf_iff.mp h1) h2

theorem Scanned.ne_ub {cfg : Cfg} {f : File} (h : Scanned f) (h' : NoMix f) : loadFile cfg f ≠ .ub :=
  loadFile_ne_ub (Scanned.ok h) fun zn l h1 h2 => h' zn l (NameOf_iff.mp h1) h2

theorem worker_files {cfg : Cfg} : ∀ {l : List File} {zs : List Zone}, worker cfg l = .ok (some zs) →
    ∀ f ∈ l, ∃ z, loadFile cfg f = .ok (some z) := by
  intro l
  induction l with
  | nil => intro _ _ f hf; cases hf
  | cons g l ih =>
    intro zs h f hf
    unfold worker at h
    obtain ⟨z, h1, h⟩ := andThen_some h
    obtain ⟨r, h2, -⟩ := andThen_some h
    rcases List.mem_cons.mp hf with rfl | hf
    · exact ⟨z, h1⟩
    · exact ih h2 f hf

theorem harvest_files {cfg : Cfg} : ∀ {ls : List (List File)} {root root' : Node}, harvest cfg ls root = .ok (some root') →
    ∀ f ∈ ls.flatten, ∃ z, loadFile cfg f = .ok (some z) := by
  intro ls
  induction ls with
  | nil => intro _ _ _ f hf; cases hf
  | cons fs ls ih =>
    intro root root' h f hf
    unfold harvest at h
    obtain ⟨zs, h1, h⟩ := andThen_some h
    obtain ⟨r, h2, h⟩ := andThen_some h
    rw [List.flatten_cons] at hf
    rcases List.mem_append.mp hf with hf | hf
    · exact worker_files h1 f hf
    · exact ih h f hf

/-- After a success, all files have loaded. -/
theorem loadZones_files {cfg : Cfg} {threads : Nat} {files : List File} (ht : threads ≠ 0) {root : Node}
    (h : loadZones cfg threads files = .ok (some root)) : ∀ f ∈ files, ∃ z, loadFile cfg f = .ok (some z) := by
  unfold loadZones at h
  rw [decide_eq_true ht, assert_true, Outcome.bind_ok] at h
  intro f hf
  exact harvest_files h f ((lists_perm threads ht files).mem_iff.mpr hf)

theorem ne_ub_of_some {cfg : Cfg} {f : File} (h : ∃ z, loadFile cfg f = .ok (some z)) : loadFile cfg f ≠ .ub := by
  obtain ⟨z, h⟩ := h
  rw [h]; nofun

theorem Unrelated_iff {files : List File} : Unrelated files ↔ NamesApart files := by
  unfold Unrelated NamesApart
  constructor <;> intro h <;> refine h.imp ?_
  · exact fun h a b h1 h2 => h a b (NameOf_iff.mp h1) (NameOf_iff.mp h2)
  · exact fun h a b h1 h2 => h a b (NameOf_iff.mpr h1) (NameOf_iff.mpr h2)

theorem Built.sources {cfg : Cfg} {files : List File} {root : Node} {zs : List (List Bytes × Node)} (h : Built cfg files root zs)
    (ha : NamesApart files) : Sources cfg zs (zonesOf files) := by
  constructor
  · intro x hx
    obtain ⟨f, hf, l, z, h1, h2, h3⟩ := h.file x hx
    exact ⟨l, z, ⟨f, hf, NameOf_iff.mp h1, h2⟩, h3⟩
  · rintro zone l ⟨f, hf, h1, h2⟩
    obtain ⟨h3, h4⟩ := h.zone f hf
    exact ⟨pf cfg f, h3, h4.unique (NameOf_iff.mpr h1)⟩
  · rintro zone l l' ⟨f, hf, h1, h2⟩ ⟨g, hg, h3, h4⟩
    rcases pairwise_mem ha hf hg with e | e | e
    · subst e; rw [h2] at h4; cases h4; rfl
    · exact absurd (List.suffix_refl _) (e zone zone (NameOf_iff.mpr h1) (NameOf_iff.mpr h3)).1
    · exact absurd (List.suffix_refl _) (e zone zone (NameOf_iff.mpr h3) (NameOf_iff.mpr h1)).1

end Gdnsd.Load
