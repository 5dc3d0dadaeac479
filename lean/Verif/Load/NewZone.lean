import Verif.Load.GlueLemmas
import Verif.Dname.Props
import Verif.Lookup.Props
/-
The name of a zone, from the name of its file; and what a file that loads looks like.
-/
namespace Gdnsd.Load
open Enc Tree TreeSpec DnameSpec EncSpec LookupSpec LoadSpec

theorem isWild_encode (ls : List Bytes) (q : Bool) (h : WF ls) :
    Dname.isWild (encode ls q) = .ok (decide (ls.head? = some [42])) := by
  unfold Dname.isWild
  rw [Dname.status_encode' _ _ h, Outcome.bind_ok]
  have ha : ∀ f : Unit → Outcome Bool, (assert ((if q = true then Dname.Status.valid else Dname.Status.partialName) != Dname.Status.invalid)).bind f = f () := by
    intro f; cases q <;> rfl
  rw [ha]
  cases ls with
  | nil => cases q <;> rfl
  | cons l r =>
    have hl := h.1 l List.mem_cons_self
    have e1 : rd (encode (l :: r) q) 1 = .ok (UInt8.ofNat l.length) := rfl
    rw [e1, Outcome.bind_ok]
    cases l with
    | nil => exact absurd hl.1 (by decide)
    | cons c l' =>
      have e2 : rd (encode ((c :: l') :: r) q) 2 = .ok c := rfl
      rw [e2, Outcome.bind_ok]
      cases l' with
      | nil =>
        rw [if_pos (show UInt8.ofNat [c].length = 1 from rfl), List.head?_cons]
        congr 1
        rw [Bool.eq_iff_iff]; simp
      | cons d l'' =>
        rw [if_neg, List.head?_cons]
        · simp
        · intro e
          have := congrArg UInt8.toNat e
          simp only [List.length_cons] at this hl
          rw [UInt8.toNat_ofNat'] at this
          have h1 : (1 : UInt8).toNat = 1 := rfl
          rw [h1] at this
          omega

theorem terminate_encode (ls : List Bytes) (h : WF ls) : Dname.terminate (encode ls false) = .ok (encode ls true) := by
  have h1 : rd (encode ls false) 0 = .ok (UInt8.ofNat (wireLen ls)) := rfl
  have hp : 0 < wireLen ls := by unfold wireLen; omega
  have h2 : (UInt8.ofNat (wireLen ls)).toNat = wireLen ls := by
    rw [UInt8.toNat_ofNat']; have := h.2; omega
  unfold Dname.terminate
  rw [h1, Outcome.bind_ok, h2, show decide (0 < wireLen ls) = true from decide_eq_true hp, assert_true, Outcome.bind_ok, if_pos]
  · congr 1
    have hl : wireLen ls = (UInt8.ofNat (wireLen ls) :: wireLabels ls).length := by
      have := Dname.encode_length ls false
      unfold encode at this
      simp only [List.length_append, List.length_cons, List.length_nil] at this ⊢
      omega
    unfold encode
    rw [if_neg (by decide), if_pos rfl, List.set_append_right _ _ (by omega)]
    rw [show wireLen ls - (UInt8.ofNat (wireLen ls) :: wireLabels ls).length = 0 by omega]
    rfl
  · rw [Dname.encode_length]; omega

/-- The zone name a text stands for. -/
def ZoneText (text : Bytes) (zn : List Bytes) : Prop :=
  ∃ ls q, NameText text ls q ∧ WF ls ∧ ls.head? ≠ some [42] ∧ zn = ls.map (·.map lower)

theorem lower_star {l : Bytes} : l.map lower = [42] ↔ l = [42] := by
  constructor
  · intro h
    cases l with
    | nil => cases h
    | cons c r =>
      simp only [List.map_cons, List.cons.injEq, List.map_eq_nil_iff] at h
      obtain ⟨h1, rfl⟩ := h
      have : c = 42 := by
        unfold lower at h1
        split at h1
        · next hc =>
          have := congrArg UInt8.toNat h1
          rw [UInt8.toNat_ofNat'] at this
          have h42 : (42 : UInt8).toNat = 42 := rfl
          rw [h42] at this
          omega
        · exact h1
      rw [this]
  · rintro rfl; rfl

theorem ZoneText.spec {text : Bytes} {zn : List Bytes} (h : ZoneText text zn) :
    WF zn ∧ zn.head? ≠ some [42] ∧ lowerName zn = zn := by
  obtain ⟨ls, q, h1, h2, h3, rfl⟩ := h
  refine ⟨Dname.WF_map_lower h2, ?_, ?_⟩
  · intro e
    cases ls with
    | nil => cases e
    | cons l r =>
      simp only [List.map_cons, List.head?_cons, Option.some.injEq] at e
      rw [lower_star.mp e] at h3
      exact h3 rfl
  · exact Lookup.lowerName_idem ls

theorem newZone_spec (text : Bytes) :
    (∃ zn, ZoneText text zn ∧ newZone text = .ok (some ⟨encode zn true, .mk true [] []⟩)) ∨
    ((∀ zn, ¬ ZoneText text zn) ∧ newZone text = .ok none) := by
  unfold newZone
  have ht : text.take text.length = text := List.take_length
  rcases Dname.C01_parse_exact text text.length (Nat.le_refl _) with ⟨ls, q, h1, h2, h3⟩ | ⟨h1, h2⟩
  · rw [ht] at h1
    rw [h3, Outcome.bind_ok]
    have hw := Dname.WF_map_lower h2
    rw [if_neg (by cases q <;> simp)]
    simp only []
    rw [isWild_encode _ _ hw, Outcome.bind_ok]
    by_cases hs : ls.head? = some [42]
    · right
      refine ⟨?_, ?_⟩
      · rintro zn ⟨ls', q', a, b, c, rfl⟩
        obtain ⟨rfl, rfl⟩ := Dname.C01_grammar_functional h1 a
        exact c hs
      · have : (ls.map (·.map lower)).head? = some [42] := by
          cases ls with
          | nil => cases hs
          | cons l r =>
            simp only [List.head?_cons, Option.some.injEq] at hs
            subst hs; rfl
        rw [decide_eq_true this, cond_true]
    · left
      refine ⟨_, ⟨ls, q, h1, h2, hs, rfl⟩, ?_⟩
      have := (ZoneText.spec ⟨ls, q, h1, h2, hs, rfl⟩).2.1
      rw [decide_eq_false this, cond_false]
      cases q with
      | true => rfl
      | false =>
        simp only [if_false, Bool.false_eq_true, if_true]
        rw [terminate_encode _ hw, Outcome.bind_ok]
  · right
    rw [ht] at h1
    refine ⟨?_, by rw [h2]; rfl⟩
    rintro zn ⟨ls, q, a, b, c, rfl⟩
    exact h1 ⟨ls, q, a, b⟩

/-- A zone that passed: the records of its file, its state before post-processing, and what
became of it. -/
structure Loaded (cfg : Cfg) (zone : List Bytes) (l : List Add) (z : Zone) (root : Node) : Prop where
  zoned : Zoned cfg zone l z
  nowild : zone.head? ≠ some [42]
  lower : lowerName zone = zone
  first : zrootPhase1 cfg z = .ok (some ())
  walk : procInner (phase1 cfg z) z.root [] false = .ok (some ())
  root : root = attach z z.root

/-- The zone name of a file. -/
def NameOf (f : File) (zn : List Bytes) : Prop := ∃ text, zoneName f.name = some text ∧ ZoneText text zn

/-- The records of a file, as the scanner passes them on. -/
def FileOk (f : File) : Prop := ∀ zn l, NameOf f zn → f.recs = some l → ∀ r ∈ l, RecOk zn r

theorem loadFile_loaded {cfg : Cfg} {f : File} {z' : Zone} (hf : FileOk f) (h : loadFile cfg f = .ok (some z')) :
    ∃ zn l z, NameOf f zn ∧ f.recs = some l ∧ Loaded cfg zn l z z'.root ∧ z'.dname = encode zn true ∧ z.dname = encode zn true ∧
      addAll cfg ⟨encode zn true, .mk true [] []⟩ l = .ok (some z) ∧ postproc cfg z = .ok (some z') := by
  unfold loadFile at h
  cases hn : zoneName f.name with
  | none => rw [hn] at h; cases h
  | some n =>
    rw [hn] at h
    simp only [] at h
    rcases newZone_spec n with ⟨zn, h1, h2⟩ | ⟨-, h2⟩
    · rw [h2, andThen_ok] at h
      cases hr : f.recs with
      | none => rw [hr] at h; cases h
      | some l =>
        rw [hr] at h
        simp only [] at h
        obtain ⟨z, h3, h⟩ := andThen_some h
        have hname : NameOf f zn := ⟨n, hn, h1⟩
        have hrec := hf zn l hname hr
        obtain ⟨i1, i2⟩ := addAll_inv l [] _ z hrec (ZInv_new cfg _) h3
        simp only [] at i1 i2
        rw [List.nil_append] at i1
        obtain ⟨w1, w2, w3⟩ := h1.spec
        obtain ⟨p1, p2, p3⟩ := postproc_parts h
        refine ⟨zn, l, z, hname, rfl, ⟨⟨w1, i2, hrec, ?_⟩, w2, w3, p1, p2, by rw [p3]⟩, by rw [p3]; exact i2, i2, h3, h⟩
        rw [i2]; exact i1
    · rw [h2] at h; cases h

end Gdnsd.Load
