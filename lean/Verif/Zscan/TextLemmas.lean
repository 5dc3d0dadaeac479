/-
Lemmas on the strings of TXT data, and on the depth of includes.
-/
import Verif.Zscan.SafeLemmas
namespace Gdnsd.Zscan
open ZscanSpec DnameSpec LookupSpec EncSpec Dname Load

theorem split_parts {t s : Bytes} (h : Split t s) : t ≠ [] ∧ ∃ ps, Parts t ps ∧ s = strings ps := by
  induction h with
  | last h0 hl =>
    rename_i t
    exact ⟨h0, [t], ⟨by simp, by simp, by simp, by intro p hp; simp at hp; subst hp; exact ⟨hl, id⟩⟩, by simp [strings]⟩
  | cons ha _ ih =>
    rename_i a t r _
    obtain ⟨h0, ps, ⟨p1, p2, p3, p4⟩, rfl⟩ := ih
    refine ⟨by simp [h0], a :: ps, ⟨by simp, by simp [p2], ?_, ?_⟩, ?_⟩
    · rw [List.dropLast_cons_of_ne_nil p1]
      intro p hp
      rcases List.mem_cons.mp hp with rfl | hp
      · exact ha
      · exact p3 p hp
    · intro p hp
      rw [List.getLast?_cons_of_ne_nil p1] at hp
      refine ⟨(p4 p hp).1, fun he => absurd ((p4 p hp).2 he) h0⟩
    · simp [strings, ha]

theorem parts_split {t : Bytes} {ps : List Bytes} (h : Parts t ps) (ht : t ≠ []) : Split t (strings ps) := by
  induction ps generalizing t with
  | nil => exact absurd rfl h.1
  | cons a ps ih =>
    obtain ⟨h1, h2, h3, h4⟩ := h
    cases ps with
    | nil =>
      simp only [List.flatten_cons, List.flatten_nil, List.append_nil] at h2
      subst h2
      have := (h4 a rfl).1
      simpa [strings] using Split.last ht this
    | cons b ps =>
      have ha : a.length = 255 := h3 a (by simp)
      have hne : (b :: ps).flatten ≠ [] := by
        intro he
        have hall : ∀ p ∈ b :: ps, p = [] := by
          intro p hp
          have := List.flatten_eq_nil_iff.mp he
          exact this p hp
        have hl : (a :: b :: ps).getLast? = some ((b :: ps).getLast (by simp)) := by
          rw [List.getLast?_cons_of_ne_nil (by simp), List.getLast?_eq_some_getLast (by simp)]
        have hp := hall _ (List.getLast_mem (by simp : b :: ps ≠ []))
        exact ht ((h4 _ hl).2 hp)
      have hs := ih (t := (b :: ps).flatten) ⟨by simp, rfl, fun p hp => h3 p (by
          rw [List.dropLast_cons_of_ne_nil (by simp)]; exact List.mem_cons_of_mem _ hp), fun p hp => by
          have := h4 p (by rw [List.getLast?_cons_of_ne_nil (by simp)]; exact hp)
          exact ⟨this.1, fun he => absurd (this.2 he) ht⟩⟩ hne
      have := Split.cons ha hs
      rw [← h2]
      simpa [strings, ha] using this

theorem parts_short {o : Bytes} (h : o.length ≤ 255) (ps : List Bytes) : Parts o ps ↔ ps = [o] := by
  constructor
  · rintro ⟨h1, h2, h3, h4⟩
    cases ps with
    | nil => exact absurd rfl h1
    | cons a ps =>
      cases ps with
      | nil => simp at h2; rw [h2]
      | cons b ps =>
        have ha : a.length = 255 := h3 a (by simp)
        have hf : (b :: ps).flatten = [] := by
          have := congrArg List.length h2
          rw [List.flatten_cons, List.length_append] at this
          exact List.length_eq_zero_iff.mp (by omega)
        have hl : (a :: b :: ps).getLast? = some ((b :: ps).getLast (by simp)) := by
          rw [List.getLast?_cons_of_ne_nil (by simp), List.getLast?_eq_some_getLast (by simp)]
        have hp := List.flatten_eq_nil_iff.mp hf _ (List.getLast_mem (by simp : b :: ps ≠ []))
        have := (h4 _ hl).2 hp
        subst this
        have := congrArg List.length h2
        simp [ha] at this
  · rintro rfl
    exact ⟨by simp, by simp, by simp, by intro p hp; simp at hp; subst hp; exact ⟨h, id⟩⟩

theorem tok_parts (cfg : Cfg) (big : Bool) (text t out : Bytes) :
    addTok cfg big text t = .ok (some out) ↔
      ∃ o ps, DnameSpec.Unesc t o ∧ Parts o ps ∧ out = text ++ strings ps ∧ out.length ≤ 16000 ∧ (255 < o.length → big = true ∧ cfg.noSplit = false) := by
  rw [addTok_some]
  constructor
  · rintro ⟨o, s, h1, h2, h3, h4⟩
    rcases h4 with ⟨h4, rfl⟩ | ⟨h4, _, h6, h7, h8⟩
    · exact ⟨o, [o], h1, (parts_short h4 _).mpr rfl, by simp [h2, strings], h3, fun h => absurd h (by omega)⟩
    · obtain ⟨_, ps, h9, rfl⟩ := split_parts h8
      exact ⟨o, ps, h1, h9, h2, h3, fun _ => ⟨h6, h7⟩⟩
  · rintro ⟨o, ps, h1, h2, h3, h4, h5⟩
    by_cases hl : 255 < o.length
    · have ho : o ≠ [] := by rintro rfl; simp at hl
      have hs := parts_split h2 ho
      refine ⟨o, strings ps, h1, h3, h4, .inr ⟨hl, ?_, (h5 hl).1, (h5 hl).2, hs⟩⟩
      have : o.length ≤ (strings ps).length := by
        rw [← h2.2.1]
        clear h1 h2 h3 h4 h5 hl ho hs
        induction ps with
        | nil => simp [strings]
        | cons a ps ih =>
          simp only [strings] at ih
          simp only [strings, List.flatMap_cons, List.length_append, List.flatten_cons, List.length_cons]
          omega
      rw [h3, List.length_append] at h4
      omega
    · rw [parts_short (by omega)] at h2
      subst h2
      exact ⟨o, _, h1, h3, h4, .inl ⟨by omega, by simp [strings]⟩⟩

theorem toks_parts (cfg : Cfg) (big : Bool) (text : Bytes) (ts : List Bytes) (out : Bytes) (ht : text.length ≤ 16000) :
    addToks cfg big text ts = .ok (some out) ↔
      ∃ os pss, Texts ts os ∧ List.length pss = os.length ∧ (∀ x ∈ os.zip pss, Parts x.1 x.2) ∧ out = text ++ strings pss.flatten ∧ out.length ≤ 16000 ∧
        ∀ o ∈ os, 255 < o.length → big = true ∧ cfg.noSplit = false := by
  induction ts generalizing text with
  | nil =>
    simp only [addToks, Outcome.ok.injEq, Option.some.injEq]
    constructor
    · rintro rfl
      exact ⟨[], [], .nil, rfl, by simp, by simp [strings], ht, by simp⟩
    · rintro ⟨os, pss, h1, h2, _, h4, _⟩
      cases h1
      have : pss = [] := List.length_eq_zero_iff.mp h2
      subst this
      simpa [strings] using h4.symm
  | cons t ts ih =>
    simp only [addToks]
    rw [andThen_some]
    constructor
    · rintro ⟨x, h1, h2⟩
      obtain ⟨o, ps, a1, a2, a3, a4, a5⟩ := (tok_parts ..).mp h1
      obtain ⟨os, pss, b1, b2, b3, b4, b5, b6⟩ := (ih x a4).mp h2
      refine ⟨o :: os, ps :: pss, .cons a1 b1, by simp [b2], ?_, ?_, b5, ?_⟩
      · intro y hy
        rw [List.zip_cons_cons] at hy
        rcases List.mem_cons.mp hy with rfl | hy
        · exact a2
        · exact b3 y hy
      · rw [b4, a3]; simp [strings]
      · intro y hy
        rcases List.mem_cons.mp hy with rfl | hy
        · exact a5
        · exact b6 y hy
    · rintro ⟨os, pss, h1, h2, h3, h4, h5, h6⟩
      cases h1 with
      | cons hu hts =>
        rename_i o os
        cases pss with
        | nil => simp at h2
        | cons ps pss =>
          have hout : out = (text ++ strings ps) ++ strings pss.flatten := by rw [h4]; simp [strings]
          have hlen : (text ++ strings ps).length ≤ 16000 := by
            rw [hout, List.length_append] at h5; omega
          refine ⟨text ++ strings ps, (tok_parts ..).mpr ⟨o, ps, hu, h3 (o, ps) (by simp), rfl, hlen, h6 o (by simp)⟩, ?_⟩
          exact (ih _ hlen).mpr ⟨os, pss, hts, by simpa using h2, fun x hx => h3 x (by simp [hx]), hout, h5, fun y hy => h6 y (by simp [hy])⟩

theorem toks_safe (cfg : Cfg) (big : Bool) (text : Bytes) (ts : List Bytes) : addToks cfg big text ts ≠ .ub := by
  induction ts generalizing text with
  | nil => simp [addToks]
  | cons t ts ih =>
    simp only [addToks]
    intro h
    rcases andThen_ub.mp h with h | ⟨_, _, h⟩
    · exact addTok_safe _ _ _ _ h
    · exact ih _ h

/-! ### Depth -/

theorem statement_mono {cfg : Cfg} {I J : Bytes → List Bytes → UInt32 → List Add → Prop} (hIJ : ∀ p n ttl l, I p n ttl l → J p n ttl l) {c c' : Ctx} {t : Bytes}
    {may : Bool} {l : List Add} (h : Statement cfg I c t may c' l) : Statement cfg J c t may c' l := by
  cases h with
  | empty => exact .empty
  | again a b => exact .again a b
  | owner a b c => exact .owner a b c
  | ttl a b c => exact .ttl a b c
  | origin a b c d e => exact .origin a b c d e
  | incl a b c d e f g => exact .incl a b c d e f (hIJ _ _ _ _ g)
  | inclOrigin a b c d e f g h i j k => exact .inclOrigin a b c d e f g h i j (hIJ _ _ _ _ k)

theorem lines_mono {cfg : Cfg} {I J : Bytes → List Bytes → UInt32 → List Add → Prop} (hIJ : ∀ p n ttl l, I p n ttl l → J p n ttl l) {c : Ctx} {s : Bytes}
    {l : List Add} (h : Lines cfg I c s l) : Lines cfg J c s l := by
  induction h with
  | nil => exact .nil
  | cons a b _ ih => exact .cons (statement_mono hIJ a) b ih

theorem holds_succ {cfg : Cfg} {zone : List Bytes} {d : Nat} : ∀ {fn : Bytes} {origin : List Bytes} {ttl : UInt32} {l : List Add},
    Holds cfg zone d fn origin ttl l → Holds cfg zone (d + 1) fn origin ttl l := by
  induction d with
  | zero => intro _ _ _ _ h; exact h.elim
  | succ d ih =>
    rintro fn origin ttl l ⟨text, out, h1, h2, h3, h4, h5⟩
    exact ⟨text, out, h1, h2, h3, h4, lines_mono (fun p n ttl l h => ih h) h5⟩

theorem holds_mono {cfg : Cfg} {zone : List Bytes} {d d' : Nat} (hd : d ≤ d') {fn : Bytes} {origin : List Bytes} {ttl : UInt32} {l : List Add}
    (h : Holds cfg zone d fn origin ttl l) : Holds cfg zone d' fn origin ttl l := by
  induction hd with
  | refl => exact h
  | step _ ih => exact holds_succ ih

end Gdnsd.Zscan
