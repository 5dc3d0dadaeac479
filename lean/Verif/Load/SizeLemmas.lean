import Verif.Load.DbLemmas
/-
Sizes of replies and lengths of CNAME chains, from the checks made while loading.
-/
namespace Gdnsd.Load
open Enc Tree TreeSpec DnameSpec EncSpec LookupSpec LoadSpec

/-! ### Sizes -/

theorem len_encode {ls : List Bytes} (h : WF ls) : len (encode ls true) = wireLen ls := by
  show (UInt8.ofNat (wireLen ls)).toNat = wireLen ls
  rw [UInt8.toNat_ofNat']; have := h.2; omega

theorem len_name {d : Bytes} (h : NameOk d) : len d = nameLen d := by
  obtain ⟨ls, hw, rfl⟩ := h
  rw [len_encode hw]
  unfold nameLen
  rw [labelsOf_encode ls hw]

theorem nameLen_le {d : Bytes} (h : NameOk d) : nameLen d ≤ 255 := by
  obtain ⟨ls, hw, rfl⟩ := h
  unfold nameLen
  rw [labelsOf_encode ls hw]
  exact hw.2

theorem sum_congr {α : Type} {l : List α} {f g : α → Nat} (h : ∀ x ∈ l, f x = g x) : (l.map f).sum = (l.map g).sum := by
  rw [List.map_congr_left h]

theorem glueBytes_eq (n : Nat) (g : Option Glue) : glueBytes n g = glueSize n g := by cases g <;> rfl

theorem hasLayout_of {t : Nat} (h : noGeneric t = false) : hasLayout t = false := by
  unfold noGeneric at h
  unfold hasLayout
  rw [Bool.or_eq_false_iff] at h
  have := h.1
  simp only [List.contains_eq_mem, List.mem_cons, List.not_mem_nil, or_false, decide_eq_false_iff_not, not_or] at this ⊢
  omega

/-- The loader's size of a set is not below what the set may take in a reply. -/
theorem setSize_le {cfg : Cfg} {resolve : Nat → DynRes} (hpl : PlugOk cfg resolve) {zone : List Bytes} {l : List Add} {z : Zone}
    (h : Zoned cfg zone l z) {r r' : RRset} {d : Bool} {s : Nat} (hs : SetOk cfg r) (hp : procSet z r = .ok (some r'))
    (hz : setSize cfg d r' = .ok s) (hd : d = false ∨ r.type = 2) : rrSize resolve (withGlue z r) ≤ s := by
  rw [withGlue_eq hp]
  obtain ⟨ttl, b⟩ := r
  unfold procSet at hp
  cases b with
  | ns ns =>
    obtain ⟨ns', h1, h2⟩ := andThen_some (show andThen (procNsList z ns) _ = _ from hp)
    cases h2
    obtain ⟨s1, s2, s3⟩ := hs
    obtain ⟨-, i2⟩ := procNsList_spec h ns ns' (fun x hx => (s3 x hx).1) h1
    cases hz
    refine Nat.le_of_eq (sum_congr fun x hx => ?_)
    rw [len_name (i2 x hx).1, glueBytes_eq, glueBytes_eq]
  | dync a b => cases hp; cases hz; exact Nat.zero_le _
  | a l =>
    cases hp
    rcases hd with rfl | hd
    · cases hz; exact Nat.le_refl _
    · simp [RRset.type, Body.type] at hd
  | aaaa l =>
    cases hp
    rcases hd with rfl | hd
    · cases hz; exact Nat.le_refl _
    · simp [RRset.type, Body.type] at hd
  | dynA res m =>
    cases hp; cases hz
    obtain ⟨rhs, hr⟩ := hs
    exact (hpl.dyna rhs res hr).2.1
  | dynAAAA res m =>
    cases hp; cases hz
    obtain ⟨rhs, hr⟩ := hs
    exact (hpl.dyna rhs res hr).2.2
  | soa m n t =>
    cases hp; cases hz
    obtain ⟨h1, h2, -⟩ := hs
    show 12 + nameLen m + nameLen n + 20 ≤ 12 + len m + len n + 20
    rw [len_name h1, len_name h2]; exact Nat.le_refl _
  | cname d => cases hp; cases hz
  | ptr l => cases hp; cases hz; exact Nat.le_of_eq (sum_congr fun x hx => by rw [len_name (hs x hx)])
  | mx l => cases hp; cases hz; exact Nat.le_of_eq (sum_congr fun x hx => by rw [len_name (hs x hx).2])
  | srv l => cases hp; cases hz; exact Nat.le_of_eq (sum_congr fun x hx => by rw [len_name (hs x hx).2])
  | naptr l => cases hp; cases hz; exact Nat.le_of_eq (sum_congr fun x hx => by rw [len_name (hs x hx).2])
  | txt l => cases hp; cases hz; exact Nat.le_refl _
  | raw t l =>
    cases hp
    have hg : hasLayout t = false := hasLayout_of hs.2
    simp only [setSize, hg, cond_false] at hz
    cases hz; exact Nat.le_refl _

theorem filter_unique {rrs : List RRset} (hn : (rrs.map RRset.type).Nodup) {f : RRset → Nat} {M t : Nat}
    (h : ∀ r ∈ rrs, r.type = t → f r ≤ M) : ((rrs.filter fun r => r.type == t).map f).sum ≤ M := by
  induction rrs with
  | nil => simp
  | cons r rest ih =>
    rw [List.map_cons, List.nodup_cons] at hn
    by_cases ht : r.type = t
    · have : (rest.filter fun r => r.type == t) = [] := by
        rw [List.filter_eq_nil_iff]
        intro x hx e
        have e := beq_iff_eq.mp e
        exact hn.1 (List.mem_map.mpr ⟨x, hx, e.trans ht.symm⟩)
      rw [List.filter_cons_of_pos (by simpa using ht), this]
      simpa using h r List.mem_cons_self ht
    · rw [List.filter_cons_of_neg (by simpa using ht)]
      exact ih hn.2 (fun x hx => h x (List.mem_cons_of_mem _ hx))

/-- A name's own records are within the sizes of its sets, or within what a DYNC may give. -/
theorem ownSize_le {cfg : Cfg} {w : World} (hpl : PlugOk cfg w.resolve) {zone : List Bytes} {l : List Add} {z : Zone}
    (h : Zoned cfg zone l z) {x : List Bytes} {m : Node} (hm : nodeAt z.root x = some m) {d : Bool}
    (hp : phase1 cfg z m x d = .ok (some ())) {t M : Nat}
    (hM : cnameAt (some m) = none → ∀ r ∈ m.rrs, r.type = t → rrSize w.resolve (withGlue z r) ≤ M) :
    ownSize w t (m.rrs.map (withGlue z)) ≤ max M 10080 := by
  have hinv := h.node hm
  obtain ⟨-, p2, -, -⟩ := phase1_parts hp
  rcases kinds hinv p2 with ⟨ttl, b, hr⟩ | ⟨ttl, res, mn, hr⟩ | hk
  · rw [hr, List.map_cons, List.map_nil, withGlue_of_not_ns (by simp)]
    have := nameLen_le (hinv.ok ⟨ttl, .cname b⟩ (by rw [hr]; exact List.mem_cons_self)).1
    simp only [ownSize]
    omega
  · rw [hr, List.map_cons, List.map_nil, withGlue_of_not_ns (by simp)]
    obtain ⟨rhs, o, hres⟩ := hinv.ok ⟨ttl, .dync res mn⟩ (by rw [hr]; exact List.mem_cons_self)
    obtain ⟨-, b, -, -, e, f⟩ := hpl.dync rhs o res hres
    simp only [ownSize]
    cases hc : (w.resolve res).cname with
    | some dn => have := nameLen_le (b dn hc); simp only []; omega
    | none => simp only []; split <;> (try split) <;> omega
  · have hg := hM (cnameAt_none fun r hr => (hk r hr).1)
    have hdef : ownSize w t (m.rrs.map (withGlue z)) =
        (((m.rrs.map (withGlue z)).filter fun r => r.type == t).map (rrSize w.resolve)).sum := by
      have hno : ∀ r ∈ m.rrs.map (withGlue z), (∀ c, r.body ≠ .cname c) ∧ ∀ a b, r.body ≠ .dync a b := by
        intro r hr
        obtain ⟨r0, h0, rfl⟩ := List.mem_map.mp hr
        by_cases hns : ∃ l, r0.body = .ns l
        · obtain ⟨l, hl⟩ := hns
          have := withGlue_type z r0
          unfold RRset.type at this
          rw [hl] at this
          constructor
          · intro c e; rw [e] at this; cases this
          · intro a b e; rw [e] at this; cases this
        · rw [withGlue_of_not_ns (fun l e => hns ⟨l, e⟩)]
          exact hk r0 h0
      unfold ownSize
      split
      · next a res b hl => exact absurd rfl ((hno ⟨a, .dync res b⟩ (by rw [hl]; exact List.mem_cons_self)).2 res b)
      · next a c hl => exact absurd rfl ((hno ⟨a, .cname c⟩ (by rw [hl]; exact List.mem_cons_self)).1 c)
      · rfl
    rw [hdef]
    refine Nat.le_trans (filter_unique ?_ (M := M) ?_) (Nat.le_max_left _ _)
    · rw [List.map_map, show (RRset.type ∘ withGlue z) = RRset.type from funext fun r => withGlue_type z r]
      exact hinv.types
    · intro r hr ht
      obtain ⟨r0, h0, rfl⟩ := List.mem_map.mp hr
      rw [withGlue_type] at ht
      exact hg r0 h0 ht

end Gdnsd.Load
