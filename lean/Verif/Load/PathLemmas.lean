import Verif.Load.ChainLemmas
import Verif.Lookup.Props
/-
CNAMEs in loaded zones: no loops.
-/
namespace Gdnsd.Load
open Enc Tree TreeSpec DnameSpec EncSpec LookupSpec LoadSpec

/-- Following some CNAMEs, without having to stop where they end. -/
inductive Path (w : World) (root : Node) (t : Nat) : List Bytes → List (List Bytes × RRset) → List Bytes → Prop
  | here {q} : Path w root t q [] q
  | step {q r d cs e} : Follows w root t q r d → Path w root t d cs e → Path w root t q ((q, r) :: cs) e

theorem Path.append {w : World} {root : Node} {t : Nat} {q e f : List Bytes} {cs ds : List (List Bytes × RRset)}
    (h : Path w root t q cs e) (h' : Path w root t e ds f) : Path w root t q (cs ++ ds) f := by
  induction h with
  | here => exact h'
  | step hf _ ih => exact .step hf (ih h')

theorem Path.chain {w : World} {root : Node} {t : Nat} {q e f : List Bytes} {cs ds : List (List Bytes × RRset)}
    (h : Path w root t q cs e) (h' : Chain w root t e ds f) : Chain w root t q (cs ++ ds) f := by
  induction h with
  | here => exact h'
  | step hf _ ih => exact .step hf (ih h')

theorem chase_path {cfg : Cfg} {zs : List (List Bytes × Node)} {root : Node} (h : Merged zs root) {x : List Bytes × Node}
    (hx : x ∈ zs) {l : List Add} {z : Zone} (hl : Loaded cfg x.1 l z x.2) {w : World} {t : Nat} {d e : List Bytes}
    {cs : List (List Bytes × RRset)} (hc : Path w root t d cs e) : ∀ (k : Nat) (c : Option Node) (s : Option Node × Auth × Option Node)
    (size : Nat) (r : (Option Node × Auth × Option Node) × Nat), WF d → x.1 <:+ d → searchZone z (encode d true) c = .ok s →
    chaseLoop z k s size = .ok (some r) → cs.length ≤ k := by
  induction hc with
  | here => intro k _ _ _ _ _ _ _ _; exact Nat.zero_le _
  | @step q rr d cs e hf hrest ih =>
    intro k c s size r hw hz hs hr
    obtain ⟨y, rfl⟩ := hz
    obtain ⟨m, b, ttl, h1, h2, rfl, h4, h5, h6, h7⟩ := follows_step h hx hl hf
    obtain ⟨h8, h9⟩ := ((search_at hl.zoned hw hs).2 y rfl).1 h7
    have h9 := h9 m h1
    unfold chaseLoop at hr
    rw [h9, cnameAt_of h2] at hr
    simp only [h8, if_true] at hr
    cases k with
    | zero => cases hr
    | succ k =>
      obtain ⟨s', hs', hr⟩ := bind_some hr
      rw [h5] at hs'
      simpa using ih k s.2.2 s' (size + (12 + len b)) r h4 h6 hs' hr

theorem Follows.inZone {zs : List (List Bytes × Node)} {root : Node} (h : Merged zs root)
    {w : World} {t : Nat} {q : List Bytes} {r : RRset} {d : List Bytes} (hf : Follows w root t q r d) :
    ∃ x ∈ zs, x.1 <:+ q := by
  obtain ⟨zn, n, b, h1, -⟩ := hf
  obtain ⟨⟨hs, hc, -⟩, -⟩ := h1
  obtain ⟨m, hm, hmc⟩ := hc
  obtain ⟨x, hx, hxs⟩ := h.cutAt hm hmc
  exact ⟨x, hx, hxs.trans hs⟩

/-- At most 16 CNAMEs can be followed, loops included. -/
theorem path_le {cfg : Cfg} {zs : List (List Bytes × Node)} {root : Node} (h : Merged zs root) (hall : AllLoaded cfg zs)
    {w : World} {t : Nat} {q e : List Bytes} {cs : List (List Bytes × RRset)} (hc : Path w root t q cs e) : cs.length ≤ 16 := by
  cases hc with
  | here => exact Nat.zero_le _
  | @step _ rr d cs' _ hf hrest =>
    obtain ⟨x, hx, y, rfl⟩ := Follows.inZone h hf
    obtain ⟨l, z, hl⟩ := hall x hx
    obtain ⟨m0, b, ttl, h1, h2, rfl, h4, h5, h6, hno0⟩ := follows_step h hx hl hf
    obtain ⟨p, hp, hpy⟩ := HasData_node h1
    obtain ⟨⟨d', p1, p2⟩, -⟩ := hl.phase hp
    obtain ⟨q1, q2, q3, q4⟩ := phase1_parts p1
    obtain ⟨c, M, hch, hM, hb⟩ := q3 b (cnameAt_of h2)
    unfold chaseCname at hch
    obtain ⟨s, hs, hch⟩ := bind_some hch
    obtain ⟨_, -, hch⟩ := andThen_some hch
    obtain ⟨r, hr, hch⟩ := andThen_some hch
    rw [h5] at hs
    have := chase_path h hx hl hrest 15 none s _ r h4 h6 hs hr
    rw [List.length_cons]; omega

/-- So every chain ends. -/
theorem chain_exists {cfg : Cfg} {zs : List (List Bytes × Node)} {root : Node} (h : Merged zs root) (hall : AllLoaded cfg zs)
    (w : World) (t : Nat) (q : List Bytes) : ∃ cs e, Chain w root t q cs e := by
  have key : ∀ k, (∃ cs e, Chain w root t q cs e) ∨ ∃ cs e, Path w root t q cs e ∧ cs.length = k := by
    intro k
    induction k with
    | zero => exact .inr ⟨[], q, .here, rfl⟩
    | succ k ih =>
      rcases ih with ih | ⟨cs, e, hp, hk⟩
      · exact .inl ih
      · rcases Classical.em (∃ r d, Follows w root t e r d) with ⟨r, d, hf⟩ | hn
        · exact .inr ⟨cs ++ [(e, r)], d, hp.append (.step hf .here), by simp [hk]⟩
        · exact .inl ⟨cs ++ [], e, hp.chain (.stop fun r d hf => hn ⟨r, d, hf⟩)⟩
  rcases key 17 with h1 | ⟨cs, e, hp, hk⟩
  · exact h1
  · have := path_le h hall hp
    omega

theorem chain_wf {cfg : Cfg} {zs : List (List Bytes × Node)} {root : Node} (h : Merged zs root) (hall : AllLoaded cfg zs)
    {w : World} {t : Nat} {q e : List Bytes} {cs : List (List Bytes × RRset)} (hc : Chain w root t q cs e) (hq : WF q) : WF e := by
  induction hc with
  | stop => exact hq
  | step hf _ ih =>
    obtain ⟨x, hx, y, rfl⟩ := Follows.inZone h hf
    obtain ⟨l, z, hl⟩ := hall x hx
    obtain ⟨m0, b, ttl, h1, h2, rfl, h4, -⟩ := follows_step h hx hl hf
    exact ih h4

end Gdnsd.Load
