/-
Lemmas on the records of zone files: they are what the loader expects.
-/
import Verif.Zscan.Spec
import Verif.Enc.RrLemmas2
import Verif.Enc.StoreLemmas
import Verif.Lookup.ChaseLemmas
import Verif.Load.ReplySpec
namespace Gdnsd.ZscanSpec
open DnameSpec LookupSpec EncSpec LoadSpec Enc Lookup
open Load (Rdata Add)
open Zscan (Cfg)

/-- All names are legal and in lower case. -/
structure Sane (c : Ctx) : Prop where
  wz : WF c.zone
  lz : lowerName c.zone = c.zone
  lo : lowerName c.origin = c.origin
  lf : lowerName c.fileOrigin = c.fileOrigin
  wown : WF c.owner

theorem lowerName_dropLast {ls : List Bytes} (h : lowerName ls = ls) : lowerName ls.dropLast = ls.dropLast := by
  unfold lowerName at h ⊢
  rw [List.map_dropLast, h]

theorem resolves_ok {c : Ctx} (hc : Sane c) {t : Bytes} {n : List Bytes} (h : Resolves c t n) : WF n ∧ lowerName n = n := by
  obtain ⟨ls, q, _, _, hw, h⟩ := h
  refine ⟨hw, ?_⟩
  have hi := lowerName_idem ls
  split at h
  · rw [h]; exact hi
  · split at h
    · rw [h]; exact hc.lo
    · split at h
      · rw [h, lowerName_append, lowerName_dropLast hi, hc.lz]
      · split at h
        · rw [h, lowerName_append, lowerName_dropLast hi, hc.lf]
        · rw [h.2, lowerName_append, hi, hc.lo]

theorem name_ok {c : Ctx} (hc : Sane c) {w d : Bytes} (h : Name c w d) : NameOk d ∧ lowerName (labelsOf d) = labelsOf d := by
  obtain ⟨_, t, n, _, _, hr, rfl⟩ := h
  obtain ⟨h1, h2⟩ := resolves_ok hc hr
  exact ⟨⟨n, h1, rfl⟩, by rw [labelsOf_encode n h1]; exact h2⟩

/-- The numbers of a generic record fit. -/
def RawOk (r : Add) : Prop := ∀ t d, r.data = .raw t d → t.toNat < 65536 ∧ d.length < 65536

/-- What `inet_pton` promises. -/
def PtonOk (cfg : Cfg) : Prop := (∀ w b, cfg.pton4 w = some b → b.length = 4) ∧ ∀ w b, cfg.pton6 w = some b → b.length = 16

theorem data_ok {cfg : Cfg} (hp : PtonOk cfg) {c : Ctx} (hc : Sane c) {m : UInt32} {k : String} {fs : List Bytes} {dyn : Bool} {d : Rdata}
    (h : Data cfg c m k fs dyn d) {o : List Bytes} (ho : if outside c then o = c.owner else c.owner = o ++ c.zone) :
    DataOk o d ∧ Load.isOoz d = decide (outside c) := by
  cases h with
  | a h => exact ⟨hp.1 _ _ h.2.2.2, rfl⟩
  | aaaa h => exact ⟨hp.2 _ _ h.2.2.2, rfl⟩
  | ns h hx => exact ⟨(name_ok hc h).1, (decide_eq_false hx).symm⟩
  | cname h hx => exact ⟨name_ok hc h, (decide_eq_false hx).symm⟩
  | ptr h hx => exact ⟨(name_ok hc h).1, (decide_eq_false hx).symm⟩
  | mx _ h hx => exact ⟨(name_ok hc h).1, (decide_eq_false hx).symm⟩
  | srv _ _ _ h hx => exact ⟨(name_ok hc h).1, (decide_eq_false hx).symm⟩
  | naptr _ _ _ _ _ h hx => exact ⟨(name_ok hc h).1, (decide_eq_false hx).symm⟩
  | soa h1 h2 _ _ _ _ _ hx =>
    have hn : ¬ outside c := by simp [outside, hx]
    rw [if_neg hn, hx] at ho
    refine ⟨⟨(name_ok hc h1).1, (name_ok hc h2).1, ?_⟩, (decide_eq_false hn).symm⟩
    have := congrArg List.length ho
    simp only [List.length_append] at this
    exact List.length_eq_zero_iff.mp (by omega)
  | caa _ hf ht _ _ hl hx =>
    refine ⟨⟨by decide, ?_⟩, (decide_eq_false hx).symm⟩
    have := ht.2.2
    simp only [List.length_cons, List.length_append]
    omega
  | dyna _ hx => exact ⟨trivial, (decide_eq_false hx).symm⟩
  | dync _ hx => exact ⟨trivial, (decide_eq_false hx).symm⟩

theorem rhs_ok {cfg : Cfg} (hp : PtonOk cfg) {c : Ctx} (hc : Sane c) {m : UInt32} {s : Bytes} {dyn : Bool} {d : Rdata}
    (h : Rhs cfg c m s dyn d) {o : List Bytes} (ho : if outside c then o = c.owner else c.owner = o ++ c.zone) :
    (DataOk o d ∨ ∃ t rd, d = .raw t rd) ∧ Load.isOoz d = decide (outside c) := by
  cases h with
  | fixed _ _ _ hd => exact ⟨.inl (data_ok hp hc hd ho).1, (data_ok hp hc hd ho).2⟩
  | txt _ _ _ _ hx => exact ⟨.inl trivial, (decide_eq_false hx).symm⟩
  | txtNone _ _ _ hx => exact ⟨.inl trivial, (decide_eq_false hx).symm⟩
  | generic _ _ _ _ _ _ _ _ _ hx => exact ⟨.inr ⟨_, _, rfl⟩, (decide_eq_false hx).symm⟩

/-- A record as the loader expects it, up to the numbers of generic records. -/
def Loose (zone : List Bytes) (r : Add) : Prop :=
  RecOk zone r ∨ ∃ o t rd, r.dname = encode o true ∧ WF (o ++ zone) ∧ r.data = .raw t rd

theorem record_ok {cfg : Cfg} (hp : PtonOk cfg) {c : Ctx} (hc : Sane c) {s : Bytes} {r : Add} (h : Record cfg c s r) : Loose c.zone r := by
  cases h with
  | mk hpre hr hs ho =>
    rename_i p v m sl s dyn d o
    obtain ⟨h1, h2⟩ := rhs_ok hp hc hr ho
    have hown : if Load.isOoz d then WF o ∧ ¬ c.zone <:+ o else WF (o ++ c.zone) := by
      rw [h2]
      by_cases hx : outside c
      · rw [if_pos hx] at ho
        simp only [hx, decide_true, if_true]
        subst ho
        exact ⟨hc.wown, hx⟩
      · rw [if_neg hx] at ho
        simp only [hx, decide_false, Bool.false_eq_true, if_false]
        rw [← ho]; exact hc.wown
    rcases h1 with h1 | ⟨t, rd, rfl⟩
    · exact .inl ⟨o, rfl, h1, hown⟩
    · exact .inr ⟨o, t, rd, rfl, by simpa [Load.isOoz] using hown, rfl⟩

theorem statement_ok {cfg : Cfg} (hp : PtonOk cfg) {I : Bytes → List Bytes → UInt32 → List Add → Prop} {c c' : Ctx} (hc : Sane c) (hwo : WF c.origin)
    (hI : ∀ p n ttl l, WF n → lowerName n = n → I p n ttl l → ∀ r ∈ l, Loose c.zone r) {t : Bytes} {may : Bool} {l : List Add}
    (h : Statement cfg I c t may c' l) : (∀ r ∈ l, Loose c.zone r) ∧ Sane c' ∧ WF c'.origin ∧ c'.zone = c.zone := by
  have name_enc : ∀ {u : Bytes} {n : List Bytes}, WF n → Name c u (encode n true) → lowerName n = n := by
    intro u n hw h
    have := (name_ok hc h).2
    rwa [labelsOf_encode n hw] at this
  cases h with
  | empty => exact ⟨nofun, hc, hwo, rfl⟩
  | again _ hr =>
    exact ⟨fun r h => by rw [List.mem_singleton.mp h]; exact record_ok hp hc hr, hc, hwo, rfl⟩
  | owner ho hb hr =>
    rename_i w n b s r
    have hn : WF n := by
      obtain ⟨_, u, _, hn⟩ := ho
      by_cases hu : u = []
      · rw [if_pos hu] at hn; rw [hn]; exact hwo
      · rw [if_neg hu] at hn; exact (resolves_ok hc hn).1
    have hc' : Sane { c with owner := n } := ⟨hc.wz, hc.lz, hc.lo, hc.lf, hn⟩
    exact ⟨fun r h => by rw [List.mem_singleton.mp h]; exact record_ok hp hc' hr, hc', hwo, rfl⟩
  | ttl _ _ _ => exact ⟨nofun, ⟨hc.wz, hc.lz, hc.lo, hc.lf, hc.wown⟩, hwo, rfl⟩
  | origin _ _ hn hw _ => exact ⟨nofun, ⟨hc.wz, hc.lz, name_enc hw hn, hc.lf, hc.wown⟩, hw, rfl⟩
  | incl _ _ _ _ _ _ h => exact ⟨hI _ _ _ _ hwo hc.lo h, hc, hwo, rfl⟩
  | inclOrigin _ _ _ _ _ _ _ hn hw _ h => exact ⟨hI _ _ _ _ hw (name_enc hw hn) h, hc, hwo, rfl⟩

theorem lines_ok {cfg : Cfg} (hp : PtonOk cfg) {I : Bytes → List Bytes → UInt32 → List Add → Prop} {zone : List Bytes}
    (hI : ∀ p n ttl l, WF n → lowerName n = n → I p n ttl l → ∀ r ∈ l, Loose zone r) {c : Ctx} {s : Bytes} {l : List Add}
    (h : Lines cfg I c s l) (hz : c.zone = zone) (hc : Sane c) (hwo : WF c.origin) : ∀ r ∈ l, Loose zone r := by
  induction h with
  | nil => nofun
  | cons hst _ _ ih =>
    obtain ⟨h1, h2, h3, h4⟩ := statement_ok hp hc hwo (by rw [hz]; exact hI) hst
    intro r hr
    rcases List.mem_append.mp hr with hr | hr
    · rw [← hz]; exact h1 r hr
    · exact ih (h4.trans hz) h2 h3 r hr

theorem holds_ok {cfg : Cfg} (hp : PtonOk cfg) {zone : List Bytes} (hz : WF zone) (lz : lowerName zone = zone) (depth : Nat) {fn : Bytes} {origin : List Bytes}
    (ho : WF origin) (lo : lowerName origin = origin) {ttl : UInt32} {l : List Add} (h : Holds cfg zone depth fn origin ttl l) : ∀ r ∈ l, Loose zone r := by
  induction depth generalizing fn origin ttl l with
  | zero => exact h.elim
  | succ depth ih =>
    obtain ⟨text, out, _, _, _, _, h⟩ := h
    exact lines_ok hp (fun p n ttl l hw hl h => ih hw hl h) h rfl ⟨hz, lz, lo, lo, hz⟩ ho

end Gdnsd.ZscanSpec
