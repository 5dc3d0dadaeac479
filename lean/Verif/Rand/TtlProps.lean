import Verif.Rand.Model
import Verif.Rand.Spec
import Verif.Mon.Bits
/-
C16 (TTL bounds of dynamic and ordinary answers) and C59 (TTLs of SOA and ACME records).
-/
namespace Gdnsd.Ttl
open Spec

/-- The four bytes of a 32-bit number. -/
theorem digits (x : Nat) (h : x < 4294967296) : ∃ a b c d, a < 256 ∧ b < 256 ∧ c < 256 ∧ d < 256 ∧
    x = a + 256 * b + 65536 * c + 16777216 * d :=
  ⟨x % 256, x / 256 % 256, x / 65536 % 256, x / 16777216, by omega, by omega, by omega, by omega, by omega⟩

theorem digits_of (a b c d : Nat) (ha : a < 256) (hb : b < 256) (hc : c < 256) :
    (a + 256 * b + 65536 * c + 16777216 * d) % 256 = a ∧
    (a + 256 * b + 65536 * c + 16777216 * d) / 256 % 256 = b ∧
    (a + 256 * b + 65536 * c + 16777216 * d) / 65536 % 256 = c ∧
    (a + 256 * b + 65536 * c + 16777216 * d) / 16777216 = d := by omega

theorem bswap_digits (x : UInt32) (a b c d : Nat) (ha : a < 256) (hb : b < 256) (hc : c < 256)
    (hd : d < 256) (hx : x.toNat = a + 256 * b + 65536 * c + 16777216 * d) :
    (bswap x).toNat = d + 256 * c + 65536 * b + 16777216 * a := by
  obtain ⟨e1, e2, e3, e4⟩ := digits_of a b c d ha hb hc
  rw [bswap, hx, e1, e2, e3, e4, UInt32.toNat_ofNat']
  omega

theorem bswap_bswap (x : UInt32) : bswap (bswap x) = x := by
  obtain ⟨a, b, c, d, ha, hb, hc, hd, hx⟩ := digits x.toNat x.toNat_lt
  apply UInt32.toNat_inj.mp
  rw [bswap_digits _ d c b a hd hc hb ha (bswap_digits x a b c d ha hb hc hd hx), hx]

theorem be32_put32 (x : UInt32) : be32 (put32 (bswap x)) = some x.toNat := by
  obtain ⟨a, b, c, d, ha, hb, hc, hd, hx⟩ := digits x.toNat x.toNat_lt
  obtain ⟨e1, e2, e3, e4⟩ := digits_of d c b a hd hc hb
  rw [put32, bswap_digits x a b c d ha hb hc hd hx, e1, e2, e3, e4, hx]
  have m : ∀ q, q < 256 → q % 2 ^ 8 = q := fun q hq => Nat.mod_eq_of_lt hq
  simp only [be32, UInt8.toNat_ofNat', Option.some.injEq, m a ha, m b hb, m c hc, m d hd]
  clear e1 e2 e3 e4 m hx
  omega

theorem accepted_facts {g : Cfg} (h : g.accepted = true) :
    g.minTtl.toNat ≤ g.maxTtl.toNat ∧ g.minTtl.toNat ≤ g.maxNcache.toNat ∧
    g.maxTtl.toNat < 2 ^ 28 ∧ g.acmeDnsTtl.toNat ≤ g.maxTtl.toNat := by
  simp only [Cfg.accepted, Bool.and_eq_true, decide_eq_true_eq, Bool.not_eq_true',
    decide_eq_false_iff_not, UInt32.le_iff_toNat_le, UInt32.lt_iff_toNat_lt] at h
  have e1 : (3600 : UInt32).toNat = 3600 := rfl
  have e2 : (268435455 : UInt32).toNat = 268435455 := rfl
  have e3 : (86400 : UInt32).toNat = 86400 := rfl
  rw [e1, e2, e3] at h
  omega

theorem clampTtl_toNat (g : Cfg) (hg : g.accepted = true) (t : UInt32) :
    (clampTtl g t).toNat = clamp g.minTtl.toNat g.maxTtl.toNat t.toNat := by
  have h := accepted_facts hg
  simp only [clampTtl, clamp, GT.gt, UInt32.lt_iff_toNat_lt]
  split
  · omega
  · split <;> omega

/-- C16: the TTL bytes of a dynamic answer.  For every configuration the server accepts,
every pair of TTLs written in the zone file and every TTL a plugin may report, the four
bytes on the wire spell the monitored TTL clamped into the record's interval, where the
record's maximum is its zone-file TTL clamped to the global limits, and its minimum is
the zone-file minimum raised to the global minimum but never above that maximum. -/
theorem C16_dynamic (g : Cfg) (hg : g.accepted = true) (ttl ttlMin sttl : UInt32)
    (hv : Mon.Valid sttl) :
    ∃ v lo hi, dynCallbackTtl sttl (dynTtls g ttl ttlMin).1 (dynTtls g ttl ttlMin).2 = .ok v ∧
      hi = clamp g.minTtl.toNat g.maxTtl.toNat ttl.toNat ∧
      lo = min hi (max g.minTtl.toNat ttlMin.toNat) ∧
      be32 (put32 v) = some (clamp lo hi (Mon.ttl sttl)) ∧
      lo ≤ clamp lo hi (Mon.ttl sttl) ∧ clamp lo hi (Mon.ttl sttl) ≤ hi := by
  have hc := clampTtl_toNat g hg ttl
  have hr : sttl &&& Mon.RESERVED = 0 := (Mon.valid_iff sttl).mp hv
  have hmin : (dynTtls g ttl ttlMin).2.toNat =
      min (clampTtl g ttl).toNat (max g.minTtl.toNat ttlMin.toNat) := by
    simp only [dynTtls, GT.gt, UInt32.lt_iff_toNat_lt]
    split <;> split <;> omega
  have hmax : bswap (dynTtls g ttl ttlMin).1 = clampTtl g ttl := by
    simp only [dynTtls, bswap_bswap]
  have hmax' : (dynTtls g ttl ttlMin).1 = bswap (clampTtl g ttl) := rfl
  have ht := Mon.ttl_eq sttl
  rw [dynCallbackTtl, hr]
  simp only [BEq.rfl, assert_true, Outcome.bind_ok, hmax, GT.gt, UInt32.lt_iff_toNat_lt, ← ht]
  rw [hc] at hmin ⊢
  generalize hH : clamp g.minTtl.toNat g.maxTtl.toNat ttl.toNat = H at *
  generalize hL : min H (max g.minTtl.toNat ttlMin.toNat) = L at *
  split
  · refine ⟨_, L, H, rfl, rfl, hL.symm ▸ rfl, ?_, ?_, ?_⟩
    · rw [hmax', be32_put32, hc]; simp only [clamp]; congr 1; omega
    · simp only [clamp]; omega
    · simp only [clamp]; omega
  · split
    · refine ⟨_, L, H, rfl, rfl, hL.symm ▸ rfl, ?_, ?_, ?_⟩
      · rw [be32_put32, hmin]; simp only [clamp]; congr 1; omega
      · simp only [clamp]; omega
      · simp only [clamp]; omega
    · refine ⟨_, L, H, rfl, rfl, hL.symm ▸ rfl, ?_, ?_, ?_⟩
      · rw [be32_put32, ← ht]; simp only [clamp]; congr 1; omega
      · simp only [clamp]; omega
      · simp only [clamp]; omega

example : (Cfg.mk 3600000 5 10800 0).accepted = true ∧ Mon.Valid 0x80000123 := by decide +kernel

/-- C16: when the monitored TTL lies inside the record's interval it is served unchanged. -/
theorem C16_in_range_unchanged (g : Cfg) (hg : g.accepted = true) (ttl ttlMin sttl : UInt32)
    (hv : Mon.Valid sttl)
    (h1 : min (clamp g.minTtl.toNat g.maxTtl.toNat ttl.toNat) (max g.minTtl.toNat ttlMin.toNat) ≤ Mon.ttl sttl)
    (h2 : Mon.ttl sttl ≤ clamp g.minTtl.toNat g.maxTtl.toNat ttl.toNat) :
    ∃ v, dynCallbackTtl sttl (dynTtls g ttl ttlMin).1 (dynTtls g ttl ttlMin).2 = .ok v ∧
      be32 (put32 v) = some (Mon.ttl sttl) := by
  obtain ⟨v, lo, hi, e1, e2, e3, e4, _, _⟩ := C16_dynamic g hg ttl ttlMin sttl hv
  refine ⟨v, e1, ?_⟩
  rw [e4]
  congr 1
  rw [← e2] at h1 h2
  rw [← e3] at h1
  unfold clamp
  omega

example : min (clamp 5 3600000 300) (max 5 30) ≤ Mon.ttl 60 ∧ Mon.ttl 60 ≤ clamp 5 3600000 300 := by
  decide

theorem rrsetTtl_some (rule : UInt32 → UInt32) (a : UInt32) (ts : List UInt32) :
    rrsetTtl rule (some a) ts = some a := by
  induction ts with
  | nil => rfl
  | cons t ts ih => exact ih

/-- C16: an ordinary rrset (anything but SOA and ACME challenge TXT) is served with the
TTL of its first record clamped to the global limits, whatever the other records say. -/
theorem C16_static (g : Cfg) (hg : g.accepted = true) (t : UInt32) (ts : List UInt32) :
    ∃ v, rrsetTtl (clampTtl g) none (t :: ts) = some v ∧
      be32 (put32 v) = some (clamp g.minTtl.toNat g.maxTtl.toNat t.toNat) ∧
      g.minTtl.toNat ≤ clamp g.minTtl.toNat g.maxTtl.toNat t.toNat ∧
      clamp g.minTtl.toNat g.maxTtl.toNat t.toNat ≤ g.maxTtl.toNat := by
  have h := accepted_facts hg
  refine ⟨bswap (clampTtl g t), ?_, ?_, ?_, ?_⟩
  · rw [rrsetTtl, rrsetTtl_some]
  · rw [be32_put32, clampTtl_toNat g hg]
  · unfold clamp; omega
  · unfold clamp; omega

/-- C16: a TTL a plugin reports survives into the scope-independent part of the answer;
the answer's scope is never narrower than what the plugin asked for. -/
theorem C16_scope (dr client : Nat) : dynCallbackScope dr client = max dr client := by
  unfold dynCallbackScope; split <;> omega

/-- C59 (true part): the SOA's TTL never exceeds its own negative-cache field, and both
lie between the global minimum and `max_ncache_ttl`. -/
theorem C59_soa_partial (g : Cfg) (hg : g.accepted = true) (ttl ncache : UInt32) :
    (soaTtls g ttl ncache).2.toNat = clamp g.minTtl.toNat g.maxNcache.toNat ncache.toNat ∧
    (soaTtls g ttl ncache).1.toNat = clamp g.minTtl.toNat (soaTtls g ttl ncache).2.toNat ttl.toNat ∧
    g.minTtl.toNat ≤ (soaTtls g ttl ncache).1.toNat ∧
    (soaTtls g ttl ncache).1.toNat ≤ (soaTtls g ttl ncache).2.toNat ∧
    (soaTtls g ttl ncache).2.toNat ≤ g.maxNcache.toNat := by
  have h := accepted_facts hg
  have hn : (soaTtls g ttl ncache).2.toNat = clamp g.minTtl.toNat g.maxNcache.toNat ncache.toNat := by
    simp only [soaTtls, clamp, GT.gt, UInt32.lt_iff_toNat_lt]
    split
    · omega
    · split <;> omega
  have ht : (soaTtls g ttl ncache).1 = (if ttl > (soaTtls g ttl ncache).2 then (soaTtls g ttl ncache).2
      else if ttl < g.minTtl then g.minTtl else ttl) := rfl
  have hb : g.minTtl.toNat ≤ (soaTtls g ttl ncache).2.toNat ∧
      (soaTtls g ttl ncache).2.toNat ≤ g.maxNcache.toNat := by
    rw [hn]; unfold clamp; omega
  refine ⟨hn, ?_⟩
  rw [ht]
  generalize (soaTtls g ttl ncache).2 = N at *
  simp only [clamp, GT.gt, UInt32.lt_iff_toNat_lt]
  split
  · omega
  · split <;> omega

/-- C59 (true part): an ACME challenge TXT record is served with exactly the configured
`acme_challenge_dns_ttl`, which never exceeds the global maximum; every other TXT record
is clamped like any ordinary record. -/
theorem C59_txt_partial (g : Cfg) (hg : g.accepted = true) (acme : Bool) (ttl : UInt32) :
    (txtTtl g acme ttl).toNat =
      (if acme then g.acmeDnsTtl.toNat else clamp g.minTtl.toNat g.maxTtl.toNat ttl.toNat) ∧
    (txtTtl g acme ttl).toNat ≤ g.maxTtl.toNat := by
  have h := accepted_facts hg
  have hc := clampTtl_toNat g hg ttl
  cases acme with
  | false =>
    simp only [txtTtl, Bool.false_eq_true, if_false, hc]
    refine ⟨trivial, ?_⟩
    unfold clamp; omega
  | true =>
    simp only [txtTtl, if_true]
    split
    · exact ⟨rfl, h.2.2.2⟩
    · rename_i he
      have he : ttl = g.acmeDnsTtl := Decidable.not_not.mp he
      rw [he]; exact ⟨rfl, h.2.2.2⟩

/-- C59 is false as stated: with `max_ttl = 3600` and the default `max_ncache_ttl`, a SOA
with TTL 10800 is served with 10800, above the documented global maximum. -/
theorem C59_false_soa : ∃ (g : Cfg) (ttl ncache : UInt32), g.accepted = true ∧
    g.maxTtl.toNat < (soaTtls g ttl ncache).1.toNat :=
  ⟨Cfg.mk 3600 5 10800 0, 10800, 10800, by decide +kernel, by decide +kernel⟩

/-- C59 is false as stated: an ACME challenge TXT record is served below `min_ttl`. -/
theorem C59_false_acme : ∃ (g : Cfg) (ttl : UInt32), g.accepted = true ∧
    (txtTtl g true ttl).toNat < g.minTtl.toNat :=
  ⟨Cfg.mk 3600000 5 10800 0, 300, by decide +kernel, by decide +kernel⟩

end Gdnsd.Ttl
