/-
PROXY protocol headers as the protocol defines them.
-/
import Verif.Proxy.Model
namespace Gdnsd.Proxy

/-- A text without spaces, carriage returns and NUL. -/
def Word (w : Bytes) : Prop := ∀ x ∈ w, x ≠ 32 ∧ x ≠ 13 ∧ x ≠ 0

/-- A version 1 header line without its CRLF, of at least 16 characters. The last word is not
looked at. -/
def Line (proto src dst sport dport : Bytes) : Bytes := [80, 82, 79, 88, 89, 32] ++ proto ++ src ++ [32] ++ dst ++ [32] ++ sport ++ [32] ++ dport

/-- A version 1 header: `n` bytes at the start of the data that name the client
`src`, `sport`. -/
def Header1 (data : Bytes) (n : Nat) (src sport : Bytes) : Prop :=
  ∃ proto dst dport rest, (proto = [84, 67, 80, 52, 32] ∨ proto = [84, 67, 80, 54, 32]) ∧ Word src ∧ Word dst ∧ Word sport ∧ (∀ x ∈ dport, x ≠ 13) ∧
    data = Line proto src dst sport dport ++ [13, 10] ++ rest ∧ n = (Line proto src dst sport dport).length + 2 ∧ 18 ≤ n

/-- A version 2 header: signature, version and command, family, length, and that much data. -/
def Header2 (data : Bytes) (cmd fam : UInt8) (body : Bytes) : Prop :=
  ∃ l0 l1 rest, body.length = 256 * l0.toNat + l1.toNat ∧ cmd &&& 0xF0 = 0 ∧
    data = [0x0D, 0x0A, 0x0D, 0x0A, 0x00, 0x0D, 0x0A, 0x51, 0x55, 0x49, 0x54, 0x0A] ++ [0x20 ||| cmd, fam, l0, l1] ++ body ++ rest

end Gdnsd.Proxy
