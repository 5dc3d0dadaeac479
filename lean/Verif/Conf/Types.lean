/-
Addresses, as far as the configuration knows them.
-/
import Verif.Basic
namespace Gdnsd.Conf

/-- `gdnsd_anysin_t` as `getaddrinfo` fills it in: the family, the address, the port as a number, and the
scope of an IPv6 address. -/
structure Sin where
  v6 : Bool
  addr : Bytes
  port : Nat
  scope : Nat := 0
deriving DecidableEq, Repr

/-- What `getaddrinfo` makes of a text for a host and a text for a port: `AI_NUMERICHOST | AI_NUMERICSERV`. -/
structure Gai where
  host : Bytes → Option (Bool × Bytes × Nat)
  serv : Bytes → Option Nat

end Gdnsd.Conf
