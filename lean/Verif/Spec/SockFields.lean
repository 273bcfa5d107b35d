import Verif.Spec.Sock
import Verif.Spec.Raw
import Verif.Spec.Proto
/-!
# Specification: the fields of a socket operation (`struct bpf_sock_addr`)
-/
namespace Bf
open Spec

/-- Where the fields a matcher type is about are in the kernel's `struct bpf_sock_addr`, in network order
(linux/bpf.h): offset and size.  The protocol is a 32-bit host-order integer, whose low byte comes first. -/
def sockFieldSpec : MType → Option (Nat × Nat)
  | .ip4Daddr | .ip4Dnet => some (4, 4)
  | .ip6Daddr | .ip6Dnet => some (8, 16)
  | .tcpDport | .udpDport | .metaDport => some (24, 2)
  | .ip4Proto => some (36, 1)
  | .ip4Saddr | .ip4Snet => some (40, 4)
  | .ip6Saddr | .ip6Snet => some (44, 16)
  | _ => none

/-- The socket is of the protocol a matcher type is about: address family (at offset 28) and IP protocol (at
offset 36). -/
def SockIs (bs : List Byte) (t : MType) : Prop :=
  (∀ n, netOf t = some n → Net.ofFamily (host bs 28 4) = some n) ∧
  (∀ n, transOf t = some n → host bs 36 4 = n.num)

/-- The socket operation has the field `t` is about, with value `b`. -/
def HasSockField (bs : List Byte) (t : MType) (b : List Byte) : Prop :=
  SockIs bs t ∧ ∃ o n, sockFieldSpec t = some (o, n) ∧ slice bs o n = b

/-- ... the fields of a set's key, and `b` is their concatenation. -/
def HasSockKey (bs : List Byte) : List MType → List Byte → Prop
  | [], b => b = []
  | t :: ts, b => ∃ x y, b = x ++ y ∧ HasSockField bs t x ∧ HasSockKey bs ts y

end Bf
