import Verif.Spec.Eval
/-!
# Specification: what a chain does to a socket operation (`connect` and `sendmsg` hooks)
-/
namespace Bf.Spec

/-- What a chain sees of a socket operation. -/
structure SockView where
  /-- network protocol of the destination -/
  net : Option Net
  /-- protocol of the socket -/
  proto : Nat
  /-- addresses and destination port, in network order -/
  saddr4 : List Byte
  saddr6 : List Byte
  daddr4 : List Byte
  daddr6 : List Byte
  dport : List Byte
  deriving DecidableEq, Repr

/-- The kernel's `struct bpf_sock_addr` (linux/bpf.h): `user_family`, `user_ip4` at 4, `user_ip6` at 8,
`user_port` at 24, `family` at 28, `protocol` at 36, `msg_src_ip4` at 40, `msg_src_ip6` at 44. -/
def sockView (bs : List Byte) : SockView where
  net := Net.ofFamily (host bs 28 4)
  proto := host bs 36 4
  saddr4 := (bs.drop 40).take 4
  saddr6 := (bs.drop 44).take 16
  daddr4 := (bs.drop 4).take 4
  daddr6 := (bs.drop 8).take 16
  dport := (bs.drop 24).take 2

/-- What the kernel guarantees about `struct bpf_sock_addr`: its size; the port is a 16-bit value; socket
protocols are 16-bit values. -/
structure SockAbi (bs : List Byte) : Prop where
  size : bs.length = 72
  port : (bs.drop 26).take 2 = [0, 0]
  proto : host bs 36 4 < 65536

/-- EtherType of the network protocol, 0 if bpfilter does not understand it. -/
def SockView.l3Num (v : SockView) : Nat :=
  match v.net with
  | some n => n.etherType
  | none => 0

/-- The bytes a matcher type is about, in network order.  **quirk**: in a set only the low byte of the
protocol is used. -/
def sockField (v : SockView) : MType → List Byte
  | .ip4Saddr | .ip4Snet => v.saddr4
  | .ip4Daddr | .ip4Dnet => v.daddr4
  | .ip6Saddr | .ip6Snet => v.saddr6
  | .ip6Daddr | .ip6Dnet => v.daddr6
  | .ip4Proto => [BitVec.ofNat 8 v.proto]
  | .tcpDport | .udpDport | .metaDport => v.dport
  | _ => []

/-- The protocol a matcher type is about must be the socket's. -/
def sockProtoOk (v : SockView) : MType → Bool
  | .ip4Saddr | .ip4Snet | .ip4Daddr | .ip4Dnet | .ip4Proto | .ip4Dscp => v.l3Num == 0x0800
  | .ip6Saddr | .ip6Snet | .ip6Daddr | .ip6Dnet | .ip6Nexthdr | .ip6Dscp => v.l3Num == 0x86DD
  | .tcpSport | .tcpDport | .tcpFlags => v.proto == 6
  | .udpSport | .udpDport => v.proto == 17
  | .icmpType | .icmpCode => v.proto == 1
  | .icmpv6Type | .icmpv6Code => v.proto == 58
  | _ => true

/-- The part of a matcher that the negation applies to, `none` if the matcher is not about sockets. -/
def sockCore (v : SockView) (rnd : BitVec 32) (sets : List BSet) (thr : Nat → BitVec 32) (m : Matcher) :
    Option Bool :=
  match m.type with
  | .metaL3Proto => some (decide (v.l3Num = host m.payload 0 2))
  | .metaL4Proto => some (decide (v.proto = host m.payload 0 1))
  -- **quirk**: a threshold of 2^31 or more always matches
  | .metaProbability =>
    let t := (thr (host m.payload 0 4)).toNat
    some (decide (2 ^ 31 ≤ t ∨ rnd.toNat ≤ t))
  | .ip4Saddr | .ip4Daddr => some (decide (sockField v m.type = m.payload.take 4))
  | .ip6Saddr | .ip6Daddr => some (decide (sockField v m.type = m.payload.take 16))
  | .ip4Snet | .ip4Dnet | .ip6Snet | .ip6Dnet => some (inNet (sockField v m.type) m.payload)
  | .ip4Proto => some (decide (v.proto = host m.payload 0 1))
  | .metaDport | .tcpDport | .udpDport =>
    if m.op = .range then
      some (decide (host m.payload 0 2 ≤ beNat v.dport ∧ beNat v.dport ≤ host m.payload 2 2))
    else some (decide (v.dport = m.payload.take 2))
  | .set =>
    match sets[host m.payload 0 4]? with
    | some s => some (inSet (sockField v) s)
    | none => none
  | _ => none

/-- A matcher holds. -/
def sockHolds (v : SockView) (rnd : BitVec 32) (sets : List BSet) (thr : Nat → BitVec 32) (m : Matcher) : Bool :=
  match sockCore v rnd sets thr m with
  | none => false
  | some b => b != m.negate

/-- The entry logged for a socket operation: the destination, and the source for `sendmsg`.  IPv4
addresses are padded to 16 bytes. -/
def sockEntry (h : Hook) (v : SockView) (r : Rule) (now : BitVec 64) : LogRec :=
  let pad := List.replicate 12 (0 : Byte)
  { ts := now, ruleId := BitVec.ofNat 32 r.index
    verdict := BitVec.ofNat 32 r.verdict.code
    l3Proto := BitVec.ofNat 16 v.l3Num, l4Proto := BitVec.ofNat 8 v.proto
    isPkt := false
    saddr := match h with | .sendmsg4 => some (v.saddr4 ++ pad) | .sendmsg6 => some v.saddr6 | _ => none
    daddr := match h with | .sendmsg4 | .connect4 => v.daddr4 ++ pad | _ => v.daddr6
    dport := BitVec.ofNat 16 (beNat v.dport)
    captured := match h with | .sendmsg4 | .sendmsg6 => 1 | _ => 0 }

/-- What a chain sees of a socket operation; no bytes are accounted. -/
def sockSem (h : Hook) (v : SockView) (k : Kernel) (sets : List BSet) (thr : Nat → BitVec 32) : Sem where
  flavor := h.flavor
  size := 0
  kernel := k
  sets := sets
  protoOk := sockProtoOk v
  holds := fun m _ rnd => sockHolds v rnd sets thr m
  entry := sockEntry h v

end Bf.Spec
