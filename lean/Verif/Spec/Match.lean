import Verif.Spec.Packet
import Verif.Gen.Types
/-!
# Specification: when a matcher holds for a packet
-/
namespace Bf.Spec

/-- What arrives at a hook. -/
structure Input where
  /-- how the data starts -/
  link : Link
  /-- the packet's bytes -/
  bytes : List Byte
  /-- whether the kernel gives access to the packet's bytes -/
  readable : Bool
  /-- number of bytes accounted for the packet -/
  size : BitVec 64
  /-- interface the packet goes through -/
  ifindex : Nat
  /-- the kernel's flow hash of the packet (TC) -/
  hash : Nat

/-- Unsigned host-order (little-endian) integer of `n` bytes at offset `o` of a payload. -/
def host (p : List Byte) (o n : Nat) : Nat := leNat ((p.drop o).take n)

/-- The `i`-th bit of a byte string, most significant first. -/
def bitAt (bs : List Byte) (i : Nat) : Bool := (byteAt bs (i / 8)).getLsbD (7 - i % 8)

/-- Whether the first `n` bits of two byte strings are the same. -/
def samePrefix (n : Nat) (a b : List Byte) : Bool := (List.range n).all fun i => bitAt a i == bitAt b i

/-- The network header. -/
def View.net (v : View) : List Byte := match v.l3 with | some (_, h) => h | none => []
/-- The transport header. -/
def View.trans (v : View) : List Byte := match v.l4 with | some (_, h) => h | none => []

/-- The bytes of a header field, in network order. -/
def fieldOf (v : View) : MType → List Byte
  | .ip4Saddr | .ip4Snet => (v.net.drop 12).take 4
  | .ip4Daddr | .ip4Dnet => (v.net.drop 16).take 4
  | .ip4Proto => (v.net.drop 9).take 1
  | .ip6Saddr | .ip6Snet => (v.net.drop 8).take 16
  | .ip6Daddr | .ip6Dnet => (v.net.drop 24).take 16
  | .ip6Nexthdr => (v.net.drop 6).take 1
  | .tcpSport | .udpSport | .metaSport => (v.trans.drop 0).take 2
  | .tcpDport | .udpDport | .metaDport => (v.trans.drop 2).take 2
  | .tcpFlags => (v.trans.drop 13).take 1
  | .icmpType | .icmpv6Type => (v.trans.drop 0).take 1
  | .icmpCode | .icmpv6Code => (v.trans.drop 1).take 1
  | _ => []

/-- The protocol a header field belongs to must be the packet's. -/
def protoOk (v : View) : MType → Bool
  | .ip4Saddr | .ip4Snet | .ip4Daddr | .ip4Dnet | .ip4Proto | .ip4Dscp => v.l3Num == 0x0800
  | .ip6Saddr | .ip6Snet | .ip6Daddr | .ip6Dnet | .ip6Nexthdr | .ip6Dscp => v.l3Num == 0x86DD
  | .tcpSport | .tcpDport | .tcpFlags => v.l4Num == 6
  | .udpSport | .udpDport => v.l4Num == 17
  | .icmpType | .icmpCode => v.l4Num == 1
  | .icmpv6Type | .icmpv6Code => v.l4Num == 58
  | _ => true

/-- The values an equality or membership matcher compares, concatenated for a set key. -/
def keyOf (field : MType → List Byte) (ts : List MType) : List Byte := (ts.map field).flatten

/-- Whether an address belongs to a network of a set: a 4-byte host-order prefix length followed by
the network's address. -/
def inNet (addr elem : List Byte) : Bool := samePrefix (host elem 0 4) addr (elem.drop 4)

/-- Membership of fields in a set. -/
def inSet (field : MType → List Byte) (s : BSet) : Bool :=
  if s.key.any (fun t => t == .ip4Snet || t == .ip4Dnet || t == .ip6Snet || t == .ip6Dnet) then
    s.elems.any (inNet (keyOf field s.key))
  else s.elems.contains (keyOf field s.key)

/-- Values that name an IPv6 extension header. -/
def isExt (n : Nat) : Bool := n == 0 || n == 43 || n == 44 || n == 51 || n == 60 || n == 135

/-- Flow hash of a packet, as documented in bpf/flow_hash.bpf.c. -/
def flowHash (v : View) : BitVec 32 :=
  let rd4 := fun o : Int => some (BitVec.ofNat 32 (leNat ((v.net.drop o.toNat).take 4)))
  let rd2 := fun o : Int => some (BitVec.ofNat 16 (leNat ((v.trans.drop o.toNat).take 2)))
  let l3 := BitVec.ofNat 16 (if v.l3Num = 0x0800 then 0x0008 else if v.l3Num = 0x86DD then 0xDD86 else 0)
  let l4 := BitVec.ofNat 8 v.l4Num
  avalanche (((flowL3 rd4 l3 l4).bind (flowL4 rd2 l4)).getD 0)

/-- The part of a matcher that the negation applies to.  `none`: the packet does not have what the
matcher is about, neither the matcher nor its negation holds.

Arguments: the packet, its mark, the random number drawn if the matcher needs one, the chain's sets,
and the conversion of a probability to a 32-bit threshold. -/
def core (i : Input) (v : View) (mark : BitVec 32) (rnd : BitVec 32) (sets : List BSet)
    (thr : Nat → BitVec 32) (m : Matcher) : Option Bool :=
  match m.type with
  -- **quirk**: only the low 16 bits of the interface index are compared
  | .metaIface => some (decide (i.ifindex % 65536 = host m.payload 0 4))
  | .metaL3Proto => some (decide (v.l3Num = host m.payload 0 2))
  | .metaL4Proto => some (decide (v.l4Num = host m.payload 0 1))
  -- **quirk**: a threshold of 2^31 or more always matches
  | .metaProbability =>
    let t := (thr (host m.payload 0 4)).toNat
    some (decide (2 ^ 31 ≤ t ∨ rnd.toNat ≤ t))
  | .metaFlowProbability =>
    if v.l3Num ≠ 0 ∧ (v.l4Num = 6 ∨ v.l4Num = 17) then
      some (decide ((flowHash v).toNat ≤ (thr (host m.payload 0 4)).toNat))
    else none
  | .metaMark => some (decide (mark.toNat = host m.payload 0 4))
  | .metaFlowHash =>
    if m.op = .range then
      some (decide (host m.payload 0 4 ≤ i.hash ∧ i.hash ≤ host m.payload 4 4))
    else some (decide (i.hash = host m.payload 0 4))
  -- **quirk**: port 0 is treated as "no port"
  | .metaSport | .metaDport =>
    if (v.l4Num = 6 ∨ v.l4Num = 17) ∧ beNat (fieldOf v m.type) ≠ 0 then
      if m.op = .range then
        some (decide (host m.payload 0 2 ≤ beNat (fieldOf v m.type) ∧
          beNat (fieldOf v m.type) ≤ host m.payload 2 2))
      else some (decide (fieldOf v m.type = m.payload.take 2))
    else none
  | .tcpSport | .tcpDport | .udpSport | .udpDport =>
    if m.op = .range then
      some (decide (host m.payload 0 2 ≤ beNat (fieldOf v m.type) ∧
        beNat (fieldOf v m.type) ≤ host m.payload 2 2))
    else some (decide (fieldOf v m.type = m.payload.take 2))
  | .ip4Saddr | .ip4Daddr => some (decide (fieldOf v m.type = m.payload.take 4))
  | .ip6Saddr | .ip6Daddr => some (decide (fieldOf v m.type = m.payload.take 16))
  | .ip4Proto | .icmpType | .icmpCode | .icmpv6Type | .icmpv6Code =>
    some (decide (fieldOf v m.type = m.payload.take 1))
  | .ip4Snet | .ip4Dnet | .ip6Snet | .ip6Dnet => some (inNet (fieldOf v m.type) m.payload)
  | .ip4Dscp => some (decide ((byteAt v.net 1).toNat / 4 = host m.payload 0 1))
  | .ip6Dscp => some (decide (beNat (v.net.take 2) / 64 % 64 = host m.payload 0 1))
  | .ip6Nexthdr =>
    if isExt (host m.payload 0 1) then
      some (v.exts.any fun e => decide (e.toNat = host m.payload 0 1))
    else some (decide (v.l4Num = host m.payload 0 1))
  | .tcpFlags =>
    let f := byteAt v.trans 13
    let p := byteAt m.payload 0
    match m.op with
    | .any => some (decide (f &&& p ≠ 0))
    | .all => some (decide (f &&& p = p))
    | _ => some (decide (f = p))
  | .set =>
    match sets[host m.payload 0 4]? with
    | some s => some (inSet (fieldOf v) s)
    | none => none

/-- The types whose protocol a matcher requires: the components of a set matcher. -/
def typesOf (sets : List BSet) (m : Matcher) : List MType :=
  if m.type = .set then
    match sets[host m.payload 0 4]? with
    | some s => s.key
    | none => []
  else [m.type]

/-- The protocols a rule's matchers are about are there. -/
def applies (protoOk : MType → Bool) (sets : List BSet) (ms : List Matcher) : Bool :=
  ms.all fun m => (typesOf sets m).all protoOk

/-- A matcher holds. -/
def holds (i : Input) (v : View) (mark : BitVec 32) (rnd : BitVec 32) (sets : List BSet)
    (thr : Nat → BitVec 32) (m : Matcher) : Bool :=
  match core i v mark rnd sets thr m with
  | none => false
  | some b => b != m.negate

end Bf.Spec
