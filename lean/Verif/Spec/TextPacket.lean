import Verif.Spec.Raw
import Verif.Spec.PayloadText
/-!
# Specification: the packets the text of a matcher describes

Texts are those of `doc/usage/bfcli.rst` (`Spec/PayloadText.lean`), packets are bytes (`Spec/Raw.lean`).  No payload, no program.
-/
namespace Bf.Spec

/-- The number of a network protocol, as bpfilter sees it: 0 for the protocols it does not know. -/
inductive NetNumber (i : Input) : Nat → Prop
  | known {n : Net} {off : Nat} : HasHdr i (.net n) off → NetNumber i n.etherType
  | unknown : (∀ n off, ¬ HasHdr i (.net n) off) → NetNumber i 0

/-- The number of a transport protocol, as bpfilter sees it: 0 for the protocols it does not know. -/
inductive TransNumber (i : Input) : Nat → Prop
  | known {t : Trans} {off : Nat} : HasHdr i (.trans t) off → TransNumber i t.num
  | unknown : (∀ t off, ¬ HasHdr i (.trans t) off) → TransNumber i 0

/-- The packet has a field of this number (in network order). -/
def FieldIs (i : Input) (t : MType) (n : Nat) : Prop := ∃ b, HasField i t b ∧ beNat b = n

/-- The packet has this port; `meta.sport` and `meta.dport` are about TCP and UDP. -/
def PortIs (i : Input) (t : MType) (n : Nat) : Prop :=
  match t with
  | .metaSport => FieldIs i .tcpSport n ∨ FieldIs i .udpSport n
  | .metaDport => FieldIs i .tcpDport n ∨ FieldIs i .udpDport n
  | t => FieldIs i t n

/-- The DSCP of the packet: the first 6 bits of the second byte of IPv4, of the traffic class of IPv6. -/
def DscpIs (i : Input) (t : MType) (n : Nat) : Prop :=
  (t = .ip4Dscp ∧ ∃ off, HasHdr i (.net .ip4) off ∧ n = (byteAt i.bytes (off + 1)).toNat / 4) ∨
  (t = .ip6Dscp ∧ ∃ off, HasHdr i (.net .ip6) off ∧ n = (byteAt i.bytes off).toNat % 16 * 4 + (byteAt i.bytes (off + 1)).toNat / 64)

/-- The packet has what a matcher of this type is about. -/
def Concerns (i : Input) (t : MType) : Prop :=
  match t with
  | .metaIface | .metaL3Proto | .metaL4Proto | .metaMark | .metaFlowHash => True
  | .metaSport | .metaDport => ∃ n, PortIs i t n
  | .ip4Dscp | .ip6Dscp => ∃ n, DscpIs i t n
  | t => ∃ b, HasField i t b

/-- An address and a network have the same first `len` bits. -/
def SameBits (a b : List Byte) (len : Nat) : Prop := ∀ k < len, bitAt a k = bitAt b k

/-- The flags `n` of the packet and the flags `v` of the text: the same, one in common, all there. -/
def FlagTest (op : MOp) (n v : Nat) : Prop :=
  match op with
  | .any => ∃ k, n.testBit k = true ∧ v.testBit k = true
  | .all => ∀ k, v.testBit k = true → n.testBit k = true
  | _ => n = v

/-- The text describes the packet, whose mark is `mark`.  (In sets, `ip6.nexthdr` is the field of the IPv6 header; the matcher `ip6.nexthdr eq` is the
subject of C47.) -/
def Describes (env : TextEnv) (i : Input) (mark : Nat) (t : MType) (op : MOp) (s : List Char) : Prop :=
  match t with
  | .metaIface => IfaceText env s i.ifindex
  | .metaL3Proto => ∃ n, NamedBy EtherName 65535 s n ∧ NetNumber i n
  | .metaL4Proto => ∃ n, NamedBy (fun x n => Doc.ipproto n = some x) 255 s n ∧ TransNumber i n
  | .metaMark => CNumber s mark
  | .metaFlowHash => if op = .range then ∃ x y, RangeText NumText 4294967295 s x y ∧ x ≤ i.hash ∧ i.hash ≤ y else NumText s i.hash
  | .metaSport | .metaDport | .tcpSport | .tcpDport | .udpSport | .udpDport =>
    ∃ n, PortIs i t n ∧ if op = .range then ∃ x y, RangeText (Numeral 10) 65535 s x y ∧ x ≤ n ∧ n ≤ y else Numeral 10 s n
  | .ip4Saddr | .ip4Daddr => ∃ b, HasField i t b ∧ Addr4 s (b.map BitVec.toNat)
  | .ip4Snet | .ip4Dnet => ∃ b net len, HasField i t b ∧ NetText Addr4 32 s (net.map BitVec.toNat) len ∧ SameBits b net len
  | .ip6Saddr | .ip6Daddr => ∃ b ws, HasField i t b ∧ Addr6 s ws ∧ b.map BitVec.toNat = bytesOf ws
  | .ip6Snet | .ip6Dnet => ∃ b net ws len, HasField i t b ∧ NetText Addr6 128 s ws len ∧ net.map BitVec.toNat = bytesOf ws ∧ SameBits b net len
  | .ip4Proto => ∃ n, FieldIs i t n ∧ NamedBy (fun x n => Doc.ipproto n = some x) 255 s n
  | .ip4Dscp | .ip6Dscp => ∃ n, DscpIs i t n ∧ NamedBy Doc.Dscp 63 s n
  | .tcpFlags => ∃ n v, FieldIs i t n ∧ FlagsText s v ∧ FlagTest op n v
  | .icmpType => ∃ n, FieldIs i t n ∧ NamedBy (fun x n => Doc.icmp n = some x) 255 s n
  | .icmpv6Type => ∃ n, FieldIs i t n ∧ NamedBy (fun x n => Doc.icmpv6 n = some x) 255 s n
  | .icmpCode | .icmpv6Code => ∃ n, FieldIs i t n ∧ NumText s n
  | .ip6Nexthdr => op = .in_ ∧ ∃ n, FieldIs i t n ∧ NamedBy (fun x n => Doc.ipproto n = some x) 255 s n
  | .metaProbability | .metaFlowProbability | .set => False

end Bf.Spec
