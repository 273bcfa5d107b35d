import Verif.Spec.Eval
/-!
# Specification: headers and fields in the raw bytes of a packet

Written from the protocols' definitions (Ethernet, RFC 791, RFC 8200, RFC 9293, RFC 768, RFC 792,
RFC 4443), independently of `parse`: this is the vocabulary the property theorems are stated in.
-/
namespace Bf.Spec

/-- `n` bytes at offset `o`. -/
def slice (bs : List Byte) (o n : Nat) : List Byte := (bs.drop o).take n

/-- EtherType of a protocol, as it is on the wire. -/
def Net.wire : Net → List Byte
  | .ip4 => [0x08, 0x00]
  | .ip6 => [0x86, 0xdd]

/-- The packet has a network header of protocol `n` at offset `off`: it is an Ethernet frame with that
EtherType, or a network packet the kernel says is of that protocol. -/
def NetAt (i : Input) (n : Net) (off : Nat) : Prop :=
  match i.link with
  | .ethernet => off = 14 ∧ slice i.bytes 12 2 = n.wire
  | .network net => off = 0 ∧ net = some n

/-- IPv6 extension headers: length of a header of type `nh` whose second byte is `hl`, as bpfilter counts
it.  RFC 8200 says a fragment header (44) is 8 bytes long, whatever its second (reserved) byte. -/
def ext6Len (nh hl : Byte) : Option Nat :=
  match nh.toNat with
  | 0 | 43 | 60 | 135 => some (8 * hl.toNat + 8)
  | 51 => some (4 * hl.toNat + 8)
  | 44 => some (hl.toNat + 8)
  | _ => none

/-- From an IPv6 header of type `nh` at offset `off`, going through at most `k` extension headers leads to
the header of type `up` at offset `uoff`. -/
inductive Leads (pkt : List Byte) : Nat → Byte → Nat → Byte → Nat → Prop
  | here {k nh off} : Leads pkt k nh off nh off
  | ext {k nh off len up uoff} : off + 2 ≤ pkt.length → ext6Len nh (byteAt pkt (off + 1)) = some len →
      Leads pkt k (byteAt pkt off) (off + len) up uoff → Leads pkt (k + 1) nh off up uoff

/-- The packet has a transport header of protocol `t` at offset `off`.  IPv4: the protocol field says so,
and the header follows the options.  IPv6: it is the next header, or is found after at most 6 extension
headers, the first being a hop-by-hop (0), destination options (60) or mobility (135) header (C23 compares
this with RFC 8200). -/
def TransAt (i : Input) (t : Trans) (off : Nat) : Prop :=
  (∃ o, NetAt i .ip4 o ∧ (byteAt i.bytes (o + 9)).toNat = t.num ∧ off = o + 4 * ((byteAt i.bytes o).toNat % 16)) ∨
  (∃ o, NetAt i .ip6 o ∧
    (((byteAt i.bytes (o + 6)).toNat = t.num ∧ off = o + 40) ∨
     ((byteAt i.bytes (o + 6)).toNat ∈ [0, 60, 135] ∧
      Leads i.bytes 6 (byteAt i.bytes (o + 6)) (o + 40) (BitVec.ofNat 8 t.num) off)))

/-- A protocol header. -/
inductive Proto
  | net (n : Net)
  | trans (t : Trans)
  deriving DecidableEq, Repr

/-- Fixed header length. -/
def Proto.hdrLen : Proto → Nat
  | .net n => n.hdrLen
  | .trans t => t.hdrLen

/-- The packet has a (complete) header of protocol `p` at offset `off`. -/
def HasHdr (i : Input) (p : Proto) (off : Nat) : Prop :=
  (match p with
    | .net n => NetAt i n off
    | .trans t => TransAt i t off) ∧ off + p.hdrLen ≤ i.bytes.length

/-- Where header fields are: protocol, offset in its header, size. -/
def fieldSpec : MType → Option (Proto × Nat × Nat)
  | .ip4Saddr | .ip4Snet => some (.net .ip4, 12, 4)
  | .ip4Daddr | .ip4Dnet => some (.net .ip4, 16, 4)
  | .ip4Proto => some (.net .ip4, 9, 1)
  | .ip6Saddr | .ip6Snet => some (.net .ip6, 8, 16)
  | .ip6Daddr | .ip6Dnet => some (.net .ip6, 24, 16)
  | .ip6Nexthdr => some (.net .ip6, 6, 1)
  | .tcpSport => some (.trans .tcp, 0, 2)
  | .tcpDport => some (.trans .tcp, 2, 2)
  | .tcpFlags => some (.trans .tcp, 13, 1)
  | .udpSport => some (.trans .udp, 0, 2)
  | .udpDport => some (.trans .udp, 2, 2)
  | .icmpType => some (.trans .icmp, 0, 1)
  | .icmpCode => some (.trans .icmp, 1, 1)
  | .icmpv6Type => some (.trans .icmp6, 0, 1)
  | .icmpv6Code => some (.trans .icmp6, 1, 1)
  | _ => none

/-- The packet has the header field `t` is about, with value `b` (in network order). -/
def HasField (i : Input) (t : MType) (b : List Byte) : Prop :=
  ∃ p o n off, fieldSpec t = some (p, o, n) ∧ HasHdr i p off ∧ slice i.bytes (off + o) n = b

end Bf.Spec
