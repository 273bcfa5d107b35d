import Verif.Machine.Mem
/-!
# Specification: what a packet is, and how it is understood

Written from the network protocols' definitions and the documentation of bpfilter, without reference
to the generated code.  Places where bpfilter's documented understanding of a packet differs from the
protocols' are marked **quirk**; the property theorems discuss them.
-/
namespace Bf.Spec

/-- Big-endian value of a byte string. -/
def beNat (bs : List Byte) : Nat := bs.foldl (fun a b => 256 * a + b.toNat) 0

/-- The `n` bytes at offset `o`, if they exist. -/
def bytesAt (bs : List Byte) (o n : Nat) : Option (List Byte) :=
  if o + n ≤ bs.length then some ((bs.drop o).take n) else none

/-- The byte at offset `o` (0 if there is none). -/
def byteAt (bs : List Byte) (o : Nat) : Byte := (bs[o]?).getD 0

/-- Network protocols bpfilter understands. -/
inductive Net
  | ip4 | ip6
  deriving DecidableEq, Repr

/-- EtherType of a network protocol. -/
def Net.etherType : Net → Nat
  | .ip4 => 0x0800
  | .ip6 => 0x86DD

/-- Fixed header length of a network protocol. -/
def Net.hdrLen : Net → Nat
  | .ip4 => 20
  | .ip6 => 40

/-- Transport protocols bpfilter understands. -/
inductive Trans
  | tcp | udp | icmp | icmp6
  deriving DecidableEq, Repr

/-- IANA protocol number. -/
def Trans.num : Trans → Nat
  | .tcp => 6 | .udp => 17 | .icmp => 1 | .icmp6 => 58

/-- Fixed header length of a transport protocol. -/
def Trans.hdrLen : Trans → Nat
  | .tcp => 20 | .udp => 8 | .icmp => 8 | .icmp6 => 8

/-- The transport protocol of a protocol number. -/
def Trans.ofNum (n : Byte) : Option Trans :=
  if n = 6 then some .tcp else if n = 17 then some .udp
  else if n = 1 then some .icmp else if n = 58 then some .icmp6 else none

/-- How the start of the packet is known. -/
inductive Link
  /-- an Ethernet frame (XDP, TC) -/
  | ethernet
  /-- a network packet of the given protocol, if bpfilter understands it (netfilter, cgroup) -/
  | network (net : Option Net)
  deriving DecidableEq, Repr

/-- What a program sees of a packet. -/
structure View where
  /-- network protocol and its fixed header -/
  l3 : Option (Net × List Byte)
  /-- transport protocol and its fixed header -/
  l4 : Option (Trans × List Byte)
  /-- IPv6 extension headers found -/
  exts : List Byte
  deriving DecidableEq, Repr

/-- Protocol number of the transport protocol, 0 if bpfilter does not understand it. -/
def View.l4Num (v : View) : Nat :=
  match v.l4 with
  | some (t, _) => t.num
  | none => 0

/-- EtherType of the network protocol, 0 if bpfilter does not understand it. -/
def View.l3Num (v : View) : Nat :=
  match v.l3 with
  | some (n, _) => n.etherType
  | none => 0

/-- Length of an IPv6 extension header of type `nh` whose second byte is `hl`; `none` if `nh` is not
an extension header.  **quirk**: a fragment header is 8 bytes long and its second byte is reserved,
but bpfilter adds that byte. -/
def extLen (nh hl : Byte) : Option Nat :=
  if nh = 0 ∨ nh = 43 ∨ nh = 60 ∨ nh = 135 then some ((hl.toNat + 1) * 8)
  else if nh = 51 then some ((hl.toNat + 2) * 4)
  else if nh = 44 then some (hl.toNat + 8)
  else none

/-- Follow the chain of extension headers from header type `nh` at offset `off`, at most `n` of them:
the final header type, its offset, the extension headers found.  If the packet ends inside the chain,
the final header type is unknown (0) unless the chain is being recorded (`rec_`). -/
def walk (pkt : List Byte) (rec_ : Bool) : Nat → Byte → Nat → List Byte → Byte × Nat × List Byte
  | 0, nh, off, seen => (nh, off, seen)
  | n + 1, nh, off, seen =>
    match bytesAt pkt off 2 with
    | none => (if rec_ then nh else 0, off, seen)
    | some b =>
      match extLen nh (byteAt b 1) with
      | some len => walk pkt rec_ n (byteAt b 0) (off + len) (nh :: seen)
      | none => (nh, off, seen)

/-- Whether a first next-header value starts a chain of extension headers.  **quirk**: a routing,
fragment or authentication header in first position is not recognised. -/
def startsExt (nh : Byte) : Bool := nh == 0 || nh == 60 || nh == 135

/-- Position and kind of the transport header, from the network header: protocol number, offset,
extension headers. -/
def transportOf (pkt : List Byte) (rec_ : Bool) (net : Net) (hdr : List Byte) (off : Nat) :
    Byte × Nat × List Byte :=
  match net with
  | .ip4 => (byteAt hdr 9, off + 4 * ((byteAt hdr 0).toNat % 16), [])
  | .ip6 =>
    let nh := byteAt hdr 6
    if startsExt nh then walk pkt rec_ 6 nh (off + 40) [] else (nh, off + 40, [])

/-- Understanding of the transport header. -/
def parseTrans (pkt : List Byte) (l3 : Net × List Byte) (p : Byte × Nat × List Byte) : Option View :=
  match Trans.ofNum p.1 with
  | none => some ⟨some l3, none, p.2.2⟩
  | some t => (bytesAt pkt p.2.1 t.hdrLen).map fun h => ⟨some l3, some (t, h), p.2.2⟩

/-- Understanding of a network packet at offset `off`. -/
def parseNet (pkt : List Byte) (rec_ : Bool) (net : Option Net) (off : Nat) : Option View :=
  match net with
  | none => some ⟨none, none, []⟩
  | some n => (bytesAt pkt off n.hdrLen).bind fun hdr =>
    parseTrans pkt (n, hdr) (transportOf pkt rec_ n hdr off)

/-- The network protocol of an EtherType. -/
def Net.ofEtherType (e : Nat) : Option Net :=
  if e = 0x0800 then some .ip4 else if e = 0x86DD then some .ip6 else none

/-- How a packet is understood; `none` if a header could not be read completely.
`rec_` tells whether extension headers are recorded. -/
def parse (link : Link) (rec_ : Bool) (pkt : List Byte) : Option View :=
  match link with
  | .ethernet => (bytesAt pkt 0 14).bind fun e =>
    parseNet pkt rec_ (Net.ofEtherType (beNat (e.drop 12))) 14
  | .network net => parseNet pkt rec_ net 0

end Bf.Spec
