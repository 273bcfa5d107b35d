import Verif.User.Inet
import Verif.User.Names
import Verif.Chain.Check
/-!
# Payloads of matchers as text

`/repo/src/libbpfilter/matcher.c`: the `parse` and `print` callbacks of the matchers, and the table that gives each type and
operator its callbacks.  A C string is the list of its characters, a payload the list of its bytes.  A `parse` callback writes to
memory allocated by its caller and not initialised: it is a function of the bytes this memory holds beforehand, `buf`.
What a callback wrote before it failed is not modelled: every caller frees the memory.
-/
namespace Bf

/-- What the callbacks ask the system and the floating point library: `if_nametoindex` (0: no such interface),
`if_indextoname`, and the text of a percentage (`strtod` and `%g`; matcher.c:377-410), which is not modelled further. -/
structure TextEnv where
  nameToIndex : List Char → Nat
  indexToName : Nat → Option (List Char)
  parsePct : List Char → Option Nat
  printPct : Nat → List Char

/-- The bytes of a store to the start of `buf`. -/
def overwrite (bs buf : List Byte) : List Byte := bs ++ buf.drop bs.length

/-- matcher.c:81-101 `_bf_strtoul`. -/
def strtoulAny (s : List Char) : Option Nat :=
  if s = [] then none
  else
    let r := strtoul s 10
    if r.rest ≠ [] ∨ r.range then
      let r := strtoul s 16
      if r.rest ≠ [] ∨ r.range then none else some r.val
    else some r.val

/-- `_bf_strtoul` followed by the check of the largest value. -/
def strtoulMax (s : List Char) (max : Nat) : Option Nat := (strtoulAny s).filter (· ≤ max)

/-- `0x%x`. -/
def printHex (n : Nat) : List Char := '0' :: 'x' :: printNat 16 n

/-- The `parse` and `print` callbacks of matcher.c, by pairs. -/
inductive Codec
  | u32 | u32Range | iface | l3Proto | l4Proto | port | portRange | pct | mark
  | ip4 | ip4Net | ip6 | ip6Net | tcpFlags | icmpType | icmpCode | dscp | icmpv6Type
  deriving DecidableEq, Repr

/-- matcher.c:821-1262 `_bf_matcher_metas[type].ops[op]`: the callbacks. -/
def MType.codec : MType → MOp → Option Codec
  | .metaIface, .eq => some .iface
  | .metaL3Proto, .eq => some .l3Proto
  | .metaL4Proto, .eq => some .l4Proto
  | .metaProbability, .eq => some .pct
  | .metaSport, .eq => some .port | .metaSport, .range => some .portRange
  | .metaDport, .eq => some .port | .metaDport, .range => some .portRange
  | .metaMark, .eq => some .mark
  | .metaFlowHash, .eq => some .u32 | .metaFlowHash, .range => some .u32Range
  | .metaFlowProbability, .eq => some .pct
  | .ip4Saddr, .eq => some .ip4 | .ip4Saddr, .in_ => some .ip4
  | .ip4Daddr, .eq => some .ip4 | .ip4Daddr, .in_ => some .ip4
  | .ip4Snet, .eq => some .ip4Net | .ip4Snet, .in_ => some .ip4Net
  | .ip4Dnet, .eq => some .ip4Net | .ip4Dnet, .in_ => some .ip4Net
  | .ip4Proto, .eq => some .l4Proto | .ip4Proto, .in_ => some .l4Proto
  | .ip4Dscp, .eq => some .dscp
  | .ip6Saddr, .eq => some .ip6 | .ip6Saddr, .in_ => some .ip6
  | .ip6Daddr, .eq => some .ip6 | .ip6Daddr, .in_ => some .ip6
  | .ip6Snet, .eq => some .ip6Net | .ip6Snet, .in_ => some .ip6Net
  | .ip6Dnet, .eq => some .ip6Net | .ip6Dnet, .in_ => some .ip6Net
  | .ip6Nexthdr, .eq => some .l4Proto | .ip6Nexthdr, .in_ => some .l4Proto
  | .ip6Dscp, .eq => some .dscp
  | .tcpSport, .eq => some .port | .tcpSport, .in_ => some .port | .tcpSport, .range => some .portRange
  | .tcpDport, .eq => some .port | .tcpDport, .in_ => some .port | .tcpDport, .range => some .portRange
  | .tcpFlags, .eq => some .tcpFlags | .tcpFlags, .any => some .tcpFlags | .tcpFlags, .all => some .tcpFlags
  | .udpSport, .eq => some .port | .udpSport, .in_ => some .port | .udpSport, .range => some .portRange
  | .udpDport, .eq => some .port | .udpDport, .in_ => some .port | .udpDport, .range => some .portRange
  | .icmpType, .eq => some .icmpType | .icmpType, .in_ => some .icmpType
  | .icmpCode, .eq => some .icmpCode | .icmpCode, .in_ => some .icmpCode
  | .icmpv6Type, .eq => some .icmpv6Type | .icmpv6Type, .in_ => some .icmpv6Type
  | .icmpv6Code, .eq => some .icmpCode | .icmpv6Code, .in_ => some .icmpCode
  | _, _ => none

/-- A conversion from a name, on lists of characters. -/
def ofName (f : String → Res Nat) (s : List Char) : Option Nat :=
  match f (String.ofList s) with
  | .ok n => some n
  | _ => none

/-- A conversion to a name. -/
def toName (f : Nat → Option String) (n : Nat) : Option (List Char) := (f n).map String.toList

/-- if.c:20-34 `bf_if_index_from_name`, then if.c:45-68 `bf_if_index_from_str`. -/
def parseIface (env : TextEnv) (s : List Char) : Option Nat :=
  if 0 < env.nameToIndex s ∧ env.nameToIndex s ≤ 2147483647 then some (env.nameToIndex s)
  else
    let r := strtoul s 10
    if r.rest = [] ∧ r.range = false ∧ 0 < r.val ∧ r.val ≤ 4294967295 then some r.val else none

/-- matcher.c:299-317 `_bf_parse_l4_port`, `strtoul` in base 10 whose end must be the end of the string. -/
def parseDec (s : List Char) (max : Nat) : Option Nat :=
  let r := strtoul s 10
  if r.rest = [] ∧ r.val ≤ max then some r.val else none

/-- The two halves of a range or network: the copy to a buffer of `len` bytes is cut at the first `sep`; nothing after it is an error. -/
def halves (len : Nat) (sep : Char) (s : List Char) : Option (List Char × List Char) :=
  match strtok (· = sep) (strncpy len s) with
  | none => none
  | some (a, b) => if b = [] then none else some (a, b)

/-- `isdigit(*raw_payload)`. -/
def startsDigit (s : List Char) : Bool := (s.head?.map isDigit).getD false

/-- `isalpha(c)` in the C locale. -/
def isAlpha (c : Char) : Bool := ('a' ≤ c ∧ c ≤ 'z') ∨ ('A' ≤ c ∧ c ≤ 'Z')

/-- The first character of an IPv6 network (matcher.c:586). -/
def startsIp6 (s : List Char) : Bool := (s.head?.map fun c => isAlpha c || isDigit c || c = ':').getD false

/-- matcher.c:130-179 `_bf_parse_u32_range`. -/
def parseU32Range (s : List Char) : Option (Nat × Nat) :=
  if startsDigit s = false then none
  else (halves 32 '-' s).bind fun (a, b) =>
    (strtoulMax a 4294967295).bind fun x => (strtoulMax b 4294967295).bind fun y => if y < x then none else some (x, y)

/-- matcher.c:329-366 `_bf_parse_l4_port_range`. -/
def parsePortRange (s : List Char) : Option (Nat × Nat) :=
  if startsDigit s = false then none
  else (halves 16 '-' s).bind fun (a, b) =>
    (parseDec a 65535).bind fun x => (parseDec b 65535).bind fun y => if y < x then none else some (x, y)

/-- matcher.c:412-443 `_bf_parse_mark`. -/
def parseMark (s : List Char) : Option Nat :=
  let r := strtoll s 0
  if r.2 ≠ [] then none else if r.1 < 0 then none else if 4294967295 < r.1 then none else some r.1.toNat

/-- The prefix length of a network: the `unsigned long` is stored to the 32-bit field, which is then checked
(matcher.c:510-512, 596-598). -/
def parsePrefix (s : List Char) (max : Nat) : Option Nat :=
  let r := strtoul s 10
  if r.rest = [] ∧ r.val % 4294967296 ≤ max then some (r.val % 4294967296) else none

/-- matcher.c:484-522 `_bf_parse_ipv4_net`: prefix length and bytes of the address. -/
def parseIp4Net (s : List Char) : Option (Nat × List Nat) :=
  if startsDigit s = false then none
  else (halves 32 '/' s).bind fun (a, b) => (pton4 a).bind fun x => (parsePrefix b 32).map fun n => (n, x)

/-- matcher.c:570-608 `_bf_parse_ipv6_net`: prefix length and words of the address. -/
def parseIp6Net (s : List Char) : Option (Nat × List Nat) :=
  if startsIp6 s = false then none
  else (halves 50 '/' s).bind fun (a, b) => (pton6 a).bind fun x => (parsePrefix b 128).map fun n => (n, x)

/-- matcher.c:622-651 `_bf_parse_tcp_flags`: the loop, `s` is the string `strtok_r` goes on with.  `fuel` bounds the iterations: every
token has at least one character, so that more fuel than characters is never exhausted. -/
def parseFlagsGo : Nat → List Char → Nat → Option Nat
  | 0, _, _ => none
  | fuel + 1, s, flags =>
    match strtok (· = ',') s with
    | none => some flags
    | some (tok, rest) =>
      match ofName tcpFlagFromStr tok with
      | none => none
      | some f => parseFlagsGo fuel rest (flags ||| 2 ^ f)

def parseFlags (s : List Char) : Option Nat := parseFlagsGo (s.length + 1) s 0

/-- A name, or else a number up to `max` (matcher.c:227-243, 263-279, 677-694, 734-751, 776-794). -/
def parseNamed (f : String → Res Nat) (max : Nat) (s : List Char) : Option Nat :=
  match ofName f s with
  | some n => some n
  | none => strtoulMax s max

/-- The bytes of the words of an IPv6 address. -/
def wordsBytes (ws : List Nat) : List Byte := ws.flatMap fun w => [BitVec.ofNat 8 (w / 256), BitVec.ofNat 8 w]

/-- `htobe16`. -/
def be16 (n : Nat) : List Byte := [BitVec.ofNat 8 (n / 256), BitVec.ofNat 8 n]

/-- The bytes a `parse` callback writes, from the start of the payload. -/
def Codec.parse (env : TextEnv) : Codec → List Char → Option (List Byte)
  | .u32, s => (strtoulMax s 4294967295).map (leBytes 4)
  | .u32Range, s => (parseU32Range s).map fun (x, y) => leBytes 4 x ++ leBytes 4 y
  | .iface, s => (parseIface env s).map (leBytes 4)
  | .l3Proto, s => (parseNamed ethertypeFromStr 65535 s).map (leBytes 2)
  | .l4Proto, s => (parseNamed ipprotoFromStr 255 s).map (leBytes 1)
  | .port, s => (parseDec s 65535).map be16
  | .portRange, s => (parsePortRange s).map fun (x, y) => leBytes 2 x ++ leBytes 2 y
  | .pct, s => (env.parsePct s).map (leBytes 4)
  | .mark, s => (parseMark s).map (leBytes 4)
  | .ip4, s => (pton4 s).map fun x => x.map (BitVec.ofNat 8)
  | .ip4Net, s => (parseIp4Net s).map fun (n, x) => leBytes 4 n ++ x.map (BitVec.ofNat 8)
  | .ip6, s => (pton6 s).map wordsBytes
  | .ip6Net, s => (parseIp6Net s).map fun (n, x) => leBytes 4 n ++ wordsBytes x
  | .tcpFlags, s => (parseFlags s).map (leBytes 1)
  | .icmpType, s => (parseNamed icmpTypeFromStr 255 s).map (leBytes 1)
  | .icmpCode, s => (strtoulMax s 255).map (leBytes 1)
  | .dscp, s => (parseNamed dscpFromStr 63 s).map (leBytes 1)
  | .icmpv6Type, s => (parseNamed icmpv6TypeFromStr 255 s).map (leBytes 1)

/-- `ops->parse(type, op, payload, raw)`, on memory that holds `buf`. -/
def parsePayload (env : TextEnv) (ty : MType) (op : MOp) (buf : List Byte) (s : List Char) : Res (List Byte) :=
  match ty.codec op with
  | none => .err .ENOENT
  | some c => match c.parse env s with
    | none => .err .EINVAL
    | some bs => .ok (overwrite bs buf)

/-- matcher.c:1312-1343 `bf_matcher_new_from_raw`: the payload; `buf` is what `malloc` returned (`refSize` bytes). -/
def matcherNewFromRaw (env : TextEnv) (ty : MType) (op : MOp) (buf : List Byte) (s : List Char) (negate : Bool) : Res Matcher :=
  match parsePayload env ty op (buf.take (ty.refSize op)) s with
  | .ok p => .ok ⟨ty, op, p, negate⟩
  | .err e => .err e
  | .ub => .ub

/-- The words of an IPv6 address from its bytes. -/
def bytesWords : List Byte → List Nat
  | a :: b :: l => (a.toNat * 256 + b.toNat) :: bytesWords l
  | _ => []

/-- matcher.c:653-665 `_bf_print_tcp_flags`: the loop, from flag `i` with `k` flags left. -/
def printFlagsGo : Nat → Nat → Nat → List Char
  | 0, _, _ => []
  | k + 1, i, flag =>
    if flag.testBit i then
      (toName tcpFlagToStr i).getD [] ++ (if flag - 2 ^ i ≠ 0 then [','] else []) ++ printFlagsGo k (i + 1) (flag - 2 ^ i)
    else printFlagsGo k (i + 1) flag

/-- A name if there is one, a decimal number otherwise. -/
def printNamed (f : Nat → Option String) (n : Nat) : List Char :=
  match toName f n with
  | some s => s
  | none => printNat 10 n

/-- `0x%04x`. -/
def printHex4 (n : Nat) : List Char := '0' :: 'x' :: (List.replicate (4 - (printNat 16 n).length) '0' ++ printNat 16 n)

/-- The `print` callbacks. -/
def Codec.print (env : TextEnv) (c : Codec) (p : List Byte) : List Char :=
  match c with
  | .u32 => printHex (leNat (p.take 4))
  | .u32Range => printHex (leNat (p.take 4)) ++ '-' :: printHex (leNat ((p.drop 4).take 4))
  | .iface => match env.indexToName (leNat (p.take 4)) with
    | some n => n
    | none => printNat 10 (leNat (p.take 4))
  | .l3Proto => match toName ethertypeToStr (leNat (p.take 2)) with
    | some n => n
    | none => printHex4 (leNat (p.take 2))
  | .l4Proto => printNamed ipprotoToStr (leNat (p.take 1))
  | .port => printNat 10 (leNat (p.take 2).reverse)
  | .portRange => printNat 10 (leNat (p.take 2)) ++ '-' :: printNat 10 (leNat ((p.drop 2).take 2))
  | .pct => env.printPct (leNat (p.take 4))
  | .mark => printHex (leNat (p.take 4))
  | .ip4 => ntop4 ((p.take 4).map BitVec.toNat)
  | .ip4Net => ntop4 (((p.drop 4).take 4).map BitVec.toNat) ++ '/' :: printNat 10 (leNat (p.take 4))
  | .ip6 => ntop6 (bytesWords (p.take 16))
  | .ip6Net => ntop6 (bytesWords ((p.drop 4).take 16)) ++ '/' :: printNat 10 (leNat (p.take 4))
  | .tcpFlags => printFlagsGo 8 0 (leNat (p.take 1))
  | .icmpType => printNamed icmpTypeToStr (leNat (p.take 1))
  | .icmpCode => printNat 10 (leNat (p.take 1))
  | .dscp => printNamed dscpToStr (leNat (p.take 1))
  | .icmpv6Type => printNamed icmpv6TypeToStr (leNat (p.take 1))

/-- `ops->print(payload)`. -/
def printPayload (env : TextEnv) (ty : MType) (op : MOp) (p : List Byte) : List Char :=
  match ty.codec op with
  | none => []
  | some c => c.print env p

end Bf
