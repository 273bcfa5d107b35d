import Verif.Spec.Match
import Verif.Spec.Doc
import Verif.Props.C37_SetRaw
/-!
# What the text of a payload says

Numbers, addresses and networks as they are written: `doc/usage/bfcli.rst`, RFC 4291 section 2.2 for IPv6 addresses.
-/
namespace Bf.Spec

/-- The value of a digit. -/
def DigitIs (c : Char) (v : Nat) : Prop := "0123456789abcdef".toList[v]? = some c ∨ "0123456789ABCDEF".toList[v]? = some c

/-- The digits of a number in base `b`. -/
inductive Numeral (b : Nat) : List Char → Nat → Prop
  | one {c : Char} {v : Nat} : DigitIs c v → v < b → Numeral b [c] v
  | more {w : List Char} {c : Char} {n v : Nat} : Numeral b w n → DigitIs c v → v < b → Numeral b (w ++ [c]) (n * b + v)

/-- Digits after `0x`. -/
def Hex (s : List Char) (n : Nat) : Prop := ∃ x d, (x = 'x' ∨ x = 'X') ∧ s = '0' :: x :: d ∧ Numeral 16 d n

/-- A decimal number, or else a hexadecimal one, with or without `0x`. -/
def NumText (s : List Char) (n : Nat) : Prop := Numeral 10 s n ∨ ((∀ m, ¬ Numeral 10 s m) ∧ (Hex s n ∨ Numeral 16 s n))

/-- A number as in C: hexadecimal after `0x`, octal after `0`, else decimal. -/
def CNumber (s : List Char) (n : Nat) : Prop :=
  Hex s n ∨ (s.head? = some '0' ∧ Numeral 8 s n) ∨ (s.head? ≠ some '0' ∧ Numeral 10 s n)

/-- A name of the table whatever the case, or else a number up to `max`. -/
def NamedBy (names : String → Nat → Prop) (max : Nat) (s : List Char) (n : Nat) : Prop :=
  (∃ x, names x n ∧ lower (String.ofList s) = lower x) ∨ ((∀ x m, names x m → lower (String.ofList s) ≠ lower x) ∧ NumText s n ∧ n ≤ max)

/-- The EtherTypes that have a name. -/
inductive EtherName : String → Nat → Prop
  | ipv4 : EtherName "ipv4" 0x0800
  | ipv6 : EtherName "ipv6" 0x86DD

/-- One of the four numbers of an IPv4 address: no zero in front. -/
def Octet (s : List Char) (n : Nat) : Prop := Numeral 10 s n ∧ n ≤ 255 ∧ (s.head? = some '0' → s = ['0'])

/-- `a.b.c.d`. -/
def Addr4 (s : List Char) (x : List Nat) : Prop :=
  ∃ a b c d i j k l, s = a ++ '.' :: (b ++ '.' :: (c ++ '.' :: d)) ∧ x = [i, j, k, l] ∧ Octet a i ∧ Octet b j ∧ Octet c k ∧ Octet d l

/-- One of the eight words of an IPv6 address. -/
def Group (s : List Char) (n : Nat) : Prop := Numeral 16 s n ∧ s.length ≤ 4

/-- Words with colons between them; `quad`: the last two may be written as an IPv4 address. -/
inductive Groups (quad : Bool) : List Char → List Nat → Prop
  | one {g : List Char} {n : Nat} : Group g n → Groups quad g [n]
  | v4 {g : List Char} {a b c d : Nat} : quad = true → Addr4 g [a, b, c, d] → Groups quad g [a * 256 + b, c * 256 + d]
  | more {g s : List Char} {n : Nat} {ws : List Nat} : Group g n → Groups quad s ws → Groups quad (g ++ ':' :: s) (n :: ws)

def Groups0 (quad : Bool) (s : List Char) (ws : List Nat) : Prop := (s = [] ∧ ws = []) ∨ Groups quad s ws

/-- Eight words, or fewer around one `::`, which stands for the zeros that are missing. -/
def Addr6 (s : List Char) (ws : List Nat) : Prop :=
  (Groups true s ws ∧ ws.length = 8) ∨
  ∃ a b A B, s = a ++ ':' :: ':' :: b ∧ Groups0 false a A ∧ Groups0 true b B ∧ A.length + B.length ≤ 7 ∧
    ws = A ++ List.replicate (8 - (A.length + B.length)) 0 ++ B

/-- `address/length`. -/
def NetText (addr : List Char → List Nat → Prop) (max : Nat) (s : List Char) (x : List Nat) (n : Nat) : Prop :=
  ∃ a b, s = a ++ '/' :: b ∧ addr a x ∧ Numeral 10 b n ∧ n ≤ max

/-- `low-high`; the text begins with a decimal digit. -/
def RangeText (num : List Char → Nat → Prop) (max : Nat) (s : List Char) (x y : Nat) : Prop :=
  ∃ a b, s = a ++ '-' :: b ∧ num a x ∧ num b y ∧ x ≤ y ∧ y ≤ max ∧ ∃ c v, a.head? = some c ∧ v < 10 ∧ DigitIs c v

/-- Names of flags with commas between them. -/
def FlagsText (s : List Char) (v : Nat) : Prop :=
  (∀ t ∈ tokens (· = ',') s, ∃ n x, Doc.tcpFlag n = some x ∧ lower (String.ofList t) = lower x) ∧
  ∀ n, v.testBit n = true ↔ ∃ t ∈ tokens (· = ',') s, ∃ x, Doc.tcpFlag n = some x ∧ lower (String.ofList t) = lower x

/-- An interface: its name if there is one, or else its index. -/
def IfaceText (env : TextEnv) (s : List Char) (n : Nat) : Prop :=
  0 < n ∧ (if 0 < env.nameToIndex s ∧ env.nameToIndex s ≤ 2147483647 then n = env.nameToIndex s else Numeral 10 s n ∧ n ≤ 4294967295)

/-- The bytes of an address from its words. -/
def bytesOf (ws : List Nat) : List Nat := ws.flatMap fun w => [w / 256, w % 256]

/-- The text says the payload, in the terms in which matchers compare payloads (`Spec/Match.lean`).  Percentages are not modelled. -/
def Means (env : TextEnv) (ty : MType) (op : MOp) (s : List Char) (p : List Byte) : Prop :=
  match ty with
  | .metaIface => IfaceText env s (host p 0 4)
  | .metaL3Proto => NamedBy EtherName 65535 s (host p 0 2)
  | .metaL4Proto | .ip4Proto | .ip6Nexthdr => NamedBy (fun x n => Doc.ipproto n = some x) 255 s (host p 0 1)
  | .metaProbability | .metaFlowProbability => ∃ n, env.parsePct s = some n ∧ host p 0 4 = n % 4294967296
  | .metaMark => CNumber s (host p 0 4) ∧ host p 0 4 ≤ 4294967295
  | .metaFlowHash => if op = .range then RangeText NumText 4294967295 s (host p 0 4) (host p 4 4) else NumText s (host p 0 4)
  | .metaSport | .metaDport | .tcpSport | .tcpDport | .udpSport | .udpDport =>
    if op = .range then RangeText (Numeral 10) 65535 s (host p 0 2) (host p 2 2) else Numeral 10 s (beNat (p.take 2))
  | .ip4Saddr | .ip4Daddr => Addr4 s ((p.take 4).map BitVec.toNat)
  | .ip4Snet | .ip4Dnet => NetText Addr4 32 s (((p.drop 4).take 4).map BitVec.toNat) (host p 0 4)
  | .ip6Saddr | .ip6Daddr => ∃ ws, Addr6 s ws ∧ (p.take 16).map BitVec.toNat = bytesOf ws
  | .ip6Snet | .ip6Dnet => ∃ ws, NetText Addr6 128 s ws (host p 0 4) ∧ ((p.drop 4).take 16).map BitVec.toNat = bytesOf ws
  | .ip4Dscp | .ip6Dscp => NamedBy Doc.Dscp 63 s (host p 0 1)
  | .tcpFlags => FlagsText s (host p 0 1)
  | .icmpType => NamedBy (fun x n => Doc.icmp n = some x) 255 s (host p 0 1)
  | .icmpv6Type => NamedBy (fun x n => Doc.icmpv6 n = some x) 255 s (host p 0 1)
  | .icmpCode | .icmpv6Code => NumText s (host p 0 1)
  | .set => False

/-- The operators the type has payloads for. -/
def hasText : MType → MOp → Prop
  | .metaIface, o | .metaL3Proto, o | .metaL4Proto, o | .metaProbability, o | .metaFlowProbability, o | .metaMark, o | .ip4Dscp, o | .ip6Dscp, o => o = .eq
  | .metaFlowHash, o | .metaSport, o | .metaDport, o => o = .eq ∨ o = .range
  | .tcpSport, o | .tcpDport, o | .udpSport, o | .udpDport, o => o = .eq ∨ o = .in_ ∨ o = .range
  | .tcpFlags, o => o = .eq ∨ o = .any ∨ o = .all
  | .set, _ => False
  | _, o => o = .eq ∨ o = .in_

/-- No blanks, no plus sign, and every dash after a letter or a digit. -/
def Ordinary (s : List Char) : Prop :=
  s ≠ [] ∧ (∀ c ∈ s, c ∉ [' ', '\t', '\n', '\x0b', '\x0c', '\r', '+']) ∧ ∀ a b, s = a ++ '-' :: b → ∃ c, a.getLast? = some c ∧ (c.isAlpha = true ∨ c.isDigit = true)

/-- The longest text that is read whole. -/
def room : MType → MOp → Option Nat
  | .metaFlowHash, .range => some 31
  | .metaSport, .range | .metaDport, .range | .tcpSport, .range | .tcpDport, .range | .udpSport, .range | .udpDport, .range => some 15
  | .ip4Snet, _ | .ip4Dnet, _ => some 31
  | .ip6Snet, _ | .ip6Dnet, _ => some 49
  | _, _ => none

end Bf.Spec
