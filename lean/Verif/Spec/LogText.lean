import Verif.Spec.PayloadText
import Verif.Spec.Eval
/-!
# Specification: what `bfcli chain logs` prints

bfcli.rst "chain logs": every entry begins with the time, the index of the rule and the verdict; for packets, the size and then the headers of each layer
the rule asks for; for sockets, the addresses, the destination port, the process.  Numbers and addresses are as in `Spec/PayloadText.lean`.
-/
namespace Bf.Spec

/-- `u` is the text `t` without the codes that change colours. -/
inductive Coloured : List Char → List Char → Prop
  | nil : Coloured [] []
  | char {c : Char} {t u : List Char} : c ≠ '\x1b' → Coloured t u → Coloured (c :: t) (c :: u)
  | code {b t u : List Char} : (∀ c ∈ b, c = ';' ∨ ∃ v, v < 10 ∧ DigitIs c v) → Coloured t u → Coloured ('\x1b' :: '[' :: (b ++ 'm' :: t)) u

/-- A text followed by blanks. -/
def Filled (T : List Char → Prop) (t : List Char) : Prop := ∃ s k, T s ∧ t = s ++ List.replicate k ' '

/-- Bytes as two hexadecimal digits each, with colons between them. -/
inductive MacText : List Byte → List Char → Prop
  | one {b : Byte} {t : List Char} : Numeral 16 t b.toNat → t.length = 2 → MacText [b] t
  | more {b : Byte} {m : List Byte} {t u : List Char} : Numeral 16 t b.toNat → t.length = 2 → MacText m u → MacText (b :: m) (t ++ ':' :: u)

/-- An EtherType: its name if it has one, or else its number. -/
def EtherText (n : Nat) (t : List Char) : Prop := EtherName (String.ofList t) n ∨ ((∀ x, ¬ EtherName x n) ∧ Hex t n)

/-- A protocol: its name if it has one, or else its number after a word. -/
def ProtoText (pre : String) (n : Nat) (t : List Char) : Prop :=
  Doc.ipproto n = some (String.ofList t) ∨ (Doc.ipproto n = none ∧ ∃ d, Numeral 10 d n ∧ t = pre.toList ++ d)

/-- The `n` bytes at `o`. -/
def part (h : List Byte) (o n : Nat) : List Byte := (h.drop o).take n

/-- An IPv4 address. -/
def Ip4Text (a : List Byte) (t : List Char) : Prop := Addr4 t (a.map BitVec.toNat)

/-- An IPv6 address. -/
def Ip6Text (a : List Byte) (t : List Char) : Prop := ∃ ws, Addr6 t ws ∧ a.map BitVec.toNat = bytesOf ws

/-- The line of an Ethernet header: source, destination, type. -/
def LinkText (h : List Byte) (t : List Char) : Prop :=
  ∃ s d e, MacText (part h 6 6) s ∧ MacText (part h 0 6) d ∧ EtherText (beNat (part h 12 2)) e ∧
    t = "  Ethernet  : ".toList ++ s ++ " → ".toList ++ d ++ " (".toList ++ e ++ ")\n".toList

/-- The line of a network header: source, destination, protocol, time to live. -/
def InetText : Net × List Byte → List Char → Prop
  | (.ip4, h), t => ∃ s d p n, Filled (Ip4Text (part h 12 4)) s ∧ Filled (Ip4Text (part h 16 4)) d ∧ ProtoText "proto=" (beNat (part h 9 1)) p ∧
      Numeral 10 n (beNat (part h 8 1)) ∧
      t = "  IPv4      : ".toList ++ s ++ " → ".toList ++ d ++ " [".toList ++ p ++ ", TTL=".toList ++ n ++ "]\n".toList
  | (.ip6, h), t => ∃ s d p n, Ip6Text (part h 8 16) s ∧ Ip6Text (part h 24 16) d ∧ ProtoText "nexthdr=" (beNat (part h 6 1)) p ∧
      Numeral 10 n (beNat (part h 7 1)) ∧
      t = "  IPv6      : ".toList ++ s ++ " → ".toList ++ d ++ " [".toList ++ p ++ ", Hop=".toList ++ n ++ "]\n".toList

/-- The flags of a TCP header, the lowest bit first. -/
def flagNames (v : Nat) : List (List Char) := ((List.range 8).filter fun i => v.testBit i).filterMap fun i => (Doc.tcpFlag i).map String.toList

/-- Nothing if there are no flags. -/
def FlagText (v : Nat) (t : List Char) : Prop :=
  (flagNames v = [] ∧ t = []) ∨ (flagNames v ≠ [] ∧ t = " [".toList ++ List.intercalate [','] (flagNames v) ++ "]".toList)

/-- Identifier and number of an echo. -/
def EchoText (echo : Bool) (h : List Byte) (t : List Char) : Prop :=
  if echo then ∃ i q, Numeral 10 i (beNat (part h 4 2)) ∧ Numeral 10 q (beNat (part h 6 2)) ∧ t = " [id=".toList ++ i ++ " seq=".toList ++ q ++ "]".toList
  else t = []

/-- The lines of a transport header: ports, flags, sequence numbers, window; ports, length; type, code. -/
def TransText : Trans × List Byte → List Char → Prop
  | (.tcp, h), t => ∃ s d f q a w, Filled (Numeral 10 · (beNat (part h 0 2))) s ∧ Filled (Numeral 10 · (beNat (part h 2 2))) d ∧
      FlagText (beNat (part h 13 1)) f ∧ Filled (Numeral 10 · (beNat (part h 4 4))) q ∧ Filled (Numeral 10 · (beNat (part h 8 4))) a ∧
      Filled (Numeral 10 · (beNat (part h 14 2))) w ∧
      t = "  TCP       : ".toList ++ s ++ " → ".toList ++ d ++ f ++ "\n              seq=".toList ++ q ++ " ack=".toList ++ a ++ " win=".toList ++ w ++ ['\n']
  | (.udp, h), t => ∃ s d n, Filled (Numeral 10 · (beNat (part h 0 2))) s ∧ Filled (Numeral 10 · (beNat (part h 2 2))) d ∧
      Numeral 10 n (beNat (part h 4 2)) ∧
      t = "  UDP       : ".toList ++ s ++ " → ".toList ++ d ++ " [len=".toList ++ n ++ "]\n".toList
  | (.icmp, h), t => ∃ y c e, Filled (Numeral 10 · (beNat (part h 0 1))) y ∧ Filled (Numeral 10 · (beNat (part h 1 1))) c ∧
      EchoText (beNat (part h 0 1) = 8 ∨ beNat (part h 0 1) = 0) h e ∧
      t = "  ICMP      : type=".toList ++ y ++ " code=".toList ++ c ++ e ++ ['\n']
  | (.icmp6, h), t => ∃ y c e, Filled (Numeral 10 · (beNat (part h 0 1))) y ∧ Filled (Numeral 10 · (beNat (part h 1 1))) c ∧
      EchoText (beNat (part h 0 1) = 128 ∨ beNat (part h 0 1) = 129) h e ∧
      t = "  ICMPv6    : type=".toList ++ y ++ " code=".toList ++ c ++ e ++ ['\n']

/-- One line that says the layer is unknown. -/
def Unknown (label : String) (t : List Char) : Prop := ∃ w, t = label.toList ++ "<unknown ".toList ++ w ++ ">\n".toList ∧ '\n' ∉ w ∧ '>' ∉ w

/-- A layer, if the rule asks for it. -/
def Asked (asked : Bool) (T : List Char → Prop) (t : List Char) : Prop := if asked then T t else t = []

/-- A header that the packet has, or a line that says it is unknown. -/
def OrUnknown {α : Type} (label : String) (T : α → List Char → Prop) : Option α → List Char → Prop
  | some a => T a
  | none => Unknown label

/-- The link header, if it is known. -/
def LinkLine : Option (List Byte) → List Char → Prop
  | some h => LinkText h
  | none => fun t => ∃ w, t = "  Ethernet  : ".toList ++ w ++ ['\n'] ∧ '\n' ∉ w

/-- The verdicts (bfcli.rst). -/
def verdictWord : Verdict → String
  | .accept => "ACCEPT" | .drop => "DROP" | .continue_ => "CONTINUE" | .redirect => "REDIRECT" | .next => "NEXT"

/-- The time of the entry, in nanoseconds: time of the day, then microseconds. -/
def StampText (clock : Int → List Char) (ts : Nat) (t : List Char) : Prop :=
  ∃ us, Numeral 10 us (ts / 1000 % 1000000) ∧ us.length = 6 ∧ t = "[".toList ++ clock (ts / 1000000000 : Nat) ++ ".".toList ++ us ++ "]".toList

/-- What is printed of a packet that rule `j` logged. -/
def PacketReport (clock : Int → List Char) (ts j : Nat) (verdict : Verdict) (size : Nat) (link net trans : List Char → Prop) (u : List Char) : Prop :=
  ∃ a b c l n t, StampText clock ts a ∧ Numeral 10 b j ∧ Numeral 10 c size ∧ link l ∧ net n ∧ trans t ∧
    u = "\n".toList ++ a ++ " Rule #".toList ++ b ++ " matched ".toList ++ c ++ " bytes with verdict ".toList ++ (verdictWord verdict).toList ++ "\n".toList ++
      l ++ n ++ t

/-- The word for a transport protocol of a socket. -/
def sockWord (proto : Nat) : String := if proto = 6 then "TCP       : " else if proto = 17 then "UDP       : " else "Transport : "

/-- The source address, if it is known. -/
def SrcText (T : List Byte → List Char → Prop) : Option (List Byte) → List Char → Prop
  | some a, s => ∃ x, T a x ∧ s = x ++ [' ']
  | none, s => s = []

/-- The addresses of a socket operation. -/
def SockAddrText (T : List Byte → List Char → Prop) (label : String) (src : Option (List Byte)) (dst : List Byte) (proto : Nat) (t : List Char) : Prop :=
  ∃ s d p, SrcText T src s ∧ T dst d ∧ ProtoText "proto=" proto p ∧
    t = label.toList ++ s ++ "→ ".toList ++ d ++ " [".toList ++ p ++ "]\n".toList

/-- What is printed of a socket operation that rule `j` logged. -/
def SockReport (clock : Int → List Char) (ts j : Nat) (verdict : Verdict) (addrs : List Char → Prop) (proto port pid : Nat) (name : List Char)
    (u : List Char) : Prop :=
  ∃ a b l p i, StampText clock ts a ∧ Numeral 10 b j ∧ addrs l ∧ Filled (Numeral 10 · port) p ∧ Numeral 10 i pid ∧
    u = "\n".toList ++ a ++ " Rule #".toList ++ b ++ " verdict ".toList ++ (verdictWord verdict).toList ++ "\n".toList ++ l ++
      "  ".toList ++ (sockWord proto).toList ++ "→ ".toList ++ p ++ "\n  PID       : ".toList ++ i ++ "\n  Process   : ".toList ++ name ++ "\n".toList

end Bf.Spec
