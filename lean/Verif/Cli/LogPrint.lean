import Verif.Cli.Dump
import Verif.Machine.Sem
/-!
# Printing log entries (bfcli/print.c, `bfcli chain logs`)

Output is a list of characters; `→` is one character.  Bytes of a process name are shown as the characters of the same number.
-/
namespace Bf.Cli

/-- runtime.h:113-205 `struct bf_log` as it lies in the log buffer.  The two structures of the union are kept apart, as only the one that `log_type`
tells is read; the headers are arrays of 16, 40 and 24 bytes, of which the chain may have written only the first. -/
structure LogSlot where
  ts : BitVec 64
  ruleId : BitVec 32
  verdict : BitVec 32
  l3Proto : BitVec 16
  l4Proto : BitVec 8
  /-- `BF_LOG_TYPE_PACKET` is 0, `BF_LOG_TYPE_SOCK_ADDR` is 1 -/
  logType : BitVec 8
  pktSize : BitVec 64
  reqHeaders : BitVec 4
  headers : BitVec 4
  l2hdr : List Byte
  l3hdr : List Byte
  l4hdr : List Byte
  pid : BitVec 32
  dport : BitVec 16
  captured : BitVec 8
  comm : List Byte
  saddr : List Byte
  daddr : List Byte

/-- The terminal: whether colours are printed (logger.c:18-22, both outputs are terminals), and `strftime("%H:%M:%S", localtime(sec))`. -/
structure Term where
  tty : Bool
  clock : Int → List Char

/-- logger.c:24-68 `bf_logger_get_color`: the codes that print.c uses.  The style is the `0` or `1` in front. -/
def colour (t : Term) (code : String) : List Char := if t.tty then '\x1b' :: '[' :: (str code ++ ['m']) else []

/-- A text between a colour and `BF_COLOR_RESET`. -/
def paint (t : Term) (code : String) (s : List Char) : List Char := colour t code ++ (s ++ colour t "0")

/-- `%-wu`, `%-ws`: blanks up to the width. -/
def padRight (w : Nat) (s : List Char) : List Char := s ++ List.replicate (w - s.length) ' '

/-- `%0wld`. -/
def padZero (w : Nat) (z : Int) : List Char :=
  let d := printNat 10 z.natAbs
  if 0 ≤ z then List.replicate (w - d.length) '0' ++ d else '-' :: (List.replicate (w - 1 - d.length) '0' ++ d)

/-- The `n` bytes at offset `o` of a header, as a number in network byteorder: `be16toh`, `be32toh`. -/
def beField (h : List Byte) (o n : Nat) : Nat := Spec.beNat ((h.drop o).take n)

/-- A byte of a header. -/
def byteField (h : List Byte) (o : Nat) : Nat := beField h o 1

/-- verdict.c:42-55 `bf_verdict_to_str`. -/
def verdictName (v : BitVec 32) : List Char :=
  match v.toNat with
  | 0 => str "ACCEPT"
  | 1 => str "DROP"
  | 2 => str "CONTINUE"
  | 3 => str "REDIRECT"
  | 4 => str "NEXT"
  | _ => str "<bf_verdict unknown>"

/-- print.c:374-403 `_bf_chain_log_header`. -/
def logHeader (t : Term) (s : LogSlot) : List Char :=
  '\n' :: (colour t "0;96" ++ ('[' :: (t.clock (s.ts.toInt.tdiv 1000000000) ++ ('.' :: (padZero 6 ((s.ts.toInt.tmod 1000000000).tdiv 1000) ++
    (']' :: (colour t "0" ++ (str " Rule #" ++ (printNat 10 s.ruleId.toNat ++
    ((if s.logType = 0 then str " matched " ++ (paint t "1;39" (printNat 10 s.pktSize.toNat ++ str " bytes") ++ str " with") else []) ++
    (str " verdict " ++ (verdictName s.verdict ++ ['\n']))))))))))))

/-- Six bytes as `%02x:%02x:%02x:%02x:%02x:%02x`. -/
def macText : List Byte → List Char
  | [] => []
  | [b] => hexByte b
  | b :: m => hexByte b ++ (':' :: macText m)

/-- print.c:405-435 `_bf_chain_log_l2`: `struct ethhdr` has `h_dest`, `h_source`, `h_proto`. -/
def logL2 (t : Term) (s : LogSlot) : List Char :=
  if s.headers.getLsbD 0 = false then str "  Ethernet  : <unknown header>\n"
  else
    str "  Ethernet  : " ++ (paint t "1;33" (macText ((s.l2hdr.drop 6).take 6)) ++ (str " → " ++
    (paint t "1;33" (macText ((s.l2hdr.drop 0).take 6)) ++
    match ethertypeToStr (beField s.l2hdr 12 2) with
    | some n => str " (" ++ (str n ++ str ")\n")
    | none => str " (" ++ (printHex4 (beField s.l2hdr 12 2) ++ str ")\n"))))

/-- `inet_ntop(AF_INET)` of the 4 bytes at `o`. -/
def ip4Text (h : List Byte) (o : Nat) : List Char := ntop4 (((h.drop o).take 4).map BitVec.toNat)

/-- `inet_ntop(AF_INET6)` of the 16 bytes at `o`. -/
def ip6Text (h : List Byte) (o : Nat) : List Char := ntop6 (bytesWords ((h.drop o).take 16))

/-- print.c:437-507 `_bf_chain_log_l3`. -/
def logL3 (t : Term) (s : LogSlot) : List Char :=
  if s.headers.getLsbD 1 = false then str "  Internet  : <unknown header>\n"
  else if s.l3Proto = 0x0800 then
    str "  IPv4      : " ++ (paint t "1;36" (padRight 15 (ip4Text s.l3hdr 12)) ++ (str " → " ++
    (paint t "1;36" (padRight 15 (ip4Text s.l3hdr 16)) ++
    match ipprotoToStr (byteField s.l3hdr 9) with
    | some n => str " [" ++ (paint t "1;95" (str n) ++ (str ", TTL=" ++ (printNat 10 (byteField s.l3hdr 8) ++ str "]\n")))
    | none => str " [proto=" ++ (printNat 10 (byteField s.l3hdr 9) ++ (str ", TTL=" ++ (printNat 10 (byteField s.l3hdr 8) ++ str "]\n"))))))
  else if s.l3Proto = 0x86DD then
    str "  IPv6      : " ++ (paint t "1;96" (ip6Text s.l3hdr 8) ++ (str " → " ++ (paint t "1;96" (ip6Text s.l3hdr 24) ++
    match ipprotoToStr (byteField s.l3hdr 6) with
    | some n => str " [" ++ (paint t "1;95" (str n) ++ (str ", Hop=" ++ (printNat 10 (byteField s.l3hdr 7) ++ str "]\n")))
    | none => str " [nexthdr=" ++ (printNat 10 (byteField s.l3hdr 6) ++ (str ", Hop=" ++ (printNat 10 (byteField s.l3hdr 7) ++ str "]\n"))))))
  else str "  Internet  : <unknown protocol " ++ (printHex4 s.l3Proto.toNat ++ str ">\n")

/-- print.c:354-372 `_bf_tcp_flags_to_str`: from flag `i`, `n` flags left, `first` if none was printed.  `struct tcphdr` has the flags, `fin` first, in
byte 13. -/
def tcpFlagsGo : Nat → Nat → Bool → Nat → List Char
  | 0, _, _, _ => []
  | n + 1, i, first, v =>
    if v.testBit i then
      match tcpFlagToStr i with
      | some f => (if first then [] else [',']) ++ (str f ++ tcpFlagsGo n (i + 1) false v)
      | none => tcpFlagsGo n (i + 1) first v
    else tcpFlagsGo n (i + 1) first v

/-- print.c:509-596 `_bf_chain_log_l4`. -/
def logL4 (t : Term) (s : LogSlot) : List Char :=
  if s.headers.getLsbD 2 = false then str "  Transport : <unknown header>\n"
  else if s.l4Proto = 6 then
    str "  TCP       : " ++ (paint t "1;93" (padRight 5 (printNat 10 (beField s.l4hdr 0 2))) ++ (str " → " ++
    (paint t "1;93" (padRight 5 (printNat 10 (beField s.l4hdr 2 2))) ++
    ((if tcpFlagsGo 8 0 true (byteField s.l4hdr 13) = [] then [] else str " [" ++ (paint t "1;92" (tcpFlagsGo 8 0 true (byteField s.l4hdr 13)) ++ str "]")) ++
    (str "\n              seq=" ++ (padRight 10 (printNat 10 (beField s.l4hdr 4 4)) ++ (str " ack=" ++ (padRight 10 (printNat 10 (beField s.l4hdr 8 4)) ++
    (str " win=" ++ (padRight 5 (printNat 10 (beField s.l4hdr 14 2)) ++ str "\n"))))))))))
  else if s.l4Proto = 17 then
    str "  UDP       : " ++ (paint t "1;93" (padRight 5 (printNat 10 (beField s.l4hdr 0 2))) ++ (str " → " ++
    (paint t "1;93" (padRight 5 (printNat 10 (beField s.l4hdr 2 2))) ++ (str " [len=" ++ (printNat 10 (beField s.l4hdr 4 2) ++ str "]\n")))))
  else if s.l4Proto = 1 then
    str "  ICMP      : type=" ++ (padRight 3 (printNat 10 (byteField s.l4hdr 0)) ++ (str " code=" ++ (padRight 3 (printNat 10 (byteField s.l4hdr 1)) ++
    if byteField s.l4hdr 0 = 8 ∨ byteField s.l4hdr 0 = 0 then
      str " [id=" ++ (printNat 10 (beField s.l4hdr 4 2) ++ (str " seq=" ++ (printNat 10 (beField s.l4hdr 6 2) ++ str "]\n")))
    else ['\n'])))
  else if s.l4Proto = 58 then
    str "  ICMPv6    : type=" ++ (padRight 3 (printNat 10 (byteField s.l4hdr 0)) ++ (str " code=" ++ (padRight 3 (printNat 10 (byteField s.l4hdr 1)) ++
    if byteField s.l4hdr 0 = 128 ∨ byteField s.l4hdr 0 = 129 then
      str " [id=" ++ (printNat 10 (beField s.l4hdr 4 2) ++ (str " seq=" ++ (printNat 10 (beField s.l4hdr 6 2) ++ str "]\n")))
    else ['\n'])))
  else str "  Transport : <unknown protocol " ++ (printNat 10 s.l4Proto.toNat ++ str ">\n")

/-- print.c:608-655: addresses and protocol of a socket operation; `get` is `inet_ntop` of the family. -/
def sockNet (t : Term) (s : LogSlot) (label code : String) (get : List Byte → Nat → List Char) : List Char :=
  str "  " ++ (padRight 10 (str label) ++ (str ": " ++
  ((if s.captured.getLsbD 0 then paint t code (get s.saddr 0) ++ [' '] else []) ++
  (str "→ " ++ (paint t code (get s.daddr 0) ++
  match ipprotoToStr s.l4Proto.toNat with
  | some n => str " [" ++ (paint t "1;95" (str n) ++ str "]\n")
  | none => str " [proto=" ++ (printNat 10 s.l4Proto.toNat ++ str "]\n"))))))

/-- print.c:598-678 `_bf_chain_log_sock_addr`.  `%.*s` of 16 bytes of the name: up to the first zero. -/
def logSock (t : Term) (s : LogSlot) : List Char :=
  (if s.l3Proto = 0x0800 then sockNet t s "IPv4" "1;36" ip4Text
   else if s.l3Proto = 0x86DD then sockNet t s "IPv6" "1;96" ip6Text
   else str "  Internet  : <unknown protocol " ++ (printHex4 s.l3Proto.toNat ++ str ">\n")) ++
  (str "  " ++ (padRight 10 (str (if s.l4Proto = 6 then "TCP" else if s.l4Proto = 17 then "UDP" else "Transport")) ++ (str ": → " ++
  (paint t "1;93" (padRight 5 (printNat 10 s.dport.toNat)) ++ ('\n' ::
  (str "  PID       : " ++ (paint t "1;93" (printNat 10 s.pid.toNat) ++ ('\n' ::
  (str "  Process   : " ++ (paint t "1;92" (((s.comm.take 16).takeWhile (· ≠ 0)).map fun b => Char.ofNat b.toNat) ++ ['\n']))))))))))

/-- print.c:680-701 `bfc_print_log`. -/
def printLog (t : Term) (s : LogSlot) : List Char :=
  logHeader t s ++
  (if s.logType = 0 then
    (if s.reqHeaders.getLsbD 0 then logL2 t s else []) ++
    ((if s.reqHeaders.getLsbD 1 then logL3 t s else []) ++
    (if s.reqHeaders.getLsbD 2 then logL4 t s else []))
  else if s.logType = 1 then logSock t s
  else [])

/-- chain.c:130-171 `_bf_handle_rb_log` and the loop of `bfc_chain_logs`: libbpf hands over the entries of the buffer one by one, in order. -/
def printLogs (t : Term) (l : List LogSlot) : List Char := l.flatMap (printLog t)

/-- The entry in the buffer is the one that the chain published (bpf/pkt_log.bpf.c, bpf/sock_addr_log.bpf.c; `LogRec`).  `bpf_ringbuf_reserve` does not
clear: bytes of a header after those that were captured are what was there. -/
structure LogSlot.Holds (s : LogSlot) (e : LogRec) : Prop where
  ts : s.ts = e.ts
  ruleId : s.ruleId = e.ruleId
  verdict : s.verdict = e.verdict
  l3Proto : s.l3Proto = e.l3Proto
  l4Proto : s.l4Proto = e.l4Proto
  logType : s.logType = if e.isPkt then 0 else 1
  pkt : e.isPkt = true → s.pktSize = e.pktSize ∧ s.reqHeaders = e.reqHeaders.setWidth 4 ∧ s.headers = e.headers.setWidth 4 ∧
    e.l2 <+: s.l2hdr ∧ e.l3 <+: s.l3hdr ∧ e.l4 <+: s.l4hdr
  sock : e.isPkt = false → s.dport = e.dport ∧ s.captured = e.captured ∧ s.daddr = e.daddr ∧ (∀ a, e.saddr = some a → s.saddr = a)

end Bf.Cli
