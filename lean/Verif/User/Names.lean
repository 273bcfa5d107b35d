import Verif.Gen.Types
import Verif.Pack.Read
/-!
# Names of the enumerations

`/repo/src/libbpfilter/{hook,verdict,matcher,rule,flavor,logger}.c`: the tables of strings and the conversions.
A C string is a Lean string of its bytes; `strcasecmp` is the one of the C locale (ASCII letters).
-/
namespace Bf

/-- helper.h:404-410 `bf_streq_i`: the characters once in lower case. -/
def lower (s : String) : List Char := s.toList.map Char.toLower
def streqI (a b : String) : Bool := lower a = lower b

/-- The loop of the `_from_str` functions: the index of the first entry equal to the string, then the value at this index.
A NULL entry of a sparse table is equal to nothing (helper.h:374-380, 404-410). -/
def fromTable {α : Type} (eq : String → String → Bool) (strs : List (Option String)) (vals : List α) (s : String) : Res α :=
  match strs.findIdx? (fun o => match o with | some n => eq n s | none => false) with
  | none => .err .EINVAL
  | some i => match vals[i]? with
    | some a => .ok a
    | none => .ub

/-- `_to_str`: the entry of the table at the value. -/
def toTable {α : Type} [DecidableEq α] (strs : List (Option String)) (vals : List α) (a : α) : Option String :=
  match strs[vals.idxOf a]? with
  | some o => o
  | none => none

def streq (a b : String) : Bool := a = b

/-- hook.c:27-43 `_bf_hook_strs`. -/
def Hook.strs : List (Option String) :=
  [some "BF_HOOK_XDP", some "BF_HOOK_TC_INGRESS", some "BF_HOOK_NF_PRE_ROUTING", some "BF_HOOK_NF_LOCAL_IN",
   some "BF_HOOK_NF_FORWARD", some "BF_HOOK_CGROUP_SKB_INGRESS", some "BF_HOOK_CGROUP_SKB_EGRESS",
   some "BF_HOOK_NF_LOCAL_OUT", some "BF_HOOK_NF_POST_ROUTING", some "BF_HOOK_TC_EGRESS",
   some "BF_HOOK_CGROUP_SOCK_ADDR_CONNECT4", some "BF_HOOK_CGROUP_SOCK_ADDR_CONNECT6",
   some "BF_HOOK_CGROUP_SOCK_ADDR_SENDMSG4", some "BF_HOOK_CGROUP_SOCK_ADDR_SENDMSG6"]
/-- hook.c:45-51 `bf_hook_to_str`, of a valid value. -/
def Hook.toStr : Hook → Option String := toTable Hook.strs Hook.vals
/-- hook.c:53-65 `bf_hook_from_str`. -/
def Hook.fromStr : String → Res Hook := fromTable streq Hook.strs Hook.vals

/-- verdict.c:42-47 `_bf_verdict_strs` (the designators put CONTINUE before REDIRECT). -/
def Verdict.strs : List (Option String) := [some "ACCEPT", some "DROP", some "CONTINUE", some "REDIRECT", some "NEXT"]
/-- verdict.c:49-55 `bf_verdict_to_str`. -/
def Verdict.toStr : Verdict → Option String := toTable Verdict.strs Verdict.vals
/-- verdict.c:57-69 `bf_verdict_from_str`. -/
def Verdict.fromStr : String → Res Verdict := fromTable streq Verdict.strs Verdict.vals

/-- verdict.c:14-18 `_bf_redirect_dir_strs`. -/
def RedirDir.strs : List (Option String) := [some "in", some "out"]
/-- verdict.c:20-26 `bf_redirect_dir_to_str`. -/
def RedirDir.toStr : RedirDir → Option String := toTable RedirDir.strs RedirDir.vals
/-- verdict.c:28-40 `bf_redirect_dir_from_str`. -/
def RedirDir.fromStr : String → Res RedirDir := fromTable streq RedirDir.strs RedirDir.vals

/-- matcher.c:1466-1500 `_bf_matcher_type_strs`. -/
def MType.strs : List (Option String) :=
  [some "meta.iface", some "meta.l3_proto", some "meta.l4_proto", some "meta.probability", some "meta.sport",
   some "meta.dport", some "meta.mark", some "meta.flow_hash", some "meta.flow_probability", some "ip4.saddr",
   some "ip4.snet", some "ip4.daddr", some "ip4.dnet", some "ip4.proto", some "ip4.dscp", some "ip6.saddr", some "ip6.snet",
   some "ip6.daddr", some "ip6.dnet", some "ip6.nexthdr", some "ip6.dscp", some "tcp.sport", some "tcp.dport",
   some "tcp.flags", some "udp.sport", some "udp.dport", some "icmp.type", some "icmp.code", some "icmpv6.type",
   some "icmpv6.code", some "<set>"]
/-- matcher.c:1502-1508 `bf_matcher_type_to_str`. -/
def MType.toStr : MType → Option String := toTable MType.strs MType.vals
/-- matcher.c:1510-1523 `bf_matcher_type_from_str`. -/
def MType.fromStr : String → Res MType := fromTable streq MType.strs MType.vals

/-- matcher.c:1525-1531 `_bf_matcher_ops_strs`. -/
def MOp.strs : List (Option String) := [some "eq", some "any", some "all", some "in", some "range"]
/-- matcher.c:1533-1538 `bf_matcher_op_to_str`. -/
def MOp.toStr : MOp → Option String := toTable MOp.strs MOp.vals
/-- matcher.c:1540-1553 `bf_matcher_op_from_str`. -/
def MOp.fromStr : String → Res MOp := fromTable streq MOp.strs MOp.vals

/-- include/bpfilter/flavor.h:32-91 `enum bf_flavor`. -/
def Flavor.vals : List Flavor := [.tc, .nf, .xdp, .cgroupSkb, .sockAddr]
/-- flavor.c:10-26 `bf_flavor_to_str`. -/
def Flavor.strs : List (Option String) :=
  [some "BF_FLAVOR_TC", some "BF_FLAVOR_NF", some "BF_FLAVOR_XDP", some "BF_FLAVOR_CGROUP_SKB", some "BF_FLAVOR_CGROUP_SOCK_ADDR"]
def Flavor.toStr : Flavor → Option String := toTable Flavor.strs Flavor.vals

/-- logger.c:80-101: the log levels, by number. -/
def logLevelStrs : List (Option String) := [some "debug", some "info", some "warning", some "error", some "abort"]
def logLevelFromStr : String → Res Nat := fromTable streq logLevelStrs (List.range 5)

/-- rule.c:22-49: log options, by bit number, whatever the case. -/
def logOptStrs : List (Option String) := [some "link", some "internet", some "transport"]
def logOptFromStr : String → Res Nat := fromTable (fun n s => streqI s n) logOptStrs (List.range 3)
/-- rule.c:29-35 `bf_log_opt_to_str`. -/
def logOptToStr : Nat → Option String := toTable logOptStrs (List.range 3)

/-- matcher.c:1555-1582: TCP flags, by bit number, whatever the case. -/
def tcpFlagStrs : List (Option String) :=
  [some "fin", some "syn", some "rst", some "psh", some "ack", some "urg", some "ece", some "cwr"]
def tcpFlagFromStr : String → Res Nat := fromTable streqI tcpFlagStrs (List.range 8)
/-- matcher.c:1562-1567 `bf_tcp_flag_to_str`. -/
def tcpFlagToStr : Nat → Option String := toTable tcpFlagStrs (List.range 8)

/-- A table of 256 entries with designated initializers. -/
def sparse (l : List (Nat × String)) : List (Option String) :=
  (List.range 256).map fun i => (l.find? fun e => e.1 = i).map (·.2)

/-- matcher.c:1614-1621 `_bf_ipproto_strs`, with the values of linux/in.h and linux/in6.h. -/
def ipprotoNames : List (Nat × String) :=
  [(0, "hop"), (1, "icmp"), (2, "igmp"), (6, "tcp"), (17, "udp"), (43, "routing"), (44, "frag"), (47, "gre"), (51, "ah"),
   (60, "dst"), (58, "icmpv6"), (135, "mh")]
/-- matcher.c:1623-1626 `bf_ipproto_to_str`. -/
def ipprotoToStr : Nat → Option String := toTable (sparse ipprotoNames) (List.range 256)
/-- matcher.c:1628-1641 `bf_ipproto_from_str`. -/
def ipprotoFromStr : String → Res Nat := fromTable (fun n s => streqI s n) (sparse ipprotoNames) (List.range 256)

/-- matcher.c:1683-1702 `_bf_icmp_type_strs`, with the values of linux/icmp.h. -/
def icmpNames : List (Nat × String) :=
  [(0, "echo-reply"), (3, "destination-unreachable"), (4, "source-quench"), (5, "redirect"), (8, "echo-request"),
   (9, "router-advertisement"), (10, "router-solicitation"), (11, "time-exceeded"), (12, "parameter-problem"),
   (13, "timestamp-request"), (14, "timestamp-reply"), (15, "info-request"), (16, "info-reply"),
   (17, "address-mask-request"), (18, "address-mask-reply")]
def icmpTypeToStr : Nat → Option String := toTable (sparse icmpNames) (List.range 256)
/-- matcher.c:1709-1722 `bf_icmp_type_from_str`. -/
def icmpTypeFromStr : String → Res Nat := fromTable (fun n s => streqI s n) (sparse icmpNames) (List.range 256)

/-- matcher.c:1724-1744 `_bf_icmpv6_type_strs`, with the values of linux/icmpv6.h. -/
def icmpv6Names : List (Nat × String) :=
  [(1, "destination-unreachable"), (2, "packet-too-big"), (3, "time-exceeded"), (4, "parameter-problem"),
   (128, "echo-request"), (129, "echo-reply"), (130, "mld-listener-query"), (131, "mld-listener-report"),
   (132, "mld-listener-reduction"), (133, "nd-router-solicit"), (134, "nd-router-advert"), (135, "nd-neighbor-solicit"),
   (136, "nd-neighbor-advert"), (143, "mld2-listener-report")]
def icmpv6TypeToStr : Nat → Option String := toTable (sparse icmpv6Names) (List.range 256)
/-- matcher.c:1751-1764 `bf_icmpv6_type_from_str`. -/
def icmpv6TypeFromStr : String → Res Nat := fromTable (fun n s => streqI s n) (sparse icmpv6Names) (List.range 256)

/-- matcher.c:1643-1656 `_bf_dscp_classes`. -/
def dscpClasses : List (String × Nat) :=
  [("cs0", 0), ("cs1", 8), ("cs2", 16), ("cs3", 24), ("cs4", 32), ("cs5", 40), ("cs6", 48), ("cs7", 56), ("af11", 10),
   ("af12", 12), ("af13", 14), ("af21", 18), ("af22", 20), ("af23", 22), ("af31", 26), ("af32", 28), ("af33", 30),
   ("af41", 34), ("af42", 36), ("af43", 38), ("ef", 46), ("voice-admit", 44), ("le", 1), ("nqb", 45), ("be", 0)]
/-- matcher.c:1658-1666 `bf_dscp_class_to_str`. -/
def dscpToStr (d : Nat) : Option String := (dscpClasses.find? fun e => e.2 = d).map (·.1)
/-- matcher.c:1668-1681 `bf_dscp_class_from_str`. -/
def dscpFromStr (s : String) : Res Nat :=
  match dscpClasses.find? fun e => streqI s e.1 with
  | some e => .ok e.2
  | none => .err .EINVAL

/-- matcher.c:1584-1594 `bf_ethertype_to_str`. -/
def ethertypeToStr (n : Nat) : Option String :=
  if n = 0x0800 then some "ipv4" else if n = 0x86dd then some "ipv6" else none
/-- matcher.c:1596-1612 `bf_ethertype_from_str`. -/
def ethertypeFromStr (s : String) : Res Nat :=
  if streqI s "ipv4" then .ok 0x0800 else if streqI s "ipv6" then .ok 0x86dd else .err .EINVAL

end Bf
