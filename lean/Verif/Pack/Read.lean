import Verif.Pack.Mpack
import Verif.Chain.Update
/-!
# Reading and writing serialized chains

`/repo/src/libbpfilter/pack.c`, and the `_pack` and `_new_from_pack` functions of `matcher.c`, `rule.c`, `set.c`, `chain.c`.

A C string is a Lean string whose characters are its bytes (1 to 255).  mpack keeps an error flag in the tree once an
access fails (`mpack_node_flag_error`); the readers return at the first error, so it is only seen by the keys that
are looked for before being read (`kvContains`).
-/
namespace Bf

/-- The bytes of a C string, without the final NUL. -/
def cstr (s : String) : List Byte := s.toList.map fun c => BitVec.ofNat 8 c.toNat
/-- The C string of some bytes. -/
def ofCstr (b : List Byte) : String := String.ofList (b.map fun x => Char.ofNat x.toNat)

/-- The values of a map of a given key: mpack.c:6698-6728 `mpack_node_map_str_impl`. -/
def lookups : List Node → List Byte → List Node
  | .str k :: v :: l, key => if k = key then v :: lookups l key else lookups l key
  | _ :: _ :: l, key => lookups l key
  | _, _ => []

/-- pack.c:332-352 `bf_rpack_kv_node`.  A key found twice counts as missing (mpack.c:6717-6720). -/
def kvNode (n : Node) (key : String) : Res Node :=
  match n with
  | .map l => match lookups l (cstr key) with
    | [v] => .ok v
    | _ => .err .ENOENT
  | _ => .err .EDOM

/-- pack.c:327-330 `bf_rpack_kv_contains`.  A node that is not a map, or a key found twice, is an error which the next read
reports (pack.c:340-341). -/
def kvContains (n : Node) (key : String) : Res Bool :=
  match n with
  | .map l => match lookups l (cstr key) with
    | [_] => .ok true
    | [] => .ok false
    | _ => .err .EINVAL
  | _ => .err .EINVAL

/-- pack.c:387-405, 419-533 `bf_rpack_uint`, `bf_rpack_u8`... `bf_rpack_u64`: `max` is the largest value of the type. -/
def readUint (max : Nat) : Node → Res Nat
  | .uint n => if n ≤ max then .ok n else .err .EINVAL
  | _ => .err .EDOM

/-- pack.c:354-373 `bf_rpack_int`. -/
def readInt : Node → Res Int
  | .uint n => if n ≤ 2147483647 then .ok n else .err .EINVAL
  | .int z => if -2147483648 ≤ z ∧ z ≤ 2147483647 then .ok z else .err .EINVAL
  | _ => .err .EDOM

/-- pack.c:582-600 `bf_rpack_bool`. -/
def readBool : Node → Res Bool
  | .bool b => .ok b
  | _ => .err .EDOM

/-- pack.c:547-565 `bf_rpack_str`. -/
def readStr : Node → Res String
  | .str b => if b.contains 0 then .err .EINVAL else .ok (ofCstr b)
  | _ => .err .EDOM

/-- pack.c:614-635 `bf_rpack_bin`. -/
def readBin : Node → Res (List Byte)
  | .bin b => .ok b
  | _ => .err .EDOM

/-- pack.c:671-690 `bf_rpack_kv_array`: the elements. -/
def readArr : Node → Res (List Node)
  | .arr l => .ok l
  | _ => .err .EDOM

/-- include/bpfilter/pack.h:344-360 `bf_rpack_enum`, of the values `all`. -/
def readEnum {α : Type} (all : List α) (n : Node) : Res α :=
  (readInt n).bind fun z =>
    if z < 0 then .err .EINVAL else
    match all[z.toNat]? with
    | some a => .ok a
    | none => .err .EINVAL

/-- `bf_rpack_array_foreach` (include/bpfilter/pack.h:293-301) with `bf_list_emplace`. -/
def readAll {α : Type} (f : Node → Res α) : List Node → Res (List α)
  | [] => .ok []
  | n :: l => (f n).bind fun a => (readAll f l).bind fun as => .ok (a :: as)

/-- include/bpfilter/matcher.h:50-115: the values of `enum bf_matcher_type`, in order. -/
def MType.vals : List MType :=
  [.metaIface, .metaL3Proto, .metaL4Proto, .metaProbability, .metaSport, .metaDport, .metaMark, .metaFlowHash,
   .metaFlowProbability, .ip4Saddr, .ip4Snet, .ip4Daddr, .ip4Dnet, .ip4Proto, .ip4Dscp, .ip6Saddr, .ip6Snet, .ip6Daddr,
   .ip6Dnet, .ip6Nexthdr, .ip6Dscp, .tcpSport, .tcpDport, .tcpFlags, .udpSport, .udpDport, .icmpType, .icmpCode,
   .icmpv6Type, .icmpv6Code, .set]
/-- include/bpfilter/matcher.h:183-196 `enum bf_matcher_op`. -/
def MOp.vals : List MOp := [.eq, .any, .all, .in_, .range]
/-- include/bpfilter/hook.h:31-48 `enum bf_hook`. -/
def Hook.vals : List Hook :=
  [.xdp, .tcIngress, .nfPreRouting, .nfLocalIn, .nfForward, .cgroupSkbIngress, .cgroupSkbEgress, .nfLocalOut,
   .nfPostRouting, .tcEgress, .connect4, .connect6, .sendmsg4, .sendmsg6]
/-- include/bpfilter/verdict.h:45-63 `enum bf_verdict`. -/
def Verdict.vals : List Verdict := [.accept, .drop, .continue_, .redirect, .next]
/-- include/bpfilter/verdict.h:13-20 `enum bf_redirect_dir`. -/
def RedirDir.vals : List RedirDir := [.ingress, .egress]

/-- include/bpfilter/pack.h:143 `bf_wpack_enum`: written as an `int`. -/
def enumNode {α : Type} [DecidableEq α] (all : List α) (a : α) : Node := .uint (all.idxOf a)

def key (s : String) : Node := .str (cstr s)

/-- matcher.c:1394-1407 `bf_matcher_pack`. -/
def matcherNode (m : Matcher) : Node :=
  .map [key "type", enumNode MType.vals m.type, key "op", enumNode MOp.vals m.op, key "negate", .bool m.negate,
    key "payload", .bin m.payload]

/-- matcher.c:1344-1381 `bf_matcher_new_from_pack`.  `bf_matcher_new` asserts that a payload given by its address
is not empty (matcher.c:1292). -/
def matcherUnpack (n : Node) : Res Matcher :=
  (kvNode n "type").bind fun x => (readEnum MType.vals x).bind fun type =>
  (kvNode n "op").bind fun x => (readEnum MOp.vals x).bind fun op =>
  (kvContains n "negate").bind fun b =>
  (if b then (kvNode n "negate").bind readBool else .ok false).bind fun negate =>
  (kvNode n "payload").bind fun x => (readBin x).bind fun payload =>
  if payload = [] then .ub else .ok ⟨type, op, payload, negate⟩

/-- rule.c:161-178 `bf_rule_pack`. -/
def ruleNode (r : Rule) : Node :=
  .map [key "index", .uint r.index, key "log", .uint r.log.toNat, key "log_rate_ns", .uint r.rate.toNat,
    key "has_counters", .bool r.hasCounters, key "mark", .uint r.mark.toNat,
    key "verdict", enumNode Verdict.vals r.verdict, key "redirect_ifindex", .uint r.redirIfindex.toNat,
    key "redirect_dir", enumNode RedirDir.vals r.redirDir, key "matchers", .arr (r.matchers.map matcherNode)]

/-- rule.c:68-146 `bf_rule_new_from_pack`. -/
def ruleUnpack (n : Node) : Res Rule :=
  (kvNode n "index").bind fun x => (readUint 4294967295 x).bind fun index =>
  (kvNode n "log").bind fun x => (readUint 255 x).bind fun log =>
  (kvContains n "log_rate_ns").bind fun b =>
  (if b then (kvNode n "log_rate_ns").bind (readUint 18446744073709551615) else .ok 0).bind fun rate =>
  (kvContains n "has_counters").bind fun b =>
  (if b then (kvNode n "has_counters").bind readBool else
    (kvContains n "counters").bind fun b =>
      if b then (kvNode n "counters").bind readBool else .err .ENOENT).bind fun hasCounters =>
  (kvNode n "mark").bind fun x => (readUint 18446744073709551615 x).bind fun mark =>
  (kvNode n "verdict").bind fun x => (readEnum Verdict.vals x).bind fun verdict =>
  (kvContains n "redirect_ifindex").bind fun b =>
  (if b then (kvNode n "redirect_ifindex").bind (readUint 4294967295) else .ok 0).bind fun redirIfindex =>
  (kvContains n "redirect_dir").bind fun b =>
  (if b then (kvNode n "redirect_dir").bind (readEnum RedirDir.vals) else .ok .ingress).bind fun redirDir =>
  (kvNode n "matchers").bind fun x => (readArr x).bind fun l => (readAll matcherUnpack l).bind fun matchers =>
  .ok ⟨index, matchers, BitVec.ofNat 8 log, BitVec.ofNat 64 rate, BitVec.ofNat 64 mark, hasCounters, false, verdict,
    BitVec.ofNat 32 redirIfindex, redirDir⟩

/-- set.c:356-377 `bf_set_pack`. -/
def setNode (s : BSet) : Node :=
  .map [key "name", (match s.name with | some x => .str (cstr x) | none => .nil),
    key "key", .arr (s.key.map (enumNode MType.vals)), key "elements", .arr (s.elems.map .bin)]

/-- set.c:299-312: the components of the key, `n` of which have been read. -/
def keyUnpack : Nat → List Node → Res (List MType)
  | _, [] => .ok []
  | n, x :: l => if 8 < n + 1 then .err .E2BIG else
    (readEnum MType.vals x).bind fun t => (keyUnpack (n + 1) l).bind fun ts => .ok (t :: ts)

/-- set.c:321-337: the elements. -/
def elemsUnpack (s : BSet) : List Node → Res BSet
  | [] => .ok s
  | x :: l => (readBin x).bind fun e =>
    if e.length ≠ s.elemSize then .err .EINVAL else elemsUnpack { s with elems := addElem s.elems e } l

/-- set.c:276-342 `bf_set_new_from_pack`. -/
def setUnpack (n : Node) : Res BSet :=
  (kvNode n "name").bind fun x =>
  (show Res (Option String) from match x with | .nil => .ok none | x => (readStr x).bind fun s => .ok (some s)).bind fun name =>
  (kvNode n "key").bind fun x => (readArr x).bind fun l => (keyUnpack 0 l).bind fun k =>
  (setNew name k).bind fun s =>
  (kvNode n "elements").bind fun x => (readArr x).bind fun l => elemsUnpack s l

/-- chain.c:365-378 `bf_chain_pack`. -/
def chainNode (c : Chain) : Node :=
  .map [key "name", .str (cstr c.name), key "hook", enumNode Hook.vals c.hook, key "policy", enumNode Verdict.vals c.policy,
    key "sets", .arr (c.sets.map setNode), key "rules", .arr (c.rules.map ruleNode)]

/-- chain.c:296-350 `bf_chain_new_from_pack`. -/
def chainUnpack (n : Node) : Res Chain :=
  (kvNode n "name").bind fun x => (readStr x).bind fun name =>
  (kvNode n "hook").bind fun x => (readEnum Hook.vals x).bind fun hook =>
  (kvNode n "policy").bind fun x => (readEnum Verdict.vals x).bind fun policy =>
  (kvNode n "sets").bind fun x => (readArr x).bind fun l => (readAll setUnpack l).bind fun sets =>
  (kvNode n "rules").bind fun x => (readArr x).bind fun l => (readAll ruleUnpack l).bind fun rules =>
  chainNew name hook policy sets rules

/-- chain.c:482-506: the bytes of a chain (`bf_wpack_new`, `bf_chain_pack`, `bf_wpack_get_data`). -/
def chainBytes (c : Chain) : List Byte := enc (chainNode c)

/-- chain.c:508-513: a chain from bytes (`bf_rpack_new`, `bf_chain_new_from_pack`). -/
def chainOfBytes (bs : List Byte) : Res Chain :=
  match rpackNew bs with
  | none => .err .EINVAL
  | some n => chainUnpack n

end Bf
