import Verif.Machine.Mem
import Verif.Machine.Sem
/-!
# Chains, rules, matchers and sets

Data model of `/repo/src/libbpfilter/{chain,rule,matcher,set,hook,verdict}.c` and of the matcher
metadata table.
-/
namespace Bf

/-- include/bpfilter/matcher.h `enum bf_matcher_type`, in declaration order. -/
inductive MType
  | metaIface | metaL3Proto | metaL4Proto | metaProbability | metaSport | metaDport | metaMark
  | metaFlowHash | metaFlowProbability
  | ip4Saddr | ip4Snet | ip4Daddr | ip4Dnet | ip4Proto | ip4Dscp
  | ip6Saddr | ip6Snet | ip6Daddr | ip6Dnet | ip6Nexthdr | ip6Dscp
  | tcpSport | tcpDport | tcpFlags | udpSport | udpDport
  | icmpType | icmpCode | icmpv6Type | icmpv6Code | set
  deriving DecidableEq, Repr

/-- include/bpfilter/matcher.h `enum bf_matcher_op`. -/
inductive MOp
  | eq | any | all | in_ | range
  deriving DecidableEq, Repr

/-- include/bpfilter/hook.h `enum bf_hook`. -/
inductive Hook
  | xdp | tcIngress | nfPreRouting | nfLocalIn | nfForward | cgroupSkbIngress | cgroupSkbEgress
  | nfLocalOut | nfPostRouting | tcEgress
  | connect4 | connect6 | sendmsg4 | sendmsg6
  deriving DecidableEq, Repr

/-- include/bpfilter/verdict.h `enum bf_verdict`. -/
inductive Verdict
  | accept | drop | continue_ | redirect | next
  deriving DecidableEq, Repr

/-- Numeric value of a verdict (enum order). -/
def Verdict.code : Verdict → Nat
  | .accept => 0 | .drop => 1 | .continue_ => 2 | .redirect => 3 | .next => 4

/-- include/bpfilter/verdict.h `enum bf_redirect_dir`. -/
inductive RedirDir
  | ingress | egress
  deriving DecidableEq, Repr

/-- hook.c:67-89 `bf_hook_to_flavor`. -/
def Hook.flavor : Hook → Flavor
  | .xdp => .xdp
  | .tcIngress | .tcEgress => .tc
  | .nfPreRouting | .nfLocalIn | .nfForward | .nfLocalOut | .nfPostRouting => .nf
  | .cgroupSkbIngress | .cgroupSkbEgress => .cgroupSkb
  | .connect4 | .connect6 | .sendmsg4 | .sendmsg6 => .sockAddr

/-- include/bpfilter/matcher.h `struct bf_matcher`: type, operator, payload bytes, negation. -/
structure Matcher where
  type : MType
  op : MOp
  payload : List Byte
  negate : Bool
  deriving DecidableEq, Repr

/-- include/bpfilter/set.h `struct bf_set`; `elems` are the elements of the hashset (no duplicates,
insertion order; see the hashset theorems). -/
structure BSet where
  name : Option String
  key : List MType
  elemSize : Nat
  useTrie : Bool
  elems : List (List Byte)
  deriving DecidableEq, Repr

/-- include/bpfilter/rule.h `struct bf_rule`. -/
structure Rule where
  index : Nat
  matchers : List Matcher
  log : BitVec 8
  rate : BitVec 64
  mark : BitVec 64
  hasCounters : Bool
  disabled : Bool
  verdict : Verdict
  redirIfindex : BitVec 32
  redirDir : RedirDir
  deriving DecidableEq, Repr

/-- include/bpfilter/chain.h `struct bf_chain` (flags as booleans). -/
structure Chain where
  name : String
  hook : Hook
  policy : Verdict
  sets : List BSet
  rules : List Rule
  flagLog : Bool
  flagRate : Bool
  flagNexthdr : Bool
  deriving DecidableEq, Repr

/-- include/bpfilter/matcher.h `enum bf_matcher_layer` (the "undefined" value is not used by any
entry of the table). -/
inductive Layer
  | noLayer | l2 | l3 | l4
  deriving DecidableEq, Repr

/-- include/bpfilter/matcher.h `struct bf_matcher_meta`, without the operator callbacks. -/
structure Meta where
  layer : Layer
  hdrId : Nat
  size : Nat
  off : Nat
  deriving DecidableEq, Repr

/-- matcher.c:821-1262 `_bf_matcher_metas`: layer, protocol, field size, field offset. -/
def MType.meta_ : MType → Meta
  | .ip4Saddr => ⟨.l3, 0x0800, 4, 12⟩
  | .ip4Snet => ⟨.l3, 0x0800, 4, 12⟩
  | .ip4Daddr => ⟨.l3, 0x0800, 4, 16⟩
  | .ip4Dnet => ⟨.l3, 0x0800, 4, 16⟩
  | .ip4Proto => ⟨.l3, 0x0800, 1, 9⟩
  | .ip4Dscp => ⟨.l3, 0x0800, 1, 1⟩
  | .ip6Saddr => ⟨.l3, 0x86DD, 16, 8⟩
  | .ip6Snet => ⟨.l3, 0x86DD, 16, 8⟩
  | .ip6Daddr => ⟨.l3, 0x86DD, 16, 24⟩
  | .ip6Dnet => ⟨.l3, 0x86DD, 16, 24⟩
  | .ip6Nexthdr => ⟨.l3, 0x86DD, 1, 6⟩
  | .ip6Dscp => ⟨.l3, 0x86DD, 1, 0⟩
  | .tcpSport => ⟨.l4, 6, 2, 0⟩
  | .tcpDport => ⟨.l4, 6, 2, 2⟩
  | .tcpFlags => ⟨.l4, 6, 1, 13⟩
  | .udpSport => ⟨.l4, 17, 2, 0⟩
  | .udpDport => ⟨.l4, 17, 2, 2⟩
  | .icmpType => ⟨.l4, 1, 1, 0⟩
  | .icmpCode => ⟨.l4, 1, 1, 1⟩
  | .icmpv6Type => ⟨.l4, 58, 1, 0⟩
  | .icmpv6Code => ⟨.l4, 58, 1, 1⟩
  | _ => ⟨.noLayer, 0, 0, 0⟩

/-- matcher.c:821-1262 `ops[op].ref_payload_size` (0: operator not supported).
`sizeof(struct bf_ip6_lpm_key)` is 24 (4 + 16 + 4 bytes of padding). -/
def MType.refSize : MType → MOp → Nat
  | .metaIface, .eq => 4
  | .metaL3Proto, .eq => 2
  | .metaL4Proto, .eq => 2
  | .metaProbability, .eq => 4
  | .metaSport, .eq => 2 | .metaSport, .range => 4
  | .metaDport, .eq => 2 | .metaDport, .range => 4
  | .metaMark, .eq => 4
  | .metaFlowHash, .eq => 4 | .metaFlowHash, .range => 8
  | .metaFlowProbability, .eq => 4
  | .ip4Saddr, .eq => 4 | .ip4Saddr, .in_ => 4
  | .ip4Daddr, .eq => 4 | .ip4Daddr, .in_ => 4
  | .ip4Snet, .eq => 8 | .ip4Snet, .in_ => 8
  | .ip4Dnet, .eq => 8 | .ip4Dnet, .in_ => 8
  | .ip4Proto, .eq => 1 | .ip4Proto, .in_ => 1
  | .ip4Dscp, .eq => 1
  | .ip6Saddr, .eq => 16 | .ip6Saddr, .in_ => 16
  | .ip6Daddr, .eq => 16 | .ip6Daddr, .in_ => 16
  | .ip6Snet, .eq => 24 | .ip6Snet, .in_ => 24
  | .ip6Dnet, .eq => 24 | .ip6Dnet, .in_ => 24
  | .ip6Nexthdr, .eq => 1 | .ip6Nexthdr, .in_ => 1
  | .ip6Dscp, .eq => 1
  | .tcpSport, .eq => 2 | .tcpSport, .in_ => 2 | .tcpSport, .range => 4
  | .tcpDport, .eq => 2 | .tcpDport, .in_ => 2 | .tcpDport, .range => 4
  | .tcpFlags, .eq => 1 | .tcpFlags, .any => 1 | .tcpFlags, .all => 1
  | .udpSport, .eq => 2 | .udpSport, .in_ => 2 | .udpSport, .range => 4
  | .udpDport, .eq => 2 | .udpDport, .in_ => 2 | .udpDport, .range => 4
  | .icmpType, .eq => 1 | .icmpType, .in_ => 1
  | .icmpCode, .eq => 1 | .icmpCode, .in_ => 1
  | .icmpv6Type, .eq => 1 | .icmpv6Type, .in_ => 1
  | .icmpv6Code, .eq => 1 | .icmpv6Code, .in_ => 1
  | _, _ => 0

/-- matcher.c:821-1262 `unsupported_hooks`. -/
def MType.unsupported : MType → Hook → Bool
  | .metaL3Proto, _ | .metaL4Proto, _ | .metaDport, _ | .metaProbability, _ | .udpDport, _
  | .set, _ => false
  | .metaMark, h => h == .xdp || h.flavor == .sockAddr
  | .metaFlowHash, h => h.flavor != .tc
  | .metaFlowProbability, h => h.flavor == .nf || h.flavor == .sockAddr
  | .ip4Saddr, h | .ip4Snet, h => h == .connect6 || h == .sendmsg6 || h == .connect4
  | .ip4Daddr, h | .ip4Dnet, h | .ip4Proto, h => h == .connect6 || h == .sendmsg6
  | .ip6Saddr, h | .ip6Snet, h => h == .connect4 || h == .sendmsg4 || h == .connect6
  | .ip6Daddr, h | .ip6Dnet, h => h == .connect4 || h == .sendmsg4
  | .tcpDport, h => h == .sendmsg4 || h == .sendmsg6
  | _, h => h.flavor == .sockAddr

/-- rule.h:176-181 `bf_rule_mark_is_set`. -/
def Rule.markSet (r : Rule) : Bool := decide (r.mark >>> 32 ≠ 0)

/-- rule.h:169-174 `bf_rule_mark_get`. -/
def Rule.markVal (r : Rule) : BitVec 32 := r.mark.setWidth 32

/-- `*(uintN_t *)(payload + off)`: reading past the payload is undefined behaviour. -/
def rd (p : List Byte) (off n : Nat) : Res Nat :=
  if off + n ≤ p.length then .ok (leNat ((p.drop off).take n)) else .ub

/-- chain.c:451-465 `bf_chain_get_set_for_matcher`: the index of the set, if it exists. -/
def Chain.setFor (c : Chain) (m : Matcher) : Res (Option (Nat × BSet)) :=
  if m.type ≠ .set then .ok none else
  (rd m.payload 0 4).bind fun i => .ok ((c.sets[i]?).map fun s => (i, s))

end Bf
