import Verif.Gen.Cmp
/-!
# Packet matchers

`/repo/src/libbpfilter/cgen/{packet.c,stub.c,matcher/meta.c,matcher/set.c}`
-/
namespace Bf

/-- program.h `struct bf_set_group`: the chain indices of the sets sharing a map.  Sets are
identified by their position in the chain (the code compares pointers). -/
abbrev Groups := List (List Nat)

/-- set.c:456-466 `bf_set_same_key`. -/
def BSet.sameKey (a b : BSet) : Bool := decide (a.key = b.key)

/-- program.c:163-217 `_bf_program_build_set_groups`, one set (chain index `i`). -/
def addToGroups (sets : List BSet) (i : Nat) (s : BSet) : Groups → Groups
  | [] => [[i]]
  | g :: gs =>
    if !s.useTrie && (match (g.head?.bind fun h => sets[h]?) with
        | some h => s.sameKey h
        | none => false)
    then (g ++ [i]) :: gs
    else g :: addToGroups sets i s gs

/-- program.c:163-217, the loop over the chain's sets. -/
def buildGroupsFrom (sets : List BSet) : Nat → List BSet → Groups → Groups
  | _, [], gs => gs
  | i, s :: ss, gs =>
    buildGroupsFrom sets (i + 1) ss (if s.elems.isEmpty then gs else addToGroups sets i s gs)

/-- program.c:163-217 `_bf_program_build_set_groups`. -/
def buildGroups (sets : List BSet) : Groups := buildGroupsFrom sets 0 sets []

/-- program.c:140-161 `_bf_program_find_set_group`: index of the group holding set `i`. -/
def findGroup (gs : Groups) (i : Nat) : Option Nat := gs.findIdx? (·.contains i)

/-- program.c:219-240 `bf_program_set_bit_index`. -/
def bitIndex (gs : Groups) (i : Nat) : Res Nat :=
  match gs.find? (·.contains i) with
  | some g => .ok (g.idxOf i)
  | none => .err .ENOENT

/-- What the generator works on: the chain, its set groups, and the conversion of a probability
(`float` bits) into a 32-bit threshold (floating point arithmetic is not modelled,
meta.c:48-49, 110-111). -/
structure Cfg where
  chain : Chain
  groups : Groups
  thr : Nat → BitVec 32

/-! ### stub.c -/

/-- stub.c:394-416 `bf_stub_rule_check_protocol`. -/
def checkProtocol (mt : Meta) : Gen Unit :=
  match mt.layer with
  | .l3 => emitNext (.jmp true .ne .r7 (.k (BitVec.ofNat 32 (htobe16 mt.hdrId))) 0)
  | .l4 => emitNext (.jmp true .ne .r8 (.k (BitVec.ofNat 32 (mt.hdrId % 256))) 0)
  | _ => fail .EINVAL

/-- stub.c:418-440 `bf_stub_load_header`. -/
def loadHeader (mt : Meta) (reg : Reg) : Gen Unit :=
  match mt.layer with
  | .l3 => emit (.ldx .dw reg .r10 (ctx oL3Hdr))
  | .l4 => emit (.ldx .dw reg .r10 (ctx oL4Hdr))
  | _ => fail .EINVAL

/-- stub.c:452-467: size of the next copy. -/
def copySize (src : Nat) (dst : Int) (rem : Nat) : Size :=
  if src % 8 = 0 ∧ dst % 8 = 0 ∧ rem ≥ 8 then .dw
  else if src % 4 = 0 ∧ dst % 4 = 0 ∧ rem ≥ 4 then .w
  else if src % 2 = 0 ∧ dst % 2 = 0 ∧ rem ≥ 2 then .h
  else .b

/-- stub.c:442-478 `bf_stub_load`; `fuel` bounds the loop (each iteration copies at least a byte). -/
def stubLoad : Nat → Nat → Nat → Int → Gen Unit
  | 0, _, _, _ => pure ()
  | fuel + 1, src, rem, dst =>
    if rem = 0 then pure () else do
    let sz := copySize src dst rem
    emit (.ldx sz .r1 .r6 src)
    emit (.stx sz .r10 dst .r1)
    stubLoad fuel (src + sz.bytes) (rem - sz.bytes) (dst + sz.bytes)

/-- stub.c:480-488 `bf_stub_stx_payload`. -/
def stxPayload (mt : Meta) (offset : Nat) : Gen Unit := stubLoad mt.size mt.off mt.size (scr offset)

/-! ### matcher/set.c -/

/-- set.c:19-59 `bf_set_generate_map_lookup`. -/
def mapLookup (C : Cfg) (m : Matcher) (keyOff : Int) : Gen Unit := do
  match ← lift (C.chain.setFor m) with
  | none => fail .ENOENT
  | some (i, _) => do
    let bit ← lift (bitIndex C.groups i)
    emitMap (.setMap i) .r1
    emits [mov .r2 .r10, addi .r2 keyOff, .call .mapLookup,
      .jmp true .eq .r0 (.k 0) 2,
      .ldx .b .r0 .r0 (BitVec.ofNat 16 (bit / 8)).toInt,
      .alu false .and .r0 (.k (BitVec.ofNat 32 (1 <<< (bit % 8))))]
    let jop ← jmpIns m
    emitNext (.jmp true jop .r0 (.k 0) 0)

/-- set.c:61-79 `bf_set_generate_trie_lookup`. -/
def trieLookup (C : Cfg) (m : Matcher) (srcOff addrSize : Nat) : Gen Unit := do
  emit (movi .r1 (BitVec.ofNat 32 (addrSize * 8)))
  emit (.stx .w .r10 (scr 4) .r1)
  stubLoad addrSize srcOff addrSize (scr 8)
  mapLookup C m (scr 4)

/-! ### matcher/meta.c -/

/-- meta.c:33-43 `_bf_matcher_generate_meta_iface`. -/
def metaIface (m : Matcher) : Gen Unit := do
  emit (.ldx .h .r1 .r10 (ctx oIfindex))
  let jop ← jmpIns m
  let v ← lift (rd m.payload 0 4)
  emitNext (.jmp true jop .r1 (.k (BitVec.ofNat 32 v)) 0)

/-- meta.c:45-63 `_bf_matcher_generate_meta_probability`. -/
def metaProbability (C : Cfg) (m : Matcher) : Gen Unit := do
  let v ← lift (rd m.payload 0 4)
  emit (.call .prandom)
  emitNext (.jmp true (if m.negate then .le else .gt) .r0 (.k (C.thr v)) 0)

/-- meta.c:65-105 `_bf_matcher_generate_meta_port`. -/
def metaPort (m : Matcher) : Gen Unit := do
  emit (.ldx .dw .r6 .r10 (ctx oL4Hdr))
  let o : Int := if m.type = .metaSport then 0 else 2
  swich .r8 [(6, [.ldx .h .r1 .r6 o]), (17, [.ldx .h .r1 .r6 o])] [movi .r1 0]
  emitNext (.jmp true .eq .r1 (.k 0) 0)
  if m.op = .range then do
    emit (.bswap16 .r1)
    let lo ← lift (rd m.payload 0 2)
    let hi ← lift (rd m.payload 2 2)
    cmpRange m lo hi .r1
  else cmpValue m m.payload 2 .r1

/-- meta.c:107-158 `_bf_matcher_generate_meta_flow_probability`. -/
def metaFlowProbability (C : Cfg) (m : Matcher) : Gen Unit := do
  let v ← lift (rd m.payload 0 4)
  emit (.jmp true .eq .r7 (.k 0x0008) 2)
  emit (.jmp true .eq .r7 (.k 0xDD86) 1)
  emitNext (.ja 0)
  emit (.jmp true .eq .r8 (.k 6) 2)
  emit (.jmp true .eq .r8 (.k 17) 1)
  emitNext (.ja 0)
  emits [mov .r1 .r10, addi .r1 (-248), mov .r2 .r7, mov .r3 .r8]
  emitStub .flowHash
  emitNext (.jmp false (if m.negate then .le else .gt) .r0 (.k (C.thr v)) 0)

/-- meta.c:160-192 `bf_matcher_generate_meta`. -/
def metaMatcher (C : Cfg) (m : Matcher) : Gen Unit :=
  match m.type with
  | .metaIface => metaIface m
  | .metaL3Proto => do
    let v ← lift (rd m.payload 0 2)
    cmpValue m (leBytes 2 (htobe16 v)) 2 .r7
  | .metaL4Proto => cmpValue m m.payload 1 .r8
  | .metaProbability => metaProbability C m
  | .metaSport | .metaDport => metaPort m
  | .metaFlowProbability => metaFlowProbability C m
  | .metaMark | .metaFlowHash => fail .ENOTSUP
  | _ => fail .EINVAL

/-! ### packet.c -/

/-- packet.c:68-100 `_bf_matcher_pkt_load_field`. -/
def loadField (mt : Meta) (reg : Reg) : Gen Unit :=
  match mt.size with
  | 1 => emit (.ldx .b reg .r6 mt.off)
  | 2 => emit (.ldx .h reg .r6 mt.off)
  | 4 => emit (.ldx .w reg .r6 mt.off)
  | 8 => emit (.ldx .dw reg .r6 mt.off)
  | 16 => do
    emit (.ldx .dw reg .r6 mt.off)
    emit (.ldx .dw reg.succ .r6 ((mt.off + 8 : Nat) : Int))
  | _ => fail .EINVAL

/-- packet.c:102-113 `_bf_matcher_pkt_load`. -/
def pktLoad (mt : Meta) (reg : Reg) : Gen Unit := do
  loadHeader mt .r6
  loadField mt reg

/-- packet.c:125-137 `_bf_matcher_pkt_load_and_cmp`. -/
def pktLoadCmp (m : Matcher) (mt : Meta) : Gen Unit := do
  pktLoad mt .r1
  cmpValue m m.payload mt.size .r1

/-- packet.c:139-154 `_bf_matcher_pkt_generate_net`. -/
def pktNet (m : Matcher) (mt : Meta) : Gen Unit := do
  let plen ← lift (rd m.payload 0 4)
  pktLoad mt .r1
  cmpMasked m (m.payload.drop 4) plen mt.size .r1

/-- packet.c:156-178 `_bf_matcher_pkt_generate_port`. -/
def pktPort (m : Matcher) (mt : Meta) : Gen Unit := do
  pktLoad mt .r1
  if m.op = .range then do
    emit (.bswap16 .r1)
    let lo ← lift (rd m.payload 0 2)
    let hi ← lift (rd m.payload 2 2)
    cmpRange m lo hi .r1
  else cmpValue m m.payload mt.size .r1

/-- packet.c:180-204 `_bf_matcher_pkt_generate_tcp_flags`. -/
def pktTcpFlags (m : Matcher) (mt : Meta) : Gen Unit := do
  pktLoad mt .r1
  match m.op with
  | .any | .all => do
    let v ← lift (rd m.payload 0 1)
    cmpBitfield m v .r1
  | .eq => cmpValue m m.payload mt.size .r1
  | _ => fail .EINVAL

/-- packet.c:222-238: bit of an extension header in `bf_runtime.ipv6_eh`. -/
def ehMask (v : Nat) : Option (BitVec 32) :=
  if v = 0 then some 1 else if v = 43 then some 2 else if v = 44 then some 4
  else if v = 51 then some 8 else if v = 60 then some 16 else if v = 135 then some 32 else none

/-- packet.c:206-249 `_bf_matcher_pkt_generate_ip6_nexthdr`. -/
def pktNexthdr (m : Matcher) : Gen Unit := do
  let v ← lift (rd m.payload 0 1)
  let jop ← jmpIns m
  match ehMask v with
  | some mask => do
    emit (.ldx .dw .r1 .r10 (ctx oEh))
    emit (.alu true .and .r1 (.k mask))
    emitNext (.jmp true (if jop = .ne then .eq else .ne) .r1 (.k 0) 0)
  | none => emitNext (.jmp true jop .r8 (.k (BitVec.ofNat 32 v)) 0)

/-- packet.c:251-273 `_bf_matcher_pkt_generate_ip4_dscp`. -/
def pktIp4Dscp (m : Matcher) (mt : Meta) : Gen Unit := do
  pktLoad mt .r1
  let v ← lift (rd m.payload 0 1)
  emit (.alu true .and .r1 (.k 0xfc))
  let jop ← jmpIns m
  emitNext (.jmp true jop .r1 (.k (BitVec.ofNat 32 (v <<< 2))) 0)

/-- packet.c:275-301 `_bf_matcher_pkt_generate_ip6_dscp`. -/
def pktIp6Dscp (m : Matcher) (mt : Meta) : Gen Unit := do
  loadHeader mt .r6
  let v ← lift (rd m.payload 0 1)
  emit (.ldx .h .r1 .r6 0)
  emit (.bswap16 .r1)
  emit (.alu true .and .r1 (.k 0x0fc0))
  let jop ← jmpIns m
  emitNext (.jmp true jop .r1 (.k (BitVec.ofNat 32 (v <<< 6))) 0)

/-- packet.c:335-356: build the key of a hash set in the scratch area. -/
def setKey : List MType → Nat → Gen Unit
  | [], _ => pure ()
  | t :: ts, off => do
    loadHeader t.meta_ .r6
    stxPayload t.meta_ off
    setKey ts (off + t.meta_.size)

/-- packet.c:303-359 `_bf_matcher_pkt_generate_set`. -/
def pktSet (C : Cfg) (m : Matcher) : Gen Unit := do
  match ← lift (C.chain.setFor m) with
  | none => fail .ENOENT
  | some (_, s) =>
    if s.useTrie then
      match s.key with
      | [] => abort
      | t :: _ => do
        loadHeader t.meta_ .r6
        trieLookup C m t.meta_.off t.meta_.size
    else do
      setKey s.key 0
      mapLookup C m (scr 0)

/-- packet.c:361-419 `bf_packet_gen_inline_matcher`. -/
def packetMatcher (C : Cfg) (m : Matcher) : Gen Unit :=
  match m.type with
  | .metaIface | .metaL3Proto | .metaL4Proto | .metaProbability | .metaSport | .metaDport
  | .metaFlowProbability => metaMatcher C m
  | .metaMark | .metaFlowHash => fail .ENOTSUP
  | .ip4Dscp => pktIp4Dscp m m.type.meta_
  | .ip4Saddr | .ip4Daddr | .ip4Proto | .ip6Saddr | .ip6Daddr | .icmpType | .icmpCode
  | .icmpv6Type | .icmpv6Code => pktLoadCmp m m.type.meta_
  | .ip4Snet | .ip4Dnet | .ip6Snet | .ip6Dnet => pktNet m m.type.meta_
  | .tcpSport | .tcpDport | .udpSport | .udpDport => pktPort m m.type.meta_
  | .tcpFlags => pktTcpFlags m m.type.meta_
  | .ip6Nexthdr => pktNexthdr m
  | .ip6Dscp => pktIp6Dscp m m.type.meta_
  | .set => pktSet C m

/-- packet.c:421-441 `bf_packet_gen_inline_log`. -/
def packetLog (r : Rule) : Gen Unit := do
  emits [mov .r1 .r10, addi .r1 (ctx oArg), movi .r2 (BitVec.ofNat 32 r.index),
    movi .r3 (r.log.setWidth 32), movi .r4 (BitVec.ofNat 32 r.verdict.code),
    mov .r5 .r7, .alu true .lsh .r5 (.k 16), .alu true .or .r5 (.x .r8)]
  emitStub .pktLog

/-- tc.c:84-119, nf.c:132-154, cgroup_skb.c:101-121 `gen_inline_matcher`; XDP uses the packet one. -/
def flavorMatcher (C : Cfg) (m : Matcher) : Gen Unit :=
  match C.chain.hook.flavor, m.type with
  | .tc, .metaMark | .cgroupSkb, .metaMark => do
    emit (.ldx .dw .r1 .r10 (ctx oArg))
    emit (.ldxF .w .r1 .r1 .skbMark)
    cmpValue m m.payload 4 .r1
  | .tc, .metaFlowHash => do
    emit (.ldx .dw .r1 .r10 (ctx oArg))
    emit (.call .hashRecalc)
    if m.op = .range then do
      let lo ← lift (rd m.payload 0 4)
      let hi ← lift (rd m.payload 4 4)
      cmpRange m lo hi .r0
    else cmpValue m m.payload 4 .r0
  | .nf, .metaMark => do
    emit (.ldx .dw .r1 .r10 (ctx oArg))
    emit (.ldxF .dw .r2 .r1 .nfSkb)
    emit (.ldxF .w .r1 .r2 .kskbMark)
    cmpValue m m.payload 4 .r1
  | _, _ => packetMatcher C m

end Bf
