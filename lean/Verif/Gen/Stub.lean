import Verif.Gen.Matchers
/-!
# Prologues: packet parsing code

`/repo/src/libbpfilter/cgen/{stub.c,xdp.c,tc.c,nf.c,cgroup_skb.c,cgroup_sock_addr.c}`
-/
namespace Bf

/-- `get_verdict` of each flavor: xdp.c:117-134, tc.c:155-174, nf.c:163-180,
cgroup_skb.c:130-147, cgroup_sock_addr.c:406-424. -/
def getVerdict (f : Flavor) (v : Verdict) : Res Int :=
  match f, v with
  | .xdp, .accept | .xdp, .next => .ok 2
  | .xdp, .drop => .ok 1
  | .tc, .accept => .ok 0
  | .tc, .drop => .ok 2
  | .tc, .next => .ok (-1)
  | .nf, .accept | .nf, .next => .ok 1
  | .nf, .drop => .ok 0
  | .cgroupSkb, .accept | .cgroupSkb, .next => .ok 1
  | .cgroupSkb, .drop => .ok 0
  | .sockAddr, .accept | .sockAddr, .next => .ok 1
  | .sockAddr, .drop => .ok 0
  | _, _ => .err .ENOTSUP

/-- Emit `return code` for a verdict (e.g. stub.c:79-84, program.c:883-887). -/
def emitVerdict (f : Flavor) (v : Verdict) : Gen Unit := do
  let c ← lift (getVerdict f v)
  emit (movi .r0 (BitVec.ofInt 32 c))
  emit .exit

/-- Code updating counter `idx` (e.g. program.c:624-630, 875-882, stub.c:68-74). -/
def emitCounter (idx : Nat) : Gen Unit := do
  emits [mov .r1 .r10, addi .r1 (ctx oArg)]
  emitMap .cmap .r2
  emit (mov32i .r3 (BitVec.ofNat 32 idx))
  emitStub .updateCounters

/-- The block executed when a header can't be accessed, stub.c:62-85, 127-149, 200-220, 361-381. -/
def errBlock (C : Cfg) : Gen Unit := do
  emitCounter (C.chain.rules.length + 1)
  emitVerdict C.chain.hook.flavor .accept

/-- stub.c:47-89 `_bf_stub_make_ctx_dynptr` (`arg_reg` is `R1` in every use). -/
def makeDynptr (C : Cfg) (k : Kfunc) : Gen Unit := do
  emits [movi .r2 0, mov .r3 .r10, addi .r3 (ctx oDynptr), .kcall k]
  withJmp (.jmp true .eq .r0 (.k 0) 0) (errBlock C)

/-- stub.c:105-162 `bf_stub_parse_l2_ethhdr`. -/
def parseL2 (C : Cfg) : Gen Unit := do
  emits [mov .r1 .r10, addi .r1 (ctx oDynptr), movi .r2 0, mov .r3 .r10, addi .r3 (ctx oL2),
    movi .r4 14, .stx .b .r10 (ctx oL2Size) .r4, .kcall .dynptrSlice]
  withJmp (.jmp true .ne .r0 (.k 0) 0) (errBlock C)
  emits [.stx .dw .r10 (ctx oL2Hdr) .r0, .ldx .h .r7 .r0 12, .st .w .r10 (ctx oL3Off) 14]

/-- stub.c:36 `_BF_LOW_EH_BITMASK`. -/
def lowEhBitmask : BitVec 64 := 0x1801800000000801

/-- stub.c:228-245: IPv4 part of `bf_stub_parse_l3_hdr`. -/
def l3Ipv4 : Gen Unit :=
  withJmp (.jmp true .ne .r7 (.k 0x0008) 0) (emits [
    .ldx .b .r1 .r0 0, .alu true .and .r1 (.k 0x0f), .alu true .lsh .r1 (.k 2),
    .ldx .w .r2 .r10 (ctx oL3Off), .alu true .add .r1 (.x .r2), .stx .w .r10 (ctx oL4Off) .r1,
    .ldx .b .r8 .r0 9])

/-- stub.c:247-317: IPv6 part of `bf_stub_parse_l3_hdr`. -/
def l3Ipv6 (C : Cfg) : Gen Unit :=
  withJmp (.jmp true .ne .r7 (.k 0xDD86) 0) (do
    emit (.ldx .b .r8 .r0 6)
    let tcp ← jmpGet (.jmp true .eq .r8 (.k 6) 0)
    let udp ← jmpGet (.jmp true .eq .r8 (.k 17) 0)
    emits [.ld64 .r2 lowEhBitmask, .pad,
      .jmp true .ge .r8 (.k 64) 4,
      movi .r3 1, .alu true .lsh .r3 (.x .r8), .alu true .and .r3 (.x .r2),
      .jmp true .ne .r3 (.k 0) 4,
      .jmp true .eq .r8 (.k 135) 3, .jmp true .eq .r8 (.k 139) 2, .jmp true .eq .r8 (.k 140) 1]
    let noeh ← jmpGet (.ja 0)
    emits [mov .r1 .r10, addi .r1 (ctx oArg)]
    emitStub (if C.chain.flagNexthdr then .parseIpv6Nh else .parseIpv6Eh)
    emit (mov .r8 .r0)
    let eh ← jmpGet (.ja 0)
    jmpClean tcp
    jmpClean udp
    jmpClean noeh
    emits [.ldx .w .r2 .r10 (ctx oL3Off), .alu true .add .r2 (.k 40), .stx .w .r10 (ctx oL4Off) .r2]
    jmpClean eh)

/-- stub.c:164-320 `bf_stub_parse_l3_hdr`. -/
def parseL3 (C : Cfg) : Gen Unit := do
  swich .r7 [(0x0008, [movi .r4 20]), (0xDD86, [movi .r4 40])] [movi .r7 0]
  withJmp (.jmp true .eq .r7 (.k 0) 0) (do
    emits [.stx .b .r10 (ctx oL3Size) .r4,
      mov .r1 .r10, addi .r1 (ctx oDynptr), .ldx .w .r2 .r10 (ctx oL3Off),
      mov .r3 .r10, addi .r3 (ctx oL2), .kcall .dynptrSlice]
    withJmp (.jmp true .ne .r0 (.k 0) 0) (errBlock C)
    emit (.stx .dw .r10 (ctx oL3Hdr) .r0)
    l3Ipv4
    l3Ipv6 C)

/-- stub.c:322-392 `bf_stub_parse_l4_hdr`. -/
def parseL4 (C : Cfg) : Gen Unit := do
  swich .r8 [(6, [movi .r4 20]), (17, [movi .r4 8]), (1, [movi .r4 8]), (58, [movi .r4 8])]
    [movi .r8 0]
  withJmp (.jmp true .eq .r8 (.k 0) 0) (do
    emits [.stx .b .r10 (ctx oL4Size) .r4,
      mov .r1 .r10, addi .r1 (ctx oDynptr), .ldx .w .r2 .r10 (ctx oL4Off),
      mov .r3 .r10, addi .r3 (ctx oL4), .kcall .dynptrSlice]
    withJmp (.jmp true .ne .r0 (.k 0) 0) (errBlock C)
    emit (.stx .dw .r10 (ctx oL4Hdr) .r0))

/-- xdp.c:33-71 `_bf_xdp_gen_inline_prologue`. -/
def prologueXdp (C : Cfg) : Gen Unit := do
  emits [.ldxF .w .r2 .r1 .xdpData, .ldxF .w .r3 .r1 .xdpDataEnd, .alu true .sub .r3 (.x .r2),
    .stx .dw .r10 (ctx oPktSize) .r3,
    .ldxF .w .r2 .r1 .xdpIngressIfindex, .stx .w .r10 (ctx oIfindex) .r2]
  makeDynptr C .dynptrFromXdp
  parseL2 C
  parseL3 C
  parseL4 C

/-- tc.c:27-67 `_bf_tc_gen_inline_prologue`. -/
def prologueTc (C : Cfg) : Gen Unit := do
  emits [.ldxF .w .r3 .r1 .skbLen, .stx .dw .r10 (ctx oPktSize) .r3,
    .ldxF .w .r2 .r1 .skbIfindex, .stx .w .r10 (ctx oIfindex) .r2]
  makeDynptr C .dynptrFromSkb
  parseL2 C
  parseL3 C
  parseL4 C

/-- nf.c:39-43 `_bf_nf_hook_is_ingress`. -/
def nfIngress (h : Hook) : Bool := h == .nfPreRouting || h == .nfLocalIn || h == .nfForward

/-- Conversion of an address family into an EtherType (nf.c:77-91, cgroup_skb.c:62-77,
cgroup_sock_addr.c:58-73). -/
def familySwich (reg : Reg) : Gen Unit :=
  swich reg [(2, [movi .r7 0x0008]), (10, [movi .r7 0xDD86])] [movi .r7 0]

/-- nf.c:45-124 `_bf_nf_gen_inline_prologue`. -/
def prologueNf (C : Cfg) : Gen Unit := do
  emits [.ldxF .dw .r2 .r1 .nfState,
    .ldxF .dw .r3 .r2 (if nfIngress C.chain.hook then .nfIn else .nfOut),
    .ldxF .w .r4 .r3 .devIfindex, .stx .w .r10 (ctx oIfindex) .r4,
    .ldxF .b .r3 .r2 .nfPf]
  familySwich .r3
  emits [.st .w .r10 (ctx oL3Off) 0,
    .ldxF .dw .r1 .r1 .nfSkb, .ldxF .w .r2 .r1 .kskbLen, .alu true .add .r2 (.k 14),
    .stx .dw .r10 (ctx oPktSize) .r2]
  makeDynptr C .dynptrFromSkb
  parseL3 C
  parseL4 C

/-- cgroup_skb.c:31-93 `_bf_cgroup_skb_gen_inline_prologue`. -/
def prologueCgroupSkb (C : Cfg) : Gen Unit := do
  emits [.ldxF .w .r3 .r1 .skbLen, .alu true .add .r3 (.k 14), .stx .dw .r10 (ctx oPktSize) .r3,
    .ldxF .w .r2 .r1 .skbIfindex, .stx .w .r10 (ctx oIfindex) .r2,
    .ldxF .w .r2 .r1 .skbFamily]
  familySwich .r2
  emit (.st .w .r10 (ctx oL3Off) 0)
  makeDynptr C .dynptrFromSkb
  parseL3 C
  parseL4 C

/-! ### cgroup_sock_addr.c -/

/-! Offsets in `struct bpf_sock_addr` (linux/bpf.h). -/
/-- `user_ip4` -/ def saUserIp4 : Nat := 4
/-- `user_ip6` -/ def saUserIp6 : Nat := 8
/-- `user_port` -/ def saUserPort : Nat := 24
/-- `family` -/ def saFamily : Nat := 28
/-- `protocol` -/ def saProtocol : Nat := 36
/-- `msg_src_ip4` -/ def saSrcIp4 : Nat := 40
/-- `msg_src_ip6` -/ def saSrcIp6 : Nat := 44

/-- cgroup_sock_addr.c:40-78 `_bf_cgroup_sock_addr_gen_inline_prologue`. -/
def prologueSockAddr : Gen Unit := do
  emits [mov .r6 .r1, .st .dw .r10 (ctx oPktSize) 0, .ldx .w .r2 .r6 saFamily]
  familySwich .r2
  emit (.ldx .w .r8 .r6 saProtocol)

/-- cgroup_sock_addr.c:102-149 `_bf_cgroup_sock_addr_load_field` (`reg` is `R1` in every use). -/
def saLoadField (off size : Nat) : Gen Unit :=
  match size with
  | 1 => emit (.ldx .b .r1 .r6 off)
  | 2 => emit (.ldx .h .r1 .r6 off)
  | 4 => emit (.ldx .w .r1 .r6 off)
  | 8 =>
    if off % 8 = 0 then emit (.ldx .dw .r1 .r6 off)
    else emits [.ldx .w .r1 .r6 off, .ldx .w .r2 .r6 ((off + 4 : Nat) : Int),
      .alu true .lsh .r2 (.k 32), .alu true .or .r1 (.x .r2)]
  | 16 =>
    if off % 8 = 0 then emits [.ldx .dw .r1 .r6 off, .ldx .dw .r2 .r6 ((off + 8 : Nat) : Int)]
    else emits [.ldx .w .r1 .r6 off, .ldx .w .r3 .r6 ((off + 4 : Nat) : Int),
      .alu true .lsh .r3 (.k 32), .alu true .or .r1 (.x .r3),
      .ldx .w .r2 .r6 ((off + 8 : Nat) : Int), .ldx .w .r3 .r6 ((off + 12 : Nat) : Int),
      .alu true .lsh .r3 (.k 32), .alu true .or .r2 (.x .r3)]
  | _ => fail .EINVAL

/-- cgroup_sock_addr.c:164-194 `_bf_cgroup_sock_addr_store_field` (`reg` is `R1` in every use). -/
def saStoreField (off : Int) (size : Nat) : Gen Unit :=
  match size with
  | 1 => emit (.stx .b .r10 off .r1)
  | 2 => emit (.stx .h .r10 off .r1)
  | 4 => emit (.stx .w .r10 off .r1)
  | 8 => emit (.stx .dw .r10 off .r1)
  | 16 => emits [.stx .dw .r10 off .r1, .stx .dw .r10 (off + 8) .r2]
  | _ => fail .EINVAL

/-- cgroup_sock_addr.c:196-212 `_bf_cgroup_sock_addr_load_and_cmp`. -/
def saLoadCmp (m : Matcher) (off size : Nat) : Gen Unit := do
  saLoadField off size
  cmpValue m m.payload size .r1

/-- cgroup_sock_addr.c:214-235 `_bf_cgroup_sock_addr_generate_net`. -/
def saNet (m : Matcher) (off size : Nat) : Gen Unit := do
  let plen ← lift (rd m.payload 0 4)
  saLoadField off size
  cmpMasked m (m.payload.drop 4) plen size .r1

/-- cgroup_sock_addr.c:241-263 `_bf_cgroup_sock_addr_generate_port`. -/
def saPort (m : Matcher) : Gen Unit := do
  saLoadField saUserPort 4
  if m.op = .range then do
    emit (.bswap16 .r1)
    let lo ← lift (rd m.payload 0 2)
    let hi ← lift (rd m.payload 2 2)
    cmpRange m lo hi .r1
  else cmpValue m m.payload 2 .r1

/-- cgroup_sock_addr.c:265-288 `_bf_cgroup_sock_addr_ctx_offset`. -/
def saCtxOff : MType → Option Nat
  | .ip4Saddr | .ip4Snet => some saSrcIp4
  | .ip4Daddr | .ip4Dnet => some saUserIp4
  | .ip6Saddr | .ip6Snet => some saSrcIp6
  | .ip6Daddr | .ip6Dnet => some saUserIp6
  | .ip4Proto => some saProtocol
  | .tcpDport | .udpDport => some saUserPort
  | _ => none

/-- cgroup_sock_addr.c:325-363: build the key of a hash set in the scratch area. -/
def saSetKey : List MType → Nat → Gen Unit
  | [], _ => pure ()
  | t :: ts, off => do
    match saCtxOff t with
    | none => fail .ENOTSUP
    | some co =>
      if t = .ip4Proto then emit (.stx .b .r10 (scr off) .r8)
      else stubLoad t.meta_.size co t.meta_.size (scr off)
    saSetKey ts (off + t.meta_.size)

/-- cgroup_sock_addr.c:290-366 `_bf_cgroup_sock_addr_generate_set`. -/
def saSet (C : Cfg) (m : Matcher) : Gen Unit := do
  match ← lift (C.chain.setFor m) with
  | none => fail .ENOENT
  | some (_, s) =>
    if s.useTrie then
      match s.key with
      | [] => abort
      | t :: _ =>
        match saCtxOff t with
        | none => fail .ENOTSUP
        | some co => trieLookup C m co t.meta_.size
    else do
      saSetKey s.key 0
      mapLookup C m (scr 0)

/-- cgroup_sock_addr.c:368-418 `_bf_cgroup_sock_addr_gen_inline_matcher`. -/
def saMatcher (C : Cfg) (m : Matcher) : Gen Unit :=
  match m.type with
  | .metaL3Proto | .metaL4Proto | .metaProbability => metaMatcher C m
  | .ip4Saddr => saLoadCmp m saSrcIp4 4
  | .ip4Snet => saNet m saSrcIp4 4
  | .ip4Daddr => saLoadCmp m saUserIp4 4
  | .ip4Dnet => saNet m saUserIp4 4
  | .ip4Proto => do
    emit (mov .r1 .r8)
    cmpValue m m.payload 1 .r1
  | .ip6Saddr => saLoadCmp m saSrcIp6 16
  | .ip6Snet => saNet m saSrcIp6 16
  | .ip6Daddr => saLoadCmp m saUserIp6 16
  | .ip6Dnet => saNet m saUserIp6 16
  | .metaDport | .tcpDport | .udpDport => saPort m
  | .set => saSet C m
  | _ => fail .ENOTSUP

/-- cgroup_sock_addr.c:463-481: source offset if captured, address size, destination offset. -/
def saLogShape : Hook → Option (Option Nat × Nat × Nat)
  | .sendmsg4 => some (some saSrcIp4, 4, saUserIp4)
  | .connect4 => some (none, 4, saUserIp4)
  | .sendmsg6 => some (some saSrcIp6, 16, saUserIp6)
  | .connect6 => some (none, 16, saUserIp6)
  | _ => none

/-- cgroup_sock_addr.c:446-535 `_bf_cgroup_sock_addr_gen_inline_log`
(`sizeof(struct bf_runtime_sock_addr)` is 34: five 8-byte words are zeroed). -/
def saLog (C : Cfg) (r : Rule) : Gen Unit := do
  emits [.st .dw .r10 (scr 0) 0, .st .dw .r10 (scr 8) 0, .st .dw .r10 (scr 16) 0,
    .st .dw .r10 (scr 24) 0, .st .dw .r10 (scr 32) 0]
  match saLogShape C.chain.hook with
  | none => fail .ENOTSUP
  | some (sa, size, da) => do
    match sa with
    | some so => do
      saLoadField so size
      saStoreField (scr 0) size
    | none => pure ()
    saLoadField da size
    saStoreField (scr 16) size
    saLoadField saUserPort 4
    emit (.bswap16 .r1)
    saStoreField (scr 32) 2
    emits [mov .r1 .r10, addi .r1 (ctx oArg), movi .r2 (BitVec.ofNat 32 r.index),
      movi .r3 (BitVec.ofNat 32 r.verdict.code), mov .r4 .r7, .alu true .lsh .r4 (.k 16),
      .alu true .or .r4 (.x .r8), movi .r5 (if sa.isSome then 1 else 0)]
    emitStub .sockAddrLog

end Bf
