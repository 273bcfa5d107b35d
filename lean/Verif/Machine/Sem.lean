import Verif.Machine.Insn
/-!
# Semantics of the modelled BPF machine

What the kernel does when it runs the program: instruction effects, helpers, kernel functions and
the effect of the compiled ELF stubs (`/repo/src/libbpfilter/bpf/*.bpf.c`).  Everything the program
cannot control is in `Env` (arbitrary); everything it can change is in `World` and in the machine
state.  Reading an uninitialised register, accessing memory outside its region, storing a pointer
partially, calling a stub with a wrong context... are all the outcome `err`.
-/
namespace Bf

/-- /repo/src/libbpfilter/include/bpfilter/flavor.h:30-49. -/
inductive Flavor
  | xdp | tc | nf | cgroupSkb | sockAddr
  deriving DecidableEq, Repr

/-- One published log entry, /repo/src/libbpfilter/include/bpfilter/runtime.h:116-205. -/
structure LogRec where
  ts : BitVec 64
  ruleId : BitVec 32
  verdict : BitVec 32
  l3Proto : BitVec 16
  l4Proto : BitVec 8
  /-- `true` for `BF_LOG_TYPE_PACKET`, `false` for `BF_LOG_TYPE_SOCK_ADDR`. -/
  isPkt : Bool
  pktSize : BitVec 64 := 0
  reqHeaders : BitVec 8 := 0
  headers : BitVec 8 := 0
  l2 : List Byte := []
  l3 : List Byte := []
  l4 : List Byte := []
  /-- source address, if captured -/
  saddr : Option (List Byte) := none
  daddr : List Byte := []
  dport : BitVec 16 := 0
  captured : BitVec 8 := 0
  deriving DecidableEq

/-- Everything the program may change outside its own registers and stack. -/
structure World where
  /-- `(count, size)` of each entry of this CPU's slot of the counters map -/
  counters : Nat → BitVec 64 × BitVec 64
  /-- `sk_buff` mark -/
  mark : BitVec 32
  /-- random numbers consumed so far -/
  rng : Nat
  /-- clock reads so far -/
  clk : Nat
  /-- ring buffer reservations attempted so far -/
  ring : Nat
  /-- `last_log_ts` of each rule in the state map -/
  state : Nat → BitVec 64
  /-- entries published in the log ring buffer, oldest first -/
  logs : List LogRec
  /-- arguments of the last `bpf_redirect` call -/
  redirect : Option (BitVec 32 × BitVec 64)

/-- What the program runs on and cannot control. -/
structure Env where
  flavor : Flavor
  /-- packet bytes, as seen through the dynptr -/
  pkt : List Byte
  /-- whether the dynptr could be created -/
  dynptrOk : Bool
  /-- whether `bpf_dynptr_slice(off, len)` copies (non-linear data) or returns a direct pointer -/
  copied : Nat → Nat → Bool
  /-- `data_end - data` of an XDP buffer -/
  linLen : BitVec 32
  /-- `__sk_buff.len` / `sk_buff.len` -/
  skbLen : BitVec 32
  /-- `xdp_md.ingress_ifindex` / `__sk_buff.ifindex` -/
  ifindex : BitVec 32
  /-- ifindex of `nf_hook_state.in` -/
  inIfindex : BitVec 32
  /-- ifindex of `nf_hook_state.out` -/
  outIfindex : BitVec 32
  /-- `__sk_buff.family` -/
  family : BitVec 32
  /-- `nf_hook_state.pf` -/
  pf : BitVec 8
  /-- result of `bpf_get_hash_recalc` -/
  hash : BitVec 32
  /-- random number stream -/
  rng : Nat → BitVec 32
  /-- clock -/
  clk : Nat → BitVec 64
  /-- whether the n-th ring buffer reservation succeeds -/
  ringOk : Nat → Bool
  /-- entries in the counters map -/
  nCounters : Nat
  /-- 8-byte entries in the value of the state map -/
  nState : Nat
  /-- key size of each set map -/
  setKeySize : Nat → Nat
  /-- content of each set map -/
  setLookup : Nat → List Byte → Option (List Byte)
  /-- `struct bpf_sock_addr` (72 bytes) -/
  sock : List Byte
  /-- memory found at a wild address by `bpf_probe_read_kernel` -/
  kmem : BitVec 64 → Nat → List Byte
  /-- map behind a file descriptor -/
  fds : BitVec 32 → Option MapRef
  /-- result of `bpf_redirect` -/
  redirectRet : BitVec 32 → BitVec 64 → BitVec 64
  /-- stack content when the program starts -/
  stack0 : Int → Byte

/-- Machine state. -/
structure St where
  r : Reg → Val
  stk : Stack
  w : World

/-- Register write. -/
def St.set (s : St) (d : Reg) (v : Val) : St :=
  { s with r := fun x => if x = d then v else s.r x }

/-- Number of bytes of stack a program may use: `sizeof(struct bf_runtime)`.  The kernel's frames are larger
(`MAX_BPF_STACK`, 512); here, touching anything under the runtime context is an error too. -/
def stackSize : Int := 248

/-- Size of `struct bpf_sock_addr`. -/
def sockSize : Int := 72

/-- `n`-byte load at pointer `v` plus `off`. -/
def load (E : Env) (s : St) (v : Val) (off : Int) (n : Nat) : Option Val :=
  match v with
  | .ptr .stack o =>
    if -stackSize ≤ o + off ∧ o + off + n ≤ 0 then valOf (s.stk.get (o + off) n) else none
  | .ptr (.pkt base len) o =>
    if 0 ≤ o + off ∧ o + off + n ≤ len then
      some (.sc (BitVec.ofNat 64 (leNat ((E.pkt.drop (base + (o + off).toNat)).take n))))
    else none
  | .ptr (.blob bs) o =>
    if 0 ≤ o + off ∧ o + off + n ≤ bs.length then
      some (.sc (BitVec.ofNat 64 (leNat ((bs.drop (o + off).toNat).take n))))
    else none
  | .ptr .state o =>
    if n = 8 ∧ 0 ≤ o + off ∧ (o + off) % 8 = 0 ∧ o + off + 8 ≤ 8 * E.nState then
      some (.sc (s.w.state ((o + off) / 8).toNat))
    else none
  | .ptr .ctx o =>
    if E.flavor = .sockAddr ∧ 0 ≤ o + off ∧ o + off + n ≤ sockSize then
      some (.sc (BitVec.ofNat 64 (leNat ((E.sock.drop (o + off).toNat).take n))))
    else none
  | _ => none

/-- `n`-byte store of `x` at pointer `v` plus `off`. -/
def store (E : Env) (s : St) (v : Val) (off : Int) (n : Nat) (x : Val) : Option St :=
  match v with
  | .ptr .stack o =>
    if -stackSize ≤ o + off ∧ o + off + n ≤ 0 then
      (cellsOf x n).map fun cs => { s with stk := s.stk.put (o + off) cs }
    else none
  | .ptr .state o =>
    match x with
    | .sc b =>
      if n = 8 ∧ 0 ≤ o + off ∧ (o + off) % 8 = 0 ∧ o + off + 8 ≤ 8 * E.nState then
        some { s with w := { s.w with
          state := fun i => if i = ((o + off) / 8).toNat then b else s.w.state i } }
      else none
    | _ => none
  | _ => none

/-- Load of a named kernel field. -/
def loadF (E : Env) (s : St) (v : Val) (f : KField) (sz : Size) : Option Val :=
  match v, f, sz, E.flavor with
  | .ptr .ctx 0, .xdpData, .w, .xdp => some (.ptr .xdpData 0)
  | .ptr .ctx 0, .xdpDataEnd, .w, .xdp => some (.ptr .xdpData E.linLen.toNat)
  | .ptr .ctx 0, .xdpIngressIfindex, .w, .xdp => some (.sc (E.ifindex.setWidth 64))
  | .ptr .ctx 0, .skbLen, .w, .tc => some (.sc (E.skbLen.setWidth 64))
  | .ptr .ctx 0, .skbLen, .w, .cgroupSkb => some (.sc (E.skbLen.setWidth 64))
  | .ptr .ctx 0, .skbIfindex, .w, .tc => some (.sc (E.ifindex.setWidth 64))
  | .ptr .ctx 0, .skbIfindex, .w, .cgroupSkb => some (.sc (E.ifindex.setWidth 64))
  | .ptr .ctx 0, .skbFamily, .w, .cgroupSkb => some (.sc (E.family.setWidth 64))
  | .ptr .ctx 0, .skbMark, .w, .tc => some (.sc (s.w.mark.setWidth 64))
  | .ptr .ctx 0, .skbMark, .w, .cgroupSkb => some (.sc (s.w.mark.setWidth 64))
  | .ptr .ctx 0, .nfState, .dw, .nf => some (.ptr .nfState 0)
  | .ptr .ctx 0, .nfSkb, .dw, .nf => some (.ptr .skb 0)
  | .ptr .nfState 0, .nfIn, .dw, .nf => some (.ptr .nfDev 0)
  | .ptr .nfState 0, .nfOut, .dw, .nf => some (.ptr .nfDev 1)
  | .ptr .nfState 0, .nfPf, .b, .nf => some (.sc (E.pf.setWidth 64))
  | .ptr .nfDev 0, .devIfindex, .w, .nf => some (.sc (E.inIfindex.setWidth 64))
  | .ptr .nfDev 1, .devIfindex, .w, .nf => some (.sc (E.outIfindex.setWidth 64))
  | .ptr .skb 0, .kskbLen, .w, .nf => some (.sc (E.skbLen.setWidth 64))
  | .ptr .skb 0, .kskbMark, .w, .nf => some (.sc (s.w.mark.setWidth 64))
  | _, _, _, _ => none

/-- Store to a named kernel field: only the mark of `__sk_buff` is written by generated code. -/
def storeF (E : Env) (s : St) (v : Val) (f : KField) (sz : Size) (x : Val) : Option St :=
  match v, f, sz, E.flavor, x with
  | .ptr .ctx 0, .skbMark, .w, .tc, .sc b => some { s with w := { s.w with mark := b.setWidth 32 } }
  | .ptr .ctx 0, .skbMark, .w, .cgroupSkb, .sc b =>
    some { s with w := { s.w with mark := b.setWidth 32 } }
  | _, _, _, _, _ => none

/-- 64-bit ALU on scalars (shift counts are masked). -/
def alu64 (op : AluOp) (a b : BitVec 64) : BitVec 64 :=
  match op with
  | .add => a + b
  | .sub => a - b
  | .and => a &&& b
  | .or => a ||| b
  | .lsh => a <<< (b.toNat % 64)
  | .mov => b

/-- 32-bit ALU on scalars: operates on the low halves and zero-extends. -/
def alu32 (op : AluOp) (a b : BitVec 64) : BitVec 64 :=
  let x := a.setWidth 32
  let y := b.setWidth 32
  (match op with
    | .add => x + y
    | .sub => x - y
    | .and => x &&& y
    | .or => x ||| y
    | .lsh => x <<< (y.toNat % 32)
    | .mov => y).setWidth 64

/-- Value of the second operand; immediates are sign-extended. -/
def srcVal (s : St) : Src → Val
  | .k i => .sc (i.signExtend 64)
  | .x r => s.r r

/-- ALU result. -/
def aluVal (w64 : Bool) (op : AluOp) (a b : Val) : Option Val :=
  match w64, op, a, b with
  | true, .mov, _, .uninit => none
  | true, .mov, _, v => some v
  | false, .mov, _, .sc y => some (.sc (alu32 .mov 0 y))
  | true, .add, .ptr r o, .sc y => some (.ptr r (o + y.toInt))
  | true, .sub, .ptr r o, .ptr r' o' => if r = r' then some (.sc (BitVec.ofInt 64 (o - o'))) else none
  | true, op, .sc x, .sc y => some (.sc (alu64 op x y))
  | false, op, .sc x, .sc y => some (.sc (alu32 op x y))
  | _, _, _, _ => none

/-- Unsigned comparison. -/
def Cond.holds (c : Cond) (a b : Nat) : Bool :=
  match c with
  | .eq => decide (a = b)
  | .ne => decide (a ≠ b)
  | .lt => decide (a < b)
  | .le => decide (a ≤ b)
  | .gt => decide (b < a)
  | .ge => decide (b ≤ a)

/-- Jump condition: scalars compare unsigned on 64 or 32 bits; a pointer compares only to the
constant 0 and only for (in)equality. -/
def condVal (w64 : Bool) (c : Cond) (a b : Val) : Option Bool :=
  match w64, c, a, b with
  | true, c, .sc x, .sc y => some (c.holds x.toNat y.toNat)
  | false, c, .sc x, .sc y => some (c.holds (x.setWidth 32).toNat (y.setWidth 32).toNat)
  | true, .eq, .ptr _ _, .sc y => if y = 0 then some false else none
  | true, .ne, .ptr _ _, .sc y => if y = 0 then some true else none
  | _, _, _, _ => none

/-- Swap the two low bytes and clear the rest (`BPF_BSWAP16`, `BPF_ENDIAN(BPF_TO_BE, _, 16)`). -/
def swap16 (v : BitVec 64) : BitVec 64 :=
  BitVec.ofNat 64 (256 * (v.toNat % 256) + v.toNat / 256 % 256)

/-- After a call, `R1`-`R5` are unreadable and `R0` holds the result. -/
def St.ret (s : St) (v : Val) : St :=
  { s with r := fun x =>
      match x with
      | .r0 => v
      | .r1 | .r2 | .r3 | .r4 | .r5 => .uninit
      | x => s.r x }

/-- `n` readable stack bytes at `o`. -/
def stackBytes (s : St) (o : Int) (n : Nat) : Option (List Byte) :=
  if -stackSize ≤ o ∧ o + n ≤ 0 then cellBytes (s.stk.get o n) else none

/-- Scalar in a register. -/
def regSc (s : St) (r : Reg) : Option (BitVec 64) :=
  match s.r r with
  | .sc v => some v
  | _ => none

/-- Effect of the kernel helpers. -/
def helper (E : Env) (s : St) : Helper → Option St
  | .mapLookup =>
    match s.r .r1, s.r .r2 with
    | .map .state, .ptr .stack o =>
      (stackBytes s o 4).map fun k => s.ret (if leNat k = 0 then .ptr .state 0 else .sc 0)
    | .map (.set g), .ptr .stack o =>
      (stackBytes s o (E.setKeySize g)).map fun k =>
        s.ret (match E.setLookup g k with | some bs => .ptr (.blob bs) 0 | none => .sc 0)
    | _, _ => none
  | .prandom =>
    some (St.ret { s with w := { s.w with rng := s.w.rng + 1 } } (.sc ((E.rng s.w.rng).setWidth 64)))
  | .ktime =>
    some (St.ret { s with w := { s.w with clk := s.w.clk + 1 } } (.sc (E.clk s.w.clk)))
  | .hashRecalc =>
    match s.r .r1 with
    | .ptr .ctx 0 => some (s.ret (.sc (E.hash.setWidth 64)))
    | _ => none
  | .redirect =>
    (regSc s .r1).bind fun i => (regSc s .r2).map fun f =>
      St.ret { s with w := { s.w with redirect := some (i.setWidth 32, f) } }
        (.sc (E.redirectRet (i.setWidth 32) f))

/-- Cells of an initialised dynptr. -/
def dynCells : List Cell := (List.range 16).map Cell.dyn

/-- The argument a dynptr constructor must be given, per program type. -/
def dynptrArg (E : Env) (k : Kfunc) : Option Val :=
  match k, E.flavor with
  | .dynptrFromXdp, .xdp => some (.ptr .ctx 0)
  | .dynptrFromSkb, .tc => some (.ptr .ctx 0)
  | .dynptrFromSkb, .cgroupSkb => some (.ptr .ctx 0)
  | .dynptrFromSkb, .nf => some (.ptr .skb 0)
  | _, _ => none

/-- Effect of the kernel functions.  `bpf_dynptr_slice(dynptr, off, buf, len)` returns NULL if the
packet does not hold `len` bytes at `off`; otherwise a pointer to them, which may be `buf` after
copying them there. -/
def kfunc (E : Env) (s : St) : Kfunc → Option St
  | .dynptrSlice =>
    match s.r .r1, s.r .r2, s.r .r3, s.r .r4 with
    | .ptr .stack d, .sc off, .ptr .stack b, .sc len =>
      let o := (off.setWidth 32).toNat
      let n := (len.setWidth 32).toNat
      if s.stk.get d 16 = dynCells ∧ -stackSize ≤ b ∧ b + n ≤ 0 then
        some (
          if o + n ≤ E.pkt.length then
            if E.copied o n then
              St.ret { s with stk := s.stk.put b (((E.pkt.drop o).take n).map .byte) }
                (.ptr .stack b)
            else s.ret (.ptr (.pkt o n) 0)
          else s.ret (.sc 0))
      else none
    | _, _, _, _ => none
  | k =>
    match s.r .r1, s.r .r2, s.r .r3 with
    | v, .sc 0, .ptr .stack b =>
      if dynptrArg E k = some v ∧ -stackSize ≤ b ∧ b + 16 ≤ 0 then
        some (
          if E.dynptrOk then St.ret { s with stk := s.stk.put b dynCells } (.sc 0)
          else s.ret (.sc (BitVec.ofInt 64 (-22))))
      else none
    | _, _, _ => none

/-! ### ELF stubs -/

/-- Offset of `struct bf_runtime` from `R10` and of its fields within it
(/repo/src/libbpfilter/cgen/runtime.h:113-177, 248 bytes). -/
def ctxBase : Int := -248

/-- `bpf_dynptr_slice(&ctx->dynptr, off, &_ext, 2)` as used by the IPv6 stubs: the two bytes. -/
def slice2 (E : Env) (off : BitVec 32) : Option (Byte × Byte) :=
  match (E.pkt.drop off.toNat).take 2 with
  | [a, b] => some (a, b)
  | _ => none

/-- Loop of parse_ipv6_eh.bpf.c:23-52 (`n` iterations left). -/
def parseEh (E : Env) : Nat → Byte → BitVec 32 → Byte × BitVec 32
  | 0, nh, off => (nh, off)
  | n + 1, nh, off =>
    match slice2 E off with
    | none => (0, off)
    | some (nx, hl) =>
      if nh = 0 ∨ nh = 60 ∨ nh = 43 ∨ nh = 135 then
        parseEh E n nx (off + BitVec.ofNat 32 ((hl.toNat + 1) * 8))
      else if nh = 51 then
        parseEh E n nx (off + BitVec.ofNat 32 ((hl.toNat + 2) * 4))
      else if nh = 44 then
        parseEh E n nx (off + BitVec.ofNat 32 (hl.toNat + 8))
      else (nh, off)

/-- `BF_IPV6_EH_*` bit of an extension header, parse_ipv6_nh.bpf.c:24-29. -/
def ehBit (nh : Byte) : Byte :=
  if nh = 0 then 1 else if nh = 43 then 2 else if nh = 44 then 4
  else if nh = 51 then 8 else if nh = 60 then 16 else if nh = 135 then 32 else 0

/-- Loop of parse_ipv6_nh.bpf.c:38-84: (next header, offset, mask). -/
def parseNh (E : Env) : Nat → Byte → BitVec 32 → Byte → Byte × BitVec 32 × Byte
  | 0, nh, off, m => (nh, off, m)
  | n + 1, nh, off, m =>
    match slice2 E off with
    | none => (nh, off, m)
    | some (nx, hl) =>
      if nh = 0 ∨ nh = 43 ∨ nh = 60 ∨ nh = 44 ∨ nh = 51 ∨ nh = 135 then
        let d := if nh = 51 then (hl.toNat + 2) * 4
          else if nh = 44 then hl.toNat + 8 else (hl.toNat + 1) * 8
        parseNh E n nx (off + BitVec.ofNat 32 d) (m ||| ehBit nh)
      else (nh, off, m)

/-- `BF_IPV6_EXT_MAX_CHAIN`, parse_ipv6_eh.bpf.c:15, parse_ipv6_nh.bpf.c:15. -/
def ehMaxChain : Nat := 6

/-- Scalar loaded from memory. -/
def loadSc (E : Env) (s : St) (v : Val) (off : Int) (n : Nat) : Option (BitVec 64) :=
  match load E s v off n with
  | some (.sc b) => some b
  | _ => none

/-- Read through `bpf_probe_read_kernel(dst, n, v)`. -/
def probeRead (E : Env) (s : St) (v : Val) (n : Nat) : List Byte :=
  match v with
  | .ptr (.pkt base _) o => (E.pkt.drop (base + o.toNat)).take n
  | .ptr .stack o => (cellBytes (s.stk.get o n)).getD (E.kmem 0 n)
  | .sc a => E.kmem a n
  | _ => E.kmem 0 n

/-- One header capture of pkt_log.bpf.c:36-52: the header pointer at context offset `po`, its size
at `so`, the slice capacity `cap`. -/
def captureHdr (E : Env) (s : St) (c : Val) (po so : Int) (cap : Nat) : Option (List Byte) :=
  match load E s c po 8, loadSc E s c so 1 with
  | some v, some n =>
    if v ≠ .sc 0 ∧ n.toNat ≤ cap then some (probeRead E s v n.toNat) else none
  | _, _ => none

/-- `ROTATE_U32_RIGHT(x, 8)`, flow_hash.bpf.c:31. -/
def rotr8 (x : BitVec 32) : BitVec 32 := (x >>> 8) ||| (x <<< 24)

/-- flow_hash.bpf.c:36-45. -/
def avalanche (h0 : BitVec 32) : BitVec 32 :=
  let h1 := h0 ^^^ (h0 >>> 15)
  let h2 := h1 * 0x85ebca77
  let h3 := h2 ^^^ (h2 >>> 13)
  let h4 := h3 * 0xc2b2ae3d
  h4 ^^^ (h4 >>> 16)

/-- `bpf_ntohl` on a little-endian host. -/
def swap32 (x : BitVec 32) : BitVec 32 :=
  ((x &&& 0xff) <<< 24) ||| ((x &&& 0xff00) <<< 8) ||| ((x >>> 8) &&& 0xff00) ||| (x >>> 24)

/-- L3 part of the flow hash, flow_hash.bpf.c:62-95; `rd o` reads 32 bits of the L3 header. -/
def flowL3 (rd : Int → Option (BitVec 32)) (l3 : BitVec 16) (l4 : BitVec 8) : Option (BitVec 32) :=
  if l3 = 0x0008 then
    (rd 12).bind fun sa => (rd 16).map fun da => (rotr8 sa ^^^ da) ^^^ (l4.setWidth 32 <<< 16)
  else if l3 = 0xDD86 then
    (rd 8).bind fun s0 => (rd 12).bind fun s1 => (rd 16).bind fun s2 => (rd 20).bind fun s3 =>
    (rd 24).bind fun d0 => (rd 28).bind fun d1 => (rd 32).bind fun d2 => (rd 36).bind fun d3 =>
    (rd 0).map fun w0 =>
      ((rotr8 (s0 ^^^ s1 ^^^ s2 ^^^ s3) ^^^ d0 ^^^ d1 ^^^ d2 ^^^ d3) ^^^
        (swap32 w0 &&& 0x000FFFFF)) ^^^ (l4.setWidth 32 <<< 16)
  else some 0

/-- L4 part of the flow hash, flow_hash.bpf.c:97-104; `rd o` reads 16 bits of the L4 header. -/
def flowL4 (rd : Int → Option (BitVec 16)) (l4 : BitVec 8) (h : BitVec 32) : Option (BitVec 32) :=
  if l4 = 6 ∨ l4 = 17 then
    (rd 0).bind fun sp => (rd 2).map fun dp => h ^^^ ((sp.setWidth 32 <<< 16) ||| dp.setWidth 32)
  else some h

/-- Effect of calling an ELF stub: arguments in `R1`..`R5`. -/
def stubSem (E : Env) (s : St) (id : Stub) : Option St :=
  if s.r .r1 ≠ .ptr .stack ctxBase then none else
  let c : Val := .ptr .stack ctxBase
  match id with
  | .updateCounters =>
    -- bpf/update_counters.bpf.c:21-35
    match s.r .r2, regSc s .r3, loadSc E s c 40 8 with
    | .map .counters, some k, some sz =>
      let i := (k.setWidth 32).toNat
      if i < E.nCounters then
        some (St.ret { s with w := { s.w with counters := fun j =>
          if j = i then ((s.w.counters i).1 + 1, (s.w.counters i).2 + sz) else s.w.counters j } }
          (.sc 0))
      else some (s.ret (.sc 1))
    | _, _, _ => none
  | .parseIpv6Eh =>
    -- bpf/parse_ipv6_eh.bpf.c:16-53
    match load E s c 88 8, loadSc E s c 56 4 with
    | some h, some l3 =>
      match loadSc E s h 6 1 with
      | some nh =>
        if s.stk.get (ctxBase + 8) 16 = dynCells then
          let p := parseEh E ehMaxChain (nh.setWidth 8) (l3.setWidth 32 + 40)
          (store E s c 64 4 (.sc (p.2.setWidth 64))).map fun s' => s'.ret (.sc (p.1.setWidth 64))
        else none
      | none => none
    | _, _ => none
  | .parseIpv6Nh =>
    -- bpf/parse_ipv6_nh.bpf.c:31-85
    match load E s c 88 8, loadSc E s c 56 4 with
    | some h, some l3 =>
      match loadSc E s h 6 1 with
      | some nh =>
        if s.stk.get (ctxBase + 8) 16 = dynCells then
          let p := parseNh E ehMaxChain (nh.setWidth 8) (l3.setWidth 32 + 40) 0
          ((store E s c 64 4 (.sc (p.2.1.setWidth 64))).bind fun s' =>
            store E s' c 48 1 (.sc (p.2.2.setWidth 64))).map fun s' => s'.ret (.sc (p.1.setWidth 64))
        else none
      | none => none
    | _, _ => none
  | .flowHash =>
    -- bpf/flow_hash.bpf.c:58-120
    match regSc s .r2, regSc s .r3 with
    | some l3, some l4 =>
      (flowL3 (fun o => (load E s c 88 8).bind fun h => (loadSc E s h o 4).map (·.setWidth 32))
        (l3.setWidth 16) (l4.setWidth 8)).bind fun h3 =>
      (flowL4 (fun o => (load E s c 96 8).bind fun h => (loadSc E s h o 2).map (·.setWidth 16))
        (l4.setWidth 8) h3).map fun h =>
      s.ret (.sc ((avalanche h).setWidth 64))
    | _, _ => none
  | .pktLog =>
    -- bpf/pkt_log.bpf.c:14-59
    match regSc s .r2, regSc s .r3, regSc s .r4, regSc s .r5, load E s c 24 8, loadSc E s c 40 8 with
    | some rule, some hd, some vd, some pr, some (.map .log), some sz =>
      let s1 : St := { s with w := { s.w with ring := s.w.ring + 1 } }
      if E.ringOk s.w.ring then
        let l2 := if hd.getLsbD 0 then captureHdr E s c 80 49 16 else none
        let l3 := if hd.getLsbD 1 then captureHdr E s c 88 50 40 else none
        let l4 := if hd.getLsbD 2 then captureHdr E s c 96 51 24 else none
        let rec_ : LogRec :=
          { ts := E.clk s.w.clk, ruleId := rule.setWidth 32, verdict := vd.setWidth 32,
            l3Proto := (swap16 (pr >>> 16)).setWidth 16, l4Proto := pr.setWidth 8, isPkt := true,
            pktSize := sz, reqHeaders := hd.setWidth 8 &&& 0xF,
            headers := (if l2.isSome then 1 else 0) ||| (if l3.isSome then 2 else 0) |||
              (if l4.isSome then 4 else 0),
            l2 := l2.getD [], l3 := l3.getD [], l4 := l4.getD [] }
        some (St.ret { s1 with w := { s1.w with clk := s.w.clk + 1, logs := s.w.logs ++ [rec_] } }
          (.sc 0))
      else some (s1.ret (.sc 1))
    | _, _, _, _, _, _ => none
  | .sockAddrLog =>
    -- bpf/sock_addr_log.bpf.c:12-51
    match regSc s .r2, regSc s .r3, regSc s .r4, regSc s .r5, load E s c 24 8,
        stackBytes s (ctxBase + 184 + 16) 16, loadSc E s c (184 + 32) 2 with
    | some rule, some vd, some pr, some cap, some (.map .log), some da, some dp =>
      let s1 : St := { s with w := { s.w with ring := s.w.ring + 1 } }
      if E.ringOk s.w.ring then
        match (if cap.getLsbD 0 then (stackBytes s (ctxBase + 184) 16).map some else some none) with
        | some sa =>
          let rec_ : LogRec :=
            { ts := E.clk s.w.clk, ruleId := rule.setWidth 32, verdict := vd.setWidth 32,
              l3Proto := (swap16 (pr >>> 16)).setWidth 16, l4Proto := pr.setWidth 8, isPkt := false,
              saddr := sa, daddr := da, dport := dp.setWidth 16, captured := cap.setWidth 8 }
          some (St.ret { s1 with w := { s1.w with clk := s.w.clk + 1, logs := s.w.logs ++ [rec_] } }
            (.sc 0))
        | none => none
      else some (s1.ret (.sc 1))
    | _, _, _, _, _, _, _ => none

/-- Effect of one instruction, before control flow is resolved. -/
inductive Eff
  | seq (s : St)
  | jump (off : BitVec 16) (s : St)
  | map (dst : Reg) (fd : BitVec 32)
  | call (imm : BitVec 32)
  | exit (r0 : BitVec 64)
  | err

/-- Lift an optional next state. -/
def Eff.ofOpt : Option St → Eff
  | some s => .seq s
  | none => .err

/-- Effect of one instruction. -/
def effect (E : Env) (s : St) : Insn → Eff
  | .alu w64 op dst src =>
    if dst = .r10 then .err else
    match aluVal w64 op (s.r dst) (srcVal s src) with
    | some v => .seq (s.set dst v)
    | none => .err
  | .bswap16 dst =>
    match s.r dst with
    | .sc v => .seq (s.set dst (.sc (swap16 v)))
    | _ => .err
  | .ldx sz dst src off =>
    match load E s (s.r src) off sz.bytes with
    | some v => .seq (s.set dst v)
    | none => .err
  | .stx sz dst off src => .ofOpt (store E s (s.r dst) off sz.bytes (s.r src))
  | .st sz dst off imm => .ofOpt (store E s (s.r dst) off sz.bytes (.sc (imm.signExtend 64)))
  | .ldxF sz dst src f =>
    match loadF E s (s.r src) f sz with
    | some v => .seq (s.set dst v)
    | none => .err
  | .stxF sz dst f src => .ofOpt (storeF E s (s.r dst) f sz (s.r src))
  | .ld64 dst v => .jump 1 (s.set dst (.sc v))
  | .ldMap dst fd => .map dst fd
  | .jmp w64 c dst src off =>
    match condVal w64 c (s.r dst) (srcVal s src) with
    | some true => .jump off s
    | some false => .seq s
    | none => .err
  | .ja off => .jump off s
  | .call h => .ofOpt (helper E s h)
  | .kcall k => .ofOpt (kfunc E s k)
  | .callRel imm => .call imm
  | .exit =>
    match s.r .r0 with
    | .sc v => .exit v
    | _ => .err
  | .pad | .stub _ | .stubPad => .err

/-- Outcome of running a whole program. -/
inductive Final
  | exit (r0 : BitVec 64) (w : World)
  | err

/-- Run an image from `pc`.  Calls go to the stub whose body starts at the target; leaving the
image, jumping backwards out of it, running out of fuel... are errors.  Every instruction of the
main program only jumps forward, so fuel equal to the image length suffices (proved). -/
def run (E : Env) (img : List Insn) : Nat → Int → St → Final
  | 0, _, _ => .err
  | fuel + 1, pc, s =>
    if pc < 0 then .err else
    match img[pc.toNat]? with
    | none => .err
    | some i =>
      match effect E s i with
      | .seq s' => run E img fuel (pc + 1) s'
      | .jump off s' => run E img fuel (pc + 1 + off.toInt) s'
      | .map dst fd =>
        match E.fds fd with
        | some m => run E img fuel (pc + 2) (s.set dst (.map m))
        | none => .err
      | .call imm =>
        if pc + 1 + imm.toInt < 0 then .err else
        match img[(pc + 1 + imm.toInt).toNat]? with
        | some (.stub id) =>
          match stubSem E s id with
          | some s' => run E img fuel (pc + 1) s'
          | none => .err
        | _ => .err
      | .exit v => .exit v s.w
      | .err => .err

/-- State in which the kernel enters the program. -/
def initSt (E : Env) (w : World) : St where
  r := fun x => match x with
    | .r1 => .ptr .ctx 0
    | .r10 => .ptr .stack 0
    | _ => .uninit
  stk := fun o => .byte (E.stack0 o)
  w := w

end Bf
