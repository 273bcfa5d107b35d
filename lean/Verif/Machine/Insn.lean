import Verif.Machine.Mem
/-!
# Instructions of the modelled BPF machine
-/
namespace Bf

/-- BPF registers. -/
inductive Reg
  | r0 | r1 | r2 | r3 | r4 | r5 | r6 | r7 | r8 | r9 | r10
  deriving DecidableEq, Repr

/-- ALU operations used by the generator. -/
inductive AluOp
  | add | sub | and | or | lsh | mov
  deriving DecidableEq, Repr

/-- Jump conditions used by the generator (all unsigned). -/
inductive Cond
  | eq | ne | lt | le | gt | ge
  deriving DecidableEq, Repr

/-- Access sizes `BPF_B`, `BPF_H`, `BPF_W`, `BPF_DW`. -/
inductive Size
  | b | h | w | dw
  deriving DecidableEq, Repr

/-- Bytes of an access. -/
def Size.bytes : Size → Nat
  | .b => 1 | .h => 2 | .w => 4 | .dw => 8

/-- Second operand. -/
inductive Src
  | k (imm : BitVec 32)
  | x (r : Reg)
  deriving DecidableEq, Repr

/-- Fields of kernel structures.  Their byte offsets come from UAPI headers (`offsetof`) or from BTF
(`bf_btf_get_field_off`); the model addresses them by name. -/
inductive KField
  | xdpData | xdpDataEnd | xdpIngressIfindex
  | skbLen | skbIfindex | skbFamily | skbMark
  | nfState | nfSkb | nfIn | nfOut | nfPf | devIfindex | kskbLen | kskbMark
  deriving DecidableEq, Repr

/-- Kernel helpers (`BPF_EMIT_CALL`). -/
inductive Helper
  | mapLookup | prandom | ktime | hashRecalc | redirect
  deriving DecidableEq, Repr

/-- Kernel functions (`EMIT_KFUNC_CALL`). -/
inductive Kfunc
  | dynptrFromXdp | dynptrFromSkb | dynptrSlice
  deriving DecidableEq, Repr

/-- ELF stubs, /repo/src/libbpfilter/include/bpfilter/elfstub.h:80 `enum bf_elfstub_id`. -/
inductive Stub
  | parseIpv6Eh | parseIpv6Nh | updateCounters | pktLog | flowHash | sockAddrLog
  deriving DecidableEq, Repr

/-- Instructions.  `ld64`, `ldMap` occupy two slots, the second one being `pad`.  `stub id` is the
first word of an ELF stub's body, `stubPad` each of its following words: stub bodies are compiled C
(`/repo/src/libbpfilter/bpf/*.bpf.c`), whose effect is given by `Machine/Sem.lean`. -/
inductive Insn
  | alu (w64 : Bool) (op : AluOp) (dst : Reg) (src : Src)
  | bswap16 (dst : Reg)
  | ldx (sz : Size) (dst src : Reg) (off : Int)
  | stx (sz : Size) (dst : Reg) (off : Int) (src : Reg)
  | st (sz : Size) (dst : Reg) (off : Int) (imm : BitVec 32)
  | ldxF (sz : Size) (dst src : Reg) (f : KField)
  | stxF (sz : Size) (dst : Reg) (f : KField) (src : Reg)
  | ld64 (dst : Reg) (v : BitVec 64)
  | ldMap (dst : Reg) (fd : BitVec 32)
  | pad
  | jmp (w64 : Bool) (c : Cond) (dst : Reg) (src : Src) (off : BitVec 16)
  | ja (off : BitVec 16)
  | call (h : Helper)
  | kcall (k : Kfunc)
  | callRel (imm : BitVec 32)
  | exit
  | stub (id : Stub)
  | stubPad
  deriving DecidableEq, Repr

end Bf
