import Verif.Gen.Types
/-!
# Program under construction: emission, fixups, jump contexts, switches

Paths are relative to `/repo/src/libbpfilter/cgen`.  Memory allocation failures (`-ENOMEM`) and BTF
look-up failures are not modelled; verbose BPF printing (`EMIT_PRINT`) is off.
-/
namespace Bf

/-- fixup.h `enum bf_fixup_type` with its attribute.  `PRINTER_MAP_FD` fixups only patch words inside
ELF stub bodies, which are opaque here. -/
inductive FixTy
  | nextRule
  | cmap
  | lmap
  | smap
  | setMap (idx : Nat)
  | stub (id : Stub)
  deriving DecidableEq, Repr

/-- fixup.h `struct bf_fixup`. -/
structure Fixup where
  ty : FixTy
  insn : Nat
  deriving DecidableEq, Repr

/-- program.h `struct bf_program`: the instructions and the pending fixups. -/
structure Prog where
  img : List Insn
  fixups : List Fixup
  deriving DecidableEq, Repr

/-- A step of program construction. -/
def Gen (α : Type) := Prog → Res (α × Prog)

namespace Gen
/-- Sequencing: stop at the first error. -/
@[inline] def bind {α β : Type} (x : Gen α) (f : α → Gen β) : Gen β :=
  fun p => (x p).bind fun ap => f ap.1 ap.2
instance : Monad Gen where
  pure a := fun p => .ok (a, p)
  bind := bind
end Gen

/-- Leave with an error code. -/
def fail {α : Type} (e : Errno) : Gen α := fun _ => .err e

/-- `bf_abort`, failed `assert`, out-of-bounds access. -/
def abort {α : Type} : Gen α := fun _ => .ub

/-- A computation that does not emit. -/
def lift {α : Type} (x : Res α) : Gen α := fun p => x.bind fun a => .ok (a, p)

/-- program.h:102-107 `EMIT`. -/
def emit (i : Insn) : Gen Unit := fun p => .ok ((), { p with img := p.img ++ [i] })

/-- A sequence of `EMIT`s. -/
def emits : List Insn → Gen Unit
  | [] => pure ()
  | i :: is => do emit i; emits is

/-- program.c:766-787 `bf_program_emit_fixup`, program.c:789-813 `bf_program_emit_fixup_elfstub`. -/
def emitFix (ty : FixTy) (i : Insn) : Gen Unit :=
  fun p => .ok ((), { img := p.img ++ [i], fixups := p.fixups ++ [⟨ty, p.img.length⟩] })

/-- program.h:123-128 `EMIT_FIXUP_ELFSTUB`. -/
def emitStub (id : Stub) : Gen Unit := emitFix (.stub id) (.callRel 0)

/-- program.h:130-136 `EMIT_FIXUP_JMP_NEXT_RULE`. -/
def emitNext (i : Insn) : Gen Unit := emitFix .nextRule i

/-- program.h:138-199 `EMIT_LOAD_{COUNTERS,LOG,STATE,SET}_FD_FIXUP`: two words, fixup on the first. -/
def emitMap (ty : FixTy) (r : Reg) : Gen Unit := do
  emitFix ty (.ldMap r 0)
  emit .pad

/-- Change the offset of a jump instruction. -/
def Insn.setOff (i : Insn) (o : BitVec 16) : Insn :=
  match i with
  | .jmp w c d s _ => .jmp w c d s o
  | .ja _ => .ja o
  | i => i

/-- jmp.h:62-69 `bf_jmpctx_get`: emit a jump to be resolved later; returns its index. -/
def jmpGet (i : Insn) : Gen Nat := fun p => .ok (p.img.length, { p with img := p.img ++ [i] })

/-- jmp.c:18-36 `bf_jmpctx_cleanup`: make the jump land at the current end of the program.  The
offset is truncated to 16 bits (only a warning is issued on overflow). -/
def jmpClean (idx : Nat) : Gen Unit := fun p =>
  match p.img[idx]? with
  | none => .ub
  | some i => .ok ((), { p with
      img := p.img.set idx (i.setOff (BitVec.ofNat 16 (p.img.length - idx - 1))) })

/-- A block scoped by `_clean_bf_jmpctx_`: the jump skips the block. -/
def withJmp (i : Insn) (body : Gen Unit) : Gen Unit := do
  let j ← jmpGet i
  body
  jmpClean j

/-- swich.c:168-208 `bf_swich_generate`, first loop: one comparison per option. -/
def swichCmps (reg : Reg) : List (BitVec 32 × List Insn) → Gen (List Nat)
  | [] => pure []
  | o :: os => do
    let j ← jmpGet (.jmp true .eq reg (.k o.1) 0)
    let js ← swichCmps reg os
    pure (j :: js)

/-- Second loop: the code of each option. -/
def swichBodies : List (Nat × List Insn) → Gen (List Nat)
  | [] => pure []
  | o :: os => do
    jmpClean o.1
    emits o.2
    let j ← jmpGet (.ja 0)
    let js ← swichBodies os
    pure (j :: js)

/-- Last loop: options jump to the end. -/
def cleanAll : List Nat → Gen Unit
  | [] => pure ()
  | j :: js => do jmpClean j; cleanAll js

/-- swich.c:168-208 `bf_swich_generate` (every use in the code base has a default option). -/
def swich (reg : Reg) (opts : List (BitVec 32 × List Insn)) (dflt : List Insn) : Gen Unit := do
  let js ← swichCmps reg opts
  let d ← jmpGet (.ja 0)
  let es ← swichBodies (js.zip (opts.map (·.2)))
  jmpClean d
  emits dflt
  cleanAll es

/-- runtime.h:113-177: offset of a field of `struct bf_runtime` from `R10` (`BF_PROG_CTX_OFF`,
runtime.h:32). -/
def ctx (o : Nat) : Int := (o : Int) - 248

/-- runtime.h:41 `BF_PROG_SCR_OFF`. -/
def scr (o : Nat) : Int := (o : Int) - 64

/-! Field offsets of `struct bf_runtime`, runtime.h:113-177. -/
/-- `arg` -/ def oArg : Nat := 0
/-- `dynptr` -/ def oDynptr : Nat := 8
/-- `log_map` -/ def oLogMap : Nat := 24
/-- `state_map` -/ def oStateMap : Nat := 32
/-- `pkt_size` -/ def oPktSize : Nat := 40
/-- `ipv6_eh` -/ def oEh : Nat := 48
/-- `l2_size` -/ def oL2Size : Nat := 49
/-- `l3_size` -/ def oL3Size : Nat := 50
/-- `l4_size` -/ def oL4Size : Nat := 51
/-- `l3_offset` -/ def oL3Off : Nat := 56
/-- `l4_offset` -/ def oL4Off : Nat := 64
/-- `ifindex` -/ def oIfindex : Nat := 72
/-- `l2_hdr` -/ def oL2Hdr : Nat := 80
/-- `l3_hdr` -/ def oL3Hdr : Nat := 88
/-- `l4_hdr` -/ def oL4Hdr : Nat := 96
/-- `l2` buffer -/ def oL2 : Nat := 104
/-- `l4` buffer -/ def oL4 : Nat := 160

/-! Instruction macros of `linux/filter.h` as vendored by the project (`filter.h`). -/
/-- `BPF_MOV64_REG` -/ def mov (d s : Reg) : Insn := .alu true .mov d (.x s)
/-- `BPF_MOV64_IMM` -/ def movi (d : Reg) (k : BitVec 32) : Insn := .alu true .mov d (.k k)
/-- `BPF_MOV32_IMM` -/ def mov32i (d : Reg) (k : BitVec 32) : Insn := .alu false .mov d (.k k)
/-- `BPF_ALU64_IMM(BPF_ADD, …)` -/
def addi (d : Reg) (k : Int) : Insn := .alu true .add d (.k (BitVec.ofInt 32 k))

/-- `htobe16` on a little-endian host. -/
def htobe16 (v : Nat) : Nat := 256 * (v % 256) + v / 256 % 256

/-- fixup of one instruction, program.c:379-398 `_bf_program_fixup_insn` with `BF_FIXUP_INSN_OFF`. -/
def fixOff (i : Insn) (v : Nat) : Res Insn :=
  match i with
  | .jmp w c d s o => if o = 0 ∧ v < 32767 then .ok (.jmp w c d s (BitVec.ofNat 16 v)) else .ub
  | .ja o => if o = 0 ∧ v < 32767 then .ok (.ja (BitVec.ofNat 16 v)) else .ub
  | _ => .ub

/-- program.c:379-398 with `BF_FIXUP_INSN_IMM`. -/
def fixImm (i : Insn) (v : BitVec 32) : Res Insn :=
  match i with
  | .ldMap d k => if k = 0 then .ok (.ldMap d v) else .ub
  | .callRel k => if k = 0 then .ok (.callRel v) else .ub
  | _ => .ub

/-- What `_bf_program_fixup` computes for the fixup kinds it is called with. -/
structure FixEnv where
  /-- file descriptors of the maps of the handle -/
  fd : FixTy → Res (BitVec 32)
  /-- `elfstubs_location` -/
  stubLoc : Stub → Nat

/-- program.c:420-472 `_bf_program_fixup`: the patched instruction for one fixup; `len` is the current
size of the program. -/
def fixVal (F : FixEnv) (len : Nat) (f : Fixup) (i : Insn) : Res Insn :=
  match f.ty with
  | .nextRule => fixOff i (len - f.insn - 1)
  | .stub id =>
    -- the subtraction is on size_t: a location before the call wraps and is rejected
    if F.stubLoc id < f.insn + 1 ∨ F.stubLoc id - f.insn - 1 ≥ 2147483647 then .err .EINVAL
    else fixImm i (BitVec.ofNat 32 (F.stubLoc id - f.insn - 1))
  | ty => (F.fd ty).bind fun v => fixImm i v

/-- program.c:400-477 `_bf_program_fixup`, one fixup. -/
def fixOne (F : FixEnv) (img : List Insn) (f : Fixup) : Res (List Insn) :=
  match img[f.insn]? with
  | none => .err .EINVAL
  | some i => (fixVal F img.length f i).bind fun i' => .ok (img.set f.insn i')

/-- program.c:400-477 `_bf_program_fixup`: process and remove every fixup selected by `sel`. -/
def fixupLoop (F : FixEnv) (sel : FixTy → Bool) : List Fixup → List Insn → Res (List Fixup × List Insn)
  | [], img => .ok ([], img)
  | f :: fs, img =>
    if sel f.ty then (fixOne F img f).bind fun img' => fixupLoop F sel fs img'
    else (fixupLoop F sel fs img).bind fun r => .ok (f :: r.1, r.2)

/-- program.c:400-477 `_bf_program_fixup`. -/
def fixup (F : FixEnv) (sel : FixTy → Bool) : Gen Unit := fun p =>
  (fixupLoop F sel p.fixups p.img).bind fun r => .ok ((), { img := r.2, fixups := r.1 })

end Bf
