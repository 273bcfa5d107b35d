import Verif.Gen.Emit
/-!
# Comparison code, `/repo/src/libbpfilter/cgen/matcher/cmp.c`
-/
namespace Bf

/-- cmp.c:22-45 `bf_cmp_get_jmp_ins`. -/
def jmpIns (m : Matcher) : Gen Cond :=
  match m.op with
  | .eq | .all => pure (if m.negate then .eq else .ne)
  | .any | .in_ => pure (if m.negate then .ne else .eq)
  | .range => abort

/-- The register after `r` (`reg + 1`), for the registers 128-bit fields are loaded into. -/
def Reg.succ : Reg → Reg
  | .r0 => .r1 | .r1 => .r2 | .r2 => .r3 | .r3 => .r4 | .r4 => .r5 | .r5 => .r6 | .r6 => .r7
  | .r7 => .r8 | .r8 => .r9 | .r9 => .r10 | .r10 => .r10

/-- cmp.c:71-80 `_bf_cmp_build_imm64`. -/
def imm64 (d sc : Reg) (v : BitVec 64) : List Insn :=
  [mov32i d ((v >>> 32).setWidth 32), .alu true .lsh d (.k 32), mov32i sc (v.setWidth 32),
   .alu true .or d (.x sc)]

/-- cmp.c:47-54 `_bf_read_u64`. -/
def rd64 (p : List Byte) (off : Nat) : Res (BitVec 64) := (rd p off 8).bind fun v => .ok (BitVec.ofNat 64 v)

/-- cmp.c:89-98 `_bf_prefix_to_mask`: writing past the mask is undefined behaviour. -/
def prefixToMask (prefixlen len : Nat) : Res (List Byte) :=
  if prefixlen ≤ 8 * len then
    .ok ((List.range len).map fun i =>
      if i < prefixlen / 8 then 0xff
      else if i = prefixlen / 8 then
        if prefixlen % 8 ≠ 0 then BitVec.ofNat 8 (0xff <<< (8 - prefixlen % 8)) else 0
      else 0)
  else .ub

/-- The comparison of two halves shared by `bf_cmp_value` and `bf_cmp_masked_value` for 16 bytes
(cmp.c:155-191, 262-297). -/
def cmp128 (jop : Cond) (reg : Reg) (lo hi : BitVec 64) : Gen Unit := do
  emits (imm64 .r3 .r4 lo)
  if jop = .ne then do
    emitNext (.jmp true .ne reg (.x .r3) 0)
    emits (imm64 .r3 .r4 hi)
    emitNext (.jmp true .ne reg.succ (.x .r3) 0)
  else
    withJmp (.jmp true .ne reg (.x .r3) 0) (do
      emits (imm64 .r3 .r4 hi)
      withJmp (.jmp true .ne reg.succ (.x .r3) 0) (emitNext (.ja 0)))

/-- cmp.c:100-200 `bf_cmp_value`; `ref` is the memory `ref` points to. -/
def cmpValue (m : Matcher) (ref : List Byte) (size : Nat) (reg : Reg) : Gen Unit := do
  if m.op ≠ .eq then fail .EINVAL else do
  let jop ← jmpIns m
  match size with
  | 1 => do
    let v ← lift (rd ref 0 1)
    emitNext (.jmp true jop reg (.k (BitVec.ofNat 32 v)) 0)
  | 2 => do
    let v ← lift (rd ref 0 2)
    emitNext (.jmp true jop reg (.k (BitVec.ofNat 32 v)) 0)
  | 4 => do
    let v ← lift (rd ref 0 4)
    emit (mov32i .r2 (BitVec.ofNat 32 v))
    emitNext (.jmp true jop reg (.x .r2) 0)
  | 8 => do
    let v ← lift (rd64 ref 0)
    emits (imm64 .r2 .r3 v)
    emitNext (.jmp true jop reg (.x .r2) 0)
  | 16 => do
    let lo ← lift (rd64 ref 0)
    let hi ← lift (rd64 ref 8)
    cmp128 jop reg lo hi
  | _ => fail .EINVAL

/-- Bytewise AND of the reference address and the mask (cmp.c:250-253). -/
def maskBytes (a m : List Byte) : List Byte := List.zipWith (· &&& ·) a m

/-- cmp.c:202-303 `bf_cmp_masked_value`. -/
def cmpMasked (m : Matcher) (ref : List Byte) (prefixlen size : Nat) (reg : Reg) : Gen Unit := do
  if m.op ≠ .eq then fail .EINVAL else do
  let jop ← jmpIns m
  match size with
  | 4 => do
    let mask ← lift (prefixToMask prefixlen 4)
    let v ← lift (rd ref 0 4)
    emit (mov32i .r2 (BitVec.ofNat 32 v))
    if BitVec.ofNat 32 (leNat mask) ≠ 0xFFFFFFFF then do
      emit (mov32i .r3 (BitVec.ofNat 32 (leNat mask)))
      emit (.alu false .and reg (.x .r3))
      emit (.alu false .and .r2 (.x .r3))
    else pure ()
    emitNext (.jmp true jop reg (.x .r2) 0)
  | 16 => do
    let mask ← lift (prefixToMask prefixlen 16)
    if (mask[15]?).getD 0 ≠ 0xff then do
      emits (imm64 .r3 .r4 (BitVec.ofNat 64 (leNat (mask.take 8))))
      emit (.alu true .and reg (.x .r3))
      emits (imm64 .r3 .r4 (BitVec.ofNat 64 (leNat (mask.drop 8))))
      emit (.alu true .and reg.succ (.x .r3))
    else pure ()
    if ref.length < 16 then abort else
    let masked := maskBytes (ref.take 16) mask
    cmp128 jop reg (BitVec.ofNat 64 (leNat (masked.take 8)))
      (BitVec.ofNat 64 (leNat (masked.drop 8)))
  | _ => fail .EINVAL

/-- cmp.c:305-326 `bf_cmp_range`. -/
def cmpRange (m : Matcher) (lo hi : Nat) (reg : Reg) : Gen Unit := do
  if m.negate then
    withJmp (.jmp false .lt reg (.k (BitVec.ofNat 32 lo)) 0)
      (withJmp (.jmp false .gt reg (.k (BitVec.ofNat 32 hi)) 0) (emitNext (.ja 0)))
  else do
    emitNext (.jmp false .lt reg (.k (BitVec.ofNat 32 lo)) 0)
    emitNext (.jmp false .gt reg (.k (BitVec.ofNat 32 hi)) 0)

/-- cmp.c:328-345 `bf_cmp_bitfield`. -/
def cmpBitfield (m : Matcher) (flags : Nat) (reg : Reg) : Gen Unit := do
  if m.op ≠ .any ∧ m.op ≠ .all then fail .EINVAL else do
  let jop ← jmpIns m
  emit (.alu false .and reg (.k (BitVec.ofNat 32 flags)))
  emitNext (.jmp false jop reg (.k (BitVec.ofNat 32 (if m.op = .any then 0 else flags))) 0)

end Bf
