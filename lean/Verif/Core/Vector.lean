import Verif.Base
/-!
# Model of `core/vector.c`

The backing buffer is explicit: `alloc` bytes are owned, any write outside is
undefined behaviour. All unchecked C arithmetic on `size_t` wraps modulo 2^64.
The allocator is a parameter of each growing call: `none` when `realloc` fails,
otherwise the (arbitrary) content of the fresh bytes.
-/
namespace Bf.CVec
open Bf

/-- `SIZE_MAX` on a 64-bit host. -/
def SIZE_MAX : Nat := 2 ^ 64 - 1
/-- Unchecked `size_t` arithmetic result. -/
def wrap (n : Nat) : Nat := n % 2 ^ 64

/-- core/vector.c:15 -/
def INIT_CAP : Nat := 8
/-- core/vector.c:17 -/
def MAX_CAP : Nat := SIZE_MAX / 3 * 2

/-- core/vector.h `struct bf_vector`: `mem`/`alloc` are the buffer `data` points to
(`alloc = 0` when `data` is NULL). -/
structure Vec where
  elemSize : Nat
  size : Nat
  cap : Nat
  alloc : Nat
  mem : Nat → UInt8

/-- core/vector.c:19-34 `bf_vector_default`, `bf_vector_init`. -/
def init (elemSize : Nat) : Vec :=
  { elemSize, size := 0, cap := 0, alloc := 0, mem := fun _ => 0 }

/-- Memory after writing the bytes `bs` at offset `off`. -/
def writeMem (mem : Nat → UInt8) (off : Nat) (bs : List UInt8) : Nat → UInt8 :=
  fun k => if off ≤ k ∧ k < off + bs.length then bs.getD (k - off) 0 else mem k

/-- `memcpy(data + off, bs, |bs|)`; UB when it leaves the allocated buffer. -/
def write (v : Vec) (off : Nat) (bs : List UInt8) : Res Vec :=
  if off + bs.length ≤ v.alloc then
    .ok { v with mem := writeMem v.mem off bs }
  else .ub

/-- core/vector.c:117-134 `_bf_vector_resize` (with `bf_realloc`, helper.c:57-70):
the old bytes are kept, the new ones are arbitrary. -/
def resize (v : Vec) (newCap : Nat) (al : Option (Nat → UInt8)) : Res Vec :=
  if newCap * v.elemSize > SIZE_MAX then .err .EOVERFLOW
  else match al with
    | none => .err .ENOMEM
    | some junk =>
      let sz := newCap * v.elemSize
      .ok { v with cap := newCap, alloc := sz,
                   mem := fun k => if k < v.alloc ∧ k < sz then v.mem k else junk k }

/-- core/vector.c:148-150: the capacity `_bf_vector_grow` asks for. -/
def growCap (v : Vec) (required : Nat) : Nat :=
  min (max (if v.cap ≠ 0 then wrap (v.cap + v.cap / 2) else INIT_CAP) required) MAX_CAP

/-- core/vector.c:136-156 `_bf_vector_grow`. -/
def grow (v : Vec) (required : Nat) (al : Option (Nat → UInt8)) : Res Vec :=
  if required ≤ v.cap then .ok v
  else if v.cap ≥ MAX_CAP then .err .ENOMEM
  else if growCap v required < required then .err .ENOMEM
  else resize v (growCap v required) al

/-- core/vector.c:158-177 `bf_vector_add`. -/
def add (v : Vec) (elem : List UInt8) (al : Option (Nat → UInt8)) : Res Vec :=
  if v.size + 1 > SIZE_MAX then .err .ENOMEM
  else match grow v (v.size + 1) al with
    | .err e => .err e
    | .ub => .ub
    | .ok v => match write v (wrap (v.size * v.elemSize)) elem with
      | .ok v => .ok { v with size := wrap (v.size + 1) }
      | .err e => .err e
      | .ub => .ub

/-- core/vector.c:179-202 `bf_vector_add_many`; `data` holds `count` elements. -/
def addMany (v : Vec) (data : List UInt8) (count : Nat) (al : Option (Nat → UInt8)) : Res Vec :=
  if count = 0 then .ok v
  else if v.size + count > SIZE_MAX then .err .ENOMEM
  else match grow v (v.size + count) al with
    | .err e => .err e
    | .ub => .ub
    | .ok v =>
      match write v (wrap (v.size * v.elemSize)) (data.take (wrap (count * v.elemSize))) with
      | .ok v => .ok { v with size := wrap (v.size + count) }
      | .err e => .err e
      | .ub => .ub

/-- core/vector.c:204-215 `bf_vector_reserve`. -/
def reserve (v : Vec) (cap : Nat) (al : Option (Nat → UInt8)) : Res Vec :=
  if cap ≤ v.cap then .ok v
  else if cap > MAX_CAP then .err .ENOMEM
  else resize v cap al

/-- core/vector.c:86-97 `bf_vector_set`. -/
def set (v : Vec) (index : Nat) (elem : List UInt8) : Res Vec :=
  if index ≥ v.size then .err .EINVAL
  else write v (wrap (index * v.elemSize)) elem

/-- core/vector.c:99-115 `bf_vector_remove`: `memmove` of the tail. -/
def remove (v : Vec) (index : Nat) : Res Vec :=
  if index ≥ v.size then .err .EINVAL
  else
    let v := { v with size := v.size - 1 }
    if index < v.size then
      let src := wrap ((index + 1) * v.elemSize)
      let n := wrap ((v.size - index) * v.elemSize)
      if src + n ≤ v.alloc then
        write v (wrap (index * v.elemSize)) ((List.range n).map (fun j => v.mem (src + j)))
      else .ub
    else .ok v

/-- core/vector.c:76-84 `bf_vector_get`: NULL (`none`) outside, else the bytes at the
returned pointer; UB if they are not all owned. -/
def get (v : Vec) (index : Nat) : Res (Option (List UInt8)) :=
  if index ≥ v.size then .ok none
  else
    let off := wrap (index * v.elemSize)
    if off + v.elemSize ≤ v.alloc then
      .ok (some ((List.range v.elemSize).map (fun j => v.mem (off + j))))
    else .ub

end Bf.CVec
