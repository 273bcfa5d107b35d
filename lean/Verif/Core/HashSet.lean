import Verif.Core.ListLemmas
/-!
# Model of `core/hashset.c` (open addressing, tombstones, insertion-ordered list)

The insertion-order links reuse the heap of `Verif.Core.List` (`LList`, whose fields
`head`, `tail`, `len`, `mem` are those of `bf_hashset`). The slot array is a function
from index to slot, valid below `cap`; arithmetic on `size_t` wraps modulo 2^64.
`calloc`/`malloc` results are parameters of the calls.
-/
namespace Bf.CHash
open Bf Bf.CList

/-- A slot of the backing array: NULL, `_BF_HASHSET_TOMBSTONE`, or an element. -/
inductive Slot
  | empty
  | tomb
  | elem (a : Nat)
  deriving DecidableEq

/-- core/hashset.h:67-89 `struct bf_hashset` (`len`, `head`, `tail` are in `list`). -/
structure HS (α : Type) where
  slots : Nat → Slot
  cap : Nat
  inUse : Nat
  list : LList α

/-- The user callbacks `bf_hashset_ops` (core/hashset.h). -/
structure Ops (α : Type) where
  hash : α → Nat
  eqv : α → α → Bool

variable {α : Type}

/-- Unchecked `size_t` arithmetic. -/
def wrap (n : Nat) : Nat := n % 2 ^ 64

/-- core/hashset.c:16 -/
def INIT_CAP : Nat := 16
/-- core/hashset.c:24 `SIZE_MAX / 16 + 1`. -/
def MAX_CAP : Nat := (2 ^ 64 - 1) / 16 + 1

/-- core/hashset.c:194-202 `bf_hashset_init`. -/
def init : HS α := { slots := fun _ => .empty, cap := 0, inUse := 0, list := CList.init }

/-- core/hashset.c:25-41 `_bf_round_next_power_of_2` (64-bit `size_t`). -/
def roundPow2 (value : Nat) : Nat :=
  if value = 0 then 1
  else
    let v := value - 1
    let v := v ||| (v >>> 1)
    let v := v ||| (v >>> 2)
    let v := v ||| (v >>> 4)
    let v := v ||| (v >>> 8)
    let v := v ||| (v >>> 16)
    let v := v ||| (v >>> 32)
    wrap (v + 1)

/-- core/hashset.c:71-73: the probe loop of `_bf_hashset_resize`. Fuel exhaustion
(an endless loop) is reported as `ub`. -/
def probeFree (slots : Nat → Slot) (cap : Nat) : Nat → Nat → Res Nat
  | 0, _ => .ub
  | fuel + 1, idx => match slots idx with
    | .empty => .ok idx
    | _ => probeFree slots cap fuel ((idx + 1) % cap)

/-- core/hashset.c:69-75: body of the rehash loop. -/
def rehashBody (o : Ops α) (newCap : Nat) (l : LList α) (slots : Nat → Slot) (n : Nat) :
    Res (LList α × (Nat → Slot)) :=
  match l.mem n with
  | none => .ub
  | some nd =>
    match probeFree slots newCap newCap (o.hash nd.data % newCap) with
    | .ok idx => .ok (l, upd slots idx (.elem n))
    | .err e => .err e
    | .ub => .ub

/-- core/hashset.c:57-84 `_bf_hashset_resize`. -/
def resize (o : Ops α) (s : HS α) (newCap : Nat) (callocOk : Bool) : Res (HS α) :=
  if newCap ≤ s.list.len then .err .EINVAL
  else if !callocOk then .err .ENOMEM
  else match foreach (rehashBody o newCap) s.list.len s.list (fun _ => Slot.empty) with
    | .ok (_, slots) => .ok { s with slots := slots, cap := newCap, inUse := s.list.len }
    | .err e => .err e
    | .ub => .ub

/-- core/hashset.c:86-97 `_bf_hashset_grow`. -/
def grow (o : Ops α) (s : HS α) (callocOk : Bool) : Res (HS α) :=
  if s.cap ≥ MAX_CAP then .err .ENOMEM
  else resize o s (if s.cap ≠ 0 then wrap (s.cap * 2) else INIT_CAP) callocOk

/-- core/hashset.c:99-105 `_bf_hashset_needs_grow`. -/
def needsGrow (s : HS α) : Bool :=
  wrap (s.inUse * 10) ≥ wrap (s.cap * 5)

/-- core/hashset.c:138-160: the loop of `_bf_hashset_find`; `n` iterations left. Returns
(found index, free index). -/
def findLoop (o : Ops α) (s : HS α) (x : α) : Nat → Nat → Option Nat → Res (Option Nat × Option Nat)
  | 0, _, firstFree => .ok (none, firstFree)
  | n + 1, idx, firstFree =>
    match s.slots idx with
    | .empty => .ok (none, some (firstFree.getD idx))
    | .tomb => findLoop o s x n ((idx + 1) % s.cap) (if firstFree.isNone then some idx else firstFree)
    | .elem a => match s.list.mem a with
      | none => .ub
      | some nd =>
        if o.eqv nd.data x then .ok (some idx, none)
        else findLoop o s x n ((idx + 1) % s.cap) firstFree

/-- core/hashset.c:122-161 `_bf_hashset_find`. -/
def find (o : Ops α) (s : HS α) (x : α) : Res (Option Nat × Option Nat) :=
  if s.cap = 0 then .ok (none, none)
  else findLoop o s x s.cap (o.hash x % s.cap) none

/-- core/hashset.c:286-305: second half of `bf_hashset_add`, once a free index is known.
`addr` is the result of `malloc`. -/
def insertAt (s : HS α) (x : α) (free : Option Nat) (addr : Option Nat) : Res (HS α × Option Errno) :=
  match addr with
  | none => .ok (s, some .ENOMEM)
  | some a =>
    match free with
    | none => .ub
    | some f =>
      if f ≥ s.cap then .ub
      else
        let wasTomb := s.slots f = .tomb
        -- set->tail / set->head links: core/hashset.c:293-300
        let mem := upd s.list.mem a (some { data := x, prev := s.list.tail, next := none })
        match modNode mem s.list.tail (fun t => { t with next := some a }) with
        | .ok mem =>
          .ok ({ slots := upd s.slots f (.elem a)
                 cap := s.cap
                 inUse := if wasTomb then s.inUse else s.inUse + 1
                 list := { len := s.list.len + 1
                           head := if s.list.tail.isSome then s.list.head else some a
                           tail := some a
                           mem := mem } }, none)
        | .err e => .err e
        | .ub => .ub

/-- core/hashset.c:257-306 `bf_hashset_add`. The result is the new set and the error
code (`none` for 0). -/
def add (o : Ops α) (s : HS α) (x : α) (callocOk : Bool) (addr : Option Nat) :
    Res (HS α × Option Errno) :=
  match find o s x with
  | .err e => .err e
  | .ub => .ub
  | .ok (some _, _) => .ok (s, some .EEXIST)
  | .ok (none, free) =>
    if s.list.len ≥ MAX_CAP then .ok (s, some .ENOMEM)
    else if needsGrow s then
      match grow o s callocOk with
      | .err e => .ok (s, some e)
      | .ub => .ub
      | .ok s' => match find o s' x with
        | .err e => .err e
        | .ub => .ub
        | .ok (some _, _) => .ok (s', some .EEXIST)
        | .ok (none, free') => insertAt s' x (free'.or free) addr
    else insertAt s x free addr

/-- core/hashset.c:308-314 `bf_hashset_contains`. -/
def contains (o : Ops α) (s : HS α) (x : α) : Res Bool :=
  match find o s x with
  | .ok (f, _) => .ok f.isSome
  | .err e => .err e
  | .ub => .ub

/-- core/hashset.c:316-333 `_bf_hashset_unlink`. -/
def unlink (s : HS α) (idx : Nat) : Res (HS α) :=
  match s.slots idx with
  | .elem a =>
    match s.list.mem a with
    | none => .ub
    | some nd =>
      match modNode s.list.mem nd.prev (fun p => { p with next := nd.next }) with
      | .ub => .ub
      | .err e => .err e
      | .ok mem1 =>
        match modNode mem1 nd.next (fun q => { q with prev := nd.prev }) with
        | .ub => .ub
        | .err e => .err e
        | .ok mem2 =>
          .ok { slots := upd s.slots idx .tomb
                cap := s.cap
                inUse := s.inUse
                list := { len := s.list.len - 1
                          head := if nd.prev.isSome then s.list.head else nd.next
                          tail := if nd.next.isSome then s.list.tail else nd.prev
                          mem := upd mem2 a none } }
  | _ => .ub

/-- core/hashset.c:335-351 `bf_hashset_delete`. -/
def delete (o : Ops α) (s : HS α) (x : α) : Res (HS α × Option Errno) :=
  match find o s x with
  | .err e => .err e
  | .ub => .ub
  | .ok (none, _) => .ok (s, some .ENOENT)
  | .ok (some idx, _) => match unlink s idx with
    | .ok s' => .ok (s', none)
    | .err e => .err e
    | .ub => .ub

/-- core/hashset.c:353-368 `bf_hashset_take`: also returns the stored element. -/
def take (o : Ops α) (s : HS α) (x : α) : Res (HS α × Option α) :=
  match find o s x with
  | .err e => .err e
  | .ub => .ub
  | .ok (none, _) => .ok (s, none)
  | .ok (some idx, _) => match s.slots idx with
    | .elem a => match s.list.mem a with
      | none => .ub
      | some nd => match unlink s idx with
        | .ok s' => .ok (s', some nd.data)
        | .err e => .err e
        | .ub => .ub
    | _ => .ub

/-- core/hashset.c:234-255 `bf_hashset_reserve`. -/
def reserve (o : Ops α) (s : HS α) (count : Nat) (callocOk : Bool) : Res (HS α × Option Errno) :=
  if count = 0 then .ok (s, none)
  else if count > MAX_CAP then .ok (s, some .ENOMEM)
  else
    let needed := wrap (count * 10) / 5
    if needed ≤ s.cap then .ok (s, none)
    else
      let newCap := roundPow2 (max needed INIT_CAP)
      if newCap > MAX_CAP then .ok (s, some .ENOMEM)
      else match resize o s newCap callocOk with
        | .ok s' => .ok (s', none)
        | .err e => .ok (s, some e)
        | .ub => .ub

end Bf.CHash
