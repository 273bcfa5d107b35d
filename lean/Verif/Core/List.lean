import Verif.Base
/-!
# Model of `core/list.c` (doubly linked list)

Memory is explicit: a node lives at an address, `free` makes the address
invalid, and touching an invalid address is undefined behaviour (`Res.ub`).
`malloc` is a parameter: every insertion takes the address chosen by the
allocator, or `none` when the allocation fails.

Simplifications: `len` is a `Nat` (a list of `SIZE_MAX` nodes cannot be
allocated); the `free` callback on the data has no effect on the list.
-/
namespace Bf.CList
open Bf

/-- core/list.h:61-66 `struct bf_list_node`. -/
structure Node (α : Type) where
  data : α
  prev : Option Nat
  next : Option Nat

/-- core/list.h:83-89 `struct bf_list`, plus the heap its nodes live in. -/
structure LList (α : Type) where
  len  : Nat
  head : Option Nat
  tail : Option Nat
  mem  : Nat → Option (Node α)

variable {α : Type}

/-- core/list.c:83-95 `bf_list_init` on an empty heap. -/
def init : LList α := { len := 0, head := none, tail := none, mem := fun _ => none }

/-- core/list.c:152-175 `bf_list_add_head`. `a` is the result of `calloc`. -/
def addHead (l : LList α) (d : α) (a : Option Nat) : Res (LList α) :=
  match a with
  | none => .err .ENOMEM
  | some a =>
    let mem := upd l.mem a (some { data := d, prev := none, next := l.head })
    let mem' : Res (Nat → Option (Node α)) :=
      match l.head with
      | none => .ok mem
      | some h =>
        match mem h with
        | none => .ub
        | some hn => .ok (upd mem h (some { hn with prev := some a }))
    match mem' with
    | .ok mem => .ok { len := l.len + 1
                       head := some a
                       tail := if l.tail.isNone then some a else l.tail
                       mem := mem }
    | .err e => .err e
    | .ub => .ub

/-- core/list.c:177-200 `bf_list_add_tail`. `a` is the result of `calloc`. -/
def addTail (l : LList α) (d : α) (a : Option Nat) : Res (LList α) :=
  match a with
  | none => .err .ENOMEM
  | some a =>
    let mem := upd l.mem a (some { data := d, prev := l.tail, next := none })
    let mem' : Res (Nat → Option (Node α)) :=
      match l.tail with
      | none => .ok mem
      | some t =>
        match mem t with
        | none => .ub
        | some tn => .ok (upd mem t (some { tn with next := some a }))
    match mem' with
    | .ok mem => .ok { len := l.len + 1
                       head := if l.head.isNone then some a else l.head
                       tail := some a
                       mem := mem }
    | .err e => .err e
    | .ub => .ub

/-- Write `f` to the node at address `p` if `p` is not NULL; UB if it is dangling. -/
def modNode (mem : Nat → Option (Node α)) (p : Option Nat) (f : Node α → Node α) :
    Res (Nat → Option (Node α)) :=
  match p with
  | none => .ok mem
  | some p => match mem p with
    | none => .ub
    | some n => .ok (upd mem p (some (f n)))

/-- core/list.c:202-220 `bf_list_delete` of the node at address `n`. -/
def delete (l : LList α) (n : Nat) : Res (LList α) :=
  match l.mem n with
  | none => .ub
  | some node =>
    let head := if l.head = some n then node.next else l.head
    let tail := if l.tail = some n then node.prev else l.tail
    match modNode l.mem node.prev (fun p => { p with next := node.next }) with
    | .ub => .ub
    | .err e => .err e
    | .ok mem1 =>
      match modNode mem1 node.next (fun q => { q with prev := node.prev }) with
      | .ub => .ub
      | .err e => .err e
      | .ok mem2 => .ok { len := l.len - 1, head := head, tail := tail, mem := upd mem2 n none }

/-- `__next ? __next->next : NULL` (core/list.h:105-108). -/
def nextOf (l : LList α) (p : Option Nat) : Res (Option Nat) :=
  match p with
  | none => .ok none
  | some p => match l.mem p with
    | none => .ub
    | some n => .ok n.next

/-- `__next ? __next->prev : NULL` (core/list.h:121-124). -/
def prevOf (l : LList α) (p : Option Nat) : Res (Option Nat) :=
  match p with
  | none => .ok none
  | some p => match l.mem p with
    | none => .ub
    | some n => .ok n.prev

/-- core/list.h:105-108 `bf_list_foreach`: loop with current node `cur`, saved
successor `nxt`, loop body `body` (which may modify the list and an accumulator).
`fuel` bounds the number of iterations (exhausted fuel is reported as `ub`: an
endless loop never happens for a theorem that returns `ok`). -/
def foreachLoop {β : Type} (body : LList α → β → Nat → Res (LList α × β)) :
    Nat → LList α → β → Option Nat → Option Nat → Res (LList α × β)
  | _, l, b, none, _ => .ok (l, b)
  | 0, _, _, some _, _ => .ub
  | fuel + 1, l, b, some cur, nxt =>
    match body l b cur with
    | .ub => .ub
    | .err e => .err e
    | .ok (l', b') =>
      match nextOf l' nxt with
      | .ok nn => foreachLoop body fuel l' b' nxt nn
      | .err e => .err e
      | .ub => .ub

/-- core/list.h:105-108 `bf_list_foreach`, initialisation part. -/
def foreach {β : Type} (body : LList α → β → Nat → Res (LList α × β))
    (fuel : Nat) (l : LList α) (b : β) : Res (LList α × β) :=
  match nextOf l l.head with
  | .ok nn => foreachLoop body fuel l b l.head nn
  | .err e => .err e
  | .ub => .ub

/-- Loop body collecting the data of each node. -/
def collect (l : LList α) (acc : List α) (n : Nat) : Res (LList α × List α) :=
  match l.mem n with
  | none => .ub
  | some nd => .ok (l, acc ++ [nd.data])

/-- Forward traversal with `bf_list_foreach`. -/
def forward (fuel : Nat) (l : LList α) : Res (List α) :=
  match foreach collect fuel l [] with
  | .ok (_, r) => .ok r
  | .err e => .err e
  | .ub => .ub

/-- core/list.h:121-124 `bf_list_foreach_rev`, collecting the data. -/
def backwardLoop (l : LList α) : Nat → List α → Option Nat → Option Nat → Res (List α)
  | _, b, none, _ => .ok b
  | 0, _, some _, _ => .ub
  | fuel + 1, b, some cur, nxt =>
    match l.mem cur with
    | none => .ub
    | some nd =>
      match prevOf l nxt with
      | .ok nn => backwardLoop l fuel (b ++ [nd.data]) nxt nn
      | .err e => .err e
      | .ub => .ub

/-- core/list.h:121-124 `bf_list_foreach_rev`, initialisation part. -/
def backward (fuel : Nat) (l : LList α) : Res (List α) :=
  match prevOf l l.tail with
  | .ok nn => backwardLoop l fuel [] l.tail nn
  | .err e => .err e
  | .ub => .ub

/-- Follow `i` `next` links from `p` (bf_list_node_next, core/list.h:376-380). -/
def walk (l : LList α) : Nat → Option Nat → Res (Option Nat)
  | 0, p => .ok p
  | i + 1, p => match nextOf l p with
    | .ok q => walk l i q
    | .err e => .err e
    | .ub => .ub

/-- core/list.c:222-233 `bf_list_get_at`. -/
def getAtLoop (l : LList α) : Nat → Nat → Option Nat → Option Nat → Res (Option α)
  | _, _, none, _ => .ok none
  | 0, _, some _, _ => .ub
  | fuel + 1, idx, some cur, nxt =>
    match l.mem cur with
    | none => .ub
    | some nd =>
      match idx with
      | 0 => .ok (some nd.data)
      | i + 1 => match nextOf l nxt with
        | .ok nn => getAtLoop l fuel i nxt nn
        | .err e => .err e
        | .ub => .ub

/-- core/list.c:222-233 `bf_list_get_at`. -/
def getAt (fuel : Nat) (l : LList α) (idx : Nat) : Res (Option α) :=
  match nextOf l l.head with
  | .ok nn => getAtLoop l fuel idx l.head nn
  | .err e => .err e
  | .ub => .ub

end Bf.CList
