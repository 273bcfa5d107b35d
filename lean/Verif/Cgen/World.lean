import Verif.Pack.Handle
import Verif.Gen.Program
/-!
# System calls on BPF objects

What `/repo/src/libbpfilter/cgen` asks the kernel for: maps, programs, links, pins.  A program that makes system calls is a tree
(`P`): each call may fail, packets may be processed between calls, and the process may die between calls.

Simplifications: one process works on the directory of a chain at a time (this is C29), so other processes are not in
the model; an object is named by its rank of creation, and a descriptor by the object it refers to; objects are never reused.
-/
namespace Bf.Pin

/-- A counter: packets and bytes. -/
abbrev Ctr := BitVec 64 × BitVec 64

/-- Where a link attaches a program.  The priority of a netfilter link is not part of it: programs of all priorities run. -/
inductive Point
  | iface (h : Hook) (ifindex : Int)
  | cgroup (h : Hook) (path : Option String)
  | nf (h : Hook) (v6 : Bool)
  deriving DecidableEq, Repr

/-- What is known of the content of a map: that of the context map; the counters, for each index and each CPU; what the map of a group of sets was made as, its
keys and values; only its type for the others (printer, log, state). -/
inductive Content
  | bytes (b : List Byte)
  | counters (f : Nat → List Ctr)
  | keyed (d : MapD) (l : List (List Byte × List Byte))
  | other (t : MapType)

/-- A BPF object of the kernel. -/
inductive Obj
  /-- a program: its instructions, the chain they were generated from (for the specification), and its counters map -/
  | prog (chain : Chain) (img : List Insn) (cmap : Nat)
  | map (c : Content)
  /-- a link: where it attaches, the program, whether it was detached -/
  | link (pt : Point) (prog : Nat) (detached : Bool)

/-- System calls (and other things that can fail). -/
inductive Call
  /-- allocation of memory -/
  | alloc
  /-- core/lock.c:253-300 `bf_lock_init` -/
  | lockInit
  /-- core/lock.c:337-393 `bf_lock_acquire_chain`, not creating -/
  | acquire (dir : String)
  /-- core/lock.c:337-393 `bf_lock_acquire_chain`, creating -/
  | create (dir : String)
  /-- core/lock.c:395-425 `bf_lock_release_chain`, of a chain locked for writing (`true`) or not -/
  | release (dir : String) (write : Bool)
  /-- entries of the pin directory -/
  | readdir
  /-- io.c:90-160 `bf_rmdir_at`, recursive: a directory and what is pinned in it are removed
  (simplification: all or nothing) -/
  | rmTree (dir : String)
  /-- `open(2)` of a cgroup -/
  | openCgroup (path : Option String)
  | mapCreate (d : MapD)
  | mapWrite (m : Nat) (v : List Byte)
  /-- bpf.c:268-285 `bf_bpf_map_update_batch`: keys and values are added (simplification: all or none) -/
  | mapFill (m : Nat) (l : List (List Byte × List Byte))
  | mapRead (m : Nat)
  | ctrRead (m idx : Nat)
  | ctrWrite (m idx : Nat) (v : List Ctr)
  | progLoad (chain : Chain) (img : List Insn) (cmap : Nat)
  | pin (dir name : String) (o : Nat)
  | get (dir name : String)
  | unlink (dir name : String)
  | rename (dir name name' : String)
  | linkCreate (prog : Nat) (pt : Point)
  | linkUpdate (l prog : Nat)
  | linkDetach (l : Nat)
  | close (o : Nat)

inductive Ans
  | fail (e : Errno)
  | done
  | id (o : Nat)
  | bytes (b : List Byte)
  | ctrs (v : List Ctr)
  | names (l : List String)

/-- The kernel and the process. -/
structure K where
  /-- number of possible CPUs -/
  ncpu : Nat
  objs : List Obj
  /-- directories of the pin directory -/
  dirs : List String
  /-- what is pinned: directory, name, object -/
  pins : List ((String × String) × Nat)
  /-- open descriptors of the process -/
  fds : List Nat
  /-- the system calls the process made, latest first (for the specification) -/
  hist : List (Call × Ans)

def K.pinned (w : K) (dir name : String) : Option Nat := w.pins.lookup (dir, name)

/-- An object the process, or a pin, keeps. -/
def K.held (w : K) (o : Nat) : Prop := o ∈ w.fds ∨ ∃ dir name, w.pinned dir name = some o

/-- Program `p` runs at point `pt`: a link that was not detached and that someone holds attaches it. -/
def K.runs (w : K) (pt : Point) (p : Nat) : Prop := ∃ l, w.objs[l]? = some (.link pt p false) ∧ w.held l

/-- The process dies: its descriptors are closed. -/
def K.die (w : K) : K := { w with fds := [] }

def K.log (w : K) (c : Call) (a : Ans) : K := { w with hist := (c, a) :: w.hist }

/-- A new object, and a descriptor for it. -/
def K.new (w : K) (o : Obj) : K := { w with objs := w.objs ++ [o], fds := w.objs.length :: w.fds }

def K.put (w : K) (i : Nat) (o : Obj) : K := { w with objs := w.objs.set i o }

/-- The content of a new map. -/
def initial (ncpu : Nat) (d : MapD) : Content :=
  match d.type with
  | .ctx => .bytes []
  | .counters => .counters fun _ => List.replicate ncpu (0, 0)
  | .set => .keyed d []
  | t => .other t

/-- What a call does when it succeeds; `none` if it can't. -/
def K.ok (w : K) : Call → Option (Ans × K)
  | .alloc | .lockInit | .openCgroup _ => some (.done, w)
  | .acquire dir => if dir ∈ w.dirs then some (.done, w) else none
  | .create dir => if dir ∈ w.dirs then none else some (.done, { w with dirs := dir :: w.dirs })
  | .release dir write =>
    if write ∧ ∀ p ∈ w.pins, p.1.1 ≠ dir then some (.done, { w with dirs := w.dirs.filter (· ≠ dir) }) else some (.done, w)
  | .readdir => some (.names w.dirs, w)
  | .rmTree dir => some (.done, { w with pins := w.pins.filter (fun p => p.1.1 ≠ dir), dirs := w.dirs.filter (· ≠ dir) })
  | .mapCreate d => some (.id w.objs.length, w.new (.map (initial w.ncpu d)))
  | .mapWrite m v =>
    match w.objs[m]? with
    | some (.map (.bytes _)) => some (.done, w.put m (.map (.bytes v)))
    | some (.map _) => some (.done, w)
    | _ => none
  | .mapFill m l =>
    match w.objs[m]? with
    | some (.map (.keyed d l0)) => some (.done, w.put m (.map (.keyed d ((l0.filter fun p => l.all fun q => decide (q.1 ≠ p.1)) ++ l))))
    | some (.map _) => some (.done, w)
    | _ => none
  | .mapRead m =>
    match w.objs[m]? with
    | some (.map (.bytes v)) => some (.bytes v, w)
    | _ => none
  | .ctrRead m idx =>
    match w.objs[m]? with
    | some (.map (.counters f)) => some (.ctrs (f idx), w)
    | _ => none
  | .ctrWrite m idx v =>
    match w.objs[m]? with
    | some (.map (.counters f)) => some (.done, w.put m (.map (.counters fun i => if i = idx then v else f i)))
    | _ => none
  | .progLoad chain img cmap => some (.id w.objs.length, w.new (.prog chain img cmap))
  | .pin dir name o =>
    match w.pinned dir name with
    | some _ => none
    | none => if o < w.objs.length ∧ dir ∈ w.dirs then some (.done, { w with pins := ((dir, name), o) :: w.pins }) else none
  | .get dir name =>
    match w.pinned dir name with
    | some o => some (.id o, { w with fds := o :: w.fds })
    | none => none
  | .unlink dir name =>
    match w.pinned dir name with
    | some _ => some (.done, { w with pins := w.pins.filter fun p => p.1 ≠ (dir, name) })
    | none => none
  | .rename dir name name' =>
    match w.pinned dir name with
    | some o => some (.done, { w with pins := ((dir, name'), o) :: w.pins.filter fun p => p.1 ≠ (dir, name) ∧ p.1 ≠ (dir, name') })
    | none => none
  | .linkCreate prog pt =>
    match w.objs[prog]? with
    | some (.prog _ _ _) => some (.id w.objs.length, w.new (.link pt prog false))
    | _ => none
  | .linkUpdate l prog =>
    match w.objs[l]?, w.objs[prog]? with
    | some (.link pt _ false), some (.prog _ _ _) => some (.done, w.put l (.link pt prog false))
    | _, _ => none
  | .linkDetach l =>
    match w.objs[l]? with
    | some (.link pt prog _) => some (.done, w.put l (.link pt prog true))
    | _ => none
  | .close o => some (.done, { w with fds := w.fds.erase o })

/-- Errors a call can give: any, but `ENOENT` only for what does not exist; closing always works. -/
def K.canFail (w : K) : Call → Errno → Prop
  | .acquire dir, e => e = .ENOENT → dir ∉ w.dirs
  | .get dir name, e => e = .ENOENT → w.pinned dir name = none
  | .mapRead _, e | .readdir, e | .linkDetach _, e => e ≠ .ENOENT
  | .unlink dir name, e => e = .ENOENT → w.pinned dir name = none
  | .close _, _ => False
  | _, _ => True

/-- A call: it fails and does nothing, or it succeeds. -/
inductive Step (w : K) : Call → Ans → K → Prop
  | fail {c : Call} {e : Errno} : w.canFail c e → Step w c (.fail e) (w.log c (.fail e))
  | ok {c : Call} {a : Ans} {w' : K} : w.ok c = some (a, w') → Step w c a (w'.log c a)

/-- Packets are processed: only the counters of programs that are attached change. -/
structure Packets (w w' : K) : Prop where
  same : w' = { w with objs := w'.objs }
  len : w'.objs.length = w.objs.length
  objs : ∀ i o, w.objs[i]? = some o → w'.objs[i]? = some o ∨
    (∃ f f', o = .map (.counters f) ∧ w'.objs[i]? = some (.map (.counters f'))) ∧
      ∃ pt p chain img, w.runs pt p ∧ w.objs[p]? = some (.prog chain img i)

/-- A program making system calls. -/
inductive P (α : Type) : Type
  | ret (a : α) : P α
  | call (c : Call) (k : Ans → P α) : P α

def P.bind {α β : Type} : P α → (α → P β) → P β
  | .ret a, f => f a
  | .call c k, f => .call c fun a => (k a).bind f

instance : Monad P where
  pure := .ret
  bind := P.bind

def sys (c : Call) : P Ans := .call c .ret

/-- `Run w p w' p'`: program `p`, started in `w`, can get to `w'`, where what is left of it is `p'`. -/
inductive Run {α : Type} : K → P α → K → P α → Prop
  | refl {w : K} {p : P α} : Run w p w p
  | packets {w w1 w' : K} {p p' : P α} : Packets w w1 → Run w1 p w' p' → Run w p w' p'
  | step {w w1 w' : K} {c : Call} {k : Ans → P α} {a : Ans} {p' : P α} :
      Step w c a w1 → Run w1 (k a) w' p' → Run w (.call c k) w' p'

def Call.isClose : Call → Bool
  | .close _ => true
  | _ => false

/-- The error of a call that is made to fail, or that can't succeed. -/
def execErr : Call → Bool → Errno
  | .get .., false | .acquire .., false | .unlink .., false => .ENOENT
  | .create .., false | .pin .., false => .EEXIST
  | _, _ => .EPERM

/-- Run a program: call number `i` fails if `fails i` says so, or if it can't succeed; stop before call number `n`. -/
def P.exec {α : Type} (fails : Nat → Bool) (n : Nat) : P α → Nat → K → K × Option α
  | .ret a, _, w => (w, some a)
  | .call c k, i, w =>
    if i < n then
      match (if fails i && !c.isClose then none else w.ok c) with
      | some (a, w') => (k a).exec fails n (i + 1) (w'.log c a)
      | none => (k (.fail (execErr c (fails i)))).exec fails n (i + 1) (w.log c (.fail (execErr c (fails i))))
    else (w, none)

end Bf.Pin
