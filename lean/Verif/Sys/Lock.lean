import Verif.Base
/-!
# The locking protocol

`/repo/src/libbpfilter/core/lock.c`, and the sweep of `/repo/src/libbpfilter/ctx.c`, as a transition system: any number of
lock objects (`struct bf_lock`), in any number of processes, one system call at a time, in any order.  A lock object is in one
of the states of `Pc`; the locks it holds are those of its open descriptors (`flock(2)` belongs to the open file
description and goes away with it).

Simplifications: inode numbers are not reused while the model runs (an open descriptor keeps its inode alive, so a number
compared by the code is never that of another directory); opening `$BPFFS` and the pin directory is one step (the pin directory is never
removed: lock.c:271-272); callers lock the pin directory with `READ` or `WRITE`, not `NONE` (all callers do: cli.c:96, 146, 209,
231, 288, 325, 347, 374, 400, 435, 503, 553, ctx.c:224).
-/
namespace Bf.Sys

abbrev Ino := Nat
abbrev Name := String

/-- core/lock.h:109-121 `enum bf_lock_mode`. -/
inductive Mode
  | none
  | read
  | write
  deriving DecidableEq, Repr

/-- core/lock.h:176 `BF_LOCK_STAGING_PREFIX`. -/
def stagingPrefix : String := "__bf_staging_"

/-- The pin directory: its entries (directories), and which directories are not empty. -/
structure FS where
  ents : Name → Option Ino
  full : Ino → Bool
  /-- next inode number -/
  next : Ino

/-- Where a lock object is. -/
inductive Pc
  /-- default, or cleaned up, or its process died -/
  | idle
  /-- lock.c:253-279 `bf_lock_init`: directories open, about to lock the pin directory -/
  | initOpen (m : Mode)
  /-- initialised, no chain -/
  | ready (pm : Mode)
  /-- lock.c:217-222: about to open the chain's directory -/
  | opening (pm : Mode) (name : Name) (mode : Mode) (att : Nat)
  /-- lock.c:226: about to lock it -/
  | opened (pm : Mode) (name : Name) (mode : Mode) (att : Nat) (ino : Ino)
  /-- lock.c:230-239: about to compare with what the name designates -/
  | flocked (pm : Mode) (name : Name) (mode : Mode) (att : Nat) (ino : Ino)
  /-- lock.c:242-245: about to close the descriptor and try again -/
  | retry (pm : Mode) (name : Name) (mode : Mode) (att : Nat) (ino : Ino)
  /-- an error: about to close the descriptor -/
  | failing (pm : Mode) (mode : Mode) (ino : Ino)
  /-- lock.c:148-162: about to create a staging directory -/
  | staging (pm : Mode) (name : Name) (att : Nat)
  /-- lock.c:165: about to open it -/
  | staged (pm : Mode) (name s : Name)
  /-- lock.c:174: about to lock it -/
  | stOpen (pm : Mode) (name s : Name) (ino : Ino)
  /-- lock.c:182: about to publish it -/
  | stLocked (pm : Mode) (name s : Name) (ino : Ino)
  /-- lock.c:168, 176, 186: an error: about to remove the staging directory, open (`some`) or not -/
  | stFailing (pm : Mode) (s : Name) (mode : Mode) (ino : Option Ino)
  /-- a chain is locked -/
  | holding (pm : Mode) (name : Name) (mode : Mode) (ino : Ino)
  /-- lock.c:415-416: about to remove the chain's directory (if empty) -/
  | removing (pm : Mode) (name : Name) (mode : Mode) (ino : Ino)
  /-- lock.c:418: about to close it -/
  | closing (pm : Mode) (mode : Mode) (ino : Ino)
  /-- ctx.c:243-253: the sweep is about to open an entry -/
  | sweepAt (pm : Mode) (s : Name)
  /-- ctx.c:258: about to lock it -/
  | sweepOpen (pm : Mode) (s : Name) (ino : Ino)
  /-- ctx.c:261: about to remove it with its content -/
  | sweepLocked (pm : Mode) (s : Name) (ino : Ino)
  deriving DecidableEq, Repr

/-- The lock a lock object holds on the pin directory. -/
def Pc.pin : Pc → Mode
  | .idle | .initOpen _ => .none
  | .ready pm | .opening pm .. | .opened pm .. | .flocked pm .. | .retry pm .. | .failing pm .. | .staging pm ..
  | .staged pm .. | .stOpen pm .. | .stLocked pm .. | .stFailing pm .. | .holding pm .. | .removing pm .. | .closing pm ..
  | .sweepAt pm .. | .sweepOpen pm .. | .sweepLocked pm .. => pm

/-- The lock a lock object holds on directory `i`. -/
def Pc.on (i : Ino) : Pc → Mode
  | .flocked _ _ m _ j | .retry _ _ m _ j | .failing _ m j | .holding _ _ m j | .removing _ _ m j | .closing _ m j
  | .stFailing _ _ m (some j) => if j = i then m else .none
  | .stLocked _ _ _ j | .sweepLocked _ _ j => if j = i then .write else .none
  | _ => .none

/-- `flock(2)`: whether two locks can be held at the same time. -/
def Mode.compat : Mode → Mode → Bool
  | .none, _ | _, .none | .read, .read => true
  | _, _ => false

/-- All lock objects, and the file system. -/
structure State where
  fs : FS
  procs : Nat → Pc

/-- core/lock.c:35 -/
def maxRetries : Nat := 8
/-- core/lock.c:39 -/
def stagingRetries : Nat := 4

def FS.link (f : FS) (n : Name) (i : Option Ino) : FS := { f with ents := fun m => if m = n then i else f.ents m }

/-- One step of a lock object: `Move others f pc f' pc'`, where `others` are the states of the other lock objects. -/
inductive Move (others : Pc → Prop) (f : FS) : Pc → FS → Pc → Prop
  /-- lock.c:253-277: `bf_lock_init` opens the directories -/
  | init {m : Mode} : m ≠ .none → Move others f .idle f (.initOpen m)
  /-- lock.c:279-287: the pin directory is locked -/
  | initLock {m : Mode} : (∀ q, others q → m.compat q.pin = true) → Move others f (.initOpen m) f (.ready m)
  /-- lock.c:280: it is not (`LOCK_NB`), or something failed -/
  | initFail {m : Mode} : Move others f (.initOpen m) f .idle
  /-- lock.c:337-386: `bf_lock_acquire_chain`, not creating -/
  | acquire {pm : Mode} {name : Name} {mode : Mode} : Move others f (.ready pm) f (.opening pm name mode 0)
  /-- lock.c:355-366, 372-378: `bf_lock_acquire_chain`, creating: `WRITE` is required on both -/
  | create {pm : Mode} {name : Name} {mode : Mode} : mode = .write → pm = .write → Move others f (.ready pm) f (.staging pm name 0)
  /-- lock.c:222 -/
  | opn {pm : Mode} {name : Name} {mode : Mode} {att : Nat} {i : Ino} : f.ents name = some i → att < maxRetries →
      Move others f (.opening pm name mode att) f (.opened pm name mode att i)
  /-- lock.c:223-224 (no such directory, or another error), 247-250 (too many attempts) -/
  | opnFail {pm : Mode} {name : Name} {mode : Mode} {att : Nat} :
      Move others f (.opening pm name mode att) f (.ready pm)
  /-- lock.c:226 -/
  | flock {pm : Mode} {name : Name} {mode : Mode} {att : Nat} {i : Ino} : (∀ q, others q → mode.compat (q.on i) = true) →
      Move others f (.opened pm name mode att i) f (.flocked pm name mode att i)
  /-- lock.c:227-228: the lock is held by another -/
  | flockFail {pm : Mode} {name : Name} {mode : Mode} {att : Nat} {i : Ino} :
      Move others f (.opened pm name mode att i) f (.failing pm .none i)
  /-- lock.c:238-240: the name designates the directory that was locked -/
  | live {pm : Mode} {name : Name} {mode : Mode} {att : Nat} {i : Ino} : f.ents name = some i →
      Move others f (.flocked pm name mode att i) f (.holding pm name mode i)
  /-- lock.c:233-236, 242-245: it does not -/
  | stale {pm : Mode} {name : Name} {mode : Mode} {att : Nat} {i : Ino} : f.ents name ≠ some i →
      Move others f (.flocked pm name mode att i) f (.retry pm name mode att i)
  /-- lock.c:233-236: `fstatat` failed for another reason -/
  | statFail {pm : Mode} {name : Name} {mode : Mode} {att : Nat} {i : Ino} :
      Move others f (.flocked pm name mode att i) f (.retry pm name mode att i)
  /-- lock.c:230-231: `fstat` failed -/
  | fstatFail {pm : Mode} {name : Name} {mode : Mode} {att : Nat} {i : Ino} :
      Move others f (.flocked pm name mode att i) f (.failing pm mode i)
  /-- lock.c:245: close, try again -/
  | again {pm : Mode} {name : Name} {mode : Mode} {att : Nat} {i : Ino} :
      Move others f (.retry pm name mode att i) f (.opening pm name mode (att + 1))
  /-- close, return the error -/
  | failed {pm : Mode} {mode : Mode} {i : Ino} : Move others f (.failing pm mode i) f (.ready pm)
  /-- lock.c:150: `mkdirat`, with a staging name -/
  | mkdir {pm : Mode} {name s : Name} {att : Nat} : f.ents (stagingPrefix ++ s) = none →
      Move others f (.staging pm name att)
        { f with ents := fun m => if m = stagingPrefix ++ s then some f.next else f.ents m, full := fun i => if i = f.next then false else f.full i
                 next := f.next + 1 }
        (.staged pm name (stagingPrefix ++ s))
  /-- lock.c:152: the name is taken -/
  | mkdirAgain {pm : Mode} {name s : Name} {att : Nat} : f.ents (stagingPrefix ++ s) ≠ none → att + 1 < stagingRetries →
      Move others f (.staging pm name att) f (.staging pm name (att + 1))
  /-- lock.c:152-161: an error -/
  | mkdirFail {pm : Mode} {name : Name} {att : Nat} : Move others f (.staging pm name att) f (.ready pm)
  /-- lock.c:165 -/
  | stOpn {pm : Mode} {name s : Name} {i : Ino} : f.ents s = some i → Move others f (.staged pm name s) f (.stOpen pm name s i)
  /-- lock.c:166-170 -/
  | stOpnFail {pm : Mode} {name s : Name} : Move others f (.staged pm name s) f (.stFailing pm s .none none)
  /-- lock.c:174 -/
  | stFlock {pm : Mode} {name s : Name} {i : Ino} : (∀ q, others q → Mode.write.compat (q.on i) = true) →
      Move others f (.stOpen pm name s i) f (.stLocked pm name s i)
  /-- lock.c:175-178 -/
  | stFlockFail {pm : Mode} {name s : Name} {i : Ino} : Move others f (.stOpen pm name s i) f (.stFailing pm s .none (some i))
  /-- lock.c:182, 190: `renameat2(RENAME_NOREPLACE)` -/
  | publish {pm : Mode} {name s : Name} {i j : Ino} : f.ents s = some j → f.ents name = none →
      Move others f (.stLocked pm name s i) ((f.link s none).link name (some j)) (.holding pm name .write i)
  /-- lock.c:182-187: the name is taken, or another error -/
  | publishFail {pm : Mode} {name s : Name} {i : Ino} : Move others f (.stLocked pm name s i) f (.stFailing pm s .write (some i))
  /-- lock.c:168, 176, 186: `unlinkat` of the staging directory, if empty; it may fail -/
  | stRemove {pm : Mode} {s : Name} {mode : Mode} {i : Option Ino} {j : Ino} : f.ents s = some j → f.full j = false →
      Move others f (.stFailing pm s mode i) (f.link s none) (match i with | some i => .failing pm mode i | none => .ready pm)
  | stRemoveFail {pm : Mode} {s : Name} {mode : Mode} {i : Option Ino} :
      Move others f (.stFailing pm s mode i) f (match i with | some i => .failing pm mode i | none => .ready pm)
  /-- the owner of a chain's write lock changes the content of its directory -/
  | content {pm : Mode} {name : Name} {i : Ino} {b : Bool} :
      Move others f (.holding pm name .write i) { f with full := fun j => if j = i then b else f.full j } (.holding pm name .write i)
  /-- lock.c:395-416: `bf_lock_release_chain` (directly, or from `bf_lock_cleanup`) -/
  | release {pm : Mode} {name : Name} {mode : Mode} {i : Ino} :
      Move others f (.holding pm name mode i) f (if mode = .write then .removing pm name mode i else .closing pm mode i)
  /-- lock.c:416: `unlinkat`, by name, if empty; it may fail -/
  | remove {pm : Mode} {name : Name} {mode : Mode} {i j : Ino} : f.ents name = some j → f.full j = false →
      Move others f (.removing pm name mode i) (f.link name none) (.closing pm mode i)
  | removeFail {pm : Mode} {name : Name} {mode : Mode} {i : Ino} :
      Move others f (.removing pm name mode i) f (.closing pm mode i)
  /-- lock.c:418-421 -/
  | close {pm : Mode} {mode : Mode} {i : Ino} : Move others f (.closing pm mode i) f (.ready pm)
  /-- lock.c:319-335: `bf_lock_cleanup` -/
  | cleanup {pm : Mode} : Move others f (.ready pm) f .idle
  /-- ctx.c:224, 243-249: the sweep of leftover staging directories, under `WRITE` -/
  | sweep {s : Name} : Move others f (.ready .write) f (.sweepAt .write (stagingPrefix ++ s))
  /-- ctx.c:253 -/
  | sweepOpn {pm : Mode} {s : Name} {i : Ino} : f.ents s = some i → Move others f (.sweepAt pm s) f (.sweepOpen pm s i)
  | sweepOpnFail {pm : Mode} {s : Name} : Move others f (.sweepAt pm s) f (.ready pm)
  /-- ctx.c:258 -/
  | sweepLock {pm : Mode} {s : Name} {i : Ino} : (∀ q, others q → Mode.write.compat (q.on i) = true) →
      Move others f (.sweepOpen pm s i) f (.sweepLocked pm s i)
  | sweepLockFail {pm : Mode} {s : Name} {i : Ino} : Move others f (.sweepOpen pm s i) f (.failing pm .none i)
  /-- ctx.c:261 `bf_rmdir_at(..., true)`: removes the content, then the directory (several calls, no other lock object can
  be at work: one step) -/
  | sweepRemove {pm : Mode} {s : Name} {i : Ino} : f.ents s = some i →
      Move others f (.sweepLocked pm s i) { f.link s none with full := fun j => if j = i then false else f.full j } (.failing pm .write i)
  | sweepFail {pm : Mode} {s : Name} {i : Ino} {b : Bool} :
      Move others f (.sweepLocked pm s i) { f with full := fun j => if j = i then f.full j && b else f.full j } (.failing pm .write i)
  /-- the process dies: its descriptors are closed -/
  | crash {pc : Pc} : Move others f pc f .idle

/-- A step of the system: one lock object moves. -/
def Step (S S' : State) : Prop :=
  ∃ p, Move (fun q => ∃ j, j ≠ p ∧ S.procs j = q) S.fs (S.procs p) S'.fs (S'.procs p) ∧ ∀ q, q ≠ p → S'.procs q = S.procs q

/-- States reached from a state where nobody holds anything (whatever is in the directory). -/
inductive Reach : State → Prop
  | start {S : State} : (∀ p, S.procs p = .idle) → Reach S
  | step {S S' : State} : Reach S → Step S S' → Reach S'

end Bf.Sys
