import Verif.Spec.Command
import Verif.Cgen.World
/-!
# Specification: commands one after the other
-/
namespace Bf.Spec
open Cli (Host Flag Arg1 Ended main)
open Pin (K P)

/-- A command line, and what it finds. -/
structure Issued where
  H : Host
  a1 : List Arg1
  a2 : List (Flag × List Char)
  words : List String

/-- From `w` to `w'`: the commands, one after the other, on any machine, each stopped anywhere, or not, whatever calls fail; then its process is no more. -/
inductive Issue : K → List Issued → K → Prop
  | done {w : K} : Issue w [] w
  | next {w w' w'' : K} {i : Issued} {is : List Issued} {q : P Ended} : Pin.Run w (main i.H i.a1 i.a2 i.words) w' q → Issue w'.die is w'' → Issue w (i :: is) w''

/-- Commands that run together: `ps` are those that run, each with what is left of it.  From `w` and `ps` to `w'` and `ps'`: commands of `A` start; one of those that
run makes a system call, which succeeds or not; packets are processed; a process ends, or is stopped, and then its descriptors are closed.
(Locks are not taken into account: there are more executions than there can be.) -/
inductive Moves (A : Issued → Prop) : K → List (Issued × P Ended) → K → List (Issued × P Ended) → Prop
  | refl {w : K} {ps : List (Issued × P Ended)} : Moves A w ps w ps
  | start {w w' : K} {ps ps' : List (Issued × P Ended)} {i : Issued} : A i → Moves A w ((i, main i.H i.a1 i.a2 i.words) :: ps) w' ps' → Moves A w ps w' ps'
  | step {w w1 w' : K} {l r ps' : List (Issued × P Ended)} {i : Issued} {c : Pin.Call} {k : Pin.Ans → P Ended} {a : Pin.Ans} :
      Pin.Step w c a w1 → Moves A w1 (l ++ (i, k a) :: r) w' ps' → Moves A w (l ++ (i, .call c k) :: r) w' ps'
  | packets {w w1 w' : K} {ps ps' : List (Issued × P Ended)} : Pin.Packets w w1 → Moves A w1 ps w' ps' → Moves A w ps w' ps'
  | stop {w w' : K} {l r ps' : List (Issued × P Ended)} {x : Issued × P Ended} {f : List Nat} :
      (∀ o ∈ f, o ∈ w.fds) → Moves A { w with fds := f } (l ++ r) w' ps' → Moves A w (l ++ x :: r) w' ps'

/-- Nothing is pinned, and there are no directories. -/
structure NothingYet (w : K) : Prop where
  pins : w.pins = []
  dirs : w.dirs = []
  fds : w.fds = []

end Bf.Spec
