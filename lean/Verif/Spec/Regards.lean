import Verif.Spec.Command
import Verif.Cgen.View
/-!
# Specification: which chains a command line is about

A chain is known by its name, which is that of the directory where it is pinned.
-/
namespace Bf.Spec
open Cli (Host Flag Arg1)
open Pin (K)

/-- The command line is about the chain `d`: it is about the whole ruleset, or it names the chain with `--name`, or it takes it from its text. -/
def Regards (H : Host) (a1 : List Arg1) (a2 : List (Flag × List Char)) (d : String) : Prop :=
  Commands a1 .ruleset .set ∨ Commands a1 .ruleset .flush ∨ named a2 = some d ∨ ∃ x, Takes H a2 x ∧ x.1.name = d

/-- From `w` to `w'`, nothing of what is stored for the chain `d` has changed, except its counters: neither whether it has a directory, nor what is pinned
there, nor these objects (programs, maps, links). -/
structure Untouched (w w' : K) (d : String) : Prop where
  dir : d ∈ w'.dirs ↔ d ∈ w.dirs
  pins : ∀ n, w'.pinned d n = w.pinned d n
  objs : ∀ n i, w.pinned d n = some i → (w'.objs[i]?).map Pin.Obj.erase = (w.objs[i]?).map Pin.Obj.erase

/-- The same, and its counters have not changed either. -/
structure Unmoved (w w' : K) (d : String) : Prop where
  dir : d ∈ w'.dirs ↔ d ∈ w.dirs
  pins : ∀ n, w'.pinned d n = w.pinned d n
  objs : ∀ n i, w.pinned d n = some i → w'.objs[i]? = w.objs[i]?

end Bf.Spec
