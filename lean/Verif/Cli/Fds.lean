import Verif.Cli.Main
/-!
# Model: the descriptors given out for a chain
-/
namespace Bf.Cli
open Pin (P try_)

/-- cli.c:317-337 `bf_chain_prog_fd`.  (A descriptor is the object it is for.  Simplification: when `dup` fails the code returns -1, whatever `errno` is.) -/
def progFd (name : String) : P (Res Nat) :=
  Pin.withChain name false <| Pin.withCgen name fun c =>
    match c.handle.prog with
    | none => pure (c, .err .ENODEV)
    | some p => do
      match ← try_ .alloc with
      | .ok _ => pure (c, .ok p)
      | .err e => pure (c, .err e)
      | .ub => pure (c, .ub)

end Bf.Cli
