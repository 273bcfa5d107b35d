/-!
# Base definitions shared by every module: error codes and outcomes.
-/
namespace Bf

/-- errno values the modelled code returns (negated) to its caller. -/
inductive Errno
  | EPERM | ENOENT | EIO | E2BIG | EBADF | EAGAIN | ENOMEM | EACCES | EBUSY | EEXIST
  | ENODEV | EINVAL | ERANGE | EDOM | ENOTSUP | EOVERFLOW | ENODATA | EWOULDBLOCK
  | ENOTEMPTY | ENOTDIR | ENAMETOOLONG | ELOOP | ESTALE | EPROTO | ENOTTY
  deriving DecidableEq, Repr

/-- Outcome of a C function: success, an error code, or undefined behaviour
(use of freed memory, failed `assert`, out-of-bounds access...). -/
inductive Res (α : Type u)
  | ok (a : α)
  | err (e : Errno)
  | ub
  deriving DecidableEq, Repr

namespace Res

@[inline] def bind {α β} (x : Res α) (f : α → Res β) : Res β :=
  match x with
  | .ok a => f a
  | .err e => .err e
  | .ub => .ub

instance : Monad Res where
  pure := .ok
  bind := bind

@[simp] theorem ok_bind {α β} (a : α) (f : α → Res β) : (Res.ok a >>= f) = f a := rfl
@[simp] theorem err_bind {α β} (e : Errno) (f : α → Res β) : (Res.err e >>= f) = .err e := rfl
@[simp] theorem ub_bind {α β} (f : α → Res β) : ((Res.ub : Res α) >>= f) = .ub := rfl
@[simp] theorem pure_eq {α} (a : α) : (pure a : Res α) = .ok a := rfl

/-- A successful outcome. -/
def isOk {α} : Res α → Bool
  | .ok _ => true
  | _ => false

end Res

/-- Point update of a function (memory write). -/
def upd {β : Type u} (m : Nat → β) (a : Nat) (v : β) : Nat → β :=
  fun x => if x = a then v else m x

@[simp] theorem upd_same {β : Type u} (m : Nat → β) (a : Nat) (v : β) : upd m a v a = v := by
  simp [upd]

theorem upd_other {β : Type u} (m : Nat → β) {a b : Nat} (v : β) (h : b ≠ a) :
    upd m a v b = m b := by
  simp [upd, h]

end Bf
