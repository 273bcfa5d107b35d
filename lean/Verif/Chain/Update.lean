import Verif.Chain.Check
/-!
# Updating the sets of a chain

`/repo/src/libbpfilter/set.c` and the part of `bf_chain_update_set` of `/repo/src/libbpfilter/cli.c`
that computes the new chain.  Elements are those of the hashset, in insertion order (see the hashset
theorems).  Allocation failures are not modelled.
-/
namespace Bf

/-- set.c:418-438 `bf_set_add_elem` on the elements: an element already there is left alone. -/
def addElem (es : List (List Byte)) (e : List Byte) : List (List Byte) :=
  if es.contains e then es else es ++ [e]

/-- set.c:454-466 `bf_set_same_key`. -/
def sameKey (a b : BSet) : Bool := decide (a.key = b.key)

/-- set.c:468-496 `bf_set_add_many`. -/
def setAddMany (dest toAdd : BSet) : Res BSet :=
  if sameKey dest toAdd then .ok { dest with elems := toAdd.elems.foldl addElem dest.elems }
  else .err .EINVAL

/-- set.c:498-518 `bf_set_remove_many`. -/
def setRemoveMany (dest toRemove : BSet) : Res BSet :=
  if sameKey dest toRemove then .ok { dest with elems := toRemove.elems.foldl List.erase dest.elems }
  else .err .EINVAL

/-- chain.c:467-480 `bf_chain_get_set_by_name`: index of the first set of that name. -/
def setByName (sets : List BSet) (name : String) : Option Nat :=
  sets.findIdx? fun s => s.name == some name

/-- chain.c:482-516 `bf_chain_new_from_copy`: the chain is serialized, then created again. -/
def chainCopy (c : Chain) : Res Chain := chainNew c.name c.hook c.policy c.sets c.rules

/-- cli.c:485-543 `bf_chain_update_set`: the chain given to `bf_cgen_update`.  Sets
without a name break an assertion (chain.c:471). -/
def updateSet (c : Chain) (toAdd toRemove : BSet) : Res Chain :=
  if toAdd.name ≠ toRemove.name then .err .EINVAL else
  match toAdd.name with
  | none => .ub
  | some name =>
  (chainCopy c).bind fun c' =>
    match setByName c'.sets name with
    | none => .err .ENOENT
    | some i =>
      match c'.sets[i]? with
      | none => .ub
      | some dest =>
        (setAddMany dest toAdd).bind fun s1 =>
          (setRemoveMany s1 toRemove).bind fun s2 => .ok { c' with sets := c'.sets.set i s2 }

end Bf
