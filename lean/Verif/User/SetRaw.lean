import Verif.User.Payload
import Verif.Chain.Update
/-!
# Sets from text

`/repo/src/libbpfilter/set.c:117-274`: the key, the elements and the set of the text of a ruleset.  A loop takes `fuel`, the number of
iterations it may do, and is `none` when it needs more: a call that does not return is `none` whatever the fuel.
-/
namespace Bf

/-- set.c:135-151 `_bf_set_parse_key`, the loop: `s` is the string `strtok_r` goes on with. -/
def parseKeyGo : Nat → List Char → List MType → Option (Res (List MType))
  | 0, _, _ => none
  | fuel + 1, s, key =>
    match strtok (fun c => c = '(' || c = ')' || c = ',') s with
    | none => if key = [] then some (.err .EINVAL) else some (.ok key)
    | some (tok, rest) =>
      if key.length = 8 then some (.err .E2BIG)
      else match MType.fromStr (String.ofList (trim tok)) with
        | .ok t => parseKeyGo fuel rest (key ++ [t])
        | .err e => some (.err e)
        | .ub => some .ub

/-- set.c:181-213 `bf_set_add_elem_raw`, the loop: `key` are the components to come, `built` the bytes of the element before `elem_offset`
and `mem` those from it on. -/
def addElemGo (env : TextEnv) : Nat → List Char → List MType → List Byte → List Byte → Option (Res (List Byte))
  | 0, _, _, _, _ => none
  | fuel + 1, s, key, built, mem =>
    match strtok (· = ',') s with
    | none => if key = [] then some (.ok (built ++ mem)) else some (.err .EINVAL)
    | some (tok, rest) =>
      match key with
      | [] => some (.err .EINVAL)
      | t :: ks =>
        match parsePayload env t .in_ mem (trim tok) with
        | .ok m => addElemGo env fuel rest ks (built ++ m.take (t.refSize .in_)) (m.drop (t.refSize .in_))
        | .err e => some (.err e)
        | .ub => some .ub

/-- What `malloc` returns: any bytes. -/
def block (mem : Nat → Byte) (n : Nat) : List Byte := (List.range n).map mem

/-- set.c:160-226 `bf_set_add_elem_raw`; an element that is already in the set is not an error. -/
def addElemRaw (env : TextEnv) (mem : Nat → Byte) (fuel : Nat) (set : BSet) (s : List Char) : Option (Res BSet) :=
  match addElemGo env fuel s set.key [] (block mem set.elemSize) with
  | none => none
  | some (.ok e) => some (.ok { set with elems := addElem set.elems e })
  | some (.err e) => some (.err e)
  | some .ub => some .ub

/-- The separators of the elements. -/
def isElemSep (c : Char) : Bool := c = '{' || c = '}' || c = ';' || c = '\n'

/-- set.c:254-269 `bf_set_new_from_raw`, the loop.  `tmp` is the string at `tmp` (`none`: NULL), `save` the one at `saveptr`, `i` counts the
elements.  `strtok_r` ends the token it returns with a NUL: from then on, the string at `tmp` ends there. -/
def newFromRawGo (env : TextEnv) (mem : Nat → Nat → Byte) : Nat → Option (List Char) → List Char → Nat → BSet → Option (Res BSet)
  | 0, _, _, _, _ => none
  | fuel + 1, tmp, save, i, set =>
    match strtok isElemSep (tmp.getD save) with
    | none => some (.ok set)
    | some (tok, save') =>
      if trim tok = [] then newFromRawGo env mem fuel (tmp.map fun b => b.takeWhile isElemSep ++ tok) save' i set
      else match addElemRaw env (mem i) fuel set (trim tok) with
        | some (.ok set') => newFromRawGo env mem fuel none save' (i + 1) set'
        | r => r

/-- set.c:228-274 `bf_set_new_from_raw`; `mem i` is the memory of the `i`-th element. -/
def setNewFromRaw (env : TextEnv) (mem : Nat → Nat → Byte) (fuel : Nat) (name : Option String) (rawKey rawPayload : List Char) : Option (Res BSet) :=
  match parseKeyGo fuel rawKey [] with
  | none => none
  | some (.err e) => some (.err e)
  | some .ub => some .ub
  | some (.ok key) =>
    match setNew name key with
    | .err e => some (.err e)
    | .ub => some .ub
    | .ok set => newFromRawGo env mem fuel (some rawPayload) [] 0 set

end Bf
