import Verif.User.CStr
import Verif.Gen.Types
import Verif.Pack.Round
/-!
# Hook options

`/repo/src/libbpfilter/hook.c:200-656`, `cli.c:27-46`.
-/
namespace Bf

/-- include/bpfilter/hook.h:156-163 `enum bf_hookopts_type`. -/
inductive OptType
  | ifindex | cgpath | family | priorities
  deriving DecidableEq, Repr

/-- include/bpfilter/hook.h:139-154 `struct bf_hookopts`: `used_opts` is a bit mask. -/
structure HookOpts where
  usedIfindex : Bool
  usedCgpath : Bool
  usedFamily : Bool
  usedPriorities : Bool
  ifindex : Int
  cgpath : Option String
  family : Nat
  prio0 : Int
  prio1 : Int
  deriving DecidableEq, Repr

/-- hook.c:422-432 `bf_hookopts_new`: zeroed. -/
def HookOpts.new : HookOpts := ⟨false, false, false, false, 0, none, 0, 0, 0⟩

/-- hook.h `bf_hookopts_is_used`. -/
def HookOpts.isUsed (o : HookOpts) : OptType → Bool
  | .ifindex => o.usedIfindex
  | .cgpath => o.usedCgpath
  | .family => o.usedFamily
  | .priorities => o.usedPriorities

/-- hook.c:361-397 `_bf_hookopts_ops`: the names, in the order of the types. -/
def OptType.name : OptType → String
  | .ifindex => "ifindex"
  | .cgpath => "cgpath"
  | .family => "family"
  | .priorities => "priorities"

def OptType.vals : List OptType := [.ifindex, .cgpath, .family, .priorities]

/-- hook.c:361-397: `required_by`. -/
def OptType.requiredBy : OptType → Flavor → Bool
  | .ifindex, f => f = .xdp || f = .tc
  | .cgpath, f => f = .cgroupSkb || f = .sockAddr
  | .family, _ => false
  | .priorities, f => f = .nf

/-- hook.c:361-397: `supported_by` is empty for every option. -/
def OptType.supportedBy : OptType → Flavor → Bool
  | _, _ => false

/-- hook.c:410-420 `_bf_hookopts_get_ops`. -/
def optOfName (key : List Char) : Option OptType := OptType.vals.find? fun t => t.name.toList = key

/-- hook.c:200-225 `_bf_hookopts_ifindex_parse`. -/
def parseIfindex (o : HookOpts) (v : List Char) : Res HookOpts :=
  if o.isUsed .ifindex then .err .EEXIST else
  let r := strtoul v 0
  if r.range then .err .ERANGE else
  if 2147483647 < r.val then .err .E2BIG else
  .ok { o with ifindex := r.val, usedIfindex := true }

/-- hook.c:236-255 `_bf_hookopts_cgpath_parse`. -/
def parseCgpath (o : HookOpts) (v : List Char) : Res HookOpts :=
  if o.isUsed .cgpath then .err .EEXIST else
  .ok { o with cgpath := some (String.ofList v), usedCgpath := true }

/-- hook.c:266-284 `_bf_hookopts_family_parse`: the option is not marked as used. -/
def parseFamily (o : HookOpts) (v : List Char) : Res HookOpts :=
  if o.isUsed .family then .err .EEXIST else
  if v = "inet4".toList ∨ v = "inet6".toList then .ok o else .err .ENOTSUP

/-- hook.c:297-349 `_bf_hookopts_priorities_parse`. -/
def parsePriorities (o : HookOpts) (v : List Char) : Res HookOpts :=
  if o.isUsed .priorities then .err .EEXIST else
  if ¬ v.contains '-' then .err .EINVAL else
  let left := v.takeWhile (· ≠ '-')
  let right := (v.dropWhile (· ≠ '-')).tail
  if right = [] then .err .EINVAL else
  let a := strtoul left 0
  if a.range then .err .EINVAL else
  let b := strtoul right 0
  if b.range then .err .EINVAL else
  if 2147483647 < a.val ∨ 2147483647 < b.val then .err .EINVAL else
  if a.val = b.val then .err .EINVAL else
  if a.val = 0 ∨ b.val = 0 then .err .EINVAL else
  .ok { o with prio0 := a.val, prio1 := b.val, usedPriorities := true }

/-- hook.c:582-608 `bf_hookopts_parse_opt`. -/
def parseOpt (o : HookOpts) (raw : List Char) : Res HookOpts :=
  if ¬ raw.contains '=' then .err .ENOENT else
  let key := raw.takeWhile (· ≠ '=')
  let value := (raw.dropWhile (· ≠ '=')).tail
  match optOfName key with
  | none => .err .ENOTSUP
  | some .ifindex => parseIfindex o value
  | some .cgpath => parseCgpath o value
  | some .family => parseFamily o value
  | some .priorities => parsePriorities o value

/-- hook.c:610-628 `bf_hookopts_parse_opts`, and parser.y:268-286 and opts.c:435-440, which parse one option after the
other. -/
def parseOpts (o : HookOpts) : List (List Char) → Res HookOpts
  | [] => .ok o
  | r :: rs => (parseOpt o r).bind fun o => parseOpts o rs

/-- hook.c:627-654 `bf_hookopts_validate`: the check of one option, ... -/
def validateOpt (o : HookOpts) (f : Flavor) (t : OptType) : Res Unit :=
  if t.requiredBy f && !o.isUsed t then .err .EINVAL else
  if o.isUsed t && !(t.supportedBy f || t.requiredBy f) then .err .ENOTSUP else .ok ()

def validateList (o : HookOpts) (f : Flavor) : List OptType → Res Unit
  | [] => .ok ()
  | t :: ts => (validateOpt o f t).bind fun _ => validateList o f ts

/-- ... of all of them. -/
def validate (o : HookOpts) (h : Hook) : Res Unit := validateList o h.flavor OptType.vals

/-- hook.c:527-556 `bf_hookopts_pack`. -/
def hookoptsNode (o : HookOpts) : Node :=
  let int (z : Int) : Node := if 0 ≤ z then .uint z.toNat else .int z
  .map [key "ifindex", if o.isUsed .ifindex then int o.ifindex else .nil,
    key "cgpath", if o.isUsed .cgpath then .str (cstr (o.cgpath.getD "")) else .nil,
    key "family", if o.isUsed .family then .uint o.family else .nil,
    key "priorities", if o.isUsed .priorities then .arr [int o.prio0, int o.prio1] else .nil]

def Node.isNil : Node → Bool
  | .nil => true
  | _ => false

/-- hook.c:434-509 `bf_hookopts_new_from_pack`. -/
def hookoptsUnpack (n : Node) : Res HookOpts :=
  (kvNode n "ifindex").bind fun x =>
  (if x.isNil then .ok HookOpts.new else
    (readInt x).bind fun z => .ok { HookOpts.new with ifindex := z, usedIfindex := true }).bind fun o =>
  (kvNode n "cgpath").bind fun x =>
  (if x.isNil then .ok o else
    (readStr x).bind fun s => .ok { o with cgpath := some s, usedCgpath := true }).bind fun o =>
  (kvNode n "family").bind fun x =>
  (if x.isNil then .ok o else
    (readUint 4294967295 x).bind fun f => .ok { o with family := f, usedFamily := true }).bind fun o =>
  (kvNode n "priorities").bind fun x =>
  if x.isNil then .ok o else
    (readArr x).bind fun l =>
      match l with
      | [a, b] => (readInt a).bind fun a => (readInt b).bind fun b =>
          .ok { o with prio0 := a, prio1 := b, usedPriorities := true }
      | _ => .err .EINVAL

end Bf
