import Verif.Pack.Round
import Verif.User.HookOpts
/-!
# Reading and writing what is known of a loaded program

`/repo/src/libbpfilter/counter.c`, `hook.c`, `cgen/prog/map.c`, `cgen/prog/link.c`, `cgen/handle.c`, `cgen/cgen.c`: the `_pack` and
`_new_from_pack` functions.  The descriptors the latter open by name are in `Cgen/Ops.lean`.
-/
namespace Bf

/-- cgen/prog/map.h:18-31 `enum bf_map_type`. -/
inductive MapType
  | counters | printer | log | set | ctx | state
  deriving DecidableEq, Repr

def MapType.vals : List MapType := [.counters, .printer, .log, .set, .ctx, .state]

/-- cgen/prog/map.h:35-44 `struct bf_map`, without the descriptor. -/
structure MapD where
  name : String
  type : MapType
  /-- include/bpfilter/bpf_types.h:49-56 `enum bf_bpf_map_type` -/
  bpfType : Nat
  keySize : Nat
  valueSize : Nat
  nElems : Nat
  deriving DecidableEq, Repr

/-- cgen/prog/link.h:20-40 `struct bf_link`, without the descriptors. -/
structure LinkD where
  name : String
  hook : Hook
  opts : HookOpts
  deriving DecidableEq, Repr

/-- cgen/handle.h:35-62 `struct bf_handle`, without the descriptors. -/
structure HandleD where
  progName : String
  link : Option LinkD
  cmap : Option MapD
  pmap : Option MapD
  lmap : Option MapD
  smap : Option MapD
  sets : List (Option MapD)
  deriving DecidableEq, Repr

/-- `bf_strncpy` (helper.c:39-55) or `snprintf` to a buffer of `BPF_OBJ_NAME_LEN` (16) bytes. -/
def objName (s : String) : String := String.ofList (s.toList.take 15)

/-- counter.c:66-74 `bf_counter_pack`. -/
def counterNode (c : BitVec 64 × BitVec 64) : Node := .map [key "count", .uint c.1.toNat, key "size", .uint c.2.toNat]

/-- counter.c:32-53 `bf_counter_new_from_pack`. -/
def counterUnpack (n : Node) : Res (BitVec 64 × BitVec 64) :=
  (kvNode n "count").bind fun x => (readUint 18446744073709551615 x).bind fun c =>
  (kvNode n "size").bind fun x => (readUint 18446744073709551615 x).bind fun s => .ok (BitVec.ofNat 64 c, BitVec.ofNat 64 s)

/-- cgen/prog/map.c:308-321 `bf_map_pack`. -/
def mapNode (m : MapD) : Node :=
  .map [key "name", .str (cstr m.name), key "type", enumNode MapType.vals m.type, key "bpf_type", .uint m.bpfType,
    key "key_size", .uint m.keySize, key "value_size", .uint m.valueSize, key "n_elems", .uint m.nElems]

/-- cgen/prog/map.c:241-295 `bf_map_new_from_pack`, but for the descriptor.  `__MAX_BPF_MAP_TYPE` is 34
(src/external/include/linux/bpf.h:961-1014). -/
def mapUnpack (n : Node) : Res MapD :=
  (kvNode n "name").bind fun x => (readStr x).bind fun name =>
  if name = "" then .err .EINVAL else
  (kvNode n "type").bind fun x => (readEnum MapType.vals x).bind fun type =>
  (kvNode n "bpf_type").bind fun x => (readEnum (List.range 34) x).bind fun bpfType =>
  (kvNode n "key_size").bind fun x => (readUint 18446744073709551615 x).bind fun keySize =>
  (kvNode n "value_size").bind fun x => (readUint 18446744073709551615 x).bind fun valueSize =>
  (kvNode n "n_elems").bind fun x => (readUint 18446744073709551615 x).bind fun nElems =>
  if nElems = 0 then .err .EINVAL else
  .ok ⟨objName name, type, bpfType, keySize, valueSize, nElems⟩

/-- cgen/prog/link.c:180-192 `bf_link_pack`. -/
def linkNode (l : LinkD) : Node :=
  .map [key "name", .str (cstr l.name), key "hook", enumNode Hook.vals l.hook, key "hookopts", hookoptsNode l.opts]

/-- cgen/prog/link.c:119-165 `bf_link_new_from_pack`, but for the descriptors. -/
def linkUnpack (n : Node) : Res LinkD :=
  (kvNode n "name").bind fun x => (readStr x).bind fun name =>
  (kvNode n "hook").bind fun x => (readEnum Hook.vals x).bind fun hook =>
  (kvNode n "hookopts").bind fun x => (hookoptsUnpack x).bind fun opts =>
  .ok ⟨objName name, hook, opts⟩

/-- An object, or nil. -/
def optNode {α : Type} (f : α → Node) : Option α → Node
  | some a => f a
  | none => .nil

/-- cgen/handle.c:165-215 `bf_handle_pack` and core/list.c:109-134 `bf_list_pack`. -/
def handleNode (h : HandleD) : Node :=
  .map [key "prog_name", .str (cstr h.progName), key "link", optNode linkNode h.link, key "cmap", optNode mapNode h.cmap,
    key "pmap", optNode mapNode h.pmap, key "lmap", optNode mapNode h.lmap, key "smap", optNode mapNode h.smap,
    key "sets", .arr (h.sets.map (optNode mapNode))]

/-- Reading an object, or nil. -/
def optUnpack {α : Type} (f : Node → Res α) (n : Node) : Res (Option α) :=
  if n.isNil then .ok none else (f n).bind fun a => .ok (some a)

/-- cgen/handle.c:50-143 `bf_handle_new_from_pack`, but for the descriptors. -/
def handleUnpack (n : Node) : Res HandleD :=
  (kvNode n "prog_name").bind fun x => (readStr x).bind fun name =>
  (kvNode n "link").bind fun x => (optUnpack linkUnpack x).bind fun link =>
  (kvNode n "cmap").bind fun x => (optUnpack mapUnpack x).bind fun cmap =>
  (kvNode n "pmap").bind fun x => (optUnpack mapUnpack x).bind fun pmap =>
  (kvNode n "lmap").bind fun x => (optUnpack mapUnpack x).bind fun lmap =>
  (kvNode n "smap").bind fun x => (optUnpack mapUnpack x).bind fun smap =>
  (kvNode n "sets").bind fun x => (readArr x).bind fun l => (readAll (optUnpack mapUnpack) l).bind fun sets =>
  .ok ⟨objName name, link, cmap, pmap, lmap, smap, sets⟩

/-- cgen/cgen.c:215-229 `bf_cgen_pack`. -/
def cgenNode (c : Chain) (h : HandleD) : Node := .map [key "chain", chainNode c, key "handle", handleNode h]

/-- pack.c:641-669 `bf_rpack_kv_obj`. -/
def kvObj (n : Node) (key : String) : Res Node :=
  (kvNode n key).bind fun x => match x with
    | .map l => .ok (.map l)
    | _ => .err .EDOM

/-- cgen/cgen.c:101-134 `_bf_cgen_new_from_pack`, but for the descriptors. -/
def cgenUnpack (n : Node) : Res (Chain × HandleD) :=
  (kvObj n "chain").bind fun x => (chainUnpack x).bind fun c =>
  (kvNode n "handle").bind fun x => (handleUnpack x).bind fun h => .ok (c, h)

/-- cgen/cgen.c:63-73: what `_bf_cgen_persist` writes. -/
def cgenBytes (c : Chain) (h : HandleD) : List Byte := enc (cgenNode c h)

/-- cgen/cgen.c:168-172: what `bf_cgen_new_from_dir_fd` reads. -/
def cgenOfBytes (bs : List Byte) : Res (Chain × HandleD) :=
  match rpackNew bs with
  | none => .err .EINVAL
  | some n => cgenUnpack n

/-! ## Round trips -/

/-- Hook options, as they are after having been parsed or read: what is not used is zero. -/
structure OptsOk (o : HookOpts) : Prop where
  ifindex : if o.usedIfindex then -2147483648 ≤ o.ifindex ∧ o.ifindex ≤ 2147483647 else o.ifindex = 0
  cgpath : if o.usedCgpath then ∃ s, o.cgpath = some s ∧ IsCStr s ∧ (cstr s).length < 2 ^ 32 else o.cgpath = none
  family : if o.usedFamily then o.family ≤ 4294967295 else o.family = 0
  priorities : if o.usedPriorities then (-2147483648 ≤ o.prio0 ∧ o.prio0 ≤ 2147483647) ∧ -2147483648 ≤ o.prio1 ∧ o.prio1 ≤ 2147483647
    else o.prio0 = 0 ∧ o.prio1 = 0

theorem readInt_int {z : Int} (h : -2147483648 ≤ z) (h' : z ≤ 2147483647) :
    readInt (if 0 ≤ z then .uint z.toNat else .int z) = .ok z := by
  split
  · rw [readInt, if_pos (by omega)]; congr 1; omega
  · rw [readInt, if_pos ⟨h, h'⟩]

theorem isNil_int {z : Int} : Node.isNil (if 0 ≤ z then .uint z.toNat else .int z) = false := by split <;> rfl

theorem hookopts_round {o : HookOpts} (h : OptsOk o) : hookoptsUnpack (hookoptsNode o) = .ok o := by
  obtain ⟨ui, uc, uf, up, ifi, cg, fam, p0, p1⟩ := o
  obtain ⟨h1, h2, h3, h4⟩ := h
  simp only at h1 h2 h3 h4
  have e1 : kvNode (hookoptsNode ⟨ui, uc, uf, up, ifi, cg, fam, p0, p1⟩) "ifindex" =
      .ok (if ui then (if 0 ≤ ifi then .uint ifi.toNat else .int ifi) else .nil) := rfl
  have e2 : kvNode (hookoptsNode ⟨ui, uc, uf, up, ifi, cg, fam, p0, p1⟩) "cgpath" =
      .ok (if uc then .str (cstr (cg.getD "")) else .nil) := rfl
  have e3 : kvNode (hookoptsNode ⟨ui, uc, uf, up, ifi, cg, fam, p0, p1⟩) "family" =
      .ok (if uf then .uint fam else .nil) := rfl
  have e4 : kvNode (hookoptsNode ⟨ui, uc, uf, up, ifi, cg, fam, p0, p1⟩) "priorities" =
      .ok (if up then .arr [if 0 ≤ p0 then .uint p0.toNat else .int p0, if 0 ≤ p1 then .uint p1.toNat else .int p1] else .nil) := rfl
  simp only [hookoptsUnpack, e1, e2, e3, e4, Res.bind]
  have f1 : (show Res HookOpts from if (if ui then (if 0 ≤ ifi then Node.uint ifi.toNat else .int ifi) else .nil).isNil then .ok HookOpts.new else
      (readInt (if ui then (if 0 ≤ ifi then .uint ifi.toNat else .int ifi) else .nil)).bind fun z => .ok { HookOpts.new with ifindex := z, usedIfindex := true }) =
      .ok { HookOpts.new with ifindex := ifi, usedIfindex := ui } := by
    cases ui with
    | false => simp only [Bool.false_eq_true, if_false] at h1 ⊢; subst h1; rfl
    | true =>
      simp only [if_true] at h1 ⊢
      rw [isNil_int, readInt_int h1.1 h1.2]; rfl
  simp only [Res.bind] at f1
  simp only [f1]
  cases uc with
  | false =>
    simp only [Bool.false_eq_true, if_false] at h2 ⊢
    subst h2
    cases uf with
    | false =>
      simp only [Bool.false_eq_true, if_false] at h3 ⊢
      subst h3
      cases up with
      | false =>
        simp only [Bool.false_eq_true, if_false] at h4 ⊢
        obtain ⟨rfl, rfl⟩ := h4; rfl
      | true =>
        simp only [if_true] at h4 ⊢
        simp only [Node.isNil, readArr, readInt_int h4.1.1 h4.1.2, readInt_int h4.2.1 h4.2.2]; rfl
    | true =>
      simp only [if_true] at h3 ⊢
      simp only [Node.isNil, readUint, if_pos h3]
      cases up with
      | false =>
        simp only [Bool.false_eq_true, if_false] at h4 ⊢
        obtain ⟨rfl, rfl⟩ := h4; rfl
      | true =>
        simp only [if_true] at h4 ⊢
        simp only [Node.isNil, readArr, readInt_int h4.1.1 h4.1.2, readInt_int h4.2.1 h4.2.2]; rfl
  | true =>
    simp only [if_true] at h2 ⊢
    obtain ⟨s, rfl, hs, _⟩ := h2
    simp only [Option.getD_some, readStr_cstr hs, Node.isNil]
    cases uf with
    | false =>
      simp only [Bool.false_eq_true, if_false] at h3 ⊢
      subst h3
      cases up with
      | false =>
        simp only [Bool.false_eq_true, if_false] at h4 ⊢
        obtain ⟨rfl, rfl⟩ := h4; rfl
      | true =>
        simp only [if_true] at h4 ⊢
        simp only [Node.isNil, readArr, readInt_int h4.1.1 h4.1.2, readInt_int h4.2.1 h4.2.2]; rfl
    | true =>
      simp only [if_true] at h3 ⊢
      simp only [Node.isNil, readUint, if_pos h3]
      cases up with
      | false =>
        simp only [Bool.false_eq_true, if_false] at h4 ⊢
        obtain ⟨rfl, rfl⟩ := h4; rfl
      | true =>
        simp only [if_true] at h4 ⊢
        simp only [Node.isNil, readArr, readInt_int h4.1.1 h4.1.2, readInt_int h4.2.1 h4.2.2]; rfl

/-- A name that fits. -/
def NameOk (s : String) : Prop := IsCStr s ∧ s.toList.length ≤ 15

theorem objName_ok {s : String} (h : NameOk s) : objName s = s := by
  unfold objName
  rw [List.take_of_length_le h.2, String.ofList_toList]

/-- Maps as bpfilter makes them. -/
structure MapOk (m : MapD) : Prop where
  name : NameOk m.name ∧ m.name ≠ ""
  bpfType : m.bpfType < 34
  sizes : m.keySize < 2 ^ 64 ∧ m.valueSize < 2 ^ 64 ∧ m.nElems < 2 ^ 64 ∧ m.nElems ≠ 0

theorem MapType.read (t : MapType) : readEnum MapType.vals (enumNode MapType.vals t) = .ok t := by cases t <;> rfl

theorem readEnum_range {n k : Nat} (h : n < k) (h' : n ≤ 2147483647) : readEnum (List.range k) (.uint n) = .ok n := by
  simp only [readEnum, readInt, if_pos h', Res.bind]
  rw [if_neg (by omega), Int.toNat_natCast, List.getElem?_range h]

theorem map_round {m : MapD} (h : MapOk m) : mapUnpack (mapNode m) = .ok m := by
  have e1 : kvNode (mapNode m) "name" = .ok (.str (cstr m.name)) := rfl
  have e2 : kvNode (mapNode m) "type" = .ok (enumNode MapType.vals m.type) := rfl
  have e3 : kvNode (mapNode m) "bpf_type" = .ok (.uint m.bpfType) := rfl
  have e4 : kvNode (mapNode m) "key_size" = .ok (.uint m.keySize) := rfl
  have e5 : kvNode (mapNode m) "value_size" = .ok (.uint m.valueSize) := rfl
  have e6 : kvNode (mapNode m) "n_elems" = .ok (.uint m.nElems) := rfl
  obtain ⟨s1, s2, s3, s4⟩ := h.sizes
  have b := h.bpfType
  simp only [mapUnpack, e1, e2, e3, e4, e5, e6, Res.bind, readStr_cstr h.name.1.1, if_neg h.name.2, MapType.read,
    readEnum_range b (by omega), readUint]
  rw [if_pos (by omega), if_pos (by omega), if_pos (by omega)]
  simp only [if_neg s4, objName_ok h.name.1]

structure LinkOk (l : LinkD) : Prop where
  name : NameOk l.name
  opts : OptsOk l.opts

theorem link_round {l : LinkD} (h : LinkOk l) : linkUnpack (linkNode l) = .ok l := by
  have e1 : kvNode (linkNode l) "name" = .ok (.str (cstr l.name)) := rfl
  have e2 : kvNode (linkNode l) "hook" = .ok (enumNode Hook.vals l.hook) := rfl
  have e3 : kvNode (linkNode l) "hookopts" = .ok (hookoptsNode l.opts) := rfl
  simp only [linkUnpack, e1, e2, e3, Res.bind, readStr_cstr h.name.1, Hook.read, hookopts_round h.opts, objName_ok h.name]

structure HandleOk (h : HandleD) : Prop where
  name : NameOk h.progName
  link : ∀ l, h.link = some l → LinkOk l
  cmap : ∀ m, h.cmap = some m → MapOk m
  pmap : ∀ m, h.pmap = some m → MapOk m
  lmap : ∀ m, h.lmap = some m → MapOk m
  smap : ∀ m, h.smap = some m → MapOk m
  sets : ∀ m, some m ∈ h.sets → MapOk m
  len : h.sets.length < 2 ^ 32

theorem opt_round {α : Type} {f : α → Node} {g : Node → Res α} {o : Option α} (hf : ∀ a, (f a).isNil = false)
    (h : ∀ a, o = some a → g (f a) = .ok a) : optUnpack g (optNode f o) = .ok o := by
  cases o with
  | none => rfl
  | some a => simp only [optUnpack, optNode, hf, h a rfl, Res.bind]; rfl

theorem handle_round {h : HandleD} (hh : HandleOk h) : handleUnpack (handleNode h) = .ok h := by
  have e1 : kvNode (handleNode h) "prog_name" = .ok (.str (cstr h.progName)) := rfl
  have e2 : kvNode (handleNode h) "link" = .ok (optNode linkNode h.link) := rfl
  have e3 : kvNode (handleNode h) "cmap" = .ok (optNode mapNode h.cmap) := rfl
  have e4 : kvNode (handleNode h) "pmap" = .ok (optNode mapNode h.pmap) := rfl
  have e5 : kvNode (handleNode h) "lmap" = .ok (optNode mapNode h.lmap) := rfl
  have e6 : kvNode (handleNode h) "smap" = .ok (optNode mapNode h.smap) := rfl
  have e7 : kvNode (handleNode h) "sets" = .ok (.arr (h.sets.map (optNode mapNode))) := rfl
  have f1 := opt_round (f := linkNode) (g := linkUnpack) (fun _ => rfl) fun l hl => link_round (hh.link l hl)
  have f2 := opt_round (f := mapNode) (g := mapUnpack) (fun _ => rfl) fun l hl => map_round (hh.cmap l hl)
  have f3 := opt_round (f := mapNode) (g := mapUnpack) (fun _ => rfl) fun l hl => map_round (hh.pmap l hl)
  have f4 := opt_round (f := mapNode) (g := mapUnpack) (fun _ => rfl) fun l hl => map_round (hh.lmap l hl)
  have f5 := opt_round (f := mapNode) (g := mapUnpack) (fun _ => rfl) fun l hl => map_round (hh.smap l hl)
  have f6 : readAll (optUnpack mapUnpack) (h.sets.map (optNode mapNode)) = .ok h.sets := by
    rw [readAll_map (g := optNode mapNode) (h := id), List.map_id]
    exact fun o ho => opt_round (fun _ => rfl) fun m hm => map_round (hh.sets m (hm ▸ ho))
  simp only [handleUnpack, e1, e2, e3, e4, e5, e6, e7, f1, f2, f3, f4, f5, f6, Res.bind, readStr_cstr hh.name.1, readArr, objName_ok hh.name]

theorem counter_round (c : BitVec 64 × BitVec 64) : counterUnpack (counterNode c) = .ok c := by
  have e1 : kvNode (counterNode c) "count" = .ok (.uint c.1.toNat) := rfl
  have e2 : kvNode (counterNode c) "size" = .ok (.uint c.2.toNat) := rfl
  have := c.1.isLt
  have := c.2.isLt
  simp only [counterUnpack, e1, e2, Res.bind, readUint]
  rw [if_pos (by omega), if_pos (by omega)]
  simp

theorem cgen_round {c : Chain} {h : HandleD} (hc : Packable c) (hh : HandleOk h) :
    cgenUnpack (cgenNode c h) = (chainCopy c).bind fun c => .ok (c, h) := by
  have e1 : kvObj (cgenNode c h) "chain" = .ok (chainNode c) := rfl
  have e2 : kvNode (cgenNode c h) "handle" = .ok (handleNode h) := rfl
  simp only [cgenUnpack, e1, e2, Res.bind, chain_round hc, handle_round hh]

theorem cstr_length (s : String) : (cstr s).length = s.toList.length := by simp [cstr]

theorem mapNode_small {m : MapD} (h : MapOk m) : (mapNode m).Small := by
  obtain ⟨s1, s2, s3, s4⟩ := h.sizes
  have b := h.bpfType
  have n := h.name.1.2
  simp only [mapNode, Node.Small, Node.Smalls, List.length_cons, List.length_nil, cstr_length]
  exact ⟨trivial, by decide, key_small (by decide), by omega, key_small (by decide), enumNode_small (by decide),
    key_small (by decide), by omega, key_small (by decide), by omega, key_small (by decide), by omega, key_small (by decide), by omega, trivial⟩

theorem int_small {z : Int} (h : -2147483648 ≤ z) (h' : z ≤ 2147483647) : (show Node from if 0 ≤ z then .uint z.toNat else .int z).Small := by
  split <;> simp only [Node.Small] <;> omega

theorem hookoptsNode_small {o : HookOpts} (h : OptsOk o) : (hookoptsNode o).Small := by
  obtain ⟨ui, uc, uf, up, ifi, cg, fam, p0, p1⟩ := o
  obtain ⟨h1, h2, h3, h4⟩ := h
  simp only at h1 h2 h3 h4
  simp only [hookoptsNode, HookOpts.isUsed, Node.Small, Node.Smalls, List.length_cons, List.length_nil]
  refine ⟨trivial, by decide, key_small (by decide), ?_, key_small (by decide), ?_, key_small (by decide), ?_, key_small (by decide), ?_, trivial⟩
  · cases ui with
    | false => trivial
    | true => exact int_small h1.1 h1.2
  · cases uc with
    | false => trivial
    | true => obtain ⟨s, rfl, _, hl⟩ := h2; exact hl
  · cases uf with
    | false => trivial
    | true =>
      simp only [if_true] at h3
      simp only [if_true, Node.Small]; omega
  · cases up with
    | false => trivial
    | true => exact ⟨by simp, int_small h4.1.1 h4.1.2, int_small h4.2.1 h4.2.2, trivial⟩

theorem linkNode_small {l : LinkD} (h : LinkOk l) : (linkNode l).Small := by
  have n := h.name.2
  simp only [linkNode, Node.Small, Node.Smalls, List.length_cons, List.length_nil, cstr_length]
  exact ⟨trivial, by decide, key_small (by decide), by omega, key_small (by decide), enumNode_small (by decide),
    key_small (by decide), hookoptsNode_small h.opts, trivial⟩

theorem optNode_small {α : Type} {f : α → Node} {o : Option α} (h : ∀ a, o = some a → (f a).Small) : (optNode f o).Small := by
  cases o with
  | none => trivial
  | some a => exact h a rfl

theorem handleNode_small {h : HandleD} (hh : HandleOk h) : (handleNode h).Small := by
  have n := hh.name.2
  simp only [handleNode, Node.Small, Node.Smalls, List.length_cons, List.length_nil, cstr_length, List.length_map]
  refine ⟨trivial, by decide, key_small (by decide), by omega, key_small (by decide), optNode_small fun l hl => linkNode_small (hh.link l hl),
    key_small (by decide), optNode_small fun l hl => mapNode_small (hh.cmap l hl),
    key_small (by decide), optNode_small fun l hl => mapNode_small (hh.pmap l hl),
    key_small (by decide), optNode_small fun l hl => mapNode_small (hh.lmap l hl),
    key_small (by decide), optNode_small fun l hl => mapNode_small (hh.smap l hl),
    key_small (by decide), ⟨hh.len, ?_⟩, trivial⟩
  rw [smalls_iff]
  intro n hn
  rw [List.mem_map] at hn
  obtain ⟨o, ho, rfl⟩ := hn
  exact optNode_small fun m hm => mapNode_small (hh.sets m (hm ▸ ho))

theorem cgenNode_small {c : Chain} {h : HandleD} (hc : Packable c) (hh : HandleOk h) : (cgenNode c h).Small := by
  simp only [cgenNode, Node.Small, Node.Smalls, List.length_cons, List.length_nil]
  exact ⟨trivial, by decide, key_small (by decide), chainNode_small hc, key_small (by decide), handleNode_small hh, trivial⟩

/-- What `_bf_cgen_persist` writes is read back by `bf_cgen_new_from_dir_fd`. -/
theorem cgen_bytes_round {c : Chain} {h : HandleD} (hc : Packable c) (hh : HandleOk h) :
    cgenOfBytes (cgenBytes c h) = (chainCopy c).bind fun c => .ok (c, h) := by
  unfold cgenOfBytes cgenBytes
  have := rpackNew_enc (cgenNode_small hc hh) []
  rw [List.append_nil] at this
  rw [this]
  exact cgen_round hc hh

end Bf
