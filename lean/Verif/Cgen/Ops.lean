import Verif.Cgen.World
import Verif.Gen.Sets
/-!
# Operations on chains

`/repo/src/libbpfilter/cgen/cgen.c`, `cgen/handle.c`, `cgen/prog/link.c`, `cgen/prog/map.c`, and the loading part of
`cgen/program.c`; `/repo/src/libbpfilter/cli.c`.  Each definition makes the system calls of the function it models, in order.

Simplifications: allocations are shown where a function starts; BTF data, whose failure is ignored (map.c:130-135), is left
out; map fixups, which make no system call, are computed once the maps exist (`loadFixups`); the printer
map has the size of what the stubs print, which is a parameter.
-/
namespace Bf.Pin

/-- A map and its descriptor: cgen/prog/map.h:35-44 `struct bf_map`. -/
structure BMap where
  d : MapD
  id : Nat

/-- cgen/prog/link.h:20-40 `struct bf_link`. -/
structure Link where
  d : LinkD
  fd : Nat
  extra : Option Nat

/-- cgen/handle.h:35-62 `struct bf_handle`. -/
structure Handle where
  progName : String
  prog : Option Nat
  link : Option Link
  cmap : Option BMap
  pmap : Option BMap
  lmap : Option BMap
  smap : Option BMap
  sets : List (Option BMap)

/-- What is serialized of a handle. -/
def Handle.d (h : Handle) : HandleD :=
  ⟨h.progName, h.link.map (·.d), h.cmap.map (·.d), h.pmap.map (·.d), h.lmap.map (·.d), h.smap.map (·.d), h.sets.map (·.map (·.d))⟩

/-- cgen/cgen.h `struct bf_cgen`. -/
structure Cgen where
  chain : Chain
  handle : Handle

/-- What the code generator takes from its surroundings: thresholds of probabilities, sizes of the stubs (see `compile`),
size of what they print. -/
structure Target where
  thr : Nat → BitVec 32
  slen : Stub → Nat
  printed : Nat

/-- Whether an answer is an error. -/
def Ans.toRes : Ans → Res Unit
  | .fail e => .err e
  | _ => .ok ()

/-- A call of which only failure matters. -/
def try_ (c : Call) : P (Res Unit) := .call c fun a => .ret a.toRes

/-- A call that gives a descriptor. -/
def tryId (c : Call) : P (Res Nat) := .call c fun a => .ret (match a with | .id o => .ok o | .fail e => .err e | _ => .ub)

/-- A call whose failure is ignored. -/
def void (c : Call) : P Unit := .call c fun _ => .ret ()

def closeAll : List Nat → P Unit
  | [] => pure ()
  | o :: os => do void (.close o); closeAll os

/-- The descriptors of a link: the first, and the extra one. -/
def Link.fds (l : Link) : List Nat := l.fd :: l.extra.toList

/-- The maps of a handle, in the order `bf_handle_pin` and `bf_handle_unpin` see them. -/
def Handle.maps (h : Handle) : List BMap :=
  h.cmap.toList ++ h.pmap.toList ++ h.lmap.toList ++ h.smap.toList ++ h.sets.filterMap id

def Handle.linkFds (h : Handle) : List Nat := match h.link with
  | some l => l.fds
  | none => []

/-- handle.c:145-163 `bf_handle_free`. -/
def handleFree (h : Handle) : P Unit := closeAll (h.prog.toList ++ h.linkFds ++ h.maps.map (·.id))

/-- handle.c:30-48 `bf_handle_new`; cgen.c:36 `_BF_PROG_NAME`. -/
def Handle.new : Handle := ⟨objName "bf_prog", none, none, none, none, none, none, []⟩

/-- map.c:143-197 `_bf_map_new`. -/
def mapNew (name : String) (type : MapType) (bpfType keySize valueSize nElems : Nat) : P (Res BMap) :=
  if name = "" then pure (.err .EINVAL) else
  if type ≠ .log ∧ keySize = 0 then pure (.err .EINVAL) else
  if type = .log ∧ keySize ≠ 0 then pure (.err .EINVAL) else
  if type ≠ .log ∧ valueSize = 0 then pure (.err .EINVAL) else
  if type = .log ∧ valueSize ≠ 0 then pure (.err .EINVAL) else
  if nElems = 0 then pure (.err .EINVAL) else do
  match ← try_ .alloc with
  | .ok _ =>
    let d : MapD := ⟨objName name, type, bpfType, keySize, valueSize, nElems⟩
    match ← tryId (.mapCreate d) with
    | .ok o => pure (.ok ⟨d, o⟩)
    | .err e => pure (.err e)
    | .ub => pure .ub
  | .err e => pure (.err e)
  | .ub => pure .ub

/-- program.c:1109-1110: `"bf_set_%04x"` of a 16-bit number. -/
def setMapName (i : Nat) : String :=
  let n := i % 65536
  String.ofList ("bf_set_".toList ++ [n / 4096, n / 256 % 16, n / 16 % 16, n % 16].map Nat.digitChar)

/-- program.c:1025-1130 `_bf_program_load_sets_maps`. -/
def loadSets (chain : Chain) : Groups → Nat → Handle → P (Handle × Res Unit)
  | [], _, h => pure (h, .ok ())
  | g :: gs, i, h =>
    match groupHead chain.sets g with
    | none => pure (h, .ub)
    | some s => do
      match ← try_ .alloc with
      | .ok _ =>
        match ← mapNew (setMapName i) .set (if s.useTrie then 11 else 1) s.elemSize ((g.length + 7) / 8) (groupEntries chain.sets g).length with
        | .ok m =>
          match ← try_ (.mapFill m.id (groupEntries chain.sets g)) with
          | .ok _ => loadSets chain gs (i + 1) { h with sets := h.sets ++ [some m] }
          | e => do void (.close m.id); pure (h, e)
        | .err e => pure (h, .err e)
        | .ub => pure (h, .ub)
      | e => pure (h, e)

/-- program.c:930-948 `_bf_program_load_counters_map`. -/
def loadCounters (chain : Chain) (h : Handle) : P (Handle × Res Unit) := do
  match ← mapNew "bf_cmap" .counters 6 4 16 (chain.rules.length + 2) with
  | .ok m => pure ({ h with cmap := some m }, .ok ())
  | .err e => pure (h, .err e)
  | .ub => pure (h, .ub)

/-- program.c:901-928 `_bf_program_load_printer_map`. -/
def loadPrinter (T : Target) (h : Handle) : P (Handle × Res Unit) := do
  match ← try_ .alloc with
  | .ok _ =>
    match ← mapNew "bf_pmap" .printer 2 4 T.printed 1 with
    | .ok m => do
      let r ← try_ (.mapWrite m.id [])
      pure ({ h with pmap := some m }, r)
    | .err e => pure (h, .err e)
    | .ub => pure (h, .ub)
  | e => pure (h, e)

/-- program.c:950-970 `_bf_program_load_log_map`; program.c:58-60 `_BF_LOG_MAP_SIZE`: the
power of 2 after 120 bytes (`struct bf_log`) times 1000. -/
def loadLog (chain : Chain) (h : Handle) : P (Handle × Res Unit) :=
  if ¬ chain.flagLog then pure (h, .ok ()) else do
  match ← mapNew "bf_lmap" .log 27 0 0 131072 with
  | .ok m => pure ({ h with lmap := some m }, .ok ())
  | .err e => pure (h, .err e)
  | .ub => pure (h, .ub)

/-- program.c:972-997 `_bf_program_load_state_map`. -/
def loadState (chain : Chain) (h : Handle) : P (Handle × Res Unit) :=
  if ¬ chain.flagRate ∨ chain.rules = [] then pure (h, .ok ()) else do
  match ← mapNew "bf_smap" .state 2 4 (chain.rules.length * 8) 1 with
  | .ok m => pure ({ h with smap := some m }, .ok ())
  | .err e => pure (h, .err e)
  | .ub => pure (h, .ub)

def mapFd : Option BMap → BitVec 32
  | some m => BitVec.ofNat 32 m.id
  | none => 0

/-- The descriptors of the maps of a handle. -/
def Handle.mapFds (h : Handle) : MapFds :=
  ⟨mapFd h.cmap, mapFd h.lmap, mapFd h.smap, fun g => mapFd (h.sets[g]?.getD none)⟩

/-- Go on if the step succeeded. -/
def andThen (x : Handle × Res Unit) (f : Handle → P (Handle × Res Unit)) : P (Handle × Res Unit) :=
  match x.2 with
  | .ok _ => f x.1
  | e => pure (x.1, e)

/-- program.c:1132-1182 `bf_program_load`. -/
def programLoad (T : Target) (chain : Chain) (p : Prog) (h : Handle) : P (Handle × Res Unit) := do
  andThen (← loadSets chain (buildGroups chain.sets) 0 h) fun h => do
  andThen (← loadCounters chain h) fun h => do
  andThen (← loadPrinter T h) fun h => do
  andThen (← loadLog chain h) fun h => do
  andThen (← loadState chain h) fun h =>
  match loadFixups ⟨chain, buildGroups chain.sets, T.thr⟩ h.mapFds p, h.cmap with
  | .ok img, some m => do
    match ← tryId (.progLoad chain img m.id) with
    | .ok o => pure ({ h with prog := some o }, .ok ())
    | .err e => pure (h, .err e)
    | .ub => pure (h, .ub)
  | .err e, _ => pure (h, .err e)
  | _, _ => pure (h, .ub)

/-- `bf_program_new`, `bf_program_generate`, `bf_program_load`, as cgen.c:320-330, 361-371, 487-501 call them. -/
def makeProgram (T : Target) (chain : Chain) (h : Handle) : P (Handle × Res Unit) := do
  match ← try_ .alloc with
  | .ok _ =>
    match genProgram ⟨chain, buildGroups chain.sets, T.thr⟩ T.slen with
    | .ok p => programLoad T chain p h
    | .err e => pure (h, .err e)
    | .ub => pure (h, .ub)
  | e => pure (h, e)

/-- link.c:225-245 `_bf_link_try_attach_xdp`. -/
def tryAttachXdp (prog : Nat) (pt : Point) : P (Res Nat) := do
  match ← tryId (.linkCreate prog pt) with
  | .err .ENOTSUP => tryId (.linkCreate prog pt)
  | r => pure r

/-- link.c:30-117 `bf_link_new`; handle.c:28 `_BF_LINK_NAME`. -/
def linkNew (hook : Hook) (o : HookOpts) (prog : Nat) : P (Res Link) := do
  match ← try_ .alloc with
  | .ok _ =>
    let d : LinkD := ⟨objName "bf_link", hook, o⟩
    match hook.flavor with
    | .xdp =>
      match ← tryAttachXdp prog (.iface hook o.ifindex) with
      | .ok l => pure (.ok ⟨d, l, none⟩)
      | .err e => pure (.err e)
      | .ub => pure .ub
    | .tc =>
      match ← tryId (.linkCreate prog (.iface hook o.ifindex)) with
      | .ok l => pure (.ok ⟨d, l, none⟩)
      | .err e => pure (.err e)
      | .ub => pure .ub
    | .cgroupSkb | .sockAddr =>
      match ← try_ (.openCgroup o.cgpath) with
      | .ok _ =>
        match ← tryId (.linkCreate prog (.cgroup hook o.cgpath)) with
        | .ok l => pure (.ok ⟨d, l, none⟩)
        | .err e => pure (.err e)
        | .ub => pure .ub
      | .err e => pure (.err e)
      | .ub => pure .ub
    | .nf =>
      match ← tryId (.linkCreate prog (.nf hook false)) with
      | .ok l =>
        match ← tryId (.linkCreate prog (.nf hook true)) with
        | .ok l' => pure (.ok ⟨d, l, some l'⟩)
        | .err e => do void (.close l); pure (.err e)
        | .ub => pure .ub
      | .err e => pure (.err e)
      | .ub => pure .ub
  | .err e => pure (.err e)
  | .ub => pure .ub

/-- handle.c:469-486 `bf_handle_attach`. -/
def handleAttach (h : Handle) (hook : Hook) (o : HookOpts) : P (Handle × Res Unit) :=
  match h.link, h.prog with
  | some _, _ => pure (h, .err .EEXIST)
  | none, none => pure (h, .ub)
  | none, some p => do
    match ← linkNew hook o p with
    | .ok l => pure ({ h with link := some l }, .ok ())
    | .err e => pure (h, .err e)
    | .ub => pure (h, .ub)

/-- link.c:332-354 `bf_link_unpin`. -/
def linkUnpin (dir : String) : P Unit := do
  void (.unlink dir "bf_link")
  void (.unlink dir "bf_link_extra")

/-- link.c:310-330 `bf_link_pin`. -/
def linkPin (l : Link) (dir : String) : P (Res Unit) := do
  match ← try_ (.pin dir "bf_link" l.fd) with
  | .ok _ =>
    match l.extra with
    | none => pure (.ok ())
    | some x =>
      match ← try_ (.pin dir "bf_link_extra" x) with
      | .ok _ => pure (.ok ())
      | e => do linkUnpin dir; pure e
  | e => pure e

def unpinAll (dir : String) : List BMap → P Unit
  | [] => pure ()
  | m :: ms => do void (.unlink dir m.d.name); unpinAll dir ms

/-- handle.c:371-402 `bf_handle_unpin`. -/
def handleUnpin (h : Handle) (dir : String) : P Unit := do
  unpinAll dir h.maps
  (if h.link.isSome then linkUnpin dir else pure ())
  void (.unlink dir h.progName)

def pinAll (dir : String) : List BMap → P (Res Unit)
  | [] => pure (.ok ())
  | m :: ms => do
    match ← try_ (.pin dir m.d.name m.id) with
    | .ok _ => pinAll dir ms
    | e => pure e

/-- handle.c:304-364: the pins of `bf_handle_pin`. -/
def handlePins (h : Handle) (dir : String) : P (Res Unit) :=
  match h.prog with
  | none => pure (.err .EBADF)
  | some p => do
    match ← try_ (.pin dir h.progName p) with
    | .ok _ =>
      match ← pinAll dir h.maps with
      | .ok _ =>
        match h.link with
        | none => pure (.ok ())
        | some l => linkPin l dir
      | e => pure e
    | e => pure e

/-- handle.c:295-369 `bf_handle_pin`. -/
def handlePin (h : Handle) (dir : String) : P (Res Unit) := do
  match ← handlePins h dir with
  | .ok _ => pure (.ok ())
  | e => do handleUnpin h dir; pure e

/-- handle.c:488-499 `bf_handle_detach`. -/
def handleDetach (h : Handle) : P Handle :=
  match h.link with
  | none => pure h
  | some l => do
    void (.linkDetach l.fd)
    (match l.extra with
      | some x => void (.linkDetach x)
      | none => pure ())
    closeAll l.fds
    pure { h with link := none }

/-- handle.c:501-519 `bf_handle_unload`. -/
def handleUnload (h : Handle) : P Handle := do
  closeAll h.prog.toList
  let h ← handleDetach { h with prog := none }
  closeAll (h.maps.map (·.id))
  pure { h with cmap := none, pmap := none, lmap := none, smap := none, sets := [] }

/-- cgen.c:52-99 `_bf_cgen_persist`; cgen.c:37-38. -/
def persist (c : Cgen) (dir : String) : P (Res Unit) := do
  match ← try_ .alloc with
  | .ok _ =>
    let data := cgenBytes c.chain c.handle.d
    match ← mapNew "bf_ctx" .ctx 2 4 data.length 1 with
    | .ok m =>
      match ← try_ (.mapWrite m.id data) with
      | .ok _ => do
        void (.unlink dir "bf_ctx_tmp")
        match ← try_ (.pin dir "bf_ctx_tmp" m.id) with
        | .ok _ =>
          match ← try_ (.rename dir "bf_ctx_tmp" "bf_ctx") with
          | .ok _ => do void (.close m.id); pure (.ok ())
          | e => do void (.unlink dir "bf_ctx_tmp"); void (.close m.id); pure e
        | e => do void (.close m.id); pure e
      | e => do void (.close m.id); pure e
    | .err e => pure (.err e)
    | .ub => pure .ub
  | e => pure e

/-- map.c:287-289, handle.c:90-121: open what is pinned under the name of a map. -/
def getMap (dir : String) : Option MapD → P (Res (Option BMap))
  | none => pure (.ok none)
  | some d => do
    match ← tryId (.get dir d.name) with
    | .ok o => pure (.ok (some ⟨d, o⟩))
    | .err e => pure (.err e)
    | .ub => pure .ub

/-- handle.c:123-138: the maps of the sets. -/
def getMaps (dir : String) : List (Option MapD) → P (List (Option BMap) × Res Unit)
  | [] => pure ([], .ok ())
  | d :: ds => do
    match ← getMap dir d with
    | .ok m => do
      let (ms, r) ← getMaps dir ds
      pure (m :: ms, r)
    | .err e => pure ([], .err e)
    | .ub => pure ([], .ub)

/-- link.c:148-160: open the links. -/
def getLink (dir : String) : Option LinkD → P (Res (Option Link))
  | none => pure (.ok none)
  | some d => do
    match ← tryId (.get dir "bf_link") with
    | .ok l =>
      match ← tryId (.get dir "bf_link_extra") with
      | .ok x => pure (.ok (some ⟨d, l, some x⟩))
      | .err .ENOENT => pure (.ok (some ⟨d, l, none⟩))
      | .err e => do void (.close l); pure (.err e)
      | .ub => pure .ub
    | .err e => pure (.err e)
    | .ub => pure .ub

/-- handle.c:66-138: the descriptors of `bf_handle_new_from_pack`. -/
def getHandle (dir : String) (d : HandleD) : P (Handle × Res Unit) := do
  let h : Handle := ⟨d.progName, none, none, none, none, none, none, []⟩
  match ← tryId (.get dir d.progName) with
  | .ok p =>
    let h := { h with prog := some p }
    match ← getLink dir d.link with
    | .ok l =>
      let h := { h with link := l }
      match ← getMap dir d.cmap with
      | .ok m =>
        let h := { h with cmap := m }
        match ← getMap dir d.pmap with
        | .ok m =>
          let h := { h with pmap := m }
          match ← getMap dir d.lmap with
          | .ok m =>
            let h := { h with lmap := m }
            match ← getMap dir d.smap with
            | .ok m => do
              let h := { h with smap := m }
              let (ms, r) ← getMaps dir d.sets
              pure ({ h with sets := ms }, r)
            | .err e => pure (h, .err e)
            | .ub => pure (h, .ub)
          | .err e => pure (h, .err e)
          | .ub => pure (h, .ub)
        | .err e => pure (h, .err e)
        | .ub => pure (h, .ub)
      | .err e => pure (h, .err e)
      | .ub => pure (h, .ub)
    | .err e => pure (h, .err e)
    | .ub => pure (h, .ub)
  | .err e => pure (h, .err e)
  | .ub => pure (h, .ub)

/-- cgen.c:136-176 `bf_cgen_new_from_dir_fd`. -/
def newFromDir (dir : String) : P (Res Cgen) := do
  match ← tryId (.get dir "bf_ctx") with
  | .ok m => .call (.mapRead m) fun a =>
    match a with
    | .bytes b =>
      if b = [] then do void (.close m); pure (.err .EINVAL) else
      match cgenOfBytes b with
      | .ok (c, d) => do
        match ← getHandle dir d with
        | (h, .ok _) => do void (.close m); pure (.ok ⟨c, h⟩)
        | (h, .err e) => do handleFree h; void (.close m); pure (.err e)
        | (h, .ub) => do handleFree h; void (.close m); pure .ub
      | .err e => do void (.close m); pure (.err e)
      | .ub => do void (.close m); pure .ub
    | .fail e => do void (.close m); pure (.err e)
    | _ => do void (.close m); pure .ub
  | .err e => pure (.err e)
  | .ub => pure .ub

/-- cgen.c:311-350 `bf_cgen_set`. -/
def cgenSet (T : Target) (c : Cgen) (o : Option HookOpts) (dir : String) : P (Cgen × Res Unit) := do
  match ← makeProgram T c.chain c.handle with
  | (h, .ok _) => do
    let (h, r) ← (match o with
      | some o => handleAttach h c.chain.hook o
      | none => pure (h, .ok ()))
    let c := { c with handle := h }
    match r with
    | .ok _ =>
      match ← handlePin h dir with
      | .ok _ =>
        match ← persist c dir with
        | .ok _ => pure (c, .ok ())
        | e => do handleUnpin h dir; pure (c, e)
      | e => pure (c, e)
    | e => pure (c, e)
  | (h, e) => pure ({ c with handle := h }, e)

/-- cgen.c:352-387 `bf_cgen_load`: the same without attaching. -/
def cgenLoad (T : Target) (c : Cgen) (dir : String) : P (Cgen × Res Unit) := do
  match ← makeProgram T c.chain c.handle with
  | (h, .ok _) =>
    let c := { c with handle := h }
    match ← handlePin h dir with
    | .ok _ =>
      match ← persist c dir with
      | .ok _ => pure (c, .ok ())
      | e => do handleUnpin h dir; pure (c, e)
    | e => pure (c, e)
  | (h, e) => pure ({ c with handle := h }, e)

/-- cgen.c:389-421 `bf_cgen_attach`. -/
def cgenAttach (c : Cgen) (o : HookOpts) (dir : String) : P (Cgen × Res Unit) := do
  match ← handleAttach c.handle c.chain.hook o with
  | (h, .ok _) =>
    let c := { c with handle := h }
    match h.link with
    | none => pure (c, .ub)
    | some l =>
      match ← linkPin l dir with
      | .ok _ =>
        match ← persist c dir with
        | .ok _ => pure (c, .ok ())
        | e => do
          linkUnpin dir
          let h ← handleDetach h
          pure ({ c with handle := h }, e)
      | e => do
        let h ← handleDetach h
        pure ({ c with handle := h }, e)
  | (h, e) => pure ({ c with handle := h }, e)

/-- Sum of the counters of the CPUs (64-bit numbers, which wrap). -/
def sumCtrs (v : List Ctr) : Ctr := v.foldl (fun s c => (s.1 + c.1, s.2 + c.2)) (0, 0)

/-- handle.c:404-437 `bf_handle_get_counter`. -/
def getCounter (h : Handle) (idx : Nat) : P (Res Ctr) :=
  match h.cmap with
  | none => pure (.err .ENOENT)
  | some m => do
    match ← try_ .alloc with
    | .ok _ => .call (.ctrRead m.id idx) fun a =>
      match a with
      | .ctrs v => .ret (.ok (sumCtrs v))
      | .fail e => .ret (.err e)
      | _ => .ret .ub
    | .err e => pure (.err e)
    | .ub => pure .ub

/-- handle.c:439-467 `bf_handle_set_counter`: everything on the first CPU. -/
def setCounter (ncpu : Nat) (h : Handle) (idx : Nat) (c : Ctr) : P (Res Unit) :=
  match h.cmap with
  | none => pure (.err .ENOENT)
  | some m => do
    match ← try_ .alloc with
    | .ok _ => try_ (.ctrWrite m.id idx ((List.replicate ncpu (0, 0)).set 0 c))
    | e => pure e

/-- cgen.c:448-462: the loop of `_bf_cgen_transfer_counters`, from index `i`, `n` indexes left. -/
def transferLoop (ncpu : Nat) (old new : Handle) : Nat → Nat → P (Res Unit)
  | _, 0 => pure (.ok ())
  | i, n + 1 => do
    match ← getCounter old i with
    | .ok c =>
      if c.1 = 0 ∧ c.2 = 0 then transferLoop ncpu old new (i + 1) n else do
      match ← setCounter ncpu new i c with
      | .ok _ => transferLoop ncpu old new (i + 1) n
      | e => pure e
    | .err e => pure (.err e)
    | .ub => pure .ub

/-- cgen.c:435-464 `_bf_cgen_transfer_counters`. -/
def transfer (ncpu : Nat) (old new : Handle) (nRules : Nat) : P (Res Unit) :=
  if old.cmap.isNone ∨ new.cmap.isNone then pure (.err .ENOENT) else transferLoop ncpu old new 0 (nRules + 2)

/-- link.c:247-285 `_bf_link_update_nf`. -/
def linkUpdateNf (l : Link) (prog : Nat) : P (Link × Res Unit) := do
  match ← tryId (.linkCreate prog (.nf l.d.hook false)) with
  | .ok a =>
    match ← tryId (.linkCreate prog (.nf l.d.hook true)) with
    | .ok b => do
      closeAll l.fds
      pure (⟨{ l.d with opts := { l.d.opts with prio0 := l.d.opts.prio1, prio1 := l.d.opts.prio0 } }, a, some b⟩, .ok ())
    | .err e => do void (.close a); pure (l, .err e)
    | .ub => pure (l, .ub)
  | .err e => pure (l, .err e)
  | .ub => pure (l, .ub)

/-- link.c:287-308 `bf_link_update`. -/
def linkUpdate (l : Link) (prog : Nat) : P (Link × Res Unit) :=
  if l.d.hook.flavor = .nf then linkUpdateNf l prog else do
  let r ← try_ (.linkUpdate l.fd prog)
  pure (l, r)

/-- cgen.c:527-550: `bf_cgen_update` once the handles are swapped: pin the new handle, persist twice.  (The new chain is kept.) -/
def updateFinish (c : Cgen) (chain : Chain) (h : Handle) (dir : String) : P (Cgen × Res Unit) := do
  let c := { c with handle := h }
  match ← handlePin h dir with
  | .ok _ =>
    match ← persist c dir with
    | .ok _ =>
      let c := { c with chain := chain }
      match ← persist c dir with
      | .ok _ => pure (c, .ok ())
      | e => do handleUnpin h dir; pure (c, e)
    | e => do handleUnpin h dir; pure (c, e)
  | e => pure (c, e)

/-- cgen.c:513-550: `bf_cgen_update` once the new program is ready: from the removal of the pins of the old one.
`_free_bf_handle_` (cgen.c:470) frees the handle that is not kept. -/
def updateSwitch (c : Cgen) (chain : Chain) (new : Handle) (dir : String) : P (Cgen × Res Unit) := do
  let old := c.handle
  handleUnpin old dir
  match old.link, new.prog with
  | some l, some p => do
    match ← linkUpdate l p with
    | (l', .ok _) => do
      let r ← updateFinish c chain { new with link := some l' } dir
      handleFree { old with link := none }
      pure r
    | (l', e) => do
      let _ ← handlePin { old with link := some l' } dir
      handleFree new
      pure ({ c with handle := { old with link := some l' } }, e)
  | some _, none => pure (c, .ub)
  | none, _ => do
    let r ← updateFinish c chain new dir
    handleFree old
    pure r

/-- cgen.c:466-553 `bf_cgen_update`, with valid flags; `keep` is `BF_CGEN_UPDATE_PRESERVE_COUNTERS`. -/
def cgenUpdate (T : Target) (ncpu : Nat) (c : Cgen) (chain : Chain) (keep : Bool) (dir : String) : P (Cgen × Res Unit) := do
  match ← try_ .alloc with
  | .ok _ =>
    match ← makeProgram T chain Handle.new with
    | (new, .ok _) =>
      if keep then
        if c.chain.rules.length ≠ chain.rules.length then do handleFree new; pure (c, .err .EINVAL) else do
        match ← transfer ncpu c.handle new chain.rules.length with
        | .ok _ => updateSwitch c chain new dir
        | e => do handleFree new; pure (c, e)
      else updateSwitch c chain new dir
    | (new, e) => do handleFree new; pure (c, e)
  | e => pure (c, e)

/-- cgen.c:562-572 `bf_cgen_unload`. -/
def cgenUnload (c : Cgen) (dir : String) : P Cgen := do
  void (.unlink dir "bf_ctx")
  handleUnpin c.handle dir
  let h ← handleUnload c.handle
  pure { c with handle := h }

/-- cgen.c:201-213 `bf_cgen_free`. -/
def cgenFree (c : Cgen) : P Unit := handleFree c.handle

/-- cgen.c:178-199 `bf_cgen_new`. -/
def cgenNew (chain : Chain) : P (Res Cgen) := do
  match ← try_ .alloc with
  | .ok _ => pure (.ok ⟨chain, Handle.new⟩)
  | .err e => pure (.err e)
  | .ub => pure .ub

/-- A copy of a chain (`bf_chain_new_from_copy`), which allocates. -/
def copyChain (c : Chain) : P (Res Chain) := do
  match ← try_ .alloc with
  | .ok _ => pure (chainCopy c)
  | .err e => pure (.err e)
  | .ub => pure .ub

/-- cli.c:27-47 `copy_hookopts`, if there are options. -/
def copyOpts : Option HookOpts → P (Res Unit)
  | none => pure (.ok ())
  | some _ => try_ .alloc

/-- Take the lock of an existing chain (`bf_lock_init_for_chain`), and give it back. -/
def withChain {α : Type} (dir : String) (write : Bool) (f : P (Res α)) : P (Res α) := do
  match ← try_ .lockInit with
  | .ok _ =>
    match ← try_ (.acquire dir) with
    | .ok _ => do
      let r ← f
      void (.release dir write)
      pure r
    | .err e => pure (.err e)
    | .ub => pure .ub
  | .err e => pure (.err e)
  | .ub => pure .ub

/-- Open the chain (`bf_ctx_get_cgen`), do something with it, free it. -/
def withCgen {α : Type} (dir : String) (f : Cgen → P (Cgen × Res α)) : P (Res α) := do
  match ← newFromDir dir with
  | .ok c => do
    let (c, r) ← f c
    cgenFree c
    pure r
  | .err e => pure (.err e)
  | .ub => pure .ub

/-- Create the directory of a chain and what it holds, from `bf_chain_new_from_copy` on: cli.c:247-272, 149-193. -/
def putNew (T : Target) (chain : Chain) (o : Option HookOpts) : P (Res Unit) := do
  match ← copyChain chain with
  | .ok chain =>
    match ← copyOpts o with
    | .ok _ =>
      match ← cgenNew chain with
      | .ok c =>
        match ← try_ (.create chain.name) with
        | .ok _ => do
          let (c, r) ← cgenSet T c o chain.name
          cgenFree c
          void (.release chain.name true)
          pure r
        | e => pure e
      | .err e => pure (.err e)
      | .ub => pure .ub
    | e => pure e
  | .err e => pure (.err e)
  | .ub => pure .ub

/-- cli.c:229-245: the previous chain, if any, is unloaded. -/
def dropOld (dir : String) : P (Res Unit) := do
  match ← try_ (.acquire dir) with
  | .ok _ => do
    match ← newFromDir dir with
    | .ok c => do
      let c ← cgenUnload c dir
      void (.release dir true)
      cgenFree c
      pure (.ok ())
    | .err .ENOENT => do void (.release dir true); pure (.ok ())
    | .err e => do void (.release dir true); pure (.err e)
    | .ub => pure .ub
  | .err .ENOENT => pure (.ok ())
  | e => pure e

/-- cli.c:216-273 `bf_chain_set`.  (The old chain, unloaded, is freed later in the code: it has no descriptor left.) -/
def chainSet (T : Target) (chain : Chain) (o : Option HookOpts) : P (Res Unit) := do
  match ← try_ .lockInit with
  | .ok _ =>
    match ← dropOld chain.name with
    | .ok _ => putNew T chain o
    | e => pure e
  | e => pure e

/-- cli.c:361-388 `bf_chain_load`. -/
def chainLoad (T : Target) (chain : Chain) : P (Res Unit) := do
  match ← try_ .lockInit with
  | .ok _ =>
    match ← try_ (.create chain.name) with
    | .ok _ =>
      let r ← (do
        match ← copyChain chain with
        | .ok ch =>
          match ← cgenNew ch with
          | .ok c => do
            let (c, r) ← cgenLoad T c chain.name
            cgenFree c
            pure r
          | .err e => pure (.err e)
          | .ub => pure .ub
        | .err e => pure (.err e)
        | .ub => pure .ub : P (Res Unit))
      void (.release chain.name true)
      pure r
    | e => pure e
  | e => pure e

/-- cli.c:390-424 `bf_chain_attach`. -/
def chainAttach (dir : String) (o : HookOpts) : P (Res Unit) :=
  withChain dir true <| withCgen dir fun c =>
    if c.handle.link.isSome then pure (c, .err .EBUSY) else
    match validate o c.chain.hook with
    | .ok _ => do
      match ← copyOpts (some o) with
      | .ok _ => cgenAttach c o dir
      | e => pure (c, e)
    | e => pure (c, e)

/-- cli.c:426-449 `bf_chain_update`. -/
def chainUpdate (T : Target) (ncpu : Nat) (chain : Chain) : P (Res Unit) :=
  withChain chain.name true <| withCgen chain.name fun c => do
    match ← copyChain chain with
    | .ok new => cgenUpdate T ncpu c new false chain.name
    | .err e => pure (c, .err e)
    | .ub => pure (c, .ub)

/-- cli.c:485-541 `bf_chain_update_set`.  (`updateSet` copies the chain, checks the names and changes the set: see
Chain/Update.lean.  The code checks the names before taking the lock.) -/
def chainUpdateSet (T : Target) (ncpu : Nat) (dir : String) (toAdd toRemove : BSet) : P (Res Unit) :=
  withChain dir true <| withCgen dir fun c => do
    match ← try_ .alloc with
    | .ok _ =>
      match updateSet c.chain toAdd toRemove with
      | .ok new => cgenUpdate T ncpu c new true dir
      | .err e => pure (c, .err e)
      | .ub => pure (c, .ub)
    | e => pure (c, e)

/-- cli.c:543-565 `bf_chain_flush`. -/
def chainFlush (dir : String) : P (Res Unit) :=
  withChain dir true <| withCgen dir fun c => do
    let c ← cgenUnload c dir
    pure (c, .ok ())

end Bf.Pin
