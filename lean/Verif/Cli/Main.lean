import Verif.Cli.Opts
import Verif.Cli.Dump
import Verif.Cgen.Ruleset
/-!
# `bfcli`

`/repo/src/bfcli/{main,chain,ruleset}.c`, and `bf_ctx_setup` (`/repo/src/libbpfilter/ctx.c`).
-/
namespace Bf.Cli
open Pin (P Target Call try_ void)

/-- What a run of `bfcli` finds: what the parser asks the system, what the code generator takes from its surroundings, the number of CPUs, and the files. -/
structure Host where
  env : PEnv
  T : Target
  ncpu : Nat
  file : List Char → Res (List Char)

/-- How a run ends: it exits, having printed `out`; its behaviour is undefined; it does not end. -/
inductive Ended
  | exits (s : Status) (out : List Char)
  | ub
  | loops
  deriving DecidableEq, Repr

def fails (e : Errno) : Ended := .exits (.failed e) []

/-- The value `main` returns. -/
def ended : Res Unit → Ended
  | .ok _ => .exits .ok []
  | .err e => fails e
  | .ub => .ub

/-- A step that may fail, or not end. -/
def after {α : Type} (x : Run α) (f : α → P Ended) : P Ended :=
  match x with
  | none => .ret .loops
  | some (.ok a) => f a
  | some (.err e) => .ret (fails e)
  | some .ub => .ret .ub

def afterRes {α : Type} (x : Res α) (f : α → P Ended) : P Ended := after (some x) f

/-- helper.c:38-65 `bfc_parse_file`. -/
def parseFile (H : Host) (path : List Char) : Run (List (Chain × Option HookOpts)) :=
  match H.file path with
  | .ok text => bfcParse H.env text
  | .err e => some (.err e)
  | .ub => some .ub

/-- chain.c:91-96, 165-170, 212-217: `--from-str`, or else `--from-file`.  (One of them was given, see opts.c:632-664.) -/
def chainSource (H : Host) (o : CmdLine) : Run (List (Chain × Option HookOpts)) :=
  match o.fromStr, o.fromFile with
  | some t, _ => bfcParse H.env t
  | none, some f => parseFile H f
  | none, none => some .ub

/-- ruleset.c:27-32: `--from-file`, or else `--from-str`. -/
def rulesetSource (H : Host) (o : CmdLine) : Run (List (Chain × Option HookOpts)) :=
  match o.fromFile, o.fromStr with
  | some f, _ => parseFile H f
  | none, some t => bfcParse H.env t
  | none, none => some .ub

/-- chain.c:84-112, 157-190, 204-244: read the source, choose the chain, then do something with it, unless `--dry-run`. -/
def chainCmd (H : Host) (o : CmdLine) (act : Chain → Option HookOpts → P (Res Unit)) : P Ended :=
  after (chainSource H o) fun rs =>
  afterRes (getChain (o.name.map String.ofList) rs) fun c =>
  if o.dryRun then .ret (.exits .ok []) else do
  let r ← act c.1 c.2
  pure (ended r)

/-- ruleset.c:22-47 `bfc_ruleset_set`. -/
def rulesetSetCmd (H : Host) (o : CmdLine) : P Ended :=
  after (rulesetSource H o) fun rs =>
  if o.dryRun then .ret (.exits .ok []) else do
  let r ← Pin.rulesetSet H.T rs
  pure (ended r)

def pairOf (c : Pin.Ctr) : Nat × Nat := (c.1.toNat, c.2.toNat)

/-- The counters `bf_chain_get` read (in the code, fields of the chain and of its rules). -/
def countsOf (g : Pin.Got) : Counts := ⟨pairOf g.policy, pairOf g.errors, fun i => (g.rules[i]?.join.map pairOf).getD (0, 0)⟩

/-- What is printed of a chain. -/
def printed (x : Res (List Char)) : P Ended := afterRes x fun out => .ret (.exits .ok out)

/-- chain.c:114-131 `bfc_chain_get`. -/
def chainGetCmd (H : Host) (o : CmdLine) (name : String) : P Ended := do
  let r ← Pin.chainGet name
  afterRes r fun g => printed (chainDump H.env.text g.chain g.opts (countsOf g) o.noSetContent)

/-- ruleset.c:49-65 `bfc_ruleset_get`. -/
def rulesetGetCmd (H : Host) (o : CmdLine) : P Ended := do
  let r ← Pin.rulesetGet
  afterRes r fun gs => printed (rulesetDump H.env.text o.noSetContent (gs.map fun g => (g.chain, countsOf g)) (gs.map (·.opts)))

/-- cli.c:339-359 `bf_chain_logs_fd`. -/
def logsFd (name : String) : P (Res Nat) :=
  Pin.withChain name false <| Pin.withCgen name fun c =>
    match c.handle.lmap with
    | none => pure (c, .err .ENOENT)
    | some m => do
      match ← try_ .alloc with
      | .ok _ => pure (c, .ok m.id)
      | .err e => pure (c, .err e)
      | .ub => pure (c, .ub)

/-- chain.c:144-175 `bfc_chain_logs`: entries are printed as they come, until polling fails.  (Simplification: it does not fail.) -/
def logsCmd (name : String) : P Ended := do
  match ← logsFd name with
  | .ok _ => do
    match ← try_ .alloc with
    | .ok _ => pure .loops
    | _ => pure (fails .EINVAL)
  | .err e => pure (fails e)
  | .ub => pure .ub

/-- chain.c:294-300, 307-313: the elements of `--add`, or of `--remove`; `i` counts them. -/
def addAll (e : PEnv) : Nat → BSet → List (List Char) → Run BSet
  | _, set, [] => some (.ok set)
  | i, set, x :: xs => (show Run BSet from addElemRaw e.text (e.mem i 0) e.fuel set x).bind fun set => addAll e (i + 1) set xs

/-- chain.c:287-313: the two sets given to `bf_chain_update_set`. -/
def deltaSets (e : PEnv) (o : CmdLine) (name : List Char) (dest : BSet) : Run (BSet × BSet) :=
  (show Run BSet from some (setNew (some (String.ofList name)) dest.key)).bind fun a =>
  (addAll e 0 a o.setAdd).bind fun a =>
  (show Run BSet from some (setNew (some (String.ofList name)) dest.key)).bind fun r =>
  (addAll e o.setAdd.length r o.setRemove).bind fun r => some (.ok (a, r))

/-- chain.c:259-324 `bfc_chain_update_set`. -/
def updateSetCmd (H : Host) (o : CmdLine) (name : String) (setName : List Char) : P Ended :=
  if o.setAdd = [] ∧ o.setRemove = [] then .ret (fails .EINVAL) else do
  let r ← Pin.chainGet name
  afterRes r fun g =>
    match setByName g.chain.sets (String.ofList setName) with
    | none => .ret (fails .ENOENT)
    | some i =>
      match g.chain.sets[i]? with
      | none => .ret .ub
      | some dest => after (deltaSets H.env o setName dest) fun d => do
        let r ← Pin.chainUpdateSet H.T H.ncpu name d.1 d.2
        pure (ended r)

/-- The commands that take `--name`, which was given (opts.c:632-664). -/
def named (o : CmdLine) (f : String → P Ended) : P Ended :=
  match o.name with
  | none => .ret .ub
  | some n => f (String.ofList n)

/-- `.cb` of the commands: opts.c:153-300. -/
def runCmd (H : Host) (o : CmdLine) : Object → Action → P Ended
  | .ruleset, .set => rulesetSetCmd H o
  | .ruleset, .get => rulesetGetCmd H o
  | .ruleset, .flush => do let r ← Pin.rulesetFlush; pure (ended r)
  | .chain, .set => chainCmd H o fun c h => Pin.chainSet H.T c h
  | .chain, .get => named o (chainGetCmd H o)
  | .chain, .logs => named o logsCmd
  | .chain, .load => chainCmd H o fun c _ => Pin.chainLoad H.T c
  | .chain, .attach => named o fun n => do let r ← Pin.chainAttach n o.hookopts; pure (ended r)
  | .chain, .update => chainCmd H o fun c _ => Pin.chainUpdate H.T H.ncpu c
  | .chain, .updateSet =>
    named o fun n =>
    match o.setName with
    | none => .ret .ub
    | some s => updateSetCmd H o n s
  | .chain, .flush => named o fun n => do let r ← Pin.chainFlush n; pure (ended r)
  | .ruleset, _ => .ret .ub

/-- ctx.c:244-264: the loop of `_bf_ctx_sweep_staging`: directories nobody has locked. -/
def sweepLoop : List String → P Unit
  | [] => pure ()
  | n :: ns =>
    if Pin.staging n then do
      match ← try_ (.acquire n) with
      | .ok _ => do void (.rmTree n); sweepLoop ns
      | _ => sweepLoop ns
    else sweepLoop ns

/-- ctx.c:215-265 `_bf_ctx_sweep_staging`. -/
def sweep : P Unit := do
  match ← try_ .lockInit with
  | .ok _ => .call .readdir fun a =>
    match a with
    | .names ns => sweepLoop ns
    | _ => pure ()
  | _ => pure ()

/-- ctx.c:267-286 `bf_ctx_setup`.  (`_bf_ctx_new`, which does nothing to chains, is one call that can fail.) -/
def ctxSetup : P (Res Unit) := do
  match ← try_ .alloc with
  | .ok _ => do sweep; pure (.ok ())
  | e => pure e

/-- main.c:36-60 `main`, once the options are read. -/
def mainCmd (H : Host) (o : CmdLine) (c : Cmd) : P Ended :=
  if o.dryRun then runCmd H o c.object c.action else do
  match ← ctxSetup with
  | .ok _ => runCmd H o c.object c.action
  | .err e => pure (fails e)
  | .ub => pure .ub

/-- main.c:36-60 `main`; see `optsParse` for the arguments. -/
def main (H : Host) (a1 : List Arg1) (a2 : List (Flag × List Char)) (words : List String) : P Ended :=
  match optsParse a1 a2 words with
  | .exit s => .ret (.exits s [])
  | .go (o, c) => mainCmd H o c

end Bf.Cli
