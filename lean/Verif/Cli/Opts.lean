import Verif.Cli.Action
/-!
# The command line of `bfcli`

`/repo/src/bfcli/opts.c`.  `argp_parse` and `getopt_long` are of the C library: they split the command line into options and other words, and they are
not modelled.  The first pass (`ARGP_IN_ORDER`) sees options and words in order; the second one sees all options first (`getopt_long` permutes them).
`argp_error`, `argp_usage`, an option `argp` does not know, and words nobody wants, print a message and exit with status 64 (`EX_USAGE`).
-/
namespace Bf.Cli

/-- opts.h:34-39 `enum bfc_object`. -/
inductive Object
  | ruleset | chain
  deriving DecidableEq, Repr

/-- opts.h:44-55 `enum bfc_action`. -/
inductive Action
  | set | get | logs | load | attach | update | updateSet | flush
  deriving DecidableEq, Repr

/-- opts.c:53-57 `_bfc_object_strs`. -/
def Object.str : Object → String
  | .ruleset => "ruleset"
  | .chain => "chain"

/-- opts.c:76-86 `_bfc_action_strs`. -/
def Action.str : Action → String
  | .set => "set"
  | .get => "get"
  | .logs => "logs"
  | .load => "load"
  | .attach => "attach"
  | .update => "update"
  | .updateSet => "update-set"
  | .flush => "flush"

def Object.vals : List Object := [.ruleset, .chain]

def Action.vals : List Action := [.set, .get, .logs, .load, .attach, .update, .updateSet, .flush]

/-- opts.c:64-74 `_bfc_object_from_str`. -/
def Object.fromStr (s : String) : Option Object := Object.vals.find? fun o => o.str = s

/-- opts.c:93-103 `_bfc_action_from_str`. -/
def Action.fromStr (s : String) : Option Action := Action.vals.find? fun a => a.str = s

/-- opts.c:105-121 `_bfc_verbose_from_str`. -/
def verboseOk (s : String) : Bool := s = "debug" || s = "bpf" || s = "bytecode"

/-- opts.c:134-151 `enum bfc_opts_option_id`. -/
inductive OptId
  | help | usage | version | rulesetFromStr | rulesetFromFile | chainFromStr | chainFromFile | chainName | chainHookOpts | setName | setAdd | setRemove
  | dryRun | noSetContent
  deriving DecidableEq, Repr

def OptId.vals : List OptId :=
  [.help, .usage, .version, .rulesetFromStr, .rulesetFromFile, .chainFromStr, .chainFromFile, .chainName, .chainHookOpts, .setName, .setAdd, .setRemove,
    .dryRun, .noSetContent]

/-- The options of the second pass, as the user writes them: `--help`, ...; `other` is one `bfcli` does not have, or one without its argument. -/
inductive Flag
  | help | usage | version | fromStr | fromFile | name | option | setName | add | remove | dryRun | noSetContent | other
  deriving DecidableEq, Repr

/-- opts.c:514-622 `_bfc_options`: `.key` and `.name`. -/
def OptId.flag : OptId → Flag
  | .help => .help
  | .usage => .usage
  | .version => .version
  | .rulesetFromStr => .fromStr
  | .rulesetFromFile => .fromFile
  | .chainFromStr => .fromStr
  | .chainFromFile => .fromFile
  | .chainName => .name
  | .chainHookOpts => .option
  | .setName => .setName
  | .setAdd => .add
  | .setRemove => .remove
  | .dryRun => .dryRun
  | .noSetContent => .noSetContent

/-- opts.c:514-622 `_bfc_options`: `.rejects`. -/
def OptId.rejects : OptId → List OptId
  | .rulesetFromStr => [.rulesetFromFile]
  | .rulesetFromFile => [.rulesetFromStr]
  | .chainFromStr => [.chainFromFile]
  | .chainFromFile => [.chainFromStr]
  | _ => []

/-- opts.h:92-101 `struct bfc_opts_cmd`. -/
structure Cmd where
  object : Object
  action : Action
  valid : List OptId
  required : List OptId
  deriving DecidableEq, Repr

/-- opts.c:153-300 `_bfc_opts_cmds`. -/
def cmds : List Cmd := [
  ⟨.ruleset, .set, [.help, .usage, .version, .rulesetFromStr, .rulesetFromFile, .dryRun], [.rulesetFromStr, .rulesetFromFile]⟩,
  ⟨.ruleset, .get, [.help, .usage, .version, .noSetContent], []⟩,
  ⟨.ruleset, .flush, [.help, .usage, .version], []⟩,
  ⟨.chain, .set, [.help, .usage, .version, .chainFromStr, .chainFromFile, .chainName, .dryRun], [.chainFromStr, .chainFromFile]⟩,
  ⟨.chain, .get, [.help, .usage, .version, .chainName, .noSetContent], [.chainName]⟩,
  ⟨.chain, .logs, [.help, .usage, .version, .chainName], [.chainName]⟩,
  ⟨.chain, .load, [.help, .usage, .version, .chainFromStr, .chainFromFile, .chainName, .dryRun], [.chainFromStr, .chainFromFile]⟩,
  ⟨.chain, .attach, [.help, .usage, .version, .chainHookOpts, .chainName], [.chainName]⟩,
  ⟨.chain, .update, [.help, .usage, .version, .chainFromStr, .chainFromFile, .chainName, .dryRun], [.chainFromStr, .chainFromFile]⟩,
  ⟨.chain, .updateSet, [.chainName, .setName, .setAdd, .setRemove], [.chainName, .setName]⟩,
  ⟨.chain, .flush, [.help, .usage, .version, .chainName], [.chainName]⟩]

/-- opts.c:333-343 `_bfc_opts_get_cmd`. -/
def getCmd (o : Object) (a : Action) : Option Cmd := cmds.find? fun c => c.object = o && c.action = a

/-- opts.h:60-90 `struct bfc_opts`. -/
structure CmdLine where
  object : Option Object := none
  setOpts : List OptId := []
  fromStr : Option (List Char) := none
  fromFile : Option (List Char) := none
  name : Option (List Char) := none
  hookopts : HookOpts := .new
  setName : Option (List Char) := none
  setAdd : List (List Char) := []
  setRemove : List (List Char) := []
  dryRun : Bool := false
  noSetContent : Bool := false
  withToken : Bool := false
  bpffs : List Char := "/sys/fs/bpf".toList

/-- The exit status of `bfcli`: 0, 64 (`EX_USAGE`), or that of an error.  (The code returns `-errno`, or `errno` if the file can't be read: the status is
`256 - errno`, or `errno`, which is not 0.) -/
inductive Status
  | ok
  | usage
  | failed (e : Errno)
  deriving DecidableEq, Repr

/-- A step of the command line: the program exits, or goes on. -/
inductive Got (α : Type)
  | exit (s : Status)
  | go (a : α)

def Got.bind {α β : Type} : Got α → (α → Got β) → Got β
  | .exit s, _ => .exit s
  | .go a, f => f a

/-- What the first pass sees: global options, words, and `bad`, an option it does not have or one without its argument. -/
inductive Arg1
  | help | usage | version
  /-- `--no-iptables`, `--no-nftables`, `--no-cli` -/
  | deprecated
  | withToken
  | bpffs (path : List Char)
  | verbose (v : String)
  | word (w : String)
  | bad
  deriving DecidableEq, Repr

/-- opts.c:345-420 `_bfc_opts_parser`.  Everything after the second word is left to the second pass. -/
def pass1 (o : CmdLine) : List Arg1 → Got (CmdLine × Cmd)
  | [] => .exit .usage
  | .help :: _ => .exit .ok
  | .usage :: _ => .exit .ok
  | .version :: _ => .exit .ok
  | .deprecated :: as => pass1 o as
  | .withToken :: as => pass1 { o with withToken := true } as
  | .bpffs p :: as => pass1 { o with bpffs := p } as
  | .verbose v :: as => if verboseOk v then pass1 o as else .exit .usage
  | .bad :: _ => .exit .usage
  | .word w :: as =>
    match o.object with
    | none =>
      match Object.fromStr w with
      | none => .exit .usage
      | some x => pass1 { o with object := some x } as
    | some x =>
      match Action.fromStr w with
      | none => .exit .usage
      | some a =>
        match getCmd x a with
        | none => .exit .usage
        | some c => .go (o, c)

/-- opts.c:302-331, 422-505: what an option does. -/
def optAct (o : CmdLine) (arg : List Char) : OptId → Got CmdLine
  | .help | .usage | .version => .exit .ok
  | .rulesetFromStr | .chainFromStr => .go { o with fromStr := some arg }
  | .rulesetFromFile | .chainFromFile => .go { o with fromFile := some arg }
  | .chainName => if arg = [] then .exit .usage else .go { o with name := some arg }
  | .chainHookOpts =>
    match parseOpt o.hookopts arg with
    | .ok h => .go { o with hookopts := h }
    | _ => .exit .usage
  | .setName => if arg = [] then .exit .usage else .go { o with setName := some arg }
  | .setAdd => if arg = [] then .exit .usage else .go { o with setAdd := o.setAdd ++ [arg] }
  | .setRemove => if arg = [] then .exit .usage else .go { o with setRemove := o.setRemove ++ [arg] }
  | .dryRun => .go { o with dryRun := true }
  | .noSetContent => .go { o with noSetContent := true }

/-- opts.c:690-703: the option of the command that the flag is. -/
def findOpt (c : Cmd) (f : Flag) : Option OptId := OptId.vals.find? fun i => c.valid.contains i && i.flag = f

/-- opts.c:690-705, the end of `_bfc_opts_cmd_parser`: the options, in order. -/
def pass2 (c : Cmd) (o : CmdLine) : List (Flag × List Char) → Got CmdLine
  | [] => .go o
  | (f, arg) :: as =>
    match findOpt c f with
    | none => .exit .usage
    | some i => (optAct o arg i).bind fun o => pass2 c { o with setOpts := i :: o.setOpts } as

/-- opts.c:632-664: an option is missing. -/
def missing (c : Cmd) (set : List OptId) : Bool :=
  OptId.vals.any fun i => c.required.contains i && !set.contains i && !i.rejects.any fun j => set.contains j

/-- opts.c:666-687: two options do not go together. -/
def clash (set : List OptId) : Bool :=
  OptId.vals.any fun i => set.contains i && OptId.vals.any fun j => i.rejects.contains j && set.contains j

/-- opts.c:710-854 `bfc_opts_parse`: `a1` is what the first pass sees; `a2` and `words`, what the second one does. -/
def optsParse (a1 : List Arg1) (a2 : List (Flag × List Char)) (words : List String) : Got (CmdLine × Cmd) :=
  (pass1 {} a1).bind fun x =>
  (pass2 x.2 x.1 a2).bind fun o =>
  if words ≠ [] then .exit .usage else
  if missing x.2 o.setOpts then .exit .usage else
  if clash o.setOpts then .exit .usage else .go (o, x.2)

end Bf.Cli
