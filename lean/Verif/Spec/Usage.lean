import Verif.Cli.Opts
/-!
# Specification: the command lines of `bfcli`

From `/repo/doc/usage/bfcli.rst`: each command, the options it must be given, those it may be given; the commands that read chains need one of
`--from-str` and `--from-file`, not both.
-/
namespace Bf.Spec
open Cli (Object Action Flag Arg1)

structure Usage where
  /-- it reads chains from one of `--from-str` and `--from-file` -/
  source : Bool
  needs : List Flag
  may : List Flag

def usage : Object → Action → Option Usage
  | .ruleset, .set => some ⟨true, [], [.dryRun]⟩
  | .ruleset, .get => some ⟨false, [], [.noSetContent]⟩
  | .ruleset, .flush => some ⟨false, [], []⟩
  | .ruleset, _ => none
  | .chain, .set | .chain, .load | .chain, .update => some ⟨true, [], [.name, .dryRun]⟩
  | .chain, .get => some ⟨false, [.name], [.noSetContent]⟩
  | .chain, .logs | .chain, .flush => some ⟨false, [.name], []⟩
  | .chain, .attach => some ⟨false, [.name], [.option]⟩
  | .chain, .updateSet => some ⟨false, [.name, .setName], [.add, .remove]⟩

/-- The arguments that were given to an option, in order. -/
def given (f : Flag) (as : List (Flag × List Char)) : List (List Char) := (as.filter fun a => a.1 = f).map (·.2)

/-- The options of a command are right. -/
structure Usage.Right (u : Usage) (as : List (Flag × List Char)) : Prop where
  known : ∀ a ∈ as, a.1 ∈ u.needs ∨ a.1 ∈ u.may ∨ u.source = true ∧ (a.1 = .fromStr ∨ a.1 = .fromFile)
  needs : ∀ f ∈ u.needs, given f as ≠ []
  source : u.source = true → (given .fromStr as ≠ [] ∧ given .fromFile as = []) ∨ (given .fromStr as = [] ∧ given .fromFile as ≠ [])
  filled : ∀ a ∈ as, a.1 = .name ∨ a.1 = .setName ∨ a.1 = .add ∨ a.1 = .remove → a.2 ≠ []
  options : ∃ h, parseOpts .new (given .option as) = .ok h

/-- A request for help. -/
def asksHelp (f : Flag) : Prop := f = .help ∨ f = .usage ∨ f = .version

/-- A global option that does not end the program: deprecated ones, the token, the path, a level of messages that exists. -/
def Global : Arg1 → Prop
  | .deprecated | .withToken | .bpffs _ => True
  | .verbose v => v = "debug" ∨ v = "bpf" ∨ v = "bytecode"
  | _ => False

/-- The words of a command, after, and around, global options. -/
def Commands (a1 : List Arg1) (o : Object) (a : Action) : Prop :=
  ∃ g1 g2 rest, a1 = g1 ++ .word o.str :: (g2 ++ .word a.str :: rest) ∧ (∀ x ∈ g1, Global x) ∧ ∀ x ∈ g2, Global x

end Bf.Spec
