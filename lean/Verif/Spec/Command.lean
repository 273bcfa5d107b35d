import Verif.Spec.Usage
import Verif.Cli.Main
import Verif.Spec.Ruleset
import Verif.Spec.Written
/-!
# Specification: what a command line names

The text a command reads, and the chain of it that it works on.
-/
namespace Bf.Spec
open Cli (Host Flag Arg1 bfcParse)

/-- The text that `--from-str` gives, or that the file of `--from-file` holds. -/
def Source (H : Host) (a2 : List (Flag × List Char)) (t : List Char) : Prop :=
  (given .fromStr a2).getLast? = some t ∨ ∃ f, (given .fromFile a2).getLast? = some f ∧ H.file f = .ok t

/-- The name that `--name` gives. -/
def named (a2 : List (Flag × List Char)) : Option String := (given .name a2).getLast?.map String.ofList

/-- The chain that the text and `--name` name: the one so named, the first if several are; without `--name`, the only one. -/
def Chosen (name : Option String) (rs : List (Chain × Option HookOpts)) (x : Chain × Option HookOpts) : Prop :=
  match name with
  | none => rs = [x]
  | some n => ∃ k : Nat, rs[k]? = some x ∧ x.1.name = n ∧ ∀ (j : Nat) y, j < k → rs[j]? = some y → y.1.name ≠ n

/-- The chain a command takes from the text. -/
def Takes (H : Host) (a2 : List (Flag × List Char)) (x : Chain × Option HookOpts) : Prop :=
  ∃ t rs, Source H a2 t ∧ bfcParse H.env t = some (.ok rs) ∧ Chosen (named a2) rs x

/-- The text is well written, and not of 4 GiB. -/
def Written (H : Host) (a2 : List (Flag × List Char)) : Prop := ∀ t, Source H a2 t → t.length < 2 ^ 32 ∧ ∃ cs, Writes t cs

/-- The same, of the sentences of a text. -/
def Picks (name : Option String) (cs : List Cli.ChainS) (s : Cli.ChainS) : Prop :=
  match name with
  | none => cs = [s]
  | some n => ∃ k : Nat, cs[k]? = some s ∧ String.ofList s.name = n ∧ ∀ (j : Nat) y, j < k → cs[j]? = some y → String.ofList y.name ≠ n

/-- The chain is what the command line asks for: what the sentence says that its text and `--name` name. -/
def Asks (H : Host) (a2 : List (Flag × List Char)) (s : Cli.ChainS) (x : Chain × Option HookOpts) : Prop :=
  ∃ t cs, Source H a2 t ∧ Writes t cs ∧ Picks (named a2) cs s ∧ ChainSays H.env.text H.env.rate s x

/-- A request for help among the first arguments. -/
def helpFirst (a : Arg1) : Prop := a = .help ∨ a = .usage ∨ a = .version

/-- The command line is one of those of the documentation. -/
def Valid (a1 : List Arg1) (a2 : List (Flag × List Char)) (words : List String) : Prop :=
  ∃ x a u, Commands a1 x a ∧ usage x a = some u ∧ u.Right a2 ∧ words = []

/-- The set of a chain that a name names: the first one so named. -/
def SetNamed (c : Chain) (s : String) (i : Nat) (old : BSet) : Prop :=
  c.sets[i]? = some old ∧ old.name = some s ∧ ∀ (j : Nat) (x : BSet), j < i → c.sets[j]? = some x → x.name ≠ some s

/-- `new` is `c`, but that the set so named has, besides its elements, those that the texts `adds` say, and does not have those that the texts `removes` say. -/
def SetChanged (env : TextEnv) (c : Chain) (s : String) (adds removes : List (List Char)) (new : Chain) : Prop :=
  ∃ (i : Nat) (old : BSet) (as rs es : List (List Byte)), SetNamed c s i old ∧ Each (ElemOf env old.key) adds as ∧ Each (ElemOf env old.key) removes rs ∧
    es.Nodup ∧ (∀ x, x ∈ es ↔ (x ∈ old.elems ∨ x ∈ as) ∧ x ∉ rs) ∧ new = { c with sets := c.sets.set i { old with elems := es } }

end Bf.Spec
