import Verif.Cli.Grammar
import Verif.Props.C34_HookOpts
import Verif.Props.C37_SetRaw
import Verif.Spec.Doc
/-!
# What the text of a ruleset says

The meaning of the sentences of `doc/usage/bfcli.rst`: which chains they stand for.  A sentence is a tree of `Cli/Grammar.lean`.
-/
namespace Bf.Spec
open Bf.Cli

/-! ## A text and its words -/

/-- The text of a token: keywords stand for themselves, other tokens carry their text.  (A C string ends at the first NUL: only the text of
a set can have one.) -/
def Spells : Tok → List Char → Prop
  | .chain, w => w = "chain".toList
  | .rule, w => w = "rule".toList
  | .set, w => w = "set".toList
  | .negate, w => w = "not".toList
  | .log, w => w = "log".toList
  | .counter, w => w = "counter".toList
  | .mark, w => w = "mark".toList
  | .every, w => w = "every".toList
  | .redirect, w => w = "REDIRECT".toList
  | .setPayload s, w => s = w.takeWhile (· ≠ '\x00')
  | .char c, w => w = [c]
  | .setType s, w | .string s, w | .hook s, w | .verdict s, w | .matcherType s, w | .matcherOp s, w | .hookOpt s, w | .payload s, w
  | .redirIface s, w | .redirDir s, w => w = s

/-- What a text may have between its words: a blank, a comment, or the punctuation of hook options. -/
inductive Skipped : List Char → Prop
  | blank {c : Char} : c = ' ' ∨ c = '\t' ∨ c = '\n' → Skipped [c]
  | comment {s : List Char} : '\n' ∉ s → Skipped ('#' :: s)
  | punct {c : Char} : c = '{' ∨ c = ',' ∨ c = '}' → Skipped [c]

/-- The text is made of these words, in this order, and of nothing else but what may be between them. -/
inductive Spelled : List Char → List Tok → Prop
  | nil : Spelled [] []
  | skip {w s : List Char} {ts : List Tok} : Skipped w → Spelled s ts → Spelled (w ++ s) ts
  | word {w s : List Char} {t : Tok} {ts : List Tok} : Spells t w → Spelled s ts → Spelled (w ++ s) (t :: ts)

/-! ## What they say -/

/-- The operator of a matcher is `eq` when there is none. -/
def OpSays (w : Option (List Char)) (op : MOp) : Prop := (w = none ∧ op = .eq) ∨ w = some (Doc.op op).toList

/-- A payload of the type is read from the text. -/
def PayloadOf (env : TextEnv) (ty : MType) (op : MOp) (s : List Char) (p : List Byte) : Prop :=
  p.length = ty.refSize op ∧ ∃ buf : List Byte, buf.length = ty.refSize op ∧ parsePayload env ty op buf s = .ok p

/-- A set: its name, its key, which is one sets can have, and its elements, which are those of the text. -/
def SetSays (env : TextEnv) (name : Option String) (key payload : List Char) (s : BSet) : Prop :=
  s.name = name ∧ KeyOf key s.key ∧ SetKey s.key ∧ ∃ es, Each (ElemOf env s.key) (elemTexts payload) es ∧ s.elems.Nodup ∧ ∀ e, e ∈ s.elems ↔ e ∈ es

/-- A matcher, of a chain with these sets. -/
def MatcherSays (env : TextEnv) (sets : List BSet) : MatcherS → Matcher → Prop
  | .plain t neg op p, m => t = (Doc.matcher m.type).toList ∧ OpSays op m.op ∧ m.negate = neg ∧ PayloadOf env m.type m.op p m.payload
  | .inline k neg op p, m => op = some (Doc.op .in_).toList ∧ m.type = .set ∧ m.op = .in_ ∧ m.negate = neg ∧
      ∃ i s, rd m.payload 0 4 = .ok i ∧ sets[i]? = some s ∧ SetSays env none k p s
  | .named k neg op name, m => op = some (Doc.op .in_).toList ∧ m.type = .set ∧ m.op = .in_ ∧ m.negate = neg ∧
      ∃ i s, rd m.payload 0 4 = .ok i ∧ sets[i]? = some s ∧ s.name = some (String.ofList name) ∧ KeyOf k s.key ∧
        ∀ j s', j < i → sets[j]? = some s' → s'.name ≠ some (String.ofList name)

/-- The layers to log: those that are named, all of them when none is. -/
def LogSays (hs : List (List Char)) (v : BitVec 8) : Prop :=
  (hs = [] ∧ v = 0xFF#8) ∨ (hs ≠ [] ∧ (∀ h ∈ hs, ∃ n x, Doc.log n = some x ∧ lower (String.ofList h) = lower x) ∧
    ∀ n, v.getLsbD n = true ↔ ∃ h ∈ hs, ∃ x, Doc.log n = some x ∧ lower (String.ofList h) = lower x)

/-- The interval between logs, none if it is not given. -/
def RateSays (rate : List Char → Option Nat) (r : Option (List Char)) (v : BitVec 64) : Prop :=
  (r = none ∧ v = 0) ∨ ∃ s n, r = some s ∧ rate s = some n ∧ v = BitVec.ofNat 64 n

/-- The value of a mark. -/
def MarkSays (s : List Char) (n : Nat) : Prop := strtoll s 0 = ((n : Int), []) ∧ n ≤ 0xFFFFFFFF

def isLog : OptionS → Bool
  | .log _ _ => true
  | _ => false
def isCounter : OptionS → Bool
  | .counter => true
  | _ => false
def isMark : OptionS → Bool
  | .mark _ => true
  | _ => false

/-- The options of a rule: each at most once. -/
structure OptionsSay (rate : List Char → Option Nat) (os : List OptionS) (r : Rule) : Prop where
  once : (os.filter isLog).length ≤ 1 ∧ (os.filter isCounter).length ≤ 1 ∧ (os.filter isMark).length ≤ 1
  log : ∀ hs t, .log hs t ∈ os → LogSays hs r.log ∧ RateSays rate t r.rate
  noLog : (∀ o ∈ os, isLog o = false) → r.log = 0 ∧ r.rate = 0
  counter : r.hasCounters = true ↔ .counter ∈ os
  mark : ∀ s, .mark s ∈ os → ∃ n, MarkSays s n ∧ r.markSet = true ∧ r.markVal = BitVec.ofNat 32 n
  noMark : (∀ o ∈ os, isMark o = false) → r.markSet = false

/-- An interface: by its name, else by its index. -/
def IfaceSays (env : TextEnv) (s : List Char) (n : Nat) : Prop :=
  if 0 < env.nameToIndex s ∧ env.nameToIndex s ≤ 2147483647 then n = env.nameToIndex s
  else strtoul s 10 = ⟨n, [], false⟩ ∧ 0 < n ∧ n ≤ 4294967295

def VerdictSays (env : TextEnv) : VerdictS → Rule → Prop
  | .plain v, r => v = (Doc.verdict r.verdict).toList
  | .redirect i d, r => r.verdict = .redirect ∧ IfaceSays env i r.redirIfindex.toNat ∧ d = (Doc.direction r.redirDir).toList

/-- A rule. -/
structure RuleSays (env : TextEnv) (rate : List Char → Option Nat) (sets : List BSet) (s : RuleS) (r : Rule) : Prop where
  matchers : Each (MatcherSays env sets) s.matchers r.matchers
  options : OptionsSay rate s.options r
  verdict : VerdictSays env s.verdict r

/-- The sets that are not named, in the order of the text. -/
def inlineSet : MatcherS → Option (List Char × List Char)
  | .inline k _ _ p => some (k, p)
  | _ => none
def inlineSets (rules : List RuleS) : List (List Char × List Char) := rules.flatMap fun r => r.matchers.filterMap inlineSet

/-- The hook options: none, or those the hook needs, each with its value. -/
def HookOptsSay (hook : Hook) (opts : List (List Char)) (o : Option HookOpts) : Prop :=
  (opts = [] ∧ o = none) ∨ ∃ ho, opts ≠ [] ∧ o = some ho ∧
    (∀ raw ∈ opts, ∃ t v, Gives raw t v ∧ ValueOk t v ∧ Records ho t v) ∧
    ∀ t, t ≠ .family → times t opts = (if t = needs hook then 1 else 0) ∧ (ho.isUsed t = true ↔ t = needs hook)

/-- A chain: its name, its hook and options, its policy, its sets (the declared ones, then those in the rules), and its rules in order. -/
structure ChainSays (env : TextEnv) (rate : List Char → Option Nat) (s : ChainS) (c : Chain × Option HookOpts) : Prop where
  name : c.1.name = String.ofList s.name
  hook : s.hook = (Doc.hook c.1.hook).toList
  opts : HookOptsSay c.1.hook s.opts c.2
  policy : s.policy = (Doc.verdict c.1.policy).toList
  terminal : c.1.policy = .accept ∨ c.1.policy = .drop ∨ c.1.policy = .next
  sets : ∃ decl inl, c.1.sets = decl ++ inl ∧ Each (fun d x => SetSays env (some (String.ofList d.name)) d.key d.payload x) s.sets decl ∧
    (∀ d ∈ s.sets, d.op = some (Doc.op .in_).toList) ∧ Each (fun d x => SetSays env none d.1 d.2 x) (inlineSets s.rules) inl
  rules : Each (RuleSays env rate c.1.sets) s.rules c.1.rules
  index : ∀ (i : Nat) (r : Rule), c.1.rules[i]? = some r → r.index = i

end Bf.Spec
