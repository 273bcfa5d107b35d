import Verif.Cli.Grammar
import Verif.User.SetRaw
import Verif.User.HookOpts
/-!
# The chains of a ruleset

The actions of `/repo/src/bfcli/parser.y`, and `/repo/src/bfcli/{helper,chain}.c`.  `none` is a run that does not end (see `User/SetRaw.lean`).  Every failed
action is `YYABORT`: the parser returns 1, which `bfc_parse_str` turns into `-EINVAL`.  Simplification: the text is read to its end before the first
action; the code does both at once, so that a text whose actions do not end is not refused for an error of syntax after them.
Failures of `malloc` are not modelled.
-/
namespace Bf.Cli

abbrev Run (α : Type) := Option (Res α)

def Run.bind {α β : Type} (x : Run α) (f : α → Run β) : Run β :=
  match x with
  | none => none
  | some (.ok a) => f a
  | some (.err e) => some (.err e)
  | some .ub => some .ub

/-- A call whose failure is `bf_parse_err`. -/
def orAbort {α : Type} : Res α → Run α
  | .ok a => some (.ok a)
  | .err _ => some (.err .EINVAL)
  | .ub => some .ub

def orAbort? {α : Type} : Option α → Run α
  | some a => some (.ok a)
  | none => some (.err .EINVAL)

/-- The same, of a call that may not end. -/
def andAbort {α : Type} : Run α → Run α
  | none => none
  | some r => orAbort r

/-- What the parser asks the system: interfaces and percentages, the duration of `every` (`_parse_log_rate`, parser.y:75-102: floating point, not
modelled further), the memory `malloc` returns (`mem k`: the `k`-th user of it), and the number of iterations of a loop. -/
structure PEnv where
  text : TextEnv
  rate : List Char → Option Nat
  mem : Nat → Nat → Nat → Byte
  fuel : Nat

/-- `ruleset->sets`, and how many times memory was used. -/
structure PState where
  sets : List BSet
  n : Nat

/-- parser.y:598-605 `matcher_op`. -/
def opOf : Option (List Char) → Run MOp
  | none => some (.ok .eq)
  | some w => orAbort (MOp.fromStr (String.ofList w))

/-- parser.y:542, 582: `bf_matcher_new(BF_MATCHER_SET, BF_MATCHER_IN, &set_id, sizeof(set_id), negate)`. -/
def setMatcher (id : Nat) (neg : Bool) : Matcher := ⟨.set, .in_, leBytes 4 id, neg⟩

/-- parser.y:565-574: the index of the first set with the name. -/
def findSet (name : List Char) : List BSet → Nat → Option (Nat × BSet)
  | [], _ => none
  | s :: ss, i => if s.name = some (String.ofList name) then some (i, s) else findSet name ss (i + 1)

/-- parser.y:507-588 `matcher`. -/
def matcherAct (e : PEnv) (st : PState) : MatcherS → Run (Matcher × PState)
  | .plain t neg op p =>
    (orAbort (MType.fromStr (String.ofList t))).bind fun ty =>
    (opOf op).bind fun o =>
    (orAbort (matcherNewFromRaw e.text ty o (block (e.mem st.n 0) (ty.refSize o)) p neg)).bind fun m =>
    some (.ok (m, { st with n := st.n + 1 }))
  | .inline k neg op p =>
    (opOf op).bind fun o =>
    if o ≠ .in_ then some (.err .EINVAL) else
    (andAbort (setNewFromRaw e.text (e.mem st.n) e.fuel none k p)).bind fun set =>
    some (.ok (setMatcher st.sets.length neg, ⟨st.sets ++ [set], st.n + 1⟩))
  | .named k neg op name =>
    (opOf op).bind fun o =>
    if o ≠ .in_ then some (.err .EINVAL) else
    (andAbort (setNewFromRaw e.text (e.mem st.n) e.fuel none k "{}".toList)).bind fun test =>
    (orAbort? (findSet name st.sets 0)).bind fun found =>
    if found.2.key ≠ test.key then some (.err .EINVAL) else
    some (.ok (setMatcher found.1 neg, { st with n := st.n + 1 }))

/-- parser.y:485-506 `matchers`. -/
def matchersAct (e : PEnv) : PState → List MatcherS → Run (List Matcher × PState)
  | st, [] => some (.ok ([], st))
  | st, m :: ms =>
    (matcherAct e st m).bind fun a =>
    (matchersAct e a.2 ms).bind fun b => some (.ok (a.1 :: b.1, b.2))

/-- `struct bf_rule_options`: a field is `none` when its flag is not set. -/
structure Opts where
  log : Option (BitVec 8)
  rate : Option Nat
  counter : Bool
  mark : Option Nat
  deriving DecidableEq, Repr

/-- parser.y:463-483 `log_headers`: `BF_FLAG(header)` of every header. -/
def headsAct : BitVec 8 → List (List Char) → Run (BitVec 8)
  | v, [] => some (.ok v)
  | v, h :: hs => (orAbort (logOptFromStr (String.ofList h))).bind fun n => headsAct (v ||| (1#8 <<< n)) hs

/-- parser.y:362-391: the headers of a `log`. -/
def logAct (hs : List (List Char)) : Run (BitVec 8) := if hs = [] then some (.ok logOptDefault) else headsAct 0 hs

/-- parser.y:419-430 `log_rate`; `old` is the one of the options before. -/
def rateAct (e : PEnv) (old : Option Nat) : Option (List Char) → Run (Option Nat)
  | none => some (.ok old)
  | some r => (orAbort? (e.rate r)).bind fun ns => some (.ok (some ns))

/-- parser.y:362-417 `rule_option`, and 432-461 `rule_options`: one more. -/
def optionAct (e : PEnv) (o : Opts) : OptionS → Run Opts
  | .log hs r =>
    (logAct hs).bind fun l =>
    (rateAct e o.rate r).bind fun rate =>
    if o.log.isSome then some (.err .EINVAL) else
    some (.ok { o with log := some l, rate := rate })
  | .counter => if o.counter then some (.err .EINVAL) else some (.ok { o with counter := true })
  | .mark v =>
    (orAbort? (parseMark v)).bind fun m =>
    if o.mark.isSome then some (.err .EINVAL) else some (.ok { o with mark := some m })

def optionsAct (e : PEnv) : Opts → List OptionS → Run Opts
  | o, [] => some (.ok o)
  | o, x :: xs => (optionAct e o x).bind fun o' => optionsAct e o' xs

/-- parser.y:229-258 `rule_verdict`. -/
def verdictAct (e : PEnv) : VerdictS → Run (Verdict × Nat × RedirDir)
  | .plain v => (orAbort (Verdict.fromStr (String.ofList v))).bind fun v => some (.ok (v, 0, .egress))
  | .redirect i d =>
    (orAbort? (parseIface e.text i)).bind fun n =>
    (orAbort (RedirDir.fromStr (String.ofList d))).bind fun d => some (.ok (.redirect, n, d))

/-- rule.h:162-167 `bf_rule_mark_set`. -/
def markField : Option Nat → BitVec 64
  | none => 0
  | some m => 0xFFFFFFFF00000000#64 ||| BitVec.ofNat 64 m

/-- parser.y:330-360 `rule`: `bf_rule_new` (rule.c:51-66) fills the rule with zeros. -/
def ruleAct (e : PEnv) (st : PState) (r : RuleS) : Run (Rule × PState) :=
  (matchersAct e st r.matchers).bind fun ms =>
  (optionsAct e ⟨none, none, false, none⟩ r.options).bind fun o =>
  (verdictAct e r.verdict).bind fun v =>
  some (.ok (
    { index := 0
      matchers := ms.1
      log := o.log.getD 0
      rate := BitVec.ofNat 64 (o.rate.getD 0)
      mark := markField o.mark
      hasCounters := o.counter
      disabled := false
      verdict := v.1
      redirIfindex := if v.1 = .redirect then BitVec.ofNat 32 v.2.1 else 0
      redirDir := if v.1 = .redirect then v.2.2 else .ingress }, ms.2))

/-- parser.y:315-329 `rules`. -/
def rulesAct (e : PEnv) : PState → List RuleS → Run (List Rule × PState)
  | st, [] => some (.ok ([], st))
  | st, r :: rs =>
    (ruleAct e st r).bind fun a =>
    (rulesAct e a.2 rs).bind fun b => some (.ok (a.1 :: b.1, b.2))

/-- parser.y:292-313 `set`. -/
def setAct (e : PEnv) (st : PState) (s : SetS) : Run PState :=
  (opOf s.op).bind fun o =>
  if o ≠ .in_ then some (.err .EINVAL) else
  (andAbort (setNewFromRaw e.text (e.mem st.n) e.fuel (some (String.ofList s.name)) s.key s.payload)).bind fun set =>
  some (.ok ⟨st.sets ++ [set], st.n + 1⟩)

def setsAct (e : PEnv) : PState → List SetS → Run PState
  | st, [] => some (.ok st)
  | st, s :: ss => (setAct e st s).bind fun st' => setsAct e st' ss

/-- parser.y:268-287 `hookopts`: no option, no `struct bf_hookopts`. -/
def hookoptsAct : List (List Char) → Run (Option HookOpts)
  | [] => some (.ok none)
  | os => (orAbort (parseOpts .new os)).bind fun o => some (.ok (some o))

/-- parser.y:207-211. -/
def validateAct (hook : Hook) : Option HookOpts → Run Unit
  | none => some (.ok ())
  | some o => orAbort (validate o hook)

/-- parser.y:193-220 `chain`: the sets of the ruleset move to the chain (chain.c:275-276). -/
def chainAct (e : PEnv) (st : PState) (c : ChainS) : Run ((Chain × Option HookOpts) × PState) :=
  (orAbort (Hook.fromStr (String.ofList c.hook))).bind fun hook =>
  (hookoptsAct c.opts).bind fun o =>
  (orAbort (Verdict.fromStr (String.ofList c.policy))).bind fun policy =>
  (setsAct e st c.sets).bind fun st1 =>
  (rulesAct e st1 c.rules).bind fun rs =>
  if policy.validPolicy = false then some (.err .EINVAL) else
  (orAbort (chainNew (String.ofList c.name) hook policy rs.2.sets rs.1)).bind fun chain =>
  (validateAct chain.hook o).bind fun _ =>
  some (.ok ((chain, o), ⟨[], rs.2.n⟩))

/-- parser.y:189-191 `chains`. -/
def chainsAct (e : PEnv) : PState → List ChainS → Run (List (Chain × Option HookOpts))
  | _, [] => some (.ok [])
  | st, c :: cs =>
    (chainAct e st c).bind fun a =>
    (chainsAct e a.2 cs).bind fun b => some (.ok (a.1 :: b))

/-- helper.c:67-88 `bfc_parse_str` (and 38-65 `bfc_parse_file`, whose file is `text`): the chains and hook options of the ruleset. -/
def bfcParse (e : PEnv) (text : List Char) : Run (List (Chain × Option HookOpts)) :=
  match parse (lex text) with
  | none => some (.err .EINVAL)
  | some cs => chainsAct e ⟨[], 0⟩ cs

/-- bfcli/chain.c:34-82 `_bfc_get_chain_from_ruleset`. -/
def getChain (name : Option String) (rs : List (Chain × Option HookOpts)) : Res (Chain × Option HookOpts) :=
  if rs = [] then .err .ENOENT else
  match name with
  | none => match rs with
    | [r] => .ok r
    | _ => .err .E2BIG
  | some n => match rs.find? fun r => r.1.name = n with
    | some r => .ok r
    | none => .err .ENOENT

end Bf.Cli
