import Verif.Spec.Ruleset
import Verif.Spec.Written
import Verif.Cli.Dump
/-!
# Specification: what is printed of a chain

`bfcli chain get` prints a ruleset with reports in it: a line for the counters of the policy and of errors, and the counters of a rule after
`counters`.  `edit` takes them off.
-/
namespace Bf.Spec
open Bf.Cli

/-- The lines of a text, each ended by a `\n`. -/
def lines (t : List Char) : List (List Char) := (pieces (· = '\n') t).dropLast

/-- `/^    counters policy /d; s/^        counters .*/        counter/` -/
def editLine (l : List Char) : List Char :=
  if "    counters policy ".toList <+: l then []
  else if "        counters ".toList <+: l then "        counter\n".toList
  else l ++ ['\n']

def edit (t : List Char) : List Char := (lines t).flatMap editLine

/-! ## The chains that can be shown -/

/-- The payload of a matcher that has a text in rulesets: flags are not empty, the name of the interface is a word, the IPv6 address is not one
whose end is written as an IPv4 address.  (Percentages: floating point.) -/
structure PayloadShown (env : TextEnv) (m : Matcher) : Prop where
  op : m.op ∈ ops m.type
  ok : PayloadOk m.type m.op m.payload
  pct : isPct m.type = false
  flags : m.type = .tcpFlags → leNat m.payload ≠ 0
  iface : m.type = .metaIface → ∀ n, env.indexToName (leNat m.payload) = some n → Made (fun c => Alnum c ∨ c = '-') n ∧ ¬ Reserved n
  ip6 : m.type = .ip6Saddr ∨ m.type = .ip6Daddr ∨ m.type = .ip6Snet ∨ m.type = .ip6Dnet → '.' ∉ printPayload env m.type m.op m.payload

/-- The set of a matcher, by its index. -/
def HasSet (sets : List BSet) (m : Matcher) (i : Nat) (s : BSet) : Prop := rd m.payload 0 4 = .ok i ∧ sets[i]? = some s

/-- A matcher on a set: a named set is the first of its name. -/
structure SetMatcherShown (sets : List BSet) (m : Matcher) : Prop where
  op : m.op = .in_
  set : ∃ i s, HasSet sets m i s ∧ ∀ n, s.name = some n → ∀ j s', j < i → sets[j]? = some s' → s'.name ≠ some n

def MatcherShown (env : TextEnv) (sets : List BSet) (m : Matcher) : Prop :=
  (m.type = .set → SetMatcherShown sets m) ∧ (m.type ≠ .set → PayloadShown env m)

/-- The components of an element of a set. -/
def ElemShown (key : List MType) (e : List Byte) : Prop :=
  ∃ comps : List (MType × List Byte), comps.map (·.1) = key ∧ e = (comps.map (·.2)).flatten ∧ ∀ c ∈ comps, PayloadOk c.1 .in_ c.2

structure SetShown (s : BSet) : Prop where
  key : s.key ≠ [] ∧ s.key.length ≤ 8 ∧ SetKey s.key
  nodup : s.elems.Nodup
  elems : ∀ e ∈ s.elems, ElemShown s.key e
  name : ∀ n, s.name = some n → NameText n.toList

/-- The interval between logs is read as it is printed (floating point), the index of an interface too. -/
structure RuleShown (env : TextEnv) (rate : List Char → Option Nat) (sets : List BSet) (r : Rule) : Prop where
  any : r.matchers ≠ []
  matchers : ∀ m ∈ r.matchers, MatcherShown env sets m
  log : r.log = 0xFF#8 ∨ r.log.toNat < 8
  rate : (r.log = 0 → r.rate = 0) ∧ (r.rate ≠ 0 → rate (rateWord r.rate.toNat) = some r.rate.toNat)
  redirect : r.verdict = .redirect → r.redirIfindex ≠ 0 ∧ env.nameToIndex (printNat 10 r.redirIfindex.toNat) = 0

/-- The set of a matcher, if it is one without a name. -/
def unnamed (sets : List BSet) (m : Matcher) : Option BSet :=
  if m.type = .set then
    match rd m.payload 0 4 with
    | .ok i => (sets[i]?).bind fun s => if s.name = none then some s else none
    | _ => none
  else none

/-- Hook options that are valid for the hook. -/
structure OptsShown (hook : Hook) (o : HookOpts) : Prop where
  valid : validate o hook = .ok ()
  ifindex : o.usedIfindex = true → 0 ≤ o.ifindex ∧ o.ifindex ≤ 2147483647
  cgpath : o.usedCgpath = true → ∃ p, o.cgpath = some p ∧ Made (fun c => WordChar c ∨ c = '-' ∨ c = '.' ∨ c = '/') p.toList
  priorities : o.usedPriorities = true → 0 < o.prio0 ∧ o.prio0 ≤ 2147483647 ∧ 0 < o.prio1 ∧ o.prio1 ≤ 2147483647 ∧ o.prio0 ≠ o.prio1

/-- A chain: its sets are the named ones, then those of its rules, in order. -/
structure ChainShown (env : TextEnv) (rate : List Char → Option Nat) (c : Chain) (o : Option HookOpts) : Prop where
  name : NameText c.name.toList
  opts : ∀ ho, o = some ho → OptsShown c.hook ho
  policy : c.policy = .accept ∨ c.policy = .drop ∨ c.policy = .next
  sets : ∀ s ∈ c.sets, SetShown s
  named : ∃ decl, c.sets = decl ++ (c.rules.flatMap (·.matchers)).filterMap (unnamed c.sets) ∧ ∀ s ∈ decl, s.name ≠ none
  rules : ∀ r ∈ c.rules, RuleShown env rate c.sets r
  index : ∀ (i : Nat) (r : Rule), c.rules[i]? = some r → r.index = i

/-! ## Chains that are alike -/

/-- Payloads with the same bytes, but for those no text gives (the second byte of `meta.l4_proto`, the padding of IPv6 networks). -/
def PayloadAlike (ty : MType) (op : MOp) (p q : List Byte) : Prop := p.length = q.length ∧ p.take (shown ty op) = q.take (shown ty op)

/-- Elements of a set, component by component. -/
def ElemAlike (key : List MType) (e f : List Byte) : Prop :=
  ∃ a b : List (MType × List Byte), a.map (·.1) = key ∧ e = (a.map (·.2)).flatten ∧ f = (b.map (·.2)).flatten ∧
    Each (fun x y => x.1 = y.1 ∧ x.2.length = x.1.refSize .in_ ∧ PayloadAlike x.1 .in_ x.2 y.2) a b

/-- Sets with the same name, key and elements, whatever their order. -/
structure SetAlike (x y : BSet) : Prop where
  name : x.name = y.name
  key : x.key = y.key
  left : ∀ e ∈ x.elems, ∃ f ∈ y.elems, ElemAlike x.key e f
  right : ∀ f ∈ y.elems, ∃ e ∈ x.elems, ElemAlike x.key e f

/-- Matchers of chains with sets `xs` and `ys`. -/
structure MatcherAlike (xs ys : List BSet) (m n : Matcher) : Prop where
  type : m.type = n.type
  op : m.op = n.op
  negate : m.negate = n.negate
  payload : m.type ≠ .set → PayloadAlike m.type m.op m.payload n.payload
  set : m.type = .set → ∃ i j x y, HasSet xs m i x ∧ HasSet ys n j y ∧ SetAlike x y

structure RuleAlike (xs ys : List BSet) (r q : Rule) : Prop where
  index : r.index = q.index
  matchers : Each (MatcherAlike xs ys) r.matchers q.matchers
  log : r.log = q.log ∧ r.rate = q.rate
  counters : r.hasCounters = q.hasCounters
  mark : r.markSet = q.markSet ∧ (r.markSet = true → r.markVal = q.markVal)
  verdict : r.verdict = q.verdict
  redirect : r.verdict = .redirect → r.redirIfindex = q.redirIfindex ∧ r.redirDir = q.redirDir

structure OptsAlike (a b : HookOpts) : Prop where
  used : ∀ t, t ≠ .family → a.isUsed t = b.isUsed t
  ifindex : a.usedIfindex = true → a.ifindex = b.ifindex
  cgpath : a.usedCgpath = true → a.cgpath = b.cgpath
  priorities : a.usedPriorities = true → a.prio0 = b.prio0 ∧ a.prio1 = b.prio1

/-- Chains with the same name, hook, options and policy, and the same rules in the same order. -/
structure ChainAlike (a b : Chain × Option HookOpts) : Prop where
  name : a.1.name = b.1.name
  hook : a.1.hook = b.1.hook
  policy : a.1.policy = b.1.policy
  opts : (a.2 = none ∧ b.2 = none) ∨ ∃ x y, a.2 = some x ∧ b.2 = some y ∧ OptsAlike x y
  sets : Each SetAlike a.1.sets b.1.sets
  rules : Each (RuleAlike a.1.sets b.1.sets) a.1.rules b.1.rules

end Bf.Spec
