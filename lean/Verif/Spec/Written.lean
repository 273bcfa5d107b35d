import Verif.Cli.Grammar
import Verif.Spec.Doc
/-!
# How a ruleset is written

The texts of `doc/usage/bfcli.rst` that stand for a sentence of `Cli/Grammar.lean`: its words in order, with blanks and comments between them.
-/
namespace Bf.Spec
open Bf.Cli

/-! ## Words and what is between them -/

def Blank (c : Char) : Prop := c = ' ' ∨ c = '\t' ∨ c = '\n'

/-- Blanks and comments, each comment on its line. -/
inductive Gap : List Char → Prop
  | nil : Gap []
  | blank {c : Char} {s : List Char} : Blank c → Gap s → Gap (c :: s)
  | comment {b s : List Char} : '\n' ∉ b → Gap s → Gap ('#' :: (b ++ '\n' :: s))

/-- Blanks, the beginning of a comment, punctuation. -/
def Separates (c : Char) : Prop := Blank c ∨ c = '#' ∨ c = '(' ∨ c = ')' ∨ c = '{' ∨ c = '}' ∨ c = ','

/-- Two words touch only if there is punctuation where they do. -/
def Apart (w s : List Char) : Prop := s = [] ∨ ∃ c, Separates c ∧ (s.head? = some c ∨ w.getLast? = some c)

/-- The text is made of these words, in this order, apart from each other, and of blanks and comments.  The last comment may have no end. -/
inductive Laid : List (List Char) → List Char → Prop
  | nil {g : List Char} : Gap g → Laid [] g
  | last {g b : List Char} : Gap g → '\n' ∉ b → Laid [] (g ++ '#' :: b)
  | cons {g w s : List Char} {ws : List (List Char)} : Gap g → Apart w s → Laid ws s → Laid (w :: ws) (g ++ (w ++ s))

/-! ## The words -/

def Digit (c : Char) : Prop := '0' ≤ c ∧ c ≤ '9'
def Lower (c : Char) : Prop := 'a' ≤ c ∧ c ≤ 'z'
def Upper (c : Char) : Prop := 'A' ≤ c ∧ c ≤ 'Z'
def Letter (c : Char) : Prop := Lower c ∨ Upper c
def Alnum (c : Char) : Prop := Digit c ∨ Letter c
def WordChar (c : Char) : Prop := Alnum c ∨ c = '_'

/-- One character or more, all of the kind. -/
def Made (k : Char → Prop) (w : List Char) : Prop := w ≠ [] ∧ ∀ c ∈ w, k c

/-- The words that have a meaning of their own. -/
def Reserved (w : List Char) : Prop :=
  w ∈ (["chain", "rule", "set", "not", "counter", "log", "mark", "every"].map String.toList) ∨ (∃ v, w = (Doc.verdict v).toList) ∨
  (∃ d, w = (Doc.direction d).toList) ∨ (∃ o, w = (Doc.op o).toList) ∨ (∃ t, w = (Doc.matcher t).toList) ∨ "BF_HOOK_".toList <+: w

/-- A number is written with digits and letters (`80`, `0x50`). -/
def NumberText (w : List Char) : Prop := Made Alnum w
/-- `12` or `12.5`. -/
def DecimalText (w : List Char) : Prop := Made Digit w ∨ ∃ a b, w = a ++ '.' :: b ∧ Made Digit a ∧ Made Digit b

/-- The name of a chain, of a set, of a layer. -/
def NameText (w : List Char) : Prop := Made WordChar w ∧ ¬ Reserved w

/-- `a.b.c.d`. -/
def Quad (w : List Char) : Prop := ∃ a b c d, w = a ++ '.' :: (b ++ '.' :: (c ++ '.' :: d)) ∧ NumberText a ∧ NumberText b ∧ NumberText c ∧ NumberText d

/-- `syn,ack`. -/
inductive FlagList : List Char → Prop
  | one {w : List Char} : Made Letter w → FlagList w
  | more {w s : List Char} : Made Letter w → FlagList s → FlagList (w ++ ',' :: s)

/-- The payload of a matcher. -/
def PayloadText : MType → List Char → Prop
  | .metaIface, w | .metaL3Proto, w | .metaL4Proto, w | .ip4Proto, w | .ip6Nexthdr, w | .ip4Dscp, w | .ip6Dscp, w | .icmpType, w
  | .icmpv6Type, w => Made (fun c => Alnum c ∨ c = '-') w
  | .metaProbability, w | .metaFlowProbability, w => ∃ a, w = a ++ ['%'] ∧ DecimalText a
  | .metaMark, w | .icmpCode, w | .icmpv6Code, w => NumberText w
  | .metaFlowHash, w | .metaSport, w | .metaDport, w | .tcpSport, w | .tcpDport, w | .udpSport, w | .udpDport, w =>
    NumberText w ∨ ∃ a b, w = a ++ '-' :: b ∧ NumberText a ∧ NumberText b
  | .ip4Saddr, w | .ip4Daddr, w => Quad w
  | .ip4Snet, w | .ip4Dnet, w => ∃ a n, w = a ++ '/' :: n ∧ Quad a ∧ NumberText n
  | .ip6Saddr, w | .ip6Daddr, w => Made (fun c => Alnum c ∨ c = ':') w
  | .ip6Snet, w | .ip6Dnet, w => Made (fun c => Alnum c ∨ c = ':' ∨ c = '/') w
  | .tcpFlags, w => FlagList w
  | .set, _ => False

/-- The operators of a matcher. -/
def ops : MType → List MOp
  | .metaFlowHash | .metaSport | .metaDport | .tcpSport | .tcpDport | .udpSport | .udpDport => [.eq, .range]
  | .tcpFlags => [.eq, .any, .all]
  | .set => [.in_]
  | _ => [.eq]

/-- A component of the key of a set, with blanks around. -/
def Component (w : List Char) : Prop :=
  ∃ x a b y, w = x ++ (a ++ '.' :: (b ++ y)) ∧ (∀ c ∈ x, Blank c) ∧ (∀ c ∈ y, Blank c) ∧ Made WordChar a ∧ Made WordChar b

/-- `(ip4.saddr, tcp.dport)`. -/
def KeyText (w : List Char) : Prop :=
  ∃ (c : List Char) (cs : List (List Char)), w = '(' :: (c ++ (cs.flatMap (fun d => ',' :: d) ++ [')'])) ∧ Component c ∧ ∀ d ∈ cs, Component d

/-- `{…}`. -/
def ElementsText (w : List Char) : Prop := ∃ b, w = '{' :: (b ++ ['}']) ∧ '}' ∉ b ∧ '\x00' ∉ b

/-- `name=value`. -/
def OptionText (w : List Char) : Prop :=
  ∃ n v, w = n ++ '=' :: v ∧ Made WordChar n ∧ Made (fun c => WordChar c ∨ c = '-' ∨ c = '.' ∨ c = '/') v

/-! ## Sentences -/

def negWords (b : Bool) : List (List Char) := if b then ["not".toList] else []

/-- A matcher: the operator may be missing, but not that of a set. -/
def matcherWords : MatcherS → List (List Char)
  | .plain t n o p => t :: (negWords n ++ (o.toList ++ [p]))
  | .inline k n o p => k :: (negWords n ++ (o.toList ++ [p]))
  | .named k n o p => k :: (negWords n ++ (o.toList ++ [p]))

def MatcherText : MatcherS → Prop
  | .plain t _ o p => ∃ ty, t = (Doc.matcher ty).toList ∧ (∀ w, o = some w → ∃ x ∈ ops ty, w = (Doc.op x).toList) ∧ PayloadText ty p ∧ ¬ Reserved p
  | .inline k _ o p => KeyText k ∧ o = some "in".toList ∧ ElementsText p
  | .named k _ o n => KeyText k ∧ o = some "in".toList ∧ NameText n

def headWords : List (List Char) → List (List Char)
  | [] => []
  | [h] => [h]
  | h :: hs => h :: [','] :: headWords hs

def optionWords : OptionS → List (List Char)
  | .log hs r => "log".toList :: (headWords hs ++ (match r with | none => [] | some r => ["every".toList, r]))
  | .counter => ["counter".toList]
  | .mark v => ["mark".toList, v]

def OptionOk : OptionS → Prop
  | .log hs r => (∀ h ∈ hs, NameText h) ∧ ∀ w, r = some w → ∃ a u, w = a ++ u ∧ DecimalText a ∧ Made Lower u
  | .counter => True
  | .mark v => NumberText v ∧ ¬ Reserved v

def verdictWords : VerdictS → List (List Char)
  | .plain v => [v]
  | .redirect i d => ["REDIRECT".toList, i, d]

def VerdictText : VerdictS → Prop
  | .plain v => ∃ x, x ≠ .redirect ∧ v = (Doc.verdict x).toList
  | .redirect i d => Made (fun c => WordChar c ∨ c = '-') i ∧ ¬ Reserved i ∧ ∃ x, d = (Doc.direction x).toList

def ruleWords (r : RuleS) : List (List Char) := "rule".toList :: (r.matchers.flatMap matcherWords ++ (r.options.flatMap optionWords ++ verdictWords r.verdict))

structure RuleText (r : RuleS) : Prop where
  some : r.matchers ≠ []
  matchers : ∀ m ∈ r.matchers, MatcherText m
  options : ∀ o ∈ r.options, OptionOk o
  verdict : VerdictText r.verdict

def setWords (s : SetS) : List (List Char) := "set".toList :: s.name :: s.key :: (s.op.toList ++ [s.payload])

structure SetText (s : SetS) : Prop where
  name : NameText s.name
  key : KeyText s.key
  op : s.op = some "in".toList
  payload : ElementsText s.payload

/-- `{a=b,c=d}`, or nothing. -/
def optsWords : List (List Char) → List (List Char)
  | [] => []
  | os => ['{'] :: (headWords os ++ [['}']])

def chainWords (c : ChainS) : List (List Char) :=
  "chain".toList :: c.name :: c.hook :: (optsWords c.opts ++ (c.policy :: (c.sets.flatMap setWords ++ c.rules.flatMap ruleWords)))

structure ChainText (c : ChainS) : Prop where
  name : NameText c.name
  hook : ∃ h, c.hook = (Doc.hook h).toList
  opts : ∀ o ∈ c.opts, OptionText o
  policy : ∃ v, v ≠ .redirect ∧ c.policy = (Doc.verdict v).toList
  sets : ∀ s ∈ c.sets, SetText s
  rules : ∀ r ∈ c.rules, RuleText r

/-- The text is how the sentence is written. -/
def Writes (text : List Char) (cs : List ChainS) : Prop := cs ≠ [] ∧ (∀ c ∈ cs, ChainText c) ∧ Laid (cs.flatMap chainWords) text

end Bf.Spec
