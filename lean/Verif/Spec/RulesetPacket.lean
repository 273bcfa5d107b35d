import Verif.Spec.Ruleset
import Verif.Spec.TextPacket
/-!
# Specification: what the text of a chain decides for a packet

Texts are sentences (`Cli/Grammar.lean`: the words of a ruleset, as a tree), packets are bytes.  No chain object, no program.
-/
namespace Bf.Spec
open Bf.Cli

/-- One of the elements of the text of a set describes the packet: each of its pieces describes the field of the same position in the key. -/
def InElements (env : TextEnv) (i : Input) (key : List MType) (payload : List Char) : Prop :=
  ∃ t ∈ elemTexts payload, Each (fun p ty => Describes env i 0 ty .in_ (trim p)) (tokens (· = ',') t) key

/-- The first set declared with this name. -/
def FirstNamed (name : List Char) (sets : List SetS) (d : SetS) : Prop :=
  ∃ j : Nat, sets[j]? = some d ∧ d.name = name ∧ ∀ (k : Nat) (d' : SetS), k < j → sets[k]? = some d' → d'.name ≠ name

/-- The matcher selects the packet, whose mark is `mark`: the packet has what the matcher is about, and the text describes it, or does not if there
is a `not`. -/
def Selects (env : TextEnv) (i : Input) (mark : Nat) (sets : List SetS) : MatcherS → Prop
  | .plain t neg op p => ∃ ty o, t = (Doc.matcher ty).toList ∧ OpSays op o ∧ Concerns i ty ∧ (Describes env i mark ty o p ↔ neg = false)
  | .inline k neg _ p => ∃ key, KeyOf k key ∧ (∀ ty ∈ key, Concerns i ty) ∧ (InElements env i key p ↔ neg = false)
  | .named k neg _ n => ∃ key d, KeyOf k key ∧ FirstNamed n sets d ∧ (∀ ty ∈ key, Concerns i ty) ∧ (InElements env i key d.payload ↔ neg = false)

/-- All the matchers of a rule select the packet. -/
def Applies (env : TextEnv) (i : Input) (mark : Nat) (sets : List SetS) (r : RuleS) : Prop := ∀ m ∈ r.matchers, Selects env i mark sets m

/-- The mark of the packet after a rule that applies. -/
def NewMark (r : RuleS) (mark mark' : Nat) : Prop :=
  (∀ s, .mark s ∈ r.options → MarkSays s mark') ∧ ((∀ o ∈ r.options, isMark o = false) → mark' = mark)

def continues (r : RuleS) : Prop := r.verdict = .plain "CONTINUE".toList

/-- The verdict on what has the mark `mark`, `sel` being the matchers that select it: that of the first rule that applies, all its matchers selecting it, rules with CONTINUE
being only a chance to set the mark; that of the policy if there is none. -/
inductive RulesBy (sel : Nat → MatcherS → Prop) (policy : List Char) : Nat → List RuleS → VerdictS → Prop
  | policy {mark : Nat} : RulesBy sel policy mark [] (.plain policy)
  | skip {mark : Nat} {r : RuleS} {rs : List RuleS} {v : VerdictS} : ¬ (∀ m ∈ r.matchers, sel mark m) → RulesBy sel policy mark rs v →
      RulesBy sel policy mark (r :: rs) v
  | goOn {mark mark' : Nat} {r : RuleS} {rs : List RuleS} {v : VerdictS} : (∀ m ∈ r.matchers, sel mark m) → continues r → NewMark r mark mark' →
      RulesBy sel policy mark' rs v → RulesBy sel policy mark (r :: rs) v
  | rule {mark : Nat} {r : RuleS} {rs : List RuleS} : (∀ m ∈ r.matchers, sel mark m) → ¬ continues r → RulesBy sel policy mark (r :: rs) r.verdict

/-- The verdict on a packet whose mark is `mark`. -/
abbrev Rules (env : TextEnv) (i : Input) (sets : List SetS) : List Char → Nat → List RuleS → VerdictS → Prop := RulesBy fun mark m => Selects env i mark sets m

/-! ## The texts that are read as they should (C46) and the packets that are matched as they should (C05, C22, C47) -/

/-- The text has no blank and no sign, and is short. -/
structure Fits (ty : MType) (op : MOp) (s : List Char) : Prop where
  ordinary : Ordinary s
  room : ∀ k, room ty op = some k → s.length ≤ k
  suffix : ty.isNet = true → ∀ a b, s = a ++ '/' :: b → b.length ≤ 9

/-- The same of the elements of a set; a set with `not` has at least one. -/
structure SetFits (k : List Char) (neg : Bool) (p : List Char) : Prop where
  elems : ∀ key, KeyOf k key → ∀ t ∈ elemTexts p, Each (fun s ty => Fits ty .in_ (trim s)) (tokens (· = ',') t) key
  some : neg = true → elemTexts p ≠ []

def InScope (i : Input) (sets : List SetS) : MatcherS → Prop
  | .plain t _ op p => ∀ ty o, t = (Doc.matcher ty).toList → OpSays op o →
      Fits ty o p ∧ ty ∉ [MType.ip6Nexthdr, .metaProbability, .metaFlowProbability, .set] ∧ (ty = .metaIface → i.ifindex < 65536) ∧
        (ty = .metaSport ∨ ty = .metaDport → ¬ PortIs i ty 0)
  | .inline k neg _ p => SetFits k neg p
  | .named k neg _ n => ∀ d, FirstNamed n sets d → SetFits k neg d.payload

end Bf.Spec
