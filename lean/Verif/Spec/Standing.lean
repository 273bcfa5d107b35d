import Verif.Spec.AskedFor
import Verif.Spec.RulesetPacket
/-!
# Specification: the texts that stand

A sentence stands if a command has it in its text, or if an `update-set` changed the elements of one of its sets.
-/
namespace Bf.Spec
open Bf.Cli

/-- Both texts may be read as the same element. -/
def Matching (env : TextEnv) (key : List MType) (t t' : List Char) : Prop := ∃ e, ElemOf env key t e ∧ ElemOf env key t' e

/-- `p'` is the text of a set whose elements are those of `p`, and `adds`, but for `removes`: there is no other; those that are missing are in `removes`; those of `removes` are missing. -/
structure Revised (env : TextEnv) (key : List MType) (p : List Char) (adds removes : List (List Char)) (p' : List Char) : Prop where
  there : ∀ t ∈ elemTexts p', t ∈ elemTexts p ∨ t ∈ adds
  kept : ∀ t, t ∈ elemTexts p ∨ t ∈ adds → (∃ r ∈ removes, Matching env key t r) ∨ ∃ t' ∈ elemTexts p', Matching env key t t'
  gone : ∀ t ∈ elemTexts p', ∀ r ∈ removes, ∃ e e', ElemOf env key t e ∧ ElemOf env key r e' ∧ e ≠ e'

/-- The command is one that puts, loads or updates a chain, not dry, and `s` is the sentence of its text, or one of them, that it is about. -/
def Tells (i : Issued) (s : ChainS) : Prop :=
  given .dryRun i.a2 = [] ∧ ∃ t cs, Source i.H i.a2 t ∧ Writes t cs ∧
    (Commands i.a1 .ruleset .set ∧ s ∈ cs ∨ (Commands i.a1 .chain .set ∨ Commands i.a1 .chain .load ∨ Commands i.a1 .chain .update) ∧ Picks (named i.a2) cs s)

/-- The sentences that the commands of `A` make. -/
inductive Stands (A : Issued → Prop) : ChainS → Prop
  | told {i : Issued} {s : ChainS} : A i → Tells i s → Stands A s
  | revised {i : Issued} {s : ChainS} {k : Nat} {d : SetS} {key : List MType} {p : List Char} : A i → Stands A s → Commands i.a1 .chain .updateSet →
      named i.a2 = some (String.ofList s.name) → (given .setName i.a2).getLast? = some d.name → s.sets[k]? = some d →
      (∀ (j : Nat) (d' : SetS), j < k → s.sets[j]? = some d' → d'.name ≠ d.name) → KeyOf d.key key →
      Revised i.H.env.text key d.payload (given .add i.a2) (given .remove i.a2) p → Stands A { s with sets := s.sets.set k { d with payload := p } }

/-- Elements that a set may be written with. -/
structure PlainElem (t : List Char) : Prop where
  some : t ≠ []
  chars : ∀ c ∈ t, isElemSep c = false
  trimmed : trim t = t

end Bf.Spec
