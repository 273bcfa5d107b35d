import Verif.Spec.Issued
/-!
# Specification: what a history of commands asked for
-/
namespace Bf.Spec

open Pin (Point points)

/-- The rules of the chain are as `bf_chain_new` leaves them: numbered, and those that cannot match are marked as inert.  Its sets have the sizes that `bf_set_new` gives them, and
the matchers refer to them by indices of four bytes. -/
structure Checked (c : Chain) : Prop where
  new : chainNew c.name c.hook c.policy c.sets c.rules = .ok c
  sets : ∀ s ∈ c.sets, ∃ s0, setNew s.name s.key = .ok s0 ∧ s.elemSize = s0.elemSize ∧ s.useTrie = s0.useTrie
  refs : ∀ r ∈ c.rules, ∀ m ∈ r.matchers, m.type = .set → m.payload.length = 4

/-- The command is `ruleset set` or `chain set`, not dry, and `x`, a chain and its options, is what a sentence of its text says: any, or the one it picks. -/
def Puts (i : Issued) (x : Chain × Option HookOpts) : Prop :=
  given .dryRun i.a2 = [] ∧ Checked x.1 ∧ ∃ t cs s, Source i.H i.a2 t ∧ Writes t cs ∧ ChainSays i.H.env.text i.H.env.rate s x ∧
    (Commands i.a1 .ruleset .set ∧ s ∈ cs ∨ Commands i.a1 .chain .set ∧ Picks (named i.a2) cs s)

/-- The command is `chain load` or `chain update`, not dry, and `c` is the chain that the sentence it picks says. -/
def Loads (i : Issued) (c : Chain) : Prop :=
  given .dryRun i.a2 = [] ∧ Checked c ∧ ∃ t cs s o, Source i.H i.a2 t ∧ Writes t cs ∧ ChainSays i.H.env.text i.H.env.rate s (c, o) ∧
    (Commands i.a1 .chain .load ∨ Commands i.a1 .chain .update) ∧ Picks (named i.a2) cs s

/-- The command is `chain update-set`, about the chain `c`, and `new` is what it makes of it. -/
def Changes (i : Issued) (c new : Chain) : Prop :=
  Commands i.a1 .chain .updateSet ∧ named i.a2 = some c.name ∧
    ∃ sn, (given .setName i.a2).getLast? = some sn ∧ SetChanged i.H.env.text c (String.ofList sn) (given .add i.a2) (given .remove i.a2) new

/-- The commands of `A` asked for this chain: the text of one of them says it; or one of them changed a set of a chain they asked for; or it is a chain they asked for, whose rules
were checked again when it was read. -/
inductive AskedFor (A : Issued → Prop) : Chain → Prop
  | put {i : Issued} {x : Chain × Option HookOpts} : A i → Puts i x → AskedFor A x.1
  | load {i : Issued} {c : Chain} : A i → Loads i c → AskedFor A c
  | changed {i : Issued} {c new : Chain} : A i → AskedFor A c → Changes i c new → AskedFor A new
  | again {c c' : Chain} : AskedFor A c → chainNew c.name c.hook c.policy c.sets c.rules = .ok c' → AskedFor A c'

/-- The commands of `A` asked for the chain named `n` to be attached at this point: the options of the chain in the text of a `set` say so, or those of a `chain attach`. -/
inductive AskedAt (A : Issued → Prop) : String → Point → Prop
  | put {i : Issued} {c : Chain} {o : HookOpts} {pt : Point} : A i → Puts i (c, some o) → pt ∈ points c.hook o → AskedAt A c.name pt
  | attach {i : Issued} {c : Chain} {o : HookOpts} {pt : Point} : A i → Commands i.a1 .chain .attach → named i.a2 = some c.name → parseOpts .new (given .option i.a2) = .ok o →
      AskedFor A c → pt ∈ points c.hook o → AskedAt A c.name pt

/-- The texts are well written, options are C strings, and what is asked for is not of 4 GiB. -/
structure Sensible (A : Issued → Prop) : Prop where
  text : ∀ i, A i → Written i.H i.a2
  printed : ∀ i, A i → i.H.T.printed < 2 ^ 64
  options : ∀ i, A i → ∀ x ∈ given .option i.a2, x.length < 2 ^ 32 ∧ ∀ c ∈ x, 0 < c.toNat ∧ c.toNat < 256
  sets : ∀ c, AskedFor A c → ∀ s ∈ c.sets, s.elems.length < 2 ^ 32

/-- The same rule, but for its number and whether it is inert. -/
def Rule.Same (r r' : Rule) : Prop := { r with index := r'.index, disabled := r'.disabled } = r'

/-- The same chain, but for the elements of its sets, and which rules are inert. -/
structure SameButSets (c c' : Chain) : Prop where
  name : c'.name = c.name
  hook : c'.hook = c.hook
  policy : c'.policy = c.policy
  rules : c'.rules.length = c.rules.length ∧ ∀ (i : Nat) (r r' : Rule), c.rules[i]? = some r → c'.rules[i]? = some r' → Rule.Same r r'
  sets : c'.sets.length = c.sets.length ∧ ∀ (i : Nat) (s s' : BSet), c.sets[i]? = some s → c'.sets[i]? = some s' → s'.name = s.name ∧ s'.key = s.key

end Bf.Spec
