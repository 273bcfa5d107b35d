import Verif.Gen.Matchers
import Verif.Chain.Check
import Verif.Spec.Match
/-!
# Content of the set maps

`/repo/src/libbpfilter/cgen/program.c` `_bf_program_load_sets_maps`, and the kernel's hash and LPM
trie maps.
-/
namespace Bf

/-- Elements of a member of a group. -/
def memberElems (sets : List BSet) (i : Nat) : List (List Byte) :=
  match sets[i]? with
  | some s => s.elems
  | none => []

/-- program.c:1066-1076: `bf_hashset_add` of every element; an element already there is ignored. -/
def addUnique : List (List Byte) → List (List Byte) → List (List Byte)
  | acc, [] => acc
  | acc, e :: es => addUnique (if acc.contains e then acc else acc ++ [e]) es

/-- program.c:1063-1077: unique elements of the sets of a group. -/
def uniqueElems (sets : List BSet) : List Nat → List (List Byte) → List (List Byte)
  | [], acc => acc
  | i :: g, acc => uniqueElems sets g (addUnique acc (memberElems sets i))

/-- program.c:1094-1104: set the bit of each set of the group containing the element. -/
def orBits (sets : List BSet) (e : List Byte) : List Nat → Nat → List Byte → List Byte
  | [], _, v => v
  | i :: g, bit, v =>
    orBits sets e g (bit + 1)
      (if (memberElems sets i).contains e then
        v.modify (bit / 8) (· ||| BitVec.ofNat 8 (1 <<< (bit % 8))) else v)

/-- program.c:1040, 1084-1104: value of an element in the group's map. -/
def elemValue (sets : List BSet) (g : List Nat) (e : List Byte) : List Byte :=
  orBits sets e g 0 (List.replicate ((g.length + 7) / 8) 0)

/-- program.c:1026-1127: entries of the map of a group. -/
def groupEntries (sets : List BSet) (g : List Nat) : List (List Byte × List Byte) :=
  (uniqueElems sets g []).map fun e => (e, elemValue sets g e)

/-- Lookup in a kernel hash map. -/
def hashLookup (entries : List (List Byte × List Byte)) (k : List Byte) : Option (List Byte) :=
  (entries.find? fun e => decide (e.1 = k)).map (·.2)

/-- Whether an entry of an LPM trie matches a key: its prefix is not longer than the key's and is a
prefix of it. -/
def lpmMatch (k e : List Byte) : Bool :=
  decide (Spec.host e 0 4 ≤ Spec.host k 0 4) && Spec.samePrefix (Spec.host e 0 4) (k.drop 4) (e.drop 4)

/-- Keep the matching entry with the longest prefix. -/
def lpmStep (k : List Byte) (best : Option (List Byte × List Byte)) (e : List Byte × List Byte) :
    Option (List Byte × List Byte) :=
  if lpmMatch k e.1 then
    match best with
    | none => some e
    | some b => if Spec.host b.1 0 4 ≤ Spec.host e.1 0 4 then some e else some b
  else best

/-- Lookup in a kernel LPM trie: the matching entry with the longest prefix. -/
def lpmLookup (entries : List (List Byte × List Byte)) (k : List Byte) : Option (List Byte) :=
  (entries.foldl (lpmStep k) none).map (·.2)

/-- program.c:1033-1040, map.c:227-239: the first set of a group gives the map's type and key size. -/
def groupHead (sets : List BSet) (g : List Nat) : Option BSet := g.head?.bind fun i => sets[i]?

/-- The maps of the environment are those loaded for the chain. -/
def SetsLoaded (E : Env) (C : Cfg) : Prop :=
  ∀ g grp h, C.groups[g]? = some grp → groupHead C.chain.sets grp = some h →
    E.setKeySize g = h.elemSize ∧
    ∀ k, k.length = h.elemSize → E.setLookup g k =
      if h.useTrie then lpmLookup (groupEntries C.chain.sets grp) k
      else hashLookup (groupEntries C.chain.sets grp) k

/-- A set as the API builds it: created by `bf_set_new`, with elements of the right size; network
prefixes not longer than the address; a key that fits the program's scratch area. -/
structure SetWf (s : BSet) : Prop where
  new : ∃ s0, setNew s.name s.key = .ok s0 ∧ s.elemSize = s0.elemSize ∧ s.useTrie = s0.useTrie
  elems : ∀ e ∈ s.elems, e.length = s.elemSize
  trie : s.useTrie = true → ∀ t ∈ s.key, ∀ e ∈ s.elems, Spec.host e 0 4 ≤ 8 * t.meta_.size
  fits : s.elemSize ≤ 64

/-- The sets of a chain. -/
structure SetsWf (sets : List BSet) : Prop where
  each : ∀ s ∈ sets, SetWf s
  /-- the bit of a set is found through a 16-bit signed byte offset -/
  few : sets.length < 262144

end Bf
