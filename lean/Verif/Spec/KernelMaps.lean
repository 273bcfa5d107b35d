import Verif.Cgen.World
import Verif.Gen.Sets
/-!
# Specification: what a program finds in the maps of the kernel

The model of a BPF program (`Env`) has maps that are given.  Here they are those of the kernel: a program names a map by its descriptor, and what it finds there is what
`bpf(2)` calls have made of that map.
-/
namespace Bf.Spec
open Pin (K Call Ans)

/-- What a map was made as, from the calls that were made. -/
def madeAs (o : Nat) : List (Call × Ans) → Option MapD
  | [] => none
  | (.mapCreate d, .id o') :: h => if o' = o then some d else madeAs o h
  | _ :: h => madeAs o h

/-- What is in a map with keys. -/
def entriesOf (w : K) (o : Nat) : List (List Byte × List Byte) :=
  match w.objs[o]? with
  | some (.map (.keyed _ l)) => l
  | _ => []

/-- What the kernel finds in a map: `BPF_MAP_TYPE_LPM_TRIE` (11) or `BPF_MAP_TYPE_HASH` (1). -/
def kernelLookup (w : K) (o : Nat) (k : List Byte) : Option (List Byte) :=
  match madeAs o w.hist with
  | none => none
  | some d => if d.bpfType = 11 then lpmLookup (entriesOf w o) k else if d.bpfType = 1 then hashLookup (entriesOf w o) k else none

/-- Numbers of the description of a map, if it exists. -/
def kernelSize (w : K) (o : Nat) (f : MapD → Nat) : Option Nat := if o < w.objs.length then (madeAs o w.hist).map f else none

/-- The maps of a program, by what their descriptors name: the counters; the ring buffer of the log, and the state of the rate limits, which name nothing
if there are none; those of the groups of sets. -/
structure Maps where
  counters : Nat
  log : Nat
  state : Nat
  sets : List Nat

def Maps.all (M : Maps) : List Nat := M.counters :: M.log :: M.state :: M.sets

/-- The map a descriptor names. -/
def Maps.named (M : Maps) (fd : BitVec 32) : Option MapRef :=
  if fd.toNat = M.counters then some .counters
  else if fd.toNat = M.log then some .log
  else if fd.toNat = M.state then some .state
  else (M.sets.findIdx? fun o => decide (o = fd.toNat)).map .set

/-- The descriptors, as the loader puts them in instructions. -/
def Maps.fds (M : Maps) : MapFds :=
  ⟨BitVec.ofNat 32 M.counters, BitVec.ofNat 32 M.log, BitVec.ofNat 32 M.state, fun g => BitVec.ofNat 32 (M.sets[g]?.getD 0)⟩

/-- A program that has these maps runs: `base` is what is not maps, such as the packet.  (The model of instructions gives a size to the state of the rate limits even if there is none:
there are two more counters than rules.) -/
def onKernel (w : K) (M : Maps) (base : Env) : Env :=
  { base with
    nCounters := (kernelSize w M.counters (·.nElems)).getD 0
    nState := (kernelSize w M.state (·.valueSize / 8)).getD ((kernelSize w M.counters (·.nElems)).getD 0 - 2)
    setKeySize := fun g => match M.sets[g]? with
      | some o => (kernelSize w o (·.keySize)).getD 0
      | none => 0
    setLookup := fun g k => match M.sets[g]? with
      | some o => kernelLookup w o k
      | none => none
    fds := M.named }

/-- Program `img` of chain `c` has maps `M` in `w`: the descriptors in its instructions are theirs, they are distinct, and they are what the chain needs, with the elements of its sets:
a `BPF_MAP_TYPE_PERCPU_ARRAY` (6) of two numbers of 64 bits, a `BPF_MAP_TYPE_RINGBUF` (27), a `BPF_MAP_TYPE_ARRAY` (2) of one value of 64 bits for each rule, and maps with keys. -/
structure HasMaps (w : K) (thr : Nat → BitVec 32) (slen : Stub → Nat) (c : Chain) (img : List Insn) (M : Maps) : Prop where
  image : compile c thr slen M.fds = .ok img
  distinct : M.all.Nodup
  fit : ∀ o ∈ M.all, o < 4294967296
  counters : M.counters < w.objs.length ∧ ∃ d, madeAs M.counters w.hist = some d ∧ d.type = .counters ∧ d.nElems = c.rules.length + 2 ∧
    d.bpfType = 6 ∧ d.keySize = 4 ∧ d.valueSize = 16
  log : c.flagLog = true → ∃ d, madeAs M.log w.hist = some d ∧ d.type = .log ∧ d.bpfType = 27
  noLog : c.flagLog = false → w.objs.length ≤ M.log
  state : c.flagRate = true ∧ c.rules ≠ [] → M.state < w.objs.length ∧ ∃ d, madeAs M.state w.hist = some d ∧ d.type = .state ∧ d.valueSize = 8 * c.rules.length ∧
    d.bpfType = 2 ∧ d.keySize = 4 ∧ d.nElems = 1
  noState : ¬ (c.flagRate = true ∧ c.rules ≠ []) → w.objs.length ≤ M.state
  groups : M.sets.length = (buildGroups c.sets).length
  sets : ∀ (g o : Nat) (grp : List Nat), M.sets[g]? = some o → (buildGroups c.sets)[g]? = some grp →
    o < w.objs.length ∧ entriesOf w o = groupEntries c.sets grp ∧
    ∃ d h, madeAs o w.hist = some d ∧ groupHead c.sets grp = some h ∧ d.bpfType = (if h.useTrie then 11 else 1) ∧ d.keySize = h.elemSize ∧
      (∀ e ∈ entriesOf w o, e.2.length = d.valueSize) ∧ (entriesOf w o).length = d.nElems

end Bf.Spec
