import Verif.Pack.Handle
import Verif.Props.C28_Pack
/-!
# C28: the context of a chain, hook options and counters

What bpfilter writes beside a chain: the handle of its program, the options it is attached with, its counters.
-/
namespace Bf

variable {name : String} {hook : Hook} {policy : Verdict} {sets : List BSet} {rules : List Rule} {c : Chain}

/-- **C28**: the context file of a chain is read back as the same chain and the same handle. -/
theorem C28_cgen {h : HandleD} (hn : chainNew name hook policy sets rules = .ok c) (hc : Packable c) (hh : HandleOk h) :
    cgenOfBytes (cgenBytes c h) = .ok (c, h) := by
  rw [cgen_bytes_round hc hh, chainCopy_new hn]
  rfl

/-- **C28**: different contexts are written differently. -/
theorem C28_cgen_distinct {name' : String} {hook' : Hook} {policy' : Verdict} {sets' : List BSet} {rules' : List Rule} {c' : Chain} {h h' : HandleD}
    (hn : chainNew name hook policy sets rules = .ok c) (hc : Packable c) (hh : HandleOk h)
    (hn' : chainNew name' hook' policy' sets' rules' = .ok c') (hc' : Packable c') (hh' : HandleOk h') (e : cgenBytes c h = cgenBytes c' h') :
    c = c' ∧ h = h' := by
  have h1 := C28_cgen hn hc hh
  rw [e, C28_cgen hn' hc' hh'] at h1
  cases h1
  exact ⟨rfl, rfl⟩

/-- **C28**: hook options. -/
theorem C28_hookopts {o : HookOpts} (h : OptsOk o) : hookoptsUnpack (hookoptsNode o) = .ok o := hookopts_round h

/-- **C28**: counters. -/
theorem C28_counter (x : BitVec 64 × BitVec 64) : counterUnpack (counterNode x) = .ok x := counter_round x

namespace Sample

/-- Options with a negative priority. -/
def hopts : HookOpts := ⟨false, true, true, true, 0, some "/sys/fs/cgroup/a", 2, -101, 102⟩

theorem hopts_ok : OptsOk hopts where
  ifindex := by decide
  cgpath := ⟨"/sys/fs/cgroup/a", rfl, by decide, by decide⟩
  family := by decide
  priorities := by decide

def hnd : HandleD := ⟨"bf_prog", some ⟨"bf_link", .nfLocalIn, hopts⟩, some ⟨"bf_cmap", .counters, 6, 4, 16, 5⟩, none, none, none,
  [some ⟨"bf_set_0", .set, 1, 4, 1, 2⟩, none]⟩

theorem hnd_ok : HandleOk hnd where
  name := ⟨by decide, by decide⟩
  link := by rintro l ⟨⟩; exact ⟨⟨by decide, by decide⟩, hopts_ok⟩
  cmap := by rintro m ⟨⟩; exact ⟨⟨⟨by decide, by decide⟩, by decide⟩, by decide, by decide⟩
  pmap := by rintro m ⟨⟩
  lmap := by rintro m ⟨⟩
  smap := by rintro m ⟨⟩
  sets := by
    intro m hm
    simp only [hnd, List.mem_cons, List.not_mem_nil, or_false, Option.some.injEq, reduceCtorEq] at hm
    subst hm
    exact ⟨⟨⟨by decide, by decide⟩, by decide⟩, by decide, by decide⟩
  len := by decide

/-- The hypotheses are met. -/
example : cgenOfBytes (cgenBytes chain hnd) = .ok (chain, hnd) := C28_cgen chain_new packable hnd_ok

end Sample
end Bf
