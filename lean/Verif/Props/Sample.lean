import Verif.Props.Program
/-!
# A sample chain

Used to show that the hypotheses of the properties are met by a non-trivial chain: an XDP chain with a
set of addresses, and three rules.
-/
namespace Bf.Sample

/-- `ip4.saddr eq 10.0.0.1`, `tcp.dport eq 22` -/
def mSaddr : Matcher := ⟨.ip4Saddr, .eq, [10, 0, 0, 1], false⟩
def mDport : Matcher := ⟨.tcpDport, .eq, [0, 22], true⟩
/-- `(ip4.saddr) in set 0` -/
def mSet : Matcher := ⟨.set, .in_, [0, 0, 0, 0], false⟩

def set0 : BSet := ⟨some "bad", [.ip4Saddr], 4, false, [[192, 168, 0, 1], [192, 168, 0, 2]]⟩

def rule (ms : List Matcher) (v : Verdict) : Rule where
  index := 0
  matchers := ms
  log := 0
  rate := 0
  mark := 0
  hasCounters := true
  disabled := false
  verdict := v
  redirIfindex := 0
  redirDir := .ingress

def rules : List Rule := [{ rule [mSaddr] .continue_ with log := 2, rate := 1000 }, rule [mSet] .drop, rule [mSaddr, mDport] .drop]

/-- What `bf_chain_new` gives. -/
def chain : Chain where
  name := "sample"
  hook := .xdp
  policy := .accept
  sets := [set0]
  rules := [{ rule [mSaddr] .continue_ with log := 2, rate := 1000 }, { rule [mSet] .drop with index := 1 },
    { rule [mSaddr, mDport] .drop with index := 2 }]
  flagLog := true
  flagRate := true
  flagNexthdr := false

theorem chain_new : chainNew "sample" .xdp .accept [set0] rules = .ok chain := by decide

def thr : Nat → BitVec 32 := fun _ => 0
def slen : Stub → Nat := fun _ => 3

theorem compiles_of {chain : Chain} {thr : Nat → BitVec 32} {slen : Stub → Nat}
    (h : (match compile chain thr slen stdFds with | .ok _ => true | _ => false) = true) :
    ∃ img, compile chain thr slen stdFds = .ok img := by
  revert h
  cases compile chain thr slen stdFds with
  | ok img => intro _; exact ⟨img, rfl⟩
  | err e => intro h; cases h
  | ub => intro h; cases h

theorem compiles : ∃ img, compile chain thr slen stdFds = .ok img := compiles_of (by decide +kernel)

/-- A base environment: a TCP packet from 10.0.0.1 to port 80 over Ethernet. -/
def base : Env where
  flavor := .xdp
  pkt := List.replicate 12 0 ++ [8, 0] ++ [0x45, 0, 0, 40, 0, 0, 0, 0, 64, 6, 0, 0, 10, 0, 0, 1, 10, 0, 0, 2] ++
    [0, 99, 0, 80] ++ List.replicate 16 0
  dynptrOk := true
  copied := fun _ _ => false
  linLen := 54
  skbLen := 54
  ifindex := 3
  inIfindex := 3
  outIfindex := 4
  family := 2
  pf := 2
  hash := 0
  rng := fun n => BitVec.ofNat 32 n
  clk := fun n => BitVec.ofNat 64 (5000 + n)
  ringOk := fun _ => true
  nCounters := 0
  nState := 0
  setKeySize := fun _ => 0
  setLookup := fun _ _ => none
  sock := List.replicate 72 0
  kmem := fun _ n => List.replicate n 0
  fds := fun _ => none
  redirectRet := fun _ _ => 4
  stack0 := fun _ => 0

def w0 : World := ⟨fun _ => (0, 0), 0, 0, 0, 0, fun _ => 0, [], none⟩

theorem api : ApiChain chain := .new chain_new

instance (m : Matcher) : Decidable (MatcherWf m) := by unfold MatcherWf; infer_instance

theorem matchers : ∀ r ∈ chain.rules, ∀ m ∈ r.matchers, MatcherWf m := by
  decide

theorem sets : SetsWf chain.sets := by
  refine ⟨?_, by decide⟩
  intro s hs
  simp only [chain, List.mem_singleton] at hs
  subst hs
  exact ⟨⟨_, rfl, rfl, rfl⟩, by decide, by decide, by decide⟩

/-- The sample chain is loaded, in an environment with a packet. -/
theorem loaded : ∃ img, IsLoaded (envOf base chain) chain thr img := by
  obtain ⟨img, h⟩ := compiles
  exact ⟨img, .of_compile api matchers sets (by decide) (by decide) (by intro h; cases h) h⟩

end Bf.Sample
