import Verif.Spec.Match
/-!
# Specification: what a chain does to a packet

The observable state is `World` (counters, mark, log entries, rate-limit timestamps, redirection, and
how many random numbers, clock reads and ring buffer reservations were consumed).
-/
namespace Bf.Spec

/-- Kernel services a chain uses: random numbers, clock, ring buffer space, redirection. -/
structure Kernel where
  rng : Nat → BitVec 32
  clk : Nat → BitVec 64
  ringOk : Nat → Bool
  redirectRet : BitVec 32 → BitVec 64 → BitVec 64

/-- What a chain sees of what goes through it (a packet, or a socket operation): everything that stays
the same while the rules are evaluated. -/
structure Sem where
  flavor : Flavor
  /-- number of bytes accounted -/
  size : BitVec 64
  kernel : Kernel
  sets : List BSet
  /-- whether the protocol a matcher type is about is there -/
  protoOk : MType → Bool
  /-- whether a matcher holds, given the mark and the random number drawn if it needs one -/
  holds : Matcher → BitVec 32 → BitVec 32 → Bool
  /-- the entry logged for a rule at a time -/
  entry : Rule → BitVec 64 → LogRec

/-- What the kernel must be told for a verdict, per kind of program: `XDP_PASS`/`XDP_DROP`,
`TCX_PASS`/`TCX_DROP`/`TCX_NEXT`, `NF_ACCEPT`/`NF_DROP`, 1/0 for cgroups. -/
def retCode : Flavor → Verdict → Option Int
  | .xdp, .accept => some 2 | .xdp, .next => some 2 | .xdp, .drop => some 1
  | .tc, .accept => some 0 | .tc, .next => some (-1) | .tc, .drop => some 2
  | .nf, .accept => some 1 | .nf, .next => some 1 | .nf, .drop => some 0
  | .cgroupSkb, .accept => some 1 | .cgroupSkb, .next => some 1 | .cgroupSkb, .drop => some 0
  | .sockAddr, .accept => some 1 | .sockAddr, .next => some 1 | .sockAddr, .drop => some 0
  | _, _ => none

/-- Account the packet in a counter. -/
def count (size : BitVec 64) (idx : Nat) (w : World) : World :=
  { w with counters := fun j =>
      if j = idx then ((w.counters idx).1 + 1, (w.counters idx).2 + size) else w.counters j }

/-- Evaluate the matchers of a rule from left to right, stopping at the first that does not hold. -/
def matchAll (c : Sem) : List Matcher → World → Bool × World
  | [], w => (true, w)
  | m :: ms, w =>
    let h := c.holds m w.mark (c.kernel.rng w.rng)
    let w' := if m.type = .metaProbability then { w with rng := w.rng + 1 } else w
    if h then matchAll c ms w' else (false, w')

/-- Publish a log entry for a rule, if the ring buffer has room. -/
def publish (c : Sem) (r : Rule) (w : World) : World :=
  let w1 := { w with ring := w.ring + 1 }
  if c.kernel.ringOk w.ring then
    { w1 with clk := w.clk + 1, logs := w.logs ++ [c.entry r (c.kernel.clk w.clk)] }
  else w1

/-- Log action of a rule: a rate-limited rule only logs if enough time has passed since its last
entry. -/
def logAction (c : Sem) (r : Rule) (w : World) : World :=
  if r.log = 0 then w
  else if r.rate = 0 then publish c r w
  else
    let now := c.kernel.clk w.clk
    let w1 := { w with clk := w.clk + 1 }
    if (now - w.state r.index).toNat < r.rate.toNat then w1
    else publish c r { w1 with state := fun i => if i = r.index then now else w.state i }

/-- Outcome of a rule. -/
inductive Step
  /-- go on with the next rule -/
  | cont (w : World)
  /-- leave the chain with this return value -/
  | stop (ret : BitVec 64) (w : World)

/-- Actions of a rule that matched, except its verdict: mark, log, counter. -/
def actions (c : Sem) (r : Rule) (w : World) : World :=
  let w1 := if r.mark >>> 32 ≠ 0 then { w with mark := r.mark.setWidth 32 } else w
  let w2 := logAction c r w1
  if r.hasCounters then count c.size r.index w2 else w2

/-- Verdict of a rule that matched. -/
def verdictStep (c : Sem) (r : Rule) (w : World) : Step :=
  match r.verdict with
  | .continue_ => .cont w
  | .redirect =>
    let flags : BitVec 64 := if r.redirDir = .ingress then 1 else 0
    .stop (c.kernel.redirectRet r.redirIfindex flags)
      { w with redirect := some (r.redirIfindex, flags) }
  | v => .stop (BitVec.ofInt 64 ((retCode c.flavor v).getD 0)) w

/-- A rule. -/
def evalRule (c : Sem) (r : Rule) (w : World) : Step :=
  if r.disabled then .cont w
  else if applies c.protoOk c.sets r.matchers then
    let mw := matchAll c r.matchers w
    if mw.1 then verdictStep c r (actions c r mw.2) else .cont mw.2
  else .cont w

/-- The rules, in order. -/
def evalRules (c : Sem) : List Rule → World → Step
  | [], w => .cont w
  | r :: rs, w =>
    match evalRule c r w with
    | .cont w' => evalRules c rs w'
    | s => s

/-- A packet that was understood goes through the rules, then the policy applies. -/
def evalView (c : Sem) (policy : Verdict) (rules : List Rule) (w : World) : BitVec 64 × World :=
  match evalRules c rules w with
  | .stop ret w' => (ret, w')
  | .cont w' => (BitVec.ofInt 64 ((retCode c.flavor policy).getD 0), count c.size rules.length w')

/-- A packet that could not be understood is accepted and accounted as an error. -/
def evalError (flavor : Flavor) (size : BitVec 64) (nRules : Nat) (w : World) : BitVec 64 × World :=
  (BitVec.ofInt 64 ((retCode flavor .accept).getD 0), count size (nRules + 1) w)

/-! ### Packets -/

/-- Headers captured for the log: link, network, transport. -/
structure Capture where
  l2 : Option (List Byte)
  l3 : Option (List Byte)
  l4 : Option (List Byte)

/-- The entry logged for a packet: the headers the rule asks for, those that could be captured. -/
def pktEntry (i : Input) (v : View) (cap : Capture) (r : Rule) (now : BitVec 64) : LogRec :=
  let l2 := if r.log.getLsbD 0 then cap.l2 else none
  let l3 := if r.log.getLsbD 1 then cap.l3 else none
  let l4 := if r.log.getLsbD 2 then cap.l4 else none
  { ts := now, ruleId := BitVec.ofNat 32 r.index
    verdict := BitVec.ofNat 32 r.verdict.code
    l3Proto := BitVec.ofNat 16 v.l3Num, l4Proto := BitVec.ofNat 8 v.l4Num
    isPkt := true, pktSize := i.size, reqHeaders := r.log &&& 0xF
    headers := (if l2.isSome then 1 else 0) ||| (if l3.isSome then 2 else 0) |||
      (if l4.isSome then 4 else 0)
    l2 := l2.getD [], l3 := l3.getD [], l4 := l4.getD [] }

/-- What a chain sees of a packet. -/
def pktSem (flavor : Flavor) (i : Input) (v : View) (k : Kernel) (sets : List BSet) (thr : Nat → BitVec 32)
    (cap : Capture) : Sem where
  flavor := flavor
  size := i.size
  kernel := k
  sets := sets
  protoOk := protoOk v
  holds := fun m mark rnd => holds i v mark rnd sets thr m
  entry := pktEntry i v cap

end Bf.Spec
