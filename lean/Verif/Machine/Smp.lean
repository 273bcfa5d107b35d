import Verif.Machine.Sem
/-!
# Several processors

Programs run on several processors at the same time.  The log buffer, the rate-limit state map and the clock are shared
(the state map is a plain array map, cgen/program.c:983-997); counters are per processor (cgen/program.c:951-966,
`BPF_MAP_TYPE_PERCPU_ARRAY`); mark and redirection belong to the packet.  Instructions are atomic: a simplification in favour of
the code.
-/
namespace Bf

/-- One step of `run`: a new position and state, or the end. -/
def step1 (E : Env) (img : List Insn) (pc : Int) (s : St) : (Int × St) ⊕ Final :=
  if pc < 0 then .inr .err else
  match img[pc.toNat]? with
  | none => .inr .err
  | some i =>
    match effect E s i with
    | .seq s' => .inl (pc + 1, s')
    | .jump off s' => .inl (pc + 1 + off.toInt, s')
    | .map dst fd =>
      match E.fds fd with
      | some m => .inl (pc + 2, s.set dst (.map m))
      | none => .inr .err
    | .call imm =>
      if pc + 1 + imm.toInt < 0 then .inr .err else
      match img[(pc + 1 + imm.toInt).toNat]? with
      | some (.stub id) =>
        match stubSem E s id with
        | some s' => .inl (pc + 1, s')
        | none => .inr .err
      | _ => .inr .err
    | .exit v => .inr (.exit v s.w)
    | .err => .inr .err

/-- A processor alone does what `run` says. -/
theorem run_step1 (E : Env) (img : List Insn) (n : Nat) (pc : Int) (s : St) :
    run E img (n + 1) pc s = match step1 E img pc s with
      | .inl p => run E img n p.1 p.2
      | .inr f => f := by
  conv => lhs; unfold run
  unfold step1
  by_cases h0 : pc < 0
  · simp only [h0, if_true]
  simp only [h0, if_false]
  cases img[pc.toNat]? with
  | none => rfl
  | some i =>
    dsimp only
    cases effect E s i with
    | seq s' => rfl
    | jump off s' => rfl
    | map dst fd => dsimp only; cases E.fds fd <;> rfl
    | call imm =>
      dsimp only
      by_cases h1 : pc + 1 + imm.toInt < 0
      · simp only [h1, if_true]
      simp only [h1, if_false]
      cases img[(pc + 1 + imm.toInt).toNat]? with
      | none => rfl
      | some j => cases j <;> first | rfl | (dsimp only; split <;> simp_all)
    | exit v => rfl
    | err => rfl

/-- A processor. -/
inductive Cpu
  | running (pc : Int) (s : St)
  | done (r : BitVec 64)
  | failed

/-- Give a processor's view of the world the shared parts of `g`. -/
def World.share (g w : World) : World := { w with state := g.state, logs := g.logs, clk := g.clk, ring := g.ring }

/-- One step of a processor, with the shared world before and after. -/
def Cpu.step (E : Env) (img : List Insn) (g : World) : Cpu → Cpu × World
  | .running pc s =>
    match step1 E img pc { s with w := World.share g s.w } with
    | .inl p => (.running p.1 p.2, p.2.w)
    | .inr (.exit r w) => (.done r, w)
    | .inr .err => (.failed, g)
  | c => (c, g)

/-- Two processors running the same program for two packets, following a schedule. -/
def interleave (E1 E2 : Env) (img : List Insn) : List Bool → World → Cpu → Cpu → World × Cpu × Cpu
  | [], g, a, b => (g, a, b)
  | true :: sch, g, a, b => let p := a.step E1 img g; interleave E1 E2 img sch p.2 p.1 b
  | false :: sch, g, a, b => let p := b.step E2 img g; interleave E1 E2 img sch p.2 a p.1

end Bf
