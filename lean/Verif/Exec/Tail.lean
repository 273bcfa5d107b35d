import Verif.Exec.Main2
import Verif.Chain.Wf
import Verif.Spec.Sock
/-!
# Rules and policy, for any hook

Nothing here models code of the repository.
-/
namespace Bf

variable {E : Env} {gs : Groups} {C : Cfg} {K : Frame} {c : Spec.Sem}

/-- The kernel services of an environment. -/
def kernelOf (E : Env) : Spec.Kernel := ⟨E.rng, E.clk, E.ringOk, E.redirectRet⟩

/-- The specification of a matcher, in the shape of `MatchT`. -/
def semM (c : Spec.Sem) (m : Matcher) (w : World) : Bool × World :=
  (c.holds m w.mark (c.kernel.rng w.rng), if m.type = .metaProbability then { w with rng := w.rng + 1 } else w)

theorem allM_eq (ms : List Matcher) (w : World) : allM (semM c) ms w = Spec.matchAll c ms w := by
  induction ms generalizing w with
  | nil => rfl
  | cons m ms ih =>
    simp only [allM, Spec.matchAll, ih]
    rfl

/-- The specification is about this chain and this environment. -/
structure SemOf (E : Env) (C : Cfg) (c : Spec.Sem) : Prop where
  flavor : c.flavor = C.chain.hook.flavor
  sets : c.sets = C.chain.sets
  kernel : c.kernel = kernelOf E

theorem step_eq (hc : SemOf E C c) (r : Rule) (w : World) :
    stepG E C c.size c.protoOk (semM c) (Spec.logAction c r) r w = Spec.evalRule c r w := by
  unfold stepG Spec.evalRule
  split
  · rfl
  · simp only [allM_eq]
    unfold Spec.applies
    rw [hc.sets]
    split
    · unfold Spec.actions verdictG Spec.verdictStep Rule.markSet Rule.markVal
      simp only [decide_eq_true_eq, hc.flavor, hc.kernel]
      rfl
    · simp

theorem steps_eq (hc : SemOf E C c) (rs : List Rule) (w : World) :
    stepsG (fun r => stepG E C c.size c.protoOk (semM c) (Spec.logAction c r) r) rs w = Spec.evalRules c rs w := by
  induction rs generalizing w with
  | nil => rfl
  | cons r rs ih =>
    simp only [stepsG, Spec.evalRules, step_eq hc, ih]
    cases Spec.evalRule c r w <;> rfl

/-- The environment is that of the chain: its kind of program, its maps. -/
structure EnvOk (E : Env) (C : Cfg) : Prop where
  flavor : E.flavor = C.chain.hook.flavor
  counters : E.nCounters = C.chain.rules.length + 2
  state : E.nState = C.chain.rules.length
  sets : SetsLoaded E C
  /-- offsets in the rate-limit state fit 31 bits -/
  few : C.chain.rules.length < 268435456
  sock : C.chain.hook.flavor = .sockAddr → Spec.SockAbi E.sock

/-- The chain is one the compiler is specified for. -/
structure CfgOk (C : Cfg) : Prop where
  chain : ChainOk C.chain
  sets : SetsWf C.chain.sets
  matchers : ∀ r ∈ C.chain.rules, ∀ m ∈ r.matchers, MatcherWf m
  groups : C.groups = buildGroups C.chain.sets

theorem EnvOk.cnt (h : EnvOk E C) : CntOk E C := ⟨h.flavor, by rw [h.counters]; omega, by have := h.few; omega⟩

/-- What must be known to execute the rules. -/
structure SemFacts (E : Env) (C : Cfg) (K : Frame) (c : Spec.Sem) : Prop where
  of : SemOf E C c
  ctx : CtxFacts E C K c.size
  reg : ∀ t, regOk K t = c.protoOk t
  state : C.chain.flagRate = true → valOf (K.base.get (Bf.ctx oStateMap) 8) = some (.ptr .state 0)
  matcher : ∀ r ∈ C.chain.rules, r.disabled = false → ∀ m ∈ r.matchers,
    (∀ t ∈ Spec.typesOf C.chain.sets m, c.protoOk t = true) →
    GenT (inlineMatcher C m) (fun _ x => MatchT E C.groups K (semM c m) x)
  log : ∀ r ∈ C.chain.rules, r.disabled = false → r.log ≠ 0 →
    GenT (inlineLog C r) (fun _ x => ActT E C.groups K (Spec.publish c r) x)

/-- The rules. -/
theorem rules_ok (hE : EnvOk E C) (hC : CfgOk C) (hF : SemFacts E C K c) :
    GenN InRule (genRules C C.chain.rules) (fun _ x => RuleT E C.groups K (Spec.evalRules c C.chain.rules) x) := by
  have key := genRules_gen (E := E) (gs := C.groups) (K := K) (C := C)
    (fun r => stepG E C c.size c.protoOk (semM c) (Spec.logAction c r) r) C.chain.rules ?_
  · refine key.mono (fun _ h => h) fun _ x hx s hs => ?_
    have := hx s hs
    rw [steps_eq hF.of] at this
    exact this
  intro r hr
  have hrule := hC.chain.rule r hr
  obtain ⟨j, hj⟩ := List.getElem?_of_mem hr
  have hidx := hC.chain.index j r hj
  have hlt := (List.getElem?_eq_some_iff.mp hj).1
  refine genRule_gen hF.ctx _ _ r hF.reg hrule.compat ?_ ?_ ?_ ?_
  · intro hd hall m hm
    refine hF.matcher r hr hd m hm fun t ht => ?_
    have := List.all_eq_true.mp hall m hm
    exact List.all_eq_true.mp this t ht
  · intro hd
    have := ruleLog_gen (E := E) (gs := C.groups) (K := K) (C := C) r (Spec.publish c r) (hF.log r hr hd) ?_
      (by rw [hE.state]; omega) (by have := hE.few; omega)
    · refine this.mono fun _ x hx => ?_
      unfold Spec.logAction
      rw [hF.of.kernel]
      exact hx
    · intro h0 h1
      exact hF.state (hrule.rate hd h0 h1)
  · rw [hE.counters]; omega
  · have := hE.few; omega

/-- Rules and policy. -/
def tailG (C : Cfg) : Gen Unit := do
  let _ ← genRules C C.chain.rules
  let _ ← emitCounter C.chain.rules.length
  emitVerdict C.chain.hook.flavor C.chain.policy

theorem polG_fix (C : Cfg) {S : List Item → Prop} (h : GenT (do
    let _ ← emitCounter C.chain.rules.length
    emitVerdict C.chain.hook.flavor C.chain.policy) (fun _ x => S x)) : GenN (FixOk C) (do
    let _ ← emitCounter C.chain.rules.length
    emitVerdict C.chain.hook.flavor C.chain.policy) (fun _ x => S x) :=
  h.inRule (.bind (GL.emitCounter _).toGS fun _ => (GL.emitVerdict ..).toGS)
    (.bind (.emitCounter _) fun _ => .emitVerdict ..)

theorem tail_shape (C : Cfg) : GenN (FixOk C) (tailG C) (fun _ _ => True) := by
  unfold tailG
  refine ((genRules_shape C C.chain.rules).mono (fun _ h => h.fixOk) fun _ _ h => h).then FixOk.noNext fun _ x _ _ => ?_
  exact polG_fix C ((GL.bind (GL.emitCounter _) fun _ => GL.emitVerdict ..).toGS.gen.mono fun _ _ _ => trivial)

/-- Rules and policy. -/
theorem tail_ok (hE : EnvOk E C) (hC : CfgOk C) (hF : SemFacts E C K c) :
    GenN (FixOk C) (tailG C) (fun _ x => RuleT E C.groups K (fun w =>
      .stop (Spec.evalView c C.chain.policy C.chain.rules w).1
        (Spec.evalView c C.chain.policy C.chain.rules w).2) x) := by
  unfold tailG
  refine ((rules_ok hE hC hF).mono (fun _ h => h.fixOk) fun _ _ h => h).then FixOk.noNext fun _ x hx sx => ?_
  refine (polG_fix C (S := RuleT E C.groups K (fun w => .stop
    (BitVec.ofInt 64 ((Spec.retCode C.chain.hook.flavor C.chain.policy).getD 0))
    (Spec.count c.size C.chain.rules.length w))) ?_).mono (fun _ h => h) fun _ y hy => ?_
  · refine (emitCounter_ok (gs := C.groups) hF.ctx _ (by rw [hE.counters]; omega) (by have := hE.few; omega)).then fun _ y hy => ?_
    refine (emitVerdict_ok (E := E) (gs := C.groups) (K := K) _).mono fun _ z hz => ?_
    exact hy.rule hz.rule
  · have := hx.append (fun j hj e => ((sx.mem hj).2 _ e).1 rfl) hy
    intro s hs
    have h := this s hs
    have e : ∀ w, (match Spec.evalRules c C.chain.rules w with
        | .cont w' => Spec.Step.stop (BitVec.ofInt 64 ((Spec.retCode C.chain.hook.flavor C.chain.policy).getD 0))
            (Spec.count c.size C.chain.rules.length w')
        | s => s) = .stop (Spec.evalView c C.chain.policy C.chain.rules w).1
        (Spec.evalView c C.chain.policy C.chain.rules w).2 := by
      intro w
      unfold Spec.evalView
      rw [hF.of.flavor]
      cases Spec.evalRules c C.chain.rules w with
      | cont w' => rfl
      | stop r w' => rfl
    show wp E C.groups (x ++ y) 0 (rpost K (.stop _ _)) s
    rw [← e]
    exact h

end Bf
