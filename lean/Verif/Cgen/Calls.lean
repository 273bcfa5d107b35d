import Verif.Cgen.WithinOps
import Verif.Cli.Setup
/-!
# Programs that make some calls only: that change nothing, that pin and make nothing
-/
namespace Bf.Pin

variable {α β : Type} {dir : String} {T : Target}

/-- All the calls of the program, whatever they answer, satisfy `C`. -/
def P.Calls (C : Call → Bool) : P α → Prop
  | .ret _ => True
  | .call c k => C c = true ∧ ∀ a, (k a).Calls C

variable {C : Call → Bool}

theorem Calls.bind {p : P α} {f : α → P β} (h : p.Calls C) (hf : ∀ a, (f a).Calls C) : (p >>= f).Calls C := by
  induction p with
  | ret a => exact hf a
  | call c k ih => exact ⟨h.1, fun a => ih a (h.2 a)⟩

theorem Calls.mono {C' : Call → Bool} {p : P α} (h : p.Calls C) (hC : ∀ c, C c = true → C' c = true) : p.Calls C' := by
  induction p with
  | ret a => trivial
  | call c k ih => exact ⟨hC c h.1, fun a => ih a (h.2 a)⟩

theorem Calls.step {p : P α} {J : K → K → Prop} (h : p.Calls C) (hrefl : ∀ w, J w w) (htrans : ∀ a b c, J a b → J b c → J a c)
    (hp : ∀ w w', Packets w w' → J w w') (hs : ∀ w c a w', C c = true → Step w c a w' → J w w') {w w' : K} {q : P α} (hr : Run w p w' q) : J w w' := by
  induction hr with
  | refl => exact hrefl _
  | packets h1 _ ih => exact htrans _ _ _ (hp _ _ h1) (ih h)
  | step h1 _ ih => exact htrans _ _ _ (hs _ _ _ _ h.1 h1) (ih (h.2 _))

/-- A call that pins nothing, makes nothing, and writes nothing but counters. -/
def Call.tame : Call → Bool
  | .pin .. | .rename .. | .mapCreate .. | .progLoad .. | .linkCreate .. | .mapWrite .. | .mapFill .. | .linkUpdate .. => false
  | _ => true

theorem Call.reads_tame (c : Call) (h : c.reads = true) : c.tame = true := by cases c <;> simp_all [Call.reads, Call.tame]

theorem calls_try {c : Call} (h : C c = true) : (try_ c).Calls C := ⟨h, fun _ => trivial⟩
theorem calls_tryId {c : Call} (h : C c = true) : (tryId c).Calls C := ⟨h, fun _ => trivial⟩
theorem calls_void {c : Call} (h : C c = true) : (void c).Calls C := ⟨h, fun _ => trivial⟩
theorem calls_pure {a : α} : (pure a : P α).Calls C := trivial

macro "calls" : tactic => `(tactic| repeat' (first
  | exact calls_pure | exact trivial | assumption | exact calls_try rfl | exact calls_tryId rfl | exact calls_void rfl
  | refine Calls.bind ?_ fun _ => ?_ | split | dsimp only))

theorem reads_closeAll : ∀ {l : List Nat}, (closeAll l).Calls Call.reads
  | [] => trivial
  | _ :: _ => by
    unfold closeAll
    exact Calls.bind (calls_void rfl) fun _ => reads_closeAll

theorem reads_handleFree {h : Handle} : (handleFree h).Calls Call.reads := reads_closeAll

theorem reads_getMap {d : Option MapD} : (getMap dir d).Calls Call.reads := by unfold getMap; calls

theorem reads_getMaps : ∀ {ds : List (Option MapD)}, (getMaps dir ds).Calls Call.reads
  | [] => trivial
  | d :: ds => by
    have h1 := reads_getMap (dir := dir) (d := d)
    have h2 := reads_getMaps (ds := ds)
    unfold getMaps; calls

theorem reads_getLink {d : Option LinkD} : (getLink dir d).Calls Call.reads := by unfold getLink; calls

theorem reads_getHandle {d : HandleD} : (getHandle dir d).Calls Call.reads := by
  have h1 := fun d => reads_getMap (dir := dir) (d := d)
  have h2 := fun ds => reads_getMaps (dir := dir) (ds := ds)
  have h3 := fun d => reads_getLink (dir := dir) (d := d)
  unfold getHandle
  repeat' (first | exact calls_pure | exact calls_tryId rfl | exact h1 _ | exact h2 _ | exact h3 _ | refine Calls.bind ?_ fun _ => ?_ | split | dsimp only)

theorem reads_newFromDir : (newFromDir dir).Calls Call.reads := by
  have h1 := fun d => reads_getHandle (dir := dir) (d := d)
  have h2 := fun h => reads_handleFree (h := h)
  unfold newFromDir
  refine Calls.bind (calls_tryId rfl) fun r => ?_
  split
  · refine ⟨rfl, fun a => ?_⟩
    repeat' (first | exact calls_pure | exact calls_void rfl | exact h1 _ | exact h2 _ | refine Calls.bind ?_ fun _ => ?_ | split | dsimp only)
  · exact trivial
  · exact trivial

theorem reads_getCounter {h : Handle} {i : Nat} : (getCounter h i).Calls Call.reads := by
  unfold getCounter
  split
  · exact trivial
  · refine Calls.bind (calls_try rfl) fun r => ?_
    split
    · exact ⟨rfl, fun a => by dsimp only; split <;> exact trivial⟩
    · exact trivial
    · exact trivial

theorem reads_cgenGetCounter {c : Cgen} {x : CtrOf} : (cgenGetCounter c x).Calls Call.reads := by
  unfold cgenGetCounter
  split
  · exact reads_getCounter
  · exact reads_getCounter
  · split
    · exact reads_getCounter
    · exact trivial

theorem reads_loadRuleCounters {c : Cgen} : ∀ {rs : List Rule}, (loadRuleCounters c rs).Calls Call.reads
  | [] => trivial
  | r :: rs => by
    have h1 := fun x => reads_cgenGetCounter (c := c) (x := x)
    have h2 := reads_loadRuleCounters (c := c) (rs := rs)
    unfold loadRuleCounters
    repeat' (first | exact calls_pure | exact h1 _ | exact h2 | refine Calls.bind ?_ fun _ => ?_ | split | dsimp only)

theorem reads_copyOpts {o : Option HookOpts} : (copyOpts o).Calls Call.reads := by unfold copyOpts; calls

theorem reads_chainGetOpen {c : Cgen} : (chainGetOpen c).Calls Call.reads := by
  have h1 := fun x => reads_cgenGetCounter (c := c) (x := x)
  have h2 := fun rs => reads_loadRuleCounters (c := c) (rs := rs)
  have h3 := fun o => reads_copyOpts (o := o)
  unfold chainGetOpen
  repeat' (first | exact calls_pure | exact h1 _ | exact h2 _ | exact h3 _ | refine Calls.bind ?_ fun _ => ?_ | split | dsimp only)

theorem reads_withCgen {f : Cgen → P (Cgen × Res α)} (h : ∀ c, (f c).Calls Call.reads) : (withChain dir false (withCgen dir f)).Calls Call.reads := by
  have h1 : (withCgen dir f).Calls Call.reads := by
    unfold withCgen
    refine Calls.bind reads_newFromDir fun r => ?_
    split
    · exact Calls.bind (h _) fun _ => Calls.bind reads_handleFree fun _ => calls_pure
    · exact calls_pure
    · exact calls_pure
  unfold withChain
  calls

/-- Reading a chain reads. -/
theorem reads_chainGet : (chainGet dir).Calls Call.reads := reads_withCgen fun _ => Calls.bind reads_chainGetOpen fun _ => calls_pure

theorem reads_freeAll : ∀ {cs : List Cgen}, (freeAll cs).Calls Call.reads
  | [] => trivial
  | _ :: _ => by unfold freeAll; exact Calls.bind reads_handleFree fun _ => reads_freeAll

theorem reads_getCgensLoop : ∀ {ns : List String}, (getCgensLoop ns).Calls Call.reads
  | [] => trivial
  | n :: ns => by
    have h1 := reads_newFromDir (dir := n)
    have h2 := reads_getCgensLoop (ns := ns)
    unfold getCgensLoop
    refine ⟨rfl, fun a => ?_⟩
    calls

theorem reads_getCgens : getCgens.Calls Call.reads := ⟨rfl, fun a => by
  have h := fun ns => reads_getCgensLoop (ns := ns)
  repeat' (first | exact calls_pure | exact h _ | refine Calls.bind ?_ fun _ => ?_ | split | dsimp only)⟩

theorem reads_getAll : ∀ {cs : List Cgen}, (getAll cs).Calls Call.reads
  | [] => trivial
  | c :: cs => by
    have h1 := reads_chainGetOpen (c := c)
    have h2 := reads_getAll (cs := cs)
    unfold getAll
    calls

theorem reads_rulesetGet : rulesetGet.Calls Call.reads := by
  have h1 := fun cs => reads_getAll (cs := cs)
  have h2 := fun cs => reads_freeAll (cs := cs)
  have h3 := reads_getCgens
  unfold rulesetGet
  repeat' (first | exact calls_pure | exact calls_try rfl | exact h1 _ | exact h2 _ | exact h3 | refine Calls.bind ?_ fun _ => ?_ | split | dsimp only)

/-! What pins and makes nothing. -/

theorem Calls.tame {p : P α} (h : p.Calls Call.reads) : p.Calls Call.tame := Calls.mono h Call.reads_tame

theorem tame_unpinAll : ∀ {ms : List BMap}, (unpinAll dir ms).Calls Call.tame
  | [] => trivial
  | _ :: _ => by unfold unpinAll; exact Calls.bind (calls_void rfl) fun _ => tame_unpinAll

theorem tame_cgenUnload {c : Cgen} : (cgenUnload c dir).Calls Call.tame := by
  have h1 := fun ms => tame_unpinAll (dir := dir) (ms := ms)
  have h2 := fun l => Calls.tame (reads_closeAll (l := l))
  unfold cgenUnload handleUnpin handleUnload handleDetach linkUnpin
  repeat' (first | exact calls_pure | exact calls_void rfl | exact h1 _ | exact h2 _ | refine Calls.bind ?_ fun _ => ?_ | split | dsimp only)

theorem tame_unloadAll : ∀ {cs : List Cgen}, (unloadAll cs).Calls Call.tame
  | [] => trivial
  | c :: cs => by
    have h1 := tame_cgenUnload (dir := c.chain.name) (c := c)
    have h2 := tame_unloadAll (cs := cs)
    unfold unloadAll
    calls

theorem tame_flushAll : flushAll.Calls Call.tame := by
  have h1 := Calls.tame reads_getCgens
  have h2 := fun cs => tame_unloadAll (cs := cs)
  have h3 := fun cs => Calls.tame (reads_freeAll (cs := cs))
  unfold flushAll
  repeat' (first | exact calls_pure | exact h1 | exact h2 _ | exact h3 _ | refine Calls.bind ?_ fun _ => ?_ | split | dsimp only)

theorem tame_sweepLoop : ∀ {ns : List String}, (Cli.sweepLoop ns).Calls Call.tame
  | [] => trivial
  | n :: ns => by
    have h := tame_sweepLoop (ns := ns)
    unfold Cli.sweepLoop
    calls

theorem tame_ctxSetup : Cli.ctxSetup.Calls Call.tame := by
  unfold Cli.ctxSetup Cli.sweep
  refine Calls.bind (calls_try rfl) fun _ => ?_
  split
  · refine Calls.bind ?_ fun _ => calls_pure
    refine Calls.bind (calls_try rfl) fun _ => ?_
    split
    · refine ⟨rfl, fun a => ?_⟩
      dsimp only
      split
      · exact tame_sweepLoop
      · exact calls_pure
    · exact calls_pure
  · exact calls_pure

end Bf.Pin
