import Verif.Exec.Log
/-!
# Whole rules and the list of rules

Nothing here models code of the repository.
-/
namespace Bf

variable {E : Env} {gs : Groups} {K : Frame} {C : Cfg}

/-- Outcome of a rule's code. -/
def rpost (K : Frame) (st : Spec.Step) : Post where
  fall := fun s => Inv K s ∧ st = .cont s.w
  next := fun s => Inv K s ∧ st = .cont s.w
  exit := fun v w => st = .stop v w

/-- Code whose meaning is the step `f`. -/
def RuleT (E : Env) (gs : Groups) (K : Frame) (f : World → Spec.Step) (x : List Item) : Prop :=
  ∀ s, Inv K s → wp E gs x 0 (rpost K (f s.w)) s

theorem RuleT.nil (E : Env) (gs : Groups) (K : Frame) : RuleT E gs K .cont [] :=
  fun _ hs => wp_nil.mpr ⟨hs, rfl⟩

/-- Matchers followed by the rest of the rule. -/
theorem MatchT.rule {b : World → Bool × World} {f : World → Spec.Step} {x y : List Item}
    (hx : MatchT E gs K b x) (hy : RuleT E gs K f y) :
    RuleT E gs K (fun w => if (b w).1 then f (b w).2 else .cont (b w).2) (x ++ y) := by
  intro s hs
  apply wp_append
  refine wp_mono (hx s hs) ?_ ?_ ?_
  · intro s' h
    obtain ⟨h1, h2, h3⟩ := h
    have := hy s' h1
    simp only [h3, if_true]
    rw [h2] at this
    exact this
  · intro s' h
    obtain ⟨h1, h2, h3⟩ := h
    refine ⟨h1, ?_⟩
    simp [h3, h2]
  · intro _ _ h; exact h.elim

/-- Actions followed by the rest of the rule. -/
theorem ActT.rule {a : World → World} {f : World → Spec.Step} {x y : List Item}
    (hx : ActT E gs K a x) (hy : RuleT E gs K f y) : RuleT E gs K (fun w => f (a w)) (x ++ y) := by
  intro s hs
  apply wp_append
  refine wp_mono (hx s hs) ?_ (fun _ h => h.elim) (fun _ _ h => h.elim)
  intro s' h
  have := hy s' h.1
  rw [h.2] at this
  exact this

theorem StopT.rule {g : World → BitVec 64 × World} {x : List Item} (hx : StopT E gs K g x) :
    RuleT E gs K (fun w => .stop (g w).1 (g w).2) x := by
  intro s hs
  refine wp_mono (hx s hs) (fun _ h => h.elim) (fun _ h => h.elim) ?_
  intro v w h
  show Spec.Step.stop (g s.w).1 (g s.w).2 = .stop v w
  have h' : g s.w = (v, w) := h.symm
  rw [h']

/-- Rules in sequence. -/
theorem RuleT.append {f g : World → Spec.Step} {x y : List Item}
    (hx : RuleT E gs K f x) (hn : ∀ i ∈ x, i.fix ≠ some .nextRule) (hy : RuleT E gs K g y) :
    RuleT E gs K (fun w => match f w with | .cont w' => g w' | s => s) (x ++ y) := by
  intro s hs
  have key : ∀ (z : List Item) (k : Nat) (t : St) (Q : Post), (∀ i ∈ z, i.fix ≠ some .nextRule) →
      wp E gs z k Q t → wp E gs z k ⟨Q.fall, fun _ => False, Q.exit⟩ t := by
    intro z
    induction z with
    | nil => intro k t Q _ h; exact h
    | cons i is ih =>
      intro k t Q hz h
      cases k with
      | succ k => exact ih k t Q (fun j hj => hz j (by simp [hj])) h
      | zero =>
        simp only [wp] at h ⊢
        cases hst : stepT E gs i t with
        | fall k s' => rw [hst] at h; exact ih _ _ _ (fun j hj => hz j (by simp [hj])) h
        | next s' => exact absurd (stepT_next hst) (hz i (by simp))
        | exit v w => rw [hst] at h; exact h
        | err => rw [hst] at h; exact h
  apply wp_append
  refine wp_mono (key _ _ _ _ hn (hx s hs)) ?_ (fun _ h => h.elim) ?_
  · intro s' h
    have := hy s' h.1
    have e : f s.w = .cont s'.w := h.2
    dsimp only
    rw [e]
    exact this
  · intro v w h
    have h' : f s.w = .stop v w := h
    show (match f s.w with | .cont w' => g w' | s => s) = .stop v w
    rw [h']

/-- Meaning of the matchers of a rule, in sequence. -/
def allM (b : Matcher → World → Bool × World) : List Matcher → World → Bool × World
  | [], w => (true, w)
  | m :: ms, w => if (b m w).1 then allM b ms (b m w).2 else (false, (b m w).2)

theorem matchers_gen (b : Matcher → World → Bool × World) (ms : List Matcher)
    (h : ∀ m ∈ ms, GenT (inlineMatcher C m) (fun _ x => MatchT E gs K (b m) x)) :
    GenT (matchers C ms) (fun _ x => MatchT E gs K (allM b ms) x) := by
  induction ms with
  | nil => exact .lastPure (MatchT.nil E gs K)
  | cons m ms ih =>
    unfold matchers
    refine (h m (by simp)).then fun _ x hx => ?_
    refine (ih fun m hm => h m (by simp [hm])).mono fun _ y hy => ?_
    exact MatchT.append hx hy

/-- Matcher code that is never reached needs no meaning. -/
theorem MatchT.dead {x y : List Item} {p : World → World} (hx : MatchT E gs K (fun w => (false, p w)) x) :
    MatchT E gs K (fun w => (false, p w)) (x ++ y) := by
  intro s hs
  apply wp_append
  refine wp_mono (hx s hs) (fun _ h => absurd h.2.2 (by simp)) (fun _ h => h) (fun _ _ h => h)

/-- Guards and matchers of a rule (program.c:523-557). -/
theorem guardMatch_gen {pok : MType → Bool} (b : Matcher → World → Bool × World) (ms : List Matcher)
    (hreg : ∀ t, regOk K t = pok t)
    (hc : Compat (ms.flatMap (Spec.typesOf C.chain.sets)))
    (h : (ms.all fun m => (Spec.typesOf C.chain.sets m).all pok) = true →
      ∀ m ∈ ms, GenT (inlineMatcher C m) (fun _ x => MatchT E gs K (b m) x)) :
    GenT (do let _ ← guards C ms []; matchers C ms) (fun _ x => MatchT E gs K (fun w =>
      if ms.all fun m => (Spec.typesOf C.chain.sets m).all pok then allM b ms w else (false, w)) x) := by
  have hg := guards_gen (E := E) (gs := gs) (K := K) (C := C) ms [] hc
  have e : ((ms.flatMap (Spec.typesOf C.chain.sets)).all fun t =>
      ([] : List Layer).contains t.meta_.layer || regOk K t) =
      (ms.all fun m => (Spec.typesOf C.chain.sets m).all pok) := by
    rw [List.all_flatMap]
    simp only [List.contains_nil, Bool.false_or, hreg]
  cases hall : ms.all fun m => (Spec.typesOf C.chain.sets m).all pok with
  | true =>
    refine hg.then fun d x hx => ?_
    refine (matchers_gen b ms (h hall)).mono fun _ y hy => ?_
    have h1 := hx.1
    rw [e, hall] at h1
    simp only [if_true]
    have := MatchT.append h1 hy
    simpa using this
  | false =>
    refine hg.then fun d x hx => ?_
    refine ((GS.matchers C ms).gen).mono fun _ y _ => ?_
    have h1 := hx.1
    rw [e, hall] at h1
    simp only [Bool.false_eq_true, if_false]
    exact MatchT.dead h1

/-- Whenever `g` succeeds on a program without pending next-rule jumps, it appends a well-formed
fragment whose fixups satisfy `P`, and `S` holds. -/
def GenN {α : Type} (P : FixTy → Prop) (g : Gen α) (S : α → List Item → Prop) : Prop :=
  ∀ p a p', (∀ f ∈ p.fixups, f.ty ≠ .nextRule) → g p = .ok (a, p') →
    ∃ x, p' = p.app x ∧ Sta P x ∧ S a x

theorem app_noNext {P : FixTy → Prop} (hP : ∀ ty, P ty → ty ≠ .nextRule) {p : Prog}
    (hp : ∀ f ∈ p.fixups, f.ty ≠ .nextRule) {x : List Item} (hx : Sta P x) :
    ∀ f ∈ (p.app x).fixups, f.ty ≠ .nextRule := by
  intro f hf
  simp only [Prog.app, List.mem_append] at hf
  rcases hf with hf | hf
  · exact hp f hf
  · obtain ⟨i, hi, e⟩ := fixupsOf_ty hf
    exact hP _ ((hx.mem hi).2 _ e)

theorem GenN.then {α β : Type} {P : FixTy → Prop} (hP : ∀ ty, P ty → ty ≠ .nextRule) {g : Gen α}
    {k : α → Gen β} {S : α → List Item → Prop} {T : β → List Item → Prop} (hg : GenN P g S)
    (hk : ∀ a y, S a y → Sta P y → GenN P (k a) (fun b z => T b (y ++ z))) : GenN P (g >>= k) T := by
  intro p b p' hp h
  rw [bind_run] at h
  obtain ⟨⟨a, q⟩, h1, h2⟩ := Res.bind_eq_ok h
  obtain ⟨y, e1, sy, hy⟩ := hg p a q hp h1
  subst e1
  obtain ⟨z, e2, sz, hz⟩ := hk a y hy sy _ b p' (app_noNext hP hp sy) h2
  exact ⟨y ++ z, by rw [e2, Prog.app_app], sy.append sz, hz⟩

theorem GenT.toN {α : Type} {P : FixTy → Prop} {g : Gen α} {S : α → List Item → Prop}
    (h : GenT g S) (hs : GenT g (fun _ x => Sta P x)) : GenN P g S := by
  intro p a p' _ hp
  obtain ⟨x, e, h1, h2⟩ := h.and hs p a p' hp
  exact ⟨x, e, h2, h1⟩

theorem GenN.mono {α : Type} {P Q : FixTy → Prop} {g : Gen α} {S T : α → List Item → Prop}
    (h : GenN P g S) (hpq : ∀ ty, P ty → Q ty) (hst : ∀ a x, S a x → T a x) : GenN Q g T := by
  intro p a p' hp hg
  obtain ⟨x, e, h1, h2⟩ := h p a p' hp hg
  exact ⟨x, e, h1.mono hpq, hst _ _ h2⟩

/-- Rules: only jumps within the rule. -/
def InRule (ty : FixTy) : Prop := Inner ty ∧ ty ≠ .nextRule

/-- Resolving the next-rule jumps at the end of a rule (program.c:657-661). -/
theorem GenT.resolved {g : Gen Unit} {f : World → Spec.Step}
    (h : GenT g (fun _ x => RuleT E gs K f x)) (hs : GS g) :
    GenN InRule (g >>= fun _ => fixup noFix (· == .nextRule)) (fun _ x => RuleT E gs K f x) := by
  intro p a p' hp hg
  rw [bind_run] at hg
  obtain ⟨⟨u, q⟩, h1, h2⟩ := Res.bind_eq_ok hg
  obtain ⟨x, e, hx, hsx⟩ := h.and hs.gen p u q h1
  subst e
  obtain ⟨e, hn⟩ := fixup_next p hp x _ h2
  cases e
  refine ⟨resolveNext x, rfl, hsx.resolveNext hn, ?_⟩
  intro s hs
  exact wp_resolveNext hn (hx s hs) fun _ h => h

/-- What the verdict of a rule does. -/
def verdictG (E : Env) (fl : Flavor) (r : Rule) (w : World) : Spec.Step :=
  match r.verdict with
  | .continue_ => .cont w
  | .redirect =>
    let flags : BitVec 64 := if r.redirDir = .ingress then 1 else 0
    .stop (E.redirectRet r.redirIfindex flags) { w with redirect := some (r.redirIfindex, flags) }
  | v => .stop (BitVec.ofInt 64 ((Spec.retCode fl v).getD 0)) w

/-- What a rule does, given the meaning of its matchers and what it logs. -/
def stepG (E : Env) (C : Cfg) (size : BitVec 64) (pok : MType → Bool)
    (b : Matcher → World → Bool × World) (L : World → World) (r : Rule) (w : World) : Spec.Step :=
  if r.disabled then .cont w
  else
    let mw := if r.matchers.all fun m => (Spec.typesOf C.chain.sets m).all pok
      then allM b r.matchers w else (false, w)
    if mw.1 then
      let w1 := if r.markSet then { mw.2 with mark := r.markVal } else mw.2
      let w2 := L w1
      let w3 := if r.hasCounters then Spec.count size r.index w2 else w2
      verdictG E C.chain.hook.flavor r w3
    else .cont mw.2

/-- The pieces of a rule's code. -/
theorem genRule_eq (C : Cfg) (r : Rule) (hd : r.disabled = false) :
    genRule C r = ((do
      let _ ← (do let _ ← guards C r.matchers []; matchers C r.matchers)
      let _ ← (if r.markSet then inlineSetMark C r.markVal else pure ())
      let _ ← ruleLog C r
      let _ ← (if r.hasCounters then emitCounter r.index else pure ())
      (match r.verdict with
        | .accept | .drop | .next => emitVerdict C.chain.hook.flavor r.verdict
        | .redirect => inlineRedirect C r.redirIfindex r.redirDir
        | .continue_ => pure ())) >>= fun _ => fixup noFix (· == .nextRule)) := by
  have assoc : ∀ {α β γ : Type} (x : Gen α) (f : α → Gen β) (g : β → Gen γ),
      (x >>= f) >>= g = x >>= fun a => f a >>= g := by
    intro α β γ x f g
    funext p
    simp only [bind_run, Res.bind_assoc]
  unfold genRule
  rw [if_neg (by simp [hd])]
  simp only [assoc]
  cases r.markSet <;> cases r.hasCounters <;> cases r.verdict <;> rfl

theorem GS.verdict (C : Cfg) (r : Rule) : GS (match r.verdict with
        | .accept | .drop | .next => emitVerdict C.chain.hook.flavor r.verdict
        | .redirect => inlineRedirect C r.redirIfindex r.redirDir
        | .continue_ => pure ()) := by
  cases r.verdict
  · exact (GL.emitVerdict ..).toGS
  · exact (GL.emitVerdict ..).toGS
  · exact (GL.pure _).toGS
  · exact (GL.inlineRedirect ..).toGS
  · exact (GL.emitVerdict ..).toGS

theorem verdict_gen (r : Rule) : GenT (match r.verdict with
        | .accept | .drop | .next => emitVerdict C.chain.hook.flavor r.verdict
        | .redirect => inlineRedirect C r.redirIfindex r.redirDir
        | .continue_ => pure ())
      (fun _ x => RuleT E gs K (verdictG E C.chain.hook.flavor r) x) := by
  unfold verdictG
  cases r.verdict
  · exact (emitVerdict_ok (E := E) (gs := gs) (K := K) _).mono fun _ _ h => h.rule
  · exact (emitVerdict_ok (E := E) (gs := gs) (K := K) _).mono fun _ _ h => h.rule
  · exact .lastPure (RuleT.nil E gs K)
  · exact (inlineRedirect_ok (E := E) (gs := gs) (K := K) _ _).mono fun _ _ h => h.rule
  · exact (emitVerdict_ok (E := E) (gs := gs) (K := K) _).mono fun _ _ h => h.rule

/-- program.c:507-665: the code of a rule does what the rule says. -/
theorem genRule_gen {size : BitVec 64} (hC : CtxFacts E C K size) {pok : MType → Bool}
    (b : Matcher → World → Bool × World) (L : World → World) (r : Rule)
    (hreg : ∀ t, regOk K t = pok t)
    (hc : r.disabled = false → Compat (r.matchers.flatMap (Spec.typesOf C.chain.sets)))
    (hm : r.disabled = false → (r.matchers.all fun m => (Spec.typesOf C.chain.sets m).all pok) = true →
      ∀ m ∈ r.matchers, GenT (inlineMatcher C m) (fun _ x => MatchT E gs K (b m) x))
    (hl : r.disabled = false → GenT (ruleLog C r) (fun _ x => ActT E gs K L x))
    (hn : r.index < E.nCounters) (h32 : r.index < 4294967296) :
    GenN InRule (genRule C r) (fun _ x => RuleT E gs K (stepG E C size pok b L r) x) := by
  cases hd : r.disabled with
  | true =>
    have e : genRule C r = pure () := by unfold genRule; rw [if_pos hd]
    rw [e]
    refine GenT.toN (.lastPure ?_) (.lastPure trivial)
    intro s hs
    refine wp_nil.mpr ⟨hs, ?_⟩
    simp [stepG, hd]
  | false =>
    rw [genRule_eq C r hd]
    refine GenT.resolved ?_ ?_
    · refine (guardMatch_gen (E := E) (gs := gs) (K := K) b r.matchers hreg (hc hd) (hm hd)).then fun _ x1 h1 => ?_
      have hmark : GenT (if r.markSet then inlineSetMark C r.markVal else pure ())
          (fun _ x => ActT E gs K (fun w => if r.markSet then { w with mark := r.markVal } else w) x) := by
        cases r.markSet
        · exact .lastPure (ActT.nil E gs K)
        · exact inlineSetMark_ok hC _
      have hcount : GenT (if r.hasCounters then emitCounter r.index else pure ())
          (fun _ x => ActT E gs K (fun w => if r.hasCounters then Spec.count size r.index w else w) x) := by
        cases r.hasCounters
        · exact .lastPure (ActT.nil E gs K)
        · exact emitCounter_ok hC _ hn h32
      refine hmark.then fun _ x2 h2 => ?_
      refine (hl hd).then fun _ x3 h3 => ?_
      refine hcount.then fun _ x4 h4 => ?_
      refine (verdict_gen (E := E) (gs := gs) (K := K) r).mono fun _ x5 h5 => ?_
      have := h1.rule (h2.rule (h3.rule (h4.rule h5)))
      intro s hs
      have := this s hs
      unfold stepG
      rw [hd]
      exact this
    · refine .bind (.bind (GS.guards ..) fun _ => GS.matchers ..) fun _ => ?_
      refine .bind ?_ fun _ => ?_
      · split
        · exact (GL.inlineSetMark ..).toGS
        · exact (GL.pure _).toGS
      refine .bind (GL.ruleLog ..).toGS fun _ => ?_
      refine .bind ?_ fun _ => GS.verdict C r
      split
      · exact (GL.emitCounter ..).toGS
      · exact (GL.pure _).toGS

/-- Steps of rules in order. -/
def stepsG (f : Rule → World → Spec.Step) : List Rule → World → Spec.Step
  | [], w => .cont w
  | r :: rs, w =>
    match f r w with
    | .cont w' => stepsG f rs w'
    | s => s

theorem InRule.noNext : ∀ ty, InRule ty → ty ≠ .nextRule := fun _ h => h.2

/-- program.c:861-866: the code of the rules. -/
theorem genRules_gen (f : Rule → World → Spec.Step) (rs : List Rule)
    (h : ∀ r ∈ rs, GenN InRule (genRule C r) (fun _ x => RuleT E gs K (f r) x)) :
    GenN InRule (genRules C rs) (fun _ x => RuleT E gs K (stepsG f rs) x) := by
  induction rs with
  | nil => exact GenT.toN (.lastPure (RuleT.nil E gs K)) (.lastPure trivial)
  | cons r rs ih =>
    unfold genRules
    refine (h r (by simp)).then InRule.noNext fun _ x hx sx => ?_
    refine (ih fun r hr => h r (by simp [hr])).mono (fun _ h => h) fun _ y hy => ?_
    have := hx.append (fun i hi e => (sx.mem hi).2 _ e |>.2 rfl) hy
    exact this

end Bf
