import Verif.Spec.Sim
import Verif.Props.C37_SetRaw
/-!
# Evaluations of rules that correspond

As `Spec/Sim`, for rules whose matchers are not the same but hold alike.
-/
namespace Bf.Spec

/-- Rules whose matchers correspond one to one, and with the same effects. -/
structure RuleCorr (M : Matcher → Matcher → Prop) (r q : Rule) : Prop where
  index : q.index = r.index
  matchers : Each M r.matchers q.matchers
  log : q.log = r.log
  rate : q.rate = r.rate
  counters : q.hasCounters = r.hasCounters
  markSet : q.markSet = r.markSet
  markVal : r.markSet = true → q.markVal = r.markVal
  verdict : q.verdict = r.verdict
  redirect : r.verdict = .redirect → q.redirIfindex = r.redirIfindex ∧ q.redirDir = r.redirDir
  disabled : q.disabled = r.disabled

/-- Contexts where corresponding matchers hold alike. -/
structure SemCorr (M : Matcher → Matcher → Prop) (L : LogRec → LogRec → Prop) (c c' : Sem) : Prop where
  flavor : c'.flavor = c.flavor
  size : c'.size = c.size
  kernel : c'.kernel = c.kernel
  type : ∀ m n, M m n → n.type = m.type
  holds : ∀ m n, M m n → ∀ mark rnd, c'.holds n mark rnd = c.holds m mark rnd
  applies : ∀ m n, M m n → (typesOf c'.sets n).all c'.protoOk = (typesOf c.sets m).all c.protoOk
  entry : ∀ (r q : Rule) now, q.index = r.index → q.log = r.log → q.verdict = r.verdict → L (c.entry r now) (c'.entry q now)

variable {M : Matcher → Matcher → Prop} {L : LogRec → LogRec → Prop} {c c' : Sem} {w w' : World}

theorem matchAll_corr (hc : SemCorr M L c c') {ms ns : List Matcher} (hm : Each M ms ns) : ∀ {w w' : World}, WSim id L w w' →
    (matchAll c' ns w').1 = (matchAll c ms w).1 ∧ WSim id L (matchAll c ms w).2 (matchAll c' ns w').2 := by
  induction hm with
  | nil => exact fun h => ⟨rfl, h⟩
  | cons h1 h2x ih =>
    rename_i m n ms ns
    intro w w' h
    unfold matchAll
    rw [hc.holds _ _ h1, hc.type _ _ h1, hc.kernel, h.mark, h.rng]
    have hw : WSim id L (if m.type = .metaProbability then { w with rng := w.rng + 1 } else w)
        (if m.type = .metaProbability then { w' with mark := w.mark, rng := w.rng + 1 } else w') := by
      split
      · exact ⟨h.counters, rfl, rfl, h.clk, h.ring, h.state, h.logs, h.redirect⟩
      · exact h
    dsimp only
    split
    · exact ih hw
    · exact ⟨rfl, hw⟩

theorem publish_corr (hc : SemCorr M L c c') (h : WSim id L w w') {r q : Rule} (hr : RuleCorr M r q) : WSim id L (publish c r w) (publish c' q w') := by
  unfold publish
  rw [hc.kernel, h.ring, h.clk]
  dsimp only
  split
  · exact ⟨h.counters, h.mark, h.rng, rfl, rfl, h.state, .snoc h.logs (hc.entry r q _ hr.index hr.log hr.verdict), h.redirect⟩
  · exact ⟨h.counters, h.mark, h.rng, rfl, rfl, h.state, h.logs, h.redirect⟩

theorem logAction_corr (hc : SemCorr M L c c') (h : WSim id L w w') {r q : Rule} (hr : RuleCorr M r q) : WSim id L (logAction c r w) (logAction c' q w') := by
  unfold logAction
  rw [hr.log, hr.rate, hr.index]
  dsimp only
  split
  · exact h
  · split
    · exact publish_corr hc h hr
    · have hst : w'.state r.index = w.state r.index := h.state r.index
      rw [hc.kernel, h.clk, hst]
      split
      · exact ⟨h.counters, h.mark, h.rng, rfl, h.ring, h.state, h.logs, h.redirect⟩
      · refine publish_corr hc ?_ hr
        refine ⟨h.counters, h.mark, h.rng, rfl, h.ring, ?_, h.logs, h.redirect⟩
        intro j
        have := h.state j
        simp only [id] at this ⊢
        rw [this]

theorem actions_corr (hc : SemCorr M L c c') (h : WSim id L w w') {r q : Rule} (hr : RuleCorr M r q) : WSim id L (actions c r w) (actions c' q w') := by
  unfold actions
  have h1 : WSim id L (if r.mark >>> 32 ≠ 0 then { w with mark := r.mark.setWidth 32 } else w)
      (if q.mark >>> 32 ≠ 0 then { w' with mark := q.mark.setWidth 32 } else w') := by
    have hs := hr.markSet
    unfold Rule.markSet at hs
    by_cases hm : r.mark >>> 32 ≠ 0
    · have hv := hr.markVal (by unfold Rule.markSet; exact decide_eq_true hm)
      rw [if_pos hm, if_pos (by rw [decide_eq_true hm] at hs; exact of_decide_eq_true hs)]
      exact ⟨h.counters, hv, h.rng, h.clk, h.ring, h.state, h.logs, h.redirect⟩
    · rw [if_neg hm, if_neg (by rw [decide_eq_false hm] at hs; exact of_decide_eq_false hs)]
      exact h
  have h2 := logAction_corr hc h1 hr
  dsimp only
  rw [hc.size, hr.counters, hr.index]
  split
  · exact h2.count (fun _ _ e => e) _ _
  · exact h2

theorem verdictStep_corr (hc : SemCorr M L c c') (h : WSim id L w w') {r q : Rule} (hr : RuleCorr M r q) : StepSim id L (verdictStep c r w) (verdictStep c' q w') := by
  unfold verdictStep
  rw [hc.kernel, hc.flavor, hr.verdict]
  cases hv : r.verdict with
  | continue_ => exact h
  | redirect =>
    obtain ⟨h1, h2⟩ := hr.redirect hv
    rw [h1, h2]
    exact ⟨rfl, h.counters, h.mark, h.rng, h.clk, h.ring, h.state, h.logs, rfl⟩
  | accept => exact ⟨rfl, h⟩
  | drop => exact ⟨rfl, h⟩
  | next => exact ⟨rfl, h⟩

theorem applies_corr (hc : SemCorr M L c c') {ms ns : List Matcher} (hm : Each M ms ns) : applies c'.protoOk c'.sets ns = applies c.protoOk c.sets ms := by
  unfold applies
  induction hm with
  | nil => rfl
  | cons h1 h2x ih => simp only [List.all_cons]; rw [ih, hc.applies _ _ h1]

theorem evalRule_corr (hc : SemCorr M L c c') (h : WSim id L w w') {r q : Rule} (hr : RuleCorr M r q) : StepSim id L (evalRule c r w) (evalRule c' q w') := by
  unfold evalRule
  rw [hr.disabled, applies_corr hc hr.matchers]
  split
  · exact h
  · split
    · obtain ⟨h1, h2⟩ := matchAll_corr hc hr.matchers h
      dsimp only
      rw [h1]
      split
      · exact verdictStep_corr hc (actions_corr hc h2 hr) hr
      · exact h2
    · exact h

theorem evalRules_corr (hc : SemCorr M L c c') {rs qs : List Rule} (hr : Each (RuleCorr M) rs qs) : ∀ {w w' : World}, WSim id L w w' →
    StepSim id L (evalRules c rs w) (evalRules c' qs w') := by
  induction hr with
  | nil => exact fun h => h
  | cons h1 h2x ih =>
    rename_i r q rs qs
    intro w w' h
    simp only [evalRules]
    have hs := evalRule_corr hc h h1
    cases e1 : evalRule c r w with
    | cont w1 =>
      cases e2 : evalRule c' q w' with
      | cont w2 => rw [e1, e2] at hs; exact ih hs
      | stop r2 w2 => rw [e1, e2] at hs; exact hs.elim
    | stop r1 w1 =>
      cases e2 : evalRule c' q w' with
      | cont w2 => rw [e1, e2] at hs; exact hs.elim
      | stop r2 w2 => rw [e1, e2] at hs; exact hs

theorem evalView_corr (hc : SemCorr M L c c') {rs qs : List Rule} (hr : Each (RuleCorr M) rs qs) (policy : Verdict) (h : WSim id L w w') :
    (evalView c' policy qs w').1 = (evalView c policy rs w).1 ∧ WSim id L (evalView c policy rs w).2 (evalView c' policy qs w').2 := by
  have hs := evalRules_corr hc hr h
  unfold evalView
  cases e1 : evalRules c rs w with
  | cont w1 =>
    cases e2 : evalRules c' qs w' with
    | cont w2 =>
      rw [e1, e2] at hs
      dsimp only
      rw [hc.flavor, hc.size, ← hr.length]
      exact ⟨rfl, hs.count (fun _ _ e => e) _ _⟩
    | stop r2 w2 => rw [e1, e2] at hs; exact hs.elim
  | stop r1 w1 =>
    cases e2 : evalRules c' qs w' with
    | cont w2 => rw [e1, e2] at hs; exact hs.elim
    | stop r2 w2 => rw [e1, e2] at hs; exact hs

end Bf.Spec
