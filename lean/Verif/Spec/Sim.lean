import Verif.Spec.TraceLemmas
/-!
# Evaluations that correspond

Two chains, evaluated from corresponding states, reach corresponding states.  Used to compare chains
that differ by rules that do not matter.
-/
namespace Bf.Spec

/-- Rules that are the same up to their index. -/
structure RuleSim (ρ : Nat → Nat) (r r' : Rule) : Prop where
  same : r' = { r with index := ρ r.index }

/-- Contexts that are the same, up to what is logged. -/
structure SemSim (ρ : Nat → Nat) (L : LogRec → LogRec → Prop) (c c' : Sem) : Prop where
  flavor : c'.flavor = c.flavor
  size : c'.size = c.size
  kernel : c'.kernel = c.kernel
  sets : c'.sets = c.sets
  protoOk : c'.protoOk = c.protoOk
  holds : c'.holds = c.holds
  entry : ∀ r now, L (c.entry r now) (c'.entry { r with index := ρ r.index } now)

/-- Lists of log entries that correspond. -/
inductive LogSim (L : LogRec → LogRec → Prop) : List LogRec → List LogRec → Prop
  | nil : LogSim L [] []
  | snoc {a b : List LogRec} {x y : LogRec} : LogSim L a b → L x y → LogSim L (a ++ [x]) (b ++ [y])

/-- States that correspond: counters and rate-limit state are renumbered by `ρ`. -/
structure WSim (ρ : Nat → Nat) (L : LogRec → LogRec → Prop) (w w' : World) : Prop where
  counters : ∀ j, w'.counters (ρ j) = w.counters j
  mark : w'.mark = w.mark
  rng : w'.rng = w.rng
  clk : w'.clk = w.clk
  ring : w'.ring = w.ring
  state : ∀ j, w'.state (ρ j) = w.state j
  logs : LogSim L w.logs w'.logs
  redirect : w'.redirect = w.redirect

/-- Outcomes that correspond. -/
def StepSim (ρ : Nat → Nat) (L : LogRec → LogRec → Prop) : Step → Step → Prop
  | .cont w, .cont w' => WSim ρ L w w'
  | .stop r w, .stop r' w' => r' = r ∧ WSim ρ L w w'
  | _, _ => False

variable {ρ : Nat → Nat} {L : LogRec → LogRec → Prop} {c c' : Sem} {w w' : World}

theorem WSim.count (h : WSim ρ L w w') (hρ : ∀ a b, ρ a = ρ b → a = b) (size : BitVec 64) (j : Nat) :
    WSim ρ L (count size j w) (count size (ρ j) w') where
  counters := by
    intro i
    simp only [Spec.count]
    by_cases hi : i = j
    · subst hi; simp [h.counters]
    · rw [if_neg (fun e => hi (hρ _ _ e)), if_neg hi]; exact h.counters i
  mark := h.mark
  rng := h.rng
  clk := h.clk
  ring := h.ring
  state := h.state
  logs := h.logs
  redirect := h.redirect

theorem WSim.drew (h : WSim ρ L w w') (n : Nat) : WSim ρ L (World.drew w n) (World.drew w' n) :=
  ⟨h.counters, h.mark, by simp [World.drew, h.rng], h.clk, h.ring, h.state, h.logs, h.redirect⟩

theorem matchAll_sim (hc : SemSim ρ L c c') (h : WSim ρ L w w') (ms : List Matcher) :
    (matchAll c' ms w').1 = (matchAll c ms w).1 ∧ WSim ρ L (matchAll c ms w).2 (matchAll c' ms w').2 := by
  induction ms generalizing w w' with
  | nil => exact ⟨rfl, h⟩
  | cons m ms ih =>
    unfold matchAll
    rw [hc.holds, hc.kernel, h.mark, h.rng]
    have hw : WSim ρ L (if m.type = .metaProbability then { w with rng := w.rng + 1 } else w)
        (if m.type = .metaProbability then { w' with mark := w.mark, rng := w.rng + 1 } else w') := by
      split
      · exact ⟨h.counters, rfl, rfl, h.clk, h.ring, h.state, h.logs, h.redirect⟩
      · exact h
    dsimp only
    split
    · exact ih hw
    · exact ⟨rfl, hw⟩

theorem publish_sim (hc : SemSim ρ L c c') (h : WSim ρ L w w') (r : Rule) :
    WSim ρ L (publish c r w) (publish c' { r with index := ρ r.index } w') := by
  unfold publish
  rw [hc.kernel, h.ring, h.clk]
  dsimp only
  split
  · exact ⟨h.counters, h.mark, h.rng, rfl, rfl, h.state, .snoc h.logs (hc.entry r _), h.redirect⟩
  · exact ⟨h.counters, h.mark, h.rng, rfl, rfl, h.state, h.logs, h.redirect⟩

theorem logAction_sim (hc : SemSim ρ L c c') (hρ : ∀ a b, ρ a = ρ b → a = b) (h : WSim ρ L w w') (r : Rule) :
    WSim ρ L (logAction c r w) (logAction c' { r with index := ρ r.index } w') := by
  unfold logAction
  dsimp only
  split
  · exact h
  · split
    · exact publish_sim hc h r
    · rw [hc.kernel, h.clk, h.state]
      split
      · exact ⟨h.counters, h.mark, h.rng, rfl, h.ring, h.state, h.logs, h.redirect⟩
      · refine publish_sim hc ?_ r
        refine ⟨h.counters, h.mark, h.rng, rfl, h.ring, ?_, h.logs, h.redirect⟩
        intro j
        by_cases hj : j = r.index
        · subst hj; simp
        · simp only
          rw [if_neg (fun e => hj (hρ _ _ e)), if_neg hj]; exact h.state j

theorem actions_sim (hc : SemSim ρ L c c') (hρ : ∀ a b, ρ a = ρ b → a = b) (h : WSim ρ L w w') (r : Rule) :
    WSim ρ L (actions c r w) (actions c' { r with index := ρ r.index } w') := by
  unfold actions
  dsimp only
  have h1 : WSim ρ L (if r.mark >>> 32 ≠ 0 then { w with mark := r.mark.setWidth 32 } else w)
      (if r.mark >>> 32 ≠ 0 then { w' with mark := r.mark.setWidth 32 } else w') := by
    split
    · exact ⟨h.counters, rfl, h.rng, h.clk, h.ring, h.state, h.logs, h.redirect⟩
    · exact h
  have h2 := logAction_sim hc hρ h1 r
  rw [hc.size]
  split
  · exact h2.count hρ _ _
  · exact h2

theorem verdictStep_sim (hc : SemSim ρ L c c') (h : WSim ρ L w w') (r : Rule) :
    StepSim ρ L (verdictStep c r w) (verdictStep c' { r with index := ρ r.index } w') := by
  unfold verdictStep
  dsimp only
  rw [hc.kernel, hc.flavor]
  cases r.verdict with
  | continue_ => exact h
  | redirect => exact ⟨rfl, h.counters, h.mark, h.rng, h.clk, h.ring, h.state, h.logs, rfl⟩
  | accept => exact ⟨rfl, h⟩
  | drop => exact ⟨rfl, h⟩
  | next => exact ⟨rfl, h⟩

theorem evalRule_sim (hc : SemSim ρ L c c') (hρ : ∀ a b, ρ a = ρ b → a = b) (h : WSim ρ L w w') (r : Rule) :
    StepSim ρ L (evalRule c r w) (evalRule c' { r with index := ρ r.index } w') := by
  unfold evalRule
  dsimp only
  rw [hc.protoOk, hc.sets]
  split
  · exact h
  · split
    · obtain ⟨h1, h2⟩ := matchAll_sim hc h r.matchers
      rw [h1]
      split
      · exact verdictStep_sim hc (actions_sim hc hρ h2 r) r
      · exact h2
    · exact h

/-- Corresponding rules. -/
theorem evalRules_sim (hc : SemSim ρ L c c') (hρ : ∀ a b, ρ a = ρ b → a = b) (h : WSim ρ L w w') (rules : List Rule) :
    StepSim ρ L (evalRules c rules w) (evalRules c' (rules.map fun r => { r with index := ρ r.index }) w') := by
  induction rules generalizing w w' with
  | nil => exact h
  | cons r rs ih =>
    simp only [evalRules, List.map_cons]
    have hr := evalRule_sim hc hρ h r
    cases h1 : evalRule c r w with
    | cont w1 =>
      cases h2 : evalRule c' { r with index := ρ r.index } w' with
      | cont w2 => rw [h1, h2] at hr; exact ih hr
      | stop r2 w2 => rw [h1, h2] at hr; exact hr.elim
    | stop r1 w1 =>
      cases h2 : evalRule c' { r with index := ρ r.index } w' with
      | cont w2 => rw [h1, h2] at hr; exact hr.elim
      | stop r2 w2 => rw [h1, h2] at hr; exact hr

theorem evalRules_append (c : Sem) (a b : List Rule) (w : World) :
    evalRules c (a ++ b) w = match evalRules c a w with
      | .cont w' => evalRules c b w'
      | s => s := by
  induction a generalizing w with
  | nil => rfl
  | cons r rs ih =>
    simp only [List.cons_append, evalRules]
    cases evalRule c r w with
    | cont w1 => exact ih w1
    | stop r1 w1 => rfl

/-- Nothing is known of the logs. -/
def AnyLog : LogRec → LogRec → Prop := fun _ _ => True

/-- Contexts that only differ by what is logged. -/
structure Alike (c c' : Sem) : Prop where
  flavor : c'.flavor = c.flavor
  size : c'.size = c.size
  kernel : c'.kernel = c.kernel
  sets : c'.sets = c.sets
  protoOk : c'.protoOk = c.protoOk
  holds : c'.holds = c.holds

theorem LogSim.refl_any (l : List LogRec) : LogSim AnyLog l l := by
  suffices ∀ n (l : List LogRec), l.length = n → LogSim AnyLog l l from this _ l rfl
  intro n
  induction n with
  | zero => intro l h; cases l with | nil => exact .nil | cons a l => simp at h
  | succ n ih =>
    intro l h
    have hne : l ≠ [] := by intro e; simp [e] at h
    have e := List.dropLast_concat_getLast hne
    rw [← e]
    exact .snoc (ih _ (by simp [h])) trivial

/-- Contexts that only differ by what is logged give outcomes that only differ by what is logged. -/
theorem Alike.evalView (h : Alike c c') (policy : Verdict) (rules : List Rule) (w : World) :
    (evalView c' policy rules w).1 = (evalView c policy rules w).1 ∧
    { (evalView c' policy rules w).2 with logs := (evalView c policy rules w).2.logs } = (evalView c policy rules w).2 := by
  have hc : SemSim id AnyLog c c' := ⟨h.flavor, h.size, h.kernel, h.sets, h.protoOk, h.holds, fun _ _ => trivial⟩
  have hw : WSim id AnyLog w w := ⟨fun _ => rfl, rfl, rfl, rfl, rfl, fun _ => rfl, LogSim.refl_any _, rfl⟩
  have ext : ∀ {a b : World}, WSim id AnyLog a b → { b with logs := a.logs } = a := by
    intro a b h
    have h1 : b.counters = a.counters := funext h.counters
    have h2 : b.state = a.state := funext h.state
    cases a; cases b
    have := h.mark; have := h.rng; have := h.clk; have := h.ring; have := h.redirect
    simp_all
  have hs := evalRules_sim hc (fun _ _ e => e) hw rules
  have hmap : (rules.map fun r => { r with index := id r.index }) = rules := by simp
  rw [hmap] at hs
  unfold Spec.evalView
  cases h1 : evalRules c rules w with
  | cont w1 =>
    cases h2 : evalRules c' rules w with
    | cont w2 =>
      rw [h1, h2] at hs
      simp only [h.flavor, h.size]
      exact ⟨trivial, ext (hs.count (fun _ _ e => e) c.size rules.length)⟩
    | stop r2 w2 => rw [h1, h2] at hs; exact hs.elim
  | stop r1 w1 =>
    cases h2 : evalRules c' rules w with
    | cont w2 => rw [h1, h2] at hs; exact hs.elim
    | stop r2 w2 => rw [h1, h2] at hs; exact ⟨hs.1, ext hs.2⟩

/-! ### Verdicts only -/

/-- The same rules, up to their index. -/
def SameRules (a b : List Rule) : Prop :=
  a.map (fun r => { r with index := 0 }) = b.map fun r => { r with index := 0 }

/-- What decides which rules fire. -/
structure VSim (w w' : World) : Prop where
  mark : w'.mark = w.mark
  rng : w'.rng = w.rng

/-- Outcomes with the same verdict. -/
def StepV : Step → Step → Prop
  | .cont w, .cont w' => VSim w w'
  | .stop r w, .stop r' w' => r' = r ∧ VSim w w'
  | _, _ => False

theorem fires_alike {r r' : Rule} (h : Alike c c') (hw : VSim w w')
    (hr : ({ r with index := 0 } : Rule) = { r' with index := 0 }) : Fires c' r' w' ↔ Fires c r w := by
  have e1 : r'.disabled = r.disabled := (congrArg Rule.disabled hr).symm
  have e2 : r'.matchers = r.matchers := (congrArg Rule.matchers hr).symm
  unfold Fires Matches
  rw [e1, e2, h.sets, h.protoOk, h.holds, h.kernel, hw.mark, hw.rng]

theorem fails_alike {r r' : Rule} {n : Nat} (h : Alike c c') (hw : VSim w w')
    (hr : ({ r with index := 0 } : Rule) = { r' with index := 0 }) (hf : Fails c r w n) : Fails c' r' w' n := by
  have e1 : r'.disabled = r.disabled := (congrArg Rule.disabled hr).symm
  have e2 : r'.matchers = r.matchers := (congrArg Rule.matchers hr).symm
  cases hf with
  | disabled hd => exact .disabled (e1.trans hd)
  | protocol a b d => exact .protocol (e2 ▸ a) (h.sets ▸ b) (h.protoOk ▸ d)
  | matcher a b d e f =>
    rw [← e2]
    refine .matcher (e1.trans a) ?_ (e2 ▸ d) ?_ ?_
    · rw [e2, h.sets, h.protoOk]; exact b
    · rw [h.holds, h.kernel, hw.mark, hw.rng, e2]; exact e
    · rw [h.holds, h.kernel, hw.mark, hw.rng, e2]; exact f

theorem evalRule_v {r r' : Rule} (h : Alike c c') (hw : VSim w w')
    (hr : ({ r with index := 0 } : Rule) = { r' with index := 0 }) : StepV (evalRule c r w) (evalRule c' r' w') := by
  have e2 : r'.matchers = r.matchers := (congrArg Rule.matchers hr).symm
  have e3 : r'.mark = r.mark := (congrArg Rule.mark hr).symm
  have e4 : r'.verdict = r.verdict := (congrArg Rule.verdict hr).symm
  have e5 : r'.redirIfindex = r.redirIfindex := (congrArg Rule.redirIfindex hr).symm
  have e6 : r'.redirDir = r.redirDir := (congrArg Rule.redirDir hr).symm
  rcases fires_or_fails c r w with hf | ⟨n, hf⟩
  · rw [evalRule_fires hf, evalRule_fires ((fires_alike h hw hr).mpr hf)]
    have hv : VSim (actions c r (World.drew w (draws r.matchers))) (actions c' r' (World.drew w' (draws r'.matchers))) :=
      ⟨by rw [actions_mark, actions_mark, e3, drew_mark, drew_mark, hw.mark],
       by rw [actions_rng, actions_rng, e2, drew_rng, drew_rng, hw.rng]⟩
    unfold verdictStep
    rw [e4, e5, e6, h.kernel, h.flavor]
    cases r.verdict with
    | continue_ => exact hv
    | redirect => exact ⟨rfl, hv.mark, hv.rng⟩
    | accept => exact ⟨rfl, hv⟩
    | drop => exact ⟨rfl, hv⟩
    | next => exact ⟨rfl, hv⟩
  · rw [evalRule_fails hf, evalRule_fails (fails_alike h hw hr hf)]
    exact ⟨hw.mark, by rw [drew_rng, drew_rng, hw.rng]⟩

/-- The same rules, from states with the same mark and random numbers, decide the same. -/
theorem evalRules_v (h : Alike c c') {a b : List Rule} (hs : SameRules a b) (hw : VSim w w') :
    StepV (evalRules c a w) (evalRules c' b w') := by
  induction a generalizing b w w' with
  | nil =>
    cases b with
    | nil => exact hw
    | cons x b => simp [SameRules] at hs
  | cons x a ih =>
    cases b with
    | nil => simp [SameRules] at hs
    | cons y b =>
      simp only [SameRules, List.map_cons, List.cons.injEq] at hs
      have h1 := evalRule_v h hw hs.1
      simp only [evalRules]
      cases hx : evalRule c x w with
      | cont w1 =>
        cases hy : evalRule c' y w' with
        | cont w2 => rw [hx, hy] at h1; exact ih hs.2 h1
        | stop r2 w2 => rw [hx, hy] at h1; exact h1.elim
      | stop r1 w1 =>
        cases hy : evalRule c' y w' with
        | cont w2 => rw [hx, hy] at h1; exact h1.elim
        | stop r2 w2 => rw [hx, hy] at h1; exact h1

/-- Alike contexts reach the same rules. -/
theorem Reaches.alike {rules : List Rule} (h : Alike c c') {k : Nat} {wk : World} (hh : Reaches c rules w k wk) :
    ∃ wk', Reaches c' rules w k wk' ∧ VSim wk wk' := by
  induction hh with
  | first => exact ⟨w, .first, rfl, rfl⟩
  | skip _ h2 h3 ih =>
    obtain ⟨w1, i1, i2⟩ := ih
    exact ⟨_, .skip i1 h2 (fails_alike h i2 rfl h3), i2.mark, by simp [i2.rng]⟩
  | goOn _ h2 h3 h4 ih =>
    obtain ⟨w1, i1, i2⟩ := ih
    refine ⟨_, .goOn i1 h2 ((fires_alike h i2 rfl).mpr h3) h4, ?_, ?_⟩
    · simp only [actions_mark, drew_mark, i2.mark]
    · simp only [actions_rng, drew_rng, i2.rng]

end Bf.Spec
