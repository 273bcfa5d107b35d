import Verif.Spec.Trace
/-!
# Lemmas on the course of an evaluation
-/
namespace Bf.Spec

variable {c : Sem} {rules : List Rule} {w w1 w2 wk : World} {k : Nat} {r : Rule} {policy : Verdict} {ret : BitVec 64}

/-- How many random numbers a failing rule draws is determined. -/
theorem Fails.unique {n m : Nat} (h1 : Fails c r w n) (h2 : Fails c r w m) : n = m := by
  have a := evalRule_fails h1
  have b := evalRule_fails h2
  rw [a] at b
  injection b with b
  have := congrArg World.rng b
  simp only [World.drew] at this
  omega

/-- A rule is reached in at most one state. -/
theorem Reaches.unique (h1 : Reaches c rules w k w1) (h2 : Reaches c rules w k w2) : w1 = w2 := by
  induction h1 generalizing w2 with
  | first => cases h2; rfl
  | skip _ hr hf ih =>
    cases h2 with
    | skip a b d =>
      cases ih a
      rw [hr] at b; cases b
      rw [hf.unique d]
    | goOn a b d _ =>
      cases ih a
      rw [hr] at b; cases b
      exact (d.not_fails hf).elim
  | goOn _ hr hf _ ih =>
    cases h2 with
    | skip a b d =>
      cases ih a
      rw [hr] at b; cases b
      exact (hf.not_fails d).elim
    | goOn a b _ _ =>
      cases ih a
      rw [hr] at b; cases b
      rfl

/-- A rule before one that is reached was reached, and did not decide. -/
theorem Reaches.before (h : Reaches c rules w k wk) {j : Nat} (hj : j < k) :
    ∃ q wj, rules[j]? = some q ∧ Reaches c rules w j wj ∧ (Fires c q wj → q.verdict = .continue_) := by
  induction h with
  | first => omega
  | skip h1 h2 h3 ih =>
    rename_i k n r wk
    by_cases e : j = k
    · subst e; exact ⟨_, _, h2, h1, fun hf => (hf.not_fails h3).elim⟩
    · exact ih (by omega)
  | goOn h1 h2 h3 h4 ih =>
    rename_i k r wk
    by_cases e : j = k
    · subst e; exact ⟨_, _, h2, h1, fun _ => h4⟩
    · exact ih (by omega)

/-- What is after a rule: reached iff the rule does not decide. -/
theorem Reaches.after (h : Reaches c rules w k wk) (hr : rules[k]? = some r) :
    (∃ w', Reaches c rules w (k + 1) w') ↔ (Fires c r wk → r.verdict = .continue_) := by
  constructor
  · rintro ⟨w', h'⟩ hf
    obtain ⟨q, wj, a, b, d⟩ := h'.before (Nat.lt_succ_self k)
    rw [hr] at a; cases a
    cases h.unique b
    exact d hf
  · intro hv
    rcases fires_or_fails c r wk with hf | ⟨n, hf⟩
    · exact ⟨_, .goOn h hr hf (hv hf)⟩
    · exact ⟨_, .skip h hr hf⟩

theorem fires_iff_congr {r r' : Rule} (h1 : w1.mark = w2.mark) (h2 : w1.rng = w2.rng) (hd : r.disabled = r'.disabled)
    (hm : r.matchers = r'.matchers) : Fires c r w1 ↔ Fires c r' w2 := by
  unfold Fires Matches
  rw [h1, h2, hd, hm]

/-! ### Actions -/

@[simp] theorem count_mark (size : BitVec 64) (j : Nat) (w : World) : (count size j w).mark = w.mark := rfl
@[simp] theorem count_rng (size : BitVec 64) (j : Nat) (w : World) : (count size j w).rng = w.rng := rfl
@[simp] theorem count_logs (size : BitVec 64) (j : Nat) (w : World) : (count size j w).logs = w.logs := rfl
@[simp] theorem count_state (size : BitVec 64) (j : Nat) (w : World) : (count size j w).state = w.state := rfl
@[simp] theorem count_clk (size : BitVec 64) (j : Nat) (w : World) : (count size j w).clk = w.clk := rfl
@[simp] theorem count_ring (size : BitVec 64) (j : Nat) (w : World) : (count size j w).ring = w.ring := rfl
@[simp] theorem count_redirect (size : BitVec 64) (j : Nat) (w : World) : (count size j w).redirect = w.redirect := rfl

@[simp] theorem drew_mark (w : World) (n : Nat) : (World.drew w n).mark = w.mark := rfl
@[simp] theorem drew_counters (w : World) (n : Nat) : (World.drew w n).counters = w.counters := rfl
@[simp] theorem drew_logs (w : World) (n : Nat) : (World.drew w n).logs = w.logs := rfl
@[simp] theorem drew_state (w : World) (n : Nat) : (World.drew w n).state = w.state := rfl
@[simp] theorem drew_clk (w : World) (n : Nat) : (World.drew w n).clk = w.clk := rfl
@[simp] theorem drew_ring (w : World) (n : Nat) : (World.drew w n).ring = w.ring := rfl
@[simp] theorem drew_redirect (w : World) (n : Nat) : (World.drew w n).redirect = w.redirect := rfl
@[simp] theorem drew_rng (w : World) (n : Nat) : (World.drew w n).rng = w.rng + n := rfl

theorem publish_keeps (c : Sem) (r : Rule) (w : World) : (publish c r w).mark = w.mark ∧ (publish c r w).rng = w.rng ∧
    (publish c r w).counters = w.counters ∧ (publish c r w).redirect = w.redirect ∧ (publish c r w).state = w.state := by
  unfold publish
  dsimp only
  split <;> exact ⟨rfl, rfl, rfl, rfl, rfl⟩

theorem logAction_keeps (c : Sem) (r : Rule) (w : World) : (logAction c r w).mark = w.mark ∧ (logAction c r w).rng = w.rng ∧
    (logAction c r w).counters = w.counters ∧ (logAction c r w).redirect = w.redirect ∧
    ∀ j, j ≠ r.index → (logAction c r w).state j = w.state j := by
  unfold logAction
  split
  · exact ⟨rfl, rfl, rfl, rfl, fun _ _ => rfl⟩
  · split
    · obtain ⟨a, b, d, e, f⟩ := publish_keeps c r w
      exact ⟨a, b, d, e, fun _ _ => by rw [f]⟩
    · dsimp only
      split
      · exact ⟨rfl, rfl, rfl, rfl, fun _ _ => rfl⟩
      · obtain ⟨a, b, d, e, f⟩ := publish_keeps c r
          { w with clk := w.clk + 1, state := fun i => (if i = r.index then c.kernel.clk w.clk else w.state i) }
        refine ⟨a, b, d, e, fun j hj => ?_⟩
        rw [f]
        simp [hj]

theorem actions_mark (c : Sem) (r : Rule) (w : World) :
    (actions c r w).mark = if r.mark >>> 32 ≠ 0 then r.mark.setWidth 32 else w.mark := by
  unfold actions
  dsimp only
  split <;> simp only [count_mark, (logAction_keeps c r _).1] <;> split <;> rfl

theorem actions_rng (c : Sem) (r : Rule) (w : World) : (actions c r w).rng = w.rng := by
  unfold actions
  dsimp only
  split <;> simp only [count_rng, (logAction_keeps c r _).2.1] <;> split <;> rfl

theorem actions_redirect (c : Sem) (r : Rule) (w : World) : (actions c r w).redirect = w.redirect := by
  unfold actions
  dsimp only
  split <;> simp only [count_redirect, (logAction_keeps c r _).2.2.2.1] <;> split <;> rfl

theorem actions_counters (c : Sem) (r : Rule) (w : World) (j : Nat) :
    (actions c r w).counters j = if j = r.index ∧ r.hasCounters = true then
      ((w.counters j).1 + 1, (w.counters j).2 + c.size) else w.counters j := by
  have e : ∀ w0 : World, (if r.mark >>> 32 ≠ 0 then { w0 with mark := r.mark.setWidth 32 } else w0).counters = w0.counters := by
    intro w0; split <;> rfl
  unfold actions
  dsimp only
  cases hc : r.hasCounters with
  | false => simp only [Bool.false_eq_true, if_false, and_false, (logAction_keeps c r _).2.2.1, e]
  | true =>
    simp only [if_true, count, (logAction_keeps c r _).2.2.1, e, and_true]
    by_cases hj : j = r.index
    · subst hj; simp
    · simp [hj]

theorem actions_logs (c : Sem) (r : Rule) (w : World) : (actions c r w).logs =
    (logAction c r (if r.mark >>> 32 ≠ 0 then { w with mark := r.mark.setWidth 32 } else w)).logs := by
  unfold actions
  dsimp only
  split <;> rfl

theorem actions_state (c : Sem) (r : Rule) (w : World) : (actions c r w).state =
    (logAction c r (if r.mark >>> 32 ≠ 0 then { w with mark := r.mark.setWidth 32 } else w)).state := by
  unfold actions
  dsimp only
  split <;> rfl

theorem actions_clk (c : Sem) (r : Rule) (w : World) : (actions c r w).clk =
    (logAction c r (if r.mark >>> 32 ≠ 0 then { w with mark := r.mark.setWidth 32 } else w)).clk := by
  unfold actions
  dsimp only
  split <;> rfl

end Bf.Spec
