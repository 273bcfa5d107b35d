import Verif.Props.Compare
/-!
# C02: CONTINUE is not terminal
-/
namespace Bf
open Spec

variable {E E' : Env} {chain chain' : Chain} {thr : Nat → BitVec 32} {img img' : List Insn} {w w' u u' : World}
  {r r' : BitVec 64}

/-- **C02.**  When a rule with verdict CONTINUE fires, its actions (mark, log, counter) apply and the next
rule is reached (or the policy, after the last rule), in the state the actions left. -/
theorem C02_goes_on (c : Sem) {k : Nat} {rule : Rule} {wk : World} (hk : chain.rules[k]? = some rule)
    (hreach : Reaches c chain.rules w k wk) (hf : Fires c rule wk) (hv : rule.verdict = .continue_) :
    ∃ w2, Reaches c chain.rules w (k + 1) w2 ∧
      w2.mark = (if rule.mark >>> 32 ≠ 0 then rule.mark.setWidth 32 else wk.mark) ∧
      (∀ j, w2.counters j = if j = rule.index ∧ rule.hasCounters = true then
        ((wk.counters j).1 + 1, (wk.counters j).2 + c.size) else wk.counters j) ∧
      (rule.log = 0 → w2.logs = wk.logs) ∧
      (rule.log ≠ 0 → rule.rate = 0 → c.kernel.ringOk wk.ring = true →
        w2.logs = wk.logs ++ [c.entry rule (c.kernel.clk wk.clk)]) := by
  refine ⟨_, .goOn hreach hk hf hv, actions_mark .., fun j => actions_counters .., ?_, ?_⟩
  · intro h
    rw [actions_logs, logAction, if_pos h]
    split <;> rfl
  · intro h1 h2 h3
    rw [actions_logs, logAction, if_neg h1, if_pos h2, publish]
    split
    all_goals
      dsimp only
      simp only [drew_ring, h3, if_true]
      rfl

/-- A CONTINUE rule never decides. -/
theorem C02_never_decides (h : IsLoaded E chain thr img) (hr : Runs E img w r w') {c : Sem} (hc : Sees E chain thr c)
    (hall : ∀ rule ∈ chain.rules, rule.verdict = .continue_) :
    r = BitVec.ofInt 64 ((retCode chain.hook.flavor chain.policy).getD 0) := by
  rcases C01_first_match h hr hc with ⟨k, rule, wk, h1, _, _, h4, _⟩ | ⟨_, e⟩
  · exact absurd (hall rule (List.mem_of_getElem? h1)) h4
  · exact e

/-- **C02.**  Removing a rule with verdict CONTINUE (that sets no mark and draws no random number) changes
neither the returned value nor the mark: the same rule, or the policy, decides. -/
theorem C02_removal {a b : List Rule} {x : Rule}
    (h : IsLoaded E chain thr img) (h' : IsLoaded E' chain' thr img') (hE : SameArrival E E')
    (hook : chain'.hook = chain.hook) (hpol : chain'.policy = chain.policy) (hsets : chain'.sets = chain.sets)
    (hnh : chain'.flagNexthdr = chain.flagNexthdr)
    (hrules : chain.rules = a ++ x :: b) (hrules' : SameRules (a ++ b) chain'.rules)
    (hx : x.verdict = .continue_) (hxm : x.mark >>> 32 = 0) (hxd : draws x.matchers = 0)
    (hm : u.mark = w.mark) (hrng : u.rng = w.rng)
    (hr : Runs E img w r w') (hr' : Runs E' img' u r' u') : r' = r ∧ u'.mark = w'.mark := by
  rcases h.outcome hr with ⟨hu, e⟩ | ⟨c, hc, hd⟩
  · rcases h'.outcome hr' with ⟨_, e'⟩ | ⟨c', hc', _⟩
    · rw [hook] at e'
      injection e with e1 e2
      injection e' with e1' e2'
      rw [e1, e1', e2, e2']
      exact ⟨rfl, hm⟩
    · exact absurd ((hE.unreadable hook hnh).mpr hu) hc'.readable
  · rcases h'.outcome hr' with ⟨hu', _⟩ | ⟨c', hc', hd'⟩
    · exact absurd ((hE.unreadable hook hnh).mp hu') hc.readable
    · have hal := hE.alike hook hnh hsets hc hc'
      have e := decides_iff.mp hd
      have e' := decides_iff.mp hd'
      -- without the rule, in the first context
      have hw : VSim w u := ⟨hm, hrng⟩
      have key : StepV (evalRules c chain.rules w) (evalRules c' chain'.rules u) := by
        have hwo := evalRules_v hal hrules' hw
        suffices hh : StepV (evalRules c chain.rules w) (evalRules c (a ++ b) w) by
          revert hwo hh
          cases evalRules c chain.rules w <;> cases evalRules c (a ++ b) w <;> cases evalRules c' chain'.rules u
          all_goals simp only [StepV]
          all_goals intro h1 h2
          all_goals first | exact h1.elim | exact h2.elim | skip
          · exact ⟨h1.mark.trans h2.mark, h1.rng.trans h2.rng⟩
          · exact ⟨h1.1.trans h2.1, h1.2.mark.trans h2.2.mark, h1.2.rng.trans h2.2.rng⟩
        rw [hrules, evalRules_append, evalRules_append]
        cases evalRules c a w with
        | stop r1 w1 => exact ⟨rfl, rfl, rfl⟩
        | cont w1 =>
          dsimp only
          have hstep : ∃ w2, evalRule c x w1 = .cont w2 ∧ VSim w2 w1 := by
            rcases fires_or_fails c x w1 with hf | ⟨n, hf⟩
            · refine ⟨actions c x (World.drew w1 (draws x.matchers)), ?_, ?_⟩
              · rw [evalRule_fires hf]; simp only [verdictStep, hx]
              · refine ⟨?_, ?_⟩
                · rw [actions_mark, if_neg (by rw [hxm]; simp)]; rfl
                · rw [actions_rng, hxd]; rfl
            · have hn : n = 0 := by
                cases hf with
                | disabled => rfl
                | protocol => rfl
                | matcher =>
                  rename_i i m _ _ _ _ _
                  have : draws (x.matchers.take (i + 1)) ≤ draws x.matchers := by
                    unfold draws
                    exact ((List.take_sublist _ _).filter _).length_le
                  omega
              subst hn
              exact ⟨_, evalRule_fails hf, rfl, rfl⟩
          obtain ⟨w2, e2, hv⟩ := hstep
          simp only [evalRules, e2]
          exact evalRules_v ⟨rfl, rfl, rfl, rfl, rfl, rfl⟩ rfl hv
      have ef : c'.flavor = c.flavor := hal.flavor
      unfold evalView at e e'
      rcases hA : evalRules c chain.rules w with w1 | ⟨r1, w1⟩ <;>
        rcases hB : evalRules c' chain'.rules u with w2 | ⟨r2, w2⟩ <;> rw [hA, hB] at key <;>
        rw [hA] at e <;> rw [hB] at e'
      · injection e with e1 e2
        injection e' with e1' e2'
        rw [← e1, ← e1', ← e2, ← e2', hpol, ef]
        exact ⟨rfl, key.mark⟩
      · exact key.elim
      · exact key.elim
      · injection e with e1 e2
        injection e' with e1' e2'
        rw [← e1, ← e1', ← e2, ← e2']
        exact ⟨key.1, key.2.mark⟩

namespace Sample

/-- The sample chain without its first rule. -/
def short : Chain where
  name := "short"
  hook := .xdp
  policy := .accept
  sets := [set0]
  rules := [rule [mSet] .drop, { rule [mSaddr, mDport] .drop with index := 1 }]
  flagLog := false
  flagRate := false
  flagNexthdr := false

theorem short_new : chainNew "short" .xdp .accept [set0] [rule [mSet] .drop, rule [mSaddr, mDport] .drop] = .ok short := by
  decide

theorem short_loaded : ∃ img, IsLoaded (envOf base short) short Sample.thr img := by
  obtain ⟨img, h⟩ := compiles_of (chain := short) (thr := Sample.thr) (slen := slen) (by decide +kernel)
  exact ⟨img, .of_compile (.new short_new) (by decide) sets (by decide) (by decide) (by intro h; cases h) h⟩

end Sample

/-- The hypotheses of `C02_removal` are met: the sample chain, and the sample without its first rule. -/
example : ∃ img img', IsLoaded (envOf Sample.base Sample.chain) Sample.chain Sample.thr img ∧
    IsLoaded (envOf Sample.base Sample.short) Sample.short Sample.thr img' ∧
    SameArrival (envOf Sample.base Sample.chain) (envOf Sample.base Sample.short) ∧
    ∃ (a b : List Rule) (x : Rule), Sample.chain.rules = a ++ x :: b ∧ x.verdict = .continue_ ∧ x.mark >>> 32 = 0 ∧ draws x.matchers = 0 ∧
      SameRules (a ++ b) Sample.short.rules ∧ Sample.short.flagNexthdr = Sample.chain.flagNexthdr := by
  obtain ⟨img, h⟩ := Sample.loaded
  obtain ⟨img', h'⟩ := Sample.short_loaded
  exact ⟨img, img', h, h', ⟨rfl, rfl, rfl, rfl, rfl, rfl, rfl, rfl, rfl, rfl, rfl, rfl, rfl, rfl, rfl⟩,
    [], _, _, rfl, rfl, rfl, rfl, rfl, rfl⟩

end Bf
