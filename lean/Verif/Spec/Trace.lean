import Verif.Spec.Sock
/-!
# Specification: the course of an evaluation

The same semantics as `evalView`, stated as what happens to each rule rather than as a function:
which rules are reached, which fire, who decides.
-/
namespace Bf.Spec

/-- Number of random numbers the matchers draw if all are evaluated. -/
def draws (ms : List Matcher) : Nat := (ms.filter fun m => m.type == .metaProbability).length

/-- All the matchers of a rule match: the protocols they are about are there, and each holds.  The
`n`-th `meta.probability` matcher uses the `n`-th next random number. -/
def Matches (c : Sem) (r : Rule) (w : World) : Prop :=
  (∀ m ∈ r.matchers, ∀ t ∈ typesOf c.sets m, c.protoOk t = true) ∧
  ∀ (i : Nat) (m : Matcher), r.matchers[i]? = some m →
    c.holds m w.mark (c.kernel.rng (w.rng + draws (r.matchers.take i))) = true

/-- An enabled rule whose matchers all match. -/
def Fires (c : Sem) (r : Rule) (w : World) : Prop := r.disabled = false ∧ Matches c r w

/-- The same state, with `n` more random numbers drawn. -/
def World.drew (w : World) (n : Nat) : World := { w with rng := w.rng + n }

/-- A rule does not fire, after drawing `n` random numbers: it is disabled, or a protocol is not there,
or its first matcher that does not hold was evaluated. -/
inductive Fails (c : Sem) (r : Rule) (w : World) : Nat → Prop
  | disabled : r.disabled = true → Fails c r w 0
  | protocol {m : Matcher} {t : MType} : m ∈ r.matchers → t ∈ typesOf c.sets m → c.protoOk t = false → Fails c r w 0
  | matcher {i : Nat} {m : Matcher} : r.disabled = false →
      (∀ m ∈ r.matchers, ∀ t ∈ typesOf c.sets m, c.protoOk t = true) → r.matchers[i]? = some m →
      c.holds m w.mark (c.kernel.rng (w.rng + draws (r.matchers.take i))) = false →
      (∀ (j : Nat) (q : Matcher), j < i → r.matchers[j]? = some q →
        c.holds q w.mark (c.kernel.rng (w.rng + draws (r.matchers.take j))) = true) →
      Fails c r w (draws (r.matchers.take (i + 1)))

/-- Rule `k` is reached, in state `wk`, when the rules are evaluated from state `w`: every rule before
did not fire, or fired with verdict CONTINUE. -/
inductive Reaches (c : Sem) (rules : List Rule) (w : World) : Nat → World → Prop
  | first : Reaches c rules w 0 w
  | skip {k n : Nat} {r : Rule} {wk : World} : Reaches c rules w k wk → rules[k]? = some r → Fails c r wk n →
      Reaches c rules w (k + 1) (World.drew wk n)
  | goOn {k : Nat} {r : Rule} {wk : World} : Reaches c rules w k wk → rules[k]? = some r → Fires c r wk →
      r.verdict = .continue_ → Reaches c rules w (k + 1) (actions c r (World.drew wk (draws r.matchers)))

/-- The value returned for a rule that decides. -/
def ruleRet (c : Sem) (r : Rule) : BitVec 64 :=
  match r.verdict with
  | .redirect => c.kernel.redirectRet r.redirIfindex (if r.redirDir = .ingress then 1 else 0)
  | v => BitVec.ofInt 64 ((retCode c.flavor v).getD 0)

/-- The state after a rule that decides. -/
def ruleEnd (r : Rule) (w : World) : World :=
  match r.verdict with
  | .redirect => { w with redirect := some (r.redirIfindex, if r.redirDir = .ingress then 1 else 0) }
  | _ => w

/-- How an evaluation ends: a rule that is reached fires and has a terminal verdict, or no such rule
exists and the policy applies. -/
inductive Decides (c : Sem) (policy : Verdict) (rules : List Rule) (w : World) : BitVec 64 → World → Prop
  | rule {k : Nat} {r : Rule} {wk : World} : Reaches c rules w k wk → rules[k]? = some r → Fires c r wk →
      r.verdict ≠ .continue_ → Decides c policy rules w (ruleRet c r)
        (ruleEnd r (actions c r (World.drew wk (draws r.matchers))))
  | policy {wk : World} : Reaches c rules w rules.length wk →
      Decides c policy rules w (BitVec.ofInt 64 ((retCode c.flavor policy).getD 0)) (count c.size rules.length wk)

theorem draws_cons (m : Matcher) (ms : List Matcher) :
    draws (m :: ms) = (if m.type = .metaProbability then 1 else 0) + draws ms := by
  unfold draws
  by_cases h : m.type = .metaProbability <;> simp [h]; omega

theorem drew_zero (w : World) : World.drew w 0 = w := rfl

theorem drew_drew (w : World) (a b : Nat) : World.drew (World.drew w a) b = World.drew w (a + b) := by
  simp [World.drew, Nat.add_assoc]

/-- Left-to-right evaluation of matchers. -/
theorem matchAll_true (c : Sem) (ms : List Matcher) (w : World) (h : ∀ (i : Nat) (m : Matcher), ms[i]? = some m →
      c.holds m w.mark (c.kernel.rng (w.rng + draws (ms.take i))) = true) :
    matchAll c ms w = (true, World.drew w (draws ms)) := by
  induction ms generalizing w with
  | nil => rfl
  | cons m ms ih =>
    unfold matchAll
    have e : (if m.type = .metaProbability then { w with rng := w.rng + 1 } else w) =
        World.drew w (if m.type = .metaProbability then 1 else 0) := by
      split <;> rfl
    have h0 : c.holds m w.mark (c.kernel.rng w.rng) = true := by simpa [draws] using h 0 m rfl
    simp only [e, h0, if_true]
    rw [ih, drew_drew, draws_cons]
    intro i m' hi
    have := h (i + 1) m' hi
    simpa [World.drew, draws_cons, Nat.add_assoc] using this

theorem matchAll_false (c : Sem) (ms : List Matcher) (w : World) (i : Nat) (m : Matcher) (hi : ms[i]? = some m)
    (hf : c.holds m w.mark (c.kernel.rng (w.rng + draws (ms.take i))) = false)
    (h : ∀ (j : Nat) (q : Matcher), j < i → ms[j]? = some q →
      c.holds q w.mark (c.kernel.rng (w.rng + draws (ms.take j))) = true) :
    matchAll c ms w = (false, World.drew w (draws (ms.take (i + 1)))) := by
  induction ms generalizing w i with
  | nil => simp at hi
  | cons q ms ih =>
    unfold matchAll
    have e : (if q.type = .metaProbability then { w with rng := w.rng + 1 } else w) =
        World.drew w (if q.type = .metaProbability then 1 else 0) := by
      split <;> rfl
    cases i with
    | zero =>
      cases hi
      have h0 : c.holds m w.mark (c.kernel.rng w.rng) = false := by simpa [draws] using hf
      simp only [e, h0, Bool.false_eq_true, if_false]
      show (false, _) = (false, World.drew w (draws [m]))
      rw [draws_cons]
      rfl
    | succ i =>
      have h0 : c.holds q w.mark (c.kernel.rng w.rng) = true := by simpa [draws] using h 0 q (by omega) rfl
      simp only [e, h0, if_true]
      rw [ih _ i hi, drew_drew]
      · rw [List.take_succ_cons, draws_cons]
      · simpa [World.drew, draws_cons, Nat.add_assoc] using hf
      · intro j q' hj hq
        have := h (j + 1) q' (by omega) hq
        simpa [World.drew, draws_cons, Nat.add_assoc] using this

/-- Either all matchers hold, or one is the first that does not. -/
theorem hold_or_first (P : Nat → Matcher → Prop) [∀ i m, Decidable (P i m)] (ms : List Matcher) :
    (∀ (i : Nat) (m : Matcher), ms[i]? = some m → P i m) ∨
    ∃ i m, ms[i]? = some m ∧ ¬ P i m ∧ ∀ (j : Nat) (q : Matcher), j < i → ms[j]? = some q → P j q := by
  induction ms generalizing P with
  | nil => left; intro i m h; simp at h
  | cons m ms ih =>
    by_cases h0 : P 0 m
    · rcases ih (fun i m => P (i + 1) m) with h | ⟨i, q, h1, h2, h3⟩
      · left
        intro i q hi
        cases i with
        | zero => cases hi; exact h0
        | succ i => exact h i q hi
      · right
        refine ⟨i + 1, q, h1, h2, ?_⟩
        intro j q' hj hq
        cases j with
        | zero => cases hq; exact h0
        | succ j => exact h3 j q' (by omega) hq
    · exact Or.inr ⟨0, m, rfl, h0, fun j _ hj => by omega⟩

theorem applies_iff (c : Sem) (ms : List Matcher) : applies c.protoOk c.sets ms = true ↔
    ∀ m ∈ ms, ∀ t ∈ typesOf c.sets m, c.protoOk t = true := by
  simp [applies, List.all_eq_true]

/-- A rule that fires. -/
theorem evalRule_fires {c : Sem} {r : Rule} {w : World} (h : Fires c r w) :
    evalRule c r w = verdictStep c r (actions c r (World.drew w (draws r.matchers))) := by
  unfold evalRule
  rw [h.1]
  simp only [Bool.false_eq_true, if_false]
  rw [(applies_iff c r.matchers).mpr h.2.1, matchAll_true c _ _ h.2.2]
  simp only [if_true]

/-- A rule that does not. -/
theorem evalRule_fails {c : Sem} {r : Rule} {w : World} {n : Nat} (h : Fails c r w n) :
    evalRule c r w = .cont (World.drew w n) := by
  unfold evalRule
  cases h with
  | disabled h => rw [h]; rfl
  | protocol hm ht hp =>
    have ha : applies c.protoOk c.sets r.matchers = false := by
      cases h : applies c.protoOk c.sets r.matchers with
      | false => rfl
      | true =>
        have := (applies_iff c r.matchers).mp h _ hm _ ht
        rw [hp] at this; cases this
    rw [ha]
    split <;> rfl
  | matcher hd ha hi hf hb =>
    rw [hd, (applies_iff c r.matchers).mpr ha, matchAll_false c _ _ _ _ hi hf hb]
    rfl

/-- A rule fires or does not. -/
theorem fires_or_fails (c : Sem) (r : Rule) (w : World) : Fires c r w ∨ ∃ n, Fails c r w n := by
  cases hd : r.disabled with
  | true => exact Or.inr ⟨_, .disabled hd⟩
  | false =>
    cases ha : applies c.protoOk c.sets r.matchers with
    | false =>
      right
      unfold applies at ha
      rw [List.all_eq_false] at ha
      obtain ⟨m, hm, h⟩ := ha
      rw [Bool.not_eq_true, List.all_eq_false] at h
      obtain ⟨t, ht, h⟩ := h
      exact ⟨_, .protocol hm ht (by simpa using h)⟩
    | true =>
      have ha := (applies_iff c r.matchers).mp ha
      rcases hold_or_first (fun i m => c.holds m w.mark (c.kernel.rng (w.rng + draws (r.matchers.take i))) = true)
        r.matchers with h | ⟨i, m, h1, h2, h3⟩
      · exact Or.inl ⟨hd, ha, h⟩
      · exact Or.inr ⟨_, .matcher hd ha h1 (by simpa using h2) h3⟩

/-- Not both. -/
theorem Fires.not_fails {c : Sem} {r : Rule} {w : World} {n : Nat} (h : Fires c r w) (hf : Fails c r w n) : False := by
  cases hf with
  | disabled hd => rw [h.1] at hd; cases hd
  | protocol hm ht hp => rw [h.2.1 _ hm _ ht] at hp; cases hp
  | matcher _ _ hi hf _ => rw [h.2.2 _ _ hi] at hf; cases hf

theorem Reaches.le {c : Sem} {rules : List Rule} {w wk : World} {k : Nat} (h : Reaches c rules w k wk) :
    k ≤ rules.length := by
  cases h with
  | first => omega
  | skip _ h _ => have := (List.getElem?_eq_some_iff.mp h).1; omega
  | goOn _ h _ _ => have := (List.getElem?_eq_some_iff.mp h).1; omega

/-- A step before an evaluation. -/
theorem Reaches.cons {c : Sem} {r0 : Rule} {rules : List Rule} {w w1 wk : World} {k : Nat}
    (h0 : Reaches c (r0 :: rules) w 1 w1) (h : Reaches c rules w1 k wk) : Reaches c (r0 :: rules) w (k + 1) wk := by
  induction h with
  | first => exact h0
  | skip _ h2 h3 ih => exact .skip ih (by simpa using h2) h3
  | goOn _ h2 h3 h4 ih => exact .goOn ih (by simpa using h2) h3 h4

/-- Evaluating the rules as a function, and as a course of events. -/
theorem evalRules_spec (c : Sem) (rules : List Rule) (w : World) :
    match evalRules c rules w with
    | .cont w' => Reaches c rules w rules.length w'
    | .stop ret w' => ∃ k r wk, Reaches c rules w k wk ∧ rules[k]? = some r ∧ Fires c r wk ∧ r.verdict ≠ .continue_ ∧
        ret = ruleRet c r ∧ w' = ruleEnd r (actions c r (World.drew wk (draws r.matchers))) := by
  induction rules generalizing w with
  | nil => exact .first
  | cons r rs ih =>
    have lift : ∀ w1, Reaches c (r :: rs) w 1 w1 → evalRule c r w = .cont w1 →
        match evalRules c (r :: rs) w with
        | .cont w' => Reaches c (r :: rs) w (rs.length + 1) w'
        | .stop ret w' => ∃ k q wk, Reaches c (r :: rs) w k wk ∧ (r :: rs)[k]? = some q ∧ Fires c q wk ∧
            q.verdict ≠ .continue_ ∧ ret = ruleRet c q ∧ w' = ruleEnd q (actions c q (World.drew wk (draws q.matchers))) := by
      intro w1 h1 he
      have h := ih w1
      simp only [evalRules, he]
      cases hr : evalRules c rs w1 with
      | cont w' => rw [hr] at h; exact h1.cons h
      | stop ret w' =>
        rw [hr] at h
        obtain ⟨k, q, wk, a1, a2, a3, a4, a5, a6⟩ := h
        exact ⟨k + 1, q, wk, h1.cons a1, by simpa using a2, a3, a4, a5, a6⟩
    rcases fires_or_fails c r w with hf | ⟨n, hf⟩
    · have he := evalRule_fires hf
      by_cases hv : r.verdict = .continue_
      · refine lift _ (.goOn .first rfl hf hv) ?_
        rw [he]; simp only [verdictStep, hv]
      · have hs : evalRule c r w = .stop (ruleRet c r) (ruleEnd r (actions c r (World.drew w (draws r.matchers)))) := by
          rw [he]
          unfold verdictStep ruleRet ruleEnd
          cases h : r.verdict <;> simp_all
        simp only [evalRules, hs]
        exact ⟨0, r, w, .first, rfl, hf, hv, rfl, rfl⟩
    · exact lift _ (.skip .first rfl hf) (evalRule_fails hf)

/-- The two forms of the specification agree. -/
theorem evalView_decides (c : Sem) (policy : Verdict) (rules : List Rule) (w : World) :
    Decides c policy rules w (evalView c policy rules w).1 (evalView c policy rules w).2 := by
  have h := evalRules_spec c rules w
  unfold evalView
  cases hr : evalRules c rules w with
  | cont w' => rw [hr] at h; exact .policy h
  | stop ret w' =>
    rw [hr] at h
    obtain ⟨k, r, wk, a1, a2, a3, a4, a5, a6⟩ := h
    subst a5; subst a6
    exact .rule a1 a2 a3 a4

/-- Where a rule is reached, evaluation from there. -/
theorem Reaches.eval {c : Sem} {rules : List Rule} {w wk : World} {k : Nat} (h : Reaches c rules w k wk) :
    evalRules c rules w = evalRules c (rules.drop k) wk := by
  have step : ∀ {k : Nat} {r : Rule} {w0 w1 : World}, rules[k]? = some r → evalRule c r w0 = .cont w1 →
      evalRules c (rules.drop k) w0 = evalRules c (rules.drop (k + 1)) w1 := by
    intro k r w0 w1 hk he
    obtain ⟨hl, hk⟩ := List.getElem?_eq_some_iff.mp hk
    rw [List.drop_eq_getElem_cons hl, hk]
    simp only [evalRules, he]
  induction h with
  | first => simp
  | skip _ h2 h3 ih => rw [ih]; exact step h2 (evalRule_fails h3)
  | goOn _ h2 h3 h4 ih =>
    rw [ih]
    refine step h2 ?_
    rw [evalRule_fires h3]
    simp only [verdictStep, h4]

/-- The course of events determines the outcome. -/
theorem Decides.eval {c : Sem} {policy : Verdict} {rules : List Rule} {w w' : World} {ret : BitVec 64}
    (h : Decides c policy rules w ret w') : evalView c policy rules w = (ret, w') := by
  unfold evalView
  cases h with
  | rule h1 h2 h3 h4 =>
    rename_i k r wk
    obtain ⟨hl, hk⟩ := List.getElem?_eq_some_iff.mp h2
    rw [h1.eval, List.drop_eq_getElem_cons hl, hk]
    simp only [evalRules, evalRule_fires h3]
    unfold verdictStep ruleRet ruleEnd
    cases hv : r.verdict <;> simp_all
  | policy h1 =>
    rw [h1.eval]
    simp [evalRules]

/-- The two forms of the specification are the same. -/
theorem decides_iff {c : Sem} {policy : Verdict} {rules : List Rule} {w w' : World} {ret : BitVec 64} :
    Decides c policy rules w ret w' ↔ evalView c policy rules w = (ret, w') := by
  refine ⟨Decides.eval, fun h => ?_⟩
  have := evalView_decides c policy rules w
  rw [h] at this
  exact this

end Bf.Spec
