import Verif.Spec.Support
import Verif.Frag.TotalC
import Verif.Props.Sample
/-!
# C16: chains a hook cannot evaluate are rejected, the others can be compiled
-/
namespace Bf

variable {name : String} {hook : Hook} {policy : Verdict} {sets : List BSet} {rules : List Rule} {c chain : Chain}

/-- The table of the code agrees with the specification. -/
theorem offers_iff (t : MType) (h : Hook) : t ∈ Spec.offers h ↔ t.unsupported h = false := by
  cases h <;> cases t <;> decide

theorem marks_iff (h : Hook) : Spec.marks h ↔ h.flavor = .tc ∨ h.flavor = .cgroupSkb := by
  cases h <;> simp [Spec.marks, Hook.flavor]

theorem onSocket_iff (h : Hook) : Spec.onSocket h ↔ h.flavor = .sockAddr := by
  cases h <;> simp [Spec.onSocket, Hook.flavor]

/-- Matchers designating a set hold its number. -/
def Refs (rules : List Rule) : Prop := ∀ r ∈ rules, ∀ m ∈ r.matchers, m.type = .set → 4 ≤ m.payload.length

theorem rd_num {p : List Byte} (h : 4 ≤ p.length) : rd p 0 4 = .ok (Spec.host p 0 4) := by
  simp [rd, h, Spec.host]

theorem refsEmpty_total {ms : List Matcher} (hp : ∀ m ∈ ms, m.type = .set → 4 ≤ m.payload.length)
    (hs : ∀ m ∈ ms, m.type = .set → ∃ s, Spec.setOf sets m = some s) : ∃ e, refsEmpty sets ms = .ok e := by
  induction ms with
  | nil => exact ⟨_, rfl⟩
  | cons m ms ih =>
    have ih := ih (fun m' h => hp m' (List.mem_cons_of_mem _ h)) fun m' h => hs m' (List.mem_cons_of_mem _ h)
    unfold refsEmpty
    by_cases ht : m.type = .set
    · rw [if_neg (by simp [ht]), rd_num (hp m (List.mem_cons_self ..) ht)]
      obtain ⟨s, h⟩ := hs m (List.mem_cons_self ..) ht
      unfold Spec.setOf at h
      simp only [Res.ok_bind', h]
      split
      · exact ⟨_, rfl⟩
      · exact ih
    · rw [if_pos ht]; exact ih

theorem incompatible_total {ms : List Matcher} (hp : ∀ m ∈ ms, m.type = .set → 4 ≤ m.payload.length)
    (hs : ∀ m ∈ ms, m.type = .set → ∃ s, Spec.setOf sets m = some s) (ids : LayerIds) :
    ∃ e, incompatible sets ms ids = .ok e := by
  induction ms generalizing ids with
  | nil => exact ⟨_, rfl⟩
  | cons m ms ih =>
    have ih := fun ids => ih (fun m' h => hp m' (List.mem_cons_of_mem _ h))
      (fun m' h => hs m' (List.mem_cons_of_mem _ h)) ids
    unfold incompatible
    by_cases ht : m.type = .set
    · rw [if_pos ht, rd_num (hp m (List.mem_cons_self ..) ht)]
      obtain ⟨s, h⟩ := hs m (List.mem_cons_self ..) ht
      unfold Spec.setOf at h
      simp only [Res.ok_bind', h]
      cases checkLayers s.key ids with
      | none => exact ⟨_, rfl⟩
      | some ids' => exact ih ids'
    · rw [if_neg ht]
      simp only [Res.ok_bind']
      cases checkLayer m.type ids with
      | none => exact ⟨_, rfl⟩
      | some ids' => exact ih ids'

theorem checkHooks_total {ms : List Matcher} (hp : ∀ m ∈ ms, m.type = .set → 4 ≤ m.payload.length)
    (hs : ∀ m ∈ ms, m.type = .set → ∃ s, Spec.setOf sets m = some s ∧ ∀ t ∈ s.key, t ∈ Spec.offers hook)
    (ht : ∀ m ∈ ms, m.type ∈ Spec.offers hook) : checkHooks hook sets ms = .ok () := by
  induction ms with
  | nil => rfl
  | cons m ms ih =>
    have ih := ih (fun m' h => hp m' (List.mem_cons_of_mem _ h)) (fun m' h => hs m' (List.mem_cons_of_mem _ h))
      fun m' h => ht m' (List.mem_cons_of_mem _ h)
    unfold checkHooks checkHook
    rw [if_neg (by simp [(offers_iff _ _).mp (ht m (List.mem_cons_self ..))])]
    by_cases hm : m.type = .set
    · rw [if_pos hm, rd_num (hp m (List.mem_cons_self ..) hm)]
      obtain ⟨s, h, hk⟩ := hs m (List.mem_cons_self ..) hm
      unfold Spec.setOf at h
      simp only [Res.ok_bind', h]
      rw [if_neg (by
        simp only [List.any_eq_true, not_exists, not_and, Bool.not_eq_true]
        exact fun t h => (offers_iff _ _).mp (hk t h))]
      exact ih
    · rw [if_neg hm]; exact ih

/-- A rule passes validation if and only if the hook can evaluate it. -/
theorem checkRule_iff {r : Rule} (hp : ∀ m ∈ r.matchers, m.type = .set → 4 ≤ m.payload.length) :
    (∃ p, checkRule c r = .ok p) ↔ Spec.Evaluable c.hook c.sets r := by
  constructor
  · rintro ⟨⟨c', r'⟩, h⟩
    have ok := checkRule_ruleOk h
    obtain ⟨d, rfl, rfl, _⟩ := checkRule_ok h
    refine ⟨fun m hm => (offers_iff _ _).mpr (ok.supp m hm), ?_, fun h => (marks_iff _).mpr (ok.mark h),
      fun h => ok.logSock ((onSocket_iff _).mp h)⟩
    intro m hm ht
    obtain ⟨s, h1, h2⟩ := ok.set m hm ht
    refine ⟨s, h1, fun t h => (offers_iff _ _).mpr ?_⟩
    rw [List.any_eq_false] at h2
    simpa using h2 t h
  · intro h
    have hs : ∀ m ∈ r.matchers, m.type = .set → ∃ s, Spec.setOf c.sets m = some s := fun m hm ht =>
      (h.sets m hm ht).imp fun _ h => h.1
    obtain ⟨e, h1⟩ := refsEmpty_total hp hs
    obtain ⟨d, h2⟩ := incompatible_total hp hs fun _ => none
    unfold checkRule
    rw [h1]
    simp only [Res.ok_bind']
    have : ∃ d, (if e = true then Res.ok true else incompatible c.sets r.matchers (fun _ => none)) = .ok d := by
      split
      · exact ⟨_, rfl⟩
      · exact ⟨_, h2⟩
    obtain ⟨d', h3⟩ := this
    rw [h3]
    simp only [Res.ok_bind']
    rw [if_neg (by
      rintro ⟨a, b, d⟩
      rcases h.log ((onSocket_iff _).mpr d) with h | h
      · exact a h
      · exact b h),
      if_neg (by
      rintro ⟨a, b, d⟩
      rcases (marks_iff _).mp (h.mark a) with h | h
      · exact b h
      · exact d h), checkHooks_total hp h.sets h.types]
    exact ⟨_, rfl⟩

theorem checkRules_iff (hp : Refs rules) : (∃ c', checkRules c rules = .ok c') ↔
    ∀ r ∈ rules, Spec.Evaluable c.hook c.sets r := by
  induction rules generalizing c with
  | nil => simp [checkRules]
  | cons r rs ih =>
    have hp' : Refs rs := fun r' h => hp r' (List.mem_cons_of_mem _ h)
    have hr := checkRule_iff (c := c) (r := { r with index := c.rules.length }) (hp r (List.mem_cons_self ..))
    have hev : Spec.Evaluable c.hook c.sets { r with index := c.rules.length } ↔ Spec.Evaluable c.hook c.sets r :=
      ⟨fun h => ⟨h.types, h.sets, h.mark, h.log⟩, fun h => ⟨h.types, h.sets, h.mark, h.log⟩⟩
    unfold checkRules
    constructor
    · rintro ⟨c', h⟩
      obtain ⟨⟨c1, r1⟩, h1, h2⟩ := Res.bind_eq_ok h
      obtain ⟨d, e1, _⟩ := checkRule_ok h1
      have hrs := (ih (c := { c1 with rules := c.rules ++ [r1] }) hp').mp ⟨c', h2⟩
      intro r' hr'
      rcases List.mem_cons.mp hr' with rfl | hr'
      · exact hev.mp (hr.mp ⟨_, h1⟩)
      · subst e1; exact hrs r' hr'
    · intro h
      obtain ⟨⟨c1, r1⟩, h1⟩ := hr.mpr (hev.mpr (h r (List.mem_cons_self ..)))
      obtain ⟨d, e1, _⟩ := checkRule_ok h1
      rw [h1]
      simp only [Res.ok_bind']
      refine (ih hp').mpr fun r' h' => ?_
      subst e1
      exact h r' (List.mem_cons_of_mem _ h')

/-- **C16**: `bf_chain_new` accepts a chain if and only if its policy is a valid one and the hook can evaluate
every rule: matcher types, types of the components of the sets, mark, log options.  -/
theorem C16_new_iff (hp : Refs rules) : (∃ c, chainNew name hook policy sets rules = .ok c) ↔
    (policy = .accept ∨ policy = .drop ∨ policy = .next) ∧ ∀ r ∈ rules, Spec.Evaluable hook sets r := by
  have hpol : policy.validPolicy = true ↔ (policy = .accept ∨ policy = .drop ∨ policy = .next) := by
    cases policy <;> simp [Verdict.validPolicy]
  unfold chainNew
  cases hv : policy.validPolicy with
  | false =>
    rw [hv] at hpol
    simp only [Bool.not_false, if_true]
    constructor
    · rintro ⟨c, h⟩; cases h
    · rintro ⟨h, _⟩; exact absurd (hpol.mpr h) (by simp)
  | true =>
    have := checkRules_iff (c := ⟨name, hook, policy, sets, [], false, false, false⟩) hp
    simp only [Bool.not_true, Bool.false_eq_true, if_false]
    rw [this]
    exact ⟨fun h => ⟨hpol.mp hv, h⟩, fun h => h.2⟩

/-- **C16**: so does `bf_chain_add_rule`. -/
theorem C16_add_iff {r : Rule} (hp : ∀ m ∈ r.matchers, m.type = .set → 4 ≤ m.payload.length) :
    (∃ c', chainAddRule c r = .ok c') ↔ Spec.Evaluable c.hook c.sets r := by
  have hr := checkRule_iff (c := c) (r := { r with index := c.rules.length }) hp
  have hev : Spec.Evaluable c.hook c.sets { r with index := c.rules.length } ↔ Spec.Evaluable c.hook c.sets r :=
    ⟨fun h => ⟨h.types, h.sets, h.mark, h.log⟩, fun h => ⟨h.types, h.sets, h.mark, h.log⟩⟩
  rw [← hev, ← hr]
  unfold chainAddRule
  constructor
  · rintro ⟨c', h⟩
    obtain ⟨p, h1, _⟩ := Res.bind_eq_ok h
    exact ⟨p, h1⟩
  · rintro ⟨p, h⟩
    rw [h]; exact ⟨_, rfl⟩

/-- **C16**: whatever was done to a chain (rules and sets added, sets updated), all it contains can be evaluated
by its hook. -/
theorem C16_api (h : ApiChain chain) : (chain.policy = .accept ∨ chain.policy = .drop ∨ chain.policy = .next) ∧
    ∀ r ∈ chain.rules, Spec.Evaluable chain.hook chain.sets r := by
  have ok := h.ok
  refine ⟨?_, fun r hr => ?_⟩
  · have := ok.policy
    cases hv : chain.policy <;> simp [hv, Verdict.validPolicy] at this ⊢
  · have ro := ok.rule r hr
    refine ⟨fun m hm => (offers_iff _ _).mpr (ro.supp m hm), ?_, fun h => (marks_iff _).mpr (ro.mark h),
      fun h => ro.logSock ((onSocket_iff _).mp h)⟩
    intro m hm ht
    obtain ⟨s, h1, h2⟩ := ro.set m hm ht
    refine ⟨s, h1, fun t h => (offers_iff _ _).mpr ?_⟩
    rw [List.any_eq_false] at h2
    simpa using h2 t h

/-- What the rules of a chain need, besides what `bf_chain_new` checks, to be compiled. -/
structure Compilable (chain : Chain) (slen : Stub → Nat) : Prop where
  /-- operators supported by the matcher types, payloads of the right size -/
  matchers : ∀ r ∈ chain.rules, ∀ m ∈ r.matchers, MatcherWf m
  /-- network prefixes not longer than an address -/
  prefixes : ∀ r ∈ chain.rules, ∀ m ∈ r.matchers, NetWf m
  sets : SetsWf chain.sets
  /-- active rules use non-empty sets -/
  nonempty : ∀ r ∈ chain.rules, r.disabled = false → ∀ m ∈ r.matchers, m.type = .set →
    ∀ s, Spec.setOf chain.sets m = some s → s.elems ≠ []
  /-- packets are only redirected on hooks that can -/
  redirects : ∀ r ∈ chain.rules, r.verdict = .redirect → Spec.redirects chain.hook r.redirDir
  /-- jumps over a rule fit in 16 bits -/
  few : ∀ r ∈ chain.rules, r.matchers.length ≤ 200
  /-- calls to the stubs fit in 31 bits -/
  size : 222 + 32000 * chain.rules.length + stubRoom slen (fun _ => 0) < 2147483647

theorem redirects_ok {r : Rule} {h : Hook} (hr : r.verdict = .redirect → Spec.redirects h r.redirDir) : RedirOk h r := by
  intro hv
  have := hr hv
  cases h <;> cases hd : r.redirDir <;> simp [Spec.redirects, hd, Hook.flavor] at this ⊢

/-- **C16**: every chain built through the API whose matchers are well formed can be compiled: what was accepted
is never refused later. -/
theorem C16_compiles (h : ApiChain chain) {thr : Nat → BitVec 32} {slen : Stub → Nat} (hc : Compilable chain slen)
    (M : MapFds) : ∃ img, compile chain thr slen M = .ok img := by
  have ok := h.ok
  refine compile_total M (fun r hr hd => ?_) ok.policy hc.size
  have ro := ok.rule r hr
  refine ⟨fun m hm => ⟨hc.matchers r hr m hm, hc.prefixes r hr m hm, ro.supp m hm, fun ht => ⟨?_⟩⟩, hc.few r hr, ro.mark,
    redirects_ok (hc.redirects r hr)⟩
  obtain ⟨s, h1, h2⟩ := ro.set m hm ht
  have hw := hc.matchers r hr m hm
  unfold MatcherWf at hw
  rw [if_pos ht] at hw
  have hne := hc.nonempty r hr hd m hm ht s h1
  obtain ⟨n, g, h3, _⟩ := findGroup_bit ((buildGroups_ok chain.sets).cover _ s (List.getElem?_eq_some_iff.mp h1).1 h1 hne)
  refine ⟨_, s, ⟨h1, ?_, n, h3⟩, hc.sets.each s (List.mem_of_getElem? h1), ?_⟩
  · unfold Chain.setFor
    rw [if_neg (by simp [ht]), rd_num (by omega)]
    simp only [Res.ok_bind', h1, Option.map_some]
  · rw [List.any_eq_false] at h2
    intro t h
    simpa using h2 t h

theorem refsEmpty_false {ms : List Matcher} (h : refsEmpty sets ms = .ok false) : ∀ m ∈ ms, m.type = .set →
    ∀ s, Spec.setOf sets m = some s → s.elems ≠ [] := by
  induction ms with
  | nil => intro m hm; cases hm
  | cons m ms ih =>
    unfold refsEmpty at h
    intro m' hm'
    by_cases ht : m.type = .set
    · rw [if_neg (by simp [ht])] at h
      obtain ⟨i, h1, h2⟩ := Res.bind_eq_ok h
      rw [rd_host h1] at h2
      split at h2
      · cases h2
      · next s hs =>
        split at h2
        · cases h2
        · next he =>
          rcases List.mem_cons.mp hm' with rfl | hm'
          · intro _ s' hs'
            unfold Spec.setOf at hs'
            rw [hs] at hs'
            cases hs'
            simpa using he
          · exact ih h2 m' hm'
    · rw [if_pos ht] at h
      rcases List.mem_cons.mp hm' with rfl | hm'
      · intro h; exact absurd h ht
      · exact ih h m' hm'

/-- Active rules of a chain use non-empty sets. -/
def NonEmpty (chain : Chain) : Prop := ∀ r ∈ chain.rules, r.disabled = false → ∀ m ∈ r.matchers, m.type = .set →
  ∀ s, Spec.setOf chain.sets m = some s → s.elems ≠ []

theorem NonEmpty.add {r r' : Rule} {c' : Chain} (hc : NonEmpty c)
    (h : checkRule c { r with index := c.rules.length } = .ok (c', r')) :
    NonEmpty { c' with rules := c.rules ++ [r'] } := by
  obtain ⟨d, rfl, rfl, hd, _⟩ := checkRule_ok h
  intro r'' hr''
  rcases List.mem_append.mp hr'' with h' | h'
  · exact hc r'' h'
  · simp only [List.mem_singleton] at h'
    subst h'
    intro hd'
    simp only at hd'
    subst hd'
    rcases hd with ⟨_, h⟩ | ⟨h, _⟩
    · cases h
    · exact refsEmpty_false h

theorem checkRules_nonEmpty {c' : Chain} (hc : NonEmpty c) (h : checkRules c rules = .ok c') : NonEmpty c' := by
  induction rules generalizing c with
  | nil => cases h; exact hc
  | cons r rs ih =>
    unfold checkRules at h
    obtain ⟨⟨c1, r1⟩, h1, h2⟩ := Res.bind_eq_ok h
    exact ih (hc.add h1) h2

/-- **C16**: the active rules of a chain just created never use empty sets, so that `C16_compiles` applies. -/
theorem C16_new_nonempty (h : chainNew name hook policy sets rules = .ok chain) : NonEmpty chain := by
  unfold chainNew at h
  split at h
  · cases h
  · exact checkRules_nonEmpty (by intro r hr; cases hr) h

theorem C16_add_nonempty {r : Rule} (hc : NonEmpty c) (h : chainAddRule c r = .ok chain) : NonEmpty chain := by
  unfold chainAddRule at h
  obtain ⟨⟨c1, r1⟩, h1, h2⟩ := Res.bind_eq_ok h
  cases h2
  exact hc.add h1

/-! ### Examples -/

instance (h : Hook) (d : RedirDir) : Decidable (Spec.redirects h d) := by
  cases h <;> cases d <;> (unfold Spec.redirects; infer_instance)
instance (m : Matcher) : Decidable (NetWf m) := by unfold NetWf; infer_instance

example : Compilable Sample.chain Sample.slen := by
  refine ⟨Sample.matchers, by decide, Sample.sets, C16_new_nonempty Sample.chain_new, by decide, by decide, by decide⟩

example : ∃ c, chainNew "sample" .xdp .accept [Sample.set0] Sample.rules = .ok c ∧ Refs Sample.rules :=
  ⟨_, Sample.chain_new, by unfold Refs; decide⟩

/-- The same rules are refused on a hook that sees no source address, and a key using ports on `sendmsg`. -/
example : chainNew "sample" .connect4 .accept [Sample.set0] Sample.rules = .err .ENOTSUP := by decide

/-- Finding 27: `REDIRECT` is accepted in a chain on any hook, and refused only when compiled. -/
theorem C16_redirect_late : ∃ c, chainNew "r" .nfLocalIn .accept [] [Sample.rule [Sample.mSaddr] .redirect] = .ok c ∧
    compile c Sample.thr Sample.slen stdFds = .err .ENOTSUP :=
  ⟨_, rfl, by decide +kernel⟩

end Bf
