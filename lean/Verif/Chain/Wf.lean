import Verif.Chain.Update
import Verif.Exec.Guard
/-!
# Chains the API can build, and what is true of all of them

Nothing here models code of the repository.
-/
namespace Bf

/-- Chains built through the API: created from rules and sets, extended with rules and sets, updated
with new set elements; the elements of the sets may also be changed in place (`bf_chain_get_set_by_name`, chain.h:169, then
`bf_set_add_elem`, `bf_set_remove_many`...). -/
inductive ApiChain : Chain → Prop
  | new {name hook policy sets rules c} : chainNew name hook policy sets rules = .ok c → ApiChain c
  | addRule {c r c'} : ApiChain c → chainAddRule c r = .ok c' → ApiChain c'
  | addSet {c} (s : BSet) : ApiChain c → ApiChain (chainAddSet c s)
  | updateSet {c a r c'} : ApiChain c → updateSet c a r = .ok c' → ApiChain c'
  | setElems {c : Chain} {i : Nat} {s : BSet} (es : List (List Byte)) : ApiChain c → c.sets[i]? = some s → ApiChain { c with sets := c.sets.set i { s with elems := es } }

/-- What the validation of a rule establishes. -/
structure RuleOk (hook : Hook) (sets : List BSet) (fl fr fn : Bool) (r : Rule) : Prop where
  compat : r.disabled = false → Compat (r.matchers.flatMap (Spec.typesOf sets))
  log : r.disabled = false → r.log ≠ 0 → fl = true
  rate : r.disabled = false → r.log ≠ 0 → r.rate ≠ 0 → fr = true
  nexthdr : r.disabled = false → ∀ m ∈ r.matchers, m.type = .ip6Nexthdr → fn = true
  supp : ∀ m ∈ r.matchers, m.type.unsupported hook = false
  set : ∀ m ∈ r.matchers, m.type = .set → ∃ s, sets[Spec.host m.payload 0 4]? = some s ∧
    s.key.any (·.unsupported hook) = false
  mark : r.markSet = true → hook.flavor = .tc ∨ hook.flavor = .cgroupSkb
  logSock : hook.flavor = .sockAddr → r.log = 0 ∨ r.log = logOptDefault

/-- What is true of every chain. -/
structure ChainOk (c : Chain) : Prop where
  index : ∀ (i : Nat) (r : Rule), c.rules[i]? = some r → r.index = i
  rule : ∀ r ∈ c.rules, RuleOk c.hook c.sets c.flagLog c.flagRate c.flagNexthdr r
  rate : c.flagRate = true → c.rules ≠ []
  policy : c.policy.validPolicy = true

theorem typesOf_keys {sets sets' : List BSet} {m : Matcher}
    (h : m.type = .set → ∀ s, sets[Spec.host m.payload 0 4]? = some s →
      ∃ s', sets'[Spec.host m.payload 0 4]? = some s' ∧ s'.key = s.key)
    (h0 : m.type = .set → ∃ s, sets[Spec.host m.payload 0 4]? = some s) :
    Spec.typesOf sets' m = Spec.typesOf sets m := by
  unfold Spec.typesOf
  by_cases ht : m.type = .set
  · obtain ⟨s, hs⟩ := h0 ht
    obtain ⟨s', hs', hk⟩ := h ht s hs
    simp only [ht, if_true, hs, hs', hk]
  · simp [ht]

/-- A rule stays valid when sets are added or their elements change, and when flags are set. -/
theorem RuleOk.mono {hook : Hook} {sets sets' : List BSet} {fl fr fn fl' fr' fn' : Bool} {r : Rule}
    (h : RuleOk hook sets fl fr fn r)
    (hs : ∀ (i : Nat) (s : BSet), sets[i]? = some s → ∃ s' : BSet, sets'[i]? = some s' ∧ s'.key = s.key)
    (hl : fl = true → fl' = true) (hr : fr = true → fr' = true) (hn : fn = true → fn' = true) :
    RuleOk hook sets' fl' fr' fn' r where
  compat hd := by
    have e : r.matchers.flatMap (Spec.typesOf sets') = r.matchers.flatMap (Spec.typesOf sets) := by
      unfold List.flatMap
      congr 1
      refine List.map_congr_left fun m hm => ?_
      exact typesOf_keys (fun _ s hh => hs _ s hh) fun ht => (h.set m hm ht).imp fun _ h => h.1
    rw [e]; exact h.compat hd
  log hd h0 := hl (h.log hd h0)
  rate hd h0 h1 := hr (h.rate hd h0 h1)
  nexthdr hd m hm ht := hn (h.nexthdr hd m hm ht)
  supp := h.supp
  set m hm ht := by
    obtain ⟨s, h1, h2⟩ := h.set m hm ht
    obtain ⟨s', h3, h4⟩ := hs _ s h1
    exact ⟨s', h3, by rw [h4]; exact h2⟩
  mark := h.mark
  logSock := h.logSock

theorem rd_host {p : List Byte} {o n i : Nat} (h : rd p o n = .ok i) : i = Spec.host p o n := by
  unfold rd at h
  split at h
  · cases h; rfl
  · cases h

theorem checkHooks_ok {hook : Hook} {sets : List BSet} {ms : List Matcher} (h : checkHooks hook sets ms = .ok ()) :
    (∀ m ∈ ms, m.type.unsupported hook = false) ∧
    ∀ m ∈ ms, m.type = .set → ∃ s, sets[Spec.host m.payload 0 4]? = some s ∧
      s.key.any (·.unsupported hook) = false := by
  induction ms with
  | nil => simp
  | cons m ms ih =>
    simp only [checkHooks] at h
    obtain ⟨u, h1, h2⟩ := Res.bind_eq_ok h
    obtain ⟨i1, i2⟩ := ih h2
    have key : m.type.unsupported hook = false ∧ (m.type = .set → ∃ s, sets[Spec.host m.payload 0 4]? = some s ∧
      s.key.any (·.unsupported hook) = false) := by
      unfold checkHook at h1
      split at h1
      · cases h1
      · next hu =>
        refine ⟨by simpa using hu, fun ht => ?_⟩
        rw [if_pos ht] at h1
        obtain ⟨i, h3, h4⟩ := Res.bind_eq_ok h1
        rw [rd_host h3] at h4
        split at h4
        · cases h4
        · next s hs =>
          split at h4
          · cases h4
          · next hk => exact ⟨s, hs, by simpa using hk⟩
    refine ⟨?_, ?_⟩
    · intro m' hm'
      rcases List.mem_cons.mp hm' with rfl | hm'
      · exact key.1
      · exact i1 m' hm'
    · intro m' hm'
      rcases List.mem_cons.mp hm' with rfl | hm'
      · exact key.2
      · exact i2 m' hm'

/-- What a successful validation of a rule gives. -/
theorem checkRule_ok {c c' : Chain} {r r' : Rule} (h : checkRule c r = .ok (c', r')) :
    ∃ d, (c' = { c with
      flagLog := c.flagLog || (decide (r.log ≠ 0) && !d)
      flagRate := c.flagRate || (decide (r.log ≠ 0) && decide (r.rate ≠ 0) && !d)
      flagNexthdr := c.flagNexthdr || (r.matchers.any (·.type == .ip6Nexthdr) && !d) }) ∧
    r' = { r with disabled := d } ∧
    ((refsEmpty c.sets r.matchers = .ok true ∧ d = true) ∨
      (refsEmpty c.sets r.matchers = .ok false ∧ incompatible c.sets r.matchers (fun _ => none) = .ok d)) ∧
    ¬(r.log ≠ 0 ∧ r.log ≠ logOptDefault ∧ c.hook.flavor = .sockAddr) ∧
    ¬(r.markSet = true ∧ c.hook.flavor ≠ .tc ∧ c.hook.flavor ≠ .cgroupSkb) ∧
    checkHooks c.hook c.sets r.matchers = .ok () := by
  unfold checkRule at h
  obtain ⟨e, h1, h⟩ := Res.bind_eq_ok h
  obtain ⟨d, h2, h⟩ := Res.bind_eq_ok h
  split at h
  · cases h
  next h3 =>
  split at h
  · cases h
  next h4 =>
  obtain ⟨u, h5, h⟩ := Res.bind_eq_ok h
  cases h
  refine ⟨d, rfl, rfl, ?_, h3, h4, h5⟩
  cases e with
  | true => simp only [if_true] at h2; cases h2; exact Or.inl ⟨h1, rfl⟩
  | false => exact Or.inr ⟨h1, by simpa using h2⟩

theorem checkRule_ruleOk {c c' : Chain} {r r' : Rule} (h : checkRule c r = .ok (c', r')) :
    RuleOk c'.hook c'.sets c'.flagLog c'.flagRate c'.flagNexthdr r' := by
  obtain ⟨d, rfl, rfl, hd, h3, h4, h5⟩ := checkRule_ok h
  obtain ⟨k1, k2⟩ := checkHooks_ok h5
  refine ⟨?_, ?_, ?_, ?_, k1, k2, ?_, ?_⟩
  · intro e
    simp only at e
    subst e
    rcases hd with ⟨_, h⟩ | ⟨_, h⟩
    · cases h
    · exact incompatible_compat h
  · intro e h0
    simp only at e h0 ⊢
    simp only [e, decide_eq_true h0]; simp
  · intro e h0 h1
    simp only at e h0 h1 ⊢
    simp only [e, decide_eq_true h0, decide_eq_true h1]; simp
  · intro e m hm ht
    simp only at e hm ⊢
    have : (r.matchers.any (·.type == .ip6Nexthdr)) = true := List.any_eq_true.mpr ⟨m, hm, by simp [ht]⟩
    simp [e, this]
  · intro hm
    have hm' : r.markSet = true := hm
    simp only at h4 ⊢
    by_cases h1 : c.hook.flavor = .tc
    · exact Or.inl h1
    · by_cases h2 : c.hook.flavor = .cgroupSkb
      · exact Or.inr h2
      · exact absurd ⟨hm', h1, h2⟩ h4
  · intro hs
    simp only at h3 ⊢
    by_cases h1 : r.log = 0
    · exact Or.inl h1
    · by_cases h2 : r.log = logOptDefault
      · exact Or.inr h2
      · exact absurd ⟨h1, h2, hs⟩ h3

/-- Adding a rule keeps the chain valid. -/
theorem ChainOk.add {c c' : Chain} {r r' : Rule} (hc : ChainOk c)
    (h : checkRule c { r with index := c.rules.length } = .ok (c', r')) :
    ChainOk { c' with rules := c.rules ++ [r'] } := by
  have hr := checkRule_ruleOk h
  obtain ⟨d, rfl, rfl, _⟩ := checkRule_ok h
  refine ⟨?_, ?_, by simp, hc.policy⟩
  · intro i r'' hi
    simp only at hi
    rw [List.getElem?_append] at hi
    split at hi
    · exact hc.index i r'' hi
    · next hlt =>
      have : i - c.rules.length = 0 := by
        cases hh : i - c.rules.length with
        | zero => rfl
        | succ k => rw [hh] at hi; simp at hi
      rw [this] at hi
      simp at hi
      subst hi
      simp only
      omega
  · intro r'' hr''
    rcases List.mem_append.mp hr'' with h' | h'
    · refine (hc.rule r'' h').mono (fun i s hs => ⟨s, hs, rfl⟩) ?_ ?_ ?_
      all_goals intro e; simp [e]
    · simp at h'
      subst h'
      exact hr

theorem checkRules_chainOk {c c' : Chain} {rs : List Rule} (hc : ChainOk c) (h : checkRules c rs = .ok c') :
    ChainOk c' := by
  induction rs generalizing c with
  | nil => cases h; exact hc
  | cons r rs ih =>
    simp only [checkRules] at h
    obtain ⟨⟨c1, r1⟩, h1, h2⟩ := Res.bind_eq_ok h
    exact ih (hc.add h1) h2

theorem chainNew_chainOk {name : String} {hook : Hook} {policy : Verdict} {sets : List BSet} {rules : List Rule}
    {c : Chain} (h : chainNew name hook policy sets rules = .ok c) : ChainOk c := by
  unfold chainNew at h
  split at h
  · cases h
  · next hp =>
    refine checkRules_chainOk ?_ h
    exact ⟨by simp, by simp, by simp, by simpa using hp⟩

theorem setAddMany_key {a b s : BSet} (h : setAddMany a b = .ok s) :
    s.key = a.key ∧ s.name = a.name ∧ s.elemSize = a.elemSize ∧ s.useTrie = a.useTrie := by
  unfold setAddMany at h
  split at h
  · cases h; exact ⟨rfl, rfl, rfl, rfl⟩
  · cases h

theorem setRemoveMany_key {a b s : BSet} (h : setRemoveMany a b = .ok s) :
    s.key = a.key ∧ s.name = a.name ∧ s.elemSize = a.elemSize ∧ s.useTrie = a.useTrie := by
  unfold setRemoveMany at h
  split at h
  · cases h; exact ⟨rfl, rfl, rfl, rfl⟩
  · cases h

/-- Every chain built through the API is valid. -/
theorem ApiChain.ok {c : Chain} (h : ApiChain c) : ChainOk c := by
  induction h with
  | new h => exact chainNew_chainOk h
  | addRule _ h ih =>
    unfold chainAddRule at h
    obtain ⟨⟨c1, r1⟩, h1, h2⟩ := Res.bind_eq_ok h
    cases h2
    exact ih.add h1
  | addSet s _ ih =>
    refine ⟨ih.index, ?_, ih.rate, ih.policy⟩
    intro r hr
    refine (ih.rule r hr).mono ?_ id id id
    intro i s' hs
    refine ⟨s', ?_, rfl⟩
    simp only [chainAddSet]
    rw [List.getElem?_append_left (by
      have := (List.getElem?_eq_some_iff.mp hs).1
      exact this)]
    exact hs
  | updateSet _ h _ =>
    unfold Bf.updateSet at h
    split at h
    · cases h
    split at h
    · cases h
    obtain ⟨c1, h1, h2⟩ := Res.bind_eq_ok h
    have ok := chainNew_chainOk h1
    split at h2
    · cases h2
    · next i hi =>
      split at h2
      · cases h2
      · next dest hd =>
        obtain ⟨s1, e1, h2⟩ := Res.bind_eq_ok h2
        obtain ⟨s2, e2, h2⟩ := Res.bind_eq_ok h2
        cases h2
        refine ⟨ok.index, ?_, ok.rate, ok.policy⟩
        intro r hr
        refine (ok.rule r hr).mono ?_ id id id
        intro j s hs
        simp only [List.getElem?_set]
        have hl := (List.getElem?_eq_some_iff.mp hs).1
        split
        · next e =>
          subst e
          rw [hd] at hs
          cases hs
          simp only [hl, if_true]
          exact ⟨s2, rfl, by rw [(setRemoveMany_key e2).1, (setAddMany_key e1).1]⟩
        · exact ⟨s, hs, rfl⟩
  | @setElems c i x es _ hx ih =>
    refine ⟨ih.index, ?_, ih.rate, ih.policy⟩
    intro r hr
    refine (ih.rule r hr).mono ?_ id id id
    intro j s hs
    simp only [List.getElem?_set]
    have hl := (List.getElem?_eq_some_iff.mp hs).1
    split
    · next e =>
      subst e
      rw [hx] at hs
      cases hs
      simp only [hl, if_true]
      exact ⟨_, rfl, rfl⟩
    · exact ⟨s, hs, rfl⟩

end Bf
