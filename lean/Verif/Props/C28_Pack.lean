import Verif.Pack.Round
import Verif.Props.C16_Support
import Verif.Props.C27_UpdateSet
/-!
# C28: serialization

The bytes written for a chain are read back as the same chain.
-/
namespace Bf

variable {c : Chain} {name : String} {hook : Hook} {policy : Verdict} {sets : List BSet} {rules : List Rule}

theorem checkRule_twice {c c' : Chain} {r r' : Rule} (h : checkRule c r = .ok (c', r')) : checkRule c r' = .ok (c', r') := by
  obtain ⟨d, _, rfl, _, _⟩ := checkRule_ok h
  rw [← h]
  rfl

theorem checkRule_index {c c' : Chain} {r r' : Rule} (h : checkRule c r = .ok (c', r')) : r'.index = r.index := by
  obtain ⟨d, _, rfl, _, _⟩ := checkRule_ok h
  rfl

theorem checkRules_twice {c c' : Chain} {rs : List Rule} (h : checkRules c rs = .ok c') :
    ∃ l, c'.rules = c.rules ++ l ∧ checkRules c l = .ok c' := by
  induction rs generalizing c with
  | nil => cases h; exact ⟨[], by simp, rfl⟩
  | cons r rs ih =>
    simp only [checkRules] at h
    obtain ⟨⟨c1, r1⟩, h1, h2⟩ := Res.bind_eq_ok h
    obtain ⟨l, hl, h3⟩ := ih h2
    refine ⟨r1 :: l, by simpa using hl, ?_⟩
    have hi : r1.index = c.rules.length := checkRule_index h1
    have : ({ r1 with index := c.rules.length } : Rule) = r1 := by rw [← hi]
    simp only [checkRules, this, checkRule_twice h1]
    exact h3

theorem checkRules_nm {c c' : Chain} {rs : List Rule} (h : checkRules c rs = .ok c') : c'.name = c.name := by
  induction rs generalizing c with
  | nil => cases h; rfl
  | cons r rs ih =>
    simp only [checkRules] at h
    obtain ⟨⟨c1, r1⟩, h1, h2⟩ := Res.bind_eq_ok h
    have := ih h2
    obtain ⟨d, e, _, _, _⟩ := checkRule_ok h1
    rw [this]
    simp only at e ⊢
    rw [e]

/-- Creating a chain again from its own name, hook, policy, sets and rules gives the same chain. -/
theorem chainCopy_new (h : chainNew name hook policy sets rules = .ok c) : chainCopy c = .ok c := by
  unfold chainNew at h
  split at h
  · cases h
  · next hv =>
    obtain ⟨h1, h2, h3, _, _⟩ := checkRules_list h
    have h0 := checkRules_nm h
    obtain ⟨l, hl, h4⟩ := checkRules_twice h
    simp only [List.nil_append] at hl h1 h2 h3 h0
    rw [← hl] at h4
    unfold chainCopy chainNew
    rw [h0, h1, h2, h3, if_neg hv]
    exact h4

/-- **C28**: the bytes of a chain that `bf_chain_new` created, followed by anything, are read back as the same chain. -/
theorem C28_round (h : chainNew name hook policy sets rules = .ok c) (hp : Packable c) (trail : List Byte) :
    chainOfBytes (chainBytes c ++ trail) = .ok c := by
  unfold chainOfBytes chainBytes
  rw [rpackNew_enc (chainNode_small hp)]
  simp only [chain_round hp, chainCopy_new h]

/-- **C28**: different chains are written differently, and no chain's bytes begin those of another. -/
theorem C28_distinct {name' : String} {hook' : Hook} {policy' : Verdict} {sets' : List BSet} {rules' : List Rule} {c' : Chain}
    (h : chainNew name hook policy sets rules = .ok c) (hp : Packable c)
    (h' : chainNew name' hook' policy' sets' rules' = .ok c') (hp' : Packable c') {trail : List Byte}
    (e : chainBytes c' = chainBytes c ++ trail) : c' = c := by
  have h1 := C28_round h hp trail
  have h2 := C28_round h' hp' []
  rw [List.append_nil, e, h1] at h2
  cases h2
  rfl

/-- Equal but for what is computed from the rest: which rules can be skipped. -/
def SameChain (a b : Chain) : Prop :=
  a.name = b.name ∧ a.hook = b.hook ∧ a.policy = b.policy ∧ a.sets = b.sets ∧
  a.rules.map (fun r => { r with disabled := false }) = b.rules.map (fun r => { r with disabled := false })

theorem ApiChain.refs (h : ApiChain c) : Refs c.rules := by
  have rd4 : ∀ {sets : List BSet} {hook : Hook} {ms : List Matcher}, checkHooks hook sets ms = .ok () → ∀ m ∈ ms, m.type = .set →
      4 ≤ m.payload.length := by
    intro sets hook ms h
    induction ms with
    | nil => intro m hm; cases hm
    | cons a ms ih =>
      simp only [checkHooks] at h
      obtain ⟨_, h1, h2⟩ := Res.bind_eq_ok h
      intro m hm ht
      rcases List.mem_cons.mp hm with rfl | hm
      · unfold checkHook at h1
        split at h1
        · cases h1
        · obtain ⟨i, h3, _⟩ := Res.bind_eq_ok h1
          unfold rd at h3
          split at h3
          · omega
          · cases h3
      · exact ih h2 m hm ht
  have one : ∀ {c c' : Chain} {r r' : Rule}, checkRule c r = .ok (c', r') → r'.matchers = r.matchers ∧
      ∀ m ∈ r.matchers, m.type = .set → 4 ≤ m.payload.length := by
    intro c c' r r' h
    unfold checkRule at h
    obtain ⟨e, _, h⟩ := Res.bind_eq_ok h
    obtain ⟨d, _, h⟩ := Res.bind_eq_ok h
    split at h
    · cases h
    · split at h
      · cases h
      · obtain ⟨_, h1, h⟩ := Res.bind_eq_ok h
        cases h
        exact ⟨rfl, rd4 h1⟩
  have many : ∀ {rs : List Rule} {c c' : Chain}, Refs c.rules → checkRules c rs = .ok c' → Refs c'.rules := by
    intro rs
    induction rs with
    | nil => intro c c' hc h; cases h; exact hc
    | cons r rs ih =>
      intro c c' hc h
      simp only [checkRules] at h
      obtain ⟨⟨c1, r1⟩, h1, h2⟩ := Res.bind_eq_ok h
      refine ih ?_ h2
      intro q hq m hm ht
      rcases List.mem_append.mp hq with hq | hq
      · exact hc q hq m hm ht
      · rw [List.mem_singleton.mp hq] at hm
        obtain ⟨e, h3⟩ := one h1
        simp only at e h3
        rw [e] at hm
        exact h3 m hm ht
  have new : ∀ {name : String} {hook : Hook} {policy : Verdict} {sets : List BSet} {rules : List Rule} {c : Chain},
      chainNew name hook policy sets rules = .ok c → Refs c.rules := by
    intro name hook policy sets rules c h
    unfold chainNew at h
    split at h
    · cases h
    · exact many (fun r hr => by simp at hr) h
  induction h with
  | new h => exact new h
  | addRule _ h ih =>
    unfold chainAddRule at h
    obtain ⟨⟨c1, r1⟩, h1, h2⟩ := Res.bind_eq_ok h
    cases h2
    obtain ⟨e, h3⟩ := one h1
    intro q hq m hm ht
    rcases List.mem_append.mp hq with hq | hq
    · exact ih q hq m hm ht
    · rw [List.mem_singleton.mp hq] at hm
      simp only at e h3
      rw [e] at hm
      exact h3 m hm ht
  | addSet s _ ih => exact ih
  | setElems es _ _ ih => exact ih
  | updateSet _ h _ =>
    unfold Bf.updateSet at h
    split at h
    · cases h
    · split at h
      · cases h
      · obtain ⟨c1, h1, h2⟩ := Res.bind_eq_ok h
        have := new h1
        split at h2
        · cases h2
        · split at h2
          · cases h2
          · obtain ⟨_, _, h2⟩ := Res.bind_eq_ok h2
            obtain ⟨_, _, h2⟩ := Res.bind_eq_ok h2
            cases h2
            exact this

/-- **C28**: whatever was done to a chain through the API, its bytes are read back as a chain with the same name, hook,
policy, sets and rules; which of the rules can be skipped is computed again (see `C28_recomputed`). -/
theorem C28_api (h : ApiChain c) (hp : Packable c) (trail : List Byte) :
    ∃ c', chainOfBytes (chainBytes c ++ trail) = .ok c' ∧ SameChain c' c ∧
      ∀ r ∈ c'.rules, (r.disabled = true ↔ Inert c'.sets r) := by
  obtain ⟨h1, h2⟩ := C16_api h
  obtain ⟨c', hc'⟩ := (C16_new_iff (name := c.name) (hook := c.hook) (policy := c.policy) (sets := c.sets) h.refs).mpr ⟨h1, h2⟩
  refine ⟨c', ?_, ?_, ?_⟩
  · unfold chainOfBytes chainBytes
    rw [rpackNew_enc (chainNode_small hp)]
    simp only [chain_round hp]
    exact hc'
  · unfold chainNew at hc'
    split at hc'
    · cases hc'
    · obtain ⟨e1, e2, e3, e4, _⟩ := checkRules_list hc'
      have e0 := checkRules_nm hc'
      refine ⟨e0, e1, e2, e3, ?_⟩
      rw [e4]
      simp only [List.nil_append, List.length_nil, Nat.zero_add]
      apply List.ext_getElem?
      intro i
      rw [List.getElem?_map, List.getElem?_map, List.getElem?_mapIdx]
      cases hi : c.rules[i]? with
      | none => rfl
      | some r =>
        have := h.ok.index i r hi
        simp only [Option.map_some, ← this]
  · unfold chainNew at hc'
    split at hc'
    · cases hc'
    · exact (checkRules_disabled (fun r hr => by simp at hr) hc').2

/-- Two chains with the same bytes differ only in what is recomputed. -/
theorem C28_api_distinct {c' : Chain} (h : ApiChain c) (hp : Packable c) (h' : ApiChain c') (hp' : Packable c')
    {trail : List Byte} (e : chainBytes c' = chainBytes c ++ trail) : SameChain c' c := by
  obtain ⟨a, h1, ⟨s1, s2, s3, s4, s5⟩, _⟩ := C28_api h hp trail
  obtain ⟨b, h2, ⟨t1, t2, t3, t4, t5⟩, _⟩ := C28_api h' hp' []
  rw [List.append_nil, e, h1] at h2
  cases h2
  exact ⟨t1.symm.trans s1, t2.symm.trans s2, t3.symm.trans s3, t4.symm.trans s4, t5.symm.trans s5⟩

namespace Sample

theorem set0_built : SetBuilt set0 := by
  have h0 : setNew (some "bad") [.ip4Saddr] = .ok ⟨some "bad", [.ip4Saddr], 4, false, []⟩ := by decide
  have h1 := SetBuilt.add (e := [192, 168, 0, 1]) (.new h0) rfl
  have h2 := SetBuilt.add (e := [192, 168, 0, 2]) h1 rfl
  exact h2

theorem packable : Packable chain where
  name := by decide
  setNames := by
    intro s hs x hx
    rw [List.mem_singleton.mp hs] at hx
    cases hx
    decide
  built := by
    intro s hs
    rw [List.mem_singleton.mp hs]
    exact set0_built
  payloads := by decide
  index := by decide
  lens := by decide

/-- The sample chain is written and read back. -/
example : chainOfBytes (chainBytes chain) = .ok chain := by
  have := C28_round chain_new packable []
  rwa [List.append_nil] at this

/-- The first bytes written for it: a map of 5 entries, the first key, the name. -/
example : (chainBytes chain).take 13 = [0x85, 0xa4, 0x6e, 0x61, 0x6d, 0x65, 0xa6, 0x73, 0x61, 0x6d, 0x70, 0x6c, 0x65] := by
  decide +kernel

end Sample

/-- The flags can differ: a chain whose empty set was filled still skips the rule on that set, and is read back as one that
does not. -/
theorem C28_recomputed : ApiChain Sample.filled ∧ Packable Sample.filled ∧
    chainOfBytes (chainBytes Sample.filled) = .ok Sample.proper ∧ Sample.proper ≠ Sample.filled := by
  have hb : SetBuilt Sample.plus := by
    have h0 : setNew (some "bad") [.ip4Saddr] = .ok ⟨some "bad", [.ip4Saddr], 4, false, []⟩ := by decide
    exact SetBuilt.add (e := [192, 168, 0, 2]) (SetBuilt.add (e := [10, 0, 0, 1]) (.new h0) rfl) rfl
  have hp : Packable Sample.filled := by
    refine ⟨by decide, ?_, ?_, by decide, by decide, by decide⟩
    · intro s hs x hx
      rw [List.mem_singleton.mp hs] at hx
      cases hx
      decide
    · intro s hs
      rw [List.mem_singleton.mp hs]
      exact hb
  refine ⟨.updateSet (.new Sample.hollow_new) Sample.filled_updated, hp, ?_, by decide⟩
  have : chainOfBytes (chainBytes Sample.filled) = chainCopy Sample.filled := by
    have := rpackNew_enc (chainNode_small hp) []
    unfold chainOfBytes chainBytes
    rw [List.append_nil] at this
    rw [this]
    exact chain_round hp
  rw [this]
  decide

/-- **C28**: whatever bytes are given, what is read back, if anything, is a chain that `bf_chain_new` accepts. -/
theorem C28_any {bs : List Byte} (h : chainOfBytes bs = .ok c) : ApiChain c ∧ ∃ n h p s r, chainNew n h p s r = .ok c := by
  unfold chainOfBytes at h
  split at h
  · cases h
  · unfold chainUnpack at h
    obtain ⟨_, _, h⟩ := Res.bind_eq_ok h
    obtain ⟨_, _, h⟩ := Res.bind_eq_ok h
    obtain ⟨_, _, h⟩ := Res.bind_eq_ok h
    obtain ⟨_, _, h⟩ := Res.bind_eq_ok h
    obtain ⟨_, _, h⟩ := Res.bind_eq_ok h
    obtain ⟨_, _, h⟩ := Res.bind_eq_ok h
    obtain ⟨_, _, h⟩ := Res.bind_eq_ok h
    obtain ⟨_, _, h⟩ := Res.bind_eq_ok h
    obtain ⟨_, _, h⟩ := Res.bind_eq_ok h
    obtain ⟨_, _, h⟩ := Res.bind_eq_ok h
    obtain ⟨_, _, h⟩ := Res.bind_eq_ok h
    obtain ⟨_, _, h⟩ := Res.bind_eq_ok h
    exact ⟨.new h, _, _, _, _, _, h⟩

end Bf
