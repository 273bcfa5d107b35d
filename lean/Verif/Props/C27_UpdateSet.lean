import Verif.Core.SetOps
import Verif.Props.C15_Loaded
import Verif.Props.C20_Log
/-!
# C27 — update-set applies exactly the delta
-/
namespace Bf
open Spec

variable {c c' fresh : Chain} {A R : BSet}

/-- Two lists of sets that rule validation can't tell apart. -/
def SameShape (sets sets' : List BSet) : Prop :=
  ∀ i : Nat, (sets[i]? = none ↔ sets'[i]? = none) ∧
    ∀ s s' : BSet, sets[i]? = some s → sets'[i]? = some s' → s'.key = s.key ∧ (s'.elems = [] ↔ s.elems = [])

theorem SameShape.cases {sets sets' : List BSet} (h : SameShape sets sets') (i : Nat) :
    (sets[i]? = none ∧ sets'[i]? = none) ∨
    ∃ s s', sets[i]? = some s ∧ sets'[i]? = some s' ∧ s'.key = s.key ∧ s'.elems.isEmpty = s.elems.isEmpty := by
  obtain ⟨h1, h2⟩ := h i
  cases e : sets[i]? with
  | none => exact Or.inl ⟨rfl, h1.mp e⟩
  | some s =>
    cases e' : sets'[i]? with
    | none => rw [h1.mpr e'] at e; cases e
    | some s' =>
      obtain ⟨a, b⟩ := h2 s s' e e'
      refine Or.inr ⟨s, s', rfl, rfl, a, ?_⟩
      rw [Bool.eq_iff_iff, List.isEmpty_iff, List.isEmpty_iff]
      exact b

theorem refsEmpty_shape {sets sets' : List BSet} (h : SameShape sets sets') (ms : List Matcher) :
    refsEmpty sets' ms = refsEmpty sets ms := by
  induction ms with
  | nil => rfl
  | cons m ms ih =>
    unfold refsEmpty
    rw [ih]
    split
    · rfl
    · cases rd m.payload 0 4 with
      | ok i =>
        simp only [Res.bind]
        rcases h.cases i with ⟨a, b⟩ | ⟨s, s', a, b, _, d⟩
        · rw [a, b]
        · rw [a, b]; simp only [d]
      | err e => rfl
      | ub => rfl

theorem incompatible_shape {sets sets' : List BSet} (h : SameShape sets sets') (ms : List Matcher) (ids : LayerIds) :
    incompatible sets' ms ids = incompatible sets ms ids := by
  induction ms generalizing ids with
  | nil => rfl
  | cons m ms ih =>
    unfold incompatible
    have e : (if m.type = .set then
        (rd m.payload 0 4).bind fun i =>
          match sets'[i]? with
          | none => Res.err .ENOENT
          | some s => .ok (checkLayers s.key ids)
      else .ok (checkLayer m.type ids)) = (if m.type = .set then
        (rd m.payload 0 4).bind fun i =>
          match sets[i]? with
          | none => Res.err .ENOENT
          | some s => .ok (checkLayers s.key ids)
      else .ok (checkLayer m.type ids)) := by
      split
      · cases rd m.payload 0 4 with
        | ok i =>
          simp only [Res.bind]
          rcases h.cases i with ⟨a, b⟩ | ⟨s, s', a, b, d, _⟩
          · rw [a, b]
          · rw [a, b]; simp only [d]
        | err e => rfl
        | ub => rfl
      · rfl
    refine (congrArg (fun x => Res.bind x _) e).trans ?_
    congr 1
    funext x
    cases x with
    | none => rfl
    | some ids' => exact ih ids'

theorem checkHooks_shape {sets sets' : List BSet} (h : SameShape sets sets') (hook : Hook) (ms : List Matcher) :
    checkHooks hook sets' ms = checkHooks hook sets ms := by
  induction ms with
  | nil => rfl
  | cons m ms ih =>
    unfold checkHooks
    rw [ih]
    congr 1
    unfold checkHook
    split
    · rfl
    · split
      · cases rd m.payload 0 4 with
        | ok i =>
          simp only [Res.bind]
          rcases h.cases i with ⟨a, b⟩ | ⟨s, s', a, b, d, _⟩
          · rw [a, b]
          · rw [a, b]; simp only [d]
        | err e => rfl
        | ub => rfl
      · rfl

theorem checkRule_shape {sets' : List BSet} {r r' : Rule} (hs : SameShape c.sets sets')
    (h : checkRule c r = .ok (c', r')) : checkRule { c with sets := sets' } r = .ok ({ c' with sets := sets' }, r') := by
  unfold checkRule at h ⊢
  simp only
  rw [refsEmpty_shape hs, incompatible_shape hs, checkHooks_shape hs]
  obtain ⟨e, h1, h⟩ := Res.bind_eq_ok h
  obtain ⟨d, h2, h⟩ := Res.bind_eq_ok h
  rw [h1]
  simp only [Res.bind]
  simp only [Res.bind] at h
  split at h
  · cases h
  next n1 =>
  split at h
  · cases h
  next n2 =>
  rw [h2]
  simp only [n1, n2, if_false]
  cases hh : checkHooks c.hook c.sets r.matchers with
  | ok u =>
    rw [hh] at h
    cases h
    rfl
  | err e => rw [hh] at h; cases h
  | ub => rw [hh] at h; cases h

theorem checkRules_shape {sets' : List BSet} {rs : List Rule} (hs : SameShape c.sets sets')
    (h : checkRules c rs = .ok c') : checkRules { c with sets := sets' } rs = .ok { c' with sets := sets' } := by
  induction rs generalizing c with
  | nil => cases h; rfl
  | cons r rs ih =>
    simp only [checkRules] at h ⊢
    obtain ⟨⟨c1, r1⟩, h1, h2⟩ := Res.bind_eq_ok h
    rw [checkRule_shape hs h1]
    simp only [Res.bind]
    have e := (checkRule_ok h1)
    obtain ⟨d, e, _⟩ := e
    refine ih (c := { c1 with rules := c.rules ++ [r1] }) ?_ h2
    subst e
    exact hs

theorem checkRules_name {rs : List Rule} (h : checkRules c rs = .ok c') : c'.name = c.name := by
  induction rs generalizing c with
  | nil => cases h; rfl
  | cons r rs ih =>
    simp only [checkRules] at h
    obtain ⟨⟨c1, r1⟩, h1, h2⟩ := Res.bind_eq_ok h
    obtain ⟨d, e, _⟩ := checkRule_ok h1
    rw [ih h2]
    subst e
    rfl

/-- The steps of an update. -/
theorem updateSet_ok (h : updateSet c A R = .ok c') :
    ∃ name i c1 old, A.name = some name ∧ R.name = some name ∧ chainCopy c = .ok c1 ∧ c1.sets = c.sets ∧
      c.sets[i]? = some old ∧ old.name = some name ∧ (∀ (j : Nat) (s : BSet), j < i → c.sets[j]? = some s → s.name ≠ some name) ∧
      old.key = A.key ∧ old.key = R.key ∧
      c' = { c1 with sets := c.sets.set i { old with elems := R.elems.foldl List.erase (A.elems.foldl addElem old.elems) } } := by
  unfold updateSet at h
  split at h
  · cases h
  next hn =>
  split at h
  · cases h
  next name hA =>
  obtain ⟨c1, h1, h⟩ := Res.bind_eq_ok h
  have hsets : c1.sets = c.sets := by
    unfold chainCopy chainNew at h1
    split at h1
    · cases h1
    · exact (checkRules_list h1).2.2.1
  split at h
  · cases h
  next i hi =>
  split at h
  · cases h
  next old hold =>
  obtain ⟨s1, e1, h⟩ := Res.bind_eq_ok h
  obtain ⟨s2, e2, h⟩ := Res.bind_eq_ok h
  cases h
  unfold setByName at hi
  rw [hsets] at hi hold
  rw [List.findIdx?_eq_some_iff_getElem] at hi
  obtain ⟨hlt, p1, p2⟩ := hi
  rw [List.getElem?_eq_getElem hlt] at hold
  cases hold
  unfold setAddMany at e1
  split at e1
  · next k1 =>
    cases e1
    unfold setRemoveMany at e2
    split at e2
    · next k2 =>
      cases e2
      unfold sameKey at k1 k2
      simp only [decide_eq_true_eq] at k1 k2
      refine ⟨name, i, c1, c.sets[i], hA, ?_, h1, hsets, List.getElem?_eq_getElem hlt, by simpa using p1, ?_, k1, k2, by rw [hsets]⟩
      · have hn : A.name = R.name := Decidable.of_not_not hn
        rw [← hn]; exact hA
      · intro j s hj hs e
        have := p2 j hj
        rw [List.getElem?_eq_getElem (by omega)] at hs
        cases hs
        rw [e] at this
        simp at this
    · cases e2
  · cases e1

theorem addElem_eq : addElem = CHash.withElem := by
  funext es e
  rfl

/-- **C27.**  A successful update: the first set of that name gets the elements `(old ∪ A) \ R`, its key and name stay, as do all
other sets, the chain's name, hook and policy, and the rules (all but their `disabled` flag, which is
recomputed). -/
theorem C27_delta (hc : ChainOk c) (hnd : ∀ s ∈ c.sets, s.elems.Nodup) (h : updateSet c A R = .ok c') :
    ∃ (name : String) (i : Nat) (old new : BSet), A.name = some name ∧ R.name = some name ∧
      c.sets[i]? = some old ∧ old.name = some name ∧ (∀ (j : Nat) (s : BSet), j < i → c.sets[j]? = some s → s.name ≠ some name) ∧
      c'.sets[i]? = some new ∧ new.name = old.name ∧ new.key = old.key ∧ new.elemSize = old.elemSize ∧ new.useTrie = old.useTrie ∧
      new.elems.Nodup ∧ (∀ e, e ∈ new.elems ↔ (e ∈ old.elems ∨ e ∈ A.elems) ∧ e ∉ R.elems) ∧
      c'.sets.length = c.sets.length ∧ (∀ j, j ≠ i → c'.sets[j]? = c.sets[j]?) ∧
      c'.name = c.name ∧ c'.hook = c.hook ∧ c'.policy = c.policy ∧
      c'.rules.length = c.rules.length ∧
      ∀ (k : Nat) (r : Rule), c.rules[k]? = some r → ∃ d, c'.rules[k]? = some { r with disabled := d } := by
  obtain ⟨name, i, c1, old, h1, h2, h3, h4, h5, h6, h7, _, _, rfl⟩ := updateSet_ok h
  have hn := hnd old (List.mem_of_getElem? h5)
  have hlt := (List.getElem?_eq_some_iff.mp h5).1
  have n1 : (A.elems.foldl addElem old.elems).Nodup := by
    rw [addElem_eq]; exact CHash.nodup_foldl_withElem hn
  unfold chainCopy chainNew at h3
  split at h3
  · cases h3
  obtain ⟨l1, l2, l3, l4, _⟩ := checkRules_list h3
  refine ⟨name, i, old, { old with elems := R.elems.foldl List.erase (A.elems.foldl addElem old.elems) }, h1, h2, h5, h6, h7,
    ?_, rfl, rfl, rfl, rfl, CHash.foldl_erase_nodup n1, ?_, ?_, ?_, ?_, l1, l2, ?_, ?_⟩
  · simp [hlt]
  · intro e
    rw [CHash.mem_foldl_erase n1]
    rw [addElem_eq]
    exact and_congr_left fun _ => CHash.mem_foldl_withElem
  · simp
  · intro j hj
    simp only [List.getElem?_set]
    rw [if_neg (by omega)]
  · exact (checkRules_name h3 : c1.name = _)
  · simp [l4]
  · intro k r hk
    refine ⟨disables c.sets r.matchers, ?_⟩
    simp only [l4, List.nil_append, List.getElem?_mapIdx, hk, Option.map_some, List.length_nil, Nat.zero_add]
    rw [← hc.index k r hk]

/-- **C27.**  When the updated set was not empty and is not empty after the update (or was empty and remains empty), the
updated chain is the chain that would be created with the new content of the set: the same rules, validated against
the new sets.  So the program loaded is the program of that chain.

Missing: updates of an empty set (`C27_fails_filled`) and updates that empty a set (`C27_emptied_refused`). -/
theorem C27_filters_partial (h : updateSet c A R = .ok c')
    (hne : ∀ (i : Nat) (old new : BSet), c.sets[i]? = some old → c'.sets[i]? = some new → (new.elems = [] ↔ old.elems = [])) :
    chainNew c.name c.hook c.policy c'.sets c.rules = .ok c' := by
  obtain ⟨name, i, c1, old, h1, h2, h3, h4, h5, h6, h7, _, _, rfl⟩ := updateSet_ok h
  unfold chainCopy chainNew at h3
  unfold chainNew
  split at h3
  · cases h3
  next hp =>
  rw [if_neg hp]
  have hlt := (List.getElem?_eq_some_iff.mp h5).1
  refine checkRules_shape (c := ⟨c.name, c.hook, c.policy, c.sets, [], false, false, false⟩) ?_ h3
  intro j
  simp only at hne ⊢
  refine ⟨by simp, ?_⟩
  intro s s' hs hs'
  refine ⟨?_, hne j s s' hs hs'⟩
  simp only [List.getElem?_set] at hs'
  split at hs'
  · next e =>
    subst e
    rw [h5] at hs
    cases hs
    cases hs'
    rfl
  · rw [hs] at hs'; cases hs'; rfl

/-- **C27.**  An update that empties a set some enabled rule uses is refused: the new chain does not compile, so the old program
stays. -/
theorem C27_emptied_refused {E : Env} {thr : Nat → BitVec 32} {img : List Insn} {r : Rule} (hr : r ∈ c'.rules)
    (hd : r.disabled = false) (hi : RefsEmptySet c'.sets r) : ¬ IsLoaded E c' thr img := by
  intro h
  have := C15_loaded_empty h hr hi
  rw [hd] at this
  cases this

/-! ### The structures -/

/-- **C27.**  The loops of `bf_set_add_many` and `bf_set_remove_many` over the hashsets, whatever the allocator does: no invalid
access, and, unless memory runs out, the elements `updateSet` says. -/
theorem C27_structures {o : CHash.Ops (List Byte)} (ho : CHash.Plain o) {alloc : CHash.HS (List Byte) → Bool × Option Nat}
    (ha : ∀ s a, (alloc s).2 = some a → s.list.mem a = none) {dest src rem : CHash.HS (List Byte)} {old : BSet}
    (hd : CHash.Holds o dest old.elems) (hs : CHash.Holds o src A.elems) (hr : CHash.Holds o rem R.elems)
    (k1 : old.key = A.key) (k2 : old.key = R.key) :
    CHash.addMany o alloc dest src = .err .ENOMEM ∨
    ∃ d1 d2 s1 s2, CHash.addMany o alloc dest src = .ok d1 ∧ CHash.removeMany o d1 rem = .ok d2 ∧
      setAddMany old A = .ok s1 ∧ setRemoveMany s1 R = .ok s2 ∧ CHash.Holds o d2 s2.elems := by
  rcases CHash.addMany_spec ho ha hs hd with ⟨d1, e1, h1⟩ | e
  · right
    obtain ⟨d2, e2, h2⟩ := CHash.removeMany_spec ho hr h1
    refine ⟨d1, d2, { old with elems := A.elems.foldl addElem old.elems },
      { old with elems := R.elems.foldl List.erase (A.elems.foldl addElem old.elems) }, e1, e2, ?_, ?_, by rw [addElem_eq]; exact h2⟩
    · unfold setAddMany sameKey; simp [k1]
    · unfold setRemoveMany sameKey; simp [k2]
  · exact Or.inl e

/-! ### Examples -/

namespace Sample

/-- Additions and removals for the set of the sample chain. -/
def plus : BSet := { set0 with elems := [[10, 0, 0, 1], [192, 168, 0, 2]] }
def minus : BSet := { set0 with elems := [[192, 168, 0, 1], [1, 2, 3, 4]] }

/-- The sample chain, with an empty set. -/
def hollow : Chain where
  name := "sample"
  hook := .xdp
  policy := .accept
  sets := [{ set0 with elems := [] }]
  rules := [{ rule [mSet] .drop with disabled := true }]
  flagLog := false
  flagRate := false
  flagNexthdr := false

theorem hollow_new : chainNew "sample" .xdp .accept [{ set0 with elems := [] }] [rule [mSet] .drop] = .ok hollow := by decide

/-- ... once its set is filled, and the chain created with the set filled. -/
def filled : Chain := { hollow with sets := [plus] }
def proper : Chain := { hollow with sets := [plus], rules := [rule [mSet] .drop] }

theorem filled_updated : updateSet hollow plus { set0 with elems := [] } = .ok filled := by decide
theorem proper_new : chainNew "sample" .xdp .accept [plus] [rule [mSet] .drop] = .ok proper := by decide

theorem plus_wf : SetsWf [plus] := by
  refine ⟨?_, by decide⟩
  intro s hs
  simp only [List.mem_singleton] at hs
  subst hs
  exact ⟨⟨_, rfl, rfl, rfl⟩, by decide, by decide, by decide⟩

end Sample

/-- The hypotheses are met: the delta of the sample set is `[192.168.0.2, 10.0.0.1]`. -/
example : ∃ c', updateSet Sample.chain Sample.plus Sample.minus = .ok c' ∧ ChainOk Sample.chain ∧
    (∀ s ∈ Sample.chain.sets, s.elems.Nodup) ∧ c'.sets.map (·.elems) = [[[192, 168, 0, 2], [10, 0, 0, 1]]] ∧
    (∀ (i : Nat) (old new : BSet), Sample.chain.sets[i]? = some old → c'.sets[i]? = some new → (new.elems = [] ↔ old.elems = [])) := by
  refine ⟨_, rfl, Sample.api.ok, by decide, by decide, ?_⟩
  intro i old new h1 h2
  cases i with
  | zero => cases h1; cases h2; decide
  | succ i => cases h1

/-- **C27 fails** when the set was empty (finding 2): the rule that uses it stays disabled.  The sample packet comes from 10.0.0.1.
The chain drops packets from a set, which is empty; 10.0.0.1 is added to the set; the packet is
still accepted (2), by the program loaded for the updated chain; by the program of a chain created with the set as it now is,
it is dropped (1). -/
theorem C27_fails_filled :
    updateSet Sample.hollow Sample.plus { Sample.set0 with elems := [] } = .ok Sample.filled ∧
    (∃ s, Sample.filled.sets[0]? = some s ∧ [10, 0, 0, 1] ∈ s.elems) ∧
    (∃ img w', IsLoaded (envOf Sample.base Sample.filled) Sample.filled Sample.thr img ∧
      Runs (envOf Sample.base Sample.filled) img Sample.w0 2 w') ∧
    chainNew Sample.hollow.name Sample.hollow.hook Sample.hollow.policy Sample.filled.sets Sample.hollow.rules = .ok Sample.proper ∧
    (∃ img w', IsLoaded (envOf Sample.base Sample.proper) Sample.proper Sample.thr img ∧
      Runs (envOf Sample.base Sample.proper) img Sample.w0 1 w') := by
  refine ⟨Sample.filled_updated, ⟨_, rfl, by decide⟩, ?_, by decide, ?_⟩
  · obtain ⟨img, r, w', h1, h2, h3⟩ := Sample.runs_result (base := Sample.base) (w := Sample.w0) (chain := Sample.filled)
      (P := fun r _ => decide (r = 2)) (.updateSet (.new Sample.hollow_new) Sample.filled_updated) (by decide)
      Sample.plus_wf (by decide) (by decide) (by intro h; cases h) (by decide +kernel)
    have : r = 2 := by simpa using h3
    subst this
    exact ⟨img, w', h1, h2⟩
  · obtain ⟨img, r, w', h1, h2, h3⟩ := Sample.runs_result (base := Sample.base) (w := Sample.w0) (chain := Sample.proper)
      (P := fun r _ => decide (r = 1)) (.new Sample.proper_new) (by decide)
      Sample.plus_wf (by decide) (by decide) (by intro h; cases h) (by decide +kernel)
    have : r = 1 := by simpa using h3
    subst this
    exact ⟨img, w', h1, h2⟩

/-- An update that empties the set of the sample chain. -/
example : ∃ c' r, updateSet Sample.chain { Sample.set0 with elems := [] } Sample.set0 = .ok c' ∧ r ∈ c'.rules ∧
    r.disabled = false ∧ RefsEmptySet c'.sets r := by
  refine ⟨_, { Sample.rule [Sample.mSet] .drop with index := 1 }, rfl, by decide, rfl, ?_⟩
  exact ⟨Sample.mSet, by decide, rfl, _, rfl, rfl⟩

end Bf
