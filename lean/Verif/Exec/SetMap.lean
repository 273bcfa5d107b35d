import Verif.Gen.Sets
import Verif.Exec.Facts
/-!
# Facts about the groups and the content of the set maps

Nothing here models code of the repository.
-/
namespace Bf

theorem mem_addUnique {acc es : List (List Byte)} {x : List Byte} :
    x ∈ addUnique acc es ↔ x ∈ acc ∨ x ∈ es := by
  induction es generalizing acc with
  | nil => simp [addUnique]
  | cons e es ih =>
    simp only [addUnique, ih, List.mem_cons]
    by_cases h : acc.contains e = true
    · simp only [h, if_true]
      have : e ∈ acc := by simpa using h
      constructor
      · rintro (h | h); exact Or.inl h; exact Or.inr (Or.inr h)
      · rintro (h | rfl | h); exact Or.inl h; exact Or.inl this; exact Or.inr h
    · simp only [h, if_false, List.mem_append, List.mem_singleton, Bool.false_eq_true]
      constructor
      · rintro ((h | h) | h); exact Or.inl h; exact Or.inr (Or.inl h); exact Or.inr (Or.inr h)
      · rintro (h | h | h); exact Or.inl (Or.inl h); exact Or.inl (Or.inr h); exact Or.inr h

theorem mem_uniqueElems {sets : List BSet} {g : List Nat} {acc : List (List Byte)} {x : List Byte} :
    x ∈ uniqueElems sets g acc ↔ x ∈ acc ∨ ∃ i ∈ g, x ∈ memberElems sets i := by
  induction g generalizing acc with
  | nil => simp [uniqueElems]
  | cons i g ih =>
    simp only [uniqueElems, ih, mem_addUnique, List.mem_cons, exists_eq_or_imp, or_assoc]

theorem one_shl_bit {a b : Nat} (ha : a < 8) (hb : b < 8) :
    (BitVec.ofNat 8 (1 <<< a)).getLsbD b = decide (b = a) := by
  simp only [BitVec.getLsbD_ofNat, Nat.one_shiftLeft, Nat.testBit_two_pow]
  simp only [hb, decide_true, Bool.true_and]
  by_cases h : a = b
  · simp [h]
  · have : ¬ b = a := fun e => h e.symm
    simp [h, this]

theorem orBits_length (sets : List BSet) (e : List Byte) (g : List Nat) (bit : Nat) (v : List Byte) :
    (orBits sets e g bit v).length = v.length := by
  induction g generalizing bit v with
  | nil => rfl
  | cons i g ih => simp only [orBits, ih]; split <;> simp

/-- The bits of a value. -/
theorem orBits_bit {sets : List BSet} {e : List Byte} {g : List Nat} {bit : Nat} {v : List Byte}
    (hv : bit + g.length ≤ 8 * v.length) (b : Nat) :
    (Spec.byteAt (orBits sets e g bit v) (b / 8)).getLsbD (b % 8) =
      ((Spec.byteAt v (b / 8)).getLsbD (b % 8) ||
        match g[b - bit]? with
        | some i => decide (bit ≤ b) && (memberElems sets i).contains e
        | none => false) := by
  induction g generalizing bit v with
  | nil => simp [orBits]
  | cons i g ih =>
    simp only [orBits]
    simp only [List.length_cons] at hv
    rw [ih (by
      split
      · simp only [List.length_modify]; omega
      · omega)]
    have hset : (Spec.byteAt (if (memberElems sets i).contains e = true then
        v.modify (bit / 8) (· ||| BitVec.ofNat 8 (1 <<< (bit % 8))) else v) (b / 8)).getLsbD (b % 8) =
        ((Spec.byteAt v (b / 8)).getLsbD (b % 8) ||
          (decide (b = bit) && (memberElems sets i).contains e)) := by
      by_cases hc : (memberElems sets i).contains e = true
      · rw [if_pos hc, hc, Bool.and_true]
        simp only [Spec.byteAt, List.getElem?_modify]
        by_cases hb : bit / 8 = b / 8
        · have hlt : b / 8 < v.length := by omega
          rw [List.getElem?_eq_getElem hlt]
          simp only [Option.map_eq_map, Option.map_some, Option.getD_some, hb, if_true, BitVec.getLsbD_or]
          rw [one_shl_bit (by omega) (by omega)]
          congr 1
          have : (b % 8 = bit % 8) ↔ b = bit := by omega
          simp only [this]
        · have : ¬ b = bit := by intro e; exact hb (by rw [e])
          simp [this, hb]
      · have hc' : (memberElems sets i).contains e = false := by simpa using hc
        rw [if_neg hc, hc']; simp
    rw [hset, Bool.or_assoc]
    congr 1
    by_cases h1 : b = bit
    · subst h1
      have e1 : (i :: g)[b - b]? = some i := by simp
      rw [e1]
      simp only [decide_true, Bool.true_and, Nat.le_refl]
      cases hg : g[b - (b + 1)]? with
      | none => simp
      | some j =>
        have : ¬ (b + 1 ≤ b) := by omega
        simp [this]
    · simp only [h1, decide_false, Bool.false_and, Bool.false_or]
      by_cases h2 : bit < b
      · have e1 : b - bit = (b - (bit + 1)) + 1 := by omega
        rw [e1, List.getElem?_cons_succ]
        cases g[b - (bit + 1)]? with
        | none => rfl
        | some j =>
          have a1 : bit + 1 ≤ b := by omega
          have a2 : bit ≤ b := by omega
          simp [a1, a2]
      · have e1 : b - bit = 0 := by omega
        have a2 : ¬ bit ≤ b := by omega
        have a1 : ¬ bit + 1 ≤ b := by omega
        rw [e1]
        cases g[b - (bit + 1)]? <;> simp [a1, a2]

theorem elemValue_length (sets : List BSet) (g : List Nat) (e : List Byte) :
    (elemValue sets g e).length = (g.length + 7) / 8 := by
  simp [elemValue, orBits_length]

/-- Bit `b` of an element's value tells whether the `b`-th set of the group contains it. -/
theorem elemValue_bit {sets : List BSet} {g : List Nat} {e : List Byte} {b i : Nat} (h : g[b]? = some i) :
    (Spec.byteAt (elemValue sets g e) (b / 8)).getLsbD (b % 8) = (memberElems sets i).contains e := by
  unfold elemValue
  rw [orBits_bit (by simp only [List.length_replicate]; omega)]
  simp only [Nat.sub_zero, h, Nat.zero_le, decide_true, Bool.true_and]
  have : Spec.byteAt (List.replicate ((g.length + 7) / 8) (0 : Byte)) (b / 8) = 0 := by
    simp only [Spec.byteAt, List.getElem?_replicate]
    split <;> rfl
  rw [this]
  simp

/-- Exact lookup of a key in a group's map. -/
theorem hashLookup_group (sets : List BSet) (g : List Nat) (k : List Byte) :
    hashLookup (groupEntries sets g) k =
      if (∃ i ∈ g, k ∈ memberElems sets i) then some (elemValue sets g k) else none := by
  unfold hashLookup groupEntries
  have key : ∀ l : List (List Byte), ((l.map fun e => (e, elemValue sets g e)).find?
      fun e => decide (e.1 = k)).map (·.2) = if k ∈ l then some (elemValue sets g k) else none := by
    intro l
    induction l with
    | nil => simp
    | cons e l ih =>
      simp only [List.map_cons, List.find?_cons, List.mem_cons]
      by_cases h : e = k
      · subst h; simp
      · simp only [h, decide_false]
        rw [ih]
        have : ¬ k = e := fun x => h x.symm
        simp [this]
  rw [key]
  have : k ∈ uniqueElems sets g [] ↔ ∃ i ∈ g, k ∈ memberElems sets i := by
    rw [mem_uniqueElems]; simp
  simp only [this]

theorem lpmFold_some (k : List Byte) (es : List (List Byte × List Byte)) :
    ∀ best : Option (List Byte × List Byte),
    ∃ r, es.foldl (lpmStep k) best = r ∧ (∀ x, r = some x → x ∈ es ∨ best = some x) ∧
      (r.isSome = (best.isSome || es.any fun e => lpmMatch k e.1)) := by
  induction es with
  | nil => intro best; exact ⟨best, rfl, fun x h => Or.inr h, by simp⟩
  | cons e es ih =>
    intro best
    simp only [List.foldl_cons]
    obtain ⟨r, h1, h2, h3⟩ := ih (lpmStep k best e)
    refine ⟨r, h1, ?_, ?_⟩
    · intro x hx
      rcases h2 x hx with h | h
      · exact Or.inl (List.mem_cons_of_mem _ h)
      · unfold lpmStep at h
        split at h
        · split at h
          · cases h; exact Or.inl (List.mem_cons_self ..)
          · split at h
            · cases h; exact Or.inl (List.mem_cons_self ..)
            · exact Or.inr h
        · exact Or.inr h
    · rw [h3]
      simp only [List.any_cons, lpmStep]
      by_cases hm : lpmMatch k e.1 = true
      · rw [if_pos hm, hm]
        cases best with
        | none => simp
        | some b => simp only []; split <;> simp
      · have hm' : lpmMatch k e.1 = false := by simpa using hm
        rw [if_neg hm, hm']; simp

/-- Longest prefix match in the map of a single set: found exactly if an element matches, and then
the set's bit is set. -/
theorem lpmLookup_single (sets : List BSet) (i : Nat) (k : List Byte) :
    (lpmLookup (groupEntries sets [i]) k = none ∧ (memberElems sets i).any (lpmMatch k) = false) ∨
    (∃ bs, lpmLookup (groupEntries sets [i]) k = some bs ∧ (memberElems sets i).any (lpmMatch k) = true ∧
      bs.length = 1 ∧ (Spec.byteAt bs 0).getLsbD 0 = true) := by
  obtain ⟨r, h1, h2, h3⟩ := lpmFold_some k (groupEntries sets [i]) none
  unfold lpmLookup
  rw [h1]
  have hany : ((groupEntries sets [i]).any fun e => lpmMatch k e.1) =
      (memberElems sets i).any (lpmMatch k) := by
    rw [Bool.eq_iff_iff]
    simp only [groupEntries, List.any_map, List.any_eq_true, Function.comp]
    constructor
    · rintro ⟨x, hx, hm⟩
      rw [mem_uniqueElems] at hx
      simp at hx
      exact ⟨x, hx, hm⟩
    · rintro ⟨x, hx, hm⟩
      refine ⟨x, ?_, hm⟩
      rw [mem_uniqueElems]
      simp [hx]
  rw [hany] at h3
  cases r with
  | none =>
    refine Or.inl ⟨rfl, ?_⟩
    simpa using h3.symm
  | some x =>
    refine Or.inr ⟨x.2, rfl, by simpa using h3.symm, ?_⟩
    rcases h2 x rfl with h | h
    · simp only [groupEntries, List.mem_map] at h
      obtain ⟨e, he, rfl⟩ := h
      rw [mem_uniqueElems] at he
      simp at he
      refine ⟨by simp [elemValue_length], ?_⟩
      have := elemValue_bit (sets := sets) (g := [i]) (e := e) (b := 0) (i := i) rfl
      simp only [Nat.zero_div, Nat.zero_mod] at this
      rw [this]
      simpa using he
    · cases h

/-! ### Groups -/

/-- What holds of the groups built from the first `n` sets. -/
structure GroupsOk (sets : List BSet) (n : Nat) (gs : Groups) : Prop where
  wf : ∀ g ∈ gs, ∃ h t hs, g = h :: t ∧ sets[h]? = some hs ∧ h < n ∧ (∀ k ∈ t, k < n ∧ ∃ s, sets[k]? = some s ∧ s.key = hs.key ∧ s.useTrie = false)
  cover : ∀ k s, k < n → sets[k]? = some s → s.elems ≠ [] → ∃ g ∈ gs, k ∈ g
  len : ∀ g ∈ gs, g.length ≤ n

theorem addToGroups_mem {sets : List BSet} {i : Nat} {s : BSet} {gs : Groups} {g : List Nat}
    (h : g ∈ addToGroups sets i s gs) :
    g ∈ gs ∨ g = [i] ∨ ∃ g0 ∈ gs, g = g0 ++ [i] ∧ s.useTrie = false ∧
      ∃ hs, groupHead sets g0 = some hs ∧ s.key = hs.key := by
  induction gs with
  | nil => simp [addToGroups] at h; exact Or.inr (Or.inl h)
  | cons g0 gs ih =>
    unfold addToGroups at h
    generalize hX : (!s.useTrie && (match (g0.head?.bind fun h => sets[h]?) with
        | some h => s.sameKey h
        | none => false)) = X at h
    cases X with
    | true =>
      have hc := hX
      rw [Bool.and_eq_true] at hc
      rw [if_pos rfl] at h
      rcases List.mem_cons.mp h with rfl | h
      · refine Or.inr (Or.inr ⟨g0, List.mem_cons_self .., rfl, by simpa using hc.1, ?_⟩)
        cases hg : g0.head?.bind fun h => sets[h]? with
        | none => rw [hg] at hc; simp at hc
        | some hs =>
          rw [hg] at hc
          exact ⟨hs, hg, by simpa [BSet.sameKey] using hc.2⟩
      · exact Or.inl (List.mem_cons_of_mem _ h)
    | false =>
      rw [if_neg (by simp)] at h
      rcases List.mem_cons.mp h with rfl | h
      · exact Or.inl (List.mem_cons_self ..)
      · rcases ih h with h | h | ⟨g1, h1, h2⟩
        · exact Or.inl (List.mem_cons_of_mem _ h)
        · exact Or.inr (Or.inl h)
        · exact Or.inr (Or.inr ⟨g1, List.mem_cons_of_mem _ h1, h2⟩)

theorem addToGroups_cover {sets : List BSet} {i : Nat} {s : BSet} {gs : Groups} :
    (∃ g ∈ addToGroups sets i s gs, i ∈ g) ∧
      ∀ k, (∃ g ∈ gs, k ∈ g) → ∃ g ∈ addToGroups sets i s gs, k ∈ g := by
  induction gs with
  | nil => simp [addToGroups]
  | cons g0 gs ih =>
    unfold addToGroups
    generalize (!s.useTrie && (match (g0.head?.bind fun h => sets[h]?) with
        | some h => s.sameKey h
        | none => false)) = X
    cases X with
    | true =>
      rw [if_pos rfl]
      refine ⟨⟨g0 ++ [i], List.mem_cons_self .., by simp⟩, ?_⟩
      rintro k ⟨g, hg, hk⟩
      rcases List.mem_cons.mp hg with rfl | hg
      · exact ⟨g ++ [i], List.mem_cons_self .., by simp [hk]⟩
      · exact ⟨g, List.mem_cons_of_mem _ hg, hk⟩
    | false =>
      rw [if_neg (by simp)]
      obtain ⟨⟨g, hg, hi⟩, h2⟩ := ih
      refine ⟨⟨g, List.mem_cons_of_mem _ hg, hi⟩, ?_⟩
      rintro k ⟨g, hg, hk⟩
      rcases List.mem_cons.mp hg with rfl | hg
      · exact ⟨g, List.mem_cons_self .., hk⟩
      · obtain ⟨g', h1, h3⟩ := h2 k ⟨g, hg, hk⟩
        exact ⟨g', List.mem_cons_of_mem _ h1, h3⟩

theorem GroupsOk.step {sets : List BSet} {n : Nat} {gs : Groups} (h : GroupsOk sets n gs) {s : BSet}
    (hs : sets[n]? = some s) :
    GroupsOk sets (n + 1) (if s.elems.isEmpty then gs else addToGroups sets n s gs) := by
  have mono : ∀ g ∈ gs, ∃ h t hs, g = h :: t ∧ sets[h]? = some hs ∧ h < n + 1 ∧ (∀ k ∈ t, k < n + 1 ∧
      ∃ s, sets[k]? = some s ∧ s.key = hs.key ∧ s.useTrie = false) := by
    intro g hg
    obtain ⟨a, t, hs, h1, h2, h3, h4⟩ := h.wf g hg
    exact ⟨a, t, hs, h1, h2, by omega, fun k hk => ⟨by have := (h4 k hk).1; omega, (h4 k hk).2⟩⟩
  split
  · next he =>
    refine ⟨mono, ?_, fun g hg => by have := h.len g hg; omega⟩
    intro k s' hk hs' hne
    by_cases hkn : k = n
    · subst hkn; rw [hs] at hs'; cases hs'
      simp at he; exact absurd he hne
    · exact h.cover k s' (by omega) hs' hne
  · refine ⟨?_, ?_, ?_⟩
    · intro g hg
      rcases addToGroups_mem hg with hg | rfl | ⟨g0, hg0, rfl, ht, hd, hh, hk⟩
      · exact mono g hg
      · exact ⟨n, [], s, rfl, hs, by omega, by simp⟩
      · obtain ⟨a, t, hs', h1, h2, h3, h4⟩ := mono g0 hg0
        subst h1
        have : hd = hs' := by
          simp [groupHead, h2] at hh; exact hh.symm
        subst this
        refine ⟨a, t ++ [n], hd, rfl, h2, h3, ?_⟩
        intro k hk'
        rcases List.mem_append.mp hk' with hk' | hk'
        · exact h4 k hk'
        · simp at hk'; subst hk'
          exact ⟨by omega, s, hs, hk, ht⟩
    · intro k s' hk hs' hne
      by_cases hkn : k = n
      · subst hkn; exact addToGroups_cover.1
      · exact addToGroups_cover.2 k (h.cover k s' (by omega) hs' hne)
    · intro g hg
      rcases addToGroups_mem hg with hg | rfl | ⟨g0, hg0, rfl, _⟩
      · have := h.len g hg; omega
      · simp
      · have := h.len g0 hg0; simp; omega

theorem buildGroupsFrom_ok {sets : List BSet} (rest : List BSet) (n : Nat) (gs : Groups)
    (h : GroupsOk sets n gs) (hr : sets.drop n = rest) (hn : n ≤ sets.length) :
    GroupsOk sets sets.length (buildGroupsFrom sets n rest gs) := by
  induction rest generalizing n gs with
  | nil =>
    have : n = sets.length := by
      have := congrArg List.length hr
      simp at this; omega
    subst this; exact h
  | cons s rest ih =>
    have hlt : n < sets.length := by
      have := congrArg List.length hr
      simp at this; omega
    have hs : sets[n]? = some s := by
      rw [List.drop_eq_getElem_cons hlt] at hr
      rw [List.getElem?_eq_getElem hlt]
      rw [(List.cons.inj hr).1]
    simp only [buildGroupsFrom]
    refine ih (n + 1) _ (h.step hs) ?_ (by omega)
    rw [List.drop_eq_getElem_cons hlt] at hr
    exact (List.cons.inj hr).2

theorem buildGroups_ok (sets : List BSet) : GroupsOk sets sets.length (buildGroups sets) := by
  refine buildGroupsFrom_ok sets 0 [] ⟨by simp, by omega, by simp⟩ (by simp) (by omega)

/-- The group of a set: same index for the map and for the bit. -/
theorem findGroup_bit {gs : Groups} {i : Nat} (h : ∃ g ∈ gs, i ∈ g) :
    ∃ n g, findGroup gs i = some n ∧ gs[n]? = some g ∧ g ∈ gs ∧ i ∈ g ∧ bitIndex gs i = .ok (g.idxOf i) := by
  induction gs with
  | nil => obtain ⟨g, hg, _⟩ := h; cases hg
  | cons g0 gs ih =>
    by_cases hc : i ∈ g0
    · refine ⟨0, g0, ?_, rfl, List.mem_cons_self .., hc, ?_⟩
      · simp [findGroup, List.findIdx?_cons, hc]
      · simp [bitIndex, hc]
    · obtain ⟨g, hg, hi⟩ := h
      rcases List.mem_cons.mp hg with rfl | hg
      · exact absurd hi hc
      · obtain ⟨n, g', h1, h2, h3, h4, h5⟩ := ih ⟨g, hg, hi⟩
        refine ⟨n + 1, g', ?_, by simpa using h2, List.mem_cons_of_mem _ h3, h4, ?_⟩
        · simp only [findGroup] at h1
          have hf : (g0.contains i) = false := by simpa using hc
          simp only [findGroup, List.findIdx?_cons, hf, h1, Bool.false_eq_true, if_false, Option.map_some]
        · simp only [bitIndex] at h5
          simp only [bitIndex, List.find?_cons]
          have : (g0.contains i) = false := by simpa using hc
          rw [this]; exact h5

end Bf
