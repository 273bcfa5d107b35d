import Verif.Core.List
/-! # Representation lemmas for the doubly linked list. -/
namespace Bf.CList
open Bf
variable {α : Type}

/-- The heap node expected for position `i` of the abstract sequence `xs`. -/
def nodeAt (xs : List (Nat × α)) (i : Nat) (d : α) : Node α :=
  { data := d
    prev := if i = 0 then none else (xs[i - 1]?).map (·.1)
    next := (xs[i + 1]?).map (·.1) }

/-- `l` represents the sequence `xs` of (address, data). -/
structure Rep (l : LList α) (xs : List (Nat × α)) : Prop where
  nodup : (xs.map (·.1)).Nodup
  len : l.len = xs.length
  head : l.head = xs.head?.map (·.1)
  tail : l.tail = xs.getLast?.map (·.1)
  cells : ∀ i a d, xs[i]? = some (a, d) → l.mem a = some (nodeAt xs i d)

theorem rep_init : Rep (init : LList α) [] := by
  constructor <;> simp [init]

theorem nodup_idx {xs : List (Nat × α)} (h : (xs.map (·.1)).Nodup) {i j : Nat} {a : Nat} {d e : α}
    (hi : xs[i]? = some (a, d)) (hj : xs[j]? = some (a, e)) : i = j := by
  have h1 : (xs.map (·.1))[i]? = some a := by simp [hi]
  have h2 : (xs.map (·.1))[j]? = some a := by simp [hj]
  have hlt : i < (xs.map (·.1)).length := (List.getElem?_eq_some_iff.1 h1).1
  exact (List.getElem?_inj hlt h).1 (h1.trans h2.symm)

theorem mem_none_not_mem {l : LList α} {xs : List (Nat × α)} (h : Rep l xs) {a : Nat} (ha : l.mem a = none) :
    ∀ (i b : Nat) (d : α), xs[i]? = some (b, d) → b ≠ a := by
  intro i b d hi hb
  subst hb
  have := h.cells i b d hi
  simp [ha] at this

theorem rep_addHead {l : LList α} {xs} (h : Rep l xs) (d : α) {a : Nat} (ha : l.mem a = none) :
    ∃ l', addHead l d (some a) = .ok l' ∧ Rep l' ((a, d) :: xs) := by
  have hne := mem_none_not_mem h ha
  cases xs with
  | nil =>
    have hh : l.head = none := by simp [h.head]
    have ht : l.tail = none := by simp [h.tail]
    refine ⟨_, by simp only [addHead, hh]; rfl, ?_⟩
    constructor
    · simp
    · simp [h.len]
    · simp
    · simp [ht]
    · intro i b e hi
      cases i with
      | zero => simp at hi; obtain ⟨rfl, rfl⟩ := hi; simp [nodeAt]
      | succ i => simp at hi
  | cons x xs =>
    obtain ⟨b, e⟩ := x
    have hh : l.head = some b := by simp [h.head]
    have hb : b ≠ a := hne 0 b e (by simp)
    have hcb := h.cells 0 b e (by simp)
    have ht : l.tail.isNone = false := by
      rw [h.tail]; simp [List.getLast?_cons]
    refine ⟨_, by simp [addHead, hh, upd_other _ _ hb, hcb, ht]; rfl, ?_⟩
    constructor
    · rw [List.map_cons, List.nodup_cons]
      refine ⟨?_, h.nodup⟩
      intro hm
      obtain ⟨⟨a', d'⟩, hmem, rfl⟩ := List.mem_map.1 hm
      obtain ⟨i, hi⟩ := List.mem_iff_getElem?.1 hmem
      exact hne i _ _ hi rfl
    · simp [h.len]
    · simp
    · simp [h.tail]
    · intro i c f hi
      cases i with
      | zero =>
        simp at hi; obtain ⟨rfl, rfl⟩ := hi
        simp [upd_other _ _ hb.symm, nodeAt]
      | succ i =>
        simp only [List.getElem?_cons_succ] at hi
        have hca : c ≠ a := hne i c f hi
        by_cases hi0 : i = 0
        · subst hi0
          simp at hi; obtain ⟨rfl, rfl⟩ := hi
          simp [nodeAt]
        · have hcb' : c ≠ b := by
            rintro rfl
            exact hi0 (nodup_idx h.nodup hi (j := 0) (e := e) (by simp))
          simp only [upd_other _ _ hcb', upd_other _ _ hca, h.cells i c f hi]
          obtain ⟨j, rfl⟩ : ∃ j, i = j + 1 := ⟨i - 1, by omega⟩
          simp [nodeAt]

theorem rep_addTail {l : LList α} {xs} (h : Rep l xs) (d : α) {a : Nat} (ha : l.mem a = none) :
    ∃ l', addTail l d (some a) = .ok l' ∧ Rep l' (xs ++ [(a, d)]) := by
  have hne := mem_none_not_mem h ha
  have hnd : ((xs ++ [(a, d)]).map (·.1)).Nodup := by
    simp only [List.map_append, List.map_cons, List.map_nil]
    rw [List.nodup_append]
    refine ⟨h.nodup, by simp, ?_⟩
    intro b hb c hc
    simp at hc; subst hc
    obtain ⟨⟨a', d'⟩, hmem, rfl⟩ := List.mem_map.1 hb
    obtain ⟨i, hi⟩ := List.mem_iff_getElem?.1 hmem
    exact hne i _ _ hi
  rcases List.eq_nil_or_concat xs with rfl | ⟨ys, ⟨b, e⟩, rfl⟩
  · have hh : l.head = none := by simp [h.head]
    have ht : l.tail = none := by simp [h.tail]
    refine ⟨_, by simp only [addTail, ht]; rfl, ?_⟩
    constructor
    · exact hnd
    · simp [h.len]
    · simp [hh]
    · simp
    · intro i b e hi
      cases i with
      | zero => simp at hi; obtain ⟨rfl, rfl⟩ := hi; simp [nodeAt]
      | succ i => simp at hi
  · simp only [List.concat_eq_append] at *
    have ht : l.tail = some b := by simp [h.tail]
    have hlast : (ys ++ [(b, e)])[ys.length]? = some (b, e) := by simp
    have hb : b ≠ a := hne _ b e hlast
    have hcb := h.cells _ b e hlast
    have hh : l.head.isNone = false := by
      rw [h.head]; cases ys <;> simp
    refine ⟨_, by simp [addTail, ht, upd_other _ _ hb, hcb, hh]; rfl, ?_⟩
    constructor
    · exact hnd
    · simp [h.len]
    · rw [h.head]; cases ys <;> simp
    · simp
    · intro i c f hi
      by_cases hia : i = (ys ++ [(b, e)]).length
      · subst hia
        rw [List.getElem?_append_right (by simp)] at hi
        simp at hi; obtain ⟨rfl, rfl⟩ := hi
        simp [upd_other _ _ hb.symm, nodeAt]
      · have hilt : i < (ys ++ [(b, e)]).length := by
          have := (List.getElem?_eq_some_iff.1 hi).1
          simp at this hia ⊢; omega
        have hi' := hi
        rw [List.getElem?_append_left hilt] at hi'
        have hca : c ≠ a := hne i c f hi'
        have hprev : (if i = 0 then none else ((ys ++ [(b, e)] ++ [(a, d)])[i-1]?).map (·.1)) =
            (if i = 0 then none else ((ys ++ [(b, e)])[i-1]?).map (·.1)) := by
          split
          · rfl
          · rw [List.getElem?_append_left (by omega)]
        by_cases hil : i = ys.length
        · subst hil
          rw [hlast] at hi'
          simp only [Option.some.injEq, Prod.mk.injEq] at hi'
          obtain ⟨rfl, rfl⟩ := hi'
          simp only [upd_same, nodeAt, hprev]
          simp
        · have hcb' : c ≠ b := by
            rintro rfl
            exact hil (nodup_idx h.nodup hi' hlast)
          simp only [upd_other _ _ hcb', upd_other _ _ hca, h.cells i c f hi']
          simp only [nodeAt, hprev]
          have : i + 1 < (ys ++ [(b, e)]).length := by simp at hilt ⊢; omega
          rw [List.getElem?_append_left this]

/-- Removing position `i`. -/
theorem rep_delete {l : LList α} {xs} (h : Rep l xs) {i : Nat} {a : Nat} {d : α}
    (hi : xs[i]? = some (a, d)) :
    ∃ l', delete l a = .ok l' ∧ Rep l' (xs.eraseIdx i) ∧ l'.mem a = none ∧
      (∀ b, l.mem b = none → l'.mem b = none) := by
  have hca := h.cells i a d hi
  have hilt : i < xs.length := (List.getElem?_eq_some_iff.1 hi).1
  -- neighbours
  have hprev : (nodeAt xs i d).prev = if i = 0 then none else (xs[i-1]?).map (·.1) := rfl
  have hnext : (nodeAt xs i d).next = (xs[i+1]?).map (·.1) := rfl
  -- first neighbour update
  obtain ⟨mem1, hm1, hm1p⟩ : ∃ mem1, modNode l.mem (nodeAt xs i d).prev
      (fun p => { p with next := (nodeAt xs i d).next }) = .ok mem1 ∧
      (∀ j b e, xs[j]? = some (b, e) → mem1 b = some (if j + 1 = i then
        { nodeAt xs j e with next := (xs[i+1]?).map (·.1) } else nodeAt xs j e)) ∧
      (∀ b, l.mem b = none → mem1 b = none) := by
    by_cases hi0 : i = 0
    · refine ⟨l.mem, by rw [hprev]; simp [hi0, modNode], ?_, fun _ hb => hb⟩
      intro j b e hj
      rw [h.cells j b e hj]; simp [hi0]
    · have hp : i - 1 < xs.length := by omega
      obtain ⟨⟨pa, pd⟩, hpe⟩ : ∃ x, xs[i-1]? = some x := ⟨_, List.getElem?_eq_getElem hp⟩
      have hcp := h.cells _ _ _ hpe
      refine ⟨_, by simp only [hprev, hi0, if_false, hpe, Option.map_some, modNode, hcp]; rfl, ?_, ?_⟩
      · intro j b e hj
        by_cases hji : j + 1 = i
        · have : j = i - 1 := by omega
          subst this
          rw [hpe] at hj
          simp only [Option.some.injEq, Prod.mk.injEq] at hj
          obtain ⟨rfl, rfl⟩ := hj
          simp [hji, hnext]
        · have hbp : b ≠ pa := by
            rintro rfl
            have := nodup_idx h.nodup hj hpe
            omega
          rw [upd_other _ _ hbp, h.cells j b e hj]; simp [hji]
      · intro b hb
        have : b ≠ pa := by rintro rfl; simp [hcp] at hb
        rw [upd_other _ _ this]; exact hb
  obtain ⟨hm1c, hm1n⟩ := hm1p
  obtain ⟨mem2, hm2, hm2c, hm2n⟩ : ∃ mem2, modNode mem1 (nodeAt xs i d).next
      (fun p => { p with prev := (nodeAt xs i d).prev }) = .ok mem2 ∧
      (∀ j b e, xs[j]? = some (b, e) → mem2 b = some (if j + 1 = i then
        { nodeAt xs j e with next := (xs[i+1]?).map (·.1) } else if j = i + 1 then
        { nodeAt xs j e with prev := if i = 0 then none else (xs[i-1]?).map (·.1) } else
        nodeAt xs j e)) ∧
      (∀ b, mem1 b = none → mem2 b = none) := by
    by_cases hin : i + 1 < xs.length
    · obtain ⟨⟨qa, qd⟩, hqe⟩ : ∃ x, xs[i+1]? = some x := ⟨_, List.getElem?_eq_getElem hin⟩
      have hcq := hm1c _ _ _ hqe
      rw [if_neg (by omega)] at hcq
      refine ⟨_, by simp only [hnext, hqe, Option.map_some, modNode, hcq]; rfl, ?_, ?_⟩
      · intro j b e hj
        by_cases hji : j = i + 1
        · subst hji
          rw [hqe] at hj
          simp only [Option.some.injEq, Prod.mk.injEq] at hj
          obtain ⟨rfl, rfl⟩ := hj
          have : ¬ (i + 1 + 1 = i) := by omega
          simp [this, hprev]
        · have hbp : b ≠ qa := by
            rintro rfl
            exact hji (nodup_idx h.nodup hj hqe)
          rw [upd_other _ _ hbp, hm1c j b e hj]
          simp [hji]
      · intro b hb
        have : b ≠ qa := by rintro rfl; simp [hcq] at hb
        rw [upd_other _ _ this]; exact hb
    · have hnn : xs[i+1]? = none := List.getElem?_eq_none (by omega)
      refine ⟨mem1, by simp [hnext, hnn, modNode], ?_, fun _ hb => hb⟩
      intro j b e hj
      have hjlt : j < xs.length := (List.getElem?_eq_some_iff.1 hj).1
      rw [hm1c j b e hj]
      have : j ≠ i + 1 := by omega
      simp [this]
  refine ⟨_, by simp only [delete, hca, hm1, hm2]; rfl, ?_, by simp, ?_⟩
  · constructor
    · exact h.nodup.sublist ((List.eraseIdx_sublist xs i).map _)
    · simp [h.len, List.length_eraseIdx, hilt]
    · -- head
      show (if l.head = some a then (nodeAt xs i d).next else l.head) = _
      rw [h.head, List.head?_eq_getElem?, List.head?_eq_getElem?]
      by_cases hi0 : i = 0
      · subst hi0
        rw [hi, List.getElem?_eraseIdx]
        simp [hnext]
      · have h0 : 0 < xs.length := by omega
        obtain ⟨⟨pa, pd⟩, hpe⟩ : ∃ x, xs[0]? = some x := ⟨_, List.getElem?_eq_getElem h0⟩
        have : pa ≠ a := by
          rintro rfl
          exact hi0 (nodup_idx h.nodup hi hpe)
        rw [hpe, List.getElem?_eraseIdx]
        simp [this, hpe, Nat.pos_of_ne_zero hi0]
    · show (if l.tail = some a then (nodeAt xs i d).prev else l.tail) = _
      rw [h.tail, List.getLast?_eq_getElem?, List.getLast?_eq_getElem?, List.length_eraseIdx,
        if_pos hilt]
      by_cases hil : i = xs.length - 1
      · rw [← hil, hi]
        simp only [Option.map_some, if_true, hprev, List.getElem?_eraseIdx]
        by_cases hi0 : i = 0
        · subst hi0
          have : xs.length = 1 := by omega
          simp [this]
        · have h6 : i - 1 < i := by omega
          simp only [hi0, if_false]
          rw [if_pos h6]
      · have hlt : xs.length - 1 < xs.length := by omega
        obtain ⟨⟨pa, pd⟩, hpe⟩ : ∃ x, xs[xs.length - 1]? = some x := ⟨_, List.getElem?_eq_getElem hlt⟩
        have : pa ≠ a := by
          rintro rfl
          exact hil (nodup_idx h.nodup hi hpe)
        have h6 : ¬ (xs.length - 1 - 1 < i) := by omega
        rw [hpe, List.getElem?_eraseIdx, if_neg h6]
        have h2 : xs.length - 1 - 1 + 1 = xs.length - 1 := by omega
        simp [this, h2, hpe]
    · intro j b e hj
      rw [List.getElem?_eraseIdx] at hj
      have hb : b ≠ a := by
        rintro rfl
        split at hj
        · have := nodup_idx h.nodup hi hj; omega
        · have := nodup_idx h.nodup hi hj; omega
      simp only [upd_other _ _ hb]
      by_cases hji : j < i
      · rw [if_pos hji] at hj
        rw [hm2c j b e hj]
        by_cases hj1 : j + 1 = i
        · subst hj1
          have : ¬ (j + 1 < j + 1) := by omega
          simp only [if_true, nodeAt, List.getElem?_eraseIdx, this, if_false]
          by_cases hj0 : j = 0
          · simp [hj0]
          · have : j - 1 < j + 1 := by omega
            simp [hj0, this]
        · have h1 : j ≠ i + 1 := by omega
          have h2 : j + 1 < i := by omega
          simp only [hj1, h1, if_false, nodeAt, List.getElem?_eraseIdx, h2, if_true]
          by_cases hj0 : j = 0
          · simp [hj0]
          · have : j - 1 < i := by omega
            simp [hj0, this]
      · rw [if_neg hji] at hj
        rw [hm2c (j+1) b e hj]
        have h1 : ¬ (j + 1 + 1 = i) := by omega
        have h3 : ¬ (j + 1 < i) := by omega
        by_cases hj1 : j = i
        · subst hj1
          simp only [h1, if_false, if_true, nodeAt, List.getElem?_eraseIdx, h3]
          by_cases hj0 : j = 0
          · simp [hj0]
          · have : j - 1 < j := by omega
            simp [hj0, this]
        · have h2 : ¬ (j + 1 = i + 1) := by omega
          have hj0 : ¬ j = 0 := by omega
          have h4 : ¬ (j - 1 < i) := by omega
          have h5 : j - 1 + 1 = j := by omega
          rw [if_neg h1, if_neg h2]
          simp [nodeAt, List.getElem?_eraseIdx, h3, hj0, h4, h5]
  · intro b hb
    have hba : b ≠ a := by rintro rfl; simp [hca] at hb
    show upd mem2 a none b = none
    rw [upd_other _ _ hba]
    exact hm2n b (hm1n b hb)

theorem nextOf_pos {l : LList α} {xs} (h : Rep l xs) (i : Nat) :
    nextOf l ((xs[i]?).map (·.1)) = .ok ((xs[i+1]?).map (·.1)) := by
  cases hx : xs[i]? with
  | none =>
    have : xs[i+1]? = none := by
      rw [List.getElem?_eq_none_iff] at hx ⊢; omega
    simp [nextOf, this]
  | some x =>
    obtain ⟨a, d⟩ := x
    simp [nextOf, h.cells i a d hx, nodeAt]

theorem collect_loop {l : LList α} {xs} (h : Rep l xs) : ∀ (fuel i : Nat) (acc : List α),
    xs.length - i ≤ fuel →
    foreachLoop collect fuel l acc ((xs[i]?).map (·.1)) ((xs[i+1]?).map (·.1)) =
      .ok (l, acc ++ (xs.drop i).map (·.2)) := by
  intro fuel
  induction fuel with
  | zero =>
    intro i acc hf
    have : xs[i]? = none := List.getElem?_eq_none (by omega)
    have h2 : xs.drop i = [] := List.drop_eq_nil_of_le (by omega)
    simp [this, foreachLoop, h2]
  | succ n ih =>
    intro i acc hf
    cases hx : xs[i]? with
    | none =>
      have h2 : xs.drop i = [] := List.drop_eq_nil_of_le (by simpa using hx)
      simp [foreachLoop, h2]
    | some x =>
      obtain ⟨a, d⟩ := x
      have hlt : i < xs.length := (List.getElem?_eq_some_iff.1 hx).1
      have hd : xs.drop i = (a, d) :: xs.drop (i+1) := by
        rw [List.drop_eq_getElem_cons hlt]
        rw [List.getElem?_eq_getElem hlt] at hx
        simp at hx; rw [hx]
      simp only [Option.map_some, foreachLoop, collect, h.cells i a d hx, nextOf_pos h (i+1)]
      rw [ih (i+1) _ (by omega), hd]
      simp [nodeAt]

theorem rep_forward {l : LList α} {xs} (h : Rep l xs) {fuel : Nat} (hf : xs.length ≤ fuel) :
    forward fuel l = .ok (xs.map (·.2)) := by
  have h0 := nextOf_pos h 0
  rw [← List.head?_eq_getElem?, ← h.head] at h0
  have := collect_loop h fuel 0 [] (by omega)
  rw [← List.head?_eq_getElem?, ← h.head] at this
  simp only [forward, foreach, h0, this]
  simp

theorem prevOf_pos {l : LList α} {xs} (h : Rep l xs) (i : Nat) (hi : i < xs.length) :
    prevOf l ((xs[i]?).map (·.1)) = .ok (if i = 0 then none else (xs[i-1]?).map (·.1)) := by
  cases hx : xs[i]? with
  | none => rw [List.getElem?_eq_none_iff] at hx; omega
  | some x =>
    obtain ⟨a, d⟩ := x
    simp [prevOf, h.cells i a d hx, nodeAt]

theorem backward_loop {l : LList α} {xs} (h : Rep l xs) : ∀ (i fuel : Nat) (acc : List α),
    i ≤ fuel → i ≤ xs.length →
    backwardLoop l fuel acc (if i = 0 then none else (xs[i-1]?).map (·.1))
      (if i ≤ 1 then none else (xs[i-2]?).map (·.1)) =
      .ok (acc ++ ((xs.take i).map (·.2)).reverse) := by
  intro i
  induction i with
  | zero => intro fuel acc hf hi; simp [backwardLoop]
  | succ i ih =>
    intro fuel acc hf hi
    obtain ⟨fuel, rfl⟩ : ∃ f, fuel = f + 1 := ⟨fuel - 1, by omega⟩
    have hlt : i < xs.length := by omega
    obtain ⟨⟨a, d⟩, hx⟩ : ∃ x, xs[i]? = some x := ⟨_, List.getElem?_eq_getElem hlt⟩
    have hn : (if i + 1 ≤ 1 then none else (xs[i+1-2]?).map (·.1)) =
        (if i = 0 then none else (xs[i-1]?).map (·.1)) := by
      by_cases h0 : i = 0
      · simp [h0]
      · have : ¬ (i + 1 ≤ 1) := by omega
        have e : i + 1 - 2 = i - 1 := by omega
        simp [h0, e]
    have hpv : prevOf l (if i = 0 then none else (xs[i-1]?).map (·.1)) =
        .ok (if i ≤ 1 then none else (xs[i-2]?).map (·.1)) := by
      by_cases h0 : i = 0
      · simp [h0, prevOf]
      · simp only [h0, if_false]
        rw [prevOf_pos h (i-1) (by omega)]
        by_cases h1 : i ≤ 1
        · have : i - 1 = 0 := by omega
          simp [h1, this]
        · have : ¬ i - 1 = 0 := by omega
          have e : i - 1 - 1 = i - 2 := by omega
          simp [h1, this, e]
    rw [hn]
    simp only [Nat.add_eq_zero_iff, Nat.one_ne_zero, and_false, if_false, Nat.add_sub_cancel, hx,
      Option.map_some, backwardLoop, h.cells i a d hx, hpv]
    rw [ih fuel _ (by omega) (by omega)]
    have ht : xs.take (i+1) = xs.take i ++ [(a, d)] := by
      rw [List.take_add_one, hx]; simp
    simp [ht, nodeAt]

theorem rep_backward {l : LList α} {xs} (h : Rep l xs) {fuel : Nat} (hf : xs.length ≤ fuel) :
    backward fuel l = .ok ((xs.map (·.2)).reverse) := by
  have hb := backward_loop h xs.length fuel [] hf (by omega)
  have ht : l.tail = if xs.length = 0 then none else (xs[xs.length-1]?).map (·.1) := by
    rw [h.tail, List.getLast?_eq_getElem?]
    split
    · rename_i h0
      have : xs = [] := by simpa using h0
      simp [this]
    · rfl
  have hp : prevOf l l.tail = .ok (if xs.length ≤ 1 then none else (xs[xs.length-2]?).map (·.1)) := by
    by_cases h0 : xs.length = 0
    · simp [ht, h0, prevOf]
    · rw [ht]; simp only [h0, if_false]
      rw [prevOf_pos h _ (by omega)]
      by_cases h1 : xs.length ≤ 1
      · have : xs.length - 1 = 0 := by omega
        simp [h1, this]
      · have : ¬ xs.length - 1 = 0 := by omega
        have e : xs.length - 1 - 1 = xs.length - 2 := by omega
        simp [h1, this, e]
  simp only [backward, hp]
  rw [ht, hb]; simp

theorem rep_walk {l : LList α} {xs} (h : Rep l xs) : ∀ (k i : Nat),
    walk l k ((xs[i]?).map (·.1)) = .ok ((xs[i+k]?).map (·.1)) := by
  intro k
  induction k with
  | zero => intro i; simp [walk]
  | succ k ih =>
    intro i
    simp only [walk, nextOf_pos h i, ih (i+1)]
    rw [show i + 1 + k = i + (k + 1) by omega]

theorem rep_getAt_loop {l : LList α} {xs} (h : Rep l xs) : ∀ (fuel i idx : Nat),
    xs.length - i ≤ fuel →
    getAtLoop l fuel idx ((xs[i]?).map (·.1)) ((xs[i+1]?).map (·.1)) =
      .ok ((xs[i+idx]?).map (·.2)) := by
  intro fuel
  induction fuel with
  | zero =>
    intro i idx hf
    have : xs[i]? = none := List.getElem?_eq_none (by omega)
    have h2 : xs[i+idx]? = none := List.getElem?_eq_none (by omega)
    simp [this, h2, getAtLoop]
  | succ n ih =>
    intro i idx hf
    cases hx : xs[i]? with
    | none =>
      have h2 : xs[i+idx]? = none := by rw [List.getElem?_eq_none_iff] at *; omega
      simp [getAtLoop, h2]
    | some x =>
      obtain ⟨a, d⟩ := x
      cases idx with
      | zero => simp [getAtLoop, h.cells i a d hx, hx, nodeAt]
      | succ idx =>
        simp only [Option.map_some, getAtLoop, h.cells i a d hx, nextOf_pos h (i+1)]
        rw [ih (i+1) idx (by omega), show i + 1 + idx = i + (idx + 1) by omega]

theorem rep_getAt {l : LList α} {xs} (h : Rep l xs) {fuel idx : Nat} (hf : xs.length ≤ fuel) :
    getAt fuel l idx = .ok ((xs.map (·.2))[idx]?) := by
  have h0 := nextOf_pos h 0
  rw [← List.head?_eq_getElem?, ← h.head] at h0
  have := rep_getAt_loop h fuel 0 idx (by omega)
  rw [← List.head?_eq_getElem?, ← h.head] at this
  simp only [getAt, h0, this]
  simp

end Bf.CList

namespace Bf.CList
open Bf
variable {α : Type}

/-- Loop body of a `bf_list_foreach` that deletes the current node when its data
satisfies `p` (the pattern of `bf_program_fixup`, cgen/program.c:379-477). -/
def deleteIf (p : α → Bool) (l : LList α) (_ : Unit) (n : Nat) : Res (LList α × Unit) :=
  match l.mem n with
  | none => .ub
  | some nd => if p nd.data then
      match delete l n with
      | .ok l' => .ok (l', ())
      | .err e => .err e
      | .ub => .ub
    else .ok (l, ())

theorem rep_deleteIf_loop (p : α → Bool) : ∀ (rest ys : List (Nat × α)) (l : LList α) (fuel : Nat),
    Rep l (ys ++ rest) → rest.length ≤ fuel →
    ∃ l', foreachLoop (deleteIf p) fuel l () (rest[0]?.map (·.1)) (rest[1]?.map (·.1)) = .ok (l', ()) ∧
      Rep l' (ys ++ rest.filter (fun x => !p x.2)) := by
  intro rest
  induction rest with
  | nil => intro ys l fuel h _; exact ⟨l, by cases fuel <;> simp [foreachLoop], by simpa using h⟩
  | cons x rest ih =>
    obtain ⟨a, d⟩ := x
    intro ys l fuel h hf
    obtain ⟨fuel, rfl⟩ : ∃ f, fuel = f + 1 := ⟨fuel - 1, by simp at hf; omega⟩
    have hi : (ys ++ (a, d) :: rest)[ys.length]? = some (a, d) := by simp
    have hc := h.cells _ _ _ hi
    have hdat : (nodeAt (ys ++ (a, d) :: rest) ys.length d).data = d := rfl
    by_cases hp : p d
    · obtain ⟨l', hl', hrep, -, -⟩ := rep_delete h hi
      have he : (ys ++ (a, d) :: rest).eraseIdx ys.length = ys ++ rest := by
        rw [List.eraseIdx_append_of_length_le (by omega)]; simp
      rw [he] at hrep
      have hn : nextOf l' (rest[0]?.map (·.1)) = .ok (rest[1]?.map (·.1)) := by
        have := nextOf_pos hrep ys.length
        rw [List.getElem?_append_right (by omega), List.getElem?_append_right (by omega)] at this
        simpa using this
      obtain ⟨l'', h1, h2⟩ := ih ys l' fuel hrep (by simp at hf; omega)
      refine ⟨l'', ?_, by simpa [hp] using h2⟩
      simp only [List.getElem?_cons_zero, List.getElem?_cons_succ, Option.map_some, foreachLoop,
        deleteIf, hc, hdat, hp, if_true, hl', hn]
      exact h1
    · have hn : nextOf l (rest[0]?.map (·.1)) = .ok (rest[1]?.map (·.1)) := by
        have := nextOf_pos h (ys.length + 1)
        rw [List.getElem?_append_right (by omega), List.getElem?_append_right (by omega)] at this
        simpa [show ys.length + 1 + 1 - ys.length = 2 by omega] using this
      obtain ⟨l'', h1, h2⟩ := ih (ys ++ [(a, d)]) l fuel (by simpa using h) (by simp at hf; omega)
      refine ⟨l'', ?_, by simpa [hp] using h2⟩
      simp only [List.getElem?_cons_zero, List.getElem?_cons_succ, Option.map_some, foreachLoop,
        deleteIf, hc, hdat, hp, Bool.false_eq_true, if_false, hn]
      exact h1

theorem rep_deleteIf (p : α → Bool) {l : LList α} {xs : List (Nat × α)} (h : Rep l xs) {fuel : Nat}
    (hf : xs.length ≤ fuel) :
    ∃ l', foreach (deleteIf p) fuel l () = .ok (l', ()) ∧ Rep l' (xs.filter (fun x => !p x.2)) := by
  have h0 := nextOf_pos h 0
  rw [← List.head?_eq_getElem?, ← h.head] at h0
  obtain ⟨l', h1, h2⟩ := rep_deleteIf_loop p xs [] l fuel (by simpa using h) hf
  refine ⟨l', ?_, by simpa using h2⟩
  rw [← List.head?_eq_getElem?, ← h.head] at h1
  simp only [foreach, h0]
  exact h1

end Bf.CList
