import Verif.Props.C03_Counters
/-!
# C18: the mark action
-/
namespace Bf
open Spec

variable {E : Env} {chain : Chain} {thr : Nat → BitVec 32} {img : List Insn} {w w' wk : World} {r : BitVec 64}

/-- rule.h:161-167 `bf_rule_mark_set`. -/
def Rule.setMark (q : Rule) (m : BitVec 32) : Rule := { q with mark := ~~~0xFFFFFFFF#64 ||| m.setWidth 64 }

/-- Rule `j` is reached, fires, and sets the mark to `m`. -/
def Marks (c : Sem) (rules : List Rule) (w : World) (j : Nat) (m : BitVec 32) : Prop :=
  ∃ rule wj, rules[j]? = some rule ∧ Reaches c rules w j wj ∧ Fires c rule wj ∧ rule.markSet = true ∧ m = rule.markVal

/-- The mark `m` after the first `k` rules, starting from mark `m0`: that of the last of them that fired
and sets one. -/
def MarkAfter (c : Sem) (rules : List Rule) (w : World) (k : Nat) (m : BitVec 32) : Prop :=
  (∃ j, j < k ∧ Marks c rules w j m ∧ ∀ i m', j < i → i < k → ¬ Marks c rules w i m') ∨
  (m = w.mark ∧ ∀ i m', i < k → ¬ Marks c rules w i m')

/-- A rule given a mark through the API sets exactly that mark. -/
theorem C18_value (q : Rule) (m : BitVec 32) : (q.setMark m).markSet = true ∧ (q.setMark m).markVal = m := by
  have h : (~~~0xFFFFFFFF#64 ||| m.setWidth 64) >>> 32 = 0xFFFFFFFF#64 := by
    ext i hi
    simp only [BitVec.getElem_ushiftRight, BitVec.getLsbD_or, BitVec.getLsbD_setWidth, BitVec.getLsbD_not]
    by_cases h32 : i < 32
    · have e1 : m.getLsbD (32 + i) = false := BitVec.getLsbD_of_ge _ _ (by omega)
      have : ∀ i : Fin 32, ((decide (32 + i.val < 64) && !(0xFFFFFFFF#64).getLsbD (32 + i.val)) || false) =
        (0xFFFFFFFF#64).getLsbD i.val := by decide
      rw [e1, Bool.and_false, this ⟨i, h32⟩, BitVec.getLsbD_eq_getElem]
    · have : ∀ i : Fin 64, ¬ i.val < 32 → (0xFFFFFFFF#64).getLsbD i.val = false := by decide
      rw [← BitVec.getLsbD_eq_getElem, this ⟨i, hi⟩ h32]
      have : ¬ (32 + i < 64) := by omega
      simp [this]
  constructor
  · simp only [Rule.markSet, Rule.setMark, h]; decide
  · simp only [Rule.markVal, Rule.setMark]
    ext i hi
    have hf : ∀ i : Fin 32, (~~~0xFFFFFFFF#64 : BitVec 64).getLsbD i.val = false := by decide
    have hf := hf ⟨i, hi⟩
    simp only at hf
    simp only [BitVec.getElem_setWidth, BitVec.getLsbD_or, hf, Bool.false_or, BitVec.getLsbD_setWidth]
    have : i < 64 := by omega
    simp [this, hi]

theorem marks_step {c : Sem} {rules : List Rule} {k : Nat} {m m' : BitVec 32} {rule : Rule}
    (hk : rules[k]? = some rule) (hreach : Reaches c rules w k wk) (h : MarkAfter c rules w k m)
    (hm : (Fires c rule wk ∧ rule.markSet = true ∧ m' = rule.markVal) ∨
      (¬ (Fires c rule wk ∧ rule.markSet = true) ∧ m' = m)) : MarkAfter c rules w (k + 1) m' := by
  rcases hm with ⟨h1, h2, h3⟩ | ⟨h1, rfl⟩
  · exact Or.inl ⟨k, by omega, ⟨rule, wk, hk, hreach, h1, h2, h3⟩, fun i m' a b => by omega⟩
  · have hno : ∀ i m', i < k + 1 → (i < k → ¬ Marks c rules w i m') → ¬ Marks c rules w i m' := by
      intro i m' hi hlt hmk
      by_cases e : i = k
      · subst e
        obtain ⟨q, wj, a, b, d, f, _⟩ := hmk
        rw [hk] at a; cases a
        cases hreach.unique b
        exact h1 ⟨d, f⟩
      · exact hlt (by omega) hmk
    rcases h with ⟨j, a, b, d⟩ | ⟨a, b⟩
    · exact Or.inl ⟨j, by omega, b, fun i m' x y => hno i m' y (fun z => d i m' x z)⟩
    · exact Or.inr ⟨a, fun i m' x => hno i m' x (fun z => b i m' z)⟩

/-- **C18.**  When a rule is reached, the packet's mark is that of the last rule before it that fired and
sets one, or the mark the packet arrived with if there is none: rules without mark never change it. -/
theorem C18_mark {c : Sem} {rules : List Rule} {k : Nat} (h : Reaches c rules w k wk) :
    MarkAfter c rules w k wk.mark := by
  induction h with
  | first => exact Or.inr ⟨rfl, fun i m' h => by omega⟩
  | skip h1 h2 h3 ih => exact marks_step h2 h1 ih (Or.inr ⟨fun h => h.1.not_fails h3, rfl⟩)
  | goOn h1 h2 h3 h4 ih =>
    rename_i k q wk
    refine marks_step h2 h1 ih ?_
    rw [actions_mark]
    by_cases hm : q.markSet = true
    · refine Or.inl ⟨h3, hm, ?_⟩
      rw [if_pos (by simpa [Rule.markSet] using hm)]; rfl
    · refine Or.inr ⟨fun h => hm h.2, ?_⟩
      rw [if_neg (by simpa [Rule.markSet] using hm)]; rfl

/-- **C18.**  The mark a packet leaves the chain with is that of the last rule that fired and sets one. -/
theorem C18_final (h : IsLoaded E chain thr img) (hr : Runs E img w r w') {c : Sem} (hc : Sees E chain thr c) :
    MarkAfter c chain.rules w chain.rules.length w'.mark := by
  obtain ⟨logs, hd⟩ := h.course hr hc
  have e : w'.mark = ({ w' with logs := logs } : World).mark := rfl
  rw [e]
  generalize ({ w' with logs := logs } : World) = w1 at hd
  cases hd with
  | policy h1 => rw [count_mark]; exact C18_mark h1
  | rule h1 h2 h3 h4 =>
    rename_i k q wk
    have hk : k < chain.rules.length := (List.getElem?_eq_some_iff.mp h2).1
    have e2 : (ruleEnd q (actions c q (World.drew wk (draws q.matchers)))).mark =
        if q.markSet then q.markVal else wk.mark := by
      have : (ruleEnd q (actions c q (World.drew wk (draws q.matchers)))).mark =
        (actions c q (World.drew wk (draws q.matchers))).mark := by unfold ruleEnd; split <;> rfl
      rw [this, actions_mark]
      by_cases hm : q.markSet = true
      · rw [if_pos (by simpa [Rule.markSet] using hm), if_pos hm]; rfl
      · rw [if_neg (by simpa [Rule.markSet] using hm), if_neg hm]; rfl
    have hs : MarkAfter c chain.rules w (k + 1) (if q.markSet then q.markVal else wk.mark) := by
      refine marks_step h2 h1 (C18_mark h1) ?_
      by_cases hm : q.markSet = true
      · exact Or.inl ⟨h3, hm, by rw [if_pos hm]⟩
      · exact Or.inr ⟨fun h => hm h.2, by rw [if_neg hm]⟩
    rw [e2]
    have hlast : ∀ i m', k < i → ¬ Marks c chain.rules w i m' := by
      rintro i m' hi ⟨q', wi, a, b, _⟩
      obtain ⟨q'', wj, a', b', d'⟩ := b.before hi
      rw [h2] at a'; cases a'
      cases h1.unique b'
      exact h4 (d' h3)
    rcases hs with ⟨j, a, b, d⟩ | ⟨a, b⟩
    · refine Or.inl ⟨j, by omega, b, fun i m' x y => ?_⟩
      by_cases e : i < k + 1
      · exact d i m' x e
      · exact hlast i m' (by omega)
    · refine Or.inr ⟨a, fun i m' x => ?_⟩
      by_cases e : i < k + 1
      · exact b i m' e
      · exact hlast i m' (by omega)

/-- A packet that can't be read keeps its mark. -/
theorem C18_unreadable (h : IsLoaded E chain thr img) (hr : Runs E img w r w') (hu : Unreadable E chain) :
    w'.mark = w.mark := by
  rw [(C04_unreadable h hr hu).2]

/-- **C18.**  `meta.mark eq X`, in a rule reached in state `wk`, compares the mark of the packet then with `X`
(and `not`, its negation). -/
theorem C18_matcher {c : Sem} (hc : Sees E chain thr c) (hf : chain.hook.flavor ≠ .sockAddr) (m : Matcher) (ht : m.type = .metaMark)
    (rnd : BitVec 32) : c.holds m wk.mark rnd = true ↔ (wk.mark.toNat = leNat (m.payload.take 4) ↔ m.negate = false) := by
  cases hc with
  | sock h => exact absurd h hf
  | packet _ hv _ =>
    simp only [pktSem, holds, core, ht, host, List.drop_zero]
    cases m.negate <;> simp

/-- A TC chain with two rules: mark, then drop on the mark. -/
example : ∃ c, chainNew "marks" .tcIngress .accept []
    [(Sample.rule [] .continue_).setMark 7, Sample.rule [⟨.metaMark, .eq, [7, 0, 0, 0], false⟩] .drop] = .ok c ∧
    (∃ img, compile c Sample.thr Sample.slen stdFds = .ok img) ∧
    ∀ s : Sem, Marks s c.rules Sample.w0 0 7 := by
  have h : chainNew "marks" .tcIngress .accept []
    [(Sample.rule [] .continue_).setMark 7, Sample.rule [⟨.metaMark, .eq, [7, 0, 0, 0], false⟩] .drop] =
      .ok ⟨"marks", .tcIngress, .accept, [], [(Sample.rule [] .continue_).setMark 7,
        { Sample.rule [⟨.metaMark, .eq, [7, 0, 0, 0], false⟩] .drop with index := 1 }], false, false, false⟩ := by decide
  refine ⟨_, h, Sample.compiles_of (by decide +kernel), fun s => ⟨_, _, rfl, .first, ⟨rfl, ?_, ?_⟩, by decide, by decide⟩⟩
  · intro m hm; cases hm
  · intro i m hm; simp [Rule.setMark, Sample.rule] at hm

end Bf
