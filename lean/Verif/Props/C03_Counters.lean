import Verif.Props.C02_Continue
/-!
# C03: counters count exactly the matching packets
-/
namespace Bf
open Spec

variable {E : Env} {chain : Chain} {thr : Nat → BitVec 32} {img : List Insn} {w w' : World} {r : BitVec 64}

/-- Rule `j` has a counter, is reached, and fires. -/
def RuleCounts (c : Sem) (rules : List Rule) (w : World) (j : Nat) : Prop :=
  ∃ rule wj, rules[j]? = some rule ∧ rule.hasCounters = true ∧ Reaches c rules w j wj ∧ Fires c rule wj

/-- What counter `j` of a chain of `n` rules counts: for `j < n` the packets rule `j` matches, for `j = n`
those no terminal rule matched, for `j = n + 1` those that can't be read. -/
def Counted (E : Env) (chain : Chain) (thr : Nat → BitVec 32) (w : World) (j : Nat) : Prop :=
  (∃ c, Sees E chain thr c ∧ RuleCounts c chain.rules w j) ∨
  (j = chain.rules.length ∧ ∃ c wn, Sees E chain thr c ∧ Reaches c chain.rules w j wn) ∨
  (j = chain.rules.length + 1 ∧ Unreadable E chain)

/-- Number of bytes accounted for a packet; none for a socket operation. -/
def accounted (E : Env) (chain : Chain) : BitVec 64 :=
  if chain.hook.flavor = .sockAddr then 0 else (inputOf E chain.hook).size

/-- A counter after one more packet. -/
def bumped (size : BitVec 64) (x : BitVec 64 × BitVec 64) : BitVec 64 × BitVec 64 := (x.1 + 1, x.2 + size)

theorem Sees.size {c : Sem} (h : Sees E chain thr c) : c.size = accounted E chain := by
  unfold accounted
  cases h with
  | packet h1 _ _ => rw [if_neg h1]; rfl
  | sock h1 => rw [if_pos h1]; rfl

open Classical in
theorem reaches_counters {c : Sem} {rules : List Rule} (hidx : ∀ (i : Nat) (r : Rule), rules[i]? = some r → r.index = i)
    {k : Nat} {wk : World} (h : Reaches c rules w k wk) (j : Nat) :
    wk.counters j = if j < k ∧ RuleCounts c rules w j then bumped c.size (w.counters j) else w.counters j := by
  induction h with
  | first => simp
  | skip h1 h2 h3 ih =>
    rename_i k n r wk
    rw [drew_counters, ih]
    by_cases hj : j = k
    · subst hj
      rw [if_neg (by omega), if_neg]
      rintro ⟨_, q, wj, a, _, b, d⟩
      rw [h2] at a; cases a
      cases h1.unique b
      exact d.not_fails h3
    · have : j < k ↔ j < k + 1 := by omega
      simp only [this]
  | goOn h1 h2 h3 h4 ih =>
    rename_i k r wk
    rw [actions_counters, hidx _ _ h2]
    simp only [drew_counters]
    by_cases hj : j = k
    · subst hj
      have e : wk.counters j = w.counters j := by rw [ih, if_neg (by omega)]
      by_cases hc : r.hasCounters = true
      · rw [if_pos ⟨rfl, hc⟩, if_pos ⟨by omega, r, wk, h2, hc, h1, h3⟩, e]; rfl
      · rw [if_neg (fun h => hc h.2), if_neg, e]
        rintro ⟨_, q, wj, a, hq, _⟩
        rw [h2] at a; cases a
        exact hc hq
    · rw [if_neg (fun h => hj h.1), ih]
      have : j < k ↔ j < k + 1 := by omega
      simp only [this]

open Classical in
/-- **C03.**  On every packet, every counter either counts the packet, exactly once and with its size, or
does not change; it counts it iff `Counted`. -/
theorem C03_counters (h : IsLoaded E chain thr img) (hr : Runs E img w r w') (j : Nat) :
    w'.counters j = if Counted E chain thr w j then ((w.counters j).1 + 1, (w.counters j).2 + accounted E chain)
      else w.counters j := by
  have hidx := h.api.ok.index
  rcases unreadable_or_sees E chain thr with hu | ⟨c, hc⟩
  · have hno : ∀ c, ¬ Sees E chain thr c := fun c hc => hc.readable hu
    have hiff : Counted E chain thr w j ↔ j = chain.rules.length + 1 := by
      unfold Counted
      constructor
      · rintro (⟨c, hc, _⟩ | ⟨_, c, _, hc, _⟩ | ⟨e, _⟩)
        · exact (hno c hc).elim
        · exact (hno c hc).elim
        · exact e
      · exact fun e => Or.inr (Or.inr ⟨e, hu⟩)
    rw [(C04_unreadable h hr hu).2]
    simp only [hiff, accounted, if_neg hu.1]
  · obtain ⟨logs, hd⟩ := h.course hr hc
    have hiff : Counted E chain thr w j ↔ RuleCounts c chain.rules w j ∨
        (j = chain.rules.length ∧ ∃ wn, Reaches c chain.rules w j wn) := by
      unfold Counted
      have key : ∀ c', Sees E chain thr c' → (∀ k wk, Reaches c' chain.rules w k wk → ∃ wk', Reaches c chain.rules w k wk') ∧
          (RuleCounts c' chain.rules w j → RuleCounts c chain.rules w j) := by
        intro c' hc'
        have hal := hc'.alike hc
        have hr1 := fun k wk (hh : Reaches c' chain.rules w k wk) => hh.alike hal
        refine ⟨fun k wk hh => (hr1 k wk hh).imp fun _ h => h.1, ?_⟩
        rintro ⟨q, wj, a, b, d, e⟩
        obtain ⟨wj', i1, i2⟩ := hr1 _ _ d
        exact ⟨q, wj', a, b, i1, (fires_alike hal i2 rfl).mpr e⟩
      constructor
      · rintro (⟨c', hc', hh⟩ | ⟨e, c', wn, hc', hh⟩ | ⟨_, hu⟩)
        · exact Or.inl ((key c' hc').2 hh)
        · exact Or.inr ⟨e, (key c' hc').1 _ _ hh⟩
        · exact (hc.readable hu).elim
      · rintro (hh | ⟨e, wn, hh⟩)
        · exact Or.inl ⟨c, hc, hh⟩
        · exact Or.inr (Or.inl ⟨e, c, wn, hc, hh⟩)
    simp only [hiff]
    have e : w'.counters = ({ w' with logs := logs } : World).counters := rfl
    rw [e, ← hc.size]
    generalize ({ w' with logs := logs } : World) = w1 at hd
    cases hd with
    | rule h1 h2 h3 h4 =>
      rename_i k rule wk
      have hk : k < chain.rules.length := (List.getElem?_eq_some_iff.mp h2).1
      have e2 : (ruleEnd rule (actions c rule (World.drew wk (draws rule.matchers)))).counters =
          (actions c rule (World.drew wk (draws rule.matchers))).counters := by
        unfold ruleEnd; split <;> rfl
      rw [e2, actions_counters, hidx k rule h2]
      simp only [drew_counters]
      have hafter : ∀ i wi, Reaches c chain.rules w i wi → i ≤ k := by
        intro i wi hi
        rcases Nat.lt_or_ge k i with hlt | hge
        · obtain ⟨q, wj, a, b, d⟩ := hi.before hlt
          rw [h2] at a; cases a
          cases h1.unique b
          exact (h4 (d h3)).elim
        · exact hge
      by_cases hj : j = k
      · subst hj
        have e : wk.counters j = w.counters j := by rw [reaches_counters hidx h1, if_neg (by omega)]
        by_cases hcn : rule.hasCounters = true
        · rw [if_pos ⟨rfl, hcn⟩, if_pos (Or.inl ⟨rule, wk, h2, hcn, h1, h3⟩), e]
        · rw [if_neg (fun h => hcn h.2), if_neg, e]
          rintro (⟨q, wj, a, hq, _⟩ | ⟨e, _⟩)
          · rw [h2] at a; cases a; exact hcn hq
          · omega
      · rw [if_neg (fun h => hj h.1), reaches_counters hidx h1]
        have : (j < k ∧ RuleCounts c chain.rules w j) ↔
            (RuleCounts c chain.rules w j ∨ j = chain.rules.length ∧ ∃ wn, Reaches c chain.rules w j wn) := by
          constructor
          · exact fun h => Or.inl h.2
          · rintro (⟨q, wj, a, b, d, f⟩ | ⟨e, wn, d⟩)
            · have := hafter _ _ d
              exact ⟨by omega, q, wj, a, b, d, f⟩
            · have := hafter _ _ d
              omega
        simp only [this]
        rfl
    | policy h1 =>
      rename_i wk
      simp only [count]
      by_cases hj : j = chain.rules.length
      · subst hj
        rw [if_pos rfl, if_pos (Or.inr ⟨rfl, wk, h1⟩), reaches_counters hidx h1, if_neg (by omega)]
      · rw [if_neg hj, reaches_counters hidx h1]
        have : (j < chain.rules.length ∧ RuleCounts c chain.rules w j) ↔
            (RuleCounts c chain.rules w j ∨ j = chain.rules.length ∧ ∃ wn, Reaches c chain.rules w j wn) := by
          constructor
          · exact fun h => Or.inl h.2
          · rintro (⟨q, wj, a, b⟩ | ⟨e, _⟩)
            · exact ⟨(List.getElem?_eq_some_iff.mp a).1, q, wj, a, b⟩
            · exact absurd e hj
        simp only [this]
        rfl

/-- A history of packets through a loaded chain, on one processor: each arrives in some environment and
state, and finds the counters as the previous one left them. -/
inductive History (chain : Chain) (thr : Nat → BitVec 32) (img : List Insn) :
    (Nat → BitVec 64 × BitVec 64) → List (Env × World) → (Nat → BitVec 64 × BitVec 64) → Prop
  | done {cs : Nat → BitVec 64 × BitVec 64} : History chain thr img cs [] cs
  | packet {cs cs' : Nat → BitVec 64 × BitVec 64} {E : Env} {w w' : World} {r : BitVec 64} {l : List (Env × World)} :
      IsLoaded E chain thr img → w.counters = cs → Runs E img w r w' →
      History chain thr img w'.counters l cs' → History chain thr img cs ((E, w) :: l) cs'

open Classical in
/-- **C03**, over a history: a counter is the number of packets it counts, and their total size
(64-bit numbers, which wrap). -/
theorem C03_history {cs cs' : Nat → BitVec 64 × BitVec 64} {l : List (Env × World)}
    (h : History chain thr img cs l cs') (j : Nat) :
    let counted := l.filter fun p => Counted p.1 chain thr p.2 j
    cs' j = ((cs j).1 + BitVec.ofNat 64 counted.length, (cs j).2 + (counted.map fun p => accounted p.1 chain).sum) := by
  induction h with
  | done => simp
  | packet h1 h2 h3 _ ih =>
    simp only at ih ⊢
    rw [ih, C03_counters h1 h3 j, h2]
    rename_i cs cs' E w w' r l _
    by_cases hc : Counted E chain thr w j
    · simp only [hc, if_true, List.filter_cons, decide_true, List.length_cons, List.map_cons, List.sum_cons]
      rw [BitVec.ofNat_add]
      refine Prod.ext ?_ ?_
      · show _ + 1 + _ = _ + (_ + BitVec.ofNat 64 1)
        rw [BitVec.add_assoc, BitVec.add_comm 1]; rfl
      · exact BitVec.add_assoc ..
    · simp [hc]

/-- A history of two packets through the sample chain, the second of which is truncated. -/
example : ∃ img cs' w2, History Sample.chain Sample.thr img Sample.w0.counters
    [(envOf Sample.base Sample.chain, Sample.w0),
     (envOf { Sample.base with pkt := Sample.base.pkt.take 40 } Sample.chain, w2)] cs' := by
  obtain ⟨img, hi⟩ := Sample.compiles
  have h1 : IsLoaded (envOf Sample.base Sample.chain) Sample.chain Sample.thr img :=
    .of_compile Sample.api Sample.matchers Sample.sets (by decide) (by decide) (by intro h; cases h) hi
  have h2 : IsLoaded (envOf { Sample.base with pkt := Sample.base.pkt.take 40 } Sample.chain) Sample.chain Sample.thr img :=
    .of_compile Sample.api Sample.matchers Sample.sets (by decide) (by decide) (by intro h; cases h) hi
  obtain ⟨r1, w1, a1⟩ := C01_returns h1 Sample.w0
  obtain ⟨r2, w2, a2⟩ := C01_returns h2 w1
  exact ⟨img, _, w1, .packet h1 rfl a1 (.packet h2 rfl a2 .done)⟩

end Bf
