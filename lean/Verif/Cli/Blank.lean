import Verif.Props.C45_Text
/-!
# A ruleset that is accepted has no set that begins with a blank line
-/
namespace Bf.Cli
open Bf.Spec

theorem set_blank {env : TextEnv} {mem : Nat → Nat → Byte} {fuel : Nat} {name : Option String} {k p : List Char} {s : BSet}
    (h : setNewFromRaw env mem fuel name k p = some (.ok s)) : ¬ blankFirst p := by
  intro hb
  have hs := setNewFromRaw_says h
  rw [C37_diverges env mem name hs.2.1 hs.2.2.1 hb] at h
  cases h

theorem matcherAct_blank {e : PEnv} {st : PState} {s : MatcherS} {a : Matcher × PState} (h : matcherAct e st s = some (.ok a)) :
    ∀ d ∈ (inlineSet s).toList, ¬ blankFirst d.2 := by
  cases s with
  | plain t n o p => intro d hd; cases hd
  | named t n o p => intro d hd; cases hd
  | «inline» k n o p =>
    intro d hd
    cases List.mem_singleton.mp hd
    unfold matcherAct at h
    obtain ⟨o, _, h⟩ := Run.bind_ok h
    split at h
    · cases h
    · obtain ⟨x, h, _⟩ := Run.bind_ok h
      exact set_blank (andAbort_ok h)

theorem matchersAct_blank {e : PEnv} : ∀ {l : List MatcherS} {st : PState} {a : List Matcher × PState}, matchersAct e st l = some (.ok a) →
    ∀ d ∈ l.filterMap inlineSet, ¬ blankFirst d.2
  | [], _, _, _ => by intro d hd; cases hd
  | m :: l, st, a, h => by
    unfold matchersAct at h
    obtain ⟨x, h1, h⟩ := Run.bind_ok h
    obtain ⟨y, h2, _⟩ := Run.bind_ok h
    intro d hd
    obtain ⟨n, hn, he⟩ := List.mem_filterMap.mp hd
    rcases List.mem_cons.mp hn with rfl | hn
    · exact matcherAct_blank h1 d (by rw [he]; exact List.mem_singleton.mpr rfl)
    · exact matchersAct_blank h2 d (List.mem_filterMap.mpr ⟨n, hn, he⟩)

theorem rulesAct_blank {e : PEnv} : ∀ {l : List RuleS} {st : PState} {a : List Rule × PState}, rulesAct e st l = some (.ok a) →
    ∀ d ∈ inlineSets l, ¬ blankFirst d.2
  | [], _, _, _ => by intro d hd; cases hd
  | r :: l, st, a, h => by
    unfold rulesAct at h
    obtain ⟨x, h1, h⟩ := Run.bind_ok h
    obtain ⟨y, h2, _⟩ := Run.bind_ok h
    unfold ruleAct at h1
    obtain ⟨ms, h1, _⟩ := Run.bind_ok h1
    intro d hd
    unfold inlineSets at hd
    rcases List.mem_append.mp (List.flatMap_cons ▸ hd) with hd | hd
    · exact matchersAct_blank h1 d hd
    · exact rulesAct_blank h2 d hd

theorem setsAct_blank {e : PEnv} : ∀ {l : List SetS} {st st' : PState}, setsAct e st l = some (.ok st') → ∀ d ∈ l, ¬ blankFirst d.payload
  | [], _, _, _ => by intro d hd; cases hd
  | s :: l, st, st', h => by
    unfold setsAct at h
    obtain ⟨x, h1, h⟩ := Run.bind_ok h
    intro d hd
    rcases List.mem_cons.mp hd with rfl | hd
    · unfold setAct at h1
      obtain ⟨o, _, h1⟩ := Run.bind_ok h1
      split at h1
      · cases h1
      · obtain ⟨y, h1, _⟩ := Run.bind_ok h1
        exact set_blank (andAbort_ok h1)
    · exact setsAct_blank h d hd

theorem chainsAct_blank {e : PEnv} : ∀ {l : List ChainS} {st : PState} {rs : List (Chain × Option HookOpts)}, chainsAct e st l = some (.ok rs) →
    ∀ c ∈ l, ∀ p ∈ setTexts c, ¬ blankFirst p
  | [], _, _, _ => by intro c hc; cases hc
  | s :: l, st, rs, h => by
    unfold chainsAct at h
    obtain ⟨x, h1, h⟩ := Run.bind_ok h
    obtain ⟨y, h2, _⟩ := Run.bind_ok h
    intro c hc p hp
    rcases List.mem_cons.mp hc with rfl | hc
    · unfold chainAct at h1
      obtain ⟨_, _, h1⟩ := Run.bind_ok h1
      obtain ⟨_, _, h1⟩ := Run.bind_ok h1
      obtain ⟨_, _, h1⟩ := Run.bind_ok h1
      obtain ⟨_, g1, h1⟩ := Run.bind_ok h1
      obtain ⟨_, g2, h1⟩ := Run.bind_ok h1
      unfold setTexts at hp
      rcases List.mem_append.mp hp with hp | hp
      · obtain ⟨d, hd, rfl⟩ := List.mem_map.mp hp
        exact setsAct_blank g1 d hd
      · obtain ⟨d, hd, rfl⟩ := List.mem_map.mp hp
        exact rulesAct_blank g2 d hd
    · exact chainsAct_blank h2 c hc p hp

/-! ## How many sets a chain has -/

theorem chainAct_size {e : PEnv} {st st' : PState} {s : ChainS} {c : Chain × Option HookOpts} (h0 : st.sets = []) (h : chainAct e st s = some (.ok (c, st'))) :
    c.1.sets.length = (setTexts s).length := by
  unfold chainAct at h
  obtain ⟨hook, h1, h⟩ := Run.bind_ok h
  obtain ⟨o, h2, h⟩ := Run.bind_ok h
  obtain ⟨policy, h3, h⟩ := Run.bind_ok h
  obtain ⟨st1, h4, h⟩ := Run.bind_ok h
  obtain ⟨rs, h5, h⟩ := Run.bind_ok h
  split at h
  · cases h
  · next hp =>
    obtain ⟨chain, h6, h⟩ := Run.bind_ok h
    obtain ⟨u, h7, h⟩ := Run.bind_ok h
    cases h
    have h6 := orAbort_ok h6
    unfold chainNew at h6
    split at h6
    · cases h6
    · obtain ⟨c1, c2, c3, c4, _⟩ := checkRules_list h6
      simp only at c3
      obtain ⟨s1, decl, s2, s3⟩ := setsAct_says h4
      obtain ⟨⟨inl, r1, r2⟩, r3⟩ := rulesAct_says (rs := rs.1) (st' := rs.2) h5
      rw [h0, List.nil_append] at s2
      rw [c3, r1, s2, setTexts, List.length_append, List.length_append, List.length_map, List.length_map, each_length s3, each_length r2]

theorem chainsAct_size {e : PEnv} : ∀ {l : List ChainS} {st : PState} {rs : List (Chain × Option HookOpts)}, st.sets = [] → chainsAct e st l = some (.ok rs) →
    Each (fun s c => c.1.sets.length = (setTexts s).length) l rs
  | [], st, rs, _, h => by cases h; exact .nil
  | s :: l, st, rs, h0, h => by
    unfold chainsAct at h
    obtain ⟨x, h1, h⟩ := Run.bind_ok h
    obtain ⟨y, h2, h⟩ := Run.bind_ok h
    cases h
    exact .cons (chainAct_size h0 h1) (chainsAct_size (chainAct_sets h1) h2)

/-- C45: a text that is well written is accepted if, and only if, each of its chains says something its hook can evaluate and no set of its begins
with a blank line; the chains are then those it says. -/
theorem C45_accepts {e : PEnv} {text : List Char} {cs : List ChainS} (hw : Writes text cs) (hf : text.length + 4 ≤ e.fuel) :
    (∃ rs, bfcParse e text = some (.ok rs) ∧ Each (ChainSays e.text e.rate) cs rs ∧ ∀ c ∈ rs, c.1.sets.length ≤ 4294967296) ↔
      (∀ s ∈ cs, ∃ c, ChainSays e.text e.rate s c ∧ (∀ r ∈ c.1.rules, Evaluable c.1.hook c.1.sets r) ∧ c.1.sets.length ≤ 4294967296) ∧
      ∀ s ∈ cs, ∀ p ∈ setTexts s, ¬ blankFirst p := by
  constructor
  · intro h
    have hb : ∀ s ∈ cs, ∀ p ∈ setTexts s, ¬ blankFirst p := by
      obtain ⟨rs, h1, _⟩ := h
      unfold bfcParse at h1
      rw [writes_parse hw] at h1
      exact chainsAct_blank h1
    exact ⟨(C45_accepts_partial hw hf hb).mp h, hb⟩
  · rintro ⟨h, hb⟩
    exact (C45_accepts_partial hw hf hb).mpr h

end Bf.Cli
