import Verif.Cli.Blank
/-!
# A text has fewer sets than characters
-/
namespace Bf.Cli
open Bf.Spec

def total (ws : List (List Char)) : Nat := (ws.map List.length).sum

theorem total_append (a b : List (List Char)) : total (a ++ b) = total a + total b := by simp [total]
theorem total_cons (a : List Char) (b : List (List Char)) : total (a :: b) = a.length + total b := by simp [total]

theorem laid_total {ws : List (List Char)} {text : List Char} (h : Laid ws text) : total ws ≤ text.length := by
  induction h with
  | nil _ => exact Nat.zero_le _
  | last _ _ => exact Nat.zero_le _
  | cons _ _ _ ih =>
    rw [total_cons]
    simp only [List.length_append]
    omega

theorem elements_pos {p : List Char} (h : ElementsText p) : 1 ≤ p.length := by
  obtain ⟨b, rfl, _⟩ := h
  simp

theorem sets_total : ∀ {l : List SetS}, (∀ s ∈ l, SetText s) → l.length ≤ total (l.flatMap setWords)
  | [], _ => Nat.zero_le _
  | s :: l, h => by
    have h1 := sets_total (l := l) fun x hx => h x (List.mem_cons_of_mem _ hx)
    have h2 := elements_pos (h s List.mem_cons_self).payload
    rw [List.flatMap_cons, total_append, List.length_cons]
    have : 1 ≤ total (setWords s) := by
      unfold setWords
      simp only [total_cons, total_append]
      omega
    omega

theorem matchers_total : ∀ {l : List MatcherS}, (∀ m ∈ l, MatcherText m) → (l.filterMap inlineSet).length ≤ total (l.flatMap matcherWords)
  | [], _ => Nat.zero_le _
  | m :: l, h => by
    have h1 := matchers_total (l := l) fun x hx => h x (List.mem_cons_of_mem _ hx)
    have h2 := h m List.mem_cons_self
    rw [List.flatMap_cons, total_append, List.filterMap_cons]
    cases m with
    | plain t n o p => exact Nat.le_trans h1 (Nat.le_add_left _ _)
    | named t n o p => exact Nat.le_trans h1 (Nat.le_add_left _ _)
    | «inline» k n o p =>
      have h3 := elements_pos h2.2.2
      have : 1 ≤ total (matcherWords (.inline k n o p)) := by
        unfold matcherWords
        simp only [total_cons, total_append]
        omega
      simp only [inlineSet, List.length_cons]
      omega

theorem rules_total : ∀ {l : List RuleS}, (∀ r ∈ l, RuleText r) → (inlineSets l).length ≤ total (l.flatMap ruleWords)
  | [], _ => Nat.zero_le _
  | r :: l, h => by
    have h1 := rules_total (l := l) fun x hx => h x (List.mem_cons_of_mem _ hx)
    have h2 := matchers_total (h r List.mem_cons_self).matchers
    rw [List.flatMap_cons, total_append, inlineSets, List.flatMap_cons, List.length_append, ← inlineSets]
    have : total (r.matchers.flatMap matcherWords) ≤ total (ruleWords r) := by
      unfold ruleWords
      simp only [total_cons, total_append]
      omega
    omega

theorem chain_total {s : ChainS} (h : ChainText s) : (setTexts s).length ≤ total (chainWords s) := by
  have h1 := sets_total h.sets
  have h2 := rules_total h.rules
  unfold setTexts chainWords
  simp only [total_cons, total_append, List.length_append, List.length_map]
  omega

theorem total_mem {f : ChainS → List (List Char)} : ∀ {cs : List ChainS} {s : ChainS}, s ∈ cs → total (f s) ≤ total (cs.flatMap f)
  | c :: cs, s, h => by
    rw [List.flatMap_cons, total_append]
    rcases List.mem_cons.mp h with rfl | h
    · omega
    · have := total_mem (f := f) h
      omega

theorem texts_le {text : List Char} {cs : List ChainS} (hw : Writes text cs) {s : ChainS} (hs : s ∈ cs) : (setTexts s).length ≤ text.length :=
  Nat.le_trans (chain_total (hw.2.1 s hs)) (Nat.le_trans (total_mem hs) (laid_total hw.2.2))

/-- The sets of the chains of a text are fewer than its characters. -/
theorem read_small {e : PEnv} {text : List Char} {cs : List ChainS} (hw : Writes text cs) (hl : text.length ≤ 4294967296) {rs : List (Chain × Option HookOpts)}
    (h : bfcParse e text = some (.ok rs)) : ∀ c ∈ rs, c.1.sets.length ≤ 4294967296 := by
  intro c hc
  unfold bfcParse at h
  rw [writes_parse hw] at h
  obtain ⟨s, hs, he⟩ := each_mem (chainsAct_size rfl h) hc
  rw [he]
  exact Nat.le_trans (texts_le hw hs) hl

theorem says_small {env : TextEnv} {rate : List Char → Option Nat} {text : List Char} {cs : List ChainS} (hw : Writes text cs) (hl : text.length ≤ 4294967296) {s : ChainS} (hs : s ∈ cs)
    {c : Chain × Option HookOpts} (h : ChainSays env rate s c) : c.1.sets.length ≤ 4294967296 := by
  obtain ⟨decl, inl, h1, h2, _, h3⟩ := h.sets
  have := texts_le hw hs
  rw [setTexts, List.length_append, List.length_map, List.length_map, each_length h2, each_length h3, ← List.length_append, ← h1] at this
  exact Nat.le_trans this hl

/-- C45: a text that is well written is accepted if, and only if, each of its chains says something its hook can evaluate and no set of its begins
with a blank line, and then the chains are those it says.  (Texts of 4 GiB at most.) -/
theorem C45_decided {e : PEnv} {text : List Char} {cs : List ChainS} (hw : Writes text cs) (hl : text.length ≤ 4294967296) (hf : text.length + 4 ≤ e.fuel) :
    ((∃ rs, bfcParse e text = some (.ok rs)) ↔
      (∀ s ∈ cs, ∃ c, ChainSays e.text e.rate s c ∧ ∀ r ∈ c.1.rules, Evaluable c.1.hook c.1.sets r) ∧ ∀ s ∈ cs, ∀ p ∈ setTexts s, ¬ blankFirst p) ∧
    ∀ rs, bfcParse e text = some (.ok rs) → Each (ChainSays e.text e.rate) cs rs := by
  have hr : ∀ rs, bfcParse e text = some (.ok rs) → Each (ChainSays e.text e.rate) cs rs := fun rs h => C45_read hw h (read_small hw hl h)
  refine ⟨⟨?_, ?_⟩, hr⟩
  · rintro ⟨rs, h⟩
    obtain ⟨h1, h2⟩ := (C45_accepts hw hf).mp ⟨rs, h, hr rs h, read_small hw hl h⟩
    exact ⟨fun s hs => (h1 s hs).elim fun c h => ⟨c, h.1, h.2.1⟩, h2⟩
  · rintro ⟨h1, h2⟩
    obtain ⟨rs, h, _⟩ := (C45_accepts hw hf).mpr ⟨fun s hs => (h1 s hs).elim fun c h => ⟨c, h.1, h.2, says_small hw hl hs h.1⟩, h2⟩
    exact ⟨rs, h⟩

end Bf.Cli
