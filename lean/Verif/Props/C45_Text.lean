import Verif.Cli.Sound
import Verif.Cli.Accept
import Verif.Cli.Stop
/-!
# C45: the text of a ruleset

`Spec/Ruleset.lean`: what a sentence says (`ChainSays`), and what a text is made of (`Spelled`).
`Spec/Written.lean`: how a sentence is written (`Writes`).
`bfcParse e text` is the result of `bfcli`'s parser (`none`: it does not end).
-/
namespace Bf.Cli
open Bf.Spec

/-- A byte of ASCII, other than NUL. -/
def Ascii (c : Char) : Prop := 0 < c.toNat ∧ c.toNat < 128

/-- C45, what is accepted: a text of ASCII characters that is accepted is made of the words of a sentence, with nothing else between them but
blanks, comments and the punctuation of hook options, and the chains are those it says: all of them, in order, each with its name, hook,
options, policy, sets, and its rules in order. -/
theorem C45_says_partial {e : PEnv} {text : List Char} {rs : List (Chain × Option HookOpts)} (ha : ∀ c ∈ text, Ascii c) (h : bfcParse e text = some (.ok rs))
    (hn : ∀ c ∈ rs, c.1.sets.length ≤ 4294967296) :
    ∃ cs, Sentence cs ∧ Spelled text (cs.flatMap (·.toks)) ∧ Each (ChainSays e.text e.rate) cs rs := by
  obtain ⟨pre, post, cs, e1, e2, e3, e4, e5⟩ := bfcParse_says h hn
  cases post with
  | nil =>
    rw [List.append_nil] at e1
    exact ⟨cs, e3, e1 ▸ e4, e5⟩
  | cons c s =>
    have h1 := ha c (by rw [e1]; exact List.mem_append_right _ List.mem_cons_self)
    rcases e2 c rfl with h2 | h2
    · exact absurd h1.2 (by omega)
    · exact absurd h1.1 (by omega)

/-- C45, in general: the same, of the text up to a byte that is not ASCII, or NUL. -/
theorem C45_prefix {e : PEnv} {text : List Char} {rs : List (Chain × Option HookOpts)} (h : bfcParse e text = some (.ok rs))
    (hn : ∀ c ∈ rs, c.1.sets.length ≤ 4294967296) :
    ∃ pre post cs, text = pre ++ post ∧ (∀ c, post.head? = some c → ¬ Ascii c) ∧ Sentence cs ∧ Spelled pre (cs.flatMap (·.toks)) ∧
      Each (ChainSays e.text e.rate) cs rs := by
  obtain ⟨pre, post, cs, e1, e2, e3⟩ := bfcParse_says h hn
  refine ⟨pre, post, cs, e1, fun c hc ha => ?_, e3⟩
  rcases e2 c hc with h2 | h2
  · exact absurd ha.2 (by omega)
  · exact absurd ha.1 (by omega)

/-- C45, what is read: if a text that is well written is accepted, the chains are those it says. -/
theorem C45_read {e : PEnv} {text : List Char} {cs : List ChainS} (hw : Writes text cs) {rs : List (Chain × Option HookOpts)}
    (h : bfcParse e text = some (.ok rs)) (hn : ∀ c ∈ rs, c.1.sets.length ≤ 4294967296) : Each (ChainSays e.text e.rate) cs rs := by
  unfold bfcParse at h
  rw [writes_parse hw] at h
  exact chainsAct_says rfl h hn

theorem laid_length {ws : List (List Char)} {text : List Char} (h : Laid ws text) : ∀ w ∈ ws, w.length ≤ text.length := by
  induction h with
  | nil _ => intro w hw; cases hw
  | last _ _ => intro w hw; cases hw
  | @cons g w s ws _ _ _ ih =>
    intro v hv
    simp only [List.length_append]
    rcases List.mem_cons.mp hv with rfl | hv
    · omega
    · have := ih v hv
      omega

/-- The texts of the sets of a chain, the declared ones and those of its rules. -/
def setTexts (c : ChainS) : List (List Char) := c.sets.map (·.payload) ++ (inlineSets c.rules).map (·.2)

theorem chainOkText {fuel : Nat} {c : ChainS} (hl : ∀ w ∈ chainWords c, w.length + 4 ≤ fuel) (hb : ∀ p ∈ setTexts c, ¬ blankFirst p) : ChainOkText fuel c := by
  refine ⟨fun d hd => ?_, fun r hr m hm => ?_⟩
  · have hm : ∀ w ∈ setWords d, w.length + 4 ≤ fuel := fun w hw => hl w (by
      unfold chainWords
      refine List.mem_cons_of_mem _ (List.mem_cons_of_mem _ (List.mem_cons_of_mem _ (List.mem_append_right _ (List.mem_cons_of_mem _ ?_))))
      exact List.mem_append_left _ (List.mem_flatMap.mpr ⟨d, hd, hw⟩))
    have h1 := hm d.key (List.mem_cons_of_mem _ (List.mem_cons_of_mem _ List.mem_cons_self))
    have h2 := hm d.payload (List.mem_cons_of_mem _ (List.mem_cons_of_mem _ (List.mem_cons_of_mem _ (List.mem_append_right _ List.mem_cons_self))))
    exact ⟨hb _ (List.mem_append_left _ (List.mem_map.mpr ⟨d, hd, rfl⟩)), by omega, by omega⟩
  · have hw : ∀ w ∈ matcherWords m, w.length + 4 ≤ fuel := fun w hw => hl w (by
      unfold chainWords
      refine List.mem_cons_of_mem _ (List.mem_cons_of_mem _ (List.mem_cons_of_mem _ (List.mem_append_right _ (List.mem_cons_of_mem _ ?_))))
      refine List.mem_append_right _ (List.mem_flatMap.mpr ⟨r, hr, ?_⟩)
      exact List.mem_cons_of_mem _ (List.mem_append_left _ (List.mem_flatMap.mpr ⟨m, hm, hw⟩)))
    cases m with
    | plain t n o p => trivial
    | inline k n o p =>
      have h1 := hw k List.mem_cons_self
      have h2 := hw p (List.mem_cons_of_mem _ (List.mem_append_right _ (List.mem_append_right _ List.mem_cons_self)))
      refine ⟨hb _ (List.mem_append_right _ (List.mem_map.mpr ⟨(k, p), List.mem_flatMap.mpr ⟨r, hr, List.mem_filterMap.mpr ⟨_, hm, rfl⟩⟩, rfl⟩)), by omega, by omega⟩
    | named k n o p => exact hw k List.mem_cons_self

/-- C45: a text that is well written is accepted if, and only if, each of its chains says something its hook can evaluate; the chains are then those
it says.  (The elements of a set may not begin with a blank line: C37.) -/
theorem C45_accepts_partial {e : PEnv} {text : List Char} {cs : List ChainS} (hw : Writes text cs) (hf : text.length + 4 ≤ e.fuel)
    (hb : ∀ c ∈ cs, ∀ p ∈ setTexts c, ¬ blankFirst p) :
    (∃ rs, bfcParse e text = some (.ok rs) ∧ Each (ChainSays e.text e.rate) cs rs ∧ ∀ c ∈ rs, c.1.sets.length ≤ 4294967296) ↔
      ∀ s ∈ cs, ∃ c, ChainSays e.text e.rate s c ∧ (∀ r ∈ c.1.rules, Evaluable c.1.hook c.1.sets r) ∧ c.1.sets.length ≤ 4294967296 := by
  constructor
  · rintro ⟨rs, h1, h2, h3⟩ s hs
    obtain ⟨c, hc, h4⟩ := each_mem' h2 hs
    unfold bfcParse at h1
    rw [writes_parse hw] at h1
    exact ⟨c, h4, chainsAct_evaluable h1 h3 c hc, h3 c hc⟩
  · intro hs
    have hlen : ∀ s ∈ cs, ∀ w ∈ chainWords s, w.length + 4 ≤ e.fuel := fun s h w h' => by
      have := laid_length hw.2.2 w (List.mem_flatMap.mpr ⟨s, h, h'⟩)
      omega
    obtain ⟨rs, h1, h2⟩ := chainsAct_accepts (e := e) (st := ⟨[], 0⟩) (l := cs) rfl fun s h => ⟨hs s h, chainOkText (hlen s h) (hb s h)⟩
    have h3 : bfcParse e text = some (.ok rs) := by
      unfold bfcParse
      rw [writes_parse hw]
      exact h1
    exact ⟨rs, h3, C45_read hw h3 h2, h2⟩

/-- What is wrong with it: after a byte that is not ASCII, or NUL, that begins a word, everything is ignored, and no error is reported: the
ruleset is accepted without the rules and chains that follow. -/
theorem C45_ignores {e : PEnv} {text text' : List Char} {cs : List ChainS} (hw : Writes text cs) {junk : List Char} {c : Char} (hc : ¬ Ascii c) (hb : c.toNat < 256)
    (hj : junk.head? = some c) (hl : Laid (cs.flatMap chainWords ++ [junk]) text') : bfcParse e text' = bfcParse e text := by
  unfold bfcParse
  have hst : Stops c := by
    unfold Ascii at hc
    unfold Stops
    omega
  rw [writes_parse hw, stop_parse hw.1 hw.2.1 hst hb hj hl]

/-! ## `--name` -/

/-- `bfcli chain set`, `load`, `update` take one chain of the ruleset: the first of the name, or the only one. -/
theorem C45_name (name : Option String) (rs : List (Chain × Option HookOpts)) (r : Chain × Option HookOpts) : getChain name rs = .ok r ↔
    (name = none ∧ rs = [r]) ∨ ∃ (n : String) (i : Nat), name = some n ∧ rs[i]? = some r ∧ r.1.name = n ∧ ∀ j q, j < i → rs[j]? = some q → q.1.name ≠ n := by
  unfold getChain
  constructor
  · intro h
    split at h
    · cases h
    · cases name with
      | none =>
        left
        dsimp only at h
        split at h
        · cases h; exact ⟨rfl, rfl⟩
        · cases h
      | some n =>
        right
        dsimp only at h
        split at h
        · cases h
          rename_i hf
          obtain ⟨h1, as, bs, h2, h3⟩ := List.find?_eq_some_iff_append.mp hf
          refine ⟨n, as.length, rfl, ?_, by simpa using h1, fun j q hj hq => ?_⟩
          · rw [h2, List.getElem?_append_right (Nat.le_refl _), Nat.sub_self]; rfl
          · rw [h2, List.getElem?_append_left hj] at hq
            simpa using h3 q (List.mem_of_getElem? hq)
        · cases h
  · rintro (⟨rfl, rfl⟩ | ⟨n, i, rfl, h1, h2, h3⟩)
    · simp
    · have hne : rs ≠ [] := by intro e; rw [e] at h1; cases h1
      rw [if_neg hne]
      have hf : rs.find? (fun r => r.1.name = n) = some r := by
        refine List.find?_eq_some_iff_append.mpr ⟨by simp [h2], rs.take i, rs.drop (i + 1), ?_, fun q hq => ?_⟩
        · obtain ⟨hlt, he⟩ := List.getElem?_eq_some_iff.mp h1
          rw [← he, List.getElem_cons_drop, List.take_append_drop]
        · obtain ⟨j, hj, hq⟩ := List.mem_take_iff_getElem.mp hq
          have := h3 j q (by omega) (by rw [List.getElem?_eq_getElem (by omega), hq])
          simpa using this
      dsimp only
      rw [hf]

end Bf.Cli
