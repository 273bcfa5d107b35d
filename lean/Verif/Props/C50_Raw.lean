import Verif.Props.C50_Shown
import Verif.Props.C45_Sample
/-!
# C50: as it is printed, it is not a ruleset
-/
namespace Bf.Cli
open Bf.Spec

namespace Dmp

theorem res_bind_ok {α β : Type} {x : Res α} {f : α → Res β} {b : β} (h : x.bind f = .ok b) : ∃ a, x = .ok a ∧ f a = .ok b := by
  cases x with
  | ok a => exact ⟨a, rfl, h⟩
  | err e => cases h
  | ub => cases h

theorem laid_all {s : List Char} : Laid [s] s := by
  have := Laid.cons (w := s) (ws := []) (s := []) Gap.nil (Or.inl rfl) (Laid.nil Gap.nil)
  simpa using this

/-- A chain without sets or rules, and then a word. -/
theorem header_stray {c : ChainS} (hc : ChainText c) (hs : c.sets = []) (hr : c.rules = []) {w : List Char} (hw : NameText w) {more text : List Char}
    (hl : Laid (chainWords c ++ [w, more]) text) (hm : noComma [more]) : parse (lex text) = none := by
  obtain ⟨st, hst, r⟩ := chain_reads rest_initial hc
  obtain ⟨rest, h1, e⟩ := (r.append (string_reads hst hw) (made_comma (fun _ => word_not) hw.1)) [more] text hm (by simpa using hl)
  have e : lex text = c.toks ++ (.string w :: lexFrom st rest) := by
    have : lex text = lexFrom .initial text := rfl
    rw [this, e, List.append_assoc]; rfl
  have ok : c.Ok := by intro x hx; rw [hr] at hx; cases hx
  have hp := pChain_parses.complete c (.string w :: lexFrom st rest) ok (by intro t ht; cases ht; rfl)
  rw [e]
  unfold parse
  have hcons : ∃ ts, c.toks = .chain :: ts := ⟨_, rfl⟩
  obtain ⟨ts, hts⟩ := hcons
  rw [hts] at hp ⊢
  rw [List.cons_append] at hp ⊢
  have hmany : many isChain pChain (Tok.chain :: (ts ++ Tok.string w :: lexFrom st rest)).length (Tok.chain :: (ts ++ Tok.string w :: lexFrom st rest)) =
      some ([c], .string w :: lexFrom st rest) := by
    rw [List.length_cons]
    simp only [many]
    rw [if_pos (by decide), hp]
    simp only [Option.bind_some]
    have : (ts ++ Tok.string w :: lexFrom st rest).length ≠ 0 := by simp
    obtain ⟨n, hn⟩ := Nat.exists_eq_succ_of_ne_zero this
    rw [hn]
    rfl
  rw [hmany]

end Dmp

/-- What is wrong with it: what `bfcli chain get` prints of a chain is never a ruleset: `counters` is not a word of the language. -/
theorem C50_raw_refused {env : TextEnv} {c : Chain} {o : Option HookOpts} (hname : NameText c.name.toList) (hopts : ∀ ho, o = some ho → OptsShown c.hook ho)
    (hpol : c.policy = .accept ∨ c.policy = .drop ∨ c.policy = .next) {k : Counts} {elide : Bool} {text : List Char} (h : chainDump env c o k elide = .ok text) (e : PEnv) :
    bfcParse e text = some (.err .EINVAL) := by
  obtain ⟨l, hl1, hl2, hl3, hl4⟩ := Dmp.head_line hname hopts
  obtain ⟨tail, ht⟩ : ∃ tail, text = (l ++ ['\n']) ++ ("    ".toList ++ ("counters".toList ++ (' ' :: ("policy ".toList ++ tail)))) := by
    unfold chainDump at h
    obtain ⟨ss, h1, h⟩ := Dmp.res_bind_ok h
    obtain ⟨rs, h2, h⟩ := Dmp.res_bind_ok h
    injection h with h
    rw [hl1] at h
    refine ⟨countText (decide (c.hook.flavor ≠ .sockAddr)) k.policy ++ (str "; error " ++ (countText (decide (c.hook.flavor ≠ .sockAddr)) k.error ++ ('\n' :: (ss ++ rs)))), ?_⟩
    rw [← h]
    unfold countersText
    have e : str "    counters policy " = "    ".toList ++ ("counters".toList ++ (' ' :: "policy ".toList)) := by decide
    rw [e]
    simp only [List.append_assoc, List.cons_append, List.nil_append]
  have hlaid : Laid (Dmp.headWords' c o ++ ["counters".toList, "policy ".toList ++ tail]) text := by
    rw [ht]
    refine hl4 _ _ ?_
    refine Dmp.laid_gap (Dmp.gap_blanks (by decide)) ?_
    exact Dmp.Chunk.spaced (ws := []) Dmp.blank_sp Dmp.Chunk.nil _ _ Dmp.laid_all
  have hct : ChainText ⟨c.name.toList, (Doc.hook c.hook).toList, Dmp.optList c o, (Doc.verdict c.policy).toList, [], []⟩ := by
    refine ⟨hname, ⟨c.hook, rfl⟩, fun w hw => ?_, ⟨c.policy, ?_, rfl⟩, (fun _ h => by cases h), (fun _ h => by cases h)⟩
    · cases o with
      | none => cases hw
      | some ho =>
        rw [List.mem_singleton.mp hw]
        exact (Dmp.opts_text (hopts ho rfl)).1
    · rcases hpol with h | h | h <;> rw [h] <;> decide
  have hp := Dmp.header_stray hct rfl rfl (w := "counters".toList) (name_of (by decide) (by decide)) (more := "policy ".toList ++ tail) (text := text)
    (by simpa [chainWords, Dmp.headWords'] using hlaid) (noComma_cons (by simp) (by simp))
  unfold bfcParse
  rw [hp]

end Bf.Cli
