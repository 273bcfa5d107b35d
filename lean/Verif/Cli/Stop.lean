import Verif.Cli.Sentences
/-!
# What follows a byte that ends the text
-/
namespace Bf.Cli
open Bf.Spec

/-- The bytes that end the text. -/
def stopBytes : List Char := '\x00' :: (List.range 128).map fun n => Char.ofNat (128 + n)

theorem mem_stop {c : Char} (h : Stops c) (hb : c.toNat < 256) : c ∈ stopBytes := by
  rcases h with h | h
  · refine List.mem_cons_of_mem _ (List.mem_map.mpr ⟨c.toNat - 128, List.mem_range.mpr (by omega), ?_⟩)
    rw [show 128 + (c.toNat - 128) = c.toNat by omega, Char.ofNat_toNat]
  · have : c = '\x00' := by rw [← Char.ofNat_toNat c, h]
    rw [this]
    exact List.mem_cons_self

def charRule : LRule := ⟨[], .one ⟨true, [('\n', '\n')]⟩, .char, none⟩

theorem stop_bounds : ∀ c ∈ stopBytes, ∀ r ∈ lexRules, (r.re.single || r.re.avoids c || ['#', '(', '{'].any r.re.starts) = true := by decide +kernel

theorem stop_accepts : ∀ c ∈ stopBytes, lexRules.filter (fun r => r.re.accepts [c]) = [charRule] := by decide +kernel

theorem find_only {α : Type} {p q : α → Bool} {x : α} (hx : q x = true) : ∀ {l : List α}, l.filter p = [x] → l.find? (fun r => q r && p r) = some x
  | [], h => by cases h
  | y :: l, h => by
    rw [List.find?_cons]
    cases hp : p y with
    | true =>
      rw [List.filter_cons_of_pos hp] at h
      rw [(List.cons.inj h).1]
      simp [hx]
    | false =>
      rw [List.filter_cons_of_neg (by simp [hp])] at h
      rw [Bool.and_false]
      exact find_only hx h

theorem lex_stop {c : Char} (h : Stops c) (hb : c.toNat < 256) (st : LState) (s : List Char) : lexFrom st (c :: s) = [] := by
  have hm := mem_stop h hb
  have hk : ({ head := some c, nohead := ['#', '(', '{'] } : Known).Of [c] s := by
    refine known_nohead rfl (Or.inr rfl) ?_ rfl rfl
    intro he
    have : c.toNat ≠ 0 ∧ c.toNat < 128 := by
      simp only [List.mem_cons, List.not_mem_nil, or_false] at he
      rcases he with rfl | rfl | rfl <;> decide
    rcases h with h | h <;> omega
  have hbd : ({ head := some c, nohead := ['#', '(', '{'] } : Known).bounds st = true := by
    refine List.all_eq_true.mpr fun r hr => ?_
    have := stop_bounds c hm r hr
    simp only [Bool.or_eq_true] at this ⊢
    rcases this with (h | h) | h
    · exact Or.inl (Or.inl (Or.inl (Or.inl (Or.inr h))))
    · exact Or.inl (Or.inl (Or.inl (Or.inr h)))
    · exact Or.inl (Or.inl (Or.inr h))
  have hf : lexRules.find? (fun r => r.active st && r.re.accepts [c]) = some charRule := find_only (q := fun r => r.active st) rfl (stop_accepts c hm)
  have := lexFrom_word (w := [c]) (by simp) hk hbd hf
  rw [show c :: s = [c] ++ s from rfl, this]
  have he : (Tok.char c).isEnd = true := by
    unfold Tok.isEnd
    rcases h with h | h
    · simp [h]
    · simp [h]
  show (if (Tok.char c).isEnd = true then [] else _) = []
  rw [he]
  rfl

/-- The words of a ruleset, then one that begins with such a byte: the ruleset ends there. -/
theorem stop_parse {text junk : List Char} {cs : List ChainS} (h1 : cs ≠ []) (h2 : ∀ c ∈ cs, ChainText c) {c : Char} (hc : Stops c) (hb : c.toNat < 256)
    (hj : junk.head? = some c) (h3 : Laid (cs.flatMap chainWords ++ [junk]) text) : parse (lex text) = some cs := by
  obtain ⟨_, st, _, r⟩ := many_reads (A := resting) (B := resting) (fun _ h => h) (fun _ a _ b => chain_reads a b)
    (fun x _ => noComma_cons (ws := _) (by decide) (by decide)) rest_initial h2
  have hn : noComma [junk] := by
    intro w hw
    cases hw
    refine ⟨(fun e => by rw [e] at hj; cases hj), (fun e => ?_)⟩
    rw [hj] at e
    cases e
    rcases hc with hc | hc <;> revert hc <;> decide
  obtain ⟨rest, hr, e⟩ := r [junk] text hn h3
  have he : lexFrom st rest = [] := by
    cases hr with
    | @cons g _ s _ hg _ _ =>
      rw [lex_gap hg]
      cases junk with
      | nil => cases hj
      | cons d j =>
        cases hj
        exact lex_stop hc hb st _
  rw [he, List.append_nil] at e
  exact parse_iff.mpr ⟨⟨h1, fun c hc x hx => (h2 c hc).rules x hx |>.some⟩, e⟩

end Bf.Cli
