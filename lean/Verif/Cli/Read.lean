import Verif.Cli.Scan
import Verif.Spec.Written
/-!
# A text that is well written is read

Every word of `Spec/Written.lean` is read as the token it is meant to be.
-/
namespace Bf.Cli
open Bf.Spec

def allStates : List LState :=
  [.initial, .hookOpts, .markOpts, .logEvery, .redirIface, .redirDir, .set, .metaIface, .l3Proto, .metaMark, .flowHash, .l4Proto,
   .proba, .ip4Addr, .ip4Net, .ip4Dscp, .ip6Addr, .ip6Net, .ip6Dscp, .port, .icmpType, .icmpCode, .tcpFlags]
theorem mem_allStates (st : LState) : st ∈ allStates := by cases st <;> decide

/-! ## Gaps -/

theorem known_head {c : Char} {w s : List Char} (h : w.head? = some c) : ({ head := some c } : Known).Of w s :=
  ⟨fun d e => by cases e; exact h, (fun d e => by cases e), (fun d e => by cases e), (fun d e => by cases e)⟩

theorem find_blank : ∀ c ∈ [' ', '\t', '\n'], ∀ st ∈ allStates, lexRules.find? (fun r => r.active st && r.re.accepts [c]) = some (ign (cls [(' ', ' '), ('\t', '\t'), ('\n', '\n')])) := by
  decide +kernel
theorem bounds_blank : ∀ c ∈ [' ', '\t', '\n'], ∀ st ∈ allStates, ({ head := some c, nohead := ['#', '(', '{'] } : Known).bounds st = true := by
  decide +kernel

theorem known_nohead {k : Known} {w s : List Char} {c : Char} (hh : w.head? = some c) (h1 : k.head = none ∨ k.head = some c) (h2 : c ∉ k.nohead)
    (h3 : k.last = none) (h4 : k.next = none) : k.Of w s := by
  refine ⟨fun d e => ?_, fun d hd e => ?_, fun d e => ?_, fun d e => ?_⟩
  · rcases h1 with h1 | h1
    · rw [h1] at e; cases e
    · rw [h1] at e; cases e; exact hh
  · rw [hh] at e; cases e; exact h2 hd
  · rw [h3] at e; cases e
  · rw [h4] at e; cases e

theorem mem_blanks {c : Char} (h : Blank c) : c ∈ [' ', '\t', '\n'] := by
  rcases h with rfl | rfl | rfl <;> decide

theorem lex_blank {c : Char} (h : Blank c) (st : LState) (s : List Char) : lexFrom st (c :: s) = lexFrom st s := by
  have hm := mem_blanks h
  have hk : ({ head := some c, nohead := ['#', '(', '{'] } : Known).Of [c] s := by
    refine known_nohead rfl (Or.inr rfl) ?_ rfl rfl
    rcases h with rfl | rfl | rfl <;> decide
  exact lexFrom_word (w := [c]) (by simp) hk (bounds_blank c hm st (mem_allStates st)) (find_blank c hm st (mem_allStates st))

def commentRule : LRule := ign (.seq (chr '#') (.star (.one ⟨true, [('\n', '\n')]⟩)))

theorem bounds_comment : ∀ st ∈ allStates, ({ head := some '#', nohead := ['(', '{'], next := some '\n' } : Known).bounds st = true := by decide +kernel

theorem not_newline {c : Char} (h : c ≠ '\n') : (Cls.mk true [('\n', '\n')]).has c = true := by
  rcases one_any c with h' | h'
  · exact absurd h' h
  · exact h'

theorem star_of {k : Cls} : ∀ {w : List Char}, (∀ c ∈ w, k.has c = true) → (Re.star (.one k)).Lang w
  | [], _ => .starNil
  | c :: w, h => .starCons (c := c) (x := []) (.one (h c List.mem_cons_self)) (star_of fun d hd => h d (List.mem_cons_of_mem _ hd))

theorem comment_lang {b : List Char} (h : '\n' ∉ b) : commentRule.re.Lang ('#' :: b) :=
  .seq (x := ['#']) (lang_chr.mpr rfl) (star_of fun c hc => not_newline fun e => h (e ▸ hc))

theorem lexRules_two : ∃ l, lexRules = ign (cls [(' ', ' '), ('\t', '\t'), ('\n', '\n')]) :: commentRule :: l := ⟨_, rfl⟩

theorem lex_comment {b s : List Char} (h : '\n' ∉ b) (hs : s = [] ∨ s.head? = some '\n') (st : LState) : lexFrom st ('#' :: (b ++ s)) = lexFrom st s := by
  have hk : ({ head := some '#', nohead := ['(', '{'], next := some '\n' } : Known).Of ('#' :: b) s :=
    ⟨(fun d e => by cases e; rfl), (fun d hd e => by cases e; revert hd; decide), (fun d e => by cases e), (fun d e => by cases e; exact hs)⟩
  have hf : lexRules.find? (fun r => r.active st && r.re.accepts ('#' :: b)) = some commentRule := by
    obtain ⟨l, hl⟩ := lexRules_two
    rw [hl, List.find?_cons, List.find?_cons]
    have h1 : ((ign (cls [(' ', ' '), ('\t', '\t'), ('\n', '\n')])).active st && (ign (cls [(' ', ' '), ('\t', '\t'), ('\n', '\n')])).re.accepts ('#' :: b)) = false := by
      cases e : (ign (cls [(' ', ' '), ('\t', '\t'), ('\n', '\n')])).re.accepts ('#' :: b) with
      | false => simp
      | true =>
        obtain ⟨c, e1, e2⟩ := lang_one.mp (accepts_iff.mp e)
        cases e1
        exact absurd e2 (by decide)
    have h2 : (commentRule.active st && commentRule.re.accepts ('#' :: b)) = true := by
      rw [accepts_iff.mpr (comment_lang h)]
      rfl
    rw [h1, h2]
  exact lexFrom_word (w := '#' :: b) (by simp) hk (bounds_comment st (mem_allStates st)) hf

theorem lex_gap {g : List Char} (h : Gap g) (st : LState) (s : List Char) : lexFrom st (g ++ s) = lexFrom st s := by
  induction h with
  | nil => rfl
  | blank hc _ ih => rw [List.cons_append, lex_blank hc, ih]
  | @comment b s' hb _ ih =>
    rw [List.cons_append, List.append_assoc, List.cons_append, lex_comment hb (Or.inr rfl), lex_blank (Or.inr (Or.inr rfl)), ih]

theorem lexFrom_nil (st : LState) : lexFrom st [] = [] := lexGo_nil _ _ _

theorem lex_end {s : List Char} (h : Laid [] s) (st : LState) : lexFrom st s = [] := by
  cases h with
  | nil hg =>
    have := lex_gap hg st []
    rw [List.append_nil] at this
    rw [this, lexFrom_nil]
  | last hg hb =>
    rw [lex_gap hg]
    have := lex_comment (s := []) hb (Or.inl rfl) st
    rw [List.append_nil] at this
    rw [this, lexFrom_nil]

/-! ## Words in order -/

/-- The next word does not begin with a comma. -/
def noComma (ws : List (List Char)) : Prop := ∀ w, ws.head? = some w → w ≠ [] ∧ w.head? ≠ some ','

/-- From `st`, the words are read as the tokens, up to `st'`. -/
def Reads (st : LState) (ws : List (List Char)) (ts : List Tok) (st' : LState) : Prop :=
  ∀ more text, noComma more → Laid (ws ++ more) text → ∃ rest, Laid more rest ∧ lexFrom st text = ts ++ lexFrom st' rest

theorem Reads.nil (st : LState) : Reads st [] [] st := fun _ text _ h => ⟨text, h, rfl⟩

theorem Reads.append {st st' st'' : LState} {a b : List (List Char)} {ts us : List Tok} (ha : Reads st a ts st') (hb : Reads st' b us st'') (hc : noComma b) :
    Reads st (a ++ b) (ts ++ us) st'' := by
  intro more text hm hl
  rw [List.append_assoc] at hl
  have hc' : noComma (b ++ more) := by
    cases b with
    | nil => exact hm
    | cons w b => exact fun v e => hc v e
  obtain ⟨r, h1, h2⟩ := ha _ _ hc' hl
  obtain ⟨r', h3, h4⟩ := hb _ _ hm h1
  exact ⟨r', h3, by rw [h2, h4, List.append_assoc]⟩

theorem Reads.cons {st st' st'' : LState} {w : List Char} {b : List (List Char)} {t : Tok} {us : List Tok} (ha : Reads st [w] [t] st') (hb : Reads st' b us st'')
    (hc : noComma b) : Reads st (w :: b) (t :: us) st'' := ha.append hb hc

/-- A word that only what follows can bound. -/
structure Plain (w : List Char) : Prop where
  ne : w ≠ []
  head : w.head? ≠ some '#' ∧ w.head? ≠ some '(' ∧ w.head? ≠ some '{'
  last : ∀ c, w.getLast? = some c → ¬ Separates c

def seps : List Char := [' ', '\t', '\n', '#', '(', ')', '{', '}', ',']
theorem mem_seps {c : Char} : c ∈ seps ↔ Separates c := by
  simp only [seps, List.mem_cons, List.not_mem_nil, or_false, Separates, Blank, or_assoc]

theorem bounds_plain : ∀ st ∈ allStates, ∀ c ∈ seps, (c = ',' ∧ st = .tcpFlags) ∨ ({ nohead := ['#', '(', '{'], next := some c } : Known).bounds st = true := by
  decide +kernel

theorem comma_head {ws : List (List Char)} {s : List Char} (h : Laid ws s) (hn : noComma ws) : s.head? ≠ some ',' := by
  have hgap : ∀ {g s : List Char}, Gap g → s.head? ≠ some ',' → (g ++ s).head? ≠ some ',' := by
    intro g s hg hs
    cases hg with
    | nil => exact hs
    | blank hb _ => intro e; cases e; rcases hb with h | h | h <;> cases h
    | comment _ _ => intro e; cases e
  cases h with
  | nil hg => have := hgap (s := []) hg (by simp); rwa [List.append_nil] at this
  | last hg _ => exact hgap hg (by intro e; cases e)
  | @cons g w s ws hg _ _ =>
    refine hgap hg ?_
    obtain ⟨d, w', rfl⟩ := List.exists_cons_of_ne_nil (hn w rfl).1
    exact (hn _ rfl).2

/-- One step. -/
theorem step_plain {st : LState} {w : List Char} {q : LRule} {t : Tok} (hp : Plain w) (hq : lexRules.find? (fun r => r.active st && r.re.accepts w) = some q)
    (ht : q.kind.tok w = some t) (he : t.isEnd = false) {ws : List (List Char)} {text : List Char} (hl : Laid (w :: ws) text) (hc : st ≠ .tcpFlags ∨ noComma ws) :
    ∃ rest, Laid ws rest ∧ lexFrom st text = t :: lexFrom (q.next.getD st) rest := by
  cases hl with
  | @cons g _ s _ hg ha hs =>
    refine ⟨s, hs, ?_⟩
    rw [lex_gap hg]
    have hk : ∃ k : Known, k.Of w s ∧ k.bounds st = true := by
      have hn : ∀ c ∈ ['#', '(', '{'], w.head? ≠ some c := by
        simp only [List.mem_cons, List.not_mem_nil, or_false]
        rintro c (rfl | rfl | rfl)
        · exact hp.head.1
        · exact hp.head.2.1
        · exact hp.head.2.2
      rcases ha with rfl | ⟨c, hsep, hc'⟩
      · refine ⟨{ nohead := ['#', '(', '{'], next := some ' ' }, ⟨(fun d e => by cases e), hn, (fun d e => by cases e), (fun _ _ => Or.inl rfl)⟩, ?_⟩
        rcases bounds_plain st (mem_allStates st) ' ' (by decide) with ⟨h, _⟩ | h
        · cases h
        · exact h
      · rcases hc' with hc' | hc'
        · refine ⟨{ nohead := ['#', '(', '{'], next := some c }, ⟨(fun d e => by cases e), hn, (fun d e => by cases e), (fun d e => by cases e; exact Or.inr hc')⟩, ?_⟩
          rcases bounds_plain st (mem_allStates st) c (mem_seps.mpr hsep) with ⟨rfl, h⟩ | h
          · exfalso
            rcases hc with hc | hc
            · exact hc h
            · exact comma_head hs hc hc'
          · exact h
        · exact absurd hsep (hp.last c hc')
    obtain ⟨k, h1, h2⟩ := hk
    have := lexFrom_word hp.ne h1 h2 hq
    rw [this, ht]
    simp only [he]
    rfl

end Bf.Cli
