import Verif.Cli.Reads
/-!
# A ruleset that is well written is read
-/
namespace Bf.Cli
open Bf.Spec

theorem noComma_cons {w : List Char} {ws : List (List Char)} (h1 : w ≠ []) (h2 : w.head? ≠ some ',') : noComma (w :: ws) := fun v e => by cases e; exact ⟨h1, h2⟩
theorem noComma_nil : noComma [] := fun v e => by cases e
theorem noComma_append {a b : List (List Char)} (ha : noComma a) (hb : noComma b) : noComma (a ++ b) := by
  cases a with
  | nil => exact hb
  | cons w a => exact fun v e => ha v e
theorem noComma_plain {w : List Char} {ws : List (List Char)} (h : Plain w) (hc : ∀ c, w.head? = some c → ¬ Separates c) : noComma (w :: ws) :=
  noComma_cons h.ne fun e => hc _ e (mem_seps.mp (by decide))

theorem made_comma {k : Char → Prop} (hk : ∀ c, k c → ¬ Separates c) {w : List Char} {ws : List (List Char)} (h : Made k w) : noComma (w :: ws) :=
  noComma_cons h.1 fun e => hk _ (h.2 _ (List.mem_of_head? e)) (mem_seps.mp (by decide))

theorem neg_reads (b : Bool) (st : LState) : Reads st (negWords b) (negToks b) st := by
  cases b
  · exact Reads.nil st
  · exact fixed_reads (read_not st (mem_allStates st))
theorem neg_comma (b : Bool) : noComma (negWords b) := by
  cases b
  · exact noComma_nil
  · exact noComma_cons (by decide) (by decide)

theorem payload_head {t : MType} {w : List Char} (h : PayloadText t w) : w.head? ≠ some ',' := by
  obtain ⟨_, hl⟩ := payload_lang h
  have key : ∀ t ∈ types, (payRe t).avoids ',' = true ∨ t = .tcpFlags := by decide +kernel
  have ht : t ≠ .set := by rintro rfl; cases h
  intro e
  rcases key t (mem_types ht) with h' | rfl
  · exact avoids_lang h' hl (List.mem_of_head? e)
  · have : Letter ',' := by
      cases h with
      | one h => exact h.2 _ (List.mem_of_head? e)
      | more h _ => rw [head_append h.1] at e; exact h.2 _ (List.mem_of_head? e)
    exact absurd this (by unfold Letter Lower Upper; decide)

theorem rest_initial : LState.initial ∈ resting := by decide
theorem rest_set : LState.set ∈ resting := by decide
theorem rest_hook : LState.hookOpts ∈ resting := by decide

/-- After a matcher. -/
def settled : List LState := [.initial, .set]
theorem settled_rest {st : LState} (h : st ∈ settled) : st ∈ resting := by
  simp only [settled, List.mem_cons, List.not_mem_nil, or_false] at h
  rcases h with rfl | rfl <;> decide

theorem matcher_reads {st : LState} (hs : st ∈ resting) {m : MatcherS} (h : MatcherText m) : ∃ st' ∈ settled, Reads st (matcherWords m) m.toks st' := by
  cases m with
  | plain t n o p =>
    obtain ⟨ty, rfl, ho, hp, hr⟩ := h
    have ht : ty ≠ .set := by rintro rfl; cases hp
    have hpc : noComma [p] := noComma_cons (payload_lang hp).1.ne (payload_head hp)
    refine ⟨.initial, by decide, (fixed_reads (read_type ty (mem_types ht) st hs)).cons ((neg_reads n _).append ?_ ?_) (noComma_append (neg_comma n) ?_)⟩
    · cases o with
      | none => exact payload_reads hp hr
      | some w =>
        obtain ⟨x, hx, rfl⟩ := ho w rfl
        exact (fixed_reads (read_op ty (mem_types ht) x hx)).cons (payload_reads hp hr) hpc
    · cases o with
      | none => exact hpc
      | some w =>
        obtain ⟨x, hx, rfl⟩ := ho w rfl
        exact noComma_cons (by cases x <;> decide) (by cases x <;> decide)
    · cases o with
      | none => exact hpc
      | some w =>
        obtain ⟨x, hx, rfl⟩ := ho w rfl
        exact noComma_cons (by cases x <;> decide) (by cases x <;> decide)
  | inline k n o p =>
    obtain ⟨hk, rfl, hp⟩ := h
    have hin : noComma ["in".toList, p] := noComma_cons (by decide) (by decide)
    have hpc : noComma [p] := by
      obtain ⟨b, rfl, _⟩ := hp
      exact noComma_cons (by simp) (by intro e; cases e)
    exact ⟨.initial, by decide, (key_reads hs hk).cons ((neg_reads n _).append ((fixed_reads read_in).cons (elems_reads hp) hpc) hin) (noComma_append (neg_comma n) hin)⟩
  | named k n o p =>
    obtain ⟨hk, rfl, hp⟩ := h
    have hin : noComma ["in".toList, p] := noComma_cons (by decide) (by decide)
    have hpc : noComma [p] := made_comma (fun _ => word_not) hp.1
    exact ⟨.set, by decide, (key_reads hs hk).cons ((neg_reads n _).append ((fixed_reads read_in).cons (string_reads rest_set hp) hpc) hin) (noComma_append (neg_comma n) hin)⟩

/-! ## Lists with commas -/

def commaRule : LRule := ⟨[], .one ⟨true, [('\n', '\n')]⟩, .char, none⟩
theorem bounds_comma : ∀ st ∈ resting, ∀ c ∈ [',', '}'], ({ head := some c, nohead := ['#', '(', '{'] } : Known).bounds st = true := by decide +kernel
theorem bounds_open : ({ head := some '{', nohead := ['#', '('] } : Known).bounds .hookOpts = true := by decide +kernel
theorem find_comma : ∀ st ∈ settled, lexRules.find? (fun r => r.active st && r.re.accepts [',']) = some commaRule := by decide +kernel

theorem known_one {c : Char} {l : List Char} (h : c ∉ l) (s : List Char) : ({ head := some c, nohead := l } : Known).Of [c] s :=
  known_nohead rfl (Or.inr rfl) h rfl rfl

theorem heads_reads {st : LState} (hs : st ∈ settled) : ∀ {names : List (List Char)}, (∀ h ∈ names, NameText h) → Reads st (headWords names) (headToks names) st
  | [], _ => Reads.nil st
  | [h], hn => string_reads (settled_rest hs) (hn h List.mem_cons_self)
  | h :: k :: l, hn => by
    intro more text hm hl
    have ih := heads_reads hs (names := k :: l) fun x hx => hn x (List.mem_cons_of_mem _ hx)
    have h1 := hn h List.mem_cons_self
    have hp := made_plain (fun c => word_not) h1.1
    have hst : st ≠ .tcpFlags := by
      simp only [settled, List.mem_cons, List.not_mem_nil, or_false] at hs
      rcases hs with rfl | rfl <;> decide
    have hf : lexRules.find? (fun r => r.active st && r.re.accepts h) = some stringRule := by
      have ha : stringRule.re.accepts h = true := accepts_iff.mpr (cls_plus (fun c => in_word) h1.1)
      simp only [settled, List.mem_cons, List.not_mem_nil, or_false] at hs
      rcases hs with rfl | rfl
      · exact find_open (free_of hp h1.2) open_initial ha
      · exact find_open (free_of hp h1.2) open_set ha
    obtain ⟨r, hr, e1⟩ := step_plain hp hf rfl rfl hl (Or.inl hst)
    obtain ⟨r', hr', e2⟩ := step_known (by simp) (known_one (c := ',') (by decide)) (bounds_comma st (settled_rest hs) ',' (by decide)) (find_comma st hs) hr
    obtain ⟨r'', hr'', e3⟩ := ih more r' hm hr'
    refine ⟨r'', hr'', ?_⟩
    have e2' : lexFrom st r = .char ',' :: lexFrom st r' := e2
    rw [e1]
    show Tok.string h :: lexFrom st r = _
    rw [e2', e3]
    rfl

theorem names_comma {hs : List (List Char)} (hn : ∀ h ∈ hs, NameText h) : noComma (headWords hs) := by
  cases hs with
  | nil => exact noComma_nil
  | cons h l => cases l <;> exact made_comma (fun _ => word_not) (hn h List.mem_cons_self).1

theorem option_words_reads {st : LState} (hs : st ∈ settled) {o : OptionS} (h : OptionOk o) : ∃ st' ∈ settled, Reads st (optionWords o) o.toks st' := by
  cases o with
  | counter => exact ⟨st, hs, fixed_reads (read_kw ("counter", .counter) (by decide) st (settled_rest hs))⟩
  | mark v => exact ⟨.initial, by decide, (fixed_reads (read_mark st (settled_rest hs))).cons (mark_reads h.1 h.2) (made_comma (fun _ => alnum_not) h.1)⟩
  | log hs' r =>
    have hlog := fixed_reads (read_kw ("log", .log) (by decide) st (settled_rest hs))
    cases r with
    | none => exact ⟨st, hs, hlog.cons ((heads_reads hs h.1).append (Reads.nil st) noComma_nil) (noComma_append (names_comma h.1) noComma_nil)⟩
    | some w =>
      obtain ⟨a, u, e, ha, hu⟩ := h.2 w rfl
      have hw : noComma [w] := by
        obtain ⟨c, t, rfl, hc⟩ := decimal_head ha
        rw [e]
        exact noComma_cons (by simp) (fun e => by cases e; exact absurd hc (by unfold Digit; decide))
      exact ⟨.initial, by decide, hlog.cons ((heads_reads hs h.1).append ((fixed_reads (read_every st (settled_rest hs))).cons (rate_reads e ha hu) hw)
        (noComma_cons (by decide) (by decide))) (noComma_append (names_comma h.1) (noComma_cons (by decide) (by decide)))⟩

theorem option_words_comma (o : OptionS) : noComma (optionWords o) := by
  cases o <;> exact noComma_cons (by decide) (by decide)

theorem verdict_reads {st : LState} (hs : st ∈ resting) {v : Verdict} (h : v ≠ .redirect) : Reads st [(Doc.verdict v).toList] [.verdict (Doc.verdict v).toList] st := by
  cases v
  case redirect => exact absurd rfl h
  all_goals exact fixed_reads (read_verdict _ (by decide) st hs)

theorem verdict_words_reads {st : LState} (hs : st ∈ settled) {v : VerdictS} (h : VerdictText v) : ∃ st' ∈ settled, Reads st (verdictWords v) v.toks st' := by
  cases v with
  | plain v =>
    obtain ⟨x, hx, rfl⟩ := h
    exact ⟨st, hs, verdict_reads (settled_rest hs) hx⟩
  | redirect i d =>
    obtain ⟨hi, hr, x, rfl⟩ := h
    refine ⟨.initial, by decide, (fixed_reads (read_redirect st (settled_rest hs))).cons ((iface_reads hi hr).cons ?_ ?_) ?_⟩
    · cases x <;> exact fixed_reads (read_dir _ (by decide))
    · cases x <;> exact noComma_cons (by decide) (by decide)
    · exact made_comma (k := fun c => WordChar c ∨ c = '-') (by rintro c (h | rfl); exact word_not h; exact dash_not) hi

theorem verdict_words_comma {v : VerdictS} (h : VerdictText v) : noComma (verdictWords v) := by
  cases v with
  | plain v =>
    obtain ⟨x, hx, rfl⟩ := h
    cases x <;> exact noComma_cons (by decide) (by decide)
  | redirect i d => exact noComma_cons (by decide) (by decide)

/-! ## Many -/

theorem many_reads {α : Type} {words : α → List (List Char)} {toks : α → List Tok} {ok : α → Prop} {A B : List LState} (hB : ∀ st ∈ B, st ∈ A)
    (h : ∀ st ∈ A, ∀ x, ok x → ∃ st' ∈ B, Reads st (words x) (toks x) st') (hc : ∀ x, ok x → noComma (words x)) :
    ∀ {xs : List α} {st : LState}, st ∈ A → (∀ x ∈ xs, ok x) → noComma (xs.flatMap words) ∧
      ∃ st', (st' ∈ B ∨ xs = [] ∧ st' = st) ∧ Reads st (xs.flatMap words) (xs.flatMap toks) st'
  | [], st, _, _ => ⟨noComma_nil, st, Or.inr ⟨rfl, rfl⟩, Reads.nil st⟩
  | x :: xs, st, hs, hx => by
    obtain ⟨st1, h1, r1⟩ := h st hs x (hx x List.mem_cons_self)
    obtain ⟨hn, st2, h2, r2⟩ := many_reads hB h hc (xs := xs) (hB st1 h1) fun y hy => hx y (List.mem_cons_of_mem _ hy)
    refine ⟨noComma_append (hc x (hx x List.mem_cons_self)) hn, st2, ?_, r1.append r2 hn⟩
    rcases h2 with h2 | ⟨_, rfl⟩
    · exact Or.inl h2
    · exact Or.inl h1

theorem matcher_comma {m : MatcherS} (h : MatcherText m) : noComma (matcherWords m) := by
  cases m with
  | plain t n o p =>
    obtain ⟨ty, rfl, _⟩ := h
    cases ty <;> exact noComma_cons (by decide) (by decide)
  | inline k n o p =>
    obtain ⟨⟨c, cs, rfl, _⟩, _⟩ := h
    exact noComma_cons (by simp) (by intro e; cases e)
  | named k n o p =>
    obtain ⟨⟨c, cs, rfl, _⟩, _⟩ := h
    exact noComma_cons (by simp) (by intro e; cases e)

theorem rule_reads {st : LState} (hs : st ∈ resting) {r : RuleS} (h : RuleText r) : ∃ st' ∈ settled, Reads st (ruleWords r) r.toks st' := by
  obtain ⟨hm, st1, h1, r1⟩ := many_reads (A := resting) (B := settled) (fun _ => settled_rest) (fun _ a _ b => matcher_reads a b) (fun _ => matcher_comma) hs h.matchers
  have h1 : st1 ∈ settled := by
    rcases h1 with h1 | ⟨h1, _⟩
    · exact h1
    · exact absurd h1 h.some
  obtain ⟨ho, st2, h2, r2⟩ := many_reads (A := settled) (B := settled) (fun _ h => h) (fun _ a _ b => option_words_reads a b) (fun x _ => option_words_comma x) h1 h.options
  have h2 : st2 ∈ settled := by
    rcases h2 with h2 | ⟨_, rfl⟩
    · exact h2
    · exact h1
  obtain ⟨st3, h3, r3⟩ := verdict_words_reads h2 h.verdict
  have hv := verdict_words_comma h.verdict
  exact ⟨st3, h3, (fixed_reads (read_kw ("rule", .rule) (by decide) st hs)).cons (r1.append (r2.append r3 hv) (noComma_append ho hv)) (noComma_append hm (noComma_append ho hv))⟩

theorem set_reads {st : LState} (hs : st ∈ resting) {s : SetS} (h : SetText s) : ∃ st' ∈ settled, Reads st (setWords s) s.toks st' := by
  obtain ⟨name, key, op, payload⟩ := s
  obtain ⟨h1, h2, h3, h4⟩ := h
  cases h3
  refine ⟨.initial, by decide, (fixed_reads (read_kw ("set", .set) (by decide) st hs)).cons ((string_reads hs h1).cons ((key_reads hs h2).cons
    ((fixed_reads read_in).cons (elems_reads h4) ?_) ?_) ?_) ?_⟩
  · obtain ⟨b, rfl, _⟩ := h4
    exact noComma_cons (by simp) (by intro e; cases e)
  · exact noComma_cons (by decide) (by decide)
  · obtain ⟨c, cs, rfl, _⟩ := h2
    exact noComma_cons (by simp) (by intro e; cases e)
  · exact made_comma (fun _ => word_not) h1.1

/-! ## Hook options -/

def punctRule : LRule := ⟨[.hookOpts], .alt (chr '{') (chr ','), .skip, none⟩
def closeRule : LRule := ⟨[.hookOpts], chr '}', .skip, some .initial⟩
theorem find_punct : ∀ c ∈ ['{', ','], lexRules.find? (fun r => r.active .hookOpts && r.re.accepts [c]) = some punctRule := by decide +kernel
theorem find_close : lexRules.find? (fun r => r.active .hookOpts && r.re.accepts ['}']) = some closeRule := by decide +kernel

theorem option_list : ∀ {os : List (List Char)} {more : List (List Char)} {text : List Char}, os ≠ [] → (∀ o ∈ os, OptionText o) →
    Laid (headWords os ++ (['}'] :: more)) text → ∃ rest, Laid more rest ∧ lexFrom .hookOpts text = os.map .hookOpt ++ lexFrom .initial rest
  | [], _, _, h, _, _ => absurd rfl h
  | [o], more, text, _, ho, hl => by
    obtain ⟨hp, hf⟩ := option_reads (ho o List.mem_cons_self)
    obtain ⟨r, hr, e1⟩ := step_plain hp hf rfl rfl hl (Or.inl (by decide))
    obtain ⟨r', hr', e2⟩ := step_known (by simp) (known_one (c := '}') (by decide)) (bounds_comma _ rest_hook '}' (by decide)) find_close hr
    have e2' : lexFrom .hookOpts r = lexFrom .initial r' := e2
    refine ⟨r', hr', ?_⟩
    rw [e1]
    show Tok.hookOpt o :: lexFrom .hookOpts r = _
    rw [e2']
    rfl
  | o :: k :: l, more, text, _, ho, hl => by
    obtain ⟨hp, hf⟩ := option_reads (ho o List.mem_cons_self)
    obtain ⟨r, hr, e1⟩ := step_plain hp hf rfl rfl hl (Or.inl (by decide))
    obtain ⟨r', hr', e2⟩ := step_known (by simp) (known_one (c := ',') (by decide)) (bounds_comma _ rest_hook ',' (by decide)) (find_punct ',' (by decide)) hr
    have e2' : lexFrom .hookOpts r = lexFrom .hookOpts r' := e2
    obtain ⟨r'', hr'', e3⟩ := option_list (os := k :: l) (by simp) (fun x hx => ho x (List.mem_cons_of_mem _ hx)) hr'
    refine ⟨r'', hr'', ?_⟩
    rw [e1]
    show Tok.hookOpt o :: lexFrom .hookOpts r = _
    rw [e2', e3]
    rfl

theorem opts_reads {os : List (List Char)} (ho : ∀ o ∈ os, OptionText o) :
    ∃ st' ∈ resting, Reads .hookOpts (optsWords os) (os.flatMap fun o => [.hookOpt o]) st' := by
  have hfm : (os.flatMap fun o => [Tok.hookOpt o]) = os.map .hookOpt := by induction os <;> simp_all
  cases os with
  | nil => exact ⟨.hookOpts, rest_hook, Reads.nil _⟩
  | cons o l =>
    refine ⟨.initial, rest_initial, fun more text _ hl => ?_⟩
    rw [hfm]
    have hl' : Laid (['{'] :: (headWords (o :: l) ++ (['}'] :: more))) text := by
      have : optsWords (o :: l) ++ more = ['{'] :: (headWords (o :: l) ++ (['}'] :: more)) := by simp [optsWords]
      rwa [this] at hl
    obtain ⟨r, hr, e1⟩ := step_known (by simp) (known_one (c := '{') (by decide)) bounds_open (find_punct '{' (by decide)) hl'
    have e1' : lexFrom .hookOpts text = lexFrom .hookOpts r := e1
    obtain ⟨r', hr', e2⟩ := option_list (by simp) ho hr
    exact ⟨r', hr', by rw [e1', e2]⟩

theorem opts_comma (os : List (List Char)) : noComma (optsWords os) := by
  cases os with
  | nil => exact noComma_nil
  | cons o l => exact noComma_cons (by simp) (by intro e; cases e)

theorem chain_reads {st : LState} (hs : st ∈ resting) {c : ChainS} (h : ChainText c) : ∃ st' ∈ resting, Reads st (chainWords c) c.toks st' := by
  obtain ⟨name, hook, opts, policy, sets, rules⟩ := c
  obtain ⟨h1, ⟨hk, rfl⟩, h3, ⟨v, hv, rfl⟩, h5, h6⟩ := h
  obtain ⟨st1, hs1, r1⟩ := opts_reads h3
  obtain ⟨hc2, st2, hs2, r2⟩ := many_reads (A := resting) (B := settled) (fun _ => settled_rest) (fun _ a _ b => set_reads a b)
    (fun x _ => noComma_cons (ws := _) (by decide) (by decide)) hs1 h5
  have hs2 : st2 ∈ resting := by
    rcases hs2 with h | ⟨_, rfl⟩
    · exact settled_rest h
    · exact hs1
  obtain ⟨hc3, st3, hs3, r3⟩ := many_reads (A := resting) (B := settled) (fun _ => settled_rest) (fun _ a _ b => rule_reads a b)
    (fun x _ => noComma_cons (ws := _) (by decide) (by decide)) hs2 h6
  have hs3 : st3 ∈ resting := by
    rcases hs3 with h | ⟨_, rfl⟩
    · exact settled_rest h
    · exact hs2
  have hvc : ∀ ws, noComma ((Doc.verdict v).toList :: ws) := fun ws => by cases v <;> exact noComma_cons (by decide) (by decide)
  refine ⟨st3, hs3, (fixed_reads (read_kw ("chain", .chain) (by decide) st hs)).cons ((string_reads hs h1).cons
    ((fixed_reads (read_hook hk (mem_hooks hk) st hs)).cons (r1.append ((verdict_reads hs1 hv).cons (r2.append r3 hc3) (noComma_append hc2 hc3)) (hvc _))
      (noComma_append (opts_comma _) (hvc _))) ?_) (made_comma (fun _ => word_not) h1.1)⟩
  have hh : ∀ h ∈ hooks, (Doc.hook h).toList ≠ [] ∧ (Doc.hook h).toList.head? ≠ some ',' := by decide +kernel
  exact noComma_cons (hh hk (mem_hooks hk)).1 (hh hk (mem_hooks hk)).2

/-- A ruleset that is well written is read as what it was meant to be. -/
theorem writes_parse {text : List Char} {cs : List ChainS} (h : Writes text cs) : parse (lex text) = some cs := by
  obtain ⟨h1, h2, h3⟩ := h
  obtain ⟨_, st, _, r⟩ := many_reads (A := resting) (B := resting) (fun _ h => h) (fun _ a _ b => chain_reads a b)
    (fun x _ => noComma_cons (ws := _) (by decide) (by decide)) rest_initial h2
  obtain ⟨rest, hr, e⟩ := r [] text noComma_nil (by rwa [List.append_nil])
  rw [lex_end hr, List.append_nil] at e
  refine parse_iff.mpr ⟨⟨h1, fun c hc x hx => (h2 c hc).rules x hx |>.some⟩, ?_⟩
  exact e

end Bf.Cli
