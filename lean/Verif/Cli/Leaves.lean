import Verif.Cli.Words
/-!
# Names, payloads, keys and elements are read
-/
namespace Bf.Cli
open Bf.Spec

/-! ## Classes -/

theorem cls_plus {l : List (Char × Char)} {k : Char → Prop} (hk : ∀ c, k c → ∃ r ∈ l, r.1 ≤ c ∧ c ≤ r.2) {w : List Char} (h : Made k w) : (plus (cls l)).Lang w := by
  obtain ⟨c, w', rfl⟩ := List.exists_cons_of_ne_nil h.1
  exact .seq (x := [c]) (.one (has_pos.mpr (hk c (h.2 c List.mem_cons_self)))) (star_of fun d hd => has_pos.mpr (hk d (h.2 d (List.mem_cons_of_mem _ hd))))

theorem in_digit {c : Char} (h : Digit c) : ∃ r ∈ [('0', '9')], r.1 ≤ c ∧ c ≤ r.2 := ⟨_, List.mem_singleton.mpr rfl, h⟩
theorem in_lower {c : Char} (h : Lower c) : ∃ r ∈ [('a', 'z')], r.1 ≤ c ∧ c ≤ r.2 := ⟨_, List.mem_singleton.mpr rfl, h⟩
theorem in_alpha {c : Char} (h : Letter c) : ∃ r ∈ alpha, r.1 ≤ c ∧ c ≤ r.2 := by
  rcases h with h | h
  · exact ⟨('a', 'z'), by decide, h⟩
  · exact ⟨('A', 'Z'), by decide, h⟩
theorem in_more {l : List (Char × Char)} {c : Char} (x : Char × Char) (h : ∃ r ∈ l, r.1 ≤ c ∧ c ≤ r.2) : ∃ r ∈ x :: l, r.1 ≤ c ∧ c ≤ r.2 := by
  obtain ⟨r, h1, h2⟩ := h
  exact ⟨r, List.mem_cons_of_mem _ h1, h2⟩
theorem in_this {l : List (Char × Char)} (c : Char) : ∃ r ∈ (c, c) :: l, r.1 ≤ c ∧ c ≤ r.2 := ⟨(c, c), List.mem_cons_self, Char.le_refl c, Char.le_refl c⟩
theorem in_alnum {c : Char} (h : Alnum c) : ∃ r ∈ alnum, r.1 ≤ c ∧ c ≤ r.2 := by
  rcases h with h | h
  · exact ⟨('0', '9'), by decide, h⟩
  · exact in_more _ (in_alpha h)
theorem in_word {c : Char} (h : WordChar c) : ∃ r ∈ wordCh, r.1 ≤ c ∧ c ≤ r.2 := by
  rcases h with h | rfl
  · exact in_more _ (in_alnum h)
  · exact in_this _

/-- No separator among the characters. -/
theorem range_not {a b c : Char} (hs : ∀ d ∈ seps, ¬ (a ≤ d ∧ d ≤ b)) (h : a ≤ c ∧ c ≤ b) : ¬ Separates c := fun hc => hs c (mem_seps.mpr hc) h
theorem alnum_not {c : Char} (h : Alnum c) : ¬ Separates c := by
  rcases h with h | h | h
  · exact range_not (by decide) h
  · exact range_not (by decide) h
  · exact range_not (by decide) h
theorem word_not {c : Char} (h : WordChar c) : ¬ Separates c := by
  rcases h with h | rfl
  · exact alnum_not h
  · exact fun h => absurd (mem_seps.mpr h) (by decide)

theorem sep_head {c : Char} (h : ¬ Separates c) : c ≠ '#' ∧ c ≠ '(' ∧ c ≠ '{' :=
  ⟨fun e => h (e ▸ mem_seps.mp (by decide)), fun e => h (e ▸ mem_seps.mp (by decide)), fun e => h (e ▸ mem_seps.mp (by decide))⟩

theorem head_append {a b : List Char} (h : a ≠ []) : (a ++ b).head? = a.head? := by
  obtain ⟨c, t, rfl⟩ := List.exists_cons_of_ne_nil h
  rfl
theorem last_append {a b : List Char} (h : b ≠ []) : (a ++ b).getLast? = b.getLast? := by
  rw [List.getLast?_append]
  cases hb : b.getLast? with
  | none => exact absurd (List.getLast?_eq_none_iff.mp hb) h
  | some _ => rfl

/-- A word whose ends are no separators. -/
theorem plain_ends {w : List Char} (hw : w ≠ []) (h1 : ∀ c, w.head? = some c → ¬ Separates c) (h2 : ∀ c, w.getLast? = some c → ¬ Separates c) : Plain w :=
  ⟨hw, ⟨fun e => (sep_head (h1 _ e)).1 rfl, fun e => (sep_head (h1 _ e)).2.1 rfl, fun e => (sep_head (h1 _ e)).2.2 rfl⟩, h2⟩

theorem made_plain {k : Char → Prop} (hk : ∀ c, k c → ¬ Separates c) {w : List Char} (h : Made k w) : Plain w :=
  plain_ends h.1 (fun c e => hk c (h.2 c (List.mem_of_head? e))) (fun c e => hk c (h.2 c (List.mem_of_getLast? e)))

theorem made_join {k j : Char → Prop} (hk : ∀ c, k c → ¬ Separates c) (hj : ∀ c, j c → ¬ Separates c) {a b m : List Char} (ha : Made k a) (hb : Made j b) : Plain (a ++ (m ++ b)) := by
  refine plain_ends (by simp [ha.1]) (fun c e => ?_) (fun c e => ?_)
  · rw [head_append ha.1] at e
    exact hk c (ha.2 c (List.mem_of_head? e))
  · rw [last_append (by simp [hb.1]), last_append hb.1] at e
    exact hj c (hb.2 c (List.mem_of_getLast? e))

/-! ## Names -/

theorem string_reads {st : LState} (hs : st ∈ resting) {w : List Char} (h : NameText w) : Reads st [w] [.string w] st := by
  have hp := made_plain (fun c => word_not) h.1
  have ha : stringRule.re.accepts w = true := accepts_iff.mpr (cls_plus (fun c => in_word) h.1)
  simp only [resting, List.mem_cons, List.not_mem_nil, or_false] at hs
  rcases hs with rfl | rfl | rfl
  · exact step_reads hp (find_open (free_of hp h.2) open_initial ha) rfl rfl rfl
  · exact step_reads hp (find_open (free_of hp h.2) open_set ha) rfl rfl rfl
  · have hno : hookOptRule.re.accepts w = false := by
      cases e : hookOptRule.re.accepts w with
      | false => rfl
      | true =>
        exfalso
        obtain ⟨x, y, rfl, _, hl⟩ := lang_seq.mp (accepts_iff.mp e)
        obtain ⟨u, v, rfl, hu, _⟩ := lang_seq.mp hl
        rw [lang_chr.mp hu] at h
        have := h.1.2 '=' (by simp)
        rcases this with ((h | h | h) | h)
        · exact absurd h (by unfold Digit; decide)
        · exact absurd h (by unfold Lower; decide)
        · exact absurd h (by unfold Upper; decide)
        · cases h
    exact step_reads hp (find_open2 (free_of hp h.2) open_hookOpts hno ha) rfl rfl rfl

/-! ## Numbers -/

theorem int_lang {w : List Char} (h : NumberText w) : intRe.Lang w :=
  .seq (x := []) (.altL .eps) (cls_plus (fun _ => in_alnum) h)

theorem mark_reads {w : List Char} (h : NumberText w) (hr : ¬ Reserved w) : Reads .markOpts [w] [.string w] .initial := by
  have hp := made_plain (fun c => alnum_not) h
  exact step_reads hp (find_open (free_of hp hr) open_markOpts (accepts_iff.mpr (int_lang h))) rfl rfl rfl

theorem digit_alnum {c : Char} (h : Digit c) : Alnum c := Or.inl h

theorem float_lang {w : List Char} (h : DecimalText w) : floatRe.Lang w := by
  rcases h with h | ⟨a, b, rfl, ha, hb⟩
  · have := Re.Lang.seq (cls_plus (fun _ => in_digit) h) (.altL (a := .eps) (b := .seq (chr '.') (plus (cls [('0', '9')]))) .eps)
    rwa [List.append_nil] at this
  · exact .seq (cls_plus (fun _ => in_digit) ha) (.altR (.seq (x := ['.']) (lang_chr.mpr rfl) (cls_plus (fun _ => in_digit) hb)))

theorem decimal_head {w : List Char} (h : DecimalText w) : ∃ c t, w = c :: t ∧ Digit c := by
  rcases h with h | ⟨a, b, rfl, h, _⟩
  · obtain ⟨c, t, rfl⟩ := List.exists_cons_of_ne_nil h.1
    exact ⟨c, t, rfl, h.2 c List.mem_cons_self⟩
  · obtain ⟨c, t, rfl⟩ := List.exists_cons_of_ne_nil h.1
    exact ⟨c, _, rfl, h.2 c List.mem_cons_self⟩

/-- No reserved word begins with a digit. -/
theorem digit_free {c : Char} {t : List Char} (h : Digit c) : ¬ Reserved (c :: t) := by
  have key : ∀ w ∈ fixedWords, ∀ d, w.head? = some d → ¬ ('0' ≤ d ∧ d ≤ '9') := by decide +kernel
  rintro (h' | ⟨v, h'⟩ | ⟨v, h'⟩ | ⟨v, h'⟩ | ⟨v, h'⟩ | ⟨t', h'⟩)
  · exact key _ (by unfold fixedWords; exact List.mem_append_left _ (List.mem_append_left _ (List.mem_append_left _ (List.mem_append_left _ (List.mem_append_left _ h'))))) c rfl h
  · exact key (Doc.verdict v).toList (by cases v <;> decide +kernel) c (by rw [← h']; rfl) h
  · exact key (Doc.direction v).toList (by cases v <;> decide +kernel) c (by rw [← h']; rfl) h
  · exact key (Doc.op v).toList (by cases v <;> decide +kernel) c (by rw [← h']; rfl) h
  · by_cases hs : v = .set
    · subst hs
      have : c = '<' := by cases h'; rfl
      rw [this] at h
      exact absurd h (by unfold Digit; decide)
    · exact key (Doc.matcher v).toList (by
        simp only [fixedWords, List.mem_append]
        exact Or.inl (Or.inr (List.mem_map.mpr ⟨v, mem_types hs, rfl⟩))) c (by rw [← h']; rfl) h
  · have : c = 'B' := by cases h'; rfl
    rw [this] at h
    exact absurd h (by unfold Digit; decide)

theorem rate_reads {w a u : List Char} (e : w = a ++ u) (ha : DecimalText a) (hu : Made Lower u) : Reads .logEvery [w] [.string w] .initial := by
  subst e
  obtain ⟨c, t, rfl, hc⟩ := decimal_head ha
  have hp : Plain (c :: t ++ u) := by
    refine plain_ends (by simp) (fun d e => by cases e; exact alnum_not (digit_alnum hc)) (fun d e => ?_)
    rw [last_append hu.1] at e
    exact alnum_not (Or.inr (Or.inl (hu.2 d (List.mem_of_getLast? e))))
  exact step_reads hp (find_open (free_of hp (digit_free hc)) open_logEvery (accepts_iff.mpr (.seq (float_lang ha) (cls_plus (fun _ => in_lower) hu)))) rfl rfl rfl

/-! ## Interfaces, hook options -/

theorem dash_not : ¬ Separates '-' := fun h => absurd (mem_seps.mpr h) (by decide)

theorem iface_reads {w : List Char} (h : Made (fun c => WordChar c ∨ c = '-') w) (hr : ¬ Reserved w) : Reads .redirIface [w] [.redirIface w] .redirDir := by
  have hp := made_plain (k := fun c => WordChar c ∨ c = '-') (by rintro c (h | rfl); exact word_not h; exact dash_not) h
  refine step_reads hp (find_open (free_of hp hr) open_redirIface (accepts_iff.mpr (.altR (cls_plus (k := fun c => WordChar c ∨ c = '-') ?_ h)))) rfl rfl rfl
  rintro c (h | rfl)
  · exact in_more _ (in_word h)
  · exact in_this _

theorem value_not {c : Char} (h : WordChar c ∨ c = '-' ∨ c = '.' ∨ c = '/') : ¬ Separates c := by
  rcases h with h | rfl | rfl | rfl
  · exact word_not h
  · exact dash_not
  · exact fun h => absurd (mem_seps.mpr h) (by decide)
  · exact fun h => absurd (mem_seps.mpr h) (by decide)

theorem option_reads {w : List Char} (h : OptionText w) : Plain w ∧ lexRules.find? (fun r => r.active .hookOpts && r.re.accepts w) = some hookOptRule := by
  obtain ⟨n, v, rfl, hn, hv⟩ := h
  have hp : Plain (n ++ '=' :: v) := made_join (m := ['=']) (fun c => word_not) (fun c => value_not) hn hv
  have hf : Free (n ++ '=' :: v) := by
    intro r hr
    cases ha : r.re.accepts (n ++ '=' :: v) with
    | false => rfl
    | true =>
      exfalso
      have hl := accepts_iff.mp ha
      simp only [LRule.closed, Bool.or_eq_true] at hr
      have key : ∀ w ∈ fixedWords, '=' ∉ w := by decide +kernel
      rcases hr with (((h | h) | h) | h) | h
      · cases he : r.re.enum with
        | none => rw [he] at h; cases h
        | some l =>
          rw [he] at h
          have hm := List.all_eq_true.mp h _ (enum_lang hl he)
          exact key _ (by simpa using hm) (by simp)
      · exact hp.head.1 (starts_lang h hl)
      · exact hp.head.2.1 (starts_lang h hl)
      · exact hp.head.2.2 (starts_lang h hl)
      · simp only [decide_eq_true_eq] at h
        rw [h] at hl
        exact avoids_lang (c := '=') (by decide) hl (by simp)
  refine ⟨hp, find_open hf open_hookOpts (accepts_iff.mpr (.seq (cls_plus (fun _ => in_word) hn) (.seq (x := ['=']) (lang_chr.mpr rfl) (cls_plus ?_ hv))))⟩
  rintro c (h | rfl | rfl | rfl)
  · exact in_more _ (in_more _ (in_more _ (in_word h)))
  · exact in_this _
  · exact in_more _ (in_this _)
  · exact in_more _ (in_more _ (in_this _))

end Bf.Cli
