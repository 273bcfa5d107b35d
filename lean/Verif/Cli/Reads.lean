import Verif.Cli.Leaves
/-!
# Payloads, keys, elements; and the sentences
-/
namespace Bf.Cli
open Bf.Spec

/-! ## Payloads -/

theorem num_plain {w : List Char} (h : NumberText w) : Plain w := made_plain (fun _ => alnum_not) h

theorem lang_dot {c : Char} {r : Re} {w : List Char} (h : r.Lang w) : (Re.seq (chr c) r).Lang (c :: w) := .seq (x := [c]) (lang_chr.mpr rfl) h

theorem quad_lang {w : List Char} (h : Quad w) : (seqs [intRe, chr '.', intRe, chr '.', intRe, chr '.', intRe]).Lang w := by
  obtain ⟨a, b, c, d, rfl, ha, hb, hc, hd⟩ := h
  exact .seq (int_lang ha) (lang_dot (.seq (int_lang hb) (lang_dot (.seq (int_lang hc) (lang_dot (int_lang hd))))))

theorem net_lang {w n : List Char} (h : Quad w) (hn : NumberText n) : (seqs [intRe, chr '.', intRe, chr '.', intRe, chr '.', intRe, chr '/', intRe]).Lang (w ++ '/' :: n) := by
  obtain ⟨a, b, c, d, rfl, ha, hb, hc, hd⟩ := h
  simp only [List.append_assoc, List.cons_append]
  exact .seq (int_lang ha) (lang_dot (.seq (int_lang hb) (lang_dot (.seq (int_lang hc) (lang_dot (.seq (int_lang hd) (lang_dot (int_lang hn))))))))

theorem flags_lang {w : List Char} (h : FlagList w) : (plus (.seq (plus (cls alpha)) (opt (chr ',')))).Lang w := by
  have one : ∀ {w : List Char}, Made Letter w → (Re.seq (plus (cls alpha)) (opt (chr ','))).Lang w := by
    intro w hw
    have := Re.Lang.seq (cls_plus (fun _ => in_alpha) hw) (.altL (a := .eps) (b := chr ',') .eps)
    rwa [List.append_nil] at this
  have star : ∀ {r : Re} {w : List Char}, (plus r).Lang w → w ≠ [] → (Re.star r).Lang w ∨ r.Lang [] := by
    intro r w hl hne
    obtain ⟨x, y, rfl, hx, hy⟩ := lang_seq.mp hl
    cases x with
    | nil => exact Or.inr hx
    | cons c x => exact Or.inl (.starCons hx hy)
  have hne : ∀ {w : List Char}, FlagList w → w ≠ [] := by
    intro w h
    cases h with
    | one h => exact h.1
    | more _ _ => simp
  induction h with
  | one h =>
    have := Re.Lang.seq (one h) (Re.Lang.starNil (a := .seq (plus (cls alpha)) (opt (chr ','))))
    rwa [List.append_nil] at this
  | @more w s hw hs ih =>
    have h1 : (Re.seq (plus (cls alpha)) (opt (chr ','))).Lang (w ++ [',']) := .seq (cls_plus (fun _ => in_alpha) hw) (.altR (lang_chr.mpr rfl))
    have h2 : (Re.star (.seq (plus (cls alpha)) (opt (chr ',')))).Lang s := by
      rcases star ih (hne hs) with h | h
      · exact h
      · exfalso
        obtain ⟨x, y, e, hx, _⟩ := lang_seq.mp h
        obtain ⟨rfl, rfl⟩ := List.append_eq_nil_iff.mp e.symm
        obtain ⟨x, y, e, hx, _⟩ := lang_seq.mp hx
        obtain ⟨rfl, rfl⟩ := List.append_eq_nil_iff.mp e.symm
        obtain ⟨c, e, _⟩ := lang_one.mp hx
        cases e
    have := Re.Lang.seq h1 h2
    rwa [List.append_assoc] at this

theorem flags_plain {w : List Char} (h : FlagList w) : Plain w := by
  have hl : ∀ {c : Char}, Letter c → ¬ Separates c := fun h => alnum_not (Or.inr h)
  have key : w ≠ [] ∧ (∀ c, w.head? = some c → ¬ Separates c) ∧ ∀ c, w.getLast? = some c → ¬ Separates c := by
    induction h with
    | one h => exact ⟨h.1, fun c e => hl (h.2 c (List.mem_of_head? e)), fun c e => hl (h.2 c (List.mem_of_getLast? e))⟩
    | @more w s hw _ ih =>
      refine ⟨by simp, fun c e => ?_, fun c e => ?_⟩
      · rw [head_append hw.1] at e
        exact hl (hw.2 c (List.mem_of_head? e))
      · have : (w ++ ',' :: s) = (w ++ [',']) ++ s := by simp
        rw [this, last_append ih.1] at e
        exact ih.2.2 c e
  exact plain_ends key.1 key.2.1 key.2.2

theorem not_sep {c : Char} (h : c ∉ seps) : ¬ Separates c := fun h' => h (mem_seps.mpr h')

theorem payload_lang {t : MType} {w : List Char} (h : PayloadText t w) : Plain w ∧ (payRe t).Lang w := by
  have name : Made (fun c => Alnum c ∨ c = '-') w → Plain w ∧ intOrName.Lang w := by
    intro h
    refine ⟨made_plain (k := fun c => Alnum c ∨ c = '-') ?_ h, .altR (cls_plus (k := fun c => Alnum c ∨ c = '-') ?_ h)⟩
    · rintro c (h | rfl)
      · exact alnum_not h
      · exact dash_not
    · rintro c (h | rfl)
      · exact in_more _ (in_alnum h)
      · exact in_this _
  have num : NumberText w → Plain w ∧ intRe.Lang w := fun h => ⟨num_plain h, int_lang h⟩
  have range : (NumberText w ∨ ∃ a b, w = a ++ '-' :: b ∧ NumberText a ∧ NumberText b) → Plain w ∧ intOrRange.Lang w := by
    rintro (h | ⟨a, b, rfl, ha, hb⟩)
    · refine ⟨num_plain h, ?_⟩
      have := Re.Lang.seq (int_lang h) (.altL (a := .eps) (b := .seq (chr '-') intRe) .eps)
      rwa [List.append_nil] at this
    · exact ⟨made_join (m := ['-']) (fun _ => alnum_not) (fun _ => alnum_not) ha hb, .seq (int_lang ha) (.altR (lang_dot (int_lang hb)))⟩
  have proba : (∃ a, w = a ++ ['%'] ∧ DecimalText a) → Plain w ∧ (Re.seq floatRe (chr '%')).Lang w := by
    rintro ⟨a, rfl, ha⟩
    refine ⟨?_, .seq (float_lang ha) (lang_chr.mpr rfl)⟩
    obtain ⟨c, t, rfl, hc⟩ := decimal_head ha
    refine plain_ends (by simp) (fun d e => by cases e; exact alnum_not (digit_alnum hc)) (fun d e => ?_)
    rw [last_append (by simp)] at e
    cases e
    exact not_sep (by decide)
  have quad_plain : ∀ {w : List Char}, Quad w → Plain w := by
    rintro w ⟨a, b, c, d, rfl, ha, _, _, hd⟩
    have := made_join (m := '.' :: (b ++ '.' :: (c ++ ['.']))) (fun _ => alnum_not) (fun _ => alnum_not) ha hd
    simpa using this
  have quad : Quad w → Plain w ∧ (seqs [intRe, chr '.', intRe, chr '.', intRe, chr '.', intRe]).Lang w := fun h => ⟨quad_plain h, quad_lang h⟩
  have net : (∃ a n, w = a ++ '/' :: n ∧ Quad a ∧ NumberText n) → Plain w ∧ (seqs [intRe, chr '.', intRe, chr '.', intRe, chr '.', intRe, chr '/', intRe]).Lang w := by
    rintro ⟨a, n, rfl, ha, hn⟩
    refine ⟨?_, net_lang ha hn⟩
    obtain ⟨a, b, c, d, rfl, ha, _, _, hd⟩ := ha
    have := made_join (m := '.' :: (b ++ '.' :: (c ++ '.' :: (d ++ ['/'])))) (fun _ => alnum_not) (fun _ => alnum_not) ha hn
    simpa using this
  have ip6 : Made (fun c => Alnum c ∨ c = ':') w → Plain w ∧ (plus (cls ((':', ':') :: alnum))).Lang w := by
    intro h
    refine ⟨made_plain (k := fun c => Alnum c ∨ c = ':') ?_ h, cls_plus (k := fun c => Alnum c ∨ c = ':') ?_ h⟩
    · rintro c (h | rfl)
      · exact alnum_not h
      · exact not_sep (by decide)
    · rintro c (h | rfl)
      · exact in_more _ (in_alnum h)
      · exact in_this _
  have net6 : Made (fun c => Alnum c ∨ c = ':' ∨ c = '/') w → Plain w ∧ (plus (cls ((':', ':') :: ('/', '/') :: alnum))).Lang w := by
    intro h
    refine ⟨made_plain (k := fun c => Alnum c ∨ c = ':' ∨ c = '/') ?_ h, cls_plus (k := fun c => Alnum c ∨ c = ':' ∨ c = '/') ?_ h⟩
    · rintro c (h | rfl | rfl)
      · exact alnum_not h
      · exact not_sep (by decide)
      · exact not_sep (by decide)
    · rintro c (h | rfl | rfl)
      · exact in_more _ (in_more _ (in_alnum h))
      · exact in_this _
      · exact in_more _ (in_this _)
  have flags : FlagList w → Plain w ∧ (plus (.seq (plus (cls alpha)) (opt (chr ',')))).Lang w := fun h => ⟨flags_plain h, flags_lang h⟩
  cases t
  case set => cases h
  all_goals first
    | exact name h
    | exact num h
    | exact range h
    | exact proba h
    | exact quad h
    | exact net h
    | exact ip6 h
    | exact net6 h
    | exact flags h

theorem payload_reads {t : MType} {w : List Char} (h : PayloadText t w) (hr : ¬ Reserved w) : Reads (stateOf t) [w] [.payload w] .initial := by
  obtain ⟨hp, hl⟩ := payload_lang h
  have ht : t ≠ .set := by rintro rfl; cases h
  exact step_reads hp (find_open (free_of hp hr) (open_pay t (mem_types ht)) (accepts_iff.mpr hl)) rfl rfl rfl

/-! ## Keys and elements -/

def keyRule : LRule := ⟨[], seqs [chr '(', spaces, dotted, .star (seqs [spaces, chr ',', spaces, dotted]), spaces, chr ')'], .setType, some .set⟩
def elemsRule : LRule := ⟨[.set], seqs [chr '{', .star (.one ⟨true, [('}', '}')]⟩), chr '}'], .setPayload, some .initial⟩

theorem bounds_key : ∀ st ∈ resting, ({ head := some '(', nohead := ['#', '{'], last := some ')' } : Known).bounds st = true := by decide +kernel
theorem bounds_elems : ({ head := some '{', nohead := ['#', '('], last := some '}' } : Known).bounds .set = true := by decide +kernel

/-- The rules that a word that begins so can match. -/
def headRules (c : Char) (st : LState) : List LRule := lexRules.filter fun r => r.active st && !(r.re.avoids c || ['#', '(', '{'].any fun d => d ≠ c && r.re.starts d)

theorem find_head {st : LState} {c : Char} {w : List Char} {q : LRule} {l : List LRule} (hw : w.head? = some c) (ho : headRules c st = q :: l) (hq : q.re.accepts w = true) :
    lexRules.find? (fun r => r.active st && r.re.accepts w) = some q := by
  rw [find_filter (q := fun r => r.active st && !(r.re.avoids c || ['#', '(', '{'].any fun d => d ≠ c && r.re.starts d))]
  · have : lexRules.filter (fun r => r.active st && !(r.re.avoids c || ['#', '(', '{'].any fun d => d ≠ c && r.re.starts d)) = q :: l := ho
    rw [this, List.find?_cons]
    have hm : q ∈ headRules c st := by rw [ho]; exact List.mem_cons_self
    have := (List.mem_filter.mp hm).2
    rw [Bool.and_eq_true] at this
    rw [this.1, hq]
    rfl
  · intro r _ h
    rw [Bool.and_eq_true] at h
    rw [h.1]
    have hl := accepts_iff.mp h.2
    have h1 : r.re.avoids c = false := by
      cases e : r.re.avoids c with
      | false => rfl
      | true => exact absurd (List.mem_of_head? hw) (avoids_lang e hl)
    have h2 : (['#', '(', '{'].any fun d => d ≠ c && r.re.starts d) = false := by
      cases e : (['#', '(', '{'].any fun d => d ≠ c && r.re.starts d) with
      | false => rfl
      | true =>
        obtain ⟨d, _, hd⟩ := List.any_eq_true.mp e
        rw [Bool.and_eq_true, decide_eq_true_eq] at hd
        have := starts_lang hd.2 hl
        rw [hw] at this
        cases this
        exact absurd rfl hd.1
    rw [h1, h2]
    rfl

theorem head_key : ∀ st ∈ resting, headRules '(' st = [keyRule, anyRule] := by decide +kernel
theorem head_elems : headRules '{' .set = [elemsRule, anyRule] := by decide +kernel

theorem step_known {st : LState} {w : List Char} {q : LRule} {k : Known} (hw : w ≠ []) (hk : ∀ s, k.Of w s) (hb : k.bounds st = true)
    (hq : lexRules.find? (fun r => r.active st && r.re.accepts w) = some q) {ws : List (List Char)} {text : List Char} (hl : Laid (w :: ws) text) :
    ∃ rest, Laid ws rest ∧ lexFrom st text = match q.kind.tok w with
      | none => lexFrom (q.next.getD st) rest
      | some t => if t.isEnd then [] else t :: lexFrom (q.next.getD st) rest := by
  cases hl with
  | @cons g _ s _ hg _ hs =>
    refine ⟨s, hs, ?_⟩
    rw [lex_gap hg]
    exact lexFrom_word hw (hk s) hb hq

theorem blank_spaces {w : List Char} (h : ∀ c ∈ w, Blank c) : spaces.Lang w := by
  refine star_of fun c hc => ?_
  rcases h c hc with rfl | rfl | rfl <;> decide

theorem dotted_lang {a b : List Char} (ha : Made WordChar a) (hb : Made WordChar b) : dotted.Lang (a ++ '.' :: b) :=
  .seq (cls_plus (fun _ => in_word) ha) (lang_dot (cls_plus (fun _ => in_word) hb))

/-- The components that follow the first, after its blanks. -/
theorem key_rest : ∀ {cs : List (List Char)} {y : List Char}, (∀ c ∈ y, Blank c) → (∀ d ∈ cs, Component d) →
    (Re.seq (.star (seqs [spaces, chr ',', spaces, dotted])) (.seq spaces (chr ')'))).Lang (y ++ (cs.flatMap (fun d => ',' :: d) ++ [')']))
  | [], y, hy, _ => by
    have : (Re.seq spaces (chr ')')).Lang (y ++ [')']) := .seq (blank_spaces hy) (lang_chr.mpr rfl)
    exact .seq (x := []) .starNil this
  | d :: cs, y, hy, hd => by
    obtain ⟨x, a, b, z, rfl, hx, hz, ha, hb⟩ := hd d List.mem_cons_self
    have ih := key_rest (cs := cs) hz fun e he => hd e (List.mem_cons_of_mem _ he)
    obtain ⟨u, v, e, hu, hv⟩ := lang_seq.mp ih
    have h1 : (seqs [spaces, chr ',', spaces, dotted]).Lang (y ++ ',' :: (x ++ (a ++ '.' :: b))) :=
      .seq (blank_spaces hy) (lang_dot (.seq (blank_spaces hx) (dotted_lang ha hb)))
    have h2 : (Re.star (seqs [spaces, chr ',', spaces, dotted])).Lang ((y ++ ',' :: (x ++ (a ++ '.' :: b))) ++ u) := by
      cases hq : y ++ ',' :: (x ++ (a ++ '.' :: b)) with
      | nil => simp at hq
      | cons c w => rw [hq] at h1; exact .starCons h1 hu
    have h3 := Re.Lang.seq h2 hv
    rw [List.append_assoc, ← e] at h3
    simpa using h3

theorem key_lang {w : List Char} (h : KeyText w) : keyRule.re.Lang w := by
  obtain ⟨c, cs, rfl, hc, hcs⟩ := h
  obtain ⟨x, a, b, y, rfl, hx, hy, ha, hb⟩ := hc
  have := key_rest hy hcs
  have h2 := lang_dot (c := '(') (Re.Lang.seq (blank_spaces hx) (.seq (dotted_lang ha hb) this))
  simpa [keyRule, seqs] using h2

theorem key_reads {st : LState} (hs : st ∈ resting) {w : List Char} (h : KeyText w) : Reads st [w] [.setType w] .set := by
  intro more text _ hl
  have hlang := key_lang h
  obtain ⟨c, cs, e, _⟩ := h
  have hhead : w.head? = some '(' := by rw [e]; rfl
  have hlast : w.getLast? = some ')' := by
    have : w = ('(' :: (c ++ cs.flatMap (fun d => ',' :: d))) ++ [')'] := by rw [e]; simp
    rw [this, last_append (by simp)]
    rfl
  have hk : ∀ s, ({ head := some '(', nohead := ['#', '{'], last := some ')' } : Known).Of w s := fun s =>
    ⟨(fun d e => by cases e; exact hhead), (fun d hd e => by rw [hhead] at e; cases e; revert hd; decide), (fun d e => by cases e; exact hlast), (fun d e => by cases e)⟩
  obtain ⟨r, h1, h2⟩ := step_known (by rw [e]; simp) hk (bounds_key st hs) (find_head hhead (head_key st hs) (accepts_iff.mpr hlang)) hl
  exact ⟨r, h1, h2⟩

theorem takeWhile_all {p : Char → Bool} : ∀ {w : List Char}, (∀ c ∈ w, p c = true) → w.takeWhile p = w
  | [], _ => rfl
  | c :: w, h => by rw [List.takeWhile_cons, h c List.mem_cons_self, if_pos rfl, takeWhile_all fun d hd => h d (List.mem_cons_of_mem _ hd)]

theorem elems_reads {w : List Char} (h : ElementsText w) : Reads .set [w] [.setPayload w] .initial := by
  intro more text _ hl
  obtain ⟨b, e, hb, hz⟩ := h
  have hhead : w.head? = some '{' := by rw [e]; rfl
  have hlast : w.getLast? = some '}' := by
    have : w = ('{' :: b) ++ ['}'] := by rw [e]; simp
    rw [this, last_append (by simp)]
    rfl
  have hlang : elemsRule.re.Lang w := by
    rw [e]
    refine lang_dot (.seq (star_of fun c hc => has_neg.mpr ?_) (lang_chr.mpr rfl))
    rintro ⟨r, hr, h1, h2⟩
    rw [List.mem_singleton] at hr
    subst hr
    have : c = '}' := Char.le_antisymm h2 h1
    exact hb (this ▸ hc)
  have hk : ∀ s, ({ head := some '{', nohead := ['#', '('], last := some '}' } : Known).Of w s := fun s =>
    ⟨(fun d e => by cases e; exact hhead), (fun d hd e => by rw [hhead] at e; cases e; revert hd; decide), (fun d e => by cases e; exact hlast), (fun d e => by cases e)⟩
  obtain ⟨r, h1, h2⟩ := step_known (by rw [e]; simp) hk bounds_elems (find_head hhead head_elems (accepts_iff.mpr hlang)) hl
  refine ⟨r, h1, ?_⟩
  rw [h2]
  have : w.takeWhile (· ≠ '\x00') = w := by
    refine takeWhile_all ?_
    intro c hc
    rw [e] at hc
    simp only [List.mem_cons, List.mem_append, List.not_mem_nil, or_false] at hc
    rcases hc with rfl | hc | rfl
    · decide
    · simp only [decide_eq_true_eq]
      exact fun e => hz (e ▸ hc)
    · decide
  show (if (Tok.setPayload (w.takeWhile (· ≠ '\x00'))).isEnd then [] else Tok.setPayload (w.takeWhile (· ≠ '\x00')) :: _) = _
  rw [this]
  rfl

end Bf.Cli
