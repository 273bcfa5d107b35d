import Verif.Props.C53_History
import Verif.Spec.Standing
import Verif.Cli.DumpSets
/-!
# C54: what is asked for is what a text that stands says
-/
namespace Bf.Cli
open Spec

/-! ## The text of a set with given elements -/

/-- A text with these elements. -/
def wrapElems (es : List (List Char)) : List Char := '{' :: (es.flatMap (· ++ [';']) ++ ['}'])

theorem elemTexts_wrap {es : List (List Char)} (h : ∀ t ∈ es, PlainElem t) : elemTexts (wrapElems es) = es := by
  have e : tokens isElemSep (wrapElems es) = es := by
    unfold wrapElems
    rw [Dmp.tokens_skip (by decide)]
    induction es with
    | nil => simp only [List.flatMap_nil, List.nil_append]; rw [Dmp.tokens_skip (by decide)]; rfl
    | cons t es ih =>
      have ht := h t List.mem_cons_self
      rw [List.flatMap_cons, List.append_assoc, List.append_assoc]
      show tokens isElemSep (t ++ ';' :: _) = _
      rw [Dmp.tokens_cut ht.some ht.chars (by decide)]
      exact congrArg _ (ih fun x hx => h x (List.mem_cons_of_mem _ hx))
  unfold elemTexts
  rw [e]
  have e1 : es.map trim = es := by
    conv => rhs; rw [← List.map_id es]
    exact List.map_congr_left fun t ht => (h t ht).trimmed
  rw [e1]
  exact List.filter_eq_self.mpr fun t ht => by simpa using (h t ht).some

theorem pieces_chars {sep : Char → Bool} : ∀ (s : List Char), ∀ p ∈ pieces sep s, ∀ c ∈ p, sep c = false
  | [], p, hp, c, hc => by simp [pieces] at hp; subst hp; cases hc
  | a :: s, p, hp, c, hc => by
    have ih := pieces_chars (sep := sep) s
    unfold pieces at hp
    split at hp
    · rcases List.mem_cons.mp hp with rfl | hp
      · cases hc
      · exact ih p hp c hc
    · next ha =>
      cases hq : pieces sep s with
      | nil => exact absurd hq (pieces_ne sep s)
      | cons q qs =>
        rw [hq] at hp ih
        rcases List.mem_cons.mp hp with rfl | hp
        · rcases List.mem_cons.mp hc with rfl | hc
          · simpa using ha
          · exact ih q List.mem_cons_self c hc
        · exact ih p (List.mem_cons_of_mem _ hp) c hc

theorem dropWhile_head {f : Char → Bool} : ∀ (l : List Char) (c : Char), (l.dropWhile f).head? = some c → f c = false
  | [], c, h => by cases h
  | a :: l, c, h => by
    rw [List.dropWhile_cons] at h
    split at h
    · exact dropWhile_head l c h
    · next ha => cases h; simpa using ha

theorem dropWhile_same {f : Char → Bool} {l : List Char} (h : ∀ c, l.head? = some c → f c = false) : l.dropWhile f = l := by
  cases l with
  | nil => rfl
  | cons a l => rw [List.dropWhile_cons, h a rfl]; rfl

theorem dropWhile_last {f : Char → Bool} : ∀ (l : List Char) (c : Char), (l.dropWhile f).getLast? = some c → l.getLast? = some c
  | [], c, h => h
  | a :: l, c, h => by
    rw [List.dropWhile_cons] at h
    split at h
    · have := dropWhile_last l c h
      rw [List.getLast?_cons, this]; rfl
    · exact h

theorem trim_trim (s : List Char) : trim (trim s) = trim s := by
  have hr : ∀ l : List Char, l.reverse.head? = l.getLast? := fun l => by simp
  unfold trim
  rw [dropWhile_same (l := ((s.dropWhile isSpace).reverse.dropWhile isSpace).reverse)]
  · rw [List.reverse_reverse, dropWhile_same (l := (s.dropWhile isSpace).reverse.dropWhile isSpace) (fun c hc => dropWhile_head _ c hc)]
  · intro c hc
    have h1 : ((s.dropWhile isSpace).reverse.dropWhile isSpace).getLast? = some c := by rw [← hr]; exact hc
    have h2 := dropWhile_last _ c h1
    rw [← hr, List.reverse_reverse] at h2
    exact dropWhile_head _ c h2

theorem trim_chars {s : List Char} {c : Char} (h : c ∈ trim s) : c ∈ s := by
  unfold trim at h
  have := (List.dropWhile_sublist _).subset (List.mem_reverse.mp h)
  exact (List.dropWhile_sublist _).subset (List.mem_reverse.mp this)

theorem elemTexts_plain {p t : List Char} (h : t ∈ elemTexts p) : PlainElem t := by
  obtain ⟨h1, h2⟩ := List.mem_filter.mp h
  obtain ⟨q, hq, rfl⟩ := List.mem_map.mp h1
  exact ⟨by simpa using h2, fun c hc => pieces_chars _ q (List.mem_filter.mp hq).1 c (trim_chars hc), trim_trim q⟩

/-! ## One command -/

variable {A : Issued → Prop} {env : TextEnv} {c c' : Chain}

/-- A text that stands says the chain, and the rules that are marked as inert cannot match. -/
def Said (A : Issued → Prop) (env : TextEnv) (c : Chain) : Prop :=
  ∃ s rate o, Stands A s ∧ ChainSays env rate s (c, o) ∧ (∀ sr ∈ s.rules, VerdictText sr.verdict) ∧ ∀ q ∈ c.rules, q.disabled = true → Inert c.sets q

theorem each_mapIdx {α β : Type} {R S : α → β → Prop} {f : Nat → β → β} (hf : ∀ i a b, R a b → S a (f i b)) {as : List α} {bs : List β} (h : Each R as bs) : Each S as (bs.mapIdx f) := by
  induction h generalizing f with
  | nil => exact .nil
  | cons h _ ih =>
    rw [List.mapIdx_cons]
    exact .cons (hf _ _ _ h) (ih fun i a b => hf (i + 1) a b)

theorem ruleSays_flags {rate : List Char → Option Nat} {sets : List BSet} {sr : RuleS} {q : Rule} {n : Nat} {b : Bool} (h : RuleSays env rate sets sr q) :
    RuleSays env rate sets sr { q with index := n, disabled := b } := by
  refine ⟨h.matchers, ⟨h.options.once, h.options.log, h.options.noLog, h.options.counter, h.options.mark, h.options.noMark⟩, ?_⟩
  have := h.verdict
  unfold VerdictSays at this ⊢
  split <;> simp_all

theorem said_again (h : Said A env c) (hc : chainNew c.name c.hook c.policy c.sets c.rules = .ok c') : Said A env c' := by
  obtain ⟨s, rate, o, h1, h2, h3, h4⟩ := h
  have hn := Pin.chainCopy_name (c := c) hc
  have hd := C15_disabled_iff (.new hc)
  unfold chainNew at hc
  split at hc
  · cases hc
  · obtain ⟨e1, e2, e3, e4, _⟩ := checkRules_list hc
    simp only [List.length_nil, Nat.zero_add, List.nil_append] at e3 e4
    refine ⟨s, rate, o, h1, ⟨hn.trans h2.name, ?_, ?_, ?_, ?_, ?_, ?_, ?_⟩, h3, fun q hq => (hd q hq).mp⟩
    · show s.hook = (Doc.hook c'.hook).toList
      rw [e1]; exact h2.hook
    · show HookOptsSay c'.hook s.opts o
      rw [e1]; exact h2.opts
    · show s.policy = (Doc.verdict c'.policy).toList
      rw [e2]; exact h2.policy
    · show c'.policy = _ ∨ _
      rw [e2]; exact h2.terminal
    · show ∃ decl inl, c'.sets = decl ++ inl ∧ _
      rw [e3]; exact h2.sets
    · show Each (RuleSays env rate c'.sets) s.rules c'.rules
      rw [e3, e4]
      exact each_mapIdx (R := RuleSays env rate c.sets) (fun i a b h => ruleSays_flags h) h2.rules
    · intro i r hr
      have hr : c'.rules[i]? = some r := hr
      rw [e4, List.getElem?_mapIdx] at hr
      cases hx : c.rules[i]? with
      | none => rw [hx] at hr; cases hr
      | some x => rw [hx] at hr; cases hr; rfl

theorem each_exists {α β : Type} {R : α → β → Prop} {bs : List β} (h : ∀ b ∈ bs, ∃ a, R a b) : ∃ as, Each R as bs := by
  induction bs with
  | nil => exact ⟨[], .nil⟩
  | cons b bs ih =>
    obtain ⟨as, h1⟩ := ih fun x hx => h x (List.mem_cons_of_mem _ hx)
    obtain ⟨a, h2⟩ := h b List.mem_cons_self
    exact ⟨a :: as, .cons h2 h1⟩

theorem each_imp {α β : Type} {R S : α → β → Prop} (hf : ∀ a b, R a b → S a b) {as : List α} {bs : List β} (h : Each R as bs) : Each S as bs := by
  induction h with
  | nil => exact .nil
  | cons h _ ih => exact .cons (hf _ _ h) ih

theorem each_set {α β : Type} {R : α → β → Prop} {as : List α} {bs : List β} (h : Each R as bs) {a : α} {b : β} (hab : R a b) (n : Nat) : Each R (as.set n a) (bs.set n b) := by
  induction h generalizing n with
  | nil => exact .nil
  | cons h ht ih =>
    cases n with
    | zero => exact .cons hab ht
    | succ n => exact .cons h (ih n)

theorem each_left {α β : Type} {R : α → β → Prop} {as : List α} {bs : List β} (h : Each R as bs) {a : α} (ha : a ∈ as) : ∃ b ∈ bs, R a b := by
  obtain ⟨i, hi⟩ := List.getElem?_of_mem ha
  obtain ⟨b, h1, h2⟩ := each_get h hi
  exact ⟨b, List.mem_of_getElem? h1, h2⟩

/-- The text of the set that an `update-set` makes. -/
theorem revise {key : List MType} {p : List Char} {old as rs es es0 : List (List Byte)} {adds removes : List (List Char)} (h0 : Each (ElemOf env key) (elemTexts p) es0)
    (h1 : ∀ e, e ∈ old ↔ e ∈ es0) (ha : Each (ElemOf env key) adds as) (hr : Each (ElemOf env key) removes rs) (he : ∀ x, x ∈ es ↔ (x ∈ old ∨ x ∈ as) ∧ x ∉ rs)
    (hp : ∀ t ∈ adds, PlainElem t) : ∃ p', Revised env key p adds removes p' ∧ Each (ElemOf env key) (elemTexts p') es := by
  have src : ∀ t, t ∈ elemTexts p ∨ t ∈ adds → ∃ e, ElemOf env key t e ∧ (e ∈ old ∨ e ∈ as) := by
    rintro t (ht | ht)
    · obtain ⟨e, g1, g2⟩ := each_left h0 ht
      exact ⟨e, g2, .inl ((h1 e).mpr g1)⟩
    · obtain ⟨e, g1, g2⟩ := each_left ha ht
      exact ⟨e, g2, .inr g1⟩
  obtain ⟨ts, hts⟩ : ∃ ts, Each (fun t e => (t ∈ elemTexts p ∨ t ∈ adds) ∧ ElemOf env key t e) ts es := by
    refine each_exists fun e hin => ?_
    rcases ((he e).mp hin).1 with h | h
    · obtain ⟨t, g1, g2⟩ := each_mem h0 ((h1 e).mp h)
      exact ⟨t, .inl g1, g2⟩
    · obtain ⟨t, g1, g2⟩ := each_mem ha h
      exact ⟨t, .inr g1, g2⟩
  have hw : elemTexts (wrapElems ts) = ts := elemTexts_wrap fun t ht => by
    obtain ⟨_, _, h, _⟩ := each_left hts ht
    exact h.elim elemTexts_plain (hp t)
  refine ⟨wrapElems ts, ⟨?_, ?_, ?_⟩, ?_⟩
  · rw [hw]
    intro t ht
    obtain ⟨_, _, h, _⟩ := each_left hts ht
    exact h
  · rw [hw]
    intro t ht
    obtain ⟨e, g1, g2⟩ := src t ht
    by_cases hin : e ∈ rs
    · obtain ⟨r, k1, k2⟩ := each_mem hr hin
      exact .inl ⟨r, k1, e, g1, k2⟩
    · obtain ⟨t', k1, _, k2⟩ := each_mem hts ((he e).mpr ⟨g2, hin⟩)
      exact .inr ⟨t', k1, e, g1, k2⟩
  · rw [hw]
    intro t ht r hr'
    obtain ⟨e, g1, _, g2⟩ := each_left hts ht
    obtain ⟨e', k1, k2⟩ := each_left hr hr'
    exact ⟨e, e', g2, k2, fun h => ((he e).mp g1).2 (h ▸ k1)⟩
  · rw [hw]
    exact each_imp (fun _ _ h => h.2) hts

/-- Sets of the same names and keys, those that have no name being the same. -/
structure Renewed (sets sets' : List BSet) : Prop where
  fore : ∀ (j : Nat) (x : BSet), sets[j]? = some x → ∃ x', sets'[j]? = some x' ∧ x'.name = x.name ∧ x'.key = x.key
  back : ∀ (j : Nat) (x' : BSet), sets'[j]? = some x' → ∃ x, sets[j]? = some x ∧ x'.name = x.name ∧ x'.key = x.key
  same : ∀ (j : Nat) (x : BSet), sets[j]? = some x → x.name = none → sets'[j]? = some x

theorem renewed_set {sets : List BSet} {i : Nat} {old new : BSet} (h : sets[i]? = some old) (hn : new.name = old.name) (hk : new.key = old.key) (hs : old.name ≠ none) :
    Renewed sets (sets.set i new) := by
  have hlt := (List.getElem?_eq_some_iff.mp h).1
  have at_ : ∀ j : Nat, (sets.set i new)[j]? = if i = j then some new else sets[j]? := fun j => by
    rw [List.getElem?_set]
    split
    · rfl
    · rfl
  refine ⟨fun j x hx => ?_, fun j x' hx => ?_, fun j x hx he => ?_⟩
  · rw [at_]
    split
    · next e => subst e; rw [h] at hx; cases hx; exact ⟨_, rfl, hn, hk⟩
    · exact ⟨x, hx, rfl, rfl⟩
  · rw [at_] at hx
    split at hx
    · next e => subst e; cases hx; exact ⟨_, h, hn, hk⟩
    · exact ⟨x', hx, rfl, rfl⟩
  · rw [at_, if_neg]
    · exact hx
    · rintro rfl; rw [h] at hx; cases hx; exact hs he

theorem matcherSays_renewed {sets sets' : List BSet} (hr : Renewed sets sets') {sm : MatcherS} {m : Matcher} (h : MatcherSays env sets sm m) : MatcherSays env sets' sm m := by
  cases sm with
  | plain t neg op p => exact h
  | inline k neg op p =>
    obtain ⟨h1, h2, h3, h4, i, x, h5, h6, h7⟩ := h
    exact ⟨h1, h2, h3, h4, i, x, h5, hr.same i x h6 h7.1, h7⟩
  | named k neg op n =>
    obtain ⟨h1, h2, h3, h4, i, x, h5, h6, h7, h8, h9⟩ := h
    obtain ⟨x', e1, e2, e3⟩ := hr.fore i x h6
    refine ⟨h1, h2, h3, h4, i, x', h5, e1, e2.trans h7, by rw [e3]; exact h8, fun j s' hj hs' => ?_⟩
    obtain ⟨y, f1, f2, _⟩ := hr.back j s' hs'
    rw [f2]
    exact h9 j y hj f1

theorem about_renewed {sets sets' : List BSet} (hr : Renewed sets sets') {q : Rule} {t : MType} (h : About sets q t) : About sets' q t := by
  obtain ⟨m, hm, h | ⟨h1, x, h2, h3⟩⟩ := h
  · exact ⟨m, hm, .inl h⟩
  · obtain ⟨x', e1, _, e3⟩ := hr.fore _ x h2
    exact ⟨m, hm, .inr ⟨h1, x', e1, by rw [e3]; exact h3⟩⟩

theorem said_changed {i : Issued} (hi : A i) (he : i.H.env.text = env) (hp : ∀ t ∈ given .add i.a2, PlainElem t)
    (hne : ∀ s, Stands A s → ∀ d ∈ s.sets, elemTexts d.payload ≠ []) (h : Said A env c) (hc : Changes i c c') : Said A env c' := by
  subst he
  obtain ⟨s, rate, o, h1, h2, h3, h4⟩ := h
  obtain ⟨c1, c2, sn, c3, k, old, as, rs, es, ⟨g1, g2, g3⟩, ga, gr, gn, ge, rfl⟩ := hc
  obtain ⟨decl, inl, e1, e2, e3, e4⟩ := h2.sets
  have e1 : c.sets = decl ++ inl := e1
  rw [e1] at g1 g3
  have hk : k < decl.length := by
    refine Classical.byContradiction fun hge => ?_
    rw [List.getElem?_append_right (by omega)] at g1
    obtain ⟨_, _, e⟩ := each_mem e4 (List.mem_of_getElem? g1)
    rw [e.1] at g2
    cases g2
  have hd : decl[k]? = some old := by rw [← g1, List.getElem?_append_left hk]
  obtain ⟨d, d1, d2⟩ := each_get' e2 hd
  have hname : ∀ (j : Nat) (d' : SetS), s.sets[j]? = some d' → ∃ x, decl[j]? = some x ∧ x.name = some (String.ofList d'.name) := fun j d' hj => by
    obtain ⟨x, f1, f2⟩ := each_get e2 hj
    exact ⟨x, f1, f2.1⟩
  have hdn : d.name = sn := by
    have := d2.1.symm.trans g2
    exact String.ofList_injective (Option.some.inj this)
  obtain ⟨q1, q2, q3, es0, q4, q5, q6⟩ := d2
  obtain ⟨p', hrev, hel⟩ := revise q4 q6 ga gr ge hp
  have hren : Renewed c.sets (c.sets.set k { old with elems := es }) := renewed_set (old := old) (by rw [e1]; exact g1) rfl rfl (by rw [g2]; simp)
  refine ⟨{ s with sets := s.sets.set k { d with payload := p' } }, rate, o, .revised hi h1 c1 ?_ ?_ d1 ?_ q2 hrev, ⟨h2.name, h2.hook, h2.opts, h2.policy, h2.terminal, ?_, ?_, h2.index⟩, h3, ?_⟩
  · rw [c2]; exact congrArg _ h2.name
  · rw [c3, hdn]
  · intro j d' hj hd'
    obtain ⟨x, f1, f2⟩ := hname j d' hd'
    intro hc
    refine g3 j x hj ?_ (by rw [f2, hc, hdn])
    rw [List.getElem?_append_left (List.getElem?_eq_some_iff.mp f1).1]
    exact f1
  · refine ⟨decl.set k { old with elems := es }, inl, ?_, ?_, ?_, e4⟩
    · show c.sets.set k _ = _
      rw [e1, List.set_append_left _ _ hk]
    · exact each_set (a := { d with payload := p' }) (b := { old with elems := es }) e2 ⟨q1, q2, q3, es, hel, gn, fun _ => Iff.rfl⟩ k
    · intro d' hd'
      rcases List.mem_or_eq_of_mem_set hd' with h | rfl
      · exact e3 d' h
      · exact e3 d (List.mem_of_getElem? d1)
  · exact each_imp (fun sr q h => ⟨each_imp (fun _ _ => matcherSays_renewed hren) h.matchers, h.options, h.verdict⟩) h2.rules
  · intro q hq hdis
    rcases h4 q hq hdis with ⟨m, m1, m2, x, m3, m4⟩ | ⟨t1, t2, m1, m2, m3⟩
    · refine .inl ⟨m, m1, m2, x, ?_, m4⟩
      show (c.sets.set k _)[_]? = _
      rw [List.getElem?_set_ne]
      · exact m3
      · intro hkm
        rw [← hkm, e1, g1] at m3
        cases m3
        have : es0 = [] := by
          cases es0 with
          | nil => rfl
          | cons e l =>
            have := (q6 e).mpr List.mem_cons_self
            rw [m4] at this
            cases this
        subst this
        refine hne s h1 d (List.mem_of_getElem? d1) ?_
        cases hl : elemTexts d.payload with
        | nil => rfl
        | cons a l => rw [hl] at q4; cases q4
    · exact .inr ⟨t1, t2, about_renewed hren m1, about_renewed hren m2, m3⟩

/-- What the commands asked for is what a text that stands says. -/
theorem said_of (he : ∀ i, A i → i.H.env.text = env)
    (hu : (∀ i, A i → ¬ Commands i.a1 .chain .updateSet) ∨ (∀ i, A i → ∀ t ∈ given .add i.a2, PlainElem t) ∧ ∀ s, Stands A s → ∀ d ∈ s.sets, elemTexts d.payload ≠ [])
    (h : AskedFor A c) : Said A env c := by
  have first : ∀ {i : Issued} {x : Chain × Option HookOpts} {t : List Char} {cs : List ChainS} {s : ChainS}, A i → Tells i s → Checked x.1 → Writes t cs → s ∈ cs →
      ChainSays i.H.env.text i.H.env.rate s x → Said A env x.1 := fun {i x t cs s} hi ht hk hw hs hsay => by
    have := he i hi
    subst this
    exact ⟨s, _, x.2, .told hi ht, hsay, fun sr hsr => ((hw.2.1 s hs).rules sr hsr).verdict, fun q hq => (C15_disabled_iff (.new hk.new) q hq).mp⟩
  induction h with
  | @put i x hi hx =>
    obtain ⟨hd, hk, t, cs, s, h1, h2, h3, h4⟩ := hx
    rcases h4 with ⟨g1, g2⟩ | ⟨g1, g2⟩
    · exact first hi ⟨hd, t, cs, h1, h2, .inl ⟨g1, g2⟩⟩ hk h2 g2 h3
    · exact first hi ⟨hd, t, cs, h1, h2, .inr ⟨.inl g1, g2⟩⟩ hk h2 (picks_mem g2) h3
  | @load i c hi hx =>
    obtain ⟨hd, hk, t, cs, s, o, h1, h2, h3, g1, g2⟩ := hx
    exact first (x := (c, o)) hi ⟨hd, t, cs, h1, h2, .inr ⟨g1.elim (fun h => .inr (.inl h)) (fun h => .inr (.inr h)), g2⟩⟩ hk h2 (picks_mem g2) h3
  | changed hi _ hc ih =>
    rcases hu with hu | ⟨hp, hne⟩
    · exact absurd hc.1 (hu _ hi)
    · exact said_changed hi (he _ hi) (hp _ hi) hne ih hc
  | again _ hc ih => exact said_again ih hc

end Bf.Cli
