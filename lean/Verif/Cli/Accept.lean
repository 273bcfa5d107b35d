import Verif.Cli.Sound
import Verif.Cli.Sentences
import Verif.Props.C16_Support
/-!
# What a text says is accepted

A ruleset that stands for chains that their hooks can evaluate is accepted, when its sets are not among those on which the parser does not
return (`C37_diverges`).
-/
namespace Bf.Cli
open Bf.Spec

/-! ## What a text says, it says only once -/

theorem toStr_inj {a b : MType} {s : String} (ha : MType.toStr a = some s) (hb : MType.toStr b = some s) : a = b := by
  have h1 := mtype_fromStr.mpr ha
  have h2 := mtype_fromStr.mpr hb
  rw [h1] at h2
  cases h2
  rfl

theorem each_unique {α β : Type} {R : α → β → Prop} (hR : ∀ a b c, R a b → R a c → b = c) {l : List α} {x y : List β} (hx : Each R l x) (hy : Each R l y) : x = y := by
  induction hx generalizing y with
  | nil => cases hy; rfl
  | cons h _ ih =>
    cases hy with
    | cons h' hy => rw [hR _ _ _ h h', ih hy]

theorem keyOf_unique {s : List Char} {a b : List MType} (ha : KeyOf s a) (hb : KeyOf s b) : a = b := by
  refine each_unique ?_ ha.2.2 hb.2.2
  intro _ _ _ h h'
  exact toStr_inj h h'

theorem doc_matcher_inj {a b : MType} (h : (Doc.matcher a).toList = (Doc.matcher b).toList) : a = b := by
  have h1 := (C38_understood.2.2.2.1 (Doc.matcher a) a).mpr rfl
  have h2 := (C38_understood.2.2.2.1 (Doc.matcher a) b).mpr (String.toList_injective h)
  rw [h1] at h2
  cases h2
  rfl

theorem doc_op_inj {a b : MOp} (h : (Doc.op a).toList = (Doc.op b).toList) : a = b := by
  have h1 := (C38_understood.2.2.2.2.1 (Doc.op a) a).mpr rfl
  have h2 := (C38_understood.2.2.2.2.1 (Doc.op a) b).mpr (String.toList_injective h)
  rw [h1] at h2
  cases h2
  rfl

/-- The key of the set of a matcher. -/
def setKeyText : MatcherS → Option (List Char)
  | .plain _ _ _ _ => none
  | .inline k _ _ _ => some k
  | .named k _ _ _ => some k

theorem matcher_key {env : TextEnv} {sets : List BSet} {s : MatcherS} {m : Matcher} (h : MatcherSays env sets s m) :
    (∀ k, setKeyText s = some k → m.type = .set ∧ 4 ≤ m.payload.length ∧ ∃ x, setOf sets m = some x ∧ KeyOf k x.key) := by
  have hrd : ∀ {i : Nat} {x : BSet}, rd m.payload 0 4 = .ok i → sets[i]? = some x → 4 ≤ m.payload.length ∧ setOf sets m = some x := by
    intro i x h1 h2
    unfold rd at h1
    split at h1
    · next hl =>
      cases h1
      exact ⟨by omega, h2⟩
    · cases h1
  intro k hk
  cases s with
  | plain _ _ _ _ => cases hk
  | inline k' n o p =>
    cases hk
    obtain ⟨_, h1, _, _, i, x, h2, h3, h4⟩ := h
    exact ⟨h1, (hrd h2 h3).1, x, (hrd h2 h3).2, h4.2.1⟩
  | named k' n o p =>
    cases hk
    obtain ⟨_, h1, _, _, i, x, h2, h3, _, h4, _⟩ := h
    exact ⟨h1, (hrd h2 h3).1, x, (hrd h2 h3).2, h4⟩

theorem matcher_type {env env' : TextEnv} {sets sets' : List BSet} {s : MatcherS} {m m' : Matcher} (h : MatcherSays env sets s m) (h' : MatcherSays env' sets' s m') :
    m.type = m'.type := by
  cases s with
  | plain _ _ _ _ => exact doc_matcher_inj (h.1.symm.trans h'.1)
  | inline _ _ _ _ => rw [h.2.1, h'.2.1]
  | named _ _ _ _ => rw [h.2.1, h'.2.1]

theorem set_keyed {env : TextEnv} {sets : List BSet} {s : MatcherS} {m : Matcher} (h : MatcherSays env sets s m) (ht : m.type = .set) :
    ∃ k, setKeyText s = some k := by
  cases s with
  | plain t n o p =>
    exfalso
    obtain ⟨_, _, _, _, buf, _, hp⟩ := h
    unfold parsePayload at hp
    rw [ht] at hp
    cases ho : m.op <;> rw [ho] at hp <;> cases hp
  | inline k _ _ _ => exact ⟨k, rfl⟩
  | named k _ _ _ => exact ⟨k, rfl⟩

theorem each_mem {α β : Type} {R : α → β → Prop} {l : List α} {x : List β} (h : Each R l x) {b : β} (hb : b ∈ x) : ∃ a ∈ l, R a b := by
  induction h with
  | nil => cases hb
  | cons h _ ih =>
    rcases List.mem_cons.mp hb with rfl | hb
    · exact ⟨_, List.mem_cons_self, h⟩
    · obtain ⟨a, ha, hr⟩ := ih hb
      exact ⟨a, List.mem_cons_of_mem _ ha, hr⟩

theorem each_mem' {α β : Type} {R : α → β → Prop} {l : List α} {x : List β} (h : Each R l x) {a : α} (ha : a ∈ l) : ∃ b ∈ x, R a b := by
  induction h with
  | nil => cases ha
  | cons h _ ih =>
    rcases List.mem_cons.mp ha with rfl | ha
    · exact ⟨_, List.mem_cons_self, h⟩
    · obtain ⟨b, hb, hr⟩ := ih ha
      exact ⟨b, List.mem_cons_of_mem _ hb, hr⟩

theorem logSays_unique {hs : List (List Char)} {v w : BitVec 8} (hv : LogSays hs v) (hw : LogSays hs w) : v = w := by
  rcases hv with ⟨h1, h2⟩ | ⟨h1, _, h2⟩
  · rcases hw with ⟨_, h3⟩ | ⟨h3, _⟩
    · rw [h2, h3]
    · exact absurd h1 h3
  · rcases hw with ⟨h3, _⟩ | ⟨_, _, h3⟩
    · exact absurd h3 h1
    · refine BitVec.eq_of_getLsbD_eq fun n _ => ?_
      have := (h2 n).trans (h3 n).symm
      cases a : v.getLsbD n <;> cases b : w.getLsbD n <;> simp_all

/-- Rules with the same text can be evaluated by the same hooks. -/
theorem evaluable_same {env env' : TextEnv} {rate rate' : List Char → Option Nat} {sets sets' : List BSet} {s : RuleS} {r r' : Rule} {hook : Hook}
    (h : RuleSays env rate sets s r) (h' : RuleSays env' rate' sets' s r') (he : Evaluable hook sets r) : Evaluable hook sets' r' := by
  refine ⟨fun m' hm' => ?_, fun m' hm' ht => ?_, fun hmark => ?_, fun hs => ?_⟩
  · obtain ⟨x, hx, h1⟩ := each_mem h'.matchers hm'
    obtain ⟨m, hm, h2⟩ := each_mem' h.matchers hx
    rw [← matcher_type h2 h1]
    exact he.types m hm
  · obtain ⟨x, hx, h1⟩ := each_mem h'.matchers hm'
    obtain ⟨m, hm, h2⟩ := each_mem' h.matchers hx
    obtain ⟨k, hk⟩ := set_keyed h1 ht
    obtain ⟨e1, _, y, e2, e3⟩ := matcher_key h1 k hk
    obtain ⟨g1, _, z, g2, g3⟩ := matcher_key h2 k hk
    obtain ⟨z', g4, g5⟩ := he.sets m hm g1
    rw [g2] at g4
    cases g4
    refine ⟨y, e2, ?_⟩
    rw [keyOf_unique e3 g3]
    exact g5
  · by_cases hex : ∀ o ∈ s.options, isMark o = false
    · rw [h'.options.noMark hex] at hmark
      cases hmark
    · have : ∃ v, OptionS.mark v ∈ s.options := by
        refine Classical.byContradiction fun hn => hex fun o ho => ?_
        cases o with
        | log _ _ => rfl
        | counter => rfl
        | mark v => exact absurd ⟨v, ho⟩ hn
      obtain ⟨v, hv⟩ := this
      obtain ⟨n, _, hn, _⟩ := h.options.mark v hv
      exact he.mark hn
  · by_cases hex : ∀ o ∈ s.options, isLog o = false
    · exact .inl (h'.options.noLog hex).1
    · have : ∃ hs t, OptionS.log hs t ∈ s.options := by
        refine Classical.byContradiction fun hn => hex fun o ho => ?_
        cases o with
        | log a b => exact absurd ⟨a, b, ho⟩ hn
        | counter => rfl
        | mark v => rfl
      obtain ⟨hs', t, hv⟩ := this
      rw [logSays_unique (h'.options.log hs' t hv).1 (h.options.log hs' t hv).1]
      exact he.log hs

/-! ## The actions succeed -/

theorem Run.bind_of {α β : Type} {x : Run α} {f : α → Run β} {a : α} {b : β} (h1 : x = some (.ok a)) (h2 : f a = some (.ok b)) : x.bind f = some (.ok b) := by
  rw [h1]; exact h2

theorem opOf_accepts {w : Option (List Char)} {o : MOp} (h : OpSays w o) : opOf w = some (.ok o) := by
  rcases h with ⟨rfl, rfl⟩ | rfl
  · rfl
  · show orAbort (MOp.fromStr (String.ofList (Doc.op o).toList)) = _
    rw [String.ofList_toList, (C38_understood.2.2.2.2.1 _ _).mpr rfl]
    rfl

/-- The text of a set does not begin with a blank piece, and the loop has time. -/
def SetOk (fuel : Nat) (k p : List Char) : Prop := ¬ blankFirst p ∧ k.length < fuel ∧ p.length + 2 ≤ fuel

theorem set_accepts {e : PEnv} {mem : Nat → Nat → Byte} {fuel : Nat} {name : Option String} {k p : List Char} {x : BSet} (h : SetSays e.text name k p x) (hf : SetOk fuel k p) :
    ∃ s, setNewFromRaw e.text mem fuel name k p = some (.ok s) := by
  obtain ⟨r, h1, _, _, h2⟩ := C37_set_partial e.text mem name k p hf.1 hf.2.1 hf.2.2
  obtain ⟨_, hk, hs, es, he, _⟩ := h
  obtain ⟨s, rfl⟩ := h2 ⟨x.key, hk, hs, fun t ht => by
    obtain ⟨y, _, hy⟩ := each_mem' he ht
    exact ⟨y, hy⟩⟩
  exact ⟨s, h1⟩

theorem findSet_accepts {name : List Char} : ∀ {sets : List BSet} {i : Nat}, (∃ s ∈ sets, s.name = some (String.ofList name)) → ∃ found, findSet name sets i = some found
  | [], _, h => by obtain ⟨_, h, _⟩ := h; cases h
  | s :: ss, i, h => by
    unfold findSet
    split
    · exact ⟨_, rfl⟩
    · next hn =>
      obtain ⟨x, hx, hn'⟩ := h
      rcases List.mem_cons.mp hx with rfl | hx
      · exact absurd hn' hn
      · exact findSet_accepts ⟨x, hx, hn'⟩

theorem tokens_empty : tokens isElemSep "{}".toList = [] := by decide

theorem empty_ok {fuel : Nat} {k : List Char} (h : k.length + 4 ≤ fuel) : SetOk fuel k "{}".toList := by
  refine ⟨?_, by omega, by show 2 + 2 ≤ fuel; omega⟩
  rintro ⟨p, hp, _⟩
  rw [tokens_empty] at hp
  cases hp

/-- The same name and key. -/
def Same (a b : BSet) : Prop := a.name = b.name ∧ a.key = b.key

theorem each_get {α β : Type} {R : α → β → Prop} {l : List α} {x : List β} (h : Each R l x) : ∀ {i : Nat} {a : α}, l[i]? = some a → ∃ b, x[i]? = some b ∧ R a b := by
  induction h with
  | nil => intro i a h; cases i <;> cases h
  | cons h _ ih =>
    intro i a hi
    cases i with
    | zero => cases hi; exact ⟨_, rfl, h⟩
    | succ i => exact ih hi
theorem each_get' {α β : Type} {R : α → β → Prop} {l : List α} {x : List β} (h : Each R l x) : ∀ {i : Nat} {b : β}, x[i]? = some b → ∃ a, l[i]? = some a ∧ R a b := by
  induction h with
  | nil => intro i a h; cases i <;> cases h
  | cons h _ ih =>
    intro i a hi
    cases i with
    | zero => cases hi; exact ⟨_, rfl, h⟩
    | succ i => exact ih hi
theorem each_length {α β : Type} {R : α → β → Prop} {l : List α} {x : List β} (h : Each R l x) : l.length = x.length := by
  induction h with
  | nil => rfl
  | cons _ _ ih => rw [List.length_cons, List.length_cons, ih]

/-- The texts of the sets of a matcher are not among those that do not return, and there is time. -/
def MatcherOk (fuel : Nat) : MatcherS → Prop
  | .plain _ _ _ _ => True
  | .inline k _ _ p => SetOk fuel k p
  | .named k _ _ _ => k.length + 4 ≤ fuel

theorem parsePayload_any {env : TextEnv} {ty : MType} {op : MOp} {buf buf' p : List Byte} {s : List Char} (h : parsePayload env ty op buf s = .ok p) :
    ∃ q, parsePayload env ty op buf' s = .ok q := by
  unfold parsePayload at h ⊢
  cases hc : ty.codec op with
  | none => rw [hc] at h; cases h
  | some c =>
    rw [hc] at h
    simp only at h ⊢
    cases hp : c.parse env s with
    | none => rw [hp] at h; cases h
    | some bs => exact ⟨_, rfl⟩

theorem matcherAct_accepts {e : PEnv} {st : PState} {s : MatcherS} {m : Matcher} {decl inl D ext : List BSet} (h : MatcherSays e.text (decl ++ inl) s m)
    (hst : st.sets = D ++ ext) (hsame : Each Same decl D) (hdecl : ∀ x ∈ decl, SetKey x.key) (hinl : ∀ x ∈ inl, x.name = none) (hf : MatcherOk e.fuel s) : ∃ a, matcherAct e st s = some (.ok a) := by
  cases s with
  | plain t neg op p =>
    obtain ⟨h1, h2, h3, _, buf, _, h4⟩ := h
    obtain ⟨q, hq⟩ := parsePayload_any (buf' := (block (e.mem st.n 0) (m.type.refSize m.op)).take (m.type.refSize m.op)) h4
    refine ⟨_, Run.bind_of (a := m.type) ?_ (Run.bind_of (opOf_accepts h2) (Run.bind_of (a := ⟨m.type, m.op, q, neg⟩) ?_ rfl))⟩
    · rw [h1, String.ofList_toList, (C38_understood.2.2.2.1 _ _).mpr rfl]
      rfl
    · unfold matcherNewFromRaw
      rw [hq]
      rfl
  | inline k neg op p =>
    obtain ⟨h1, _, _, _, i, x, _, _, h2⟩ := h
    obtain ⟨y, hy⟩ := set_accepts (mem := e.mem st.n) h2 hf
    refine ⟨(setMatcher st.sets.length neg, ⟨st.sets ++ [y], st.n + 1⟩), Run.bind_of (a := .in_) (opOf_accepts (.inr h1)) ?_⟩
    rw [if_neg (by simp)]
    refine Run.bind_of (a := y) ?_ rfl
    rw [hy]
    rfl
  | named k neg op name =>
    obtain ⟨h1, _, _, _, i, x, _, h2, h3, h4, h5⟩ := h
    have hi : i < decl.length := by
      refine Nat.lt_of_not_le fun hge => ?_
      rw [List.getElem?_append_right hge] at h2
      have := hinl x (List.mem_of_getElem? h2)
      rw [this] at h3
      cases h3
    rw [List.getElem?_append_left hi] at h2
    have hk := hdecl x (List.mem_of_getElem? h2)
    have hi' : i < D.length := each_length hsame ▸ hi
    obtain ⟨y, hy1, hy2⟩ := each_get hsame h2
    have hmem : y ∈ st.sets := by rw [hst]; exact List.mem_append_left _ (List.mem_of_getElem? hy1)
    obtain ⟨found, hfound⟩ := findSet_accepts (name := name) (sets := st.sets) (i := 0) ⟨y, hmem, by rw [← hy2.1]; exact h3⟩
    obtain ⟨j, f1, f2, f3, f4⟩ := findSet_says hfound
    have hji : j = i := by
      rcases Nat.lt_trichotomy j i with hlt | rfl | hgt
      · rw [hst, List.getElem?_append_left (by omega)] at f2
        obtain ⟨z, hz1, hz2⟩ := each_get' hsame f2
        exact absurd (hz2.1.trans f3) (h5 j z hlt (by rw [List.getElem?_append_left (by omega)]; exact hz1))
      · rfl
      · exact absurd (hy2.1.symm.trans h3) (f4 i y hgt (by rw [hst, List.getElem?_append_left hi']; exact hy1))
    subst hji
    rw [hst, List.getElem?_append_left hi', hy1] at f2
    cases f2
    have hsays : SetSays e.text none k "{}".toList ⟨none, x.key, keySize x.key, x.key.any MType.isNet, []⟩ := by
      refine ⟨rfl, h4, hk, [], ?_, by simp, by simp⟩
      rw [elemTexts, tokens_empty]
      exact .nil
    obtain ⟨test, ht⟩ := set_accepts (mem := e.mem st.n) hsays (empty_ok hf)
    have htk := (setNewFromRaw_says ht).2.1
    refine ⟨(setMatcher found.1 neg, { st with n := st.n + 1 }), Run.bind_of (a := .in_) (opOf_accepts (.inr h1)) ?_⟩
    rw [if_neg (by simp)]
    refine Run.bind_of (a := test) ?_ (Run.bind_of (a := found) ?_ ?_)
    · rw [ht]; rfl
    · rw [hfound]; rfl
    · show (if found.2.key ≠ test.key then _ else _) = _
      rw [if_neg]
      intro hn
      exact hn (by rw [← hy2.2]; exact keyOf_unique h4 htk)

theorem matchersAct_accepts {e : PEnv} {decl inl D : List BSet} (hsame : Each Same decl D) (hdecl : ∀ x ∈ decl, SetKey x.key) (hinl : ∀ x ∈ inl, x.name = none) :
    ∀ {l : List MatcherS} {ms : List Matcher} {st : PState}, Each (MatcherSays e.text (decl ++ inl)) l ms → (∃ ext, st.sets = D ++ ext) → (∀ s ∈ l, MatcherOk e.fuel s) →
      ∃ a, matchersAct e st l = some (.ok a)
  | [], _, st, _, _, _ => ⟨_, rfl⟩
  | s :: l, _, st, h, hst, hf => by
    cases h with
    | cons h1 h2 =>
      obtain ⟨ext, hst⟩ := hst
      obtain ⟨a, ha⟩ := matcherAct_accepts h1 hst hsame hdecl hinl (hf s List.mem_cons_self)
      obtain ⟨new, hn, _⟩ := (matcherAct_says (m := a.1) (st' := a.2) ha).1
      obtain ⟨b, hb⟩ := matchersAct_accepts hsame hdecl hinl (st := a.2) h2 ⟨ext ++ new, by rw [hn, hst, List.append_assoc]⟩ fun x hx => hf x (List.mem_cons_of_mem _ hx)
      exact ⟨_, Run.bind_of ha (Run.bind_of hb rfl)⟩

/-! ## Options -/

theorem headsAct_accepts : ∀ {hs : List (List Char)} {v : BitVec 8}, (∀ h ∈ hs, ∃ n x, Doc.log n = some x ∧ lower (String.ofList h) = lower x) → ∃ r, headsAct v hs = some (.ok r)
  | [], v, _ => ⟨v, rfl⟩
  | w :: hs, v, h => by
    obtain ⟨n, hn⟩ := h w List.mem_cons_self
    obtain ⟨r, hr⟩ := headsAct_accepts (hs := hs) (v := v ||| (1#8 <<< n)) fun x hx => h x (List.mem_cons_of_mem _ hx)
    refine ⟨r, Run.bind_of (a := n) ?_ hr⟩
    rw [(C38_understood.2.2.2.2.2.1 _ _).mpr hn]
    rfl

theorem logAct_accepts {hs : List (List Char)} {v : BitVec 8} (h : LogSays hs v) : ∃ r, logAct hs = some (.ok r) := by
  unfold logAct
  rcases h with ⟨h, _⟩ | ⟨h, h', _⟩
  · rw [if_pos h]; exact ⟨_, rfl⟩
  · rw [if_neg h]; exact headsAct_accepts h'

theorem parseMark_accepts {s : List Char} {n : Nat} (h : MarkSays s n) : parseMark s = some n := by
  unfold parseMark
  dsimp only
  rw [h.1, if_neg (by simp), if_neg (by simp only; omega), if_neg (by have := h.2; simp only; omega)]
  simp

/-- The option is understood. -/
def OptionSays (rate : List Char → Option Nat) : OptionS → Prop
  | .log hs t => (∃ v, LogSays hs v) ∧ ∃ r, RateSays rate t r
  | .counter => True
  | .mark s => ∃ n, MarkSays s n

theorem optionsAct_accepts {e : PEnv} : ∀ {xs : List OptionS} {o : Opts}, (∀ x ∈ xs, OptionSays e.rate x) → ((xs.filter isLog).length + (if o.log.isSome then 1 else 0) ≤ 1) →
    ((xs.filter isCounter).length + (if o.counter then 1 else 0) ≤ 1) → ((xs.filter isMark).length + (if o.mark.isSome then 1 else 0) ≤ 1) → ∃ o', optionsAct e o xs = some (.ok o')
  | [], o, _, _, _, _ => ⟨o, rfl⟩
  | x :: xs, o, h, h1, h2, h3 => by
    have hx := h x List.mem_cons_self
    have ih := fun o' => optionsAct_accepts (e := e) (xs := xs) (o := o') fun y hy => h y (List.mem_cons_of_mem _ hy)
    cases x with
    | log hs t =>
      obtain ⟨⟨v, hv⟩, r, hr⟩ := hx
      obtain ⟨l, hl⟩ := logAct_accepts hv
      have hlog : o.log = none := by
        cases hlo : o.log with
        | none => rfl
        | some _ => simp [List.filter_cons, isLog, hlo] at h1
      have hrate : ∃ q, rateAct e o.rate t = some (.ok q) := by
        rcases hr with ⟨rfl, _⟩ | ⟨s, n, rfl, hn, _⟩
        · exact ⟨_, rfl⟩
        · refine ⟨some n, ?_⟩
          show (orAbort? (e.rate s)).bind _ = _
          rw [hn]
          rfl
      obtain ⟨q, hq⟩ := hrate
      obtain ⟨o', ho'⟩ := ih { o with log := some l, rate := q } (by simp [List.filter_cons, isLog, hlog] at h1 ⊢; exact h1)
        (by simpa [List.filter_cons, isCounter] using h2) (by simpa [List.filter_cons, isMark] using h3)
      refine ⟨o', Run.bind_of (a := { o with log := some l, rate := q }) (Run.bind_of hl (Run.bind_of hq ?_)) ho'⟩
      rw [hlog]
      rfl
    | counter =>
      have hc : o.counter = false := by
        cases hco : o.counter with
        | false => rfl
        | true => simp [List.filter_cons, isCounter, hco] at h2
      obtain ⟨o', ho'⟩ := ih { o with counter := true } (by simpa [List.filter_cons, isLog] using h1) (by simp [List.filter_cons, isCounter, hc] at h2 ⊢; exact h2)
        (by simpa [List.filter_cons, isMark] using h3)
      refine ⟨o', Run.bind_of (a := { o with counter := true }) ?_ ho'⟩
      unfold optionAct
      rw [hc]
      rfl
    | mark s =>
      obtain ⟨n, hn⟩ := hx
      have hc : o.mark = none := by
        cases hco : o.mark with
        | none => rfl
        | some _ => simp [List.filter_cons, isMark, hco] at h3
      obtain ⟨o', ho'⟩ := ih { o with mark := some n } (by simpa [List.filter_cons, isLog] using h1) (by simpa [List.filter_cons, isCounter] using h2)
        (by simp [List.filter_cons, isMark, hc] at h3 ⊢; exact h3)
      refine ⟨o', Run.bind_of (a := { o with mark := some n }) (Run.bind_of (a := n) ?_ ?_) ho'⟩
      · rw [parseMark_accepts hn]; rfl
      · rw [hc]; rfl

theorem options_accept {e : PEnv} {os : List OptionS} {r : Rule} (h : OptionsSay e.rate os r) : ∃ o, optionsAct e ⟨none, none, false, none⟩ os = some (.ok o) := by
  refine optionsAct_accepts (fun x hx => ?_) h.once.1 h.once.2.1 h.once.2.2
  cases x with
  | log hs t => exact ⟨⟨_, (h.log hs t hx).1⟩, _, (h.log hs t hx).2⟩
  | counter => trivial
  | mark s =>
    obtain ⟨n, hn, _⟩ := h.mark s hx
    exact ⟨n, hn⟩

theorem verdictAct_accepts {e : PEnv} {s : VerdictS} {r : Rule} (h : VerdictSays e.text s r) : ∃ v, verdictAct e s = some (.ok v) := by
  cases s with
  | plain v =>
    have h : v = (Doc.verdict r.verdict).toList := h
    refine ⟨_, Run.bind_of (a := r.verdict) ?_ rfl⟩
    rw [h, String.ofList_toList, (C38_understood.2.1 _ _).mpr rfl]
    rfl
  | redirect i d =>
    obtain ⟨_, h1, h2⟩ := h
    refine ⟨_, Run.bind_of (a := r.redirIfindex.toNat) ?_ (Run.bind_of (a := r.redirDir) ?_ rfl)⟩
    · have : parseIface e.text i = some r.redirIfindex.toNat := by
        unfold IfaceSays at h1
        unfold parseIface
        dsimp only
        split at h1
        · next hc => rw [if_pos hc, h1]
        · next hc => rw [if_neg hc, h1.1, if_pos ⟨rfl, rfl, h1.2.1, h1.2.2⟩]
      rw [this]
      rfl
    · rw [h2, String.ofList_toList, (C38_understood.2.2.1 _ _).mpr rfl]
      rfl

/-! ## Rules, sets, chains -/

def RuleOk (fuel : Nat) (r : RuleS) : Prop := ∀ m ∈ r.matchers, MatcherOk fuel m

theorem ruleAct_accepts {e : PEnv} {decl inl D : List BSet} (hsame : Each Same decl D) (hdecl : ∀ x ∈ decl, SetKey x.key) (hinl : ∀ x ∈ inl, x.name = none)
    {s : RuleS} {r : Rule} {st : PState} (h : RuleSays e.text e.rate (decl ++ inl) s r) (hst : ∃ ext, st.sets = D ++ ext) (hf : RuleOk e.fuel s) : ∃ a, ruleAct e st s = some (.ok a) := by
  obtain ⟨ms, h1⟩ := matchersAct_accepts hsame hdecl hinl h.matchers hst hf
  obtain ⟨o, h2⟩ := options_accept h.options
  obtain ⟨v, h3⟩ := verdictAct_accepts h.verdict
  exact ⟨_, Run.bind_of h1 (Run.bind_of h2 (Run.bind_of h3 rfl))⟩

theorem rulesAct_accepts {e : PEnv} {decl inl D : List BSet} (hsame : Each Same decl D) (hdecl : ∀ x ∈ decl, SetKey x.key) (hinl : ∀ x ∈ inl, x.name = none) :
    ∀ {l : List RuleS} {rs : List Rule} {st : PState}, Each (RuleSays e.text e.rate (decl ++ inl)) l rs → (∃ ext, st.sets = D ++ ext) → (∀ s ∈ l, RuleOk e.fuel s) →
      ∃ a, rulesAct e st l = some (.ok a)
  | [], _, st, _, _, _ => ⟨_, rfl⟩
  | s :: l, _, st, h, hst, hf => by
    cases h with
    | cons h1 h2 =>
      obtain ⟨ext, hst⟩ := hst
      obtain ⟨a, ha⟩ := ruleAct_accepts hsame hdecl hinl h1 ⟨ext, hst⟩ (hf s List.mem_cons_self)
      obtain ⟨new, hn, _⟩ := (ruleAct_says (r := a.1) (st' := a.2) ha).1
      obtain ⟨b, hb⟩ := rulesAct_accepts hsame hdecl hinl (st := a.2) h2 ⟨ext ++ new, by rw [hn, hst, List.append_assoc]⟩ fun x hx => hf x (List.mem_cons_of_mem _ hx)
      exact ⟨_, Run.bind_of ha (Run.bind_of hb rfl)⟩

theorem setsAct_accepts {e : PEnv} : ∀ {l : List SetS} {decl : List BSet} {st : PState}, Each (fun d x => SetSays e.text (some (String.ofList d.name)) d.key d.payload x) l decl →
    (∀ d ∈ l, d.op = some (Doc.op .in_).toList) → (∀ d ∈ l, SetOk e.fuel d.key d.payload) → ∃ st', setsAct e st l = some (.ok st')
  | [], _, st, _, _, _ => ⟨st, rfl⟩
  | s :: l, _, st, h, ho, hf => by
    cases h with
    | cons h1 h2 =>
      obtain ⟨y, hy⟩ := set_accepts (mem := e.mem st.n) h1 (hf s List.mem_cons_self)
      obtain ⟨st', h'⟩ := setsAct_accepts (st := ⟨st.sets ++ [y], st.n + 1⟩) h2 (fun d hd => ho d (List.mem_cons_of_mem _ hd)) (fun d hd => hf d (List.mem_cons_of_mem _ hd))
      refine ⟨st', Run.bind_of (a := ⟨st.sets ++ [y], st.n + 1⟩) (Run.bind_of (a := .in_) (opOf_accepts (.inr (ho s List.mem_cons_self))) ?_) h'⟩
      rw [if_neg (by simp)]
      refine Run.bind_of (a := y) ?_ rfl
      rw [hy]
      rfl

theorem each_same {env : TextEnv} {l : List SetS} {a b : List BSet} (ha : Each (fun d x => SetSays env (some (String.ofList d.name)) d.key d.payload x) l a)
    (hb : Each (fun d x => SetSays env (some (String.ofList d.name)) d.key d.payload x) l b) : Each Same a b := by
  induction ha generalizing b with
  | nil => cases hb; exact .nil
  | cons h _ ih =>
    cases hb with
    | cons h' hb => exact .cons ⟨h.1.trans h'.1.symm, keyOf_unique h.2.1 h'.2.1⟩ (ih hb)

structure ChainOkText (fuel : Nat) (s : ChainS) : Prop where
  sets : ∀ d ∈ s.sets, SetOk fuel d.key d.payload
  rules : ∀ r ∈ s.rules, RuleOk fuel r

theorem hookopts_accepts {hook : Hook} {opts : List (List Char)} {o : Option HookOpts} (h : HookOptsSay hook opts o) :
    ∃ o', hookoptsAct opts = some (.ok o') ∧ validateAct hook o' = some (.ok ()) := by
  rcases h with ⟨rfl, rfl⟩ | ⟨ho, hne, _, h1, h2⟩
  · exact ⟨none, rfl, rfl⟩
  · obtain ⟨o', e1, e2⟩ := C34_accepts (hook := hook).mpr ⟨fun raw hr => by
      obtain ⟨t, v, g1, g2, _⟩ := h1 raw hr
      exact ⟨t, v, g1, g2⟩, fun t ht => (h2 t ht).1⟩
    refine ⟨some o', ?_, ?_⟩
    · cases opts with
      | nil => exact absurd rfl hne
      | cons x xs =>
        refine Run.bind_of (a := o') ?_ rfl
        rw [e1]
        rfl
    · show orAbort (validate o' hook) = _
      rw [e2]
      rfl

theorem each_both {α β γ : Type} {R : α → β → Prop} {S : α → γ → Prop} {l : List α} {x : List β} {y : List γ} (hx : Each R l x) (hy : Each S l y) {c : γ} (hc : c ∈ y) :
    ∃ a ∈ l, ∃ b ∈ x, R a b ∧ S a c := by
  obtain ⟨a, ha, hs⟩ := each_mem hy hc
  obtain ⟨b, hb, hr⟩ := each_mem' hx ha
  exact ⟨a, ha, b, hb, hr, hs⟩

theorem chainAct_accepts {e : PEnv} {st : PState} {s : ChainS} {c : Chain × Option HookOpts} (h0 : st.sets = []) (h : ChainSays e.text e.rate s c)
    (hev : ∀ r ∈ c.1.rules, Evaluable c.1.hook c.1.sets r) (hn : c.1.sets.length ≤ 4294967296) (hf : ChainOkText e.fuel s) :
    ∃ a, chainAct e st s = some (.ok a) ∧ a.1.1.sets.length ≤ 4294967296 := by
  obtain ⟨decl, inl, e1, e2, e3, e4⟩ := h.sets
  obtain ⟨o, ho, hv⟩ := hookopts_accepts h.opts
  obtain ⟨st1, hs1⟩ := setsAct_accepts (st := st) e2 e3 hf.sets
  obtain ⟨_, D, d1, d2⟩ := setsAct_says hs1
  rw [h0, List.nil_append] at d1
  have hsame := each_same e2 d2
  have hdecl : ∀ x ∈ decl, SetKey x.key := fun x hx => by
    obtain ⟨_, _, hx⟩ := each_mem e2 hx
    exact hx.2.2.1
  have hinl : ∀ x ∈ inl, x.name = none := fun x hx => by
    obtain ⟨_, _, hx⟩ := each_mem e4 hx
    exact hx.1
  have hr := h.rules
  rw [e1] at hr
  obtain ⟨rs, hrs⟩ := rulesAct_accepts hsame hdecl hinl (st := st1) hr ⟨[], by rw [List.append_nil]; exact d1⟩ hf.rules
  obtain ⟨⟨inl', r1, r2⟩, r3⟩ := rulesAct_says (rs := rs.1) (st' := rs.2) hrs
  have hlen : rs.2.sets.length ≤ 4294967296 := by
    rw [r1, d1, List.length_append, ← each_length hsame, ← each_length r2, each_length e4]
    rw [e1, List.length_append] at hn
    exact hn
  have r4 := r3 [] (by rw [List.append_nil]; exact hlen)
  rw [List.append_nil] at r4
  have hrefs : Refs rs.1 := by
    intro r hr' m hm ht
    obtain ⟨x, _, hx⟩ := each_mem r4 hr'
    obtain ⟨y, _, hy⟩ := each_mem hx.matchers hm
    obtain ⟨k, hk⟩ := set_keyed hy ht
    exact (matcher_key hy k hk).2.1
  have hpol : c.1.policy.validPolicy = true := by
    rcases h.terminal with h | h | h <;> rw [h] <;> rfl
  obtain ⟨chain, hc⟩ := (checkRules_iff (c := ⟨String.ofList s.name, c.1.hook, c.1.policy, rs.2.sets, [], false, false, false⟩) hrefs).mpr (by
    intro r hr'
    obtain ⟨x, _, r0, hr0, h1, h2⟩ := each_both h.rules r4 hr'
    exact evaluable_same h1 h2 (hev r0 hr0))
  have hck : chain.hook = c.1.hook := (checkRules_list hc).1
  refine ⟨((chain, o), ⟨[], rs.2.n⟩), ?_, by rw [(checkRules_list hc).2.2.1]; exact hlen⟩
  refine Run.bind_of (a := c.1.hook) ?_ (Run.bind_of ho (Run.bind_of (a := c.1.policy) ?_ (Run.bind_of hs1 (Run.bind_of hrs ?_))))
  · rw [h.hook, String.ofList_toList, (C38_understood.1 _ _).mpr rfl]; rfl
  · rw [h.policy, String.ofList_toList, (C38_understood.2.1 _ _).mpr rfl]; rfl
  · rw [if_neg (by rw [hpol]; simp)]
    refine Run.bind_of (a := chain) ?_ (Run.bind_of (a := ()) ?_ rfl)
    · unfold chainNew
      rw [hpol, hc]
      rfl
    · rw [hck]; exact hv

theorem chainAct_sets {e : PEnv} {st : PState} {s : ChainS} {a : (Chain × Option HookOpts) × PState} (h : chainAct e st s = some (.ok a)) : a.2.sets = [] := by
  unfold chainAct at h
  obtain ⟨hook, h1, h⟩ := Run.bind_ok h
  obtain ⟨o, h2, h⟩ := Run.bind_ok h
  obtain ⟨policy, h3, h⟩ := Run.bind_ok h
  obtain ⟨st1, h4, h⟩ := Run.bind_ok h
  obtain ⟨rs, h5, h⟩ := Run.bind_ok h
  split at h
  · cases h
  · obtain ⟨chain, h6, h⟩ := Run.bind_ok h
    obtain ⟨u, h7, h⟩ := Run.bind_ok h
    cases h
    rfl

theorem chainsAct_accepts {e : PEnv} : ∀ {l : List ChainS} {st : PState}, st.sets = [] →
    (∀ s ∈ l, (∃ c, ChainSays e.text e.rate s c ∧ (∀ r ∈ c.1.rules, Evaluable c.1.hook c.1.sets r) ∧ c.1.sets.length ≤ 4294967296) ∧ ChainOkText e.fuel s) →
      ∃ rs, chainsAct e st l = some (.ok rs) ∧ ∀ c ∈ rs, c.1.sets.length ≤ 4294967296
  | [], st, _, _ => ⟨_, rfl, (fun _ h => by cases h)⟩
  | s :: l, st, h0, h => by
    obtain ⟨⟨c, h1, h2, h3⟩, h4⟩ := h s List.mem_cons_self
    obtain ⟨a, ha, hla⟩ := chainAct_accepts h0 h1 h2 h3 h4
    obtain ⟨b, hb, hlb⟩ := chainsAct_accepts (st := a.2) (chainAct_sets ha) fun x hx => h x (List.mem_cons_of_mem _ hx)
    refine ⟨_, Run.bind_of ha (Run.bind_of hb rfl), fun c hc => ?_⟩
    rcases List.mem_cons.mp hc with rfl | hc
    · exact hla
    · exact hlb c hc

/-! ## What is accepted can be evaluated -/

theorem chainAct_evaluable {e : PEnv} {st : PState} {s : ChainS} {a : (Chain × Option HookOpts) × PState} (h : chainAct e st s = some (.ok a))
    (hn : a.1.1.sets.length ≤ 4294967296) : ∀ r ∈ a.1.1.rules, Evaluable a.1.1.hook a.1.1.sets r := by
  unfold chainAct at h
  obtain ⟨hook, h1, h⟩ := Run.bind_ok h
  obtain ⟨o, h2, h⟩ := Run.bind_ok h
  obtain ⟨policy, h3, h⟩ := Run.bind_ok h
  obtain ⟨st1, h4, h⟩ := Run.bind_ok h
  obtain ⟨rs, h5, h⟩ := Run.bind_ok h
  split at h
  · cases h
  · obtain ⟨chain, h6, h⟩ := Run.bind_ok h
    obtain ⟨u, h7, h⟩ := Run.bind_ok h
    cases h
    have h6 := orAbort_ok h6
    unfold chainNew at h6
    split at h6
    · cases h6
    · obtain ⟨c1, c2, c3, c4, _⟩ := checkRules_list h6
      simp only [List.nil_append] at c1 c2 c3 c4
      have hn : chain.sets.length ≤ 4294967296 := hn
      obtain ⟨⟨inl', r1, r2⟩, r3⟩ := rulesAct_says (rs := rs.1) (st' := rs.2) h5
      have r4 := r3 [] (by rw [List.append_nil, ← c3]; exact hn)
      rw [List.append_nil] at r4
      have hrefs : Refs rs.1 := by
        intro r hr' m hm ht
        obtain ⟨x, _, hx⟩ := each_mem r4 hr'
        obtain ⟨y, _, hy⟩ := each_mem hx.matchers hm
        obtain ⟨k, hk⟩ := set_keyed hy ht
        exact (matcher_key hy k hk).2.1
      have hev := (checkRules_iff hrefs).mp ⟨_, h6⟩
      intro r hr
      have hr : r ∈ chain.rules := hr
      show Evaluable chain.hook chain.sets r
      rw [c1, c3]
      rw [c4] at hr
      obtain ⟨i, hi, rfl⟩ := List.mem_mapIdx.mp hr
      have := hev _ (List.getElem_mem hi)
      exact ⟨this.types, this.sets, this.mark, this.log⟩

theorem chainsAct_evaluable {e : PEnv} : ∀ {l : List ChainS} {st : PState} {rs : List (Chain × Option HookOpts)},
    chainsAct e st l = some (.ok rs) → (∀ c ∈ rs, c.1.sets.length ≤ 4294967296) → ∀ c ∈ rs, ∀ r ∈ c.1.rules, Evaluable c.1.hook c.1.sets r
  | [], st, rs, h, _ => by cases h; intro c hc; cases hc
  | s :: l, st, rs, h, hn => by
    unfold chainsAct at h
    obtain ⟨a, h1, h⟩ := Run.bind_ok h
    obtain ⟨b, h2, h⟩ := Run.bind_ok h
    cases h
    intro c hc
    rcases List.mem_cons.mp hc with rfl | hc
    · exact chainAct_evaluable h1 (hn _ List.mem_cons_self)
    · exact chainsAct_evaluable h2 (fun c hc => hn c (List.mem_cons_of_mem _ hc)) c hc

end Bf.Cli
