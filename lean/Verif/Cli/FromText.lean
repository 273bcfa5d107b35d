import Verif.Cli.Small
import Verif.Props.C49_Loads
import Verif.Cgen.Set
import Verif.Props.C28_Pack
/-!
# What is read from a text can be written, and loaded
-/
namespace Bf.Cli
open Bf.Spec

/-! ### Lengths -/

theorem total_of_mem {w : List Char} : ∀ {ws : List (List Char)}, w ∈ ws → w.length ≤ total ws
  | x :: ws, h => by
    rw [total_cons]
    rcases List.mem_cons.mp h with rfl | h
    · omega
    · have := total_of_mem h
      omega

theorem total_sub {α : Type} {f : α → List (List Char)} : ∀ {l : List α} {x : α}, x ∈ l → total (f x) ≤ total (l.flatMap f)
  | c :: l, x, h => by
    rw [List.flatMap_cons, total_append]
    rcases List.mem_cons.mp h with rfl | h
    · omega
    · have := total_sub (f := f) h
      omega

theorem total_count {α : Type} {f : α → List (List Char)} : ∀ {l : List α}, (∀ x ∈ l, 1 ≤ total (f x)) → l.length ≤ total (l.flatMap f)
  | [], _ => Nat.zero_le _
  | c :: l, h => by
    have h1 := total_count (f := f) (l := l) fun x hx => h x (List.mem_cons_of_mem _ hx)
    have h2 := h c List.mem_cons_self
    rw [List.flatMap_cons, total_append, List.length_cons]
    omega

theorem tokens_length (sep : Char → Bool) : ∀ s : List Char, (tokens sep s).length ≤ s.length
  | [] => by simp [tokens, pieces]
  | c :: s => by
    have ih := tokens_length sep s
    unfold tokens at ih ⊢
    rw [pieces]
    split
    · rw [List.filter_cons_of_neg (by simp)]
      simp only [List.length_cons]
      omega
    · split
      · next p ps hp =>
        rw [hp, List.filter_cons] at ih
        rw [List.filter_cons_of_pos (by simp)]
        simp only [List.length_cons]
        split at ih
        · simp only [List.length_cons] at ih
          omega
        · omega
      · simp

theorem elemTexts_length (s : List Char) : (elemTexts s).length ≤ s.length := by
  unfold elemTexts
  refine Nat.le_trans (List.length_filter_le _ _) ?_
  rw [List.length_map]
  exact tokens_length _ _

theorem nodup_le {α : Type} : ∀ {a b : List α}, a.Nodup → (∀ x ∈ a, x ∈ b) → a.length ≤ b.length
  | [], _, _, _ => Nat.zero_le _
  | x :: a, b, hn, h => by
    obtain ⟨l, r, rfl⟩ := List.append_of_mem (h x List.mem_cons_self)
    rw [List.nodup_cons] at hn
    have := nodup_le (a := a) (b := l ++ r) hn.2 fun y hy => by
      have h1 := h y (List.mem_cons_of_mem _ hy)
      have h2 : y ≠ x := fun e => hn.1 (e ▸ hy)
      simp only [List.mem_append, List.mem_cons] at h1 ⊢
      rcases h1 with h1 | h1 | h1
      · exact .inl h1
      · exact absurd h1 h2
      · exact .inr h1
    simp only [List.length_cons, List.length_append] at this ⊢
    omega

theorem set_elems {env : TextEnv} {name : Option String} {k p : List Char} {s : BSet} (h : SetSays env name k p s) : s.elems.length ≤ p.length := by
  obtain ⟨_, _, _, es, h1, h2, h3⟩ := h
  refine Nat.le_trans (nodup_le h2 fun x hx => (h3 x).mp hx) ?_
  rw [← each_length h1]
  exact elemTexts_length p

/-! ### Sets -/

/-- A set of that shape is one the API can build. -/
theorem SetShape.built {s : BSet} (h : SetShape s) : SetBuilt s := by
  have key : ∀ (es pre : List (List Byte)), (pre ++ es).Nodup → (∀ e ∈ es, e.length = s.elemSize) → SetBuilt { s with elems := pre } → SetBuilt { s with elems := pre ++ es } := by
    intro es
    induction es with
    | nil => intro pre _ _ hb; simpa using hb
    | cons e es ih =>
      intro pre hn he hb
      have hadd : addElem pre e = pre ++ [e] := by
        have : pre.contains e = false := by
          rw [List.nodup_append] at hn
          cases hx : pre.contains e with
          | false => rfl
          | true => exact absurd rfl (hn.2.2 e (List.contains_iff_mem.mp hx) e (by simp))
        simp only [addElem, this]; rfl
      have h1 := SetBuilt.add (e := e) hb (he e (by simp))
      rw [show addElem ({ s with elems := pre } : BSet).elems e = pre ++ [e] from hadd] at h1
      have := ih (pre ++ [e]) (by simpa using hn) (fun x hx => he x (by simp [hx])) h1
      simpa using this
  exact key s.elems [] (by simpa using h.nodup) h.elems (.new h.new)

theorem set_built {env : TextEnv} {name : Option String} {k p : List Char} {s : BSet} (hm : MadeSet s) (h : SetSays env name k p s) : SetBuilt s := by
  obtain ⟨s0, h1, h2, h3⟩ := hm
  obtain ⟨f1, f2, f3, f4, f5⟩ := setNew_facts h1
  obtain ⟨_, hk, hsk, es, hes, hnd, hel⟩ := h
  refine SetShape.built ⟨?_, fun e he => ?_, hnd⟩
  · rw [h1]
    have : s0.name = s.name ∧ s0.key = s.key ∧ s0.elems = [] := by
      unfold setNew at h1
      repeat' split at h1
      all_goals first | (cases h1; done) | (cases h1; exact ⟨rfl, rfl, rfl⟩)
    obtain ⟨n, k', sz, tr, es'⟩ := s
    obtain ⟨n0, k0, sz0, tr0, es0⟩ := s0
    simp only at this h2 h3
    obtain ⟨rfl, rfl, rfl⟩ := this
    rw [h2, h3]
  · obtain ⟨x, hx, comps, c1, rfl, c3⟩ := each_mem hes ((hel e).mp he)
    rw [elem_length c3, c1, h2, f4]
    rfl

/-! ### Names -/

theorem wordChar_byte {c : Char} (h : WordChar c) : 0 < c.toNat ∧ c.toNat < 256 := by
  have key : ∀ {a b : Char}, a ≤ c → c ≤ b → 0 < a.toNat → b.toNat < 256 → 0 < c.toNat ∧ c.toNat < 256 := by
    intro a b h1 h2 h3 h4
    have h1 : a.toNat ≤ c.toNat := h1
    have h2 : c.toNat ≤ b.toNat := h2
    omega
  rcases h with (h | h | h) | h
  · exact key h.1 h.2 (by decide) (by decide)
  · exact key h.1 h.2 (by decide) (by decide)
  · exact key h.1 h.2 (by decide) (by decide)
  · subst h; decide

theorem isCStr_of {w : List Char} (h : ∀ c ∈ w, WordChar c ∨ c = '-' ∨ c = '.' ∨ c = '/') : IsCStr (String.ofList w) := by
  intro c hc
  rw [String.toList_ofList] at hc
  rcases h c hc with h | h | h | h
  · exact wordChar_byte h
  · subst h; decide
  · subst h; decide
  · subst h; decide

theorem cstr_length (w : List Char) : (cstr (String.ofList w)).length = w.length := by simp [cstr]

theorem name_cstr {w : List Char} (h : NameText w) : IsCStr (String.ofList w) := isCStr_of fun c hc => .inl (h.1.2 c hc)

/-! ### Hook options -/

theorem opt_value {w : List Char} (h : OptionText w) : ∀ c ∈ (w.dropWhile (· ≠ '=')).tail, WordChar c ∨ c = '-' ∨ c = '.' ∨ c = '/' := by
  obtain ⟨n, v, rfl, hn, hv⟩ := h
  have : (n ++ '=' :: v).dropWhile (· ≠ '=') = '=' :: v := by
    have : ∀ (n : List Char), '=' ∉ n → (n ++ '=' :: v).dropWhile (· ≠ '=') = '=' :: v := by
      intro n
      induction n with
      | nil => intro _; simp
      | cons c n ih =>
        intro h
        simp only [List.mem_cons, not_or] at h
        rw [List.cons_append, List.dropWhile_cons_of_pos (by simpa using fun e => h.1 e.symm)]
        exact ih h.2
    refine this n fun hx => ?_
    have := hn.2 _ hx
    revert this
    unfold WordChar Alnum Digit Letter Lower Upper
    decide
  rw [this]
  exact hv.2

theorem tail_dropWhile_length (w : List Char) (p : Char → Bool) : ((w.dropWhile p).tail).length ≤ w.length := by
  have : (w.dropWhile p).length ≤ w.length := List.Sublist.length_le (List.dropWhile_sublist _)
  rw [List.length_tail]
  omega

/-- The value of an option is a C string, not of 4 GiB. -/
def ValueOk (w : List Char) : Prop := IsCStr (String.ofList (w.dropWhile (· ≠ '=')).tail) ∧ w.length < 2 ^ 32

theorem ValueOk.of {w : List Char} (h : ∀ c ∈ w, 0 < c.toNat ∧ c.toNat < 256) (hl : w.length < 2 ^ 32) : ValueOk w :=
  ⟨fun c hc => h c ((List.dropWhile_sublist _).subset (List.mem_of_mem_tail (by rwa [String.toList_ofList] at hc))), hl⟩

theorem ValueOk.text {w : List Char} (h : OptionText w) (hl : w.length < 2 ^ 32) : ValueOk w := ⟨isCStr_of (opt_value h), hl⟩

theorem parseOpt_ok {o o' : HookOpts} {w : List Char} (h : parseOpt o w = .ok o') (ho : OptsOk o) (hw : ValueOk w) : OptsOk o' := by
  obtain ⟨hv, hl⟩ := hw
  have hlen := tail_dropWhile_length w (· ≠ '=')
  obtain ⟨h1, h2, h3, h4⟩ := ho
  unfold parseOpt at h
  split at h
  · cases h
  dsimp only at h
  split at h
  · cases h
  · unfold parseIfindex at h
    split at h
    · cases h
    dsimp only at h
    split at h
    · cases h
    split at h
    · cases h
    next hb =>
    cases h
    exact ⟨by simp only [if_true]; constructor <;> omega, h2, h3, h4⟩
  · unfold parseCgpath at h
    split at h
    · cases h
    cases h
    refine ⟨h1, ?_, h3, h4⟩
    simp only [if_true]
    exact ⟨_, rfl, hv, by rw [cstr_length]; omega⟩
  · unfold parseFamily at h
    split at h
    · cases h
    split at h
    · cases h; exact ⟨h1, h2, h3, h4⟩
    · cases h
  · unfold parsePriorities at h
    split at h
    · cases h
    split at h
    · cases h
    dsimp only at h
    split at h
    · cases h
    split at h
    · cases h
    split at h
    · cases h
    split at h
    · cases h
    next hb =>
    split at h
    · cases h
    split at h
    · cases h
    cases h
    refine ⟨h1, h2, h3, ?_⟩
    simp only [if_true]
    omega

theorem parseOpts_ok : ∀ {ws : List (List Char)} {o o' : HookOpts}, parseOpts o ws = .ok o' → OptsOk o → (∀ w ∈ ws, ValueOk w) → OptsOk o'
  | [], o, o', h, ho, _ => by cases h; exact ho
  | w :: ws, o, o', h, ho, hw => by
    unfold parseOpts at h
    obtain ⟨o1, h1, h2⟩ := Res.bind_eq_ok h
    exact parseOpts_ok h2 (parseOpt_ok h1 ho (hw w List.mem_cons_self)) fun x hx => hw x (List.mem_cons_of_mem _ hx)

theorem hookoptsAct_ok {ws : List (List Char)} {o : Option HookOpts} (h : hookoptsAct ws = some (.ok o)) (hw : ∀ w ∈ ws, OptionText w ∧ w.length < 2 ^ 32) :
    ∀ x, o = some x → OptsOk x := by
  intro x hx
  cases ws with
  | nil => cases h; cases hx
  | cons w ws =>
    unfold hookoptsAct at h
    obtain ⟨o1, h1, h2⟩ := Run.bind_ok h
    cases h2
    cases hx
    exact parseOpts_ok (orAbort_ok h1) ⟨by decide, by decide, by decide, by decide⟩ fun w hx => .text (hw w hx).1 (hw w hx).2

theorem chainsAct_opts {e : PEnv} : ∀ {l : List ChainS} {st : PState} {rs : List (Chain × Option HookOpts)}, chainsAct e st l = some (.ok rs) →
    Each (fun s c => hookoptsAct s.opts = some (.ok c.2) ∧ chainCopy c.1 = .ok c.1) l rs
  | [], st, rs, h => by cases h; exact .nil
  | s :: l, st, rs, h => by
    unfold chainsAct at h
    obtain ⟨a, h1, h⟩ := Run.bind_ok h
    obtain ⟨b, h2, h⟩ := Run.bind_ok h
    cases h
    refine .cons ?_ (chainsAct_opts h2)
    unfold chainAct at h1
    obtain ⟨hook, _, h1⟩ := Run.bind_ok h1
    obtain ⟨o, g, h1⟩ := Run.bind_ok h1
    obtain ⟨policy, _, h1⟩ := Run.bind_ok h1
    obtain ⟨st1, _, h1⟩ := Run.bind_ok h1
    obtain ⟨rs, _, h1⟩ := Run.bind_ok h1
    split at h1
    · cases h1
    obtain ⟨chain, h6, h1⟩ := Run.bind_ok h1
    obtain ⟨u, _, h1⟩ := Run.bind_ok h1
    cases h1
    exact ⟨g, chainCopy_new (orAbort_ok h6)⟩

theorem headWords_mem : ∀ {l : List (List Char)} {w : List Char}, w ∈ l → w ∈ headWords l
  | [h], w, hw => by simpa [headWords] using hw
  | h :: h' :: hs, w, hw => by
    rw [headWords]
    · rcases List.mem_cons.mp hw with rfl | hw
      · exact List.mem_cons_self
      · exact List.mem_cons_of_mem _ (List.mem_cons_of_mem _ (headWords_mem hw))
    · intro e; cases e

theorem optsWords_mem {l : List (List Char)} {w : List Char} (h : w ∈ l) : w ∈ optsWords l := by
  unfold optsWords
  split
  · exact h
  · simp [headWords_mem h]

/-! ### Groups of sets -/

theorem addUnique_length : ∀ (es acc : List (List Byte)), (addUnique acc es).length ≤ acc.length + es.length
  | [], acc => by simp [addUnique]
  | e :: es, acc => by
    rw [addUnique]
    refine Nat.le_trans (addUnique_length es _) ?_
    split
    · simp only [List.length_cons]; omega
    · simp only [List.length_cons, List.length_append, List.length_nil]; omega

theorem uniqueElems_length {sets : List BSet} {n : Nat} (h : ∀ s ∈ sets, s.elems.length ≤ n) : ∀ (g : List Nat) (acc : List (List Byte)),
    (uniqueElems sets g acc).length ≤ acc.length + n * g.length
  | [], acc => by simp [uniqueElems]
  | i :: g, acc => by
    rw [uniqueElems]
    refine Nat.le_trans (uniqueElems_length h g _) ?_
    have h1 := addUnique_length (memberElems sets i) acc
    have h2 : (memberElems sets i).length ≤ n := by
      unfold memberElems
      split
      · next s hs => exact h s (List.mem_of_getElem? hs)
      · exact Nat.zero_le _
    rw [List.length_cons, Nat.mul_add]
    omega

theorem fits_of {T : Pin.Target} {c : Chain} (hT : T.printed < 2 ^ 64) (hs : c.sets.length < 2 ^ 32) (he : ∀ s ∈ c.sets, s.elems.length < 2 ^ 32)
    (hb : ∀ s ∈ c.sets, SetBuilt s) : Pin.Fits T c := by
  have hg := buildGroups_ok c.sets
  refine ⟨hT, ?_, fun g hgm s hs' => ?_⟩
  · have := buildGroupsFrom_length c.sets c.sets 0 []
    simp only [List.length_nil, Nat.zero_add] at this
    unfold buildGroups
    omega
  · have hl := hg.len g hgm
    refine ⟨?_, by omega, ?_⟩
    · unfold groupHead at hs'
      obtain ⟨i, _, hi⟩ := Option.bind_eq_some_iff.mp hs'
      have h1 := setNew_elemSize (hb s (List.mem_of_getElem? hi)).shape.new
      have h1 : s.elemSize ≤ 192 := h1
      omega
    · have := uniqueElems_length (n := 2 ^ 32 - 1) (fun s hs => by have := he s hs; omega) g []
      unfold groupEntries
      rw [List.length_map]
      simp only [List.length_nil, Nat.zero_add] at this
      have h2 : (2 ^ 32 - 1) * g.length ≤ (2 ^ 32 - 1) * (2 ^ 32 - 1) := Nat.mul_le_mul_left _ (by omega)
      omega

/-! ### Chains -/

/-- A chain that is read from a text can be saved, and its options too. -/
theorem from_text {e : PEnv} {text : List Char} {cs : List ChainS} (hw : Writes text cs) (hl : text.length < 2 ^ 32) {rs : List (Chain × Option HookOpts)}
    (h : bfcParse e text = some (.ok rs)) {c : Chain × Option HookOpts} (hc : c ∈ rs) :
    Packable c.1 ∧ chainCopy c.1 = .ok c.1 ∧ (∀ x, c.2 = some x → OptsOk x) ∧ ∀ T : Pin.Target, T.printed < 2 ^ 64 → Pin.Fits T c.1 := by
  obtain ⟨s, hs, hsay⟩ := each_mem (C45_read hw h (read_small hw (by omega) h)) hc
  have htext := hw.2.1 s hs
  have htot : total (chainWords s) ≤ text.length := Nat.le_trans (total_sub hs) (laid_total hw.2.2)
  obtain ⟨m1, m2, m3⟩ := bfcParse_made h c hc
  have h' := h
  unfold bfcParse at h'
  rw [writes_parse hw] at h'
  obtain ⟨s', hs', hopt, hcopy⟩ := each_mem (chainsAct_opts h') hc
  have hwords : total (chainWords s) = 5 + s.name.length + s.hook.length + total (optsWords s.opts) + s.policy.length + total (s.sets.flatMap setWords) +
      total (s.rules.flatMap ruleWords) := by
    unfold chainWords
    simp only [total_cons, total_append]
    have : "chain".toList.length = 5 := by decide
    omega
  -- sets
  obtain ⟨decl, inl, e1, e2, _, e3⟩ := hsay.sets
  have hpay : ∀ x ∈ inlineSets s.rules, x.2.length ≤ total (s.rules.flatMap ruleWords) := by
    intro x hx
    unfold inlineSets at hx
    obtain ⟨r, hr, hx⟩ := List.mem_flatMap.mp hx
    obtain ⟨m, hm, hmx⟩ := List.mem_filterMap.mp hx
    have h1 : total (r.matchers.flatMap matcherWords) ≤ total (ruleWords r) := by
      unfold ruleWords
      simp only [total_cons, total_append]
      omega
    have h2 := total_sub (f := ruleWords) hr
    have h3 := total_sub (f := matcherWords) hm
    cases m with
    | plain _ _ _ _ => cases hmx
    | named _ _ _ _ => cases hmx
    | «inline» k n o p =>
      cases hmx
      have h4 : p.length ≤ total (matcherWords (.inline k n o p)) := total_of_mem (by simp [matcherWords])
      simp only
      omega
  have hset : ∀ x ∈ c.1.sets, SetBuilt x ∧ x.elems.length < 2 ^ 32 ∧ ∀ y, x.name = some y → IsCStr y ∧ (cstr y).length < 2 ^ 32 := by
    intro x hx
    have hx' := hx
    rw [e1] at hx'
    rcases List.mem_append.mp hx' with hx' | hx'
    · obtain ⟨d, hd, h1⟩ := each_mem e2 hx'
      have h3 := total_sub (f := setWords) hd
      have h4 : d.payload.length ≤ total (setWords d) := total_of_mem (by simp [setWords])
      have h5 : d.name.length ≤ total (setWords d) := total_of_mem (by simp [setWords])
      refine ⟨set_built (m1 x hx) h1, ?_, ?_⟩
      · have := set_elems h1
        omega
      · intro y hy
        rw [h1.1] at hy
        cases hy
        exact ⟨name_cstr (htext.sets d hd).name, by rw [cstr_length]; omega⟩
    · obtain ⟨d, hd, h1⟩ := each_mem e3 hx'
      have h4 := hpay d hd
      refine ⟨set_built (m1 x hx) h1, ?_, ?_⟩
      · have := set_elems h1
        omega
      · intro y hy
        rw [h1.1] at hy
        cases hy
  have hsl : c.1.sets.length < 2 ^ 32 := by
    have := texts_le hw hs
    rw [setTexts, List.length_append, List.length_map, List.length_map, each_length e2, each_length e3, ← List.length_append, ← e1] at this
    omega
  -- rules
  have hrl : c.1.rules.length < 2 ^ 32 := by
    rw [← each_length hsay.rules]
    have := total_count (f := ruleWords) (l := s.rules) fun r _ => by
      have : "rule".toList.length ≤ total (ruleWords r) := total_of_mem (by simp [ruleWords])
      exact Nat.le_trans (by decide) this
    omega
  have hml : ∀ r ∈ c.1.rules, r.matchers.length < 2 ^ 32 := by
    intro r hr
    obtain ⟨sr, hsr, h1⟩ := each_mem hsay.rules hr
    rw [← each_length h1.matchers]
    have h2 := total_sub (f := ruleWords) hsr
    have h3 : total (sr.matchers.flatMap matcherWords) ≤ total (ruleWords sr) := by
      unfold ruleWords
      simp only [total_cons, total_append]
      omega
    have h4 := total_count (f := matcherWords) (l := sr.matchers) fun m hm => by
      have hmt := (htext.rules sr hsr).matchers m hm
      cases m with
      | plain t n o p =>
        obtain ⟨ty, rfl, _⟩ := hmt
        have : (Doc.matcher ty).toList.length ≤ total (matcherWords (.plain (Doc.matcher ty).toList n o p)) := total_of_mem (by simp [matcherWords])
        exact Nat.le_trans (by cases ty <;> decide) this
      | named k n o p =>
        obtain ⟨_, _, hp⟩ := hmt
        have h5 : p.length ≤ total (matcherWords (.named k n o p)) := total_of_mem (by simp [matcherWords])
        have h6 : p ≠ [] := hp.1.1
        have : 0 < p.length := List.length_pos_iff.mpr h6
        omega
      | «inline» k n o p =>
        have h5 : p.length ≤ total (matcherWords (.inline k n o p)) := total_of_mem (by simp [matcherWords])
        exact Nat.le_trans (elements_pos hmt.2.2) h5
    omega
  have hmp : ∀ r ∈ c.1.rules, ∀ m ∈ r.matchers, m.payload ≠ [] ∧ m.payload.length < 2 ^ 32 := by
    intro r hr m hmm
    obtain ⟨sr, hsr, h1⟩ := each_mem hsay.rules hr
    obtain ⟨x, hx, h2⟩ := each_mem h1.matchers hmm
    have h3 := (matcher_wf ((htext.rules sr hsr).matchers x hx) (m2 r hr m hmm) h2).1
    unfold MatcherWf at h3
    split at h3
    · have h3 : m.payload.length = 4 := h3.2
      exact ⟨fun e => by simp [e] at h3, by omega⟩
    · have h4 := refSize_le m.type m.op
      have h5 : m.payload.length = m.type.refSize m.op := h3.2.2
      have h6 := h3.2.1
      exact ⟨fun e => h6 (by rw [← h5, e]; rfl), by omega⟩
  refine ⟨⟨?_, fun x hx => (hset x hx).2.2, fun x hx => (hset x hx).1, hmp, ?_, ⟨hsl, hrl, fun x hx => (hset x hx).2.1, hml⟩⟩, ?_, ?_,
    fun T hT => fits_of hT hsl (fun x hx => (hset x hx).2.1) fun x hx => (hset x hx).1⟩
  · rw [hsay.name, cstr_length]
    exact ⟨name_cstr htext.name, by omega⟩
  · intro r hr
    obtain ⟨i, hi⟩ := List.mem_iff_getElem?.mp hr
    rw [hsay.index i r hi]
    have := (List.getElem?_eq_some_iff.mp hi).1
    omega
  · exact hcopy
  · exact hookoptsAct_ok hopt fun w hw' => ⟨(hw.2.1 s' hs').opts w hw', by
      have h1 : w.length ≤ total (optsWords s'.opts) := total_of_mem (optsWords_mem hw')
      have h2 : total (chainWords s') ≤ text.length := Nat.le_trans (total_sub hs') (laid_total hw.2.2)
      have h3 : total (optsWords s'.opts) ≤ total (chainWords s') := by
        unfold chainWords
        simp only [total_cons, total_append]
        omega
      omega⟩

end Bf.Cli
