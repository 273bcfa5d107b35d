import Verif.Cli.DumpRules
/-!
# The chains that are printed
-/
namespace Bf.Cli.Dmp
open Spec

/-! ## Hook options -/

theorem validate_used {o : HookOpts} {h : Hook} (hv : validate o h = .ok ()) (t : OptType) : o.isUsed t = decide (t = needs h) := by
  obtain ⟨a, b, c, d, _, _, _, _, _⟩ := o
  revert hv
  cases h <;> cases a <;> cases b <;> cases c <;> cases d <;> cases t <;>
    simp [validate, validateList, validateOpt, OptType.vals, OptType.requiredBy, OptType.supportedBy, HookOpts.isUsed, Hook.flavor, needs, Res.bind]

/-- The value that is printed for an option. -/
def optValue (o : HookOpts) : OptType → List Char
  | .ifindex => printInt o.ifindex
  | .cgpath => nameOr o.cgpath
  | .family => if o.family = 2 then str "inet4" else str "inet6"
  | .priorities => printInt o.prio0 ++ '-' :: printInt o.prio1

def optWord (o : HookOpts) (t : OptType) : List Char := t.name.toList ++ '=' :: optValue o t

theorem optsText_eq {o : HookOpts} {h : Hook} (hv : validate o h = .ok ()) : optsText o = '{' :: (optWord o (needs h) ++ ['}']) := by
  have h1 := validate_used hv .ifindex
  have h2 := validate_used hv .cgpath
  have h3 := validate_used hv .family
  have h4 := validate_used hv .priorities
  have e1 : str "ifindex=" = (OptType.name .ifindex).toList ++ ['='] := by decide
  have e2 : str "cgpath=" = (OptType.name .cgpath).toList ++ ['='] := by decide
  have e4 : str "priorities=" = (OptType.name .priorities).toList ++ ['='] := by decide
  unfold optsText optWord
  simp only [h1, h2, h3, h4]
  cases h <;> simp [needs, optText, optValue, e1, e2, e4]

theorem printNat_zero : ∀ {n : Nat}, 0 < n → (printNat 10 n).head? ≠ some '0' := by
  intro n
  induction n using Nat.strongRecOn with
  | ind n ih =>
    intro hn
    by_cases h : n < 10
    · rw [printNat_lt h]
      have : ∀ k < 10, 0 < k → [digitChar k].head? ≠ some '0' := by decide
      exact this n h hn
    · rw [printNat_ge (by omega) (by omega), List.head?_append]
      have := ih (n / 10) (by omega) (by omega)
      cases hd : (printNat 10 (n / 10)).head? with
      | none =>
        have := List.head?_eq_none_iff.mp hd
        exact absurd this (printNat_ne _ _)
      | some c => rw [hd] at this; simpa using this

/-- A number that is printed in base 10 is one `strtoul` reads, whatever the base of texts is. -/
theorem strtoul_any {n : Nat} (hn : n < 18446744073709551616) : strtoul (printNat 10 n) 0 = ⟨n, [], false⟩ := by
  rcases Nat.eq_zero_or_pos n with rfl | h0
  · rw [printNat_lt (by omega)]; decide
  have hd := printNat_digits (b := 10) (by omega) (by omega) n
  have hz := printNat_zero h0
  have hv := digitsVal_printNat (b := 10) (by omega) (by omega) n
  obtain ⟨c, t, hct⟩ := List.exists_cons_of_ne_nil (printNat_ne 10 n)
  rw [hct] at hd hz hv ⊢
  obtain ⟨h1, h2, h3⟩ := isDigitOf_not_space (by omega) (hd c (by simp))
  have hdr : (c :: t).dropWhile isSpace = c :: t := by rw [List.dropWhile_cons, h1]; rfl
  have hc0 : c ≠ '0' := by simpa using hz
  have : strtoInt 0 (c :: t) = some (false, n, []) := by
    simp only [strtoInt, hdr, List.head?_cons, Option.some.injEq, h2, h3, or_self, decide_false, if_false, hc0, false_and, and_false, if_true]
    rw [takeWhile_eq_self hd, dropWhile_eq_nil hd, hv]
    simp
  rw [strtoul, this]
  simp [Nat.not_le.mpr hn]

theorem printInt_nat {z : Int} (h : 0 ≤ z) : printInt z = printNat 10 z.toNat := by unfold printInt; rw [if_pos h]

theorem number_print {z : Int} (h : 0 ≤ z) (h' : z ≤ 2147483647) : Number (printInt z) z.toNat := by
  rw [printInt_nat h]
  exact ⟨[], strtoul_any (by omega), by omega⟩

theorem opts_say {hook : Hook} {o : HookOpts} (h : OptsShown hook o) : HookOptsSay hook [optWord o (needs hook)] (some o) := by
  have hu := validate_used h.valid
  have hneeds : o.isUsed (needs hook) = true := by rw [hu]; simp
  have key : ∃ v, Gives (optWord o (needs hook)) (needs hook) v ∧ ValueOk (needs hook) v ∧ Records o (needs hook) v := by
    refine ⟨optValue o (needs hook), rfl, ?_⟩
    cases hn : needs hook with
    | ifindex =>
      rw [hn] at hneeds
      obtain ⟨h1, h2⟩ := h.ifindex hneeds
      exact ⟨⟨_, number_print h1 h2⟩, _, number_print h1 h2, by omega⟩
    | cgpath =>
      rw [hn] at hneeds
      obtain ⟨p, h1, h2⟩ := h.cgpath hneeds
      refine ⟨trivial, ?_⟩
      show o.cgpath = some (String.ofList (nameOr o.cgpath))
      rw [h1]
      simp [nameOr]
    | family => cases hook <;> cases hn
    | priorities =>
      rw [hn] at hneeds
      obtain ⟨h1, h2, h3, h4, h5⟩ := h.priorities hneeds
      have n0 := number_print (z := o.prio0) (by omega) h2
      have n1 := number_print (z := o.prio1) (by omega) h4
      have hd : '-' ∉ printInt o.prio0 := by
        rw [printInt_nat (by omega)]
        exact fun hc => printNat_no (by omega) (by omega) (by decide) _ hc rfl
      have hne : printInt o.prio1 ≠ [] := by
        rw [printInt_nat (by omega)]
        exact printNat_ne _ _
      exact ⟨⟨_, _, _, _, rfl, hd, hne, n0, n1, by omega, by omega, by omega⟩, _, _, _, _, rfl, hd, n0, n1, by omega, by omega⟩
  obtain ⟨v, hg, hv, hr⟩ := key
  refine .inr ⟨o, by simp, rfl, fun raw hraw => ?_, fun t ht => ⟨?_, ?_⟩⟩
  · rw [List.mem_singleton.mp hraw]; exact ⟨_, v, hg, hv, hr⟩
  · rw [times_cons hg]
    simp [times]
  · rw [hu]; simp

theorem opts_text {hook : Hook} {o : HookOpts} (h : OptsShown hook o) : OptionText (optWord o (needs hook)) ∧ '\n' ∉ optWord o (needs hook) := by
  have hu := validate_used h.valid
  have hneeds : o.isUsed (needs hook) = true := by rw [hu]; simp
  have al : ∀ z : Int, 0 ≤ z → ∀ c ∈ printInt z, WordChar c := fun z hz c hc => by
    rw [printInt_nat hz] at hc
    exact .inl ((printNat_alnum (by omega) (by omega) _).2 c hc)
  have key : Made (fun c => WordChar c ∨ c = '-' ∨ c = '.' ∨ c = '/') (optValue o (needs hook)) := by
    cases hn : needs hook with
    | ifindex =>
      rw [hn] at hneeds
      obtain ⟨h1, _⟩ := h.ifindex hneeds
      exact ⟨by show printInt o.ifindex ≠ []; rw [printInt_nat h1]; exact printNat_ne _ _, fun c hc => .inl (al _ h1 c hc)⟩
    | cgpath =>
      rw [hn] at hneeds
      obtain ⟨p, h1, h2⟩ := h.cgpath hneeds
      show Made _ (nameOr o.cgpath)
      rw [h1]
      exact h2
    | family => cases hook <;> cases hn
    | priorities =>
      rw [hn] at hneeds
      obtain ⟨h1, _, h3, _, _⟩ := h.priorities hneeds
      refine ⟨by simp [optValue], fun c hc => ?_⟩
      rcases List.mem_append.mp hc with hc | hc
      · exact .inl (al _ (by omega) c hc)
      rcases List.mem_cons.mp hc with rfl | hc
      · exact .inr (.inl rfl)
      · exact .inl (al _ (by omega) c hc)
  have nm : Made WordChar (needs hook).name.toList := by
    have key : ∀ w : List Char, w ≠ [] → w.all wordB = true → Made WordChar w := fun w h0 h1 => ⟨h0, fun c hc => wordB_word (List.all_eq_true.mp h1 c hc)⟩
    cases needs hook <;> exact key _ (by decide) (by decide)
  refine ⟨⟨_, _, rfl, nm, key⟩, nl_append (fun hc => word_ne (nm.2 _ hc) (by decide) rfl) fun hc => ?_⟩
  rcases List.mem_cons.mp hc with hc | hc
  · exact absurd hc (by decide)
  · rcases key.2 _ hc with h | h | h | h
    · exact word_ne h (by decide) rfl
    · exact absurd h (by decide)
    · exact absurd h (by decide)
    · exact absurd h (by decide)

/-! ## Sets -/

theorem decl_shown {env : TextEnv} (he : TextEnvOk env) {x : BSet} (hs : SetShown x) (hn : x.name ≠ none) :
    ∃ (s : SetS) (t : List Char), setText env false x = .ok t ∧ Shows t (setWords s) ∧ (SetText s ∧ SetSays env (some (String.ofList s.name)) s.key s.payload x ∧ (blankFirst s.payload ↔ x.elems = [])) := by
  obtain ⟨n, hn⟩ := Option.ne_none_iff_exists'.mp hn
  have hnm := hs.name n hn
  obtain ⟨ts, h1, h2, h3⟩ := elems_shown he hs.key.1 hs.elems (indent := "        ") (ind := 8) (by decide)
  have hbf := blankFirst_body (ind := 8) h2 (by decide : 0 < 4)
  have hss := set_says hs h2 (by decide : 0 < 4) h3 (ind := 8)
  rw [hn] at hss
  refine ⟨⟨n.toList, keyWord x.key, some "in".toList, bodyWord 8 4 ts⟩, _, by rw [setText, hn]; dsimp only; rw [if_neg (by simp), h1]; rfl, ?_,
    ⟨hnm, keyText_text hs.key.1 hs.key.2.2, rfl, body_text h2⟩, by rw [String.ofList_toList]; exact hss, ?_⟩
  · have e : str "    set " ++ (n.toList ++ (str " (" ++ keyText x.key)) ++ (str ") in {\n" ++ ((ts.flatMap fun t => List.replicate 8 ' ' ++ (t ++ ['\n'])) ++ str "    }\n")) =
        ("    ".toList ++ ("set".toList ++ (' ' :: (n.toList ++ (' ' :: (keyWord x.key ++ str " in {")))))) ++ ['\n'] ++
          ((ts.flatMap fun t => List.replicate 8 ' ' ++ (t ++ ['\n'])) ++ ("    }".toList ++ ['\n'])) := by
      simp [str, keyWord]
    rw [e]
    refine Shows.same ?_ ?_
    · refine Edits.append (Edits.keep ?_ ?_) (Edits.append (edits_elems (by decide) h2) (Edits.keep (by decide) ?_))
      · refine nl_append (by decide) (nl_append (by decide) fun hc => ?_)
        rcases List.mem_cons.mp hc with hc | hc
        · exact absurd hc (by decide)
        refine nl_append (nameText_nl hnm) (fun hc => ?_) hc
        rcases List.mem_cons.mp hc with hc | hc
        · exact absurd hc (by decide)
        exact nl_append (keyWord_nl _) (by decide) hc
      · exact kept_four fun c hc => by cases hc; decide
      · rw [show "    }".toList = "    ".toList ++ ['}'] by decide]
        exact kept_four fun c hc => by cases hc; decide
    · have e3 : ("    ".toList ++ ("set".toList ++ (' ' :: (n.toList ++ (' ' :: (keyWord x.key ++ str " in {")))))) ++ ['\n'] ++
          ((ts.flatMap fun t => List.replicate 8 ' ' ++ (t ++ ['\n'])) ++ ("    }".toList ++ ['\n'])) =
          "    ".toList ++ ("set".toList ++ (' ' :: (n.toList ++ (' ' :: (keyWord x.key ++ (' ' :: ("in".toList ++ (' ' :: (bodyWord 8 4 ts ++ ['\n']))))))))) := by
        simp [bodyWord, str]
      rw [e3]
      exact Chunk.after sp4 (Chunk.spaced blank_sp (Chunk.spaced blank_sp (Chunk.spaced blank_sp (Chunk.spaced blank_sp chunk_end))))
  · show blankFirst (bodyWord 8 4 ts) ↔ _
    rw [hbf]
    have := h3.length
    constructor
    · rintro rfl; exact List.eq_nil_of_length_eq_zero this.symm
    · intro e; rw [e] at this; exact List.eq_nil_of_length_eq_zero this

theorem catAll_append {a b : List (Res (List Char))} {x y : List Char} (ha : catAll a = .ok x) (hb : catAll b = .ok y) : catAll (a ++ b) = .ok (x ++ y) := by
  induction a generalizing x with
  | nil => cases ha; exact hb
  | cons r a ih =>
    simp only [catAll, List.cons_append] at ha ⊢
    cases r with
    | ok u =>
      simp only [Res.bind] at ha ⊢
      cases hc : catAll a with
      | ok v =>
        rw [hc] at ha
        cases ha
        rw [ih hc]
        simp
      | err e => rw [hc] at ha; cases ha
      | ub => rw [hc] at ha; cases ha
    | err e => cases ha
    | ub => cases ha

theorem catAll_none {env : TextEnv} : ∀ {l : List BSet}, (∀ s ∈ l, s.name = none) → catAll (l.map (setText env false)) = .ok []
  | [], _ => rfl
  | s :: l, h => by
    have h1 : setText env false s = .ok [] := by rw [setText, h s List.mem_cons_self]
    rw [List.map_cons, catAll, h1, catAll_none fun x hx => h x (List.mem_cons_of_mem _ hx)]
    rfl

theorem unnamed_none {sets : List BSet} {m : Matcher} {s : BSet} (h : unnamed sets m = some s) : s.name = none := by
  unfold unnamed at h
  split at h
  · split at h
    · rw [Option.bind_eq_some_iff] at h
      obtain ⟨x, _, hx⟩ := h
      split at hx
      next hn => cases hx; exact hn
      · cases hx
    · cases h
  · cases h

/-- What is known of an inline set and of its text. -/
def InlineFor (env : TextEnv) (d : List Char × List Char) (x : BSet) : Prop := SetSays env none d.1 d.2 x ∧ (blankFirst d.2 ↔ x.elems = [])

theorem each_append {α β : Type} {R : α → β → Prop} {a b : List α} {x y : List β} (h : Each R a x) (h' : Each R b y) : Each R (a ++ b) (x ++ y) := by
  induction h with
  | nil => exact h'
  | cons h1 _ ih => exact .cons h1 ih

theorem matchers_inline {env : TextEnv} {sets : List BSet} {ss : List MatcherS} {ms : List Matcher} (h : Each (MatcherFor env sets) ss ms) :
    Each (InlineFor env) (ss.filterMap inlineSet) (ms.filterMap (unnamed sets)) := by
  induction h with
  | nil => exact .nil
  | cons h1 _ ih =>
    rcases h1.set with ⟨h2, h3⟩ | ⟨x, k, p, h2, h3, h4, h5⟩
    · rw [List.filterMap_cons, List.filterMap_cons, h2, h3]; exact ih
    · rw [List.filterMap_cons, List.filterMap_cons, h2, h3]; exact .cons ⟨h4, h5⟩ ih

theorem rules_inline {env : TextEnv} {rate : List Char → Option Nat} {sets : List BSet} {ss : List RuleS} {rs : List Rule} (h : Each (RuleFor env rate sets) ss rs) :
    Each (InlineFor env) (inlineSets ss) ((rs.flatMap (·.matchers)).filterMap (unnamed sets)) := by
  induction h with
  | nil => exact .nil
  | cons h1 _ ih =>
    unfold inlineSets at *
    rw [List.flatMap_cons, List.flatMap_cons, List.filterMap_append]
    exact each_append (matchers_inline h1.sets) ih

theorem each_map {α β γ : Type} {R : α → β → Prop} {S : γ → β → Prop} {f : α → γ} (hf : ∀ a b, R a b → S (f a) b) {l : List α} {x : List β} (h : Each R l x) : Each S (l.map f) x := by
  induction h with
  | nil => exact .nil
  | cons h _ ih => exact .cons (hf _ _ h) ih

/-! ## A chain -/

/-- The texts of the sets of a sentence. -/
def setBodies (s : ChainS) : List (List Char) := s.sets.map (·.payload) ++ (inlineSets s.rules).map (·.2)

/-- The options of the hook. -/
def optList (c : Chain) (o : Option HookOpts) : List (List Char) := match o with | none => [] | some ho => [optWord ho (needs c.hook)]

/-- The words of the first line. -/
def headWords' (c : Chain) (o : Option HookOpts) : List (List Char) :=
  "chain".toList :: c.name.toList :: (Doc.hook c.hook).toList :: (optsWords (optList c o) ++ [(Doc.verdict c.policy).toList])

theorem head_line {c : Chain} {o : Option HookOpts} (hname : NameText c.name.toList) (hopts : ∀ ho, o = some ho → OptsShown c.hook ho) :
    ∃ l, headText c o = l ++ ['\n'] ∧ '\n' ∉ l ∧ Kept l ∧ Chunk (headWords' c o) (l ++ ['\n']) := by
  have hnm := nameText_nl hname
  have hhk : '\n' ∉ (Doc.hook c.hook).toList := by cases c.hook <;> decide
  have hvd : '\n' ∉ (Doc.verdict c.policy).toList := by cases c.policy <;> decide
  unfold headText headWords'
  rw [name_hook, name_verdict]
  cases o with
  | none =>
    have e : str "chain " ++ (c.name.toList ++ (' ' :: ((Doc.hook c.hook).toList ++ ([] ++ (' ' :: ((Doc.verdict c.policy).toList ++ ['\n'])))))) =
        ("chain".toList ++ (' ' :: (c.name.toList ++ (' ' :: ((Doc.hook c.hook).toList ++ (' ' :: (Doc.verdict c.policy).toList)))))) ++ ['\n'] := by
      have : str "chain " = "chain".toList ++ [' '] := by decide
      rw [this]; simp
    dsimp only
    rw [e]
    refine ⟨_, rfl, ?_, kept_head (c := 'c') rfl (by decide), ?_⟩
    · refine nl_append (by decide) fun hc => ?_
      rcases List.mem_cons.mp hc with hc | hc
      · exact absurd hc (by decide)
      refine nl_append hnm (fun hc => ?_) hc
      rcases List.mem_cons.mp hc with hc | hc
      · exact absurd hc (by decide)
      refine nl_append hhk (fun hc => ?_) hc
      rcases List.mem_cons.mp hc with hc | hc
      · exact absurd hc (by decide)
      · exact hvd hc
    · simp only [List.append_assoc, List.cons_append]
      exact Chunk.spaced blank_sp (Chunk.spaced blank_sp (Chunk.spaced blank_sp chunk_end))
  | some ho =>
    have hv := hopts ho rfl
    obtain ⟨_, ht⟩ := opts_text hv
    dsimp only
    rw [optsText_eq hv.valid]
    have e : str "chain " ++ (c.name.toList ++ (' ' :: ((Doc.hook c.hook).toList ++ (('{' :: (optWord ho (needs c.hook) ++ ['}'])) ++ (' ' :: ((Doc.verdict c.policy).toList ++ ['\n'])))))) =
        ("chain".toList ++ (' ' :: (c.name.toList ++ (' ' :: ((Doc.hook c.hook).toList ++ ('{' :: (optWord ho (needs c.hook) ++ ('}' :: ' ' :: (Doc.verdict c.policy).toList)))))))) ++ ['\n'] := by
      have : str "chain " = "chain".toList ++ [' '] := by decide
      rw [this]; simp
    rw [e]
    refine ⟨_, rfl, ?_, kept_head (c := 'c') rfl (by decide), ?_⟩
    · refine nl_append (by decide) fun hc => ?_
      rcases List.mem_cons.mp hc with hc | hc
      · exact absurd hc (by decide)
      refine nl_append hnm (fun hc => ?_) hc
      rcases List.mem_cons.mp hc with hc | hc
      · exact absurd hc (by decide)
      refine nl_append hhk (fun hc => ?_) hc
      rcases List.mem_cons.mp hc with hc | hc
      · exact absurd hc (by decide)
      refine nl_append ht (fun hc => ?_) hc
      rcases List.mem_cons.mp hc with hc | hc
      · exact absurd hc (by decide)
      rcases List.mem_cons.mp hc with hc | hc
      · exact absurd hc (by decide)
      · exact hvd hc
    · simp only [List.append_assoc, List.cons_append]
      refine Chunk.spaced blank_sp (Chunk.spaced blank_sp (Chunk.word sep_open ?_))
      refine Chunk.closed (w := ['{']) (c := '{') rfl sep_open ?_
      refine Chunk.word sep_brace ?_
      exact Chunk.closed (w := ['}']) (c := '}') rfl sep_brace (Chunk.after (g := [' ']) (by simp [Blank]) chunk_end)

theorem chain_shown {env : TextEnv} (he : TextEnvOk env) {rate : List Char → Option Nat} {c : Chain} {o : Option HookOpts} (h : ChainShown env rate c o) (k : Counts) :
    ∃ t s, chainDump env c o k false = .ok t ∧ Shows t (chainWords s) ∧ ChainText s ∧ ChainSays env rate s (c, o) ∧
      Each (fun p x => blankFirst p ↔ x.elems = []) (setBodies s) c.sets := by
  obtain ⟨decl, hdecl, hnamed⟩ := h.named
  obtain ⟨ss, st, h1, h2, h3⟩ := catAll_each (f := setText env false) (g := setWords)
    (P := fun s x => SetText s ∧ SetSays env (some (String.ofList s.name)) s.key s.payload x ∧ (blankFirst s.payload ↔ x.elems = [])) (l := decl)
    fun x hx => decl_shown he (h.sets x (by rw [hdecl]; exact List.mem_append_left _ hx)) (hnamed x hx)
  obtain ⟨rs, rt, h4, h5, h6⟩ := catAll_each (f := ruleText env c k false) (g := ruleWords) (P := RuleFor env rate c.sets) (l := c.rules)
    fun r hr => rule_shown he h.sets (h.rules r hr)
  have hsets : catAll (c.sets.map (setText env false)) = .ok st := by
    rw [hdecl, List.map_append, ← List.append_nil st]
    refine catAll_append h1 (catAll_none fun s hs => ?_)
    obtain ⟨m, _, hm⟩ := List.mem_filterMap.mp hs
    exact unnamed_none hm
  have hin := rules_inline h6
  refine ⟨_, ⟨c.name.toList, (Doc.hook c.hook).toList, optList c o, (Doc.verdict c.policy).toList, ss, rs⟩, by rw [chainDump, hsets, h4]; rfl, ?_, ?_, ?_, ?_⟩
  · have hcount : Shows (countersText (decide (c.hook.flavor ≠ .sockAddr)) k) [] := by
      unfold countersText
      have e : str "    counters policy " ++ (countText (decide (c.hook.flavor ≠ .sockAddr)) k.policy ++ (str "; error " ++ (countText (decide (c.hook.flavor ≠ .sockAddr)) k.error ++ ['\n']))) =
          (str "    counters policy " ++ (countText (decide (c.hook.flavor ≠ .sockAddr)) k.policy ++ (str "; error " ++ countText (decide (c.hook.flavor ≠ .sockAddr)) k.error))) ++ ['\n'] := by simp
      rw [e]
      refine ⟨[], ?_, Chunk.nil⟩
      have := Edits.line (l := str "    counters policy " ++ (countText (decide (c.hook.flavor ≠ .sockAddr)) k.policy ++ (str "; error " ++ countText (decide (c.hook.flavor ≠ .sockAddr)) k.error)))
        (nl_append (by decide) (nl_append (count_nl _ _) (nl_append (by decide) (count_nl _ _))))
      unfold editLine at this
      rw [if_pos (show "    counters policy ".toList <+: str "    counters policy " ++ _ from List.prefix_append _ _)] at this
      exact this
    obtain ⟨l, hl1, hl2, hl3, hl4⟩ := head_line h.name h.opts
    rw [hl1]
    have := (Shows.line hl2 hl3 hl4).append (hcount.append (h2.append h5))
    unfold chainWords
    simpa [headWords'] using this
  · refine ⟨h.name, ⟨c.hook, rfl⟩, fun w hw => ?_, ⟨c.policy, ?_, rfl⟩, each_left (fun _ _ h => h.1) h3, each_left (fun _ _ h => h.text) h6⟩
    · cases o with
      | none => cases hw
      | some ho =>
        rw [List.mem_singleton.mp hw]
        exact (opts_text (h.opts ho rfl)).1
    · rcases h.policy with h | h | h <;> rw [h] <;> decide
  · refine ⟨(String.ofList_toList).symm, rfl, ?_, rfl, h.policy, ⟨decl, _, hdecl, each_imp (fun _ _ h => h.2.1) h3, ?_, each_imp (fun _ _ h => h.1) hin⟩,
      each_imp (fun _ _ h => h.says) h6, h.index⟩
    · cases o with
      | none => exact .inl ⟨rfl, rfl⟩
      | some ho => exact opts_say (h.opts ho rfl)
    · exact each_left (fun _ _ h => h.1.op) h3
  · unfold setBodies
    rw [hdecl]
    refine each_append ?_ ?_
    · exact each_map (fun _ _ h => h.2.2) h3
    · exact each_map (fun _ _ h => h.2) hin

end Bf.Cli.Dmp
