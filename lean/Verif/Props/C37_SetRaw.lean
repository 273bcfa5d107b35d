import Verif.User.SetRaw
import Verif.Props.C43_Text
/-!
# C37: sets from text
-/
namespace Bf

/-! ## Specification -/

/-- A text cut at the separators. -/
def pieces (sep : Char → Bool) : List Char → List (List Char)
  | [] => [[]]
  | c :: s =>
    if sep c then [] :: pieces sep s
    else match pieces sep s with
      | p :: ps => (c :: p) :: ps
      | [] => [[c]]

/-- The pieces that are not empty. -/
def tokens (sep : Char → Bool) (s : List Char) : List (List Char) := (pieces sep s).filter fun p => p ≠ []

/-- Two lists of the same length, related element by element. -/
inductive Each {α β : Type} (R : α → β → Prop) : List α → List β → Prop
  | nil : Each R [] []
  | cons {a : α} {b : β} {as : List α} {bs : List β} : R a b → Each R as bs → Each R (a :: as) (b :: bs)

/-- The key of a text: its pieces between parentheses and commas are the names of 1 to 8 matcher types. -/
def KeyOf (s : List Char) (key : List MType) : Prop :=
  key ≠ [] ∧ key.length ≤ 8 ∧ Each (fun p t => MType.toStr t = some (String.ofList (trim p))) (tokens (fun c => c = '(' || c = ')' || c = ',') s) key

/-- The component of an element: a text that is read, with operator `in`, as a payload of the type. -/
def CompOf (env : TextEnv) (s : List Char) (c : MType × List Byte) : Prop :=
  c.2.length = c.1.refSize .in_ ∧ ∃ buf : List Byte, buf.length = c.1.refSize .in_ ∧ parsePayload env c.1 .in_ buf (trim s) = .ok c.2

/-- The element of a text: its pieces between commas are components of the types of the key, in this order. -/
def ElemOf (env : TextEnv) (key : List MType) (s : List Char) (e : List Byte) : Prop :=
  ∃ comps : List (MType × List Byte), comps.map (·.1) = key ∧ e = (comps.map (·.2)).flatten ∧ Each (CompOf env) (tokens (· = ',') s) comps

/-- The elements of the text of a set: the pieces between braces, semicolons and ends of line that are not blank. -/
def elemTexts (s : List Char) : List (List Char) := ((tokens isElemSep s).map trim).filter fun p => p ≠ []

/-- The first piece of the text is blank. -/
def blankFirst (s : List Char) : Prop := ∃ p, (tokens isElemSep s).head? = some p ∧ trim p = []

/-! ## `strtok_r` -/

theorem pieces_ne (sep : Char → Bool) (s : List Char) : pieces sep s ≠ [] := by
  cases s with
  | nil => simp [pieces]
  | cons c s =>
    unfold pieces
    split
    · simp
    · split <;> simp

theorem tokens_sep {sep : Char → Bool} {c : Char} (h : sep c = true) (s : List Char) : tokens sep (c :: s) = tokens sep s := by
  simp [tokens, pieces, h]

theorem tokens_dropWhile (sep : Char → Bool) (s : List Char) : tokens sep (s.dropWhile sep) = tokens sep s := by
  induction s with
  | nil => rfl
  | cons c s ih =>
    rw [List.dropWhile_cons]
    split
    · next h => rw [ih, tokens_sep h]
    · rfl

theorem pieces_run {sep : Char → Bool} : ∀ (s : List Char), pieces sep s =
    s.takeWhile (fun c => !sep c) :: (match s.dropWhile (fun c => !sep c) with | [] => [] | _ :: r => pieces sep r)
  | [] => rfl
  | c :: s => by
    have ih := pieces_run (sep := sep) s
    rw [pieces]
    cases h : sep c with
    | true => simp only [h, if_true, List.takeWhile_cons, List.dropWhile_cons, Bool.not_true, Bool.false_eq_true, if_false]
    | false =>
      rw [ih]
      simp only [h, List.takeWhile_cons, List.dropWhile_cons, Bool.not_false, Bool.false_eq_true, if_false, if_true]

theorem tokens_strtok (sep : Char → Bool) (s : List Char) :
    tokens sep s = match strtok sep s with | none => [] | some (tok, rest) => tok :: tokens sep rest := by
  rw [← tokens_dropWhile]
  unfold strtok
  dsimp only
  split
  · next h =>
    split at h
    · next hn => rw [hn]; simp [tokens, pieces]
    · cases h
  · next tok rest h =>
    split at h
    · cases h
    · next hn =>
      cases h
      obtain ⟨c, t, hc⟩ := List.exists_cons_of_ne_nil hn
      have hs : sep c = false := by
        have := List.head?_dropWhile_not sep s
        rw [hc] at this
        simpa using this
      rw [tokens, pieces_run, List.filter_cons]
      rw [if_pos (by rw [hc, List.takeWhile_cons]; simp [hs])]
      congr 1
      cases hd : (s.dropWhile sep).dropWhile (fun c => !sep c) with
      | nil => simp [tokens, pieces]
      | cons d r => simp [tokens]

theorem strtok_length {sep : Char → Bool} {s tok rest : List Char} (h : strtok sep s = some (tok, rest)) : rest.length < s.length ∧ tok ≠ [] := by
  unfold strtok at h
  dsimp only at h
  split at h
  · cases h
  · next hn =>
    cases h
    obtain ⟨c, t, hc⟩ := List.exists_cons_of_ne_nil hn
    have hs : sep c = false := by
      have := List.head?_dropWhile_not sep s
      rw [hc] at this
      simpa using this
    have h1 : (s.dropWhile sep).length ≤ s.length := (List.dropWhile_sublist sep).length_le
    refine ⟨?_, ?_⟩
    · rw [hc, List.dropWhile_cons, if_pos (by simp [hs]), List.length_tail]
      rw [hc, List.length_cons] at h1
      have h2 : (t.dropWhile fun c => !sep c).length ≤ t.length := (List.dropWhile_sublist _).length_le
      omega
    · rw [hc, List.takeWhile_cons]
      simp [hs]

/-! ## The key -/

theorem Each.nil_iff {α β : Type} {R : α → β → Prop} {bs : List β} : Each R [] bs ↔ bs = [] :=
  ⟨fun h => by cases h; rfl, fun h => h ▸ .nil⟩

theorem Each.cons_iff {α β : Type} {R : α → β → Prop} {a : α} {as : List α} {bs : List β} : Each R (a :: as) bs ↔ ∃ b bs', bs = b :: bs' ∧ R a b ∧ Each R as bs' :=
  ⟨fun h => by cases h with | cons h1 h2 => exact ⟨_, _, rfl, h1, h2⟩, fun ⟨_, _, h, h1, h2⟩ => h ▸ .cons h1 h2⟩

theorem Each.length {α β : Type} {R : α → β → Prop} {as : List α} {bs : List β} (h : Each R as bs) : as.length = bs.length := by
  induction h with
  | nil => rfl
  | cons _ _ ih => simp [ih]

theorem mtype_fromStr {s : String} {t : MType} : MType.fromStr s = .ok t ↔ MType.toStr t = some s := by
  rw [C38_type.accepts]
  constructor
  · rintro ⟨n, h1, h2⟩
    rw [h1, String.toList_inj.mp h2]
  · intro h
    exact ⟨s, h, rfl⟩

theorem mtype_fromStr_noub (s : String) : MType.fromStr s ≠ .ub := by
  intro h
  by_cases hc : ∃ (a : MType) (n : String), MType.toStr a = some n ∧ s.toList = n.toList
  · obtain ⟨a, n, h1, h2⟩ := hc
    rw [(C38_type.accepts s a).mpr ⟨n, h1, h2⟩] at h
    cases h
  · rw [C38_type.refuses s hc] at h
    cases h

/-- What the loop over the key returns. -/
theorem parseKeyGo_spec : ∀ (fuel : Nat) (s : List Char) (key : List MType), s.length < fuel → key.length ≤ 8 →
    ∃ r, parseKeyGo fuel s key = some r ∧ r ≠ .ub ∧ ∀ ks, r = .ok ks ↔ ∃ more, ks = key ++ more ∧ ks ≠ [] ∧ ks.length ≤ 8 ∧
      Each (fun p t => MType.toStr t = some (String.ofList (trim p))) (tokens (fun c => c = '(' || c = ')' || c = ',') s) more
  | 0, s, key, h, _ => by omega
  | fuel + 1, s, key, h, hk => by
    unfold parseKeyGo
    rw [tokens_strtok]
    cases ht : strtok (fun c => c = '(' || c = ')' || c = ',') s with
    | none =>
      simp only
      by_cases hn : key = []
      · refine ⟨.err .EINVAL, by simp [hn], by simp, fun ks => ⟨(fun h => by cases h), ?_⟩⟩
        rintro ⟨more, rfl, h2, _, h4⟩
        rw [Each.nil_iff] at h4
        simp [hn, h4] at h2
      · refine ⟨.ok key, by simp [hn], by simp, fun ks => ⟨fun h => ?_, ?_⟩⟩
        · cases h
          exact ⟨[], by simp, hn, hk, .nil⟩
        · rintro ⟨more, rfl, h2, _, h4⟩
          rw [Each.nil_iff] at h4
          simp [h4]
    | some r =>
      obtain ⟨tok, rest⟩ := r
      have hlen := (strtok_length ht).1
      simp only
      by_cases h8 : key.length = 8
      · refine ⟨.err .E2BIG, by simp [h8], by simp, fun ks => ⟨(fun h => by cases h), ?_⟩⟩
        rintro ⟨more, rfl, _, h3, h4⟩
        have := h4.length
        simp at this h3
        omega
      · rw [if_neg h8]
        cases hf : MType.fromStr (String.ofList (trim tok)) with
        | ub => exact absurd hf (mtype_fromStr_noub _)
        | err e =>
          refine ⟨.err e, rfl, by simp, fun ks => ⟨(fun h => by cases h), ?_⟩⟩
          rintro ⟨more, rfl, _, _, h4⟩
          obtain ⟨b, bs, rfl, h5, _⟩ := Each.cons_iff.mp h4
          rw [mtype_fromStr.mpr h5] at hf
          cases hf
        | ok t =>
          obtain ⟨r, h1, h2, h3⟩ := parseKeyGo_spec fuel rest (key ++ [t]) (by omega) (by simp; omega)
          refine ⟨r, h1, h2, fun ks => ?_⟩
          rw [h3]
          constructor
          · rintro ⟨more, rfl, h4, h5, h6⟩
            exact ⟨t :: more, by simp, h4, h5, .cons (mtype_fromStr.mp hf) h6⟩
          · rintro ⟨more, rfl, h4, h5, h6⟩
            obtain ⟨b, bs, rfl, h7, h8⟩ := Each.cons_iff.mp h6
            rw [mtype_fromStr.mpr h7] at hf
            cases hf
            exact ⟨bs, by simp, by simp, by simpa using h5, h8⟩

/-- **C37**: the key: the loop ends, and a key is read if and only if it is the key of the text. -/
theorem C37_key (s : List Char) {fuel : Nat} (hf : s.length < fuel) :
    ∃ r, parseKeyGo fuel s [] = some r ∧ r ≠ .ub ∧ ∀ key, r = .ok key ↔ KeyOf s key := by
  obtain ⟨r, h1, h2, h3⟩ := parseKeyGo_spec fuel s [] hf (by simp)
  refine ⟨r, h1, h2, fun key => ?_⟩
  rw [h3]
  constructor
  · rintro ⟨more, rfl, h4, h5, h6⟩
    exact ⟨by simpa using h4, by simpa using h5, h6⟩
  · rintro ⟨h4, h5, h6⟩
    exact ⟨key, rfl, h4, h5, h6⟩

/-! ## The elements -/

theorem parsePayload_prefix {env : TextEnv} {t : MType} {op : MOp} {mem m : List Byte} {s : List Char} (hl : t.refSize op ≤ mem.length)
    (h : parsePayload env t op mem s = .ok m) :
    parsePayload env t op (mem.take (t.refSize op)) s = .ok (m.take (t.refSize op)) ∧ m.drop (t.refSize op) = mem.drop (t.refSize op) ∧
    m.length = mem.length := by
  unfold parsePayload at h ⊢
  cases hc : t.codec op with
  | none => rw [hc] at h; cases h
  | some c =>
    rw [hc] at h
    simp only at h ⊢
    cases hp : c.parse env s with
    | none => rw [hp] at h; cases h
    | some bs =>
      rw [hp] at h
      simp only [Res.ok.injEq] at h ⊢
      subst h
      have h1 := (c.parse_ok hp).1
      have h0 : t.refSize op ≠ 0 := by
        revert hc
        cases t <;> cases op <;> simp [MType.codec, MType.refSize]
      have h2 := shown_le h0
      rw [← codec_size hc, ← h1] at h2
      refine ⟨?_, ?_, ?_⟩
      · rw [overwrite, overwrite, List.take_append, List.take_of_length_le h2, List.drop_take]
      · rw [overwrite, List.drop_append, List.drop_of_length_le h2, List.nil_append, List.drop_drop]
        congr 1
        omega
      · rw [overwrite, List.length_append, List.length_drop]
        omega

theorem parsePayload_any {env : TextEnv} {t : MType} {op : MOp} {mem m mem' : List Byte} {s : List Char} (h : parsePayload env t op mem s = .ok m) :
    ∃ m', parsePayload env t op mem' s = .ok m' := by
  unfold parsePayload at h ⊢
  cases hc : t.codec op with
  | none => rw [hc] at h; cases h
  | some c =>
    rw [hc] at h
    simp only at h ⊢
    cases hp : c.parse env s with
    | none => rw [hp] at h; cases h
    | some bs => exact ⟨_, rfl⟩

/-- The sizes of the components of a key. -/
def keySize (key : List MType) : Nat := (key.map (·.refSize .in_)).sum

/-- What the loop over the components returns. -/
theorem addElemGo_spec (env : TextEnv) : ∀ (fuel : Nat) (s : List Char) (key : List MType) (built mem : List Byte), s.length < fuel → mem.length = keySize key →
    ∃ r, addElemGo env fuel s key built mem = some r ∧ r ≠ .ub ∧
      (∀ e, r = .ok e → ∃ comps : List (MType × List Byte), comps.map (·.1) = key ∧ e = built ++ (comps.map (·.2)).flatten ∧
        Each (CompOf env) (tokens (· = ',') s) comps) ∧
      ((∃ comps : List (MType × List Byte), comps.map (·.1) = key ∧ Each (CompOf env) (tokens (· = ',') s) comps) → ∃ e, r = .ok e)
  | 0, s, key, built, mem, h, _ => by omega
  | fuel + 1, s, key, built, mem, h, hm => by
    unfold addElemGo
    rw [tokens_strtok]
    cases ht : strtok (· = ',') s with
    | none =>
      simp only
      by_cases hn : key = []
      · subst hn
        have hm0 : mem = [] := List.eq_nil_of_length_eq_zero (by simpa [keySize] using hm)
        subst hm0
        refine ⟨.ok (built ++ []), by simp, by simp, fun e he => ?_, fun _ => ⟨_, rfl⟩⟩
        cases he
        exact ⟨[], rfl, by simp, .nil⟩
      · refine ⟨.err .EINVAL, by simp [hn], by simp, (fun e he => by cases he), ?_⟩
        rintro ⟨comps, h1, h2⟩
        rw [Each.nil_iff] at h2
        subst h2
        exact absurd h1.symm hn
    | some r =>
      obtain ⟨tok, rest⟩ := r
      have hlen := (strtok_length ht).1
      simp only
      cases key with
      | nil =>
        refine ⟨.err .EINVAL, rfl, by simp, (fun e he => by cases he), ?_⟩
        rintro ⟨comps, h1, h2⟩
        obtain ⟨b, bs, rfl, _⟩ := Each.cons_iff.mp h2
        cases h1
      | cons t ks =>
        simp only
        have hk : keySize (t :: ks) = t.refSize .in_ + keySize ks := rfl
        have hle : t.refSize .in_ ≤ mem.length := by omega
        cases hp : parsePayload env t .in_ mem (trim tok) with
        | ub => exact absurd hp (C43_total env t .in_ mem (trim tok)).1
        | err e =>
          refine ⟨.err e, rfl, by simp, (fun e he => by cases he), ?_⟩
          rintro ⟨comps, h1, h2⟩
          obtain ⟨b, bs, rfl, ⟨_, buf, _, h3⟩, _⟩ := Each.cons_iff.mp h2
          simp only [List.map_cons, List.cons.injEq] at h1
          rw [h1.1] at h3
          obtain ⟨m', hm'⟩ := parsePayload_any (mem' := mem) h3
          rw [hm'] at hp
          cases hp
        | ok m =>
          obtain ⟨hp1, hp2, hp3⟩ := parsePayload_prefix hle hp
          obtain ⟨r, h1, h2, h3, h4⟩ := addElemGo_spec env fuel rest ks (built ++ m.take (t.refSize .in_)) (m.drop (t.refSize .in_)) (by omega)
            (by rw [List.length_drop]; omega)
          refine ⟨r, h1, h2, fun e he => ?_, ?_⟩
          · obtain ⟨comps, h5, h6, h7⟩ := h3 e he
            refine ⟨(t, m.take (t.refSize .in_)) :: comps, by simp [h5], by simp [h6], .cons ⟨?_, mem.take (t.refSize .in_), ?_, hp1⟩ h7⟩
            · simp only [List.length_take]; omega
            · simp only [List.length_take]; omega
          · rintro ⟨comps, h5, h6⟩
            obtain ⟨b, bs, rfl, h7, h8⟩ := Each.cons_iff.mp h6
            simp only [List.map_cons, List.cons.injEq] at h5
            exact h4 ⟨bs, h5.2, h8⟩

theorem block_length (mem : Nat → Byte) (n : Nat) : (block mem n).length = n := by simp [block]

/-- **C37**: one element: the loop ends; when it succeeds, what is added is the element of the text, and it succeeds on every text that has one. -/
theorem C37_elem (env : TextEnv) (mem : Nat → Byte) {set : BSet} (hs : set.elemSize = keySize set.key) (s : List Char) {fuel : Nat} (hf : s.length < fuel) :
    ∃ r, addElemRaw env mem fuel set s = some r ∧ r ≠ .ub ∧
      (∀ set', r = .ok set' → ∃ e, ElemOf env set.key s e ∧ set' = { set with elems := addElem set.elems e }) ∧
      ((∃ e, ElemOf env set.key s e) → ∃ set', r = .ok set') := by
  obtain ⟨r, h1, h2, h3, h4⟩ := addElemGo_spec env fuel s set.key [] (block mem set.elemSize) hf (by rw [block_length, hs])
  unfold addElemRaw
  rw [h1]
  cases r with
  | ub => exact absurd rfl h2
  | err e =>
    refine ⟨.err e, rfl, by simp, (fun _ h => by cases h), ?_⟩
    rintro ⟨e', comps, h5, _, h6⟩
    obtain ⟨_, h7⟩ := h4 ⟨comps, h5, h6⟩
    cases h7
  | ok e =>
    refine ⟨_, rfl, by simp, fun set' h => ?_, fun _ => ⟨_, rfl⟩⟩
    cases h
    obtain ⟨comps, h5, h6, h7⟩ := h3 e rfl
    exact ⟨e, ⟨comps, h5, by simpa using h6, h7⟩, rfl⟩

/-! ## The set -/

theorem elemTexts_strtok (s : List Char) :
    elemTexts s = match strtok isElemSep s with | none => [] | some (tok, rest) => if trim tok = [] then elemTexts rest else trim tok :: elemTexts rest := by
  rw [elemTexts, tokens_strtok]
  cases strtok isElemSep s with
  | none => rfl
  | some r =>
    obtain ⟨tok, rest⟩ := r
    simp only [List.map_cons, List.filter_cons, elemTexts]
    by_cases h : trim tok = [] <;> simp [h]

theorem strtok_token_length {sep : Char → Bool} {s tok rest : List Char} (h : strtok sep s = some (tok, rest)) : tok.length ≤ s.length := by
  unfold strtok at h
  dsimp only at h
  split at h
  · cases h
  · cases h
    exact Nat.le_trans (List.takeWhile_sublist _).length_le (List.dropWhile_sublist _).length_le

theorem trim_length (s : List Char) : (trim s).length ≤ s.length := by
  unfold trim
  rw [List.length_reverse]
  refine Nat.le_trans (List.dropWhile_sublist _).length_le ?_
  rw [List.length_reverse]
  exact (List.dropWhile_sublist _).length_le

/-- What the loop over the elements returns, once an element has been read or if the first piece is not blank. -/
theorem newFromRawGo_spec (env : TextEnv) (mem : Nat → Nat → Byte) : ∀ (fuel : Nat) (tmp : Option (List Char)) (save : List Char) (i : Nat) (set : BSet),
    (∀ b, tmp = some b → ¬ blankFirst b) → (tmp.getD save).length + 2 ≤ fuel → set.elemSize = keySize set.key →
    ∃ r, newFromRawGo env mem fuel tmp save i set = some r ∧ r ≠ .ub ∧
      (∀ set', r = .ok set' → ∃ es, Each (ElemOf env set.key) (elemTexts (tmp.getD save)) es ∧ set' = { set with elems := es.foldl addElem set.elems }) ∧
      ((∀ t ∈ elemTexts (tmp.getD save), ∃ e, ElemOf env set.key t e) → ∃ set', r = .ok set')
  | 0, tmp, save, i, set, _, h, _ => by omega
  | fuel + 1, tmp, save, i, set, hb, h, hs => by
    unfold newFromRawGo
    rw [elemTexts_strtok]
    cases ht : strtok isElemSep (tmp.getD save) with
    | none =>
      refine ⟨.ok set, rfl, by simp, fun set' he => ?_, fun _ => ⟨_, rfl⟩⟩
      cases he
      exact ⟨[], .nil, rfl⟩
    | some r =>
      obtain ⟨tok, rest⟩ := r
      have hlen := (strtok_length ht).1
      have htok := strtok_token_length ht
      simp only
      by_cases htr : trim tok = []
      · rw [if_pos htr, if_pos htr]
        cases tmp with
        | some b =>
          exfalso
          refine hb b rfl ⟨tok, ?_, htr⟩
          have ht' : strtok isElemSep b = some (tok, rest) := ht
          rw [tokens_strtok, ht']
          rfl
        | none =>
          exact newFromRawGo_spec env mem fuel none rest i set (by intro b hb; cases hb) (by simp only [Option.getD_none] at h hlen ⊢; omega) hs
      · rw [if_neg htr, if_neg htr]
        have htl := trim_length tok
        obtain ⟨r, h1, h2, h3, h4⟩ := C37_elem env (mem i) hs (trim tok) (fuel := fuel) (by omega)
        rw [h1]
        cases r with
        | ub => exact absurd rfl h2
        | err e =>
          refine ⟨.err e, rfl, by simp, (fun _ h => by cases h), fun hall => ?_⟩
          obtain ⟨_, h5⟩ := h4 (hall _ (by simp))
          cases h5
        | ok set1 =>
          obtain ⟨e, he, hset⟩ := h3 set1 rfl
          subst hset
          simp only
          obtain ⟨r', h5, h6, h7, h8⟩ := newFromRawGo_spec env mem fuel none rest (i + 1) { set with elems := addElem set.elems e } (by intro b hb; cases hb)
            (by simp only [Option.getD_none]; omega) hs
          refine ⟨r', h5, h6, fun set' hr => ?_, fun hall => ?_⟩
          · obtain ⟨es, h9, h10⟩ := h7 set' hr
            exact ⟨e :: es, .cons he h9, h10⟩
          · exact h8 (fun t ht => hall t (List.mem_cons_of_mem _ ht))

theorem mem_takeWhile_imp {α : Type} {p : α → Bool} {l : List α} {x : α} (h : x ∈ l.takeWhile p) : p x = true := by
  induction l with
  | nil => cases h
  | cons a l ih =>
    rw [List.takeWhile_cons] at h
    split at h
    · next ha =>
      rcases List.mem_cons.mp h with rfl | h
      · exact ha
      · exact ih h
    · cases h

/-- The loop does not end when the first piece is blank. -/
theorem newFromRawGo_blank (env : TextEnv) (mem : Nat → Nat → Byte) : ∀ (fuel : Nat) (b save : List Char) (i : Nat) (set : BSet), blankFirst b →
    newFromRawGo env mem fuel (some b) save i set = none
  | 0, _, _, _, _, _ => rfl
  | fuel + 1, b, save, i, set, ⟨p, h1, h2⟩ => by
    rw [tokens_strtok] at h1
    unfold newFromRawGo
    simp only [Option.getD_some]
    cases ht : strtok isElemSep b with
    | none => rw [ht] at h1; cases h1
    | some r =>
      obtain ⟨tok, rest⟩ := r
      rw [ht] at h1
      simp only [List.head?_cons, Option.some.injEq] at h1
      subst h1
      simp only [h2, if_true, Option.map_some]
      apply newFromRawGo_blank
      refine ⟨tok, ?_, h2⟩
      have hne := (strtok_length ht).2
      have hall : ∀ c ∈ tok, isElemSep c = false := by
        unfold strtok at ht
        dsimp only at ht
        split at ht
        · cases ht
        · cases ht
          intro c hc
          have := mem_takeWhile_imp hc
          simpa using this
      have : strtok isElemSep (b.takeWhile isElemSep ++ tok) = some (tok, []) := by
        unfold strtok
        have hd : (b.takeWhile isElemSep ++ tok).dropWhile isElemSep = tok := by
          rw [List.dropWhile_append_of_pos (fun c hc => mem_takeWhile_imp hc)]
          obtain ⟨c, t, rfl⟩ := List.exists_cons_of_ne_nil hne
          rw [List.dropWhile_cons, hall c (by simp)]
          rfl
        rw [hd]
        dsimp only
        rw [if_neg hne, takeWhile_eq_self (fun c hc => by rw [hall c hc]; rfl), dropWhile_eq_nil (fun c hc => by rw [hall c hc]; rfl)]
        rfl
      rw [tokens_strtok, this]
      rfl

/-- A key sets can have: supported by the operator `in`, and a network type is alone. -/
def SetKey (key : List MType) : Prop := (∀ t ∈ key, t.refSize .in_ ≠ 0) ∧ (1 < key.length → ∀ t ∈ key, t.isNet = false)

theorem setNew_iff {name : Option String} {key : List MType} (h1 : key ≠ []) (h8 : key.length ≤ 8) :
    (SetKey key → setNew name key = .ok ⟨name, key, keySize key, key.any MType.isNet, []⟩) ∧ (¬ SetKey key → ∃ e, setNew name key = .err e) := by
  have hl : key.length ≠ 0 := by simpa using h1
  unfold setNew SetKey
  rw [if_neg hl, if_neg (by omega)]
  by_cases ha : key.any (fun t => t.refSize .in_ = 0) = true
  · rw [if_pos ha]
    refine ⟨fun h => ?_, fun _ => ⟨_, rfl⟩⟩
    simp only [List.any_eq_true, decide_eq_true_eq] at ha
    obtain ⟨t, h2, h3⟩ := ha
    exact absurd h3 (h.1 t h2)
  · rw [if_neg ha]
    by_cases hn : 1 < key.length ∧ key.any MType.isNet = true
    · rw [if_pos hn]
      refine ⟨fun h => ?_, fun _ => ⟨_, rfl⟩⟩
      obtain ⟨t, h2, h3⟩ := List.any_eq_true.mp hn.2
      rw [h.2 hn.1 t h2] at h3
      cases h3
    · rw [if_neg hn]
      refine ⟨fun _ => rfl, fun h => absurd ⟨fun t ht h0 => ha ?_, fun h2 t ht => ?_⟩ h⟩
      · exact List.any_eq_true.mpr ⟨t, ht, by simpa using h0⟩
      · cases hb : t.isNet with
        | false => rfl
        | true => exact absurd ⟨h2, List.any_eq_true.mpr ⟨t, ht, hb⟩⟩ hn

theorem mem_foldl_addElem (es acc : List (List Byte)) (e : List Byte) : e ∈ es.foldl addElem acc ↔ e ∈ acc ∨ e ∈ es := by
  induction es generalizing acc with
  | nil => simp
  | cons x es ih =>
    rw [List.foldl_cons, ih]
    unfold addElem
    split
    · next h =>
      have hx : x ∈ acc := List.contains_iff_mem.mp h
      constructor
      · rintro (h | h)
        · exact .inl h
        · exact .inr (List.mem_cons_of_mem _ h)
      · rintro (h | h)
        · exact .inl h
        · rcases List.mem_cons.mp h with rfl | h
          · exact .inl hx
          · exact .inr h
    · simp only [List.mem_append, List.mem_cons, List.not_mem_nil, or_false]
      constructor
      · rintro ((h | h) | h)
        · exact .inl h
        · exact .inr (.inl h)
        · exact .inr (.inr h)
      · rintro (h | h | h)
        · exact .inl (.inl h)
        · exact .inl (.inr h)
        · exact .inr h

theorem nodup_foldl_addElem (es acc : List (List Byte)) (h : acc.Nodup) : (es.foldl addElem acc).Nodup := by
  induction es generalizing acc with
  | nil => exact h
  | cons x es ih =>
    rw [List.foldl_cons]
    apply ih
    unfold addElem
    split
    · exact h
    · next hx =>
      have hx' : x ∉ acc := fun hc => hx (List.contains_iff_mem.mpr hc)
      rw [List.nodup_append]
      refine ⟨h, by simp, fun a ha b hb => ?_⟩
      rw [List.mem_singleton.mp hb]
      rintro rfl
      exact hx' ha

/-- **C37**, when the first piece of the text is not blank: the call returns; when it succeeds the set has the name and the key of the text,
and its elements, without duplicates, are those of the text: one for each non-blank piece, its components in the order of the key.  It succeeds
whenever the key can be read and be the key of a set and every non-blank piece can be read. -/
theorem C37_set_partial (env : TextEnv) (mem : Nat → Nat → Byte) (name : Option String) (rawKey rawPayload : List Char) (hb : ¬ blankFirst rawPayload) {fuel : Nat}
    (h1 : rawKey.length < fuel) (h2 : rawPayload.length + 2 ≤ fuel) :
    ∃ r, setNewFromRaw env mem fuel name rawKey rawPayload = some r ∧ r ≠ .ub ∧
      (∀ set, r = .ok set → KeyOf rawKey set.key ∧ SetKey set.key ∧ set.name = name ∧ set.elemSize = keySize set.key ∧
        ∃ es, Each (ElemOf env set.key) (elemTexts rawPayload) es ∧ set.elems.Nodup ∧ ∀ e, e ∈ set.elems ↔ e ∈ es) ∧
      ((∃ key, KeyOf rawKey key ∧ SetKey key ∧ ∀ t ∈ elemTexts rawPayload, ∃ e, ElemOf env key t e) → ∃ set, r = .ok set) := by
  obtain ⟨rk, hk1, hk2, hk3⟩ := C37_key rawKey h1
  unfold setNewFromRaw
  rw [hk1]
  cases rk with
  | ub => exact absurd rfl hk2
  | err e =>
    refine ⟨.err e, rfl, by simp, (fun _ h => by cases h), ?_⟩
    rintro ⟨key, h3, _⟩
    have := (hk3 key).mpr h3
    cases this
  | ok key =>
    have hkey := (hk3 key).mp rfl
    obtain ⟨hs1, hs2⟩ := setNew_iff (name := name) hkey.1 hkey.2.1
    simp only
    by_cases hsk : SetKey key
    · rw [hs1 hsk]
      simp only
      obtain ⟨r, h3, h4, h5, h6⟩ := newFromRawGo_spec env mem fuel (some rawPayload) [] 0 ⟨name, key, keySize key, key.any MType.isNet, []⟩
        (by intro b hb'; cases hb'; exact hb) h2 rfl
      refine ⟨r, h3, h4, fun set hr => ?_, ?_⟩
      · obtain ⟨es, h7, h8⟩ := h5 set hr
        subst h8
        refine ⟨hkey, hsk, rfl, rfl, es, h7, nodup_foldl_addElem es [] (by simp), fun e => ?_⟩
        rw [mem_foldl_addElem]
        simp
      · rintro ⟨key', h7, _, h9⟩
        have := (hk3 key').mpr h7
        cases this
        exact h6 h9
    · obtain ⟨e, he⟩ := hs2 hsk
      rw [he]
      refine ⟨.err e, rfl, by simp, (fun _ h => by cases h), ?_⟩
      rintro ⟨key', h7, h8, _⟩
      have := (hk3 key').mpr h7
      cases this
      exact absurd h8 hsk

theorem parseKeyGo_mono : ∀ (fuel : Nat) (s : List Char) (key : List MType) (r : Res (List MType)), parseKeyGo fuel s key = some r →
    ∀ fuel', fuel ≤ fuel' → parseKeyGo fuel' s key = some r
  | 0, _, _, _, h, _, _ => by cases h
  | fuel + 1, s, key, r, h, 0, hle => by omega
  | fuel + 1, s, key, r, h, fuel' + 1, hle => by
    unfold parseKeyGo at h ⊢
    cases ht : strtok (fun c => c = '(' || c = ')' || c = ',') s with
    | none => rw [ht] at h; exact h
    | some q =>
      obtain ⟨tok, rest⟩ := q
      rw [ht] at h
      simp only at h ⊢
      split
      · next h8 => rw [if_pos h8] at h; exact h
      · next h8 =>
        rw [if_neg h8] at h
        cases hf : MType.fromStr (String.ofList (trim tok)) with
        | ok t =>
          rw [hf] at h
          exact parseKeyGo_mono fuel rest _ r h fuel' (by omega)
        | err e => rw [hf] at h; exact h
        | ub => rw [hf] at h; exact h

/-- **C37** does not hold of a text whose first piece is blank: the call does not return. -/
theorem C37_diverges (env : TextEnv) (mem : Nat → Nat → Byte) (name : Option String) {rawKey rawPayload : List Char} {key : List MType} (hk : KeyOf rawKey key)
    (hs : SetKey key) (hb : blankFirst rawPayload) (fuel : Nat) : setNewFromRaw env mem fuel name rawKey rawPayload = none := by
  obtain ⟨rk, hk1, _, hk3⟩ := C37_key rawKey (fuel := fuel + rawKey.length + 1) (by omega)
  have hr := (hk3 key).mpr hk
  subst hr
  unfold setNewFromRaw
  cases hp : parseKeyGo fuel rawKey [] with
  | none => rfl
  | some r =>
    have := parseKeyGo_mono fuel rawKey [] r hp (fuel + rawKey.length + 1) (by omega)
    rw [hk1] at this
    cases this
    simp only
    rw [(setNew_iff (name := name) hk.1 hk.2.1).1 hs]
    exact newFromRawGo_blank env mem fuel _ _ _ _ hb

/-! ## Cases -/

/-- `"(ip4.saddr, tcp.dport)"`: a key that is read. -/
example : KeyOf "(ip4.saddr, tcp.dport)".toList [.ip4Saddr, .tcpDport] :=
  ⟨by decide, by decide, by
    rw [show tokens (fun c => c = '(' || c = ')' || c = ',') "(ip4.saddr, tcp.dport)".toList = ["ip4.saddr".toList, " tcp.dport".toList] by decide]
    exact .cons (by decide) (.cons (by decide) .nil)⟩

/-- A set that is read, with a duplicate and blank pieces. -/
example : setNewFromRaw env0 (fun _ _ => 0xaa) 100 (some "s") "(ip4.saddr, tcp.dport)".toList "{1.2.3.4, 80; 1.2.3.4,443 ;\n ;1.2.3.4,80 }".toList =
    some (.ok ⟨some "s", [.ip4Saddr, .tcpDport], 6, false, [[1, 2, 3, 4, 0, 80], [1, 2, 3, 4, 0x01, 0xbb]]⟩) := by decide +kernel
example : ¬ blankFirst "{1.2.3.4, 80; 1.2.3.4,443 ;\n ;1.2.3.4,80 }".toList := by
  rw [blankFirst, show (tokens isElemSep "{1.2.3.4, 80; 1.2.3.4,443 ;\n ;1.2.3.4,80 }".toList).head? = some "1.2.3.4, 80".toList by decide]
  rintro ⟨p, h, h2⟩
  cases h
  revert h2
  decide

/-- An element with a component missing, one too many or out of order, is refused. -/
example : setNewFromRaw env0 (fun _ _ => 0) 100 none "(ip4.saddr, tcp.dport)".toList "{1.2.3.4}".toList = some (.err .EINVAL) ∧
    setNewFromRaw env0 (fun _ _ => 0) 100 none "(ip4.saddr, tcp.dport)".toList "{1.2.3.4,80,90}".toList = some (.err .EINVAL) ∧
    setNewFromRaw env0 (fun _ _ => 0) 100 none "(ip4.saddr, tcp.dport)".toList "{80,1.2.3.4}".toList = some (.err .EINVAL) := by decide +kernel

theorem key4 : KeyOf "(ip4.saddr)".toList [.ip4Saddr] :=
  ⟨by decide, by decide, by
    rw [show tokens (fun c => c = '(' || c = ')' || c = ',') "(ip4.saddr)".toList = ["ip4.saddr".toList] by decide]
    exact .cons (by decide) .nil⟩

/-- A text on which the call does not return: a set on several lines, with its first line indented. -/
theorem C37_not_ends (env : TextEnv) (mem : Nat → Nat → Byte) (fuel : Nat) :
    setNewFromRaw env mem fuel none "(ip4.saddr)".toList "{ \n 1.2.3.4\n}".toList = none :=
  C37_diverges env mem none key4 ⟨by decide, by decide⟩ ⟨" ".toList, by decide, by decide⟩ fuel

/-- The same for a set without element, when a space stands for them. -/
theorem C37_not_ends_empty (env : TextEnv) (mem : Nat → Nat → Byte) (fuel : Nat) : setNewFromRaw env mem fuel none "(ip4.saddr)".toList "{ }".toList = none :=
  C37_diverges env mem none key4 ⟨by decide, by decide⟩ ⟨" ".toList, by decide, by decide⟩ fuel

end Bf
