import Verif.Cli.DumpWords
import Verif.Cli.DumpPayload
import Verif.Props.C38_Doc
/-!
# The sets that are printed
-/
namespace Bf.Cli.Dmp
open Spec

/-! ## Keys -/

/-- Texts, with `, ` between them. -/
def joinC : List (List Char) → List Char
  | [] => []
  | [a] => a
  | a :: as => a ++ (", ".toList ++ joinC as)

/-- The same, each but the first after a space. -/
theorem joinC_eq (a : List Char) (as : List (List Char)) : joinC (a :: as) = a ++ (as.map (' ' :: ·)).flatMap (fun d => ',' :: d) := by
  induction as generalizing a with
  | nil => simp [joinC]
  | cons b bs ih => simp [joinC, ih]

theorem keyText_eq (key : List MType) : keyText key = joinC (key.map fun t => (Doc.matcher t).toList) := by
  have h1 : ∀ t : MType, nameOr t.toStr = (Doc.matcher t).toList := fun t => by cases t <;> rfl
  induction key with
  | nil => rfl
  | cons a as ih =>
    cases as with
    | nil => simp [keyText, joinC, h1]
    | cons b bs =>
      have : keyText (a :: b :: bs) = nameOr a.toStr ++ (str ", " ++ keyText (b :: bs)) := rfl
      rw [this, ih, h1]
      rfl

def keyWord (key : List MType) : List Char := '(' :: (keyText key ++ [')'])

def wordB (c : Char) : Bool := (decide ('0' ≤ c) && decide (c ≤ '9')) || (decide ('a' ≤ c) && decide (c ≤ 'z')) || c = '_'

theorem wordB_word {c : Char} (h : wordB c = true) : WordChar c := by
  simp only [wordB, Bool.or_eq_true, Bool.and_eq_true, decide_eq_true_eq] at h
  rcases h with (h | h) | h
  · exact .inl (.inl h)
  · exact .inl (.inr (.inl h))
  · exact .inr h

/-- `ip4.saddr`. -/
theorem doc_component (t : MType) (ht : t ≠ .set) : ∃ a b, (Doc.matcher t).toList = a ++ '.' :: b ∧ Made WordChar a ∧ Made WordChar b := by
  have key : ∀ w : List Char, (∃ a b, w = a ++ '.' :: b ∧ (a ≠ [] ∧ a.all wordB = true) ∧ (b ≠ [] ∧ b.all wordB = true)) →
      ∃ a b, w = a ++ '.' :: b ∧ Made WordChar a ∧ Made WordChar b := by
    rintro w ⟨a, b, h1, ⟨h2, h3⟩, h4, h5⟩
    rw [List.all_eq_true] at h3 h5
    exact ⟨a, b, h1, ⟨h2, fun c hc => wordB_word (h3 c hc)⟩, h4, fun c hc => wordB_word (h5 c hc)⟩
  apply key
  refine ⟨(Doc.matcher t).toList.takeWhile (· ≠ '.'), ((Doc.matcher t).toList.dropWhile (· ≠ '.')).tail, ?_⟩
  cases t
  case set => exact absurd rfl ht
  all_goals exact ⟨by decide, ⟨by decide, by decide⟩, by decide, by decide⟩

theorem setKey_set {key : List MType} (h : SetKey key) : ∀ t ∈ key, t ≠ .set := by
  rintro t ht rfl
  exact h.1 _ ht rfl

theorem component_doc {x : List Char} (hx : ∀ c ∈ x, Blank c) {t : MType} (ht : t ≠ .set) : Component (x ++ (Doc.matcher t).toList) := by
  obtain ⟨a, b, h1, h2, h3⟩ := doc_component t ht
  exact ⟨x, a, b, [], by rw [h1, List.append_nil], hx, by simp, h2, h3⟩

theorem keyText_text {key : List MType} (h : key ≠ []) (hk : SetKey key) : KeyText (keyWord key) := by
  have hs := setKey_set hk
  cases key with
  | nil => exact absurd rfl h
  | cons t ts =>
    refine ⟨(Doc.matcher t).toList, (ts.map fun t => (Doc.matcher t).toList).map (' ' :: ·), ?_, ?_, ?_⟩
    · rw [keyWord, keyText_eq, List.map_cons, joinC_eq, List.append_assoc]
    · exact component_doc (x := []) (by simp) (hs _ List.mem_cons_self)
    · intro d hd
      obtain ⟨w, hw, rfl⟩ := List.mem_map.mp hd
      obtain ⟨u, hu, rfl⟩ := List.mem_map.mp hw
      exact component_doc (x := [' ']) (by simp [Blank]) (hs _ (List.mem_cons_of_mem _ hu))

/-! ## Cutting -/

theorem tokens_cut {sep : Char → Bool} {l : List Char} {c : Char} (hne : l ≠ []) (hl : ∀ x ∈ l, sep x = false) (hc : sep c = true) (t : List Char) :
    tokens sep (l ++ c :: t) = l :: tokens sep t := by
  unfold tokens
  rw [pieces_cut hl hc, List.filter_cons_of_pos (by simpa using hne)]

theorem tokens_plain {sep : Char → Bool} {l : List Char} (hne : l ≠ []) (hl : ∀ x ∈ l, sep x = false) : tokens sep l = [l] := by
  unfold tokens
  rw [pieces_plain hl, List.filter_cons_of_pos (by simpa using hne)]
  rfl

theorem tokens_skip {sep : Char → Bool} {c : Char} (h : sep c = true) (s : List Char) : tokens sep (c :: s) = tokens sep s := by
  unfold tokens
  rw [show pieces sep (c :: s) = [] :: pieces sep s by simp [pieces, h], List.filter_cons_of_neg (by simp)]

/-- A list with commas. -/
theorem tokens_commas {sep : Char → Bool} (hc : sep ',' = true) : ∀ (l : List (List Char)), (∀ w ∈ l, w ≠ [] ∧ ∀ x ∈ w, sep x = false) → ∀ (e : Char) (t : List Char), sep e = true →
    tokens sep (l.flatMap (fun d => ',' :: d) ++ e :: t) = l ++ tokens sep t
  | [], _, e, t, he => by simp [tokens_skip he]
  | w :: l, h, e, t, he => by
    have h1 := h w List.mem_cons_self
    have ih := tokens_commas hc l (fun x hx => h x (List.mem_cons_of_mem _ hx)) e t he
    simp only [List.flatMap_cons, List.cons_append, List.append_assoc]
    rw [tokens_skip hc]
    cases l with
    | nil =>
      simp only [List.flatMap_nil, List.nil_append] at ih ⊢
      rw [tokens_cut h1.1 h1.2 he]
    | cons v l =>
      simp only [List.flatMap_cons, List.cons_append, List.append_assoc] at ih ⊢
      rw [tokens_cut h1.1 h1.2 hc, ← tokens_skip hc, ih]

theorem tokens_commas' {sep : Char → Bool} (hc : sep ',' = true) : ∀ (l : List (List Char)), (∀ w ∈ l, w ≠ [] ∧ ∀ x ∈ w, sep x = false) →
    tokens sep (l.flatMap (fun d => ',' :: d)) = l
  | [], _ => by simp [tokens, pieces]
  | w :: l, h => by
    have h1 := h w List.mem_cons_self
    have ih := tokens_commas' hc l (fun x hx => h x (List.mem_cons_of_mem _ hx))
    simp only [List.flatMap_cons, List.cons_append]
    rw [tokens_skip hc]
    cases l with
    | nil =>
      simp only [List.flatMap_nil, List.append_nil]
      exact tokens_plain h1.1 h1.2
    | cons v l =>
      simp only [List.flatMap_cons, List.cons_append] at ih ⊢
      rw [tokens_cut h1.1 h1.2 hc, ← tokens_skip hc, ih]

theorem tokens_joinC {sep : Char → Bool} (hc : sep ',' = true) (hs : sep ' ' = false) {a : List Char} {l : List (List Char)} (h : ∀ w ∈ a :: l, w ≠ [] ∧ ∀ x ∈ w, sep x = false) :
    tokens sep (joinC (a :: l)) = a :: l.map (' ' :: ·) := by
  rw [joinC_eq]
  have h2 : ∀ w ∈ l.map (' ' :: ·), w ≠ [] ∧ ∀ x ∈ w, sep x = false := by
    intro w hw
    obtain ⟨v, hv, rfl⟩ := List.mem_map.mp hw
    refine ⟨by simp, fun x hx => ?_⟩
    rcases List.mem_cons.mp hx with rfl | hx
    · exact hs
    · exact (h v (List.mem_cons_of_mem _ hv)).2 x hx
  have h1 := h a List.mem_cons_self
  rw [← tokens_skip hc]
  exact tokens_commas' hc (a :: l.map (' ' :: ·)) (by
    intro w hw
    rcases List.mem_cons.mp hw with rfl | hw
    · exact h1
    · exact h2 w hw)

/-! ## Blanks around -/

theorem dropWhile_none {p : Char → Bool} {w : List Char} (h : ∀ c ∈ w, p c = false) : w.dropWhile p = w := by
  cases w with
  | nil => rfl
  | cons c w => simp [h c List.mem_cons_self]

theorem dropWhile_all {p : Char → Bool} {x w : List Char} (h : ∀ c ∈ x, p c = true) : (x ++ w).dropWhile p = w.dropWhile p := by
  induction x with
  | nil => rfl
  | cons c x ih =>
    rw [List.cons_append, List.dropWhile_cons_of_pos (h c List.mem_cons_self)]
    exact ih fun y hy => h y (List.mem_cons_of_mem _ hy)

/-- A text that neither begins nor ends with a blank. -/
def Trimmed (w : List Char) : Prop := (∀ c, w.head? = some c → isSpace c = false) ∧ ∀ c, w.getLast? = some c → isSpace c = false

theorem dropWhile_head {p : Char → Bool} {w : List Char} (h : ∀ c, w.head? = some c → p c = false) : w.dropWhile p = w := by
  cases w with
  | nil => rfl
  | cons c w => exact List.dropWhile_cons_of_neg (by simp [h c rfl])

theorem trim_trimmed {x w : List Char} (hx : ∀ c ∈ x, isSpace c = true) (h : Trimmed w) : trim (x ++ w) = w := by
  unfold trim
  rw [dropWhile_all hx, dropWhile_head h.1, dropWhile_head (by simpa using h.2), List.reverse_reverse]

theorem trimmed_plain {w : List Char} (h : ∀ c ∈ w, isSpace c = false) : Trimmed w :=
  ⟨fun c hc => h c (List.mem_of_mem_head? hc), fun c hc => h c (List.mem_of_getLast? hc)⟩

theorem trim_blanks {x : List Char} (hx : ∀ c ∈ x, isSpace c = true) : trim x = [] := by
  have := trim_trimmed (x := x) (w := []) hx ⟨by simp, by simp⟩
  rwa [List.append_nil] at this

theorem spaces_blank (n : Nat) : ∀ c ∈ List.replicate n ' ', isSpace c = true := by
  intro c hc
  rw [List.eq_of_mem_replicate hc]
  decide

/-! ## The key, read -/

theorem doc_plain (t : MType) : (Doc.matcher t).toList ≠ [] ∧ ∀ c ∈ (Doc.matcher t).toList, isSpace c = false ∧ c ≠ '(' ∧ c ≠ ')' ∧ c ≠ ',' ∧ c ≠ '\n' := by
  cases t <;> exact ⟨by decide, by decide⟩

theorem keyOf_text {key : List MType} (h : key ≠ []) (h8 : key.length ≤ 8) : KeyOf (keyWord key) key := by
  refine ⟨h, h8, ?_⟩
  cases key with
  | nil => exact absurd rfl h
  | cons t ts =>
    have sep : ∀ u : MType, ∀ x ∈ (Doc.matcher u).toList, (fun c : Char => (c = '(' || c = ')' || c = ',' : Bool)) x = false := by
      intro u x hx
      have := (doc_plain u).2 x hx
      simp [this.2.1, this.2.2.1, this.2.2.2.1]
    have e : tokens (fun c => c = '(' || c = ')' || c = ',') (keyWord (t :: ts)) = (Doc.matcher t).toList :: (ts.map fun u => (Doc.matcher u).toList).map (' ' :: ·) := by
      rw [keyWord, tokens_skip (by decide), keyText_eq, List.map_cons, joinC_eq, List.append_assoc,
        ← tokens_skip (sep := fun c => c = '(' || c = ')' || c = ',') (c := ',') (by decide)]
      have := tokens_commas (sep := fun c => c = '(' || c = ')' || c = ',') (by decide) ((Doc.matcher t).toList :: (ts.map fun u => (Doc.matcher u).toList).map (' ' :: ·)) ?_ ')' [] (by decide)
      · rw [show tokens (fun c => c = '(' || c = ')' || c = ',') [] = [] by decide, List.append_nil] at this
        rw [← this, List.flatMap_cons, List.cons_append, List.cons_append, List.append_assoc]
      · intro w hw
        rcases List.mem_cons.mp hw with rfl | hw
        · exact ⟨(doc_plain t).1, sep t⟩
        · obtain ⟨v, hv, rfl⟩ := List.mem_map.mp hw
          obtain ⟨u, _, rfl⟩ := List.mem_map.mp hv
          refine ⟨by simp, fun x hx => ?_⟩
          rcases List.mem_cons.mp hx with rfl | hx
          · decide
          · exact sep u x hx
    rw [e]
    have tr : ∀ (x : List Char) (u : MType), (∀ c ∈ x, isSpace c = true) → MType.toStr u = some (String.ofList (trim (x ++ (Doc.matcher u).toList))) := by
      intro x u hx
      rw [trim_trimmed hx (trimmed_plain fun c hc => ((doc_plain u).2 c hc).1), String.ofList_toList]
      exact C38_shown.2.2.2.1 u
    refine .cons (tr [] t (by simp)) ?_
    clear h h8 e
    induction ts with
    | nil => exact .nil
    | cons u us ih => exact .cons (tr [' '] u (by simp; decide)) ih

theorem keyWord_nl (key : List MType) : '\n' ∉ keyWord key := by
  have h : ∀ l : List (List Char), (∀ w ∈ l, '\n' ∉ w) → '\n' ∉ joinC l := by
    intro l
    induction l with
    | nil => intro _; simp [joinC]
    | cons a l ih =>
      intro h
      cases l with
      | nil => exact h a List.mem_cons_self
      | cons b l =>
        have h1 := h a List.mem_cons_self
        have h2 := ih fun w hw => h w (List.mem_cons_of_mem _ hw)
        simp only [joinC, List.mem_append, not_or]
        exact ⟨h1, by decide, h2⟩
  have := h (key.map fun t => (Doc.matcher t).toList) (by
    intro w hw
    obtain ⟨t, _, rfl⟩ := List.mem_map.mp hw
    exact fun hc => ((doc_plain t).2 _ hc).2.2.2.2 rfl)
  rw [keyWord, keyText_eq]
  simp only [List.mem_cons, List.mem_append, List.not_mem_nil, or_false, not_or]
  exact ⟨by decide, this, by decide⟩

/-! ## The elements -/

/-- The payload of a set: each element on its line. -/
def bodyWord (ind clo : Nat) (es : List (List Char)) : List Char :=
  '{' :: '\n' :: (es.flatMap (fun t => List.replicate ind ' ' ++ (t ++ ['\n'])) ++ (List.replicate clo ' ' ++ ['}']))

/-- The text of an element. -/
structure ElemWord (t : List Char) : Prop where
  some : t ≠ []
  chars : ∀ c ∈ t, isElemSep c = false ∧ c ≠ '\x00'
  trimmed : Trimmed t
  report : ¬ "counters ".toList <+: t

theorem tokens_body {ind clo : Nat} {es : List (List Char)} (h : ∀ t ∈ es, ElemWord t) (hc : 0 < clo) :
    tokens isElemSep (bodyWord ind clo es) = es.map (List.replicate ind ' ' ++ ·) ++ [List.replicate clo ' '] := by
  unfold bodyWord
  rw [tokens_skip (by decide), tokens_skip (by decide)]
  have sp : ∀ n, ∀ c ∈ List.replicate n ' ', isElemSep c = false := by
    intro n c hc
    rw [List.eq_of_mem_replicate hc]
    decide
  induction es with
  | nil =>
    simp only [List.flatMap_nil, List.nil_append, List.map_nil]
    rw [tokens_cut (by cases clo <;> simp_all [List.replicate]) (sp _) (by decide)]
    simp [tokens, pieces]
  | cons t es ih =>
    have ht := h t List.mem_cons_self
    have e : (t :: es).flatMap (fun t => List.replicate ind ' ' ++ (t ++ ['\n'])) ++ (List.replicate clo ' ' ++ ['}']) =
        (List.replicate ind ' ' ++ t) ++ '\n' :: (es.flatMap (fun t => List.replicate ind ' ' ++ (t ++ ['\n'])) ++ (List.replicate clo ' ' ++ ['}'])) := by simp
    rw [e, tokens_cut, ih fun x hx => h x (List.mem_cons_of_mem _ hx), List.map_cons, List.cons_append]
    · simpa using fun _ => ht.some
    · intro c hc
      rcases List.mem_append.mp hc with hc | hc
      · exact sp _ c hc
      · exact (ht.chars c hc).1
    · decide

theorem elemTexts_body {ind clo : Nat} {es : List (List Char)} (h : ∀ t ∈ es, ElemWord t) (hc : 0 < clo) : elemTexts (bodyWord ind clo es) = es := by
  unfold elemTexts
  rw [tokens_body h hc, List.map_append, List.map_map, List.filter_append]
  have h1 : es.map (trim ∘ (List.replicate ind ' ' ++ ·)) = es := by
    conv => rhs; rw [← List.map_id es]
    refine List.map_congr_left fun t ht => ?_
    exact trim_trimmed (spaces_blank _) (h t ht).trimmed
  rw [h1, List.filter_eq_self.mpr fun t ht => by simpa using (h t ht).some]
  simp [trim_blanks (spaces_blank clo)]

/-- The first piece is blank exactly when there is no element. -/
theorem blankFirst_body {ind clo : Nat} {es : List (List Char)} (h : ∀ t ∈ es, ElemWord t) (hc : 0 < clo) : blankFirst (bodyWord ind clo es) ↔ es = [] := by
  unfold blankFirst
  rw [tokens_body h hc]
  cases es with
  | nil => simp [trim_blanks (spaces_blank clo)]
  | cons t es =>
    have := (h t List.mem_cons_self)
    simp [trim_trimmed (spaces_blank ind) this.trimmed, this.some]

theorem body_text {ind clo : Nat} {es : List (List Char)} (h : ∀ t ∈ es, ElemWord t) : ElementsText (bodyWord ind clo es) := by
  have sp : ∀ n, ∀ c ∈ List.replicate n ' ', c ≠ '}' ∧ c ≠ '\x00' := by
    intro n c hc
    rw [List.eq_of_mem_replicate hc]
    decide
  have all : ∀ c ∈ '\n' :: (es.flatMap (fun t => List.replicate ind ' ' ++ (t ++ ['\n'])) ++ List.replicate clo ' '), c ≠ '}' ∧ c ≠ '\x00' := by
    intro c hc
    rcases List.mem_cons.mp hc with rfl | hc
    · decide
    rcases List.mem_append.mp hc with hc | hc
    · obtain ⟨t, ht, hc⟩ := List.mem_flatMap.mp hc
      rcases List.mem_append.mp hc with hc | hc
      · exact sp _ c hc
      rcases List.mem_append.mp hc with hc | hc
      · have := (h t ht).chars c hc
        refine ⟨?_, this.2⟩
        rintro rfl
        exact absurd this.1 (by decide)
      · rw [List.mem_singleton.mp hc]; decide
    · exact sp _ c hc
  refine ⟨_, ?_, fun hc => (all _ hc).1 rfl, fun hc => (all _ hc).2 rfl⟩
  simp [bodyWord]

/-! ## An element, read -/

theorem print_prefix {env : TextEnv} {ty : MType} {p rest : List Byte} (h : ty.refSize .in_ = p.length) (h0 : ty.refSize .in_ ≠ 0) :
    printPayload env ty .in_ (p ++ rest) = printPayload env ty .in_ p := by
  have tk : ∀ n, n ≤ p.length → (p ++ rest).take n = p.take n := fun n hn => List.take_append_of_le_length hn
  have dr : ∀ n, n ≤ p.length → (p ++ rest).drop n = p.drop n ++ rest := fun n hn => List.drop_append_of_le_length hn
  have td : ∀ n k, n + k ≤ p.length → ((p ++ rest).drop n).take k = (p.drop n).take k := fun n k hn => by
    rw [dr n (by omega), List.take_append_of_le_length (by rw [List.length_drop]; omega)]
  cases ty <;> simp only [MType.refSize, ne_eq, not_true_eq_false] at h h0 <;> simp only [printPayload, MType.codec, Codec.print]
  all_goals first
    | rw [td 4 4 (by omega), tk 4 (by omega)]
    | rw [td 4 16 (by omega), tk 4 (by omega)]
    | rw [tk 16 (by omega)]
    | rw [tk 4 (by omega)]
    | rw [tk 2 (by omega)]
    | rw [tk 1 (by omega)]

theorem codec_in {ty : MType} (h : ty.refSize .in_ ≠ 0) : ty.codec .in_ ≠ none := by
  obtain ⟨c, hc⟩ := codec_some h
  rw [hc]; simp

theorem isPct_in {ty : MType} (h : ty.refSize .in_ ≠ 0) : isPct ty = false := by
  revert h
  cases ty <;> simp [MType.refSize, isPct]

/-- The text of an element: its components. -/
theorem elemText_eq {env : TextEnv} : ∀ {comps : List (MType × List Byte)} {rest : List Byte}, (∀ c ∈ comps, PayloadOk c.1 .in_ c.2) →
    elemText env (comps.map (·.1)) ((comps.map (·.2)).flatten ++ rest) = .ok (joinC (comps.map fun c => printPayload env c.1 .in_ c.2))
  | [], _, _ => rfl
  | c :: cs, rest, h => by
    have hc := h c List.mem_cons_self
    have ih := elemText_eq (env := env) (comps := cs) (rest := rest) fun x hx => h x (List.mem_cons_of_mem _ hx)
    simp only [List.map_cons, List.flatten_cons, List.append_assoc, elemText, codec_in hc.supported, if_false]
    rw [← hc.size, List.drop_left, ih, print_prefix hc.size.symm hc.supported]
    cases cs with
    | nil => simp [joinC, Res.bind]
    | cons d cs => simp [joinC, Res.bind, str]

theorem comp_of {env : TextEnv} (he : TextEnvOk env) {c : MType × List Byte} (h : PayloadOk c.1 .in_ c.2) {x : List Char} (hx : ∀ a ∈ x, isSpace a = true) :
    CompOf env (x ++ printPayload env c.1 .in_ c.2) c := by
  refine ⟨h.size, c.2, h.size, ?_⟩
  have hs := safe_in (env := env) h.supported (Nat.le_of_eq h.size.symm : c.1.refSize .in_ ≤ c.2.length)
  rw [trim_trimmed hx (trimmed_plain fun a ha => simple_space (hs.simple.2 a ha)), C43_round_partial he (isPct_in h.supported) h, List.take_append_drop]

theorem joinC_chars {l : List (List Char)} {c : Char} (h : c ∈ joinC l) : c = ',' ∨ c = ' ' ∨ ∃ w ∈ l, c ∈ w := by
  induction l with
  | nil => cases h
  | cons a l ih =>
    cases l with
    | nil => exact .inr (.inr ⟨a, List.mem_cons_self, h⟩)
    | cons b l =>
      simp only [joinC, List.mem_append] at h
      rcases h with h | h | h
      · exact .inr (.inr ⟨a, List.mem_cons_self, h⟩)
      · have : ", ".toList = [',', ' '] := by decide
        rw [this] at h
        rcases List.mem_cons.mp h with rfl | h
        · exact .inl rfl
        · exact .inr (.inl (List.mem_singleton.mp h))
      · rcases ih h with rfl | rfl | ⟨w, hw, hc⟩
        · exact .inl rfl
        · exact .inr (.inl rfl)
        · exact .inr (.inr ⟨w, List.mem_cons_of_mem _ hw, hc⟩)

theorem joinC_head {a : List Char} {l : List (List Char)} (ha : a ≠ []) : (joinC (a :: l)).head? = a.head? := by
  rw [joinC_eq]
  cases a with
  | nil => exact absurd rfl ha
  | cons c a => rfl

theorem joinC_last : ∀ {l : List (List Char)}, l ≠ [] → (∀ w ∈ l, w ≠ []) → ∀ {c : Char}, (joinC l).getLast? = some c → ∃ w ∈ l, c ∈ w
  | [a], _, _, c, h => ⟨a, List.mem_cons_self, List.mem_of_getLast? h⟩
  | a :: b :: l, _, hw, c, h => by
    have hne : joinC (b :: l) ≠ [] := by
      have := joinC_head (l := l) (hw b (List.mem_cons_of_mem _ List.mem_cons_self))
      intro e
      rw [e] at this
      have hb := hw b (List.mem_cons_of_mem _ List.mem_cons_self)
      cases b with
      | nil => exact hb rfl
      | cons x b => cases this
    have h2 : (joinC (b :: l)).getLast? = some c := by
      have e : joinC (a :: b :: l) = (a ++ ", ".toList) ++ joinC (b :: l) := by rw [List.append_assoc]; rfl
      rw [e, List.getLast?_append] at h
      cases hg : (joinC (b :: l)).getLast? with
      | none => exact absurd (List.getLast?_eq_none_iff.mp hg) hne
      | some d => rw [hg] at h; exact h
    obtain ⟨w, hw', hc⟩ := joinC_last (l := b :: l) (by simp) (fun w hw' => hw w (List.mem_cons_of_mem _ hw')) h2
    exact ⟨w, List.mem_cons_of_mem _ hw', hc⟩

/-- A word that a comma ends is not one that a space ends. -/
theorem comma_prefix : ∀ (p : List Char) {a x : List Char}, (x = [] ∨ x.head? = some ',') → ' ' ∉ a → ',' ∉ p → ¬ p ++ [' '] <+: a ++ x
  | [], a, x, hx, ha, _, h => by
    cases a with
    | nil =>
      have := prefix_head h
      rw [List.nil_append] at this
      rcases hx with rfl | hx
      · cases this
      · rw [hx] at this; exact absurd this (by decide)
    | cons c a =>
      have := prefix_head h
      cases this
      exact ha List.mem_cons_self
  | d :: p, a, x, hx, ha, hp, h => by
    cases a with
    | nil =>
      have := prefix_head h
      rw [List.nil_append] at this
      rcases hx with rfl | hx
      · cases this
      · rw [hx] at this
        cases this
        exact hp List.mem_cons_self
    | cons c a =>
      rw [List.cons_append, List.cons_append, List.cons_prefix_cons] at h
      exact comma_prefix p hx (fun hc => ha (List.mem_cons_of_mem _ hc)) (fun hc => hp (List.mem_cons_of_mem _ hc)) h.2

theorem joinC_report {a : List Char} {l : List (List Char)} (h : ' ' ∉ a) : ¬ "counters ".toList <+: joinC (a :: l) := by
  rw [joinC_eq, show "counters ".toList = "counters".toList ++ [' '] by decide]
  refine comma_prefix _ ?_ h (by decide)
  cases l with
  | nil => exact .inl rfl
  | cons b l => exact .inr rfl

/-- An element is printed as a text that is read as this element. -/
theorem elem_shown {env : TextEnv} (he : TextEnvOk env) {key : List MType} (hk : key ≠ []) {e : List Byte} (h : ElemShown key e) :
    ∃ t, elemText env key e = .ok t ∧ ElemWord t ∧ ElemOf env key t e := by
  obtain ⟨comps, h1, h2, h3⟩ := h
  have ht := elemText_eq (env := env) (rest := []) h3
  rw [List.append_nil, h1, ← h2] at ht
  refine ⟨_, ht, ?_, comps, h1, h2, ?_⟩
  · have hs : ∀ w ∈ comps.map fun c => printPayload env c.1 .in_ c.2, Safe w := by
      intro w hw
      obtain ⟨c, hc, rfl⟩ := List.mem_map.mp hw
      exact safe_in (h3 c hc).supported (Nat.le_of_eq (h3 c hc).size.symm)
    have hne : (comps.map fun c => printPayload env c.1 .in_ c.2) ≠ [] := by
      intro e
      rw [List.map_eq_nil_iff] at e
      rw [e] at h1
      exact hk h1.symm
    have hall : ∀ w ∈ comps.map fun c => printPayload env c.1 .in_ c.2, w ≠ [] := fun w hw => (hs w hw).simple.1
    refine ⟨?_, fun c hc => ?_, ⟨fun c hc => ?_, fun c hc => ?_⟩, ?_⟩
    · cases hl : comps.map fun c => printPayload env c.1 .in_ c.2 with
      | nil => exact absurd hl hne
      | cons a l =>
        rw [hl] at hall
        have := hall a List.mem_cons_self
        intro e
        have h := joinC_head (l := l) this
        rw [e] at h
        cases a with
        | nil => exact this rfl
        | cons x a => cases h
    · rcases joinC_chars hc with rfl | rfl | ⟨w, hw, hc⟩
      · decide
      · decide
      · have := (hs w hw).simple.2 c hc
        refine ⟨?_, simple_ne this (by decide)⟩
        unfold isElemSep
        simp [simple_ne this (d := '{') (by decide), simple_ne this (d := '}') (by decide), simple_ne this (d := ';') (by decide), simple_ne this (d := '\n') (by decide)]
    · cases hl : comps.map fun c => printPayload env c.1 .in_ c.2 with
      | nil => exact absurd hl hne
      | cons a l =>
        rw [hl] at hall hs hc
        rw [joinC_head (hall a List.mem_cons_self)] at hc
        exact simple_space ((hs a List.mem_cons_self).simple.2 c (List.mem_of_mem_head? hc))
    · obtain ⟨w, hw, hc⟩ := joinC_last hne hall hc
      exact simple_space ((hs w hw).simple.2 c hc)
    · cases hl : comps.map fun c => printPayload env c.1 .in_ c.2 with
      | nil => exact absurd hl hne
      | cons a l =>
        rw [hl] at hs
        exact joinC_report fun hc => simple_ne ((hs a List.mem_cons_self).simple.2 _ hc) (by decide) rfl
  · cases comps with
    | nil => exact absurd h1.symm hk
    | cons c cs =>
      have hsep : ∀ d ∈ c :: cs, printPayload env d.1 .in_ d.2 ≠ [] ∧ ∀ x ∈ printPayload env d.1 .in_ d.2, (fun a : Char => decide (a = ',')) x = false := by
        intro d hd
        have := safe_in (env := env) (h3 d hd).supported (Nat.le_of_eq (h3 d hd).size.symm : d.1.refSize .in_ ≤ d.2.length)
        refine ⟨this.simple.1, fun x hx => ?_⟩
        simpa using simple_ne (this.simple.2 x hx) (d := ',') (by decide)
      rw [List.map_cons, tokens_joinC (by decide) (by decide)]
      · refine .cons (comp_of he (h3 c List.mem_cons_self) (x := []) (by simp)) ?_
        have h4 : ∀ d ∈ cs, PayloadOk d.1 .in_ d.2 := fun d hd => h3 d (List.mem_cons_of_mem _ hd)
        clear h1 h2 h3 ht hsep
        induction cs with
        | nil => exact .nil
        | cons d cs ih =>
          refine .cons (comp_of he (h4 d List.mem_cons_self) (x := [' ']) (by simp; decide)) (ih fun x hx => h4 x (List.mem_cons_of_mem _ hx))
      · intro w hw
        rcases List.mem_cons.mp hw with rfl | hw
        · exact hsep c List.mem_cons_self
        · obtain ⟨d, hd, rfl⟩ := List.mem_map.mp hw
          exact hsep d (List.mem_cons_of_mem _ hd)

/-! ## A set -/

theorem str_spaces (ind : Nat) {indent : String} (h : indent.toList = List.replicate ind ' ') (t : List Char) : str indent ++ (t ++ ['\n']) = List.replicate ind ' ' ++ (t ++ ['\n']) := by
  rw [← h]; rfl

/-- The elements are printed, and read. -/
theorem elems_shown {env : TextEnv} (he : TextEnvOk env) {s : BSet} (hk : s.key ≠ []) (h : ∀ e ∈ s.elems, ElemShown s.key e) {indent : String} {ind : Nat}
    (hi : indent.toList = List.replicate ind ' ') : ∃ ts : List (List Char), elemsText env indent s = .ok (ts.flatMap fun t => List.replicate ind ' ' ++ (t ++ ['\n'])) ∧
      (∀ t ∈ ts, ElemWord t) ∧ Each (ElemOf env s.key) ts s.elems := by
  unfold elemsText
  generalize s.elems = es at h
  induction es with
  | nil => exact ⟨[], rfl, by simp, .nil⟩
  | cons e es ih =>
    obtain ⟨ts, h1, h2, h3⟩ := ih fun x hx => h x (List.mem_cons_of_mem _ hx)
    obtain ⟨t, h4, h5, h6⟩ := elem_shown he hk (h e List.mem_cons_self)
    refine ⟨t :: ts, ?_, ?_, .cons h6 h3⟩
    · rw [List.map_cons, catAll, h1, h4, List.flatMap_cons, ← str_spaces ind hi]
      rfl
    · intro x hx
      rcases List.mem_cons.mp hx with rfl | hx
      · exact h5
      · exact h2 x hx

theorem set_says {env : TextEnv} {s : BSet} (h : SetShown s) {ind clo : Nat} {ts : List (List Char)} (hts : ∀ t ∈ ts, ElemWord t) (hclo : 0 < clo)
    (hes : Each (ElemOf env s.key) ts s.elems) : SetSays env s.name (keyWord s.key) (bodyWord ind clo ts) s :=
  ⟨rfl, keyOf_text h.key.1 h.key.2.1, h.key.2.2, s.elems, by rw [elemTexts_body hts hclo]; exact hes, h.nodup, fun _ => Iff.rfl⟩

end Bf.Cli.Dmp
