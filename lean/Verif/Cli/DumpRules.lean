import Verif.Cli.DumpSets
/-!
# The rules that are printed
-/
namespace Bf.Cli.Dmp
open Spec

/-! ## Lists -/

/-- What is printed for each is what is printed for a sentence. -/
theorem catAll_each {α β : Type} {f : α → Res (List Char)} {g : β → List (List Char)} {P : β → α → Prop} : ∀ {l : List α},
    (∀ x ∈ l, ∃ s t, f x = .ok t ∧ Shows t (g s) ∧ P s x) → ∃ ss t, catAll (l.map f) = .ok t ∧ Shows t (ss.flatMap g) ∧ Each P ss l
  | [], _ => ⟨[], [], rfl, Shows.nil, .nil⟩
  | x :: l, h => by
    obtain ⟨s, t, h1, h2, h3⟩ := h x List.mem_cons_self
    obtain ⟨ss, u, h4, h5, h6⟩ := catAll_each (l := l) fun y hy => h y (List.mem_cons_of_mem _ hy)
    exact ⟨s :: ss, t ++ u, by simp only [List.map_cons, catAll, h1, h4, Res.bind], h2.append h5, .cons h3 h6⟩

/-! ## Names -/

theorem name_matcher (t : MType) : nameOr t.toStr = (Doc.matcher t).toList := by cases t <;> rfl
theorem name_op (o : MOp) : nameOr o.toStr = (Doc.op o).toList := by cases o <;> rfl
theorem name_hook (h : Hook) : nameOr h.toStr = (Doc.hook h).toList := by cases h <;> rfl
theorem name_verdict (v : Verdict) : nameOr v.toStr = (Doc.verdict v).toList := by cases v <;> rfl
theorem name_dir (d : RedirDir) : nameOr d.toStr = (Doc.direction d).toList := by cases d <;> rfl

theorem word_ne {c d : Char} (h : WordChar c) (hd : d ∈ [' ', '\t', '\n', '\x0b', '\x0c', '\r', ',', ';', '{', '}', '(', ')', '\x00', '#', '=', '%', '-']) : c ≠ d := by
  rintro rfl
  rcases h with h | rfl
  · have := alnum_nat h
    simp only [List.mem_cons, List.not_mem_nil, or_false] at hd
    rcases hd with rfl | rfl | rfl | rfl | rfl | rfl | rfl | rfl | rfl | rfl | rfl | rfl | rfl | rfl | rfl | rfl | rfl <;> exact absurd this (by decide)
  · exact absurd hd (by decide)

theorem nameText_nl {w : List Char} (h : NameText w) : '\n' ∉ w := fun hc => word_ne (h.1.2 _ hc) (by decide) rfl

/-! ## Lines -/

theorem sp8 : ∀ c ∈ "        ".toList, Blank c := by
  rw [show "        ".toList = List.replicate 8 ' ' by decide]
  intro c hc
  rw [List.eq_of_mem_replicate hc]; exact blank_sp

theorem sp4 : ∀ c ∈ "    ".toList, Blank c := by
  rw [show "    ".toList = List.replicate 4 ' ' by decide]
  intro c hc
  rw [List.eq_of_mem_replicate hc]; exact blank_sp

theorem nl_append {a b : List Char} (ha : '\n' ∉ a) (hb : '\n' ∉ b) : '\n' ∉ a ++ b := fun h => (List.mem_append.mp h).elim ha hb

/-- A line of a rule. -/
theorem shows8 {l : List Char} {ws : List (List Char)} {c : Char} (hn : '\n' ∉ l) (hh : l.head? = some c) (hc : c ≠ 'c') (h : Chunk ws (l ++ ['\n'])) :
    Shows ("        ".toList ++ (l ++ ['\n'])) ws := by
  rw [← List.append_assoc]
  refine Shows.line (nl_append (by decide) hn) (kept_head8 hh hc) ?_
  rw [List.append_assoc]
  exact Chunk.after sp8 h

theorem chunk_end {w : List Char} : Chunk [w] (w ++ ['\n']) := Chunk.spaced blank_nl Chunk.nil

/-- `not`, if it is there. -/
theorem chunk_neg {neg : Bool} {ws : List (List Char)} {s : List Char} (h : Chunk ws s) : Chunk (negWords neg ++ ws) ((if neg then str "not " else []) ++ s) := by
  cases neg with
  | false => simpa [negWords] using h
  | true =>
    have : (if true = true then str "not " else []) ++ s = "not".toList ++ ' ' :: s := rfl
    rw [this]
    exact Chunk.spaced blank_sp h

/-! ## A matcher -/

theorem keyWord_last (key : List MType) : (keyWord key).getLast? = some ')' := by
  unfold keyWord
  rw [← List.cons_append]
  exact List.getLast?_concat

theorem sep_close : Separates ')' := .inr (.inr (.inr (.inl rfl)))
theorem sep_brace : Separates '}' := .inr (.inr (.inr (.inr (.inr (.inl rfl)))))
theorem sep_open : Separates '{' := .inr (.inr (.inr (.inr (.inl rfl))))
theorem sep_comma : Separates ',' := .inr (.inr (.inr (.inr (.inr (.inr rfl)))))

/-- The lines of the elements are kept. -/
theorem edits_elems {n : Nat} (hn : 8 ≤ n) {ts : List (List Char)} (h : ∀ t ∈ ts, ElemWord t) :
    Edits (ts.flatMap fun t => List.replicate n ' ' ++ (t ++ ['\n'])) (ts.flatMap fun t => List.replicate n ' ' ++ (t ++ ['\n'])) := by
  induction ts with
  | nil => exact Edits.nil
  | cons t ts ih =>
    rw [List.flatMap_cons]
    refine Edits.append ?_ (ih fun x hx => h x (List.mem_cons_of_mem _ hx))
    have ht := h t List.mem_cons_self
    have hnl : '\n' ∉ t := fun hc => by have := (ht.chars _ hc).1; exact absurd this (by decide)
    have e : List.replicate n ' ' = "        ".toList ++ List.replicate (n - 8) ' ' := by
      rw [show "        ".toList = List.replicate 8 ' ' by decide, List.replicate_append_replicate]
      congr 1; omega
    rw [e, ← List.append_assoc]
    refine Edits.keep ?_ ?_
    · refine nl_append (nl_append (by decide) ?_) hnl
      intro hc
      exact absurd (List.eq_of_mem_replicate hc) (by decide)
    · rw [List.append_assoc]
      cases hk : n - 8 with
      | zero => exact kept_eight (by simpa using ht.report)
      | succ k => exact kept_head8 (c := ' ') (by simp [List.replicate]) (by decide)

/-- What is asked of the sentence of a matcher. -/
structure MatcherFor (env : TextEnv) (sets : List BSet) (s : MatcherS) (m : Matcher) : Prop where
  text : MatcherText s
  says : MatcherSays env sets s m
  set : (unnamed sets m = none ∧ inlineSet s = none) ∨
    ∃ x k p, unnamed sets m = some x ∧ inlineSet s = some (k, p) ∧ SetSays env none k p x ∧ (blankFirst p ↔ x.elems = [])

theorem plain_shown {env : TextEnv} (he : TextEnvOk env) {c : Chain} {m : Matcher} (ht : m.type ≠ .set) (h : PayloadShown env m) {elide : Bool} :
    ∃ s t, matcherText env c elide m = .ok t ∧ Shows t (matcherWords s) ∧ MatcherFor env c.sets s m := by
  obtain ⟨h1, h2, h3⟩ := payload_text h
  refine ⟨.plain (Doc.matcher m.type).toList m.negate (some (Doc.op m.op).toList) (printPayload env m.type m.op m.payload), _,
    by rw [matcherText, if_neg ht], ?_, ⟨m.type, rfl, ?_, h1, h2⟩, ⟨rfl, .inr rfl, rfl, h.ok.size, m.payload, h.ok.size, ?_⟩, .inl ⟨?_, rfl⟩⟩
  · rw [if_pos h.ok.supported, name_matcher, name_op]
    have e : (if m.negate then str " not" else []) ++ (' ' :: ((Doc.op m.op).toList ++ (' ' :: (printPayload env m.type m.op m.payload ++ ['\n'])))) =
        ' ' :: ((if m.negate then str "not " else []) ++ ((Doc.op m.op).toList ++ (' ' :: (printPayload env m.type m.op m.payload ++ ['\n'])))) := by
      cases m.negate <;> rfl
    rw [e]
    have e2 : str "        " ++ ((Doc.matcher m.type).toList ++ (' ' :: ((if m.negate then str "not " else []) ++ ((Doc.op m.op).toList ++ (' ' :: (printPayload env m.type m.op m.payload ++ ['\n']))))))
        = "        ".toList ++ (((Doc.matcher m.type).toList ++ (' ' :: ((if m.negate then str "not " else []) ++ ((Doc.op m.op).toList ++ (' ' :: printPayload env m.type m.op m.payload))))) ++ ['\n']) := by
      simp [str]
    rw [e2]
    have hh : ∃ d, (Doc.matcher m.type).toList.head? = some d ∧ d ≠ 'c' := by cases m.type <;> exact ⟨_, rfl, by decide⟩
    obtain ⟨d, hd, hd'⟩ := hh
    refine shows8 (c := d) ?_ ?_ hd' ?_
    · refine nl_append (fun hc => ((doc_plain _).2 _ hc).2.2.2.2 rfl) ?_
      refine fun hc => ?_
      rcases List.mem_cons.mp hc with hc | hc
      · exact absurd hc (by decide)
      refine nl_append ?_ (nl_append ?_ ?_) hc
      · cases m.negate <;> decide
      · cases m.op <;> decide
      · intro hc
        rcases List.mem_cons.mp hc with hc | hc
        · exact absurd hc (by decide)
        · exact h3 hc
    · rw [List.head?_append, hd]; rfl
    · have e3 : ((Doc.matcher m.type).toList ++ (' ' :: ((if m.negate then str "not " else []) ++ ((Doc.op m.op).toList ++ (' ' :: printPayload env m.type m.op m.payload))))) ++ ['\n'] =
          (Doc.matcher m.type).toList ++ (' ' :: ((if m.negate then str "not " else []) ++ ((Doc.op m.op).toList ++ (' ' :: (printPayload env m.type m.op m.payload ++ ['\n']))))) := by simp
      rw [e3]
      exact Chunk.spaced blank_sp (chunk_neg (Chunk.spaced blank_sp chunk_end))
  · intro w hw
    cases hw
    exact ⟨m.op, h.op, rfl⟩
  · rw [C43_round_partial he h.pct h.ok, List.take_append_drop]
  · unfold unnamed; rw [if_neg ht]

theorem set_shown {env : TextEnv} (he : TextEnvOk env) {c : Chain} (hsets : ∀ s ∈ c.sets, SetShown s) {m : Matcher} (ht : m.type = .set) (h : SetMatcherShown c.sets m) :
    ∃ s t, matcherText env c false m = .ok t ∧ Shows t (matcherWords s) ∧ MatcherFor env c.sets s m := by
  obtain ⟨hop, i, x, ⟨hi, hx⟩, hfirst⟩ := h
  have hmem : x ∈ c.sets := List.mem_of_getElem? hx
  have hs := hsets x hmem
  have hf : c.setFor m = .ok (some (i, x)) := by
    unfold Chain.setFor
    rw [if_neg (by simpa using ht), hi]
    simp [Res.bind, hx]
  have hmt : matcherText env c false m = (setMatcherText env false m.negate x).bind fun t => .ok (t ++ ['\n']) := by
    unfold matcherText
    rw [if_pos ht, hf]
    rfl
  have neg_eq : ∀ s : List Char, (if m.negate then str "not in" else str "in") ++ s = (if m.negate then str "not " else []) ++ ("in".toList ++ s) := by
    intro s; cases m.negate <;> rfl
  have hun : unnamed c.sets m = if x.name = none then some x else none := by
    unfold unnamed
    rw [if_pos ht, hi]
    dsimp only
    rw [hx]
    rfl
  have negnl : '\n' ∉ (if m.negate then str "not " else []) := by cases m.negate <;> decide
  cases hn : x.name with
  | some n =>
    have hnm := hs.name n hn
    refine ⟨.named (keyWord x.key) m.negate (some "in".toList) n.toList, _, by rw [hmt, setMatcherText, hn]; rfl, ?_,
      ⟨keyText_text hs.key.1 hs.key.2.2, rfl, hnm⟩,
      ⟨rfl, ht, hop, rfl, i, x, hi, hx, by rw [hn, String.ofList_toList], keyOf_text hs.key.1 hs.key.2.1, fun j s' hj hs' => by rw [String.ofList_toList]; exact hfirst n hn j s' hj hs'⟩,
      .inl ⟨by rw [hun, hn]; rfl, rfl⟩⟩
    have e : (str "        (" ++ keyText x.key ++ (str ") " ++ ((if m.negate then str "not in" else str "in") ++ (' ' :: n.toList)))) ++ ['\n'] =
        "        ".toList ++ ((keyWord x.key ++ (' ' :: ((if m.negate then str "not " else []) ++ ("in".toList ++ (' ' :: n.toList))))) ++ ['\n']) := by
      rw [neg_eq]
      simp [str, keyWord]
    rw [e]
    refine shows8 (c := '(') ?_ rfl (by decide) ?_
    · refine nl_append (keyWord_nl _) fun hc => ?_
      rcases List.mem_cons.mp hc with hc | hc
      · exact absurd hc (by decide)
      refine nl_append negnl (nl_append (by decide) fun hc => ?_) hc
      rcases List.mem_cons.mp hc with hc | hc
      · exact absurd hc (by decide)
      · exact nameText_nl hnm hc
    · have e3 : (keyWord x.key ++ (' ' :: ((if m.negate then str "not " else []) ++ ("in".toList ++ (' ' :: n.toList))))) ++ ['\n'] =
          keyWord x.key ++ (' ' :: ((if m.negate then str "not " else []) ++ ("in".toList ++ (' ' :: (n.toList ++ ['\n']))))) := by simp
      rw [e3]
      exact Chunk.spaced blank_sp (chunk_neg (Chunk.spaced blank_sp chunk_end))
  | none =>
    obtain ⟨ts, h1, h2, h3⟩ := elems_shown he hs.key.1 hs.elems (indent := "            ") (ind := 12) (by decide)
    have hbf := blankFirst_body (ind := 12) h2 (by decide : 0 < 8)
    have hss := set_says hs h2 (by decide : 0 < 8) h3 (ind := 12)
    rw [hn] at hss
    refine ⟨.inline (keyWord x.key) m.negate (some "in".toList) (bodyWord 12 8 ts), _, by rw [hmt, setMatcherText, hn, h1]; rfl, ?_,
      ⟨keyText_text hs.key.1 hs.key.2.2, rfl, body_text h2⟩,
      ⟨rfl, ht, hop, rfl, i, x, hi, hx, hss⟩,
      .inr ⟨x, _, _, by rw [hun, if_pos hn], rfl, hss, ?_⟩⟩
    · have e : (str "        (" ++ keyText x.key ++ (str ") " ++ ((if m.negate then str "not in" else str "in") ++ (str " {\n" ++
          ((ts.flatMap fun t => List.replicate 12 ' ' ++ (t ++ ['\n'])) ++ str "        }"))))) ++ ['\n'] =
          ("        ".toList ++ (keyWord x.key ++ (' ' :: ((if m.negate then str "not " else []) ++ ("in".toList ++ str " {"))))) ++ ['\n'] ++
            ((ts.flatMap fun t => List.replicate 12 ' ' ++ (t ++ ['\n'])) ++ ("        }".toList ++ ['\n'])) := by
        rw [neg_eq]
        simp [str, keyWord]
      rw [e]
      refine Shows.same ?_ ?_
      · refine Edits.append (Edits.keep ?_ ?_) (Edits.append (edits_elems (by decide) h2) (Edits.keep (by decide) ?_))
        · refine nl_append (by decide) (nl_append (keyWord_nl _) fun hc => ?_)
          rcases List.mem_cons.mp hc with hc | hc
          · exact absurd hc (by decide)
          exact nl_append negnl (nl_append (by decide) (by decide)) hc
        · exact kept_head8 (c := '(') rfl (by decide)
        · rw [show "        }".toList = "        ".toList ++ ['}'] by decide]
          exact kept_head8 (c := '}') rfl (by decide)
      · have e3 : ("        ".toList ++ (keyWord x.key ++ (' ' :: ((if m.negate then str "not " else []) ++ ("in".toList ++ str " {"))))) ++ ['\n'] ++
            ((ts.flatMap fun t => List.replicate 12 ' ' ++ (t ++ ['\n'])) ++ ("        }".toList ++ ['\n'])) =
            "        ".toList ++ (keyWord x.key ++ (' ' :: ((if m.negate then str "not " else []) ++ ("in".toList ++ (' ' :: (bodyWord 12 8 ts ++ ['\n'])))))) := by
          simp [bodyWord, str]
        rw [e3]
        exact Chunk.after sp8 (Chunk.spaced blank_sp (chunk_neg (Chunk.spaced blank_sp chunk_end)))
    · rw [hbf]
      have := h3.length
      constructor
      · rintro rfl; exact List.eq_nil_of_length_eq_zero this.symm
      · intro e; rw [e] at this; exact List.eq_nil_of_length_eq_zero this

theorem matcher_shown {env : TextEnv} (he : TextEnvOk env) {c : Chain} (hsets : ∀ s ∈ c.sets, SetShown s) {m : Matcher} (h : MatcherShown env c.sets m) :
    ∃ s t, matcherText env c false m = .ok t ∧ Shows t (matcherWords s) ∧ MatcherFor env c.sets s m := by
  by_cases ht : m.type = .set
  · exact set_shown he hsets ht (h.1 ht)
  · exact plain_shown he ht (h.2 ht)

/-! ## `log` -/

/-- The layers that are logged, in order. -/
def layerNames (v : BitVec 8) : List (List Char) := ([0, 1, 2].filter fun n => v.getLsbD n).map fun n => nameOr (logOptToStr n)

/-- Words, with commas. -/
def joinK : List (List Char) → List Char
  | [] => []
  | [a] => a
  | a :: as => a ++ (',' :: joinK as)

theorem chunk_heads {ws : List (List Char)} {c : Char} {s : List Char} (hc : Separates c) (h : Chunk ws (c :: s)) :
    ∀ {hs : List (List Char)}, hs ≠ [] → Chunk (headWords hs ++ ws) (joinK hs ++ c :: s)
  | [a], _ => Chunk.word hc h
  | a :: b :: hs, _ => by
    have ih := chunk_heads hc h (hs := b :: hs) (by simp)
    have e : joinK (a :: b :: hs) ++ c :: s = a ++ (',' :: (joinK (b :: hs) ++ c :: s)) := by simp [joinK]
    have e2 : headWords (a :: b :: hs) ++ ws = a :: ([','] :: (headWords (b :: hs) ++ ws)) := by simp [headWords]
    rw [e, e2]
    refine Chunk.word sep_comma ?_
    exact Chunk.closed (w := [',']) (c := ',') rfl sep_comma ih

theorem layers_ok : ∀ v : BitVec 8, v.toNat < 8 → v ≠ 0 → layersText 3 0 v = joinK (layerNames v) ∧ layerNames v ≠ [] ∧ '\n' ∉ joinK (layerNames v) := by
  decide +kernel

theorem layer_safe : ∀ n ∈ [0, 1, 2], safeB (nameOr (logOptToStr n)) = true ∧ (nameOr (logOptToStr n)).all wordB = true ∧ nameOr (logOptToStr n) ≠ [] := by decide +kernel

theorem layer_name {v : BitVec 8} {h : List Char} (hh : h ∈ layerNames v) : NameText h := by
  obtain ⟨n, hn, rfl⟩ := List.mem_map.mp hh
  have := layer_safe n (List.mem_filter.mp hn).1
  refine ⟨⟨this.2.2, fun c hc => wordB_word (List.all_eq_true.mp this.2.1 c hc)⟩, (safe_of this.1).2.free⟩

theorem layer_doc : ∀ n ∈ [0, 1, 2], ∃ x, Doc.log n = some x ∧ String.ofList (nameOr (logOptToStr n)) = x := by
  intro n hn
  simp only [List.mem_cons, List.not_mem_nil, or_false] at hn
  rcases hn with rfl | rfl | rfl
  · exact ⟨"link", rfl, by decide⟩
  · exact ⟨"internet", rfl, by decide⟩
  · exact ⟨"transport", rfl, by decide⟩

theorem doc_log_small {n : Nat} {x : String} (h : Doc.log n = some x) : n ∈ [0, 1, 2] := by
  match n, h with
  | 0, _ => decide
  | 1, _ => decide
  | 2, _ => decide

theorem doc_log_lower : ∀ n ∈ [0, 1, 2], ∀ k ∈ [0, 1, 2], (Doc.log n).map lower = (Doc.log k).map lower → n = k := by decide +kernel

theorem log_says {v : BitVec 8} (hv : v.toNat < 8) (h0 : v ≠ 0) : LogSays (layerNames v) v := by
  refine .inr ⟨(layers_ok v hv h0).2.1, fun h hh => ?_, fun n => ⟨fun hn => ?_, ?_⟩⟩
  · obtain ⟨n, hn, rfl⟩ := List.mem_map.mp hh
    obtain ⟨x, hx, he⟩ := layer_doc n (List.mem_filter.mp hn).1
    exact ⟨n, x, hx, by rw [he]⟩
  · have h3 : n < 3 := by
      apply Classical.byContradiction
      intro hge
      have : v.getLsbD n = false := by
        rw [BitVec.getLsbD, Nat.testBit_lt_two_pow]
        exact Nat.lt_of_lt_of_le hv (Nat.pow_le_pow_right (n := 2) (by decide) (by omega : 3 ≤ n))
      rw [this] at hn; cases hn
    have hm : n ∈ [0, 1, 2] := by
      match n, h3 with
      | 0, _ => decide
      | 1, _ => decide
      | 2, _ => decide
    obtain ⟨x, hx, he⟩ := layer_doc n hm
    exact ⟨_, List.mem_map.mpr ⟨n, List.mem_filter.mpr ⟨hm, hn⟩, rfl⟩, x, hx, by rw [he]⟩
  · rintro ⟨h, hh, x, hx, hl⟩
    obtain ⟨k, hk, rfl⟩ := List.mem_map.mp hh
    obtain ⟨hk1, hk2⟩ := List.mem_filter.mp hk
    obtain ⟨y, hy, he⟩ := layer_doc k hk1
    rw [he] at hl
    have := doc_log_lower n (doc_log_small hx) k hk1 (by rw [hx, hy, Option.map_some, Option.map_some, hl])
    rw [this]
    exact hk2

theorem rate_unit (r : Nat) : ∃ a u, rateWord r = a ++ u ∧ Made Digit a ∧ Made Lower u := by
  have lo : ∀ u ∈ ["s".toList, "ms".toList, "us".toList, "ns".toList], Made Lower u := by
    intro u hu
    simp only [List.mem_cons, List.not_mem_nil, or_false] at hu
    have key : ∀ u : List Char, u ≠ [] → (u.all fun c => decide ('a' ≤ c) && decide (c ≤ 'z')) = true → Made Lower u := by
      intro u h0 h
      refine ⟨h0, fun c hc => ?_⟩
      have := List.all_eq_true.mp h c hc
      simpa [Lower] using this
    rcases hu with rfl | rfl | rfl | rfl <;> exact key _ (by decide) (by decide)
  unfold rateWord
  split
  · exact ⟨_, _, rfl, printNat_digit _, lo _ (by decide)⟩
  split
  · exact ⟨_, _, rfl, printNat_digit _, lo _ (by decide)⟩
  split
  · exact ⟨_, _, rfl, printNat_digit _, lo _ (by decide)⟩
  · exact ⟨_, _, rfl, printNat_digit _, lo _ (by decide)⟩

theorem digit_simple {c : Char} (h : Digit c) : Simple c := .inl (.inl h)
theorem lower_simple {c : Char} (h : Lower c) : Simple c := .inl (.inr (.inl h))

theorem rate_nl (r : Nat) : '\n' ∉ rateWord r := by
  obtain ⟨a, u, h, ha, hu⟩ := rate_unit r
  rw [h]
  exact nl_append (fun hc => simple_ne (digit_simple (ha.2 _ hc)) (by decide) rfl) (fun hc => simple_ne (lower_simple (hu.2 _ hc)) (by decide) rfl)

def rateOf (r : Rule) : Option (List Char) := if r.rate = 0 then none else some (rateWord r.rate.toNat)

def logOptions (r : Rule) : List OptionS := if r.log = 0 then [] else [.log (if r.log = logOptDefault then [] else layerNames r.log) (rateOf r)]

theorem rate_chunk (r : Rule) : Chunk (match rateOf r with | none => [] | some w => ["every".toList, w]) ((if r.rate = 0 then [] else str " every " ++ rateWord r.rate.toNat) ++ ['\n']) := by
  unfold rateOf
  by_cases h : r.rate = 0
  · rw [if_pos h, if_pos h]
    exact Chunk.blanks (by simp [Blank])
  · rw [if_neg h, if_neg h]
    have e : str " every " ++ rateWord r.rate.toNat ++ ['\n'] = [' '] ++ ("every".toList ++ ' ' :: (rateWord r.rate.toNat ++ ['\n'])) := by
      have : str " every " = [' '] ++ ("every".toList ++ [' ']) := by decide
      rw [this]; simp
    rw [e]
    exact Chunk.after (by simp [Blank]) (Chunk.spaced blank_sp chunk_end)

theorem rate_line_nl (r : Rule) : '\n' ∉ (if r.rate = 0 then [] else str " every " ++ rateWord r.rate.toNat) := by
  split
  · simp
  · exact nl_append (by decide) (rate_nl _)

/-- The line ends, or goes on after a space. -/
theorem rate_sep (r : Rule) : ∃ c s, ((if r.rate = 0 then [] else str " every " ++ rateWord r.rate.toNat) ++ ['\n']) = c :: s ∧ Separates c := by
  split
  · exact ⟨_, _, rfl, sep_blank blank_nl⟩
  · exact ⟨' ', "every ".toList ++ (rateWord r.rate.toNat ++ ['\n']), by
      have : str " every " = ' ' :: "every ".toList := by decide
      rw [this]; simp, sep_blank blank_sp⟩

theorem log_shown {r : Rule} (h : r.log = 0xFF#8 ∨ r.log.toNat < 8) : Shows (logText r) ((logOptions r).flatMap optionWords) ∧ ∀ o ∈ logOptions r, OptionOk o := by
  unfold logText logOptions
  by_cases h0 : r.log = 0
  · rw [if_pos h0, if_pos h0]
    exact ⟨Shows.nil, by simp⟩
  rw [if_neg h0, if_neg h0]
  refine ⟨?_, ?_⟩
  · rw [List.flatMap_cons, List.flatMap_nil, List.append_nil]
    obtain ⟨c, s, hcs, hc⟩ := rate_sep r
    have hrc := rate_chunk r
    rw [hcs] at hrc
    by_cases hd : r.log = logOptDefault
    · rw [if_pos hd, if_pos hd]
      have e : str "        log" ++ ((if r.rate = 0 then [] else str " every " ++ rateWord r.rate.toNat) ++ ['\n']) =
          "        ".toList ++ (("log".toList ++ (if r.rate = 0 then [] else str " every " ++ rateWord r.rate.toNat)) ++ ['\n']) := by
        have : str "        log" = "        ".toList ++ "log".toList := by decide
        rw [this]; simp only [List.append_assoc]
      rw [e]
      refine shows8 (c := 'l') (nl_append (by decide) (rate_line_nl r)) rfl (by decide) ?_
      rw [List.append_assoc, hcs]
      exact Chunk.word hc hrc
    · rw [if_neg hd, if_neg hd]
      have hlt : r.log.toNat < 8 := h.resolve_left fun e => hd e
      obtain ⟨h1, h2, h3⟩ := layers_ok r.log hlt h0
      rw [h1]
      have e : str "        log " ++ joinK (layerNames r.log) ++ ((if r.rate = 0 then [] else str " every " ++ rateWord r.rate.toNat) ++ ['\n']) =
          "        ".toList ++ (("log".toList ++ (' ' :: (joinK (layerNames r.log) ++ (if r.rate = 0 then [] else str " every " ++ rateWord r.rate.toNat)))) ++ ['\n']) := by
        have : str "        log " = "        ".toList ++ ("log".toList ++ [' ']) := by decide
        rw [this]; simp only [List.append_assoc, List.cons_append, List.nil_append]
      rw [e]
      refine shows8 (c := 'l') (nl_append (by decide) fun hx => ?_) rfl (by decide) ?_
      · rcases List.mem_cons.mp hx with hx | hx
        · exact absurd hx (by decide)
        · exact nl_append h3 (rate_line_nl r) hx
      · rw [List.append_assoc, List.cons_append, List.append_assoc, hcs]
        exact Chunk.spaced blank_sp (chunk_heads hc hrc h2)
  · intro o ho
    rw [List.mem_singleton.mp ho]
    refine ⟨fun x hx => ?_, fun w hw => ?_⟩
    · split at hx
      · cases hx
      · exact layer_name hx
    · unfold rateOf at hw
      split at hw
      · cases hw
      · cases hw
        obtain ⟨a, u, h1, h2, h3⟩ := rate_unit r.rate.toNat
        exact ⟨a, u, h1, .inl h2, h3⟩

/-! ## `mark`, `counter` -/

def markOptions (r : Rule) : List OptionS := if r.markSet then [.mark (printHex r.markVal.toNat)] else []

theorem safe_number {w : List Char} (h : Made Alnum w) (hs : Safe w) : NumberText w ∧ ¬ Reserved w := ⟨h, hs.free⟩

theorem mark_shown (r : Rule) : Shows (markText r) ((markOptions r).flatMap optionWords) ∧ ∀ o ∈ markOptions r, OptionOk o := by
  unfold markText markOptions
  by_cases h : r.markSet = true
  · rw [if_pos h, if_pos h]
    refine ⟨?_, fun o ho => ?_⟩
    · have e : str "        mark " ++ (printHex r.markVal.toNat ++ ['\n']) = "        ".toList ++ (("mark".toList ++ (' ' :: printHex r.markVal.toNat)) ++ ['\n']) := by
        have : str "        mark " = "        ".toList ++ ("mark".toList ++ [' ']) := by decide
        rw [this]; simp only [List.append_assoc, List.cons_append, List.nil_append]
      rw [e]
      refine shows8 (c := 'm') (nl_append (by decide) fun hx => ?_) rfl (by decide) ?_
      · rcases List.mem_cons.mp hx with hx | hx
        · exact absurd hx (by decide)
        · exact safe_nl (safe_hex' _) hx
      · rw [List.append_assoc, List.cons_append]
        exact Chunk.spaced blank_sp chunk_end
    · rw [List.mem_singleton.mp ho]
      exact safe_number (printHex_alnum _) (safe_hex' _)
  · rw [if_neg h, if_neg h]
    exact ⟨Shows.nil, by simp⟩

def counterOptions (r : Rule) : List OptionS := if r.hasCounters then [.counter] else []

theorem count_nl (pkt : Bool) (n : Nat × Nat) : '\n' ∉ countText pkt n := by
  have d : ∀ k, '\n' ∉ printNat 10 k := fun k => safe_nl (safe_dec' k)
  unfold countText
  split
  · exact nl_append (d _) (nl_append (by decide) (nl_append (d _) (by decide)))
  · exact nl_append (d _) (by decide)

theorem counter_shown (pkt : Bool) (n : Nat × Nat) (r : Rule) : Shows (ruleCountText pkt n r) ((counterOptions r).flatMap optionWords) := by
  unfold ruleCountText counterOptions
  by_cases h : r.hasCounters = true
  · rw [if_pos h, if_pos h, ← List.append_assoc]
    refine ⟨"        counter\n".toList, ?_, ?_⟩
    · have := Edits.line (l := str "        counters " ++ countText pkt n) (nl_append (by decide) (count_nl _ _))
      unfold editLine at this
      have h8 : ¬ "    counters policy ".toList <+: str "        counters " ++ countText pkt n := by
        have e1 : "    counters policy ".toList = "    ".toList ++ ('c' :: "ounters policy ".toList) := by decide
        have e2 : str "        counters " = "    ".toList ++ (' ' :: "   counters ".toList) := by decide
        rw [e1, e2, List.append_assoc, List.prefix_append_right_inj, List.cons_append, List.cons_prefix_cons]
        exact fun hp => absurd hp.1 (by decide)
      rw [if_neg h8, if_pos (show "        counters ".toList <+: str "        counters " ++ countText pkt n from List.prefix_append _ _)] at this
      exact this
    · have e : "        counter\n".toList = "        ".toList ++ ("counter".toList ++ ['\n']) := by decide
      rw [e]
      exact Chunk.after sp8 chunk_end
  · rw [if_neg h, if_neg h]
    exact Shows.nil

/-! ## Verdicts -/

def verdictS (r : Rule) : VerdictS :=
  if r.verdict = .redirect then .redirect (printNat 10 r.redirIfindex.toNat) (Doc.direction r.redirDir).toList else .plain (Doc.verdict r.verdict).toList

theorem verdict_shown (r : Rule) : Shows (verdictText r) (verdictWords (verdictS r)) ∧ VerdictText (verdictS r) := by
  unfold verdictText verdictS
  by_cases h : r.verdict = .redirect
  · rw [if_pos h, if_pos h, name_dir]
    refine ⟨?_, ⟨made_mono (printNat_alnum (by omega) (by omega) _) fun c hc => .inl (.inl hc), (safe_dec' _).free, r.redirDir, rfl⟩⟩
    have e : str "        REDIRECT " ++ (printNat 10 r.redirIfindex.toNat ++ (' ' :: ((Doc.direction r.redirDir).toList ++ ['\n']))) =
        "        ".toList ++ (("REDIRECT".toList ++ (' ' :: (printNat 10 r.redirIfindex.toNat ++ (' ' :: (Doc.direction r.redirDir).toList)))) ++ ['\n']) := by
      have : str "        REDIRECT " = "        ".toList ++ ("REDIRECT".toList ++ [' ']) := by decide
      rw [this]; simp only [List.append_assoc, List.cons_append, List.nil_append]
    rw [e]
    refine shows8 (c := 'R') (nl_append (by decide) fun hx => ?_) rfl (by decide) ?_
    · rcases List.mem_cons.mp hx with hx | hx
      · exact absurd hx (by decide)
      refine nl_append (safe_nl (safe_dec' _)) (fun hx => ?_) hx
      rcases List.mem_cons.mp hx with hx | hx
      · exact absurd hx (by decide)
      · revert hx; cases r.redirDir <;> decide
    · simp only [List.append_assoc, List.cons_append]
      exact Chunk.spaced blank_sp (Chunk.spaced blank_sp chunk_end)
  · rw [if_neg h, if_neg h, name_verdict]
    refine ⟨?_, r.verdict, h, rfl⟩
    have hh : ∃ d, (Doc.verdict r.verdict).toList.head? = some d ∧ d ≠ 'c' := by cases r.verdict <;> exact ⟨_, rfl, by decide⟩
    obtain ⟨d, hd, hd'⟩ := hh
    exact shows8 (c := d) (by cases r.verdict <;> decide) hd hd' chunk_end

theorem verdict_says {env : TextEnv} {r : Rule} (h : r.verdict = .redirect → r.redirIfindex ≠ 0 ∧ env.nameToIndex (printNat 10 r.redirIfindex.toNat) = 0) :
    VerdictSays env (verdictS r) r := by
  unfold verdictS
  split
  next hv =>
    obtain ⟨h1, h2⟩ := h hv
    have hlt := r.redirIfindex.isLt
    refine ⟨hv, ?_, rfl⟩
    unfold IfaceSays
    rw [if_neg (by rw [h2]; omega)]
    refine ⟨strtoul_dec (by omega), ?_, by omega⟩
    apply Nat.pos_of_ne_zero
    intro e
    exact h1 (BitVec.eq_of_toNat_eq (by simpa using e))
  · rfl

/-! ## A rule -/

theorem options_say {rate : List Char → Option Nat} {r : Rule} (hl : r.log = 0xFF#8 ∨ r.log.toNat < 8)
    (hr : (r.log = 0 → r.rate = 0) ∧ (r.rate ≠ 0 → rate (rateWord r.rate.toNat) = some r.rate.toNat)) :
    OptionsSay rate (logOptions r ++ (markOptions r ++ counterOptions r)) r := by
  have hlog : LogSays (if r.log = logOptDefault then [] else layerNames r.log) r.log ∨ r.log = 0 := by
    by_cases h0 : r.log = 0
    · exact .inr h0
    left
    by_cases hd : r.log = logOptDefault
    · rw [if_pos hd]; exact .inl ⟨rfl, hd⟩
    · rw [if_neg hd]; exact log_says (hl.resolve_left hd) h0
  have hrate : RateSays rate (rateOf r) r.rate := by
    unfold rateOf
    split
    next h => exact .inl ⟨rfl, h⟩
    next h => exact .inr ⟨_, _, rfl, hr.2 h, by simp⟩
  have hmark : MarkSays (printHex r.markVal.toNat) r.markVal.toNat := by
    have hlt := r.markVal.isLt
    refine ⟨?_, by omega⟩
    rw [strtoll, printHex, strtoInt_hex (printNat_ne 16 _) (printNat_digits (by omega) (by omega) _) (.inl rfl), digitsVal_printNat (by omega) (by omega)]
    simp [show ¬ 9223372036854775807 < r.markVal.toNat by omega]
  unfold logOptions markOptions counterOptions
  constructor
  · have f : ∀ (p : Prop) [Decidable p] (x : OptionS) (g : OptionS → Bool), ((if p then [] else [x]).filter g).length ≤ (if g x then 1 else 0) := by
      intro p _ x g
      by_cases hp : p
      · simp [hp]
      · cases hg : g x <;> simp [hp, hg]
    have f' : ∀ (b : Bool) (x : OptionS) (g : OptionS → Bool), ((if b then [x] else []).filter g).length ≤ (if g x then 1 else 0) := by
      intro b x g
      cases b
      · simp
      · cases hg : g x <;> simp [hg]
    simp only [List.filter_append, List.length_append]
    refine ⟨?_, ?_, ?_⟩
    all_goals
      refine Nat.le_trans (Nat.add_le_add (f _ _ _) (Nat.add_le_add (f' _ _ _) (f' _ _ _))) ?_
      simp [isLog, isMark, isCounter]
  · intro hs t ht
    by_cases h0 : r.log = 0
    · exfalso
      revert ht
      by_cases h1 : r.markSet = true <;> by_cases h2 : r.hasCounters = true <;> simp [h0, h1, h2]
    · have e : hs = (if r.log = logOptDefault then [] else layerNames r.log) ∧ t = rateOf r := by
        rw [if_neg h0] at ht
        rcases List.mem_append.mp ht with ht | ht
        · have := List.mem_singleton.mp ht
          cases this
          exact ⟨rfl, rfl⟩
        · exfalso
          revert ht
          by_cases h1 : r.markSet = true <;> by_cases h2 : r.hasCounters = true <;> simp [h1, h2]
      rw [e.1, e.2]
      exact ⟨hlog.resolve_right h0, hrate⟩
  · intro h
    by_cases h0 : r.log = 0
    · exact ⟨h0, hr.1 h0⟩
    · rw [if_neg h0] at h
      have := h _ (List.mem_append_left _ (List.mem_singleton.mpr rfl))
      cases this
  · by_cases h0 : r.log = 0 <;> by_cases h1 : r.markSet = true <;> by_cases h2 : r.hasCounters = true <;> simp [h0, h1, h2]
  · intro s hs
    by_cases h1 : r.markSet = true
    · have e : s = printHex r.markVal.toNat := by
        revert hs
        by_cases h0 : r.log = 0 <;> by_cases h2 : r.hasCounters = true <;> simp [h0, h1, h2]
      rw [e]
      exact ⟨_, hmark, h1, by simp⟩
    · exfalso
      revert hs
      by_cases h0 : r.log = 0 <;> by_cases h2 : r.hasCounters = true <;> simp [h0, h1, h2]
  · intro h
    by_cases h1 : r.markSet = true
    · rw [if_pos h1] at h
      have := h (.mark (printHex r.markVal.toNat)) (List.mem_append_right _ (List.mem_append_left _ (List.mem_singleton.mpr rfl)))
      cases this
    · simpa using h1

/-- What is asked of the sentence of a rule. -/
structure RuleFor (env : TextEnv) (rate : List Char → Option Nat) (sets : List BSet) (s : RuleS) (r : Rule) : Prop where
  text : RuleText s
  says : RuleSays env rate sets s r
  sets : Each (MatcherFor env sets) s.matchers r.matchers

theorem each_imp {α β : Type} {R S : α → β → Prop} (h : ∀ a b, R a b → S a b) {l : List α} {x : List β} (hx : Each R l x) : Each S l x := by
  induction hx with
  | nil => exact .nil
  | cons h1 _ ih => exact .cons (h _ _ h1) ih

theorem each_left {α β : Type} {R : α → β → Prop} {P : α → Prop} (h : ∀ a b, R a b → P a) {l : List α} {x : List β} (hx : Each R l x) : ∀ a ∈ l, P a := by
  induction hx with
  | nil => simp
  | cons h1 _ ih =>
    intro a ha
    rcases List.mem_cons.mp ha with rfl | ha
    · exact h _ _ h1
    · exact ih a ha

theorem rule_shown {env : TextEnv} (he : TextEnvOk env) {rate : List Char → Option Nat} {c : Chain} (hsets : ∀ s ∈ c.sets, SetShown s) {k : Counts} {r : Rule}
    (h : RuleShown env rate c.sets r) : ∃ s t, ruleText env c k false r = .ok t ∧ Shows t (ruleWords s) ∧ RuleFor env rate c.sets s r := by
  obtain ⟨ms, mt, h1, h2, h3⟩ := catAll_each (f := matcherText env c false) (g := matcherWords) (P := MatcherFor env c.sets) (l := r.matchers)
    fun m hm => matcher_shown he hsets (h.matchers m hm)
  obtain ⟨hl1, hl2⟩ := log_shown h.log
  obtain ⟨hm1, hm2⟩ := mark_shown r
  obtain ⟨hv1, hv2⟩ := verdict_shown r
  have hc1 := counter_shown (c.hook.flavor ≠ .sockAddr) (k.rule r.index) r
  refine ⟨⟨ms, logOptions r ++ (markOptions r ++ counterOptions r), verdictS r⟩, _, by rw [ruleText, h1]; rfl, ?_, ⟨?_, each_left (fun _ _ h => h.text) h3, ?_, hv2⟩,
    ⟨each_imp (fun _ _ h => h.says) h3, options_say h.log h.rate, verdict_says h.redirect⟩, h3⟩
  · have hr : Shows (str "    rule\n") ["rule".toList] := by
      have e : str "    rule\n" = "    rule".toList ++ ['\n'] := by decide
      rw [e]
      refine Shows.line (by decide) ?_ ?_
      · rw [show "    rule".toList = "    ".toList ++ "rule".toList by decide]
        exact kept_four fun c hc => by cases hc; decide
      · rw [show "    rule".toList = "    ".toList ++ "rule".toList by decide, List.append_assoc]
        exact Chunk.after sp4 chunk_end
    have := hr.append (h2.append (hl1.append (hm1.append (hc1.append hv1))))
    unfold ruleWords
    simpa [List.flatMap_append] using this
  · intro e
    have := h3.length
    dsimp only at e
    rw [e] at this
    exact h.any (List.eq_nil_of_length_eq_zero this.symm)
  · intro o ho
    rcases List.mem_append.mp ho with ho | ho
    · exact hl2 o ho
    rcases List.mem_append.mp ho with ho | ho
    · exact hm2 o ho
    · unfold counterOptions at ho
      split at ho
      · rw [List.mem_singleton.mp ho]; trivial
      · cases ho

end Bf.Cli.Dmp
