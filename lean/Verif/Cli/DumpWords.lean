import Verif.Cli.Dump
import Verif.Spec.Shown
/-!
# The words of what is printed
-/
namespace Bf.Cli.Dmp
open Spec

/-! ## Words and gaps -/

/-- A text with these words, whatever follows it. -/
def Chunk (ws : List (List Char)) (s : List Char) : Prop := ∀ ws' t, Laid ws' t → Laid (ws ++ ws') (s ++ t)

theorem gap_append {a b : List Char} (ha : Gap a) (hb : Gap b) : Gap (a ++ b) := by
  induction ha with
  | nil => exact hb
  | blank h _ ih => exact .blank h ih
  | @comment c s h _ ih =>
    have : ('#' :: (c ++ '\n' :: s)) ++ b = '#' :: (c ++ '\n' :: (s ++ b)) := by simp
    rw [this]
    exact .comment h ih

theorem gap_blanks {s : List Char} (h : ∀ c ∈ s, Blank c) : Gap s := by
  induction s with
  | nil => exact .nil
  | cons c s ih => exact .blank (h c List.mem_cons_self) (ih fun x hx => h x (List.mem_cons_of_mem _ hx))

theorem laid_gap {g t : List Char} {ws : List (List Char)} (hg : Gap g) (h : Laid ws t) : Laid ws (g ++ t) := by
  cases h with
  | nil h => exact .nil (gap_append hg h)
  | last h hb => rw [← List.append_assoc]; exact .last (gap_append hg h) hb
  | cons h ha hl => rw [← List.append_assoc]; exact .cons (gap_append hg h) ha hl

theorem Chunk.append {a b : List (List Char)} {s t : List Char} (h : Chunk a s) (h' : Chunk b t) : Chunk (a ++ b) (s ++ t) := by
  intro ws u hu
  rw [List.append_assoc, List.append_assoc]
  exact h _ _ (h' _ _ hu)

theorem Chunk.gap {g : List Char} (hg : Gap g) : Chunk [] g := fun _ _ h => laid_gap hg h

theorem Chunk.nil : Chunk [] [] := Chunk.gap .nil

theorem Chunk.blanks {g : List Char} (h : ∀ c ∈ g, Blank c) : Chunk [] g := Chunk.gap (gap_blanks h)

/-- A gap before. -/
theorem Chunk.after {g s : List Char} {ws : List (List Char)} (hg : ∀ c ∈ g, Blank c) (h : Chunk ws s) : Chunk ws (g ++ s) := by
  have := (Chunk.blanks hg).append h
  rwa [List.nil_append] at this

/-- A word, followed by what separates it from the next. -/
theorem Chunk.word {w s : List Char} {c : Char} {ws : List (List Char)} (hc : Separates c) (h : Chunk ws (c :: s)) : Chunk (w :: ws) (w ++ c :: s) := by
  intro ws' t ht
  have h1 := h _ _ ht
  have h2 := Laid.cons (g := []) (w := w) .nil (.inr ⟨c, hc, .inl rfl⟩) h1
  simpa using h2

/-- A word that ends with a separator. -/
theorem Chunk.closed {w s : List Char} {c : Char} {ws : List (List Char)} (hw : w.getLast? = some c) (hc : Separates c) (h : Chunk ws s) : Chunk (w :: ws) (w ++ s) := by
  intro ws' t ht
  have h1 := h _ _ ht
  have h2 := Laid.cons (g := []) (w := w) .nil (.inr ⟨c, hc, .inr hw⟩) h1
  simpa using h2

theorem sep_blank {c : Char} (h : Blank c) : Separates c := .inl h
theorem blank_sp : Blank ' ' := .inl rfl
theorem blank_nl : Blank '\n' := .inr (.inr rfl)

/-- A word and a space, or the end of the line. -/
theorem Chunk.spaced {w s : List Char} {c : Char} {ws : List (List Char)} (hc : Blank c) (h : Chunk ws s) : Chunk (w :: ws) (w ++ c :: s) :=
  Chunk.word (sep_blank hc) (Chunk.after (g := [c]) (by simpa using hc) h)

/-! ## Lines -/

/-- What is made of a text by `edit`, whatever follows. -/
def Edits (s s' : List Char) : Prop := ∀ t, edit (s ++ t) = s' ++ edit t

theorem pieces_cut {sep : Char → Bool} {l : List Char} {c : Char} (hl : ∀ x ∈ l, sep x = false) (hc : sep c = true) (t : List Char) :
    pieces sep (l ++ c :: t) = l :: pieces sep t := by
  induction l with
  | nil => simp [pieces, hc]
  | cons x l ih =>
    have h1 := hl x List.mem_cons_self
    have h2 := ih fun y hy => hl y (List.mem_cons_of_mem _ hy)
    simp only [List.cons_append, pieces, h1, h2]
    simp

theorem pieces_plain {sep : Char → Bool} {l : List Char} (hl : ∀ x ∈ l, sep x = false) : pieces sep l = [l] := by
  induction l with
  | nil => rfl
  | cons x l ih =>
    have h1 := hl x List.mem_cons_self
    have h2 := ih fun y hy => hl y (List.mem_cons_of_mem _ hy)
    simp only [pieces, h1, h2]
    simp

theorem Edits.append {a b a' b' : List Char} (h : Edits a a') (h' : Edits b b') : Edits (a ++ b) (a' ++ b') := by
  intro t
  rw [List.append_assoc, h, h', List.append_assoc]

theorem Edits.nil : Edits [] [] := fun _ => rfl

theorem Edits.line {l : List Char} (h : '\n' ∉ l) : Edits (l ++ ['\n']) (editLine l) := by
  intro t
  have h1 : pieces (· = '\n') ((l ++ ['\n']) ++ t) = l :: pieces (· = '\n') t := by
    rw [List.append_assoc]
    exact pieces_cut (fun x hx => by simp only [decide_eq_false_iff_not]; rintro rfl; exact h hx) (by simp) t
  unfold edit lines
  rw [h1]
  cases hp : pieces (· = '\n') t with
  | nil => exact absurd hp (pieces_ne _ _)
  | cons p ps => simp [List.dropLast]

/-- A line that is kept. -/
def Kept (l : List Char) : Prop := ¬ "    counters policy ".toList <+: l ∧ ¬ "        counters ".toList <+: l

theorem Edits.keep {l : List Char} (h : '\n' ∉ l) (hk : Kept l) : Edits (l ++ ['\n']) (l ++ ['\n']) := by
  have := Edits.line h
  unfold editLine at this
  rwa [if_neg hk.1, if_neg hk.2] at this

theorem kept_head {l : List Char} {c : Char} (h : l.head? = some c) (hc : c ≠ ' ') : Kept l := by
  cases l with
  | nil => cases h
  | cons d l =>
    cases h
    have e1 : "    counters policy ".toList = ' ' :: "   counters policy ".toList := by decide
    have e2 : "        counters ".toList = ' ' :: "       counters ".toList := by decide
    unfold Kept
    rw [e1, e2, List.cons_prefix_cons, List.cons_prefix_cons]
    exact ⟨fun h => hc h.1.symm, fun h => hc h.1.symm⟩

theorem kept_four {l : List Char} (h : ∀ c, l.head? = some c → c ≠ 'c' ∧ c ≠ ' ') : Kept ("    ".toList ++ l) := by
  have e1 : "    counters policy ".toList = "    ".toList ++ "counters policy ".toList := by decide
  have e2 : "        counters ".toList = "    ".toList ++ "    counters ".toList := by decide
  unfold Kept
  rw [e1, e2, List.prefix_append_right_inj, List.prefix_append_right_inj]
  cases l with
  | nil => exact ⟨by decide, by decide⟩
  | cons d l =>
    have := h d rfl
    refine ⟨fun hp => this.1 ?_, fun hp => this.2 ?_⟩
    · rw [show "counters policy ".toList = 'c' :: "ounters policy ".toList by decide, List.cons_prefix_cons] at hp
      exact hp.1.symm
    · rw [show "    counters ".toList = ' ' :: "   counters ".toList by decide, List.cons_prefix_cons] at hp
      exact hp.1.symm

theorem kept_eight {l : List Char} (h : ¬ "counters ".toList <+: l) : Kept ("        ".toList ++ l) := by
  have e1 : "    counters policy ".toList = "    ".toList ++ "counters policy ".toList := by decide
  have e2 : "        counters ".toList = "        ".toList ++ "counters ".toList := by decide
  have e3 : "        ".toList = "    ".toList ++ "    ".toList := by decide
  unfold Kept
  rw [e2, List.prefix_append_right_inj]
  refine ⟨fun hp => ?_, h⟩
  rw [e1, e3, List.append_assoc, List.prefix_append_right_inj, show "counters policy ".toList = 'c' :: "ounters policy ".toList by decide,
    show "    ".toList = ' ' :: "   ".toList by decide, List.cons_append, List.cons_prefix_cons] at hp
  exact absurd hp.1 (by decide)

theorem kept_head8 {l : List Char} {c : Char} (h : l.head? = some c) (hc : c ≠ 'c') : Kept ("        ".toList ++ l) := by
  apply kept_eight
  cases l with
  | nil => cases h
  | cons d l =>
    cases h
    rw [show "counters ".toList = 'c' :: "ounters ".toList by decide, List.cons_prefix_cons]
    exact fun hp => hc hp.1.symm

/-- What is printed has these words once edited. -/
def Shows (s : List Char) (ws : List (List Char)) : Prop := ∃ s', Edits s s' ∧ Chunk ws s'

theorem Shows.append {a b : List Char} {v w : List (List Char)} : Shows a v → Shows b w → Shows (a ++ b) (v ++ w) := by
  rintro ⟨a', h1, h2⟩ ⟨b', h3, h4⟩
  exact ⟨_, h1.append h3, h2.append h4⟩

theorem Shows.nil : Shows [] [] := ⟨[], Edits.nil, Chunk.nil⟩

theorem Shows.same {s : List Char} {ws : List (List Char)} (he : Edits s s) (hc : Chunk ws s) : Shows s ws := ⟨s, he, hc⟩

theorem Shows.line {l : List Char} {ws : List (List Char)} (hn : '\n' ∉ l) (hk : Kept l) (hc : Chunk ws (l ++ ['\n'])) : Shows (l ++ ['\n']) ws :=
  Shows.same (Edits.keep hn hk) hc

theorem edit_shows {s : List Char} {ws : List (List Char)} (h : Shows s ws) : Laid ws (edit s) := by
  obtain ⟨s', h1, h2⟩ := h
  have h3 := h1 []
  rw [List.append_nil] at h3
  have h4 := h2 [] [] (.nil .nil)
  rw [List.append_nil, List.append_nil] at h4
  rw [h3]
  have : edit [] = [] := rfl
  rwa [this, List.append_nil]

/-! ## One text after the other -/

theorem catAll_shows {α : Type} {f : α → Res (List Char)} {g : α → List (List Char)} : ∀ {l : List α},
    (∀ x ∈ l, ∃ s, f x = .ok s ∧ Shows s (g x)) → ∃ s, catAll (l.map f) = .ok s ∧ Shows s (l.flatMap g)
  | [], _ => ⟨[], rfl, Shows.nil⟩
  | x :: l, h => by
    obtain ⟨s, h1, h2⟩ := h x List.mem_cons_self
    obtain ⟨t, h3, h4⟩ := catAll_shows (l := l) fun y hy => h y (List.mem_cons_of_mem _ hy)
    exact ⟨s ++ t, by simp only [List.map_cons, catAll, h1, h3, Res.bind], h2.append h4⟩

end Bf.Cli.Dmp
