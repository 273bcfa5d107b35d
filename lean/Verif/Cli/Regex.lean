/-!
# Regular expressions

What `flex` makes of a pattern: its language, and the longest prefix of the input that is in it.
-/
namespace Bf.Cli

/-- A set of characters: those of the ranges, or those that are not. -/
structure Cls where
  neg : Bool
  ranges : List (Char × Char)
  deriving DecidableEq, Repr

def Cls.has (k : Cls) (c : Char) : Bool := (k.ranges.any fun r => decide (r.1 ≤ c) && decide (c ≤ r.2)) != k.neg

inductive Re
  | never
  | eps
  | one (k : Cls)
  | seq (a b : Re)
  | alt (a b : Re)
  | star (a : Re)
  deriving DecidableEq, Repr

/-- The strings a pattern stands for. -/
inductive Re.Lang : Re → List Char → Prop
  | eps : Lang .eps []
  | one {k : Cls} {c : Char} : k.has c = true → Lang (.one k) [c]
  | seq {a b : Re} {x y : List Char} : Lang a x → Lang b y → Lang (.seq a b) (x ++ y)
  | altL {a b : Re} {x : List Char} : Lang a x → Lang (.alt a b) x
  | altR {a b : Re} {x : List Char} : Lang b x → Lang (.alt a b) x
  | starNil {a : Re} : Lang (.star a) []
  | starCons {a : Re} {c : Char} {x y : List Char} : Lang a (c :: x) → Lang (.star a) y → Lang (.star a) (c :: x ++ y)

/-- Does it stand for the empty string? -/
def Re.nullable : Re → Bool
  | .never => false
  | .eps => true
  | .one _ => false
  | .seq a b => a.nullable && b.nullable
  | .alt a b => a.nullable || b.nullable
  | .star _ => true

def Re.mkSeq (a b : Re) : Re := if a = .never ∨ b = .never then .never else if a = .eps then b else .seq a b
def Re.mkAlt (a b : Re) : Re := if a = .never then b else if b = .never then a else if a = b then a else .alt a b

/-- What remains to be found once `c` was. -/
def Re.deriv (c : Char) : Re → Re
  | .never => .never
  | .eps => .never
  | .one k => if k.has c then .eps else .never
  | .seq a b => if a.nullable then .mkAlt (.mkSeq (a.deriv c) b) (b.deriv c) else .mkSeq (a.deriv c) b
  | .alt a b => .mkAlt (a.deriv c) (b.deriv c)
  | .star a => .mkSeq (a.deriv c) (.star a)

def Re.accepts : Re → List Char → Bool
  | r, [] => r.nullable
  | r, c :: cs => (r.deriv c).accepts cs

/-- The length of the longest prefix that is accepted; `pos` characters were read, the longest so far has length `best`. -/
def Re.scan : Re → List Char → Nat → Nat → Nat
  | r, [], pos, best => if r.nullable then pos else best
  | r, c :: cs, pos, best => if r = .never then best else (r.deriv c).scan cs (pos + 1) (if r.nullable then pos else best)

/-- The length of the longest prefix in the language of the pattern (0: none, or the empty one only). -/
def Re.longest (r : Re) (s : List Char) : Nat := r.scan s 0 0

theorem nullable_iff {r : Re} : r.nullable = true ↔ r.Lang [] := by
  constructor
  · induction r with
    | never => intro h; cases h
    | eps => intro _; exact .eps
    | one k => intro h; cases h
    | seq a b iha ihb =>
      intro h
      simp only [Re.nullable, Bool.and_eq_true] at h
      exact .seq (x := []) (y := []) (iha h.1) (ihb h.2)
    | alt a b iha ihb =>
      intro h
      simp only [Re.nullable, Bool.or_eq_true] at h
      rcases h with h | h
      · exact .altL (iha h)
      · exact .altR (ihb h)
    | star a _ => intro _; exact .starNil
  · intro h
    generalize e : ([] : List Char) = w at h
    induction h with
    | eps => rfl
    | one _ => cases e
    | @seq a b x y hx hy ih1 ih2 =>
      have e' := List.append_eq_nil_iff.mp e.symm
      simp [Re.nullable, ih1 e'.1.symm, ih2 e'.2.symm]
    | altL _ ih => simp [Re.nullable, ih e]
    | altR _ ih => simp [Re.nullable, ih e]
    | starNil => rfl
    | starCons _ _ _ _ => cases e

theorem lang_seq {a b : Re} {w : List Char} : (Re.seq a b).Lang w ↔ ∃ x y, w = x ++ y ∧ a.Lang x ∧ b.Lang y := by
  constructor
  · intro h; cases h with | seq hx hy => exact ⟨_, _, rfl, hx, hy⟩
  · rintro ⟨x, y, rfl, hx, hy⟩; exact .seq hx hy

theorem lang_alt {a b : Re} {w : List Char} : (Re.alt a b).Lang w ↔ a.Lang w ∨ b.Lang w := by
  constructor
  · intro h
    cases h with
    | altL h => exact .inl h
    | altR h => exact .inr h
  · rintro (h | h)
    · exact .altL h
    · exact .altR h

theorem lang_one {k : Cls} {w : List Char} : (Re.one k).Lang w ↔ ∃ c, w = [c] ∧ k.has c = true := by
  constructor
  · intro h; cases h with | one h => exact ⟨_, rfl, h⟩
  · rintro ⟨c, rfl, h⟩; exact .one h

theorem lang_never {w : List Char} : ¬ Re.never.Lang w := fun h => by cases h

theorem lang_eps {w : List Char} : Re.eps.Lang w ↔ w = [] := by
  constructor
  · intro h; cases h; rfl
  · rintro rfl; exact .eps

theorem lang_mkSeq {a b : Re} {w : List Char} : (Re.mkSeq a b).Lang w ↔ (Re.seq a b).Lang w := by
  unfold Re.mkSeq
  split
  · next h =>
    constructor
    · intro h'; exact absurd h' lang_never
    · intro h'
      obtain ⟨x, y, _, hx, hy⟩ := lang_seq.mp h'
      rcases h with rfl | rfl
      · exact absurd hx lang_never
      · exact absurd hy lang_never
  · split
    · next h =>
      subst h
      rw [lang_seq]
      constructor
      · intro h; exact ⟨[], w, rfl, .eps, h⟩
      · rintro ⟨x, y, rfl, hx, hy⟩
        rw [lang_eps.mp hx]
        exact hy
    · exact Iff.rfl

theorem lang_mkAlt {a b : Re} {w : List Char} : (Re.mkAlt a b).Lang w ↔ (Re.alt a b).Lang w := by
  unfold Re.mkAlt
  rw [lang_alt]
  split
  · next h => subst h; simp [lang_never]
  · split
    · next h => subst h; simp [lang_never]
    · split
      · next h => subst h; simp
      · exact lang_alt

theorem deriv_iff {r : Re} {c : Char} {w : List Char} : (r.deriv c).Lang w ↔ r.Lang (c :: w) := by
  induction r generalizing w with
  | never => simp only [Re.deriv]; constructor <;> (intro h; cases h)
  | eps => simp only [Re.deriv]; constructor <;> (intro h; cases h)
  | one k =>
    simp only [Re.deriv, lang_one]
    split
    · next h =>
      rw [lang_eps]
      constructor
      · rintro rfl; exact ⟨c, rfl, h⟩
      · rintro ⟨_, e, _⟩; cases e; rfl
    · next h =>
      constructor
      · intro h'; cases h'
      · rintro ⟨_, e, h'⟩; cases e; exact absurd h' h
  | seq a b iha ihb =>
    have key : (Re.seq a b).Lang (c :: w) ↔ (∃ x y, w = x ++ y ∧ a.Lang (c :: x) ∧ b.Lang y) ∨ (a.Lang [] ∧ b.Lang (c :: w)) := by
      rw [lang_seq]
      constructor
      · rintro ⟨x, y, e, hx, hy⟩
        cases x with
        | nil => right; simp only [List.nil_append] at e; exact ⟨hx, e ▸ hy⟩
        | cons d x =>
          simp only [List.cons_append, List.cons.injEq] at e
          obtain ⟨rfl, rfl⟩ := e
          exact .inl ⟨x, y, rfl, hx, hy⟩
      · rintro (⟨x, y, rfl, hx, hy⟩ | ⟨h1, h2⟩)
        · exact ⟨c :: x, y, rfl, hx, hy⟩
        · exact ⟨[], c :: w, rfl, h1, h2⟩
    have left : (Re.mkSeq (a.deriv c) b).Lang w ↔ ∃ x y, w = x ++ y ∧ a.Lang (c :: x) ∧ b.Lang y := by
      rw [lang_mkSeq, lang_seq]
      constructor
      · rintro ⟨x, y, e, hx, hy⟩; exact ⟨x, y, e, iha.mp hx, hy⟩
      · rintro ⟨x, y, e, hx, hy⟩; exact ⟨x, y, e, iha.mpr hx, hy⟩
    rw [key]
    simp only [Re.deriv]
    split
    · next hn =>
      rw [lang_mkAlt, lang_alt, left, ihb]
      have := nullable_iff.mp hn
      constructor
      · rintro (h | h)
        · exact .inl h
        · exact .inr ⟨this, h⟩
      · rintro (h | h)
        · exact .inl h
        · exact .inr h.2
    · next hn =>
      rw [left]
      constructor
      · exact .inl
      · rintro (h | h)
        · exact h
        · exact absurd (nullable_iff.mpr h.1) hn
  | alt a b iha ihb => simp only [Re.deriv]; rw [lang_mkAlt, lang_alt, lang_alt, iha, ihb]
  | star a iha =>
    simp only [Re.deriv]
    rw [lang_mkSeq, lang_seq]
    constructor
    · rintro ⟨x, y, rfl, hx, hy⟩
      exact .starCons (iha.mp hx) hy
    · intro h
      generalize e : c :: w = v at h
      cases h with
      | starNil => cases e
      | @starCons _ d x y h1 h2 =>
        simp only [List.cons_append, List.cons.injEq] at e
        obtain ⟨rfl, rfl⟩ := e
        exact ⟨x, y, rfl, iha.mpr h1, h2⟩

theorem accepts_iff {r : Re} {w : List Char} : r.accepts w = true ↔ r.Lang w := by
  induction w generalizing r with
  | nil => exact nullable_iff
  | cons c w ih => simp only [Re.accepts]; rw [ih, deriv_iff]

theorem scan_eq {r : Re} {s : List Char} {pos best : Nat} :
    (∃ n, n ≤ s.length ∧ r.Lang (s.take n) ∧ (∀ m, n < m → m ≤ s.length → ¬ r.Lang (s.take m)) ∧ r.scan s pos best = pos + n) ∨
    ((∀ m, m ≤ s.length → ¬ r.Lang (s.take m)) ∧ r.scan s pos best = best) := by
  induction s generalizing r pos best with
  | nil =>
    simp only [Re.scan]
    split
    · next h => exact .inl ⟨0, by simp, by simpa using nullable_iff.mp h, by simp; omega, rfl⟩
    · next h => exact .inr ⟨fun m hm => by simpa using fun h' => h (nullable_iff.mpr h'), rfl⟩
  | cons c s ih =>
    simp only [Re.scan]
    split
    · next h => subst h; exact .inr ⟨fun m _ => lang_never, rfl⟩
    · rcases ih (r := r.deriv c) (pos := pos + 1) (best := if r.nullable then pos else best) with ⟨n, h1, h2, h3, h4⟩ | ⟨h1, h2⟩
      · refine .inl ⟨n + 1, by simp; omega, by simpa using deriv_iff.mp h2, fun m hm hm' => ?_, by rw [h4]; omega⟩
        obtain ⟨m, rfl⟩ : ∃ k, m = k + 1 := ⟨m - 1, by omega⟩
        simp only [List.take_succ_cons]
        rw [← deriv_iff]
        exact h3 m (by omega) (by simpa using hm')
      · rw [h2]
        have hn : ∀ m, 0 < m → m ≤ (c :: s).length → ¬ r.Lang ((c :: s).take m) := by
          intro m hm hm'
          obtain ⟨m, rfl⟩ : ∃ k, m = k + 1 := ⟨m - 1, by omega⟩
          simp only [List.take_succ_cons]
          rw [← deriv_iff]
          exact h1 m (by simpa using hm')
        split
        · next h => exact .inl ⟨0, by simp, by simpa using nullable_iff.mp h, hn, rfl⟩
        · next h =>
          refine .inr ⟨fun m hm => ?_, rfl⟩
          cases m with
          | zero => simpa using fun h' => h (nullable_iff.mpr h')
          | succ m => exact hn _ (by omega) hm

/-- What the longest match is. -/
theorem longest_eq {r : Re} {s : List Char} {n : Nat} (hn : 0 < n) : r.longest s = n ↔
    n ≤ s.length ∧ r.Lang (s.take n) ∧ ∀ m, n < m → m ≤ s.length → ¬ r.Lang (s.take m) := by
  unfold Re.longest
  rcases scan_eq (r := r) (s := s) (pos := 0) (best := 0) with ⟨k, h1, h2, h3, h4⟩ | ⟨h1, h2⟩
  · rw [h4]
    constructor
    · intro e
      have : k = n := by omega
      subst this
      exact ⟨h1, h2, h3⟩
    · rintro ⟨a, b, c⟩
      rcases Nat.lt_trichotomy k n with h | h | h
      · exact absurd b (h3 n h a)
      · omega
      · exact absurd h2 (c k h h1)
  · rw [h2]
    constructor
    · intro e; omega
    · rintro ⟨a, b, _⟩; exact absurd b (h1 n a)

theorem longest_lt {r : Re} {s : List Char} {n : Nat} (h : ∀ m, n ≤ m → m ≤ s.length → 0 < m → ¬ r.Lang (s.take m)) (hn : 0 < n) : r.longest s < n := by
  rcases Nat.lt_or_ge (r.longest s) n with h' | h'
  · exact h'
  · have := (longest_eq (r := r) (s := s) (n := r.longest s) (by omega)).mp rfl
    exact absurd this.2.1 (h _ h' this.1 (by omega))

end Bf.Cli
