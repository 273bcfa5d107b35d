import Verif.Spec.Ruleset
/-!
# The words of a text are in the text
-/
namespace Bf.Cli
open Bf.Spec

theorem pick_some {st : LState} {s : List Char} {n : Nat} {q : LRule} : ∀ {rs : List LRule}, pick st s rs = some (n, q) →
    q ∈ rs ∧ q.active st = true ∧ 0 < n ∧ q.re.longest s = n
  | [], h => by cases h
  | r :: rs, h => by
    unfold pick at h
    split at h
    · split at h
      · next hc =>
        cases h
        exact ⟨List.mem_cons_self, hc.1, hc.2, rfl⟩
      · cases h
    · next m q' e =>
      obtain ⟨h1, h2, h3, h4⟩ := pick_some e
      split at h
      · next hc =>
        cases h
        exact ⟨List.mem_cons_self, hc.1, by omega, rfl⟩
      · cases h
        exact ⟨List.mem_cons_of_mem _ h1, h2, h3, h4⟩

theorem has_pos {l : List (Char × Char)} {c : Char} : (Cls.mk false l).has c = true ↔ ∃ r ∈ l, r.1 ≤ c ∧ c ≤ r.2 := by
  simp [Cls.has, bne]

theorem has_neg {l : List (Char × Char)} {c : Char} : (Cls.mk true l).has c = true ↔ ¬ ∃ r ∈ l, r.1 ≤ c ∧ c ≤ r.2 := by
  simp [Cls.has, bne]

theorem lang_chr {c : Char} {w : List Char} : (chr c).Lang w ↔ w = [c] := by
  unfold chr
  rw [lang_one]
  have hh : ∀ d : Char, (Cls.mk false [(c, c)]).has d = true ↔ d = c := by
    intro d
    rw [has_pos]
    constructor
    · rintro ⟨r, hr, h1, h2⟩
      simp only [List.mem_singleton] at hr
      subst hr
      exact Char.le_antisymm h2 h1
    · rintro rfl; exact ⟨(d, d), by simp, Char.le_refl _, Char.le_refl _⟩
  constructor
  · rintro ⟨d, rfl, h⟩; rw [(hh d).mp h]
  · rintro rfl; exact ⟨c, rfl, (hh c).mpr rfl⟩

theorem lang_lits : ∀ {s w : List Char}, (lits s).Lang w ↔ w = s
  | [], w => lang_eps
  | [c], w => lang_chr
  | c :: d :: s, w => by
    have e : lits (c :: d :: s) = .seq (chr c) (lits (d :: s)) := rfl
    rw [e, lang_seq]
    constructor
    · rintro ⟨x, y, rfl, hx, hy⟩
      rw [lang_chr.mp hx, lang_lits.mp hy]
      rfl
    · rintro rfl
      exact ⟨[c], d :: s, rfl, lang_chr.mpr rfl, lang_lits.mpr rfl⟩

theorem lang_lit {s : String} {w : List Char} : (lit s).Lang w ↔ w = s.toList := lang_lits

/-- The keyword of a token. -/
def Tok.keyword : Tok → List Char
  | .chain => "chain".toList
  | .rule => "rule".toList
  | .set => "set".toList
  | .negate => "not".toList
  | .log => "log".toList
  | .counter => "counter".toList
  | .mark => "mark".toList
  | .every => "every".toList
  | .redirect => "REDIRECT".toList
  | _ => []

/-- The patterns that are skipped. -/
def skipRes : List Re :=
  [cls [(' ', ' '), ('\t', '\t'), ('\n', '\n')], .seq (chr '#') (.star (.one ⟨true, [('\n', '\n')]⟩)), .alt (chr '{') (chr ','), chr '}']

def LRule.kindOk (r : LRule) : Bool :=
  match r.kind with
  | .fixed t => r.re = lits t.keyword && t.keyword ≠ []
  | .skip => r.re ∈ skipRes
  | .char => r.re = .one ⟨true, [('\n', '\n')]⟩
  | _ => true

theorem lexRules_kind : ∀ r ∈ lexRules, r.kindOk = true := by decide +kernel

theorem star_not {c : Char} {w : List Char} (h : (Re.star (.one ⟨true, [(c, c)]⟩)).Lang w) : c ∉ w := by
  generalize e : Re.star (.one ⟨true, [(c, c)]⟩) = r at h
  induction h with
  | eps => cases e
  | one _ => cases e
  | seq _ _ _ _ => cases e
  | altL _ _ => cases e
  | altR _ _ => cases e
  | starNil => simp
  | @starCons a d x y h1 _ _ ih =>
    cases e
    obtain ⟨d', e', hd⟩ := lang_one.mp h1
    cases e'
    intro hm
    rcases List.mem_cons.mp hm with rfl | hm
    · exact has_neg.mp hd ⟨(c, c), by simp, Char.le_refl _, Char.le_refl _⟩
    · exact ih rfl hm

theorem skipped {r : LRule} (hr : r ∈ lexRules) {w : List Char} (hl : r.re.Lang w) (hk : r.kind = .skip) : Skipped w := by
  have h := lexRules_kind r hr
  unfold LRule.kindOk at h
  rw [hk] at h
  simp only [decide_eq_true_eq, skipRes, List.mem_cons, List.not_mem_nil, or_false] at h
  rcases h with h | h | h | h <;> rw [h] at hl
  · obtain ⟨c, rfl, hc⟩ := lang_one.mp hl
    refine .blank ?_
    obtain ⟨r, hr, h1, h2⟩ := has_pos.mp hc
    simp only [List.mem_cons, List.not_mem_nil, or_false] at hr
    rcases hr with rfl | rfl | rfl
    · exact .inl (Char.le_antisymm h2 h1)
    · exact .inr (.inl (Char.le_antisymm h2 h1))
    · exact .inr (.inr (Char.le_antisymm h2 h1))
  · obtain ⟨x, y, rfl, hx, hy⟩ := lang_seq.mp hl
    rw [lang_chr.mp hx]
    exact .comment (star_not hy)
  · rcases lang_alt.mp hl with hl | hl
    · rw [lang_chr.mp hl]; exact .punct (.inl rfl)
    · rw [lang_chr.mp hl]; exact .punct (.inr (.inl rfl))
  · rw [lang_chr.mp hl]; exact .punct (.inr (.inr rfl))

theorem spells {r : LRule} (hr : r ∈ lexRules) {w : List Char} (hl : r.re.Lang w) {t : Tok} (ht : r.kind.tok w = some t) : Spells t w := by
  have h := lexRules_kind r hr
  unfold LRule.kindOk at h
  cases hk : r.kind with
  | skip => rw [hk] at ht; cases ht
  | fixed u =>
    rw [hk] at ht h
    simp only [Bool.and_eq_true, decide_eq_true_eq] at h
    have hu : u = t := Option.some.inj ht
    subst hu
    rw [h.1] at hl
    have hw := lang_lits.mp hl
    have hn := h.2
    clear h hl ht hk
    cases u <;> first | exact hw | exact absurd rfl hn
  | char =>
    rw [hk] at ht h
    simp only [decide_eq_true_eq] at h
    rw [h] at hl
    obtain ⟨c, rfl, _⟩ := lang_one.mp hl
    cases ht
    rfl
  | _ =>
    rw [hk] at ht
    cases ht
    rfl

/-- A byte that ends the ruleset. -/
def Stops (c : Char) : Prop := 128 ≤ c.toNat ∨ c.toNat = 0

theorem one_any (c : Char) : c = '\n' ∨ (Cls.mk true [('\n', '\n')]).has c = true := by
  by_cases h : c = '\n'
  · exact .inl h
  · refine .inr ?_
    rw [has_neg]
    rintro ⟨r, hr, h1, h2⟩
    simp only [List.mem_singleton] at hr
    subst hr
    exact h (Char.le_antisymm h2 h1)

theorem pick_ne {st : LState} {s : List Char} {r : LRule} : ∀ {rs : List LRule}, r ∈ rs → r.active st = true → 0 < r.re.longest s → pick st s rs ≠ none
  | [], h, _, _ => by cases h
  | q :: rs, h, ha, hl => by
    unfold pick
    rcases List.mem_cons.mp h with rfl | h
    · split
      · rw [if_pos ⟨ha, hl⟩]; simp
      · split <;> simp
    · split
      · next e => exact absurd e (pick_ne h ha hl)
      · split <;> simp

theorem longest_pos {r : Re} {c : Char} {s : List Char} (h : r.Lang [c]) : 0 < r.longest (c :: s) := by
  rcases Nat.eq_zero_or_pos (r.longest (c :: s)) with h0 | h0
  · exfalso
    have h1 : r.longest (c :: s) < 1 := by omega
    have hx : ∀ n, r.longest (c :: s) = n → n = 0 → False := by
      intro n hn h00
      -- the longest of the matches is at least 1
      have : ∃ m, 0 < m ∧ m ≤ (c :: s).length ∧ r.Lang ((c :: s).take m) ∧ ∀ k, m < k → k ≤ (c :: s).length → ¬ r.Lang ((c :: s).take k) := by
        have key : ∀ d m, m + d = (c :: s).length → 0 < m → r.Lang ((c :: s).take m) →
            ∃ m, 0 < m ∧ m ≤ (c :: s).length ∧ r.Lang ((c :: s).take m) ∧ ∀ k, m < k → k ≤ (c :: s).length → ¬ r.Lang ((c :: s).take k) := by
          intro d
          induction d using Nat.strongRecOn with
          | _ d ih =>
            intro m hm h0 hl
            by_cases hk : ∃ k, m < k ∧ k ≤ (c :: s).length ∧ r.Lang ((c :: s).take k)
            · obtain ⟨k, h1, h2, h3⟩ := hk
              exact ih ((c :: s).length - k) (by omega) k (by omega) (by omega) h3
            · exact ⟨m, h0, by omega, hl, fun k h1 h2 h3 => hk ⟨k, h1, h2, h3⟩⟩
        exact key s.length 1 (by simp; omega) (by omega) (by simpa using h)
      obtain ⟨m, h1, h2, h3, h4⟩ := this
      have := (longest_eq (r := r) (s := c :: s) h1).mpr ⟨h2, h3, h4⟩
      omega
    exact hx _ rfl h0
  · exact h0

theorem pick_cons (st : LState) (c : Char) (s : List Char) : pick st (c :: s) lexRules ≠ none := by
  rcases one_any c with rfl | h
  · exact pick_ne (r := ign (cls [(' ', ' '), ('\t', '\t'), ('\n', '\n')])) (by simp [lexRules]) rfl (longest_pos (lang_one.mpr ⟨_, rfl, by decide⟩))
  · exact pick_ne (r := ⟨[], .one ⟨true, [('\n', '\n')]⟩, .char, none⟩) (by simp [lexRules]) rfl (longest_pos (lang_one.mpr ⟨c, rfl, h⟩))

attribute [local irreducible] lexRules

/-- The words that are read are those of the text, up to the first byte that ends it. -/
theorem lexGo_nil (rs : List LRule) (fuel : Nat) (st : LState) : lexGo rs fuel st [] = [] := by
  cases fuel with
  | zero => rfl
  | succ fuel =>
    have : ∀ rs, pick st [] rs = none := by
      intro rs
      cases hp : pick st [] rs with
      | none => rfl
      | some x =>
        obtain ⟨_, _, h3, h4⟩ := pick_some (n := x.1) (q := x.2) hp
        have := ((longest_eq h3).mp h4).1
        exact absurd h3 (by simpa using this)
    rw [lexGo, this]

theorem lexGo_spelled (fuel : Nat) : ∀ (st : LState) (s : List Char), s.length ≤ fuel →
    ∃ pre post, s = pre ++ post ∧ Spelled pre (lexGo lexRules fuel st s) ∧ ∀ c, post.head? = some c → Stops c := by
  induction fuel with
  | zero =>
    intro st s h
    have : s = [] := List.eq_nil_of_length_eq_zero (by omega)
    subst this
    exact ⟨[], [], rfl, .nil, by simp⟩
  | succ fuel lexGo_spelled =>
    intro st s h
    cases s with
    | nil =>
      rw [lexGo_nil]
      exact ⟨[], [], rfl, .nil, by simp⟩
    | cons c s =>
      cases hp : pick st (c :: s) lexRules with
      | none => exact absurd hp (pick_cons st c s)
      | some x =>
        obtain ⟨n, r⟩ := x
        obtain ⟨h1, h2, h3, h4⟩ := pick_some hp
        obtain ⟨h5, h6, _⟩ := (longest_eq h3).mp h4
        obtain ⟨pre, post, e, hs, hx⟩ := lexGo_spelled (r.next.getD st) ((c :: s).drop n) (by simp only [List.length_drop, List.length_cons] at h ⊢; omega)
        have ew : c :: s = (c :: s).take n ++ (pre ++ post) := by rw [← e, List.take_append_drop]
        simp only [lexGo, hp]
        cases ht : r.kind.tok ((c :: s).take n) with
        | none =>
          refine ⟨(c :: s).take n ++ pre, post, by rw [List.append_assoc, ← ew], .skip (skipped h1 h6 ?_) hs, hx⟩
          cases hk : r.kind <;> rw [hk] at ht <;> first | rfl | cases ht
        | some t =>
          simp only
          split
          · next he =>
            refine ⟨[], c :: s, rfl, .nil, ?_⟩
            intro d hd
            cases hd
            have := spells h1 h6 ht
            cases t with
            | char d =>
              have hd : (c :: s).take n = [d] := this
              obtain ⟨m, rfl⟩ : ∃ m, n = m + 1 := ⟨n - 1, by omega⟩
              rw [List.take_succ_cons] at hd
              simp only [List.cons.injEq] at hd
              rw [hd.1]
              simpa [Tok.isEnd, Stops] using he
            | _ => cases he
          · exact ⟨(c :: s).take n ++ pre, post, by rw [List.append_assoc, ← ew], .word (spells h1 h6 ht) hs, hx⟩

end Bf.Cli
