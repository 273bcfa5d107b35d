import Verif.Spec.PayloadText
/-! # Numbers that are read are those that are written -/
namespace Bf
open Spec

theorem digitIs_iff {c : Char} {v : Nat} : DigitIs c v ↔ digitVal c = v ∧ v < 16 := by
  constructor
  · intro h
    have hv : v < 16 := by
      rcases h with h | h
      · exact (List.getElem?_eq_some_iff.mp h).1
      · exact (List.getElem?_eq_some_iff.mp h).1
    have key : ∀ v < 16, ∀ c ∈ "0123456789abcdef".toList[v]?, digitVal c = v := by decide
    have key' : ∀ v < 16, ∀ c ∈ "0123456789ABCDEF".toList[v]?, digitVal c = v := by decide
    rcases h with h | h
    · exact ⟨key v hv c h, hv⟩
    · exact ⟨key' v hv c h, hv⟩
  · rintro ⟨rfl, hv⟩
    have hb : c.toNat < 128 := by
      unfold digitVal at hv
      have l : ∀ {a b : Char}, a ≤ b ↔ a.toNat ≤ b.toNat := Iff.rfl
      split at hv
      · rename_i h; have := l.mp h.2; have e : '9'.toNat = 57 := rfl; omega
      · split at hv
        · rename_i h; have := l.mp h.2; have e : 'z'.toNat = 122 := rfl; omega
        · split at hv
          · rename_i h; have := l.mp h.2; have e : 'Z'.toNat = 90 := rfl; omega
          · omega
    have key : ∀ n < 128, digitVal (Char.ofNat n) < 16 →
        ("0123456789abcdef".toList[digitVal (Char.ofNat n)]? = some (Char.ofNat n) ∨ "0123456789ABCDEF".toList[digitVal (Char.ofNat n)]? = some (Char.ofNat n)) := by
      decide +kernel
    have := key c.toNat hb
    rw [Char.ofNat_toNat] at this
    exact this hv

theorem numeral_iff {b : Nat} (hb : b ≤ 16) {w : List Char} {n : Nat} :
    Numeral b w n ↔ w ≠ [] ∧ (∀ c ∈ w, isDigitOf b c = true) ∧ digitsVal b w = n := by
  constructor
  · intro h
    induction h with
    | @one c v h1 h2 =>
      obtain ⟨h3, _⟩ := digitIs_iff.mp h1
      refine ⟨by simp, fun d hd => ?_, ?_⟩
      · cases List.mem_singleton.mp hd
        simp [isDigitOf, h3, h2]
      · simp [digitsVal, h3]
    | @more w c n v _ h1 h2 ih =>
      obtain ⟨h3, _⟩ := digitIs_iff.mp h1
      refine ⟨by simp, fun d hd => ?_, ?_⟩
      · rcases List.mem_append.mp hd with hd | hd
        · exact ih.2.1 d hd
        · cases List.mem_singleton.mp hd
          simp [isDigitOf, h3, h2]
      · rw [digitsVal_append, ih.2.2, h3]
  · have key : ∀ (k : Nat) (w : List Char), w.length = k → w ≠ [] → (∀ c ∈ w, isDigitOf b c = true) → Numeral b w (digitsVal b w) := by
      intro k
      induction k with
      | zero => intro w hl hne; exact absurd (List.length_eq_zero_iff.mp hl) hne
      | succ k ih =>
        intro w hl hne hd
        have hw := List.dropLast_concat_getLast hne
        generalize hi : w.dropLast = i at hw
        generalize w.getLast hne = c at hw
        subst hw
        have hc : digitVal c < b := by simpa [isDigitOf] using hd c (List.mem_append_right _ List.mem_cons_self)
        have hdc := digitIs_iff.mpr ⟨rfl, (by omega : digitVal c < 16)⟩
        by_cases hnil : i = []
        · subst hnil
          have : digitsVal b ([] ++ [c]) = digitVal c := by simp [digitsVal]
          rw [this]
          exact .one hdc hc
        · rw [digitsVal_append]
          exact .more (ih i (by simpa using hl) hnil fun x hx => hd x (List.mem_append_left _ hx)) hdc hc
    rintro ⟨h1, h2, rfl⟩
    exact key _ w rfl h1 h2

theorem numeral_unique {b : Nat} (hb : b ≤ 16) {w : List Char} {n m : Nat} (h1 : Numeral b w n) (h2 : Numeral b w m) : n = m := by
  rw [← ((numeral_iff hb).mp h1).2.2, ((numeral_iff hb).mp h2).2.2]

/-- Does not begin with a blank or a sign. -/
def Front (s : List Char) : Prop := ∀ c, s.head? = some c → isSpace c = false ∧ c ≠ '-' ∧ c ≠ '+'

theorem front_digits {b : Nat} (hb : b ≤ 36) {s : List Char} (h : ∀ c ∈ s, isDigitOf b c = true) : Front s :=
  fun c hc => isDigitOf_not_space hb (h c (List.mem_of_head? hc))

/-- The base and the digits `strtoul` reads. -/
def radix (base : Nat) (s : List Char) : Nat × List Char :=
  if (base = 0 ∨ base = 16) ∧ s.head? = some '0' ∧ (s.tail.head? = some 'x' ∨ s.tail.head? = some 'X') ∧ (s.tail.tail.head?.map (isDigitOf 16)) = some true
  then (16, s.tail.tail)
  else (if base = 0 then (if s.head? = some '0' then 8 else 10) else base, s)

theorem strtoInt_front {base : Nat} {s : List Char} (h : Front s) : strtoInt base s =
    if (radix base s).2.takeWhile (isDigitOf (radix base s).1) = [] then none
    else some (false, digitsVal (radix base s).1 ((radix base s).2.takeWhile (isDigitOf (radix base s).1)), (radix base s).2.dropWhile (isDigitOf (radix base s).1)) := by
  have hd : s.dropWhile isSpace = s := by
    cases s with
    | nil => rfl
    | cons c s => rw [List.dropWhile_cons, (h c rfl).1]; rfl
  have hm : s.head? ≠ some '-' := fun e => (h _ e).2.1 rfl
  have hp : s.head? ≠ some '+' := fun e => (h _ e).2.2 rfl
  unfold strtoInt radix
  simp only [hd, hm, hp, or_self, if_false, decide_false]
  split <;> rfl

theorem all_of_drop {α : Type} {p : α → Bool} : ∀ {l : List α}, l.dropWhile p = [] → ∀ x ∈ l, p x = true
  | [], _, x, hx => by cases hx
  | a :: l, h, x, hx => by
    rw [List.dropWhile_cons] at h
    cases hp : p a with
    | false => rw [hp] at h; cases h
    | true =>
      rw [hp] at h
      rcases List.mem_cons.mp hx with rfl | hx
      · exact hp
      · exact all_of_drop h x hx

/-- The whole text is read, as `n`. -/
theorem strtoInt_whole {base : Nat} {s : List Char} (h : Front s) {neg : Bool} {n : Nat} : strtoInt base s = some (neg, n, []) ↔
    neg = false ∧ (radix base s).2 ≠ [] ∧ (∀ c ∈ (radix base s).2, isDigitOf (radix base s).1 c = true) ∧ digitsVal (radix base s).1 (radix base s).2 = n := by
  rw [strtoInt_front h]
  generalize radix base s = r
  constructor
  · intro e
    split at e
    · cases e
    · rename_i hne
      simp only [Option.some.injEq, Prod.mk.injEq] at e
      obtain ⟨e1, e2, e3⟩ := e
      have hall := all_of_drop e3
      rw [takeWhile_eq_self hall] at e2 hne
      exact ⟨e1.symm, hne, hall, e2⟩
  · rintro ⟨rfl, hne, hall, rfl⟩
    rw [takeWhile_eq_self hall, dropWhile_eq_nil hall, if_neg hne]

theorem radix_ten (s : List Char) : radix 10 s = (10, s) := by
  unfold radix
  rw [if_neg (by rintro ⟨h | h, _⟩ <;> cases h), if_neg (by decide)]

/-- Base 10. -/
theorem strtoInt_ten {s : List Char} (h : Front s) {neg : Bool} {n : Nat} : strtoInt 10 s = some (neg, n, []) ↔ neg = false ∧ Numeral 10 s n := by
  rw [strtoInt_whole h, radix_ten, numeral_iff (by omega)]

/-- Base 16 and base 0. -/
theorem hex_iff {s : List Char} {n : Nat} {base : Nat} (hb : base = 0 ∨ base = 16) :
    Hex s n ↔ radix base s = (16, s.tail.tail) ∧ s.head? = some '0' ∧ (s.tail.head? = some 'x' ∨ s.tail.head? = some 'X') ∧ Numeral 16 s.tail.tail n := by
  constructor
  · rintro ⟨x, d, hx, rfl, hn⟩
    refine ⟨?_, rfl, ?_, hn⟩
    · unfold radix
      refine if_pos ⟨hb, rfl, ?_, ?_⟩
      · rcases hx with rfl | rfl
        · exact Or.inl rfl
        · exact Or.inr rfl
      · obtain ⟨h1, h2, _⟩ := (numeral_iff (Nat.le_refl _)).mp hn
        obtain ⟨c, t, rfl⟩ := List.exists_cons_of_ne_nil h1
        show some (isDigitOf 16 c) = some true
        rw [h2 c List.mem_cons_self]
    · rcases hx with rfl | rfl
      · exact Or.inl rfl
      · exact Or.inr rfl
  · rintro ⟨_, h1, h2, h3⟩
    cases s with
    | nil => cases h1
    | cons c s =>
      cases h1
      cases s with
      | nil => rcases h2 with h | h <;> cases h
      | cons x d =>
        refine ⟨x, d, ?_, rfl, h3⟩
        rcases h2 with h | h
        · exact Or.inl (Option.some.inj h)
        · exact Or.inr (Option.some.inj h)

theorem radix_cases (base : Nat) (hb : base = 0 ∨ base = 16) (s : List Char) :
    (radix base s = (16, s.tail.tail) ∧ s.head? = some '0' ∧ (s.tail.head? = some 'x' ∨ s.tail.head? = some 'X')) ∨
    ((∀ n, ¬ Hex s n) ∧ radix base s = (if base = 0 then (if s.head? = some '0' then 8 else 10) else base, s)) := by
  by_cases h : (base = 0 ∨ base = 16) ∧ s.head? = some '0' ∧ (s.tail.head? = some 'x' ∨ s.tail.head? = some 'X') ∧ (s.tail.tail.head?.map (isDigitOf 16)) = some true
  · exact Or.inl ⟨if_pos h, h.2.1, h.2.2.1⟩
  · refine Or.inr ⟨fun n hn => ?_, if_neg h⟩
    obtain ⟨h1, h2, h3, h4⟩ := (hex_iff hb).mp hn
    refine h ⟨hb, h2, h3, ?_⟩
    obtain ⟨h5, h6, _⟩ := (numeral_iff (Nat.le_refl _)).mp h4
    obtain ⟨c, t, e⟩ := List.exists_cons_of_ne_nil h5
    rw [e]
    show some (isDigitOf 16 c) = some true
    rw [h6 c (by rw [e]; exact List.mem_cons_self)]

theorem not_x {s : List Char} {b : Nat} (hb : b ≤ 16) (h1 : s.tail.head? = some 'x' ∨ s.tail.head? = some 'X') (h : ∀ c ∈ s, isDigitOf b c = true) : False := by
  have hx : ∀ x, s.tail.head? = some x → isDigitOf b x = true := fun x e => h x (List.mem_of_mem_tail (List.mem_of_head? e))
  have : ∀ x, isDigitOf b x = true → digitVal x < 16 := fun x e => by
    have : digitVal x < b := by simpa [isDigitOf] using e
    omega
  rcases h1 with h1 | h1
  · exact absurd (this _ (hx _ h1)) (by decide)
  · exact absurd (this _ (hx _ h1)) (by decide)

theorem strtoInt_sixteen {s : List Char} (h : Front s) {neg : Bool} {n : Nat} : strtoInt 16 s = some (neg, n, []) ↔ neg = false ∧ (Hex s n ∨ Numeral 16 s n) := by
  rw [strtoInt_whole h]
  rcases radix_cases 16 (Or.inr rfl) s with ⟨e, h1, h2⟩ | ⟨h1, e⟩
  · rw [e]
    constructor
    · rintro ⟨a, b⟩
      exact ⟨a, Or.inl ((hex_iff (Or.inr rfl)).mpr ⟨e, h1, h2, (numeral_iff (Nat.le_refl _)).mpr b⟩)⟩
    · rintro ⟨a, b | b⟩
      · exact ⟨a, (numeral_iff (Nat.le_refl _)).mp ((hex_iff (Or.inr rfl)).mp b).2.2.2⟩
      · exact (not_x (Nat.le_refl _) h2 ((numeral_iff (Nat.le_refl _)).mp b).2.1).elim
  · rw [e, if_neg (by decide), numeral_iff (Nat.le_refl _)]
    constructor
    · rintro ⟨a, b⟩; exact ⟨a, Or.inr b⟩
    · rintro ⟨a, b | b⟩
      · exact absurd b (h1 n)
      · exact ⟨a, b⟩

theorem strtoInt_zero {s : List Char} (h : Front s) {neg : Bool} {n : Nat} : strtoInt 0 s = some (neg, n, []) ↔ neg = false ∧ CNumber s n := by
  rw [strtoInt_whole h]
  rcases radix_cases 0 (Or.inl rfl) s with ⟨e, h1, h2⟩ | ⟨h1, e⟩
  · rw [e]
    constructor
    · rintro ⟨a, b⟩
      exact ⟨a, Or.inl ((hex_iff (Or.inl rfl)).mpr ⟨e, h1, h2, (numeral_iff (Nat.le_refl _)).mpr b⟩)⟩
    · rintro ⟨a, b | ⟨_, b⟩ | ⟨b, _⟩⟩
      · exact ⟨a, (numeral_iff (Nat.le_refl _)).mp ((hex_iff (Or.inl rfl)).mp b).2.2.2⟩
      · exact (not_x (by omega) h2 ((numeral_iff (by omega)).mp b).2.1).elim
      · exact absurd h1 b
  · rw [e, if_pos rfl]
    unfold CNumber
    by_cases h0 : s.head? = some '0'
    · rw [if_pos h0, numeral_iff (b := 8) (by omega)]
      constructor
      · rintro ⟨a, b⟩; exact ⟨a, Or.inr (Or.inl ⟨h0, b⟩)⟩
      · rintro ⟨a, b | ⟨_, b⟩ | ⟨b, _⟩⟩
        · exact absurd b (h1 n)
        · exact ⟨a, b⟩
        · exact absurd h0 b
    · rw [if_neg h0, numeral_iff (b := 10) (by omega)]
      constructor
      · rintro ⟨a, b⟩; exact ⟨a, Or.inr (Or.inr ⟨h0, b⟩)⟩
      · rintro ⟨a, b | ⟨b, _⟩ | ⟨_, b⟩⟩
        · exact absurd b (h1 n)
        · exact absurd b h0
        · exact ⟨a, b⟩

/-- `strtoul` reads the whole text. -/
theorem strtoul_whole {s : List Char} {base v : Nat} {range : Bool} (hne : s ≠ []) (h : Front s) : strtoul s base = ⟨v, [], range⟩ ↔
    ∃ n, strtoInt base s = some (false, n, []) ∧ ((n < 18446744073709551616 ∧ v = n ∧ range = false) ∨
      (18446744073709551616 ≤ n ∧ v = 18446744073709551615 ∧ range = true)) := by
  unfold strtoul
  have hneg : ∀ x, strtoInt base s = some x → x.1 = false := by
    intro x hx
    rw [strtoInt_front h] at hx
    split at hx
    · cases hx
    · cases hx; rfl
  cases hi : strtoInt base s with
  | none =>
    constructor
    · intro e
      exact absurd (congrArg Strtoul.rest e) hne
    · rintro ⟨n, e, _⟩; cases e
  | some x =>
    obtain ⟨neg, n, rest⟩ := x
    have := hneg _ hi
    simp only at this
    subst this
    dsimp only
    constructor
    · intro e
      split at e
      · cases e; exact ⟨n, rfl, Or.inr ⟨‹_›, rfl, rfl⟩⟩
      · cases e; exact ⟨n, rfl, Or.inl ⟨by omega, rfl, rfl⟩⟩
    · rintro ⟨m, e, h | h⟩
      · cases e
        rw [if_neg (by omega), h.2.1, h.2.2]
        rfl
      · cases e
        rw [if_pos h.1, h.2.1, h.2.2]

theorem parseDec_iff {s : List Char} (hne : s ≠ []) (h : Front s) {max n : Nat} (hm : max < 18446744073709551615) : parseDec s max = some n ↔ Numeral 10 s n ∧ n ≤ max := by
  unfold parseDec
  dsimp only
  constructor
  · intro e
    split at e
    · rename_i hc
      cases e
      have e2 : strtoul s 10 = ⟨(strtoul s 10).val, [], (strtoul s 10).range⟩ := by rw [← hc.1]
      obtain ⟨m, h1, h2⟩ := (strtoul_whole hne h).mp e2
      rcases h2 with ⟨_, h2, _⟩ | ⟨_, h2, _⟩
      · rw [h2] at hc ⊢
        exact ⟨((strtoInt_ten h).mp h1).2, hc.2⟩
      · omega
    · cases e
  · rintro ⟨h1, h2⟩
    have := (strtoul_whole (base := 10) (v := n) (range := false) hne h).mpr ⟨n, (strtoInt_ten h).mpr ⟨rfl, h1⟩, Or.inl ⟨by omega, rfl, rfl⟩⟩
    rw [this]
    exact if_pos ⟨rfl, h2⟩

theorem digitsVal_lt {b : Nat} : ∀ (s : List Char), (∀ c ∈ s, isDigitOf b c = true) → digitsVal b s < b ^ s.length := by
  intro s
  induction hn : s.length generalizing s with
  | zero => intro _; rw [List.length_eq_zero_iff.mp hn]; simp [digitsVal]
  | succ k ih =>
    intro hd
    have hne : s ≠ [] := by intro e; rw [e] at hn; cases hn
    have hw := List.dropLast_concat_getLast hne
    generalize s.dropLast = i at hw
    generalize s.getLast hne = c at hw
    subst hw
    have hc : digitVal c < b := by simpa [isDigitOf] using hd c (List.mem_append_right _ List.mem_cons_self)
    have := ih i (by simpa using hn) fun x hx => hd x (List.mem_append_left _ hx)
    rw [digitsVal_append, Nat.pow_succ]
    have h2 : (digitsVal b i + 1) * b ≤ b ^ k * b := Nat.mul_le_mul_right _ this
    rw [Nat.add_mul] at h2
    omega

theorem parsePrefix_iff {s : List Char} (hne : s ≠ []) (h : Front s) (hl : s.length ≤ 9) {max n : Nat} (hm : max < 4294967295) :
    parsePrefix s max = some n ↔ Numeral 10 s n ∧ n ≤ max := by
  have small : ∀ m, Numeral 10 s m → m < 1000000000 := by
    intro m hn
    obtain ⟨_, h2, h3⟩ := (numeral_iff (by omega)).mp hn
    have := digitsVal_lt s h2
    rw [h3] at this
    exact Nat.lt_of_lt_of_le this (Nat.pow_le_pow_right (by omega) hl)
  unfold parsePrefix
  dsimp only
  constructor
  · intro e
    split at e
    · rename_i hc
      cases e
      have e2 : strtoul s 10 = ⟨(strtoul s 10).val, [], (strtoul s 10).range⟩ := by rw [← hc.1]
      obtain ⟨m, h1, h2⟩ := (strtoul_whole hne h).mp e2
      have hn := ((strtoInt_ten h).mp h1).2
      have hs := small m hn
      rcases h2 with ⟨_, h2, _⟩ | ⟨h2, _, _⟩
      · rw [h2] at hc ⊢
        rw [Nat.mod_eq_of_lt (by omega)] at hc ⊢
        exact ⟨hn, hc.2⟩
      · omega
    · cases e
  · rintro ⟨h1, h2⟩
    have := (strtoul_whole (base := 10) (v := n) (range := false) hne h).mpr ⟨n, (strtoInt_ten h).mpr ⟨rfl, h1⟩, Or.inl ⟨by omega, rfl, rfl⟩⟩
    rw [this]
    dsimp only
    rw [Nat.mod_eq_of_lt (by omega), if_pos ⟨rfl, h2⟩]

theorem digitsVal_mono {s : List Char} : digitsVal 10 s ≤ digitsVal 16 s := by
  induction hn : s.length generalizing s with
  | zero => rw [List.length_eq_zero_iff.mp hn]; simp [digitsVal]
  | succ k ih =>
    have hne : s ≠ [] := by intro e; rw [e] at hn; cases hn
    have hw := List.dropLast_concat_getLast hne
    generalize s.dropLast = i at hw
    generalize s.getLast hne = c at hw
    subst hw
    have := ih (s := i) (by simpa using hn)
    rw [digitsVal_append, digitsVal_append]
    omega

theorem digits_hex {s : List Char} (h : ∀ c ∈ s, isDigitOf 10 c = true) : ∀ c ∈ s, isDigitOf 16 c = true := by
  intro c hc
  have := h c hc
  simp only [isDigitOf, decide_eq_true_eq] at this ⊢
  omega

theorem strtoulMax_iff {s : List Char} (hne : s ≠ []) (h : Front s) {max n : Nat} (hm : max < 18446744073709551615) : strtoulMax s max = some n ↔ NumText s n ∧ n ≤ max := by
  have whole : ∀ base, ((strtoul s base).rest ≠ [] ∨ (strtoul s base).range = true) ∨ ∃ m, strtoul s base = ⟨m, [], false⟩ := by
    intro base
    by_cases h1 : (strtoul s base).rest = []
    · cases h2 : (strtoul s base).range with
      | true => exact Or.inl (Or.inr rfl)
      | false => exact Or.inr ⟨(strtoul s base).val, by rw [← h1, ← h2]⟩
    · exact Or.inl (Or.inl h1)
  have ten : ∀ m, strtoul s 10 = ⟨m, [], false⟩ ↔ Numeral 10 s m ∧ m < 18446744073709551616 := by
    intro m
    rw [strtoul_whole hne h]
    constructor
    · rintro ⟨k, h1, ⟨h2, rfl, _⟩ | ⟨_, _, h2⟩⟩
      · exact ⟨((strtoInt_ten h).mp h1).2, h2⟩
      · cases h2
    · rintro ⟨h1, h2⟩
      exact ⟨m, (strtoInt_ten h).mpr ⟨rfl, h1⟩, Or.inl ⟨h2, rfl, rfl⟩⟩
  have sixteen : ∀ m, strtoul s 16 = ⟨m, [], false⟩ ↔ (Hex s m ∨ Numeral 16 s m) ∧ m < 18446744073709551616 := by
    intro m
    rw [strtoul_whole hne h]
    constructor
    · rintro ⟨k, h1, ⟨h2, rfl, _⟩ | ⟨_, _, h2⟩⟩
      · exact ⟨((strtoInt_sixteen h).mp h1).2, h2⟩
      · cases h2
    · rintro ⟨h1, h2⟩
      exact ⟨m, (strtoInt_sixteen h).mpr ⟨rfl, h1⟩, Or.inl ⟨h2, rfl, rfl⟩⟩
  -- a decimal number that is too large is too large in base 16
  have large : ∀ m k, Numeral 10 s m → (Hex s k ∨ Numeral 16 s k) → m ≤ k := by
    intro m k h1 h2
    obtain ⟨_, hd, rfl⟩ := (numeral_iff (by omega)).mp h1
    rcases h2 with h2 | h2
    · obtain ⟨_, _, h3, _⟩ := (hex_iff (Or.inr rfl)).mp h2
      exact (not_x (by omega) h3 hd).elim
    · obtain ⟨_, _, rfl⟩ := (numeral_iff (by omega)).mp h2
      exact digitsVal_mono
  have filt : ∀ (o : Option Nat), o.filter (· ≤ max) = some n ↔ o = some n ∧ n ≤ max := by
    intro o
    rw [Option.filter_eq_some_iff]
    simp
  unfold strtoulMax
  rw [filt]
  unfold strtoulAny
  rw [if_neg hne]
  dsimp only
  rcases whole 10 with h1 | ⟨m, h1⟩
  · rw [if_pos h1]
    have hno : ∀ m, Numeral 10 s m → 18446744073709551616 ≤ m := by
      intro m hn
      refine Nat.le_of_not_lt fun hlt => ?_
      rw [(ten m).mpr ⟨hn, hlt⟩] at h1
      simp at h1
    rcases whole 16 with h2 | ⟨k, h2⟩
    · rw [if_pos h2]
      constructor
      · rintro ⟨e, _⟩; cases e
      · rintro ⟨hn, hle⟩
        exfalso
        rcases hn with hn | ⟨_, hn⟩
        · have := hno n hn; omega
        · rw [(sixteen n).mpr ⟨hn, by omega⟩] at h2
          simp at h2
    · have hk := (sixteen k).mp h2
      rw [h2, if_neg (by simp)]
      constructor
      · rintro ⟨e, hle⟩
        cases e
        refine ⟨Or.inr ⟨fun m hn => ?_, hk.1⟩, hle⟩
        have := hno m hn
        have := large m k hn hk.1
        omega
      · rintro ⟨hn, hle⟩
        rcases hn with hn | ⟨_, hn⟩
        · have := hno n hn; omega
        · have := (sixteen n).mpr ⟨hn, by omega⟩
          rw [h2] at this
          cases this
          exact ⟨rfl, hle⟩
  · have hm' := (ten m).mp h1
    rw [h1, if_neg (by simp)]
    constructor
    · rintro ⟨e, hle⟩
      cases e
      exact ⟨Or.inl hm'.1, hle⟩
    · rintro ⟨hn, hle⟩
      rcases hn with hn | ⟨hn, _⟩
      · exact ⟨by rw [numeral_unique (by omega) hm'.1 hn], hle⟩
      · exact absurd hm'.1 (hn m)

theorem parseMark_iff {s : List Char} (hne : s ≠ []) (h : Front s) {n : Nat} : parseMark s = some n ↔ CNumber s n ∧ n ≤ 4294967295 := by
  unfold parseMark strtoll
  dsimp only
  have hneg : ∀ x, strtoInt 0 s = some x → x.1 = false := by
    intro x hx
    rw [strtoInt_front h] at hx
    split at hx
    · cases hx
    · cases hx; rfl
  cases hi : strtoInt 0 s with
  | none =>
    dsimp only
    rw [if_pos hne]
    constructor
    · intro e; cases e
    · rintro ⟨hn, _⟩
      have := (strtoInt_zero (neg := false) h).mpr ⟨rfl, hn⟩
      rw [hi] at this
      cases this
  | some x =>
    obtain ⟨neg, m, rest⟩ := x
    have := hneg _ hi
    simp only at this
    subst this
    dsimp only
    simp only [Bool.false_eq_true, if_false]
    by_cases hr : rest = []
    · subst hr
      have hc := ((strtoInt_zero h).mp hi).2
      have uniq : ∀ k, CNumber s k → k = m := by
        intro k hk
        have := (strtoInt_zero (neg := false) h).mpr ⟨rfl, hk⟩
        rw [hi] at this
        cases this
        rfl
      rw [if_neg (by simp)]
      constructor
      · intro e
        by_cases hbig : 9223372036854775807 < m
        · rw [if_pos hbig, if_neg (by omega), if_pos (by omega)] at e
          cases e
        · rw [if_neg hbig] at e
          by_cases h4 : m ≤ 4294967295
          · rw [if_neg (by omega), if_neg (by omega), Int.toNat_natCast] at e
            cases e
            exact ⟨hc, h4⟩
          · rw [if_neg (by omega), if_pos (by omega)] at e
            cases e
      · rintro ⟨hk, hle⟩
        have := uniq n hk
        subst this
        rw [if_neg (show ¬ 9223372036854775807 < n by omega), if_neg (by omega), if_neg (by omega), Int.toNat_natCast]
    · rw [if_pos hr]
      constructor
      · intro e; cases e
      · rintro ⟨hn, _⟩
        have := (strtoInt_zero (neg := false) h).mpr ⟨rfl, hn⟩
        rw [hi] at this
        cases this
        exact absurd rfl hr

end Bf
