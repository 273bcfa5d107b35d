import Verif.User.TextAddr
import Verif.Props.C38_Doc
import Verif.Props.C43_Text
/-! # What the callbacks read -/
namespace Bf
open Spec

/-! ## Pieces -/

theorem digit10_iff {c : Char} : (∃ v, v < 10 ∧ DigitIs c v) ↔ isDigit c = true := by
  simp only [digitIs_iff, isDigit, isDigitOf, decide_eq_true_eq]
  exact ⟨fun ⟨v, h1, h2, _⟩ => by omega, fun h => ⟨_, h, rfl, by omega⟩⟩

theorem starts_iff {s : List Char} : startsDigit s = true ↔ ∃ c v, s.head? = some c ∧ v < 10 ∧ DigitIs c v := by
  unfold startsDigit
  cases s with
  | nil => simp
  | cons c s =>
    simp only [List.head?_cons, Option.map_some, Option.getD_some, ← digit10_iff]
    constructor
    · rintro ⟨v, h⟩; exact ⟨c, v, rfl, h⟩
    · rintro ⟨_, v, e, h⟩; cases e; exact ⟨v, h⟩

theorem halves_parts {len : Nat} {sep : Char} {s a b : List Char} (hl : s.length < len) (hh : s.head? ≠ some sep) (h : halves len sep s = some (a, b)) :
    s = a ++ sep :: b ∧ (∀ c ∈ a, c ≠ sep) ∧ a ≠ [] ∧ b ≠ [] := by
  unfold halves strncpy strtok at h
  rw [List.take_of_length_le (by omega)] at h
  have hd : s.dropWhile (fun c => decide (c = sep)) = s := by
    cases s with
    | nil => rfl
    | cons c s => rw [List.dropWhile_cons, if_neg (by simpa using hh)]
  dsimp only at h
  rw [hd] at h
  by_cases hs : s = []
  · rw [if_pos hs] at h; cases h
  · rw [if_neg hs] at h
    dsimp only at h
    split at h
    · cases h
    · next hb =>
      cases h
      have e := List.takeWhile_append_dropWhile (p := fun c => !decide (c = sep)) (l := s)
      have hp : ∀ c ∈ s.takeWhile (fun c => !decide (c = sep)), c ≠ sep := fun c hc => by
        simpa using mem_takeWhile_imp hc
      cases hdw : s.dropWhile (fun c => !decide (c = sep)) with
      | nil => rw [hdw] at hb; exact absurd rfl hb
      | cons c t =>
        have hc : c = sep := by
          have := List.head_dropWhile_not (p := fun c => !decide (c = sep)) (l := s) (by rw [hdw]; simp)
          simp only [hdw, List.head_cons] at this
          simpa using this
        rw [hdw, hc] at e
        refine ⟨by rw [List.tail_cons]; exact e.symm, hp, fun e0 => ?_, by rw [hdw] at hb; exact hb⟩
        rw [e0] at e
        rw [← e] at hh
        exact hh rfl

theorem numeral_front {b : Nat} (hb : b ≤ 16) {s : List Char} {n : Nat} (h : Numeral b s n) : s ≠ [] ∧ Front s :=
  ⟨((numeral_iff hb).mp h).1, front_digits (by omega) ((numeral_iff hb).mp h).2.1⟩

theorem hex_front {s : List Char} {n : Nat} (h : Hex s n) : s ≠ [] ∧ Front s := by
  obtain ⟨x, d, _, rfl, _⟩ := h
  refine ⟨by simp, fun c hc => ?_⟩
  cases hc
  decide

theorem number_front {s : List Char} {n : Nat} (h : NumText s n) : s ≠ [] ∧ Front s := by
  rcases h with h | ⟨_, h | h⟩
  · exact numeral_front (by omega) h
  · exact hex_front h
  · exact numeral_front (by omega) h

theorem cnumber_front {s : List Char} {n : Nat} (h : CNumber s n) : s ≠ [] ∧ Front s := by
  rcases h with h | ⟨_, h⟩ | ⟨_, h⟩
  · exact hex_front h
  · exact numeral_front (by omega) h
  · exact numeral_front (by omega) h

theorem numeral_no {b : Nat} (hb : b ≤ 16) {s : List Char} {n : Nat} (h : Numeral b s n) {sep : Char} (hs : isDigitOf 16 sep = false) : ∀ c ∈ s, c ≠ sep := by
  rintro c hc rfl
  have := ((numeral_iff hb).mp h).2.1 c hc
  simp only [isDigitOf, decide_eq_true_eq, decide_eq_false_iff_not] at this hs
  omega

theorem number_no {s : List Char} {n : Nat} (h : NumText s n) : ∀ c ∈ s, c ≠ '-' := by
  rcases h with h | ⟨_, ⟨x, d, hx, rfl, h⟩ | h⟩
  · exact numeral_no (by omega) h (by decide)
  · intro c hc
    rcases List.mem_cons.mp hc with rfl | hc
    · decide
    · rcases List.mem_cons.mp hc with rfl | hc
      · rcases hx with rfl | rfl <;> decide
      · exact numeral_no (by omega) h (by decide) c hc
  · exact numeral_no (by omega) h (by decide)

theorem named_iff {f : String → Res Nat} {names : String → Nat → Prop} (hf : ∀ s n, f s = .ok n ↔ ∃ x, names x n ∧ lower s = lower x) {max : Nat} (hm : max < 18446744073709551615)
    {s : List Char} {n : Nat} (hs : NumText s n ∨ (s ≠ [] ∧ Front s)) : parseNamed f max s = some n ↔ NamedBy names max s n := by
  unfold parseNamed NamedBy ofName
  cases hr : f (String.ofList s) with
  | ok m =>
    obtain ⟨x, h1, h2⟩ := (hf _ _).mp hr
    constructor
    · intro h; cases h; exact Or.inl ⟨x, h1, h2⟩
    · rintro (⟨y, h3, h4⟩ | ⟨h3, _⟩)
      · have := (hf _ _).mpr ⟨y, h3, h4⟩
        rw [hr] at this
        cases this
        rfl
      · exact absurd h2 (h3 x m h1)
  | err e =>
    have hno : ∀ x m, names x m → lower (String.ofList s) ≠ lower x := fun x m h1 h2 => by
      have := (hf _ _).mpr ⟨x, h1, h2⟩
      rw [hr] at this; cases this
    have hs' : s ≠ [] ∧ Front s := hs.elim number_front id
    dsimp only
    rw [strtoulMax_iff hs'.1 hs'.2 hm]
    constructor
    · intro h; exact Or.inr ⟨hno, h⟩
    · rintro (⟨y, h3, h4⟩ | ⟨_, h⟩)
      · exact absurd h4 (hno y n h3)
      · exact h
  | ub =>
    have hno : ∀ x m, names x m → lower (String.ofList s) ≠ lower x := fun x m h1 h2 => by
      have := (hf _ _).mpr ⟨x, h1, h2⟩
      rw [hr] at this; cases this
    have hs' : s ≠ [] ∧ Front s := hs.elim number_front id
    dsimp only
    rw [strtoulMax_iff hs'.1 hs'.2 hm]
    constructor
    · intro h; exact Or.inr ⟨hno, h⟩
    · rintro (⟨y, h3, h4⟩ | ⟨_, h⟩)
      · exact absurd h4 (hno y n h3)
      · exact h

theorem named_of {f : String → Res Nat} {names : String → Nat → Prop} (hf : ∀ s n, f s = .ok n ↔ ∃ x, names x n ∧ lower s = lower x) {max : Nat} (hm : max < 18446744073709551615)
    {s : List Char} {n : Nat} (h : NamedBy names max s n) : parseNamed f max s = some n := by
  rcases h with ⟨x, h1, h2⟩ | ⟨h1, h2, h3⟩
  · unfold parseNamed ofName
    rw [(hf _ _).mpr ⟨x, h1, h2⟩]
  · exact (named_iff hf hm (Or.inl h2)).mpr (Or.inr ⟨h1, h2, h3⟩)

theorem ether_names (s : String) (n : Nat) : ethertypeFromStr s = .ok n ↔ ∃ x, EtherName x n ∧ lower s = lower x := by
  unfold ethertypeFromStr
  constructor
  · intro h
    split at h
    · next h4 => cases h; exact ⟨_, .ipv4, (streqI_iff' _ _).mp h4⟩
    · split at h
      · next h6 => cases h; exact ⟨_, .ipv6, (streqI_iff' _ _).mp h6⟩
      · cases h
  · rintro ⟨x, hx, h⟩
    cases hx
    · rw [if_pos ((streqI_iff' _ _).mpr h)]
    · rw [if_neg, if_pos ((streqI_iff' _ _).mpr h)]
      intro h4
      have := (streqI_iff' _ _).mp h4
      rw [this] at h
      revert h
      decide

/-! ## Flags -/

theorem parseFlagsGo_iff : ∀ (fuel : Nat) (s : List Char) (fl v : Nat), s.length < fuel →
    (parseFlagsGo fuel s fl = some v ↔ (∀ t ∈ tokens (· = ',') s, ∃ n, tcpFlagFromStr (String.ofList t) = .ok n) ∧
      ∀ n, v.testBit n = true ↔ fl.testBit n = true ∨ ∃ t ∈ tokens (· = ',') s, tcpFlagFromStr (String.ofList t) = .ok n)
  | 0, s, fl, v, h => by omega
  | fuel + 1, s, fl, v, hlen => by
    rw [parseFlagsGo, tokens_strtok]
    cases hs : strtok (fun c => decide (c = ',')) s with
    | none =>
      dsimp only
      constructor
      · intro h; cases h; simp
      · rintro ⟨_, h⟩
        congr 1
        apply Nat.eq_of_testBit_eq
        intro i
        have := h i
        simp only [List.not_mem_nil, false_and, exists_false, or_false] at this
        exact Bool.eq_iff_iff.mpr this.symm
    | some x =>
      obtain ⟨tok, rest⟩ := x
      dsimp only
      have hl := strtok_length hs
      unfold ofName
      cases hf : tcpFlagFromStr (String.ofList tok) with
      | ok f =>
        dsimp only
        rw [parseFlagsGo_iff fuel rest (fl ||| 2 ^ f) v (by omega)]
        simp only [List.mem_cons, forall_eq_or_imp, exists_eq_or_imp, hf, Nat.testBit_or, Nat.testBit_two_pow, Bool.or_eq_true, decide_eq_true_eq, Res.ok.injEq,
          exists_eq', true_and]
        constructor
        · rintro ⟨h1, h2⟩
          refine ⟨h1, fun n => ?_⟩
          rw [h2 n, or_assoc]
        · rintro ⟨h1, h2⟩
          refine ⟨h1, fun n => ?_⟩
          rw [h2 n, or_assoc]
      | err e =>
        dsimp only
        constructor
        · intro h; cases h
        · rintro ⟨h, _⟩
          obtain ⟨n, hn⟩ := h tok (by simp)
          rw [hf] at hn; cases hn
      | ub =>
        dsimp only
        constructor
        · intro h; cases h
        · rintro ⟨h, _⟩
          obtain ⟨n, hn⟩ := h tok (by simp)
          rw [hf] at hn; cases hn

theorem parseFlags_iff {s : List Char} {v : Nat} : parseFlags s = some v ↔ FlagsText s v := by
  have hd := C38_understood.2.2.2.2.2.2.1
  unfold parseFlags FlagsText
  rw [parseFlagsGo_iff _ _ _ _ (by omega)]
  simp only [hd, Nat.zero_testBit, Bool.false_eq_true, false_or]

theorem flags_lt {s : List Char} {v : Nat} (h : FlagsText s v) : v < 256 := by
  apply Nat.lt_pow_two_of_testBit v (n := 8)
  intro i hi
  cases hb : v.testBit i with
  | false => rfl
  | true =>
    obtain ⟨t, _, x, hx, _⟩ := (h.2 i).mp hb
    unfold Doc.tcpFlag at hx
    split at hx <;> first | omega | cases hx

end Bf
