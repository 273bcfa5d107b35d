import Verif.User.TextNum
/-! # Addresses: what `inet_pton` reads -/
namespace Bf
open Spec

theorem digitChar_digitVal {c : Char} (h : isDigit c = true) : digitChar (digitVal c) = c := by
  have hd : digitVal c < 10 := by simpa [isDigit, isDigitOf] using h
  unfold digitVal at hd
  have hc : '0' ≤ c ∧ c ≤ '9' := by
    split at hd
    · assumption
    · split at hd
      · next h1 _ =>
        have : 97 ≤ c.toNat := by have := ‹'a' ≤ c ∧ c ≤ 'z'›.1; exact this
        omega
      · split at hd
        · have : 65 ≤ c.toNat := by have := ‹'A' ≤ c ∧ c ≤ 'Z'›.1; exact this
          omega
        · omega
  have h1 : 48 ≤ c.toNat := hc.1
  have h2 : c.toNat ≤ 57 := hc.2
  unfold digitVal digitChar
  rw [if_pos hc, if_pos (by omega), show 48 + (c.toNat - 48) = c.toNat by omega]
  exact Char.ofNat_toNat c

theorem printNat_snoc {n : Nat} {c : Char} (h : isDigit c = true) (hn : 0 < n) : printNat 10 (n * 10 + digitVal c) = printNat 10 n ++ [c] := by
  have hd : digitVal c < 10 := by simpa [isDigit, isDigitOf] using h
  rw [printNat_ge (by omega) (by omega), show (n * 10 + digitVal c) / 10 = n by omega, show (n * 10 + digitVal c) % 10 = digitVal c by omega,
    digitChar_digitVal h]

theorem printNat_digit {c : Char} (h : isDigit c = true) : printNat 10 (digitVal c) = [c] := by
  have hd : digitVal c < 10 := by simpa [isDigit, isDigitOf] using h
  rw [printNat_lt hd, digitChar_digitVal h]

/-- Digits without a zero in front are what is printed for their value. -/
theorem plain_print : ∀ (k : Nat) (s : List Char), s.length = k → s ≠ [] → (∀ c ∈ s, isDigitOf 10 c = true) → (s.head? = some '0' → s = ['0']) →
    s = printNat 10 (digitsVal 10 s)
  | 0, s, hk, hne, _, _ => absurd (List.length_eq_zero_iff.mp hk) hne
  | k + 1, s, hk, hne, hd, h0 => by
    rcases List.eq_nil_or_concat s with e | ⟨w, c, e⟩
    · exact absurd e hne
    · rw [List.concat_eq_append] at e
      subst e
      have hc : isDigit c = true := hd c (by simp)
      rw [digitsVal_append]
      by_cases hw : w = []
      · subst hw
        simp only [digitsVal, List.foldl_nil, Nat.zero_mul, Nat.zero_add, List.nil_append]
        exact (printNat_digit hc).symm
      · have hh : w.head? ≠ some '0' := by
          intro e
          have := h0 (by rw [List.head?_append, e]; rfl)
          have hl := congrArg List.length this
          have : 0 < w.length := List.length_pos_iff.mpr hw
          simp at hl
          exact hw hl
        have ih := plain_print k w (by simpa using hk) hw (fun c hc => hd c (by simp [hc])) (fun e => absurd e hh)
        have hp : 0 < digitsVal 10 w := by
          rcases Nat.eq_zero_or_pos (digitsVal 10 w) with e | e
          · rw [e] at ih
            rw [ih] at hh
            exact absurd (by decide +kernel) hh
          · exact e
        rw [printNat_snoc hc hp, ← ih]

theorem octet_iff {s : List Char} {n : Nat} : Octet s n ↔ s = printNat 10 n ∧ n ≤ 255 := by
  unfold Octet
  rw [numeral_iff (by omega)]
  constructor
  · rintro ⟨⟨h1, h2, h3⟩, h4, h5⟩
    exact ⟨by rw [← h3]; exact plain_print _ s rfl h1 h2 h5, h4⟩
  · rintro ⟨rfl, h⟩
    refine ⟨⟨printNat_ne _ _, printNat_digits (by omega) (by omega) n, digitsVal_printNat (by omega) (by omega) n⟩, h, fun e => ?_⟩
    by_cases h0 : n = 0
    · subst h0; decide +kernel
    · exfalso
      have key : ∀ m, 0 < m → (printNat 10 m).head? ≠ some '0' := by
        intro m
        induction m using Nat.strongRecOn with
        | _ m ih =>
          intro hm
          by_cases h : m < 10
          · rw [printNat_lt h]
            have : ∀ k : Fin 10, 0 < k.1 → [digitChar k.1].head? ≠ some '0' := by decide
            exact this ⟨m, h⟩ hm
          · rw [printNat_ge (by omega) (by omega)]
            have := ih (m / 10) (by omega) (by omega)
            cases hp : printNat 10 (m / 10) with
            | nil => exact absurd hp (printNat_ne _ _)
            | cons c t => rw [hp] at this; simpa using this
      exact key n (by omega) e

theorem addr4_iff {s : List Char} {x : List Nat} :
    Addr4 s x ↔ ∃ a b c d, s = ntop4 [a, b, c, d] ∧ x = [a, b, c, d] ∧ a ≤ 255 ∧ b ≤ 255 ∧ c ≤ 255 ∧ d ≤ 255 := by
  unfold Addr4
  constructor
  · rintro ⟨a, b, c, d, i, j, k, l, rfl, rfl, ha, hb, hc, hd⟩
    obtain ⟨rfl, h1⟩ := octet_iff.mp ha
    obtain ⟨rfl, h2⟩ := octet_iff.mp hb
    obtain ⟨rfl, h3⟩ := octet_iff.mp hc
    obtain ⟨rfl, h4⟩ := octet_iff.mp hd
    exact ⟨i, j, k, l, by simp [ntop4], rfl, h1, h2, h3, h4⟩
  · rintro ⟨a, b, c, d, rfl, rfl, ha, hb, hc, hd⟩
    exact ⟨_, _, _, _, a, b, c, d, by simp [ntop4], rfl, octet_iff.mpr ⟨rfl, ha⟩, octet_iff.mpr ⟨rfl, hb⟩, octet_iff.mpr ⟨rfl, hc⟩, octet_iff.mpr ⟨rfl, hd⟩⟩

/-- Inside a number. -/
theorem pton4Go_in : ∀ (s : List Char) (done : List Nat) (cur o : Nat) (r : List Nat), cur ≤ 255 → pton4Go s done cur true o = some r →
    ∃ n ds t, s = ds ++ t ∧ printNat 10 cur ++ ds = printNat 10 n ∧ n ≤ 255 ∧
      ((t = [] ∧ 4 ≤ o ∧ r = done ++ [n]) ∨ ∃ t', t = '.' :: t' ∧ o ≠ 4 ∧ pton4Go t' (done ++ [n]) 0 false o = some r)
  | [], done, cur, o, r, hc, h => by
    rw [pton4Go] at h
    split at h
    · cases h
    · cases h
      exact ⟨cur, [], [], rfl, by simp, hc, Or.inl ⟨rfl, by omega, rfl⟩⟩
  | c :: s, done, cur, o, r, hc, h => by
    rw [pton4Go] at h
    split at h
    · next hd =>
      split at h
      · cases h
      · next h0 =>
        split at h
        · cases h
        · next hb =>
          rw [if_pos rfl] at h
          obtain ⟨n, ds, t, e1, e2, e3, e4⟩ := pton4Go_in s done _ o r (by omega) h
          refine ⟨n, c :: ds, t, by rw [e1]; rfl, ?_, e3, e4⟩
          rw [← e2, printNat_snoc hd (by have : cur ≠ 0 := fun e => h0 ⟨rfl, e⟩; omega)]
          simp
    · split at h
      · next hdot =>
        split at h
        · cases h
        · next ho =>
          rw [hdot.1]
          exact ⟨cur, [], _, rfl, by simp, hc, Or.inr ⟨s, rfl, ho, h⟩⟩
      · cases h

/-- At the start of a number. -/
theorem pton4Go_out {s : List Char} {done : List Nat} {o : Nat} {r : List Nat} (ho : o < 4) (h : pton4Go s done 0 false o = some r) :
    ∃ n t, s = printNat 10 n ++ t ∧ n ≤ 255 ∧ ((t = [] ∧ 4 ≤ o + 1 ∧ r = done ++ [n]) ∨ ∃ t', t = '.' :: t' ∧ o + 1 ≠ 4 ∧ pton4Go t' (done ++ [n]) 0 false (o + 1) = some r) := by
  cases s with
  | nil => rw [pton4Go, if_pos ho] at h; cases h
  | cons c s =>
    rw [pton4Go] at h
    split at h
    · next hd =>
      rw [if_neg (by simp)] at h
      split at h
      · cases h
      · next hb =>
        rw [if_neg (by simp), if_neg (by omega)] at h
        obtain ⟨n, ds, t, e1, e2, e3, e4⟩ := pton4Go_in s done _ _ r (by omega) h
        refine ⟨n, t, ?_, e3, e4⟩
        rw [← e2, Nat.zero_mul, Nat.zero_add, printNat_digit hd, e1]
        simp
    · rw [if_neg (by simp)] at h
      cases h

theorem pton4_iff {s : List Char} {x : List Nat} : pton4 s = some x ↔ Addr4 s x := by
  rw [addr4_iff]
  constructor
  · intro h
    obtain ⟨a, t, rfl, ha, h⟩ := pton4Go_out (by omega) h
    rcases h with ⟨_, h, _⟩ | ⟨t, rfl, _, h⟩
    · omega
    obtain ⟨b, t, rfl, hb, h⟩ := pton4Go_out (by omega) h
    rcases h with ⟨_, h, _⟩ | ⟨t, rfl, _, h⟩
    · omega
    obtain ⟨c, t, rfl, hc, h⟩ := pton4Go_out (by omega) h
    rcases h with ⟨_, h, _⟩ | ⟨t, rfl, _, h⟩
    · omega
    obtain ⟨d, t, rfl, hd, h⟩ := pton4Go_out (by omega) h
    rcases h with ⟨rfl, _, rfl⟩ | ⟨t, rfl, h, _⟩
    · exact ⟨a, b, c, d, by simp [ntop4], rfl, ha, hb, hc, hd⟩
    · omega
  · rintro ⟨a, b, c, d, rfl, rfl, ha, hb, hc, hd⟩
    exact pton4_ntop4 ha hb hc hd

/-! ## IPv6 -/

theorem group_iff {g : List Char} {n : Nat} : Group g n ↔ g ≠ [] ∧ (∀ c ∈ g, isDigitOf 16 c = true) ∧ digitsVal 16 g = n ∧ g.length ≤ 4 := by
  unfold Group
  rw [numeral_iff (by omega)]
  exact ⟨fun ⟨⟨a, b, c⟩, d⟩ => ⟨a, b, c, d⟩, fun ⟨a, b, c, d⟩ => ⟨⟨a, b, c⟩, d⟩⟩

/-- What can follow the start of a word. -/
def Word6 (s : List Char) (done : List Nat) (co : Option Nat) (r : List Nat × Option Nat) : Prop :=
  (∃ n, Group s n ∧ done.length < 8 ∧ r = (done ++ [n], co)) ∨
  (∃ g t n, s = g ++ ':' :: t ∧ Group g n ∧ t ≠ [] ∧ done.length < 8 ∧ pton6Go t t (done ++ [n]) co 0 0 = some r) ∨
  (∃ a b c d, Addr4 s [a, b, c, d] ∧ done.length ≤ 6 ∧ r = (done ++ [a * 256 + b, c * 256 + d], co))

theorem pton6Go_dot {s tok : List Char} {c : Char} {done : List Nat} {co : Option Nat} {r : List Nat × Option Nat}
    (h : (if c = '.' ∧ done.length ≤ 6 then
      match pton4 tok with
      | some [a, b, c, d] => some (done ++ [a * 256 + b, c * 256 + d], co)
      | _ => none
    else none) = some r) : Word6 tok done co r := by
  split at h
  · next hc =>
    split at h
    · next a b c d e =>
      cases h
      exact Or.inr (Or.inr ⟨a, b, c, d, pton4_iff.mp e, hc.2, rfl⟩)
    · cases h
  · cases h

theorem pton6Go_in : ∀ (s w : List Char) (done : List Nat) (co : Option Nat) (r : List Nat × Option Nat), w ≠ [] → (∀ c ∈ w, isDigitOf 16 c = true) → w.length ≤ 4 →
    pton6Go s (w ++ s) done co w.length (digitsVal 16 w) = some r → Word6 (w ++ s) done co r
  | [], w, done, co, r, hne, hd, hl, h => by
    rw [pton6Go, if_pos (List.length_pos_iff.mpr hne)] at h
    split at h
    · cases h
    · cases h
      exact Or.inl ⟨_, group_iff.mpr ⟨by simpa using hne, by simpa using hd, rfl, by simpa using hl⟩, by omega, by simp⟩
  | c :: s, w, done, co, r, hne, hd, hl, h => by
    rw [pton6Go] at h
    split at h
    · next hc =>
      split at h
      · cases h
      · split at h
        · cases h
        · have := pton6Go_in s (w ++ [c]) done co r (by simp) (fun x hx => by
            rcases List.mem_append.mp hx with hx | hx
            · exact hd x hx
            · rw [List.mem_singleton.mp hx]; exact hc) (by rw [List.length_append, List.length_singleton]; omega)
            (by rw [digitsVal_append, List.length_append, List.length_singleton, List.append_assoc]; exact h)
          rw [List.append_assoc] at this
          exact this
    · split at h
      · next e =>
        subst e
        rw [if_neg (by simpa using hne)] at h
        split at h
        · cases h
        · next ht =>
          split at h
          · cases h
          · exact Or.inr (Or.inl ⟨w, s, _, rfl, group_iff.mpr ⟨hne, hd, rfl, hl⟩, ht, by omega, h⟩)
      · exact pton6Go_dot (s := s) h

/-- At the start of a word. -/
theorem pton6Go_start {s : List Char} {done : List Nat} {co : Option Nat} {r : List Nat × Option Nat} (h : pton6Go s s done co 0 0 = some r) :
    (s = [] ∧ r = (done, co)) ∨ (∃ t, s = ':' :: t ∧ co = none ∧ pton6Go t t done (some done.length) 0 0 = some r) ∨ Word6 s done co r := by
  cases s with
  | nil =>
    rw [pton6Go, if_neg (by omega)] at h
    cases h
    exact Or.inl ⟨rfl, rfl⟩
  | cons c s =>
    rw [pton6Go] at h
    split at h
    · next hc =>
      rw [if_neg (by omega)] at h
      split at h
      · cases h
      · refine Or.inr (Or.inr (pton6Go_in s [c] done co r (by simp) (fun x hx => by rw [List.mem_singleton.mp hx]; exact hc) (by simp) ?_))
        simpa [digitsVal] using h
    · split at h
      · next e =>
        rw [if_pos rfl] at h
        split at h
        · cases h
        · next hn =>
          refine Or.inr (Or.inl ⟨s, by rw [e], ?_, h⟩)
          cases co with
          | none => rfl
          | some k => simp at hn
      · exact Or.inr (Or.inr (pton6Go_dot (s := s) h))

theorem pton6Go_after : ∀ (m : Nat) (s : List Char) (done : List Nat) (k : Nat) (r : List Nat × Option Nat), s.length ≤ m → done.length ≤ 8 →
    pton6Go s s done (some k) 0 0 = some r → ∃ B, Groups0 true s B ∧ r = (done ++ B, some k) ∧ (done ++ B).length ≤ 8
  | m, s, done, k, r, hm, hl, h => by
    rcases pton6Go_start h with ⟨rfl, rfl⟩ | ⟨t, _, e, _⟩ | ⟨n, hg, hd, rfl⟩ | ⟨g, t, n, rfl, hg, ht, hd, h⟩ | ⟨a, b, c, d, ha, hd, rfl⟩
    · exact ⟨[], Or.inl ⟨rfl, rfl⟩, by simp, by simpa using hl⟩
    · cases e
    · exact ⟨[n], Or.inr (.one hg), rfl, by simp; omega⟩
    · cases m with
      | zero => simp at hm
      | succ m =>
        obtain ⟨B, hB, e, hl'⟩ := pton6Go_after m t (done ++ [n]) k r (by simp only [List.length_append, List.length_cons] at hm; omega) (by simp; omega) h
        rcases hB with ⟨h0, _⟩ | hB
        · exact absurd h0 ht
        · exact ⟨n :: B, Or.inr (.more hg hB), by rw [e]; simp, by simpa [Nat.add_assoc, Nat.add_comm 1] using hl'⟩
    · exact ⟨_, Or.inr (.v4 rfl ha), rfl, by simp; omega⟩

theorem pton6Go_before : ∀ (m : Nat) (s : List Char) (done : List Nat) (r : List Nat × Option Nat), s.length ≤ m → done.length ≤ 8 →
    pton6Go s s done none 0 0 = some r →
    (∃ B, Groups0 true s B ∧ r = (done ++ B, none)) ∨
    (∃ b B, s = ':' :: b ∧ Groups0 true b B ∧ r = (done ++ B, some done.length) ∧ (done ++ B).length ≤ 8) ∨
    (∃ a A b B, s = a ++ ':' :: ':' :: b ∧ Groups false a A ∧ Groups0 true b B ∧ r = (done ++ A ++ B, some (done.length + A.length)) ∧ (done ++ A ++ B).length ≤ 8)
  | m, s, done, r, hm, hl, h => by
    rcases pton6Go_start h with ⟨rfl, rfl⟩ | ⟨t, rfl, _, h⟩ | ⟨n, hg, hd, rfl⟩ | ⟨g, t, n, rfl, hg, ht, hd, h⟩ | ⟨a, b, c, d, ha, hd, rfl⟩
    · exact Or.inl ⟨[], Or.inl ⟨rfl, rfl⟩, by simp⟩
    · obtain ⟨B, hB, e, hl'⟩ := pton6Go_after _ t done _ r (Nat.le_refl _) hl h
      exact Or.inr (Or.inl ⟨t, B, rfl, hB, e, hl'⟩)
    · exact Or.inl ⟨[n], Or.inr (.one hg), rfl⟩
    · cases m with
      | zero => simp at hm
      | succ m =>
        rcases pton6Go_before m t (done ++ [n]) r (by simp only [List.length_append, List.length_cons] at hm; omega) (by simp; omega) h with
          ⟨B, hB, e⟩ | ⟨b, B, rfl, hB, e, hl'⟩ | ⟨a, A, b, B, rfl, hA, hB, e, hl'⟩
        · rcases hB with ⟨h0, _⟩ | hB
          · exact absurd h0 ht
          · exact Or.inl ⟨n :: B, Or.inr (.more hg hB), by rw [e]; simp⟩
        · exact Or.inr (Or.inr ⟨g, [n], b, B, rfl, .one hg, hB, by rw [e]; simp, by simpa using hl'⟩)
        · refine Or.inr (Or.inr ⟨g ++ ':' :: a, n :: A, b, B, by simp, .more hg hA, hB, ?_, ?_⟩)
          · rw [e]; simp [Nat.add_assoc, Nat.add_comm 1]
          · simpa using hl'
    · exact Or.inl ⟨_, Or.inr (.v4 rfl ha), rfl⟩

theorem colon_not_digit : isDigitOf 16 ':' = false := by decide

theorem group_head {g : List Char} {n : Nat} (h : Group g n) (t : List Char) : (g ++ t).head? ≠ some ':' ∧ g ++ t ≠ [] := by
  obtain ⟨hne, hd, _⟩ := group_iff.mp h
  obtain ⟨c, g, rfl⟩ := List.exists_cons_of_ne_nil hne
  refine ⟨fun e => ?_, by simp⟩
  have hc := hd c (by simp)
  cases e
  rw [colon_not_digit] at hc
  cases hc

theorem addr4_head {s : List Char} {x : List Nat} (h : Addr4 s x) : s.head? ≠ some ':' ∧ s ≠ [] := by
  obtain ⟨a, b, c, d, rfl, _⟩ := addr4_iff.mp h
  have hd := printNat_digits (b := 10) (by omega) (by omega) a
  unfold ntop4
  simp only [List.getD_cons_zero]
  cases hp : printNat 10 a with
  | nil => exact absurd hp (printNat_ne _ _)
  | cons c t =>
    rw [hp] at hd
    refine ⟨fun e => ?_, by simp⟩
    have hc := hd c (by simp)
    simp at e
    rw [e] at hc
    revert hc
    decide

theorem groups_head {quad : Bool} {s : List Char} {ws : List Nat} (h : Groups quad s ws) : s.head? ≠ some ':' ∧ s ≠ [] := by
  cases h with
  | one h => simpa using group_head h []
  | v4 _ h => exact addr4_head h
  | more h _ => exact group_head h _

theorem pton6Go_digits : ∀ (w t tok : List Char) (done : List Nat) (co : Option Nat) (k v : Nat), (∀ c ∈ w, isDigitOf 16 c = true) → k + w.length ≤ 4 → v < 16 ^ k →
    pton6Go (w ++ t) tok done co k v = pton6Go t tok done co (k + w.length) (w.foldl (fun n c => n * 16 + digitVal c) v)
  | [], t, tok, done, co, k, v, _, _, _ => rfl
  | c :: w, t, tok, done, co, k, v, hd, hl, hv => by
    simp only [List.length_cons] at hl
    have hc : digitVal c < 16 := by simpa [isDigitOf] using hd c (by simp)
    have hb : v * 16 + digitVal c < 16 ^ (k + 1) := by rw [Nat.pow_succ]; omega
    have h4 : 16 ^ (k + 1) ≤ 16 ^ 4 := Nat.pow_le_pow_right (by omega) (by omega)
    rw [List.cons_append, pton6Go, if_pos (hd c (by simp)), if_neg (by omega), if_neg (by omega),
      pton6Go_digits w t tok done co (k + 1) _ (fun x hx => hd x (by simp [hx])) (by omega) hb, List.foldl_cons]
    congr 1
    simp only [List.length_cons]
    omega

theorem pton6Go_group {g : List Char} {n : Nat} (h : Group g n) (t tok : List Char) (done : List Nat) (co : Option Nat) :
    pton6Go (g ++ t) tok done co 0 0 = pton6Go t tok done co g.length n := by
  obtain ⟨hne, hd, e, hl⟩ := group_iff.mp h
  rw [pton6Go_digits g t tok done co 0 0 hd (by omega) (by simp), Nat.zero_add, ← e]
  rfl

theorem group_len {g : List Char} {n : Nat} (h : Group g n) : g.length ≠ 0 := fun e => (group_iff.mp h).1 (List.length_eq_zero_iff.mp e)

theorem pton6Go_groups {s : List Char} {B : List Nat} (h : Groups true s B) : ∀ (done : List Nat) (co : Option Nat), done.length + B.length ≤ 8 →
    pton6Go s s done co 0 0 = some (done ++ B, co) := by
  induction h with
  | one hg =>
    intro done co hl
    rename_i g n
    have := pton6Go_group hg [] g done co
    rw [List.append_nil] at this
    have h0 := group_len hg
    simp only [List.length_singleton] at hl
    rw [this, pton6Go, if_pos (by omega), if_neg (by omega)]
  | v4 _ ha =>
    intro done co hl
    obtain ⟨a, b, c, d, rfl, e, h1, h2, h3, h4⟩ := addr4_iff.mp ha
    cases e
    exact pton6Go_dotted h1 h2 h3 h4 (by simpa using hl) co
  | more hg hs ih =>
    intro done co hl
    rename_i g s n ws
    simp only [List.length_cons] at hl
    rw [pton6Go_group hg, pton6Go, if_neg (by decide), if_pos rfl, if_neg (group_len hg), if_neg (groups_head hs).2, if_neg (by omega),
      ih _ _ (by simp; omega)]
    simp

theorem pton6Go_groups0 {s : List Char} {B : List Nat} (h : Groups0 true s B) {done : List Nat} {co : Option Nat} (hl : done.length + B.length ≤ 8) :
    pton6Go s s done co 0 0 = some (done ++ B, co) := by
  rcases h with ⟨rfl, rfl⟩ | h
  · rw [pton6Go_nil]; simp
  · exact pton6Go_groups h done co hl

theorem pton6Go_both {a : List Char} {A : List Nat} (h : Groups false a A) : ∀ {b : List Char} {B : List Nat}, Groups0 true b B → ∀ (done : List Nat),
    done.length + A.length + B.length ≤ 7 →
    pton6Go (a ++ ':' :: ':' :: b) (a ++ ':' :: ':' :: b) done none 0 0 = some (done ++ A ++ B, some (done.length + A.length)) := by
  induction h with
  | one hg =>
    intro b B hB done hl
    simp only [List.length_singleton] at hl
    rw [pton6Go_group hg, pton6Go, if_neg (by decide), if_pos rfl, if_neg (group_len hg), if_neg (by simp), if_neg (by omega), pton6Go_colon,
      pton6Go_groups0 hB (by simp; omega)]
    simp
  | v4 h _ => cases h
  | more hg hs ih =>
    intro b B hB done hl
    simp only [List.length_cons] at hl
    rw [List.append_assoc, pton6Go_group hg, List.cons_append, pton6Go, if_neg (by decide), if_pos rfl, if_neg (group_len hg), if_neg (by simp), if_neg (by omega),
      ih hB _ (by simp; omega)]
    simp [Nat.add_assoc, Nat.add_comm 1]

theorem pton6_iff {s : List Char} {ws : List Nat} : pton6 s = some ws ↔ Addr6 s ws := by
  constructor
  · intro h
    cases s with
    | nil => cases h
    | cons c s =>
      rw [pton6] at h
      have gap : ∀ (a b : List Char) (A B : List Nat), c :: s = a ++ ':' :: ':' :: b → Groups0 false a A → Groups0 true b B → (A ++ B).length ≤ 8 →
          pton6End (A ++ B, some A.length) = some ws → Addr6 (c :: s) ws := by
        intro a b A B e hA hB hl h
        rw [pton6End] at h
        split at h
        · cases h
        · cases h
          rw [List.length_append] at *
          refine Or.inr ⟨a, b, A, B, e, hA, hB, by omega, ?_⟩
          simp
      split at h
      · next e =>
        subst e
        split at h
        · next hh =>
          obtain ⟨r, h1, h2⟩ := Option.bind_eq_some_iff.mp h
          rcases pton6Go_before _ s [] r (Nat.le_refl _) (by simp) h1 with ⟨B, hB, _⟩ | ⟨b, B, rfl, hB, rfl, hl⟩ | ⟨a, A, b, B, rfl, hA, _⟩
          · rcases hB with ⟨rfl, _⟩ | hB
            · cases hh
            · exact absurd hh (groups_head hB).1
          · exact gap [] b [] B rfl (Or.inl ⟨rfl, rfl⟩) hB (by simpa using hl) (by simpa using h2)
          · have := (groups_head hA)
            rw [List.head?_append] at hh
            cases a with
            | nil => exact absurd rfl this.2
            | cons x a => exact absurd (by simpa using hh) this.1
        · cases h
      · next hc =>
        obtain ⟨r, h1, h2⟩ := Option.bind_eq_some_iff.mp h
        rcases pton6Go_before _ (c :: s) [] r (Nat.le_refl _) (by simp) h1 with ⟨B, hB, rfl⟩ | ⟨b, B, e, _⟩ | ⟨a, A, b, B, e, hA, hB, rfl, hl⟩
        · rcases hB with ⟨h0, _⟩ | hB
          · cases h0
          · rw [List.nil_append, pton6End] at h2
            split at h2
            · next hl => cases h2; exact Or.inl ⟨hB, hl⟩
            · cases h2
        · cases e; exact absurd rfl hc
        · exact gap a b A B e (Or.inr hA) hB (by simpa using hl) (by simpa using h2)
  · intro h
    have plain : ∀ t : List Char, t.head? ≠ some ':' → t ≠ [] → pton6 t = (pton6Go t t [] none 0 0).bind pton6End := by
      intro t h1 h2
      obtain ⟨c, t, rfl⟩ := List.exists_cons_of_ne_nil h2
      rw [pton6, if_neg (by simpa using h1)]
    rcases h with ⟨h, hl⟩ | ⟨a, b, A, B, rfl, hA, hB, hl, rfl⟩
    · rw [plain s (groups_head h).1 (groups_head h).2, pton6Go_groups h [] none (by simp; omega)]
      simp [pton6End, hl]
    · have fin : pton6End (A ++ B, some A.length) = some (A ++ List.replicate (8 - (A.length + B.length)) 0 ++ B) := by
        rw [pton6End, if_neg (by simp; omega)]
        simp
      rcases hA with ⟨rfl, rfl⟩ | hA
      · rw [List.nil_append, pton6_colons, pton6Go_colon, pton6Go_groups0 hB (by simp at hl ⊢; omega)]
        exact fin
      · have hh := groups_head hA
        rw [plain _ (by rw [List.head?_append]; cases a with
          | nil => exact absurd rfl hh.2
          | cons x a => simpa using hh.1) (by simp), pton6Go_both hA hB [] (by simp; omega)]
        simpa using fin

theorem group_le {g : List Char} {n : Nat} (hg : Group g n) : n ≤ 65535 := by
  obtain ⟨_, hd, e, hl⟩ := group_iff.mp hg
  have := digitsVal_lt g hd
  have h4 : 16 ^ g.length ≤ 16 ^ 4 := Nat.pow_le_pow_right (by omega) hl
  omega

theorem addr6_words {s : List Char} {ws : List Nat} (h : Addr6 s ws) : ws.length = 8 ∧ ∀ w ∈ ws, w ≤ 65535 := by
  have key : ∀ {q : Bool} {s : List Char} {ws : List Nat}, Groups q s ws → ∀ w ∈ ws, w ≤ 65535 := by
    intro q s ws h
    induction h with
    | one hg =>
      intro w hw
      rw [List.mem_singleton.mp hw]
      exact group_le hg
    | v4 _ ha =>
      obtain ⟨a, b, c, d, rfl, e, h1, h2, h3, h4⟩ := addr4_iff.mp ha
      cases e
      intro w hw
      simp at hw
      omega
    | more hg _ ih =>
      intro w hw
      rcases List.mem_cons.mp hw with rfl | hw
      · exact group_le hg
      · exact ih w hw
  have key0 : ∀ {q : Bool} {s : List Char} {ws : List Nat}, Groups0 q s ws → ∀ w ∈ ws, w ≤ 65535 := by
    intro q s ws h
    rcases h with ⟨_, rfl⟩ | h
    · intro w hw; cases hw
    · exact key h
  rcases h with ⟨h, hl⟩ | ⟨a, b, A, B, rfl, hA, hB, hl, rfl⟩
  · exact ⟨hl, key h⟩
  · refine ⟨by simp; omega, fun w hw => ?_⟩
    rcases List.mem_append.mp hw with hw | hw
    · rcases List.mem_append.mp hw with hw | hw
      · exact key0 hA w hw
      · rw [(List.mem_replicate.mp hw).2]; omega
    · exact key0 hB w hw

theorem addr6_chars {s : List Char} {ws : List Nat} (h : Addr6 s ws) : s ≠ [] ∧ ∀ c ∈ s, isIp6Char c = true := by
  have kg : ∀ {g : List Char} {n : Nat}, Group g n → ∀ c ∈ g, isIp6Char c = true := by
    intro g n h c hc
    have := (group_iff.mp h).2.1 c hc
    simp [isIp6Char, this]
  have key : ∀ {q : Bool} {s : List Char} {ws : List Nat}, Groups q s ws → ∀ c ∈ s, isIp6Char c = true := by
    intro q s ws h
    induction h with
    | one hg => exact kg hg
    | v4 _ ha =>
      obtain ⟨a, b, c, d, rfl, _⟩ := addr4_iff.mp ha
      exact ntop4_ip6 _
    | more hg _ ih =>
      intro c hc
      rcases List.mem_append.mp hc with hc | hc
      · exact kg hg c hc
      · rcases List.mem_cons.mp hc with rfl | hc
        · decide
        · exact ih c hc
  have key0 : ∀ {q : Bool} {s : List Char} {ws : List Nat}, Groups0 q s ws → ∀ c ∈ s, isIp6Char c = true := by
    intro q s ws h
    rcases h with ⟨rfl, _⟩ | h
    · intro w hw; cases hw
    · exact key h
  rcases h with ⟨h, hl⟩ | ⟨a, b, A, B, rfl, hA, hB, hl, rfl⟩
  · exact ⟨(groups_head h).2, key h⟩
  · refine ⟨by simp, fun c hc => ?_⟩
    rcases List.mem_append.mp hc with hc | hc
    · exact key0 hA c hc
    · rcases List.mem_cons.mp hc with rfl | hc
      · decide
      · rcases List.mem_cons.mp hc with rfl | hc
        · decide
        · exact key0 hB c hc

end Bf
