import Verif.User.Payload
import Verif.User.InetLemmas
/-! # What the number parsers read of what the printers print -/
namespace Bf

theorem isDigitOf_not_space {b : Nat} (hb : b ≤ 36) {c : Char} (h : isDigitOf b c = true) : isSpace c = false ∧ c ≠ '-' ∧ c ≠ '+' := by
  have key : ∀ d : Char, isDigitOf b d = true → digitVal d < 36 := by
    intro d hd
    have : digitVal d < b := by simpa [isDigitOf] using hd
    omega
  have hv := key c h
  refine ⟨?_, ?_, ?_⟩
  · cases hs : isSpace c with
    | false => rfl
    | true =>
      simp only [isSpace, Bool.or_eq_true, decide_eq_true_eq] at hs
      rcases hs with ((((rfl | rfl) | rfl) | rfl) | rfl) | rfl <;> revert hv <;> decide
  · rintro rfl; revert hv; decide
  · rintro rfl; revert hv; decide

theorem takeWhile_eq_self {α : Type} {p : α → Bool} {l : List α} (h : ∀ x ∈ l, p x = true) : l.takeWhile p = l := by
  induction l with
  | nil => rfl
  | cons a l ih => rw [List.takeWhile_cons, if_pos (h a (by simp)), ih (fun x hx => h x (List.mem_cons_of_mem _ hx))]

theorem dropWhile_eq_nil {α : Type} {p : α → Bool} {l : List α} (h : ∀ x ∈ l, p x = true) : l.dropWhile p = [] := by
  induction l with
  | nil => rfl
  | cons a l ih => rw [List.dropWhile_cons, if_pos (h a (by simp)), ih (fun x hx => h x (List.mem_cons_of_mem _ hx))]

/-- A string of decimal digits, read in base 10. -/
theorem strtoInt_dec {ds : List Char} (hne : ds ≠ []) (hd : ∀ c ∈ ds, isDigitOf 10 c = true) : strtoInt 10 ds = some (false, digitsVal 10 ds, []) := by
  obtain ⟨c, t, rfl⟩ := List.exists_cons_of_ne_nil hne
  obtain ⟨h1, h2, h3⟩ := isDigitOf_not_space (by omega) (hd c (by simp))
  have hdr : (c :: t).dropWhile isSpace = c :: t := by rw [List.dropWhile_cons, h1]; rfl
  simp only [strtoInt, hdr, List.head?_cons, Option.some.injEq, h2, h3, false_or, or_false, decide_false, if_false, Nat.reduceEqDiff, false_and]
  rw [takeWhile_eq_self hd, dropWhile_eq_nil hd]
  simp

/-- `0x` and hexadecimal digits, read in base 16 or 0. -/
theorem strtoInt_hex {ds : List Char} (hne : ds ≠ []) (hd : ∀ c ∈ ds, isDigitOf 16 c = true) {b : Nat} (hb : b = 0 ∨ b = 16) :
    strtoInt b ('0' :: 'x' :: ds) = some (false, digitsVal 16 ds, []) := by
  obtain ⟨c, t, rfl⟩ := List.exists_cons_of_ne_nil hne
  have hc := hd c (by simp)
  have hdr : ('0' :: 'x' :: c :: t).dropWhile isSpace = '0' :: 'x' :: c :: t := by rw [List.dropWhile_cons]; rfl
  have n1 : ('0' = '-') = False := by decide
  have n2 : ('0' = '+') = False := by decide
  simp only [strtoInt, hdr, List.head?_cons, Option.some.injEq, List.tail_cons, Option.map_some, hc, n1, n2, or_self, if_false, hb, true_and, and_true, true_or, if_true,
    decide_false]
  rw [takeWhile_eq_self hd, dropWhile_eq_nil hd]
  simp

theorem strtoInt_hex_dec (ds : List Char) : strtoInt 10 ('0' :: 'x' :: ds) = some (false, 0, 'x' :: ds) := by
  simp only [strtoInt]
  rw [show ('0' :: 'x' :: ds).dropWhile isSpace = '0' :: 'x' :: ds by rw [List.dropWhile_cons]; rfl]
  have n1 : ('0' = '-') = False := by decide
  have n2 : ('0' = '+') = False := by decide
  simp only [List.head?_cons, Option.some.injEq, n1, n2, or_self, Nat.reduceEqDiff, false_or, false_and, if_false, decide_false]
  have h0 : isDigitOf 10 '0' = true := by decide
  have hx : isDigitOf 10 'x' = false := by decide
  rw [List.takeWhile_cons, h0, if_pos rfl, List.takeWhile_cons, hx, if_neg (by simp), List.dropWhile_cons, h0, if_pos rfl, List.dropWhile_cons, hx, if_neg (by simp)]
  rfl

theorem strtoul_dec {n : Nat} (hn : n < 18446744073709551616) : strtoul (printNat 10 n) 10 = ⟨n, [], false⟩ := by
  rw [strtoul, strtoInt_dec (printNat_ne 10 n) (printNat_digits (by omega) (by omega) n), digitsVal_printNat (by omega) (by omega)]
  simp [Nat.not_le.mpr hn]

theorem strtoul_hex {n : Nat} (hn : n < 18446744073709551616) : strtoul (printHex n) 16 = ⟨n, [], false⟩ := by
  rw [strtoul, printHex, strtoInt_hex (printNat_ne 16 n) (printNat_digits (by omega) (by omega) n) (.inr rfl), digitsVal_printNat (by omega) (by omega)]
  simp [Nat.not_le.mpr hn]

theorem strtoulAny_dec {n : Nat} (hn : n < 18446744073709551616) : strtoulAny (printNat 10 n) = some n := by
  simp [strtoulAny, printNat_ne, strtoul_dec hn]

theorem strtoul_hexdigits_dec (ds : List Char) : strtoul ('0' :: 'x' :: ds) 10 = ⟨0, 'x' :: ds, false⟩ := by
  rw [strtoul, strtoInt_hex_dec]
  rfl

theorem strtoulAny_hex {n : Nat} (hn : n < 18446744073709551616) : strtoulAny (printHex n) = some n := by
  have h := strtoul_hexdigits_dec (printNat 16 n)
  rw [strtoulAny, if_neg (by simp [printHex])]
  rw [show printHex n = '0' :: 'x' :: printNat 16 n from rfl] at *
  simp only [h]
  rw [show '0' :: 'x' :: printNat 16 n = printHex n from rfl, strtoul_hex hn]
  simp

theorem strtoulMax_dec {n max : Nat} (hn : n ≤ max) (hm : max < 18446744073709551616) : strtoulMax (printNat 10 n) max = some n := by
  simp [strtoulMax, strtoulAny_dec (Nat.lt_of_le_of_lt hn hm), hn]

theorem strtoulMax_hex {n max : Nat} (hn : n ≤ max) (hm : max < 18446744073709551616) : strtoulMax (printHex n) max = some n := by
  simp [strtoulMax, strtoulAny_hex (Nat.lt_of_le_of_lt hn hm), hn]

theorem digitsVal_cons_zero (b : Nat) (ds : List Char) : digitsVal b ('0' :: ds) = digitsVal b ds := by
  simp [digitsVal, show digitVal '0' = 0 by decide]

theorem digitsVal_replicate (b k : Nat) (ds : List Char) : digitsVal b (List.replicate k '0' ++ ds) = digitsVal b ds := by
  induction k with
  | zero => simp
  | succ k ih => rw [List.replicate_succ, List.cons_append, digitsVal_cons_zero, ih]

theorem strtoulMax_hex4 {n : Nat} (hn : n ≤ 65535) : strtoulMax (printHex4 n) 65535 = some n := by
  have hd : ∀ c ∈ List.replicate (4 - (printNat 16 n).length) '0' ++ printNat 16 n, isDigitOf 16 c = true := by
    intro c hc
    rcases List.mem_append.mp hc with h | h
    · rw [(List.mem_replicate.mp h).2]; decide
    · exact printNat_digits (by omega) (by omega) n c h
  have h16 : strtoul (printHex4 n) 16 = ⟨n, [], false⟩ := by
    rw [strtoul, printHex4, strtoInt_hex (by simp [printNat_ne]) hd (.inr rfl), digitsVal_replicate, digitsVal_printNat (by omega) (by omega)]
    simp [show ¬ 18446744073709551616 ≤ n by omega]
  have h10 := strtoul_hexdigits_dec (List.replicate (4 - (printNat 16 n).length) '0' ++ printNat 16 n)
  have h10' : strtoul (printHex4 n) 10 = _ := h10
  simp only [strtoulMax, strtoulAny]
  rw [if_neg (by simp [printHex4]), h10', h16]
  simp [hn]

theorem parseDec_dec {n max : Nat} (hn : n ≤ max) (hm : max < 18446744073709551616) : parseDec (printNat 10 n) max = some n := by
  simp [parseDec, strtoul_dec (Nat.lt_of_le_of_lt hn hm), hn]

theorem parsePrefix_dec {n max : Nat} (hn : n ≤ max) (hm : max < 4294967296) : parsePrefix (printNat 10 n) max = some n := by
  have : n % 4294967296 = n := Nat.mod_eq_of_lt (by omega)
  simp [parsePrefix, strtoul_dec (n := n) (by omega), hn, this]

theorem parseMark_hex {n : Nat} (hn : n ≤ 4294967295) : parseMark (printHex n) = some n := by
  have h : strtoll (printHex n) 0 = ((n : Int), []) := by
    rw [strtoll, printHex, strtoInt_hex (printNat_ne 16 n) (printNat_digits (by omega) (by omega) n) (.inl rfl), digitsVal_printNat (by omega) (by omega)]
    simp [show ¬ 9223372036854775807 < n by omega]
  rw [parseMark, h]
  have h1 : ¬ (n : Int) < 0 := by omega
  have h2 : ¬ (4294967295 : Int) < n := by omega
  simp [h2]

/-- Digits printed for a number below a power of the base. -/
theorem printNat_length {b : Nat} (hb : 2 ≤ b) : ∀ (k n : Nat), n < b ^ (k + 1) → (printNat b n).length ≤ k + 1
  | 0, n, h => by
    rw [printNat_lt (by simpa using h)]
    simp
  | k + 1, n, h => by
    by_cases hn : n < b
    · rw [printNat_lt hn]; simp
    · rw [printNat_ge hb (by omega)]
      have : n / b < b ^ (k + 1) := by
        rw [Nat.div_lt_iff_lt_mul (by omega)]
        rwa [Nat.pow_succ] at h
      have := printNat_length hb k (n / b) this
      simp
      omega

theorem strtok_cut {sep : Char} {a b : List Char} (ha : ∀ c ∈ a, c ≠ sep) (hne : a ≠ []) : strtok (· = sep) (a ++ sep :: b) = some (a, b) := by
  obtain ⟨c, t, rfl⟩ := List.exists_cons_of_ne_nil hne
  have hc : c ≠ sep := ha c (by simp)
  have h1 : (c :: t ++ sep :: b).dropWhile (fun x => decide (x = sep)) = c :: t ++ sep :: b := by
    rw [List.cons_append, List.dropWhile_cons, if_neg (by simp [hc])]
  have h2 : (c :: t ++ sep :: b).takeWhile (fun x => !decide (x = sep)) = c :: t := by
    rw [List.takeWhile_append_of_pos (by intro x hx; simp [ha x hx]), List.takeWhile_cons, if_neg (by simp), List.append_nil]
  have h3 : (c :: t ++ sep :: b).dropWhile (fun x => !decide (x = sep)) = sep :: b := by
    rw [List.dropWhile_append_of_pos (by intro x hx; simp [ha x hx]), List.dropWhile_cons, if_neg (by simp)]
  rw [strtok, h1, h2, h3]
  simp

theorem halves_cut {len : Nat} {sep : Char} {a b : List Char} (ha : ∀ c ∈ a, c ≠ sep) (hne : a ≠ []) (hb : b ≠ []) (hl : (a ++ sep :: b).length < len) :
    halves len sep (a ++ sep :: b) = some (a, b) := by
  rw [halves, strncpy, List.take_of_length_le (by omega), strtok_cut ha hne]
  simp [hb]

theorem printNat_no {b : Nat} (hb : 2 ≤ b) (h16 : b ≤ 16) {n : Nat} {sep : Char} (hs : isDigitOf 16 sep = false) : ∀ c ∈ printNat b n, c ≠ sep := by
  rintro c hc rfl
  have h := printNat_digits hb h16 n c hc
  simp only [isDigitOf, decide_eq_true_eq, decide_eq_false_iff_not] at h hs
  omega

theorem startsDigit_printNat (n : Nat) (s : List Char) : startsDigit (printNat 10 n ++ s) = true := by
  have h := printNat_digits (b := 10) (by omega) (by omega) n
  obtain ⟨c, t, hc⟩ := List.exists_cons_of_ne_nil (printNat_ne 10 n)
  rw [hc] at h ⊢
  simpa [startsDigit, isDigit] using h c (by simp)

theorem parseU32Range_print {x y : Nat} (hx : x ≤ y) (hy : y ≤ 4294967295) : parseU32Range (printHex x ++ '-' :: printHex y) = some (x, y) := by
  have lx := printNat_length (b := 16) (by omega) 7 x (by omega)
  have ly := printNat_length (b := 16) (by omega) 7 y (by omega)
  rw [parseU32Range, if_neg (by simp [startsDigit, printHex, show isDigit '0' = true by decide]), halves_cut]
  · simp [strtoulMax_hex (n := x) (max := 4294967295) (by omega) (by omega), strtoulMax_hex (n := y) (max := 4294967295) (by omega) (by omega), Nat.not_lt.mpr hx]
  · intro c hc
    simp only [printHex, List.mem_cons] at hc
    rcases hc with rfl | rfl | hc
    · decide
    · decide
    · exact printNat_no (by omega) (by omega) (by decide) c hc
  · simp [printHex]
  · simp [printHex]
  · simp [printHex]; omega

theorem parsePortRange_print {x y : Nat} (hx : x ≤ y) (hy : y ≤ 65535) : parsePortRange (printNat 10 x ++ '-' :: printNat 10 y) = some (x, y) := by
  have lx := printNat_length (b := 10) (by omega) 4 x (by omega)
  have ly := printNat_length (b := 10) (by omega) 4 y (by omega)
  rw [parsePortRange, if_neg (by simp [startsDigit_printNat]), halves_cut]
  · simp [parseDec_dec (n := x) (max := 65535) (by omega) (by omega), parseDec_dec (n := y) (max := 65535) (by omega) (by omega), Nat.not_lt.mpr hx]
  · exact printNat_no (by omega) (by omega) (by decide)
  · exact printNat_ne _ _
  · exact printNat_ne _ _
  · simp; omega

theorem ntop4_length {a b c d : Nat} (ha : a ≤ 255) (hb : b ≤ 255) (hc : c ≤ 255) (hd : d ≤ 255) : (ntop4 [a, b, c, d]).length ≤ 15 := by
  have h1 := printNat_length (b := 10) (by omega) 2 a (by omega)
  have h2 := printNat_length (b := 10) (by omega) 2 b (by omega)
  have h3 := printNat_length (b := 10) (by omega) 2 c (by omega)
  have h4 := printNat_length (b := 10) (by omega) 2 d (by omega)
  simp [ntop4]
  omega

theorem ntop4_no (l : List Nat) : ∀ c ∈ ntop4 l, c ≠ '/' := by
  have h : ∀ n, ∀ c ∈ printNat 10 n, c ≠ '/' := fun n => printNat_no (by omega) (by omega) (by decide)
  intro c hc
  simp only [ntop4, List.mem_append, List.mem_cons] at hc
  rcases hc with ((hc | rfl | hc) | rfl | hc) | rfl | hc
  all_goals first | decide | exact h _ c hc

theorem parseIp4Net_print {a b c d n : Nat} (ha : a ≤ 255) (hb : b ≤ 255) (hc : c ≤ 255) (hd : d ≤ 255) (hn : n ≤ 32) :
    parseIp4Net (ntop4 [a, b, c, d] ++ '/' :: printNat 10 n) = some (n, [a, b, c, d]) := by
  have h1 := ntop4_length ha hb hc hd
  have h2 := printNat_length (b := 10) (by omega) 1 n (by omega)
  have hs : startsDigit (ntop4 [a, b, c, d] ++ '/' :: printNat 10 n) = true := by
    simp only [ntop4, List.append_assoc]
    exact startsDigit_printNat _ _
  rw [parseIp4Net, if_neg (by simp [hs]), halves_cut (ntop4_no _) (ntop4_ne _) (printNat_ne _ _) (by simp; omega)]
  simp [pton4_ntop4 ha hb hc hd, parsePrefix_dec hn (by omega)]

/-- The characters of an IPv6 address as text. -/
def isIp6Char (c : Char) : Bool := isDigitOf 16 c || c = ':' || c = '.'

theorem printNat_ip6 {b : Nat} (hb : 2 ≤ b) (h16 : b ≤ 16) (n : Nat) : ∀ c ∈ printNat b n, isIp6Char c = true := by
  intro c hc
  have h := printNat_digits hb h16 n c hc
  have : isDigitOf 16 c = true := by
    simp only [isDigitOf, decide_eq_true_eq] at h ⊢
    omega
  simp [isIp6Char, this]

theorem ntop4_ip6 (l : List Nat) : ∀ c ∈ ntop4 l, isIp6Char c = true := by
  intro c hc
  simp only [ntop4, List.mem_append, List.mem_cons] at hc
  rcases hc with ((hc | rfl | hc) | rfl | hc) | rfl | hc
  all_goals first | decide | exact printNat_ip6 (by omega) (by omega) _ c hc

theorem ntop6Go_ip6 (all : List Nat) (best : Option (Nat × Nat)) : ∀ (ws : List Nat) (i : Nat), ∀ c ∈ ntop6Go all best ws i, isIp6Char c = true
  | [], _ => by simp [ntop6Go]
  | w :: ws, i => by
    have ih := ntop6Go_ip6 all best ws (i + 1)
    intro c hc
    have colon : ∀ (P : Prop) [Decidable P], c ∈ (if P then [':'] else []) → isIp6Char c = true := by
      intro P _ h
      split at h
      · rw [List.mem_singleton.mp h]; decide
      · cases h
    unfold ntop6Go at hc
    cases best with
    | none =>
      simp only [List.mem_append] at hc
      rcases hc with (hc | hc) | hc
      · exact colon _ hc
      · exact printNat_ip6 (by omega) (by omega) _ c hc
      · exact ih c hc
    | some r =>
      simp only at hc
      split at hc
      · rcases List.mem_append.mp hc with hc | hc
        · exact colon _ hc
        · exact ih c hc
      · rcases List.mem_append.mp hc with hc | hc
        · exact colon _ hc
        · split at hc
          · exact ntop4_ip6 _ c hc
          · rcases List.mem_append.mp hc with hc | hc
            · exact printNat_ip6 (by omega) (by omega) _ c hc
            · exact ih c hc

theorem ntop6_ip6 (ws : List Nat) : ∀ c ∈ ntop6 ws, isIp6Char c = true := by
  intro c hc
  unfold ntop6 at hc
  rcases List.mem_append.mp hc with hc | hc
  · exact ntop6Go_ip6 _ _ _ _ c hc
  · split at hc
    · split at hc
      · rw [List.mem_singleton.mp hc]; decide
      · cases hc
    · cases hc

theorem ntop6_length {ws : List Nat} (hl : ws.length = 8) (hw : ∀ w ∈ ws, w ≤ 65535) : (ntop6 ws).length ≤ 45 := by
  match ws, hl with
  | [a, b, c, d, e, f, g, h], _ =>
    simp only [List.mem_cons, List.not_mem_nil, or_false, forall_eq_or_imp, forall_eq] at hw
    obtain ⟨ha, hb, hc, hd, he, hf, hg, hh⟩ := hw
    obtain ⟨hz, h2⟩ := bestRun_run [a, b, c, d, e, f, g, h]
    have pa := printNat_length (b := 16) (by omega) 3 a (by omega)
    have pb := printNat_length (b := 16) (by omega) 3 b (by omega)
    have pc := printNat_length (b := 16) (by omega) 3 c (by omega)
    have pd := printNat_length (b := 16) (by omega) 3 d (by omega)
    have pe := printNat_length (b := 16) (by omega) 3 e (by omega)
    have pf := printNat_length (b := 16) (by omega) 3 f (by omega)
    have pg := printNat_length (b := 16) (by omega) 3 g (by omega)
    have ph := printNat_length (b := 16) (by omega) 3 h (by omega)
    have p4 := ntop4_length (a := g / 256) (b := g % 256) (c := h / 256) (d := h % 256) (by omega) (by omega) (by omega) (by omega)
    unfold ntop6
    cases hr : bestRun [a, b, c, d, e, f, g, h] with
    | none =>
      simp [ntop6Go]
      omega
    | some r =>
      obtain ⟨x, l⟩ := r
      obtain ⟨hx, _⟩ := hz x l hr
      have hl2 := h2 x l hr
      simp only [List.length_cons, List.length_nil] at hx
      clear hz h2 hr
      have hx7 : x = 0 ∨ x = 1 ∨ x = 2 ∨ x = 3 ∨ x = 4 ∨ x = 5 ∨ x = 6 := by omega
      have hl8 : l = 2 ∨ l = 3 ∨ l = 4 ∨ l = 5 ∨ l = 6 ∨ l = 7 ∨ l = 8 := by omega
      rcases hx7 with rfl | rfl | rfl | rfl | rfl | rfl | rfl <;> rcases hl8 with rfl | rfl | rfl | rfl | rfl | rfl | rfl <;> first | omega | skip
      all_goals simp only [ntop6Go, List.append_nil, ne_eq, not_true_eq_false, if_false, List.nil_append, Nat.reduceAdd, Nat.reduceEqDiff, not_false_eq_true, if_true,
        List.cons_append, List.append_assoc, Nat.reduceLeDiff, Nat.reduceLT, and_self, and_true, true_and, and_false, false_and, Nat.zero_le, List.getD_cons_zero,
        List.getD_cons_succ, or_true, true_or, or_false, false_or]
      all_goals first
        | (simp only [List.length_append, List.length_cons, List.length_nil]; omega)
        | (split <;> simp only [List.length_append, List.length_cons, List.length_nil] <;> omega)

theorem ntop6_ne {ws : List Nat} (hl : ws.length = 8) (hw : ∀ w ∈ ws, w ≤ 65535) : ntop6 ws ≠ [] := by
  intro h
  have := pton6_ntop6 hl hw
  rw [h] at this
  simp [pton6] at this

theorem parseIp6Net_print {ws : List Nat} {n : Nat} (hl : ws.length = 8) (hw : ∀ w ∈ ws, w ≤ 65535) (hn : n ≤ 128) :
    parseIp6Net (ntop6 ws ++ '/' :: printNat 10 n) = some (n, ws) := by
  have h1 := ntop6_length hl hw
  have h2 := printNat_length (b := 10) (by omega) 2 n (by omega)
  have hne := ntop6_ne hl hw
  have hch := ntop6_ip6 ws
  have hs : startsIp6 (ntop6 ws ++ '/' :: printNat 10 n) = true := by
    obtain ⟨c, t, hc⟩ := List.exists_cons_of_ne_nil hne
    have hp := pton6_ntop6 hl hw
    rw [hc] at hp hch ⊢
    have hi := hch c (by simp)
    simp only [isIp6Char, Bool.or_eq_true, decide_eq_true_eq] at hi
    simp only [startsIp6, List.cons_append, List.head?_cons, Option.map_some, Option.getD_some, Bool.or_eq_true, decide_eq_true_eq]
    rcases hi with (hi | rfl) | rfl
    · by_cases h1 : '0' ≤ c ∧ c ≤ '9'
      · left; right
        have : digitVal c < 10 := by
          have h9 : c.toNat ≤ 57 := h1.2
          simp only [digitVal, h1, and_self, if_true]
          omega
        simpa [isDigit, isDigitOf] using this
      · have hv : digitVal c < 16 := by simpa [isDigitOf] using hi
        left; left
        by_cases h2 : 'a' ≤ c ∧ c ≤ 'z'
        · simp [isAlpha, h2]
        · by_cases h3 : 'A' ≤ c ∧ c ≤ 'Z'
          · simp [isAlpha, h3]
          · simp only [digitVal, h1, h2, h3, if_false] at hv
            omega
    · right; rfl
    · simp [pton6, pton6Go, show isDigitOf 16 '.' = false by decide, pton4, pton4Go, show isDigit '.' = false by decide] at hp
  rw [parseIp6Net, if_neg (by simp [hs]), halves_cut _ hne (printNat_ne _ _) (by simp; omega)]
  · simp [pton6_ntop6 hl hw, parsePrefix_dec hn (by omega)]
  · rintro c hc rfl
    have := hch '/' hc
    revert this
    decide

end Bf
