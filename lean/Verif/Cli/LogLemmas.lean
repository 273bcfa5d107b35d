import Verif.Cli.LogPrint
import Verif.Spec.LogText
import Verif.User.TextAddr
import Verif.User.TextMeans
import Verif.Cli.DumpPayload
/-!
# Printing log entries: the pieces
-/
namespace Bf.Cli
open Spec

/-! ## Colours -/

theorem coloured_append {a b u v : List Char} (h : Coloured a u) (g : Coloured b v) : Coloured (a ++ b) (u ++ v) := by
  induction h with
  | nil => exact g
  | char hc _ ih => exact .char hc ih
  | @code b' t u hb _ ih =>
    have : '\x1b' :: '[' :: (b' ++ 'm' :: t) ++ b = '\x1b' :: '[' :: (b' ++ 'm' :: (t ++ b)) := by simp
    rw [this]
    exact .code hb ih

theorem coloured_same {a : List Char} (h : '\x1b' ∉ a) : Coloured a a := by
  induction a with
  | nil => exact .nil
  | cons c a ih => exact .char (fun e => h (by simp [e])) (ih fun e => h (List.mem_cons_of_mem _ e))

/-- The codes that are printed. -/
abbrev Code (s : String) : Prop := ∀ c ∈ s.toList, c = ';' ∨ isDigitOf 10 c = true

theorem digit_is {c : Char} (h : isDigitOf 10 c = true) : ∃ v, v < 10 ∧ DigitIs c v := by
  simp only [isDigitOf, decide_eq_true_eq] at h
  exact ⟨_, h, digitIs_iff.mpr ⟨rfl, by omega⟩⟩

theorem coloured_colour {t : Term} {code : String} (h : Code code) : Coloured (colour t code) [] := by
  unfold colour
  split
  · exact .code (fun c hc => (h c hc).imp id digit_is) .nil
  · exact .nil

theorem coloured_paint {t : Term} {code : String} {s u : List Char} (h : Coloured s u) (hc : Code code := by decide) : Coloured (paint t code s) u := by
  have := coloured_append (coloured_colour (t := t) hc) (coloured_append h (coloured_colour (t := t) (code := "0") (by decide)))
  simpa [paint] using this

/-! ## Numbers -/

theorem numeral_print (n : Nat) : Numeral 10 (printNat 10 n) n :=
  (numeral_iff (by decide)).mpr ⟨printNat_ne _ _, printNat_digits (by decide) (by decide) n, digitsVal_printNat (by decide) (by decide) n⟩

theorem numeral_print16 (n : Nat) : Numeral 16 (printNat 16 n) n :=
  (numeral_iff (by decide)).mpr ⟨printNat_ne _ _, printNat_digits (by decide) (by decide) n, digitsVal_printNat (by decide) (by decide) n⟩

theorem digits_no {b : Nat} (hb : b ≤ 16) {s : List Char} (h : ∀ c ∈ s, isDigitOf b c = true) {x : Char} (hx : isDigitOf 16 x = false) : x ∉ s := by
  intro hm
  have h1 := h x hm
  simp only [isDigitOf, decide_eq_true_eq] at h1
  simp only [isDigitOf, decide_eq_false_iff_not] at hx
  omega

theorem numeral_not {b : Nat} (hb : b ≤ 16) {s : List Char} {n : Nat} (h : Numeral b s n) {x : Char} (hx : isDigitOf 16 x = false) : x ∉ s :=
  digits_no hb ((numeral_iff hb).mp h).2.1 hx

theorem coloured_num (n : Nat) : Coloured (printNat 10 n) (printNat 10 n) := coloured_same (numeral_not (by decide) (numeral_print n) (by decide))

theorem numeral_zeros {b : Nat} (hb : 2 ≤ b) (h16 : b ≤ 16) {s : List Char} {n : Nat} (h : Numeral b s n) (k : Nat) : Numeral b (List.replicate k '0' ++ s) n := by
  induction k with
  | zero => simpa using h
  | succ k ih =>
    obtain ⟨h1, h2, h3⟩ := (numeral_iff h16).mp ih
    refine (numeral_iff h16).mpr ⟨by simp, fun c hc => ?_, ?_⟩
    · rw [List.replicate_succ] at hc
      rcases List.mem_cons.mp hc with rfl | hc
      · simp only [isDigitOf, decide_eq_true_eq]
        exact Nat.lt_of_lt_of_le (by decide) hb
      · exact h2 c hc
    · rw [List.replicate_succ, ← h3]
      have : digitVal '0' = 0 := by decide
      simp [digitsVal, this]

theorem filled_pad {T : List Char → Prop} {w : Nat} {s : List Char} (h : T s) : Filled T (padRight w s) := ⟨s, _, h, rfl⟩

theorem coloured_pad {w : Nat} {s : List Char} (h : '\x1b' ∉ s) : Coloured (padRight w s) (padRight w s) := by
  refine coloured_same ?_
  unfold padRight
  intro hm
  rcases List.mem_append.mp hm with hm | hm
  · exact h hm
  · exact absurd (List.eq_of_mem_replicate hm) (by decide)

theorem num_esc (n : Nat) : '\x1b' ∉ printNat 10 n := numeral_not (by decide) (numeral_print n) (by decide)

theorem printNat_le : ∀ (k n : Nat) (b : Nat), 2 ≤ b → 0 < k → n < b ^ k → (printNat b n).length ≤ k := by
  intro k
  induction k with
  | zero => intro n b _ h; cases h
  | succ k ih =>
    intro n b hb _ hn
    by_cases hlt : n < b
    · rw [printNat_lt hlt]; simp
    · rw [printNat_ge hb (by omega)]
      have hk : 0 < k := by
        rcases Nat.eq_zero_or_pos k with rfl | h
        · simp at hn; omega
        · exact h
      have := ih (n / b) b hb hk (Nat.div_lt_of_lt_mul (by rw [Nat.pow_succ] at hn; rw [Nat.mul_comm]; exact hn))
      simp only [List.length_append, List.length_singleton]
      omega

theorem padZero_six {n : Nat} (h : n < 1000000) : Numeral 10 (padZero 6 (n : Int)) n ∧ (padZero 6 (n : Int)).length = 6 := by
  unfold padZero
  simp only [Int.natAbs_natCast, Int.natCast_nonneg, if_true]
  refine ⟨numeral_zeros (by decide) (by decide) (numeral_print n) _, ?_⟩
  have := printNat_le 6 n 10 (by decide) (by decide) (by omega)
  simp only [List.length_append, List.length_replicate]
  omega

theorem hex4_hex (n : Nat) : Hex (printHex4 n) n := ⟨'x', _, Or.inl rfl, rfl, numeral_zeros (by decide) (by decide) (numeral_print16 n) _⟩

theorem hex4_not {n : Nat} {x : Char} (hx : isDigitOf 16 x = false) (h2 : x ≠ 'x') : x ∉ printHex4 n := by
  unfold printHex4
  intro h
  rcases List.mem_cons.mp h with h | h
  · subst h; exact absurd hx (by decide)
  rcases List.mem_cons.mp h with h | h
  · exact h2 h
  · exact numeral_not (by decide) (numeral_zeros (by decide) (by decide) (numeral_print16 n) _) hx h

theorem hexByte_mac (b : Byte) : Numeral 16 (hexByte b) b.toNat ∧ (hexByte b).length = 2 := by
  unfold hexByte
  have hb := b.isLt
  have h2 := printNat_le 2 b.toNat 16 (by decide) (by decide) (by omega)
  have h0 := printNat_len 16 b.toNat
  dsimp only
  split
  · next h => exact ⟨numeral_zeros (by decide) (by decide) (numeral_print16 _) 1, by simp [h]⟩
  · next h => exact ⟨numeral_print16 _, by omega⟩

theorem mac_text : ∀ (m : List Byte), m ≠ [] → MacText m (macText m)
  | [], h => absurd rfl h
  | [b], _ => .one (hexByte_mac b).1 (hexByte_mac b).2
  | b :: c :: m, _ => .more (hexByte_mac b).1 (hexByte_mac b).2 (mac_text (c :: m) (by simp))

theorem mac_not {m : List Byte} {t : List Char} (h : MacText m t) {x : Char} (hx : isDigitOf 16 x = false) (h2 : x ≠ ':') : x ∉ t := by
  induction h with
  | one h _ => exact numeral_not (by decide) h hx
  | more h _ _ ih =>
    intro hm
    rcases List.mem_append.mp hm with hm | hm
    · exact numeral_not (by decide) h hx hm
    · rcases List.mem_cons.mp hm with hm | hm
      · exact h2 hm
      · exact ih hm

theorem macText_not (m : List Byte) {x : Char} (hx : isDigitOf 16 x = false) (h2 : x ≠ ':') : x ∉ macText m := by
  cases m with
  | nil => simp [macText]
  | cons b m => exact mac_not (mac_text (b :: m) (by simp)) hx h2

/-! ## Addresses -/

theorem ntop4_text {a : List Byte} (h : a.length = 4) : Ip4Text a (ntop4 (a.map BitVec.toNat)) := by
  match a, h with
  | [x, y, z, w], _ =>
    exact addr4_iff.mpr ⟨_, _, _, _, rfl, rfl, by have := x.isLt; omega, by have := y.isLt; omega, by have := z.isLt; omega, by have := w.isLt; omega⟩

theorem bytesWords_len : ∀ (k : Nat) (a : List Byte), a.length = 2 * k → (bytesWords a).length = k ∧ (∀ w ∈ bytesWords a, w ≤ 65535) ∧
    a.map BitVec.toNat = bytesOf (bytesWords a) := by
  intro k
  induction k with
  | zero => intro a h; cases List.length_eq_zero_iff.mp h; simp [bytesWords, bytesOf]
  | succ k ih =>
    intro a h
    match a, h with
    | x :: y :: l, h =>
      obtain ⟨h1, h2, h3⟩ := ih l (by simp at h; omega)
      have hx := x.isLt
      have hy := y.isLt
      refine ⟨by simp [bytesWords, h1], fun w hw => ?_, ?_⟩
      · rcases List.mem_cons.mp hw with rfl | hw
        · omega
        · exact h2 w hw
      · have e1 : (x.toNat * 256 + y.toNat) / 256 = x.toNat := by omega
        have e2 : (x.toNat * 256 + y.toNat) % 256 = y.toNat := by omega
        simp only [bytesWords, bytesOf, List.flatMap_cons, List.map_cons, e1, e2, List.cons_append, List.nil_append]
        rw [h3]
        rfl

theorem ntop6_text {a : List Byte} (h : a.length = 16) : Ip6Text a (ntop6 (bytesWords a)) := by
  obtain ⟨h1, h2, h3⟩ := bytesWords_len 8 a (by omega)
  exact ⟨_, pton6_iff.mp (pton6_ntop6 h1 h2), h3⟩

theorem ip6_not {a : List Byte} {t : List Char} (h : Ip6Text a t) {x : Char} (hx : isIp6Char x = false) : x ∉ t := by
  obtain ⟨ws, h, _⟩ := h
  intro hm
  rw [(addr6_chars h).2 x hm] at hx
  cases hx

theorem ip4_not {a : List Byte} {t : List Char} (h : Ip4Text a t) {x : Char} (hx : isDigitOf 16 x = false) (h2 : x ≠ '.') : x ∉ t := by
  obtain ⟨a, b, c, d, i, j, k, l, rfl, _, h1, h2', h3, h4⟩ := h
  have := numeral_not (by decide) h1.1 hx
  have := numeral_not (by decide) h2'.1 hx
  have := numeral_not (by decide) h3.1 hx
  have := numeral_not (by decide) h4.1 hx
  simp_all

/-! ## Parts of a header -/

theorem part_prefix {h s : List Byte} (hp : h <+: s) {o n : Nat} (hl : o + n ≤ h.length) : part s o n = part h o n := by
  obtain ⟨r, rfl⟩ := hp
  unfold part
  rw [List.drop_append_of_le_length (by omega), List.take_append_of_le_length (by simp; omega)]

theorem part_length {h : List Byte} {o n : Nat} (hl : o + n ≤ h.length) : (part h o n).length = n := by
  unfold part
  simp
  omega

theorem ipproto_doc : ∀ n < 256, ipprotoToStr n = Doc.ipproto n := by decide +kernel

theorem beNat_byte {b : List Byte} (h : b.length = 1) : Spec.beNat b < 256 := by
  match b, h with
  | [x], _ => have := x.isLt; simp [Spec.beNat]; omega

/-- The text of a protocol. -/
theorem proto_text {t : Term} {code pre : String} {n : Nat} (hn : n < 256) (hpre : '\x1b' ∉ pre.toList) (hc : Code code) :
    ∃ p, ProtoText pre n p ∧ Coloured (match ipprotoToStr n with
      | some x => paint t code (str x)
      | none => str pre ++ printNat 10 n) p := by
  have h1 := ipproto_doc n hn
  have h2 : ∀ m < 256, ∀ x, ipprotoToStr m = some x → '\x1b' ∉ x.toList := by decide +kernel
  cases hp : ipprotoToStr n with
  | some x =>
    refine ⟨x.toList, Or.inl (by rw [← h1, hp, String.ofList_toList]), ?_⟩
    exact coloured_paint (coloured_same (h2 n hn x hp)) hc
  | none =>
    refine ⟨pre.toList ++ printNat 10 n, Or.inr ⟨by rw [← h1, hp], _, numeral_print n, rfl⟩, ?_⟩
    exact coloured_append (coloured_same hpre) (coloured_num n)

end Bf.Cli
