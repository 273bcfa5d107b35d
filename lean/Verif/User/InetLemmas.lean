import Verif.User.Inet
/-!
# Addresses printed are read back
-/
namespace Bf

theorem digitVal_digitChar {n : Nat} (h : n < 16) : digitVal (digitChar n) = n := by
  have : ∀ k : Fin 16, digitVal (digitChar k.1) = k.1 := by decide
  exact this ⟨n, h⟩

theorem isDigitOf_digitChar {n b : Nat} (h : n < b) (hb : b ≤ 16) : isDigitOf b (digitChar n) = true := by
  unfold isDigitOf
  rw [digitVal_digitChar (by omega)]
  simpa using h

theorem digitChar_ne {n : Nat} (h : n < 16) {c : Char} (hc : isDigitOf 16 c = false) : digitChar n ≠ c := by
  intro e
  rw [← e, isDigitOf_digitChar h (Nat.le_refl _)] at hc
  cases hc

theorem printNat_lt {b n : Nat} (h : n < b) : printNat b n = [digitChar n] := by
  unfold printNat
  rw [dif_neg (by omega)]

theorem printNat_ge {b n : Nat} (hb : 2 ≤ b) (h : b ≤ n) : printNat b n = printNat b (n / b) ++ [digitChar (n % b)] := by
  rw [printNat, dif_pos ⟨hb, h⟩]

theorem printNat_ne (b n : Nat) : printNat b n ≠ [] := by
  unfold printNat
  split <;> simp

theorem printNat_digits {b : Nat} (hb : 2 ≤ b) (h16 : b ≤ 16) (n : Nat) : ∀ c ∈ printNat b n, isDigitOf b c = true := by
  induction n using Nat.strongRecOn with
  | _ n ih =>
    by_cases h : n < b
    · rw [printNat_lt h]
      intro c hc
      simp at hc
      subst hc
      exact isDigitOf_digitChar h h16
    · rw [printNat_ge hb (by omega)]
      intro c hc
      rw [List.mem_append] at hc
      rcases hc with hc | hc
      · exact ih (n / b) (Nat.div_lt_self (by omega) (by omega)) c hc
      · simp at hc
        subst hc
        exact isDigitOf_digitChar (Nat.mod_lt _ (by omega)) h16

theorem digitsVal_append (b : Nat) (s : List Char) (c : Char) : digitsVal b (s ++ [c]) = digitsVal b s * b + digitVal c := by
  unfold digitsVal
  rw [List.foldl_append]
  rfl

theorem digitsVal_printNat {b : Nat} (hb : 2 ≤ b) (h16 : b ≤ 16) (n : Nat) : digitsVal b (printNat b n) = n := by
  induction n using Nat.strongRecOn with
  | _ n ih =>
    by_cases h : n < b
    · rw [printNat_lt h]
      show 0 * b + digitVal (digitChar n) = n
      rw [digitVal_digitChar (by omega)]
      omega
    · rw [printNat_ge hb (by omega), digitsVal_append, ih (n / b) (Nat.div_lt_self (by omega) (by omega)),
        digitVal_digitChar (by have := Nat.mod_lt n (show 0 < b by omega); omega)]
      exact Nat.div_add_mod' n b

/-! ## IPv4 -/

theorem pton4Go_first {d : Nat} (hd : d < 10) (s : List Char) (done : List Nat) {o : Nat} (ho : o < 4) :
    pton4Go (digitChar d :: s) done 0 false o = pton4Go s done d true (o + 1) := by
  have e : isDigit (digitChar d) = true := isDigitOf_digitChar hd (by omega)
  rw [pton4Go, if_pos e, digitVal_digitChar (by omega)]
  simp
  rw [if_neg (by omega), if_neg (by omega)]

theorem pton4Go_next {d n : Nat} (hd : d < 10) (hn : 0 < n) (hs : n * 10 + d ≤ 255) (s : List Char) (done : List Nat) (o : Nat) :
    pton4Go (digitChar d :: s) done n true o = pton4Go s done (n * 10 + d) true o := by
  have e : isDigit (digitChar d) = true := isDigitOf_digitChar hd (by omega)
  rw [pton4Go, if_pos e, digitVal_digitChar (by omega)]
  rw [if_neg (by omega), if_neg (by omega), if_pos rfl]

theorem pton4Go_num {n : Nat} (hn : n ≤ 255) (s : List Char) (done : List Nat) {o : Nat} (ho : o < 4) :
    pton4Go (printNat 10 n ++ s) done 0 false o = pton4Go s done n true (o + 1) := by
  by_cases h1 : n < 10
  · rw [printNat_lt h1]
    exact pton4Go_first h1 s done ho
  rw [printNat_ge (by omega) (by omega)]
  by_cases h2 : n < 100
  · rw [printNat_lt (show n / 10 < 10 by omega)]
    simp only [List.cons_append, List.nil_append]
    rw [pton4Go_first (by omega) _ done ho, pton4Go_next (by omega) (by omega) (by omega)]
    rw [show n / 10 * 10 + n % 10 = n by omega]
  · rw [printNat_ge (n := n / 10) (by omega) (by omega), printNat_lt (show n / 10 / 10 < 10 by omega)]
    simp only [List.cons_append, List.nil_append]
    rw [pton4Go_first (by omega) _ done ho, pton4Go_next (by omega) (by omega) (by omega), pton4Go_next (by omega) (by omega) (by omega)]
    rw [show (n / 10 / 10 * 10 + n / 10 % 10) * 10 + n % 10 = n by omega]

theorem pton4Go_dot (s : List Char) (done : List Nat) (n : Nat) {o : Nat} (ho : o < 4) :
    pton4Go ('.' :: s) done n true o = pton4Go s (done ++ [n]) 0 false o := by
  rw [pton4Go, if_neg (by decide), if_pos ⟨rfl, rfl⟩, if_neg (by omega)]

/-- An IPv4 address printed is read back. -/
theorem pton4_ntop4 {a b c d : Nat} (ha : a ≤ 255) (hb : b ≤ 255) (hc : c ≤ 255) (hd : d ≤ 255) : pton4 (ntop4 [a, b, c, d]) = some [a, b, c, d] := by
  unfold pton4 ntop4
  simp only [List.getD_cons_zero, List.getD_cons_succ, List.append_assoc, List.cons_append]
  rw [pton4Go_num ha _ _ (by omega), pton4Go_dot _ _ _ (by omega), pton4Go_num hb _ _ (by omega), pton4Go_dot _ _ _ (by omega),
    pton4Go_num hc _ _ (by omega), pton4Go_dot _ _ _ (by omega)]
  have := pton4Go_num hd [] ([] ++ [a] ++ [b] ++ [c]) (show 3 < 4 by omega)
  rw [List.append_nil] at this
  rw [this]
  simp [pton4Go]

/-! ## IPv6 -/

theorem pton6Go_digit {d n k : Nat} (hd : d < 16) (hk : k < 4) (hs : n * 16 + d ≤ 65535) (s tok : List Char) (done : List Nat) (co : Option Nat) :
    pton6Go (digitChar d :: s) tok done co k n = pton6Go s tok done co (k + 1) (n * 16 + d) := by
  have e : isDigitOf 16 (digitChar d) = true := isDigitOf_digitChar hd (by omega)
  rw [pton6Go, if_pos e, digitVal_digitChar hd, if_neg (by omega), if_neg (by omega)]

theorem pton6Go_num {n : Nat} (hn : n ≤ 65535) (s tok : List Char) (done : List Nat) (co : Option Nat) :
    pton6Go (printNat 16 n ++ s) tok done co 0 0 = pton6Go s tok done co (printNat 16 n).length n := by
  by_cases h1 : n < 16
  · rw [printNat_lt h1]
    simp only [List.cons_append, List.nil_append]
    rw [pton6Go_digit h1 (by omega) (by omega)]
    simp
  by_cases h2 : n < 256
  · rw [printNat_ge (by omega) (by omega), printNat_lt (show n / 16 < 16 by omega)]
    simp only [List.cons_append, List.nil_append]
    rw [pton6Go_digit (by omega) (by omega) (by omega), pton6Go_digit (by omega) (by omega) (by omega)]
    rw [show (0 * 16 + n / 16) * 16 + n % 16 = n by omega]
    rfl
  by_cases h3 : n < 4096
  · rw [printNat_ge (by omega) (by omega), printNat_ge (n := n / 16) (by omega) (by omega), printNat_lt (show n / 16 / 16 < 16 by omega)]
    simp only [List.cons_append, List.nil_append]
    rw [pton6Go_digit (by omega) (by omega) (by omega), pton6Go_digit (by omega) (by omega) (by omega), pton6Go_digit (by omega) (by omega) (by omega)]
    rw [show ((0 * 16 + n / 16 / 16) * 16 + n / 16 % 16) * 16 + n % 16 = n by omega]
    rfl
  · rw [printNat_ge (by omega) (by omega), printNat_ge (n := n / 16) (by omega) (by omega), printNat_ge (n := n / 16 / 16) (by omega) (by omega),
      printNat_lt (show n / 16 / 16 / 16 < 16 by omega)]
    simp only [List.cons_append, List.nil_append]
    rw [pton6Go_digit (by omega) (by omega) (by omega), pton6Go_digit (by omega) (by omega) (by omega), pton6Go_digit (by omega) (by omega) (by omega),
      pton6Go_digit (by omega) (by omega) (by omega)]
    rw [show (((0 * 16 + n / 16 / 16 / 16) * 16 + n / 16 / 16 % 16) * 16 + n / 16 % 16) * 16 + n % 16 = n by omega]
    rfl

theorem printNat_len (b n : Nat) : (printNat b n).length ≠ 0 := by
  intro e
  exact printNat_ne b n (List.length_eq_zero_iff.mp e)

/-- A word, then a colon, then something. -/
theorem pton6Go_word {n : Nat} (hn : n ≤ 65535) {s : List Char} (hs : s ≠ []) (tok : List Char) {done : List Nat} (hd : done.length < 8) (co : Option Nat) :
    pton6Go (printNat 16 n ++ ':' :: s) tok done co 0 0 = pton6Go s s (done ++ [n]) co 0 0 := by
  rw [pton6Go_num hn]
  rw [pton6Go, if_neg (by decide), if_pos rfl, if_neg (printNat_len 16 n), if_neg hs, if_neg (by omega)]

/-- The last word. -/
theorem pton6Go_last {n : Nat} (hn : n ≤ 65535) (tok : List Char) {done : List Nat} (hd : done.length < 8) (co : Option Nat) :
    pton6Go (printNat 16 n) tok done co 0 0 = some (done ++ [n], co) := by
  have := pton6Go_num hn [] tok done co
  rw [List.append_nil] at this
  rw [this, pton6Go, if_pos (Nat.pos_of_ne_zero (printNat_len 16 n)), if_neg (by omega)]

/-- `::`, after which nothing or something is written: the first colon ended the word, or is the first of the string. -/
theorem pton6Go_colon (s tok : List Char) (done : List Nat) : pton6Go (':' :: s) tok done none 0 0 = pton6Go s s done (some done.length) 0 0 := by
  rw [pton6Go, if_neg (by decide), if_pos rfl, if_pos rfl]
  rfl

theorem pton6Go_nil (tok : List Char) (done : List Nat) (co : Option Nat) : pton6Go [] tok done co 0 0 = some (done, co) := by
  rw [pton6Go]
  rfl

/-- The dotted tail. -/
theorem pton6Go_dotted {a b c d : Nat} (ha : a ≤ 255) (hb : b ≤ 255) (hc : c ≤ 255) (hd : d ≤ 255) {done : List Nat} (hl : done.length ≤ 6) (co : Option Nat) :
    pton6Go (ntop4 [a, b, c, d]) (ntop4 [a, b, c, d]) done co 0 0 = some (done ++ [a * 256 + b, c * 256 + d], co) := by
  have key : ∀ tok s, pton4 tok = some [a, b, c, d] → ∀ k v, pton6Go ('.' :: s) tok done co k v = some (done ++ [a * 256 + b, c * 256 + d], co) := by
    intro tok s ht k v
    rw [pton6Go, if_neg (by decide), if_neg (by decide), if_pos ⟨rfl, hl⟩, ht]
  have hp := pton4_ntop4 ha hb hc hd
  revert hp
  generalize ht : ntop4 [a, b, c, d] = tok
  intro hp
  have : ∃ s, tok = printNat 10 a ++ '.' :: s := ⟨printNat 10 b ++ '.' :: (printNat 10 c ++ '.' :: printNat 10 d), by rw [← ht]; unfold ntop4; simp⟩
  obtain ⟨s, hs⟩ := this
  -- decimal digits are hexadecimal digits
  have dig : ∀ (ds : List Char) (k v : Nat), (∀ x ∈ ds, isDigitOf 10 x = true) → k + ds.length ≤ 4 → v * 16 ^ ds.length + 16 ^ ds.length ≤ 65536 →
      ∃ k' v', pton6Go (ds ++ '.' :: s) tok done co k v = pton6Go ('.' :: s) tok done co k' v' := by
    intro ds
    induction ds with
    | nil => intro k v _ _ _; exact ⟨k, v, rfl⟩
    | cons x ds ih =>
      intro k v hx hk hv
      have h10 : isDigitOf 10 x = true := hx x (List.mem_cons_self ..)
      have hlt : digitVal x < 10 := by simpa [isDigitOf] using h10
      have h16 : isDigitOf 16 x = true := by simp [isDigitOf]; omega
      simp only [List.length_cons, Nat.pow_succ] at hk hv
      have hp : 0 < 16 ^ ds.length := Nat.pow_pos (by omega)
      have hv' : (v * 16 + digitVal x) * 16 ^ ds.length + 16 ^ ds.length ≤ 65536 := by
        have : (v * 16 + digitVal x) * 16 ^ ds.length ≤ (v * 16 + 15) * 16 ^ ds.length := Nat.mul_le_mul_right _ (by omega)
        have e : (v * 16 + 15) * 16 ^ ds.length + 16 ^ ds.length = v * (16 ^ ds.length * 16) + 16 ^ ds.length * 16 := by grind
        omega
      have hs : v * 16 + digitVal x ≤ 65535 := by
        have : (v * 16 + digitVal x) * 1 ≤ (v * 16 + digitVal x) * 16 ^ ds.length := Nat.mul_le_mul_left _ hp
        omega
      obtain ⟨k', v', e⟩ := ih (k + 1) (v * 16 + digitVal x) (fun y hy => hx y (List.mem_cons_of_mem _ hy)) (by omega) hv'
      refine ⟨k', v', ?_⟩
      rw [List.cons_append, pton6Go, if_pos h16, if_neg (by omega), if_neg (by omega)]
      exact e
  have hlen : (printNat 10 a).length ≤ 3 := by
    have : ∀ n : Fin 256, (printNat 10 n.1).length ≤ 3 := by
      intro n
      by_cases h1 : n.1 < 10
      · rw [printNat_lt h1]; simp
      by_cases h2 : n.1 < 100
      · rw [printNat_ge (by omega) (by omega), printNat_lt (show n.1 / 10 < 10 by omega)]; simp
      · rw [printNat_ge (by omega) (by omega), printNat_ge (n := n.1 / 10) (by omega) (by omega), printNat_lt (show n.1 / 10 / 10 < 10 by omega)]; simp
    exact this ⟨a, by omega⟩
  obtain ⟨k', v', e⟩ := dig (printNat 10 a) 0 0 (printNat_digits (by omega) (by omega) a) (by omega) (by
    have : 16 ^ (printNat 10 a).length ≤ 16 ^ 3 := Nat.pow_le_pow_right (by omega) hlen
    omega)
  rw [← hs] at e
  rw [e]
  exact key tok s hp k' v'

/-! The run of zeros. -/

/-- `r` is a run of zeros within the first `i` words. -/
def ZeroRun (ws : List Nat) (i : Nat) (r : Option (Nat × Nat)) : Prop := ∀ b l, r = some (b, l) → b + l ≤ i ∧ ∀ j, b ≤ j → j < b + l → ws.getD j 0 = 0

theorem zeroRun_run {ws : List Nat} {i : Nat} {best cur : Option (Nat × Nat)} (hb : ZeroRun ws i best) (hc : ZeroRun ws i cur) : ZeroRun ws i (zeroRun best cur) := by
  unfold zeroRun
  split
  · exact hb
  · exact hc
  · split
    · exact hc
    · exact hb

theorem zeroRuns_run (all : List Nat) {ws : List Nat} {i : Nat} {best cur : Option (Nat × Nat)} (hw : ws = all.drop i) (hb : ZeroRun all i best)
    (hc : ZeroRun all i cur) (hcur : ∀ b l, cur = some (b, l) → b + l = i) (hi : i + ws.length = all.length) : ZeroRun all all.length (zeroRuns ws i best cur) := by
  induction ws generalizing i best cur with
  | nil =>
    simp at hi
    subst hi
    exact zeroRun_run hb hc
  | cons w ws ih =>
    have e1 : ws = all.drop (i + 1) := by
      rw [← List.tail_drop, ← hw]
      rfl
    have e2 : all.getD i 0 = w := by
      have : (all.drop i)[0]? = some w := by rw [← hw]; rfl
      rw [List.getElem?_drop] at this
      simp at this
      simp [List.getD, this]
    simp only [List.length_cons] at hi
    have up : ∀ r, ZeroRun all i r → ZeroRun all (i + 1) r := fun r h b l e => ⟨by have := (h b l e).1; omega, (h b l e).2⟩
    unfold zeroRuns
    split
    · rename_i hz
      refine ih e1 (up _ hb) ?_ ?_ (by omega)
      · intro b l e
        split at e
        · cases e
          refine ⟨by omega, fun j h1 h2 => ?_⟩
          have : j = i := by omega
          rw [this, e2, hz]
        · rename_i b' l'
          cases e
          have h1 := hcur b l' rfl
          have h2 := hc b l' rfl
          refine ⟨by omega, fun j h3 h4 => ?_⟩
          by_cases h5 : j = i
          · rw [h5, e2, hz]
          · exact h2.2 j h3 (by omega)
      · intro b l e
        split at e
        · cases e; rfl
        · rename_i b' l'
          cases e
          have := hcur b l' rfl
          omega
    · exact ih e1 (up _ (zeroRun_run hb hc)) (fun b l e => by cases e) (fun b l e => by cases e) (by omega)

theorem bestRun_run (ws : List Nat) : ZeroRun ws ws.length (bestRun ws) ∧ ∀ b l, bestRun ws = some (b, l) → 2 ≤ l := by
  have h := zeroRuns_run ws (i := 0) (best := none) (cur := none) rfl (fun b l e => by cases e) (fun b l e => by cases e) (fun b l e => by cases e) (by simp)
  unfold bestRun
  constructor
  · intro b l e
    exact h b l (Option.filter_eq_some_iff.mp e).1
  · intro b l e
    simpa using (Option.filter_eq_some_iff.mp e).2

theorem pton6_word {n : Nat} (hn : n ≤ 65535) (s : List Char) : pton6 (printNat 16 n ++ s) = (pton6Go (printNat 16 n ++ s) (printNat 16 n ++ s) [] none 0 0).bind pton6End := by
  cases hp : printNat 16 n with
  | nil => exact absurd hp (printNat_ne 16 n)
  | cons c cs =>
    have hd := printNat_digits (b := 16) (by omega) (by omega) n c (by rw [hp]; exact List.mem_cons_self ..)
    have : c ≠ ':' := by
      rintro rfl
      exact absurd hd (by decide)
    simp only [List.cons_append, pton6]
    rw [if_neg this]

theorem pton6_colons (s : List Char) : pton6 (':' :: ':' :: s) = (pton6Go (':' :: s) (':' :: s) [] none 0 0).bind pton6End := by
  simp [pton6]

theorem ntop4_ne (a : List Nat) : ntop4 a ≠ [] := by
  unfold ntop4
  simp [printNat_ne]

/-- An IPv6 address printed is read back. -/
theorem pton6_ntop6 {ws : List Nat} (hl : ws.length = 8) (hw : ∀ w ∈ ws, w ≤ 65535) : pton6 (ntop6 ws) = some ws := by
  match ws, hl with
  | [a, b, c, d, e, f, g, h], _ =>
    simp only [List.mem_cons, List.not_mem_nil, or_false, forall_eq_or_imp, forall_eq] at hw
    obtain ⟨ha, hb, hc, hd, he, hf, hg, hh⟩ := hw
    obtain ⟨hz, h2⟩ := bestRun_run [a, b, c, d, e, f, g, h]
    unfold ntop6
    cases hr : bestRun [a, b, c, d, e, f, g, h] with
    | none =>
      simp only [ntop6Go, List.append_nil, ne_eq, not_true_eq_false, if_false, List.nil_append, Nat.reduceAdd, Nat.reduceEqDiff, not_false_eq_true, if_true,
        List.cons_append, List.append_assoc]
      rw [pton6_word ha]
      simp [pton6Go_word, pton6Go_last, printNat_ne, pton6End, ha, hb, hc, hd, he, hf, hg, hh]
    | some r =>
      obtain ⟨x, l⟩ := r
      obtain ⟨hx, hzero⟩ := hz x l hr
      have hl2 := h2 x l hr
      simp only [List.length_cons, List.length_nil] at hx
      have hx7 : x = 0 ∨ x = 1 ∨ x = 2 ∨ x = 3 ∨ x = 4 ∨ x = 5 ∨ x = 6 := by omega
      have hl8 : l = 2 ∨ l = 3 ∨ l = 4 ∨ l = 5 ∨ l = 6 ∨ l = 7 ∨ l = 8 := by omega
      have z0 := hzero 0
      have z1 := hzero 1
      have z2 := hzero 2
      have z3 := hzero 3
      have z4 := hzero 4
      have z5 := hzero 5
      have z6 := hzero 6
      have z7 := hzero 7
      clear hzero hz h2 hr
      have dot : ∀ (done : List Nat) (co : Option Nat), done.length ≤ 6 →
          pton6Go (ntop4 [g / 256, g % 256, h / 256, h % 256]) (ntop4 [g / 256, g % 256, h / 256, h % 256]) done co 0 0 = some (done ++ [g, h], co) := by
        intro done co hd
        rw [pton6Go_dotted (by omega) (by omega) (by omega) (by omega) hd]
        rw [show g / 256 * 256 + g % 256 = g by omega, show h / 256 * 256 + h % 256 = h by omega]
      rcases hx7 with rfl | rfl | rfl | rfl | rfl | rfl | rfl <;> rcases hl8 with rfl | rfl | rfl | rfl | rfl | rfl | rfl <;> first | omega | skip
      all_goals simp at z0 z1 z2 z3 z4 z5 z6 z7
      all_goals subst_vars
      all_goals simp only [ntop6Go, List.append_nil, ne_eq, not_true_eq_false, if_false, List.nil_append, Nat.reduceAdd, Nat.reduceEqDiff, not_false_eq_true, if_true,
        List.cons_append, List.append_assoc, Nat.reduceLeDiff, Nat.reduceLT, and_self, and_true, true_and, and_false, false_and, Nat.zero_le, List.getD_cons_zero,
        List.getD_cons_succ, or_true, true_or, or_false, false_or]
      all_goals first
        | (rw [pton6_word (by omega)]
           simp [pton6Go_word, pton6Go_last, printNat_ne, pton6Go_colon, pton6Go_nil, pton6End, *]; done)
        | (rw [pton6_colons]
           simp [pton6Go_word, pton6Go_last, printNat_ne, pton6Go_colon, pton6Go_nil, pton6End, dot, *]; done)
        | skip
      by_cases hff : f = 65535
      · rw [if_pos hff, pton6_colons]
        simp [pton6Go_word, pton6Go_last, printNat_ne, ntop4_ne, pton6Go_colon, pton6Go_nil, pton6End, dot, hf, hg, hh]
      · rw [if_neg hff, pton6_colons]
        simp [pton6Go_word, pton6Go_last, printNat_ne, ntop4_ne, pton6Go_colon, pton6Go_nil, pton6End, dot, hf, hg, hh]

end Bf
