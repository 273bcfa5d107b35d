import Verif.Cli.DumpWords
/-!
# The payloads that are printed are words
-/
namespace Bf.Cli.Dmp
open Spec

/-! ## Characters -/

theorem alnum_of {b : Nat} (hb : b ≤ 36) {c : Char} (h : isDigitOf b c = true) : Alnum c := by
  simp only [isDigitOf, decide_eq_true_eq] at h
  unfold digitVal at h
  split at h
  · next hc => exact .inl hc
  · split at h
    · next hc => exact .inr (.inl hc)
    · split at h
      · next hc => exact .inr (.inr hc)
      · omega

/-- The characters of addresses, names, numbers. -/
def Simple (c : Char) : Prop := Alnum c ∨ c = '-' ∨ c = '.' ∨ c = ':' ∨ c = '/'

theorem alnum_nat {c : Char} (h : Alnum c) : (48 ≤ c.toNat ∧ c.toNat ≤ 57) ∨ (97 ≤ c.toNat ∧ c.toNat ≤ 122) ∨ (65 ≤ c.toNat ∧ c.toNat ≤ 90) := by
  rcases h with h | h | h
  · exact .inl ⟨h.1, h.2⟩
  · exact .inr (.inl ⟨h.1, h.2⟩)
  · exact .inr (.inr ⟨h.1, h.2⟩)

/-- They are not blanks, nor separators. -/
theorem simple_ne {c d : Char} (h : Simple c) (hd : d ∈ [' ', '\t', '\n', '\x0b', '\x0c', '\r', ',', ';', '{', '}', '(', ')', '\x00', '#', '_', '=', '%']) : c ≠ d := by
  rintro rfl
  rcases h with h | rfl | rfl | rfl | rfl
  · have := alnum_nat h
    simp only [List.mem_cons, List.not_mem_nil, or_false] at hd
    rcases hd with rfl | rfl | rfl | rfl | rfl | rfl | rfl | rfl | rfl | rfl | rfl | rfl | rfl | rfl | rfl | rfl | rfl <;> revert this <;> decide
  all_goals revert hd; decide

theorem simple_space {c : Char} (h : Simple c) : isSpace c = false := by
  have h' := fun d hd => simple_ne h (d := d) hd
  simp only [isSpace, Bool.or_eq_false_iff, decide_eq_false_iff_not]
  refine ⟨⟨⟨⟨⟨?_, ?_⟩, ?_⟩, ?_⟩, ?_⟩, ?_⟩ <;> exact h' _ (by decide)

theorem printNat_alnum {b : Nat} (hb : 2 ≤ b) (h16 : b ≤ 16) (n : Nat) : Made Alnum (printNat b n) :=
  ⟨printNat_ne b n, fun c hc => alnum_of (by omega) (printNat_digits hb h16 n c hc)⟩

theorem printNat_digit (n : Nat) : Made Digit (printNat 10 n) :=
  ⟨printNat_ne 10 n, fun c hc => by
    have h := printNat_digits (b := 10) (by omega) (by omega) n c hc
    simp only [isDigitOf, decide_eq_true_eq] at h
    unfold digitVal at h
    split at h
    · next hc => exact hc
    · split at h
      · next hc => have : 97 ≤ c.toNat := hc.1; omega
      · split at h
        · next hc => have : 65 ≤ c.toNat := hc.1; omega
        · omega⟩

theorem alnum_zero : Alnum '0' := .inl ⟨by decide, by decide⟩
theorem alnum_x : Alnum 'x' := .inr (.inl ⟨by decide, by decide⟩)

theorem printHex_alnum (n : Nat) : Made Alnum (printHex n) := by
  refine ⟨by simp [printHex], fun c hc => ?_⟩
  simp only [printHex, List.mem_cons] at hc
  rcases hc with rfl | rfl | hc
  · exact alnum_zero
  · exact alnum_x
  · exact (printNat_alnum (by omega) (by omega) n).2 c hc

theorem printHex4_alnum (n : Nat) : Made Alnum (printHex4 n) := by
  refine ⟨by simp [printHex4], fun c hc => ?_⟩
  simp only [printHex4, List.mem_cons, List.mem_append, List.mem_replicate] at hc
  rcases hc with rfl | rfl | ⟨_, rfl⟩ | hc
  · exact alnum_zero
  · exact alnum_x
  · exact alnum_zero
  · exact (printNat_alnum (by omega) (by omega) n).2 c hc

theorem made_mono {k k' : Char → Prop} {w : List Char} (h : Made k w) (hk : ∀ c, k c → k' c) : Made k' w := ⟨h.1, fun c hc => hk c (h.2 c hc)⟩

/-! ## Words that are not reserved -/

def reservedList : List (List Char) :=
  (["chain", "rule", "set", "not", "counter", "log", "mark", "every"].map String.toList) ++ ([Verdict.accept, .drop, .continue_, .redirect, .next].map fun v => (Doc.verdict v).toList) ++
  ([RedirDir.ingress, .egress].map fun v => (Doc.direction v).toList) ++ ([MOp.eq, .any, .all, .in_, .range].map fun v => (Doc.op v).toList) ++
  (MType.vals.map fun v => (Doc.matcher v).toList)

theorem reserved_cases {w : List Char} (h : Reserved w) : w ∈ reservedList ∨ "BF_HOOK_".toList <+: w := by
  simp only [reservedList, List.mem_append, or_assoc]
  rcases h with h | ⟨v, rfl⟩ | ⟨v, rfl⟩ | ⟨v, rfl⟩ | ⟨v, rfl⟩ | h
  · exact .inl h
  · exact .inr (.inl (List.mem_map.mpr ⟨v, by cases v <;> decide, rfl⟩))
  · exact .inr (.inr (.inl (List.mem_map.mpr ⟨v, by cases v <;> decide, rfl⟩)))
  · exact .inr (.inr (.inr (.inl (List.mem_map.mpr ⟨v, by cases v <;> decide, rfl⟩))))
  · exact .inr (.inr (.inr (.inr (.inl (List.mem_map.mpr ⟨v, by cases v <;> decide, rfl⟩)))))
  · exact .inr (.inr (.inr (.inr (.inr h))))

/-- A word of digits, letters and `-` that is not reserved, and is not the beginning of a report. -/
def safeB (w : List Char) : Bool :=
  w ≠ [] && w.all (fun c => isDigitOf 36 c || c = '-') && !(reservedList.contains w) && !("BF_HOOK_".toList.isPrefixOf w) && !("counters".toList.isPrefixOf w)

/-- A payload that is a word. -/
structure Safe (w : List Char) : Prop where
  simple : Made Simple w
  free : ¬ Reserved w
  notReport : ¬ "counters".toList <+: w

theorem safe_of {w : List Char} (h : safeB w = true) : Made (fun c => Alnum c ∨ c = '-') w ∧ Safe w := by
  simp only [safeB, Bool.and_eq_true, Bool.not_eq_true', decide_eq_true_eq, List.all_eq_true, Bool.or_eq_true] at h
  obtain ⟨⟨⟨⟨h1, h2⟩, h3⟩, h4⟩, h5⟩ := h
  have hm : Made (fun c => Alnum c ∨ c = '-') w := ⟨h1, fun c hc => (h2 c hc).imp (alnum_of (by omega)) id⟩
  refine ⟨hm, made_mono hm fun c hc => hc.imp id .inl, fun hr => ?_, fun hp => ?_⟩
  · rcases reserved_cases hr with hr | hr
    · rw [List.contains_iff_mem.mpr hr] at h3
      cases h3
    · rw [List.isPrefixOf_iff_prefix.mpr hr] at h4
      cases h4
  · rw [List.isPrefixOf_iff_prefix.mpr hp] at h5
    cases h5

theorem reserved_head : ∀ w ∈ reservedList, ∀ c, w.head? = some c → isDigit c = false := by decide +kernel
theorem reserved_colon : ∀ w ∈ reservedList, ':' ∉ w ∧ '/' ∉ w := by decide +kernel

theorem prefix_head {a b : List Char} {c : Char} (h : c :: a <+: b) : b.head? = some c := by
  obtain ⟨t, rfl⟩ := h
  rfl

/-- What begins with a digit is not reserved. -/
theorem safe_digit {w : List Char} (hs : Made Simple w) {c : Char} (hc : w.head? = some c) (hd : isDigit c = true) : Safe w := by
  refine ⟨hs, fun hr => ?_, fun hp => ?_⟩
  · rcases reserved_cases hr with hr | hr
    · rw [reserved_head w hr c hc] at hd
      cases hd
    · rw [show "BF_HOOK_".toList = 'B' :: "F_HOOK_".toList by decide] at hr
      rw [prefix_head hr] at hc
      cases hc
      exact absurd hd (by decide)
  · rw [show "counters".toList = 'c' :: "ounters".toList by decide] at hp
    rw [prefix_head hp] at hc
    cases hc
    exact absurd hd (by decide)

theorem printNat_head (n : Nat) (s : List Char) : ∃ c, (printNat 10 n ++ s).head? = some c ∧ isDigit c = true := by
  cases h : printNat 10 n with
  | nil => exact absurd h (printNat_ne 10 n)
  | cons c cs => exact ⟨c, rfl, printNat_digits (b := 10) (by omega) (by omega) n c (h ▸ List.mem_cons_self)⟩

theorem safe_dec {n : Nat} {s : List Char} (hs : ∀ c ∈ s, Simple c) : Safe (printNat 10 n ++ s) := by
  obtain ⟨c, h1, h2⟩ := printNat_head n s
  refine safe_digit ⟨by simp [printNat_ne], fun c hc => ?_⟩ h1 h2
  rcases List.mem_append.mp hc with hc | hc
  · exact .inl ((printNat_alnum (by omega) (by omega) n).2 c hc)
  · exact hs c hc

theorem safe_dec' (n : Nat) : Safe (printNat 10 n) := by
  have := safe_dec (n := n) (s := []) (by intro c hc; cases hc)
  rwa [List.append_nil] at this

/-- An address of version 6. -/
theorem safe_ip6 {w : List Char} (h : ∀ c ∈ w, isIp6Char c = true ∨ c = '/') (hne : w ≠ []) (hc : ':' ∈ w ∨ '/' ∈ w) : Safe w := by
  refine ⟨⟨hne, fun c hc => ?_⟩, fun hr => ?_, fun hp => ?_⟩
  · rcases h c hc with h | rfl
    · simp only [isIp6Char, Bool.or_eq_true, decide_eq_true_eq] at h
      rcases h with (h | rfl) | rfl
      · exact .inl (alnum_of (by omega) h)
      · exact .inr (.inr (.inr (.inl rfl)))
      · exact .inr (.inr (.inl rfl))
    · exact .inr (.inr (.inr (.inr rfl)))
  · rcases reserved_cases hr with hr | hr
    · have := reserved_colon w hr
      rcases hc with hc | hc
      · exact this.1 hc
      · exact this.2 hc
    · have := h 'K' (hr.subset (by decide))
      revert this; decide
  · have := h 'o' (hp.subset (by decide))
    revert this; decide

/-! ## Names -/

theorem toTable_mem {α : Type} [DecidableEq α] {strs : List (Option String)} {vals : List α} {a : α} {n : String} (h : toTable strs vals a = some n) : some n ∈ strs := by
  unfold toTable at h
  split at h
  · next o ho => rw [h] at ho; exact List.mem_of_getElem? ho
  · cases h

theorem safe_table {strs : List (Option String)} {vals : List Nat} (h : (strs.all fun o => match o with | some n => safeB n.toList | none => true) = true) (v : Nat) :
    Made (fun c => Alnum c ∨ c = '-') (printNamed (toTable strs vals) v) ∧ Safe (printNamed (toTable strs vals) v) := by
  unfold printNamed toName
  cases hn : toTable strs vals v with
  | none => exact ⟨made_mono (printNat_alnum (by omega) (by omega) v) fun _ => .inl, safe_dec' v⟩
  | some n => exact safe_of (by simpa using List.all_eq_true.mp h _ (toTable_mem hn))

theorem safe_ipproto : ∀ v, Made (fun c => Alnum c ∨ c = '-') (printNamed ipprotoToStr v) ∧ Safe (printNamed ipprotoToStr v) := safe_table (by decide +kernel)
theorem safe_icmp : ∀ v, Made (fun c => Alnum c ∨ c = '-') (printNamed icmpTypeToStr v) ∧ Safe (printNamed icmpTypeToStr v) := safe_table (by decide +kernel)
theorem safe_icmpv6 : ∀ v, Made (fun c => Alnum c ∨ c = '-') (printNamed icmpv6TypeToStr v) ∧ Safe (printNamed icmpv6TypeToStr v) := safe_table (by decide +kernel)

theorem safe_dscp (v : Nat) : Made (fun c => Alnum c ∨ c = '-') (printNamed dscpToStr v) ∧ Safe (printNamed dscpToStr v) := by
  unfold printNamed toName dscpToStr
  cases hn : dscpClasses.find? fun e => e.2 = v with
  | none => exact ⟨made_mono (printNat_alnum (by omega) (by omega) v) fun _ => .inl, safe_dec' v⟩
  | some n =>
    have h : ∀ e ∈ dscpClasses, safeB e.1.toList = true := by decide +kernel
    exact safe_of (h n (List.mem_of_find?_eq_some hn))

theorem safe_hex (n : Nat) {s : List Char} (hs : ∀ c ∈ s, Simple c) : Safe (printHex n ++ s) := by
  refine safe_digit (c := '0') ⟨by simp [printHex], fun c hc => ?_⟩ rfl (by decide)
  rcases List.mem_append.mp hc with hc | hc
  · exact .inl ((printHex_alnum n).2 c hc)
  · exact hs c hc

theorem safe_hex' (n : Nat) : Safe (printHex n) := by
  have := safe_hex n (s := []) (by intro c hc; cases hc)
  rwa [List.append_nil] at this

theorem safe_hex4 (n : Nat) : Safe (printHex4 n) :=
  safe_digit (c := '0') (made_mono (printHex4_alnum n) fun _ => .inl) rfl (by decide)

theorem ntop4_quad (l : List Nat) : Quad (ntop4 l) := by
  have h := fun n => printNat_alnum (b := 10) (by omega) (by omega) n
  exact ⟨_, _, _, _, by simp only [ntop4, List.append_assoc, List.cons_append], h (l.getD 0 0), h (l.getD 1 0), h (l.getD 2 0), h (l.getD 3 0)⟩

theorem simple_dec (n : Nat) : ∀ c ∈ printNat 10 n, Simple c := fun c hc => .inl ((printNat_alnum (by omega) (by omega) n).2 c hc)

theorem ntop4_safe {l : List Nat} {s : List Char} (hs : ∀ c ∈ s, Simple c) : Safe (ntop4 l ++ s) := by
  simp only [ntop4, List.append_assoc, List.cons_append]
  refine safe_dec fun c hc => ?_
  simp only [List.mem_cons, List.mem_append] at hc
  rcases hc with rfl | hc | rfl | hc | rfl | hc | hc
  · exact .inr (.inr (.inl rfl))
  · exact simple_dec _ c hc
  · exact .inr (.inr (.inl rfl))
  · exact simple_dec _ c hc
  · exact .inr (.inr (.inl rfl))
  · exact simple_dec _ c hc
  · exact hs c hc

/-! ## Addresses of version 6 -/

theorem ntop6Go_colon (all : List Nat) {b l : Nat} (hl : 0 < l) : ∀ (ws : List Nat) (i : Nat), i ≤ b → b < i + ws.length → ':' ∈ ntop6Go all (some (b, l)) ws i
  | [], i, h1, h2 => by simp at h2; omega
  | w :: ws, i, h1, h2 => by
    unfold ntop6Go
    by_cases hi : i = b
    · subst hi
      simp [hl]
    · simp only [List.length_cons] at h2
      have h0 : b ≠ 0 := by omega
      simp only [show ¬ (b ≤ i ∧ i < b + l) by omega, if_false, h0, false_and, and_false]
      exact List.mem_append_right _ (List.mem_append_right _ (ntop6Go_colon all hl ws (i + 1) (by omega) (by omega)))

theorem ntop6_colon {ws : List Nat} (h8 : ws.length = 8) : ':' ∈ ntop6 ws := by
  unfold ntop6
  apply List.mem_append_left
  cases hb : bestRun ws with
  | none =>
    match ws, h8 with
    | a :: b :: l, _ => simp [ntop6Go]
  | some r =>
    obtain ⟨b, l⟩ := r
    have h1 := (bestRun_run ws).1 b l hb
    have h2 := (bestRun_run ws).2 b l hb
    exact ntop6Go_colon ws (by omega) ws 0 (by omega) (by omega)

/-! ## Flags -/

theorem flagList_of : ∀ {w : List Char}, (∀ p ∈ pieces (· = ',') w, Made Letter p) → FlagList w := by
  intro w
  induction hn : w.length using Nat.strongRecOn generalizing w with
  | _ n ih =>
  intro h
  by_cases hc : ',' ∈ w
  · obtain ⟨a, b, rfl, ha⟩ := List.mem_iff_append.mp hc |>.elim fun a ⟨b, e⟩ => (show ∃ a b, w = a ++ ',' :: b ∧ ',' ∉ a from by
      have := until_of_mem (s := w) (p := ',') (by simpa using hc)
      exact ⟨_, _, this.1, this.2⟩)
    rw [pieces_cut (fun x hx => by simp only [decide_eq_false_iff_not]; rintro rfl; exact ha hx) (by simp)] at h
    refine .more (h a List.mem_cons_self) (ih b.length ?_ rfl fun p hp => h p (List.mem_cons_of_mem _ hp))
    simp only [List.length_append, List.length_cons] at hn
    omega
  · rw [pieces_plain (fun x hx => by simp only [decide_eq_false_iff_not]; rintro rfl; exact hc hx)] at h
    exact .one (h w List.mem_cons_self)

def letterB (c : Char) : Bool := (decide ('a' ≤ c) && decide (c ≤ 'z'))

theorem flags_ok : ∀ v < 256, v ≠ 0 → (pieces (· = ',') (printFlagsGo 8 0 v)).all (fun p => p ≠ [] && p.all letterB) = true ∧
    reservedList.contains (printFlagsGo 8 0 v) = false ∧ "BF_HOOK_".toList.isPrefixOf (printFlagsGo 8 0 v) = false ∧
    (printFlagsGo 8 0 v).contains '\n' = false := by decide +kernel

theorem flags_text {v : Nat} (h : v < 256) (h0 : v ≠ 0) : FlagList (printFlagsGo 8 0 v) ∧ ¬ Reserved (printFlagsGo 8 0 v) ∧ '\n' ∉ printFlagsGo 8 0 v := by
  obtain ⟨h1, h2, h3, h4⟩ := flags_ok v h h0
  refine ⟨flagList_of fun p hp => ?_, fun hr => ?_, fun hn => ?_⟩
  · have := List.all_eq_true.mp h1 p hp
    simp only [Bool.and_eq_true, decide_eq_true_eq, List.all_eq_true, letterB] at this
    exact ⟨this.1, fun c hc => .inl (this.2 c hc)⟩
  · rcases reserved_cases hr with hr | hr
    · rw [List.contains_iff_mem.mpr hr] at h2
      cases h2
    · rw [List.isPrefixOf_iff_prefix.mpr hr] at h3
      cases h3
  · rw [List.contains_iff_mem.mpr hn] at h4
    cases h4

/-! ## Payloads -/

theorem safe_nl {w : List Char} (h : Safe w) : '\n' ∉ w := fun hc => simple_ne (h.simple.2 _ hc) (by decide) rfl

theorem safe_ntop6 {p : List Byte} (h : p.length = 16) {s : List Char} (hs : ∀ c ∈ s, isIp6Char c = true ∨ c = '/') : Safe (ntop6 (bytesWords p) ++ s) := by
  have hl : (bytesWords p).length = 8 := by rw [bytesWords_length, h]
  refine safe_ip6 (fun c hc => ?_) ?_ (.inl (List.mem_append_left _ (ntop6_colon hl)))
  · rcases List.mem_append.mp hc with hc | hc
    · exact .inl (ntop6_ip6 _ c hc)
    · exact hs c hc
  · intro e
    exact ntop6_ne hl (bytesWords_le p) (List.append_eq_nil_iff.mp e).1

theorem ip6_slash {n : Nat} : ∀ c ∈ '/' :: printNat 10 n, isIp6Char c = true ∨ c = '/' := by
  intro c hc
  rcases List.mem_cons.mp hc with rfl | hc
  · exact .inr rfl
  · exact .inl (printNat_ip6 (by omega) (by omega) n c hc)

theorem simple_slash {n : Nat} : ∀ c ∈ '/' :: printNat 10 n, Simple c := by
  intro c hc
  rcases List.mem_cons.mp hc with rfl | hc
  · exact .inr (.inr (.inr (.inr rfl)))
  · exact simple_dec n c hc

/-- What is printed for the component of an element of a set. -/
theorem safe_in {env : TextEnv} {ty : MType} {p : List Byte} (hs : ty.refSize .in_ ≠ 0) (hl : ty.refSize .in_ ≤ p.length) : Safe (printPayload env ty .in_ p) := by
  cases ty
  case ip6Saddr => rw [← List.append_nil (printPayload _ _ _ _)]; exact safe_ntop6 (by rw [List.length_take]; exact Nat.min_eq_left hl) (by intro c hc; cases hc)
  case ip6Daddr => rw [← List.append_nil (printPayload _ _ _ _)]; exact safe_ntop6 (by rw [List.length_take]; exact Nat.min_eq_left hl) (by intro c hc; cases hc)
  case ip6Snet => exact safe_ntop6 (by rw [List.length_take, List.length_drop]; have : 24 ≤ p.length := hl; omega) ip6_slash
  case ip6Dnet => exact safe_ntop6 (by rw [List.length_take, List.length_drop]; have : 24 ≤ p.length := hl; omega) ip6_slash
  case ip4Saddr => rw [← List.append_nil (printPayload _ _ _ _)]; exact ntop4_safe (by intro c hc; cases hc)
  case ip4Daddr => rw [← List.append_nil (printPayload _ _ _ _)]; exact ntop4_safe (by intro c hc; cases hc)
  case ip4Snet => exact ntop4_safe simple_slash
  case ip4Dnet => exact ntop4_safe simple_slash
  case ip4Proto => exact (safe_ipproto _).2
  case ip6Nexthdr => exact (safe_ipproto _).2
  case tcpSport => exact safe_dec' _
  case tcpDport => exact safe_dec' _
  case udpSport => exact safe_dec' _
  case udpDport => exact safe_dec' _
  case icmpType => exact (safe_icmp _).2
  case icmpv6Type => exact (safe_icmpv6 _).2
  case icmpCode => exact safe_dec' _
  case icmpv6Code => exact safe_dec' _
  all_goals exact absurd rfl hs

theorem ip6_alnum {s : List Char} (h : ∀ c ∈ s, isIp6Char c = true ∨ c = '/') (hd : '.' ∉ s) : ∀ c ∈ s, Alnum c ∨ c = ':' ∨ c = '/' := by
  intro c hc
  rcases h c hc with h | rfl
  · simp only [isIp6Char, Bool.or_eq_true, decide_eq_true_eq] at h
    rcases h with (h | rfl) | rfl
    · exact .inl (alnum_of (by omega) h)
    · exact .inr (.inl rfl)
    · exact absurd hc hd
  · exact .inr (.inr rfl)

theorem dash_range {a b : List Char} (ha : Made Alnum a) (hb : Made Alnum b) : ∀ c ∈ '-' :: b, Simple c := by
  intro c hc
  rcases List.mem_cons.mp hc with rfl | hc
  · exact .inr (.inl rfl)
  · exact .inl (hb.2 c hc)

/-- What is printed for a payload is a word of its kind. -/
theorem payload_text {env : TextEnv} {m : Matcher} (h : PayloadShown env m) :
    PayloadText m.type (printPayload env m.type m.op m.payload) ∧ ¬ Reserved (printPayload env m.type m.op m.payload) ∧
      '\n' ∉ printPayload env m.type m.op m.payload := by
  obtain ⟨ty, op, p, neg⟩ := m
  obtain ⟨hop, hok, hpct, hflags, hiface, hip6⟩ := h
  have hsz := hok.size
  dsimp only at *
  have fin : ∀ {w : List Char}, PayloadText ty w → Safe w → PayloadText ty w ∧ ¬ Reserved w ∧ '\n' ∉ w := fun h1 h2 => ⟨h1, h2.free, safe_nl h2⟩
  have d10 : ∀ n, Made Alnum (printNat 10 n) := fun n => printNat_alnum (by omega) (by omega) n
  have addr6 : p.length = 16 → '.' ∉ ntop6 (bytesWords (p.take 16)) →
      Made (fun c => Alnum c ∨ c = ':') (ntop6 (bytesWords (p.take 16))) ∧ Safe (ntop6 (bytesWords (p.take 16))) := by
    intro hl hd
    have hs := safe_ntop6 (p := p.take 16) (by rw [List.length_take]; omega) (s := []) (by intro c hc; cases hc)
    rw [List.append_nil] at hs
    refine ⟨⟨hs.simple.1, fun c hc => ?_⟩, hs⟩
    have h1 := ntop6_ip6 _ c hc
    rcases ip6_alnum (s := ntop6 (bytesWords (p.take 16))) (fun c hc => .inl (ntop6_ip6 _ c hc)) hd c hc with h | h | rfl
    · exact .inl h
    · exact .inr h
    · exact absurd h1 (by decide)
  have net6 : p.length = 24 → '.' ∉ ntop6 (bytesWords ((p.drop 4).take 16)) ++ '/' :: printNat 10 (leNat (p.take 4)) →
      Made (fun c => Alnum c ∨ c = ':' ∨ c = '/') (ntop6 (bytesWords ((p.drop 4).take 16)) ++ '/' :: printNat 10 (leNat (p.take 4))) ∧
      Safe (ntop6 (bytesWords ((p.drop 4).take 16)) ++ '/' :: printNat 10 (leNat (p.take 4))) := by
    intro hl hd
    have hs := safe_ntop6 (p := (p.drop 4).take 16) (by rw [List.length_take, List.length_drop]; omega) (ip6_slash (n := leNat (p.take 4)))
    refine ⟨⟨hs.simple.1, ip6_alnum (fun c hc => ?_) hd⟩, hs⟩
    rcases List.mem_append.mp hc with hc | hc
    · exact .inl (ntop6_ip6 _ c hc)
    · exact ip6_slash c hc
  cases ty <;> simp only [ops, List.mem_cons, List.not_mem_nil, or_false] at hop
  case set => subst hop; exact absurd rfl hok.supported
  case metaIface =>
    subst hop
    have hp : p.take 4 = p := List.take_of_length_le (by rw [hsz]; decide)
    show _ ∧ ¬ Reserved (Codec.print env .iface p) ∧ '\n' ∉ Codec.print env .iface p
    simp only [printPayload, MType.codec, Codec.print, hp]
    cases hn : env.indexToName (leNat p) with
    | none => exact ⟨made_mono (d10 _) fun _ => .inl, (safe_dec' _).free, safe_nl (safe_dec' _)⟩
    | some n =>
      obtain ⟨h1, h2⟩ := hiface rfl n hn
      exact ⟨h1, h2, fun hc => simple_ne (c := '\n') ((h1.2 _ hc).imp id .inl) (by decide) rfl⟩
  case metaL3Proto =>
    subst hop
    simp only [printPayload, MType.codec, Codec.print]
    cases hn : toName ethertypeToStr (leNat (p.take 2)) with
    | none => exact ⟨made_mono (printHex4_alnum _) fun _ => .inl, (safe_hex4 _).free, safe_nl (safe_hex4 _)⟩
    | some n =>
      have : n = "ipv4".toList ∨ n = "ipv6".toList := by
        unfold toName ethertypeToStr at hn
        split at hn
        · simp only [Option.map_some, Option.some.injEq] at hn; exact .inl hn.symm
        · split at hn
          · simp only [Option.map_some, Option.some.injEq] at hn; exact .inr hn.symm
          · cases hn
      have hs : safeB n = true := by rcases this with rfl | rfl <;> decide +kernel
      exact ⟨(safe_of hs).1, (safe_of hs).2.free, safe_nl (safe_of hs).2⟩
  case metaL4Proto => subst hop; exact fin (safe_ipproto _).1 (safe_ipproto _).2
  case ip4Proto => subst hop; exact fin (safe_ipproto _).1 (safe_ipproto _).2
  case ip6Nexthdr => subst hop; exact fin (safe_ipproto _).1 (safe_ipproto _).2
  case ip4Dscp => subst hop; exact fin (safe_dscp _).1 (safe_dscp _).2
  case ip6Dscp => subst hop; exact fin (safe_dscp _).1 (safe_dscp _).2
  case icmpType => subst hop; exact fin (safe_icmp _).1 (safe_icmp _).2
  case icmpv6Type => subst hop; exact fin (safe_icmpv6 _).1 (safe_icmpv6 _).2
  case metaProbability => cases hpct
  case metaFlowProbability => cases hpct
  case metaMark => subst hop; exact fin (printHex_alnum _) (safe_hex' _)
  case icmpCode => subst hop; exact fin (d10 _) (safe_dec' _)
  case icmpv6Code => subst hop; exact fin (d10 _) (safe_dec' _)
  case metaFlowHash =>
    rcases hop with rfl | rfl
    · exact fin (.inl (printHex_alnum _)) (safe_hex' _)
    · exact fin (.inr ⟨_, _, rfl, printHex_alnum _, printHex_alnum _⟩) (safe_hex _ (dash_range (printHex_alnum 0) (printHex_alnum _)))
  case ip4Saddr => subst hop; exact fin (ntop4_quad _) (by have := ntop4_safe (l := (p.take 4).map BitVec.toNat) (s := []) (by intro c hc; cases hc); rwa [List.append_nil] at this)
  case ip4Daddr => subst hop; exact fin (ntop4_quad _) (by have := ntop4_safe (l := (p.take 4).map BitVec.toNat) (s := []) (by intro c hc; cases hc); rwa [List.append_nil] at this)
  case ip4Snet => subst hop; exact fin ⟨_, _, rfl, ntop4_quad _, d10 _⟩ (ntop4_safe simple_slash)
  case ip4Dnet => subst hop; exact fin ⟨_, _, rfl, ntop4_quad _, d10 _⟩ (ntop4_safe simple_slash)
  case ip6Saddr => subst hop; have := addr6 hsz (hip6 (.inl rfl)); exact fin this.1 this.2
  case ip6Daddr => subst hop; have := addr6 hsz (hip6 (.inr (.inl rfl))); exact fin this.1 this.2
  case ip6Snet => subst hop; have := net6 hsz (hip6 (.inr (.inr (.inl rfl)))); exact fin this.1 this.2
  case ip6Dnet => subst hop; have := net6 hsz (hip6 (.inr (.inr (.inr rfl)))); exact fin this.1 this.2
  case tcpFlags =>
    have hp : p.take 1 = p := List.take_of_length_le (by rw [hsz]; rcases hop with rfl | rfl | rfl <;> decide)
    have hlt : leNat (p.take 1) < 256 := by simpa using leNat_take_bound (p := p) (k := 1)
    have h0 : leNat (p.take 1) ≠ 0 := by rw [hp]; exact hflags rfl
    have := flags_text hlt h0
    rcases hop with rfl | rfl | rfl <;> exact this
  all_goals
    rcases hop with rfl | rfl
    · exact fin (.inl (d10 _)) (safe_dec' _)
    · exact fin (.inr ⟨_, _, rfl, d10 _, d10 _⟩) (safe_dec (dash_range (d10 0) (d10 _)))

end Bf.Cli.Dmp
