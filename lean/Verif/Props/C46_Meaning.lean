import Verif.User.TextMeans
/-!
# C46: the text of a payload means what it says
-/
namespace Bf
open Spec

/-- **C46**: an ordinary text that is accepted, if it fits the buffer it is copied to, says the payload it is read as.  Excluded for networks: lengths
of more than 9 characters. -/
theorem C46_says_partial {env : TextEnv} {ty : MType} {op : MOp} {buf : List Byte} {s : List Char} {p : List Byte} (ho : Ordinary s)
    (hr : ∀ k, room ty op = some k → s.length ≤ k) (hn : ty.isNet = true → ∀ a b, s = a ++ '/' :: b → b.length ≤ 9)
    (h : parsePayload env ty op buf s = .ok p) : Means env ty op s p := by
  unfold parsePayload at h
  cases hc : ty.codec op with
  | none => rw [hc] at h; cases h
  | some c =>
    rw [hc] at h
    dsimp only at h
    split at h
    · cases h
    · next bs hp =>
      cases h
      rw [means_codec hc]
      refine Codec.sound ho (by rw [← room_codec hc]; exact hr) ?_ hp _
      intro hnet
      refine hn ?_
      revert hc
      cases ty <;> cases op <;> simp [MType.codec] <;> rintro rfl <;> first | rfl | simp at hnet

/-- **C46**: a text that says a payload and fits is accepted, and read as this payload. -/
theorem C46_accepts {env : TextEnv} {ty : MType} {op : MOp} {s : List Char} {p : List Byte} (ht : hasText ty op) (hl : p.length = ty.refSize op)
    (hr : ∀ k, room ty op = some k → s.length ≤ k) (h : Means env ty op s p) (buf : List Byte) :
    ∃ q, parsePayload env ty op buf s = .ok q ∧ q.take (shown ty op) = p.take (shown ty op) := by
  obtain ⟨c, hc⟩ := hasText_codec.mp ht
  have hne : ty.refSize op ≠ 0 := by
    revert hc
    cases ty <;> cases op <;> simp [MType.codec, MType.refSize]
  have hle : c.size ≤ p.length := by rw [codec_size hc, hl]; exact shown_le hne
  have := Codec.complete hle (by rw [← room_codec hc]; exact hr) ((means_codec hc).mp h)
  unfold parsePayload
  rw [hc]
  dsimp only
  rw [this]
  refine ⟨_, rfl, ?_⟩
  unfold overwrite
  rw [← codec_size hc, take_left (by rw [List.length_take]; omega)]

/-- **C46**: a text says one payload at most. -/
theorem C46_one {env : TextEnv} {ty : MType} {op : MOp} {s : List Char} {p q : List Byte} (ht : hasText ty op) (hp : p.length = ty.refSize op)
    (hq : q.length = ty.refSize op) (hr : ∀ k, room ty op = some k → s.length ≤ k) (h1 : Means env ty op s p) (h2 : Means env ty op s q) :
    p.take (shown ty op) = q.take (shown ty op) := by
  obtain ⟨a, ha, ha'⟩ := C46_accepts ht hp hr h1 []
  obtain ⟨b, hb, hb'⟩ := C46_accepts ht hq hr h2 []
  rw [ha] at hb
  cases hb
  rw [← ha', hb']

/-- **C46**: an ordinary text that says nothing is refused. -/
theorem C46_refused_partial {env : TextEnv} {ty : MType} {op : MOp} {s : List Char} (ht : hasText ty op) (ho : Ordinary s)
    (hr : ∀ k, room ty op = some k → s.length ≤ k) (hn : ty.isNet = true → ∀ a b, s = a ++ '/' :: b → b.length ≤ 9)
    (h : ∀ p, ¬ Means env ty op s p) (buf : List Byte) : parsePayload env ty op buf s = .err .EINVAL := by
  cases hp : parsePayload env ty op buf s with
  | ok p => exact absurd (C46_says_partial ho hr hn hp) (h p)
  | err e =>
    obtain ⟨c, hc⟩ := hasText_codec.mp ht
    unfold parsePayload at hp
    rw [hc] at hp
    dsimp only at hp
    split at hp
    · cases hp; rfl
    · cases hp
  | ub =>
    unfold parsePayload at hp
    split at hp
    · cases hp
    · split at hp <;> cases hp

/-! ## Negative numbers -/

theorem strtoInt_minus {b : Nat} {s : List Char} (h : Front s) : strtoInt b ('-' :: s) = (strtoInt b s).map fun x => (true, x.2) := by
  have hd : s.dropWhile isSpace = s := by
    cases s with
    | nil => rfl
    | cons c s => rw [List.dropWhile_cons, (h c rfl).1]; rfl
  have hm : ('-' :: s).dropWhile isSpace = '-' :: s := by rw [List.dropWhile_cons]; rfl
  have h1 : s.head? ≠ some '-' := fun e => (h _ e).2.1 rfl
  have h2 : s.head? ≠ some '+' := fun e => (h _ e).2.2 rfl
  simp only [strtoInt]
  rw [hm, hd]
  simp only [List.head?_cons, List.tail_cons, true_or, if_true, h1, h2, or_self, if_false, decide_true, decide_false]
  rw [apply_ite (Option.map fun x : Bool × Nat × List Char => (true, x.2))]
  rfl

theorem digitsVal_zero {b : Nat} (hb : 0 < b) {b' : Nat} : ∀ (k : Nat) (s : List Char), s.length = k → digitsVal b s = 0 → digitsVal b' s = 0
  | 0, s, hk, _ => by rw [List.length_eq_zero_iff.mp hk]; rfl
  | k + 1, s, hk, h => by
    rcases List.eq_nil_or_concat s with e | ⟨w, c, e⟩
    · rw [e]; rfl
    · rw [List.concat_eq_append] at e
      subst e
      rw [digitsVal_append] at h ⊢
      have h1 : digitsVal b w * b = 0 := by omega
      have h2 : digitsVal b w = 0 := by
        rcases Nat.mul_eq_zero.mp h1 with h | h
        · exact h
        · omega
      rw [digitsVal_zero hb k w (by simpa using hk) h2]
      omega

/-- **C46**: a negative number is refused, unless it is so long that it wraps: no number, no name, no address and no range begins with a dash. -/
theorem C46_negative_partial {env : TextEnv} {ty : MType} {op : MOp} {s : List Char} {n : Nat} (hs : Numeral 10 s n) (h0 : 0 < n)
    (hn : ty = .metaMark ∨ n ≤ 9223372036854775808)
    (hi : ty = .metaIface → env.nameToIndex ('-' :: s) = 0) (hp : isPct ty = false) (buf p : List Byte) :
    parsePayload env ty op buf ('-' :: s) ≠ .ok p := by
  obtain ⟨hne, hf⟩ := numeral_front (by omega) hs
  have h10 : strtoInt 10 ('-' :: s) = some (true, n, []) := by
    rw [strtoInt_minus hf, (strtoInt_ten (neg := false) hf).mpr ⟨rfl, hs⟩]; rfl
  have hul : n ≤ 9223372036854775808 → strtoul ('-' :: s) 10 = ⟨18446744073709551616 - n, [], false⟩ := by
    intro hn
    unfold strtoul
    rw [h10]
    dsimp only
    rw [if_neg (by omega), if_pos rfl, Nat.mod_eq_of_lt (by omega)]
  have hmax : n ≤ 9223372036854775808 → ∀ max, max ≤ 4294967295 → strtoulMax ('-' :: s) max = none := by
    intro hn max hm
    unfold strtoulMax strtoulAny
    rw [if_neg (by simp), hul hn]
    dsimp only
    rw [if_neg (by simp), Option.filter_some, if_neg (by simp; omega)]
  have hdec : n ≤ 9223372036854775808 → ∀ max, max ≤ 4294967295 → parseDec ('-' :: s) max = none := by
    intro hn max hm
    unfold parseDec
    rw [hul hn]
    dsimp only
    rw [if_neg (by omega)]
  have hnm : ∀ {f : String → Res Nat} {names : String → Nat → Prop}, (∀ s n, f s = .ok n ↔ ∃ x, names x n ∧ lower s = lower x) →
      (∀ x n, names x n → (lower x).head? ≠ some '-') → n ≤ 9223372036854775808 → ∀ max, max ≤ 4294967295 → parseNamed f max ('-' :: s) = none := by
    intro f names hfn hx hn max hm
    unfold parseNamed ofName
    cases hr : f (String.ofList ('-' :: s)) with
    | ok m =>
      obtain ⟨x, h1, h2⟩ := (hfn _ _).mp hr
      have := hx x m h1
      rw [← h2, lower, String.toList_ofList] at this
      exact absurd (show (List.map Char.toLower ('-' :: s)).head? = some '-' from rfl) this
    | err e => exact hmax hn max hm
    | ub => exact hmax hn max hm
  have hst : startsDigit ('-' :: s) = false := show isDigit '-' = false by decide
  intro h
  unfold parsePayload at h
  cases hc : ty.codec op with
  | none => rw [hc] at h; cases h
  | some c =>
    rw [hc] at h
    dsimp only at h
    split at h
    · cases h
    · next bs hb =>
      have hct : c ≠ .pct := by
        rintro rfl
        revert hc hp
        cases ty <;> cases op <;> simp [MType.codec, isPct]
      have hcm : c ≠ .mark → n ≤ 9223372036854775808 := by
        intro hm
        rcases hn with e | hn
        · exfalso
          subst e
          revert hc
          cases op <;> simp [MType.codec]
          intro e; exact hm e.symm
        · exact hn
      have hif : c = .iface → env.nameToIndex ('-' :: s) = 0 := by
        rintro rfl
        apply hi
        revert hc
        cases ty <;> cases op <;> simp [MType.codec]
      clear h hc hi hp
      cases c <;> simp only [Codec.parse, Option.map_eq_some_iff] at hb <;> obtain ⟨x, hx, _⟩ := hb
      case u32 => rw [hmax (hcm (by simp)) _ (by omega)] at hx; cases hx
      case u32Range => rw [parseU32Range, if_pos hst] at hx; cases hx
      case iface =>
        rw [parseIface, hif rfl, if_neg (by omega), hul (hcm (by simp))] at hx
        dsimp only at hx
        rw [if_neg (by have := hcm (by simp); omega)] at hx
        cases hx
      case l3Proto => rw [hnm ether_names (fun x n h => by cases h <;> decide) (hcm (by simp)) _ (by omega)] at hx; cases hx
      case l4Proto =>
        rw [hnm C38_understood.2.2.2.2.2.2.2.1 (fun x n h => by unfold Doc.ipproto at h; split at h <;> first | (cases h; done) | (cases h; decide)) (hcm (by simp)) _ (by omega)] at hx
        cases hx
      case port => rw [hdec (hcm (by simp)) _ (by omega)] at hx; cases hx
      case portRange => rw [parsePortRange, if_pos hst] at hx; cases hx
      case pct => exact hct rfl
      case mark =>
        unfold parseMark strtoll at hx
        rw [strtoInt_minus hf] at hx
        cases hz : strtoInt 0 s with
        | none => rw [hz] at hx; simp at hx
        | some y =>
          obtain ⟨neg, m, rest⟩ := y
          rw [hz] at hx
          dsimp only [Option.map_some] at hx
          by_cases hrest : rest = []
          · subst hrest
            have hm : 0 < m := by
              rcases Nat.eq_zero_or_pos m with e | e
              · exfalso
                subst e
                obtain ⟨_, hcn⟩ := (strtoInt_zero hf).mp hz
                obtain ⟨d1, d2, d3⟩ := (numeral_iff (by omega)).mp hs
                rcases hcn with ⟨x, d, hx, rfl, _⟩ | ⟨_, h8⟩ | ⟨_, hd⟩
                · have := d2 x (by simp)
                  rcases hx with rfl | rfl <;> revert this <;> decide
                · obtain ⟨_, _, h8⟩ := (numeral_iff (by omega)).mp h8
                  have := digitsVal_zero (b := 8) (b' := 10) (by omega) _ s rfl h8
                  omega
                · have := numeral_unique (by omega) hs hd
                  omega
              · exact e
            simp only [if_true] at hx
            rw [if_neg (by simp)] at hx
            rw [if_pos (by split <;> omega)] at hx
            cases hx
          · rw [if_pos hrest] at hx
            cases hx
      case ip4 => rw [pton4, pton4Go, if_neg (by decide), if_neg (by decide)] at hx; cases hx
      case ip4Net => rw [parseIp4Net, if_pos hst] at hx; cases hx
      case ip6 =>
        rw [pton6, if_neg (by decide), pton6Go, if_neg (by decide), if_neg (by decide), if_neg (by rintro ⟨h, _⟩; revert h; decide)] at hx
        cases hx
      case ip6Net => rw [parseIp6Net, if_pos (show startsIp6 ('-' :: s) = false from show (isAlpha '-' || isDigit '-' || decide ('-' = ':')) = false by decide)] at hx; cases hx
      case tcpFlags =>
        obtain ⟨h1, _⟩ := parseFlags_iff.mp hx
        rw [tokens_strtok] at h1
        unfold strtok at h1
        rw [show ('-' :: s).dropWhile (fun c => decide (c = ',')) = '-' :: s by rw [List.dropWhile_cons]; rfl] at h1
        simp only [reduceCtorEq, if_false] at h1
        rw [List.takeWhile_cons, if_pos (by decide)] at h1
        obtain ⟨m, x, hx, hl⟩ := h1 _ (List.mem_cons_self ..)
        rw [lower, String.toList_ofList, List.map_cons] at hl
        have := congrArg List.head? hl
        rw [List.head?_cons] at this
        unfold Doc.tcpFlag at hx
        split at hx <;> first | (cases hx; done) | (cases hx; revert this; decide)
      case icmpType =>
        rw [hnm C38_understood.2.2.2.2.2.2.2.2.1 (fun x n h => by unfold Doc.icmp at h; split at h <;> first | (cases h; done) | (cases h; decide)) (hcm (by simp)) _ (by omega)] at hx
        cases hx
      case icmpCode => rw [hmax (hcm (by simp)) _ (by omega)] at hx; cases hx
      case dscp =>
        rw [hnm (fun s n => C38_dscpDoc s n) (fun x n h => by cases h <;> decide) (hcm (by simp)) _ (by omega)] at hx
        cases hx
      case icmpv6Type =>
        rw [hnm C38_understood.2.2.2.2.2.2.2.2.2 (fun x n h => by unfold Doc.icmpv6 at h; split at h <;> first | (cases h; done) | (cases h; decide)) (hcm (by simp)) _ (by omega)] at hx
        cases hx

/-! ## Cases -/

abbrev says (ty : MType) (op : MOp) (s : String) (p : List Byte) : Prop := parsePayload env0 ty op (List.replicate (ty.refSize op) 0) s.toList = .ok p

theorem ordinary_of {s : List Char} (h : s ≠ [] ∧ (∀ c ∈ s, c ∉ [' ', '\t', '\n', '\x0b', '\x0c', '\r', '+', '-'])) : Ordinary s := by
  refine ⟨h.1, fun c hc hm => h.2 c hc ?_, fun a b e => ?_⟩
  · simp only [List.mem_cons, List.not_mem_nil, or_false] at hm ⊢
    rcases hm with h | h | h | h | h | h | h <;> simp [h]
  exact absurd (by simp) (h.2 '-' (by rw [e]; simp))

/-- An IPv6 address with `::` and an IPv4 address at its end. -/
example : Ordinary "64:ff9b::192.0.2.33".toList ∧ says .ip6Saddr .eq "64:ff9b::192.0.2.33" [0, 0x64, 0xff, 0x9b, 0, 0, 0, 0, 0, 0, 0, 0, 192, 0, 2, 33] :=
  ⟨ordinary_of (by decide), by decide +kernel⟩

/-- So that it is the address of RFC 4291: two words, zeros, and the IPv4 address. -/
example : Addr6 "64:ff9b::192.0.2.33".toList [0x64, 0xff9b, 0, 0, 0, 0, 0xc000, 0x221] :=
  pton6_iff.mp (by decide +kernel)

/-- A network, a range, a mark in octal, flags. -/
example : Ordinary "10.1.0.0/16".toList ∧ says .ip4Dnet .in_ "10.1.0.0/16" [16, 0, 0, 0, 10, 1, 0, 0] := ⟨ordinary_of (by decide), by decide +kernel⟩
example : says .tcpDport .range "80-443" [80, 0, 187, 1] ∧ says .metaMark .eq "017" [15, 0, 0, 0] ∧ says .tcpFlags .all "SYN,ack" [0x12] ∧
    says .icmpType .eq "Echo-Request" [8] ∧ says .metaIface .eq "lo" [1, 0, 0, 0] ∧ says .metaIface .eq "42" [42, 0, 0, 0] := by decide +kernel
example : Ordinary "80-443".toList :=
  ⟨by decide, by decide, fun a b e => by
    match a, e with
    | [], e => cases e
    | [_], e => cases e
    | [_, x], e => cases e; exact ⟨_, rfl, Or.inr (by decide)⟩
    | [_, _, _], e => cases e
    | [_, _, _, _], e => cases e
    | [_, _, _, _, _], e => cases e
    | _ :: _ :: _ :: _ :: _ :: _ :: _, e => simp at e⟩

/-- Refused: a zero in front in an IPv4 address, two `::`, nine words, a reversed range, a long prefix. -/
example : (∀ p, ¬ says .ip4Saddr .eq "10.01.0.1" p) ∧ (∀ p, ¬ says .ip6Saddr .eq "1::2::3" p) ∧ (∀ p, ¬ says .ip6Saddr .eq "1:2:3:4:5:6:7:8:9" p) ∧
    (∀ p, ¬ says .tcpDport .range "443-80" p) ∧ (∀ p, ¬ says .ip4Snet .eq "10.0.0.0/33" p) := by
  have key : ∀ ty op (s : String) e, parsePayload env0 ty op (List.replicate (ty.refSize op) 0) s.toList = .err e → ∀ p, ¬ says ty op s p := by
    intro ty op s e h p h'
    unfold says at h'
    rw [h] at h'
    cases h'
  exact ⟨key _ _ _ .EINVAL (by decide +kernel), key _ _ _ .EINVAL (by decide +kernel), key _ _ _ .EINVAL (by decide +kernel), key _ _ _ .EINVAL (by decide +kernel),
    key _ _ _ .EINVAL (by decide +kernel)⟩

/-- A negative number: `-1` is not a mark, nor a port. -/
example : Numeral 10 "1".toList 1 := .one (v := 1) (Or.inl (by decide)) (by decide)

/-- **C46** does not hold of all texts.  Texts longer than the buffer are cut: `00-0000000000099` is read as 0 to 9.  Blanks and signs in front of
numbers are skipped, in the middle of ranges and networks too; a negative number of 20 digits wraps. -/
theorem C46_odd : says .tcpDport .range "00-0000000000099" [0, 0, 9, 0] ∧ says .tcpDport .range "80- +443" [80, 0, 187, 1] ∧
    says .ip4Snet .eq "10.0.0.0/-4294967288" [8, 0, 0, 0, 10, 0, 0, 0] ∧
    says .icmpCode .eq "-18446744073709551615" [1] := by decide +kernel

/-- A number in hexadecimal without `0x` is a hash, but not the lower bound of a range of hashes if it begins with a letter. -/
theorem C46_hash : says .metaFlowHash .eq "ff" [255, 0, 0, 0] ∧ says .metaFlowHash .range "0ff-fff" [255, 0, 0, 0, 255, 15, 0, 0] ∧
    parsePayload env0 .metaFlowHash .range (List.replicate 8 0) "ff-fff".toList = .err .EINVAL := by decide +kernel

end Bf
