import Verif.User.TextPayload
/-! # What the callbacks read, one by one -/
namespace Bf
open Spec

/-- What the text says, by callback. -/
def Codec.Means (env : TextEnv) (c : Codec) (s : List Char) (p : List Byte) : Prop :=
  match c with
  | .u32 => NumText s (host p 0 4)
  | .u32Range => RangeText NumText 4294967295 s (host p 0 4) (host p 4 4)
  | .iface => IfaceText env s (host p 0 4)
  | .l3Proto => NamedBy EtherName 65535 s (host p 0 2)
  | .l4Proto => NamedBy (fun x n => Doc.ipproto n = some x) 255 s (host p 0 1)
  | .port => Numeral 10 s (Spec.beNat (p.take 2))
  | .portRange => RangeText (Numeral 10) 65535 s (host p 0 2) (host p 2 2)
  | .pct => ∃ n, env.parsePct s = some n ∧ host p 0 4 = n % 4294967296
  | .mark => CNumber s (host p 0 4) ∧ host p 0 4 ≤ 4294967295
  | .ip4 => Addr4 s ((p.take 4).map BitVec.toNat)
  | .ip4Net => NetText Addr4 32 s (((p.drop 4).take 4).map BitVec.toNat) (host p 0 4)
  | .ip6 => ∃ ws, Addr6 s ws ∧ (p.take 16).map BitVec.toNat = bytesOf ws
  | .ip6Net => ∃ ws, NetText Addr6 128 s ws (host p 0 4) ∧ ((p.drop 4).take 16).map BitVec.toNat = bytesOf ws
  | .tcpFlags => FlagsText s (host p 0 1)
  | .icmpType => NamedBy (fun x n => Doc.icmp n = some x) 255 s (host p 0 1)
  | .icmpv6Type => NamedBy (fun x n => Doc.icmpv6 n = some x) 255 s (host p 0 1)
  | .icmpCode => NumText s (host p 0 1)
  | .dscp => NamedBy Doc.Dscp 63 s (host p 0 1)

theorem means_codec {env : TextEnv} {ty : MType} {op : MOp} {c : Codec} (h : ty.codec op = some c) {s : List Char} {p : List Byte} :
    Spec.Means env ty op s p ↔ c.Means env s p := by
  revert h
  cases ty <;> cases op <;> simp [MType.codec] <;> rintro rfl <;> simp [Spec.Means, Codec.Means]

theorem hasText_codec {ty : MType} {op : MOp} : hasText ty op ↔ ∃ c, ty.codec op = some c := by
  cases ty <;> cases op <;> simp [hasText, MType.codec]

/-- The size of the buffer the text is copied to. -/
def Codec.room : Codec → Option Nat
  | .u32Range | .ip4Net => some 31
  | .portRange => some 15
  | .ip6Net => some 49
  | _ => none

theorem room_codec {ty : MType} {op : MOp} {c : Codec} (h : ty.codec op = some c) : Spec.room ty op = c.room := by
  revert h
  cases ty <;> cases op <;> simp [MType.codec] <;> rintro rfl <;> rfl

/-! ## Bytes -/

theorem host_le {k v : Nat} (h : v < 256 ^ k) (r : List Byte) : host (leBytes k v ++ r) 0 k = v := by
  unfold host
  rw [List.drop_zero, take_left (by simp), leNat_leBytes_bound h]

theorem host_le2 {k v w : Nat} (h : w < 256 ^ k) (r : List Byte) : host (leBytes k v ++ leBytes k w ++ r) k k = w := by
  unfold host
  rw [List.append_assoc, drop_left (by simp), take_left (by simp), leNat_leBytes_bound h]

theorem toNat_ofNat {x : List Nat} (h : ∀ n ∈ x, n ≤ 255) : (x.map (BitVec.ofNat 8)).map BitVec.toNat = x := by
  induction x with
  | nil => rfl
  | cons a x ih =>
    rw [List.map_cons, List.map_cons, ih (fun n hn => h n (by simp [hn])), BitVec.toNat_ofNat, Nat.mod_eq_of_lt (by have := h a (by simp); omega)]

theorem addr4_bytes {s : List Char} {x : List Nat} (h : Addr4 s x) : x.length = 4 ∧ ∀ n ∈ x, n ≤ 255 := by
  obtain ⟨a, b, c, d, _, rfl, h1, h2, h3, h4⟩ := addr4_iff.mp h
  refine ⟨rfl, fun n hn => ?_⟩
  simp at hn
  omega

theorem bytesOf_words {ws : List Nat} (h : ∀ w ∈ ws, w ≤ 65535) : (wordsBytes ws).map BitVec.toNat = bytesOf ws := by
  induction ws with
  | nil => rfl
  | cons w ws ih =>
    have h1 : wordsBytes (w :: ws) = BitVec.ofNat 8 (w / 256) :: BitVec.ofNat 8 w :: wordsBytes ws := rfl
    have h2 : bytesOf (w :: ws) = w / 256 :: w % 256 :: bytesOf ws := rfl
    have hw := h w (by simp)
    rw [h1, h2, List.map_cons, List.map_cons, ih (fun x hx => h x (by simp [hx])), BitVec.toNat_ofNat, BitVec.toNat_ofNat, Nat.mod_eq_of_lt (by omega)]
    
theorem words_of_bytes {ws : List Nat} (h : ∀ w ∈ ws, w ≤ 65535) {p : List Byte} (hp : p.map BitVec.toNat = bytesOf ws) : wordsBytes ws = p := by
  have := bytesOf_words h
  rw [← hp] at this
  have e := congrArg (List.map (BitVec.ofNat 8)) this
  rwa [map_ofNat_toNat, map_ofNat_toNat] at e

/-! ## Ordinary texts -/

theorem ordinary_front {s : List Char} (h : Ordinary s) : s ≠ [] ∧ Front s := by
  refine ⟨h.1, fun c hc => ?_⟩
  have h1 := h.2.1 c (List.mem_of_head? hc)
  simp only [List.mem_cons, List.not_mem_nil, or_false, not_or] at h1
  refine ⟨by simp [isSpace, h1], fun e => ?_, h1.2.2.2.2.2.2⟩
  subst e
  cases s with
  | nil => cases hc
  | cons d s =>
    cases hc
    obtain ⟨c, hc, _⟩ := h.2.2 [] s rfl
    cases hc

theorem ordinary_after {s a b : List Char} {sep : Char} (h : Ordinary s) (e : s = a ++ sep :: b) (hs : sep.isAlpha = false ∧ sep.isDigit = false) : Front b := by
  intro c hc
  have h1 := h.2.1 c (by rw [e]; have := List.mem_of_head? hc; simp [this])
  simp only [List.mem_cons, List.not_mem_nil, or_false, not_or] at h1
  refine ⟨by simp [isSpace, h1], fun e' => ?_, h1.2.2.2.2.2.2⟩
  subst e'
  cases b with
  | nil => cases hc
  | cons d b =>
    cases hc
    obtain ⟨c, hc, h2⟩ := h.2.2 (a ++ [sep]) b (by rw [e]; simp)
    simp at hc
    subst hc
    rw [hs.1, hs.2] at h2
    simp at h2

theorem ordinary_before {s a b : List Char} {sep : Char} (h : Ordinary s) (e : s = a ++ sep :: b) (ha : a ≠ []) : Front a := by
  intro c hc
  apply (ordinary_front h).2 c
  rw [e]
  cases a with
  | nil => exact absurd rfl ha
  | cons d a => simpa using hc

/-- Networks: the text of the length has at most 9 characters. -/
def shortLen (s : List Char) : Prop := ∀ a b, s = a ++ '/' :: b → b.length ≤ 9

/-! ## Numbers -/

theorem strtoulAny_le {s : List Char} {max n : Nat} (h : strtoulMax s max = some n) : n ≤ max := by
  simp only [strtoulMax, Option.filter_eq_some_iff, decide_eq_true_eq] at h
  exact h.2

theorem parsePrefix_of {b : List Char} {n max : Nat} (h : Numeral 10 b n) (hn : n ≤ max) (hm : max < 4294967295) : parsePrefix b max = some n := by
  obtain ⟨h1, h2⟩ := numeral_front (by omega) h
  unfold parsePrefix
  have := (strtoul_whole (s := b) (base := 10) (v := n) (range := false) h1 h2).mpr ⟨n, (strtoInt_ten h2).mpr ⟨rfl, h⟩, Or.inl ⟨by omega, rfl, rfl⟩⟩
  rw [this]
  dsimp only
  rw [Nat.mod_eq_of_lt (by omega), if_pos ⟨rfl, hn⟩]

theorem parseIface_sound {env : TextEnv} {s : List Char} {n : Nat} (hs : s ≠ []) (hf : Front s) (h : parseIface env s = some n) : IfaceText env s n ∧ n ≤ 4294967295 := by
  unfold parseIface at h
  unfold IfaceText
  split at h
  · next hc =>
    cases h
    refine ⟨⟨hc.1, ?_⟩, by omega⟩
    rw [if_pos hc]
  · next hc =>
    dsimp only at h
    split at h
    · next hr =>
      cases h
      obtain ⟨hr1, hr2, hr3, hr4⟩ := hr
      have e : strtoul s 10 = ⟨(strtoul s 10).val, [], false⟩ := by
        cases hst : strtoul s 10
        rw [hst] at hr1 hr2
        simp only at hr1 hr2
        subst hr1 hr2
        rfl
      obtain ⟨n, h1, h2⟩ := (strtoul_whole hs hf).mp e
      rcases h2 with ⟨_, h2, _⟩ | ⟨_, _, h2⟩
      · rw [h2] at hr3 hr4 ⊢
        refine ⟨⟨hr3, ?_⟩, hr4⟩
        rw [if_neg hc]
        exact ⟨((strtoInt_ten hf).mp h1).2, hr4⟩
      · cases h2
    · cases h

theorem parseIface_complete {env : TextEnv} {s : List Char} {n : Nat} (h : IfaceText env s n) : parseIface env s = some n := by
  unfold IfaceText at h
  unfold parseIface
  obtain ⟨h0, h⟩ := h
  split at h
  · next hc => rw [if_pos hc, h]
  · next hc =>
    obtain ⟨h1, h2⟩ := numeral_front (by omega) h.1
    have := (strtoul_whole (s := s) (base := 10) (v := n) (range := false) h1 h2).mpr ⟨n, (strtoInt_ten h2).mpr ⟨rfl, h.1⟩, Or.inl ⟨by omega, rfl, rfl⟩⟩
    rw [if_neg hc, this]
    dsimp only
    rw [if_pos ⟨rfl, rfl, h0, h.2⟩]

/-! ## Ranges and networks -/

theorem range_sound {num : List Char → Nat → Prop} {f : List Char → Option Nat} {len max : Nat} (hf : ∀ t n, t ≠ [] → Front t → f t = some n → num t n ∧ n ≤ max)
    {s : List Char} {x y : Nat} (hl : s.length < len) (ho : Ordinary s)
    (h : (if startsDigit s = false then none else (halves len '-' s).bind fun (a, b) => (f a).bind fun x => (f b).bind fun y => if y < x then none else some (x, y)) = some (x, y)) :
    RangeText num max s x y := by
  split at h
  · cases h
  · next hd =>
    have hd : startsDigit s = true := by simpa using hd
    simp only [Option.bind_eq_some_iff] at h
    obtain ⟨⟨a, b⟩, hh, x', hx, y', hy, h⟩ := h
    split at h
    · cases h
    · next hlt =>
      cases h
      have hne : s.head? ≠ some '-' := by
        intro e
        rw [startsDigit, e] at hd
        revert hd
        decide
      obtain ⟨e, _, ha, hb⟩ := halves_parts hl hne hh
      obtain ⟨h1, h2⟩ := hf a x ha (ordinary_before ho e ha) hx
      obtain ⟨h3, h4⟩ := hf b y hb (ordinary_after ho e (by decide)) hy
      refine ⟨a, b, e, h1, h3, by omega, h4, ?_⟩
      obtain ⟨c, v, hc, hv⟩ := starts_iff.mp hd
      refine ⟨c, v, ?_, hv⟩
      rw [e] at hc
      cases a with
      | nil => exact absurd rfl ha
      | cons d a => simpa using hc

theorem range_complete {num : List Char → Nat → Prop} {f : List Char → Option Nat} {len max : Nat} (hf : ∀ t n, num t n → n ≤ max → f t = some n)
    (hn : ∀ t n, num t n → t ≠ [] ∧ ∀ c ∈ t, c ≠ '-') {s : List Char} {x y : Nat} (hl : s.length < len) (h : RangeText num max s x y) :
    (if startsDigit s = false then none else (halves len '-' s).bind fun (a, b) => (f a).bind fun x => (f b).bind fun y => if y < x then none else some (x, y)) = some (x, y) := by
  obtain ⟨a, b, rfl, h1, h2, h3, h4, c, v, hc, hv⟩ := h
  have hd : startsDigit (a ++ '-' :: b) = true := by
    refine starts_iff.mpr ⟨c, v, ?_, hv⟩
    cases a with
    | nil => cases hc
    | cons d a => simpa using hc
  rw [if_neg (by simp [hd]), halves_cut (hn a x h1).2 (hn a x h1).1 (hn b y h2).1 hl]
  simp only [Option.bind_some, hf a x h1 (by omega), hf b y h2 h4]
  rw [if_neg (by omega)]

theorem net_sound {addr : List Char → List Nat → Prop} {f : List Char → Option (List Nat)} {len max : Nat} (hm : max < 4294967295) (hf : ∀ t x, f t = some x → addr t x) {starts : List Char → Bool}
    (hst : ∀ t, starts t = true → t.head? ≠ some '/')
    {s : List Char} {x : List Nat} {n : Nat} (hl : s.length < len) (ho : Ordinary s) (hsh : shortLen s)
    (h : (if starts s = false then none else (halves len '/' s).bind fun (a, b) => (f a).bind fun x => (parsePrefix b max).map fun n => (n, x)) = some (n, x)) :
    NetText addr max s x n := by
  split at h
  · cases h
  · next hd =>
    have hd : starts s = true := by simpa using hd
    simp only [Option.bind_eq_some_iff, Option.map_eq_some_iff] at h
    obtain ⟨⟨a, b⟩, hh, x', hx, n', hn, h⟩ := h
    cases h
    obtain ⟨e, _, ha, hb⟩ := halves_parts hl (hst s hd) hh
    obtain ⟨h1, h2⟩ := (parsePrefix_iff hb (ordinary_after ho e (by decide)) (hsh a b e) hm).mp hn
    exact ⟨a, b, e, hf a x hx, h1, h2⟩

theorem net_complete {addr : List Char → List Nat → Prop} {f : List Char → Option (List Nat)} {len max : Nat} (hm : max < 4294967295) (hf : ∀ t x, addr t x → f t = some x) {starts : List Char → Bool}
    (hst : ∀ t x r, addr t x → starts (t ++ r) = true ∧ t ≠ [] ∧ ∀ c ∈ t, c ≠ '/')
    {s : List Char} {x : List Nat} {n : Nat} (hl : s.length < len) (h : NetText addr max s x n) :
    (if starts s = false then none else (halves len '/' s).bind fun (a, b) => (f a).bind fun x => (parsePrefix b max).map fun n => (n, x)) = some (n, x) := by
  obtain ⟨a, b, rfl, h1, h2, h3⟩ := h
  obtain ⟨g1, g2, g3⟩ := hst a x ('/' :: b) h1
  rw [if_neg (by simp [g1]), halves_cut g3 g2 (numeral_front (by omega) h2).1 hl]
  simp only [Option.bind_some, hf a x h1, parsePrefix_of h2 h3 hm, Option.map_some]

theorem addr4_starts {t : List Char} {x : List Nat} (r : List Char) (h : Addr4 t x) : startsDigit (t ++ r) = true ∧ t ≠ [] ∧ ∀ c ∈ t, c ≠ '/' := by
  obtain ⟨a, b, c, d, rfl, _⟩ := addr4_iff.mp h
  refine ⟨?_, ntop4_ne _, ntop4_no _⟩
  unfold ntop4
  simp only [List.getD_cons_zero, List.append_assoc]
  exact startsDigit_printNat _ _

theorem digit16_starts {c : Char} (h : isDigitOf 16 c = true) (s : List Char) : startsIp6 (c :: s) = true := by
  simp only [startsIp6, List.head?_cons, Option.map_some, Option.getD_some, Bool.or_eq_true, decide_eq_true_eq]
  have hv : digitVal c < 16 := by simpa [isDigitOf] using h
  by_cases h1 : '0' ≤ c ∧ c ≤ '9'
  · left; right
    have : digitVal c < 10 := by
      have h9 : c.toNat ≤ 57 := h1.2
      simp only [digitVal, h1, and_self, if_true]
      omega
    simpa [isDigit, isDigitOf] using this
  · left; left
    by_cases h2 : 'a' ≤ c ∧ c ≤ 'z'
    · simp [isAlpha, h2]
    · by_cases h3 : 'A' ≤ c ∧ c ≤ 'Z'
      · simp [isAlpha, h3]
      · simp only [digitVal, h1, h2, h3, if_false] at hv
        omega

theorem addr6_starts {t : List Char} {x : List Nat} (r : List Char) (h : Addr6 t x) : startsIp6 (t ++ r) = true ∧ t ≠ [] ∧ ∀ c ∈ t, c ≠ '/' := by
  obtain ⟨hne, hc⟩ := addr6_chars h
  refine ⟨?_, hne, fun c hcm e => ?_⟩
  · obtain ⟨c, t, rfl⟩ := List.exists_cons_of_ne_nil hne
    have hi := hc c (by simp)
    simp only [isIp6Char, Bool.or_eq_true, decide_eq_true_eq] at hi
    rcases hi with (hi | rfl) | rfl
    · exact digit16_starts hi _
    · rfl
    · have := pton6_iff.mpr h
      simp [pton6, pton6Go, show isDigitOf 16 '.' = false by decide, pton4, pton4Go, show isDigit '.' = false by decide] at this
  · have := hc c hcm
    rw [e] at this
    revert this
    decide

theorem digit_not_slash (t : List Char) (h : startsDigit t = true) : t.head? ≠ some '/' := by
  intro e; rw [startsDigit, e] at h; revert h; decide

theorem ip6_not_slash (t : List Char) (h : startsIp6 t = true) : t.head? ≠ some '/' := by
  intro e; rw [startsIp6, e] at h; revert h; decide

/-! ## The callbacks -/

theorem beNat_be16 {n : Nat} (h : n < 65536) (r : List Byte) : Spec.beNat ((be16 n ++ r).take 2) = n := by
  rw [take_left (show (be16 n).length = 2 from rfl)]
  simp only [be16, Spec.beNat, List.foldl_cons, List.foldl_nil, BitVec.toNat_ofNat]
  omega

theorem Codec.sound {env : TextEnv} {c : Codec} {s : List Char} {bs : List Byte} (ho : Ordinary s) (hr : ∀ k, c.room = some k → s.length ≤ k)
    (hsh : c = .ip4Net ∨ c = .ip6Net → shortLen s) (h : c.parse env s = some bs) (r : List Byte) : c.Means env s (bs ++ r) := by
  obtain ⟨hne, hfr⟩ := ordinary_front ho
  cases c <;> simp only [Codec.parse, Option.map_eq_some_iff] at h <;> obtain ⟨n, hn, rfl⟩ := h <;> unfold Codec.Means
  case u32 =>
    obtain ⟨h1, h2⟩ := (strtoulMax_iff hne hfr (by omega)).mp hn
    rw [host_le (by omega)]; exact h1
  case u32Range =>
    obtain ⟨x, y⟩ := n
    have := range_sound (num := NumText) (max := 4294967295) (fun t n h1 h2 h3 => (strtoulMax_iff h1 h2 (by omega)).mp h3) (by have := hr 31 rfl; omega) ho hn
    have hb : y < 256 ^ 4 ∧ x < 256 ^ 4 := by obtain ⟨_, _, _, _, _, h1, h2, _⟩ := this; omega
    dsimp only
    rw [host_le2 hb.1, List.append_assoc, host_le hb.2]
    exact this
  case iface =>
    obtain ⟨h1, h2⟩ := parseIface_sound hne hfr hn
    rw [host_le (by omega)]; exact h1
  case l3Proto =>
    have h1 := (named_iff ether_names (by omega) (Or.inr ⟨hne, hfr⟩)).mp hn
    have hb := parseNamed_le (max := 65535) (fun s n h => by obtain ⟨x, hx, _⟩ := (ether_names s n).mp h; cases hx <;> omega) hn
    rw [host_le (by omega)]; exact h1
  case l4Proto =>
    have h1 := (named_iff C38_understood.2.2.2.2.2.2.2.1 (by omega) (Or.inr ⟨hne, hfr⟩)).mp hn
    have hb := parseNamed_le (max := 255) (fun s n h => by
      obtain ⟨x, hx, _⟩ := (C38_understood.2.2.2.2.2.2.2.1 s n).mp h
      unfold Doc.ipproto at hx; split at hx <;> first | omega | cases hx) hn
    rw [host_le (by omega)]; exact h1
  case port =>
    obtain ⟨h1, h2⟩ := (parseDec_iff hne hfr (by omega)).mp hn
    rw [beNat_be16 (by omega)]; exact h1
  case portRange =>
    obtain ⟨x, y⟩ := n
    have := range_sound (num := Numeral 10) (max := 65535) (fun t n h1 h2 h3 => (parseDec_iff h1 h2 (by omega)).mp h3) (by have := hr 15 rfl; omega) ho hn
    have hb : y < 256 ^ 2 ∧ x < 256 ^ 2 := by obtain ⟨_, _, _, _, _, h1, h2, _⟩ := this; omega
    dsimp only
    rw [host_le2 hb.1, List.append_assoc, host_le hb.2]
    exact this
  case pct =>
    refine ⟨n, hn, ?_⟩
    unfold host
    rw [List.drop_zero, take_left (by simp), leNat_leBytes]
  case mark =>
    obtain ⟨h1, h2⟩ := (parseMark_iff hne hfr).mp hn
    rw [host_le (by omega)]; exact ⟨h1, h2⟩
  case ip4 =>
    have h1 := pton4_iff.mp hn
    obtain ⟨h2, h3⟩ := addr4_bytes h1
    dsimp only
    rw [take_left (k := 4) (by simpa using h2), toNat_ofNat h3]; exact h1
  case ip4Net =>
    obtain ⟨n, x⟩ := n
    have := net_sound (addr := Addr4) (max := 32) (by omega) (fun t x h => pton4_iff.mp h) digit_not_slash (by have := hr 31 rfl; omega) ho (hsh (Or.inl rfl)) hn
    have hb : n < 256 ^ 4 := by obtain ⟨_, _, _, _, _, h1⟩ := this; omega
    obtain ⟨h2, h3⟩ : x.length = 4 ∧ ∀ n ∈ x, n ≤ 255 := by obtain ⟨_, _, _, h1, _⟩ := this; exact addr4_bytes h1
    dsimp only
    rw [List.append_assoc, host_le hb, drop_left (by simp), take_left (by simpa using h2), toNat_ofNat h3]
    exact this
  case ip6 =>
    have h1 := pton6_iff.mp hn
    obtain ⟨h2, h3⟩ := addr6_words h1
    refine ⟨n, h1, ?_⟩
    rw [take_left (by rw [wordsBytes_length]; omega), bytesOf_words h3]
  case ip6Net =>
    obtain ⟨n, x⟩ := n
    have := net_sound (addr := Addr6) (max := 128) (by omega) (fun t x h => pton6_iff.mp h) ip6_not_slash (by have := hr 49 rfl; omega) ho (hsh (Or.inr rfl)) hn
    have hb : n < 256 ^ 4 := by obtain ⟨_, _, _, _, _, h1⟩ := this; omega
    obtain ⟨h2, h3⟩ : x.length = 8 ∧ ∀ n ∈ x, n ≤ 65535 := by obtain ⟨_, _, _, h1, _⟩ := this; exact addr6_words h1
    refine ⟨x, ?_, ?_⟩
    · dsimp only
      rw [List.append_assoc, host_le hb]; exact this
    · dsimp only
      rw [List.append_assoc, drop_left (by simp), take_left (by rw [wordsBytes_length]; omega), bytesOf_words h3]
  case tcpFlags =>
    have h1 := parseFlags_iff.mp hn
    have := flags_lt h1
    rw [host_le (by omega)]; exact h1
  case icmpType =>
    have h1 := (named_iff C38_understood.2.2.2.2.2.2.2.2.1 (by omega) (Or.inr ⟨hne, hfr⟩)).mp hn
    have hb := parseNamed_le (max := 255) (fun s n h => by
      obtain ⟨x, hx, _⟩ := (C38_understood.2.2.2.2.2.2.2.2.1 s n).mp h
      unfold Doc.icmp at hx; split at hx <;> first | omega | cases hx) hn
    rw [host_le (by omega)]; exact h1
  case icmpCode =>
    obtain ⟨h1, h2⟩ := (strtoulMax_iff hne hfr (by omega)).mp hn
    rw [host_le (by omega)]; exact h1
  case dscp =>
    have h1 := (named_iff (fun s n => C38_dscpDoc s n) (by omega) (Or.inr ⟨hne, hfr⟩)).mp hn
    have hb := parseNamed_le dscpFromStr_le hn
    rw [host_le (by omega)]; exact h1
  case icmpv6Type =>
    have h1 := (named_iff C38_understood.2.2.2.2.2.2.2.2.2 (by omega) (Or.inr ⟨hne, hfr⟩)).mp hn
    have hb := parseNamed_le (max := 255) (fun s n h => by
      obtain ⟨x, hx, _⟩ := (C38_understood.2.2.2.2.2.2.2.2.2 s n).mp h
      unfold Doc.icmpv6 at hx; split at hx <;> first | omega | cases hx) hn
    rw [host_le (by omega)]; exact h1

theorem le_host {p : List Byte} {k : Nat} (h : k ≤ p.length) : leBytes k (host p 0 k) = p.take k := by
  unfold host; rw [List.drop_zero]; exact leBytes_take h

theorem host_lt (p : List Byte) (o k : Nat) : host p o k < 256 ^ k := leNat_take_bound

theorem le_host2 {p : List Byte} {k : Nat} (h : k + k ≤ p.length) : leBytes k (host p 0 k) ++ leBytes k (host p k k) = p.take (k + k) := by
  rw [le_host (by omega)]
  unfold host
  rw [leBytes_take (by rw [List.length_drop]; omega), List.take_add]

theorem be16_beNat {p : List Byte} (h : 2 ≤ p.length) : be16 (Spec.beNat (p.take 2)) = p.take 2 := by
  match p, h with
  | a :: b :: p, _ =>
    have ha := a.isLt
    have hb := b.isLt
    simp only [List.take_succ_cons, List.take_zero, Spec.beNat, be16, List.foldl_cons, List.foldl_nil]
    rw [show (256 * (256 * 0 + a.toNat) + b.toNat) / 256 = a.toNat by omega]
    simp only [List.cons.injEq, and_true]
    refine ⟨by simp, ?_⟩
    apply BitVec.eq_of_toNat_eq
    rw [BitVec.toNat_ofNat]
    omega

theorem Codec.complete {env : TextEnv} {c : Codec} {s : List Char} {p : List Byte} (hl : c.size ≤ p.length) (hr : ∀ k, c.room = some k → s.length ≤ k)
    (h : c.Means env s p) : c.parse env s = some (p.take c.size) := by
  cases c <;> simp only [Codec.Means] at h <;> simp only [Codec.size] at hl ⊢ <;> simp only [Codec.parse]
  case u32 =>
    have hf := number_front h
    have := host_lt p 0 4
    rw [(strtoulMax_iff hf.1 hf.2 (by omega)).mpr ⟨h, by omega⟩, Option.map_some, le_host hl]
  case u32Range =>
    have := range_complete (num := NumText) (f := fun t => strtoulMax t 4294967295) (len := 32) (max := 4294967295)
      (fun t n h1 h2 => (strtoulMax_iff (number_front h1).1 (number_front h1).2 (by omega)).mpr ⟨h1, h2⟩)
      (fun t n h1 => ⟨(number_front h1).1, number_no h1⟩) (by have := hr 31 rfl; omega) h
    rw [parseU32Range, this, Option.map_some]
    dsimp only
    rw [le_host2 hl]
  case iface => rw [parseIface_complete h, Option.map_some, le_host hl]
  case l3Proto => rw [named_of ether_names (by omega) h, Option.map_some, le_host hl]
  case l4Proto => rw [named_of C38_understood.2.2.2.2.2.2.2.1 (by omega) h, Option.map_some, le_host hl]
  case port =>
    have hf := numeral_front (by omega) h
    have hb : Spec.beNat (p.take 2) < 65536 := by
      match p, hl with
      | a :: b :: p, _ =>
        have ha := a.isLt
        have hb := b.isLt
        simp only [List.take_succ_cons, List.take_zero, Spec.beNat, List.foldl_cons, List.foldl_nil]
        omega
    rw [(parseDec_iff hf.1 hf.2 (by omega)).mpr ⟨h, by omega⟩, Option.map_some, be16_beNat hl]
  case portRange =>
    have := range_complete (num := Numeral 10) (f := fun t => parseDec t 65535) (len := 16) (max := 65535)
      (fun t n h1 h2 => (parseDec_iff (numeral_front (by omega) h1).1 (numeral_front (by omega) h1).2 (by omega)).mpr ⟨h1, h2⟩)
      (fun t n h1 => ⟨(numeral_front (by omega) h1).1, numeral_no (by omega) h1 (by decide)⟩) (by have := hr 15 rfl; omega) h
    rw [parsePortRange, this, Option.map_some]
    dsimp only
    rw [le_host2 hl]
  case pct =>
    obtain ⟨n, h1, h2⟩ := h
    have e : leBytes 4 (n % 256 ^ 4) = leBytes 4 n := by
      have := congrArg (leBytes 4) (leNat_leBytes 4 n)
      have h3 := leBytes_leNat (leBytes 4 n)
      rw [leBytes_length] at h3
      rw [← this, h3]
    rw [h1, Option.map_some, ← e, ← le_host hl, h2]
  case mark =>
    have hf := cnumber_front h.1
    rw [(parseMark_iff hf.1 hf.2).mpr h, Option.map_some, le_host hl]
  case ip4 => rw [pton4_iff.mpr h, Option.map_some, map_ofNat_toNat]
  case ip4Net =>
    have := net_complete (addr := Addr4) (f := pton4) (len := 32) (max := 32) (by omega) (fun t x h => pton4_iff.mpr h) (fun t x r h => addr4_starts r h) (by have := hr 31 rfl; omega) h
    rw [parseIp4Net, this, Option.map_some]
    dsimp only
    rw [map_ofNat_toNat, le_host (by omega), show p.take 8 = p.take 4 ++ (p.drop 4).take 4 from @List.take_add _ p 4 4]
  case ip6 =>
    obtain ⟨ws, h1, h2⟩ := h
    rw [pton6_iff.mpr h1, Option.map_some, words_of_bytes (addr6_words h1).2 h2]
  case ip6Net =>
    obtain ⟨ws, h1, h2⟩ := h
    have := net_complete (addr := Addr6) (f := pton6) (len := 50) (max := 128) (by omega) (fun t x h => pton6_iff.mpr h) (fun t x r h => addr6_starts r h) (by have := hr 49 rfl; omega) h1
    rw [parseIp6Net, this, Option.map_some]
    dsimp only
    have hw : ∀ w ∈ ws, w ≤ 65535 := by obtain ⟨_, _, _, h3, _⟩ := h1; exact (addr6_words h3).2
    rw [words_of_bytes hw h2, le_host (by omega), show p.take 20 = p.take 4 ++ (p.drop 4).take 16 from @List.take_add _ p 4 16]
  case tcpFlags => rw [parseFlags_iff.mpr h, Option.map_some, le_host hl]
  case icmpType => rw [named_of C38_understood.2.2.2.2.2.2.2.2.1 (by omega) h, Option.map_some, le_host hl]
  case icmpCode =>
    have hf := number_front h
    have := host_lt p 0 1
    rw [(strtoulMax_iff hf.1 hf.2 (by omega)).mpr ⟨h, by omega⟩, Option.map_some, le_host hl]
  case dscp => rw [named_of (fun s n => C38_dscpDoc s n) (by omega) h, Option.map_some, le_host hl]
  case icmpv6Type => rw [named_of C38_understood.2.2.2.2.2.2.2.2.2 (by omega) h, Option.map_some, le_host hl]

end Bf
