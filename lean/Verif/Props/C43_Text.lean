import Verif.User.PayloadLemmas
import Verif.Props.C38_Names
/-!
# C43: the text of a payload

What `bfcli` prints for a matcher or for an element of a set is read back as the same payload, and what is read is well formed.
-/
namespace Bf

/-! ## Specification -/

/-- A payload that fits its matcher: the right size, an ordered range, a prefix length within the address, a DSCP value, an interface. -/
structure PayloadOk (ty : MType) (op : MOp) (p : List Byte) : Prop where
  supported : ty.refSize op ≠ 0
  size : p.length = ty.refSize op
  range : op = .range → leNat (p.take (p.length / 2)) ≤ leNat (p.drop (p.length / 2))
  net4 : ty = .ip4Snet ∨ ty = .ip4Dnet → leNat (p.take 4) ≤ 32
  net6 : ty = .ip6Snet ∨ ty = .ip6Dnet → leNat (p.take 4) ≤ 128
  dscp : ty = .ip4Dscp ∨ ty = .ip6Dscp → leNat p ≤ 63
  iface : ty = .metaIface → leNat p ≠ 0

/-- The bytes of a payload that are printed, and that a parser writes: all of them, but for the second byte of `meta.l4_proto` and
the padding of IPv6 networks. -/
def shown (ty : MType) (op : MOp) : Nat :=
  if ty = .metaL4Proto then 1 else if ty = .ip6Snet ∨ ty = .ip6Dnet then 20 else ty.refSize op

/-- The names of the interfaces identify them, and no interface has for name the number of an interface that has none. -/
structure TextEnvOk (env : TextEnv) : Prop where
  named : ∀ i n, env.indexToName i = some n → env.nameToIndex n = i ∧ i ≤ 2147483647
  unnamed : ∀ i, env.indexToName i = none → env.nameToIndex (printNat 10 i) = 0

/-- Percentages are floating point numbers, which are not modelled. -/
def isPct (ty : MType) : Bool := ty = .metaProbability || ty = .metaFlowProbability

/-! ## Names and numbers -/

theorem digit_lower {c : Char} (h : isDigit c = true) : isDigit c.toLower = true := by
  have : c.toLower = c := by
    unfold Char.toLower
    rw [dif_neg]
    rintro ⟨h1, h2⟩
    have h1' : 65 ≤ c.toNat := h1
    have h2' : c.toNat ≤ 90 := h2
    simp only [isDigit, isDigitOf, decide_eq_true_eq] at h
    unfold digitVal at h
    split at h
    · next hc => have : c.toNat ≤ 57 := hc.2; omega
    · split at h
      · next hc => have : 97 ≤ c.toNat := hc.1; omega
      · split at h <;> omega
  rw [this, h]

/-- No name of the table starts with a digit. -/
def Wordy (toStr : Nat → Option String) : Prop := ∀ a n, toStr a = some n → startsDigit (lower n) = false

theorem startsDigit_lower {s : List Char} (h : startsDigit s = true) : startsDigit (lower (String.ofList s)) = true := by
  rw [lower, String.toList_ofList]
  cases s with
  | nil => cases h
  | cons c t =>
    simp only [startsDigit, List.head?_cons, Option.map_some, Option.getD_some, List.map_cons] at h ⊢
    exact digit_lower h

theorem ofName_digit {toStr : Nat → Option String} {fromStr : String → Res Nat} (h : Names lower toStr fromStr) (hw : Wordy toStr) {s : List Char}
    (hs : startsDigit s = true) : ofName fromStr s = none := by
  unfold ofName
  split
  · next n hn =>
    obtain ⟨m, h1, h2⟩ := (h.accepts _ _).mp hn
    have := startsDigit_lower hs
    rw [h2, hw _ _ h1] at this
    cases this
  · rfl

theorem ofName_name {toStr : Nat → Option String} {fromStr : String → Res Nat} (h : Names lower toStr fromStr) {v : Nat} {s : List Char}
    (hs : toName toStr v = some s) : ofName fromStr s = some v := by
  unfold toName at hs
  cases hn : toStr v with
  | none => rw [hn] at hs; cases hs
  | some n =>
    rw [hn] at hs
    cases hs
    rw [ofName, String.ofList_toList, h.round hn]

theorem parseNamed_print {toStr : Nat → Option String} {fromStr : String → Res Nat} (h : Names lower toStr fromStr) (hw : Wordy toStr) {v max : Nat}
    (hv : v ≤ max) (hm : max < 18446744073709551616) : parseNamed fromStr max (printNamed toStr v) = some v := by
  unfold parseNamed printNamed
  cases hn : toName toStr v with
  | some s => simp only [ofName_name h hn]
  | none =>
    have := startsDigit_printNat v []
    rw [List.append_nil] at this
    simp only [ofName_digit h hw this, strtoulMax_dec hv hm]

/-- The check of a table for `Wordy`. -/
def wordyTable (strs : List (Option String)) : Bool := strs.all fun o => match o with | some n => !startsDigit (lower n) | none => true

theorem wordy_of_table {strs : List (Option String)} {vals : List Nat} (h : wordyTable strs = true) : Wordy (toTable strs vals) := by
  intro a n hn
  unfold toTable at hn
  cases ho : strs[vals.idxOf a]? with
  | none => rw [ho] at hn; cases hn
  | some o =>
    rw [ho] at hn
    simp only at hn
    subst hn
    have := List.all_eq_true.mp h _ (List.mem_of_getElem? ho)
    simpa using this

theorem wordy_ipproto : Wordy ipprotoToStr := wordy_of_table (by decide +kernel)
theorem wordy_icmp : Wordy icmpTypeToStr := wordy_of_table (by decide +kernel)
theorem wordy_icmpv6 : Wordy icmpv6TypeToStr := wordy_of_table (by decide +kernel)
theorem wordy_ethertype : Wordy ethertypeToStr := by
  intro a n h
  unfold ethertypeToStr at h
  split at h
  · cases h; decide
  · split at h
    · cases h; decide
    · cases h

theorem parse_dscp {v : Nat} (hv : v ≤ 63) : parseNamed dscpFromStr 63 (printNamed dscpToStr v) = some v := by
  unfold parseNamed printNamed
  cases hn : toName dscpToStr v with
  | some s =>
    unfold toName at hn
    cases hm : dscpToStr v with
    | none => rw [hm] at hn; cases hn
    | some n =>
      rw [hm] at hn
      cases hn
      simp only [ofName, String.ofList_toList, C38_dscp.2 _ _ hm]
  | none =>
    have hd := startsDigit_printNat v []
    rw [List.append_nil] at hd
    have : ofName dscpFromStr (printNat 10 v) = none := by
      unfold ofName
      split
      · next d hd' =>
        obtain ⟨n, h1, h2⟩ := (C38_dscp.1 _ _).mp hd'
        have h3 := startsDigit_lower hd
        rw [h2] at h3
        have h4 : ∀ e ∈ dscpClasses, startsDigit (lower e.1) = false := by decide
        rw [h4 _ h1] at h3
        cases h3
      · rfl
    simp only [this, strtoulMax_dec hv (by omega)]

theorem parse_flags : ∀ v < 256, parseFlags (printFlagsGo 8 0 v) = some v := by decide +kernel

/-! ## Bytes -/

theorem wordsBytes_bytesWords : ∀ (p : List Byte), p.length % 2 = 0 → wordsBytes (bytesWords p) = p
  | [], _ => rfl
  | [_], h => by simp at h
  | a :: b :: l, h => by
    have ih := wordsBytes_bytesWords l (by simp at h; omega)
    have ha := a.isLt
    have hb := b.isLt
    have e1 : (a.toNat * 256 + b.toNat) / 256 = a.toNat := by omega
    have e2 : BitVec.ofNat 8 (a.toNat * 256 + b.toNat) = b := by
      apply BitVec.eq_of_toNat_eq
      rw [BitVec.toNat_ofNat]
      omega
    simp only [bytesWords, wordsBytes, List.flatMap_cons, e1, e2, BitVec.ofNat_toNat, BitVec.setWidth_eq]
    have ih' : (bytesWords l).flatMap (fun w => [BitVec.ofNat 8 (w / 256), BitVec.ofNat 8 w]) = l := ih
    rw [ih']
    rfl

theorem bytesWords_length : ∀ (p : List Byte), (bytesWords p).length = p.length / 2
  | [] => rfl
  | [_] => by simp [bytesWords]
  | a :: b :: l => by simp [bytesWords, bytesWords_length l]; omega

theorem bytesWords_le : ∀ (p : List Byte), ∀ w ∈ bytesWords p, w ≤ 65535
  | [] => by simp [bytesWords]
  | [_] => by simp [bytesWords]
  | a :: b :: l => by
    intro w hw
    simp only [bytesWords, List.mem_cons] at hw
    rcases hw with rfl | hw
    · have := a.isLt; have := b.isLt; omega
    · exact bytesWords_le l w hw

theorem be16_leNat (p : List Byte) (h : p.length = 2) : be16 (leNat p.reverse) = p := by
  match p, h with
  | [a, b], _ =>
    have ha := a.isLt
    have hb := b.isLt
    have e : leNat [b, a] = b.toNat + 256 * a.toNat := by simp [leNat]
    simp only [List.reverse_cons, List.reverse_nil, List.nil_append, List.cons_append, be16, e]
    rw [show (b.toNat + 256 * a.toNat) / 256 = a.toNat by omega]
    have e2 : BitVec.ofNat 8 (b.toNat + 256 * a.toNat) = b := by
      apply BitVec.eq_of_toNat_eq
      rw [BitVec.toNat_ofNat]
      omega
    rw [e2, BitVec.ofNat_toNat, BitVec.setWidth_eq]

theorem map_ofNat_toNat (l : List Byte) : (l.map BitVec.toNat).map (BitVec.ofNat 8) = l := by
  induction l with
  | nil => rfl
  | cons a l ih => rw [List.map_cons, List.map_cons, ih, BitVec.ofNat_toNat, BitVec.setWidth_eq]

theorem four {l : List Byte} (h : l.length = 4) : ∃ a b c d : Byte, l = [a, b, c, d] := by
  match l, h with
  | [a, b, c, d], _ => exact ⟨a, b, c, d, rfl⟩

theorem pton4_bytes {l : List Byte} (h : l.length = 4) : pton4 (ntop4 (l.map BitVec.toNat)) = some (l.map BitVec.toNat) := by
  obtain ⟨a, b, c, d, rfl⟩ := four h
  exact pton4_ntop4 (by have := a.isLt; omega) (by have := b.isLt; omega) (by have := c.isLt; omega) (by have := d.isLt; omega)

theorem leBytes_take {p : List Byte} {k : Nat} (h : k ≤ p.length) : leBytes k (leNat (p.take k)) = p.take k := by
  have := leBytes_leNat (p.take k)
  rwa [List.length_take, Nat.min_eq_left h] at this

theorem leNat_take_bound {p : List Byte} {k : Nat} : leNat (p.take k) < 256 ^ k := by
  refine Nat.lt_of_lt_of_le (leNat_lt _) (Nat.pow_le_pow_right (by omega) ?_)
  rw [List.length_take]
  omega

/-! ## The callbacks -/

/-- The size and the bytes written by a callback. -/
def Codec.size : Codec → Nat
  | .u32 | .iface | .pct | .mark | .ip4 | .portRange => 4
  | .u32Range | .ip4Net => 8
  | .l3Proto | .port => 2
  | .ip6 => 16
  | .ip6Net => 20
  | _ => 1

/-- What `PayloadOk` says to a callback. -/
def Codec.Ok : Codec → List Byte → Prop
  | .u32Range, p => leNat (p.take 4) ≤ leNat ((p.drop 4).take 4)
  | .portRange, p => leNat (p.take 2) ≤ leNat ((p.drop 2).take 2)
  | .ip4Net, p => leNat (p.take 4) ≤ 32
  | .ip6Net, p => leNat (p.take 4) ≤ 128
  | .dscp, p => leNat (p.take 1) ≤ 63
  | .iface, p => leNat (p.take 4) ≠ 0
  | _, _ => True

theorem Codec.round {env : TextEnv} (he : TextEnvOk env) {c : Codec} (hc : c ≠ .pct) {p : List Byte} (hl : c.size ≤ p.length) (hok : c.Ok p) :
    c.parse env (c.print env p) = some (p.take c.size) := by
  have t1 : leNat (p.take 1) < 256 := by simpa using leNat_take_bound (p := p) (k := 1)
  have t2 : leNat (p.take 2) < 65536 := by simpa using leNat_take_bound (p := p) (k := 2)
  have t4 : leNat (p.take 4) < 4294967296 := by simpa using leNat_take_bound (p := p) (k := 4)
  have r2 : leNat (p.take 2).reverse < 65536 := by
    refine Nat.lt_of_lt_of_le (leNat_lt _) ?_
    rw [List.length_reverse, List.length_take]
    exact Nat.pow_le_pow_right (n := 256) (i := _) (j := 2) (by omega) (by omega)
  have d24 : leNat ((p.drop 2).take 2) < 65536 := by simpa using leNat_take_bound (p := p.drop 2) (k := 2)
  have d44 : leNat ((p.drop 4).take 4) < 4294967296 := by simpa using leNat_take_bound (p := p.drop 4) (k := 4)
  cases c with
  | pct => exact absurd rfl hc
  | u32 =>
    simp only [Codec.parse, Codec.print, strtoulMax_hex (n := leNat (p.take 4)) (max := 4294967295) (by omega) (by omega), Option.map_some, Codec.size]
    rw [leBytes_take (by simpa [Codec.size] using hl)]
  | mark =>
    simp only [Codec.parse, Codec.print, parseMark_hex (n := leNat (p.take 4)) (by omega), Option.map_some, Codec.size]
    rw [leBytes_take (by simpa [Codec.size] using hl)]
  | u32Range =>
    simp only [Codec.Ok, Codec.size] at hok hl
    simp only [Codec.parse, Codec.print, parseU32Range_print hok (by omega), Option.map_some, Codec.size]
    rw [leBytes_take (by omega), leBytes_take (by simp; omega), ← List.take_add]
  | portRange =>
    simp only [Codec.Ok, Codec.size] at hok hl
    simp only [Codec.parse, Codec.print, parsePortRange_print hok (by omega), Option.map_some, Codec.size]
    rw [leBytes_take (by omega), leBytes_take (by simp; omega), ← List.take_add]
  | iface =>
    simp only [Codec.Ok, Codec.size] at hok hl
    have : parseIface env (Codec.print env .iface p) = some (leNat (p.take 4)) := by
      simp only [Codec.print]
      cases hn : env.indexToName (leNat (p.take 4)) with
      | some n =>
        obtain ⟨h1, h2⟩ := he.named _ _ hn
        simp only [parseIface, h1]
        rw [if_pos ⟨by omega, h2⟩]
      | none =>
        have h1 := he.unnamed _ hn
        simp only [parseIface, h1, Nat.lt_irrefl, false_and, if_false, strtoul_dec (n := leNat (p.take 4)) (by omega), true_and]
        rw [if_pos ⟨by omega, by omega⟩]
    simp only [Codec.parse, this, Option.map_some, Codec.size]
    rw [leBytes_take (by simpa [Codec.size] using hl)]
  | l3Proto =>
    have : parseNamed ethertypeFromStr 65535 (Codec.print env .l3Proto p) = some (leNat (p.take 2)) := by
      simp only [Codec.print]
      cases hn : toName ethertypeToStr (leNat (p.take 2)) with
      | some s => simp only [parseNamed, ofName_name C38_ethertype hn]
      | none =>
        simp only [parseNamed]
        rw [ofName_digit C38_ethertype wordy_ethertype (by simp [printHex4, startsDigit, show isDigit '0' = true by decide])]
        simp only [strtoulMax_hex4 (n := leNat (p.take 2)) (by omega)]
    simp only [Codec.parse, this, Option.map_some, Codec.size]
    rw [leBytes_take (by simpa [Codec.size] using hl)]
  | l4Proto =>
    simp only [Codec.parse, Codec.print, parseNamed_print C38_ipproto wordy_ipproto (v := leNat (p.take 1)) (max := 255) (by omega) (by omega), Option.map_some, Codec.size]
    rw [leBytes_take (by simpa [Codec.size] using hl)]
  | icmpType =>
    simp only [Codec.parse, Codec.print, parseNamed_print C38_icmp wordy_icmp (v := leNat (p.take 1)) (max := 255) (by omega) (by omega), Option.map_some, Codec.size]
    rw [leBytes_take (by simpa [Codec.size] using hl)]
  | icmpv6Type =>
    simp only [Codec.parse, Codec.print, parseNamed_print C38_icmpv6 wordy_icmpv6 (v := leNat (p.take 1)) (max := 255) (by omega) (by omega), Option.map_some, Codec.size]
    rw [leBytes_take (by simpa [Codec.size] using hl)]
  | icmpCode =>
    simp only [Codec.parse, Codec.print, strtoulMax_dec (n := leNat (p.take 1)) (max := 255) (by omega) (by omega), Option.map_some, Codec.size]
    rw [leBytes_take (by simpa [Codec.size] using hl)]
  | dscp =>
    simp only [Codec.Ok, Codec.size] at hok hl
    simp only [Codec.parse, Codec.print, parse_dscp hok, Option.map_some, Codec.size]
    rw [leBytes_take (by simpa [Codec.size] using hl)]
  | tcpFlags =>
    simp only [Codec.parse, Codec.print, parse_flags _ t1, Option.map_some, Codec.size]
    rw [leBytes_take (by simpa [Codec.size] using hl)]
  | port =>
    simp only [Codec.size] at hl
    simp only [Codec.parse, Codec.print, parseDec_dec (n := leNat (p.take 2).reverse) (max := 65535) (by omega) (by omega), Option.map_some, Codec.size]
    rw [be16_leNat _ (by simp; omega)]
  | ip4 =>
    simp only [Codec.size] at hl
    simp only [Codec.parse, Codec.print, Codec.size]
    rw [pton4_bytes (by simp; omega), Option.map_some, map_ofNat_toNat]
  | ip4Net =>
    simp only [Codec.Ok, Codec.size] at hok hl
    simp only [Codec.parse, Codec.print, Codec.size]
    obtain ⟨a, b, c, d, h4⟩ := four (l := (p.drop 4).take 4) (by simp; omega)
    rw [h4]
    simp only [List.map_cons, List.map_nil]
    rw [parseIp4Net_print (by have := a.isLt; omega) (by have := b.isLt; omega) (by have := c.isLt; omega) (by have := d.isLt; omega) hok]
    have := map_ofNat_toNat [a, b, c, d]
    simp only [Option.map_some]
    rw [show [a.toNat, b.toNat, c.toNat, d.toNat] = [a, b, c, d].map BitVec.toNat from rfl, this, leBytes_take (by omega), ← h4, ← List.take_add]
  | ip6 =>
    simp only [Codec.size] at hl
    simp only [Codec.parse, Codec.print, Codec.size]
    rw [pton6_ntop6 (by rw [bytesWords_length]; simp; omega) (bytesWords_le _), Option.map_some, wordsBytes_bytesWords _ (by simp; omega)]
  | ip6Net =>
    simp only [Codec.Ok, Codec.size] at hok hl
    simp only [Codec.parse, Codec.print, Codec.size]
    rw [parseIp6Net_print (by rw [bytesWords_length]; simp; omega) (bytesWords_le _) hok, Option.map_some]
    simp only
    rw [wordsBytes_bytesWords _ (by simp; omega), leBytes_take (by omega), ← List.take_add]

theorem codec_some {ty : MType} {op : MOp} (h : ty.refSize op ≠ 0) : ∃ c, ty.codec op = some c := by
  revert h
  cases ty <;> cases op <;> simp [MType.refSize, MType.codec]

theorem codec_size {ty : MType} {op : MOp} {c : Codec} (h : ty.codec op = some c) : c.size = shown ty op := by
  revert h
  cases ty <;> cases op <;> simp [MType.codec] <;> rintro rfl <;> rfl

theorem shown_le {ty : MType} {op : MOp} (h : ty.refSize op ≠ 0) : shown ty op ≤ ty.refSize op := by
  revert h
  cases ty <;> cases op <;> simp [MType.refSize, shown]

theorem codec_ok {ty : MType} {op : MOp} {c : Codec} (h : ty.codec op = some c) {p : List Byte} (hp : PayloadOk ty op p) : c.Ok p := by
  have h1 := hp.size
  have hr := hp.range
  have h4 := hp.net4
  have h6 := hp.net6
  have hd := hp.dscp
  have hi := hp.iface
  revert h
  cases ty <;> cases op <;> simp [MType.codec] <;> rintro rfl <;> simp [Codec.Ok, MType.refSize] at h1 hr h4 h6 hd hi ⊢
  all_goals first
    | exact h4
    | exact h6
    | skip
  all_goals first
    | (rw [h1] at hr; simpa [List.take_of_length_le (l := p.drop 2) (i := 2) (by simp; omega)] using hr)
    | (rw [h1] at hr; simpa [List.take_of_length_le (l := p.drop 4) (i := 4) (by simp; omega)] using hr)
    | (rw [List.take_of_length_le (by omega)]; first | exact hd | exact hi)

/-- **C43**: what is printed for a payload is read back as this payload, but for the bytes no parser writes, which are those of the memory
the payload is read to. -/
theorem C43_round_partial {env : TextEnv} (he : TextEnvOk env) {ty : MType} {op : MOp} (hty : isPct ty = false) {p buf : List Byte} (hp : PayloadOk ty op p) :
    parsePayload env ty op buf (printPayload env ty op p) = .ok (p.take (shown ty op) ++ buf.drop (shown ty op)) := by
  obtain ⟨c, hc⟩ := codec_some hp.supported
  have hs := codec_size hc
  have hpct : c ≠ .pct := by
    rintro rfl
    revert hc hty
    cases ty <;> cases op <;> simp [MType.codec, isPct]
  have hl : c.size ≤ p.length := by
    rw [hs, hp.size]
    exact shown_le hp.supported
  simp only [parsePayload, printPayload, hc, c.round he hpct hl (codec_ok hc hp), overwrite, List.length_take, Nat.min_eq_left hl]
  rw [hs]

/-- **C43**: what is printed for a payload is read back as this payload. -/
theorem C43_exact_partial {env : TextEnv} (he : TextEnvOk env) {ty : MType} {op : MOp} (hty : isPct ty = false) (h4 : ty ≠ .metaL4Proto)
    (hs : ty ≠ .ip6Snet) (hd : ty ≠ .ip6Dnet) {p buf : List Byte} (hp : PayloadOk ty op p) (hb : buf.length = p.length) :
    parsePayload env ty op buf (printPayload env ty op p) = .ok p := by
  rw [C43_round_partial he hty hp]
  have : shown ty op = p.length := by simp [shown, h4, hs, hd, hp.size]
  rw [this, List.take_of_length_le (Nat.le_refl _), List.drop_of_length_le (by omega), List.append_nil]

/-- **C43**: two payloads with the same text do not differ in what is shown: what is shown identifies the payload. -/
theorem C43_distinct_partial {env : TextEnv} (he : TextEnvOk env) {ty : MType} {op : MOp} (hty : isPct ty = false) {p q : List Byte} (hp : PayloadOk ty op p)
    (hq : PayloadOk ty op q) (ht : printPayload env ty op p = printPayload env ty op q) : p.take (shown ty op) = q.take (shown ty op) := by
  have h1 := C43_round_partial he hty hp (buf := [])
  rw [ht, C43_round_partial he hty hq] at h1
  simpa using h1.symm

/-! ## What is read is well formed -/

theorem pton4Go_length : ∀ (s : List Char) (done : List Nat) (cur : Nat) (saw : Bool) (o : Nat) (x : List Nat),
    ((saw = true → done.length + 1 = o ∧ o ≤ 4) ∧ (saw = false → done.length = o ∧ o < 4)) → pton4Go s done cur saw o = some x → x.length = 4
  | [], done, cur, saw, o, x, hi, h => by
    unfold pton4Go at h
    split at h
    · cases h
    · cases h
      cases saw
      · have := hi.2 rfl; omega
      · have := hi.1 rfl
        rw [List.length_append, List.length_singleton]
        omega
  | c :: s, done, cur, saw, o, x, hi, h => by
    unfold pton4Go at h
    split at h
    · split at h
      · cases h
      · split at h
        · cases h
        · split at h
          · next hs => exact pton4Go_length s _ _ _ _ x ⟨fun _ => hi.1 hs, fun h => by cases h⟩ h
          · next hs =>
            have hs' : saw = false := by simpa using hs
            have := hi.2 hs'
            split at h
            · cases h
            · exact pton4Go_length s _ _ _ _ x ⟨fun _ => ⟨by omega, by omega⟩, fun h => by cases h⟩ h
    · split at h
      · next hc =>
        have := hi.1 hc.2
        split at h
        · cases h
        · exact pton4Go_length s _ _ _ _ x ⟨(fun h => by cases h), (fun _ => ⟨(by simp; omega), by omega⟩)⟩ h
      · cases h

theorem pton4_length {s : List Char} {x : List Nat} (h : pton4 s = some x) : x.length = 4 :=
  pton4Go_length s [] 0 false 0 x ⟨(fun h => by cases h), (fun _ => ⟨rfl, by omega⟩)⟩ h

theorem pton6Go_length : ∀ (s tok : List Char) (done : List Nat) (co : Option Nat) (k v : Nat) (x : List Nat × Option Nat),
    done.length ≤ 8 → (∀ n, co = some n → n ≤ done.length) → pton6Go s tok done co k v = some x → x.1.length ≤ 8 ∧ ∀ n, x.2 = some n → n ≤ x.1.length
  | [], tok, done, co, k, v, x, hd, hc, h => by
    unfold pton6Go at h
    split at h
    · split at h
      · cases h
      · cases h
        refine ⟨by simp; omega, fun n hn => ?_⟩
        have := hc n hn
        simp
        omega
    · cases h
      exact ⟨hd, hc⟩
  | c :: s, tok, done, co, k, v, x, hd, hc, h => by
    unfold pton6Go at h
    split at h
    · split at h
      · cases h
      · split at h
        · cases h
        · exact pton6Go_length s _ _ _ _ _ x hd hc h
    · split at h
      · split at h
        · split at h
          · cases h
          · exact pton6Go_length s _ _ _ _ _ x hd (fun n hn => by cases hn; exact Nat.le_refl _) h
        · split at h
          · cases h
          · split at h
            · cases h
            · refine pton6Go_length s _ _ _ _ _ x (by simp; omega) (fun n hn => ?_) h
              have := hc n hn
              simp
              omega
      · split at h
        · next hk =>
          split at h
          · cases h
            refine ⟨by simp; omega, fun n hn => ?_⟩
            have := hc n hn
            simp
            omega
          · cases h
        · cases h

theorem pton6End_length {r : List Nat × Option Nat} {x : List Nat} (h1 : r.1.length ≤ 8) (h2 : ∀ n, r.2 = some n → n ≤ r.1.length)
    (h : pton6End r = some x) : x.length = 8 := by
  obtain ⟨done, co⟩ := r
  cases co with
  | none =>
    simp only [pton6End] at h
    split at h
    · next hl => cases h; exact hl
    · cases h
  | some n =>
    have := h2 n rfl
    simp only [pton6End] at h this h1
    split at h
    · cases h
    · cases h
      simp
      omega

theorem pton6_length {s : List Char} {x : List Nat} (h : pton6 s = some x) : x.length = 8 := by
  have key : ∀ t : List Char, (pton6Go t t [] none 0 0).bind pton6End = some x → x.length = 8 := by
    intro t ht
    cases hr : pton6Go t t [] none 0 0 with
    | none => rw [hr] at ht; cases ht
    | some r =>
      rw [hr] at ht
      obtain ⟨h1, h2⟩ := pton6Go_length t t [] none 0 0 r (by simp) (fun n hn => by cases hn) hr
      exact pton6End_length h1 h2 ht
  unfold pton6 at h
  split at h
  · cases h
  · split at h
    · split at h
      · exact key _ h
      · cases h
    · exact key _ h

theorem wordsBytes_length (ws : List Nat) : (wordsBytes ws).length = 2 * ws.length := by
  induction ws with
  | nil => rfl
  | cons w ws ih =>
    have : wordsBytes (w :: ws) = BitVec.ofNat 8 (w / 256) :: BitVec.ofNat 8 w :: wordsBytes ws := rfl
    rw [this, List.length_cons, List.length_cons, ih, List.length_cons]
    omega

theorem leNat_leBytes_bound {k n : Nat} (h : n < 256 ^ k) : leNat (leBytes k n) = n := by rw [leNat_leBytes, Nat.mod_eq_of_lt h]

theorem parseNamed_le {f : String → Res Nat} {max : Nat} (hf : ∀ s n, f s = .ok n → n ≤ max) {s : List Char} {n : Nat} (h : parseNamed f max s = some n) : n ≤ max := by
  unfold parseNamed at h
  split at h
  · next m hm =>
    cases h
    unfold ofName at hm
    split at hm
    · next k hk => cases hm; exact hf _ _ hk
    · cases hm
  · unfold strtoulMax at h
    rw [Option.filter_eq_some_iff] at h
    simpa using h.2

theorem dscpFromStr_le (s : String) (n : Nat) (h : dscpFromStr s = .ok n) : n ≤ 63 := by
  obtain ⟨m, h1, _⟩ := (C38_dscp.1 _ _).mp h
  have : ∀ e ∈ dscpClasses, e.2 ≤ 63 := by decide
  exact this _ h1

theorem parsePrefix_le {s : List Char} {max n : Nat} (h : parsePrefix s max = some n) : n ≤ max := by
  unfold parsePrefix at h
  dsimp only at h
  split at h
  · next hc => cases h; exact hc.2
  · cases h

theorem take_left {a b : List Byte} {k : Nat} (h : a.length = k) : (a ++ b).take k = a := by rw [← h]; exact List.take_left
theorem drop_left {a b : List Byte} {k : Nat} (h : a.length = k) : (a ++ b).drop k = b := by rw [← h]; exact List.drop_left

/-- A callback writes as many bytes as it prints, and what it writes is well formed. -/
theorem Codec.parse_ok {env : TextEnv} {c : Codec} {s : List Char} {bs : List Byte} (h : c.parse env s = some bs) :
    bs.length = c.size ∧ ∀ r, c.Ok (bs ++ r) := by
  cases c <;> simp only [Codec.parse, Option.map_eq_some_iff] at h <;> obtain ⟨n, hn, rfl⟩ := h
  case u32Range =>
    obtain ⟨x, y⟩ := n
    refine ⟨by simp [Codec.size], fun r => ?_⟩
    simp only [parseU32Range] at hn
    split at hn
    · cases hn
    · simp only [Option.bind_eq_some_iff] at hn
      obtain ⟨⟨a, b⟩, _, x', hx, y', hy, hn⟩ := hn
      split at hn
      · cases hn
      · next hlt =>
        cases hn
        simp only [strtoulMax, Option.filter_eq_some_iff, decide_eq_true_eq] at hx hy
        simp only [Codec.Ok, List.append_assoc]
        rw [take_left (by simp), drop_left (by simp), take_left (by simp), leNat_leBytes_bound (by omega), leNat_leBytes_bound (by omega)]
        omega
  case portRange =>
    obtain ⟨x, y⟩ := n
    refine ⟨by simp [Codec.size], fun r => ?_⟩
    simp only [parsePortRange] at hn
    split at hn
    · cases hn
    · simp only [Option.bind_eq_some_iff] at hn
      obtain ⟨⟨a, b⟩, _, x', hx, y', hy, hn⟩ := hn
      split at hn
      · cases hn
      · next hlt =>
        cases hn
        have le : ∀ {t : List Char} {z : Nat}, parseDec t 65535 = some z → z ≤ 65535 := by
          intro t z hz
          unfold parseDec at hz
          dsimp only at hz
          split at hz
          · next hc => cases hz; exact hc.2
          · cases hz
        have := le hx
        have := le hy
        simp only [Codec.Ok, List.append_assoc]
        rw [take_left (by simp), drop_left (by simp), take_left (by simp), leNat_leBytes_bound (by omega), leNat_leBytes_bound (by omega)]
        omega
  case ip4Net =>
    obtain ⟨n, x⟩ := n
    simp only [parseIp4Net] at hn
    split at hn
    · cases hn
    · simp only [Option.bind_eq_some_iff, Option.map_eq_some_iff] at hn
      obtain ⟨⟨a, b⟩, _, x', hx, n', hp, hn⟩ := hn
      cases hn
      refine ⟨by simp [Codec.size, pton4_length hx], fun r => ?_⟩
      have := parsePrefix_le hp
      simp only [Codec.Ok, List.append_assoc]
      rw [take_left (by simp), leNat_leBytes_bound (by omega)]
      exact this
  case ip6Net =>
    obtain ⟨n, x⟩ := n
    simp only [parseIp6Net] at hn
    split at hn
    · cases hn
    · simp only [Option.bind_eq_some_iff, Option.map_eq_some_iff] at hn
      obtain ⟨⟨a, b⟩, _, x', hx, n', hp, hn⟩ := hn
      cases hn
      refine ⟨by simp [Codec.size, pton6_length hx, wordsBytes_length], fun r => ?_⟩
      have := parsePrefix_le hp
      simp only [Codec.Ok, List.append_assoc]
      rw [take_left (by simp), leNat_leBytes_bound (by omega)]
      exact this
  case ip4 => exact ⟨by simp [Codec.size, pton4_length hn], fun r => trivial⟩
  case ip6 => exact ⟨by simp [Codec.size, pton6_length hn, wordsBytes_length], fun r => trivial⟩
  case dscp =>
    refine ⟨by simp [Codec.size], fun r => ?_⟩
    have := parseNamed_le dscpFromStr_le hn
    simp only [Codec.Ok]
    rw [take_left (by simp), leNat_leBytes_bound (by omega)]
    exact this
  case iface =>
    refine ⟨by simp [Codec.size], fun r => ?_⟩
    have : 0 < n ∧ n ≤ 4294967295 := by
      unfold parseIface at hn
      split at hn
      · next hc => cases hn; omega
      · dsimp only at hn
        split at hn
        · next hc => cases hn; omega
        · cases hn
    simp only [Codec.Ok]
    rw [take_left (by simp), leNat_leBytes_bound (by omega)]
    omega
  all_goals exact ⟨by simp [Codec.size, be16], fun r => trivial⟩

/-- The converse of `codec_ok`. -/
theorem payloadOk_of {ty : MType} {op : MOp} {c : Codec} (h : ty.codec op = some c) {p : List Byte} (hl : p.length = ty.refSize op) (hp : c.Ok p) : PayloadOk ty op p := by
  revert h
  cases ty <;> cases op <;> simp [MType.codec] <;> rintro rfl <;> simp [Codec.Ok, MType.refSize] at hl hp
  all_goals
    refine ⟨by simp [MType.refSize], by simp [MType.refSize, hl], ?_, ?_, ?_, ?_, ?_⟩ <;> simp [hl]
  all_goals first
    | exact hp
    | (simpa [List.take_of_length_le (l := p.drop 2) (i := 2) (by simp; omega)] using hp)
    | (simpa [List.take_of_length_le (l := p.drop 4) (i := 4) (by simp; omega)] using hp)
    | (rw [List.take_of_length_le (by omega)] at hp; exact hp)

/-- **C43**: whatever the text, what is read is a payload that fits the matcher: the bytes that are not shown are those the memory held. -/
theorem C43_valid {env : TextEnv} {ty : MType} {op : MOp} {p buf : List Byte} {s : List Char} (hb : buf.length = ty.refSize op)
    (h : parsePayload env ty op buf s = .ok p) : PayloadOk ty op p ∧ p.drop (shown ty op) = buf.drop (shown ty op) := by
  unfold parsePayload at h
  cases hc : ty.codec op with
  | none => rw [hc] at h; cases h
  | some c =>
    rw [hc] at h
    simp only at h
    cases hs : c.parse env s with
    | none => rw [hs] at h; cases h
    | some bs =>
      rw [hs] at h
      simp only [Res.ok.injEq] at h
      subst h
      obtain ⟨h1, h2⟩ := c.parse_ok hs
      have h0 : ty.refSize op ≠ 0 := by
        revert hc
        cases ty <;> cases op <;> simp [MType.codec, MType.refSize]
      have h3 := shown_le h0
      have h4 := codec_size hc
      refine ⟨payloadOk_of hc ?_ (h2 _), ?_⟩
      · rw [overwrite, List.length_append, List.length_drop]
        omega
      · rw [overwrite, drop_left (by omega), h1, h4]

/-- **C43**: a type and operator without payload is refused, and reading is never undefined. -/
theorem C43_total (env : TextEnv) (ty : MType) (op : MOp) (buf : List Byte) (s : List Char) :
    parsePayload env ty op buf s ≠ .ub ∧ (ty.refSize op = 0 → parsePayload env ty op buf s = .err .ENOENT) := by
  unfold parsePayload
  constructor
  · split
    · simp
    · split <;> simp
  · intro h
    have : ty.codec op = none := by
      revert h
      cases ty <;> cases op <;> simp [MType.codec, MType.refSize]
    rw [this]

/-! ## Cases -/

/-- A system with one interface. -/
def env0 : TextEnv := ⟨fun s => if s = "lo".toList then 1 else 0, fun i => if i = 1 then some "lo".toList else none, fun _ => none, fun _ => []⟩

theorem env0_ok : TextEnvOk env0 := by
  refine ⟨fun i n h => ?_, fun i h => ?_⟩
  · simp only [env0] at h ⊢
    split at h
    · next hi => cases h; subst hi; simp
    · cases h
  · simp only [env0]
    rw [if_neg]
    intro hc
    have := printNat_digits (b := 10) (by omega) (by omega) i 'l' (by rw [hc]; decide)
    revert this
    decide

/-- 2001:db8::/32, with padding. -/
def net0 : List Byte := [32, 0, 0, 0, 0x20, 0x01, 0x0d, 0xb8, 0, 0, 0, 0, 0, 0, 0, 0, 0, 0, 0, 0, 0, 0, 0, 0]

example : PayloadOk .ip6Snet .in_ net0 := by constructor <;> decide
example : printPayload env0 .ip6Snet .in_ net0 = "2001:db8::/32".toList := by decide +kernel
example : PayloadOk .ip4Dnet .eq [24, 0, 0, 0, 192, 168, 1, 0] := by constructor <;> decide
example : printPayload env0 .ip4Dnet .eq [24, 0, 0, 0, 192, 168, 1, 0] = "192.168.1.0/24".toList := by decide +kernel
example : PayloadOk .tcpDport .range [80, 0, 0xbb, 0x01] := by constructor <;> decide
example : printPayload env0 .tcpDport .range [80, 0, 0xbb, 0x01] = "80-443".toList := by decide +kernel
example : printPayload env0 .tcpDport .in_ [0x01, 0xbb] = "443".toList := by decide +kernel
example : printPayload env0 .tcpFlags .all [0x12] = "syn,ack".toList := by decide +kernel
example : PayloadOk .metaIface .eq [1, 0, 0, 0] := by constructor <;> decide
example : printPayload env0 .metaIface .eq [1, 0, 0, 0] = "lo".toList := by decide +kernel
example : printPayload env0 .ip4Dscp .eq [46] = "ef".toList := by decide +kernel
example : printPayload env0 .metaMark .eq [0x0d, 0, 0xf0, 0] = "0xf0000d".toList := by decide +kernel

/-- The padding is what the memory held: the same network, read twice, is two payloads. -/
theorem C43_not_exact : ∃ (buf buf' p p' : List Byte), buf.length = 24 ∧ buf'.length = 24 ∧
    parsePayload env0 .ip6Snet .in_ buf "2001:db8::/32".toList = .ok p ∧ parsePayload env0 .ip6Snet .in_ buf' "2001:db8::/32".toList = .ok p' ∧ p ≠ p' :=
  ⟨List.replicate 24 0, List.replicate 24 1, net0, net0.take 20 ++ [1, 1, 1, 1], by decide +kernel⟩

/-- So is the second byte of `meta.l4_proto`. -/
theorem C43_not_exact_l4 : ∃ (buf buf' p p' : List Byte), buf.length = 2 ∧ buf'.length = 2 ∧
    parsePayload env0 .metaL4Proto .eq buf "tcp".toList = .ok p ∧ parsePayload env0 .metaL4Proto .eq buf' "tcp".toList = .ok p' ∧ p ≠ p' :=
  ⟨[0, 0], [0, 1], [6, 0], [6, 1], by decide +kernel⟩

/-- Numbers that do not fit are not all refused: the prefix length is cut to 32 bits before it is checked. -/
theorem C43_wraps : parsePayload env0 .ip4Snet .eq (List.replicate 8 0) "10.0.0.0/4294967304".toList = .ok [8, 0, 0, 0, 10, 0, 0, 0] ∧
    parsePayload env0 .tcpDport .eq [0, 0] [] = .ok [0, 0] ∧
    parsePayload env0 .tcpDport .eq [0, 0] "-18446744073709551615".toList = .ok [0, 1] := by decide +kernel

end Bf
