import Verif.Props.C47_Rest
import Verif.Props.C46_Meaning
/-!
# C48: from the text of a matcher to the packets it selects
-/
namespace Bf
open Spec

variable {E : Env} {chain : Chain} {thr : Nat → BitVec 32} {img : List Insn} {w w' : World} {r : BitVec 64}
  {m : Matcher}

/-! ### A text says one thing -/

theorem numText_unique {s : List Char} {n n' : Nat} (h : NumText s n) (h' : NumText s n') : n = n' := by
  have hx : ∀ {n n'}, Hex s n → Numeral 16 s n' → False := by
    rintro n n' ⟨x, d, hx, rfl, _⟩ h
    rcases hx with rfl | rfl
    · exact numeral_no (by omega) h (sep := 'x') (by decide) 'x' (by simp) rfl
    · exact numeral_no (by omega) h (sep := 'X') (by decide) 'X' (by simp) rfl
  rcases h with h | ⟨hn, h⟩ <;> rcases h' with h' | ⟨hn', h'⟩
  · exact numeral_unique (by omega) h h'
  · exact absurd h (hn' _)
  · exact absurd h' (hn _)
  · rcases h with h | h <;> rcases h' with h' | h'
    · obtain ⟨x, d, _, rfl, h⟩ := h
      obtain ⟨x', d', _, e, h'⟩ := h'
      cases e
      exact numeral_unique (by omega) h h'
    · exact (hx h h').elim
    · exact (hx h' h).elim
    · exact numeral_unique (by omega) h h'

theorem split_unique {sep : Char} {a b a' b' : List Char} (h : a ++ sep :: b = a' ++ sep :: b') (ha : ∀ c ∈ a, c ≠ sep) (ha' : ∀ c ∈ a', c ≠ sep) :
    a = a' ∧ b = b' := by
  induction a generalizing a' with
  | nil =>
    cases a' with
    | nil => cases h; exact ⟨rfl, rfl⟩
    | cons c a' => cases h; exact absurd rfl (ha' _ (by simp))
  | cons c a ih =>
    cases a' with
    | nil => cases h; exact absurd rfl (ha _ (by simp))
    | cons c' a' =>
      rw [List.cons_append, List.cons_append, List.cons.injEq] at h
      obtain ⟨rfl, h⟩ := h
      obtain ⟨rfl, rfl⟩ := ih h (fun x hx => ha x (by simp [hx])) (fun x hx => ha' x (by simp [hx]))
      exact ⟨rfl, rfl⟩

theorem range_unique {num : List Char → Nat → Prop} (hu : ∀ {t n n'}, num t n → num t n' → n = n') (hno : ∀ {t n}, num t n → ∀ c ∈ t, c ≠ '-')
    {max : Nat} {s : List Char} {x y x' y' : Nat} (h : RangeText num max s x y) (h' : RangeText num max s x' y') : x = x' ∧ y = y' := by
  obtain ⟨a, b, rfl, h1, h2, _⟩ := h
  obtain ⟨a', b', e, h1', h2', _⟩ := h'
  obtain ⟨rfl, rfl⟩ := split_unique e (hno h1) (hno h1')
  exact ⟨hu h1 h1', hu h2 h2'⟩

theorem range10_unique {max : Nat} {s : List Char} {x y x' y' : Nat} (h : RangeText (Numeral 10) max s x y) (h' : RangeText (Numeral 10) max s x' y') :
    x = x' ∧ y = y' :=
  range_unique (num := Numeral 10) (fun h h' => numeral_unique (by decide) h h') (fun h => numeral_no (by decide) h (sep := '-') (by decide)) h h'

theorem net_unique {addr : List Char → List Nat → Prop} (hu : ∀ {t n n'}, addr t n → addr t n' → n = n') (hno : ∀ {t n}, addr t n → ∀ c ∈ t, c ≠ '/')
    {max : Nat} {s : List Char} {x x' : List Nat} {n n' : Nat} (h : NetText addr max s x n) (h' : NetText addr max s x' n') : x = x' ∧ n = n' := by
  obtain ⟨a, b, rfl, h1, h2, _⟩ := h
  obtain ⟨a', b', e, h1', h2', _⟩ := h'
  obtain ⟨rfl, rfl⟩ := split_unique e (hno h1) (hno h1')
  exact ⟨hu h1 h1', numeral_unique (by omega) h2 h2'⟩

theorem addr4_unique {s : List Char} {x x' : List Nat} (h : Addr4 s x) (h' : Addr4 s x') : x = x' := by
  have := (pton4_iff.mpr h).symm.trans (pton4_iff.mpr h')
  simpa using this

theorem addr6_unique {s : List Char} {x x' : List Nat} (h : Addr6 s x) (h' : Addr6 s x') : x = x' := by
  have := (pton6_iff.mpr h).symm.trans (pton6_iff.mpr h')
  simpa using this

theorem flags_unique {s : List Char} {x x' : Nat} (h : FlagsText s x) (h' : FlagsText s x') : x = x' := by
  have := (parseFlags_iff.mpr h).symm.trans (parseFlags_iff.mpr h')
  simpa using this

theorem iface_unique {env : TextEnv} {s : List Char} {x x' : Nat} (h : IfaceText env s x) (h' : IfaceText env s x') : x = x' := by
  have := (parseIface_complete h).symm.trans (parseIface_complete h')
  simpa using this

theorem named_unique {f : String → Res Nat} {names : String → Nat → Prop} (hf : ∀ s n, f s = .ok n ↔ ∃ x, names x n ∧ lower s = lower x) {max : Nat}
    (hm : max < 18446744073709551615) {s : List Char} {n n' : Nat} (h : NamedBy names max s n) (h' : NamedBy names max s n') : n = n' := by
  have := (named_of hf hm h).symm.trans (named_of hf hm h')
  simpa using this

/-! ### Fields -/

theorem HasField.length {i : Input} {t : MType} {b : List Byte} (h : HasField i t b) {p : Proto} {o n : Nat} (ht : fieldSpec t = some (p, o, n)) :
    b.length = n := by
  obtain ⟨p', o', n', off, h1, h2, rfl⟩ := h
  rw [ht] at h1
  cases h1
  have : o + n ≤ p.hdrLen := by
    revert ht
    cases t <;> simp [fieldSpec] <;> rintro rfl rfl rfl <;> decide
  exact slice_length (by have := h2.2; omega)

/-- From "has the field, and the comparison holds iff not negated" to "has the field, and is described iff not negated". -/
theorem exists_field {α : Type} {H C D : α → Prop} {N : Prop} (hu : ∀ {a b}, H a → H b → a = b) (h : ∀ b, H b → (C b ↔ D b)) :
    (∃ b, H b ∧ (C b ↔ N)) ↔ (∃ b, H b) ∧ ((∃ b, H b ∧ D b) ↔ N) := by
  constructor
  · rintro ⟨b, hb, hc⟩
    refine ⟨⟨b, hb⟩, ?_⟩
    rw [← hc]
    constructor
    · rintro ⟨b', hb', hd⟩
      cases hu hb hb'
      exact (h b hb).mpr hd
    · intro hcb
      exact ⟨b, hb, (h b hb).mp hcb⟩
  · rintro ⟨⟨b, hb⟩, hd⟩
    refine ⟨b, hb, ?_⟩
    rw [← hd]
    constructor
    · intro hcb
      exact ⟨b, hb, (h b hb).mp hcb⟩
    · rintro ⟨b', hb', hd⟩
      cases hu hb hb'
      exact (h b hb).mpr hd

theorem host_one {p : List Byte} (h : p.length = 1) : p = [BitVec.ofNat 8 (host p 0 1)] := by
  match p, h with
  | [x], _ => simp [host, leNat]

theorem beNat_one (x : Byte) : Spec.beNat [x] = x.toNat := by simp [Spec.beNat]

theorem map_toNat_inj {a b : List Byte} (h : a.map BitVec.toNat = b.map BitVec.toNat) : a = b :=
  List.map_inj_right (fun x y h => BitVec.eq_of_toNat_eq h) |>.mp h

theorem beNat_inj {a b : List Byte} (hl : a.length = b.length) (h : Spec.beNat a = Spec.beNat b) : a = b := by
  induction a generalizing b with
  | nil => cases b with
    | nil => rfl
    | cons y b => cases hl
  | cons x a ih =>
    cases b with
    | nil => cases hl
    | cons y b =>
      simp only [List.length_cons, Nat.add_right_cancel_iff] at hl
      rw [beNat_cons, beNat_cons, hl] at h
      have h1 := beNat_lt a
      have h2 := beNat_lt b
      rw [hl] at h1
      rw [show (256 : Nat) ^ b.length = 2 ^ (8 * b.length) by rw [Nat.pow_mul]] at h
      have hp : 0 < 2 ^ (8 * b.length) := Nat.two_pow_pos _
      have e1 : x.toNat = y.toNat := by
        have : (x.toNat * 2 ^ (8 * b.length) + Spec.beNat a) / 2 ^ (8 * b.length) = (y.toNat * 2 ^ (8 * b.length) + Spec.beNat b) / 2 ^ (8 * b.length) := by rw [h]
        rw [Nat.mul_comm, Nat.mul_comm y.toNat, Nat.mul_add_div hp, Nat.mul_add_div hp, Nat.div_eq_of_lt h1, Nat.div_eq_of_lt h2] at this
        omega
      rw [e1] at h
      rw [ih hl (by omega), BitVec.eq_of_toNat_eq e1]

theorem sameBits_take {a b : List Byte} {n : Nat} (h : n ≤ 128) : SameBits a (b.take 16) n ↔ SameBits a b n := by
  unfold SameBits
  refine forall_congr' fun k => forall_congr' fun hk => ?_
  have : bitAt (b.take 16) k = bitAt b k := by
    unfold bitAt byteAt
    rw [List.getElem?_take_of_lt (by omega)]
  rw [this]

def flagC (op : MOp) (x f : Byte) : Prop :=
  match op with
  | .any => ∃ k < 8, f.getLsbD k = true ∧ x.getLsbD k = true
  | .all => ∀ k < 8, x.getLsbD k = true → f.getLsbD k = true
  | _ => [f] = [x]

/-! ### The theorem -/

theorem portIs_meta {i : Input} {t : MType} (ht : t = .metaSport ∨ t = .metaDport) {n : Nat} : PortIs i t n ↔ ∃ b, HasPort i t b ∧ Spec.beNat b = n := by
  unfold HasPort
  rcases ht with rfl | rfl
  · simp only [PortIs, FieldIs, true_and, reduceCtorEq, false_and, or_false, or_and_right, exists_or]
  · simp only [PortIs, FieldIs, true_and, reduceCtorEq, false_and, false_or, or_and_right, exists_or]

/-- **C48** for a matcher of any rule, reached in state `w`: it matches the packets the program can read that its text describes. -/
theorem C48_hits_partial {env : TextEnv} {ty : MType} {op : MOp} {buf : List Byte} {s : List Char} {neg : Bool}
    (hm : matcherNewFromRaw env ty op buf s neg = .ok m) (ho : Ordinary s)
    (hroom : ∀ k, room ty op = some k → s.length ≤ k) (hn : ty.isNet = true → ∀ a b, s = a ++ '/' :: b → b.length ≤ 9)
    {c : Sem} (hc : Sees E chain thr c) (hw : MatcherWf m) (hf : chain.hook.flavor ≠ .sockAddr)
    (hty : ty ∉ [MType.ip6Nexthdr, .metaProbability, .metaFlowProbability, .set])
    (hif : ty = .metaIface → (inputOf E chain.hook).ifindex < 65536)
    (hport : ty = .metaSport ∨ ty = .metaDport → ¬ PortIs (inputOf E chain.hook) ty 0) :
    Hits c m w ↔ Concerns (inputOf E chain.hook) ty ∧ (Describes env (inputOf E chain.hook) w.mark.toNat ty op s ↔ neg = false) := by
  unfold matcherNewFromRaw at hm
  split at hm
  case h_2 => cases hm
  case h_3 => cases hm
  next q hp =>
  cases hm
  have hM := C46_says_partial ho hroom hn hp
  have hwf := hw
  unfold MatcherWf at hwf
  rw [if_neg (by rintro rfl; simp at hty)] at hwf
  obtain ⟨hin, hsz, hlen⟩ := hwf
  dsimp only at hin hsz hlen
  obtain ⟨hne, hfr⟩ := ordinary_front ho
  generalize hi : inputOf E chain.hook = i at hif hport ⊢
  -- types compared byte for byte
  have plain : ty ∈ plainTypes → op = .eq → ∀ {D : List Byte → Prop}, (∀ b, HasField i ty b → (b = q ↔ D b)) →
      (Hits c ⟨ty, op, q, neg⟩ w ↔ (∃ b, HasField i ty b) ∧ ((∃ b, HasField i ty b ∧ D b) ↔ neg = false)) := by
    intro h1 h2 D hD
    rw [C06_eq hc hf hw h1 h2, hi]
    exact exists_field HasField.unique hD
  have num : ty ∈ plainTypes → op = .eq → q.length = 1 → ∀ {o : Nat} {pr : Proto}, fieldSpec ty = some (pr, o, 1) → ∀ {says : Nat → Prop}, says (host q 0 1) →
      (∀ {a b}, says a → says b → a = b) →
      (Hits c ⟨ty, op, q, neg⟩ w ↔ (∃ b, HasField i ty b) ∧ ((∃ n, FieldIs i ty n ∧ says n) ↔ neg = false)) := by
    intro h1 h2 hq o pr hfs says hs hu
    rw [plain h1 h2 (D := fun b => says (Spec.beNat b))]
    · refine and_congr_right fun _ => iff_congr ?_ Iff.rfl
      constructor
      · rintro ⟨b, hb, h⟩; exact ⟨_, ⟨b, hb, rfl⟩, h⟩
      · rintro ⟨n, ⟨b, hb, rfl⟩, h⟩; exact ⟨b, hb, h⟩
    · intro b hb
      have hl := HasField.length hb hfs
      match b, hl with
      | [x], _ =>
        match q, hq with
        | [y], _ =>
          have : host [y] 0 1 = y.toNat := by simp [host, leNat]
          rw [this] at hs
          rw [beNat_one]
          constructor
          · intro e; cases e; exact hs
          · intro h
            rw [BitVec.eq_of_toNat_eq (hu hs h)]
  have whole : ∀ {P D : Prop}, (P ↔ D) → (Hits c ⟨ty, op, q, neg⟩ w ↔ (P ↔ neg = false)) →
      (Hits c ⟨ty, op, q, neg⟩ w ↔ True ∧ (D ↔ neg = false)) := by
    intro P D h1 h2
    rw [h2, h1]
    simp only [true_and]
  have port : ty ∈ plainTypes → op = .eq → q.length = 2 → ∀ {o : Nat} {pr : Proto}, fieldSpec ty = some (pr, o, 2) → Numeral 10 s (Spec.beNat (q.take 2)) →
      (Hits c ⟨ty, op, q, neg⟩ w ↔ (∃ b, HasField i ty b) ∧ ((∃ n, FieldIs i ty n ∧ Numeral 10 s n) ↔ neg = false)) := by
    intro h1 h2 hq o pr hfs hs
    rw [List.take_of_length_le (by omega)] at hs
    rw [plain h1 h2 (D := fun b => Numeral 10 s (Spec.beNat b))]
    · refine and_congr_right fun _ => iff_congr ?_ Iff.rfl
      constructor
      · rintro ⟨b, hb, h⟩; exact ⟨_, ⟨b, hb, rfl⟩, h⟩
      · rintro ⟨n, ⟨b, hb, rfl⟩, h⟩; exact ⟨b, hb, h⟩
    · intro b hb
      have hl := HasField.length hb hfs
      constructor
      · rintro rfl; exact hs
      · intro h; exact beNat_inj (by omega) (numeral_unique (by omega) h hs)
  have rng : ty ∈ [MType.tcpSport, .tcpDport, .udpSport, .udpDport] → op = .range → RangeText (Numeral 10) 65535 s (host q 0 2) (host q 2 2) →
      (Hits c ⟨ty, op, q, neg⟩ w ↔ (∃ b, HasField i ty b) ∧
        ((∃ n, FieldIs i ty n ∧ ∃ x y, RangeText (Numeral 10) 65535 s x y ∧ x ≤ n ∧ n ≤ y) ↔ neg = false)) := by
    intro h1 h2 hs
    rw [C08_ports hc hf h1 h2, hi]
    rw [exists_field HasField.unique (D := fun b => ∃ x y, RangeText (Numeral 10) 65535 s x y ∧ x ≤ Spec.beNat b ∧ Spec.beNat b ≤ y)]
    · refine and_congr_right fun _ => iff_congr ?_ Iff.rfl
      constructor
      · rintro ⟨b, hb, h⟩; exact ⟨_, ⟨b, hb, rfl⟩, h⟩
      · rintro ⟨n, ⟨b, hb, rfl⟩, h⟩; exact ⟨b, hb, h⟩
    · intro b hb
      constructor
      · intro h; exact ⟨_, _, hs, h⟩
      · rintro ⟨x, y, h1, h2⟩
        obtain ⟨rfl, rfl⟩ := range10_unique hs h1
        exact h2
  have mport : ty = .metaSport ∨ ty = .metaDport → op = .eq ∨ op = .range →
      Means env ty op s q → q.length = ty.refSize op →
      (Hits c ⟨ty, op, q, neg⟩ w ↔ (∃ n, PortIs i ty n) ∧
        ((∃ n, PortIs i ty n ∧ if op = .range then ∃ x y, RangeText (Numeral 10) 65535 s x y ∧ x ≤ n ∧ n ≤ y else Numeral 10 s n) ↔ neg = false)) := by
    intro ht hop hs hq
    rw [C08_meta_ports hc hf hw ht, hi]
    obtain ⟨v, hv⟩ : ∃ v, understand i chain.flagNexthdr = some v := by
      obtain ⟨v, h1, _⟩ := hc.view hf
      rw [hi] at h1
      exact ⟨v, h1⟩
    have hpl : ∀ b, HasPort i ty b → b.length = 2 := by
      rintro b (⟨_, h | h⟩ | ⟨_, h | h⟩) <;> exact HasField.length h rfl
    have h0 : ∀ b, HasPort i ty b → Spec.beNat b ≠ 0 := fun b hb e => hport ht ((portIs_meta ht).mpr ⟨b, hb, e⟩)
    have hX : (∃ b, HasPort i ty b ∧ Spec.beNat b ≠ 0 ∧
        ((op = .range ∧ (host q 0 2 ≤ Spec.beNat b ∧ Spec.beNat b ≤ host q 2 2 ↔ neg = false)) ∨ (op = .eq ∧ (b = q ↔ neg = false)))) ↔
        ∃ b, HasPort i ty b ∧ ((if op = .range then host q 0 2 ≤ Spec.beNat b ∧ Spec.beNat b ≤ host q 2 2 else b = q) ↔ neg = false) := by
      refine exists_congr fun b => and_congr_right fun hb => ?_
      simp only [h0 b hb, ne_eq, not_false_eq_true, true_and]
      rcases hop with rfl | rfl <;> simp
    refine hX.trans ?_
    rw [exists_field (H := HasPort i ty) (fun {a b} h h' => ((HasPort.field hv ht).mp h).2.trans ((HasPort.field hv ht).mp h').2.symm)
      (D := fun b => if op = .range then ∃ x y, RangeText (Numeral 10) 65535 s x y ∧ x ≤ Spec.beNat b ∧ Spec.beNat b ≤ y else Numeral 10 s (Spec.beNat b))]
    · simp only [portIs_meta ht]
      refine and_congr ?_ (iff_congr ?_ Iff.rfl)
      · constructor
        · rintro ⟨b, hb⟩; exact ⟨_, b, hb, rfl⟩
        · rintro ⟨_, b, hb, _⟩; exact ⟨b, hb⟩
      · constructor
        · rintro ⟨b, hb, h⟩; exact ⟨_, ⟨b, hb, rfl⟩, h⟩
        · rintro ⟨n, ⟨b, hb, rfl⟩, h⟩; exact ⟨b, hb, h⟩
    · intro b hb
      rcases hop with rfl | rfl
      · have hs : Numeral 10 s (Spec.beNat (q.take 2)) := by rcases ht with rfl | rfl <;> simpa [Means] using hs
        have hq : q.length = 2 := by rcases ht with rfl | rfl <;> exact hq
        rw [List.take_of_length_le (by omega)] at hs
        simp only [reduceCtorEq, if_false]
        constructor
        · rintro rfl; exact hs
        · intro h; exact beNat_inj (by rw [hpl b hb]; omega) (numeral_unique (by omega) h hs)
      · have hs : RangeText (Numeral 10) 65535 s (host q 0 2) (host q 2 2) := by rcases ht with rfl | rfl <;> simpa [Means] using hs
        simp only [if_true]
        constructor
        · intro h; exact ⟨_, _, hs, h⟩
        · rintro ⟨x, y, h1, h2⟩
          obtain ⟨rfl, rfl⟩ := range10_unique hs h1
          exact h2
  have nets : ty ∈ netTypes → ∀ {D : List Byte → Prop}, (∀ b, HasField i ty b → (InNetwork b (q.drop 4) (host q 0 4) ↔ D b)) → ∀ {D' : Prop}, ((∃ b, HasField i ty b ∧ D b) ↔ D') →
      (Hits c ⟨ty, op, q, neg⟩ w ↔ (∃ b, HasField i ty b) ∧ (D' ↔ neg = false)) := by
    intro h1 D hD D' hD'
    rw [C07_cidr hc hf h1, hi, ← hD']
    exact exists_field HasField.unique hD
  cases ty
  case metaIface =>
    refine whole ?_ (by have := C22_iface_partial (m := ⟨.metaIface, op, q, neg⟩) (w := w) hc hf rfl (by rw [hi]; exact hif rfl); rw [hi] at this; exact this)
    exact ⟨fun h => by show IfaceText env s i.ifindex; rw [h]; exact hM, fun h => iface_unique h hM⟩
  case metaL3Proto =>
    refine whole (P := NetNumber i (host q 0 2)) ?_ (by
      have := C47_l3_all (m := ⟨.metaL3Proto, op, q, neg⟩) (w := w) hc hf rfl
      rw [hi] at this; exact this)
    exact ⟨fun h => ⟨_, hM, h⟩, fun ⟨n, h1, h2⟩ => by rw [← named_unique ether_names (by decide) h1 hM]; exact h2⟩
  case metaL4Proto =>
    refine whole (P := TransNumber i (host q 0 1)) ?_ (by
      have := C47_l4_all (m := ⟨.metaL4Proto, op, q, neg⟩) (w := w) hc hf rfl
      rw [hi] at this; exact this)
    exact ⟨fun h => ⟨_, hM, h⟩, fun ⟨n, h1, h2⟩ => by rw [← named_unique C38_understood.2.2.2.2.2.2.2.1 (by decide) h1 hM]; exact h2⟩
  case metaProbability => simp at hty
  case metaFlowProbability => simp at hty
  case ip6Nexthdr => simp at hty
  case set => simp at hty
  case metaMark =>
    refine whole (P := w.mark.toNat = host q 0 4) ?_ (C47_mark hc hf rfl)
    obtain ⟨hM, hb⟩ : CNumber s (host q 0 4) ∧ host q 0 4 ≤ 4294967295 := hM
    refine ⟨fun h => by show CNumber s w.mark.toNat; rw [h]; exact hM, fun h => ?_⟩
    have h1 := (parseMark_iff hne hfr).mpr ⟨hM, hb⟩
    have h2 := (parseMark_iff hne hfr).mpr ⟨h, by have := w.mark.isLt; omega⟩
    rw [h1] at h2
    simpa using h2.symm
  case metaFlowHash =>
    have hop : op = .eq ∨ op = .range := by revert hsz; cases op <;> simp [MType.refSize]
    rcases hop with rfl | rfl
    · refine whole (P := i.hash = host q 0 4) ?_ (by have := C47_flow_hash (m := ⟨.metaFlowHash, .eq, q, neg⟩) (w := w) hc hf rfl (by simp); rw [hi] at this; exact this)
      have hM : NumText s (host q 0 4) := hM
      exact ⟨fun h => by show NumText s i.hash; rw [h]; exact hM, fun h => numText_unique h hM⟩
    · refine whole (P := host q 0 4 ≤ i.hash ∧ i.hash ≤ host q 4 4) ?_ (by
        have := C08_flow_hash (m := ⟨.metaFlowHash, .range, q, neg⟩) (w := w) hc hf rfl rfl
        rw [hi] at this; exact this)
      have hM : RangeText NumText 4294967295 s (host q 0 4) (host q 4 4) := hM
      refine ⟨fun h => ⟨_, _, hM, h⟩, ?_⟩
      rintro ⟨x, y, h1, h2⟩
      obtain ⟨rfl, rfl⟩ := range_unique (num := NumText) (fun h h' => numText_unique h h') (fun h => number_no h) hM h1
      exact h2
  case metaSport =>
    exact mport (Or.inl rfl) (by revert hsz; cases op <;> simp [MType.refSize]) hM hlen
  case metaDport =>
    exact mport (Or.inr rfl) (by revert hsz; cases op <;> simp [MType.refSize]) hM hlen
  case ip4Dscp =>
    have := C47_dscp4 (m := ⟨.ip4Dscp, op, q, neg⟩) (w := w) hc hf rfl
    rw [hi] at this
    rw [this]
    have hM : NamedBy Doc.Dscp 63 s (host q 0 1) := hM
    rw [exists_field (H := HasHdr i (.net .ip4)) HasHdr.unique (D := fun off => NamedBy Doc.Dscp 63 s ((byteAt i.bytes (off + 1)).toNat / 4))]
    · refine and_congr ?_ (iff_congr ?_ Iff.rfl)
      · constructor
        · rintro ⟨off, ho⟩; exact ⟨_, Or.inl ⟨rfl, off, ho, rfl⟩⟩
        · rintro ⟨n, ⟨_, off, ho, _⟩ | ⟨h, _⟩⟩
          · exact ⟨off, ho⟩
          · cases h
      · constructor
        · rintro ⟨off, ho, h⟩; exact ⟨_, Or.inl ⟨rfl, off, ho, rfl⟩, h⟩
        · rintro ⟨n, ⟨_, off, ho, rfl⟩ | ⟨h, _⟩, h'⟩
          · exact ⟨off, ho, h'⟩
          · cases h
    · intro off _
      exact ⟨fun h => by rw [h]; exact hM, fun h => named_unique (fun s n => C38_dscpDoc s n) (by decide) h hM⟩
  case ip6Dscp =>
    have := C47_dscp6 (m := ⟨.ip6Dscp, op, q, neg⟩) (w := w) hc hf rfl
    rw [hi] at this
    rw [this]
    have hM : NamedBy Doc.Dscp 63 s (host q 0 1) := hM
    rw [exists_field (H := HasHdr i (.net .ip6)) HasHdr.unique
      (D := fun off => NamedBy Doc.Dscp 63 s ((byteAt i.bytes off).toNat % 16 * 4 + (byteAt i.bytes (off + 1)).toNat / 64))]
    · refine and_congr ?_ (iff_congr ?_ Iff.rfl)
      · constructor
        · rintro ⟨off, ho⟩; exact ⟨_, Or.inr ⟨rfl, off, ho, rfl⟩⟩
        · rintro ⟨n, ⟨h, _⟩ | ⟨_, off, ho, _⟩⟩
          · cases h
          · exact ⟨off, ho⟩
      · constructor
        · rintro ⟨off, ho, h⟩; exact ⟨_, Or.inr ⟨rfl, off, ho, rfl⟩, h⟩
        · rintro ⟨n, ⟨h, _⟩ | ⟨_, off, ho, rfl⟩, h'⟩
          · cases h
          · exact ⟨off, ho, h'⟩
    · intro off _
      exact ⟨fun h => by rw [h]; exact hM, fun h => named_unique (fun s n => C38_dscpDoc s n) (by decide) h hM⟩
  case tcpFlags =>
    have := C09_flags (w := w) hc hf hw rfl
    rw [hi] at this
    rw [this]
    have hM : FlagsText s (host q 0 1) := hM
    have hop : op = .eq ∨ op = .any ∨ op = .all := by revert hsz hin; cases op <;> simp [MType.refSize]
    obtain ⟨x, rfl⟩ : ∃ x, q = [x] := by
      have : q.length = 1 := by rw [hlen]; rcases hop with rfl | rfl | rfl <;> rfl
      match q, this with
      | [x], _ => exact ⟨x, rfl⟩
    have hx : host [x] 0 1 = x.toNat := by simp [host, leNat]
    rw [hx] at hM
    have hbit : ∀ (f : Byte) k, f.toNat.testBit k = f.getLsbD k := fun f k => rfl
    have h8 : ∀ (f : Byte) k, f.getLsbD k = true → k < 8 := by
      intro f k h
      exact Classical.byContradiction fun hk => by rw [BitVec.getLsbD_of_ge f k (by omega)] at h; cases h
    have key := exists_field (N := neg = false) (H := fun f : Byte => HasField i .tcpFlags [f]) (fun {a b} h h' => by have := HasField.unique h h'; simpa using this)
      (C := flagC op x)
      (D := fun f => ∃ v, FlagsText s v ∧ FlagTest op f.toNat v) (by
        intro f _
        have hv : (∃ v, FlagsText s v ∧ FlagTest op f.toNat v) ↔ FlagTest op f.toNat x.toNat := by
          constructor
          · rintro ⟨v, h1, h2⟩
            cases flags_unique hM h1
            exact h2
          · intro h
            exact ⟨_, hM, h⟩
        rw [hv]
        unfold FlagTest flagC
        rcases hop with rfl | rfl | rfl
        · dsimp only
          exact ⟨fun h => by cases h; rfl, fun h => by rw [BitVec.eq_of_toNat_eq h]⟩
        · dsimp only
          simp only [hbit]
          exact ⟨fun ⟨k, _, h⟩ => ⟨k, h⟩, fun ⟨k, h⟩ => ⟨k, h8 _ _ h.1, h⟩⟩
        · dsimp only
          simp only [hbit]
          exact ⟨fun h k hk => h k (h8 _ _ hk) hk, fun h k _ hk => h k hk⟩)
    have hl : ∀ b, HasField i .tcpFlags b → ∃ f, b = [f] := by
      intro b hb
      match b, HasField.length hb rfl with
      | [f], _ => exact ⟨f, rfl⟩
    have e1 : (∃ f : Byte, HasField i .tcpFlags [f]) ↔ Concerns i .tcpFlags := by
      constructor
      · rintro ⟨f, h⟩; exact ⟨_, h⟩
      · rintro ⟨b, hb⟩
        obtain ⟨f, rfl⟩ := hl b hb
        exact ⟨f, hb⟩
    have e2 : (∃ f : Byte, HasField i .tcpFlags [f] ∧ ∃ v, FlagsText s v ∧ FlagTest op f.toNat v) ↔ Describes env i w.mark.toNat .tcpFlags op s := by
      constructor
      · rintro ⟨f, h, v, h1, h2⟩
        exact ⟨f.toNat, v, ⟨_, h, beNat_one f⟩, h1, h2⟩
      · rintro ⟨n, v, ⟨b, hb, rfl⟩, h1, h2⟩
        obtain ⟨f, rfl⟩ := hl b hb
        rw [beNat_one] at h2
        exact ⟨f, hb, v, h1, h2⟩
    rw [← e1, ← e2, ← key]
    refine exists_congr fun f => and_congr_right fun _ => ?_
    have hb0 : byteAt [x] 0 = x := rfl
    rcases hop with rfl | rfl | rfl
    · simp [flagC]
    · simp [hb0, flagC]
    · simp [hb0, flagC]
  case ip4Proto =>
    obtain rfl : op = .eq := by revert hsz hin; cases op <;> simp [MType.refSize]
    exact num (by decide) rfl hlen rfl (says := NamedBy (fun x n => Doc.ipproto n = some x) 255 s) hM (named_unique C38_understood.2.2.2.2.2.2.2.1 (by decide))
  case icmpType =>
    obtain rfl : op = .eq := by revert hsz hin; cases op <;> simp [MType.refSize]
    exact num (by decide) rfl hlen rfl (says := NamedBy (fun x n => Doc.icmp n = some x) 255 s) hM (named_unique C38_understood.2.2.2.2.2.2.2.2.1 (by decide))
  case icmpv6Type =>
    obtain rfl : op = .eq := by revert hsz hin; cases op <;> simp [MType.refSize]
    exact num (by decide) rfl hlen rfl (says := NamedBy (fun x n => Doc.icmpv6 n = some x) 255 s) hM (named_unique C38_understood.2.2.2.2.2.2.2.2.2 (by decide))
  case icmpCode =>
    obtain rfl : op = .eq := by revert hsz hin; cases op <;> simp [MType.refSize]
    exact num (by decide) rfl hlen rfl (says := NumText s) hM numText_unique
  case icmpv6Code =>
    obtain rfl : op = .eq := by revert hsz hin; cases op <;> simp [MType.refSize]
    exact num (by decide) rfl hlen rfl (says := NumText s) hM numText_unique
  case ip4Snet =>
    have hM : NetText Addr4 32 s (((q.drop 4).take 4).map BitVec.toNat) (host q 0 4) := hM
    rw [List.take_of_length_le (by rw [List.length_drop, hlen]; revert hsz hin; cases op <;> simp [MType.refSize])] at hM
    refine nets (by decide) (D := fun b => ∃ net len, NetText Addr4 32 s (net.map BitVec.toNat) len ∧ SameBits b net len) (fun b hb => ⟨fun h => ⟨_, _, hM, h⟩, ?_⟩) (by simp only [Describes, exists_and_left])
    rintro ⟨net, len, h1, h2⟩
    obtain ⟨e1, rfl⟩ := net_unique (addr := Addr4) (fun h h' => addr4_unique h h') (fun h => (addr4_starts [] h).2.2) hM h1
    rw [map_toNat_inj e1]
    exact h2
  case ip4Dnet =>
    have hM : NetText Addr4 32 s (((q.drop 4).take 4).map BitVec.toNat) (host q 0 4) := hM
    rw [List.take_of_length_le (by rw [List.length_drop, hlen]; revert hsz hin; cases op <;> simp [MType.refSize])] at hM
    refine nets (by decide) (D := fun b => ∃ net len, NetText Addr4 32 s (net.map BitVec.toNat) len ∧ SameBits b net len) (fun b hb => ⟨fun h => ⟨_, _, hM, h⟩, ?_⟩) (by simp only [Describes, exists_and_left])
    rintro ⟨net, len, h1, h2⟩
    obtain ⟨e1, rfl⟩ := net_unique (addr := Addr4) (fun h h' => addr4_unique h h') (fun h => (addr4_starts [] h).2.2) hM h1
    rw [map_toNat_inj e1]
    exact h2
  all_goals first
    | (have hop : op = .eq ∨ op = .range := by revert hsz hin; cases op <;> simp [MType.refSize]
       rcases hop with rfl | rfl
       · exact port (by decide) rfl hlen rfl hM
       · exact rng (by decide) rfl hM)
    | (obtain rfl : op = .eq := by revert hsz hin; cases op <;> simp [MType.refSize]
       refine plain (by decide) rfl fun b hb => ?_
       have hM : Addr4 s ((q.take 4).map BitVec.toNat) := hM
       rw [List.take_of_length_le (by rw [hlen]; decide)] at hM
       exact ⟨fun h => by rw [h]; exact hM, fun h => map_toNat_inj (addr4_unique h hM)⟩)
    | (obtain rfl : op = .eq := by revert hsz hin; cases op <;> simp [MType.refSize]
       rw [plain (by decide) rfl (D := fun b => ∃ ws, Addr6 s ws ∧ b.map BitVec.toNat = bytesOf ws)]
       · simp only [Concerns, Describes, exists_and_left]
       · intro b hb
         obtain ⟨ws, h1, h2⟩ : ∃ ws, Addr6 s ws ∧ (q.take 16).map BitVec.toNat = bytesOf ws := hM
         rw [List.take_of_length_le (by rw [hlen]; decide)] at h2
         constructor
         · rintro rfl; exact ⟨ws, h1, h2⟩
         · rintro ⟨ws', h1', h2'⟩
           cases addr6_unique h1 h1'
           exact map_toNat_inj (h2'.trans h2.symm))
    | (obtain ⟨ws, hM, hb⟩ : ∃ ws, NetText Addr6 128 s ws (host q 0 4) ∧ ((q.drop 4).take 16).map BitVec.toNat = bytesOf ws := hM
       have h128 : host q 0 4 ≤ 128 := by obtain ⟨_, _, _, _, _, h⟩ := hM; exact h
       refine nets (D := fun b => ∃ net ws len, NetText Addr6 128 s ws len ∧ net.map BitVec.toNat = bytesOf ws ∧ SameBits b net len) (by decide)
         (fun b _ => ⟨fun h => ⟨_, _, _, hM, hb, (sameBits_take h128).mpr h⟩, ?_⟩) (by simp only [Describes, exists_and_left])
       rintro ⟨net, ws', len, h1, h2, h3⟩
       obtain ⟨rfl, rfl⟩ := net_unique (addr := Addr6) (fun h h' => addr6_unique h h') (fun h => (addr6_starts [] h).2.2) hM h1
       have := map_toNat_inj (h2.trans hb.symm)
       exact (sameBits_take h128).mp (this ▸ h3))

/-- **C48 (partial).**  A matcher read from a text selects the packets the text describes: a chain whose only rule has this matcher and drops, drops a
packet it can read iff the packet has what the matcher is about, and is described by the text (or is not, if the matcher is negated).
Excluded: `ip6.nexthdr` (`C47_nexthdr_partial`), sets, probabilities; texts that are not ordinary or do not fit (`C46_odd`); interfaces from 65536 (`C22_fails`), and
port 0 of `meta.sport` and `meta.dport` (`C05_fails_port0`).  Protocols are seen as in `NetNumber` and `TransNumber` (`C47_fails_arp`). -/
theorem C48_selects_partial {env : TextEnv} {ty : MType} {op : MOp} {buf : List Byte} {s : List Char} {neg : Bool}
    (hm : matcherNewFromRaw env ty op buf s neg = .ok m) (ho : Ordinary s)
    (hroom : ∀ k, room ty op = some k → s.length ≤ k) (hn : ty.isNet = true → ∀ a b, s = a ++ '/' :: b → b.length ≤ 9)
    (p : Probe E chain thr img m) (hf : chain.hook.flavor ≠ .sockAddr) (hr : Runs E img w r w')
    (hty : ty ∉ [MType.ip6Nexthdr, .metaProbability, .metaFlowProbability, .set])
    (hif : ty = .metaIface → (inputOf E chain.hook).ifindex < 65536)
    (hport : ty = .metaSport ∨ ty = .metaDport → ¬ PortIs (inputOf E chain.hook) ty 0) :
    Blocked chain r ↔ ¬ Unreadable E chain ∧ Concerns (inputOf E chain.hook) ty ∧
      (Describes env (inputOf E chain.hook) w.mark.toNat ty op s ↔ neg = false) := by
  rw [p.blocked_iff hr fun _ hc => C48_hits_partial hm ho hroom hn hc p.wf hf hty hif hport]

/-! ### A concrete case -/
open Sample

private theorem ordinary80 : Ordinary "80".toList :=
  ⟨by decide, by decide, fun a b e => by
    match a, e with
    | [], e => cases e
    | [_], e => cases e
    | _ :: _ :: _, e => simp at e⟩

/-- The chain of one rule `tcp.dport eq 80 DROP`, on XDP, for every packet: it is blocked if and only if bpfilter can read it and it is a TCP segment
to port 80. -/
theorem C48_http (b : Env) : ∃ img, ∀ w, ∃ r w', Runs (envOf b (one .xdp [] mHttp)) img w r w' ∧
    (Blocked (one .xdp [] mHttp) r ↔ ¬ Unreadable (envOf b (one .xdp [] mHttp)) (one .xdp [] mHttp) ∧ FieldIs (inputOf b .xdp) .tcpDport 80) := by
  obtain ⟨img, p⟩ := http_probe b
  refine ⟨img, fun w => ?_⟩
  obtain ⟨r, w', hr⟩ := C01_returns p.loaded w
  refine ⟨r, w', hr, ?_⟩
  have hm : matcherNewFromRaw env0 .tcpDport .eq [0, 0] "80".toList false = .ok mHttp := by decide +kernel
  rw [C48_selects_partial hm ordinary80 (by decide) (by intro h; cases h) p (by decide) hr (by decide) (by intro h; cases h)
    (by rintro (h | h) <;> cases h)]
  have h80 : Numeral 10 "80".toList 80 :=
    Numeral.more (w := ['8']) (c := '0') (n := 8) (v := 0) (.one (Or.inl (by decide)) (by decide)) (Or.inl (by decide)) (by decide)
  have e : inputOf (envOf b (one .xdp [] mHttp)) (one .xdp [] mHttp).hook = inputOf b .xdp := rfl
  rw [e]
  refine and_congr_right fun _ => ⟨fun ⟨_, h⟩ => ?_, fun h => ⟨?_, fun _ => rfl, fun _ => ⟨80, h, h80⟩⟩⟩
  · obtain ⟨n, h1, h2⟩ := h.mpr rfl
    cases numeral_unique (by decide) h2 h80
    exact h1
  · obtain ⟨x, hx, _⟩ := h
    exact ⟨x, hx⟩

/-- There is such a packet. -/
example : FieldIs (inputOf Sample.base .xdp) .tcpDport 80 := by
  refine ⟨[0, 80], ⟨.trans .tcp, 2, 2, 34, rfl, ⟨Or.inl ⟨14, ?_, by decide, by decide⟩, by decide⟩, by decide⟩, by decide⟩
  exact ⟨rfl, by decide⟩

end Bf
