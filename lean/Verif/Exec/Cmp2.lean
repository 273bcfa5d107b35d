import Verif.Exec.Cmp
import Verif.Spec.Match
/-!
# Meaning of the comparison code, in terms of field bytes (`cmp.c`)
-/
namespace Bf

variable {E : Env} {gs : Groups} {K : Frame}

/-- A field of at most 8 bytes is in `R1`, a 16-byte field in `R1` and `R2`. -/
def Loaded (s : St) (fb : List Byte) : Prop :=
  s.r .r1 = .sc (BitVec.ofNat 64 (leNat (fb.take 8))) ∧
  (fb.length = 16 → s.r .r2 = .sc (BitVec.ofNat 64 (leNat (fb.drop 8))))

theorem leNat8_inj {a b : List Byte} (ha : a.length = b.length) (hb : b.length ≤ 8) :
    BitVec.ofNat 64 (leNat a) = BitVec.ofNat 64 (leNat b) ↔ a = b := by
  rw [← leNat_inj ha]
  have h1 := leNat_lt a
  have h2 := leNat_lt b
  have hp : 256 ^ b.length ≤ 256 ^ 8 := Nat.pow_le_pow_right (by omega) hb
  rw [ha] at h1
  have e : (256 : Nat) ^ 8 = 2 ^ 64 := by decide
  constructor
  · intro h
    have := congrArg BitVec.toNat h
    simp only [BitVec.toNat_ofNat] at this
    rw [Nat.mod_eq_of_lt (by omega), Nat.mod_eq_of_lt (by omega)] at this
    exact this
  · intro h; rw [h]

theorem split8 {a b : List Byte} : (a.take 8 = b.take 8 ∧ a.drop 8 = b.drop 8) ↔ a = b := by
  constructor
  · rintro ⟨h1, h2⟩
    rw [← List.take_append_drop 8 a, h1, h2, List.take_append_drop]
  · rintro rfl; exact ⟨rfl, rfl⟩

/-- Equality comparison of a field. -/
theorem cmpValue_field (m : Matcher) (ref : List Byte) (size : Nat)
    (hsz : size = 1 ∨ size = 2 ∨ size = 4 ∨ size = 16) :
    GenT (cmpValue m ref size .r1) (fun _ x => m.op = .eq ∧ size ≤ ref.length ∧
      ∀ s fb, Inv K s → fb.length = size → Loaded s fb →
        wp E gs x 0 (mpost K (decide (fb = ref.take size) != m.negate) s.w) s) := by
  have small : (size = 1 ∨ size = 2 ∨ (size = 4 ∧ Reg.r1 ≠ .r2)) →
      GenT (cmpValue m ref size .r1) (fun _ x => m.op = .eq ∧ size ≤ ref.length ∧
      ∀ s fb, Inv K s → fb.length = size → Loaded s fb →
        wp E gs x 0 (mpost K (decide (fb = ref.take size) != m.negate) s.w) s) := by
    intro hsz
    refine (cmpValue_small (E := E) (gs := gs) (K := K) m ref size .r1 hsz).mono ?_
    rintro _ x ⟨h1, h2, h3⟩
    refine ⟨h1, h2, ?_⟩
    intro s fb hs hl hld
    have h := h3 s _ hs hld.1
    have hle : size ≤ 8 := by omega
    rw [List.take_of_length_le (by omega)] at h
    have hlt := leNat_lt fb
    have hp : 256 ^ fb.length ≤ 256 ^ 8 := Nat.pow_le_pow_right (by omega) (by omega)
    have e : (256 : Nat) ^ 8 = 2 ^ 64 := by decide
    rw [ofNat64_toNat (by omega)] at h
    have hi : leNat fb = leNat (List.take size ref) ↔ fb = List.take size ref :=
      leNat_inj (by rw [List.length_take]; omega)
    simp only [hi] at h
    exact h
  rcases hsz with rfl | rfl | rfl | rfl
  · exact small (Or.inl rfl)
  · exact small (Or.inr (Or.inl rfl))
  · exact small (Or.inr (Or.inr ⟨rfl, by simp⟩))
  · by_cases hop : m.op = .eq
    · rw [cmpValue_eq m ref 16 .r1 hop]
      refine .thenLift fun lo hlo => .thenLift fun hi hhi => ?_
      obtain ⟨l, hl1, hl2⟩ := Res.bind_eq_ok hlo
      obtain ⟨h, hh1, hh2⟩ := Res.bind_eq_ok hhi
      obtain ⟨_, rfl⟩ := rd_ok hl1
      obtain ⟨hlen, rfl⟩ := rd_ok hh1
      cases hl2; cases hh2
      refine (cmp128_gen (E := E) (gs := gs) (K := K) m _ _).mono ?_
      intro _ x hx
      refine ⟨hop, hlen, ?_⟩
      intro s fb hs hl hld
      have := hx s _ _ hs hld.1 (hld.2 hl)
      have hi : (BitVec.ofNat 64 (leNat (List.take 8 fb)) = BitVec.ofNat 64 (leNat (List.take 8 (List.drop 0 ref))) ∧
        BitVec.ofNat 64 (leNat (List.drop 8 fb)) = BitVec.ofNat 64 (leNat (List.take 8 (List.drop 8 ref)))) ↔
        fb = ref.take 16 := by
        rw [leNat8_inj (by simp only [List.length_take, List.length_drop]; omega) (by simp only [List.length_take, List.length_drop]; omega),
          leNat8_inj (by simp only [List.length_take, List.length_drop]; omega) (by simp only [List.length_take, List.length_drop]; omega)]
        rw [← split8 (a := fb)]
        simp [List.take_take, List.drop_take]
      simp only [hi] at this
      exact this
    · unfold cmpValue
      rw [if_pos (by simpa using hop)]
      exact GenT.fail _ _

/-! ### Masks -/

/-- Bit `j` of byte `i` of a prefix mask. -/
theorem mask_bit {plen len : Nat} {mask : List Byte} (h : prefixToMask plen len = .ok mask) :
    plen ≤ 8 * len ∧ mask.length = len ∧
      ∀ i, i < len → ∀ j, j < 8 → (Spec.byteAt mask i).getLsbD j = decide (8 * i + (7 - j) < plen) := by
  unfold prefixToMask at h
  split at h
  · next hle =>
    cases h
    refine ⟨hle, by simp, ?_⟩
    intro i hi j hj
    simp only [Spec.byteAt]
    rw [List.getElem?_map, List.getElem?_range hi]
    simp only [Option.map_some, Option.getD_some]
    split
    · next h1 =>
      have : 8 * i + (7 - j) < plen := by omega
      simp only [this, decide_true]
      have : ∀ j : Fin 8, (0xff : Byte).getLsbD j.val = true := by decide
      exact this ⟨j, hj⟩
    · next h1 =>
      split
      · next h2 =>
        subst h2
        by_cases h3 : plen % 8 = 0
        · simp only [h3, ne_eq, not_true_eq_false, if_false]
          have : ¬ 8 * (plen / 8) + (7 - j) < plen := by omega
          simp [this]
        · simp only [ne_eq, h3, not_false_eq_true, if_true]
          have key : ∀ (r : Fin 8) (j : Fin 8), r.val ≠ 0 →
              (BitVec.ofNat 8 (255 <<< (8 - r.val))).getLsbD j.val = decide (7 - j.val < r.val) := by decide
          have := key ⟨plen % 8, by omega⟩ ⟨j, hj⟩ h3
          simp only at this
          rw [this]
          congr 1
          simp only [eq_iff_iff]
          omega
      · next h2 =>
        have : ¬ 8 * i + (7 - j) < plen := by omega
        simp [this]
  · cases h

theorem leNat_and {a b : List Byte} (h : a.length = b.length) :
    leNat a &&& leNat b = leNat (maskBytes a b) := by
  induction a generalizing b with
  | nil => cases b <;> simp_all [leNat, maskBytes]
  | cons x a ih =>
    cases b with
    | nil => simp at h
    | cons y b =>
      simp only [List.length_cons, Nat.add_right_cancel_iff] at h
      simp only [maskBytes, List.zipWith_cons_cons, leNat]
      have hx : x.toNat < 256 := x.isLt
      have hy : y.toNat < 256 := y.isLt
      have ih' := ih h
      simp only [maskBytes] at ih'
      rw [← ih']
      apply Nat.eq_of_testBit_eq
      intro i
      have e256 : (256 : Nat) = 2 ^ 8 := by decide
      have tb : ∀ (u v : Nat), u < 256 → (u + 256 * v).testBit i = if i < 8 then u.testBit i else v.testBit (i - 8) := by
        intro u v hu
        rw [Nat.add_comm, e256, Nat.testBit_two_pow_mul_add v (by omega)]
      rw [Nat.testBit_and, tb _ _ hx, tb _ _ hy, tb]
      · simp only [BitVec.toNat_and, Nat.testBit_and]
        split <;> rfl
      · exact (x &&& y).isLt

theorem maskBytes_length {a b : List Byte} (h : a.length = b.length) :
    (maskBytes a b).length = a.length := by
  simp [maskBytes, h]

theorem byteAt_maskBytes {a b : List Byte} (h : a.length = b.length) {i : Nat} (hi : i < a.length) :
    Spec.byteAt (maskBytes a b) i = Spec.byteAt a i &&& Spec.byteAt b i := by
  simp only [Spec.byteAt, maskBytes]
  rw [List.getElem?_zipWith, List.getElem?_eq_getElem hi, List.getElem?_eq_getElem (by omega)]
  rfl

theorem ext_byteAt {a b : List Byte} (h : a.length = b.length)
    (hb : ∀ i, i < a.length → Spec.byteAt a i = Spec.byteAt b i) : a = b := by
  apply List.ext_getElem h
  intro i h1 h2
  have := hb i h1
  simp only [Spec.byteAt, List.getElem?_eq_getElem h1, List.getElem?_eq_getElem h2,
    Option.getD_some] at this
  exact this

theorem samePrefix_iff {n : Nat} {a b : List Byte} :
    Spec.samePrefix n a b = true ↔ ∀ i, i < n → Spec.bitAt a i = Spec.bitAt b i := by
  simp [Spec.samePrefix, List.all_eq_true]

/-- Masked bytes are equal exactly when the prefixes are. -/
theorem mask_prefix {plen len : Nat} {mask : List Byte} (h : prefixToMask plen len = .ok mask)
    {a b : List Byte} (ha : a.length = len) (hb : b.length = len) :
    maskBytes a mask = maskBytes b mask ↔ Spec.samePrefix plen a b = true := by
  obtain ⟨hle, hml, hbit⟩ := mask_bit h
  rw [samePrefix_iff]
  constructor
  · intro he n hn
    have hi : n / 8 < len := by omega
    have h1 := congrArg (fun l => (Spec.byteAt l (n / 8)).getLsbD (7 - n % 8)) he
    rw [byteAt_maskBytes (by omega) (by omega), byteAt_maskBytes (by omega) (by omega)] at h1
    simp only [BitVec.getLsbD_and] at h1
    rw [hbit _ hi _ (by omega)] at h1
    have : 8 * (n / 8) + (7 - (7 - n % 8)) < plen := by omega
    simp only [this, decide_true, Bool.and_true] at h1
    exact h1
  · intro hp
    apply ext_byteAt
    · rw [maskBytes_length (by omega), maskBytes_length (by omega)]; omega
    · intro i hi
      rw [maskBytes_length (by omega)] at hi
      rw [byteAt_maskBytes (by omega) (by omega), byteAt_maskBytes (by omega) (by omega)]
      apply BitVec.eq_of_getLsbD_eq
      intro j hj
      simp only [BitVec.getLsbD_and]
      rw [hbit i (by omega) j hj]
      by_cases hlt : 8 * i + (7 - j) < plen
      · have := hp _ hlt
        simp only [Spec.bitAt] at this
        have e1 : (8 * i + (7 - j)) / 8 = i := by omega
        have e2 : 7 - (8 * i + (7 - j)) % 8 = j := by omega
        rw [e1, e2] at this
        rw [this]
      · simp [hlt]

theorem samePrefix_take {n k : Nat} {a b : List Byte} (h : n ≤ 8 * k) :
    Spec.samePrefix n a (b.take k) = Spec.samePrefix n a b := by
  have : ∀ i, i < n → Spec.bitAt (b.take k) i = Spec.bitAt b i := by
    intro i hi
    simp only [Spec.bitAt, Spec.byteAt]
    rw [List.getElem?_take_of_lt (by omega)]
  rw [Bool.eq_iff_iff, samePrefix_iff, samePrefix_iff]
  constructor
  · intro h i hi; rw [h i hi, this i hi]
  · intro h i hi; rw [h i hi, this i hi]

theorem bv32_and (a b : Nat) :
    BitVec.ofNat 32 a &&& BitVec.ofNat 32 b = BitVec.ofNat 32 (a &&& b) := by
  apply BitVec.eq_of_toNat_eq
  simp only [BitVec.toNat_and, BitVec.toNat_ofNat]
  rw [Nat.and_mod_two_pow]

theorem bv64_and (a b : Nat) :
    BitVec.ofNat 64 a &&& BitVec.ofNat 64 b = BitVec.ofNat 64 (a &&& b) := by
  apply BitVec.eq_of_toNat_eq
  simp only [BitVec.toNat_and, BitVec.toNat_ofNat]
  rw [Nat.and_mod_two_pow]

theorem sw32_64 {n : Nat} : (BitVec.ofNat 64 n).setWidth 32 = BitVec.ofNat 32 n := by
  apply BitVec.eq_of_toNat_eq
  simp only [BitVec.toNat_setWidth, BitVec.toNat_ofNat]
  omega

theorem sw64_32 {n : Nat} (h : n < 2 ^ 32) : (BitVec.ofNat 32 n).setWidth 64 = BitVec.ofNat 64 n := by
  apply BitVec.eq_of_toNat_eq
  simp only [BitVec.toNat_setWidth, BitVec.toNat_ofNat]
  omega

theorem leNat_lt4 {a : List Byte} (h : a.length = 4) : leNat a < 2 ^ 32 := by
  have := leNat_lt a
  rw [h] at this
  have e : (256 : Nat) ^ 4 = 2 ^ 32 := by decide
  omega

/-- The two halves of bytewise masks. -/
theorem maskBytes_take {a b : List Byte} (n : Nat) :
    maskBytes (a.take n) (b.take n) = (maskBytes a b).take n := by
  simp [maskBytes, List.take_zipWith]

theorem maskBytes_drop {a b : List Byte} (n : Nat) :
    maskBytes (a.drop n) (b.drop n) = (maskBytes a b).drop n := by
  simp [maskBytes, List.drop_zipWith]

/-- A full mask changes nothing. -/
theorem maskBytes_full {plen len : Nat} {mask : List Byte} (h : prefixToMask plen len = .ok mask)
    (hp : plen = 8 * len) {a : List Byte} (ha : a.length = len) : maskBytes a mask = a := by
  obtain ⟨_, hml, hbit⟩ := mask_bit h
  apply ext_byteAt
  · rw [maskBytes_length (by omega)]
  · intro i hi
    rw [maskBytes_length (by omega)] at hi
    rw [byteAt_maskBytes (by omega) hi]
    apply BitVec.eq_of_getLsbD_eq
    intro j hj
    rw [BitVec.getLsbD_and, hbit i (by omega) j hj]
    have : 8 * i + (7 - j) < plen := by omega
    simp [this]

/-- Comparison of the prefix of a field. -/
theorem cmpMasked_field (m : Matcher) (ref : List Byte) (plen size : Nat)
    (hsz : size = 4 ∨ size = 16) :
    GenT (cmpMasked m ref plen size .r1) (fun _ x => m.op = .eq ∧ size ≤ ref.length ∧ plen ≤ 8 * size ∧
      ∀ s fb, Inv K s → fb.length = size → Loaded s fb →
        wp E gs x 0 (mpost K (Spec.samePrefix plen fb ref != m.negate) s.w) s) := by
  by_cases hop : m.op = .eq
  · unfold cmpMasked
    rw [if_neg (by simp [hop])]
    have hj : jmpIns m = pure (eqJop m) := by simp only [jmpIns, hop, eqJop]
    rw [hj]
    rcases hsz with rfl | rfl
    · refine (GenT.pure _).then ?_
      rintro _ _ ⟨rfl, rfl⟩
      simp only [List.nil_append]
      refine .thenLift fun mask hmask => .thenLift fun v hv => ?_
      obtain ⟨hlen, rfl⟩ := rd_ok hv
      obtain ⟨hple, hml, hbit⟩ := mask_bit hmask
      simp only [Nat.zero_add, List.drop_zero] at hlen ⊢
      have hrl : (ref.take 4).length = 4 := by simp; omega
      have hr4 := leNat_lt4 hrl
      refine .thenEmit ?_
      by_cases hm : BitVec.ofNat 32 (leNat mask) ≠ 0xFFFFFFFF
      · rw [if_pos hm]
        refine .thenEmit (.thenEmit (.thenEmit (.lastNext ?_)))
        refine ⟨hop, hlen, hple, ?_⟩
        intro s fb hs hl hld
        have hf4 := leNat_lt4 hl
        have hm4 := leNat_lt4 hml
        have hfb : s.r .r1 = .sc (BitVec.ofNat 64 (leNat fb)) := by
          have := hld.1
          rwa [List.take_of_length_le (by omega)] at this
        refine wp_mov32i (by simp) rfl ?_
        refine wp_mov32i (by simp) rfl ?_
        refine wp_alu (v := .sc (BitVec.ofNat 64 (leNat (maskBytes fb mask)))) (by simp) ?_ ?_
        · simp only [srcVal, St.set_same, ne_eq, reduceCtorEq, not_false_eq_true, St.set_other, hfb,
            aluVal, alu32]
          rw [sw32_64, sw64_32 hm4, sw32_64, bv32_and, leNat_and (by omega), sw64_32]
          exact leNat_lt4 (by rw [maskBytes_length (by omega)]; omega)
        refine wp_alu (v := .sc (BitVec.ofNat 64 (leNat (maskBytes (ref.take 4) mask)))) (by simp) ?_ ?_
        · simp only [srcVal, St.set_same, ne_eq, reduceCtorEq, not_false_eq_true, St.set_other,
            aluVal, alu32]
          rw [sw64_32 hr4, sw32_64, sw64_32 hm4, sw32_64, bv32_and, leNat_and (by omega), sw64_32]
          exact leNat_lt4 (by rw [maskBytes_length (by omega)]; omega)
        refine wp_cmpN ((((hs.set (d := .r2) _ trivial).set (d := .r3) _ trivial).set (d := .r1) _ trivial).set (d := .r2) _ trivial) rfl
          (va := BitVec.ofNat 64 (leNat (maskBytes fb mask)))
          (vb := BitVec.ofNat 64 (leNat (maskBytes (ref.take 4) mask))) (by simp) (by simp [srcVal]) ?_
        have hi : (BitVec.ofNat 64 (leNat (maskBytes fb mask))).toNat =
            (BitVec.ofNat 64 (leNat (maskBytes (ref.take 4) mask))).toNat ↔
            Spec.samePrefix plen fb ref = true := by
          rw [BitVec.toNat_inj,
            leNat8_inj (by rw [maskBytes_length (by omega), maskBytes_length (by omega)]; omega)
            (by rw [maskBytes_length (by omega)]; omega), mask_prefix hmask hl hrl, samePrefix_take hple]
        rw [if_pos rfl, eqJop_holds]
        simp only [hi, Bool.decide_eq_true]
      · rw [if_neg hm]
        have hfull : plen = 8 * 4 := by
          have hm4 := leNat_lt4 hml
          simp only [ne_eq, Decidable.not_not] at hm
          have hm' := congrArg BitVec.toNat hm
          simp only [BitVec.toNat_ofNat] at hm'
          have he : leNat mask = leNat [0xff, 0xff, 0xff, 0xff] := by
            have h1 : leNat ([0xff, 0xff, 0xff, 0xff] : List Byte) = 4294967295 := by decide
            have h2 : (0xFFFFFFFF : BitVec 32).toNat = 4294967295 := by decide
            omega
          have := (leNat_inj (by simp [hml])).mp he
          subst this
          have h0 := hbit 3 (by omega) 0 (by omega)
          have h1 : (Spec.byteAt ([0xff, 0xff, 0xff, 0xff] : List Byte) 3).getLsbD 0 = true := by decide
          rw [h1] at h0
          simp at h0
          omega
        refine .lastNext ?_
        refine ⟨hop, hlen, hple, ?_⟩
        intro s fb hs hl hld
        have hf4 := leNat_lt4 hl
        have hfb : s.r .r1 = .sc (BitVec.ofNat 64 (leNat fb)) := by
          have := hld.1
          rwa [List.take_of_length_le (by omega)] at this
        refine wp_mov32i (by simp) rfl ?_
        refine wp_cmpN (hs.set _ trivial) rfl
          (va := BitVec.ofNat 64 (leNat fb))
          (vb := BitVec.ofNat 64 (leNat (ref.take 4))) (by simpa using hfb) (by simp [srcVal, sw64_32 hr4]) ?_
        have hi : (BitVec.ofNat 64 (leNat fb)).toNat = (BitVec.ofNat 64 (leNat (ref.take 4))).toNat ↔
            Spec.samePrefix plen fb ref = true := by
          have := mask_prefix hmask hl hrl
          rw [maskBytes_full hmask hfull hl, maskBytes_full hmask hfull hrl, samePrefix_take hple] at this
          rw [BitVec.toNat_inj, leNat8_inj (by omega) (by omega), this]
        rw [if_pos rfl, eqJop_holds]
        simp only [hi, Bool.decide_eq_true]
    · refine (GenT.pure _).then ?_
      rintro _ _ ⟨rfl, rfl⟩
      simp only [List.nil_append]
      refine .thenLift fun mask hmask => ?_
      obtain ⟨hple, hml, hbit⟩ := mask_bit hmask
      have fin : ∀ (pre : List Item),
          (∀ s fb, Inv K s → fb.length = 16 → Loaded s fb → ∀ (x : List Item) (Q : Post),
            (∀ s', Inv K s' → s'.w = s.w → Loaded s' (maskBytes fb mask) → wp E gs x 0 Q s') →
            wp E gs (pre ++ x) 0 Q s) →
          GenT (if ref.length < 16 then abort else
              cmp128 (eqJop m) .r1 (BitVec.ofNat 64 (leNat ((maskBytes (ref.take 16) mask).take 8)))
                (BitVec.ofNat 64 (leNat ((maskBytes (ref.take 16) mask).drop 8))))
            (fun _ x => m.op = .eq ∧ 16 ≤ ref.length ∧ plen ≤ 8 * 16 ∧
              ∀ s fb, Inv K s → fb.length = 16 → Loaded s fb →
                wp E gs (pre ++ x) 0 (mpost K (Spec.samePrefix plen fb ref != m.negate) s.w) s) := by
        intro pre hpre
        by_cases hl : ref.length < 16
        · rw [if_pos hl]; exact GenT.abort _
        · rw [if_neg hl]
          refine (cmp128_gen (E := E) (gs := gs) (K := K) m _ _).mono ?_
          intro _ x hx
          refine ⟨hop, by omega, hple, ?_⟩
          intro s fb hs hfl hld
          refine hpre s fb hs hfl hld x _ ?_
          intro s' hs' hw hld'
          have hrl : (ref.take 16).length = 16 := by simp; omega
          have hml' : (maskBytes fb mask).length = 16 := by rw [maskBytes_length (by omega)]; exact hfl
          have := hx s' _ _ hs' hld'.1 (hld'.2 hml')
          have hi : (BitVec.ofNat 64 (leNat ((maskBytes fb mask).take 8)) =
              BitVec.ofNat 64 (leNat ((maskBytes (ref.take 16) mask).take 8)) ∧
              BitVec.ofNat 64 (leNat ((maskBytes fb mask).drop 8)) =
              BitVec.ofNat 64 (leNat ((maskBytes (ref.take 16) mask).drop 8))) ↔
              Spec.samePrefix plen fb ref = true := by
            have hml2 : (maskBytes (ref.take 16) mask).length = 16 := by
              rw [maskBytes_length (by omega)]; exact hrl
            rw [leNat8_inj (by simp only [List.length_take]; omega) (by simp only [List.length_take]; omega),
              leNat8_inj (by simp only [List.length_drop]; omega) (by simp only [List.length_drop]; omega), split8,
              mask_prefix hmask hfl hrl, samePrefix_take hple]
          simp only [hi] at this
          rw [hw] at this
          simpa using this
      by_cases hm : (mask[15]?).getD 0 ≠ 0xff
      · rw [if_pos hm]
        refine .thenEmits (.thenEmit (.thenEmits (.thenEmit ?_)))
        have := fin ((imm64 .r3 .r4 (BitVec.ofNat 64 (leNat (mask.take 8)))).map it ++
          it (.alu true .and .r1 (.x .r3)) ::
          ((imm64 .r3 .r4 (BitVec.ofNat 64 (leNat (mask.drop 8)))).map it ++
          [it (.alu true .and Reg.r1.succ (.x .r3))])) ?_
        · simpa only [List.append_assoc, List.cons_append, List.nil_append] using this
        · intro s fb hs hfl hld x Q hx
          simp only [List.append_assoc, List.cons_append, List.nil_append]
          refine wp_imm64 hs trivial trivial (by simp) ?_
          intro s1 h1 hw1 h13 h1o
          refine wp_alu (v := .sc (BitVec.ofNat 64 (leNat ((maskBytes fb mask).take 8)))) (by simp) ?_ ?_
          · simp only [srcVal, h13, h1o .r1 (by simp) (by simp), hld.1, aluVal, alu64]
            rw [bv64_and, leNat_and (by simp only [List.length_take]; omega), maskBytes_take]
          refine wp_imm64 (h1.set _ trivial) trivial trivial (by simp) ?_
          intro s2 h2 hw2 h23 h2o
          refine wp_alu (v := .sc (BitVec.ofNat 64 (leNat ((maskBytes fb mask).drop 8)))) (by simp [Reg.succ]) ?_ ?_
          · simp only [srcVal, h23, Reg.succ, h2o .r2 (by simp) (by simp), ne_eq, reduceCtorEq,
              not_false_eq_true, St.set_other, h1o .r2 (by simp) (by simp), hld.2 hfl, aluVal, alu64]
            rw [bv64_and, leNat_and (by simp only [List.length_drop]; omega), maskBytes_drop]
          refine hx _ (h2.set _ trivial) (by simp [hw2, hw1]) ⟨?_, ?_⟩
          · simp only [Reg.succ, ne_eq, reduceCtorEq, not_false_eq_true, St.set_other,
              h2o .r1 (by simp) (by simp), St.set_same]
          · intro _; simp [Reg.succ]
      · rw [if_neg hm]
        refine (GenT.pure _).then ?_
        rintro _ _ ⟨rfl, rfl⟩
        refine fin [] ?_
        intro s fb hs hfl hld x Q hx
        simp only [ne_eq, Decidable.not_not] at hm
        have hfull : plen = 8 * 16 := by
          have h0 := hbit 15 (by omega) 0 (by omega)
          simp only [Spec.byteAt, hm] at h0
          have h1 : (0xff : Byte).getLsbD 0 = true := by decide
          rw [h1] at h0
          simp at h0
          omega
        refine hx s hs rfl ?_
        rw [maskBytes_full hmask hfull hfl]
        exact hld
  · unfold cmpMasked
    rw [if_pos (by simpa using hop)]
    exact GenT.fail _ _

/-- Comparison with a range (32-bit). -/
theorem cmpRange_gen (m : Matcher) (lo hi : Nat) (reg : Reg) (hlo : lo < 2 ^ 32) (hhi : hi < 2 ^ 32) :
    GenT (cmpRange m lo hi reg) (fun _ x => ∀ s (n : Nat), Inv K s → n < 2 ^ 32 →
      s.r reg = .sc (BitVec.ofNat 64 n) →
      wp E gs x 0 (mpost K (decide (lo ≤ n ∧ n ≤ hi) != m.negate) s.w) s) := by
  have hsx : ∀ v : Nat, v < 2 ^ 32 →
      (((BitVec.ofNat 32 v).signExtend 64).setWidth 32).toNat = v := by
    intro v hv
    have : ((BitVec.ofNat 32 v).signExtend 64).setWidth 32 = BitVec.ofNat 32 v := by
      apply BitVec.eq_of_getLsbD_eq
      intro i hi
      simp [BitVec.getLsbD_signExtend, hi]
      omega
    rw [this]
    simp only [BitVec.toNat_ofNat]
    omega
  have hnx : ∀ n : Nat, n < 2 ^ 32 → ((BitVec.ofNat 64 n).setWidth 32).toNat = n := by
    intro n hn
    simp only [BitVec.toNat_setWidth, BitVec.toNat_ofNat]
    omega
  unfold cmpRange
  cases hneg : m.negate with
  | true =>
    simp only [if_true]
    refine .lastJmp (.lastJmp (.lastNext ?_))
    intro s n hs hn hr
    simp only [Insn.setOff]
    refine wp_jmp (b := decide (n < lo)) ?_ (by simp) ?_ ?_
    · rw [hr]; simp only [srcVal, condVal, Cond.holds, hnx n hn, hsx lo hlo]
    · intro h
      simp only [decide_eq_true_eq] at h
      exact ⟨by simp, hs, rfl, by simp; omega⟩
    · intro h
      simp only [decide_eq_false_iff_not] at h
      refine wp_jmp (b := decide (hi < n)) ?_ (by simp) ?_ ?_
      · rw [hr]; simp only [srcVal, condVal, Cond.holds, hnx n hn, hsx hi hhi]
      · intro h'
        simp only [decide_eq_true_eq] at h'
        exact ⟨by simp, hs, rfl, by simp; omega⟩
      · intro h'
        simp only [decide_eq_false_iff_not] at h'
        exact wp_jaN ⟨hs, rfl, by simp; omega⟩
  | false =>
    simp only [Bool.false_eq_true, if_false]
    refine .thenNext (.lastNext ?_)
    intro s n hs hn hr
    refine wp_jmpN (b := decide (n < lo)) ?_ ?_ ?_
    · rw [hr]; simp only [srcVal, condVal, Cond.holds, hnx n hn, hsx lo hlo]
    · intro h
      simp only [decide_eq_true_eq] at h
      exact ⟨hs, rfl, by simp; omega⟩
    · intro h
      simp only [decide_eq_false_iff_not] at h
      refine wp_cmpN hs rfl hr rfl ?_
      rw [if_neg (by simp), hnx n hn, hsx hi hhi]
      simp only [Cond.holds]
      rw [Bool.eq_iff_iff]
      simp
      omega

/-- Comparison of flags. -/
theorem cmpBitfield_gen (m : Matcher) (flags : Byte) :
    GenT (cmpBitfield m flags.toNat .r1) (fun _ x => (m.op = .any ∨ m.op = .all) ∧
      ∀ s (f : Byte), Inv K s → s.r .r1 = .sc (BitVec.ofNat 64 f.toNat) →
      wp E gs x 0 (mpost K ((if m.op = .any then decide (f &&& flags ≠ 0)
        else decide (f &&& flags = flags)) != m.negate) s.w) s) := by
  have hfl := flags.isLt
  have hsx : ((BitVec.ofNat 32 flags.toNat).signExtend 64) = BitVec.ofNat 64 flags.toNat := by
    apply BitVec.eq_of_toNat_eq
    rw [sext_small (by omega), ofNat64_toNat (by omega)]
  have key : ∀ f : Byte, aluVal false .and (.sc (BitVec.ofNat 64 f.toNat))
      (.sc ((BitVec.ofNat 32 flags.toNat).signExtend 64)) =
      some (.sc (BitVec.ofNat 64 (f &&& flags).toNat)) := by
    intro f
    have hf := f.isLt
    have hff := (f &&& flags).isLt
    rw [hsx]
    simp only [aluVal, alu32]
    rw [sw32_64, sw32_64, bv32_and, ← BitVec.toNat_and, sw64_32 (by omega)]
  unfold cmpBitfield
  by_cases hany : m.op = .any
  · rw [if_neg (by simp [hany])]
    have hj : jmpIns m = pure (if m.negate then .ne else .eq) := by simp only [jmpIns, hany]
    rw [hj]
    refine (GenT.pure _).then ?_
    rintro _ _ ⟨rfl, rfl⟩
    refine .thenEmit (.lastNext ?_)
    refine ⟨Or.inl hany, ?_⟩
    intro s f hs hr
    refine wp_alu (by simp) (by rw [hr]; exact key f) ?_
    refine wp_cmpN (va := BitVec.ofNat 64 (f &&& flags).toNat) (hs.set (d := .r1) _ trivial) rfl (by rw [St.set_same]) rfl ?_
    have hff := (f &&& flags).isLt
    simp only [hany, if_true, Bool.false_eq_true, if_false]
    have h0 : f &&& flags = 0#8 ↔ (f &&& flags).toNat = 0 := by
      rw [← BitVec.toNat_inj]; rfl
    have e1 : (BitVec.setWidth 32 (BitVec.ofNat 64 (f &&& flags).toNat)).toNat = (f &&& flags).toNat := by
      simp only [BitVec.toNat_setWidth, BitVec.toNat_ofNat]; omega
    have e2 : (BitVec.setWidth 32 (BitVec.signExtend 64 (BitVec.ofNat 32 0))).toNat = 0 := by decide
    rw [e1, e2]
    cases m.negate <;> by_cases h : (f &&& flags).toNat = 0 <;> simp [Cond.holds, h0, h, h0.mpr]
  · by_cases hall : m.op = .all
    · rw [if_neg (by simp [hall])]
      have hj : jmpIns m = pure (if m.negate then .eq else .ne) := by simp only [jmpIns, hall]
      rw [hj]
      refine (GenT.pure _).then ?_
      rintro _ _ ⟨rfl, rfl⟩
      refine .thenEmit (.lastNext ?_)
      refine ⟨Or.inr hall, ?_⟩
      intro s f hs hr
      refine wp_alu (by simp) (by rw [hr]; exact key f) ?_
      refine wp_cmpN (va := BitVec.ofNat 64 (f &&& flags).toNat) (hs.set (d := .r1) _ trivial) rfl (by rw [St.set_same]) rfl ?_
      have hff := (f &&& flags).isLt
      simp only [hall, Bool.false_eq_true, if_false, reduceCtorEq]
      have h0 : f &&& flags = flags ↔ (f &&& flags).toNat = flags.toNat := by
        rw [BitVec.toNat_inj]
      have e1 : (BitVec.setWidth 32 (BitVec.ofNat 64 (f &&& flags).toNat)).toNat = (f &&& flags).toNat := by
        simp only [BitVec.toNat_setWidth, BitVec.toNat_ofNat]; omega
      have e2 : (BitVec.setWidth 32 (BitVec.signExtend 64 (BitVec.ofNat 32 flags.toNat))).toNat = flags.toNat := by
        rw [hsx]
        simp only [BitVec.toNat_setWidth, BitVec.toNat_ofNat]; omega
      rw [e1, e2]
      cases m.negate <;> by_cases h : (f &&& flags).toNat = flags.toNat <;> simp [Cond.holds, h0, h]
    · rw [if_pos ⟨hany, hall⟩]
      exact GenT.fail _ _

end Bf
