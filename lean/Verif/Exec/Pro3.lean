import Verif.Exec.Pro2
/-!
# Prologue: following IPv6 extension headers

Nothing here models code of the repository.
-/
namespace Bf

variable {E : Env}

theorem slice2_none {off : BitVec 32} (h : Spec.bytesAt E.pkt off.toNat 2 = none) : slice2 E off = none := by
  unfold Spec.bytesAt at h
  split at h
  · cases h
  · next hn =>
    unfold slice2
    have hl : ((E.pkt.drop off.toNat).take 2).length < 2 := by
      rw [List.length_take, List.length_drop]; omega
    generalize (E.pkt.drop off.toNat).take 2 = l at hl
    match l, hl with
    | [], _ => rfl
    | [_], _ => rfl

theorem slice2_some {off : BitVec 32} {b : List Byte} (h : Spec.bytesAt E.pkt off.toNat 2 = some b) :
    slice2 E off = some (Spec.byteAt b 0, Spec.byteAt b 1) := by
  unfold Spec.bytesAt at h
  split at h
  · next hn =>
    cases h
    unfold slice2
    have hl : ((E.pkt.drop off.toNat).take 2).length = 2 := by
      rw [List.length_take, List.length_drop]; omega
    generalize (E.pkt.drop off.toNat).take 2 = l at hl
    match l, hl with
    | [a, b], _ => rfl
  · cases h

theorem extLen_le {nh hl : Byte} {len : Nat} (h : Spec.extLen nh hl = some len) : len ≤ 2048 := by
  have : hl.toNat < 256 := hl.isLt
  unfold Spec.extLen at h
  split at h
  · cases h; omega
  · split at h
    · cases h; omega
    · split at h
      · cases h; omega
      · cases h

theorem extLen_opt {nh hl : Byte} (h : nh = 0 ∨ nh = 43 ∨ nh = 60 ∨ nh = 135) :
    Spec.extLen nh hl = some ((hl.toNat + 1) * 8) := by unfold Spec.extLen; rw [if_pos h]

theorem extLen_ah {nh hl : Byte} (h : nh = 51) : Spec.extLen nh hl = some ((hl.toNat + 2) * 4) := by
  subst h; rfl

theorem extLen_frag {nh hl : Byte} (h : nh = 44) : Spec.extLen nh hl = some (hl.toNat + 8) := by
  subst h; rfl

theorem extLen_none {nh hl : Byte} (h1 : ¬(nh = 0 ∨ nh = 43 ∨ nh = 60 ∨ nh = 135)) (h2 : nh ≠ 51)
    (h3 : nh ≠ 44) : Spec.extLen nh hl = none := by
  unfold Spec.extLen; rw [if_neg h1, if_neg h2, if_neg h3]

theorem walk_off (pkt : List Byte) (rec_ : Bool) (n : Nat) (nh : Byte) (off : Nat) (seen : List Byte) :
    (Spec.walk pkt rec_ n nh off seen).2.1 ≤ off + n * 2048 := by
  induction n generalizing nh off seen with
  | zero => simp [Spec.walk]
  | succ n ih =>
    simp only [Spec.walk]
    split
    · show off ≤ _; omega
    · split
      · next len hlen =>
        have := extLen_le hlen
        refine Nat.le_trans (ih _ _ _) ?_
        omega
      · show off ≤ _; omega

/-- parse_ipv6_eh.bpf.c:23-52 follows the extension headers. -/
theorem parseEh_walk (n : Nat) (nh : Byte) (off : BitVec 32) (seen : List Byte)
    (h : off.toNat + n * 2048 < 4294967296) :
    (parseEh E n nh off).1 = (Spec.walk E.pkt false n nh off.toNat seen).1 ∧
    (parseEh E n nh off).2.toNat = (Spec.walk E.pkt false n nh off.toNat seen).2.1 := by
  induction n generalizing nh off seen with
  | zero => simp [parseEh, Spec.walk]
  | succ n ih =>
    simp only [parseEh, Spec.walk]
    cases hb : Spec.bytesAt E.pkt off.toNat 2 with
    | none => rw [slice2_none hb]; simp
    | some b =>
      rw [slice2_some hb]
      simp only
      have step : ∀ d, d ≤ 2048 → (parseEh E n (Spec.byteAt b 0) (off + BitVec.ofNat 32 d)).1 =
          (Spec.walk E.pkt false n (Spec.byteAt b 0) (off.toNat + d) (nh :: seen)).1 ∧
          (parseEh E n (Spec.byteAt b 0) (off + BitVec.ofNat 32 d)).2.toNat =
          (Spec.walk E.pkt false n (Spec.byteAt b 0) (off.toNat + d) (nh :: seen)).2.1 := by
        intro d hd
        have e : (off + BitVec.ofNat 32 d).toNat = off.toNat + d := by
          rw [BitVec.toNat_add, BitVec.toNat_ofNat]; omega
        have := ih (Spec.byteAt b 0) (off + BitVec.ofNat 32 d) (nh :: seen) (by rw [e]; omega)
        rw [e] at this
        exact this
      have hh : (Spec.byteAt b 1).toNat < 256 := (Spec.byteAt b 1).isLt
      by_cases h1 : nh = 0 ∨ nh = 60 ∨ nh = 43 ∨ nh = 135
      · rw [if_pos h1, extLen_opt (by rcases h1 with h | h | h | h <;> simp [h])]
        exact step _ (by omega)
      · rw [if_neg h1]
        by_cases h2 : nh = 51
        · rw [if_pos h2, extLen_ah h2]; exact step _ (by omega)
        · rw [if_neg h2]
          by_cases h3 : nh = 44
          · rw [if_pos h3, extLen_frag h3]; exact step _ (by omega)
          · rw [if_neg h3, extLen_none (fun hc => h1 (by rcases hc with h | h | h | h <;> simp [h])) h2 h3]
            simp

/-- Bits of the extension headers found. -/
def maskOf : List Byte → Byte
  | [] => 0
  | e :: es => maskOf es ||| ehBit e

/-- parse_ipv6_nh.bpf.c:38-84 follows and records the extension headers. -/
theorem parseNh_walk (n : Nat) (nh : Byte) (off : BitVec 32) (seen : List Byte)
    (h : off.toNat + n * 2048 < 4294967296) :
    (parseNh E n nh off (maskOf seen)).1 = (Spec.walk E.pkt true n nh off.toNat seen).1 ∧
    (parseNh E n nh off (maskOf seen)).2.1.toNat = (Spec.walk E.pkt true n nh off.toNat seen).2.1 ∧
    (parseNh E n nh off (maskOf seen)).2.2 = maskOf (Spec.walk E.pkt true n nh off.toNat seen).2.2 := by
  induction n generalizing nh off seen with
  | zero => simp [parseNh, Spec.walk]
  | succ n ih =>
    simp only [parseNh, Spec.walk]
    cases hb : Spec.bytesAt E.pkt off.toNat 2 with
    | none => rw [slice2_none hb]; simp
    | some b =>
      rw [slice2_some hb]
      simp only
      have step : ∀ d, d ≤ 2048 →
          (parseNh E n (Spec.byteAt b 0) (off + BitVec.ofNat 32 d) (maskOf seen ||| ehBit nh)).1 =
          (Spec.walk E.pkt true n (Spec.byteAt b 0) (off.toNat + d) (nh :: seen)).1 ∧
          (parseNh E n (Spec.byteAt b 0) (off + BitVec.ofNat 32 d) (maskOf seen ||| ehBit nh)).2.1.toNat =
          (Spec.walk E.pkt true n (Spec.byteAt b 0) (off.toNat + d) (nh :: seen)).2.1 ∧
          (parseNh E n (Spec.byteAt b 0) (off + BitVec.ofNat 32 d) (maskOf seen ||| ehBit nh)).2.2 =
          maskOf (Spec.walk E.pkt true n (Spec.byteAt b 0) (off.toNat + d) (nh :: seen)).2.2 := by
        intro d hd
        have e : (off + BitVec.ofNat 32 d).toNat = off.toNat + d := by
          rw [BitVec.toNat_add, BitVec.toNat_ofNat]; omega
        have := ih (Spec.byteAt b 0) (off + BitVec.ofNat 32 d) (nh :: seen) (by rw [e]; omega)
        rw [e] at this
        exact this
      have hh : (Spec.byteAt b 1).toNat < 256 := (Spec.byteAt b 1).isLt
      by_cases h2 : nh = 51
      · rw [if_pos (by simp [h2]), if_pos h2, extLen_ah h2]
        exact step _ (by omega)
      · by_cases h3 : nh = 44
        · rw [if_pos (by simp [h3]), if_neg h2, if_pos h3, extLen_frag h3]
          exact step _ (by omega)
        · by_cases h1 : nh = 0 ∨ nh = 43 ∨ nh = 60 ∨ nh = 135
          · rw [if_pos (by rcases h1 with h | h | h | h <;> simp [h]), if_neg h2, if_neg h3, extLen_opt h1]
            exact step _ (by omega)
          · rw [if_neg (by rintro (h | h | h | h | h | h) <;> simp_all), extLen_none h1 h2 h3]
            simp

/-- The mask tells which extension headers were found. -/
theorem maskOf_any (es : List Byte) (n : Nat) (k : BitVec 32) (hk : ehMask n = some k) :
    (maskOf es &&& k.setWidth 8 = 0) ↔ (es.any fun e => decide (e.toNat = n)) = false := by
  have one : ∀ e : Byte, (ehBit e &&& k.setWidth 8 = 0) ↔ e.toNat ≠ n := by
    intro e
    have cs : (n = 0 ∧ k = 1) ∨ (n = 43 ∧ k = 2) ∨ (n = 44 ∧ k = 4) ∨ (n = 51 ∧ k = 8) ∨
        (n = 60 ∧ k = 16) ∨ (n = 135 ∧ k = 32) := by
      unfold ehMask at hk
      repeat' split at hk
      all_goals first | (cases hk; simp_all) | cases hk
    revert e
    rcases cs with ⟨rfl, rfl⟩ | ⟨rfl, rfl⟩ | ⟨rfl, rfl⟩ | ⟨rfl, rfl⟩ | ⟨rfl, rfl⟩ | ⟨rfl, rfl⟩ <;> decide
  induction es with
  | nil => simp [maskOf]
  | cons e es ih =>
    simp only [maskOf, List.any_cons, Bool.or_eq_false_iff, decide_eq_false_iff_not]
    have one' : ¬ e.toNat = n ↔ ehBit e &&& k.setWidth 8 = 0 := (one e).symm
    refine Iff.trans ?_ (and_congr one'.symm ih)
    constructor
    · intro h
      constructor
      · apply BitVec.eq_of_getLsbD_eq
        intro j hj
        have := congrArg (fun b => b.getLsbD j) h
        simp only [BitVec.getLsbD_and, BitVec.getLsbD_or] at this ⊢
        cases h1 : (ehBit e).getLsbD j <;> simp_all
      · apply BitVec.eq_of_getLsbD_eq
        intro j hj
        have := congrArg (fun b => b.getLsbD j) h
        simp only [BitVec.getLsbD_and, BitVec.getLsbD_or] at this ⊢
        cases h1 : (maskOf es).getLsbD j <;> simp_all
    · rintro ⟨h1, h2⟩
      apply BitVec.eq_of_getLsbD_eq
      intro j hj
      have e1 := congrArg (fun b => b.getLsbD j) h1
      have e2 := congrArg (fun b => b.getLsbD j) h2
      simp only [BitVec.getLsbD_and, BitVec.getLsbD_or] at e1 e2 ⊢
      rw [Bool.and_or_distrib_right, e1, e2]
      simp

end Bf
