import Verif.Exec.Frame
/-!
# Meaning of the comparison code (`cmp.c`)
-/
namespace Bf

variable {E : Env} {gs : Groups} {K : Frame}

/-- Jump used by equality-like comparisons. -/
def eqJop (m : Matcher) : Cond := if m.negate then .eq else .ne

theorem eqJop_holds (m : Matcher) (a b : Nat) :
    (eqJop m).holds a b = !((decide (a = b)) != m.negate) := by
  unfold eqJop
  cases m.negate <;> simp [Cond.holds]

/-- A comparison with jump to the next rule on mismatch. -/
theorem wp_cmpN {w64 : Bool} {c : Cond} {reg : Reg} {src : Src} {s : St} {va vb : BitVec 64} {b : Bool}
    {w : World} (hs : Inv K s) (hw : s.w = w) (hr : s.r reg = .sc va) (hv : srcVal s src = .sc vb)
    (hc : (if w64 then c.holds va.toNat vb.toNat
      else c.holds (va.setWidth 32).toNat (vb.setWidth 32).toNat) = !b) :
    wp E gs [itN (.jmp w64 c reg src 0)] 0 (mpost K b w) s := by
  refine wp_jmpN (b := !b) ?_ ?_ ?_
  · rw [hr, hv]
    cases w64
    · simp only [Bool.false_eq_true, if_false] at hc
      cases c <;> simp only [condVal, hc]
    · simp only [if_true] at hc
      cases c <;> simp only [condVal, hc]
  · intro h; exact ⟨hs, hw, by simpa using h⟩
  · intro h; exact wp_nil.mpr ⟨hs, hw, by simpa using h⟩

theorem cmpValue_eq (m : Matcher) (ref : List Byte) (size : Nat) (reg : Reg) (h : m.op = .eq) :
    cmpValue m ref size reg = (match size with
      | 1 => do
        let v ← lift (rd ref 0 1)
        emitNext (.jmp true (eqJop m) reg (.k (BitVec.ofNat 32 v)) 0)
      | 2 => do
        let v ← lift (rd ref 0 2)
        emitNext (.jmp true (eqJop m) reg (.k (BitVec.ofNat 32 v)) 0)
      | 4 => do
        let v ← lift (rd ref 0 4)
        emit (mov32i .r2 (BitVec.ofNat 32 v))
        emitNext (.jmp true (eqJop m) reg (.x .r2) 0)
      | 8 => do
        let v ← lift (rd64 ref 0)
        emits (imm64 .r2 .r3 v)
        emitNext (.jmp true (eqJop m) reg (.x .r2) 0)
      | 16 => do
        let lo ← lift (rd64 ref 0)
        let hi ← lift (rd64 ref 8)
        cmp128 (eqJop m) reg lo hi
      | _ => fail .EINVAL) := by
  unfold cmpValue
  simp only [h, ne_eq, not_true_eq_false, if_false, jmpIns]
  rfl

theorem GenT.failIf {α : Type} {c : Prop} [Decidable c] {e : Errno} {g : Gen α}
    {S : α → List Item → Prop} (h : ¬ c → GenT g S) : GenT (if c then Bf.fail e else g) S := by
  by_cases hc : c
  · rw [if_pos hc]; exact GenT.fail _ _
  · rw [if_neg hc]; exact h hc

/-- Comparison of a 1, 2 or 4-byte field. -/
theorem cmpValue_small (m : Matcher) (ref : List Byte) (size : Nat) (reg : Reg)
    (hsz : size = 1 ∨ size = 2 ∨ (size = 4 ∧ reg ≠ .r2)) :
    GenT (cmpValue m ref size reg) (fun _ x => m.op = .eq ∧ size ≤ ref.length ∧
      ∀ s v, Inv K s → s.r reg = .sc v →
        wp E gs x 0 (mpost K (decide (v.toNat = leNat (ref.take size)) != m.negate) s.w) s) := by
  by_cases hop : m.op = .eq
  · rw [cmpValue_eq m ref size reg hop]
    have hlt : ∀ n, leNat (List.take n (List.drop 0 ref)) < 256 ^ n := fun n => leNat_take_lt ref 0 n
    rcases hsz with rfl | rfl | ⟨rfl, hreg⟩
    · refine (GenT.bind (GenT.lift _) (fun v => GenT.emitNext _)).mono ?_
      rintro _ x ⟨v, y, z, rfl, ⟨hv, rfl⟩, rfl⟩
      obtain ⟨h1, rfl⟩ := rd_ok hv
      refine ⟨hop, by omega, ?_⟩
      intro s v hs hr
      have := hlt 1
      refine wp_cmpN hs rfl hr rfl ?_
      rw [if_pos rfl, sext_small (by omega), eqJop_holds]
      rfl
    · refine (GenT.bind (GenT.lift _) (fun v => GenT.emitNext _)).mono ?_
      rintro _ x ⟨v, y, z, rfl, ⟨hv, rfl⟩, rfl⟩
      obtain ⟨h1, rfl⟩ := rd_ok hv
      refine ⟨hop, by omega, ?_⟩
      intro s v hs hr
      have := hlt 2
      refine wp_cmpN hs rfl hr rfl ?_
      rw [if_pos rfl, sext_small (by omega), eqJop_holds]
      rfl
    · refine (GenT.bind (GenT.lift _) (fun v => GenT.bind (GenT.emit _) (fun _ => GenT.emitNext _))).mono ?_
      rintro _ x ⟨v, y, z, rfl, ⟨hv, rfl⟩, _, y', z', rfl, rfl, rfl⟩
      obtain ⟨h1, rfl⟩ := rd_ok hv
      refine ⟨hop, by omega, ?_⟩
      intro s v hs hr
      have := hlt 4
      refine wp_mov32i (by simp) rfl ?_
      refine wp_cmpN (hs.set _ trivial) rfl (by simpa [hreg] using hr) (by simp [srcVal]; rfl) ?_
      rw [if_pos rfl, eqJop_holds]
      simp only [BitVec.toNat_setWidth, BitVec.toNat_ofNat, List.drop_zero] at this ⊢
      have e : leNat (List.take 4 ref) % 2 ^ 32 % 2 ^ 64 = leNat (List.take 4 ref) := by omega
      rw [e]
  · unfold cmpValue
    rw [if_pos (by simpa using hop)]
    exact GenT.fail _ _

theorem imm64_val (v : BitVec 64) :
    (((v >>> 32).setWidth 32).setWidth 64 <<< 32 ||| (v.setWidth 32).setWidth 64) = v := by
  apply BitVec.eq_of_getLsbD_eq
  intro i hi
  simp only [BitVec.getLsbD_or, BitVec.getLsbD_shiftLeft, BitVec.getLsbD_setWidth,
    BitVec.getLsbD_ushiftRight]
  by_cases h : i < 32
  · simp [h, hi]
  · have h1 : i - 32 < 32 := by omega
    have h2 : i - 32 < 64 := by omega
    have h3 : 32 + (i - 32) = i := by omega
    simp [h, hi, h1, h2, h3]

/-- Building a 64-bit constant. -/
theorem wp_imm64 {d sc : Reg} {v : BitVec 64} {x : List Item} {Q : Post} {s : St} (hs : Inv K s)
    (hd : Free K d) (hsc : Free K sc) (hne : d ≠ sc)
    (h : ∀ s', Inv K s' → s'.w = s.w → s'.r d = .sc v →
      (∀ r, r ≠ d → r ≠ sc → s'.r r = s.r r) → wp E gs x 0 Q s') :
    wp E gs ((imm64 d sc v).map it ++ x) 0 Q s := by
  have hd10 : d ≠ .r10 := by intro e; subst e; exact hd
  have hsc10 : sc ≠ .r10 := by intro e; subst e; exact hsc
  have hne' : sc ≠ d := fun e => hne e.symm
  simp only [imm64, List.map_cons, List.map_nil, List.cons_append, List.nil_append]
  refine wp_mov32i hd10 rfl ?_
  refine wp_alu (v := .sc (((v >>> 32).setWidth 32).setWidth 64 <<< 32)) hd10 ?_ ?_
  · simp [aluVal, srcVal, alu64]
  refine wp_mov32i hsc10 rfl ?_
  refine wp_alu (v := .sc v) hd10 ?_ ?_
  · simp only [srcVal, St.set_same, St.set_other _ _ _ _ hne, St.set_other _ _ _ _ hne', aluVal, alu64]
    rw [imm64_val]
  · refine h _ ((((hs.set _ hd).set _ hd).set _ hsc).set _ hd) rfl (by simp) ?_
    intro r h1 h2
    simp [h1, h2]

/-- Comparison of two 64-bit halves. -/
theorem cmp128_gen (m : Matcher) (lo hi : BitVec 64) :
    GenT (cmp128 (eqJop m) .r1 lo hi) (fun _ x =>
      ∀ s a b, Inv K s → s.r .r1 = .sc a → s.r .r2 = .sc b →
        wp E gs x 0 (mpost K (decide (a = lo ∧ b = hi) != m.negate) s.w) s) := by
  unfold cmp128
  refine .thenEmits ?_
  have hsucc : Reg.r1.succ = .r2 := rfl
  rw [hsucc]
  cases hneg : m.negate with
  | false =>
    have hj : eqJop m = .ne := by simp [eqJop, hneg]
    rw [if_pos hj]
    refine .thenNext (.thenEmits (.lastNext ?_))
    intro s a b hs ha hb
    refine wp_imm64 hs trivial trivial (by simp) ?_
    intro s1 h1 hw1 h13 h1o
    refine wp_jmpN (b := decide (a ≠ lo)) ?_ ?_ ?_
    · rw [h1o .r1 (by simp) (by simp), ha]
      simp [srcVal, h13, condVal, Cond.holds, BitVec.toNat_inj]
    · intro h
      refine ⟨h1, hw1, ?_⟩
      simp only [ne_eq, decide_not, Bool.not_eq_true', decide_eq_false_iff_not] at h
      simp [h]
    · intro h
      simp only [ne_eq, decide_not, Bool.not_eq_false', decide_eq_true_eq] at h
      refine wp_imm64 h1 trivial trivial (by simp) ?_
      intro s2 h2 hw2 h23 h2o
      refine wp_cmpN h2 (by rw [hw2, hw1]) (va := b) (vb := hi) ?_ ?_ ?_
      · rw [h2o .r2 (by simp) (by simp), h1o .r2 (by simp) (by simp), hb]
      · simp [srcVal, h23]
      · simp [Cond.holds, BitVec.toNat_inj, h]
  | true =>
    have hj : eqJop m = .eq := by simp [eqJop, hneg]
    rw [if_neg (by rw [hj]; simp)]
    refine .lastJmp (.thenEmits (.lastJmp (.lastNext ?_)))
    intro s a b hs ha hb
    refine wp_imm64 hs trivial trivial (by simp) ?_
    intro s1 h1 hw1 h13 h1o
    simp only [Insn.setOff]
    refine wp_jmp (b := decide (a ≠ lo)) ?_ ?_ ?_ ?_
    · rw [h1o .r1 (by simp) (by simp), ha]
      simp [srcVal, h13, condVal, Cond.holds, BitVec.toNat_inj]
    · simp [imm64]
    · intro h
      simp only [ne_eq, decide_not, Bool.not_eq_true', decide_eq_false_iff_not] at h
      refine ⟨?_, h1, hw1, ?_⟩
      · simp [imm64]
      · simp [h]
    · intro h
      simp only [ne_eq, decide_not, Bool.not_eq_false', decide_eq_true_eq] at h
      refine wp_imm64 h1 trivial trivial (by simp) ?_
      intro s2 h2 hw2 h23 h2o
      refine wp_jmp (b := decide (b ≠ hi)) ?_ ?_ ?_ ?_
      · rw [h2o .r2 (by simp) (by simp), h1o .r2 (by simp) (by simp), hb]
        simp [srcVal, h23, condVal, Cond.holds, BitVec.toNat_inj]
      · simp
      · intro h'
        simp only [ne_eq, decide_not, Bool.not_eq_true', decide_eq_false_iff_not] at h'
        refine ⟨by simp, h2, by rw [hw2, hw1], by simp [h']⟩
      · intro h'
        simp only [ne_eq, decide_not, Bool.not_eq_false', decide_eq_true_eq] at h'
        exact wp_jaN ⟨h2, by rw [hw2, hw1], by simp [h, h']⟩

end Bf
