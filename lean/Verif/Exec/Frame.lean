import Verif.Exec.Wp
/-!
# Invariant kept while rules are executed

After the prologue the context of the program (`struct bf_runtime` below the scratch area) does not
change any more: `Frame.base` is the stack at that point.  Nothing here models code of the repository.
-/
namespace Bf

/-- What is fixed after the prologue. -/
structure Frame where
  base : Stack
  r7 : BitVec 64
  r8 : BitVec 64
  /-- `R6` permanently holds the context (`sock_addr` programs) -/
  sa : Bool

/-- Invariant between the prologue and the end of the program. -/
structure Inv (K : Frame) (s : St) : Prop where
  r10 : s.r .r10 = .ptr .stack 0
  r7 : s.r .r7 = .sc K.r7
  r8 : s.r .r8 = .sc K.r8
  r6 : K.sa = true → s.r .r6 = .ptr .ctx 0
  stk : ∀ o, o < -64 → s.stk o = K.base o
  scr : ∀ o, -64 ≤ o → o < 0 → ∃ b, s.stk o = .byte b

/-- Registers rules may use freely. -/
def Free (K : Frame) : Reg → Prop
  | .r7 | .r8 | .r10 => False
  | .r6 => K.sa = false
  | _ => True

@[simp] theorem St.set_same (s : St) (d : Reg) (v : Val) : (s.set d v).r d = v := by simp [St.set]
@[simp] theorem St.set_other (s : St) (d r : Reg) (v : Val) (h : r ≠ d) : (s.set d v).r r = s.r r := by
  simp [St.set, h]
@[simp] theorem St.set_stk (s : St) (d : Reg) (v : Val) : (s.set d v).stk = s.stk := rfl
@[simp] theorem St.set_w (s : St) (d : Reg) (v : Val) : (s.set d v).w = s.w := rfl

theorem Inv.set {K : Frame} {s : St} (h : Inv K s) {d : Reg} (v : Val) (hd : Free K d) :
    Inv K (s.set d v) := by
  have h7 : Reg.r7 ≠ d := by intro e; subst e; exact hd
  have h8 : Reg.r8 ≠ d := by intro e; subst e; exact hd
  have h10 : Reg.r10 ≠ d := by intro e; subst e; exact hd
  refine ⟨by rw [St.set_other _ _ _ _ h10]; exact h.r10, by rw [St.set_other _ _ _ _ h7]; exact h.r7,
    by rw [St.set_other _ _ _ _ h8]; exact h.r8, ?_, h.stk, h.scr⟩
  intro hsa
  have h6 : Reg.r6 ≠ d := by
    intro e; subst e
    simp only [Free] at hd
    rw [hsa] at hd; cases hd
  rw [St.set_other _ _ _ _ h6]; exact h.r6 hsa

theorem Inv.setW {K : Frame} {s : St} (h : Inv K s) (w : World) : Inv K { s with w := w } :=
  ⟨h.r10, h.r7, h.r8, h.r6, h.stk, h.scr⟩

/-- After a call. -/
theorem Inv.ret {K : Frame} {s : St} (h : Inv K s) (v : Val) : Inv K (s.ret v) :=
  ⟨h.r10, h.r7, h.r8, h.r6, h.stk, h.scr⟩

@[simp] theorem St.ret_r0 (s : St) (v : Val) : (s.ret v).r .r0 = v := rfl
@[simp] theorem St.ret_r6 (s : St) (v : Val) : (s.ret v).r .r6 = s.r .r6 := rfl
@[simp] theorem St.ret_r7 (s : St) (v : Val) : (s.ret v).r .r7 = s.r .r7 := rfl
@[simp] theorem St.ret_r8 (s : St) (v : Val) : (s.ret v).r .r8 = s.r .r8 := rfl
@[simp] theorem St.ret_r9 (s : St) (v : Val) : (s.ret v).r .r9 = s.r .r9 := rfl
@[simp] theorem St.ret_r10 (s : St) (v : Val) : (s.ret v).r .r10 = s.r .r10 := rfl
@[simp] theorem St.ret_stk (s : St) (v : Val) : (s.ret v).stk = s.stk := rfl
@[simp] theorem St.ret_w (s : St) (v : Val) : (s.ret v).w = s.w := rfl

theorem Inv.get {K : Frame} {s : St} (h : Inv K s) {o : Int} {n : Nat} (hn : o + n ≤ -64) :
    s.stk.get o n = K.base.get o n :=
  Stack.get_congr fun x _ hx => h.stk x (by omega)

/-- Loads from the context of the program. -/
theorem Inv.load {K : Frame} {s : St} (h : Inv K s) {E : Env} {o : Int} {n : Nat}
    (hlo : -248 ≤ o) (hn : o + n ≤ -64) :
    load E s (s.r .r10) o n = valOf (K.base.get o n) := by
  rw [h.r10]
  simp only [Bf.load, stackSize, Int.zero_add]
  rw [if_pos (by omega), h.get hn]

/-- Overwriting part of the scratch area with bytes. -/
theorem Inv.put {K : Frame} {s : St} (h : Inv K s) {o : Int} (bs : List Byte)
    (hlo : -64 ≤ o) : Inv K { s with stk := s.stk.put o (bs.map .byte) } := by
  refine ⟨h.r10, h.r7, h.r8, h.r6, ?_, ?_⟩
  · intro x hx
    rw [← h.stk x hx]
    apply Stack.put_out
    omega
  · intro x h1 h2
    show ∃ b, s.stk.put o (bs.map .byte) x = .byte b
    by_cases hin : o ≤ x ∧ x < o + bs.length
    · obtain ⟨k, hk⟩ : ∃ k : Nat, x = o + k := ⟨(x - o).toNat, by omega⟩
      subst hk
      have hk2 : k < (bs.map Cell.byte).length := by simp; omega
      rw [Stack.put_in s.stk o _ k hk2, List.getElem_map]
      exact ⟨_, rfl⟩
    · rw [Stack.put_out]
      · exact h.scr x h1 h2
      · simp only [List.length_map]; omega

/-- A store on the stack. -/
theorem store_stack {s : St} {E : Env} {o : Int} {n : Nat} (v : Val) (cs : List Cell)
    (hlo : -248 ≤ o) (hn : o + n ≤ 0) (hc : cellsOf v n = some cs) :
    store E s (.ptr .stack 0) o n v = some { s with stk := s.stk.put o cs } := by
  have hc' : -stackSize ≤ o ∧ o + (n : Int) ≤ 0 := by
    have : stackSize = 248 := rfl
    omega
  simp only [store, Int.zero_add, hc', and_self, if_true, hc, Option.map_some]

/-- A store in the scratch area. -/
theorem Inv.storeScr {K : Frame} {s : St} (h : Inv K s) {E : Env} {o : Int} {n : Nat} (v : BitVec 64)
    (hlo : -64 ≤ o) (hn : o + n ≤ 0) :
    store E s (s.r .r10) o n (.sc v) =
      some { s with stk := s.stk.put o ((leBytes n v.toNat).map .byte) } := by
  rw [h.r10]
  exact store_stack _ _ (by omega) hn rfl

/-- Outcome of matcher code: fall through if the matcher holds, next rule otherwise. -/
def mpost (K : Frame) (b : Bool) (w : World) : Post where
  fall := fun s => Inv K s ∧ s.w = w ∧ b = true
  next := fun s => Inv K s ∧ s.w = w ∧ b = false
  exit := fun _ _ => False

/-- Code of a matcher whose meaning is `b`. -/
def MatchT (E : Env) (gs : Groups) (K : Frame) (b : World → Bool × World) (x : List Item) : Prop :=
  ∀ s, Inv K s → wp E gs x 0 (mpost K (b s.w).1 (b s.w).2) s

theorem MatchT.nil (E : Env) (gs : Groups) (K : Frame) : MatchT E gs K (fun w => (true, w)) [] :=
  fun s h => wp_nil.mpr ⟨h, rfl, rfl⟩

theorem MatchT.append {E : Env} {gs : Groups} {K : Frame} {a b : World → Bool × World}
    {x y : List Item} (hx : MatchT E gs K a x) (hy : MatchT E gs K b y) :
    MatchT E gs K (fun w => if (a w).1 then b (a w).2 else (false, (a w).2)) (x ++ y) := by
  intro s hs
  apply wp_append
  refine wp_mono (hx s hs) ?_ ?_ ?_
  · intro s' h'
    obtain ⟨h1, h2, h3⟩ := h'
    have := hy s' h1
    simp only [h3, if_true]
    rw [h2] at this
    exact this
  · intro s' h'
    obtain ⟨h1, h2, h3⟩ := h'
    refine ⟨h1, ?_, ?_⟩ <;> simp [h3, h2]
  · intro v w h; exact h

/-! ### Arithmetic facts -/

theorem sext_small {n : Nat} (h : n < 2147483648) : ((BitVec.ofNat 32 n).signExtend 64).toNat = n := by
  have hm : (BitVec.ofNat 32 n).msb = false := by
    rw [BitVec.msb_eq_false_iff_two_mul_lt]
    simp only [BitVec.toNat_ofNat]
    omega
  rw [BitVec.signExtend_eq_setWidth_of_msb_false hm]
  simp only [BitVec.toNat_setWidth, BitVec.toNat_ofNat]
  omega

theorem sext_large {n : Nat} (h1 : 2147483648 ≤ n) (h2 : n < 4294967296) :
    2 ^ 63 ≤ ((BitVec.ofNat 32 n).signExtend 64).toNat := by
  have hm : (BitVec.ofNat 32 n).msb = true := by
    rw [BitVec.msb_eq_true_iff_two_mul_ge]
    simp only [BitVec.toNat_ofNat]
    omega
  rw [BitVec.toNat_signExtend, hm]
  simp only [if_true, BitVec.toNat_setWidth, BitVec.toNat_ofNat]
  omega

theorem leNat_take_lt (bs : List Byte) (o n : Nat) : leNat ((bs.drop o).take n) < 256 ^ n := by
  refine Nat.lt_of_lt_of_le (leNat_lt _) ?_
  apply Nat.pow_le_pow_right (by omega)
  rw [List.length_take]
  exact Nat.min_le_left _ _

theorem rd_ok {p : List Byte} {o n v : Nat} (h : rd p o n = .ok v) :
    o + n ≤ p.length ∧ v = leNat ((p.drop o).take n) := by
  unfold rd at h
  split at h
  · cases h; exact ⟨by assumption, rfl⟩
  · cases h

theorem ofNat64_toNat {n : Nat} (h : n < 2 ^ 64) : (BitVec.ofNat 64 n).toNat = n := by
  simp only [BitVec.toNat_ofNat]; omega

end Bf
