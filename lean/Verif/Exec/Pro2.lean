import Verif.Exec.Pro
/-!
# Prologue: link layer header

Nothing here models code of the repository.
-/
namespace Bf

variable {E : Env} {gs : Groups} {C : Cfg} {r7 r8 : BitVec 64} {s : St} {i : Spec.Input} {eh : Byte} {m : Stack}

/-- The packet can be accessed, and its network header is at offset `off`. -/
structure Dyn (m : Stack) (off : Nat) : Prop where
  dyn : m.get (ctx oDynptr) 16 = dynCells
  l3off : valOf (m.get (ctx oL3Off) 4) = some (.sc (BitVec.ofNat 64 off))

/-- The link header was found and not copied. -/
structure L2Cap (m : Stack) : Prop where
  hdr : valOf (m.get (ctx oL2Hdr) 8) = some (.ptr (.pkt 0 14) 0)
  size : m (ctx oL2Size) = .byte 14

theorem Dyn.put {off : Nat} (h : Dyn m off) {k : Nat} {cs : List Cell}
    (hk : (24 ≤ k ∧ k + cs.length ≤ 56) ∨ 64 ≤ k) : Dyn (m.put (ctx k) cs) off := by
  refine ⟨?_, ?_⟩
  · rw [Stack.get_put_other _ _ _ _ _ (by simp only [ctx, oDynptr]; omega)]; exact h.dyn
  · rw [Stack.get_put_other _ _ _ _ _ (by simp only [ctx, oL3Off]; omega)]; exact h.l3off

theorem L2Cap.put (h : L2Cap m) {k : Nat} {cs : List Cell}
    (hk : k + cs.length ≤ 49 ∨ (50 ≤ k ∧ k + cs.length ≤ 80) ∨ 88 ≤ k) : L2Cap (m.put (ctx k) cs) := by
  refine ⟨?_, ?_⟩
  · rw [Stack.get_put_other _ _ _ _ _ (by simp only [ctx, oL2Hdr]; omega)]; exact h.hdr
  · rw [Stack.put_out _ _ _ _ (by simp only [ctx, oL2Size]; omega)]; exact h.size

theorem leBytes1 (n : Nat) : leBytes 1 n = [BitVec.ofNat 8 n] := rfl

theorem put_self (m : Stack) (o : Int) (c : Cell) : m.put o [c] o = c := by
  have := Stack.put_in m o [c] 0 (by simp)
  simpa using this

/-- stub.c:105-162. -/
theorem parseL2_ok (hE : CntOk E C) :
    GenT (parseL2 C) (fun _ x => ∀ r7 r8 s i eh, Pr r7 r8 s → Mem E C i eh s.stk →
      s.stk.get (ctx oDynptr) 16 = dynCells → ∀ z Q,
      (∀ h, Spec.bytesAt E.pkt 0 14 = some h → ∀ s', Pr (BitVec.ofNat 64 (leNat (h.drop 12))) r8 s' →
        Mem E C i eh s'.stk → Dyn s'.stk 14 → (E.copied 0 14 = false → L2Cap s'.stk) → s'.w = s.w →
        wp E gs z 0 Q s') →
      (Spec.bytesAt E.pkt 0 14 = none → ∀ v w,
        (v, w) = Spec.evalError C.chain.hook.flavor i.size C.chain.rules.length s.w → Q.exit v w) →
      wp E gs (x ++ z) 0 Q s) := by
  unfold parseL2
  refine .thenEmits (.thenJmp (errBlock_ok (gs := gs) hE) ?_)
  rintro y ⟨hy, hyl⟩
  refine .lastEmits ?_
  intro r7 r8 s i eh hp hm hd z Q hok hbad
  simp only [List.map_cons, List.map_nil, List.cons_append, List.nil_append, List.append_assoc]
  refine hp.ptr (d := .r1) trivial (by simp [oDynptr]) ?_
  intro s1 p1 e1 w1 v1 o1
  refine wp_movi (by simp) ?_
  refine (p1.set (d := .r2) _ trivial).ptr (d := .r3) trivial (by simp [oL2]) ?_
  intro s2 p2 e2 w2 v2 o2
  refine wp_movi (by simp) ?_
  have p3 := p2.set (d := .r4) (.sc ((14 : BitVec 32).signExtend 64)) trivial
  refine wp_stCtx (v := .sc ((14 : BitVec 32).signExtend 64)) (cs := [.byte 14]) p3 (St.set_same _ _ _) rfl (by simp [oL2Size, Size.bytes]) ?_
  have p4 := p3.put (o := ctx oL2Size) [.byte 14] (by simp [ctx, oL2Size])
  have hm4 := hm.putSize (k := oL2Size) 14 (by simp [oL2Size])
  have hd4 : (s.stk.put (ctx oL2Size) [.byte 14]).get (ctx oDynptr) 16 = dynCells := by
    rw [Stack.get_put_other _ _ _ _ _ (by simp [ctx, oL2Size, oDynptr])]; exact hd
  have hst : (s2.set .r4 (.sc ((14 : BitVec 32).signExtend 64))).stk = s.stk := by
    rw [St.set_stk, e2, St.set_stk, e1]
  rw [hst] at p4 ⊢
  generalize ht : ({ (s2.set .r4 (.sc ((14 : BitVec 32).signExtend 64))) with
    stk := s.stk.put (ctx oL2Size) [.byte 14] } : St) = t at p4 ⊢
  have ht1 : t.r .r1 = .ptr .stack (ctx oDynptr) := by
    subst ht; simp [o2, v1]
  have ht2 : t.r .r2 = .sc 0 := by
    subst ht; simp [o2]
  have ht3 : t.r .r3 = .ptr .stack (ctx oL2) := by
    subst ht; simp [v2]
  have ht4 : t.r .r4 = .sc 14 := by
    subst ht; simp
  have htw : t.w = s.w := by subst ht; simp [w2, w1]
  have hts : t.stk = s.stk.put (ctx oL2Size) [.byte 14] := by subst ht; rfl
  rw [← hts] at hm4 hd4
  rcases kfunc_slice (E := E) (o := 0) (n := 14) hd4 ht1 ht2 ht3 ht4 rfl rfl (by simp [ctx, oL2]) (by simp [ctx, oL2])
    with ⟨hb, hk⟩ | ⟨h, p, m', hb, hl, hpp, hps, hm', hnc, hk⟩
  · refine wp_kcall hk ?_
    refine wp_skipBlock (b := false) ?_ (by omega) (by simp) ?_
    · simp [condVal, srcVal, Cond.holds]
    · intro _
      refine hy r7 r8 _ i eh (p4.ret _) hm4 _ Q ?_
      intro v w e
      refine hbad hb v w ?_
      rw [e, St.ret_w, htw]
  · refine wp_kcall hk ?_
    obtain ⟨pr, po, hpe⟩ := hpp.ne
    refine wp_skipBlock (b := true) ?_ (by omega) ?_ (by simp)
    · rw [St.ret_r0, hpe]; simp [condVal, srcVal]
    intro _
    have hlen : (h.map Cell.byte).length = 14 := by simp [hl]
    have p5 : Pr r7 r8 { t with stk := m' } := by
      rcases hm' with rfl | rfl
      · exact p4
      · exact p4.put _ (by simp [ctx, oL2, hl])
    have hm5 : Mem E C i eh m' := by
      rcases hm' with rfl | rfl
      · exact hm4
      · exact hm4.put (k := oL2) (by simp [oL2])
    have hd5 : m'.get (ctx oDynptr) 16 = dynCells := by
      rcases hm' with rfl | rfl
      · exact hd4
      · rw [Stack.get_put_other _ _ _ _ _ (by simp [ctx, oL2, oDynptr])]; exact hd4
    have hc : cellsOf p Size.dw.bytes = some (ptrCells p) := by rw [hpe]; rfl
    have hok16 : ∀ o, p = .ptr .stack o → o + 16 ≤ -64 := by
      intro o e; rw [hps o e]; simp [ctx, oL2]
    refine wp_stCtx (v := p) (p5.ret p) (St.ret_r0 _ _) hc (by simp [oL2Hdr, Size.bytes]) ?_
    have p6 := (p5.ret p).put (o := ctx oL2Hdr) (ptrCells p) (by simp [ctx, oL2Hdr])
    have hm6 := hm5.putHdr (k := oL2Hdr) p (Or.inl ⟨rfl, hok16⟩)
    have hd6 : (m'.put (ctx oL2Hdr) (ptrCells p)).get (ctx oDynptr) 16 = dynCells := by
      rw [Stack.get_put_other _ _ _ _ _ (by simp [ctx, oL2Hdr, oDynptr])]; exact hd5
    have hp6 : HPtr E (m'.put (ctx oL2Hdr) (ptrCells p)) p h := by
      refine hpp.put ?_
      intro q e
      rw [hps q e]; simp [ctx, oL2, oL2Hdr]
    refine wp_ldx (v := .sc (BitVec.ofNat 64 (leNat ((h.drop 12).take 2)))) ?_ ?_
    · show Bf.load E _ p 12 2 = _
      exact hp6.load (o := 12) (n := 2) (fun _ _ => rfl) (by omega) (by omega)
    have e12 : (h.drop 12).take 2 = h.drop 12 := by
      apply List.take_of_length_le; rw [List.length_drop]; omega
    rw [e12]
    have p7 := p6.set7 (BitVec.ofNat 64 (leNat (h.drop 12)))
    refine wp_stCtxI p7 (by simp [oL3Off, Size.bytes]) ?_
    have p8 := p7.put (o := ctx oL3Off) ((leBytes Size.w.bytes ((14 : BitVec 32).signExtend 64).toNat).map .byte)
      (by simp [ctx, oL3Off, Size.bytes])
    refine hok h hb _ p8 ?_ ⟨?_, ?_⟩ ?_ htw
    · exact hm6.put (k := oL3Off) (by simp [oL3Off, Size.bytes])
    · show Stack.get (Stack.put _ _ _) _ _ = _
      rw [Stack.get_put_other _ _ _ _ _ (by simp [ctx, oL3Off, oDynptr])]; exact hd6
    · exact get_scCells _ _ 4 14 (by omega) (by decide)
    · intro hcp
      obtain ⟨e1, e2⟩ := hnc hcp
      have : L2Cap (m'.put (ctx oL2Hdr) (ptrCells p)) := by
        refine ⟨?_, ?_⟩
        · rw [get_ptrCells, e2]
        · rw [Stack.put_out _ _ _ _ (by simp [ctx, oL2Size, oL2Hdr]), e1, hts, put_self]
      exact this.put (by simp [oL3Off, Size.bytes])

end Bf
