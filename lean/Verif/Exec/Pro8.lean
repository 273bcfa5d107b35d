import Verif.Exec.Pro7
/-!
# Prologue: transport header

Nothing here models code of the repository.
-/
namespace Bf

variable {E : Env} {gs : Groups} {C : Cfg} {r7 r8 : BitVec 64} {s : St} {i : Spec.Input} {eh : Byte} {m : Stack}

/-- What the transport header's code keeps. -/
def Keep4 (m m' : Stack) : Prop :=
  ∀ x, (x < ctx 51 ∨ (ctx 52 ≤ x ∧ x < ctx 96) ∨ (ctx 104 ≤ x ∧ x < ctx 160) ∨ ctx 184 ≤ x) → m' x = m x

theorem Keep4.refl (m : Stack) : Keep4 m m := fun _ _ => rfl

theorem Keep4.get {m m' : Stack} (h : Keep4 m m') {k n : Nat}
    (hk : k + n ≤ 51 ∨ (52 ≤ k ∧ k + n ≤ 96) ∨ (104 ≤ k ∧ k + n ≤ 160)) : m'.get (ctx k) n = m.get (ctx k) n := by
  apply Stack.get_congr
  intro x h1 h2
  apply h
  simp only [ctx] at *
  omega

theorem Keep4.dyn {m m' : Stack} (h : Keep4 m m') {off : Nat} (hd : Dyn m off) : Dyn m' off :=
  ⟨by rw [h.get (by simp [oDynptr])]; exact hd.dyn, by rw [h.get (by simp [oL3Off])]; exact hd.l3off⟩

theorem Keep4.l2 {m m' : Stack} (h : Keep4 m m') (hd : L2Cap m) : L2Cap m' :=
  ⟨by rw [h.get (by simp [oL2Hdr])]; exact hd.hdr, by rw [h _ (by simp [ctx, oL2Size])]; exact hd.size⟩

theorem Keep4.l3 {m m' : Stack} (h : Keep4 m m') {hd : List Byte} (h3 : L3At E m hd) : L3At E m' hd := by
  obtain ⟨p, h1, h2, hq⟩ := h3.ptr
  have hl := h3.len
  refine ⟨⟨p, by rw [h.get (by simp [oL3Hdr])]; exact h1, ?_, hq⟩, by rw [h _ (by simp [ctx, oL3Size])]; exact h3.size, hl⟩
  rcases h2 with ⟨b, e1, e2⟩ | ⟨o, e1, e2, e3, e4⟩
  · exact Or.inl ⟨b, e1, e2⟩
  · refine Or.inr ⟨o, e1, e2, e3, ?_⟩
    have ho := hq o e1
    subst ho
    rw [h.get (by simp [oL2]; omega)]
    exact e4

/-- stub.c:322-392. -/
theorem parseL4_ok (hE : CntOk E C) :
    GenT (parseL4 C) (fun _ x => ∀ r7 r8 s i eh off (q : Byte × Nat × List Byte), Pr r7 r8 s → Mem E C i eh s.stk →
      Dyn s.stk off → (∃ b : Byte, r8 = b.setWidth 64 ∧ Spec.Trans.ofNum b = Spec.Trans.ofNum q.1) →
      (Spec.Trans.ofNum q.1 ≠ none → valOf (s.stk.get (ctx oL4Off) 4) = some (.sc (BitVec.ofNat 64 q.2.1))) →
      q.2.1 < 4294967296 → ∀ z Q,
      (Spec.Trans.ofNum q.1 = none → ∀ s', Pr r7 0 s' → s'.stk = s.stk → s'.w = s.w → wp E gs z 0 Q s') →
      (∀ t, Spec.Trans.ofNum q.1 = some t → ∀ h, Spec.bytesAt E.pkt q.2.1 t.hdrLen = some h → ∀ s',
        Pr r7 (BitVec.ofNat 64 t.num) s' → Mem E C i eh s'.stk → L4At E s'.stk h → h.length = t.hdrLen → Keep4 s.stk s'.stk →
        s'.w = s.w → wp E gs z 0 Q s') →
      (∀ t, Spec.Trans.ofNum q.1 = some t → Spec.bytesAt E.pkt q.2.1 t.hdrLen = none → ∀ v w,
        (v, w) = Spec.evalError C.chain.hook.flavor i.size C.chain.rules.length s.w → Q.exit v w) →
      wp E gs (x ++ z) 0 Q s) := by
  unfold parseL4
  refine (GenT.of_emits (emits_swich4 _ _ _ _ _ _ _ _ _ _)).then ?_
  rintro _ _ rfl
  refine .lastJmp (.thenEmits (.thenJmp (errBlock_ok (gs := gs) hE) ?_))
  rintro y ⟨hy, hyl⟩
  refine .lastEmit ?_
  rintro r7 r8 s i eh off ⟨q1, q2, q3⟩ hs hm hd ⟨b, rfl, hb⟩ hoff hlt z Q hnone hok hbad
  dsimp only at hb hoff hlt hnone hok hbad
  simp only [List.append_assoc]
  have fin : ∀ t u, Spec.Trans.ofNum q1 = some t → b.toNat = t.num → Pr r7 (b.setWidth 64) u →
      u.r .r4 = .sc (BitVec.ofNat 64 t.hdrLen) → u.stk = s.stk → u.w = s.w →
      ∀ Y, Y = List.map it [.stx .b .r10 (ctx oL4Size) .r4,
      mov .r1 .r10, addi .r1 (ctx oDynptr), .ldx .w .r2 .r10 (ctx oL4Off),
      mov .r3 .r10, addi .r3 (ctx oL4), .kcall .dynptrSlice] ++
      (it (.jmp true .ne .r0 (.k 0) (BitVec.ofNat 16 y.length)) :: y) ++
      [it (.stx .dw .r10 (ctx oL4Hdr) .r0)] → 
      wp E gs ((it (.jmp true .eq .r8 (.k 0) (BitVec.ofNat 16 Y.length)) :: Y) ++ z) 0 Q u := by
    rintro t u hqt hbt pu hr4 es ew Y rfl
    have h8 : b.setWidth 64 = BitVec.ofNat 64 t.num := by
      apply BitVec.eq_of_toNat_eq
      rw [BitVec.toNat_setWidth, BitVec.toNat_ofNat, hbt]
    rw [h8] at pu
    have htl : t.hdrLen ≤ 20 := by cases t <;> decide
    refine wp_skipBlock (b := false) ?_ (by simp; omega) (by simp) ?_
    · rw [pu.r8]
      cases t <;> rfl
    intro _
    simp only [List.map_cons, List.map_nil, List.cons_append, List.nil_append, List.append_assoc]
    refine wp_stCtx (v := .sc (BitVec.ofNat 64 t.hdrLen)) (cs := [.byte (BitVec.ofNat 8 t.hdrLen)]) pu hr4 (by cases t <;> rfl)
      (by simp [oL4Size, Size.bytes]) ?_
    rw [es]
    have p1 := pu.put (o := ctx oL4Size) [.byte (BitVec.ofNat 8 t.hdrLen)] (by simp [ctx, oL4Size])
    rw [es] at p1
    have hm1 := hm.putSize (k := oL4Size) (BitVec.ofNat 8 t.hdrLen) (by simp [oL4Size])
    have hd1 := hd.put (k := oL4Size) (cs := [.byte (BitVec.ofNat 8 t.hdrLen)]) (by simp [oL4Size])
    have ho1 : valOf ((s.stk.put (ctx oL4Size) [.byte (BitVec.ofNat 8 t.hdrLen)]).get (ctx oL4Off) 4) = some (.sc (BitVec.ofNat 64 q2)) := by
      rw [Stack.get_put_other _ _ _ _ _ (by simp [ctx, oL4Size, oL4Off])]; exact hoff (by rw [hqt]; simp)
    refine p1.ptr (d := .r1) trivial (by simp [oDynptr]) ?_
    intro s2 p2 e2 w2 v2 o2
    refine wp_ldCtxP (v := .sc (BitVec.ofNat 64 q2)) p2 (by rw [e2]; exact ho1) (by simp [oL4Off, Size.bytes]) ?_
    refine (p2.set (d := .r2) _ trivial).ptr (d := .r3) trivial (by simp [oL4]) ?_
    intro t' p3 e3 w3 v3 o3
    have ht1 : t'.r .r1 = .ptr .stack (ctx oDynptr) := by simp [o3, v2]
    have ht2 : t'.r .r2 = .sc (BitVec.ofNat 64 q2) := by simp [o3]
    have ht4 : t'.r .r4 = .sc (BitVec.ofNat 64 t.hdrLen) := by simp [o3, o2, hr4]
    have htw : t'.w = s.w := by simp [w3, w2, ew]
    have hts : t'.stk = s.stk.put (ctx oL4Size) [.byte (BitVec.ofNat 8 t.hdrLen)] := by rw [e3, St.set_stk, e2]
    rw [← hts] at hm1 hd1
    rcases kfunc_slice (E := E) (o := q2) (n := t.hdrLen) hd1.dyn ht1 ht2 v3 ht4
      (by rw [BitVec.toNat_setWidth, BitVec.toNat_ofNat]; omega) (by cases t <;> rfl) (by simp [ctx, oL4]) (by simp [ctx, oL4]; omega)
      with ⟨hb, hk⟩ | ⟨h, p, m', hb, hl, hpp, hps, hm', hnc, hk⟩
    · refine wp_kcall hk ?_
      refine wp_skipBlock (b := false) ?_ (by omega) (by simp) ?_
      · simp [condVal, srcVal, Cond.holds]
      · intro _
        refine hy _ _ _ i eh (p3.ret _) hm1 _ Q ?_
        intro v w e
        refine hbad t hqt hb v w ?_
        rw [e, St.ret_w, htw]
    · refine wp_kcall hk ?_
      obtain ⟨pr, po, hpe⟩ := hpp.ne
      refine wp_skipBlock (b := true) ?_ (by omega) ?_ (by simp)
      · rw [St.ret_r0, hpe]; simp [condVal, srcVal]
      intro _
      have p5 : Pr r7 (BitVec.ofNat 64 t.num) { t' with stk := m' } := by
        rcases hm' with rfl | rfl
        · exact p3
        · exact p3.put _ (by simp [ctx, oL4, hl]; omega)
      have hm5 : Mem E C i eh m' := by
        rcases hm' with rfl | rfl
        · exact hm1
        · exact hm1.put (k := oL4) (by simp [oL4])
      have hsz : m' (ctx oL4Size) = .byte (BitVec.ofNat 8 h.length) := by
        have : t'.stk (ctx oL4Size) = .byte (BitVec.ofNat 8 h.length) := by rw [hts, put_self, hl]
        rcases hm' with rfl | rfl
        · exact this
        · rw [Stack.put_out _ _ _ _ (by simp [ctx, oL4Size, oL4])]; exact this
      have hk4 : Keep4 s.stk m' := by
        have h1 : Keep4 s.stk t'.stk := by
          intro x hx
          rw [hts, Stack.put_out]
          simp only [ctx, oL4Size, List.length_cons, List.length_nil] at hx ⊢
          omega
        rcases hm' with rfl | rfl
        · exact h1
        · intro x hx
          rw [Stack.put_out]
          · exact h1 x hx
          · simp only [ctx, oL4, List.length_map, hl] at hx ⊢
            omega
      have hc : cellsOf p Size.dw.bytes = some (ptrCells p) := by rw [hpe]; rfl
      refine wp_stCtx (v := p) (p5.ret p) (St.ret_r0 _ _) hc (by simp [oL4Hdr, Size.bytes]) ?_
      have p6 := (p5.ret p).put (o := ctx oL4Hdr) (ptrCells p) (by simp [ctx, oL4Hdr])
      refine hok t hqt h hb _ p6 ?_ ?_ hl ?_ (by simp [htw])
      · exact hm5.putHdr (k := oL4Hdr) p (Or.inr (Or.inr ⟨rfl, by intro o e; rw [hps o e]; simp [ctx, oL4]⟩))
      · refine ⟨⟨p, get_ptrCells .., ?_, hps⟩, ?_, by omega⟩
        · refine hpp.put ?_
          intro q e; rw [hps q e]; simp [ctx, oL4, oL4Hdr]
        · show (m'.put (ctx oL4Hdr) (ptrCells p)) (ctx oL4Size) = _
          rw [Stack.put_out _ _ _ _ (by simp [ctx, oL4Size, oL4Hdr])]; exact hsz
      · intro x hx
        show (m'.put (ctx oL4Hdr) (ptrCells p)) x = _
        rw [Stack.put_out]
        · exact hk4 x hx
        · simp only [ctx, oL4Hdr, ptrCells_length] at hx ⊢
          omega
  have bnum : ∀ k : BitVec 32, k.toNat < 256 → (b.setWidth 64 = k.signExtend 64 ↔ b = k.setWidth 8) := by
    intro k hk
    have := byte_cond_eq (b := b) hk
    simp only [condVal, Cond.holds, BitVec.toNat_inj, Option.some.injEq, decide_eq_decide] at this
    exact this
  have b6 := bnum 6 (by decide)
  have b17 := bnum 17 (by decide)
  have b1 := bnum 1 (by decide)
  have b58 := bnum 58 (by decide)
  refine wp_swich4 (n := b.setWidth 64) hs.r8 ?_ ?_ ?_ ?_ ?_
  · intro h
    have h := b6.mp h
    subst h
    exact ⟨s.set .r4 (.sc 20), rfl, fin .tcp _ hb.symm rfl (hs.set (d := .r4) _ trivial) (St.set_same _ _ _) rfl rfl _ (by simp [Insn.setOff])⟩
  · intro _ h
    have h := b17.mp h
    subst h
    exact ⟨s.set .r4 (.sc 8), rfl, fin .udp _ hb.symm rfl (hs.set (d := .r4) _ trivial) (St.set_same _ _ _) rfl rfl _ (by simp [Insn.setOff])⟩
  · intro _ _ h
    have h := b1.mp h
    subst h
    exact ⟨s.set .r4 (.sc 8), rfl, fin .icmp _ hb.symm rfl (hs.set (d := .r4) _ trivial) (St.set_same _ _ _) rfl rfl _ (by simp [Insn.setOff])⟩
  · intro _ _ _ h
    have h := b58.mp h
    subst h
    exact ⟨s.set .r4 (.sc 8), rfl, fin .icmp6 _ hb.symm rfl (hs.set (d := .r4) _ trivial) (St.set_same _ _ _) rfl rfl _ (by simp [Insn.setOff])⟩
  · intro h1 h2 h3 h4
    have hn : Spec.Trans.ofNum q1 = none := by
      rw [← hb]
      unfold Spec.Trans.ofNum
      rw [if_neg (fun h : b = 6 => h1 (b6.mpr h)), if_neg (fun h : b = 17 => h2 (b17.mpr h)), if_neg (fun h : b = 1 => h3 (b1.mpr h)),
        if_neg (fun h : b = 58 => h4 (b58.mpr h))]
    refine ⟨s.set .r8 (.sc 0), rfl, ?_⟩
    refine wp_skipBlock (b := true) ?_ (by simp; omega) ?_ (by simp)
    · simp [srcVal, condVal, Cond.holds]
    · intro _
      exact hnone hn _ (hs.set8 0) rfl rfl

/-- The prologue understood the packet as `v`. -/
structure Parsed (E : Env) (C : Cfg) (i : Spec.Input) (v : Spec.View) (m : Stack) : Prop where
  eh : ∃ e, Mem E C i e m ∧ (C.chain.flagNexthdr = true → e = maskOf v.exts)
  l3 : ∀ n h, v.l3 = some (n, h) → h.length = n.hdrLen ∧ L3At E m h
  l4 : ∀ t h, v.l4 = some (t, h) → h.length = t.hdrLen ∧ L4At E m h

/-- Network and transport headers. -/
theorem parseNet_ok (hE : CntOk E C) :
    GenT (do parseL3 C; parseL4 C) (fun _ x => ∀ r7 s i off net, Pr r7 0 s → NetIs r7 net → Mem E C i 0 s.stk →
      Dyn s.stk off → off < 1000 → ∀ z Q,
      (∀ v, Spec.parseNet E.pkt C.chain.flagNexthdr net off = some v → ∀ s',
        Pr (BitVec.ofNat 64 (htobe16 v.l3Num)) (BitVec.ofNat 64 v.l4Num) s' → Parsed E C i v s'.stk →
        (L2Cap s.stk → L2Cap s'.stk) → s'.w = s.w → wp E gs z 0 Q s') →
      (Spec.parseNet E.pkt C.chain.flagNexthdr net off = none → ∀ v w,
        (v, w) = Spec.evalError C.chain.hook.flavor i.size C.chain.rules.length s.w → Q.exit v w) →
      wp E gs (x ++ z) 0 Q s) := by
  refine (parseL3_ok (E := E) (gs := gs) hE).then fun _ x hx => ?_
  refine (parseL4_ok (E := E) (gs := gs) hE).mono fun _ y hy => ?_
  intro r7 s i off net hs hnet hm hd hoff z Q hok hbad
  rw [List.append_assoc]
  refine hx r7 0 s i off net hs hnet hm hd hoff _ Q ?_ ?_ ?_
  · rintro rfl s' p' e' w'
    refine hy 0 0 s' i 0 off (0, 0, []) p' (by rw [e']; exact hm) (by rw [e']; exact hd) ⟨0, rfl, rfl⟩
      (fun h => absurd rfl h) (by decide) _ Q ?_ ?_ ?_
    · intro _ u pu eu wu
      refine hok ⟨none, none, []⟩ rfl u pu ⟨⟨0, by rw [eu, e']; exact hm, fun _ => rfl⟩, by simp, by simp⟩ ?_ (by rw [wu, w'])
      rw [eu, e']; exact id
    · intro t ht; cases ht
    · intro t ht; cases ht
  · rintro n rfl h hb s' r8' eh' p' hn3 hl2 w'
    have e7 : ∀ n', n' = n → ∀ {h : List Byte} {l4 : Option (Spec.Trans × List Byte)} {ex : List Byte},
        BitVec.ofNat 64 (htobe16 (Spec.View.l3Num ⟨some (n', h), l4, ex⟩)) = r7 := by
      rintro _ rfl _ _ _
      rcases hnet with ⟨e, rfl⟩ | ⟨e, rfl⟩ | ⟨e, _⟩ <;> cases e
      · show BitVec.ofNat 64 (htobe16 0x0800) = 8
        decide
      · show BitVec.ofNat 64 (htobe16 0x86DD) = 0xDD86
        decide
    refine hy r7 r8' s' i eh' off _ p' hn3.mem hn3.dyn hn3.found.ex hn3.found.off hn3.found.lt _ Q ?_ ?_ ?_
    · intro hq u pu eu wu
      have hv : Spec.parseNet E.pkt C.chain.flagNexthdr (some n) off =
          some ⟨some (n, h), none, (Spec.transportOf E.pkt C.chain.flagNexthdr n h off).2.2⟩ := by
        simp only [Spec.parseNet, hb, Option.bind_some, Spec.parseTrans, hq]
      refine hok _ hv u ?_ ⟨⟨eh', by rw [eu]; exact hn3.mem, hn3.eh⟩, ?_, by simp⟩ (by rw [eu]; exact hl2) (by rw [wu, w'])
      · rw [e7 n rfl]; exact pu
      · intro n' h' e
        cases e
        exact ⟨hn3.len, by rw [eu]; exact hn3.l3⟩
    · intro t hq h4 hb4 u pu hmu h4u h4l hk wu
      have hv : Spec.parseNet E.pkt C.chain.flagNexthdr (some n) off =
          some ⟨some (n, h), some (t, h4), (Spec.transportOf E.pkt C.chain.flagNexthdr n h off).2.2⟩ := by
        simp only [Spec.parseNet, hb, Option.bind_some, Spec.parseTrans, hq, hb4, Option.map_some]
      refine hok _ hv u ?_ ⟨⟨eh', hmu, hn3.eh⟩, ?_, ?_⟩ (fun h => hk.l2 (hl2 h)) (by rw [wu, w'])
      · rw [e7 n rfl]; exact pu
      · intro n' h' e
        cases e
        exact ⟨hn3.len, hk.l3 hn3.l3⟩
      · intro n' h' e
        cases e
        exact ⟨h4l, h4u⟩
    · intro t hq hb4
      rw [w']
      refine hbad ?_
      simp only [Spec.parseNet, hb, Option.bind_some, Spec.parseTrans, hq, hb4, Option.map_none]
  · rintro n rfl hb
    refine hbad ?_
    simp only [Spec.parseNet, hb, Option.bind_none]

end Bf
