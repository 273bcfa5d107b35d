import Verif.Exec.Pro6
/-!
# Prologue: network and transport headers

Nothing here models code of the repository.
-/
namespace Bf

variable {E : Env} {gs : Groups} {C : Cfg} {r7 r8 : BitVec 64} {s : St} {i : Spec.Input} {eh : Byte} {m : Stack}

/-- The network protocol according to the register holding the EtherType. -/
def NetIs (r7 : BitVec 64) (net : Option Spec.Net) : Prop :=
  (net = some .ip4 ∧ r7 = 8) ∨ (net = some .ip6 ∧ r7 = 0xDD86) ∨ (net = none ∧ r7 ≠ 8 ∧ r7 ≠ 0xDD86)

theorem GL.l3Ipv4 : GL 8 Bf.l3Ipv4 := GL.jmp (n := 7) (GL.emitsN (by rfl) (by sta)) (by omega)

theorem GL.l3Ipv6 : GL 23 (Bf.l3Ipv6 C) := by
  rw [l3Ipv6_eq]
  refine GL.jmp (n := 22) ⟨(GenT.of_emits (emits_ipv6 C)).mono ?_⟩ (by omega)
  rintro _ x rfl
  refine ⟨?_, Nat.le_refl _⟩
  simp [ipv6F, Sta, TyOk, Item.fits, movi, mov, addi, Inner]

/-- stub.c:247-317. -/
theorem l3Ipv6_ok :
    GenT (l3Ipv6 C) (fun _ x => ∀ r7 r8 s, Pr r7 r8 s → ∀ p h off i, s.r .r0 = p → HPtr E s.stk p h →
      Mem E C i 0 s.stk → Dyn s.stk off → off < 1000 → L3At E s.stk h → (r7 = 0xDD86 → h.length = 40) → ∀ z Q,
      (r7 = 0xDD86 → Ipv6K E gs C i r7 h off s z Q) →
      (r7 ≠ 0xDD86 → wp E gs z 0 Q s) → wp E gs (x ++ z) 0 Q s) := by
  rw [l3Ipv6_eq]
  refine .lastJmp ((GenT.of_emits (emits_ipv6 C)).mono ?_)
  rintro _ x rfl r7 r8 s hs p h off i h0 hp hm hd hoff h3 hl z Q hyes hno
  refine wp_skipBlock (b := decide (r7 ≠ 0xDD86)) ?_ (by simp [ipv6F]) ?_ ?_
  · rw [hs.r7]
    simp only [srcVal, condVal, Cond.holds]
    congr 2
    rw [show (BitVec.signExtend 64 (0xDD86 : BitVec 32)) = 0xDD86 from rfl, Ne, BitVec.toNat_inj]
  · intro h; exact hno (by simpa using h)
  intro hb
  have h7 : r7 = 0xDD86 := by simpa using hb
  exact ipv6_wp hs h0 hp hm hd hoff h3 (hl h7) (hyes h7)

/-- What is known when the network header was located. -/
structure Net3 (E : Env) (C : Cfg) (i : Spec.Input) (eh : Byte) (off : Nat) (m : Stack) (n : Spec.Net) (h : List Byte)
    (r8 : BitVec 64) : Prop where
  mem : Mem E C i eh m
  dyn : Dyn m off
  l3 : L3At E m h
  len : h.length = n.hdrLen
  found : Found r8 m (Spec.transportOf E.pkt C.chain.flagNexthdr n h off)
  eh : C.chain.flagNexthdr = true → eh = maskOf (Spec.transportOf E.pkt C.chain.flagNexthdr n h off).2.2

/-- Effect of reading the network header, for a supported protocol: from the load of its size in `R4`. -/
theorem l3_read {x4 x6 y : List Item} {n : Spec.Net} {off : Nat}
    (h4 : ∀ r7 r8 s, Pr r7 r8 s → ∀ p h off, s.r .r0 = p → HPtr E s.stk p h →
      (∀ q, p = .ptr .stack q → q = ctx oL2) → h.length ≤ 40 → (r7 = 8 → 20 ≤ h.length) → valOf (s.stk.get (ctx oL3Off) 4) = some (.sc (BitVec.ofNat 64 off)) →
      off < 1000 → ∀ z Q,
      (r7 = 8 → ∀ s' (cs : List Byte), cs.length = 4 →
        Pr r7 ((Spec.byteAt h 9).setWidth 64) s' → s'.stk = s.stk.put (ctx oL4Off) (cs.map .byte) →
        valOf (s'.stk.get (ctx oL4Off) 4) =
          some (.sc (BitVec.ofNat 64 (off + 4 * ((Spec.byteAt h 0).toNat % 16)))) → s'.w = s.w →
        s'.r .r0 = p → wp E gs z 0 Q s') →
      (r7 ≠ 8 → wp E gs z 0 Q s) → wp E gs (x4 ++ z) 0 Q s)
    (h6 : ∀ r7 r8 s, Pr r7 r8 s → ∀ p h off i, s.r .r0 = p → HPtr E s.stk p h →
      Mem E C i 0 s.stk → Dyn s.stk off → off < 1000 → L3At E s.stk h → (r7 = 0xDD86 → h.length = 40) → ∀ z Q,
      (r7 = 0xDD86 → Ipv6K E gs C i r7 h off s z Q) →
      (r7 ≠ 0xDD86 → wp E gs z 0 Q s) → wp E gs (x6 ++ z) 0 Q s)
    (hy : ErrT E gs C y) (hyl : y.length ≤ 8) (hs : Pr r7 r8 s) (hr4 : s.r .r4 = .sc (BitVec.ofNat 64 n.hdrLen))
    (hn : (n = .ip4 ∧ r7 = 8) ∨ (n = .ip6 ∧ r7 = 0xDD86)) (hm : Mem E C i 0 s.stk) (hd : Dyn s.stk off)
    (hoff : off < 1000) {z : List Item} {Q : Post}
    (hok : ∀ h, Spec.bytesAt E.pkt off n.hdrLen = some h → ∀ s' r8' eh', Pr r7 r8' s' →
      Net3 E C i eh' off s'.stk n h r8' → (L2Cap s.stk → L2Cap s'.stk) → s'.w = s.w → wp E gs z 0 Q s')
    (hbad : Spec.bytesAt E.pkt off n.hdrLen = none → ∀ v w,
      (v, w) = Spec.evalError C.chain.hook.flavor i.size C.chain.rules.length s.w → Q.exit v w) :
    wp E gs (List.map it [.stx .b .r10 (ctx oL3Size) .r4,
      mov .r1 .r10, addi .r1 (ctx oDynptr), .ldx .w .r2 .r10 (ctx oL3Off),
      mov .r3 .r10, addi .r3 (ctx oL2), .kcall .dynptrSlice] ++
      (it (.jmp true .ne .r0 (.k 0) (BitVec.ofNat 16 y.length)) :: y) ++
      it (.stx .dw .r10 (ctx oL3Hdr) .r0) :: (x4 ++ x6) ++ z) 0 Q s := by
  have hnl : n.hdrLen ≤ 40 := by cases n <;> decide
  simp only [List.map_cons, List.map_nil, List.cons_append, List.nil_append, List.append_assoc]
  refine wp_stCtx (v := .sc (BitVec.ofNat 64 n.hdrLen)) (cs := [.byte (BitVec.ofNat 8 n.hdrLen)]) hs hr4 (by cases n <;> rfl)
    (by simp [oL3Size, Size.bytes]) ?_
  have p1 := hs.put (o := ctx oL3Size) [.byte (BitVec.ofNat 8 n.hdrLen)] (by simp [ctx, oL3Size])
  have hm1 := hm.putSize (k := oL3Size) (BitVec.ofNat 8 n.hdrLen) (by simp [oL3Size])
  have hd1 := hd.put (k := oL3Size) (cs := [.byte (BitVec.ofNat 8 n.hdrLen)]) (by simp [oL3Size])
  refine p1.ptr (d := .r1) trivial (by simp [oDynptr]) ?_
  intro s2 p2 e2 w2 v2 o2
  refine wp_ldCtxP (v := .sc (BitVec.ofNat 64 off)) p2 (by rw [e2]; exact hd1.l3off) (by simp [oL3Off, Size.bytes]) ?_
  refine (p2.set (d := .r2) _ trivial).ptr (d := .r3) trivial (by simp [oL2]) ?_
  intro t p3 e3 w3 v3 o3
  have ht1 : t.r .r1 = .ptr .stack (ctx oDynptr) := by simp [o3, v2]
  have ht2 : t.r .r2 = .sc (BitVec.ofNat 64 off) := by simp [o3]
  have ht4 : t.r .r4 = .sc (BitVec.ofNat 64 n.hdrLen) := by simp [o3, o2, hr4]
  have htw : t.w = s.w := by simp [w3, w2]
  have hts : t.stk = s.stk.put (ctx oL3Size) [.byte (BitVec.ofNat 8 n.hdrLen)] := by rw [e3, St.set_stk, e2]
  rw [← hts] at hm1 hd1
  rcases kfunc_slice (E := E) (o := off) (n := n.hdrLen) hd1.dyn ht1 ht2 v3 ht4
    (by rw [BitVec.toNat_setWidth, BitVec.toNat_ofNat]; omega) (by cases n <;> rfl) (by simp [ctx, oL2]) (by simp [ctx, oL2]; omega)
    with ⟨hb, hk⟩ | ⟨h, p, m', hb, hl, hpp, hps, hm', hnc, hk⟩
  · refine wp_kcall hk ?_
    refine wp_skipBlock (b := false) ?_ (by omega) (by simp) ?_
    · simp [condVal, srcVal, Cond.holds]
    · intro _
      refine hy r7 r8 _ i 0 (p3.ret _) hm1 _ Q ?_
      intro v w e
      refine hbad hb v w ?_
      rw [e, St.ret_w, htw]
  · refine wp_kcall hk ?_
    obtain ⟨pr, po, hpe⟩ := hpp.ne
    refine wp_skipBlock (b := true) ?_ (by omega) ?_ (by simp)
    · rw [St.ret_r0, hpe]; simp [condVal, srcVal]
    intro _
    have p5 : Pr r7 r8 { t with stk := m' } := by
      rcases hm' with rfl | rfl
      · exact p3
      · exact p3.put _ (by simp [ctx, oL2, hl]; omega)
    have hm5 : Mem E C i 0 m' := by
      rcases hm' with rfl | rfl
      · exact hm1
      · exact hm1.put (k := oL2) (by simp [oL2])
    have hd5 : Dyn m' off := by
      rcases hm' with rfl | rfl
      · exact hd1
      · exact hd1.put (k := oL2) (by simp [oL2])
    have hsz : m' (ctx oL3Size) = .byte (BitVec.ofNat 8 h.length) := by
      have : t.stk (ctx oL3Size) = .byte (BitVec.ofNat 8 h.length) := by rw [hts, put_self, hl]
      rcases hm' with rfl | rfl
      · exact this
      · rw [Stack.put_out _ _ _ _ (by simp [ctx, oL3Size, oL2])]; exact this
    have hcap : L2Cap s.stk → L2Cap m' := by
      intro h0
      have h1 : L2Cap t.stk := by rw [hts]; exact h0.put (by simp [oL3Size])
      rcases hm' with rfl | rfl
      · exact h1
      · exact h1.put (by simp [oL2])
    have hc : cellsOf p Size.dw.bytes = some (ptrCells p) := by rw [hpe]; rfl
    refine wp_stCtx (v := p) (p5.ret p) (St.ret_r0 _ _) hc (by simp [oL3Hdr, Size.bytes]) ?_
    have p6 := (p5.ret p).put (o := ctx oL3Hdr) (ptrCells p) (by simp [ctx, oL3Hdr])
    have hm6 := hm5.putHdr (k := oL3Hdr) p (Or.inr (Or.inl ⟨rfl, by intro o e; rw [hps o e]; simp [ctx, oL2]⟩))
    have hd6 := hd5.put (k := oL3Hdr) (cs := ptrCells p) (by simp [oL3Hdr])
    have hcap6 : L2Cap s.stk → L2Cap (m'.put (ctx oL3Hdr) (ptrCells p)) := fun h0 => (hcap h0).put (by simp [oL3Hdr])
    have hpp6 : HPtr E (m'.put (ctx oL3Hdr) (ptrCells p)) p h := by
      refine hpp.put ?_
      intro q e; rw [hps q e]; simp [ctx, oL2, oL3Hdr]
    have h36 : L3At E (m'.put (ctx oL3Hdr) (ptrCells p)) h := by
      refine ⟨⟨p, get_ptrCells .., hpp6, hps⟩, ?_, by omega⟩
      rw [Stack.put_out _ _ _ _ (by simp [ctx, oL3Size, oL3Hdr])]; exact hsz
    rw [St.ret_stk] at p6
    generalize htt : ({ (St.ret { t with stk := m' } p) with stk := (m'.put (ctx oL3Hdr) (ptrCells p)) } : St) = u at p6
    have hu : u.stk = m'.put (ctx oL3Hdr) (ptrCells p) := by subst htt; rfl
    have hu0 : u.r .r0 = p := by subst htt; simp [St.ret]
    have huw : u.w = s.w := by subst htt; simp [htw]
    rw [← hu] at hm6 hd6 hcap6 hpp6 h36
    show wp E gs _ 0 Q ({ (St.ret { t with stk := m' } p) with stk := (m'.put (ctx oL3Hdr) (ptrCells p)) } : St)
    rw [htt]
    refine h4 r7 r8 u p6 p h off hu0 hpp6 hps (by omega) ?_ hd6.l3off hoff _ Q ?_ ?_
    · intro h8
      rcases hn with ⟨rfl, _⟩ | ⟨_, h⟩
      · rw [hl]; exact Nat.le_refl _
      · rw [h] at h8; exact absurd h8 (by decide)
    · intro h8 s' cs hcs ps es ev ew er0
      obtain ⟨rfl, _⟩ : n = .ip4 ∧ r7 = 8 := by
        rcases hn with hn | ⟨_, h⟩
        · exact hn
        · rw [h] at h8; exact absurd h8 (by decide)
      have k4 : oL4Off = 64 := rfl
      refine h6 _ _ s' ps p h off i er0 ?_ ?_ ?_ hoff ?_ (by intro e; rw [e] at h8; exact absurd h8 (by decide)) _ Q
        (by intro e; rw [e] at h8; exact absurd h8 (by decide)) ?_
      · rw [es]; refine hpp6.put ?_
        intro q e; rw [hps q e]; simp only [ctx, oL2, oL4Off, List.length_map]; omega
      · rw [es, k4]; exact hm6.put (k := 64) (by simp [hcs])
      · rw [es, k4]; exact hd6.put (k := 64) (by simp)
      · rw [es, k4]; exact h36.put (k := 64) (by simp [hcs])
      intro _
      refine hok h hb s' _ 0 ps ⟨?_, ?_, ?_, hl, ⟨⟨_, rfl, rfl⟩, fun _ => ev, ?_⟩, fun _ => rfl⟩ ?_ (by rw [ew, huw])
      · rw [es, k4]; exact hm6.put (k := 64) (by simp [hcs])
      · rw [es, k4]; exact hd6.put (k := 64) (by simp)
      · rw [es, k4]; exact h36.put (k := 64) (by simp [hcs])
      · exact transportOf_lt _ _ _ hoff
      · intro h0; rw [es, k4]; exact (hcap6 h0).put (by simp [hcs])
    · intro h8
      obtain ⟨rfl, h7⟩ : n = .ip6 ∧ r7 = 0xDD86 := by
        rcases hn with ⟨_, h⟩ | hn
        · exact absurd h h8
        · exact hn
      refine h6 _ _ u p6 p h off i hu0 hpp6 hm6 hd6 hoff h36 (fun _ => hl) _ Q ?_ (fun h => absurd h7 h)
      intro _ s' r8' eh' ps hk hm' hf hx hw
      exact hok h hb s' r8' eh' ps ⟨hm', hk.dyn hd6, hk.l3 h36, hl, hf, hx⟩ (fun h0 => hk.l2 (hcap6 h0)) (by rw [hw, huw])

/-- stub.c:164-320. -/
theorem parseL3_ok (hE : CntOk E C) :
    GenT (parseL3 C) (fun _ x => ∀ r7 r8 s i off net, Pr r7 r8 s → NetIs r7 net → Mem E C i 0 s.stk →
      Dyn s.stk off → off < 1000 → ∀ z Q,
      (net = none → ∀ s', Pr 0 r8 s' → s'.stk = s.stk → s'.w = s.w → wp E gs z 0 Q s') →
      (∀ n, net = some n → ∀ h, Spec.bytesAt E.pkt off n.hdrLen = some h → ∀ s' r8' eh', Pr r7 r8' s' →
        Net3 E C i eh' off s'.stk n h r8' → (L2Cap s.stk → L2Cap s'.stk) → s'.w = s.w → wp E gs z 0 Q s') →
      (∀ n, net = some n → Spec.bytesAt E.pkt off n.hdrLen = none → ∀ v w,
        (v, w) = Spec.evalError C.chain.hook.flavor i.size C.chain.rules.length s.w → Q.exit v w) →
      wp E gs (x ++ z) 0 Q s) := by
  unfold parseL3
  refine (GenT.of_emits (emits_swich2 _ _ _ _ _ _)).then ?_
  rintro _ _ rfl
  refine .lastJmp (.thenEmits (.thenJmp (errBlock_ok (gs := gs) hE) ?_))
  rintro y ⟨hy, hyl⟩
  refine .thenEmit ((((l3Ipv4_ok (E := E) (gs := gs)).and GL.l3Ipv4.gen)).then ?_)
  rintro _ x4 ⟨h4, _, hl4⟩
  refine ((l3Ipv6_ok (E := E) (gs := gs)).and GL.l3Ipv6.gen).mono ?_
  rintro _ x6 ⟨h6, _, hl6⟩ r7 r8 s i off net hs hnet hm hd hoff z Q hnone hok hbad
  simp only [List.append_assoc]
  have fin : ∀ n t, ((n = .ip4 ∧ r7 = 8) ∨ (n = .ip6 ∧ r7 = 0xDD86)) → net = some n → Pr r7 r8 t →
      t.r .r4 = .sc (BitVec.ofNat 64 n.hdrLen) → t.stk = s.stk → t.w = s.w →
      ∀ Y, Y = List.map it [.stx .b .r10 (ctx oL3Size) .r4,
      mov .r1 .r10, addi .r1 (ctx oDynptr), .ldx .w .r2 .r10 (ctx oL3Off),
      mov .r3 .r10, addi .r3 (ctx oL2), .kcall .dynptrSlice] ++
      (it (.jmp true .ne .r0 (.k 0) (BitVec.ofNat 16 y.length)) :: y) ++
      it (.stx .dw .r10 (ctx oL3Hdr) .r0) :: (x4 ++ x6) → 
      wp E gs ((it (.jmp true .eq .r7 (.k 0) (BitVec.ofNat 16 Y.length)) :: Y) ++ z) 0 Q t := by
    rintro n t hn hne pt hr4 es ew Y rfl
    refine wp_skipBlock (b := false) ?_ (by simp; omega) (by simp) ?_
    · rw [pt.r7]
      rcases hn with ⟨_, rfl⟩ | ⟨_, rfl⟩ <;> rfl
    intro _
    refine l3_read (n := n) (i := i) (off := off) h4 h6 hy hyl pt hr4 hn (by rw [es]; exact hm) (by rw [es]; exact hd) hoff ?_ ?_
    · rw [es, ew]; exact hok n hne
    · rw [ew]; exact hbad n hne
  refine wp_swich2 (n := r7) hs.r7 ?_ ?_ ?_
  · intro h8
    have h8 : r7 = 8 := h8
    have hn : net = some .ip4 := by
      rcases hnet with ⟨h, _⟩ | ⟨_, h⟩ | ⟨_, h, _⟩
      · exact h
      · rw [h] at h8; exact absurd h8 (by decide)
      · exact absurd h8 h
    refine ⟨s.set .r4 (.sc 20), rfl, ?_⟩
    exact fin .ip4 _ (Or.inl ⟨rfl, h8⟩) hn (hs.set (d := .r4) _ trivial) (St.set_same _ _ _) rfl rfl _ (by simp [Insn.setOff])
  · intro h8 h6
    have h6 : r7 = 0xDD86 := h6
    have hn : net = some .ip6 := by
      rcases hnet with ⟨_, h⟩ | ⟨h, _⟩ | ⟨_, _, h⟩
      · rw [h] at h6; exact absurd h6 (by decide)
      · exact h
      · exact absurd h6 h
    refine ⟨s.set .r4 (.sc 40), rfl, ?_⟩
    exact fin .ip6 _ (Or.inr ⟨rfl, h6⟩) hn (hs.set (d := .r4) _ trivial) (St.set_same _ _ _) rfl rfl _ (by simp [Insn.setOff])
  · intro h8 h6
    have hn : net = none := by
      rcases hnet with ⟨_, h⟩ | ⟨_, h⟩ | ⟨h, _⟩
      · exact absurd h h8
      · exact absurd h h6
      · exact h
    refine ⟨s.set .r7 (.sc 0), rfl, ?_⟩
    refine wp_skipBlock (b := true) ?_ (by simp; omega) ?_ (by simp)
    · simp [srcVal, condVal, Cond.holds]
    · intro _
      exact hnone hn _ (hs.set7 0) rfl rfl

end Bf
