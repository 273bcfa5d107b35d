import Verif.Exec.Pro8
import Verif.Spec.Eval
/-!
# Prologues

Nothing here models code of the repository.
-/
namespace Bf

variable {E : Env} {gs : Groups} {C : Cfg} {r7 r8 : BitVec 64} {s : St} {i : Spec.Input} {eh : Byte} {m : Stack}

/-- The context of the program when its prologue starts. -/
structure Pre (C : Cfg) (m : Stack) : Prop where
  arg : valOf (m.get (ctx oArg) 8) = some (.ptr .ctx 0)
  logMap : C.chain.flagLog = true → valOf (m.get (ctx oLogMap) 8) = some (.map .log)
  eh : C.chain.flagNexthdr = true → m (ctx oEh) = .byte 0
  bytes : ∀ x, ctx oPktSize ≤ x → ∃ b, m x = .byte b

theorem put_bytes {m : Stack} {k : Int} {bs : List Byte} {x : Int} (h : ∃ b, m x = .byte b) :
    ∃ b, m.put k (bs.map .byte) x = .byte b := by
  by_cases hx : k ≤ x ∧ x < k + bs.length
  · have := Stack.put_in m k (bs.map .byte) (x - k).toNat (by simp; omega)
    rw [show k + ((x - k).toNat : Int) = x by omega] at this
    rw [this]
    simp
  · rw [Stack.put_out _ _ _ _ (by simp; omega)]; exact h

theorem Pre.put (h : Pre C m) {k : Nat} {bs : List Byte} (hk : (40 ≤ k ∧ k + bs.length ≤ 48) ∨ 49 ≤ k) :
    Pre C (m.put (ctx k) (bs.map .byte)) := by
  refine ⟨?_, ?_, ?_, fun x hx => put_bytes (h.bytes x hx)⟩
  · rw [Stack.get_put_other _ _ _ _ _ (by simp [ctx, oArg]; omega)]; exact h.arg
  · rw [Stack.get_put_other _ _ _ _ _ (by simp [ctx, oLogMap]; omega)]; exact h.logMap
  · rw [Stack.put_out _ _ _ _ (by simp [ctx, oEh]; omega)]; exact h.eh

theorem get_bytes {m : Stack} {o : Int} (n : Nat) (h : ∀ x, o ≤ x → x < o + n → ∃ b, m x = .byte b) :
    ∃ bs : List Byte, bs.length = n ∧ m.get o n = bs.map .byte := by
  induction n generalizing o with
  | zero => exact ⟨[], rfl, rfl⟩
  | succ n ih =>
    obtain ⟨b, hb⟩ := h o (by omega) (by omega)
    obtain ⟨bs, h1, h2⟩ := ih (o := o + 1) fun x h1 h2 => h x (by omega) (by omega)
    exact ⟨b :: bs, by simp [h1], by simp [Stack.get, hb, h2]⟩

theorem Pre.hdr (h : Pre C m) {f : Nat} (hf : 40 ≤ f) (cap : Nat) : HdrOk m f cap := by
  obtain ⟨bs, h1, h2⟩ := get_bytes (m := m) (o := ctx f) 8 fun x h1 _ => h.bytes x (by simp only [ctx, oPktSize] at *; omega)
  refine ⟨.sc (BitVec.ofNat 64 (leNat bs)), ?_, by intro o e; cases e⟩
  rw [h2]
  exact valOf_bytes _ (by intro e; rw [e] at h1; cases h1)

theorem Pre.mem (h : Pre C m) (hs : valOf (m.get (ctx oPktSize) 8) = some (.sc i.size))
    (hi : valOf (m.get (ctx oIfindex) 2) = some (.sc (BitVec.ofNat 64 (i.ifindex % 65536)))) : Mem E C i 0 m :=
  ⟨h.arg, hs, hi, h.logMap, h.eh, fun x h1 _ => h.bytes x (by simp only [ctx, oEh, oPktSize] at *; omega),
    h.hdr (by decide) _, h.hdr (by decide) _, h.hdr (by decide) _⟩

/-- Reading back the low half of a stored 32-bit value. -/
theorem get_half (m : Stack) (v : BitVec 32) :
    valOf ((m.put (ctx oIfindex) ((leBytes 4 (v.setWidth 64).toNat).map .byte)).get (ctx oIfindex) 2) =
      some (.sc (BitVec.ofNat 64 (v.toNat % 65536))) := by
  have := Stack.get_put_sub m (ctx oIfindex) ((leBytes 4 (v.setWidth 64).toNat).map .byte) 0 2 (by simp)
  simp only [Int.natCast_zero, Int.add_zero, List.drop_zero] at this
  rw [this, ← List.map_take]
  have e : (leBytes 4 (v.setWidth 64).toNat).take 2 = leBytes 2 (v.setWidth 64).toNat := rfl
  rw [e, valOf_bytes _ (by simp [leBytes]), leNat_leBytes]
  congr 3

/-- The outcome of a prologue. -/
def ProT (E : Env) (gs : Groups) (C : Cfg) (x : List Item) : Prop :=
  ∀ s, Pr 0 0 s → Pre C s.stk → s.r .r1 = .ptr .ctx 0 → ∀ z Q,
    (∀ v, Spec.understand (Spec.inputOf E C.chain.hook) C.chain.flagNexthdr = some v → ∀ s',
      Pr (BitVec.ofNat 64 (htobe16 v.l3Num)) (BitVec.ofNat 64 v.l4Num) s' →
      Parsed E C (Spec.inputOf E C.chain.hook) v s'.stk →
      ((Spec.inputOf E C.chain.hook).link = .ethernet → E.copied 0 14 = false → L2Cap s'.stk) → s'.w = s.w →
      wp E gs z 0 Q s') →
    (Spec.understand (Spec.inputOf E C.chain.hook) C.chain.flagNexthdr = none → ∀ v w,
      (v, w) = Spec.evalError C.chain.hook.flavor (Spec.inputOf E C.chain.hook).size C.chain.rules.length s.w →
      Q.exit v w) →
    wp E gs (x ++ z) 0 Q s

theorem NetIs.ether (h : List Byte) (hl : h.length = 14) :
    NetIs (BitVec.ofNat 64 (leNat (h.drop 12))) (Spec.Net.ofEtherType (Spec.beNat (h.drop 12))) := by
  have : (h.drop 12).length = 2 := by rw [List.length_drop, hl]
  match hh : h.drop 12, this with
  | [a, b], _ =>
    have ha := a.isLt
    have hb := b.isLt
    have e1 : leNat [a, b] = a.toNat + 256 * b.toNat := by simp [leNat]
    have e2 : Spec.beNat [a, b] = 256 * a.toNat + b.toNat := by simp [Spec.beNat]
    rw [e1, e2]
    unfold Spec.Net.ofEtherType
    have hlt : a.toNat + 256 * b.toNat < 2 ^ 64 := by omega
    have k8 : BitVec.ofNat 64 (a.toNat + 256 * b.toNat) = 8 ↔ a.toNat + 256 * b.toNat = 8 := by
      rw [← BitVec.toNat_inj, BitVec.toNat_ofNat, Nat.mod_eq_of_lt hlt]; rfl
    have k6 : BitVec.ofNat 64 (a.toNat + 256 * b.toNat) = 0xDD86 ↔ a.toNat + 256 * b.toNat = 0xDD86 := by
      rw [← BitVec.toNat_inj, BitVec.toNat_ofNat, Nat.mod_eq_of_lt hlt]; rfl
    unfold NetIs
    rw [Ne, Ne, k8, k6]
    split
    · left; exact ⟨rfl, by omega⟩
    · split
      · right; left; exact ⟨rfl, by omega⟩
      · right; right; exact ⟨rfl, by omega, by omega⟩

theorem bytesAt_length {bs h : List Byte} {o n : Nat} (hb : Spec.bytesAt bs o n = some h) : h.length = n := by
  unfold Spec.bytesAt at hb
  split at hb
  · cases hb; rw [List.length_take, List.length_drop]; omega
  · cases hb

/-- Ethernet, network and transport headers, from an accessible packet. -/
theorem parseEth_ok (hE : CntOk E C) :
    GenT (do parseL2 C; parseL3 C; parseL4 C) (fun _ x => ∀ r7 s i, Pr r7 0 s → Mem E C i 0 s.stk →
      s.stk.get (ctx oDynptr) 16 = dynCells → ∀ z Q,
      (∀ v, Spec.parse .ethernet C.chain.flagNexthdr E.pkt = some v → ∀ s',
        Pr (BitVec.ofNat 64 (htobe16 v.l3Num)) (BitVec.ofNat 64 v.l4Num) s' → Parsed E C i v s'.stk →
        (E.copied 0 14 = false → L2Cap s'.stk) → s'.w = s.w → wp E gs z 0 Q s') →
      (Spec.parse .ethernet C.chain.flagNexthdr E.pkt = none → ∀ v w,
        (v, w) = Spec.evalError C.chain.hook.flavor i.size C.chain.rules.length s.w → Q.exit v w) →
      wp E gs (x ++ z) 0 Q s) := by
  refine (parseL2_ok (E := E) (gs := gs) hE).then fun _ x hx => ?_
  refine (parseNet_ok (E := E) (gs := gs) hE).mono fun _ y hy => ?_
  intro r7 s i hs hm hd z Q hok hbad
  rw [List.append_assoc]
  refine hx r7 0 s i 0 hs hm hd _ Q ?_ ?_
  · intro h hb s' p' hm' hd' hl2 w'
    refine hy _ s' i 14 _ p' (NetIs.ether h (bytesAt_length hb)) hm' hd' (by omega) _ Q ?_ ?_
    · intro v hv u pu hpu hlu wu
      exact hok v (by simp only [Spec.parse, hb, Option.bind_some, hv]) u pu hpu (fun hc => hlu (hl2 hc)) (by rw [wu, w'])
    · intro hv
      rw [w']
      exact hbad (by simp only [Spec.parse, hb, Option.bind_some, hv])
  · intro hb
    exact hbad (by simp only [Spec.parse, hb, Option.bind_none])

theorem setWidth32_toNat (v : BitVec 32) : (v.setWidth 64).toNat = v.toNat := by
  rw [BitVec.toNat_setWidth]; have := v.isLt; omega

/-- End of the prologues of hooks providing Ethernet frames. -/
theorem ethTail (hE : CntOk E C) {k : Kfunc} (hk : k ≠ .dynptrSlice) :
    GenT (do makeDynptr C k; parseL2 C; parseL3 C; parseL4 C) (fun _ x => ∀ r7 s, Pr r7 0 s →
      Mem E C (Spec.inputOf E C.chain.hook) 0 s.stk → dynptrArg E k = some (s.r .r1) →
      (Spec.inputOf E C.chain.hook).link = .ethernet → (Spec.inputOf E C.chain.hook).readable = E.dynptrOk →
      (Spec.inputOf E C.chain.hook).bytes = E.pkt → ∀ z Q,
      (∀ v, Spec.understand (Spec.inputOf E C.chain.hook) C.chain.flagNexthdr = some v → ∀ s',
        Pr (BitVec.ofNat 64 (htobe16 v.l3Num)) (BitVec.ofNat 64 v.l4Num) s' →
        Parsed E C (Spec.inputOf E C.chain.hook) v s'.stk →
        ((Spec.inputOf E C.chain.hook).link = .ethernet → E.copied 0 14 = false → L2Cap s'.stk) → s'.w = s.w →
        wp E gs z 0 Q s') →
      (Spec.understand (Spec.inputOf E C.chain.hook) C.chain.flagNexthdr = none → ∀ v w,
        (v, w) = Spec.evalError C.chain.hook.flavor (Spec.inputOf E C.chain.hook).size C.chain.rules.length s.w →
        Q.exit v w) →
      wp E gs (x ++ z) 0 Q s) := by
  refine (makeDynptr_ok (E := E) (gs := gs) hE _ hk).then fun _ y hy => ?_
  refine (parseEth_ok (E := E) (gs := gs) hE).mono fun _ x hx => ?_
  intro r7 s hs hm ha hlink hread hbytes z Q hok hbad
  rw [List.append_assoc]
  refine hy r7 0 s _ 0 hs hm _ rfl ha _ Q ?_ ?_
  · intro hd s' p' e' w'
    have hu : Spec.understand (Spec.inputOf E C.chain.hook) C.chain.flagNexthdr =
        Spec.parse .ethernet C.chain.flagNexthdr E.pkt := by
      unfold Spec.understand
      rw [hread, hd, hlink, hbytes]
      rfl
    refine hx r7 s' (Spec.inputOf E C.chain.hook) p' ?_ ?_ _ Q ?_ ?_
    · rw [e']; exact hm.put (k := oDynptr) (by simp [oDynptr, dynCells])
    · rw [e', Stack.get_put_same _ _ _ _ (by rfl)]
    · intro v hv u pu hpu hlu wu
      exact hok v (hu.trans hv) u pu hpu (fun _ => hlu) (by rw [wu, w'])
    · intro hv
      rw [w']
      exact hbad (hu.trans hv)
  · intro hd
    refine hbad ?_
    unfold Spec.understand
    rw [hread, hd]
    rfl

/-- End of the prologues of hooks providing network packets. -/
theorem netTail (hE : CntOk E C) {k : Kfunc} (hk : k ≠ .dynptrSlice) :
    GenT (do makeDynptr C k; parseL3 C; parseL4 C) (fun _ x => ∀ r7 net s, Pr r7 0 s → NetIs r7 net →
      Mem E C (Spec.inputOf E C.chain.hook) 0 s.stk → dynptrArg E k = some (s.r .r1) →
      valOf (s.stk.get (ctx oL3Off) 4) = some (.sc 0) →
      (Spec.inputOf E C.chain.hook).link = .network net → (Spec.inputOf E C.chain.hook).readable = E.dynptrOk →
      (Spec.inputOf E C.chain.hook).bytes = E.pkt → ∀ z Q,
      (∀ v, Spec.understand (Spec.inputOf E C.chain.hook) C.chain.flagNexthdr = some v → ∀ s',
        Pr (BitVec.ofNat 64 (htobe16 v.l3Num)) (BitVec.ofNat 64 v.l4Num) s' →
        Parsed E C (Spec.inputOf E C.chain.hook) v s'.stk →
        ((Spec.inputOf E C.chain.hook).link = .ethernet → E.copied 0 14 = false → L2Cap s'.stk) → s'.w = s.w →
        wp E gs z 0 Q s') →
      (Spec.understand (Spec.inputOf E C.chain.hook) C.chain.flagNexthdr = none → ∀ v w,
        (v, w) = Spec.evalError C.chain.hook.flavor (Spec.inputOf E C.chain.hook).size C.chain.rules.length s.w →
        Q.exit v w) →
      wp E gs (x ++ z) 0 Q s) := by
  refine (makeDynptr_ok (E := E) (gs := gs) hE _ hk).then fun _ y hy => ?_
  refine (parseNet_ok (E := E) (gs := gs) hE).mono fun _ x hx => ?_
  intro r7 net s hs hnet hm ha hoff hlink hread hbytes z Q hok hbad
  rw [List.append_assoc]
  refine hy r7 0 s _ 0 hs hm _ rfl ha _ Q ?_ ?_
  · intro hd s' p' e' w'
    have hu : Spec.understand (Spec.inputOf E C.chain.hook) C.chain.flagNexthdr =
        Spec.parseNet E.pkt C.chain.flagNexthdr net 0 := by
      unfold Spec.understand
      rw [hread, hd, hlink, hbytes]
      rfl
    refine hx r7 s' (Spec.inputOf E C.chain.hook) 0 net p' hnet ?_ ?_ (by omega) _ Q ?_ ?_
    · rw [e']; exact hm.put (k := oDynptr) (by simp [oDynptr, dynCells])
    · refine ⟨by rw [e', Stack.get_put_same _ _ _ _ (by rfl)], ?_⟩
      rw [e', Stack.get_put_other _ _ _ _ _ (by simp [ctx, oL3Off, oDynptr, dynCells])]
      exact hoff
    · intro v hv u pu hpu hlu wu
      refine hok v (hu.trans hv) u pu hpu ?_ (by rw [wu, w'])
      intro h; rw [hlink] at h; cases h
    · intro hv
      rw [w']
      exact hbad (hu.trans hv)
  · intro hd
    refine hbad ?_
    unfold Spec.understand
    rw [hread, hd]
    rfl

/-- Storing the size and the interface of the packet. -/
theorem Pre.mem2 (hpre : Pre C m) (sz : BitVec 64) (ix : BitVec 32) (hs : i.size = sz) (hx : i.ifindex = ix.toNat) :
    Mem E C i 0 ((m.put (ctx oPktSize) ((leBytes 8 sz.toNat).map .byte)).put (ctx oIfindex)
      ((leBytes 4 (ix.setWidth 64).toNat).map .byte)) := by
  have h2 := (hpre.put (k := oPktSize) (bs := leBytes 8 sz.toNat) (by simp [oPktSize])).put (k := oIfindex)
    (bs := leBytes 4 (ix.setWidth 64).toNat) (by simp [oIfindex])
  refine h2.mem ?_ ?_
  · rw [Stack.get_put_other _ _ _ _ _ (by simp [ctx, oPktSize, oIfindex])]
    rw [get_scCells _ _ 8 sz (by omega) sz.isLt, hs]
  · rw [get_half, hx]

/-- xdp.c:33-71. -/
theorem prologueXdp_ok (hE : CntOk E C) (hf : C.chain.hook.flavor = .xdp) :
    GenT (prologueXdp C) (fun _ x => ProT E gs C x) := by
  have hEf : E.flavor = .xdp := hE.flavor.trans hf
  have hi : Spec.inputOf E C.chain.hook =
      ⟨.ethernet, E.pkt, E.dynptrOk, E.linLen.setWidth 64, E.ifindex.toNat, E.hash.toNat⟩ := by
    simp only [Spec.inputOf, hf]
  unfold prologueXdp
  refine .thenEmits ((ethTail (E := E) (gs := gs) hE (k := .dynptrFromXdp) (by simp)).mono fun _ x hx => ?_)
  intro s hs hpre h1 z Q hok hbad
  simp only [List.map_cons, List.map_nil, List.cons_append, List.nil_append]
  refine wp_ldxF (v := .ptr .xdpData 0) (by simp [h1, loadF, hEf]) ?_
  refine wp_ldxF (v := .ptr .xdpData E.linLen.toNat) (by simp [h1, loadF, hEf]) ?_
  refine wp_alu (v := .sc (E.linLen.setWidth 64)) (by simp) ?_ ?_
  · simp only [St.set_same, srcVal, St.set_other _ _ _ _ (show Reg.r2 ≠ .r3 by simp), aluVal, if_true]
    congr 2
    apply BitVec.eq_of_toNat_eq
    rw [setWidth32_toNat, BitVec.toNat_ofInt]
    have := E.linLen.isLt
    omega
  have p1 := ((hs.set (d := .r2) (.ptr .xdpData 0) trivial).set (d := .r3) (.ptr .xdpData E.linLen.toNat) trivial).set
    (d := .r3) (.sc (E.linLen.setWidth 64)) trivial
  refine wp_stCtx (v := .sc (E.linLen.setWidth 64)) p1 (St.set_same _ _ _) rfl (by simp [oPktSize, Size.bytes]) ?_
  have p2 := p1.put (o := ctx oPktSize) ((leBytes 8 (E.linLen.setWidth 64).toNat).map .byte) (by simp [ctx, oPktSize])
  refine wp_ldxF (v := .sc (E.ifindex.setWidth 64)) (by simp [h1, loadF, hEf]) ?_
  have p3 := p2.set (d := .r2) (.sc (E.ifindex.setWidth 64)) trivial
  refine wp_stCtx (v := .sc (E.ifindex.setWidth 64)) p3 (St.set_same _ _ _) rfl (by simp [oIfindex, Size.bytes]) ?_
  have p4 := p3.put (o := ctx oIfindex) ((leBytes 4 (E.ifindex.setWidth 64).toNat).map .byte) (by simp [ctx, oIfindex])
  refine hx 0 _ p4 ?_ ?_ (by rw [hi]) (by rw [hi]) (by rw [hi]) z Q hok hbad
  · exact hpre.mem2 (E.linLen.setWidth 64) E.ifindex (by rw [hi]) (by rw [hi])
  · simp [dynptrArg, hEf, h1]

/-- tc.c:27-67. -/
theorem prologueTc_ok (hE : CntOk E C) (hf : C.chain.hook.flavor = .tc) :
    GenT (prologueTc C) (fun _ x => ProT E gs C x) := by
  have hEf : E.flavor = .tc := hE.flavor.trans hf
  have hi : Spec.inputOf E C.chain.hook =
      ⟨.ethernet, E.pkt, E.dynptrOk, E.skbLen.setWidth 64, E.ifindex.toNat, E.hash.toNat⟩ := by
    simp only [Spec.inputOf, hf]
  unfold prologueTc
  refine .thenEmits ((ethTail (E := E) (gs := gs) hE (k := .dynptrFromSkb) (by simp)).mono fun _ x hx => ?_)
  intro s hs hpre h1 z Q hok hbad
  simp only [List.map_cons, List.map_nil, List.cons_append, List.nil_append]
  refine wp_ldxF (v := .sc (E.skbLen.setWidth 64)) (by simp [h1, loadF, hEf]) ?_
  have p1 := hs.set (d := .r3) (.sc (E.skbLen.setWidth 64)) trivial
  refine wp_stCtx (v := .sc (E.skbLen.setWidth 64)) p1 (St.set_same _ _ _) rfl (by simp [oPktSize, Size.bytes]) ?_
  have p2 := p1.put (o := ctx oPktSize) ((leBytes 8 (E.skbLen.setWidth 64).toNat).map .byte) (by simp [ctx, oPktSize])
  refine wp_ldxF (v := .sc (E.ifindex.setWidth 64)) (by simp [h1, loadF, hEf]) ?_
  have p3 := p2.set (d := .r2) (.sc (E.ifindex.setWidth 64)) trivial
  refine wp_stCtx (v := .sc (E.ifindex.setWidth 64)) p3 (St.set_same _ _ _) rfl (by simp [oIfindex, Size.bytes]) ?_
  have p4 := p3.put (o := ctx oIfindex) ((leBytes 4 (E.ifindex.setWidth 64).toNat).map .byte) (by simp [ctx, oIfindex])
  refine hx 0 _ p4 ?_ ?_ (by rw [hi]) (by rw [hi]) (by rw [hi]) z Q hok hbad
  · exact hpre.mem2 (E.skbLen.setWidth 64) E.ifindex (by rw [hi]) (by rw [hi])
  · simp [dynptrArg, hEf, h1]

/-- The switch converting an address family. -/
theorem familySwich_ok (reg : Reg) :
    GenT (familySwich reg) (fun _ x => ∀ s (f : BitVec 64), Pr 0 0 s → s.r reg = .sc f → ∀ z Q,
      (∀ r7 s', NetIs r7 (Spec.Net.ofFamily f.toNat) → Pr r7 0 s' → s'.stk = s.stk → s'.w = s.w →
        (∀ r, r ≠ .r7 → s'.r r = s.r r) → wp E gs z 0 Q s') → wp E gs (x ++ z) 0 Q s) := by
  unfold familySwich
  refine (GenT.of_emits (emits_swich2 _ _ _ _ _ _)).mono ?_
  rintro _ _ rfl s f hs hr z Q hz
  have k2 : f = (2 : BitVec 32).signExtend 64 ↔ f.toNat = 2 := by rw [← BitVec.toNat_inj]; rfl
  have k10 : f = (10 : BitVec 32).signExtend 64 ↔ f.toNat = 10 := by rw [← BitVec.toNat_inj]; rfl
  have ho : ∀ (v : Val) r, r ≠ Reg.r7 → (s.set .r7 v).r r = s.r r := fun v r h => St.set_other _ _ _ _ h
  refine wp_swich2 (n := f) hr ?_ ?_ ?_
  · intro h
    refine ⟨s.set .r7 (.sc 8), rfl, hz 8 _ ?_ (hs.set7 _) rfl rfl (ho _)⟩
    rw [k2.mp h]; exact Or.inl ⟨rfl, rfl⟩
  · intro _ h
    refine ⟨s.set .r7 (.sc 0xDD86), rfl, hz 0xDD86 _ ?_ (hs.set7 _) rfl rfl (ho _)⟩
    rw [k10.mp h]; exact Or.inr (Or.inl ⟨rfl, rfl⟩)
  · intro h1 h2
    refine ⟨s.set .r7 (.sc 0), rfl, hz 0 _ ?_ (hs.set7 _) rfl rfl (ho _)⟩
    unfold Spec.Net.ofFamily
    rw [if_neg (fun h => h1 (k2.mpr h)), if_neg (fun h => h2 (k10.mpr h))]
    exact Or.inr (Or.inr ⟨rfl, by decide, by decide⟩)

/-- cgroup_skb.c:31-93. -/
theorem prologueCgroupSkb_ok (hE : CntOk E C) (hf : C.chain.hook.flavor = .cgroupSkb) :
    GenT (prologueCgroupSkb C) (fun _ x => ProT E gs C x) := by
  have hEf : E.flavor = .cgroupSkb := hE.flavor.trans hf
  have hi : Spec.inputOf E C.chain.hook = ⟨.network (Spec.Net.ofFamily E.family.toNat), E.pkt, E.dynptrOk,
      E.skbLen.setWidth 64 + 14, E.ifindex.toNat, E.hash.toNat⟩ := by
    simp only [Spec.inputOf, hf]
  unfold prologueCgroupSkb
  refine .thenEmits ((familySwich_ok (E := E) (gs := gs) .r2).then fun _ y hy => ?_)
  refine .thenEmit ((netTail (E := E) (gs := gs) hE (k := .dynptrFromSkb) (by simp)).mono fun _ x hx => ?_)
  intro s hs hpre h1 z Q hok hbad
  simp only [List.map_cons, List.map_nil, List.cons_append, List.nil_append, List.append_assoc]
  refine wp_ldxF (v := .sc (E.skbLen.setWidth 64)) (by simp [h1, loadF, hEf]) ?_
  refine wp_alu (v := .sc (E.skbLen.setWidth 64 + 14)) (by simp) ?_ ?_
  · rw [St.set_same]; rfl
  have p1 := (hs.set (d := .r3) (.sc (E.skbLen.setWidth 64)) trivial).set (d := .r3) (.sc (E.skbLen.setWidth 64 + 14)) trivial
  refine wp_stCtx (v := .sc (E.skbLen.setWidth 64 + 14)) p1 (St.set_same _ _ _) rfl (by simp [oPktSize, Size.bytes]) ?_
  have p2 := p1.put (o := ctx oPktSize) ((leBytes 8 (E.skbLen.setWidth 64 + 14).toNat).map .byte) (by simp [ctx, oPktSize])
  refine wp_ldxF (v := .sc (E.ifindex.setWidth 64)) (by simp [h1, loadF, hEf]) ?_
  have p3 := p2.set (d := .r2) (.sc (E.ifindex.setWidth 64)) trivial
  refine wp_stCtx (v := .sc (E.ifindex.setWidth 64)) p3 (St.set_same _ _ _) rfl (by simp [oIfindex, Size.bytes]) ?_
  have p4 := p3.put (o := ctx oIfindex) ((leBytes 4 (E.ifindex.setWidth 64).toNat).map .byte) (by simp [ctx, oIfindex])
  have m4 := hpre.mem2 (E := E) (i := Spec.inputOf E C.chain.hook) (E.skbLen.setWidth 64 + 14) E.ifindex (by rw [hi]) (by rw [hi])
  refine wp_ldxF (v := .sc (E.family.setWidth 64)) (by simp [h1, loadF, hEf]) ?_
  have p5 := p4.set (d := .r2) (.sc (E.family.setWidth 64)) trivial
  refine hy _ (E.family.setWidth 64) p5 (St.set_same _ _ _) _ Q ?_
  intro r7 s' hn p6 e6 w6 o6
  refine wp_stCtxI p6 (by simp [oL3Off, Size.bytes]) ?_
  have p7 := p6.put (o := ctx oL3Off) ((leBytes 4 ((0 : BitVec 32).signExtend 64).toNat).map .byte) (by simp [ctx, oL3Off])
  rw [setWidth32_toNat] at hn
  refine hx r7 (Spec.Net.ofFamily E.family.toNat) _ p7 hn ?_ ?_ ?_ (by rw [hi]) (by rw [hi]) (by rw [hi]) z Q ?_ ?_
  · show Mem E C _ 0 (s'.stk.put _ _)
    rw [e6]
    exact m4.put (k := oL3Off) (by simp [oL3Off, Size.bytes])
  · show dynptrArg E _ = some (s'.r .r1)
    rw [o6 _ (by simp)]
    simp [dynptrArg, hEf, h1]
  · exact get_scCells _ _ 4 0 (by omega) (by decide)
  · intro v hv u pu hpu hl wu
    exact hok v hv u pu hpu hl (wu.trans w6)
  · intro hv v w e
    refine hbad hv v w ?_
    have : s'.w = s.w := w6
    rw [e]
    show Spec.evalError _ _ _ s'.w = _
    rw [this]

/-- nf.c:45-124. -/
theorem prologueNf_ok (hE : CntOk E C) (hf : C.chain.hook.flavor = .nf) :
    GenT (prologueNf C) (fun _ x => ProT E gs C x) := by
  have hEf : E.flavor = .nf := hE.flavor.trans hf
  obtain ⟨ix, hix, hi⟩ : ∃ ix : BitVec 32, (∀ t : St, t.r .r2 = .ptr .nfState 0 →
      ∃ d, loadF E t (.ptr .nfState 0) (if nfIngress C.chain.hook then .nfIn else .nfOut) .dw = some (.ptr .nfDev d) ∧
      ∀ t', loadF E t' (.ptr .nfDev d) .devIfindex .w = some (.sc (ix.setWidth 64))) ∧
      Spec.inputOf E C.chain.hook = ⟨.network (Spec.Net.ofFamily E.pf.toNat), E.pkt, E.dynptrOk,
      E.skbLen.setWidth 64 + 14, ix.toNat, E.hash.toNat⟩ := by
    refine ⟨if C.chain.hook = .nfPreRouting ∨ C.chain.hook = .nfLocalIn ∨ C.chain.hook = .nfForward then E.inIfindex else E.outIfindex, ?_, ?_⟩
    · intro t _
      have hng : nfIngress C.chain.hook = decide (C.chain.hook = .nfPreRouting ∨ C.chain.hook = .nfLocalIn ∨ C.chain.hook = .nfForward) := by
        unfold nfIngress
        cases C.chain.hook <;> rfl
      rw [hng]
      by_cases hc : C.chain.hook = .nfPreRouting ∨ C.chain.hook = .nfLocalIn ∨ C.chain.hook = .nfForward
      · refine ⟨0, ?_, ?_⟩
        · simp [hc, loadF, hEf]
        · intro t'; simp [hc, loadF, hEf]
      · refine ⟨1, ?_, ?_⟩
        · simp [hc, loadF, hEf]
        · intro t'; simp [hc, loadF, hEf]
    · simp only [Spec.inputOf, hf]
  unfold prologueNf
  refine .thenEmits ((familySwich_ok (E := E) (gs := gs) .r3).then fun _ y hy => ?_)
  refine .thenEmits ((netTail (E := E) (gs := gs) hE (k := .dynptrFromSkb) (by simp)).mono fun _ x hx => ?_)
  intro s hs hpre h1 z Q hok hbad
  simp only [List.map_cons, List.map_nil, List.cons_append, List.nil_append, List.append_assoc]
  refine wp_ldxF (v := .ptr .nfState 0) (by simp [h1, loadF, hEf]) ?_
  have p1 := hs.set (d := .r2) (.ptr .nfState 0) trivial
  obtain ⟨d, hd1, hd2⟩ := hix _ (St.set_same s .r2 (.ptr .nfState 0))
  refine wp_ldxF (v := .ptr .nfDev d) (by rw [St.set_same]; exact hd1) ?_
  have p2 := p1.set (d := .r3) (.ptr .nfDev d) trivial
  refine wp_ldxF (v := .sc (ix.setWidth 64)) (by rw [St.set_same]; exact hd2 _) ?_
  have p3 := p2.set (d := .r4) (.sc (ix.setWidth 64)) trivial
  refine wp_stCtx (v := .sc (ix.setWidth 64)) p3 (St.set_same _ _ _) rfl (by simp [oIfindex, Size.bytes]) ?_
  have p4 := p3.put (o := ctx oIfindex) ((leBytes 4 (ix.setWidth 64).toNat).map .byte) (by simp [ctx, oIfindex])
  refine wp_ldxF (v := .sc (E.pf.setWidth 64)) (by simp [loadF, hEf]) ?_
  have p5 := p4.set (d := .r3) (.sc (E.pf.setWidth 64)) trivial
  refine hy _ (E.pf.setWidth 64) p5 (St.set_same _ _ _) _ Q ?_
  intro r7 s' hn p6 e6 w6 o6
  have hn : NetIs r7 (Spec.Net.ofFamily E.pf.toNat) := by
    have e : (E.pf.setWidth 64).toNat = E.pf.toNat := by
      rw [BitVec.toNat_setWidth]; have := E.pf.isLt; omega
    rw [e] at hn; exact hn
  refine wp_stCtxI p6 (by simp [oL3Off, Size.bytes]) ?_
  have p7 := p6.put (o := ctx oL3Off) ((leBytes 4 ((0 : BitVec 32).signExtend 64).toNat).map .byte) (by simp [ctx, oL3Off])
  have hr1 : s'.r .r1 = .ptr .ctx 0 := by rw [o6 _ (by simp)]; simp [h1]
  refine wp_ldxF (v := .ptr .skb 0) ?_ ?_
  · show loadF E _ (s'.r .r1) _ _ = _
    rw [hr1]; simp [loadF, hEf]
  have p8 := p7.set (d := .r1) (.ptr .skb 0) trivial
  refine wp_ldxF (v := .sc (E.skbLen.setWidth 64)) (by rw [St.set_same]; simp [loadF, hEf]) ?_
  have p9 := p8.set (d := .r2) (.sc (E.skbLen.setWidth 64)) trivial
  refine wp_alu (v := .sc (E.skbLen.setWidth 64 + 14)) (by simp) (by rw [St.set_same]; rfl) ?_
  have p10 := p9.set (d := .r2) (.sc (E.skbLen.setWidth 64 + 14)) trivial
  refine wp_stCtx (v := .sc (E.skbLen.setWidth 64 + 14)) p10 (St.set_same _ _ _) rfl (by simp [oPktSize, Size.bytes]) ?_
  have p11 := p10.put (o := ctx oPktSize) ((leBytes 8 (E.skbLen.setWidth 64 + 14).toNat).map .byte) (by simp [ctx, oPktSize])
  have hpre' : Pre C (((s.stk.put (ctx oIfindex) ((leBytes 4 (ix.setWidth 64).toNat).map .byte)).put (ctx oL3Off)
      ((leBytes 4 ((0 : BitVec 32).signExtend 64).toNat).map .byte)).put (ctx oPktSize)
      ((leBytes 8 (E.skbLen.setWidth 64 + 14).toNat).map .byte)) :=
    ((hpre.put (k := oIfindex) (by simp [oIfindex])).put (k := oL3Off) (by simp [oL3Off])).put (k := oPktSize) (by simp [oPktSize])
  refine hx r7 (Spec.Net.ofFamily E.pf.toNat) _ p11 hn ?_ ?_ ?_ (by rw [hi]) (by rw [hi]) (by rw [hi]) z Q ?_ ?_
  · show Mem E C _ 0 ((s'.stk.put _ _).put _ _)
    rw [e6]
    refine hpre'.mem ?_ ?_
    · rw [get_scCells _ _ 8 _ (by omega) (BitVec.isLt _), hi]
    · rw [Stack.get_put_other _ _ _ _ _ (by simp [ctx, oPktSize, oIfindex]),
        Stack.get_put_other _ _ _ _ _ (by simp [ctx, oL3Off, oIfindex]), get_half, hi]
  · simp [dynptrArg, hEf]
  · show valOf (((s'.stk.put _ _).put _ _).get _ _) = _
    rw [Stack.get_put_other _ _ _ _ _ (by simp [ctx, oPktSize, oL3Off, Size.bytes])]
    exact get_scCells _ _ 4 0 (by omega) (by decide)
  · intro v hv u pu hpu hl wu
    exact hok v hv u pu hpu hl (wu.trans w6)
  · intro hv v w e
    refine hbad hv v w ?_
    have : s'.w = s.w := w6
    rw [e]
    show Spec.evalError _ _ _ s'.w = _
    rw [this]

/-- The prologue of packet programs. -/
theorem prologue_ok (hE : CntOk E C) (hf : C.chain.hook.flavor ≠ .sockAddr) :
    GenT (prologue C) (fun _ x => ProT E gs C x) := by
  unfold prologue
  cases h : C.chain.hook.flavor with
  | xdp => exact prologueXdp_ok hE h
  | tc => exact prologueTc_ok hE h
  | nf => exact prologueNf_ok hE h
  | cgroupSkb => exact prologueCgroupSkb_ok hE h
  | sockAddr => exact absurd h hf

end Bf
