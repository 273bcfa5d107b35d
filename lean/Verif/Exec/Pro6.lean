import Verif.Exec.Pro5
/-!
# Prologue: IPv6 header (continued)

Nothing here models code of the repository.
-/
namespace Bf

variable {E : Env} {gs : Groups} {C : Cfg} {r7 r8 : BitVec 64} {s : St} {i : Spec.Input} {eh : Byte} {m : Stack}

/-- Outcome of locating the transport header of an IPv6 packet. -/
def Ipv6K (E : Env) (gs : Groups) (C : Cfg) (i : Spec.Input) (r7 : BitVec 64) (h : List Byte) (off : Nat)
    (s : St) (z : List Item) (Q : Post) : Prop :=
  ∀ s' r8' eh', Pr r7 r8' s' → Keep s.stk s'.stk → Mem E C i eh' s'.stk →
    Found r8' s'.stk (Spec.transportOf E.pkt C.chain.flagNexthdr .ip6 h off) →
    (C.chain.flagNexthdr = true → eh' = maskOf (Spec.transportOf E.pkt C.chain.flagNexthdr .ip6 h off).2.2) →
    s'.w = s.w → wp E gs z 0 Q s'

/-- The last three instructions: the transport header follows the fixed header. -/
theorem ipv6_tail {s0 : St} {h : List Byte} {off : Nat} {z : List Item} {Q : Post}
    (hs : Pr r7 ((Spec.byteAt h 6).setWidth 64) s) (he : s.stk = s0.stk) (hw : s.w = s0.w)
    (hm : Mem E C i 0 s.stk) (hd : Dyn s.stk off) (hoff : off < 1000)
    (hn : Spec.startsExt (Spec.byteAt h 6) = false) (hz : Ipv6K E gs C i r7 h off s0 z Q) :
    wp E gs ([it (.ldx .w .r2 .r10 (ctx oL3Off)), it (.alu true .add .r2 (.k 40)),
      it (.stx .w .r10 (ctx oL4Off) .r2)] ++ z) 0 Q s := by
  simp only [List.cons_append, List.nil_append]
  refine wp_ldCtxP (v := .sc (BitVec.ofNat 64 off)) hs hd.l3off (by simp [oL3Off, Size.bytes]) ?_
  have p1 := hs.set (d := .r2) (.sc (BitVec.ofNat 64 off)) trivial
  refine wp_alu (v := .sc (BitVec.ofNat 64 (off + 40))) (by simp) ?_ ?_
  · rw [St.set_same]
    simp only [srcVal, aluVal, alu64]
    congr 2
    apply BitVec.eq_of_toNat_eq
    rw [show (BitVec.signExtend 64 (40 : BitVec 32)) = 40 from rfl]
    simp only [BitVec.toNat_add, BitVec.toNat_ofNat]
    rw [show (BitVec.toNat (40 : BitVec 64)) = 40 from rfl]
    omega
  have p2 := p1.set (d := .r2) (.sc (BitVec.ofNat 64 (off + 40))) trivial
  refine wp_stCtx p2 (St.set_same _ _ _) rfl (by simp [oL4Off, Size.bytes]) ?_
  have p3 := p2.put (o := ctx oL4Off) ((leBytes 4 (BitVec.ofNat 64 (off + 40)).toNat).map .byte)
    (by simp [ctx, oL4Off])
  have ht : Spec.transportOf E.pkt C.chain.flagNexthdr .ip6 h off = (Spec.byteAt h 6, off + 40, []) := by
    simp only [Spec.transportOf, hn]; rfl
  refine hz _ _ 0 p3 ?_ ?_ ?_ ?_ hw
  · rw [← he]; exact Keep.put64 _ _ (by simp [Size.bytes])
  · exact hm.put (k := 64) (by simp [Size.bytes])
  · rw [ht]
    refine ⟨⟨_, rfl, rfl⟩, fun _ => ?_, ?_⟩
    rotate_left
    · simp only; omega
    exact off4_store _ _ (off + 40) (ofNat64_toNat (by omega)) (by omega)
  · rw [ht]; intro _; rfl

/-- The call of the stub following the extension headers. -/
theorem ipv6_stub {s0 : St} {h : List Byte} {off : Nat} {z : List Item} {Q : Post} {r8 : BitVec 64} {a b c : Item}
    (hs : Pr r7 r8 s) (he : s.stk = s0.stk) (hw : s.w = s0.w)
    (hm : Mem E C i 0 s.stk) (hd : Dyn s.stk off) (hoff : off < 1000) (h3 : L3At E s.stk h) (hl : h.length = 40)
    (hn : callsStub (Spec.byteAt h 6) = true) (hz : Ipv6K E gs C i r7 h off s0 z Q) :
    wp E gs ([it (mov .r1 .r10), it (addi .r1 (ctx oArg)), itF (.stub (ehStub C)) (.callRel 0), it (mov .r8 .r0),
      it (.ja 3), a, b, c] ++ z) 0 Q s := by
  simp only [List.cons_append, List.nil_append]
  refine hs.ptr (d := .r1) trivial (by simp [oArg]) ?_
  intro s1 p1 e1 w1 v1 o1
  obtain ⟨m', b, eh', hst, hk, hm', hf, hx⟩ := ehStub_ok (C := C) (i := i) (h := h) (off := off) (t := s1) (by rw [e1]; exact hm)
    (by rw [e1]; exact hd) hoff (by rw [e1]; exact h3) hl v1 hn
  refine wp_stub hst ?_
  have p2 : Pr r7 r8 { s1 with stk := m' } := by
    refine ⟨p1.r10, p1.r7, p1.r8, ?_⟩
    intro o h1 h2
    have := hk o (by simp only [ctx]; omega)
    show ∃ b, m' o = _
    rw [this]
    exact p1.scr o h1 h2
  refine wp_mov (v := .sc (b.setWidth 64)) (by simp) (St.ret_r0 _ _) (by simp) ?_
  refine wp_ja (by decide) ?_
  refine hz _ _ eh' ((p2.ret _).set8 _) ?_ hm' hf hx (by simp [w1, hw])
  rw [← he, ← e1]; exact hk

theorem byte_cond_eq {b : Byte} {k : BitVec 32} (hk : k.toNat < 256) :
    condVal true .eq (.sc (b.setWidth 64)) (.sc (k.signExtend 64)) = some (decide (b = k.setWidth 8)) := by
  simp only [condVal, Cond.holds]
  congr 2
  rw [BitVec.signExtend_eq_setWidth_of_msb_false (by
    rw [BitVec.msb_eq_decide]; simp; omega)]
  rw [← BitVec.toNat_inj]
  have := b.isLt
  simp only [BitVec.toNat_setWidth]
  apply propext
  constructor <;> intro h <;> omega

/-- stub.c:247-317. -/
theorem ipv6_wp {h : List Byte} {off : Nat} {z : List Item} {Q : Post} {p : Val}
    (hs : Pr r7 r8 s) (h0 : s.r .r0 = p) (hp : HPtr E s.stk p h)
    (hm : Mem E C i 0 s.stk) (hd : Dyn s.stk off) (hoff : off < 1000) (h3 : L3At E s.stk h) (hl : h.length = 40)
    (hz : Ipv6K E gs C i r7 h off s z Q) : wp E gs (ipv6F C ++ z) 0 Q s := by
  unfold ipv6F
  simp only [List.cons_append, List.nil_append]
  refine wp_ldx (v := .sc ((Spec.byteAt h 6).setWidth 64)) ?_ ?_
  · rw [h0, ← leNat_take1 (by omega)]
    exact hp.load (o := 6) (n := 1) (fun _ _ => rfl) (by omega) (by omega)
  have p1 := hs.set8 ((Spec.byteAt h 6).setWidth 64)
  generalize ht : s.set .r8 (.sc ((Spec.byteAt h 6).setWidth 64)) = t at p1 ⊢
  have e1 : t.stk = s.stk := by subst ht; rfl
  have w1 : t.w = s.w := by subst ht; rfl
  generalize hnh : Spec.byteAt h 6 = nh at p1
  have tail : ∀ t', Pr r7 (nh.setWidth 64) t' → t'.stk = s.stk → t'.w = s.w → Spec.startsExt nh = false →
      wp E gs ([it (.ldx .w .r2 .r10 (ctx oL3Off)), it (.alu true .add .r2 (.k 40)),
        it (.stx .w .r10 (ctx oL4Off) .r2)] ++ z) 0 Q t' := by
    intro t' p e w hn
    refine ipv6_tail (h := h) (by rw [hnh]; exact p) e w (by rw [e]; exact hm) (by rw [e]; exact hd) hoff (by rw [hnh]; exact hn) hz
  have stub : ∀ t', Pr r7 (nh.setWidth 64) t' → t'.stk = s.stk → t'.w = s.w → callsStub nh = true →
      ∀ a b c, wp E gs ([it (mov .r1 .r10), it (addi .r1 (ctx oArg)), itF (.stub (ehStub C)) (.callRel 0), it (mov .r8 .r0),
      it (.ja 3), a, b, c] ++ z) 0 Q t' := by
    intro t' p e w hn a b c
    exact ipv6_stub p e w (by rw [e]; exact hm) (by rw [e]; exact hd) hoff (by rw [e]; exact h3) hl (by rw [hnh]; exact hn) hz
  simp only [List.cons_append, List.nil_append] at tail stub
  refine wp_jmp (b := decide (nh = 6)) ?_ (by decide) ?_ ?_
  · rw [p1.r8]; exact byte_cond_eq (k := 6) (by decide)
  · intro hb
    exact tail _ p1 e1 w1 (tcp_udp_startsExt _ (Or.inl (by simpa using hb)))
  intro _
  refine wp_jmp (b := decide (nh = 17)) ?_ (by decide) ?_ ?_
  · rw [p1.r8]; exact byte_cond_eq (k := 17) (by decide)
  · intro hb
    exact tail _ p1 e1 w1 (tcp_udp_startsExt _ (Or.inr (by simpa using hb)))
  intro _
  refine wp_ld64 ?_
  have p2 := p1.set (d := .r2) (.sc lowEhBitmask) trivial
  -- what happens from the first of the three comparisons
  have cmps : ∀ t', Pr r7 (nh.setWidth 64) t' → t'.stk = s.stk → t'.w = s.w →
      (nh.toNat < 64 → (1 : BitVec 64) <<< nh.toNat &&& lowEhBitmask = 0) →
      wp E gs (it (.jmp true .eq .r8 (.k 135) 3) :: it (.jmp true .eq .r8 (.k 139) 2) :: it (.jmp true .eq .r8 (.k 140) 1) ::
        it (.ja 5) :: it (mov .r1 .r10) :: it (addi .r1 (ctx oArg)) :: itF (.stub (ehStub C)) (.callRel 0) ::
        it (mov .r8 .r0) :: it (.ja 3) :: it (.ldx .w .r2 .r10 (ctx oL3Off)) :: it (.alu true .add .r2 (.k 40)) ::
        it (.stx .w .r10 (ctx oL4Off) .r2) :: z) 0 Q t' := by
    intro t' p e w hbit
    refine wp_jmp (b := decide (nh = 135)) ?_ (by decide) ?_ ?_
    · rw [p.r8]; exact byte_cond_eq (k := 135) (by decide)
    · intro hb
      exact stub _ p e w (by have : nh = 135 := by simpa using hb
                             subst this; decide) _ _ _
    intro h1
    refine wp_jmp (b := decide (nh = 139)) ?_ (by decide) ?_ ?_
    · rw [p.r8]; exact byte_cond_eq (k := 139) (by decide)
    · intro hb
      exact stub _ p e w (by have : nh = 139 := by simpa using hb
                             subst this; decide) _ _ _
    intro h2
    refine wp_jmp (b := decide (nh = 140)) ?_ (by decide) ?_ ?_
    · rw [p.r8]; exact byte_cond_eq (k := 140) (by decide)
    · intro hb
      exact stub _ p e w (by have : nh = 140 := by simpa using hb
                             subst this; decide) _ _ _
    intro h3
    refine wp_ja (by decide) ?_
    refine tail _ p e w (callsStub_false _ ?_)
    unfold callsStub
    rw [h1, h2, h3]
    by_cases hlt : nh.toNat < 64
    · simp only [hbit hlt]; simp
    · simp [hlt]
  have hnlt := nh.isLt
  refine wp_jmp (b := decide (64 ≤ nh.toNat)) ?_ (by decide) ?_ ?_
  · rw [p2.r8]
    simp only [srcVal, condVal, Cond.holds]
    rw [show (BitVec.signExtend 64 (64 : BitVec 32)).toNat = 64 from rfl, BitVec.toNat_setWidth,
      Nat.mod_eq_of_lt (by omega)]
  · intro hb
    exact cmps _ p2 e1 w1 (by have : 64 ≤ nh.toNat := by simpa using hb
                              omega)
  intro hb
  have hlt : nh.toNat < 64 := by simpa using hb
  refine wp_movi (by simp) ?_
  have p3 := p2.set (d := .r3) (.sc ((1 : BitVec 32).signExtend 64)) trivial
  refine wp_alu (v := .sc ((1 : BitVec 64) <<< nh.toNat)) (by simp) ?_ ?_
  · rw [St.set_same]
    simp only [srcVal, p3.r8, aluVal, alu64]
    rw [show (BitVec.setWidth 64 nh).toNat % 64 = nh.toNat by rw [BitVec.toNat_setWidth]; omega]
    rfl
  have p4 := p3.set (d := .r3) (.sc ((1 : BitVec 64) <<< nh.toNat)) trivial
  refine wp_alu (v := .sc ((1 : BitVec 64) <<< nh.toNat &&& lowEhBitmask)) (by simp) ?_ ?_
  · rw [St.set_same]
    simp [srcVal, aluVal, alu64]
  have p5 := p4.set (d := .r3) (.sc ((1 : BitVec 64) <<< nh.toNat &&& lowEhBitmask)) trivial
  refine wp_jmp (b := decide ((1 : BitVec 64) <<< nh.toNat &&& lowEhBitmask ≠ 0)) ?_ (by decide) ?_ ?_
  · rw [St.set_same]
    simp only [srcVal, condVal, Cond.holds]
    congr 2
    rw [show (BitVec.signExtend 64 (0 : BitVec 32)) = 0 from rfl, Ne, BitVec.toNat_inj]
  · intro hb
    refine stub _ p5 e1 w1 ?_ _ _ _
    unfold callsStub
    rw [hb]
    simp [hlt]
  · intro hb
    exact cmps _ p5 e1 w1 (fun _ => by simpa using hb)

end Bf
