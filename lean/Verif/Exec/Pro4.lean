import Verif.Exec.Pro3
/-!
# Prologue: network header

Nothing here models code of the repository.
-/
namespace Bf

variable {E : Env} {gs : Groups} {C : Cfg} {r7 r8 : BitVec 64} {s : St} {i : Spec.Input} {eh : Byte} {m : Stack}

/-- The network header was found. -/
structure L3At (E : Env) (m : Stack) (h : List Byte) : Prop where
  ptr : ∃ p, valOf (m.get (ctx oL3Hdr) 8) = some p ∧ HPtr E m p h ∧ ∀ q, p = .ptr .stack q → q = ctx oL2
  size : m (ctx oL3Size) = .byte (BitVec.ofNat 8 h.length)
  len : h.length ≤ 40

/-- The transport header was found. -/
structure L4At (E : Env) (m : Stack) (h : List Byte) : Prop where
  ptr : ∃ p, valOf (m.get (ctx oL4Hdr) 8) = some p ∧ HPtr E m p h ∧ ∀ q, p = .ptr .stack q → q = ctx oL4
  size : m (ctx oL4Size) = .byte (BitVec.ofNat 8 h.length)
  len : h.length ≤ 24

theorem L3At.put {h : List Byte} (h3 : L3At E m h) {k : Nat} {cs : List Cell}
    (hk : k + cs.length ≤ 50 ∨ (51 ≤ k ∧ k + cs.length ≤ 88) ∨ (96 ≤ k ∧ k + cs.length ≤ 104) ∨ 160 ≤ k) :
    L3At E (m.put (ctx k) cs) h := by
  obtain ⟨p, h1, h2, hq⟩ := h3.ptr
  have hl := h3.len
  refine ⟨⟨p, ?_, ?_, hq⟩, ?_, hl⟩
  · rw [Stack.get_put_other _ _ _ _ _ (by simp only [ctx, oL3Hdr]; omega)]; exact h1
  · refine h2.put fun q e => ?_
    rw [hq q e]; simp only [ctx, oL2]; omega
  · rw [Stack.put_out _ _ _ _ (by simp only [ctx, oL3Size]; omega)]; exact h3.size

theorem L4At.put {h : List Byte} (h3 : L4At E m h) {k : Nat} {cs : List Cell}
    (hk : k + cs.length ≤ 51 ∨ (52 ≤ k ∧ k + cs.length ≤ 96)) :
    L4At E (m.put (ctx k) cs) h := by
  obtain ⟨p, h1, h2, hq⟩ := h3.ptr
  have hl := h3.len
  refine ⟨⟨p, ?_, ?_, hq⟩, ?_, hl⟩
  · rw [Stack.get_put_other _ _ _ _ _ (by simp only [ctx, oL4Hdr]; omega)]; exact h1
  · refine h2.put fun q e => ?_
    rw [hq q e]; simp only [ctx, oL4]; omega
  · rw [Stack.put_out _ _ _ _ (by simp only [ctx, oL4Size]; omega)]; exact h3.size

/-- Byte `o` of a header, as loaded. -/
theorem leNat_take1 {h : List Byte} {o : Nat} (ho : o < h.length) :
    BitVec.ofNat 64 (leNat ((h.drop o).take 1)) = (Spec.byteAt h o).setWidth 64 := by
  rw [List.drop_eq_getElem_cons ho, List.take_succ_cons, List.take_zero]
  unfold Spec.byteAt
  rw [List.getElem?_eq_getElem ho]
  apply BitVec.eq_of_toNat_eq
  simp [leNat]

/-- Where the transport header is: kind and position as computed by `transportOf`, as far as they
matter. -/
structure Found (r8 : BitVec 64) (m : Stack) (q : Byte × Nat × List Byte) : Prop where
  ex : ∃ b : Byte, r8 = b.setWidth 64 ∧ Spec.Trans.ofNum b = Spec.Trans.ofNum q.1
  off : Spec.Trans.ofNum q.1 ≠ none → valOf (m.get (ctx oL4Off) 4) = some (.sc (BitVec.ofNat 64 q.2.1))
  lt : q.2.1 < 4294967296

theorem off4_store (m : Stack) (v : BitVec 64) (n : Nat) (hv : v.toNat = n) (hn : n < 4294967296) :
    valOf ((m.put (ctx oL4Off) ((leBytes 4 v.toNat).map .byte)).get (ctx oL4Off) 4) =
      some (.sc (BitVec.ofNat 64 n)) := by
  rw [get_scCells _ _ 4 v (by omega) (by rw [hv]; exact hn)]
  congr 2
  apply BitVec.eq_of_toNat_eq
  rw [hv, BitVec.toNat_ofNat]
  omega

/-- stub.c:228-245. -/
theorem l3Ipv4_ok :
    GenT l3Ipv4 (fun _ x => ∀ r7 r8 s, Pr r7 r8 s → ∀ p h off, s.r .r0 = p → HPtr E s.stk p h →
      (∀ q, p = .ptr .stack q → q = ctx oL2) → h.length ≤ 40 → (r7 = 8 → 20 ≤ h.length) → valOf (s.stk.get (ctx oL3Off) 4) = some (.sc (BitVec.ofNat 64 off)) →
      off < 1000 → ∀ z Q,
      (r7 = 8 → ∀ s' (cs : List Byte), cs.length = 4 →
        Pr r7 ((Spec.byteAt h 9).setWidth 64) s' → s'.stk = s.stk.put (ctx oL4Off) (cs.map .byte) →
        valOf (s'.stk.get (ctx oL4Off) 4) =
          some (.sc (BitVec.ofNat 64 (off + 4 * ((Spec.byteAt h 0).toNat % 16)))) → s'.w = s.w →
        s'.r .r0 = p → wp E gs z 0 Q s') →
      (r7 ≠ 8 → wp E gs z 0 Q s) → wp E gs (x ++ z) 0 Q s) := by
  unfold l3Ipv4
  refine .lastJmp (.lastEmits ?_)
  intro r7 r8 s hp p h off h0 hpp hq h40 hlen hoff hol z Q hyes hno
  refine wp_skipBlock (b := decide (r7 ≠ 8)) ?_ (by simp) ?_ ?_
  · rw [hp.r7]
    simp only [srcVal, condVal, Cond.holds]
    congr 2
    rw [show (BitVec.signExtend 64 (0x0008 : BitVec 32)) = 8 from rfl, Ne, BitVec.toNat_inj]
  · intro h; exact hno (by simpa using h)
  intro h8
  have h8 : r7 = 8 := by simpa using h8
  have hl := hlen h8
  have hb : (Spec.byteAt h 0).toNat < 256 := (Spec.byteAt h 0).isLt
  simp only [List.map_cons, List.map_nil, List.cons_append, List.nil_append]
  refine wp_ldx (v := .sc ((Spec.byteAt h 0).setWidth 64)) ?_ ?_
  · rw [h0, ← leNat_take1 (by omega)]
    exact hpp.load (o := 0) (n := 1) (fun _ _ => rfl) (by omega) (by omega)
  refine wp_alu (v := .sc (BitVec.ofNat 64 ((Spec.byteAt h 0).toNat % 16))) (by simp) ?_ ?_
  · rw [St.set_same]
    simp only [srcVal, aluVal, alu64]
    congr 2
    apply BitVec.eq_of_toNat_eq
    rw [show (BitVec.signExtend 64 (0x0f : BitVec 32)) = 15 from rfl]
    simp only [BitVec.toNat_and, BitVec.toNat_setWidth, BitVec.toNat_ofNat]
    rw [show (BitVec.toNat (15 : BitVec 64)) = 2 ^ 4 - 1 from rfl, Nat.and_two_pow_sub_one_eq_mod]
    omega
  refine wp_alu (v := .sc (BitVec.ofNat 64 (4 * ((Spec.byteAt h 0).toNat % 16)))) (by simp) ?_ ?_
  · rw [St.set_same]
    simp only [srcVal, aluVal, alu64]
    congr 2
    apply BitVec.eq_of_toNat_eq
    rw [show (BitVec.signExtend 64 (2 : BitVec 32)).toNat % 64 = 2 from rfl]
    simp only [BitVec.toNat_shiftLeft, BitVec.toNat_ofNat, Nat.shiftLeft_eq]
    omega
  have p3 := ((hp.set (d := .r1) (.sc ((Spec.byteAt h 0).setWidth 64)) trivial).set (d := .r1)
    (.sc (BitVec.ofNat 64 ((Spec.byteAt h 0).toNat % 16))) trivial).set (d := .r1)
    (.sc (BitVec.ofNat 64 (4 * ((Spec.byteAt h 0).toNat % 16)))) trivial
  refine wp_ldCtxP (v := .sc (BitVec.ofNat 64 off)) p3 hoff (by simp [oL3Off, Size.bytes]) ?_
  have p4 := p3.set (d := .r2) (.sc (BitVec.ofNat 64 off)) trivial
  refine wp_alu (v := .sc (BitVec.ofNat 64 (off + 4 * ((Spec.byteAt h 0).toNat % 16)))) (by simp) ?_ ?_
  · rw [St.set_other _ _ _ _ (by simp), St.set_same]
    simp only [srcVal, aluVal, alu64, St.set_same]
    congr 2
    apply BitVec.eq_of_toNat_eq
    simp only [BitVec.toNat_add, BitVec.toNat_ofNat]
    omega
  have p5 := p4.set (d := .r1) (.sc (BitVec.ofNat 64 (off + 4 * ((Spec.byteAt h 0).toNat % 16)))) trivial
  refine wp_stCtx p5 (St.set_same _ _ _) rfl (by simp [oL4Off, Size.bytes]) ?_
  have p6 := p5.put (o := ctx oL4Off) ((leBytes 4 (BitVec.ofNat 64 (off + 4 * ((Spec.byteAt h 0).toNat % 16))).toNat).map .byte)
    (by simp [ctx, oL4Off])
  have htn : (BitVec.ofNat 64 (off + 4 * ((Spec.byteAt h 0).toNat % 16))).toNat =
      off + 4 * ((Spec.byteAt h 0).toNat % 16) := ofNat64_toNat (by omega)
  refine wp_ldx (v := .sc ((Spec.byteAt h 9).setWidth 64)) ?_ ?_
  · show Bf.load E _ (s.r .r0) 9 1 = _
    rw [h0]
    have hpp' := hpp.put (o := ctx oL4Off) (cs := (leBytes 4 (BitVec.ofNat 64 (off + 4 * ((Spec.byteAt h 0).toNat % 16))).toNat).map .byte)
      (by intro q e; rw [hq q e]; simp [ctx, oL2, oL4Off])
    refine (hpp'.load (o := 9) (n := 1) ?_ (by omega) (by omega)).trans (by rw [leNat_take1 (by omega)])
    intro _ _; rfl
  · refine hyes h8 _ _ (leBytes_length _ _) (p6.set8 _) rfl ?_ rfl h0
    exact off4_store _ _ _ htn (by omega)

/-! ### IPv6 -/

/-- The stub following the extension headers. -/
def ehStub (C : Cfg) : Stub := if C.chain.flagNexthdr then .parseIpv6Nh else .parseIpv6Eh

/-- Code of stub.c:247-317, inside the check of the network protocol. -/
def ipv6F (C : Cfg) : List Item :=
  [it (.ldx .b .r8 .r0 6), it (.jmp true .eq .r8 (.k 6) 17), it (.jmp true .eq .r8 (.k 17) 16),
   it (.ld64 .r2 lowEhBitmask), it .pad, it (.jmp true .ge .r8 (.k 64) 4),
   it (movi .r3 1), it (.alu true .lsh .r3 (.x .r8)), it (.alu true .and .r3 (.x .r2)),
   it (.jmp true .ne .r3 (.k 0) 4),
   it (.jmp true .eq .r8 (.k 135) 3), it (.jmp true .eq .r8 (.k 139) 2), it (.jmp true .eq .r8 (.k 140) 1),
   it (.ja 5),
   it (mov .r1 .r10), it (addi .r1 (ctx oArg)), itF (.stub (ehStub C)) (.callRel 0), it (mov .r8 .r0),
   it (.ja 3),
   it (.ldx .w .r2 .r10 (ctx oL3Off)), it (.alu true .add .r2 (.k 40)), it (.stx .w .r10 (ctx oL4Off) .r2)]

/-- The code inside the check of the network protocol. -/
def ipv6G (C : Cfg) : Gen Unit := do
    emit (.ldx .b .r8 .r0 6)
    let tcp ← jmpGet (.jmp true .eq .r8 (.k 6) 0)
    let udp ← jmpGet (.jmp true .eq .r8 (.k 17) 0)
    emits [.ld64 .r2 lowEhBitmask, .pad,
      .jmp true .ge .r8 (.k 64) 4,
      movi .r3 1, .alu true .lsh .r3 (.x .r8), .alu true .and .r3 (.x .r2),
      .jmp true .ne .r3 (.k 0) 4,
      .jmp true .eq .r8 (.k 135) 3, .jmp true .eq .r8 (.k 139) 2, .jmp true .eq .r8 (.k 140) 1]
    let noeh ← jmpGet (.ja 0)
    emits [mov .r1 .r10, addi .r1 (ctx oArg)]
    emitStub (ehStub C)
    emit (mov .r8 .r0)
    let eh ← jmpGet (.ja 0)
    jmpClean tcp
    jmpClean udp
    jmpClean noeh
    emits [.ldx .w .r2 .r10 (ctx oL3Off), .alu true .add .r2 (.k 40), .stx .w .r10 (ctx oL4Off) .r2]
    jmpClean eh

theorem l3Ipv6_eq (C : Cfg) : l3Ipv6 C = withJmp (.jmp true .ne .r7 (.k 0xDD86) 0) (ipv6G C) := rfl

theorem emits_ipv6 (C : Cfg) : Emits (ipv6G C) (.ok (ipv6F C)) := by
  intro p
  have h0 : p = p.app [] := by simp
  conv => lhs; rw [h0]
  simp only [ipv6G, bind_run, jmpGet_app, (emits_emit _).app, (emits_emits _).app, (emits_emitStub _).app,
    Res.ok_bind', List.nil_append, List.cons_append, List.length_nil, List.length_cons, List.map_cons, List.map_nil,
    Nat.reduceAdd]
  iterate 2
    rw [jmpClean_lit (by simp) rfl]
    simp only [Res.ok_bind', patch, Insn.setOff, List.modify_succ_cons, List.modify_zero_cons,
      List.length_nil, List.length_cons, Nat.reduceAdd]
  rw [jmpClean_lit (by simp) rfl]
  simp only [Res.ok_bind', patch, Insn.setOff, List.modify_succ_cons, List.modify_zero_cons,
      List.length_nil, List.length_cons, Nat.reduceAdd, List.cons_append, List.nil_append, bind_run,
      (emits_emits _).app, List.map_cons, List.map_nil]
  rw [jmpClean_lit (by simp) rfl]
  rfl

end Bf
