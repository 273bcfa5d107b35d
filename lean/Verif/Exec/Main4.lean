import Verif.Exec.Main3
import Verif.Exec.Sock2
/-!
# Whole programs

Nothing here models code of the repository.
-/
namespace Bf

variable {E : Env} {gs : Groups} {C : Cfg} {K : Frame}

/-- The switch converting an address family, with the exact value of the register. -/
theorem familySwich_exact (reg : Reg) :
    GenT (familySwich reg) (fun _ x => ∀ s (f : BitVec 64), Pr 0 0 s → s.r reg = .sc f → ∀ z Q,
      (∀ s', Pr (BitVec.ofNat 64 (htobe16 (match Spec.Net.ofFamily f.toNat with | some n => n.etherType | none => 0))) 0 s' →
        s'.stk = s.stk → s'.w = s.w →
        (∀ r, r ≠ .r7 → s'.r r = s.r r) → wp E gs z 0 Q s') → wp E gs (x ++ z) 0 Q s) := by
  unfold familySwich
  refine (GenT.of_emits (emits_swich2 _ _ _ _ _ _)).mono ?_
  rintro _ _ rfl s f hs hr z Q hz
  have k2 : f = (2 : BitVec 32).signExtend 64 ↔ f.toNat = 2 := by rw [← BitVec.toNat_inj]; rfl
  have k10 : f = (10 : BitVec 32).signExtend 64 ↔ f.toNat = 10 := by rw [← BitVec.toNat_inj]; rfl
  have ho : ∀ (v : Val) r, r ≠ Reg.r7 → (s.set .r7 v).r r = s.r r := fun v r h => St.set_other _ _ _ _ h
  refine wp_swich2 (n := f) hr ?_ ?_ ?_
  · intro h
    refine ⟨s.set .r7 (.sc 8), rfl, hz _ ?_ rfl rfl (ho _)⟩
    rw [k2.mp h]; exact hs.set7 _
  · intro _ h
    refine ⟨s.set .r7 (.sc 0xDD86), rfl, hz _ ?_ rfl rfl (ho _)⟩
    rw [k10.mp h]; exact hs.set7 _
  · intro h1 h2
    refine ⟨s.set .r7 (.sc 0), rfl, hz _ ?_ rfl rfl (ho _)⟩
    unfold Spec.Net.ofFamily
    rw [if_neg (fun h => h1 (k2.mpr h)), if_neg (fun h => h2 (k10.mpr h))]
    exact hs.set7 _

theorem load_sock (hEf : E.flavor = .sockAddr) (s : St) {o n : Nat} (h : o + n ≤ 72) :
    load E s (.ptr .ctx 0) o n = some (.sc (BitVec.ofNat 64 (leNat ((E.sock.drop o).take n)))) := by
  simp only [load]
  rw [if_pos ⟨hEf, by omega, by simp only [sockSize]; omega⟩]
  simp

/-- cgroup_sock_addr.c:40-78. -/
theorem prologueSockAddr_ok (hEf : E.flavor = .sockAddr) (habi : Spec.SockAbi E.sock) :
    GenT prologueSockAddr (fun _ x => ∀ s, Pr 0 0 s → Pre C s.stk → s.r .r1 = .ptr .ctx 0 → ∀ z Q,
      (∀ s', Pr (BitVec.ofNat 64 (htobe16 (Spec.sockView E.sock).l3Num)) (BitVec.ofNat 64 (Spec.sockView E.sock).proto) s' →
        Pre C s'.stk → valOf (s'.stk.get (ctx oPktSize) 8) = some (.sc 0) → s'.r .r6 = .ptr .ctx 0 → s'.w = s.w →
        wp E gs z 0 Q s') → wp E gs (x ++ z) 0 Q s) := by
  unfold prologueSockAddr
  refine .thenEmits ((familySwich_exact (E := E) (gs := gs) .r2).then fun _ y hy => ?_)
  refine .lastEmit ?_
  intro s hs hpre h1 z Q hz
  simp only [List.map_cons, List.map_nil, List.cons_append, List.nil_append, List.append_assoc]
  refine wp_alu (v := .ptr .ctx 0) (by simp) (by simp only [srcVal]; rw [h1]; rfl) ?_
  have p1 := hs.set (d := .r6) (.ptr .ctx 0) trivial
  refine wp_stCtxI p1 (by simp [oPktSize, Size.bytes]) ?_
  have p2 := p1.put (o := ctx oPktSize) ((leBytes 8 ((0 : BitVec 32).signExtend 64).toNat).map .byte) (by simp [ctx, oPktSize])
  refine wp_ldx (v := .sc (BitVec.ofNat 64 (leNat ((E.sock.drop 28).take 4)))) ?_ ?_
  · show load E _ ((s.set .r6 (.ptr .ctx 0)).r .r6) _ _ = _
    rw [St.set_same]
    exact load_sock hEf _ (by decide)
  have p3 := p2.set (d := .r2) (.sc (BitVec.ofNat 64 (leNat ((E.sock.drop 28).take 4)))) trivial
  refine hy _ _ p3 (St.set_same ..) _ Q ?_
  intro s' p4 e4 w4 o4
  have h6 : s'.r .r6 = .ptr .ctx 0 := by
    rw [o4 _ (by simp), St.set_other _ _ _ _ (by simp)]
    exact St.set_same s .r6 (.ptr .ctx 0)
  refine wp_ldx (v := .sc (BitVec.ofNat 64 (leNat ((E.sock.drop 36).take 4)))) ?_ ?_
  · rw [h6]; exact load_sock hEf _ (by decide)
  have l28 : (BitVec.ofNat 64 (leNat ((E.sock.drop 28).take 4))).toNat = Spec.host E.sock 28 4 := by
    have h := leNat_lt4 (a := (E.sock.drop 28).take 4) (by have := habi.size; simp; omega)
    exact ofNat64_toNat (by omega)
  rw [l28] at p4
  have p5 := p4.set8 (BitVec.ofNat 64 (leNat ((E.sock.drop 36).take 4)))
  have es : (s'.set .r8 (.sc (BitVec.ofNat 64 (leNat ((E.sock.drop 36).take 4))))).stk =
    s.stk.put (ctx oPktSize) ((leBytes 8 ((0 : BitVec 32).signExtend 64).toNat).map .byte) := e4
  refine hz _ p5 ?_ ?_ ?_ w4
  · rw [es]; exact hpre.put (k := oPktSize) (by simp [oPktSize])
  · rw [es]; exact get_scCells _ _ 8 0 (by omega) (by decide)
  · rw [St.set_other _ _ _ _ (by simp)]; exact h6

/-- The program of a socket hook does what is specified. -/
theorem genMain_sock (hE : EnvOk E C) (hC : CfgOk C) (hfl : C.chain.hook.flavor = .sockAddr) :
    GenN (FixOk C) (genMain C) (fun _ x => 0 < x.length ∧ ∀ w,
      wp E C.groups x 0 ⟨fun _ => False, fun _ => False, fun r w' =>
        (r, w') = Spec.evalView (sockCtx E C (Spec.sockView E.sock)) C.chain.policy C.chain.rules w⟩ (initSt E w)) := by
  have hEf : E.flavor = .sockAddr := hE.flavor.trans hfl
  have habi := hE.sock hfl
  rw [genMain_eq]
  refine (entry_ok (E := E) (gs := C.groups)).then FixOk.noNext fun _ x1 ⟨h1, hpos⟩ _ => ?_
  have hp : prologue C = prologueSockAddr := by unfold prologue; rw [hfl]
  have hpro := prologueSockAddr_ok (C := C) (gs := C.groups) hEf habi
  rw [← hp] at hpro
  refine (GenT.inRule hpro (GS.prologue C) (GN.prologue C)).then FixOk.noNext fun _ x2 h2 _ => ?_
  refine (state_ok (E := E) (gs := C.groups)).then FixOk.noNext fun _ x3 h3 _ => ?_
  have htail := GenN.all (ι := Frame) (tail_shape C)
    (H := fun k => SockFacts E C k (Spec.sockView E.sock)) (fun k hk => tail_ok hE hC (SockFacts.sem hE hC hk))
  refine GenN.mono htail (fun _ h => h) fun _ x4 h4 => ⟨by simp; omega, fun w => ?_⟩
  refine h1 w _ _ fun s hs hpre hr1 hw => ?_
  refine h2 s hs hpre hr1 _ _ ?_
  intro s' ps' hp hsz h6 hw'
  refine h3 _ _ s' ps' _ _ fun t pt hsame hst hwt ht6 => ?_
  have g : ∀ {k n : Nat}, (k + n ≤ 32 ∨ 40 ≤ k) → k + n ≤ 184 → t.stk.get (ctx k) n = s'.stk.get (ctx k) n :=
    fun h1 h2 => Same.get hsame h1 h2
  have hF : SockFacts E C ⟨t.stk, BitVec.ofNat 64 (htobe16 (Spec.sockView E.sock).l3Num),
      BitVec.ofNat 64 (Spec.sockView E.sock).proto, true⟩ (Spec.sockView E.sock) := by
    refine ⟨rfl, rfl, habi, rfl, rfl, hEf, hfl, ?_, ?_, ?_, hst⟩
    · show valOf (t.stk.get (ctx oArg) 8) = _
      rw [g (by simp [oArg]) (by simp [oArg])]; exact hp.arg
    · show valOf (t.stk.get (ctx oPktSize) 8) = _
      rw [g (by simp [oPktSize]) (by simp [oPktSize])]; exact hsz
    · intro hf
      show valOf (t.stk.get (ctx oLogMap) 8) = _
      rw [g (by simp [oLogMap]) (by simp [oLogMap])]; exact hp.logMap hf
  have hinv : Inv ⟨t.stk, BitVec.ofNat 64 (htobe16 (Spec.sockView E.sock).l3Num),
      BitVec.ofNat 64 (Spec.sockView E.sock).proto, true⟩ t :=
    ⟨pt.r10, pt.r7, pt.r8, fun _ => by rw [ht6, h6], fun _ _ => rfl, pt.scr⟩
  refine wp_mono (h4 _ hF t hinv) ?_ ?_ ?_
  · intro u hu; cases hu.2
  · intro u hu; cases hu.2
  · intro r w' hx
    have hx' : Spec.Step.stop _ _ = Spec.Step.stop r w' := hx
    injection hx' with e1 e2
    rw [← e1, ← e2, hwt, hw', hw]

end Bf
