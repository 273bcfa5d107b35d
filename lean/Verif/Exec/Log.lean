import Verif.Exec.Action
/-!
# Log action of a rule

Nothing here models code of the repository.
-/
namespace Bf

variable {E : Env} {gs : Groups} {K : Frame} {C : Cfg} {i : Spec.Input} {v : Spec.View}
  {cap : Spec.Capture}

/-- The specification's context for a packet program. -/
def specCtx (E : Env) (C : Cfg) (i : Spec.Input) (v : Spec.View) (cap : Spec.Capture) : Spec.Sem :=
  Spec.pktSem C.chain.hook.flavor i v ⟨E.rng, E.clk, E.ringOk, E.redirectRet⟩ C.chain.sets C.thr cap

theorem swap_aux {lo hi : Nat} (h1 : lo < 256) (h2 : hi < 256) :
    256 * ((256 * lo + hi) % 256) + (256 * lo + hi) / 256 % 256 = 256 * hi + lo := by omega

theorem swap_htobe {a : Nat} (ha : a < 65536) : 256 * (htobe16 a % 256) + htobe16 a / 256 % 256 = a := by
  unfold htobe16
  rw [swap_aux (by omega) (by omega)]
  omega

/-- The protocols given to the log stub: network protocol in the high half, transport in the low. -/
theorem protoArg (a b : Nat) (ha : a < 65536) (hb : b < 256) :
    let pr := alu64 .or (alu64 .lsh (BitVec.ofNat 64 (htobe16 a)) ((16 : BitVec 32).signExtend 64))
      (BitVec.ofNat 64 b)
    (swap16 (pr >>> 16)).setWidth 16 = BitVec.ofNat 16 a ∧ pr.setWidth 8 = BitVec.ofNat 8 b := by
  have hlt := htobe16_lt a
  have e16 : (((16 : BitVec 32).signExtend 64).toNat) % 64 = 16 := by decide
  have hpr : (alu64 .or (alu64 .lsh (BitVec.ofNat 64 (htobe16 a)) ((16 : BitVec 32).signExtend 64))
      (BitVec.ofNat 64 b)).toNat = htobe16 a * 65536 + b := by
    simp only [alu64, e16, BitVec.toNat_or, BitVec.toNat_shiftLeft, BitVec.toNat_ofNat]
    rw [Nat.mod_eq_of_lt (show htobe16 a < 2 ^ 64 by omega), Nat.mod_eq_of_lt (show b < 2 ^ 64 by omega)]
    rw [Nat.shiftLeft_eq]
    rw [Nat.mod_eq_of_lt (show htobe16 a * 2 ^ 16 < 2 ^ 64 by omega)]
    have := Nat.shiftLeft_add_eq_or_of_lt (show b < 2 ^ 16 by omega) (htobe16 a)
    rw [Nat.shiftLeft_eq] at this
    omega
  refine ⟨?_, ?_⟩
  · apply BitVec.eq_of_toNat_eq
    simp only [swap16, BitVec.toNat_setWidth, BitVec.toNat_ofNat, BitVec.toNat_ushiftRight, hpr]
    rw [Nat.shiftRight_eq_div_pow]
    have e1 : (htobe16 a * 65536 + b) / 2 ^ 16 = htobe16 a := by omega
    rw [e1]
    have e2 : 256 * (htobe16 a % 256) + htobe16 a / 256 % 256 = a := swap_htobe ha
    rw [e2]
    omega
  · apply BitVec.eq_of_toNat_eq
    simp only [BitVec.toNat_setWidth, BitVec.toNat_ofNat, hpr]
    omega

theorem logArg (l : BitVec 8) :
    let hd := (BitVec.setWidth 32 l).signExtend 64
    (∀ k, k < 8 → hd.getLsbD k = l.getLsbD k) ∧ hd.setWidth 8 = l := by
  refine ⟨?_, ?_⟩
  · intro k hk
    rw [BitVec.getLsbD_signExtend, BitVec.getLsbD_setWidth]
    have h1 : decide (k < 64) = true := by simpa using (by omega)
    have h2 : decide (k < 32) = true := by simpa using (by omega)
    rw [h1, h2, if_pos (by omega)]
    simp
  · apply BitVec.eq_of_getLsbD_eq
    intro k hk
    rw [BitVec.getLsbD_setWidth, BitVec.getLsbD_signExtend, BitVec.getLsbD_setWidth]
    have h1 : decide (k < 64) = true := by simpa using (by omega)
    have h2 : decide (k < 32) = true := by simpa using (by omega)
    rw [h1, h2, if_pos (by omega)]
    simp [hk]

/-- bpf/pkt_log.bpf.c called by packet.c: one entry is published, with the packet's data. -/
theorem packetLog_ok (hF : PktFacts E C K i v cap) (hl : C.chain.flagLog = true) (r : Rule) :
    GenT (packetLog r) (fun _ x => ActT E gs K (Spec.publish (specCtx E C i v cap) r) x) := by
  unfold packetLog
  refine .thenEmits (.lastStub ?_)
  intro s hs
  simp only [List.map_cons, List.map_nil, List.cons_append, List.nil_append]
  refine wp_ctxPtr (k := 0) hs (d := .r1) trivial (by omega) ?_
  refine wp_movi (by simp) (wp_movi (by simp) (wp_movi (by simp) ?_))
  refine wp_mov (v := .sc K.r7) (by simp) (by simpa using hs.r7) (by simp) ?_
  refine wp_alu (v := .sc (alu64 .lsh K.r7 ((16 : BitVec 32).signExtend 64))) (by simp) (by simp [aluVal, srcVal]) ?_
  refine wp_alu (v := .sc (alu64 .or (alu64 .lsh K.r7 ((16 : BitVec 32).signExtend 64)) K.r8)) (by simp) (by
    simp [aluVal, srcVal, hs.r8]) ?_
  have hi : Inv K ((((((((s.set .r1 (.ptr .stack 0)).set .r1 (.ptr .stack (((0 : Nat) : Int) - 248))).set .r2
      (.sc ((BitVec.ofNat 32 r.index).signExtend 64))).set .r3 (.sc ((BitVec.setWidth 32 r.log).signExtend 64))).set .r4
      (.sc ((BitVec.ofNat 32 r.verdict.code).signExtend 64))).set .r5 (.sc K.r7)).set .r5
      (.sc (alu64 .lsh K.r7 ((16 : BitVec 32).signExtend 64)))).set .r5
      (.sc (alu64 .or (alu64 .lsh K.r7 ((16 : BitVec 32).signExtend 64)) K.r8))) :=
    (((((((hs.set (d := .r1) _ trivial).set (d := .r1) _ trivial).set (d := .r2) _ trivial).set (d := .r3) _ trivial).set
      (d := .r4) _ trivial).set (d := .r5) _ trivial).set (d := .r5) _ trivial).set (d := .r5) _ trivial
  generalize hst : ((((((((s.set .r1 (.ptr .stack 0)).set .r1 (.ptr .stack (((0 : Nat) : Int) - 248))).set .r2
      (.sc ((BitVec.ofNat 32 r.index).signExtend 64))).set .r3 (.sc ((BitVec.setWidth 32 r.log).signExtend 64))).set .r4
      (.sc ((BitVec.ofNat 32 r.verdict.code).signExtend 64))).set .r5 (.sc K.r7)).set .r5
      (.sc (alu64 .lsh K.r7 ((16 : BitVec 32).signExtend 64)))).set .r5
      (.sc (alu64 .or (alu64 .lsh K.r7 ((16 : BitVec 32).signExtend 64)) K.r8))) = t at hi
  have hw : t.w = s.w := by subst hst; rfl
  have h1 : t.r .r1 = .ptr .stack ctxBase := by subst hst; simp [ctxBase]
  have h2 : regSc t .r2 = some ((BitVec.ofNat 32 r.index).signExtend 64) := by subst hst; simp [regSc]
  have h3 : regSc t .r3 = some ((BitVec.setWidth 32 r.log).signExtend 64) := by subst hst; simp [regSc]
  have h4 : regSc t .r4 = some ((BitVec.ofNat 32 r.verdict.code).signExtend 64) := by subst hst; simp [regSc]
  have h5 : regSc t .r5 = some (alu64 .or (alu64 .lsh K.r7 ((16 : BitVec 32).signExtend 64)) K.r8) := by
    subst hst; simp [regSc]
  have hm : load E t (.ptr .stack ctxBase) 24 8 = some (.map .log) := by
    have := hi.loadCtx (E := E) (fld := 24) (n := 8) (by omega)
    erw [this]; exact hF.logMap hl
  have hsz : loadSc E t (.ptr .stack ctxBase) 40 8 = some i.size := by
    have := hi.loadCtx (E := E) (fld := 40) (n := 8) (by omega)
    simp only [loadSc]
    erw [this]
    have hs' : valOf (K.base.get (ctx 40) 8) = some (.sc i.size) := hF.size
    rw [hs']
  obtain ⟨p1, p2⟩ := protoArg v.l3Num v.l4Num (l3Num_lt v) (l4Num_lt v)
  rw [← hF.r7, ← hF.r8] at p1 p2
  obtain ⟨q1, q2⟩ := logArg r.log
  refine wp_stub (s' := St.ret { t with w := Spec.publish (specCtx E C i v cap) r s.w }
    (.sc (if E.ringOk s.w.ring then 0 else 1))) ?_ ?_
  · unfold stubSem
    rw [if_neg (by rw [h1]; simp)]
    simp only [h2, h3, h4, h5, hm, hsz]
    unfold Spec.publish
    simp only [specCtx, Spec.pktSem, Spec.pktEntry, hw]
    by_cases hrk : E.ringOk s.w.ring = true
    · simp only [hrk, if_true, p1, p2, q2, q1 0 (by omega), q1 1 (by omega), q1 2 (by omega),
        setWidth_signExtend, hF.cap2 t hi, hF.cap3 t hi, hF.cap4 t hi]
    · have hrk' : E.ringOk s.w.ring = false := by simpa using hrk
      simp only [hrk', Bool.false_eq_true, if_false]
  · exact wp_nil.mpr ⟨(hi.setW _).ret _, rfl⟩

/-- program.c:575-622: the log action, given what `gen_inline_log` publishes. -/
theorem ruleLog_gen (r : Rule) (P : World → World)
    (hlog : r.log ≠ 0 → GenT (inlineLog C r) (fun _ x => ActT E gs K P x))
    (hst : r.log ≠ 0 → r.rate ≠ 0 → valOf (K.base.get (ctx oStateMap) 8) = some (.ptr .state 0))
    (hn : r.index < E.nState) (h28 : r.index < 268435456) :
    GenT (ruleLog C r) (fun _ x => ActT E gs K (fun w =>
      if r.log = 0 then w
      else if r.rate = 0 then P w
      else
        let now := E.clk w.clk
        let w1 := { w with clk := w.clk + 1 }
        if (now - w.state r.index).toNat < r.rate.toNat then w1
        else P { w1 with state := fun i => if i = r.index then now else w.state i }) x) := by
  unfold ruleLog
  split
  · next hc =>
    have hl := hlog hc.1
    -- everything after the pointer is computed
    have tail : GenT (do
        emits [.call .ktime, .ldx .dw .r1 .r9 0, mov .r2 .r0, .alu true .sub .r2 (.x .r1),
          .ld64 .r1 r.rate, .pad]
        withJmp (.jmp true .lt .r2 (.x .r1) 0) (do
          emit (.stx .dw .r9 0 .r0)
          inlineLog C r)) (fun _ x => ∀ s, Inv K s → s.r .r9 = .ptr .state (8 * (r.index : Int)) →
            wp E gs x 0 ⟨fun s' => Inv K s' ∧ s'.w = (
              let now := E.clk s.w.clk
              let w1 := { s.w with clk := s.w.clk + 1 }
              if (now - s.w.state r.index).toNat < r.rate.toNat then w1
              else P { w1 with state := fun i => if i = r.index then now else s.w.state i }),
              fun _ => False, fun _ _ => False⟩ s) := by
      refine .thenEmits (.lastJmp (.thenEmit ?_))
      refine (hl.and (GL.inlineLog C r).gen).mono ?_
      intro _ x hx s hs h9
      simp only [List.map_cons, List.map_nil, List.cons_append, List.nil_append]
      refine wp_call (s' := St.ret { s with w := { s.w with clk := s.w.clk + 1 } } (.sc (E.clk s.w.clk))) rfl ?_
      have hi1 : Inv K (St.ret { s with w := { s.w with clk := s.w.clk + 1 } } (.sc (E.clk s.w.clk))) :=
        (hs.setW _).ret _
      generalize hs1 : St.ret { s with w := { s.w with clk := s.w.clk + 1 } } (.sc (E.clk s.w.clk)) = s1 at hi1
      have w1 : s1.w = { s.w with clk := s.w.clk + 1 } := by subst hs1; rfl
      have r9 : s1.r .r9 = .ptr .state (8 * (r.index : Int)) := by subst hs1; exact h9
      have r0 : s1.r .r0 = .sc (E.clk s.w.clk) := by subst hs1; rfl
      have hidx : (8 * (r.index : Int) + 0) / 8 = r.index := by omega
      refine wp_ldx (v := .sc (s.w.state r.index)) ?_ ?_
      · rw [r9, show Size.dw.bytes = 8 from rfl]
        simp only [load]
        rw [if_pos ⟨trivial, by omega, by omega, by omega⟩, hidx, w1]
        rfl
      refine wp_mov (v := .sc (E.clk s.w.clk)) (by simp) (by simpa using r0) (by simp) ?_
      refine wp_alu (v := .sc (E.clk s.w.clk - s.w.state r.index)) (by simp) (by simp [aluVal, srcVal, alu64]) ?_
      refine wp_ld64 ?_
      have hi2 := (((hi1.set (d := .r1) (.sc (s.w.state r.index)) trivial).set (d := .r2) (.sc (E.clk s.w.clk)) trivial).set (d := .r2)
        (.sc (E.clk s.w.clk - s.w.state r.index)) trivial).set (d := .r1) (.sc r.rate) trivial
      generalize hs2 : ((((s1.set .r1 (.sc (s.w.state r.index))).set .r2 (.sc (E.clk s.w.clk))).set .r2
        (.sc (E.clk s.w.clk - s.w.state r.index))).set .r1 (.sc r.rate)) = s2 at hi2
      have e1 : s2.r .r1 = .sc r.rate := by subst hs2; simp
      have e2 : s2.r .r2 = .sc (E.clk s.w.clk - s.w.state r.index) := by subst hs2; simp
      have e0 : s2.r .r0 = .sc (E.clk s.w.clk) := by subst hs2; simpa using r0
      have e9 : s2.r .r9 = .ptr .state (8 * (r.index : Int)) := by subst hs2; simpa using r9
      have ew : s2.w = { s.w with clk := s.w.clk + 1 } := by subst hs2; simpa using w1
      have := wp_skipBlock (E := E) (gs := gs) (w := true) (c := .lt) (d := .r2) (src := .x .r1) (s := s2)
        (y := it (.stx .dw .r9 0 .r0) :: x) (z := [])
        (b := decide ((E.clk s.w.clk - s.w.state r.index).toNat < r.rate.toNat))
        (Q := ⟨fun s' => Inv K s' ∧ s'.w = (
              let now := E.clk s.w.clk
              let w1 := { s.w with clk := s.w.clk + 1 }
              if (now - s.w.state r.index).toNat < r.rate.toNat then w1
              else P { w1 with state := fun i => if i = r.index then now else s.w.state i }),
              fun _ => False, fun _ _ => False⟩)
        (by simp [e2, e1, srcVal, condVal, Cond.holds]) (by have := hx.2.2; simp; omega) ?_ ?_
      · rw [List.append_nil] at this; exact this
      · intro hb
        have hb' : (E.clk s.w.clk - s.w.state r.index).toNat < r.rate.toNat := by simpa using hb
        refine wp_nil.mpr ⟨hi2, ?_⟩
        simp only [if_pos hb']
        exact ew
      · intro hb
        have hb' : ¬ (E.clk s.w.clk - s.w.state r.index).toNat < r.rate.toNat := by simpa using hb
        rw [List.append_nil]
        refine wp_stx (s' := { s2 with w := { s.w with
          clk := s.w.clk + 1
          state := (fun i => if i = r.index then E.clk s.w.clk else s.w.state i) } }) ?_ ?_
        · rw [e9, e0, show Size.dw.bytes = 8 from rfl]
          simp only [store]
          rw [if_pos ⟨trivial, by omega, by omega, by omega⟩, hidx, ew]
          rfl
        · have hx1 := hx.1 _ (hi2.setW { s.w with
            clk := s.w.clk + 1
            state := (fun i => if i = r.index then E.clk s.w.clk else s.w.state i) })
          refine wp_mono hx1 ?_ (fun _ h => h) (fun _ _ h => h)
          intro s' h'
          refine ⟨h'.1, ?_⟩
          simp only [if_neg hb']
          exact h'.2
    have body : GenT (do
        if r.index > 0 then emit (.alu true .add .r9 (.k (BitVec.ofNat 32 (r.index * 8))))
        else pure ()
        emits [.call .ktime, .ldx .dw .r1 .r9 0, mov .r2 .r0, .alu true .sub .r2 (.x .r1),
          .ld64 .r1 r.rate, .pad]
        withJmp (.jmp true .lt .r2 (.x .r1) 0) (do
          emit (.stx .dw .r9 0 .r0)
          inlineLog C r)) (fun _ x => ∀ s, Inv K s → s.r .r9 = .ptr .state 0 →
            wp E gs x 0 ⟨fun s' => Inv K s' ∧ s'.w = (
              let now := E.clk s.w.clk
              let w1 := { s.w with clk := s.w.clk + 1 }
              if (now - s.w.state r.index).toNat < r.rate.toNat then w1
              else P { w1 with state := fun i => if i = r.index then now else s.w.state i }),
              fun _ => False, fun _ _ => False⟩ s) := by
      dsimp only
      split
      · refine .thenEmit (tail.mono ?_)
        intro _ x hx s hs h9
        have e : ((BitVec.ofNat 32 (r.index * 8)).signExtend 64).toInt = 8 * (r.index : Int) := by
          rw [BitVec.toInt_eq_toNat_of_lt, sext_small (by omega)]
          · omega
          · rw [sext_small (by omega)]; omega
        refine wp_alu (v := .ptr .state (8 * (r.index : Int))) (by simp) (by simp [aluVal, srcVal, h9, e]) ?_
        exact hx _ (hs.set (d := .r9) _ trivial) (St.set_same _ _ _)
      · next h0 =>
        refine tail.mono ?_
        intro _ x hx s hs h9
        exact hx s hs (by rw [h9]; have : r.index = 0 := by omega
                          rw [this]; rfl)
    refine .thenEmit (.lastJmp ?_)
    have hlen := GL.ruleLog C r
    refine (body.and (T := fun _ x => x.length < 32768) ?_).mono ?_
    · dsimp only
      split
      · refine ((GL.bind (n := 1) (k := 77) (GL.emit _ (by sta)) fun _ => ?_).gen).mono fun _ x hx => by
          have := hx.2; omega
        refine GL.bind (n := 6) (k := 71) (GL.emitsN (by rfl) (by sta)) fun _ => ?_
        refine GL.jmp (n := 70) ?_ (by omega)
        exact (GL.bind (n := 1) (k := 60) (GL.emit _ (by sta)) fun _ => GL.inlineLog C r).le (by omega)
      · refine (GL.gen (n := 77) ?_).mono fun _ x hx => by
          have := hx.2; omega
        refine GL.bind (n := 6) (k := 71) (GL.emitsN (by rfl) (by sta)) fun _ => ?_
        refine GL.jmp (n := 70) ?_ (by omega)
        exact (GL.bind (n := 1) (k := 60) (GL.emit _ (by sta)) fun _ => GL.inlineLog C r).le (by omega)
    · intro _ x hx s hs
      refine wp_ldCtx hs (by simp [oStateMap]) (hst hc.1 hc.2) ?_
      have hi := hs.set (d := .r9) (.ptr .state 0) trivial
      have := wp_skipBlock (E := E) (gs := gs) (w := true) (c := .eq) (d := .r9) (src := .k 0)
        (s := s.set .r9 (.ptr .state 0)) (y := x) (z := []) (b := false)
        (Q := ⟨fun s' => Inv K s' ∧ s'.w = (
          if r.log = 0 then s.w else if r.rate = 0 then P s.w else
              let now := E.clk s.w.clk
              let w1 := { s.w with clk := s.w.clk + 1 }
              if (now - s.w.state r.index).toNat < r.rate.toNat then w1
              else P { w1 with state := fun i => if i = r.index then now else s.w.state i }),
              fun _ => False, fun _ _ => False⟩)
        (by simp [srcVal, condVal]) hx.2 (by simp) ?_
      · rw [List.append_nil] at this; exact this
      · intro _
        rw [List.append_nil]
        refine wp_mono (hx.1 _ hi (St.set_same _ _ _)) ?_ (fun _ h => h) (fun _ _ h => h)
        intro s' h'
        refine ⟨h'.1, ?_⟩
        rw [if_neg hc.1, if_neg hc.2]
        exact h'.2
  · next hc =>
    split
    · next hl0 =>
      have hr0 : r.rate = 0 := by
        by_cases h : r.rate = 0
        · exact h
        · exact absurd ⟨hl0, h⟩ hc
      refine (hlog hl0).mono fun _ x hx s hs => ?_
      have := hx s hs
      simp only [if_neg hl0, if_pos hr0]
      exact this
    · next hl0 =>
      refine .lastPure ?_
      have hl : r.log = 0 := by
        by_cases h : r.log = 0
        · exact h
        · exact absurd h hl0
      simp only [hl, if_true]
      exact ActT.nil E gs K

end Bf
