import Verif.Exec.Sock
import Verif.Exec.Main3
/-!
# Log, prologue and whole `sock_addr` programs

Nothing here models code of the repository.
-/
namespace Bf

variable {E : Env} {gs : Groups} {K : Frame} {C : Cfg} {v : Spec.SockView}

theorem Stack.get_add (m : Stack) (o : Int) (a b : Nat) : m.get o (a + b) = m.get o a ++ m.get (o + a) b := by
  induction a generalizing o with
  | zero => simp [Stack.get]
  | succ a ih =>
    have e : a + 1 + b = (a + b) + 1 := by omega
    have e2 : o + ((a + 1 : Nat) : Int) = o + 1 + (a : Int) := by omega
    rw [e, e2]
    simp only [Stack.get, ih, List.cons_append]

/-- cgroup_sock_addr.c:164-194: store of an address. -/
theorem saStore_gen (k size : Nat) (hsz : size = 4 ∨ size = 16) (hk : k + size ≤ 64) :
    GenT (saStoreField (scr k) size) (fun _ x => ∀ fb s, fb.length = size → Inv K s → Loaded s fb → ∀ z Q,
      (∀ s', Inv K s' → s'.w = s.w → s'.stk = s.stk.put (scr k) (fb.map .byte) → wp E gs z 0 Q s') →
      wp E gs (x ++ z) 0 Q s) := by
  have key : ∀ bs : List Byte, bs.length ≤ 8 → leBytes bs.length (BitVec.ofNat 64 (leNat bs)).toNat = bs := by
    intro bs h
    rw [ofNat64_toNat (Nat.lt_of_lt_of_le (leNat_lt bs)
      (Nat.le_trans (Nat.pow_le_pow_right (by omega) h) (by decide))), leBytes_leNat]
  rcases hsz with rfl | rfl
  · refine .lastEmit ?_
    intro fb s hl hs hld z Q hz
    have h1 := hld.1
    rw [List.take_of_length_le (by omega)] at h1
    refine wp_stx (s' := { s with stk := s.stk.put (scr k) (fb.map .byte) }) ?_ ?_
    · rw [h1, hs.storeScr (n := Size.w.bytes) _ (by simp only [scr]; omega) (by simp only [scr, Size.bytes]; omega),
        show Size.w.bytes = fb.length from hl.symm, key fb (by omega)]
    · exact hz _ (hs.put _ (by simp only [scr]; omega)) rfl rfl
  · refine .lastEmits ?_
    intro fb s hl hs hld z Q hz
    have l8 : (fb.take 8).length = 8 := by simp; omega
    have r8 : (fb.drop 8).length = 8 := by simp; omega
    have h2 := hld.2 hl
    refine wp_stx (s' := { s with stk := s.stk.put (scr k) ((fb.take 8).map .byte) }) ?_ ?_
    · rw [hld.1, hs.storeScr (n := Size.dw.bytes) _ (by simp only [scr]; omega) (by simp only [scr, Size.bytes]; omega),
        show Size.dw.bytes = (fb.take 8).length from l8.symm, key _ (by omega)]
    have hs1 : Inv K { s with stk := s.stk.put (scr k) ((fb.take 8).map .byte) } := hs.put _ (by simp only [scr]; omega)
    refine wp_stx (s' := { s with stk := (s.stk.put (scr k) ((fb.take 8).map .byte)).put (scr k + 8) ((fb.drop 8).map .byte) }) ?_ ?_
    · have e2 : ({ s with stk := s.stk.put (scr k) ((fb.take 8).map .byte) } : St).r .r2 =
          .sc (BitVec.ofNat 64 (leNat (fb.drop 8))) := h2
      rw [e2, hs1.storeScr (n := Size.dw.bytes) _ (by simp only [scr]; omega) (by simp only [scr, Size.bytes]; omega),
        show Size.dw.bytes = (fb.drop 8).length from r8.symm, key _ (by omega)]
    · have hi := hs1.put (o := scr k + 8) (fb.drop 8) (by simp only [scr]; omega)
      refine hz _ hi rfl ?_
      show (s.stk.put (scr k) ((fb.take 8).map .byte)).put (scr k + 8) ((fb.drop 8).map .byte) = _
      have : scr k + 8 = scr k + (((fb.take 8).map Cell.byte).length : Nat) := by rw [List.length_map, l8]; rfl
      rw [this, Stack.put_put, ← List.map_append, List.take_append_drop]

/-- Zeroing of the first five words of the scratch area. -/
theorem wp_zero5 {s : St} (hs : Inv K s) {z : List Item} {Q : Post}
    (hz : ∀ s', Inv K s' → s'.w = s.w →
      s'.stk = s.stk.put (scr 0) ((List.replicate 40 (0 : Byte)).map .byte) → wp E gs z 0 Q s') :
    wp E gs (([.st .dw .r10 (scr 0) 0, .st .dw .r10 (scr 8) 0, .st .dw .r10 (scr 16) 0,
      .st .dw .r10 (scr 24) 0, .st .dw .r10 (scr 32) 0].map it) ++ z) 0 Q s := by
  have step : ∀ (k : Nat) (s : St) (z : List Item) (Q : Post), k + 8 ≤ 64 → Inv K s →
      (Inv K { s with stk := s.stk.put (scr k) ((List.replicate 8 (0 : Byte)).map .byte) } →
        wp E gs z 0 Q { s with stk := s.stk.put (scr k) ((List.replicate 8 (0 : Byte)).map .byte) }) →
      wp E gs (it (.st .dw .r10 (scr k) 0) :: z) 0 Q s := by
    intro k s z Q hk hs h
    refine wp_st (s' := { s with stk := s.stk.put (scr k) ((List.replicate 8 (0 : Byte)).map .byte) }) ?_
      (h (hs.put _ (by simp only [scr]; omega)))
    rw [hs.storeScr (n := Size.dw.bytes) _ (by simp only [scr]; omega) (by simp only [scr, Size.bytes]; omega)]
    rfl
  simp only [List.map_cons, List.map_nil, List.cons_append, List.nil_append]
  refine step 0 s _ Q (by omega) hs fun h1 => ?_
  refine step 8 _ _ Q (by omega) h1 fun h2 => ?_
  refine step 16 _ _ Q (by omega) h2 fun h3 => ?_
  refine step 24 _ _ Q (by omega) h3 fun h4 => ?_
  refine step 32 _ _ Q (by omega) h4 fun h5 => ?_
  refine hz _ h5 rfl ?_
  show ((((s.stk.put (scr 0) _).put (scr 8) _).put (scr 16) _).put (scr 24) _).put (scr 32) _ = _
  have e : ∀ (m : Stack) (n : Nat), (m.put (scr 0) ((List.replicate n (0 : Byte)).map .byte)).put (scr n)
      ((List.replicate 8 (0 : Byte)).map .byte) = m.put (scr 0) ((List.replicate (n + 8) (0 : Byte)).map .byte) := by
    intro m n
    have : scr n = scr 0 + (((List.replicate n (0 : Byte)).map Cell.byte).length : Nat) := by simp [scr]; omega
    rw [this, Stack.put_put, ← List.map_append, List.replicate_append_replicate]
  rw [e _ 8, e _ 16, e _ 24, e _ 32]

/-- An address stored over zeros. -/
theorem addr_region {m : Stack} {o : Int} {fb : List Byte} (hl : fb.length ≤ 16)
    (hz : m.get o 16 = (List.replicate 16 (0 : Byte)).map .byte) :
    (m.put o (fb.map .byte)).get o 16 = (fb ++ List.replicate (16 - fb.length) (0 : Byte)).map .byte := by
  have e : 16 = fb.length + (16 - fb.length) := by omega
  have h1 : m.get (o + fb.length) (16 - fb.length) = (List.replicate (16 - fb.length) (0 : Byte)).map .byte := by
    rw [e, Stack.get_add, ← List.replicate_append_replicate, List.map_append] at hz
    exact (List.append_inj hz (by simp)).2
  conv => lhs; rw [e]
  rw [Stack.get_add, Stack.get_put_same _ _ _ _ (by simp), Stack.get_put_other _ _ _ _ _ (by simp), h1, List.map_append]

/-- The protocols given to the log stub. -/
theorem protoArgS (a b : Nat) (ha : a < 65536) (hb : b < 65536) :
    let pr := alu64 .or (alu64 .lsh (BitVec.ofNat 64 (htobe16 a)) ((16 : BitVec 32).signExtend 64))
      (BitVec.ofNat 64 b)
    (swap16 (pr >>> 16)).setWidth 16 = BitVec.ofNat 16 a ∧ pr.setWidth 8 = BitVec.ofNat 8 b := by
  have hlt := htobe16_lt a
  have e16 : (((16 : BitVec 32).signExtend 64).toNat) % 64 = 16 := by decide
  have hpr : (alu64 .or (alu64 .lsh (BitVec.ofNat 64 (htobe16 a)) ((16 : BitVec 32).signExtend 64))
      (BitVec.ofNat 64 b)).toNat = htobe16 a * 65536 + b := by
    simp only [alu64, e16, BitVec.toNat_or, BitVec.toNat_shiftLeft, BitVec.toNat_ofNat]
    rw [Nat.mod_eq_of_lt (show htobe16 a < 2 ^ 64 by omega), Nat.mod_eq_of_lt (show b < 2 ^ 64 by omega)]
    rw [Nat.shiftLeft_eq]
    rw [Nat.mod_eq_of_lt (show htobe16 a * 2 ^ 16 < 2 ^ 64 by omega)]
    have := Nat.shiftLeft_add_eq_or_of_lt (show b < 2 ^ 16 by omega) (htobe16 a)
    rw [Nat.shiftLeft_eq] at this
    omega
  refine ⟨?_, ?_⟩
  · apply BitVec.eq_of_toNat_eq
    simp only [swap16, BitVec.toNat_setWidth, BitVec.toNat_ofNat, BitVec.toNat_ushiftRight, hpr]
    rw [Nat.shiftRight_eq_div_pow]
    have e1 : (htobe16 a * 65536 + b) / 2 ^ 16 = htobe16 a := by omega
    rw [e1]
    have e2 : 256 * (htobe16 a % 256) + htobe16 a / 256 % 256 = a := swap_htobe ha
    rw [e2]
    omega
  · apply BitVec.eq_of_toNat_eq
    simp only [BitVec.toNat_setWidth, BitVec.toNat_ofNat, hpr]
    omega

/-- The scratch area as the log stub reads it. -/
structure SaArea (t : St) (sad : Option (List Byte)) (dad : List Byte) (dp : Nat) : Prop where
  s : ∀ b, sad = some b → stackBytes t (ctxBase + 184) 16 = some b
  d : stackBytes t (ctxBase + 184 + 16) 16 = some dad
  p : t.stk.get (scr 32) 2 = (leBytes 2 dp).map .byte

theorem SaArea.congr {t t' : St} {sad : Option (List Byte)} {dad : List Byte} {dp : Nat} (h : SaArea t sad dad dp)
    (e : t'.stk = t.stk) : SaArea t' sad dad dp := by
  obtain ⟨h1, h2, h3⟩ := h
  unfold stackBytes at h1 h2
  refine ⟨?_, ?_, by rw [e]; exact h3⟩ <;> unfold stackBytes <;> rw [e] <;> assumption

/-- The call of the log stub. -/
theorem saLogCall_ok (hF : SockFacts E C K v) (hl : C.chain.flagLog = true) (r : Rule) {cap : Bool}
    {sad : Option (List Byte)} {dad : List Byte} {dp : Nat} (hcap : cap = sad.isSome) (hdp : dp < 65536)
    (hent : ∀ now, Spec.sockEntry C.chain.hook v r now =
      { ts := now, ruleId := BitVec.ofNat 32 r.index, verdict := BitVec.ofNat 32 r.verdict.code
        l3Proto := BitVec.ofNat 16 v.l3Num, l4Proto := BitVec.ofNat 8 v.proto
        isPkt := false, saddr := sad, daddr := dad, dport := BitVec.ofNat 16 dp
        captured := if cap then 1 else 0 }) :
    GenT (do
      emits [mov .r1 .r10, addi .r1 (ctx oArg), movi .r2 (BitVec.ofNat 32 r.index),
        movi .r3 (BitVec.ofNat 32 r.verdict.code), mov .r4 .r7, .alu true .lsh .r4 (.k 16),
        .alu true .or .r4 (.x .r8), movi .r5 (if cap then 1 else 0)]
      emitStub .sockAddrLog) (fun _ x => ∀ s, Inv K s → SaArea s sad dad dp →
        wp E gs x 0 ⟨fun s' => Inv K s' ∧ s'.w = Spec.publish (sockCtx E C v) r s.w, fun _ => False, fun _ _ => False⟩ s) := by
  refine .thenEmits (.lastStub ?_)
  intro s hs ha
  simp only [List.map_cons, List.map_nil, List.cons_append, List.nil_append]
  refine wp_ctxPtr (k := 0) hs (d := .r1) trivial (by omega) ?_
  refine wp_movi (by simp) (wp_movi (by simp) ?_)
  refine wp_mov (v := .sc K.r7) (by simp) (by simpa using hs.r7) (by simp) ?_
  refine wp_alu (v := .sc (alu64 .lsh K.r7 ((16 : BitVec 32).signExtend 64))) (by simp) (by simp [aluVal, srcVal]) ?_
  refine wp_alu (v := .sc (alu64 .or (alu64 .lsh K.r7 ((16 : BitVec 32).signExtend 64)) K.r8)) (by simp) (by
    simp [aluVal, srcVal, hs.r8]) ?_
  refine wp_movi (by simp) ?_
  have hi : Inv K ((((((((s.set .r1 (.ptr .stack 0)).set .r1 (.ptr .stack (((0 : Nat) : Int) - 248))).set .r2
      (.sc ((BitVec.ofNat 32 r.index).signExtend 64))).set .r3
      (.sc ((BitVec.ofNat 32 r.verdict.code).signExtend 64))).set .r4 (.sc K.r7)).set .r4
      (.sc (alu64 .lsh K.r7 ((16 : BitVec 32).signExtend 64)))).set .r4
      (.sc (alu64 .or (alu64 .lsh K.r7 ((16 : BitVec 32).signExtend 64)) K.r8))).set .r5
      (.sc ((if cap then 1 else 0 : BitVec 32).signExtend 64))) :=
    (((((((hs.set (d := .r1) _ trivial).set (d := .r1) _ trivial).set (d := .r2) _ trivial).set (d := .r3) _ trivial).set
      (d := .r4) _ trivial).set (d := .r4) _ trivial).set (d := .r4) _ trivial).set (d := .r5) _ trivial
  generalize hst : ((((((((s.set .r1 (.ptr .stack 0)).set .r1 (.ptr .stack (((0 : Nat) : Int) - 248))).set .r2
      (.sc ((BitVec.ofNat 32 r.index).signExtend 64))).set .r3
      (.sc ((BitVec.ofNat 32 r.verdict.code).signExtend 64))).set .r4 (.sc K.r7)).set .r4
      (.sc (alu64 .lsh K.r7 ((16 : BitVec 32).signExtend 64)))).set .r4
      (.sc (alu64 .or (alu64 .lsh K.r7 ((16 : BitVec 32).signExtend 64)) K.r8))).set .r5
      (.sc ((if cap then 1 else 0 : BitVec 32).signExtend 64))) = t at hi
  have hw : t.w = s.w := by subst hst; rfl
  have hstk : t.stk = s.stk := by subst hst; rfl
  have h1 : t.r .r1 = .ptr .stack ctxBase := by subst hst; simp [ctxBase]
  have h2 : regSc t .r2 = some ((BitVec.ofNat 32 r.index).signExtend 64) := by subst hst; simp [regSc]
  have h3 : regSc t .r3 = some ((BitVec.ofNat 32 r.verdict.code).signExtend 64) := by subst hst; simp [regSc]
  have h4 : regSc t .r4 = some (alu64 .or (alu64 .lsh K.r7 ((16 : BitVec 32).signExtend 64)) K.r8) := by
    subst hst; simp [regSc]
  have h5 : regSc t .r5 = some ((if cap then 1 else 0 : BitVec 32).signExtend 64) := by subst hst; simp [regSc]
  have hm : load E t (.ptr .stack ctxBase) 24 8 = some (.map .log) := by
    have := hi.loadCtx (E := E) (fld := 24) (n := 8) (by omega)
    erw [this]; exact hF.logMap hl
  have hb := ha.congr hstk
  have hd := hb.d
  have hpv : loadSc E t (.ptr .stack ctxBase) (184 + 32) 2 = some (BitVec.ofNat 64 dp) := by
    simp only [loadSc, load]
    rw [if_pos (by simp [ctxBase, stackSize])]
    have e : ctxBase + (184 + 32) = scr 32 := by simp [ctxBase, scr]
    rw [e, hb.p, valOf_bytes _ (by simp [leBytes]), leNat_leBytes, Nat.mod_eq_of_lt (by omega)]
  obtain ⟨p1, p2⟩ := protoArgS v.l3Num v.proto (sock_l3Num_lt v) hF.proto_lt
  rw [← hF.r7, ← hF.r8] at p1 p2
  have hdp16 : (BitVec.ofNat 64 dp).setWidth 16 = BitVec.ofNat 16 dp := sw16_64
  refine wp_stub (s' := St.ret { t with w := Spec.publish (sockCtx E C v) r s.w }
    (.sc (if E.ringOk s.w.ring then 0 else 1))) ?_ ?_
  · unfold stubSem
    rw [if_neg (by rw [h1]; simp)]
    simp only [h2, h3, h4, h5, hm, hpv, hd]
    unfold Spec.publish
    simp only [sockCtx, Spec.sockSem, kernelOf, hw, hent]
    by_cases hrk : E.ringOk s.w.ring = true
    · simp only [hrk, if_true, p1, p2, setWidth_signExtend, hdp16]
      cases cap with
      | true =>
        cases hsad : sad with
        | none => rw [hsad] at hcap; cases hcap
        | some b =>
          rw [hsad] at hb
          have e1 : ((if true = true then 1 else 0 : BitVec 32).signExtend 64).getLsbD 0 = true := by decide
          have e2 : ((if true = true then 1 else 0 : BitVec 32).signExtend 64).setWidth 8 = 1 := by decide
          rw [e1, if_pos rfl, hb.s b rfl, e2]
          rfl
      | false =>
        cases hsad : sad with
        | some b => rw [hsad] at hcap; cases hcap
        | none =>
          have e1 : ((if false = true then 1 else 0 : BitVec 32).signExtend 64).getLsbD 0 = false := by decide
          have e2 : ((if false = true then 1 else 0 : BitVec 32).signExtend 64).setWidth 8 = 0 := by decide
          rw [e1, if_neg (by decide), e2]
          rfl
    · have hrk' : E.ringOk s.w.ring = false := by simpa using hrk
      simp only [hrk', Bool.false_eq_true, if_false]
  · exact wp_nil.mpr ⟨(hi.setW _).ret _, rfl⟩

theorem sa_stackBytes {t : St} {o : Int} {k n : Nat} {bs : List Byte} (he : o = scr k) (hk : k + n ≤ 64)
    (h : t.stk.get (scr k) n = bs.map .byte) : stackBytes t o n = some bs := by
  unfold stackBytes
  rw [he, if_pos (by simp only [stackSize, scr]; omega), h, cellBytes_map_byte]

/-- cgroup_sock_addr.c:446-535: the log entry, given what is logged. -/
theorem saLogBody_ok (hF : SockFacts E C K v) (hl : C.chain.flagLog = true) (r : Rule) (so : Option Nat) (size da : Nat)
    (hsz : size = 4 ∨ size = 16) (hso : ∀ o, so = some o → o + size ≤ 72) (hda : da + size ≤ 72)
    (hent : ∀ now, Spec.sockEntry C.chain.hook v r now =
      { ts := now, ruleId := BitVec.ofNat 32 r.index, verdict := BitVec.ofNat 32 r.verdict.code
        l3Proto := BitVec.ofNat 16 v.l3Num, l4Proto := BitVec.ofNat 8 v.proto
        isPkt := false
        saddr := so.map fun o => (E.sock.drop o).take size ++ List.replicate (16 - size) 0
        daddr := (E.sock.drop da).take size ++ List.replicate (16 - size) 0
        dport := BitVec.ofNat 16 (Spec.beNat v.dport)
        captured := if so.isSome then 1 else 0 })
    (hshape : saLogShape C.chain.hook = some (so, size, da)) :
    GenT (saLog C r) (fun _ x => ActT E gs K (Spec.publish (sockCtx E C v) r) x) := by
  have hlen := hF.abi.size
  have len : ∀ o, o + size ≤ 72 → ((E.sock.drop o).take size).length = size := by
    intro o h; simp only [List.length_take, List.length_drop]; omega
  have hplen : v.dport.length = 2 := by
    rw [hF.view]; simp only [Spec.sockView, List.length_take, List.length_drop]; omega
  obtain ⟨hsw, hdp⟩ := swap16_be hplen
  have heq : saLog C r = (do
      emits [.st .dw .r10 (scr 0) 0, .st .dw .r10 (scr 8) 0, .st .dw .r10 (scr 16) 0,
        .st .dw .r10 (scr 24) 0, .st .dw .r10 (scr 32) 0]
      let _ ← (match so with
        | some so => do saLoadField so size; saStoreField (scr 0) size
        | none => pure ())
      saLoadField da size
      saStoreField (scr 16) size
      saLoadField saUserPort 4
      emit (.bswap16 .r1)
      saStoreField (scr 32) 2
      emits [mov .r1 .r10, addi .r1 (ctx oArg), movi .r2 (BitVec.ofNat 32 r.index),
        movi .r3 (BitVec.ofNat 32 r.verdict.code), mov .r4 .r7, .alu true .lsh .r4 (.k 16),
        .alu true .or .r4 (.x .r8), movi .r5 (if so.isSome then 1 else 0)]
      emitStub .sockAddrLog) := by
    unfold saLog
    rw [hshape]
    cases so with
    | none => rfl
    | some o => simp only [gen_assoc]
  rw [heq]
  refine .thenEmits ?_
  -- the source address
  have hsrc : GenT (match so with
      | some so => do saLoadField so size; saStoreField (scr 0) size
      | none => pure ()) (fun _ x => ∀ s, Inv K s → ∀ z Q,
        (∀ s', Inv K s' → s'.w = s.w → (∀ o, so = some o →
          s'.stk = s.stk.put (scr 0) (((E.sock.drop o).take size).map .byte)) → (so = none → s'.stk = s.stk) →
          wp E gs z 0 Q s') → wp E gs (x ++ z) 0 Q s) := by
    cases hs0 : so with
    | none => exact .lastPure fun s hs z Q hz => hz s hs rfl (by simp) (by simp)
    | some o =>
      refine (saLoadField_gen (gs := gs) hF o size hsz (hso o hs0)).then fun _ x hx => ?_
      refine (saStore_gen (E := E) (gs := gs) (K := K) 0 size hsz (by omega)).mono fun _ y hy s hs z Q hz => ?_
      rw [List.append_assoc]
      refine hx s hs _ Q ?_
      rintro s1 i1 ⟨w1, e1, l1⟩
      refine hy _ s1 (len o (hso o hs0)) i1 l1 z Q fun s2 i2 w2 e2 => ?_
      refine hz s2 i2 (by rw [w2, w1]) ?_ (by simp)
      intro o' ho'
      cases ho'
      rw [e2, e1]
  refine hsrc.then fun _ x1 h1 => ?_
  refine (saLoadField_gen (gs := gs) hF da size hsz hda).then fun _ x2 h2 => ?_
  refine (saStore_gen (E := E) (gs := gs) (K := K) 16 size hsz (by omega)).then fun _ x3 h3 => ?_
  refine (saLoadField_gen (gs := gs) hF saUserPort 4 (by simp) (by simp [saUserPort])).then fun _ x4 h4 => ?_
  refine .thenEmit ?_
  have hst2 : saStoreField (scr 32) 2 = emit (.stx .h .r10 (scr 32) .r1) := rfl
  rw [hst2]
  refine .thenEmit ?_
  refine (saLogCall_ok (gs := gs) hF hl r (cap := so.isSome)
    (sad := so.map fun o => (E.sock.drop o).take size ++ List.replicate (16 - size) 0)
    (dad := (E.sock.drop da).take size ++ List.replicate (16 - size) 0) (dp := Spec.beNat v.dport) (by cases so <;> rfl) hdp
    hent).mono fun _ x5 h5 => ?_
  intro s hs
  refine wp_zero5 hs fun s0 i0 w0 e0 => ?_
  refine h1 s0 i0 _ _ fun s1 i1 w1 e1 n1 => ?_
  refine h2 s1 i1 _ _ ?_
  rintro s2 i2 ⟨w2, e2, l2⟩
  refine h3 _ s2 (len da hda) i2 l2 _ _ fun s3 i3 w3 e3 => ?_
  refine h4 s3 i3 _ _ ?_
  rintro s4 i4 ⟨w4, e4, l4⟩
  have lp := hF.port l4
  have r1 := lp.1
  rw [List.take_of_length_le (by omega)] at r1
  refine wp_bswap r1 ?_
  rw [hsw]
  have i5 := i4.set (d := .r1) (.sc (BitVec.ofNat 64 (Spec.beNat v.dport))) trivial
  refine wp_stx (s' := { s4.set .r1 (.sc (BitVec.ofNat 64 (Spec.beNat v.dport))) with
    stk := s4.stk.put (scr 32) ((leBytes 2 (Spec.beNat v.dport)).map .byte) }) ?_ ?_
  · rw [St.set_same, i5.storeScr (n := Size.h.bytes) _ (by simp [scr]) (by simp [scr, Size.bytes]), ofNat64_toNat (by omega)]
    rfl
  have hi6 : Inv K { s4.set .r1 (.sc (BitVec.ofNat 64 (Spec.beNat v.dport))) with
      stk := s4.stk.put (scr 32) ((leBytes 2 (Spec.beNat v.dport)).map .byte) } :=
    i5.put (o := scr 32) _ (by simp [scr])
  have hw6 : s4.w = s.w := by rw [w4, w3, w2, w1, w0]
  have z0 : s0.stk.get (scr 0) 16 = (List.replicate 16 (0 : Byte)).map .byte := by
    have := Stack.get_put_sub s.stk (scr 0) ((List.replicate 40 (0 : Byte)).map .byte) 0 16 (by simp)
    rw [e0]
    simpa using this
  have z16 : s0.stk.get (scr 16) 16 = (List.replicate 16 (0 : Byte)).map .byte := by
    have := Stack.get_put_sub s.stk (scr 0) ((List.replicate 40 (0 : Byte)).map .byte) 16 16 (by simp)
    rw [e0]
    have e : scr 0 + ((16 : Nat) : Int) = scr 16 := by simp [scr]
    rw [e] at this
    simpa using this
  have z1 : s1.stk.get (scr 16) 16 = (List.replicate 16 (0 : Byte)).map .byte := by
    cases hs0 : so with
    | none => rw [n1 hs0]; exact z16
    | some o =>
      rw [e1 o hs0, Stack.get_put_other _ _ _ _ _ (by simp only [List.length_map, len o (hso o hs0), scr]; omega)]
      exact z16
  have r16 : s4.stk.get (scr 16) 16 =
      ((E.sock.drop da).take size ++ List.replicate (16 - size) (0 : Byte)).map .byte := by
    rw [e4, e3, e2, addr_region (by rw [len da hda]; omega) z1, len da hda]
  have r0 : ∀ o, so = some o → s4.stk.get (scr 0) 16 =
      ((E.sock.drop o).take size ++ List.replicate (16 - size) (0 : Byte)).map .byte := by
    intro o ho
    rw [e4, e3, Stack.get_put_other _ _ _ _ _ (by simp [scr]), e2, e1 o ho,
      addr_region (by rw [len o (hso o ho)]; omega) z0, len o (hso o ho)]
  refine wp_mono (h5 _ hi6 ⟨?_, ?_, ?_⟩) ?_ (fun _ h => h) (fun _ _ h => h)
  · intro b hb
    simp only [Option.map_eq_some_iff] at hb
    obtain ⟨o, ho, rfl⟩ := hb
    refine sa_stackBytes (k := 0) (by simp [ctxBase, scr]) (by omega) ?_
    show (s4.stk.put _ _).get _ _ = _
    rw [Stack.get_put_other _ _ _ _ _ (by simp [scr]), r0 o ho]
  · refine sa_stackBytes (k := 16) (by simp [ctxBase, scr]) (by omega) ?_
    show (s4.stk.put _ _).get _ _ = _
    rw [Stack.get_put_other _ _ _ _ _ (by simp [scr]), r16]
  · exact Stack.get_put_same _ _ _ _ (by simp)
  · intro t ht
    refine ⟨ht.1, ?_⟩
    rw [ht.2]
    show Spec.publish _ _ s4.w = _
    rw [hw6]

/-- The log entry of a socket program. -/
theorem saLog_ok (hF : SockFacts E C K v) (hl : C.chain.flagLog = true) (r : Rule) :
    GenT (inlineLog C r) (fun _ x => ActT E gs K (Spec.publish (sockCtx E C v) r) x) := by
  have e : inlineLog C r = saLog C r := by
    unfold inlineLog
    rw [hF.hook]
  rw [e]
  have hv := hF.view
  have hlen := hF.abi.size
  have hh := hF.hook
  cases hk : C.chain.hook <;> rw [hk] at hh <;> first
    | exact absurd hh (by decide)
    | (refine saLogBody_ok hF hl r (some saSrcIp4) 4 saUserIp4 (by simp) (by simp [saSrcIp4]) (by simp [saUserIp4]) ?_
        (by rw [hk]; rfl)
       intro now; rw [hk]; unfold Spec.sockEntry; simp only [hv]; rfl)
    | (refine saLogBody_ok hF hl r none 4 saUserIp4 (by simp) (by simp) (by simp [saUserIp4]) ?_
        (by rw [hk]; rfl)
       intro now; rw [hk]; unfold Spec.sockEntry; simp only [hv]; rfl)
    | (refine saLogBody_ok hF hl r (some saSrcIp6) 16 saUserIp6 (by simp) (by simp [saSrcIp6]) (by simp [saUserIp6]) ?_
        (by rw [hk]; rfl)
       intro now; rw [hk]; unfold Spec.sockEntry; simp only [hv, Spec.sockView, Nat.sub_self, List.replicate_zero, List.append_nil]; rfl)
    | (refine saLogBody_ok hF hl r none 16 saUserIp6 (by simp) (by simp) (by simp [saUserIp6]) ?_
        (by rw [hk]; rfl)
       intro now; rw [hk]; unfold Spec.sockEntry; simp only [hv, Spec.sockView, Nat.sub_self, List.replicate_zero, List.append_nil]; rfl)

/-- What is known about a socket operation. -/
theorem SockFacts.sem (hE : EnvOk E C) (hC : CfgOk C) (hF : SockFacts E C K v) :
    SemFacts E C K (sockCtx E C v) where
  of := ⟨rfl, rfl, rfl⟩
  ctx := ⟨hE.flavor, hF.arg, hF.size⟩
  reg := hF.regOk
  state := hF.stateMap
  matcher r hr _ m hm _ := saMatcher_ok hF hE.sets hC.sets hC.groups m (hC.matchers r hr m hm)
  log r hr hd h0 := saLog_ok hF ((hC.chain.rule r hr).log hd h0) r

end Bf
