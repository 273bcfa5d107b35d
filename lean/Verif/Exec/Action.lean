import Verif.Exec.Guard
/-!
# Actions of a rule: mark, counter, verdict

Nothing here models code of the repository.
-/
namespace Bf

variable {E : Env} {gs : Groups} {K : Frame} {C : Cfg}

/-- Code that always runs to its end and changes the world by `f`. -/
def ActT (E : Env) (gs : Groups) (K : Frame) (f : World → World) (x : List Item) : Prop :=
  ∀ s, Inv K s → wp E gs x 0 ⟨fun s' => Inv K s' ∧ s'.w = f s.w, fun _ => False, fun _ _ => False⟩ s

theorem ActT.nil (E : Env) (gs : Groups) (K : Frame) : ActT E gs K (fun w => w) [] :=
  fun _ h => wp_nil.mpr ⟨h, rfl⟩

theorem ActT.append {f g : World → World} {x y : List Item} (hx : ActT E gs K f x)
    (hy : ActT E gs K g y) : ActT E gs K (fun w => g (f w)) (x ++ y) := by
  intro s hs
  apply wp_append
  refine wp_mono (hx s hs) ?_ (fun _ h => h) (fun _ _ h => h)
  intro s' h
  have := hy s' h.1
  rw [h.2] at this
  exact this

/-- Code that leaves the program. -/
def StopT (E : Env) (gs : Groups) (K : Frame) (f : World → BitVec 64 × World) (x : List Item) : Prop :=
  ∀ s, Inv K s → wp E gs x 0 ⟨fun _ => False, fun _ => False, fun v w => (v, w) = f s.w⟩ s

/-- What every program's context holds. -/
structure CtxFacts (E : Env) (C : Cfg) (K : Frame) (size : BitVec 64) : Prop where
  flavor : E.flavor = C.chain.hook.flavor
  arg : valOf (K.base.get (ctx oArg) 8) = some (.ptr .ctx 0)
  size : valOf (K.base.get (ctx oPktSize) 8) = some (.sc size)

theorem wp_stxF {sz : Size} {d r : Reg} {f : KField} {s s' : St} {x : List Item} {Q : Post}
    (hv : storeF E s (s.r d) f sz (s.r r) = some s')
    (hx : wp E gs x 0 Q s') : wp E gs (it (.stxF sz d f r) :: x) 0 Q s :=
  wp_seq (s' := s') (by simp [effect, hv, Eff.ofOpt]) hx

theorem setWidth_signExtend (k : BitVec 32) : (k.signExtend 64).setWidth 32 = k := by
  apply BitVec.eq_of_getLsbD_eq
  intro i hi
  simp [BitVec.getLsbD_signExtend, hi]
  intro h; omega

/-- tc.c:73-82, cgroup_skb.c:101-111. -/
theorem inlineSetMark_ok {size : BitVec 64} (hC : CtxFacts E C K size) (k : BitVec 32) :
    GenT (inlineSetMark C k) (fun _ x => ActT E gs K (fun w => { w with mark := k }) x) := by
  have key : C.chain.hook.flavor = .tc ∨ C.chain.hook.flavor = .cgroupSkb →
      GenT (emits [.ldx .dw .r1 .r10 (ctx oArg), movi .r2 k, .stxF .w .r1 .skbMark .r2])
        (fun _ x => ActT E gs K (fun w => { w with mark := k }) x) := by
    intro hfl
    refine .lastEmits ?_
    intro s hs
    refine wp_ldCtx hs (by simp [oArg]) hC.arg ?_
    refine wp_movi (by simp) ?_
    refine wp_stxF (s' := { (s.set .r1 (.ptr .ctx 0)).set .r2 (.sc (k.signExtend 64)) with
      w := { s.w with mark := k } }) ?_ ?_
    · rw [St.set_other _ _ _ _ (by simp), St.set_same, St.set_same]
      rw [← hC.flavor] at hfl
      rcases hfl with h | h <;> simp [storeF, h, setWidth_signExtend]
    · exact wp_nil.mpr ⟨((hs.set (d := .r1) _ trivial).set (d := .r2) _ trivial).setW _, rfl⟩
  unfold inlineSetMark
  split
  · next h => exact key (Or.inl h)
  · next h => exact key (Or.inr h)
  · exact GenT.fail _ _

/-- program.c:624-630, 875-882, stub.c:68-74. -/
theorem emitCounter_ok {size : BitVec 64} (hC : CtxFacts E C K size) (n : Nat) (hn : n < E.nCounters)
    (hn32 : n < 4294967296) :
    GenT (emitCounter n) (fun _ x => ActT E gs K (Spec.count size n) x) := by
  unfold emitCounter
  refine .thenEmits (.thenMap (.thenEmit (.lastStub ?_)))
  intro s hs
  refine wp_ctxPtr (k := 0) hs (d := .r1) trivial (by omega) ?_
  refine wp_ldMap (m := .counters) rfl ?_
  refine wp_mov32i (v := (BitVec.ofNat 32 n).setWidth 64) (by simp) rfl ?_
  have hi := (((hs.set (d := .r1) (.ptr .stack 0) trivial).set (d := .r1)
      (.ptr .stack (((0 : Nat) : Int) - 248)) trivial).set (d := .r2) (.map .counters) trivial).set
      (d := .r3) (.sc ((BitVec.ofNat 32 n).setWidth 64)) trivial
  refine wp_stub (s' := St.ret { (((s.set .r1 (.ptr .stack 0)).set .r1
      (.ptr .stack (((0 : Nat) : Int) - 248))).set .r2 (.map .counters)).set
      .r3 (.sc ((BitVec.ofNat 32 n).setWidth 64)) with w := Spec.count size n s.w } (.sc 0)) ?_ ?_
  · unfold stubSem
    rw [if_neg (by simp [ctxBase])]
    have e3 : (((BitVec.ofNat 32 n).setWidth 64).setWidth 32).toNat = n := by
      simp only [BitVec.toNat_setWidth, BitVec.toNat_ofNat]; omega
    have hsz : loadSc E ((((s.set .r1 (.ptr .stack 0)).set .r1
        (.ptr .stack (((0 : Nat) : Int) - 248))).set .r2 (.map .counters)).set
        .r3 (.sc ((BitVec.ofNat 32 n).setWidth 64))) (.ptr .stack ctxBase) 40 8 = some size := by
      have := hi.loadCtx (E := E) (fld := 40) (n := 8) (by omega)
      simp only [loadSc]
      erw [this]
      have hs' : valOf (K.base.get (ctx 40) 8) = some (.sc size) := hC.size
      rw [hs']
    simp only [hsz]
    simp only [regSc, St.set_same, St.set_other _ _ _ _ (show Reg.r2 ≠ .r3 by decide), e3, if_pos hn]
    rfl
  · exact wp_nil.mpr ⟨(hi.setW _).ret _, rfl⟩

theorem toNat_sext_int {c : Int} (h1 : -2147483648 ≤ c) (h2 : c < 2147483648) :
    (BitVec.ofInt 32 c).signExtend 64 = BitVec.ofInt 64 c := by
  apply BitVec.eq_of_toInt_eq
  rw [BitVec.toInt_signExtend_of_le (by omega), BitVec.toInt_ofInt, BitVec.toInt_ofInt]
  simp only [Int.bmod]
  omega

theorem getVerdict_spec {f : Flavor} {v : Verdict} {c : Int} (h : getVerdict f v = .ok c) :
    Spec.retCode f v = some c ∧ -1 ≤ c ∧ c ≤ 2 := by
  cases f <;> cases v <;> simp_all [getVerdict, Spec.retCode] <;> omega

/-- program.c:631-643, 883-887. -/
theorem emitVerdict_ok (v : Verdict) :
    GenT (emitVerdict C.chain.hook.flavor v) (fun _ x => StopT E gs K
      (fun w => (BitVec.ofInt 64 ((Spec.retCode C.chain.hook.flavor v).getD 0), w)) x) := by
  unfold emitVerdict
  refine .thenLift fun c hc => .thenEmit (.lastEmit ?_)
  obtain ⟨h1, h2, h3⟩ := getVerdict_spec hc
  intro s hs
  refine wp_movi (by simp) ?_
  refine wp_exit (v := BitVec.ofInt 64 c) ?_ ?_
  · rw [St.set_same, toNat_sext_int (by omega) (by omega)]
  · simp [h1]

/-- xdp.c:91-108, tc.c:132-148. -/
theorem inlineRedirect_ok (k : BitVec 32) (d : RedirDir) :
    GenT (inlineRedirect C k d) (fun _ x => StopT E gs K
      (fun w => (E.redirectRet k (if d = .ingress then 1 else 0),
        { w with redirect := some (k, if d = .ingress then 1 else 0) })) x) := by
  have key : ∀ (fl : BitVec 32) (f64 : BitVec 64), fl.signExtend 64 = f64 → 
      StopT E gs K (fun w => (E.redirectRet k f64, { w with redirect := some (k, f64) }))
        ([movi .r1 k, movi .r2 fl, .call .redirect, .exit].map it) := by
    intro fl f64 hf s hs
    refine wp_movi (by simp) (wp_movi (by simp) ?_)
    refine wp_call (s' := St.ret { (s.set .r1 (.sc (k.signExtend 64))).set .r2 (.sc (fl.signExtend 64)) with
      w := { s.w with redirect := some (k, f64) } } (.sc (E.redirectRet k f64))) ?_ ?_
    · simp only [helper, regSc, St.set_same, St.set_other _ _ _ _ (show Reg.r1 ≠ .r2 by decide),
        hf, Option.bind_some, Option.map_some, setWidth_signExtend]
      rfl
    · exact wp_exit (St.ret_r0 _ _) rfl
  unfold inlineRedirect
  split
  · split
    · exact GenT.fail _ _
    · next h =>
      have hd : d = .egress := by simpa using h
      subst hd
      exact .lastEmits (key 0 0 (by decide))
  · refine .lastEmits (key _ _ ?_)
    cases d <;> decide
  · exact GenT.fail _ _

end Bf
