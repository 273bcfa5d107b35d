import Verif.Exec.Cmp2
import Verif.Spec.Chain
/-!
# What the prologue establishes, and loads from headers

Nothing here models code of the repository.
-/
namespace Bf

/-- `p` points to the bytes `bs`, as long as the invariant holds. -/
def HdrAt (E : Env) (K : Frame) (p : Val) (bs : List Byte) : Prop :=
  ∀ s, Inv K s → ∀ o n : Nat, o + n ≤ bs.length →
    1 ≤ n → load E s p o n = some (.sc (BitVec.ofNat 64 (leNat ((bs.drop o).take n))))

/-- The header pointer stored in context field `fld` points to the bytes `bs`. -/
def HdrFld (E : Env) (K : Frame) (fld : Nat) (bs : List Byte) : Prop :=
  ∃ p, valOf (K.base.get (ctx fld) 8) = some p ∧ HdrAt E K p bs

/-- Context field of a layer's header pointer. -/
def Layer.fld : Layer → Nat
  | .l4 => oL4Hdr
  | _ => oL3Hdr

/-- What the prologue establishes about a packet program. -/
structure PktFacts (E : Env) (C : Cfg) (K : Frame) (i : Spec.Input) (v : Spec.View)
    (cap : Spec.Capture) : Prop where
  sa : K.sa = false
  r7 : K.r7 = BitVec.ofNat 64 (htobe16 v.l3Num)
  r8 : K.r8 = BitVec.ofNat 64 v.l4Num
  arg : valOf (K.base.get (ctx oArg) 8) = some (.ptr .ctx 0)
  size : valOf (K.base.get (ctx oPktSize) 8) = some (.sc i.size)
  ifindex : valOf (K.base.get (ctx oIfindex) 2) = some (.sc (BitVec.ofNat 64 (i.ifindex % 65536)))
  l3 : ∀ n h, v.l3 = some (n, h) → h.length = n.hdrLen ∧ HdrFld E K oL3Hdr h
  l4 : ∀ t h, v.l4 = some (t, h) → h.length = t.hdrLen ∧ HdrFld E K oL4Hdr h
  l4any : ∃ p, valOf (K.base.get (ctx oL4Hdr) 8) = some p
  eh : C.chain.flagNexthdr = true → ∃ x : BitVec 64, valOf (K.base.get (ctx oEh) 8) = some (.sc x) ∧
    ∀ n k, ehMask n = some k → ((x &&& k.signExtend 64 = 0) ↔
      (v.exts.any fun e => decide (e.toNat = n)) = false)
  logMap : C.chain.flagLog = true → valOf (K.base.get (ctx oLogMap) 8) = some (.map .log)
  stateMap : C.chain.flagRate = true → valOf (K.base.get (ctx oStateMap) 8) = some (.ptr .state 0)
  cap2 : ∀ s, Inv K s → captureHdr E s (.ptr .stack ctxBase) 80 49 16 = cap.l2
  cap3 : ∀ s, Inv K s → captureHdr E s (.ptr .stack ctxBase) 88 50 40 = cap.l3
  cap4 : ∀ s, Inv K s → captureHdr E s (.ptr .stack ctxBase) 96 51 24 = cap.l4

/-- Code that always runs to its end. -/
def Does (E : Env) (gs : Groups) (K : Frame) (x : List Item) (R : St → St → Prop) : Prop :=
  ∀ s, Inv K s → ∀ z Q, (∀ s', Inv K s' → R s s' → wp E gs z 0 Q s') → wp E gs (x ++ z) 0 Q s

variable {E : Env} {gs : Groups} {K : Frame} {C : Cfg} {i : Spec.Input} {v : Spec.View}
  {cap : Spec.Capture}

/-- Load of a 64-bit context field. -/
theorem wp_ldCtx {fld : Nat} {d : Reg} {p : Val} {x : List Item} {Q : Post} {s : St} (hs : Inv K s)
    (hf : fld + 8 ≤ 184) (hv : valOf (K.base.get (ctx fld) 8) = some p)
    (hx : wp E gs x 0 Q (s.set d p)) : wp E gs (it (.ldx .dw d .r10 (ctx fld)) :: x) 0 Q s := by
  refine wp_ldx ?_ hx
  have hb : Size.dw.bytes = 8 := rfl
  rw [hb, hs.load (by simp only [ctx]; omega) (by simp only [ctx]; omega)]
  exact hv

/-- Load of a field of a header. -/
theorem wp_ldHdr {sz : Size} {d : Reg} {off : Nat} {p : Val} {bs : List Byte} {x : List Item}
    {Q : Post} {s : St} (hs : Inv K s) (hp : HdrAt E K p bs) (hr : s.r .r6 = p)
    (ho : off + sz.bytes ≤ bs.length)
    (hx : wp E gs x 0 Q (s.set d (.sc (BitVec.ofNat 64 (leNat ((bs.drop off).take sz.bytes)))))) :
    wp E gs (it (.ldx sz d .r6 (off : Int)) :: x) 0 Q s := by
  refine wp_ldx ?_ hx
  rw [hr]
  exact hp s hs off sz.bytes ho (by cases sz <;> decide)

/-- packet.c:102-113: load a field into `R1` (and `R2`). -/
theorem pktLoad_gen (mt : Meta) (hl : mt.layer = .l3 ∨ mt.layer = .l4) (hsa : K.sa = false)
    (hsz : mt.size = 1 ∨ mt.size = 2 ∨ mt.size = 4 ∨ mt.size = 16) :
    GenT (pktLoad mt .r1) (fun _ x => ∀ bs, HdrFld E K mt.layer.fld bs →
      mt.off + mt.size ≤ bs.length →
      Does E gs K x fun s s' => s'.w = s.w ∧ Loaded s' ((bs.drop mt.off).take mt.size)) := by
  have hfree : Free K .r6 := hsa
  have hld : loadHeader mt .r6 = emit (.ldx .dw .r6 .r10 (ctx mt.layer.fld)) := by
    unfold loadHeader
    rcases hl with h | h <;> rw [h] <;> rfl
  have hfld : mt.layer.fld + 8 ≤ 184 := by
    rcases hl with h | h <;> rw [h] <;> simp [Layer.fld, oL3Hdr, oL4Hdr]
  unfold pktLoad
  rw [hld]
  refine .thenEmit ?_
  have one : ∀ sz : Size, sz ≠ .dw → mt.size = sz.bytes → ∀ bs, HdrFld E K mt.layer.fld bs →
      mt.off + mt.size ≤ bs.length →
      Does E gs K (it (.ldx .dw .r6 .r10 (ctx mt.layer.fld)) :: [it (.ldx sz .r1 .r6 mt.off)])
        fun s s' => s'.w = s.w ∧ Loaded s' ((bs.drop mt.off).take mt.size) := by
    intro sz hdw hsize bs ⟨p, hp1, hp2⟩ hlen s hs z Q hz
    refine wp_ldCtx hs hfld hp1 ?_
    refine wp_ldHdr (hs.set _ hfree) hp2 (by simp) (by omega) ?_
    refine hz _ ((hs.set _ hfree).set _ trivial) ⟨rfl, ?_, ?_⟩
    · rw [St.set_same, ← hsize, List.take_of_length_le (l := (bs.drop mt.off).take mt.size)]
      simp only [List.length_take]
      have : sz.bytes ≤ 8 := by cases sz <;> decide
      omega
    · intro h
      simp only [List.length_take] at h
      have : sz.bytes ≤ 8 := by cases sz <;> decide
      omega
  unfold loadField
  rcases hsz with h | h | h | h <;> rw [h]
  · exact .lastEmit (by rw [← h]; exact one .b (by simp) h)
  · exact .lastEmit (by rw [← h]; exact one .h (by simp) h)
  · exact .lastEmit (by rw [← h]; exact one .w (by simp) h)
  · refine .thenEmit (.lastEmit ?_)
    intro bs ⟨p, hp1, hp2⟩ hlen s hs z Q hz
    refine wp_ldCtx hs hfld hp1 ?_
    refine wp_ldHdr (hs.set _ hfree) hp2 (by simp) (by simp [Size.bytes]; omega) ?_
    refine wp_ldHdr ((hs.set _ hfree).set _ trivial) hp2 (by simp) (by simp [Size.bytes]; omega) ?_
    refine hz _ (((hs.set _ hfree).set (d := .r1) _ trivial).set _ trivial) ⟨rfl, ?_, ?_⟩
    · simp [Reg.succ, Size.bytes, List.take_take]
    · intro _
      simp only [Reg.succ, Size.bytes, St.set_same]
      congr 3
      rw [List.drop_take, List.drop_drop]

end Bf
