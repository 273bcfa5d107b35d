import Verif.Exec.Rule
/-!
# State of the program while its prologue runs

Nothing here models code of the repository.
-/
namespace Bf

variable {E : Env} {gs : Groups} {C : Cfg}

/-- Registers and scratch area while the prologue runs. -/
structure Pr (r7 r8 : BitVec 64) (s : St) : Prop where
  r10 : s.r .r10 = .ptr .stack 0
  r7 : s.r .r7 = .sc r7
  r8 : s.r .r8 = .sc r8
  scr : ∀ o, -64 ≤ o → o < 0 → ∃ b, s.stk o = .byte b

variable {r7 r8 : BitVec 64} {s : St}

theorem Pr.inv (h : Pr r7 r8 s) : Inv ⟨s.stk, r7, r8, false⟩ s :=
  ⟨h.r10, h.r7, h.r8, by simp, fun _ _ => rfl, h.scr⟩

/-- Registers the prologue uses freely. -/
def Tmp : Reg → Prop
  | .r7 | .r8 | .r10 => False
  | _ => True

theorem Pr.set (h : Pr r7 r8 s) {d : Reg} (v : Val) (hd : Tmp d) : Pr r7 r8 (s.set d v) := by
  have h7 : Reg.r7 ≠ d := by intro e; subst e; exact hd
  have h8 : Reg.r8 ≠ d := by intro e; subst e; exact hd
  have h10 : Reg.r10 ≠ d := by intro e; subst e; exact hd
  exact ⟨by rw [St.set_other _ _ _ _ h10]; exact h.r10, by rw [St.set_other _ _ _ _ h7]; exact h.r7,
    by rw [St.set_other _ _ _ _ h8]; exact h.r8, h.scr⟩

theorem Pr.set7 (h : Pr r7 r8 s) (v : BitVec 64) : Pr v r8 (s.set .r7 (.sc v)) :=
  ⟨by rw [St.set_other _ _ _ _ (by simp)]; exact h.r10, St.set_same _ _ _,
    by rw [St.set_other _ _ _ _ (by simp)]; exact h.r8, h.scr⟩

theorem Pr.set8 (h : Pr r7 r8 s) (v : BitVec 64) : Pr r7 v (s.set .r8 (.sc v)) :=
  ⟨by rw [St.set_other _ _ _ _ (by simp)]; exact h.r10, by rw [St.set_other _ _ _ _ (by simp)]; exact h.r7,
    St.set_same _ _ _, h.scr⟩

theorem Pr.ret (h : Pr r7 r8 s) (v : Val) : Pr r7 r8 (s.ret v) := ⟨h.r10, h.r7, h.r8, h.scr⟩

theorem Pr.put (h : Pr r7 r8 s) {o : Int} (cs : List Cell) (ho : o + cs.length ≤ -64) :
    Pr r7 r8 { s with stk := s.stk.put o cs } := by
  refine ⟨h.r10, h.r7, h.r8, ?_⟩
  intro x h1 h2
  show ∃ b, s.stk.put o cs x = .byte b
  rw [Stack.put_out _ _ _ _ (by omega)]
  exact h.scr x h1 h2

/-- A pointer to the bytes `h`, given the stack `m`: directly into the packet, or to a copy on the
stack below the scratch area. -/
def HPtr (E : Env) (m : Stack) (p : Val) (h : List Byte) : Prop :=
  (∃ base, p = .ptr (.pkt base h.length) 0 ∧ (E.pkt.drop base).take h.length = h) ∨
  (∃ o : Int, p = .ptr .stack o ∧ -248 ≤ o ∧ o + h.length ≤ -64 ∧ m.get o h.length = h.map .byte)

theorem get_sub (m : Stack) (o : Int) (N k n : Nat) (h : k + n ≤ N) :
    m.get (o + k) n = ((m.get o N).drop k).take n := by
  induction k generalizing o N with
  | zero =>
    simp only [List.drop_zero, Int.natCast_zero, Int.add_zero]
    induction n generalizing o N with
    | zero => simp [Stack.get]
    | succ n ih =>
      obtain ⟨N, rfl⟩ : ∃ N', N = N' + 1 := ⟨N - 1, by omega⟩
      simp only [Stack.get, List.take_succ_cons]
      rw [ih (o + 1) N (by omega)]
  | succ k ih =>
    obtain ⟨N, rfl⟩ : ∃ N', N = N' + 1 := ⟨N - 1, by omega⟩
    simp only [Stack.get, List.drop_succ_cons]
    rw [← ih (o + 1) N (by omega)]
    congr 1
    omega

theorem HPtr.load {m : Stack} {p : Val} {h : List Byte} (hp : HPtr E m p h) {s : St}
    (hs : ∀ o, o < -64 → s.stk o = m o) {o n : Nat} (ho : o + n ≤ h.length) (hn : 1 ≤ n) :
    load E s p o n = some (.sc (BitVec.ofNat 64 (leNat ((h.drop o).take n)))) := by
  rcases hp with ⟨base, rfl, e⟩ | ⟨q, rfl, h1, h2, e⟩
  · simp only [Bf.load]
    rw [if_pos (by omega)]
    congr 4
    rw [show (0 + (o : Int)).toNat = o by omega]
    conv => rhs; rw [← e]
    rw [List.drop_take, List.drop_drop, List.take_take]
    congr 1
    omega
  · simp only [Bf.load]
    rw [show stackSize = 248 from rfl, if_pos (by omega)]
    rw [Stack.get_congr (m' := m) (fun x _ hx => hs x (by omega)), get_sub m q h.length o n ho, e,
      ← List.map_drop, ← List.map_take]
    apply valOf_bytes
    intro hnil
    have := congrArg List.length hnil
    simp only [List.length_take, List.length_drop, List.length_nil] at this
    omega

theorem HPtr.hdrAt {m : Stack} {p : Val} {h : List Byte} (hp : HPtr E m p h) :
    HdrAt E ⟨m, r7, r8, false⟩ p h :=
  fun _ hs _ _ ho hn => hp.load hs.stk ho hn

theorem HPtr.probe {m : Stack} {p : Val} {h : List Byte} (hp : HPtr E m p h) {s : St}
    (hs : ∀ o, o < -64 → s.stk o = m o) : probeRead E s p h.length = h := by
  rcases hp with ⟨base, rfl, e⟩ | ⟨q, rfl, h1, h2, e⟩
  · simpa [probeRead] using e
  · simp only [probeRead]
    rw [Stack.get_congr (m' := m) (fun x _ hx => hs x (by omega)), e]
    simp

theorem HPtr.ne {m : Stack} {p : Val} {h : List Byte} (hp : HPtr E m p h) :
    ∃ r o, p = .ptr r o := by
  rcases hp with ⟨base, rfl, e⟩ | ⟨q, rfl, h1, h2, e⟩ <;> exact ⟨_, _, rfl⟩

/-- Writing elsewhere keeps what a pointer points to. -/
theorem HPtr.put {m : Stack} {p : Val} {h : List Byte} (hp : HPtr E m p h) {o : Int} {cs : List Cell}
    (hd : ∀ q : Int, p = .ptr .stack q → q + h.length ≤ o ∨ o + cs.length ≤ q) :
    HPtr E (m.put o cs) p h := by
  rcases hp with ⟨base, rfl, e⟩ | ⟨q, rfl, h1, h2, e⟩
  · exact Or.inl ⟨base, rfl, e⟩
  · refine Or.inr ⟨q, rfl, h1, h2, ?_⟩
    rw [Stack.get_put_other _ _ _ _ _ (hd q rfl), e]

/-- A context field holding a header pointer, or anything that does not point to what the program
changes later. -/
def HdrOk (m : Stack) (f : Nat) (cap : Nat) : Prop :=
  ∃ p, valOf (m.get (ctx f) 8) = some p ∧ ∀ o, p = .ptr .stack o → o + cap ≤ -64

/-- Context fields set at the beginning of the program. -/
structure Mem (E : Env) (C : Cfg) (i : Spec.Input) (eh : Byte) (m : Stack) : Prop where
  arg : valOf (m.get (ctx oArg) 8) = some (.ptr .ctx 0)
  size : valOf (m.get (ctx oPktSize) 8) = some (.sc i.size)
  ifindex : valOf (m.get (ctx oIfindex) 2) = some (.sc (BitVec.ofNat 64 (i.ifindex % 65536)))
  logMap : C.chain.flagLog = true → valOf (m.get (ctx oLogMap) 8) = some (.map .log)
  eh : C.chain.flagNexthdr = true → m (ctx oEh) = .byte eh
  ehB : ∀ x, ctx oEh ≤ x → x < ctx oL3Off → ∃ b, m x = .byte b
  h2 : HdrOk m oL2Hdr 16
  h3 : HdrOk m oL3Hdr 40
  h4 : HdrOk m oL4Hdr 24

variable {i : Spec.Input} {eh : Byte} {m : Stack}

theorem HdrOk.put {f cap : Nat} (h : HdrOk m f cap) {o : Int} {cs : List Cell}
    (hd : ctx f + 8 ≤ o ∨ o + cs.length ≤ ctx f) : HdrOk (m.put o cs) f cap := by
  obtain ⟨p, h1, h2⟩ := h
  exact ⟨p, by rw [Stack.get_put_other _ _ _ _ _ hd]; exact h1, h2⟩

/-- Writing to other parts of the context. -/
theorem Mem.put (h : Mem E C i eh m) {k : Nat} {cs : List Cell}
    (hk : (8 ≤ k ∧ k + cs.length ≤ 24) ∨ (32 ≤ k ∧ k + cs.length ≤ 40) ∨ (56 ≤ k ∧ k + cs.length ≤ 72) ∨
      104 ≤ k) : Mem E C i eh (m.put (ctx k) cs) := by
  refine ⟨?_, ?_, ?_, ?_, ?_, ?_, ?_, ?_, ?_⟩
  · rw [Stack.get_put_other _ _ _ _ _ (by simp only [ctx, oArg]; omega)]; exact h.arg
  · rw [Stack.get_put_other _ _ _ _ _ (by simp only [ctx, oPktSize]; omega)]; exact h.size
  · rw [Stack.get_put_other _ _ _ _ _ (by simp only [ctx, oIfindex]; omega)]; exact h.ifindex
  · rw [Stack.get_put_other _ _ _ _ _ (by simp only [ctx, oLogMap]; omega)]; exact h.logMap
  · intro hf
    rw [Stack.put_out _ _ _ _ (by simp only [ctx, oEh]; omega)]; exact h.eh hf
  · intro x h1 h2
    rw [Stack.put_out _ _ _ _ (by simp only [ctx, oEh, oL3Off] at h1 h2 ⊢; omega)]; exact h.ehB x h1 h2
  · exact h.h2.put (by simp only [ctx, oL2Hdr]; omega)
  · exact h.h3.put (by simp only [ctx, oL3Hdr]; omega)
  · exact h.h4.put (by simp only [ctx, oL4Hdr]; omega)

/-- Storing the size of a header. -/
theorem Mem.putSize (h : Mem E C i eh m) {k : Nat} (b : Byte) (hk : 49 ≤ k ∧ k < 52) :
    Mem E C i eh (m.put (ctx k) [.byte b]) := by
  refine ⟨?_, ?_, ?_, ?_, ?_, ?_, ?_, ?_, ?_⟩
  · rw [Stack.get_put_other _ _ _ _ _ (by simp [ctx, oArg]; omega)]; exact h.arg
  · rw [Stack.get_put_other _ _ _ _ _ (by simp [ctx, oPktSize]; omega)]; exact h.size
  · rw [Stack.get_put_other _ _ _ _ _ (by simp [ctx, oIfindex]; omega)]; exact h.ifindex
  · rw [Stack.get_put_other _ _ _ _ _ (by simp [ctx, oLogMap]; omega)]; exact h.logMap
  · intro hf
    rw [Stack.put_out _ _ _ _ (by simp [ctx, oEh]; omega)]; exact h.eh hf
  · intro x h1 h2
    by_cases hx : x = ctx k
    · subst hx
      have := Stack.put_in m (ctx k) [.byte b] 0 (by simp)
      simp only [Int.natCast_zero, Int.add_zero] at this
      exact ⟨b, by rw [this]; rfl⟩
    · rw [Stack.put_out _ _ _ _ (by simp; omega)]; exact h.ehB x h1 h2
  · exact h.h2.put (by simp [ctx, oL2Hdr]; omega)
  · exact h.h3.put (by simp [ctx, oL3Hdr]; omega)
  · exact h.h4.put (by simp [ctx, oL4Hdr]; omega)

/-- Storing the mask of extension headers. -/
theorem Mem.putEh (h : Mem E C i eh m) (b : Byte) :
    Mem E C i b (m.put (ctx oEh) [.byte b]) := by
  refine ⟨?_, ?_, ?_, ?_, ?_, ?_, ?_, ?_, ?_⟩
  · rw [Stack.get_put_other _ _ _ _ _ (by simp [ctx, oArg, oEh])]; exact h.arg
  · rw [Stack.get_put_other _ _ _ _ _ (by simp [ctx, oPktSize, oEh])]; exact h.size
  · rw [Stack.get_put_other _ _ _ _ _ (by simp [ctx, oIfindex, oEh])]; exact h.ifindex
  · rw [Stack.get_put_other _ _ _ _ _ (by simp [ctx, oLogMap, oEh])]; exact h.logMap
  · intro hf
    have := Stack.put_in m (ctx oEh) [.byte b] 0 (by simp)
    simpa using this
  · intro x h1 h2
    by_cases hx : x = ctx oEh
    · subst hx
      have := Stack.put_in m (ctx oEh) [.byte b] 0 (by simp)
      simp only [Int.natCast_zero, Int.add_zero] at this
      exact ⟨b, by rw [this]; rfl⟩
    · rw [Stack.put_out _ _ _ _ (by simp; omega)]; exact h.ehB x h1 h2
  · exact h.h2.put (by simp [ctx, oL2Hdr, oEh])
  · exact h.h3.put (by simp [ctx, oL3Hdr, oEh])
  · exact h.h4.put (by simp [ctx, oL4Hdr, oEh])

/-- Cells of a spilled pointer. -/
def ptrCells (p : Val) : List Cell := (List.range 8).map (Cell.frag p)

@[simp] theorem ptrCells_length (p : Val) : (ptrCells p).length = 8 := rfl

theorem cellsOf_ptr (r : Region) (o : Int) : cellsOf (.ptr r o) 8 = some (ptrCells (.ptr r o)) := rfl
theorem cellsOf_map (r : MapRef) : cellsOf (.map r) 8 = some (ptrCells (.map r)) := rfl

theorem get_ptrCells (m : Stack) (o : Int) (p : Val) : valOf ((m.put o (ptrCells p)).get o 8) = some p := by
  rw [Stack.get_put_same _ _ _ _ (by simp), ptrCells, valOf_frag]

/-- Storing a header pointer. -/
theorem Mem.putHdr (h : Mem E C i eh m) {k : Nat} (p : Val)
    (hk : (k = oL2Hdr ∧ ∀ o, p = .ptr .stack o → o + 16 ≤ -64) ∨
      (k = oL3Hdr ∧ ∀ o, p = .ptr .stack o → o + 40 ≤ -64) ∨
      (k = oL4Hdr ∧ ∀ o, p = .ptr .stack o → o + 24 ≤ -64)) :
    Mem E C i eh (m.put (ctx k) (ptrCells p)) := by
  have hr : 80 ≤ k ∧ k ≤ 96 := by
    rcases hk with ⟨rfl, _⟩ | ⟨rfl, _⟩ | ⟨rfl, _⟩ <;> decide
  refine ⟨?_, ?_, ?_, ?_, ?_, ?_, ?_, ?_, ?_⟩
  · rw [Stack.get_put_other _ _ _ _ _ (by simp [ctx, oArg]; omega)]; exact h.arg
  · rw [Stack.get_put_other _ _ _ _ _ (by simp [ctx, oPktSize]; omega)]; exact h.size
  · rw [Stack.get_put_other _ _ _ _ _ (by simp [ctx, oIfindex]; omega)]; exact h.ifindex
  · rw [Stack.get_put_other _ _ _ _ _ (by simp [ctx, oLogMap]; omega)]; exact h.logMap
  · intro hf
    rw [Stack.put_out _ _ _ _ (by simp [ctx, oEh]; omega)]; exact h.eh hf
  · intro x h1 h2
    rw [Stack.put_out _ _ _ _ (by simp [ctx, oEh, oL3Off] at h1 h2 ⊢; omega)]; exact h.ehB x h1 h2
  · rcases hk with ⟨rfl, hk⟩ | ⟨rfl, _⟩ | ⟨rfl, _⟩
    · exact ⟨p, get_ptrCells .., hk⟩
    · exact h.h2.put (by simp [ctx, oL2Hdr, oL3Hdr])
    · exact h.h2.put (by simp [ctx, oL2Hdr, oL4Hdr])
  · rcases hk with ⟨rfl, _⟩ | ⟨rfl, hk⟩ | ⟨rfl, _⟩
    · exact h.h3.put (by simp [ctx, oL2Hdr, oL3Hdr])
    · exact ⟨p, get_ptrCells .., hk⟩
    · exact h.h3.put (by simp [ctx, oL3Hdr, oL4Hdr])
  · rcases hk with ⟨rfl, _⟩ | ⟨rfl, _⟩ | ⟨rfl, hk⟩
    · exact h.h4.put (by simp [ctx, oL2Hdr, oL4Hdr])
    · exact h.h4.put (by simp [ctx, oL3Hdr, oL4Hdr])
    · exact ⟨p, get_ptrCells .., hk⟩

theorem Mem.ctx (h : Mem E C i eh s.stk) (hf : E.flavor = C.chain.hook.flavor) :
    CtxFacts E C ⟨s.stk, r7, r8, false⟩ i.size := ⟨hf, h.arg, h.size⟩

/-- Stores to the context of the program. -/
theorem wp_stCtx {sz : Size} {k : Nat} {r : Reg} {v : Val} {cs : List Cell} {x : List Item} {Q : Post}
    (hs : Pr r7 r8 s) (hv : s.r r = v) (hc : cellsOf v sz.bytes = some cs) (hk : k + sz.bytes ≤ 184)
    (hx : wp E gs x 0 Q { s with stk := s.stk.put (Bf.ctx k) cs }) :
    wp E gs (it (.stx sz .r10 (Bf.ctx k) r) :: x) 0 Q s := by
  refine wp_stx ?_ hx
  rw [hs.r10, hv]
  exact store_stack _ _ (by simp only [Bf.ctx]; omega) (by simp only [Bf.ctx]; omega) hc

theorem wp_stCtxI {sz : Size} {k : Nat} {v : BitVec 32} {x : List Item} {Q : Post}
    (hs : Pr r7 r8 s) (hk : k + sz.bytes ≤ 184)
    (hx : wp E gs x 0 Q
      { s with stk := s.stk.put (Bf.ctx k) ((leBytes sz.bytes (v.signExtend 64).toNat).map .byte) }) :
    wp E gs (it (.st sz .r10 (Bf.ctx k) v) :: x) 0 Q s := by
  refine wp_st ?_ hx
  rw [hs.r10]
  exact store_stack _ _ (by simp only [Bf.ctx]; omega) (by simp only [Bf.ctx]; omega) rfl

/-- Loads from the context of the program. -/
theorem wp_ldCtxP {sz : Size} {k : Nat} {d : Reg} {v : Val} {x : List Item} {Q : Post}
    (hs : Pr r7 r8 s) (hv : valOf (s.stk.get (Bf.ctx k) sz.bytes) = some v) (hk : k + sz.bytes ≤ 184)
    (hx : wp E gs x 0 Q (s.set d v)) : wp E gs (it (.ldx sz d .r10 (Bf.ctx k)) :: x) 0 Q s := by
  refine wp_ldx ?_ hx
  rw [hs.r10]
  simp only [Bf.load, stackSize, Int.zero_add]
  rw [if_pos (by simp only [Bf.ctx]; omega)]
  exact hv

theorem leNat_leBytes_lt {n v : Nat} (h : v < 256 ^ n) : leNat (leBytes n v) = v := by
  rw [leNat_leBytes, Nat.mod_eq_of_lt h]

/-- Reading back a stored scalar. -/
theorem get_scCells (m : Stack) (o : Int) (n : Nat) (v : BitVec 64) (hn : 1 ≤ n) (hv : v.toNat < 256 ^ n) :
    valOf ((m.put o ((leBytes n v.toNat).map .byte)).get o n) = some (.sc v) := by
  rw [Stack.get_put_same _ _ _ _ (by simp), valOf_bytes, leNat_leBytes_lt hv]
  · simp
  · intro h
    have := congrArg List.length h
    simp at this
    omega

/-- A generator always appends the same code, whatever is proved about it. -/
theorem GenT.all {α ι : Type} {g : Gen α} {S : ι → α → List Item → Prop} [Inhabited ι]
    (h : ∀ k, GenT g (S k)) : GenT g (fun a x => ∀ k, S k a x) := by
  intro p a p' hp
  obtain ⟨x, e, _⟩ := h default p a p' hp
  refine ⟨x, e, fun k => ?_⟩
  obtain ⟨y, e', hy⟩ := h k p a p' hp
  have : x = y := Prog.app_inj (p := p) (by rw [← e, ← e'])
  subst this
  exact hy

theorem GenT.imp {α : Type} {g : Gen α} {P : Prop} {S : α → List Item → Prop}
    (h0 : GenT g (fun _ _ => True)) (h : P → GenT g S) : GenT g (fun a x => P → S a x) := by
  by_cases hp : P
  · exact (h hp).mono fun _ _ h _ => h
  · exact h0.mono fun _ _ _ h => absurd h hp

/-- Code executed when a header can't be read: the packet is accepted and accounted as an error. -/
def ErrT (E : Env) (gs : Groups) (C : Cfg) (x : List Item) : Prop :=
  ∀ r7 r8 s i eh, Pr r7 r8 s → Mem E C i eh s.stk → ∀ z Q,
    (∀ v w, (v, w) = Spec.evalError C.chain.hook.flavor i.size C.chain.rules.length s.w → Q.exit v w) →
    wp E gs (x ++ z) 0 Q s

/-- What is needed to account errors. -/
structure CntOk (E : Env) (C : Cfg) : Prop where
  flavor : E.flavor = C.chain.hook.flavor
  n : C.chain.rules.length + 1 < E.nCounters
  n32 : C.chain.rules.length + 1 < 4294967296

theorem GL.errBlock (C : Cfg) : GL 8 (Bf.errBlock C) :=
  GL.bind (n := 6) (k := 2) (GL.emitCounter _) fun _ => GL.emitVerdict _ _

/-- stub.c:62-85, 127-149, 200-220, 361-381. -/
theorem errBlock_ok (hE : CntOk E C) :
    GenT (errBlock C) (fun _ x => ErrT E gs C x ∧ x.length ≤ 8) := by
  have h0 : Inhabited (BitVec 64 × BitVec 64 × St × Spec.Input × Byte) :=
    ⟨(0, 0, initSt E ⟨fun _ => (0, 0), 0, 0, 0, 0, fun _ => 0, [], none⟩, ⟨.ethernet, [], true, 0, 0, 0⟩, 0)⟩
  have key : GenT (errBlock C) (fun _ x => ∀ (k : BitVec 64 × BitVec 64 × St × Spec.Input × Byte),
      Pr k.1 k.2.1 k.2.2.1 ∧ Mem E C k.2.2.2.1 k.2.2.2.2 k.2.2.1.stk →
      ∀ z Q, (∀ v w, (v, w) = Spec.evalError C.chain.hook.flavor k.2.2.2.1.size C.chain.rules.length k.2.2.1.w →
        Q.exit v w) → wp E gs (x ++ z) 0 Q k.2.2.1) := by
    refine GenT.all fun k => ?_
    obtain ⟨r7, r8, s, i, eh⟩ := k
    refine .imp ((GL.errBlock C).gen.mono fun _ _ _ => trivial) ?_
    rintro ⟨hp, hm⟩
    dsimp only at hp hm ⊢
    have hC := hm.ctx (r7 := r7) (r8 := r8) hE.flavor
    unfold errBlock
    refine (emitCounter_ok (E := E) (gs := gs) hC _ hE.n hE.n32).then fun _ x hx => ?_
    refine (emitVerdict_ok (E := E) (gs := gs) (K := ⟨s.stk, r7, r8, false⟩) _).mono fun _ y hy => ?_
    intro z Q hq
    rw [List.append_assoc]
    apply wp_append
    refine wp_mono (hx s hp.inv) ?_ (fun _ h => h.elim) (fun _ _ h => h.elim)
    intro s' h
    apply wp_append
    refine wp_mono (hy s' h.1) (fun _ h => h.elim) (fun _ h => h.elim) ?_
    intro v w e
    refine hq v w ?_
    rw [e, h.2]
    rfl
  refine (key.and (GL.errBlock C).gen).mono fun _ x h => ⟨?_, h.2.2⟩
  intro r7 r8 s i eh hp hm
  exact h.1 (r7, r8, s, i, eh) ⟨hp, hm⟩

theorem Pr.ptr (hs : Pr r7 r8 s) {d : Reg} {k : Nat} {z : List Item} {Q : Post} (hd : Tmp d) (hk : k < 248)
    (hx : ∀ s', Pr r7 r8 s' → s'.stk = s.stk → s'.w = s.w → s'.r d = .ptr .stack (Bf.ctx k) →
      (∀ r, r ≠ d → s'.r r = s.r r) → wp E gs z 0 Q s') :
    wp E gs (it (mov d .r10) :: it (addi d (Bf.ctx k)) :: z) 0 Q s := by
  have hd10 : d ≠ .r10 := by rintro rfl; exact hd
  refine wp_mov hd10 hs.r10 (by simp) ?_
  refine wp_alu hd10 (v := .ptr .stack (Bf.ctx k)) ?_ ?_
  · rw [St.set_same]
    simp only [srcVal, aluVal]
    have : ((BitVec.ofInt 32 (Bf.ctx k)).signExtend 64).toInt = Bf.ctx k := by
      rw [BitVec.toInt_signExtend_of_le (by omega), BitVec.toInt_ofInt]
      simp only [Bf.ctx]
      apply Int.bmod_eq_of_le <;> simp <;> omega
    rw [this]
    simp
  · refine hx _ ((hs.set _ hd).set _ hd) rfl rfl (St.set_same _ _ _) ?_
    intro r hr
    rw [St.set_other _ _ _ _ hr, St.set_other _ _ _ _ hr]

/-- stub.c:47-89. -/
theorem makeDynptr_ok (hE : CntOk E C) (k : Kfunc) (hk : k ≠ .dynptrSlice) :
    GenT (makeDynptr C k) (fun _ x => ∀ r7 r8 s i eh, Pr r7 r8 s → Mem E C i eh s.stk →
      ∀ a, s.r .r1 = a → dynptrArg E k = some a → ∀ z Q,
      (E.dynptrOk = true → ∀ s', Pr r7 r8 s' → s'.stk = s.stk.put (Bf.ctx oDynptr) dynCells →
        s'.w = s.w → wp E gs z 0 Q s') →
      (E.dynptrOk = false → ∀ v w,
        (v, w) = Spec.evalError C.chain.hook.flavor i.size C.chain.rules.length s.w → Q.exit v w) →
      wp E gs (x ++ z) 0 Q s) := by
  unfold makeDynptr
  refine .thenEmits (.lastJmp ((errBlock_ok (gs := gs) hE).mono ?_))
  rintro _ y ⟨hy, hyl⟩ r7 r8 s i eh hp hm a ha hda z Q hok hbad
  simp only [List.map_cons, List.map_nil, List.cons_append, List.nil_append]
  refine wp_movi (by simp) ?_
  refine (hp.set (d := .r2) _ trivial).ptr (d := .r3) trivial (by simp [oDynptr]) ?_
  intro s1 p1 e1 w1 e3 eo
  have hr1 : s1.r .r1 = a := by rw [eo _ (by simp), St.set_other _ _ _ _ (by simp), ha]
  have hr2 : s1.r .r2 = .sc 0 := by rw [eo _ (by simp), St.set_same]; rfl
  have hdl : dynCells.length = 16 := rfl
  have hcond : dynptrArg E k = some a ∧ -stackSize ≤ Bf.ctx oDynptr ∧ Bf.ctx oDynptr + 16 ≤ 0 :=
    ⟨hda, by simp [stackSize, Bf.ctx, oDynptr], by simp [Bf.ctx, oDynptr]⟩
  have hkf : kfunc E s1 k = some (if E.dynptrOk then St.ret { s1 with stk := s1.stk.put (Bf.ctx oDynptr) dynCells } (.sc 0)
          else s1.ret (.sc (BitVec.ofInt 64 (-22)))) := by
    cases k with
    | dynptrSlice => exact absurd rfl hk
    | dynptrFromSkb | dynptrFromXdp =>
      simp only [kfunc, hr1, hr2, e3]
      exact if_pos hcond
  refine wp_kcall hkf ?_
  cases hd : E.dynptrOk with
  | true =>
    simp only [if_true]
    refine wp_skipBlock (b := true) ?_ (by omega) ?_ (by simp)
    · simp [condVal, srcVal, Cond.holds]
    · intro _
      have e1' : s1.stk = s.stk := e1
      refine hok hd _ ((p1.put (o := Bf.ctx oDynptr) dynCells (by simp [hdl, Bf.ctx, oDynptr])).ret _) ?_ w1
      show s1.stk.put _ _ = _
      rw [e1']
  | false =>
    simp only [Bool.false_eq_true, if_false]
    refine wp_skipBlock (b := false) ?_ (by omega) (by simp) ?_
    · simp [condVal, srcVal, Cond.holds]
    · intro _
      have e1' : s1.stk = s.stk := e1
      refine hy r7 r8 _ i eh (p1.ret _) (by rw [St.ret_stk, e1']; exact hm) z Q ?_
      intro v w e
      refine hbad hd v w ?_
      rw [e, St.ret_w, w1]
      rfl

/-- Reading `n` bytes of the packet at `o` through a slice whose buffer is at `b`. -/
theorem kfunc_slice {o n : Nat} {b : Int} {ro rn : BitVec 64} (hd : s.stk.get (Bf.ctx oDynptr) 16 = dynCells)
    (h1 : s.r .r1 = .ptr .stack (Bf.ctx oDynptr)) (h2 : s.r .r2 = .sc ro) (h3 : s.r .r3 = .ptr .stack b)
    (h4 : s.r .r4 = .sc rn) (ho : (ro.setWidth 32).toNat = o) (hn : (rn.setWidth 32).toNat = n)
    (hb : -248 ≤ b) (hbn : b + n ≤ -64) :
    (Spec.bytesAt E.pkt o n = none ∧ kfunc E s .dynptrSlice = some (s.ret (.sc 0))) ∨
    (∃ h p m', Spec.bytesAt E.pkt o n = some h ∧ h.length = n ∧ HPtr E m' p h ∧
      (∀ q, p = .ptr .stack q → q = b) ∧ (m' = s.stk ∨ m' = s.stk.put b (h.map .byte)) ∧
      (E.copied o n = false → m' = s.stk ∧ p = .ptr (.pkt o n) 0) ∧
      kfunc E s .dynptrSlice = some (St.ret { s with stk := m' } p)) := by
  simp only [kfunc, h1, h2, h3, h4, ho, hn]
  rw [if_pos ⟨hd, by simp [stackSize]; omega, by omega⟩]
  unfold Spec.bytesAt
  by_cases hlen : o + n ≤ E.pkt.length
  · rw [if_pos hlen, if_pos hlen]
    have hl : ((E.pkt.drop o).take n).length = n := by
      rw [List.length_take, List.length_drop]; omega
    right
    refine ⟨(E.pkt.drop o).take n, ?_⟩
    by_cases hc : E.copied o n
    · refine ⟨.ptr .stack b, s.stk.put b (((E.pkt.drop o).take n).map .byte), rfl, hl, ?_, ?_, Or.inr rfl, ?_, ?_⟩
      · refine Or.inr ⟨b, rfl, hb, by rw [hl]; exact hbn, ?_⟩
        rw [Stack.get_put_same _ _ _ _ (by simp)]
      · intro q e; cases e; rfl
      · intro h; rw [hc] at h; cases h
      · rw [if_pos hc]
    · refine ⟨.ptr (.pkt o n) 0, s.stk, rfl, hl, ?_, by simp, Or.inl rfl, fun _ => ⟨rfl, rfl⟩, ?_⟩
      · exact Or.inl ⟨o, by rw [hl], by rw [hl]⟩
      · rw [if_neg hc]
  · rw [if_neg hlen, if_neg hlen]
    exact Or.inl ⟨rfl, rfl⟩

end Bf
