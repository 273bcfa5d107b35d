import Verif.Props.C13_Shape
/-!
# C14: memory safety

The machine (`Machine/Sem.lean`) stops with `Final.err` on a bad access, and C01 shows it never does.  Here the
same is said without the machine's own notion of error: what the operands of each executed instruction are, in
each state an execution goes through.
-/
namespace Bf

variable {E : Env} {chain : Chain} {thr : Nat → BitVec 32} {img : List Insn} {w : World}

/-- The states an execution goes through. -/
inductive Reached (E : Env) (img : List Insn) (w : World) : Int → St → Prop
  | start : Reached E img w 0 (initSt E w)
  | seq {pc s i s'} : Reached E img w pc s → 0 ≤ pc → img[pc.toNat]? = some i → effect E s i = .seq s' → Reached E img w (pc + 1) s'
  | jump {pc s i off s'} : Reached E img w pc s → 0 ≤ pc → img[pc.toNat]? = some i → effect E s i = .jump off s' →
      Reached E img w (pc + 1 + off.toInt) s'
  | map {pc s i dst fd m} : Reached E img w pc s → 0 ≤ pc → img[pc.toNat]? = some i → effect E s i = .map dst fd →
      E.fds fd = some m → Reached E img w (pc + 2) (s.set dst (.map m))
  | call {pc s i imm id s'} : Reached E img w pc s → 0 ≤ pc → img[pc.toNat]? = some i → effect E s i = .call imm →
      0 ≤ pc + 1 + imm.toInt → img[(pc + 1 + imm.toInt).toNat]? = some (.stub id) → stubSem E s id = some s' →
      Reached E img w (pc + 1) s'

/-- Bytes that can be read through a pointer: its region and the bounds of the region. -/
def bounds (E : Env) : Region → Option (Int × Int)
  | .stack => some (-248, 0)
  | .pkt base len => if base + len ≤ E.pkt.length then some (0, len) else none
  | .blob bs => some (0, bs.length)
  | .state => some (0, 8 * E.nState)
  | .ctx => if E.flavor = .sockAddr then some (0, 72) else none
  | _ => none

/-- A pointer to at least `n` bytes. -/
def Inside (E : Env) (v : Val) (off : Int) (n : Nat) : Prop :=
  ∃ r o lo hi, v = .ptr r o ∧ bounds E r = some (lo, hi) ∧ lo ≤ o + off ∧ o + off + n ≤ hi

/-- A pointer to `n` bytes of the program's own memory: its stack, or its rate-limiting state. -/
def Owned (E : Env) (v : Val) (off : Int) (n : Nat) : Prop :=
  Inside E v off n ∧ ∃ r o, v = .ptr r o ∧ (r = .stack ∨ r = .state)

/-- The structure each kernel field belongs to. -/
def fieldOwner : KField → Region
  | .xdpData | .xdpDataEnd | .xdpIngressIfindex | .skbLen | .skbIfindex | .skbFamily | .skbMark | .nfState | .nfSkb => .ctx
  | .nfIn | .nfOut | .nfPf => .nfState
  | .devIfindex => .nfDev
  | .kskbLen | .kskbMark => .skb

/-- Size of the key of a map. -/
def keyBytes (E : Env) : MapRef → Nat
  | .set g => E.setKeySize g
  | _ => 4

/-- What the operands of an instruction must be. -/
def Safe (E : Env) (img : List Insn) (pc : Int) (s : St) : Insn → Prop
  | .ldx sz _ src off => Inside E (s.r src) off sz.bytes
  | .stx sz dst off src => Owned E (s.r dst) off sz.bytes ∧ s.r src ≠ .uninit
  | .st sz dst off _ => Owned E (s.r dst) off sz.bytes
  | .ldxF _ _ src f => ∃ o, s.r src = .ptr (fieldOwner f) o
  | .stxF _ dst f src => s.r dst = .ptr .ctx 0 ∧ f = .skbMark ∧ (E.flavor = .tc ∨ E.flavor = .cgroupSkb) ∧ s.r src ≠ .uninit
  | .alu _ op dst src => dst ≠ .r10 ∧ srcVal s src ≠ .uninit ∧ (op ≠ .mov → s.r dst ≠ .uninit)
  | .bswap16 dst => ∃ v, s.r dst = .sc v
  | .jmp _ _ dst src _ => s.r dst ≠ .uninit ∧ srcVal s src ≠ .uninit
  | .call .mapLookup => ∃ m, s.r .r1 = .map m ∧
      Inside E (s.r .r2) 0 (keyBytes E m) ∧ ∃ o, s.r .r2 = .ptr .stack o
  | .kcall .dynptrSlice => ∃ n, s.r .r4 = .sc n ∧ Owned E (s.r .r3) 0 (n.setWidth 32).toNat
  | .kcall _ => Owned E (s.r .r3) 0 16
  | .callRel imm => s.r .r1 = .ptr .stack (-248) ∧ ∃ id, img[(pc + 1 + imm.toInt).toNat]? = some (.stub id)
  | .ldMap _ fd => ∃ m, E.fds fd = some m
  | .exit => ∃ v, s.r .r0 = .sc v
  | .pad | .stub _ | .stubPad => False
  | _ => True

/-! ### Pointers to packet bytes are pointers inside the packet -/

/-- A value whose slice, if it is one, is inside the packet. -/
def Val.fine (E : Env) : Val → Prop
  | .ptr (.pkt base len) _ => base + len ≤ E.pkt.length
  | _ => True

/-- Likewise for a stack cell. -/
def Cell.fine (E : Env) : Cell → Prop
  | .frag v _ => v.fine E
  | _ => True

/-- Likewise for a machine state. -/
def St.fine (E : Env) (s : St) : Prop := (∀ r, (s.r r).fine E) ∧ ∀ o, (s.stk o).fine E

theorem St.fine.set {s : St} {d : Reg} {v : Val} (h : s.fine E) (hv : v.fine E) : (s.set d v).fine E := by
  refine ⟨fun r => ?_, h.2⟩
  simp only [St.set]
  split
  · exact hv
  · exact h.1 r

theorem St.fine.ret {s : St} {v : Val} (h : s.fine E) (hv : v.fine E) : (s.ret v).fine E := by
  refine ⟨fun r => ?_, h.2⟩
  cases r <;> first | exact hv | exact trivial | exact h.1 _

theorem fine_put {m : Stack} {o : Int} {cs : List Cell} (h : ∀ o, (m o).fine E) (hc : ∀ c ∈ cs, c.fine E) (x : Int) :
    (m.put o cs x).fine E := by
  unfold Stack.put
  split
  · cases hx : cs[(x - o).toNat]? with
    | none => exact h x
    | some c => exact hc c (List.mem_of_getElem? hx)
  · exact h x

theorem fine_get {m : Stack} (h : ∀ o, (m o).fine E) (n : Nat) (o : Int) : ∀ c ∈ m.get o n, c.fine E := by
  induction n generalizing o with
  | zero => intro c hc; cases hc
  | succ n ih =>
    intro c hc
    rcases List.mem_cons.mp hc with rfl | hc
    · exact h o
    · exact ih _ c hc

theorem fine_valOf {cs : List Cell} {v : Val} (h : ∀ c ∈ cs, c.fine E) (hv : valOf cs = some v) : v.fine E := by
  unfold valOf at hv
  split at hv
  · split at hv
    · cases hv
      exact h _ (List.mem_cons_self ..)
    · cases hv
  · obtain ⟨bs, _, rfl⟩ := Option.map_eq_some_iff.mp hv
    trivial

theorem fine_frags {v : Val} (h : v.fine E) (n : Nat) : ∀ c ∈ (List.range n).map (Cell.frag v), c.fine E := by
  intro c hc
  obtain ⟨i, _, rfl⟩ := List.mem_map.mp hc
  exact h

theorem fine_whole {v : Val} {n : Nat} {cs : List Cell} (h : v.fine E)
    (hv : (if n = 8 then some ((List.range 8).map (Cell.frag v)) else none) = some cs) : ∀ c ∈ cs, c.fine E := by
  have hh := fine_frags h 8
  generalize (List.range 8).map (Cell.frag v) = fr at hv hh
  split at hv
  · cases hv; exact hh
  · cases hv

theorem fine_cellsOf {v : Val} {n : Nat} {cs : List Cell} (h : v.fine E) (hv : cellsOf v n = some cs) : ∀ c ∈ cs, c.fine E := by
  cases v with
  | sc b =>
    intro c hc
    have hv : some ((leBytes n b.toNat).map Cell.byte) = some cs := hv
    rw [← Option.some.inj hv] at hc
    obtain ⟨b, _, rfl⟩ := List.mem_map.mp hc
    trivial
  | uninit =>
    have hv : none = some cs := hv
    cases hv
  | map m => exact fine_whole h hv
  | ptr r o => exact fine_whole h hv

theorem fine_sc (b : BitVec 64) : (Val.sc b).fine E := trivial

theorem fine_load {s : St} {v x : Val} {off : Int} {n : Nat} (h : s.fine E) (hl : load E s v off n = some x) : x.fine E := by
  unfold load at hl
  split at hl
  case h_1 => 
    split at hl
    · exact fine_valOf (fine_get h.2 _ _) hl
    · cases hl
  case h_6 => cases hl
  all_goals
    split at hl
    · cases hl; trivial
    · cases hl

theorem fine_store {s s' : St} {v x : Val} {off : Int} {n : Nat} (h : s.fine E) (hx : x.fine E)
    (hl : store E s v off n x = some s') : s'.fine E := by
  unfold store at hl
  split at hl
  · split at hl
    · obtain ⟨cs, hcs, rfl⟩ := Option.map_eq_some_iff.mp hl
      exact ⟨h.1, fine_put h.2 (fine_cellsOf hx hcs)⟩
    · cases hl
  · split at hl
    · split at hl
      · cases hl; exact h
      · cases hl
    · cases hl
  · cases hl

theorem fine_loadF {s : St} {v x : Val} {f : KField} {sz : Size} (hl : loadF E s v f sz = some x) : x.fine E := by
  unfold loadF at hl
  split at hl <;> cases hl <;> trivial

theorem fine_storeF {s s' : St} {v x : Val} {f : KField} {sz : Size} (h : s.fine E) (hl : storeF E s v f sz x = some s') :
    s'.fine E := by
  unfold storeF at hl
  split at hl <;> cases hl <;> exact h

theorem fine_alu {w64 : Bool} {op : AluOp} {a b v : Val} (ha : a.fine E) (hb : b.fine E) (h : aluVal w64 op a b = some v) :
    v.fine E := by
  unfold aluVal at h
  split at h
  case h_5 =>
    split at h
    · cases h; trivial
    · cases h
  case h_4 => cases h; cases ‹Region› <;> first | trivial | exact ha
  all_goals (cases h) <;> first | trivial | exact hb

theorem fine_srcVal {s : St} (h : s.fine E) (x : Src) : (srcVal s x).fine E := by
  cases x with
  | k i => trivial
  | x r => exact h.1 r

theorem fine_dyn : ∀ c ∈ dynCells, c.fine E := by
  intro c hc
  obtain ⟨i, _, rfl⟩ := List.mem_map.mp hc
  trivial

theorem fine_helper {s s' : St} {k : Helper} (h : s.fine E) (hl : helper E s k = some s') : s'.fine E := by
  cases k <;> simp only [helper] at hl
  · split at hl
    · obtain ⟨b, _, rfl⟩ := Option.map_eq_some_iff.mp hl
      refine h.ret ?_
      split <;> trivial
    · obtain ⟨b, _, rfl⟩ := Option.map_eq_some_iff.mp hl
      refine h.ret ?_
      split <;> trivial
    · cases hl
  · cases hl; exact St.fine.ret ⟨h.1, h.2⟩ trivial
  · cases hl; exact St.fine.ret ⟨h.1, h.2⟩ trivial
  · split at hl
    · cases hl; exact h.ret trivial
    · cases hl
  · obtain ⟨i, _, hl⟩ := Option.bind_eq_some_iff.mp hl
    obtain ⟨f, _, rfl⟩ := Option.map_eq_some_iff.mp hl
    exact St.fine.ret ⟨h.1, h.2⟩ trivial

theorem fine_kfunc {s s' : St} {k : Kfunc} (h : s.fine E) (hl : kfunc E s k = some s') : s'.fine E := by
  unfold kfunc at hl
  split at hl
  · split at hl
    · simp only at hl
      split at hl
      · cases hl
        split
        · split
          · refine St.fine.ret ⟨h.1, fine_put h.2 ?_⟩ trivial
            intro c hc
            obtain ⟨b, _, rfl⟩ := List.mem_map.mp hc
            trivial
          · exact h.ret ‹_›
        · exact h.ret trivial
      · cases hl
    · cases hl
  · split at hl
    · split at hl
      · cases hl
        split
        · exact St.fine.ret ⟨h.1, fine_put h.2 fine_dyn⟩ trivial
        · exact h.ret trivial
      · cases hl
    · cases hl

theorem fine_stub {s s' : St} {id : Stub} (h : s.fine E) (hl : stubSem E s id = some s') : s'.fine E := by
  have hw : ∀ w', St.fine E { s with w := w' } := fun _ => ⟨h.1, h.2⟩
  unfold stubSem at hl
  split at hl
  · cases hl
  · simp only at hl
    split at hl
    · split at hl
      · split at hl
        · cases hl; exact (hw _).ret trivial
        · cases hl; exact h.ret trivial
      · cases hl
    · split at hl
      · split at hl
        · split at hl
          · obtain ⟨s1, h1, rfl⟩ := Option.map_eq_some_iff.mp hl
            exact (fine_store h (fine_sc _) h1).ret trivial
          · cases hl
        · cases hl
      · cases hl
    · split at hl
      · split at hl
        · split at hl
          · obtain ⟨s1, h1, rfl⟩ := Option.map_eq_some_iff.mp hl
            obtain ⟨s2, h2, h3⟩ := Option.bind_eq_some_iff.mp h1
            exact (fine_store (fine_store h (fine_sc _) h2) (fine_sc _) h3).ret trivial
          · cases hl
        · cases hl
      · cases hl
    · split at hl
      · obtain ⟨a, _, hl⟩ := Option.bind_eq_some_iff.mp hl
        obtain ⟨b, _, rfl⟩ := Option.map_eq_some_iff.mp hl
        exact h.ret trivial
      · cases hl
    · split at hl
      · split at hl
        · cases hl; exact (hw _).ret trivial
        · cases hl; exact (hw _).ret trivial
      · cases hl
    · split at hl
      · split at hl
        · split at hl
          · cases hl; exact (hw _).ret trivial
          · cases hl
        · cases hl; exact (hw _).ret trivial
      · cases hl

theorem fine_effect {s s' : St} {i : Insn} (h : s.fine E) (hl : effect E s i = .seq s' ∨ ∃ off, effect E s i = .jump off s') :
    s'.fine E := by
  have hopt : ∀ {o : Option St}, (Eff.ofOpt o = .seq s' ∨ ∃ off, Eff.ofOpt o = .jump off s') → o = some s' := by
    intro o ho
    cases o with
    | none => rcases ho with ho | ⟨_, ho⟩ <;> cases ho
    | some t =>
      rcases ho with ho | ⟨_, ho⟩
      · injection ho with ho; rw [ho]
      · cases ho
  cases i <;> simp only [effect] at hl
  case alu w64 op dst src =>
    split at hl
    · rcases hl with hl | ⟨_, hl⟩ <;> cases hl
    · split at hl
      · rcases hl with hl | ⟨_, hl⟩
        · cases hl; exact h.set (fine_alu (h.1 _) (fine_srcVal h _) ‹_›)
        · cases hl
      · rcases hl with hl | ⟨_, hl⟩ <;> cases hl
  case bswap16 dst =>
    split at hl
    · rcases hl with hl | ⟨_, hl⟩
      · cases hl; exact h.set trivial
      · cases hl
    · rcases hl with hl | ⟨_, hl⟩ <;> cases hl
  case ldx sz dst src off =>
    split at hl
    · rcases hl with hl | ⟨_, hl⟩
      · cases hl; exact h.set (fine_load h ‹_›)
      · cases hl
    · rcases hl with hl | ⟨_, hl⟩ <;> cases hl
  case stx => exact fine_store h (h.1 _) (hopt hl)
  case st => exact fine_store h (fine_sc _) (hopt hl)
  case ldxF =>
    split at hl
    · rcases hl with hl | ⟨_, hl⟩
      · cases hl; exact h.set (fine_loadF ‹_›)
      · cases hl
    · rcases hl with hl | ⟨_, hl⟩ <;> cases hl
  case stxF => exact fine_storeF h (hopt hl)
  case ld64 => rcases hl with hl | ⟨_, hl⟩ <;> cases hl; exact h.set trivial
  case ldMap => rcases hl with hl | ⟨_, hl⟩ <;> cases hl
  case jmp =>
    split at hl
    · rcases hl with hl | ⟨_, hl⟩ <;> cases hl; exact h
    · rcases hl with hl | ⟨_, hl⟩ <;> cases hl; exact h
    · rcases hl with hl | ⟨_, hl⟩ <;> cases hl
  case ja => rcases hl with hl | ⟨_, hl⟩ <;> cases hl; exact h
  case call => exact fine_helper h (hopt hl)
  case kcall => exact fine_kfunc h (hopt hl)
  case callRel => rcases hl with hl | ⟨_, hl⟩ <;> cases hl
  case exit => split at hl <;> rcases hl with hl | ⟨_, hl⟩ <;> cases hl
  case pad => rcases hl with hl | ⟨_, hl⟩ <;> cases hl
  case stub => rcases hl with hl | ⟨_, hl⟩ <;> cases hl
  case stubPad => rcases hl with hl | ⟨_, hl⟩ <;> cases hl

theorem Reached.fine {pc : Int} {s : St} (h : Reached E img w pc s) : s.fine E := by
  induction h with
  | start =>
    refine ⟨fun r => ?_, fun o => trivial⟩
    cases r <;> trivial
  | seq _ _ _ he ih => exact fine_effect ih (Or.inl he)
  | jump _ _ _ he ih => exact fine_effect ih (Or.inr ⟨_, he⟩)
  | map _ _ _ _ _ ih => exact ih.set trivial
  | call _ _ _ _ _ _ he ih => exact fine_stub ih he

/-! ### No reached state is stuck -/

/-- From each reached state, running on ends normally. -/
theorem Reached.runs {pc : Int} {s : St} {r : BitVec 64} {w' : World} (hr : Runs E img w r w') (h : Reached E img w pc s) :
    ∃ k, ∀ fuel, k ≤ fuel → run E img fuel pc s = .exit r w' := by
  induction h with
  | start => exact ⟨img.length, fun fuel hf => hr fuel hf⟩
  | seq _ h0 hi he ih =>
    obtain ⟨k, ih⟩ := ih
    refine ⟨k, fun fuel hf => ?_⟩
    have := ih (fuel + 1) (by omega)
    rw [run, if_neg (by omega), hi] at this
    simpa only [he] using this
  | jump _ h0 hi he ih =>
    obtain ⟨k, ih⟩ := ih
    refine ⟨k, fun fuel hf => ?_⟩
    have := ih (fuel + 1) (by omega)
    rw [run, if_neg (by omega), hi] at this
    simpa only [he] using this
  | map _ h0 hi he hm ih =>
    obtain ⟨k, ih⟩ := ih
    refine ⟨k, fun fuel hf => ?_⟩
    have := ih (fuel + 1) (by omega)
    rw [run, if_neg (by omega), hi] at this
    simpa only [he, hm] using this
  | call _ h0 hi he hp hst hs ih =>
    obtain ⟨k, ih⟩ := ih
    refine ⟨k, fun fuel hf => ?_⟩
    have := ih (fuel + 1) (by omega)
    rw [run, if_neg (by omega), hi] at this
    simp only [he] at this
    rw [if_neg (by omega), hst] at this
    simpa only [hs] using this

theorem inside_of_load {s : St} {v x : Val} {off : Int} {n : Nat} (hv : v.fine E) (h : load E s v off n = some x) :
    Inside E v off n := by
  unfold load at h
  split at h
  case h_6 => cases h
  all_goals split at h
  all_goals first | (cases h; done) | skip
  case h_1 o hc => exact ⟨_, _, _, _, rfl, rfl, hc.1, hc.2⟩
  case h_2 o hc => exact ⟨_, _, _, _, rfl, if_pos hv, hc.1, hc.2⟩
  case h_3 o hc => exact ⟨_, _, _, _, rfl, rfl, hc.1, hc.2⟩
  case h_4 o hc =>
    obtain ⟨rfl, h1, h2, h3⟩ := hc
    exact ⟨_, _, _, _, rfl, rfl, h1, h3⟩
  case h_5 o hc => exact ⟨_, _, _, _, rfl, if_pos hc.1, hc.2.1, hc.2.2⟩

theorem owned_of_store {s s' : St} {v x : Val} {off : Int} {n : Nat} (h : store E s v off n x = some s') :
    Owned E v off n ∧ x ≠ .uninit := by
  unfold store at h
  split at h
  · split at h
    · rename_i hc
      refine ⟨⟨⟨_, _, _, _, rfl, rfl, hc.1, hc.2⟩, _, _, rfl, Or.inl rfl⟩, ?_⟩
      intro e
      subst e
      cases h
    · cases h
  · split at h
    · split at h
      · rename_i hc
        obtain ⟨rfl, h1, h2, h3⟩ := hc
        exact ⟨⟨⟨_, _, _, _, rfl, rfl, h1, h3⟩, _, _, rfl, Or.inr rfl⟩, by intro e; cases e⟩
      · cases h
    · cases h
  · cases h

theorem stack_bytes_inside {s : St} {o : Int} {n : Nat} {bs : List Byte} (h : stackBytes s o n = some bs) :
    Inside E (.ptr .stack o) 0 n := by
  unfold stackBytes at h
  split at h
  · rename_i hc
    exact ⟨_, _, _, _, rfl, rfl, by have := hc.1; simp only [stackSize] at this; omega, by have := hc.2; omega⟩
  · cases h

theorem safe_alu {w64 : Bool} {op : AluOp} {a b v : Val} (h : aluVal w64 op a b = some v) :
    b ≠ .uninit ∧ (op ≠ .mov → a ≠ .uninit) := by
  unfold aluVal at h
  split at h
  case h_8 => cases h
  case h_1 => cases h
  case h_3 => exact ⟨fun e => (by cases e), fun e => absurd rfl e⟩
  case h_2 => rename_i hn; exact ⟨fun e => hn e, fun e => absurd rfl e⟩
  all_goals exact And.intro (fun e => by cases e) (fun _ e => by cases e)

theorem safe_loadF {s : St} {v x : Val} {f : KField} {sz : Size} (hv : loadF E s v f sz = some x) :
    ∃ o, v = .ptr (fieldOwner f) o := by
  unfold loadF at hv
  split at hv
  case h_20 => cases hv
  all_goals exact ⟨_, rfl⟩

theorem safe_storeF {s s' : St} {v x : Val} {f : KField} {sz : Size} (ht : storeF E s v f sz x = some s') :
    v = .ptr .ctx 0 ∧ f = .skbMark ∧ (E.flavor = .tc ∨ E.flavor = .cgroupSkb) ∧ x ≠ .uninit := by
  unfold storeF at ht
  split at ht
  · exact ⟨rfl, rfl, Or.inl ‹_›, fun e => (by cases e)⟩
  · exact ⟨rfl, rfl, Or.inr ‹_›, fun e => (by cases e)⟩
  · cases ht

theorem safe_cond {w64 : Bool} {c : Cond} {a b : Val} {x : Bool} (h : condVal w64 c a b = some x) : a ≠ .uninit ∧ b ≠ .uninit := by
  unfold condVal at h
  split at h
  case h_5 => cases h
  all_goals exact ⟨fun e => (by cases e), fun e => (by cases e)⟩

theorem safe_lookup {s t : St} (ht : helper E s .mapLookup = some t) :
    ∃ m, s.r .r1 = .map m ∧ Inside E (s.r .r2) 0 (keyBytes E m) ∧ ∃ o, s.r .r2 = .ptr .stack o := by
  simp only [helper] at ht
  split at ht
  · rename_i o e1 e2
    obtain ⟨b, hb, _⟩ := Option.map_eq_some_iff.mp ht
    exact ⟨_, e1, by rw [e2]; exact stack_bytes_inside hb, _, e2⟩
  · rename_i g o e1 e2
    obtain ⟨b, hb, _⟩ := Option.map_eq_some_iff.mp ht
    exact ⟨_, e1, by rw [e2]; exact stack_bytes_inside hb, _, e2⟩
  · cases ht

theorem safe_helper {s t : St} {pc : Int} {k : Helper} (ht : helper E s k = some t) : Safe E img pc s (.call k) := by
  cases k
  case mapLookup => exact safe_lookup ht
  all_goals trivial

theorem owned_stack {b : Int} {n : Nat} (h1 : -stackSize ≤ b) (h2 : b + n ≤ 0) : Owned E (.ptr .stack b) 0 n :=
  ⟨⟨_, _, _, _, rfl, rfl, by simp only [stackSize] at h1; omega, by omega⟩, _, _, rfl, Or.inl rfl⟩

theorem safe_slice {s t : St} (ht : kfunc E s .dynptrSlice = some t) : ∃ n, s.r .r4 = .sc n ∧ Owned E (s.r .r3) 0 (n.setWidth 32).toNat := by
  simp only [kfunc] at ht
  split at ht
  · rename_i d off b len e1 e2 e3 e4
    split at ht
    · rename_i hc
      exact ⟨_, e4, by rw [e3]; exact owned_stack hc.2.1 hc.2.2⟩
    · cases ht
  · cases ht

theorem safe_dynptr {s t : St} {k : Kfunc} (hk : k ≠ .dynptrSlice) (ht : kfunc E s k = some t) : Owned E (s.r .r3) 0 16 := by
  unfold kfunc at ht
  split at ht
  · exact absurd rfl hk
  · split at ht
    · rename_i b e2 e3
      split at ht
      · rename_i hc
        rw [e3]; exact owned_stack hc.2.1 hc.2.2
      · cases ht
    · cases ht

theorem safe_kfunc {s t : St} {pc : Int} {k : Kfunc} (ht : kfunc E s k = some t) : Safe E img pc s (.kcall k) := by
  cases k
  case dynptrSlice => exact safe_slice ht
  all_goals exact safe_dynptr (fun e => (by cases e)) ht

theorem safe_of_step {s : St} {pc : Int} {i : Insn} (hf : s.fine E) (herr : effect E s i ≠ .err)
    (hmap : ∀ dst fd, effect E s i = .map dst fd → ∃ m, E.fds fd = some m)
    (hcall : ∀ imm, effect E s i = .call imm → ∃ id t, img[(pc + 1 + imm.toInt).toNat]? = some (.stub id) ∧ stubSem E s id = some t) :
    Safe E img pc s i := by
  have hopt : ∀ {o : Option St}, Eff.ofOpt o ≠ .err → ∃ t, o = some t := by
    intro o ho
    cases o with
    | none => exact absurd rfl ho
    | some t => exact ⟨t, rfl⟩
  cases i <;> simp only [effect] at herr
  case alu w64 op dst src =>
    split at herr
    · exact absurd rfl herr
    · split at herr
      · exact ⟨‹_›, safe_alu ‹_›⟩
      · exact absurd rfl herr
  case bswap16 dst =>
    split at herr
    · exact ⟨_, ‹_›⟩
    · exact absurd rfl herr
  case ldx sz dst src off =>
    split at herr
    · exact inside_of_load (hf.1 _) ‹_›
    · exact absurd rfl herr
  case stx => obtain ⟨t, ht⟩ := hopt herr; exact owned_of_store ht
  case st => obtain ⟨t, ht⟩ := hopt herr; exact (owned_of_store ht).1
  case ja => trivial
  case ld64 => trivial
  case ldxF sz dst src f =>
    split at herr
    · exact safe_loadF ‹_›
    · exact absurd rfl herr
  case stxF sz dst f src =>
    obtain ⟨t, ht⟩ := hopt herr
    exact safe_storeF ht
  case ldMap dst fd =>
    exact hmap _ _ rfl
  case jmp w64 c dst src off =>
    split at herr
    · exact safe_cond ‹_›
    · exact safe_cond ‹_›
    · exact absurd rfl herr
  case call h =>
    obtain ⟨t, ht⟩ := hopt herr
    exact safe_helper ht
  case kcall k =>
    obtain ⟨t, ht⟩ := hopt herr
    exact safe_kfunc ht
  case callRel imm =>
    obtain ⟨id, t, h1, ht⟩ := hcall _ rfl
    refine ⟨?_, id, h1⟩
    unfold stubSem at ht
    split at ht
    · cases ht
    · rename_i hn; exact Decidable.not_not.mp hn
  case exit =>
    split at herr
    · exact ⟨_, ‹_›⟩
    · exact absurd rfl herr
  case pad => exact absurd rfl herr
  case stub => exact absurd rfl herr
  case stubPad => exact absurd rfl herr

/-- **C14.**  In each state the execution of a program goes through, the next instruction exists and its operands are
safe: memory is read inside the bounds of what a valid pointer points to, slices of the packet being inside the
packet; memory is written only in the runtime context and in the rate-limiting state; no uninitialised register is used. -/
theorem C14_safe (h : IsLoaded E chain thr img) {pc : Int} {s : St} (hr : Reached E img w pc s) :
    0 ≤ pc ∧ ∃ i, img[pc.toNat]? = some i ∧ Safe E img pc s i := by
  obtain ⟨r, w', hruns⟩ := C01_returns h w
  obtain ⟨k, hk⟩ := hr.runs hruns
  have hf := hr.fine
  have hrun := hk (k + 1) (by omega)
  rw [run] at hrun
  split at hrun
  · cases hrun
  · rename_i hpc
    refine ⟨by omega, ?_⟩
    split at hrun
    · cases hrun
    · rename_i i hi
      refine ⟨i, hi, ?_⟩
      refine safe_of_step hf ?_ ?_ ?_
      · intro e; rw [e] at hrun; cases hrun
      · intro dst fd e
        rw [e] at hrun
        simp only at hrun
        split at hrun
        · exact ⟨_, ‹_›⟩
        · cases hrun
      · intro imm e
        rw [e] at hrun
        simp only at hrun
        split at hrun
        · cases hrun
        · split at hrun
          · split at hrun
            · exact ⟨_, _, ‹_›, ‹_›⟩
            · cases hrun
          · cases hrun

/-- The hypotheses are met: executions exist. -/
example : ∃ img, IsLoaded (envOf Sample.base Sample.chain) Sample.chain Sample.thr img ∧
    Reached (envOf Sample.base Sample.chain) img Sample.w0 0 (initSt (envOf Sample.base Sample.chain) Sample.w0) := by
  obtain ⟨img, h⟩ := Sample.loaded
  exact ⟨img, h, .start⟩

end Bf
