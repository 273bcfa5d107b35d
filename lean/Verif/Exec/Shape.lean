import Verif.Exec.Pro9
/-!
# Shape of the prologues' code and of the whole program

Nothing here models code of the repository.
-/
namespace Bf

variable {C : Cfg}

theorem GL.makeDynptr (C : Cfg) (k : Kfunc) : GL 13 (Bf.makeDynptr C k) :=
  GL.bind (n := 4) (k := 9) (GL.emitsN (by rfl) (by sta)) fun _ => GL.jmp (n := 8) (GL.errBlock C) (by omega)

theorem GL.parseL2 (C : Cfg) : GL 20 (Bf.parseL2 C) :=
  GL.bind (n := 8) (k := 12) (GL.emitsN (by rfl) (by sta)) fun _ =>
  GL.bind (n := 9) (k := 3) (GL.jmp (n := 8) (GL.errBlock C) (by omega)) fun _ => GL.emitsN (by rfl) (by sta)

theorem GL.parseL3 (C : Cfg) : GL 57 (Bf.parseL3 C) := by
  unfold Bf.parseL3
  refine GL.bind (n := 8) (k := 49) (GL.swich2 _ _ _ _ _ _ (by
    simp [swich2F, Sta, TyOk, Item.fits, movi])) fun _ => ?_
  refine GL.jmp (n := 48) ?_ (by omega)
  refine GL.bind (n := 7) (k := 41) (GL.emitsN (by rfl) (by sta)) fun _ => ?_
  refine GL.bind (n := 9) (k := 32) (GL.jmp (n := 8) (GL.errBlock C) (by omega)) fun _ => ?_
  refine GL.bind (n := 1) (k := 31) (GL.emit _ (by sta)) fun _ => ?_
  exact GL.bind (n := 8) (k := 23) GL.l3Ipv4 fun _ => GL.l3Ipv6

theorem GL.parseL4 (C : Cfg) : GL 32 (Bf.parseL4 C) := by
  unfold Bf.parseL4
  refine GL.bind (n := 14) (k := 18) (GL.swich4 _ _ _ _ _ _ _ _ _ _ (by
    simp [swich4F, Sta, TyOk, Item.fits, movi])) fun _ => ?_
  refine GL.jmp (n := 17) ?_ (by omega)
  refine GL.bind (n := 7) (k := 10) (GL.emitsN (by rfl) (by sta)) fun _ => ?_
  refine GL.bind (n := 9) (k := 1) (GL.jmp (n := 8) (GL.errBlock C) (by omega)) fun _ => ?_
  exact GL.emit _ (by sta)

theorem GL.familySwich (reg : Reg) : GL 8 (Bf.familySwich reg) :=
  GL.swich2 _ _ _ _ _ _ (by simp [swich2F, Sta, TyOk, Item.fits, movi])

theorem GS.prologue (C : Cfg) : GS (Bf.prologue C) := by
  unfold Bf.prologue
  split
  · exact .bindL (GL.emits _ (by sta)) fun _ => .bindL (GL.makeDynptr ..) fun _ => .bindL (GL.parseL2 C) fun _ =>
      .bindL (GL.parseL3 C) fun _ => (GL.parseL4 C).toGS
  · exact .bindL (GL.emits _ (by sta)) fun _ => .bindL (GL.makeDynptr ..) fun _ => .bindL (GL.parseL2 C) fun _ =>
      .bindL (GL.parseL3 C) fun _ => (GL.parseL4 C).toGS
  · exact .bindL (GL.emits _ (by sta)) fun _ => .bindL (GL.familySwich _) fun _ => .bindL (GL.emits _ (by sta)) fun _ =>
      .bindL (GL.makeDynptr ..) fun _ => .bindL (GL.parseL3 C) fun _ => (GL.parseL4 C).toGS
  · exact .bindL (GL.emits _ (by sta)) fun _ => .bindL (GL.familySwich _) fun _ => .bindL (GL.emit _ (by sta)) fun _ =>
      .bindL (GL.makeDynptr ..) fun _ => .bindL (GL.parseL3 C) fun _ => (GL.parseL4 C).toGS
  · exact .bindL (GL.emits _ (by sta)) fun _ => .bindL (GL.familySwich _) fun _ => (GL.emit _ (by sta)).toGS

/-- Code of a rule before its next-rule jumps are resolved, with its shape only. -/
theorem GS.resolved {g : Gen Unit} (hs : GS g) :
    GenN InRule (g >>= fun _ => fixup noFix (· == .nextRule)) (fun _ _ => True) := by
  intro p a p' hp hg
  rw [bind_run] at hg
  obtain ⟨⟨u, q⟩, h1, h2⟩ := Res.bind_eq_ok hg
  obtain ⟨x, e, hsx⟩ := hs.gen p u q h1
  subst e
  obtain ⟨e, hn⟩ := fixup_next p hp x _ h2
  cases e
  exact ⟨Bf.resolveNext x, rfl, hsx.resolveNext hn, trivial⟩

theorem GS.ruleBody (C : Cfg) (r : Rule) : GS (do
      let _ ← (do let _ ← Bf.guards C r.matchers []; Bf.matchers C r.matchers)
      let _ ← (if r.markSet then Bf.inlineSetMark C r.markVal else Pure.pure ())
      let _ ← Bf.ruleLog C r
      let _ ← (if r.hasCounters then Bf.emitCounter r.index else Pure.pure ())
      (match r.verdict with
        | .accept | .drop | .next => Bf.emitVerdict C.chain.hook.flavor r.verdict
        | .redirect => Bf.inlineRedirect C r.redirIfindex r.redirDir
        | .continue_ => Pure.pure ())) := by
  refine .bind (.bind (GS.guards ..) fun _ => GS.matchers ..) fun _ => ?_
  refine .bind ?_ fun _ => ?_
  · split
    · exact (GL.inlineSetMark ..).toGS
    · exact (GL.pure _).toGS
  refine .bind (GL.ruleLog ..).toGS fun _ => ?_
  refine .bind ?_ fun _ => GS.verdict C r
  split
  · exact (GL.emitCounter ..).toGS
  · exact (GL.pure _).toGS

theorem genRule_shape (C : Cfg) (r : Rule) : GenN InRule (genRule C r) (fun _ _ => True) := by
  cases hd : r.disabled with
  | true =>
    have e : genRule C r = pure () := by unfold genRule; rw [if_pos hd]
    rw [e]
    exact GenT.toN (.lastPure trivial) (.lastPure trivial)
  | false =>
    rw [genRule_eq C r hd]
    exact (GS.ruleBody C r).resolved

theorem genRules_shape (C : Cfg) (rs : List Rule) : GenN InRule (genRules C rs) (fun _ _ => True) := by
  induction rs with
  | nil => exact GenT.toN (.lastPure trivial) (.lastPure trivial)
  | cons r rs ih =>
    unfold genRules
    refine (genRule_shape C r).then InRule.noNext fun _ x hx sx => ?_
    exact ih.mono (fun _ h => h) fun _ y hy => trivial

/-- Statements that hold for each `k` hold for the same code: generators are deterministic. -/
theorem GenN.all {α ι : Type} {P : FixTy → Prop} {g : Gen α} {H : ι → Prop} {S : ι → α → List Item → Prop}
    (h0 : GenN P g (fun _ _ => True)) (h : ∀ k, H k → GenN P g (S k)) :
    GenN P g (fun a x => ∀ k, H k → S k a x) := by
  intro p a p' hp hg
  obtain ⟨x, e, sx, _⟩ := h0 p a p' hp hg
  refine ⟨x, e, sx, fun k hk => ?_⟩
  obtain ⟨y, e', _, hy⟩ := h k hk p a p' hp hg
  have : x = y := Prog.app_inj (p := p) (by rw [← e, ← e'])
  subst this
  exact hy

/-- A generator of code without next-rule jumps. -/
structure GN {α : Type} (g : Gen α) : Prop where
  gen : GenT g (fun _ x => ∀ i ∈ x, i.fix ≠ some .nextRule)

section
variable {α β : Type}

theorem GN.bind {g : Gen α} {f : α → Gen β} (hg : GN g) (hf : ∀ a, GN (f a)) : GN (g >>= f) :=
  ⟨hg.gen.then fun a x hx => (hf a).gen.mono fun _ y hy i hi => by
    rcases List.mem_append.mp hi with h | h
    · exact hx i h
    · exact hy i h⟩

theorem GN.pure (a : α) : GN (Pure.pure a : Gen α) := ⟨.lastPure (by simp)⟩
theorem GN.lift (r : Res α) : GN (Bf.lift r) :=
  ⟨(GenT.lift r).mono fun _ x h => by rw [h.2]; simp⟩
theorem GN.emits (is : List Insn) : GN (Bf.emits is) :=
  ⟨.lastEmits (by intro i hi; obtain ⟨j, _, rfl⟩ := List.mem_map.mp hi; simp [it])⟩
theorem GN.emit (i : Insn) : GN (Bf.emit i) := ⟨.lastEmit (by simp [it])⟩
theorem GN.stub (id : Stub) : GN (Bf.emitStub id) := ⟨.lastStub (by simp [itF])⟩
theorem GN.map {ty : FixTy} (h : ty ≠ .nextRule) (r : Reg) : GN (Bf.emitMap ty r) :=
  ⟨(GenT.emitMap ty r).mono fun _ x hx => by subst hx; simp [itF, it, h]⟩
theorem GN.jmp {w : Bool} {c : Cond} {d : Reg} {s : Src} {o : BitVec 16} {g : Gen Unit} (h : GN g) :
    GN (withJmp (.jmp w c d s o) g) :=
  ⟨.lastJmp (h.gen.mono fun _ x hx i hi => by
    rcases List.mem_cons.mp hi with h | h
    · subst h; simp [it]
    · exact hx i h)⟩

end

theorem GN.emitCounter (n : Nat) : GN (Bf.emitCounter n) :=
  .bind (.emits _) fun _ => .bind (.map (by simp) _) fun _ => .bind (.emit _) fun _ => .stub _

theorem GN.emitVerdict (f : Flavor) (v : Verdict) : GN (Bf.emitVerdict f v) :=
  .bind (.lift _) fun _ => .bind (.emit _) fun _ => .emit _

theorem GN.errBlock (C : Cfg) : GN (Bf.errBlock C) := .bind (.emitCounter _) fun _ => .emitVerdict ..

theorem GN.makeDynptr (C : Cfg) (k : Kfunc) : GN (Bf.makeDynptr C k) :=
  .bind (.emits _) fun _ => .jmp (.errBlock C)

theorem GN.parseL2 (C : Cfg) : GN (Bf.parseL2 C) :=
  .bind (.emits _) fun _ => .bind (.jmp (.errBlock C)) fun _ => .emits _

theorem GN.swich2 (reg : Reg) (a b : BitVec 32) (xa xb xd : Insn) :
    GN (swich reg [(a, [xa]), (b, [xb])] [xd]) :=
  ⟨(GenT.of_emits (emits_swich2 reg a b xa xb xd)).mono fun _ x hx => by subst hx; simp [swich2F, it]⟩

theorem GN.swich4 (reg : Reg) (a b c d : BitVec 32) (xa xb xc xd xe : Insn) :
    GN (swich reg [(a, [xa]), (b, [xb]), (c, [xc]), (d, [xd])] [xe]) :=
  ⟨(GenT.of_emits (emits_swich4 reg a b c d xa xb xc xd xe)).mono fun _ x hx => by subst hx; simp [swich4F, it]⟩

theorem GN.l3Ipv6 (C : Cfg) : GN (Bf.l3Ipv6 C) := by
  rw [l3Ipv6_eq]
  refine .jmp ⟨(GenT.of_emits (emits_ipv6 C)).mono ?_⟩
  rintro _ x rfl
  simp [ipv6F, it, itF]

theorem GN.parseL3 (C : Cfg) : GN (Bf.parseL3 C) :=
  .bind (.swich2 ..) fun _ => .jmp (.bind (.emits _) fun _ => .bind (.jmp (.errBlock C)) fun _ =>
    .bind (.emit _) fun _ => .bind (.jmp (.emits _)) fun _ => .l3Ipv6 C)

theorem GN.parseL4 (C : Cfg) : GN (Bf.parseL4 C) :=
  .bind (.swich4 ..) fun _ => .jmp (.bind (.emits _) fun _ => .bind (.jmp (.errBlock C)) fun _ => .emit _)

theorem GN.prologue (C : Cfg) : GN (Bf.prologue C) := by
  unfold Bf.prologue
  split
  · exact .bind (.emits _) fun _ => .bind (.makeDynptr ..) fun _ => .bind (.parseL2 C) fun _ =>
      .bind (.parseL3 C) fun _ => .parseL4 C
  · exact .bind (.emits _) fun _ => .bind (.makeDynptr ..) fun _ => .bind (.parseL2 C) fun _ =>
      .bind (.parseL3 C) fun _ => .parseL4 C
  · exact .bind (.emits _) fun _ => .bind (.swich2 ..) fun _ => .bind (.emits _) fun _ =>
      .bind (.makeDynptr ..) fun _ => .bind (.parseL3 C) fun _ => .parseL4 C
  · exact .bind (.emits _) fun _ => .bind (.swich2 ..) fun _ => .bind (.emit _) fun _ =>
      .bind (.makeDynptr ..) fun _ => .bind (.parseL3 C) fun _ => .parseL4 C
  · exact .bind (.emits _) fun _ => .bind (.swich2 ..) fun _ => .emit _

/-- Fixups of a whole program. -/
def FixOk (C : Cfg) (ty : FixTy) : Prop :=
  ty ≠ .nextRule ∧ (ty = .lmap → C.chain.flagLog = true) ∧ (ty = .smap → C.chain.flagRate = true)

theorem FixOk.noNext : ∀ ty, FixOk C ty → ty ≠ .nextRule := fun _ h => h.1

theorem InRule.fixOk {ty : FixTy} (h : InRule ty) : FixOk C ty :=
  ⟨h.2, fun e => absurd e h.1.1, fun e => absurd e h.1.2⟩

theorem Sta.noNext {P : FixTy → Prop} {x : List Item} (hx : Sta P x) (hn : ∀ i ∈ x, i.fix ≠ some .nextRule) :
    Sta (fun ty => P ty ∧ ty ≠ .nextRule) x := by
  induction x with
  | nil => trivial
  | cons i is ih =>
    obtain ⟨h1, h2, h3, h4⟩ := hx
    refine ⟨h1, fun ty e => ⟨h2 ty e, ?_⟩, h3, ih h4 fun j hj => hn j (by simp [hj])⟩
    rintro rfl
    exact hn i (by simp) e

/-- Code without next-rule jumps. -/
theorem GenT.inRule {α : Type} {g : Gen α} {S : α → List Item → Prop} (h : GenT g S) (hs : GS g) (hn : GN g) :
    GenN (FixOk C) g S :=
  GenT.toN h ((hs.gen.and hn.gen).mono fun _ _ h => (h.1.noNext h.2).mono fun _ => InRule.fixOk)

end Bf
