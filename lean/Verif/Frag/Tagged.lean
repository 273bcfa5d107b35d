import Verif.Gen.Program
/-!
# Tagged fragments

The generator appends instructions to a program and records fixups by absolute position.  To reason
about pieces of code on their own, a *fragment* is a list of instructions, each carrying its pending
fixup.  This file defines fragments, their execution, and relates generator steps to fragments.
Nothing here models code of the repository.
-/
namespace Bf

/-- An instruction and its pending fixup. -/
structure Item where
  insn : Insn
  fix : Option FixTy
  deriving DecidableEq, Repr

/-- Instruction without fixup. -/
abbrev it (i : Insn) : Item := ⟨i, none⟩
/-- Instruction with a fixup. -/
abbrev itF (ty : FixTy) (i : Insn) : Item := ⟨i, some ty⟩
/-- Jump to the next rule. -/
abbrev itN (i : Insn) : Item := ⟨i, some .nextRule⟩

/-- Fixups of a fragment placed at `base`. -/
def fixupsOf : Nat → List Item → List Fixup
  | _, [] => []
  | base, i :: is =>
    match i.fix with
    | some ty => ⟨ty, base⟩ :: fixupsOf (base + 1) is
    | none => fixupsOf (base + 1) is

theorem fixupsOf_append (base : Nat) (a b : List Item) :
    fixupsOf base (a ++ b) = fixupsOf base a ++ fixupsOf (base + a.length) b := by
  induction a generalizing base with
  | nil => simp [fixupsOf]
  | cons i is ih =>
    have e : base + 1 + is.length = base + (is.length + 1) := by omega
    cases h : i.fix <;> simp [fixupsOf, h, ih, e]

/-- A program followed by a fragment. -/
def Prog.app (p : Prog) (f : List Item) : Prog :=
  { img := p.img ++ f.map (·.insn), fixups := p.fixups ++ fixupsOf p.img.length f }

@[simp] theorem Prog.app_nil (p : Prog) : p.app [] = p := by
  simp [Prog.app, fixupsOf]

theorem Prog.app_app (p : Prog) (f g : List Item) : (p.app f).app g = p.app (f ++ g) := by
  simp [Prog.app, fixupsOf_append, List.append_assoc]

theorem Prog.app_len (p : Prog) (f : List Item) : (p.app f).img.length = p.img.length + f.length := by
  simp [Prog.app]

/-- A generator step that, from any program, appends the given fragment (or fails the same way). -/
def Emits (g : Gen Unit) (f : Res (List Item)) : Prop :=
  ∀ p, g p = f.bind fun x => .ok ((), p.app x)

theorem bind_run {α β : Type} (x : Gen α) (k : α → Gen β) (p : Prog) :
    (x >>= k) p = (x p).bind fun ap => k ap.1 ap.2 := rfl

theorem pure_run {α : Type} (a : α) (p : Prog) : (pure a : Gen α) p = .ok (a, p) := rfl

@[simp] theorem Res.ok_bind' {α β} (a : α) (f : α → Res β) : (Res.ok a).bind f = f a := rfl
@[simp] theorem Res.err_bind' {α β} (e : Errno) (f : α → Res β) : (Res.err e).bind f = .err e := rfl
@[simp] theorem Res.ub_bind' {α β} (f : α → Res β) : (Res.ub : Res α).bind f = .ub := rfl

theorem Res.bind_assoc {α β γ} (x : Res α) (f : α → Res β) (g : β → Res γ) :
    (x.bind f).bind g = x.bind fun a => (f a).bind g := by
  cases x <;> rfl

theorem Res.bind_eq_ok {α β} {x : Res α} {f : α → Res β} {b : β} (h : x.bind f = .ok b) :
    ∃ a, x = .ok a ∧ f a = .ok b := by
  cases x with
  | ok a => exact ⟨a, rfl, h⟩
  | err e => simp at h
  | ub => simp at h

theorem emits_pure : Emits (pure ()) (.ok []) := by
  intro p; simp [pure_run]

theorem emits_fail (e : Errno) : Emits (fail e) (.err e) := fun _ => rfl
theorem emits_abort : Emits abort .ub := fun _ => rfl

theorem emits_emit (i : Insn) : Emits (emit i) (.ok [it i]) := by
  intro p; simp [emit, Prog.app, fixupsOf]

theorem emits_emitFix (ty : FixTy) (i : Insn) : Emits (emitFix ty i) (.ok [itF ty i]) := by
  intro p; simp [emitFix, Prog.app, fixupsOf]

theorem Emits.seq {g h : Gen Unit} {a b : Res (List Item)} (hg : Emits g a) (hh : Emits h b) :
    Emits (g >>= fun _ => h) (a.bind fun x => b.bind fun y => .ok (x ++ y)) := by
  intro p
  rw [bind_run, hg p]
  cases a with
  | ok x =>
    simp only [Res.ok_bind', hh (p.app x)]
    cases b <;> simp [Prog.app_app]
  | err e => rfl
  | ub => rfl

/-- Sequencing of two successful fragments. -/
theorem Emits.seq_ok {g h : Gen Unit} {a b : List Item} (hg : Emits g (.ok a)) (hh : Emits h (.ok b)) :
    Emits (g >>= fun _ => h) (.ok (a ++ b)) := Emits.seq hg hh

theorem emits_emits (is : List Insn) : Emits (emits is) (.ok (is.map it)) := by
  induction is with
  | nil => exact emits_pure
  | cons i is ih => exact Emits.seq_ok (emits_emit i) ih

theorem emits_emitMap (ty : FixTy) (r : Reg) :
    Emits (emitMap ty r) (.ok [itF ty (.ldMap r 0), it .pad]) :=
  Emits.seq_ok (emits_emitFix _ _) (emits_emit _)

theorem emits_emitStub (id : Stub) : Emits (emitStub id) (.ok [itF (.stub id) (.callRel 0)]) :=
  emits_emitFix _ _

theorem emits_emitNext (i : Insn) : Emits (emitNext i) (.ok [itN i]) := emits_emitFix _ _

/-- A lifted computation followed by something. -/
theorem emits_lift {α : Type} (x : Res α) (k : α → Gen Unit) (f : α → Res (List Item))
    (h : ∀ a, Emits (k a) (f a)) : Emits (lift x >>= k) (x.bind f) := by
  intro p
  rw [bind_run]
  cases x with
  | ok a => simp [lift, h a p]
  | err e => rfl
  | ub => rfl

/-- Patch the offset of the item at index `k`. -/
def patch (f : List Item) (k : Nat) (o : Nat) : List Item :=
  f.modify k fun i => { i with insn := i.insn.setOff (BitVec.ofNat 16 o) }

theorem fixupsOf_modify (base : Nat) (f : List Item) (k : Nat) (u : Insn → Insn) :
    fixupsOf base (f.modify k fun i => { i with insn := u i.insn }) = fixupsOf base f := by
  induction f generalizing base k with
  | nil => cases k <;> rfl
  | cons i is ih =>
    cases k with
    | zero => simp [fixupsOf]
    | succ k => simp only [List.modify_succ_cons, fixupsOf, ih]

theorem map_insn_modify (f : List Item) (k : Nat) (u : Insn → Insn) :
    (f.modify k fun i => { i with insn := u i.insn }).map (·.insn)
      = (f.map (·.insn)).modify k u := by
  induction f generalizing k with
  | nil => cases k <;> rfl
  | cons i is ih => cases k <;> simp [ih]

theorem jmpGet_app (p : Prog) (f : List Item) (i : Insn) :
    jmpGet i (p.app f) = .ok (p.img.length + f.length, p.app (f ++ [it i])) := by
  rw [← Prog.app_app]
  simp [jmpGet, Prog.app, fixupsOf]

theorem jmpClean_app (p : Prog) (f : List Item) (k : Nat) (hk : k < f.length) :
    jmpClean (p.img.length + k) (p.app f) = .ok ((), p.app (patch f k (f.length - k - 1))) := by
  have hlen : (p.app f).img.length = p.img.length + f.length := Prog.app_len p f
  have hget : (p.app f).img[p.img.length + k]? = some ((f.map (·.insn))[k]'(by simpa using hk)) := by
    simp [Prog.app, hk]
  unfold jmpClean
  rw [hget]
  simp only [hlen]
  have e : p.img.length + f.length - (p.img.length + k) - 1 = f.length - k - 1 := by omega
  rw [e]
  have e2 : (patch f k (f.length - k - 1)).map (·.insn)
      = (f.map (·.insn)).modify k (fun i => i.setOff (BitVec.ofNat 16 (f.length - k - 1))) :=
    map_insn_modify f k (fun i => i.setOff (BitVec.ofNat 16 (f.length - k - 1)))
  have e3 : fixupsOf p.img.length (patch f k (f.length - k - 1)) = fixupsOf p.img.length f :=
    fixupsOf_modify _ f k (fun i => i.setOff (BitVec.ofNat 16 (f.length - k - 1)))
  simp only [Prog.app, e2, e3]
  congr 2
  simp only [Prog.mk.injEq, and_true]
  rw [List.set_append_right _ _ (by omega)]
  congr 1
  rw [Nat.add_sub_cancel_left]
  apply List.ext_getElem (by simp)
  intro n h1 h2
  simp only [List.getElem_set, List.getElem_modify]
  split <;> simp_all

/-- A generator evaluated on a program followed by a fragment. -/
theorem Emits.app {g : Gen Unit} {x : List Item} (hg : Emits g (.ok x)) (p : Prog) (f : List Item) :
    g (p.app f) = .ok ((), p.app (f ++ x)) := by
  rw [hg (p.app f)]; simp [Prog.app_app]

/-- A block skipped by a jump. -/
theorem emits_withJmp {i : Insn} {g : Gen Unit} {f : Res (List Item)} (hg : Emits g f) :
    Emits (withJmp i g)
      (f.bind fun x => .ok (it (i.setOff (BitVec.ofNat 16 x.length)) :: x)) := by
  intro p
  have h0 := jmpGet_app p [] i
  simp only [Prog.app_nil, List.length_nil, Nat.add_zero, List.nil_append] at h0
  unfold withJmp
  rw [bind_run, h0]
  simp only [Res.ok_bind', bind_run]
  cases f with
  | err e => rw [hg]; rfl
  | ub => rw [hg]; rfl
  | ok x =>
    rw [hg.app p [it i]]
    simp only [Res.ok_bind']
    have := jmpClean_app p ([it i] ++ x) 0 (by simp)
    simp only [Nat.add_zero] at this
    rw [this]
    simp [patch]

end Bf
