import Verif.Frag.Adequacy
/-!
# Reasoning about generators

`GenT g S`: whenever the generator `g` succeeds, it appends a fragment satisfying `S`.
Nothing here models code of the repository.
-/
namespace Bf

/-- Whenever `g` succeeds, it appends a fragment satisfying `S`. -/
def GenT {α : Type} (g : Gen α) (S : α → List Item → Prop) : Prop :=
  ∀ p a p', g p = .ok (a, p') → ∃ x, p' = p.app x ∧ S a x

theorem GenT.mono {α : Type} {g : Gen α} {S T : α → List Item → Prop} (h : GenT g S)
    (hst : ∀ a x, S a x → T a x) : GenT g T := by
  intro p a p' hp
  obtain ⟨x, e, hx⟩ := h p a p' hp
  exact ⟨x, e, hst a x hx⟩

theorem GenT.bind {α β : Type} {g : Gen α} {k : α → Gen β} {S : α → List Item → Prop}
    {T : α → β → List Item → Prop} (hg : GenT g S) (hk : ∀ a, GenT (k a) (T a)) :
    GenT (g >>= k) (fun b x => ∃ a y z, x = y ++ z ∧ S a y ∧ T a b z) := by
  intro p b p' hp
  rw [bind_run] at hp
  obtain ⟨⟨a, q⟩, h1, h2⟩ := Res.bind_eq_ok hp
  obtain ⟨y, e1, hy⟩ := hg p a q h1
  obtain ⟨z, e2, hz⟩ := hk a q b p' h2
  refine ⟨y ++ z, ?_, a, y, z, rfl, hy, hz⟩
  rw [e2, e1, Prog.app_app]

theorem GenT.pure {α : Type} (a : α) : GenT (pure a : Gen α) (fun b x => b = a ∧ x = []) := by
  intro p b p' hp
  rw [pure_run] at hp
  cases hp
  exact ⟨[], by simp, rfl, rfl⟩

theorem GenT.fail {α : Type} (e : Errno) (S : α → List Item → Prop) : GenT (fail e) S := by
  intro p b p' hp; cases hp

theorem GenT.abort {α : Type} (S : α → List Item → Prop) : GenT abort S := by
  intro p b p' hp; cases hp

theorem GenT.lift {α : Type} (r : Res α) : GenT (lift r) (fun b x => r = .ok b ∧ x = []) := by
  intro p b p' hp
  obtain ⟨a, h1, h2⟩ := Res.bind_eq_ok hp
  cases h2
  exact ⟨[], by simp, h1, rfl⟩

theorem GenT.of_emits {g : Gen Unit} {f : List Item} (h : Emits g (.ok f)) :
    GenT g (fun _ x => x = f) := by
  intro p a p' hp
  rw [h p] at hp
  cases hp
  exact ⟨f, rfl, rfl⟩

theorem GenT.emit (i : Insn) : GenT (emit i) (fun _ x => x = [it i]) := .of_emits (emits_emit i)
theorem GenT.emits (is : List Insn) : GenT (emits is) (fun _ x => x = is.map it) :=
  .of_emits (emits_emits is)
theorem GenT.emitNext (i : Insn) : GenT (emitNext i) (fun _ x => x = [itN i]) :=
  .of_emits (emits_emitNext i)
theorem GenT.emitMap (ty : FixTy) (r : Reg) :
    GenT (emitMap ty r) (fun _ x => x = [itF ty (.ldMap r 0), it .pad]) :=
  .of_emits (emits_emitMap ty r)
theorem GenT.emitStub (id : Stub) :
    GenT (emitStub id) (fun _ x => x = [itF (.stub id) (.callRel 0)]) := .of_emits (emits_emitStub id)

theorem GenT.withJmp {i : Insn} {g : Gen Unit} {S : Unit → List Item → Prop} (h : GenT g S) :
    GenT (withJmp i g)
      (fun _ x => ∃ y, x = it (i.setOff (BitVec.ofNat 16 y.length)) :: y ∧ S () y) := by
  intro p a p' hp
  unfold Bf.withJmp at hp
  have h0 := jmpGet_app p [] i
  simp only [Prog.app_nil, List.length_nil, Nat.add_zero, List.nil_append] at h0
  rw [bind_run, h0] at hp
  simp only [Res.ok_bind'] at hp
  rw [bind_run] at hp
  obtain ⟨⟨u, q⟩, h1, h2⟩ := Res.bind_eq_ok hp
  obtain ⟨y, e, hy⟩ := h _ _ _ h1
  simp only at h2
  rw [e, Prog.app_app] at h2
  have := jmpClean_app p ([it i] ++ y) 0 (by simp)
  simp only [Nat.add_zero] at this
  rw [this] at h2
  simp only [Res.ok.injEq, Prod.mk.injEq] at h2
  refine ⟨_, h2.2.symm, y, ?_, hy⟩
  simp [patch]

/-! ### Continuation-style rules -/

theorem GenT.then {α β : Type} {g : Gen α} {k : α → Gen β} {S : α → List Item → Prop}
    {T : β → List Item → Prop} (hg : GenT g S)
    (hk : ∀ a y, S a y → GenT (k a) (fun b z => T b (y ++ z))) : GenT (g >>= k) T := by
  intro p b p' hp
  rw [bind_run] at hp
  obtain ⟨⟨a, q⟩, h1, h2⟩ := Res.bind_eq_ok hp
  obtain ⟨y, e1, hy⟩ := hg p a q h1
  obtain ⟨z, e2, hz⟩ := hk a y hy q b p' h2
  exact ⟨y ++ z, by rw [e2, e1, Prog.app_app], hz⟩

theorem GenT.thenEmit {β : Type} {i : Insn} {k : Unit → Gen β} {T : β → List Item → Prop}
    (h : GenT (k ()) (fun b z => T b (it i :: z))) : GenT (Bf.emit i >>= k) T :=
  (GenT.emit i).then fun _ y hy => by subst hy; exact h

theorem GenT.thenEmits {β : Type} {is : List Insn} {k : Unit → Gen β} {T : β → List Item → Prop}
    (h : GenT (k ()) (fun b z => T b (is.map it ++ z))) : GenT (Bf.emits is >>= k) T :=
  (GenT.emits is).then fun _ y hy => by subst hy; exact h

theorem GenT.thenNext {β : Type} {i : Insn} {k : Unit → Gen β} {T : β → List Item → Prop}
    (h : GenT (k ()) (fun b z => T b (itN i :: z))) : GenT (Bf.emitNext i >>= k) T :=
  (GenT.emitNext i).then fun _ y hy => by subst hy; exact h

theorem GenT.thenMap {β : Type} {ty : FixTy} {r : Reg} {k : Unit → Gen β} {T : β → List Item → Prop}
    (h : GenT (k ()) (fun b z => T b (itF ty (.ldMap r 0) :: it .pad :: z))) :
    GenT (Bf.emitMap ty r >>= k) T :=
  (GenT.emitMap ty r).then fun _ y hy => by subst hy; exact h

theorem GenT.thenStub {β : Type} {id : Stub} {k : Unit → Gen β} {T : β → List Item → Prop}
    (h : GenT (k ()) (fun b z => T b (itF (.stub id) (.callRel 0) :: z))) :
    GenT (Bf.emitStub id >>= k) T :=
  (GenT.emitStub id).then fun _ y hy => by subst hy; exact h

theorem GenT.thenLift {α β : Type} {r : Res α} {k : α → Gen β} {T : β → List Item → Prop}
    (h : ∀ a, r = .ok a → GenT (k a) T) : GenT (Bf.lift r >>= k) T :=
  (GenT.lift r).then fun a y hy => by obtain ⟨h1, rfl⟩ := hy; exact h a h1

theorem GenT.lastEmit {i : Insn} {T : Unit → List Item → Prop} (h : T () [it i]) :
    GenT (Bf.emit i) T := (GenT.emit i).mono fun _ x hx => by subst hx; exact h

theorem GenT.lastEmits {is : List Insn} {T : Unit → List Item → Prop} (h : T () (is.map it)) :
    GenT (Bf.emits is) T := (GenT.emits is).mono fun _ x hx => by subst hx; exact h

theorem GenT.lastNext {i : Insn} {T : Unit → List Item → Prop} (h : T () [itN i]) :
    GenT (Bf.emitNext i) T := (GenT.emitNext i).mono fun _ x hx => by subst hx; exact h

theorem GenT.lastStub {id : Stub} {T : Unit → List Item → Prop}
    (h : T () [itF (.stub id) (.callRel 0)]) :
    GenT (Bf.emitStub id) T := (GenT.emitStub id).mono fun _ x hx => by subst hx; exact h

theorem GenT.lastPure {α : Type} {a : α} {T : α → List Item → Prop} (h : T a []) :
    GenT (Pure.pure a : Gen α) T := (GenT.pure a).mono fun _ x hx => by
  obtain ⟨rfl, rfl⟩ := hx; exact h

theorem GenT.lastJmp {i : Insn} {g : Gen Unit} {T : Unit → List Item → Prop}
    (h : GenT g (fun _ y => T () (it (i.setOff (BitVec.ofNat 16 y.length)) :: y))) :
    GenT (Bf.withJmp i g) T := (GenT.withJmp h).mono fun _ x hx => by
  obtain ⟨y, rfl, hy⟩ := hx; exact hy

theorem GenT.thenJmp {β : Type} {i : Insn} {g : Gen Unit} {k : Unit → Gen β}
    {S : Unit → List Item → Prop} {T : β → List Item → Prop} (hg : GenT g S)
    (h : ∀ y, S () y → GenT (k ())
      (fun b z => T b ((it (i.setOff (BitVec.ofNat 16 y.length)) :: y) ++ z))) :
    GenT (Bf.withJmp i g >>= k) T :=
  (GenT.withJmp hg).then fun _ x hx => by obtain ⟨y, rfl, hy⟩ := hx; exact h y hy

/-- Fragments are determined by the program they produce. -/
theorem Prog.app_inj {p : Prog} {x y : List Item} (h : p.app x = p.app y) : x = y := by
  simp only [Prog.app, Prog.mk.injEq, List.append_cancel_left_eq] at h
  obtain ⟨h1, h2⟩ := h
  generalize p.img.length = n at h2
  induction x generalizing y n with
  | nil => cases y with
    | nil => rfl
    | cons j js => simp at h1
  | cons i is ih =>
    cases y with
    | nil => simp at h1
    | cons j js =>
      simp only [List.map_cons, List.cons.injEq] at h1
      have key : i.fix = j.fix ∧ fixupsOf (n + 1) is = fixupsOf (n + 1) js := by
        have hge : ∀ (l : List Item) (g : Fixup), g ∈ fixupsOf (n + 1) l → g.insn ≠ n := by
          intro l g hg; have := (fixupsOf_ge hg).1; omega
        cases hi : i.fix with
        | none =>
          cases hj : j.fix with
          | none => simpa [fixupsOf, hi, hj] using h2
          | some ty =>
            simp only [fixupsOf, hi, hj] at h2
            exact absurd rfl (hge is ⟨ty, n⟩ (by rw [h2]; simp))
        | some ty =>
          cases hj : j.fix with
          | none =>
            simp only [fixupsOf, hi, hj] at h2
            exact absurd rfl (hge js ⟨ty, n⟩ (by rw [← h2]; simp))
          | some ty' =>
            simp only [fixupsOf, hi, hj, List.cons.injEq, Fixup.mk.injEq, and_true] at h2
            exact ⟨by rw [h2.1], h2.2⟩
      have := ih h1.2 _ key.2
      subst this
      cases i; cases j
      simp_all

theorem GenT.and {α : Type} {g : Gen α} {S T : α → List Item → Prop} (h : GenT g S) (h' : GenT g T) :
    GenT g (fun a x => S a x ∧ T a x) := by
  intro p a p' hp
  obtain ⟨x, e, hx⟩ := h p a p' hp
  obtain ⟨y, e', hy⟩ := h' p a p' hp
  have : x = y := Prog.app_inj (p := p) (by rw [← e, ← e'])
  subst this
  exact ⟨x, e, hx, hy⟩

end Bf
