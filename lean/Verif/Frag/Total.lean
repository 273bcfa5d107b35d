import Verif.Frag.Compile
/-!
# Generator steps that cannot fail

`Tot gs n g`: from any program, `g` succeeds and appends at most `n` instructions, each with a fixup
that can be resolved.  Nothing here models code of the repository.
-/
namespace Bf

/-- A jump whose offset is still to be computed. -/
def ZeroJmp : Insn → Prop
  | .jmp _ _ _ _ o => o = 0
  | .ja o => o = 0
  | _ => False

/-- An item whose fixup can be resolved. -/
def Good (gs : Groups) (i : Item) : Prop :=
  match i.fix with
  | none => True
  | some .nextRule => ZeroJmp i.insn
  | some (.stub _) => i.insn = .callRel 0
  | some (.setMap k) => (∃ d, i.insn = .ldMap d 0) ∧ ∃ g, findGroup gs k = some g
  | some _ => ∃ d, i.insn = .ldMap d 0

/-- `g` succeeds from any program and appends at most `n` good items. -/
def Tot {α : Type} (gs : Groups) (n : Nat) (g : Gen α) : Prop :=
  ∀ p, ∃ a x, g p = .ok (a, p.app x) ∧ x.length ≤ n ∧ ∀ i ∈ x, Good gs i

variable {gs : Groups} {α β : Type} {n m : Nat}

theorem Tot.mono {g : Gen α} (h : Tot gs n g) (hn : n ≤ m) : Tot gs m g := by
  intro p
  obtain ⟨a, x, h1, h2, h3⟩ := h p
  exact ⟨a, x, h1, Nat.le_trans h2 hn, h3⟩

theorem Tot.bind {g : Gen α} {k : α → Gen β} (hg : Tot gs n g) (hk : ∀ a, Tot gs m (k a)) :
    Tot gs (n + m) (g >>= k) := by
  intro p
  obtain ⟨a, x, h1, h2, h3⟩ := hg p
  obtain ⟨b, y, k1, k2, k3⟩ := hk a (p.app x)
  refine ⟨b, x ++ y, ?_, ?_, ?_⟩
  · rw [bind_run, h1]
    simp only [Res.ok_bind', k1, Prog.app_app]
  · simp only [List.length_append]; omega
  · intro i hi
    rcases List.mem_append.mp hi with h | h
    · exact h3 i h
    · exact k3 i h

theorem Tot.pure (a : α) : Tot gs 0 (pure a : Gen α) := fun p => ⟨a, [], by simp [pure_run], by simp, by simp⟩

theorem Tot.lift {r : Res α} {a : α} {k : α → Gen β} (hr : r = .ok a) (hk : Tot gs n (k a)) :
    Tot gs n (lift r >>= k) := by
  intro p
  rw [bind_run]
  subst hr
  exact hk p

theorem Tot.of_emits {g : Gen Unit} {f : List Item} (h : Emits g (.ok f)) (hf : ∀ i ∈ f, Good gs i) :
    Tot gs f.length g := fun p => ⟨(), f, by rw [h p]; rfl, Nat.le_refl _, hf⟩

theorem Tot.emit (i : Insn) : Tot gs 1 (emit i) :=
  .of_emits (emits_emit i) (by simp [Good])

theorem Tot.emits (is : List Insn) : Tot gs is.length (emits is) := by
  have := Tot.of_emits (gs := gs) (emits_emits is) (by
    intro i hi
    obtain ⟨j, _, rfl⟩ := List.mem_map.mp hi
    trivial)
  simpa using this

theorem Tot.next {i : Insn} (h : ZeroJmp i) : Tot gs 1 (emitNext i) :=
  .of_emits (emits_emitNext i) (by simpa [Good] using h)

theorem Tot.stub (id : Stub) : Tot gs 1 (emitStub id) :=
  .of_emits (emits_emitStub id) (by simp [Good])

theorem Tot.map {ty : FixTy} (r : Reg) (h : Good gs (itF ty (.ldMap r 0))) : Tot gs 2 (emitMap ty r) :=
  .of_emits (emits_emitMap ty r) (by
    intro i hi
    simp only [List.mem_cons, List.not_mem_nil, or_false] at hi
    rcases hi with rfl | rfl
    · exact h
    · trivial)

theorem Tot.ite {c : Prop} [Decidable c] {a b : Gen α} (ha : c → Tot gs n a) (hb : ¬c → Tot gs n b) :
    Tot gs n (if c then a else b) := by
  split
  · exact ha ‹_›
  · exact hb ‹_›

theorem Tot.withJmp {i : Insn} {g : Gen Unit} (h : Tot gs n g) : Tot gs (n + 1) (withJmp i g) := by
  intro p
  have h0 := jmpGet_app p [] i
  simp only [Prog.app_nil, List.length_nil, Nat.add_zero, List.nil_append] at h0
  obtain ⟨a, x, h1, h2, h3⟩ := h (p.app [it i])
  refine ⟨(), patch ([it i] ++ x) 0 (([it i] ++ x).length - 0 - 1), ?_, ?_, ?_⟩
  · unfold Bf.withJmp
    rw [bind_run, h0]
    simp only [Res.ok_bind', bind_run]
    rw [h1]
    simp only [Res.ok_bind', Prog.app_app]
    have := jmpClean_app p ([it i] ++ x) 0 (by simp)
    simpa only [Nat.add_zero] using this
  · simp [patch]; exact h2
  · intro j hj
    simp only [patch, List.cons_append, List.nil_append, List.modify_zero_cons, List.mem_cons] at hj
    rcases hj with rfl | hj
    · trivial
    · exact h3 j hj

end Bf
