import Verif.Cgen.Calls
/-!
# Programs that work on one directory at a time

A program that is told that some objects are those of a directory uses them there only.  Programs that are so can run together: each object stays
in one directory.
-/
namespace Bf.Pin

variable {α β : Type} {D : String → Prop} {n : String} {w w' : K}

/-- What a program knows: the directory of an object it was given. -/
abbrev Tags := Nat → Option String

/-- An object that is given in answer to a call about `n` is one of `n`. -/
def Tags.learn (t : Tags) (n : String) : Ans → Tags
  | .id o => fun i => if i = o then some n else t i
  | _ => t

/-- Each call names a directory of `D` and objects of that directory; or it changes nothing; or, if all directories are in `D`, it pins and makes nothing. -/
def P.Tagged (D : String → Prop) (t : Tags) : P α → Prop
  | .ret _ => True
  | .call c k =>
    (∃ n, D n ∧ c.In (fun d => d = n) (fun o => t o = some n) ∧ ∀ a, (k a).Tagged D (t.learn n a)) ∨
    (c.reads = true ∧ ∀ a, (k a).Tagged D t) ∨
    ((∀ d, D d) ∧ c.tame = true ∧ ∀ a, (k a).Tagged D t)

theorem Tagged.bind {p : P α} {f : α → P β} {t : Tags} (h : p.Tagged D t) (hf : ∀ a t, (f a).Tagged D t) : (p >>= f).Tagged D t := by
  induction p generalizing t with
  | ret a => exact hf a t
  | call c k ih =>
    rcases h with ⟨n, h1, h2, h3⟩ | ⟨h1, h2⟩ | ⟨h1, h2, h3⟩
    · exact .inl ⟨n, h1, h2, fun a => ih a (h3 a)⟩
    · exact .inr (.inl ⟨h1, fun a => ih a (h2 a)⟩)
    · exact .inr (.inr ⟨h1, h2, fun a => ih a (h3 a)⟩)

theorem Tagged.mono {D' : String → Prop} {p : P α} {t : Tags} (h : p.Tagged D t) (hD : ∀ d, D d → D' d) : p.Tagged D' t := by
  induction p generalizing t with
  | ret a => trivial
  | call c k ih =>
    rcases h with ⟨n, h1, h2, h3⟩ | ⟨h1, h2⟩ | ⟨h1, h2, h3⟩
    · exact .inl ⟨n, hD n h1, h2, fun a => ih a (h3 a)⟩
    · exact .inr (.inl ⟨h1, fun a => ih a (h2 a)⟩)
    · exact .inr (.inr ⟨fun d => hD d (h1 d), h2, fun a => ih a (h3 a)⟩)

theorem learn_mono {t : Tags} {o : Nat} {a : Ans} (h : t o = some n) : t.learn n a o = some n := by
  unfold Tags.learn
  split
  · split
    · rfl
    · exact h
  · exact h

theorem Tagged.of_within (hD : D n) {p : P α} : ∀ {t : Tags}, (∀ S : Nat → Prop, (∀ o, t o = some n → S o) → p.Within (fun d => d = n) S fun _ => True) → p.Tagged D t := by
  induction p with
  | ret a => exact fun _ => trivial
  | call c k ih =>
    intro t h
    refine .inl ⟨n, hD, (h _ fun _ h => h).1, fun a => ih a fun S hS => (h S fun o ho => hS o (learn_mono ho)).2 a fun o e => hS o ?_⟩
    subst e
    simp [Tags.learn]

theorem Tagged.of_reads {t : Tags} {p : P α} (h : p.Calls Call.reads) : p.Tagged D t := by
  induction p with
  | ret a => trivial
  | call c k ih => exact .inr (.inl ⟨h.1, fun a => ih a (h.2 a)⟩)

theorem Tagged.of_tame {t : Tags} (hD : ∀ d, D d) {p : P α} (h : p.Calls Call.tame) : p.Tagged D t := by
  induction p with
  | ret a => trivial
  | call c k ih => exact .inr (.inr ⟨hD, h.1, fun a => ih a (h.2 a)⟩)

/-! What running does. -/

/-- Each object is of the directory that `ow` says. -/
structure Owners (ow : Tags) (w : K) : Prop where
  pins : ∀ d n o, w.pinned d n = some o → ow o = some d
  lt : ∀ o d, ow o = some d → o < w.objs.length
  wf : ∀ x ∈ w.pins, x.2 < w.objs.length

/-- What a program knows is so. -/
def Knows (t ow : Tags) : Prop := ∀ o n, t o = some n → ow o = some n

theorem Call.In.mono {c : Call} {S S' : Nat → Prop} (h : c.In D S) (hS : ∀ o, S o → S' o) : c.In D S' := by
  cases c <;> simp only [Call.In] at h ⊢ <;> first | exact h | exact hS _ h | exact ⟨h.1, hS _ h.2⟩ | exact ⟨hS _ h.1, hS _ h.2⟩

theorem put_len (w : K) (i : Nat) (o : Obj) : (w.put i o).objs.length = w.objs.length := by simp [K.put]

theorem step_len {c : Call} {a : Ans} (h : Step w c a w') : w.objs.length ≤ w'.objs.length := by
  cases h with
  | fail h => exact Nat.le_refl _
  | @ok _ w1 h =>
    show w.objs.length ≤ w1.objs.length
    cases c <;> simp only [K.ok] at h
    all_goals first
      | (cases h; exact Nat.le_refl _)
      | (cases h; simp [K.new])
      | (split at h <;> first | (cases h; exact Nat.le_refl _) | (cases h; rw [put_len]; exact Nat.le_refl _) | (cases h; simp [K.new]; done) | (cases h; done) | (split at h <;> first | (cases h; exact Nat.le_refl _) | (cases h; done)))

theorem step_id {c : Call} {o : Nat} (hw : ∀ x ∈ w.pins, x.2 < w.objs.length) (h : Step w c (.id o) w') : o < w'.objs.length := by
  cases h with
  | @ok _ w1 h =>
    show o < w1.objs.length
    cases c <;> simp only [K.ok] at h
    case mapCreate => cases h; simp [K.new]
    case progLoad => cases h; simp [K.new]
    case linkCreate =>
      split at h
      · cases h; simp [K.new]
      · cases h
    case get d n =>
      split at h
      · next o' ho =>
        cases h
        exact hw _ (lookup_mem ho)
      · cases h
    all_goals first
      | (cases h; done)
      | (split at h <;> first | (cases h; done) | (split at h <;> cases h))

theorem step_wf {c : Call} {a : Ans} {S : Nat → Prop} (h : Step w c a w') (hw : ∀ x ∈ w.pins, x.2 < w.objs.length) : ∀ x ∈ w'.pins, x.2 < w'.objs.length := by
  have hl := step_len h
  cases h with
  | fail h => exact hw
  | @ok _ w1 h =>
    replace hl : w.objs.length ≤ w1.objs.length := hl
    show ∀ x ∈ w1.pins, x.2 < w1.objs.length
    have key : (∀ x ∈ w1.pins, x ∈ w.pins) → ∀ x ∈ w1.pins, x.2 < w1.objs.length := fun hk x hx => Nat.lt_of_lt_of_le (hw x (hk x hx)) hl
    cases c <;> simp only [K.ok] at h
    case rmTree => cases h; exact key fun x hx => (List.mem_filter.mp hx).1
    case unlink =>
      split at h
      · cases h; exact key fun x hx => (List.mem_filter.mp hx).1
      · cases h
    case pin d n o =>
      split at h
      · cases h
      · split at h
        · next ho =>
          cases h
          intro x hx
          rcases List.mem_cons.mp hx with rfl | hx
          · exact ho.1
          · exact hw x hx
        · cases h
    case rename d n m =>
      split at h
      · next o ho =>
        cases h
        intro x hx
        rcases List.mem_cons.mp hx with rfl | hx
        · exact hw ((d, n), o) (lookup_mem ho)
        · exact hw x (List.mem_filter.mp hx).1
      · cases h
    all_goals first
      | (cases h; exact key fun x hx => hx)
      | (split at h <;> first | (cases h; exact key fun x hx => hx) | (cases h; done))

/-- Pins of `w'` are pins of `w`. -/
def FewerPins (w w' : K) : Prop := ∀ d n o, w'.pinned d n = some o → w.pinned d n = some o

theorem tame_fewer {c : Call} {a : Ans} (hc : c.tame = true) (h : Step w c a w') : FewerPins w w' := by
  intro d n o ho
  cases h with
  | fail h => exact ho
  | @ok _ w1 h =>
    replace ho : w1.pinned d n = some o := ho
    cases c <;> simp only [K.ok] at h
    case pin => cases hc
    case rename => cases hc
    case unlink d' n' =>
      split at h
      · cases h
        rw [pinned_unlink] at ho
        split at ho
        · cases ho
        · exact ho
      · cases h
    case rmTree d' =>
      cases h
      unfold K.pinned at ho ⊢
      rw [lookup_rmTree] at ho
      split at ho
      · cases ho
      · exact ho
    all_goals first
      | (cases h; exact ho)
      | (split at h <;> first | (cases h; exact ho) | (cases h; done))

/-- From `w` to `w'`, nothing of the directory `d` is changed. -/
structure Fixed (ow : Tags) (w w' : K) (d : String) : Prop where
  dir : d ∈ w'.dirs ↔ d ∈ w.dirs
  pins : ∀ n, w'.pinned d n = w.pinned d n
  objs : ∀ i, ow i = some d → w'.objs[i]? = w.objs[i]?

/-- A call of a program among others. -/
theorem tagged_step {ow t : Tags} {c : Call} {k : Ans → P α} {a : Ans} (hO : Owners ow w) (hK : Knows t ow) (hp : (P.call c k).Tagged D t) (hs : Step w c a w') :
    ∃ ow' t', Owners ow' w' ∧ Knows ow ow' ∧ Knows t' ow' ∧ (k a).Tagged D t' ∧ ∀ d, ¬ D d → Fixed ow w w' d := by
  have hl := step_len hs
  have hwf := step_wf (S := fun _ => True) hs hO.wf
  rcases hp with ⟨n, h1, h2, h3⟩ | ⟨h1, h2⟩ | ⟨h1, h2, h3⟩
  · have hI : Has (fun d => d = n) (fun o => ow o = some n ∨ w.objs.length ≤ o) w :=
      ⟨fun d m o hd ho => .inl (by rw [hO.pins d m o ho, hd]), fun i hi => .inr hi⟩
    obtain ⟨g1, g2, g3⟩ := step_within hI (h2.mono fun o ho => .inl (hK o n ho)) hs
    let ow' : Tags := fun o => if o < w.objs.length then ow o else if o < w'.objs.length then some n else none
    have e1 : Knows ow ow' := fun o d h => by
      show (if o < w.objs.length then ow o else _) = _
      rw [if_pos (hO.lt o d h)]
      exact h
    have e2 : ∀ o, o < w'.objs.length → (ow o = some n ∨ w.objs.length ≤ o) → ow' o = some n := fun o ho h => by
      rcases h with h | h
      · exact e1 o n h
      · show (if o < w.objs.length then ow o else if o < w'.objs.length then some n else none) = _
        rw [if_neg (by omega), if_pos ho]
    refine ⟨ow', t.learn n a, ⟨fun d m o ho => ?_, fun o d h => ?_, hwf⟩, e1, fun o m h => ?_, h3 a, fun d hd => ⟨g1.dirs d ?_, fun m => g1.pins d m ?_, fun i hi => g1.objs i ?_⟩⟩
    · by_cases hd : d = n
      · subst hd
        exact e2 o (hwf _ (lookup_mem ho)) (g2.pins d m o rfl ho)
      · rw [g1.pins d m hd] at ho
        exact e1 o d (hO.pins d m o ho)
    · replace h : (if o < w.objs.length then ow o else if o < w'.objs.length then some n else none) = some d := h
      split at h
      · omega
      · split at h
        · assumption
        · cases h
    · unfold Tags.learn at h
      split at h
      · next o' =>
        split at h
        · next e =>
          subst e
          cases h
          exact e2 o (step_id hO.wf hs) (g3 o rfl)
        · exact e1 o m (hK o m h)
      · exact e1 o m (hK o m h)
    · rintro rfl; exact hd h1
    · rintro rfl; exact hd h1
    · rintro (h | h)
      · rw [hi] at h
        cases h
        exact hd h1
      · have := hO.lt i d hi
        omega
  · obtain ⟨e1, e2, e3⟩ := reads_same h1 hs
    exact ⟨ow, t, ⟨fun d n o ho => hO.pins d n o (by unfold K.pinned at ho ⊢; rw [← e2]; exact ho), fun o d h => by rw [e1]; exact hO.lt o d h, hwf⟩, fun _ _ h => h, hK, h2 a,
      fun d _ => ⟨by rw [e3], fun n => by unfold K.pinned; rw [e2], fun i _ => by rw [e1]⟩⟩
  · exact ⟨ow, t, ⟨fun d n o ho => hO.pins d n o (tame_fewer h2 hs d n o ho), fun o d h => Nat.lt_of_lt_of_le (hO.lt o d h) hl, hwf⟩, fun _ _ h => h, hK, h3 a,
      fun d hd => absurd (h1 d) hd⟩

end Bf.Pin
