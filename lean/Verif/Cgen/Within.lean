import Verif.Cgen.Ruleset
import Verif.Cgen.Pins
/-!
# Programs that keep to some directories

`D` are directories, and `S` objects: those pinned there at the beginning, and those that did not exist.  A program keeps to them if each of its
calls names a directory of `D` and objects of `S`, as long as the objects it is given are of `S`.
-/
namespace Bf.Pin

variable {D : String → Prop} {S : Nat → Prop} {α β : Type}

/-- The call names directories of `D` and objects of `S` only. -/
def Call.In (D : String → Prop) (S : Nat → Prop) : Call → Prop
  | .acquire d | .create d | .release d _ | .rmTree d | .get d _ | .unlink d _ | .rename d _ _ => D d
  | .pin d _ o => D d ∧ S o
  | .mapWrite m _ | .mapFill m _ | .mapRead m | .ctrWrite m _ _ | .ctrRead m _ | .progLoad _ _ m | .linkDetach m | .linkCreate m _ | .close m => S m
  | .linkUpdate l p => S l ∧ S p
  | .alloc | .lockInit | .readdir | .openCgroup _ | .mapCreate _ => True

/-- A call that changes nothing but the descriptors of the process. -/
def Call.reads : Call → Bool
  | .alloc | .lockInit | .acquire _ | .readdir | .openCgroup _ | .mapRead _ | .ctrRead _ _ | .get _ _ | .close _ => true
  | .release _ write => !write
  | _ => false

def P.Within (D : String → Prop) (S : Nat → Prop) (ok : α → Prop) : P α → Prop
  | .ret a => ok a
  | .call c k => c.In D S ∧ ∀ a, (∀ o, a = .id o → S o) → (k a).Within D S ok

theorem Within.bind {p : P α} {f : α → P β} {ok : α → Prop} {ok' : β → Prop} (h : p.Within D S ok) (hf : ∀ a, ok a → (f a).Within D S ok') :
    (p >>= f).Within D S ok' := by
  induction p with
  | ret a => exact hf a h
  | call c k ih => exact ⟨h.1, fun a ha => ih a (h.2 a ha)⟩

theorem Within.mono {p : P α} {ok ok' : α → Prop} (h : p.Within D S ok) (hf : ∀ a, ok a → ok' a) : p.Within D S ok' := by
  induction p with
  | ret a => exact hf a h
  | call c k ih => exact ⟨h.1, fun a ha => ih a (h.2 a ha)⟩

theorem Within.pure {a : α} {ok : α → Prop} (h : ok a) : (pure a : P α).Within D S ok := h

/-! What running does. -/

/-- The objects are known: those pinned in the directories, and those that do not exist yet. -/
structure Has (D : String → Prop) (S : Nat → Prop) (w : K) : Prop where
  pins : ∀ d n o, D d → w.pinned d n = some o → S o
  news : ∀ i, w.objs.length ≤ i → S i

/-- From `w` to `w'`, nothing is changed elsewhere, neither directories, nor pins, nor objects. -/
structure Outside (D : String → Prop) (S : Nat → Prop) (w w' : K) : Prop where
  dirs : ∀ d, ¬ D d → (d ∈ w'.dirs ↔ d ∈ w.dirs)
  pins : ∀ d n, ¬ D d → w'.pinned d n = w.pinned d n
  objs : ∀ i, ¬ S i → w'.objs[i]? = w.objs[i]?

theorem Outside.refl (w : K) : Outside D S w w := ⟨fun _ _ => Iff.rfl, fun _ _ _ => rfl, fun _ _ => rfl⟩

theorem getElem?_set_ne' {l : List Obj} {i m : Nat} {o : Obj} (h : i ≠ m) : (l.set m o)[i]? = l[i]? := by
  rw [List.getElem?_set]
  simp [Ne.symm h]

theorem Outside.put {w : K} {m : Nat} {o : Obj} (hm : S m) : Outside D S w (w.put m o) :=
  ⟨fun _ _ => Iff.rfl, fun _ _ _ => rfl, fun i hi => getElem?_set_ne' (by rintro rfl; exact hi hm)⟩

theorem Outside.new {w : K} {o : Obj} (h : Has D S w) : Outside D S w (w.new o) :=
  ⟨fun _ _ => Iff.rfl, fun _ _ _ => rfl, fun i hi => by
    have : i < w.objs.length := by
      by_cases h' : w.objs.length ≤ i
      · exact absurd (h.news i h') hi
      · omega
    show (w.objs ++ [o])[i]? = _
    rw [List.getElem?_append_left this]⟩

theorem lookup_rmTree (dir d n : String) : ∀ l : List ((String × String) × Nat),
    (l.filter fun p => p.1.1 ≠ dir).lookup (d, n) = if d = dir then none else l.lookup (d, n)
  | [] => by simp
  | ((a, b), o) :: l => by
    have ih := lookup_rmTree dir d n l
    by_cases ha : a = dir
    · subst ha
      rw [List.filter_cons_of_neg (by simp), ih]
      by_cases hd : d = a
      · simp [hd]
      · rw [if_neg hd, if_neg hd, List.lookup]
        have : ((d, n) == (a, b)) = false := by simp [hd]
        rw [this]
    · rw [List.filter_cons_of_pos (by simp [ha]), List.lookup, ih, List.lookup]
      by_cases hd : d = dir
      · subst hd
        have : ((d, n) == (a, b)) = false := by simp [Ne.symm ha]
        rw [this]
      · simp [hd]

/-- A call of a program that keeps to `D` and `S`. -/
theorem ok_within {w w' : K} {c : Call} {a : Ans} (hI : Has D S w) (hc : c.In D S) (h : w.ok c = some (a, w')) :
    Outside D S w w' ∧ Has D S w' ∧ ∀ o, a = .id o → S o := by
  cases c <;> simp only [K.ok] at h
  case alloc => cases h; exact ⟨.refl _, hI, by simp⟩
  case lockInit => cases h; exact ⟨.refl _, hI, by simp⟩
  case openCgroup => cases h; exact ⟨.refl _, hI, by simp⟩
  case readdir => cases h; exact ⟨.refl _, hI, by simp⟩
  case acquire d =>
    split at h
    · cases h; exact ⟨.refl _, hI, by simp⟩
    · cases h
  case create d =>
    split at h
    · cases h
    · cases h
      refine ⟨⟨fun d' hd => ?_, fun _ _ _ => rfl, fun _ _ => rfl⟩, ⟨hI.pins, hI.news⟩, by simp⟩
      simp only [List.mem_cons, or_iff_right_iff_imp]
      rintro rfl
      exact absurd hc hd
  case release d wr =>
    split at h
    · cases h
      refine ⟨⟨fun d' hd => ?_, fun _ _ _ => rfl, fun _ _ => rfl⟩, ⟨hI.pins, hI.news⟩, by simp⟩
      simp only [List.mem_filter, decide_eq_true_eq, and_iff_left_iff_imp]
      rintro _ rfl
      exact hd hc
    · cases h; exact ⟨.refl _, hI, by simp⟩
  case rmTree d =>
    cases h
    refine ⟨⟨fun d' hd => ?_, fun d' n hd => ?_, fun _ _ => rfl⟩, ⟨fun d' n o hd ho => hI.pins d' n o hd ?_, hI.news⟩, by simp⟩
    · simp only [List.mem_filter, decide_eq_true_eq, and_iff_left_iff_imp]
      rintro _ rfl
      exact hd hc
    · refine (lookup_rmTree d d' n w.pins).trans ?_
      rw [if_neg (by rintro rfl; exact hd hc)]
      rfl
    · unfold K.pinned at ho
      rw [lookup_rmTree] at ho
      split at ho
      · cases ho
      · exact ho
  case mapCreate d =>
    cases h
    refine ⟨.new hI, ⟨hI.pins, fun i hi => hI.news i ?_⟩, fun o ho => ?_⟩
    · simp [K.new] at hi; omega
    · cases ho; exact hI.news _ (Nat.le_refl _)
  case progLoad ch img m =>
    cases h
    refine ⟨.new hI, ⟨hI.pins, fun i hi => hI.news i ?_⟩, fun o ho => ?_⟩
    · simp [K.new] at hi; omega
    · cases ho; exact hI.news _ (Nat.le_refl _)
  case linkCreate p pt =>
    split at h
    · cases h
      refine ⟨.new hI, ⟨hI.pins, fun i hi => hI.news i ?_⟩, fun o ho => ?_⟩
      · simp [K.new] at hi; omega
      · cases ho; exact hI.news _ (Nat.le_refl _)
    · cases h
  case mapWrite m v =>
    split at h
    · cases h
      exact ⟨.put hc, ⟨hI.pins, fun i hi => hI.news i (by simpa [K.put] using hi)⟩, by simp⟩
    · cases h; exact ⟨.refl _, hI, by simp⟩
    · cases h
  case mapFill m v =>
    split at h
    · cases h
      exact ⟨.put hc, ⟨hI.pins, fun i hi => hI.news i (by simpa [K.put] using hi)⟩, by simp⟩
    · cases h; exact ⟨.refl _, hI, by simp⟩
    · cases h
  case mapRead m =>
    split at h
    · cases h; exact ⟨.refl _, hI, by simp⟩
    · cases h
  case ctrRead m =>
    split at h
    · cases h; exact ⟨.refl _, hI, by simp⟩
    · cases h
  case ctrWrite m i v =>
    split at h
    · cases h
      exact ⟨.put hc, ⟨hI.pins, fun i hi => hI.news i (by simpa [K.put] using hi)⟩, by simp⟩
    · cases h
  case linkUpdate l p =>
    split at h
    · cases h
      exact ⟨.put hc.1, ⟨hI.pins, fun i hi => hI.news i (by simpa [K.put] using hi)⟩, by simp⟩
    · cases h
  case linkDetach l =>
    split at h
    · cases h
      exact ⟨.put hc, ⟨hI.pins, fun i hi => hI.news i (by simpa [K.put] using hi)⟩, by simp⟩
    · cases h
  case close o => cases h; exact ⟨⟨fun _ _ => Iff.rfl, fun _ _ _ => rfl, fun _ _ => rfl⟩, ⟨hI.pins, hI.news⟩, by simp⟩
  case pin d n o =>
    split at h
    · cases h
    · split at h
      · cases h
        refine ⟨⟨fun _ _ => Iff.rfl, fun d' n' hd => ?_, fun _ _ => rfl⟩, ⟨fun d' n' o' hd ho => ?_, hI.news⟩, by simp⟩
        · rw [pinned_pin, if_neg]
          rintro ⟨rfl, _⟩
          exact hd hc.1
        · rw [pinned_pin] at ho
          split at ho
          · cases ho; exact hc.2
          · exact hI.pins d' n' o' hd ho
      · cases h
  case get d n =>
    split at h
    · next o ho =>
      cases h
      exact ⟨⟨fun _ _ => Iff.rfl, fun _ _ _ => rfl, fun _ _ => rfl⟩, ⟨hI.pins, hI.news⟩, fun o' e => by cases e; exact hI.pins d n o hc ho⟩
    · cases h
  case unlink d n =>
    split at h
    · cases h
      refine ⟨⟨fun _ _ => Iff.rfl, fun d' n' hd => ?_, fun _ _ => rfl⟩, ⟨fun d' n' o' hd ho => ?_, hI.news⟩, by simp⟩
      · rw [pinned_unlink, if_neg]
        rintro ⟨rfl, _⟩
        exact hd hc
      · rw [pinned_unlink] at ho
        split at ho
        · cases ho
        · exact hI.pins d' n' o' hd ho
    · cases h
  case rename d n m =>
    split at h
    · next o ho =>
      cases h
      refine ⟨⟨fun _ _ => Iff.rfl, fun d' n' hd => ?_, fun _ _ => rfl⟩, ⟨fun d' n' o' hd ho => ?_, hI.news⟩, by simp⟩
      · rw [pinned_rename, if_neg, if_neg]
        · rintro ⟨rfl, _⟩; exact hd hc
        · rintro ⟨rfl, _⟩; exact hd hc
      · rw [pinned_rename] at ho
        split at ho
        · next o1 hh h1 =>
          cases ho
          first | exact hI.pins _ _ _ hc hh | exact hI.pins _ _ _ hc ‹_›
        · split at ho
          · cases ho
          · exact hI.pins d' n' o' hd ho
    · cases h

theorem step_within {w w' : K} {c : Call} {a : Ans} (hI : Has D S w) (hc : c.In D S) (h : Step w c a w') :
    Outside D S w w' ∧ Has D S w' ∧ ∀ o, a = .id o → S o := by
  cases h with
  | fail h => exact ⟨⟨fun _ _ => Iff.rfl, fun _ _ _ => rfl, fun _ _ => rfl⟩, ⟨hI.pins, hI.news⟩, by simp⟩
  | ok h =>
    obtain ⟨h1, h2, h3⟩ := ok_within hI hc h
    exact ⟨⟨h1.dirs, h1.pins, h1.objs⟩, ⟨h2.pins, h2.news⟩, h3⟩

theorem reads_same {w w' : K} {c : Call} {a : Ans} (hc : c.reads = true) (h : Step w c a w') : w'.objs = w.objs ∧ w'.pins = w.pins ∧ w'.dirs = w.dirs := by
  cases h with
  | fail h => exact ⟨rfl, rfl, rfl⟩
  | @ok _ w1 h =>
    show w1.objs = w.objs ∧ w1.pins = w.pins ∧ w1.dirs = w.dirs
    cases c <;> simp only [Call.reads] at hc <;> simp only [K.ok] at h
    all_goals first
      | exact absurd hc Bool.false_ne_true
      | (cases h; exact ⟨rfl, rfl, rfl⟩)
      | (split at h <;> first | (cases h; exact ⟨rfl, rfl, rfl⟩) | (cases h; done) | simp_all)

end Bf.Pin
