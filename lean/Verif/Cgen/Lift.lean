import Verif.Cgen.Update3
import Verif.Cgen.Writes
/-!
# From the view to the world
-/
namespace Bf.Pin

variable {w w' : K} {dir : String}

theorem K.Wf.erase (h : w.Wf) : w.erase.Wf :=
  ⟨fun o ho => by have := h.fds o ho; simpa [K.erase] using this, fun x hx => by have := h.pins x hx; simpa [K.erase] using this⟩

theorem Attached.erase {l : Link} {p : Nat} : Attached w.erase l p ↔ Attached w l p := by
  unfold Attached
  refine and_congr Iff.rfl (forall_congr' fun x => imp_congr_right fun _ => K.erase_link)

theorem IsProg.erase {o : Nat} : IsProg w.erase o ↔ IsProg w o := by
  unfold IsProg
  simp only [K.erase_prog]

theorem IsMap.erase {o : Nat} : IsMap w.erase o ↔ IsMap w o := by
  unfold IsMap
  rw [K.erase_get]
  cases h : w.objs[o]? with
  | none => simp
  | some x =>
    cases x with
    | map c => cases c <;> simp [Obj.erase]
    | _ => simp [Obj.erase]

theorem Placed.erase {h : Handle} : Placed w.erase dir h ↔ Placed w dir h :=
  ⟨fun ⟨a, b, c, d, e, f⟩ => ⟨a, b, (by simpa only [IsProg.erase] using c), (by simpa only [IsMap.erase] using d), (by simpa only [Attached.erase] using e), f⟩,
    fun ⟨a, b, c, d, e, f⟩ => ⟨a, b, (by simpa only [IsProg.erase] using c), (by simpa only [IsMap.erase] using d), (by simpa only [Attached.erase] using e), f⟩⟩

theorem HasCtx.erase {b : List Byte} : HasCtx w.erase dir b ↔ HasCtx w dir b := by
  unfold HasCtx
  simp only [K.erase_bytes, K.erase_pinned]

theorem Stored.erase {c : Chain} {h : Handle} : Stored w.erase dir c h ↔ Stored w dir c h :=
  ⟨fun ⟨a, b⟩ => ⟨Placed.erase.mp a, (by simpa only [K.erase_bytes, K.erase_pinned] using b)⟩,
    fun ⟨a, b⟩ => ⟨Placed.erase.mpr a, (by simpa only [K.erase_bytes, K.erase_pinned] using b)⟩⟩

theorem IsNew.erase {T : Target} {chain : Chain} {q : Nat} : IsNew T chain w.erase w'.erase q ↔ IsNew T chain w w' q := by
  unfold IsNew
  simp only [K.erase_prog]
  simp [K.erase]

end Bf.Pin
