import Verif.Cgen.Lift
import Verif.Props.Sample
/-!
# A sample chain, loaded and attached

Used to show that the hypotheses of the properties about operations on chains are met, and what happens when calls fail.
-/
namespace Bf.Pin.Sample

open Bf.Sample (chain)

def tgt : Target := ⟨Bf.Sample.thr, Bf.Sample.slen, 40⟩

/-- `ifindex=2` -/
def opts : HookOpts := { HookOpts.new with usedIfindex := true, ifindex := 2 }

def pt : Point := .iface .xdp 2

/-- Two processors; nothing loaded. -/
def w0 : K := ⟨2, [], [], [], [], []⟩

/-- Execute a program, none of whose calls fails, and forget its calls. -/
def K.after {α : Type} (w : K) (p : P α) : K := { (p.exec (fun _ => false) 1000 0 w).1 with hist := [] }

/-- `bf_chain_set` of the sample chain. -/
def w1 : K := K.after w0 (chainSet tgt chain (some opts))

/-- The handle of the chain in `w1`. -/
def h1 : Handle :=
  ⟨"bf_prog", some 5, some ⟨⟨"bf_link", .xdp, opts⟩, 6, none⟩, some ⟨cmapD chain, 1⟩, some ⟨pmapD tgt, 2⟩, some ⟨lmapD, 3⟩, some ⟨smapD chain, 4⟩,
    [some ⟨⟨"bf_set_0000", .set, 1, 4, 1, 2⟩, 0⟩]⟩

def _root_.Bf.Pin.K.isProg (w : K) (o : Nat) : Bool := match w.objs[o]? with
  | some (.prog _ _ _) => true
  | _ => false

def _root_.Bf.Pin.K.isMap (w : K) (o : Nat) : Bool := match w.objs[o]? with
  | some (.map _) => true
  | _ => false

def _root_.Bf.Pin.K.linkAt (w : K) (o : Nat) : Option (Point × Nat × Bool) := match w.objs[o]? with
  | some (.link pt p d) => some (pt, p, d)
  | _ => none

def _root_.Bf.Pin.K.bytesAt (w : K) (o : Nat) : Option (List Byte) := match w.objs[o]? with
  | some (.map (.bytes b)) => some b
  | _ => none

theorem isProg_of {w : K} {o : Nat} (h : w.isProg o = true) : IsProg w o := by
  unfold K.isProg at h
  split at h
  · next e => exact ⟨_, _, _, e⟩
  · cases h

theorem isMap_of {w : K} {o : Nat} (h : w.isMap o = true) : IsMap w o := by
  unfold K.isMap at h
  split at h
  · next e => exact ⟨_, e⟩
  · cases h

theorem linkAt_of {w : K} {o : Nat} {x : Point × Nat × Bool} (h : w.linkAt o = some x) : w.objs[o]? = some (.link x.1 x.2.1 x.2.2) := by
  unfold K.linkAt at h
  split at h
  · next e => cases h; exact e
  · cases h

theorem bytesAt_of {w : K} {o : Nat} {b : List Byte} (h : w.bytesAt o = some b) : w.objs[o]? = some (.map (.bytes b)) := by
  unfold K.bytesAt at h
  split at h
  · next e => cases h; exact e
  · cases h

theorem bytesAt_eq {w : K} {o : Nat} (h : (w.bytesAt o).isSome = true) : w.objs[o]? = some (.map (.bytes ((w.bytesAt o).getD []))) := by
  cases e : w.bytesAt o with
  | none => rw [e] at h; cases h
  | some b => exact bytesAt_of e

/-- Nothing runs at a point. -/
def _root_.Bf.Pin.K.idle (w : K) (pt : Point) : Bool :=
  (List.range w.objs.length).all fun l => match w.linkAt l with
    | some (pt', _, false) => decide (pt' ≠ pt) || (!w.fds.contains l && w.pins.all fun x => x.2 != l)
    | _ => true

theorem idle_of {w : K} {pt : Point} (h : w.idle pt = true) (q : Nat) : ¬ w.runs pt q := by
  rintro ⟨l, h1, h2⟩
  have hl : l < w.objs.length := (List.getElem?_eq_some_iff.mp h1).1
  have := List.all_eq_true.mp h l (List.mem_range.mpr hl)
  rw [show w.linkAt l = some (pt, q, false) by unfold K.linkAt; rw [h1]] at this
  simp only [ne_eq, not_true_eq_false, decide_false, Bool.false_or, Bool.and_eq_true, Bool.not_eq_true', List.all_eq_true] at this
  rcases h2 with h2 | ⟨d, n, h2⟩
  · have h3 := this.1
    simp at h3
    exact h3 h2
  · have h3 := this.2 _ (lookup_mem h2)
    simp at h3

/-- The chain is set. -/
theorem set_ok : ((chainSet tgt chain (some opts)).exec (fun _ => false) 1000 0 w0).2 = some (.ok ()) := by decide +kernel

theorem wf0 : w0.Wf := ⟨by simp [w0], by simp [w0]⟩

theorem wf1 : w1.Wf := ⟨by decide +kernel, by decide +kernel⟩

theorem eq_of_beq_res {a b : Res (Chain × HandleD)} (h : decide (a = b) = true) : a = b := of_decide_eq_true h

theorem stored1 : Stored w1 "sample" chain h1 := by
  refine ⟨⟨by decide +kernel, ?_, ⟨5, rfl, isProg_of (by decide +kernel)⟩, ?_, ?_, ?_⟩, ⟨7, _, by decide +kernel, bytesAt_eq (by decide +kernel), ?_, ?_⟩⟩
  · rintro l ⟨⟩
    decide +kernel
  · have : ∀ m ∈ h1.maps, w1.isMap m.id = true := by decide +kernel
    exact fun m hm => isMap_of (this m hm)
  · rintro l p ⟨⟩ ⟨⟩
    refine ⟨rfl, fun x hx => ?_⟩
    have e : Link.fds ⟨⟨"bf_link", .xdp, opts⟩, 6, none⟩ = [6] := rfl
    rw [e] at hx
    simp [points, Hook.flavor] at hx
    subst hx
    exact linkAt_of (x := (.iface .xdp opts.ifindex, 5, false)) (by decide +kernel)
  · rintro n (rfl | ⟨m, hm, rfl⟩ | ⟨_, rfl | rfl⟩)
    · decide
    · have : ∀ m ∈ h1.maps, m.d.name ≠ "bf_ctx" ∧ m.d.name ≠ "bf_ctx_tmp" := by decide +kernel
      exact this m hm
    · decide
    · decide
  · decide +kernel
  · decide +kernel

end Bf.Pin.Sample
