import Verif.Cli.Main
import Verif.Props.C44_Ruleset
/-!
# What `bf_ctx_setup` does to the chains, and how `main` goes on
-/
namespace Bf.Pin
open Cli (sweepLoop sweep ctxSetup)

variable {T : Target} {w w' : K}

/-- From `v0` to `v`, only directories left by processes that died were removed. -/
structure Swept (v0 v : K) : Prop where
  objs : v.objs = v0.objs
  fds : v.fds = v0.fds
  sub : ∀ x ∈ v.pins, x ∈ v0.pins
  pins : ∀ d, staging d = false → ∀ n, v.pinned d n = v0.pinned d n
  gone : ∀ d n, v.pinned d n = v0.pinned d n ∨ v.pinned d n = none
  dirs : ∀ d, staging d = false → (d ∈ v.dirs ↔ d ∈ v0.dirs)
  hist : ∃ g, v.hist = g ++ v0.hist

theorem Swept.refl (v : K) : Swept v v := ⟨rfl, rfl, fun _ h => h, fun _ _ _ => rfl, fun _ _ => .inl rfl, fun _ _ => Iff.rfl, [], rfl⟩

theorem Swept.trans {a b c : K} (h : Swept a b) (h' : Swept b c) : Swept a c :=
  ⟨h'.objs.trans h.objs, h'.fds.trans h.fds, fun x hx => h.sub x (h'.sub x hx), fun d hd n => (h'.pins d hd n).trans (h.pins d hd n),
    fun d n => by rcases h'.gone d n with e | e
                  · rw [e]; exact h.gone d n
                  · exact .inr e,
    fun d hd => (h'.dirs d hd).trans (h.dirs d hd), hist_trans h.hist h'.hist⟩

theorem Swept.log (v : K) (c : Call) (a : Ans) : Swept v (v.log c a) :=
  ⟨rfl, rfl, fun _ h => h, fun _ _ _ => rfl, fun _ _ => .inl rfl, fun _ _ => Iff.rfl, [_], rfl⟩

theorem lookup_dir (dir d n : String) : ∀ l : List ((String × String) × Nat),
    (l.filter fun p => p.1.1 ≠ dir).lookup (d, n) = if d = dir then none else l.lookup (d, n)
  | [] => by simp
  | ((a, b), o) :: l => by
    have ih := lookup_dir dir d n l
    by_cases ha : a = dir
    · subst ha
      rw [List.filter_cons_of_neg (by simp), ih]
      by_cases hd : d = a
      · simp [hd]
      · rw [if_neg hd, if_neg hd, List.lookup]
        have : ((d, n) == (a, b)) = false := by simp [hd]
        rw [this]
    · rw [List.filter_cons_of_pos (by simp [ha]), List.lookup, ih, List.lookup]
      by_cases hd : d = dir
      · subst hd
        have : ((d, n) == (a, b)) = false := by simp [Ne.symm ha]
        rw [this]
      · simp [hd]

theorem AStep.rmTree {v v' : K} {d : String} {a : Ans} (h : AStep v (.rmTree d) a v') (hs : staging d = true) : Swept v v' := by
  cases h with
  | fail h => exact Swept.log _ _ _
  | ok _ _ _ h =>
    cases h
    refine ⟨rfl, rfl, fun x hx => (List.mem_filter.mp hx).1, fun d' hd n => ?_, fun d' n => ?_, fun d' hd => ?_, [_], rfl⟩
    · refine (lookup_dir d d' n v.pins).trans ?_
      rw [if_neg (by rintro rfl; rw [hs] at hd; cases hd)]
      rfl
    · have e : (K.log { v with pins := v.pins.filter (fun p => p.1.1 ≠ d), dirs := v.dirs.filter (· ≠ d) } (.rmTree d) .done).pinned d' n =
          if d' = d then none else v.pinned d' n := lookup_dir d d' n v.pins
      rw [e]
      by_cases hd : d' = d
      · exact .inr (if_pos hd)
      · exact .inl (if_neg hd)
    · show d' ∈ v.dirs.filter (· ≠ d) ↔ _
      rw [List.mem_filter]
      have : d' ≠ d := by rintro rfl; rw [hs] at hd; cases hd
      simp [this]

theorem sweepLoop_safe {v0 : K} {Q : Unit → K → Prop} (hQ : ∀ v, Swept v0 v → Q () v) : ∀ {ns : List String} {v : K}, Swept v0 v → Safe (Swept v0) Q (sweepLoop ns) v
  | [], v, h => ⟨h, hQ v h⟩
  | n :: ns, v, h => by
    unfold sweepLoop
    split
    · next hs =>
      refine safe_try h (fun e v' ha => ?_) fun a v' ha _ => ?_
      · rw [ha.quiet trivial]
        exact sweepLoop_safe hQ (h.trans (Swept.log _ _ _))
      · rw [ha.quiet trivial]
        exact safe_void (h.trans (Swept.log _ _ _)) fun b v2 hb => sweepLoop_safe hQ ((h.trans (Swept.log _ _ _)).trans (hb.rmTree hs))
    · exact sweepLoop_safe hQ h

theorem ctxSetup_safe (v0 : K) : Safe (Swept v0) (fun r _ => r ≠ .ub) ctxSetup v0 := by
  unfold ctxSetup
  refine safe_quiet trivial (Swept.refl _) (fun e a => ⟨Swept.log _ _ _, by simp⟩) fun a => ?_
  have fin : ∀ v, Swept v0 v → Safe (Swept v0) (fun r _ => r ≠ .ub) (pure (Res.ok ()) : P (Res Unit)) v := fun v h => ⟨h, by simp⟩
  refine Safe.bind (Q := fun (r : Res Unit) _ => r ≠ .ub) ?_
  refine Safe.mono (I := Swept v0) (Q := fun _ v => Swept v0 v) ?_ (fun _ h => h) fun _ v _ h => fin v h
  unfold sweep
  have h1 := Swept.log v0 .alloc a
  refine safe_quiet trivial h1 (fun e b => ⟨h1.trans (Swept.log _ _ _), h1.trans (Swept.log _ _ _)⟩) fun b => ?_
  have h2 := h1.trans (Swept.log (v0.log .alloc a) .lockInit b)
  refine ⟨h2, fun c v' hs => ?_⟩
  rcases hs.readdir with ⟨e, rfl, _, rfl⟩ | ⟨rfl, rfl⟩
  · exact ⟨h2.trans (Swept.log _ _ _), h2.trans (Swept.log _ _ _)⟩
  · exact sweepLoop_safe (fun v h => h) (h2.trans (Swept.log _ _ _))

/-- What `bf_ctx_setup` did, seen with the counters. -/
abbrev Setup (w w' : K) : Prop := Swept w.erase w'.erase

theorem Setup.of {p' : P (Res Unit)} (h : Run w ctxSetup w' p') : Setup w w' := ((ctxSetup_safe w.erase).sound h).inv

theorem Setup.good (h : Setup w w') {d : String} (hd : staging d = false) {c : Chain} {x : Handle} (hg : Good T w d c x) : Good T w' d c x :=
  Good.erase.mp ((Good.erase.mpr hg).keep (fun i o ho => by rw [h.objs]; exact ho) fun n => h.pins d hd n)

theorem Setup.pinned (h : Setup w w') {d : String} (hd : staging d = false) (n : String) : w'.pinned d n = w.pinned d n := h.pins d hd n

theorem Setup.absent (h : Setup w w') {d : String} (ha : Absent w d) : Absent w' d := by
  have := h.gone d "bf_ctx"
  simp only [K.erase_pinned] at this
  unfold Absent at ha ⊢
  rcases this with e | e
  · rw [e]; exact ha
  · exact e

theorem Setup.chains (h : Setup w w') {L : List (Chain × Handle)} (hL : Chains T w L) : Chains T w' L := by
  refine ⟨fun x hx => h.good (hL.plain x hx) (hL.good x hx), fun d m e => ?_, hL.plain⟩
  have := h.gone d "bf_ctx"
  simp only [K.erase_pinned] at this
  rcases this with e' | e'
  · exact hL.only d m (by rw [← e']; exact e)
  · rw [e'] at e; cases e

theorem Setup.hist (h : Setup w w') : ∃ g, w'.hist = g ++ w.hist := by
  obtain ⟨_, _, _, _, _, _, h⟩ := h
  exact h

theorem Run.sane {α : Type} {q q' : P α} (h : Run w q w' q') (hw : w.Sane) : w'.Sane := by
  have := (Safe.step (J := K.Sane) (p := q) (fun v c a v' hs ha => ha.sane hs) hw.erase).sound h |>.inv
  exact ⟨h.wf hw.wf, this.tree, this.nodup⟩

end Bf.Pin
