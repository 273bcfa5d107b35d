import Verif.Cgen.Crash3
import Verif.Chain.Wf
/-!
# A directory without a description
-/
namespace Bf.Pin

variable {I : K → Prop} {v v0 : K} {dir : String} {T : Target} {chain : Chain}

/-- Nothing is described in `dir`, and something is pinned there. -/
structure Stuck (v : K) (dir : String) : Prop where
  noCtx : v.pinned dir "bf_ctx" = none
  pin : ∃ n o, v.pinned dir n = some o
  dir : dir ∈ v.dirs

/-- From `v0` to `v` nothing changed but descriptors. -/
structure Idle (v0 v : K) : Prop where
  objs : v.objs = v0.objs
  pins : v.pins = v0.pins
  dirs : v.dirs = v0.dirs

theorem Idle.refl (v : K) : Idle v v := ⟨rfl, rfl, rfl⟩
theorem Idle.log {v0 v : K} (h : Idle v0 v) (c : Call) (a : Ans) : Idle v0 (v.log c a) := ⟨h.objs, h.pins, h.dirs⟩
theorem Idle.stuck {v0 v : K} (h : Idle v0 v) (hs : Stuck v0 dir) : Stuck v dir := by
  have e : ∀ n, v.pinned dir n = v0.pinned dir n := fun n => by unfold K.pinned; rw [h.pins]
  obtain ⟨n, o, hn⟩ := hs.pin
  exact ⟨by rw [e]; exact hs.noCtx, ⟨n, o, by rw [e]; exact hn⟩, by rw [h.dirs]; exact hs.dir⟩

theorem Idle.release {v0 v v' : K} {b : Bool} {a : Ans} (h : Idle v0 v) (hs : Stuck v0 dir) (h' : AStep v (.release dir b) a v') : Idle v0 v' := by
  obtain ⟨n, o, hn⟩ := (h.stuck hs).pin
  rw [h'.release_some hn]
  exact h.log _ _

theorem withChain_stuck {α : Type} {write : Bool} {f : Cgen → P (Cgen × Res α)} (hs : Stuck v dir) :
    Safe (Idle v) (fun r v' => (∀ x, r ≠ .ok x) ∧ Idle v v') (withChain dir write (withCgen dir f)) v := by
  unfold withChain
  have i0 := Idle.refl v
  refine safe_quiet trivial i0 (fun e a => ⟨i0.log _ _, by simp, i0.log _ _⟩) fun a => ?_
  have i1 := i0.log .lockInit a
  refine safe_quiet trivial i1 (fun e b => ⟨i1.log _ _, by simp, i1.log _ _⟩) fun b => ?_
  have i2 := i1.log (.acquire dir) b
  generalize (v.log .lockInit a).log (.acquire dir) b = v2 at *
  refine Safe.bind ?_
  unfold withCgen
  refine Safe.bind (newFromDir_none (i2.stuck hs).noCtx i2 fun e c => ⟨i2.log _ _, ?_⟩)
  have i3 := i2.log (.get dir "bf_ctx") c
  refine ⟨i3, safe_void i3 fun a' v4 hs4 => ?_⟩
  have i4 := i3.release hs hs4
  exact ⟨i4, by simp, i4⟩

theorem create_stuck {α : Type} {f : Res Unit → P α} {Q : α → K → Prop} (hs : Stuck v0 dir) (hi : Idle v0 v)
    (hQ : ∀ e v', Idle v0 v' → Safe (Idle v0) Q (f (.err e)) v') : Safe (Idle v0) Q (try_ (.create dir) >>= f) v := by
  refine safe_try hi (fun e v2 hs2 => ?_) fun a v2 hs2 hne => ?_
  · rcases hs2.create with ⟨e', _, rfl⟩ | ⟨he, _⟩
    · exact hQ e _ (hi.log _ _)
    · cases he
  · rcases hs2.create with ⟨e', he, _⟩ | ⟨rfl, hd, rfl⟩
    · exact absurd he (hne _)
    · exact absurd (hi.stuck hs).dir hd

theorem checkRules_name {c c' : Chain} {rs : List Rule} (h : checkRules c rs = .ok c') : c'.name = c.name := by
  induction rs generalizing c with
  | nil => cases h; rfl
  | cons r rs ih =>
    obtain ⟨⟨c1, r1⟩, h1, h2⟩ := Res.bind_eq_ok h
    obtain ⟨d, e, _⟩ := checkRule_ok h1
    rw [ih h2]
    show c1.name = c.name
    rw [e]

theorem chainCopy_name {c c' : Chain} (h : chainCopy c = .ok c') : c'.name = c.name := by
  unfold chainCopy chainNew at h
  split at h
  · cases h
  · have e := checkRules_name h
    exact e

theorem chainLoad_stuck (hs : Stuck v chain.name) : Safe (Idle v) (fun r v' => r ≠ .ok () ∧ Idle v v') (chainLoad T chain) v := by
  unfold chainLoad
  have i0 := Idle.refl v
  refine safe_quiet trivial i0 (fun e a => ⟨i0.log _ _, by simp, i0.log _ _⟩) fun a => ?_
  exact create_stuck hs (i0.log .lockInit a) fun e v' hi => ⟨hi, by simp, hi⟩

theorem chainSet_stuck {o : Option HookOpts} (hs : Stuck v chain.name) : Safe (Idle v) (fun r v' => r ≠ .ok () ∧ Idle v v') (chainSet T chain o) v := by
  unfold chainSet
  have i0 := Idle.refl v
  refine safe_quiet trivial i0 (fun e a => ⟨i0.log _ _, by simp, i0.log _ _⟩) fun a => ?_
  have i1 := i0.log .lockInit a
  generalize v.log .lockInit a = v1 at *
  refine Safe.bind ?_
  have drop : Safe (Idle v) (fun _ v' => Idle v v') (dropOld chain.name) v1 := by
    unfold dropOld
    refine safe_quiet trivial i1 (fun e b => ?_) fun b => ?_
    · have : ∀ r : Res Unit, Safe (Idle v) (fun _ v' => Idle v v') (pure r) (v1.log (.acquire chain.name) b) := fun r => ⟨i1.log _ _, i1.log _ _⟩
      cases e <;> exact this _
    · have i2 := i1.log (.acquire chain.name) b
      generalize v1.log (.acquire chain.name) b = v2 at *
      refine Safe.bind (newFromDir_none (i2.stuck hs).noCtx i2 fun e c => ⟨i2.log _ _, ?_⟩)
      have i3 := i2.log (.get chain.name "bf_ctx") c
      have fin : ∀ r : Res Unit, Safe (Idle v) (fun _ v' => Idle v v') (do void (.release chain.name true); pure r) (v2.log (.get chain.name "bf_ctx") c) := fun r =>
        safe_void i3 fun a' v4 hs4 => ⟨i3.release hs hs4, i3.release hs hs4⟩
      cases e <;> exact fin _
  refine drop.mono (fun _ h => h) fun r v2 _ i2 => ?_
  cases r with
  | err e => exact ⟨i2, by simp, i2⟩
  | ub => exact ⟨i2, by simp, i2⟩
  | ok u =>
    unfold putNew copyChain
    refine Safe.bind (safe_quiet trivial i2 (fun e a => ?_) fun a => ?_)
    · exact ⟨i2.log _ _, i2.log _ _, by simp, i2.log _ _⟩
    have i3 := i2.log .alloc a
    generalize v2.log .alloc a = v3 at *
    refine ⟨i3, ?_⟩
    cases hc : chainCopy chain with
    | err e => exact ⟨i3, by simp, i3⟩
    | ub => exact ⟨i3, by simp, i3⟩
    | ok c' =>
      have hs' : Stuck v c'.name := by rw [chainCopy_name hc]; exact hs
      refine Safe.bind ?_
      have opts : Safe (Idle v) (fun r v' => Idle v v') (copyOpts o) v3 := by
        cases o with
        | none => exact ⟨i3, i3⟩
        | some x =>
          refine ⟨i3, fun a v' hs => ?_⟩
          rw [hs.quiet trivial]
          have : ∀ r : Res Unit, Safe (Idle v) (fun r v' => Idle v v') (.ret r) (v3.log .alloc a) := fun r => ⟨i3.log _ _, i3.log _ _⟩
          exact this _
      refine opts.mono (fun _ h => h) fun r v4 _ i4 => ?_
      cases r with
      | err e => exact ⟨i4, by simp, i4⟩
      | ub => exact ⟨i4, by simp, i4⟩
      | ok u =>
        unfold cgenNew
        refine Safe.bind (safe_quiet trivial i4 (fun e a => ?_) fun a => ?_)
        · exact ⟨i4.log _ _, i4.log _ _, by simp, i4.log _ _⟩
        refine ⟨i4.log _ _, ?_⟩
        exact create_stuck hs' (i4.log _ _) fun e v' hi => ⟨hi, by simp, hi⟩

end Bf.Pin
