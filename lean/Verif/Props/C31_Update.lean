import Verif.Props.CgenSample
/-!
# C31: updating a chain

`Run w p w' p'` is an execution in which calls may fail, and packets may be processed, at any time; `w'.die` is `w'` if the
process dies there.  `w.runs pt q`: packets at point `pt` go through program `q`.
-/
namespace Bf.Pin

variable {T : Target} {ncpu : Nat} {w w' : K} {dir : String} {p : Nat} {h : Handle}

/-- What holds at every instant of an update, started in `w`, of the chain of handle `h`, whose program is `p`, by `new`. -/
structure DuringUpdate (T : Target) (new : Chain) (dir : String) (h : Handle) (p : Nat) (w w' : K) : Prop where
  /-- nothing runs but what ran, and, where the chain is attached, the complete program of the new chain -/
  only : ∀ pt q, w'.runs pt q → w.runs pt q ∨ (pt ∈ h.points ∧ IsNew T new w w' q)
  /-- wherever the chain is attached, the old program runs, or the complete program of the new one; unless, once the pins of the
  old program were removed, a call failed -/
  covered : (∀ pt ∈ h.points, ∃ q, w'.runs pt q ∧ (q = p ∨ IsNew T new w w' q)) ∨ FailedAfter dir h.progName w w'
  /-- as long as no pin was removed, if the process dies, the old program runs on, and its objects are pinned -/
  crash : ((∀ pt ∈ h.points, w'.die.runs pt p) ∧ ∀ d n, w'.die.pinned d n = w.pinned d n) ∨ ∃ n a, Since w w' (.unlink dir n, a)

/-- What holds when an update has ended, with result `r`. -/
structure AfterUpdate (T : Target) (new : Chain) (dir : String) (h : Handle) (r : Res Unit) (w w' : K) : Prop where
  /-- after a success, the complete program of the new chain runs, and runs on without the process -/
  ok : r = .ok () → ∃ q n, IsNew T new w w' q ∧ w'.die.pinned dir n = some q ∧ ∀ pt ∈ h.points, w'.die.runs pt q
  /-- after a failure, everything is as before; unless, once the pins of the old program were removed, a call failed -/
  err : r ≠ .ok () → ((∀ d n, w'.pinned d n = w.pinned d n) ∧ ∀ pt q, w'.runs pt q ↔ w.runs pt q) ∨ FailedAfter dir h.progName w w'

theorem DuringUpdate.of {new : Chain} (hs : ∀ l, h.link = some l → Attached w l p ∧ ∀ o ∈ l.fds, ∃ n, w.pinned dir n = some o)
    (hu : Upd T new dir h.progName h.points p w.erase w'.erase) : DuringUpdate T new dir h p w w' := by
  refine ⟨fun pt q hr => ?_, ?_, ?_⟩
  · exact (hu.only pt q (K.erase_runs.mpr hr)).imp K.erase_runs.mp fun ⟨a, b⟩ => ⟨a, IsNew.erase.mp b⟩
  · refine hu.cov.imp (fun hc pt hp => ?_) id
    obtain ⟨q, h1, h2⟩ := hc pt hp
    exact ⟨q, K.erase_runs.mp h1, h2.imp id IsNew.erase.mp⟩
  · rcases hu.early with ⟨e1, g, e2⟩ | e
    · refine .inl ⟨fun pt hpt => ?_, fun d n => by show w'.pinned d n = _; unfold K.pinned; rw [show w'.pins = w.pins from e1]⟩
      unfold Handle.points at hpt
      cases hl : h.link with
      | none => rw [hl] at hpt; cases hpt
      | some l =>
        rw [hl] at hpt
        obtain ⟨ha, hpin⟩ := hs l hl
        have ha' : Attached w'.die l p := by
          have : Attached w'.erase l p := by
            have := Attached.erase.mpr ha
            exact ⟨this.1, fun x hx => by
              have h1 := this.2 x hx
              rw [e2, List.getElem?_append_left (List.getElem?_eq_some_iff.mp h1).1]
              exact h1⟩
          exact Attached.erase.mp this
        refine ha'.runs (fun o ho => .inr ?_) hpt
        obtain ⟨n, hn⟩ := hpin o ho
        exact ⟨dir, n, by
          show w'.pinned dir n = _
          unfold K.pinned at hn ⊢
          rw [show w'.pins = w.pins from e1]; exact hn⟩
    · exact .inr e

theorem AfterUpdate.of {new : Chain} {r : Res Unit} (he : Ended T new dir h h.points w.erase r w'.erase) : AfterUpdate T new dir h r w w' := by
  refine ⟨?_, ?_⟩
  · rintro rfl
    cases he with
    | done hP hX hM hpn hN hT hpts =>
      rename_i h' pn
      refine ⟨pn, h'.progName, IsNew.erase.mp hN, ?_, fun pt hpt => ?_⟩
      · show w'.pinned dir h'.progName = some pn
        exact hP.pins (h'.progName, pn) (by simp [Handle.pinList, hpn])
      · unfold Handle.points at hpt hpts
        cases hl' : h'.link with
        | none =>
          rw [hM.none hl'] at hpt
          cases hpt
        | some l' =>
          obtain ⟨l, hl, _⟩ := hM.link l' hl'
          rw [hl] at hpt hpts
          have ha : Attached w'.die l' pn := Attached.erase.mp (hP.link l' pn hl' hpn)
          refine ha.runs (fun o ho => .inr ⟨dir, ?_⟩) (by rw [hpts l' hl']; exact hpt)
          exact hP.linkPinned hl' ho
    | same hr => exact absurd rfl hr
    | failed hr => exact absurd rfl hr
  · intro hr
    cases he with
    | done => exact absurd rfl hr
    | same _ hs => exact .inl ⟨hs.pinned, fun pt q => K.erase_runs.symm.trans ((hs.runs pt q).trans K.erase_runs)⟩
    | failed _ hf => exact .inr hf

theorem C31_lift {new c : Chain} {prog p' : P (Res Unit)} (hs : Stored w dir c h) (hp : h.prog = some p)
    (hsafe : Safe (Upd T new dir h.progName h.points p w.erase) (Ended T new dir h h.points w.erase) prog w.erase) (hr : Run w prog w' p') :
    DuringUpdate T new dir h p w w' ∧ ∀ r, p' = .ret r → AfterUpdate T new dir h r w w' := by
  refine ⟨DuringUpdate.of (fun l hl => ⟨hs.link l p hl hp, fun o ho => hs.toPlaced.linkPinned hl ho⟩) (hsafe.sound hr).inv, ?_⟩
  rintro r rfl
  exact .of (hsafe.end hr)

theorem chainUpdate_safe {chain new c : Chain} (hw : w.Wf) (hs : Stored w chain.name c h) (hp : h.prog = some p) (hc : chainCopy chain = .ok new) :
    Safe (Upd T new chain.name h.progName h.points p w.erase) (Ended T new chain.name h h.points w.erase) (chainUpdate T ncpu chain) w.erase := by
  refine update_safe (ncpu := ncpu) (keep := false) hw.erase (Stored.erase.mpr hs) hp fun Q v1 hw1 h1 h2 h3 => ?_
  unfold copyChain
  refine Safe.bind (Safe.bindWf hw1 (safe_try' h3 (fun e v' hv => ?_) fun a v' hv _ => ?_))
  · rw [hv.quiet trivial]
    have k := (Keep.refl v1).log .alloc (.fail e)
    exact ⟨(h1 (.err e) _ (by simp) k).1, fun _ => ⟨(h1 (.err e) _ (by simp) k).1, h1 (.err e) _ (by simp) k⟩⟩
  · rw [hv.quiet trivial]
    have k := (Keep.refl v1).log .alloc a
    refine ⟨(h1 (.err .EINVAL) _ (by simp) k).1, fun hw2 => ?_⟩
    dsimp only
    rw [hc]
    exact ⟨(h1 (.err .EINVAL) _ (by simp) k).1, h2 _ k hw2⟩

/-- C31 for `bf_chain_update`: from a state where the chain is stored, in every execution, at every instant. -/
theorem C31_update_partial {chain new c : Chain} {p' : P (Res Unit)} (hw : w.Wf) (hs : Stored w chain.name c h) (hp : h.prog = some p)
    (hc : chainCopy chain = .ok new) (hr : Run w (chainUpdate T ncpu chain) w' p') :
    DuringUpdate T new chain.name h p w w' ∧ ∀ r, p' = .ret r → AfterUpdate T new chain.name h r w w' :=
  C31_lift hs hp (chainUpdate_safe hw hs hp hc) hr

theorem chainUpdateSet_safe {new c : Chain} {toAdd toRemove : BSet} (hw : w.Wf) (hs : Stored w dir c h) (hp : h.prog = some p)
    (hc : updateSet c toAdd toRemove = .ok new) :
    Safe (Upd T new dir h.progName h.points p w.erase) (Ended T new dir h h.points w.erase) (chainUpdateSet T ncpu dir toAdd toRemove) w.erase := by
  refine update_safe (ncpu := ncpu) (keep := true) hw.erase (Stored.erase.mpr hs) hp fun Q v1 hw1 h1 h2 h3 => ?_
  refine Safe.bindWf hw1 (safe_try' h3 (fun e v' hv => ?_) fun a v' hv _ => ?_)
  · rw [hv.quiet trivial]
    have k := (Keep.refl v1).log .alloc (.fail e)
    exact ⟨(h1 (.err e) _ (by simp) k).1, fun _ => h1 (.err e) _ (by simp) k⟩
  · rw [hv.quiet trivial]
    have k := (Keep.refl v1).log .alloc a
    refine ⟨(h1 (.err .EINVAL) _ (by simp) k).1, fun hw2 => ?_⟩
    dsimp only
    rw [hc]
    exact h2 _ k hw2

/-- C31 for `bf_chain_update_set`. -/
theorem C31_update_set_partial {new c : Chain} {toAdd toRemove : BSet} {p' : P (Res Unit)} (hw : w.Wf) (hs : Stored w dir c h) (hp : h.prog = some p)
    (hc : updateSet c toAdd toRemove = .ok new) (hr : Run w (chainUpdateSet T ncpu dir toAdd toRemove) w' p') :
    DuringUpdate T new dir h p w w' ∧ ∀ r, p' = .ret r → AfterUpdate T new dir h r w w' :=
  C31_lift hs hp (chainUpdateSet_safe hw hs hp hc) hr

/-- Neither operation writes to counters that existed before: a call changes none of them. -/
theorem C31_counters {chain : Chain} {w1 w2 : K} {call : Call} {k : Ans → P (Res Unit)} {a : Ans}
    (hr : Run w (chainUpdate T ncpu chain) w1 (.call call k) ∨ ∃ x y, Run w (chainUpdateSet T ncpu dir x y) w1 (.call call k))
    (hs : Step w1 call a w2) {i : Nat} (hi : i < w.objs.length) {f : Nat → List Ctr} (ho : w1.objs[i]? = some (.map (.counters f))) :
    w2.objs[i]? = some (.map (.counters f)) := by
  rcases hr with hr | ⟨x, y, hr⟩
  · exact (wr_chainUpdate (C := (w.objs.length ≤ ·)) (fun _ h => h)).step (fun _ h => h) hr hs (by omega) ho
  · exact (wr_chainUpdateSet (C := (w.objs.length ≤ ·)) (fun _ h => h)).step (fun _ h => h) hr hs (by omega) ho

namespace Sample

open Bf.Sample (chain)

theorem runs1 : w1.runs pt 5 :=
  ⟨6, linkAt_of (x := (pt, 5, false)) (by decide +kernel), .inr ⟨"sample", "bf_link", by decide +kernel⟩⟩

/-- The hypotheses of `C31_update_partial` are met: an update of the sample chain, which succeeds. -/
theorem update_ok : ∃ w', Run w1 (chainUpdate tgt 2 chain) w' (.ret (.ok ())) ∧ AfterUpdate tgt chain "sample" h1 (.ok ()) w1 w' := by
  obtain ⟨p', h, e⟩ := P.exec_run (p := chainUpdate tgt 2 chain) (fails := fun _ => false) (n := 1000) (i := 0) (w := w1)
  have := e _ (show _ = some (.ok ()) by decide +kernel)
  subst this
  exact ⟨_, h, (C31_update_partial wf1 (chain := chain) stored1 rfl (by decide +kernel) h).2 _ rfl⟩

/-- What is missing in C31.  If a pin fails once the link attaches the new program, the update fails and nothing filters. -/
theorem C31_not_after_failure : w1.runs pt 5 ∧ ∃ w', Run w1 (chainUpdate tgt 2 chain) w' (.ret (.err .EPERM)) ∧ ∀ q, ¬ w'.runs pt q := by
  obtain ⟨p', h, e⟩ := P.exec_run (p := chainUpdate tgt 2 chain) (fails := fun i => i == 40) (n := 1000) (i := 0) (w := w1)
  have := e _ (show _ = some (.err .EPERM) by decide +kernel)
  subst this
  exact ⟨runs1, _, h, idle_of (by decide +kernel)⟩

/-- If the process dies after the pin of the link was removed, though no call failed, nothing filters. -/
theorem C31_not_after_crash : w1.runs pt 5 ∧ ∃ w' p', Run w1 (chainUpdate tgt 2 chain) w' p' ∧ ∀ q, ¬ w'.die.runs pt q := by
  obtain ⟨p', h, _⟩ := P.exec_run (p := chainUpdate tgt 2 chain) (fails := fun _ => false) (n := 37) (i := 0) (w := w1)
  exact ⟨runs1, _, p', h, idle_of (by decide +kernel)⟩

end Sample

end Bf.Pin
