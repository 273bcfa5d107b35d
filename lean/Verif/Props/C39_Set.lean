import Verif.Props.C32_Sample
/-!
# C39: when setting a chain fails; C42: flushing a chain

`Good T w dir c h`: directory `dir` of `w` holds chain `c`, `h` being its program, maps and link, all pinned (Cgen/Set.lean);
`Good.holds` says what a reader gets.
-/
namespace Bf.Pin

variable {T : Target} {ncpu : Nat} {w w' : K} {dir : String} {chain : Chain} {p' : P (Res Unit)}

/-- C39 for `bf_chain_set` over chain `c`.  On success the new chain is held, attached with the requested options if any were given.
On failure the old chain is held, as it was, unless its removal had begun.
Missing, and false of the code (`C39_fails`): that the old chain is there after a failure once its removal began. -/
theorem C39_set_partial {o : Option HookOpts} {c : Chain} {h : Handle} (hw : w.Wf) (ht : w.Tree) (hg : Good T w chain.name c h) (hc : Packable chain)
    (hf : Fits T chain) (hcp : chainCopy chain = .ok chain) (ho : ∀ x, o = some x → OptsOk x) {r : Res Unit} (hr : Run w (chainSet T chain o) w' (.ret r)) :
    (r = .ok () → ∃ h', Good T w' chain.name chain h' ∧ (h'.link.map fun l => (l.d.hook, l.d.opts)) = o.map fun x => (chain.hook, x)) ∧
    (r ≠ .ok () → (Good T w' chain.name c h ∧ Holds T w' chain.name c) ∨ ∃ a, Since w w' (.unlink chain.name "bf_ctx", a)) := by
  have hs : Safe (fun _ => True) (fun r v =>
      (r = .ok () → ∃ h', Good T v chain.name chain h' ∧ (h'.link.map fun l => (l.d.hook, l.d.opts)) = o.map fun x => (chain.hook, x)) ∧
      (r ≠ .ok () → Good T v chain.name c h ∨ ∃ a, Since w v (.unlink chain.name "bf_ctx", a))) (chainSet T chain o) w.erase := by
    refine chainSet_safe (v := w.erase) hw.erase ht (Good.erase.mpr hg) hc hf hcp ho (fun _ _ => trivial) (fun r v hr h => ?_) fun h v hg hl1 hl2 => ?_
    · exact ⟨fun e => absurd e hr, fun _ => h.imp id fun h => h.1⟩
    · refine ⟨fun _ => ⟨h, hg, ?_⟩, fun e => absurd rfl e⟩
      cases e1 : h.link with
      | none =>
        rw [e1] at hl1
        cases o with
        | none => rfl
        | some x => cases hl1
      | some l =>
        rw [e1] at hl1
        cases o with
        | none => cases hl1
        | some x =>
          obtain ⟨a, b⟩ := hl2 l x e1 rfl
          simp [a, b]
  have := hs.end hr
  refine ⟨fun e => ?_, fun e => ?_⟩
  · obtain ⟨h', h1, h2⟩ := this.1 e
    exact ⟨h', Good.erase.mp h1, h2⟩
  · exact (this.2 e).imp (fun g => ⟨Good.erase.mp g, (Good.erase.mp g).holds⟩) id

theorem chainLoad_exists {v : K} (hd : chain.name ∈ v.dirs) : Safe (Idle v) (fun r v' => r ≠ .ok () ∧ Idle v v') (chainLoad T chain) v := by
  unfold chainLoad
  have i0 := Idle.refl v
  refine safe_quiet trivial i0 (fun e a => ⟨i0.log _ _, by simp, i0.log _ _⟩) fun a => ?_
  have i1 := i0.log .lockInit a
  generalize v.log .lockInit a = v1 at *
  refine safe_try i1 (fun e v2 hs2 => ?_) fun a v2 hs2 hne => ?_
  · rcases hs2.create with ⟨e', _, rfl⟩ | ⟨he, _⟩
    · exact ⟨i1.log _ _, by simp, i1.log _ _⟩
    · cases he
  · rcases hs2.create with ⟨e', he, _⟩ | ⟨rfl, hd', rfl⟩
    · exact absurd he (hne _)
    · rw [i1.dirs] at hd'
      exact absurd hd hd'

theorem Idle.good {v v' : K} {c : Chain} {h : Handle} (hi : Idle v v') (hg : Good T v dir c h) : Good T v' dir c h :=
  hg.keep (fun i o ho => by rw [hi.objs]; exact ho) fun n => by unfold K.pinned; rw [hi.pins]

/-- C39 for `bf_chain_load`: it does not load a chain over another. -/
theorem C39_load {c : Chain} {h : Handle} (ht : w.Tree) (hg : Good T w chain.name c h) {T' : Target} (hr : Run w (chainLoad T' chain) w' p') :
    Good T w' chain.name c h ∧ w'.pins = w.pins ∧ w'.dirs = w.dirs ∧ p' ≠ .ret (.ok ()) := by
  obtain ⟨m, b, hm, _⟩ := hg.ctx
  have hd : chain.name ∈ w.erase.dirs := K.Tree.mem ht hm
  have hs := chainLoad_exists (T := T') hd
  have hi := (hs.sound hr).inv
  refine ⟨Good.erase.mp (hi.good (Good.erase.mpr hg)), hi.pins, hi.dirs, ?_⟩
  rintro rfl
  exact (hs.end hr).1 rfl

/-- Who has a pin of the chain that `h` describes. -/
def Handle.owns (h : Handle) (n : String) : Prop := n = "bf_ctx" ∨ h.names n

/-- C42: `bf_chain_flush`.  If it fails, nothing changed.  If it succeeds, and none of the calls that remove a pin of the chain or
detach a link of it failed, then nothing of the chain is pinned, and what runs when the process is gone is what ran by a link that is
not the chain's.  Whatever fails, what is pinned in other directories, or under other names, is untouched, and the other directories
are still there. -/
theorem C42_flush {c : Chain} {h : Handle} (hw : w.Wf) (hg : Good T w dir c h) {r : Res Unit} (hr : Run w (chainFlush dir) w' (.ret r)) :
    (r ≠ .ok () → Good T w' dir c h ∧ w'.pins = w.pins ∧ w'.dirs = w.dirs) ∧
    (r = .ok () →
      (∀ n, h.owns n → w'.pinned dir n = none ∨ (w'.pinned dir n = w.pinned dir n ∧ ∃ e, e ≠ .ENOENT ∧ Since w w' (.unlink dir n, .fail e))) ∧
      (∀ l ∈ h.linkFds, (∀ pt q, w'.objs[l]? ≠ some (.link pt q false)) ∨ ∃ e, e ≠ .ENOENT ∧ Since w w' (.linkDetach l, .fail e)) ∧
      (∀ l pt q, l ∉ h.linkFds → (w'.objs[l]? = some (.link pt q false) ↔ w.objs[l]? = some (.link pt q false))) ∧
      (∀ d n, ¬ (d = dir ∧ h.owns n) → w'.pinned d n = w.pinned d n) ∧
      (∀ d, d ≠ dir → (d ∈ w'.dirs ↔ d ∈ w.dirs)) ∧
      ((∀ n o e, w.pinned dir n = some o → e ≠ .ENOENT → ¬ Since w w' (.unlink dir n, .fail e)) → (∀ l ∈ h.linkFds, ∀ e, e ≠ .ENOENT → ¬ Since w w' (.linkDetach l, .fail e)) →
        ∀ pt q, w'.die.runs pt q ↔ ∃ l d n, l ∉ h.linkFds ∧ w.objs[l]? = some (.link pt q false) ∧ w.pinned d n = some l ∧ ¬ (d = dir ∧ h.owns n))) := by
  have hs : Safe (fun _ => True) (fun r v => (r ≠ .ok () → Open dir [] w.erase v) ∧ (r = .ok () → Flushed h dir w.erase v)) (chainFlush dir) w.erase :=
    chainFlush_safe (v := w.erase) hw.erase (Good.erase.mpr hg) (fun _ _ => trivial) (fun r v hr ho => ⟨fun _ => ho, fun e => absurd e hr⟩)
      fun v hf => ⟨fun e => absurd rfl e, fun _ => hf⟩
  have hend := hs.end hr
  refine ⟨fun e => ?_, fun e => ?_⟩
  · have ho := hend.1 e
    exact ⟨Good.erase.mp (ho.good (Good.erase.mpr hg)), ho.pins, ho.dirs⟩
  have hf := hend.2 e
  have own : ∀ n, h.owns n → w'.pinned dir n = none ∨ (w'.pinned dir n = w.pinned dir n ∧ ∃ e, e ≠ .ENOENT ∧ Since w w' (.unlink dir n, .fail e)) := by
    intro n hn
    have hc : (Call.unlink dir n) ∈ unloadCalls h dir := by
      rcases hn with rfl | rfl | ⟨m, hm, rfl⟩ | ⟨hl, rfl | rfl⟩
      · simp [unloadCalls]
      · simp [unloadCalls]
      · simp only [unloadCalls, List.mem_append, List.mem_map]
        exact .inl (.inl (.inl (.inl (.inl (.inl (.inr ⟨m, hm, rfl⟩))))))
      · simp [unloadCalls, hl]
      · simp [unloadCalls, hl]
    rcases hf.undone _ hc with h0 | h0
    · exact .inl h0
    · rcases hf.pins dir n with h1 | ⟨_, _, h1⟩
      · exact .inr ⟨h1, h0⟩
      · exact .inl h1
  have lks : ∀ l ∈ h.linkFds, (∀ pt q, w'.objs[l]? ≠ some (.link pt q false)) ∨ ∃ e, e ≠ .ENOENT ∧ Since w w' (.linkDetach l, .fail e) := by
    intro l hl
    have := hf.undone (.linkDetach l) (by simp [unloadCalls, hl])
    exact this.imp (fun h pt q e => h pt q (K.erase_link.mpr e)) id
  have oth : ∀ l pt q, l ∉ h.linkFds → (w'.objs[l]? = some (.link pt q false) ↔ w.objs[l]? = some (.link pt q false)) := by
    intro l pt q hl
    rw [← K.erase_link (w := w'), ← K.erase_link (w := w), hf.objs l hl]
  have pin : ∀ d n, ¬ (d = dir ∧ h.owns n) → w'.pinned d n = w.pinned d n := by
    intro d n hn
    rcases hf.pins d n with e | ⟨e1, e2, _⟩
    · exact e
    · exact absurd ⟨e1, e2⟩ hn
  refine ⟨own, lks, oth, pin, hf.dirs, fun hno hno' pt q => ⟨?_, ?_⟩⟩
  · rintro ⟨l, h1, h2⟩
    have h1 : w'.objs[l]? = some (.link pt q false) := h1
    rcases h2 with h2 | ⟨d, n, h2⟩
    · cases h2
    have h2 : w'.pinned d n = some l := h2
    have hl : l ∉ h.linkFds := by
      intro hl
      rcases lks l hl with h | ⟨e, he, h⟩
      · exact h pt q h1
      · exact hno' _ hl e he h
    have hn : ¬ (d = dir ∧ h.owns n) := by
      rintro ⟨rfl, hn⟩
      rcases own n hn with h | ⟨e1, e, he, h⟩
      · rw [h] at h2; cases h2
      · rw [e1] at h2
        exact hno n l e h2 he h
    exact ⟨l, d, n, hl, (oth l pt q hl).mp h1, by rw [← pin d n hn]; exact h2, hn⟩
  · rintro ⟨l, d, n, hl, h1, h2, hn⟩
    exact ⟨l, (oth l pt q hl).mpr h1, .inr ⟨d, n, by rw [← pin d n hn] at h2; exact h2⟩⟩

end Bf.Pin

namespace Bf.Pin.Sample

open Bf.Sample (chain)

/-- If the program of the new chain is refused by the kernel, the old chain is gone: nothing filters, and nothing can be restored. -/
theorem C39_fails : w1.runs pt 5 ∧ ∃ w', Run w1 (chainSet tgt chain2 (some opts)) w' (.ret (.err .EPERM)) ∧ (∀ q, ¬ w'.runs pt q) ∧ Absent w' chain.name := by
  obtain ⟨p', h, e⟩ := P.exec_run (p := chainSet tgt chain2 (some opts)) (fails := fun i => i == 45) (n := 1000) (i := 0) (w := w1)
  have := e _ (show _ = some (.err .EPERM) by decide +kernel)
  subst this
  exact ⟨runs1, _, h, idle_of (by decide +kernel), by unfold Absent; decide +kernel⟩

theorem fits2 : Fits tgt chain2 := ⟨fits.printed, fits.groups, fits.elems⟩
theorem copy2 : chainCopy chain2 = .ok chain2 := by decide +kernel
theorem packable2 : Packable chain2 := { Bf.Sample.packable with }

/-- The hypotheses of `C39_set_partial` are met when the sample chain is replaced, and it can be. -/
example : ∃ w', Run w1 (chainSet tgt chain2 (some opts)) w' (.ret (.ok ())) ∧
    ∃ h', Good tgt w' chain2.name chain2 h' ∧ (h'.link.map fun l => (l.d.hook, l.d.opts)) = some (.xdp, opts) := by
  obtain ⟨p', h, e⟩ := P.exec_run (p := chainSet tgt chain2 (some opts)) (fails := fun _ => false) (n := 1000) (i := 0) (w := w1)
  have := e _ (show _ = some (.ok ()) by decide +kernel)
  subst this
  obtain ⟨h0, hg⟩ := good1
  exact ⟨_, h, (C39_set_partial (T := tgt) (chain := chain2) wf1 tree1 hg packable2 fits2 copy2 (fun x hx => by cases hx; exact opts_ok) h).1 rfl⟩

example {w' : K} {p' : P (Res Unit)} (hr : Run w1 (chainLoad tgt chain2) w' p') : Holds tgt w' chain.name chain := by
  obtain ⟨h0, hg⟩ := good1
  exact (C39_load (T := tgt) (chain := chain2) tree1 hg hr).1.holds

/-- The sample chain is flushed; nothing runs any longer. -/
theorem flush_ok : ∃ w', Run w1 (chainFlush chain.name) w' (.ret (.ok ())) ∧ (∀ q, ¬ w'.runs pt q) ∧ w'.pins = [] ∧ w'.dirs = [] := by
  obtain ⟨p', h, e⟩ := P.exec_run (p := chainFlush chain.name) (fails := fun _ => false) (n := 1000) (i := 0) (w := w1)
  have := e _ (show _ = some (.ok ()) by decide +kernel)
  subst this
  exact ⟨_, h, idle_of (by decide +kernel), by decide +kernel, by decide +kernel⟩

example {w' : K} (hr : Run w1 (chainFlush chain.name) w' (.ret (.ok ()))) : w'.pinned chain.name "bf_ctx" = none ∨
    (w'.pinned chain.name "bf_ctx" = w1.pinned chain.name "bf_ctx" ∧ ∃ e, e ≠ .ENOENT ∧ Since w1 w' (.unlink chain.name "bf_ctx", .fail e)) := by
  obtain ⟨h0, hg⟩ := good1
  exact ((C42_flush wf1 hg hr).2 rfl).1 _ (.inl rfl)

end Bf.Pin.Sample
