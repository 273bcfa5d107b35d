import Verif.Cgen.Stuck
import Verif.Props.C31_Update
import Verif.Props.C28_Pack
/-!
# C32: what is left in the directory of a chain when the process dies

`w'.die` is what is left of `w'` if the process dies there: `Run w p w' p'` being an execution that got to `w'`, statements about
all such `w'` are about every crash point.

`Holds T w dir c`: whoever reads directory `dir` (`bf_cgen_new_from_dir_fd`, which every operation on an existing chain begins with)
gets chain `c`, with a program that was generated, completely, from `c`, and that runs where the link says; unless a call fails.
`Absent w dir`: whoever reads `dir` is told there is nothing.
-/
namespace Bf.Pin

variable {T : Target} {ncpu : Nat} {w w' : K} {dir : String} {chain : Chain} {p' : P (Res Unit)}

/-- Directory `dir` holds chain `c`. -/
def Holds (T : Target) (w : K) (dir : String) (c : Chain) : Prop :=
  ∃ h q, h.prog = some q ∧ ProgOf T c w q ∧ (∀ pt ∈ h.points, w.die.runs pt q) ∧
    ∀ w' r, Run w.die (newFromDir dir) w' (.ret r) → r = .ok ⟨c, h⟩ ∨ (∃ c e, e ≠ .ENOENT ∧ Since w.die w' (c, .fail e))

/-- Directory `dir` does not hold any chain. -/
def Absent (w : K) (dir : String) : Prop := w.pinned dir "bf_ctx" = none

/-- Reading a directory which does not hold any chain gives an error and changes nothing. -/
theorem C32_absent {w' : K} {p' : P (Res Cgen)} (ha : Absent w dir) (hr : Run w.die (newFromDir dir) w' p') :
    w'.pins = w.pins ∧ w'.dirs = w.dirs ∧ ∀ c, p' ≠ .ret (.ok c) := by
  have hs : Safe (fun v => v.pins = w.pins ∧ v.dirs = w.dirs) (fun r v => ∀ c, r ≠ .ok c) (newFromDir dir) w.die.erase :=
    newFromDir_none (v := w.die.erase) ha ⟨rfl, rfl⟩ fun e a => ⟨⟨rfl, rfl⟩, by simp⟩
  have h := (hs.sound hr).inv
  refine ⟨h.1, h.2, ?_⟩
  rintro c rfl
  exact hs.end hr c rfl

theorem Good.die {c : Chain} {h : Handle} (hg : Good T w dir c h) : Good T w.die dir c h := hg.keep (fun _ _ h => h) fun _ => rfl

/-- What is stored is held. -/
theorem Good.holds {c : Chain} {h : Handle} (hg : Good T w dir c h) : Holds T w dir c := by
  obtain ⟨q, hq, _⟩ := hg.prog
  refine ⟨h, q, hq, hg.progOf q hq, fun pt hpt => ?_, fun w' r hr => ?_⟩
  · unfold Handle.points at hpt
    cases hl : h.link with
    | none => rw [hl] at hpt; cases hpt
    | some l =>
      rw [hl] at hpt
      refine (hg.die.link l q hl hq).runs (fun o ho => .inr ?_) hpt
      obtain ⟨n, e⟩ := hg.die.toPlaced.linkPinned hl ho
      exact ⟨dir, n, e⟩
  · have hs : Safe (fun _ => True) (fun r v => r = .ok ⟨c, h⟩ ∨ Bad w.die.erase v) (newFromDir dir) w.die.erase :=
      newFromDir_safe (Stored.erase.mpr hg.die.toStored) (fun _ _ _ => trivial) (fun r v _ _ hb _ => .inr hb) fun v _ => .inl rfl
    exact (hs.end hr).imp id fun ⟨c, e, _, h1, h2⟩ => ⟨c, e, h1, h2⟩

theorem Restorable.holds {c : Chain} (h : Restorable T w dir c) : Holds T w dir c := by
  obtain ⟨h, hg⟩ := h
  exact hg.holds

theorem Restorable.erase {c : Chain} : Restorable T w.erase dir c ↔ Restorable T w dir c :=
  ⟨fun ⟨h, g⟩ => ⟨h, Good.erase.mp g⟩, fun ⟨h, g⟩ => ⟨h, Good.erase.mpr g⟩⟩

/-- C32 for `bf_chain_load`.  At every instant the directory is as it was, or holds the chain; after a success it holds the chain,
after a failure it is as it was. -/
theorem C32_load (ht : w.Tree) (hc : Packable chain) (hf : Fits T chain) (hcp : chainCopy chain = .ok chain) (hr : Run w (chainLoad T chain) w' p') :
    (w'.pinned chain.name "bf_ctx" = w.pinned chain.name "bf_ctx" ∨ (Absent w chain.name ∧ Holds T w' chain.name chain)) ∧
    (∀ r, p' = .ret r → (r = .ok () → ∃ h, Good T w' chain.name chain h ∧ h.link = none) ∧ (r ≠ .ok () → w'.pinned chain.name "bf_ctx" = w.pinned chain.name "bf_ctx")) := by
  have hs : Safe (fun v => v.pinned chain.name "bf_ctx" = w.pinned chain.name "bf_ctx" ∨ (Absent w chain.name ∧ Restorable T v chain.name chain))
      (fun r v => (r = .ok () → ∃ h, Good T v chain.name chain h ∧ h.link = none) ∧ (r ≠ .ok () → v.pinned chain.name "bf_ctx" = w.pinned chain.name "bf_ctx"))
      (chainLoad T chain) w.erase :=
    chainLoad_safe (v := w.erase) ht hc hf hcp (fun v _ h => h.imp id fun ⟨h1, h2⟩ => ⟨h1 "bf_ctx", h2⟩)
      (fun r v hr _ h => ⟨fun e => absurd e hr, fun _ => h⟩) fun h v hg hl => ⟨fun _ => ⟨h, hg, hl⟩, fun e => absurd rfl e⟩
  refine ⟨(hs.sound hr).inv.imp id fun ⟨h1, h2⟩ => ⟨h1, (Restorable.erase.mp h2).holds⟩, ?_⟩
  rintro r rfl
  have := hs.end hr
  refine ⟨fun e => ?_, this.2⟩
  obtain ⟨h, h1, h2⟩ := this.1 e
  exact ⟨h, Good.erase.mp h1, h2⟩

/-- C32 for `bf_chain_set` where there is no chain: at every instant there is no chain, or the new one. -/
theorem C32_set_first {o : Option HookOpts} (ht : w.Tree) (ha : Absent w chain.name) (hc : Packable chain) (hf : Fits T chain)
    (hcp : chainCopy chain = .ok chain) (ho : ∀ x, o = some x → OptsOk x) (hr : Run w (chainSet T chain o) w' p') :
    (Absent w' chain.name ∨ Holds T w' chain.name chain) ∧
    (∀ r, p' = .ret r → (r = .ok () → ∃ h, Good T w' chain.name chain h) ∧ (r ≠ .ok () → Absent w' chain.name)) := by
  have hs : Safe (fun v => Absent v chain.name ∨ Restorable T v chain.name chain)
      (fun r v => (r = .ok () → Restorable T v chain.name chain) ∧ (r ≠ .ok () → Absent v chain.name)) (chainSet T chain o) w.erase :=
    chainSet_none (v := w.erase) ht ha hc hf hcp ho (fun v h => h) (fun r v hr h => ⟨fun e => absurd e hr, fun _ => h⟩)
      fun h v hg _ _ => ⟨fun _ => ⟨h, hg⟩, fun e => absurd rfl e⟩
  refine ⟨(hs.sound hr).inv.imp id fun h2 => (Restorable.erase.mp h2).holds, ?_⟩
  rintro r rfl
  have := hs.end hr
  exact ⟨fun e => Restorable.erase.mp (this.1 e), this.2⟩

/-- C32 for `bf_chain_set` over chain `c`: at every instant the directory holds `c`, or holds no chain, or holds the new chain; unless
bf_ctx, the description of `c`, could not be removed. -/
theorem C32_set {o : Option HookOpts} {c : Chain} {h : Handle} (hw : w.Wf) (ht : w.Tree) (hg : Good T w chain.name c h) (hc : Packable chain)
    (hf : Fits T chain) (hcp : chainCopy chain = .ok chain) (ho : ∀ x, o = some x → OptsOk x) (hr : Run w (chainSet T chain o) w' p') :
    (Holds T w' chain.name c ∨ Absent w' chain.name ∨ Holds T w' chain.name chain ∨ ∃ e, e ≠ .ENOENT ∧ Since w w' (.unlink chain.name "bf_ctx", .fail e)) ∧
    (p' = .ret (.ok ()) → ∃ h, Good T w' chain.name chain h) := by
  have hs : Safe (Setting T w.erase c h chain) (fun r v => r = .ok () → Restorable T v chain.name chain) (chainSet T chain o) w.erase :=
    chainSet_safe (v := w.erase) hw.erase ht (Good.erase.mpr hg) hc hf hcp ho (fun v h => h) (fun r v hr _ e => absurd e hr) fun h v hg _ _ _ => ⟨h, hg⟩
  refine ⟨?_, ?_⟩
  · rcases (hs.sound hr).inv with h | ⟨_, h | h | h⟩
    · exact .inl (Good.erase.mp h).holds
    · exact .inr (.inl h)
    · exact .inr (.inr (.inl (Restorable.erase.mp h).holds))
    · exact .inr (.inr (.inr h))
  · rintro rfl
    exact Restorable.erase.mp (hs.end hr rfl)

/-- C32 for `bf_chain_attach`: at every instant the directory holds the chain; after a success it is attached with these options, which suit its hook. -/
theorem C32_attach {c : Chain} {h : Handle} {o : HookOpts} (hw : w.Wf) (hg : Good T w dir c h) (hl : h.link = none) (ho : OptsOk o)
    (hx : w.pinned dir "bf_link_extra" = none) (hr : Run w (chainAttach dir o) w' p') :
    Holds T w' dir c ∧ (p' = .ret (.ok ()) → ∃ l, Good T w' dir c { h with link := some l } ∧ l.d.hook = c.hook ∧ l.d.opts = o ∧ validate o c.hook = .ok ()) := by
  have hs : Safe (Restorable T · dir c) (fun r v => r = .ok () → ∃ l, Good T v dir c { h with link := some l } ∧ l.d.hook = c.hook ∧ l.d.opts = o ∧ validate o c.hook = .ok ())
      (chainAttach dir o) w.erase :=
    chainAttach_safe (v := w.erase) hw.erase (Good.erase.mpr hg) hl ho hx (fun v h => h) (fun r v hr _ e => absurd e hr)
      fun l v hg hd hv _ => ⟨l, hg, by rw [hd], by rw [hd], hv⟩
  refine ⟨(Restorable.erase.mp (hs.sound hr).inv).holds, ?_⟩
  rintro rfl
  obtain ⟨l, h1, h2⟩ := hs.end hr rfl
  exact ⟨l, Good.erase.mp h1, h2⟩

/-- C32 for `bf_chain_flush`: at every instant the directory holds the chain, or holds no chain; unless bf_ctx could not be removed. -/
theorem C32_flush {c : Chain} {h : Handle} (hw : w.Wf) (hg : Good T w dir c h) (hr : Run w (chainFlush dir) w' p') :
    Holds T w' dir c ∨ Absent w' dir ∨ ∃ e, e ≠ .ENOENT ∧ Since w w' (.unlink dir "bf_ctx", .fail e) := by
  have hs : Safe (fun v => Good T v dir c h ∨ Undone w.erase (.unlink dir "bf_ctx") v) (fun _ _ => True) (chainFlush dir) w.erase :=
    chainFlush_safe (v := w.erase) hw.erase (Good.erase.mpr hg) (fun v h => h) (fun _ _ _ _ => trivial) fun _ _ => trivial
  rcases (hs.sound hr).inv with h | h
  · exact .inl (Good.erase.mp h).holds
  · exact .inr h

theorem Ended.good {c new : Chain} {h : Handle} {v v0 : K} {r : Res Unit} (hg : Good T v0 dir c h) (hc : Packable new) (hf : Fits T new)
    (hcp : chainCopy new = .ok new) (he : Ended T new dir h h.points v0 r v) :
    (r = .ok () → Restorable T v dir new) ∧ (r ≠ .ok () → Good T v dir c h ∨ FailedAfter dir h.progName v0 v) := by
  cases he with
  | done hP hX hM hpn hN hT hpts =>
    rename_i h' pn
    refine ⟨fun _ => ⟨h', ?_⟩, fun e => absurd rfl e⟩
    obtain ⟨v1, h0, hr, e0⟩ := hM.ready
    have hn : NamesOk h' := by
      have := hr.namesOk
      exact ⟨by rw [e0]; exact this.prog, fun m hm => this.maps m (by rw [e0] at hm; exact hm)⟩
    refine Good.of hP hX (fun q hq => ?_) hn ?_ hc hcp
    · rw [hpn] at hq
      cases hq
      exact hT
    · rw [e0]
      refine HandleOk.withLink (hr.handleOk hc hf) fun l' hl' => ?_
      obtain ⟨l, hl, e1, e2⟩ := hM.link l' hl'
      have ok : LinkOk l.d := hg.handleOk.link l.d (by simp [Handle.d, hl])
      exact ⟨by rw [e1]; exact ok.name, e2 ok.opts⟩
  | same hr hs =>
    refine ⟨fun e => absurd e hr, fun _ => .inl (hg.keep (fun i o ho => ?_) fun n => hs.pinned dir n)⟩
    obtain ⟨g, e⟩ := hs.objs
    rw [e, List.getElem?_append_left (List.getElem?_eq_some_iff.mp ho).1]
    exact ho
  | failed hr hf => exact ⟨fun e => absurd e hr, fun _ => .inr hf⟩

theorem Upd.good {c new : Chain} {h : Handle} {v v0 : K} {p : Nat} {name : String} {pts : List Point} (hg : Good T v0 dir c h)
    (hu : Upd T new dir name pts p v0 v) : Good T v dir c h ∨ ∃ n a, Since v0 v (.unlink dir n, a) := by
  rcases hu.early with ⟨e, g, eo⟩ | e
  · refine .inl (hg.keep (fun i o ho => ?_) fun n => by unfold K.pinned; rw [e])
    rw [eo, List.getElem?_append_left (List.getElem?_eq_some_iff.mp ho).1]
    exact ho
  · exact .inr e

/-- C32 for `bf_chain_update`: until the pins of the old program are removed, the directory holds the old chain; after a success
it holds the new one; after a failure it holds the old one, unless a call failed once the pins were removed.
Missing: what is left when the process dies, or a call fails, between the removal of the pins and the end. -/
theorem C32_update_partial {c : Chain} {h : Handle} (hw : w.Wf) (hg : Good T w chain.name c h) (hc : Packable chain) (hf : Fits T chain)
    (hcp : chainCopy chain = .ok chain) (hr : Run w (chainUpdate T ncpu chain) w' p') :
    (Holds T w' chain.name c ∨ ∃ n a, Since w w' (.unlink chain.name n, a)) ∧
    (∀ r, p' = .ret r → (r = .ok () → ∃ h', Good T w' chain.name chain h') ∧ (r ≠ .ok () → Good T w' chain.name c h ∨ FailedAfter chain.name h.progName w w')) := by
  obtain ⟨p, hp, _⟩ := hg.prog
  have hs := chainUpdate_safe (T := T) (ncpu := ncpu) hw hg.toStored hp hcp
  have hge := Good.erase.mpr hg
  refine ⟨(Upd.good hge (hs.sound hr).inv).imp (fun h => (Good.erase.mp h).holds) id, ?_⟩
  rintro r rfl
  have := Ended.good hge hc hf hcp (hs.end hr)
  exact ⟨fun e => Restorable.erase.mp (this.1 e), fun e => (this.2 e).imp Good.erase.mp id⟩

/-- The same for `bf_chain_update_set`. -/
theorem C32_update_set_partial {c new : Chain} {h : Handle} {toAdd toRemove : BSet} (hw : w.Wf) (hg : Good T w dir c h)
    (hu : updateSet c toAdd toRemove = .ok new) (hc : Packable new) (hf : Fits T new) (hcp : chainCopy new = .ok new)
    (hr : Run w (chainUpdateSet T ncpu dir toAdd toRemove) w' p') :
    (Holds T w' dir c ∨ ∃ n a, Since w w' (.unlink dir n, a)) ∧
    (∀ r, p' = .ret r → (r = .ok () → ∃ h', Good T w' dir new h') ∧ (r ≠ .ok () → Good T w' dir c h ∨ FailedAfter dir h.progName w w')) := by
  obtain ⟨p, hp, _⟩ := hg.prog
  have hs := chainUpdateSet_safe (T := T) (ncpu := ncpu) hw hg.toStored hp hu
  have hge := Good.erase.mpr hg
  refine ⟨(Upd.good hge (hs.sound hr).inv).imp (fun h => (Good.erase.mp h).holds) id, ?_⟩
  rintro r rfl
  have := Ended.good hge hc hf hcp (hs.end hr)
  exact ⟨fun e => Restorable.erase.mp (this.1 e), fun e => (this.2 e).imp Good.erase.mp id⟩

/-- Whatever is asked of `bpfilter` about a directory where something is pinned without bf_ctx fails, and changes neither what
is pinned nor the directories: what runs when the process is gone ran before. -/
theorem C32_stuck {dir : String} {toAdd toRemove : BSet} {o : HookOpts} {oo : Option HookOpts} {p : P (Res Unit)} (hs : Stuck w dir)
    (hp : p = chainFlush dir ∨ p = chainAttach dir o ∨ p = chainUpdateSet T ncpu dir toAdd toRemove ∨
      (chain.name = dir ∧ (p = chainSet T chain oo ∨ p = chainLoad T chain ∨ p = chainUpdate T ncpu chain)))
    (hr : Run w p w' p') : w'.pins = w.pins ∧ w'.dirs = w.dirs ∧ (∀ pt q, w'.die.runs pt q ↔ w.die.runs pt q) ∧ p' ≠ .ret (.ok ()) := by
  have hs : Stuck w.erase dir := ⟨hs.noCtx, hs.pin, hs.dir⟩
  have key : Safe (Idle w.erase) (fun r v' => r ≠ .ok () ∧ Idle w.erase v') p w.erase := by
    have wc : ∀ f : Cgen → P (Cgen × Res Unit), Safe (Idle w.erase) (fun r v' => r ≠ .ok () ∧ Idle w.erase v') (withChain dir true (withCgen dir f)) w.erase := fun f =>
      (withChain_stuck hs).mono (fun _ h => h) fun r v _ h => ⟨h.1 (), h.2⟩
    rcases hp with rfl | rfl | rfl | ⟨rfl, rfl | rfl | rfl⟩
    · exact wc _
    · exact wc _
    · exact wc _
    · exact chainSet_stuck hs
    · exact chainLoad_stuck hs
    · exact wc _
  have hi := (key.sound hr).inv
  refine ⟨hi.pins, hi.dirs, fun pt q => ?_, ?_⟩
  · have e : w'.die.erase = ({ w.die.erase with hist := w'.hist, ncpu := w'.ncpu } : K) := by
      have h1 : w'.die.erase.objs = w.die.erase.objs := hi.objs
      have h2 : w'.die.erase.pins = w.die.erase.pins := hi.pins
      have h3 : w'.die.erase.dirs = w.die.erase.dirs := hi.dirs
      have h4 : w'.die.erase.fds = w.die.erase.fds := rfl
      have h5 : w'.die.erase.hist = w'.hist := rfl
      have h6 : w'.die.erase.ncpu = w'.ncpu := rfl
      generalize w'.die.erase = x at *
      generalize w.die.erase = y at *
      cases x; cases y
      simp_all
    rw [← K.erase_runs, e, ← K.erase_runs (w := w.die)]
    exact Iff.rfl
  · rintro rfl
    exact (key.end hr).1 rfl

end Bf.Pin
