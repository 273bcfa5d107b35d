import Verif.Cgen.Update2
/-!
# Updating a chain: from the lock to the release
-/
namespace Bf.Pin

variable {I : K → Prop} {v v0 : K} {dir : String} {T : Target} {chain : Chain} {pts : List Point} {p : Nat}

theorem cgenUpdate_safe {Q : Cgen × Res Unit → K → Prop} {c : Cgen} {h : Handle} {ncpu : Nat} {keep : Bool} (hw : v.Wf) (hc : c.handle = h)
    (hpl : Placed v dir h) (hp : h.prog = some p) (hfd : Fd v h.link pts p)
    (hI : ∀ v', Upd T chain dir h.progName pts p v v' → I v')
    (hB : ∀ r v', r ≠ .ok () → Back dir v v' → Q (c, r) v')
    (hE : ∀ c' r v', r ≠ .ok () → Upd T chain dir h.progName pts p v v' → FailedAfter dir h.progName v v' → Q (c', r) v')
    (hK : ∀ h' pn v', Upd T chain dir h.progName pts p v v' → Placed v' dir h' → HasCtx v' dir (cgenBytes chain h'.d) →
      Made T chain h h' → h'.prog = some pn → Fd v' h'.link pts pn → IsNew T chain v v' pn → Tied T chain v' h' pn → Q (⟨chain, h'⟩, .ok ()) v') :
    Safe I Q (cgenUpdate T ncpu c chain keep dir) v := by
  have u0 : ∀ v', Keep v v' → Upd T chain dir h.progName pts p v v' := fun v' hk =>
    (Upd.refl v hfd).near hk.near hfd (.inl rfl) (.inl (.inl hk.pins))
  have IK : ∀ v', Keep v v' → I v' := fun v' hk => hI v' (u0 v' hk)
  have bad : ∀ r v', r ≠ .ok () → Keep v v' → I v' ∧ Q (c, r) v' := fun r v' hr hk => ⟨IK v' hk, hB r v' hr hk.back⟩
  have k0 := Keep.refl v
  unfold cgenUpdate
  refine Safe.bindWf hw (safe_try' (IK v k0) (fun e v' hs => ?_) fun a v' hs _ => ?_)
  · rw [hs.quiet trivial]
    exact ⟨IK _ (k0.log _ _), fun _ => bad _ _ (by simp) (k0.log _ _)⟩
  · rw [hs.quiet trivial]
    refine ⟨IK _ (k0.log _ _), fun hw1 => ?_⟩
    have k1 := k0.log .alloc a
    have len1 : (v.log .alloc a).objs.length = v.objs.length := rfl
    generalize v.log .alloc a = v1 at *
    refine Safe.bindWf hw1 (makeProgram_safe (fun v' hk => IK v' (k1.trans hk)) fun new r v2 hk2 hm2 hr2 hw2 => ?_)
    have k2 := k1.trans hk2
    have free : ∀ r' v', r' ≠ .ok () → Keep v2 v' → Safe I Q (do handleFree new; pure (c, r')) v' := by
      intro r' v' hr' hk
      refine Safe.bind (handleFree_safe (fun q hq => hk.toFrame.prog (hm2.prog q hq)) (fun m hm => hk.toFrame.map (hm2.maps m hm).isMap) hm2.link
        (fun v3 h => IK v3 ((k2.trans hk).trans h)) fun v3 h => bad _ v3 hr' ((k2.trans hk).trans h))
    cases r with
    | err e => exact free _ v2 (by simp) (.refl v2)
    | ub => exact free _ v2 (by simp) (.refl v2)
    | ok u =>
      obtain ⟨hr, hnew⟩ := hr2 rfl
      rw [len1] at hnew
      simp only
      split
      · split
        · exact free _ v2 (by simp) (.refl v2)
        · refine Safe.bindWf hw2 ?_
          unfold transfer
          have after : ∀ (r' : Res Unit) v3, Keep v2 v3 → v3.Wf → Safe I Q (match r' with
              | .ok _ => updateSwitch c chain new dir
              | e => do handleFree new; pure (c, e)) v3 := by
            intro r' v3 hk3 hw3
            have hr3 : Ready T chain v3 new := by
              obtain ⟨q, img, m, a1, a2, a3, a4⟩ := hr.prog
              exact ⟨hr.name, hr.link, ⟨q, img, m, a1, a2, hk3.toFrame.get a3, a4⟩, hr.cmap, hr.pmap, hr.lmap, hr.smap, hr.sets,
                fun m hm => (hr.maps m hm).keep hk3.toFrame, hr.logs⟩
            cases r' with
            | err e => exact free _ v3 (by simp) hk3
            | ub => exact free _ v3 (by simp) hk3
            | ok _ => exact updateSwitch_safe hw3 (k2.trans hk3) hc hpl hp hfd hr3 hnew hI (fun e v' hb => hB _ v' (by simp) hb) hE fun h' pn v' a b c d e f g t _ => hK h' pn v' a b c d e f g t
          split
          · exact ⟨IK v2 k2, fun hw3 => after (.err _) v2 (.refl v2) hw3⟩
          · exact transferLoop_safe (fun v3 hk => IK v3 (k2.trans hk)) fun r' v3 hk => after r' v3 hk
      · exact updateSwitch_safe hw2 k2 hc hpl hp hfd hr hnew hI (fun e v' hb => hB _ v' (by simp) hb) hE fun h' pn v' a b c d e f g t _ => hK h' pn v' a b c d e f g t

theorem Open.trans0 {ids : List Nat} {a b c : K} (h : Open dir [] a b) (h' : Open dir ids b c) : Open dir ids a c := by
  refine ⟨h'.objs.trans h.objs, h'.dirs.trans h.dirs, h'.pins.trans h.pins, hist_trans h.hist h'.hist, fun o => ?_, fun o ho => ?_⟩
  · have := h.fds o
    have := h'.fds o
    simp at *
    omega
  · obtain ⟨n, e⟩ := h'.pinned o ho
    exact ⟨n, by unfold K.pinned at e ⊢; rw [← h.pins]; exact e⟩

theorem Open.stored {v v' : K} {ids : List Nat} {c : Chain} {h : Handle} (ho : Open dir ids v v') (hs : Stored v dir c h) : Stored v' dir c h := by
  have ep : ∀ n, v'.pinned dir n = v.pinned dir n := fun n => by unfold K.pinned; rw [ho.pins]
  obtain ⟨m, b, c1, c2, c3⟩ := hs.ctx
  obtain ⟨q, q1, q2⟩ := hs.prog
  refine ⟨⟨fun x hx => by rw [ep]; exact hs.pins x hx, fun l hl => by rw [ep]; exact hs.extra l hl, ⟨q, q1, by unfold IsProg at *; rw [ho.objs]; exact q2⟩,
    fun m hm => by unfold IsMap; rw [ho.objs]; exact hs.maps m hm, fun l p h1 h2 => by unfold Attached; rw [ho.objs]; exact hs.link l p h1 h2, hs.names⟩,
    ⟨m, b, by rw [ep]; exact c1, by rw [ho.objs]; exact c2, c3⟩⟩

/-- Releasing the lock of a directory that is not empty. -/
theorem AStep.release_some {v v' : K} {b : Bool} {a : Ans} (h : AStep v (.release dir b) a v') {n : String} {o : Nat}
    (hp : v.pinned dir n = some o) : v' = v.log (.release dir b) a := by
  rcases h.release with h | ⟨h, _⟩
  · exact h
  · exact absurd rfl (h _ (lookup_mem hp))

/-- Operations on a chain that exists. -/
theorem withStored_safe {α : Type} {write : Bool} {f : Cgen → P (Cgen × Res α)} {Q : Res α → K → Prop} {c : Chain} {h : Handle} (hw : v.Wf)
    (hs : Stored v dir c h) (hI : ∀ v' ids, Open dir ids v v' → I v')
    (he : ∀ r v', (∀ x, r ≠ .ok x) → Open dir [] v v' → Q r v')
    (hf : ∀ v1, Open dir h.ids v v1 → v1.Wf → Safe I (fun x v' => Safe I (fun _ v'' => Safe I Q (do void (.release dir write); pure x.2) v'')
      (cgenFree x.1) v') (f ⟨c, h⟩) v1) :
    Safe I Q (withChain dir write (withCgen dir f)) v := by
  have o0 : Open dir [] v v := Open.refl v
  have end_ : ∀ r v', (∀ x, r ≠ .ok x) → Open dir [] v v' → I v' ∧ Q r v' := fun r v' hr ho => ⟨hI v' _ ho, he r v' hr ho⟩
  unfold withChain
  refine safe_quiet trivial (hI v _ o0) (fun e a => end_ _ _ (by simp) (o0.log _ _)) fun a => ?_
  have o1 := o0.log .lockInit a
  refine safe_quiet trivial (hI _ _ o1) (fun e b => end_ _ _ (by simp) (o1.log _ _)) fun b => ?_
  have o2 := o1.log (.acquire dir) b
  have hw2 : ((v.log .lockInit a).log (.acquire dir) b).Wf := ⟨hw.fds, hw.pins⟩
  generalize (v.log .lockInit a).log (.acquire dir) b = v2 at *
  refine Safe.bind ?_
  unfold withCgen
  have hs2 := o2.stored hs
  refine Safe.bindWf hw2 (newFromDir_safe hs2 (fun v' ids ho => hI v' ids (o2.trans0 ho)) (fun r v' hr _ _ ho _ => ?_) fun v3 ho3 hw3 => ?_)
  · -- the chain could not be opened
    have ho' := o2.trans0 ho
    have hs' := ho'.stored hs
    obtain ⟨m, b, c1, _⟩ := hs'.ctx
    have : ∀ r' : Res α, (∀ x, r' ≠ .ok x) → Safe I (fun a v' => Safe I Q (do void (.release dir write); pure a) v') (pure r') v' := by
      intro r' hr'
      refine ⟨hI v' _ ho', safe_void (hI v' _ ho') fun a' v4 hs4 => ?_⟩
      rw [hs4.release_some c1]
      exact end_ _ _ hr' (ho'.log _ _)
    cases r with
    | ok x => exact absurd rfl (hr x)
    | err e => exact this _ (by simp)
    | ub => exact this _ (by simp)
  · refine Safe.bind ((hf v3 (o2.trans0 ho3) hw3).mono (fun _ h => h) ?_)
    intro x v' _ hx
    refine Safe.bind (hx.mono (fun _ h => h) fun _ v'' hi' hq => ⟨hi', hq⟩)

theorem Upd.open {v0 v1 v : K} {ids : List Nat} {name : String} (ho : Open dir ids v0 v1) (h : Upd T chain dir name pts p v1 v) : Upd T chain dir name pts p v0 v := by
  have hn : ∀ q, IsNew T chain v1 v q → IsNew T chain v0 v q := fun q h => ⟨by rw [← ho.objs]; exact h.1, h.2⟩
  refine ⟨hist_trans ho.hist h.hist, fun pt q hr => ?_, ?_, ?_⟩
  · exact (h.only pt q hr).imp ho.runs.mp fun ⟨a, b⟩ => ⟨a, hn q b⟩
  · exact h.cov.imp (fun hc pt hp => by obtain ⟨q, h1, h2⟩ := hc pt hp; exact ⟨q, h1, h2.imp id (hn q)⟩) fun hf => hf.earlier ho.hist
  · rcases h.early with ⟨e, g, eo⟩ | ⟨n, a, e⟩
    · exact .inl ⟨e.trans ho.pins, g, by rw [eo, ho.objs]⟩
    · exact .inr ⟨n, a, e.earlier ho.hist⟩

theorem Upd.same {v0 v v' : K} {name : String} (h : Upd T chain dir name pts p v0 v) (h1 : v'.objs = v.objs) (h2 : v'.pins = v.pins) (h3 : v'.fds = v.fds)
    (h4 : ∃ g, v'.hist = g ++ v.hist) : Upd T chain dir name pts p v0 v' := by
  have hr : ∀ pt q, v'.runs pt q ↔ v.runs pt q := by
    intro pt q
    unfold K.runs K.held K.pinned
    rw [h1, h2, h3]
  have hn : ∀ q, IsNew T chain v0 v q → IsNew T chain v0 v' q := fun q h => h.of fun i o ho _ => by rw [h1]; exact ho
  refine ⟨hist_trans h.hist h4, fun pt q hq => ?_, ?_, ?_⟩
  · exact (h.only pt q ((hr pt q).mp hq)).imp id fun ⟨a, b⟩ => ⟨a, hn q b⟩
  · exact h.cov.imp (fun hc pt hp => by obtain ⟨q, e1, e2⟩ := hc pt hp; exact ⟨q, (hr pt q).mpr e1, e2.imp id (hn q)⟩) fun hf => hf.later h4
  · rcases h.early with ⟨e, g, eo⟩ | ⟨n, a, e⟩
    · exact .inl ⟨h2.trans e, g, by rw [h1, eo]⟩
    · exact .inr ⟨n, a, e.later h4⟩

/-- The same pins, and the same programs running. -/
structure Same (v0 v : K) : Prop where
  pinned : ∀ d n, v.pinned d n = v0.pinned d n
  runs : ∀ pt q, v.runs pt q ↔ v0.runs pt q
  objs : ∃ new, v.objs = v0.objs ++ new

/-- Things are as they were, and the descriptors that were opened are closed. -/
theorem Back.closed {v0 v1 v2 v3 : K} {ids : List Nat} (ho : Open dir ids v0 v1) (hb : Back dir v1 v2) (hc : Closed ids v2 v3) : Same v0 v3 := by
  have hpin : ∀ d n, v3.pinned d n = v0.pinned d n := by
    intro d n
    have e1 : v3.pinned d n = v2.pinned d n := by unfold K.pinned; rw [hc.pins]
    have e2 : v2.pinned d n = v1.pinned d n := by
      by_cases hd : d = dir
      · subst hd; exact hb.same n
      · exact hb.other d n hd
    have e3 : v1.pinned d n = v0.pinned d n := by unfold K.pinned; rw [ho.pins]
    rw [e1, e2, e3]
  have hcount : ∀ l, IsLink v1 l → (l ∈ v3.fds ↔ l ∈ v0.fds) := by
    intro l hl
    rw [← List.count_pos_iff, ← List.count_pos_iff, hc.fds l, hb.fds l hl, ho.fds l]
    omega
  refine ⟨hpin, fun pt q => ⟨?_, ?_⟩, ?_⟩
  · rintro ⟨l, h1, h2⟩
    rw [hc.objs] at h1
    have hh : v2.held l := by
      rcases h2 with h2 | ⟨d, n, h2⟩
      · exact .inl (hc.mem h2)
      · exact .inr ⟨d, n, by unfold K.pinned at h2 ⊢; rw [← hc.pins]; exact h2⟩
    have hl1 := (hb.noNew l ⟨_, _, _, h1⟩ hh).1
    refine ⟨l, by rw [← ho.objs]; exact (hb.toFrame.link_get hl1).mp h1, ?_⟩
    rcases h2 with h2 | ⟨d, n, h2⟩
    · exact .inl ((hcount l hl1).mp h2)
    · exact .inr ⟨d, n, by rw [← hpin]; exact h2⟩
  · rintro ⟨l, h1, h2⟩
    have h1' : v1.objs[l]? = some (.link pt q false) := by rw [ho.objs]; exact h1
    refine ⟨l, by rw [hc.objs]; exact hb.toFrame.get h1', ?_⟩
    rcases h2 with h2 | ⟨d, n, h2⟩
    · exact .inl ((hcount l ⟨_, _, _, h1'⟩).mpr h2)
    · exact .inr ⟨d, n, by rw [hpin]; exact h2⟩
  · obtain ⟨g, e⟩ := hb.objs
    exact ⟨g, by rw [hc.objs, e, ho.objs]⟩

theorem Same.log {v0 v : K} (h : Same v0 v) (c : Call) (a : Ans) : Same v0 (v.log c a) := ⟨h.pinned, h.runs, h.objs⟩

theorem Open.same {v0 v : K} (h : Open dir [] v0 v) : Same v0 v :=
  ⟨fun d n => by unfold K.pinned; rw [h.pins], fun _ _ => h.runs, ⟨[], by simp [h.objs]⟩⟩

theorem Placed.linkPinned {h : Handle} (hp : Placed v dir h) {l : Link} (hl : h.link = some l) {o : Nat} (ho : o ∈ l.fds) : ∃ n, v.pinned dir n = some o := by
  simp only [Link.fds, List.mem_cons, Option.mem_toList] at ho
  rcases ho with rfl | ho
  · exact ⟨"bf_link", hp.pins ("bf_link", l.fd) (by simp [Handle.pinList, hl])⟩
  · exact ⟨"bf_link_extra", hp.pins ("bf_link_extra", o) (by simp [Handle.pinList, hl, ho])⟩

/-- How an update ends: the new chain is stored and runs; or nothing changed; or something failed after the pins were removed. -/
inductive Ended (T : Target) (chain : Chain) (dir : String) (h : Handle) (pts : List Point) (v0 : K) : Res Unit → K → Prop
  | done {h' : Handle} {pn : Nat} {v : K} : Placed v dir h' → HasCtx v dir (cgenBytes chain h'.d) → Made T chain h h' → h'.prog = some pn →
      IsNew T chain v0 v pn → Tied T chain v h' pn → (∀ l, h'.link = some l → l.points = pts) → Ended T chain dir h pts v0 (.ok ()) v
  | same {r : Res Unit} {v : K} : r ≠ .ok () → Same v0 v → Ended T chain dir h pts v0 r v
  | failed {r : Res Unit} {v : K} : r ≠ .ok () → FailedAfter dir h.progName v0 v → Ended T chain dir h pts v0 r v

/-- The points of the link of a handle. -/
def Handle.points (h : Handle) : List Point := match h.link with
  | some l => l.points
  | none => []

theorem Stored.fd {c : Chain} {h : Handle} (hs : Stored v0 dir c h) (ho : Open dir h.ids v0 v) (hp : h.prog = some p) : Fd v h.link h.points p := by
  refine ⟨fun l hl => ⟨⟨?_, fun o hm => ?_⟩, ?_⟩, fun hl => ?_⟩
  · have := hs.link l p hl hp
    unfold Attached at *
    rw [ho.objs]; exact this
  · rw [← List.count_pos_iff, ho.fds o]
    have : o ∈ h.ids := by
      simp only [Handle.ids, Handle.linkFds, hl, List.mem_append]
      exact .inl (.inr hm)
    have := List.count_pos_iff.mpr this
    omega
  · unfold Handle.points; rw [hl]
  · unfold Handle.points; rw [hl]

/-- From a chain that is stored, the whole update. -/
theorem update_safe {c : Chain} {h : Handle} {f : Cgen → P (Cgen × Res Unit)} {ncpu : Nat} {keep : Bool} (hw : v.Wf) (hs : Stored v dir c h)
    (hp : h.prog = some p)
    (hf : ∀ Q v1, v1.Wf → (∀ r v', r ≠ .ok () → Keep v1 v' → Upd T chain dir h.progName h.points p v v' ∧ Q (⟨c, h⟩, r) v') →
      (∀ v', Keep v1 v' → v'.Wf → Safe (Upd T chain dir h.progName h.points p v) Q (cgenUpdate T ncpu ⟨c, h⟩ chain keep dir) v') →
      Upd T chain dir h.progName h.points p v v1 →
      Safe (Upd T chain dir h.progName h.points p v) Q (f ⟨c, h⟩) v1) :
    Safe (Upd T chain dir h.progName h.points p v) (Ended T chain dir h h.points v) (withChain dir true (withCgen dir f)) v := by
  have openU : ∀ v' ids, Open dir ids v v' → Upd T chain dir h.progName h.points p v v' := by
    intro v' ids ho
    refine ⟨ho.hist, fun pt q hr => .inl (ho.runs.mp hr), .inl fun pt hpt => ⟨p, ho.runs.mpr ?_, .inl rfl⟩, .inl ⟨ho.pins, [], by simp [ho.objs]⟩⟩
    unfold Handle.points at hpt
    cases hl : h.link with
    | none => rw [hl] at hpt; cases hpt
    | some l =>
      rw [hl] at hpt
      refine (hs.link l p hl hp).runs (fun o hm => .inr ?_) hpt
      obtain ⟨n, e⟩ := hs.toPlaced.linkPinned hl hm
      exact ⟨dir, n, e⟩
  refine withStored_safe hw hs openU (fun r v' hr ho => .same (hr ()) ho.same) fun v1 ho1 hw1 => ?_
  -- what follows the update
  have rel : ∀ (r : Res Unit) v', Upd T chain dir h.progName h.points p v v' →
      (∀ v'', v''.objs = v'.objs → v''.pins = v'.pins → v''.fds = v'.fds → (∃ g, v''.hist = g ++ v'.hist) →
        (v''.dirs = v'.dirs ∨ ∀ n, v'.pinned dir n = none) → Ended T chain dir h h.points v r v'') →
      Safe (Upd T chain dir h.progName h.points p v) (Ended T chain dir h h.points v) (do void (.release dir true); pure r) v' := by
    intro r v' hu he
    refine safe_void hu fun a v2 hs2 => ?_
    rcases hs2.release with rfl | ⟨hno, rfl⟩
    · exact ⟨hu.same rfl rfl rfl ⟨[_], rfl⟩, he _ rfl rfl rfl ⟨[_], rfl⟩ (.inl rfl)⟩
    · refine ⟨hu.same rfl rfl rfl ⟨[_], rfl⟩, he _ rfl rfl rfl ⟨[_], rfl⟩ (.inr fun n => ?_)⟩
      cases hq : v'.pinned dir n with
      | none => rfl
      | some o => exact absurd rfl (hno _ (lookup_mem hq))
  have back : ∀ r v', r ≠ .ok () → Upd T chain dir h.progName h.points p v v' → Back dir v1 v' →
      Safe (Upd T chain dir h.progName h.points p v) (fun _ v'' => Safe (Upd T chain dir h.progName h.points p v) (Ended T chain dir h h.points v)
        (do void (.release dir true); pure r) v'') (cgenFree ⟨c, h⟩) v' := by
    intro r v' hr hu hb
    have hfd' : Fd v' h.link h.points p := (hs.fd ho1 hp).frame hb.toFrame
    have hpinned : ∀ l, h.link = some l → ∀ o ∈ l.fds, ∃ n, v'.pinned dir n = some o := by
      intro l hl o hm
      obtain ⟨n, e⟩ := hs.toPlaced.linkPinned hl hm
      refine ⟨n, ?_⟩
      rw [hb.same n]
      unfold K.pinned at e ⊢
      rw [ho1.pins]; exact e
    refine closeAll_closed (os := h.ids) (fun v2 os _ hc => hu.closed hc (.inr ⟨_, p, hfd', hpinned, .inl rfl⟩)) fun v2 hc => ?_
    have hu2 := hu.closed hc (.inr ⟨_, p, hfd', hpinned, .inl rfl⟩)
    have hsame : Same v v2 := Back.closed ho1 hb hc
    refine rel r v2 hu2 fun v3 e1 e2 e3 _ _ => .same hr ?_
    refine ⟨fun d n => by rw [← hsame.pinned]; unfold K.pinned; rw [e2], fun pt q => ?_, by rw [e1]; exact hsame.objs⟩
    rw [← hsame.runs]
    unfold K.runs K.held K.pinned
    rw [e1, e2, e3]
  have hpl1 : Placed v1 dir h := (ho1.stored hs).toPlaced
  have hfd1 : Fd v1 h.link h.points p := hs.fd ho1 hp
  refine hf _ v1 hw1 (fun r v' hr hk => ?_) (fun v2 hk2 hw2 => ?_) (openU v1 _ ho1)
  · have hu : Upd T chain dir h.progName h.points p v v' :=
      Upd.open ho1 ((Upd.refl v1 hfd1).near hk.near hfd1 (.inl rfl) (.inl (.inl hk.pins)))
    exact ⟨hu, back r v' hr hu hk.back⟩
  · have up : ∀ v', Upd T chain dir h.progName h.points p v2 v' → Upd T chain dir h.progName h.points p v v' := by
      intro v' hu
      refine Upd.open ho1 ?_
      have hn : ∀ q, IsNew T chain v2 v' q → IsNew T chain v1 v' q := fun q hq => ⟨by
        obtain ⟨g, e⟩ := hk2.objs
        have := hq.1
        rw [e] at this
        simp at this
        omega, hq.2⟩
      refine ⟨hist_trans hk2.hist hu.hist, fun pt q hr => (hu.only pt q hr).imp hk2.runs.mp fun ⟨a, b⟩ => ⟨a, hn q b⟩, ?_, ?_⟩
      · exact hu.cov.imp (fun hc pt hp => by obtain ⟨q, e1, e2⟩ := hc pt hp; exact ⟨q, e1, e2.imp id (hn q)⟩) fun hf => hf.earlier hk2.hist
      · rcases hu.early with ⟨e, g, eo⟩ | ⟨n, a, e⟩
        · obtain ⟨g', eo'⟩ := hk2.objs
          exact .inl ⟨e.trans hk2.pins, g' ++ g, by rw [eo, eo', List.append_assoc]⟩
        · exact .inr ⟨n, a, e.earlier hk2.hist⟩
    refine cgenUpdate_safe hw2 rfl (hpl1.keep' hk2) hp (hfd1.frame hk2.toFrame) up ?_ ?_ ?_
    · intro r v' hr hb
      have hb' : Back dir v1 v' := ⟨(hk2.near).trans hb.toNear, fun n => by rw [hb.same n]; unfold K.pinned; rw [hk2.pins], by
        rcases hb.why with e | ⟨n, a, e⟩
        · exact .inl (e.trans hk2.pins)
        · exact .inr ⟨n, a, e.earlier hk2.hist⟩⟩
      have hu : Upd T chain dir h.progName h.points p v v' := up v' ((Upd.refl v2 (hfd1.frame hk2.toFrame)).near hb.toNear (hfd1.frame hk2.toFrame) (.inl rfl) (.inl hb.why))
      exact back r v' hr hu hb'
    · intro c' r v' hr hu hfail
      have hu' := up v' hu
      have hfail' : FailedAfter dir h.progName v v' := (hfail.earlier hk2.hist).earlier ho1.hist
      refine closeAll_closed (os := c'.handle.ids) (fun v3 os _ hc => hu'.closed hc (.inl hfail')) fun v3 hc => ?_
      exact rel r v3 (hu'.closed hc (.inl hfail')) fun v4 _ _ _ hh _ => .failed hr ((hfail'.later hc.hist).later hh)
    · intro h' pn v' hu hP hX hM hpn hF hN hT
      have hu' := up v' hu
      have hN' : IsNew T chain v v' pn := by
        refine ⟨?_, hN.2⟩
        obtain ⟨g, e⟩ := hk2.objs
        have := hN.1
        rw [e, ho1.objs] at this
        simp at this
        omega
      have hcl : ∀ os v3, Closed os v' v3 → Upd T chain dir h.progName h.points p v v3 := fun os v3 hc =>
        hu'.closed hc (.inr ⟨_, pn, hF, fun l hl o ho => hP.linkPinned hl ho, .inr hN'⟩)
      refine closeAll_closed (os := h'.ids) (fun v3 os _ hc => hcl os v3 hc) fun v3 hc => ?_
      refine rel (.ok ()) v3 (hcl _ v3 hc) fun v4 e1 e2 e3 _ hd => ?_
      have eo : v4.objs = v'.objs := e1.trans hc.objs
      have ep : ∀ n, v4.pinned dir n = v'.pinned dir n := fun n => by unfold K.pinned; rw [e2, hc.pins]
      obtain ⟨m, hx1, hx2⟩ := hX
      refine .done ?_ ⟨m, by rw [ep]; exact hx1, by rw [eo]; exact hx2⟩ hM hpn (hN'.of fun i o ho _ => by rw [eo]; exact ho) (hT.get fun o ho => by rw [eo]; exact ho)
        (fun l hl => (hF.fd l hl).2)
      · obtain ⟨q, q1, q2⟩ := hP.prog
        exact ⟨fun x hx => by rw [ep]; exact hP.pins x hx, fun l hl => by rw [ep]; exact hP.extra l hl, ⟨q, q1, by unfold IsProg at *; rw [eo]; exact q2⟩,
          fun m hm => by unfold IsMap; rw [eo]; exact hP.maps m hm, fun l p h1 h2 => by unfold Attached; rw [eo]; exact hP.link l p h1 h2, hP.names⟩

end Bf.Pin
