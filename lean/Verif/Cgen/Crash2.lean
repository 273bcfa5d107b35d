import Verif.Cgen.Left
/-!
# Flushing, loading and setting a chain: every instant
-/
namespace Bf.Pin

variable {I : K → Prop} {v v0 : K} {dir : String} {T : Target} {chain : Chain}

/-- Things are pinned in directories that exist. -/
def K.Tree (w : K) : Prop := ∀ x ∈ w.pins, x.1.1 ∈ w.dirs

theorem K.Tree.free {w : K} (ht : w.Tree) (hd : dir ∉ w.dirs) (n : String) : w.pinned dir n = none := by
  cases h : w.pinned dir n with
  | none => rfl
  | some o => exact absurd (ht _ (lookup_mem h)) hd

theorem K.Tree.mem {w : K} (ht : w.Tree) {n : String} {o : Nat} (h : w.pinned dir n = some o) : dir ∈ w.dirs := ht _ (lookup_mem h)

/-- bf_ctx could not be removed. -/
def KeptCtx (dir : String) (v0 v : K) : Prop := ∃ e, e ≠ .ENOENT ∧ Since v0 v (.unlink dir "bf_ctx", .fail e)

theorem KeptCtx.later {v' : K} (h : KeptCtx dir v0 v) (hh : ∃ g, v'.hist = g ++ v.hist) : KeptCtx dir v0 v' := by
  obtain ⟨e, he, h⟩ := h; exact ⟨e, he, h.later hh⟩

theorem KeptCtx.earlier {v1 : K} (h : KeptCtx dir v1 v) (hh : ∃ g, v1.hist = g ++ v0.hist) : KeptCtx dir v0 v := by
  obtain ⟨e, he, h⟩ := h; exact ⟨e, he, h.earlier hh⟩

/-- A chain that is not there can't be opened, and nothing is done. -/
theorem newFromDir_none {Q : Res Cgen → K → Prop} (hn : v.pinned dir "bf_ctx" = none) (hI : I v)
    (hE : ∀ e a, I (v.log (.get dir "bf_ctx") a) ∧ Q (.err e) (v.log (.get dir "bf_ctx") a)) : Safe I Q (newFromDir dir) v := by
  unfold newFromDir
  refine ⟨hI, fun a v' hs => ?_⟩
  rcases hs.get with ⟨e, rfl, _, rfl⟩ | ⟨o, rfl, h, _⟩
  · exact hE e _
  · rw [hn] at h; cases h

/-- Taking the lock back: nothing changes, except that the directory is removed if it is empty. -/
structure Released (dir : String) (v0 v : K) : Prop where
  objs : v.objs = v0.objs
  pins : v.pins = v0.pins
  fds : v.fds = v0.fds
  dirs : v.dirs = v0.dirs ∨ ((∀ p ∈ v0.pins, p.1.1 ≠ dir) ∧ v.dirs = v0.dirs.filter (· ≠ dir))
  hist : ∃ g, v.hist = g ++ v0.hist

theorem AStep.released {v' : K} {b : Bool} {a : Ans} (h : AStep v (.release dir b) a v') : Released dir v v' := by
  rcases h.release with rfl | ⟨h1, rfl⟩
  · exact ⟨rfl, rfl, rfl, .inl rfl, ⟨[_], rfl⟩⟩
  · exact ⟨rfl, rfl, rfl, .inr ⟨h1, rfl⟩, ⟨[_], rfl⟩⟩

theorem Released.tree {v' : K} (h : Released dir v v') (ht : v.Tree) : v'.Tree := by
  intro x hx
  rw [h.pins] at hx
  rcases h.dirs with e | ⟨e1, e2⟩
  · rw [e]; exact ht x hx
  · rw [e2]
    exact List.mem_filter.mpr ⟨ht x hx, by simpa using e1 x hx⟩

theorem Released.pinned {v' : K} (h : Released dir v v') (d n : String) : v'.pinned d n = v.pinned d n := by unfold K.pinned; rw [h.pins]

theorem Released.good {v' : K} {c : Chain} {h : Handle} (hr : Released dir v v') (hg : Good T v dir c h) : Good T v' dir c h :=
  hg.keep (fun _ _ ho => by rw [hr.objs]; exact ho) fun n => hr.pinned dir n

theorem Open.tree {ids : List Nat} {v' : K} (h : Open dir ids v v') (ht : v.Tree) : v'.Tree := by
  intro x hx
  rw [h.pins] at hx
  rw [h.dirs]; exact ht x hx

theorem Open.good {ids : List Nat} {v' : K} {c : Chain} {h : Handle} (ho : Open dir ids v v') (hg : Good T v dir c h) : Good T v' dir c h :=
  hg.keep (fun _ _ h => by rw [ho.objs]; exact h) fun n => by unfold K.pinned; rw [ho.pins]

theorem Gone.tree {h : Handle} {v' : K} (hg : Gone h dir v v') (ht : v.Tree) : v'.Tree := by
  intro x hx
  rw [hg.dirs]
  exact ht x (hg.sub x hx)

/-- The handle of an unloaded chain holds nothing. -/
theorem free_unloaded {Q : Unit → K → Prop} {c : Cgen} (hI : I v) (hQ : Q () v) : Safe I Q (cgenFree { c with handle := c.handle.unloaded }) v := by
  have : (cgenFree { c with handle := c.handle.unloaded } : P Unit) = pure () := by
    unfold cgenFree handleFree
    simp [Handle.unloaded, Handle.maps, Handle.linkFds, closeAll]
  rw [this]
  exact ⟨hI, hQ⟩

theorem cgenFree_closed {Q : Unit → K → Prop} {c : Cgen} (hI : ∀ v' os, Closed os v v' → I v') (hQ : ∀ v', Closed c.handle.ids v v' → Q () v') :
    Safe I Q (cgenFree c) v :=
  closeAll_closed (os := c.handle.ids) (fun v' os _ hc => hI v' os hc) hQ

theorem Closed.good {os : List Nat} {v' : K} {c : Chain} {h : Handle} (hc : Closed os v v') (hg : Good T v dir c h) : Good T v' dir c h :=
  hc.grew.good hg

theorem Closed.tree {os : List Nat} {v' : K} (hc : Closed os v v') (ht : v.Tree) : v'.Tree := by
  intro x hx
  rw [hc.pins] at hx
  rw [hc.dirs]; exact ht x hx

/-! ## Flush -/

/-- What is left of a chain that was flushed. -/
structure Flushed (h : Handle) (dir : String) (v0 v : K) : Prop where
  objs : ∀ i, i ∉ h.linkFds → v.objs[i]? = v0.objs[i]?
  links : ∀ (i : Nat), v.objs[i]? = v0.objs[i]? ∨ ∃ pt q d, v0.objs[i]? = some (.link pt q d) ∧ v.objs[i]? = some (.link pt q true)
  pins : ∀ d n, v.pinned d n = v0.pinned d n ∨ (d = dir ∧ (n = "bf_ctx" ∨ h.names n) ∧ v.pinned d n = none)
  fds : ∀ o, o ∉ h.ids → v.fds.count o = v0.fds.count o
  undone : ∀ x ∈ unloadCalls h dir, Undone v0 x v
  dirs : ∀ d, d ≠ dir → (d ∈ v.dirs ↔ d ∈ v0.dirs)

theorem Undone.earlier {v1 : K} {x : Call} (h : Undone v1 x v) (hh : ∃ g, v1.hist = g ++ v0.hist) : Undone v0 x v := by
  unfold Undone at *
  split at h
  · exact h.imp id fun ⟨e, h0, h⟩ => ⟨e, h0, h.earlier hh⟩
  · exact h.imp id fun ⟨e, h0, h⟩ => ⟨e, h0, h.earlier hh⟩
  · trivial

theorem Undone.released {v' : K} {x : Call} (h : Undone v0 x v) (hr : Released dir v v') : Undone v0 x v' := by
  unfold Undone at *
  split at h
  · exact h.imp (fun e => by rw [hr.pinned]; exact e) fun ⟨e, h0, h⟩ => ⟨e, h0, h.later hr.hist⟩
  · exact h.imp (fun e => by rw [hr.objs]; exact e) fun ⟨e, h0, h⟩ => ⟨e, h0, h.later hr.hist⟩
  · trivial

theorem chainFlush_safe {Q : Res Unit → K → Prop} {c : Chain} {h : Handle} (hw : v.Wf) (hg : Good T v dir c h)
    (hI : ∀ v', Good T v' dir c h ∨ Undone v (.unlink dir "bf_ctx") v' → I v')
    (hE : ∀ r v', r ≠ .ok () → Open dir [] v v' → Q r v') (hK : ∀ v', Flushed h dir v v' → Q (.ok ()) v') : Safe I Q (chainFlush dir) v := by
  unfold chainFlush
  have IO : ∀ v' ids, Open dir ids v v' → I v' := fun v' ids ho => hI v' (.inl (ho.good hg))
  refine withStored_safe hw hg.toStored IO (fun r v' hr ho => hE r v' (hr ()) ho) fun v1 ho1 hw1 => ?_
  have und : ∀ x v', Undone v1 x v' → Undone v x v' := fun x v' hu => hu.earlier ho1.hist
  refine Safe.bind (cgenUnload_safe (fun v2 hg2 hu => ?_) fun v2 hg2 hu => ?_)
  · rcases hu with rfl | hu
    · exact IO _ _ ho1
    · exact hI v2 (.inr (und _ _ hu))
  · have hu0 : Undone v (.unlink dir "bf_ctx") v2 := und _ _ (hu _ (by simp [unloadCalls]))
    have i2 : I v2 := hI v2 (.inr hu0)
    refine ⟨i2, free_unloaded i2 (safe_void i2 fun a v3 hs => ?_)⟩
    have hr := hs.released
    refine ⟨hI v3 (.inr (hu0.released hr)), hK v3 ?_⟩
    have eo : v3.objs = v2.objs := hr.objs
    refine ⟨fun i hi => by rw [eo, hg2.objs i hi, ho1.objs], fun i => by rw [eo, ← ho1.objs]; exact hg2.links i, fun d n => ?_, fun o ho => ?_,
      fun x hx => (und x v2 (hu x hx)).released hr, fun d hd => ?_⟩
    · rw [hr.pinned]
      have : v1.pinned d n = v.pinned d n := by unfold K.pinned; rw [ho1.pins]
      rw [← this]
      exact hg2.pins d n
    · rw [hr.fds, hg2.fds o ho, ho1.fds o, List.count_eq_zero.mpr ho]; rfl
    · rcases hr.dirs with e | ⟨_, e⟩
      · rw [e, hg2.dirs, ho1.dirs]
      · rw [e, hg2.dirs, ho1.dirs, List.mem_filter]
        simp [hd]

/-! ## Setting a chain -/

/-- The first half: the old chain is removed. -/
theorem dropOld_safe {Q : Res Unit → K → Prop} {c : Chain} {h : Handle} (hw : v.Wf) (ht : v.Tree) (hg : Good T v dir c h)
    (hI : ∀ v', Good T v' dir c h ∨ Undone v (.unlink dir "bf_ctx") v' ∧ (∃ a, Since v v' (.unlink dir "bf_ctx", a)) → I v')
    (hE : ∀ r v', r ≠ .ok () → Good T v' dir c h → Q r v')
    (hK : ∀ v', v'.Tree → Undone v (.unlink dir "bf_ctx") v' → (∃ a, Since v v' (.unlink dir "bf_ctx", a)) → Q (.ok ()) v') :
    Safe I Q (dropOld dir) v := by
  unfold dropOld
  have o0 : Open dir [] v v := Open.refl v
  have hd : dir ∈ v.dirs := by
    obtain ⟨m, b, h1, _⟩ := hg.ctx
    exact K.Tree.mem ht h1
  have IO : ∀ v' ids, Open dir ids v v' → I v' := fun v' ids ho => hI v' (.inl (ho.good hg))
  refine safe_try (IO v _ o0) (fun e v' hs => ?_) fun a v' hs _ => ?_
  · have hv : v' = v.log (.acquire dir) (.fail e) := hs.quiet trivial
    have hne : e ≠ .ENOENT := by
      rintro rfl
      cases hs with
      | fail hc => exact hc rfl hd
      | ok _ _ _ hok => simp only [K.ok, hd, if_true] at hok; cases hok
    have ho := o0.log (.acquire dir) (.fail e)
    have : Safe I Q (pure (.err e)) v' := ⟨by rw [hv]; exact IO _ _ ho, hE _ _ (by simp) (by rw [hv]; exact ho.good hg)⟩
    cases e <;> first | exact absurd rfl hne | exact this
  · rw [hs.quiet trivial]
    have o1 := o0.log (.acquire dir) a
    have hw1 : (v.log (.acquire dir) a).Wf := ⟨hw.fds, hw.pins⟩
    generalize v.log (.acquire dir) a = v1 at *
    refine Safe.bind (newFromDir_safe (o1.good hg).toStored (fun v' ids ho => IO v' ids (o1.trans0 ho)) (fun r v2 hr hr' _ ho => ?_) fun v2 ho => ?_)
    · have ho' := o1.trans0 ho
      obtain ⟨m, b, c1, _⟩ := (ho'.good hg).ctx
      have fin : ∀ r : Res Unit, r ≠ .ok () → Safe I Q (do void (.release dir true); pure r) v2 := fun r hr => by
        refine safe_void (IO _ _ ho') fun a' v3 hs3 => ?_
        rw [hs3.release_some c1]
        exact ⟨IO _ _ (ho'.log _ _), hE r _ hr ((ho'.log _ _).good hg)⟩
      cases r with
      | ok x => exact absurd rfl (hr x)
      | err e =>
        have := fin (.err e) (by simp)
        cases e <;> first | exact absurd rfl hr' | exact this
      | ub => exact ⟨IO _ _ ho', hE _ _ (by simp) (ho'.good hg)⟩
    · have ho' := o1.trans0 ho
      have und : ∀ x v', Undone v2 x v' → Undone v x v' := fun x v' hu => hu.earlier ho'.hist
      refine Safe.bind ?_
      rw [cgenUnload_voids]
      -- the first call is the removal of bf_ctx
      refine Safe.bind ?_
      have hcons : unloadCalls h dir = .unlink dir "bf_ctx" :: (unloadCalls h dir).tail := by simp [unloadCalls]
      have h0 : Call.unlink dir "bf_ctx" ∈ unloadCalls h dir := by rw [hcons]; simp
      have ht' : ∀ x ∈ (unloadCalls h dir).tail, x ∈ unloadCalls h dir := fun x hx => List.mem_of_mem_tail hx
      show Safe I _ (voids (unloadCalls h dir)) v2
      rw [hcons]
      refine ⟨IO _ _ ho', fun a v3 hs3 => ?_⟩
      show Safe I _ (voids (unloadCalls h dir).tail) v3
      have sin : ∃ a, Since v v3 (.unlink dir "bf_ctx", a) := by
        rcases hs3.unlink with ⟨e, rfl, rfl⟩ | ⟨rfl, rfl⟩
        · exact ⟨_, Since.now ho'.hist _ _⟩
        · exact ⟨_, Since.now (v := { v2 with pins := v2.pins.filter fun p => p.1 ≠ (dir, "bf_ctx") }) ho'.hist _ _⟩
      have hist3 : ∀ v4, Gone h dir v3 v4 → ∃ a, Since v v4 (.unlink dir "bf_ctx", a) := fun v4 hg4 => by
        obtain ⟨a, hs⟩ := sin
        exact ⟨a, hs.later hg4.hist⟩
      have II : ∀ v4, Gone h dir v3 v4 ∧ Undone v2 (.unlink dir "bf_ctx") v4 → I v4 := fun v4 h4 => hI v4 (.inr ⟨und _ _ h4.2, hist3 v4 h4.1⟩)
      refine voids_safe (J := fun v' => Gone h dir v3 v' ∧ Undone v2 (.unlink dir "bf_ctx") v') (D := fun _ _ => True)
        ⟨Gone.refl _ _, Undone.est h0 (Gone.refl _ _) hs3⟩ (fun x hx v4 a v5 h4 hs => ⟨h4.1.step (ht' x hx) hs, h4.2.keep (ht' x hx) hs⟩)
        (fun _ _ _ _ _ _ _ => trivial) (fun _ _ _ _ _ _ _ _ _ _ => trivial) II fun v4 h4 _ => ?_
      have t3 : v3.Tree := ((Gone.refl h v2).step h0 hs3).tree (ho'.tree ht)
      refine ⟨II v4 h4, safe_void (II v4 h4) fun a v5 hs5 => ?_⟩
      have hr := hs5.released
      have hu5 : Undone v (.unlink dir "bf_ctx") v5 := (und _ _ h4.2).released hr
      have hs5' : ∃ a, Since v v5 (.unlink dir "bf_ctx", a) := by
        obtain ⟨a, hs⟩ := hist3 v4 h4.1
        exact ⟨a, hs.later hr.hist⟩
      have i5 : I v5 := hI v5 (.inr ⟨hu5, hs5'⟩)
      refine Safe.bind (free_unloaded (c := ⟨c, h⟩) i5 ⟨i5, hK v5 (hr.tree (h4.1.tree t3)) hu5 hs5'⟩)

/-- The same when there is no chain. -/
theorem dropOld_none {Q : Res Unit → K → Prop} (ht : v.Tree) (hn : v.pinned dir "bf_ctx" = none)
    (hI : ∀ v', (∀ d n, v'.pinned d n = v.pinned d n) → v'.objs = v.objs → (∃ g, v'.hist = g ++ v.hist) → I v')
    (hQ : ∀ r v', v'.Tree → (∀ d n, v'.pinned d n = v.pinned d n) → v'.objs = v.objs → (∃ g, v'.hist = g ++ v.hist) → Q r v') : Safe I Q (dropOld dir) v := by
  unfold dropOld
  have both : ∀ r v', v'.Tree → (∀ d n, v'.pinned d n = v.pinned d n) → v'.objs = v.objs → (∃ g, v'.hist = g ++ v.hist) → I v' ∧ Q r v' :=
    fun r v' a b c d => ⟨hI v' b c d, hQ r v' a b c d⟩
  refine safe_quiet trivial (hI v (fun _ _ => rfl) rfl ⟨[], rfl⟩) (fun e a => ?_) fun a => ?_
  · have : ∀ r, Safe I Q (pure r) (v.log (.acquire dir) a) := fun r => both r _ ht (fun _ _ => rfl) rfl ⟨[_], rfl⟩
    cases e <;> exact this _
  · refine Safe.bind (newFromDir_none hn (hI _ (fun _ _ => rfl) rfl ⟨[_], rfl⟩) fun e b => ⟨hI _ (fun _ _ => rfl) rfl ⟨[_, _], rfl⟩, ?_⟩)
    have fin : ∀ r : Res Unit, Safe I Q (do void (.release dir true); pure r) ((v.log (.acquire dir) a).log (.get dir "bf_ctx") b) := fun r => by
      refine safe_void (hI _ (fun _ _ => rfl) rfl ⟨[_, _], rfl⟩) fun a' v3 hs3 => ?_
      have hr := hs3.released
      exact both r v3 (hr.tree ht) (fun d n => hr.pinned d n) hr.objs (hist_trans ⟨[_, _], rfl⟩ hr.hist)
    cases e <;> exact fin _

/-- From `v0` to `v`, only directory `dir` changed; objects were created. -/
structure Beside (dir : String) (v0 v : K) : Prop where
  objs : ∃ new, v.objs = v0.objs ++ new
  dirs : ∀ d, d ≠ dir → (d ∈ v.dirs ↔ d ∈ v0.dirs)
  hist : ∃ g, v.hist = g ++ v0.hist
  other : ∀ d n, d ≠ dir → v.pinned d n = v0.pinned d n

theorem Grew.beside (h : Grew v0 v) : Beside dir v0 v := ⟨h.objs, fun d _ => by rw [h.dirs], h.hist, fun d n _ => h.pinned d n⟩
theorem Elsewhere.beside (h : Elsewhere dir v0 v) : Beside dir v0 v := ⟨h.objs, fun d _ => by rw [h.dirs], h.hist, h.other⟩
theorem Released.beside (h : Released dir v0 v) : Beside dir v0 v := by
  refine ⟨⟨[], by rw [h.objs, List.append_nil]⟩, fun d hd => ?_, h.hist, fun d n _ => h.pinned d n⟩
  rcases h.dirs with e | ⟨_, e⟩
  · rw [e]
  · rw [e, List.mem_filter]; simp [hd]
theorem Beside.trans {a b c : K} (h : Beside dir a b) (h' : Beside dir b c) : Beside dir a c := by
  obtain ⟨n1, e1⟩ := h.objs
  obtain ⟨n2, e2⟩ := h'.objs
  exact ⟨⟨n1 ++ n2, by rw [e2, e1, List.append_assoc]⟩, fun d hd => (h'.dirs d hd).trans (h.dirs d hd), hist_trans h.hist h'.hist,
    fun d n hd => (h'.other d n hd).trans (h.other d n hd)⟩

/-- The link of a chain that was put is the requested one, and is new. -/
structure LinkAs (c : Chain) (o : Option HookOpts) (v : K) (h : Handle) : Prop where
  some : h.link.isSome = o.isSome
  opts : ∀ l x, h.link = Option.some l → o = Option.some x → l.d.hook = c.hook ∧ l.d.opts = x
  new : ∀ x ∈ h.linkFds, v.objs.length ≤ x

/-- A chain is put in a new directory. -/
theorem putNew_safe {Q : Res Unit → K → Prop} {o : Option HookOpts} (ht : v.Tree) (hc : Packable chain) (hf : Fits T chain) (hcp : chainCopy chain = .ok chain)
    (ho : ∀ x, o = some x → OptsOk x)
    (hI : ∀ v', Beside chain.name v v' → ((∀ n, v'.pinned chain.name n = v.pinned chain.name n) ∨
      (chain.name ∉ v.dirs ∧ (v'.pinned chain.name "bf_ctx" = none ∨ Restorable T v' chain.name chain))) → I v')
    (hE : ∀ r v', r ≠ .ok () → Beside chain.name v v' → ((∀ n, v'.pinned chain.name n = v.pinned chain.name n) ∨
      (chain.name ∉ v.dirs ∧ v'.pinned chain.name "bf_ctx" = none ∧ Bad v v')) → Q r v')
    (hK : ∀ h v', Beside chain.name v v' → chain.name ∉ v.dirs → Good T v' chain.name chain h → LinkAs chain o v h →
      (Bad v v' ∨ ∀ n o, v'.pinned chain.name n = some o → n = "bf_ctx" ∨ h.names n) → Q (.ok ()) v') :
    Safe I Q (putNew T chain o) v := by
  have quiet : ∀ v', Keep v v' → I v' := fun v' hk => hI v' hk.grew.beside (.inl fun n => hk.grew.pinned _ _)
  have err : ∀ r v', r ≠ .ok () → Keep v v' → I v' ∧ Q r v' := fun r v' hr hk =>
    ⟨quiet v' hk, hE r v' hr hk.grew.beside (.inl fun n => hk.grew.pinned _ _)⟩
  have k0 := Keep.refl v
  unfold putNew copyChain
  refine Safe.bind (safe_quiet trivial (quiet v k0) (fun e a => ?_) fun a => ?_)
  · exact ⟨quiet _ (k0.log _ _), err _ _ (by simp) (k0.log _ _)⟩
  have k1 := k0.log .alloc a
  have t1 : (v.log .alloc a).Tree := ht
  generalize v.log .alloc a = v1 at *
  refine ⟨quiet _ k1, ?_⟩
  rw [hcp]
  dsimp only
  refine Safe.bind ?_
  have opts : Safe I (fun r v' => Keep v v' ∧ v'.Tree) (copyOpts o) v1 := by
    cases o with
    | none => exact ⟨quiet _ k1, k1, t1⟩
    | some x =>
      refine ⟨quiet _ k1, fun a v' hs => ?_⟩
      rw [hs.quiet trivial]
      have : ∀ r : Res Unit, Safe I (fun r v' => Keep v v' ∧ v'.Tree) (.ret r) (v1.log .alloc a) := fun r => ⟨quiet _ (k1.log _ _), k1.log _ _, t1⟩
      exact this _
  refine opts.mono (fun _ h => h) fun r v2 _ ⟨k2, t2⟩ => ?_
  cases r with
  | err e => exact err _ _ (by simp) k2
  | ub => exact err _ _ (by simp) k2
  | ok u =>
    unfold cgenNew
    refine Safe.bind (safe_quiet trivial (quiet _ k2) (fun e a => ?_) fun a => ?_)
    · exact ⟨quiet _ (k2.log _ _), err _ _ (by simp) (k2.log _ _)⟩
    have k3 := k2.log .alloc a
    have t3 : (v2.log .alloc a).Tree := t2
    generalize v2.log .alloc a = v3 at *
    refine ⟨quiet _ k3, ?_⟩
    dsimp only
    refine safe_try (quiet _ k3) (fun e v4 hs => ?_) fun a v4 hs hne => ?_
    · rcases hs.create with ⟨e', _, rfl⟩ | ⟨he, _⟩
      · exact err _ _ (by simp) (k3.log _ _)
      · cases he
    · rcases hs.create with ⟨e', he, _⟩ | ⟨rfl, hd, rfl⟩
      · exact absurd he (hne _)
      · have hd0 : chain.name ∉ v.dirs := by rw [← k3.grew.dirs]; exact hd
        have free : ∀ n, v3.pinned chain.name n = none := K.Tree.free t3 hd
        have free0 : ∀ n, v.pinned chain.name n = none := K.Tree.free ht hd0
        have b4 : Beside chain.name v (({ v3 with dirs := chain.name :: v3.dirs } : K).log (.create chain.name) .done) :=
          k3.grew.beside.trans ⟨⟨[], by simp [K.log]⟩, fun d hd => by simp [K.log, hd], ⟨[_], rfl⟩, fun _ _ _ => rfl⟩
        have len4 : v.objs.length ≤ (({ v3 with dirs := chain.name :: v3.dirs } : K).log (.create chain.name) .done).objs.length := by
          obtain ⟨new, e⟩ := b4.objs
          rw [e]; simp
        have free4 : ∀ n, (({ v3 with dirs := chain.name :: v3.dirs } : K).log (.create chain.name) .done).pinned chain.name n = none := free
        generalize (({ v3 with dirs := chain.name :: v3.dirs } : K).log (.create chain.name) .done) = v4 at *
        -- what follows
        have fin : ∀ (r : Res Unit) (c : Cgen) v5, Beside chain.name v v5 →
            ((r ≠ .ok () ∧ v5.pinned chain.name "bf_ctx" = none ∧ (Bad v v5 ∨ ∀ n, v5.pinned chain.name n = none)) ∨
              (r = .ok () ∧ ∃ h, Good T v5 chain.name chain h ∧ LinkAs chain o v h ∧ (Bad v v5 ∨ ∀ n o, v5.pinned chain.name n = some o → n = "bf_ctx" ∨ h.names n))) →
            Safe I Q (do cgenFree c; void (.release chain.name true); pure r) v5 := by
          intro r c v5 h5 hr
          have I5 : ∀ v6, Beside chain.name v5 v6 → v6.objs = v5.objs → (∀ n, v6.pinned chain.name n = v5.pinned chain.name n) → I v6 := by
            intro v6 h6 eo ep
            refine hI v6 (h5.trans h6) (.inr ⟨hd0, ?_⟩)
            rcases hr with ⟨_, hr, _⟩ | ⟨_, h, hr, _⟩
            · exact .inl ((ep _).trans hr)
            · exact .inr ⟨h, hr.keep (fun _ _ h => by rw [eo]; exact h) ep⟩
          refine Safe.bind (cgenFree_closed (fun v6 os hc => I5 v6 hc.grew.beside hc.objs fun n => hc.grew.pinned _ _) fun v6 hc => ?_)
          have ep6 : ∀ n, v6.pinned chain.name n = v5.pinned chain.name n := fun n => hc.grew.pinned _ _
          refine safe_void (I5 v6 hc.grew.beside hc.objs ep6) fun a v7 hs => ?_
          have hrel := hs.released
          have eo7 : v7.objs = v5.objs := hrel.objs.trans hc.objs
          have ep7 : ∀ n, v7.pinned chain.name n = v5.pinned chain.name n := fun n => (hrel.pinned _ n).trans (ep6 n)
          have h7 : Beside chain.name v5 v7 := hc.grew.beside.trans hrel.beside
          refine ⟨I5 v7 h7 eo7 ep7, ?_⟩
          rcases hr with ⟨hne, hr, hl⟩ | ⟨rfl, h, hr, hl, ho⟩
          · refine hE r v7 hne (h5.trans h7) ?_
            rcases hl with hl | hl
            · exact .inr ⟨hd0, (ep7 _).trans hr, hl.later h7.hist⟩
            · exact .inl fun n => by rw [ep7, hl, free0]
          · exact hK h v7 (h5.trans h7) hd0 (hr.keep (fun _ _ h => by rw [eo7]; exact h) ep7) hl
              (ho.imp (fun h => h.later h7.hist) fun h n o e => h n o (by rw [← ep7]; exact e))
        have set := cgenSet_safe (I := I) (Q := fun x v5 => (x.2 ≠ .ok () ∧ Elsewhere chain.name v4 v5 ∧ v5.pinned chain.name "bf_ctx" = none) ∨
            (x.2 = .ok () ∧ ∃ h, x.1.handle = h ∧ Elsewhere chain.name v4 v5 ∧ Good T v5 chain.name chain h ∧ LinkAs chain o v h)) hc hf hcp ho free4
          (fun v5 he h5 => hI v5 (b4.trans he.beside) (.inr ⟨hd0, h5⟩)) (fun c' r v5 hr he h5 => .inl ⟨hr, he, h5⟩)
          fun h v5 he hg hl1 hl2 hl3 => .inr ⟨rfl, h, rfl, he, hg, hl1, hl2, fun x hx => Nat.le_trans len4 (hl3 x hx)⟩
        refine Safe.bind (Safe.mono (set.and (cgenSet_left free4)) (fun _ h => h.1) ?_)
        rintro ⟨c', r⟩ v5 _ ⟨⟨hr, he, h5⟩ | ⟨hr, h, rfl, he, hg, hl⟩, hleft⟩
        · refine fin r c' v5 (b4.trans he.beside) (.inl ⟨hr, h5, ?_⟩)
          refine (hleft.1 hr).pins.imp (fun h => h.earlier b4.hist) fun h n => ?_
          cases e : v5.pinned chain.name n with
          | none => rfl
          | some o => exact (h n o e).elim
        · exact fin r c' v5 (b4.trans he.beside) (.inr ⟨hr, _, hg, hl, (hleft.2 hr).pins.imp (fun h => h.earlier b4.hist) id⟩)

/-- What holds during `bf_chain_set` over a chain that is there: it is untouched, until its removal begins; then there is no chain, or the new one. -/
def Setting (T : Target) (v0 : K) (old : Chain) (h : Handle) (new : Chain) (v : K) : Prop :=
  Good T v new.name old h ∨ ((∃ a, Since v0 v (.unlink new.name "bf_ctx", a)) ∧
    (v.pinned new.name "bf_ctx" = none ∨ Restorable T v new.name new ∨ KeptCtx new.name v0 v))

theorem Undone.ctx (h : Undone v0 (.unlink dir "bf_ctx") v) : v.pinned dir "bf_ctx" = none ∨ KeptCtx dir v0 v := h

theorem chainSet_safe {Q : Res Unit → K → Prop} {o : Option HookOpts} {c : Chain} {h : Handle} (hw : v.Wf) (ht : v.Tree) (hg : Good T v chain.name c h)
    (hc : Packable chain) (hf : Fits T chain) (hcp : chainCopy chain = .ok chain) (ho : ∀ x, o = some x → OptsOk x)
    (hI : ∀ v', Setting T v c h chain v' → I v')
    (hE : ∀ r v', r ≠ .ok () → (Good T v' chain.name c h ∨ ((∃ a, Since v v' (.unlink chain.name "bf_ctx", a)) ∧
      (v'.pinned chain.name "bf_ctx" = none ∨ KeptCtx chain.name v v'))) → Q r v')
    (hK : ∀ h v', Good T v' chain.name chain h → (h.link.isSome = o.isSome) →
      (∀ l x, h.link = some l → o = some x → l.d.hook = chain.hook ∧ l.d.opts = x) → Q (.ok ()) v') :
    Safe I Q (chainSet T chain o) v := by
  unfold chainSet
  have o0 : Open chain.name [] v v := Open.refl v
  refine safe_quiet trivial (hI v (.inl hg)) (fun e a => ?_) fun a => ?_
  · have g := (o0.log .lockInit a).good hg
    exact ⟨hI _ (.inl g), hE _ _ (by simp) (.inl g)⟩
  have g1 := (o0.log .lockInit a).good hg
  have o1 := o0.log .lockInit a
  have w1 : (v.log .lockInit a).Wf := ⟨hw.fds, hw.pins⟩
  have t1 : (v.log .lockInit a).Tree := ht
  generalize v.log .lockInit a = v1 at *
  have sin : ∀ v', (∃ a, Since v1 v' (.unlink chain.name "bf_ctx", a)) → ∃ a, Since v v' (.unlink chain.name "bf_ctx", a) := fun v' ⟨a, h⟩ => ⟨a, h.earlier o1.hist⟩
  refine Safe.bind (dropOld_safe w1 t1 g1 (fun v' hv => ?_) (fun r v' hr hv => ?_) fun v2 t2 hu hs => ?_)
  · rcases hv with hv | ⟨hu, hs⟩
    · exact hI v' (.inl hv)
    · exact hI v' (.inr ⟨sin _ hs, (hu.earlier o1.hist).ctx.imp id .inr⟩)
  · cases r with
    | ok u => exact absurd rfl hr
    | err e => exact ⟨hI v' (.inl hv), hE _ v' (by simp) (.inl hv)⟩
    | ub => exact ⟨hI v' (.inl hv), hE _ v' (by simp) (.inl hv)⟩
  · have hu' := hu.earlier o1.hist
    have hs' := sin _ hs
    have sl : ∀ v', (∃ g, v'.hist = g ++ v2.hist) → ∃ a, Since v v' (.unlink chain.name "bf_ctx", a) := fun v' h => by
      obtain ⟨a, e⟩ := hs'
      exact ⟨a, e.later h⟩
    have kept : ∀ v', (∃ g, v'.hist = g ++ v2.hist) → v'.pinned chain.name "bf_ctx" = v2.pinned chain.name "bf_ctx" →
        v'.pinned chain.name "bf_ctx" = none ∨ KeptCtx chain.name v v' := fun v' h e => by
      rcases hu'.ctx with hn | hk
      · exact .inl (e.trans hn)
      · exact .inr (hk.later h)
    refine putNew_safe t2 hc hf hcp ho (fun v' hh hv => ?_) (fun r v' hr hh hv => ?_) fun h v' _ _ hg hl _ => hK h v' hg hl.some hl.opts
    · refine hI v' (.inr ⟨sl v' hh.hist, ?_⟩)
      rcases hv with e | ⟨_, e | e⟩
      · exact (kept v' hh.hist (e _)).imp id .inr
      · exact .inl e
      · exact .inr (.inl e)
    · refine hE r v' hr (.inr ⟨sl v' hh.hist, ?_⟩)
      rcases hv with e | ⟨_, e, _⟩
      · exact kept v' hh.hist (e _)
      · exact .inl e

/-- `bf_chain_set` when there is no chain. -/
theorem chainSet_none {Q : Res Unit → K → Prop} {o : Option HookOpts} (ht : v.Tree) (hn : v.pinned chain.name "bf_ctx" = none)
    (hc : Packable chain) (hf : Fits T chain) (hcp : chainCopy chain = .ok chain) (ho : ∀ x, o = some x → OptsOk x)
    (hI : ∀ v', v'.pinned chain.name "bf_ctx" = none ∨ Restorable T v' chain.name chain → I v')
    (hE : ∀ r v', r ≠ .ok () → v'.pinned chain.name "bf_ctx" = none → Q r v')
    (hK : ∀ h v', Good T v' chain.name chain h → (h.link.isSome = o.isSome) →
      (∀ l x, h.link = some l → o = some x → l.d.hook = chain.hook ∧ l.d.opts = x) → Q (.ok ()) v') :
    Safe I Q (chainSet T chain o) v := by
  unfold chainSet
  refine safe_quiet trivial (hI v (.inl hn)) (fun e a => ⟨hI _ (.inl hn), hE _ _ (by simp) hn⟩) fun a => ?_
  have t1 : (v.log .lockInit a).Tree := ht
  have n1 : (v.log .lockInit a).pinned chain.name "bf_ctx" = none := hn
  generalize v.log .lockInit a = v1 at *
  refine Safe.bind (dropOld_none t1 n1 (fun v' h1 _ _ => hI v' (.inl ((h1 _ _).trans n1))) fun r v2 t2 h1 _ _ => ?_)
  have n2 : v2.pinned chain.name "bf_ctx" = none := (h1 _ _).trans n1
  cases r with
  | err e => exact ⟨hI _ (.inl n2), hE _ _ (by simp) n2⟩
  | ub => exact ⟨hI _ (.inl n2), hE _ _ (by simp) n2⟩
  | ok u =>
    refine putNew_safe t2 hc hf hcp ho (fun v' _ hv => hI v' ?_) (fun r v' hr _ hv => hE r v' hr ?_) fun h v' _ _ hg hl _ => hK h v' hg hl.some hl.opts
    · rcases hv with e | ⟨_, e | e⟩
      · exact .inl ((e _).trans n2)
      · exact .inl e
      · exact .inr e
    · rcases hv with e | ⟨_, e, _⟩
      · exact (e _).trans n2
      · exact e

end Bf.Pin
