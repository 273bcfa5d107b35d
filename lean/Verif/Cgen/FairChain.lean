import Verif.Cgen.FairOps
import Verif.Props.C15_Inert
/-!
# What the operations on chains write, load and attach: chains and points that were asked for
-/
namespace Bf.Pin

variable {n : String} {α β : Type} {dir : String} {T : Target}

/-- What may be in a directory: chains, points; and what programs may be generated with. -/
structure Wish where
  chain : String → Chain → Prop
  point : String → Point → Prop
  target : Target → Prop

variable {G : Wish}

/-- A chain that can be packed, with a handle that can. -/
structure Described (G : Wish) (n : String) (c : Chain) (d : HandleD) : Prop where
  chain : G.chain n c
  packable : Packable c
  handle : HandleOk d
  points : ∀ l, d.link = some l → ∀ pt ∈ points l.hook l.opts, G.point n pt

/-- What is written is nothing, or such a chain. -/
def Wish.want (G : Wish) : Want :=
  ⟨fun n b => b = [] ∨ ∃ c d, b = cgenBytes c d ∧ Described G n c d, fun n c img m => G.chain n c ∧ ∃ T, G.target T ∧ ImageOf T c img m, G.point⟩

theorem Wish.empty : G.want.ctx n [] := .inl rfl

/-- A copy of a chain may be where the chain may be. -/
def Wish.Copies (G : Wish) : Prop := ∀ n c c', G.chain n c → chainCopy c = .ok c' → G.chain n c'

theorem packable_copy {c c' : Chain} (hp : Packable c) (h : chainCopy c = .ok c') : Packable c' := by
  have e0 := chainCopy_name h
  unfold chainCopy chainNew at h
  split at h
  · cases h
  · obtain ⟨e1, e2, e3, e4, _⟩ := checkRules_list h
    simp only [List.length_nil, Nat.zero_add, List.nil_append] at e3 e4
    have len : c'.rules.length = c.rules.length := by rw [e4]; simp
    have mem : ∀ r ∈ c'.rules, r.index < c.rules.length ∧ ∃ r0 ∈ c.rules, r.matchers = r0.matchers := by
      intro r hr
      rw [e4] at hr
      obtain ⟨i, hi, rfl⟩ := List.mem_mapIdx.mp hr
      exact ⟨hi, _, List.getElem_mem hi, rfl⟩
    obtain ⟨l1, l2, l3, l4⟩ := hp.lens
    refine ⟨by rw [e0]; exact hp.name, by rw [e3]; exact hp.setNames, by rw [e3]; exact hp.built, fun r hr m hm => ?_, fun r hr => ?_,
      by rw [e3]; exact l1, by rw [len]; exact l2, by rw [e3]; exact l3, fun r hr => ?_⟩
    · obtain ⟨_, r0, h0, e⟩ := mem r hr
      rw [e] at hm
      exact hp.payloads r0 h0 m hm
    · exact Nat.lt_trans (mem r hr).1 l2
    · obtain ⟨_, r0, h0, e⟩ := mem r hr
      rw [e]
      exact l4 r0 h0

/-- A chain that was opened, or is to be written. -/
structure CgenFit (G : Wish) (n : String) (c : Cgen) : Prop where
  chain : G.chain n c.chain
  packable : Packable c.chain
  handle : Fit G.want n c.handle

theorem CgenFit.ctx {c : Cgen} (h : CgenFit G n c) : G.want.ctx n (cgenBytes c.chain c.handle.d) :=
  .inr ⟨_, _, rfl, h.chain, h.packable, h.handle.ok, fun l hl => by
    simp only [Handle.d, Option.map_eq_some_iff] at hl
    obtain ⟨x, hx, rfl⟩ := hl
    exact h.handle.points x hx⟩

theorem Described.fit {c : Chain} {h : Handle} (hd : Described G n c h.d) : Fit G.want n h :=
  ⟨hd.handle, fun l hl => hd.points l.d (by simp [Handle.d, hl])⟩

theorem fair_newFromDir (hC : G.Copies) : (newFromDir dir).Fair G.want n (ROk (CgenFit G n)) := by
  have no : ∀ (r : Res Cgen), (∀ x, r ≠ .ok x) → (pure r : P (Res Cgen)).Fair G.want n (ROk (CgenFit G n)) := fun r hr => Fair.pure fun c e => absurd e (hr c)
  have err : ∀ m (r : Res Cgen), (∀ x, r ≠ .ok x) → (do void (.close m); pure r : P (Res Cgen)).Fair G.want n (ROk (CgenFit G n)) :=
    fun m r hr => Fair.bind (fair_void trivial) fun _ _ => no r hr
  unfold newFromDir
  refine Fair.bind (fair_tryId trivial) fun r _ => ?_
  split
  · next m =>
    refine ⟨trivial, fun a ha => ?_⟩
    dsimp only
    split
    · next b =>
      split
      · exact err _ _ (by simp)
      · next hb =>
        rcases ha with rfl | ⟨c0, d0, rfl, hd⟩
        · exact absurd rfl hb
        · split
          · next c d hcd =>
            rw [cgen_bytes_round hd.packable hd.handle] at hcd
            obtain ⟨c1, h1, h2⟩ := Res.bind_eq_ok hcd
            cases h2
            refine Fair.bind fair_getHandle fun x hx => ?_
            split
            · next h _ =>
              have e := hx rfl
              refine Fair.bind (fair_void trivial) fun _ _ => Fair.pure fun y hy => ?_
              cases hy
              simp only at e
              exact ⟨hC _ _ _ hd.chain h1, packable_copy hd.packable h1, Described.fit (c := c0) (h := h) (by rw [e]; exact hd)⟩
            · exact Fair.bind fair_free fun _ _ => err _ _ (by simp)
            · exact Fair.bind fair_free fun _ _ => err _ _ (by simp)
          · exact err _ _ (by simp)
          · exact err _ _ (by simp)
    · exact err _ _ (by simp)
    · exact err _ _ (by simp)
  · exact no _ (by simp)
  · exact no _ (by simp)

theorem fair_pins {p : P α} (h : p.Calls Call.plain) : p.Fair G.want n fun _ => True := Fair.of_calls h

theorem fair_make {c : Chain} {h : Handle} (hc : G.chain n c) (hp : Packable c) (hT : G.target T) (hf : Fits T c) (hh : HandleOk h.d) (hs : h.sets = []) :
    (makeProgram T c h).Fair G.want n (Grown h) :=
  fair_makeProgram Wish.empty hh hs hp.lens.2.1 hf fun img m hm => ⟨hc, T, hT, hm⟩

theorem Grown.fit {h : Handle} {x : Handle × Res Unit} (hx : Grown h x) (hl : h.link = none) : Fit G.want n x.1 :=
  ⟨hx.1, fun l e => by rw [hx.2.1, hl] at e; cases e⟩

theorem fair_cgenSet {c : Cgen} {o : Option HookOpts} (hc : CgenFit G n c) (hn : c.handle = Handle.new) (hT : G.target T) (hf : Fits T c.chain)
    (ho : ∀ x, o = some x → OptsOk x ∧ ∀ pt ∈ points c.chain.hook x, G.point n pt) : (cgenSet T c o dir).Fair G.want n fun _ => True := by
  unfold cgenSet
  refine Fair.bind (fair_make hc.chain hc.packable hT hf (by rw [hn]; exact handleOk_new) (by rw [hn]; rfl)) fun x hx => ?_
  obtain ⟨h, r⟩ := x
  split
  · next h _ e =>
    cases e
    have hfit : Fit G.want n h := hx.fit (by rw [hn]; rfl)
    have key : ∀ y : Handle × Res Unit, Fit G.want n y.1 → (match y with
        | (h, r) => (let c : Cgen := { c with handle := h }; match r with
          | .ok _ => do
            match ← handlePin h dir with
            | .ok _ =>
              match ← persist c dir with
              | .ok _ => pure (c, .ok ())
              | e => do handleUnpin h dir; pure (c, e)
            | e => pure (c, e)
          | e => pure (c, e)) : P (Cgen × Res Unit)).Fair G.want n fun _ => True := by
      rintro ⟨h, r⟩ hy
      dsimp only
      split
      · refine Fair.bind (fair_pins plain_handlePin) fun r _ => ?_
        split
        · refine Fair.bind (fair_persist (CgenFit.ctx ⟨hc.chain, hc.packable, hy⟩)) fun r _ => ?_
          split
          · exact trivial
          · exact Fair.bind (fair_pins plain_handleUnpin) fun _ _ => trivial
        · exact trivial
      · exact trivial
    refine Fair.bind (ok := fun y => Fit G.want n y.1) ?_ fun y hy => key y hy
    split
    · next x => exact fair_handleAttach hfit (ho x rfl).1 (ho x rfl).2
    · exact hfit
  · exact trivial

theorem fair_cgenLoad {c : Cgen} (hc : CgenFit G n c) (hn : c.handle = Handle.new) (hT : G.target T) (hf : Fits T c.chain) : (cgenLoad T c dir).Fair G.want n fun _ => True := by
  unfold cgenLoad
  refine Fair.bind (fair_make hc.chain hc.packable hT hf (by rw [hn]; exact handleOk_new) (by rw [hn]; rfl)) fun x hx => ?_
  obtain ⟨h, r⟩ := x
  split
  · next h _ e =>
    cases e
    have hfit : Fit G.want n h := hx.fit (by rw [hn]; rfl)
    refine Fair.bind (fair_pins plain_handlePin) fun r _ => ?_
    split
    · refine Fair.bind (fair_persist (CgenFit.ctx ⟨hc.chain, hc.packable, hfit⟩)) fun r _ => ?_
      split
      · exact trivial
      · exact Fair.bind (fair_pins plain_handleUnpin) fun _ _ => trivial
    · exact trivial
  · exact trivial

theorem fair_cgenAttach {c : Cgen} {o : HookOpts} (hc : CgenFit G n c) (ho : OptsOk o) (hp : ∀ pt ∈ points c.chain.hook o, G.point n pt) :
    (cgenAttach c o dir).Fair G.want n fun _ => True := by
  have det : ∀ h : Handle, (handleDetach h).Fair G.want n fun _ => True := fun h => Fair.of_calls (Calls.mono tame_handleDetach Call.tame_plain)
  unfold cgenAttach
  refine Fair.bind (fair_handleAttach hc.handle ho hp) fun x hx => ?_
  obtain ⟨h, r⟩ := x
  split
  · next h _ e =>
    cases e
    dsimp only
    split
    · exact trivial
    · refine Fair.bind (fair_pins plain_linkPin) fun r _ => ?_
      split
      · refine Fair.bind (fair_persist (CgenFit.ctx ⟨hc.chain, hc.packable, hx⟩)) fun r _ => ?_
        split
        · exact trivial
        · exact Fair.bind (fair_pins plain_linkUnpin) fun _ _ => Fair.bind (det _) fun _ _ => trivial
      · exact Fair.bind (det _) fun _ _ => trivial
  · exact trivial

theorem fair_linkUpdate {l : Link} {p : Nat} (hl : LinkOk l.d) (hp : ∀ pt ∈ points l.d.hook l.d.opts, G.point n pt) :
    (linkUpdate l p).Fair G.want n fun x => LinkOk x.1.d ∧ ∀ pt ∈ points x.1.d.hook x.1.d.opts, G.point n pt := by
  unfold linkUpdate
  split
  · next hf =>
    have h1 : G.point n (.nf l.d.hook false) := hp _ (by unfold points; rw [hf]; simp)
    have h2 : G.point n (.nf l.d.hook true) := hp _ (by unfold points; rw [hf]; simp)
    unfold linkUpdateNf
    refine Fair.bind (fair_tryId (c := .linkCreate _ _) h1) fun r _ => ?_
    split
    · refine Fair.bind (fair_tryId (c := .linkCreate _ _) h2) fun r _ => ?_
      split
      · refine Fair.bind (Fair.of_reads reads_closeAll) fun _ _ => Fair.pure ⟨⟨hl.name, hl.opts.ifindex, hl.opts.cgpath, hl.opts.family, ?_⟩, ?_⟩
        · have := hl.opts.priorities
          show if l.d.opts.usedPriorities then _ else _
          cases hu : l.d.opts.usedPriorities
          · rw [hu] at this
            exact ⟨this.2, this.1⟩
          · rw [hu] at this
            exact ⟨this.2, this.1⟩
        · dsimp only
          intro pt hpt
          refine hp pt ?_
          unfold points at hpt ⊢
          rw [hf] at hpt ⊢
          exact hpt
      · exact Fair.bind (fair_void trivial) fun _ _ => Fair.pure ⟨hl, hp⟩
      · exact Fair.pure ⟨hl, hp⟩
    · exact Fair.pure ⟨hl, hp⟩
    · exact Fair.pure ⟨hl, hp⟩
  · exact Fair.bind (fair_try trivial) fun r _ => Fair.pure ⟨hl, hp⟩

theorem fair_updateFinish {c : Cgen} {chain : Chain} {h : Handle} (h1 : G.chain n c.chain) (p1 : Packable c.chain) (h2 : G.chain n chain) (p2 : Packable chain)
    (hh : Fit G.want n h) : (updateFinish c chain h dir).Fair G.want n fun _ => True := by
  unfold updateFinish
  refine Fair.bind (fair_pins plain_handlePin) fun r _ => ?_
  split
  · refine Fair.bind (fair_persist (CgenFit.ctx ⟨h1, p1, hh⟩)) fun r _ => ?_
    split
    · refine Fair.bind (fair_persist (CgenFit.ctx ⟨h2, p2, hh⟩)) fun r _ => ?_
      split
      · exact trivial
      · exact Fair.bind (fair_pins plain_handleUnpin) fun _ _ => trivial
    · exact Fair.bind (fair_pins plain_handleUnpin) fun _ _ => trivial
  · exact trivial

theorem fair_updateSwitch {c : Cgen} {chain : Chain} {new : Handle} (hc : CgenFit G n c) (h2 : G.chain n chain) (p2 : Packable chain) (hh : Fit G.want n new) :
    (updateSwitch c chain new dir).Fair G.want n fun _ => True := by
  unfold updateSwitch
  refine Fair.bind (fair_pins plain_handleUnpin) fun _ _ => ?_
  split
  · next l p hl _ =>
    refine Fair.bind (fair_linkUpdate (hc.handle.ok.link l.d (by simp [Handle.d, hl])) (hc.handle.points l hl)) fun x hx => ?_
    split
    · next l' _ =>
      refine Fair.bind (fair_updateFinish hc.chain hc.packable h2 p2 ⟨HandleOk.withLink hh.ok fun y hy => ?_, fun y hy => ?_⟩) fun _ _ => Fair.bind fair_free fun _ _ => trivial
      · cases hy; exact hx.1
      · cases hy; exact hx.2
    · exact Fair.bind (fair_pins plain_handlePin) fun _ _ => Fair.bind fair_free fun _ _ => trivial
  · exact trivial
  · exact Fair.bind (fair_updateFinish hc.chain hc.packable h2 p2 hh) fun _ _ => Fair.bind fair_free fun _ _ => trivial

theorem fair_cgenUpdate {ncpu : Nat} {c : Cgen} {chain : Chain} {keep : Bool} (hc : CgenFit G n c) (h2 : G.chain n chain) (p2 : Packable chain) (hT : G.target T) (hf : Fits T chain) :
    (cgenUpdate T ncpu c chain keep dir).Fair G.want n fun _ => True := by
  unfold cgenUpdate
  refine Fair.bind (fair_try trivial) fun r _ => ?_
  split
  · refine Fair.bind (fair_make h2 p2 hT hf handleOk_new rfl) fun x hx => ?_
    obtain ⟨new, r⟩ := x
    split
    · next new _ e =>
      cases e
      have hfit : Fit G.want n new := hx.fit rfl
      split
      · split
        · exact Fair.bind fair_free fun _ _ => trivial
        · refine Fair.bind (fair_pins plain_transfer) fun r _ => ?_
          split
          · exact fair_updateSwitch hc h2 p2 hfit
          · exact Fair.bind fair_free fun _ _ => trivial
      · exact fair_updateSwitch hc h2 p2 hfit
    · exact Fair.bind fair_free fun _ _ => trivial
  · exact trivial

theorem fair_copyChain {c : Chain} {W : Want} : (copyChain c).Fair W n (ROk fun c' => chainCopy c = .ok c') := by
  unfold copyChain
  refine Fair.bind (fair_try trivial) fun r _ => ?_
  split
  · exact Fair.pure fun c' e => e
  · exact Fair.pure (by simp [ROk])
  · exact Fair.pure (by simp [ROk])

theorem fair_copyOpts {o : Option HookOpts} {W : Want} : (copyOpts o).Fair W n fun _ => True := Fair.of_reads reads_copyOpts

theorem fair_cgenNew {c : Chain} (hc : G.chain n c) (hp : Packable c) : (cgenNew c).Fair G.want n (ROk fun x => CgenFit G n x ∧ x.chain = c ∧ x.handle = Handle.new) := by
  unfold cgenNew
  refine Fair.bind (fair_try trivial) fun r _ => ?_
  split
  · exact Fair.pure fun x e => by cases e; exact ⟨⟨hc, hp, Fit.new⟩, rfl, rfl⟩
  · exact Fair.pure (by simp [ROk])
  · exact Fair.pure (by simp [ROk])

theorem fair_withChain {wr : Bool} {f : P (Res α)} {ok : α → Prop} {W : Want} (hf : f.Fair W n (ROk ok)) : (withChain dir wr f).Fair W n (ROk ok) := by
  unfold withChain
  refine Fair.bind (fair_try trivial) fun r _ => ?_
  split
  · refine Fair.bind (fair_try trivial) fun r _ => ?_
    split
    · exact Fair.bind hf fun r hr => Fair.bind (fair_void trivial) fun _ _ => Fair.pure hr
    · exact Fair.pure (by simp [ROk])
    · exact Fair.pure (by simp [ROk])
  · exact Fair.pure (by simp [ROk])
  · exact Fair.pure (by simp [ROk])

theorem fair_withCgen (hC : G.Copies) {f : Cgen → P (Cgen × Res α)} {ok : α → Prop} (hf : ∀ c, CgenFit G n c → (f c).Fair G.want n fun x => ROk ok x.2) :
    (withCgen dir f).Fair G.want n (ROk ok) := by
  unfold withCgen
  refine Fair.bind (fair_newFromDir hC) fun r hr => ?_
  split
  · next c => exact Fair.bind (hf c (hr c rfl)) fun x hx => Fair.bind fair_free fun _ _ => Fair.pure hx
  · exact Fair.pure (by simp [ROk])
  · exact Fair.pure (by simp [ROk])

theorem rok_true {r : Res α} : ROk (fun _ => True) r := fun _ _ => trivial

/-- Where a chain with some options is attached. -/
def Attaches (G : Wish) (n : String) (c : Chain) (o : Option HookOpts) : Prop := ∀ x, o = some x → OptsOk x ∧ ∀ pt ∈ points c.hook x, G.point n pt

theorem copy_hook {c c' : Chain} (h : chainCopy c = .ok c') : c'.hook = c.hook ∧ c'.sets = c.sets := by
  unfold chainCopy chainNew at h
  split at h
  · cases h
  · obtain ⟨e1, e2, e3, e4, _⟩ := checkRules_list h
    exact ⟨e1, e3⟩

theorem fits_copy {c c' : Chain} (hf : Fits T c) (h : chainCopy c = .ok c') : Fits T c' := by
  have e := (copy_hook h).2
  exact ⟨hf.printed, by rw [e]; exact hf.groups, by rw [e]; exact hf.elems⟩

theorem fair_putNew (hC : G.Copies) {c : Chain} {o : Option HookOpts} (hc : G.chain n c) (hp : Packable c) (hT : G.target T) (hf : Fits T c) (ho : Attaches G n c o) :
    (putNew T c o).Fair G.want n fun _ => True := by
  unfold putNew
  refine Fair.bind fair_copyChain fun r hr => ?_
  split
  · next c' =>
    have hcp := hr c' rfl
    refine Fair.bind fair_copyOpts fun r _ => ?_
    split
    · refine Fair.bind (fair_cgenNew (hC _ _ _ hc hcp) (packable_copy hp hcp)) fun r hr => ?_
      split
      · next x =>
        obtain ⟨h1, h2, h3⟩ := hr x rfl
        refine Fair.bind (fair_try trivial) fun r _ => ?_
        split
        · refine Fair.bind (fair_cgenSet h1 h3 hT (by rw [h2]; exact fits_copy hf hcp) fun y hy => ?_) fun _ _ =>
            Fair.bind fair_free fun _ _ => Fair.bind (fair_void trivial) fun _ _ => trivial
          rw [h2, (copy_hook hcp).1]
          exact ho y hy
        · exact trivial
      · exact trivial
      · exact trivial
    · exact trivial
  · exact trivial
  · exact trivial

theorem fair_dropOld (hC : G.Copies) : (dropOld dir).Fair G.want n fun _ => True := by
  unfold dropOld
  refine Fair.bind (fair_try trivial) fun r _ => ?_
  split
  · refine Fair.bind (fair_newFromDir hC) fun r _ => ?_
    split
    · exact Fair.bind (Fair.of_calls (Calls.mono tame_cgenUnload Call.tame_plain)) fun _ _ => Fair.bind (fair_void trivial) fun _ _ => Fair.bind fair_free fun _ _ => trivial
    · exact Fair.bind (fair_void trivial) fun _ _ => trivial
    · exact Fair.bind (fair_void trivial) fun _ _ => trivial
    · exact trivial
  · exact trivial
  · exact trivial

theorem fair_chainSet (hC : G.Copies) {c : Chain} {o : Option HookOpts} (hc : G.chain n c) (hp : Packable c) (hT : G.target T) (hf : Fits T c) (ho : Attaches G n c o) :
    (chainSet T c o).Fair G.want n fun _ => True := by
  unfold chainSet
  refine Fair.bind (fair_try trivial) fun r _ => ?_
  split
  · refine Fair.bind (fair_dropOld hC) fun r _ => ?_
    split
    · exact fair_putNew hC hc hp hT hf ho
    · exact trivial
  · exact trivial

theorem fair_chainLoad (hC : G.Copies) {c : Chain} (hc : G.chain n c) (hp : Packable c) (hT : G.target T) (hf : Fits T c) : (chainLoad T c).Fair G.want n fun _ => True := by
  unfold chainLoad
  refine Fair.bind (fair_try trivial) fun r _ => ?_
  split
  · refine Fair.bind (fair_try trivial) fun r _ => ?_
    split
    · refine Fair.bind (ok := fun _ => True) ?_ fun _ _ => Fair.bind (fair_void trivial) fun _ _ => trivial
      refine Fair.bind fair_copyChain fun r hr => ?_
      split
      · next c' =>
        have hcp := hr c' rfl
        refine Fair.bind (fair_cgenNew (hC _ _ _ hc hcp) (packable_copy hp hcp)) fun r hr => ?_
        split
        · next x =>
          obtain ⟨h1, h2, h3⟩ := hr x rfl
          exact Fair.bind (fair_cgenLoad h1 h3 hT (by rw [h2]; exact fits_copy hf hcp)) fun _ _ => Fair.bind fair_free fun _ _ => trivial
        · exact trivial
        · exact trivial
      · exact trivial
      · exact trivial
    · exact trivial
  · exact trivial

theorem fair_chainAttach (hC : G.Copies) {o : HookOpts} (ho : OptsOk o) (hp : ∀ c, G.chain n c → ∀ pt ∈ points c.hook o, G.point n pt) :
    (chainAttach dir o).Fair G.want n fun _ => True := by
  unfold chainAttach
  refine Fair.mono (fair_withChain (ok := fun _ => True) (fair_withCgen hC fun c hc => ?_)) fun _ _ => trivial
  have any : ∀ {p : P (Cgen × Res Unit)}, (p.Fair G.want n fun _ => True) → p.Fair G.want n fun x => ROk (fun _ => True) x.2 := fun h => Fair.mono h fun _ _ => rok_true
  split
  · exact Fair.pure rok_true
  · split
    · refine Fair.bind fair_copyOpts fun r _ => ?_
      split
      · exact any (fair_cgenAttach hc ho (hp _ hc.chain))
      · exact Fair.pure rok_true
    · exact Fair.pure rok_true

theorem fair_chainUpdate (hC : G.Copies) {ncpu : Nat} {c : Chain} (hc : G.chain n c) (hp : Packable c) (hT : G.target T) (hf : Fits T c) :
    (chainUpdate T ncpu c).Fair G.want n fun _ => True := by
  unfold chainUpdate
  refine Fair.mono (fair_withChain (ok := fun _ => True) (fair_withCgen hC fun x hx => ?_)) fun _ _ => trivial
  refine Fair.bind fair_copyChain fun r hr => ?_
  split
  · next c' =>
    have hcp := hr c' rfl
    exact Fair.mono (fair_cgenUpdate hx (hC _ _ _ hc hcp) (packable_copy hp hcp) hT (fits_copy hf hcp)) fun _ _ => rok_true
  · exact Fair.pure rok_true
  · exact Fair.pure rok_true

theorem fair_chainUpdateSet (hC : G.Copies) {ncpu : Nat} {a r : BSet} (hT : G.target T)
    (hu : ∀ c new, G.chain n c → Packable c → updateSet c a r = .ok new → G.chain n new ∧ Packable new ∧ Fits T new) : (chainUpdateSet T ncpu dir a r).Fair G.want n fun _ => True := by
  unfold chainUpdateSet
  refine Fair.mono (fair_withChain (ok := fun _ => True) (fair_withCgen hC fun x hx => ?_)) fun _ _ => trivial
  refine Fair.bind (fair_try trivial) fun r _ => ?_
  split
  · split
    · next new hn =>
      obtain ⟨h1, h2, h3⟩ := hu _ _ hx.chain hx.packable hn
      exact Fair.mono (fair_cgenUpdate hx h1 h2 hT h3) fun _ _ => rok_true
    · exact Fair.pure rok_true
    · exact Fair.pure rok_true
  · exact Fair.pure rok_true

theorem fair_chainFlush (hC : G.Copies) : (chainFlush dir).Fair G.want n fun _ => True := by
  unfold chainFlush
  refine Fair.mono (fair_withChain (ok := fun _ => True) (fair_withCgen hC fun x hx => ?_)) fun _ _ => trivial
  exact Fair.bind (Fair.of_calls (Calls.mono tame_cgenUnload Call.tame_plain)) fun _ _ => Fair.pure rok_true

/-- What is reported of a chain that was opened. -/
theorem fair_chainGetOpen {W : Want} {c : Cgen} : (chainGetOpen c).Fair W n (ROk fun g => g.chain = c.chain ∧ g.opts = c.handle.link.map (·.d.opts)) := by
  unfold chainGetOpen
  refine Fair.bind (Fair.of_reads reads_loadRuleCounters) fun r _ => ?_
  split
  · refine Fair.bind (Fair.of_reads reads_cgenGetCounter) fun r _ => ?_
    split
    · refine Fair.bind (Fair.of_reads reads_cgenGetCounter) fun r _ => ?_
      split
      · refine Fair.bind fair_copyOpts fun r _ => ?_
        split
        · exact Fair.pure fun g e => by cases e; exact ⟨rfl, rfl⟩
        · exact Fair.pure (by simp [ROk])
        · exact Fair.pure (by simp [ROk])
      · exact Fair.pure (by simp [ROk])
      · exact Fair.pure (by simp [ROk])
    · exact Fair.pure (by simp [ROk])
    · exact Fair.pure (by simp [ROk])
  · exact Fair.pure (by simp [ROk])
  · exact Fair.pure (by simp [ROk])

theorem fair_chainGet (hC : G.Copies) : (chainGet dir).Fair G.want n (ROk fun g => G.chain n g.chain) := by
  unfold chainGet
  refine fair_withChain (fair_withCgen hC fun x hx => ?_)
  exact Fair.bind fair_chainGetOpen fun r hr => Fair.pure fun g e => by show G.chain n g.chain; rw [(hr g e).1]; exact hx.chain

/-! All chains. -/

theorem Led.of_tame_fair {W : Want} {ok : α → Prop} {t : Tags} {p : P α} (h : p.Calls Call.tame) (hf : p.Fair (W := ⟨fun _ _ => True, fun _ _ _ _ => True, fun _ _ => True⟩) n ok) :
    p.Led W ok t := by
  induction p with
  | ret a => exact hf
  | call c k ih => exact .inr ⟨h.1, fun a => ih a (h.2 a) (hf.2 a (by unfold Call.Told; split <;> trivial))⟩

theorem led_getCgensLoop (hC : G.Copies) : ∀ {ns : List String} {t : Tags}, (getCgensLoop ns).Led G.want (fun cs => ∀ c ∈ cs, ∃ n, CgenFit G n c) t
  | [], _ => by simp [getCgensLoop, pure, P.Led]
  | n :: ns, t => by
    have nil : ∀ t, (pure [] : P (List Cgen)).Led G.want (fun cs => ∀ c ∈ cs, ∃ n, CgenFit G n c) t := fun t => by simp [pure, P.Led]
    unfold getCgensLoop
    refine .inr ⟨rfl, fun a => ?_⟩
    dsimp only
    split
    · exact nil _
    · split
      · exact led_getCgensLoop hC
      · refine Led.bind (Led.of_reads (calls_try rfl)) fun r t _ => ?_
        split
        · refine Led.bind (Led.of_fair (n := n) (fun S _ => Within.mono (within_newFromDir rfl) fun _ _ => trivial) (fair_newFromDir hC)) fun r t hr => ?_
          split
          · next c =>
            refine Led.bind (Led.of_reads (calls_void rfl)) fun _ t _ => ?_
            refine Led.bind (led_getCgensLoop hC) fun cs t hcs => ?_
            intro x hx
            rcases List.mem_cons.mp hx with rfl | hx
            · exact ⟨n, hr x rfl⟩
            · exact hcs x hx
          · exact Led.bind (Led.of_reads (calls_void rfl)) fun _ t _ => led_getCgensLoop hC
        · exact led_getCgensLoop hC

theorem led_getCgens (hC : G.Copies) {t : Tags} : getCgens.Led G.want (ROk fun cs => ∀ c ∈ cs, ∃ n, CgenFit G n c) t := by
  refine .inr ⟨rfl, fun a => ?_⟩
  dsimp only
  split
  · exact Led.bind (led_getCgensLoop hC) fun cs t h => fun x e => by cases e; exact h
  · exact fun x e => by cases e
  · exact fun x e => by cases e

theorem fair_getAll {W : Want} : ∀ {cs : List Cgen}, (getAll cs).Fair W n (ROk fun gs => gs.map (·.chain) = cs.map (·.chain))
  | [] => Fair.pure fun gs e => by cases e; rfl
  | c :: cs => by
    unfold getAll
    refine Fair.bind fair_chainGetOpen fun r hr => ?_
    split
    · next g =>
      refine Fair.bind fair_getAll fun r hr' => ?_
      split
      · next gs => exact Fair.pure fun x e => by cases e; rw [List.map_cons, hr' gs rfl, (hr g rfl).1]; rfl
      · next hne => exact Fair.pure fun x e => absurd e (hne x)
    · exact Fair.pure (by simp [ROk])
    · exact Fair.pure (by simp [ROk])

theorem led_rulesetGet (hC : G.Copies) {t : Tags} : rulesetGet.Led G.want (ROk fun gs => ∀ g ∈ gs, ∃ n, G.chain n g.chain) t := by
  have no : ∀ {r : Res (List Got)} {t : Tags}, (∀ x, r ≠ .ok x) → (pure r : P (Res (List Got))).Led G.want (ROk fun gs => ∀ g ∈ gs, ∃ n, G.chain n g.chain) t :=
    fun hr x e => absurd e (hr x)
  unfold rulesetGet
  refine Led.bind (Led.of_reads (calls_try rfl)) fun r t _ => ?_
  split
  · refine Led.bind (led_getCgens hC) fun r t hr => ?_
    split
    · next cs =>
      have hcs := hr cs rfl
      refine Led.bind (Led.of_tame_fair (n := "") (Calls.tame reads_getAll) fair_getAll) fun r t hr => ?_
      refine Led.bind (Led.of_reads reads_freeAll) fun _ t _ => ?_
      intro gs e g hg
      have hm : g.chain ∈ gs.map (·.chain) := List.mem_map_of_mem hg
      rw [hr gs e] at hm
      obtain ⟨c, h1, h2⟩ := List.mem_map.mp hm
      obtain ⟨n, h3⟩ := hcs c h1
      exact ⟨n, by rw [← h2]; exact h3.chain⟩
    · exact no (by simp)
    · exact no (by simp)
  · exact no (by simp)
  · exact no (by simp)

theorem led_putAll (hC : G.Copies) (hT : G.target T) : ∀ {cs : List (Chain × Option HookOpts)} {t : Tags},
    (∀ x ∈ cs, G.chain x.1.name x.1 ∧ Packable x.1 ∧ Fits T x.1 ∧ Attaches G x.1.name x.1 x.2) → (putAll T cs).Led G.want (fun _ => True) t
  | [], _, _ => trivial
  | (c, o) :: cs, t, h => by
    obtain ⟨h1, h2, h3, h4⟩ := h (c, o) (by simp)
    unfold putAll
    refine Led.bind (Led.of_fair (n := c.name) (fun S _ => within_putNew rfl) (fair_putNew hC h1 h2 hT h3 h4)) fun r t _ => ?_
    split
    · exact led_putAll hC hT fun x hx => h x (List.mem_cons_of_mem _ hx)
    · exact trivial

theorem led_rulesetSet (hC : G.Copies) (hT : G.target T) {cs : List (Chain × Option HookOpts)} {t : Tags}
    (h : ∀ x ∈ cs, G.chain x.1.name x.1 ∧ Packable x.1 ∧ Fits T x.1 ∧ Attaches G x.1.name x.1 x.2) : (rulesetSet T cs).Led G.want (fun _ => True) t := by
  have hf : ∀ t, flushAll.Led G.want (fun _ => True) t := fun t => Led.of_tame tame_flushAll
  unfold rulesetSet
  refine Led.bind (Led.of_reads (calls_try rfl)) fun r t _ => ?_
  split
  · refine Led.bind (hf _) fun r t _ => ?_
    split
    · refine Led.bind (led_putAll hC hT h) fun r t _ => ?_
      split
      · exact trivial
      · exact Led.bind (hf _) fun _ _ _ => trivial
    · exact trivial
  · exact trivial

end Bf.Pin
