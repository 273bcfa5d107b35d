import Verif.Cgen.Transfer
import Verif.Props.C31_Update
/-!
# C33: counters are read as sums, and updates of sets keep them
-/
namespace Bf.Pin

variable {α : Type} {T : Target} {ncpu : Nat} {w w' : K} {dir : String} {p : Nat} {h : Handle}

/-- At an instant of an execution of `q` from `w` to `w'`, where `q'` is left, `m` is a counters map that holds `f`. -/
def HeldDuring (w : K) (q : P α) (w' : K) (q' : P α) (m : Nat) (f : Nat → List Ctr) : Prop :=
  ∃ w1 q1, Run w q w1 q1 ∧ Run w1 q1 w' q' ∧ w1.objs[m]? = some (.map (.counters f))

/-- `x` is the sum of what the CPUs counted (in 64-bit counters). -/
def IsTotal (l : List Ctr) (x : Ctr) : Prop :=
  x.1.toNat = (l.map (·.1.toNat)).sum % 2 ^ 64 ∧ x.2.toNat = (l.map (·.2.toNat)).sum % 2 ^ 64

/-- The value reported for index `i` of map `m`: the sum of what each CPU had counted at an instant of the execution. -/
def Reported (w : K) (q : P α) (w' : K) (q' : P α) (m i : Nat) (x : Ctr) : Prop := ∃ f, HeldDuring w q w' q' m f ∧ IsTotal (f i) x

theorem Reported.of {q q' : P α} {m i : Nat} {l : List Ctr} (hr : Run w q w' q') (hs : Since w w' (.ctrRead m i, .ctrs l)) :
    Reported w q w' q' m i (sumCtrs l) := by
  obtain ⟨w1, q1, f, h1, h2, h3, rfl⟩ := hr.read hs
  exact ⟨f, ⟨w1, q1, h1, h2, h3⟩, sumCtrs_nat _⟩

/-- C33, `bf_chain_get`: the chain is the one that is stored, and its counters are sums over the CPUs. -/
theorem C33_get {c : Chain} {m : BMap} {g : Got} (hw : w.Wf) (hs : Stored w dir c h) (hm : h.cmap = some m)
    (hr : Run w (chainGet dir) w' (.ret (.ok g))) :
    g.chain = c ∧ g.opts = h.link.map (·.d.opts) ∧ g.rules.length = c.rules.length ∧
    (∀ (k : Nat) (r : Rule), c.rules[k]? = some r → if r.hasCounters then
        ∃ x, g.rules[k]? = some (some x) ∧ Reported w (chainGet dir) w' (.ret (.ok g)) m.id r.index x
      else g.rules[k]? = some none) ∧
    Reported w (chainGet dir) w' (.ret (.ok g)) m.id c.rules.length g.policy ∧
    Reported w (chainGet dir) w' (.ret (.ok g)) m.id (c.rules.length + 1) g.errors := by
  have hsafe : Safe (fun _ => True) (fun r v' => ∀ g, r = .ok g → GotOk c h m.id w.erase v' g) (chainGet dir) w.erase :=
    chainGet_safe hw.erase (Stored.erase.mpr hs) hm (fun _ _ _ => trivial) (fun r v' hr _ g e => absurd e (hr g)) fun g v' _ hg g' e => by cases e; exact hg
  have hg := hsafe.end hr g rfl
  refine ⟨hg.chain, hg.opts, hg.rules.1, fun k r hk => ?_, ?_, ?_⟩
  · have := hg.rules.2 k r hk
    split at this
    · next hc =>
      obtain ⟨l, a, b⟩ := this
      rw [if_pos hc]
      exact ⟨_, b, .of hr a⟩
    · next hc => rw [if_neg hc]; exact this
  · obtain ⟨l, a, b⟩ := hg.policy
    rw [b]; exact .of hr a
  · obtain ⟨l, a, b⟩ := hg.errors
    rw [b]; exact .of hr a

theorem Run.wf {q q' : P α} (h : Run w q w' q') (hw : w.Wf) : w'.Wf := by
  induction h with
  | refl => exact hw
  | packets hp _ ih =>
    refine ih ⟨fun o ho => ?_, fun x hx => ?_⟩
    · rw [hp.len]; rw [hp.same] at ho; exact hw.fds o ho
    · rw [hp.len]; rw [hp.same] at hx; exact hw.pins x hx
  | step hs _ ih =>
    refine ih ?_
    have := hs.erase.wf hw.erase
    exact ⟨fun o ho => by have := this.fds o ho; simpa [K.erase] using this, fun x hx => by have := this.pins x hx; simpa [K.erase] using this⟩

theorem Run.seq {β : Type} {q : P α} {f : α → P β} {a : α} {w1 w2 : K} {q2 : P β} (h : Run w q w1 (.ret a)) (h' : Run w1 (f a) w2 q2) :
    Run w (q >>= f) w2 q2 := (h.bind (f := f)).trans h'

/-- An operation on a chain that exists, which succeeds. -/
theorem withStored_run {write : Bool} {f : Cgen → P (Cgen × Res α)} {c : Chain} {x : α} (hs : Stored w dir c h)
    (hr : Run w (withChain dir write (withCgen dir f)) w' (.ret (.ok x))) :
    ∃ wa wb c' k1, Open dir h.ids w.erase wa.erase ∧ Run wa (f ⟨c, h⟩) wb (.ret (c', .ok x)) ∧
      (∀ w1 p1, Run wa (f ⟨c, h⟩) w1 p1 → Run w (withChain dir write (withCgen dir f)) w1
        ((p1 >>= k1) >>= fun r => do void (.release dir write); pure r)) ∧
      k1 = (fun y : Cgen × Res α => do cgenFree y.1; pure y.2) ∧
      Run wb (k1 (c', .ok x) >>= fun r => do void (.release dir write); pure r) w' (.ret (.ok x)) := by
  have hr0 := hr
  unfold withChain at hr
  obtain ⟨r1, w1, h1, hr⟩ := Run.bind_inv hr
  cases r1 with
  | err e => cases hr.ret_inv.1
  | ub => cases hr.ret_inv.1
  | ok _ =>
  obtain ⟨r2, w2, h2, hr⟩ := Run.bind_inv hr
  cases r2 with
  | err e => cases hr.ret_inv.1
  | ub => cases hr.ret_inv.1
  | ok _ =>
  obtain ⟨r3, w3, h3, hr⟩ := Run.bind_inv hr
  have hr3 : r3 = .ok x := by
    obtain ⟨_, _, _, h⟩ := Run.bind_inv hr
    exact h.ret_inv.1
  subst hr3
  unfold withCgen at h3
  obtain ⟨r4, w4, h4, h3⟩ := Run.bind_inv h3
  have o0 : Open dir [] w.erase w.erase := Open.refl _
  have q2 : Open dir [] w.erase w2.erase := by
    have s1 : Safe (fun _ => True) (fun _ v => Open dir [] w.erase v) (try_ .lockInit) w.erase :=
      ⟨trivial, fun a v hv => ⟨trivial, by rw [hv.quiet trivial]; exact o0.log _ _⟩⟩
    have o1 := s1.end h1
    have s2 : Safe (fun _ => True) (fun _ v => Open dir [] w.erase v) (try_ (.acquire dir)) w1.erase :=
      ⟨trivial, fun a v hv => ⟨trivial, by rw [hv.quiet trivial]; exact o1.log _ _⟩⟩
    exact s2.end h2
  have s4 : Safe (fun _ => True) (fun r v => ∀ y, r = .ok y → y = ⟨c, h⟩ ∧ Open dir h.ids w2.erase v) (newFromDir dir) w2.erase :=
    newFromDir_safe (q2.stored (Stored.erase.mpr hs)) (fun _ _ _ => trivial) (fun r v' hr _ _ _ y e => absurd e (hr y))
      fun v' ho y e => by cases e; exact ⟨rfl, ho⟩
  cases r4 with
  | err e => cases h3.ret_inv.1
  | ub => cases h3.ret_inv.1
  | ok y =>
  obtain ⟨rfl, o4⟩ := s4.end h4 y rfl
  obtain ⟨z, w5, h5, h6⟩ := Run.bind_inv h3
  obtain ⟨c', r5⟩ := z
  have hr5 : r5 = .ok x := by
    obtain ⟨_, _, _, h⟩ := Run.bind_inv h6
    exact h.ret_inv.1
  subst hr5
  refine ⟨w4, w5, c', fun y => (do cgenFree y.1; pure y.2), q2.trans0 o4, h5, fun wx p1 hx => ?_, rfl, ?_⟩
  · unfold withChain
    refine h1.seq (h2.seq ?_)
    refine Run.bind (f := fun r => do void (.release dir write); pure r) ?_
    unfold withCgen
    refine h4.seq ?_
    exact Run.bind (f := fun y : Cgen × Res α => do cgenFree y.1; pure y.2) hx
  · exact Run.seq (f := fun r => do void (.release dir write); pure r) h6 hr

theorem K.Refs.of {w w' : K} (h : w.Refs) (e : w'.erase.objs = w.erase.objs) : w'.Refs := by
  have hl : w'.objs.length = w.objs.length := by have := congrArg List.length e; simpa [K.erase] using this
  intro i o ho
  cases o with
  | map => trivial
  | prog c img m =>
    have : w.objs[i]? = some (.prog c img m) := K.erase_prog.mp (by rw [← e]; exact K.erase_prog.mpr ho)
    have := h i _ this
    dsimp only at this ⊢
    rw [hl]; exact this
  | link pt q d =>
    have : w.objs[i]? = some (.link pt q d) := K.erase_link.mp (by rw [← e]; exact K.erase_link.mpr ho)
    have := h i _ this
    dsimp only at this ⊢
    rw [hl]; exact this

theorem newCounters {w : K} {m : BMap} {chain : Chain} (h : NewMap w.erase m) (hd : m.d = cmapD chain) : ∃ f, w.objs[m.id]? = some (.map (.counters f)) := by
  have := h.obj
  rw [hd, K.erase_get] at this
  cases ho : w.objs[m.id]? with
  | none => rw [ho] at this; cases this
  | some o =>
    rw [ho] at this
    cases o with
    | prog => cases this
    | link => cases this
    | map ct =>
      cases ct with
      | counters f => exact ⟨f, rfl⟩
      | bytes => cases this
      | keyed => cases this
      | other => cases this

/-- What a successful `bf_chain_update_set` did with the counters of map `m`. -/
structure Carried (T : Target) (new : Chain) (dir : String) (m : Nat) (prog : P (Res Unit)) (w w' : K) : Prop where
  /-- there is a program `q` of the new chain, made by the update, with a counters map `mn`, both pinned at the end; and an instant
  `wi`, when `q` does not run yet, such that -/
  carried : ∃ q img mn wi pi f, w'.die.pinned dir "bf_prog" = some q ∧ w'.die.pinned dir "bf_cmap" = some mn ∧
    w'.objs[q]? = some (.prog new img mn) ∧ w.objs.length ≤ q ∧ w.objs.length ≤ mn ∧
    Run w prog wi pi ∧ Run wi pi w' (.ret (.ok ())) ∧ (∀ pt, ¬ wi.runs pt q) ∧ wi.objs[mn]? = some (.map (.counters f)) ∧
    /- the total of each rule, of the policy, of errors, is what it was for the old program, at some instant before -/
    (∀ i, i < new.rules.length + 2 → ∃ f0 x, HeldDuring w prog wi pi m f0 ∧ IsTotal (f0 i) x ∧ IsTotal (f i) x) ∧
    /- from then on, no call changes the counters of the new program: only packets do -/
    ∀ (w1 : K) (call : Call) (k : Ans → P (Res Unit)) (a : Ans) (w2 : K) (f1 : Nat → List Ctr), Run wi pi w1 (.call call k) → Step w1 call a w2 →
      w1.objs[mn]? = some (.map (.counters f1)) → w2.objs[mn]? = some (.map (.counters f1))

/-- C33, `bf_chain_update_set`: from a state where the chain is stored, in every execution that succeeds. -/
theorem C33_update_set {new c : Chain} {m : BMap} {toAdd toRemove : BSet} (hw : w.Wf) (href : w.Refs) (hn : w.ncpu = ncpu) (hn0 : 0 < ncpu)
    (hs : Stored w dir c h) (hp : h.prog = some p) (hm : h.cmap = some m) (hc : updateSet c toAdd toRemove = .ok new)
    (hr : Run w (chainUpdateSet T ncpu dir toAdd toRemove) w' (.ret (.ok ()))) :
    Carried T new dir m.id (chainUpdateSet T ncpu dir toAdd toRemove) w w' := by
  obtain ⟨wa, wb, c', k1, ha, hf, hpre, ek, htail⟩ := withStored_run hs hr
  -- the update
  obtain ⟨r1, w1, h1, hf1⟩ := Run.bind_inv hf
  cases r1 with
  | err e => cases hf1.ret_inv.1
  | ub => cases hf1.ret_inv.1
  | ok _ =>
  dsimp only at hf1
  rw [hc] at hf1
  dsimp only at hf1
  unfold cgenUpdate at hf1
  obtain ⟨r2, w2, h2, hf2⟩ := Run.bind_inv hf1
  cases r2 with
  | err e => cases hf2.ret_inv.1
  | ub => cases hf2.ret_inv.1
  | ok _ =>
  obtain ⟨⟨nh, r3⟩, w3, h3, hf3⟩ := Run.bind_inv hf2
  have notfree : ∀ {r : Res Unit} {wx : K}, Run wx (do handleFree nh; pure ((⟨c, h⟩ : Cgen), r)) wb (.ret (c', .ok ())) → r = .ok () := by
    intro r wx hx
    obtain ⟨_, _, _, hy⟩ := Run.bind_inv hx
    have := hy.ret_inv.1
    cases this; rfl
  cases r3 with
  | err e => cases notfree hf3
  | ub => cases notfree hf3
  | ok _ =>
  simp only [if_true] at hf3
  split at hf3
  · cases notfree hf3
  next hlen =>
  obtain ⟨r4, w4, h4, hf4⟩ := Run.bind_inv hf3
  cases r4 with
  | err e => cases notfree hf4
  | ub => cases notfree hf4
  | ok _ =>
  dsimp only at hf4
  -- the state when the program is made
  have quiet : ∀ {wx wy : K} {r : Res Unit}, Run wx (try_ .alloc) wy (.ret r) → Keep wx.erase wy.erase ∧ wy.erase.objs = wx.erase.objs := by
    intro wx wy r hx
    have s : Safe (fun _ => True) (fun _ v => Keep wx.erase v ∧ v.objs = wx.erase.objs) (try_ .alloc) wx.erase :=
      ⟨trivial, fun a v hv => ⟨trivial, by rw [hv.quiet trivial]; exact ⟨(Keep.refl _).log _ _, rfl⟩⟩⟩
    exact s.end hx
  obtain ⟨ka1, ea1⟩ := quiet h1
  obtain ⟨ka2, ea2⟩ := quiet h2
  have e2 : w2.erase.objs = w.erase.objs := by rw [ea2, ea1, ha.objs]
  have len2 : w2.objs.length = w.objs.length := by have := congrArg List.length e2; simpa [K.erase] using this
  have ref2 : w2.Refs := href.of e2
  have n2 : w2.ncpu = ncpu := by
    have := (hpre w1 _ h1.bind).ncpu
    rw [h2.ncpu, this, hn]
  have wf2 : w2.Wf := h2.wf (h1.wf (Run.wf (hpre wa _ .refl) hw))
  -- the new program
  have s3 : Safe (Keep w2.erase) (fun x v => Keep w2.erase v ∧ (x.2 = .ok () → Ready T new v x.1 ∧ ∀ q, x.1.prog = some q → w2.erase.objs.length ≤ q))
      (makeProgram T new Handle.new) w2.erase := makeProgram_safe (fun _ hk => hk) fun _ _ _ hk _ hr => ⟨hk, hr⟩
  obtain ⟨k3, r3⟩ := s3.end h3
  obtain ⟨ready3, hq3⟩ := r3 rfl
  have wr3 : ∀ W, Wr (w2.objs.length ≤ ·) W (fun x : Handle × Res Unit => NewCmap (w2.objs.length ≤ ·) x.1) (makeProgram T new Handle.new) :=
    fun W => wr_makeProgram (by intro m hm; cases hm)
  obtain ⟨zero3, n3⟩ := fresh_zero h3 s3 (fun _ h => h) ref2 (wr3 _) (fun o ho => ho) (Nat.le_refl _)
    (fun i f hi hf => by have := (List.getElem?_eq_some_iff.mp hf).1; omega) rfl
  have newc : NewCmap (w2.objs.length ≤ ·) nh := (Wr.run h3 (wr3 fun _ => False) fun o ho => ho).2
  obtain ⟨q, img, mn, hq, hmn, hobj, hcomp⟩ := ready3.prog
  have mnge : w2.objs.length ≤ mn.id := newc mn hmn
  have mnin : mn ∈ nh.maps := by unfold Handle.maps; rw [hmn]; simp
  obtain ⟨f3, hf3⟩ := newCounters (ready3.maps mn mnin) (ready3.cmap mn hmn)
  have z3 := zero3 mn.id f3 mnge hf3
  have ct3 : Ct mn.id f3 w3 := ⟨hf3, ref2.unused k3 mnge⟩
  -- the counters are carried
  have h4' := h4
  unfold transfer at h4
  rw [if_neg (by rw [hm, hmn]; simp)] at h4
  obtain ⟨f4, ct4, _, hsum⟩ := transferLoop_run (show h.cmap = some m from hm) hmn ct3 hn0 (fun j _ => by rw [z3, n2]) h4
  have s4 : Safe (Keep w3.erase) (fun _ v => Keep w3.erase v) (transferLoop ncpu h nh 0 (new.rules.length + 2)) w3.erase :=
    transferLoop_safe (fun _ h => h) fun _ _ h => h
  have k4 : Keep w3.erase w4.erase := s4.end h4
  have hpi : Run w (chainUpdateSet T ncpu dir toAdd toRemove) w4
      (((updateSwitch ⟨c, h⟩ new nh dir) >>= k1) >>= fun r => do void (.release dir true); pure r) := by
    refine hpre w4 _ (h1.seq ?_)
    dsimp only
    rw [hc]
    dsimp only
    unfold cgenUpdate
    refine h2.seq (h3.seq ?_)
    dsimp only
    rw [if_pos rfl, if_neg hlen]
    exact h4'.seq .refl
  have hend : Run w4 (((updateSwitch ⟨c, h⟩ new nh dir) >>= k1) >>= fun r => do void (.release dir true); pure r) w' (.ret (.ok ())) :=
    (Run.bind (f := fun r => do void (.release dir true); pure r) (Run.bind (f := k1) hf4)).trans htail
  -- the end
  have ka4 : Keep wa.erase w4.erase := ((ka1.trans ka2).trans k3).trans k4
  have ready4 : Ready T new w4.erase nh := by
    obtain ⟨q, img, m, a1, a2, a3, a4⟩ := ready3.prog
    exact ⟨ready3.name, ready3.link, ⟨q, img, m, a1, a2, k4.toFrame.get a3, a4⟩, ready3.cmap, ready3.pmap, ready3.lmap, ready3.smap, ready3.sets,
      fun m hm => (ready3.maps m hm).keep k4.toFrame, ready3.logs⟩
  have wf4 : w4.Wf := hpi.wf hw
  have lena : wa.erase.objs.length = w.objs.length := by rw [ha.objs]; simp [K.erase]
  have hq2 : w.objs.length ≤ q := by have := hq3 q hq; simp [K.erase] at this; omega
  have s5 : Safe (fun _ => True) (fun x v => x.2 = .ok () → ∃ h', Placed v dir h' ∧ h' = { nh with link := h'.link })
      (updateSwitch ⟨c, h⟩ new nh dir) w4.erase :=
    updateSwitch_safe wf4.erase ka4 rfl (ha.stored (Stored.erase.mpr hs)).toPlaced hp ((Stored.erase.mpr hs).fd ha hp) ready4
      (fun q' hq' => by rw [hq] at hq'; cases hq'; rw [lena]; exact hq2)
      (fun _ _ => trivial) (fun e v' _ h => by cases h) (fun c' r v' hr _ _ h => absurd h hr) (fun h' pn v' _ hP _ _ _ _ _ _ e _ => ⟨h', hP, e⟩)
  obtain ⟨h', hP, eh⟩ := s5.end hf4 rfl
  have pins' : w'.pins = wb.pins := by
    have s6 : Safe (fun _ => True) (fun _ v => v.pins = wb.erase.pins) (k1 (c', .ok ()) >>= fun r => do void (.release dir true); pure r) wb.erase := by
      rw [ek]
      refine Safe.bind (Safe.bind (closeAll_closed (fun _ _ _ _ => trivial) fun v2 hc2 => ?_))
      refine ⟨trivial, safe_void trivial fun a v3 hs3 => ?_⟩
      rcases hs3.release with rfl | ⟨_, rfl⟩
      · exact ⟨trivial, hc2.pins⟩
      · exact ⟨trivial, hc2.pins⟩
    exact s6.end htail
  have pin' : ∀ x ∈ h'.pinList, w'.die.pinned dir x.1 = some x.2 := by
    intro x hx
    have := hP.pins x hx
    show w'.pinned dir x.1 = _
    unfold K.pinned at this ⊢
    rw [pins']; exact this
  refine ⟨q, img, mn.id, w4, _, f4, ?_, ?_, ?_, hq2, by omega, hpi, hend, fun pt hrun => ?_, ct4.obj, fun i hi => ?_, ?_⟩
  · have e : h'.progName = "bf_prog" := by rw [eh, ready3.name]; decide
    rw [← e]
    have e1 : h'.prog = some q := by rw [eh]; exact hq
    exact pin' (h'.progName, q) (by simp [Handle.pinList, e1])
  · have e : mn.d.name = "bf_cmap" := by rw [ready3.cmap mn hmn]; show objName "bf_cmap" = "bf_cmap"; decide
    rw [← e]
    refine pin' (mn.d.name, mn.id) ?_
    have : mn ∈ h'.maps := by rw [eh]; exact mnin
    simp only [Handle.pinList, List.mem_append, List.mem_map]
    exact .inl (.inr ⟨mn, this, rfl⟩)
  · exact hend.prog (K.erase_prog.mp (k4.toFrame.get hobj))
  · have h0 : wa.runs pt q := K.erase_runs.mp (ka4.runs.mp (K.erase_runs.mpr hrun))
    obtain ⟨l, hl, _⟩ := h0
    have := (href.of (w' := wa) (by rw [ha.objs])) l _ hl
    dsimp only at this
    have hla : wa.objs.length = w.objs.length := by simpa [K.erase] using lena
    omega
  · obtain ⟨l, hsince, hsum⟩ := hsum i (Nat.zero_le _) (by omega)
    have hh : ∃ g, w3.hist = g ++ w.hist := by
      have := (hpre w3 _ (h1.seq (by dsimp only; rw [hc]; dsimp only; unfold cgenUpdate; exact h2.seq h3.bind))).hist
      exact this
    obtain ⟨wr, pr, f0, g1, g2, g3, rfl⟩ := hpi.read (hsince.earlier hh)
    refine ⟨f0, sumCtrs (f0 i), ⟨wr, pr, g1, g2, g3⟩, sumCtrs_nat _, ?_⟩
    rw [← hsum]
    exact sumCtrs_nat _
  · intro wx call k a wy f1 hx hstep ho
    refine Wr.step (C := fun _ => True) (W := fun _ => False) (Q := fun _ => True) ?_ (fun _ _ => trivial) hx hstep (by simp) ho
    rw [ek]
    refine wr_bind (wr_bind (wr_updateSwitch _ _ _ _) fun _ => ?_) fun _ => ?_
    · wr
    · wr

namespace Sample

open Bf.Sample (chain set0)

/-- What the CPUs have counted: of rule 0, 3 packets and 1 packet; of the policy, 2 packets on the second CPU. -/
def counts : Nat → List Ctr
  | 0 => [(3, 300), (1, 50)]
  | 3 => [(0, 0), (2, 128)]
  | _ => [(0, 0), (0, 0)]

/-- After packets were processed. -/
def w2 : K := { w1 with objs := w1.objs.set 1 (.map (.counters counts)) }

def _root_.Bf.Pin.K.isCtrs (w : K) (o : Nat) : Bool := match w.objs[o]? with
  | some (.map (.counters _)) => true
  | _ => false

def _root_.Bf.Pin.K.progMap (w : K) (o : Nat) : Option Nat := match w.objs[o]? with
  | some (.prog _ _ m) => some m
  | _ => none

/-- The program of a chain counts. -/
theorem packets_of {w : K} {m q : Nat} {pt : Point} {g : Nat → List Ctr} (h1 : w.isCtrs m = true) (h5 : w.progMap q = some m) (hr : w.runs pt q) :
    Packets w { w with objs := w.objs.set m (.map (.counters g)) } := by
  have h1 : ∃ f, w.objs[m]? = some (.map (.counters f)) := by
    unfold K.isCtrs at h1
    split at h1
    · next e => exact ⟨_, e⟩
    · cases h1
  have h5 : ∃ c img, w.objs[q]? = some (.prog c img m) := by
    unfold K.progMap at h5
    split at h5
    · next e => cases h5; exact ⟨_, _, e⟩
    · cases h5
  obtain ⟨f, h1⟩ := h1
  obtain ⟨c, img, h5⟩ := h5
  refine ⟨rfl, by simp, fun i o ho => ?_⟩
  by_cases e : m = i
  · subst e
    rw [h1] at ho
    cases ho
    refine .inr ⟨⟨f, g, rfl, ?_⟩, pt, q, c, img, hr, h5⟩
    show (w.objs.set m _)[m]? = _
    rw [List.getElem?_set_self (List.getElem?_eq_some_iff.mp h1).1]
  · refine .inl ?_
    show (w.objs.set m _)[i]? = _
    rw [List.getElem?_set_ne e]
    exact ho

theorem packets2 : Packets w1 w2 := packets_of (q := 5) (by decide +kernel) (by decide +kernel) runs1

theorem _root_.Bf.Pin.Packets.stored {w w' : K} {dir : String} {c : Chain} {h : Handle} (hp : Packets w w') (hs : Stored w dir c h) : Stored w' dir c h :=
  Stored.erase.mp (by rw [hp.erase]; exact Stored.erase.mpr hs)

theorem _root_.Bf.Pin.Packets.wf {w w' : K} (hp : Packets w w') (hw : w.Wf) : w'.Wf := (Run.packets (p := P.ret ()) hp .refl).wf hw

theorem _root_.Bf.Pin.Packets.refs {w w' : K} (hp : Packets w w') (hw : w.Refs) : w'.Refs := hw.of (by rw [hp.erase])

theorem stored2 : Stored w2 "sample" chain h1 := packets2.stored stored1

theorem wf2 : w2.Wf := packets2.wf wf1

def _root_.Bf.Pin.K.refs (w : K) : Bool := w.objs.all fun o => match o with
  | .prog _ _ m => decide (m < w.objs.length)
  | .link _ q _ => decide (q < w.objs.length)
  | .map _ => true

theorem refs_of {w : K} (h : w.refs = true) : w.Refs := by
  intro i o ho
  have := List.all_eq_true.mp h o (List.mem_of_getElem? ho)
  cases o <;> simp_all

theorem refs1 : w1.Refs := refs_of (by decide +kernel)

theorem ncpu2 : w2.ncpu = 2 := by decide +kernel

theorem refs2 : w2.Refs := packets2.refs refs1

/-- What `bf_chain_get` gives for the rules, the policy, errors. -/
def _root_.Bf.Pin.Got.counters (g : Got) : List (Option Ctr) × Ctr × Ctr := (g.rules, g.policy, g.errors)

def countersOf : Option (Res Got) → Option (List (Option Ctr) × Ctr × Ctr)
  | some (.ok g) => some g.counters
  | _ => none

theorem countersOf_some {r : Option (Res Got)} {x : List (Option Ctr) × Ctr × Ctr} (h : countersOf r = some x) : ∃ g, r = some (.ok g) ∧ g.counters = x := by
  unfold countersOf at h
  split at h
  · cases h; exact ⟨_, rfl, rfl⟩
  · cases h

/-- The hypotheses of `C33_get` are met: the counters of rule 0, 3 + 1 packets, 300 + 50 bytes; of the policy, 2 packets. -/
theorem get_ok : ∃ w' g, Run w2 (chainGet "sample") w' (.ret (.ok g)) ∧
    g.chain = chain ∧ g.rules = [some (4, 350), some (0, 0), some (0, 0)] ∧ g.policy = (2, 128) ∧ g.errors = (0, 0) := by
  obtain ⟨p', h, e⟩ := P.exec_run (p := chainGet "sample") (fails := fun _ => false) (n := 1000) (i := 0) (w := w2)
  obtain ⟨g, e1, e2⟩ := countersOf_some (x := ([some (4, 350), some (0, 0), some (0, 0)], (2, 128), (0, 0)))
    (show countersOf ((chainGet "sample").exec (fun _ => false) 1000 0 w2).2 = _ by decide +kernel)
  have := e _ e1
  subst this
  refine ⟨_, g, h, (C33_get wf2 stored2 rfl h).1, ?_, ?_, ?_⟩
  · exact congrArg (·.1) e2
  · exact congrArg (·.2.1) e2
  · exact congrArg (·.2.2) e2

/-- Remove nothing, add an address. -/
def plus : BSet := { set0 with elems := [[192, 168, 0, 3]] }
def minus : BSet := { set0 with elems := [] }

/-- The set is changed; then the counters are read. -/
def both : P (Res Got) := do
  match ← chainUpdateSet tgt 2 "sample" plus minus with
  | .ok _ => chainGet "sample"
  | .err e => pure (.err e)
  | .ub => pure .ub

/-- The hypotheses of `C33_update_set` are met. -/
theorem update_set_ok : ∃ w' new, updateSet chain plus minus = .ok new ∧ Run w2 (chainUpdateSet tgt 2 "sample" plus minus) w' (.ret (.ok ())) ∧
    Carried tgt new "sample" 1 (chainUpdateSet tgt 2 "sample" plus minus) w2 w' := by
  obtain ⟨p', h, e⟩ := P.exec_run (p := chainUpdateSet tgt 2 "sample" plus minus) (fails := fun _ => false) (n := 1000) (i := 0) (w := w2)
  have := e _ (show _ = some (.ok ()) by decide +kernel)
  subst this
  have hu : ∃ new, updateSet chain plus minus = .ok new := ⟨{ chain with sets := [{ set0 with elems := [[192, 168, 0, 1], [192, 168, 0, 2], [192, 168, 0, 3]] }] }, by decide⟩
  obtain ⟨new, hu⟩ := hu
  exact ⟨_, new, hu, h, C33_update_set (m := ⟨cmapD chain, 1⟩) (p := 5) wf2 refs2 ncpu2 (by decide) stored2 rfl rfl hu h⟩

/-- After the update, the same totals are reported, by the new program, which has another map. -/
example : countersOf (both.exec (fun _ => false) 1000 0 w2).2 = some ([some (4, 350), some (0, 0), some (0, 0)], (2, 128), (0, 0)) := by decide +kernel

end Sample

end Bf.Pin
