import Verif.Cgen.Fair
import Verif.Cgen.Set
/-!
# What the operations on a chain write, load and attach
-/
namespace Bf.Pin

variable {W : Want} {n : String} {α β : Type} {dir : String} {T : Target}

theorem fair_try {c : Call} (h : c.Keeps W n) : (try_ c).Fair W n fun _ => True := ⟨h, fun _ _ => trivial⟩
theorem fair_tryId {c : Call} (h : c.Keeps W n) : (tryId c).Fair W n fun _ => True := ⟨h, fun _ _ => trivial⟩
theorem fair_void {c : Call} (h : c.Keeps W n) : (void c).Fair W n fun _ => True := ⟨h, fun _ _ => trivial⟩

theorem fair_free {h : Handle} : (handleFree h).Fair W n fun _ => True := Fair.of_reads reads_handleFree

theorem name_ok {s : String} (h1 : s.toList.length ≤ 15) (h2 : IsCStr s) (h3 : s ≠ "") : NameOk (objName s) ∧ objName s ≠ "" := by
  have : objName s = s := by unfold objName; rw [List.take_of_length_le h1, String.ofList_toList]
  rw [this]
  exact ⟨⟨h2, h1⟩, h3⟩

theorem fair_mapNew {name : String} {type : MapType} {a b c d : Nat} :
    (mapNew name type a b c d).Fair W n (ROk fun m => m.d = ⟨objName name, type, a, b, c, d⟩ ∧ d ≠ 0) := by
  unfold mapNew
  repeat (first | (split; · exact Fair.pure (by simp [ROk])))
  refine Fair.bind (fair_try trivial) fun r _ => ?_
  split
  · refine Fair.bind (fair_tryId (c := .mapCreate _) trivial) fun r hr => ?_
    split
    · refine Fair.pure fun m hm => ?_
      cases hm
      exact ⟨rfl, by assumption⟩
    · exact Fair.pure (by simp [ROk])
    · exact Fair.pure (by simp [ROk])
  · exact Fair.pure (by simp [ROk])
  · exact Fair.pure (by simp [ROk])

/-- What is described of the handle fits, and its link is that of `h`. -/
def Grown (h : Handle) (x : Handle × Res Unit) : Prop := HandleOk x.1.d ∧ x.1.link = h.link ∧ x.1.sets.length < 2 ^ 32

theorem HandleOk.addSet {h : Handle} {m : BMap} (hh : HandleOk h.d) (hm : MapOk m.d) (hl : h.sets.length + 1 < 2 ^ 32) : HandleOk ({ h with sets := h.sets ++ [some m] } : Handle).d := by
  refine ⟨hh.name, hh.link, hh.cmap, hh.pmap, hh.lmap, hh.smap, fun x hx => ?_, by simpa [Handle.d] using hl⟩
  simp only [Handle.d, List.map_append, List.mem_append, List.map_cons, List.map_nil, List.mem_singleton, Option.map_some, Option.some.injEq] at hx
  rcases hx with hx | rfl
  · exact hh.sets x (by simpa [Handle.d] using hx)
  · exact hm

theorem fair_loadSets (he : W.ctx n []) {chain : Chain} : ∀ {gs : Groups} {i : Nat} {h : Handle}, HandleOk h.d → h.sets.length + gs.length < 2 ^ 32 →
    (∀ g ∈ gs, ∀ s, groupHead chain.sets g = some s → s.elemSize < 2 ^ 64 ∧ (g.length + 7) / 8 < 2 ^ 64 ∧ (groupEntries chain.sets g).length < 2 ^ 64) →
    (loadSets chain gs i h).Fair W n (Grown h)
  | [], _, h, hh, hl, _ => ⟨hh, rfl, by simpa using hl⟩
  | g :: gs, i, h, hh, hl, hs => by
    have same : ∀ r, Grown h (h, r) := fun r => ⟨hh, rfl, by simp at hl; show h.sets.length < _; omega⟩
    unfold loadSets
    split
    · exact Fair.pure (same _)
    · next s hg =>
      refine Fair.bind (fair_try trivial) fun r _ => ?_
      split
      · refine Fair.bind fair_mapNew fun r hm => ?_
        split
        · next m =>
          obtain ⟨hm, hne⟩ := hm m rfl
          refine Fair.bind (fair_try trivial) fun r _ => ?_
          split
          · obtain ⟨s1, s2, s3⟩ := hs g (by simp) s hg
            have hmk : MapOk m.d := by
              rw [hm]
              refine ⟨⟨setMapName_ok i, ?_⟩, ?_, s1, s2, s3, hne⟩
              · intro e
                have h0 : (objName (setMapName i)).toList[3]? = some 's' := by
                  have : "bf_set_".toList = ['b', 'f', '_', 's', 'e', 't', '_'] := by decide
                  unfold objName setMapName
                  simp [this]
                dsimp only at e
                rw [e] at h0
                exact absurd h0 (by decide)
              · dsimp only
                split <;> omega
            simp only [List.length_cons] at hl
            exact Fair.mono (fair_loadSets he (h := { h with sets := h.sets ++ [some m] }) (HandleOk.addSet hh hmk (by omega)) (by simp; omega)
              fun g hg => hs g (List.mem_cons_of_mem _ hg)) fun x hx => hx
          · exact Fair.bind (fair_void trivial) fun _ _ => Fair.pure (same _)
        · exact Fair.pure (same _)
        · exact Fair.pure (same _)
      · exact Fair.pure (same _)

theorem fair_loadCounters {chain : Chain} {h : Handle} (hh : HandleOk h.d) (hs : h.sets.length < 2 ^ 32) (hr : chain.rules.length < 2 ^ 32) : (loadCounters chain h).Fair W n (Grown h) := by
  unfold loadCounters
  refine Fair.bind fair_mapNew fun r hm => ?_
  split
  · next m =>
    obtain ⟨hm, hne⟩ := hm m rfl
    refine Fair.pure ⟨⟨hh.name, hh.link, fun x hx => ?_, hh.pmap, hh.lmap, hh.smap, hh.sets, hh.len⟩, rfl, hs⟩
    cases hx
    show MapOk m.d
    rw [hm]
    exact ⟨name_ok (by decide) (by decide) (by decide), by simp, by simp, by simp, by simp; omega, hne⟩
  · exact Fair.pure ⟨hh, rfl, hs⟩
  · exact Fair.pure ⟨hh, rfl, hs⟩

theorem fair_loadPrinter (he : W.ctx n []) {h : Handle} (hh : HandleOk h.d) (hs : h.sets.length < 2 ^ 32) (hT : T.printed < 2 ^ 64) : (loadPrinter T h).Fair W n (Grown h) := by
  unfold loadPrinter
  refine Fair.bind (fair_try trivial) fun r _ => ?_
  split
  · refine Fair.bind fair_mapNew fun r hm => ?_
    split
    · next m =>
      obtain ⟨hm, hne⟩ := hm m rfl
      refine Fair.bind (fair_try he) fun r _ => Fair.pure ⟨⟨hh.name, hh.link, hh.cmap, fun x hx => ?_, hh.lmap, hh.smap, hh.sets, hh.len⟩, rfl, hs⟩
      cases hx
      show MapOk m.d
      rw [hm]
      exact ⟨name_ok (by decide) (by decide) (by decide), by simp, by simp, hT, by simp, hne⟩
    · exact Fair.pure ⟨hh, rfl, hs⟩
    · exact Fair.pure ⟨hh, rfl, hs⟩
  · exact Fair.pure ⟨hh, rfl, hs⟩

theorem fair_loadLog {chain : Chain} {h : Handle} (hh : HandleOk h.d) (hs : h.sets.length < 2 ^ 32) : (loadLog chain h).Fair W n (Grown h) := by
  unfold loadLog
  split
  · exact Fair.pure ⟨hh, rfl, hs⟩
  · refine Fair.bind fair_mapNew fun r hm => ?_
    split
    · next m =>
      obtain ⟨hm, hne⟩ := hm m rfl
      refine Fair.pure ⟨⟨hh.name, hh.link, hh.cmap, hh.pmap, fun x hx => ?_, hh.smap, hh.sets, hh.len⟩, rfl, hs⟩
      cases hx
      show MapOk m.d
      rw [hm]
      exact ⟨name_ok (by decide) (by decide) (by decide), by simp, by simp, by simp, by simp, hne⟩
    · exact Fair.pure ⟨hh, rfl, hs⟩
    · exact Fair.pure ⟨hh, rfl, hs⟩

theorem fair_loadState {chain : Chain} {h : Handle} (hh : HandleOk h.d) (hs : h.sets.length < 2 ^ 32) (hr : chain.rules.length < 2 ^ 32) : (loadState chain h).Fair W n (Grown h) := by
  unfold loadState
  split
  · exact Fair.pure ⟨hh, rfl, hs⟩
  · refine Fair.bind fair_mapNew fun r hm => ?_
    split
    · next m =>
      obtain ⟨hm, hne⟩ := hm m rfl
      refine Fair.pure ⟨⟨hh.name, hh.link, hh.cmap, hh.pmap, hh.lmap, fun x hx => ?_, hh.sets, hh.len⟩, rfl, hs⟩
      cases hx
      show MapOk m.d
      rw [hm]
      exact ⟨name_ok (by decide) (by decide) (by decide), by simp, by simp, by simp; omega, by simp, hne⟩
    · exact Fair.pure ⟨hh, rfl, hs⟩
    · exact Fair.pure ⟨hh, rfl, hs⟩

theorem fair_andThen {p : P (Handle × Res Unit)} {f : Handle → P (Handle × Res Unit)} {h0 h : Handle} (e : h.link = h0.link) (hp : p.Fair W n (Grown h))
    (hf : ∀ h', HandleOk h'.d → h'.sets.length < 2 ^ 32 → h'.link = h0.link → (f h').Fair W n (Grown h0)) : (p >>= fun x => andThen x f).Fair W n (Grown h0) := by
  refine Fair.bind hp fun x hx => ?_
  unfold andThen
  split
  · exact hf _ hx.1 hx.2.2 (hx.2.1.trans e)
  · exact Fair.pure ⟨hx.1, hx.2.1.trans e, hx.2.2⟩

/-- The image was generated, completely, from the chain. -/
def ImageOf (T : Target) (c : Chain) (img : List Insn) (m : Nat) : Prop := ∃ M : MapFds, M.counters = BitVec.ofNat 32 m ∧ compile c T.thr T.slen M = .ok img

theorem fair_programLoad (he : W.ctx n []) {chain : Chain} {p : Prog} {h : Handle} (hh : HandleOk h.d) (hs : h.sets = []) (hr : chain.rules.length < 2 ^ 32) (hf : Fits T chain)
    (hg : genProgram ⟨chain, buildGroups chain.sets, T.thr⟩ T.slen = .ok p) (hW : ∀ img m, ImageOf T chain img m → W.prog n chain img m) :
    (programLoad T chain p h).Fair W n (Grown h) := by
  unfold programLoad
  refine fair_andThen rfl (fair_loadSets he hh (by rw [hs]; simpa using hf.groups) hf.elems) fun h1 k1 s1 e1 => ?_
  refine fair_andThen e1 (fair_loadCounters k1 s1 hr) fun h2 k2 s2 e2 => ?_
  refine fair_andThen e2 (fair_loadPrinter he k2 s2 hf.printed) fun h3 k3 s3 e3 => ?_
  refine fair_andThen e3 (fair_loadLog k3 s3) fun h4 k4 s4 e4 => ?_
  refine fair_andThen e4 (fair_loadState k4 s4 hr) fun h5 k5 s5 e5 => ?_
  have same : ∀ r, Grown h (h5, r) := fun r => ⟨k5, e5, s5⟩
  split
  · next img m hl hm =>
    refine Fair.bind (fair_tryId (c := .progLoad _ _ _) (hW _ _ ⟨h5.mapFds, by simp only [Handle.mapFds, hm, mapFd], ?_⟩)) fun r _ => ?_
    · simp only [compile, hg, Res.bind]
      exact hl
    · split
      · exact Fair.pure ⟨⟨k5.name, k5.link, k5.cmap, k5.pmap, k5.lmap, k5.smap, k5.sets, k5.len⟩, e5, s5⟩
      · exact Fair.pure (same _)
      · exact Fair.pure (same _)
  · exact Fair.pure (same _)
  · exact Fair.pure (same _)

theorem fair_makeProgram (he : W.ctx n []) {chain : Chain} {h : Handle} (hh : HandleOk h.d) (hs : h.sets = []) (hr : chain.rules.length < 2 ^ 32) (hf : Fits T chain)
    (hW : ∀ img m, ImageOf T chain img m → W.prog n chain img m) : (makeProgram T chain h).Fair W n (Grown h) := by
  have same : ∀ r, Grown h (h, r) := fun r => ⟨hh, rfl, by rw [hs]; simp⟩
  unfold makeProgram
  refine Fair.bind (fair_try trivial) fun r _ => ?_
  split
  · split
    · next hg => exact fair_programLoad he hh hs hr hf hg hW
    · exact Fair.pure (same _)
    · exact Fair.pure (same _)
  · exact Fair.pure (same _)

theorem handleOk_new : HandleOk Handle.new.d :=
  ⟨(name_ok (s := "bf_prog") (by decide) (by decide) (by decide)).1, by simp [Handle.d, Handle.new], by simp [Handle.d, Handle.new], by simp [Handle.d, Handle.new],
    by simp [Handle.d, Handle.new], by simp [Handle.d, Handle.new], by simp [Handle.d, Handle.new], by simp [Handle.d, Handle.new]⟩

/-! Links. -/

theorem fair_linkNew {hook : Hook} {o : HookOpts} {p : Nat} (hp : ∀ pt ∈ points hook o, W.point n pt) : (linkNew hook o p).Fair W n (ROk fun l => l.d = ⟨objName "bf_link", hook, o⟩) := by
  have fin : ∀ (r : Res Nat), (match r with
      | .ok l => pure (.ok ⟨⟨objName "bf_link", hook, o⟩, l, none⟩)
      | .err e => pure (.err e)
      | .ub => pure .ub : P (Res Link)).Fair W n (ROk fun l => l.d = ⟨objName "bf_link", hook, o⟩) := by
    intro r
    split
    · exact Fair.pure fun l hl => by cases hl; rfl
    · exact Fair.pure (by simp [ROk])
    · exact Fair.pure (by simp [ROk])
  unfold linkNew
  refine Fair.bind (fair_try trivial) fun r _ => ?_
  split
  · dsimp only
    split
    · next hf =>
      have h1 : W.point n (.iface hook o.ifindex) := hp _ (by unfold points; rw [hf]; simp)
      refine Fair.bind (ok := fun _ => True) ?_ fun r _ => fin r
      unfold tryAttachXdp
      refine Fair.bind (fair_tryId (c := .linkCreate _ _) h1) fun r _ => ?_
      split
      · exact fair_tryId (c := .linkCreate _ _) h1
      · exact trivial
    · next hf =>
      have h1 : W.point n (.iface hook o.ifindex) := hp _ (by unfold points; rw [hf]; simp)
      exact Fair.bind (fair_tryId (c := .linkCreate _ _) h1) fun r _ => fin r
    · next hf =>
      have h1 : W.point n (.cgroup hook o.cgpath) := hp _ (by unfold points; rw [hf]; simp)
      refine Fair.bind (fair_try trivial) fun r _ => ?_
      split
      · exact Fair.bind (fair_tryId (c := .linkCreate _ _) h1) fun r _ => fin r
      · exact Fair.pure (by simp [ROk])
      · exact Fair.pure (by simp [ROk])
    · next hf =>
      have h1 : W.point n (.cgroup hook o.cgpath) := hp _ (by unfold points; rw [hf]; simp)
      refine Fair.bind (fair_try trivial) fun r _ => ?_
      split
      · exact Fair.bind (fair_tryId (c := .linkCreate _ _) h1) fun r _ => fin r
      · exact Fair.pure (by simp [ROk])
      · exact Fair.pure (by simp [ROk])
    · next hf =>
      have h1 : W.point n (.nf hook false) := hp _ (by unfold points; rw [hf]; simp)
      have h2 : W.point n (.nf hook true) := hp _ (by unfold points; rw [hf]; simp)
      refine Fair.bind (fair_tryId (c := .linkCreate _ _) h1) fun r _ => ?_
      split
      · refine Fair.bind (fair_tryId (c := .linkCreate _ _) h2) fun r _ => ?_
        split
        · exact Fair.pure fun l hl => by cases hl; rfl
        · exact Fair.bind (fair_void trivial) fun _ _ => Fair.pure (by simp [ROk])
        · exact Fair.pure (by simp [ROk])
      · exact Fair.pure (by simp [ROk])
      · exact Fair.pure (by simp [ROk])
  · exact Fair.pure (by simp [ROk])
  · exact Fair.pure (by simp [ROk])

/-- What is described of the handle fits, and it may be attached where it is. -/
structure Fit (W : Want) (n : String) (h : Handle) : Prop where
  ok : HandleOk h.d
  points : ∀ l, h.link = some l → ∀ pt ∈ points l.d.hook l.d.opts, W.point n pt

theorem Fit.new : Fit W n Handle.new := ⟨handleOk_new, by simp [Handle.new]⟩

theorem fair_handleAttach {h : Handle} {hook : Hook} {o : HookOpts} (hh : Fit W n h) (ho : OptsOk o) (hp : ∀ pt ∈ points hook o, W.point n pt) :
    (handleAttach h hook o).Fair W n fun x => Fit W n x.1 := by
  unfold handleAttach
  split
  · exact Fair.pure hh
  · exact Fair.pure hh
  · refine Fair.bind (fair_linkNew hp) fun r hr => ?_
    split
    · next l =>
      have hl := hr l rfl
      refine Fair.pure ⟨HandleOk.withLink hh.ok fun x hx => ?_, fun x hx => ?_⟩
      · cases hx
        rw [hl]
        exact ⟨(name_ok (s := "bf_link") (by decide) (by decide) (by decide)).1, ho⟩
      · cases hx
        rw [hl]
        exact hp
    · exact Fair.pure hh
    · exact Fair.pure hh

/-! What is pinned and removed. -/

theorem plain_linkUnpin : (linkUnpin dir).Calls Call.plain := by unfold linkUnpin; calls

theorem plain_linkPin {l : Link} : (linkPin l dir).Calls Call.plain := by
  have h := plain_linkUnpin (dir := dir)
  unfold linkPin; calls

theorem plain_unpinAll : ∀ {ms : List BMap}, (unpinAll dir ms).Calls Call.plain
  | [] => trivial
  | _ :: _ => by unfold unpinAll; exact Calls.bind (calls_void rfl) fun _ => plain_unpinAll

theorem plain_handleUnpin {h : Handle} : (handleUnpin h dir).Calls Call.plain := by
  have h1 := plain_unpinAll (dir := dir) (ms := h.maps)
  have h2 := plain_linkUnpin (dir := dir)
  unfold handleUnpin; calls

theorem plain_pinAll : ∀ {ms : List BMap}, (pinAll dir ms).Calls Call.plain
  | [] => trivial
  | m :: ms => by
    have h := plain_pinAll (ms := ms)
    unfold pinAll; calls

theorem plain_handlePin {h : Handle} : (handlePin h dir).Calls Call.plain := by
  have h1 := plain_handleUnpin (dir := dir) (h := h)
  have h2 := plain_pinAll (dir := dir) (ms := h.maps)
  have h3 := fun l => plain_linkPin (dir := dir) (l := l)
  unfold handlePin handlePins
  repeat' (first | exact calls_pure | exact calls_try rfl | exact h1 | exact h2 | exact h3 _ | refine Calls.bind ?_ fun _ => ?_ | split | dsimp only)

theorem tame_handleDetach {h : Handle} : (handleDetach h).Calls Call.tame := by
  have h2 := fun l => Calls.tame (reads_closeAll (l := l))
  unfold handleDetach
  repeat' (first | exact calls_pure | exact calls_void rfl | exact h2 _ | refine Calls.bind ?_ fun _ => ?_ | split | dsimp only)

theorem plain_transfer {ncpu k : Nat} {a b : Handle} : (transfer ncpu a b k).Calls Call.plain := by
  have h1 := fun h i => Calls.mono (reads_getCounter (h := h) (i := i)) Call.reads_plain
  have loop : ∀ {k i : Nat}, (transferLoop ncpu a b i k).Calls Call.plain := by
    intro k
    induction k with
    | zero => exact fun {_} => trivial
    | succ k ih =>
      intro i
      unfold transferLoop
      refine Calls.bind (h1 _ _) fun r => ?_
      split
      · split
        · exact ih
        · refine Calls.bind ?_ fun r => ?_
          · unfold setCounter
            calls
          · split
            · exact ih
            · exact calls_pure
      · exact calls_pure
      · exact calls_pure
  unfold transfer
  split
  · exact calls_pure
  · exact loop

/-! Chains and their descriptions. -/

theorem fair_persist {c : Cgen} (h : W.ctx n (cgenBytes c.chain c.handle.d)) : (persist c dir).Fair W n fun _ => True := by
  unfold persist
  refine Fair.bind (fair_try trivial) fun r _ => ?_
  split
  · refine Fair.bind fair_mapNew fun r _ => ?_
    split
    · refine Fair.bind (fair_try h) fun r _ => ?_
      refine Fair.of_calls ?_
      calls
    · exact Fair.pure trivial
    · exact Fair.pure trivial
  · exact Fair.pure trivial

theorem fair_getMap {d : Option MapD} : (getMap dir d).Fair W n (ROk fun m => m.map (·.d) = d) := by
  unfold getMap
  split
  · exact Fair.pure fun m hm => by cases hm; rfl
  · refine Fair.bind (fair_tryId trivial) fun r _ => ?_
    split
    · exact Fair.pure fun m hm => by cases hm; rfl
    · exact Fair.pure (by simp [ROk])
    · exact Fair.pure (by simp [ROk])

theorem fair_getMaps : ∀ {ds : List (Option MapD)}, (getMaps dir ds).Fair W n fun x => x.2 = .ok () → x.1.map (·.map (·.d)) = ds
  | [] => Fair.pure fun _ => rfl
  | d :: ds => by
    unfold getMaps
    refine Fair.bind fair_getMap fun r hr => ?_
    split
    · next m =>
      refine Fair.bind fair_getMaps fun x hx => ?_
      obtain ⟨ms, r⟩ := x
      refine Fair.pure fun e => ?_
      simp only at e hx ⊢
      rw [List.map_cons, hx e, hr m rfl]
    · exact Fair.pure (by simp)
    · exact Fair.pure (by simp)

theorem fair_getLink {d : Option LinkD} : (getLink dir d).Fair W n (ROk fun m => m.map (·.d) = d) := by
  unfold getLink
  split
  · exact Fair.pure fun m hm => by cases hm; rfl
  · refine Fair.bind (fair_tryId trivial) fun r _ => ?_
    split
    · refine Fair.bind (fair_tryId trivial) fun r _ => ?_
      split
      · exact Fair.pure fun m hm => by cases hm; rfl
      · exact Fair.pure fun m hm => by cases hm; rfl
      · exact Fair.bind (fair_void trivial) fun _ _ => Fair.pure (by simp [ROk])
      · exact Fair.pure (by simp [ROk])
    · exact Fair.pure (by simp [ROk])
    · exact Fair.pure (by simp [ROk])

theorem fair_getHandle {d : HandleD} : (getHandle dir d).Fair W n fun x => x.2 = .ok () → x.1.d = d := by
  have no : ∀ (h : Handle) (r : Res Unit), (∀ x, r ≠ .ok x) → (pure (h, r) : P (Handle × Res Unit)).Fair W n fun x => x.2 = .ok () → x.1.d = d :=
    fun h r hr => Fair.pure fun e => absurd e (hr _)
  unfold getHandle
  refine Fair.bind (fair_tryId trivial) fun r _ => ?_
  split
  · refine Fair.bind fair_getLink fun r hr1 => ?_
    split
    · next l =>
      have e1 := hr1 l rfl
      refine Fair.bind fair_getMap fun r hr2 => ?_
      split
      · next m2 =>
        have e2 := hr2 m2 rfl
        refine Fair.bind fair_getMap fun r hr3 => ?_
        split
        · next m3 =>
          have e3 := hr3 m3 rfl
          refine Fair.bind fair_getMap fun r hr4 => ?_
          split
          · next m4 =>
            have e4 := hr4 m4 rfl
            refine Fair.bind fair_getMap fun r hr5 => ?_
            split
            · next m5 =>
              have e5 := hr5 m5 rfl
              refine Fair.bind fair_getMaps fun x hx => ?_
              obtain ⟨ms, r⟩ := x
              refine Fair.pure fun e => ?_
              have e6 := hx e
              simp only at e6
              simp only [Handle.d, e1, e2, e3, e4, e5, e6]
            · exact no _ _ (by simp)
            · exact no _ _ (by simp)
          · exact no _ _ (by simp)
          · exact no _ _ (by simp)
        · exact no _ _ (by simp)
        · exact no _ _ (by simp)
      · exact no _ _ (by simp)
      · exact no _ _ (by simp)
    · exact no _ _ (by simp)
    · exact no _ _ (by simp)
  · exact no _ _ (by simp)
  · exact no _ _ (by simp)

end Bf.Pin
