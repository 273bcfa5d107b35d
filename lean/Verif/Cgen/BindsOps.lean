import Verif.Cgen.Binds
/-!
# The operations know the maps of the programs they load
-/
namespace Bf.Pin

variable {α β : Type} {dir : String} {T : Target} {Ts : Target → Prop} {s s' : Know}

/-- Whatever is known at the end. -/
abbrev AnyKn {α : Type} (_ : Know) (_ : α) : Prop := True

theorem binds_loadCounters {c : Chain} {h : Handle} : (loadCounters c h).Binds Ts (fun s' x => s.Le s' ∧ (x.2 = .ok () →
    ∃ m : BMap, x.1 = { h with cmap := some m } ∧ s'.kind m.id m.d ∧ m.d.type = .counters ∧ m.d.nElems = c.rules.length + 2 ∧ m.d.bpfType = 6 ∧ m.d.keySize = 4 ∧ m.d.valueSize = 16)) s := by
  unfold loadCounters
  refine Binds.bind binds_mapNew fun s' r hr => ?_
  split
  · next m =>
    obtain ⟨h1, h2, h3, h5, h6, h7, h4⟩ := hr.2 m rfl
    exact Binds.pure ⟨hr.1, fun _ => ⟨m, rfl, ⟨_, h2, rfl⟩, h3, h4, h5, h6, h7⟩⟩
  · exact Binds.pure ⟨hr.1, by simp⟩
  · exact Binds.pure ⟨hr.1, by simp⟩

theorem binds_loadPrinter {h : Handle} : (loadPrinter T h).Binds Ts (fun s' x => s.Le s' ∧ (x.2 = .ok () → ∃ m : BMap, x.1 = { h with pmap := some m })) s := by
  unfold loadPrinter
  refine Binds.bind (ok := fun s' _ => s' = s) (binds_alloc fun _ => rfl) fun s1 r e => ?_
  subst e
  split
  · refine Binds.bind binds_mapNew fun s' r hr => ?_
    split
    · next m => exact ⟨trivial, fun a _ => ⟨hr.1, fun _ => ⟨m, rfl⟩⟩⟩
    · exact Binds.pure ⟨hr.1, by simp⟩
    · exact Binds.pure ⟨hr.1, by simp⟩
  · next hne => exact Binds.pure ⟨.refl _, fun e => absurd e (hne ())⟩

theorem binds_loadLog {c : Chain} {h : Handle} : (loadLog c h).Binds Ts (fun s' x => s.Le s' ∧ (x.2 = .ok () →
    ∃ l, x.1 = { h with lmap := l } ∧ (c.flagLog = true → ∃ m : BMap, l = some m ∧ s'.kind m.id m.d ∧ m.d.type = .log ∧ m.d.bpfType = 27))) s := by
  unfold loadLog
  split
  · next hn => exact Binds.pure ⟨.refl _, fun _ => ⟨h.lmap, rfl, fun e => absurd e hn⟩⟩
  · refine Binds.bind binds_mapNew fun s' r hr => ?_
    split
    · next m =>
      obtain ⟨h1, h2, h3, h4, _⟩ := hr.2 m rfl
      exact Binds.pure ⟨hr.1, fun _ => ⟨some m, rfl, fun _ => ⟨m, rfl, ⟨_, h2, rfl⟩, h3, h4⟩⟩⟩
    · exact Binds.pure ⟨hr.1, by simp⟩
    · exact Binds.pure ⟨hr.1, by simp⟩

theorem binds_loadState {c : Chain} {h : Handle} : (loadState c h).Binds Ts (fun s' x => s.Le s' ∧ (x.2 = .ok () →
    ∃ l, x.1 = { h with smap := l } ∧ (c.flagRate = true ∧ c.rules ≠ [] → ∃ m : BMap, l = some m ∧ s'.kind m.id m.d ∧ m.d.type = .state ∧ m.d.valueSize = c.rules.length * 8 ∧ m.d.bpfType = 2 ∧ m.d.keySize = 4 ∧ m.d.nElems = 1))) s := by
  unfold loadState
  split
  · next hn => exact Binds.pure ⟨.refl _, fun _ => ⟨h.smap, rfl, fun e => by rcases hn with hn | hn; exact absurd e.1 hn; exact absurd hn e.2⟩⟩
  · refine Binds.bind binds_mapNew fun s' r hr => ?_
    split
    · next m =>
      obtain ⟨h1, h2, h3, h5, h6, h4, h7⟩ := hr.2 m rfl
      exact Binds.pure ⟨hr.1, fun _ => ⟨some m, rfl, fun _ => ⟨m, rfl, ⟨_, h2, rfl⟩, h3, h4, h5, h6, h7⟩⟩⟩
    · exact Binds.pure ⟨hr.1, by simp⟩
    · exact Binds.pure ⟨hr.1, by simp⟩

theorem binds_andThen {x : Handle × Res Unit} {f : Handle → P (Handle × Res Unit)} (hf : x.2 = .ok () → (f x.1).Binds Ts AnyKn s) : (andThen x f).Binds Ts AnyKn s := by
  unfold andThen
  split
  · next h => exact hf h
  · exact Binds.pure trivial

theorem Bound.of_handle {c : Chain} {p : Prog} {h : Handle} {m : BMap} {img : List Insn} (hT : Ts T) (hp : genProgram ⟨c, buildGroups c.sets, T.thr⟩ T.slen = .ok p)
    (hi : loadFixups ⟨c, buildGroups c.sets, T.thr⟩ h.mapFds p = .ok img) (hs : SetsKn s c (buildGroups c.sets) h.sets) (hm : h.cmap = some m)
    (hk : s.kind m.id m.d) (ht : m.d.type = .counters) (hn : m.d.nElems = c.rules.length + 2 ∧ m.d.bpfType = 6 ∧ m.d.keySize = 4 ∧ m.d.valueSize = 16)
    (hl : c.flagLog = true → ∃ m : BMap, h.lmap = some m ∧ s.kind m.id m.d ∧ m.d.type = .log ∧ m.d.bpfType = 27)
    (hst : c.flagRate = true ∧ c.rules ≠ [] → ∃ m : BMap, h.smap = some m ∧ s.kind m.id m.d ∧ m.d.type = .state ∧ m.d.valueSize = c.rules.length * 8 ∧ m.d.bpfType = 2 ∧ m.d.keySize = 4 ∧ m.d.nElems = 1) : Bound Ts s c img m.id := by
  obtain ⟨ids, h1, h2, h3, h4⟩ := hs.ids
  refine ⟨T, h.mapFds, hT, ?_, by simp [Handle.mapFds, hm, mapFd], ⟨m.d, hk, ht, hn⟩, fun e => ?_, fun e => ?_, ids, h1, h2, fun g o e => ?_⟩
  · unfold compile
    dsimp only
    rw [hp]
    exact hi
  · obtain ⟨m, e, g1, g2⟩ := hl e
    exact ⟨m.id, m.d, by simp [Handle.mapFds, e, mapFd], g1, g2⟩
  · obtain ⟨m, e, g1, g2⟩ := hst e
    exact ⟨m.id, m.d, by simp [Handle.mapFds, e, mapFd], g1, g2⟩
  · obtain ⟨⟨m, g1, rfl⟩, g2⟩ := h4 g o e
    exact ⟨by simp [Handle.mapFds, g1, mapFd], g2⟩

theorem binds_programLoad {c : Chain} {p : Prog} {h : Handle} (hT : Ts T) (hp : genProgram ⟨c, buildGroups c.sets, T.thr⟩ T.slen = .ok p) (hh : h.sets = []) :
    (programLoad T c p h).Binds Ts AnyKn s := by
  unfold programLoad
  have h0 : SetsKn s c [] h.sets := by rw [hh]; exact ⟨[], by simp, rfl, rfl, by simp⟩
  refine Binds.bind (binds_loadSets h0) fun s1 x hx => binds_andThen fun e1 => ?_
  have k1 := hx.2 e1
  rw [List.nil_append] at k1
  refine Binds.bind binds_loadCounters fun s2 y hy => binds_andThen fun e2 => ?_
  obtain ⟨m, y1, y2, y3, y4⟩ := hy.2 e2
  refine Binds.bind binds_loadPrinter fun s3 z hz => binds_andThen fun e3 => ?_
  obtain ⟨pm, z1⟩ := hz.2 e3
  refine Binds.bind binds_loadLog fun s4 u hu => binds_andThen fun e4 => ?_
  obtain ⟨l, u1, u2⟩ := hu.2 e4
  refine Binds.bind binds_loadState fun s5 v hv => binds_andThen fun e5 => ?_
  obtain ⟨l', v1, v2⟩ := hv.2 e5
  have eh : v.1 = { x.1 with cmap := some m, pmap := some pm, lmap := l, smap := l' } := by rw [v1, u1, z1, y1]
  have l25 : s2.Le s5 := (hz.1.trans hu.1).trans hv.1
  generalize v.1 = h5 at eh
  split
  · next img m' hi hc =>
    have em : m' = m := by rw [eh] at hc; cases hc; rfl
    subst em
    refine ⟨Bound.of_handle hT hp hi ?_ hc (l25.kind _ _ y2) y3 y4 (fun e => ?_) (fun e => ?_), fun a _ => ?_⟩
    · rw [eh]
      exact k1.le (hy.1.trans l25)
    · obtain ⟨k, g1, g2, g3⟩ := u2 e
      exact ⟨k, by rw [eh]; exact g1, hv.1.kind _ _ g2, g3⟩
    · obtain ⟨k, g1, g2⟩ := v2 e
      exact ⟨k, by rw [eh]; exact g1, g2⟩
    · dsimp only
      split <;> exact trivial
  · exact trivial
  · exact trivial

theorem binds_makeProgram {c : Chain} {h : Handle} (hT : Ts T) (hh : h.sets = []) : (makeProgram T c h).Binds Ts AnyKn s := by
  unfold makeProgram
  refine Binds.bind (ok := AnyKn) (binds_alloc fun _ => trivial) fun s1 r _ => ?_
  split
  · split
    · next p hp => exact binds_programLoad hT hp hh
    · exact trivial
    · exact trivial
  · exact trivial

/-! The rest neither loads programs nor fills maps. -/

macro "usuals" : tactic => `(tactic| repeat' (first
  | exact calls_pure | exact trivial | assumption | exact calls_try rfl | exact calls_tryId rfl | exact calls_void rfl
  | refine Calls.bind ?_ fun _ => ?_ | split | dsimp only))

theorem Calls.reads_usual {p : P α} (h : p.Calls Call.reads) : p.Calls Call.usual := Calls.usual (Calls.tame h)

theorem usual_closeAll {l : List Nat} : (closeAll l).Calls Call.usual := Calls.reads_usual reads_closeAll
theorem usual_handleFree {h : Handle} : (handleFree h).Calls Call.usual := Calls.reads_usual reads_handleFree
theorem usual_newFromDir : (newFromDir dir).Calls Call.usual := Calls.reads_usual reads_newFromDir
theorem usual_cgenUnload {c : Cgen} : (cgenUnload c dir).Calls Call.usual := Calls.usual tame_cgenUnload
theorem usual_unpinAll {ms : List BMap} : (unpinAll dir ms).Calls Call.usual := Calls.usual tame_unpinAll
theorem usual_getCounter {h : Handle} {i : Nat} : (getCounter h i).Calls Call.usual := Calls.reads_usual reads_getCounter

theorem usual_linkUnpin : (linkUnpin dir).Calls Call.usual := by unfold linkUnpin; usuals

theorem usual_handleUnpin {h : Handle} : (handleUnpin h dir).Calls Call.usual := by
  have h1 := usual_unpinAll (dir := dir) (ms := h.maps)
  have h2 := usual_linkUnpin (dir := dir)
  unfold handleUnpin; usuals

theorem usual_linkNew {hook : Hook} {o : HookOpts} {p : Nat} : (linkNew hook o p).Calls Call.usual := by
  unfold linkNew tryAttachXdp; usuals

theorem usual_handleAttach {h : Handle} {hook : Hook} {o : HookOpts} : (handleAttach h hook o).Calls Call.usual := by
  have h1 := fun p => usual_linkNew (hook := hook) (o := o) (p := p)
  unfold handleAttach
  split
  · exact trivial
  · exact trivial
  · refine Calls.bind (h1 _) fun _ => ?_
    usuals

theorem usual_linkPin {l : Link} : (linkPin l dir).Calls Call.usual := by
  have h2 := usual_linkUnpin (dir := dir)
  unfold linkPin; usuals

theorem usual_pinAll : ∀ {ms : List BMap}, (pinAll dir ms).Calls Call.usual
  | [] => trivial
  | m :: ms => by
    have h := usual_pinAll (ms := ms)
    unfold pinAll; usuals

theorem usual_handlePin {h : Handle} : (handlePin h dir).Calls Call.usual := by
  have h1 := usual_handleUnpin (dir := dir) (h := h)
  have h2 := usual_pinAll (dir := dir) (ms := h.maps)
  have h3 := fun l => usual_linkPin (dir := dir) (l := l)
  unfold handlePin
  refine Calls.bind ?_ fun _ => ?_
  · unfold handlePins
    repeat' (first | exact calls_pure | exact h2 | exact h3 _ | exact calls_try rfl | refine Calls.bind ?_ fun _ => ?_ | split | dsimp only)
  · usuals

theorem usual_handleDetach {h : Handle} : (handleDetach h).Calls Call.usual := by
  have h1 := fun l => usual_closeAll (l := l)
  unfold handleDetach
  repeat' (first | exact calls_pure | exact h1 _ | exact calls_void rfl | refine Calls.bind ?_ fun _ => ?_ | split | dsimp only)

theorem usual_mapNew {name : String} {type : MapType} {a b c d : Nat} : (mapNew name type a b c d).Calls Call.usual := by unfold mapNew; usuals

theorem usual_persist {c : Cgen} : (persist c dir).Calls Call.usual := by
  have h1 := fun n t a b c d => usual_mapNew (name := n) (type := t) (a := a) (b := b) (c := c) (d := d)
  unfold persist
  repeat' (first | exact calls_pure | exact h1 _ _ _ _ _ _ | exact calls_void rfl | exact calls_try rfl | refine Calls.bind ?_ fun _ => ?_ | split | dsimp only)

theorem usual_cgenAttach {c : Cgen} {o : HookOpts} : (cgenAttach c o dir).Calls Call.usual := by
  have h1 := usual_handleAttach (h := c.handle) (hook := c.chain.hook) (o := o)
  have h2 := fun l => usual_linkPin (dir := dir) (l := l)
  have h3 := fun c => usual_persist (dir := dir) (c := c)
  have h4 := usual_linkUnpin (dir := dir)
  have h5 := fun h => usual_handleDetach (h := h)
  unfold cgenAttach
  repeat' (first | exact calls_pure | exact h1 | exact h2 _ | exact h3 _ | exact h4 | exact h5 _ | refine Calls.bind ?_ fun _ => ?_ | split | dsimp only)

theorem usual_transferLoop {ncpu : Nat} {old new : Handle} : ∀ {n i : Nat}, (transferLoop ncpu old new i n).Calls Call.usual
  | 0, _ => trivial
  | n + 1, i => by
    have h1 := fun i => usual_transferLoop (ncpu := ncpu) (old := old) (new := new) (n := n) (i := i)
    have h2 := fun i => usual_getCounter (h := old) (i := i)
    unfold transferLoop setCounter
    repeat' (first | exact calls_pure | exact h1 _ | exact h2 _ | exact calls_try rfl | refine Calls.bind ?_ fun _ => ?_ | split | dsimp only)

theorem usual_transfer {ncpu n : Nat} {old new : Handle} : (transfer ncpu old new n).Calls Call.usual := by
  unfold transfer
  split
  · exact trivial
  · exact usual_transferLoop

theorem usual_linkUpdate {l : Link} {p : Nat} : (linkUpdate l p).Calls Call.usual := by
  have h1 := fun l => usual_closeAll (l := l)
  unfold linkUpdate linkUpdateNf
  repeat' (first | exact calls_pure | exact h1 _ | exact calls_void rfl | exact calls_try rfl | exact calls_tryId rfl | refine Calls.bind ?_ fun _ => ?_ | split | dsimp only)

theorem usual_updateSwitch {c : Cgen} {chain : Chain} {new : Handle} : (updateSwitch c chain new dir).Calls Call.usual := by
  have h1 := fun h => usual_handleUnpin (dir := dir) (h := h)
  have h2 := fun h => usual_handleFree (h := h)
  have h3 := fun h => usual_handlePin (dir := dir) (h := h)
  have h4 := fun c => usual_persist (dir := dir) (c := c)
  have h5 := fun l p => usual_linkUpdate (l := l) (p := p)
  unfold updateSwitch updateFinish
  repeat' (first | exact calls_pure | exact h1 _ | exact h2 _ | exact h3 _ | exact h4 _ | exact h5 _ _ | refine Calls.bind ?_ fun _ => ?_ | split | dsimp only)

/-! The operations. -/

theorem binds_usual {p : P α} (h : p.Calls Call.usual) : p.Binds Ts AnyKn s := Binds.of_usual h

theorem binds_cgenSet {c : Cgen} {o : Option HookOpts} (hT : Ts T) (hc : c.handle.sets = []) : (cgenSet T c o dir).Binds Ts AnyKn s := by
  have h1 := fun h o => usual_handleAttach (h := h) (hook := c.chain.hook) (o := o)
  have h2 := fun h => usual_handlePin (dir := dir) (h := h)
  have h3 := fun c => usual_persist (dir := dir) (c := c)
  have h4 := fun h => usual_handleUnpin (dir := dir) (h := h)
  unfold cgenSet
  refine Binds.bind (binds_makeProgram hT hc) fun s1 x _ => ?_
  split
  · refine binds_usual ?_
    repeat' (first | exact calls_pure | exact h1 _ _ | exact h2 _ | exact h3 _ | exact h4 _ | refine Calls.bind ?_ fun _ => ?_ | split | dsimp only)
  · exact trivial

theorem binds_cgenLoad {c : Cgen} (hT : Ts T) (hc : c.handle.sets = []) : (cgenLoad T c dir).Binds Ts AnyKn s := by
  have h2 := fun h => usual_handlePin (dir := dir) (h := h)
  have h3 := fun c => usual_persist (dir := dir) (c := c)
  have h4 := fun h => usual_handleUnpin (dir := dir) (h := h)
  unfold cgenLoad
  refine Binds.bind (binds_makeProgram hT hc) fun s1 x _ => ?_
  split
  · refine binds_usual ?_
    repeat' (first | exact calls_pure | exact h2 _ | exact h3 _ | exact h4 _ | refine Calls.bind ?_ fun _ => ?_ | split | dsimp only)
  · exact trivial

theorem binds_cgenUpdate {ncpu : Nat} {c : Cgen} {chain : Chain} {keep : Bool} (hT : Ts T) : (cgenUpdate T ncpu c chain keep dir).Binds Ts AnyKn s := by
  have h1 := fun h => usual_handleFree (h := h)
  have h2 := fun a b n => usual_transfer (ncpu := ncpu) (old := a) (new := b) (n := n)
  have h3 := fun c ch h => usual_updateSwitch (dir := dir) (c := c) (chain := ch) (new := h)
  unfold cgenUpdate
  refine Binds.bind (ok := AnyKn) (binds_alloc fun _ => trivial) fun s1 r _ => ?_
  split
  · refine Binds.bind (binds_makeProgram hT rfl) fun s1 x _ => ?_
    refine binds_usual ?_
    repeat' (first | exact calls_pure | exact h1 _ | exact h2 _ _ _ | exact h3 _ _ _ | refine Calls.bind ?_ fun _ => ?_ | split | dsimp only)
  · exact trivial

theorem binds_withChain {wr : Bool} {f : P (Res α)} (hf : ∀ s, f.Binds Ts AnyKn s) : (withChain dir wr f).Binds Ts AnyKn s := by
  unfold withChain
  refine Binds.bind (binds_usual (calls_try rfl)) fun s1 r _ => ?_
  split
  · refine Binds.bind (binds_usual (calls_try rfl)) fun s1 r _ => ?_
    split
    · exact Binds.bind (hf _) fun _ _ _ => binds_usual (Calls.bind (calls_void rfl) fun _ => trivial)
    · exact trivial
    · exact trivial
  · exact trivial
  · exact trivial

theorem binds_withCgen {f : Cgen → P (Cgen × Res α)} (hf : ∀ s c, (f c).Binds Ts AnyKn s) : (withCgen dir f).Binds Ts AnyKn s := by
  unfold withCgen
  refine Binds.bind (binds_usual usual_newFromDir) fun s1 r _ => ?_
  split
  · exact Binds.bind (hf _ _) fun _ _ _ => binds_usual (Calls.bind usual_handleFree fun _ => trivial)
  · exact trivial
  · exact trivial

theorem usual_copyChain {c : Chain} : (copyChain c).Calls Call.usual := by unfold copyChain; usuals

theorem binds_cgenNew {c : Chain} : (cgenNew c).Binds Ts (fun _ r => ∀ g, r = .ok g → g.handle.sets = []) s := by
  unfold cgenNew
  refine Binds.bind (ok := AnyKn) (binds_alloc fun _ => trivial) fun s1 r _ => ?_
  split
  · exact Binds.pure fun g e => by cases e; rfl
  · exact Binds.pure (by simp)
  · exact Binds.pure (by simp)

theorem binds_putNew {c : Chain} {o : Option HookOpts} (hT : Ts T) : (putNew T c o).Binds Ts AnyKn s := by
  unfold putNew
  refine Binds.bind (binds_usual usual_copyChain) fun s1 r _ => ?_
  split
  · refine Binds.bind (binds_usual (Calls.reads_usual reads_copyOpts)) fun s1 r _ => ?_
    split
    · refine Binds.bind binds_cgenNew fun s1 r hr => ?_
      split
      · refine Binds.bind (binds_usual (calls_try rfl)) fun s1 r _ => ?_
        split
        · exact Binds.bind (binds_cgenSet hT (hr _ rfl)) fun _ _ _ => binds_usual (Calls.bind usual_handleFree fun _ => Calls.bind (calls_void rfl) fun _ => trivial)
        · exact trivial
      · exact trivial
      · exact trivial
    · exact trivial
  · exact trivial
  · exact trivial

theorem usual_dropOld : (dropOld dir).Calls Call.usual := by
  have h1 := usual_newFromDir (dir := dir)
  have h2 := fun c => usual_cgenUnload (dir := dir) (c := c)
  have h3 := fun h => usual_handleFree (h := h)
  unfold dropOld cgenFree
  repeat' (first | exact calls_pure | exact h1 | exact h2 _ | exact h3 _ | exact calls_try rfl | exact calls_void rfl | refine Calls.bind ?_ fun _ => ?_ | split | dsimp only)

theorem binds_chainSet {c : Chain} {o : Option HookOpts} (hT : Ts T) : (chainSet T c o).Binds Ts AnyKn s := by
  unfold chainSet
  refine Binds.bind (binds_usual (calls_try rfl)) fun s1 r _ => ?_
  split
  · refine Binds.bind (binds_usual usual_dropOld) fun s1 r _ => ?_
    split
    · exact binds_putNew hT
    · exact trivial
  · exact trivial

theorem binds_chainLoad {c : Chain} (hT : Ts T) : (chainLoad T c).Binds Ts AnyKn s := by
  unfold chainLoad
  refine Binds.bind (binds_usual (calls_try rfl)) fun s1 r _ => ?_
  split
  · refine Binds.bind (binds_usual (calls_try rfl)) fun s1 r _ => ?_
    split
    · refine Binds.bind (ok := AnyKn) ?_ fun _ _ _ => binds_usual (Calls.bind (calls_void rfl) fun _ => trivial)
      refine Binds.bind (binds_usual usual_copyChain) fun s1 r _ => ?_
      split
      · refine Binds.bind binds_cgenNew fun s1 r hr => ?_
        split
        · exact Binds.bind (binds_cgenLoad hT (hr _ rfl)) fun _ _ _ => binds_usual (Calls.bind usual_handleFree fun _ => trivial)
        · exact trivial
        · exact trivial
      · exact trivial
      · exact trivial
    · exact trivial
  · exact trivial

theorem binds_chainUpdate {ncpu : Nat} {c : Chain} (hT : Ts T) : (chainUpdate T ncpu c).Binds Ts AnyKn s := by
  refine binds_withChain fun s => binds_withCgen fun s c => ?_
  refine Binds.bind (binds_usual usual_copyChain) fun s1 r _ => ?_
  split
  · exact binds_cgenUpdate hT
  · exact trivial
  · exact trivial

theorem binds_chainUpdateSet {ncpu : Nat} {a r : BSet} (hT : Ts T) : (chainUpdateSet T ncpu dir a r).Binds Ts AnyKn s := by
  refine binds_withChain fun s => binds_withCgen fun s c => ?_
  refine Binds.bind (binds_usual (calls_try rfl)) fun s1 r _ => ?_
  split
  · split
    · exact binds_cgenUpdate hT
    · exact trivial
    · exact trivial
  · exact trivial

theorem binds_chainAttach {o : HookOpts} : (chainAttach dir o).Binds Ts AnyKn s := by
  refine binds_withChain fun s => binds_withCgen fun s c => binds_usual ?_
  have h1 := fun c o => usual_cgenAttach (dir := dir) (c := c) (o := o)
  have h2 := fun o => Calls.reads_usual (reads_copyOpts (o := o))
  repeat' (first | exact calls_pure | exact h1 _ _ | exact h2 _ | refine Calls.bind ?_ fun _ => ?_ | split | dsimp only)

theorem binds_chainFlush : (chainFlush dir).Binds Ts AnyKn s :=
  binds_withChain fun s => binds_withCgen fun s c => binds_usual (Calls.bind usual_cgenUnload fun _ => trivial)

theorem binds_putAll (hT : Ts T) : ∀ {cs : List (Chain × Option HookOpts)} {s : Know}, (putAll T cs).Binds Ts AnyKn s
  | [], _ => trivial
  | (c, o) :: cs, s => by
    unfold putAll
    refine Binds.bind (binds_putNew hT) fun s1 r _ => ?_
    split
    · exact binds_putAll hT
    · exact trivial

theorem binds_rulesetSet {cs : List (Chain × Option HookOpts)} (hT : Ts T) : (rulesetSet T cs).Binds Ts AnyKn s := by
  have hf : flushAll.Calls Call.usual := Calls.usual tame_flushAll
  unfold rulesetSet
  refine Binds.bind (binds_usual (calls_try rfl)) fun s1 r _ => ?_
  split
  · refine Binds.bind (binds_usual hf) fun s1 r _ => ?_
    split
    · refine Binds.bind (binds_putAll hT) fun s1 r _ => ?_
      split
      · exact trivial
      · exact binds_usual (Calls.bind hf fun _ => trivial)
    · exact trivial
  · exact trivial

end Bf.Pin

namespace Bf.Cli
open Pin

variable {s : Know} {Ts : Target → Prop} {H : Host}

theorem binds_after {α : Type} {x : Run α} {f : α → P Ended} (hf : ∀ a, (f a).Binds Ts AnyKn s) : (after x f).Binds Ts AnyKn s := by
  unfold after
  split
  all_goals first | exact hf _ | exact trivial

theorem binds_chainCmd {o : CmdLine} {act : Chain → Option HookOpts → P (Res Unit)} (ha : ∀ c h, (act c h).Binds Ts AnyKn s) : (chainCmd H o act).Binds Ts AnyKn s := by
  unfold chainCmd afterRes
  refine binds_after fun rs => binds_after fun c => ?_
  split
  · exact trivial
  · exact Binds.bind (ha _ _) fun _ _ _ => trivial

theorem binds_runCmd {o : CmdLine} {x : Object} {a : Action} (hT : Ts H.T) : (runCmd H o x a).Binds Ts AnyKn s := by
  have hn : ∀ (f : String → P Ended), (∀ n, (f n).Binds Ts AnyKn s) → (named o f).Binds Ts AnyKn s := fun f h => by
    unfold named
    split
    · exact trivial
    · exact h _
  cases x <;> cases a <;> first | exact trivial | skip
  case ruleset.set =>
    show (rulesetSetCmd H o).Binds Ts AnyKn s
    unfold rulesetSetCmd
    refine binds_after fun rs => ?_
    split
    · exact trivial
    · exact Binds.bind (binds_rulesetSet hT) fun _ _ _ => trivial
  case ruleset.get =>
    show (rulesetGetCmd H o).Binds Ts AnyKn s
    refine Binds.bind (binds_usual (Calls.reads_usual reads_rulesetGet)) fun _ r _ => ?_
    exact binds_after fun gs => binds_after fun _ => trivial
  case ruleset.flush =>
    refine Binds.bind (binds_usual ?_) fun _ _ _ => trivial
    unfold rulesetFlush
    have hf : flushAll.Calls Call.usual := Calls.usual tame_flushAll
    usuals
  case chain.set => exact binds_chainCmd fun c h => binds_chainSet hT
  case chain.load => exact binds_chainCmd (act := fun c _ => chainLoad H.T c) fun c h => binds_chainLoad hT
  case chain.update => exact binds_chainCmd (act := fun c _ => chainUpdate H.T H.ncpu c) fun c h => binds_chainUpdate hT
  case chain.get =>
    refine hn _ fun n => Binds.bind (binds_usual (Calls.reads_usual reads_chainGet)) fun _ r _ => ?_
    exact binds_after fun gs => binds_after fun _ => trivial
  case chain.logs =>
    refine hn _ fun n => ?_
    unfold logsCmd
    refine Binds.bind (ok := AnyKn) ?_ fun _ r _ => binds_usual (by usuals)
    refine binds_withChain fun s => binds_withCgen fun s c => binds_usual ?_
    usuals
  case chain.attach => exact hn (fun n => do let r ← chainAttach n o.hookopts; pure (ended r)) fun n => Binds.bind binds_chainAttach fun _ _ _ => trivial
  case chain.flush => exact hn (fun n => do let r ← chainFlush n; pure (ended r)) fun n => Binds.bind binds_chainFlush fun _ _ _ => trivial
  case chain.updateSet =>
    refine hn (fun n => match o.setName with | none => .ret .ub | some s => updateSetCmd H o n s) fun n => ?_
    split
    · exact trivial
    · unfold updateSetCmd
      split
      · exact trivial
      · refine Binds.bind (binds_usual (Calls.reads_usual reads_chainGet)) fun _ r _ => ?_
        refine binds_after fun g => ?_
        split
        · exact trivial
        · split
          · exact trivial
          · exact binds_after fun d => Binds.bind (binds_chainUpdateSet hT) fun _ _ _ => trivial

/-- AnyKn command of `bfcli`, whatever it already knows. -/
theorem binds_main {a1 : List Arg1} {a2 : List (Flag × List Char)} {words : List String} (hT : Ts H.T) : (main H a1 a2 words).Binds Ts AnyKn s := by
  unfold main
  split
  · exact trivial
  · unfold mainCmd
    split
    · exact binds_runCmd hT
    · refine Binds.bind (binds_usual (Calls.usual tame_ctxSetup)) fun _ r _ => ?_
      split
      · exact binds_runCmd hT
      · exact trivial
      · exact trivial

end Bf.Cli
