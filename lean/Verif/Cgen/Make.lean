import Verif.Cgen.Frame
/-!
# Loading a program

What `makeProgram` does, whatever fails.
-/
namespace Bf.Pin

variable {I : K → Prop} {v : K}

theorem newMap_other {d : MapD} (h : d.type ≠ .ctx) {b : List Byte} : newMap d ≠ .map (.bytes b) := by
  unfold newMap
  cases d with
  | mk n t => cases t <;> simp at h ⊢

theorem newMap_keyed {d d' : MapD} {b : List (List Byte × List Byte)} : newMap d ≠ .map (.keyed d' b) := by
  unfold newMap
  cases d with
  | mk n t => cases t <;> simp

theorem newMap_map (d : MapD) : ∃ c, newMap d = .map c := ⟨_, rfl⟩

/-- A map that `mapNew` made. -/
structure NewMap (v : K) (m : BMap) : Prop where
  obj : v.objs[m.id]? = some (newMap m.d)
  name : m.d.name ≠ ""
  elems : m.d.nElems ≠ 0

theorem objName_ne {s : String} (h : s ≠ "") : objName s ≠ "" := by
  intro e
  apply h
  have := congrArg String.toList e
  simp [objName] at this
  exact this

theorem mapNew_safe {name : String} {type : MapType} {bt ks vs n : Nat} {Q : Res BMap → K → Prop}
    (hI : ∀ v', Keep v v' → I v')
    (he : ∀ e v', Keep v v' → Q (.err e) v')
    (hk : ∀ m v', Keep v v' → m.d = ⟨objName name, type, bt, ks, vs, n⟩ → NewMap v' m → v'.objs.length = m.id + 1 → v.objs.length = m.id →
      Q (.ok m) v') : Safe I Q (mapNew name type bt ks vs n) v := by
  unfold mapNew
  have err : Safe I Q (pure (.err .EINVAL)) v := ⟨hI v (.refl v), he _ v (.refl v)⟩
  split
  · exact err
  next h1 =>
  split
  · exact err
  split
  · exact err
  split
  · exact err
  split
  · exact err
  split
  · exact err
  next h6 =>
  refine safe_quiet trivial (hI v (.refl v)) (fun e a => ⟨hI _ ((Keep.refl v).log _ _), he _ _ ((Keep.refl v).log _ _)⟩) fun a => ?_
  refine safe_mapCreate (hI _ ((Keep.refl v).log _ _)) (fun e b => ⟨hI _ (((Keep.refl v).log _ _).log _ _), he _ _ (((Keep.refl v).log _ _).log _ _)⟩) fun b => ?_
  have hK : Keep v (((v.log .alloc a).new (newMap ⟨objName name, type, bt, ks, vs, n⟩)).log (.mapCreate ⟨objName name, type, bt, ks, vs, n⟩) b) :=
    (((Keep.refl v).log _ _).new rfl).log _ _
  refine ⟨hI _ hK, hk _ _ hK rfl ⟨?_, objName_ne h1, h6⟩ (by simp) rfl⟩
  simp

/-- What is known of the maps of a handle being made, and that it has no link. -/
structure Making (v : K) (h : Handle) : Prop where
  maps : ∀ m ∈ h.maps, NewMap v m
  prog : ∀ p, h.prog = some p → IsProg v p
  link : h.link = none

theorem NewMap.keep {v v' : K} {m : BMap} (h : NewMap v m) (hk : Frame v v') : NewMap v' m := ⟨hk.get h.obj, h.name, h.elems⟩

theorem Making.keep {v v' : K} {h : Handle} (hm : Making v h) (hk : Frame v v') : Making v' h :=
  ⟨fun m hx => (hm.maps m hx).keep hk, fun p hp => hk.prog (hm.prog p hp), hm.link⟩

theorem NewMap.isMap {v : K} {m : BMap} (h : NewMap v m) : IsMap v m.id := by
  obtain ⟨c, e⟩ := newMap_map m.d
  exact ⟨c, by rw [h.obj, e]⟩

/-- The map of group number `i`. -/
def SetMap (chain : Chain) (g : List Nat) (i : Nat) (m : BMap) : Prop :=
  ∃ s, groupHead chain.sets g = some s ∧
    m.d = ⟨objName (setMapName i), .set, if s.useTrie then 11 else 1, s.elemSize, (g.length + 7) / 8, (groupEntries chain.sets g).length⟩

/-- The maps of the groups from number `i` on. -/
def SetMaps (chain : Chain) : Groups → Nat → List (Option BMap) → Prop
  | [], _, [] => True
  | g :: gs, i, some m :: ms => SetMap chain g i m ∧ SetMaps chain gs (i + 1) ms
  | _, _, _ => False

theorem loadSets_safe {chain : Chain} {gs : Groups} {i : Nat} {h : Handle} {Q : Handle × Res Unit → K → Prop} (hm : Making v h)
    (hI : ∀ v', Keep v v' → I v')
    (hQ : ∀ h' r v', Keep v v' → Making v' h' → h' = { h with sets := h'.sets } →
      (r = .ok () → ∃ ms, h'.sets = h.sets ++ ms ∧ SetMaps chain gs i ms) → Q (h', r) v') :
    Safe I Q (loadSets chain gs i h) v := by
  induction gs generalizing i h v with
  | nil =>
    exact ⟨hI v (.refl v), hQ h _ v (.refl v) hm rfl fun _ => ⟨[], by simp, trivial⟩⟩
  | cons g gs ih =>
    unfold loadSets
    have err : ∀ r v', Keep v v' → r ≠ .ok () → I v' ∧ Q (h, r) v' := fun r v' hk hr =>
      ⟨hI v' hk, hQ h r v' hk (hm.keep hk.toFrame) rfl fun e => absurd e hr⟩
    split
    · exact err _ v (.refl v) (by simp)
    next s hs =>
    refine safe_quiet trivial (hI v (.refl v)) (fun e a => err _ _ ((Keep.refl v).log _ _) (by simp)) fun a => ?_
    have k1 : Keep v (v.log .alloc a) := (Keep.refl v).log _ _
    refine Safe.bind (mapNew_safe (fun v' hk => hI v' (k1.trans hk)) (fun e v' hk => err _ _ (k1.trans hk) (by simp)) ?_)
    intro m v2 hk hd hn _ _
    have k2 := k1.trans hk
    have hnb : ∀ d b, v2.objs[m.id]? ≠ some (.map (.keyed d b)) := by
      intro d b e
      rw [hn.obj] at e
      exact newMap_keyed (d := m.d) (by injection e)
    refine safe_quiet hnb (hI _ k2) (fun e a => ?_) fun b => ?_
    · refine safe_void (hI _ (k2.log _ _)) fun a' v' hs => ?_
      rw [hs.close]
      exact err _ _ (((k2.log _ _).close hn.isMap.not_link).log _ _) (by simp)
    · have k3 : Keep v (v2.log (.mapFill m.id (groupEntries chain.sets g)) b) := k2.log _ _
      refine ih (h := { h with sets := h.sets ++ [some m] }) ?_ (fun v' hk => hI v' (k3.trans hk)) ?_
      · have hm2 := hm.keep k3.toFrame
        refine ⟨?_, hm2.prog, hm.link⟩
        intro x hx
        simp only [Handle.maps, List.filterMap_append, List.mem_append] at hx
        rcases hx with hx | hx | hx
        · exact hm2.maps x (by simp only [Handle.maps, List.mem_append]; exact .inl hx)
        · exact hm2.maps x (by simp only [Handle.maps, List.mem_append]; exact .inr hx)
        · simp at hx; subst hx; exact hn.keep (Frame.log _ _ _)
      · intro h' r v' hk hm' heq hr
        refine hQ h' r v' (k3.trans hk) hm' (by rw [heq]) fun e => ?_
        obtain ⟨ms, e1, e2⟩ := hr e
        exact ⟨some m :: ms, by rw [e1]; simp, ⟨s, hs, hd⟩, e2⟩

theorem safe_andThen {Q : Handle × Res Unit → K → Prop} {x : Handle × Res Unit} {f : Handle → P (Handle × Res Unit)}
    (hI : I v) (he : x.2 ≠ .ok () → Q x v) (hk : x.2 = .ok () → Safe I Q (f x.1) v) : Safe I Q (andThen x f) v := by
  unfold andThen
  obtain ⟨h, r⟩ := x
  cases r with
  | ok u => exact hk rfl
  | err e => exact ⟨hI, he (by simp)⟩
  | ub => exact ⟨hI, he (by simp)⟩

def cmapD (chain : Chain) : MapD := ⟨objName "bf_cmap", .counters, 6, 4, 16, chain.rules.length + 2⟩
def pmapD (T : Target) : MapD := ⟨objName "bf_pmap", .printer, 2, 4, T.printed, 1⟩
def lmapD : MapD := ⟨objName "bf_lmap", .log, 27, 0, 0, 131072⟩
def smapD (chain : Chain) : MapD := ⟨objName "bf_smap", .state, 2, 4, chain.rules.length * 8, 1⟩

theorem loadCounters_safe {chain : Chain} {h : Handle} {Q : Handle × Res Unit → K → Prop} (hm : Making v h)
    (hI : ∀ v', Keep v v' → I v')
    (hQ : ∀ h' r v', Keep v v' → Making v' h' → h' = { h with cmap := h'.cmap } →
      (r = .ok () → ∃ m, h'.cmap = some m ∧ m.d = cmapD chain) → Q (h', r) v') : Safe I Q (loadCounters chain h) v := by
  unfold loadCounters
  have err : ∀ r v', Keep v v' → r ≠ .ok () → I v' ∧ Q (h, r) v' := fun r v' hk hr =>
    ⟨hI v' hk, hQ h r v' hk (hm.keep hk.toFrame) rfl fun e => absurd e hr⟩
  refine Safe.bind (mapNew_safe hI (fun e v' hk => err _ _ hk (by simp)) ?_)
  intro m v2 hk hd hn _ _
  have hm2 := hm.keep hk.toFrame
  refine ⟨hI _ hk, hQ { h with cmap := some m } _ _ hk ⟨?_, hm2.prog, hm.link⟩ rfl fun _ => ⟨m, rfl, hd⟩⟩
  intro x hx
  simp only [Handle.maps, List.mem_append, Option.toList_some, List.mem_singleton] at hx
  by_cases e : x = m
  · exact e ▸ hn
  · exact hm2.maps x (by simp only [Handle.maps, List.mem_append]; simp only [e, false_or] at hx; rcases hx with ((hx | hx) | hx) | hx <;> simp [hx])

theorem loadPrinter_safe {T : Target} {h : Handle} {Q : Handle × Res Unit → K → Prop} (hm : Making v h)
    (hI : ∀ v', Keep v v' → I v')
    (hQ : ∀ h' r v', Keep v v' → Making v' h' → h' = { h with pmap := h'.pmap } →
      (r = .ok () → ∃ m, h'.pmap = some m ∧ m.d = pmapD T) → Q (h', r) v') : Safe I Q (loadPrinter T h) v := by
  unfold loadPrinter
  have err : ∀ r v', Keep v v' → r ≠ .ok () → I v' ∧ Q (h, r) v' := fun r v' hk hr =>
    ⟨hI v' hk, hQ h r v' hk (hm.keep hk.toFrame) rfl fun e => absurd e hr⟩
  refine safe_quiet trivial (hI v (.refl v)) (fun e a => err _ _ ((Keep.refl v).log _ _) (by simp)) fun a => ?_
  have k1 : Keep v (v.log .alloc a) := (Keep.refl v).log _ _
  refine Safe.bind (mapNew_safe (fun v' hk => hI v' (k1.trans hk)) (fun e v' hk => err _ _ (k1.trans hk) (by simp)) ?_)
  intro m v2 hk hd hn _ _
  have k2 := k1.trans hk
  have hnb : ∀ b, v2.objs[m.id]? ≠ some (.map (.bytes b)) := by
    intro b e
    rw [hn.obj] at e
    exact newMap_other (d := m.d) (by rw [hd]; simp) (by injection e)
  have done : ∀ r a, Q ({ h with pmap := some m }, r) (v2.log (.mapWrite m.id []) a) := by
    intro r a
    have k3 := k2.log (.mapWrite m.id []) a
    have hm2 := hm.keep k3.toFrame
    refine hQ { h with pmap := some m } _ _ k3 ⟨?_, hm2.prog, hm.link⟩ rfl fun _ => ⟨m, rfl, hd⟩
    intro x hx
    simp only [Handle.maps, List.mem_append, Option.toList_some, List.mem_singleton] at hx
    by_cases e : x = m
    · subst e; exact hn.keep (Frame.log _ _ _)
    · exact hm2.maps x (by simp only [Handle.maps, List.mem_append]; simp only [e, or_false] at hx; rcases hx with ((hx | hx) | hx) | hx <;> simp [hx])
  exact safe_quiet hnb (hI _ k2) (fun e a => ⟨hI _ (k2.log _ _), done _ a⟩) fun a => ⟨hI _ (k2.log _ _), done _ a⟩

theorem loadLog_safe {chain : Chain} {h : Handle} {Q : Handle × Res Unit → K → Prop} (hm : Making v h) (h0 : h.lmap = none)
    (hI : ∀ v', Keep v v' → I v')
    (hQ : ∀ h' r v', Keep v v' → Making v' h' → h' = { h with lmap := h'.lmap } →
      (∀ m, h'.lmap = some m → m.d = lmapD) → (r = .ok () → h'.lmap.isSome = chain.flagLog) → Q (h', r) v') : Safe I Q (loadLog chain h) v := by
  unfold loadLog
  have err : ∀ r v', Keep v v' → (r = .ok () → chain.flagLog = false) → I v' ∧ Q (h, r) v' := fun r v' hk hf =>
    ⟨hI v' hk, hQ h r v' hk (hm.keep hk.toFrame) rfl (fun m e => by rw [h0] at e; cases e) fun e => by rw [h0, hf e]; rfl⟩
  split
  · next hfl => exact err _ v (.refl v) fun _ => by simpa using hfl
  next hfl =>
  refine Safe.bind (mapNew_safe hI (fun e v' hk => err _ _ hk (by simp)) ?_)
  intro m v2 hk hd hn _ _
  have hm2 := hm.keep hk.toFrame
  refine ⟨hI _ hk, hQ { h with lmap := some m } _ _ hk ⟨?_, hm2.prog, hm.link⟩ rfl (fun x e => by cases e; exact hd) fun _ => by simpa using hfl⟩
  intro x hx
  simp only [Handle.maps, List.mem_append, Option.toList_some, List.mem_singleton] at hx
  by_cases e : x = m
  · exact e ▸ hn
  · exact hm2.maps x (by simp only [Handle.maps, List.mem_append]; simp only [e, or_false] at hx; rcases hx with ((hx | hx) | hx) | hx <;> simp [hx])

theorem loadState_safe {chain : Chain} {h : Handle} {Q : Handle × Res Unit → K → Prop} (hm : Making v h) (h0 : h.smap = none)
    (hI : ∀ v', Keep v v' → I v')
    (hQ : ∀ h' r v', Keep v v' → Making v' h' → h' = { h with smap := h'.smap } →
      (∀ m, h'.smap = some m → m.d = smapD chain) → Q (h', r) v') : Safe I Q (loadState chain h) v := by
  unfold loadState
  have err : ∀ r v', Keep v v' → I v' ∧ Q (h, r) v' := fun r v' hk =>
    ⟨hI v' hk, hQ h r v' hk (hm.keep hk.toFrame) rfl fun m e => by rw [h0] at e; cases e⟩
  split
  · exact err _ v (.refl v)
  refine Safe.bind (mapNew_safe hI (fun e v' hk => err _ _ hk) ?_)
  intro m v2 hk hd hn _ _
  have hm2 := hm.keep hk.toFrame
  refine ⟨hI _ hk, hQ { h with smap := some m } _ _ hk ⟨?_, hm2.prog, hm.link⟩ rfl fun x e => by cases e; exact hd⟩
  intro x hx
  simp only [Handle.maps, List.mem_append, Option.toList_some, List.mem_singleton] at hx
  by_cases e : x = m
  · exact e ▸ hn
  · exact hm2.maps x (by simp only [Handle.maps, List.mem_append]; simp only [e, or_false] at hx; rcases hx with ((hx | hx) | hx) | hx <;> simp [hx])

/-- A handle with a program loaded for the chain, not attached. -/
structure Ready (T : Target) (chain : Chain) (v : K) (h : Handle) : Prop where
  name : h.progName = objName "bf_prog"
  link : h.link = none
  prog : ∃ p img m, h.prog = some p ∧ h.cmap = some m ∧ v.objs[p]? = some (.prog chain img m.id) ∧
    compile chain T.thr T.slen h.mapFds = .ok img
  cmap : ∀ m, h.cmap = some m → m.d = cmapD chain
  pmap : ∀ m, h.pmap = some m → m.d = pmapD T
  lmap : ∀ m, h.lmap = some m → m.d = lmapD
  smap : ∀ m, h.smap = some m → m.d = smapD chain
  sets : SetMaps chain (buildGroups chain.sets) 0 h.sets
  maps : ∀ m ∈ h.maps, NewMap v m
  logs : h.lmap.isSome = chain.flagLog

theorem makeProgram_safe {T : Target} {chain : Chain} {Q : Handle × Res Unit → K → Prop}
    (hI : ∀ v', Keep v v' → I v')
    (hQ : ∀ h r v', Keep v v' → Making v' h → (r = .ok () → Ready T chain v' h ∧ ∀ p, h.prog = some p → v.objs.length ≤ p) → Q (h, r) v') :
    Safe I Q (makeProgram T chain Handle.new) v := by
  have m0 : ∀ v, Making v Handle.new := fun v => ⟨(fun m hm => by simp [Handle.maps, Handle.new] at hm), (fun p hp => by cases hp), rfl⟩
  unfold makeProgram
  have err : ∀ r v', Keep v v' → r ≠ .ok () → I v' ∧ Q (Handle.new, r) v' := fun r v' hk hr =>
    ⟨hI v' hk, hQ _ r v' hk (m0 _) fun e => absurd e hr⟩
  refine safe_quiet trivial (hI v (.refl v)) (fun e a => err _ _ ((Keep.refl v).log _ _) (by simp)) fun a => ?_
  have k0 : Keep v (v.log .alloc a) := (Keep.refl v).log _ _
  simp only
  cases hg : genProgram ⟨chain, buildGroups chain.sets, T.thr⟩ T.slen with
  | err e => exact err _ _ k0 (by simp)
  | ub => exact err _ _ k0 (by simp)
  | ok prog =>
  simp only
  unfold programLoad
  refine Safe.bind (loadSets_safe (m0 _) (fun v' hk => hI v' (k0.trans hk)) ?_)
  intro h1 r1 v1 hk1 hm1 e1 hr1
  have k1 := k0.trans hk1
  refine safe_andThen (hI _ k1) (fun hr => hQ _ _ _ k1 hm1 fun e => absurd e hr) fun ok1 => ?_
  refine Safe.bind (loadCounters_safe hm1 (fun v' hk => hI v' (k1.trans hk)) ?_)
  intro h2 r2 v2 hk2 hm2 e2 hr2
  have k2 := k1.trans hk2
  refine safe_andThen (hI _ k2) (fun hr => hQ _ _ _ k2 hm2 fun e => absurd e hr) fun ok2 => ?_
  refine Safe.bind (loadPrinter_safe hm2 (fun v' hk => hI v' (k2.trans hk)) ?_)
  intro h3 r3 v3 hk3 hm3 e3 hr3
  have k3 := k2.trans hk3
  refine safe_andThen (hI _ k3) (fun hr => hQ _ _ _ k3 hm3 fun e => absurd e hr) fun ok3 => ?_
  refine Safe.bind (loadLog_safe hm3 (by rw [e3, e2, e1]; rfl) (fun v' hk => hI v' (k3.trans hk)) ?_)
  intro h4 r4 v4 hk4 hm4 e4 hr4 hg4
  have k4 := k3.trans hk4
  refine safe_andThen (hI _ k4) (fun hr => hQ _ _ _ k4 hm4 fun e => absurd e hr) fun ok4 => ?_
  refine Safe.bind (loadState_safe hm4 (by rw [e4, e3, e2, e1]; rfl) (fun v' hk => hI v' (k4.trans hk)) ?_)
  intro h5 r5 v5 hk5 hm5 e5 hr5
  have k5 := k4.trans hk5
  refine safe_andThen (hI _ k5) (fun hr => hQ _ _ _ k5 hm5 fun e => absurd e hr) fun ok5 => ?_
  obtain ⟨mc, c2, d2⟩ := hr2 ok2
  obtain ⟨mp, c3, d3⟩ := hr3 ok3
  have hc5 : h5.cmap = some mc := by rw [e5, e4, e3]; exact c2
  rw [hc5]
  cases hl : loadFixups ⟨chain, buildGroups chain.sets, T.thr⟩ h5.mapFds prog with
  | err e => exact ⟨hI _ k5, hQ _ _ _ k5 hm5 (by simp)⟩
  | ub => exact ⟨hI _ k5, hQ _ _ _ k5 hm5 (by simp)⟩
  | ok img =>
  simp only
  refine safe_progLoad (hI _ k5) (fun e a => ⟨hI _ (k5.log _ _), hQ _ _ _ (k5.log _ _) (hm5.keep (Frame.log _ _ _)) (by simp)⟩) fun b => ?_
  have k6 : Keep v5 ((v5.new (.prog chain img mc.id)).log (.progLoad chain img mc.id) b) := ((Keep.refl v5).new rfl).log _ _
  have hm6 := hm5.keep k6.toFrame
  have eh : ({ h5 with prog := some v5.objs.length, cmap := some mc } : Handle) = { h5 with prog := some v5.objs.length } := by rw [← hc5]
  refine ⟨hI _ (k5.trans k6), ?_⟩
  show Q (({ h5 with prog := some v5.objs.length, cmap := some mc } : Handle), .ok ()) _
  rw [eh]
  refine hQ { h5 with prog := some v5.objs.length } _ _ (k5.trans k6) ?_ fun _ => ?_
  · exact ⟨hm6.maps, fun p hp => by cases hp; exact ⟨chain, img, mc.id, by simp⟩, hm5.link⟩
  · obtain ⟨ms, es, hs⟩ := hr1 ok1
    refine ⟨?_, fun p hp => by
      cases hp
      obtain ⟨g, e⟩ := k5.objs
      rw [e]; simp⟩
    refine ⟨by simp only; rw [e5, e4, e3, e2, e1]; rfl, hm5.link, ⟨_, img, mc, rfl, hc5, by simp, ?_⟩, ?_, ?_, ?_, ?_, ?_, hm6.maps, by simp only; rw [e5]; exact hg4 ok4⟩
    · simp only [compile, hg, Res.bind]
      exact hl
    · intro m hm
      simp only [hc5] at hm
      cases hm
      exact d2
    · intro m hm
      simp only at hm
      rw [e5, e4, c3] at hm
      cases hm
      exact d3
    · intro m hm
      simp only at hm
      rw [e5] at hm
      exact hr4 m hm
    · intro m hm
      exact hr5 m hm
    · have e5s : h5.sets = h1.sets := by rw [e5, e4, e3, e2]
      simp only
      rw [e5s, es]
      simpa [Handle.new] using hs

end Bf.Pin
