import Verif.Cgen.PutAll
/-!
# Operations on all chains: what they do
-/
namespace Bf.Pin

variable {I : K → Prop} {v v0 : K} {dir : String} {T : Target}

/-- Some chain of `L` has a pin named `n` in `d`. -/
def Owned (L : List (Chain × Handle)) (d n : String) : Prop := ∃ x ∈ L, x.1.name = d ∧ (n = "bf_ctx" ∨ x.2.names n)

/-- From `v0` to `v`, the chains `L` were removed, and nothing else. -/
structure NoChain (L : List (Chain × Handle)) (v0 v : K) : Prop where
  ctx : ∀ d, v.pinned d "bf_ctx" = none
  owned : ∀ d n, Owned L d n → v.pinned d n = none
  foreign : ∀ d n, ¬ Owned L d n → v.pinned d n = v0.pinned d n
  objs : ∀ i, i < v0.objs.length → (∀ x ∈ L, i ∉ x.2.linkFds) → v.objs[i]? = v0.objs[i]?
  links : ∀ x ∈ L, ∀ l ∈ x.2.linkFds, ∀ pt q, v.objs[l]? ≠ some (.link pt q false)

theorem Good.link_lt {c : Chain} {h : Handle} (hg : Good T v dir c h) (hw : v.Wf) {l : Nat} (hl : l ∈ h.linkFds) : l < v.objs.length := by
  have key : ∀ {n}, v.pinned dir n = some l → l < v.objs.length := fun h => hw.pins _ (lookup_mem h)
  unfold Handle.linkFds at hl
  cases hk : h.link with
  | none => rw [hk] at hl; cases hl
  | some k =>
    rw [hk] at hl
    have h1 := hg.pins ("bf_link", k.fd) (by simp [Handle.pinList, hk, Link.fds])
    have h2 := hg.extra k hk
    unfold Link.fds at hl
    rcases List.mem_cons.mp hl with rfl | hl
    · exact key h1
    · cases hx : k.extra with
      | none => rw [hx] at hl; cases hl
      | some y =>
        rw [hx] at hl h2
        simp at hl
        subst hl
        exact key h2

theorem Dropped.get {D : List (Chain × Handle)} (h : Dropped D v0 v) {i : Nat} (hi : i < v0.objs.length) : i < v.objs.length := by
  have h0 : v0.objs[i]? = some v0.objs[i] := List.getElem?_eq_getElem hi
  rcases h.links i with e | ⟨_, _, _, _, e⟩
  · rw [h0] at e
    exact (List.getElem?_eq_some_iff.mp e).1
  · exact (List.getElem?_eq_some_iff.mp e).1

/-- Once all chains are removed. -/
theorem Dropped.noChain {L : List (Chain × Handle)} (hL : Chains T v0 L) (hd : Dropped L v0 v) (hr : ∀ x ∈ L, Removed x v) : NoChain L v0 v := by
  have owned : ∀ d n, Owned L d n → v.pinned d n = none := by
    rintro d n ⟨x, hx, rfl, hn⟩
    exact (hr x hx).1 n hn
  refine ⟨fun d => ?_, owned, fun d n hn => ?_, fun i _ hi => hd.objs i hi, fun x hx => (hr x hx).2⟩
  · rcases hd.pins d "bf_ctx" with e | ⟨_, e⟩
    · cases hp : v0.pinned d "bf_ctx" with
      | none => rw [e, hp]
      | some m =>
        obtain ⟨x, hx, hxd⟩ := hL.only d m hp
        exact owned d _ ⟨x, hx, hxd, .inl rfl⟩
    · exact e
  · rcases hd.pins d n with e | ⟨e, _⟩
    · exact e
    · exact absurd e hn

/-- All chains are removed, new ones are put, and these are removed. -/
theorem Puts.noChain {xs : List (Chain × Option HookOpts)} {L L' : List (Chain × Handle)} {v1 v2 : K} (hw : v0.Wf) (hL : Chains T v0 L) (h1 : NoChain L v0 v1)
    (hg : ∀ i, i < v0.objs.length → i < v1.objs.length) (ht : v1.Tree) (h2 : Puts T xs L' v1 v2)
    (ho : ∀ x ∈ L', ∀ n o, v2.pinned x.1.name n = some o → n = "bf_ctx" ∨ x.2.names n)
    (h3 : Dropped L' v2 v) (hr : ∀ x ∈ L', Removed x v) : NoChain L v0 v := by
  -- directories of the new chains are empty
  have empty : ∀ x ∈ L', ∀ n, v.pinned x.1.name n = none := fun x hx n => by
    cases hp : v.pinned x.1.name n with
    | none => rfl
    | some o =>
      rcases h3.pins x.1.name n with e | ⟨_, e⟩
      · rw [e] at hp
        rw [← e] at hp
        have := (hr x hx).1 n (ho x hx n o (by rw [← e]; exact hp))
        rw [this] at hp; cases hp
      · rw [e] at hp; cases hp
  have free : ∀ x ∈ L', ∀ n, v1.pinned x.1.name n = none := fun x hx n => K.Tree.free ht (h2.fresh x hx) n
  have same : ∀ d n, v.pinned d n = v1.pinned d n := fun d n => by
    by_cases hd : ∃ x ∈ L', x.1.name = d
    · obtain ⟨x, hx, rfl⟩ := hd
      rw [empty x hx, free x hx]
    · rw [← h2.other d n fun x hx e => hd ⟨x, hx, e⟩]
      rcases h3.pins d n with e | ⟨⟨x, hx, e, _⟩, _⟩
      · exact e
      · exact absurd ⟨x, hx, e⟩ hd
  obtain ⟨new, e2⟩ := h2.objs
  have obj : ∀ i, i < v1.objs.length → v.objs[i]? = v1.objs[i]? := fun i hi => by
    rw [h3.objs i fun x hx hl => absurd (h2.new x hx i hl) (by omega), e2, List.getElem?_append_left hi]
  refine ⟨fun d => by rw [same, h1.ctx], fun d n h => by rw [same, h1.owned d n h], fun d n h => by rw [same, h1.foreign d n h],
    fun i hi hx => by rw [obj i (hg i hi), h1.objs i hi hx], fun x hx l hl pt q => ?_⟩
  rw [obj l (hg l ((hL.good x hx).link_lt hw hl))]
  exact h1.links x hx l hl pt q

/-- What `bf_ruleset_set` of the chains `cs` over the chains `L` did, when it succeeded: the old chains were removed (all, unless a call failed),
then each chain of `cs` was put. -/
structure Replaced (T : Target) (cs : List (Chain × Option HookOpts)) (L : List (Chain × Handle)) (v0 v : K) : Prop where
  mid : ∃ L' v1, Dropped L v0 v1 ∧ (Bad v0 v1 ∨ ∀ x ∈ L, Removed x v1) ∧ v1.Sane ∧ Puts T cs L' v1 v

theorem rulesetSet_safe {cs : List (Chain × Option HookOpts)} {L : List (Chain × Handle)} (hv : v.Sane) (hL : Chains T v L) (hn : (L.map (·.1.name)).Nodup)
    (hcs : ∀ x ∈ cs, CanPut T x) (hst : ∀ x ∈ cs, staging x.1.name = false) :
    Safe Any (fun r v' => (r = .ok () → Replaced T cs L v v') ∧ (r ≠ .ok () → Still v v' ∨ Bad v v' ∨ NoChain L v v')) (rulesetSet T cs) v := by
  unfold rulesetSet
  refine safe_quiet trivial trivial (fun e a => ⟨trivial, (fun e => by cases e), fun _ => .inl (Still.log _ _ _)⟩) fun a => ?_
  have s1 := Still.log v .lockInit a
  have hv1 : (v.log .lockInit a).Sane := ⟨⟨hv.wf.fds, hv.wf.pins⟩, hv.tree, hv.nodup⟩
  have hL1 := s1.chains hL
  generalize v.log .lockInit a = v1 at *
  refine Safe.bind (Safe.useSane hv1 (flushAll_safe hv1 hL1 hn (fun _ _ => trivial) (fun r v2 hr s2 _ _ _ => ?_) fun v2 d2 hb2 hv2 hh2 => ?_))
  · cases r with
    | ok u => exact absurd rfl hr
    | err e => exact ⟨trivial, (fun e => by cases e), fun _ => .inl (s1.trans s2)⟩
    | ub => exact ⟨trivial, (fun e => by cases e), fun _ => .inl (s1.trans s2)⟩
  have d2' : Dropped L v v2 := (s1.dropped.trans d2).mono (by simp)
  have hb2' : Bad v v2 ∨ ∀ x ∈ L, Removed x v2 := hb2.imp (fun h => h.earlier s1.hist) id
  refine Safe.bind (Safe.useSane hv2 (putAll_safe hv2 hcs (fun _ _ => trivial) (fun r v3 xs L' hr hpre hput hb3 hv3 hh3 => ?_) fun L' v3 hp hput hv3 hh3 => ?_))
  · have tail : ∀ e : Res Unit, e ≠ .ok () → Safe Any (fun r v' => (r = .ok () → Replaced T cs L v v') ∧ (r ≠ .ok () → Still v v' ∨ Bad v v' ∨ NoChain L v v'))
        (do let _ ← flushAll; pure e) v3 := by
      intro e he
      -- a call failed before
      have bad : Bad v v3 → Safe Any (fun r v' => (r = .ok () → Replaced T cs L v v') ∧ (r ≠ .ok () → Still v v' ∨ Bad v v' ∨ NoChain L v v'))
          (do let _ ← flushAll; pure e) v3 := fun hb => by
        refine Safe.bind (Safe.mono (Safe.step (J := fun v' => ∃ g, v'.hist = g ++ v3.hist) (fun v c a v' ⟨g, e⟩ h => ⟨(c, a) :: g, by rw [h.hist, e]; rfl⟩) ⟨[], rfl⟩)
          (fun _ _ => trivial) fun _ v4 _ h4 => ⟨trivial, fun h => absurd h he, fun _ => .inr (.inl (hb.later h4))⟩)
      rcases hb2' with hb | hrm
      · exact bad (hb.later hh3)
      rcases hb3 with hb | hp
      · exact bad (hb.earlier d2'.hist)
      rcases hp.own with hb | hown
      · exact bad (hb.earlier d2'.hist)
      have nc := d2'.noChain hL hrm
      have plain : ∀ x ∈ L', staging x.1.name = false := fun x hx => by
        have : x.1 ∈ xs.map (·.1) := by rw [← hp.chains]; exact List.mem_map.mpr ⟨x, hx, rfl⟩
        obtain ⟨y, hy, e⟩ := List.mem_map.mp this
        rw [← e]
        exact hst y (hpre.subset hy)
      have ch : Chains T v3 L' := by
        refine ⟨hp.good, fun d m hm => ?_, plain⟩
        by_cases hd : ∃ x ∈ L', x.1.name = d
        · exact hd
        · rw [hp.other d _ fun x hx e => hd ⟨x, hx, e⟩, nc.ctx] at hm
          cases hm
      refine Safe.bind (flushAll_safe hv3 ch hp.nodup (fun _ _ => trivial) (fun r v4 hr s4 hb4 => ?_) fun v4 d4 hb4 => ?_)
      · exact ⟨trivial, fun h => absurd h he, fun _ => .inr (.inl (hb4.earlier (hist_trans d2'.hist hh3)))⟩
      · refine ⟨trivial, fun h => absurd h he, fun _ => .inr ?_⟩
        rcases hb4 with hb4 | hr4
        · exact .inl (hb4.earlier (hist_trans d2'.hist hh3))
        · exact .inr (hp.noChain hv.wf hL nc (fun i hi => d2'.get hi) hv2.tree hown d4 hr4)
    cases r with
    | ok u => exact absurd rfl hr
    | err e => exact tail _ hr
    | ub => exact tail _ hr
  · exact ⟨trivial, fun _ => ⟨L', v2, d2', hb2', hv2, hp⟩, fun e => absurd rfl e⟩

theorem rulesetFlush_safe {L : List (Chain × Handle)} (hv : v.Sane) (hL : Chains T v L) (hn : (L.map (·.1.name)).Nodup) :
    Safe (fun v' => Dropped L v v') (fun r v' => (r = .ok () → Dropped L v v' ∧ (Bad v v' ∨ NoChain L v v')) ∧ (r ≠ .ok () → Still v v')) rulesetFlush v := by
  unfold rulesetFlush
  have d0 : ∀ {v'}, Still v v' → Dropped L v v' := fun s => s.dropped.mono (by simp)
  refine safe_quiet trivial (d0 (.refl v)) (fun e a => ⟨d0 (Still.log _ _ _), (fun e => by cases e), fun _ => Still.log _ _ _⟩) fun a => ?_
  have s1 := Still.log v .lockInit a
  have hv1 : (v.log .lockInit a).Sane := ⟨⟨hv.wf.fds, hv.wf.pins⟩, hv.tree, hv.nodup⟩
  have hL1 := s1.chains hL
  generalize v.log .lockInit a = v1 at *
  have up : ∀ {v'}, Dropped L v1 v' → Dropped L v v' := fun d => (s1.dropped.trans d).mono (by simp)
  refine flushAll_safe hv1 hL1 hn (fun v' d => up d) (fun r v2 hr s2 _ => ⟨fun e => absurd e hr, fun _ => s1.trans s2⟩) fun v2 d2 hb => ⟨fun _ => ⟨up d2, ?_⟩, fun e => absurd rfl e⟩
  exact hb.imp (fun h => h.earlier s1.hist) fun h => (up d2).noChain hL h

/-! ## Reading -/

theorem Lg.of {a b : K} (h : Lg a b) : Still a b := h.still

/-- What was read of the chains `ys`. -/
structure GotAll (ys : List (Chain × Handle)) (v0 v : K) (gs : List Got) : Prop where
  len : gs.length = ys.length
  each : ∀ (i : Nat) y g, ys[i]? = some y → gs[i]? = some g → ∃ m, y.2.cmap = some m ∧ GotOk y.1 y.2 m.id v0 v g

theorem getAll_safe {Q : Res (List Got) → K → Prop} {ys : List (Chain × Handle)} (hm : ∀ y ∈ ys, y.2.cmap.isSome = true)
    (hI : ∀ v', Still v v' → I v') (hE : ∀ r v', (∀ g, r ≠ .ok g) → Still v v' → Q r v')
    (hK : ∀ gs v', Still v v' → GotAll ys v v' gs → Q (.ok gs) v') : Safe I Q (getAll (ys.map cgenOf)) v := by
  induction ys generalizing v Q with
  | nil => exact ⟨hI v (.refl v), hK [] v (.refl v) ⟨rfl, fun i y g h => by cases h⟩⟩
  | cons y ys ih =>
    obtain ⟨m, em⟩ := Option.isSome_iff_exists.mp (hm y (by simp))
    have err : ∀ r v', (∀ g, r ≠ .ok g) → Still v v' → I v' ∧ Q r v' := fun r v' a b => ⟨hI v' b, hE r v' a b⟩
    show Safe I Q (chainGetOpen ⟨y.1, y.2⟩ >>= _) v
    refine Safe.bind (chainGetOpen_safe em (fun v' h => hI v' h.still) (fun r v' hr h => ?_) fun g v1 h1 hg => ?_)
    · cases r with
      | ok g => exact absurd rfl (hr g)
      | err e => exact err _ _ (by simp) h.still
      | ub => exact err _ _ (by simp) h.still
    · refine Safe.bind (ih (fun y hy => hm y (by simp [hy])) (fun v' h => hI v' (h1.still.trans h)) (fun r v' hr h => ?_) fun gs v2 h2 hgs => ?_)
      · cases r with
        | ok g => exact absurd rfl (hr g)
        | err e => exact err _ _ (by simp) (h1.still.trans h)
        | ub => exact err _ _ (by simp) (h1.still.trans h)
      · refine ⟨hI _ (h1.still.trans h2), hK _ _ (h1.still.trans h2) ⟨by simp [hgs.len], fun i y' g' hy hg' => ?_⟩⟩
        cases i with
        | zero => cases hy; cases hg'; exact ⟨m, em, hg.later h2.hist⟩
        | succ i =>
          obtain ⟨m', e1, e2⟩ := hgs.each i y' g' hy hg'
          exact ⟨m', e1, e2.earlier h1.hist⟩

theorem rulesetGet_safe {L : List (Chain × Handle)} (hv : v.Sane) (hL : Chains T v L) (hn : (L.map (·.1.name)).Nodup) (hm : ∀ y ∈ L, y.2.cmap.isSome = true) :
    Safe (Still v) (fun r v' => Still v v' ∧ ∀ gs, r = .ok gs → ∃ ys : List (Chain × Handle), (∀ y ∈ ys, y ∈ L) ∧ (ys.map (·.1.name)).Nodup ∧ (Bad v v' ∨ ∀ x ∈ L, x ∈ ys) ∧
      GotAll ys v v' gs) rulesetGet v := by
  unfold rulesetGet
  refine safe_quiet trivial (Still.refl v) (fun e a => ⟨Still.log _ _ _, Still.log _ _ _, fun gs h => by cases h⟩) fun a => ?_
  have s1 := Still.log v .lockInit a
  have hv1 : (v.log .lockInit a).Sane := ⟨⟨hv.wf.fds, hv.wf.pins⟩, hv.tree, hv.nodup⟩
  have hL1 := s1.chains hL
  generalize v.log .lockInit a = v1 at *
  refine Safe.bind (getCgens_safe hv1 hL1 hn (fun v' s => s1.trans s) (fun r v' hr s _ => ?_) fun ys v2 s2 hy hnd hall => ?_)
  · cases r with
    | ok c => exact absurd rfl (hr c)
    | err e => exact ⟨s1.trans s, s1.trans s, fun gs h => by cases h⟩
    | ub => exact ⟨s1.trans s, s1.trans s, fun gs h => by cases h⟩
  have s2' := s1.trans s2
  have fin : ∀ (r : Res (List Got)) v3, Still v v3 → (∀ v4, Still v3 v4 → ∀ gs, r = .ok gs → ∃ ys : List (Chain × Handle), (∀ y ∈ ys, y ∈ L) ∧ (ys.map (·.1.name)).Nodup ∧
      (Bad v v4 ∨ ∀ x ∈ L, x ∈ ys) ∧ GotAll ys v v4 gs) →
      Safe (Still v) (fun r v' => Still v v' ∧ ∀ gs, r = .ok gs → ∃ ys : List (Chain × Handle), (∀ y ∈ ys, y ∈ L) ∧ (ys.map (·.1.name)).Nodup ∧ (Bad v v' ∨ ∀ x ∈ L, x ∈ ys) ∧
        GotAll ys v v' gs) (do freeAll (ys.map cgenOf); pure r) v3 := fun r v3 s3 hg =>
    Safe.bind (freeAll_safe (fun v' s => s3.trans s) fun v4 s4 => ⟨s3.trans s4, s3.trans s4, hg v4 s4⟩)
  refine Safe.bind (getAll_safe (fun y h => hm y (hy y h)) (fun v' s => s2'.trans s) (fun r v3 hr s3 => ?_) fun gs v3 s3 hg => ?_)
  · exact fin r v3 (s2'.trans s3) fun v4 _ gs e => absurd e (hr gs)
  · refine fin _ v3 (s2'.trans s3) fun v4 s4 gs' e => ?_
    cases e
    refine ⟨ys, hy, hnd, hall.imp (fun h => (h.later (s3.trans s4).hist).earlier s1.hist) id, hg.len, fun i y g h1 h2 => ?_⟩
    obtain ⟨m, e1, e2⟩ := hg.each i y g h1 h2
    exact ⟨m, e1, (e2.later s4.hist).earlier s2'.hist⟩

end Bf.Pin
