import Verif.Cgen.Ruleset
import Verif.Cgen.Crash2
/-!
# Removing all chains
-/
namespace Bf.Pin

variable {I : K → Prop} {v v0 : K} {dir : String} {T : Target}

/-- Descriptors and pins are of objects that exist, pins are in directories that exist, which have different names. -/
structure K.Sane (w : K) : Prop where
  wf : w.Wf
  tree : w.Tree
  nodup : w.dirs.Nodup

theorem AStep.sane {v v' : K} {c : Call} {a : Ans} (h : AStep v c a v') (hs : v.Sane) : v'.Sane := by
  refine ⟨h.wf hs.wf, ?_, ?_⟩
  · have ht := hs.tree
    cases h with
    | fail => exact ht
    | ctrRead => exact ht
    | ctrWrite => exact ht
    | mapCreate => exact ht
    | ok h1 h2 h3 h =>
      have key : ∀ w1 : K, w1.Tree → (w1.log c a).Tree := fun _ h => h
      refine key _ ?_
      cases c <;> simp only [K.ok] at h
      case create =>
        split at h
        · cases h
        · cases h; exact fun x hx => List.mem_cons_of_mem _ (ht x hx)
      case release =>
        split at h
        · next e =>
          cases h
          exact fun x hx => List.mem_filter.mpr ⟨ht x hx, by simpa using e.2 x hx⟩
        · cases h; exact ht
      case rmTree =>
        cases h
        intro x hx
        obtain ⟨hx1, hx2⟩ := List.mem_filter.mp hx
        exact List.mem_filter.mpr ⟨ht x hx1, by simpa using hx2⟩
      case pin =>
        split at h
        · cases h
        · split at h
          · next e =>
            cases h
            intro x hx
            rcases List.mem_cons.mp hx with rfl | hx
            · exact e.2
            · exact ht x hx
          · cases h
      case unlink =>
        split at h
        · cases h; exact fun x hx => ht x ((List.mem_filter.mp hx).1)
        · cases h
      case rename =>
        split at h
        · next o e =>
          cases h
          intro x hx
          rcases List.mem_cons.mp hx with rfl | hx
          · exact K.Tree.mem (w := v) ht e
          · exact ht x ((List.mem_filter.mp hx).1)
        · cases h
      case mapCreate => exact absurd rfl (h1 _)
      all_goals first
        | (cases h; exact ht)
        | (split at h <;> first | (cases h; exact ht) | (cases h) | (split at h <;> first | (cases h; exact ht) | (cases h)))
  · have ht := hs.nodup
    cases h with
    | fail => exact ht
    | ctrRead => exact ht
    | ctrWrite => exact ht
    | mapCreate => exact ht
    | ok h1 h2 h3 h =>
      have key : ∀ w1 : K, w1.dirs.Nodup → (w1.log c a).dirs.Nodup := fun _ h => h
      refine key _ ?_
      cases c <;> simp only [K.ok] at h
      case create =>
        split at h
        · cases h
        · next e => cases h; exact List.nodup_cons.mpr ⟨e, ht⟩
      case release =>
        split at h
        · cases h; exact ht.filter _
        · cases h; exact ht
      case rmTree => cases h; exact ht.filter _
      case mapCreate => exact absurd rfl (h1 _)
      all_goals first
        | (cases h; exact ht)
        | (split at h <;> first | (cases h; exact ht) | (cases h) | (split at h <;> first | (cases h; exact ht) | (cases h)))

/-- What every call keeps may be used at the end. -/
theorem Safe.useSane {α : Type} {Q : α → K → Prop} {p : P α} {v : K} (hv : v.Sane)
    (h : Safe I (fun a v' => v'.Sane → (∃ g, v'.hist = g ++ v.hist) → Q a v') p v) : Safe I Q p v := by
  have := h.and (Safe.step (p := p) (J := fun v' => v'.Sane ∧ ∃ g, v'.hist = g ++ v.hist) (fun v1 c a v' h1 hs => ⟨hs.sane h1.1, by
    obtain ⟨g, e⟩ := h1.2
    exact ⟨(c, a) :: g, by rw [hs.hist, e]; rfl⟩⟩) ⟨hv, [], rfl⟩)
  exact this.mono (fun _ h => h.1) fun a v' _ h => h.1 h.2.1 h.2.2

/-- From `v0` to `v`, only descriptors were opened and closed. -/
structure Still (v0 v : K) : Prop where
  objs : v.objs = v0.objs
  dirs : v.dirs = v0.dirs
  pins : v.pins = v0.pins
  hist : ∃ g, v.hist = g ++ v0.hist

theorem Still.refl (v : K) : Still v v := ⟨rfl, rfl, rfl, ⟨[], rfl⟩⟩
theorem Still.trans {a b c : K} (h : Still a b) (h' : Still b c) : Still a c :=
  ⟨h'.objs.trans h.objs, h'.dirs.trans h.dirs, h'.pins.trans h.pins, hist_trans h.hist h'.hist⟩
theorem Still.log (v : K) (c : Call) (a : Ans) : Still v (v.log c a) := ⟨rfl, rfl, rfl, ⟨[_], rfl⟩⟩
theorem Open.still {ids : List Nat} (h : Open dir ids v0 v) : Still v0 v := ⟨h.objs, h.dirs, h.pins, h.hist⟩
theorem Lg.still (h : Lg v0 v) : Still v0 v := ⟨h.objs, h.dirs, h.pins, h.hist⟩
theorem Closed.still {os : List Nat} (h : Closed os v0 v) : Still v0 v := ⟨h.objs, h.dirs, h.pins, h.hist⟩
theorem Still.pinned (h : Still v0 v) (d n : String) : v.pinned d n = v0.pinned d n := by unfold K.pinned; rw [h.pins]
theorem Still.good {c : Chain} {h : Handle} (hs : Still v0 v) (hg : Good T v0 dir c h) : Good T v dir c h :=
  hg.keep (fun _ _ ho => by rw [hs.objs]; exact ho) fun n => hs.pinned dir n

theorem AStep.release_read {v' : K} {a : Ans} (h : AStep v (.release dir false) a v') : v' = v.log (.release dir false) a := by
  cases h with
  | fail => rfl
  | ok _ _ _ h => cases h; rfl

theorem AStep.acquire_fail {v' : K} {e : Errno} (h : AStep v (.acquire dir) (.fail e) v') (hd : dir ∈ v.dirs) : e ≠ .ENOENT := by
  rintro rfl
  cases h with
  | fail hc => exact hc rfl hd
  | ok _ _ _ h => simp only [K.ok, hd, if_true] at h; cases h

theorem AStep.readdir {v' : K} {a : Ans} (h : AStep v .readdir a v') :
    (∃ e, a = .fail e ∧ e ≠ .ENOENT ∧ v' = v.log .readdir a) ∨ (a = .names v.dirs ∧ v' = v.log .readdir a) := by
  cases h with
  | fail h => exact .inl ⟨_, rfl, h, rfl⟩
  | ok _ _ _ h => cases h; exact .inr ⟨rfl, rfl⟩

/-- `L` are the chains that are held, with what each has pinned.  They share no link, and `staging` directories hold no chain. -/
structure Chains (T : Target) (v : K) (L : List (Chain × Handle)) : Prop where
  good : ∀ x ∈ L, Good T v x.1.name x.1 x.2
  only : ∀ d m, v.pinned d "bf_ctx" = some m → ∃ x ∈ L, x.1.name = d
  plain : ∀ x ∈ L, staging x.1.name = false

theorem Still.chains {L : List (Chain × Handle)} (hs : Still v0 v) (h : Chains T v0 L) : Chains T v L :=
  ⟨fun x hx => hs.good (h.good x hx), fun d m e => h.only d m (by rw [← hs.pinned]; exact e), h.plain⟩

/-- The chain, opened. -/
def cgenOf (y : Chain × Handle) : Cgen := ⟨y.1, y.2⟩

theorem getCgensLoop_safe {Q : List Cgen → K → Prop} {ns : List String} {L : List (Chain × Handle)} (hL : Chains T v0 L)
    (hs : Still v0 v) (hn : ∀ n ∈ ns, n ∈ v0.dirs) (hI : ∀ v', Still v0 v' → I v')
    (hQ : ∀ (ys : List (Chain × Handle)) v', Still v0 v' → (∀ y ∈ ys, y ∈ L) → (ys.map (·.1.name)).Sublist ns → (Bad v0 v' ∨ ∀ n ∈ ns, v0.pinned n "bf_ctx" ≠ none → ∃ y ∈ ys, y.1.name = n) →
      Q (ys.map cgenOf) v') : Safe I Q (getCgensLoop ns) v := by
  induction ns generalizing v Q with
  | nil => exact ⟨hI v hs, hQ [] v hs (by simp) (by simp) (.inr (by simp))⟩
  | cons n ns ih =>
    unfold getCgensLoop
    refine ⟨hI v hs, fun a v1 hs1 => ?_⟩
    rcases hs1.readdir with ⟨e, rfl, he, rfl⟩ | ⟨rfl, rfl⟩
    · have s1 := hs.trans (Still.log v .readdir (.fail e))
      exact ⟨hI _ s1, hQ [] _ s1 (by simp) (by simp) (.inl (Bad.now hs.hist rfl he))⟩
    have s1 := hs.trans (Still.log v .readdir (.names v.dirs))
    generalize v.log .readdir (.names v.dirs) = v1 at *
    dsimp only
    have hn' : ∀ m ∈ ns, m ∈ v0.dirs := fun m hm => hn m (by simp [hm])
    -- the entry is skipped
    have skip : ∀ v2, Still v0 v2 → (Bad v0 v2 ∨ v0.pinned n "bf_ctx" = none) → Safe I Q (getCgensLoop ns) v2 := by
      intro v2 s2 hb
      refine Safe.mono (Safe.and (ih (Q := fun cs v' => ∃ ys : List (Chain × Handle), cs = ys.map cgenOf ∧ Still v0 v' ∧ (∀ y ∈ ys, y ∈ L) ∧ (ys.map (·.1.name)).Sublist ns ∧
        (Bad v0 v' ∨ ∀ n ∈ ns, v0.pinned n "bf_ctx" ≠ none → ∃ y ∈ ys, y.1.name = n)) s2 hn' fun ys v' a b c d => ⟨ys, rfl, a, b, c, d⟩)
        (Safe.step (J := fun v' => ∃ g, v'.hist = g ++ v2.hist) (fun v c a v' ⟨g, e⟩ h => ⟨(c, a) :: g, by rw [h.hist, e]; rfl⟩) ⟨[], rfl⟩)) (fun _ h => h.1) ?_
      rintro cs v' _ ⟨⟨ys, rfl, a, b, c, d⟩, hh⟩
      refine hQ ys v' a b (c.cons _) ?_
      rcases hb with hb | hb
      · exact .inl (hb.later hh)
      · refine d.imp id fun d m hm hne => ?_
        rcases List.mem_cons.mp hm with rfl | hm
        · exact absurd hb hne
        · exact d m hm hne
    split
    · next hst =>
      refine skip v1 s1 (.inr ?_)
      cases hp : v0.pinned n "bf_ctx" with
      | none => rfl
      | some m =>
        obtain ⟨x, hx, hxn⟩ := hL.only n m hp
        have := hL.plain x hx
        rw [hxn, hst] at this
        cases this
    · next hst =>
      refine safe_try (hI _ s1) (fun e v2 hs2 => ?_) fun a v2 hs2 _ => ?_
      · have hne := hs2.acquire_fail (by rw [s1.dirs]; exact hn n (by simp))
        rw [hs2.quiet trivial]
        exact skip _ (s1.trans (Still.log _ _ _)) (.inl (Bad.now s1.hist rfl hne))
      · rw [hs2.quiet trivial]
        have s2 := s1.trans (Still.log v1 (.acquire n) a)
        generalize v1.log (.acquire n) a = v2 at *
        have skip' : ∀ v3, Still v0 v3 → (Bad v0 v3 ∨ v0.pinned n "bf_ctx" = none) → Safe I Q (do void (.release n false); getCgensLoop ns) v3 := by
          intro v3 s3 hb
          refine safe_void (hI _ s3) fun a v4 hs4 => ?_
          rw [hs4.release_read]
          exact skip _ (s3.trans (Still.log _ _ _)) (hb.imp (fun h => h.log _ _) id)
        cases hp : v0.pinned n "bf_ctx" with
        | none =>
          refine Safe.bind (newFromDir_none (by rw [s2.pinned]; exact hp) (hI _ s2) fun e a => ?_)
          have s3 := s2.trans (Still.log v2 (.get n "bf_ctx") a)
          exact ⟨hI _ s3, skip' _ s3 (.inr hp)⟩
        | some m =>
          obtain ⟨x, hx, hxn⟩ := hL.only n m hp
          subst hxn
          refine Safe.bind (newFromDir_safe (s2.good (hL.good x hx)).toStored (fun v' ids ho => hI _ (s2.trans ho.still)) (fun r v3 hr _ hb ho => ?_) fun v3 ho => ?_)
          · have s3 := s2.trans ho.still
            have hb' : Bad v0 v3 := hb.earlier s2.hist
            cases r with
            | ok c => exact absurd rfl (hr c)
            | err e => exact skip' _ s3 (.inl hb')
            | ub => exact skip' _ s3 (.inl hb')
          · have s3 := s2.trans ho.still
            refine safe_void (hI _ s3) fun a v4 hs4 => ?_
            rw [hs4.release_read]
            have s4 := s3.trans (Still.log v3 (.release x.1.name false) a)
            generalize v3.log (.release x.1.name false) a = v4 at *
            refine Safe.bind (ih s4 hn' fun ys v' a b c d => ?_)
            refine ⟨hI _ a, hQ (x :: ys) v' a ?_ (List.Sublist.cons_cons _ c) (d.imp id fun d m hm hne => ?_)⟩
            · intro y hy
              rcases List.mem_cons.mp hy with rfl | hy
              · exact hx
              · exact b y hy
            · rcases List.mem_cons.mp hm with rfl | hm
              · exact ⟨x, by simp, rfl⟩
              · obtain ⟨y, hy, e⟩ := d m hm hne
                exact ⟨y, by simp [hy], e⟩

theorem Chains.eq_of_name {L ys : List (Chain × Handle)} (hn : (L.map (·.1.name)).Nodup) (hy : ∀ y ∈ ys, y ∈ L)
    {x : Chain × Handle} (hx : x ∈ L) (h : ∃ y ∈ ys, y.1.name = x.1.name) : x ∈ ys := by
  obtain ⟨y, h1, h2⟩ := h
  have : y = x := by
    have hp := List.pairwise_map.mp hn
    rcases List.getElem_of_mem (hy y h1) with ⟨i, hi, rfl⟩
    rcases List.getElem_of_mem hx with ⟨j, hj, rfl⟩
    rw [List.pairwise_iff_getElem] at hp
    rcases Nat.lt_trichotomy i j with h | h | h
    · exact absurd h2 (hp i j hi hj h)
    · subst h; rfl
    · exact absurd h2.symm (hp j i hj hi h)
  rw [← this]; exact h1

/-- `bf_ctx_get_cgens`: it finds chains, all of them unless some call failed. -/
theorem getCgens_safe {Q : Res (List Cgen) → K → Prop} {L : List (Chain × Handle)} (hv : v.Sane) (hL : Chains T v L) (hn : (L.map (·.1.name)).Nodup)
    (hI : ∀ v', Still v v' → I v') (hE : ∀ r v', (∀ c, r ≠ .ok c) → Still v v' → Bad v v' → Q r v')
    (hK : ∀ (ys : List (Chain × Handle)) v', Still v v' → (∀ y ∈ ys, y ∈ L) → (ys.map (·.1.name)).Nodup → (Bad v v' ∨ ∀ x ∈ L, x ∈ ys) → Q (.ok (ys.map cgenOf)) v') :
    Safe I Q getCgens v := by
  unfold getCgens
  refine ⟨hI _ (.refl v), fun b v2 hs2 => ?_⟩
  rcases hs2.readdir with ⟨e, rfl, he, rfl⟩ | ⟨rfl, rfl⟩
  · exact ⟨hI _ (Still.log _ _ _), hE _ _ (by simp) (Still.log _ _ _) (Bad.now ⟨[], rfl⟩ rfl he)⟩
  have s2 := Still.log v .readdir (.names v.dirs)
  generalize v.log .readdir (.names v.dirs) = v2 at *
  refine Safe.bind (getCgensLoop_safe hL s2 (fun n h => h) hI fun ys v' a b c d => ?_)
  refine ⟨hI _ a, hK ys v' a b (c.nodup hv.nodup) (d.imp id fun d x hx => ?_)⟩
  obtain ⟨m, _, hm, _⟩ := (hL.good x hx).ctx
  exact Chains.eq_of_name hn b hx (d _ (K.Tree.mem hv.tree hm) (by rw [hm]; simp))

/-! ## Unloading -/

/-- From `v0` to `v`, only what belongs to the chains of `D` was removed. -/
structure Dropped (D : List (Chain × Handle)) (v0 v : K) : Prop where
  objs : ∀ i, (∀ x ∈ D, i ∉ x.2.linkFds) → v.objs[i]? = v0.objs[i]?
  links : ∀ (i : Nat), v.objs[i]? = v0.objs[i]? ∨ ∃ pt q d, v0.objs[i]? = some (.link pt q d) ∧ v.objs[i]? = some (.link pt q true)
  pins : ∀ d n, v.pinned d n = v0.pinned d n ∨ ((∃ x ∈ D, x.1.name = d ∧ (n = "bf_ctx" ∨ x.2.names n)) ∧ v.pinned d n = none)
  dirs : ∀ d ∈ v.dirs, d ∈ v0.dirs
  kept : ∀ d ∈ v0.dirs, d ∈ v.dirs ∨ ∃ x ∈ D, x.1.name = d
  hist : ∃ g, v.hist = g ++ v0.hist

theorem Still.dropped (h : Still v0 v) : Dropped [] v0 v :=
  ⟨fun i _ => by rw [h.objs], fun i => .inl (by rw [h.objs]), fun d n => .inl (h.pinned d n), fun d hd => by rw [← h.dirs]; exact hd,
    fun d hd => .inl (by rw [h.dirs]; exact hd), h.hist⟩

theorem Dropped.trans {D D' : List (Chain × Handle)} {a b c : K} (h : Dropped D a b) (h' : Dropped D' b c) : Dropped (D ++ D') a c := by
  refine ⟨fun i hi => ?_, fun i => ?_, fun d n => ?_, fun d hd => h.dirs d (h'.dirs d hd), fun d hd => ?_, hist_trans h.hist h'.hist⟩
  · rw [h'.objs i fun x hx => hi x (by simp [hx]), h.objs i fun x hx => hi x (by simp [hx])]
  · rcases h'.links i with e | ⟨pt, q, d, e1, e2⟩
    · rw [e]; exact h.links i
    · rcases h.links i with e | ⟨pt', q', d', e1', e2'⟩
      · exact .inr ⟨pt, q, d, by rw [← e]; exact e1, e2⟩
      · rw [e2'] at e1
        cases e1
        exact .inr ⟨pt, q, d', e1', e2⟩
  · rcases h'.pins d n with e | ⟨⟨x, hx, e1, e2⟩, e3⟩
    · rcases h.pins d n with e' | ⟨⟨x, hx, e1, e2⟩, e3⟩
      · exact .inl (e.trans e')
      · exact .inr ⟨⟨x, by simp [hx], e1, e2⟩, e.trans e3⟩
    · exact .inr ⟨⟨x, by simp [hx], e1, e2⟩, e3⟩
  · rcases h.kept d hd with e | ⟨x, hx, e⟩
    · rcases h'.kept d e with e | ⟨x, hx, e⟩
      · exact .inl e
      · exact .inr ⟨x, by simp [hx], e⟩
    · exact .inr ⟨x, by simp [hx], e⟩

theorem Dropped.mono {D D' : List (Chain × Handle)} (h : Dropped D v0 v) (hd : ∀ x ∈ D, x ∈ D') : Dropped D' v0 v :=
  ⟨fun i hi => h.objs i fun x hx => hi x (hd x hx), h.links, fun d n => (h.pins d n).imp id fun ⟨⟨x, hx, e⟩, e'⟩ => ⟨⟨x, hd x hx, e⟩, e'⟩, h.dirs,
    fun d hd' => (h.kept d hd').imp id fun ⟨x, hx, e⟩ => ⟨x, hd x hx, e⟩, h.hist⟩

theorem Gone.dropped {y : Chain × Handle} (h : Gone y.2 y.1.name v0 v) : Dropped [y] v0 v := by
  refine ⟨fun i hi => h.objs i (hi y (by simp)), h.links, fun d n => ?_, fun d hd => by rw [← h.dirs]; exact hd,
    fun d hd => .inl (by rw [h.dirs]; exact hd), h.hist⟩
  rcases h.pins d n with e | ⟨e1, e2, e3⟩
  · exact .inl e
  · exact .inr ⟨⟨y, by simp, e1.symm, e2⟩, e3⟩

theorem Released.dropped {y : Chain × Handle} (h : Released y.1.name v0 v) : Dropped [y] v0 v := by
  refine ⟨fun i hi => by rw [h.objs], fun i => .inl (by rw [h.objs]), fun d n => .inl (h.pinned d n), fun d hd => ?_, fun d hd => ?_, h.hist⟩
  · rcases h.dirs with e | ⟨_, e⟩
    · rw [← e]; exact hd
    · rw [e] at hd; exact (List.mem_filter.mp hd).1
  · rcases h.dirs with e | ⟨_, e⟩
    · exact .inl (by rw [e]; exact hd)
    · by_cases hdn : d = y.1.name
      · exact .inr ⟨y, by simp, hdn.symm⟩
      · exact .inl (by rw [e]; exact List.mem_filter.mpr ⟨hd, by simpa using hdn⟩)

/-- Nothing of the chain is pinned, and its links attach nothing. -/
def Removed (x : Chain × Handle) (v : K) : Prop :=
  (∀ n, n = "bf_ctx" ∨ x.2.names n → v.pinned x.1.name n = none) ∧ ∀ l ∈ x.2.linkFds, ∀ pt q, v.objs[l]? ≠ some (.link pt q false)

theorem Dropped.removed {D : List (Chain × Handle)} {x : Chain × Handle} (h : Dropped D v0 v) (hr : Removed x v0) : Removed x v := by
  refine ⟨fun n hn => ?_, fun l hl pt q e => ?_⟩
  · rcases h.pins x.1.name n with e | ⟨_, e⟩
    · rw [e]; exact hr.1 n hn
    · exact e
  · rcases h.links l with e' | ⟨_, _, _, _, e'⟩
    · rw [e'] at e; exact hr.2 l hl pt q e
    · rw [e'] at e; cases e

theorem names_unload {h : Handle} {n : String} (hn : n = "bf_ctx" ∨ h.names n) : (Call.unlink dir n) ∈ unloadCalls h dir := by
  rcases hn with rfl | rfl | ⟨m, hm, rfl⟩ | ⟨hl, rfl | rfl⟩
  · simp [unloadCalls]
  · simp [unloadCalls]
  · simp only [unloadCalls, List.mem_append, List.mem_map]
    exact .inl (.inl (.inl (.inl (.inl (.inl (.inr ⟨m, hm, rfl⟩))))))
  · simp [unloadCalls, hl]
  · simp [unloadCalls, hl]

theorem removed_of_undone {y : Chain × Handle} (h : ∀ c ∈ unloadCalls y.2 y.1.name, Undone v0 c v) : Bad v0 v ∨ Removed y v := by
  by_cases hb : Bad v0 v
  · exact .inl hb
  refine .inr ⟨fun n hn => ?_, fun l hl pt q e => ?_⟩
  · rcases h _ (names_unload hn) with e | ⟨e, h1, h2⟩
    · exact e
    · exact absurd ⟨_, e, rfl, h1, h2⟩ hb
  · rcases h (.linkDetach l) (by simp [unloadCalls, hl]) with e' | ⟨e, h1, h2⟩
    · exact e' pt q e
    · exact absurd ⟨_, e, rfl, h1, h2⟩ hb

theorem freeAll_safe {Q : Unit → K → Prop} {cs : List Cgen} (hI : ∀ v', Still v v' → I v') (hQ : ∀ v', Still v v' → Q () v') : Safe I Q (freeAll cs) v := by
  induction cs generalizing v with
  | nil => exact ⟨hI v (.refl v), hQ v (.refl v)⟩
  | cons c cs ih =>
    exact Safe.bind (cgenFree_closed (fun v' os h => hI v' h.still) fun v1 h1 => ih (fun v' h => hI v' (h1.still.trans h)) fun v' h => hQ v' (h1.still.trans h))

theorem unloadAll_safe {Q : List Cgen → K → Prop} {ys : List (Chain × Handle)} (hn : (ys.map (·.1.name)).Nodup) (hd : ∀ y ∈ ys, y.1.name ∈ v.dirs)
    (hI : ∀ v', Dropped ys v v' → I v')
    (hQ : ∀ cs v', Dropped ys v v' → (Bad v v' ∨ ∀ y ∈ ys, Removed y v') → Q cs v') : Safe I Q (unloadAll (ys.map cgenOf)) v := by
  induction ys generalizing v Q with
  | nil => exact ⟨hI v (Still.refl v).dropped, hQ [] v (Still.refl v).dropped (.inr (by simp))⟩
  | cons y ys ih =>
    have d0 : Dropped (y :: ys) v v := (Still.refl v).dropped.mono (by simp)
    have hn' : (ys.map (·.1.name)).Nodup := (List.nodup_cons.mp hn).2
    have hy : ∀ z ∈ ys, z.1.name ≠ y.1.name := fun z hz e => (List.nodup_cons.mp hn).1 (List.mem_map.mpr ⟨z, hz, e⟩)
    -- the others
    have rest : ∀ (c : Cgen) v1, Dropped [y] v v1 → (Bad v v1 ∨ Removed y v1) → (∀ z ∈ ys, z.1.name ∈ v1.dirs) →
        Safe I Q (unloadAll (ys.map cgenOf) >>= fun cs => pure (c :: cs)) v1 := by
      intro c v1 d1 hb hd1
      refine Safe.bind (ih hn' hd1 (fun v' d => hI v' (d1.trans d)) fun cs v' d hb' => ?_)
      refine ⟨hI v' (d1.trans d), hQ _ v' (d1.trans d) ?_⟩
      rcases hb with hb | hb
      · exact .inl (hb.later d.hist)
      · rcases hb' with hb' | hb'
        · exact .inl (hb'.earlier d1.hist)
        · refine .inr fun z hz => ?_
          rcases List.mem_cons.mp hz with rfl | hz
          · exact d.removed hb
          · exact hb' z hz
    show Safe I Q (try_ (.acquire y.1.name) >>= _) v
    refine safe_try (hI v d0) (fun e v1 hs1 => ?_) fun a v1 hs1 _ => ?_
    · have hne := hs1.acquire_fail (hd y (by simp))
      rw [hs1.quiet trivial]
      exact rest (cgenOf y) _ ((Still.log v _ _).dropped.mono (by simp)) (.inl (Bad.now ⟨[], rfl⟩ rfl hne)) fun z hz => hd z (by simp [hz])
    · rw [hs1.quiet trivial]
      have s1 := Still.log v (.acquire y.1.name) a
      generalize v.log (.acquire y.1.name) a = v1 at *
      have d1 : Dropped [y] v v1 := s1.dropped.mono (by simp)
      have sub : ∀ {v'}, Dropped [y] v v' → Dropped (y :: ys) v v' := fun d => d.mono (by simp)
      have d2 : ∀ {v'}, Dropped [y] v1 v' → Dropped [y] v v' := fun d => (d1.trans d).mono (by simp)
      dsimp only
      refine Safe.bind (cgenUnload_safe (c := cgenOf y) (fun v2 hg _ => hI v2 (sub (d2 (Gone.dropped (y := y) hg)))) fun v2 hg hu => ?_)
      have e2 := d2 (Gone.dropped (y := y) hg)
      have u2 : Bad v v2 ∨ Removed y v2 := (removed_of_undone hu).imp (fun h => h.earlier s1.hist) id
      refine safe_void (hI v2 (sub e2)) fun a v3 hs3 => ?_
      have hr : Released y.1.name v2 v3 := hs3.released
      have e3 : Dropped [y] v v3 := (e2.trans (hr.dropped (y := y))).mono (by simp)
      refine rest _ v3 e3 (u2.imp (fun h => h.later hr.hist) fun h => (hr.dropped (y := y)).removed h) fun z hz => ?_
      rcases e3.kept z.1.name (hd z (by simp [hz])) with e | ⟨x, hx, e⟩
      · exact e
      · rw [List.mem_singleton.mp hx] at e
        exact absurd e.symm (hy z hz)

/-- `_bf_ruleset_flush`: if it fails nothing changed; otherwise only what belongs to chains was removed, everything unless some call failed. -/
theorem flushAll_safe {Q : Res Unit → K → Prop} {L : List (Chain × Handle)} (hv : v.Sane) (hL : Chains T v L) (hn : (L.map (·.1.name)).Nodup)
    (hI : ∀ v', Dropped L v v' → I v') (hE : ∀ r v', r ≠ .ok () → Still v v' → Bad v v' → Q r v')
    (hK : ∀ v', Dropped L v v' → (Bad v v' ∨ ∀ x ∈ L, Removed x v') → Q (.ok ()) v') : Safe I Q flushAll v := by
  unfold flushAll
  have IS : ∀ v', Still v v' → I v' := fun v' s => hI v' (s.dropped.mono (by simp))
  refine Safe.bind (getCgens_safe hv hL hn IS (fun r v' hr s hb => ?_) fun ys v1 s1 hy hnd hall => ?_)
  · cases r with
    | ok c => exact absurd rfl (hr c)
    | err e => exact ⟨IS v' s, hE _ _ (by simp) s hb⟩
    | ub => exact ⟨IS v' s, hE _ _ (by simp) s hb⟩
  have up : ∀ {v'}, Dropped ys v1 v' → Dropped L v v' := fun d => (s1.dropped.trans d).mono (fun x h => hy x (by simpa using h))
  refine Safe.bind (unloadAll_safe hnd (fun y h => ?_) (fun v' d => hI v' (up d)) fun cs v2 d2 hb => ?_)
  · obtain ⟨m, _, hm, _⟩ := (hL.good y (hy y h)).ctx
    rw [s1.dirs]
    exact K.Tree.mem hv.tree hm
  have fin : ∀ v', Still v2 v' → Dropped L v v' := fun v' s => ((up d2).trans s.dropped).mono (by simp)
  refine Safe.bind (freeAll_safe (fun v' s => hI v' (fin v' s)) fun v3 s3 => ?_)
  refine ⟨hI _ (fin v3 s3), hK _ (fin v3 s3) ?_⟩
  rcases hall with h | h
  · exact .inl (h.later (hist_trans d2.hist s3.hist))
  · rcases hb with hb | hb
    · exact .inl ((hb.later s3.hist).earlier s1.hist)
    · exact .inr fun x hx => s3.dropped.removed (hb x (h x hx))

end Bf.Pin
