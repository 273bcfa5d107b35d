import Verif.Cgen.Pins
/-!
# Writing the context
-/
namespace Bf.Pin

variable {I : K → Prop} {v v0 : K} {dir : String}

/-- From `v0` to `v`, the pins of `dir` changed under the names of the context only. -/
structure CtxOnly (dir : String) (v0 v : K) : Prop extends Near dir v0 v where
  rest : ∀ n, n ≠ "bf_ctx" → n ≠ "bf_ctx_tmp" → v.pinned dir n = v0.pinned dir n

theorem CtxOnly.trans {a b c : K} (h : CtxOnly dir a b) (h' : CtxOnly dir b c) : CtxOnly dir a c :=
  ⟨h.toNear.trans h'.toNear, fun n h1 h2 => (h'.rest n h1 h2).trans (h.rest n h1 h2)⟩

theorem Keep.ctxOnly {v0 v : K} (h : Keep v0 v) : CtxOnly dir v0 v := ⟨h.near, fun n _ _ => by unfold K.pinned; rw [h.pins]⟩

theorem Pinning.ctxOnly {v0 v : K} (h : Pinning dir (fun n => n = "bf_ctx" ∨ n = "bf_ctx_tmp") v0 v) : CtxOnly dir v0 v :=
  ⟨h.near, fun n h1 h2 => h.other dir n (by
    rintro ⟨_, e | e⟩
    · exact h1 e
    · exact h2 e)⟩

/-- The context map of `dir` holds `data`. -/
def HasCtx (v : K) (dir : String) (data : List Byte) : Prop :=
  ∃ m, v.pinned dir "bf_ctx" = some m ∧ v.objs[m]? = some (.map (.bytes data))

theorem Pinning.rename (v : K) {d n m : String} {o : Nat} (ho : ¬ IsLink v o) :
    Pinning d (fun x => x = n ∨ x = m) v { v with pins := ((d, m), o) :: (v.pins.filter fun p => p.1 ≠ (d, n) ∧ p.1 ≠ (d, m)) } := by
  refine ⟨rfl, rfl, rfl, ⟨[], rfl⟩, ?_, ?_⟩
  · intro d' n' h
    rw [pinned_rename, if_neg, if_neg]
    · rintro ⟨rfl, rfl⟩; exact h ⟨rfl, .inl rfl⟩
    · rintro ⟨rfl, rfl⟩; exact h ⟨rfl, .inr rfl⟩
  · rintro l hl (h | ⟨d', n', h⟩)
    · exact .inl h
    · rw [pinned_rename] at h
      split at h
      · cases h; exact absurd hl ho
      · split at h
        · cases h
        · exact .inr ⟨d', n', h⟩

theorem HasCtx.of {v v' : K} {data : List Byte} (h : HasCtx v dir data) (hp : v'.pinned dir "bf_ctx" = v.pinned dir "bf_ctx")
    (hf : Frame v v') : HasCtx v' dir data := by
  obtain ⟨m, h1, h2⟩ := h
  exact ⟨m, hp.trans h1, hf.get h2⟩

/-- Create a map for the context. -/
theorem mapNew_ctx {Q : Res BMap → K → Prop} {n : Nat} (hn : n ≠ 0)
    (hI : ∀ v', Keep v v' → I v')
    (he : ∀ e v', Keep v v' → FailedSince v v' → Q (.err e) v')
    (hk : ∀ m v', Keep v v' → v'.objs = v.objs ++ [.map (.bytes [])] → m.id = v.objs.length → Q (.ok m) v') :
    Safe I Q (mapNew "bf_ctx" .ctx 2 4 n 1) v := by
  unfold mapNew
  rw [if_neg (by decide), if_neg (by decide), if_neg (by decide), if_neg (by simp [hn]), if_neg (by simp), if_neg (by decide)]
  have k0 := Keep.refl v
  refine safe_try (hI v k0) (fun e v' hs => ?_) fun a v' hs _ => ?_
  · rw [hs.quiet trivial]
    exact ⟨hI _ (k0.log _ _), he e _ (k0.log _ _) ⟨[], .alloc, e, [], rfl, rfl⟩⟩
  rw [hs.quiet trivial]
  refine ⟨hI _ (k0.log _ _), fun b v2 hs2 => ?_⟩
  rcases hs2.map with ⟨e, rfl, rfl⟩ | ⟨rfl, rfl⟩
  · exact ⟨hI _ ((k0.log _ _).log _ _), he e _ ((k0.log _ _).log _ _) ⟨[], .mapCreate _, e, [(.alloc, a)], rfl, rfl⟩⟩
  · have k2 : Keep v (((v.log .alloc a).new (newMap ⟨objName "bf_ctx", .ctx, 2, 4, n, 1⟩)).log
        (.mapCreate ⟨objName "bf_ctx", .ctx, 2, 4, n, 1⟩) (.id (v.log .alloc a).objs.length)) := ((k0.log _ _).new rfl).log _ _
    exact ⟨hI _ k2, hk _ _ k2 rfl rfl⟩

theorem persist_safe {Q : Res Unit → K → Prop} {c : Cgen} {data : List Byte} (hd : cgenBytes c.chain c.handle.d = data) (hne : data ≠ [])
    (hI : ∀ v', CtxOnly dir v v' → (v'.pinned dir "bf_ctx" = v.pinned dir "bf_ctx" ∨ HasCtx v' dir data) → I v')
    (he : ∀ e v', CtxOnly dir v v' → v'.pinned dir "bf_ctx" = v.pinned dir "bf_ctx" → FailedSince v v' → Q (.err e) v')
    (hk : ∀ v', CtxOnly dir v v' → HasCtx v' dir data → v'.pinned dir "bf_ctx_tmp" = none → Q (.ok ()) v') :
    Safe I Q (persist c dir) v := by
  unfold persist
  rw [hd]
  have I0 : ∀ v', CtxOnly dir v v' → v'.pinned dir "bf_ctx" = v.pinned dir "bf_ctx" → I v' := fun v' a b => hI v' a (.inl b)
  have err : ∀ e v', CtxOnly dir v v' → v'.pinned dir "bf_ctx" = v.pinned dir "bf_ctx" → FailedSince v v' → I v' ∧ Q (.err e) v' :=
    fun e v' a b f => ⟨I0 v' a b, he e v' a b f⟩
  have pk : ∀ {v'}, Keep v v' → v'.pinned dir "bf_ctx" = v.pinned dir "bf_ctx" := fun hk => by unfold K.pinned; rw [hk.pins]
  have IK : ∀ v', Keep v v' → I v' := fun v' hk => I0 v' hk.ctxOnly (pk hk)
  have errK : ∀ e v', Keep v v' → FailedSince v v' → I v' ∧ Q (.err e) v' := fun e v' hk f => err e v' hk.ctxOnly (pk hk) f
  refine safe_try (IK v (.refl v)) (fun e v' hs => ?_) fun a v' hs _ => ?_
  · rw [hs.quiet trivial]
    exact errK e _ ((Keep.refl v).log _ _) ⟨[], .alloc, e, [], rfl, rfl⟩
  rw [hs.quiet trivial]
  have k1 : Keep v (v.log .alloc a) := (Keep.refl v).log _ _
  refine Safe.bind (mapNew_ctx (by simpa using hne) (fun v' hk => IK v' (k1.trans hk))
    (fun e v' hk f => errK e v' (k1.trans hk) (f.earlier k1.hist)) ?_)
  intro m v2 hk2 ho2 hid
  have k2 := k1.trans hk2
  have ho2' : v2.objs = v.objs ++ [.map (.bytes [])] := ho2
  have hid' : m.id = v.objs.length := hid
  have hget2 : v2.objs[m.id]? = some (.map (.bytes [])) := by rw [ho2', hid']; simp
  have nl2 : ¬ IsLink v2 m.id := IsMap.not_link ⟨_, hget2⟩
  refine safe_try (IK v2 k2) (fun e v' hs => ?_) fun b v' hs hb => ?_
  · -- the write failed
    cases hs with
    | ok _ _ _ h =>
      simp only [K.ok] at h
      rw [hget2] at h
      cases h
    | fail =>
      obtain ⟨g, hg⟩ := k2.hist
      refine safe_void (IK _ (k2.log _ _)) fun a' v' hs => ?_
      rw [hs.close]
      have k3 := ((k2.log (.mapWrite m.id data) (.fail e)).close (o := m.id) nl2).log (.close m.id) a'
      exact errK e _ k3 ⟨[(.close m.id, a')], .mapWrite m.id data, e, g, by simp [hg], rfl⟩
  have hv' : v' = (v2.put m.id (.map (.bytes data))).log (.mapWrite m.id data) b := by
    cases hs with
    | fail => exact absurd rfl (hb _)
    | ok _ _ _ h =>
      simp only [K.ok] at h
      rw [hget2] at h
      cases h
      rfl
  subst hv'
  -- the state once the map is written
  have ho3 : ((v2.put m.id (.map (.bytes data))).log (.mapWrite m.id data) b).objs = v.objs ++ [.map (.bytes data)] := by
    simp only [K.log_objs, K.put_objs, ho2', hid']
    simp
  have k3 : Keep v ((v2.put m.id (.map (.bytes data))).log (.mapWrite m.id data) b) := by
    refine ⟨⟨⟨[.map (.bytes data)], ho3⟩, k2.dirs, k2.fds, ?_⟩, k2.pins, k2.noNew.trans fun l hl hh => ⟨?_, hh⟩⟩
    · obtain ⟨g, hg⟩ := k2.hist
      exact ⟨(.mapWrite m.id data, b) :: g, by simp [hg]⟩
    · obtain ⟨pt, p, d, hl⟩ := hl
      refine ⟨pt, p, d, ?_⟩
      simp only [K.log_objs, K.put_objs, List.getElem?_set] at hl
      split at hl
      · split at hl
        · cases hl
        · cases hl
      · exact hl
  generalize hv3 : (v2.put m.id (.map (.bytes data))).log (.mapWrite m.id data) b = v3 at *
  have hget3 : v3.objs[m.id]? = some (.map (.bytes data)) := by rw [ho3, hid']; simp
  have nl3 : ¬ IsLink v3 m.id := IsMap.not_link ⟨_, hget3⟩
  -- remove an old temporary pin
  have ctxn : ("bf_ctx" : String) ≠ "bf_ctx_tmp" := by decide
  let ok : String → Prop := fun n => n = "bf_ctx" ∨ n = "bf_ctx_tmp"
  have okt : ok "bf_ctx_tmp" := .inr rfl
  let ok1 : String → Prop := fun n => n = "bf_ctx_tmp"
  have p1 : ∀ {v4}, Pinning dir ok1 v3 v4 → CtxOnly dir v v4 ∧ v4.pinned dir "bf_ctx" = v.pinned dir "bf_ctx" := by
    intro v4 hp
    constructor
    · exact k3.ctxOnly.trans ⟨hp.near, fun n _ h2 => hp.other dir n (fun e => h2 e.2)⟩
    · rw [hp.other dir "bf_ctx" (fun e => ctxn e.2)]; exact pk k3
  refine unlink_safe (ok := ok1) (v0 := v3) rfl (Pinning.refl v3) (Fewer.refl v3)
    (fun v4 hp _ => I0 v4 (p1 hp).1 (p1 hp).2) fun v4 hp4 hf4 _ => ?_
  have nl4 : ¬ IsLink v4 m.id := by rw [isLink_congr hp4.objs]; exact nl3
  -- closing the map
  have closing : ∀ (r : Res Unit) v5, CtxOnly dir v v5 → ¬ IsLink v5 m.id → (∀ v6, Keep v5 v6 → I v6 ∧ Q r v6) →
      Safe I Q (do void (.close m.id); pure r) v5 := by
    intro r v5 _ nl h
    refine safe_void (h v5 (.refl v5)).1 fun a' v6 hs => ?_
    rw [hs.close]
    exact h _ (((Keep.refl v5).close nl).log _ _)
  have errAfter : ∀ e v5, CtxOnly dir v v5 → v5.pinned dir "bf_ctx" = v.pinned dir "bf_ctx" → FailedSince v v5 → ¬ IsLink v5 m.id →
      Safe I Q (do void (.close m.id); pure (.err e)) v5 := by
    intro e v5 hc hp hf nl
    refine closing _ v5 hc nl fun v6 hk6 => ?_
    have : v6.pinned dir "bf_ctx" = v5.pinned dir "bf_ctx" := by unfold K.pinned; rw [hk6.pins]
    exact err e v6 (hc.trans hk6.ctxOnly) (this.trans hp) (hf.later hk6.hist)
  refine safe_try (I0 v4 (p1 hp4).1 (p1 hp4).2) (fun e v' hs => ?_) fun b' v' hs hb' => ?_
  · rcases hs.pin with ⟨e', _, rfl⟩ | ⟨h, _⟩
    · obtain ⟨g, hg⟩ := (p1 hp4).1.hist
      refine errAfter e _ ((p1 hp4).1.trans ((Keep.refl v4).log _ _).ctxOnly) (p1 hp4).2 ⟨[], .pin dir "bf_ctx_tmp" m.id, e, g, by simp [hg], rfl⟩ nl4
    · cases h
  rcases hs.pin with ⟨e', rfl, _⟩ | ⟨rfl, hnone, rfl⟩
  · exact absurd rfl (hb' e')
  have hp5 : Pinning dir ok1 v3 (({ v4 with pins := ((dir, "bf_ctx_tmp"), m.id) :: v4.pins } : K).log (.pin dir "bf_ctx_tmp" m.id) .done) :=
    (hp4.trans (Pinning.pin (ok := ok1) v4 "bf_ctx_tmp" m.id rfl (fun hl => absurd hl nl4))).log _ _
  have tmp5 : K.pinned (({ v4 with pins := ((dir, "bf_ctx_tmp"), m.id) :: v4.pins } : K).log (.pin dir "bf_ctx_tmp" m.id) .done) dir "bf_ctx_tmp" = some m.id := by
    rw [K.log_pinned, pinned_pin, if_pos ⟨rfl, rfl⟩]
  generalize ({ v4 with pins := ((dir, "bf_ctx_tmp"), m.id) :: v4.pins } : K).log (.pin dir "bf_ctx_tmp" m.id) .done = v5 at *
  have nl5 : ¬ IsLink v5 m.id := by rw [isLink_congr hp5.objs]; exact nl3
  refine safe_try (I0 v5 (p1 hp5).1 (p1 hp5).2) (fun e v' hs => ?_) fun b' v' hs hb' => ?_
  · rcases hs.rename with ⟨e', _, rfl⟩ | ⟨h, _⟩
    · obtain ⟨g, hg⟩ := (p1 hp5).1.hist
      have f5 : FailedSince v (v5.log (.rename dir "bf_ctx_tmp" "bf_ctx") (.fail e)) :=
        ⟨[], .rename dir "bf_ctx_tmp" "bf_ctx", e, g, by simp [hg], rfl⟩
      have hp6 := hp5.log (.rename dir "bf_ctx_tmp" "bf_ctx") (.fail e)
      generalize v5.log (.rename dir "bf_ctx_tmp" "bf_ctx") (.fail e) = v6 at *
      refine unlink_safe (ok := ok1) (v0 := v6) rfl (Pinning.refl v6) (Fewer.refl v6)
        (fun v7 hp _ => I0 v7 (p1 (hp6.trans hp)).1 (p1 (hp6.trans hp)).2) fun v7 hp7 _ _ => ?_
      have hp7' := hp6.trans hp7
      exact errAfter e v7 (p1 hp7').1 (p1 hp7').2 (f5.later hp7.hist) (by rw [isLink_congr hp7'.objs]; exact nl3)
    · cases h
  rcases hs.rename with ⟨e', rfl, _⟩ | ⟨rfl, o, ho, rfl⟩
  · exact absurd rfl (hb' e')
  rw [tmp5] at ho
  cases ho
  have hp6 : Pinning dir (fun x => x = "bf_ctx_tmp" ∨ x = "bf_ctx") v5 (({ v5 with pins := ((dir, "bf_ctx"), m.id) ::
      (v5.pins.filter fun p => p.1 ≠ (dir, "bf_ctx_tmp") ∧ p.1 ≠ (dir, "bf_ctx")) } : K).log (.rename dir "bf_ctx_tmp" "bf_ctx") .done) :=
    (Pinning.rename v5 nl5).log _ _
  have c6 : K.pinned (({ v5 with pins := ((dir, "bf_ctx"), m.id) ::
      (v5.pins.filter fun p => p.1 ≠ (dir, "bf_ctx_tmp") ∧ p.1 ≠ (dir, "bf_ctx")) } : K).log (.rename dir "bf_ctx_tmp" "bf_ctx") .done) dir "bf_ctx" = some m.id := by
    rw [K.log_pinned, pinned_rename, if_pos ⟨rfl, rfl⟩]
  have t6 : K.pinned (({ v5 with pins := ((dir, "bf_ctx"), m.id) ::
      (v5.pins.filter fun p => p.1 ≠ (dir, "bf_ctx_tmp") ∧ p.1 ≠ (dir, "bf_ctx")) } : K).log (.rename dir "bf_ctx_tmp" "bf_ctx") .done) dir "bf_ctx_tmp" = none := by
    rw [K.log_pinned, pinned_rename, if_neg (by simp), if_pos ⟨rfl, rfl⟩]
  generalize ({ v5 with pins := ((dir, "bf_ctx"), m.id) ::
      (v5.pins.filter fun p => p.1 ≠ (dir, "bf_ctx_tmp") ∧ p.1 ≠ (dir, "bf_ctx")) } : K).log (.rename dir "bf_ctx_tmp" "bf_ctx") .done = v6 at *
  have hc6 : CtxOnly dir v v6 := (p1 hp5).1.trans ⟨hp6.near, fun n h1 h2 => hp6.other dir n (by
    rintro ⟨_, e | e⟩
    · exact h2 e
    · exact h1 e)⟩
  have hx6 : HasCtx v6 dir data := ⟨m.id, c6, by rw [hp6.objs, hp5.objs]; exact hget3⟩
  refine closing _ v6 hc6 (by rw [isLink_congr hp6.objs]; exact nl5) fun v7 hk7 => ?_
  have hx7 := hx6.of (show v7.pinned dir "bf_ctx" = _ by unfold K.pinned; rw [hk7.pins]) hk7.toFrame
  have hc7 := hc6.trans hk7.ctxOnly
  exact ⟨hI v7 hc7 (.inr hx7), hk v7 hc7 hx7 (by unfold K.pinned at t6 ⊢; rw [hk7.pins]; exact t6)⟩

end Bf.Pin
