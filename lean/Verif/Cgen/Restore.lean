import Verif.Cgen.Persist
/-!
# Reading a chain back from its directory
-/
namespace Bf.Pin

variable {I : K → Prop} {v v0 : K} {dir : String}

/-- The points where a link of some options attaches a program. -/
def points (hook : Hook) (o : HookOpts) : List Point :=
  match hook.flavor with
  | .xdp | .tc => [.iface hook o.ifindex]
  | .cgroupSkb | .sockAddr => [.cgroup hook o.cgpath]
  | .nf => [.nf hook false, .nf hook true]

/-- The links attach program `p` where they say. -/
def Attached (v : K) (l : Link) (p : Nat) : Prop :=
  l.fds.length = (points l.d.hook l.d.opts).length ∧
  ∀ x ∈ l.fds.zip (points l.d.hook l.d.opts), v.objs[x.1]? = some (.link x.2 p false)

/-- The objects of handle `h` are pinned in directory `dir`. -/
structure Placed (v : K) (dir : String) (h : Handle) : Prop where
  pins : ∀ x ∈ h.pinList, v.pinned dir x.1 = some x.2
  extra : ∀ l, h.link = some l → v.pinned dir "bf_link_extra" = l.extra
  prog : ∃ p, h.prog = some p ∧ IsProg v p
  maps : ∀ m ∈ h.maps, IsMap v m.id
  link : ∀ l p, h.link = some l → h.prog = some p → Attached v l p
  names : ∀ n, h.names n → n ≠ "bf_ctx" ∧ n ≠ "bf_ctx_tmp"

/-- Directory `dir` holds chain `c`, loaded as handle `h`. -/
structure Stored (v : K) (dir : String) (c : Chain) (h : Handle) : Prop extends Placed v dir h where
  ctx : ∃ m b, v.pinned dir "bf_ctx" = some m ∧ v.objs[m]? = some (.map (.bytes b)) ∧ b ≠ [] ∧ cgenOfBytes b = .ok (c, h.d)

/-- From `v0` to `v`, only the descriptors `ids` were opened, for things pinned in `dir`. -/
structure Open (dir : String) (ids : List Nat) (v0 v : K) : Prop where
  objs : v.objs = v0.objs
  dirs : v.dirs = v0.dirs
  pins : v.pins = v0.pins
  hist : ∃ h, v.hist = h ++ v0.hist
  fds : ∀ o, v.fds.count o = v0.fds.count o + ids.count o
  pinned : ∀ o ∈ ids, ∃ n, v0.pinned dir n = some o

theorem Open.refl (v : K) : Open dir [] v v := ⟨rfl, rfl, rfl, ⟨[], rfl⟩, fun _ => by simp, by simp⟩

theorem Open.perm {ids ids' : List Nat} {v0 v : K} (h : Open dir ids v0 v) (hp : ids.Perm ids') : Open dir ids' v0 v :=
  ⟨h.objs, h.dirs, h.pins, h.hist, fun o => by rw [h.fds o, hp.count_eq], fun o ho => h.pinned o (hp.mem_iff.mpr ho)⟩

theorem Open.log {ids : List Nat} {v0 v : K} (h : Open dir ids v0 v) (c : Call) (a : Ans) : Open dir ids v0 (v.log c a) := by
  obtain ⟨g, hg⟩ := h.hist
  exact ⟨h.objs, h.dirs, h.pins, ⟨(c, a) :: g, by simp [hg]⟩, h.fds, h.pinned⟩

theorem Open.get {ids : List Nat} {v0 v : K} (h : Open dir ids v0 v) {o : Nat} {n : String} (ho : v0.pinned dir n = some o) :
    Open dir (o :: ids) v0 { v with fds := o :: v.fds } := by
  refine ⟨h.objs, h.dirs, h.pins, h.hist, fun o' => ?_, ?_⟩
  · simp only [List.count_cons]
    have := h.fds o'
    omega
  · intro o' ho'
    rcases List.mem_cons.mp ho' with rfl | ho'
    · exact ⟨n, ho⟩
    · exact h.pinned o' ho'

theorem Open.close {ids : List Nat} {v0 v : K} {o : Nat} (h : Open dir (o :: ids) v0 v) : Open dir ids v0 { v with fds := v.fds.erase o } := by
  refine ⟨h.objs, h.dirs, h.pins, h.hist, fun o' => ?_, fun o' ho' => h.pinned o' (by simp [ho'])⟩
  have := h.fds o'
  simp only [List.count_erase, List.count_cons] at this ⊢
  by_cases e : o = o'
  · subst e; simp at this ⊢; omega
  · have e' : (o == o') = false := by simpa using e
    simp only [e'] at this ⊢
    simpa using this

theorem Open.held {ids : List Nat} {v0 v : K} (h : Open dir ids v0 v) {o : Nat} : v.held o ↔ v0.held o := by
  unfold K.held K.pinned
  rw [h.pins]
  constructor
  · rintro (ho | ho)
    · by_cases hm : o ∈ ids
      · obtain ⟨n, hn⟩ := h.pinned o hm
        exact .inr ⟨dir, n, hn⟩
      · left
        rw [← List.count_pos_iff] at ho ⊢
        have := h.fds o
        rw [List.count_eq_zero.mpr hm] at this
        omega
    · exact .inr ho
  · rintro (ho | ho)
    · left
      rw [← List.count_pos_iff] at ho ⊢
      have := h.fds o
      omega
    · exact .inr ho

theorem Open.keep {v0 v : K} (h : Open dir [] v0 v) : Keep v0 v :=
  ⟨⟨⟨[], by simp [h.objs]⟩, h.dirs, fun o _ => by simpa using h.fds o, h.hist⟩, h.pins,
    fun _ ho hh => ⟨(isLink_congr h.objs).mp ho, h.held.mp hh⟩⟩

theorem Open.runs {ids : List Nat} {v0 v : K} (h : Open dir ids v0 v) {pt : Point} {p : Nat} : v.runs pt p ↔ v0.runs pt p := by
  unfold K.runs
  simp only [h.held, h.objs]

/-- The descriptors of a handle, as `handleFree` closes them. -/
def Handle.ids (h : Handle) : List Nat := h.prog.toList ++ h.linkFds ++ h.maps.map (·.id)

theorem closeAll_open {Q : Unit → K → Prop} {os ids : List Nat} (ho : Open dir (os ++ ids) v0 v)
    (hI : ∀ v' ids', Open dir ids' v0 v' → I v') (hQ : ∀ v', Open dir ids v0 v' → (∃ g, v'.hist = g ++ v.hist) → Q () v') : Safe I Q (closeAll os) v := by
  induction os generalizing v with
  | nil => exact ⟨hI v _ ho, hQ v ho ⟨[], rfl⟩⟩
  | cons o os ih =>
    refine ⟨hI v _ ho, fun a v' hs => ?_⟩
    rw [hs.close]
    exact ih (ho.close.log _ _) fun v' h hg => hQ v' h (by
      obtain ⟨g, e⟩ := hg
      exact ⟨g ++ [(.close o, a)], by rw [e]; simp⟩)

/-- The calls that read or remove what exists. -/
def Call.cleanup : Call → Bool
  | .acquire _ | .get _ _ | .mapRead _ | .readdir | .unlink _ _ | .linkDetach _ => true
  | _ => false

/-- Since `v0` a call that reads or removes something that exists failed. -/
def Bad (v0 v : K) : Prop := ∃ c e, c.cleanup = true ∧ e ≠ .ENOENT ∧ Since v0 v (c, .fail e)

theorem Bad.later {v0 v v' : K} (h : Bad v0 v) (hh : ∃ g, v'.hist = g ++ v.hist) : Bad v0 v' := by
  obtain ⟨c, e, h0, h1, h2⟩ := h
  exact ⟨c, e, h0, h1, h2.later hh⟩

theorem Bad.log {v0 v : K} (h : Bad v0 v) (c : Call) (a : Ans) : Bad v0 (v.log c a) := h.later ⟨[(c, a)], rfl⟩

theorem Open.bad {ids : List Nat} {v0 v : K} (h : Open dir ids v0 v) {c : Call} {e : Errno} (hc : c.cleanup = true) (he : e ≠ .ENOENT) :
    Bad v0 (v.log c (.fail e)) := by
  obtain ⟨g, hg⟩ := h.hist
  exact ⟨c, e, hc, he, [], g, by simp [hg]⟩

theorem get_safe {α : Type} {Q : α → K → Prop} {n : String} {o : Nat} {ids : List Nat} {f : Res Nat → P α}
    (ho : Open dir ids v0 v) (hp : v0.pinned dir n = some o) (hI : I v)
    (he : ∀ e v', e ≠ .ENOENT → Bad v0 v' → Open dir ids v0 v' → Safe I Q (f (.err e)) v')
    (hk : ∀ v', Open dir (o :: ids) v0 v' → Safe I Q (f (.ok o)) v') : Safe I Q (tryId (.get dir n) >>= f) v := by
  have hp' : v.pinned dir n = some o := by unfold K.pinned at hp ⊢; rw [ho.pins]; exact hp
  refine ⟨hI, fun a v' hs => ?_⟩
  rcases hs.get with ⟨e, rfl, hne, rfl⟩ | ⟨o', rfl, h1, rfl⟩
  · have hE : e ≠ .ENOENT := fun h => by
      have := hne h
      rw [hp'] at this; cases this
    exact he e _ hE (ho.bad rfl hE) (ho.log _ _)
  · rw [hp'] at h1
    cases h1
    exact hk _ ((ho.get hp).log _ _)

theorem getMap_safe {Q : Res (Option BMap) → K → Prop} {m : Option BMap} {ids : List Nat} (ho : Open dir ids v0 v)
    (hp : ∀ x, m = some x → v0.pinned dir x.d.name = some x.id)
    (hI : ∀ v' ids', Open dir ids' v0 v' → I v')
    (he : ∀ e v', e ≠ .ENOENT → Bad v0 v' → Open dir ids v0 v' → Q (.err e) v')
    (hk : ∀ v', Open dir (m.toList.map (·.id) ++ ids) v0 v' → Q (.ok m) v') : Safe I Q (getMap dir (m.map (·.d))) v := by
  cases m with
  | none => exact ⟨hI v _ ho, hk v ho⟩
  | some x =>
    exact get_safe ho (hp x rfl) (hI v _ ho) (fun e v' hE hb h => ⟨hI v' _ h, he e v' hE hb h⟩) fun v' h => ⟨hI v' _ h, hk v' h⟩

theorem getMaps_safe {Q : List (Option BMap) × Res Unit → K → Prop} {ms : List (Option BMap)} {ids : List Nat} (ho : Open dir ids v0 v)
    (hp : ∀ x, some x ∈ ms → v0.pinned dir x.d.name = some x.id)
    (hI : ∀ v' ids', Open dir ids' v0 v' → I v')
    (he : ∀ ms' r v', r ≠ .ok () → r ≠ .err .ENOENT → Bad v0 v' → Open dir ((ms'.filterMap id).map (·.id) ++ ids) v0 v' → Q (ms', r) v')
    (hk : ∀ v', Open dir ((ms.filterMap id).map (·.id) ++ ids) v0 v' → Q (ms, .ok ()) v') :
    Safe I Q (getMaps dir (ms.map fun m => m.map (·.d))) v := by
  induction ms generalizing v ids Q with
  | nil => exact ⟨hI v _ ho, hk v ho⟩
  | cons m ms ih =>
    unfold getMaps
    simp only [List.map_cons]
    refine Safe.bind (getMap_safe ho (fun x hx => hp x (by simp [hx])) hI
      (fun e v' hE hb h => ⟨hI v' _ h, he [] _ v' (by simp) (by simpa using hE) hb h⟩) fun v1 h1 => ?_)
    have perm : ∀ l : List (Option BMap), ((l.filterMap id).map (·.id) ++ (m.toList.map (·.id) ++ ids)).Perm
        (((m :: l).filterMap id).map (·.id) ++ ids) := by
      intro l
      rw [List.perm_iff_count]
      intro o
      cases m with
      | none => simp
      | some x => simp [List.count_append, List.count_cons]; omega
    refine Safe.bind (ih h1 (fun x hx => hp x (by simp [hx])) ?_ ?_)
    · intro ms' r v' hr hE hb h
      have h' := h.perm (perm ms')
      exact ⟨hI v' _ h', he (m :: ms') r v' hr hE hb h'⟩
    · intro v' h
      have h' := h.perm (perm ms)
      exact ⟨hI v' _ h', hk v' h'⟩

theorem getLink_safe {Q : Res (Option Link) → K → Prop} {l : Option Link} {ids : List Nat} (ho : Open dir ids v0 v)
    (hp : ∀ x, l = some x → v0.pinned dir "bf_link" = some x.fd ∧ v0.pinned dir "bf_link_extra" = x.extra)
    (hI : ∀ v' ids', Open dir ids' v0 v' → I v')
    (he : ∀ e v', e ≠ .ENOENT → Bad v0 v' → Open dir ids v0 v' → Q (.err e) v')
    (hk : ∀ v', Open dir ((match l with | some l => l.fds | none => []) ++ ids) v0 v' → Q (.ok l) v') :
    Safe I Q (getLink dir (l.map (·.d))) v := by
  cases l with
  | none => exact ⟨hI v _ ho, hk v ho⟩
  | some x =>
    obtain ⟨h1, h2⟩ := hp x rfl
    obtain ⟨d, l, e⟩ := x
    simp only at h1 h2
    refine get_safe ho h1 (hI v _ ho) (fun e v' hE hb h => ⟨hI v' _ h, he e v' hE hb h⟩) fun v1 o1 => ?_
    have bad : ∀ e v', e ≠ .ENOENT → Bad v0 v' → Open dir (l :: ids) v0 v' → Safe I Q (do void (.close l); pure (.err e)) v' := by
      intro e v' hE hb h
      refine safe_void (hI v' _ h) fun a v2 hs => ?_
      rw [hs.close]
      exact ⟨hI _ _ (h.close.log _ _), he e _ hE (hb.later ⟨[_], rfl⟩) (h.close.log _ _)⟩
    cases e with
    | some x =>
      refine get_safe o1 h2 (hI v1 _ o1) (fun e v' hne hb h => ?_) fun v2 o2 => ?_
      · cases e <;> first | exact absurd rfl hne | exact bad _ v' hne hb h
      · have : Open dir ([l, x] ++ ids) v0 v2 := o2.perm (List.Perm.swap _ _ _)
        exact ⟨hI v2 _ this, hk v2 this⟩
    | none =>
      refine ⟨hI v1 _ o1, fun a v' hs => ?_⟩
      have h2' : v1.pinned dir "bf_link_extra" = none := by unfold K.pinned at h2 ⊢; rw [o1.pins]; exact h2
      rcases hs.get with ⟨e, rfl, _, rfl⟩ | ⟨o', rfl, h3, rfl⟩
      · by_cases hE : e = .ENOENT
        · subst hE
          have := o1.log (.get dir "bf_link_extra") (.fail .ENOENT)
          exact ⟨hI _ _ this, hk _ this⟩
        · cases e <;> first | exact absurd rfl hE | exact bad _ _ hE (o1.bad rfl hE) (o1.log _ _)
      · rw [h2'] at h3; cases h3

theorem getHandle_safe {Q : Handle × Res Unit → K → Prop} {h : Handle} {ids : List Nat} {p : Nat} (ho : Open dir ids v0 v)
    (hprog : h.prog = some p) (hp : ∀ x ∈ h.pinList, v0.pinned dir x.1 = some x.2)
    (hx : ∀ l, h.link = some l → v0.pinned dir "bf_link_extra" = l.extra)
    (hI : ∀ v' ids', Open dir ids' v0 v' → I v')
    (he : ∀ h' r v', r ≠ .ok () → r ≠ .err .ENOENT → Bad v0 v' → Open dir (h'.ids ++ ids) v0 v' → Q (h', r) v')
    (hk : ∀ v', Open dir (h.ids ++ ids) v0 v' → Q (h, .ok ()) v') : Safe I Q (getHandle dir h.d) v := by
  have pm : ∀ m ∈ h.maps, v0.pinned dir m.d.name = some m.id := by
    intro m hm
    refine hp (m.d.name, m.id) ?_
    simp only [Handle.pinList, List.mem_append, List.mem_map]
    exact .inl (.inr ⟨m, hm, rfl⟩)
  have pl : ∀ l, h.link = some l → v0.pinned dir "bf_link" = some l.fd ∧ v0.pinned dir "bf_link_extra" = l.extra := by
    intro l hl
    refine ⟨hp ("bf_link", l.fd) ?_, hx l hl⟩
    simp only [Handle.pinList, List.mem_append, hl]
    exact .inr (by simp)
  obtain ⟨pn, pr, lk, cm, pmap, lm, sm, ss⟩ := h
  simp only at hprog
  subst hprog
  simp only [Handle.maps, List.mem_append] at pm
  unfold getHandle
  simp only [Handle.d]
  have err : ∀ (h' : Handle) r v' (l : List Nat), r ≠ .ok () → r ≠ .err .ENOENT → Bad v0 v' → Open dir l v0 v' → l.Perm (h'.ids ++ ids) → I v' ∧ Q (h', r) v' :=
    fun h' r v' l hr hE hb ho hp => ⟨hI v' _ ho, he h' r v' hr hE hb (ho.perm hp)⟩
  refine get_safe ho (hp (pn, p) (by simp [Handle.pinList])) (hI v _ ho)
    (fun e v' hE hb h => err _ _ v' _ (by simp) (by simpa using hE) hb h (by simp [Handle.ids, Handle.linkFds, Handle.maps])) fun v1 o1 => ?_
  refine Safe.bind (getLink_safe o1 (fun x hx => pl x hx) hI
    (fun e v' hE hb h => err _ _ v' _ (by simp) (by simpa using hE) hb h (by simp [Handle.ids, Handle.linkFds, Handle.maps])) fun v2 o2 => ?_)
  simp only
  refine Safe.bind (getMap_safe o2 (fun x hx => pm x (by simp [hx])) hI
    (fun e v' hE hb h => err _ _ v' _ (by simp) (by simpa using hE) hb h (by
      rw [List.perm_iff_count]; intro o
      simp [Handle.ids, Handle.linkFds, Handle.maps, List.count_append, List.count_cons]; cases lk <;> simp [List.count_cons] <;> omega)) fun v3 o3 => ?_)
  simp only
  refine Safe.bind (getMap_safe o3 (fun x hx => pm x (by simp [hx])) hI
    (fun e v' hE hb h => err _ _ v' _ (by simp) (by simpa using hE) hb h (by
      rw [List.perm_iff_count]; intro o
      simp [Handle.ids, Handle.linkFds, Handle.maps, List.count_append, List.count_cons]; cases lk <;> simp [List.count_cons] <;> omega)) fun v4 o4 => ?_)
  simp only
  refine Safe.bind (getMap_safe o4 (fun x hx => pm x (by simp [hx])) hI
    (fun e v' hE hb h => err _ _ v' _ (by simp) (by simpa using hE) hb h (by
      rw [List.perm_iff_count]; intro o
      simp [Handle.ids, Handle.linkFds, Handle.maps, List.count_append, List.count_cons]; cases lk <;> simp [List.count_cons] <;> omega)) fun v5 o5 => ?_)
  simp only
  refine Safe.bind (getMap_safe o5 (fun x hx => pm x (by simp [hx])) hI
    (fun e v' hE hb h => err _ _ v' _ (by simp) (by simpa using hE) hb h (by
      rw [List.perm_iff_count]; intro o
      simp [Handle.ids, Handle.linkFds, Handle.maps, List.count_append, List.count_cons]; cases lk <;> simp [List.count_cons] <;> omega)) fun v6 o6 => ?_)
  simp only
  refine Safe.bind (getMaps_safe o6 (fun x hx => pm x (by simp [hx])) hI (fun ms r v' hr hE hb h => ?_) fun v7 o7 => ?_)
  · exact err _ _ v' _ hr hE hb h (by
      rw [List.perm_iff_count]; intro o
      simp [Handle.ids, Handle.linkFds, Handle.maps, List.count_append, List.count_cons]; cases lk <;> simp [List.count_cons] <;> omega)
  · refine ⟨hI v7 _ o7, hk v7 (o7.perm ?_)⟩
    rw [List.perm_iff_count]; intro o
    simp [Handle.ids, Handle.linkFds, Handle.maps, List.count_append, List.count_cons]; cases lk <;> simp [List.count_cons] <;> omega

theorem newFromDir_safe {Q : Res Cgen → K → Prop} {c : Chain} {h : Handle} (hs : Stored v dir c h)
    (hI : ∀ v' ids, Open dir ids v v' → I v')
    (he : ∀ r v', (∀ c, r ≠ .ok c) → r ≠ .err .ENOENT → Bad v v' → Open dir [] v v' → Q r v')
    (hk : ∀ v', Open dir h.ids v v' → Q (.ok ⟨c, h⟩) v') : Safe I Q (newFromDir dir) v := by
  obtain ⟨m, b, c1, c2, c3, c4⟩ := hs.ctx
  obtain ⟨p, hp, _⟩ := hs.prog
  unfold newFromDir
  have o0 : Open dir [] v v := Open.refl v
  have closing : ∀ (r : Res Cgen) v' l, Open dir (m :: l) v v' → (∀ v2, Open dir l v v2 → (∃ g, v2.hist = g ++ v'.hist) → I v2 ∧ Q r v2) →
      Safe I Q (do void (.close m); pure r) v' := by
    intro r v' l h hq
    refine safe_void (hI v' _ h) fun a v2 hs => ?_
    rw [hs.close]
    exact hq _ (h.close.log _ _) ⟨[_], rfl⟩
  have err : ∀ (r : Res Cgen) v', (∀ c, r ≠ .ok c) → r ≠ .err .ENOENT → Bad v v' → Open dir [] v v' → I v' ∧ Q r v' := fun r v' hr hE hb ho =>
    ⟨hI v' _ ho, he r v' hr hE hb ho⟩
  refine get_safe o0 c1 (hI v _ o0) (fun e v' hE hb h => err _ v' (by simp) (by simpa using hE) hb h) fun v1 o1 => ?_
  refine ⟨hI v1 _ o1, fun a v2 hs2 => ?_⟩
  have q : v2 = v1.log (.mapRead m) a := hs2.quiet trivial
  have hb : (∃ e, a = .fail e ∧ e ≠ .ENOENT) ∨ a = .bytes b := by
    cases hs2 with
    | fail hE => exact .inl ⟨_, rfl, hE⟩
    | ok _ _ _ h =>
      simp only [K.ok] at h
      rw [o1.objs, c2] at h
      cases h
      exact .inr rfl
  subst q
  have o2 := o1.log (.mapRead m) a
  rcases hb with ⟨e, rfl, hE⟩ | rfl
  · exact closing _ _ _ o2 fun v' h hg => err _ v' (by simp) (by simpa using hE) ((o1.bad rfl hE).later hg) h
  simp only [if_neg c3, c4]
  refine Safe.bind (getHandle_safe o2 hp hs.pins hs.extra hI (fun h' r v' hr hE hb ho => ?_) fun v3 o3 => ?_)
  · have : ∀ r' : Res Cgen, (∀ c, r' ≠ .ok c) → r' ≠ .err .ENOENT → Safe I Q (do handleFree h'; void (.close m); pure r') v' := fun r' hr' hE' =>
      Safe.bind (closeAll_open (os := h'.ids) ho hI fun v4 o4 hg => closing r' v4 [] o4 fun v' h hg' => err _ v' hr' hE' ((hb.later hg).later hg') h)
    cases r with
    | ok u => exact absurd rfl hr
    | err e => exact this _ (by simp) (by simpa using hE)
    | ub => exact this _ (by simp) (by simp)
  · refine closing _ v3 h.ids (o3.perm ?_) fun v' h _ => ⟨hI v' _ h, hk v' h⟩
    rw [List.perm_iff_count]; intro o
    simp [List.count_cons, List.count_append]

end Bf.Pin
