import Verif.Cgen.Restore
/-!
# Switching a link to another program
-/
namespace Bf.Pin

variable {I : K → Prop} {v v0 : K} {dir : String}

theorem Safe.bindWf {α β : Type} {Q : β → K → Prop} {p : P α} {f : α → P β} (hw : v.Wf)
    (h : Safe I (fun a v' => v'.Wf → Safe I Q (f a) v') p v) : Safe I Q (p >>= f) v := Safe.bind (Safe.useWf hw h)

/-- The points of a link. -/
def Link.points (l : Link) : List Point := Bf.Pin.points l.d.hook l.d.opts

/-- The links attach program `p` where they say, and are open. -/
structure LinkFd (v : K) (l : Link) (p : Nat) : Prop where
  att : Attached v l p
  fds : ∀ o ∈ l.fds, o ∈ v.fds

theorem mem_zip_left {α β : Type} {l : List α} {m : List β} (h : l.length = m.length) {a : α} (ha : a ∈ l) : ∃ b, (a, b) ∈ l.zip m := by
  induction l generalizing m with
  | nil => cases ha
  | cons x l ih =>
    cases m with
    | nil => cases h
    | cons y m =>
      rcases List.mem_cons.mp ha with rfl | ha
      · exact ⟨y, by simp⟩
      · obtain ⟨b, hb⟩ := ih (by simpa using h) ha
        exact ⟨b, by simp [hb]⟩

theorem mem_zip_right {α β : Type} {l : List α} {m : List β} (h : l.length = m.length) {b : β} (hb : b ∈ m) : ∃ a, (a, b) ∈ l.zip m := by
  induction l generalizing m with
  | nil =>
    cases m with
    | nil => cases hb
    | cons y m => cases h
  | cons x l ih =>
    cases m with
    | nil => cases h
    | cons y m =>
      rcases List.mem_cons.mp hb with rfl | hb
      · exact ⟨x, by simp⟩
      · obtain ⟨a, ha⟩ := ih (by simpa using h) hb
        exact ⟨a, by simp [ha]⟩

theorem Attached.isLink {l : Link} {p : Nat} (h : Attached v l p) {o : Nat} (ho : o ∈ l.fds) : IsLink v o := by
  obtain ⟨pt, hz⟩ := mem_zip_left h.1 ho
  exact ⟨_, _, _, h.2 _ hz⟩

theorem Attached.runs {l : Link} {p : Nat} (h : Attached v l p) (hh : ∀ o ∈ l.fds, v.held o) {pt : Point} (hp : pt ∈ l.points) : v.runs pt p := by
  obtain ⟨o, hz⟩ := mem_zip_right h.1 hp
  exact ⟨o, h.2 _ hz, hh o (List.of_mem_zip hz).1⟩

theorem LinkFd.runs {l : Link} {p : Nat} (h : LinkFd v l p) {pt : Point} (hp : pt ∈ l.points) : v.runs pt p :=
  h.att.runs (fun o ho => .inl (h.fds o ho)) hp

theorem Attached.frame {v v' : K} {l : Link} {p : Nat} (h : Attached v l p) (hf : Frame v v') : Attached v' l p :=
  ⟨h.1, fun x hx => hf.get (h.2 x hx)⟩

theorem LinkFd.frame {v v' : K} {l : Link} {p : Nat} (h : LinkFd v l p) (hf : Frame v v') : LinkFd v' l p :=
  ⟨h.att.frame hf, fun o ho => (hf.held (h.att.isLink ho)).mpr (h.fds o ho)⟩

/-- From `v` to `v'`, what runs: what ran, or `pn` at one of the points, each of which runs `p` or `pn`. -/
structure Mid (pts : List Point) (p pn : Nat) (v v' : K) : Prop where
  only : ∀ pt q, v'.runs pt q → v.runs pt q ∨ (pt ∈ pts ∧ q = pn)
  cov : ∀ pt ∈ pts, v'.runs pt p ∨ v'.runs pt pn
  pins : v'.pins = v.pins
  dirs : v'.dirs = v.dirs
  hist : ∃ g, v'.hist = g ++ v.hist
  objs : ∀ (i : Nat) (o : Obj), v.objs[i]? = some o → o.isLink = false → v'.objs[i]? = some o

theorem Keep.mid {v v' : K} {l : Link} {p pn : Nat} (h : Keep v v') (hl : LinkFd v l p) : Mid l.points p pn v v' :=
  ⟨fun _ _ hr => .inl (h.runs.mp hr), fun _ hp => .inl ((hl.frame h.toFrame).runs hp), h.pins, h.dirs, h.hist, fun _ _ ho _ => h.toFrame.get ho⟩

/-- New links were created. -/
theorem Mid.add {pts : List Point} {p pn : Nat} {v v' : K} {ls : List Obj} (ho : v'.objs = v.objs ++ ls)
    (hls : ∀ o ∈ ls, ∃ pt ∈ pts, o = .link pt pn false) (hf : ∀ o ∈ v'.fds, o ∈ v.fds ∨ v.objs.length ≤ o)
    (hp : v'.pins = v.pins) (hd : v'.dirs = v.dirs) (hh : ∃ g, v'.hist = g ++ v.hist)
    (hc : ∀ pt ∈ pts, v'.runs pt p ∨ v'.runs pt pn) : Mid pts p pn v v' := by
  refine ⟨?_, hc, hp, hd, hh, ?_⟩
  · rintro pt q ⟨l, h1, h2⟩
    rw [ho] at h1
    by_cases hlt : l < v.objs.length
    · rw [List.getElem?_append_left hlt] at h1
      refine .inl ⟨l, h1, ?_⟩
      rcases h2 with h2 | h2
      · rcases hf l h2 with h3 | h3
        · exact .inl h3
        · omega
      · obtain ⟨d, n, h2⟩ := h2
        exact .inr ⟨d, n, by unfold K.pinned at h2 ⊢; rw [← hp]; exact h2⟩
    · rw [List.getElem?_append_right (by omega)] at h1
      obtain ⟨pt', hpt, e⟩ := hls _ (List.mem_of_getElem? h1)
      cases e
      exact .inr ⟨hpt, rfl⟩
  · intro i o hi _
    rw [ho, List.getElem?_append_left (List.getElem?_eq_some_iff.mp hi).1]
    exact hi

/-- Closing descriptors. -/
structure Closed (os : List Nat) (v v' : K) : Prop where
  objs : v'.objs = v.objs
  pins : v'.pins = v.pins
  dirs : v'.dirs = v.dirs
  hist : ∃ g, v'.hist = g ++ v.hist
  fds : ∀ o, v'.fds.count o = v.fds.count o - os.count o

theorem Closed.refl (v : K) : Closed [] v v := ⟨rfl, rfl, rfl, ⟨[], rfl⟩, fun _ => by simp⟩

theorem Closed.mem {os : List Nat} {v v' : K} (h : Closed os v v') {o : Nat} (ho : o ∈ v'.fds) : o ∈ v.fds := by
  rw [← List.count_pos_iff] at ho ⊢
  have := h.fds o
  omega

theorem Closed.mem_of {os : List Nat} {v v' : K} (h : Closed os v v') {o : Nat} (ho : o ∈ v.fds) (hn : o ∉ os) : o ∈ v'.fds := by
  rw [← List.count_pos_iff] at ho ⊢
  have := h.fds o
  rw [List.count_eq_zero.mpr hn] at this
  omega

theorem closeAll_closed {Q : Unit → K → Prop} {os : List Nat}
    (hI : ∀ v' l, (∃ l', os = l ++ l') → Closed l v v' → I v') (hQ : ∀ v', Closed os v v' → Q () v') : Safe I Q (closeAll os) v := by
  suffices ∀ rest done v1, os = done ++ rest → Closed done v v1 → Safe I Q (closeAll rest) v1 from this os [] v rfl (Closed.refl v)
  intro rest
  induction rest with
  | nil =>
    intro done v1 e hc
    exact ⟨hI v1 done ⟨[], e⟩ hc, hQ v1 (by rw [e, List.append_nil]; exact hc)⟩
  | cons o rest ih =>
    intro done v1 e hc
    refine ⟨hI v1 done ⟨_, e⟩ hc, fun a v2 hs => ?_⟩
    rw [hs.close]
    refine ih (done ++ [o]) _ (by rw [e]; simp) ?_
    obtain ⟨g, hg⟩ := hc.hist
    refine ⟨hc.objs, hc.pins, hc.dirs, ⟨(.close o, a) :: g, by simp [hg]⟩, fun x => ?_⟩
    have := hc.fds x
    simp only [K.log_fds, List.count_erase, List.count_append, List.count_cons, List.count_nil, this]
    by_cases hx : o = x
    · subst hx; simp; omega
    · have : (o == x) = false := by simpa using hx
      simp [this]

theorem linkUpdate_safe {l : Link} {p pn : Nat} {Q : Link × Res Unit → K → Prop} (hw : v.Wf) (hl : LinkFd v l p) (hn : IsProg v pn)
    (hI : ∀ v', Mid l.points p pn v v' → I v')
    (he : ∀ e v', Keep v v' → Q (l, .err e) v')
    (hk : ∀ l' v', Mid l.points p pn v v' → LinkFd v' l' pn → l'.d.name = l.d.name → l'.points = l.points →
      l'.extra.isSome = l.extra.isSome → (OptsOk l.d.opts → OptsOk l'.d.opts) → Q (l', .ok ()) v') : Safe I Q (linkUpdate l pn) v := by
  have IK : ∀ v', Keep v v' → I v' := fun v' h => hI v' (h.mid hl)
  have k0 := Keep.refl v
  have hlen := hl.att.1
  unfold linkUpdate
  split
  · next hnf =>
    -- netfilter: new links, then close the old ones
    have hpts : l.points = [.nf l.d.hook false, .nf l.d.hook true] := by unfold Link.points points; rw [hnf]
    have hlen2 : l.fds.length = 2 := by rw [hlen]; unfold points; rw [hnf]; rfl
    have hx : l.extra.isSome = true := by
      cases h : l.extra with
      | none => simp [Link.fds, h] at hlen2
      | some x => rfl
    unfold linkUpdateNf
    refine ⟨IK v k0, fun a v1 hs => ?_⟩
    rcases hs.linkCreate with ⟨e, rfl, rfl⟩ | ⟨rfl, rfl⟩
    · exact ⟨IK _ (k0.log _ _), he e _ (k0.log _ _)⟩
    have hmem1 : v.objs.length ∈ ((v.new (.link (.nf l.d.hook false) pn false)).log (.linkCreate pn (.nf l.d.hook false)) (.id v.objs.length)).fds := by simp
    have hobj1 : ((v.new (.link (.nf l.d.hook false) pn false)).log (.linkCreate pn (.nf l.d.hook false)) (.id v.objs.length)).objs =
        v.objs ++ [.link (.nf l.d.hook false) pn false] := rfl
    have hfr1 : Frame v ((v.new (.link (.nf l.d.hook false) pn false)).log (.linkCreate pn (.nf l.d.hook false)) (.id v.objs.length)) :=
      (Frame.new v).trans (Frame.log _ _ _)
    have hpin1 : ((v.new (.link (.nf l.d.hook false) pn false)).log (.linkCreate pn (.nf l.d.hook false)) (.id v.objs.length)).pins = v.pins := rfl
    have hfds1 : ((v.new (.link (.nf l.d.hook false) pn false)).log (.linkCreate pn (.nf l.d.hook false)) (.id v.objs.length)).fds = v.objs.length :: v.fds := rfl
    generalize (v.new (.link (.nf l.d.hook false) pn false)).log (.linkCreate pn (.nf l.d.hook false)) (.id v.objs.length) = v1 at *
    have hm1 : Mid l.points p pn v v1 := by
      refine Mid.add hobj1 (fun o ho => ?_) (fun o ho => ?_) hpin1 hfr1.dirs hfr1.hist fun pt hp => .inl ((hl.frame hfr1).runs hp)
      · rw [List.mem_singleton.mp ho, hpts]
        exact ⟨_, by simp, rfl⟩
      · rw [hfds1] at ho
        rcases List.mem_cons.mp ho with rfl | ho
        · exact .inr (Nat.le_refl _)
        · exact .inl ho
    refine ⟨hI _ hm1, fun b v2 hs2 => ?_⟩
    rcases hs2.linkCreate with ⟨e, rfl, rfl⟩ | ⟨rfl, rfl⟩
    · -- the second failed: close the first
      have hm2 : Mid l.points p pn v (v1.log (.linkCreate pn (.nf l.d.hook true)) (.fail e)) :=
        Mid.add hobj1 (fun o ho => by rw [List.mem_singleton.mp ho, hpts]; exact ⟨_, by simp, rfl⟩)
          (fun o ho => by
            rw [K.log_fds, hfds1] at ho
            rcases List.mem_cons.mp ho with rfl | ho
            · exact .inr (Nat.le_refl _)
            · exact .inl ho) hpin1 hfr1.dirs (hfr1.trans (Frame.log _ _ _)).hist
          fun pt hp => .inl ((hl.frame (hfr1.trans (Frame.log _ _ _))).runs hp)
      refine safe_void (hI _ hm2) fun c v3 hs3 => ?_
      have k3 : Keep v (({ v1.log (.linkCreate pn (.nf l.d.hook true)) (.fail e) with fds := v1.fds.erase v.objs.length } : K).log (.close v.objs.length) c) := by
        have hfds : v1.fds.erase v.objs.length = v.fds := by rw [hfds1, List.erase_cons_head]
        obtain ⟨g, hg⟩ := hfr1.hist
        refine ⟨⟨⟨_, hobj1⟩, hfr1.dirs, fun o _ => ?_, ⟨(.close v.objs.length, c) :: (.linkCreate pn (.nf l.d.hook true), .fail e) :: g, by simp [hg]⟩⟩, hpin1, ?_⟩
        · simp only [K.log_fds, hfds]
        · rintro o ⟨pt, q, d, ho⟩ hh
          simp only [K.log_objs, hobj1] at ho
          have hlt : o < v.objs.length := by
            rcases hh with hh | ⟨d', n, hh⟩
            · simp only [K.log_fds, hfds] at hh
              exact hw.fds o hh
            · have : v.pinned d' n = some o := by unfold K.pinned at hh ⊢; simp only [K.log_pins, hpin1] at hh; exact hh
              exact hw.pins _ (lookup_mem this)
          rw [List.getElem?_append_left hlt] at ho
          refine ⟨⟨pt, q, d, ho⟩, ?_⟩
          rcases hh with hh | ⟨d', n, hh⟩
          · simp only [K.log_fds, hfds] at hh
            exact .inl hh
          · exact .inr ⟨d', n, by unfold K.pinned at hh ⊢; simp only [K.log_pins, hpin1] at hh; exact hh⟩
      rw [hs3.close]
      exact ⟨IK _ k3, he e _ k3⟩
    -- both links exist
    have hlen1 : v1.objs.length = v.objs.length + 1 := by rw [hobj1]; simp
    have hobj2 : ((v1.new (.link (.nf l.d.hook true) pn false)).log (.linkCreate pn (.nf l.d.hook true)) (.id v1.objs.length)).objs =
        v.objs ++ [.link (.nf l.d.hook false) pn false, .link (.nf l.d.hook true) pn false] := by simp [hobj1]
    have hfr2 : Frame v ((v1.new (.link (.nf l.d.hook true) pn false)).log (.linkCreate pn (.nf l.d.hook true)) (.id v1.objs.length)) :=
      hfr1.trans ((Frame.new v1).trans (Frame.log _ _ _))
    have hpin2 : ((v1.new (.link (.nf l.d.hook true) pn false)).log (.linkCreate pn (.nf l.d.hook true)) (.id v1.objs.length)).pins = v.pins := hpin1
    have hfds2 : ((v1.new (.link (.nf l.d.hook true) pn false)).log (.linkCreate pn (.nf l.d.hook true)) (.id v1.objs.length)).fds =
        (v.objs.length + 1) :: v.objs.length :: v.fds := by simp [hfds1, hlen1]
    rw [hlen1] at hobj2 hfr2 hpin2 hfds2 ⊢
    generalize (v1.new (.link (.nf l.d.hook true) pn false)).log (.linkCreate pn (.nf l.d.hook true)) (.id (v.objs.length + 1)) = v2 at *
    have fresh : ∀ o ∈ l.fds, o < v.objs.length := by
      intro o ho
      obtain ⟨_, _, _, h⟩ := hl.att.isLink ho
      exact (List.getElem?_eq_some_iff.mp h).1
    have hfdN : ∀ os v3, (∀ o ∈ os, o < v.objs.length) → Closed os v2 v3 →
        LinkFd v3 ⟨{ l.d with opts := { l.d.opts with prio0 := l.d.opts.prio1, prio1 := l.d.opts.prio0 } }, v.objs.length, some (v.objs.length + 1)⟩ pn := by
      intro os v3 hos hc
      refine ⟨⟨?_, ?_⟩, ?_⟩
      · simp only [Link.fds, points, hnf]; rfl
      · simp only [Link.fds, points, hnf, Option.toList_some, List.zip_cons_cons, List.zip_nil_left, List.mem_cons, List.not_mem_nil, or_false]
        rintro x (rfl | rfl)
        · simp [hc.objs, hobj2]
        · simp [hc.objs, hobj2]
      · simp only [Link.fds, Option.toList_some, List.mem_cons, List.not_mem_nil, or_false]
        rintro o (rfl | rfl)
        · exact hc.mem_of (by rw [hfds2]; simp) (fun h => by have := hos _ h; omega)
        · exact hc.mem_of (by rw [hfds2]; simp) (fun h => by have := hos _ h; omega)
    have hmid : ∀ os v3, (∀ o ∈ os, o < v.objs.length) → Closed os v2 v3 → Mid l.points p pn v v3 := by
      intro os v3 hos hc
      have hfn := hfdN os v3 hos hc
      obtain ⟨g, hg⟩ := hfr2.hist
      obtain ⟨g', hg'⟩ := hc.hist
      refine Mid.add (hc.objs.trans hobj2) (fun o ho => ?_) (fun o ho => ?_) (hc.pins.trans hpin2) (hc.dirs.trans hfr2.dirs)
        ⟨g' ++ g, by rw [hg', hg, List.append_assoc]⟩ fun pt hp => .inr (hfn.runs ?_)
      · rw [hpts]
        simp only [List.mem_cons, List.not_mem_nil, or_false] at ho
        rcases ho with rfl | rfl
        · exact ⟨_, by simp, rfl⟩
        · exact ⟨_, by simp, rfl⟩
      · have := hc.mem ho
        rw [hfds2] at this
        simp only [List.mem_cons] at this
        rcases this with rfl | rfl | h
        · exact .inr (by omega)
        · exact .inr (Nat.le_refl _)
        · exact .inl h
      · rw [hpts] at hp
        unfold Link.points points
        simp only [hnf]
        exact hp
    show Safe I Q (closeAll l.fds >>= fun _ => pure ((⟨{ l.d with opts := { l.d.opts with prio0 := l.d.opts.prio1, prio1 := l.d.opts.prio0 } }, v.objs.length,
      some (v.objs.length + 1)⟩ : Link), .ok ())) v2
    refine Safe.bind (closeAll_closed (os := l.fds) (fun v3 os hos hc => hI v3 (hmid os v3 (fun o ho => fresh o (by
      obtain ⟨os', e⟩ := hos
      rw [e]; simp [ho])) hc)) fun v3 hc => ?_)
    have hm3 := hmid l.fds v3 fresh hc
    refine ⟨hI _ hm3, hk _ v3 hm3 (hfdN l.fds v3 fresh hc) rfl ?_ ?_ ?_⟩
    · unfold Link.points points
      simp only [hnf]
    · simp [hx]
    · intro ho
      refine ⟨ho.ifindex, ho.cgpath, ho.family, ?_⟩
      have := ho.priorities
      simp only at this ⊢
      split
      · next h => rw [if_pos h] at this; exact ⟨this.2, this.1⟩
      · next h => rw [if_neg h] at this; exact ⟨this.2, this.1⟩
  · next hnf =>
    -- the others: one call
    have hone : ∃ pt, l.points = [pt] := by
      unfold Link.points points
      cases h : l.d.hook.flavor <;> first | exact absurd h hnf | exact ⟨_, rfl⟩
    obtain ⟨pt, hpt⟩ := hone
    have hpt' : points l.d.hook l.d.opts = [pt] := hpt
    have hex : l.extra = none := by
      rw [hpt'] at hlen
      cases h : l.extra with
      | none => rfl
      | some x => simp [Link.fds, h] at hlen
    have hobj : v.objs[l.fd]? = some (.link pt p false) := by
      refine hl.att.2 (l.fd, pt) ?_
      rw [hpt']
      simp [Link.fds, hex]
    refine ⟨IK v k0, fun a v1 hs => ?_⟩
    rcases hs.linkUpdate with ⟨e, rfl, rfl⟩ | ⟨rfl, pt', q', ho, rfl⟩
    · exact ⟨IK _ (k0.log _ _), he e _ (k0.log _ _)⟩
    rw [hobj] at ho
    cases ho
    have hlt := (List.getElem?_eq_some_iff.mp hobj).1
    have hset : ∀ i, ((v.put l.fd (.link pt pn false)).log (.linkUpdate l.fd pn) .done).objs[i]? =
        if l.fd = i then some (.link pt pn false) else v.objs[i]? := by
      intro i
      simp only [K.log_objs, K.put_objs, List.getElem?_set, hlt, if_true]
    have hfd : LinkFd ((v.put l.fd (.link pt pn false)).log (.linkUpdate l.fd pn) .done) l pn := by
      refine ⟨⟨hl.att.1, ?_⟩, hl.fds⟩
      intro x hx
      rw [hpt'] at hx
      simp [Link.fds, hex] at hx
      subst hx
      rw [hset, if_pos rfl]
    have hm : Mid l.points p pn v ((v.put l.fd (.link pt pn false)).log (.linkUpdate l.fd pn) .done) := by
      refine ⟨?_, fun pt hp => .inr (hfd.runs hp), rfl, rfl, ⟨[_], rfl⟩, ?_⟩
      · rintro pt2 q ⟨lk, h1, h2⟩
        rw [hset] at h1
        split at h1
        · cases h1
          exact .inr ⟨by rw [hpt]; simp, rfl⟩
        · exact .inl ⟨lk, h1, h2⟩
      · intro i o hi hno
        rw [hset]
        split
        · next e =>
          subst e
          rw [hobj] at hi
          cases hi
          cases hno
        · exact hi
    exact ⟨hI _ hm, hk l _ hm hfd rfl rfl rfl id⟩

end Bf.Pin
