import Verif.Cgen.Switch
/-!
# Updating a chain
-/
namespace Bf.Pin

variable {I : K → Prop} {v v0 : K} {dir : String}

/-- Names that are not those of programs and maps. -/
def special : List String := ["bf_ctx", "bf_ctx_tmp", "bf_link", "bf_link_extra"]

structure NamesOk (h : Handle) : Prop where
  prog : h.progName ∉ special
  maps : ∀ m ∈ h.maps, m.d.name ∉ special

theorem NamesOk.names {h : Handle} (hn : NamesOk h) {n : String} (hm : h.names n) : n ≠ "bf_ctx" ∧ n ≠ "bf_ctx_tmp" := by
  rcases hm with rfl | ⟨m, hm, rfl⟩ | ⟨_, rfl | rfl⟩
  · have := hn.prog
    simp [special] at this
    exact ⟨this.1, this.2.1⟩
  · have := hn.maps m hm
    simp [special] at this
    exact ⟨this.1, this.2.1⟩
  · decide
  · decide

theorem setMapName_special (i : Nat) : objName (setMapName i) ∉ special := by
  have h : (objName (setMapName i)).toList[3]? = some 's' := by
    unfold objName setMapName
    simp only [String.toList_ofList]
    generalize [i % 65536 / 4096, i % 65536 / 256 % 16, i % 65536 / 16 % 16, i % 65536 % 16].map Nat.digitChar = l
    have : "bf_set_".toList = ['b', 'f', '_', 's', 'e', 't', '_'] := by decide
    rw [this]
    rfl
  intro hm
  simp only [special, List.mem_cons, List.not_mem_nil, or_false] at hm
  rcases hm with e | e | e | e <;> rw [e] at h <;> exact absurd h (by decide)

theorem SetMaps.mem {chain : Chain} {gs : Groups} {i : Nat} {ms : List (Option BMap)} (h : SetMaps chain gs i ms) {m : BMap}
    (hm : some m ∈ ms) : ∃ g j, g ∈ gs ∧ SetMap chain g j m := by
  induction ms generalizing gs i with
  | nil => cases hm
  | cons x ms ih =>
    cases gs with
    | nil => exact absurd h (by simp [SetMaps])
    | cons g gs =>
      cases x with
      | none => exact absurd h (by simp [SetMaps])
      | some y =>
        obtain ⟨h1, h2⟩ := h
        rcases List.mem_cons.mp hm with e | e
        · cases e; exact ⟨g, i, by simp, h1⟩
        · obtain ⟨g', j, hg, hj⟩ := ih h2 e
          exact ⟨g', j, by simp [hg], hj⟩

theorem Ready.namesOk {T : Target} {chain : Chain} {h : Handle} (hr : Ready T chain v h) : NamesOk h := by
  refine ⟨by rw [hr.name]; decide, fun m hm => ?_⟩
  simp only [Handle.maps, List.mem_append, Option.mem_toList] at hm
  rcases hm with (((hm | hm) | hm) | hm) | hm
  · rw [hr.cmap m hm]; show objName "bf_cmap" ∉ special; decide
  · rw [hr.pmap m hm]; show objName "bf_pmap" ∉ special; decide
  · rw [hr.lmap m hm]; show objName "bf_lmap" ∉ special; decide
  · rw [hr.smap m hm]; show objName "bf_smap" ∉ special; decide
  · simp only [List.mem_filterMap, id_eq, exists_eq_right] at hm
    obtain ⟨g, j, _, s, _, e⟩ := hr.sets.mem hm
    rw [e]
    exact setMapName_special j

theorem cgenBytes_ne (c : Chain) (h : HandleD) : cgenBytes c h ≠ [] := by
  simp [cgenBytes, cgenNode, enc, encMapHead]

/-- A program of `chain`, complete, made since `v0`. -/
def IsNew (T : Target) (chain : Chain) (v0 v : K) (q : Nat) : Prop :=
  v0.objs.length ≤ q ∧ ∃ img m M, v.objs[q]? = some (.prog chain img m) ∧ M.counters = BitVec.ofNat 32 m ∧ compile chain T.thr T.slen M = .ok img

theorem IsNew.prog {T : Target} {chain : Chain} {v0 v : K} {q : Nat} (h : IsNew T chain v0 v q) : IsProg v q := by
  obtain ⟨_, img, m, _, h, _⟩ := h
  exact ⟨_, _, _, h⟩

theorem IsNew.of {T : Target} {chain : Chain} {v0 v v' : K} {q : Nat} (h : IsNew T chain v0 v q)
    (ho : ∀ (i : Nat) (o : Obj), v.objs[i]? = some o → o.isLink = false → v'.objs[i]? = some o) : IsNew T chain v0 v' q := by
  obtain ⟨h0, img, m, M, h1, h2⟩ := h
  exact ⟨h0, img, m, M, ho _ _ h1 rfl, h2⟩

theorem IsNew.frame {T : Target} {chain : Chain} {v0 v v' : K} {q : Nat} (h : IsNew T chain v0 v q) (hf : Frame v v') : IsNew T chain v0 v' q :=
  h.of fun _ _ ho _ => hf.get ho

theorem Ready.isNew {T : Target} {chain : Chain} {h : Handle} (hr : Ready T chain v h) (hk : ∀ p, h.prog = some p → v0.objs.length ≤ p) {p : Nat}
    (hp : h.prog = some p) : IsNew T chain v0 v p := by
  obtain ⟨p', img, m, e1, e2, e3, e4⟩ := hr.prog
  rw [hp] at e1
  cases e1
  exact ⟨hk p hp, img, m.id, h.mapFds, e3, by simp [Handle.mapFds, e2, mapFd], e4⟩

/-- The maps of handle `h` are those of the chain: counters for the rules, the policy and the errors, a log buffer if the chain logs, a set map for each group of its sets. -/
def MapsOf (chain : Chain) (h : Handle) : Prop :=
  (∀ m, h.cmap = some m → m.d = cmapD chain) ∧ (∀ m, h.lmap = some m → m.d = lmapD) ∧ h.lmap.isSome = chain.flagLog ∧
  (∀ m, h.smap = some m → m.d = smapD chain) ∧ SetMaps chain (buildGroups chain.sets) 0 h.sets

/-- Program `q` is the program of handle `h`: it was generated, completely, from the chain, for the maps of `h`, which are those of the chain. -/
def Tied (T : Target) (chain : Chain) (v : K) (h : Handle) (q : Nat) : Prop :=
  ∃ img m, h.cmap = some m ∧ v.objs[q]? = some (.prog chain img m.id) ∧ compile chain T.thr T.slen h.mapFds = .ok img ∧ MapsOf chain h

theorem Tied.of {T : Target} {v v' : K} {h : Handle} {q : Nat} (ht : Tied T chain v h q)
    (ho : ∀ (i : Nat) (o : Obj), v.objs[i]? = some o → o.isLink = false → v'.objs[i]? = some o) : Tied T chain v' h q := by
  obtain ⟨img, m, h1, h2, h3⟩ := ht
  exact ⟨img, m, h1, ho _ _ h2 rfl, h3⟩

theorem Tied.get {T : Target} {v v' : K} {h : Handle} {q : Nat} (ht : Tied T chain v h q) (ho : ∀ o, v.objs[q]? = some o → v'.objs[q]? = some o) : Tied T chain v' h q := by
  obtain ⟨img, m, h1, h2, h3⟩ := ht
  exact ⟨img, m, h1, ho _ h2, h3⟩

theorem Tied.frame {T : Target} {v v' : K} {h : Handle} {q : Nat} (ht : Tied T chain v h q) (hf : Frame v v') : Tied T chain v' h q :=
  ht.get fun _ ho => hf.get ho

theorem Ready.tied {T : Target} {h : Handle} (hr : Ready T chain v h) {p : Nat} (hp : h.prog = some p) : Tied T chain v h p := by
  obtain ⟨p', img, m, e1, e2, e3, e4⟩ := hr.prog
  rw [hp] at e1
  cases e1
  exact ⟨img, m, e2, e3, e4, hr.cmap, hr.lmap, hr.logs, hr.smap, hr.sets⟩

/-- A call that should have worked failed, after an attempt to remove the pin of the program. -/
def FailedAfter (dir name : String) (v0 v : K) : Prop :=
  ∃ g1 c e g2 a g3, v.hist = g1 ++ (c, .fail e) :: (g2 ++ (.unlink dir name, a) :: (g3 ++ v0.hist)) ∧ Call.vital c = true

theorem FailedAfter.later {name : String} {v0 v v' : K} (h : FailedAfter dir name v0 v) (hh : ∃ g, v'.hist = g ++ v.hist) : FailedAfter dir name v0 v' := by
  obtain ⟨g1, c, e, g2, a, g3, e1, e2⟩ := h
  obtain ⟨g, e3⟩ := hh
  exact ⟨g ++ g1, c, e, g2, a, g3, by rw [e3, e1, List.append_assoc], e2⟩

theorem FailedAfter.earlier {name : String} {v0 v v' : K} (h : FailedAfter dir name v v') (hh : ∃ g, v.hist = g ++ v0.hist) : FailedAfter dir name v0 v' := by
  obtain ⟨g1, c, e, g2, a, g3, e1, e2⟩ := h
  obtain ⟨g, e3⟩ := hh
  exact ⟨g1, c, e, g2, a, g3 ++ g, by rw [e1, e3, List.append_assoc], e2⟩

theorem FailedSince.after {name : String} {v0 v1 v2 : K} {a : Ans} (h : FailedSince v1 v2) (hs : Since v0 v1 (.unlink dir name, a)) : FailedAfter dir name v0 v2 := by
  obtain ⟨g1, c, e, g2, e1, e2⟩ := h
  obtain ⟨h1, h2, e3⟩ := hs
  exact ⟨g1, c, e, g2 ++ h1, a, h2, by rw [e1, e3]; simp, e2⟩

/-- What holds at every instant of an update that started in `v0`: `pts` are the points of the link, `p` the program it attaches,
`name` the name under which it is pinned. -/
structure Upd (T : Target) (chain : Chain) (dir name : String) (pts : List Point) (p : Nat) (v0 v : K) : Prop where
  hist : ∃ g, v.hist = g ++ v0.hist
  only : ∀ pt q, v.runs pt q → v0.runs pt q ∨ (pt ∈ pts ∧ IsNew T chain v0 v q)
  cov : (∀ pt ∈ pts, ∃ q, v.runs pt q ∧ (q = p ∨ IsNew T chain v0 v q)) ∨ FailedAfter dir name v0 v
  early : (v.pins = v0.pins ∧ ∃ new, v.objs = v0.objs ++ new) ∨ ∃ n a, Since v0 v (.unlink dir n, a)

variable {T : Target} {chain : Chain} {name : String} {pts : List Point} {p : Nat}

/-- The link of the handle, if any, attaches `q`, to `pts`, and is open. -/
structure Fd (v : K) (lk : Option Link) (pts : List Point) (q : Nat) : Prop where
  fd : ∀ l, lk = some l → LinkFd v l q ∧ l.points = pts
  none : lk = none → pts = []

theorem Fd.runs {lk : Option Link} {q : Nat} (h : Fd v lk pts q) {pt : Point} (hp : pt ∈ pts) : v.runs pt q := by
  cases lk with
  | none => rw [h.none rfl] at hp; cases hp
  | some l => obtain ⟨h1, h2⟩ := h.fd l rfl; exact h1.runs (by rw [h2]; exact hp)

theorem Fd.frame {v v' : K} {lk : Option Link} {q : Nat} (h : Fd v lk pts q) (hf : Frame v v') : Fd v' lk pts q :=
  ⟨fun l hl => ⟨(h.fd l hl).1.frame hf, (h.fd l hl).2⟩, h.none⟩

theorem hist_trans {a b c : K} (h : ∃ g, b.hist = g ++ a.hist) (h' : ∃ g, c.hist = g ++ b.hist) : ∃ g, c.hist = g ++ a.hist := by
  obtain ⟨g, e⟩ := h
  obtain ⟨g', e'⟩ := h'
  exact ⟨g' ++ g, by rw [e', e, List.append_assoc]⟩

theorem Upd.near {v0 v v' : K} {lk : Option Link} {q : Nat} (h : Upd T chain dir name pts p v0 v) (hn : Near dir v v') (hfd : Fd v lk pts q)
    (hq : q = p ∨ IsNew T chain v0 v q) (hw : (v'.pins = v.pins ∨ ∃ n a, Since v v' (.unlink dir n, a)) ∨ ∃ n a, Since v0 v (.unlink dir n, a)) :
    Upd T chain dir name pts p v0 v' := by
  refine ⟨hist_trans h.hist hn.hist, fun pt q' hr => ?_, .inl fun pt hp => ⟨q, (hfd.frame hn.toFrame).runs hp, hq.imp id (·.frame hn.toFrame)⟩, ?_⟩
  · exact (h.only pt q' (hn.toFrame.runs_of hn.noNew hr)).imp id fun ⟨h1, h2⟩ => ⟨h1, h2.frame hn.toFrame⟩
  · rcases hw with (hw | ⟨n, a, hw⟩) | ⟨n, a, hw⟩
    · rcases h.early with ⟨e, g, eo⟩ | ⟨n, a, e⟩
      · obtain ⟨g', eo'⟩ := hn.objs
        exact .inl ⟨hw.trans e, g ++ g', by rw [eo', eo, List.append_assoc]⟩
      · exact .inr ⟨n, a, e.later hn.hist⟩
    · exact .inr ⟨n, a, hw.earlier h.hist⟩
    · exact .inr ⟨n, a, hw.later hn.hist⟩

theorem Upd.mid {v0 v v' : K} {pn : Nat} (h : Upd T chain dir name pts p v0 v) (hm : Mid pts p pn v v') (hn : IsNew T chain v0 v pn)
    (hs : ∃ n a, Since v0 v (.unlink dir n, a)) : Upd T chain dir name pts p v0 v' := by
  have hn' := hn.of hm.objs
  refine ⟨hist_trans h.hist hm.hist, fun pt q hr => ?_, .inl fun pt hp => ?_, ?_⟩
  · rcases hm.only pt q hr with h1 | ⟨h1, rfl⟩
    · exact (h.only pt q h1).imp id fun ⟨a, b⟩ => ⟨a, b.of hm.objs⟩
    · exact .inr ⟨h1, hn'⟩
  · rcases hm.cov pt hp with h1 | h1
    · exact ⟨p, h1, .inl rfl⟩
    · exact ⟨pn, h1, .inr hn'⟩
  · obtain ⟨n, a, e⟩ := hs
    exact .inr ⟨n, a, e.later hm.hist⟩

theorem Upd.refl (v : K) {lk : Option Link} (hfd : Fd v lk pts p) : Upd T chain dir name pts p v v :=
  ⟨⟨[], rfl⟩, fun _ _ h => .inl h, .inl fun _ hp => ⟨p, hfd.runs hp, .inl rfl⟩, .inl ⟨rfl, [], by simp⟩⟩

/-- Closing descriptors of a link that is pinned, or once something failed. -/
theorem Upd.closed {v0 v v' : K} {os : List Nat} (h : Upd T chain dir name pts p v0 v) (hc : Closed os v v')
    (hp : FailedAfter dir name v0 v ∨ ∃ lk q, Fd v lk pts q ∧ (∀ l, lk = some l → ∀ o ∈ l.fds, ∃ n, v.pinned dir n = some o) ∧
      (q = p ∨ IsNew T chain v0 v q)) : Upd T chain dir name pts p v0 v' := by
  have heq : ∀ (i : Nat) (o : Obj), v.objs[i]? = some o → o.isLink = false → v'.objs[i]? = some o := fun i o ho _ => by rw [hc.objs]; exact ho
  refine ⟨hist_trans h.hist hc.hist, fun pt q hr => ?_, ?_, ?_⟩
  · obtain ⟨l, h1, h2⟩ := hr
    refine (h.only pt q ⟨l, by rw [← hc.objs]; exact h1, ?_⟩).imp id fun ⟨a, b⟩ => ⟨a, b.of heq⟩
    rcases h2 with h2 | ⟨d, n, h2⟩
    · exact .inl (hc.mem h2)
    · exact .inr ⟨d, n, by unfold K.pinned at h2 ⊢; rw [← hc.pins]; exact h2⟩
  · rcases hp with hf | ⟨lk, q, hfd, hpin, hq⟩
    · exact .inr (hf.later hc.hist)
    · refine .inl fun pt hpt => ⟨q, ?_, hq.imp id (·.of heq)⟩
      cases lk with
      | none => rw [hfd.none rfl] at hpt; cases hpt
      | some l =>
        obtain ⟨hl, hpl⟩ := hfd.fd l rfl
        refine Attached.runs (l := l) ⟨hl.att.1, fun x hx => by rw [hc.objs]; exact hl.att.2 x hx⟩ (fun o ho => .inr ?_) (by rw [hpl]; exact hpt)
        obtain ⟨n, hn⟩ := hpin l rfl o ho
        exact ⟨dir, n, by unfold K.pinned at hn ⊢; rw [hc.pins]; exact hn⟩
  · rcases h.early with ⟨e, g, eo⟩ | ⟨n, a, e⟩
    · exact .inl ⟨hc.pins.trans e, g, by rw [hc.objs, eo]⟩
    · exact .inr ⟨n, a, e.later hc.hist⟩

theorem Upd.failed_near {v0 v v' : K} (h : Upd T chain dir name pts p v0 v) (hf : FailedAfter dir name v0 v) (hn : Near dir v v')
    (hu : ∃ n a, Since v0 v (.unlink dir n, a)) : Upd T chain dir name pts p v0 v' := by
  refine ⟨hist_trans h.hist hn.hist, fun pt q' hr => ?_, .inr (hf.later hn.hist), ?_⟩
  · exact (h.only pt q' (hn.toFrame.runs_of hn.noNew hr)).imp id fun ⟨h1, h2⟩ => ⟨h1, h2.frame hn.toFrame⟩
  · obtain ⟨n, a, e⟩ := hu
    exact .inr ⟨n, a, e.later hn.hist⟩

/-- Back to how things were. -/
structure Back (dir : String) (v0 v : K) : Prop extends Near dir v0 v where
  same : ∀ n, v.pinned dir n = v0.pinned dir n
  why : v.pins = v0.pins ∨ ∃ n a, Since v0 v (.unlink dir n, a)

theorem Keep.back {v0 v : K} (h : Keep v0 v) : Back dir v0 v :=
  ⟨h.near, fun n => by unfold K.pinned; rw [h.pins], .inl h.pins⟩

theorem Back.keep {v0 v v' : K} (h : Back dir v0 v) (hk : Keep v v') : Back dir v0 v' := by
  refine ⟨h.toNear.trans hk.near, fun n => ?_, ?_⟩
  · rw [← h.same n]; unfold K.pinned; rw [hk.pins]
  · rcases h.why with e | ⟨n, a, e⟩
    · exact .inl (hk.pins.trans e)
    · exact .inr ⟨n, a, e.later hk.hist⟩

theorem Placed.keep {v v' : K} {h : Handle} (hp : Placed v dir h) (hf : Frame v v') (he : ∀ n, n ≠ "bf_ctx" → n ≠ "bf_ctx_tmp" → v'.pinned dir n = v.pinned dir n) :
    Placed v' dir h := by
  refine ⟨fun x hx => ?_, fun l hl => ?_, ?_, fun m hm => hf.map (hp.maps m hm), fun l p h1 h2 => (hp.link l p h1 h2).frame hf, hp.names⟩
  · have hn : h.names x.1 := by
      simp only [Handle.pinList, List.mem_append, List.mem_map, Option.mem_toList] at hx
      rcases hx with (⟨q, _, rfl⟩ | ⟨m, hm, rfl⟩) | hx
      · exact .inl rfl
      · exact .inr (.inl ⟨m, hm, rfl⟩)
      · cases hl : h.link with
        | none => rw [hl] at hx; cases hx
        | some l =>
          rw [hl] at hx
          simp only [List.mem_cons, List.mem_map] at hx
          rcases hx with rfl | ⟨y, _, rfl⟩
          · exact .inr (.inr ⟨by rw [hl]; rfl, .inl rfl⟩)
          · exact .inr (.inr ⟨by rw [hl]; rfl, .inr rfl⟩)
    rw [he x.1 (hp.names _ hn).1 (hp.names _ hn).2]
    exact hp.pins x hx
  · rw [he _ (by decide) (by decide)]; exact hp.extra l hl
  · obtain ⟨q, h1, h2⟩ := hp.prog
    exact ⟨q, h1, hf.prog h2⟩

theorem Placed.keep' {v v' : K} {h : Handle} (hp : Placed v dir h) (hk : Keep v v') : Placed v' dir h :=
  hp.keep hk.toFrame fun n _ _ => by unfold K.pinned; rw [hk.pins]

theorem Placed.canPin {h : Handle} (hp : Placed v dir h) (hl : ∀ l, h.link = some l → ∀ o ∈ l.fds, o ∈ v.fds) : CanPin v h :=
  ⟨hp.prog, hp.maps, hl⟩

theorem CanPin.frame {v v' : K} {h : Handle} (hc : CanPin v h) (hf : Frame v v') (hl : ∀ l, h.link = some l → ∀ o ∈ l.fds, IsLink v o) : CanPin v' h := by
  obtain ⟨q, h1, h2⟩ := hc.prog
  exact ⟨⟨q, h1, hf.prog h2⟩, fun m hm => hf.map (hc.maps m hm), fun l h o ho => (hf.held (hl l h o ho)).mpr (hc.link l h o ho)⟩

theorem pinList_names {h : Handle} {x : String × Nat} (hx : x ∈ h.pinList) : h.names x.1 := by
  simp only [Handle.pinList, List.mem_append, List.mem_map, Option.mem_toList] at hx
  rcases hx with (⟨q, _, rfl⟩ | ⟨m, hm, rfl⟩) | hx
  · exact .inl rfl
  · exact .inr (.inl ⟨m, hm, rfl⟩)
  · cases hl : h.link with
    | none => rw [hl] at hx; cases hx
    | some l =>
      rw [hl] at hx
      simp only [List.mem_cons, List.mem_map] at hx
      rcases hx with rfl | ⟨y, _, rfl⟩
      · exact .inr (.inr ⟨by rw [hl]; rfl, .inl rfl⟩)
      · exact .inr (.inr ⟨by rw [hl]; rfl, .inr rfl⟩)

theorem pinList_extra {h : Handle} (hn : NamesOk h) (hx : ∀ l, h.link = some l → l.extra = none) (o : Nat) : ("bf_link_extra", o) ∉ h.pinList := by
  intro hm
  simp only [Handle.pinList, List.mem_append, List.mem_map, Option.mem_toList] at hm
  rcases hm with (⟨q, _, e⟩ | ⟨m, hm, e⟩) | hm
  · injection e with e1 _
    apply hn.prog
    rw [e1]; decide
  · injection e with e1 _
    apply hn.maps m hm
    rw [e1]; decide
  · cases hl : h.link with
    | none => rw [hl] at hm; cases hm
    | some l =>
      rw [hl] at hm
      simp only [hx l hl] at hm
      simp at hm

/-- What was pinned is found at its place. -/
theorem placed_of_added {v v' : K} {h : Handle} {ok : String → Prop} (hc : CanPin v h) (hn : NamesOk h) (hp : Pinning dir ok v v')
    (ha : Added dir h.pinList v v') (hx : ∀ l, h.link = some l → l.extra = none → v.pinned dir "bf_link_extra" = none)
    (hl : ∀ l p, h.link = some l → h.prog = some p → Attached v l p) : Placed v' dir h := by
  obtain ⟨q, h1, h2⟩ := hc.prog
  refine ⟨ha.mem, fun l hlk => ?_, ⟨q, h1, hp.near.toFrame.prog h2⟩, fun m hm => hp.near.toFrame.map (hc.maps m hm),
    fun l p a b => (hl l p a b).frame hp.near.toFrame, fun n h => hn.names h⟩
  cases he : l.extra with
  | none =>
    rw [ha.rest _ (pinList_extra hn fun l' hl' => by rw [hlk] at hl'; cases hl'; exact he)]
    exact hx l hlk he
  | some x =>
    refine ha.mem ("bf_link_extra", x) ?_
    simp [Handle.pinList, hlk, he]

theorem updateFinish_safe {Q : Cgen × Res Unit → K → Prop} {c : Cgen} {h : Handle} (hc : CanPin v h) (hn : NamesOk h)
    (hx : ∀ l, h.link = some l → l.extra = none → v.pinned dir "bf_link_extra" = none)
    (hl : ∀ l p, h.link = some l → h.prog = some p → Attached v l p)
    (hI : ∀ v', Near dir v v' → I v')
    (hE : ∀ c' r v', r ≠ .ok () → Near dir v v' → FailedSince v v' → c'.handle = h → Q (c', r) v')
    (hK : ∀ v', Near dir v v' → Placed v' dir h → HasCtx v' dir (cgenBytes chain h.d) → Q (⟨chain, h⟩, .ok ()) v') :
    Safe I Q (updateFinish c chain h dir) v := by
  unfold updateFinish
  refine Safe.bind (handlePin_safe (ok := h.names) hc (fun n hn => hn) (fun v' hp _ => hI v' hp.near)
    (fun e v' hp _ hf => ⟨hI v' hp.near, hE _ _ v' (by simp) hp.near hf rfl⟩) fun v1 hp1 ha1 => ?_)
  have pl1 := placed_of_added hc hn hp1 ha1 hx hl
  -- an error while persisting
  have bad : ∀ (c' : Cgen) e v', c'.handle = h → Near dir v v' → FailedSince v v' → Safe I Q (do handleUnpin h dir; pure (c', .err e)) v' := by
    intro c' e v' hh hnr hf
    refine Safe.bind (handleUnpin_safe (ok := h.names) (v0 := v') (fun n hn => hn) (Pinning.refl v') (Fewer.refl v')
      (fun v2 hp _ => hI v2 (hnr.trans hp.near)) fun v2 hp _ _ => ?_)
    exact ⟨hI v2 (hnr.trans hp.near), hE _ _ v2 (by simp) (hnr.trans hp.near) (hf.later hp.hist) hh⟩
  simp only
  refine Safe.bind (persist_safe rfl (cgenBytes_ne _ _) (fun v' hc _ => hI v' (hp1.near.trans hc.toNear))
    (fun e v' hc _ hf => bad _ e v' rfl (hp1.near.trans hc.toNear) (hf.earlier hp1.hist)) fun v2 hc2 _ _ => ?_)
  simp only
  refine Safe.bind (persist_safe (data := cgenBytes chain h.d) rfl (cgenBytes_ne _ _) (fun v' hc _ => hI v' ((hp1.near.trans hc2.toNear).trans hc.toNear))
    (fun e v' hc _ hf => bad _ e v' rfl ((hp1.near.trans hc2.toNear).trans hc.toNear) (hf.earlier (hp1.near.trans hc2.toNear).hist)) fun v3 hc3 hx3 _ => ?_)
  have hn3 := (hp1.near.trans hc2.toNear).trans hc3.toNear
  have hc23 := hc2.trans hc3
  exact ⟨hI v3 hn3, hK v3 hn3 (pl1.keep hc23.toFrame hc23.rest) hx3⟩

theorem transferLoop_safe {Q : Res Unit → K → Prop} {ncpu : Nat} {old new : Handle} {i n : Nat}
    (hI : ∀ v', Keep v v' → I v') (hQ : ∀ r v', Keep v v' → Q r v') : Safe I Q (transferLoop ncpu old new i n) v := by
  induction n generalizing i v with
  | zero => exact ⟨hI v (.refl v), hQ _ v (.refl v)⟩
  | succ n ih =>
    unfold transferLoop getCounter setCounter
    have fin : ∀ r v', Keep v v' → I v' ∧ Q r v' := fun r v' hk => ⟨hI v' hk, hQ r v' hk⟩
    have next : ∀ v', Keep v v' → Safe I Q (transferLoop ncpu old new (i + 1) n) v' := fun v' hk =>
      ih (fun v2 h => hI v2 (hk.trans h)) fun r v2 h => hQ r v2 (hk.trans h)
    have k0 := Keep.refl v
    cases old.cmap with
    | none => exact fin _ v k0
    | some m =>
      refine Safe.bind (safe_quiet trivial (hI v k0) (fun e a => ⟨hI _ (k0.log _ _), fin _ _ (k0.log _ _)⟩) fun a => ⟨hI _ (k0.log _ _), fun b v2 hs => ?_⟩)
      have e2 : v2 = (v.log .alloc a).log (.ctrRead m.id i) b := hs.quiet trivial
      subst e2
      have k2 := (k0.log .alloc a).log (.ctrRead m.id i) b
      cases b with
      | ctrs l =>
        refine ⟨hI _ k2, ?_⟩
        simp only
        split
        · exact next _ k2
        · cases new.cmap with
          | none => exact fin _ _ k2
          | some m' =>
            refine Safe.bind (safe_quiet trivial (hI _ k2) (fun e a => ⟨hI _ (k2.log _ _), fin _ _ (k2.log _ _)⟩) fun c => ⟨hI _ (k2.log _ _), fun d v3 hs3 => ?_⟩)
            have e3 := hs3.quiet (show Call.quiet _ (.ctrWrite _ _ _) from trivial)
            subst e3
            have k3 := (k2.log .alloc c).log (.ctrWrite m'.id i ((List.replicate ncpu (0, 0)).set 0 (sumCtrs l))) d
            cases d with
            | fail e => exact ⟨hI _ k3, fin _ _ k3⟩
            | done => exact ⟨hI _ k3, next _ k3⟩
            | id => exact ⟨hI _ k3, next _ k3⟩
            | bytes => exact ⟨hI _ k3, next _ k3⟩
            | ctrs => exact ⟨hI _ k3, next _ k3⟩
            | names => exact ⟨hI _ k3, next _ k3⟩
      | fail e => exact ⟨hI _ k2, fin _ _ k2⟩
      | done => exact ⟨hI _ k2, fin _ _ k2⟩
      | id => exact ⟨hI _ k2, fin _ _ k2⟩
      | bytes => exact ⟨hI _ k2, fin _ _ k2⟩
      | names => exact ⟨hI _ k2, fin _ _ k2⟩

/-- Free a handle that has no link. -/
theorem handleFree_safe {Q : Unit → K → Prop} {h : Handle} (hp : ∀ p, h.prog = some p → IsProg v p) (hm : ∀ m ∈ h.maps, IsMap v m.id) (hl : h.link = none)
    (hI : ∀ v', Keep v v' → I v') (hQ : ∀ v', Keep v v' → Q () v') : Safe I Q (handleFree h) v := by
  refine closeAll_safe (fun o ho => ?_) (fun v' hk _ => hI v' hk) fun v' hk _ => hQ v' hk
  simp only [Handle.linkFds, hl, List.append_nil, List.mem_append, Option.mem_toList, List.mem_map] at ho
  rcases ho with ho | ⟨m, hm', rfl⟩
  · exact (hp o ho).not_link
  · exact (hm m hm').not_link

end Bf.Pin
