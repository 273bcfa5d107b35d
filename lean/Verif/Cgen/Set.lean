import Verif.Cgen.Update3
import Verif.Cgen.Lift
/-!
# Loading, attaching and removing a chain
-/
namespace Bf.Pin

variable {I : K → Prop} {v v0 : K} {dir : String} {T : Target} {chain : Chain}

/-- From `v0` to `v`, objects were created, and descriptors opened or closed. -/
structure Grew (v0 v : K) : Prop where
  objs : ∃ new, v.objs = v0.objs ++ new
  dirs : v.dirs = v0.dirs
  pins : v.pins = v0.pins
  hist : ∃ g, v.hist = g ++ v0.hist

theorem Grew.refl (v : K) : Grew v v := ⟨⟨[], by simp⟩, rfl, rfl, ⟨[], rfl⟩⟩

theorem Grew.trans {a b c : K} (h : Grew a b) (h' : Grew b c) : Grew a c := by
  obtain ⟨n1, e1⟩ := h.objs
  obtain ⟨n2, e2⟩ := h'.objs
  exact ⟨⟨n1 ++ n2, by rw [e2, e1, List.append_assoc]⟩, h'.dirs.trans h.dirs, h'.pins.trans h.pins, hist_trans h.hist h'.hist⟩

theorem Grew.get {v0 v : K} (h : Grew v0 v) {i : Nat} {o : Obj} (ho : v0.objs[i]? = some o) : v.objs[i]? = some o := by
  obtain ⟨new, e⟩ := h.objs
  rw [e, List.getElem?_append_left (List.getElem?_eq_some_iff.mp ho).1]
  exact ho

theorem Grew.length {v0 v : K} (h : Grew v0 v) : v0.objs.length ≤ v.objs.length := by
  obtain ⟨new, e⟩ := h.objs
  rw [e]; simp

theorem Grew.pinned {v0 v : K} (h : Grew v0 v) (d n : String) : v.pinned d n = v0.pinned d n := by unfold K.pinned; rw [h.pins]

theorem Keep.grew {v0 v : K} (h : Keep v0 v) : Grew v0 v := ⟨h.objs, h.dirs, h.pins, h.hist⟩

theorem Grew.log (v : K) (c : Call) (a : Ans) : Grew v (v.log c a) := ⟨⟨[], by simp⟩, rfl, rfl, ⟨[(c, a)], rfl⟩⟩

theorem Grew.new (v : K) (o : Obj) : Grew v (v.new o) := ⟨⟨[o], rfl⟩, rfl, rfl, ⟨[], rfl⟩⟩

theorem Grew.fds (v : K) (l : List Nat) : Grew v { v with fds := l } := ⟨⟨[], by simp⟩, rfl, rfl, ⟨[], rfl⟩⟩

theorem Closed.grew {os : List Nat} {v0 v : K} (h : Closed os v0 v) : Grew v0 v := ⟨⟨[], by simp [h.objs]⟩, h.dirs, h.pins, h.hist⟩

/-- A call that creates a link. -/
theorem linkCreate_safe {α : Type} {Q : α → K → Prop} {p : Nat} {pt : Point} {f : Res Nat → P α} (hI : I v)
    (he : ∀ e v', Grew v v' → v'.fds = v.fds → Safe I Q (f (.err e)) v')
    (hk : ∀ l v', Grew v v' → v'.objs[l]? = some (.link pt p false) ∧ v.objs.length ≤ l → v'.fds = l :: v.fds → Safe I Q (f (.ok l)) v') :
    Safe I Q (tryId (.linkCreate p pt) >>= f) v := by
  refine ⟨hI, fun a v' hs => ?_⟩
  rcases hs.linkCreate with ⟨e, rfl, rfl⟩ | ⟨rfl, rfl⟩
  · exact he e _ (Grew.log _ _ _) rfl
  · exact hk _ _ ((Grew.new v _).trans (Grew.log _ _ _)) ⟨by simp, Nat.le_refl _⟩ rfl

theorem linkCreate_safe' {Q : Res Nat → K → Prop} {p : Nat} {pt : Point} (hI : I v)
    (he : ∀ e v', Grew v v' → v'.fds = v.fds → I v' ∧ Q (.err e) v')
    (hk : ∀ l v', Grew v v' → v'.objs[l]? = some (.link pt p false) ∧ v.objs.length ≤ l → v'.fds = l :: v.fds → I v' ∧ Q (.ok l) v') :
    Safe I Q (tryId (.linkCreate p pt)) v := by
  refine ⟨hI, fun a v' hs => ?_⟩
  rcases hs.linkCreate with ⟨e, rfl, rfl⟩ | ⟨rfl, rfl⟩
  · exact he e _ (Grew.log _ _ _) rfl
  · exact hk _ _ ((Grew.new v _).trans (Grew.log _ _ _)) ⟨by simp, Nat.le_refl _⟩ rfl

theorem tryAttachXdp_safe {Q : Res Nat → K → Prop} {p : Nat} {pt : Point} (hI : ∀ v', Grew v v' → I v')
    (he : ∀ e v', Grew v v' → Q (.err e) v')
    (hk : ∀ l v', Grew v v' → v'.objs[l]? = some (.link pt p false) ∧ v.objs.length ≤ l → l ∈ v'.fds → Q (.ok l) v') :
    Safe I Q (tryAttachXdp p pt) v := by
  unfold tryAttachXdp
  refine linkCreate_safe (hI v (.refl v)) (fun e v1 h1 _ => ?_) fun l v1 h1 h2 h3 => ⟨hI v1 h1, hk l v1 h1 h2 (by rw [h3]; simp)⟩
  have other : Safe I Q (pure (.err e)) v1 := ⟨hI v1 h1, he e v1 h1⟩
  by_cases hE : e = .ENOTSUP
  · subst hE
    exact linkCreate_safe' (hI v1 h1) (fun e v2 h2 _ => ⟨hI v2 (h1.trans h2), he e v2 (h1.trans h2)⟩)
      fun l v2 h2 h3 h4 => ⟨hI v2 (h1.trans h2), hk l v2 (h1.trans h2) ⟨h3.1, Nat.le_trans h1.length h3.2⟩ (by rw [h4]; simp)⟩
  · cases e <;> first | exact absurd rfl hE | exact other

theorem linkNew_safe {hook : Hook} {o : HookOpts} {p : Nat} {Q : Res Link → K → Prop} (hI : ∀ v', Grew v v' → I v')
    (he : ∀ e v', Grew v v' → Q (.err e) v')
    (hk : ∀ l v', Grew v v' → l.d = ⟨objName "bf_link", hook, o⟩ → Attached v' l p → (∀ x ∈ l.fds, x ∈ v'.fds ∧ v.objs.length ≤ x) → Q (.ok l) v') :
    Safe I Q (linkNew hook o p) v := by
  have err : ∀ e v', Grew v v' → I v' ∧ Q (.err e) v' := fun e v' h => ⟨hI v' h, he e v' h⟩
  -- a single link
  have one : ∀ l pt v', points hook o = [pt] → Grew v v' → v'.objs[l]? = some (.link pt p false) ∧ v.objs.length ≤ l → l ∈ v'.fds →
      I v' ∧ Q (.ok ⟨⟨objName "bf_link", hook, o⟩, l, none⟩) v' := by
    intro l pt v' hp h1 h2 h3
    refine ⟨hI v' h1, hk _ v' h1 rfl ⟨?_, ?_⟩ ?_⟩
    · simp [Link.fds, hp]
    · intro x hx
      simp [Link.fds, hp] at hx
      subst hx
      exact h2.1
    · intro x hx
      simp [Link.fds] at hx
      subst hx
      exact ⟨h3, h2.2⟩
  unfold linkNew
  refine safe_quiet trivial (hI v (.refl v)) (fun e a => err e _ (Grew.log _ _ _)) fun a => ?_
  have g1 : Grew v (v.log .alloc a) := Grew.log _ _ _
  generalize v.log .alloc a = v1 at *
  dsimp only
  cases hf : hook.flavor with
  | xdp =>
    refine Safe.bind (tryAttachXdp_safe (fun v' h => hI v' (g1.trans h)) (fun e v' h => err e v' (g1.trans h)) fun l v' h h2 h3 => ?_)
    exact one l _ v' (by unfold points; rw [hf]) (g1.trans h) ⟨h2.1, Nat.le_trans g1.length h2.2⟩ h3
  | tc =>
    refine linkCreate_safe (hI _ g1) (fun e v' h _ => err e v' (g1.trans h)) fun l v' h h2 h3 => ?_
    exact one l _ v' (by unfold points; rw [hf]) (g1.trans h) ⟨h2.1, Nat.le_trans g1.length h2.2⟩ (by rw [h3]; simp)
  | cgroupSkb =>
    refine safe_quiet trivial (hI _ g1) (fun e a => err e _ (g1.trans (Grew.log _ _ _))) fun b => ?_
    have g2 := g1.trans (Grew.log v1 (.openCgroup o.cgpath) b)
    refine linkCreate_safe (hI _ g2) (fun e v' h _ => err e v' (g2.trans h)) fun l v' h h2 h3 => ?_
    exact one l _ v' (by unfold points; rw [hf]) (g2.trans h) ⟨h2.1, Nat.le_trans g2.length h2.2⟩ (by rw [h3]; simp)
  | sockAddr =>
    refine safe_quiet trivial (hI _ g1) (fun e a => err e _ (g1.trans (Grew.log _ _ _))) fun b => ?_
    have g2 := g1.trans (Grew.log v1 (.openCgroup o.cgpath) b)
    refine linkCreate_safe (hI _ g2) (fun e v' h _ => err e v' (g2.trans h)) fun l v' h h2 h3 => ?_
    exact one l _ v' (by unfold points; rw [hf]) (g2.trans h) ⟨h2.1, Nat.le_trans g2.length h2.2⟩ (by rw [h3]; simp)
  | nf =>
    refine linkCreate_safe (hI _ g1) (fun e v' h _ => err e v' (g1.trans h)) fun l v2 h h2 h3 => ?_
    have g2 := g1.trans h
    refine linkCreate_safe (hI _ g2) (fun e v' h _ => ?_) fun l' v3 h' h2' h3' => ?_
    · refine safe_void (hI _ (g2.trans h)) fun a v4 hs => ?_
      rw [hs.close]
      exact err e _ ((g2.trans h).trans ((Grew.fds _ _).trans (Grew.log _ _ _)))
    · have g3 := g2.trans h'
      have hp : points hook o = [.nf hook false, .nf hook true] := by unfold points; rw [hf]
      refine ⟨hI v3 g3, hk _ v3 g3 rfl ⟨?_, ?_⟩ ?_⟩
      · simp [Link.fds, hp]
      · intro x hx
        simp [Link.fds, hp] at hx
        rcases hx with rfl | rfl
        · exact h'.get h2.1
        · exact h2'.1
      · intro x hx
        simp [Link.fds] at hx
        rw [h3', h3]
        rcases hx with rfl | rfl
        · exact ⟨by simp, Nat.le_trans g1.length h2.2⟩
        · exact ⟨by simp, Nat.le_trans g2.length h2'.2⟩

/-! ## A chain that can be restored -/

/-- Program `q` was generated, completely, from chain `c`. -/
def ProgOf (T : Target) (c : Chain) (v : K) (q : Nat) : Prop :=
  ∃ img m M, v.objs[q]? = some (.prog c img m) ∧ M.counters = BitVec.ofNat 32 m ∧ compile c T.thr T.slen M = .ok img

theorem ProgOf.of {v v' : K} {c : Chain} {q : Nat} (h : ProgOf T c v q) (ho : ∀ o, v.objs[q]? = some o → v'.objs[q]? = some o) : ProgOf T c v' q := by
  obtain ⟨img, m, M, h1, h2⟩ := h
  exact ⟨img, m, M, ho _ h1, h2⟩

theorem IsNew.progOf {q : Nat} (h : IsNew T chain v0 v q) : ProgOf T chain v q := by
  obtain ⟨_, img, m, M, h1, h2⟩ := h
  exact ⟨img, m, M, h1, h2⟩

/-- Directory `dir` holds chain `c`, loaded as handle `h`, whose program was generated from `c`. -/
structure Good (T : Target) (v : K) (dir : String) (c : Chain) (h : Handle) : Prop extends Stored v dir c h where
  tied : ∀ q, h.prog = some q → Tied T c v h q
  namesOk : NamesOk h
  handleOk : HandleOk h.d
  packable : Packable c
  copy : chainCopy c = .ok c

theorem Tied.progOf {c : Chain} {h : Handle} {q : Nat} (ht : Tied T c v h q) : ProgOf T c v q := by
  obtain ⟨img, m, h1, h2, h3, _⟩ := ht
  exact ⟨img, m.id, h.mapFds, h2, by simp [Handle.mapFds, h1, mapFd], h3⟩

theorem Good.progOf {c : Chain} {h : Handle} (hg : Good T v dir c h) : ∀ q, h.prog = some q → ProgOf T c v q := fun q hq => (hg.tied q hq).progOf

/-- The sizes of what is made for a chain fit in 64 bits. -/
structure Fits (T : Target) (c : Chain) : Prop where
  printed : T.printed < 2 ^ 64
  groups : (buildGroups c.sets).length < 2 ^ 32
  elems : ∀ g ∈ buildGroups c.sets, ∀ s, groupHead c.sets g = some s →
    s.elemSize < 2 ^ 64 ∧ (g.length + 7) / 8 < 2 ^ 64 ∧ (groupEntries c.sets g).length < 2 ^ 64

theorem SetMaps.length {gs : Groups} {i : Nat} {ms : List (Option BMap)} (h : SetMaps chain gs i ms) : ms.length = gs.length := by
  induction ms generalizing gs i with
  | nil => cases gs <;> simp [SetMaps] at h ⊢
  | cons x ms ih =>
    cases gs with
    | nil => exact absurd h (by simp [SetMaps])
    | cons g gs =>
      cases x with
      | none => exact absurd h (by simp [SetMaps])
      | some y => simp [ih h.2]

theorem setMapName_ok (i : Nat) : NameOk (objName (setMapName i)) := by
  have dc : ∀ n, n < 16 → 0 < (Nat.digitChar n).toNat ∧ (Nat.digitChar n).toNat < 256 := by decide
  have hl : (objName (setMapName i)).toList = "bf_set_".toList ++
      [i % 65536 / 4096, i % 65536 / 256 % 16, i % 65536 / 16 % 16, i % 65536 % 16].map Nat.digitChar := by
    have : "bf_set_".toList = ['b', 'f', '_', 's', 'e', 't', '_'] := by decide
    unfold objName setMapName
    simp [this]
  refine ⟨fun c hc => ?_, by rw [hl]; simp⟩
  rw [hl, List.mem_append] at hc
  rcases hc with hc | hc
  · have : ∀ c ∈ "bf_set_".toList, 0 < c.toNat ∧ c.toNat < 256 := by decide
    exact this c hc
  · obtain ⟨n, hn, rfl⟩ := List.mem_map.mp hc
    refine dc n ?_
    simp only [List.mem_cons, List.not_mem_nil, or_false] at hn
    rcases hn with rfl | rfl | rfl | rfl <;> omega

theorem Ready.handleOk {h : Handle} {c : Chain} (hr : Ready T c v h) (hp : Packable c) (hf : Fits T c) : HandleOk h.d := by
  have len := hp.lens.2.1
  have name : ∀ s : String, s.toList.length ≤ 15 → IsCStr s → s ≠ "" → NameOk (objName s) ∧ objName s ≠ "" := by
    intro s h1 h2 h3
    have : objName s = s := by unfold objName; rw [List.take_of_length_le h1, String.ofList_toList]
    rw [this]
    exact ⟨⟨h2, h1⟩, h3⟩
  refine ⟨?_, ?_, ?_, ?_, ?_, ?_, ?_, ?_⟩
  · simp only [Handle.d, hr.name]
    exact (name "bf_prog" (by decide) (by decide) (by decide)).1
  · intro l hl
    simp [Handle.d, hr.link] at hl
  · intro m hm
    simp only [Handle.d, Option.map_eq_some_iff] at hm
    obtain ⟨x, hx, rfl⟩ := hm
    rw [hr.cmap x hx]
    refine ⟨name _ (by decide) (by decide) (by decide), by simp [cmapD], by simp [cmapD], by simp [cmapD], ?_, by simp [cmapD]⟩
    simp [cmapD]; omega
  · intro m hm
    simp only [Handle.d, Option.map_eq_some_iff] at hm
    obtain ⟨x, hx, rfl⟩ := hm
    rw [hr.pmap x hx]
    exact ⟨name _ (by decide) (by decide) (by decide), by simp [pmapD], by simp [pmapD], hf.printed, by simp [pmapD], by simp [pmapD]⟩
  · intro m hm
    simp only [Handle.d, Option.map_eq_some_iff] at hm
    obtain ⟨x, hx, rfl⟩ := hm
    rw [hr.lmap x hx]
    exact ⟨name _ (by decide) (by decide) (by decide), by decide, by decide, by decide, by decide, by decide⟩
  · intro m hm
    simp only [Handle.d, Option.map_eq_some_iff] at hm
    obtain ⟨x, hx, rfl⟩ := hm
    rw [hr.smap x hx]
    refine ⟨name _ (by decide) (by decide) (by decide), by simp [smapD], by simp [smapD], ?_, by simp [smapD], by simp [smapD]⟩
    simp [smapD]; omega
  · intro m hm
    simp only [Handle.d, List.mem_map] at hm
    obtain ⟨x, hx, e⟩ := hm
    cases x with
    | none => cases e
    | some x =>
      cases e
      obtain ⟨g, j, hg, s, hs, hd⟩ := hr.sets.mem hx
      have hne := (hr.maps x (by simp only [Handle.maps, List.mem_append]; exact .inr (by simpa using hx))).elems
      obtain ⟨h1, h2, h3⟩ := hf.elems g hg s hs
      show MapOk x.d
      rw [hd] at hne ⊢
      refine ⟨⟨setMapName_ok j, ?_⟩, ?_, h1, h2, h3, hne⟩
      · intro e
        have := setMapName_special j
        have h0 : (objName (setMapName j)).toList[3]? = some 's' := by
          have : "bf_set_".toList = ['b', 'f', '_', 's', 'e', 't', '_'] := by decide
          unfold objName setMapName
          simp [this]
        dsimp only at e
        rw [e] at h0
        exact absurd h0 (by decide)
      · dsimp only
        split <;> omega
  · simp only [Handle.d, List.length_map, hr.sets.length]
    exact hf.groups

/-- With a link. -/
theorem HandleOk.withLink {h : Handle} {lk : Option Link} (hh : HandleOk h.d) (hl : ∀ l, lk = some l → LinkOk l.d) :
    HandleOk ({ h with link := lk } : Handle).d := by
  refine ⟨hh.name, fun l h => ?_, hh.cmap, hh.pmap, hh.lmap, hh.smap, hh.sets, hh.len⟩
  simp only [Handle.d, Option.map_eq_some_iff] at h
  obtain ⟨x, hx, rfl⟩ := h
  exact hl x hx

/-- What is pinned and described can be restored. -/
theorem Good.of {c : Chain} {h : Handle} (hp : Placed v dir h) (hx : HasCtx v dir (cgenBytes c h.d)) (hq : ∀ q, h.prog = some q → Tied T c v h q)
    (hn : NamesOk h) (ho : HandleOk h.d) (hc : Packable c) (hcp : chainCopy c = .ok c) : Good T v dir c h := by
  obtain ⟨m, h1, h2⟩ := hx
  exact ⟨⟨hp, ⟨m, _, h1, h2, cgenBytes_ne _ _, by rw [cgen_bytes_round hc ho, hcp]; rfl⟩⟩, hq, hn, ho, hc, hcp⟩

/-- What is stored does not depend on descriptors. -/
theorem Stored.of {v v' : K} {c : Chain} {h : Handle} (hs : Stored v dir c h) (ho : ∀ (i : Nat) (o : Obj), v.objs[i]? = some o → v'.objs[i]? = some o)
    (hp : ∀ n, v'.pinned dir n = v.pinned dir n) : Stored v' dir c h := by
  obtain ⟨m, b, c1, c2, c3⟩ := hs.ctx
  obtain ⟨q, q1, ch, im, mm, q2⟩ := hs.prog
  refine ⟨⟨fun x hx => by rw [hp]; exact hs.pins x hx, fun l hl => by rw [hp]; exact hs.extra l hl, ⟨q, q1, ch, im, mm, ho _ _ q2⟩,
    fun m hm => ?_, fun l p h1 h2 => ?_, hs.names⟩, ⟨m, b, by rw [hp]; exact c1, ho _ _ c2, c3⟩⟩
  · obtain ⟨ct, e⟩ := hs.maps m hm
    exact ⟨ct, ho _ _ e⟩
  · have := hs.link l p h1 h2
    exact ⟨this.1, fun x hx => ho _ _ (this.2 x hx)⟩

theorem Good.keep {v v' : K} {c : Chain} {h : Handle} (hg : Good T v dir c h) (ho : ∀ (i : Nat) (o : Obj), v.objs[i]? = some o → v'.objs[i]? = some o)
    (hp : ∀ n, v'.pinned dir n = v.pinned dir n) : Good T v' dir c h :=
  ⟨hg.toStored.of ho hp, fun q hq => (hg.tied q hq).get fun o => ho _ o, hg.namesOk, hg.handleOk, hg.packable, hg.copy⟩

theorem Grew.good {v v' : K} {c : Chain} {h : Handle} (hg : Good T v dir c h) (hk : Grew v v') : Good T v' dir c h :=
  hg.keep (fun _ _ ho => hk.get ho) fun n => hk.pinned dir n

theorem Good.erase {w : K} {c : Chain} {h : Handle} : Good T w.erase dir c h ↔ Good T w dir c h := by
  have e : ∀ q, Tied T c w.erase h q ↔ Tied T c w h q := by
    intro q
    unfold Tied
    simp only [K.erase_prog]
  exact ⟨fun h => ⟨Stored.erase.mp h.toStored, fun q hq => (e q).mp (h.tied q hq), h.namesOk, h.handleOk, h.packable, h.copy⟩,
    fun h => ⟨Stored.erase.mpr h.toStored, fun q hq => (e q).mpr (h.tied q hq), h.namesOk, h.handleOk, h.packable, h.copy⟩⟩

/-- A chain that can be restored is in the directory: what the process that reads it gets is chain `c`, with a program
generated from `c`. -/
def Restorable (T : Target) (v : K) (dir : String) (c : Chain) : Prop := ∃ h, Good T v dir c h

/-! ## Loading a chain in a new directory -/

/-- What was made for a chain, in `v`, that can be pinned: `h` is what `makeProgram` made, with a link perhaps. -/
structure Installed (T : Target) (c : Chain) (v : K) (h : Handle) : Prop where
  ready : ∃ v1 h0, Ready T c v1 h0 ∧ h = { h0 with link := h.link }
  canPin : CanPin v h
  link : ∀ l p, h.link = some l → h.prog = some p → Attached v l p
  linkOk : ∀ l, h.link = some l → LinkOk l.d
  tied : ∀ q, h.prog = some q → Tied T c v h q

theorem Installed.namesOk {c : Chain} {h : Handle} (hl : Installed T c v h) : NamesOk h := by
  obtain ⟨v1, h0, h1, h2⟩ := hl.ready
  have := h1.namesOk
  exact ⟨by rw [h2]; exact this.prog, fun m hm => this.maps m (by rw [h2] at hm; exact hm)⟩

theorem Installed.handleOk {c : Chain} {h : Handle} (hl : Installed T c v h) (hp : Packable c) (hf : Fits T c) : HandleOk h.d := by
  obtain ⟨v1, h0, h1, h2⟩ := hl.ready
  rw [h2]
  exact HandleOk.withLink (h1.handleOk hp hf) hl.linkOk

/-- Pin and persist: the second half of `bf_cgen_set` and `bf_cgen_load`. -/
theorem pinPersist_safe {Q : Cgen × Res Unit → K → Prop} {c : Chain} {h : Handle} (hl : Installed T c v h) (hc : Packable c) (hf : Fits T c)
    (hcp : chainCopy c = .ok c) (hfree : ∀ n, v.pinned dir n = none)
    (hI : ∀ v', Near dir v v' → (v'.pinned dir "bf_ctx" = none ∨ Good T v' dir c h) → I v')
    (hE : ∀ r v', r ≠ .ok () → Near dir v v' → v'.pinned dir "bf_ctx" = none → Q (⟨c, h⟩, r) v')
    (hK : ∀ v', Near dir v v' → Good T v' dir c h → Q (⟨c, h⟩, .ok ()) v') :
    Safe I Q (do
      match ← handlePin h dir with
      | .ok _ =>
        match ← persist ⟨c, h⟩ dir with
        | .ok _ => pure (⟨c, h⟩, .ok ())
        | e => do handleUnpin h dir; pure (⟨c, h⟩, e)
      | e => pure (⟨c, h⟩, e)) v := by
  have hn := hl.namesOk
  have hno : ¬ h.names "bf_ctx" := fun e => (hn.names e).1 rfl
  have none1 : ∀ v', Pinning dir h.names v v' → v'.pinned dir "bf_ctx" = none := fun v' hp => by
    rw [hp.other dir "bf_ctx" (fun e => hno e.2)]; exact hfree _
  refine Safe.bind (handlePin_safe (ok := h.names) hl.canPin (fun n h => h) (fun v' hp _ => hI v' hp.near (.inl (none1 v' hp)))
    (fun e v' hp _ _ => ⟨hI v' hp.near (.inl (none1 v' hp)), hE _ v' (by simp) hp.near (none1 v' hp)⟩) fun v1 hp1 ha1 => ?_)
  have pl1 : Placed v1 dir h := placed_of_added hl.canPin hn hp1 ha1 (fun _ _ _ => hfree _) hl.link
  have good : ∀ v2, CtxOnly dir v1 v2 → HasCtx v2 dir (cgenBytes c h.d) → Good T v2 dir c h := fun v2 hc2 hx =>
    Good.of (pl1.keep hc2.toFrame hc2.rest) hx (fun q hq => (hl.tied q hq).get fun o ho => hc2.toFrame.get (hp1.near.toFrame.get ho)) hn (hl.handleOk hc hf) hc hcp
  refine Safe.bind (persist_safe (data := cgenBytes c h.d) rfl (cgenBytes_ne _ _) (fun v2 hc2 hx => hI v2 (hp1.near.trans hc2.toNear) ?_)
    (fun e v2 hc2 hx _ => ?_) fun v2 hc2 hx _ => ?_)
  · rcases hx with hx | hx
    · exact .inl (hx.trans (none1 v1 hp1))
    · exact .inr (good v2 hc2 hx)
  · have h2 : v2.pinned dir "bf_ctx" = none := hx.trans (none1 v1 hp1)
    have n2 := hp1.near.trans hc2.toNear
    have h3 : ∀ v3, Pinning dir h.names v2 v3 → v3.pinned dir "bf_ctx" = none := fun v3 hp => by
      rw [hp.other dir "bf_ctx" (fun e => hno e.2)]; exact h2
    refine Safe.bind (handleUnpin_safe (ok := h.names) (v0 := v2) (fun n hn => hn) (Pinning.refl v2) (Fewer.refl v2)
      (fun v3 hp _ => hI v3 (n2.trans hp.near) (.inl (h3 v3 hp))) fun v3 hp _ _ => ?_)
    exact ⟨hI v3 (n2.trans hp.near) (.inl (h3 v3 hp)), hE _ v3 (by simp) (n2.trans hp.near) (h3 v3 hp)⟩
  · exact ⟨hI v2 (hp1.near.trans hc2.toNear) (.inr (good v2 hc2 hx)), hK v2 (hp1.near.trans hc2.toNear) (good v2 hc2 hx)⟩

/-- From `v0` to `v`: objects were created, and the pins of other directories are the same. -/
structure Elsewhere (dir : String) (v0 v : K) : Prop where
  objs : ∃ new, v.objs = v0.objs ++ new
  dirs : v.dirs = v0.dirs
  hist : ∃ g, v.hist = g ++ v0.hist
  other : ∀ d n, d ≠ dir → v.pinned d n = v0.pinned d n

theorem Grew.elsewhere {v0 v : K} (h : Grew v0 v) : Elsewhere dir v0 v := ⟨h.objs, h.dirs, h.hist, fun d n _ => h.pinned d n⟩
theorem Near.elsewhere {v0 v : K} (h : Near dir v0 v) : Elsewhere dir v0 v := ⟨h.objs, h.dirs, h.hist, h.other⟩
theorem Elsewhere.trans {a b c : K} (h : Elsewhere dir a b) (h' : Elsewhere dir b c) : Elsewhere dir a c := by
  obtain ⟨n1, e1⟩ := h.objs
  obtain ⟨n2, e2⟩ := h'.objs
  exact ⟨⟨n1 ++ n2, by rw [e2, e1, List.append_assoc]⟩, h'.dirs.trans h.dirs, hist_trans h.hist h'.hist,
    fun d n hd => (h'.other d n hd).trans (h.other d n hd)⟩

theorem Ready.loaded {c : Chain} {h : Handle} (hr : Ready T c v h) : Installed T c v h := by
  obtain ⟨p, img, m, e1, e2, e3, e4⟩ := hr.prog
  refine ⟨⟨v, h, hr, rfl⟩, ⟨⟨p, e1, _, _, _, e3⟩, fun m hm => (hr.maps m hm).isMap, fun l hl => ?_⟩, fun l p hl => ?_, fun l hl => ?_, fun q hq => ?_⟩
  · rw [hr.link] at hl; cases hl
  · rw [hr.link] at hl; cases hl
  · rw [hr.link] at hl; cases hl
  · exact hr.tied hq

theorem cgenLoad_safe {Q : Cgen × Res Unit → K → Prop} {c : Chain} (hc : Packable c) (hf : Fits T c) (hcp : chainCopy c = .ok c)
    (hfree : ∀ n, v.pinned dir n = none)
    (hI : ∀ v', Elsewhere dir v v' → (v'.pinned dir "bf_ctx" = none ∨ Restorable T v' dir c) → I v')
    (hE : ∀ c' r v', r ≠ .ok () → Elsewhere dir v v' → v'.pinned dir "bf_ctx" = none → Q (c', r) v')
    (hK : ∀ h v', Elsewhere dir v v' → Good T v' dir c h → h.link = none → Q (⟨c, h⟩, .ok ()) v') :
    Safe I Q (cgenLoad T ⟨c, Handle.new⟩ dir) v := by
  have keep : ∀ v', Keep v v' → v'.pinned dir "bf_ctx" = none := fun v' hk => by rw [hk.grew.pinned]; exact hfree _
  have IK : ∀ v', Keep v v' → I v' := fun v' hk => hI v' hk.grew.elsewhere (.inl (keep v' hk))
  unfold cgenLoad
  refine Safe.bind (makeProgram_safe IK fun h r v1 hk hm hr => ?_)
  cases r with
  | err e => exact ⟨IK v1 hk, hE _ _ v1 (by simp) hk.grew.elsewhere (keep v1 hk)⟩
  | ub => exact ⟨IK v1 hk, hE _ _ v1 (by simp) hk.grew.elsewhere (keep v1 hk)⟩
  | ok u =>
    exact pinPersist_safe (hr rfl).1.loaded hc hf hcp (fun n => by rw [hk.grew.pinned]; exact hfree n)
      (fun v' hn hg => hI v' (hk.grew.elsewhere.trans hn.elsewhere) (hg.imp id fun g => ⟨h, g⟩))
      (fun r v' hr hn h0 => hE _ r v' hr (hk.grew.elsewhere.trans hn.elsewhere) h0)
      fun v' hn hg => hK h v' (hk.grew.elsewhere.trans hn.elsewhere) hg (hr rfl).1.link

theorem cgenSet_safe {Q : Cgen × Res Unit → K → Prop} {c : Chain} {o : Option HookOpts} (hc : Packable c) (hf : Fits T c) (hcp : chainCopy c = .ok c)
    (ho : ∀ x, o = some x → OptsOk x) (hfree : ∀ n, v.pinned dir n = none)
    (hI : ∀ v', Elsewhere dir v v' → (v'.pinned dir "bf_ctx" = none ∨ Restorable T v' dir c) → I v')
    (hE : ∀ c' r v', r ≠ .ok () → Elsewhere dir v v' → v'.pinned dir "bf_ctx" = none → Q (c', r) v')
    (hK : ∀ h v', Elsewhere dir v v' → Good T v' dir c h → (h.link.isSome = o.isSome) →
      (∀ l x, h.link = some l → o = some x → l.d.hook = c.hook ∧ l.d.opts = x) → (∀ x ∈ h.linkFds, v.objs.length ≤ x) → Q (⟨c, h⟩, .ok ()) v') :
    Safe I Q (cgenSet T ⟨c, Handle.new⟩ o dir) v := by
  have keep : ∀ v', Grew v v' → v'.pinned dir "bf_ctx" = none := fun v' hk => by rw [hk.pinned]; exact hfree _
  have IK : ∀ v', Grew v v' → I v' := fun v' hk => hI v' hk.elsewhere (.inl (keep v' hk))
  have bad : ∀ c' r v', r ≠ .ok () → Grew v v' → I v' ∧ Q (c', r) v' := fun c' r v' hr hk => ⟨IK v' hk, hE c' r v' hr hk.elsewhere (keep v' hk)⟩
  unfold cgenSet
  refine Safe.bind (makeProgram_safe (fun v' h => IK v' h.grew) fun h r v1 hk hm hr => ?_)
  have g1 := hk.grew
  cases r with
  | err e => exact bad _ _ v1 (by simp) g1
  | ub => exact bad _ _ v1 (by simp) g1
  | ok u =>
    obtain ⟨hready, _⟩ := hr rfl
    have finish : ∀ h' v2, Grew v v2 → Installed T c v2 h' → (h'.link.isSome = o.isSome) →
        (∀ l x, h'.link = some l → o = some x → l.d.hook = c.hook ∧ l.d.opts = x) → (∀ x ∈ h'.linkFds, v.objs.length ≤ x) → Safe I Q (do
          match ← handlePin h' dir with
          | .ok _ =>
            match ← persist ⟨c, h'⟩ dir with
            | .ok _ => pure (⟨c, h'⟩, .ok ())
            | e => do handleUnpin h' dir; pure (⟨c, h'⟩, e)
          | e => pure (⟨c, h'⟩, e)) v2 := fun h' v2 g2 hl hs hx hy =>
      pinPersist_safe hl hc hf hcp (fun n => by rw [g2.pinned]; exact hfree n)
        (fun v' hn hg => hI v' (g2.elsewhere.trans hn.elsewhere) (hg.imp id fun g => ⟨h', g⟩))
        (fun r v' hr hn h0 => hE _ r v' hr (g2.elsewhere.trans hn.elsewhere) h0)
        fun v' hn hg => hK h' v' (g2.elsewhere.trans hn.elsewhere) hg hs hx hy
    cases o with
    | none =>
      dsimp only
      exact Safe.bind ⟨IK v1 g1, finish h v1 g1 hready.loaded (by rw [hready.link]; rfl) (fun l x _ e => by cases e) (by simp [Handle.linkFds, hready.link])⟩
    | some x =>
      obtain ⟨p, img, m, e1, e2, e3, e4⟩ := hready.prog
      dsimp only
      unfold handleAttach
      rw [hready.link, e1]
      dsimp only
      refine Safe.bind (Safe.bind (linkNew_safe (fun v2 g2 => IK v2 (g1.trans g2)) (fun e v2 g2 => ?_) fun l v2 g2 hd ha hfd => ?_))
      · exact ⟨IK v2 (g1.trans g2), bad _ _ v2 (by simp) (g1.trans g2)⟩
      · refine ⟨IK v2 (g1.trans g2), ?_⟩
        have hh' : ({ h with prog := some p, link := some l } : Handle) = { h with link := some l } := by rw [← e1]
        dsimp only at hh' ⊢
        generalize ({ h with prog := some p, link := some l } : Handle) = h' at hh' ⊢
        show Safe I Q (do
          match ← handlePin h' dir with
          | .ok _ =>
            match ← persist ⟨c, h'⟩ dir with
            | .ok _ => pure (⟨c, h'⟩, .ok ())
            | e => do handleUnpin h' dir; pure (⟨c, h'⟩, e)
          | e => pure (⟨c, h'⟩, e)) v2
        subst hh'
        refine finish _ v2 (g1.trans g2) ?_ rfl ?_ ?_
        · refine ⟨⟨v1, h, hready, rfl⟩, ⟨⟨p, e1, _, _, _, g2.get e3⟩, fun m hm => ?_, ?_⟩, ?_, ?_, ?_⟩
          · obtain ⟨ct, e⟩ := (hready.maps m hm).isMap
            exact ⟨ct, g2.get e⟩
          · rintro l' ⟨⟩; exact fun x hx => (hfd x hx).1
          · rintro l' p' ⟨⟩ e
            dsimp only at e
            rw [e1] at e; cases e
            exact ha
          · rintro l' ⟨⟩
            rw [hd]
            exact ⟨by show NameOk (objName "bf_link"); exact ⟨by decide, by decide⟩, ho x rfl⟩
          · intro q hq
            exact (hready.loaded.tied q hq).get fun o h => g2.get h
        · rintro l' x' ⟨⟩ ⟨⟩
          rw [hd]
          exact ⟨rfl, rfl⟩
        · intro y hy
          obtain ⟨new, e⟩ := g1.objs
          have := (hfd y hy).2
          rw [e] at this
          simp at this
          omega

end Bf.Pin
