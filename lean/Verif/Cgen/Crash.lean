import Verif.Cgen.Set
/-!
# Removing a chain
-/
namespace Bf.Pin

variable {I : K → Prop} {v v0 : K} {dir : String} {T : Target} {chain : Chain}

/-- Calls whose failures are ignored. -/
def voids : List Call → P Unit
  | [] => pure ()
  | c :: cs => do void c; voids cs

theorem P.bind_assoc {α β γ : Type} (p : P α) (f : α → P β) (g : β → P γ) : ((p >>= f) >>= g) = (p >>= fun a => f a >>= g) := by
  induction p with
  | ret a => rfl
  | call c k ih =>
    show P.call c (fun a => ((k a >>= f) >>= g)) = P.call c fun a => k a >>= fun a => f a >>= g
    congr 1
    funext a
    exact ih a

theorem P.pure_bind {α β : Type} (a : α) (f : α → P β) : ((pure a : P α) >>= f) = f a := rfl

theorem voids_append (l l' : List Call) : voids (l ++ l') = (voids l >>= fun _ => voids l') := by
  induction l with
  | nil => rfl
  | cons c l ih =>
    show (void c >>= fun _ => voids (l ++ l')) = ((void c >>= fun _ => voids l) >>= fun _ => voids l')
    rw [P.bind_assoc, ih]

theorem closeAll_voids (os : List Nat) : closeAll os = voids (os.map .close) := by
  induction os with
  | nil => rfl
  | cons o os ih => simp only [closeAll, List.map_cons, voids, ih]

theorem unpinAll_voids (dir : String) (ms : List BMap) : unpinAll dir ms = voids (ms.map fun m => .unlink dir m.d.name) := by
  induction ms with
  | nil => rfl
  | cons m ms ih => simp only [unpinAll, List.map_cons, voids, ih]

/-- The calls of `cgenUnload`. -/
def unloadCalls (h : Handle) (dir : String) : List Call :=
  [.unlink dir "bf_ctx"] ++ h.maps.map (fun m => .unlink dir m.d.name) ++ (if h.link.isSome then [.unlink dir "bf_link", .unlink dir "bf_link_extra"] else []) ++
  [.unlink dir h.progName] ++ h.prog.toList.map .close ++ h.linkFds.map .linkDetach ++ h.linkFds.map .close ++ h.maps.map (fun m => .close m.id)

def Handle.unloaded (h : Handle) : Handle := { h with prog := none, link := none, cmap := none, pmap := none, lmap := none, smap := none, sets := [] }

theorem handleUnpin_voids (h : Handle) (dir : String) : handleUnpin h dir = voids (h.maps.map (fun m => .unlink dir m.d.name) ++
    (if h.link.isSome then [.unlink dir "bf_link", .unlink dir "bf_link_extra"] else []) ++ [.unlink dir h.progName]) := by
  unfold handleUnpin linkUnpin
  rw [unpinAll_voids, voids_append, voids_append, P.bind_assoc]
  congr 1
  funext _
  split <;> rfl

theorem handleUnload_voids (h : Handle) : handleUnload h = (voids (h.prog.toList.map .close ++ h.linkFds.map .linkDetach ++ h.linkFds.map .close ++
    h.maps.map (fun m => .close m.id)) >>= fun _ => pure h.unloaded) := by
  unfold handleUnload handleDetach Handle.linkFds
  rw [List.append_assoc, List.append_assoc, voids_append, P.bind_assoc, closeAll_voids]
  congr 1
  funext _
  have hm : ∀ x y, ({ h with prog := x, link := y } : Handle).maps = h.maps := fun _ _ => rfl
  dsimp only
  cases hl : h.link with
  | none =>
    show (closeAll (({ h with prog := none } : Handle).maps.map (·.id)) >>= fun _ => _) = _
    rw [closeAll_voids, List.map_map]
    have : ({ h with prog := none } : Handle) = { h with prog := none, link := none } := by cases h; simp_all
    rw [this, hm]
    rfl
  | some l =>
    have e : l.fds = l.fd :: l.extra.toList := rfl
    dsimp only
    rw [voids_append, P.bind_assoc]
    cases hx : l.extra with
    | none =>
      show (void _ >>= fun _ => (closeAll l.fds >>= fun _ => pure _)) >>= _ = _
      rw [closeAll_voids, P.bind_assoc]
      simp only [e, hx, Option.toList, List.map_cons, List.map_nil, voids, P.bind_assoc, P.pure_bind, voids_append, closeAll_voids, List.map_map, hm]
      rfl
    | some x =>
      show (void _ >>= fun _ => (void _ >>= fun _ => (closeAll l.fds >>= fun _ => pure _))) >>= _ = _
      rw [closeAll_voids, P.bind_assoc]
      simp only [e, hx, Option.toList, List.map_cons, List.map_nil, voids, P.bind_assoc, P.pure_bind, voids_append, closeAll_voids, List.map_map, hm]
      rfl

theorem cgenUnload_voids (c : Cgen) (dir : String) : cgenUnload c dir = (voids (unloadCalls c.handle dir) >>= fun _ => pure { c with handle := c.handle.unloaded }) := by
  unfold cgenUnload unloadCalls
  rw [handleUnpin_voids, handleUnload_voids]
  simp only [List.append_assoc, voids_append, P.bind_assoc, P.pure_bind]
  rfl

/-- Calls one after the other: `J` is kept, and what each call establishes is kept by the others. -/
theorem voids_safe {J : K → Prop} {D : Call → K → Prop} {Q : Unit → K → Prop} {L : List Call} (hv : J v)
    (hJ : ∀ c ∈ L, ∀ v a v', J v → AStep v c a v' → J v') (hD : ∀ c ∈ L, ∀ v a v', J v → AStep v c a v' → D c v')
    (hK : ∀ c ∈ L, ∀ c' ∈ L, ∀ v a v', J v → D c v → AStep v c' a v' → D c v') (hI : ∀ v, J v → I v)
    (hQ : ∀ v, J v → (∀ c ∈ L, D c v) → Q () v) : Safe I Q (voids L) v := by
  suffices ∀ (rest done : List Call) v, (∀ c ∈ rest, c ∈ L) → (∀ c ∈ done, c ∈ L) → (∀ c ∈ L, c ∈ done ∨ c ∈ rest) → J v → (∀ c ∈ done, D c v) →
      Safe I Q (voids rest) v from this L [] v (fun _ h => h) (by simp) (fun c h => .inr h) hv (by simp)
  intro rest
  induction rest with
  | nil =>
    intro done v _ _ h1 h2 h3
    exact ⟨hI v h2, hQ v h2 fun c hc => h3 c (by simpa using h1 c hc)⟩
  | cons c rest ih =>
    intro done v hr hd h1 h2 h3
    refine ⟨hI v h2, fun a v' hs => ?_⟩
    have hc : c ∈ L := hr c (by simp)
    refine ih (c :: done) v' (fun x hx => hr x (by simp [hx])) ?_ (fun x hx => ?_) (hJ c hc v a v' h2 hs) ?_
    · intro x hx
      rcases List.mem_cons.mp hx with rfl | hx
      · exact hc
      · exact hd x hx
    · rcases h1 x hx with h | h
      · exact .inl (by simp [h])
      · rcases List.mem_cons.mp h with rfl | h
        · exact .inl (by simp)
        · exact .inr h
    · intro x hx
      rcases List.mem_cons.mp hx with rfl | hx
      · exact hD x hc v a v' h2 hs
      · exact hK x (hd x hx) c hc v a v' h2 (h3 x hx) hs

theorem unloadCalls_mem {h : Handle} {c : Call} (hc : c ∈ unloadCalls h dir) :
    (∃ n, c = .unlink dir n ∧ (n = "bf_ctx" ∨ h.names n)) ∨ (∃ o ∈ h.ids, c = .close o) ∨ ∃ l ∈ h.linkFds, c = .linkDetach l := by
  simp only [unloadCalls, List.mem_append, List.mem_map, List.mem_cons, List.not_mem_nil, or_false] at hc
  rcases hc with ((((((rfl | ⟨m, hm, rfl⟩) | hl) | rfl) | ⟨o, ho, rfl⟩) | ⟨o, ho, rfl⟩) | ⟨o, ho, rfl⟩) | ⟨m, hm, rfl⟩
  · exact .inl ⟨_, rfl, .inl rfl⟩
  · exact .inl ⟨_, rfl, .inr (.inr (.inl ⟨m, hm, rfl⟩))⟩
  · split at hl
    · next h' =>
      simp only [List.mem_cons, List.not_mem_nil, or_false] at hl
      rcases hl with rfl | rfl
      · exact .inl ⟨_, rfl, .inr (.inr (.inr ⟨h', .inl rfl⟩))⟩
      · exact .inl ⟨_, rfl, .inr (.inr (.inr ⟨h', .inr rfl⟩))⟩
    · cases hl
  · exact .inl ⟨_, rfl, .inr (.inl rfl)⟩
  · exact .inr (.inl ⟨o, by simp [Handle.ids]; exact .inl (by simpa using ho), rfl⟩)
  · exact .inr (.inr ⟨o, ho, rfl⟩)
  · exact .inr (.inl ⟨o, by simp [Handle.ids, ho], rfl⟩)
  · exact .inr (.inl ⟨m.id, by
      simp only [Handle.ids, List.mem_append, List.mem_map]
      exact .inr ⟨m, hm, rfl⟩, rfl⟩)

/-- From `v0` to `v`, only what belongs to `h`, in `dir`, was removed. -/
structure Gone (h : Handle) (dir : String) (v0 v : K) : Prop where
  objs : ∀ i, i ∉ h.linkFds → v.objs[i]? = v0.objs[i]?
  links : ∀ (i : Nat), v.objs[i]? = v0.objs[i]? ∨ ∃ pt q d, v0.objs[i]? = some (.link pt q d) ∧ v.objs[i]? = some (.link pt q true)
  pins : ∀ d n, v.pinned d n = v0.pinned d n ∨ (d = dir ∧ (n = "bf_ctx" ∨ h.names n) ∧ v.pinned d n = none)
  sub : ∀ x ∈ v.pins, x ∈ v0.pins
  dirs : v.dirs = v0.dirs
  fds : ∀ o, o ∉ h.ids → v.fds.count o = v0.fds.count o
  hist : ∃ g, v.hist = g ++ v0.hist

theorem Gone.refl (h : Handle) (v : K) : Gone h dir v v := ⟨fun _ _ => rfl, fun _ => .inl rfl, fun _ _ => .inl rfl, fun _ h => h, rfl, fun _ _ => rfl, ⟨[], rfl⟩⟩

theorem Gone.log {h : Handle} (hg : Gone h dir v0 v) (c : Call) (a : Ans) : Gone h dir v0 (v.log c a) := by
  obtain ⟨g, e⟩ := hg.hist
  exact ⟨hg.objs, hg.links, hg.pins, hg.sub, hg.dirs, hg.fds, ⟨(c, a) :: g, by simp [e]⟩⟩

theorem Gone.step {h : Handle} {c : Call} {a : Ans} {v' : K} (hg : Gone h dir v0 v) (hc : c ∈ unloadCalls h dir) (hs : AStep v c a v') : Gone h dir v0 v' := by
  rcases unloadCalls_mem hc with ⟨n, rfl, hn⟩ | ⟨o, ho, rfl⟩ | ⟨l, hl, rfl⟩
  · rcases hs.unlink with ⟨e, rfl, rfl⟩ | ⟨rfl, rfl⟩
    · exact hg.log _ _
    · refine Gone.log (v := { v with pins := v.pins.filter fun p => p.1 ≠ (dir, n) }) ⟨hg.objs, hg.links, fun d m => ?_, fun x hx => hg.sub x ((List.mem_filter.mp hx).1), hg.dirs, hg.fds, hg.hist⟩ _ _
      rw [pinned_unlink]
      split
      · next e => obtain ⟨rfl, rfl⟩ := e; exact .inr ⟨rfl, hn, rfl⟩
      · exact hg.pins d m
  · rw [hs.close]
    refine Gone.log (v := { v with fds := v.fds.erase o }) ⟨hg.objs, hg.links, hg.pins, hg.sub, hg.dirs, fun o' ho' => ?_, hg.hist⟩ _ _
    have : o' ≠ o := by rintro rfl; exact ho' ho
    show (v.fds.erase o).count o' = _
    rw [List.count_erase_of_ne this]
    exact hg.fds o' ho'
  · rcases hs.linkDetach with ⟨e, rfl, rfl⟩ | ⟨rfl, pt, q, d, e, rfl⟩
    · exact hg.log _ _
    · refine Gone.log (v := v.put l (.link pt q true)) ⟨fun i hi => ?_, fun i => ?_, hg.pins, hg.sub, hg.dirs, hg.fds, hg.hist⟩ _ _
      · have : l ≠ i := by rintro rfl; exact hi hl
        rw [K.put_objs, List.getElem?_set_ne this]
        exact hg.objs i hi
      · rw [K.put_objs]
        by_cases hi : l = i
        · subst hi
          rw [List.getElem?_set_self (List.getElem?_eq_some_iff.mp e).1]
          rcases hg.links l with h1 | ⟨pt', q', d', h1, h2⟩
          · exact .inr ⟨pt, q, d, by rw [← h1]; exact e, rfl⟩
          · rw [e] at h2
            cases h2
            exact .inr ⟨pt, q, d', h1, rfl⟩
        · rw [List.getElem?_set_ne hi]
          exact hg.links i

/-- What each call establishes, unless it fails: the name is no longer there, the link attaches nothing. -/
def Undone (v0 : K) (c : Call) (v : K) : Prop :=
  match c with
  | .unlink d n => v.pinned d n = none ∨ ∃ e, e ≠ .ENOENT ∧ Since v0 v (.unlink d n, .fail e)
  | .linkDetach l => (∀ pt q, v.objs[l]? ≠ some (.link pt q false)) ∨ ∃ e, e ≠ .ENOENT ∧ Since v0 v (.linkDetach l, .fail e)
  | _ => True

theorem Since.now (hh : ∃ g, v.hist = g ++ v0.hist) (c : Call) (a : Ans) : Since v0 (v.log c a) (c, a) := by
  obtain ⟨g, e⟩ := hh
  exact ⟨[], g, by rw [K.log_hist, e]; rfl⟩

theorem Undone.log {c : Call} (hu : Undone v0 c v) (c' : Call) (a : Ans) : Undone v0 c (v.log c' a) := by
  unfold Undone at *
  split at hu
  · exact hu.imp id fun ⟨e, h0, h⟩ => ⟨e, h0, h.later ⟨[_], rfl⟩⟩
  · exact hu.imp id fun ⟨e, h0, h⟩ => ⟨e, h0, h.later ⟨[_], rfl⟩⟩
  · trivial

theorem AStep.unlink_fail {d n : String} {e : Errno} {v' : K} (h : AStep v (.unlink d n) (.fail e) v') (he : e = .ENOENT) : v.pinned d n = none := by
  subst he
  cases h with
  | fail h => exact h rfl
  | ok _ _ _ h =>
    simp only [K.ok] at h
    split at h <;> cases h

theorem AStep.linkDetach_fail {l : Nat} {e : Errno} {v' : K} (h : AStep v (.linkDetach l) (.fail e) v') : e ≠ .ENOENT := by
  cases h with
  | fail h => exact h
  | ok _ _ _ h =>
    simp only [K.ok] at h
    split at h <;> cases h

theorem Undone.est {h : Handle} {c : Call} {a : Ans} {v' : K} (hc : c ∈ unloadCalls h dir) (hg : Gone h dir v0 v) (hs : AStep v c a v') : Undone v0 c v' := by
  rcases unloadCalls_mem hc with ⟨n, rfl, hn⟩ | ⟨o, ho, rfl⟩ | ⟨l, hl, rfl⟩
  · rcases hs.unlink with ⟨e, rfl, rfl⟩ | ⟨rfl, rfl⟩
    · by_cases he : e = .ENOENT
      · exact .inl (hs.unlink_fail he)
      · exact .inr ⟨e, he, Since.now hg.hist _ _⟩
    · left
      rw [K.log_pinned, pinned_unlink, if_pos ⟨rfl, rfl⟩]
  · trivial
  · rcases hs.linkDetach with ⟨e, rfl, rfl⟩ | ⟨rfl, pt, q, d, e, rfl⟩
    · exact .inr ⟨e, hs.linkDetach_fail, Since.now hg.hist _ _⟩
    · left
      intro pt' q'
      rw [K.log_objs, K.put_objs, List.getElem?_set_self (List.getElem?_eq_some_iff.mp e).1]
      simp

theorem Undone.keep {h : Handle} {c c' : Call} {a : Ans} {v' : K} (hc : c ∈ unloadCalls h dir) (hu : Undone v0 c' v) (hs : AStep v c a v') : Undone v0 c' v' := by
  rcases unloadCalls_mem hc with ⟨n, rfl, hn⟩ | ⟨o, ho, rfl⟩ | ⟨l, hl, rfl⟩
  · rcases hs.unlink with ⟨e, rfl, rfl⟩ | ⟨rfl, rfl⟩
    · exact hu.log _ _
    · refine Undone.log (v := { v with pins := v.pins.filter fun p => p.1 ≠ (dir, n) }) ?_ _ _
      unfold Undone at *
      split at hu
      · refine hu.imp (fun h => ?_) id
        rw [pinned_unlink]
        split
        · rfl
        · exact h
      · exact hu
      · trivial
  · rw [hs.close]
    exact Undone.log (v := { v with fds := v.fds.erase o }) hu _ _
  · rcases hs.linkDetach with ⟨e, rfl, rfl⟩ | ⟨rfl, pt, q, d, e, rfl⟩
    · exact hu.log _ _
    · refine Undone.log (v := v.put l (.link pt q true)) ?_ _ _
      unfold Undone at *
      split at hu
      · exact hu
      · next l' =>
        refine hu.imp (fun h pt' q' => ?_) id
        rw [K.put_objs, List.getElem?_set]
        split
        · split <;> simp
        · exact h pt' q'
      · trivial

/-- `bf_cgen_unload`: at every instant bf_ctx is there with everything else, or is not there, or could not be removed. -/
theorem cgenUnload_safe {Q : Cgen → K → Prop} {c : Cgen}
    (hI : ∀ v', Gone c.handle dir v v' → (v' = v ∨ Undone v (.unlink dir "bf_ctx") v') → I v')
    (hQ : ∀ v', Gone c.handle dir v v' → (∀ x ∈ unloadCalls c.handle dir, Undone v x v') → Q { c with handle := c.handle.unloaded } v') :
    Safe I Q (cgenUnload c dir) v := by
  rw [cgenUnload_voids]
  have hmem : ∀ x ∈ unloadCalls c.handle dir, x = .unlink dir "bf_ctx" ∨ x ∈ (unloadCalls c.handle dir).tail := by
    intro x hx
    simpa [unloadCalls] using hx
  have hcons : unloadCalls c.handle dir = .unlink dir "bf_ctx" :: (unloadCalls c.handle dir).tail := by simp [unloadCalls]
  have h0 : Call.unlink dir "bf_ctx" ∈ unloadCalls c.handle dir := by rw [hcons]; simp
  have ht : ∀ x ∈ (unloadCalls c.handle dir).tail, x ∈ unloadCalls c.handle dir := fun x hx => List.mem_of_mem_tail hx
  refine Safe.bind ?_
  have key : Safe I (fun _ v' => Gone c.handle dir v v' ∧ ∀ x ∈ unloadCalls c.handle dir, Undone v x v') (voids (unloadCalls c.handle dir)) v := by
    rw [hcons]
    refine ⟨hI v (.refl _ _) (.inl rfl), fun a v1 hs => ?_⟩
    show Safe I _ (voids (unloadCalls c.handle dir).tail) v1
    refine voids_safe (J := fun v' => Gone c.handle dir v v' ∧ Undone v (.unlink dir "bf_ctx") v') (D := Undone v)
      ⟨(Gone.refl _ _).step h0 hs, Undone.est h0 (Gone.refl _ _) hs⟩ (fun x hx v2 a v3 h2 hs => ⟨h2.1.step (ht x hx) hs, h2.2.keep (ht x hx) hs⟩)
      (fun x hx v2 a v3 h2 hs => Undone.est (ht x hx) h2.1 hs) (fun x _ x' hx' v2 a v3 _ hd hs => hd.keep (ht x' hx') hs)
      (fun v2 h2 => hI v2 h2.1 (.inr h2.2)) fun v2 h2 hd => ⟨h2.1, fun x hx => ?_⟩
    rw [← hcons] at hx
    rcases hmem x hx with rfl | hx
    · exact h2.2
    · exact hd x hx
  exact key.mono (fun _ h => h) fun _ v' hi h => ⟨hi, hQ v' h.1 h.2⟩

end Bf.Pin
