import Verif.Cgen.Crash2
/-!
# Loading and attaching a chain: every instant
-/
namespace Bf.Pin

variable {I : K → Prop} {v v0 : K} {dir : String} {T : Target} {chain : Chain}

/-- `bf_chain_load`. -/
theorem chainLoad_safe {Q : Res Unit → K → Prop} (ht : v.Tree) (hc : Packable chain) (hf : Fits T chain) (hcp : chainCopy chain = .ok chain)
    (hI : ∀ v', (∃ g, v'.hist = g ++ v.hist) → (v'.pinned chain.name "bf_ctx" = v.pinned chain.name "bf_ctx" ∨
      ((∀ n, v.pinned chain.name n = none) ∧ Restorable T v' chain.name chain)) → I v')
    (hE : ∀ r v', r ≠ .ok () → (∃ g, v'.hist = g ++ v.hist) → v'.pinned chain.name "bf_ctx" = v.pinned chain.name "bf_ctx" → Q r v')
    (hK : ∀ h v', Good T v' chain.name chain h → h.link = none → Q (.ok ()) v') : Safe I Q (chainLoad T chain) v := by
  have quiet : ∀ v', Keep v v' → I v' := fun v' hk => hI v' hk.hist (.inl (hk.grew.pinned _ _))
  have err : ∀ r v', r ≠ .ok () → Keep v v' → I v' ∧ Q r v' := fun r v' hr hk => ⟨quiet v' hk, hE r v' hr hk.hist (hk.grew.pinned _ _)⟩
  have k0 := Keep.refl v
  unfold chainLoad
  refine safe_quiet trivial (quiet v k0) (fun e a => err _ _ (by simp) (k0.log _ _)) fun a => ?_
  have k1 := k0.log .lockInit a
  have t1 : (v.log .lockInit a).Tree := ht
  generalize v.log .lockInit a = v1 at *
  refine safe_try (quiet _ k1) (fun e v2 hs => ?_) fun a v2 hs hne => ?_
  · rcases hs.create with ⟨e', _, rfl⟩ | ⟨he, _⟩
    · exact err _ _ (by simp) (k1.log _ _)
    · cases he
  · rcases hs.create with ⟨e', he, _⟩ | ⟨rfl, hd, rfl⟩
    · exact absurd he (hne _)
    · have free1 : ∀ n, v1.pinned chain.name n = none := K.Tree.free t1 hd
      have free0 : ∀ n, v.pinned chain.name n = none := fun n => by rw [← k1.grew.pinned]; exact free1 n
      obtain ⟨g1, e1⟩ := k1.hist
      have h2 : ∃ g, (({ v1 with dirs := chain.name :: v1.dirs } : K).log (.create chain.name) .done).hist = g ++ v.hist :=
        ⟨_ :: g1, by rw [K.log_hist, e1]; rfl⟩
      have free2 : ∀ n, (({ v1 with dirs := chain.name :: v1.dirs } : K).log (.create chain.name) .done).pinned chain.name n = none := free1
      generalize (({ v1 with dirs := chain.name :: v1.dirs } : K).log (.create chain.name) .done) = v2 at *
      -- no chain, or the new one
      have II : ∀ v', (∃ g, v'.hist = g ++ v2.hist) → (v'.pinned chain.name "bf_ctx" = none ∨ Restorable T v' chain.name chain) → I v' := by
        intro v' hh hv
        refine hI v' (hist_trans h2 hh) ?_
        rcases hv with e | e
        · exact .inl (e.trans (free0 _).symm)
        · exact .inr ⟨free0, e⟩
      have fin : ∀ (r : Res Unit) v5, (∃ g, v5.hist = g ++ v2.hist) → ((r ≠ .ok () ∧ v5.pinned chain.name "bf_ctx" = none) ∨
          (r = .ok () ∧ ∃ h, Good T v5 chain.name chain h ∧ h.link = none)) → Safe I Q (do void (.release chain.name true); pure r) v5 := by
        intro r v5 h5 hr
        have i5 : I v5 := II v5 h5 (by
          rcases hr with ⟨_, hr⟩ | ⟨_, h, hr, _⟩
          · exact .inl hr
          · exact .inr ⟨h, hr⟩)
        refine safe_void i5 fun a v7 hs => ?_
        have hrel := hs.released
        have h7 := hist_trans h5 hrel.hist
        rcases hr with ⟨hne, hr⟩ | ⟨rfl, h, hr, hlk⟩
        · have e7 := (hrel.pinned chain.name "bf_ctx").trans hr
          exact ⟨II v7 h7 (.inl e7), hE r v7 hne (hist_trans h2 h7) (e7.trans (free0 _).symm)⟩
        · have g7 := hrel.good hr
          exact ⟨II v7 h7 (.inr ⟨h, g7⟩), hK h v7 g7 hlk⟩
      have I2 : ∀ v', Keep v2 v' → I v' := fun v' hk => II v' hk.hist (.inl ((hk.grew.pinned _ _).trans (free2 _)))
      have err2 : ∀ (r : Res Unit) v', r ≠ .ok () → Keep v2 v' → Safe I Q (do void (.release chain.name true); pure r) v' := fun r v' hr hk =>
        fin r v' hk.hist (.inl ⟨hr, (hk.grew.pinned _ _).trans (free2 _)⟩)
      have q0 := Keep.refl v2
      unfold copyChain
      refine Safe.bind (Safe.bind (safe_quiet trivial (I2 v2 q0) (fun e a => ?_) fun a => ?_))
      · exact ⟨I2 _ (q0.log _ _), I2 _ (q0.log _ _), err2 _ _ (by simp) (q0.log _ _)⟩
      have q1 := q0.log .alloc a
      generalize v2.log .alloc a = v3 at *
      rw [hcp]
      dsimp only
      refine ⟨I2 _ q1, ?_⟩
      dsimp only
      unfold cgenNew
      refine Safe.bind (safe_quiet trivial (I2 _ q1) (fun e a => ?_) fun a => ?_)
      · exact ⟨I2 _ (q1.log _ _), I2 _ (q1.log _ _), err2 _ _ (by simp) (q1.log _ _)⟩
      have q2 := q1.log .alloc a
      generalize v3.log .alloc a = v4 at *
      refine ⟨I2 _ q2, ?_⟩
      dsimp only
      have free4 : ∀ n, v4.pinned chain.name n = none := fun n => (q2.grew.pinned _ _).trans (free2 n)
      have after : ∀ (r : Res Unit) (c : Cgen) v5, (∃ g, v5.hist = g ++ v4.hist) → ((r ≠ .ok () ∧ v5.pinned chain.name "bf_ctx" = none) ∨
          (r = .ok () ∧ ∃ h, Good T v5 chain.name chain h ∧ h.link = none)) →
          Safe I (fun r v' => Safe I Q (do void (.release chain.name true); pure r) v') (do cgenFree c; pure r) v5 := by
        intro r c v5 h5 hr
        have h5' := hist_trans q2.hist h5
        have keep : ∀ v6 os, Closed os v5 v6 → ((r ≠ .ok () ∧ v6.pinned chain.name "bf_ctx" = none) ∨ (r = .ok () ∧ ∃ h, Good T v6 chain.name chain h ∧ h.link = none)) := by
          intro v6 os hcl
          rcases hr with ⟨hne, hr⟩ | ⟨rfl, h, hr, hlk⟩
          · exact .inl ⟨hne, (hcl.grew.pinned _ _).trans hr⟩
          · exact .inr ⟨rfl, h, hcl.good hr, hlk⟩
        have I6 : ∀ v6 os, Closed os v5 v6 → I v6 := fun v6 os hcl => II v6 (hist_trans h5' hcl.hist) (by
          rcases keep v6 os hcl with ⟨_, hr⟩ | ⟨_, h, hr, _⟩
          · exact .inl hr
          · exact .inr ⟨h, hr⟩)
        refine Safe.bind (cgenFree_closed I6 fun v6 hcl => ⟨I6 _ _ hcl, fin r v6 (hist_trans h5' hcl.hist) (keep v6 _ hcl)⟩)
      refine Safe.bind (cgenLoad_safe hc hf hcp free4 (fun v5 he h5 => II v5 (hist_trans q2.hist he.hist) h5) (fun c' r v5 hr he h5 => ?_) fun h v5 he hg hlk => ?_)
      · exact after r c' v5 he.hist (.inl ⟨hr, h5⟩)
      · exact after (.ok ()) ⟨chain, h⟩ v5 he.hist (.inr ⟨rfl, h, hg, hlk⟩)

/-! ## Attaching -/

/-- From `v0` to `v`, the objects are still there, and so is what is pinned, but for links and temporary things. -/
structure Aside (dir : String) (v0 v : K) : Prop where
  objs : ∀ (i : Nat) (o : Obj), v0.objs[i]? = some o → v.objs[i]? = some o
  pins : ∀ n, n ∉ special ∨ n = "bf_ctx" → v.pinned dir n = v0.pinned dir n
  hist : ∃ g, v.hist = g ++ v0.hist

theorem Aside.trans {a b c : K} (h : Aside dir a b) (h' : Aside dir b c) : Aside dir a c :=
  ⟨fun i o e => h'.objs i o (h.objs i o e), fun n hn => (h'.pins n hn).trans (h.pins n hn), hist_trans h.hist h'.hist⟩

theorem Grew.aside {v0 v : K} (h : Grew v0 v) : Aside dir v0 v := ⟨fun _ _ e => h.get e, fun n _ => h.pinned dir n, h.hist⟩

theorem Open.aside {ids : List Nat} {v0 v : K} (h : Open dir ids v0 v) : Aside dir v0 v :=
  ⟨fun _ _ e => by rw [h.objs]; exact e, fun n _ => by unfold K.pinned; rw [h.pins], h.hist⟩

theorem Pinning.aside {v0 v : K} (h : Pinning dir (fun n => n = "bf_link" ∨ n = "bf_link_extra") v0 v) : Aside dir v0 v := by
  refine ⟨fun _ _ e => by rw [h.objs]; exact e, fun n hn => h.other dir n ?_, h.hist⟩
  rintro ⟨_, rfl | rfl⟩ <;> simp [special] at hn

theorem Aside.good {v0 v : K} {c : Chain} {h : Handle} (ha : Aside dir v0 v) (hl : h.link = none) (hg : Good T v0 dir c h) : Good T v dir c h := by
  obtain ⟨m, b, c1, c2, c3⟩ := hg.ctx
  obtain ⟨q, q1, ch, im, mm, q2⟩ := hg.prog
  have hn := hg.namesOk
  refine ⟨⟨⟨fun x hx => ?_, fun l h => (by rw [hl] at h; cases h), ⟨q, q1, ch, im, mm, ha.objs _ _ q2⟩, fun m hm => ?_, fun l p h => (by rw [hl] at h; cases h), hg.names⟩,
    ⟨m, b, (by rw [ha.pins _ (.inr rfl)]; exact c1), ha.objs _ _ c2, c3⟩⟩, fun q hq => (hg.tied q hq).get fun o => ha.objs _ o, hn, hg.handleOk, hg.packable, hg.copy⟩
  · rw [ha.pins]
    · exact hg.pins x hx
    · left
      simp only [Handle.pinList, hl, List.append_nil, List.mem_append, List.mem_map, Option.mem_toList] at hx
      rcases hx with ⟨p, _, rfl⟩ | ⟨m, hm, rfl⟩
      · exact hn.prog
      · exact hn.maps m hm
  · obtain ⟨ct, e⟩ := hg.maps m hm
    exact ⟨ct, ha.objs _ _ e⟩

/-- The pins of a link. -/
def Link.pinList (l : Link) : List (String × Nat) := ("bf_link", l.fd) :: l.extra.toList.map fun x => ("bf_link_extra", x)

def linkName (n : String) : Prop := n = "bf_link" ∨ n = "bf_link_extra"

theorem linkPin_safe {Q : Res Unit → K → Prop} {l : Link} (hl : ∀ o ∈ l.fds, o ∈ v.fds) (hI : ∀ v', Pinning dir linkName v v' → I v')
    (he : ∀ e v', Pinning dir linkName v v' → Q (.err e) v')
    (hk : ∀ v', Pinning dir linkName v v' → Added dir l.pinList v v' → Q (.ok ()) v') : Safe I Q (linkPin l dir) v := by
  unfold linkPin
  refine pin_safe (ok := linkName) (L := []) (L' := [("bf_link", l.fd)]) (.inl rfl) (fun _ => hl _ (by simp [Link.fds])) (Pinning.refl v) (Added.nil v) rfl
    (hI v (.refl v)) (fun e v' hp _ _ => ⟨hI v' hp, he e v' hp⟩) fun v1 p1 a1 => ?_
  cases hx : l.extra with
  | none => exact ⟨hI v1 p1, hk v1 p1 (by simpa [Link.pinList, hx] using a1)⟩
  | some x =>
    refine pin_safe (ok := linkName) (L := [("bf_link", l.fd)]) (L' := [("bf_link", l.fd), ("bf_link_extra", x)]) (.inr rfl)
      (fun _ => hl x (by simp [Link.fds, hx])) p1 a1 rfl (hI v1 p1) (fun e v2 p2 _ _ => ?_) fun v2 p2 a2 => ?_
    · refine Safe.bind (linkUnpin_safe (ok := linkName) (v0 := v2) (.inl rfl) (.inr rfl) (Pinning.refl v2) (Fewer.refl v2) (fun v3 p3 _ => hI v3 (p2.trans p3)) fun v3 p3 _ => ?_)
      exact ⟨hI v3 (p2.trans p3), he e v3 (p2.trans p3)⟩
    · exact ⟨hI v2 p2, hk v2 p2 (by simpa [Link.pinList, hx] using a2)⟩

theorem Aside.log {v0 v : K} (h : Aside dir v0 v) (c : Call) (a : Ans) : Aside dir v0 (v.log c a) := h.trans (Grew.log v c a).aside

theorem detach_aside {v' : K} {x : Nat} {a : Ans} (hx : v0.objs.length ≤ x) (h : Aside dir v0 v) (hs : AStep v (.linkDetach x) a v') : Aside dir v0 v' := by
  rcases hs.linkDetach with ⟨e, rfl, rfl⟩ | ⟨rfl, pt, q, d, e, rfl⟩
  · exact h.log _ _
  · refine Aside.log (v := v.put x (.link pt q true)) ⟨fun i o ho => ?_, h.pins, h.hist⟩ _ _
    have hlt := (List.getElem?_eq_some_iff.mp ho).1
    rw [K.put_objs, List.getElem?_set_ne (by omega)]
    exact h.objs i o ho

theorem handleDetach_aside {Q : Handle → K → Prop} {h : Handle} {l : Link} (hl : h.link = some l) (hnew : ∀ x ∈ l.fds, v0.objs.length ≤ x)
    (ha : Aside dir v0 v) (hI : ∀ v', Aside dir v0 v' → I v') (hQ : ∀ v', Aside dir v0 v' → Q { h with link := none } v') :
    Safe I Q (handleDetach h) v := by
  unfold handleDetach
  rw [hl]
  refine safe_void (hI v ha) fun a v1 hs => ?_
  have a1 := detach_aside (hnew l.fd (by simp [Link.fds])) ha hs
  have fin : ∀ v2, Aside dir v0 v2 → Safe I Q (do closeAll l.fds; pure { h with link := none }) v2 := fun v2 a2 =>
    Safe.bind (closeAll_closed (os := l.fds) (fun v3 _ _ hc => hI v3 (a2.trans hc.grew.aside)) fun v3 hc =>
      ⟨hI v3 (a2.trans hc.grew.aside), hQ v3 (a2.trans hc.grew.aside)⟩)
  cases hx : l.extra with
  | none => exact fin v1 a1
  | some x =>
    refine safe_void (hI v1 a1) fun a v2 hs2 => ?_
    exact fin v2 (detach_aside (hnew x (by simp [Link.fds, hx])) a1 hs2)

/-- `bf_cgen_attach`. -/
theorem cgenAttach_safe {Q : Cgen × Res Unit → K → Prop} {c : Chain} {h : Handle} {o : HookOpts} (hg : Good T v0 dir c h) (hlk : h.link = none)
    (ho : OptsOk o) (hx : v0.pinned dir "bf_link_extra" = none) (ha : Aside dir v0 v) (hx' : v.pinned dir "bf_link_extra" = none)
    (hI : ∀ v', (Good T v' dir c h ∨ Restorable T v' dir c) → (∃ g, v'.hist = g ++ v0.hist) → I v')
    (hE : ∀ c' r v', r ≠ .ok () → Good T v' dir c h → (∃ g, v'.hist = g ++ v0.hist) → Q (c', r) v')
    (hK : ∀ l v', Good T v' dir c { h with link := some l } → l.d = ⟨objName "bf_link", c.hook, o⟩ → (∃ g, v'.hist = g ++ v0.hist) →
      Q (⟨c, { h with link := some l }⟩, .ok ()) v') :
    Safe I Q (cgenAttach ⟨c, h⟩ o dir) v := by
  obtain ⟨p, hp, ch, im, mm, hpo⟩ := hg.prog
  have IA : ∀ v', Aside dir v0 v' → I v' := fun v' h' => hI v' (.inl (h'.good hlk hg)) h'.hist
  have EA : ∀ c' r v', r ≠ .ok () → Aside dir v0 v' → I v' ∧ Q (c', r) v' := fun c' r v' hr h' => ⟨IA v' h', hE c' r v' hr (h'.good hlk hg) h'.hist⟩
  unfold cgenAttach handleAttach
  dsimp only
  rw [hlk, hp]
  dsimp only
  refine Safe.bind (Safe.bind (linkNew_safe (fun v' g => IA v' (ha.trans g.aside)) (fun e v' g => ?_) fun l v1 g1 hd hat hfd => ?_))
  · exact ⟨IA _ (ha.trans g.aside), EA _ _ _ (by simp) (ha.trans g.aside)⟩
  · have a1 : Aside dir v0 v1 := ha.trans g1.aside
    have hnew : ∀ x ∈ l.fds, v0.objs.length ≤ x := fun x hx => by
      have h1 := (hfd x hx).2
      have : v0.objs.length ≤ v.objs.length := by
        cases hlen : v0.objs.length with
        | zero => omega
        | succ n =>
          have hlt : n < v0.objs.length := by omega
          have := (List.getElem?_eq_some_iff.mp (ha.objs n _ (List.getElem?_eq_getElem hlt))).1
          omega
      omega
    have ehp : ({ h with prog := some p, link := some l } : Handle) = { h with link := some l } := by rw [← hp]
    refine ⟨IA _ a1, ?_⟩
    dsimp only at ehp ⊢
    generalize hh' : ({ h with prog := some p, link := some l } : Handle) = h' at ehp ⊢
    have hl' : h'.link = some l := by rw [ehp]
    refine Safe.bind (linkPin_safe (fun x hx => (hfd x hx).1) (fun v2 p2 => IA v2 (a1.trans p2.aside)) (fun e v2 p2 => ?_) fun v2 p2 ad2 => ?_)
    · have a2 := a1.trans p2.aside
      exact Safe.bind (handleDetach_aside hl' hnew a2 IA fun v3 a3 => EA _ _ v3 (by simp) a3)
    · have a2 := a1.trans p2.aside
      have good2 := a2.good hlk hg
      have eml : h'.maps = h.maps := by rw [ehp]; rfl
      have epl : h'.pinList = h.pinList ++ l.pinList := by
        rw [ehp]
        simp [Handle.pinList, Handle.maps, hlk, Link.pinList]
      have pl2 : Placed v2 dir h' := by
        obtain ⟨q, q1, ch, im, mm, q2⟩ := good2.prog
        refine ⟨fun x hx => ?_, fun l' e => ?_, ⟨q, by rw [ehp]; exact q1, ch, im, mm, q2⟩, fun m hm => good2.maps m (by rw [← eml]; exact hm), fun l' p' e e' => ?_, fun n hn => ?_⟩
        · rw [epl] at hx
          rcases List.mem_append.mp hx with hx | hx
          · exact good2.pins x hx
          · exact ad2.mem x hx
        · rw [hl'] at e
          cases e
          cases hx2 : l.extra with
          | none =>
            have : v1.pinned dir "bf_link_extra" = none := by rw [g1.pinned]; exact hx'
            rw [ad2.rest "bf_link_extra" (by simp [Link.pinList, hx2])]
            exact this
          | some x => exact ad2.mem ("bf_link_extra", x) (by simp [Link.pinList, hx2])
        · rw [hl'] at e
          cases e
          have ep : p' = p := by
            rw [ehp] at e'
            rw [hp] at e'
            cases e'; rfl
          subst ep
          exact ⟨hat.1, fun x hx => by rw [p2.objs]; exact hat.2 x hx⟩
        · have : h.names n ∨ (n = "bf_link" ∨ n = "bf_link_extra") := by
            rw [ehp] at hn
            rcases hn with hn | hn | ⟨_, hn⟩
            · exact .inl (.inl hn)
            · exact .inl (.inr (.inl hn))
            · exact .inr hn
          rcases this with h1 | rfl | rfl
          · exact hg.names n h1
          · decide
          · decide
      have good' : ∀ v3, CtxOnly dir v2 v3 → HasCtx v3 dir (cgenBytes c h'.d) → Good T v3 dir c h' := by
        intro v3 hc3 hx3
        refine Good.of (pl2.keep hc3.toFrame hc3.rest) hx3 (fun q hq => by
          have := (good2.tied q (by rw [ehp] at hq; exact hq)).get fun o ho => hc3.toFrame.get ho
          rw [ehp]
          exact this) ?_ ?_ hg.packable hg.copy
        · exact ⟨by rw [ehp]; exact hg.namesOk.prog, fun m hm => hg.namesOk.maps m (by rw [← eml]; exact hm)⟩
        · rw [ehp]
          refine HandleOk.withLink hg.handleOk ?_
          rintro l' ⟨⟩
          rw [hd]
          exact ⟨by show NameOk (objName "bf_link"); exact ⟨by decide, by decide⟩, ho⟩
      have ctxA : ∀ v3, CtxOnly dir v2 v3 → v3.pinned dir "bf_ctx" = v2.pinned dir "bf_ctx" → Aside dir v2 v3 := fun v3 hc3 e =>
        ⟨fun _ _ ho => hc3.toFrame.get ho, fun n hn => by
          rcases hn with hn | rfl
          · simp [special] at hn
            exact hc3.rest n hn.1 hn.2.1
          · exact e, hc3.hist⟩
      refine Safe.bind (persist_safe (c := ⟨c, h'⟩) (data := cgenBytes c h'.d) rfl (cgenBytes_ne _ _) (fun v3 hc3 hx3 => ?_) (fun e v3 hc3 hx3 _ => ?_) fun v3 hc3 hx3 _ => ?_)
      · rcases hx3 with e | e
        · exact IA v3 (a2.trans (ctxA v3 hc3 e))
        · exact hI v3 (.inr ⟨h', good' v3 hc3 e⟩) (hist_trans a2.hist hc3.hist)
      · have a3 := a2.trans (ctxA v3 hc3 hx3)
        refine Safe.bind (linkUnpin_safe (ok := linkName) (v0 := v3) (.inl rfl) (.inr rfl) (Pinning.refl v3) (Fewer.refl v3) (fun v4 p4 _ => IA v4 (a3.trans p4.aside)) fun v4 p4 _ => ?_)
        have a4 := a3.trans p4.aside
        exact Safe.bind (handleDetach_aside hl' hnew a4 IA fun v5 a5 => EA _ _ v5 (by simp) a5)
      · have gd := good' v3 hc3 hx3
        have hh3 := hist_trans a2.hist hc3.hist
        refine ⟨hI v3 (.inr ⟨h', gd⟩) hh3, ?_⟩
        rw [ehp] at gd ⊢
        exact hK l v3 gd hd hh3

/-- `bf_chain_attach`. -/
theorem chainAttach_safe {Q : Res Unit → K → Prop} {c : Chain} {h : Handle} {o : HookOpts} (hw : v.Wf) (hg : Good T v dir c h) (hlk : h.link = none)
    (ho : OptsOk o) (hx : v.pinned dir "bf_link_extra" = none) (hI : ∀ v', Restorable T v' dir c → I v')
    (hE : ∀ r v', r ≠ .ok () → Good T v' dir c h → Q r v')
    (hK : ∀ l v', Good T v' dir c { h with link := some l } → l.d = ⟨objName "bf_link", c.hook, o⟩ → validate o c.hook = .ok () → Q (.ok ()) v') :
    Safe I Q (chainAttach dir o) v := by
  unfold chainAttach
  refine withStored_safe hw hg.toStored (fun v' ids ho => hI v' ⟨h, ho.good hg⟩) (fun r v' hr ho => hE r v' (hr ()) (ho.good hg)) fun v1 ho1 hw1 => ?_
  -- what follows: descriptors are closed, the lock is released
  have fin : ∀ (x : Cgen × Res Unit) h' v', Good T v' dir c h' → (∀ v'', Good T v'' dir c h' → Q x.2 v'') →
      Safe I (fun _ v'' => Safe I Q (do void (.release dir true); pure x.2) v'') (cgenFree x.1) v' := by
    intro x h' v' hg' hq
    refine cgenFree_closed (fun v2 os hc => hI v2 ⟨h', hc.good hg'⟩) fun v2 hc => ?_
    have g2 := hc.good hg'
    refine safe_void (hI v2 ⟨h', g2⟩) fun a v3 hs => ?_
    have g3 := hs.released.good g2
    exact ⟨hI v3 ⟨h', g3⟩, hq v3 g3⟩
  have bad : ∀ (c' : Cgen) (r : Res Unit) v', r ≠ .ok () → Good T v' dir c h → Safe I (fun _ v'' => Safe I Q (do void (.release dir true); pure r) v'') (cgenFree c') v' :=
    fun c' r v' hr hg' => fin (c', r) h v' hg' fun v'' g => hE r v'' hr g
  have g1 := ho1.good hg
  dsimp only
  rw [hlk]
  have i1 : I v1 := hI v1 ⟨h, g1⟩
  show Safe I _ (if false = true then _ else _) v1
  rw [if_neg (by simp)]
  have hx1 : v1.pinned dir "bf_link_extra" = none := by unfold K.pinned; rw [ho1.pins]; exact hx
  cases hv : validate o c.hook with
  | err e => exact ⟨i1, bad _ _ v1 (by simp) g1⟩
  | ub => exact ⟨i1, bad _ _ v1 (by simp) g1⟩
  | ok u =>
    refine safe_quiet trivial i1 (fun e a => ?_) fun a => ?_
    · have g2 : Good T (v1.log .alloc a) dir c h := (Grew.log v1 _ _).good g1
      exact ⟨hI _ ⟨h, g2⟩, bad _ _ _ (by simp) g2⟩
    · refine cgenAttach_safe (v0 := v1) g1 hlk ho hx1 (Grew.log v1 _ _).aside hx1 (fun v' h' _ => hI v' (h'.elim (fun g => ⟨h, g⟩) id))
        (fun c' r v' hr hg' _ => bad c' r v' hr hg') fun l v' hg' hd _ => fin (_, .ok ()) _ v' hg' fun v'' g => hK l v'' g hd hv

end Bf.Pin
