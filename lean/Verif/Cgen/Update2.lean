import Verif.Cgen.Update
/-!
# Updating a chain: the whole operation
-/
namespace Bf.Pin

variable {I : K → Prop} {v v0 : K} {dir : String} {T : Target} {chain : Chain} {pts : List Point} {p : Nat}

/-- Handle `h'` was made for `chain`, and has the link of `h`, perhaps with its priorities exchanged. -/
structure Made (T : Target) (chain : Chain) (h h' : Handle) : Prop where
  ready : ∃ v1 h0, Ready T chain v1 h0 ∧ h' = { h0 with link := h'.link }
  link : ∀ l', h'.link = some l' → ∃ l, h.link = some l ∧ l'.d.name = l.d.name ∧ (OptsOk l.d.opts → OptsOk l'.d.opts)
  none : h'.link = none → h.link = none

theorem updateSwitch_safe {Q : Cgen × Res Unit → K → Prop} {c : Cgen} {h new : Handle} (hw : v.Wf) (hk0 : Keep v0 v) (hc : c.handle = h)
    (hpl : Placed v0 dir h) (hp : h.prog = some p) (hfd : Fd v0 h.link pts p)
    (hr : Ready T chain v new) (hnew : ∀ q, new.prog = some q → v0.objs.length ≤ q)
    (hI : ∀ v', Upd T chain dir h.progName pts p v0 v' → I v')
    (hB : ∀ e v', Back dir v0 v' → Q (c, .err e) v')
    (hE : ∀ c' r v', r ≠ .ok () → Upd T chain dir h.progName pts p v0 v' → FailedAfter dir h.progName v0 v' → Q (c', r) v')
    (hK : ∀ h' pn v', Upd T chain dir h.progName pts p v0 v' → Placed v' dir h' → HasCtx v' dir (cgenBytes chain h'.d) →
      Made T chain h h' → h'.prog = some pn → Fd v' h'.link pts pn → IsNew T chain v0 v' pn → Tied T chain v' h' pn → h' = { new with link := h'.link } →
      Q (⟨chain, h'⟩, .ok ()) v') :
    Safe I Q (updateSwitch c chain new dir) v := by
  obtain ⟨ch, hh⟩ := c
  simp only at hc
  subst hc
  unfold updateSwitch
  simp only
  have u0 : Upd T chain dir hh.progName pts p v0 v := (Upd.refl v0 hfd).near hk0.near hfd (.inl rfl) (.inl (.inl hk0.pins))
  have fd0 : Fd v hh.link pts p := hfd.frame hk0.toFrame
  obtain ⟨pn, img, mc, hpn, hcm, hobj, hcomp⟩ := hr.prog
  have new0 : IsNew T chain v0 v pn := hr.isNew hnew hpn
  have tied0 : Tied T chain v new pn := hr.tied hpn
  have nok : NamesOk new := hr.namesOk
  have pl0 := hpl.keep' hk0
  have hlinkfd : ∀ l, hh.link = some l → ∀ o ∈ l.fds, o ∈ v.fds := fun l hl => (fd0.fd l hl).1.fds
  have hlinkis : ∀ l, hh.link = some l → ∀ o ∈ l.fds, IsLink v o := fun l hl o ho => (fd0.fd l hl).1.att.isLink ho
  refine Safe.bindWf hw (handleUnpin_safe (ok := hh.names) (v0 := v) (fun n hn => hn) (Pinning.refl v) (Fewer.refl v)
    (fun v' hpi hf => hI v' (u0.near hpi.near fd0 (.inl rfl) (.inl hf.why))) fun v2 hp2 hf2 hs2 hw2 => ?_)
  have n2 := hp2.near
  have u2 : Upd T chain dir hh.progName pts p v0 v2 := u0.near n2 fd0 (.inl rfl) (.inl hf2.why)
  have since2 : ∃ a, Since v0 v2 (.unlink dir hh.progName, a) := by
    obtain ⟨a, g, e⟩ := hs2
    obtain ⟨g', e'⟩ := hk0.hist
    exact ⟨a, [], g ++ g', by rw [e, e']; simp⟩
  obtain ⟨a2, since2⟩ := since2
  have fd2 := fd0.frame n2.toFrame
  have new2 := new0.frame n2.toFrame
  have tied2 := tied0.frame n2.toFrame
  -- the maps of both handles
  have maps0 : ∀ m ∈ new.maps, IsMap v2 m.id := fun m hm => n2.toFrame.map (hr.maps m hm).isMap
  cases hlk : hh.link with
  | none =>
    have hpts : pts = [] := hfd.none hlk
    simp only
    have hlnew : new.link = none := hr.link
    have fdN : ∀ v', Fd v' new.link pts pn := fun v' => ⟨(fun l hl => by rw [hlnew] at hl; cases hl), fun _ => hpts⟩
    have hcan : CanPin v2 new := ⟨⟨pn, hpn, new2.prog⟩, maps0, fun l hl => by rw [hlnew] at hl; cases hl⟩
    have un : ∀ v', Near dir v2 v' → Upd T chain dir hh.progName pts p v0 v' := fun v' hn =>
      u2.near hn (fdN v2) (.inr new2) (.inr ⟨_, _, since2⟩)
    have free : ∀ (r : Cgen × Res Unit) v', Near dir v2 v' → (∀ v3, Keep v' v3 → I v3 ∧ Q r v3) → Safe I Q (do handleFree hh; pure r) v' := by
      intro r v' hn hq
      refine Safe.bind (handleFree_safe (fun q hq => ?_) (fun m hm => hn.toFrame.map (n2.toFrame.map (pl0.maps m hm))) hlk
        (fun v3 h => (hq v3 h).1) fun v3 h => hq v3 h)
      obtain ⟨q', e1, e2⟩ := pl0.prog
      rw [hq] at e1
      cases e1
      exact hn.toFrame.prog (n2.toFrame.prog e2)
    refine Safe.bind (updateFinish_safe hcan nok (fun l hl => by rw [hlnew] at hl; cases hl) (fun l _ hl => by rw [hlnew] at hl; cases hl)
      (fun v' hn => hI v' (un v' hn)) ?_ ?_)
    · intro c' r v' hr hn hf _
      refine free _ v' hn fun v3 hk => ?_
      have hn3 := hn.trans (hk.near (dir := dir))
      have hf3 : FailedAfter dir hh.progName v0 v3 := (hf.after since2).later hk.hist
      exact ⟨hI v3 (un v3 hn3), hE _ _ v3 hr (un v3 hn3) hf3⟩
    · intro v' hn hP hX
      refine free _ v' hn fun v3 hk => ?_
      have hn3 := hn.trans (hk.near (dir := dir))
      refine ⟨hI v3 (un v3 hn3), hK new pn v3 (un v3 hn3) (hP.keep' hk) (hX.of (by unfold K.pinned; rw [hk.pins]) hk.toFrame) ?_ hpn (fdN v3) (new2.frame hn3.toFrame) (tied2.frame hn3.toFrame) rfl⟩
      exact ⟨⟨v, new, hr, rfl⟩, (fun l' hl' => by rw [hlnew] at hl'; cases hl'), fun _ => hlk⟩
  | some l =>
    simp only [hpn]
    obtain ⟨lfd, hpts⟩ := fd2.fd l hlk
    subst hpts
    refine Safe.bind (linkUpdate_safe hw2 lfd new2.prog (fun v' hm => hI v' (u2.mid hm new2 ⟨_, _, since2⟩)) ?_ ?_)
    · -- the switch failed: pin the old handle again
      intro e v3 hk3
      have ehh : ({ hh with link := some l } : Handle) = hh := by rw [← hlk]
      simp only [ehh]
      have u3 : Upd T chain dir hh.progName l.points p v0 v3 := u2.near hk3.near fd2 (.inl rfl) (.inr ⟨_, _, since2⟩)
      have fd3 := fd2.frame hk3.toFrame
      have hcan : CanPin v3 hh := by
        have := pl0.canPin hlinkfd
        exact (this.frame n2.toFrame hlinkis).frame hk3.toFrame fun l' hl' o ho => n2.toFrame.link (hlinkis l' hl' o ho)
      have un : ∀ v', Near dir v3 v' → Upd T chain dir hh.progName l.points p v0 v' := fun v' hn =>
        u3.near hn fd3 (.inl rfl) (.inr ⟨_, _, since2.later hk3.hist⟩)
      have free : ∀ (r : Cgen × Res Unit) v', Near dir v3 v' → (∀ v4, Keep v' v4 → I v4 ∧ Q r v4) → Safe I Q (do handleFree new; pure r) v' := by
        intro r v' hn hq
        refine Safe.bind (handleFree_safe (fun q hq => ?_) (fun m hm => hn.toFrame.map (hk3.toFrame.map (maps0 m hm))) hr.link
          (fun v3 h => (hq v3 h).1) fun v3 h => hq v3 h)
        rw [hpn] at hq
        cases hq
        exact hn.toFrame.prog (hk3.toFrame.prog new2.prog)
      refine Safe.bind (handlePin_safe (ok := hh.names) hcan (fun n hn => hn) (fun v' hpi _ => hI v' (un v' hpi.near)) ?_ ?_)
      · intro e' v4 hp4 _ hf4
        refine free _ v4 hp4.near fun v5 hk5 => ?_
        have hn5 := hp4.near.trans (hk5.near (dir := dir))
        have hf : FailedAfter dir hh.progName v0 v5 := (hf4.after (since2.later hk3.hist)).later hk5.hist
        exact ⟨hI v5 (un v5 hn5), hE _ _ v5 (by simp) (un v5 hn5) hf⟩
      · intro v4 hp4 ha4
        have hb : Back dir v0 v4 := by
          refine ⟨((hk0.near.trans n2).trans hk3.near).trans hp4.near, fun n => ?_, .inr ⟨_, _, (since2.later hk3.hist).later hp4.hist⟩⟩
          have e3 : v3.pinned dir n = v2.pinned dir n := by unfold K.pinned; rw [hk3.pins]
          have e0 : v.pinned dir n = v0.pinned dir n := by unfold K.pinned; rw [hk0.pins]
          by_cases hin : ∃ o, (n, o) ∈ hh.pinList
          · obtain ⟨o, ho⟩ := hin
            have h1 : v4.pinned dir n = some o := ha4.mem (n, o) ho
            have h2 : v0.pinned dir n = some o := hpl.pins (n, o) ho
            rw [h1, h2]
          · rw [ha4.rest n fun o ho => hin ⟨o, ho⟩, e3]
            by_cases hnm : hh.names n
            · -- only the second link, which is not there
              have hnx : n = "bf_link_extra" ∧ l.extra = none := by
                rcases hnm with rfl | ⟨m, hm, rfl⟩ | ⟨_, rfl | rfl⟩
                · exact absurd ⟨p, by simp [Handle.pinList, hp]⟩ hin
                · exact absurd ⟨m.id, by simp only [Handle.pinList, List.mem_append, List.mem_map]; exact .inl (.inr ⟨m, hm, rfl⟩)⟩ hin
                · exact absurd ⟨l.fd, by simp [Handle.pinList, hlk]⟩ hin
                · refine ⟨rfl, ?_⟩
                  cases hx : l.extra with
                  | none => rfl
                  | some x => exact absurd ⟨x, by simp [Handle.pinList, hlk, hx]⟩ hin
              obtain ⟨rfl, hx⟩ := hnx
              have h0 : v0.pinned dir "bf_link_extra" = none := by rw [hpl.extra l hlk, hx]
              rcases hf2.pins "bf_link_extra" with e | e
              · rw [e, e0]
              · rw [e, h0]
            · rw [hp2.other dir n fun h => hnm h.2, e0]
        refine free _ v4 hp4.near fun v5 hk5 => ?_
        have hn5 := hp4.near.trans (hk5.near (dir := dir))
        exact ⟨hI v5 (un v5 hn5), hB e v5 (hb.keep hk5)⟩
    · -- the switch worked
      intro l' v3 hm3 hl3 hname hpts' hex hopts
      have u3 := u2.mid hm3 new2 ⟨_, _, since2⟩
      have new3 := new2.of hm3.objs
      have tied3 := tied2.of hm3.objs
      simp only
      have hfd3 : Fd v3 (some l') l.points pn := ⟨fun x hx => by cases hx; exact ⟨hl3, hpts'⟩, fun h => by cases h⟩
      have mapsOf : ∀ {o : Nat}, IsMap v2 o → IsMap v3 o := by
        rintro o ⟨ct, ho⟩
        exact ⟨ct, hm3.objs _ _ ho rfl⟩
      have progOf : ∀ {o : Nat}, IsProg v2 o → IsProg v3 o := by
        rintro o ⟨a, b, c, ho⟩
        exact ⟨a, b, c, hm3.objs _ _ ho rfl⟩
      have emaps : ({ new with link := some l' } : Handle).maps = new.maps := rfl
      have nok' : NamesOk ({ new with link := some l' } : Handle) := ⟨nok.prog, nok.maps⟩
      have hcan : CanPin v3 { new with link := some l' } :=
        ⟨⟨pn, hpn, new3.prog⟩, fun m hm => mapsOf (maps0 m hm), fun x hx => by cases hx; exact hl3.fds⟩
      have un : ∀ v', Near dir v3 v' → Upd T chain dir hh.progName l.points p v0 v' := fun v' hn =>
        u3.near hn hfd3 (.inr new3) (.inr ⟨_, _, since2.later hm3.hist⟩)
      have free : ∀ (r : Cgen × Res Unit) v', Near dir v3 v' → (∀ v4, Keep v' v4 → I v4 ∧ Q r v4) →
          Safe I Q (do handleFree { hh with link := none }; pure r) v' := by
        intro r v' hn hq
        refine Safe.bind (handleFree_safe (fun q hq => ?_) (fun m hm => ?_) rfl (fun v3 h => (hq v3 h).1) fun v3 h => hq v3 h)
        · obtain ⟨q', e1, e2⟩ := pl0.prog
          have hq' : hh.prog = some q := hq
          rw [hq'] at e1
          cases e1
          exact hn.toFrame.prog (progOf (n2.toFrame.prog e2))
        · exact hn.toFrame.map (mapsOf (n2.toFrame.map (pl0.maps m hm)))
      rw [show ({ new with prog := some pn, link := some l' } : Handle) = { new with link := some l' } by rw [← hpn]]
      refine Safe.bind (updateFinish_safe hcan nok' ?_ ?_ (fun v' hn => hI v' (un v' hn)) ?_ ?_)
      · intro x hx hxe
        cases hx
        have hlx : l.extra = none := by
          rw [hxe] at hex
          cases h : l.extra with
          | none => rfl
          | some y => rw [h] at hex; cases hex
        have e3 : v3.pinned dir "bf_link_extra" = v2.pinned dir "bf_link_extra" := by unfold K.pinned; rw [hm3.pins]
        have e0 : v.pinned dir "bf_link_extra" = v0.pinned dir "bf_link_extra" := by unfold K.pinned; rw [hk0.pins]
        rw [e3]
        rcases hf2.pins "bf_link_extra" with e | e
        · rw [e, e0, hpl.extra l hlk, hlx]
        · exact e
      · intro x q hx hq
        cases hx
        have hq' : new.prog = some q := hq
        rw [hpn] at hq'
        cases hq'
        exact hl3.att
      · intro c' r v' hr hn hf _
        refine free _ v' hn fun v4 hk => ?_
        have hn4 := hn.trans (hk.near (dir := dir))
        have hf4 : FailedAfter dir hh.progName v0 v4 := (hf.after (since2.later hm3.hist)).later hk.hist
        exact ⟨hI v4 (un v4 hn4), hE _ _ v4 hr (un v4 hn4) hf4⟩
      · intro v' hn hP hX
        refine free _ v' hn fun v4 hk => ?_
        have hn4 := hn.trans (hk.near (dir := dir))
        refine ⟨hI v4 (un v4 hn4), hK _ pn v4 (un v4 hn4) (hP.keep' hk) (hX.of (by unfold K.pinned; rw [hk.pins]) hk.toFrame) ?_ hpn
          (hfd3.frame hn4.toFrame) (new3.frame hn4.toFrame) (tied3.frame hn4.toFrame) rfl⟩
        exact ⟨⟨v, new, hr, rfl⟩, fun x hx => by cases hx; exact ⟨l, hlk, hname, hopts⟩, fun h => by cases h⟩

end Bf.Pin
