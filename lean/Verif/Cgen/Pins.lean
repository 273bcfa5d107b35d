import Verif.Cgen.Make
/-!
# Pinning
-/
namespace Bf.Pin

variable {I : K → Prop} {v v0 : K} {dir : String}

/-- Some call that should have worked has failed since `v0`. -/
def Call.vital : Call → Bool
  | .alloc | .mapCreate _ | .mapWrite _ _ | .mapFill _ _ | .pin _ _ _ | .rename _ _ _ => true
  | _ => false

def FailedSince (v0 v : K) : Prop := ∃ h1 c e h2, v.hist = h1 ++ (c, .fail e) :: (h2 ++ v0.hist) ∧ Call.vital c = true

theorem FailedSince.later {v0 v v' : K} (h : FailedSince v0 v) (hh : ∃ g, v'.hist = g ++ v.hist) : FailedSince v0 v' := by
  obtain ⟨h1, c, e, h2, e1, e2⟩ := h
  obtain ⟨g, e3⟩ := hh
  exact ⟨g ++ h1, c, e, h2, by rw [e3, e1, List.append_assoc], e2⟩

theorem FailedSince.earlier {v0 v v' : K} (h : FailedSince v v') (hh : ∃ g, v.hist = g ++ v0.hist) : FailedSince v0 v' := by
  obtain ⟨h1, c, e, h2, e1, e2⟩ := h
  obtain ⟨g, e3⟩ := hh
  exact ⟨h1, c, e, h2 ++ g, by rw [e1, e3, List.append_assoc], e2⟩

/-- From `v0` to `v`: `Frame`, and pins changed only in `dir`, and no link is held that was not. -/
structure Near (dir : String) (v0 v : K) : Prop extends Frame v0 v where
  other : ∀ d n, d ≠ dir → v.pinned d n = v0.pinned d n
  noNew : NoNew v0 v

theorem Near.trans {a b c : K} (h : Near dir a b) (h' : Near dir b c) : Near dir a c :=
  ⟨h.toFrame.trans h'.toFrame, fun d n hd => (h'.other d n hd).trans (h.other d n hd), h.noNew.trans h'.noNew⟩

theorem Keep.near {v0 v : K} (h : Keep v0 v) : Near dir v0 v :=
  ⟨h.toFrame, fun d n _ => by unfold K.pinned; rw [h.pins], h.noNew⟩

theorem Near.refl (v : K) : Near dir v v := (Keep.refl v).near

theorem lookup_filter_ne {α β : Type} [BEq α] [LawfulBEq α] [DecidableEq α] {l : List (α × β)} {k k' : α} :
    (l.filter fun p => p.1 ≠ k).lookup k' = if k' = k then none else l.lookup k' := by
  induction l with
  | nil => simp
  | cons p l ih =>
    obtain ⟨a, b⟩ := p
    simp only [List.filter_cons]
    by_cases h : a = k
    · subst h
      simp only [ne_eq, not_true, decide_false, Bool.false_eq_true, if_false]
      rw [ih]
      by_cases h' : k' = a
      · simp [h']
      · rw [if_neg h', if_neg h', List.lookup_cons]
        have : (k' == a) = false := by simpa using h'
        rw [this]
    · simp only [ne_eq, h, not_false_iff, decide_true, if_true, List.lookup_cons]
      by_cases h' : k' = a
      · subst h'; simp [h]
      · have : (k' == a) = false := by simpa using h'
        rw [this, ih]

theorem lookup_filter_ne2 {α β : Type} [BEq α] [LawfulBEq α] [DecidableEq α] {l : List (α × β)} {k j k' : α} :
    (l.filter fun p => p.1 ≠ k ∧ p.1 ≠ j).lookup k' = if k' = k ∨ k' = j then none else l.lookup k' := by
  have e : (l.filter fun p => p.1 ≠ k ∧ p.1 ≠ j) = ((l.filter fun p => p.1 ≠ k).filter fun p => p.1 ≠ j) := by
    rw [List.filter_filter]
    apply List.filter_congr
    intro p _
    simp [Bool.and_comm]
  rw [e, lookup_filter_ne, lookup_filter_ne]
  by_cases h : k' = k <;> by_cases h' : k' = j <;> simp [h, h']

theorem pinned_unlink (v : K) (d n d' n' : String) :
    K.pinned { v with pins := v.pins.filter fun p => p.1 ≠ (d, n) } d' n' = if d' = d ∧ n' = n then none else v.pinned d' n' := by
  unfold K.pinned
  rw [lookup_filter_ne]
  simp only [Prod.mk.injEq]

theorem pinned_pin (v : K) (d n d' n' : String) (o : Nat) :
    K.pinned { v with pins := ((d, n), o) :: v.pins } d' n' = if d' = d ∧ n' = n then some o else v.pinned d' n' := by
  unfold K.pinned
  rw [List.lookup_cons]
  by_cases h : d' = d ∧ n' = n
  · obtain ⟨rfl, rfl⟩ := h; simp
  · have : ((d', n') == (d, n)) = false := by
      rw [beq_eq_false_iff_ne]
      intro e
      apply h
      injection e with e1 e2
      exact ⟨e1, e2⟩
    rw [this, if_neg h]

theorem pinned_rename (v : K) (d n m d' n' : String) (o : Nat) :
    K.pinned { v with pins := ((d, m), o) :: (v.pins.filter fun p => p.1 ≠ (d, n) ∧ p.1 ≠ (d, m)) } d' n' =
      if d' = d ∧ n' = m then some o else if d' = d ∧ n' = n then none else v.pinned d' n' := by
  have := pinned_pin { v with pins := v.pins.filter fun p => p.1 ≠ (d, n) ∧ p.1 ≠ (d, m) } d m d' n' o
  simp only at this
  rw [this]
  by_cases h : d' = d ∧ n' = m
  · rw [if_pos h, if_pos h]
  · rw [if_neg h, if_neg h]
    unfold K.pinned
    rw [lookup_filter_ne2]
    simp only [Prod.mk.injEq, h, or_false]

/-- Only pins of `dir` under some names, `ok`, changed. -/
structure Pinning (dir : String) (ok : String → Prop) (v0 v : K) : Prop where
  objs : v.objs = v0.objs
  dirs : v.dirs = v0.dirs
  fds : v.fds = v0.fds
  hist : ∃ h, v.hist = h ++ v0.hist
  other : ∀ d n, ¬ (d = dir ∧ ok n) → v.pinned d n = v0.pinned d n
  held : ∀ o, IsLink v0 o → v.held o → v0.held o

variable {ok : String → Prop}

theorem Pinning.refl (v : K) : Pinning dir ok v v := ⟨rfl, rfl, rfl, ⟨[], rfl⟩, fun _ _ _ => rfl, fun _ _ h => h⟩

theorem isLink_congr {v v' : K} (h : v'.objs = v.objs) {o : Nat} : IsLink v' o ↔ IsLink v o := by unfold IsLink; rw [h]

theorem Pinning.trans {a b c : K} (h : Pinning dir ok a b) (h' : Pinning dir ok b c) : Pinning dir ok a c := by
  obtain ⟨g1, f1⟩ := h.hist
  obtain ⟨g2, f2⟩ := h'.hist
  exact ⟨h'.objs.trans h.objs, h'.dirs.trans h.dirs, h'.fds.trans h.fds, ⟨g2 ++ g1, by rw [f2, f1, List.append_assoc]⟩,
    fun d n hn => (h'.other d n hn).trans (h.other d n hn),
    fun o ho hh => h.held o ho (h'.held o ((isLink_congr h.objs).mpr ho) hh)⟩

theorem Pinning.near {v0 v : K} (h : Pinning dir ok v0 v) : Near dir v0 v :=
  ⟨⟨⟨[], by simp [h.objs]⟩, h.dirs, fun _ _ => by rw [h.fds], h.hist⟩, fun d n hd => h.other d n (fun e => hd e.1),
    fun o ho hh => ⟨(isLink_congr h.objs).mp ho, h.held o ((isLink_congr h.objs).mp ho) hh⟩⟩

theorem Pinning.log {v0 v : K} (h : Pinning dir ok v0 v) (c : Call) (a : Ans) : Pinning dir ok v0 (v.log c a) :=
  h.trans ⟨rfl, rfl, rfl, ⟨[(c, a)], rfl⟩, fun _ _ _ => rfl, fun _ _ h => h⟩

theorem Pinning.unlink (v : K) (n : String) (hn : ok n) : Pinning dir ok v { v with pins := v.pins.filter fun p => p.1 ≠ (dir, n) } := by
  refine ⟨rfl, rfl, rfl, ⟨[], rfl⟩, ?_, ?_⟩
  · intro d n' h
    rw [pinned_unlink, if_neg]
    rintro ⟨rfl, rfl⟩
    exact h ⟨rfl, hn⟩
  · rintro o _ (h | ⟨d, n', h⟩)
    · exact .inl h
    · rw [pinned_unlink] at h
      split at h
      · cases h
      · exact .inr ⟨d, n', h⟩

theorem Pinning.pin (v : K) (n : String) (o : Nat) (hn : ok n) (ho : IsLink v o → o ∈ v.fds) :
    Pinning dir ok v { v with pins := ((dir, n), o) :: v.pins } := by
  refine ⟨rfl, rfl, rfl, ⟨[], rfl⟩, ?_, ?_⟩
  · intro d n' h
    rw [pinned_pin, if_neg]
    rintro ⟨rfl, rfl⟩
    exact h ⟨rfl, hn⟩
  · rintro l hl (h | ⟨d, n', h⟩)
    · exact .inl h
    · rw [pinned_pin] at h
      split at h
      · cases h; exact .inl (ho hl)
      · exact .inr ⟨d, n', h⟩

/-- The call was made between `v0` and `v`, with this answer. -/
def Since (v0 v : K) (x : Call × Ans) : Prop := ∃ g1 g2, v.hist = g1 ++ x :: (g2 ++ v0.hist)

theorem Since.later {v0 v v' : K} {x : Call × Ans} (h : Since v0 v x) (hh : ∃ g, v'.hist = g ++ v.hist) : Since v0 v' x := by
  obtain ⟨g1, g2, e⟩ := h
  obtain ⟨g, e'⟩ := hh
  exact ⟨g ++ g1, g2, by rw [e', e, List.append_assoc]⟩

theorem Since.earlier {v0 v v' : K} {x : Call × Ans} (h : Since v v' x) (hh : ∃ g, v.hist = g ++ v0.hist) : Since v0 v' x := by
  obtain ⟨g1, g2, e⟩ := h
  obtain ⟨g, e'⟩ := hh
  exact ⟨g1, g2 ++ g, by rw [e, e', List.append_assoc]⟩

/-- From `v0` to `v`, pins may have disappeared, by `unlink`. -/
structure Fewer (dir : String) (v0 v : K) : Prop where
  pins : ∀ n, v.pinned dir n = v0.pinned dir n ∨ v.pinned dir n = none
  hist : ∃ g, v.hist = g ++ v0.hist
  why : v.pins = v0.pins ∨ ∃ n a, Since v0 v (.unlink dir n, a)

theorem Fewer.refl (v : K) : Fewer dir v v := ⟨fun _ => .inl rfl, ⟨[], rfl⟩, .inl rfl⟩

theorem Fewer.trans {a b c : K} (h : Fewer dir a b) (h' : Fewer dir b c) : Fewer dir a c := by
  refine ⟨fun n => ?_, ?_, ?_⟩
  · rcases h'.pins n with e | e
    · rw [e]; exact h.pins n
    · exact .inr e
  · obtain ⟨g, e⟩ := h.hist
    obtain ⟨g', e'⟩ := h'.hist
    exact ⟨g' ++ g, by rw [e', e, List.append_assoc]⟩
  · rcases h'.why with e | ⟨n, x, e⟩
    · rcases h.why with f | ⟨n, x, f⟩
      · exact .inl (e.trans f)
      · exact .inr ⟨n, x, f.later h'.hist⟩
    · exact .inr ⟨n, x, e.earlier h.hist⟩

theorem unlink_safe {α : Type} {Q : α → K → Prop} {n : String} {f : Unit → P α} (hn : ok n) (hp : Pinning dir ok v0 v) (hf : Fewer dir v0 v)
    (hI : ∀ v', Pinning dir ok v0 v' → Fewer dir v0 v' → I v')
    (h : ∀ v', Pinning dir ok v0 v' → Fewer dir v0 v' → (∃ a, v'.hist = (.unlink dir n, a) :: v.hist) → Safe I Q (f ()) v') :
    Safe I Q (void (.unlink dir n) >>= f) v := by
  refine safe_void (hI v hp hf) fun a v' hs => ?_
  rcases hs.unlink with ⟨e, rfl, rfl⟩ | ⟨rfl, rfl⟩
  · exact h _ (hp.log _ _) (hf.trans ⟨fun _ => .inl rfl, ⟨[_], rfl⟩, .inl rfl⟩) ⟨_, rfl⟩
  · have hw : Fewer dir v (({ v with pins := v.pins.filter fun p => p.1 ≠ (dir, n) } : K).log (.unlink dir n) .done) := by
      refine ⟨fun n' => ?_, ⟨[_], rfl⟩, .inr ⟨n, .done, [], [], rfl⟩⟩
      rw [K.log_pinned, pinned_unlink]
      split
      · exact .inr rfl
      · exact .inl rfl
    exact h _ ((hp.trans (Pinning.unlink v n hn)).log _ _) (hf.trans hw) ⟨_, rfl⟩

theorem linkUnpin_safe {Q : Unit → K → Prop} (h1 : ok "bf_link") (h2 : ok "bf_link_extra") (hp : Pinning dir ok v0 v) (hf : Fewer dir v0 v)
    (hI : ∀ v', Pinning dir ok v0 v' → Fewer dir v0 v' → I v')
    (hQ : ∀ v', Pinning dir ok v0 v' → Fewer dir v0 v' → Q () v') : Safe I Q (linkUnpin dir) v := by
  refine unlink_safe h1 hp hf hI fun v1 p1 f1 _ => ?_
  have := unlink_safe (I := I) (Q := Q) (n := "bf_link_extra") (f := fun _ => pure ()) h2 p1 f1 hI
    fun v2 p2 f2 _ => ⟨hI v2 p2 f2, hQ v2 p2 f2⟩
  exact this

theorem unpinAll_safe {Q : Unit → K → Prop} {ms : List BMap} (hn : ∀ m ∈ ms, ok m.d.name) (hp : Pinning dir ok v0 v) (hf : Fewer dir v0 v)
    (hI : ∀ v', Pinning dir ok v0 v' → Fewer dir v0 v' → I v')
    (hQ : ∀ v', Pinning dir ok v0 v' → Fewer dir v0 v' → Q () v') : Safe I Q (unpinAll dir ms) v := by
  induction ms generalizing v with
  | nil => exact ⟨hI v hp hf, hQ v hp hf⟩
  | cons m ms ih =>
    exact unlink_safe (hn m (by simp)) hp hf hI fun v1 p1 f1 _ => ih (fun m' hm => hn m' (by simp [hm])) p1 f1

/-- The names under which a handle is pinned. -/
def Handle.names (h : Handle) (n : String) : Prop :=
  n = h.progName ∨ (∃ m ∈ h.maps, n = m.d.name) ∨ (h.link.isSome ∧ (n = "bf_link" ∨ n = "bf_link_extra"))

theorem handleUnpin_safe {Q : Unit → K → Prop} {h : Handle} (hok : ∀ n, h.names n → ok n)
    (hp : Pinning dir ok v0 v) (hf : Fewer dir v0 v)
    (hI : ∀ v', Pinning dir ok v0 v' → Fewer dir v0 v' → I v')
    (hQ : ∀ v', Pinning dir ok v0 v' → Fewer dir v0 v' → (∃ a g, v'.hist = (.unlink dir h.progName, a) :: (g ++ v0.hist)) → Q () v') :
    Safe I Q (handleUnpin h dir) v := by
  refine Safe.bind (unpinAll_safe (fun m hm => hok _ (.inr (.inl ⟨m, hm, rfl⟩))) hp hf hI fun v1 p1 f1 => ?_)
  have last : ∀ v', Pinning dir ok v0 v' → Fewer dir v0 v' → Safe I Q (void (.unlink dir h.progName)) v' := fun v' p f =>
    unlink_safe (f := fun _ => pure ()) (hok _ (.inl rfl)) p f hI fun v2 p2 f2 hh => ⟨hI v2 p2 f2, hQ v2 p2 f2 (by
      obtain ⟨a, e⟩ := hh
      obtain ⟨g, e'⟩ := p.hist
      exact ⟨a, g, by rw [e, e']⟩)⟩
  split
  · next hl =>
    exact Safe.bind (linkUnpin_safe (hok _ (.inr (.inr ⟨hl, .inl rfl⟩))) (hok _ (.inr (.inr ⟨hl, .inr rfl⟩))) p1 f1 hI last)
  · exact Safe.bind ⟨hI v1 p1 f1, last v1 p1 f1⟩

/-- What `handlePins` pins. -/
def Handle.pinList (h : Handle) : List (String × Nat) :=
  h.prog.toList.map (fun p => (h.progName, p)) ++ h.maps.map (fun m => (m.d.name, m.id)) ++
  (match h.link with
    | some l => ("bf_link", l.fd) :: l.extra.toList.map fun x => ("bf_link_extra", x)
    | none => [])

/-- From `v0` to `v`, pins may have disappeared, and those of `L` may have appeared. -/
def From (dir : String) (L : List (String × Nat)) (v0 v : K) : Prop :=
  ∀ n o, v.pinned dir n = some o → v0.pinned dir n = some o ∨ (n, o) ∈ L

theorem From.refl {L : List (String × Nat)} (v : K) : From dir L v v := fun _ _ h => .inl h

theorem Fewer.from {L : List (String × Nat)} {v0 v : K} (h : Fewer dir v0 v) : From dir L v0 v := by
  intro n o e
  rcases h.pins n with e' | e'
  · exact .inl (by rw [← e']; exact e)
  · rw [e'] at e; cases e

theorem From.trans {L : List (String × Nat)} {a b c : K} (h : From dir L a b) (h' : From dir L b c) : From dir L a c := by
  intro n o e
  rcases h' n o e with e' | e'
  · exact h n o e'
  · exact .inr e'

theorem From.mono {L L' : List (String × Nat)} {a b : K} (h : From dir L a b) (hl : ∀ x ∈ L, x ∈ L') : From dir L' a b := by
  intro n o e
  exact (h n o e).imp id (hl _)

/-- From `v0` to `v`, the pins of `L` have appeared. -/
structure Added (dir : String) (L : List (String × Nat)) (v0 v : K) : Prop where
  mem : ∀ x ∈ L, v.pinned dir x.1 = some x.2
  rest : ∀ n, (∀ o, (n, o) ∉ L) → v.pinned dir n = v0.pinned dir n
  free : ∀ x ∈ L, v0.pinned dir x.1 = none

theorem Added.from {L : List (String × Nat)} {v0 v : K} (h : Added dir L v0 v) : From dir L v0 v := by
  intro n o e
  by_cases hn : ∃ o', (n, o') ∈ L
  · obtain ⟨o', ho'⟩ := hn
    have := h.mem _ ho'
    simp only at this
    rw [this] at e
    cases e
    exact .inr ho'
  · rw [h.rest n (fun o ho => hn ⟨o, ho⟩)] at e
    exact .inl e

theorem Added.nil (v : K) : Added dir [] v v := ⟨by simp, fun _ _ => rfl, by simp⟩

theorem pin_safe {α : Type} {Q : α → K → Prop} {n : String} {o : Nat} {L L' : List (String × Nat)} {f : Res Unit → P α}
    (hn : ok n) (ho : IsLink v0 o → o ∈ v0.fds) (hp : Pinning dir ok v0 v) (ha : Added dir L v0 v) (hL : L' = L ++ [(n, o)])
    (hI : I v)
    (he : ∀ e v', Pinning dir ok v0 v' → Added dir L v0 v' → FailedSince v0 v' → Safe I Q (f (.err e)) v')
    (hk : ∀ v', Pinning dir ok v0 v' → Added dir L' v0 v' → Safe I Q (f (.ok ())) v') : Safe I Q (try_ (.pin dir n o) >>= f) v := by
  refine safe_try hI (fun e v' hs => ?_) fun a v' hs hne => ?_
  · rcases hs.pin with ⟨e', _, rfl⟩ | ⟨h, _⟩
    · obtain ⟨g, hg⟩ := hp.hist
      exact he e _ (hp.log _ _) ⟨ha.mem, ha.rest, ha.free⟩ ⟨[], .pin dir n o, e, g, by simp [hg], rfl⟩
    · cases h
  · rcases hs.pin with ⟨e', rfl, _⟩ | ⟨rfl, hnone, rfl⟩
    · exact absurd rfl (hne e')
    · have hp1 := hp.trans (Pinning.pin (dir := dir) v n o hn fun hl => by rw [hp.fds]; exact ho ((isLink_congr hp.objs).mp hl))
      refine hk _ (hp1.log _ _) ?_
      subst hL
      have hnew : ∀ o', (n, o') ∉ L := fun o' ho' => by
        have := ha.mem _ ho'
        simp only at this
        rw [hnone] at this; cases this
      refine ⟨?_, ?_, ?_⟩
      · intro x hx
        rw [K.log_pinned, pinned_pin]
        rcases List.mem_append.mp hx with hx | hx
        · rw [if_neg]
          · exact ha.mem x hx
          · rintro ⟨_, e⟩
            exact hnew x.2 (by rw [← e]; exact hx)
        · rw [List.mem_singleton.mp hx, if_pos ⟨rfl, rfl⟩]
      · intro n' hn'
        rw [K.log_pinned, pinned_pin, if_neg]
        · exact ha.rest n' fun o' ho' => hn' o' (List.mem_append.mpr (.inl ho'))
        · rintro ⟨_, rfl⟩
          exact hn' o (by simp)
      · intro x hx
        rcases List.mem_append.mp hx with hx | hx
        · exact ha.free x hx
        · rw [List.mem_singleton.mp hx, ← ha.rest n (fun o' ho' => hnew o' ho')]
          exact hnone

/-- What is pinned may be pinned. -/
structure CanPin (v : K) (h : Handle) : Prop where
  prog : ∃ p, h.prog = some p ∧ IsProg v p
  maps : ∀ m ∈ h.maps, IsMap v m.id
  link : ∀ l, h.link = some l → ∀ o ∈ l.fds, o ∈ v.fds

theorem pinAll_safe {Q : Res Unit → K → Prop} {ms : List BMap} {L : List (String × Nat)} (hn : ∀ m ∈ ms, ok m.d.name)
    (hm : ∀ m ∈ ms, IsMap v0 m.id) (hp : Pinning dir ok v0 v) (ha : Added dir L v0 v)
    (hI : ∀ v' L', Pinning dir ok v0 v' → Added dir L' v0 v' → (∀ x ∈ L', x ∈ L ∨ x ∈ ms.map fun m => (m.d.name, m.id)) → I v')
    (he : ∀ e v' L', Pinning dir ok v0 v' → Added dir L' v0 v' → (∀ x ∈ L', x ∈ L ∨ x ∈ ms.map fun m => (m.d.name, m.id)) →
      FailedSince v0 v' → Q (.err e) v')
    (hk : ∀ v', Pinning dir ok v0 v' → Added dir (L ++ ms.map fun m => (m.d.name, m.id)) v0 v' → Q (.ok ()) v') :
    Safe I Q (pinAll dir ms) v := by
  induction ms generalizing v L with
  | nil => exact ⟨hI v L hp ha (fun x hx => .inl hx), hk v hp (by simpa using ha)⟩
  | cons m ms ih =>
    refine pin_safe (L' := L ++ [(m.d.name, m.id)]) (hn m (by simp)) (fun hl => absurd hl (hm m (by simp)).not_link) hp ha rfl
      (hI v L hp ha (fun x hx => .inl hx)) (fun e v' p a f => ⟨hI v' L p a (fun x hx => .inl hx), he e v' L p a (fun x hx => .inl hx) f⟩) ?_
    intro v1 p1 a1
    have sub : ∀ L' : List (String × Nat), (∀ x ∈ L', x ∈ L ++ [(m.d.name, m.id)] ∨ x ∈ ms.map fun m => (m.d.name, m.id)) →
        ∀ x ∈ L', x ∈ L ∨ x ∈ (m :: ms).map fun m => (m.d.name, m.id) := by
      intro L' h x hx
      rcases h x hx with h | h
      · rcases List.mem_append.mp h with h | h
        · exact .inl h
        · exact .inr (by simp [List.mem_singleton.mp h])
      · exact .inr (by simp only [List.map_cons, List.mem_cons]; exact .inr h)
    refine ih (fun m' hm' => hn m' (by simp [hm'])) (fun m' hm' => hm m' (by simp [hm'])) p1 a1
      (fun v' L' p a s => hI v' L' p a (sub L' s)) (fun e v' L' p a s f => he e v' L' p a (sub L' s) f) ?_
    intro v2 p2 a2
    exact hk v2 p2 (by simpa using a2)

theorem handlePin_safe {Q : Res Unit → K → Prop} {h : Handle} (hc : CanPin v h) (hok : ∀ n, h.names n → ok n)
    (hI : ∀ v', Pinning dir ok v v' → From dir h.pinList v v' → I v')
    (he : ∀ e v', Pinning dir ok v v' → From dir h.pinList v v' → FailedSince v v' → Q (.err e) v')
    (hk : ∀ v', Pinning dir ok v v' → Added dir h.pinList v v' → Q (.ok ()) v') : Safe I Q (handlePin h dir) v := by
  obtain ⟨p, hp, hpi⟩ := hc.prog
  unfold handlePin handlePins
  rw [hp]
  have I1 : ∀ (v' : K) (L : List (String × Nat)), Pinning dir ok v v' → Added dir L v v' → (∀ x ∈ L, x ∈ h.pinList) → I v' :=
    fun v' L p a s => hI v' p (a.from.mono s)
  -- what follows an error
  have after : ∀ (e : Errno) (v' : K) (L : List (String × Nat)), Pinning dir ok v v' → From dir L v v' → (∀ x ∈ L, x ∈ h.pinList) → FailedSince v v' →
      Safe I Q (do handleUnpin h dir; pure (.err e)) v' := by
    intro e v' L p a s f
    have a' := a.mono s
    refine Safe.bind (handleUnpin_safe (v0 := v') hok (Pinning.refl v') (Fewer.refl v') (fun v2 p2 f2 => hI v2 (p.trans p2) (a'.trans f2.from)) ?_)
    intro v2 p2 f2 _
    exact ⟨hI v2 (p.trans p2) (a'.trans f2.from), he e v2 (p.trans p2) (a'.trans f2.from) (f.later p2.hist)⟩
  have m0 : (h.progName, p) ∈ h.pinList := by simp [Handle.pinList, hp]
  have mm : ∀ x ∈ h.maps.map fun m => (m.d.name, m.id), x ∈ h.pinList := by
    intro x hx
    simp only [Handle.pinList, List.mem_append]
    exact .inl (.inr hx)
  refine Safe.bind ?_
  refine pin_safe (L := []) (L' := [(h.progName, p)]) (hok _ (.inl rfl)) (fun hl => absurd hl hpi.not_link) (Pinning.refl v) (Added.nil v) rfl
    (I1 v [] (Pinning.refl v) (Added.nil v) (by simp))
    (fun e v' p' a f => ⟨I1 v' [] p' a (by simp), after e v' [] p' a.from (by simp) f⟩) ?_
  intro v1 p1 a1
  have s1 : ∀ x ∈ [(h.progName, p)], x ∈ h.pinList := by intro x hx; rw [List.mem_singleton.mp hx]; exact m0
  have s2 : ∀ L : List (String × Nat), (∀ x ∈ L, x ∈ [(h.progName, p)] ∨ x ∈ h.maps.map fun m => (m.d.name, m.id)) → ∀ x ∈ L, x ∈ h.pinList := by
    intro L hL x hx
    rcases hL x hx with hx | hx
    · exact s1 x hx
    · exact mm x hx
  refine Safe.bind (pinAll_safe (L := [(h.progName, p)]) (fun m hm => hok _ (.inr (.inl ⟨m, hm, rfl⟩))) hc.maps p1 a1
    (fun v' L' p' a s => I1 v' L' p' a (s2 L' s))
    (fun e v' L' p' a s f => ⟨I1 v' L' p' a (s2 L' s), after e v' L' p' a.from (s2 L' s) f⟩) ?_)
  intro v2 p2 a2
  have s3 : ∀ x ∈ [(h.progName, p)] ++ h.maps.map fun m => (m.d.name, m.id), x ∈ h.pinList := by
    intro x hx
    rcases List.mem_append.mp hx with hx | hx
    · exact s1 x hx
    · exact mm x hx
  simp only
  cases hl : h.link with
  | none =>
    refine ⟨I1 _ _ p2 a2 s3, I1 _ _ p2 a2 s3, hk v2 p2 ?_⟩
    have : h.pinList = [(h.progName, p)] ++ h.maps.map fun m => (m.d.name, m.id) := by simp [Handle.pinList, hp, hl]
    rw [this]; exact a2
  | some l =>
    have hfd := hc.link l hl
    have n1 : ok "bf_link" := hok _ (.inr (.inr ⟨by rw [hl]; rfl, .inl rfl⟩))
    have n2 : ok "bf_link_extra" := hok _ (.inr (.inr ⟨by rw [hl]; rfl, .inr rfl⟩))
    have m1 : ("bf_link", l.fd) ∈ h.pinList := by simp [Handle.pinList, hl]
    have s4 : ∀ x ∈ ([(h.progName, p)] ++ h.maps.map fun m => (m.d.name, m.id)) ++ [("bf_link", l.fd)], x ∈ h.pinList := by
      intro x hx
      rcases List.mem_append.mp hx with hx | hx
      · exact s3 x hx
      · rw [List.mem_singleton.mp hx]; exact m1
    unfold linkPin
    refine pin_safe (L' := ([(h.progName, p)] ++ h.maps.map fun m => (m.d.name, m.id)) ++ [("bf_link", l.fd)]) n1
      (fun _ => hfd l.fd (by simp [Link.fds])) p2 a2 rfl (I1 _ _ p2 a2 s3)
      (fun e v' p' a f => ⟨I1 _ _ p' a s3, after e v' _ p' a.from s3 f⟩) ?_
    intro v3 p3 a3
    simp only
    cases hx : l.extra with
    | none =>
      refine ⟨I1 _ _ p3 a3 s4, I1 _ _ p3 a3 s4, hk v3 p3 ?_⟩
      have : h.pinList = ([(h.progName, p)] ++ h.maps.map fun m => (m.d.name, m.id)) ++ [("bf_link", l.fd)] := by
        simp [Handle.pinList, hp, hl, hx]
      rw [this]; exact a3
    | some x =>
      have e5 : h.pinList = (([(h.progName, p)] ++ h.maps.map fun m => (m.d.name, m.id)) ++ [("bf_link", l.fd)]) ++ [("bf_link_extra", x)] := by
        simp [Handle.pinList, hp, hl, hx]
      refine pin_safe (L' := h.pinList) n2 (fun _ => hfd x (by simp [Link.fds, hx])) p3 a3 e5 (I1 _ _ p3 a3 s4) ?_ ?_
      · intro e v4 p4 a4 f4
        have a4' := a4.from.mono s4
        refine Safe.bind (linkUnpin_safe (v0 := v4) n1 n2 (Pinning.refl v4) (Fewer.refl v4)
          (fun v5 p5 f5 => hI v5 (p4.trans p5) (a4'.trans f5.from)) ?_)
        intro v5 p5 f5
        exact ⟨hI v5 (p4.trans p5) (a4'.trans f5.from), after e v5 _ (p4.trans p5) (a4'.trans f5.from) (fun x hx => hx) (f4.later p5.hist)⟩
      · intro v4 p4 a4
        exact ⟨hI v4 p4 a4.from, hI v4 p4 a4.from, hk v4 p4 a4⟩

end Bf.Pin
