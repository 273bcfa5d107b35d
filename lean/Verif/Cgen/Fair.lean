import Verif.Cgen.Tagged
import Verif.Cgen.Transfer
/-!
# What programs write, load and attach

`W` says what may be written in the context map of a chain, loaded and attached for it.  Programs that write, load and attach only that, if that is what they
read, do so too when they run together.
-/
namespace Bf.Pin

variable {α β : Type} {D : String → Prop} {n : String} {w w' : K}

/-- What may be stored in the context maps of a directory, the programs that may be loaded for it, the points they may be attached to. -/
structure Want where
  ctx : String → List Byte → Prop
  prog : String → Chain → List Insn → Nat → Prop
  point : String → Point → Prop

variable {W : Want}

/-- What the call makes, for directory `n`, may be there. -/
def Call.Keeps (W : Want) (n : String) : Call → Prop
  | .mapWrite _ v => W.ctx n v
  | .progLoad c img m => W.prog n c img m
  | .linkCreate _ pt => W.point n pt
  | _ => True

/-- What the call reads in directory `n` may be there. -/
def Call.Told (W : Want) (n : String) : Call → Ans → Prop
  | .mapRead _, .bytes b => W.ctx n b
  | _, _ => True

/-- A program of directory `n` makes what may be there, if it reads what may be there; then its result is as `ok` says. -/
def P.Fair (W : Want) (n : String) (ok : α → Prop) : P α → Prop
  | .ret a => ok a
  | .call c k => c.Keeps W n ∧ ∀ a, c.Told W n a → (k a).Fair W n ok

theorem Fair.bind {p : P α} {f : α → P β} {ok : α → Prop} {ok' : β → Prop} (h : p.Fair W n ok) (hf : ∀ a, ok a → (f a).Fair W n ok') : (p >>= f).Fair W n ok' := by
  induction p with
  | ret a => exact hf a h
  | call c k ih => exact ⟨h.1, fun a ha => ih a (h.2 a ha)⟩

theorem Fair.mono {p : P α} {ok ok' : α → Prop} (h : p.Fair W n ok) (hf : ∀ a, ok a → ok' a) : p.Fair W n ok' := by
  induction p with
  | ret a => exact hf a h
  | call c k ih => exact ⟨h.1, fun a ha => ih a (h.2 a ha)⟩

theorem Fair.pure {a : α} {ok : α → Prop} (h : ok a) : (pure a : P α).Fair W n ok := h

/-- A call that writes no map, loads nothing and attaches nothing. -/
def Call.plain : Call → Bool
  | .mapWrite .. | .progLoad .. | .linkCreate .. => false
  | _ => true

theorem Call.plain_keeps {c : Call} (h : c.plain = true) : c.Keeps W n := by cases c <;> first | trivial | cases h

theorem Call.tame_plain (c : Call) (h : c.tame = true) : c.plain = true := by cases c <;> simp_all [Call.plain, Call.tame]

theorem Call.reads_plain (c : Call) (h : c.reads = true) : c.plain = true := c.tame_plain (c.reads_tame h)

theorem Fair.of_calls {p : P α} (h : p.Calls Call.plain) : p.Fair W n fun _ => True := by
  induction p with
  | ret a => trivial
  | call c k ih => exact ⟨Call.plain_keeps h.1, fun a _ => ih a (h.2 a)⟩

theorem Fair.of_reads {p : P α} (h : p.Calls Call.reads) : p.Fair W n fun _ => True := Fair.of_calls (Calls.mono h Call.reads_plain)

/-- Each call is about one directory, and makes what may be there; or it makes nothing. -/
def P.Led (W : Want) (ok : α → Prop) (t : Tags) : P α → Prop
  | .ret a => ok a
  | .call c k =>
    (∃ n, c.In (fun d => d = n) (fun o => t o = some n) ∧ c.Keeps W n ∧ ∀ a, c.Told W n a → (k a).Led W ok (t.learn n a)) ∨
    (c.tame = true ∧ ∀ a, (k a).Led W ok t)

theorem Led.bind {p : P α} {f : α → P β} {t : Tags} {ok : α → Prop} {ok' : β → Prop} (h : p.Led W ok t) (hf : ∀ a t, ok a → (f a).Led W ok' t) : (p >>= f).Led W ok' t := by
  induction p generalizing t with
  | ret a => exact hf a t h
  | call c k ih =>
    rcases h with ⟨n, h1, h2, h3⟩ | ⟨h1, h2⟩
    · exact .inl ⟨n, h1, h2, fun a ha => ih a (h3 a ha)⟩
    · exact .inr ⟨h1, fun a => ih a (h2 a)⟩

theorem Led.mono {p : P α} {t : Tags} {ok ok' : α → Prop} (h : p.Led W ok t) (hf : ∀ a, ok a → ok' a) : p.Led W ok' t := by
  induction p generalizing t with
  | ret a => exact hf a h
  | call c k ih =>
    rcases h with ⟨n, h1, h2, h3⟩ | ⟨h1, h2⟩
    · exact .inl ⟨n, h1, h2, fun a ha => ih a (h3 a ha)⟩
    · exact .inr ⟨h1, fun a => ih a (h2 a)⟩

theorem Led.of_fair {ok : α → Prop} {p : P α} : ∀ {t : Tags}, (∀ S : Nat → Prop, (∀ o, t o = some n → S o) → p.Within (fun d => d = n) S fun _ => True) → p.Fair W n ok → p.Led W ok t := by
  induction p with
  | ret a => exact fun _ h => h
  | call c k ih =>
    intro t h hf
    refine .inl ⟨n, (h _ fun _ h => h).1, hf.1, fun a ha => ih a (fun S hS => (h S fun o ho => hS o (learn_mono ho)).2 a fun o e => hS o ?_) (hf.2 a ha)⟩
    subst e
    simp [Tags.learn]

theorem Led.of_tame {t : Tags} {p : P α} (h : p.Calls Call.tame) : p.Led W (fun _ => True) t := by
  induction p with
  | ret a => trivial
  | call c k ih => exact .inr ⟨h.1, fun a => ih a (h.2 a)⟩

theorem Led.of_reads {t : Tags} {p : P α} (h : p.Calls Call.reads) : p.Led W (fun _ => True) t := Led.of_tame (Calls.tame h)

/-! What running does. -/

/-- The object may be one of directory `d`. -/
def Obj.May (W : Want) (ow : Tags) (d : String) : Obj → Prop
  | .map (.bytes b) => W.ctx d b
  | .map _ => True
  | .prog c img m => W.prog d c img m
  | .link pt p _ => W.point d pt ∧ ow p = some d

structure Lawful (W : Want) (ow : Tags) (w : K) : Prop extends Owners ow w where
  fds : ∀ o ∈ w.fds, ∃ d, ow o = some d
  objs : ∀ o d x, ow o = some d → w.objs[o]? = some x → x.May W ow d
  progs : ∀ o d pt p b, ow o = some d → w.objs[o]? = some (.link pt p b) → ∃ c img m, w.objs[p]? = some (.prog c img m)

/-- How an object comes to be what it is. -/
inductive Changed (w : K) : Call → Nat → Obj → Prop
  | map {d : MapD} : Changed w (.mapCreate d) w.objs.length (.map (initial w.ncpu d))
  | prog {c : Chain} {img : List Insn} {m : Nat} : Changed w (.progLoad c img m) w.objs.length (.prog c img m)
  | link {p m : Nat} {pt : Point} {c : Chain} {img : List Insn} : w.objs[p]? = some (.prog c img m) → Changed w (.linkCreate p pt) w.objs.length (.link pt p false)
  | write {m : Nat} {v b : List Byte} : w.objs[m]? = some (.map (.bytes b)) → Changed w (.mapWrite m v) m (.map (.bytes v))
  | fill {m : Nat} {d : MapD} {l l0 l1 : List (List Byte × List Byte)} : w.objs[m]? = some (.map (.keyed d l0)) → Changed w (.mapFill m l) m (.map (.keyed d l1))
  | count {m i : Nat} {v : List Ctr} {f g : Nat → List Ctr} : w.objs[m]? = some (.map (.counters f)) → Changed w (.ctrWrite m i v) m (.map (.counters g))
  | update {l p q m : Nat} {pt : Point} {b : Bool} {c : Chain} {img : List Insn} : w.objs[l]? = some (.link pt q b) → w.objs[p]? = some (.prog c img m) → Changed w (.linkUpdate l p) l (.link pt p false)
  | detach {l p : Nat} {pt : Point} {b : Bool} : w.objs[l]? = some (.link pt p b) → Changed w (.linkDetach l) l (.link pt p true)

theorem new_get {o : Obj} {i : Nat} {x : Obj} (h : (w.new o).objs[i]? = some x) : w.objs[i]? = some x ∨ i = w.objs.length ∧ x = o := by
  have h : (w.objs ++ [o])[i]? = some x := h
  rw [List.getElem?_append] at h
  split at h
  · exact .inl h
  · next hl =>
    obtain ⟨e1, e2⟩ := List.getElem?_eq_some_iff.mp h
    have e1' : i - w.objs.length < 1 := by simpa using e1
    have : i - w.objs.length = 0 := by omega
    simp [this] at h
    exact .inr ⟨by omega, h.symm⟩

theorem put_get {o : Obj} {m i : Nat} {x : Obj} (h : (w.put m o).objs[i]? = some x) : w.objs[i]? = some x ∨ i = m ∧ x = o := by
  have h : (w.objs.set m o)[i]? = some x := h
  rw [List.getElem?_set] at h
  split at h
  · next e =>
    split at h
    · exact .inr ⟨e.symm, by cases h; rfl⟩
    · cases h
  · exact .inl h

theorem step_changed {c : Call} {a : Ans} (h : Step w c a w') {i : Nat} {x : Obj} (hx : w'.objs[i]? = some x) : w.objs[i]? = some x ∨ Changed w c i x := by
  cases h with
  | fail h => exact .inl hx
  | @ok _ w1 h =>
    replace hx : w1.objs[i]? = some x := hx
    cases c <;> simp only [K.ok] at h
    case mapCreate =>
      cases h
      rcases new_get hx with hx | ⟨rfl, rfl⟩
      · exact .inl hx
      · exact .inr .map
    case progLoad =>
      cases h
      rcases new_get hx with hx | ⟨rfl, rfl⟩
      · exact .inl hx
      · exact .inr .prog
    case linkCreate =>
      split at h
      · next hp =>
        cases h
        rcases new_get hx with hx | ⟨rfl, rfl⟩
        · exact .inl hx
        · exact .inr (.link hp)
      · cases h
    case mapWrite m v =>
      split at h
      · next b hb =>
        cases h
        rcases put_get hx with hx | ⟨rfl, rfl⟩
        · exact .inl hx
        · exact .inr (.write hb)
      · cases h; exact .inl hx
      · cases h
    case mapFill m v =>
      split at h
      · next b hb =>
        cases h
        rcases put_get hx with hx | ⟨rfl, rfl⟩
        · exact .inl hx
        · exact .inr (.fill hb)
      · cases h; exact .inl hx
      · cases h
    case ctrWrite m j v =>
      split at h
      · next f hf =>
        cases h
        rcases put_get hx with hx | ⟨rfl, rfl⟩
        · exact .inl hx
        · exact .inr (.count hf)
      · cases h
    case linkUpdate l p =>
      split at h
      · next pt q hl hp =>
        cases h
        rcases put_get hx with hx | ⟨rfl, rfl⟩
        · exact .inl hx
        · exact .inr (.update ‹_› ‹_›)
      · cases h
    case linkDetach l =>
      split at h
      · cases h
        rcases put_get hx with hx | ⟨rfl, rfl⟩
        · exact .inl hx
        · exact .inr (.detach ‹_›)
      · cases h
    all_goals first
      | (cases h; exact .inl hx)
      | (split at h <;> first | (cases h; exact .inl hx) | (cases h; done) | (split at h <;> first | (cases h; exact .inl hx) | (cases h; done)))

/-- The descriptors after a call. -/
theorem step_fds {c : Call} {a : Ans} (h : Step w c a w') {o : Nat} (ho : o ∈ w'.fds) : o ∈ w.fds ∨ a = .id o := by
  cases h with
  | fail h => exact .inl ho
  | @ok _ w1 h =>
    replace ho : o ∈ w1.fds := ho
    cases c <;> simp only [K.ok] at h
    case mapCreate => cases h; exact (List.mem_cons.mp ho).elim (fun e => .inr (by rw [e])) .inl
    case progLoad => cases h; exact (List.mem_cons.mp ho).elim (fun e => .inr (by rw [e])) .inl
    case linkCreate =>
      split at h
      · cases h; exact (List.mem_cons.mp ho).elim (fun e => .inr (by rw [e])) .inl
      · cases h
    case get =>
      split at h
      · cases h; exact (List.mem_cons.mp ho).elim (fun e => .inr (by rw [e])) .inl
      · cases h
    case close => cases h; exact .inl (List.mem_of_mem_erase ho)
    all_goals first
      | (cases h; exact .inl ho)
      | (split at h <;> first | (cases h; exact .inl ho) | (cases h; done) | (split at h <;> first | (cases h; exact .inl ho) | (cases h; done)))

/-- An object that a call that makes nothing gives is pinned. -/
theorem tame_id {c : Call} {o : Nat} (hc : c.tame = true) (h : Step w c (.id o) w') : ∃ d n, w.pinned d n = some o := by
  cases h with
  | @ok _ w1 h =>
    cases c <;> simp only [K.ok] at h
    case mapCreate => cases hc
    case progLoad => cases hc
    case linkCreate => cases hc
    case get d n =>
      split at h
      · next o' ho => cases h; exact ⟨d, n, ho⟩
      · cases h
    all_goals first
      | (cases h; done)
      | (split at h <;> first | (cases h; done) | (split at h <;> cases h))

theorem told {c : Call} {a : Ans} {ow : Tags} (hL : Lawful W ow w) (hc : c.In (fun d => d = n) (fun o => ow o = some n)) (hs : Step w c a w') : c.Told W n a := by
  unfold Call.Told
  split
  · next m b =>
    cases hs with
    | @ok _ w1 h =>
      simp only [K.ok] at h
      split at h
      · next v hv => cases h; exact hL.objs m n _ hc hv
      · cases h
  · trivial

theorem May.mono {ow ow' : Tags} {d : String} {x : Obj} (h : x.May W ow d) (hK : Knows ow ow') : x.May W ow' d := by
  unfold Obj.May at h ⊢
  split
  · exact h
  · trivial
  · exact h
  · exact ⟨h.1, hK _ _ h.2⟩

theorem step_progs {c : Call} {a : Ans} {ow : Tags} {o p : Nat} {d : String} {pt : Point} {b : Bool} (hL : Lawful W ow w) (hs : Step w c a w')
    (hd : o < w.objs.length → ow o = some d) (hx : w'.objs[o]? = some (.link pt p b)) : ∃ c img m, w'.objs[p]? = some (.prog c img m) := by
  have fin : (∃ c img m, w.objs[p]? = some (.prog c img m)) → ∃ c img m, w'.objs[p]? = some (.prog c img m) := fun ⟨c, img, m, h⟩ => ⟨c, img, m, hs.prog h⟩
  have old : ∀ {b : Bool}, w.objs[o]? = some (.link pt p b) → ∃ c img m, w.objs[p]? = some (.prog c img m) := fun h =>
    hL.progs o d pt p _ (hd (List.getElem?_eq_some_iff.mp h).1) h
  rcases step_changed hs hx with hx | hx
  · exact fin (old hx)
  · generalize hy : Obj.link pt p b = y at hx
    cases hx with
    | link h => cases hy; exact fin ⟨_, _, _, h⟩
    | update _ h => cases hy; exact fin ⟨_, _, _, h⟩
    | detach h => cases hy; exact fin (old h)
    | _ => cases hy

/-- A call of a program among others. -/
theorem led_step {ow t : Tags} {c : Call} {k : Ans → P α} {a : Ans} {ok : α → Prop} (he : ∀ n, W.ctx n []) (hL : Lawful W ow w) (hK : Knows t ow) (hp : (P.call c k).Led W ok t)
    (hs : Step w c a w') : ∃ ow' t', Lawful W ow' w' ∧ Knows ow ow' ∧ Knows t' ow' ∧ (k a).Led W ok t' ∧ ∀ o d, ow' o = some d → ow o = some d ∨ w.objs.length ≤ o := by
  have hO := hL.toOwners
  have hl := step_len hs
  have hwf := step_wf (S := fun _ => True) hs hO.wf
  rcases hp with ⟨n, h2, h3, h4⟩ | ⟨h1, h2⟩
  · have hin : c.In (fun d => d = n) (fun o => ow o = some n) := h2.mono fun o ho => hK o n ho
    have hI : Has (fun d => d = n) (fun o => ow o = some n ∨ w.objs.length ≤ o) w :=
      ⟨fun d m o hd ho => .inl (by rw [hO.pins d m o ho, hd]), fun i hi => .inr hi⟩
    obtain ⟨g1, g2, g3⟩ := step_within hI (hin.mono fun o ho => .inl ho) hs
    let ow' : Tags := fun o => if o < w.objs.length then ow o else if o < w'.objs.length then some n else none
    have e1 : Knows ow ow' := fun o d h => by
      show (if o < w.objs.length then ow o else _) = _
      rw [if_pos (hO.lt o d h)]
      exact h
    have e2 : ∀ o, o < w'.objs.length → (ow o = some n ∨ w.objs.length ≤ o) → ow' o = some n := fun o ho h => by
      rcases h with h | h
      · exact e1 o n h
      · show (if o < w.objs.length then ow o else if o < w'.objs.length then some n else none) = _
        rw [if_neg (by omega), if_pos ho]
    have e3 : ∀ o d, o < w.objs.length → ow' o = some d → ow o = some d := fun o d ho h => by
      replace h : (if o < w.objs.length then ow o else if o < w'.objs.length then some n else none) = some d := h
      rw [if_pos ho] at h
      exact h
    have e4 : ∀ o d, w.objs.length ≤ o → ow' o = some d → d = n := fun o d ho h => by
      replace h : (if o < w.objs.length then ow o else if o < w'.objs.length then some n else none) = some d := h
      rw [if_neg (by omega)] at h
      split at h
      · cases h; rfl
      · cases h
    refine ⟨ow', t.learn n a, ⟨⟨fun d m o ho => ?_, fun o d h => ?_, hwf⟩, fun o ho => ?_, fun o d x hd hx => ?_,
      fun o d pt p b hd hx => step_progs hL hs (fun ho => e3 o d ho hd) hx⟩, e1, fun o m h => ?_, h4 a (told hL hin hs), fun o d h => ?_⟩
    · by_cases hd : d = n
      · subst hd
        exact e2 o (hwf _ (lookup_mem ho)) (g2.pins d m o rfl ho)
      · rw [g1.pins d m hd] at ho
        exact e1 o d (hO.pins d m o ho)
    · replace h : (if o < w.objs.length then ow o else if o < w'.objs.length then some n else none) = some d := h
      split at h
      · omega
      · split at h
        · assumption
        · cases h
    · rcases step_fds hs ho with ho | rfl
      · obtain ⟨d, hd⟩ := hL.fds o ho
        exact ⟨d, e1 o d hd⟩
      · exact ⟨n, e2 o (step_id hO.wf hs) (g3 o rfl)⟩
    · rcases step_changed hs hx with hx | hx
      · exact May.mono (hL.objs o d x (e3 o d (List.getElem?_eq_some_iff.mp hx).1 hd) hx) e1
      · have old : ∀ {y : Obj}, w.objs[o]? = some y → ow o = some n → d = n ∧ y.May W ow n := fun {y} hy hn => by
          have := e3 o d (List.getElem?_eq_some_iff.mp hy).1 hd
          rw [hn] at this
          cases this
          exact ⟨rfl, hL.objs o n y hn hy⟩
        cases hx with
        | map =>
          cases e4 _ _ (Nat.le_refl _) hd
          unfold initial
          split
          · exact he n
          · trivial
          · trivial
          · trivial
        | prog => cases e4 _ _ (Nat.le_refl _) hd; exact h3
        | link _ => cases e4 _ _ (Nat.le_refl _) hd; exact ⟨h3, e1 _ _ hin⟩
        | write hb => cases (old hb hin).1; exact h3
        | fill hb => trivial
        | count hb => trivial
        | update hb _ =>
          obtain ⟨rfl, h5⟩ := old hb hin.1
          exact ⟨h5.1, e1 _ _ hin.2⟩
        | detach hb =>
          obtain ⟨rfl, h5⟩ := old hb hin
          exact ⟨h5.1, e1 _ _ h5.2⟩
    · unfold Tags.learn at h
      split at h
      · next o' =>
        split at h
        · next e =>
          subst e
          cases h
          exact e2 o (step_id hO.wf hs) (g3 o rfl)
        · exact e1 o m (hK o m h)
      · exact e1 o m (hK o m h)
    · by_cases ho : o < w.objs.length
      · exact .inl (e3 o d ho h)
      · exact .inr (by omega)
  · refine ⟨ow, t, ⟨⟨fun d n o ho => hO.pins d n o (tame_fewer h1 hs d n o ho), fun o d h => Nat.lt_of_lt_of_le (hO.lt o d h) hl, hwf⟩, fun o ho => ?_, fun o d x hd hx => ?_,
      fun o d pt p b hd hx => step_progs hL hs (fun _ => hd) hx⟩,
      fun _ _ h => h, hK, h2 a, fun _ _ h => .inl h⟩
    · rcases step_fds hs ho with ho | rfl
      · exact hL.fds o ho
      · obtain ⟨d, n, ho⟩ := tame_id h1 hs
        exact ⟨d, hO.pins d n o ho⟩
    · rcases step_changed hs hx with hx | hx
      · exact hL.objs o d x hd hx
      · cases hx with
        | map => cases h1
        | prog => cases h1
        | link _ => cases h1
        | write => cases h1
        | fill => trivial
        | count => trivial
        | update _ _ => cases h1
        | detach hb =>
          have h5 := hL.objs o d _ hd hb
          exact ⟨h5.1, h5.2⟩

theorem Lawful.packets {ow : Tags} (hL : Lawful W ow w) (hp : Packets w w') : Lawful W ow w' := by
  have e : w'.pins = w.pins := by rw [hp.same]
  have f : w'.fds = w.fds := by rw [hp.same]
  refine ⟨⟨fun d n o ho => hL.pins d n o (by unfold K.pinned at ho ⊢; rw [← e]; exact ho), fun o d ho => by rw [hp.len]; exact hL.lt o d ho,
    fun x hx => by rw [hp.len]; exact hL.wf x (by rw [← e]; exact hx)⟩, by rw [f]; exact hL.fds, fun o d x hd hx => ?_, fun o d pt p b hd hx => ?_⟩
  · have hlt : o < w.objs.length := by rw [← hp.len]; exact (List.getElem?_eq_some_iff.mp hx).1
    rcases hp.objs o _ (List.getElem?_eq_getElem hlt) with h | ⟨⟨_, f', _, h⟩, _⟩
    · rw [h] at hx
      cases hx
      exact hL.objs o d _ hd (List.getElem?_eq_getElem hlt)
    · rw [h] at hx
      cases hx
      trivial
  · have hlt : o < w.objs.length := by rw [← hp.len]; exact (List.getElem?_eq_some_iff.mp hx).1
    rcases hp.objs o _ (List.getElem?_eq_getElem hlt) with h | ⟨⟨_, f', _, h⟩, _⟩
    · rw [h, Option.some.injEq] at hx
      obtain ⟨c, img, m, hc⟩ := hL.progs o d pt p b hd (by rw [List.getElem?_eq_getElem hlt, hx])
      rcases hp.objs p _ hc with h | ⟨⟨_, _, h, _⟩, _⟩
      · exact ⟨c, img, m, h⟩
      · cases h
    · rw [h] at hx
      cases hx

end Bf.Pin
