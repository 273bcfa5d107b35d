import Verif.Cgen.World
/-!
# Reasoning about programs that make system calls

Packets change counters only, so what is proved of a program is proved on a view of the world that forgets them: `Safe`.
-/
namespace Bf.Pin

/-- Forget the counters. -/
def Obj.erase : Obj → Obj
  | .map (.counters _) => .map (.counters fun _ => [])
  | .map (.keyed _ _) => .map (.other .set)
  | o => o

def K.erase (w : K) : K := { w with objs := w.objs.map Obj.erase }

@[simp] theorem Obj.erase_erase (o : Obj) : o.erase.erase = o.erase := by
  cases o with
  | map c => cases c <;> rfl
  | _ => rfl

@[simp] theorem K.erase_get (w : K) (i : Nat) : w.erase.objs[i]? = (w.objs[i]?).map Obj.erase := by simp [K.erase]

@[simp] theorem K.erase_pins (w : K) : w.erase.pins = w.pins := rfl
@[simp] theorem K.erase_dirs (w : K) : w.erase.dirs = w.dirs := rfl
@[simp] theorem K.erase_fds (w : K) : w.erase.fds = w.fds := rfl
@[simp] theorem K.erase_hist (w : K) : w.erase.hist = w.hist := rfl
@[simp] theorem K.erase_ncpu (w : K) : w.erase.ncpu = w.ncpu := rfl
@[simp] theorem K.erase_pinned (w : K) (d n : String) : w.erase.pinned d n = w.pinned d n := rfl

theorem Obj.erase_link {o : Obj} {pt : Point} {p : Nat} {d : Bool} : o.erase = .link pt p d ↔ o = .link pt p d := by
  cases o with
  | map c => cases c <;> simp [Obj.erase]
  | _ => simp [Obj.erase]

theorem Obj.erase_prog {o : Obj} {c : Chain} {img : List Insn} {m : Nat} : o.erase = .prog c img m ↔ o = .prog c img m := by
  cases o with
  | map c => cases c <;> simp [Obj.erase]
  | _ => simp [Obj.erase]

theorem Obj.erase_bytes {o : Obj} {b : List Byte} : o.erase = .map (.bytes b) ↔ o = .map (.bytes b) := by
  cases o with
  | map c => cases c <;> simp [Obj.erase]
  | _ => simp [Obj.erase]

theorem K.erase_link {w : K} {l : Nat} {pt : Point} {p : Nat} {d : Bool} :
    w.erase.objs[l]? = some (.link pt p d) ↔ w.objs[l]? = some (.link pt p d) := by
  rw [K.erase_get]
  cases h : w.objs[l]? with
  | none => simp
  | some o => simp [Obj.erase_link]

theorem K.erase_prog {w : K} {l : Nat} {c : Chain} {img : List Insn} {m : Nat} :
    w.erase.objs[l]? = some (.prog c img m) ↔ w.objs[l]? = some (.prog c img m) := by
  rw [K.erase_get]
  cases h : w.objs[l]? with
  | none => simp
  | some o => simp [Obj.erase_prog]

theorem K.erase_bytes {w : K} {l : Nat} {b : List Byte} :
    w.erase.objs[l]? = some (.map (.bytes b)) ↔ w.objs[l]? = some (.map (.bytes b)) := by
  rw [K.erase_get]
  cases h : w.objs[l]? with
  | none => simp
  | some o => simp [Obj.erase_bytes]

@[simp] theorem K.erase_held {w : K} {o : Nat} : w.erase.held o ↔ w.held o := Iff.rfl

@[simp] theorem K.erase_runs {w : K} {pt : Point} {p : Nat} : w.erase.runs pt p ↔ w.runs pt p := by
  simp [K.runs, K.erase_link, -K.erase_get]

/-- Packets do not change the view. -/
theorem Packets.erase {w w' : K} (h : Packets w w') : w'.erase = w.erase := by
  have e : w'.objs.map Obj.erase = w.objs.map Obj.erase := by
    apply List.ext_getElem?
    intro i
    rw [List.getElem?_map, List.getElem?_map]
    cases ho : w.objs[i]? with
    | none =>
      have : w.objs.length ≤ i := List.getElem?_eq_none_iff.mp ho
      rw [List.getElem?_eq_none_iff.mpr (by rw [h.len]; exact this)]
    | some o =>
      rcases h.objs i o ho with h1 | ⟨⟨f, f', rfl, h1⟩, _⟩
      · rw [h1]
      · rw [h1]; rfl
  unfold K.erase
  rw [e, h.same]

/-- The new map of the view. -/
def newMap (d : MapD) : Obj := .map (match d.type with
  | .ctx => .bytes [] | .counters => .counters fun _ => [] | t => .other t)

/-- A step, as seen by someone who does not see counters. -/
inductive AStep (v : K) : Call → Ans → K → Prop
  | fail {c : Call} {e : Errno} : v.canFail c e → AStep v c (.fail e) (v.log c (.fail e))
  | ctrRead {m i : Nat} {l : List Ctr} : AStep v (.ctrRead m i) (.ctrs l) (v.log (.ctrRead m i) (.ctrs l))
  | ctrWrite {m i : Nat} {l : List Ctr} : AStep v (.ctrWrite m i l) .done (v.log (.ctrWrite m i l) .done)
  | mapCreate {d : MapD} : AStep v (.mapCreate d) (.id v.objs.length) ((v.new (newMap d)).log (.mapCreate d) (.id v.objs.length))
  | ok {c : Call} {a : Ans} {v' : K} : (∀ d, c ≠ .mapCreate d) → (∀ m i, c ≠ .ctrRead m i) → (∀ m i l, c ≠ .ctrWrite m i l) → v.ok c = some (a, v') →
      AStep v c a (v'.log c a)

theorem map_set_erase (l : List Obj) (m : Nat) (o : Obj) : (l.set m o).map Obj.erase = (l.map Obj.erase).set m o.erase := by
  rw [List.map_set]

theorem initial_erase (n : Nat) (d : MapD) : (Obj.map (initial n d)).erase = newMap d := by
  unfold initial newMap
  cases d.type <;> rfl

theorem put_same {w : K} {m : Nat} {o o' : Obj} (h : w.objs[m]? = some o) (he : o'.erase = o.erase) :
    (w.put m o').erase = w.erase := by
  unfold K.put K.erase
  congr 1
  rw [List.map_set, he]
  apply List.ext_getElem?
  intro i
  rw [List.getElem?_set]
  split
  · subst_vars
    split
    · rw [List.getElem?_map, h]; rfl
    · next hl => rw [List.getElem?_map, List.getElem?_eq_none_iff.mpr (by simpa using hl)]; rfl
  · rfl

theorem put_erase (w : K) (m : Nat) (o : Obj) : (w.put m o).erase = w.erase.put m o.erase := by
  simp [K.put, K.erase]

theorem new_erase (w : K) (o : Obj) : (w.new o).erase = w.erase.new o.erase := by
  simp [K.new, K.erase]

theorem Step.erase {w w' : K} {c : Call} {a : Ans} (h : Step w c a w') : AStep w.erase c a w'.erase := by
  cases h
  case fail h =>
    refine AStep.fail (v := w.erase) ?_
    cases c <;> exact h
  case ok w1 h =>
    have key : (∀ d, c ≠ .mapCreate d) → (∀ m i, c ≠ .ctrRead m i) → (∀ m i l, c ≠ .ctrWrite m i l) →
        w.erase.ok c = some (a, w1.erase) → AStep w.erase c a (w1.log c a).erase := by
      intro h1 h2 h3 h4
      exact AStep.ok h1 h2 h3 h4
    cases c with
    | mapCreate d =>
      cases h
      have := AStep.mapCreate (v := w.erase) (d := d)
      rw [← initial_erase w.ncpu, ← new_erase] at this
      have e : w.erase.objs.length = w.objs.length := by simp [K.erase]
      rw [e] at this
      exact this
    | ctrRead m i =>
      simp only [K.ok] at h
      split at h
      · cases h; exact AStep.ctrRead
      · cases h
    | ctrWrite m i l =>
      simp only [K.ok] at h
      split at h
      · next f hm =>
        cases h
        have e : (w.put m (.map (.counters fun j => if j = i then l else f j))).erase = w.erase := put_same hm rfl
        have := AStep.ctrWrite (v := w.erase) (m := m) (i := i) (l := l)
        have e' : ((w.put m (.map (.counters fun j => if j = i then l else f j))).log (.ctrWrite m i l) .done).erase =
            w.erase.log (.ctrWrite m i l) .done := by rw [← e]; rfl
        rw [e']
        exact this
      · cases h
    | mapWrite m b =>
      refine key (by simp) (by simp) (by simp) ?_
      simp only [K.ok, K.erase_get] at h ⊢
      cases hm : w.objs[m]? with
      | none => rw [hm] at h; cases h
      | some o =>
        rw [hm] at h
        cases o with
        | map ct =>
          cases ct with
          | bytes b' => cases h; simp only [Option.map_some, Obj.erase]; rw [put_erase]; rfl
          | counters f => cases h; rfl
          | keyed l => cases h; rfl
          | other => cases h; rfl
        | prog => cases h
        | link => cases h
    | mapFill m l =>
      refine key (by simp) (by simp) (by simp) ?_
      simp only [K.ok, K.erase_get] at h ⊢
      cases hm : w.objs[m]? with
      | none => rw [hm] at h; cases h
      | some o =>
        rw [hm] at h
        cases o with
        | map ct =>
          cases ct with
          | bytes b' => cases h; rfl
          | counters f => cases h; rfl
          | keyed d l0 => cases h; simp only [Option.map_some, Obj.erase]; exact congrArg (fun x => some (Ans.done, x)) (put_same hm (by rfl)).symm
          | other => cases h; rfl
        | prog => cases h
        | link => cases h
    | mapRead m =>
      refine key (by simp) (by simp) (by simp) ?_
      simp only [K.ok, K.erase_get] at h ⊢
      cases hm : w.objs[m]? with
      | none => rw [hm] at h; cases h
      | some o =>
        rw [hm] at h
        cases o with
        | map ct =>
          cases ct with
          | bytes b' => cases h; rfl
          | counters f => cases h
          | keyed l => cases h
          | other => cases h
        | prog => cases h
        | link => cases h
    | progLoad chain img cm =>
      refine key (by simp) (by simp) (by simp) ?_
      simp only [K.ok] at h ⊢
      cases h
      rw [new_erase]
      simp [K.erase, Obj.erase]
    | linkCreate p pt =>
      refine key (by simp) (by simp) (by simp) ?_
      simp only [K.ok, K.erase_get] at h ⊢
      cases hm : w.objs[p]? with
      | none => rw [hm] at h; cases h
      | some o =>
        rw [hm] at h
        cases o with
        | map ct => cases h
        | prog => cases h; simp only [Option.map_some, Obj.erase]; rw [new_erase]; simp [K.erase, Obj.erase]
        | link => cases h
    | linkUpdate l p =>
      refine key (by simp) (by simp) (by simp) ?_
      simp only [K.ok, K.erase_get] at h ⊢
      cases hl : w.objs[l]? with
      | none => rw [hl] at h; cases h
      | some o =>
        cases hm : w.objs[p]? with
        | none => rw [hl, hm] at h; cases o <;> simp at h
        | some o' =>
          rw [hl, hm] at h
          cases o with
          | map ct => cases h
          | prog => cases h
          | link pt q d =>
            cases d with
            | true => cases h
            | false =>
              cases o' with
              | map ct => cases h
              | prog => cases h; simp only [Option.map_some, Obj.erase]; rw [put_erase]; rfl
              | link => cases h
    | linkDetach l =>
      refine key (by simp) (by simp) (by simp) ?_
      simp only [K.ok, K.erase_get] at h ⊢
      cases hm : w.objs[l]? with
      | none => rw [hm] at h; cases h
      | some o =>
        rw [hm] at h
        cases o with
        | map ct => cases h
        | prog => cases h
        | link => cases h; simp only [Option.map_some, Obj.erase]; rw [put_erase]; rfl
    | alloc => exact key (by simp) (by simp) (by simp) (by cases h; rfl)
    | lockInit => exact key (by simp) (by simp) (by simp) (by cases h; rfl)
    | openCgroup _ => exact key (by simp) (by simp) (by simp) (by cases h; rfl)
    | readdir => exact key (by simp) (by simp) (by simp) (by cases h; rfl)
    | rmTree d => exact key (by simp) (by simp) (by simp) (by cases h; rfl)
    | close _ => exact key (by simp) (by simp) (by simp) (by cases h; rfl)
    | acquire d =>
      refine key (by simp) (by simp) (by simp) ?_
      simp only [K.ok] at h ⊢
      split at h
      · next e => cases h; exact if_pos e
      · cases h
    | create d =>
      refine key (by simp) (by simp) (by simp) ?_
      simp only [K.ok] at h ⊢
      split at h
      · cases h
      · next e => cases h; exact if_neg e
    | release d b =>
      refine key (by simp) (by simp) (by simp) ?_
      simp only [K.ok] at h ⊢
      split at h
      · next e => cases h; exact if_pos e
      · next e => cases h; exact if_neg e
    | pin d n o =>
      refine key (by simp) (by simp) (by simp) ?_
      simp only [K.ok, K.erase_pinned] at h ⊢
      split at h
      · cases h
      · split at h
        · next e => cases h; exact if_pos (by simpa [K.erase] using e)
        · cases h
    | get d n =>
      refine key (by simp) (by simp) (by simp) ?_
      simp only [K.ok, K.erase_pinned] at h ⊢
      split at h
      · next e => cases h; rfl
      · cases h
    | unlink d n =>
      refine key (by simp) (by simp) (by simp) ?_
      simp only [K.ok, K.erase_pinned] at h ⊢
      split at h
      · next e => cases h; rfl
      · cases h
    | rename d n n' =>
      refine key (by simp) (by simp) (by simp) ?_
      simp only [K.ok, K.erase_pinned] at h ⊢
      split at h
      · next e => cases h; rfl
      · cases h

/-- `Safe I Q p v`: from `v`, program `p` satisfies `I` at every instant, and when it ends, `Q` of its result. -/
def Safe {α : Type} (I : K → Prop) (Q : α → K → Prop) : P α → K → Prop
  | .ret a, v => I v ∧ Q a v
  | .call c k, v => I v ∧ ∀ a v', AStep v c a v' → Safe I Q (k a) v'

theorem Safe.inv {α : Type} {I : K → Prop} {Q : α → K → Prop} {p : P α} {v : K} (h : Safe I Q p v) : I v := by
  cases p <;> exact h.1

theorem Safe.mono {α : Type} {I I' : K → Prop} {Q Q' : α → K → Prop} {p : P α} {v : K} (h : Safe I Q p v)
    (hI : ∀ v, I v → I' v) (hQ : ∀ a v, I v → Q a v → Q' a v) : Safe I' Q' p v := by
  induction p generalizing v with
  | ret a => exact ⟨hI _ h.1, hQ _ _ h.1 h.2⟩
  | call c k ih => exact ⟨hI _ h.1, fun a v' hs => ih a (h.2 a v' hs)⟩

theorem Safe.bind {α β : Type} {I : K → Prop} {Q : β → K → Prop} {p : P α} {f : α → P β} {v : K}
    (h : Safe I (fun a v' => Safe I Q (f a) v') p v) : Safe I Q (p >>= f) v := by
  induction p generalizing v with
  | ret a => exact h.2
  | call c k ih => exact ⟨h.1, fun a v' hs => ih a (h.2 a v' hs)⟩

/-- What is proved of the view holds of every execution. -/
theorem Safe.sound {α : Type} {I : K → Prop} {Q : α → K → Prop} {p p' : P α} {w w' : K} (h : Safe I Q p w.erase)
    (hr : Run w p w' p') : Safe I Q p' w'.erase := by
  induction hr with
  | refl => exact h
  | packets hp _ ih => exact ih (by rw [hp.erase]; exact h)
  | step hs _ ih => exact ih (h.2 _ _ hs.erase)

theorem Safe.end {α : Type} {I : K → Prop} {Q : α → K → Prop} {p : P α} {w w' : K} {a : α} (h : Safe I Q p w.erase)
    (hr : Run w p w' (.ret a)) : Q a w'.erase := (h.sound hr).2

/-- The deterministic runs are runs. -/
theorem P.exec_run {α : Type} {fails : Nat → Bool} {n : Nat} {p : P α} {i : Nat} {w : K} :
    ∃ p', Run w p (p.exec fails n i w).1 p' ∧ ∀ a, (p.exec fails n i w).2 = some a → p' = .ret a := by
  induction p generalizing i w with
  | ret a => exact ⟨.ret a, .refl, fun b h => by cases h; rfl⟩
  | call c k ih =>
    unfold P.exec
    split
    · split
      · next a w' h =>
        obtain ⟨p', h1, h2⟩ := ih a (i := i + 1) (w := w'.log c a)
        refine ⟨p', .step (.ok ?_) h1, h2⟩
        split at h
        · cases h
        · exact h
      · next h =>
        obtain ⟨p', h1, h2⟩ := ih (.fail (execErr c (fails i))) (i := i + 1) (w := w.log c (.fail (execErr c (fails i))))
        refine ⟨p', .step (.fail ?_) h1, h2⟩
        cases c <;> cases hf : fails i <;> simp_all [K.canFail, K.ok, Call.isClose, execErr]
        all_goals (split at h <;> simp_all)
    · exact ⟨.call c k, .refl, fun b h => by cases h⟩

end Bf.Pin
