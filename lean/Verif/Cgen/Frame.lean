import Verif.Cgen.View
import Verif.Cgen.Ops
/-!
# What most system calls leave alone
-/
namespace Bf.Pin

@[simp] theorem K.log_objs (v : K) (c : Call) (a : Ans) : (v.log c a).objs = v.objs := rfl
@[simp] theorem K.log_pins (v : K) (c : Call) (a : Ans) : (v.log c a).pins = v.pins := rfl
@[simp] theorem K.log_dirs (v : K) (c : Call) (a : Ans) : (v.log c a).dirs = v.dirs := rfl
@[simp] theorem K.log_fds (v : K) (c : Call) (a : Ans) : (v.log c a).fds = v.fds := rfl
@[simp] theorem K.log_hist (v : K) (c : Call) (a : Ans) : (v.log c a).hist = (c, a) :: v.hist := rfl
@[simp] theorem K.log_pinned (v : K) (c : Call) (a : Ans) (d n : String) : (v.log c a).pinned d n = v.pinned d n := rfl
@[simp] theorem K.new_objs (v : K) (o : Obj) : (v.new o).objs = v.objs ++ [o] := rfl
@[simp] theorem K.new_pins (v : K) (o : Obj) : (v.new o).pins = v.pins := rfl
@[simp] theorem K.new_dirs (v : K) (o : Obj) : (v.new o).dirs = v.dirs := rfl
@[simp] theorem K.new_fds (v : K) (o : Obj) : (v.new o).fds = v.objs.length :: v.fds := rfl
@[simp] theorem K.new_hist (v : K) (o : Obj) : (v.new o).hist = v.hist := rfl
@[simp] theorem K.new_pinned (v : K) (o : Obj) (d n : String) : (v.new o).pinned d n = v.pinned d n := rfl
@[simp] theorem K.put_objs (v : K) (i : Nat) (o : Obj) : (v.put i o).objs = v.objs.set i o := rfl
@[simp] theorem K.put_pins (v : K) (i : Nat) (o : Obj) : (v.put i o).pins = v.pins := rfl
@[simp] theorem K.put_dirs (v : K) (i : Nat) (o : Obj) : (v.put i o).dirs = v.dirs := rfl
@[simp] theorem K.put_fds (v : K) (i : Nat) (o : Obj) : (v.put i o).fds = v.fds := rfl
@[simp] theorem K.put_hist (v : K) (i : Nat) (o : Obj) : (v.put i o).hist = v.hist := rfl

def IsLink (v : K) (o : Nat) : Prop := ∃ pt p d, v.objs[o]? = some (.link pt p d)
def IsMap (v : K) (o : Nat) : Prop := ∃ c, v.objs[o]? = some (.map c)
def IsProg (v : K) (o : Nat) : Prop := ∃ c i m, v.objs[o]? = some (.prog c i m)

theorem IsMap.not_link {v : K} {o : Nat} (h : IsMap v o) : ¬ IsLink v o := by
  rintro ⟨pt, p, d, h'⟩; obtain ⟨c, h⟩ := h; rw [h] at h'; cases h'

theorem IsProg.not_link {v : K} {o : Nat} (h : IsProg v o) : ¬ IsLink v o := by
  rintro ⟨pt, p, d, h'⟩; obtain ⟨c, i, m, h⟩ := h; rw [h] at h'; cases h'

def Obj.isLink : Obj → Bool
  | .link .. => true
  | _ => false

/-- From `v0` to `v`: new objects; links are open as many times as they were; the rest is the same. -/
structure Frame (v0 v : K) : Prop where
  objs : ∃ new, v.objs = v0.objs ++ new
  dirs : v.dirs = v0.dirs
  fds : ∀ o, IsLink v0 o → v.fds.count o = v0.fds.count o
  hist : ∃ h, v.hist = h ++ v0.hist

theorem Frame.refl (v : K) : Frame v v := ⟨⟨[], by simp⟩, rfl, fun _ _ => rfl, ⟨[], rfl⟩⟩

theorem Frame.get {v0 v : K} (h : Frame v0 v) {i : Nat} {o : Obj} (ho : v0.objs[i]? = some o) : v.objs[i]? = some o := by
  obtain ⟨new, e⟩ := h.objs
  rw [e, List.getElem?_append_left (by exact (List.getElem?_eq_some_iff.mp ho).1)]
  exact ho

theorem Frame.map {v0 v : K} (h : Frame v0 v) {o : Nat} (ho : IsMap v0 o) : IsMap v o := by
  obtain ⟨c, ho⟩ := ho; exact ⟨c, h.get ho⟩

theorem Frame.prog {v0 v : K} (h : Frame v0 v) {o : Nat} (ho : IsProg v0 o) : IsProg v o := by
  obtain ⟨c, i, m, ho⟩ := ho; exact ⟨c, i, m, h.get ho⟩

theorem Frame.link {v0 v : K} (h : Frame v0 v) {o : Nat} (ho : IsLink v0 o) : IsLink v o := by
  obtain ⟨pt, p, d, ho⟩ := ho; exact ⟨pt, p, d, h.get ho⟩

theorem Frame.link_get {v0 v : K} (h : Frame v0 v) {o : Nat} {pt : Point} {p : Nat} {d : Bool} (hl : IsLink v0 o) :
    v.objs[o]? = some (.link pt p d) ↔ v0.objs[o]? = some (.link pt p d) := by
  constructor
  · intro ho
    obtain ⟨pt', p', d', ho'⟩ := hl
    have := h.get ho'
    rw [this] at ho
    cases ho
    exact ho'
  · exact h.get

theorem Frame.trans {a b c : K} (h : Frame a b) (h' : Frame b c) : Frame a c := by
  obtain ⟨n1, e1⟩ := h.objs
  obtain ⟨n2, e2⟩ := h'.objs
  obtain ⟨g1, f1⟩ := h.hist
  obtain ⟨g2, f2⟩ := h'.hist
  refine ⟨⟨n1 ++ n2, by rw [e2, e1, List.append_assoc]⟩, h'.dirs.trans h.dirs, ?_, ⟨g2 ++ g1, by rw [f2, f1, List.append_assoc]⟩⟩
  intro o ho
  rw [h'.fds o (h.link ho), h.fds o ho]

theorem Frame.log (v : K) (c : Call) (a : Ans) : Frame v (v.log c a) :=
  ⟨⟨[], by simp⟩, rfl, fun _ _ => rfl, ⟨[(c, a)], rfl⟩⟩

theorem Frame.new (v : K) {o : Obj} : Frame v (v.new o) := by
  refine ⟨⟨[o], rfl⟩, rfl, ?_, ⟨[], rfl⟩⟩
  intro l hl
  have : v.objs.length ≠ l := by
    rintro rfl
    obtain ⟨pt, p, d, hl⟩ := hl
    simp at hl
  simp [List.count_cons, this]

theorem Frame.close {v : K} {o : Nat} (ho : ¬ IsLink v o) : Frame v { v with fds := v.fds.erase o } := by
  refine ⟨⟨[], by simp⟩, rfl, ?_, ⟨[], rfl⟩⟩
  intro l hl
  have : l ≠ o := by rintro rfl; exact ho hl
  simp [List.count_erase_of_ne this]

theorem Frame.held {v0 v : K} (h : Frame v0 v) {o : Nat} (ho : IsLink v0 o) : o ∈ v.fds ↔ o ∈ v0.fds := by
  rw [← List.count_pos_iff, ← List.count_pos_iff, h.fds o ho]

/-- Links held in `v` were there, and held, in `v0`. -/
def NoNew (v0 v : K) : Prop := ∀ o, IsLink v o → v.held o → IsLink v0 o ∧ v0.held o

theorem NoNew.trans {a b c : K} (h : NoNew a b) (h' : NoNew b c) : NoNew a c := fun o ho hh =>
  let ⟨h1, h2⟩ := h' o ho hh
  h o h1 h2

theorem Frame.runs_of {v0 v : K} (h : Frame v0 v) (hn : NoNew v0 v) {pt : Point} {p : Nat} (hr : v.runs pt p) : v0.runs pt p := by
  obtain ⟨l, h1, h2⟩ := hr
  obtain ⟨h3, h4⟩ := hn l ⟨_, _, _, h1⟩ h2
  exact ⟨l, (h.link_get h3).mp h1, h4⟩

/-! ## Inversion of steps -/

/-- Calls that change nothing. -/
def Call.quiet (v : K) : Call → Prop
  | .alloc | .lockInit | .openCgroup _ | .readdir | .acquire _ | .mapRead _ | .ctrRead _ _ | .ctrWrite _ _ _ => True
  | .mapWrite m _ => ∀ b, v.objs[m]? ≠ some (.map (.bytes b))
  | .mapFill m _ => ∀ d l, v.objs[m]? ≠ some (.map (.keyed d l))
  | _ => False

theorem AStep.quiet {v v' : K} {c : Call} {a : Ans} (h : AStep v c a v') (hq : c.quiet v) : v' = v.log c a := by
  cases h with
  | fail => rfl
  | ctrRead => rfl
  | ctrWrite => rfl
  | mapCreate => cases hq
  | ok h1 h2 h3 h =>
    cases c <;> simp only [Call.quiet] at hq <;> simp only [K.ok] at h
    case alloc => cases h; rfl
    case lockInit => cases h; rfl
    case openCgroup => cases h; rfl
    case readdir => cases h; rfl
    case acquire => split at h <;> cases h; rfl
    case mapRead => split at h <;> cases h; rfl
    case ctrRead => exact absurd rfl (h2 _ _)
    case ctrWrite => exact absurd rfl (h3 _ _ _)
    case mapWrite m b =>
      split at h
      · next e => exact absurd e (hq _)
      · cases h; rfl
      · cases h
    case mapFill m l =>
      split at h
      · next e => exact absurd e (hq _ _)
      · cases h; rfl
      · cases h

theorem AStep.close {v v' : K} {o : Nat} {a : Ans} (h : AStep v (.close o) a v') :
    v' = ({ v with fds := v.fds.erase o } : K).log (.close o) a := by
  cases h with
  | fail h => cases h
  | ok _ _ _ h => cases h; rfl

theorem AStep.map {v v' : K} {d : MapD} {a : Ans} (h : AStep v (.mapCreate d) a v') :
    (∃ e, a = .fail e ∧ v' = v.log (.mapCreate d) a) ∨
    (a = .id v.objs.length ∧ v' = (v.new (newMap d)).log (.mapCreate d) a) := by
  cases h with
  | fail => exact .inl ⟨_, rfl, rfl⟩
  | mapCreate => exact .inr ⟨rfl, rfl⟩
  | ok h => exact absurd rfl (h _)

theorem AStep.prog {v v' : K} {c : Chain} {i : List Insn} {m : Nat} {a : Ans} (h : AStep v (.progLoad c i m) a v') :
    (∃ e, a = .fail e ∧ v' = v.log (.progLoad c i m) a) ∨
    (a = .id v.objs.length ∧ v' = (v.new (.prog c i m)).log (.progLoad c i m) a) := by
  cases h with
  | fail => exact .inl ⟨_, rfl, rfl⟩
  | ok _ _ _ h => cases h; exact .inr ⟨rfl, rfl⟩

theorem AStep.pin {v v' : K} {d n : String} {o : Nat} {a : Ans} (h : AStep v (.pin d n o) a v') :
    (∃ e, a = .fail e ∧ v' = v.log (.pin d n o) a) ∨
    (a = .done ∧ v.pinned d n = none ∧ v' = ({ v with pins := ((d, n), o) :: v.pins } : K).log (.pin d n o) a) := by
  cases h with
  | fail => exact .inl ⟨_, rfl, rfl⟩
  | ok _ _ _ h =>
    simp only [K.ok] at h
    split at h
    · cases h
    · next e =>
      split at h
      · cases h; exact .inr ⟨rfl, e, rfl⟩
      · cases h

theorem AStep.get {v v' : K} {d n : String} {a : Ans} (h : AStep v (.get d n) a v') :
    (∃ e, a = .fail e ∧ (e = .ENOENT → v.pinned d n = none) ∧ v' = v.log (.get d n) a) ∨
    (∃ o, a = .id o ∧ v.pinned d n = some o ∧ v' = ({ v with fds := o :: v.fds } : K).log (.get d n) a) := by
  cases h with
  | fail h => exact .inl ⟨_, rfl, h, rfl⟩
  | ok _ _ _ h =>
    simp only [K.ok] at h
    split at h
    · next e => cases h; exact .inr ⟨_, rfl, e, rfl⟩
    · cases h

theorem AStep.unlink {v v' : K} {d n : String} {a : Ans} (h : AStep v (.unlink d n) a v') :
    (∃ e, a = .fail e ∧ v' = v.log (.unlink d n) a) ∨
    (a = .done ∧ v' = ({ v with pins := v.pins.filter fun p => p.1 ≠ (d, n) } : K).log (.unlink d n) a) := by
  cases h with
  | fail h => exact .inl ⟨_, rfl, rfl⟩
  | ok _ _ _ h =>
    simp only [K.ok] at h
    split at h
    · next e => cases h; exact .inr ⟨rfl, rfl⟩
    · cases h

theorem AStep.rename {v v' : K} {d n n' : String} {a : Ans} (h : AStep v (.rename d n n') a v') :
    (∃ e, a = .fail e ∧ v' = v.log (.rename d n n') a) ∨
    (a = .done ∧ ∃ o, v.pinned d n = some o ∧
      v' = ({ v with pins := ((d, n'), o) :: (v.pins.filter fun p => p.1 ≠ (d, n) ∧ p.1 ≠ (d, n')) } : K).log (.rename d n n') a) := by
  cases h with
  | fail h => exact .inl ⟨_, rfl, rfl⟩
  | ok _ _ _ h =>
    simp only [K.ok] at h
    split at h
    · next e => cases h; exact .inr ⟨rfl, _, e, rfl⟩
    · cases h

theorem AStep.linkCreate {v v' : K} {p : Nat} {pt : Point} {a : Ans} (h : AStep v (.linkCreate p pt) a v') :
    (∃ e, a = .fail e ∧ v' = v.log (.linkCreate p pt) a) ∨
    (a = .id v.objs.length ∧ v' = (v.new (.link pt p false)).log (.linkCreate p pt) a) := by
  cases h with
  | fail h => exact .inl ⟨_, rfl, rfl⟩
  | ok _ _ _ h =>
    simp only [K.ok] at h
    split at h
    · next e => cases h; exact .inr ⟨rfl, rfl⟩
    · cases h

theorem AStep.linkUpdate {v v' : K} {l p : Nat} {a : Ans} (h : AStep v (.linkUpdate l p) a v') :
    (∃ e, a = .fail e ∧ v' = v.log (.linkUpdate l p) a) ∨
    (a = .done ∧ ∃ pt q, v.objs[l]? = some (.link pt q false) ∧ v' = (v.put l (.link pt p false)).log (.linkUpdate l p) a) := by
  cases h with
  | fail h => exact .inl ⟨_, rfl, rfl⟩
  | ok _ _ _ h =>
    simp only [K.ok] at h
    split at h
    · next e _ => cases h; exact .inr ⟨rfl, _, _, e, rfl⟩
    · cases h

theorem AStep.linkDetach {v v' : K} {l : Nat} {a : Ans} (h : AStep v (.linkDetach l) a v') :
    (∃ e, a = .fail e ∧ v' = v.log (.linkDetach l) a) ∨
    (a = .done ∧ ∃ pt q d, v.objs[l]? = some (.link pt q d) ∧ v' = (v.put l (.link pt q true)).log (.linkDetach l) a) := by
  cases h with
  | fail h => exact .inl ⟨_, rfl, rfl⟩
  | ok _ _ _ h =>
    simp only [K.ok] at h
    split at h
    · next e => cases h; exact .inr ⟨rfl, _, _, _, e, rfl⟩
    · cases h

theorem AStep.create {v v' : K} {d : String} {a : Ans} (h : AStep v (.create d) a v') :
    (∃ e, a = .fail e ∧ v' = v.log (.create d) a) ∨
    (a = .done ∧ d ∉ v.dirs ∧ v' = ({ v with dirs := d :: v.dirs } : K).log (.create d) a) := by
  cases h with
  | fail h => exact .inl ⟨_, rfl, rfl⟩
  | ok _ _ _ h =>
    simp only [K.ok] at h
    split at h
    · cases h
    · next e => cases h; exact .inr ⟨rfl, e, rfl⟩

theorem AStep.release {v v' : K} {d : String} {b : Bool} {a : Ans} (h : AStep v (.release d b) a v') :
    v' = v.log (.release d b) a ∨
    ((∀ p ∈ v.pins, p.1.1 ≠ d) ∧ v' = ({ v with dirs := v.dirs.filter (· ≠ d) } : K).log (.release d b) a) := by
  cases h with
  | fail h => exact .inl rfl
  | ok _ _ _ h =>
    simp only [K.ok] at h
    split at h
    · next e => cases h; exact .inr ⟨e.2, rfl⟩
    · cases h; exact .inl rfl

/-- Descriptors and pins are of objects that exist. -/
structure K.Wf (w : K) : Prop where
  fds : ∀ o ∈ w.fds, o < w.objs.length
  pins : ∀ p ∈ w.pins, p.2 < w.objs.length

theorem lookup_mem {α β : Type} [BEq α] [LawfulBEq α] {l : List (α × β)} {k : α} {b : β} (h : l.lookup k = some b) : (k, b) ∈ l := by
  induction l with
  | nil => cases h
  | cons p l ih =>
    obtain ⟨a, c⟩ := p
    rw [List.lookup_cons] at h
    split at h
    · next e => cases h; rw [eq_of_beq e]; simp
    · exact List.mem_cons_of_mem _ (ih h)

theorem K.Wf.held {w : K} (h : w.Wf) {o : Nat} (ho : w.held o) : o < w.objs.length := by
  rcases ho with ho | ⟨d, n, ho⟩
  · exact h.fds o ho
  · exact h.pins _ (lookup_mem ho)

theorem AStep.wf {v v' : K} {c : Call} {a : Ans} (h : AStep v c a v') (hw : v.Wf) : v'.Wf := by
  have lg : ∀ {v : K} {c : Call} {a : Ans}, v.Wf → (v.log c a).Wf := fun h => ⟨h.fds, h.pins⟩
  have nw : ∀ {v : K} {o : Obj}, v.Wf → (v.new o).Wf := by
    intro v o h
    refine ⟨fun x hx => ?_, fun x hx => ?_⟩
    · simp only [K.new_fds, List.mem_cons] at hx
      simp only [K.new_objs, List.length_append, List.length_singleton]
      rcases hx with rfl | hx
      · omega
      · have := h.fds x hx; omega
    · have := h.pins x hx
      simp only [K.new_objs, List.length_append, List.length_singleton]
      omega
  have pt : ∀ {v : K} {i : Nat} {o : Obj}, v.Wf → (v.put i o).Wf := fun h =>
    ⟨fun x hx => by simpa using h.fds x hx, fun x hx => by simpa using h.pins x hx⟩
  cases h with
  | fail => exact lg hw
  | ctrRead => exact lg hw
  | ctrWrite => exact lg hw
  | mapCreate => exact lg (nw hw)
  | ok h1 h2 h3 h =>
    refine lg ?_
    cases c <;> simp only [K.ok] at h
    case alloc => cases h; exact hw
    case lockInit => cases h; exact hw
    case openCgroup => cases h; exact hw
    case readdir => cases h; exact hw
    case rmTree => cases h; exact ⟨hw.fds, fun x hx => hw.pins x ((List.mem_filter.mp hx).1)⟩
    case acquire => split at h <;> cases h; exact hw
    case create => split at h <;> cases h; exact ⟨hw.fds, hw.pins⟩
    case release =>
      split at h
      · cases h; exact ⟨hw.fds, hw.pins⟩
      · cases h; exact hw
    case mapCreate => exact absurd rfl (h1 _)
    case mapRead => split at h <;> cases h; exact hw
    case ctrRead => exact absurd rfl (h2 _ _)
    case ctrWrite => exact absurd rfl (h3 _ _ _)
    case mapWrite =>
      split at h
      · cases h; exact pt hw
      · cases h; exact hw
      · cases h
    case mapFill =>
      split at h
      · cases h; exact pt hw
      · cases h; exact hw
      · cases h
    case progLoad => cases h; exact nw hw
    case pin =>
      split at h
      · cases h
      · split at h
        · next e =>
          cases h
          refine ⟨hw.fds, fun x hx => ?_⟩
          rcases List.mem_cons.mp hx with rfl | hx
          · exact e.1
          · exact hw.pins x hx
        · cases h
    case get =>
      split at h
      · next o e =>
        cases h
        refine ⟨fun x hx => ?_, hw.pins⟩
        rcases List.mem_cons.mp hx with rfl | hx
        · exact hw.pins _ (lookup_mem e)
        · exact hw.fds x hx
      · cases h
    case unlink =>
      split at h
      · cases h; exact ⟨hw.fds, fun x hx => hw.pins x ((List.mem_filter.mp hx).1)⟩
      · cases h
    case rename =>
      split at h
      · next o e =>
        cases h
        refine ⟨hw.fds, fun x hx => ?_⟩
        rcases List.mem_cons.mp hx with rfl | hx
        · have := hw.pins _ (lookup_mem (show v.pins.lookup _ = some o from e)); exact this
        · exact hw.pins x ((List.mem_filter.mp hx).1)
      · cases h
    case linkCreate =>
      split at h
      · cases h; exact nw hw
      · cases h
    case linkUpdate =>
      split at h
      · cases h; exact pt hw
      · cases h
    case linkDetach =>
      split at h
      · cases h; exact pt hw
      · cases h
    case close => cases h; exact ⟨fun x hx => hw.fds x (List.mem_of_mem_erase hx), hw.pins⟩

/-- Use that descriptors and pins are of objects that exist. -/
theorem Safe.useWf {α : Type} {I : K → Prop} {Q : α → K → Prop} {p : P α} {v : K} (hw : v.Wf)
    (h : Safe I (fun a v' => v'.Wf → Q a v') p v) : Safe I Q p v := by
  induction p generalizing v with
  | ret a => exact ⟨h.1, h.2 hw⟩
  | call c k ih => exact ⟨h.1, fun a v' hs => ih a (hs.wf hw) (h.2 a v' hs)⟩

/-! ## Rules -/

variable {α β : Type} {I : K → Prop} {Q : α → K → Prop} {v v0 : K}

theorem safe_pure {a : α} (hI : I v) (h : Q a v) : Safe I Q (pure a) v := ⟨hI, h⟩

theorem safe_try {c : Call} {f : Res Unit → P α} (hI : I v)
    (he : ∀ e v', AStep v c (.fail e) v' → Safe I Q (f (.err e)) v')
    (hk : ∀ a v', AStep v c a v' → (∀ e, a ≠ .fail e) → Safe I Q (f (.ok ())) v') : Safe I Q (try_ c >>= f) v := by
  refine ⟨hI, fun a v' hs => ?_⟩
  cases a with
  | fail e => exact he e v' hs
  | done => exact hk _ v' hs (by simp)
  | id => exact hk _ v' hs (by simp)
  | bytes => exact hk _ v' hs (by simp)
  | ctrs => exact hk _ v' hs (by simp)
  | names => exact hk _ v' hs (by simp)

theorem safe_try' {c : Call} {Q : Res Unit → K → Prop} (hI : I v)
    (he : ∀ e v', AStep v c (.fail e) v' → I v' ∧ Q (.err e) v')
    (hk : ∀ a v', AStep v c a v' → (∀ e, a ≠ .fail e) → I v' ∧ Q (.ok ()) v') : Safe I Q (try_ c) v := by
  refine ⟨hI, fun a v' hs => ?_⟩
  cases a with
  | fail e => exact he e v' hs
  | done => exact hk _ v' hs (by simp)
  | id => exact hk _ v' hs (by simp)
  | bytes => exact hk _ v' hs (by simp)
  | ctrs => exact hk _ v' hs (by simp)
  | names => exact hk _ v' hs (by simp)

theorem safe_void {c : Call} {f : Unit → P α} (hI : I v) (h : ∀ a v', AStep v c a v' → Safe I Q (f ()) v') :
    Safe I Q (void c >>= f) v := ⟨hI, h⟩

/-- A call that changes nothing. -/
theorem safe_quiet {c : Call} {f : Res Unit → P α} (hq : c.quiet v) (hI : I v)
    (he : ∀ e a, Safe I Q (f (.err e)) (v.log c a)) (hk : ∀ a, Safe I Q (f (.ok ())) (v.log c a)) : Safe I Q (try_ c >>= f) v :=
  safe_try hI (fun e v' hs => by rw [hs.quiet hq]; exact he e _) fun a v' hs _ => by rw [hs.quiet hq]; exact hk a

theorem safe_mapCreate {d : MapD} {f : Res Nat → P α} (hI : I v)
    (he : ∀ e a, Safe I Q (f (.err e)) (v.log (.mapCreate d) a))
    (hk : ∀ a, Safe I Q (f (.ok v.objs.length)) ((v.new (newMap d)).log (.mapCreate d) a)) : Safe I Q (tryId (.mapCreate d) >>= f) v := by
  refine ⟨hI, fun a v' hs => ?_⟩
  rcases hs.map with ⟨e, rfl, rfl⟩ | ⟨rfl, rfl⟩
  · exact he e _
  · exact hk _

theorem safe_progLoad {c : Chain} {i : List Insn} {m : Nat} {f : Res Nat → P α} (hI : I v)
    (he : ∀ e a, Safe I Q (f (.err e)) (v.log (.progLoad c i m) a))
    (hk : ∀ a, Safe I Q (f (.ok v.objs.length)) ((v.new (.prog c i m)).log (.progLoad c i m) a)) :
    Safe I Q (tryId (.progLoad c i m) >>= f) v := by
  refine ⟨hI, fun a v' hs => ?_⟩
  rcases hs.prog with ⟨e, rfl, rfl⟩ | ⟨rfl, rfl⟩
  · exact he e _
  · exact hk _

/-- `Frame`, the same pins, and no new link. -/
structure Keep (v0 v : K) : Prop extends Frame v0 v where
  pins : v.pins = v0.pins
  noNew : NoNew v0 v

theorem Keep.refl (v : K) : Keep v v := ⟨Frame.refl v, rfl, fun _ h h' => ⟨h, h'⟩⟩

theorem Keep.trans {a b c : K} (h : Keep a b) (h' : Keep b c) : Keep a c :=
  ⟨h.toFrame.trans h'.toFrame, h'.pins.trans h.pins, h.noNew.trans h'.noNew⟩

theorem Keep.log {v0 v : K} (h : Keep v0 v) (c : Call) (a : Ans) : Keep v0 (v.log c a) :=
  h.trans ⟨Frame.log v c a, rfl, fun _ h h' => ⟨h, h'⟩⟩

theorem Keep.new {v0 v : K} (h : Keep v0 v) {o : Obj} (ho : o.isLink = false) : Keep v0 (v.new o) := by
  refine h.trans ⟨Frame.new v, rfl, ?_⟩
  rintro l ⟨pt, p, d, hl⟩ hh
  rw [K.new_objs] at hl
  have hlt : l < v.objs.length := by
    by_cases hlt : l < v.objs.length
    · exact hlt
    · rw [List.getElem?_append_right (by omega)] at hl
      have := List.mem_of_getElem? hl
      rw [List.mem_singleton] at this
      rw [← this] at ho
      cases ho
  rw [List.getElem?_append_left hlt] at hl
  refine ⟨⟨_, _, _, hl⟩, ?_⟩
  rcases hh with hh | hh
  · rw [K.new_fds] at hh
    rcases List.mem_cons.mp hh with e | e
    · omega
    · exact .inl e
  · exact .inr hh

theorem Keep.close {v0 v : K} (h : Keep v0 v) {o : Nat} (ho : ¬ IsLink v o) : Keep v0 { v with fds := v.fds.erase o } := by
  refine h.trans ⟨Frame.close ho, rfl, fun l hl hh => ⟨hl, ?_⟩⟩
  exact hh.imp List.mem_of_mem_erase id

theorem Keep.runs {v0 v : K} (h : Keep v0 v) {pt : Point} {p : Nat} : v.runs pt p ↔ v0.runs pt p := by
  refine ⟨h.toFrame.runs_of h.noNew, ?_⟩
  rintro ⟨l, h1, h2⟩
  refine ⟨l, h.toFrame.get h1, h2.imp (h.toFrame.held ⟨_, _, _, h1⟩).mpr ?_⟩
  rintro ⟨d, n, hh⟩
  exact ⟨d, n, by unfold K.pinned at hh ⊢; rw [h.pins]; exact hh⟩

/-- Closing things that are not links. -/
theorem closeAll_safe {Q : Unit → K → Prop} {os : List Nat} (ho : ∀ o ∈ os, ¬ IsLink v o)
    (hI : ∀ v', Keep v v' → v'.objs = v.objs → I v')
    (hQ : ∀ v', Keep v v' → v'.objs = v.objs → Q () v') : Safe I Q (closeAll os) v := by
  induction os generalizing v with
  | nil => exact ⟨hI v (.refl v) rfl, hQ v (.refl v) rfl⟩
  | cons o os ih =>
    refine ⟨hI v (.refl v) rfl, fun a v' hs => ?_⟩
    rw [hs.close]
    have hf' : Keep v (({ v with fds := v.fds.erase o } : K).log (.close o) a) := ((Keep.refl v).close (ho o (by simp))).log _ _
    exact ih (v := ({ v with fds := v.fds.erase o } : K).log (.close o) a) (fun o' ho' => ho o' (by simp [ho']))
      (fun v' h e => hI v' (hf'.trans h) e) (fun v' h e => hQ v' (hf'.trans h) e)

end Bf.Pin
