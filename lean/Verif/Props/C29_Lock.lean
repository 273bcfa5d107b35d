import Verif.Sys.Lock
/-!
# C29, C30 — locks exclude each other, and a locked chain is the live one
-/
namespace Bf.Sys

/-- What holds of one lock object, given the file system. -/
def Local (f : FS) : Pc → Prop
  | .idle => True
  | .initOpen m => m ≠ .none
  | .ready pm | .opening pm .. | .opened pm .. | .flocked pm .. | .retry pm .. | .failing pm .. | .closing pm .. => pm ≠ .none
  | .staging pm .. => pm = .write
  | .staged pm _ _ => pm = .write
  | .stOpen pm _ s i => pm = .write ∧ f.ents s = some i
  | .stLocked pm _ s i => pm = .write ∧ f.ents s = some i
  | .stFailing pm _ _ _ => pm = .write
  | .holding pm name mode i => pm ≠ .none ∧ (mode ≠ .none → f.ents name = some i)
  | .removing pm name mode i => pm ≠ .none ∧ mode = .write ∧ f.ents name = some i
  | .sweepAt pm _ | .sweepOpen pm _ _ | .sweepLocked pm _ _ => pm = .write

structure Inv (S : State) : Prop where
  pin : ∀ p q, p ≠ q → (S.procs p).pin.compat (S.procs q).pin = true
  chain : ∀ p q i, p ≠ q → ((S.procs p).on i).compat ((S.procs q).on i) = true
  loc : ∀ p, Local S.fs (S.procs p)

theorem compat_symm {a b : Mode} : a.compat b = b.compat a := by cases a <;> cases b <;> rfl
theorem compat_none (a : Mode) : a.compat .none = true := by cases a <;> rfl
theorem none_compat (a : Mode) : Mode.none.compat a = true := by cases a <;> rfl
theorem compat_write {a : Mode} (h : a.compat .write = true) : a = .none := by cases a <;> first | rfl | cases h

/-- Locks: a move keeps the locks of a lock object, drops some, or takes one that is compatible with those of the others. -/
theorem Move.locks {others : Pc → Prop} {f f' : FS} {pc pc' : Pc} (h : Move others f pc f' pc') :
    (pc'.pin = pc.pin ∨ ∀ q, others q → pc'.pin.compat q.pin = true) ∧
    ∀ i, pc'.on i = pc.on i ∨ ∀ q, others q → (pc'.on i).compat (q.on i) = true := by
  have no : ∀ (q : Pc → Mode), ∀ x, others x → Mode.none.compat (q x) = true := fun q x _ => none_compat _
  cases h with
  | initLock h => exact ⟨Or.inr h, fun i => Or.inl rfl⟩
  | flock h =>
    refine ⟨Or.inl rfl, fun i => Or.inr fun q hq => ?_⟩
    simp only [Pc.on]
    split
    · next e => subst e; exact h q hq
    · exact none_compat _
  | stFlock h =>
    refine ⟨Or.inl rfl, fun i => Or.inr fun q hq => ?_⟩
    simp only [Pc.on]
    split
    · next e => subst e; exact h q hq
    · exact none_compat _
  | sweepLock h =>
    refine ⟨Or.inl rfl, fun i => Or.inr fun q hq => ?_⟩
    simp only [Pc.on]
    split
    · next e => subst e; exact h q hq
    · exact none_compat _
  | crash => exact ⟨Or.inr fun q _ => none_compat _, fun i => Or.inr fun q _ => none_compat _⟩
  | cleanup => exact ⟨Or.inr fun q _ => none_compat _, fun i => Or.inl rfl⟩
  | release =>
    refine ⟨?_, fun i => ?_⟩
    · left; split <;> rfl
    · left; split <;> rfl
  | stRemove h1 h2 =>
    rename_i pm s mode i j
    cases i with
    | none => exact ⟨Or.inl rfl, fun i => Or.inl rfl⟩
    | some i => exact ⟨Or.inl rfl, fun i => Or.inl rfl⟩
  | stRemoveFail =>
    rename_i pm s mode i
    cases i with
    | none => exact ⟨Or.inl rfl, fun i => Or.inl rfl⟩
    | some i => exact ⟨Or.inl rfl, fun i => Or.inl rfl⟩
  | flockFail => exact ⟨Or.inl rfl, fun i => Or.inr fun q _ => by simp only [Pc.on]; split <;> exact none_compat _⟩
  | sweepLockFail => exact ⟨Or.inl rfl, fun i => Or.inr fun q _ => by simp only [Pc.on]; split <;> exact none_compat _⟩
  | stFlockFail => exact ⟨Or.inl rfl, fun i => Or.inr fun q _ => by simp only [Pc.on]; split <;> exact none_compat _⟩
  | again => exact ⟨Or.inl rfl, fun i => Or.inr fun q _ => none_compat _⟩
  | failed => exact ⟨Or.inl rfl, fun i => Or.inr fun q _ => none_compat _⟩
  | close => exact ⟨Or.inl rfl, fun i => Or.inr fun q _ => none_compat _⟩
  | _ => exact ⟨Or.inl rfl, fun i => Or.inl rfl⟩

/-- The lock object that moves. -/
theorem Move.own {others : Pc → Prop} {f f' : FS} {pc pc' : Pc} (h : Move others f pc f' pc') (hl : Local f pc) : Local f' pc' := by
  cases h with
  | init h => exact h
  | initLock h => exact hl
  | create h1 h2 => exact h2
  | live h => exact ⟨hl, fun _ => h⟩
  | release =>
    obtain ⟨h1, h2⟩ := hl
    split
    · next e => exact ⟨h1, e, h2 (by rw [e]; intro h; cases h)⟩
    · exact h1
  | stOpn h => exact ⟨hl, h⟩
  | stFlock h => exact hl
  | stFlockFail => exact hl.1
  | publishFail => exact hl.1
  | publish h1 h2 =>
    rename_i pm name s i j
    obtain ⟨e1, e2⟩ := hl
    rw [e2] at h1
    cases h1
    refine ⟨(by rw [e1]; intro h; cases h), fun _ => ?_⟩
    simp [FS.link]
  | stRemove h1 h2 =>
    rename_i pm s mode i j
    have e : pm = .write := hl
    subst e
    cases i with
    | none => intro h; cases h
    | some i => intro h; cases h
  | stRemoveFail =>
    rename_i pm s mode i
    have e : pm = .write := hl
    subst e
    cases i with
    | none => intro h; cases h
    | some i => intro h; cases h
  | content => exact hl
  | remove h1 h2 => exact hl.1
  | removeFail => exact hl.1
  | sweep => rfl
  | crash => exact trivial
  | cleanup => exact trivial
  | initFail => exact trivial
  | mkdirFail => have e : _ = Mode.write := hl; subst e; intro h; cases h
  | sweepOpnFail => have e : _ = Mode.write := hl; subst e; intro h; cases h
  | sweepLockFail => have e : _ = Mode.write := hl; subst e; intro h; cases h
  | sweepRemove h => have e : _ = Mode.write := hl; subst e; intro h; cases h
  | sweepFail => have e : _ = Mode.write := hl; subst e; intro h; cases h
  | _ => exact hl

/-- What can change in the directory: nothing; or anything, with the pin directory locked for writing; or a chain whose
directory is locked for writing is removed. -/
theorem Move.effect {others : Pc → Prop} {f f' : FS} {pc pc' : Pc} (h : Move others f pc f' pc') (hl : Local f pc) :
    f'.ents = f.ents ∨ pc.pin = .write ∨
    ∃ name i, f.ents name = some i ∧ pc.on i = .write ∧ pc.pin ≠ .none ∧ f'.ents = fun m => if m = name then none else f.ents m := by
  cases h with
  | mkdir => exact Or.inr (Or.inl hl)
  | publish => exact Or.inr (Or.inl hl.1)
  | stRemove => exact Or.inr (Or.inl hl)
  | sweepRemove => exact Or.inr (Or.inl hl)
  | remove h1 h2 =>
    rename_i pm name mode i j
    obtain ⟨a, b, d⟩ := hl
    refine Or.inr (Or.inr ⟨name, i, d, ?_, a, rfl⟩)
    simp [Pc.on, b]
  | _ => exact Or.inl rfl

/-- A lock object that does not move. -/
theorem Move.other {others : Pc → Prop} {f f' : FS} {pc pc' q : Pc} (h : Move others f pc f' pc') (hl : Local f pc)
    (hp : pc.pin.compat q.pin = true) (hc : ∀ i, (pc.on i).compat (q.on i) = true) (hq : Local f q) : Local f' q := by
  rcases h.effect hl with he | he | ⟨name, i, h1, h2, h3, h4⟩
  · cases q <;> simp only [Local, he] at hq ⊢ <;> exact hq
  · -- the other has no lock at all
    rw [he, compat_symm] at hp
    have hn := compat_write hp
    cases q with
    | idle => exact trivial
    | initOpen m => exact hq
    | ready pm => exact absurd hn hq
    | opening pm => exact absurd hn hq
    | opened pm => exact absurd hn hq
    | flocked pm => exact absurd hn hq
    | retry pm => exact absurd hn hq
    | failing pm => exact absurd hn hq
    | closing pm => exact absurd hn hq
    | staging pm => have e : pm = _ := hq; subst e; cases hn
    | staged pm => have e : pm = _ := hq; subst e; cases hn
    | stOpen pm => have e : pm = _ := hq.1; subst e; cases hn
    | stLocked pm => have e : pm = _ := hq.1; subst e; cases hn
    | stFailing pm => have e : pm = _ := hq; subst e; cases hn
    | holding pm => exact absurd hn hq.1
    | removing pm => exact absurd hn hq.1
    | sweepAt pm => have e : pm = _ := hq; subst e; cases hn
    | sweepOpen pm => have e : pm = _ := hq; subst e; cases hn
    | sweepLocked pm => have e : pm = _ := hq; subst e; cases hn
  · have hci := hc i
    rw [h2, compat_symm] at hci
    have hqi := compat_write hci
    have stage : q.pin = .write → False := by
      intro e
      rw [e] at hp
      exact h3 (compat_write hp)
    have keep : ∀ (n : Name) (j : Ino) (m : Mode), q.on j = m → m ≠ .none → f.ents n = some j → f'.ents n = some j := by
      intro n j m e1 e2 e3
      rw [h4]
      dsimp only
      split
      · next e =>
        subst e
        rw [h1] at e3
        cases e3
        rw [e1] at hqi
        exact absurd hqi e2
      · exact e3
    cases q with
    | holding pm n m j => exact ⟨hq.1, fun hm => keep n j m (by simp [Pc.on]) hm (hq.2 hm)⟩
    | removing pm n m j => exact ⟨hq.1, hq.2.1, keep n j m (by simp [Pc.on]) (by rw [hq.2.1]; intro h; cases h) hq.2.2⟩
    | stOpen pm => exact absurd hq.1 (fun e => stage e)
    | stLocked pm => exact absurd hq.1 (fun e => stage e)
    | _ => exact hq

theorem inv_step {S S' : State} (h : Inv S) (hs : Step S S') : Inv S' := by
  obtain ⟨p, hm, hk⟩ := hs
  have hl := hm.locks
  refine ⟨?_, ?_, ?_⟩
  · intro a b hab
    by_cases ha : a = p
    · subst ha
      rw [hk b (Ne.symm hab)]
      rcases hl.1 with e | e
      · rw [e]; exact h.pin a b hab
      · exact e _ ⟨b, Ne.symm hab, rfl⟩
    · rw [hk a ha]
      by_cases hb : b = p
      · subst hb
        rw [compat_symm]
        rcases hl.1 with e | e
        · rw [e]; exact h.pin b a (Ne.symm hab)
        · exact e _ ⟨a, ha, rfl⟩
      · rw [hk b hb]; exact h.pin a b hab
  · intro a b i hab
    by_cases ha : a = p
    · subst ha
      rw [hk b (Ne.symm hab)]
      rcases hl.2 i with e | e
      · rw [e]; exact h.chain a b i hab
      · exact e _ ⟨b, Ne.symm hab, rfl⟩
    · rw [hk a ha]
      by_cases hb : b = p
      · subst hb
        rw [compat_symm]
        rcases hl.2 i with e | e
        · rw [e]; exact h.chain b a i (Ne.symm hab)
        · exact e _ ⟨a, ha, rfl⟩
      · rw [hk b hb]; exact h.chain a b i hab
  · intro q
    by_cases hq : q = p
    · subst hq; exact hm.own (h.loc q)
    · rw [hk q hq]
      exact hm.other (h.loc p) (h.pin p q (Ne.symm hq)) (fun i => h.chain p q i (Ne.symm hq)) (h.loc q)

theorem Reach.inv {S : State} (h : Reach S) : Inv S := by
  induction h with
  | start h =>
    refine ⟨?_, ?_, ?_⟩
    · intro p q _; rw [h p]; exact none_compat _
    · intro p q i _; rw [h p]; exact none_compat _
    · intro p; rw [h p]; exact trivial
  | step _ h2 ih => exact inv_step ih h2

/-! ### The properties -/

/-- Lock object `p` holds a lock of mode `m` on the pin directory. -/
def HasGlobal (S : State) (p : Nat) (m : Mode) : Prop := (S.procs p).pin = m ∧ m ≠ .none

/-- `bf_lock_acquire_chain` succeeded for lock object `p`, on chain `name`, with mode `m`, and the lock was not released
since. -/
def HasChain (S : State) (p : Nat) (name : Name) (m : Mode) : Prop :=
  m ≠ .none ∧ ∃ pm i, S.procs p = .holding pm name m i

/-- **C29.**  Two lock objects never hold conflicting locks on the pin directory. -/
theorem C29_global {S : State} (h : Reach S) {p q : Nat} {m : Mode} (hpq : p ≠ q) (hp : HasGlobal S p .write) :
    ¬ HasGlobal S q m := by
  rintro ⟨h1, h2⟩
  have := h.inv.pin q p (Ne.symm hpq)
  rw [hp.1] at this
  rw [compat_write this] at h1
  exact h2 h1.symm

/-- **C30.**  The directory a lock object has locked is the one its name designates. -/
theorem C30_live {S : State} (h : Reach S) {p : Nat} {pm m : Mode} {name : Name} {i : Ino}
    (hp : S.procs p = .holding pm name m i) (hm : m ≠ .none) : S.fs.ents name = some i := by
  have := h.inv.loc p
  rw [hp] at this
  exact this.2 hm

/-- **C29.**  Two lock objects never hold conflicting locks on the same chain. -/
theorem C29_chain {S : State} (h : Reach S) {p q : Nat} {name : Name} {m : Mode} (hpq : p ≠ q) (hp : HasChain S p name .write) :
    ¬ HasChain S q name m := by
  rintro ⟨hm, pm, i, hi⟩
  obtain ⟨_, pm', j, hj⟩ := hp
  have e1 := C30_live h hi hm
  have e2 := C30_live h hj (by intro h; cases h)
  rw [e1] at e2
  cases e2
  have := h.inv.chain q p i (Ne.symm hpq)
  rw [hi, hj] at this
  simp only [Pc.on, if_true] at this
  exact hm (compat_write this)

/-- **C29.**  A lock on a chain comes with a lock on the pin directory; so the holder of the global write lock is alone. -/
theorem C29_alone {S : State} (h : Reach S) {p q : Nat} {name : Name} {m : Mode} (hpq : p ≠ q) (hp : HasGlobal S p .write) :
    ¬ HasChain S q name m := by
  rintro ⟨hm, pm, i, hi⟩
  have hl := h.inv.loc q
  rw [hi] at hl
  exact C29_global h hpq hp ⟨by rw [hi]; rfl, hl.1⟩

/-- **C29.**  Read locks are shared: nobody but a write lock holder on the directory can make a reader's attempt fail. -/
theorem C29_shared {S : State} {p : Nat} {pm : Mode} {name : Name} {att : Nat} {i : Ino}
    (hp : S.procs p = .opened pm name .read att i) (hn : ∀ q, q ≠ p → (S.procs q).on i ≠ .write) :
    Step S { S with procs := fun q => if q = p then .flocked pm name .read att i else S.procs q } := by
  refine ⟨p, ?_, fun q hq => by simp [hq]⟩
  simp only [if_true]
  rw [hp]
  refine .flock ?_
  rintro q ⟨j, hj, rfl⟩
  have := hn j hj
  cases e : (S.procs j).on i with
  | none => rfl
  | read => rfl
  | write => exact absurd e this

/-- While a lock is held, the directory is neither removed nor replaced, by anybody. -/
theorem C30_stays {S S' : State} (h : Reach S) (hs : Step S S') {p : Nat} {pm m : Mode} {name : Name} {i : Ino}
    (hp : S.procs p = .holding pm name m i) (hp' : S'.procs p = .holding pm name m i) (hm : m ≠ .none) :
    S.fs.ents name = some i ∧ S'.fs.ents name = some i :=
  ⟨C30_live h hp hm, C30_live (.step h hs) hp' hm⟩

theorem Move.change {others : Pc → Prop} {f f' : FS} {pc pc' : Pc} (h : Move others f pc f' pc') (hl : Local f pc)
    {name : Name} {i : Ino} (hn : f.ents name = some i) :
    f'.ents name = some i ∨ (f'.ents name = none ∧ (pc.on i = .write ∨ pc.pin = .write)) := by
  cases h with
  | mkdir hx =>
    left
    dsimp only
    split
    · next e => rw [← e, hn] at hx; cases hx
    · exact hn
  | publish h1 h2 =>
    simp only [FS.link]
    split
    · next e => rw [← e, hn] at h2; cases h2
    · split
      · exact Or.inr ⟨rfl, Or.inr hl.1⟩
      · exact Or.inl hn
  | stRemove h1 h2 =>
    simp only [FS.link]
    split
    · exact Or.inr ⟨rfl, Or.inr hl⟩
    · exact Or.inl hn
  | remove h1 h2 =>
    simp only [FS.link]
    split
    · next e =>
      subst e
      refine Or.inr ⟨rfl, Or.inl ?_⟩
      have := hl.2.2
      rw [hn] at this
      cases this
      simp [Pc.on, hl.2.1]
    · exact Or.inl hn
  | sweepRemove h1 =>
    simp only [FS.link]
    split
    · exact Or.inr ⟨rfl, Or.inr hl⟩
    · exact Or.inl hn
  | _ => exact Or.inl hn

/-- **C30.**  What can happen to a chain's directory in one step: it stays, or it is removed, by a lock object that holds the
write lock on it or the global write lock; it is never replaced. -/
theorem C30_change {S S' : State} (h : Reach S) (hs : Step S S') {name : Name} {i : Ino} (hn : S.fs.ents name = some i) :
    S'.fs.ents name = some i ∨
    (S'.fs.ents name = none ∧ ∃ p, (S.procs p).on i = .write ∨ HasGlobal S p .write) := by
  obtain ⟨p, hm, _⟩ := hs
  rcases hm.change (h.inv.loc p) hn with e | ⟨e, e1 | e1⟩
  · exact Or.inl e
  · exact Or.inr ⟨e, p, Or.inl e1⟩
  · exact Or.inr ⟨e, p, Or.inr ⟨e1, by intro h; cases h⟩⟩

/-! ### Examples -/

theorem Move.mono {O O' : Pc → Prop} (hO : ∀ q, O' q → O q) {f f' : FS} {pc pc' : Pc} (h : Move O f pc f' pc') :
    Move O' f pc f' pc' := by
  cases h with
  | initLock h => exact .initLock fun q hq => h q (hO q hq)
  | flock h => exact .flock fun q hq => h q (hO q hq)
  | stFlock h => exact .stFlock fun q hq => h q (hO q hq)
  | sweepLock h => exact .sweepLock fun q hq => h q (hO q hq)
  | init h => exact .init h
  | initFail => exact .initFail
  | acquire => exact .acquire
  | create h1 h2 => exact .create h1 h2
  | opn h1 h2 => exact .opn h1 h2
  | opnFail => exact .opnFail
  | flockFail => exact .flockFail
  | live h => exact .live h
  | stale h => exact .stale h
  | statFail => exact .statFail
  | fstatFail => exact .fstatFail
  | again => exact .again
  | failed => exact .failed
  | mkdir h => exact .mkdir h
  | mkdirAgain h1 h2 => exact .mkdirAgain h1 h2
  | mkdirFail => exact .mkdirFail
  | stOpn h => exact .stOpn h
  | stOpnFail => exact .stOpnFail
  | stFlockFail => exact .stFlockFail
  | publish h1 h2 => exact .publish h1 h2
  | publishFail => exact .publishFail
  | stRemove h1 h2 => exact .stRemove h1 h2
  | stRemoveFail => exact .stRemoveFail
  | content => exact .content
  | release => exact .release
  | remove h1 h2 => exact .remove h1 h2
  | removeFail => exact .removeFail
  | close => exact .close
  | cleanup => exact .cleanup
  | sweep => exact .sweep
  | sweepOpn h => exact .sweepOpn h
  | sweepOpnFail => exact .sweepOpnFail
  | sweepLockFail => exact .sweepLockFail
  | sweepRemove h => exact .sweepRemove h
  | sweepFail => exact .sweepFail
  | crash => exact .crash

/-- Two lock objects. -/
def two (f : FS) (a b : Pc) : State := ⟨f, fun k => if k = 0 then a else if k = 1 then b else .idle⟩

def beside (b : Pc) (q : Pc) : Prop := q = b ∨ q = .idle

theorem go0 {f f' : FS} {a a' b : Pc} (h : Reach (two f a b)) (hm : Move (beside b) f a f' a') : Reach (two f' a' b) := by
  refine .step h ⟨0, hm.mono ?_, ?_⟩
  · rintro q ⟨j, hj, rfl⟩
    simp only [two, hj, if_false]
    split
    · exact Or.inl rfl
    · exact Or.inr rfl
  · intro q hq; simp [two, hq]

theorem go1 {f f' : FS} {a b b' : Pc} (h : Reach (two f a b)) (hm : Move (beside a) f b f' b') : Reach (two f' a b') := by
  refine .step h ⟨1, hm.mono ?_, ?_⟩
  · rintro q ⟨j, hj, rfl⟩
    simp only [two, hj, if_false]
    split
    · exact Or.inl rfl
    · exact Or.inr rfl
  · intro q hq; simp [two, hq]

theorem beside_ok {b : Pc} {P : Pc → Prop} (h1 : P b) (h2 : P .idle) : ∀ q, beside b q → P q := by
  rintro q (rfl | rfl) <;> assumption

/-- A pin directory with one chain. -/
def web : FS := ⟨fun n => if n = "web" then some 7 else none, fun i => i == 7, 8⟩

/-- Two readers of the same chain. -/
theorem two_readers : Reach (two web (.holding .read "web" .read 7) (.holding .read "web" .read 7)) := by
  have h : Reach (two web .idle .idle) := .start (by intro p; simp only [two]; split <;> (try split) <;> rfl)
  have h := go0 h (.init (m := .read) (by intro h; cases h))
  have h := go0 h (.initLock (beside_ok rfl rfl))
  have h := go1 h (.init (m := .read) (by intro h; cases h))
  have h := go1 h (.initLock (beside_ok rfl rfl))
  have h := go0 h (.acquire (name := "web") (mode := .read))
  have h := go0 h (.opn (i := 7) rfl (by decide))
  have h := go1 h (.acquire (name := "web") (mode := .read))
  have h := go1 h (.opn (i := 7) rfl (by decide))
  have h := go0 h (.flock (beside_ok rfl rfl))
  have h := go1 h (.flock (beside_ok rfl rfl))
  have h := go0 h (.live rfl)
  exact go1 h (.live rfl)

/-- The race the second check is for: 0 opens the directory of a chain, 1 removes it (it empties it and releases its write
lock), then 0 locks what is no longer there, notices, and tries again. -/
example : ∃ f, f.ents "web" = none ∧
    Reach (two f (.retry .read "web" .read 0 7) (.ready .read)) := by
  have h : Reach (two web .idle .idle) := .start (by intro p; simp only [two]; split <;> (try split) <;> rfl)
  have h := go0 h (.init (m := .read) (by intro h; cases h))
  have h := go0 h (.initLock (beside_ok rfl rfl))
  have h := go1 h (.init (m := .read) (by intro h; cases h))
  have h := go1 h (.initLock (beside_ok rfl rfl))
  have h := go1 h (.acquire (name := "web") (mode := .write))
  have h := go1 h (.opn (i := 7) rfl (by decide))
  have h := go1 h (.flock (beside_ok rfl rfl))
  have h := go1 h (.live rfl)
  have h := go0 h (.acquire (name := "web") (mode := .read))
  have h := go0 h (.opn (i := 7) rfl (by decide))
  have h := go1 h (.content (b := false))
  have h := go1 h .release
  have h := go1 h (.remove (j := 7) rfl rfl)
  have h := go1 h .close
  have h := go0 h (.flock (beside_ok rfl rfl))
  have h := go0 h (.stale (by intro h; cases h))
  exact ⟨_, rfl, h⟩

/-- A chain created, holding the global write lock. -/
example : ∃ f, Reach (two f (.holding .write "ssh" .write 8) .idle) ∧ HasGlobal (two f (.holding .write "ssh" .write 8) .idle) 0 .write := by
  have h : Reach (two web .idle .idle) := .start (by intro p; simp only [two]; split <;> (try split) <;> rfl)
  have h := go0 h (.init (m := .write) (by intro h; cases h))
  have h := go0 h (.initLock (beside_ok rfl rfl))
  have h := go0 h (.create (name := "ssh") rfl rfl)
  have h := go0 h (.mkdir (s := "1") (by decide))
  have h := go0 h (.stOpn (i := 8) (by decide))
  have h := go0 h (.stFlock (beside_ok rfl rfl))
  have h := go0 h (.publish (j := 8) (by decide) (by decide))
  exact ⟨_, h, rfl, by intro h; cases h⟩

/-- **The sweep destroys chains whose name starts like a staging directory** (finding 28): a chain so named, in place and not
empty, is removed by the sweep every process starts with. -/
theorem C32_fails_staging_name : ∃ (f : FS) (name : Name), (∃ s, name = stagingPrefix ++ s) ∧ f.ents name = some 7 ∧ f.full 7 = true ∧
    Reach (two f .idle .idle) ∧ ∃ f' pc, Reach (two f' pc .idle) ∧ f'.ents name = none ∧ f'.full 7 = false := by
  have h : Reach (two ⟨fun n => if n = "__bf_staging_lan" then some 7 else none, fun i => i == 7, 8⟩ .idle .idle) :=
    .start (by intro p; simp only [two]; split <;> (try split) <;> rfl)
  refine ⟨_, "__bf_staging_lan", ⟨"lan", by decide⟩, by decide, by decide, h, ?_⟩
  have h := go0 h (.init (m := .write) (by intro h; cases h))
  have h := go0 h (.initLock (beside_ok rfl rfl))
  have h := go0 h (.sweep (s := "lan"))
  have h := go0 h (.sweepOpn (i := 7) (by decide))
  have h := go0 h (.sweepLock (beside_ok rfl rfl))
  have h := go0 h (.sweepRemove (by decide))
  exact ⟨_, _, h, by decide, by decide⟩

end Bf.Sys
