import Verif.Cli.Fds
import Verif.Props.C51_Get
/-!
# C58: the descriptors given out for a chain are of what its hook runs

`bf_chain_prog_fd` and `bf_chain_logs_fd` change nothing, at any instant.  The first gives a descriptor of the program that is pinned in the directory
of the chain, was generated from it, and is what the hooks it is attached to run; the second one of the ring buffer that this program was generated
for, if the chain asks for logs, and fails with ENOENT if it does not.  They fail for no other reason than a call that failed.
-/
namespace Bf.Pin

variable {I : K → Prop} {v w w' : K} {dir : String} {T : Target} {α : Type}

/-- Since `v0` a call failed. -/
def CallFailed (v0 v : K) : Prop := ∃ c e, Since v0 v (c, .fail e)

theorem CallFailed.earlier {v0 v1 v2 : K} (h : CallFailed v1 v2) (hh : ∃ g, v1.hist = g ++ v0.hist) : CallFailed v0 v2 := by
  obtain ⟨c, e, h⟩ := h
  exact ⟨c, e, h.earlier hh⟩

theorem CallFailed.later {v0 v1 v2 : K} (h : CallFailed v0 v1) (hh : ∃ g, v2.hist = g ++ v1.hist) : CallFailed v0 v2 := by
  obtain ⟨c, e, h⟩ := h
  exact ⟨c, e, h.later hh⟩

theorem CallFailed.log {v0 v : K} (hh : ∃ g, v.hist = g ++ v0.hist) (c : Call) (e : Errno) : CallFailed v0 (v.log c (.fail e)) := by
  obtain ⟨g, eg⟩ := hh
  exact ⟨c, e, [], g, by simp [eg]⟩

theorem safe_told {β : Type} {Q : β → K → Prop} {c : Call} {f : Res Unit → P β} (hq : c.quiet v) (hI : I v)
    (he : ∀ e, Safe I Q (f (.err e)) (v.log c (.fail e))) (hk : ∀ a, Safe I Q (f (.ok ())) (v.log c a)) : Safe I Q (try_ c >>= f) v :=
  safe_try hI (fun e v' hs => by rw [hs.quiet hq]; exact he e) fun a v' hs _ => by rw [hs.quiet hq]; exact hk a

/-- What is done with a chain that is read: a descriptor of one of its objects, if it has it. -/
def giveFd (x : Option Nat) (e : Errno) (c : Cgen) : P (Cgen × Res Nat) :=
  match x with
  | none => pure (c, .err e)
  | some p => do
    match ← try_ .alloc with
    | .ok _ => pure (c, .ok p)
    | .err e => pure (c, .err e)
    | .ub => pure (c, .ub)

def fdOf (pick : Cgen → Option Nat) (e : Errno) (dir : String) : P (Res Nat) :=
  withChain dir false <| withCgen dir fun c => giveFd (pick c) e c

/-- What is answered: the descriptor `x`, or that there is none, or a failure. -/
def FdSays (x : Option Nat) (e : Errno) (v0 : K) (r : Res Nat) (v : K) : Prop :=
  (∃ y, x = some y ∧ r = .ok y) ∨ (x = none ∧ r = .err e) ∨ ((∀ y, r ≠ .ok y) ∧ CallFailed v0 v)

/-- It gives the descriptor of what the chain has, or says that the chain has none, or a call failed. -/
theorem fdOf_safe {pick : Cgen → Option Nat} {e : Errno} {c : Chain} {h : Handle} {x0 : Option Nat} (hx : pick ⟨c, h⟩ = x0) (hs : Stored v dir c h) :
    Safe (fun v' => ∃ ids, Open dir ids v v')
      (fun r v' => FdSays x0 e v r v') (fdOf pick e dir) v := by
  have hI : ∀ v' ids, Open dir ids v v' → ∃ ids, Open dir ids v v' := fun _ ids h => ⟨ids, h⟩
  have o0 : Open dir [] v v := Open.refl v
  -- give the lock back
  have rel : ∀ (r : Res Nat) v', Open dir [] v v' → FdSays x0 e v r v' →
      Safe (fun v' => ∃ ids, Open dir ids v v')
        (fun r v' => FdSays x0 e v r v')
        (do void (.release dir false); pure r) v' := by
    intro r v' ho hq
    refine safe_void (hI _ _ ho) fun a v3 hs3 => ?_
    obtain ⟨x, b, c1, _⟩ := (ho.stored hs).ctx
    rw [hs3.release_some c1]
    exact ⟨hI _ _ (ho.log _ _), hq.imp id (Or.imp id fun ⟨a, b⟩ => ⟨a, b.later ⟨[_], rfl⟩⟩)⟩
  unfold fdOf withChain
  refine safe_told trivial (hI v _ o0) (fun e => ⟨hI _ _ (o0.log _ _), .inr (.inr ⟨by simp, .log o0.hist _ _⟩)⟩) fun a => ?_
  have o1 := o0.log .lockInit a
  refine safe_told trivial (hI _ _ o1) (fun e => ⟨hI _ _ (o1.log _ _), .inr (.inr ⟨by simp, .log o1.hist _ _⟩)⟩) fun b => ?_
  have o2 := o1.log (.acquire dir) b
  generalize (v.log .lockInit a).log (.acquire dir) b = v2 at *
  refine Safe.bind ?_
  unfold withCgen
  have hs2 := o2.stored hs
  refine Safe.bind (newFromDir_safe hs2 (fun v' ids ho => hI v' ids (o2.trans0 ho)) (fun r v' hr _ hb ho => ?_) fun v3 ho3 => ?_)
  · have ho' := o2.trans0 ho
    have hf : CallFailed v v' := by
      obtain ⟨c, e, _, _, h⟩ := hb
      exact CallFailed.earlier ⟨c, e, h⟩ o2.hist
    cases r with
    | ok x => exact absurd rfl (hr x)
    | err e => exact ⟨hI _ _ ho', rel _ v' ho' (.inr (.inr ⟨by simp, hf⟩))⟩
    | ub => exact ⟨hI _ _ ho', rel _ v' ho' (.inr (.inr ⟨by simp, hf⟩))⟩
  · have ho3' := o2.trans0 ho3
    have tail : ∀ (r : Res Nat) v', Open dir h.ids v v' → FdSays x0 e v r v' →
        Safe (fun v' => ∃ ids, Open dir ids v v') (fun r v'' => Safe (fun v' => ∃ ids, Open dir ids v v')
          (fun r v' => FdSays x0 e v r v')
          (do void (.release dir false); pure r) v'') (do cgenFree ⟨c, h⟩; pure r) v' := by
      intro r v' ho hq
      refine Safe.bind (closeAll_open (ids := []) (by rw [List.append_nil]; exact ho) hI fun v2 ho2 hh2 => ?_)
      exact ⟨hI _ _ ho2, rel r v2 ho2 (hq.imp id (Or.imp id fun ⟨a, b⟩ => ⟨a, b.later hh2⟩))⟩
    refine Safe.bind ?_
    show Safe _ _ (giveFd (pick ⟨c, h⟩) e ⟨c, h⟩) v3
    rw [hx]
    unfold giveFd
    cases x0 with
    | none => exact ⟨hI _ _ ho3', tail (.err e) v3 ho3' (.inr (.inl ⟨rfl, rfl⟩))⟩
    | some x =>
      refine safe_told trivial (hI _ _ ho3') (fun e' => ⟨hI _ _ (ho3'.log _ _), tail (.err e') _ (ho3'.log _ _) (.inr (.inr ⟨by simp, .log ho3'.hist _ _⟩))⟩) fun a => ?_
      exact ⟨hI _ _ (ho3'.log _ _), tail (.ok x) _ (ho3'.log _ _) (.inl ⟨x, rfl, rfl⟩)⟩

theorem CallFailed.erase : CallFailed w.erase w'.erase ↔ CallFailed w w' := Iff.rfl

theorem fdOf_run {pick : Cgen → Option Nat} {e : Errno} {c : Chain} {h : Handle} (hg : Good T w dir c h) {p' : P (Res Nat)}
    (hr : Run w (fdOf pick e dir) w' p') :
    Good T w' dir c h ∧ w'.pins = w.pins ∧ w'.dirs = w.dirs ∧ w'.erase.objs = w.erase.objs ∧
    ∀ r, p' = .ret r → (∃ x, pick ⟨c, h⟩ = some x ∧ r = .ok x) ∨ (pick ⟨c, h⟩ = none ∧ r = .err e) ∨ ((∀ x, r ≠ .ok x) ∧ CallFailed w w') := by
  have hs := fdOf_safe (pick := pick) (e := e) rfl (Stored.erase.mpr hg.toStored)
  obtain ⟨ids, ho⟩ := (hs.sound hr).inv
  refine ⟨Good.erase.mp (ho.good (Good.erase.mpr hg)), ho.pins, ho.dirs, ho.objs, ?_⟩
  rintro r rfl
  exact hs.end hr

end Bf.Pin

namespace Bf
open Pin (K)

/-- A chain that was checked asks for logs if, and only if, one of its rules, which is not disabled, does. -/
theorem checkRules_logs : ∀ {rs : List Rule} {c c' : Chain}, checkRules c rs = .ok c' →
    (c.flagLog = true ↔ ∃ r ∈ c.rules, r.log ≠ 0 ∧ r.disabled = false) → (c'.flagLog = true ↔ ∃ r ∈ c'.rules, r.log ≠ 0 ∧ r.disabled = false)
  | [], c, c', h, h0 => by cases h; exact h0
  | r :: rs, c, c', h, h0 => by
    unfold checkRules at h
    obtain ⟨p, h1, h2⟩ := Res.bind_eq_ok h
    refine checkRules_logs h2 ?_
    have key : ∃ d, p.1.flagLog = (c.flagLog || (decide (r.log ≠ 0) && !d)) ∧ p.2.log = r.log ∧ p.2.disabled = d := by
      unfold checkRule at h1
      obtain ⟨e, _, h1⟩ := Res.bind_eq_ok h1
      obtain ⟨d, _, h1⟩ := Res.bind_eq_ok h1
      split at h1
      · cases h1
      split at h1
      · cases h1
      obtain ⟨_, _, h1⟩ := Res.bind_eq_ok h1
      cases h1
      exact ⟨d, rfl, rfl, rfl⟩
    obtain ⟨d, k1, k2, k3⟩ := key
    show p.1.flagLog = true ↔ ∃ r ∈ c.rules ++ [p.2], r.log ≠ 0 ∧ r.disabled = false
    rw [k1, Bool.or_eq_true, h0]
    constructor
    · rintro (⟨r', m, x⟩ | x)
      · exact ⟨r', List.mem_append_left _ m, x⟩
      · refine ⟨p.2, List.mem_append_right _ (List.mem_singleton.mpr rfl), ?_⟩
        rw [k2, k3]
        simpa using x
    · rintro ⟨r', m, x⟩
      rcases List.mem_append.mp m with m | m
      · exact .inl ⟨r', m, x⟩
      · rw [List.mem_singleton.mp m, k2, k3] at x
        exact .inr (by simpa using x)

theorem copy_logs {c : Chain} (h : chainCopy c = .ok c) : c.flagLog = true ↔ ∃ r ∈ c.rules, r.log ≠ 0 ∧ r.disabled = false := by
  unfold chainCopy chainNew at h
  split at h
  · cases h
  · exact checkRules_logs h (by simp)

end Bf

namespace Bf.Cli
open Pin (K P Holds CallFailed)

variable {T : Pin.Target} {w w' : K} {n : String} {c : Chain} {h : Pin.Handle}

theorem progFd_eq : progFd n = Pin.fdOf (·.handle.prog) .ENODEV n := by
  unfold progFd Pin.fdOf
  congr 2

theorem logsFd_eq : logsFd n = Pin.fdOf (·.handle.lmap.map (·.id)) .ENOENT n := by
  unfold logsFd Pin.fdOf
  congr 2
  funext c
  unfold Pin.giveFd
  rcases c with ⟨ch, hd⟩
  cases h : hd.lmap <;> simp only [h, Option.map_none, Option.map_some] <;> rfl

/-- C58, `bf_chain_prog_fd`. -/
theorem C58_prog (hg : Pin.Good T w n c h) {p' : P (Res Nat)} (hr : Pin.Run w (progFd n) w' p') :
    Pin.Good T w' n c h ∧ Holds T w' n c ∧ w'.pins = w.pins ∧ w'.dirs = w.dirs ∧ w'.erase.objs = w.erase.objs ∧
    ∀ r, p' = .ret r → (∀ q, r = .ok q → w'.pinned n h.progName = some q ∧
        (∃ img m M, w'.objs[q]? = some (.prog c img m) ∧ M.counters = BitVec.ofNat 32 m ∧ compile c T.thr T.slen M = .ok img) ∧ ∀ pt ∈ h.points, w'.die.runs pt q) ∧
      ((∀ q, r ≠ .ok q) → CallFailed w w') := by
  rw [progFd_eq] at hr
  obtain ⟨g, g1, g2, g3, g4⟩ := Pin.fdOf_run hg hr
  refine ⟨g, g.holds, g1, g2, g3, fun r e => ?_⟩
  obtain ⟨p, hp, _⟩ := g.prog
  rcases g4 r e with ⟨x, hx, rfl⟩ | ⟨hx, _⟩ | ⟨hx, hf⟩
  · refine ⟨fun q e => ?_, fun hn => absurd rfl (hn x)⟩
    cases e
    exact ⟨g.pins (h.progName, x) (by unfold Pin.Handle.pinList; rw [show h.prog = some x from hx]; simp), g.progOf x hx, g.points hx⟩
  · rw [show h.prog = none from hx] at hp
    cases hp
  · exact ⟨fun q e => absurd e (hx q), fun _ => hf⟩

/-- C58, `bf_chain_logs_fd`. -/
theorem C58_logs (hg : Pin.Good T w n c h) {p' : P (Res Nat)} (hr : Pin.Run w (logsFd n) w' p') :
    Pin.Good T w' n c h ∧ Holds T w' n c ∧ w'.pins = w.pins ∧ w'.dirs = w.dirs ∧ w'.erase.objs = w.erase.objs ∧
    ∀ r, p' = .ret r → (∀ m, r = .ok m → (∃ x ∈ c.rules, x.log ≠ 0 ∧ x.disabled = false) ∧ w'.pinned n "bf_lmap" = some m ∧ (∃ ct, w'.objs[m]? = some (.map ct)) ∧
        ∃ q img M k, h.prog = some q ∧ w'.objs[q]? = some (.prog c img k) ∧ M.log = BitVec.ofNat 32 m ∧ compile c T.thr T.slen M = .ok img ∧ ∀ pt ∈ h.points, w'.die.runs pt q) ∧
      ((∀ m, r ≠ .ok m) → (r = .err .ENOENT ∧ ¬ ∃ x ∈ c.rules, x.log ≠ 0 ∧ x.disabled = false) ∨ CallFailed w w') := by
  rw [logsFd_eq] at hr
  obtain ⟨g, g1, g2, g3, g4⟩ := Pin.fdOf_run hg hr
  refine ⟨g, g.holds, g1, g2, g3, fun r e => ?_⟩
  obtain ⟨p, hp, _⟩ := g.prog
  obtain ⟨img, m, t1, t2, t3, t4, t5, t6, _⟩ := g.tied p hp
  rcases g4 r e with ⟨x, hx, rfl⟩ | ⟨hx, rfl⟩ | ⟨hx, hf⟩
  · refine ⟨fun q e => ?_, fun hn => absurd rfl (hn x)⟩
    cases e
    obtain ⟨b, hb, rfl⟩ := Option.map_eq_some_iff.mp (show h.lmap.map (·.id) = some x from hx)
    have hb : h.lmap = some b := hb
    have mem : b ∈ h.maps := by unfold Pin.Handle.maps; rw [hb]; simp
    have hf : c.flagLog = true := by rw [← t6, hb]; rfl
    have hn : b.d.name = "bf_lmap" := by rw [t5 b hb]; show objName "bf_lmap" = "bf_lmap"; decide
    refine ⟨(copy_logs g.copy).mp hf, ?_, g.maps b mem, p, img, h.mapFds, m.id, hp, t2, by simp [Pin.Handle.mapFds, hb, Pin.mapFd], t3, g.points hp⟩
    rw [← hn]
    exact g.pins (b.d.name, b.id) (by unfold Pin.Handle.pinList; simp only [List.mem_append, List.mem_map]; exact .inl (.inr ⟨b, mem, rfl⟩))
  · refine ⟨(fun q e => by cases e), fun _ => .inl ⟨rfl, fun hl => ?_⟩⟩
    have hl := (copy_logs g.copy).mpr hl
    rw [← t6] at hl
    have hx : h.lmap = none := by simpa using hx
    rw [hx] at hl
    cases hl
  · exact ⟨fun q e => absurd e (hx q), fun _ => .inr hf⟩

end Bf.Cli
