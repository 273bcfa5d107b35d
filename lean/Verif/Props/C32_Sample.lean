import Verif.Props.C32_Crash
/-!
# C32: cases, and what is lost at a bad time
-/
namespace Bf.Pin.Sample

open Bf.Sample (chain)

theorem tree0 : w0.Tree := fun _ h => by cases h

theorem tree_of {w : K} (h : w.pins.all (fun x => w.dirs.contains x.1.1) = true) : w.Tree := fun x hx => by
  have := List.all_eq_true.mp h x hx
  simpa using this

theorem tree1 : w1.Tree := tree_of (by decide +kernel)

theorem fits : Fits tgt chain := ⟨by decide, by decide +kernel, by decide +kernel⟩

theorem copy1 : chainCopy chain = .ok chain := by decide +kernel

theorem opts_ok : OptsOk opts := by constructor <;> decide

theorem good_after {α : Type} {w : K} {p : P α} {dir : String} {c : Chain} {h : Handle} (hg : Good tgt (p.exec (fun _ => false) 1000 0 w).1 dir c h) :
    Good tgt (K.after w p) dir c h := hg.keep (fun _ _ h => h) fun _ => rfl

/-- The sample chain is set. -/
theorem good1 : ∃ h, Good tgt w1 chain.name chain h := by
  obtain ⟨p', hr, e⟩ := P.exec_run (p := chainSet tgt chain (some opts)) (fails := fun _ => false) (n := 1000) (i := 0) (w := w0)
  have h := (C32_set_first (T := tgt) tree0 (show w0.pinned chain.name "bf_ctx" = none from rfl) Bf.Sample.packable fits copy1
    (fun x hx => by cases hx; exact opts_ok) hr).2 _ (e _ set_ok)
  obtain ⟨h, hg⟩ := h.1 rfl
  exact ⟨h, good_after hg⟩

/-- The sample chain is loaded. -/
def w3 : K := K.after w0 (chainLoad tgt chain)

theorem load_ok : ((chainLoad tgt chain).exec (fun _ => false) 1000 0 w0).2 = some (.ok ()) := by decide +kernel

theorem good3 : ∃ h, Good tgt w3 chain.name chain h ∧ h.link = none := by
  obtain ⟨p', hr, e⟩ := P.exec_run (p := chainLoad tgt chain) (fails := fun _ => false) (n := 1000) (i := 0) (w := w0)
  have h := (C32_load (T := tgt) tree0 Bf.Sample.packable fits copy1 hr).2 _ (e _ load_ok)
  obtain ⟨h, hg, hl⟩ := h.1 rfl
  exact ⟨h, good_after hg, hl⟩

theorem wf3 : w3.Wf := ⟨by decide +kernel, by decide +kernel⟩

/-- Attach the loaded chain: it is what is held, whenever the process dies. -/
example {w' : K} {p' : P (Res Unit)} (hr : Run w3 (chainAttach chain.name opts) w' p') : Holds tgt w' chain.name chain := by
  obtain ⟨h, hg, hl⟩ := good3
  exact (C32_attach wf3 hg hl opts_ok (by decide +kernel) hr).1

/-- Set the sample chain over itself. -/
example {w' : K} {p' : P (Res Unit)} (hr : Run w1 (chainSet tgt chain none) w' p') :
    Holds tgt w' chain.name chain ∨ Absent w' chain.name ∨ ∃ e, e ≠ .ENOENT ∧ Since w1 w' (.unlink chain.name "bf_ctx", .fail e) := by
  obtain ⟨h, hg⟩ := good1
  have := (C32_set (o := none) wf1 tree1 hg Bf.Sample.packable fits copy1 (fun _ h => by cases h) hr).1
  grind

/-- Flush the sample chain. -/
example {w' : K} {p' : P (Res Unit)} (hr : Run w1 (chainFlush chain.name) w' p') :
    Holds tgt w' chain.name chain ∨ Absent w' chain.name ∨ ∃ e, e ≠ .ENOENT ∧ Since w1 w' (.unlink chain.name "bf_ctx", .fail e) := by
  obtain ⟨h, hg⟩ := good1
  exact C32_flush wf1 hg hr

/-- Update the sample chain. -/
example {w' : K} (hr : Run w1 (chainUpdate tgt 2 chain) w' (.ret (.ok ()))) : Holds tgt w' chain.name chain := by
  obtain ⟨h, hg⟩ := good1
  obtain ⟨h', g'⟩ := ((C32_update_partial wf1 hg Bf.Sample.packable fits copy1 hr).2 _ rfl).1 rfl
  exact g'.holds

def _root_.Bf.Pin.K.stuck (w : K) (dir : String) : Bool :=
  (w.pinned dir "bf_ctx").isNone && w.pins.any (fun x => x.1.1 == dir) && w.dirs.contains dir

theorem lookup_of_mem {l : List ((String × String) × Nat)} {d n : String} {o : Nat} (h : ((d, n), o) ∈ l) : ∃ o, l.lookup (d, n) = some o := by
  cases e : l.lookup (d, n) with
  | some o => exact ⟨o, rfl⟩
  | none =>
    rw [List.lookup_eq_none_iff] at e
    have := e _ h
    simp at this

theorem stuck_of {w : K} {dir : String} (h : w.stuck dir = true) : Stuck w dir := by
  unfold K.stuck at h
  simp only [Bool.and_eq_true, Option.isNone_iff_eq_none, List.any_eq_true, beq_iff_eq, List.contains_iff_mem] at h
  obtain ⟨⟨h1, ⟨⟨⟨d, n⟩, o⟩, hx, rfl⟩⟩, h3⟩ := h
  obtain ⟨o, ho⟩ := lookup_of_mem hx
  exact ⟨h1, ⟨n, o, ho⟩, h3⟩

/-- A program runs at a point even when the process is gone: a link that was not detached is pinned. -/
def _root_.Bf.Pin.K.busy (w : K) (pt : Point) (q : Nat) (dir n : String) : Bool :=
  match w.pinned dir n with
  | some o => w.linkAt o == some (pt, q, false)
  | none => false

theorem busy_of {w : K} {q : Nat} {dir n : String} (h : w.busy pt q dir n = true) : w.die.runs pt q := by
  unfold K.busy at h
  split at h
  · next o ho => exact ⟨o, linkAt_of (x := (pt, q, false)) (eq_of_beq h), .inr ⟨dir, n, ho⟩⟩
  · cases h

theorem stuck_die {w : K} {dir : String} (h : Stuck w dir) : Stuck w.die dir := ⟨h.noCtx, h.pin, h.dir⟩

/-- What C32 does not give.  If the process dies in `bf_chain_set` between the pin of the link and the description, though no call
failed, a program filters and nothing in the library can remove or replace it (`C32_stuck`). -/
theorem C32_not_set : ∃ w' p', Run w0 (chainSet tgt chain (some opts)) w' p' ∧ Stuck w'.die chain.name ∧ w'.die.runs pt 5 := by
  obtain ⟨p', h, _⟩ := P.exec_run (p := chainSet tgt chain (some opts)) (fails := fun _ => false) (n := 37) (i := 0) (w := w0)
  exact ⟨_, p', h, stuck_die (stuck_of (by decide +kernel)), busy_of (n := "bf_link") (dir := "sample") (by decide +kernel)⟩

/-- The same if it dies in `bf_chain_flush` after the description was removed. -/
theorem C32_not_flush : ∃ w' p', Run w1 (chainFlush chain.name) w' p' ∧ Stuck w'.die chain.name ∧ w'.die.runs pt 5 := by
  obtain ⟨p', h, _⟩ := P.exec_run (p := chainFlush chain.name) (fails := fun _ => false) (n := 14) (i := 0) (w := w1)
  exact ⟨_, p', h, stuck_die (stuck_of (by decide +kernel)), busy_of (n := "bf_link") (dir := "sample") (by decide +kernel)⟩

/-- If the process dies in `bf_chain_attach` between the pin of the link and the description, `bf_chain_flush` later succeeds, though
no call failed, and the program still filters. -/
theorem C32_not_attach : ∃ w' p' w'', Run w3 (chainAttach chain.name opts) w' p' ∧
    Run w'.die (chainFlush chain.name) w'' (.ret (.ok ())) ∧ w''.die.runs pt 5 := by
  obtain ⟨p', h, _⟩ := P.exec_run (p := chainAttach chain.name opts) (fails := fun _ => false) (n := 15) (i := 0) (w := w3)
  obtain ⟨p'', h', e⟩ := P.exec_run (p := chainFlush chain.name) (fails := fun _ => false) (n := 1000) (i := 0)
    (w := ((chainAttach chain.name opts).exec (fun _ => false) 15 0 w3).1.die)
  have := e _ (show _ = some (.ok ()) by decide +kernel)
  subst this
  exact ⟨_, p', _, h, h', busy_of (n := "bf_link") (dir := "sample") (by decide +kernel)⟩

/-- The sample chain, with another policy. -/
def chain2 : Chain := { chain with policy := .drop }

def _root_.Bf.Pin.K.progAt (w : K) (o : Nat) : Option Chain := match w.objs[o]? with
  | some (.prog c _ _) => some c
  | _ => none

theorem progAt_of {w : K} {o : Nat} {c : Chain} (h : w.progAt o = some c) : ∃ img m, w.objs[o]? = some (.prog c img m) := by
  unfold K.progAt at h
  split at h
  · next e => cases h; exact ⟨_, _, e⟩
  · cases h

/-- Chain and program of a context that could be restored. -/
def got (r : Option (Res Cgen)) : Option (Chain × Option Nat) := match r with
  | some (.ok c) => some (c.chain, c.handle.prog)
  | _ => none

theorem got_of {r : Option (Res Cgen)} {x : Chain × Option Nat} (h : got r = some x) : ∃ c, r = some (.ok c) ∧ c.chain = x.1 ∧ c.handle.prog = x.2 := by
  unfold got at h
  split at h
  · cases h; exact ⟨_, rfl, rfl, rfl⟩
  · cases h

/-- If the process dies in `bf_chain_update` between the removal of the pins and the new ones, what bf_ctx describes is gone: nothing
can be restored. -/
theorem C32_not_update : ∃ w' p' w'', Run w1 (chainUpdate tgt 2 chain2) w' p' ∧ Run w'.die (newFromDir chain.name) w'' (.ret (.err .ENOENT)) := by
  obtain ⟨p', h, _⟩ := P.exec_run (p := chainUpdate tgt 2 chain2) (fails := fun _ => false) (n := 40) (i := 0) (w := w1)
  obtain ⟨p'', h', e⟩ := P.exec_run (p := newFromDir chain.name) (fails := fun _ => false) (n := 1000) (i := 0)
    (w := ((chainUpdate tgt 2 chain2).exec (fun _ => false) 40 0 w1).1.die)
  have := e _ (show _ = some (.err .ENOENT) by
    have k : (match ((newFromDir chain.name).exec (fun _ => false) 1000 0 ((chainUpdate tgt 2 chain2).exec (fun _ => false) 40 0 w1).1.die).2 with
      | some (.err .ENOENT) => true | _ => false) = true := by decide +kernel
    revert k
    generalize ((newFromDir chain.name).exec (fun _ => false) 1000 0 ((chainUpdate tgt 2 chain2).exec (fun _ => false) 40 0 w1).1.die).2 = r
    intro k
    split at k
    · rfl
    · cases k)
  subst this
  exact ⟨_, p', _, h, h'⟩

/-- If it dies between the two descriptions that `bf_chain_update` writes, what is restored is the old chain, with the program of
the new one. -/
theorem C32_not_update_mixed : ∃ w' p' w'' c, Run w1 (chainUpdate tgt 2 chain2) w' p' ∧ Run w'.die (newFromDir chain.name) w'' (.ret (.ok c)) ∧
    c.chain = chain ∧ c.chain ≠ chain2 ∧ ∃ q img m, c.handle.prog = some q ∧ w'.objs[q]? = some (.prog chain2 img m) := by
  obtain ⟨p', h, _⟩ := P.exec_run (p := chainUpdate tgt 2 chain2) (fails := fun _ => false) (n := 50) (i := 0) (w := w1)
  obtain ⟨p'', h', e⟩ := P.exec_run (p := newFromDir chain.name) (fails := fun _ => false) (n := 1000) (i := 0)
    (w := ((chainUpdate tgt 2 chain2).exec (fun _ => false) 50 0 w1).1.die)
  obtain ⟨c, e1, e2, e3⟩ := got_of (r := ((newFromDir chain.name).exec (fun _ => false) 1000 0 ((chainUpdate tgt 2 chain2).exec (fun _ => false) 50 0 w1).1.die).2)
    (x := (chain, some 13)) (by decide +kernel)
  have := e _ e1
  subst this
  obtain ⟨img, m, ho⟩ := progAt_of (w := ((chainUpdate tgt 2 chain2).exec (fun _ => false) 50 0 w1).1) (o := 13) (c := chain2) (by decide +kernel)
  exact ⟨_, p', _, c, h, h', e2, by rw [e2]; exact (by decide : chain ≠ chain2), 13, img, m, e3, ho⟩

end Bf.Pin.Sample
