import Verif.Props.C52_Others
/-!
# C52: a command changes no chain but those it is about

Commands of `bfcli`, together or one after the other, each stopped anywhere.
-/
namespace Bf.Cli
open Spec
open Pin (K P staging Owners Knows)

variable {w w' w'' : K} {d : String} {A : Issued → Prop} {ps ps' : List (Issued × P Ended)}

/-- Each object is of one directory, and the commands that run know some. -/
def Together (ow : Pin.Tags) (w : K) (ps : List (Issued × P Ended)) : Prop :=
  Owners ow w ∧ ∀ x ∈ ps, ∃ t, Knows t ow ∧ x.2.Tagged (Reach x.1) t

theorem together_start {ow : Pin.Tags} {i : Issued} (h : Together ow w ps) : Together ow w ((i, main i.H i.a1 i.a2 i.words) :: ps) := by
  refine ⟨h.1, fun x hx => ?_⟩
  rcases List.mem_cons.mp hx with rfl | hx
  · exact ⟨fun _ => none, (fun o n h => by cases h), tagged_main i⟩
  · exact h.2 x hx

theorem together_step {ow : Pin.Tags} {l r : List (Issued × P Ended)} {i : Issued} {c : Pin.Call} {k : Pin.Ans → P Ended} {a : Pin.Ans}
    (h : Together ow w (l ++ (i, .call c k) :: r)) (hs : Pin.Step w c a w') :
    ∃ ow', Together ow' w' (l ++ (i, k a) :: r) ∧ Knows ow ow' ∧ ∀ d, ¬ Reach i d → Pin.Fixed ow w w' d := by
  obtain ⟨t, h1, h2⟩ := h.2 _ (List.mem_append_right _ (List.mem_cons_self ..))
  obtain ⟨ow', t', g1, g2, g3, g4, g5⟩ := Pin.tagged_step h.1 h1 h2 hs
  refine ⟨ow', ⟨g1, fun x hx => ?_⟩, g2, g5⟩
  have old : x ∈ l ++ (i, .call c k) :: r → ∃ t, Knows t ow' ∧ x.2.Tagged (Reach x.1) t := fun hx => by
    obtain ⟨t, e1, e2⟩ := h.2 x hx
    exact ⟨t, fun o n h => g2 o n (e1 o n h), e2⟩
  rcases List.mem_append.mp hx with hx | hx
  · exact old (List.mem_append_left _ hx)
  · rcases List.mem_cons.mp hx with rfl | hx
    · exact ⟨t', g3, g4⟩
    · exact old (List.mem_append_right _ (List.mem_cons_of_mem _ hx))

theorem together_packets {ow : Pin.Tags} (h : Together ow w ps) (hp : Pin.Packets w w') : Together ow w' ps := by
  have e : w'.pins = w.pins := by rw [hp.same]
  exact ⟨⟨fun d n o ho => h.1.pins d n o (by unfold Pin.K.pinned at ho ⊢; rw [← e]; exact ho), fun o d ho => by rw [hp.len]; exact h.1.lt o d ho,
    fun x hx => by rw [hp.len]; exact h.1.wf x (by rw [← e]; exact hx)⟩, h.2⟩

theorem together_stop {ow : Pin.Tags} {l r : List (Issued × P Ended)} {x : Issued × P Ended} {f : List Nat} (h : Together ow w (l ++ x :: r)) :
    Together ow { w with fds := f } (l ++ r) :=
  ⟨⟨h.1.pins, h.1.lt, h.1.wf⟩, fun y hy => h.2 y (by
    rcases List.mem_append.mp hy with hy | hy
    · exact List.mem_append_left _ hy
    · exact List.mem_append_right _ (List.mem_cons_of_mem _ hy))⟩

theorem together_moves (h : Moves A w ps w' ps') : ∀ {ow : Pin.Tags}, Together ow w ps → ∃ ow', Together ow' w' ps' := by
  induction h with
  | refl => exact fun h => ⟨_, h⟩
  | start _ _ ih => exact fun h => ih (together_start h)
  | step hs _ ih =>
    intro ow h
    obtain ⟨ow', h', _, _⟩ := together_step h hs
    exact ih h'
  | packets hp _ ih => exact fun h => ih (together_packets h hp)
  | stop _ _ ih => exact fun h => ih (together_stop h)

theorem nothing_together (h : NothingYet w) : Together (fun _ => none) w [] := by
  refine ⟨⟨fun d n o ho => ?_, (fun o d h => by cases h), by simp [h.pins]⟩, by simp⟩
  unfold Pin.K.pinned at ho
  rw [h.pins] at ho
  cases ho

theorem untouched_refl : Untouched w w d := ⟨Iff.rfl, fun _ => rfl, fun _ _ _ => rfl⟩

theorem untouched_trans (h : Untouched w w' d) (h' : Untouched w' w'' d) : Untouched w w'' d :=
  ⟨h'.dir.trans h.dir, fun n => (h'.pins n).trans (h.pins n), fun n i hi => (h'.objs n i (by rw [h.pins]; exact hi)).trans (h.objs n i hi)⟩

theorem untouched_packets (hp : Pin.Packets w w') : Untouched w w' d := by
  refine ⟨by rw [hp.same], fun n => by unfold Pin.K.pinned; rw [hp.same], fun n i _ => ?_⟩
  have hx := congrArg (fun v => v.objs[i]?) hp.erase
  simpa only [Pin.K.erase_get] using hx

theorem Fixed.unmoved {ow : Pin.Tags} (hO : Owners ow w) (h : Pin.Fixed ow w w' d) : Unmoved w w' d :=
  ⟨h.dir, h.pins, fun n i hi => h.objs i (hO.pins d n i hi)⟩

theorem Unmoved.untouched (h : Unmoved w w' d) : Untouched w w' d := ⟨h.dir, h.pins, fun n i hi => by rw [h.objs n i hi]⟩

theorem moves_untouched (hd : staging d = false) (h : Moves (fun i => ¬ Regards i.H i.a1 i.a2 d) w ps w' ps') :
    ∀ {ow : Pin.Tags}, Together ow w ps → (∀ x ∈ ps, ¬ Regards x.1.H x.1.a1 x.1.a2 d) → Untouched w w' d := by
  induction h with
  | refl => exact fun _ _ => untouched_refl
  | start hi _ ih =>
    intro ow hT hn
    refine ih (together_start hT) fun x hx => ?_
    rcases List.mem_cons.mp hx with rfl | hx
    · exact hi
    · exact hn x hx
  | @step w w1 w' l r ps' i c k a hs _ ih =>
    intro ow hT hn
    obtain ⟨ow', h1, _, h2⟩ := together_step hT hs
    have hi : ¬ Regards i.H i.a1 i.a2 d := hn (i, .call c k) (List.mem_append_right _ (List.mem_cons_self ..))
    refine untouched_trans (Unmoved.untouched (Fixed.unmoved hT.1 (h2 d ?_))) (ih h1 fun x hx => ?_)
    · rintro (h | h)
      · rw [hd] at h; cases h
      · exact hi h
    · rcases List.mem_append.mp hx with hx | hx
      · exact hn x (List.mem_append_left _ hx)
      · rcases List.mem_cons.mp hx with rfl | hx
        · exact hi
        · exact hn x (List.mem_append_right _ (List.mem_cons_of_mem _ hx))
  | packets hp _ ih => exact fun hT hn => untouched_trans (untouched_packets hp) (ih (together_packets hT hp) hn)
  | @stop w w' l r ps' x f _ _ ih =>
    intro ow hT hn
    have := ih (together_stop hT) fun y hy => hn y (by
      rcases List.mem_append.mp hy with hy | hy
      · exact List.mem_append_left _ hy
      · exact List.mem_append_right _ (List.mem_cons_of_mem _ hy))
    exact ⟨this.dir, this.pins, this.objs⟩

/-- C52: no object is ever pinned for two chains, whatever commands run together. -/
theorem C52_apart {w0 : K} (h0 : NothingYet w0) (h : Moves (fun _ => True) w0 [] w ps) {d' n n' : String} {o : Nat} (h1 : w.pinned d n = some o) (h2 : w.pinned d' n' = some o) :
    d = d' := by
  obtain ⟨ow, hT⟩ := together_moves h (nothing_together h0)
  have e := hT.1.pins d n o h1
  rw [hT.1.pins d' n' o h2] at e
  cases e
  rfl

/-- C52: commands were given on a machine where nothing was pinned; of those that still run, none is about the chain `d`.  As long as no command about it is given,
whatever commands run together, whatever calls fail, and whenever they are stopped, nothing of it is changed. -/
theorem C52_others {w0 : K} (h0 : NothingYet w0) (hb : Moves (fun _ => True) w0 [] w ps) (hs : staging d = false) (hn : ∀ x ∈ ps, ¬ Regards x.1.H x.1.a1 x.1.a2 d)
    (h : Moves (fun i => ¬ Regards i.H i.a1 i.a2 d) w ps w' ps') :
    Untouched w w' d ∧ (∀ T c x, Pin.Good T w d c x → Pin.Good T w' d c x ∧ Pin.Holds T w' d c) ∧ (Pin.Absent w d → Pin.Absent w' d) := by
  obtain ⟨ow, hT⟩ := together_moves hb (nothing_together h0)
  have h3 := moves_untouched hs h hT hn
  exact ⟨h3, fun T c x hg => ⟨h3.good hg, h3.holds hg⟩, h3.absent⟩

/-- C52: no system call of a command changes the counters of a chain it is not about either. -/
theorem C52_calls {w0 : K} (h0 : NothingYet w0) (hb : Moves (fun _ => True) w0 [] w ps) (hs : staging d = false) {i : Issued} {c : Pin.Call} {k : Pin.Ans → P Ended}
    (hi : (i, P.call c k) ∈ ps) (hn : ¬ Regards i.H i.a1 i.a2 d) {a : Pin.Ans} (hx : Pin.Step w c a w') : Unmoved w w' d := by
  obtain ⟨ow, hT⟩ := together_moves hb (nothing_together h0)
  obtain ⟨t, h1, h2⟩ := hT.2 _ hi
  obtain ⟨_, _, _, _, _, _, h3⟩ := Pin.tagged_step hT.1 h1 h2 hx
  refine Fixed.unmoved hT.1 (h3 d ?_)
  rintro (h | h)
  · rw [hs] at h; cases h
  · exact hn h

/-! One after the other. -/

theorem run_moves {i : Issued} {p q : P Ended} (h : Pin.Run w p w' q) : ∀ {w'' : K} {ps' : List (Issued × P Ended)}, Moves A w' [(i, q)] w'' ps' → Moves A w [(i, p)] w'' ps' := by
  induction h with
  | refl => exact fun h => h
  | packets hp _ ih => exact fun h => .packets hp (ih h)
  | step hs _ ih => exact fun h => .step (l := []) hs (ih h)

theorem issue_moves {is : List Issued} (h : Issue w is w') (hA : ∀ i ∈ is, A i) : Moves A w [] w' [] := by
  induction h with
  | done => exact .refl
  | @next w w' w'' i is q hr _ ih =>
    exact .start (hA i (List.mem_cons_self ..)) (run_moves hr (.stop (l := []) (f := []) (by simp) (ih fun j hj => hA j (List.mem_cons_of_mem _ hj))))

/-- C52, for commands one after the other. -/
theorem C52_history {w0 : K} {is0 is : List Issued} (h0 : NothingYet w0) (hb : Issue w0 is0 w) (hs : staging d = false) (hn : ∀ i ∈ is, ¬ Regards i.H i.a1 i.a2 d)
    (h : Issue w is w') : Untouched w w' d ∧ (∀ T c x, Pin.Good T w d c x → Pin.Good T w' d c x ∧ Pin.Holds T w' d c) ∧ (Pin.Absent w d → Pin.Absent w' d) :=
  C52_others h0 (issue_moves hb fun _ _ => trivial) hs (by simp) (issue_moves h hn)

end Bf.Cli
