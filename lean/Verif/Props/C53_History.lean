import Verif.Props.C53_Asked
/-!
# C53: every program that runs, every point it runs at and every chain that is reported was asked for

Commands of `bfcli`, together or one after the other, each stopped anywhere.
-/
namespace Bf.Cli
open Spec
open Pin (K P Lawful Knows)

variable {A : Issued → Prop} {w w' w0 : K} {ps ps' : List (Issued × P Ended)} {n : String}

/-- What a command may say when it ends. -/
def Says (A : Issued → Prop) (i : Issued) (e : Ended) : Prop := Valid i.a1 i.a2 i.words → ∀ x a, Commands i.a1 x a → (usage x a).isSome → Reports A i x a e

/-- All there is was asked for, and the commands that run will keep it so. -/
def AllAsked (A : Issued → Prop) (ow : Pin.Tags) (w : K) (ps : List (Issued × P Ended)) : Prop :=
  Lawful (wish A).want ow w ∧ ∀ x ∈ ps, ∃ t, Knows t ow ∧ x.2.Led (wish A).want (Says A x.1) t

theorem asked_step {ow : Pin.Tags} {l r : List (Issued × P Ended)} {i : Issued} {c : Pin.Call} {k : Pin.Ans → P Ended} {a : Pin.Ans}
    (h : AllAsked A ow w (l ++ (i, .call c k) :: r)) (hs : Pin.Step w c a w') :
    ∃ ow', AllAsked A ow' w' (l ++ (i, k a) :: r) ∧ ∀ o d, ow' o = some d → ow o = some d ∨ w.objs.length ≤ o := by
  obtain ⟨t, h1, h2⟩ := h.2 _ (List.mem_append_right _ (List.mem_cons_self ..))
  obtain ⟨ow', t', g1, g2, g3, g4, g5⟩ := Pin.led_step (fun _ => Pin.Wish.empty) h.1 h1 h2 hs
  refine ⟨ow', ⟨g1, fun x hx => ?_⟩, g5⟩
  have old : x ∈ l ++ (i, .call c k) :: r → ∃ t, Knows t ow' ∧ x.2.Led (wish A).want (Says A x.1) t := fun hx => by
    obtain ⟨t, e1, e2⟩ := h.2 x hx
    exact ⟨t, fun o n h => g2 o n (e1 o n h), e2⟩
  rcases List.mem_append.mp hx with hx | hx
  · exact old (List.mem_append_left _ hx)
  · rcases List.mem_cons.mp hx with rfl | hx
    · exact ⟨t', g3, g4⟩
    · exact old (List.mem_append_right _ (List.mem_cons_of_mem _ hx))

theorem asked_moves_new (hS : Sensible A) (h : Moves A w ps w' ps') : ∀ {ow : Pin.Tags}, AllAsked A ow w ps →
    ∃ ow', AllAsked A ow' w' ps' ∧ ∀ o d, ow' o = some d → ow o = some d ∨ w.objs.length ≤ o := by
  induction h with
  | refl => exact fun h => ⟨_, h, fun _ _ h => .inl h⟩
  | start hi _ ih =>
    intro ow h
    refine ih ⟨h.1, fun x hx => ?_⟩
    rcases List.mem_cons.mp hx with rfl | hx
    · exact ⟨fun _ => none, (fun o n h => by cases h), led_main hi hS⟩
    · exact h.2 x hx
  | step hs _ ih =>
    intro ow h
    obtain ⟨ow', h', hn⟩ := asked_step h hs
    obtain ⟨ow'', h'', hn'⟩ := ih h'
    refine ⟨ow'', h'', fun o d e => ?_⟩
    rcases hn' o d e with e | e
    · exact hn o d e
    · exact .inr (Nat.le_trans (Pin.step_len hs) e)
  | packets hp _ ih =>
    intro ow h
    obtain ⟨ow', h', hn⟩ := ih ⟨Lawful.packets h.1 hp, h.2⟩
    exact ⟨ow', h', fun o d e => by rw [← hp.len]; exact hn o d e⟩
  | @stop w w' l r ps' x f hf _ ih =>
    intro ow h
    refine ih (ow := ow) ⟨⟨⟨h.1.pins, h.1.lt, h.1.wf⟩, fun o ho => h.1.fds o (hf o ho), h.1.objs, h.1.progs⟩, fun y hy => h.2 y ?_⟩
    rcases List.mem_append.mp hy with hy | hy
    · exact List.mem_append_left _ hy
    · exact List.mem_append_right _ (List.mem_cons_of_mem _ hy)

theorem asked_moves (hS : Sensible A) (h : Moves A w ps w' ps') {ow : Pin.Tags} (ha : AllAsked A ow w ps) : ∃ ow', AllAsked A ow' w' ps' := by
  obtain ⟨ow', h', _⟩ := asked_moves_new hS h ha
  exact ⟨ow', h'⟩

theorem nothing_asked (h : NothingYet w) : AllAsked A (fun _ => none) w [] := by
  refine ⟨⟨⟨fun d n o ho => ?_, (fun o d h => by cases h), by simp [h.pins]⟩, by simp [h.fds], (fun o d x h => by cases h), fun o d pt p b h => by cases h⟩, by simp⟩
  unfold Pin.K.pinned at ho
  rw [h.pins] at ho
  cases ho

/-- C53: on a machine where nothing was pinned, commands of `A` are given, together, whatever calls fail, and whenever they are stopped.  Whatever program runs, at whatever
point, is the complete program of a chain that the commands asked for, and they asked for a chain of that name to be attached at that point. -/
theorem C53_runs (hS : Sensible A) (h0 : NothingYet w0) (h : Moves A w0 [] w ps) {pt : Pin.Point} {p : Nat} (hr : w.runs pt p) :
    ∃ i c, A i ∧ AskedFor A c ∧ AskedAt A c.name pt ∧ Pin.ProgOf i.H.T c w p := by
  obtain ⟨ow, hL, _⟩ := asked_moves hS h (nothing_asked h0)
  obtain ⟨l, hl, hh⟩ := hr
  have ⟨d, hd⟩ : ∃ d, ow l = some d := by
    rcases hh with hh | ⟨d, n, hh⟩
    · exact hL.fds l hh
    · exact ⟨d, hL.pins d n l hh⟩
  obtain ⟨h1, h2⟩ := hL.objs l d _ hd hl
  obtain ⟨c, img, m, h3⟩ := hL.progs l d pt p _ hd hl
  obtain ⟨⟨h4, rfl⟩, T, ⟨i, hi, rfl⟩, M, h6⟩ := hL.objs p d _ h2 h3
  exact ⟨i, c, hi, h4, h1, img, m, M, h3, h6⟩

/-- A program that runs was made since the beginning. -/
theorem runs_new (hS : Sensible A) (h0 : NothingYet w0) (h : Moves A w0 [] w ps) {pt : Pin.Point} {p : Nat} (hr : w.runs pt p) : w0.objs.length ≤ p := by
  obtain ⟨ow, ⟨hL, _⟩, hn⟩ := asked_moves_new hS h (nothing_asked h0)
  obtain ⟨l, hl, hh⟩ := hr
  have ⟨d, hd⟩ : ∃ d, ow l = some d := by
    rcases hh with hh | ⟨d, n, hh⟩
    · exact hL.fds l hh
    · exact ⟨d, hL.pins d n l hh⟩
  obtain ⟨h1, h2⟩ := hL.objs l d _ hd hl
  rcases hn p d h2 with e | e
  · cases e
  · exact e

/-- C53: a chain that is there is one that the commands asked for, under its name. -/
theorem C53_stored (hS : Sensible A) (h0 : NothingYet w0) (h : Moves A w0 [] w ps) {T : Pin.Target} {c : Chain} {x : Pin.Handle} (hg : Pin.Good T w n c x) :
    AskedFor A c ∧ c.name = n := by
  obtain ⟨ow, hL, _⟩ := asked_moves hS h (nothing_asked h0)
  obtain ⟨m, b, h1, h2, h3, h4⟩ := hg.ctx
  rcases hL.objs m n _ (hL.pins n _ m h1) h2 with rfl | ⟨c0, d0, rfl, hd⟩
  · exact absurd rfl h3
  · rw [cgen_bytes_round hd.packable hd.handle] at h4
    obtain ⟨c1, e1, e2⟩ := Res.bind_eq_ok h4
    cases e2
    exact wish_copies _ _ _ hd.chain e1

/-- C53: the chain that `bfcli chain get` prints is one that the commands asked for, under the name that was given. -/
theorem C53_get (hS : Sensible A) (h0 : NothingYet w0) (h : Moves A w0 [] w ps) {i : Issued} {out : List Char} (hi : (i, P.ret (Ended.exits .ok out)) ∈ ps)
    (hv : Valid i.a1 i.a2 i.words) (hc : Commands i.a1 .chain .get) :
    ∃ c o k el, AskedFor A c ∧ Spec.named i.a2 = some c.name ∧ chainDump i.H.env.text c o k el = .ok out := by
  obtain ⟨ow, _, hp⟩ := asked_moves hS h (nothing_asked h0)
  obtain ⟨t, _, h1⟩ := hp _ hi
  exact (h1 hv _ _ hc rfl out rfl).1 rfl rfl

/-- C53: the chains that `bfcli ruleset get` prints are ones that the commands asked for. -/
theorem C53_ruleset_get (hS : Sensible A) (h0 : NothingYet w0) (h : Moves A w0 [] w ps) {i : Issued} {out : List Char} (hi : (i, P.ret (Ended.exits .ok out)) ∈ ps)
    (hv : Valid i.a1 i.a2 i.words) (hc : Commands i.a1 .ruleset .get) :
    ∃ (cs : List Chain) (outs : List (List Char)), out = outs.flatten ∧ Each (fun c t => AskedFor A c ∧ ∃ o k el, chainDump i.H.env.text c o k el = .ok t) cs outs := by
  obtain ⟨ow, _, hp⟩ := asked_moves hS h (nothing_asked h0)
  obtain ⟨t, _, h1⟩ := hp _ hi
  exact (h1 hv _ _ hc rfl out rfl).2 rfl rfl

/-- C53, for commands one after the other. -/
theorem C53_history {is : List Issued} (hS : Sensible (· ∈ is)) (h0 : NothingYet w0) (h : Issue w0 is w) :
    (∀ pt p, w.runs pt p → ∃ i ∈ is, ∃ c, AskedFor (· ∈ is) c ∧ AskedAt (· ∈ is) c.name pt ∧ Pin.ProgOf i.H.T c w p) ∧
    ∀ T n c x, Pin.Good T w n c x → AskedFor (· ∈ is) c ∧ c.name = n := by
  have hm : Moves (· ∈ is) w0 [] w [] := issue_moves h fun _ h => h
  refine ⟨fun pt p hr => ?_, fun T n c x hg => C53_stored hS h0 hm hg⟩
  obtain ⟨i, c, h1, h2⟩ := C53_runs hS h0 hm hr
  exact ⟨i, h1, c, h2⟩

/-! What is asked for comes from the text of a command. -/

theorem sameButSets_refl {c : Chain} : SameButSets c c :=
  ⟨rfl, rfl, rfl, ⟨rfl, fun i r r' h h' => by rw [h] at h'; cases h'; rfl⟩, rfl, fun i s s' h h' => by rw [h] at h'; cases h'; exact ⟨rfl, rfl⟩⟩

theorem sameButSets_trans {a b c : Chain} (h : SameButSets a b) (h' : SameButSets b c) : SameButSets a c := by
  refine ⟨h'.name.trans h.name, h'.hook.trans h.hook, h'.policy.trans h.policy, ⟨h'.rules.1.trans h.rules.1, fun i r r' hr hr' => ?_⟩, h'.sets.1.trans h.sets.1, fun i s s' hs hs' => ?_⟩
  · have hlt : i < b.rules.length := by rw [h.rules.1]; exact (List.getElem?_eq_some_iff.mp hr).1
    have e1 := h.rules.2 i r _ hr (List.getElem?_eq_getElem hlt)
    have e2 := h'.rules.2 i _ r' (List.getElem?_eq_getElem hlt) hr'
    unfold Rule.Same at e1 e2 ⊢
    rw [← e2, ← e1]
  · have hlt : i < b.sets.length := by rw [h.sets.1]; exact (List.getElem?_eq_some_iff.mp hs).1
    have e1 := h.sets.2 i s _ hs (List.getElem?_eq_getElem hlt)
    have e2 := h'.sets.2 i _ s' (List.getElem?_eq_getElem hlt) hs'
    exact ⟨e2.1.trans e1.1, e2.2.trans e1.2⟩

theorem sameButSets_copy {c c' : Chain} (h : chainCopy c = .ok c') : SameButSets c c' := by
  have e0 := Pin.chainCopy_name h
  unfold chainCopy chainNew at h
  split at h
  · cases h
  · obtain ⟨e1, e2, e3, e4, _⟩ := checkRules_list h
    simp only [List.length_nil, Nat.zero_add, List.nil_append] at e3 e4
    refine ⟨e0, e1, e2, ⟨by rw [e4]; simp, fun i r r' hr hr' => ?_⟩, by rw [e3], fun i s s' hs hs' => ?_⟩
    · rw [e4, List.getElem?_mapIdx, hr] at hr'
      cases hr'
      rfl
    · rw [e3, hs] at hs'
      cases hs'
      exact ⟨rfl, rfl⟩

theorem sameButSets_changed {env : TextEnv} {c new : Chain} {s : String} {a r : List (List Char)} (h : SetChanged env c s a r new) : SameButSets c new := by
  obtain ⟨i, old, as, rs, es, h1, _, _, _, _, rfl⟩ := h
  refine ⟨rfl, rfl, rfl, ⟨rfl, fun i r r' h h' => by rw [h] at h'; cases h'; rfl⟩, by simp, fun j s s' hs hs' => ?_⟩
  simp only [List.getElem?_set] at hs'
  split at hs'
  · next e =>
    subst e
    rw [h1.1] at hs
    cases hs
    split at hs'
    · cases hs'; exact ⟨rfl, rfl⟩
    · cases hs'
  · rw [hs] at hs'
    cases hs'
    exact ⟨rfl, rfl⟩

/-- C53: a chain that the commands asked for is, but for the elements of its sets, what the text of one of them says. -/
theorem C53_said {c : Chain} (h : AskedFor A c) : ∃ i c0, A i ∧ ((∃ o, Puts i (c0, o)) ∨ Loads i c0) ∧ SameButSets c0 c := by
  induction h with
  | @put i x hi hx => exact ⟨i, x.1, hi, .inl ⟨x.2, hx⟩, sameButSets_refl⟩
  | @load i c hi hx => exact ⟨i, c, hi, .inr hx, sameButSets_refl⟩
  | changed _ _ hc ih =>
    obtain ⟨i, c0, h1, h2, h3⟩ := ih
    obtain ⟨_, _, sn, _, hs⟩ := hc
    exact ⟨i, c0, h1, h2, sameButSets_trans h3 (sameButSets_changed hs)⟩
  | again _ hc ih =>
    obtain ⟨i, c0, h1, h2, h3⟩ := ih
    exact ⟨i, c0, h1, h2, sameButSets_trans h3 (sameButSets_copy hc)⟩

/-- C53: without `chain update-set`, it is exactly what the text of one of them says. -/
theorem C53_said_exactly {c : Chain} (hn : ∀ i, A i → ¬ Commands i.a1 .chain .updateSet) (h : AskedFor A c) : ∃ i, A i ∧ ((∃ o, Puts i (c, o)) ∨ Loads i c) := by
  induction h with
  | @put i x hi hx => exact ⟨i, hi, .inl ⟨x.2, hx⟩⟩
  | @load i c hi hx => exact ⟨i, hi, .inr hx⟩
  | changed hi _ hc _ => exact absurd hc.1 (hn _ hi)
  | @again c c' _ hc ih =>
    obtain ⟨i, h1, h2⟩ := ih
    have hk : Checked c := by
      rcases h2 with ⟨o, _, h, _⟩ | ⟨_, h, _⟩ <;> exact h
    rw [hk.new] at hc
    cases hc
    exact ⟨i, h1, h2⟩

/-- C53: as long as no command but dry ones puts, loads or updates a chain, nothing runs. -/
theorem C53_nothing (hS : Sensible A) (h0 : NothingYet w0) (hn : ∀ i, A i → (∀ x, ¬ Puts i x) ∧ ∀ c, ¬ Loads i c) (h : Moves A w0 [] w ps) (pt : Pin.Point) (p : Nat) : ¬ w.runs pt p := by
  intro hr
  obtain ⟨_, c, _, hc, _⟩ := C53_runs hS h0 h hr
  obtain ⟨i, c0, hi, hx, _⟩ := C53_said hc
  rcases hx with ⟨o, hx⟩ | hx
  · exact (hn i hi).1 _ hx
  · exact (hn i hi).2 _ hx

theorem picks_mem {n : Option String} {cs : List ChainS} {s : ChainS} (h : Picks n cs s) : s ∈ cs := by
  unfold Picks at h
  split at h
  · rw [h]; exact List.mem_singleton.mpr rfl
  · obtain ⟨k, h, _⟩ := h
    exact List.mem_of_getElem? h

end Bf.Cli
