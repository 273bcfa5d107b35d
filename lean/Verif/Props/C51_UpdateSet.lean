import Verif.Props.C51_Get
/-!
# C51: `bfcli chain update-set`
-/
namespace Bf.Cli
open Spec
open Pin (K P Setup Holds Absent Since staging)

variable {H : Host} {a1 : List Arg1} {a2 : List (Flag × List Char)} {words : List String} {w w' : K} {q : P Ended} {n : String} {c : Chain} {h : Pin.Handle}

/-- The elements of `--add`, or of `--remove`. -/
theorem addAll_spec {e : PEnv} : ∀ {ts : List (List Char)} {i : Nat} {s s' : BSet}, s.elemSize = keySize s.key → addAll e i s ts = some (.ok s') →
    ∃ es, Each (ElemOf e.text s.key) ts es ∧ s' = { s with elems := es.foldl addElem s.elems }
  | [], i, s, s', hs, h => by cases h; exact ⟨[], .nil, rfl⟩
  | t :: ts, i, s, s', hs, h => by
    unfold addAll at h
    obtain ⟨s1, h1, h2⟩ := Run.bind_ok h
    have h1' := addElemRaw_mono h1 (fuel' := e.fuel + t.length + 1) (by omega)
    obtain ⟨r, g1, g2, g3, _⟩ := C37_elem e.text (e.mem i 0) hs t (fuel := e.fuel + t.length + 1) (by omega)
    rw [h1'] at g1
    cases g1
    obtain ⟨x, x1, rfl⟩ := g3 _ rfl
    obtain ⟨es, e1, e2⟩ := addAll_spec (s := { s with elems := addElem s.elems x }) hs h2
    exact ⟨x :: es, .cons x1 e1, e2⟩

theorem mem_addElems {x : List Byte} : ∀ {es l : List (List Byte)}, x ∈ es.foldl addElem l ↔ x ∈ l ∨ x ∈ es
  | [], l => by simp
  | e :: es, l => by
    rw [List.foldl_cons, mem_addElems]
    unfold addElem
    split
    · next h =>
      have := List.contains_iff_mem.mp h
      simp only [List.mem_cons]
      constructor
      · rintro (h | h)
        · exact .inl h
        · exact .inr (.inr h)
      · rintro (h | rfl | h)
        · exact .inl h
        · exact .inl this
        · exact .inr h
    · simp only [List.mem_append, List.mem_cons, List.not_mem_nil, or_false, or_assoc]

theorem addElems_length : ∀ {es l : List (List Byte)}, (es.foldl addElem l).length ≤ l.length + es.length
  | [], l => by simp
  | e :: es, l => by
    rw [List.foldl_cons]
    have h := addElems_length (es := es) (l := addElem l e)
    have : (addElem l e).length ≤ l.length + 1 := by unfold addElem; split <;> simp
    simp only [List.length_cons]
    omega

/-- The two sets given to `bf_chain_update_set`. -/
theorem delta_spec {e : PEnv} {o : CmdLine} {s : List Char} {dest : BSet} {d : BSet × BSet} (h : deltaSets e o s dest = some (.ok d)) :
    ∃ as rs, Each (ElemOf e.text dest.key) o.setAdd as ∧ Each (ElemOf e.text dest.key) o.setRemove rs ∧
      d.1.name = some (String.ofList s) ∧ d.2.name = some (String.ofList s) ∧ d.1.key = dest.key ∧ d.2.key = dest.key ∧
      d.1.elems = as.foldl addElem [] ∧ d.2.elems = rs.foldl addElem [] ∧ SetBuilt d.1 ∧ SetBuilt d.2 := by
  have built : ∀ {i : Nat} {ts : List (List Char)} {s0 s1 : BSet}, setNew (some (String.ofList s)) dest.key = .ok s0 → addAll e i s0 ts = some (.ok s1) →
      ∃ es, Each (ElemOf e.text dest.key) ts es ∧ s1.name = some (String.ofList s) ∧ s1.key = dest.key ∧ s1.elems = es.foldl addElem [] ∧ SetBuilt s1 := by
    intro i ts s0 s1 h0 h1
    obtain ⟨f1, f2, f3, f4, f5⟩ := setNew_facts h0
    obtain ⟨k1, k2, k3⟩ : s0.name = some (String.ofList s) ∧ s0.key = dest.key ∧ s0.elems = [] := by
      unfold setNew at h0
      repeat' split at h0
      all_goals first | (cases h0; done) | (cases h0; exact ⟨rfl, rfl, rfl⟩)
    obtain ⟨es, e1, rfl⟩ := addAll_spec (by rw [f4, k2]; rfl) h1
    rw [k2] at e1
    refine ⟨es, e1, k1, k2, by rw [← k3], ?_⟩
    have hl : ∀ x ∈ es, x.length = s0.elemSize := fun x hx => by
      obtain ⟨t, _, comps, c1, rfl, c3⟩ := each_mem e1 hx
      rw [elem_length c3, c1, f4]
      rfl
    clear e1 h1 f4 f5 k3
    have key : ∀ {s0 : BSet}, SetBuilt s0 → (∀ x ∈ es, x.length = s0.elemSize) → SetBuilt { s0 with elems := es.foldl addElem s0.elems } := by
      clear hl
      induction es with
      | nil => intro s0 h _; exact h
      | cons x es ih =>
        intro s0 h hx
        exact ih (s0 := { s0 with elems := addElem s0.elems x }) (.add h (hx x List.mem_cons_self)) fun y hy => hx y (List.mem_cons_of_mem _ hy)
    exact key (.new h0) hl
  unfold deltaSets at h
  obtain ⟨a0, h1, h⟩ := Run.bind_ok h
  obtain ⟨a, h2, h⟩ := Run.bind_ok h
  obtain ⟨r0, h3, h⟩ := Run.bind_ok h
  obtain ⟨r, h4, h⟩ := Run.bind_ok h
  cases h
  injection h1 with h1
  injection h3 with h3
  obtain ⟨as, a1, a2, a3, a4, a5⟩ := built h1 h2
  obtain ⟨rs, r1, r2, r3, r4, r5⟩ := built h3 h4
  exact ⟨as, rs, a1, r1, a2, r2, a3, r3, a4, r4, a5, r5⟩

/-- The chain `bf_chain_update_set` makes: it is `c`, but for the elements of that set. -/
theorem updated {a r old : BSet} {i : Nat} {s : String} (hp : Packable c) (hcp : chainCopy c = .ok c) (hi : setByName c.sets s = some i) (ho : c.sets[i]? = some old)
    (a1 : a.name = some s) (r1 : r.name = some s) (ak : a.key = old.key) (rk : r.key = old.key) (hab : SetBuilt a) (hrb : SetBuilt r)
    (hl : old.elems.length + a.elems.length < 2 ^ 32) (hne : ∃ x ∈ old.elems, x ∉ r.elems) :
    ∃ es, es.Nodup ∧ (∀ x, x ∈ es ↔ (x ∈ old.elems ∨ x ∈ a.elems) ∧ x ∉ r.elems) ∧
      updateSet c a r = .ok { c with sets := c.sets.set i { old with elems := es } } ∧ Packable { c with sets := c.sets.set i { old with elems := es } } ∧
      chainCopy { c with sets := c.sets.set i { old with elems := es } } = .ok { c with sets := c.sets.set i { old with elems := es } } := by
  have hmem := List.mem_of_getElem? ho
  have hlt := (List.getElem?_eq_some_iff.mp ho).1
  have hb := hp.built old hmem
  have hn := hb.shape.nodup
  have n1 : (a.elems.foldl addElem old.elems).Nodup := by rw [addElem_eq]; exact CHash.nodup_foldl_withElem hn
  have hu : updateSet c a r = .ok { c with sets := c.sets.set i { old with elems := r.elems.foldl List.erase (a.elems.foldl addElem old.elems) } } := by
    unfold updateSet
    rw [a1, r1, if_neg (by simp)]
    dsimp only
    rw [hcp]
    dsimp only [Res.bind]
    rw [hi]
    dsimp only
    rw [ho]
    dsimp only
    unfold setAddMany setRemoveMany sameKey
    simp only [ak, rk, decide_true, if_true, Res.bind]
  have hes : ∀ x, x ∈ r.elems.foldl List.erase (a.elems.foldl addElem old.elems) ↔ (x ∈ old.elems ∨ x ∈ a.elems) ∧ x ∉ r.elems := fun x => by
    rw [CHash.mem_foldl_erase n1, mem_addElems]
  have hle : (r.elems.foldl List.erase (a.elems.foldl addElem old.elems)).length ≤ (a.elems.foldl addElem old.elems).length :=
    nodup_le (CHash.foldl_erase_nodup n1) fun x hx => ((CHash.mem_foldl_erase n1).mp hx).1
  have hle2 := addElems_length (es := a.elems) (l := old.elems)
  have hsb : SetBuilt { old with elems := r.elems.foldl List.erase (a.elems.foldl addElem old.elems) } := by
    have e1 : setAddMany old a = .ok { old with elems := a.elems.foldl addElem old.elems } := by unfold setAddMany sameKey; simp [ak]
    have e2 : setRemoveMany { old with elems := a.elems.foldl addElem old.elems } r = .ok { old with elems := r.elems.foldl List.erase (a.elems.foldl addElem old.elems) } := by
      unfold setRemoveMany sameKey; simp [rk]
    exact .removeMany (.addMany hb hab e1) hrb e2
  refine ⟨_, CHash.foldl_erase_nodup n1, hes, hu, ⟨hp.name, ?_, ?_, hp.payloads, hp.index, ?_, hp.lens.2.1, ?_, hp.lens.2.2.2⟩, ?_⟩
  · intro s' hs'
    rcases List.mem_or_eq_of_mem_set hs' with h | rfl
    · exact hp.setNames s' h
    · exact hp.setNames old hmem
  · intro s' hs'
    rcases List.mem_or_eq_of_mem_set hs' with h | rfl
    · exact hp.built s' h
    · exact hsb
  · rw [List.length_set]; exact hp.lens.1
  · intro s' hs'
    rcases List.mem_or_eq_of_mem_set hs' with h | rfl
    · exact hp.lens.2.2.1 s' h
    · show List.length _ < _
      dsimp only
      omega
  · refine chainCopy_new (C27_filters_partial hu fun j o2 n2 h1 h2 => ?_)
    dsimp only at h2
    by_cases hj : i = j
    · subst hj
      rw [ho] at h1
      cases h1
      rw [List.getElem?_set_self hlt] at h2
      cases h2
      obtain ⟨x, x1, x2⟩ := hne
      have h3 := (hes x).mpr ⟨.inl x1, x2⟩
      constructor
      · intro e
        dsimp only at e
        rw [e] at h3
        cases h3
      · intro e
        rw [e] at x1
        cases x1
    · rw [List.getElem?_set_ne hj, h1] at h2
      cases h2
      rfl

theorem setNamed_of {s : String} {i : Nat} {old : BSet} (h : setByName c.sets s = some i) (ho : c.sets[i]? = some old) : SetNamed c s i old := by
  unfold setByName at h
  rw [List.findIdx?_eq_some_iff_getElem] at h
  obtain ⟨h1, h2, h3⟩ := h
  have e : c.sets[i] = old := by
    rw [List.getElem?_eq_getElem h1] at ho
    injection ho
  refine ⟨ho, by rw [← e]; simpa using h2, fun j x hj hx => ?_⟩
  have hj' : j < c.sets.length := by omega
  rw [List.getElem?_eq_getElem hj'] at hx
  injection hx with hx
  have := h3 j hj
  rw [hx] at this
  simpa using this

/-- C51, `bfcli chain update-set`, when the set has an element that it keeps.  If it exits with status 0, the chain is there with that set changed: it has the elements it
had and those of `--add`, but not those of `--remove`; nothing else of the chain changed, and its new program runs where the previous one did.  If it does not, the previous chain
is there, unless a call failed once its removal had begun.  At every instant, wherever the chain is attached, its program or the complete new one runs, unless a call failed once
the removal had begun.
Missing: a set that is empty before or after (`C27_fails_filled`, `C27_emptied_refused`); as in C32, what is left if the process dies after the removal began. -/
theorem C51_update_set_partial (hv : Valid a1 a2 words) (hc : Commands a1 .chain .updateSet) (hn : Spec.named a2 = some n) (hs : staging n = false) (hw : w.Sane)
    (hT : H.T.printed < 2 ^ 64) (hg : Pin.Good H.T w n c h) {m : Pin.BMap} (hm : h.cmap = some m) {sn : List Char} (hsn : (given .setName a2).getLast? = some sn)
    (hne : ∀ i old, SetNamed c (String.ofList sn) i old → old.elems.length + (given .add a2).length < 2 ^ 32 ∧
      ∃ x ∈ old.elems, ∀ t ∈ given .remove a2, ¬ ElemOf H.env.text old.key t x) (hr : Pin.Run w (main H a1 a2 words) w' q) :
    (∀ out, q = .ret (.exits .ok out) → out = [] ∧ ∃ new h' p, SetChanged H.env.text c (String.ofList sn) (given .add a2) (given .remove a2) new ∧
      Pin.Good H.T w' n new h' ∧ Pin.ProgOf H.T new w' p ∧ ∀ pt ∈ h.points, w'.die.runs pt p) ∧
    (Holds H.T w' n c ∨ ∃ x a, Since w w' (.unlink n x, a)) ∧
    (∀ p, h.prog = some p → (∀ pt ∈ h.points, ∃ q, w'.runs pt q ∧ (q = p ∨ ∃ new, SetChanged H.env.text c (String.ofList sn) (given .add a2) (given .remove a2) new ∧ Pin.ProgOf H.T new w' q)) ∨ Pin.FailedAfter n h.progName w w') ∧
    (∀ e, q = .ret e → Fails q → Pin.Good H.T w' n c h ∨ Pin.FailedAfter n h.progName w w') := by
  obtain ⟨n', hn', hh⟩ := named_split (f := fun o n => match o.setName with | none => .ret .ub | some s => updateSetCmd H o n s) (fun _ => rfl) hv hc (by simp [usage]) hr
  rw [hn] at hn'
  cases hn'
  have quiet : Pin.Good H.T w' n c h → Fails q → _ := fun (g : Pin.Good H.T w' n c h) (hf : Fails q) =>
    (⟨fun out he => absurd he (hf out), .inl g.holds, fun p hp => .inl fun pt hpt => ⟨p, (g.points hp pt hpt).alive, .inl rfl⟩, fun _ _ _ => .inl g⟩ :
    (∀ out, q = .ret (.exits .ok out) → out = [] ∧ ∃ new h' p, SetChanged H.env.text c (String.ofList sn) (given .add a2) (given .remove a2) new ∧
      Pin.Good H.T w' n new h' ∧ Pin.ProgOf H.T new w' p ∧ ∀ pt ∈ h.points, w'.die.runs pt p) ∧
    (Holds H.T w' n c ∨ ∃ x a, Since w w' (.unlink n x, a)) ∧
    (∀ p, h.prog = some p → (∀ pt ∈ h.points, ∃ q, w'.runs pt q ∧ (q = p ∨ ∃ new, SetChanged H.env.text c (String.ofList sn) (given .add a2) (given .remove a2) new ∧ Pin.ProgOf H.T new w' q)) ∨ Pin.FailedAfter n h.progName w w') ∧
    (∀ e, q = .ret e → Fails q → Pin.Good H.T w' n c h ∨ Pin.FailedAfter n h.progName w w'))
  rcases hh with ⟨h1, h2⟩ | ⟨o, w1, hk, h1, h0, h2⟩
  · exact quiet (h1.good hs hg) h2
  · have hset := Setup.of h1
    have hw1 := h1.sane hw
    have hg1 := hset.good hs hg
    rw [hk.setName, hsn] at h2
    dsimp only at h2
    unfold updateSetCmd at h2
    split at h2
    · obtain ⟨rfl, he⟩ := Pin.Run.ret_split h2
      exact quiet (same_good he hg1) fun out e => by cases e
    · rcases Pin.Run.bind_split h2 with ⟨c', k', h3, rfl⟩ | ⟨r, w2, h3, h4⟩
      · exact quiet (Pin.get_keeps hw1.wf hg1 hm h3).1 fun out e => by cases e
      · have hg2 := (Pin.get_keeps hw1.wf hg1 hm h3).1
        have hw2 := h3.sane hw1
        rcases after_split h4 with ⟨e, hf⟩ | ⟨g, eg, h5⟩
        · exact quiet (same_good e hg2) hf
        · cases eg
          have hgc := (Pin.C33_get hw1.wf hg1.toStored hm h3).1
          rw [hgc] at h5
          split at h5
          · obtain ⟨rfl, he⟩ := Pin.Run.ret_split h5
            exact quiet (same_good he hg2) fun out e => by cases e
          · next i hi =>
            split at h5
            · obtain ⟨rfl, he⟩ := Pin.Run.ret_split h5
              exact quiet (same_good he hg2) fun out e => by cases e
            · next old ho =>
              rcases after_split h5 with ⟨e, hf⟩ | ⟨d, ed, h6⟩
              · exact quiet (same_good e hg2) hf
              · have hnm := setNamed_of hi ho
                obtain ⟨as, rs, d1, d2, d3, d4, d5, d6, d7, d8, d9, d10⟩ := delta_spec ed
                rw [hk.add] at d1
                rw [hk.remove] at d2
                obtain ⟨hlen, x, x1, x2⟩ := hne i old hnm
                have hal : d.1.elems.length ≤ (given .add a2).length := by
                  rw [d7, each_length d1]
                  have := addElems_length (es := as) (l := [])
                  simpa using this
                obtain ⟨es, u1, u2, u3, u4, u5⟩ := updated hg.packable hg.copy hi ho d3 d4 d5 d6 d9 d10 (by omega) ⟨x, x1, fun hx => by
                  rw [d8, mem_addElems] at hx
                  rcases hx with hx | hx
                  · cases hx
                  · obtain ⟨t, t1, t2⟩ := each_mem d2 hx
                    exact x2 t t1 t2⟩
                have hfits := fits_of (T := H.T) (c := { c with sets := c.sets.set i { old with elems := es } }) hT u4.lens.1 u4.lens.2.2.1 u4.built
                obtain ⟨q', h7, h8⟩ := Pin.Run.bind_pure h6
                obtain ⟨p, hp, _⟩ := hg2.prog
                obtain ⟨hdur, haft⟩ := Pin.C31_update_set_partial hw2.wf hg2.toStored hp u3 h7
                obtain ⟨l1, l2⟩ := Pin.C32_update_set_partial hw2.wf hg2 u3 u4 hfits u5 h7
                have hch : SetChanged H.env.text c (String.ofList sn) (given .add a2) (given .remove a2) { c with sets := c.sets.set i { old with elems := es } } := by
                  refine ⟨i, old, as, rs, es, hnm, d1, d2, u1, fun x => ?_, rfl⟩
                  rw [u2, d7, d8, mem_addElems, mem_addElems]
                  simp
                have hist : ∃ g, w2.hist = g ++ w.hist := Pin.hist_trans hset.hist h3.hist
                refine ⟨fun out he => ?_, l1.imp id fun ⟨x, a, g⟩ => ⟨x, a, g.earlier hist⟩, fun p' hp' => ?_, fun e he hf => ?_⟩
                · obtain ⟨r, rfl, er⟩ := h8 _ he
                  obtain ⟨rfl, rfl⟩ := ended_ok er
                  obtain ⟨h', g1⟩ := (l2 _ rfl).1 rfl
                  obtain ⟨p', nm, g2, _, g3⟩ := (haft _ rfl).ok rfl
                  exact ⟨rfl, _, h', p', hch, g1, g2.progOf, g3⟩
                · rw [hp] at hp'
                  cases hp'
                  refine hdur.covered.imp (fun g pt hpt => ?_) fun g => g.earlier hist
                  obtain ⟨q, g1, g2⟩ := g pt hpt
                  exact ⟨q, g1, g2.imp id fun g => ⟨_, hch, g.progOf⟩⟩
                · obtain ⟨r, rfl, er⟩ := h8 e he
                  exact ((l2 r rfl).2 (ended_fails (by rw [he, er]) hf)).imp id fun g => g.earlier hist

end Bf.Cli
