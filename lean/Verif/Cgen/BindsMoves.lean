import Verif.Cgen.BindsOps
import Verif.Cgen.Fair
import Verif.Spec.KernelMaps
/-!
# What is known of maps is true, and stays so
-/
namespace Bf.Pin
open Spec (madeAs)

variable {α : Type} {w w' : K} {Ts : Target → Prop} {G s t : Know} {c : Call} {a : Ans}

/-- What is known of a map is true of it. -/
def Kn.Of : Kn → Obj → Prop
  | .raw d, x => (d.type = .set → x = .map (.keyed d [])) ∧ (d.type = .counters → ∃ f, x = .map (.counters f)) ∧ ∃ c, x = .map c
  | .full d l, x => x = .map (.keyed d l)

theorem Kn.Of.map {k : Kn} {x : Obj} (h : k.Of x) : ∃ c, x = .map c := by
  cases k with
  | raw d => exact h.2.2
  | full d l => exact ⟨_, h⟩

/-- All that is known is true. -/
structure True_ (G : Know) (w : K) : Prop where
  obj : ∀ o k, G o = some k → ∃ x, w.objs[o]? = some x ∧ k.Of x
  made : ∀ o k, G o = some k → madeAs o w.hist = some k.d

theorem True_.lt (h : True_ G w) {o : Nat} {k : Kn} (e : G o = some k) : o < w.objs.length := by
  obtain ⟨x, h1, _⟩ := h.obj o k e
  exact (List.getElem?_eq_some_iff.mp h1).1

theorem True_.fresh (h : True_ G w) (hs : Step w c a w') : Fresh G c a := by
  rintro d o rfl rfl
  cases hs with
  | ok h1 =>
    simp only [K.ok] at h1
    cases h1
    cases e : G w.objs.length with
    | none => rfl
    | some k => exact absurd (h.lt e) (Nat.lt_irrefl _)

theorem madeAs_step {o : Nat} (hs : Step w c a w') (ho : o < w.objs.length) : madeAs o w'.hist = madeAs o w.hist := by
  rw [hs.hist]
  have key : ∀ h, madeAs o ((c, a) :: h) = madeAs o h := by
    intro h
    cases c with
    | mapCreate d =>
      cases a with
      | id o' =>
        cases hs with
        | ok h1 =>
          simp only [K.ok] at h1
          cases h1
          show (if w.objs.length = o then some d else madeAs o h) = _
          rw [if_neg (by omega)]
      | _ => rfl
    | _ => cases a <;> rfl
  exact key _

/-- A call that does not fill the map leaves it as it is known. -/
theorem Of_step {o : Nat} {k : Kn} {x : Obj} (hs : Step w c a w') (hx : w.objs[o]? = some x) (hk : k.Of x) (hf : ∀ l, c ≠ .mapFill o l) : ∃ x', w'.objs[o]? = some x' ∧ k.Of x' := by
  have hlt := (List.getElem?_eq_some_iff.mp hx).1
  have hlt' : o < w'.objs.length := Nat.lt_of_lt_of_le hlt (step_len hs)
  refine ⟨_, List.getElem?_eq_getElem hlt', ?_⟩
  obtain ⟨ct, rfl⟩ := hk.map
  rcases step_changed hs (List.getElem?_eq_getElem hlt') with h | h
  · rw [hx, Option.some.injEq] at h
    rw [← h]
    exact hk
  · generalize w'.objs[o] = y at h
    cases h with
    | map => omega
    | prog => omega
    | link _ => omega
    | write hb =>
      rw [hx] at hb
      cases hb
      cases k with
      | raw d => exact ⟨fun e => (by cases hk.1 e), fun e => (by obtain ⟨f, hf⟩ := hk.2.1 e; cases hf), _, rfl⟩
      | full d l => cases hk
    | fill _ => exact absurd rfl (hf _)
    | count hb =>
      rw [hx] at hb
      cases hb
      cases k with
      | raw d => exact ⟨fun e => (by cases hk.1 e), fun e => ⟨_, rfl⟩, _, rfl⟩
      | full d l => cases hk
    | update hb _ => rw [hx] at hb; cases hb
    | detach hb => rw [hx] at hb; cases hb

/-- What one knows is known. -/
def Know.In (s G : Know) : Prop := ∀ o k, s o = some k → G o = some k

theorem Know.In.le (h : s.In G) : s.Le G := ⟨fun o _ _ e => h o _ e, fun o _ ⟨k, e, hk⟩ => ⟨k, h o _ e, hk⟩⟩

def Know.Apart (s t : Know) : Prop := ∀ o, s o = none ∨ t o = none

theorem True_.step (h : True_ G w) (hin : s.In G) (hA : c.Allowed Ts s) (hs : Step w c a w') : True_ (G.after c a) w' := by
  have hF := h.fresh hs
  have old : ∀ o k, G o = some k → (∀ l, c ≠ .mapFill o l) → (∃ x, w'.objs[o]? = some x ∧ k.Of x) ∧ madeAs o w'.hist = some k.d := fun o k e hf => by
    obtain ⟨x, h1, h2⟩ := h.obj o k e
    exact ⟨Of_step hs h1 h2 hf, by rw [madeAs_step hs (h.lt e)]; exact h.made o k e⟩
  have key : ∀ o k, G.after c a o = some k → (∃ x, w'.objs[o]? = some x ∧ k.Of x) ∧ madeAs o w'.hist = some k.d := by
    intro o k e
    unfold Know.after at e
    split at e
    · next d n =>
      by_cases hn : o = n
      · rw [if_pos hn, Option.some.injEq] at e
        subst e
        subst hn
        cases hs with
        | ok h1 =>
          simp only [K.ok] at h1
          cases h1
          refine ⟨⟨.map (initial w.ncpu d), by simp [K.new, K.log], ?_⟩, by simp [madeAs, K.log, Kn.d]⟩
          refine ⟨fun e => (by simp [initial, e]), fun e => (by simp [initial, e]), _, rfl⟩
      · rw [if_neg hn] at e
        exact old o k e (by simp)
    · cases hs with
      | fail _ => exact ⟨h.obj o k e, by rw [← h.made o k e]; rfl⟩
      | ok h1 => exact absurd h1 (by simp only [K.ok]; split <;> simp)
    · next _ m l hne =>
      by_cases hm : o = m
      · subst hm
        replace e : (if o = o then Option.map (fun k => Kn.full k.d l) (G o) else G o) = some k := e
        rw [if_pos rfl] at e
        obtain ⟨d, hd, ht⟩ := hA
        have hG := hin _ _ hd
        rw [hG] at e
        cases e
        obtain ⟨x, h1, h2⟩ := h.obj o _ hG
        have h2 := h2.1 ht
        subst h2
        refine ⟨⟨.map (.keyed d l), ?_, rfl⟩, by rw [madeAs_step hs (h.lt hG)]; exact h.made o (.raw d) hG⟩
        cases hs with
        | fail _ => exact absurd rfl (hne _)
        | ok h3 =>
          simp only [K.ok, h1] at h3
          cases h3
          simp [K.put, K.log, (List.getElem?_eq_some_iff.mp h1).1]
      · replace e : (if o = m then Option.map (fun k => Kn.full k.d l) (G m) else G o) = some k := e
        rw [if_neg hm] at e
        exact old o k e (by rintro l' ⟨⟩; exact hm rfl)
    · exact old o k e (by
        rintro l rfl
        simp_all)
  exact ⟨fun o k e => (key o k e).1, fun o k e => (key o k e).2⟩

theorem After.in (hin : s.In G) (hA : c.Allowed Ts s) : (s.after c a).In (G.after c a) := by
  intro o k e
  unfold Know.after at e ⊢
  split at e
  · next d n =>
    split at e
    · next h => rw [if_pos h]; exact e
    · next h => rw [if_neg h]; exact hin _ _ e
  · exact hin _ _ e
  · next _ m l _ =>
    obtain ⟨d, hd, _⟩ := hA
    dsimp only at e ⊢
    split at e
    · next h => rw [if_pos h, hin _ _ hd]; rw [hd] at e; exact e
    · next h => rw [if_neg h]; exact hin _ _ e
  · exact hin _ _ e

/-- What others know does not change. -/
theorem After.others (ht : t.In G) (hap : s.Apart t) (hA : c.Allowed Ts s) (hF : Fresh G c a) : t.In (G.after c a) := by
  intro o k e
  have hG := ht o k e
  unfold Know.after
  split
  · next d n =>
    have : o ≠ n := by rintro rfl; rw [hF d o rfl rfl] at hG; cases hG
    rw [if_neg this]
    exact hG
  · exact hG
  · next _ m l _ =>
    obtain ⟨d, hd, _⟩ := hA
    have : o ≠ m := by
      rintro rfl
      rcases hap o with h | h
      · rw [h] at hd; cases hd
      · rw [h] at e; cases e
    dsimp only
    rw [if_neg this]
    exact hG
  · exact hG

theorem After.apart (ht : t.In G) (hap : s.Apart t) (hF : Fresh G c a) : (s.after c a).Apart t := by
  intro o
  rcases hap o with h | h
  · unfold Know.after
    split
    · next d n =>
      by_cases hn : o = n
      · subst hn
        cases e : t o with
        | none => exact .inr rfl
        | some k => have := ht o k e; rw [hF d o rfl rfl] at this; cases this
      · rw [if_neg hn]; exact .inl h
    · exact .inl h
    · next _ m l _ =>
      dsimp only
      by_cases hn : o = m
      · subst hn; rw [if_pos rfl, h]; exact .inl rfl
      · rw [if_neg hn]; exact .inl h
    · exact .inl h
  · exact .inr h

/-- The programs made since there were `n` objects have maps that are known. -/
def AllBound (Ts : Target → Prop) (n : Nat) (G : Know) (w : K) : Prop := ∀ p c img m, n ≤ p → w.objs[p]? = some (.prog c img m) → Bound Ts G c img m

theorem AllBound.step {n : Nat} (hT : True_ G w) (h : AllBound Ts n G w) (hin : s.In G) (hA : c.Allowed Ts s) (hs : Step w c a w') : AllBound Ts n (G.after c a) w' := by
  have hle : G.Le (G.after c a) := by
    have hF := hT.fresh hs
    by_cases hp : ∃ m l, c = .mapFill m l
    · obtain ⟨m, l, rfl⟩ := hp
      obtain ⟨d, h1, h2⟩ := hA
      exact Know.after_le (Ts := Ts) ⟨d, hin _ _ h1, h2⟩ hF
    · unfold Know.after
      split
      · exact Know.after_le (Ts := Ts) (c := .mapCreate _) (a := .id _) trivial hF
      · exact .refl _
      · exact absurd ⟨_, _, rfl⟩ hp
      · exact .refl _
  intro p ch img m hn hx
  rcases step_changed hs hx with hx | hx
  · exact (h p ch img m hn hx).le hle
  · cases hx with
    | prog => exact (Bound.le hA hin.le).le hle

theorem AllBound.packets {n : Nat} (h : AllBound Ts n G w) (hp : Packets w w') : AllBound Ts n G w' := by
  intro p ch img m hn hx
  have hlt : p < w.objs.length := by rw [← hp.len]; exact (List.getElem?_eq_some_iff.mp hx).1
  rcases hp.objs p _ (List.getElem?_eq_getElem hlt) with e | ⟨⟨_, f', _, e⟩, _⟩
  · rw [e] at hx
    exact h p ch img m hn (by rw [List.getElem?_eq_getElem hlt]; exact hx)
  · rw [e] at hx; cases hx

theorem True_.packets (h : True_ G w) (hp : Packets w w') : True_ G w' := by
  have eh : w'.hist = w.hist := by rw [hp.same]
  refine ⟨fun o k e => ?_, fun o k e => by rw [eh]; exact h.made o k e⟩
  obtain ⟨x, h1, h2⟩ := h.obj o k e
  rcases hp.objs o x h1 with e' | ⟨⟨f, f', rfl, e'⟩, _⟩
  · exact ⟨x, e', h2⟩
  · refine ⟨_, e', ?_⟩
    cases k with
    | raw d => exact ⟨fun e => (by cases h2.1 e), fun _ => ⟨_, rfl⟩, _, rfl⟩
    | full d l => cases h2

end Bf.Pin
