import Verif.Props.C15_Inert
/-!
# C15: chains whose sets were changed

`update-set` changes the sets of a chain after its rules were checked.  A rule whose set became empty is
still enabled, but then no program can be generated (matcher/set.c:32-36): a rule of a *loaded* chain
that references an empty set is always disabled.
-/
namespace Bf
open Spec

/-- If the generator succeeds, then `P`. -/
def Says {α : Type} (g : Gen α) (P : Prop) : Prop := ∀ p r, g p = .ok r → P

theorem Says.left {α β : Type} {x : Gen α} {f : α → Gen β} {P : Prop} (h : Says x P) : Says (x >>= f) P := by
  intro p r hr
  obtain ⟨a, h1, _⟩ := Res.bind_eq_ok (show (x p).bind (fun ap => f ap.1 ap.2) = .ok r from hr)
  exact h p a h1

theorem Says.right {α β : Type} {x : Gen α} {f : α → Gen β} {P : Prop} (h : ∀ a, Says (f a) P) : Says (x >>= f) P := by
  intro p r hr
  obtain ⟨a, _, h2⟩ := Res.bind_eq_ok (show (x p).bind (fun ap => f ap.1 ap.2) = .ok r from hr)
  exact h a.1 a.2 r h2

theorem Says.lift {α β : Type} {x : Res α} {f : α → Gen β} {P : Prop} (h : ∀ a, x = .ok a → Says (f a) P) :
    Says (Bf.lift x >>= f) P := by
  intro p r hr
  obtain ⟨a, h1, h2⟩ := Res.bind_eq_ok (show (Bf.lift x p).bind (fun ap => f ap.1 ap.2) = .ok r from hr)
  obtain ⟨b, h3, h4⟩ := Res.bind_eq_ok h1
  cases h4
  exact h b h3 p r h2

theorem Says.fail {α : Type} {e : Errno} {P : Prop} : Says (Bf.fail e : Gen α) P := by
  intro p r hr; cases hr

theorem Says.abort {α : Type} {P : Prop} : Says (Bf.abort : Gen α) P := by
  intro p r hr; cases hr

/-- A set matcher whose set is not in any group has no code. -/
theorem mapLookup_says {C : Cfg} {m : Matcher} {o : Int} :
    Says (mapLookup C m o) (∃ i s, C.chain.setFor m = .ok (some (i, s)) ∧ ∃ b, bitIndex C.groups i = .ok b) := by
  unfold mapLookup
  refine .lift fun a ha => ?_
  cases a with
  | none => exact .fail
  | some p =>
    obtain ⟨i, s⟩ := p
    exact .lift fun b hb => fun _ _ _ => ⟨i, s, ha, b, hb⟩

theorem trieLookup_says {C : Cfg} {m : Matcher} {a b : Nat} :
    Says (trieLookup C m a b) (∃ i s, C.chain.setFor m = .ok (some (i, s)) ∧ ∃ b, bitIndex C.groups i = .ok b) :=
  .right fun _ => .right fun _ => .right fun _ => mapLookup_says

theorem pktSet_says {C : Cfg} {m : Matcher} :
    Says (pktSet C m) (∃ i s, C.chain.setFor m = .ok (some (i, s)) ∧ ∃ b, bitIndex C.groups i = .ok b) := by
  unfold pktSet
  refine .lift fun a ha => ?_
  cases a with
  | none => exact .fail
  | some p =>
    obtain ⟨i, s⟩ := p
    simp only
    split
    · split
      · exact .abort
      · exact .right fun _ => trieLookup_says
    · exact .right fun _ => mapLookup_says

theorem saSet_says {C : Cfg} {m : Matcher} :
    Says (saSet C m) (∃ i s, C.chain.setFor m = .ok (some (i, s)) ∧ ∃ b, bitIndex C.groups i = .ok b) := by
  unfold saSet
  refine .lift fun a ha => ?_
  cases a with
  | none => exact .fail
  | some p =>
    obtain ⟨i, s⟩ := p
    simp only
    split
    · split
      · exact .abort
      · split
        · exact .fail
        · exact trieLookup_says
    · exact .right fun _ => mapLookup_says

theorem inlineMatcher_says {C : Cfg} {m : Matcher} (ht : m.type = .set) :
    Says (inlineMatcher C m) (∃ i s, C.chain.setFor m = .ok (some (i, s)) ∧ ∃ b, bitIndex C.groups i = .ok b) := by
  have h1 : Says (flavorMatcher C m) (∃ i s, C.chain.setFor m = .ok (some (i, s)) ∧ ∃ b, bitIndex C.groups i = .ok b) := by
    unfold flavorMatcher
    split <;> try (rename_i h; rw [ht] at h; cases h)
    unfold packetMatcher
    rw [ht]
    exact pktSet_says
  unfold inlineMatcher
  split
  · unfold saMatcher
    rw [ht]
    exact saSet_says
  · exact h1

theorem matchers_says {C : Cfg} {ms : List Matcher} {m : Matcher} (hm : m ∈ ms) (ht : m.type = .set) :
    Says (matchers C ms) (∃ i s, C.chain.setFor m = .ok (some (i, s)) ∧ ∃ b, bitIndex C.groups i = .ok b) := by
  induction ms with
  | nil => cases hm
  | cons m' ms ih =>
    unfold matchers
    rcases List.mem_cons.mp hm with rfl | hm
    · exact .left (inlineMatcher_says ht)
    · exact .right fun _ => ih hm

theorem genRules_says {C : Cfg} {rs : List Rule} {r : Rule} (hr : r ∈ rs) (hd : r.disabled = false) {m : Matcher}
    (hm : m ∈ r.matchers) (ht : m.type = .set) :
    Says (genRules C rs) (∃ i s, C.chain.setFor m = .ok (some (i, s)) ∧ ∃ b, bitIndex C.groups i = .ok b) := by
  induction rs with
  | nil => cases hr
  | cons r' rs ih =>
    unfold genRules
    rcases List.mem_cons.mp hr with rfl | hr
    · refine .left ?_
      unfold genRule
      rw [if_neg (by simp [hd])]
      exact .right fun _ => .left (matchers_says hm ht)
    · exact .right fun _ => ih hr

theorem compile_says {c : Chain} {thr : Nat → BitVec 32} {slen : Stub → Nat} {M : MapFds} {img : List Insn}
    (h : compile c thr slen M = .ok img) {r : Rule} (hr : r ∈ c.rules) (hd : r.disabled = false) {m : Matcher}
    (hm : m ∈ r.matchers) (ht : m.type = .set) :
    ∃ i s, c.setFor m = .ok (some (i, s)) ∧ ∃ b, bitIndex (buildGroups c.sets) i = .ok b := by
  unfold compile at h
  obtain ⟨p, h1, _⟩ := Res.bind_eq_ok h
  unfold genProgram at h1
  obtain ⟨q, h2, _⟩ := Res.bind_eq_ok h1
  refine (?_ : Says (genMain ⟨c, buildGroups c.sets, thr⟩) _) _ _ h2
  rw [genMain_eq]
  exact .right fun _ => .right fun _ => .right fun _ => .left
    (genRules_says (C := ⟨c, buildGroups c.sets, thr⟩) hr hd hm ht)

theorem addToGroups_nonempty {sets : List BSet} {i : Nat} {s : BSet} (hs : sets[i]? = some s) (he : s.elems ≠ [])
    {gs : Groups} (h : ∀ g ∈ gs, ∀ k ∈ g, ∃ t, sets[k]? = some t ∧ t.elems ≠ []) :
    ∀ g ∈ addToGroups sets i s gs, ∀ k ∈ g, ∃ t, sets[k]? = some t ∧ t.elems ≠ [] := by
  intro g hg k hk
  rcases addToGroups_mem hg with hg | rfl | ⟨g0, h0, rfl, _⟩
  · exact h g hg k hk
  · simp at hk; subst hk; exact ⟨s, hs, he⟩
  · rcases List.mem_append.mp hk with hk | hk
    · exact h g0 h0 k hk
    · simp at hk; subst hk; exact ⟨s, hs, he⟩

/-- Groups only hold sets with elements. -/
theorem buildGroupsFrom_nonempty {sets rest : List BSet} {n : Nat} {gs : Groups} (hr : sets.drop n = rest)
    (h : ∀ g ∈ gs, ∀ k ∈ g, ∃ t, sets[k]? = some t ∧ t.elems ≠ []) :
    ∀ g ∈ buildGroupsFrom sets n rest gs, ∀ k ∈ g, ∃ t, sets[k]? = some t ∧ t.elems ≠ [] := by
  induction rest generalizing n gs with
  | nil => exact h
  | cons s rest ih =>
    have hs : sets[n]? = some s := by
      have := congrArg (·[0]?) hr
      simpa using this
    unfold buildGroupsFrom
    refine ih ?_ ?_
    · have := congrArg List.tail hr
      simpa using this
    · split
      · exact h
      · next he => exact addToGroups_nonempty hs (by intro e; rw [e] at he; exact he rfl) h

/-- **C15.**  In a loaded chain (whatever was done to its sets), a rule referencing an empty set is
disabled. -/
theorem C15_loaded_empty {E : Env} {chain : Chain} {thr : Nat → BitVec 32} {img : List Insn}
    (h : IsLoaded E chain thr img) {r : Rule} (hr : r ∈ chain.rules) (hi : RefsEmptySet chain.sets r) :
    r.disabled = true := by
  cases hd : r.disabled with
  | true => rfl
  | false =>
    obtain ⟨m, hm, ht, s, hs, he⟩ := hi
    obtain ⟨slen, M, hc, _⟩ := h.prog
    obtain ⟨i, s', h1, b, h2⟩ := compile_says hc hr hd hm ht
    have hix : i = host m.payload 0 4 := by
      unfold Chain.setFor at h1
      rw [if_neg (by simp [ht])] at h1
      obtain ⟨n, a1, a2⟩ := Res.bind_eq_ok h1
      rw [rd_host a1] at a2
      rw [hs] at a2
      cases a2
      rfl
    unfold bitIndex at h2
    split at h2
    · next g hg =>
      have hmem := List.mem_of_find?_eq_some hg
      have hin : i ∈ g := by simpa using List.find?_some hg
      obtain ⟨t, t1, t2⟩ := buildGroupsFrom_nonempty (sets := chain.sets) (n := 0) (gs := []) (by simp) (by simp) g hmem i hin
      rw [hix, hs] at t1
      cases t1
      exact absurd he t2
    · cases h2

variable {E E' : Env} {chain chain' : Chain} {thr : Nat → BitVec 32} {img img' : List Insn} {w w' u u' : World}
  {r r' : BitVec 64}

/-- **C15.**  A rule of a loaded chain that can't match never fires, whatever the packet and whatever was
done to the chain's sets since the rules were checked. -/
theorem C15_loaded_never_fires (h : IsLoaded E chain thr img) {c : Sem} (hc : Sees E chain thr c) {rule : Rule}
    (hr : rule ∈ chain.rules) (hi : Inert chain.sets rule) (w : World) : ¬ Fires c rule w := by
  rcases hi with hi | hi
  · intro hf
    have := C15_loaded_empty h hr hi
    rw [hf.1] at this
    cases this
  · exact C15_needs_two hc hi w

/-- **C15.**  ... never counts. -/
theorem C15_loaded_never_counts (h : IsLoaded E chain thr img) (hr : Runs E img w r w')
    {k : Nat} {rule : Rule} (hk : chain.rules[k]? = some rule) (hi : Inert chain.sets rule) : w'.counters k = w.counters k := by
  rw [C03_counters h hr k, if_neg]
  have hlt := (List.getElem?_eq_some_iff.mp hk).1
  rintro (⟨c, hc, q, wk, a, _, _, d⟩ | ⟨e, _⟩ | ⟨e, _⟩)
  · rw [hk] at a; cases a
    exact C15_loaded_never_fires h hc (List.mem_of_getElem? hk) hi wk d
  · omega
  · omega

namespace Sample

/-- The sample chain with, in second position, a rule that needs both IPv4 and IPv6. -/
def mSaddr6 : Matcher := ⟨.ip6Saddr, .eq, List.replicate 16 0, false⟩
def long : Chain where
  name := "sample"
  hook := .xdp
  policy := .accept
  sets := [set0]
  rules := [{ rule [mSaddr] .continue_ with log := 2, rate := 1000 },
    { rule [mSaddr, mSaddr6] .drop with index := 1, disabled := true },
    { rule [mSet] .drop with index := 2 }, { rule [mSaddr, mDport] .drop with index := 3 }]
  flagLog := true
  flagRate := true
  flagNexthdr := false

theorem long_new : chainNew "sample" .xdp .accept [set0]
    ([{ rule [mSaddr] .continue_ with log := 2, rate := 1000 }] ++ rule [mSaddr, mSaddr6] .drop ::
      [rule [mSet] .drop, rule [mSaddr, mDport] .drop]) = .ok long := by decide

theorem long_loaded (base : Env) : ∃ img, IsLoaded (envOf base long) long Sample.thr img := by
  obtain ⟨img, h⟩ := compiles_of (chain := long) (thr := Sample.thr) (slen := slen) (by decide +kernel)
  exact ⟨img, .of_compile (.new long_new) (by decide) sets (by decide) (by decide) (by intro h; cases h) h⟩

end Sample

/-- The hypotheses of `C15_removal` are met. -/
example : ∃ img img', chainNew "sample" .xdp .accept [Sample.set0]
      ([{ Sample.rule [Sample.mSaddr] .continue_ with log := 2, rate := 1000 }] ++
        [Sample.rule [Sample.mSet] .drop, Sample.rule [Sample.mSaddr, Sample.mDport] .drop]) = .ok Sample.chain ∧
    Inert [Sample.set0] (Sample.rule [Sample.mSaddr, Sample.mSaddr6] .drop) ∧
    IsLoaded (envOf Sample.base Sample.chain) Sample.chain Sample.thr img ∧
    IsLoaded (envOf Sample.base Sample.long) Sample.long Sample.thr img' ∧
    SameArrival (envOf Sample.base Sample.chain) (envOf Sample.base Sample.long) := by
  obtain ⟨img, h⟩ := Sample.loaded
  obtain ⟨img', h'⟩ := Sample.long_loaded Sample.base
  refine ⟨img, img', Sample.chain_new, Or.inr ?_, h, h', ⟨rfl, rfl, rfl, rfl, rfl, rfl, rfl, rfl, rfl, rfl, rfl, rfl, rfl, rfl, rfl⟩⟩
  exact ⟨.ip4Saddr, .ip6Saddr, ⟨Sample.mSaddr, by simp [Sample.rule], Or.inl ⟨by decide, rfl⟩⟩,
    ⟨Sample.mSaddr6, by simp [Sample.rule], Or.inl ⟨by decide, rfl⟩⟩, Or.inl ⟨.ip4, .ip6, rfl, rfl, by decide⟩⟩

end Bf
