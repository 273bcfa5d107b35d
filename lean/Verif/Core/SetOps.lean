import Verif.Props.C24_HashSet
/-!
# Set union and difference on the hashset structures

`bf_set_add_many` and `bf_set_remove_many` of `/repo/src/libbpfilter/set.c`, on the concrete hashset
structures: the loop over the source set while elements are taken from it, and the insertion into (removal from) the
destination.
-/
namespace Bf.CHash
open Bf Bf.CList
variable {α β : Type}

/-- core/hashset.h:110-114 `bf_hashset_foreach`: `cur` is the current element, `nxt` the saved successor. -/
def hsLoop (body : HS α → β → Nat → Res (HS α × β)) : Nat → HS α → β → Option Nat → Option Nat → Res (HS α × β)
  | _, s, b, none, _ => .ok (s, b)
  | 0, _, _, some _, _ => .ub
  | fuel + 1, s, b, some cur, nxt =>
    match body s b cur with
    | .ub => .ub
    | .err e => .err e
    | .ok (s', b') =>
      match nextOf s'.list nxt with
      | .ok nn => hsLoop body fuel s' b' nxt nn
      | .err e => .err e
      | .ub => .ub

/-- core/hashset.h:110-114 `bf_hashset_foreach`, initialisation. -/
def hsForeach (body : HS α → β → Nat → Res (HS α × β)) (fuel : Nat) (s : HS α) (b : β) : Res (HS α × β) :=
  match nextOf s.list s.list.head with
  | .ok nn => hsLoop body fuel s b s.list.head nn
  | .err e => .err e
  | .ub => .ub

/-- set.c:479-490: body of the loop of `bf_set_add_many`.  `alloc` is what the allocator answers, in a given state of the
destination. -/
def addManyBody (o : Ops α) (alloc : HS α → Bool × Option Nat) (src : HS α) (dest : HS α) (cur : Nat) : Res (HS α × HS α) :=
  match src.list.mem cur with
  | none => .ub
  | some nd =>
    match take o src nd.data with
    | .ub => .ub
    | .err e => .err e
    | .ok (_, none) => .err .ENOENT
    | .ok (src', some data) =>
      match add o dest data (alloc dest).1 (alloc dest).2 with
      | .ub => .ub
      | .err e => .err e
      | .ok (dest', none) => .ok (src', dest')
      | .ok (dest', some .EEXIST) => .ok (src', dest')
      | .ok (_, some e) => .err e

/-- set.c:468-496 `bf_set_add_many`, once the keys are known to be the same. -/
def addMany (o : Ops α) (alloc : HS α → Bool × Option Nat) (dest toAdd : HS α) : Res (HS α) :=
  match hsForeach (addManyBody o alloc) toAdd.list.len toAdd dest with
  | .ok (_, d) => .ok d
  | .err e => .err e
  | .ub => .ub

/-- set.c:509-513: body of the loop of `bf_set_remove_many`. -/
def removeManyBody (o : Ops α) (src : HS α) (dest : HS α) (cur : Nat) : Res (HS α × HS α) :=
  match src.list.mem cur with
  | none => .ub
  | some nd =>
    match delete o dest nd.data with
    | .ub => .ub
    | .err e => .err e
    | .ok (dest', none) => .ok (src, dest')
    | .ok (dest', some .ENOENT) => .ok (src, dest')
    | .ok (_, some e) => .err e

/-- set.c:498-518 `bf_set_remove_many`, once the keys are known to be the same. -/
def removeMany (o : Ops α) (dest toRemove : HS α) : Res (HS α) :=
  match hsForeach (removeManyBody o) toRemove.list.len toRemove dest with
  | .ok (_, d) => .ok d
  | .err e => .err e
  | .ub => .ub

/-- `s` holds the elements `xs`, in that order. -/
def Holds (o : Ops α) (s : HS α) (xs : List α) : Prop := ∃ ns, Inv o s ns ∧ ns.map (·.2) = xs

variable [BEq α] [LawfulBEq α]

/-- Equality of elements is equality (set.c:30-33: same bytes), and the hash is a function of the bytes. -/
def Plain (o : Ops α) : Prop := ∀ x y, o.eqv x y = (x == y)

theorem Plain.ok {o : Ops α} (h : Plain o) : OpsOk o where
  refl x := by rw [h]; simp
  symm x y e := by rw [h] at e ⊢; simp at e ⊢; exact e.symm
  trans x y z e f := by rw [h] at e f ⊢; simp at e f ⊢; exact e.trans f
  hash x y e := by rw [h] at e; simp at e; rw [e]

theorem Holds.nodup {o : Ops α} (ho : Plain o) {s : HS α} {xs : List α} (h : Holds o s xs) : xs.Nodup := by
  obtain ⟨ns, hi, rfl⟩ := h
  rw [List.Nodup, List.pairwise_map, List.pairwise_iff_getElem]
  intro i j hi' hj hij e
  have := hi.nodup ns[i].1 ns[i].2 ns[j].1 ns[j].2 (List.getElem_mem hi') (List.getElem_mem hj) (by rw [ho]; simpa using e)
  have e1 : ns[i]? = some (ns[i].1, ns[i].2) := List.getElem?_eq_getElem hi'
  have e2 : ns[j]? = some (ns[j].1, ns[j].2) := List.getElem?_eq_getElem hj
  rw [this] at e1
  have := nodup_idx hi.rep.nodup e1 e2
  omega

theorem mem_pairs {ns : List (Nat × α)} {x : α} (h : x ∈ ns.map (·.2)) : ∃ a, (a, x) ∈ ns := by
  obtain ⟨⟨a, d⟩, hm, rfl⟩ := List.mem_map.mp h
  exact ⟨a, hm⟩

/-- The element at a position of the list is found, and taken. -/
theorem take_head {o : Ops α} (ho : Plain o) {s : HS α} {a : Nat} {d : α} {rest : List (Nat × α)}
    (h : Inv o s ((a, d) :: rest)) : ∃ s', take o s d = .ok (s', some d) ∧ Inv o s' rest := by
  obtain ⟨idx, h1, h2, h3⟩ := find_present ho.ok h (x := d) (List.mem_cons_self ..) (by rw [ho]; simp)
  obtain ⟨s', h4, h5, _⟩ := unlink_spec h (i := 0) rfl h1 h2
  have hc := h.rep.cells 0 a d rfl
  exact ⟨s', by simp only [take, h3, h2, hc, h4]; rfl, h5⟩

theorem erase_eraseIdx {xs : List α} (h : xs.Nodup) {i : Nat} {x : α} (hx : xs[i]? = some x) : xs.erase x = xs.eraseIdx i := by
  induction xs generalizing i with
  | nil => simp at hx
  | cons a xs ih =>
    cases i with
    | zero => simp at hx; subst hx; simp
    | succ i =>
      simp only [List.getElem?_cons_succ] at hx
      have hne : a ≠ x := by
        intro e; subst e
        exact (List.nodup_cons.mp h).1 (List.mem_of_getElem? hx)
      rw [List.erase_cons_tail (by simpa using hne), List.eraseIdx_cons_succ, ih (List.nodup_cons.mp h).2 hx]

theorem delete_elem {o : Ops α} (ho : Plain o) {s : HS α} {xs : List α} (h : Holds o s xs) (x : α) :
    ∃ s', (delete o s x = .ok (s', none) ∨ delete o s x = .ok (s', some .ENOENT)) ∧ Holds o s' (xs.erase x) := by
  have hnd := h.nodup ho
  obtain ⟨ns, hi, rfl⟩ := h
  obtain ⟨s', out, ys, h1, h2, h3⟩ := step_spec ho.ok hi (.delete x) trivial
  simp only [step] at h1
  cases hd : delete o s x with
  | err e => rw [hd] at h1; cases h1
  | ub => rw [hd] at h1; cases h1
  | ok p =>
    obtain ⟨s1, e⟩ := p
    rw [hd] at h1
    cases h1
    generalize hz : ys.map (·.2) = zs at h3
    cases h3 with
    | del hx he =>
      rename_i i y
      rw [ho] at he
      have : y = x := by simpa using he
      subst this
      refine ⟨_, Or.inl rfl, ys, h2, ?_⟩
      rw [hz, erase_eraseIdx hnd hx]
    | delNone hx =>
      refine ⟨_, Or.inr rfl, ys, h2, ?_⟩
      rw [hz, List.erase_of_not_mem]
      intro hm
      have := hx x hm
      rw [ho] at this
      simp at this

theorem add_elem {o : Ops α} (ho : Plain o) {s : HS α} {xs : List α} (h : Holds o s xs) (x : α) (c : Bool) (addr : Option Nat)
    (hf : ∀ a, addr = some a → s.list.mem a = none) :
    (∃ s', (add o s x c addr = .ok (s', none) ∨ add o s x c addr = .ok (s', some .EEXIST)) ∧
      Holds o s' (if xs.contains x then xs else xs ++ [x])) ∨ ∃ s', add o s x c addr = .ok (s', some .ENOMEM) := by
  obtain ⟨ns, hi, rfl⟩ := h
  obtain ⟨s', out, ys, h1, h2, h3⟩ := step_spec ho.ok hi (.add x c addr) (by
    cases addr with
    | none => exact trivial
    | some a => exact hf a rfl)
  simp only [step] at h1
  cases hd : add o s x c addr with
  | err e => rw [hd] at h1; cases h1
  | ub => rw [hd] at h1; cases h1
  | ok p =>
    obtain ⟨s1, e⟩ := p
    rw [hd] at h1
    cases h1
    generalize hz : ys.map (·.2) = zs at h3
    have key : ∀ y ∈ ns.map (·.2), o.eqv y x = false → y ≠ x := by
      intro y _ e1 e2; subst e2; rw [ho] at e1; simp at e1
    cases h3 with
    | addNew hx =>
      refine Or.inl ⟨_, Or.inl rfl, ys, h2, ?_⟩
      rw [hz, if_neg]
      intro hm
      exact key x (by simpa using hm) (hx x (by simpa using hm)) rfl
    | addDup hx =>
      refine Or.inl ⟨_, Or.inr rfl, ys, h2, ?_⟩
      rw [hz, if_pos]
      obtain ⟨y, hy, he⟩ := hx
      rw [ho] at he
      have : y = x := by simpa using he
      subst this
      simpa using hy
    | addNoMem hx => exact Or.inr ⟨_, rfl⟩

/-- An element that may be there already. -/
def withElem (xs : List α) (x : α) : List α := if xs.contains x then xs else xs ++ [x]

theorem addMany_loop {o : Ops α} (ho : Plain o) {alloc : HS α → Bool × Option Nat}
    (ha : ∀ s a, (alloc s).2 = some a → s.list.mem a = none) : ∀ (rest : List (Nat × α)) (src dest : HS α) (ys : List α) (fuel : Nat),
    Inv o src rest → Holds o dest ys → rest.length ≤ fuel →
    (∃ s' d', hsLoop (addManyBody o alloc) fuel src dest (rest[0]?.map (·.1)) (rest[1]?.map (·.1)) = .ok (s', d') ∧
      Inv o s' [] ∧ Holds o d' ((rest.map (·.2)).foldl withElem ys)) ∨
    hsLoop (addManyBody o alloc) fuel src dest (rest[0]?.map (·.1)) (rest[1]?.map (·.1)) = .err .ENOMEM := by
  intro rest
  induction rest with
  | nil =>
    intro src dest ys fuel h1 h2 _
    exact Or.inl ⟨src, dest, by cases fuel <;> rfl, h1, h2⟩
  | cons p rest ih =>
    obtain ⟨a, d⟩ := p
    intro src dest ys fuel h1 h2 hf
    obtain ⟨fuel, rfl⟩ : ∃ f, fuel = f + 1 := ⟨fuel - 1, by simp at hf; omega⟩
    obtain ⟨s', t1, t2⟩ := take_head ho h1
    have hc := h1.rep.cells 0 a d rfl
    have hn : nextOf s'.list (rest[0]?.map (·.1)) = .ok (rest[1]?.map (·.1)) := nextOf_pos t2.rep 0
    simp only [List.getElem?_cons_zero, List.getElem?_cons_succ, Option.map_some, hsLoop, addManyBody, hc]
    have hdat : (nodeAt ((a, d) :: rest) 0 d).data = d := rfl
    rw [hdat, t1]
    rcases add_elem ho h2 d (alloc dest).1 (alloc dest).2 (fun x hx => ha dest x hx) with ⟨d', e, hd⟩ | ⟨d', e⟩
    · rcases e with e | e
      all_goals
        simp only [e, hn]
        exact ih s' d' _ fuel t2 hd (by simp at hf; omega)
    · right
      simp only [e]

/-- **Union.**  Whatever the allocator does, `bf_set_add_many` ends without invalid access, and either runs out of memory or gives
the destination the elements of both sets, its own first. -/
theorem addMany_spec {o : Ops α} (ho : Plain o) {alloc : HS α → Bool × Option Nat}
    (ha : ∀ s a, (alloc s).2 = some a → s.list.mem a = none) {src dest : HS α} {xs ys : List α}
    (h1 : Holds o src xs) (h2 : Holds o dest ys) :
    (∃ d, addMany o alloc dest src = .ok d ∧ Holds o d (xs.foldl withElem ys)) ∨ addMany o alloc dest src = .err .ENOMEM := by
  obtain ⟨ns, hi, rfl⟩ := h1
  have h0 : nextOf src.list src.list.head = .ok (ns[1]?.map (·.1)) := by
    have := nextOf_pos hi.rep 0
    rw [← List.head?_eq_getElem?, ← hi.rep.head] at this
    exact this
  have hh : src.list.head = ns[0]?.map (·.1) := by rw [hi.rep.head, List.head?_eq_getElem?]
  unfold addMany hsForeach
  rw [h0]
  dsimp only
  rw [hh]
  rcases addMany_loop ho ha ns src dest ys src.list.len hi h2 (by rw [hi.rep.len]; exact Nat.le_refl _) with ⟨s', d', e, _, hd⟩ | e
  · left; exact ⟨d', by rw [e], hd⟩
  · right; rw [e]

theorem removeMany_loop {o : Ops α} (ho : Plain o) {src : HS α} {ns : List (Nat × α)} (hi : Inv o src ns) :
    ∀ (fuel i : Nat) (dest : HS α) (ys : List α), Holds o dest ys → ns.length - i ≤ fuel →
    ∃ d', hsLoop (removeManyBody o) fuel src dest (ns[i]?.map (·.1)) (ns[i + 1]?.map (·.1)) = .ok (src, d') ∧
      Holds o d' (((ns.drop i).map (·.2)).foldl List.erase ys) := by
  intro fuel
  induction fuel with
  | zero =>
    intro i dest ys h hf
    have e : ns[i]? = none := List.getElem?_eq_none (by omega)
    have e2 : ns.drop i = [] := List.drop_eq_nil_of_le (by omega)
    rw [e, e2]
    exact ⟨dest, rfl, h⟩
  | succ n ih =>
    intro i dest ys h hf
    cases hx : ns[i]? with
    | none =>
      have e2 : ns.drop i = [] := List.drop_eq_nil_of_le (by simpa using hx)
      rw [e2]
      exact ⟨dest, rfl, h⟩
    | some p =>
      obtain ⟨a, d⟩ := p
      have hlt : i < ns.length := (List.getElem?_eq_some_iff.1 hx).1
      have hd : ns.drop i = (a, d) :: ns.drop (i + 1) := by
        rw [List.drop_eq_getElem_cons hlt]
        rw [List.getElem?_eq_getElem hlt] at hx
        simp at hx; rw [hx]
      obtain ⟨d1, e, h1⟩ := delete_elem ho h d
      obtain ⟨d2, e2, h2⟩ := ih (i + 1) d1 _ h1 (by omega)
      have hc := hi.rep.cells i a d hx
      have hdat : (nodeAt ns i d).data = d := rfl
      refine ⟨d2, ?_, by rw [hd]; exact h2⟩
      simp only [Option.map_some, hsLoop, removeManyBody, hc]
      rw [hdat]
      rcases e with e | e
      all_goals
        simp only [e, nextOf_pos hi.rep (i + 1)]
        exact e2

/-- **Difference.**  `bf_set_remove_many` ends without invalid access, and removes the elements of the source from the
destination. -/
theorem removeMany_spec {o : Ops α} (ho : Plain o) {src dest : HS α} {xs ys : List α}
    (h1 : Holds o src xs) (h2 : Holds o dest ys) :
    ∃ d, removeMany o dest src = .ok d ∧ Holds o d (xs.foldl List.erase ys) := by
  obtain ⟨ns, hi, rfl⟩ := h1
  have h0 : nextOf src.list src.list.head = .ok (ns[1]?.map (·.1)) := by
    have := nextOf_pos hi.rep 0
    rw [← List.head?_eq_getElem?, ← hi.rep.head] at this
    exact this
  have hh : src.list.head = ns[0]?.map (·.1) := by rw [hi.rep.head, List.head?_eq_getElem?]
  unfold removeMany hsForeach
  rw [h0]
  dsimp only
  rw [hh]
  obtain ⟨d, e, h⟩ := removeMany_loop ho hi src.list.len 0 dest ys h2 (by rw [hi.rep.len]; omega)
  exact ⟨d, by rw [e], by simpa using h⟩

/-! ### What the loops compute -/

theorem mem_foldl_withElem {xs ys : List α} {x : α} : x ∈ xs.foldl withElem ys ↔ x ∈ ys ∨ x ∈ xs := by
  induction xs generalizing ys with
  | nil => simp
  | cons a xs ih =>
    rw [List.foldl_cons, ih]
    unfold withElem
    split
    · next h =>
      have : a ∈ ys := by simpa using h
      constructor
      · rintro (h | h)
        · exact Or.inl h
        · exact Or.inr (List.mem_cons_of_mem _ h)
      · rintro (h | h)
        · exact Or.inl h
        · rcases List.mem_cons.mp h with rfl | h
          · exact Or.inl this
          · exact Or.inr h
    · simp only [List.mem_append, List.mem_cons, List.not_mem_nil, or_false]
      constructor
      · rintro ((h | h) | h)
        · exact Or.inl h
        · exact Or.inr (Or.inl h)
        · exact Or.inr (Or.inr h)
      · rintro (h | h | h)
        · exact Or.inl (Or.inl h)
        · exact Or.inl (Or.inr h)
        · exact Or.inr h

theorem nodup_foldl_withElem {xs ys : List α} (h : ys.Nodup) : (xs.foldl withElem ys).Nodup := by
  induction xs generalizing ys with
  | nil => exact h
  | cons a xs ih =>
    rw [List.foldl_cons]
    apply ih
    unfold withElem
    split
    · exact h
    · next hn =>
      rw [List.nodup_append]
      refine ⟨h, by simp, ?_⟩
      intro x hx y hy
      simp at hy
      subst hy
      intro e
      subst e
      exact hn (by simpa using hx)

theorem foldl_erase_nodup {xs ys : List α} (h : ys.Nodup) : (xs.foldl List.erase ys).Nodup := by
  induction xs generalizing ys with
  | nil => exact h
  | cons a xs ih => rw [List.foldl_cons]; exact ih (h.erase a)

theorem mem_foldl_erase {xs ys : List α} (hn : ys.Nodup) {x : α} : x ∈ xs.foldl List.erase ys ↔ x ∈ ys ∧ x ∉ xs := by
  induction xs generalizing ys with
  | nil => simp
  | cons a xs ih =>
    rw [List.foldl_cons, ih (hn.erase a), hn.mem_erase_iff]
    simp only [List.mem_cons, not_or]
    constructor
    · rintro ⟨⟨h1, h2⟩, h3⟩; exact ⟨h2, h1, h3⟩
    · rintro ⟨h1, h2, h3⟩; exact ⟨⟨h2, h1⟩, h3⟩

end Bf.CHash
