import Verif.Core.HashSetLemmas
/-!
# C24 — the hashset behaves as an insertion-ordered set

Specification: a duplicate-free `List α` (modulo the user's equality), new elements
at the end. The theorem covers every history of calls and every allocator behaviour.
-/
namespace Bf.CHash
open Bf Bf.CList
variable {α : Type}

/-- One API call with the allocator's behaviour during the call. -/
inductive Op (α : Type)
  | add (x : α) (callocOk : Bool) (addr : Option Nat)
  | delete (x : α)
  | take (x : α)
  | reserve (n : Nat) (callocOk : Bool)
  | contains (x : α)

/-- What a call reports to its caller. -/
inductive Out (α : Type)
  | code (e : Option Errno)
  | taken (x : Option α)
  | bool (b : Bool)
  deriving DecidableEq

/-- Executing one call on the concrete structure. -/
def step (o : Ops α) (s : HS α) : Op α → Res (HS α × Out α)
  | .add x c a => match add o s x c a with
    | .ok (s', e) => .ok (s', .code e)
    | .err e => .err e
    | .ub => .ub
  | .delete x => match delete o s x with
    | .ok (s', e) => .ok (s', .code e)
    | .err e => .err e
    | .ub => .ub
  | .take x => match take o s x with
    | .ok (s', e) => .ok (s', .taken e)
    | .err e => .err e
    | .ub => .ub
  | .reserve n c => match reserve o s n c with
    | .ok (s', e) => .ok (s', .code e)
    | .err e => .err e
    | .ub => .ub
  | .contains x => match contains o s x with
    | .ok b => .ok (s, .bool b)
    | .err e => .err e
    | .ub => .ub

/-- Meaning of one call: `SpecStep o xs op out ys` says that on content `xs` the call may
answer `out` and leave content `ys`. Only running out of memory is nondeterministic (see
`C24_add_succeeds` for when it cannot happen). -/
inductive SpecStep (o : Ops α) (xs : List α) : Op α → Out α → List α → Prop
  | addNew {x c a} : (∀ y ∈ xs, o.eqv y x = false) →
      SpecStep o xs (.add x c (some a)) (.code none) (xs ++ [x])
  | addDup {x c a} : (∃ y ∈ xs, o.eqv y x = true) →
      SpecStep o xs (.add x c a) (.code (some .EEXIST)) xs
  | addNoMem {x c a} : (∀ y ∈ xs, o.eqv y x = false) →
      SpecStep o xs (.add x c a) (.code (some .ENOMEM)) xs
  | del {x i y} : xs[i]? = some y → o.eqv y x = true →
      SpecStep o xs (.delete x) (.code none) (xs.eraseIdx i)
  | delNone {x} : (∀ y ∈ xs, o.eqv y x = false) →
      SpecStep o xs (.delete x) (.code (some .ENOENT)) xs
  | take {x i y} : xs[i]? = some y → o.eqv y x = true →
      SpecStep o xs (.take x) (.taken (some y)) (xs.eraseIdx i)
  | takeNone {x} : (∀ y ∈ xs, o.eqv y x = false) →
      SpecStep o xs (.take x) (.taken none) xs
  | reserve {n c} : SpecStep o xs (.reserve n c) (.code none) xs
  | reserveNoMem {n c} : SpecStep o xs (.reserve n c) (.code (some .ENOMEM)) xs
  | contains {x} : SpecStep o xs (.contains x) (.bool (xs.any (o.eqv · x))) xs


theorem any_of_mem {o : Ops α} {xs : List (Nat × α)} {x : α} :
    (∃ a d, (a, d) ∈ xs ∧ o.eqv d x = true) ∨ (∀ a d, (a, d) ∈ xs → o.eqv d x = false) := by
  by_cases h : ∃ a d, (a, d) ∈ xs ∧ o.eqv d x = true
  · exact .inl h
  · refine .inr fun a d hm => ?_
    cases hq : o.eqv d x with
    | false => rfl
    | true => exact absurd ⟨a, d, hm, hq⟩ h

theorem absent_map {o : Ops α} {xs : List (Nat × α)} {x : α}
    (h : ∀ a d, (a, d) ∈ xs → o.eqv d x = false) : ∀ y ∈ xs.map (·.2), o.eqv y x = false := by
  intro y hy
  obtain ⟨⟨a, d⟩, hm, rfl⟩ := List.mem_map.1 hy
  exact h a d hm

theorem map_eraseIdx' {β γ : Type} (f : β → γ) (xs : List β) (i : Nat) :
    (xs.eraseIdx i).map f = (xs.map f).eraseIdx i := by
  apply List.ext_getElem?; intro j
  simp only [List.getElem?_map, List.getElem?_eraseIdx]; split <;> rfl

/-- The freshness contract of the allocator for one call. -/
def FreshAddr (s : HS α) : Op α → Prop
  | .add _ _ (some a) => s.list.mem a = none
  | _ => True

/-- `bf_hashset_add` when no equal element is present. -/
theorem add_absent {o : Ops α} (ho : OpsOk o) {s : HS α} {xs} (h : Inv o s xs) {x : α} {c : Bool}
    {addr : Option Nat} (hfresh : FreshAddr s (.add x c addr))
    (habs : ∀ a d, (a, d) ∈ xs → o.eqv d x = false) :
    (∃ s' a, addr = some a ∧ add o s x c addr = .ok (s', none) ∧ Inv o s' (xs ++ [(a, x)])) ∨
    (∃ s', (c = false ∨ addr = none ∨ MAX_CAP ≤ s.cap) ∧
      add o s x c addr = .ok (s', some .ENOMEM) ∧ Inv o s' xs) := by
  obtain ⟨ff, hf, hff, hsome⟩ := find_absent h habs
  have hlc := len_le_cap h
  have hcb := h.capb
  simp only [add, hf]
  by_cases hmax : s.list.len ≥ MAX_CAP
  · rw [if_pos hmax]
    rw [h.rep.len] at hmax
    exact .inr ⟨s, .inr (.inr (by omega)), rfl, h⟩
  rw [if_neg hmax]
  have hinle : s.inUse ≤ s.cap := by rw [h.inUse]; exact cnt_le _ _ _
  have w1 : wrap (s.inUse * 10) = s.inUse * 10 := by
    unfold wrap MAX_CAP at *; exact Nat.mod_eq_of_lt (by omega)
  have w2 : wrap (s.cap * 5) = s.cap * 5 := by
    unfold wrap MAX_CAP at *; exact Nat.mod_eq_of_lt (by omega)
  by_cases hg : needsGrow s = true
  · rw [if_pos hg]
    unfold grow
    by_cases hcm : s.cap ≥ MAX_CAP
    · rw [if_pos hcm]
      exact .inr ⟨s, .inr (.inr hcm), rfl, h⟩
    rw [if_neg hcm]
    have w3 : wrap (s.cap * 2) = s.cap * 2 := by
      unfold wrap MAX_CAP at *; exact Nat.mod_eq_of_lt (by omega)
    generalize hnc : (if s.cap ≠ 0 then wrap (s.cap * 2) else INIT_CAP) = nc
    have hnc1 : xs.length < nc ∧ nc ≤ MAX_CAP ∧ ∃ k, nc = 2 ^ k := by
      rw [← hnc]
      refine ⟨?_, ?_, ?_⟩
      · split
        · rw [w3]; omega
        · unfold INIT_CAP; omega
      · split
        · rw [w3]
          exact double_cap h.pow2 (by omega)
        · unfold INIT_CAP MAX_CAP; omega
      · split
        · rw [w3]
          rcases h.pow2 with h0 | ⟨k, hk⟩
          · contradiction
          · exact ⟨k + 1, by rw [hk, Nat.pow_succ]⟩
        · exact ⟨4, rfl⟩
    cases c with
    | false =>
      have : resize o s nc false = .err .ENOMEM := by
        rw [resize, if_neg (by rw [h.rep.len]; omega)]; rfl
      rw [this]
      exact .inr ⟨s, .inl rfl, rfl, h⟩
    | true =>
      obtain ⟨s', hr, hinv', hcap', huse', hl'⟩ := resize_spec h hnc1.1 hnc1.2.1 hnc1.2.2
      obtain ⟨ff', hf', hff', hsome'⟩ := find_absent hinv' habs
      have hs2 := hsome' (by rw [← hinv'.inUse, huse', hcap']; exact hnc1.1)
      obtain ⟨f, rfl⟩ := Option.isSome_iff_exists.1 hs2
      simp only [hr, hf', Option.some_or]
      cases addr with
      | none => exact .inr ⟨s', .inr (.inl rfl), rfl, hinv'⟩
      | some a =>
        obtain ⟨s'', h1, h2⟩ := insertAt_spec ho hinv' (hff' f rfl)
          (a := a) (by rw [hl']; exact hfresh) habs
        exact .inl ⟨s'', a, rfl, h1, h2⟩
  · rw [if_neg hg]
    have hlt : cnt nz s.slots s.cap < s.cap := by
      rw [← h.inUse]
      simp only [needsGrow, w1, w2, decide_eq_true_eq] at hg
      omega
    obtain ⟨f, rfl⟩ := Option.isSome_iff_exists.1 (hsome hlt)
    cases addr with
    | none => exact .inr ⟨s, .inr (.inl rfl), rfl, h⟩
    | some a =>
      obtain ⟨s'', h1, h2⟩ := insertAt_spec ho h (hff f rfl) (a := a) hfresh habs
      exact .inl ⟨s'', a, rfl, h1, h2⟩

/-- Every call behaves as specified, for every state of the structure. -/
theorem step_spec {o : Ops α} (ho : OpsOk o) {s : HS α} {xs} (h : Inv o s xs) (op : Op α)
    (hfresh : FreshAddr s op) :
    ∃ s' out ys, step o s op = .ok (s', out) ∧ Inv o s' ys ∧
      SpecStep o (xs.map (·.2)) op out (ys.map (·.2)) := by
  cases op with
  | add x c addr =>
    rcases any_of_mem (o := o) (xs := xs) (x := x) with ⟨a, d, hm, he⟩ | habs
    · obtain ⟨idx, -, -, hf⟩ := find_present ho h hm he
      exact ⟨s, .code (some .EEXIST), xs, by simp only [step, add, hf], h,
        .addDup ⟨d, List.mem_map.2 ⟨_, hm, rfl⟩, he⟩⟩
    · rcases add_absent ho h hfresh habs with ⟨s', a, rfl, h1, h2⟩ | ⟨s', -, h1, h2⟩
      · refine ⟨s', .code none, _, by simp only [step, h1], h2, ?_⟩
        rw [List.map_append]
        exact .addNew (absent_map habs)
      · exact ⟨s', .code (some .ENOMEM), _, by simp only [step, h1], h2, .addNoMem (absent_map habs)⟩
  | delete x =>
    rcases any_of_mem (o := o) (xs := xs) (x := x) with ⟨a, d, hm, he⟩ | habs
    · obtain ⟨idx, hic, hsl, hf⟩ := find_present ho h hm he
      obtain ⟨i, hi⟩ := mem_idx hm
      obtain ⟨s', hu, hinv, -⟩ := unlink_spec h hi hic hsl
      refine ⟨s', .code none, _, by simp only [step, delete, hf, hu], hinv, ?_⟩
      rw [map_eraseIdx']
      exact .del (y := d) (by simp [hi]) he
    · obtain ⟨ff, hf, -, -⟩ := find_absent h habs
      exact ⟨s, .code (some .ENOENT), xs, by simp only [step, delete, hf], h, .delNone (absent_map habs)⟩
  | take x =>
    rcases any_of_mem (o := o) (xs := xs) (x := x) with ⟨a, d, hm, he⟩ | habs
    · obtain ⟨idx, hic, hsl, hf⟩ := find_present ho h hm he
      obtain ⟨i, hi⟩ := mem_idx hm
      obtain ⟨s', hu, hinv, -⟩ := unlink_spec h hi hic hsl
      have hc := h.rep.cells i a d hi
      refine ⟨s', .taken (some d), _, by simp only [step, take, hf, hsl, hc, hu]; rfl, hinv, ?_⟩
      rw [map_eraseIdx']
      exact .take (y := d) (by simp [hi]) he
    · obtain ⟨ff, hf, -, -⟩ := find_absent h habs
      exact ⟨s, .taken none, xs, by simp only [step, take, hf], h, .takeNone (absent_map habs)⟩
  | reserve n c =>
    simp only [step, reserve]
    by_cases h0 : n = 0
    · rw [if_pos h0]; exact ⟨s, .code none, xs, rfl, h, .reserve⟩
    rw [if_neg h0]
    by_cases h1 : n > MAX_CAP
    · rw [if_pos h1]; exact ⟨s, .code (some .ENOMEM), xs, rfl, h, .reserveNoMem⟩
    rw [if_neg h1]
    by_cases h2 : wrap (n * 10) / 5 ≤ s.cap
    · rw [if_pos h2]; exact ⟨s, .code none, xs, rfl, h, .reserve⟩
    rw [if_neg h2]
    have hM : MAX_CAP = 2 ^ 60 := by decide
    have hw : wrap (n * 10) / 5 ≤ 2 ^ 61 := by
      unfold wrap
      have := Nat.mod_le (n * 10) (2 ^ 64)
      omega
    have hrp := roundPow2_spec (n := max (wrap (n * 10) / 5) INIT_CAP) (by unfold INIT_CAP; omega)
    by_cases h3 : roundPow2 (max (wrap (n * 10) / 5) INIT_CAP) > MAX_CAP
    · rw [if_pos h3]; exact ⟨s, .code (some .ENOMEM), xs, rfl, h, .reserveNoMem⟩
    rw [if_neg h3]
    have hlc := len_le_cap h
    cases c with
    | false =>
      have : resize o s (roundPow2 (max (wrap (n * 10) / 5) INIT_CAP)) false = .err .ENOMEM := by
        rw [resize, if_neg (by rw [h.rep.len]; omega)]; rfl
      rw [this]
      exact ⟨s, .code (some .ENOMEM), xs, rfl, h, .reserveNoMem⟩
    | true =>
      obtain ⟨s', hr, hinv', -⟩ := resize_spec h (newCap := roundPow2 (max (wrap (n * 10) / 5) INIT_CAP))
        (by omega) (by omega) hrp.2
      rw [hr]
      exact ⟨s', .code none, xs, rfl, hinv', .reserve⟩
  | contains x =>
    rcases any_of_mem (o := o) (xs := xs) (x := x) with ⟨a, d, hm, he⟩ | habs
    · obtain ⟨idx, hic, hsl, hf⟩ := find_present ho h hm he
      refine ⟨s, .bool true, xs, by simp only [step, contains, hf, Option.isSome_some], h, ?_⟩
      have : (xs.map (·.2)).any (o.eqv · x) = true := by
        rw [List.any_eq_true]; exact ⟨d, List.mem_map.2 ⟨_, hm, rfl⟩, he⟩
      rw [← this]; exact .contains
    · obtain ⟨ff, hf, -, -⟩ := find_absent h habs
      refine ⟨s, .bool false, xs, by simp only [step, contains, hf, Option.isSome_none], h, ?_⟩
      have : (xs.map (·.2)).any (o.eqv · x) = false := by
        rw [List.any_eq_false]; intro y hy; simp [absent_map habs y hy]
      rw [← this]; exact .contains

/-- Run a history, collecting the answers. -/
def run (o : Ops α) : HS α → List (Op α) → Res (HS α × List (Out α))
  | s, [] => .ok (s, [])
  | s, op :: ops => match step o s op with
    | .ok (s', out) => match run o s' ops with
      | .ok (s'', outs) => .ok (s'', out :: outs)
      | .err e => .err e
      | .ub => .ub
    | .err e => .err e
    | .ub => .ub

/-- A history of answers allowed by the specification. -/
inductive SpecRun (o : Ops α) : List α → List (Op α) → List (Out α) → List α → Prop
  | nil {xs} : SpecRun o xs [] [] xs
  | cons {xs op out ys ops outs zs} : SpecStep o xs op out ys → SpecRun o ys ops outs zs →
      SpecRun o xs (op :: ops) (out :: outs) zs

/-- The allocator never returns an address in use. -/
def AllocOk (o : Ops α) : HS α → List (Op α) → Prop
  | _, [] => True
  | s, op :: ops => FreshAddr s op ∧
    (match step o s op with
      | .ok (s', _) => AllocOk o s' ops
      | _ => True)

theorem run_spec {o : Ops α} (ho : OpsOk o) : ∀ (ops : List (Op α)) (s : HS α) (xs), Inv o s xs →
    AllocOk o s ops →
    ∃ s' outs ys, run o s ops = .ok (s', outs) ∧ Inv o s' ys ∧
      SpecRun o (xs.map (·.2)) ops outs (ys.map (·.2)) := by
  intro ops
  induction ops with
  | nil => intro s xs h _; exact ⟨s, [], xs, rfl, h, .nil⟩
  | cons op ops ih =>
    intro s xs h ha
    obtain ⟨s1, out, ys, h1, h2, h3⟩ := step_spec ho h op ha.1
    have ha2 := ha.2
    rw [h1] at ha2
    obtain ⟨s2, outs, zs, r1, r2, r3⟩ := ih s1 ys h2 ha2
    exact ⟨s2, out :: outs, zs, by simp only [run, h1, r1], r2, .cons h3 r3⟩

/-- **C24.** For every user equality/hash pair satisfying its contract and every history of
calls from an empty set, under any allocator: no undefined behaviour and no endless loop
occurs; the answers and the final content are those of a mathematical insertion-ordered
set; forward and backward iteration yield the elements in (reverse) insertion order; the
reported size is exact; no two stored elements are equal. -/
theorem C24_hashset_faithful {o : Ops α} (ho : OpsOk o) (ops : List (Op α))
    (halloc : AllocOk o (init : HS α) ops) :
    ∃ s outs ys, run o (init : HS α) ops = .ok (s, outs) ∧ SpecRun o [] ops outs ys ∧
      s.list.len = ys.length ∧
      forward s.list.len s.list = .ok ys ∧
      backward s.list.len s.list = .ok ys.reverse ∧
      ys.Pairwise (fun a b => o.eqv a b = false) ∧
      ∀ x, contains o s x = .ok (ys.any (o.eqv · x)) := by
  obtain ⟨s, outs, zs, h1, h2, h3⟩ := run_spec ho ops init [] (inv_init o) halloc
  refine ⟨s, outs, zs.map (fun x => x.2), h1, by simpa using h3, by rw [h2.rep.len]; simp,
    rep_forward h2.rep (by rw [h2.rep.len]; exact Nat.le_refl _),
    rep_backward h2.rep (by rw [h2.rep.len]; exact Nat.le_refl _), ?_, ?_⟩
  · rw [List.pairwise_map, List.pairwise_iff_getElem]
    intro i j hi hj hij
    cases hq : o.eqv zs[i].2 zs[j].2 with
    | false => rfl
    | true =>
      have := h2.nodup zs[i].1 zs[i].2 zs[j].1 zs[j].2 (List.getElem_mem hi) (List.getElem_mem hj) hq
      have e1 : zs[i]? = some (zs[i].1, zs[i].2) := List.getElem?_eq_getElem hi
      have e2 : zs[j]? = some (zs[j].1, zs[j].2) := List.getElem?_eq_getElem hj
      rw [this] at e1
      have := nodup_idx h2.rep.nodup e1 e2
      omega
  · intro x
    obtain ⟨s', out, ys, q1, q2, q3⟩ := step_spec ho h2 (.contains x) trivial
    simp only [step] at q1
    cases hc : contains o s x with
    | err e => rw [hc] at q1; cases q1
    | ub => rw [hc] at q1; cases q1
    | ok b =>
      rw [hc] at q1
      simp only [Res.ok.injEq, Prod.mk.injEq] at q1
      rw [← q1.2] at q3
      generalize ys.map (·.2) = w at q3
      cases q3
      rfl

/-- Insertion can only fail for lack of memory: when both allocations succeed and the table
has not reached its maximum size (2^60 slots), adding an element that is absent succeeds. -/
theorem C24_add_succeeds {o : Ops α} (ho : OpsOk o) {s : HS α} {xs} (h : Inv o s xs) {x : α} {a : Nat}
    (hfresh : s.list.mem a = none) (hcap : s.cap < MAX_CAP)
    (habs : ∀ b d, (b, d) ∈ xs → o.eqv d x = false) :
    ∃ s', add o s x true (some a) = .ok (s', none) ∧ Inv o s' (xs ++ [(a, x)]) := by
  rcases add_absent ho h (addr := some a) (c := true) hfresh habs with ⟨s', a', he, h1, h2⟩ | ⟨s', hc, -⟩
  · simp at he; subst he; exact ⟨s', h1, h2⟩
  · rcases hc with hc | hc | hc
    · cases hc
    · cases hc
    · omega

/-- Non-vacuity: a hash with collisions, a deletion leaving a tombstone, and address reuse. -/
example : OpsOk ({ hash := fun x => x % 3, eqv := fun x y => x == y } : Ops Nat) ∧
    AllocOk ({ hash := fun x => x % 3, eqv := fun x y => x == y } : Ops Nat) (init : HS Nat)
      [.add 3 true (some 1), .add 6 true (some 2), .delete 3, .add 6 true (some 1), .add 9 true (some 1)] := by
  refine ⟨⟨by simp, by simp +contextual, by simp, by simp +contextual⟩, ?_⟩
  simp [AllocOk, FreshAddr, step, add, find, init, CList.init, needsGrow, wrap, grow, resize, INIT_CAP,
    MAX_CAP, foreach, nextOf, foreachLoop, findLoop, insertAt, modNode, upd, delete, unlink]

end Bf.CHash
