import Verif.Core.ListLemmas
/-!
# C26 — the list is a faithful doubly linked sequence

Abstract specification: a plain `List α`. The theorem quantifies over every
sequence of operations and every behaviour of the allocator (any address that is
not currently allocated, or failure).
-/
namespace Bf.CList
open Bf
variable {α : Type}

/-- One API call. `a` is the address returned by the allocator (`none`: out of memory). -/
inductive Op (α : Type)
  | addHead (d : α) (a : Option Nat)
  | addTail (d : α) (a : Option Nat)
  /-- `bf_list_delete` of the node reached by `i` × `bf_list_node_next` from the head. -/
  | deleteAt (i : Nat)
  /-- `bf_list_foreach` deleting, while iterating, each node whose data satisfies `p`. -/
  | deleteWhere (p : α → Bool)

/-- Result code and new state of one call. A failed allocation leaves the list as it was. -/
def step (l : LList α) : Op α → Res (LList α)
  | .addHead d a => addHead l d a
  | .addTail d a => addTail l d a
  | .deleteAt i => match walk l i l.head with
    | .ok (some n) => delete l n
    | .ok none => .ok l
    | .err e => .err e
    | .ub => .ub
  | .deleteWhere p => match foreach (deleteIf p) l.len l () with
    | .ok (l', _) => .ok l'
    | .err e => .err e
    | .ub => .ub

/-- Run a sequence of calls; a call that reports an error leaves the list unchanged. -/
def run : LList α → List (Op α) → Res (LList α)
  | l, [] => .ok l
  | l, op :: ops => match step l op with
    | .ok l' => run l' ops
    | .err _ => run l ops
    | .ub => .ub

/-- What the calls mean on a mathematical sequence. -/
def spec : List α → List (Op α) → List α
  | xs, [] => xs
  | xs, .addHead d (some _) :: ops => spec (d :: xs) ops
  | xs, .addTail d (some _) :: ops => spec (xs ++ [d]) ops
  | xs, .addHead _ none :: ops => spec xs ops
  | xs, .addTail _ none :: ops => spec xs ops
  | xs, .deleteAt i :: ops => spec (xs.eraseIdx i) ops
  | xs, .deleteWhere p :: ops => spec (xs.filter (fun x => !p x)) ops

/-- The allocator contract: it never returns an address that is in use. -/
def AllocOk : LList α → List (Op α) → Prop
  | _, [] => True
  | l, op :: ops =>
    (match op with
      | .addHead _ (some a) => l.mem a = none
      | .addTail _ (some a) => l.mem a = none
      | _ => True) ∧
    (match step l op with
      | .ok l' => AllocOk l' ops
      | .err _ => AllocOk l ops
      | .ub => True)

theorem run_rep : ∀ (ops : List (Op α)) (l : LList α) (xs : List (Nat × α)),
    Rep l xs → AllocOk l ops →
    ∃ l' ys, run l ops = .ok l' ∧ Rep l' ys ∧ ys.map (·.2) = spec (xs.map (·.2)) ops := by
  intro ops
  induction ops with
  | nil => intro l xs h _; exact ⟨l, xs, rfl, h, rfl⟩
  | cons op ops ih =>
    intro l xs h ha
    cases op with
    | addHead d a =>
      cases a with
      | none =>
        simp only [AllocOk, step, addHead] at ha
        simpa only [run, step, addHead, spec] using ih l xs h ha.2
      | some a =>
        obtain ⟨l', hl', hrep⟩ := rep_addHead h d (ha.1)
        simp only [AllocOk, step, hl'] at ha
        simpa [run, step, hl', spec] using ih l' _ hrep ha.2
    | addTail d a =>
      cases a with
      | none =>
        simp only [AllocOk, step, addTail] at ha
        simpa only [run, step, addTail, spec] using ih l xs h ha.2
      | some a =>
        obtain ⟨l', hl', hrep⟩ := rep_addTail h d (ha.1)
        simp only [AllocOk, step, hl'] at ha
        simpa [run, step, hl', spec] using ih l' _ hrep ha.2
    | deleteAt i =>
      have hw := rep_walk h i 0
      rw [← List.head?_eq_getElem?, ← h.head, Nat.zero_add] at hw
      cases hx : xs[i]? with
      | none =>
        rw [hx] at hw
        simp only [AllocOk, step, hw, Option.map_none] at ha
        have he : (xs.map (·.2)).eraseIdx i = xs.map (·.2) := by
          apply List.eraseIdx_of_length_le
          simpa using hx
        simp only [run, step, hw, Option.map_none, spec, he]
        exact ih l xs h ha.2
      | some x =>
        obtain ⟨n, d⟩ := x
        rw [hx] at hw
        obtain ⟨l', hl', hrep, -, -⟩ := rep_delete h hx
        simp only [AllocOk, step, hw, Option.map_some, hl'] at ha
        simp only [run, step, hw, Option.map_some, hl', spec]
        have := ih l' _ hrep ha.2
        rwa [show (xs.eraseIdx i).map (·.2) = (xs.map (·.2)).eraseIdx i by
          apply List.ext_getElem?; intro j; simp only [List.getElem?_map, List.getElem?_eraseIdx]; split <;> rfl] at this
    | deleteWhere p =>
      obtain ⟨l', hl', hrep⟩ := rep_deleteIf p h (fuel := l.len) (by rw [h.len]; exact Nat.le_refl _)
      simp only [AllocOk, step, hl'] at ha
      simp only [run, step, hl', spec]
      have := ih l' _ hrep ha.2
      rwa [show (xs.filter (fun x => !p x.2)).map (·.2) = (xs.map (·.2)).filter (fun x => !p x) by
        rw [List.filter_map]; rfl] at this

/-- **C26.** After any sequence of insertions, deletions and deletions during
`foreach`, for any allocator: no undefined behaviour occurs; forward traversal yields
exactly the abstract sequence, backward traversal yields its reverse, `len` is its
length, and `bf_list_get_at` returns the element at each index (NULL outside). -/
theorem C26_list_faithful (ops : List (Op α)) (halloc : AllocOk (init : LList α) ops) :
    ∃ l, run (init : LList α) ops = .ok l ∧
      l.len = (spec [] ops).length ∧
      forward l.len l = .ok (spec [] ops) ∧
      backward l.len l = .ok (spec [] ops).reverse ∧
      ∀ i, getAt l.len l i = .ok ((spec [] ops)[i]?) := by
  obtain ⟨l, ys, h1, h2, h3⟩ := run_rep ops init [] rep_init halloc
  simp only [List.map_nil] at h3
  refine ⟨l, h1, ?_, ?_, ?_, ?_⟩
  · rw [h2.len, ← h3]; simp
  · rw [← h3]; exact rep_forward h2 (by rw [h2.len]; exact Nat.le_refl _)
  · rw [← h3]; exact rep_backward h2 (by rw [h2.len]; exact Nat.le_refl _)
  · intro i; rw [← h3]; exact rep_getAt h2 (by rw [h2.len]; exact Nat.le_refl _)

/-- Non-vacuity: a concrete history (with a failed allocation, address reuse after a
deletion and a deletion while iterating) satisfies the allocator contract. -/
example : AllocOk (init : LList Nat)
      [.addTail 1 (some 10), .addHead 2 (some 20), .addTail 9 none, .addTail 3 (some 30),
       .deleteAt 1, .addHead 4 (some 10), .deleteWhere (· == 3)] ∧
    spec [] [.addTail 1 (some 10), .addHead 2 (some 20), .addTail 9 none, .addTail 3 (some 30),
       .deleteAt 1, .addHead 4 (some 10), .deleteWhere (· == 3)] = [4, 2] := by
  refine ⟨?_, by decide⟩
  simp [AllocOk, step, addHead, addTail, delete, modNode, walk, nextOf, init, upd]
  split <;> trivial

end Bf.CList
