import Verif.Core.Vector
/-!
# C25 — the vector never loses or corrupts elements

Specification: a list of byte strings. The theorem covers every sequence of API
calls and every allocator behaviour.
-/
namespace Bf.CVec
open Bf

/-- `v` holds exactly the elements `xs`, inside memory it owns. -/
structure Inv (v : Vec) (xs : List (List UInt8)) : Prop where
  es : 0 < v.elemSize
  size : v.size = xs.length
  szcap : v.size ≤ v.cap
  alloc : v.alloc = v.cap * v.elemSize
  bound : v.alloc ≤ SIZE_MAX
  len : ∀ x ∈ xs, x.length = v.elemSize
  val : ∀ (i : Nat) (x : List UInt8), xs[i]? = some x →
    ∀ j, j < v.elemSize → some (v.mem (i * v.elemSize + j)) = x[j]?

theorem idx_lt {i n e j : Nat} (hi : i < n) (hj : j < e) : i * e + j < n * e := by
  have : (i + 1) * e ≤ n * e := Nat.mul_le_mul_right e hi
  rw [Nat.succ_mul] at this
  omega

theorem inv_init {es : Nat} (h : 0 < es) : Inv (init es) [] := by
  constructor <;> simp [init, h]

theorem wrap_small {n : Nat} (h : n ≤ SIZE_MAX) : wrap n = n := by
  unfold wrap SIZE_MAX at *; omega

theorem inv_resize {v : Vec} {xs} (h : Inv v xs) {c : Nat} {al} {v' : Vec} (hc : v.cap ≤ c)
    (hr : resize v c al = .ok v') :
    Inv v' xs ∧ v'.cap = c ∧ v'.elemSize = v.elemSize ∧ v'.size = v.size := by
  unfold resize at hr
  split at hr
  · cases hr
  rename_i hov
  cases al with
  | none => cases hr
  | some junk =>
    simp only [Res.ok.injEq] at hr
    subst hr
    refine ⟨?_, rfl, rfl, rfl⟩
    constructor
    · exact h.es
    · exact h.size
    · exact Nat.le_trans h.szcap hc
    · rfl
    · simpa using hov
    · exact h.len
    · intro i x hx j hj
      have hi : i < xs.length := (List.getElem?_eq_some_iff.1 hx).1
      have h1 : i * v.elemSize + j < v.cap * v.elemSize :=
        idx_lt (by have := h.szcap; rw [h.size] at this; omega) hj
      have h2 : v.cap * v.elemSize ≤ c * v.elemSize := Nat.mul_le_mul_right _ hc
      have h3 : i * v.elemSize + j < v.alloc := by rw [h.alloc]; exact h1
      show some (if i * v.elemSize + j < v.alloc ∧ i * v.elemSize + j < c * v.elemSize then _ else _) = _
      rw [if_pos ⟨h3, by omega⟩]
      exact h.val i x hx j hj

theorem resize_ne_ub (v : Vec) (c : Nat) (al) : resize v c al ≠ .ub := by
  unfold resize
  repeat' split
  all_goals simp

theorem grow_ne_ub (v : Vec) (c : Nat) (al) : grow v c al ≠ .ub := by
  unfold grow
  repeat' split
  all_goals first | exact resize_ne_ub _ _ _ | simp

theorem inv_grow {v : Vec} {xs} (h : Inv v xs) {r : Nat} {al} {v' : Vec}
    (hr : grow v r al = .ok v') :
    Inv v' xs ∧ r ≤ v'.cap ∧ v'.elemSize = v.elemSize ∧ v'.size = v.size := by
  unfold grow at hr
  split at hr
  · simp only [Res.ok.injEq] at hr; subst hr; rename_i hle; exact ⟨h, hle, rfl, rfl⟩
  rename_i hgt
  split at hr
  · cases hr
  split at hr
  · cases hr
  rename_i hnr
  obtain ⟨h1, h2, h3, h4⟩ := inv_resize h (by omega) hr
  exact ⟨h1, by omega, h3, h4⟩

theorem inv_write_append {v : Vec} {xs ys : List (List UInt8)} (h : Inv v xs)
    (hcap : xs.length + ys.length ≤ v.cap) (hy : ∀ y ∈ ys, y.length = v.elemSize)
    {bs : List UInt8} (hbl : bs.length = ys.length * v.elemSize)
    (hb : ∀ (i : Nat) (y : List UInt8), ys[i]? = some y → ∀ j, j < v.elemSize →
      bs[i * v.elemSize + j]? = y[j]?) :
    ∃ v', write v (wrap (v.size * v.elemSize)) bs = .ok v' ∧ v'.elemSize = v.elemSize ∧
      v'.size = v.size ∧ v'.cap = v.cap ∧
      Inv { v' with size := wrap (v.size + ys.length) } (xs ++ ys) := by
  have hcE : v.cap * v.elemSize ≤ SIZE_MAX := by rw [← h.alloc]; exact h.bound
  have hsum : (xs.length + ys.length) * v.elemSize ≤ v.cap * v.elemSize :=
    Nat.mul_le_mul_right _ hcap
  have hsum' := hsum
  rw [Nat.add_mul] at hsum'
  have hcapb : v.cap ≤ SIZE_MAX := Nat.le_trans (Nat.le_mul_of_pos_right _ h.es) hcE
  have hw : wrap (v.size * v.elemSize) = xs.length * v.elemSize := by
    rw [h.size]; exact wrap_small (by omega)
  have hfit : xs.length * v.elemSize + bs.length ≤ v.alloc := by
    rw [hbl, h.alloc]; omega
  refine ⟨{ v with mem := writeMem v.mem (xs.length * v.elemSize) bs }, by rw [hw, write, if_pos hfit], rfl, rfl, rfl, ?_⟩
  have hsz : wrap (v.size + ys.length) = xs.length + ys.length := by
    rw [h.size]; exact wrap_small (by omega)
  constructor
  · exact h.es
  · simp [hsz]
  · simpa [hsz] using hcap
  · exact h.alloc
  · exact h.bound
  · intro x hx
    rcases List.mem_append.1 hx with hx | hx
    · exact h.len x hx
    · exact hy x hx
  · intro i x hx j hj
    show some (writeMem v.mem (xs.length * v.elemSize) bs (i * v.elemSize + j)) = _
    unfold writeMem
    dsimp only at hj
    by_cases hi : i < xs.length
    · rw [List.getElem?_append_left hi] at hx
      have := idx_lt hi hj (e := v.elemSize)
      rw [if_neg (by intro hc; omega)]
      exact h.val i x hx j hj
    · rw [List.getElem?_append_right (by omega)] at hx
      have hlt : i - xs.length < ys.length := (List.getElem?_eq_some_iff.1 hx).1
      have e1 : i * v.elemSize + j = xs.length * v.elemSize + ((i - xs.length) * v.elemSize + j) := by
        have : i = xs.length + (i - xs.length) := by omega
        conv => lhs; rw [this, Nat.add_mul]
        omega
      have hlt2 := idx_lt hlt hj (e := v.elemSize)
      rw [if_pos (by rw [hbl]; omega), ← hb _ _ hx j hj]
      rw [e1, Nat.add_sub_cancel_left, List.getD_eq_getElem?_getD]
      rw [List.getElem?_eq_getElem (by omega)]
      rfl

/-- One API call; `al` is the behaviour of `realloc` during the call. -/
inductive Op
  | add (elem : List UInt8) (al : Option (Nat → UInt8))
  | addMany (elems : List (List UInt8)) (al : Option (Nat → UInt8))
  | reserve (cap : Nat) (al : Option (Nat → UInt8))
  | set (i : Nat) (elem : List UInt8)
  | remove (i : Nat)

/-- The caller passes pointers to complete elements (size `es`). -/
def Op.wf (es : Nat) : Op → Prop
  | .add e _ => e.length = es
  | .addMany l _ => ∀ e ∈ l, e.length = es
  | .set _ e => e.length = es
  | _ => True

def step (v : Vec) : Op → Res Vec
  | .add e al => add v e al
  | .addMany l al => addMany v l.flatten l.length al
  | .reserve c al => reserve v c al
  | .set i e => set v i e
  | .remove i => remove v i

/-- Meaning of a *successful* call on the abstract sequence. -/
def specStep (xs : List (List UInt8)) : Op → List (List UInt8)
  | .add e _ => xs ++ [e]
  | .addMany l _ => xs ++ l
  | .reserve _ _ => xs
  | .set i e => xs.set i e
  | .remove i => xs.eraseIdx i

theorem flatten_getElem? {es : Nat} : ∀ (l : List (List UInt8)), (∀ e ∈ l, e.length = es) →
    ∀ (i : Nat) (y : List UInt8), l[i]? = some y → ∀ j, j < es → l.flatten[i * es + j]? = y[j]? := by
  intro l
  induction l with
  | nil => intro _ i y hy; simp at hy
  | cons a l ih =>
    intro hl i y hy j hj
    have ha : a.length = es := hl a (by simp)
    cases i with
    | zero =>
      simp at hy; subst hy
      rw [List.flatten_cons, Nat.zero_mul, Nat.zero_add, List.getElem?_append_left (by omega)]
    | succ i =>
      simp at hy
      rw [List.flatten_cons, List.getElem?_append_right (by rw [Nat.succ_mul]; omega)]
      rw [show (i + 1) * es + j - a.length = i * es + j by rw [Nat.succ_mul]; omega]
      exact ih (fun e he => hl e (by simp [he])) i y hy j hj

theorem flatten_length {es : Nat} : ∀ (l : List (List UInt8)), (∀ e ∈ l, e.length = es) →
    l.flatten.length = l.length * es := by
  intro l
  induction l with
  | nil => simp
  | cons a l ih =>
    intro hl
    rw [List.flatten_cons, List.length_append, ih (fun e he => hl e (by simp [he])), hl a (by simp),
      List.length_cons, Nat.succ_mul]; omega

/-- Every call either reports an error (and the caller's vector is unchanged) or
succeeds with exactly the specified content: never UB. -/
theorem step_inv {v : Vec} {xs} (h : Inv v xs) (op : Op) (hw : op.wf v.elemSize) :
    (∃ v', step v op = .ok v' ∧ v'.elemSize = v.elemSize ∧ Inv v' (specStep xs op)) ∨
    (∃ e, step v op = .err e) := by
  cases op with
  | add e al =>
    simp only [step, add]
    by_cases hs : v.size + 1 > SIZE_MAX
    · exact .inr ⟨_, by rw [if_pos hs]⟩
    rw [if_neg hs]
    cases hg : grow v (v.size + 1) al with
    | err e => exact .inr ⟨e, rfl⟩
    | ub =>
      exact absurd hg (grow_ne_ub _ _ _)
    | ok v1 =>
      obtain ⟨h1, h2, h3, h4⟩ := inv_grow h hg
      obtain ⟨v2, hw2, he2, hs2, hc2, hi2⟩ := inv_write_append h1 (ys := [e]) (bs := e)
        (by simp; rw [← h.size]; exact h2) (by simpa [h3, Op.wf] using hw) (by simpa [h3, Op.wf] using hw)
        (by intro i y hy j hj
            cases i with
            | zero => simp at hy; subst hy; simp
            | succ i => simp at hy)
      left
      refine ⟨_, by simp only [hw2]; rfl, by simp [he2, h3], ?_⟩
      simpa [specStep, hs2] using hi2
  | addMany l al =>
    simp only [step, addMany]
    by_cases h0 : l.length = 0
    · rw [if_pos h0]
      have : l = [] := by simpa using h0
      subst this
      exact .inl ⟨v, rfl, rfl, by simpa [specStep] using h⟩
    rw [if_neg h0]
    by_cases hs : v.size + l.length > SIZE_MAX
    · exact .inr ⟨_, by rw [if_pos hs]⟩
    rw [if_neg hs]
    cases hg : grow v (v.size + l.length) al with
    | err e => exact .inr ⟨e, rfl⟩
    | ub =>
      exact absurd hg (grow_ne_ub _ _ _)
    | ok v1 =>
      obtain ⟨h1, h2, h3, h4⟩ := inv_grow h hg
      have hl : ∀ y ∈ l, y.length = v1.elemSize := by simpa [h3, Op.wf] using hw
      have hfl := flatten_length l hl
      have hcE : v1.cap * v1.elemSize ≤ SIZE_MAX := by rw [← h1.alloc]; exact h1.bound
      have hle : l.length * v1.elemSize ≤ v1.cap * v1.elemSize :=
        Nat.mul_le_mul_right _ (by omega)
      have htk : l.flatten.take (wrap (l.length * v1.elemSize)) = l.flatten := by
        rw [wrap_small (by omega), List.take_of_length_le (by omega)]
      obtain ⟨v2, hw2, he2, hs2, hc2, hi2⟩ := inv_write_append h1 (ys := l) (bs := l.flatten)
        (by rw [← h.size]; exact h2) hl hfl (flatten_getElem? l hl)
      left
      refine ⟨_, by simp only [htk, hw2]; rfl, by simp [he2, h3], ?_⟩
      simpa [specStep, hs2] using hi2
  | reserve c al =>
    simp only [step, reserve]
    by_cases h1 : c ≤ v.cap
    · exact .inl ⟨v, by rw [if_pos h1], rfl, h⟩
    rw [if_neg h1]
    by_cases h2 : c > MAX_CAP
    · exact .inr ⟨_, by rw [if_pos h2]⟩
    rw [if_neg h2]
    cases hg : resize v c al with
    | err e => exact .inr ⟨e, rfl⟩
    | ub =>
      exact absurd hg (resize_ne_ub _ _ _)
    | ok v1 =>
      obtain ⟨h1, _, h3, _⟩ := inv_resize h (by omega) hg
      exact .inl ⟨v1, rfl, h3, h1⟩
  | set i e =>
    simp only [step, set]
    by_cases hi : i ≥ v.size
    · exact .inr ⟨_, by rw [if_pos hi]⟩
    rw [if_neg hi]
    simp only [Op.wf] at hw
    have hi' : i < v.size := by omega
    have hcE : v.cap * v.elemSize ≤ SIZE_MAX := by rw [← h.alloc]; exact h.bound
    have h1 : (i + 1) * v.elemSize ≤ v.cap * v.elemSize :=
      Nat.mul_le_mul_right _ (by have := h.szcap; omega)
    have h1' := h1
    rw [Nat.succ_mul] at h1'
    have hfit : wrap (i * v.elemSize) + e.length ≤ v.alloc := by
      rw [wrap_small (by omega), hw, h.alloc]; omega
    left
    refine ⟨{ v with mem := writeMem v.mem (wrap (i * v.elemSize)) e }, by rw [write, if_pos hfit], rfl, ?_⟩
    have hwr : wrap (i * v.elemSize) = i * v.elemSize := wrap_small (by omega)
    constructor
    · exact h.es
    · simp [specStep, h.size]
    · exact h.szcap
    · exact h.alloc
    · exact h.bound
    · intro x hx
      rcases List.mem_or_eq_of_mem_set hx with hx | rfl
      · exact h.len x hx
      · exact hw
    · intro k x hx j hj
      show some (writeMem v.mem (wrap (i * v.elemSize)) e (k * v.elemSize + j)) = _
      unfold writeMem
      rw [hwr]
      simp only [specStep, List.getElem?_set] at hx
      by_cases hk : i = k
      · subst hk
        rw [if_pos rfl, if_pos (by rw [← h.size]; exact hi')] at hx
        simp at hx; subst hx
        rw [if_pos (by rw [hw]; dsimp only at hj; omega)]
        rw [Nat.add_sub_cancel_left, List.getD_eq_getElem?_getD,
          List.getElem?_eq_getElem (by rw [hw]; exact hj)]
        rfl
      · rw [if_neg hk] at hx
        have hd : ¬ (i * v.elemSize ≤ k * v.elemSize + j ∧
            k * v.elemSize + j < i * v.elemSize + e.length) := by
          dsimp only at hj
          rcases Nat.lt_or_gt_of_ne hk with hlt | hlt
          · have : (i + 1) * v.elemSize ≤ k * v.elemSize := Nat.mul_le_mul_right _ hlt
            rw [Nat.succ_mul] at this
            omega
          · have := idx_lt hlt hj (e := v.elemSize)
            omega
        rw [if_neg hd]
        exact h.val k x hx j hj
  | remove i =>
    simp only [step, remove]
    by_cases hi : i ≥ v.size
    · exact .inr ⟨_, by rw [if_pos hi]⟩
    rw [if_neg hi]
    left
    have hi' : i < xs.length := by rw [← h.size]; omega
    have hcE : v.cap * v.elemSize ≤ SIZE_MAX := by rw [← h.alloc]; exact h.bound
    have hsc : v.size * v.elemSize ≤ v.cap * v.elemSize := Nat.mul_le_mul_right _ h.szcap
    by_cases hl : i < v.size - 1
    · have a1 : (i + 1) * v.elemSize ≤ v.size * v.elemSize := Nat.mul_le_mul_right _ (by omega)
      have a2 : (v.size - 1 - i) * v.elemSize ≤ v.size * v.elemSize := Nat.mul_le_mul_right _ (by omega)
      have a3 : (i + 1) * v.elemSize + (v.size - 1 - i) * v.elemSize = v.size * v.elemSize := by
        rw [← Nat.add_mul]; congr 1; omega
      have a4 : i * v.elemSize + v.elemSize = (i + 1) * v.elemSize := by rw [Nat.succ_mul]
      have w1 : wrap ((i + 1) * v.elemSize) = (i + 1) * v.elemSize := wrap_small (by omega)
      have w2 : wrap ((v.size - 1 - i) * v.elemSize) = (v.size - 1 - i) * v.elemSize :=
        wrap_small (by omega)
      have w3 : wrap (i * v.elemSize) = i * v.elemSize := wrap_small (by omega)
      have hal := h.alloc
      have hfit : wrap (i * v.elemSize) + ((List.range ((v.size - 1 - i) * v.elemSize)).map
          (fun j => v.mem ((i + 1) * v.elemSize + j))).length ≤ v.alloc := by
        simp only [List.length_map, List.length_range]
        omega
      refine ⟨{ v with size := v.size - 1, mem := (writeMem v.mem (wrap (i * v.elemSize))
            ((List.range ((v.size - 1 - i) * v.elemSize)).map
            (fun j => v.mem ((i + 1) * v.elemSize + j)))) }, by
        simp only [hl, if_true, w1, w2]
        rw [if_pos (by omega), write, if_pos hfit], rfl, ?_⟩
      constructor
      · exact h.es
      · simp [specStep, List.length_eraseIdx, hi', h.size]
      · have := h.szcap; show v.size - 1 ≤ v.cap; omega
      · exact h.alloc
      · exact h.bound
      · intro x hx; exact h.len x ((List.eraseIdx_sublist xs i).subset hx)
      · intro k x hx j hj
        dsimp only at hj
        show some (writeMem v.mem _ _ (k * v.elemSize + j)) = _
        unfold writeMem
        rw [w3]
        simp only [specStep, List.getElem?_eraseIdx] at hx
        have hlen : ((List.range ((v.size - 1 - i) * v.elemSize)).map
          (fun j => v.mem ((i + 1) * v.elemSize + j))).length = (v.size - 1 - i) * v.elemSize := by simp
        by_cases hk : k < i
        · rw [if_pos hk] at hx
          have := idx_lt hk hj (e := v.elemSize)
          rw [if_neg (by intro hc; omega)]
          exact h.val k x hx j hj
        · rw [if_neg hk] at hx
          have hk1 : k + 1 < xs.length := (List.getElem?_eq_some_iff.1 hx).1
          rw [← h.size] at hk1
          have b1 : k * v.elemSize = i * v.elemSize + (k - i) * v.elemSize := by
            rw [← Nat.add_mul]; congr 1; omega
          have b2 : (k - i) * v.elemSize + j < (v.size - 1 - i) * v.elemSize :=
            idx_lt (by omega) hj
          rw [if_pos (by rw [hlen]; omega)]
          rw [List.getD_eq_getElem?_getD]
          have e1 : k * v.elemSize + j - i * v.elemSize = (k - i) * v.elemSize + j := by omega
          rw [e1, List.getElem?_map, List.getElem?_range b2]
          have e2 : (i + 1) * v.elemSize + ((k - i) * v.elemSize + j) = (k + 1) * v.elemSize + j := by
            rw [← Nat.add_assoc, ← Nat.add_mul]; congr 2; omega
          simp only [Option.map_some, Option.getD_some, e2]
          exact h.val (k + 1) x hx j hj
    · refine ⟨{ v with size := v.size - 1 }, by simp only [hl, if_false], rfl, ?_⟩
      have hil : i = xs.length - 1 := by rw [← h.size]; omega
      have hers : xs.eraseIdx i = xs.take i := by
        rw [List.eraseIdx_eq_take_drop_succ, List.drop_eq_nil_of_le (by omega)]; simp
      constructor
      · exact h.es
      · simp [specStep, List.length_eraseIdx, hi', h.size]
      · have := h.szcap; show v.size - 1 ≤ v.cap; omega
      · exact h.alloc
      · exact h.bound
      · intro x hx; exact h.len x ((List.eraseIdx_sublist xs i).subset hx)
      · intro k x hx j hj
        simp only [specStep, hers, List.getElem?_take] at hx
        split at hx
        · exact h.val k x hx j hj
        · cases hx

/-- Run a history; a failed call leaves the caller's vector as it was. Returns the
vector together with the calls that succeeded. -/
def run : Vec → List Op → Res (Vec × List Op)
  | v, [] => .ok (v, [])
  | v, op :: ops => match step v op with
    | .ok v' => match run v' ops with
      | .ok (w, l) => .ok (w, op :: l)
      | .err e => .err e
      | .ub => .ub
    | .err _ => run v ops
    | .ub => .ub

theorem run_inv : ∀ (ops : List Op) (v : Vec) (xs : List (List UInt8)), Inv v xs →
    (∀ op ∈ ops, op.wf v.elemSize) →
    ∃ w done, run v ops = .ok (w, done) ∧ done.Sublist ops ∧ w.elemSize = v.elemSize ∧
      Inv w (done.foldl specStep xs) := by
  intro ops
  induction ops with
  | nil => intro v xs h _; exact ⟨v, [], rfl, by simp, rfl, h⟩
  | cons op ops ih =>
    intro v xs h hw
    rcases step_inv h op (hw op (by simp)) with ⟨v', h1, h2, h3⟩ | ⟨e, he⟩
    · obtain ⟨w, done, r1, r2, r3, r4⟩ := ih v' _ h3 (by intro o ho; rw [h2]; exact hw o (by simp [ho]))
      exact ⟨w, op :: done, by simp [run, h1, r1], r2.cons_cons op, by rw [r3, h2], r4⟩
    · obtain ⟨w, done, r1, r2, r3, r4⟩ := ih v _ h (by intro o ho; exact hw o (by simp [ho]))
      exact ⟨w, done, by simp [run, he, r1], r2.cons op, r3, r4⟩

/-- **C25.** From a fresh vector of non-empty elements, any sequence of calls, with any
allocator behaviour: no out-of-bounds access ever happens; the final vector holds
exactly the elements obtained by applying the successful calls to a list; each is
readable by `bf_vector_get` and reading past the end yields NULL; `size ≤ cap` and the
buffer really has `cap * elem_size` bytes, without overflow. -/
theorem C25_vector_faithful (es : Nat) (hes : 0 < es) (ops : List Op) (hw : ∀ op ∈ ops, op.wf es) :
    ∃ w done, run (init es) ops = .ok (w, done) ∧ done.Sublist ops ∧
      w.size = (done.foldl specStep []).length ∧ w.size ≤ w.cap ∧
      w.alloc = w.cap * es ∧ w.alloc ≤ SIZE_MAX ∧
      ∀ i, get w i = .ok ((done.foldl specStep [])[i]?) := by
  obtain ⟨w, done, r1, r2, r3, r4⟩ := run_inv ops (init es) [] (inv_init hes) (by simpa [init] using hw)
  have hee : w.elemSize = es := by rw [r3]; rfl
  refine ⟨w, done, r1, r2, r4.size, r4.szcap, by rw [r4.alloc, hee], r4.bound, ?_⟩
  intro i
  unfold get
  by_cases hi : i ≥ w.size
  · rw [if_pos hi, List.getElem?_eq_none (by rw [← r4.size]; exact hi)]
  · rw [if_neg hi]
    have hi' : i < (done.foldl specStep []).length := by rw [← r4.size]; omega
    have hx := List.getElem?_eq_getElem hi'
    have h1 : (i + 1) * w.elemSize ≤ w.cap * w.elemSize :=
      Nat.mul_le_mul_right _ (by have := r4.szcap; omega)
    have h1' := h1
    rw [Nat.succ_mul] at h1'
    have hb := r4.bound
    have hal := r4.alloc
    have hwr : wrap (i * w.elemSize) = i * w.elemSize := wrap_small (by omega)
    simp only [hwr]
    rw [if_pos (by omega), hx]
    congr 2
    apply List.ext_getElem?
    intro j
    by_cases hj : j < w.elemSize
    · rw [List.getElem?_map, List.getElem?_range hj]
      exact r4.val i _ hx j hj
    · rw [List.getElem?_eq_none (by simpa using hj), List.getElem?_eq_none]
      rw [r4.len _ (List.getElem_mem hi')]; omega

/-- Calls never fail without cause: with a succeeding allocator and fewer than
`MAX_CAP` elements fitting in memory, `bf_vector_add` succeeds. -/
theorem C25_add_succeeds {v : Vec} {xs} (h : Inv v xs) (e : List UInt8) (he : e.length = v.elemSize)
    (junk : Nat → UInt8) (hroom : (max 8 (2 * (v.size + 1))) * v.elemSize ≤ SIZE_MAX)
    (hcap : v.cap ≤ max 8 (2 * v.size)) :
    ∃ v', add v e (some junk) = .ok v' ∧ Inv v' (xs ++ [e]) := by
  have hst := step_inv h (.add e (some junk)) he
  have hle : ∀ c, c ≤ max 8 (2 * (v.size + 1)) → c * v.elemSize ≤ SIZE_MAX := fun c hc =>
    Nat.le_trans (Nat.mul_le_mul_right _ hc) hroom
  have hself : ∀ c, c ≤ c * v.elemSize := fun c => Nat.le_mul_of_pos_right _ h.es
  rcases hst with ⟨v', h1, -, h3⟩ | ⟨er, h1⟩
  · exact ⟨v', h1, h3⟩
  · exfalso
    simp only [step, add] at h1
    have hs1 := hself (v.size + 1)
    have hs2 := hle (v.size + 1) (by omega)
    have hm := Nat.le_trans (hself _) hroom
    have hszc := h.szcap
    rw [if_neg (by omega)] at h1
    have hg : ∃ v1, grow v (v.size + 1) (some junk) = .ok v1 := by
      unfold grow
      split
      · exact ⟨_, rfl⟩
      · rename_i hc
        have hceq : v.cap = v.size := by omega
        unfold SIZE_MAX at hm
        have hmc : ¬ (v.cap ≥ MAX_CAP) := by unfold MAX_CAP SIZE_MAX; omega
        rw [if_neg hmc]
        generalize hnc : growCap v (v.size + 1) = nc
        have b1 : v.size + 1 ≤ nc ∧ nc ≤ max 8 (2 * (v.size + 1)) := by
          rw [← hnc]
          unfold growCap MAX_CAP SIZE_MAX wrap INIT_CAP
          unfold MAX_CAP SIZE_MAX at hmc
          rw [Nat.mod_eq_of_lt (show v.cap + v.cap / 2 < 2 ^ 64 by omega)]
          split <;> omega
        rw [if_neg (by omega), resize, if_neg (by have := hle nc b1.2; omega)]
        exact ⟨_, rfl⟩
    obtain ⟨v1, hv1⟩ := hg
    obtain ⟨i1, i2, i3, i4⟩ := inv_grow h hv1
    obtain ⟨v2, hw2, -⟩ := inv_write_append i1 (ys := [e]) (bs := e)
        (by simp; rw [← h.size]; exact i2) (by simpa [i3] using he) (by simpa [i3] using he)
        (by intro i y hy j hj
            cases i with
            | zero => simp at hy; subst hy; simp
            | succ i => simp at hy)
    rw [hv1] at h1
    simp only [hw2] at h1
    cases h1

example : ∃ ops : List Op, (∀ op ∈ ops, op.wf 2) ∧
    (∃ w, run (init 2) ops = .ok (w, ops)) ∧ ops.foldl specStep [] = [[5, 6], [9, 9]] :=
  ⟨[.add [1, 2] (some fun _ => 7), .addMany [[3, 4], [5, 6]] none, .remove 0, .set 0 [5, 6],
    .set 1 [9, 9], .reserve 20 (some fun _ => 1)], by simp [Op.wf], ⟨_, rfl⟩, by decide⟩

end Bf.CVec
