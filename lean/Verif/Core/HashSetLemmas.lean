import Verif.Core.HashSet
/-! # Invariant of the hashset and preservation by every operation. -/
namespace Bf.CHash
open Bf Bf.CList
variable {α : Type}

/-- Number of indices below `n` whose slot satisfies `p`. -/
def cnt (p : Slot → Bool) (s : Nat → Slot) : Nat → Nat
  | 0 => 0
  | n + 1 => cnt p s n + (if p (s n) then 1 else 0)

theorem cnt_upd_ge (p : Slot → Bool) (s : Nat → Slot) (f : Nat) (v : Slot) :
    ∀ n, n ≤ f → cnt p (upd s f v) n = cnt p s n := by
  intro n
  induction n with
  | zero => intro _; rfl
  | succ n ih =>
    intro h
    simp only [cnt]
    rw [ih (by omega), upd_other _ _ (by omega)]

theorem cnt_upd (p : Slot → Bool) (s : Nat → Slot) (f : Nat) (v : Slot) :
    ∀ n, f < n → cnt p (upd s f v) n + (if p (s f) then 1 else 0) =
      cnt p s n + (if p v then 1 else 0) := by
  intro n
  induction n with
  | zero => intro h; omega
  | succ n ih =>
    intro h
    simp only [cnt]
    by_cases hf : f = n
    · subst hf
      rw [cnt_upd_ge p s f v f (by omega), upd_same]; omega
    · have := ih (by omega)
      rw [upd_other _ _ (by omega)]; omega

theorem cnt_le (p : Slot → Bool) (s : Nat → Slot) : ∀ n, cnt p s n ≤ n := by
  intro n
  induction n with
  | zero => simp [cnt]
  | succ n ih => simp only [cnt]; split <;> omega

theorem cnt_lt_exists (p : Slot → Bool) (s : Nat → Slot) : ∀ n, cnt p s n < n →
    ∃ i, i < n ∧ p (s i) = false := by
  intro n
  induction n with
  | zero => intro h; omega
  | succ n ih =>
    intro h
    simp only [cnt] at h
    by_cases hp : p (s n) = true
    · rw [if_pos hp] at h
      obtain ⟨i, hi, hpi⟩ := ih (by omega)
      exact ⟨i, by omega, hpi⟩
    · exact ⟨n, by omega, by simpa using hp⟩

theorem cnt_mono (p q : Slot → Bool) (h : ∀ x, p x = true → q x = true) (s : Nat → Slot) :
    ∀ n, cnt p s n ≤ cnt q s n := by
  intro n
  induction n with
  | zero => simp [cnt]
  | succ n ih =>
    simp only [cnt]
    by_cases hp : p (s n) = true
    · rw [if_pos hp, if_pos (h _ hp)]; omega
    · rw [if_neg hp]; split <;> omega

theorem cnt_empty (p : Slot → Bool) (hp : p .empty = false) : ∀ n, cnt p (fun _ => .empty) n = 0 := by
  intro n
  induction n with
  | zero => rfl
  | succ n ih => simp [cnt, ih, hp]

/-- slot occupied or tombstone -/
def nz : Slot → Bool
  | .empty => false
  | _ => true
/-- slot holding an element -/
def isEl : Slot → Bool
  | .elem _ => true
  | _ => false

/-- Contract of the callbacks. -/
structure OpsOk (o : Ops α) : Prop where
  refl : ∀ x, o.eqv x x = true
  symm : ∀ x y, o.eqv x y = true → o.eqv y x = true
  trans : ∀ x y z, o.eqv x y = true → o.eqv y z = true → o.eqv x z = true
  hash : ∀ x y, o.eqv x y = true → o.hash x = o.hash y

/-- The slot array `slots` of size `cap` indexes exactly the elements `xs`. -/
structure Indexes (o : Ops α) (slots : Nat → Slot) (cap : Nat) (xs : List (Nat × α)) : Prop where
  sound : ∀ i a, i < cap → slots i = .elem a → ∃ d, (a, d) ∈ xs
  reach : ∀ a d, (a, d) ∈ xs → ∃ k, k < cap ∧ slots ((o.hash d + k) % cap) = .elem a ∧
    ∀ j, j < k → slots ((o.hash d + j) % cap) ≠ .empty
  uniq : ∀ i j a, i < cap → j < cap → slots i = .elem a → slots j = .elem a → i = j

/-- The invariant of the hashset; `xs` lists (address, data) in insertion order. -/
structure Inv (o : Ops α) (s : HS α) (xs : List (Nat × α)) : Prop where
  rep : Rep s.list xs
  idx : Indexes o s.slots s.cap xs
  capb : s.cap ≤ MAX_CAP
  pow2 : s.cap = 0 ∨ ∃ k, s.cap = 2 ^ k
  inUse : s.inUse = cnt nz s.slots s.cap
  live : xs.length = cnt isEl s.slots s.cap
  nodup : ∀ a d b e, (a, d) ∈ xs → (b, e) ∈ xs → o.eqv d e = true → a = b

theorem inv_init (o : Ops α) : Inv o (init : HS α) [] := by
  constructor
  · exact rep_init
  · constructor <;> simp [init]
  · simp [init]
  · simp [init]
  · simp [init, cnt]
  · simp [init, cnt]
  · simp

theorem mem_idx {xs : List (Nat × α)} {a : Nat} {d : α} (h : (a, d) ∈ xs) : ∃ i : Nat, xs[i]? = some (a, d) :=
  List.mem_iff_getElem?.1 h

theorem rep_mem {l : LList α} {xs} (h : Rep l xs) {a : Nat} {d : α} (hm : (a, d) ∈ xs) :
    ∃ nd, l.mem a = some nd ∧ nd.data = d := by
  obtain ⟨i, hi⟩ := mem_idx hm
  exact ⟨_, h.cells i a d hi, rfl⟩

theorem addr_inj {l : LList α} {xs} (h : Rep l xs) {a : Nat} {d e : α} (h1 : (a, d) ∈ xs)
    (h2 : (a, e) ∈ xs) : d = e := by
  obtain ⟨n1, e1, rfl⟩ := rep_mem h h1
  obtain ⟨n2, e2, rfl⟩ := rep_mem h h2
  rw [e1] at e2; simp at e2; rw [e2]

theorem mod_step (h i c : Nat) : ((h + i) % c + 1) % c = (h + (i + 1)) % c := by
  rw [Nat.mod_add_mod]; rfl

theorem mod_cover (h e c : Nat) (he : e < c) : ∃ j, j < c ∧ (h + j) % c = e := by
  have hc : 0 < c := by omega
  refine ⟨(e + (c - h % c)) % c, Nat.mod_lt _ hc, ?_⟩
  have hlt := Nat.mod_lt h hc
  rw [Nat.add_mod_mod, ← Nat.mod_add_mod]
  rw [show h % c + (e + (c - h % c)) = e + c by omega, Nat.add_mod_right, Nat.mod_eq_of_lt he]

/-- Result of `find` when an equal element is present. -/
theorem find_present {o : Ops α} (ho : OpsOk o) {s : HS α} {xs} (h : Inv o s xs) {x : α} {a : Nat} {d : α}
    (hm : (a, d) ∈ xs) (he : o.eqv d x = true) :
    ∃ idx, idx < s.cap ∧ s.slots idx = .elem a ∧ find o s x = .ok (some idx, none) := by
  obtain ⟨k, hk, hs, hj⟩ := h.idx.reach a d hm
  have hc : 0 < s.cap := by omega
  have hh : o.hash d = o.hash x := ho.hash _ _ he
  rw [hh] at hs hj
  refine ⟨(o.hash x + k) % s.cap, Nat.mod_lt _ hc, hs, ?_⟩
  rw [find, if_neg (by omega)]
  have key : ∀ n i ff, i + n = s.cap → i ≤ k →
      findLoop o s x n ((o.hash x + i) % s.cap) ff = .ok (some ((o.hash x + k) % s.cap), none) := by
    intro n
    induction n with
    | zero => intro i ff h1 h2; omega
    | succ n ih =>
      intro i ff h1 h2
      simp only [findLoop, mod_step]
      by_cases hik : i = k
      · subst hik
        obtain ⟨nd, hnd, hdd⟩ := rep_mem h.rep hm
        simp [hs, hnd, hdd, he]
      · have hne := hj i (by omega)
        cases hsl : s.slots ((o.hash x + i) % s.cap) with
        | empty => exact absurd hsl hne
        | tomb => exact ih (i + 1) _ (by omega) (by omega)
        | elem b =>
          obtain ⟨e, hbe⟩ := h.idx.sound _ b (Nat.mod_lt _ hc) hsl
          obtain ⟨nd, hnd, hdd⟩ := rep_mem h.rep hbe
          have hneq : o.eqv e x = false := by
            cases hq : o.eqv e x with
            | false => rfl
            | true =>
              have hab := h.nodup b e a d hbe hm (ho.trans _ _ _ hq (ho.symm _ _ he))
              subst hab
              have := h.idx.uniq _ _ _ (Nat.mod_lt _ hc) (Nat.mod_lt _ hc) hsl hs
              -- two different probe distances below cap give different indices
              exfalso
              have hi1 : i < s.cap := by omega
              rw [Nat.add_mod, Nat.add_mod (o.hash x) k, Nat.mod_eq_of_lt hi1, Nat.mod_eq_of_lt hk] at this
              have hlt := Nat.mod_lt (o.hash x) hc
              have e1 : ∀ m, m < s.cap → (o.hash x % s.cap + m) % s.cap =
                  if o.hash x % s.cap + m < s.cap then o.hash x % s.cap + m
                  else o.hash x % s.cap + m - s.cap := by
                intro m hm
                split
                · rename_i hl; exact Nat.mod_eq_of_lt hl
                · rename_i hl
                  rw [Nat.mod_eq_sub_mod (by omega)]
                  exact Nat.mod_eq_of_lt (by omega)
              rw [e1 i hi1, e1 k hk] at this
              split at this <;> split at this <;> omega
          simp only [hnd, hdd, hneq, Bool.false_eq_true, if_false]
          exact ih (i + 1) _ (by omega) (by omega)
  have := key s.cap 0 none (by omega) (by omega)
  simpa using this

/-- A slot where a new element with hash `hx` may be stored. -/
def FreeFor (slots : Nat → Slot) (cap hx f : Nat) : Prop :=
  isEl (slots f) = false ∧ ∃ k, k < cap ∧ f = (hx + k) % cap ∧
    ∀ j, j < k → slots ((hx + j) % cap) ≠ .empty

/-- Result of `find` when no equal element is present. -/
theorem find_absent {o : Ops α} {s : HS α} {xs} (h : Inv o s xs) {x : α}
    (habs : ∀ a d, (a, d) ∈ xs → o.eqv d x = false) :
    ∃ ff, find o s x = .ok (none, ff) ∧
      (∀ f, ff = some f → FreeFor s.slots s.cap (o.hash x) f) ∧
      (cnt nz s.slots s.cap < s.cap → ff.isSome) := by
  by_cases hc0 : s.cap = 0
  · exact ⟨none, by simp [find, hc0], by simp, by omega⟩
  have hc : 0 < s.cap := by omega
  rw [find, if_neg hc0]
  have key : ∀ n i ff, i + n = s.cap →
      (∀ j, j < i → s.slots ((o.hash x + j) % s.cap) ≠ .empty) →
      (∀ f, ff = some f → FreeFor s.slots s.cap (o.hash x) f) →
      ∃ ff', findLoop o s x n ((o.hash x + i) % s.cap) ff = .ok (none, ff') ∧
      (∀ f, ff' = some f → FreeFor s.slots s.cap (o.hash x) f) ∧
      (cnt nz s.slots s.cap < s.cap → ff'.isSome) := by
    intro n
    induction n with
    | zero =>
      intro i ff h1 h2 h3
      refine ⟨ff, rfl, h3, ?_⟩
      intro hlt
      obtain ⟨e, hec, hee⟩ := cnt_lt_exists nz s.slots s.cap hlt
      obtain ⟨j, hjc, hje⟩ := mod_cover (o.hash x) e s.cap hec
      have := h2 j (by omega)
      rw [hje] at this
      cases hse : s.slots e <;> simp_all [nz]
    | succ n ih =>
      intro i ff h1 h2 h3
      simp only [findLoop, mod_step]
      cases hsl : s.slots ((o.hash x + i) % s.cap) with
      | empty =>
        refine ⟨_, rfl, ?_, by simp⟩
        intro f hf
        cases ff with
        | some g => simp at hf; subst hf; exact h3 _ rfl
        | none =>
          simp at hf; subst hf
          exact ⟨by simp [hsl, isEl], i, by omega, rfl, h2⟩
      | tomb =>
        refine ih (i + 1) _ (by omega) ?_ ?_
        · intro j hj
          by_cases hji : j = i
          · subst hji; simp [hsl]
          · exact h2 j (by omega)
        · intro f hf
          cases ff with
          | some g => simp at hf; subst hf; exact h3 _ rfl
          | none =>
            simp at hf; subst hf
            exact ⟨by simp [hsl, isEl], i, by omega, rfl, h2⟩
      | elem b =>
        obtain ⟨e, hbe⟩ := h.idx.sound _ b (Nat.mod_lt _ hc) hsl
        obtain ⟨nd, hnd, hdd⟩ := rep_mem h.rep hbe
        simp only [hnd, hdd, habs b e hbe, Bool.false_eq_true, if_false]
        refine ih (i + 1) _ (by omega) ?_ h3
        intro j hj
        by_cases hji : j = i
        · subst hji; simp [hsl]
        · exact h2 j (by omega)
  have := key s.cap 0 none (by omega) (by simp) (by simp)
  simpa using this

/-- Storing a fresh element at a free slot keeps the index exact. -/
theorem indexes_insert {o : Ops α} {slots : Nat → Slot} {cap : Nat} {xs : List (Nat × α)}
    (h : Indexes o slots cap xs) {a : Nat} {d : α} {f : Nat} (hfree : FreeFor slots cap (o.hash d) f)
    (hnew : ∀ e, (a, e) ∉ xs) : Indexes o (upd slots f (.elem a)) cap (xs ++ [(a, d)]) := by
  obtain ⟨hne, k, hk, rfl, hpre⟩ := hfree
  have hc : 0 < cap := by omega
  have mono : ∀ i, slots i ≠ .empty → upd slots ((o.hash d + k) % cap) (.elem a) i ≠ .empty := by
    intro i hi
    by_cases hif : i = (o.hash d + k) % cap
    · subst hif; simp
    · rw [upd_other _ _ hif]; exact hi
  constructor
  · intro i b hi hb
    by_cases hif : i = (o.hash d + k) % cap
    · subst hif; simp at hb; subst hb; exact ⟨d, by simp⟩
    · rw [upd_other _ _ hif] at hb
      obtain ⟨e, he⟩ := h.sound i b hi hb
      exact ⟨e, by simp [he]⟩
  · intro b e hbe
    rcases List.mem_append.1 hbe with hbe | hbe
    · obtain ⟨j, hj, hjs, hjp⟩ := h.reach b e hbe
      refine ⟨j, hj, ?_, fun m hm => mono _ (hjp m hm)⟩
      have : (o.hash e + j) % cap ≠ (o.hash d + k) % cap := by
        intro hq; rw [hq] at hjs; simp [hjs, isEl] at hne
      rw [upd_other _ _ this]; exact hjs
    · simp at hbe; obtain ⟨rfl, rfl⟩ := hbe
      exact ⟨k, hk, by simp, fun m hm => mono _ (hpre m hm)⟩
  · intro i j b hi hj hib hjb
    by_cases hif : i = (o.hash d + k) % cap <;> by_cases hjf : j = (o.hash d + k) % cap
    · rw [hif, hjf]
    · subst hif; rw [upd_same] at hib; simp at hib; subst hib
      rw [upd_other _ _ hjf] at hjb
      obtain ⟨e, he⟩ := h.sound j a hj hjb
      exact absurd he (hnew e)
    · subst hjf; rw [upd_same] at hjb; simp at hjb; subst hjb
      rw [upd_other _ _ hif] at hib
      obtain ⟨e, he⟩ := h.sound i a hi hib
      exact absurd he (hnew e)
    · rw [upd_other _ _ hif] at hib; rw [upd_other _ _ hjf] at hjb
      exact h.uniq i j b hi hj hib hjb

/-- Appending through the hashset's own link code is the list's `add_tail`. -/
theorem insert_links {l : LList α} {xs} (h : Rep l xs) (x : α) {a : Nat} (ha : l.mem a = none) :
    ∃ mem, modNode (upd l.mem a (some { data := x, prev := l.tail, next := none })) l.tail
        (fun t => { t with next := some a }) = .ok mem ∧
      Rep { len := l.len + 1, head := if l.tail.isSome then l.head else some a, tail := some a,
            mem := mem } (xs ++ [(a, x)]) := by
  obtain ⟨l', hl', hrep⟩ := rep_addTail h x ha
  have hht : l.head.isNone = l.tail.isNone := by
    rw [h.head, h.tail]; cases xs with
    | nil => rfl
    | cons x xs => simp [List.getLast?_cons]
  unfold addTail at hl'
  cases ht : l.tail with
  | none =>
    rw [ht] at hl' hht
    simp only [Option.isNone_none] at hht
    simp only [hht, if_true, Res.ok.injEq] at hl'
    refine ⟨_, rfl, ?_⟩
    simpa [← hl'] using hrep
  | some t =>
    rw [ht] at hl' hht
    simp only [Option.isNone_some] at hht
    simp only [hht, Bool.false_eq_true, if_false] at hl'
    have hta : ∃ n, upd l.mem a (some { data := x, prev := some t, next := none }) t = some n := by
      cases hq : upd l.mem a (some { data := x, prev := some t, next := none }) t with
      | none => rw [hq] at hl'; simp at hl'
      | some n => exact ⟨n, rfl⟩
    obtain ⟨n, hn⟩ := hta
    rw [hn] at hl'
    simp only [Res.ok.injEq] at hl'
    refine ⟨_, by simp only [modNode, hn]; rfl, ?_⟩
    simpa [← hl'] using hrep

theorem insertAt_spec {o : Ops α} (ho : OpsOk o) {s : HS α} {xs} (h : Inv o s xs) {x : α} {f a : Nat}
    (hfree : FreeFor s.slots s.cap (o.hash x) f) (ha : s.list.mem a = none)
    (habs : ∀ a d, (a, d) ∈ xs → o.eqv d x = false) :
    ∃ s', insertAt s x (some f) (some a) = .ok (s', none) ∧ Inv o s' (xs ++ [(a, x)]) := by
  obtain ⟨mem, hmem, hrep⟩ := insert_links h.rep x ha
  have hnew : ∀ e, (a, e) ∉ xs := by
    intro e hm
    obtain ⟨nd, hnd, -⟩ := rep_mem h.rep hm
    simp [ha] at hnd
  have hidx := indexes_insert h.idx hfree hnew
  obtain ⟨hne, k, hk, hfk, -⟩ := hfree
  have hfc : f < s.cap := by rw [hfk]; exact Nat.mod_lt _ (by omega)
  refine ⟨_, by simp only [insertAt]; rw [if_neg (by omega)]; simp only [hmem]; rfl, ?_⟩
  have c1 := cnt_upd nz s.slots f (.elem a) s.cap hfc
  have c2 := cnt_upd isEl s.slots f (.elem a) s.cap hfc
  constructor
  · exact hrep
  · exact hidx
  · exact h.capb
  · exact h.pow2
  · show (if s.slots f = Slot.tomb then s.inUse else s.inUse + 1) = _
    rw [h.inUse]
    cases hsf : s.slots f with
    | empty => simp [hsf, nz] at c1 ⊢; omega
    | tomb => simp [hsf, nz] at c1 ⊢; omega
    | elem b => simp [hsf, isEl] at hne
  · show (xs ++ [(a, x)]).length = cnt isEl (upd s.slots f (.elem a)) s.cap
    rw [hne] at c2
    simp only [isEl, if_true, Bool.false_eq_true, if_false] at c2
    rw [List.length_append, h.live]; simp; omega
  · intro b d c e hb hcm he
    rcases List.mem_append.1 hb with hb' | hb' <;> rcases List.mem_append.1 hcm with hcm' | hcm'
    · exact h.nodup b d c e hb' hcm' he
    · simp at hcm'; obtain ⟨rfl, rfl⟩ := hcm'
      rw [habs b d hb'] at he; cases he
    · simp at hb'; obtain ⟨rfl, rfl⟩ := hb'
      have := ho.symm _ _ he
      rw [habs c e hcm'] at this; cases this
    · simp at hb' hcm'; rw [hb'.1, hcm'.1]

/-- The rehash probe loop ends on a free slot when there is one. -/
theorem probeFree_ok {slots : Nat → Slot} {cap hx : Nat} (hlt : cnt nz slots cap < cap) :
    ∃ f, probeFree slots cap cap (hx % cap) = .ok f ∧ f < cap ∧ slots f = .empty ∧
      FreeFor slots cap hx f := by
  have hc : 0 < cap := by omega
  obtain ⟨e, hec, hee⟩ := cnt_lt_exists nz slots cap hlt
  obtain ⟨j, hjc, hje⟩ := mod_cover hx e cap hec
  have hempty : slots ((hx + j) % cap) = .empty := by
    rw [hje]; cases hse : slots e <;> simp_all [nz]
  have key : ∀ n i, i + n = cap → i ≤ j → (∀ m, m < i → slots ((hx + m) % cap) ≠ .empty) →
      ∃ f, probeFree slots cap n ((hx + i) % cap) = .ok f ∧ f < cap ∧ slots f = .empty ∧
        FreeFor slots cap hx f := by
    intro n
    induction n with
    | zero => intro i h1 h2; omega
    | succ n ih =>
      intro i h1 h2 h3
      simp only [probeFree, mod_step]
      cases hsl : slots ((hx + i) % cap) with
      | empty =>
        exact ⟨_, rfl, Nat.mod_lt _ hc, hsl, by simp [hsl, isEl], i, by omega, rfl, h3⟩
      | tomb =>
        have hij : i ≠ j := by rintro rfl; rw [hsl] at hempty; cases hempty
        refine ih (i + 1) (by omega) (by omega) ?_
        intro m hm
        by_cases hmi : m = i
        · subst hmi; simp [hsl]
        · exact h3 m (by omega)
      | elem b =>
        have hij : i ≠ j := by rintro rfl; rw [hsl] at hempty; cases hempty
        refine ih (i + 1) (by omega) (by omega) ?_
        intro m hm
        by_cases hmi : m = i
        · subst hmi; simp [hsl]
        · exact h3 m (by omega)
  have := key cap 0 (by omega) (by omega) (by simp)
  simpa using this

/-- No tombstones: every non-empty slot holds an element. -/
def NoTomb (slots : Nat → Slot) : Prop := ∀ i, slots i ≠ .tomb

theorem rehash_loop {o : Ops α} {l : LList α} {newCap : Nat} :
    ∀ (rest ys : List (Nat × α)) (slots : Nat → Slot) (fuel : Nat),
    Rep l (ys ++ rest) → (ys ++ rest).length < newCap → rest.length ≤ fuel →
    Indexes o slots newCap ys → NoTomb slots → cnt nz slots newCap = ys.length →
    cnt isEl slots newCap = ys.length →
    ∃ slots', foreachLoop (rehashBody o newCap) fuel l slots (rest[0]?.map (·.1))
        (rest[1]?.map (·.1)) = .ok (l, slots') ∧
      Indexes o slots' newCap (ys ++ rest) ∧ cnt nz slots' newCap = (ys ++ rest).length ∧
      cnt isEl slots' newCap = (ys ++ rest).length := by
  intro rest
  induction rest with
  | nil =>
    intro ys slots fuel h _ _ hi _ hc1 hc2
    exact ⟨slots, by cases fuel <;> simp [foreachLoop], by simpa using hi, by simpa using hc1,
      by simpa using hc2⟩
  | cons x rest ih =>
    obtain ⟨a, d⟩ := x
    intro ys slots fuel h hlen hf hi ht hc1 hc2
    obtain ⟨fuel, rfl⟩ : ∃ f, fuel = f + 1 := ⟨fuel - 1, by simp at hf; omega⟩
    have hget : (ys ++ (a, d) :: rest)[ys.length]? = some (a, d) := by simp
    have hcell := h.cells _ _ _ hget
    have hdat : (nodeAt (ys ++ (a, d) :: rest) ys.length d).data = d := rfl
    obtain ⟨f, hp, hfc, hfe, hff⟩ := probeFree_ok (slots := slots) (cap := newCap) (hx := o.hash d)
      (by rw [hc1]; simp at hlen; omega)
    have hnew : ∀ e, (a, e) ∉ ys := by
      intro e hm
      obtain ⟨i, hi'⟩ := mem_idx hm
      have hil : i < ys.length := (List.getElem?_eq_some_iff.1 hi').1
      have : (ys ++ (a, d) :: rest)[i]? = some (a, e) := by
        rw [List.getElem?_append_left hil]; exact hi'
      have := nodup_idx h.nodup this hget
      omega
    have hn : nextOf l (rest[0]?.map (·.1)) = .ok (rest[1]?.map (·.1)) := by
      have := nextOf_pos h (ys.length + 1)
      rw [List.getElem?_append_right (by omega), List.getElem?_append_right (by omega)] at this
      simpa [show ys.length + 1 + 1 - ys.length = 2 by omega] using this
    have c1 := cnt_upd nz slots f (.elem a) newCap hfc
    have c2 := cnt_upd isEl slots f (.elem a) newCap hfc
    rw [hfe] at c1 c2
    simp only [nz, isEl, Bool.false_eq_true, if_false, if_true] at c1 c2
    obtain ⟨slots', r1, r2, r3, r4⟩ := ih (ys ++ [(a, d)]) (upd slots f (.elem a)) fuel
      (by simpa using h) (by simpa using hlen) (by simp at hf; omega)
      (indexes_insert hi hff hnew)
      (by intro i
          by_cases hif : i = f
          · subst hif; simp
          · rw [upd_other _ _ hif]; exact ht i)
      (by rw [List.length_append]; simp; omega) (by rw [List.length_append]; simp; omega)
    refine ⟨slots', ?_, by simpa using r2, by simpa using r3, by simpa using r4⟩
    simp only [List.getElem?_cons_zero, List.getElem?_cons_succ, Option.map_some, foreachLoop,
      rehashBody, hcell, hdat, hp, hn]
    exact r1

theorem resize_spec {o : Ops α} {s : HS α} {xs} (h : Inv o s xs) {newCap : Nat}
    (hlt : xs.length < newCap) (hb : newCap ≤ MAX_CAP) (hp : ∃ k, newCap = 2 ^ k) :
    ∃ s', resize o s newCap true = .ok s' ∧ Inv o s' xs ∧ s'.cap = newCap ∧ s'.inUse = xs.length ∧
      s'.list = s.list := by
  have h0 := nextOf_pos h.rep 0
  rw [← List.head?_eq_getElem?, ← h.rep.head] at h0
  obtain ⟨slots', r1, r2, r3, r4⟩ := rehash_loop (o := o) (l := s.list) (newCap := newCap) xs []
    (fun _ => .empty) s.list.len (by simpa using h.rep) (by simpa using hlt)
    (by rw [h.rep.len]; exact Nat.le_refl _) (by constructor <;> simp) (by intro i; simp)
    (cnt_empty nz rfl _) (cnt_empty isEl rfl _)
  rw [← List.head?_eq_getElem?, ← h.rep.head] at r1
  refine ⟨{ s with slots := slots', cap := newCap, inUse := s.list.len }, ?_, ?_, rfl, h.rep.len, rfl⟩
  · rw [resize, if_neg (by rw [h.rep.len]; omega)]
    simp only [Bool.not_true, Bool.false_eq_true, if_false, foreach, h0, r1]
  · constructor
    · exact h.rep
    · simpa using r2
    · exact hb
    · exact .inr hp
    · simpa [h.rep.len] using r3.symm
    · simpa using r4.symm
    · exact h.nodup

theorem len_le_cap {o : Ops α} {s : HS α} {xs} (h : Inv o s xs) : xs.length ≤ s.cap := by
  rw [h.live]; exact cnt_le _ _ _

/-- Unlinking through the hashset's own code is the list's `delete`. -/
theorem unlink_spec {o : Ops α} {s : HS α} {xs} (h : Inv o s xs) {i idx a : Nat} {d : α}
    (hi : xs[i]? = some (a, d)) (hidx : idx < s.cap) (hs : s.slots idx = .elem a) :
    ∃ s', unlink s idx = .ok s' ∧ Inv o s' (xs.eraseIdx i) ∧
      (∀ b, s.list.mem b = none → s'.list.mem b = none) := by
  have hilt : i < xs.length := (List.getElem?_eq_some_iff.1 hi).1
  have hcell := h.rep.cells i a d hi
  obtain ⟨l', hl', hrep, hnone, hkeep⟩ := rep_delete h.rep hi
  unfold CList.delete at hl'
  rw [hcell] at hl'
  simp only at hl'
  -- head/tail computed differently by the two functions
  have hhd : (if s.list.head = some a then (nodeAt xs i d).next else s.list.head) =
      (if (nodeAt xs i d).prev.isSome then s.list.head else (nodeAt xs i d).next) := by
    rw [h.rep.head, List.head?_eq_getElem?]
    by_cases h0 : i = 0
    · subst h0; rw [hi]; simp [nodeAt]
    · have hp : (nodeAt xs i d).prev.isSome = true := by
        simp only [nodeAt, h0, if_false]
        rw [List.getElem?_eq_getElem (by omega)]; rfl
      have : ¬ (Option.map (·.1) xs[0]? = some a) := by
        intro hq
        obtain ⟨⟨b, e⟩, hb, hb2⟩ := Option.map_eq_some_iff.1 hq
        simp at hb2; subst hb2
        exact h0 (nodup_idx h.rep.nodup hi hb)
      rw [if_neg this, hp]; rfl
  have htl : (if s.list.tail = some a then (nodeAt xs i d).prev else s.list.tail) =
      (if (nodeAt xs i d).next.isSome then s.list.tail else (nodeAt xs i d).prev) := by
    rw [h.rep.tail, List.getLast?_eq_getElem?]
    by_cases h0 : i = xs.length - 1
    · rw [← h0, hi]
      have : xs[i+1]? = none := List.getElem?_eq_none (by omega)
      simp [nodeAt, this]
    · have hp : (nodeAt xs i d).next.isSome = true := by
        simp only [nodeAt]
        rw [List.getElem?_eq_getElem (by omega)]; rfl
      have : ¬ (Option.map (·.1) xs[xs.length - 1]? = some a) := by
        intro hq
        obtain ⟨⟨b, e⟩, hb, hb2⟩ := Option.map_eq_some_iff.1 hq
        simp at hb2; subst hb2
        exact h0 (nodup_idx h.rep.nodup hi hb)
      rw [if_neg this, hp]; rfl
  cases hm1 : modNode s.list.mem (nodeAt xs i d).prev
      (fun p => { p with next := (nodeAt xs i d).next }) with
  | err e => rw [hm1] at hl'; simp at hl'
  | ub => rw [hm1] at hl'; simp at hl'
  | ok mem1 =>
    rw [hm1] at hl'
    simp only at hl'
    cases hm2 : modNode mem1 (nodeAt xs i d).next
        (fun p => { p with prev := (nodeAt xs i d).prev }) with
    | err e => rw [hm2] at hl'; simp at hl'
    | ub => rw [hm2] at hl'; simp at hl'
    | ok mem2 =>
      rw [hm2] at hl'
      simp only [Res.ok.injEq] at hl'
      refine ⟨{ slots := upd s.slots idx .tomb, cap := s.cap, inUse := s.inUse, list := l' }, ?_, ?_, hkeep⟩
      · simp only [unlink, hs, hcell, hm1, hm2, ← hl', hhd, htl]
      · have hmem_erase : ∀ b e, (b, e) ∈ xs.eraseIdx i → (b, e) ∈ xs ∧ b ≠ a := by
          intro b e hb
          refine ⟨(List.eraseIdx_sublist xs i).subset hb, ?_⟩
          rintro rfl
          obtain ⟨j, hj⟩ := mem_idx hb
          have := hrep.cells j b e hj
          rw [hnone] at this; cases this
        have hc1 := cnt_upd nz s.slots idx .tomb s.cap hidx
        have hc2 := cnt_upd isEl s.slots idx .tomb s.cap hidx
        rw [hs] at hc1 hc2
        simp only [nz, isEl, Bool.false_eq_true, if_false, if_true] at hc1 hc2
        constructor
        · exact hrep
        · constructor
          · intro j b hj hb
            by_cases hji : j = idx
            · subst hji; simp at hb
            · simp only [upd_other _ _ hji] at hb
              obtain ⟨e, he⟩ := h.idx.sound j b hj hb
              have hba : b ≠ a := by
                rintro rfl
                exact hji (h.idx.uniq j idx b hj hidx hb hs)
              refine ⟨e, ?_⟩
              obtain ⟨m, hm⟩ := mem_idx he
              have hmi : m ≠ i := by
                rintro rfl
                rw [hi] at hm; simp at hm; exact hba hm.1.symm
              rw [List.mem_eraseIdx_iff_getElem?]
              exact ⟨m, hmi, hm⟩
          · intro b e hb
            obtain ⟨hb, hba⟩ := hmem_erase b e hb
            obtain ⟨k, hk, hks, hkp⟩ := h.idx.reach b e hb
            refine ⟨k, hk, ?_, ?_⟩
            · have : (o.hash e + k) % s.cap ≠ idx := by
                rintro rfl
                rw [hs] at hks; simp at hks; exact hba hks.symm
              simp only [upd_other _ _ this]; exact hks
            · intro j hj
              by_cases hji : (o.hash e + j) % s.cap = idx
              · simp [hji]
              · simp only [upd_other _ _ hji]; exact hkp j hj
          · intro j k b hj hk hjb hkb
            have hj1 : j ≠ idx := by rintro rfl; simp at hjb
            have hk1 : k ≠ idx := by rintro rfl; simp at hkb
            simp only [upd_other _ _ hj1] at hjb
            simp only [upd_other _ _ hk1] at hkb
            exact h.idx.uniq j k b hj hk hjb hkb
        · exact h.capb
        · exact h.pow2
        · simp only [h.inUse]; omega
        · have := h.live
          rw [List.length_eraseIdx, if_pos hilt]
          show _ = cnt isEl (upd s.slots idx .tomb) s.cap
          omega
        · intro b e c g hb hcm
          exact h.nodup b e c g (hmem_erase b e hb).1 (hmem_erase c g hcm).1

/-- Doubling step of the bit smearing in `_bf_round_next_power_of_2`. -/
theorem smear_step {k v w : Nat} (h : ∀ i, w.testBit i = true ↔ ∃ j, j < k ∧ v.testBit (i + j) = true) :
    ∀ i, (w ||| (w >>> k)).testBit i = true ↔ ∃ j, j < k + k ∧ v.testBit (i + j) = true := by
  intro i
  rw [Nat.testBit_or, Nat.testBit_shiftRight, Bool.or_eq_true, h, h]
  constructor
  · rintro (⟨j, hj, hb⟩ | ⟨j, hj, hb⟩)
    · exact ⟨j, by omega, hb⟩
    · exact ⟨k + j, by omega, by rwa [show i + (k + j) = k + i + j by omega]⟩
  · rintro ⟨j, hj, hb⟩
    by_cases hjk : j < k
    · exact .inl ⟨j, hjk, hb⟩
    · exact .inr ⟨j - k, by omega, by rwa [show k + i + (j - k) = i + j by omega]⟩

/-- `_bf_round_next_power_of_2` returns a power of two at least as large as its argument. -/
theorem roundPow2_spec {n : Nat} (h : n ≤ 2 ^ 61) : n ≤ roundPow2 n ∧ ∃ k, roundPow2 n = 2 ^ k := by
  unfold roundPow2
  split
  · exact ⟨by omega, 0, rfl⟩
  · rename_i h0
    dsimp only
    generalize hv : n - 1 = v
    have h1 : ∀ i, v.testBit i = true ↔ ∃ j, j < 1 ∧ v.testBit (i + j) = true := by
      intro i
      constructor
      · intro hb; exact ⟨0, by omega, hb⟩
      · rintro ⟨j, hj, hb⟩
        have : j = 0 := by omega
        subst this; exact hb
    have h2 := smear_step h1
    generalize v ||| (v >>> 1) = v1 at h2 ⊢
    have h3 := smear_step h2
    simp only [Nat.reduceAdd] at h3
    generalize v1 ||| (v1 >>> 2) = v2 at h3 ⊢
    have h4 := smear_step h3
    simp only [Nat.reduceAdd] at h4
    generalize v2 ||| (v2 >>> 4) = v3 at h4 ⊢
    have h5 := smear_step h4
    simp only [Nat.reduceAdd] at h5
    generalize v3 ||| (v3 >>> 8) = v4 at h5 ⊢
    have h6 := smear_step h5
    simp only [Nat.reduceAdd] at h6
    generalize v4 ||| (v4 >>> 16) = v5 at h6 ⊢
    have h7 := smear_step h6
    simp only [Nat.reduceAdd] at h7
    generalize v5 ||| (v5 >>> 32) = v6 at h7 ⊢
    by_cases hv0 : v = 0
    · have : v6 = 0 := by
        apply Nat.eq_of_testBit_eq
        intro i
        cases hb : v6.testBit i with
        | false => simp
        | true =>
          obtain ⟨j, -, hj⟩ := (h7 i).1 hb
          rw [hv0] at hj; simp at hj
      subst this
      exact ⟨by simp [wrap]; omega, 0, by simp [wrap]⟩
    · have hlog : v.log2 < 61 := by
        have := (Nat.log2_lt hv0 (k := 61)).2 (by omega)
        exact this
      have hv6 : v6 = 2 ^ (v.log2 + 1) - 1 := by
        apply Nat.eq_of_testBit_eq
        intro i
        rw [Nat.testBit_two_pow_sub_one]
        by_cases hi : i < v.log2 + 1
        · simp only [hi, decide_true]
          rw [h7]
          refine ⟨v.log2 - i, by omega, ?_⟩
          rw [show i + (v.log2 - i) = v.log2 by omega]
          exact Nat.testBit_log2 hv0
        · simp only [hi, decide_false]
          cases hb : v6.testBit i with
          | false => rfl
          | true =>
            obtain ⟨j, -, hj⟩ := (h7 i).1 hb
            have : v < 2 ^ (i + j) := by
              have h8 : v < 2 ^ (v.log2 + 1) := Nat.lt_log2_self
              exact Nat.lt_of_lt_of_le h8 (Nat.pow_le_pow_right (by omega) (by omega))
            rw [Nat.testBit_lt_two_pow this] at hj; cases hj
      have hpos : 0 < 2 ^ (v.log2 + 1) := Nat.pow_pos (by omega)
      have hle : 2 ^ (v.log2 + 1) ≤ 2 ^ 61 := Nat.pow_le_pow_right (by omega) (by omega)
      have h8 : v < 2 ^ (v.log2 + 1) := Nat.lt_log2_self
      have hw : wrap (v6 + 1) = 2 ^ (v.log2 + 1) := by
        unfold wrap
        rw [Nat.mod_eq_of_lt (by omega)]; omega
      rw [hw]
      exact ⟨by omega, _, rfl⟩

/-- Doubling a power-of-two capacity below the maximum stays within the maximum. -/
theorem double_cap {c : Nat} (h : c = 0 ∨ ∃ k, c = 2 ^ k) (hlt : c < MAX_CAP) : c * 2 ≤ MAX_CAP := by
  have hM : MAX_CAP = 2 ^ 60 := by decide
  rcases h with rfl | ⟨k, rfl⟩
  · omega
  · rw [hM] at *
    have : k < 60 := by
      rcases Nat.lt_or_ge k 60 with h | h
      · exact h
      · have := Nat.pow_le_pow_right (n := 2) (by omega) h; omega
    rw [← Nat.pow_succ]
    exact Nat.pow_le_pow_right (by omega) (by omega)

end Bf.CHash
