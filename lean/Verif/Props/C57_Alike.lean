import Verif.Spec.Corr
import Verif.Spec.Shown
import Verif.Props.C15_Inert
/-!
# C57: chains that are alike filter the same
-/
namespace Bf
open Spec

/-! ### Payloads -/

theorem host_take {p q : List Byte} {k o n : Nat} (h : p.take k = q.take k) (hk : o + n ≤ k) : host p o n = host q o n := by
  have : ∀ l : List Byte, (l.drop o).take n = ((l.take k).drop o).take n := by
    intro l
    rw [List.drop_take, List.take_take, Nat.min_eq_left (by omega)]
  unfold host
  rw [this p, this q, h]

theorem byteAt_take {p q : List Byte} {k i : Nat} (h : p.take k = q.take k) (hi : i < k) : byteAt p i = byteAt q i := by
  have : ∀ l : List Byte, l[i]? = (l.take k)[i]? := fun l => by rw [List.getElem?_take, if_pos hi]
  unfold byteAt
  rw [this p, this q, h]

theorem byteAt_drop (p : List Byte) (k i : Nat) : byteAt (p.drop k) i = byteAt p (k + i) := by
  unfold byteAt
  rw [List.getElem?_drop]

/-- A network is given by its length and that many bits. -/
theorem inNet_take {p q : List Byte} {k : Nat} (h : p.take (4 + k) = q.take (4 + k)) (hp : host p 0 4 ≤ 8 * k) (a : List Byte) : inNet a p = inNet a q := by
  unfold inNet samePrefix
  rw [← host_take h (by omega)]
  have hb : ∀ i, i < host p 0 4 → bitAt (p.drop 4) i = bitAt (q.drop 4) i := by
    intro i hi
    unfold bitAt
    rw [byteAt_drop, byteAt_drop, byteAt_take h (by omega)]
  rw [Bool.eq_iff_iff]
  simp only [List.all_eq_true, List.mem_range]
  constructor
  · intro ha i hi; rw [← hb i hi]; exact ha i hi
  · intro ha i hi; rw [hb i hi]; exact ha i hi

def net6 (t : MType) : Prop := t = .ip6Snet ∨ t = .ip6Dnet

theorem shown_all {ty : MType} {op : MOp} (h1 : ty ≠ .metaL4Proto) (h2 : ¬ net6 ty) : shown ty op = ty.refSize op := by
  unfold shown
  rw [if_neg h1]
  exact if_neg h2

theorem alike_eq {ty : MType} {op : MOp} {p q : List Byte} (h : PayloadAlike ty op p q) (hp : p.length = ty.refSize op) (h1 : ty ≠ .metaL4Proto) (h2 : ¬ net6 ty) :
    p = q := by
  obtain ⟨e, h⟩ := h
  rw [shown_all h1 h2, List.take_of_length_le (by omega), List.take_of_length_le (by omega)] at h
  exact h

/-! ### Elements and sets -/

theorem comps_eq {a b : List (MType × List Byte)} (h : Each (fun x y => x.1 = y.1 ∧ x.2.length = x.1.refSize .in_ ∧ PayloadAlike x.1 .in_ x.2 y.2) a b)
    (hk : ∀ t ∈ a.map (·.1), t.refSize .in_ ≠ 0 ∧ t.isNet = false) : a.map (·.2) = b.map (·.2) := by
  induction h with
  | nil => rfl
  | cons h1 h2 ih =>
    rename_i x y as bs
    simp only [List.map_cons]
    obtain ⟨k1, k2⟩ := hk x.1 (by simp)
    rw [ih fun t ht => hk t (by simp only [List.map_cons]; exact List.mem_cons_of_mem _ ht),
      alike_eq h1.2.2 h1.2.1 (by intro e; rw [e] at k1; exact k1 rfl) (by rintro (e | e) <;> rw [e] at k2 <;> cases k2)]

/-- Elements of sets whose key is not a network are the same. -/
theorem elem_eq {key : List MType} {e f : List Byte} (h : ElemAlike key e f) (hk : ∀ t ∈ key, t.refSize .in_ ≠ 0 ∧ t.isNet = false) : e = f := by
  obtain ⟨a, b, h1, h2, h3, h4⟩ := h
  rw [h2, h3, comps_eq h4 (h1 ▸ hk)]

/-- Elements of sets whose key is a network are the same network. -/
theorem elem_net {t : MType} {e f : List Byte} (h : ElemAlike [t] e f) (ht : t.isNet = true) (hl : host e 0 4 ≤ 8 * t.meta_.size) (a : List Byte) :
    inNet a e = inNet a f := by
  obtain ⟨xs, ys, h1, h2, h3, h4⟩ := h
  cases h4 with
  | nil => cases h1
  | cons h5 h6 =>
    rename_i x y as bs
    cases h6 with
    | cons _ _ => simp at h1
    | nil =>
      simp only [List.map_cons, List.map_nil, List.cons.injEq, and_true] at h1
      simp only [List.map_cons, List.map_nil, List.flatten_cons, List.flatten_nil, List.append_nil] at h2 h3
      subst h2; subst h3; subst h1
      obtain ⟨_, h7, h8, h9⟩ := h5
      refine inNet_take (k := x.1.meta_.size) ?_ hl a
      have hs : 4 + x.1.meta_.size ≤ shown x.1 .in_ := by
        revert ht
        unfold shown
        cases x.1 <;> simp [MType.isNet, MType.meta_, MType.refSize]
      have : ∀ l : List Byte, l.take (4 + x.1.meta_.size) = (l.take (shown x.1 .in_)).take (4 + x.1.meta_.size) := by
        intro l; rw [List.take_take, Nat.min_eq_left hs]
      rw [this x.2, this y.2, h9]

theorem setWf_key {s : BSet} (h : SetWf s) : s.key ≠ [] ∧ (∀ t ∈ s.key, t.refSize .in_ ≠ 0) ∧ (1 < s.key.length → ∀ t ∈ s.key, t.isNet = false) ∧
    s.useTrie = s.key.any MType.isNet := by
  obtain ⟨s0, h1, _, h3⟩ := h.new
  unfold setNew at h1
  split at h1
  · cases h1
  · next hl =>
    split at h1
    · cases h1
    · split at h1
      · cases h1
      · next ha =>
        split at h1
        · cases h1
        · next hn =>
          cases h1
          refine ⟨by intro e; rw [e] at hl; exact hl rfl, ?_, ?_, h3⟩
          · intro t ht e
            exact ha (List.any_eq_true.mpr ⟨t, ht, decide_eq_true e⟩)
          · intro h1 t ht
            cases hi : t.isNet with
            | false => rfl
            | true => exact absurd ⟨h1, List.any_eq_true.mpr ⟨t, ht, hi⟩⟩ hn

theorem any_net (l : List MType) : (l.any fun t => t == .ip4Snet || t == .ip4Dnet || t == .ip6Snet || t == .ip6Dnet) = l.any MType.isNet := by
  congr 1
  funext t
  cases t <;> rfl

/-- Sets that are alike have the same members. -/
theorem inSet_alike {x y : BSet} (h : SetAlike x y) (hx : SetWf x) (field : MType → List Byte) : inSet field y = inSet field x := by
  obtain ⟨k1, k2, k3, k4⟩ := setWf_key hx
  unfold inSet
  rw [← h.key, any_net]
  cases ha : x.key.any MType.isNet with
  | false =>
    rw [if_neg (by simp), if_neg (by simp)]
    have hk : ∀ t ∈ x.key, t.refSize .in_ ≠ 0 ∧ t.isNet = false := fun t ht => ⟨k2 t ht, by
      cases hi : t.isNet with
      | false => rfl
      | true => rw [List.any_eq_true.mpr ⟨t, ht, hi⟩] at ha; cases ha⟩
    rw [Bool.eq_iff_iff, List.contains_iff_mem, List.contains_iff_mem]
    constructor
    · intro hm
      obtain ⟨e, he, hal⟩ := h.right _ hm
      rw [elem_eq hal hk] at he
      exact he
    · intro hm
      obtain ⟨f, hf, hal⟩ := h.left _ hm
      rw [← elem_eq hal hk] at hf
      exact hf
  | true =>
    rw [if_pos rfl, if_pos rfl]
    obtain ⟨t, ht, hi⟩ := List.any_eq_true.mp ha
    have hone : x.key = [t] := by
      cases hk : x.key with
      | nil => exact absurd hk k1
      | cons u us =>
        cases us with
        | nil => rw [hk] at ht; rw [List.mem_singleton.mp ht]
        | cons v vs =>
          have := k3 (by rw [hk]; simp) t ht
          rw [hi] at this; cases this
    have hl : ∀ e ∈ x.elems, host e 0 4 ≤ 8 * t.meta_.size := fun e he => hx.trie (k4.trans ha) t ht e he
    rw [Bool.eq_iff_iff, List.any_eq_true, List.any_eq_true]
    constructor
    · rintro ⟨f, hf, hin⟩
      obtain ⟨e, he, hal⟩ := h.right _ hf
      exact ⟨e, he, by rw [elem_net (hone ▸ hal) hi (hl e he)]; exact hin⟩
    · rintro ⟨e, he, hin⟩
      obtain ⟨f, hf, hal⟩ := h.left _ he
      exact ⟨f, hf, by rw [← elem_net (hone ▸ hal) hi (hl e he)]; exact hin⟩

/-! ### Matchers -/

/-- The networks of matchers are not longer than addresses. -/
def NetFits (m : Matcher) : Prop := net6 m.type → host m.payload 0 4 ≤ 128

/-- Matchers that are alike, of chains that are loaded. -/
structure MCorr (xs ys : List BSet) (m n : Matcher) : Prop where
  alike : MatcherAlike xs ys m n
  wf : MatcherWf m
  fits : NetFits m

variable {xs ys : List BSet} {m n : Matcher} {thr : Nat → BitVec 32}

theorem MCorr.sets (h : MCorr xs ys m n) (hm : m.type = .set) : ∃ x y, xs[host m.payload 0 4]? = some x ∧ ys[host n.payload 0 4]? = some y ∧ SetAlike x y := by
  obtain ⟨i, j, x, y, ⟨h1, h2⟩, ⟨h3, h4⟩, h5⟩ := h.alike.set hm
  rw [rd_host h1] at h2
  rw [rd_host h3] at h4
  exact ⟨x, y, h2, h4, h5⟩

theorem MCorr.same (h : MCorr xs ys m n) (hm : m.type ≠ .set) (h1 : m.type ≠ .metaL4Proto) (h2 : ¬ net6 m.type) : n = m := by
  have hw := h.wf
  unfold MatcherWf at hw
  rw [if_neg hm] at hw
  have := alike_eq (h.alike.payload hm) hw.2.2 h1 h2
  obtain ⟨a1, a2, a3, a4⟩ := m
  obtain ⟨b1, b2, b3, b4⟩ := n
  have e1 := h.alike.type; have e2 := h.alike.op; have e3 := h.alike.negate
  simp only at e1 e2 e3 this
  subst e1; subst e2; subst e3; subst this
  rfl

theorem MCorr.l4 (h : MCorr xs ys m n) (hm : m.type = .metaL4Proto) : host n.payload 0 1 = host m.payload 0 1 := by
  have := (h.alike.payload (by rw [hm]; decide)).2
  rw [hm] at this
  exact (host_take this (Nat.le_refl 1)).symm

theorem MCorr.net (h : MCorr xs ys m n) (hm : net6 m.type) (a : List Byte) : inNet a n.payload = inNet a m.payload := by
  have := (h.alike.payload (by rcases hm with e | e <;> rw [e] <;> decide)).2
  have hs : shown m.type m.op = 4 + 16 := by unfold shown; rcases hm with e | e <;> rw [e] <;> rfl
  rw [hs] at this
  exact (inNet_take this (h.fits hm) a).symm

theorem typesOf_alike (h : MCorr xs ys m n) : typesOf ys n = typesOf xs m := by
  unfold typesOf
  rw [← h.alike.type]
  split
  · next hm =>
    obtain ⟨x, y, h1, h2, h3⟩ := h.sets hm
    rw [h1, h2]
    exact h3.key.symm
  · rfl

theorem core_alike (hx : SetsWf xs) (h : MCorr xs ys m n) (i : Input) (v : View) (mark rnd : BitVec 32) :
    core i v mark rnd ys thr n = core i v mark rnd xs thr m := by
  by_cases hset : m.type = .set
  · obtain ⟨x, y, h1, h2, h3⟩ := h.sets hset
    unfold core
    rw [← h.alike.type, hset]
    dsimp only
    rw [h1, h2]
    dsimp only
    rw [inSet_alike h3 (hx.each x (List.mem_of_getElem? h1))]
  · by_cases h4 : m.type = .metaL4Proto
    · unfold core
      rw [← h.alike.type, h4]
      dsimp only
      rw [h.l4 h4]
    · by_cases hn : net6 m.type
      · have := h.net hn
        unfold core
        rw [← h.alike.type]
        rcases hn with e | e <;> rw [e] <;> dsimp only <;> rw [this]
      · have := h.same hset h4 hn
        subst this
        unfold core
        cases ht : n.type with
        | set => exact absurd ht hset
        | _ => rfl

theorem sockCore_alike (hx : SetsWf xs) (h : MCorr xs ys m n) (v : SockView) (rnd : BitVec 32) :
    sockCore v rnd ys thr n = sockCore v rnd xs thr m := by
  by_cases hset : m.type = .set
  · obtain ⟨x, y, h1, h2, h3⟩ := h.sets hset
    unfold sockCore
    rw [← h.alike.type, hset]
    dsimp only
    rw [h1, h2]
    dsimp only
    rw [inSet_alike h3 (hx.each x (List.mem_of_getElem? h1))]
  · by_cases h4 : m.type = .metaL4Proto
    · unfold sockCore
      rw [← h.alike.type, h4]
      dsimp only
      rw [h.l4 h4]
    · by_cases hn : net6 m.type
      · have := h.net hn
        unfold sockCore
        rw [← h.alike.type]
        rcases hn with e | e <;> rw [e] <;> dsimp only <;> rw [this]
      · have := h.same hset h4 hn
        subst this
        unfold sockCore
        cases ht : n.type with
        | set => exact absurd ht hset
        | _ => rfl

/-! ### Chains -/

theorem built_nexthdr_rules {c c' : Chain} {rs : List Rule}
    (hc : c.flagNexthdr = true ↔ ∃ r ∈ c.rules, r.disabled = false ∧ ∃ m ∈ r.matchers, m.type = .ip6Nexthdr)
    (h : checkRules c rs = .ok c') : c'.flagNexthdr = true ↔ ∃ r ∈ c'.rules, r.disabled = false ∧ ∃ m ∈ r.matchers, m.type = .ip6Nexthdr := by
  induction rs generalizing c with
  | nil => cases h; exact hc
  | cons r rs ih =>
    simp only [checkRules] at h
    obtain ⟨⟨c1, r1⟩, h1, h2⟩ := Res.bind_eq_ok h
    refine ih (c := { c1 with rules := c.rules ++ [r1] }) ?_ h2
    obtain ⟨d, e1, e2, _⟩ := checkRule_ok h1
    subst e1; subst e2
    simp only [Bool.or_eq_true, hc, Bool.and_eq_true, List.any_eq_true, beq_iff_eq, Bool.not_eq_true']
    constructor
    · rintro (⟨q, hq, h3⟩ | ⟨h3, h4⟩)
      · exact ⟨q, List.mem_append_left _ hq, h3⟩
      · exact ⟨_, List.mem_append_right _ (List.mem_singleton.mpr rfl), h4, h3⟩
    · rintro ⟨q, hq, h3⟩
      rcases List.mem_append.mp hq with hq | hq
      · exact Or.inl ⟨q, hq, h3⟩
      · rw [List.mem_singleton.mp hq] at h3
        exact Or.inr ⟨h3.2, h3.1⟩

/-- A chain records IPv6 extension headers iff one of its rules asks for them. -/
theorem built_nexthdr {c : Chain} (h : BuiltChain c) : c.flagNexthdr = true ↔ ∃ r ∈ c.rules, r.disabled = false ∧ ∃ m ∈ r.matchers, m.type = .ip6Nexthdr := by
  induction h with
  | new h =>
    unfold chainNew at h
    split at h
    · cases h
    · exact built_nexthdr_rules (by simp) h
  | addRule _ h ih =>
    rename_i r _ _
    unfold chainAddRule at h
    obtain ⟨⟨c1, r1⟩, h1, h2⟩ := Res.bind_eq_ok h
    refine built_nexthdr_rules (rs := [r]) ih ?_
    simp only [checkRules]
    rw [h1]
    exact h2
  | addSet s _ ih => exact ih

end Bf
