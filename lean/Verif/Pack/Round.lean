import Verif.Pack.Read
import Verif.Frag.Tagged
import Verif.Props.C15_Inert
/-!
# Reading back what was written

Lemmas about `Verif/Pack/Read.lean`.
-/
namespace Bf

/-- A C string: its characters are bytes other than NUL. -/
def IsCStr (s : String) : Prop := ∀ c ∈ s.toList, 0 < c.toNat ∧ c.toNat < 256

instance (s : String) : Decidable (IsCStr s) := by unfold IsCStr; infer_instance

theorem ofCstr_cstr {s : String} (h : IsCStr s) : ofCstr (cstr s) = s := by
  unfold ofCstr cstr
  rw [List.map_map]
  have : s.toList.map ((fun x : Byte => Char.ofNat x.toNat) ∘ fun c => BitVec.ofNat 8 c.toNat) = s.toList := by
    refine (List.map_congr_left (g := id) fun c hc => ?_).trans (List.map_id _)
    have := h c hc
    simp [Nat.mod_eq_of_lt this.2]
  rw [this]; simp

theorem readStr_cstr {s : String} (h : IsCStr s) : readStr (.str (cstr s)) = .ok s := by
  have : (cstr s).contains 0 = false := by
    rw [List.contains_eq_any_beq, List.any_eq_false]
    intro b hb
    simp only [cstr, List.mem_map] at hb
    obtain ⟨c, hc, rfl⟩ := hb
    have := h c hc
    simp only [beq_iff_eq]
    intro e
    have := congrArg BitVec.toNat e
    simp at this
    omega
  simp only [readStr, this, ofCstr_cstr h]
  rfl

theorem MType.read (t : MType) : readEnum MType.vals (enumNode MType.vals t) = .ok t := by cases t <;> rfl
theorem MOp.read (t : MOp) : readEnum MOp.vals (enumNode MOp.vals t) = .ok t := by cases t <;> rfl
theorem Hook.read (t : Hook) : readEnum Hook.vals (enumNode Hook.vals t) = .ok t := by cases t <;> rfl
theorem Verdict.read (t : Verdict) : readEnum Verdict.vals (enumNode Verdict.vals t) = .ok t := by cases t <;> rfl
theorem RedirDir.read (t : RedirDir) : readEnum RedirDir.vals (enumNode RedirDir.vals t) = .ok t := by cases t <;> rfl

theorem readAll_map {α β : Type} {f : Node → Res β} {g : α → Node} {h : α → β} {l : List α}
    (hf : ∀ a ∈ l, f (g a) = .ok (h a)) : readAll f (l.map g) = .ok (l.map h) := by
  induction l with
  | nil => rfl
  | cons a l ih =>
    simp only [List.map_cons, readAll, hf a (by simp), Res.bind, ih fun b hb => hf b (by simp [hb])]

theorem matcher_round {m : Matcher} (h : m.payload ≠ []) : matcherUnpack (matcherNode m) = .ok m := by
  have h1 : kvNode (matcherNode m) "type" = .ok (enumNode MType.vals m.type) := rfl
  have h2 : kvNode (matcherNode m) "op" = .ok (enumNode MOp.vals m.op) := rfl
  have h3 : kvContains (matcherNode m) "negate" = .ok true := rfl
  have h4 : kvNode (matcherNode m) "negate" = .ok (.bool m.negate) := rfl
  have h5 : kvNode (matcherNode m) "payload" = .ok (.bin m.payload) := rfl
  simp only [matcherUnpack, h1, h2, h3, h4, h5, Res.bind, MType.read, MOp.read, readBool, readBin, if_true, h, if_false]

theorem ofNat_toNat_bv {w : Nat} (x : BitVec w) : BitVec.ofNat w x.toNat = x := by simp

theorem rule_round {r : Rule} (hi : r.index < 2 ^ 32) (h : ∀ m ∈ r.matchers, m.payload ≠ []) :
    ruleUnpack (ruleNode r) = .ok { r with disabled := false } := by
  have h1 : kvNode (ruleNode r) "index" = .ok (.uint r.index) := rfl
  have h2 : kvNode (ruleNode r) "log" = .ok (.uint r.log.toNat) := rfl
  have h3 : kvContains (ruleNode r) "log_rate_ns" = .ok true := rfl
  have h4 : kvNode (ruleNode r) "log_rate_ns" = .ok (.uint r.rate.toNat) := rfl
  have h5 : kvContains (ruleNode r) "has_counters" = .ok true := rfl
  have h6 : kvNode (ruleNode r) "has_counters" = .ok (.bool r.hasCounters) := rfl
  have h7 : kvNode (ruleNode r) "mark" = .ok (.uint r.mark.toNat) := rfl
  have h8 : kvNode (ruleNode r) "verdict" = .ok (enumNode Verdict.vals r.verdict) := rfl
  have h9 : kvContains (ruleNode r) "redirect_ifindex" = .ok true := rfl
  have h10 : kvNode (ruleNode r) "redirect_ifindex" = .ok (.uint r.redirIfindex.toNat) := rfl
  have h11 : kvContains (ruleNode r) "redirect_dir" = .ok true := rfl
  have h12 : kvNode (ruleNode r) "redirect_dir" = .ok (enumNode RedirDir.vals r.redirDir) := rfl
  have h13 : kvNode (ruleNode r) "matchers" = .ok (.arr (r.matchers.map matcherNode)) := rfl
  have h14 : readAll matcherUnpack (r.matchers.map matcherNode) = .ok r.matchers := by
    rw [readAll_map (g := matcherNode) (h := id) fun m hm => matcher_round (h m hm), List.map_id]
  have b1 : r.index ≤ 4294967295 := by omega
  have b2 : r.log.toNat ≤ 255 := by have := r.log.isLt; omega
  have b3 : r.rate.toNat ≤ 18446744073709551615 := by have := r.rate.isLt; omega
  have b4 : r.mark.toNat ≤ 18446744073709551615 := by have := r.mark.isLt; omega
  have b5 : r.redirIfindex.toNat ≤ 4294967295 := by have := r.redirIfindex.isLt; omega
  simp only [ruleUnpack, h1, h2, h3, h4, h5, h6, h7, h8, h9, h10, h11, h12, h13, h14, Res.bind, Verdict.read, RedirDir.read,
    readBool, readUint, readArr, if_true, b1, b2, b3, b4, b5, ofNat_toNat_bv]

/-- Sets built through the API: created, then extended and reduced. -/
inductive SetBuilt : BSet → Prop
  | new {name key s} : setNew name key = .ok s → SetBuilt s
  | add {s : BSet} {e : List Byte} : SetBuilt s → e.length = s.elemSize → SetBuilt { s with elems := addElem s.elems e }
  | addMany {d t s : BSet} : SetBuilt d → SetBuilt t → setAddMany d t = .ok s → SetBuilt s
  | removeMany {d t s : BSet} : SetBuilt d → SetBuilt t → setRemoveMany d t = .ok s → SetBuilt s

/-- What is true of such a set. -/
structure SetShape (s : BSet) : Prop where
  new : setNew s.name s.key = .ok { s with elems := [] }
  elems : ∀ e ∈ s.elems, e.length = s.elemSize
  nodup : s.elems.Nodup

theorem addElem_shape {n : Nat} {es : List (List Byte)} {e : List Byte} (h : ∀ e ∈ es, e.length = n) (hn : es.Nodup)
    (he : e.length = n) : (∀ e' ∈ addElem es e, e'.length = n) ∧ (addElem es e).Nodup := by
  unfold addElem
  split
  · exact ⟨h, hn⟩
  · next hc =>
    refine ⟨fun e' he' => ?_, ?_⟩
    · rw [List.mem_append] at he'
      rcases he' with h' | h'
      · exact h e' h'
      · rw [List.mem_singleton.mp h', he]
    · rw [List.nodup_append]
      refine ⟨hn, by simp, fun a ha b hb => ?_⟩
      rw [List.mem_singleton.mp hb]
      rintro rfl
      exact hc (List.contains_iff_mem.mpr ha)

theorem foldl_addElem_shape {n : Nat} {es ns : List (List Byte)} (h : ∀ e ∈ es, e.length = n) (hn : es.Nodup)
    (hm : ∀ e ∈ ns, e.length = n) : (∀ e ∈ ns.foldl addElem es, e.length = n) ∧ (ns.foldl addElem es).Nodup := by
  induction ns generalizing es with
  | nil => exact ⟨h, hn⟩
  | cons e ns ih =>
    have := addElem_shape h hn (hm e (by simp))
    exact ih this.1 this.2 fun e he => hm e (by simp [he])

theorem foldl_erase_shape {n : Nat} {es ns : List (List Byte)} (h : ∀ e ∈ es, e.length = n) (hn : es.Nodup) :
    (∀ e ∈ ns.foldl List.erase es, e.length = n) ∧ (ns.foldl List.erase es).Nodup := by
  induction ns generalizing es with
  | nil => exact ⟨h, hn⟩
  | cons e ns ih => exact ih (fun e he => h e (List.mem_of_mem_erase he)) (hn.erase e)

theorem setNew_size {n n' : Option String} {k : List MType} {s s' : BSet} (h : setNew n k = .ok s) (h' : setNew n' k = .ok s') :
    s.elemSize = s'.elemSize := by
  unfold setNew at h h'
  repeat' split at h
  all_goals first | cases h | skip
  repeat' split at h'
  all_goals first | cases h' | skip
  rfl

theorem setNew_shape {n : Option String} {k : List MType} {s : BSet} (h : setNew n k = .ok s) : SetShape s := by
  have h0 := h
  unfold setNew at h
  repeat' split at h
  all_goals first | cases h | skip
  exact ⟨h0, by simp, by simp⟩

theorem SetBuilt.shape {s : BSet} (h : SetBuilt s) : SetShape s := by
  induction h with
  | new h => exact setNew_shape h
  | add _ he ih =>
    have := addElem_shape ih.elems ih.nodup he
    exact ⟨ih.new, this.1, this.2⟩
  | @addMany d t s _ _ h ih1 ih2 =>
    unfold setAddMany at h
    split at h
    · next hk =>
      cases h
      have hk := of_decide_eq_true hk
      have hs : d.elemSize = t.elemSize := by
        have h2 := ih2.new
        rw [← hk] at h2
        have := setNew_size ih1.new h2
        exact this
      have := foldl_addElem_shape ih1.elems ih1.nodup (hs ▸ ih2.elems)
      exact ⟨ih1.new, this.1, this.2⟩
    · cases h
  | @removeMany d t s _ _ h ih1 _ =>
    unfold setRemoveMany at h
    split at h
    · cases h
      have := foldl_erase_shape (ns := t.elems) ih1.elems ih1.nodup
      exact ⟨ih1.new, this.1, this.2⟩
    · cases h

theorem keyUnpack_map {k : List MType} {n : Nat} (h : n + k.length ≤ 8) : keyUnpack n (k.map (enumNode MType.vals)) = .ok k := by
  induction k generalizing n with
  | nil => rfl
  | cons t k ih =>
    simp only [List.length_cons] at h
    simp only [List.map_cons, keyUnpack, MType.read, Res.bind, ih (n := n + 1) (by omega), show ¬ 8 < n + 1 by omega, if_false]

theorem elemsUnpack_map {s : BSet} {es : List (List Byte)} (h : ∀ e ∈ es, e.length = s.elemSize) (hn : (s.elems ++ es).Nodup) :
    elemsUnpack s (es.map .bin) = .ok { s with elems := s.elems ++ es } := by
  induction es generalizing s with
  | nil => simp [elemsUnpack]
  | cons e es ih =>
    have he := h e (by simp)
    have hc : s.elems.contains e = false := by
      rw [List.nodup_append] at hn
      cases hx : s.elems.contains e with
      | false => rfl
      | true => exact absurd rfl (hn.2.2 e (List.contains_iff_mem.mp hx) e (by simp))
    have hadd : addElem s.elems e = s.elems ++ [e] := by simp only [addElem, hc]; rfl
    simp only [List.map_cons, elemsUnpack, readBin, Res.bind, he, ne_eq, not_true_eq_false, if_false, hadd]
    rw [ih (s := { s with elems := s.elems ++ [e] }) (fun x hx => h x (by simp [hx])) (by simpa using hn)]
    simp

theorem setNew_len {n : Option String} {k : List MType} {s : BSet} (h : setNew n k = .ok s) : k.length ≤ 8 := by
  unfold setNew at h
  repeat' split at h
  all_goals first | (cases h; done) | (cases h; omega)

theorem set_round {s : BSet} (h : SetShape s) (hn : ∀ x, s.name = some x → IsCStr x) : setUnpack (setNode s) = .ok s := by
  have h1 : kvNode (setNode s) "name" = .ok (match s.name with | some x => .str (cstr x) | none => .nil) := rfl
  have h2 : kvNode (setNode s) "key" = .ok (.arr (s.key.map (enumNode MType.vals))) := rfl
  have h3 : kvNode (setNode s) "elements" = .ok (.arr (s.elems.map .bin)) := rfl
  have h4 := keyUnpack_map (n := 0) (k := s.key) (by have := setNew_len h.new; omega)
  have h5 := elemsUnpack_map (s := { s with elems := [] }) (es := s.elems) h.elems (by simpa using h.nodup)
  have h6 := h.new
  obtain ⟨name, k, sz, tr, es⟩ := s
  cases name with
  | none => simp only [setUnpack, h1, h2, h3, h4, h5, h6, Res.bind, readArr, List.nil_append]
  | some x => simp only [setUnpack, h1, h2, h3, h4, h5, h6, Res.bind, readArr, List.nil_append, readStr_cstr (hn x rfl)]

/-! ## Chains -/

theorem checkRule_off {c : Chain} {r : Rule} {b : Bool} : checkRule c { r with disabled := b } = checkRule c r := rfl

theorem checkRules_off {c : Chain} {rs : List Rule} : checkRules c (rs.map fun r => { r with disabled := false }) = checkRules c rs := by
  induction rs generalizing c with
  | nil => rfl
  | cons r rs ih =>
    simp only [List.map_cons, checkRules, ih]
    rfl

/-- Chains that can be written: C strings, lengths on 32 bits, no empty payload, sets built by the API. -/
structure Packable (c : Chain) : Prop where
  name : IsCStr c.name ∧ (cstr c.name).length < 2 ^ 32
  setNames : ∀ s ∈ c.sets, ∀ x, s.name = some x → IsCStr x ∧ (cstr x).length < 2 ^ 32
  built : ∀ s ∈ c.sets, SetBuilt s
  payloads : ∀ r ∈ c.rules, ∀ m ∈ r.matchers, m.payload ≠ [] ∧ m.payload.length < 2 ^ 32
  index : ∀ r ∈ c.rules, r.index < 2 ^ 32
  lens : c.sets.length < 2 ^ 32 ∧ c.rules.length < 2 ^ 32 ∧ (∀ s ∈ c.sets, s.elems.length < 2 ^ 32) ∧
    ∀ r ∈ c.rules, r.matchers.length < 2 ^ 32

theorem chain_round {c : Chain} (h : Packable c) : chainUnpack (chainNode c) = chainCopy c := by
  have h1 : kvNode (chainNode c) "name" = .ok (.str (cstr c.name)) := rfl
  have h2 : kvNode (chainNode c) "hook" = .ok (enumNode Hook.vals c.hook) := rfl
  have h3 : kvNode (chainNode c) "policy" = .ok (enumNode Verdict.vals c.policy) := rfl
  have h4 : kvNode (chainNode c) "sets" = .ok (.arr (c.sets.map setNode)) := rfl
  have h5 : kvNode (chainNode c) "rules" = .ok (.arr (c.rules.map ruleNode)) := rfl
  have h6 : readAll setUnpack (c.sets.map setNode) = .ok c.sets := by
    rw [readAll_map (g := setNode) (h := id) fun s hs => set_round (h.built s hs).shape fun x hx => (h.setNames s hs x hx).1, List.map_id]
  have h7 := readAll_map (f := ruleUnpack) (g := ruleNode) (h := fun r => { r with disabled := false }) (l := c.rules)
    fun r hr => rule_round (h.index r hr) fun m hm => (h.payloads r hr m hm).1
  simp only [chainUnpack, h1, h2, h3, h4, h5, h6, h7, readStr_cstr h.name.1, Hook.read, Verdict.read, readArr, Res.bind,
    chainCopy, chainNew, checkRules_off]

theorem enumNode_small {α : Type} [DecidableEq α] {all : List α} {a : α} (h : all.length < 2 ^ 63) : (enumNode all a).Small := by
  have := List.idxOf_le_length (a := a) (l := all)
  simp only [enumNode, Node.Small]
  omega

theorem key_small {s : String} (h : (cstr s).length < 2 ^ 32) : (key s).Small := by simpa [key, Node.Small] using h

theorem matcherNode_small {m : Matcher} (h : m.payload.length < 2 ^ 32) : (matcherNode m).Small := by
  simp only [matcherNode, Node.Small, Node.Smalls, List.length_cons, List.length_nil]
  exact ⟨trivial, by decide, key_small (by decide), enumNode_small (by decide), key_small (by decide), enumNode_small (by decide),
    key_small (by decide), trivial, key_small (by decide), h, trivial⟩

theorem ruleNode_small {r : Rule} (hi : r.index < 2 ^ 32) (h : ∀ m ∈ r.matchers, m.payload.length < 2 ^ 32)
    (hl : r.matchers.length < 2 ^ 32) : (ruleNode r).Small := by
  have b2 := r.log.isLt
  have b3 := r.rate.isLt
  have b4 := r.mark.isLt
  have b5 := r.redirIfindex.isLt
  simp only [ruleNode, Node.Small, Node.Smalls, List.length_cons, List.length_nil, List.length_map]
  refine ⟨trivial, by decide, key_small (by decide), by omega, key_small (by decide), by omega, key_small (by decide), by omega,
    key_small (by decide), trivial, key_small (by decide), by omega, key_small (by decide), enumNode_small (by decide),
    key_small (by decide), by omega, key_small (by decide), enumNode_small (by decide), key_small (by decide), ⟨hl, ?_⟩, trivial⟩
  rw [smalls_iff]
  intro n hn
  rw [List.mem_map] at hn
  obtain ⟨m, hm, rfl⟩ := hn
  exact matcherNode_small (h m hm)

theorem refSize_le (t : MType) (o : MOp) : t.refSize o ≤ 24 := by cases t <;> cases o <;> decide

theorem sum_refSize (k : List MType) : (k.map (·.refSize .in_)).sum ≤ 24 * k.length := by
  induction k with
  | nil => simp
  | cons t k ih =>
    have := refSize_le t .in_
    simp only [List.map_cons, List.sum_cons, List.length_cons]
    omega

theorem setNew_elemSize {n : Option String} {k : List MType} {s : BSet} (h : setNew n k = .ok s) : s.elemSize ≤ 192 := by
  have hl := setNew_len h
  have hs := sum_refSize k
  unfold setNew at h
  repeat' split at h
  all_goals first | cases h | skip
  simp only
  omega

theorem setNode_small {s : BSet} (h : SetShape s) (hn : ∀ x, s.name = some x → (cstr x).length < 2 ^ 32) (hl : s.elems.length < 2 ^ 32) :
    (setNode s).Small := by
  have hk := setNew_len h.new
  have he := setNew_elemSize h.new
  simp only [setNode, Node.Small, Node.Smalls, List.length_cons, List.length_nil, List.length_map]
  refine ⟨trivial, by decide, key_small (by decide), ?_, key_small (by decide), ⟨by omega, ?_⟩, key_small (by decide), ⟨hl, ?_⟩, trivial⟩
  · cases hx : s.name with
    | none => simp [Node.Small]
    | some x => simpa [Node.Small] using hn x hx
  · rw [smalls_iff]
    intro n hn
    rw [List.mem_map] at hn
    obtain ⟨m, hm, rfl⟩ := hn
    exact enumNode_small (by decide)
  · rw [smalls_iff]
    intro n hn
    rw [List.mem_map] at hn
    obtain ⟨e, hm, rfl⟩ := hn
    have := h.elems e hm
    simp only at he
    simp only [Node.Small]
    omega

theorem chainNode_small {c : Chain} (h : Packable c) : (chainNode c).Small := by
  obtain ⟨l1, l2, l3, l4⟩ := h.lens
  simp only [chainNode, Node.Small, Node.Smalls, List.length_cons, List.length_nil, List.length_map]
  refine ⟨trivial, by decide, key_small (by decide), h.name.2, key_small (by decide), enumNode_small (by decide), key_small (by decide),
    enumNode_small (by decide), key_small (by decide), ⟨l1, ?_⟩, key_small (by decide), ⟨l2, ?_⟩, trivial⟩
  · rw [smalls_iff]
    intro n hn
    rw [List.mem_map] at hn
    obtain ⟨s, hs, rfl⟩ := hn
    exact setNode_small (h.built s hs).shape (fun x hx => (h.setNames s hs x hx).2) (l3 s hs)
  · rw [smalls_iff]
    intro n hn
    rw [List.mem_map] at hn
    obtain ⟨r, hr, rfl⟩ := hn
    exact ruleNode_small (h.index r hr) (fun m hm => (h.payloads r hr m hm).2) (l4 r hr)

end Bf
