import Verif.Cli.Spell
/-!
# How a word is read

A word of the ruleset, followed by a character that no word goes on with, is read whole.
-/
namespace Bf.Cli

/-- No character of the pattern's strings is `c`. -/
def Re.avoids (c : Char) : Re → Bool
  | .never | .eps => true
  | .one k => !k.has c
  | .seq a b | .alt a b => a.avoids c && b.avoids c
  | .star a => a.avoids c

theorem avoids_lang {c : Char} {r : Re} {w : List Char} (h : r.avoids c = true) (hl : r.Lang w) : c ∉ w := by
  induction hl with
  | eps => simp
  | @one k d hk =>
    simp only [Re.avoids, Bool.not_eq_true'] at h
    intro hm
    rw [List.mem_singleton] at hm
    rw [hm, hk] at h
    cases h
  | seq _ _ ih1 ih2 =>
    simp only [Re.avoids, Bool.and_eq_true] at h
    intro hm
    rcases List.mem_append.mp hm with hm | hm
    · exact ih1 h.1 hm
    · exact ih2 h.2 hm
  | altL _ ih =>
    simp only [Re.avoids, Bool.and_eq_true] at h
    exact ih h.1
  | altR _ ih =>
    simp only [Re.avoids, Bool.and_eq_true] at h
    exact ih h.2
  | starNil => simp
  | starCons _ _ ih1 ih2 =>
    intro hm
    rcases List.mem_append.mp hm with hm | hm
    · exact ih1 (by simpa [Re.avoids] using h) hm
    · exact ih2 h hm

/-- The pattern's strings begin with `c`. -/
def Re.starts (c : Char) : Re → Bool
  | .never => true
  | .one k => k = ⟨false, [(c, c)]⟩
  | .seq a _ => a.starts c
  | .alt a b => a.starts c && b.starts c
  | _ => false

theorem starts_lang {c : Char} {r : Re} {w : List Char} (h : r.starts c = true) (hl : r.Lang w) : w.head? = some c := by
  induction hl with
  | eps => cases h
  | @one k d hk =>
    simp only [Re.starts, decide_eq_true_eq] at h
    subst h
    obtain ⟨r, hr, h1, h2⟩ := has_pos.mp hk
    simp only [List.mem_singleton] at hr
    subst hr
    have : d = c := Char.le_antisymm h2 h1
    rw [this]
    rfl
  | seq _ _ ih1 _ => rw [List.head?_append, ih1 h]; rfl
  | altL _ ih =>
    simp only [Re.starts, Bool.and_eq_true] at h
    exact ih h.1
  | altR _ ih =>
    simp only [Re.starts, Bool.and_eq_true] at h
    exact ih h.2
  | starNil => cases h
  | starCons _ _ _ _ => cases h

/-- The strings of a pattern that has finitely many. -/
def Re.enum : Re → Option (List (List Char))
  | .never => some []
  | .eps => some [[]]
  | .one k => if k.neg = false ∧ k.ranges.all (fun r => r.1 = r.2) then some (k.ranges.map fun r => [r.1]) else none
  | .seq a b => a.enum.bind fun x => b.enum.map fun y => x.flatMap fun u => y.map fun v => u ++ v
  | .alt a b => a.enum.bind fun x => b.enum.map fun y => x ++ y
  | .star _ => none

theorem enum_lang {r : Re} {w : List Char} (hl : r.Lang w) {l : List (List Char)} (h : r.enum = some l) : w ∈ l := by
  induction hl generalizing l with
  | eps => cases h; simp
  | @one k c hk =>
    simp only [Re.enum] at h
    split at h
    · next hc =>
      cases h
      obtain ⟨n, rs⟩ := k
      cases hc.1
      obtain ⟨r, hr, h1, h2⟩ := has_pos.mp hk
      have := List.all_eq_true.mp hc.2 r hr
      simp only [decide_eq_true_eq] at this
      refine List.mem_map.mpr ⟨r, hr, ?_⟩
      rw [← this] at h2
      rw [Char.le_antisymm h1 h2]
    · cases h
  | seq _ _ ih1 ih2 =>
    simp only [Re.enum] at h
    obtain ⟨x, hx, h⟩ := Option.bind_eq_some_iff.mp h
    obtain ⟨y, hy, h⟩ := Option.map_eq_some_iff.mp h
    subst h
    exact List.mem_flatMap.mpr ⟨_, ih1 hx, List.mem_map.mpr ⟨_, ih2 hy, rfl⟩⟩
  | altL _ ih =>
    simp only [Re.enum] at h
    obtain ⟨x, hx, h⟩ := Option.bind_eq_some_iff.mp h
    obtain ⟨y, hy, h⟩ := Option.map_eq_some_iff.mp h
    subst h
    exact List.mem_append_left _ (ih hx)
  | altR _ ih =>
    simp only [Re.enum] at h
    obtain ⟨x, hx, h⟩ := Option.bind_eq_some_iff.mp h
    obtain ⟨y, hy, h⟩ := Option.map_eq_some_iff.mp h
    subst h
    exact List.mem_append_right _ (ih hy)
  | starNil => cases h
  | starCons _ _ _ _ => cases h

def Re.single : Re → Bool
  | .one _ => true
  | .alt a b => a.single && b.single
  | _ => false

theorem single_lang {r : Re} {w : List Char} (h : r.single = true) (hl : r.Lang w) : w.length = 1 := by
  induction hl with
  | eps => cases h
  | one _ => rfl
  | seq _ _ _ _ => cases h
  | altL _ ih =>
    simp only [Re.single, Bool.and_eq_true] at h
    exact ih h.1
  | altR _ ih =>
    simp only [Re.single, Bool.and_eq_true] at h
    exact ih h.2
  | starNil => cases h
  | starCons _ _ _ _ => cases h

theorem longest_le {r : Re} {s : List Char} {n : Nat} (h : ∀ m, n < m → m ≤ s.length → ¬ r.Lang (s.take m)) : r.longest s ≤ n := by
  have := longest_lt (r := r) (s := s) (n := n + 1) (fun m h1 h2 _ => h m (by omega) h2) (by omega)
  omega

theorem longest_ge {r : Re} {s : List Char} {m : Nat} (h0 : 0 < m) (h1 : m ≤ s.length) (h2 : r.Lang (s.take m)) : m ≤ r.longest s := by
  rcases Nat.lt_or_ge (r.longest s) m with hlt | hge
  · exfalso
    -- the longest of the matches
    have key : ∀ d m, m + d = s.length → 0 < m → r.Lang (s.take m) → ∃ k, m ≤ k ∧ k ≤ s.length ∧ r.Lang (s.take k) ∧ ∀ j, k < j → j ≤ s.length → ¬ r.Lang (s.take j) := by
      intro d
      induction d using Nat.strongRecOn with
      | _ d ih =>
        intro m hm h0 hl
        by_cases hk : ∃ k, m < k ∧ k ≤ s.length ∧ r.Lang (s.take k)
        · obtain ⟨k, h1, h2, h3⟩ := hk
          obtain ⟨j, e1, e2⟩ := ih (s.length - k) (by omega) k (by omega) (by omega) h3
          exact ⟨j, by omega, e2⟩
        · exact ⟨m, by omega, by omega, hl, fun k h1 h2 h3 => hk ⟨k, h1, h2, h3⟩⟩
    obtain ⟨k, e1, e2, e3, e4⟩ := key (s.length - m) m (by omega) h0 h2
    have := (longest_eq (r := r) (s := s) (n := k) (by omega)).mpr ⟨e2, e3, e4⟩
    omega
  · exact hge

/-- Of the rules that read no more than `w`, the first that reads it all. -/
theorem pick_word {st : LState} {w s : List Char} (hw : w ≠ []) : ∀ {rs : List LRule}, (∀ r ∈ rs, r.active st = true → r.re.longest (w ++ s) ≤ w.length) →
    (∀ q, rs.find? (fun r => r.active st && r.re.accepts w) = some q → pick st (w ++ s) rs = some (w.length, q)) ∧
    (rs.find? (fun r => r.active st && r.re.accepts w) = none → ∀ n q, pick st (w ++ s) rs = some (n, q) → n < w.length)
  | [], _ => ⟨(fun _ h => by cases h), (fun _ _ _ h => by cases h)⟩
  | r :: rs, hb => by
    obtain ⟨ih1, ih2⟩ := pick_word hw (rs := rs) (fun q hq => hb q (List.mem_cons_of_mem _ hq))
    have hpos : 0 < w.length := List.length_pos_iff.mpr hw
    have htake : (w ++ s).take w.length = w := by simp
    rw [List.find?_cons]
    by_cases hr : (r.active st && r.re.accepts w) = true
    · rw [hr]
      simp only [Bool.and_eq_true] at hr
      have hlen : r.re.longest (w ++ s) = w.length := by
        have h1 := hb r List.mem_cons_self hr.1
        have h2 := longest_ge (r := r.re) (s := w ++ s) hpos (by simp) (by rw [htake]; exact accepts_iff.mp hr.2)
        omega
      refine ⟨fun q h => ?_, (fun h => by cases h)⟩
      cases h
      unfold pick
      split
      · rw [if_pos ⟨hr.1, by omega⟩, hlen]
      · next n q e =>
        have hle : n ≤ r.re.longest (w ++ s) := by
          rw [hlen]
          cases hf : rs.find? (fun r => r.active st && r.re.accepts w) with
          | none => exact Nat.le_of_lt (ih2 hf n q e)
          | some q' =>
            rw [ih1 q' hf] at e
            cases e
            exact Nat.le_refl _
        rw [if_pos ⟨hr.1, hle⟩, hlen]
    · rw [Bool.not_eq_true] at hr
      rw [hr]
      have hnl : r.active st = true → r.re.longest (w ++ s) < w.length := by
        intro ha
        have h1 := hb r List.mem_cons_self ha
        rcases Nat.lt_or_ge (r.re.longest (w ++ s)) w.length with h | h
        · exact h
        · exfalso
          have he : r.re.longest (w ++ s) = w.length := by omega
          have := ((longest_eq hpos).mp he).2.1
          rw [htake] at this
          rw [ha, accepts_iff.mpr this] at hr
          cases hr
      refine ⟨fun q h => ?_, fun h n q e => ?_⟩
      · unfold pick
        rw [ih1 q h]
        simp only
        rw [if_neg]
        rintro ⟨ha, hle⟩
        have := hnl ha
        omega
      · unfold pick at e
        split at e
        · split at e
          · next hc => cases e; exact hnl hc.1
          · cases e
        · next n' q' e' =>
          split at e
          · next hc => cases e; exact hnl hc.1
          · cases e
            exact ih2 h _ _ e'

/-! ## What bounds a word -/

/-- The pattern's strings have one `c`, at the end. -/
def Re.endsOnly (c : Char) : Re → Bool
  | .one k => k = ⟨false, [(c, c)]⟩
  | .seq a b => a.avoids c && b.endsOnly c
  | .alt a b => a.endsOnly c && b.endsOnly c
  | _ => false

theorem endsOnly_lang {c : Char} {r : Re} {w : List Char} (h : r.endsOnly c = true) (hl : r.Lang w) : ∃ v, w = v ++ [c] ∧ c ∉ v := by
  induction hl with
  | eps => cases h
  | @one k d hk =>
    simp only [Re.endsOnly, decide_eq_true_eq] at h
    subst h
    obtain ⟨r, hr, h1, h2⟩ := has_pos.mp hk
    simp only [List.mem_singleton] at hr
    subst hr
    have : d = c := Char.le_antisymm h2 h1
    rw [this]
    exact ⟨[], rfl, by simp⟩
  | seq ha _ _ ih2 =>
    simp only [Re.endsOnly, Bool.and_eq_true] at h
    obtain ⟨v, e, hv⟩ := ih2 h.2
    refine ⟨_ ++ v, by rw [e, List.append_assoc], fun hm => ?_⟩
    rcases List.mem_append.mp hm with hm | hm
    · exact avoids_lang h.1 ha hm
    · exact hv hm
  | altL _ ih =>
    simp only [Re.endsOnly, Bool.and_eq_true] at h
    exact ih h.1
  | altR _ ih =>
    simp only [Re.endsOnly, Bool.and_eq_true] at h
    exact ih h.2
  | starNil => cases h
  | starCons _ _ _ _ => cases h

/-- What is known of a word and of what follows: its first character, characters it does not begin with, its last character, the
character that follows. -/
structure Known where
  head : Option Char := none
  nohead : List Char := []
  last : Option Char := none
  next : Option Char := none

def isAnd (o : Option Char) (f : Char → Bool) : Bool :=
  match o with
  | none => false
  | some c => f c

/-- No rule reads more than the word. -/
def Known.bounds (k : Known) (st : LState) : Bool :=
  lexRules.all fun r => !r.active st || r.re.single || isAnd k.head r.re.avoids || k.nohead.any r.re.starts || isAnd k.last r.re.endsOnly || isAnd k.next r.re.avoids

/-- It is known of the word and what follows. -/
structure Known.Of (k : Known) (w s : List Char) : Prop where
  head : ∀ c, k.head = some c → w.head? = some c
  nohead : ∀ c ∈ k.nohead, w.head? ≠ some c
  last : ∀ c, k.last = some c → w.getLast? = some c
  next : ∀ c, k.next = some c → s = [] ∨ s.head? = some c

theorem isAnd_iff {o : Option Char} {f : Char → Bool} : isAnd o f = true ↔ ∃ c, o = some c ∧ f c = true := by
  cases o <;> simp [isAnd]

theorem bound {st : LState} {k : Known} {w s : List Char} (hw : w ≠ []) (hk : k.Of w s) (hb : k.bounds st = true) :
    ∀ r ∈ lexRules, r.active st = true → r.re.longest (w ++ s) ≤ w.length := by
  intro r hr ha
  refine longest_le fun m h1 h2 hl => ?_
  have hb := List.all_eq_true.mp hb r hr
  simp only [ha, Bool.not_true, Bool.false_or, Bool.or_eq_true] at hb
  have hlen : ((w ++ s).take m).length = m := by rw [List.length_take]; omega
  have hhead : ((w ++ s).take m).head? = w.head? := by
    obtain ⟨d, w', rfl⟩ := List.exists_cons_of_ne_nil hw
    obtain ⟨k, rfl⟩ : ∃ k, m = k + 1 := ⟨m - 1, by omega⟩
    rfl
  have hget : ∀ i, i < m → ((w ++ s).take m)[i]? = (w ++ s)[i]? := fun i hi => List.getElem?_take_of_lt hi
  rcases hb with (((hb | hb) | hb) | hb) | hb
  · have := single_lang hb hl
    have hpos := List.length_pos_iff.mpr hw
    omega
  · obtain ⟨c, e, hc⟩ := isAnd_iff.mp hb
    have := hk.head c e
    rw [← hhead] at this
    exact avoids_lang hc hl (List.mem_of_head? this)
  · obtain ⟨c, e, hc⟩ := List.any_eq_true.mp hb
    have := starts_lang hc hl
    rw [hhead] at this
    exact hk.nohead c e this
  · obtain ⟨c, e, hc⟩ := isAnd_iff.mp hb
    have h3 := hk.last c e
    obtain ⟨v, ev, hv⟩ := endsOnly_lang hc hl
    have hvl : v.length + 1 = m := by rw [ev] at hlen; simpa using hlen
    have hpos := List.length_pos_iff.mpr hw
    have h4 : v[w.length - 1]? = some c := by
      have : (v ++ [c])[w.length - 1]? = v[w.length - 1]? := List.getElem?_append_left (by omega)
      rw [← this, ← ev, hget _ (by omega), List.getElem?_append_left (by omega), ← h3, List.getLast?_eq_getElem?]
    exact hv (List.mem_of_getElem? h4)
  · obtain ⟨c, e, hc⟩ := isAnd_iff.mp hb
    rcases hk.next c e with h3 | h3
    · subst h3
      simp only [List.append_nil] at h2
      omega
    · have h4 : ((w ++ s).take m)[w.length]? = some c := by
        rw [hget _ (by omega), List.getElem?_append_right (Nat.le_refl _), Nat.sub_self, ← h3, List.head?_eq_getElem?]
      exact avoids_lang hc hl (List.mem_of_getElem? h4)

/-! ## One word -/

theorem lexGo_fuel {rs : List LRule} : ∀ (n m : Nat) (st : LState) (s : List Char), s.length ≤ n → s.length ≤ m → lexGo rs n st s = lexGo rs m st s
  | 0, m, st, s, h, _ => by
    have : s = [] := List.eq_nil_of_length_eq_zero (by omega)
    subst this
    rw [lexGo_nil, lexGo_nil]
  | n, 0, st, s, _, h => by
    have : s = [] := List.eq_nil_of_length_eq_zero (by omega)
    subst this
    rw [lexGo_nil, lexGo_nil]
  | n + 1, m + 1, st, s, h1, h2 => by
    unfold lexGo
    cases hp : pick st s rs with
    | none => rfl
    | some x =>
      obtain ⟨k, r⟩ := x
      obtain ⟨_, _, h3, h4⟩ := pick_some hp
      have h5 := ((longest_eq h3).mp h4).1
      simp only
      rw [lexGo_fuel n m (r.next.getD st) (s.drop k) (by rw [List.length_drop]; omega) (by rw [List.length_drop]; omega)]

/-- The tokens of a text read from a start condition. -/
def lexFrom (st : LState) (s : List Char) : List Tok := lexGo lexRules s.length st s

theorem lexFrom_pick {st : LState} {w s : List Char} {q : LRule} (hw : w ≠ []) (h : pick st (w ++ s) lexRules = some (w.length, q)) :
    lexFrom st (w ++ s) = match q.kind.tok w with
      | none => lexFrom (q.next.getD st) s
      | some t => if t.isEnd then [] else t :: lexFrom (q.next.getD st) s := by
  unfold lexFrom
  obtain ⟨n, hn⟩ : ∃ n, (w ++ s).length = n + 1 := ⟨(w ++ s).length - 1, by
    have := List.length_pos_iff.mpr hw
    simp only [List.length_append]
    omega⟩
  rw [hn]
  have hf := lexGo_fuel (rs := lexRules) n s.length (q.next.getD st) s (by
    have := List.length_pos_iff.mpr hw
    simp only [List.length_append] at hn
    omega) (Nat.le_refl _)
  generalize lexRules = rs at h hf ⊢
  rw [lexGo, h]
  simp only [List.take_left, List.drop_left, hf]
  cases q.kind.tok w <;> rfl

/-- A word that is read whole by rule `q`. -/
theorem lexFrom_word {st : LState} {k : Known} {w s : List Char} {q : LRule} (hw : w ≠ []) (hk : k.Of w s) (hb : k.bounds st = true)
    (hq : lexRules.find? (fun r => r.active st && r.re.accepts w) = some q) :
    lexFrom st (w ++ s) = match q.kind.tok w with
      | none => lexFrom (q.next.getD st) s
      | some t => if t.isEnd then [] else t :: lexFrom (q.next.getD st) s :=
  lexFrom_pick hw ((pick_word hw (bound hw hk hb)).1 q hq)

end Bf.Cli
