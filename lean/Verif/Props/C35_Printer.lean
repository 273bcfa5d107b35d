import Verif.User.Printer
/-!
# C35: printer messages
-/
namespace Bf

/-- The messages after adding these, in order. -/
def printerAdds (msgs : List PMsg) (ss : List String) : List PMsg := ss.foldl (fun ms s => (printerAdd ms s).1) msgs

/-- The bytes of a message: its characters, and a NUL. -/
def msgBytes (s : String) : List Byte := cstr s ++ [0]

/-- Messages follow each other, are terminated, and are distinct. -/
structure PrinterOk (msgs : List PMsg) : Prop where
  len : ∀ m ∈ msgs, m.len = (cstr m.str).length + 1
  offset : ∀ (i : Nat) (m : PMsg), msgs[i]? = some m → m.offset = (((msgs.take i).map fun m => msgBytes m.str).flatten).length
  nodup : (msgs.map (·.str)).Nodup

theorem printerSize_eq {msgs : List PMsg} (h : PrinterOk msgs) :
    printerSize msgs = ((msgs.map fun m => msgBytes m.str).flatten).length := by
  unfold printerSize
  cases hl : msgs.getLast? with
  | none =>
    rw [List.getLast?_eq_none_iff] at hl
    subst hl
    rfl
  | some m =>
    obtain ⟨l, rfl⟩ := List.getLast?_eq_some_iff.mp hl
    have h1 := h.offset l.length m (by simp)
    have h2 := h.len m (by simp)
    simp only [List.take_left, List.map_append, List.flatten_append, List.length_append, List.map_cons, List.map_nil,
      List.flatten_cons, List.flatten_nil, List.append_nil, msgBytes, List.length_singleton] at h1 ⊢
    rw [h1, h2]

theorem printerAdd_ok {msgs : List PMsg} {s : String} (h : PrinterOk msgs) : PrinterOk (printerAdd msgs s).1 := by
  unfold printerAdd
  cases hf : msgs.find? fun m => m.str = s with
  | some m => exact h
  | none =>
    rw [List.find?_eq_none] at hf
    refine ⟨?_, ?_, ?_⟩
    · intro m hm
      rcases List.mem_append.mp hm with hm | hm
      · exact h.len m hm
      · rw [List.mem_singleton.mp hm]
    · intro i m hi
      dsimp only at hi ⊢
      by_cases hlt : i < msgs.length
      · rw [List.getElem?_append_left hlt] at hi
        rw [List.take_append_of_le_length (by omega)]
        exact h.offset i m hi
      · have hi' := List.getElem?_append_right (l₁ := msgs) (l₂ := [(⟨printerSize msgs, (cstr s).length + 1, s⟩ : PMsg)]) (i := i) (by omega)
        rw [hi'] at hi
        have : i - msgs.length = 0 := by
          cases hk : i - msgs.length with
          | zero => rfl
          | succ k => rw [hk] at hi; simp at hi
        rw [this] at hi
        cases hi
        have : i = msgs.length := by omega
        subst this
        rw [List.take_left]
        exact printerSize_eq h
    · simp only [List.map_append, List.map_cons, List.map_nil]
      rw [List.nodup_append]
      refine ⟨h.nodup, by simp, ?_⟩
      intro a ha b hb
      rw [List.mem_singleton.mp hb]
      rintro rfl
      obtain ⟨m, hm, e⟩ := List.mem_map.mp ha
      exact hf m hm (by simpa using e)

theorem printerAdds_ok {msgs : List PMsg} {ss : List String} (h : PrinterOk msgs) : PrinterOk (printerAdds msgs ss) := by
  induction ss generalizing msgs with
  | nil => exact h
  | cons s ss ih => exact ih (printerAdd_ok h)

theorem printerAdd_keeps {msgs : List PMsg} {s : String} {m : PMsg} (h : m ∈ msgs) : m ∈ (printerAdd msgs s).1 := by
  unfold printerAdd
  split
  · exact h
  · exact List.mem_append_left _ h

theorem printerAdds_keeps {msgs : List PMsg} {ss : List String} {m : PMsg} (h : m ∈ msgs) : m ∈ printerAdds msgs ss := by
  induction ss generalizing msgs with
  | nil => exact h
  | cons s ss ih => exact ih (printerAdd_keeps h)

theorem printerAdd_gives {msgs : List PMsg} {s : String} : (printerAdd msgs s).2 ∈ (printerAdd msgs s).1 ∧ (printerAdd msgs s).2.str = s := by
  unfold printerAdd
  cases hf : msgs.find? fun m => m.str = s with
  | some m =>
    have := List.find?_some hf
    exact ⟨List.mem_of_find?_eq_some hf, by simpa using this⟩
  | none => exact ⟨by simp, rfl⟩

theorem printerAdd_strs {msgs : List PMsg} {s t : String} :
    t ∈ (printerAdd msgs s).1.map (·.str) ↔ t ∈ msgs.map (·.str) ∨ t = s := by
  unfold printerAdd
  cases hf : msgs.find? fun m => m.str = s with
  | some m =>
    have h1 := List.mem_of_find?_eq_some hf
    have h2 := List.find?_some hf
    constructor
    · exact fun h => .inl h
    · rintro (h | rfl)
      · exact h
      · exact List.mem_map.mpr ⟨m, h1, by simpa using h2⟩
  | none => simp

theorem printerAdds_strs {msgs : List PMsg} {ss : List String} {t : String} :
    t ∈ (printerAdds msgs ss).map (·.str) ↔ t ∈ msgs.map (·.str) ∨ t ∈ ss := by
  induction ss generalizing msgs with
  | nil => simp [printerAdds]
  | cons s ss ih =>
    have : printerAdds msgs (s :: ss) = printerAdds (printerAdd msgs s).1 ss := rfl
    rw [this, ih, printerAdd_strs, List.mem_cons, or_assoc]

theorem memcpy_fill {a : List (Option Byte)} {src : List Byte} {n : Nat} :
    memcpyAt (a ++ List.replicate (src.length + n) none) a.length src = a ++ src.map some ++ List.replicate n none := by
  unfold memcpyAt
  rw [List.take_left, List.drop_append, List.drop_of_length_le (by omega)]
  simp

theorem assemble_fold {done rest : List PMsg} (h : PrinterOk (done ++ rest)) :
    rest.foldl (fun b m => memcpyAt b m.offset ((cstr m.str ++ [0]).take m.len))
      (((done.map fun m => msgBytes m.str).flatten).map some ++
        List.replicate ((rest.map fun m => msgBytes m.str).flatten).length none) =
    (((done ++ rest).map fun m => msgBytes m.str).flatten).map some := by
  induction rest generalizing done with
  | nil => simp
  | cons m rest ih =>
    have h1 := h.offset done.length m (by simp)
    have h2 := h.len m (by simp)
    rw [List.take_left] at h1
    rw [List.foldl_cons]
    have h3 : (cstr m.str ++ [0]).take m.len = msgBytes m.str := by
      rw [h2, List.take_of_length_le (by simp)]
      rfl
    have hl : m.offset = (((done.map fun m => msgBytes m.str).flatten).map some).length := by rw [h1, List.length_map]
    rw [h3, hl]
    have e : ((m :: rest).map fun m => msgBytes m.str).flatten.length =
        (msgBytes m.str).length + ((rest.map fun m => msgBytes m.str).flatten).length := by simp
    rw [e, memcpy_fill]
    have := ih (done := done ++ [m]) (by simpa using h)
    simp only [List.map_append, List.map_cons, List.map_nil, List.flatten_append, List.flatten_cons, List.flatten_nil,
      List.append_nil, List.append_assoc, List.cons_append, List.nil_append] at this ⊢
    exact this

/-- The assembled string is the messages one after the other, each followed by a NUL. -/
theorem assemble_eq {msgs : List PMsg} (h : PrinterOk msgs) (hne : msgs ≠ []) :
    printerAssemble msgs = ((msgs.map fun m => msgBytes m.str).flatten).map some := by
  unfold printerAssemble
  rw [printerSize_eq h]
  have hz : ((msgs.map fun m => msgBytes m.str).flatten).length ≠ 0 := by
    cases msgs with
    | nil => exact absurd rfl hne
    | cons m l => simp [msgBytes]
  rw [if_neg hz]
  exact assemble_fold (done := []) (by simpa using h)

/-- **C35**: whatever messages are added, in whatever order: each distinct message is stored once, and every time a
message is added, the offset that is returned is where the finally assembled string contains this message, followed by NUL,
inside the length of the string.  All the bytes are initialised. -/
theorem C35_printer (ss : List String) :
    ((printerAdds [] ss).map (·.str)).Nodup ∧
    (∀ s, s ∈ (printerAdds [] ss).map (·.str) ↔ s ∈ ss) ∧
    (∀ b ∈ printerAssemble (printerAdds [] ss), b ≠ none) ∧
    ∀ (before after : List String) (s : String), ss = before ++ s :: after →
      ((printerAssemble (printerAdds [] ss)).drop (printerAdd (printerAdds [] before) s).2.offset).take
        ((cstr s).length + 1) = (cstr s ++ [0]).map some := by
  have h0 : PrinterOk [] := ⟨by simp, by simp, by simp⟩
  have hk := printerAdds_ok (ss := ss) h0
  refine ⟨hk.nodup, fun s => by rw [printerAdds_strs]; simp, ?_, ?_⟩
  · by_cases hne : printerAdds [] ss = []
    · rw [hne]
      intro b hb
      have : b = some 0 := by simpa [printerAssemble, printerSize] using hb
      simp [this]
    · rw [assemble_eq hk hne]
      intro b hb
      obtain ⟨x, _, rfl⟩ := List.mem_map.mp hb
      simp
  · rintro before after s rfl
    have hg := printerAdd_gives (msgs := printerAdds [] before) (s := s)
    have hm : (printerAdd (printerAdds [] before) s).2 ∈ printerAdds [] (before ++ s :: after) := by
      have : printerAdds [] (before ++ s :: after) = printerAdds (printerAdd (printerAdds [] before) s).1 after := by
        simp [printerAdds, List.foldl_append]
      rw [this]
      exact printerAdds_keeps hg.1
    have hne : printerAdds [] (before ++ s :: after) ≠ [] := List.ne_nil_of_mem hm
    rw [assemble_eq hk hne]
    obtain ⟨i, hi, he⟩ := List.getElem_of_mem hm
    have hi' : (printerAdds [] (before ++ s :: after))[i]? = some (printerAdd (printerAdds [] before) s).2 := by
      rw [List.getElem?_eq_getElem hi, he]
    rw [hk.offset i _ hi']
    generalize printerAdds [] (before ++ s :: after) = msgs at *
    generalize (printerAdd (printerAdds [] before) s).2 = m at *
    have hsplit : msgs = msgs.take i ++ m :: msgs.drop (i + 1) := by
      rw [← he]; simp
    have hb : (msgs.map fun m => msgBytes m.str).flatten =
        ((msgs.take i).map fun m => msgBytes m.str).flatten ++ (msgBytes s ++ ((msgs.drop (i + 1)).map fun m => msgBytes m.str).flatten) := by
      have := congrArg (fun l : List PMsg => (l.map fun m => msgBytes m.str).flatten) hsplit
      rw [List.map_append, List.flatten_append, List.map_cons, List.flatten_cons, hg.2] at this
      exact this
    rw [hb]
    generalize ((msgs.take i).map fun m => msgBytes m.str).flatten = x
    generalize ((msgs.drop (i + 1)).map fun m => msgBytes m.str).flatten = y
    rw [List.map_append, List.map_append, List.drop_left' (by simp), List.take_left' (by simp [msgBytes])]
    rfl

/-- For instance: three messages, two of which are the same. -/
example : (printerAdds [] ["ab", "c", "ab"]).map (·.offset) = [0, 3] ∧
    printerAssemble (printerAdds [] ["ab", "c", "ab"]) = [0x61, 0x62, 0, 0x63, 0].map some := by decide

theorem pmsg_round {m : PMsg} (h1 : m.offset ≤ 18446744073709551615) (h2 : m.len ≤ 18446744073709551615) (h3 : IsCStr m.str) :
    pmsgUnpack (pmsgNode m) = .ok m := by
  have e1 : kvNode (pmsgNode m) "offset" = .ok (.uint m.offset) := rfl
  have e2 : kvNode (pmsgNode m) "len" = .ok (.uint m.len) := rfl
  have e3 : kvNode (pmsgNode m) "str" = .ok (.str (cstr m.str)) := rfl
  simp only [pmsgUnpack, e1, e2, e3, Res.bind, readUint, h1, h2, if_true, readStr_cstr h3]

/-- **C28**: messages are read back from their serialized form. -/
theorem C28_printer {msgs : List PMsg} (h : ∀ m ∈ msgs, m.offset ≤ 18446744073709551615 ∧ m.len ≤ 18446744073709551615 ∧ IsCStr m.str) :
    printerUnpack (printerNode msgs) = .ok msgs := by
  have e1 : kvNode (printerNode msgs) "msgs" = .ok (.arr (msgs.map pmsgNode)) := rfl
  simp only [printerUnpack, e1, Res.bind, readArr]
  rw [readAll_map (g := pmsgNode) (h := id) fun m hm => pmsg_round (h m hm).1 (h m hm).2.1 (h m hm).2.2, List.map_id]

end Bf
