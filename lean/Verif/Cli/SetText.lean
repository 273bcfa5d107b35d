import Verif.Spec.Ruleset
import Verif.Cli.Action
/-!
# Sets from text, whatever the number of iterations allowed
-/
namespace Bf

theorem addElemGo_mono (env : TextEnv) : ∀ (fuel : Nat) (s : List Char) (key : List MType) (built mem : List Byte) (r : Res (List Byte)),
    addElemGo env fuel s key built mem = some r → ∀ fuel', fuel ≤ fuel' → addElemGo env fuel' s key built mem = some r
  | 0, _, _, _, _, _, h, _, _ => by cases h
  | fuel + 1, s, key, built, mem, r, h, 0, hle => by omega
  | fuel + 1, s, key, built, mem, r, h, fuel' + 1, hle => by
    unfold addElemGo at h ⊢
    cases ht : strtok (· = ',') s with
    | none => rw [ht] at h; exact h
    | some q =>
      obtain ⟨tok, rest⟩ := q
      rw [ht] at h
      simp only at h ⊢
      cases key with
      | nil => exact h
      | cons t ks =>
        simp only at h ⊢
        cases hf : parsePayload env t .in_ mem (trim tok) with
        | ok m =>
          rw [hf] at h
          exact addElemGo_mono env fuel rest _ _ _ r h fuel' (by omega)
        | err e => rw [hf] at h; exact h
        | ub => rw [hf] at h; exact h

theorem addElemRaw_mono {env : TextEnv} {mem : Nat → Byte} {fuel : Nat} {set : BSet} {s : List Char} {r : Res BSet} (h : addElemRaw env mem fuel set s = some r)
    {fuel' : Nat} (hle : fuel ≤ fuel') : addElemRaw env mem fuel' set s = some r := by
  unfold addElemRaw at h ⊢
  cases ha : addElemGo env fuel s set.key [] (block mem set.elemSize) with
  | none => rw [ha] at h; cases h
  | some q =>
    rw [ha] at h
    rw [addElemGo_mono env _ _ _ _ _ _ ha fuel' hle]
    exact h

theorem newFromRawGo_mono (env : TextEnv) (mem : Nat → Nat → Byte) : ∀ (fuel : Nat) (tmp : Option (List Char)) (save : List Char) (i : Nat) (set : BSet) (r : Res BSet),
    newFromRawGo env mem fuel tmp save i set = some r → ∀ fuel', fuel ≤ fuel' → newFromRawGo env mem fuel' tmp save i set = some r
  | 0, _, _, _, _, _, h, _, _ => by cases h
  | fuel + 1, _, _, _, _, _, h, 0, hle => by omega
  | fuel + 1, tmp, save, i, set, r, h, fuel' + 1, hle => by
    unfold newFromRawGo at h ⊢
    cases ht : strtok isElemSep (tmp.getD save) with
    | none => rw [ht] at h; exact h
    | some q =>
      obtain ⟨tok, rest⟩ := q
      rw [ht] at h
      simp only at h ⊢
      split
      · next hb =>
        rw [if_pos hb] at h
        exact newFromRawGo_mono env mem fuel _ _ _ _ r h fuel' (by omega)
      · next hb =>
        rw [if_neg hb] at h
        cases ha : addElemRaw env (mem i) fuel set (trim tok) with
        | none => rw [ha] at h; cases h
        | some x =>
          rw [ha] at h
          rw [addElemRaw_mono ha (by omega)]
          cases x with
          | ok s' => exact newFromRawGo_mono env mem fuel _ _ _ _ r h fuel' (by omega)
          | err e => exact h
          | ub => exact h

theorem setNewFromRaw_mono {env : TextEnv} {mem : Nat → Nat → Byte} {fuel : Nat} {name : Option String} {k p : List Char} {r : Res BSet}
    (h : setNewFromRaw env mem fuel name k p = some r) {fuel' : Nat} (hle : fuel ≤ fuel') : setNewFromRaw env mem fuel' name k p = some r := by
  unfold setNewFromRaw at h ⊢
  cases hk : parseKeyGo fuel k [] with
  | none => rw [hk] at h; cases h
  | some x =>
    rw [hk] at h
    rw [parseKeyGo_mono _ _ _ _ hk fuel' hle]
    cases x with
    | err e => exact h
    | ub => exact h
    | ok key =>
      simp only at h ⊢
      cases hs : setNew name key with
      | err e => rw [hs] at h; exact h
      | ub => rw [hs] at h; exact h
      | ok set =>
        rw [hs] at h
        exact newFromRawGo_mono env mem _ _ _ _ _ _ h fuel' hle

/-- A set that is made is the set of the text. -/
theorem setNewFromRaw_says {env : TextEnv} {mem : Nat → Nat → Byte} {fuel : Nat} {name : Option String} {k p : List Char} {s : BSet}
    (h : setNewFromRaw env mem fuel name k p = some (.ok s)) : Spec.SetSays env name k p s := by
  have h' := setNewFromRaw_mono h (fuel' := fuel + k.length + p.length + 2) (by omega)
  have hb : ¬ blankFirst p := by
    intro hb
    obtain ⟨rk, hk1, hk2, hk3⟩ := C37_key k (fuel := fuel + k.length + p.length + 2) (by omega)
    have h'' := h'
    unfold setNewFromRaw at h''
    rw [hk1] at h''
    cases rk with
    | err e => cases h''
    | ub => cases h''
    | ok key =>
      have hko := (hk3 key).mp rfl
      simp only at h''
      by_cases hs : SetKey key
      · rw [C37_diverges env mem name hko hs hb] at h
        cases h
      · obtain ⟨e, he⟩ := (setNew_iff (name := name) hko.1 hko.2.1).2 hs
        rw [he] at h''
        cases h''
  obtain ⟨r, h1, _, h3, _⟩ := C37_set_partial env mem name k p hb (fuel := fuel + k.length + p.length + 2) (by omega) (by omega)
  rw [h1] at h'
  obtain ⟨a, b, c, _, d⟩ := h3 s (Option.some.inj h')
  exact ⟨c, a, b, d⟩

end Bf
