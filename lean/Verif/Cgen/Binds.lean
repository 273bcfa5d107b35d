import Verif.Cgen.Calls
/-!
# What a program knows of the maps it makes

A process knows which maps it has made, as what, and what it has put in them; no other process can name these maps yet.  A program is bound if, each
time it loads a BPF program, it knows the maps of that program.
-/
namespace Bf.Pin

variable {α β : Type} {dir : String} {T : Target}

/-- What is known of a map: what it was made as, and that nothing, or all of `l`, was put in it. -/
inductive Kn
  | raw (d : MapD)
  | full (d : MapD) (l : List (List Byte × List Byte))

def Kn.d : Kn → MapD
  | .raw d => d
  | .full d _ => d

abbrev Know := Nat → Option Kn

/-- The map was made as `d`. -/
def Know.kind (s : Know) (o : Nat) (d : MapD) : Prop := ∃ k, s o = some k ∧ k.d = d

/-- The map of a group of sets, with the elements of the sets. -/
def Know.group (s : Know) (c : Chain) (grp : List Nat) (o : Nat) : Prop :=
  ∃ d h, s o = some (.full d (groupEntries c.sets grp)) ∧ groupHead c.sets grp = some h ∧ d.type = .set ∧ d.bpfType = (if h.useTrie then 11 else 1) ∧ d.keySize = h.elemSize ∧
    d.valueSize = (grp.length + 7) / 8 ∧ d.nElems = (groupEntries c.sets grp).length

/-- The maps of a program are known. -/
structure Bound (Ts : Target → Prop) (s : Know) (c : Chain) (img : List Insn) (m : Nat) where
  prop : ∃ (T : Target) (M : MapFds), Ts T ∧ compile c T.thr T.slen M = .ok img ∧ M.counters = BitVec.ofNat 32 m ∧
    (∃ d, s.kind m d ∧ d.type = .counters ∧ d.nElems = c.rules.length + 2 ∧ d.bpfType = 6 ∧ d.keySize = 4 ∧ d.valueSize = 16) ∧
    (c.flagLog = true → ∃ o d, M.log = BitVec.ofNat 32 o ∧ s.kind o d ∧ d.type = .log ∧ d.bpfType = 27) ∧
    (c.flagRate = true ∧ c.rules ≠ [] → ∃ o d, M.state = BitVec.ofNat 32 o ∧ s.kind o d ∧ d.type = .state ∧ d.valueSize = c.rules.length * 8 ∧ d.bpfType = 2 ∧ d.keySize = 4 ∧ d.nElems = 1) ∧
    ∃ ids : List Nat, ids.Nodup ∧ ids.length = (buildGroups c.sets).length ∧
      ∀ g o, ids[g]? = some o → M.set g = BitVec.ofNat 32 o ∧ ∃ grp, (buildGroups c.sets)[g]? = some grp ∧ s.group c grp o

/-- What is known after a call. -/
def Know.after (s : Know) (c : Call) (a : Ans) : Know :=
  match c, a with
  | .mapCreate d, .id o => fun x => if x = o then some (.raw d) else s x
  | .mapFill _ _, .fail _ => s
  | .mapFill m l, _ => fun x => if x = m then (s m).map fun k => .full k.d l else s x
  | _, _ => s

/-- A program is loaded, or a map filled, only if what has to be known is. -/
def Call.Allowed (Ts : Target → Prop) (s : Know) : Call → Prop
  | .mapFill m _ => ∃ d, s m = some (.raw d) ∧ d.type = .set
  | .progLoad c img m => Bound Ts s c img m
  | _ => True

/-- The answer makes no map that is known already. -/
def Fresh (s : Know) (c : Call) (a : Ans) : Prop := ∀ d o, c = .mapCreate d → a = .id o → s o = none

def P.Binds (Ts : Target → Prop) (ok : Know → α → Prop) : P α → Know → Prop
  | .ret a, s => ok s a
  | .call c k, s => c.Allowed Ts s ∧ ∀ a, Fresh s c a → (k a).Binds Ts ok (s.after c a)

variable {Ts : Target → Prop} {s s' : Know}

theorem Binds.bind {p : P α} {f : α → P β} {ok : Know → α → Prop} {ok' : Know → β → Prop} {s : Know} (h : p.Binds Ts ok s) (hf : ∀ s' a, ok s' a → (f a).Binds Ts ok' s') :
    (p >>= f).Binds Ts ok' s := by
  induction p generalizing s with
  | ret a => exact hf s a h
  | call c k ih => exact ⟨h.1, fun a ha => ih a (h.2 a ha)⟩

theorem Binds.mono {p : P α} {ok ok' : Know → α → Prop} {s : Know} (h : p.Binds Ts ok s) (hf : ∀ s' a, ok s' a → ok' s' a) : p.Binds Ts ok' s := by
  induction p generalizing s with
  | ret a => exact hf s a h
  | call c k ih => exact ⟨h.1, fun a ha => ih a (h.2 a ha)⟩

theorem Binds.pure {a : α} {ok : Know → α → Prop} (h : ok s a) : (pure a : P α).Binds Ts ok s := h

/-- A call that neither fills a map nor loads a program. -/
def Call.usual : Call → Bool
  | .mapFill .. | .progLoad .. => false
  | _ => true

theorem Call.Allowed.usual {c : Call} (h : c.usual = true) : c.Allowed Ts s := by
  cases c <;> first | trivial | cases h

theorem Binds.of_usual {p : P α} (h : p.Calls Call.usual) : ∀ {s : Know}, p.Binds Ts (fun _ _ => True) s := by
  induction p with
  | ret a => exact trivial
  | call c k ih => exact ⟨.usual h.1, fun a _ => ih a (h.2 a)⟩

theorem Call.tame_usual (c : Call) (h : c.tame = true) : c.usual = true := by cases c <;> simp_all [Call.usual, Call.tame]

theorem Calls.usual {p : P α} (h : p.Calls Call.tame) : p.Calls Call.usual := Calls.mono h Call.tame_usual

/-! What is known stays. -/

structure Know.Le (s s' : Know) : Prop where
  full : ∀ o d l, s o = some (.full d l) → s' o = some (.full d l)
  kind : ∀ o d, s.kind o d → s'.kind o d

theorem Know.Le.refl (s : Know) : s.Le s := ⟨fun _ _ _ h => h, fun _ _ h => h⟩

theorem Know.Le.trans {a b c : Know} (h : a.Le b) (h' : b.Le c) : a.Le c :=
  ⟨fun o d l e => h'.full o d l (h.full o d l e), fun o d e => h'.kind o d (h.kind o d e)⟩

theorem Know.after_le {c : Call} {a : Ans} (hA : c.Allowed Ts s) (hF : Fresh s c a) : s.Le (s.after c a) := by
  unfold Know.after
  split
  · next d o =>
    have hn := hF d o rfl rfl
    refine ⟨fun x d' l e => ?_, fun x d' ⟨k, e, hk⟩ => ⟨k, ?_, hk⟩⟩ <;>
    · have : x ≠ o := by rintro rfl; rw [hn] at e; cases e
      simp only [if_neg this]
      exact e
  · exact .refl _
  · next _ m l _ =>
    obtain ⟨d, hm, _⟩ := hA
    refine ⟨fun x d' l' e => ?_, fun x d' ⟨k, e, hk⟩ => ?_⟩
    · have : x ≠ m := by rintro rfl; rw [hm] at e; cases e
      simp only [if_neg this]
      exact e
    · by_cases h : x = m
      · subst h
        exact ⟨.full k.d l, by simp [e], hk⟩
      · exact ⟨k, by simp only [if_neg h]; exact e, hk⟩
  · exact .refl _

/-- What a program knows at the end, it knows besides what it knew. -/
theorem Binds.le {p : P α} {ok : Know → α → Prop} {s : Know} (h : p.Binds Ts ok s) : p.Binds Ts (fun s' a => ok s' a ∧ s.Le s') s := by
  induction p generalizing s with
  | ret a => exact ⟨h, .refl _⟩
  | call c k ih =>
    refine ⟨h.1, fun a ha => Binds.mono (ih a (h.2 a ha)) fun s' b hb => ⟨hb.1, (Know.after_le h.1 ha).trans hb.2⟩⟩

theorem Know.Le.group {c : Chain} {grp : List Nat} {o : Nat} (h : s.Le s') (hg : s.group c grp o) : s'.group c grp o := by
  obtain ⟨d, x, h1, h2⟩ := hg
  exact ⟨d, x, h.full _ _ _ h1, h2⟩

theorem Bound.le {c : Chain} {img : List Insn} {m : Nat} (hb : Bound Ts s c img m) (h : s.Le s') : Bound Ts s' c img m := by
  obtain ⟨T, M, h1, h2, h3, ⟨d, h4, h5⟩, h6, h7, ids, h8, h9, h10⟩ := hb.prop
  refine ⟨T, M, h1, h2, h3, ⟨d, h.kind _ _ h4, h5⟩, fun e => ?_, fun e => ?_, ids, h8, h9, fun g o e => ?_⟩
  · obtain ⟨o, d, g1, g2, g3⟩ := h6 e
    exact ⟨o, d, g1, h.kind _ _ g2, g3⟩
  · obtain ⟨o, d, g1, g2, g3⟩ := h7 e
    exact ⟨o, d, g1, h.kind _ _ g2, g3⟩
  · obtain ⟨g1, grp, g2, g3⟩ := h10 g o e
    exact ⟨g1, grp, g2, h.group g3⟩

/-! The loaders. -/

theorem binds_alloc {ok : Know → Res Unit → Prop} (h : ∀ r, ok s r) : (try_ .alloc).Binds Ts ok s := ⟨trivial, fun a _ => h _⟩

/-- The map is made, and is not one that was known. -/
def NewKn (s0 : Know) (s : Know) (type : MapType) (b k v n : Nat) (r : Res BMap) : Prop :=
  s0.Le s ∧ ∀ m, r = .ok m → s0 m.id = none ∧ s m.id = some (.raw m.d) ∧ m.d.type = type ∧ m.d.bpfType = b ∧ m.d.keySize = k ∧ m.d.valueSize = v ∧ m.d.nElems = n

theorem binds_mapNew {name : String} {type : MapType} {b k v n : Nat} : (mapNew name type b k v n).Binds Ts (fun s' r => NewKn s s' type b k v n r) s := by
  have no : ∀ e, NewKn s s type b k v n (.err e) := fun e => ⟨.refl _, by simp⟩
  unfold mapNew
  repeat (first | (split; · exact Binds.pure (no _)))
  refine Binds.bind (ok := fun s' _ => s' = s) (binds_alloc fun _ => rfl) fun s1 r e => ?_
  subst e
  split
  · refine ⟨trivial, fun a ha => ?_⟩
    dsimp only
    cases a with
    | id o =>
      have hn := ha _ o rfl rfl
      refine Binds.pure ⟨Know.after_le (Ts := Ts) (c := .mapCreate _) trivial ha, fun m e => ?_⟩
      cases e
      exact ⟨hn, by simp [Know.after], rfl, rfl, rfl, rfl, rfl⟩
    | fail e => exact Binds.pure (no e)
    | _ => exact Binds.pure ⟨.refl _, by simp⟩
  · exact Binds.pure (no _)
  · exact Binds.pure ⟨.refl _, by simp⟩

theorem binds_fill {m : Nat} {d : MapD} {l : List (List Byte × List Byte)} (h : s m = some (.raw d)) (hd : d.type = .set) :
    (try_ (.mapFill m l)).Binds Ts (fun s' r => s.Le s' ∧ (r = .ok () → s' m = some (.full d l))) s := by
  refine ⟨⟨d, h, hd⟩, fun a ha => ⟨Know.after_le (Ts := Ts) (c := .mapFill m l) ⟨d, h, hd⟩ ha, fun e => ?_⟩⟩
  cases a <;> simp [Ans.toRes] at e <;> simp [Know.after, h, Kn.d]

/-- The maps of the groups `gs` are those of `h`. -/
structure SetsKn (s : Know) (c : Chain) (gs : Groups) (ms : List (Option BMap)) : Prop where
  ids : ∃ ids : List Nat, ids.Nodup ∧ ids.length = gs.length ∧ ms.length = gs.length ∧
      ∀ (g o : Nat), ids[g]? = some o → (∃ m : BMap, ms[g]? = some (some m) ∧ m.id = o) ∧ ∃ grp, gs[g]? = some grp ∧ s.group c grp o

theorem SetsKn.le {c : Chain} {gs : Groups} {ms : List (Option BMap)} (h : SetsKn s c gs ms) (hl : s.Le s') : SetsKn s' c gs ms := by
  obtain ⟨ids, h1, h2, h3, h4⟩ := h.ids
  refine ⟨ids, h1, h2, h3, fun g o e => ?_⟩
  obtain ⟨g1, grp, g2, g3⟩ := h4 g o e
  exact ⟨g1, grp, g2, hl.group g3⟩

theorem SetsKn.snoc {c : Chain} {gs : Groups} {ms : List (Option BMap)} {grp : List Nat} {m : BMap} (h : SetsKn s c gs ms)
    (hn : s m.id = none) (hl : s.Le s') (hg : s'.group c grp m.id) : SetsKn s' c (gs ++ [grp]) (ms ++ [some m]) := by
  obtain ⟨ids, h1, h2, h3, h4⟩ := h.ids
  refine ⟨ids ++ [m.id], ?_, by simp [h2], by simp [h3], fun g o e => ?_⟩
  · refine List.nodup_append.mpr ⟨h1, by simp, fun a ha b hb e => ?_⟩
    rw [List.mem_singleton.mp hb] at e
    subst e
    obtain ⟨g, hg'⟩ := List.getElem?_of_mem ha
    obtain ⟨_, _, _, d, _, e', _⟩ := h4 g _ hg'
    rw [hn] at e'
    cases e'
  · by_cases hlt : g < ids.length
    · rw [List.getElem?_append_left hlt] at e
      obtain ⟨⟨m', g1, g1'⟩, grp', g2, g3⟩ := h4 g o e
      refine ⟨⟨m', ?_, g1'⟩, grp', ?_, hl.group g3⟩
      · rw [List.getElem?_append_left (by omega)]; exact g1
      · rw [List.getElem?_append_left (by omega)]; exact g2
    · rw [List.getElem?_append_right (by omega)] at e
      have hz : g - ids.length = 0 := by
        cases hz : g - ids.length with
        | zero => rfl
        | succ n => rw [hz] at e; simp at e
      rw [hz] at e
      simp only [List.getElem?_cons_zero, Option.some.injEq] at e
      subst e
      have : g = ids.length := by omega
      refine ⟨⟨m, ?_, rfl⟩, grp, ?_, hg⟩
      · rw [this, h2, ← h3]; simp
      · rw [this, h2]; simp

/-- The handle is `h` but for its maps. -/
theorem binds_loadSets {c : Chain} : ∀ {gs pre : Groups} {i : Nat} {h : Handle} {s : Know}, SetsKn s c pre h.sets →
    (loadSets c gs i h).Binds Ts (fun s' x => s.Le s' ∧ (x.2 = .ok () → SetsKn s' c (pre ++ gs) x.1.sets)) s
  | [], pre, _, h, s, hh => ⟨.refl _, fun _ => by simpa using hh⟩
  | g :: gs, pre, i, h, s, hh => by
    unfold loadSets
    split
    · exact Binds.pure ⟨.refl _, by simp⟩
    · next hd hhd =>
      refine Binds.bind (ok := fun s' _ => s' = s) (binds_alloc fun _ => rfl) fun s1 r e => ?_
      subst e
      split
      · refine Binds.bind binds_mapNew fun s2 r hr => ?_
        split
        · next m =>
          obtain ⟨hle, hr⟩ := hr
          obtain ⟨r1, r2, r3, r4, r5, r6, r7⟩ := hr m rfl
          refine Binds.bind (binds_fill r2 r3) fun s3 r hf => ?_
          split
          · refine Binds.mono (binds_loadSets (h := { h with sets := h.sets ++ [some m] })
              (hh.snoc r1 (hle.trans hf.1) ⟨m.d, hd, hf.2 rfl, hhd, r3, r4, r5, r6, r7⟩)) fun s' x hx => ?_
            refine ⟨(hle.trans hf.1).trans hx.1, fun e => ?_⟩
            have := hx.2 e
            rw [List.append_assoc] at this
            exact this
          · next hne => exact ⟨trivial, fun b _ => ⟨hle.trans hf.1, fun e => absurd e (hne ())⟩⟩
        · exact Binds.pure ⟨hr.1, by simp⟩
        · exact Binds.pure ⟨hr.1, by simp⟩
      · exact Binds.pure ⟨.refl _, by simp_all⟩

end Bf.Pin
