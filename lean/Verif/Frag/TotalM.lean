import Verif.Frag.Total
import Verif.Exec.Match
import Verif.Exec.Pro4
import Verif.Gen.Sets
/-!
# The code of a matcher can always be generated

For well-formed matchers, on the hooks that accept them.  Nothing here models code of the repository.
-/
namespace Bf

variable {gs : Groups} {C : Cfg} {m : Matcher}

theorem rd_get {p : List Byte} {o n : Nat} (h : o + n ≤ p.length) : rd p o n = .ok (leNat ((p.drop o).take n)) := by
  simp [rd, h]

theorem rd64_ok {p : List Byte} {o : Nat} (h : o + 8 ≤ p.length) :
    rd64 p o = .ok (BitVec.ofNat 64 (leNat ((p.drop o).take 8))) := by
  simp [rd64, rd_get h]

theorem Tot.jmpIns (h : m.op ≠ .range) : Tot gs 0 (jmpIns m) := by
  unfold Bf.jmpIns
  cases ho : m.op with
  | range => exact absurd ho h
  | _ => exact .pure _

theorem Tot.cmp128 (j : Cond) (r : Reg) (lo hi : BitVec 64) : Tot gs 11 (cmp128 j r lo hi) := by
  unfold Bf.cmp128
  refine .bind (n := 4) (m := 7) (.emits _) fun _ => ?_
  refine .ite (fun _ => ?_) fun _ => ?_
  · exact .mono (.bind (n := 1) (m := 5) (.next rfl) fun _ => .bind (n := 4) (m := 1) (.emits _) fun _ => .next rfl) (by omega)
  · exact .withJmp (.bind (n := 4) (m := 2) (.emits _) fun _ => .withJmp (.next rfl))

theorem Tot.cmpValue {ref : List Byte} {size : Nat} (reg : Reg) (ho : m.op = .eq)
    (hs : size = 1 ∨ size = 2 ∨ size = 4 ∨ size = 8 ∨ size = 16) (hl : size ≤ ref.length) :
    Tot gs 11 (cmpValue m ref size reg) := by
  unfold Bf.cmpValue
  rw [if_neg (by simp [ho])]
  refine .mono (.bind (n := 0) (m := 11) (.jmpIns (by simp [ho])) fun j => ?_) (by omega)
  rcases hs with rfl | rfl | rfl | rfl | rfl
  · exact .lift (rd_get (by omega)) (.mono (.next rfl) (by omega))
  · exact .lift (rd_get (by omega)) (.mono (.next rfl) (by omega))
  · exact .lift (rd_get (by omega)) (.mono (.bind (n := 1) (m := 1) (.emit _) fun _ => .next rfl) (by omega))
  · exact .lift (rd64_ok (by omega)) (.mono (.bind (n := 4) (m := 1) (.emits _) fun _ => .next rfl) (by omega))
  · exact .lift (rd64_ok (by omega)) (.lift (rd64_ok (by omega)) (.cmp128 _ _ _ _))

theorem prefixToMask_ok {n len : Nat} (h : n ≤ 8 * len) : ∃ l, prefixToMask n len = .ok l := by
  unfold prefixToMask
  rw [if_pos h]
  exact ⟨_, rfl⟩

theorem Tot.cmpMasked {ref : List Byte} {plen size : Nat} (reg : Reg) (ho : m.op = .eq)
    (hs : size = 4 ∨ size = 16) (hl : size ≤ ref.length) (hp : plen ≤ 8 * size) :
    Tot gs 21 (cmpMasked m ref plen size reg) := by
  unfold Bf.cmpMasked
  rw [if_neg (by simp [ho])]
  refine .mono (.bind (n := 0) (m := 21) (.jmpIns (by simp [ho])) fun j => ?_) (by omega)
  obtain ⟨mask, hm⟩ := prefixToMask_ok hp
  rcases hs with rfl | rfl
  · refine .lift hm (.lift (rd_get (by omega)) ?_)
    refine .mono (.bind (n := 1) (m := 4) (.emit _) fun _ => ?_) (by omega)
    refine .ite (fun _ => ?_) fun _ => ?_
    · exact .bind (n := 1) (m := 3) (.emit _) fun _ => .bind (n := 1) (m := 2) (.emit _) fun _ =>
        .bind (n := 1) (m := 1) (.emit _) fun _ => .next rfl
    · exact .mono (.next rfl) (by omega)
  · refine .lift hm ?_
    have h0 : ¬ref.length < 16 := by omega
    simp only [h0, if_false]
    refine .ite (fun _ => ?_) fun _ => ?_
    · exact .bind (n := 4) (m := 17) (.emits _) fun _ => .bind (n := 1) (m := 16) (.emit _) fun _ =>
        .bind (n := 4) (m := 12) (.emits _) fun _ => .bind (n := 1) (m := 11) (.emit _) fun _ => .cmp128 _ _ _ _
    · exact .mono (.cmp128 _ _ _ _) (by omega)

theorem Tot.cmpRange (lo hi : Nat) (reg : Reg) : Tot gs 3 (cmpRange m lo hi reg) := by
  unfold Bf.cmpRange
  refine .ite (fun _ => ?_) fun _ => ?_
  · exact .withJmp (.withJmp (.next rfl))
  · exact .mono (.bind (n := 1) (m := 1) (.next rfl) fun _ => .next rfl) (by omega)

theorem Tot.cmpBitfield (fl : Nat) (reg : Reg) (ho : m.op = .any ∨ m.op = .all) :
    Tot gs 2 (cmpBitfield m fl reg) := by
  unfold Bf.cmpBitfield
  rw [if_neg (by rcases ho with h | h <;> simp [h])]
  exact .mono (.bind (n := 0) (m := 2) (.jmpIns (by rcases ho with h | h <;> simp [h])) fun _ =>
    .bind (n := 1) (m := 1) (.emit _) fun _ => .next rfl) (by omega)

/-! ### Packet matchers -/

/-- Types whose field is in a packet header. -/
def MType.hdr (t : MType) : Prop := t.meta_.layer = .l3 ∨ t.meta_.layer = .l4

theorem Tot.loadHeader {t : MType} (r : Reg) (h : t.hdr) : Tot gs 1 (loadHeader t.meta_ r) := by
  unfold Bf.loadHeader
  rcases h with h | h <;> rw [h] <;> exact .emit _

theorem hdr_size {t : MType} (h : t.hdr) :
    t.meta_.size = 1 ∨ t.meta_.size = 2 ∨ t.meta_.size = 4 ∨ t.meta_.size = 16 := by
  cases t <;> simp [MType.hdr, MType.meta_] at h ⊢

theorem Tot.loadField {t : MType} (r : Reg) (h : t.hdr) : Tot gs 2 (loadField t.meta_ r) := by
  unfold Bf.loadField
  rcases hdr_size h with h | h | h | h <;> rw [h] <;> simp only
  · exact .mono (.emit _) (by omega)
  · exact .mono (.emit _) (by omega)
  · exact .mono (.emit _) (by omega)
  · exact .bind (n := 1) (m := 1) (.emit _) fun _ => .emit _

theorem Tot.pktLoad {t : MType} (r : Reg) (h : t.hdr) : Tot gs 3 (pktLoad t.meta_ r) :=
  .bind (n := 1) (m := 2) (.loadHeader _ h) fun _ => .loadField _ h

theorem Tot.stubLoad (fuel : Nat) : ∀ (src rem : Nat) (dst : Int), rem ≤ fuel → Tot gs (2 * rem) (stubLoad fuel src rem dst) := by
  induction fuel with
  | zero => intro src rem dst _; exact .mono (.pure _) (by omega)
  | succ k ih =>
    intro src rem dst hr
    unfold Bf.stubLoad
    by_cases h0 : rem = 0
    · rw [if_pos h0]; exact .mono (.pure _) (by omega)
    · rw [if_neg h0]
      have hb : 1 ≤ (copySize src dst rem).bytes := by cases copySize src dst rem <;> simp [Size.bytes]
      have := ih (src + (copySize src dst rem).bytes) (rem - (copySize src dst rem).bytes)
        (dst + (copySize src dst rem).bytes) (by omega)
      exact .mono (.bind (n := 1) (.emit _) fun _ => .bind (n := 1) (.emit _) fun _ => this) (by omega)

/-- The sets of a chain, as far as generation is concerned. -/
structure SetUse (C : Cfg) (m : Matcher) (i : Nat) (s : BSet) : Prop where
  set : C.chain.sets[i]? = some s
  idx : C.chain.setFor m = .ok (some (i, s))
  group : ∃ g, findGroup C.groups i = some g

theorem findGroup_find {gs : Groups} {i g : Nat} (h : findGroup gs i = some g) :
    ∃ l, gs.find? (·.contains i) = some l := by
  unfold findGroup at h
  cases hf : gs.find? (·.contains i) with
  | some l => exact ⟨l, rfl⟩
  | none =>
    rw [List.find?_eq_none] at hf
    rw [List.findIdx?_eq_some_iff_getElem] at h
    obtain ⟨hg, h1, _⟩ := h
    exact absurd h1 (hf _ (List.getElem_mem hg))

theorem Tot.mapLookup {i : Nat} {s : BSet} (hu : SetUse C m i s) (ho : m.op ≠ .range) (k : Int) :
    Tot C.groups 9 (mapLookup C m k) := by
  unfold Bf.mapLookup
  refine .lift hu.idx ?_
  obtain ⟨g, hg⟩ := hu.group
  obtain ⟨l, hl⟩ := findGroup_find hg
  have hb : bitIndex C.groups i = .ok (l.idxOf i) := by unfold bitIndex; rw [hl]
  refine .lift hb ?_
  refine .bind (n := 2) (m := 7) (.map _ ⟨⟨_, rfl⟩, g, hg⟩) fun _ => ?_
  refine .bind (n := 6) (m := 1) (.emits _) fun _ => ?_
  exact .mono (.bind (n := 0) (m := 1) (.jmpIns ho) fun _ => .next rfl) (by omega)

theorem Tot.trieLookup {i : Nat} {s : BSet} (hu : SetUse C m i s) (ho : m.op ≠ .range) (src size : Nat)
    (hs : size ≤ 16) : Tot C.groups 43 (trieLookup C m src size) := by
  unfold Bf.trieLookup
  refine .mono (.bind (n := 1) (m := 42) (.emit _) fun _ => .bind (n := 1) (m := 41) (.emit _) fun _ =>
    .bind (n := 32) (m := 9) (.mono (.stubLoad _ _ _ _ (Nat.le_refl _)) (by omega)) fun _ => .mapLookup hu ho _) (by omega)

theorem Tot.setKey {gs : Groups} : ∀ (ts : List MType) (off : Nat), (∀ t ∈ ts, t.hdr) →
    Tot gs (ts.length + 2 * (ts.map (·.meta_.size)).sum) (setKey ts off)
  | [], _, _ => .mono (.pure _) (by simp)
  | t :: ts, off, h => by
    unfold Bf.setKey
    have ih := @Tot.setKey gs ts (off + t.meta_.size) (fun t' h' => h t' (List.mem_cons_of_mem _ h'))
    refine .mono (.bind (n := 1) (.loadHeader _ (h t (List.mem_cons_self ..))) fun _ =>
      .bind (.stubLoad t.meta_.size t.meta_.off t.meta_.size (scr off) (Nat.le_refl _)) fun _ => ih) ?_
    simp only [List.length_cons, List.map_cons, List.sum_cons]
    omega

end Bf
