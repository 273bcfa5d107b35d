import Verif.Spec.RulesetPacket
import Verif.Props.C48_Text
import Verif.Props.C10_Sets
import Verif.Props.C45_Text
/-!
# C49: the text of a chain decides
-/
namespace Bf
open Spec Cli

variable {E : Env} {chain : Chain} {thr : Nat → BitVec 32} {img : List Insn} {w w' : World} {r : BitVec 64}
  {m : Matcher}

/-! ### Elements of sets -/

theorem fieldIs_iff {i : Input} {ty : MType} {x : List Byte} (hx : HasField i ty x) {says : Nat → Prop} : (∃ n, FieldIs i ty n ∧ says n) ↔ says (Spec.beNat x) := by
  constructor
  · rintro ⟨n, ⟨b, hb, rfl⟩, h⟩
    rw [HasField.unique hx hb]
    exact h
  · intro h
    exact ⟨_, ⟨x, hx, rfl⟩, h⟩

/-- A component of an element is the field of the packet if and only if its text describes the packet. -/
theorem field_describes {env : TextEnv} {ty : MType} {buf : List Byte} {s : List Char} {p : List Byte} {i : Input} {x : List Byte} {mk : Nat}
    (hs : Fits ty .in_ s) (hp : parsePayload env ty .in_ buf s = .ok p) (hlen : p.length = ty.refSize .in_) (hsz : ty.refSize .in_ ≠ 0)
    (hnet : ty ∉ netTypes) (hx : HasField i ty x) : x = p ↔ Spec.Describes env i mk ty .in_ s := by
  have hM := C46_says_partial hs.ordinary hs.room hs.suffix hp
  have num : p.length = 1 → ∀ {o : Nat} {pr : Proto}, fieldSpec ty = some (pr, o, 1) → ∀ {says : Nat → Prop}, says (host p 0 1) →
      (∀ {a b}, says a → says b → a = b) → (x = p ↔ ∃ n, FieldIs i ty n ∧ says n) := by
    intro hq o pr hfs says hs hu
    rw [fieldIs_iff hx]
    have hl := HasField.length hx hfs
    match x, hl with
    | [a], _ =>
      match p, hq with
      | [y], _ =>
        have : host [y] 0 1 = y.toNat := by simp [host, leNat]
        rw [this] at hs
        rw [beNat_one]
        constructor
        · intro e; cases e; exact hs
        · intro h
          rw [BitVec.eq_of_toNat_eq (hu hs h)]
  have port : p.length = 2 → ∀ {o : Nat} {pr : Proto}, fieldSpec ty = some (pr, o, 2) → Numeral 10 s (Spec.beNat (p.take 2)) →
      (x = p ↔ ∃ n, FieldIs i ty n ∧ Numeral 10 s n) := by
    intro hq o pr hfs hs
    rw [List.take_of_length_le (by omega)] at hs
    rw [fieldIs_iff hx]
    have hl := HasField.length hx hfs
    constructor
    · rintro rfl; exact hs
    · intro h; exact beNat_inj (by omega) (numeral_unique (by omega) h hs)
  have ip4 : p.length = 4 → Addr4 s ((p.take 4).map BitVec.toNat) → (x = p ↔ ∃ b, HasField i ty b ∧ Addr4 s (b.map BitVec.toNat)) := by
    intro hq hM
    rw [List.take_of_length_le (by omega)] at hM
    constructor
    · rintro rfl; exact ⟨_, hx, hM⟩
    · rintro ⟨b, hb, h⟩
      rw [HasField.unique hx hb]
      exact map_toNat_inj (addr4_unique h hM)
  have ip6 : p.length = 16 → (∃ ws, Addr6 s ws ∧ (p.take 16).map BitVec.toNat = bytesOf ws) →
      (x = p ↔ ∃ b ws, HasField i ty b ∧ Addr6 s ws ∧ b.map BitVec.toNat = bytesOf ws) := by
    intro hq hM
    obtain ⟨ws, h1, h2⟩ := hM
    rw [List.take_of_length_le (by omega)] at h2
    constructor
    · rintro rfl; exact ⟨_, ws, hx, h1, h2⟩
    · rintro ⟨b, ws', hb, h1', h2'⟩
      rw [HasField.unique hx hb]
      cases addr6_unique h1 h1'
      exact map_toNat_inj (h2'.trans h2.symm)
  cases ty
  case ip4Saddr => exact ip4 hlen hM
  case ip4Daddr => exact ip4 hlen hM
  case ip6Saddr => exact ip6 hlen hM
  case ip6Daddr => exact ip6 hlen hM
  case tcpSport => exact port hlen rfl hM
  case tcpDport => exact port hlen rfl hM
  case udpSport => exact port hlen rfl hM
  case udpDport => exact port hlen rfl hM
  case ip4Proto =>
    exact num hlen rfl (says := NamedBy (fun x n => Doc.ipproto n = some x) 255 s) hM (named_unique C38_understood.2.2.2.2.2.2.2.1 (by decide))
  case ip6Nexthdr =>
    have := num hlen rfl (says := NamedBy (fun x n => Doc.ipproto n = some x) 255 s) hM (named_unique C38_understood.2.2.2.2.2.2.2.1 (by decide))
    rw [this]
    exact ⟨fun h => ⟨rfl, h⟩, fun h => h.2⟩
  case icmpType =>
    exact num hlen rfl (says := NamedBy (fun x n => Doc.icmp n = some x) 255 s) hM (named_unique C38_understood.2.2.2.2.2.2.2.2.1 (by decide))
  case icmpv6Type =>
    exact num hlen rfl (says := NamedBy (fun x n => Doc.icmpv6 n = some x) 255 s) hM (named_unique C38_understood.2.2.2.2.2.2.2.2.2 (by decide))
  case icmpCode => exact num hlen rfl (says := NumText s) hM numText_unique
  case icmpv6Code => exact num hlen rfl (says := NumText s) hM numText_unique
  all_goals first
    | exact absurd rfl hsz
    | (exfalso; revert hnet; decide)

/-- A network contains the address of the packet if and only if its text describes the packet. -/
theorem net_describes {env : TextEnv} {ty : MType} {buf : List Byte} {s : List Char} {p : List Byte} {i : Input} {x : List Byte} {mk : Nat}
    (hs : Fits ty .in_ s) (hp : parsePayload env ty .in_ buf s = .ok p) (hlen : p.length = ty.refSize .in_)
    (hnet : ty ∈ netTypes) (hx : HasField i ty x) : InNetwork x (p.drop 4) (host p 0 4) ↔ Spec.Describes env i mk ty .in_ s := by
  have hM := C46_says_partial hs.ordinary hs.room hs.suffix hp
  have n4 : p.length = 8 → NetText Addr4 32 s (((p.drop 4).take 4).map BitVec.toNat) (host p 0 4) →
      (InNetwork x (p.drop 4) (host p 0 4) ↔ ∃ b net len, HasField i ty b ∧ NetText Addr4 32 s (net.map BitVec.toNat) len ∧ SameBits b net len) := by
    intro hq hM
    rw [List.take_of_length_le (by rw [List.length_drop, hq]; decide)] at hM
    constructor
    · intro h; exact ⟨_, _, _, hx, hM, h⟩
    · rintro ⟨b, net, len, hb, h1, h2⟩
      obtain ⟨e1, rfl⟩ := net_unique (addr := Addr4) (fun h h' => addr4_unique h h') (fun h => (addr4_starts [] h).2.2) hM h1
      rw [map_toNat_inj e1, HasField.unique hx hb]
      exact h2
  have n6 : (∃ ws, NetText Addr6 128 s ws (host p 0 4) ∧ ((p.drop 4).take 16).map BitVec.toNat = bytesOf ws) →
      (InNetwork x (p.drop 4) (host p 0 4) ↔ ∃ b net ws len, HasField i ty b ∧ NetText Addr6 128 s ws len ∧ net.map BitVec.toNat = bytesOf ws ∧ SameBits b net len) := by
    rintro ⟨ws, hM, hb⟩
    have h128 : host p 0 4 ≤ 128 := by obtain ⟨_, _, _, _, _, h⟩ := hM; exact h
    constructor
    · intro h; exact ⟨_, _, _, _, hx, hM, hb, (sameBits_take h128).mpr h⟩
    · rintro ⟨b, net, ws', len, hb', h1, h2, h3⟩
      obtain ⟨rfl, rfl⟩ := net_unique (addr := Addr6) (fun h h' => addr6_unique h h') (fun h => (addr6_starts [] h).2.2) hM h1
      have := map_toNat_inj (h2.trans hb.symm)
      rw [HasField.unique hx hb']
      exact (sameBits_take h128).mp (this ▸ h3)
  cases ty
  case ip4Snet => exact n4 hlen hM
  case ip4Dnet => exact n4 hlen hM
  case ip6Snet => exact n6 hM
  case ip6Dnet => exact n6 hM
  all_goals (exfalso; revert hnet; decide)

theorem field_size {ty : MType} (hsz : ty.refSize .in_ ≠ 0) (hn : ty ∉ netTypes) {i : Input} {x : List Byte} (hx : HasField i ty x) : x.length = ty.refSize .in_ := by
  cases ty
  all_goals first
    | exact absurd rfl hsz
    | exact HasField.length hx rfl
    | (exfalso; revert hn; decide)

theorem elem_describes {env : TextEnv} {i : Input} {mk : Nat} : ∀ {key : List MType} {ps : List (List Char)} {comps : List (MType × List Byte)} {b : List Byte},
    comps.map (·.1) = key → Each (CompOf env) ps comps → Each (fun s ty => Fits ty .in_ (trim s)) ps key → (∀ ty ∈ key, ty.refSize .in_ ≠ 0) →
    (∀ ty ∈ key, ty ∉ netTypes) → HasKey i key b →
    (b = (comps.map (·.2)).flatten ↔ Each (fun p ty => Spec.Describes env i mk ty .in_ (trim p)) ps key)
  | [], ps, comps, b, hc, he, hf, _, _, hk => by
    cases hf
    cases he
    cases hk
    exact ⟨fun _ => .nil, fun _ => rfl⟩
  | ty :: key, ps, comps, b, hc, he, hf, hsz, hn, hk => by
    cases hf with
    | @cons p _ ps _ hf1 hf2 =>
    cases he with
    | @cons _ c _ comps he1 he2 =>
    obtain ⟨cty, bytes⟩ := c
    simp only [List.map_cons, List.cons.injEq] at hc
    obtain ⟨rfl, hc⟩ := hc
    obtain ⟨x, y, rfl, hx, hy⟩ := hk
    obtain ⟨hl, buf, _, hp⟩ := he1
    have h1 := field_describes (mk := mk) hf1 hp hl (hsz _ List.mem_cons_self) (hn _ List.mem_cons_self) hx
    have h2 := elem_describes (mk := mk) hc he2 hf2 (fun t h => hsz t (List.mem_cons_of_mem _ h)) (fun t h => hn t (List.mem_cons_of_mem _ h)) hy
    have hxl := field_size (hsz _ List.mem_cons_self) (hn _ List.mem_cons_self) hx
    simp only [List.map_cons, List.flatten_cons]
    rw [Each.cons_iff]
    constructor
    · intro h
      obtain ⟨e1, e2⟩ := List.append_inj h (by rw [hxl]; exact hl.symm)
      exact ⟨_, _, rfl, h1.mp e1, h2.mp e2⟩
    · rintro ⟨_, _, e, g1, g2⟩
      cases e
      rw [h1.mpr g1, h2.mpr g2]

theorem hasKey_exists {i : Input} {key : List MType} (h : ∀ ty ∈ key, ∃ b, HasField i ty b) : ∃ b, HasKey i key b := by
  induction key with
  | nil => exact ⟨[], rfl⟩
  | cons t ts ih =>
    obtain ⟨x, hx⟩ := h t List.mem_cons_self
    obtain ⟨y, hy⟩ := ih fun t h' => h t (List.mem_cons_of_mem _ h')
    exact ⟨_, x, y, rfl, hx, hy⟩

theorem hasKey_fields {i : Input} {key : List MType} {b : List Byte} (h : HasKey i key b) : ∀ ty ∈ key, ∃ b, HasField i ty b := by
  induction key generalizing b with
  | nil => intro t h; cases h
  | cons t ts ih =>
    obtain ⟨x, y, _, hx, hy⟩ := h
    intro t' h'
    rcases List.mem_cons.mp h' with rfl | h'
    · exact ⟨x, hx⟩
    · exact ih hy t' h'

theorem hasKey_unique {i : Input} {key : List MType} {a b : List Byte} (ha : HasKey i key a) (hb : HasKey i key b) : a = b := by
  induction key generalizing a b with
  | nil => rw [ha, hb]
  | cons t ts ih =>
    obtain ⟨x, y, rfl, hx, hy⟩ := ha
    obtain ⟨x', y', rfl, hx', hy'⟩ := hb
    rw [HasField.unique hx hx', ih hy hy']

theorem concerns_in {i : Input} {ty : MType} (h : ty.refSize .in_ ≠ 0) : Concerns i ty ↔ ∃ b, HasField i ty b := by
  cases ty
  all_goals first
    | exact absurd rfl h
    | exact Iff.rfl

/-- A matcher on a set matches the packets its elements describe. -/
theorem hits_set {env : TextEnv} {k payload : List Char} {name : Option String} {neg : Bool} {s : BSet} {c : Sem} (hc : Sees E chain thr c)
    (hf : chain.hook.flavor ≠ .sockAddr) (hW : SetsWf chain.sets) (hs : RefersTo chain m s) (hneg : m.negate = neg)
    (hsay : SetSays env name k payload s) {k' : List Char} (hfit : SetFits k' neg payload) (hk' : KeyOf k' s.key) :
    Hits c m w ↔ ∃ key, KeyOf k' key ∧ (∀ ty ∈ key, Concerns (inputOf E chain.hook) ty) ∧ (InElements env (inputOf E chain.hook) key payload ↔ neg = false) := by
  obtain ⟨_, hk, hsk, es, hes, _, hel⟩ := hsay
  have hone : (∃ key, KeyOf k' key ∧ (∀ ty ∈ key, Concerns (inputOf E chain.hook) ty) ∧ (InElements env (inputOf E chain.hook) key payload ↔ neg = false)) ↔
      (∀ ty ∈ s.key, Concerns (inputOf E chain.hook) ty) ∧ (InElements env (inputOf E chain.hook) s.key payload ↔ neg = false) := by
    constructor
    · rintro ⟨key, h1, h2⟩
      cases keyOf_unique hk' h1
      exact h2
    · intro h; exact ⟨_, hk', h⟩
  rw [hone]
  have hfits := hfit.elems _ hk'
  by_cases hnet : ∀ t ∈ s.key, t ∉ netTypes
  · rw [C10_member hc hf hW hs hnet, hneg]
    have key : ∀ b, HasKey (inputOf E chain.hook) s.key b → (b ∈ s.elems ↔ InElements env (inputOf E chain.hook) s.key payload) := by
      intro b hb
      rw [hel]
      constructor
      · intro h
        obtain ⟨t, ht, comps, h1, rfl, h3⟩ := each_mem hes h
        exact ⟨t, ht, (elem_describes (mk := 0) h1 h3 (hfits t ht) hsk.1 hnet hb).mp rfl⟩
      · rintro ⟨t, ht, hd⟩
        obtain ⟨e, he, comps, h1, rfl, h3⟩ := each_mem' hes ht
        rw [(elem_describes (mk := 0) h1 h3 (hfits t ht) hsk.1 hnet hb).mpr hd]
        exact he
    constructor
    · rintro ⟨b, hb, h⟩
      exact ⟨fun ty ht => (concerns_in (hsk.1 ty ht)).mpr (hasKey_fields hb ty ht), (key b hb).symm.trans h⟩
    · rintro ⟨h1, h2⟩
      obtain ⟨b, hb⟩ := hasKey_exists fun ty ht => (concerns_in (hsk.1 ty ht)).mp (h1 ty ht)
      exact ⟨b, hb, (key b hb).trans h2⟩
  · have : ∃ t ∈ s.key, t ∈ netTypes := Classical.byContradiction fun h => hnet fun t ht hn => h ⟨t, ht, hn⟩
    obtain ⟨t, ht, hn⟩ := this
    have hisnet : t.isNet = true := by revert hn; cases t <;> decide
    have hkey : s.key = [t] := by
      have h1 : ¬ 1 < s.key.length := fun h => by
        have := hsk.2 h t ht
        rw [hisnet] at this
        cases this
      match hkk : s.key, ht, h1 with
      | [a], ht, _ => rw [List.mem_singleton.mp ht]
      | a :: b :: l, _, h1 => exact absurd (by simp) h1
    rw [C11_networks hc hf hs hkey hn, hneg]
    have key : ∀ b, HasField (inputOf E chain.hook) t b →
        ((∃ e ∈ s.elems, InNetwork b (e.drop 4) (host e 0 4)) ↔ InElements env (inputOf E chain.hook) s.key payload) := by
      intro b hb
      have comp : ∀ {x : List Char} {e : List Byte}, x ∈ elemTexts payload → ElemOf env s.key x e →
          (InNetwork b (e.drop 4) (host e 0 4) ↔ Each (fun p ty => Spec.Describes env (inputOf E chain.hook) 0 ty .in_ (trim p)) (tokens (· = ',') x) s.key) := by
        intro x e hx he
        obtain ⟨comps, h1, h2, h3⟩ := he
        have hfx := hfits x hx
        rw [hkey] at h1 hfx ⊢
        generalize tokens (· = ',') x = ps at h3 hfx ⊢
        cases hfx with
        | @cons p _ _ _ hf1 hf2 =>
        cases hf2
        cases h3 with
        | @cons _ c _ _ g1 g2 =>
        cases g2
        obtain ⟨cty, bytes⟩ := c
        simp only [List.map_cons, List.map_nil, List.cons.injEq, and_true] at h1
        subst h1
        simp only [List.map_cons, List.map_nil, List.flatten_cons, List.flatten_nil, List.append_nil] at h2
        subst h2
        obtain ⟨hl, buf, _, hp⟩ := g1
        have := net_describes (mk := 0) hf1 hp hl hn hb
        rw [this, Each.cons_iff]
        constructor
        · intro h; exact ⟨_, _, rfl, h, .nil⟩
        · rintro ⟨_, _, e, h, _⟩; cases e; exact h
      constructor
      · rintro ⟨e, he, h⟩
        obtain ⟨x, hx, hxe⟩ := each_mem hes ((hel e).mp he)
        exact ⟨x, hx, (comp hx hxe).mp h⟩
      · rintro ⟨x, hx, h⟩
        obtain ⟨e, he, hxe⟩ := each_mem' hes hx
        exact ⟨e, (hel e).mpr he, (comp hx hxe).mpr h⟩
    constructor
    · rintro ⟨b, hb, h⟩
      refine ⟨fun ty ht' => (concerns_in (hsk.1 ty ht')).mpr ?_, (key b hb).symm.trans h⟩
      rw [hkey] at ht'
      rw [List.mem_singleton.mp ht']
      exact ⟨b, hb⟩
    · rintro ⟨h1, h2⟩
      obtain ⟨b, hb⟩ := (concerns_in (hsk.1 t ht)).mp (h1 t ht)
      exact ⟨b, hb, (key b hb).trans h2⟩

/-! ### Matchers -/

theorem opSays_unique {o : Option (List Char)} {a b : MOp} (ha : OpSays o a) (hb : OpSays o b) : a = b := by
  rcases ha with ⟨rfl, rfl⟩ | rfl
  · rcases hb with ⟨_, rfl⟩ | h
    · rfl
    · cases h
  · rcases hb with ⟨h, _⟩ | h
    · cases h
    · exact doc_op_inj (by simpa using h)

theorem firstNamed_unique {n : List Char} {sets : List SetS} {a b : SetS} (ha : FirstNamed n sets a) (hb : FirstNamed n sets b) : a = b := by
  obtain ⟨j, h1, h2, h3⟩ := ha
  obtain ⟨k, g1, g2, g3⟩ := hb
  rcases Nat.lt_trichotomy j k with h | h | h
  · exact absurd h2 (g3 j a h h1)
  · subst h
    rw [h1] at g1
    cases g1
    rfl
  · exact absurd g2 (h3 k b h g1)

/-- The sets of the chain are those declared, then those of the rules, which have no name. -/
def SetsAre (env : TextEnv) (decls : List SetS) (sets : List BSet) : Prop :=
  ∃ decl inl, sets = decl ++ inl ∧ Each (fun d x => SetSays env (some (String.ofList d.name)) d.key d.payload x) decls decl ∧ ∀ x ∈ inl, x.name = none

theorem named_first {env : TextEnv} {decls : List SetS} {sets : List BSet} (h : SetsAre env decls sets) {n : List Char} {i : Nat} {x : BSet} (hi : sets[i]? = some x)
    (hn : x.name = some (String.ofList n)) (hfirst : ∀ j s', j < i → sets[j]? = some s' → s'.name ≠ some (String.ofList n)) :
    ∃ d, FirstNamed n decls d ∧ SetSays env (some (String.ofList d.name)) d.key d.payload x := by
  obtain ⟨decl, inl, rfl, hd, hinl⟩ := h
  have hlt : i < decl.length := by
    refine Classical.byContradiction fun hge => ?_
    rw [List.getElem?_append_right (by omega)] at hi
    rw [hinl x (List.mem_of_getElem? hi)] at hn
    cases hn
  rw [List.getElem?_append_left hlt] at hi
  obtain ⟨d, h1, h2⟩ := each_get' hd hi
  refine ⟨d, ⟨i, h1, ?_, ?_⟩, h2⟩
  · have := h2.1.symm.trans hn
    exact String.ofList_injective (by simpa using this)
  · intro k d' hk hd' he
    obtain ⟨x', h3, h4⟩ := each_get hd hd'
    refine hfirst k x' hk ?_ (by rw [h4.1, he])
    rw [List.getElem?_append_left (by omega)]
    exact h3

/-- A matcher of the chain matches the packets the matcher of the text selects. -/
theorem hits_says {env : TextEnv} {decls : List SetS} {sm : MatcherS} {c : Sem} (hc : Sees E chain thr c) (hf : chain.hook.flavor ≠ .sockAddr)
    (hW : SetsWf chain.sets) (hw : MatcherWf m) (hd : SetsAre env decls chain.sets) (hsay : MatcherSays env chain.sets sm m)
    (hsc : InScope (inputOf E chain.hook) decls sm) : Hits c m w ↔ Selects env (inputOf E chain.hook) w.mark.toNat decls sm := by
  cases sm with
  | plain t neg op p =>
    obtain ⟨h1, h2, h3, h4, buf, h5, h6⟩ := hsay
    obtain ⟨hfit, hty, hif, hport⟩ := hsc _ _ h1 h2
    have hm : matcherNewFromRaw env m.type m.op buf p neg = .ok m := by
      unfold matcherNewFromRaw
      rw [List.take_of_length_le (by omega), h6, ← h3]
    rw [C48_hits_partial hm hfit.ordinary hfit.room hfit.suffix hc hw hf hty hif hport]
    constructor
    · intro h; exact ⟨_, _, h1, h2, h⟩
    · rintro ⟨ty, o, e1, e2, h⟩
      cases doc_matcher_inj (h1.symm.trans e1)
      cases opSays_unique h2 e2
      exact h
  | inline k neg op p =>
    obtain ⟨_, h1, _, h3, i, x, h4, h5, h6⟩ := hsay
    exact hits_set hc hf hW ⟨h1, by rw [← rd_host h4]; exact h5⟩ h3 h6 hsc h6.2.1
  | named k neg op n =>
    obtain ⟨_, h1, _, h3, i, x, h4, h5, h6, h7, h8⟩ := hsay
    obtain ⟨d, hd1, hd2⟩ := named_first hd h5 h6 h8
    rw [hits_set hc hf hW ⟨h1, by rw [← rd_host h4]; exact h5⟩ h3 hd2 (hsc d hd1) h7]
    constructor
    · rintro ⟨key, h9, h10⟩; exact ⟨key, d, h9, hd1, h10⟩
    · rintro ⟨key, d', h9, hd', h10⟩
      cases firstNamed_unique hd1 hd'
      exact ⟨key, h9, h10⟩

/-! ### Rules -/

theorem chainAct_built {e : PEnv} {st st' : PState} {s : ChainS} {c : Chain × Option HookOpts} (h : chainAct e st s = some (.ok (c, st'))) : BuiltChain c.1 := by
  unfold chainAct at h
  obtain ⟨hook, h1, h⟩ := Run.bind_ok h
  obtain ⟨o, h2, h⟩ := Run.bind_ok h
  obtain ⟨policy, h3, h⟩ := Run.bind_ok h
  obtain ⟨st1, h4, h⟩ := Run.bind_ok h
  obtain ⟨rs, h5, h⟩ := Run.bind_ok h
  split at h
  · cases h
  · obtain ⟨chain, h6, h⟩ := Run.bind_ok h
    obtain ⟨u, h7, h⟩ := Run.bind_ok h
    cases h
    exact .new (orAbort_ok h6)

theorem chainsAct_built {e : PEnv} : ∀ {l : List ChainS} {st : PState} {rs : List (Chain × Option HookOpts)},
    chainsAct e st l = some (.ok rs) → ∀ c ∈ rs, BuiltChain c.1
  | [], st, rs, h => by cases h; intro c hc; cases hc
  | s :: l, st, rs, h => by
    unfold chainsAct at h
    obtain ⟨a, h1, h⟩ := Run.bind_ok h
    obtain ⟨b, h2, h⟩ := Run.bind_ok h
    cases h
    intro c hc
    rcases List.mem_cons.mp hc with rfl | hc
    · exact chainAct_built h1
    · exact chainsAct_built h2 c hc

/-- Every chain a text is read as was built by `bf_chain_new`. -/
theorem bfcParse_built {e : PEnv} {text : List Char} {rs : List (Chain × Option HookOpts)} (h : bfcParse e text = some (.ok rs)) : ∀ c ∈ rs, BuiltChain c.1 := by
  unfold bfcParse at h
  split at h
  · cases h
  · exact chainsAct_built h

/-- A set under a `not` has an element. -/
def NotEmpty (decls : List SetS) : MatcherS → Prop
  | .plain _ _ _ _ => True
  | .inline _ neg _ p => neg = true → elemTexts p ≠ []
  | .named _ neg _ n => ∀ d, FirstNamed n decls d → neg = true → elemTexts d.payload ≠ []

theorem inScope_notEmpty {i : Input} {decls : List SetS} {sm : MatcherS} (h : InScope i decls sm) : NotEmpty decls sm := by
  cases sm with
  | plain => trivial
  | inline => exact h.some
  | named => exact fun d hd => (h d hd).some

/-- The matchers of the chain do what `sel` says of those of the text. -/
def HitsAs (env : TextEnv) (c : Sem) (chain : Chain) (sel : Nat → MatcherS → Prop) (sr : RuleS) (q : Rule) : Prop :=
  ∀ sm ∈ sr.matchers, ∀ m ∈ q.matchers, MatcherSays env chain.sets sm m → ∀ w : World, Hits c m w ↔ sel w.mark.toNat sm

/-- A rule of the chain fires when the rule of the text applies. -/
theorem fires_gen {env : TextEnv} {rate : List Char → Option Nat} {decls : List SetS} {sr : RuleS} {q : Rule} {c : Sem} {sel : Nat → MatcherS → Prop} (hc : Sees E chain thr c)
    (hb : ∀ q ∈ chain.rules, q.disabled = true → Inert chain.sets q) (hq : q ∈ chain.rules)
    (hd : SetsAre env decls chain.sets) (hsay : RuleSays env rate chain.sets sr q) (hits : HitsAs env c chain sel sr q) (hsc : ∀ m ∈ sr.matchers, NotEmpty decls m) :
    Fires c q w ↔ ∀ m ∈ sr.matchers, sel w.mark.toNat m := by
  have hmatch : Matches c q w ↔ ∀ m ∈ sr.matchers, sel w.mark.toNat m := by
    rw [matches_iff]
    constructor
    · intro h sm hsm
      obtain ⟨i, hi⟩ := List.getElem?_of_mem hsm
      obtain ⟨m, h1, h2⟩ := each_get hsay.matchers hi
      have := h i m h1
      rw [hits sm hsm m (List.mem_of_getElem? h1) h2] at this
      exact this
    · intro h i m hi
      obtain ⟨sm, h1, h2⟩ := each_get' hsay.matchers hi
      rw [hits sm (List.mem_of_getElem? h1) m (List.mem_of_getElem? hi) h2]
      exact h sm (List.mem_of_getElem? h1)
  rw [← hmatch]
  refine ⟨fun h => h.2, fun h => ⟨?_, h⟩⟩
  cases hdis : q.disabled with
  | false => rfl
  | true =>
    exfalso
    have hfire : Fires c { q with disabled := false } w := ⟨rfl, h⟩
    rcases hb q hq hdis with ⟨m, hm, ht, x, hx, he⟩ | hn
    · obtain ⟨i, hi⟩ := List.getElem?_of_mem hm
      obtain ⟨sm, h1, h2⟩ := each_get' hsay.matchers hi
      have hs := hsc sm (List.mem_of_getElem? h1)
      by_cases hneg : m.negate = false
      · exact C15_empty_set hc (rule := { q with disabled := false }) hm ht hneg hx he w hfire
      · have hneg : m.negate = true := by simpa using hneg
        have hemp : ∀ {name k payload}, SetSays env name k payload x → elemTexts payload = [] := by
          rintro name k payload ⟨_, _, _, es, g1, _, g3⟩
          have : es = [] := by
            cases es with
            | nil => rfl
            | cons e l =>
              have := (g3 e).mpr List.mem_cons_self
              rw [he] at this
              cases this
          subst this
          cases hl : elemTexts payload with
          | nil => rfl
          | cons a l => rw [hl] at g1; cases g1
        cases sm with
        | plain t neg op p =>
          obtain ⟨_, hk⟩ := set_keyed h2 ht
          cases hk
        | inline k neg op p =>
          obtain ⟨_, _, _, e1, j, y, e2, e3, e4⟩ := h2
          rw [rd_host e2, hx] at e3
          cases e3
          exact hs (e1.symm.trans hneg) (hemp e4)
        | named k neg op n =>
          obtain ⟨_, _, _, e1, j, y, e2, e3, e4, e5, e6⟩ := h2
          obtain ⟨d, hd1, hd2⟩ := named_first hd e3 e4 e6
          rw [rd_host e2, hx] at e3
          cases e3
          exact hs d hd1 (e1.symm.trans hneg) (hemp hd2)
    · exact C15_needs_two hc (rule := { q with disabled := false }) hn w hfire

/-! ### Chains -/

/-- What the program returns is what the verdict says. -/
def Obeys (env : TextEnv) (E : Env) (f : Flavor) (r : BitVec 64) : VerdictS → Prop
  | .plain v => (v = "ACCEPT".toList ∧ meaning f (kernelReads r) = some .pass) ∨ (v = "DROP".toList ∧ meaning f (kernelReads r) = some .block) ∨
      (v = "NEXT".toList ∧ meaning f (kernelReads r) = some (if f = .tc then .later else .pass))
  | .redirect i d => ∃ (n : BitVec 32) (x : RedirDir), IfaceSays env i n.toNat ∧ d = (Doc.direction x).toList ∧
      r = E.redirectRet n (if x = .ingress then 1 else 0)

theorem newMark_says {env : TextEnv} {rate : List Char → Option Nat} {sets : List BSet} {sr : RuleS} {q : Rule} (h : RuleSays env rate sets sr q) (c : Sem) (w : World) :
    NewMark sr w.mark.toNat (actions c q w).mark.toNat := by
  rw [actions_mark]
  constructor
  · intro s hs
    obtain ⟨n, h1, h2, h3⟩ := h.options.mark s hs
    have hset : q.mark >>> 32 ≠ 0 := by simpa [Rule.markSet] using h2
    rw [if_pos hset]
    have : (q.mark.setWidth 32).toNat = n := by
      have e : q.mark.setWidth 32 = BitVec.ofNat 32 n := h3
      rw [e, BitVec.toNat_ofNat, Nat.mod_eq_of_lt (by have := h1.2; omega)]
    rw [this]
    exact h1
  · intro hno
    have := h.options.noMark hno
    have hset : ¬ q.mark >>> 32 ≠ 0 := by simpa [Rule.markSet] using this
    rw [if_neg hset]

theorem verdict_continues {env : TextEnv} {sr : RuleS} {q : Rule} (h : VerdictSays env sr.verdict q) : q.verdict = .continue_ ↔ continues sr := by
  unfold continues
  cases hv : sr.verdict with
  | plain v =>
    rw [hv] at h
    have h : v = (Doc.verdict q.verdict).toList := h
    rw [h]
    cases q.verdict <;> decide
  | redirect i d =>
    rw [hv] at h
    rw [h.1]
    constructor
    · intro h; cases h
    · intro h; cases h

/-- What the rules before `k` leave to the rules from `k` on. -/
theorem reaches_gen {env : TextEnv} {rate : List Char → Option Nat} {decls : List SetS} {srules : List RuleS} {policy : List Char} {c : Sem} {sel : Nat → MatcherS → Prop}
    (hc : Sees E chain thr c) (hb : ∀ q ∈ chain.rules, q.disabled = true → Inert chain.sets q)
    (hd : SetsAre env decls chain.sets) (hsay : Each (RuleSays env rate chain.sets) srules chain.rules)
    (hits : ∀ sr ∈ srules, ∀ q ∈ chain.rules, HitsAs env c chain sel sr q)
    (hsc : ∀ sr ∈ srules, ∀ m ∈ sr.matchers, NotEmpty decls m) {k : Nat} {wk : World} (h : Reaches c chain.rules w k wk) {v : VerdictS}
    (hv : RulesBy sel policy wk.mark.toNat (srules.drop k) v) : RulesBy sel policy w.mark.toNat srules v := by
  induction h generalizing v with
  | first => exact hv
  | @skip k n q wk h1 h2 h3 ih =>
    obtain ⟨sr, g1, g2⟩ := each_get' hsay h2
    refine ih ?_
    obtain ⟨hk, rfl⟩ := List.getElem?_eq_some_iff.mp g1
    rw [List.drop_eq_getElem_cons hk]
    refine .skip ?_ hv
    rw [← fires_gen hc hb (List.mem_of_getElem? h2) hd g2 (hits _ (List.getElem_mem hk) q (List.mem_of_getElem? h2)) (hsc _ (List.getElem_mem hk))]
    exact fun hfire => hfire.not_fails h3
  | @goOn k q wk h1 h2 h3 h4 ih =>
    obtain ⟨sr, g1, g2⟩ := each_get' hsay h2
    refine ih ?_
    obtain ⟨hk, rfl⟩ := List.getElem?_eq_some_iff.mp g1
    rw [List.drop_eq_getElem_cons hk]
    refine .goOn ?_ ((verdict_continues g2.verdict).mp h4) (newMark_says g2 c (World.drew wk (draws q.matchers))) hv
    exact (fires_gen hc hb (List.mem_of_getElem? h2) hd g2 (hits _ (List.getElem_mem hk) q (List.mem_of_getElem? h2)) (hsc _ (List.getElem_mem hk))).mp h3

/-- What a text says of a chain is what its program does. -/
theorem decides_gen {env : TextEnv} {rate : List Char → Option Nat} {s : ChainS} {sel : Nat → MatcherS → Prop} (hd : SetsAre env s.sets chain.sets) (hrules : Each (RuleSays env rate chain.sets) s.rules chain.rules)
    (hpolicy : s.policy = (Doc.verdict chain.policy).toList) (hterminal : chain.policy = .accept ∨ chain.policy = .drop ∨ chain.policy = .next)
    (hvt : ∀ sr ∈ s.rules, VerdictText sr.verdict) (hb : ∀ q ∈ chain.rules, q.disabled = true → Inert chain.sets q)
    (hl : IsLoaded E chain thr img)
    (hits : ∀ c, Sees E chain thr c → ∀ sr ∈ s.rules, ∀ q ∈ chain.rules, HitsAs env c chain sel sr q) (hr : Runs E img w r w') (hu : ¬ Unreadable E chain)
    (hsc : ∀ sr ∈ s.rules, ∀ m ∈ sr.matchers, NotEmpty s.sets m) :
    ∃ v, RulesBy sel s.policy w.mark.toNat s.rules v ∧ Obeys env E chain.hook.flavor r v := by
  obtain ⟨c, hc⟩ := (unreadable_or_sees E chain thr).resolve_left hu
  obtain ⟨⟨a, a1, a2⟩, ⟨d, d1, d2⟩, ⟨n, n1, n2⟩⟩ := C17_codes chain.hook.flavor
  have reach := fun {j wj v} => reaches_gen (policy := s.policy) (k := j) (wk := wj) (v := v) (w := w) hc hb hd hrules (hits c hc) hsc
  rcases C01_first_match hl hr hc with ⟨j, q, wj, h1, h2, h3, h4, h5, _⟩ | ⟨h1, h2⟩
  · obtain ⟨sr, g1, g2⟩ := each_get' hrules h1
    obtain ⟨hj, rfl⟩ := List.getElem?_eq_some_iff.mp g1
    refine ⟨s.rules[j].verdict, reach h2 ?_, ?_⟩
    · rw [List.drop_eq_getElem_cons hj]
      exact .rule ((fires_gen hc hb (List.mem_of_getElem? h1) hd g2 (hits c hc _ (List.getElem_mem hj) q (List.mem_of_getElem? h1)) (hsc _ (List.getElem_mem hj))).mp h3)
        (fun h => h4 ((verdict_continues g2.verdict).mpr h))
    · have hvt := hvt _ (List.getElem_mem hj)
      have hcr := C17_rule hl hr hc h1 h2 h3
      have g3 := g2.verdict
      cases hv : s.rules[j].verdict with
      | plain v =>
        rw [hv] at g3 hvt
        have g3 : v = (Doc.verdict q.verdict).toList := g3
        obtain ⟨x, hx1, hx2⟩ := hvt
        cases hq : q.verdict with
        | accept => rw [hq] at g3; exact Or.inl ⟨g3, hcr.1 hq⟩
        | drop => rw [hq] at g3; exact Or.inr (Or.inl ⟨g3, hcr.2.1 hq⟩)
        | next => rw [hq] at g3; exact Or.inr (Or.inr ⟨g3, hcr.2.2.1 hq⟩)
        | continue_ => exact absurd hq h4
        | redirect =>
          rw [hq] at g3
          exact absurd (g3.symm.trans hx2) (by cases x <;> first | exact absurd rfl hx1 | decide)
      | redirect i d =>
        rw [hv] at g3
        exact ⟨_, _, g3.2.1, g3.2.2, (hcr.2.2.2 g3.1).1⟩
  · refine ⟨.plain s.policy, ?_, ?_⟩
    · have hlen : s.rules.length = chain.rules.length := each_length hrules
      obtain ⟨wj, hreach⟩ : ∃ wj, Reaches c chain.rules w chain.rules.length wj := by
        obtain ⟨logs, hdec⟩ := hl.course hr hc
        generalize { w' with logs := logs } = w1 at hdec
        cases hdec with
        | policy h => exact ⟨_, h⟩
        | @rule j q wj g1 g2 g3 g4 =>
          obtain ⟨q', wj', f1, f2, f3⟩ := h1 j (List.getElem?_eq_some_iff.mp g2).1
          rw [g2] at f1
          cases f1
          cases g1.unique f2
          exact absurd (f3 g3) g4
      refine reach hreach ?_
      rw [List.drop_of_length_le (by omega)]
      exact .policy
    · have hpol := hpolicy
      rcases hterminal with h | h | h
      · rw [h] at hpol
        refine Or.inl ⟨hpol, ?_⟩
        rw [h2, h, a1]; exact a2
      · rw [h] at hpol
        refine Or.inr (Or.inl ⟨hpol, ?_⟩)
        rw [h2, h, d1]; exact d2
      · rw [h] at hpol
        refine Or.inr (Or.inr ⟨hpol, ?_⟩)
        rw [h2, h, n1]; exact n2

/-- What a text says of a chain, as far as packets are concerned, is what its program does. -/
theorem decides_says {env : TextEnv} {rate : List Char → Option Nat} {s : ChainS} (hd : SetsAre env s.sets chain.sets) (hrules : Each (RuleSays env rate chain.sets) s.rules chain.rules)
    (hpolicy : s.policy = (Doc.verdict chain.policy).toList) (hterminal : chain.policy = .accept ∨ chain.policy = .drop ∨ chain.policy = .next)
    (hvt : ∀ sr ∈ s.rules, VerdictText sr.verdict) (hb : ∀ q ∈ chain.rules, q.disabled = true → Inert chain.sets q)
    (hl : IsLoaded E chain thr img) (hf : chain.hook.flavor ≠ .sockAddr) (hr : Runs E img w r w') (hu : ¬ Unreadable E chain)
    (hsc : ∀ sr ∈ s.rules, ∀ m ∈ sr.matchers, InScope (inputOf E chain.hook) s.sets m) :
    ∃ v, Rules env (inputOf E chain.hook) s.sets s.policy w.mark.toNat s.rules v ∧ Obeys env E chain.hook.flavor r v :=
  decides_gen hd hrules hpolicy hterminal hvt hb hl
    (fun _ hc sr hsr q hq sm hsm _ hm h _ => hits_says hc hf hl.sets (hl.matchers q hq _ hm) hd h (hsc sr hsr sm hsm)) hr hu
    fun sr hsr m hm => inScope_notEmpty (hsc sr hsr m hm)

/-- **C49.**  A text is read as chains, one of them is loaded and sees a packet it can read: what the program returns is the verdict the text says. -/
theorem C49_decides_partial {e : PEnv} {text : List Char} {cs : List ChainS} {rs : List (Chain × Option HookOpts)} (hw : Writes text cs)
    (hp : bfcParse e text = some (.ok rs)) {k : Nat} {s : ChainS} {o : Option HookOpts} (hs : cs[k]? = some s) (hk : rs[k]? = some (chain, o))
    (hl : IsLoaded E chain thr img) (hf : chain.hook.flavor ≠ .sockAddr) (hr : Runs E img w r w') (hu : ¬ Unreadable E chain)
    (hsc : ∀ sr ∈ s.rules, ∀ m ∈ sr.matchers, InScope (inputOf E chain.hook) s.sets m) (hn : ∀ c ∈ rs, c.1.sets.length ≤ 4294967296) :
    ∃ v, Rules e.text (inputOf E chain.hook) s.sets s.policy w.mark.toNat s.rules v ∧ Obeys e.text E chain.hook.flavor r v := by
  obtain ⟨b, hb1, hsay⟩ := each_get (C45_read hw hp hn) hs
  rw [hk] at hb1
  cases hb1
  have hb := bfcParse_built hp _ (List.mem_of_getElem? hk)
  have hd : SetsAre e.text s.sets chain.sets := by
    obtain ⟨decl, inl, e1, e2, _, e3⟩ := hsay.sets
    refine ⟨decl, inl, e1, e2, fun x hx => ?_⟩
    obtain ⟨_, _, h⟩ := each_mem e3 hx
    exact h.1
  exact decides_says hd hsay.rules hsay.policy hsay.terminal (fun sr hsr => ((hw.2.1 s (List.mem_of_getElem? hs)).rules sr hsr).verdict)
    (fun q hq h => (C15_disabled_iff hb q hq).mp h) hl hf hr hu hsc

end Bf
