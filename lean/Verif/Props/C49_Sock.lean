import Verif.Props.C48_Sock
import Verif.Props.C49_Loads
/-!
# C49 for socket operations: the text of a chain decides
-/
namespace Bf
open Spec Cli

variable {E : Env} {chain : Chain} {thr : Nat → BitVec 32} {img : List Insn} {w w' : World} {r : BitVec 64}
  {m : Matcher}

/-- A component of an element is the field of the operation if and only if its text describes the operation. -/
theorem sock_field_describes {env : TextEnv} {ty : MType} {buf : List Byte} {s : List Char} {p : List Byte} {i : List Byte} {x : List Byte} (hb : i.length = 72)
    (hs : Fits ty .in_ s) (hp : parsePayload env ty .in_ buf s = .ok p) (hlen : p.length = ty.refSize .in_) (hsz : ty.refSize .in_ ≠ 0)
    (hnet : ty ∉ netTypes) (hx : HasSockField i ty x) (hpr : ty = .ip4Proto → host i 36 4 < 256) : x = p ↔ SockDescribes i ty .in_ s := by
  have hM := C46_says_partial hs.ordinary hs.room hs.suffix hp
  have port : p.length = 2 → sockFieldSpec ty = some (24, 2) → Numeral 10 s (Spec.beNat (p.take 2)) → (x = p ↔ ∃ b, HasSockField i ty b ∧ Numeral 10 s (Spec.beNat b)) := by
    intro hq hfs hs
    rw [List.take_of_length_le (by omega)] at hs
    have hl := HasSockField.length hb hx hfs
    constructor
    · rintro rfl; exact ⟨_, hx, hs⟩
    · rintro ⟨b, hb', h⟩
      rw [← HasSockField.unique hx hb'] at h
      exact beNat_inj (by omega) (numeral_unique (by omega) h hs)
  have ip4 : p.length = 4 → Addr4 s ((p.take 4).map BitVec.toNat) → (x = p ↔ ∃ b, HasSockField i ty b ∧ Addr4 s (b.map BitVec.toNat)) := by
    intro hq hM
    rw [List.take_of_length_le (by omega)] at hM
    constructor
    · rintro rfl; exact ⟨_, hx, hM⟩
    · rintro ⟨b, hb, h⟩
      rw [HasSockField.unique hx hb]
      exact map_toNat_inj (addr4_unique h hM)
  have ip6 : p.length = 16 → (∃ ws, Addr6 s ws ∧ (p.take 16).map BitVec.toNat = bytesOf ws) →
      (x = p ↔ ∃ b ws, HasSockField i ty b ∧ Addr6 s ws ∧ b.map BitVec.toNat = bytesOf ws) := by
    intro hq hM
    obtain ⟨ws, h1, h2⟩ := hM
    rw [List.take_of_length_le (by omega)] at h2
    constructor
    · rintro rfl; exact ⟨_, ws, hx, h1, h2⟩
    · rintro ⟨b, ws', hb, h1', h2'⟩
      rw [HasSockField.unique hx hb]
      cases addr6_unique h1 h1'
      exact map_toNat_inj (h2'.trans h2.symm)
  cases ty
  case ip4Saddr => exact ip4 hlen hM
  case ip4Daddr => exact ip4 hlen hM
  case ip6Saddr => exact ip6 hlen hM
  case ip6Daddr => exact ip6 hlen hM
  case tcpDport => exact port hlen rfl hM
  case udpDport => exact port hlen rfl hM
  case ip4Proto =>
    have hM : NamedBy (fun x n => Doc.ipproto n = some x) 255 s (host p 0 1) := hM
    have hpr := hpr rfl
    obtain ⟨hsi, o, n, h1, h2⟩ := hx
    cases h1
    have hxe : x = [BitVec.ofNat 8 (host i 36 4)] := by
      rw [← h2, ← sockField_eq hb (t := .ip4Proto) rfl]
      rfl
    subst hxe
    clear h2
    match p, hlen with
    | [y], _ =>
      have hy : host [y] 0 1 = y.toNat := by simp [host, leNat]
      rw [hy] at hM
      have he : [BitVec.ofNat 8 (host i 36 4)] = [y] ↔ host i 36 4 = y.toNat := by
        rw [List.cons.injEq, ← BitVec.toNat_inj, BitVec.toNat_ofNat, Nat.mod_eq_of_lt (by omega)]
        simp
      rw [he]
      unfold SockDescribes; dsimp only
      exact ⟨fun h => ⟨hsi, by rw [h]; exact hM⟩, fun h => named_unique C38_understood.2.2.2.2.2.2.2.1 (by decide) h.2 hM⟩
  all_goals first
    | exact absurd rfl hsz
    | (exfalso; revert hnet; decide)
    | (exfalso; obtain ⟨_, _, _, h, _⟩ := hx; cases h)

/-- A network contains the address of the operation if and only if its text describes the operation. -/
theorem sock_net_describes {env : TextEnv} {ty : MType} {buf : List Byte} {s : List Char} {p : List Byte} {i : List Byte} {x : List Byte}
    (hs : Fits ty .in_ s) (hp : parsePayload env ty .in_ buf s = .ok p) (hlen : p.length = ty.refSize .in_)
    (hnet : ty ∈ netTypes) (hx : HasSockField i ty x) : InNetwork x (p.drop 4) (host p 0 4) ↔ SockDescribes i ty .in_ s := by
  have hM := C46_says_partial hs.ordinary hs.room hs.suffix hp
  have n4 : p.length = 8 → NetText Addr4 32 s (((p.drop 4).take 4).map BitVec.toNat) (host p 0 4) →
      (InNetwork x (p.drop 4) (host p 0 4) ↔ ∃ b net len, HasSockField i ty b ∧ NetText Addr4 32 s (net.map BitVec.toNat) len ∧ SameBits b net len) := by
    intro hq hM
    rw [List.take_of_length_le (by rw [List.length_drop, hq]; decide)] at hM
    constructor
    · intro h; exact ⟨_, _, _, hx, hM, h⟩
    · rintro ⟨b, net, len, hb, h1, h2⟩
      obtain ⟨e1, rfl⟩ := net_unique (addr := Addr4) (fun h h' => addr4_unique h h') (fun h => (addr4_starts [] h).2.2) hM h1
      rw [map_toNat_inj e1, HasSockField.unique hx hb]
      exact h2
  have n6 : (∃ ws, NetText Addr6 128 s ws (host p 0 4) ∧ ((p.drop 4).take 16).map BitVec.toNat = bytesOf ws) →
      (InNetwork x (p.drop 4) (host p 0 4) ↔ ∃ b net ws len, HasSockField i ty b ∧ NetText Addr6 128 s ws len ∧ net.map BitVec.toNat = bytesOf ws ∧ SameBits b net len) := by
    rintro ⟨ws, hM, hb⟩
    have h128 : host p 0 4 ≤ 128 := by obtain ⟨_, _, _, _, _, h⟩ := hM; exact h
    constructor
    · intro h; exact ⟨_, _, _, _, hx, hM, hb, (sameBits_take h128).mpr h⟩
    · rintro ⟨b, net, ws', len, hb', h1, h2, h3⟩
      obtain ⟨rfl, rfl⟩ := net_unique (addr := Addr6) (fun h h' => addr6_unique h h') (fun h => (addr6_starts [] h).2.2) hM h1
      have := map_toNat_inj (h2.trans hb.symm)
      rw [HasSockField.unique hx hb']
      exact (sameBits_take h128).mp (this ▸ h3)
  cases ty
  case ip4Snet => exact n4 hlen hM
  case ip4Dnet => exact n4 hlen hM
  case ip6Snet => exact n6 hM
  case ip6Dnet => exact n6 hM
  all_goals (exfalso; revert hnet; decide)

theorem sock_field_size {ty : MType} {i : List Byte} (hb : i.length = 72) (hsz : ty.refSize .in_ ≠ 0) (hn : ty ∉ netTypes) {x : List Byte} (hx : HasSockField i ty x) :
    x.length = ty.refSize .in_ := by
  cases ty
  all_goals first
    | exact absurd rfl hsz
    | exact HasSockField.length hb hx rfl
    | (exfalso; revert hn; decide)
    | (exfalso; obtain ⟨_, _, _, h, _⟩ := hx; cases h)

theorem sock_elem_describes {env : TextEnv} {i : List Byte} (hb : i.length = 72) : ∀ {key : List MType} {ps : List (List Char)} {comps : List (MType × List Byte)} {b : List Byte},
    comps.map (·.1) = key → Each (CompOf env) ps comps → Each (fun s ty => Fits ty .in_ (trim s)) ps key → (∀ ty ∈ key, ty.refSize .in_ ≠ 0) →
    (∀ ty ∈ key, ty ∉ netTypes) → HasSockKey i key b → (.ip4Proto ∈ key → host i 36 4 < 256) →
    (b = (comps.map (·.2)).flatten ↔ Each (fun p ty => SockDescribes i ty .in_ (trim p)) ps key)
  | [], ps, comps, b, hc, he, hf, _, _, hk, _ => by
    cases hf
    cases he
    cases hk
    exact ⟨fun _ => .nil, fun _ => rfl⟩
  | ty :: key, ps, comps, b, hc, he, hf, hsz, hn, hk, hpr => by
    cases hf with
    | @cons p _ ps _ hf1 hf2 =>
    cases he with
    | @cons _ c _ comps he1 he2 =>
    obtain ⟨cty, bytes⟩ := c
    simp only [List.map_cons, List.cons.injEq] at hc
    obtain ⟨rfl, hc⟩ := hc
    obtain ⟨x, y, rfl, hx, hy⟩ := hk
    obtain ⟨hl, buf, _, hp⟩ := he1
    have h1 := sock_field_describes hb hf1 hp hl (hsz _ List.mem_cons_self) (hn _ List.mem_cons_self) hx (fun e => hpr (by rw [e]; exact List.mem_cons_self))
    have h2 := sock_elem_describes hb hc he2 hf2 (fun t h => hsz t (List.mem_cons_of_mem _ h)) (fun t h => hn t (List.mem_cons_of_mem _ h)) hy (fun h => hpr (List.mem_cons_of_mem _ h))
    have hxl := sock_field_size hb (hsz _ List.mem_cons_self) (hn _ List.mem_cons_self) hx
    simp only [List.map_cons, List.flatten_cons]
    rw [Each.cons_iff]
    constructor
    · intro h
      obtain ⟨e1, e2⟩ := List.append_inj h (by rw [hxl]; exact hl.symm)
      exact ⟨_, _, rfl, h1.mp e1, h2.mp e2⟩
    · rintro ⟨_, _, e, g1, g2⟩
      cases e
      rw [h1.mpr g1, h2.mpr g2]

theorem sockConcerns_in {i : List Byte} {ty : MType} (h : ty.refSize .in_ ≠ 0) : SockConcerns i ty ↔ ∃ b, HasSockField i ty b := by
  cases ty
  all_goals first
    | exact absurd rfl h
    | exact Iff.rfl

/-- What a socket hook offers and can be in a key is a field of the operation. -/
theorem offers_field {h : Hook} (hf : h.flavor = .sockAddr) {t : MType} (ht : t ∈ offers h) (hsz : t.refSize .in_ ≠ 0) : (sockFieldSpec t).isSome := by
  revert ht hsz
  cases h <;> first | (exfalso; revert hf; decide) | (cases t <;> decide)

theorem hasSockKey_exists {i : List Byte} {key : List MType} (h : ∀ ty ∈ key, ∃ b, HasSockField i ty b) : ∃ b, HasSockKey i key b := by
  induction key with
  | nil => exact ⟨[], rfl⟩
  | cons t ts ih =>
    obtain ⟨x, hx⟩ := h t List.mem_cons_self
    obtain ⟨y, hy⟩ := ih fun t h' => h t (List.mem_cons_of_mem _ h')
    exact ⟨_, x, y, rfl, hx, hy⟩

theorem hasSockKey_fields {i : List Byte} {key : List MType} {b : List Byte} (h : HasSockKey i key b) : ∀ ty ∈ key, ∃ b, HasSockField i ty b := by
  induction key generalizing b with
  | nil => intro t h; cases h
  | cons t ts ih =>
    obtain ⟨x, y, _, hx, hy⟩ := h
    intro t' h'
    rcases List.mem_cons.mp h' with rfl | h'
    · exact ⟨x, hx⟩
    · exact ih hy t' h'

/-- A matcher on a set matches the operations its elements describe. -/
theorem sock_hits_set {env : TextEnv} {k payload : List Char} {name : Option String} {neg : Bool} {s : BSet} {c : Sem} (hl : IsLoaded E chain thr img) (hc : Sees E chain thr c)
    (hf : chain.hook.flavor = .sockAddr) (hs : RefersTo chain m s) (hneg : m.negate = neg)
    (hsay : SetSays env name k payload s) {k' : List Char} (hfit : SetFits k' neg payload) (hk' : KeyOf k' s.key)
    (hfs : ∀ t ∈ s.key, (sockFieldSpec t).isSome) (hpr : .ip4Proto ∈ s.key → host E.sock 36 4 < 256) :
    Hits c m w ↔ ∃ key, KeyOf k' key ∧ (∀ ty ∈ key, SockConcerns E.sock ty) ∧ (SockInElements E.sock key payload ↔ neg = false) := by
  obtain ⟨_, hk, hsk, es, hes, _, hel⟩ := hsay
  have hone : (∃ key, KeyOf k' key ∧ (∀ ty ∈ key, SockConcerns E.sock ty) ∧ (SockInElements E.sock key payload ↔ neg = false)) ↔
      (∀ ty ∈ s.key, SockConcerns E.sock ty) ∧ (SockInElements E.sock s.key payload ↔ neg = false) := by
    constructor
    · rintro ⟨key, h1, h2⟩
      cases keyOf_unique hk' h1
      exact h2
    · intro h; exact ⟨_, hk', h⟩
  rw [hone]
  have hfits := hfit.elems _ hk'
  by_cases hnet : ∀ t ∈ s.key, t ∉ netTypes
  · rw [C40_member hl hc hf hs hfs hnet, hneg]
    have key : ∀ b, HasSockKey E.sock s.key b → (b ∈ s.elems ↔ SockInElements E.sock s.key payload) := by
      intro b hb
      rw [hel]
      constructor
      · intro h
        obtain ⟨t, ht, comps, h1, rfl, h3⟩ := each_mem hes h
        exact ⟨t, ht, (sock_elem_describes (hl.env.sock hf).size h1 h3 (hfits t ht) hsk.1 hnet hb hpr).mp rfl⟩
      · rintro ⟨t, ht, hd⟩
        obtain ⟨e, he, comps, h1, rfl, h3⟩ := each_mem' hes ht
        rw [(sock_elem_describes (hl.env.sock hf).size h1 h3 (hfits t ht) hsk.1 hnet hb hpr).mpr hd]
        exact he
    constructor
    · rintro ⟨b, hb, h⟩
      exact ⟨fun ty ht => (sockConcerns_in (hsk.1 ty ht)).mpr (hasSockKey_fields hb ty ht), (key b hb).symm.trans h⟩
    · rintro ⟨h1, h2⟩
      obtain ⟨b, hb⟩ := hasSockKey_exists fun ty ht => (sockConcerns_in (hsk.1 ty ht)).mp (h1 ty ht)
      exact ⟨b, hb, (key b hb).trans h2⟩
  · have : ∃ t ∈ s.key, t ∈ netTypes := Classical.byContradiction fun h => hnet fun t ht hn => h ⟨t, ht, hn⟩
    obtain ⟨t, ht, hn⟩ := this
    have hisnet : t.isNet = true := by revert hn; cases t <;> decide
    have hkey : s.key = [t] := by
      have h1 : ¬ 1 < s.key.length := fun h => by
        have := hsk.2 h t ht
        rw [hisnet] at this
        cases this
      match hkk : s.key, ht, h1 with
      | [a], ht, _ => rw [List.mem_singleton.mp ht]
      | a :: b :: l, _, h1 => exact absurd (by simp) h1
    rw [C40_set_networks hl hc hf hs hkey hn, hneg]
    have key : ∀ b, HasSockField E.sock t b →
        ((∃ e ∈ s.elems, InNetwork b (e.drop 4) (host e 0 4)) ↔ SockInElements E.sock s.key payload) := by
      intro b hb
      have comp : ∀ {x : List Char} {e : List Byte}, x ∈ elemTexts payload → ElemOf env s.key x e →
          (InNetwork b (e.drop 4) (host e 0 4) ↔ Each (fun p ty => SockDescribes E.sock ty .in_ (trim p)) (tokens (· = ',') x) s.key) := by
        intro x e hx he
        obtain ⟨comps, h1, h2, h3⟩ := he
        have hfx := hfits x hx
        rw [hkey] at h1 hfx ⊢
        generalize tokens (· = ',') x = ps at h3 hfx ⊢
        cases hfx with
        | @cons p _ _ _ hf1 hf2 =>
        cases hf2
        cases h3 with
        | @cons _ c _ _ g1 g2 =>
        cases g2
        obtain ⟨cty, bytes⟩ := c
        simp only [List.map_cons, List.map_nil, List.cons.injEq, and_true] at h1
        subst h1
        simp only [List.map_cons, List.map_nil, List.flatten_cons, List.flatten_nil, List.append_nil] at h2
        subst h2
        obtain ⟨hlen, buf, _, hp⟩ := g1
        have := sock_net_describes hf1 hp hlen hn hb
        rw [this, Each.cons_iff]
        constructor
        · intro h; exact ⟨_, _, rfl, h, .nil⟩
        · rintro ⟨_, _, e, h, _⟩; cases e; exact h
      constructor
      · rintro ⟨e, he, h⟩
        obtain ⟨x, hx, hxe⟩ := each_mem hes ((hel e).mp he)
        exact ⟨x, hx, (comp hx hxe).mp h⟩
      · rintro ⟨x, hx, h⟩
        obtain ⟨e, he, hxe⟩ := each_mem' hes hx
        exact ⟨e, (hel e).mpr he, (comp hx hxe).mpr h⟩
    constructor
    · rintro ⟨b, hb, h⟩
      refine ⟨fun ty ht' => (sockConcerns_in (hsk.1 ty ht')).mpr ?_, (key b hb).symm.trans h⟩
      rw [hkey] at ht'
      rw [List.mem_singleton.mp ht']
      exact ⟨b, hb⟩
    · rintro ⟨h1, h2⟩
      obtain ⟨b, hb⟩ := (sockConcerns_in (hsk.1 t ht)).mp (h1 t ht)
      exact ⟨b, hb, (key b hb).trans h2⟩

/-- A matcher of the chain matches the operations the matcher of the text selects. -/
theorem sock_hits_says {env : TextEnv} {decls : List SetS} {sm : MatcherS} {q : Rule} {c : Sem} (hl : IsLoaded E chain thr img) (hc : Sees E chain thr c)
    (hf : chain.hook.flavor = .sockAddr) (hq : q ∈ chain.rules) (hm : m ∈ q.matchers) (hd : SetsAre env decls chain.sets) (hsay : MatcherSays env chain.sets sm m)
    (hsc : SockInScope E.sock decls sm) : Hits c m w ↔ SockSelects E.sock decls sm := by
  have hw := hl.matchers q hq m hm
  have offered : m.type = .set → ∀ x : BSet, chain.sets[host m.payload 0 4]? = some x → (∀ t ∈ x.key, t.refSize .in_ ≠ 0) → ∀ t ∈ x.key, (sockFieldSpec t).isSome := by
    intro ht x hx hsz t htk
    obtain ⟨x', h1, h2⟩ := ((C16_api hl.api).2 q hq).sets m hm ht
    have h1 : chain.sets[host m.payload 0 4]? = some x' := h1
    rw [hx] at h1
    cases h1
    exact offers_field hf (h2 t htk) (hsz t htk)
  cases sm with
  | plain t neg op p =>
    obtain ⟨h1, h2, h3, h4, buf, h5, h6⟩ := hsay
    obtain ⟨hfit, hty⟩ := hsc _ _ h1 h2
    have hm : matcherNewFromRaw env m.type m.op buf p neg = .ok m := by
      unfold matcherNewFromRaw
      rw [List.take_of_length_le (by omega), h6, ← h3]
    rw [C48_sock_partial hm hfit hl hc hw hf hty]
    constructor
    · intro h; exact ⟨_, _, h1, h2, h⟩
    · rintro ⟨ty, o, e1, e2, h⟩
      cases doc_matcher_inj (h1.symm.trans e1)
      cases opSays_unique h2 e2
      exact h
  | inline k neg op p =>
    obtain ⟨_, h1, _, h3, i, x, h4, h5, h6⟩ := hsay
    have hx : chain.sets[host m.payload 0 4]? = some x := by rw [← rd_host h4]; exact h5
    exact sock_hits_set hl hc hf ⟨h1, hx⟩ h3 h6 hsc.1 h6.2.1 (offered h1 x hx h6.2.2.1.1) (hsc.2 _ h6.2.1)
  | named k neg op n =>
    obtain ⟨_, h1, _, h3, i, x, h4, h5, h6, h7, h8⟩ := hsay
    have hx : chain.sets[host m.payload 0 4]? = some x := by rw [← rd_host h4]; exact h5
    obtain ⟨d, hd1, hd2⟩ := named_first hd h5 h6 h8
    rw [sock_hits_set hl hc hf ⟨h1, hx⟩ h3 hd2 (hsc d hd1).1 h7 (offered h1 x hx hd2.2.2.1.1) ((hsc d hd1).2 _ h7)]
    constructor
    · rintro ⟨key, h9, h10⟩; exact ⟨key, d, h9, hd1, h10⟩
    · rintro ⟨key, d', h9, hd', h10⟩
      cases firstNamed_unique hd1 hd'
      exact ⟨key, h9, h10⟩

theorem sockInScope_notEmpty {i : List Byte} {decls : List SetS} {sm : MatcherS} (h : SockInScope i decls sm) : NotEmpty decls sm := by
  cases sm with
  | plain => trivial
  | inline => exact h.1.some
  | named => exact fun d hd => (h d hd).1.some

/-- What a text says of a chain of a socket hook is what its program does. -/
theorem sock_decides_says {env : TextEnv} {rate : List Char → Option Nat} {s : ChainS} (hd : SetsAre env s.sets chain.sets) (hrules : Each (RuleSays env rate chain.sets) s.rules chain.rules)
    (hpolicy : s.policy = (Doc.verdict chain.policy).toList) (hterminal : chain.policy = .accept ∨ chain.policy = .drop ∨ chain.policy = .next)
    (hvt : ∀ sr ∈ s.rules, VerdictText sr.verdict) (hb : ∀ q ∈ chain.rules, q.disabled = true → Inert chain.sets q)
    (hl : IsLoaded E chain thr img) (hf : chain.hook.flavor = .sockAddr) (hr : Runs E img w r w')
    (hsc : ∀ sr ∈ s.rules, ∀ m ∈ sr.matchers, SockInScope E.sock s.sets m) :
    ∃ v, SockRules E.sock s.sets s.policy w.mark.toNat s.rules v ∧ Obeys env E chain.hook.flavor r v :=
  decides_gen hd hrules hpolicy hterminal hvt hb hl
    (fun _ hc sr hsr _ hq sm hsm _ hm h _ => sock_hits_says hl hc hf hq hm hd h (hsc sr hsr sm hsm)) hr (fun hu => hu.1 hf)
    fun sr hsr m hm => sockInScope_notEmpty (hsc sr hsr m hm)

/-- **C49**, for `connect` and `sendmsg` hooks.  A text is read as chains, one of them is loaded and sees a socket operation: what the program returns is the verdict the text says. -/
theorem C49_sockets_partial {e : PEnv} {text : List Char} {cs : List ChainS} {rs : List (Chain × Option HookOpts)} (hw : Writes text cs)
    (hp : bfcParse e text = some (.ok rs)) {k : Nat} {s : ChainS} {o : Option HookOpts} (hs : cs[k]? = some s) (hk : rs[k]? = some (chain, o))
    (hl : IsLoaded E chain thr img) (hf : chain.hook.flavor = .sockAddr) (hr : Runs E img w r w')
    (hsc : ∀ sr ∈ s.rules, ∀ m ∈ sr.matchers, SockInScope E.sock s.sets m) (hn : ∀ c ∈ rs, c.1.sets.length ≤ 4294967296) :
    ∃ v, SockRules E.sock s.sets s.policy w.mark.toNat s.rules v ∧ Obeys e.text E chain.hook.flavor r v := by
  obtain ⟨b, hb1, hsay⟩ := each_get (C45_read hw hp hn) hs
  rw [hk] at hb1
  cases hb1
  have hb := bfcParse_built hp _ (List.mem_of_getElem? hk)
  have hd : SetsAre e.text s.sets chain.sets := by
    obtain ⟨decl, inl, e1, e2, _, e3⟩ := hsay.sets
    refine ⟨decl, inl, e1, e2, fun x hx => ?_⟩
    obtain ⟨_, _, h⟩ := each_mem e3 hx
    exact h.1
  exact sock_decides_says hd hsay.rules hsay.policy hsay.terminal (fun sr hsr => ((hw.2.1 s (List.mem_of_getElem? hs)).rules sr hsr).verdict)
    (fun q hq h => (C15_disabled_iff hb q hq).mp h) hl hf hr hsc

/-- **C49**, for `connect` and `sendmsg` hooks.  A chain of a text that was accepted has a program that, whatever the operation, ends and does what the text says: every
verdict the text can be said to give is the one that is returned, and there is one. -/
theorem C49_sockets_program_partial {e : PEnv} {text : List Char} {cs : List ChainS} {rs : List (Chain × Option HookOpts)} (hw : Writes text cs)
    (hp : bfcParse e text = some (.ok rs)) {k : Nat} {s : ChainS} {o : Option HookOpts} (hs : cs[k]? = some s) (hk : rs[k]? = some (chain, o))
    {slen : Stub → Nat} (hm : Modest s chain.hook slen) (hn : ∀ c ∈ rs, c.1.sets.length ≤ 4294967296) (hf : chain.hook.flavor = .sockAddr) (thr : Nat → BitVec 32) :
    ∃ img, compile chain thr slen stdFds = .ok img ∧ ∀ base w, SockAbi base.sock → ∃ r w', Runs (envOf base chain) img w r w' ∧
      ((∀ sr ∈ s.rules, ∀ m ∈ sr.matchers, SockInScope base.sock s.sets m) →
        (∃ v, SockRules base.sock s.sets s.policy w.mark.toNat s.rules v) ∧
        ∀ v, SockRules base.sock s.sets s.policy w.mark.toNat s.rules v → Obeys e.text base chain.hook.flavor r v) := by
  obtain ⟨img, hi, hl⟩ := C49_loads hw hp hs hk hm hn thr
  refine ⟨img, hi, fun base w hb => ?_⟩
  have hl := hl base fun _ => hb
  obtain ⟨r, w', hr⟩ := C01_returns hl w
  refine ⟨r, w', hr, fun hsc => ?_⟩
  obtain ⟨v, h1, h2⟩ := C49_sockets_partial hw hp hs hk hl hf hr hsc hn
  refine ⟨⟨v, h1⟩, fun v' h' => ?_⟩
  rw [rulesBy_one h' h1]
  exact h2

end Bf
