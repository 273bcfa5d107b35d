import Verif.Spec.RawLemmas
/-!
# Specification: IPv6 extension headers, from RFC 8200, RFC 4302 (AH) and RFC 6275 (mobility)
-/
namespace Bf.Spec

/-- Length of an extension header of type `nh` whose second byte is `hl`: RFC 8200 §4.3, §4.4, §4.6 (in units of
8 bytes, not counting the first 8), §4.5 (a fragment header is 8 bytes long), RFC 4302 §2.2 (authentication: in
units of 4 bytes, minus 2), RFC 6275 §6.1.1.  `none`: not an extension header. -/
def rfcLen (nh hl : Byte) : Option Nat :=
  match nh.toNat with
  | 0 | 43 | 60 | 135 => some (8 * (hl.toNat + 1))
  | 44 => some 8
  | 51 => some (4 * (hl.toNat + 2))
  | _ => none

/-- The chain of extension headers: from a header of type `nh` at offset `off`, through the extension headers
`hs` (type and offset), to the first header that is not one, of type `up`, at offset `uoff`.  There is no limit
on their number. -/
inductive Exts (pkt : List Byte) : Byte → Nat → List (Byte × Nat) → Byte → Nat → Prop
  | done {nh off} : rfcLen nh 0 = none → Exts pkt nh off [] nh off
  | ext {nh off len hs up uoff} : off + 2 ≤ pkt.length → rfcLen nh (byteAt pkt (off + 1)) = some len →
      Exts pkt (byteAt pkt off) (off + len) hs up uoff → Exts pkt nh off ((nh, off) :: hs) up uoff

/-- The chains of extension headers bpfilter goes through as RFC 8200 says: at most 6 headers, the first one a
hop-by-hop, destination options or mobility header, and the reserved byte of fragment headers zero (as RFC 8200
§4.5 asks senders to do, and receivers to ignore). -/
def Usual (pkt : List Byte) (hs : List (Byte × Nat)) : Prop :=
  hs.length ≤ 6 ∧ (∀ h ∈ hs.head?, h.1.toNat ∈ [0, 60, 135]) ∧ ∀ h ∈ hs, h.1.toNat = 44 → byteAt pkt (h.2 + 1) = 0

theorem rfcLen_none (nh hl hl' : Byte) : rfcLen nh hl = none ↔ rfcLen nh hl' = none := by
  unfold rfcLen
  split <;> simp

theorem rfcLen_ext6 {nh hl : Byte} (h : nh.toNat = 44 → hl = 0) : rfcLen nh hl = ext6Len nh hl := by
  unfold rfcLen ext6Len
  split <;> first | (simp_all; done) | (simp_all; omega)

theorem ext6_none {nh hl hl' : Byte} (h : rfcLen nh hl' = none) : ext6Len nh hl = none := by
  have hn : nh.toNat ≠ 44 := by
    intro e
    unfold rfcLen at h
    rw [e] at h
    cases h
  rw [← rfcLen_ext6 (fun e => absurd e hn)]
  exact (rfcLen_none nh hl' hl).mp h

theorem Exts.leads {pkt : List Byte} {nh up : Byte} {off uoff : Nat} {hs : List (Byte × Nat)} (h : Exts pkt nh off hs up uoff)
    (hr : ∀ h ∈ hs, h.1.toNat = 44 → byteAt pkt (h.2 + 1) = 0) : ∀ k, hs.length ≤ k → Leads pkt k nh off up uoff := by
  induction h with
  | done _ => intro k _; exact .here
  | @ext nh off len hs up uoff h1 h2 h3 ih =>
    intro k hk
    cases k with
    | zero => simp at hk
    | succ k =>
      refine .ext h1 ?_ (ih (fun x hx => hr x (List.mem_cons_of_mem _ hx)) k (by simpa using hk))
      rw [← rfcLen_ext6 (hr (nh, off) (by simp))]
      exact h2

theorem Exts.leads_unique {pkt : List Byte} {nh up up' : Byte} {off uoff uoff' k : Nat} {hs : List (Byte × Nat)}
    (h : Leads pkt k nh off up' uoff') (hn : rfcLen up' 0 = none) (e : Exts pkt nh off hs up uoff)
    (hr : ∀ h ∈ hs, h.1.toNat = 44 → byteAt pkt (h.2 + 1) = 0) : up' = up ∧ uoff' = uoff := by
  induction h generalizing hs with
  | here =>
    cases e with
    | done _ => exact ⟨rfl, rfl⟩
    | ext _ h2 _ => rw [(rfcLen_none _ _ _).mp hn] at h2; cases h2
  | @ext k nh off len up' uoff' h1 h2 h3 ih =>
    cases e with
    | done hd => rw [ext6_none hd] at h2; cases h2
    | @ext _ _ len' hs _ _ g1 g2 g3 =>
      rw [rfcLen_ext6 (hr (nh, off) (by simp)), h2] at g2
      cases g2
      exact ih hn g3 (fun x hx => hr x (List.mem_cons_of_mem _ hx))

theorem Trans.rfcLen (t : Trans) : rfcLen (BitVec.ofNat 8 t.num) 0 = none := by cases t <;> decide

/-- Where bpfilter finds the transport header of an IPv6 packet is where RFC 8200 puts it. -/
theorem transAt_rfc {i : Input} {o uoff off : Nat} {hs : List (Byte × Nat)} {up : Byte} {t : Trans} (h : NetAt i .ip6 o)
    (e : Exts i.bytes (byteAt i.bytes (o + 6)) (o + 40) hs up uoff) (hu : Usual i.bytes hs) :
    TransAt i t off ↔ up.toNat = t.num ∧ off = uoff := by
  obtain ⟨u1, u2, u3⟩ := hu
  constructor
  · rintro (⟨a, h1, _⟩ | ⟨a, h1, h2⟩)
    · have := (h.unique h1).1; cases this
    · obtain ⟨_, rfl⟩ := h.unique h1
      rcases h2 with ⟨h2, rfl⟩ | ⟨_, h2⟩
      · have hb := num_byte.mp h2
        rw [hb] at e
        have := Exts.leads_unique (k := 0) .here t.rfcLen e u3
        exact ⟨by rw [← this.1]; exact num_byte.mpr rfl, this.2⟩
      · have := Exts.leads_unique h2 t.rfcLen e u3
        exact ⟨by rw [← this.1]; exact num_byte.mpr rfl, this.2⟩
  · rintro ⟨h1, rfl⟩
    refine Or.inr ⟨o, h, ?_⟩
    have hup := num_byte.mp h1
    cases e with
    | done _ => exact Or.inl ⟨h1, rfl⟩
    | @ext _ _ len hs _ _ g1 g2 g3 =>
      refine Or.inr ⟨u2 (byteAt i.bytes (o + 6), o + 40) rfl, ?_⟩
      rw [← hup]
      exact Exts.leads (.ext g1 g2 g3) u3 6 u1

/-! ### Recording the extension headers or not -/

/-- Walking with and without recording differ only where the packet ends. -/
theorem walk_rec (pkt : List Byte) (k : Nat) (nh : Byte) (off : Nat) (seen : List Byte) :
    walk pkt true k nh off seen = walk pkt false k nh off seen ∨
    ((walk pkt false k nh off seen).1 = 0 ∧ (walk pkt true k nh off seen).2 = (walk pkt false k nh off seen).2 ∧
      pkt.length < (walk pkt true k nh off seen).2.1 + 2) := by
  induction k generalizing nh off seen with
  | zero => exact Or.inl rfl
  | succ k ih =>
    unfold walk
    cases hb : bytesAt pkt off 2 with
    | none =>
      refine Or.inr ⟨by simp, rfl, ?_⟩
      unfold bytesAt at hb
      split at hb
      · cases hb
      · simp only; omega
    | some b =>
      simp only
      cases he : extLen nh (byteAt b 1) with
      | none => exact Or.inl rfl
      | some len => exact ih _ _ _

theorem walk_leads_true {pkt : List Byte} {k : Nat} {nh : Byte} {off : Nat} {seen : List Byte} {t : Trans}
    (h : (walk pkt true k nh off seen).1.toNat = t.num) :
    Leads pkt k nh off (BitVec.ofNat 8 t.num) (walk pkt true k nh off seen).2.1 := by
  induction k generalizing nh off seen with
  | zero =>
    rw [← num_byte.mp h]
    exact .here
  | succ k ih =>
    unfold walk at h ⊢
    cases hb : bytesAt pkt off 2 with
    | none =>
      rw [hb] at h
      simp only [if_true] at h ⊢
      rw [← num_byte.mp h]
      exact .here
    | some b =>
      rw [hb] at h
      simp only at h ⊢
      obtain ⟨hl, rfl⟩ := bytesAt_some.mp hb
      rw [byteAt_slice (by omega), byteAt_slice (by omega)] at h ⊢
      cases he : extLen nh (byteAt pkt (off + 1)) with
      | some len =>
        rw [he] at h
        exact .ext hl (by rw [ext6Len_eq, he]) (ih h)
      | none =>
        rw [he] at h
        simp only at h ⊢
        rw [← num_byte.mp h]
        exact .here

/-- A chain that records the extension headers and one that does not understand a packet in the same way, but
for a packet that ends where a transport header is announced after extension headers: the first can't read it. -/
theorem understand_rec {i : Input} {v : View} (h : understand i false = some v) :
    understand i true = some v ∨
    (understand i true = none ∧ v.l4 = none ∧ ∃ t off, TransAt i t off ∧ i.bytes.length < off + 2) := by
  unfold understand at h ⊢
  split at h
  case isFalse => cases h
  case isTrue hr =>
    rw [if_pos hr]
    have key : ∀ net o, (∀ n, net = some n → NetAt i n o) → parseNet i.bytes false net o = some v →
        parseNet i.bytes true net o = some v ∨
        (parseNet i.bytes true net o = none ∧ v.l4 = none ∧ ∃ t off, TransAt i t off ∧ i.bytes.length < off + 2) := by
      intro net o hn hp
      unfold parseNet at hp ⊢
      cases net with
      | none => exact Or.inl hp
      | some n =>
        simp only at hp ⊢
        cases hb : bytesAt i.bytes o n.hdrLen with
        | none => rw [hb] at hp; cases hp
        | some hdr =>
          rw [hb] at hp
          simp only [Option.bind_some] at hp ⊢
          cases n with
          | ip4 => exact Or.inl hp
          | ip6 =>
            unfold transportOf at hp ⊢
            simp only at hp ⊢
            split
            case isFalse hs => rw [if_neg hs] at hp; exact Or.inl hp
            case isTrue hs =>
              rw [if_pos hs] at hp
              rcases walk_rec i.bytes 6 (byteAt hdr 6) (o + 40) [] with e | ⟨e1, e2, e3⟩
              · rw [e]; exact Or.inl hp
              · unfold parseTrans at hp ⊢
                rw [e1] at hp
                have h0 : Trans.ofNum 0 = none := by decide
                rw [h0] at hp
                simp only [Option.some.injEq] at hp
                cases ht : Trans.ofNum (walk i.bytes true 6 (byteAt hdr 6) (o + 40) []).1 with
                | none =>
                  simp only
                  rw [e2]
                  exact Or.inl (by rw [hp])
                | some t =>
                  simp only
                  refine Or.inr ⟨?_, by rw [← hp], t, _, ?_, e3⟩
                  · unfold bytesAt
                    have := t.hdrLen_ge
                    rw [if_neg (by omega)]
                    rfl
                  · obtain ⟨hle, rfl⟩ := bytesAt_some.mp hb
                    rw [byteAt_slice (by decide)] at hs ht e3 ⊢
                    refine Or.inr ⟨o, hn _ rfl, Or.inr ⟨(startsExt_iff _).mp hs, ?_⟩⟩
                    have ht' := ofNum_iff.mp ht
                    clear hp e1 e2 h0
                    exact walk_leads_true ht'
    unfold parse at h ⊢
    cases hl : i.link with
    | network net =>
      rw [hl] at h
      simp only at h ⊢
      exact key net 0 (fun n hn => by unfold NetAt; rw [hl]; exact ⟨rfl, hn⟩) h
    | ethernet =>
      rw [hl] at h
      simp only at h ⊢
      cases hb : bytesAt i.bytes 0 14 with
      | none => rw [hb] at h; cases h
      | some eth =>
        rw [hb] at h
        simp only [Option.bind_some] at h ⊢
        refine key _ 14 (fun n hn => ?_) h
        unfold NetAt; rw [hl]
        refine ⟨rfl, ?_⟩
        obtain ⟨hle, rfl⟩ := bytesAt_some.mp hb
        have hs : (slice i.bytes 0 14).drop 12 = slice i.bytes 12 2 := by
          unfold slice; rw [List.drop_take]; simp
        rw [hs] at hn
        exact (wire_iff (by simp [slice]; omega) n).mp hn

/-- ... and the second always can. -/
theorem understand_plain {i : Input} {v : View} (h : understand i true = some v) : understand i false = some v := by
  cases hf : understand i false with
  | some u =>
    rcases understand_rec hf with e | ⟨e, _⟩ <;> rw [h] at e <;> cases e
    rfl
  | none =>
    exfalso
    unfold understand at h hf
    split at h
    case isFalse => cases h
    case isTrue hr =>
      rw [if_pos hr] at hf
      have key : ∀ net o, parseNet i.bytes true net o = some v → parseNet i.bytes false net o ≠ none := by
        intro net o hp hq
        unfold parseNet at hp hq
        cases net with
        | none => cases hq
        | some n =>
          simp only at hp hq
          cases hb : bytesAt i.bytes o n.hdrLen with
          | none => rw [hb] at hp; cases hp
          | some hdr =>
            rw [hb] at hp hq
            simp only [Option.bind_some] at hp hq
            cases n with
            | ip4 =>
              have e : transportOf i.bytes true .ip4 hdr o = transportOf i.bytes false .ip4 hdr o := rfl
              rw [e, hq] at hp
              cases hp
            | ip6 =>
              unfold transportOf at hp hq
              simp only at hp hq
              split at hp
              case isFalse hs => rw [if_neg hs, hp] at hq; cases hq
              case isTrue hs =>
                rw [if_pos hs] at hq
                rcases walk_rec i.bytes 6 (byteAt hdr 6) (o + 40) [] with e | ⟨e1, _, _⟩
                · rw [e, hq] at hp; cases hp
                · unfold parseTrans at hq
                  rw [e1] at hq
                  have h0 : Trans.ofNum 0 = none := by decide
                  rw [h0] at hq
                  cases hq
      unfold parse at h hf
      cases hl : i.link with
      | network net => rw [hl] at h hf; exact key _ _ h hf
      | ethernet =>
        rw [hl] at h hf
        simp only at h hf
        cases hb : bytesAt i.bytes 0 14 with
        | none => rw [hb] at h; cases h
        | some eth =>
          rw [hb] at h hf
          exact key _ _ h hf

end Bf.Spec
