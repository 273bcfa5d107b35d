import Verif.Exec.Swich
/-!
# Shape of the generated code

Every instruction carries the right kind of fixup, and every jump that does not go to the next rule
goes forward and stays within the code it was generated with.  Nothing here models code of the
repository.
-/
namespace Bf

/-- With `n` instructions after it, the instruction stays within the fragment. -/
def Item.fits (n : Nat) (i : Item) : Prop :=
  match i.fix with
  | some .nextRule => True
  | some (.stub _) => True
  | some _ => 1 ≤ n
  | none =>
    match i.insn with
    | .jmp _ _ _ _ o => o.toNat ≤ n ∧ o.toNat < 32768
    | .ja o => o.toNat ≤ n ∧ o.toNat < 32768
    | .ld64 _ _ => 1 ≤ n
    | .ldMap _ _ => False
    | .callRel _ => False
    | .stub _ => False
    | .stubPad => False
    | _ => True

/-- Well-formed fragment whose fixups satisfy `P`. -/
def Sta (P : FixTy → Prop) : List Item → Prop
  | [] => True
  | i :: x => TyOk i ∧ (∀ ty, i.fix = some ty → P ty) ∧ i.fits x.length ∧ Sta P x

theorem Item.fits_mono {n m : Nat} {i : Item} (h : i.fits n) (hnm : n ≤ m) : i.fits m := by
  obtain ⟨insn, fix⟩ := i
  cases fix with
  | some ty => cases ty <;> simp only [Item.fits] at h ⊢ <;> omega
  | none => cases insn <;> simp only [Item.fits] at h ⊢ <;> omega

theorem Sta.append {P : FixTy → Prop} {x y : List Item} (hx : Sta P x) (hy : Sta P y) :
    Sta P (x ++ y) := by
  induction x with
  | nil => exact hy
  | cons i is ih =>
    obtain ⟨h1, h2, h3, h4⟩ := hx
    exact ⟨h1, h2, Item.fits_mono h3 (by simp), ih h4⟩

theorem Sta.mono {P Q : FixTy → Prop} {x : List Item} (hx : Sta P x) (h : ∀ ty, P ty → Q ty) :
    Sta Q x := by
  induction x with
  | nil => trivial
  | cons i is ih =>
    obtain ⟨h1, h2, h3, h4⟩ := hx
    exact ⟨h1, fun ty e => h ty (h2 ty e), h3, ih h4⟩

theorem Sta.mem {P : FixTy → Prop} {x : List Item} (hx : Sta P x) {i : Item} (hi : i ∈ x) :
    TyOk i ∧ (∀ ty, i.fix = some ty → P ty) := by
  induction x with
  | nil => cases hi
  | cons j is ih =>
    obtain ⟨h1, h2, h3, h4⟩ := hx
    rcases List.mem_cons.mp hi with rfl | hi
    · exact ⟨h1, h2⟩
    · exact ih h4 hi

theorem Sta.at {P : FixTy → Prop} {x : List Item} (hx : Sta P x) {n : Nat} {i : Item}
    (hi : x[n]? = some i) : i.fits (x.length - n - 1) := by
  induction x generalizing n with
  | nil => simp at hi
  | cons j is ih =>
    obtain ⟨h1, h2, h3, h4⟩ := hx
    cases n with
    | zero => simp at hi; subst hi; simpa using h3
    | succ n =>
      have := ih h4 (by simpa using hi)
      simp only [List.length_cons]
      have e : is.length + 1 - (n + 1) - 1 = is.length - n - 1 := by omega
      rw [e]; exact this

/-- Fixups used outside the entry of the program. -/
def Inner (ty : FixTy) : Prop := ty ≠ .lmap ∧ ty ≠ .smap

/-- Resolving the next-rule jumps keeps the shape. -/
theorem Sta.resolveNext {P : FixTy → Prop} {x : List Item} (hx : Sta P x) (hn : NextOk x) :
    Sta (fun ty => P ty ∧ ty ≠ .nextRule) (Bf.resolveNext x) := by
  induction x with
  | nil => trivial
  | cons i is ih =>
    obtain ⟨h1, h2, h3, h4⟩ := hx
    obtain ⟨n1, n2⟩ := hn
    simp only [Bf.resolveNext]
    split
    · next hf =>
      obtain ⟨v, hv⟩ := n1 hf
      obtain ⟨_, hlt, _⟩ := fixOff_ok hv
      refine ⟨trivial, by simp, ?_, ih h4 n2⟩
      have e : (BitVec.ofNat 16 is.length).toNat = is.length := by
        simp only [BitVec.toNat_ofNat]; omega
      obtain ⟨insn, fix⟩ := i
      cases insn <;> first
        | (simp only [Insn.setOff, Item.fits, resolveNext_length]; omega)
        | cases hv
    · next hf =>
      refine ⟨h1, fun ty e => ⟨h2 ty e, ?_⟩, by simpa using h3, ih h4 n2⟩
      rintro rfl
      exact hf e

/-- A generator of well-formed code of at most `n` instructions. -/
structure GL {α : Type} (n : Nat) (g : Gen α) : Prop where
  gen : GenT g (fun _ x => Sta Inner x ∧ x.length ≤ n)

/-- A generator of well-formed code. -/
structure GS {α : Type} (g : Gen α) : Prop where
  gen : GenT g (fun _ x => Sta Inner x)

variable {α β : Type} {n k : Nat}

theorem GL.toGS {g : Gen α} (h : GL n g) : GS g := ⟨GenT.mono h.gen fun _ _ h => h.1⟩

theorem GL.le {g : Gen α} (h : GL n g) (hk : n ≤ k) : GL k g :=
  ⟨GenT.mono h.gen fun _ _ h => ⟨h.1, by omega⟩⟩

theorem GS.bind {g : Gen α} {f : α → Gen β} (hg : GS g) (hf : ∀ a, GS (f a)) : GS (g >>= f) :=
  ⟨GenT.then hg.gen fun a _ hy => GenT.mono (hf a).gen fun _ _ hz => hy.append hz⟩

theorem GL.bind {g : Gen α} {f : α → Gen β} (hg : GL n g) (hf : ∀ a, GL k (f a)) : GL (n + k) (g >>= f) :=
  ⟨GenT.then hg.gen fun a _ hy => GenT.mono (hf a).gen fun _ _ hz =>
    ⟨hy.1.append hz.1, by rw [List.length_append]; omega⟩⟩

theorem GL.pure (a : α) : GL 0 (Pure.pure a : Gen α) := ⟨.lastPure ⟨trivial, by simp⟩⟩
theorem GL.fail (e : Errno) : GL n (Bf.fail e : Gen α) := ⟨GenT.fail e _⟩
theorem GL.abort : GL n (Bf.abort : Gen α) := ⟨GenT.abort _⟩
theorem GL.lift (r : Res α) : GL 0 (Bf.lift r) :=
  ⟨(GenT.lift r).mono fun _ x hx => by rw [hx.2]; exact ⟨trivial, by simp⟩⟩

theorem GL.emits (is : List Insn) (h : Sta Inner (is.map it)) : GL is.length (Bf.emits is) :=
  ⟨.lastEmits ⟨h, by simp⟩⟩

theorem GL.emitsN {is : List Insn} (hn : is.length = n) (h : Sta Inner (is.map it)) : GL n (Bf.emits is) :=
  hn ▸ GL.emits is h

theorem GL.emit (i : Insn) (h : Sta Inner [it i]) : GL 1 (Bf.emit i) := ⟨.lastEmit ⟨h, by simp⟩⟩

theorem GL.next (i : Insn) : GL 1 (Bf.emitNext i) :=
  ⟨.lastNext ⟨⟨trivial, by intro ty h; simp at h; subst h; exact ⟨by simp, by simp⟩, trivial, trivial⟩, by simp⟩⟩

theorem GL.stub (id : Stub) : GL 1 (Bf.emitStub id) :=
  ⟨.lastStub ⟨⟨rfl, by intro ty h; simp at h; subst h; exact ⟨by simp, by simp⟩, trivial, trivial⟩, by simp⟩⟩

theorem GL.cmap (r : Reg) : GL 2 (Bf.emitMap .cmap r) :=
  ⟨(GenT.emitMap .cmap r).mono fun _ x hx => by
    subst hx
    exact ⟨⟨⟨r, rfl⟩, by intro ty h; simp at h; subst h; exact ⟨by simp, by simp⟩, by simp [Item.fits],
      trivial, by simp, trivial, trivial⟩, by simp⟩⟩

theorem GL.setMap (ix : Nat) (r : Reg) : GL 2 (Bf.emitMap (.setMap ix) r) :=
  ⟨(GenT.emitMap (.setMap ix) r).mono fun _ x hx => by
    subst hx
    exact ⟨⟨⟨r, rfl⟩, by intro ty h; simp at h; subst h; exact ⟨by simp, by simp⟩, by simp [Item.fits],
      trivial, by simp, trivial, trivial⟩, by simp⟩⟩

/-- A jump over a block. -/
theorem GL.jmp {w : Bool} {c : Cond} {d : Reg} {s : Src} {o : BitVec 16} {g : Gen Unit} (h : GL n g)
    (hn : n < 32768) : GL (n + 1) (Bf.withJmp (.jmp w c d s o) g) :=
  ⟨.lastJmp (GenT.mono h.gen fun _ y hy => by
    have e : (BitVec.ofNat 16 y.length).toNat = y.length := by
      simp only [BitVec.toNat_ofNat]; omega
    refine ⟨⟨trivial, by simp, ?_, hy.1⟩, by simp; omega⟩
    simp only [Insn.setOff, Item.fits]
    omega)⟩

theorem GL.jmpIns (m : Matcher) : GL 0 (Bf.jmpIns m) := by
  unfold Bf.jmpIns
  split
  · exact GL.pure _
  · exact GL.pure _
  · exact GL.pure _
  · exact GL.pure _
  · exact GL.abort

/-- Closes `Sta Inner` of a literal list. -/
macro "sta" : tactic =>
  `(tactic| simp [Sta, TyOk, Item.fits, movi, mov, mov32i, addi, imm64])

theorem GL.imm64 (d s : Reg) (v : BitVec 64) : GL 4 (Bf.emits (Bf.imm64 d s v)) :=
  GL.emitsN (by rfl) (by sta)

theorem GL.cmp128 (jop : Cond) (reg : Reg) (lo hi : BitVec 64) : GL 11 (Bf.cmp128 jop reg lo hi) := by
  unfold Bf.cmp128
  refine GL.bind (n := 4) (k := 7) (GL.imm64 ..) fun _ => ?_
  split
  · exact (GL.bind (GL.next _) fun _ => GL.bind (GL.imm64 ..) fun _ => GL.next _).le (by omega)
  · exact GL.jmp (GL.bind (n := 4) (k := 2) (GL.imm64 ..) fun _ => GL.jmp (GL.next _) (by omega)) (by omega)

theorem GL.cmpValue (m : Matcher) (ref : List Byte) (size : Nat) (reg : Reg) :
    GL 11 (Bf.cmpValue m ref size reg) := by
  unfold Bf.cmpValue
  split
  · exact GL.fail _
  refine GL.bind (n := 0) (k := 11) (GL.jmpIns m) fun _ => ?_
  split
  · exact (GL.bind (GL.lift _) fun _ => GL.next _).le (by omega)
  · exact (GL.bind (GL.lift _) fun _ => GL.next _).le (by omega)
  · exact (GL.bind (GL.lift _) fun _ => GL.bind (GL.emit _ (by sta)) fun _ => GL.next _).le (by omega)
  · exact (GL.bind (GL.lift _) fun _ => GL.bind (GL.imm64 ..) fun _ => GL.next _).le (by omega)
  · exact (GL.bind (GL.lift _) fun _ => GL.bind (GL.lift _) fun _ => GL.cmp128 ..).le (by omega)
  · exact GL.fail _

theorem GL.cmpMasked (m : Matcher) (ref : List Byte) (plen size : Nat) (reg : Reg) :
    GL 21 (Bf.cmpMasked m ref plen size reg) := by
  unfold Bf.cmpMasked
  split
  · exact GL.fail _
  refine GL.bind (n := 0) (k := 21) (GL.jmpIns m) fun _ => ?_
  split
  · refine GL.bind (n := 0) (k := 21) (GL.lift _) fun _ => ?_
    refine GL.bind (n := 0) (k := 21) (GL.lift _) fun _ => ?_
    refine GL.bind (n := 1) (k := 20) (GL.emit _ (by sta)) fun _ => ?_
    dsimp only
    split
    · exact (GL.bind (GL.emit _ (by sta)) fun _ => GL.bind (GL.emit _ (by sta)) fun _ =>
        GL.bind (GL.emit _ (by sta)) fun _ => GL.next _).le (by omega)
    · exact (GL.next _).le (by omega)
  · refine GL.bind (n := 0) (k := 21) (GL.lift _) fun _ => ?_
    dsimp only
    split
    · refine (GL.bind (GL.imm64 ..) fun _ => GL.bind (GL.emit _ (by sta)) fun _ =>
          GL.bind (GL.imm64 ..) fun _ => GL.bind (GL.emit _ (by sta)) fun _ => (?_ : GL 11 _)).le (by omega)
      split
      · exact GL.abort
      · exact GL.cmp128 ..
    · refine GL.le (n := 11) ?_ (by omega)
      split
      · exact GL.abort
      · exact GL.cmp128 ..
  · exact GL.fail _

theorem GL.cmpRange (m : Matcher) (lo hi : Nat) (reg : Reg) : GL 3 (Bf.cmpRange m lo hi reg) := by
  unfold Bf.cmpRange
  split
  · exact GL.jmp (GL.jmp (GL.next _) (by omega)) (by omega)
  · exact (GL.bind (GL.next _) fun _ => GL.next _).le (by omega)

theorem GL.cmpBitfield (m : Matcher) (f : Nat) (reg : Reg) : GL 2 (Bf.cmpBitfield m f reg) := by
  unfold Bf.cmpBitfield
  split
  · exact GL.fail _
  exact (GL.bind (GL.jmpIns m) fun _ => GL.bind (GL.emit _ (by sta)) fun _ => GL.next _).le (by omega)

theorem GS.bindL {g : Gen α} {f : α → Gen β} (hg : GL n g) (hf : ∀ a, GS (f a)) : GS (g >>= f) :=
  GS.bind hg.toGS hf

theorem GL.loadHeader (mt : Meta) (reg : Reg) : GL 1 (Bf.loadHeader mt reg) := by
  unfold Bf.loadHeader
  split
  · exact GL.emit _ (by sta)
  · exact GL.emit _ (by sta)
  · exact GL.fail _

theorem GL.loadField (mt : Meta) (reg : Reg) : GL 2 (Bf.loadField mt reg) := by
  unfold Bf.loadField
  split
  · exact (GL.emit _ (by sta)).le (by omega)
  · exact (GL.emit _ (by sta)).le (by omega)
  · exact (GL.emit _ (by sta)).le (by omega)
  · exact (GL.emit _ (by sta)).le (by omega)
  · exact (GL.bind (GL.emit _ (by sta)) fun _ => GL.emit _ (by sta)).le (by omega)
  · exact GL.fail _

theorem GL.pktLoad (mt : Meta) (reg : Reg) : GL 3 (Bf.pktLoad mt reg) :=
  GL.bind (GL.loadHeader ..) fun _ => GL.loadField ..

theorem GS.stubLoad (fuel src rem : Nat) (dst : Int) : GS (Bf.stubLoad fuel src rem dst) := by
  induction fuel generalizing src rem dst with
  | zero => exact (GL.pure _).toGS
  | succ fuel ih =>
    unfold Bf.stubLoad
    split
    · exact (GL.pure _).toGS
    · exact .bindL (GL.emit _ (by sta)) fun _ => .bindL (GL.emit _ (by sta)) fun _ => ih ..

theorem GS.setKey (ts : List MType) (off : Nat) : GS (Bf.setKey ts off) := by
  induction ts generalizing off with
  | nil => exact (GL.pure _).toGS
  | cons t ts ih =>
    exact .bindL (GL.loadHeader ..) fun _ => .bind (GS.stubLoad ..) fun _ => ih _

theorem GL.mapLookup (C : Cfg) (m : Matcher) (o : Int) : GL 9 (Bf.mapLookup C m o) := by
  unfold Bf.mapLookup
  refine GL.bind (n := 0) (k := 9) (GL.lift _) fun r => ?_
  split
  · exact GL.fail _
  · refine GL.bind (n := 0) (k := 9) (GL.lift _) fun _ => ?_
    exact (GL.bind (GL.setMap ..) fun _ => GL.bind (GL.emits _ (by sta)) fun _ =>
      GL.bind (GL.jmpIns m) fun _ => GL.next _).le (by simp)

theorem GS.trieLookup (C : Cfg) (m : Matcher) (a b : Nat) : GS (Bf.trieLookup C m a b) :=
  .bindL (GL.emit _ (by sta)) fun _ => .bindL (GL.emit _ (by sta)) fun _ =>
    .bind (GS.stubLoad ..) fun _ => (GL.mapLookup ..).toGS

theorem GL.swich2 (reg : Reg) (a b : BitVec 32) (xa xb xd : Insn)
    (h : Sta Inner (swich2F reg a b xa xb xd)) :
    GL 8 (swich reg [(a, [xa]), (b, [xb])] [xd]) :=
  ⟨(GenT.of_emits (emits_swich2 reg a b xa xb xd)).mono fun _ x hx => by subst hx; exact ⟨h, by simp [swich2F]⟩⟩

theorem GL.swich4 (reg : Reg) (a b c d : BitVec 32) (xa xb xc xd xe : Insn)
    (h : Sta Inner (swich4F reg a b c d xa xb xc xd xe)) :
    GL 14 (swich reg [(a, [xa]), (b, [xb]), (c, [xc]), (d, [xd])] [xe]) :=
  ⟨(GenT.of_emits (emits_swich4 reg a b c d xa xb xc xd xe)).mono fun _ x hx => by subst hx; exact ⟨h, by simp [swich4F]⟩⟩

theorem GL.metaPort (m : Matcher) : GL 25 (Bf.metaPort m) := by
  unfold Bf.metaPort
  refine GL.bind (n := 1) (k := 24) (GL.emit _ (by sta)) fun _ => ?_
  refine GL.bind (n := 8) (k := 16) (GL.swich2 _ _ _ _ _ _ (by
    simp [swich2F, Sta, TyOk, Item.fits, movi])) fun _ => ?_
  refine GL.bind (n := 1) (k := 15) (GL.next _) fun _ => ?_
  split
  · exact (GL.bind (GL.emit _ (by sta)) fun _ => GL.bind (GL.lift _) fun _ => GL.bind (GL.lift _) fun _ =>
      GL.cmpRange ..).le (by omega)
  · exact (GL.cmpValue ..).le (by omega)

theorem GL.metaFlowProbability (C : Cfg) (m : Matcher) : GL 12 (Bf.metaFlowProbability C m) := by
  unfold Bf.metaFlowProbability
  refine GL.bind (n := 0) (k := 12) (GL.lift _) fun _ => ?_
  refine ⟨.thenEmit (.thenEmit (.thenNext (.thenEmit (.thenEmit (.thenNext (.thenEmits (.thenStub
    (.lastNext ⟨?_, ?_⟩))))))))⟩
  · simp [Sta, TyOk, Item.fits, mov, addi, Inner]
  · simp

theorem GL.metaMatcher (C : Cfg) (m : Matcher) : GL 25 (Bf.metaMatcher C m) := by
  unfold Bf.metaMatcher
  split
  · unfold Bf.metaIface
    exact (GL.bind (GL.emit _ (by sta)) fun _ => GL.bind (GL.jmpIns m) fun _ =>
      GL.bind (GL.lift _) fun _ => GL.next _).le (by omega)
  · exact (GL.bind (GL.lift _) fun _ => GL.cmpValue ..).le (by omega)
  · exact (GL.cmpValue ..).le (by omega)
  · exact (GL.bind (GL.lift _) fun _ => GL.bind (GL.emit _ (by sta)) fun _ => GL.next _).le (by omega)
  · exact GL.metaPort m
  · exact GL.metaPort m
  · exact (GL.metaFlowProbability C m).le (by omega)
  · exact GL.fail _
  · exact GL.fail _
  · exact GL.fail _

theorem GS.pktSet (C : Cfg) (m : Matcher) : GS (Bf.pktSet C m) := by
  unfold Bf.pktSet
  refine .bindL (GL.lift _) fun r => ?_
  split
  · exact (GL.fail (n := 0) _).toGS
  · split
    · split
      · exact (GL.abort (n := 0)).toGS
      · exact .bindL (GL.loadHeader ..) fun _ => GS.trieLookup ..
    · exact .bind (GS.setKey ..) fun _ => (GL.mapLookup ..).toGS

theorem GL.pktLoadCmp (m : Matcher) (mt : Meta) : GL 14 (Bf.pktLoadCmp m mt) :=
  GL.bind (n := 3) (k := 11) (GL.pktLoad ..) fun _ => GL.cmpValue ..

theorem GL.pktNet (m : Matcher) (mt : Meta) : GL 24 (Bf.pktNet m mt) :=
  (GL.bind (GL.lift _) fun _ => GL.bind (GL.pktLoad ..) fun _ => GL.cmpMasked ..).le (by omega)

theorem GL.pktPort (m : Matcher) (mt : Meta) : GL 14 (Bf.pktPort m mt) := by
  unfold Bf.pktPort
  refine GL.bind (n := 3) (k := 11) (GL.pktLoad ..) fun _ => ?_
  split
  · exact (GL.bind (GL.emit _ (by sta)) fun _ => GL.bind (GL.lift _) fun _ => GL.bind (GL.lift _) fun _ =>
      GL.cmpRange ..).le (by omega)
  · exact (GL.cmpValue ..).le (by omega)

theorem GL.pktTcpFlags (m : Matcher) (mt : Meta) : GL 14 (Bf.pktTcpFlags m mt) := by
  unfold Bf.pktTcpFlags
  refine GL.bind (n := 3) (k := 11) (GL.pktLoad ..) fun _ => ?_
  split
  · exact (GL.bind (GL.lift _) fun _ => GL.cmpBitfield ..).le (by omega)
  · exact (GL.bind (GL.lift _) fun _ => GL.cmpBitfield ..).le (by omega)
  · exact GL.cmpValue ..
  · exact GL.fail _

theorem GL.pktNexthdr (m : Matcher) : GL 3 (Bf.pktNexthdr m) := by
  unfold Bf.pktNexthdr
  refine GL.bind (n := 0) (k := 3) (GL.lift _) fun _ => ?_
  refine GL.bind (n := 0) (k := 3) (GL.jmpIns m) fun _ => ?_
  split
  · exact (GL.bind (GL.emit _ (by sta)) fun _ => GL.bind (GL.emit _ (by sta)) fun _ => GL.next _).le (by omega)
  · exact (GL.next _).le (by omega)

theorem GL.pktIp4Dscp (m : Matcher) (mt : Meta) : GL 5 (Bf.pktIp4Dscp m mt) :=
  (GL.bind (GL.pktLoad ..) fun _ => GL.bind (GL.lift _) fun _ => GL.bind (GL.emit _ (by sta)) fun _ =>
    GL.bind (GL.jmpIns m) fun _ => GL.next _).le (by omega)

theorem GL.pktIp6Dscp (m : Matcher) (mt : Meta) : GL 5 (Bf.pktIp6Dscp m mt) :=
  (GL.bind (GL.loadHeader ..) fun _ => GL.bind (GL.lift _) fun _ => GL.bind (GL.emit _ (by sta)) fun _ =>
    GL.bind (GL.emit _ (by sta)) fun _ => GL.bind (GL.emit _ (by sta)) fun _ =>
    GL.bind (GL.jmpIns m) fun _ => GL.next _).le (by omega)

theorem GS.packetMatcher (C : Cfg) (m : Matcher) : GS (Bf.packetMatcher C m) := by
  unfold Bf.packetMatcher
  split
  all_goals first
    | exact (GL.metaMatcher C m).toGS
    | exact (GL.fail (n := 0) _).toGS
    | exact (GL.pktIp4Dscp ..).toGS
    | exact (GL.pktLoadCmp ..).toGS
    | exact (GL.pktNet ..).toGS
    | exact (GL.pktPort ..).toGS
    | exact (GL.pktTcpFlags ..).toGS
    | exact (GL.pktNexthdr ..).toGS
    | exact (GL.pktIp6Dscp ..).toGS
    | exact GS.pktSet ..

theorem GS.flavorMatcher (C : Cfg) (m : Matcher) : GS (Bf.flavorMatcher C m) := by
  unfold Bf.flavorMatcher
  split
  · exact (GL.bind (GL.emit _ (by sta)) fun _ => GL.bind (GL.emit _ (by sta)) fun _ => GL.cmpValue ..).toGS
  · exact (GL.bind (GL.emit _ (by sta)) fun _ => GL.bind (GL.emit _ (by sta)) fun _ => GL.cmpValue ..).toGS
  · refine .bindL (GL.emit _ (by sta)) fun _ => .bindL (GL.emit _ (by sta)) fun _ => ?_
    split
    · exact .bindL (GL.lift _) fun _ => .bindL (GL.lift _) fun _ => (GL.cmpRange ..).toGS
    · exact (GL.cmpValue ..).toGS
  · exact (GL.bind (GL.emit _ (by sta)) fun _ => GL.bind (GL.emit _ (by sta)) fun _ =>
      GL.bind (GL.emit _ (by sta)) fun _ => GL.cmpValue ..).toGS
  · exact GS.packetMatcher ..

theorem GL.saLoadField (off size : Nat) : GL 8 (Bf.saLoadField off size) := by
  unfold Bf.saLoadField
  split
  · exact (GL.emit _ (by sta)).le (by omega)
  · exact (GL.emit _ (by sta)).le (by omega)
  · exact (GL.emit _ (by sta)).le (by omega)
  · split
    · exact (GL.emit _ (by sta)).le (by omega)
    · exact (GL.emits _ (by sta)).le (by simp)
  · split
    · exact (GL.emits _ (by sta)).le (by simp)
    · exact (GL.emits _ (by sta)).le (by simp)
  · exact GL.fail _

theorem GL.saStoreField (off : Int) (size : Nat) : GL 2 (Bf.saStoreField off size) := by
  unfold Bf.saStoreField
  split
  · exact (GL.emit _ (by sta)).le (by omega)
  · exact (GL.emit _ (by sta)).le (by omega)
  · exact (GL.emit _ (by sta)).le (by omega)
  · exact (GL.emit _ (by sta)).le (by omega)
  · exact (GL.emits _ (by sta)).le (by simp)
  · exact GL.fail _

theorem GL.saLoadCmp (m : Matcher) (off size : Nat) : GL 19 (Bf.saLoadCmp m off size) :=
  GL.bind (n := 8) (k := 11) (GL.saLoadField ..) fun _ => GL.cmpValue ..

theorem GL.saNet (m : Matcher) (off size : Nat) : GL 29 (Bf.saNet m off size) :=
  (GL.bind (GL.lift _) fun _ => GL.bind (GL.saLoadField ..) fun _ => GL.cmpMasked ..).le (by omega)

theorem GL.saPort (m : Matcher) : GL 19 (Bf.saPort m) := by
  unfold Bf.saPort
  refine GL.bind (n := 8) (k := 11) (GL.saLoadField ..) fun _ => ?_
  split
  · exact (GL.bind (GL.emit _ (by sta)) fun _ => GL.bind (GL.lift _) fun _ => GL.bind (GL.lift _) fun _ =>
      GL.cmpRange ..).le (by omega)
  · exact GL.cmpValue ..

theorem GS.saSetKey (ts : List MType) (off : Nat) : GS (Bf.saSetKey ts off) := by
  induction ts generalizing off with
  | nil => exact (GL.pure _).toGS
  | cons t ts ih =>
    unfold Bf.saSetKey
    split
    · exact .bindL (GL.fail (n := 0) _) fun _ => ih _
    · dsimp only
      split
      · exact .bindL (GL.emit _ (by sta)) fun _ => ih _
      · exact .bind (GS.stubLoad ..) fun _ => ih _

theorem GS.saSet (C : Cfg) (m : Matcher) : GS (Bf.saSet C m) := by
  unfold Bf.saSet
  refine .bindL (GL.lift _) fun r => ?_
  split
  · exact (GL.fail (n := 0) _).toGS
  · split
    · split
      · exact (GL.abort (n := 0)).toGS
      · split
        · exact (GL.fail (n := 0) _).toGS
        · exact GS.trieLookup ..
    · exact .bind (GS.saSetKey ..) fun _ => (GL.mapLookup ..).toGS

theorem GS.saMatcher (C : Cfg) (m : Matcher) : GS (Bf.saMatcher C m) := by
  unfold Bf.saMatcher
  split
  all_goals first
    | exact (GL.metaMatcher C m).toGS
    | exact (GL.fail (n := 0) _).toGS
    | exact (GL.saLoadCmp ..).toGS
    | exact (GL.saNet ..).toGS
    | exact (GL.saPort ..).toGS
    | exact GS.saSet ..
    | exact (GL.bind (GL.emit (mov .r1 .r8) (by sta)) fun _ => GL.cmpValue ..).toGS

theorem GS.inlineMatcher (C : Cfg) (m : Matcher) : GS (Bf.inlineMatcher C m) := by
  unfold Bf.inlineMatcher
  split
  · exact GS.saMatcher ..
  · exact GS.flavorMatcher ..

theorem GL.saLog (C : Cfg) (r : Rule) : GL 60 (Bf.saLog C r) := by
  unfold Bf.saLog
  refine GL.bind (n := 5) (k := 55) (GL.emitsN (by rfl) (by sta)) fun _ => ?_
  split
  · exact GL.fail _
  · dsimp only
    split
    · exact (GL.bind (GL.saLoadField ..) fun _ => GL.bind (GL.saStoreField ..) fun _ =>
        GL.bind (GL.saLoadField ..) fun _ => GL.bind (GL.saStoreField ..) fun _ =>
        GL.bind (GL.saLoadField ..) fun _ => GL.bind (GL.emit _ (by sta)) fun _ =>
        GL.bind (GL.saStoreField ..) fun _ => GL.bind (GL.emits _ (by sta)) fun _ =>
        GL.stub _).le (by simp)
    · exact (GL.bind (GL.saLoadField ..) fun _ => GL.bind (GL.saStoreField ..) fun _ =>
        GL.bind (GL.saLoadField ..) fun _ => GL.bind (GL.emit _ (by sta)) fun _ =>
        GL.bind (GL.saStoreField ..) fun _ => GL.bind (GL.emits _ (by sta)) fun _ =>
        GL.stub _).le (by simp)

theorem GL.packetLog (r : Rule) : GL 9 (Bf.packetLog r) :=
  GL.bind (n := 8) (k := 1) (GL.emitsN (by rfl) (by sta)) fun _ => GL.stub _

theorem GL.inlineLog (C : Cfg) (r : Rule) : GL 60 (Bf.inlineLog C r) := by
  unfold Bf.inlineLog
  split
  · exact GL.saLog ..
  · exact (GL.packetLog r).le (by omega)

theorem GL.ruleLog (C : Cfg) (r : Rule) : GL 80 (Bf.ruleLog C r) := by
  unfold Bf.ruleLog
  split
  · refine GL.bind (n := 1) (k := 79) (GL.emit _ (by sta)) fun _ => ?_
    refine GL.jmp (n := 78) ?_ (by omega)
    have key : GL 77 (do
        Bf.emits [.call .ktime, .ldx .dw .r1 .r9 0, mov .r2 .r0, .alu true .sub .r2 (.x .r1),
          .ld64 .r1 r.rate, .pad]
        Bf.withJmp (.jmp true .lt .r2 (.x .r1) 0) (do
          Bf.emit (.stx .dw .r9 0 .r0)
          Bf.inlineLog C r)) := by
      refine GL.bind (n := 6) (k := 71) (GL.emitsN (by rfl) (by sta)) fun _ => ?_
      refine GL.jmp (n := 70) ?_ (by omega)
      exact (GL.bind (n := 1) (k := 60) (GL.emit _ (by sta)) fun _ => GL.inlineLog C r).le (by omega)
    dsimp only
    split
    · exact GL.bind (n := 1) (k := 77) (GL.emit _ (by sta)) fun _ => key
    · exact key.le (by omega)
  · split
    · exact (GL.inlineLog C r).le (by omega)
    · exact (GL.pure _).le (by omega)

theorem GL.emitCounter (n : Nat) : GL 6 (Bf.emitCounter n) :=
  (GL.bind (GL.emits _ (by sta)) fun _ => GL.bind (GL.cmap _) fun _ => GL.bind (GL.emit _ (by sta)) fun _ =>
    GL.stub _).le (by simp)

theorem GL.emitVerdict (f : Flavor) (v : Verdict) : GL 2 (Bf.emitVerdict f v) :=
  (GL.bind (GL.lift _) fun _ => GL.bind (GL.emit _ (by sta)) fun _ => GL.emit _ (by sta)).le (by omega)

theorem GL.inlineSetMark (C : Cfg) (k : BitVec 32) : GL 3 (Bf.inlineSetMark C k) := by
  unfold Bf.inlineSetMark
  split
  · exact (GL.emits _ (by sta)).le (by simp)
  · exact (GL.emits _ (by sta)).le (by simp)
  · exact GL.fail _

theorem GL.inlineRedirect (C : Cfg) (k : BitVec 32) (d : RedirDir) : GL 4 (Bf.inlineRedirect C k d) := by
  unfold Bf.inlineRedirect
  split
  · split
    · exact GL.fail _
    · exact (GL.emits _ (by sta)).le (by simp)
  · exact (GL.emits _ (by sta)).le (by simp)
  · exact GL.fail _

theorem GL.checkProto (t : MType) (done : List Layer) : GL 1 (Bf.checkProto t done) := by
  unfold Bf.checkProto
  split
  · exact (GL.pure _).le (by omega)
  · split
    · refine GL.bind (n := 1) (k := 0) ?_ fun _ => GL.pure _
      unfold Bf.checkProtocol
      split
      · exact GL.next _
      · exact GL.next _
      · exact GL.fail _
    · exact (GL.pure _).le (by omega)

theorem GS.checkProtos (ts : List MType) (done : List Layer) : GS (Bf.checkProtos ts done) := by
  induction ts generalizing done with
  | nil => exact (GL.pure _).toGS
  | cons t ts ih => exact .bindL (GL.checkProto ..) fun _ => ih _

theorem GS.guards (C : Cfg) (ms : List Matcher) (done : List Layer) : GS (Bf.guards C ms done) := by
  induction ms generalizing done with
  | nil => exact (GL.pure _).toGS
  | cons m ms ih =>
    unfold Bf.guards
    refine .bind ?_ fun _ => ih _
    split
    · refine .bindL (GL.lift _) fun r => ?_
      split
      · exact (GL.fail (n := 0) _).toGS
      · exact GS.checkProtos ..
    · exact (GL.checkProto ..).toGS

theorem GS.matchers (C : Cfg) (ms : List Matcher) : GS (Bf.matchers C ms) := by
  induction ms with
  | nil => exact (GL.pure _).toGS
  | cons m ms ih => exact .bind (GS.inlineMatcher ..) fun _ => ih

end Bf
