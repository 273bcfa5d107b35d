import Verif.Cgen.Within
import Verif.Cgen.Stuck
/-!
# The operations on a chain keep to its directory
-/
namespace Bf.Pin

variable {D : String → Prop} {S : Nat → Prop} {α β : Type} {dir : String} {T : Target}

def Link.In (S : Nat → Prop) (l : Link) : Prop := S l.fd ∧ ∀ x, l.extra = some x → S x

structure Handle.In (S : Nat → Prop) (h : Handle) : Prop where
  prog : ∀ p, h.prog = some p → S p
  link : ∀ l, h.link = some l → l.In S
  cmap : ∀ m, h.cmap = some m → S m.id
  pmap : ∀ m, h.pmap = some m → S m.id
  lmap : ∀ m, h.lmap = some m → S m.id
  smap : ∀ m, h.smap = some m → S m.id
  sets : ∀ m, some m ∈ h.sets → S m.id

theorem Handle.In.new : Handle.new.In S := by constructor <;> simp [Handle.new]

/-- A result with a handle. -/
def HOk (S : Nat → Prop) (x : Handle × Res Unit) : Prop := x.1.In S

def COk (S : Nat → Prop) (x : Cgen × Res α) : Prop := x.1.handle.In S

/-- A result that, if there is one, is known. -/
def ROk (P : α → Prop) (r : Res α) : Prop := ∀ a, r = .ok a → P a

theorem within_try {c : Call} {ok : Res Unit → Prop} (h : c.In D S) (ho : ∀ r, ok r) : (try_ c).Within D S ok := ⟨h, fun a _ => ho _⟩

theorem within_tryId {c : Call} (h : c.In D S) : (tryId c).Within D S (ROk S) := ⟨h, fun a ha => by
  intro o ho
  cases a <;> simp at ho
  exact ha o (by rw [ho])⟩

theorem within_void {c : Call} {ok : Unit → Prop} (h : c.In D S) (ho : ok ()) : (void c).Within D S ok := ⟨h, fun _ _ => ho⟩

theorem within_closeAll : ∀ {l : List Nat}, (∀ o ∈ l, S o) → (closeAll l).Within D S fun _ => True
  | [], _ => trivial
  | o :: os, h => by
    unfold closeAll
    exact Within.bind (within_void (ok := fun _ => True) (h o (by simp)) trivial) fun _ _ => within_closeAll fun x hx => h x (by simp [hx])

theorem Link.In.fds {l : Link} (h : l.In S) : ∀ o ∈ l.fds, S o := by
  intro o ho
  unfold Link.fds at ho
  rcases List.mem_cons.mp ho with rfl | ho
  · exact h.1
  · exact h.2 o (by simpa using ho)

theorem Handle.In.maps {h : Handle} (hh : h.In S) : ∀ m ∈ h.maps, S m.id := by
  intro m hm
  unfold Handle.maps at hm
  simp only [List.mem_append, Option.mem_toList, List.mem_filterMap, id_eq] at hm
  rcases hm with (((hm | hm) | hm) | hm) | ⟨x, hm, rfl⟩
  · exact hh.cmap m hm
  · exact hh.pmap m hm
  · exact hh.lmap m hm
  · exact hh.smap m hm
  · exact hh.sets m hm

theorem Handle.In.linkFds {h : Handle} (hh : h.In S) : ∀ o ∈ h.linkFds, S o := by
  intro o ho
  unfold Handle.linkFds at ho
  split at ho
  · next l e => exact (hh.link l e).fds o ho
  · cases ho

theorem within_handleFree {h : Handle} (hh : h.In S) : (handleFree h).Within D S fun _ => True := by
  apply within_closeAll
  intro o ho
  simp only [List.mem_append, Option.mem_toList, List.mem_map] at ho
  rcases ho with (ho | ho) | ⟨m, hm, rfl⟩
  · exact hh.prog o ho
  · exact hh.linkFds o ho
  · exact hh.maps m hm

theorem within_mapNew {name : String} {type : MapType} {a b c d : Nat} : (mapNew name type a b c d).Within D S (ROk fun m => S m.id) := by
  unfold mapNew
  repeat (first | (split; · exact Within.pure (by simp [ROk])))
  refine Within.bind (within_try (ok := fun _ => True) trivial fun _ => trivial) fun r _ => ?_
  split
  · refine Within.bind (within_tryId (c := .mapCreate _) trivial) fun r hr => ?_
    split
    · exact Within.pure fun m hm => by cases hm; exact hr _ rfl
    · exact Within.pure (by simp [ROk])
    · exact Within.pure (by simp [ROk])
  · exact Within.pure (by simp [ROk])
  · exact Within.pure (by simp [ROk])

theorem within_loadSets {chain : Chain} : ∀ {gs : Groups} {i : Nat} {h : Handle}, h.In S → (loadSets chain gs i h).Within D S (HOk S)
  | [], _, _, hh => hh
  | g :: gs, i, h, hh => by
    unfold loadSets
    split
    · exact Within.pure hh
    · refine Within.bind (within_try (ok := fun _ => True) trivial fun _ => trivial) fun r _ => ?_
      split
      · refine Within.bind within_mapNew fun r hm => ?_
        split
        · next m =>
          have hm := hm m rfl
          refine Within.bind (within_try (ok := fun _ => True) hm fun _ => trivial) fun r _ => ?_
          split
          · refine within_loadSets ⟨hh.prog, hh.link, hh.cmap, hh.pmap, hh.lmap, hh.smap, fun m' hm' => ?_⟩
            simp only [List.mem_append, List.mem_singleton, Option.some.injEq] at hm'
            rcases hm' with hm' | rfl
            · exact hh.sets m' hm'
            · exact hm
          · exact Within.bind (within_void (ok := fun _ => True) hm trivial) fun _ _ => Within.pure hh
        · exact Within.pure hh
        · exact Within.pure hh
      · exact Within.pure hh

theorem within_loadCounters {chain : Chain} {h : Handle} (hh : h.In S) : (loadCounters chain h).Within D S (HOk S) := by
  unfold loadCounters
  refine Within.bind within_mapNew fun r hm => ?_
  split
  · exact Within.pure ⟨hh.prog, hh.link, fun m e => by cases e; exact hm _ rfl, hh.pmap, hh.lmap, hh.smap, hh.sets⟩
  · exact Within.pure hh
  · exact Within.pure hh

theorem within_loadPrinter {h : Handle} (hh : h.In S) : (loadPrinter T h).Within D S (HOk S) := by
  unfold loadPrinter
  refine Within.bind (within_try (ok := fun _ => True) trivial fun _ => trivial) fun r _ => ?_
  split
  · refine Within.bind within_mapNew fun r hm => ?_
    split
    · have hm := hm _ rfl
      exact Within.bind (within_try (ok := fun _ => True) hm fun _ => trivial) fun r _ =>
        Within.pure ⟨hh.prog, hh.link, hh.cmap, fun m e => by cases e; exact hm, hh.lmap, hh.smap, hh.sets⟩
    · exact Within.pure hh
    · exact Within.pure hh
  · exact Within.pure hh

theorem within_loadLog {chain : Chain} {h : Handle} (hh : h.In S) : (loadLog chain h).Within D S (HOk S) := by
  unfold loadLog
  split
  · exact Within.pure hh
  · refine Within.bind within_mapNew fun r hm => ?_
    split
    · exact Within.pure ⟨hh.prog, hh.link, hh.cmap, hh.pmap, fun m e => by cases e; exact hm _ rfl, hh.smap, hh.sets⟩
    · exact Within.pure hh
    · exact Within.pure hh

theorem within_loadState {chain : Chain} {h : Handle} (hh : h.In S) : (loadState chain h).Within D S (HOk S) := by
  unfold loadState
  split
  · exact Within.pure hh
  · refine Within.bind within_mapNew fun r hm => ?_
    split
    · exact Within.pure ⟨hh.prog, hh.link, hh.cmap, hh.pmap, hh.lmap, fun m e => by cases e; exact hm _ rfl, hh.sets⟩
    · exact Within.pure hh
    · exact Within.pure hh

theorem within_andThen {p : P (Handle × Res Unit)} {f : Handle → P (Handle × Res Unit)} (hp : p.Within D S (HOk S)) (hf : ∀ h, h.In S → (f h).Within D S (HOk S)) :
    (p >>= fun x => andThen x f).Within D S (HOk S) := by
  refine Within.bind hp fun x hx => ?_
  unfold andThen
  split
  · exact hf _ hx
  · exact Within.pure hx

theorem within_programLoad {chain : Chain} {p : Prog} {h : Handle} (hh : h.In S) : (programLoad T chain p h).Within D S (HOk S) := by
  unfold programLoad
  refine within_andThen (within_loadSets hh) fun h hh => ?_
  refine within_andThen (within_loadCounters hh) fun h hh => ?_
  refine within_andThen (within_loadPrinter hh) fun h hh => ?_
  refine within_andThen (within_loadLog hh) fun h hh => ?_
  refine within_andThen (within_loadState hh) fun h hh => ?_
  split
  · next m _ e =>
    refine Within.bind (within_tryId (hh.cmap _ e)) fun r hr => ?_
    split
    · exact Within.pure ⟨fun p e => by cases e; exact hr _ rfl, hh.link, hh.cmap, hh.pmap, hh.lmap, hh.smap, hh.sets⟩
    · exact Within.pure hh
    · exact Within.pure hh
  · exact Within.pure hh
  · exact Within.pure hh

theorem within_makeProgram {chain : Chain} {h : Handle} (hh : h.In S) : (makeProgram T chain h).Within D S (HOk S) := by
  unfold makeProgram
  refine Within.bind (within_try (ok := fun _ => True) trivial fun _ => trivial) fun r _ => ?_
  split
  · split
    · exact within_programLoad hh
    · exact Within.pure hh
    · exact Within.pure hh
  · exact Within.pure hh

theorem within_linkCreate {p : Nat} {pt : Point} (hp : S p) : (tryId (.linkCreate p pt)).Within D S (ROk S) := within_tryId hp

theorem within_linkNew {hook : Hook} {o : HookOpts} {p : Nat} (hp : S p) : (linkNew hook o p).Within D S (ROk (Link.In S)) := by
  unfold linkNew
  refine Within.bind (within_try (ok := fun _ => True) trivial fun _ => trivial) fun r _ => ?_
  split
  · dsimp only
    have one : ∀ {q : P (Res Nat)}, q.Within D S (ROk S) → (q >>= fun (x : Res Nat) => match x with
        | .ok l => pure (.ok ⟨⟨objName "bf_link", hook, o⟩, l, none⟩)
        | .err e => pure (.err e)
        | .ub => (pure .ub : P (Res Link))).Within D S (ROk (Link.In S)) := by
      intro q hq
      refine Within.bind hq fun r hr => ?_
      split
      · exact Within.pure fun l e => by cases e; exact ⟨hr _ rfl, by simp⟩
      · exact Within.pure (by simp [ROk])
      · exact Within.pure (by simp [ROk])
    split
    · refine one ?_
      unfold tryAttachXdp
      refine Within.bind (within_linkCreate hp) fun r hr => ?_
      split
      · exact within_linkCreate hp
      · exact Within.pure hr
    · exact one (within_linkCreate hp)
    · refine Within.bind (within_try (ok := fun _ => True) trivial fun _ => trivial) fun r _ => ?_
      split
      · exact one (within_linkCreate hp)
      · exact Within.pure (by simp [ROk])
      · exact Within.pure (by simp [ROk])
    · refine Within.bind (within_try (ok := fun _ => True) trivial fun _ => trivial) fun r _ => ?_
      split
      · exact one (within_linkCreate hp)
      · exact Within.pure (by simp [ROk])
      · exact Within.pure (by simp [ROk])
    · refine Within.bind (within_linkCreate hp) fun r hr => ?_
      split
      · refine Within.bind (within_linkCreate hp) fun r' hr' => ?_
        split
        · exact Within.pure fun l e => by cases e; exact ⟨hr _ rfl, fun x e => by cases e; exact hr' _ rfl⟩
        · exact Within.bind (within_void (ok := fun _ => True) (hr _ rfl) trivial) fun _ _ => Within.pure (by simp [ROk])
        · exact Within.pure (by simp [ROk])
      · exact Within.pure (by simp [ROk])
      · exact Within.pure (by simp [ROk])
  · exact Within.pure (by simp [ROk])
  · exact Within.pure (by simp [ROk])

theorem Handle.In.withLink {h : Handle} (hh : h.In S) {l : Link} (hl : l.In S) : ({ h with link := some l } : Handle).In S :=
  ⟨hh.prog, fun l' e => by cases e; exact hl, hh.cmap, hh.pmap, hh.lmap, hh.smap, hh.sets⟩

theorem Handle.In.noLink {h : Handle} (hh : h.In S) : ({ h with link := none } : Handle).In S :=
  ⟨hh.prog, by simp, hh.cmap, hh.pmap, hh.lmap, hh.smap, hh.sets⟩

theorem within_handleAttach {h : Handle} {hook : Hook} {o : HookOpts} (hh : h.In S) : (handleAttach h hook o).Within D S (HOk S) := by
  unfold handleAttach
  split
  · exact Within.pure hh
  · exact Within.pure hh
  · next e =>
    refine Within.bind (within_linkNew (hh.prog _ e)) fun r hr => ?_
    split
    · exact Within.pure (hh.withLink (hr _ rfl))
    · exact Within.pure hh
    · exact Within.pure hh

theorem within_linkUnpin (hd : D dir) : (linkUnpin dir).Within D S fun _ => True :=
  Within.bind (within_void (ok := fun _ => True) hd trivial) fun _ _ => within_void hd trivial

theorem within_linkPin (hd : D dir) {l : Link} (hl : l.In S) : (linkPin l dir).Within D S fun _ => True := by
  unfold linkPin
  refine Within.bind (within_try (ok := fun _ => True) ⟨hd, hl.1⟩ fun _ => trivial) fun r _ => ?_
  split
  · split
    · exact trivial
    · next x e =>
      refine Within.bind (within_try (ok := fun _ => True) ⟨hd, hl.2 x e⟩ fun _ => trivial) fun r _ => ?_
      split
      · exact trivial
      · exact Within.bind (within_linkUnpin hd) fun _ _ => trivial
  · exact trivial

theorem within_unpinAll (hd : D dir) : ∀ {ms : List BMap}, (unpinAll dir ms).Within D S fun _ => True
  | [] => trivial
  | m :: ms => by
    unfold unpinAll
    exact Within.bind (within_void (ok := fun _ => True) hd trivial) fun _ _ => within_unpinAll hd

theorem within_handleUnpin (hd : D dir) {h : Handle} : (handleUnpin h dir).Within D S fun _ => True := by
  unfold handleUnpin
  refine Within.bind (within_unpinAll hd) fun _ _ => ?_
  refine Within.bind (ok := fun _ => True) ?_ fun _ _ => within_void hd trivial
  split
  · exact within_linkUnpin hd
  · exact trivial

theorem within_pinAll (hd : D dir) : ∀ {ms : List BMap}, (∀ m ∈ ms, S m.id) → (pinAll dir ms).Within D S fun _ => True
  | [], _ => trivial
  | m :: ms, h => by
    unfold pinAll
    refine Within.bind (within_try (ok := fun _ => True) ⟨hd, h m (by simp)⟩ fun _ => trivial) fun r _ => ?_
    split
    · exact within_pinAll hd fun x hx => h x (by simp [hx])
    · exact trivial

theorem within_handlePins (hd : D dir) {h : Handle} (hh : h.In S) : (handlePins h dir).Within D S fun _ => True := by
  unfold handlePins
  split
  · exact trivial
  · next p e =>
    refine Within.bind (within_try (ok := fun _ => True) ⟨hd, hh.prog _ e⟩ fun _ => trivial) fun r _ => ?_
    split
    · refine Within.bind (within_pinAll hd hh.maps) fun r _ => ?_
      split
      · split
        · exact trivial
        · next l e => exact within_linkPin hd (hh.link l e)
      · exact trivial
    · exact trivial

theorem within_handlePin (hd : D dir) {h : Handle} (hh : h.In S) : (handlePin h dir).Within D S fun _ => True := by
  unfold handlePin
  refine Within.bind (within_handlePins hd hh) fun r _ => ?_
  split
  · exact trivial
  · exact Within.bind (within_handleUnpin hd) fun _ _ => trivial

theorem within_handleDetach {h : Handle} (hh : h.In S) : (handleDetach h).Within D S (Handle.In S) := by
  unfold handleDetach
  split
  · exact Within.pure hh
  · next l e =>
    have hl := hh.link l e
    refine Within.bind (within_void (ok := fun _ => True) hl.1 trivial) fun _ _ => ?_
    refine Within.bind (ok := fun _ => True) ?_ fun _ _ => ?_
    · split
      · next x e => exact within_void (hl.2 x e) trivial
      · exact trivial
    · exact Within.bind (within_closeAll hl.fds) fun _ _ => Within.pure hh.noLink

theorem within_handleUnload {h : Handle} (hh : h.In S) : (handleUnload h).Within D S (Handle.In S) := by
  unfold handleUnload
  refine Within.bind (within_closeAll fun o ho => hh.prog o (by simpa using ho)) fun _ _ => ?_
  refine Within.bind (within_handleDetach ⟨by simp, hh.link, hh.cmap, hh.pmap, hh.lmap, hh.smap, hh.sets⟩) fun h' h1 => ?_
  refine Within.bind (within_closeAll fun o ho => ?_) fun _ _ => ?_
  · obtain ⟨m, hm, rfl⟩ := List.mem_map.mp ho
    exact h1.maps m hm
  · exact Within.pure ⟨h1.prog, h1.link, by simp, by simp, by simp, by simp, by simp⟩

theorem within_persist (hd : D dir) {c : Cgen} : (persist c dir).Within D S fun _ => True := by
  unfold persist
  refine Within.bind (within_try (ok := fun _ => True) trivial fun _ => trivial) fun r _ => ?_
  split
  · refine Within.bind within_mapNew fun r hm => ?_
    split
    · have hm := hm _ rfl
      have cl := fun (x : Res Unit) => Within.bind (ok' := fun _ => True) (f := fun _ => (pure x : P (Res Unit))) (within_void (D := D) (ok := fun _ => True) (c := .close _) hm trivial) fun _ _ => trivial
      refine Within.bind (within_try (ok := fun _ => True) hm fun _ => trivial) fun r _ => ?_
      split
      · refine Within.bind (within_void (ok := fun _ => True) hd trivial) fun _ _ => ?_
        refine Within.bind (within_try (ok := fun _ => True) ⟨hd, hm⟩ fun _ => trivial) fun r _ => ?_
        split
        · refine Within.bind (within_try (ok := fun _ => True) hd fun _ => trivial) fun r _ => ?_
          split
          · exact cl _
          · exact Within.bind (within_void (ok := fun _ => True) hd trivial) fun _ _ => cl _
        · exact cl _
      · exact cl _
    · exact trivial
    · exact trivial
  · exact trivial

theorem within_getMap (hd : D dir) {d : Option MapD} : (getMap dir d).Within D S (ROk fun m => ∀ x, m = some x → S x.id) := by
  unfold getMap
  split
  · exact Within.pure fun a e => by cases e; simp
  · refine Within.bind (within_tryId hd) fun r hr => ?_
    split
    · exact Within.pure fun a e x e' => by cases e; cases e'; exact hr _ rfl
    · exact Within.pure (by simp [ROk])
    · exact Within.pure (by simp [ROk])

theorem within_getMaps (hd : D dir) : ∀ {ds : List (Option MapD)}, (getMaps dir ds).Within D S fun x => ∀ m, some m ∈ x.1 → S m.id
  | [] => by simp [getMaps, Pure.pure, P.Within]
  | d :: ds => by
    unfold getMaps
    refine Within.bind (within_getMap hd) fun r hr => ?_
    split
    · refine Within.bind (within_getMaps hd) fun x hx => ?_
      exact Within.pure fun m hm => by
        rcases List.mem_cons.mp hm with e | hm
        · exact hr _ rfl m e.symm
        · exact hx m hm
    · exact Within.pure (by simp)
    · exact Within.pure (by simp)

theorem within_getLink (hd : D dir) {d : Option LinkD} : (getLink dir d).Within D S (ROk fun m => ∀ l, m = some l → l.In S) := by
  unfold getLink
  split
  · exact Within.pure fun a e => by cases e; simp
  · refine Within.bind (within_tryId hd) fun r hr => ?_
    split
    · refine Within.bind (within_tryId hd) fun r' hr' => ?_
      split
      · exact Within.pure fun a e x e' => by cases e; cases e'; exact ⟨hr _ rfl, fun y e => by cases e; exact hr' _ rfl⟩
      · exact Within.pure fun a e x e' => by cases e; cases e'; exact ⟨hr _ rfl, by simp⟩
      · exact Within.bind (within_void (ok := fun _ => True) (hr _ rfl) trivial) fun _ _ => Within.pure (by simp [ROk])
      · exact Within.pure (by simp [ROk])
    · exact Within.pure (by simp [ROk])
    · exact Within.pure (by simp [ROk])

theorem Handle.In.setLink {h : Handle} (hh : h.In S) {l : Option Link} (hl : ∀ x, l = some x → x.In S) : ({ h with link := l } : Handle).In S :=
  ⟨hh.prog, hl, hh.cmap, hh.pmap, hh.lmap, hh.smap, hh.sets⟩
theorem Handle.In.setCmap {h : Handle} (hh : h.In S) {m : Option BMap} (hm : ∀ x, m = some x → S x.id) : ({ h with cmap := m } : Handle).In S :=
  ⟨hh.prog, hh.link, hm, hh.pmap, hh.lmap, hh.smap, hh.sets⟩
theorem Handle.In.setPmap {h : Handle} (hh : h.In S) {m : Option BMap} (hm : ∀ x, m = some x → S x.id) : ({ h with pmap := m } : Handle).In S :=
  ⟨hh.prog, hh.link, hh.cmap, hm, hh.lmap, hh.smap, hh.sets⟩
theorem Handle.In.setLmap {h : Handle} (hh : h.In S) {m : Option BMap} (hm : ∀ x, m = some x → S x.id) : ({ h with lmap := m } : Handle).In S :=
  ⟨hh.prog, hh.link, hh.cmap, hh.pmap, hm, hh.smap, hh.sets⟩
theorem Handle.In.setSmap {h : Handle} (hh : h.In S) {m : Option BMap} (hm : ∀ x, m = some x → S x.id) : ({ h with smap := m } : Handle).In S :=
  ⟨hh.prog, hh.link, hh.cmap, hh.pmap, hh.lmap, hm, hh.sets⟩

theorem Handle.In.setSets {h : Handle} (hh : h.In S) {ms : List (Option BMap)} (hm : ∀ x, some x ∈ ms → S x.id) : ({ h with sets := ms } : Handle).In S :=
  ⟨hh.prog, hh.link, hh.cmap, hh.pmap, hh.lmap, hh.smap, hm⟩

theorem within_getHandle (hd : D dir) {d : HandleD} : (getHandle dir d).Within D S (HOk S) := by
  unfold getHandle
  have h0 : (⟨d.progName, none, none, none, none, none, none, []⟩ : Handle).In S := by constructor <;> simp
  refine Within.bind (within_tryId hd) fun r hr => ?_
  split
  · have h1 : (⟨d.progName, some _, none, none, none, none, none, []⟩ : Handle).In S := ⟨fun p e => by cases e; exact hr _ rfl, by simp, by simp, by simp, by simp, by simp, by simp⟩
    refine Within.bind (within_getLink hd) fun r hl => ?_
    split
    · have h2 := h1.setLink (hl _ rfl)
      refine Within.bind (within_getMap hd) fun r hm => ?_
      split
      · have h3 := h2.setCmap (hm _ rfl)
        refine Within.bind (within_getMap hd) fun r hm => ?_
        split
        · have h4 := h3.setPmap (hm _ rfl)
          refine Within.bind (within_getMap hd) fun r hm => ?_
          split
          · have h5 := h4.setLmap (hm _ rfl)
            refine Within.bind (within_getMap hd) fun r hm => ?_
            split
            · have h6 := h5.setSmap (hm _ rfl)
              refine Within.bind (within_getMaps hd) fun x hx => ?_
              exact Within.pure (h6.setSets hx)
            · exact Within.pure h5
            · exact Within.pure h5
          · exact Within.pure h4
          · exact Within.pure h4
        · exact Within.pure h3
        · exact Within.pure h3
      · exact Within.pure h2
      · exact Within.pure h2
    · exact Within.pure h1
    · exact Within.pure h1
  · exact Within.pure h0
  · exact Within.pure h0

theorem within_newFromDir (hd : D dir) : (newFromDir dir).Within D S (ROk fun c => c.handle.In S) := by
  unfold newFromDir
  refine Within.bind (within_tryId hd) fun r hr => ?_
  split
  · next m =>
    have hm := hr m rfl
    have cl := fun (x : Res Cgen) (hx : ∀ c, x = .ok c → c.handle.In S) => Within.bind (ok' := (ROk fun c => c.handle.In S)) (f := fun _ => (pure x : P (Res Cgen))) (within_void (D := D) (ok := fun _ => True) (c := .close _) hm trivial) fun _ _ => hx
    refine ⟨hm, fun a _ => ?_⟩
    dsimp only
    split
    · split
      · exact cl _ (by simp)
      · split
        · refine Within.bind (within_getHandle hd) fun x hx => ?_
          split
          · exact cl _ fun c e => by cases e; exact hx
          · exact Within.bind (within_handleFree hx) fun _ _ => cl _ (by simp)
          · exact Within.bind (within_handleFree hx) fun _ _ => cl _ (by simp)
        · exact cl _ (by simp)
        · exact cl _ (by simp)
    · exact cl _ (by simp)
    · exact cl _ (by simp)
  · exact Within.pure (by simp [ROk])
  · exact Within.pure (by simp [ROk])

theorem within_cgenSet (hd : D dir) {c : Cgen} {o : Option HookOpts} (hc : c.handle.In S) : (cgenSet T c o dir).Within D S (COk S) := by
  unfold cgenSet
  refine Within.bind (within_makeProgram hc) fun x hx => ?_
  split
  · refine Within.bind (ok := HOk S) ?_ fun y hy => ?_
    · split
      · exact within_handleAttach hx
      · exact Within.pure hx
    · dsimp only
      split
      · refine Within.bind (within_handlePin hd hy) fun r _ => ?_
        split
        · refine Within.bind (within_persist hd) fun r _ => ?_
          split
          · exact Within.pure hy
          · exact Within.bind (within_handleUnpin hd) fun _ _ => Within.pure hy
        · exact Within.pure hy
      · exact Within.pure hy
  · exact Within.pure hx

theorem within_cgenLoad (hd : D dir) {c : Cgen} (hc : c.handle.In S) : (cgenLoad T c dir).Within D S (COk S) := by
  unfold cgenLoad
  refine Within.bind (within_makeProgram hc) fun x hx => ?_
  split
  · dsimp only
    refine Within.bind (within_handlePin hd hx) fun r _ => ?_
    split
    · refine Within.bind (within_persist hd) fun r _ => ?_
      split
      · exact Within.pure hx
      · exact Within.bind (within_handleUnpin hd) fun _ _ => Within.pure hx
    · exact Within.pure hx
  · exact Within.pure hx

theorem within_cgenAttach (hd : D dir) {c : Cgen} {o : HookOpts} (hc : c.handle.In S) : (cgenAttach c o dir).Within D S (COk S) := by
  unfold cgenAttach
  refine Within.bind (within_handleAttach hc) fun x hx => ?_
  split
  · dsimp only
    split
    · exact Within.pure hx
    · next l e =>
      refine Within.bind (within_linkPin hd (hx.link l e)) fun r _ => ?_
      split
      · refine Within.bind (within_persist hd) fun r _ => ?_
        split
        · exact Within.pure hx
        · exact Within.bind (within_linkUnpin hd) fun _ _ => Within.bind (within_handleDetach hx) fun y hy => Within.pure hy
      · exact Within.bind (within_handleDetach hx) fun y hy => Within.pure hy
  · exact Within.pure hx

theorem within_getCounter {h : Handle} {i : Nat} (hh : h.In S) : (getCounter h i).Within D S fun _ => True := by
  unfold getCounter
  split
  · exact trivial
  · next m e =>
    refine Within.bind (within_try (ok := fun _ => True) trivial fun _ => trivial) fun r _ => ?_
    split
    · exact ⟨hh.cmap m e, fun a _ => by dsimp only; split <;> exact trivial⟩
    · exact trivial
    · exact trivial

theorem within_setCounter {h : Handle} {ncpu i : Nat} {c : Ctr} (hh : h.In S) : (setCounter ncpu h i c).Within D S fun _ => True := by
  unfold setCounter
  split
  · exact trivial
  · next m e =>
    refine Within.bind (within_try (ok := fun _ => True) trivial fun _ => trivial) fun r _ => ?_
    split
    · exact within_try (hh.cmap m e) fun _ => trivial
    · exact trivial

theorem within_transferLoop {ncpu : Nat} {old new : Handle} (h1 : old.In S) (h2 : new.In S) : ∀ {n i : Nat}, (transferLoop ncpu old new i n).Within D S fun _ => True
  | 0, _ => trivial
  | n + 1, i => by
    unfold transferLoop
    refine Within.bind (within_getCounter h1) fun r _ => ?_
    split
    · split
      · exact within_transferLoop h1 h2
      · refine Within.bind (within_setCounter h2) fun r _ => ?_
        split
        · exact within_transferLoop h1 h2
        · exact trivial
    · exact trivial
    · exact trivial

theorem within_transfer {ncpu n : Nat} {old new : Handle} (h1 : old.In S) (h2 : new.In S) : (transfer ncpu old new n).Within D S fun _ => True := by
  unfold transfer
  split
  · exact trivial
  · exact within_transferLoop h1 h2

theorem within_linkUpdate {l : Link} {p : Nat} (hl : l.In S) (hp : S p) : (linkUpdate l p).Within D S fun x => x.1.In S := by
  unfold linkUpdate linkUpdateNf
  split
  · refine Within.bind (within_linkCreate hp) fun r hr => ?_
    split
    · refine Within.bind (within_linkCreate hp) fun r' hr' => ?_
      split
      · exact Within.bind (within_closeAll hl.fds) fun _ _ => Within.pure ⟨hr _ rfl, fun x e => by cases e; exact hr' _ rfl⟩
      · exact Within.bind (within_void (ok := fun _ => True) (hr _ rfl) trivial) fun _ _ => Within.pure hl
      · exact Within.pure hl
    · exact Within.pure hl
    · exact Within.pure hl
  · exact Within.bind (within_try (ok := fun _ => True) ⟨hl.1, hp⟩ fun _ => trivial) fun _ _ => Within.pure hl

theorem within_updateFinish (hd : D dir) {c : Cgen} {chain : Chain} {h : Handle} (hh : h.In S) : (updateFinish c chain h dir).Within D S (COk S) := by
  unfold updateFinish
  refine Within.bind (within_handlePin hd hh) fun r _ => ?_
  split
  · refine Within.bind (within_persist hd) fun r _ => ?_
    split
    · dsimp only
      refine Within.bind (within_persist hd) fun r _ => ?_
      split
      · exact Within.pure hh
      · exact Within.bind (within_handleUnpin hd) fun _ _ => Within.pure hh
    · exact Within.bind (within_handleUnpin hd) fun _ _ => Within.pure hh
  · exact Within.pure hh

theorem within_updateSwitch (hd : D dir) {c : Cgen} {chain : Chain} {new : Handle} (hc : c.handle.In S) (hn : new.In S) :
    (updateSwitch c chain new dir).Within D S (COk S) := by
  unfold updateSwitch
  dsimp only
  refine Within.bind (within_handleUnpin hd) fun _ _ => ?_
  split
  · next l p e e' =>
    refine Within.bind (within_linkUpdate (hc.link l e) (hn.prog p e')) fun x hx => ?_
    split
    · refine Within.bind (within_updateFinish hd (hn.withLink hx)) fun y hy => ?_
      exact Within.bind (within_handleFree hc.noLink) fun _ _ => Within.pure hy
    · refine Within.bind (within_handlePin hd (hc.withLink hx)) fun y hy => ?_
      exact Within.bind (within_handleFree hn) fun _ _ => Within.pure (hc.withLink hx)
  · exact Within.pure hc
  · refine Within.bind (within_updateFinish hd hn) fun y hy => ?_
    exact Within.bind (within_handleFree hc) fun _ _ => Within.pure hy

theorem within_cgenUpdate (hd : D dir) {ncpu : Nat} {c : Cgen} {chain : Chain} {keep : Bool} (hc : c.handle.In S) : (cgenUpdate T ncpu c chain keep dir).Within D S (COk S) := by
  unfold cgenUpdate
  refine Within.bind (within_try (ok := fun _ => True) trivial fun _ => trivial) fun r _ => ?_
  split
  · refine Within.bind (within_makeProgram .new) fun x hx => ?_
    have no := fun (e : Res Unit) => Within.bind (ok' := COk S) (f := fun _ => (pure (c, e) : P (Cgen × Res Unit))) (within_handleFree (D := D) hx) fun _ _ => hc
    split
    · split
      · split
        · exact no _
        · refine Within.bind (within_transfer hc hx) fun r _ => ?_
          split
          · exact within_updateSwitch hd hc hx
          · exact no _
      · exact within_updateSwitch hd hc hx
    · exact no _
  · exact Within.pure hc

theorem within_cgenUnload (hd : D dir) {c : Cgen} (hc : c.handle.In S) : (cgenUnload c dir).Within D S fun c => c.handle.In S := by
  unfold cgenUnload
  refine Within.bind (within_void (ok := fun _ => True) hd trivial) fun _ _ => ?_
  refine Within.bind (within_handleUnpin hd) fun _ _ => ?_
  exact Within.bind (within_handleUnload hc) fun h hh => Within.pure hh

theorem within_copyChain {c : Chain} : (copyChain c).Within D S fun r => ∀ c', r = .ok c' → chainCopy c = .ok c' := by
  unfold copyChain
  refine Within.bind (within_try (ok := fun _ => True) trivial fun _ => trivial) fun r _ => ?_
  split
  · exact Within.pure fun _ h => h
  · exact Within.pure (by simp)
  · exact Within.pure (by simp)

theorem within_copyOpts {o : Option HookOpts} : (copyOpts o).Within D S fun _ => True := by
  unfold copyOpts
  split
  · exact trivial
  · exact within_try trivial fun _ => trivial

theorem within_cgenNew {c : Chain} : (cgenNew c).Within D S (ROk fun c => c.handle.In S) := by
  unfold cgenNew
  refine Within.bind (within_try (ok := fun _ => True) trivial fun _ => trivial) fun r _ => ?_
  split
  · exact Within.pure fun c e => by cases e; exact .new
  · exact Within.pure (by simp [ROk])
  · exact Within.pure (by simp [ROk])

theorem within_withChain (hd : D dir) {wr : Bool} {f : P (Res α)} (hf : f.Within D S fun _ => True) : (withChain dir wr f).Within D S fun _ => True := by
  unfold withChain
  refine Within.bind (within_try (ok := fun _ => True) trivial fun _ => trivial) fun r _ => ?_
  split
  · refine Within.bind (within_try (ok := fun _ => True) hd fun _ => trivial) fun r _ => ?_
    split
    · exact Within.bind hf fun _ _ => Within.bind (within_void (ok := fun _ => True) hd trivial) fun _ _ => trivial
    · exact trivial
    · exact trivial
  · exact trivial
  · exact trivial

theorem within_withCgen (hd : D dir) {f : Cgen → P (Cgen × Res α)} (hf : ∀ c : Cgen, c.handle.In S → (f c).Within D S (COk S)) : (withCgen dir f).Within D S fun _ => True := by
  unfold withCgen
  refine Within.bind (within_newFromDir hd) fun r hr => ?_
  split
  · exact Within.bind (hf _ (hr _ rfl)) fun x hx => Within.bind (within_handleFree hx) fun _ _ => trivial
  · exact trivial
  · exact trivial

theorem within_putNew {c : Chain} {o : Option HookOpts} (hd : D c.name) : (putNew T c o).Within D S fun _ => True := by
  unfold putNew
  refine Within.bind within_copyChain fun r hr => ?_
  split
  · next ch =>
    have hd : D ch.name := by rw [chainCopy_name (hr _ rfl)]; exact hd
    refine Within.bind within_copyOpts fun r _ => ?_
    split
    · refine Within.bind within_cgenNew fun r hc => ?_
      split
      · refine Within.bind (within_try (ok := fun _ => True) hd fun _ => trivial) fun r _ => ?_
        split
        · refine Within.bind (within_cgenSet hd (hc _ rfl)) fun x hx => ?_
          exact Within.bind (within_handleFree hx) fun _ _ => Within.bind (within_void (ok := fun _ => True) hd trivial) fun _ _ => trivial
        · exact trivial
      · exact trivial
      · exact trivial
    · exact trivial
  · exact trivial
  · exact trivial

theorem within_dropOld (hd : D dir) : (dropOld dir).Within D S fun _ => True := by
  unfold dropOld
  refine Within.bind (within_try (ok := fun _ => True) hd fun _ => trivial) fun r _ => ?_
  split
  · refine Within.bind (within_newFromDir hd) fun r hr => ?_
    have rl := fun (x : Res Unit) => Within.bind (ok' := fun _ => True) (f := fun _ => (pure x : P (Res Unit))) (within_void (D := D) (S := S) (ok := fun _ => True) (c := .release _ true) hd trivial) fun _ _ => trivial
    split
    · refine Within.bind (within_cgenUnload hd (hr _ rfl)) fun c hc => ?_
      exact Within.bind (within_void (ok := fun _ => True) hd trivial) fun _ _ => Within.bind (within_handleFree hc) fun _ _ => trivial
    · exact rl _
    · exact rl _
    · exact trivial
  · exact trivial
  · exact trivial

/-! The operations. -/

theorem within_chainSet {c : Chain} {o : Option HookOpts} (hd : D c.name) : (chainSet T c o).Within D S fun _ => True := by
  unfold chainSet
  refine Within.bind (within_try (ok := fun _ => True) trivial fun _ => trivial) fun r _ => ?_
  split
  · refine Within.bind (within_dropOld hd) fun r _ => ?_
    split
    · exact within_putNew hd
    · exact trivial
  · exact trivial

theorem within_chainLoad {c : Chain} (hd : D c.name) : (chainLoad T c).Within D S fun _ => True := by
  unfold chainLoad
  refine Within.bind (within_try (ok := fun _ => True) trivial fun _ => trivial) fun r _ => ?_
  split
  · refine Within.bind (within_try (ok := fun _ => True) hd fun _ => trivial) fun r _ => ?_
    split
    · refine Within.bind (ok := fun _ => True) ?_ fun _ _ => Within.bind (within_void (ok := fun _ => True) hd trivial) fun _ _ => trivial
      refine Within.bind within_copyChain fun r _ => ?_
      split
      · refine Within.bind within_cgenNew fun r hc => ?_
        split
        · refine Within.bind (within_cgenLoad hd (hc _ rfl)) fun x hx => ?_
          exact Within.bind (within_handleFree hx) fun _ _ => trivial
        · exact trivial
        · exact trivial
      · exact trivial
      · exact trivial
    · exact trivial
  · exact trivial

theorem within_chainAttach (hd : D dir) {o : HookOpts} : (chainAttach dir o).Within D S fun _ => True := by
  refine within_withChain hd (within_withCgen hd fun c hc => ?_)
  split
  · exact Within.pure hc
  · split
    · refine Within.bind within_copyOpts fun r _ => ?_
      split
      · exact within_cgenAttach hd hc
      · exact Within.pure hc
    · exact Within.pure hc

theorem within_chainUpdate {c : Chain} {ncpu : Nat} (hd : D c.name) : (chainUpdate T ncpu c).Within D S fun _ => True := by
  refine within_withChain hd (within_withCgen hd fun c hc => ?_)
  refine Within.bind within_copyChain fun r _ => ?_
  split
  · exact within_cgenUpdate hd hc
  · exact Within.pure hc
  · exact Within.pure hc

theorem within_chainUpdateSet (hd : D dir) {ncpu : Nat} {a r : BSet} : (chainUpdateSet T ncpu dir a r).Within D S fun _ => True := by
  refine within_withChain hd (within_withCgen hd fun c hc => ?_)
  refine Within.bind (within_try (ok := fun _ => True) trivial fun _ => trivial) fun r _ => ?_
  split
  · split
    · exact within_cgenUpdate hd hc
    · exact Within.pure hc
    · exact Within.pure hc
  · exact Within.pure hc

theorem within_chainFlush (hd : D dir) : (chainFlush dir).Within D S fun _ => True :=
  within_withChain hd (within_withCgen hd fun _ hc => Within.bind (within_cgenUnload hd hc) fun _ h => Within.pure h)

theorem within_cgenGetCounter {c : Cgen} {x : CtrOf} (hc : c.handle.In S) : (cgenGetCounter c x).Within D S fun _ => True := by
  unfold cgenGetCounter
  split
  · exact within_getCounter hc
  · exact within_getCounter hc
  · split
    · exact within_getCounter hc
    · exact trivial

theorem within_loadRuleCounters {c : Cgen} (hc : c.handle.In S) : ∀ {rs : List Rule}, (loadRuleCounters c rs).Within D S fun _ => True
  | [] => trivial
  | r :: rs => by
    unfold loadRuleCounters
    split
    · refine Within.bind (within_cgenGetCounter hc) fun r _ => ?_
      split
      · refine Within.bind (within_loadRuleCounters hc) fun r _ => ?_
        split <;> exact trivial
      · exact trivial
      · exact trivial
    · refine Within.bind (within_loadRuleCounters hc) fun r _ => ?_
      split <;> exact trivial

theorem within_chainGetOpen {c : Cgen} (hc : c.handle.In S) : (chainGetOpen c).Within D S fun _ => True := by
  unfold chainGetOpen
  refine Within.bind (within_loadRuleCounters hc) fun r _ => ?_
  split
  · refine Within.bind (within_cgenGetCounter hc) fun r _ => ?_
    split
    · refine Within.bind (within_cgenGetCounter hc) fun r _ => ?_
      split
      · refine Within.bind within_copyOpts fun r _ => ?_
        split <;> exact trivial
      · exact trivial
      · exact trivial
    · exact trivial
    · exact trivial
  · exact trivial
  · exact trivial

theorem within_chainGet (hd : D dir) : (chainGet dir).Within D S fun _ => True :=
  within_withChain hd (within_withCgen hd fun _ hc => Within.bind (within_chainGetOpen hc) fun _ _ => Within.pure hc)

end Bf.Pin
