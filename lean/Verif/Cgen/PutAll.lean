import Verif.Cgen.Flush
/-!
# Replacing all chains
-/
namespace Bf.Pin

variable {I : K → Prop} {v v0 : K} {dir : String} {T : Target}

/-- From `v0` to `v`, the chains `xs` were put, each in a new directory; `L` are these chains with what each has pinned. -/
structure Puts (T : Target) (xs : List (Chain × Option HookOpts)) (L : List (Chain × Handle)) (v0 v : K) : Prop where
  chains : L.map (·.1) = xs.map (·.1)
  good : ∀ x ∈ L, Good T v x.1.name x.1 x.2
  fresh : ∀ x ∈ L, x.1.name ∉ v0.dirs
  nodup : (L.map (·.1.name)).Nodup
  link : ∀ y ∈ xs, ∃ x ∈ L, x.1 = y.1 ∧ LinkAs y.1 y.2 v0 x.2
  new : ∀ x ∈ L, ∀ l ∈ x.2.linkFds, v0.objs.length ≤ l
  objs : ∃ new, v.objs = v0.objs ++ new
  other : ∀ d n, (∀ x ∈ L, x.1.name ≠ d) → v.pinned d n = v0.pinned d n
  own : Bad v0 v ∨ ∀ x ∈ L, ∀ n o, v.pinned x.1.name n = some o → n = "bf_ctx" ∨ x.2.names n
  hist : ∃ g, v.hist = g ++ v0.hist

theorem Puts.nil (T : Target) (v : K) : Puts T [] [] v v :=
  ⟨rfl, by simp, by simp, by simp, by simp, by simp, ⟨[], by simp⟩, fun _ _ _ => rfl, .inr (by simp), ⟨[], rfl⟩⟩

theorem Puts.mem {xs : List (Chain × Option HookOpts)} {L : List (Chain × Handle)} (h : Puts T xs L v0 v) (ht : v.Tree) {x : Chain × Handle} (hx : x ∈ L) :
    x.1.name ∈ v.dirs := by
  obtain ⟨m, _, hm, _⟩ := (h.good x hx).ctx
  exact K.Tree.mem ht hm

theorem Good.beside {v v' : K} {d : String} {c : Chain} {h : Handle} (hg : Good T v d c h) (hb : Beside dir v v') (hp : ∀ n, v'.pinned d n = v.pinned d n) :
    Good T v' d c h := by
  refine hg.keep (fun i o ho => ?_) hp
  obtain ⟨new, e⟩ := hb.objs
  rw [e]
  exact List.getElem?_append_left (List.getElem?_eq_some_iff.mp ho).1 ▸ ho

/-- The pins of the directory of the last chain did not change. -/
theorem Puts.same {xs : List (Chain × Option HookOpts)} {L : List (Chain × Handle)} {v' : K} (h : Puts T xs L v0 v) (hb : Beside dir v v')
    (hp : ∀ n, v'.pinned dir n = v.pinned dir n) : Puts T xs L v0 v' := by
  have same : ∀ d n, v'.pinned d n = v.pinned d n := fun d n => by
    by_cases hd : d = dir
    · rw [hd]; exact hp n
    · exact hb.other d n hd
  obtain ⟨n1, e1⟩ := h.objs
  obtain ⟨n2, e2⟩ := hb.objs
  exact ⟨h.chains, fun x hx => (h.good x hx).beside hb (same _), h.fresh, h.nodup, h.link, h.new, ⟨n1 ++ n2, by rw [e2, e1, List.append_assoc]⟩,
    fun d n hd => (same d n).trans (h.other d n hd), h.own.imp (fun h => h.later hb.hist) fun h x hx n o e => h x hx n o (by rw [← same]; exact e),
    hist_trans h.hist hb.hist⟩

theorem Puts.add {xs : List (Chain × Option HookOpts)} {L : List (Chain × Handle)} {v' : K} {c : Chain} {o : Option HookOpts} {h : Handle} (hp : Puts T xs L v0 v)
    (ht : v.Tree) (hd : ∀ d ∈ v0.dirs, d ∈ v.dirs) (hb : Beside c.name v v') (hn : c.name ∉ v.dirs) (hg : Good T v' c.name c h) (hl : LinkAs c o v h)
    (ho : Bad v v' ∨ ∀ n o, v'.pinned c.name n = some o → n = "bf_ctx" ∨ h.names n) : Puts T (xs ++ [(c, o)]) (L ++ [(c, h)]) v0 v' := by
  obtain ⟨n1, e1⟩ := hp.objs
  obtain ⟨n2, e2⟩ := hb.objs
  have len : v0.objs.length ≤ v.objs.length := by rw [e1]; simp
  have hne : ∀ x ∈ L, x.1.name ≠ c.name := fun x hx e => hn (by rw [← e]; exact hp.mem ht hx)
  have hl0 : LinkAs c o v0 h := ⟨hl.some, hl.opts, fun x hx => Nat.le_trans len (hl.new x hx)⟩
  refine ⟨by simp [hp.chains], fun x hx => ?_, fun x hx => ?_, ?_, fun y hy => ?_, fun x hx => ?_, ⟨n1 ++ n2, by rw [e2, e1, List.append_assoc]⟩, fun d n hd => ?_, ?_, hist_trans hp.hist hb.hist⟩
  · rcases List.mem_append.mp hx with hx | hx
    · exact (hp.good x hx).beside hb fun n => hb.other _ n (hne x hx)
    · rw [List.mem_singleton.mp hx]; exact hg
  · rcases List.mem_append.mp hx with hx | hx
    · exact hp.fresh x hx
    · rw [List.mem_singleton.mp hx]; exact fun h => hn (hd _ h)
  · rw [List.map_append, List.nodup_append]
    refine ⟨hp.nodup, by simp, fun a ha b hb' e => ?_⟩
    obtain ⟨x, hx, rfl⟩ := List.mem_map.mp ha
    simp at hb'
    exact hne x hx (e.trans hb')
  · rcases List.mem_append.mp hy with hy | hy
    · obtain ⟨x, h1, h2⟩ := hp.link y hy
      exact ⟨x, by simp [h1], h2⟩
    · rw [List.mem_singleton.mp hy]
      exact ⟨(c, h), by simp, rfl, hl0⟩
  · rcases List.mem_append.mp hx with hx | hx
    · exact hp.new x hx
    · rw [List.mem_singleton.mp hx]; exact hl0.new
  · rw [hb.other d n fun e => hd (c, h) (by simp) e.symm]
    exact hp.other d n fun x hx => hd x (by simp [hx])
  · rcases hp.own with h1 | h1
    · exact .inl (h1.later hb.hist)
    · rcases ho with h2 | h2
      · exact .inl (h2.earlier hp.hist)
      · refine .inr fun x hx n o e => ?_
        rcases List.mem_append.mp hx with hx | hx
        · exact h1 x hx n o (by rw [← hb.other _ n (hne x hx)]; exact e)
        · rw [List.mem_singleton.mp hx] at e ⊢
          exact h2 n o e

/-- What each chain must satisfy to be put. -/
structure CanPut (T : Target) (x : Chain × Option HookOpts) : Prop where
  packable : Packable x.1
  fits : Fits T x.1
  copy : chainCopy x.1 = .ok x.1
  opts : ∀ o, x.2 = some o → OptsOk o

/-- What holds while chains `cs` are put: other directories are as they were; in theirs, there is nothing new, no chain, or one of these chains. -/
structure Putting (T : Target) (cs : List (Chain × Option HookOpts)) (v0 v : K) : Prop where
  objs : ∃ new, v.objs = v0.objs ++ new
  hist : ∃ g, v.hist = g ++ v0.hist
  at_ : ∀ d, (∀ n, v.pinned d n = v0.pinned d n) ∨
    (d ∉ v0.dirs ∧ (∃ c ∈ cs, c.1.name = d) ∧ (v.pinned d "bf_ctx" = none ∨ ∃ c ∈ cs, c.1.name = d ∧ Restorable T v d c.1))

theorem Puts.putting {cs xs : List (Chain × Option HookOpts)} {L : List (Chain × Handle)} {v' : K} {c : Chain} (h : Puts T xs L v0 v)
    (hd : ∀ d ∈ v0.dirs, d ∈ v.dirs) (ht : v.Tree)
    (hx : ∀ x ∈ xs, x ∈ cs) (hc : ∃ o, (c, o) ∈ cs) (hb : Beside c.name v v') (hp : (∀ n, v'.pinned c.name n = v.pinned c.name n) ∨
      (c.name ∉ v.dirs ∧ (v'.pinned c.name "bf_ctx" = none ∨ Restorable T v' c.name c))) : Putting T cs v0 v' := by
  obtain ⟨o, hc⟩ := hc
  obtain ⟨n1, e1⟩ := h.objs
  obtain ⟨n2, e2⟩ := hb.objs
  refine ⟨⟨n1 ++ n2, by rw [e2, e1, List.append_assoc]⟩, hist_trans h.hist hb.hist, fun d => ?_⟩
  -- a directory whose pins did not change
  have key : (∀ n, v'.pinned d n = v.pinned d n) → (∀ n, v'.pinned d n = v0.pinned d n) ∨
      (d ∉ v0.dirs ∧ (∃ c ∈ cs, c.1.name = d) ∧ (v'.pinned d "bf_ctx" = none ∨ ∃ c ∈ cs, c.1.name = d ∧ Restorable T v' d c.1)) := fun hs => by
    by_cases hL : ∃ x ∈ L, x.1.name = d
    · obtain ⟨x, hx', rfl⟩ := hL
      have : x.1 ∈ xs.map (·.1) := by rw [← h.chains]; exact List.mem_map.mpr ⟨x, hx', rfl⟩
      obtain ⟨y, hy, e⟩ := List.mem_map.mp this
      have hn : y.1.name = x.1.name := by rw [e]
      refine .inr ⟨h.fresh x hx', ⟨y, hx y hy, hn⟩, .inr ⟨y, hx y hy, hn, x.2, ?_⟩⟩
      rw [e]
      exact (h.good x hx').beside hb hs
    · exact .inl fun n => (hs n).trans (h.other d n fun x hx e => hL ⟨x, hx, e⟩)
  by_cases hdn : d = c.name
  · subst hdn
    rcases hp with hp | ⟨h1, h2⟩
    · exact key hp
    · exact .inr ⟨fun e => h1 (hd _ e), ⟨(c, o), hc, rfl⟩, h2.imp id fun h => ⟨(c, o), hc, rfl, h⟩⟩
  · exact key fun n => hb.other d n hdn

theorem Beside.refl (v : K) : Beside dir v v := ⟨⟨[], by simp⟩, fun _ _ => Iff.rfl, ⟨[], rfl⟩, fun _ _ _ => rfl⟩

theorem putAll_loop {Q : Res Unit → K → Prop} {all xs cs : List (Chain × Option HookOpts)} {L : List (Chain × Handle)} (hall : all = xs ++ cs)
    (hp : Puts T xs L v0 v) (hv : v.Sane) (hd : ∀ d ∈ v0.dirs, d ∈ v.dirs) (hcs : ∀ x ∈ cs, CanPut T x)
    (hI : ∀ v', Putting T all v0 v' → I v')
    (hE : ∀ r v' (xs' : List (Chain × Option HookOpts)) (L' : List (Chain × Handle)), r ≠ .ok () → xs' <+: all → Putting T all v0 v' →
      (Bad v0 v' ∨ Puts T xs' L' v0 v') → Q r v')
    (hK : ∀ (L' : List (Chain × Handle)) v', Puts T all L' v0 v' → Putting T all v0 v' → Q (.ok ()) v') (hi : Putting T all v0 v) : Safe I Q (putAll T cs) v := by
  induction cs generalizing v xs L with
  | nil =>
    rw [List.append_nil] at hall
    subst hall
    exact ⟨hI v hi, hK L v hp hi⟩
  | cons x cs ih =>
    obtain ⟨c, o⟩ := x
    have hx := hcs (c, o) (by simp)
    have hmem : ∃ o, (c, o) ∈ all := ⟨o, by rw [hall]; simp⟩
    have hsub : ∀ x ∈ xs, x ∈ all := fun x hx => by rw [hall]; simp [hx]
    refine Safe.bind (Safe.useSane hv (putNew_safe hv.tree hx.packable hx.fits hx.copy hx.opts
      (fun v' hb hh => hI v' (hp.putting hd hv.tree hsub hmem hb hh)) (fun r v' hr hb hh hs' _ => ?_) fun h v' hb hn hg hl ho hs' _ => ?_))
    · have hput : Putting T all v0 v' := hp.putting hd hv.tree hsub hmem hb (hh.imp id fun h => ⟨h.1, .inl h.2.1⟩)
      have : Bad v0 v' ∨ Puts T xs L v0 v' := by
        rcases hh with hh | ⟨_, _, hh⟩
        · exact .inr (hp.same hb hh)
        · exact .inl (hh.earlier hp.hist)
      have hpre : xs <+: all := ⟨_, hall.symm⟩
      cases r with
      | ok u => exact absurd rfl hr
      | err e => exact ⟨hI v' hput, hE _ v' xs L hr hpre hput this⟩
      | ub => exact ⟨hI v' hput, hE _ v' xs L hr hpre hput this⟩
    · have hput : Putting T all v0 v' := hp.putting hd hv.tree hsub hmem hb (.inr ⟨hn, .inr ⟨h, hg⟩⟩)
      refine ih (by rw [hall]; simp) (hp.add hv.tree hd hb hn hg hl ho) hs' (fun d h0 => ?_) (fun x hx => hcs x (by simp [hx])) hput
      have h1 := hd d h0
      exact (hb.dirs d fun e => hn (by rw [← e]; exact h1)).mpr h1

theorem putAll_safe {Q : Res Unit → K → Prop} {cs : List (Chain × Option HookOpts)} (hv : v.Sane) (hcs : ∀ x ∈ cs, CanPut T x)
    (hI : ∀ v', Putting T cs v v' → I v')
    (hE : ∀ r v' (xs' : List (Chain × Option HookOpts)) (L' : List (Chain × Handle)), r ≠ .ok () → xs' <+: cs → Putting T cs v v' →
      (Bad v v' ∨ Puts T xs' L' v v') → Q r v')
    (hK : ∀ (L' : List (Chain × Handle)) v', Puts T cs L' v v' → Putting T cs v v' → Q (.ok ()) v') : Safe I Q (putAll T cs) v :=
  putAll_loop (xs := []) rfl (Puts.nil T v) hv (fun _ h => h) hcs hI hE hK ⟨⟨[], by simp⟩, ⟨[], rfl⟩, fun d => .inl fun n => rfl⟩

end Bf.Pin
