import Verif.Props.C57_Same
import Verif.Props.Sample
/-!
# C57: two chains that are alike
-/
namespace Bf.Cli
open Bf.Spec

theorem setWf_of {s : BSet} (h : setNew s.name s.key = .ok { s with elems := [] } ∧ (∀ e ∈ s.elems, e.length = s.elemSize) ∧
    (∀ t ∈ s.key, ∀ e ∈ s.elems, s.useTrie = true → host e 0 4 ≤ 8 * t.meta_.size) ∧ s.elemSize ≤ 64) : SetWf s :=
  ⟨⟨_, h.1, rfl, rfl⟩, h.2.1, fun ht t hk e he => h.2.2.1 t hk e he ht, h.2.2.2⟩

/-- A chain whose sets and matchers are well formed and that compiles can be loaded. -/
theorem loaded_of {c : Chain} (hb : BuiltChain c) (h : (∀ r ∈ c.rules, ∀ m ∈ r.matchers, MatcherWf m) ∧
    (∀ s ∈ c.sets, setNew s.name s.key = .ok { s with elems := [] } ∧ (∀ e ∈ s.elems, e.length = s.elemSize) ∧
      (∀ t ∈ s.key, ∀ e ∈ s.elems, s.useTrie = true → host e 0 4 ≤ 8 * t.meta_.size) ∧ s.elemSize ≤ 64) ∧
    c.sets.length < 262144 ∧ c.rules.length < 268435456 ∧ (buildGroups c.sets).length < 4294967292 ∧ c.hook.flavor ≠ .sockAddr)
    (hc : (match compile c Sample.thr Sample.slen stdFds with | .ok _ => true | _ => false) = true) (base : Env) :
    ∃ img, IsLoaded (envOf base c) c Sample.thr img := by
  obtain ⟨img, hi⟩ := Sample.compiles_of hc
  obtain ⟨h1, h2, h3, h4, h5, h6⟩ := h
  exact ⟨img, .of_compile hb.api h1 ⟨fun s hs => setWf_of (h2 s hs), h3⟩ h4 h5 (fun e => absurd e h6) hi⟩

/-- A set of addresses and ports, a set of networks, `meta.l4_proto` and an IPv6 network. -/
def one57 : Chain where
  name := "web"
  hook := .tcIngress
  policy := .accept
  sets := [⟨some "bad", [.ip4Saddr, .tcpDport], 6, false, [[1, 2, 3, 4, 0, 22], [1, 2, 3, 5, 0, 80]]⟩,
    ⟨none, [.ip6Snet], 24, true, [[32, 0, 0, 0, 0x20, 1, 0xd, 0xb8] ++ List.replicate 12 0 ++ [1, 1, 1, 1]]⟩]
  rules := [{ Sample.rule [⟨.metaL4Proto, .eq, [6, 0xAA], false⟩, ⟨.set, .in_, [0, 0, 0, 0], true⟩] .drop with hasCounters := true },
    { Sample.rule [⟨.set, .in_, [1, 0, 0, 0], false⟩, ⟨.ip6Dnet, .eq, [64, 0, 0, 0] ++ List.replicate 20 7, false⟩] .continue_ with
      index := 1, log := 5, mark := 0xffffffff00000010, hasCounters := false }]
  flagLog := true
  flagRate := false
  flagNexthdr := false

/-- The same, with other bytes where no text gives them, the elements in another order, one of them twice. -/
def two57 : Chain := { one57 with
  sets := [⟨some "bad", [.ip4Saddr, .tcpDport], 6, false, [[1, 2, 3, 5, 0, 80], [1, 2, 3, 4, 0, 22], [1, 2, 3, 5, 0, 80]]⟩,
    ⟨none, [.ip6Snet], 24, true, [[32, 0, 0, 0, 0x20, 1, 0xd, 0xb8] ++ List.replicate 12 0 ++ [2, 2, 2, 2]]⟩]
  rules := [{ Sample.rule [⟨.metaL4Proto, .eq, [6, 0], false⟩, ⟨.set, .in_, [0, 0, 0, 0], true⟩] .drop with hasCounters := true },
    { Sample.rule [⟨.set, .in_, [1, 0, 0, 0], false⟩, ⟨.ip6Dnet, .eq, [64, 0, 0, 0] ++ List.replicate 16 7 ++ [0, 0, 0, 0], false⟩] .continue_ with
      index := 1, log := 5, mark := 0xffffffff00000010, hasCounters := false }] }

theorem one57_new : chainNew "web" .tcIngress .accept one57.sets one57.rules = .ok one57 := by decide +kernel
theorem two57_new : chainNew "web" .tcIngress .accept two57.sets two57.rules = .ok two57 := by decide +kernel

theorem one57_loaded (base : Env) : ∃ img, IsLoaded (envOf base one57) one57 Sample.thr img :=
  loaded_of (.new one57_new) (by decide +kernel) (by decide +kernel) base
theorem two57_loaded (base : Env) : ∃ img, IsLoaded (envOf base two57) two57 Sample.thr img :=
  loaded_of (.new two57_new) (by decide +kernel) (by decide +kernel) base

theorem pair57 {a p : List Byte} (h : a.length = 4 ∧ p.length = 2) : ElemAlike [.ip4Saddr, .tcpDport] (a ++ p) (a ++ p) :=
  ⟨[(.ip4Saddr, a), (.tcpDport, p)], [(.ip4Saddr, a), (.tcpDport, p)], rfl, by simp, by simp,
    .cons ⟨rfl, h.1, rfl, rfl⟩ (.cons ⟨rfl, h.2, rfl, rfl⟩ .nil)⟩

theorem first57 : SetAlike ⟨some "bad", [.ip4Saddr, .tcpDport], 6, false, [[1, 2, 3, 4, 0, 22], [1, 2, 3, 5, 0, 80]]⟩
    ⟨some "bad", [.ip4Saddr, .tcpDport], 6, false, [[1, 2, 3, 5, 0, 80], [1, 2, 3, 4, 0, 22], [1, 2, 3, 5, 0, 80]]⟩ where
  name := rfl
  key := rfl
  left := by
    intro e he
    simp only [List.mem_cons, List.not_mem_nil, or_false] at he
    rcases he with rfl | rfl
    · exact ⟨_, by simp, pair57 (a := [1, 2, 3, 4]) (p := [0, 22]) ⟨rfl, rfl⟩⟩
    · exact ⟨_, by simp, pair57 (a := [1, 2, 3, 5]) (p := [0, 80]) ⟨rfl, rfl⟩⟩
  right := by
    intro e he
    simp only [List.mem_cons, List.not_mem_nil, or_false] at he
    rcases he with rfl | rfl | rfl
    · exact ⟨_, by simp, pair57 (a := [1, 2, 3, 5]) (p := [0, 80]) ⟨rfl, rfl⟩⟩
    · exact ⟨_, by simp, pair57 (a := [1, 2, 3, 4]) (p := [0, 22]) ⟨rfl, rfl⟩⟩
    · exact ⟨_, by simp, pair57 (a := [1, 2, 3, 5]) (p := [0, 80]) ⟨rfl, rfl⟩⟩

theorem second57 {e f : List Byte} (h : e.length = 24 ∧ f.length = 24 ∧ e.take 20 = f.take 20) : SetAlike ⟨none, [.ip6Snet], 24, true, [e]⟩ ⟨none, [.ip6Snet], 24, true, [f]⟩ := by
  have ha : ElemAlike [.ip6Snet] e f := ⟨[(.ip6Snet, e)], [(.ip6Snet, f)], rfl, by simp, by simp, .cons ⟨rfl, h.1, h.1.trans h.2.1.symm, h.2.2⟩ .nil⟩
  exact ⟨rfl, rfl, fun x hx => ⟨f, by simp, by rw [List.mem_singleton.mp hx]; exact ha⟩, fun x hx => ⟨e, by simp, by rw [List.mem_singleton.mp hx]; exact ha⟩⟩

theorem plain57 {xs ys : List BSet} {t : MType} {p q : List Byte} {neg : Bool} (ht : t ≠ .set) (h : PayloadAlike t .eq p q) : MatcherAlike xs ys ⟨t, .eq, p, neg⟩ ⟨t, .eq, q, neg⟩ :=
  ⟨rfl, rfl, rfl, fun _ => h, fun e => absurd e ht⟩

theorem ref57 {xs ys : List BSet} {p : List Byte} {neg : Bool} {i : Nat} {x y : BSet} (h1 : rd p 0 4 = .ok i) (h2 : xs[i]? = some x) (h3 : ys[i]? = some y) (h : SetAlike x y) :
    MatcherAlike xs ys ⟨.set, .in_, p, neg⟩ ⟨.set, .in_, p, neg⟩ :=
  ⟨rfl, rfl, rfl, fun e => absurd rfl e, fun _ => ⟨i, i, x, y, ⟨h1, h2⟩, ⟨h1, h3⟩, h⟩⟩

theorem alike57 : ChainAlike (one57, none) (two57, none) where
  name := rfl
  hook := rfl
  policy := rfl
  opts := Or.inl ⟨rfl, rfl⟩
  sets := .cons first57 (.cons (second57 (by decide)) .nil)
  rules := .cons ⟨rfl, .cons (plain57 (by decide) ⟨rfl, by decide⟩) (.cons (ref57 (i := 0) (by decide) rfl rfl first57) .nil), ⟨rfl, rfl⟩, rfl, ⟨rfl, fun _ => rfl⟩, rfl, fun _ => ⟨rfl, rfl⟩⟩
    (.cons ⟨rfl, .cons (ref57 (i := 1) (by decide) rfl rfl (second57 (by decide))) (.cons (plain57 (by decide) ⟨rfl, by decide⟩) .nil), ⟨rfl, rfl⟩, rfl, ⟨rfl, fun _ => rfl⟩, rfl,
      fun _ => ⟨rfl, rfl⟩⟩ .nil)

theorem same_env (base : Env) (c c' : Chain) : SameArrival (envOf base c) (envOf base c') :=
  ⟨rfl, rfl, rfl, rfl, rfl, rfl, rfl, rfl, rfl, rfl, rfl, rfl, rfl, rfl, rfl⟩

theorem did_same {c c' : Chain × Option HookOpts} (hb : BuiltChain c.1) (hb' : BuiltChain c'.1) (ha : ChainAlike c c')
    (hfit : ∀ r ∈ c.1.rules, ∀ m ∈ r.matchers, m.type = .ip6Snet ∨ m.type = .ip6Dnet → host m.payload 0 4 ≤ 128) (base : Env)
    (hl : ∃ img, IsLoaded (envOf base c.1) c.1 Sample.thr img) (hl' : ∃ img, IsLoaded (envOf base c'.1) c'.1 Sample.thr img) :
    ∃ img img', IsLoaded (envOf base c.1) c.1 Sample.thr img ∧ IsLoaded (envOf base c'.1) c'.1 Sample.thr img' ∧
    ∀ w : World, ∃ v v' w' u', Runs (envOf base c.1) img w v w' ∧ Runs (envOf base c'.1) img' w v' u' ∧ DidSame v w' v' u' := by
  obtain ⟨img, h⟩ := hl
  obtain ⟨img', h'⟩ := hl'
  refine ⟨img, img', h, h', fun w => ?_⟩
  obtain ⟨v, w', hr⟩ := C01_returns h w
  obtain ⟨v', u', hr'⟩ := C01_returns h' w
  exact ⟨v, v', w', u', hr, hr', C57_alike hb hb' ha hfit h h' (same_env base c.1 c'.1) hr hr'⟩

theorem fits57 : ∀ r ∈ one57.rules, ∀ m ∈ r.matchers, m.type = .ip6Snet ∨ m.type = .ip6Dnet → host m.payload 0 4 ≤ 128 := by decide +kernel

/-- The hypotheses of `C57_alike` are met by two chains that are not the same: both are loaded, and they do the same to every packet. -/
theorem C57_sample (base : Env) : one57 ≠ two57 ∧ ∃ img img', IsLoaded (envOf base one57) one57 Sample.thr img ∧ IsLoaded (envOf base two57) two57 Sample.thr img' ∧
    ∀ w : World, ∃ v v' w' u', Runs (envOf base one57) img w v w' ∧ Runs (envOf base two57) img' w v' u' ∧ DidSame v w' v' u' :=
  ⟨by decide, did_same (c := (one57, none)) (c' := (two57, none)) (.new one57_new) (.new two57_new) alike57 fits57 base (one57_loaded base) (two57_loaded base)⟩

end Bf.Cli
