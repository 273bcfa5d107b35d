import Verif.Cgen.Set
/-!
# A chain is what is pinned in its directory
-/
namespace Bf.Pin

variable {dir : String} {T : Target}

/-- Only what is pinned in the directory matters. -/
theorem Good.local {v v' : K} {c : Chain} {h : Handle} (hg : Good T v dir c h)
    (ho : ∀ (n : String) (i : Nat) (o : Obj), v.pinned dir n = some i → v.objs[i]? = some o → v'.objs[i]? = some o) (hp : ∀ n, v'.pinned dir n = v.pinned dir n) : Good T v' dir c h := by
  obtain ⟨m, b, c1, c2, c3⟩ := hg.ctx
  obtain ⟨q, q1, ch, im, mm, q2⟩ := hg.prog
  have pq : ∀ q, h.prog = some q → v.pinned dir h.progName = some q := fun q e => hg.pins (h.progName, q) (by unfold Handle.pinList; simp [e])
  refine ⟨⟨⟨fun x hx => by rw [hp]; exact hg.pins x hx, fun l hl => by rw [hp]; exact hg.extra l hl, ⟨q, q1, ch, im, mm, ho _ _ _ (pq q q1) q2⟩,
    fun m hm => ?_, fun l p h1 h2 => ?_, hg.names⟩, ⟨m, b, by rw [hp]; exact c1, ho _ _ _ c1 c2, c3⟩⟩, fun q hq => (hg.tied q hq).get fun o => ho _ _ o (pq q hq),
    hg.namesOk, hg.handleOk, hg.packable, hg.copy⟩
  · obtain ⟨ct, e⟩ := hg.maps m hm
    exact ⟨ct, ho _ _ _ (hg.pins (m.d.name, m.id) (by unfold Handle.pinList; simp only [List.mem_append, List.mem_map]; exact .inl (.inr ⟨m, hm, rfl⟩))) e⟩
  · have hl := hg.link l p h1 h2
    refine ⟨hl.1, fun x hx => ?_⟩
    have hf : x.1 ∈ l.fds := (List.of_mem_zip hx).1
    have : ∃ n, v.pinned dir n = some x.1 := by
      unfold Link.fds at hf
      rcases List.mem_cons.mp hf with e | e
      · exact ⟨"bf_link", hg.pins ("bf_link", x.1) (by unfold Handle.pinList; simp [h1, e])⟩
      · exact ⟨"bf_link_extra", by rw [hg.extra l h1]; simpa using e⟩
    obtain ⟨n, hn⟩ := this
    exact ho n _ _ hn (hl.2 x hx)

end Bf.Pin
