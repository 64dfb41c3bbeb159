import Verif.Domain.EditLemmas

/-!
# C184: a domain can be edited and stays sound

Full statement: after any history of calls of `add_vertex`, `remove_vertex`, `add_fixed_vertex`,
`remove_fixed_vertex`, `insert_boundary`, `remove_boundary`, `add_edge`, `remove`, `add_fixed_edge` and
`remove_fixed_edge` with objects of the domain, all edges end in vertices of the domain, every vertex points
to the edges that end in it and to nothing else, and the fixed vertices are the vertices marked as fixed.

This is false in the code: `remove_boundary` destroys edges that the vertices go on pointing to, and
`remove_vertex` and `remove_fixed_vertex` leave edges at vertices that are no longer there.  It holds for
histories in which only vertices without edges and boundaries without edges are removed, in particular if
nothing is removed.
-/

set_option linter.unusedSectionVars false

namespace TQ
open DE

/-- **C184** (partial): the domain is sound after every history of calls that do not remove a vertex or a
boundary that is in use. -/
theorem C184_edit_partial {s : St} {os : List Op} (hr : CarefulRun {} os s) : Sound s :=
  (inv_run inv_empty hr).toSound

/-- **C184**: what the application does with a domain, adding only, leaves a sound domain. -/
theorem C184_adds {s : St} {os : List Op} (ha : ∀ o ∈ os, Adds o) (hr : run {} os = some s) : Sound s :=
  C184_edit_partial (carefulRun_of_adds ha hr)

/-- **C184**: in a sound domain the walk along a boundary looks at no destroyed edge.  The next edge is an
edge of the same boundary that starts where the edge ends; there is none only if no other edge of the
boundary starts there. -/
theorem C184_walk {s : St} (h : Sound s) {b : List Nat} (hb : b ∈ s.bdrys) {e : Nat} (he : e ∈ b) :
    ∃ r, nextEdge s e = some r ∧
      (∀ f, r = some f → f ∈ b ∧ f ≠ e ∧ (s.ends f).1 = (s.ends e).2) ∧
      (r = none → ∀ f ∈ b, f ≠ e → (s.ends f).1 ≠ (s.ends e).2) := by
  have hmem : ∀ f ∈ b, f ∈ s.bdrys.flatten ++ s.fixedE := fun f hf =>
    List.mem_append_left _ (List.mem_flatten.2 ⟨b, hb, hf⟩)
  have hv := (h.ends_mem e (hmem e he)).2.1
  obtain ⟨r, h1, h2, h3⟩ := nextLoop_spec (s := s) (e := e) (s.inc (s.ends e).2)
    (fun f hf => ((h.inc_iff _ hv f).1 hf).1)
  refine ⟨r, h1, ?_, ?_⟩
  · intro f hf
    obtain ⟨_, a, c, d⟩ := h2 f hf
    exact ⟨(sameList_iff h hb he).1 c, a, d⟩
  · intro hr f hf hfe heq
    exact h3 hr f ((h.inc_iff _ hv f).2 ⟨hmem f hf, Or.inl heq⟩) hfe ((sameList_iff h hb he).2 hf) heq

/-- **C184** (violated): `remove_boundary`.  A boundary is drawn through three vertices and removed, and a new
one is drawn through the same vertices, turning the other way round.  The vertices still point to the destroyed
edges, and the walk along the new boundary looks at one of them. -/
theorem C184_boundary_violated :
    ∃ s, run {} [.addVertex, .addVertex, .addVertex, .insertBoundary 0, .addBdryEdge 0 0 1,
        .addBdryEdge 0 1 2, .addBdryEdge 0 2 0, .removeBoundary 0, .insertBoundary 0, .addBdryEdge 0 0 2,
        .addBdryEdge 0 2 1, .addBdryEdge 0 1 0] = some s ∧
      ¬ Sound s ∧ s.bdrys = [[3, 4, 5]] ∧ 1 ∈ s.inc 2 ∧ nextEdge s 3 = none := by
  refine ⟨_, rfl, ?_, rfl, by decide, by decide⟩
  intro h
  have := ((h.inc_iff 2 (by decide) 1).1 (by decide)).1
  exact absurd this (by decide)

/-- **C184** (violated): `remove_fixed_vertex` leaves a fixed edge that ends in the removed vertex. -/
theorem C184_fixed_violated :
    ∃ s, run {} [.addFixedVertex, .addFixedVertex, .addFixedEdge 0 1, .removeFixedVertex 1] = some s ∧
      ¬ Sound s ∧ s.fixedE = [0] ∧ (s.ends 0).2 = 1 ∧ 1 ∉ s.verts := by
  refine ⟨_, rfl, ?_, rfl, rfl, by decide⟩
  intro h
  exact absurd (h.ends_mem 0 (by decide)).2.1 (by decide)

/-- **C184** (violated): `remove_vertex` of a fixed vertex leaves it among the fixed vertices. -/
theorem C184_vertex_violated :
    ∃ s, run {} [.addFixedVertex, .removeVertex 0] = some s ∧
      ¬ Sound s ∧ s.fixedV = [0] ∧ s.verts = [] := by
  refine ⟨_, rfl, ?_, rfl, rfl⟩
  intro h
  exact absurd ((h.fixed_iff 0).1 (by decide)).1 (by decide)

/-! ## The hypotheses can be met -/

/-- A triangle with a fixed edge inside, drawn by adding only. -/
def editAdds : List Op :=
  [.addVertex, .addVertex, .addVertex, .insertBoundary 0, .addBdryEdge 0 0 1, .addBdryEdge 0 1 2,
    .addBdryEdge 0 2 0, .addFixedVertex, .addFixedVertex, .addFixedEdge 3 4]

example : ∃ s, run {} editAdds = some s ∧ Sound s ∧ s.bdrys = [[0, 1, 2]] ∧ s.fixedE = [3] ∧
    s.fixedV = [3, 4] ∧ s.inc 1 = [0, 1] ∧ nextEdge s 2 = some (some 0) :=
  ⟨_, rfl, C184_adds (os := editAdds) (by simp [editAdds, Adds]) rfl, rfl, rfl, rfl, rfl, by decide⟩

/-- The fixed edge is removed, then its second vertex, then the edges of the boundary and the boundary. -/
def editRemoves : List Op :=
  [.removeFixedEdge 3, .removeFixedVertex 4, .removeBdryEdge 0 0, .removeBdryEdge 0 2, .removeVertex 0,
    .removeBdryEdge 0 1, .removeBoundary 0]

example : ∃ s t, run {} editAdds = some s ∧ CarefulRun s editRemoves t ∧ t.verts = [1, 2, 3] ∧
    t.fixedV = [3] ∧ t.bdrys = [] ∧ t.inc 1 = [] := by
  refine ⟨_, _, rfl, .cons trivial rfl (.cons (show ∀ e ∈ _, _ by decide) rfl (.cons trivial rfl
    (.cons trivial rfl (.cons ⟨by decide, by decide⟩ rfl (.cons trivial rfl (.cons rfl rfl (.nil _))))))),
    rfl, rfl, rfl, rfl⟩

end TQ

#print axioms TQ.C184_edit_partial
#print axioms TQ.C184_adds
#print axioms TQ.C184_walk
#print axioms TQ.C184_boundary_violated
#print axioms TQ.C184_fixed_violated
#print axioms TQ.C184_vertex_violated
