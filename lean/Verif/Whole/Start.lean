import Verif.Whole.Run
import Verif.Cleanup.Resume
import Verif.Generator.Prepare

/-! # Lemmas: the start of a meshing step -/

set_option linter.unusedSectionVars false
set_option linter.unusedSimpArgs false

namespace TQ.Whole
open TQ.MS TQ.MeshSpec TQ.FUSpec TQ.MS.St TQ.GeoSpec TQ.FU TQ.Sm TQ.MCSpec TQ.WholeSpec TQ.RefSpec TQ.GN TQ.MM
variable {K : Type*} [Field K] [LinearOrder K] [IsStrictOrderedRing K]

/-! ### Flags of the boundary edges -/

/-- A front edge has the flags of a boundary edge or of a fixed one. -/
def Marked (e : Fr.FEdge) : Prop := ∃ b, e.props = Fr.edgeProps b

theorem subEdges_marked (e : Fr.FEdge) : ∀ (ps : List (Pt K)) (st : List (Fr.MVert K)) (cur : Nat),
    ∀ x ∈ (Fr.subEdges e st cur ps).2, Marked x := by
  intro ps
  induction ps with
  | nil => intro st cur x hx; simp only [Fr.subEdges, List.mem_singleton] at hx; subst hx; exact ⟨_, rfl⟩
  | cons p ps ih =>
    intro st cur x hx
    simp only [Fr.subEdges, List.mem_cons] at hx
    rcases hx with rfl | hx
    · exact ⟨_, rfl⟩
    · exact ih _ _ x hx

theorem refineEdge_marked (coords : List (Pt K)) (st : List (Fr.MVert K)) {e : Fr.FEdge} (he : Marked e) :
    ∀ x ∈ (Fr.refineEdge coords st e).2, Marked x := by
  unfold Fr.refineEdge
  split_ifs
  · intro x hx; simp only [List.mem_singleton] at hx; subst hx; exact he
  · exact subEdges_marked e _ _ _

theorem refineEdges_marked (sub : Fr.FEdge → Option (List (Pt K))) : ∀ (es : List Fr.FEdge) (st : List (Fr.MVert K)) (r : List (Fr.MVert K) × List Fr.FEdge),
    (∀ e ∈ es, Marked e) → Fr.refineEdges sub st es = some r → ∀ x ∈ r.2, Marked x := by
  intro es
  induction es with
  | nil => intro st r _ h; simp only [Fr.refineEdges, Option.some.injEq] at h; subst h; simp
  | cons e es ih =>
    intro st r hm h
    simp only [Fr.refineEdges] at h
    split at h
    · cases hr : Fr.refineEdges sub st es with
      | none => rw [hr] at h; simp at h
      | some q =>
        rw [hr] at h
        simp only [Option.some.injEq] at h
        subst h
        intro x hx
        rcases List.mem_cons.mp hx with rfl | hx
        · exact hm _ (by simp)
        · exact ih st q (fun y hy => hm y (by simp [hy])) hr x hx
    · cases hs : sub e with
      | none => rw [hs] at h; simp at h
      | some coords =>
        rw [hs] at h
        dsimp only at h
        cases hr : Fr.refineEdges sub (Fr.refineEdge coords st e).1 es with
        | none => rw [hr] at h; simp at h
        | some q =>
          rw [hr] at h
          simp only [Option.some.injEq] at h
          subst h
          intro x hx
          rcases List.mem_append.mp hx with hx | hx
          · exact refineEdge_marked coords st (hm e (by simp)) x hx
          · exact ih _ q (fun y hy => hm y (by simp [hy])) hr x hx

theorem initEdge_marked {off nv i : Nat} {F : Fr.FID K} {e : Fr.FEdge} (h : Fr.initEdge off nv F i = some e) : Marked e := by
  unfold Fr.initEdge at h
  split at h
  · split_ifs at h
    simp only [Option.some.injEq] at h
    subst h
    exact ⟨_, rfl⟩
  · simp at h

theorem mapM_mem {α β : Type*} {f : α → Option β} : ∀ {l : List α} {r : List β}, l.mapM f = some r → ∀ y ∈ r, ∃ x ∈ l, f x = some y := by
  intro l
  induction l with
  | nil => intro r h; simp at h; subst h; simp
  | cons a l ih =>
    intro r h y hy
    rw [List.mapM_cons] at h
    cases hf : f a with
    | none => rw [hf] at h; simp at h
    | some b =>
      cases hg : l.mapM f with
      | none => rw [hf, hg] at h; simp at h
      | some q =>
        rw [hf, hg] at h
        simp at h
        subst h
        rcases List.mem_cons.mp hy with rfl | hy
        · exact ⟨a, by simp, hf⟩
        · obtain ⟨x, hx, h2⟩ := ih hg y hy
          exact ⟨x, by simp [hx], h2⟩

/-- The free edges of an initialised front have the flags of boundary edges. -/
theorem initFront_props {sub : List (Fr.MVert K) → Fr.FEdge → Option (List (Pt K))} {st : List (Fr.MVert K)} {F : Fr.FID K}
    {vs : List (Fr.MVert K)} {es : List Fr.FEdge} {A : K} (h : Fr.initFront sub st F = some (vs, es, A)) :
    ∀ e ∈ es, e.isFixed = false → e.props = Flags.eOnBoundary := by
  unfold Fr.initFront at h
  cases h0 : Fr.initEdges st.length F with
  | none => rw [h0] at h; simp at h
  | some es0 =>
    rw [h0] at h
    dsimp only at h
    cases hr : Fr.refineEdges (sub (Fr.initVerts st F)) (Fr.initVerts st F) es0 with
    | none => rw [hr] at h; simp at h
    | some q =>
      rw [hr] at h
      simp only [Option.some.injEq, Prod.mk.injEq] at h
      obtain ⟨rfl, rfl, rfl⟩ := h
      have hm := refineEdges_marked _ es0 _ q (fun e he => by
        obtain ⟨i, _, hi⟩ := mapM_mem h0 e he
        exact initEdge_marked hi) hr
      intro e he hf
      unfold Fr.addGhosts at he
      rw [List.mem_flatMap] at he
      obtain ⟨x, hx, hxe⟩ := he
      have key : ∀ y, Marked y → y.isFixed = false → y.props = Flags.eOnBoundary := by
        rintro y ⟨b, hb⟩ hy
        unfold Fr.FEdge.isFixed at hy
        rw [hb] at hy ⊢
        cases b
        · decide
        · exact absurd hy (by decide)
      split_ifs at hxe with hxf
      · simp only [List.mem_cons, List.not_mem_nil, or_false] at hxe
        rcases hxe with rfl | rfl
        · exact absurd hf (by unfold Fr.FEdge.isFixed; dsimp only; decide)
        · exact key _ (hm _ hx) hf
      · simp only [List.mem_singleton] at hxe
        subst hxe
        exact key _ (hm _ hx) hf

/-- The boundary edges of a prepared mesh are marked as boundary edges and are no ghosts. -/
theorem prepared_plain {nbr : Fr.SrcEdge K → List (Fr.SrcEdge K)} {bd : List (List (Fr.SrcEdge K))} {fx : List (Fr.SrcEdge K)}
    (D : DomainData nbr bd fx) {P : Prep K} (hP : P.front = Fr.collect nbr bd fx) {w w' : World K} {a : Nat} (hw : WF (w a))
    (hr : ∀ x ∈ P.refs, x.1 ≠ a) (h : prepareMesh P w a = .ret true w') :
    ∀ b ∈ (w' a).es .bdry, (w' a).isInterior b = false ∧ (w' a).isGhost b = false := by
  obtain ⟨vs, es, A, hf, f1, f2, f3, f4, E, o1, o2⟩ := prepared_spec D hP hw hr h
  obtain ⟨hemp, _⟩ := prepare_steps h
  rw [isEmpty_iff] at hemp
  obtain ⟨_, hq, ht, hi, hb⟩ := hemp
  obtain ⟨c1, c2, c3, c4, c5, c6, c7, c8, c9, c10, c11, c12⟩ := addVerts_spec (vs ++ fixVerts P.fixed) (w a) hw
  obtain ⟨new, n1, n2, _⟩ := E.bdry
  rw [c4, hb, List.nil_append] at n1
  intro b hb'
  rw [n1] at hb'
  have hm : bare ((w' a).E b) ∈ new.map (fun e => bare ((w' a).E e)) := List.mem_map_of_mem (f := fun e => bare ((w' a).E e)) hb'
  rw [n2, List.mem_map] at hm
  obtain ⟨x, hx, hxe⟩ := hm
  have hx2 := List.mem_filter.mp hx
  have hp := initFront_props hf x hx2.1 (by simpa using hx2.2)
  have hq : ((w' a).E b).props = Flags.eOnBoundary := by
    have := congrArg (fun d : EData => d.props) hxe
    simp only [bareOf, bare] at this
    rw [← this, hp]
  unfold isInterior isGhost
  rw [hq]
  decide

/-! ### The first step -/

theorem facets_nil {s : St K} (ht : s.tris = []) (hq : s.quads = []) : facets s = [] := by
  unfold facets; rw [ht, hq]; rfl

/-- A mesh without elements whose boundary is simple: the start of the step. -/
theorem meshing_bare (eps : K) {s : St K} (h : WF s) (ht : s.tris = []) (hq : s.quads = []) (hi : s.es .intr = []) (hf : s.es .front = [])
    (hn : ∀ e ∈ s.es .bdry, (s.E e).fl = .null) (hp : ∀ b ∈ s.es .bdry, s.isInterior b = false ∧ s.isGhost b = false)
    (hsim : SimpleFront s.pos (pairs s .bdry)) : Meshing (MC.startStep eps s) := by
  obtain ⟨d1, d2, d3, d4, d5, d6, d7, d8⟩ := start_bare eps h ht hq hi hf hn
  generalize MC.startStep eps s = t at *
  have hpos : t.pos = s.pos := funext d2.pos
  have hbp : pairs t .bdry = pairs s .bdry := by
    unfold pairs
    rw [d4]
    exact List.map_congr_left fun e hem => by rw [d6 e hem]
  have hfn : facets t = [] := facets_nil (by rw [d2.tris, ht]) (by rw [d2.quads, hq])
  have has : allSides t = [] := by unfold allSides; rw [hfn]; rfl
  have hpl : ∀ k ∈ t.es .front, t.isInterior k = false ∧ t.isGhost k = false := by
    intro k hk
    obtain ⟨e, he, -, h2⟩ := d8 k hk
    have := hp e he
    unfold isInterior isGhost at this ⊢
    rw [h2]; exact this
  have hfF : frontOf t false = pairs t .front := by
    unfold frontOf pairs
    rw [List.filter_eq_self.mpr]
    intro k hk; simp [(hpl k hk).1]
  have hfT : frontOf t true = [] := by
    unfold frontOf
    rw [List.filter_eq_nil_iff.mpr]
    · rfl
    · intro k hk; simp [(hpl k hk).1]
  refine ⟨d1, ?_, ?_, ?_, ?_, ?_, ?_, fun k hk => (hpl k hk).2, ?_, ?_⟩
  · intro x hx
    unfold pieces at hx
    rw [hfn] at hx; simp at hx
  · rw [d3, hpos]; exact hsim
  · rw [hbp, hpos]; exact hsim
  · intro a b
    rw [has, d3, hbp]
    simp [FUSpec.chain]
  · intro a b
    rw [has, hfF, hfT, d3, hbp]
    have : pairs t .intr = [] := by unfold pairs; rw [d5]; rfl
    rw [this]
    simp [connecting]
  · intro e he
    rw [hfF, d3] at he
    rw [hbp]; exact he
  · intro b hb
    rw [d4] at hb
    have := hp b hb
    unfold isInterior isGhost at this ⊢
    rw [d6 b hb]; exact this
  · intro b hb _
    rw [d4] at hb
    rw [d6 b hb]; exact hn b hb

/-! ### Picking up a mesh -/

/-- If the flags of the front edges tell which of them are boundary edges, the two parts of the front are
determined by the boundary. -/
theorem frontOf_eq {s : St K} (h : ∀ k ∈ s.es .front, s.isInterior k = !decide (((s.E k).v1, (s.E k).v2) ∈ pairs s .bdry)) (i : Bool) :
    frontOf s i = (pairs s .front).filter fun x => (!decide (x ∈ pairs s .bdry)) == i := by
  unfold frontOf
  have : pairs s .front = (s.es .front).map fun e => ((s.E e).v1, (s.E e).v2) := rfl
  rw [this, List.filter_map]
  congr 1
  refine List.filter_congr fun k hk => ?_
  rw [h k hk]
  rfl

theorem meshing_flags {s : St K} (h : Meshing s) : ∀ k ∈ s.es .front, s.isInterior k = !decide (((s.E k).v1, (s.E k).v2) ∈ pairs s .bdry) := by
  intro k hk
  have hne := ((h.wf.ends _).2 k hk).2.2.2.1
  have n := meshing_numbers h hne
  have hf := count_pos_mem.mpr (mem_pairs_of hk)
  cases hi : s.isInterior k with
  | false =>
    have : ((s.E k).v1, (s.E k).v2) ∈ pairs s .bdry := h.marked _ (by
      unfold frontOf
      exact List.mem_map.mpr ⟨k, List.mem_filter.mpr ⟨hk, by simp [hi]⟩, rfl⟩)
    simp [this]
  | true =>
    have ht : 1 ≤ (frontOf s true).count ((s.E k).v1, (s.E k).v2) := count_pos_mem.mpr (by
      unfold frontOf
      exact List.mem_map.mpr ⟨k, List.mem_filter.mpr ⟨hk, by simp [hi]⟩, rfl⟩)
    have : ¬ ((s.E k).v1, (s.E k).v2) ∈ pairs s .bdry := by
      intro hb
      have hb := count_pos_mem.mpr hb
      obtain ⟨n1, n2, n3, n4, n5, n6, n7, n8, n9, n10, n11, n12, n13, n14⟩ := n
      have := n11 hf
      clear * - this n1 n2 n3 n4 n5 n6 n7 n8 n9 n10 n12 n13 n14 hb ht
      omega
    simp [this]

/-- Leaving a step and starting the next one keeps a simple domain partly meshed; the front has the same
edges. -/
theorem meshing_resume {eps : K} {s : St K} (h : Meshing s) (hlf : LeftFacets eps s) :
    Meshing (MC.startStep eps (MC.finishStep s)) ∧ SameElements s (MC.startStep eps (MC.finishStep s)) ∧
    (pairs (MC.startStep eps (MC.finishStep s)) .front).Perm (pairs s .front) := by
  obtain ⟨c1, c2, c3, c4, c5, c6, -, c8, c9⟩ := TQ.MC.resume (meshing_remaining h).1 hlf
  have hfl := meshing_flags h
  generalize MC.startStep eps (MC.finishStep s) = t at *
  have hpos : t.pos = s.pos := funext c2.pos
  have hbp : pairs t .bdry = pairs s .bdry := by
    unfold pairs
    rw [c4]
    exact List.map_congr_left fun e hem => (c5 e (Or.inr hem)).1
  have hip : pairs t .intr = pairs s .intr := by
    unfold pairs
    rw [c3]
    exact List.map_congr_left fun e hem => (c5 e (Or.inl hem)).1
  have hfc : facets t = facets s := by unfold facets; rw [c2.tris, c2.quads]
  have hcor : ∀ f, (t.F f).corners = (s.F f).corners := fun f => (c2.corners f).1
  have has : allSides t = allSides s := by unfold allSides; rw [hfc]; simp only [hcor]
  have hpc : pieces t = pieces s := by unfold pieces; rw [hfc]; simp only [hcor, hpos]
  have hnp : ∀ e, ¬ OnBdry s e → ((s.E e).v1, (s.E e).v2) ∉ pairs s .bdry := by
    intro e hn hm
    obtain ⟨b, hb, hbe⟩ := List.mem_map.mp hm
    simp only [Prod.mk.injEq] at hbe
    exact hn ⟨b, hb, Or.inl ⟨hbe.1.symm, hbe.2.symm⟩⟩
  have htf : ∀ k ∈ t.es .front, t.isInterior k = !decide (((t.E k).v1, (t.E k).v2) ∈ pairs t .bdry) := by
    intro k hk
    rw [hbp]
    rcases c8 k hk with ⟨b, hb, b1, b2⟩ | ⟨b1, e, he, b2, b3⟩
    · have h1 := (h.plain b hb).1
      have h2 : ((t.E k).v1, (t.E k).v2) ∈ pairs s .bdry := by
        have := mem_pairs_of hb
        rwa [show ((s.E b).v1, (s.E b).v2) = ((t.E k).v1, (t.E k).v2) from b1.symm] at this
      unfold isInterior at h1 ⊢
      rw [b2, h1]; simp [h2]
    · have h2 : ((t.E k).v1, (t.E k).v2) ∉ pairs s .bdry := by
        rw [show ((t.E k).v1, (t.E k).v2) = ((s.E e).v1, (s.E e).v2) from b3]
        exact hnp e b2
      unfold isInterior
      rw [b1]; simp [h2]; decide
  have hfo : ∀ i, (frontOf t i).Perm (frontOf s i) := by
    intro i
    rw [frontOf_eq htf, frontOf_eq hfl, hbp]
    exact c6.filter _
  refine ⟨⟨c1, ?_, ?_, ?_, ?_, ?_, ?_, ?_, ?_, ?_⟩, c2, c6⟩
  · rw [hpc, hpos]; exact h.ccw
  · rw [hpos]; exact simple_perm c6.symm h.front
  · rw [hbp, hpos]; exact h.bdry
  · intro a b
    rw [has, hbp, chain_perm c6]; exact h.chain a b
  · intro a b
    rw [has, hbp, hip, connecting_perm (hfo false), connecting_perm (hfo true)]
    exact h.count a b
  · intro e he
    rw [hbp]
    exact h.marked e ((hfo false).mem_iff.mp he)
  · intro k hk
    rcases c8 k hk with ⟨b, hb, b1, b2⟩ | ⟨b1, e, he, b2, b3⟩
    · have := (h.plain b hb).2
      unfold isGhost at this ⊢
      rw [b2]; exact this
    · unfold isGhost; rw [b1]; decide
  · intro b hb
    rw [c4] at hb
    have := h.plain b hb
    unfold isInterior isGhost at this ⊢
    rw [(c5 b (Or.inr hb)).2.2]; exact this
  · intro b hb hno
    rw [c4] at hb
    have hp : (t.E b).v1 = (s.E b).v1 ∧ (t.E b).v2 = (s.E b).v2 := by
      have := (c5 b (Or.inr hb)).1
      simpa [TQ.MC.pairOf] using this
    refine c9 b hb fun f hf hside => hno f ?_ ?_
    · cases f with
      | null => exact absurd hf (by simp [Live])
      | tri x => show x ∈ t.tris; rw [c2.tris]; exact hf
      | quad x => show x ∈ t.quads; rw [c2.quads]; exact hf
    · rw [hp.1, hp.2]
      unfold HasSide at hside ⊢
      rw [hcor]; exact hside

end TQ.Whole
