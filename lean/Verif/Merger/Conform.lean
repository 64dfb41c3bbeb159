import Verif.Merger.Transfer
import Verif.Refinement.Geom

/-! # The merged mesh is conforming -/

set_option linter.unusedSectionVars false
set_option linter.unusedSimpArgs false

namespace TQ.MergeSpec
open TQ.MS TQ.MeshSpec TQ.MCSpec TQ.RefSpec TQ.MM
variable {K : Type*} [Field K] [LinearOrder K]

/-- Edges of the two meshes between the same points are twins. -/
def Matching (w : World K) (ri di : Nat) : Prop :=
  ∀ e, IsEdge (w ri) e → ∀ e', IsEdge (w di) e' →
    (((w ri).pos ((w ri).E e).v1 = (w di).pos ((w di).E e').v1 ∧ (w ri).pos ((w ri).E e).v2 = (w di).pos ((w di).E e').v2) ∨
     ((w ri).pos ((w ri).E e).v1 = (w di).pos ((w di).E e').v2 ∧ (w ri).pos ((w ri).E e).v2 = (w di).pos ((w di).E e').v1)) →
    e ∈ (w ri).es .bdry ∧ ((w ri).E e).twin = some (di, e')

end TQ.MergeSpec

namespace TQ.MM
open TQ.MS TQ.MS.St TQ.MC TQ.MeshSpec TQ.MCSpec TQ.RefSpec TQ.MergeSpec
variable {K : Type*} [Field K] [LinearOrder K]

theorem forall₂_fun {R : Nat → Nat → Prop} : ∀ {l n : List Nat}, l.Nodup → List.Forall₂ R l n →
    ∃ g : Nat → Nat, n = l.map g ∧ ∀ x ∈ l, R x (g x) := by
  intro l
  induction l with
  | nil => intro n _ h; cases h; exact ⟨id, rfl, by simp⟩
  | cons a l ih =>
    intro n hn h
    cases h with
    | cons h1 h2 =>
      next b n =>
      rw [List.nodup_cons] at hn
      obtain ⟨g, hg, hR⟩ := ih hn.2 h2
      refine ⟨fun x => if x = a then b else g x, ?_, ?_⟩
      · rw [List.map_cons, if_pos rfl, hg]
        congr 1
        refine List.map_congr_left fun x hx => ?_
        rw [if_neg (by rintro rfl; exact hn.1 hx)]
      · intro x hx
        rw [List.mem_cons] at hx
        by_cases hxa : x = a
        · subst hxa; simpa using h1
        · show R x (if x = a then b else g x)
          rw [if_neg hxa]; exact hR x (hx.resolve_left hxa)

/-- The merged mesh by maps: `φ` for vertices of the donor, `κ` for its elements, `ρ` for edges of the
receiver, `δ` for edges of the donor off the interface. -/
structure Glued (w w' : World K) (ri di : Nat) (φ : Nat → Nat) (κ : FRef → FRef) (ρ δ : Nat → Nat) : Prop where
  adj : Adjacent w ri di
  mer : Merged w w' ri di φ
  wf : WF (w' ri)
  tris : (w' ri).tris.map FRef.tri = (w ri).tris.map FRef.tri ++ ((w di).tris.map FRef.tri).map κ
  quads : (w' ri).quads.map FRef.quad = (w ri).quads.map FRef.quad ++ ((w di).quads.map FRef.quad).map κ
  copies : ∀ f, Live (w di) f → CopiedF (w di) (w' ri) (w ri).color φ f (κ f)
  intr : (w' ri).es .intr = (w ri).es .intr ++ ((w di).es .intr).map δ ++ (((w ri).es .bdry).filter fun e => Iface w ri di e).map ρ
  bdry : (w' ri).es .bdry = (((w ri).es .bdry).filter fun e => ¬ Iface w ri di e) ++ (((w di).es .bdry).filter fun e => ¬ Iface w di ri e).map δ
  rho : ∀ e, IsEdge (w ri) e → ((w' ri).E (ρ e)).v1 = ((w ri).E e).v1 ∧ ((w' ri).E (ρ e)).v2 = ((w ri).E e).v2
  rhoId : ∀ e, IsEdge (w ri) e → ¬ (e ∈ (w ri).es .bdry ∧ Iface w ri di e) → ρ e = e
  delta : ∀ e, IsEdge (w di) e → ¬ (e ∈ (w di).es .bdry ∧ Iface w di ri e) →
    ((w' ri).E (δ e)).v1 = φ ((w di).E e).v1 ∧ ((w' ri).E (δ e)).v2 = φ ((w di).E e).v2
  deltaB : ∀ e ∈ (w di).es .bdry, ¬ Iface w di ri e → ((w' ri).E (δ e)).color = ((w di).E e).color ∧
    ((w' ri).E (δ e)).props = ((w di).E e).props ∧ ((w' ri).E (δ e)).twin = ((w di).E e).twin ∧
    ∀ z, ((w di).E e).twin = some z → ((w' z.1).E z.2).twin = some (ri, δ e)

theorem list_disj {s : St K} (h : WF s) {e : Nat} (h1 : e ∈ s.es .intr) (h2 : e ∈ s.es .bdry) : False := by
  have := ((h.ends _).2 e h1).1.symm.trans ((h.ends _).2 e h2).1
  simp at this

theorem glued {w w' : World K} {ri di : Nat} {φ : Nat → Nat} (A : Adjacent w ri di) (M : Merged w w' ri di φ) (h : WF (w' ri)) :
    ∃ κ ρ δ, Glued w w' ri di φ κ ρ δ := by
  have wR := A.receiver.wf
  have wD := A.donor.wf
  obtain ⟨nt, t1, t2⟩ := M.tris
  obtain ⟨nq, q1, q2⟩ := M.quads
  obtain ⟨ni, nc, i1, i2, i3⟩ := M.intr
  obtain ⟨nb, b1, b2⟩ := M.bdry
  obtain ⟨gt, t3, t4⟩ := forall₂_fun wD.tnd t2
  obtain ⟨gq, q3, q4⟩ := forall₂_fun wD.qnd q2
  obtain ⟨gi, i4, i5⟩ := forall₂_fun (wD.ends _).1 i2
  obtain ⟨gc, i6, i7⟩ := forall₂_fun ((wR.ends _).1.filter _) i3
  obtain ⟨gb, b3, b4⟩ := forall₂_fun ((wD.ends _).1.filter _) b2
  have hρ : ∀ e ∈ ((w ri).es .bdry).filter (fun e => Iface w ri di e), (if e ∈ (w ri).es .bdry ∧ Iface w ri di e then gc e else e) = gc e := by
    intro e he
    rw [List.mem_filter] at he
    exact if_pos ⟨he.1, of_decide_eq_true he.2⟩
  refine ⟨fun f => match f with | .tri x => .tri (gt x) | .quad x => .quad (gq x) | .null => .null,
    fun e => if e ∈ (w ri).es .bdry ∧ Iface w ri di e then gc e else e,
    fun e => if e ∈ (w di).es .intr then gi e else gb e, ?_⟩
  refine { adj := A, mer := M, wf := h, tris := ?_, quads := ?_, copies := ?_, intr := ?_, bdry := ?_, rho := ?_, rhoId := ?_, delta := ?_, deltaB := ?_ }
  · rw [t1, t3, List.map_append, List.map_map, List.map_map]; rfl
  · rw [q1, q3, List.map_append, List.map_map, List.map_map]; rfl
  · intro f hf
    match f, hf with
    | .tri x, hx => exact t4 x hx
    | .quad x, hx => exact q4 x hx
  · rw [i1, i4, i6]
    congr 1
    · congr 1
      exact List.map_congr_left fun e he => (if_pos he).symm
    · exact List.map_congr_left fun e he => (hρ e he).symm
  · rw [b1, b3]
    congr 1
    refine List.map_congr_left fun e he => (if_neg fun h2 => ?_).symm
    exact list_disj wD h2 (List.mem_of_mem_filter he)
  · intro e he
    by_cases hh : e ∈ (w ri).es .bdry ∧ Iface w ri di e
    · simp only [if_pos hh]
      have := i7 e (List.mem_filter.mpr ⟨hh.1, decide_eq_true hh.2⟩)
      exact ⟨this.1, this.2.1⟩
    · simp only [if_neg hh]
      rcases he with he | he
      · have := M.oldE _ e he; exact ⟨this.1, this.2.1⟩
      · have := M.oldE _ e he; exact ⟨this.1, this.2.1⟩
  · intro e _ hh; exact if_neg hh
  · intro e he hh
    by_cases hi : e ∈ (w di).es .intr
    · simp only [if_pos hi]
      have := (i5 e hi).1; exact ⟨this.1, this.2.1⟩
    · simp only [if_neg hi]
      have hb := he.resolve_left hi
      have := (b4 e (List.mem_filter.mpr ⟨hb, decide_eq_true fun h2 => hh ⟨hb, h2⟩⟩)).1
      exact ⟨this.1, this.2.1⟩
  · intro e he hi
    simp only [if_neg fun h2 => list_disj wD h2 he]
    obtain ⟨k1, k2, k3, k4⟩ := b4 e (List.mem_filter.mpr ⟨he, decide_eq_true hi⟩)
    exact ⟨k2, k1.2.2, k3, k4⟩

namespace Glued
variable {w w' : World K} {ri di : Nat} {φ : Nat → Nat} {κ : FRef → FRef} {ρ δ : Nat → Nat} (G : Glued w w' ri di φ κ ρ δ)
include G

omit G in
theorem mem_facets_map {s : St K} {f : FRef} : Live s f ↔ f ∈ s.tris.map FRef.tri ++ s.quads.map FRef.quad := by
  cases f <;> simp [Live]

/-- The elements of the merged mesh. -/
theorem live {f : FRef} : Live (w' ri) f ↔ Live (w ri) f ∨ ∃ g, Live (w di) g ∧ κ g = f := by
  rw [mem_facets_map, G.tris, G.quads]
  simp only [List.mem_append, List.mem_map (f := κ)]
  simp only [mem_facets_map, List.mem_append]
  constructor
  · rintro ((h | ⟨g, h1, h2⟩) | h | ⟨g, h1, h2⟩)
    · exact Or.inl (Or.inl h)
    · exact Or.inr ⟨g, Or.inl h1, h2⟩
    · exact Or.inl (Or.inr h)
    · exact Or.inr ⟨g, Or.inr h1, h2⟩
  · rintro ((h | h) | ⟨g, h1 | h1, h2⟩)
    · exact Or.inl (Or.inl h)
    · exact Or.inr (Or.inl h)
    · exact Or.inl (Or.inr ⟨g, h1, h2⟩)
    · exact Or.inr (Or.inr ⟨g, h1, h2⟩)

theorem side_old {f : FRef} (hf : Live (w ri) f) (a b : Nat) : HasSide (w' ri) f a b ↔ HasSide (w ri) f a b := by
  unfold HasSide; rw [(G.mer.oldF f hf).1]

omit G in
theorem sideAt_map (cs : List Nat) (i : Nat) : sideAt (cs.map φ) i = (sideAt cs i).map fun p => (φ p.1, φ p.2) := by
  unfold sideAt
  simp only [List.length_map, List.getElem?_map]
  cases cs[(i + 1) % cs.length]? <;> cases cs[(i + 2) % cs.length]? <;> simp

theorem side_new {g : FRef} (hg : Live (w di) g) (a b : Nat) : HasSide (w' ri) (κ g) a b ↔ ∃ a' b', HasSide (w di) g a' b' ∧ φ a' = a ∧ φ b' = b := by
  unfold HasSide
  rw [(G.copies g hg).1]
  simp only [List.length_map, sideAt_map, Option.map_eq_some_iff, Prod.mk.injEq]
  constructor
  · rintro ⟨i, hi, ⟨p, q⟩, h1, h2, h3⟩
    exact ⟨p, q, ⟨i, hi, h1⟩, h2, h3⟩
  · rintro ⟨p, q, ⟨i, hi, h1⟩, h2, h3⟩
    exact ⟨i, hi, ⟨p, q⟩, h1, h2, h3⟩

theorem covered (a b : Nat) : Covered (w' ri) a b ↔ Covered (w ri) a b ∨ ∃ a' b', Covered (w di) a' b' ∧ φ a' = a ∧ φ b' = b := by
  unfold Covered
  constructor
  · rintro ⟨f, hf, hs⟩
    rcases G.live.mp hf with h | ⟨g, h1, rfl⟩
    · exact Or.inl ⟨f, h, (G.side_old h a b).mp hs⟩
    · obtain ⟨a', b', h3, h4, h5⟩ := (G.side_new h1 a b).mp hs
      exact Or.inr ⟨a', b', ⟨g, h1, h3⟩, h4, h5⟩
  · rintro (⟨f, hf, hs⟩ | ⟨a', b', ⟨g, hg, hs⟩, h1, h2⟩)
    · exact ⟨f, G.live.mpr (Or.inl hf), (G.side_old hf a b).mpr hs⟩
    · exact ⟨κ g, G.live.mpr (Or.inr ⟨g, hg, rfl⟩), (G.side_new hg a b).mpr ⟨a', b', hs, h1, h2⟩⟩

omit G in
theorem covered_verts {s : St K} (h : WF s) {a b : Nat} (hc : Covered s a b) : a ∈ s.verts ∧ b ∈ s.verts := by
  obtain ⟨f, hf, i, hi, hs⟩ := hc
  have hc := (h.cor f hf).2
  unfold sideAt at hs
  split at hs
  · next x y hx hy =>
    simp only [Option.some.injEq, Prod.mk.injEq] at hs
    obtain ⟨rfl, rfl⟩ := hs
    exact ⟨hc _ (List.mem_of_getElem? hx), hc _ (List.mem_of_getElem? hy)⟩
  · cases hs

theorem posMap {a' a : Nat} (h1 : a' ∈ (w di).verts) (h2 : a ∈ (w ri).verts) (h : φ a' = a) : (w ri).pos a = (w di).pos a' := by
  rw [← G.mer.pos a' h1, h, (G.mer.old a h2).1]

/-- An edge of the receiver and an edge of the donor on the same vertices of the merged mesh are twins. -/
theorem twins (m : Matching w ri di) {e e' a b a' b' : Nat} (he : IsEdge (w ri) e) (he' : IsEdge (w di) e')
    (hc : Connects (w ri) e a b) (hc' : Connects (w di) e' a' b') (ha : φ a' = a) (hb : φ b' = b) :
    e ∈ (w ri).es .bdry ∧ ((w ri).E e).twin = some (di, e') := by
  have wR := G.adj.receiver.wf
  have wD := G.adj.donor.wf
  have ve : ∀ {s : St K}, WF s → ∀ {x}, IsEdge s x → (s.E x).v1 ∈ s.verts ∧ (s.E x).v2 ∈ s.verts := fun h x hx => by
    rcases hx with hx | hx
    · exact ⟨((h.ends _).2 _ hx).2.1, ((h.ends _).2 _ hx).2.2.1⟩
    · exact ⟨((h.ends _).2 _ hx).2.1, ((h.ends _).2 _ hx).2.2.1⟩
  obtain ⟨r1, r2⟩ := ve wR he
  obtain ⟨d1, d2⟩ := ve wD he'
  apply m e he e' he'
  unfold Connects at hc hc'
  rcases hc with ⟨h1, h2⟩ | ⟨h1, h2⟩ <;> rcases hc' with ⟨h3, h4⟩ | ⟨h3, h4⟩
  · exact Or.inl ⟨G.posMap d1 r1 (by rw [h3, h1, ha]), G.posMap d2 r2 (by rw [h4, h2, hb])⟩
  · exact Or.inr ⟨G.posMap d2 r1 (by rw [h4, h1, ha]), G.posMap d1 r2 (by rw [h3, h2, hb])⟩
  · exact Or.inr ⟨G.posMap d2 r1 (by rw [h4, h1, hb]), G.posMap d1 r2 (by rw [h3, h2, ha])⟩
  · exact Or.inl ⟨G.posMap d1 r1 (by rw [h3, h1, hb]), G.posMap d2 r2 (by rw [h4, h2, ha])⟩

omit G in
/-- An element at a boundary edge runs along it. -/
theorem along {s : St K} (p : Proper s) {e a b : Nat} (he : e ∈ s.es .bdry) (hc : Connects s e a b) (hv : Covered s a b) :
    (s.E e).v1 = a ∧ (s.E e).v2 = b := by
  rcases hc with h | h
  · exact h
  · exfalso; apply p.right e he; rw [h.1, h.2]; exact hv

/-- No side of an element of the receiver is a side of an element of the donor in the same direction. -/
theorem sides_differ (m : Matching w ri di) {a b a' b' : Nat} (h1 : Covered (w ri) a b) (h2 : Covered (w di) a' b')
    (ha : φ a' = a) (hb : φ b' = b) : False := by
  obtain ⟨e, he, hc⟩ := G.adj.receiver.sides a b h1
  obtain ⟨e', he', hc'⟩ := G.adj.donor.sides a' b' h2
  obtain ⟨k1, k2⟩ := G.twins m he he' hc hc' ha hb
  obtain ⟨l1, _, _, _⟩ := G.adj.link e k1 e' k2
  obtain ⟨g1, g2⟩ := G.mer.glue e k1 e' k2
  obtain ⟨x1, x2⟩ := along G.adj.receiver k1 hc h1
  obtain ⟨y1, y2⟩ := along G.adj.donor l1 hc' h2
  rw [y1, ha] at g1
  exact ((G.adj.receiver.wf.ends _).2 e k1).2.2.2.1 (by rw [x1, g1])

theorem dir (m : Matching w ri di) : DirUnique (w' ri) := by
  intro f g a b hf hg h1 h2
  rcases G.live.mp hf with kf | ⟨f', kf, rfl⟩ <;> rcases G.live.mp hg with kg | ⟨g', kg, rfl⟩
  · exact G.adj.receiver.dir f g a b kf kg ((G.side_old kf a b).mp h1) ((G.side_old kg a b).mp h2)
  · obtain ⟨a', b', h3, h4, h5⟩ := (G.side_new kg a b).mp h2
    exact (G.sides_differ m ⟨f, kf, (G.side_old kf a b).mp h1⟩ ⟨g', kg, h3⟩ h4 h5).elim
  · obtain ⟨a', b', h3, h4, h5⟩ := (G.side_new kf a b).mp h1
    exact (G.sides_differ m ⟨g, kg, (G.side_old kg a b).mp h2⟩ ⟨f', kf, h3⟩ h4 h5).elim
  · obtain ⟨a', b', h3, h4, h5⟩ := (G.side_new kf a b).mp h1
    obtain ⟨a2, b2, k3, k4, k5⟩ := (G.side_new kg a b).mp h2
    have v1 := covered_verts G.adj.donor.wf ⟨f', kf, h3⟩
    have v2 := covered_verts G.adj.donor.wf ⟨g', kg, k3⟩
    have e1 := G.mer.inj a' v1.1 a2 v2.1 (h4.trans k4.symm)
    have e2 := G.mer.inj b' v1.2 b2 v2.2 (h5.trans k5.symm)
    subst e1 e2
    rw [G.adj.donor.dir f' g' a' b' kf kg h3 k3]

/-- Every edge of the receiver has its place in the merged mesh. -/
theorem edge_old {e : Nat} (he : IsEdge (w ri) e) : IsEdge (w' ri) (ρ e) := by
  unfold IsEdge
  rw [G.intr, G.bdry]
  simp only [List.mem_append, List.mem_map]
  by_cases hh : e ∈ (w ri).es .bdry ∧ Iface w ri di e
  · exact Or.inl (Or.inr ⟨e, List.mem_filter.mpr ⟨hh.1, decide_eq_true hh.2⟩, rfl⟩)
  · rw [G.rhoId e he hh]
    rcases he with he | he
    · exact Or.inl (Or.inl (Or.inl he))
    · exact Or.inr (Or.inl (List.mem_filter.mpr ⟨he, decide_eq_true fun h2 => hh ⟨he, h2⟩⟩))

theorem edge_new {e : Nat} (he : IsEdge (w di) e) (hh : ¬ (e ∈ (w di).es .bdry ∧ Iface w di ri e)) : IsEdge (w' ri) (δ e) := by
  unfold IsEdge
  rw [G.intr, G.bdry]
  simp only [List.mem_append, List.mem_map]
  rcases he with he | he
  · exact Or.inl (Or.inl (Or.inr ⟨e, he, rfl⟩))
  · exact Or.inr (Or.inr ⟨e, List.mem_filter.mpr ⟨he, decide_eq_true fun h2 => hh ⟨he, h2⟩⟩, rfl⟩)

/-- All edges of the merged mesh. -/
theorem edges {x : Nat} (hx : IsEdge (w' ri) x) : (∃ e, IsEdge (w ri) e ∧ ρ e = x) ∨
    ∃ e, IsEdge (w di) e ∧ ¬ (e ∈ (w di).es .bdry ∧ Iface w di ri e) ∧ δ e = x := by
  unfold IsEdge at hx
  rw [G.intr, G.bdry] at hx
  simp only [List.mem_append, List.mem_map] at hx
  rcases hx with ((hx | ⟨e, he, rfl⟩) | ⟨e, he, rfl⟩) | hx | ⟨e, he, rfl⟩
  · refine Or.inl ⟨x, Or.inl hx, G.rhoId x (Or.inl hx) fun h2 => list_disj G.adj.receiver.wf hx h2.1⟩
  · exact Or.inr ⟨e, Or.inl he, fun h2 => list_disj G.adj.donor.wf he h2.1, rfl⟩
  · exact Or.inl ⟨e, Or.inr (List.mem_of_mem_filter he), rfl⟩
  · rw [List.mem_filter] at hx
    exact Or.inl ⟨x, Or.inr hx.1, G.rhoId x (Or.inr hx.1) fun h2 => of_decide_eq_true hx.2 h2.2⟩
  · rw [List.mem_filter] at he
    exact Or.inr ⟨e, Or.inr he.1, fun h2 => of_decide_eq_true he.2 h2.2, rfl⟩

theorem proper (m : Matching w ri di) : Proper (w' ri) where
  wf := G.wf
  dir := G.dir m
  sides := by
    intro a b hc
    rcases (G.covered a b).mp hc with h | ⟨a', b', h, rfl, rfl⟩
    · obtain ⟨e, he, hh⟩ := G.adj.receiver.sides a b h
      refine ⟨ρ e, G.edge_old he, ?_⟩
      unfold Connects at hh ⊢
      rw [(G.rho e he).1, (G.rho e he).2]; exact hh
    · obtain ⟨e, he, hh⟩ := G.adj.donor.sides a' b' h
      by_cases hi : e ∈ (w di).es .bdry ∧ Iface w di ri e
      · obtain ⟨hb, e', ht⟩ := hi
        obtain ⟨k1, k2⟩ := G.adj.back e hb e' ht
        obtain ⟨g1, g2⟩ := G.mer.glue e' k1 e k2
        refine ⟨ρ e', G.edge_old (Or.inr k1), ?_⟩
        unfold Connects at hh ⊢
        rw [(G.rho e' (Or.inr k1)).1, (G.rho e' (Or.inr k1)).2, ← g1, ← g2]
        rcases hh with ⟨rfl, rfl⟩ | ⟨rfl, rfl⟩
        · exact Or.inr ⟨rfl, rfl⟩
        · exact Or.inl ⟨rfl, rfl⟩
      · refine ⟨δ e, G.edge_new he hi, ?_⟩
        unfold Connects at hh ⊢
        rw [(G.delta e he hi).1, (G.delta e he hi).2]
        rcases hh with ⟨rfl, rfl⟩ | ⟨rfl, rfl⟩
        · exact Or.inl ⟨rfl, rfl⟩
        · exact Or.inr ⟨rfl, rfl⟩
  right := by
    intro x hx hcov
    rw [G.bdry, List.mem_append, List.mem_map] at hx
    rcases hx with hx | ⟨e, he, rfl⟩
    · rw [List.mem_filter] at hx
      have hni := of_decide_eq_true hx.2
      have hr := G.rho x (Or.inr hx.1)
      rw [G.rhoId x (Or.inr hx.1) fun h2 => hni h2.2] at hr
      rw [hr.1, hr.2] at hcov
      rcases (G.covered _ _).mp hcov with h | ⟨a', b', h, h1, h2⟩
      · exact G.adj.receiver.right x hx.1 h
      · obtain ⟨e', he', hc'⟩ := G.adj.donor.sides a' b' h
        exact hni ⟨e', (G.twins m (Or.inr hx.1) he' (Or.inr ⟨rfl, rfl⟩) hc' h1 h2).2⟩
    · rw [List.mem_filter] at he
      have hni := of_decide_eq_true he.2
      have hr := G.delta e (Or.inr he.1) fun h2 => hni h2.2
      rw [hr.1, hr.2] at hcov
      have hvs := (G.adj.donor.wf.ends _).2 e he.1
      rcases (G.covered _ _).mp hcov with h | ⟨a', b', h, h1, h2⟩
      · obtain ⟨x, hx, hc⟩ := G.adj.receiver.sides _ _ h
        obtain ⟨k1, k2⟩ := G.twins m hx (Or.inr he.1) hc (Or.inr ⟨rfl, rfl⟩) rfl rfl
        exact hni ⟨x, (G.adj.link x k1 e k2).2.1⟩
      · have hv := covered_verts G.adj.donor.wf h
        have e1 := G.mer.inj a' hv.1 _ hvs.2.2.1 h1
        have e2 := G.mer.inj b' hv.2 _ hvs.2.1 h2
        rw [e1, e2] at h
        exact G.adj.donor.right e he.1 h

theorem old_verts {e : Nat} (he : IsEdge (w di) e) : ((w di).E e).v1 ∈ (w di).verts ∧ ((w di).E e).v2 ∈ (w di).verts := by
  have h := G.adj.donor.wf
  rcases he with hx | hx
  · exact ⟨((h.ends _).2 _ hx).2.1, ((h.ends _).2 _ hx).2.2.1⟩
  · exact ⟨((h.ends _).2 _ hx).2.1, ((h.ends _).2 _ hx).2.2.1⟩

theorem conforming (m : Matching w ri di) (cr : Conforming (w ri)) (cd : Conforming (w di)) : Conforming (w' ri) where
  toProper := G.proper m
  unique := by
    have mixed : ∀ e e', IsEdge (w ri) e → IsEdge (w di) e' → ¬ (e' ∈ (w di).es .bdry ∧ Iface w di ri e') → ¬ SameEnds (w' ri) (ρ e) (δ e') := by
      intro e e' he he' hi hs
      unfold SameEnds at hs
      rw [(G.rho e he).1, (G.rho e he).2, (G.delta e' he' hi).1, (G.delta e' he' hi).2] at hs
      have : e ∈ (w ri).es .bdry ∧ ((w ri).E e).twin = some (di, e') := by
        rcases hs with ⟨h1, h2⟩ | ⟨h1, h2⟩
        · exact G.twins m he he' (Or.inl ⟨h1, h2⟩) (Or.inl ⟨rfl, rfl⟩) rfl rfl
        · exact G.twins m he he' (Or.inr ⟨h1, h2⟩) (Or.inl ⟨rfl, rfl⟩) rfl rfl
      have hl := G.adj.link e this.1 e' this.2
      exact hi ⟨hl.1, e, hl.2.1⟩
    intro x hx y hy hs
    rcases G.edges hx with ⟨e, he, rfl⟩ | ⟨e, he, hi, rfl⟩ <;> rcases G.edges hy with ⟨e', he', rfl⟩ | ⟨e', he', hi', rfl⟩
    · unfold SameEnds at hs
      rw [(G.rho e he).1, (G.rho e he).2, (G.rho e' he').1, (G.rho e' he').2] at hs
      rw [cr.unique e he e' he' hs]
    · exact (mixed e e' he he' hi' hs).elim
    · exact (mixed e' e he' he hi (by
        rcases hs with ⟨h1, h2⟩ | ⟨h1, h2⟩
        · exact Or.inl ⟨h1.symm, h2.symm⟩
        · exact Or.inr ⟨h2.symm, h1.symm⟩)).elim
    · unfold SameEnds at hs
      rw [(G.delta e he hi).1, (G.delta e he hi).2, (G.delta e' he' hi').1, (G.delta e' he' hi').2] at hs
      have v := G.old_verts he
      have v' := G.old_verts he'
      rw [cd.unique e he e' he' ?_]
      rcases hs with ⟨h1, h2⟩ | ⟨h1, h2⟩
      · exact Or.inl ⟨G.mer.inj _ v.1 _ v'.1 h1, G.mer.inj _ v.2 _ v'.2 h2⟩
      · exact Or.inr ⟨G.mer.inj _ v.1 _ v'.2 h1, G.mer.inj _ v.2 _ v'.1 h2⟩
  intrFull := by
    intro x hx
    rw [G.intr, List.mem_append, List.mem_append, List.mem_map, List.mem_map] at hx
    simp only [G.covered]
    rcases hx with (hx | ⟨e, he, rfl⟩) | ⟨e, he, rfl⟩
    · have hr := G.rho x (Or.inl hx)
      rw [G.rhoId x (Or.inl hx) fun h2 => list_disj G.adj.receiver.wf hx h2.1] at hr
      rw [hr.1, hr.2]
      exact ⟨Or.inl (cr.intrFull x hx).1, Or.inl (cr.intrFull x hx).2⟩
    · have hr := G.delta e (Or.inl he) fun h2 => list_disj G.adj.donor.wf he h2.1
      rw [hr.1, hr.2]
      exact ⟨Or.inr ⟨_, _, (cd.intrFull e he).1, rfl, rfl⟩, Or.inr ⟨_, _, (cd.intrFull e he).2, rfl, rfl⟩⟩
    · rw [List.mem_filter] at he
      obtain ⟨e', ht⟩ := of_decide_eq_true he.2
      have hr := G.rho e (Or.inr he.1)
      have g := G.mer.glue e he.1 e' ht
      rw [hr.1, hr.2]
      exact ⟨Or.inl (cr.bdryFull e he.1), Or.inr ⟨_, _, cd.bdryFull e' (G.adj.link e he.1 e' ht).1, g.1, g.2⟩⟩
  bdryFull := by
    intro x hx
    rw [G.bdry, List.mem_append, List.mem_map] at hx
    rw [G.covered]
    rcases hx with hx | ⟨e, he, rfl⟩
    · rw [List.mem_filter] at hx
      have hni := of_decide_eq_true hx.2
      have hr := G.rho x (Or.inr hx.1)
      rw [G.rhoId x (Or.inr hx.1) fun h2 => hni h2.2] at hr
      rw [hr.1, hr.2]
      exact Or.inl (cr.bdryFull x hx.1)
    · rw [List.mem_filter] at he
      have hni := of_decide_eq_true he.2
      have hr := G.delta e (Or.inr he.1) fun h2 => hni h2.2
      rw [hr.1, hr.2]
      exact Or.inr ⟨_, _, cd.bdryFull e he.1, rfl, rfl⟩

/-- The corners of an element of the merged mesh and their positions. -/
theorem corners_old {f : FRef} (hf : Live (w ri) f) : ((w' ri).F f).corners = ((w ri).F f).corners ∧
    ∀ c ∈ ((w ri).F f).corners, (w' ri).pos c = (w ri).pos c :=
  ⟨(G.mer.oldF f hf).1, fun c hc => (G.mer.old c ((G.adj.receiver.wf.cor f hf).2 c hc)).1⟩

theorem corners_new {f : FRef} (hf : Live (w di) f) : ((w' ri).F (κ f)).corners = ((w di).F f).corners.map φ ∧
    ∀ c ∈ ((w di).F f).corners, (w' ri).pos (φ c) = (w di).pos c :=
  ⟨(G.copies f hf).1, fun c hc => G.mer.pos c ((G.adj.donor.wf.cor f hf).2 c hc)⟩

end Glued

end TQ.MM
