import Verif.Whole.SizeModel
import Verif.Whole.SizeSpec
import Verif.Whole.FileStart
import Verif.Domain.Props
import Verif.Front.GradedProps

/-! # Helper lemmas on the sizes of a domain built from a drawing -/

set_option linter.unusedSectionVars false

namespace TQ
open OutlSpec FlSpec Fl Cf Sh Dom FrSpec
variable {K : Type} [Field K] [LinearOrder K] [IsStrictOrderedRing K]

theorem pickVert_sizes {st : List (BVert K)} {r : Option Nat} {xy pr : Pt K} : ∀ v ∈ (pickVert st r xy pr).2, v ∈ st ∨ v.size = pr.x := by
  intro v hv
  have hk : v ∈ st ++ [⟨xy, pr.x, pr.y⟩] → v ∈ st ∨ v.size = pr.x := by
    intro h
    rcases List.mem_append.mp h with h | h
    · exact Or.inl h
    · rw [List.mem_singleton.mp h]; exact Or.inr rfl
  unfold pickVert at hv
  split at hv
  · split at hv
    · split_ifs at hv
      · exact Or.inl hv
      · exact hk hv
    · exact hk hv
  · exact hk hv

theorem gatherVerts_sizes {nearest : List (BVert K) → Pt K → Out (Option Nat)} {cs : List (Pt K)} : ∀ {props : List (Pt K)} {st st' : List (BVert K)} {is : List Nat},
    gatherVerts nearest cs props st = .ok (is, st') → ∀ v ∈ st', v ∈ st ∨ ∃ p ∈ props, v.size = p.x := by
  induction cs with
  | nil =>
    intro props st st' is h v hv
    simp only [gatherVerts, Out.ok.injEq, Prod.mk.injEq] at h
    rw [h.2]; exact Or.inl hv
  | cons xy cs ih =>
    intro props st st' is h v hv
    cases props with
    | nil => simp [gatherVerts] at h
    | cons pr props =>
      rw [gatherVerts] at h
      split at h
      · cases h
      · cases h
      · rename_i r _
        split at h
        · rename_i is' st1 hg
          simp only [Out.ok.injEq, Prod.mk.injEq] at h
          obtain ⟨-, rfl⟩ := h
          rcases ih hg v hv with hv | ⟨p, hp, e⟩
          · rcases pickVert_sizes v hv with hv | hv
            · exact Or.inl hv
            · exact Or.inr ⟨pr, List.mem_cons_self .., hv⟩
          · exact Or.inr ⟨p, List.mem_cons_of_mem _ hp, e⟩
        · cases h
        · cases h

theorem createShape_sizes {nearest : List (BVert K) → Pt K → Out (Option Nat)} {bt : BdryType} {st st' : List (BVert K)} {L L' : EList K} {coords props : List (Pt K)} {colors : List Int}
    (h : createShape nearest bt st L coords props colors = .ok (st', L')) : ∀ v ∈ st', v ∈ st ∨ ∃ p ∈ props, v.size = p.x := by
  intro v hv
  unfold createShape at h
  split_ifs at h
  · simp only [Out.ok.injEq, Prod.mk.injEq] at h
    rw [h.1]; exact Or.inl hv
  · dsimp only at h
    split at h
    · cases h
    · cases h
    · rename_i hg
      split at h
      · simp only [Out.ok.injEq, Prod.mk.injEq] at h
        obtain ⟨rfl, -⟩ := h
        exact gatherVerts_sizes hg v hv
      · cases h
      · cases h

theorem makeBdry_sizes {D : DEnv K} {ext : K} {bt : BdryType} {st st' : List (BVert K)} {b : BDef K} {L : EList K}
    (h : makeBdry D ext bt st b = .ok (st', L)) : ∀ v ∈ st', v ∈ st ∨ v.size ∈ cornerSizes D b := by
  have key : ∀ coords props colors, lift (createShape (D.nearest ext) bt st emptyBoundary coords props colors) = .ok (st', L) →
      (∀ p ∈ props, p.x ∈ cornerSizes D b) → ∀ v ∈ st', v ∈ st ∨ v.size ∈ cornerSizes D b := by
    intro _ _ _ h hp v hv
    rcases createShape_sizes (lift_ok h) v hv with hv | ⟨p, h1, h2⟩
    · exact Or.inl hv
    · rw [h2]; exact Or.inr (hp p h1)
  have circ : ∀ dir c xy r n s t, lift (setCircle dir (D.nearest ext) bt st emptyBoundary c xy r n s t) = .ok (st', L) →
      s ∈ cornerSizes D b → ∀ v ∈ st', v ∈ st ∨ v.size ∈ cornerSizes D b := by
    intro dir c xy r n s t h hs
    unfold setCircle at h
    split at h
    · simp only [lift, Except.ok.injEq, Prod.mk.injEq] at h
      rw [h.1]; exact fun v hv => Or.inl hv
    · exact key _ _ _ h (fun p hp => by obtain ⟨i, -, rfl⟩ := List.mem_map.mp hp; exact hs)
  cases b with
  | edges rows =>
    rw [makeBdry] at h
    cases hr : addRows (badIndex bt st.length) st rows emptyBoundary with
    | error f => rw [hr] at h; cases h
    | ok L1 =>
      rw [hr] at h
      change Except.ok (st, L1) = _ at h
      simp only [Except.ok.injEq, Prod.mk.injEq] at h
      rw [h.1]; exact fun v hv => Or.inl hv
  | coords rows =>
    refine key _ _ _ h (fun p hp => ?_)
    obtain ⟨x, hx, rfl⟩ := List.mem_map.mp hp
    exact List.mem_map_of_mem (f := fun r : Pt K × Int × Pt K => r.2.2.x) hx
  | rect m c w hh s => exact key _ _ _ h (fun p hp => by rw [List.eq_of_mem_replicate hp]; simp [cornerSizes])
  | circ m c r n s =>
    rw [makeBdry] at h
    split at h
    · cases h
    · exact circ _ _ _ _ _ _ _ h (by simp [cornerSizes])
  | square m c a s => exact key _ _ _ h (fun p hp => by rw [List.eq_of_mem_replicate hp]; simp [cornerSizes])
  | triangle m c a s => exact circ _ _ _ _ _ _ _ h (by simp [cornerSizes])
  | csv f =>
    rw [makeBdry] at h
    split at h
    · cases h
    · rename_i t ht
      split at h
      · cases h
      · rename_i rows hr
        refine key _ _ _ h (fun p hp => ?_)
        obtain ⟨x, hx, rfl⟩ := List.mem_map.mp hp
        simp only [cornerSizes, ht, Option.bind_some, hr, Except.toOption, Option.elim_some]
        exact List.mem_map_of_mem (f := fun r : CsvRow K => r.props.x) hx

theorem makeBdries_sizes {D : DEnv K} {ext : K} {bs : List (BdryType × BDef K)} {st st' : List (BVert K)} {Ls : List (BdryType × EList K)}
    (h : makeBdries D ext bs st = .ok (st', Ls)) : ∀ v ∈ st', v ∈ st ∨ ∃ b ∈ bs, v.size ∈ cornerSizes D b.2 := by
  induction bs generalizing st Ls with
  | nil =>
    simp only [makeBdries, Except.ok.injEq, Prod.mk.injEq] at h
    rw [h.1]; exact fun v hv => Or.inl hv
  | cons b bs ih =>
    obtain ⟨bt, b⟩ := b
    obtain ⟨st1, L, Ls', h1, h2, -⟩ := makeBdries_cons h
    intro v hv
    rcases ih h2 v hv with hv | ⟨c, hc, e⟩
    · rcases makeBdry_sizes h1 v hv with hv | hv
      · exact Or.inl hv
      · exact Or.inr ⟨_, List.mem_cons_self .., hv⟩
    · exact Or.inr ⟨c, List.mem_cons_of_mem _ hc, e⟩

/-- The vertices of the domain have sizes that are written in the definition. -/
theorem makeDomain_sizes {D : DEnv K} {c : Cfg K} {d : Dm K} (h : makeDomain D c = .ok d) : ∀ v ∈ d.verts, v.size ∈ localSizes D c := by
  obtain ⟨h1, -, -⟩ := makeDomain_ok h
  intro v hv
  rcases makeBdries_sizes h1 v hv with hv | ⟨b, hb, e⟩
  · unfold initVerts at hv
    obtain ⟨x, hx, rfl⟩ := List.mem_map.mp hv
    exact List.mem_append_left _ (List.mem_map_of_mem (f := fun v : VertDef K => v.s.x) hx)
  · exact List.mem_append_right _ (List.mem_flatMap.mpr ⟨b, hb, e⟩)

theorem sizeVert_size {D : DEnv K} {c : Cfg K} {d : Dm K} (h : makeDomain D c = .ok d) {m : K} (hl : ∀ x ∈ localSizes D c, x ≤ 0 ∨ m ≤ x) (i : Nat) :
    0 < (d.sizeVert i).meshSize → m ≤ (d.sizeVert i).meshSize := by
  unfold Dm.sizeVert
  cases hi : d.verts[i]? with
  | none => intro h0; exact absurd h0 (lt_irrefl _)
  | some v =>
    intro h0
    rcases hl _ (makeDomain_sizes h v (List.mem_of_getElem? hi)) with h1 | h1
    · exact absurd h0 (not_lt.mpr h1)
    · exact h1

theorem sizeEdge_len {D : DEnv K} {c : Cfg K} {d : Dm K} {b : BDef K} {bs : List (BDef K)} {ps : List (Pt K)} {hs : List (List (Pt K))}
    (H : Drawing D c b bs ps hs) (h : makeDomain D c = .ok d) {norm : Pt K → K} {m : K} (hl : ∀ s ∈ withHoles ps hs, m ≤ norm (s.2 - s.1)) :
    ∀ es ∈ d.sizeEdges norm, ∀ e ∈ es, m ≤ e.len := by
  intro es hes e he
  unfold Dm.sizeEdges at hes
  obtain ⟨b, hb, rfl⟩ := List.mem_map.mp hes
  obtain ⟨x, hx, rfl⟩ := List.mem_map.mp he
  have h1 := drawing_outline H h
  unfold Dm.sources at h1
  rw [source_segs] at h1
  exact hl (storePos d.verts x.v1, storePos d.verts x.v2) (h1.subset (List.mem_flatMap.mpr ⟨b, hb, List.mem_map.mpr ⟨x, hx, rfl⟩⟩))

/-- The size of the domain at a point, if the wanted size and everything in the drawing is at least `m`. -/
theorem drawing_size {D : DEnv K} {c : Cfg K} {d : Dm K} {b : BDef K} {bs : List (BDef K)} {ps : List (Pt K)} {hs : List (List (Pt K))}
    (H : Drawing D c b bs ps hs) (h : makeDomain D c = .ok d) {Ex : K → K} (hE : ExpLike Ex) {norm : Pt K → K} {f : Pt K → K} {m : K} (h0 : 0 < m)
    (ha : AtLeast norm D c (withHoles ps hs) m) (p : Pt K) (hf : m ≤ f p) :
    d.size? Ex norm f p = some (d.size Ex norm f p) ∧ m ≤ d.size Ex norm f p ∧ d.size Ex norm f p ≤ f p := by
  have hlen := sizeEdge_len H h ha.1
  obtain ⟨b1, b2⟩ := C27_size_bounds Ex hE f (d.sizeEdges norm) (d.fixedVerts.map d.sizeVert) p (fun es hes e he => lt_of_lt_of_le h0 (hlen es hes e he))
  unfold Dm.size
  cases hs : d.size? Ex norm f p with
  | none => exact absurd (b1.mp hs) (not_le.mpr (lt_of_lt_of_le h0 hf))
  | some v =>
    obtain ⟨-, k2, k3⟩ := b2 v hs
    refine ⟨rfl, k3 m hf ?_ ?_, k2⟩
    · intro es hes e he
      have := hlen es hes e he
      unfold Dm.sizeEdges at hes
      obtain ⟨b, -, rfl⟩ := List.mem_map.mp hes
      obtain ⟨x, -, rfl⟩ := List.mem_map.mp he
      exact ⟨this, sizeVert_size h ha.2 _, sizeVert_size h ha.2 _⟩
    · intro v hv
      obtain ⟨i, -, rfl⟩ := List.mem_map.mp hv
      exact sizeVert_size h ha.2 i

end TQ
