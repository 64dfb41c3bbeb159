import Verif.Whole.LocalLemmas
import Verif.Whole.SizeProps

/-!
# Properties: C175 (sizes written for single vertices hold there)
-/

set_option linter.unusedSectionVars false

namespace TQ
open OutlSpec FlSpec Fl Cf Sh Dom FrSpec
variable {K : Type} [Field K] [LinearOrder K] [IsStrictOrderedRing K]

theorem forall₂_left {α β : Type*} {R : α → β → Prop} {l : List α} {m : List β} (h : List.Forall₂ R l m) {a : α} (ha : a ∈ l) : ∃ b ∈ m, R a b := by
  induction h with
  | nil => simp at ha
  | cons r _ ih =>
    rcases List.mem_cons.mp ha with rfl | ha
    · exact ⟨_, List.mem_cons_self .., r⟩
    · obtain ⟨b, h1, h2⟩ := ih ha
      exact ⟨b, List.mem_cons_of_mem _ h1, h2⟩

/-- **C175.** If all vertices written in a definition are at different places, the vertices of the domain are these, in order, each with its size and range. -/
theorem C175_vertices_partial {D : DEnv K} {c : Cfg K} {d : Dm K} {b : BDef K} {bs : List (BDef K)} {ps : List (Pt K)} {hs : List (List (Pt K))}
    (H : Drawing D c b bs ps hs) (h : makeDomain D c = .ok d) (hn : ((vertsWritten D c).map (·.1)).Nodup) :
    d.verts = (vertsWritten D c).map fun x => ⟨x.1, x.2.x, x.2.y⟩ :=
  drawing_verts H h hn

/-- **C175.** Then the size of the domain at a written vertex that is used (a corner of a polygon or a fixed vertex) is at most the size written there. The full statement, also for
vertices at the same place, is false: `C175_shared_violated`. -/
theorem C175_sizes_partial {D : DEnv K} {c : Cfg K} {d : Dm K} {b : BDef K} {bs : List (BDef K)} {ps : List (Pt K)} {hs : List (List (Pt K))}
    (H : Drawing D c b bs ps hs) (h : makeDomain D c = .ok d) (hn : ((vertsWritten D c).map (·.1)).Nodup) {Ex : K → K} (hE : ExpLike Ex) {norm : Pt K → K} {f : Pt K → K}
    {p s : Pt K} (hx : (p, s) ∈ vertsWritten D c) (hs' : 0 < s.x) (hu : Used c ps hs p) {x : K} (he : d.size? Ex norm f p = some x) : x ≤ s.x := by
  have hv := C175_vertices_partial H h hn
  obtain ⟨k1, k2⟩ := C27_local_sizes Ex hE f (d.sizeEdges norm) (d.fixedVerts.map d.sizeVert) p x he
  -- the vertex at an index with the coordinates of `p`
  have key : ∀ i, i < d.verts.length → storePos d.verts i = p → d.sizeVert i = ⟨p, s.x, s.y⟩ := by
    intro i hi hp
    unfold storePos at hp
    unfold Dm.sizeVert
    rw [List.getElem?_eq_getElem hi] at hp ⊢
    have hm' : d.verts[i] ∈ (vertsWritten D c).map fun x => (⟨x.1, x.2.x, x.2.y⟩ : BVert K) := by rw [← hv]; exact List.getElem_mem _
    generalize d.verts[i] = w at hp hm' ⊢
    have hp' : w.xy = p := hp
    obtain ⟨⟨p', s'⟩, hy, e⟩ := List.mem_map.mp hm'
    rw [← e] at hp' ⊢
    dsimp only at hp'
    subst hp'
    obtain rfl : s' = s := congrArg Prod.snd (List.inj_on_of_nodup_map hn hy hx rfl)
    rfl
  have hcorner : (p ∈ ps ∨ ∃ q ∈ hs, p ∈ q) → x ≤ s.x := by
    intro hc
    obtain ⟨L, hL, e, he', hl, hp⟩ := drawing_used H h hc
    have := (k1 (L.2.edges.map fun e => ⟨d.sizeVert e.v1, d.sizeVert e.v2, norm (storePos d.verts e.v2 - storePos d.verts e.v1)⟩) (List.mem_map_of_mem hL)
      _ (List.mem_map_of_mem he') _ (Or.inl rfl) (by rw [key _ hl hp])).2
    dsimp only at this
    rw [key _ hl hp] at this
    exact this hs'
  rcases hu with hu | hu | ⟨v, hv', hp, hf⟩
  · exact hcorner (Or.inl hu)
  · exact hcorner (Or.inr hu)
  · obtain ⟨i, hi⟩ := List.mem_iff_getElem?.mp hv'
    have hi' := (List.getElem?_eq_some_iff.mp hi).1
    obtain ⟨h1, -, h3⟩ := makeDomain_ok h
    have hs2 := storePos_init (makeBdries_prefix h1) (i := i) (p := p) (by rw [List.getElem?_map, hi]; simp [hp])
    have hlen : i < d.verts.length := lt_of_lt_of_le (by simpa [initVerts] using hi') (makeBdries_prefix h1).length_le
    have hmem : i ∈ d.fixedVerts := by
      rw [h3, List.mem_filter]
      exact ⟨List.mem_range.mpr hi', by rw [hi]; simpa using hf⟩
    have := k2 _ (List.mem_map_of_mem (f := d.sizeVert) hmem)
    rw [key i hlen hs2.2] at this
    exact this hs' rfl

/-- **C175.** At the corners of the drawing the size is at most the length of the sides that meet there. -/
theorem C175_sides {D : DEnv K} {c : Cfg K} {d : Dm K} {b : BDef K} {bs : List (BDef K)} {ps : List (Pt K)} {hs : List (List (Pt K))}
    (H : Drawing D c b bs ps hs) (h : makeDomain D c = .ok d) {Ex : K → K} (hE : ExpLike Ex) {norm : Pt K → K} {f : Pt K → K}
    {s : Pt K × Pt K} (hs' : s ∈ withHoles ps hs) {p : Pt K} (hp : p = s.1 ∨ p = s.2) {x : K} (he : d.size? Ex norm f p = some x) : x ≤ norm (s.2 - s.1) := by
  obtain ⟨k1, -⟩ := C27_local_sizes Ex hE f (d.sizeEdges norm) (d.fixedVerts.map d.sizeVert) p x he
  have h1 := drawing_outline H h
  unfold Dm.sources at h1
  rw [source_segs] at h1
  obtain ⟨L, hL, hs2⟩ := List.mem_flatMap.mp (h1.mem_iff.mpr hs')
  obtain ⟨e, he', rfl⟩ := List.mem_map.mp hs2
  have hpos : ∀ i, i < d.verts.length → (d.sizeVert i).xy = storePos d.verts i := by
    intro i hi
    unfold Dm.sizeVert storePos
    rw [List.getElem?_eq_getElem hi]
    rfl
  have hr : e.v1 < d.verts.length ∧ e.v2 < d.verts.length := by
    obtain ⟨-, M, Ms, e0, m, ms⟩ := drawing_bdries H h
    rw [e0] at hL
    rcases List.mem_cons.mp hL with rfl | hL
    · exact m.range e he'
    · obtain ⟨q, -, hq⟩ := forall₂_left ms hL
      exact hq.2.range e he'
  have key := k1 (L.2.edges.map fun e => ⟨d.sizeVert e.v1, d.sizeVert e.v2, norm (storePos d.verts e.v2 - storePos d.verts e.v1)⟩) (List.mem_map_of_mem hL) _ (List.mem_map_of_mem he')
  rcases hp with rfl | rfl
  · exact (key _ (Or.inl rfl) (hpos _ hr.1)).1
  · exact (key _ (Or.inr rfl) (hpos _ hr.2)).1

/-! ### Examples and the violation -/

namespace LSEx
/-- The corner (0, 0) of a rectangle with corner size 1/10 is also in the table of vertices, without a size. -/
def cfg : Cfg ℚ := { FLEx.cfg with
  extent := 21 / 10
  verts := [⟨⟨0, 0⟩, ⟨-1, -1⟩, false⟩]
  bdries := [(.exterior, .rect 1 ⟨1 / 2, 1 / 2⟩ 1 1 ⟨1 / 10, -1⟩)] }
theorem drawing : Drawing FLEx.D cfg (.rect 1 ⟨1 / 2, 1 / 2⟩ 1 1 ⟨1 / 10, -1⟩) [] FLEx.unit [] where
  bdries := rfl
  outer := .shape (.rect _ _ _ _ _) (Or.inl FLEx.rect_eq)
  holes := .nil
  ccw := by intro q hq; rw [List.mem_singleton] at hq; subst hq; decide +kernel
  few := by decide
end LSEx

/-- **C175**, negation: a corner of a rectangle with corner size 1/10 that is also listed as a vertex keeps what is written (or not) in the list. The size there is 11/20 for the
wanted size 1 (with a step function for `exp`, which meets all that `C27` asks for); at the corner (1, 0) it is 1/10. -/
theorem C175_shared_violated : Drawing FLEx.D LSEx.cfg (.rect 1 ⟨1 / 2, 1 / 2⟩ 1 1 ⟨1 / 10, -1⟩) [] FLEx.unit [] ∧
    ((⟨0, 0⟩, ⟨1 / 10, -1⟩) : Pt ℚ × Pt ℚ) ∈ vertsWritten FLEx.D LSEx.cfg ∧ Used LSEx.cfg FLEx.unit [] ⟨0, 0⟩ ∧
    ∃ d, makeDomain FLEx.D LSEx.cfg = .ok d ∧ d.verts[0]? = some ⟨⟨0, 0⟩, -1, -1⟩ ∧ d.size? stepExp taxi (fun _ => 1) ⟨0, 0⟩ = some (11 / 20) ∧
      d.size? stepExp taxi (fun _ => 1) ⟨1, 0⟩ = some (1 / 10) := by
  refine ⟨LSEx.drawing, by decide +kernel, Or.inl (by decide +kernel), ?_⟩
  have key : (match makeDomain FLEx.D LSEx.cfg with
    | .ok d => decide (d.verts[0]? = some ⟨⟨0, 0⟩, -1, -1⟩ ∧ d.size? stepExp taxi (fun _ => 1) ⟨0, 0⟩ = some (11 / 20) ∧ d.size? stepExp taxi (fun _ => 1) ⟨1, 0⟩ = some (1 / 10))
    | .error _ => false) = true := by decide +kernel
  generalize makeDomain FLEx.D LSEx.cfg = r at key ⊢
  cases r with
  | error _ => simp at key
  | ok d => exact ⟨d, rfl, of_decide_eq_true key⟩

/-- The plate: all vertices are different; the size at the vertex (7, 0) is at most the 1 written there, whatever the wanted size. -/
example : ∃ d, makeDomain FLEx.D FLEx.plate = .ok d ∧ d.verts.length = 10 ∧ ∀ f : Pt ℚ → ℚ, ∀ x, d.size? stepExp taxi f ⟨7, 0⟩ = some x → x ≤ 1 := by
  obtain ⟨d, hd⟩ := C172_progress_partial FLEx.plate_drawing FLEx.plate_constructible
  have hn : ((vertsWritten FLEx.D FLEx.plate).map (·.1)).Nodup := by decide +kernel
  have hE : ExpLike stepExp := ⟨fun x hx => by unfold stepExp; split_ifs <;> norm_num, by decide +kernel⟩
  refine ⟨d, hd, ?_, fun f x hx => ?_⟩
  · rw [C175_vertices_partial FLEx.plate_drawing hd hn]; decide +kernel
  · exact C175_sizes_partial FLEx.plate_drawing hd hn hE (p := ⟨7, 0⟩) (s := ⟨1, 2⟩) (by decide +kernel) (by norm_num) (Or.inl (by decide +kernel)) hx

/-- There is a size: for the wanted size 3 it is at most 1 at the vertex (7, 0) and above 1 at the place (5, 1). -/
example : (match makeDomain FLEx.D FLEx.plate with
    | .ok d => (match d.size? stepExp taxi (fun _ => 3) ⟨7, 0⟩, d.size? stepExp taxi (fun _ => 3) ⟨5, 1⟩ with
      | some x, some y => decide (x ≤ 1 ∧ 1 < y)
      | _, _ => false)
    | .error _ => false) = true := by decide +kernel

/-- The size at the corner (1, 1) of the hole is at most 2, the length of its sides. -/
example : ∃ d, makeDomain FLEx.D FLEx.plate = .ok d ∧ ∀ f : Pt ℚ → ℚ, ∀ x, d.size? stepExp taxi f ⟨1, 1⟩ = some x → x ≤ 2 := by
  obtain ⟨d, hd⟩ := C172_progress_partial FLEx.plate_drawing FLEx.plate_constructible
  have hE : ExpLike stepExp := ⟨fun x hx => by unfold stepExp; split_ifs <;> norm_num, by decide +kernel⟩
  refine ⟨d, hd, fun f x hx => ?_⟩
  have := C175_sides FLEx.plate_drawing hd hE (norm := taxi) (s := (⟨1, 1⟩, ⟨1, 3⟩)) (by decide +kernel) (Or.inl rfl) hx
  exact this.trans (by decide +kernel)

end TQ

#print axioms TQ.C175_vertices_partial
#print axioms TQ.C175_sizes_partial
#print axioms TQ.C175_sides
#print axioms TQ.C175_shared_violated
