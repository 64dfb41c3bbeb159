import Verif.Output.Spec
import Verif.Writer.TxtProps
import Verif.Whole.Smooth
import Verif.Whole.FinalProps

/-! # Lemmas: the mesh that an exported file describes -/

set_option linter.unusedSectionVars false

namespace TQ.Out
open TQ.MS TQ.MeshSpec TQ.FUSpec TQ.MS.St TQ.GeoSpec TQ.Sm TQ.MCSpec TQ.WholeSpec TQ.RefSpec TQ.CleanSpec TQ.SmSpec TQ.VT TQ.VTSpec TQ.OutSpec TQ.Whole

/-- The mesh with the printed places of the vertices. -/
def rounded (s : St ℚ) : St ℚ := { s with V := fun v => { s.V v with xy := ⟨dec5 (s.pos v).x, dec5 (s.pos v).y⟩ } }

/-- The number of a vertex. -/
def no (s : St ℚ) (v : Nat) : Nat := s.verts.idxOf v

/-- The cells in the file. -/
def rows (s : St ℚ) : List (List Nat) := (s.quads.map FRef.quad ++ s.tris.map FRef.tri).map fun f => (s.F f).corners.map (no s)

/-- The points in the file. -/
def points (s : St ℚ) : List (Pt ℚ) := s.verts.map (rounded s).pos

theorem rounded_places (s : St ℚ) : SameButPlaces s (rounded s) where
  verts := rfl
  V := fun _ => ⟨rfl, rfl, rfl⟩
  es := rfl
  tris := rfl
  quads := rfl
  nxt := rfl
  area := rfl
  color := rfl
  ends := fun _ => ⟨rfl, rfl, rfl, rfl, rfl, rfl⟩
  corners := fun _ => ⟨rfl, rfl, rfl, rfl⟩

theorem no_get {s : St ℚ} {v : Nat} (hv : v ∈ s.verts) : s.verts[no s v]? = some v := by
  unfold no
  rw [List.getElem?_eq_getElem (List.idxOf_lt_length_iff.mpr hv), List.getElem_idxOf]

theorem no_inj {s : St ℚ} {v w : Nat} (hv : v ∈ s.verts) (hw : w ∈ s.verts) (h : no s v = no s w) : v = w := by
  have := no_get hv
  rw [h, no_get hw] at this
  exact (Option.some.inj this).symm

theorem no_lt {s : St ℚ} {v : Nat} (hv : v ∈ s.verts) : no s v < s.verts.length := List.idxOf_lt_length_iff.mpr hv

theorem place_no {s : St ℚ} {v : Nat} (hv : v ∈ s.verts) : place (points s) (no s v) = (rounded s).pos v := by
  unfold place points
  rw [List.getD_eq_getElem?_getD, List.getElem?_map, no_get hv]; rfl

theorem elem_live {s : St ℚ} {f : FRef} : f ∈ s.quads.map FRef.quad ++ s.tris.map FRef.tri ↔ Live s f := by
  cases f <;> simp [Live]

theorem elem_perm (s : St ℚ) : (s.quads.map FRef.quad ++ s.tris.map FRef.tri).Perm (facets s) := List.perm_append_comm

theorem index_eq {s : St ℚ} (h : WF s) (eps : ℚ) {v : Nat} (hv : v ∈ s.verts) : (prepare eps s).2.1 v = no s v := by
  have := index_V h eps hv
  unfold vNo at this
  exact_mod_cast this

theorem written {W : WEnv} (hW : ∀ x, Clean (W.show6 x)) (eps : ℚ) {s : St ℚ} (h : WF s) :
    ∃ t, writeVtu W eps s = some t ∧ readMesh t = some (points s, rows s) := by
  obtain ⟨t, ht⟩ := vtu_file (W := W) (s := (prepare eps s).1) (ixV := (prepare eps s).2.1)
  obtain ⟨hv, hq, htr, hV, hF, hE⟩ := sound_prepare eps h
  have hpos : ∀ v, (prepare eps s).1.pos v = s.pos v := fun v => by unfold St.pos; rw [hV]
  have hpts := vtu_points hW ht
  have z0 : dec5 0 = 0 := by decide +kernel
  have hcells : readCells t = some (s.quads.map (fun q => (9, (s.F (.quad q)).corners.map (no s))) ++
      s.tris.map (fun q => (5, (s.F (.tri q)).corners.map (no s)))) := by
    have hw := MC.setup_sbp eps h
    have hsd : Sound (prepare eps s).1 := (MC.sbp_wf hw h).toSound
    have := vtu_cells hW hsd ht
    rw [this, hq, htr]
    congr 2
    · refine List.map_congr_left fun q hq' => ?_
      rw [(hF _).1]
      congr 1
      exact List.map_congr_left fun v hv' => index_eq h eps ((h.cor (.quad q) hq').2 v hv')
    · refine List.map_congr_left fun q hq' => ?_
      rw [(hF _).1]
      congr 1
      exact List.map_congr_left fun v hv' => index_eq h eps ((h.cor (.tri q) hq').2 v hv')
  refine ⟨t, ht, ?_⟩
  unfold readMesh
  rw [hpts, hcells, hv]
  simp only [Option.bind_eq_bind, Option.bind_some, hpos, z0]
  rw [if_pos]
  · congr 2
    · unfold points
      rw [List.map_map]; rfl
    · unfold rows
      rw [List.map_append, List.map_append, List.map_map, List.map_map, List.map_map, List.map_map]; rfl
  · simp only [Bool.and_eq_true, List.all_eq_true, decide_eq_true_eq, List.mem_map, List.mem_append, List.length_map]
    refine ⟨?_, ?_⟩
    · rintro _ ⟨v, -, rfl⟩; rfl
    · rintro _ (⟨q, hq', rfl⟩ | ⟨q, hq', rfl⟩)
      · refine ⟨Or.inr ⟨rfl, by simpa using h.qcor q hq'⟩, ?_⟩
        intro i hi
        obtain ⟨v, hv', rfl⟩ := List.mem_map.mp hi
        exact no_lt ((h.cor (.quad q) hq').2 v hv')
      · refine ⟨Or.inl ⟨rfl, by simpa using h.tcor q hq'⟩, ?_⟩
        intro i hi
        obtain ⟨v, hv', rfl⟩ := List.mem_map.mp hi
        exact no_lt ((h.cor (.tri q) hq').2 v hv')

/-! ### Sides -/

/-- The pair of the numbers of two vertices. -/
def no2 (s : St ℚ) (p : Nat × Nat) : Nat × Nat := (no s p.1, no s p.2)

theorem sides_cell {s : St ℚ} (h : WF s) {f : FRef} (hf : Live s f) :
    (cellSides ((s.F f).corners.map (no s))).Perm ((sidesOf (s.F f).corners).map (no2 s)) := by
  rcases corners_cases h hf with ⟨a, b, c, e⟩ | ⟨a, b, c, d, e⟩
  · rw [e, sides3]
    show List.Perm [(no s a, no s b), (no s b, no s c), (no s c, no s a)] [(no s b, no s c), (no s c, no s a), (no s a, no s b)]
    exact (List.perm_append_comm (l₁ := [(no s a, no s b)]) (l₂ := [(no s b, no s c), (no s c, no s a)]))
  · rw [e, sides4]
    show List.Perm [(no s a, no s b), (no s b, no s c), (no s c, no s d), (no s d, no s a)]
      [(no s b, no s c), (no s c, no s d), (no s d, no s a), (no s a, no s b)]
    exact (List.perm_append_comm (l₁ := [(no s a, no s b)]) (l₂ := [(no s b, no s c), (no s c, no s d), (no s d, no s a)]))

theorem flatMap_perm_on {α β : Type*} {l : List α} {f g : α → List β} (h : ∀ a ∈ l, (f a).Perm (g a)) : (l.flatMap f).Perm (l.flatMap g) := by
  induction l with
  | nil => exact .nil
  | cons a l ih =>
    simp only [List.flatMap_cons]
    exact (h a (by simp)).append (ih fun b hb => h b (by simp [hb]))

theorem sides_rows {s : St ℚ} (h : WF s) : (sides (rows s)).Perm ((allSides s).map (no2 s)) := by
  unfold OutSpec.sides rows allSides
  rw [List.flatMap_map, List.map_flatMap]
  refine (flatMap_perm_on fun f hf => sides_cell h (elem_live.mp hf)).trans ?_
  exact (elem_perm s).flatMap_right _

theorem side_verts {s : St ℚ} (h : WF s) {p : Nat × Nat} (hp : p ∈ allSides s) : p.1 ∈ s.verts ∧ p.2 ∈ s.verts := by
  obtain ⟨f, hf, hs⟩ := mem_allSides.mp hp
  rcases corners_cases h hf with ⟨a, b, c, e⟩ | ⟨a, b, c, d, e⟩
  · have hm := mem_sidesOf.mpr hs
    have hc := (h.cor f hf).2
    rw [e] at hm hc
    rw [sides3] at hm
    simp only [List.mem_cons, List.not_mem_nil, or_false] at hm hc
    rcases hm with rfl | rfl | rfl <;> simp_all
  · have hm := mem_sidesOf.mpr hs
    have hc := (h.cor f hf).2
    rw [e] at hm hc
    rw [sides4] at hm
    simp only [List.mem_cons, List.not_mem_nil, or_false] at hm hc
    rcases hm with rfl | rfl | rfl | rfl <;> simp_all

theorem no2_inj {s : St ℚ} (h : WF s) {p q : Nat × Nat} (hp : p ∈ allSides s) (hq : q.1 ∈ s.verts ∧ q.2 ∈ s.verts) (e : no2 s p = no2 s q) : p = q := by
  obtain ⟨h1, h2⟩ := side_verts h hp
  exact Prod.ext (no_inj h1 hq.1 (congrArg Prod.fst e)) (no_inj h2 hq.2 (congrArg Prod.snd e))

theorem sides_nodup {s : St ℚ} (h : WF s) (hd : DirUnique s) : (sides (rows s)).Nodup := by
  rw [(sides_rows h).nodup_iff]
  exact List.Nodup.map_on (fun p hp q hq e => no2_inj h hp (side_verts h hq) e) (allSides_nodup h hd)

theorem conform_rows {s : St ℚ} (h : WF s) (hd : DirUnique s) : Conform (points s).length (rows s) where
  cell := by
    intro c hc
    unfold rows at hc
    obtain ⟨f, hf, rfl⟩ := List.mem_map.mp hc
    have hf := elem_live.mp hf
    obtain ⟨h1, h2⟩ := h.cor f hf
    refine ⟨?_, ?_, ?_⟩
    · rw [List.length_map]
      rcases corners_cases h hf with ⟨a, b, c, e⟩ | ⟨a, b, c, d, e⟩ <;> simp [e]
    · exact List.Nodup.map_on (fun v hv w hw e => no_inj (h2 v hv) (h2 w hw) e) h1
    · intro i hi
      obtain ⟨v, hv, rfl⟩ := List.mem_map.mp hi
      rw [show (points s).length = s.verts.length by simp [points]]
      exact no_lt (h2 v hv)
  once := sides_nodup h hd

/-- The side in the file of a pair of vertices. -/
theorem mem_sides_rows {s : St ℚ} (h : WF s) {p : Nat × Nat} (hp : p.1 ∈ s.verts ∧ p.2 ∈ s.verts) :
    no2 s p ∈ sides (rows s) ↔ Covered s p.1 p.2 := by
  rw [(sides_rows h).mem_iff, List.mem_map]
  constructor
  · rintro ⟨q, hq, e⟩
    rw [← no2_inj h hq hp e]
    exact mem_allSides.mp hq
  · intro hc
    exact ⟨p, mem_allSides.mpr hc, rfl⟩

theorem bdry_verts {s : St ℚ} (h : WF s) {p : Nat × Nat} (hp : p ∈ pairs s .bdry) : p.1 ∈ s.verts ∧ p.2 ∈ s.verts := by
  unfold pairs at hp
  obtain ⟨e, he, rfl⟩ := List.mem_map.mp hp
  obtain ⟨-, a, b, -⟩ := (h.ends .bdry).2 e he
  exact ⟨a, b⟩

/-- The outer sides in the file are the boundary edges. -/
theorem rim_rows {s : St ℚ} (h : Conforming s) : (rim (rows s)).Perm ((pairs s .bdry).map (no2 s)) := by
  have hw := h.wf
  have hnd : ((pairs s .bdry).map (no2 s)).Nodup := by
    have hb := (List.nodup_append.mp (edgePairs_nodup h)).1
    refine List.Nodup.map_on (fun p hp q hq e => ?_) hb
    obtain ⟨a, b⟩ := bdry_verts hw hp
    obtain ⟨c, d⟩ := bdry_verts hw hq
    exact Prod.ext (no_inj a c (congrArg Prod.fst e)) (no_inj b d (congrArg Prod.snd e))
  refine (List.perm_ext_iff_of_nodup ((sides_nodup hw h.dir).filter _) hnd).mpr fun e => ?_
  rw [List.mem_filter, decide_eq_true_eq, List.mem_map]
  constructor
  · rintro ⟨h1, h2⟩
    rw [(sides_rows hw).mem_iff, List.mem_map] at h1
    obtain ⟨p, hp, rfl⟩ := h1
    have hv := side_verts hw hp
    have hc := mem_allSides.mp hp
    have h2 : ¬ Covered s p.2 p.1 := fun k => h2 ((mem_sides_rows hw (p := (p.2, p.1)) ⟨hv.2, hv.1⟩).mpr k)
    obtain ⟨e, he, hcon⟩ := h.sides p.1 p.2 hc
    rcases he with he | he
    · rcases hcon with ⟨k1, k2⟩ | ⟨k1, k2⟩
      · rw [← k1, ← k2] at h2; exact absurd (h.intrFull e he).2 h2
      · rw [← k1, ← k2] at h2; exact absurd (h.intrFull e he).1 h2
    · rcases hcon with ⟨k1, k2⟩ | ⟨k1, k2⟩
      · exact ⟨p, List.mem_map.mpr ⟨e, he, Prod.ext k1 k2⟩, rfl⟩
      · rw [← k1, ← k2] at h2; exact absurd (h.bdryFull e he) h2
  · rintro ⟨p, hp, rfl⟩
    have hv := bdry_verts hw hp
    unfold pairs at hp
    obtain ⟨e, he, rfl⟩ := List.mem_map.mp hp
    exact ⟨(mem_sides_rows hw hv).mpr (h.bdryFull e he), fun k =>
      h.right e he ((mem_sides_rows hw (p := ((s.E e).v2, (s.E e).v1)) ⟨hv.2, hv.1⟩).mp k)⟩

/-! ### Areas -/

theorem enclosed_perm {x : Nat → Pt ℚ} {l l' : List (Nat × Nat)} (h : l.Perm l') : enclosed x l = enclosed x l' :=
  (h.map _).sum_eq

theorem enclosed_append (x : Nat → Pt ℚ) (l l' : List (Nat × Nat)) : enclosed x (l ++ l') = enclosed x l + enclosed x l' := by
  unfold enclosed; rw [List.map_append, List.sum_append]

theorem total_sides (x : Nat → Pt ℚ) (cells : List (List Nat)) : totalArea x cells = enclosed x (sides cells) := by
  unfold totalArea OutSpec.sides
  induction cells with
  | nil => rfl
  | cons c l ih => rw [List.map_cons, List.sum_cons, List.flatMap_cons, enclosed_append, ih]; rfl

theorem enclosed_swap (x : Nat → Pt ℚ) (m : List (Nat × Nat)) : enclosed x (m.map Prod.swap) = - enclosed x m := by
  unfold enclosed
  rw [List.map_map]
  induction m with
  | nil => simp
  | cons e k ih =>
    simp only [List.map_cons, List.sum_cons, Function.comp, Prod.fst_swap, Prod.snd_swap] at ih ⊢
    rw [ih]
    unfold Pt.cross
    ring

/-- Inner sides cancel. -/
theorem total_rim (x : Nat → Pt ℚ) {n : Nat} {cells : List (List Nat)} (h : Conform n cells) : totalArea x cells = enclosed x (rim cells) := by
  rw [total_sides]
  set l := sides cells with hl
  have hp : l.Perm (l.filter (fun e => decide ((e.2, e.1) ∉ l)) ++ l.filter (fun e => decide ((e.2, e.1) ∈ l))) := by
    refine (List.filter_append_perm (fun e => decide ((e.2, e.1) ∉ l)) l).symm.trans (List.Perm.append_left _ ?_)
    rw [List.filter_congr]
    intro e _
    simp
  rw [enclosed_perm hp, enclosed_append]
  have hz : enclosed x (l.filter fun e => decide ((e.2, e.1) ∈ l)) = 0 := by
    set m := l.filter fun e => decide ((e.2, e.1) ∈ l) with hm
    have hmd : m.Nodup := h.once.filter _
    have hs : (m.map Prod.swap).Perm m := by
      refine (List.perm_ext_iff_of_nodup (hmd.map Prod.swap_injective) hmd).mpr fun e => ?_
      rw [List.mem_map]
      constructor
      · rintro ⟨p, hp, rfl⟩
        rw [hm, List.mem_filter, decide_eq_true_eq] at hp ⊢
        exact ⟨hp.2, hp.1⟩
      · intro he
        refine ⟨e.swap, ?_, by simp⟩
        rw [hm, List.mem_filter, decide_eq_true_eq] at he ⊢
        exact ⟨he.2, he.1⟩
    have h1 := enclosed_perm (x := x) hs
    have h2 : enclosed x (m.map Prod.swap) = - enclosed x m := enclosed_swap x m
    linarith
  rw [hz, add_zero]
  rfl

theorem enclosed_map {s : St ℚ} {l : List (Nat × Nat)} (h : ∀ p ∈ l, p.1 ∈ s.verts ∧ p.2 ∈ s.verts) :
    enclosed (place (points s)) (l.map (no2 s)) = enclosed (rounded s).pos l := by
  unfold enclosed
  rw [List.map_map]
  congr 1
  refine List.map_congr_left fun p hp => ?_
  simp only [Function.comp, no2]
  rw [place_no (h p hp).1, place_no (h p hp).2]

/-! ### Triangles -/

/-- The numbers of a piece. -/
def no3 (s : St ℚ) (x : FRef × Nat × Nat × Nat) : Nat × Nat × Nat := (no s x.2.1, no s x.2.2.1, no s x.2.2.2)

theorem cut_rows {s : St ℚ} (h : WF s) {f : FRef} (hf : Live s f) :
    cut (place (points s)) ((s.F f).corners.map (no s)) = (halves (rounded s).pos f (s.F f).corners).map (no3 s) := by
  have hc := (h.cor f hf).2
  rcases corners_cases h hf with ⟨a, b, c, e⟩ | ⟨a, b, c, d, e⟩
  · rw [e]; rfl
  · rw [e] at hc ⊢
    simp only [List.map_cons, List.map_nil, cut, halves]
    rw [place_no (hc a (by simp)), place_no (hc b (by simp)), place_no (hc c (by simp)), place_no (hc d (by simp))]
    split_ifs <;> rfl

theorem triangles_rows {s : St ℚ} (h : WF s) : (triangles (place (points s)) (rows s)).Perm ((WholeSpec.pieces (rounded s)).map (no3 s)) := by
  unfold triangles rows WholeSpec.pieces
  rw [List.flatMap_map, List.map_flatMap]
  have : ((s.quads.map FRef.quad ++ s.tris.map FRef.tri).flatMap fun f => cut (place (points s)) ((s.F f).corners.map (no s))) =
      (s.quads.map FRef.quad ++ s.tris.map FRef.tri).flatMap fun f => (halves (rounded s).pos f (s.F f).corners).map (no3 s) :=
    List.flatMap_congr fun f hf => cut_rows h (elem_live.mp hf)
  rw [this]
  exact (elem_perm s).flatMap_right _

theorem piece_verts {s : St ℚ} (h : WF s) {x : FRef × Nat × Nat × Nat} (hx : x ∈ WholeSpec.pieces (rounded s)) :
    x.2.1 ∈ s.verts ∧ x.2.2.1 ∈ s.verts ∧ x.2.2.2 ∈ s.verts := by
  obtain ⟨h1, h2⟩ := mem_pieces.mp hx
  have hc := (h.cor x.1 h1).2
  obtain ⟨a, b, c⟩ := halves_mem h2
  exact ⟨hc _ a, hc _ b, hc _ c⟩

theorem place_piece {s : St ℚ} (h : WF s) {x : FRef × Nat × Nat × Nat} (hx : x ∈ WholeSpec.pieces (rounded s)) :
    place (points s) (no3 s x).1 = (rounded s).pos x.2.1 ∧ place (points s) (no3 s x).2.1 = (rounded s).pos x.2.2.1 ∧
    place (points s) (no3 s x).2.2 = (rounded s).pos x.2.2.2 := by
  obtain ⟨a, b, c⟩ := piece_verts h hx
  exact ⟨place_no a, place_no b, place_no c⟩

end TQ.Out
