import Verif.Output.Lemmas
import Verif.Whole.AppProps

/-! # C167: the exported file describes a conforming mesh of the domain -/

set_option linter.unusedSectionVars false

namespace TQ
open TQ.MS TQ.MeshSpec TQ.FU TQ.FUSpec TQ.MS.St TQ.GeoSpec TQ.Sm TQ.MCSpec TQ.WholeSpec TQ.RefSpec TQ.CleanSpec TQ.SmSpec TQ.VT TQ.VTSpec TQ.OutSpec TQ.Whole TQ.QL TQ.AM TQ.AppSpec TQ.Out

/-- **C167.** The VTU file of a conforming mesh can be read; the cells read from it form a conforming mesh again, and its
outer sides are the boundary edges of the mesh, every one in its direction.  Point number `i` is the vertex `i` up to half
of the last printed decimal. -/
theorem C167_conforming {W : WEnv} (hW : ∀ x, Clean (W.show6 x)) (eps : ℚ) {s : St ℚ} (h : Conforming s) :
    ∃ t pts cells, writeVtu W eps s = some t ∧ readMesh t = some (pts, cells) ∧ Conform pts.length cells ∧
      (rim cells).Perm ((s.es .bdry).map fun e => (s.verts.idxOf (s.E e).v1, s.verts.idxOf (s.E e).v2)) ∧
      pts.length = s.verts.length ∧ cells.length = s.tris.length + s.quads.length ∧
      ∀ i v, s.verts[i]? = some v → |(place pts i).x - (s.pos v).x| ≤ 1 / 200000 ∧ |(place pts i).y - (s.pos v).y| ≤ 1 / 200000 := by
  obtain ⟨t, h1, h2⟩ := written hW eps h.wf
  refine ⟨t, _, _, h1, h2, conform_rows h.wf h.dir, ?_, by simp [points], by simp [rows, Nat.add_comm], ?_⟩
  · have := rim_rows h
    unfold pairs at this
    rw [List.map_map] at this
    exact this
  · intro i v hi
    have hv := List.mem_of_getElem? hi
    have hn : no s v = i := idx_of_get h.wf.vnd hi
    rw [← hn, place_no hv]
    exact ⟨dec5_near _, dec5_near _⟩

theorem roundEven_nat (n : Nat) : roundEven (n : ℚ) = n := by
  unfold roundEven
  simp only [Nat.floor_natCast, sub_self]
  norm_num

theorem dec5_exact {q : ℚ} (h : FiveDecimals q) : dec5 q = q := by
  obtain ⟨k, rfl⟩ := h
  unfold dec5
  have e : |(k : ℚ) / 100000| * 100000 = (k.natAbs : ℚ) := by
    rw [abs_div, abs_of_pos (show (0 : ℚ) < 100000 by norm_num), div_mul_cancel₀ _ (by norm_num), Nat.cast_natAbs, Int.cast_abs]
  rw [e, roundEven_nat]
  by_cases hk : (k : ℚ) / 100000 < 0
  · rw [if_pos hk, Nat.cast_natAbs, Int.cast_abs, abs_of_neg]
    · ring
    · rw [div_lt_iff₀ (by norm_num), zero_mul] at hk; exact hk
  · rw [if_neg hk, Nat.cast_natAbs, Int.cast_abs, abs_of_nonneg]
    · ring
    · rw [not_lt, le_div_iff₀ (by norm_num), zero_mul] at hk; exact hk

theorem rounded_exact {s : St ℚ} {v : Nat} (h : Printable (s.pos v)) : (rounded s).pos v = s.pos v := by
  apply Pt.ext'
  · exact dec5_exact h.1
  · exact dec5_exact h.2

theorem enclosed_congr {x y : Nat → Pt ℚ} {l : List (Nat × Nat)} (h : ∀ p ∈ l, x p.1 = y p.1 ∧ x p.2 = y p.2) : enclosed x l = enclosed y l := by
  unfold enclosed
  congr 1
  exact List.map_congr_left fun p hp => by rw [(h p hp).1, (h p hp).2]

/-- **C167.** The areas of the cells in a conforming file add up to what the outer sides enclose. -/
theorem C167_area_rim (x : Nat → Pt ℚ) {n : Nat} {cells : List (List Nat)} (h : Conform n cells) : totalArea x cells = enclosed x (rim cells) :=
  total_rim x h

theorem file_area {W : WEnv} (hW : ∀ x, Clean (W.show6 x)) {eps : ℚ} {s : St ℚ} (h : Conforming s)
    {t : List Char} {pts : List (Pt ℚ)} {cells : List (List Nat)} (ht : writeVtu W eps s = some t) (hr : readMesh t = some (pts, cells)) :
    totalArea (place pts) cells = enclosed (rounded s).pos (pairs s .bdry) := by
  obtain ⟨t', h1, h2⟩ := written hW eps h.wf
  rw [ht] at h1
  obtain rfl := Option.some.inj h1
  rw [hr] at h2
  obtain ⟨rfl, rfl⟩ := Prod.mk.inj (Option.some.inj h2)
  rw [total_rim _ (conform_rows h.wf h.dir), enclosed_perm (rim_rows h), enclosed_map fun p hp => bdry_verts h.wf hp]

/-- **C167.** The areas of the cells in the file add up to the area of the mesh exactly if the coordinates of the boundary
vertices have at most five decimals, whatever the rounding does to the inner vertices. -/
theorem C167_area {W : WEnv} (hW : ∀ x, Clean (W.show6 x)) {eps : ℚ} {s : St ℚ} (h : Conforming s)
    (hp : ∀ e ∈ s.es .bdry, Printable (s.pos (s.E e).v1) ∧ Printable (s.pos (s.E e).v2))
    {t : List Char} {pts : List (Pt ℚ)} {cells : List (List Nat)} (ht : writeVtu W eps s = some t) (hr : readMesh t = some (pts, cells)) :
    totalArea (place pts) cells = meshArea s := by
  rw [file_area hW h ht hr]
  have h1 : enclosed (rounded s).pos (pairs s .bdry) = enclosed s.pos (pairs s .bdry) := by
    refine enclosed_congr fun p hp' => ?_
    unfold pairs at hp'
    obtain ⟨e, he, rfl⟩ := List.mem_map.mp hp'
    exact ⟨rounded_exact (hp e he).1, rounded_exact (hp e he).2⟩
  rw [h1]
  have h2 := meshArea_boundary h
  have h3 : 2 * enclosed s.pos (pairs s .bdry) = ((s.es .bdry).map fun e => Pt.cross (s.pos (s.E e).v1) (s.pos (s.E e).v2)).sum := by
    unfold enclosed pairs
    rw [List.map_map, ← List.sum_map_mul_left]
    congr 1
    exact List.map_congr_left fun e _ => by simp only [Function.comp]; ring
  linarith

/-- What rounding to five decimals does to a cross product. -/
theorem cross_near {a b c d R : ℚ} (ha : |a| ≤ R) (hb : |b| ≤ R) (hc : |c| ≤ R) (hd : |d| ≤ R) :
    |(dec5 a * dec5 d - dec5 b * dec5 c) - (a * d - b * c)| ≤ 4 * R * (1 / 200000) + 2 * (1 / 200000) ^ 2 := by
  have na := dec5_near a
  have nb := dec5_near b
  have nc := dec5_near c
  have nd := dec5_near d
  have e : (dec5 a * dec5 d - dec5 b * dec5 c) - (a * d - b * c) =
      ((dec5 a - a) * d + a * (dec5 d - d) + (dec5 a - a) * (dec5 d - d)) -
      ((dec5 b - b) * c + b * (dec5 c - c) + (dec5 b - b) * (dec5 c - c)) := by ring
  have m : ∀ {u v p q : ℚ}, |u| ≤ p → |v| ≤ q → |u * v| ≤ p * q := fun {u v p q} hu hv => by
    rw [abs_mul]; exact mul_le_mul hu hv (abs_nonneg _) ((abs_nonneg _).trans hu)
  rw [e]
  have k1 := m na hd
  have k2 := m ha nd
  have k3 := m na nd
  have k4 := m nb hc
  have k5 := m hb nc
  have k6 := m nb nc
  rw [abs_le] at *
  constructor <;> nlinarith [k1.1, k1.2, k2.1, k2.2, k3.1, k3.2, k4.1, k4.2, k5.1, k5.2, k6.1, k6.2]

/-- **C167.** In general the area in the file differs from the area of the mesh by what rounding can do along the
boundary: with `n` boundary edges and coordinates of at most `R`, by `n (2 R / 200000 + 1 / 200000²)`. -/
theorem C167_area_near {W : WEnv} (hW : ∀ x, Clean (W.show6 x)) {eps : ℚ} {s : St ℚ} (h : Conforming s) {R : ℚ}
    (hR : ∀ v ∈ s.verts, |(s.pos v).x| ≤ R ∧ |(s.pos v).y| ≤ R)
    {t : List Char} {pts : List (Pt ℚ)} {cells : List (List Nat)} (ht : writeVtu W eps s = some t) (hr : readMesh t = some (pts, cells)) :
    |totalArea (place pts) cells - meshArea s| ≤ (s.es .bdry).length * (2 * R * (1 / 200000) + (1 / 200000) ^ 2) := by
  rw [file_area hW h ht hr]
  have h2 := meshArea_boundary h
  have h3 : 2 * enclosed (rounded s).pos (pairs s .bdry) = ((s.es .bdry).map fun e => Pt.cross ((rounded s).pos (s.E e).v1) ((rounded s).pos (s.E e).v2)).sum := by
    unfold enclosed pairs
    rw [List.map_map, ← List.sum_map_mul_left]
    congr 1
    exact List.map_congr_left fun e _ => by simp only [Function.comp]; ring
  have key : ∀ l : List Nat, (∀ e ∈ l, e ∈ s.es .bdry) →
      |(l.map fun e => Pt.cross ((rounded s).pos (s.E e).v1) ((rounded s).pos (s.E e).v2)).sum -
        (l.map fun e => Pt.cross (s.pos (s.E e).v1) (s.pos (s.E e).v2)).sum| ≤ l.length * (4 * R * (1 / 200000) + 2 * (1 / 200000) ^ 2) := by
    intro l
    induction l with
    | nil => intro _; simp
    | cons e l ih =>
      intro hl
      have h1 := ih fun x hx => hl x (by simp [hx])
      obtain ⟨-, v1, v2, -⟩ := (h.wf.ends .bdry).2 e (hl e (by simp))
      have h2 : |Pt.cross ((rounded s).pos (s.E e).v1) ((rounded s).pos (s.E e).v2) - Pt.cross (s.pos (s.E e).v1) (s.pos (s.E e).v2)| ≤ _ :=
        cross_near (hR _ v1).1 (hR _ v1).2 (hR _ v2).1 (hR _ v2).2
      simp only [List.map_cons, List.sum_cons, List.length_cons]
      push_cast
      rw [abs_le] at h1 h2 ⊢
      constructor <;> linarith [h1.1, h1.2, h2.1, h2.2]
  have := key (s.es .bdry) fun _ h => h
  rw [← h3, ← h2, ← mul_sub, abs_mul, abs_two] at this
  linarith

theorem winding_rim {s : St ℚ} (h : Conforming s) (p : Pt ℚ) :
    winding (place (points s)) (rim (rows s)) p = winding (rounded s).pos (pairs s .bdry) p := by
  rw [winding_perm (rim_rows h)]
  have hb := fun q hq => bdry_verts h.wf (p := q) hq
  unfold winding
  have g : ∀ (l : List (Nat × Nat)), (∀ q ∈ l, q.1 ∈ s.verts ∧ q.2 ∈ s.verts) →
      (l.map (no2 s)).countP (fun e => decide (UpCross p (place (points s) e.1) (place (points s) e.2))) =
        l.countP (fun e => decide (UpCross p ((rounded s).pos e.1) ((rounded s).pos e.2))) ∧
      (l.map (no2 s)).countP (fun e => decide (UpCross p (place (points s) e.2) (place (points s) e.1))) =
        l.countP (fun e => decide (UpCross p ((rounded s).pos e.2) ((rounded s).pos e.1))) := by
    intro l hl
    rw [List.countP_map, List.countP_map]
    constructor <;>
    · refine List.countP_congr fun q hq => ?_
      have e1 : place (points s) (no2 s q).1 = (rounded s).pos q.1 := place_no (hl q hq).1
      have e2 : place (points s) (no2 s q).2 = (rounded s).pos q.2 := place_no (hl q hq).2
      simp only [Function.comp, decide_eq_true_eq]
      rw [e1, e2]
  obtain ⟨g1, g2⟩ := g _ hb
  rw [g1, g2]

theorem rounded_complete {s : St ℚ} (h : Complete s)
    (hp : ∀ e ∈ s.es .bdry, Printable (s.pos (s.E e).v1) ∧ Printable (s.pos (s.E e).v2))
    (hccw : ∀ x ∈ WholeSpec.pieces (rounded s), 0 < side ((rounded s).pos x.2.1) ((rounded s).pos x.2.2.1) ((rounded s).pos x.2.2.2)) :
    Complete (rounded s) := by
  have sp := rounded_places s
  have hc := sp_conforming sp h.toConforming
  refine { toConforming := hc, front := h.front, bdry := ?_, ccw := hccw, plain := h.plain }
  refine simple_congr (fun p hp' => ?_) h.bdry
  unfold pairs at hp'
  obtain ⟨e, he, rfl⟩ := List.mem_map.mp hp'
  exact ⟨rounded_exact (hp e he).1, rounded_exact (hp e he).2⟩

/-- **C167.** If the coordinates of the boundary vertices have at most five decimals and all triangles of the cells in the
file are counter-clockwise (which can be seen from the file), then the cells in the file tile the domain exactly. -/
theorem C167_tiles_partial {W : WEnv} (hW : ∀ x, Clean (W.show6 x)) {eps : ℚ} {s0 s : St ℚ} (h : MeshOf s0 s)
    (hp : ∀ e ∈ s.es .bdry, Printable (s.pos (s.E e).v1) ∧ Printable (s.pos (s.E e).v2))
    {t : List Char} {pts : List (Pt ℚ)} {cells : List (List Nat)} (ht : writeVtu W eps s = some t) (hr : readMesh t = some (pts, cells))
    (hccw : Positive (place pts) cells) :
    Tiles (place pts) cells (fun p => winding s0.pos (pairs s0 .bdry) p = 1) ∧
    (∀ p, winding (place pts) (rim cells) p = winding s0.pos (pairs s0 .bdry) p) ∧
    totalArea (place pts) cells = enclosed s0.pos (pairs s0 .bdry) := by
  have hwf := h.complete.wf
  have hcf := h.complete.toConforming
  have harea := C167_area hW hcf hp ht hr
  obtain ⟨t', h1, h2⟩ := written hW eps hwf
  rw [ht] at h1
  obtain rfl := Option.some.inj h1
  rw [hr] at h2
  obtain ⟨rfl, rfl⟩ := Prod.mk.inj (Option.some.inj h2)
  have hperm := triangles_rows hwf
  have hc : ∀ x ∈ WholeSpec.pieces (rounded s), 0 < side ((rounded s).pos x.2.1) ((rounded s).pos x.2.2.1) ((rounded s).pos x.2.2.2) := by
    intro x hx
    obtain ⟨a, b, c⟩ := place_piece hwf hx
    have := hccw _ (hperm.mem_iff.mpr (List.mem_map.mpr ⟨x, hx, rfl⟩))
    rwa [a, b, c] at this
  have hR := rounded_complete h.complete hp hc
  have hT := complete_tiled hR
  have hw : ∀ p, winding (rounded s).pos (pairs s .bdry) p = winding s.pos (pairs s .bdry) p := fun p =>
    winding_congr (fun q hq => by
      unfold pairs at hq
      obtain ⟨e, he, rfl⟩ := List.mem_map.mp hq
      exact ⟨rounded_exact (hp e he).1, rounded_exact (hp e he).2⟩) p
  have hin : ∀ x ∈ WholeSpec.pieces (rounded s), ∀ p, Inside (place (points s)) p (no3 s x) ↔ InPiece (rounded s) p x := by
    intro x hx p
    obtain ⟨a, b, c⟩ := place_piece hwf hx
    unfold Inside InPiece
    rw [a, b, c]
  refine ⟨⟨?_, ?_, ?_⟩, fun p => ?_, ?_⟩
  · refine (hperm.pairwise_iff (fun {x y} hxy p hq => hxy p ⟨hq.2, hq.1⟩)).mpr ?_
    rw [List.pairwise_map]
    refine List.Pairwise.imp_of_mem ?_ (List.nodup_iff_pairwise_ne.mp (pieces_nodup hR.wf))
    rintro x y hx hy hne p ⟨p1, p2⟩
    exact hne (hT.apart p y hy ((hin y hy p).mp p2) x hx ((hin x hx p).mp p1))
  · intro p q hq hi
    obtain ⟨x, hx, rfl⟩ := List.mem_map.mp (hperm.mem_iff.mp hq)
    have := hT.within p x hx ((hin x hx p).mp hi)
    rw [← h.region, ← hw]
    exact this
  · intro p hp1 hgen
    rw [← h.region, ← hw] at hp1
    obtain ⟨x, hx, hi⟩ := hT.full p hp1 (fun x hx => by
      obtain ⟨a, b, c⟩ := place_piece hwf hx
      have := hgen _ (hperm.mem_iff.mpr (List.mem_map.mpr ⟨x, hx, rfl⟩))
      rwa [a, b, c] at this)
    exact ⟨_, hperm.mem_iff.mpr (List.mem_map.mpr ⟨x, hx, rfl⟩), (hin x hx p).mpr hi⟩
  · rw [winding_rim hcf, hw, h.region]
  · rw [harea, h.area]

theorem broad_rounded {s : St ℚ} {a b c : Nat} (h : Broad (s.pos a) (s.pos b) (s.pos c)) :
    0 < side ((rounded s).pos a) ((rounded s).pos b) ((rounded s).pos c) := by
  obtain ⟨L, h1, h2, h3, h4, h5⟩ := h
  have d : ∀ {u v l : ℚ}, |v - u| ≤ l → |(dec5 v - dec5 u) - (v - u)| ≤ 1 / 100000 := fun {u v l} _ => by
    have p := dec5_near u
    have q := dec5_near v
    rw [abs_le] at *
    constructor <;> linarith [p.1, p.2, q.1, q.2]
  have m : ∀ {u v p q : ℚ}, |u| ≤ p → |v| ≤ q → |u * v| ≤ p * q := fun {u v p q} hu hv => by
    rw [abs_mul]; exact mul_le_mul hu hv (abs_nonneg _) ((abs_nonneg _).trans hu)
  have e : ∀ {u v u' v' : ℚ}, |u| ≤ L → |v| ≤ L → |u' - u| ≤ 1 / 100000 → |v' - v| ≤ 1 / 100000 →
      |u' * v' - u * v| ≤ 2 * L * (1 / 100000) + (1 / 100000) ^ 2 := by
    intro u v u' v' hu hv hu' hv'
    have k1 := m hu' hv
    have k2 := m hu hv'
    have k3 := m hu' hv'
    have : u' * v' - u * v = (u' - u) * v + u * (v' - v) + (u' - u) * (v' - v) := by ring
    rw [this]
    rw [abs_le] at *
    constructor <;> nlinarith [k1.1, k1.2, k2.1, k2.2, k3.1, k3.2]
  have k1 := e h1 h4 (d h1) (d h4)
  have k2 := e h2 h3 (d h2) (d h3)
  unfold side at h5 ⊢
  show 0 < (dec5 (s.pos b).x - dec5 (s.pos a).x) * (dec5 (s.pos c).y - dec5 (s.pos a).y) -
    (dec5 (s.pos b).y - dec5 (s.pos a).y) * (dec5 (s.pos c).x - dec5 (s.pos a).x)
  rw [abs_le] at k1 k2
  linarith [k1.1, k2.2]

theorem halves_broad {u v : Nat → Pt ℚ} {P : Pt ℚ → Pt ℚ → Pt ℚ → Prop} {f : FRef} {l : List Nat} (hP : ∀ a b c, P (u a) (u b) (u c) → 0 < side (v a) (v b) (v c))
    (h : ∀ x ∈ halves u f l, P (u x.2.1) (u x.2.2.1) (u x.2.2.2)) : ∀ x ∈ halves v f l, 0 < side (v x.2.1) (v x.2.2.1) (v x.2.2.2) := by
  intro x hx
  match l with
  | [] => simp [halves] at hx
  | [_] => simp [halves] at hx
  | [_, _] => simp [halves] at hx
  | [a, b, c] =>
    simp only [halves, List.mem_singleton] at hx
    rw [hx]
    exact hP _ _ _ (h (f, a, b, c) (by simp [halves]))
  | [a, b, c, d] =>
    simp only [halves] at h hx
    by_cases h2 : 0 < side (v a) (v b) (v c) ∧ 0 < side (v c) (v d) (v a)
    · rw [if_pos h2] at hx
      rcases List.mem_cons.mp hx with e | e
      · rw [e]; exact h2.1
      · rw [List.mem_singleton.mp e]; exact h2.2
    · rw [if_neg h2] at hx
      by_cases h1 : 0 < side (u a) (u b) (u c) ∧ 0 < side (u c) (u d) (u a)
      · rw [if_pos h1] at h
        exact absurd ⟨hP _ _ _ (h (f, a, b, c) (List.mem_cons_self ..)), hP _ _ _ (h (f, c, d, a) (by simp))⟩ h2
      · rw [if_neg h1] at h
        rcases List.mem_cons.mp hx with e | e
        · rw [e]; exact hP _ _ _ (h (f, b, c, d) (List.mem_cons_self ..))
        · rw [List.mem_singleton.mp e]; exact hP _ _ _ (h (f, d, a, b) (by simp))
  | _ :: _ :: _ :: _ :: _ :: _ => simp [halves] at hx

/-- **C167.** The same seen from the mesh: if no triangle (or half of a quad) is so thin that rounding can fold it, the
cells in the file are counter-clockwise. -/
theorem C167_positive {W : WEnv} (hW : ∀ x, Clean (W.show6 x)) {eps : ℚ} {s : St ℚ} (h : Conforming s)
    (hb : ∀ x ∈ WholeSpec.pieces s, Broad (s.pos x.2.1) (s.pos x.2.2.1) (s.pos x.2.2.2))
    {t : List Char} {pts : List (Pt ℚ)} {cells : List (List Nat)} (ht : writeVtu W eps s = some t) (hr : readMesh t = some (pts, cells)) :
    Positive (place pts) cells := by
  obtain ⟨t', h1, h2⟩ := written hW eps h.wf
  rw [ht] at h1
  obtain rfl := Option.some.inj h1
  rw [hr] at h2
  obtain ⟨rfl, rfl⟩ := Prod.mk.inj (Option.some.inj h2)
  intro q hq
  obtain ⟨x, hx, rfl⟩ := List.mem_map.mp ((triangles_rows h.wf).mem_iff.mp hq)
  obtain ⟨a, b, c⟩ := place_piece h.wf hx
  rw [a, b, c]
  obtain ⟨f1, f2⟩ := mem_pieces.mp hx
  exact halves_broad (u := s.pos) (P := Broad) (fun _ _ _ => broad_rounded) (fun y hy => hb y (mem_pieces.mpr (by
    have : y.1 = x.1 := halves_fst hy
    rw [this]; exact ⟨f1, hy⟩))) x f2

/-- **C167.** A run of the application (C161) and its output: if the boundary of the domain has at most five decimals
and rounding folds no cell, the cells in the VTU file tile the domain, and their areas add up to its area. -/
theorem C167_application_partial {L : LEnv ℚ} (he : 0 < L.env.eps) (hq : QueryExact L.env) (hso : SortOK L.env)
    (hn : ∀ p, 0 ≤ L.env.norm p ∧ Pt.normSq p ≤ L.env.norm p * L.env.norm p) {s0 : St ℚ} (h0 : Bare s0) (hb : BdryFlagged s0)
    (ha0 : s0.area = 0) {fuel : Nat} {J : Job ℚ} {D : Dom.Domain ℚ} {T : Trace ℚ} (h : generateMesh L fuel J D s0 = .done T)
    (hfine : LayersFine L fuel J.layers s0) (hwell : MeshedWell L.env J.par 0 fuel T.layered)
    (hok : triangulate L.env J.par 0 fuel J.ix1 T.layered = .ret true T.meshed)
    (hmod : J.toQuad = true → LeftFacets L.env.eps T.meshed ∧ (J.order T.meshed).Perm (MC.triEdges (MC.setupConnectivity L.env.eps T.meshed)))
    (hconv : J.refinements = 0 ∨ ConvexElements T.modified) (hfold : Unfolded T.smoothed)
    {W : WEnv} (hW : ∀ x, Clean (W.show6 x))
    (hp : ∀ e ∈ T.smoothed.es .bdry, Printable (T.smoothed.pos (T.smoothed.E e).v1) ∧ Printable (T.smoothed.pos (T.smoothed.E e).v2)) :
    ∃ t pts cells, writeVtu W L.env.eps T.smoothed = some t ∧ readMesh t = some (pts, cells) ∧ Conform pts.length cells ∧
      totalArea (place pts) cells = enclosed s0.pos (pairs s0 .bdry) ∧
      (Positive (place pts) cells → Tiles (place pts) cells (fun p => winding s0.pos (pairs s0 .bdry) p = 1)) := by
  have m := (C161_application he hq hso hn h0 hb ha0 h hfine hwell hok hmod hconv hfold).2.2.2.1
  obtain ⟨t, pts, cells, h1, h2, h3, -⟩ := C167_conforming hW L.env.eps m.complete.toConforming
  refine ⟨t, pts, cells, h1, h2, h3, ?_, fun hc => (C167_tiles_partial hW m hp h1 h2 hc).1⟩
  rw [C167_area hW m.complete.toConforming hp h1 h2, m.area]

/-! ### Examples and the limit of the format -/

namespace OutEx
open MCEx

/-- The unit square with a quad and four triangles; the vertex 4 is at (0.3, 1/3), so its place is rounded. -/
def plain : St ℚ := SMEx.flagged ((List.range 4).map fun i => (i, Flags.vOnBoundary)) (build [.v 0 0, .v 1 0, .v 1 1, .v 0 1, .v (3 / 10) (1 / 3), .bdry 0 1 1, .bdry 1 2 1, .bdry 2 3 1, .bdry 3 0 1,
  .quad 0 1 2 4 5, .tri 2 3 4 6, .tri 3 0 4 6, .intr 0 4, .intr 2 4, .intr 3 4] (St.empty 1))
theorem plain_conforming : Conforming plain :=
  conforming_of (proper_of (SMEx.wf_flagged _ _ (built_wf (built_of _ _ (Built.empty (c := 1)) (by decide +kernel)))) (by decide +kernel) (by decide +kernel)
    (by decide +kernel)) (by decide +kernel) (by decide +kernel) (by decide +kernel)
theorem plain_complete : Complete plain := complete_of plain_conforming (by decide +kernel) (by decide +kernel) (by decide +kernel)
  (by decide +kernel) (by decide +kernel)
theorem plain_self : MeshOf plain plain :=
  meshOf_self plain_complete (by unfold BdryFlagged; decide +kernel) (pointers_of (by decide +kernel)).1 (pointers_of (by decide +kernel)).2

theorem printable_of {p : Pt ℚ} (h : dec5 p.x = p.x ∧ dec5 p.y = p.y) : Printable p := by
  have : ∀ q : ℚ, dec5 q = q → FiveDecimals q := by
    intro q h
    unfold dec5 at h
    split_ifs at h
    · exact ⟨-(roundEven (|q| * 100000) : Int), by rw [Int.cast_neg, Int.cast_natCast]; linarith⟩
    · exact ⟨(roundEven (|q| * 100000) : Int), by rw [Int.cast_natCast]; linarith⟩
  exact ⟨this _ h.1, this _ h.2⟩

theorem plain_printable : ∀ e ∈ plain.es .bdry, Printable (plain.pos (plain.E e).v1) ∧ Printable (plain.pos (plain.E e).v2) := by
  have : ∀ e ∈ plain.es .bdry, (dec5 (plain.pos (plain.E e).v1).x = (plain.pos (plain.E e).v1).x ∧ dec5 (plain.pos (plain.E e).v1).y = (plain.pos (plain.E e).v1).y) ∧
      (dec5 (plain.pos (plain.E e).v2).x = (plain.pos (plain.E e).v2).x ∧ dec5 (plain.pos (plain.E e).v2).y = (plain.pos (plain.E e).v2).y) := by decide +kernel
  exact fun e he => ⟨printable_of (this e he).1, printable_of (this e he).2⟩

theorem broad_of {a b c : Pt ℚ} (h : |b.x - a.x| ≤ 1 ∧ |b.y - a.y| ≤ 1 ∧ |c.x - a.x| ≤ 1 ∧ |c.y - a.y| ≤ 1 ∧
    4 * 1 * (1 / 100000) + 2 * (1 / 100000) ^ 2 < side a b c) : Broad a b c := ⟨1, h⟩

theorem plain_broad : ∀ x ∈ WholeSpec.pieces plain, Broad (plain.pos x.2.1) (plain.pos x.2.2.1) (plain.pos x.2.2.2) := by
  have : ∀ x ∈ WholeSpec.pieces plain, |(plain.pos x.2.2.1).x - (plain.pos x.2.1).x| ≤ 1 ∧ |(plain.pos x.2.2.1).y - (plain.pos x.2.1).y| ≤ 1 ∧
      |(plain.pos x.2.2.2).x - (plain.pos x.2.1).x| ≤ 1 ∧ |(plain.pos x.2.2.2).y - (plain.pos x.2.1).y| ≤ 1 ∧
      4 * 1 * (1 / 100000) + 2 * (1 / 100000) ^ 2 < side (plain.pos x.2.1) (plain.pos x.2.2.1) (plain.pos x.2.2.2) := by decide +kernel
  exact fun x hx => broad_of (this x hx)

/-- What is in the file of this mesh. -/
example : ((writeVtu W0 0 plain).bind readMesh) =
    some ([⟨0, 0⟩, ⟨1, 0⟩, ⟨1, 1⟩, ⟨0, 1⟩, ⟨3 / 10, 33333 / 100000⟩], [[0, 1, 2, 4], [2, 3, 4], [3, 0, 4]]) ∧
    rim [[0, 1, 2, 4], [2, 3, 4], [3, 0, 4]] = [(0, 1), (1, 2), (2, 3), (3, 0)] ∧
    totalArea (place [⟨0, 0⟩, ⟨1, 0⟩, ⟨1, 1⟩, ⟨0, 1⟩, ⟨3 / 10, 33333 / 100000⟩]) [[0, 1, 2, 4], [2, 3, 4], [3, 0, 4]] = 1 :=
  ⟨by decide +kernel, by decide +kernel, by decide +kernel⟩

/-- All hypotheses hold for it: the cells in its file tile the unit square. -/
example : ∃ t pts cells, writeVtu W0 0 plain = some t ∧ readMesh t = some (pts, cells) ∧
    Tiles (place pts) cells (fun p => winding plain.pos (pairs plain .bdry) p = 1) := by
  obtain ⟨t, pts, cells, h1, h2, -⟩ := C167_conforming clean_W0 0 plain_conforming
  exact ⟨t, pts, cells, h1, h2, (C167_tiles_partial clean_W0 plain_self plain_printable h1 h2 (C167_positive clean_W0 plain_conforming plain_broad h1 h2)).1⟩

/-- The unit square with two inner vertices, 5 slightly above the line from the vertex 0 to the vertex 4. -/
def thin6 : St ℚ := SMEx.flagged ((List.range 4).map fun i => (i, Flags.vOnBoundary)) (build [.v 0 0, .v 1 0, .v 1 1, .v 0 1, .v (4 / 5) (2 / 5), .v (500006 / 1000000) (250004 / 1000000),
  .bdry 0 1 1, .bdry 1 2 1, .bdry 2 3 1, .bdry 3 0 1, .tri 0 1 4 5, .tri 1 2 4 5, .tri 4 2 5 5, .tri 2 3 5 5, .tri 3 0 5 5, .tri 0 4 5 5,
  .intr 0 4, .intr 1 4, .intr 2 4, .intr 4 5, .intr 2 5, .intr 3 5, .intr 0 5] (St.empty 1))
theorem thin_conforming : Conforming thin6 :=
  conforming_of (proper_of (SMEx.wf_flagged _ _ (built_wf (built_of _ _ (Built.empty (c := 1)) (by decide +kernel)))) (by decide +kernel) (by decide +kernel)
    (by decide +kernel)) (by decide +kernel) (by decide +kernel) (by decide +kernel)
theorem thin_complete : Complete thin6 := complete_of thin_conforming (by decide +kernel) (by decide +kernel) (by decide +kernel)
  (by decide +kernel) (by decide +kernel)
theorem thin_self : MeshOf thin6 thin6 :=
  meshOf_self thin_complete (by unfold BdryFlagged; decide +kernel) (pointers_of (by decide +kernel)).1 (pointers_of (by decide +kernel)).2

end OutEx

/-- The run of the application with "Tri-to-Quad", one refinement and smoothing on the unit square, and its file. -/
example : ∃ t pts cells, writeVtu W0 FNEx.Lf.env.eps (APEx.trace APEx.job).smoothed = some t ∧ readMesh t = some (pts, cells) ∧
    Conform pts.length cells ∧ totalArea (place pts) cells = 1 ∧ cells.length = 4 := by
  have hk : (APEx.trace APEx.job).ok = true := by decide +kernel
  obtain ⟨e1, e2⟩ := APEx.trace_meshed hk rfl rfl rfl
  have hpr : ∀ e ∈ (APEx.trace APEx.job).smoothed.es .bdry,
      Printable ((APEx.trace APEx.job).smoothed.pos ((APEx.trace APEx.job).smoothed.E e).v1) ∧
      Printable ((APEx.trace APEx.job).smoothed.pos ((APEx.trace APEx.job).smoothed.E e).v2) := by
    have : ∀ e ∈ (APEx.trace APEx.job).smoothed.es .bdry,
        (dec5 ((APEx.trace APEx.job).smoothed.pos ((APEx.trace APEx.job).smoothed.E e).v1).x = ((APEx.trace APEx.job).smoothed.pos ((APEx.trace APEx.job).smoothed.E e).v1).x ∧
         dec5 ((APEx.trace APEx.job).smoothed.pos ((APEx.trace APEx.job).smoothed.E e).v1).y = ((APEx.trace APEx.job).smoothed.pos ((APEx.trace APEx.job).smoothed.E e).v1).y) ∧
        (dec5 ((APEx.trace APEx.job).smoothed.pos ((APEx.trace APEx.job).smoothed.E e).v2).x = ((APEx.trace APEx.job).smoothed.pos ((APEx.trace APEx.job).smoothed.E e).v2).x ∧
         dec5 ((APEx.trace APEx.job).smoothed.pos ((APEx.trace APEx.job).smoothed.E e).v2).y = ((APEx.trace APEx.job).smoothed.pos ((APEx.trace APEx.job).smoothed.E e).v2).y) := by
      decide +kernel
    exact fun e he => ⟨OutEx.printable_of (this e he).1, OutEx.printable_of (this e he).2⟩
  obtain ⟨t, pts, cells, h1, h2, h3, h4, -⟩ := C167_application_partial (L := FNEx.Lf) FUEx.epsPos FUEx.exact FUEx.sortOK FUEx.norm_ok FNEx.sq_bare FNEx.sq_flagged
    (by decide +kernel) (APEx.done_of hk) trivial (by rw [e1]; exact APEx.sq_well) (by rw [e1, e2]; exact APEx.sq_true)
    (fun _ => ⟨by
      rw [e2]
      exact C48_left_geometry (C160_complete (L := FNEx.Lf) FUEx.epsPos FUEx.exact FUEx.sortOK FUEx.norm_ok FNEx.sq_bare FNEx.sq_flagged
        .prepared APEx.sq_well APEx.sq_true).1.complete.wf (shapes_of (by decide +kernel)), List.Perm.refl _⟩)
    (Or.inr (SMEx.convex_of (by decide +kernel))) (APEx.unfolded_of (by decide +kernel)) clean_W0 hpr
  refine ⟨t, pts, cells, h1, h2, h3, h4.trans (by decide +kernel), ?_⟩
  have m := (C161_application (L := FNEx.Lf) FUEx.epsPos FUEx.exact FUEx.sortOK FUEx.norm_ok FNEx.sq_bare FNEx.sq_flagged
    (by decide +kernel) (APEx.done_of hk) trivial (by rw [e1]; exact APEx.sq_well) (by rw [e1, e2]; exact APEx.sq_true)
    (fun _ => ⟨by
      rw [e2]
      exact C48_left_geometry (C160_complete (L := FNEx.Lf) FUEx.epsPos FUEx.exact FUEx.sortOK FUEx.norm_ok FNEx.sq_bare FNEx.sq_flagged
        .prepared APEx.sq_well APEx.sq_true).1.complete.wf (shapes_of (by decide +kernel)), List.Perm.refl _⟩)
    (Or.inr (SMEx.convex_of (by decide +kernel))) (APEx.unfolded_of (by decide +kernel))).2.2.2.1
  obtain ⟨t', pts', cells', g1, g2, -, -, -, g3, -⟩ := C167_conforming clean_W0 FNEx.Lf.env.eps m.complete.toConforming
  rw [h1] at g1
  obtain rfl := Option.some.inj g1
  rw [h2] at g2
  obtain ⟨-, rfl⟩ := Prod.mk.inj (Option.some.inj g2)
  rw [g3]
  decide +kernel

/-- **C167 is violated for thin elements:** a complete mesh of the unit square, all of whose triangles are
counter-clockwise, and in whose file one triangle is clockwise, so that its cells overlap. -/
theorem C167_violated : ∃ s : St ℚ, MeshOf s s ∧ (∀ e ∈ s.es .bdry, dec5 (s.pos (s.E e).v1).x = (s.pos (s.E e).v1).x) ∧
    ∃ t pts cells, writeVtu W0 0 s = some t ∧ readMesh t = some (pts, cells) ∧ (∃ c ∈ cells, cellArea (place pts) c < 0) ∧
      ∃ p, ∃ a ∈ triangles (place pts) cells, ∃ b ∈ triangles (place pts) cells, a ≠ b ∧ Inside (place pts) p a ∧ Inside (place pts) p b := by
  refine ⟨OutEx.thin6, OutEx.thin_self, by decide +kernel, ?_⟩
  obtain ⟨t, h1, h2⟩ := written clean_W0 0 OutEx.thin_conforming.wf
  refine ⟨t, _, _, h1, h2, by decide +kernel, ⟨50001 / 100000, 250002 / 1000000⟩, (0, 1, 4), by decide +kernel, (2, 3, 5),
    by decide +kernel, by decide +kernel, ?_, ?_⟩
  · unfold Inside; decide +kernel
  · unfold Inside; decide +kernel

end TQ

#print axioms TQ.C167_conforming
#print axioms TQ.C167_area_rim
#print axioms TQ.C167_area
#print axioms TQ.C167_area_near
#print axioms TQ.C167_tiles_partial
#print axioms TQ.C167_positive
#print axioms TQ.C167_application_partial
#print axioms TQ.C167_violated
