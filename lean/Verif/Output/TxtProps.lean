import Verif.Output.Props

/-! # C168: the statements of the text file fit together -/

set_option linter.unusedSectionVars false

namespace TQ
open TQ.MS TQ.MeshSpec TQ.FUSpec TQ.MS.St TQ.GeoSpec TQ.Sm TQ.MCSpec TQ.WholeSpec TQ.RefSpec TQ.CleanSpec TQ.SmSpec TQ.VT TQ.VTSpec TQ.OutSpec TQ.Whole Out MC

namespace Out

/-- The elements in the file. -/
def lists (s : St ℚ) : List (List Int) := (s.quads.map FRef.quad ++ s.tris.map FRef.tri).map fun f => (s.F f).corners.map (vNo s)

theorem vNo_eq (s : St ℚ) (v : Nat) : vNo s v = (no s v : Int) := rfl

theorem vNo_inj {s : St ℚ} {v w : Nat} (hv : v ∈ s.verts) (hw : w ∈ s.verts) (h : vNo s v = vNo s w) : v = w :=
  no_inj hv hw (by rw [vNo_eq, vNo_eq] at h; exact_mod_cast h)

theorem fNo_get {s : St ℚ} {f : FRef} (hf : Live s f) : 0 ≤ fNo s f ∧ (s.quads.map FRef.quad ++ s.tris.map FRef.tri)[(fNo s f).toNat]? = some f := by
  have hn : f ≠ .null := by rintro rfl; exact hf
  unfold fNo
  rw [if_neg hn]
  refine ⟨Int.natCast_nonneg _, ?_⟩
  rw [Int.toNat_natCast, List.getElem?_eq_getElem (List.idxOf_lt_length_iff.mpr (elem_live.mpr hf)), List.getElem_idxOf]

theorem elems_nodup {s : St ℚ} (h : WF s) : (s.quads.map FRef.quad ++ s.tris.map FRef.tri).Nodup :=
  (elem_perm s).nodup_iff.mpr (Whole.facets_nodup h)

theorem fNo_of_get {s : St ℚ} (h : WF s) {k : Nat} {f : FRef} (hk : (s.quads.map FRef.quad ++ s.tris.map FRef.tri)[k]? = some f) : fNo s f = k := by
  have hn : f ≠ .null := by
    rintro rfl
    have := elem_live.mp (List.mem_of_getElem? hk)
    exact this
  unfold fNo
  rw [if_neg hn, idx_of_get (elems_nodup h) hk]

theorem cell_side {s : St ℚ} (h : WF s) {f : FRef} (hf : Live s f) {a b : Int} :
    (a, b) ∈ cellSides ((s.F f).corners.map (vNo s)) ↔ ∃ v w, HasSide s f v w ∧ a = vNo s v ∧ b = vNo s w := by
  have key : ∀ cs : List Nat, cs.length = 3 ∨ cs.length = 4 → ((a, b) ∈ cellSides (cs.map (vNo s)) ↔ ∃ v w, (v, w) ∈ sidesOf cs ∧ a = vNo s v ∧ b = vNo s w) := by
    intro cs hcs
    rcases hcs with hcs | hcs
    · match cs, hcs with
      | [x, y, z], _ =>
        rw [sides3]
        simp only [cellSides, List.map_cons, List.map_nil, List.rotate_cons_succ, List.rotate_zero, List.cons_append, List.nil_append, List.zip_cons_cons,
          List.zip_nil_left, List.mem_cons, List.not_mem_nil, or_false, Prod.mk.injEq]
        constructor
        · rintro (⟨rfl, rfl⟩ | ⟨rfl, rfl⟩ | ⟨rfl, rfl⟩)
          exacts [⟨x, y, by simp⟩, ⟨y, z, by simp⟩, ⟨z, x, by simp⟩]
        · rintro ⟨v, w, ⟨rfl, rfl⟩ | ⟨rfl, rfl⟩ | ⟨rfl, rfl⟩, rfl, rfl⟩ <;> simp
    · match cs, hcs with
      | [x, y, z, u], _ =>
        rw [sides4]
        simp only [cellSides, List.map_cons, List.map_nil, List.rotate_cons_succ, List.rotate_zero, List.cons_append, List.nil_append, List.zip_cons_cons,
          List.zip_nil_left, List.mem_cons, List.not_mem_nil, or_false, Prod.mk.injEq]
        constructor
        · rintro (⟨rfl, rfl⟩ | ⟨rfl, rfl⟩ | ⟨rfl, rfl⟩ | ⟨rfl, rfl⟩)
          exacts [⟨x, y, by simp⟩, ⟨y, z, by simp⟩, ⟨z, u, by simp⟩, ⟨u, x, by simp⟩]
        · rintro ⟨v, w, ⟨rfl, rfl⟩ | ⟨rfl, rfl⟩ | ⟨rfl, rfl⟩ | ⟨rfl, rfl⟩, rfl, rfl⟩ <;> simp
  rw [key _ (by rcases corners_cases h hf with ⟨x, y, z, e⟩ | ⟨x, y, z, u, e⟩ <;> simp [e])]
  refine exists_congr fun v => exists_congr fun w => ?_
  rw [mem_sidesOf]

theorem runs_iff {s : St ℚ} (h : WF s) {k a b : Int} :
    Runs (lists s) k a b ↔ ∃ f v w, Live s f ∧ HasSide s f v w ∧ k = fNo s f ∧ a = vNo s v ∧ b = vNo s w := by
  constructor
  · rintro ⟨hk, c, hc, hs⟩
    unfold lists at hc
    rw [List.getElem?_map] at hc
    obtain ⟨f, hf, rfl⟩ := Option.map_eq_some_iff.mp hc
    have hl := elem_live.mp (List.mem_of_getElem? hf)
    obtain ⟨v, w, h1, h2, h3⟩ := (cell_side h hl).mp hs
    refine ⟨f, v, w, hl, h1, ?_, h2, h3⟩
    rw [fNo_of_get h hf]
    omega
  · rintro ⟨f, v, w, hl, h1, rfl, rfl, rfl⟩
    obtain ⟨g1, g2⟩ := fNo_get hl
    exact ⟨g1, _, by unfold lists; rw [List.getElem?_map, g2]; rfl, (cell_side h hl).mpr ⟨v, w, h1, rfl, rfl⟩⟩

theorem side_live {s : St ℚ} (h : WF s) {f : FRef} (hf : Live s f) {v w : Nat} (hs : HasSide s f v w) : v ∈ s.verts ∧ w ∈ s.verts :=
  side_verts h (p := (v, w)) (mem_allSides.mpr ⟨f, hf, hs⟩)

/-- The element that passes from `v` to `w`. -/
theorem runs_verts {s : St ℚ} (h : WF s) {k : Int} {v w : Nat} (hv : v ∈ s.verts) (hw : w ∈ s.verts) :
    Runs (lists s) k (vNo s v) (vNo s w) ↔ ∃ f, Live s f ∧ HasSide s f v w ∧ k = fNo s f := by
  rw [runs_iff h]
  constructor
  · rintro ⟨f, v', w', h1, h2, h3, h4, h5⟩
    obtain ⟨x, y⟩ := side_live h h1 h2
    rw [vNo_inj hv x h4, vNo_inj hw y h5]
    exact ⟨f, h1, h2, h3⟩
  · rintro ⟨f, h1, h2, h3⟩
    exact ⟨f, v, w, h1, h2, h3, rfl, rfl⟩

theorem side_both_false {s : St ℚ} (h : WF s) {f : FRef} (hf : Live s f) {v w : Nat} (h1 : HasSide s f v w) (h2 : HasSide s f w v) : False := by
  have k1 := mem_sidesOf (p := (v, w)).mpr h1
  have k2 := mem_sidesOf (p := (w, v)).mpr h2
  have hn := (h.cor f hf).1
  rcases corners_cases h hf with ⟨a, b, c, e⟩ | ⟨a, b, c, d, e⟩
  · rw [e] at k1 k2 hn
    rw [sides3] at k1 k2
    simp only [List.nodup_cons, List.mem_cons, List.not_mem_nil, or_false, not_or, Prod.mk.injEq, List.nodup_nil, not_false_eq_true, and_true] at k1 k2 hn
    clear * - k1 k2 hn
    omega
  · rw [e] at k1 k2 hn
    rw [sides4] at k1 k2
    simp only [List.nodup_cons, List.mem_cons, List.not_mem_nil, or_false, not_or, Prod.mk.injEq, List.nodup_nil, not_false_eq_true, and_true] at k1 k2 hn
    clear * - k1 k2 hn
    omega

theorem sideAt_some {cs : List Nat} {i : Nat} (hi : i < cs.length) : ∃ v w, sideAt cs i = some (v, w) := by
  have h1 : (i + 1) % cs.length < cs.length := Nat.mod_lt _ (by omega)
  have h2 : (i + 2) % cs.length < cs.length := Nat.mod_lt _ (by omega)
  refine ⟨cs[(i + 1) % cs.length], cs[(i + 2) % cs.length], ?_⟩
  unfold sideAt
  rw [List.getElem?_eq_getElem h1, List.getElem?_eq_getElem h2]

theorem countP_one {l : List Nat} (hn : l.Nodup) {p : Nat → Bool} {e : Nat} (he : e ∈ l) (hp : p e = true) (hu : ∀ x ∈ l, p x = true → x = e) :
    l.countP p = 1 := by
  rw [← List.count_eq_one_of_mem hn he]
  refine List.countP_congr fun x hx => ?_
  constructor
  · intro h; simp [hu x hx h]
  · intro h; rw [beq_iff_eq.mp h]; exact hp

/-- The side number `i`. -/
theorem side_no {s : St ℚ} {cs : List Nat} (hcs : cs.length = 3 ∨ cs.length = 4) {i : Nat} {a b : Int}
    (hi : (((cs.map (vNo s)).rotate 1).zip ((cs.map (vNo s)).rotate 2))[i]? = some (a, b)) :
    i < cs.length ∧ ∃ v w, sideAt cs i = some (v, w) ∧ a = vNo s v ∧ b = vNo s w := by
  have hlt : i < cs.length := by
    have := (List.getElem?_eq_some_iff.mp hi).1
    simpa using this
  refine ⟨hlt, ?_⟩
  rcases hcs with hcs | hcs
  · match cs, hcs with
    | [x, y, z], _ =>
      match i, hlt with
      | 0, _ => obtain ⟨rfl, rfl⟩ := Prod.mk.inj (Option.some.inj hi); exact ⟨y, z, by simp [sideAt], rfl, rfl⟩
      | 1, _ => obtain ⟨rfl, rfl⟩ := Prod.mk.inj (Option.some.inj hi); exact ⟨z, x, by simp [sideAt], rfl, rfl⟩
      | 2, _ => obtain ⟨rfl, rfl⟩ := Prod.mk.inj (Option.some.inj hi); exact ⟨x, y, by simp [sideAt], rfl, rfl⟩
  · match cs, hcs with
    | [x, y, z, u], _ =>
      match i, hlt with
      | 0, _ => obtain ⟨rfl, rfl⟩ := Prod.mk.inj (Option.some.inj hi); exact ⟨y, z, by simp [sideAt], rfl, rfl⟩
      | 1, _ => obtain ⟨rfl, rfl⟩ := Prod.mk.inj (Option.some.inj hi); exact ⟨z, u, by simp [sideAt], rfl, rfl⟩
      | 2, _ => obtain ⟨rfl, rfl⟩ := Prod.mk.inj (Option.some.inj hi); exact ⟨u, x, by simp [sideAt], rfl, rfl⟩
      | 3, _ => obtain ⟨rfl, rfl⟩ := Prod.mk.inj (Option.some.inj hi); exact ⟨x, y, by simp [sideAt], rfl, rfl⟩

/-- What the text file of a mesh says. -/
theorem topology {W : WEnv} {eps : ℚ} {id : Int} {twin : Nat × Nat → Int × Int} {s s' : St ℚ} (h : WF s) (hs' : s' = setupConnectivity eps s)
    (hp : PtrLive s') (hn : NbrLen s') :
    readTopology (writeTxt W eps id twin s) = some ⟨lists s, (s.quads.map FRef.quad ++ s.tris.map FRef.tri).map fun f => (s'.F f).nbrs.map (fNo s),
      ((s.es .intr).filter fun e => decide ((s'.E e).fl ≠ .null) && decide ((s'.E e).fr ≠ .null)).map
        fun e => [vNo s (s.E e).v1, vNo s (s.E e).v2, fNo s (s'.E e).fl, fNo s (s'.E e).fr],
      ((s.es .bdry).filter fun e => decide ((s'.E e).fl ≠ .null)).map
        fun e => [vNo s (s.E e).v1, vNo s (s.E e).v2, fNo s (s'.E e).fl, (s.E e).color],
      ((s.es .intr).filter (fun e => decide ((s'.E e).fl = .null ∨ (s'.E e).fr = .null)) ++
        (s.es .bdry).filter fun e => decide ((s'.E e).fl = .null)).map fun e => [vNo s (s.E e).v1, vNo s (s.E e).v2, -1]⟩ := by
  obtain ⟨ss, h1, -, h2, h3, h4, h5, h6, h7, h8⟩ := C125_read_back W eps id twin h hs' hp hn
  unfold readTopology
  rw [h1]
  simp only [Option.bind_eq_bind, Option.bind_some]
  rw [h2, h3, h4, h5, h6, h7, h8]
  simp only [Option.bind_some, lists, List.map_append, List.map_map, Function.comp_def, List.dropLast_concat]

/-- The pointers that `setup_facet_connectivity` leaves in a conforming mesh. -/
theorem pointers {eps : ℚ} {s : St ℚ} (h : Conforming s) (hl : LeftFacets eps s) (hn : NbrLen s) (hf : FreshPointers s) :
    (∀ e ∈ s.es .intr, (Live s ((setupConnectivity eps s).E e).fl ∧ HasSide s ((setupConnectivity eps s).E e).fl (s.E e).v1 (s.E e).v2) ∧
      Live s ((setupConnectivity eps s).E e).fr ∧ HasSide s ((setupConnectivity eps s).E e).fr (s.E e).v2 (s.E e).v1) ∧
    (∀ e ∈ s.es .bdry, Live s ((setupConnectivity eps s).E e).fl ∧ HasSide s ((setupConnectivity eps s).E e).fl (s.E e).v1 (s.E e).v2) ∧
    NbrLen (setupConnectivity eps s) ∧
    ∀ f, Live s f → ∀ i v w g, i < (s.F f).corners.length → sideAt (s.F f).corners i = some (v, w) → ((setupConnectivity eps s).F f).nbrs[i]? = some g →
      (Live s g ∧ HasSide s g w v) ∨ (g = .null ∧ ¬ Covered s w v) := by
  have hw := h.wf
  have sbp := setup_sbp eps hw
  have hu : UniqueIntr s := fun e he e' he' hc => h.unique e (Or.inl he) e' (Or.inl he') (by
    rcases hc with ⟨a, b⟩ | ⟨a, b⟩
    · exact Or.inl ⟨a, b⟩
    · exact Or.inr ⟨a, b⟩)
  refine ⟨fun e he => ?_, fun e he => ?_, sbp_len sbp hn, ?_⟩
  · obtain ⟨⟨f, f1, f2⟩, g, g1, g2⟩ := h.intrFull e he
    obtain ⟨k1, k2, -⟩ := setup_intr hw h.dir hl he
    rw [k1 f f1 f2, k2 g g1 g2]
    exact ⟨⟨f1, f2⟩, g1, g2⟩
  · obtain ⟨f, f1, f2⟩ := h.bdryFull e he
    have := (setup_bdry hw hl he (fun g g1 g2 => h.right e he ⟨g, g1, g2⟩) h.dir).2.1 f f1 f2
    rw [this]
    exact ⟨f1, f2⟩
  · intro f hf' i v w g hi hs hg
    by_cases hie : IntrEdge s v w
    · obtain ⟨g', q1, q2, q3⟩ := setup_nbr (eps := eps) hw h.dir hu hn hf' hi hs hie
      rw [hg] at q1
      obtain rfl := Option.some.inj q1
      left
      obtain ⟨e, he, hc⟩ := hie
      have hcov : Covered s w v := by
        rcases hc with ⟨a, b⟩ | ⟨a, b⟩
        · rw [← a, ← b]; exact (h.intrFull e he).2
        · rw [← a, ← b]; exact (h.intrFull e he).1
      obtain ⟨k, k1, k2⟩ := hcov
      have hne : k ≠ f := by
        rintro rfl
        exact side_both_false hw hf' ⟨i, hi, hs⟩ k2
      rw [q3 k k1 hne (Or.inr k2)]
      exact ⟨k1, k2⟩
    · right
      rw [setup_nbr_keep hw h.dir hs hie] at hg
      refine ⟨hf f v w g hf' hie ⟨i, hi, Or.inl hs, hg⟩, fun hc => ?_⟩
      obtain ⟨e, he, hcon⟩ := h.sides v w ⟨f, hf', i, hi, hs⟩
      rcases he with he | he
      · exact hie ⟨e, he, hcon⟩
      · rcases hcon with ⟨a, b⟩ | ⟨a, b⟩
        · rw [← a, ← b] at hc; exact h.right e he hc
        · exact h.right e he (by rw [a, b]; exact ⟨f, hf', i, hi, hs⟩)

end Out

/-- **C168.** The statements of the text file of a conforming mesh fit together: nothing is left to be meshed; edges name the
elements on their left and right; the neighbours of an element are those across its sides, -1 exactly at the boundary;
every side is one edge. -/
theorem C168_fits_partial (W : WEnv) {eps : ℚ} (id : Int) (twin : Nat × Nat → Int × Int) {s : St ℚ} (h : Conforming s) (hl : LeftFacets eps s)
    (hn : NbrLen s) (hf : FreshPointers s) :
    ∃ T, readTopology (writeTxt W eps id twin s) = some T ∧ Fits T ∧ T.elems.length = s.tris.length + s.quads.length ∧
      T.intr.length = (s.es .intr).length ∧ T.bdry.length = (s.es .bdry).length := by
  have hw := h.wf
  obtain ⟨p1, p2, p3, p4⟩ := pointers h hl hn hf
  set s' := setupConnectivity eps s with hs'
  have sbp := setup_sbp eps hw
  rw [← hs'] at sbp
  have live : ∀ f, Live s' f ↔ Live s f := fun f => by cases f <;> simp [Live, sbp.tris, sbp.quads]
  have nn : ∀ f, Live s f → f ≠ .null := by rintro f hf rfl; exact hf
  have nlive : ∀ f, Live s f → ∀ g ∈ (s'.F f).nbrs, g = .null ∨ Live s g := by
    intro f hf' g hg
    obtain ⟨i, hi, hgi⟩ := List.getElem_of_mem hg
    have hlen : (s'.F f).nbrs.length = (s.F f).corners.length := by rw [p3 f ((live f).mpr hf'), (sbp.corners f).1]
    rw [hlen] at hi
    obtain ⟨v, w, hs⟩ := sideAt_some hi
    rcases p4 f hf' i v w g hi hs (by rw [← hgi]; exact List.getElem?_eq_getElem _) with ⟨k, -⟩ | ⟨k, -⟩
    · exact Or.inr k
    · exact Or.inl k
  have hptr : PtrLive s' := by
    refine ⟨fun e he => ?_, fun f hf' g hg => ?_⟩
    · rw [sbp.es] at he
      rw [live, live, sbp.es]
      rcases List.mem_append.mp he with he | he
      · exact ⟨Or.inr (p1 e he).1.1, fun _ => Or.inr (p1 e he).2.1⟩
      · exact ⟨Or.inr (p2 e he).1, fun hi => Or.inr (p1 e hi).2.1⟩
    · rw [live] at hf' ⊢
      exact nlive f hf' g hg
  have ht := topology (W := W) (id := id) (twin := twin) hw hs' hptr p3
  have f1 : (s.es .intr).filter (fun e => decide ((s'.E e).fl ≠ .null) && decide ((s'.E e).fr ≠ .null)) = s.es .intr :=
    List.filter_eq_self.mpr fun e he => by simp [nn _ (p1 e he).1.1, nn _ (p1 e he).2.1]
  have f2 : (s.es .bdry).filter (fun e => decide ((s'.E e).fl ≠ .null)) = s.es .bdry :=
    List.filter_eq_self.mpr fun e he => by simp [nn _ (p2 e he).1]
  have f3 : (s.es .intr).filter (fun e => decide ((s'.E e).fl = .null ∨ (s'.E e).fr = .null)) = [] :=
    List.filter_eq_nil_iff.mpr fun e he => by simp [nn _ (p1 e he).1.1, nn _ (p1 e he).2.1]
  have f4 : (s.es .bdry).filter (fun e => decide ((s'.E e).fl = .null)) = [] :=
    List.filter_eq_nil_iff.mpr fun e he => by simp [nn _ (p2 e he).1]
  rw [f1, f2, f3, f4] at ht
  have ev : ∀ l e, e ∈ s.es l → (s.E e).v1 ∈ s.verts ∧ (s.E e).v2 ∈ s.verts := fun l e he => by
    obtain ⟨-, a, b, -⟩ := (hw.ends l).2 e he
    exact ⟨a, b⟩
  have nruns : ∀ {v w}, v ∈ s.verts → w ∈ s.verts → ¬ Covered s v w → ∀ k, ¬ Runs (lists s) k (vNo s v) (vNo s w) := by
    intro v w hv hw' hc k hr
    obtain ⟨g, g1, g2, -⟩ := (runs_verts hw hv hw').mp hr
    exact hc ⟨g, g1, g2⟩
  refine ⟨_, ht, ?_, ?_, by simp, by simp⟩
  · refine ⟨rfl, ?_, ?_, by simp [lists], ?_, ?_, ?_⟩
    · intro r hr
      obtain ⟨e, he, rfl⟩ := List.mem_map.mp hr
      obtain ⟨v1, v2⟩ := ev _ e he
      exact ⟨_, _, _, _, rfl, (runs_verts hw v1 v2).mpr ⟨_, (p1 e he).1.1, (p1 e he).1.2, rfl⟩,
        (runs_verts hw v2 v1).mpr ⟨_, (p1 e he).2.1, (p1 e he).2.2, rfl⟩⟩
    · intro r hr
      obtain ⟨e, he, rfl⟩ := List.mem_map.mp hr
      obtain ⟨v1, v2⟩ := ev _ e he
      exact ⟨_, _, _, _, rfl, (runs_verts hw v1 v2).mpr ⟨_, (p2 e he).1, (p2 e he).2, rfl⟩, nruns v2 v1 (h.right e he)⟩
    · intro k c n hc hk
      simp only [lists, List.getElem?_map] at hc hk
      obtain ⟨f, hf', rfl⟩ := Option.map_eq_some_iff.mp hc
      rw [hf'] at hk
      obtain rfl := Option.some.inj hk
      have hlv := elem_live.mp (List.mem_of_getElem? hf')
      have hlen : (s'.F f).nbrs.length = (s.F f).corners.length := by rw [p3 f ((live f).mpr hlv), (sbp.corners f).1]
      refine ⟨by simp [hlen], fun i m a b hm hab => ?_⟩
      obtain ⟨hi, v, w, hs, rfl, rfl⟩ := side_no (by rcases corners_cases hw hlv with ⟨x, y, z, e⟩ | ⟨x, y, z, u, e⟩ <;> simp [e]) hab
      rw [List.getElem?_map] at hm
      obtain ⟨g, hg, rfl⟩ := Option.map_eq_some_iff.mp hm
      obtain ⟨v1, v2⟩ := side_live hw hlv ⟨i, hi, hs⟩
      rcases p4 f hlv i v w g hi hs hg with ⟨q1, q2⟩ | ⟨rfl, q2⟩
      · exact Or.inl ((runs_verts hw v2 v1).mpr ⟨g, q1, q2, rfl⟩)
      · exact Or.inr ⟨rfl, nruns v2 v1 q2⟩
    · intro k l a b hk hl'
      obtain ⟨f, v, w, g1, g2, rfl, rfl, rfl⟩ := (runs_iff hw).mp hk
      obtain ⟨v1, v2⟩ := side_live hw g1 g2
      obtain ⟨g, q1, q2, rfl⟩ := (runs_verts hw v1 v2).mp hl'
      rw [h.dir f g v w g1 q1 g2 q2]
    · intro k a b hk
      obtain ⟨f, v, w, g1, g2, rfl, rfl, rfl⟩ := (runs_iff hw).mp hk
      obtain ⟨v1, v2⟩ := side_live hw g1 g2
      obtain ⟨e, he, hcon⟩ := h.sides v w ⟨f, g1, g2⟩
      have conn : ∀ l e', e' ∈ s.es l → ((vNo s (s.E e').v1 = vNo s v ∧ vNo s (s.E e').v2 = vNo s w) ∨ (vNo s (s.E e').v1 = vNo s w ∧ vNo s (s.E e').v2 = vNo s v) ↔ Connects s e' v w) := by
        intro l e' he'
        obtain ⟨w1, w2⟩ := ev l e' he'
        unfold Connects
        constructor
        · rintro (⟨x, y⟩ | ⟨x, y⟩)
          · exact Or.inl ⟨vNo_inj w1 v1 x, vNo_inj w2 v2 y⟩
          · exact Or.inr ⟨vNo_inj w1 v2 x, vNo_inj w2 v1 y⟩
        · rintro (⟨rfl, rfl⟩ | ⟨rfl, rfl⟩)
          · exact Or.inl ⟨rfl, rfl⟩
          · exact Or.inr ⟨rfl, rfl⟩
      have hnd : (s.es .intr ++ s.es .bdry).Nodup := by
        refine List.nodup_append.mpr ⟨(hw.ends .intr).1, (hw.ends .bdry).1, fun x hx y hy hxy => ?_⟩
        subst hxy
        have := ((hw.ends _).2 x hx).1.symm.trans ((hw.ends _).2 x hy).1
        simp at this
      have hj : ∀ l e' k, e' ∈ s.es l → (joins (vNo s v) (vNo s w) (vNo s (s.E e').v1 :: vNo s (s.E e').v2 :: k) = true ↔ Connects s e' v w) := by
        intro l e' k he'
        rw [← conn l e' he']
        simp [joins]
      have hone := countP_one hnd (p := fun e' => joins (vNo s v) (vNo s w) [vNo s (s.E e').v1, vNo s (s.E e').v2]) (e := e)
        (List.mem_append.mpr he) (by rcases he with he | he <;> exact (hj _ e _ he).mpr hcon) (fun x hx hp => by
          have hx := List.mem_append.mp hx
          have hc : Connects s x v w := by rcases hx with hx | hx <;> exact (hj _ x _ hx).mp hp
          refine h.unique x hx e he ?_
          unfold Connects at hc hcon
          unfold SameEnds
          clear * - hc hcon
          omega)
      rw [← hone, List.countP_append, List.countP_append, List.countP_map, List.countP_map]
      congr 1
  · simp [lists, Nat.add_comm]

/-- **C168.** In particular for a complete mesh of a domain whose elements are convex and not too small. -/
theorem C168_mesh_partial (W : WEnv) {eps : ℚ} (id : Int) (twin : Nat × Nat → Int × Int) {s0 s : St ℚ} (h : MeshOf s0 s) (hg : SoundShapes eps s) :
    ∃ T, readTopology (writeTxt W eps id twin s) = some T ∧ Fits T := by
  obtain ⟨T, h1, h2, -⟩ := C168_fits_partial W id twin h.complete.toConforming (C48_left_geometry h.complete.wf hg) h.len h.fresh
  exact ⟨T, h1, h2⟩

namespace OutEx
open MCEx

theorem plain_shapes : SoundShapes (1 / 1000000) plain := shapes_of (by decide +kernel)

/-- The text file of the unit square with a quad and two triangles. -/
example : SoundShapes (1 / 1000000) plain ∧ MeshOf plain plain ∧ readTopology (writeTxt W0 (1 / 1000000) 1 (fun _ => (0, 0)) plain) = some
    ⟨[[0, 1, 2, 4], [2, 3, 4], [3, 0, 4]], [[-1, 1, 2, -1], [2, 0, -1], [0, 1, -1]], [[0, 4, 2, 0], [2, 4, 0, 1], [3, 4, 1, 2]],
      [[0, 1, 0, 1], [1, 2, 0, 1], [2, 3, 1, 1], [3, 0, 2, 1]], []⟩ := ⟨plain_shapes, plain_self, by decide +kernel⟩

/-- The same with the vertex 4 below the diagonal: the quad is not convex, its centre is not left of its last two sides. -/
def bent : St ℚ := SMEx.flagged ((List.range 4).map fun i => (i, Flags.vOnBoundary)) (build [.v 0 0, .v 1 0, .v 1 1, .v 0 1, .v (4 / 5) (1 / 5),
  .bdry 0 1 1, .bdry 1 2 1, .bdry 2 3 1, .bdry 3 0 1, .quad 0 1 2 4 5, .tri 2 3 4 6, .tri 3 0 4 6, .intr 0 4, .intr 2 4, .intr 3 4] (St.empty 1))
theorem bent_conforming : Conforming bent :=
  conforming_of (proper_of (SMEx.wf_flagged _ _ (built_wf (built_of _ _ (Built.empty (c := 1)) (by decide +kernel)))) (by decide +kernel) (by decide +kernel)
    (by decide +kernel)) (by decide +kernel) (by decide +kernel) (by decide +kernel)
theorem bent_complete : Complete bent := complete_of bent_conforming (by decide +kernel) (by decide +kernel) (by decide +kernel)
  (by decide +kernel) (by decide +kernel)
theorem bent_self : MeshOf bent bent :=
  meshOf_self bent_complete (by unfold BdryFlagged; decide +kernel) (pointers_of (by decide +kernel)).1 (pointers_of (by decide +kernel)).2
theorem bent_file : readTopology (writeTxt W0 (1 / 1000000) 1 (fun _ => (0, 0)) bent) = some
    ⟨[[0, 1, 2, 4], [2, 3, 4], [3, 0, 4]], [[-1, 1, 2, -1], [2, 0, -1], [0, 1, -1]], [[3, 4, 1, 2]],
      [[0, 1, 0, 1], [1, 2, 0, 1], [2, 3, 1, 1], [3, 0, 2, 1]], [[0, 4, -1], [2, 4, -1]]⟩ := by decide +kernel
end OutEx

/-- **C168 is violated for quads that are not convex:** the text file of a complete mesh of the unit square, in which edges
between two elements are listed in the section FRONT, as if nothing was on one of their sides (`is_left` is asked for the
mean of the corners). -/
theorem C168_violated : ∃ s : St ℚ, MeshOf s s ∧ ∃ T, readTopology (writeTxt W0 (1 / 1000000) 1 (fun _ => (0, 0)) s) = some T ∧
    T.front.length = 2 ∧ ¬ Fits T :=
  ⟨OutEx.bent, OutEx.bent_self, _, OutEx.bent_file, rfl, fun h => by have := h.front; simp at this⟩

end TQ

#print axioms TQ.C168_fits_partial
#print axioms TQ.C168_mesh_partial
#print axioms TQ.C168_violated
