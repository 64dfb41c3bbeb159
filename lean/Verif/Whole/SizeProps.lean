import Verif.Whole.SizeLemmas
import Verif.Whole.FileProps

/-!
# Properties: C174 (the size function of a file refines its boundary properly), C170 for graded sizes
-/

set_option linter.unusedSectionVars false
set_option linter.unusedSimpArgs false

namespace TQ
open MS MS.St MeshSpec FUSpec MCSpec RefSpec WholeSpec Whole GN MM CK FU OutlSpec Outl FrSpec CleanSpec QL QLSpec AM AppSpec FlSpec Fl PR PRSpec Cf CfSpec Dom

/-- **C170.** The subdivision of the code has the property needed also if the sizes change slowly: by at most a fifth of the distance. -/
theorem C170_graded_partial {K : Type*} [Field K] [LinearOrder K] [IsStrictOrderedRing K] (norm : Pt K → K) (hn : IsNorm norm) (rho : Pt K → K) (h0 : ∀ p, 0 < rho p)
    (hl : ∀ p q, 5 * |rho p - rho q| ≤ norm (p - q)) (fuel : Nat) : PartSub (subOf norm rho fuel) :=
  fun _ _ _ hne h => C31_graded_partial norm hn rho _ _ hne ⟨fun _ => h0 _, fun _ _ _ => hl _ _⟩ fuel _ h

variable {K : Type} [Field K] [LinearOrder K] [IsStrictOrderedRing K]

/-- **C174.** The size at a point of the domain of a drawing: at most what the user wants, and at least every bound that holds for the wanted size, the sides of the polygons and the
sizes written for single vertices. In particular it is the wanted size where nothing in the drawing is smaller. -/
theorem C174_size {D : DEnv K} {c : Cfg K} {d : Dm K} {b : BDef K} {bs : List (BDef K)} {ps : List (Pt K)} {hs : List (List (Pt K))}
    (H : Drawing D c b bs ps hs) (h : makeDomain D c = .ok d) {Ex : K → K} (hE : ExpLike Ex) {norm : Pt K → K} {f : Pt K → K} (p : Pt K) {m : K} (h0 : 0 < m)
    (ha : AtLeast norm D c (withHoles ps hs) m) (hf : m ≤ f p) :
    ∃ x, d.size? Ex norm f p = some x ∧ m ≤ x ∧ x ≤ f p ∧ (AtLeast norm D c (withHoles ps hs) (f p) → x = f p) := by
  obtain ⟨h1, h2, h3⟩ := drawing_size H h hE h0 ha p hf
  refine ⟨_, h1, h2, h3, fun ha' => le_antisymm h3 ?_⟩
  exact (drawing_size H h hE (lt_of_lt_of_le h0 hf) ha' p le_rfl).2.1

/-- **C174.** If the sizes fit the drawing, the code divides the edges of the front properly, however many points it needs. -/
theorem C174_divides {D : DEnv K} {c : Cfg K} {d : Dm K} {b : BDef K} {bs : List (BDef K)} {ps : List (Pt K)} {hs : List (List (Pt K))}
    (H : Drawing D c b bs ps hs) (h : makeDomain D c = .ok d) {Ex : K → K} (hE : ExpLike Ex) {norm : Pt K → K} (hn : IsNorm norm) {user : Line → Pt K → K} {r : K}
    (hr : SizesFit norm (user c.size) D c (withHoles ps hs) r) (n : Nat) : PartSub (codeSub Ex norm user n c d) := by
  unfold codeSub
  rcases hr.steady with ⟨R, hR, hf⟩ | ⟨hl, hf⟩
  · refine C170_code_partial norm hn _ r R hr.pos hR (fun p => ?_) n
    obtain ⟨-, h2, h3⟩ := drawing_size H h hE hr.pos hr.atLeast p (hr.wanted p)
    exact ⟨h2, h3.trans (hf p)⟩
  · have e : d.size Ex norm (user c.size) = user c.size := by
      funext p
      obtain ⟨-, h2, h3⟩ := drawing_size H h hE (lt_of_lt_of_le hr.pos (hr.wanted p)) (hf p) p le_rfl
      exact le_antisymm h3 h2
    rw [e]
    exact C170_graded_partial norm hn _ (fun p => lt_of_lt_of_le hr.pos (hr.wanted p)) hl n

/-- **C174.** And it ends: `n` points are enough for all segments shorter than `n` times the smallest size. -/
theorem C174_ends {D : DEnv K} {c : Cfg K} {d : Dm K} {b : BDef K} {bs : List (BDef K)} {ps : List (Pt K)} {hs : List (List (Pt K))}
    (H : Drawing D c b bs ps hs) (h : makeDomain D c = .ok d) {Ex : K → K} (hE : ExpLike Ex) {norm : Pt K → K} (hn : IsNorm norm) {user : Line → Pt K → K} {r : K}
    (hr : SizesFit norm (user c.size) D c (withHoles ps hs) r) {ss : List (Pt K × Pt K)} (hp : ∀ s ∈ ss, s.1 ≠ s.2) {n : Nat} (hs' : ∀ s ∈ ss, norm (s.2 - s.1) < n * r) :
    Divisible (codeSub Ex norm user n c d) ss := by
  intro s e he
  obtain ⟨xs, hx⟩ := C32_terminates norm hn (d.size Ex norm (user c.size)) _ _ (hp _ he) r hr.pos
    (fun t => (drawing_size H h hE hr.pos hr.atLeast _ (hr.wanted _)).2.1) n (hs' _ he)
  exact ⟨xs, hx n le_rfl⟩

/-- **C174.** From the text of an input file to the start of the meshing, with the size function that the code uses: the sizes fit the drawing. Then the application builds the
domain, prepares its mesh, and meshes it. (`C173_mesh` holds for the rest of the run: its hypothesis on the refinement is satisfied by `C174_divides` and `C174_ends`.) -/
theorem C174_start (E : Cf.Env K) (big : K) (file : List Line) (m : MeshText) (ms : List MeshText) (tail : List Line)
    (hc : readContent file = (m :: ms).flatMap MeshText.lines ++ tail) (ht : ∀ l ∈ tail, ¬"Define mesh:".toList <:+: l) (hm : ∀ x ∈ m :: ms, x.OK ∧ WellWritten E x.items)
    {D : DEnv K} {b : BDef K} {bs : List (BDef K)} {ps : List (Pt K)} {hs : List (List (Pt K))} {fs : List (Pt K × Pt K)}
    (H : Drawing D (described E big m.items) b bs ps hs) (C : Constructible D (described E big m.items) ps hs fs) (hsim : SimpleOutline (withHoles ps hs))
    (ha : (described E big m.items).algorithm = "Tri-to-Quad".toList ∨ (described E big m.items).algorithm = "Triangulation".toList)
    {L : LEnv K} (he : 0 < L.env.eps) (hsh : Sharp L.env.eps (ps ++ hs.flatten)) {Ex : K → K} (hE : ExpLike Ex) {norm : Pt K → K} (hn : IsNorm norm) {user : Line → Pt K → K} {r : K}
    (hr : SizesFit norm (user (described E big m.items).size) D (described E big m.items) (withHoles ps hs) r) {n : Nat}
    (hlen : ∀ s ∈ withHoles ps hs ++ fs, norm (s.2 - s.1) < n * r) (J : Job K) (fuel : Nat) :
    ∃ d s0, makeDomain D (described E big m.items) = .ok d ∧ Bare s0 ∧ SmSpec.BdryFlagged s0 ∧ s0.area = 0 ∧
      enclosed s0.pos (pairs s0 .bdry) = polygonArea ps - (hs.map polygonArea).sum ∧ (∀ p, winding s0.pos (pairs s0 .bdry) p = segWinding (withHoles ps hs) p) ∧
      runFirst E big D L J (codeSub Ex norm user n) fuel file = some (match generateMesh L fuel (jobOf J (described E big m.items)) d.dom s0 with
        | .undef => .fail .ub
        | .fuel => .fuel
        | .done t => .done d s0 t) := by
  have hp : ∀ s ∈ withHoles ps hs ++ fs, s.1 ≠ s.2 := by
    intro s hs
    rcases List.mem_append.mp hs with h | h
    · exact hsim.proper s h
    · exact C.proper s h
  obtain ⟨d, s0, h1, h2, h3, h4, h5, h6, h7⟩ := C173_start E big file m ms tail hc ht hm H C hsim ha he hsh
    (sub := codeSub Ex norm user n) (fun d hd => ⟨C174_divides H hd hE hn hr n, C174_ends H hd hE hn hr hp hlen⟩) J fuel
  refine ⟨d, s0, h1, h2, h3, h4, h5, h6, ?_⟩
  rw [h7]
  generalize generateMesh L fuel (jobOf J (described E big m.items)) d.dom s0 = r
  cases r <;> rfl

/-! ### A file with sizes that grow from 1/10 to 3/10 -/

namespace SZEx
/-- Decimal numbers as reals. -/
noncomputable def realEnv : Cf.Env ℝ := ⟨fun t => (demoNum t).map Rat.cast, demoInt, demoNat, demoBool, fun x => some ⌊x⌋⟩

theorem num_cast (l : Line) (i : Nat) : num realEnv l i = ((num demoEnv l i : ℚ) : ℝ) := by
  unfold num cellValue
  cases (cells l)[i]? with
  | none => simp
  | some c =>
    change ((demoNum (PRSpec.bare c)).map Rat.cast).getD (-1) = (((demoNum (PRSpec.bare c)).getD (-1) : ℚ) : ℝ)
    cases demoNum (PRSpec.bare c) <;> simp

def items : List Item := [
  .single .size "  ".toList " 0.1+0.2*min(max(x,0),1)".toList,
  .single .algorithm "  ".toList " Tri-to-Quad".toList,
  .single .outFormat "  ".toList " VTU".toList,
  .single .outPrefix "  ".toList " a".toList,
  .single (.rect .exterior) "  ".toList " 1, 0.5, 0.5, 1, 1".toList]
def text : MeshText := ⟨[], [], [], items, "End mesh".toList⟩
def file : List Line := [
  "Define mesh:".toList,
  "  Element size: 0.1+0.2*min(max(x,0),1)".toList,
  "  Meshing algorithm: Tri-to-Quad".toList,
  "  Output file format: VTU".toList,
  "  Output file prefix: a".toList,
  "  Define exterior rectangular boundary: 1, 0.5, 0.5, 1, 1".toList,
  "End mesh".toList]
set_option maxRecDepth 4000 in
theorem file_ok : readContent file = [text].flatMap MeshText.lines ++ [] ∧ (∀ m ∈ [text], m.OK ∧ WellWritten demoEnv m.items) := by decide +kernel
theorem well : WellWritten realEnv items := by
  obtain ⟨-, h⟩ := file_ok
  have w : WellWritten demoEnv items := (h text (by simp)).2
  exact ⟨w.ok, w.once, by decide +kernel, w.needed, w.texts, w.color, w.refinements, w.smoothing, w.smoothLayers, w.verts,
    fun b rows hr => ⟨(w.coords b rows hr).1, fun l hl => ⟨((w.coords b rows hr).2 l hl).1, by
      have : tables (.coords b) items = [] := by cases b <;> decide +kernel
      rw [this] at hr; simp at hr⟩⟩,
    w.edges, w.fixedEdges, fun t ht => by
      have : singles .layers items = [] := by decide +kernel
      rw [this] at ht; simp at ht,
    fun _ _ _ _ _ => ⟨_, rfl⟩, fun _ _ _ => ⟨_, rfl⟩⟩
def rectText : Line := "1,0.5,0.5,1,1".toList
theorem rect_text : singles (.rect .exterior) items = [rectText] ∧ num demoEnv rectText 0 = 1 ∧ num demoEnv rectText 1 = 1 / 2 ∧ num demoEnv rectText 2 = 1 / 2 ∧ num demoEnv rectText 3 = 1 ∧
    num demoEnv rectText 4 = 1 ∧ num demoEnv rectText 5 = -1 ∧ num demoEnv rectText 6 = -1 := by decide +kernel
noncomputable def cfg : Cfg ℝ := ⟨"a".toList, "VTU".toList, "0.1+0.2*min(max(x,0),1)".toList, 1000, [], [(.exterior, .rect 1 ⟨1 / 2, 1 / 2⟩ 1 1 ⟨-1, -1⟩)], [], [], 0, "Tri-to-Quad".toList, 0, 2, false⟩
theorem cfg_eq : described realEnv 1000 text.items = cfg := by
  obtain ⟨h, h0, h1, h2, h3, h4, h5, h6⟩ := rect_text
  have e : bdriesOf realEnv .exterior items = [.rect 1 ⟨1 / 2, 1 / 2⟩ 1 1 ⟨-1, -1⟩] := by
    have : bdriesOf realEnv .exterior items = [.rect (whole realEnv rectText 0) (point realEnv rectText 1) (num realEnv rectText 3) (num realEnv rectText 4) (point realEnv rectText 5)] := by
      unfold bdriesOf
      rw [h, show tables (.edges .exterior) items = [] by decide +kernel, show tables (.coords .exterior) items = [] by decide +kernel,
        show singles (.circ .exterior) items = [] by decide +kernel, show singles (.square .exterior) items = [] by decide +kernel,
        show singles (.triangle .exterior) items = [] by decide +kernel, show singles (.csv .exterior) items = [] by decide +kernel]
      rfl
    rw [this]
    unfold whole point
    simp only [num_cast, h0, h1, h2, h3, h4, h5, h6]
    simp [realEnv]
  have e' : bdriesOf realEnv .interior items = [] := by
    unfold bdriesOf
    rw [show tables (.edges .interior) items = [] by decide +kernel, show tables (.coords .interior) items = [] by decide +kernel, show singles (.rect .interior) items = [] by decide +kernel,
        show singles (.circ .interior) items = [] by decide +kernel, show singles (.square .interior) items = [] by decide +kernel,
        show singles (.triangle .interior) items = [] by decide +kernel, show singles (.csv .interior) items = [] by decide +kernel]
    rfl
  have ev : tables .vertices items = [] ∧ tables .fixedVerts items = [] ∧ tables .fixedEdges items = [] ∧ singles .layers items = [] ∧ singles .color items = [] ∧ singles .refinements items = [] ∧
    singles .smoothing items = [] ∧ singles .smoothLayers items = [] ∧ valueOr (some ∘ word) [] .outPrefix items = "a".toList ∧ valueOr (some ∘ word) [] .outFormat items = "VTU".toList ∧
    valueOr (some ∘ word) [] .size items = "0.1+0.2*min(max(x,0),1)".toList ∧ valueOr (some ∘ word) "Triangulation".toList .algorithm items = "Tri-to-Quad".toList := by decide +kernel
  obtain ⟨v1, v2, v3, v4, v5, v6, v7, v8, v9, v10, v11, v12⟩ := ev
  show described realEnv 1000 items = cfg
  unfold described extentOf vertsOf
  rw [v1, v2, v3, v4, v9, v10, v11, v12, e, e']
  simp [cfg, valueOr, v5, v6, v7, v8]

/-- Vertices are searched by their coordinates. -/
noncomputable def D : DEnv ℝ := ⟨fun _ st p => .ok ((List.range st.length).find? fun i => decide ((storePos st i).x = p.x ∧ (storePos st i).y = p.y)), fun _ _ => ⟨0, 0⟩, 1, fun _ => none, fun _ => none, fun _ => none⟩
noncomputable def unit : List (Pt ℝ) := [⟨0, 0⟩, ⟨1, 0⟩, ⟨1, 1⟩, ⟨0, 1⟩]
theorem rect_eq : rectangle (⟨1 / 2, 1 / 2⟩ : Pt ℝ) 1 1 = unit := by unfold rectangle unit; norm_num
theorem drawing : Drawing D cfg (.rect 1 ⟨1 / 2, 1 / 2⟩ 1 1 ⟨-1, -1⟩) [] unit [] where
  bdries := rfl
  outer := .shape (.rect _ _ _ _ _) (Or.inl rect_eq)
  holes := .nil
  ccw := by
    intro q hq; rw [List.mem_singleton] at hq; subst hq
    have := Sh.convex_area (Sh.convex_rect (K := ℝ) (x0 := 0) (x1 := 1) (y0 := 0) (y1 := 1) (by norm_num))
    exact this
  few := by simp [cfg]
theorem constructible : Constructible D cfg unit [] [] where
  corners := by
    intro q hq; rw [List.mem_singleton] at hq; subst hq
    simp [unit]
  markers := by
    intro b hb m hm
    simp only [cfg, List.mem_singleton] at hb
    subst hb
    simp only [markers, List.mem_singleton] at hm
    omega
  fixed := .nil
  proper := by simp
  search := fun _ _ _ _ _ _ _ => ⟨_, rfl⟩
theorem simple : SimpleOutline (withHoles unit []) := by
  have := convex_simple (Sh.convex_rect (K := ℝ) (x0 := 0) (x1 := 1) (y0 := 0) (y1 := 1) (by norm_num))
  simpa [withHoles, unit] using this
theorem segs_eq : withHoles unit [] = [(⟨0, 0⟩, ⟨1, 0⟩), (⟨1, 0⟩, ⟨1, 1⟩), (⟨1, 1⟩, ⟨0, 1⟩), (⟨0, 1⟩, ⟨0, 0⟩)] := by
  simp [withHoles, unit, ring, path]
theorem segs_len : ∀ s ∈ withHoles unit [], euclid (s.2 - s.1) = 1 := by
  rw [segs_eq]
  intro s hs
  fin_cases hs <;> simp [euclid, Pt.normSq]
theorem sharp : Sharp (1 / 1000) unit := by
  intro a ha b hb c hc
  simp only [unit, List.mem_cons, List.not_mem_nil, or_false] at ha hb hc
  rcases ha with rfl | rfl | rfl | rfl <;> rcases hb with rfl | rfl | rfl | rfl <;> rcases hc with rfl | rfl | rfl | rfl <;> simp [side] <;> norm_num

/-- The function for the expression in the file. -/
noncomputable def user (_ : Line) (p : Pt ℝ) : ℝ := 1 / 10 + 1 / 5 * min (max p.x 0) 1

theorem user_slow (l : Line) (p q : Pt ℝ) : 5 * |user l p - user l q| ≤ euclid (p - q) := by
  have h1 : |min (max p.x 0) 1 - min (max q.x 0) 1| ≤ |p.x - q.x| :=
    (abs_min_sub_min_le_max _ _ _ _).trans (by rw [sub_self, abs_zero, max_eq_left (abs_nonneg _)]; exact abs_max_sub_max_le_abs _ _ _)
  have h2 : user l p - user l q = 1 / 5 * (min (max p.x 0) 1 - min (max q.x 0) 1) := by unfold user; ring
  have h3 : |p.x - q.x| ≤ euclid (p - q) := by
    unfold euclid
    apply Real.abs_le_sqrt
    unfold Pt.normSq
    simp
    nlinarith [sq_nonneg (p.y - q.y)]
  rw [h2, abs_mul, abs_of_pos (show (0 : ℝ) < 1 / 5 by norm_num)]
  linarith
theorem user_bounds (l : Line) (p : Pt ℝ) : 1 / 10 ≤ user l p ∧ user l p ≤ 3 / 10 := by
  unfold user
  have h1 : 0 ≤ min (max p.x 0) 1 := le_min (le_max_right _ _) zero_le_one
  have h2 : min (max p.x 0) 1 ≤ 1 := min_le_right _ _
  constructor <;> linarith
theorem atLeast {m : ℝ} (h : m ≤ 3 / 10) : AtLeast euclid D cfg (withHoles unit []) m := by
  refine ⟨fun s hs => by rw [segs_len s hs]; linarith, fun x hx => ?_⟩
  simp only [localSizes, cfg, List.map_nil, List.nil_append, List.flatMap_cons, List.flatMap_nil, List.append_nil, cornerSizes, List.mem_singleton] at hx
  left; rw [hx]; norm_num
theorem fit : SizesFit euclid (user cfg.size) D cfg (withHoles unit []) (1 / 10) where
  pos := by norm_num
  wanted := fun p => (user_bounds _ p).1
  atLeast := atLeast (by norm_num)
  steady := Or.inr ⟨user_slow _, fun p => atLeast (user_bounds _ p).2⟩

/-- An environment on the reals. -/
noncomputable def L : LEnv ℝ := ⟨⟨1 / 1000, fun _ => 1, fun _ => true, fun _ _ => [], euclid, fun _ _ _ => 0, 0, 180, 3, fun s _ _ => s.verts, fun s _ _ => s.tris, fun s _ _ => s.quads,
  fun s _ _ => s.es .front, fun _ l => l⟩, fun _ _ => true, fun _ _ => 1, fun _ _ => 1, 1, 1⟩
end SZEx

/-- The mesh of the file is prepared with the sizes of the expression: its boundary is the unit square. -/
example (J : Job ℝ) (fuel : Nat) : ∃ d s0, makeDomain SZEx.D SZEx.cfg = .ok d ∧ Bare s0 ∧ (∀ p, winding s0.pos (pairs s0 .bdry) p = segWinding (withHoles SZEx.unit []) p) ∧
    runFirst SZEx.realEnv 1000 SZEx.D SZEx.L J (codeSub Real.exp euclid SZEx.user 11) fuel SZEx.file = some (match generateMesh SZEx.L fuel (jobOf J SZEx.cfg) d.dom s0 with
      | .undef => .fail .ub
      | .fuel => .fuel
      | .done t => .done d s0 t) := by
  have e := SZEx.cfg_eq
  obtain ⟨d, s0, h1, h2, -, -, -, h6, h7⟩ := C174_start SZEx.realEnv 1000 SZEx.file SZEx.text [] [] SZEx.file_ok.1 (by simp)
    (by intro x hx; rw [List.mem_singleton] at hx; subst hx; exact ⟨(SZEx.file_ok.2 SZEx.text (by simp)).1, SZEx.well⟩)
    (by rw [e]; exact SZEx.drawing) (by rw [e]; exact SZEx.constructible) SZEx.simple (by rw [e]; exact Or.inl rfl) (L := SZEx.L) (by simp [SZEx.L]) (by simpa [SZEx.L] using SZEx.sharp)
    (Ex := Real.exp) ⟨fun _ hx => ⟨(Real.exp_pos _).le, Real.exp_le_one_iff.mpr hx⟩, Real.exp_zero⟩ euclid_isNorm (user := SZEx.user) (by rw [e]; exact SZEx.fit) (n := 11)
    (by intro s hs; rw [List.append_nil] at hs; rw [SZEx.segs_len s hs]; norm_num) J fuel
  rw [e] at h1 h7
  refine ⟨d, s0, h1, h2, h6, ?_⟩
  rw [h7]
  generalize generateMesh SZEx.L fuel (jobOf J SZEx.cfg) d.dom s0 = r
  cases r <;> rfl

/-- The size is the wanted one: 1/5 in the middle. -/
example {d : Dm ℝ} (h : makeDomain SZEx.D SZEx.cfg = .ok d) : d.size? Real.exp euclid (SZEx.user SZEx.cfg.size) ⟨1 / 2, 1 / 2⟩ = some (1 / 5) := by
  obtain ⟨x, h1, -, -, h4⟩ := C174_size SZEx.drawing h (Ex := Real.exp) ⟨fun _ hx => ⟨(Real.exp_pos _).le, Real.exp_le_one_iff.mpr hx⟩, Real.exp_zero⟩ (norm := euclid)
    (f := SZEx.user SZEx.cfg.size) ⟨1 / 2, 1 / 2⟩ (m := 1 / 10) (by norm_num) (SZEx.atLeast (by norm_num)) (SZEx.user_bounds _ _).1
  rw [h1, h4 (SZEx.atLeast (SZEx.user_bounds _ _).2)]
  unfold SZEx.user
  norm_num

end TQ

#print axioms TQ.C170_graded_partial
#print axioms TQ.C174_size
#print axioms TQ.C174_divides
#print axioms TQ.C174_ends
#print axioms TQ.C174_start
