import Verif.Writer.Props

/-!
# Properties of the text export (C125, C126)
-/

namespace TQ
namespace VT
open VTSpec MS MS.St MeshSpec MCSpec

/-! ### Rows and sections -/

theorem lines_nl {a : List Char} (h : '\n' ∉ a) (r : List Char) : lines (a ++ '\n' :: r) = a :: lines r := by
  unfold lines
  rw [split_append (by decide), split_free]
  · rfl
  · intro c hc; rw [beq_eq_false_iff_ne]; rintro rfl; exact h hc

theorem lines_rowsN {rs : List Txt} (h : ∀ x ∈ rs, '\n' ∉ x) (r : List Char) :
    lines ((rs.map (· ++ ['\n'])).flatten ++ r) = rs ++ lines r := by
  induction rs with
  | nil => rfl
  | cons a rs ih =>
    simp only [List.map_cons, List.flatten_cons, List.append_assoc, List.cons_append, List.nil_append]
    rw [lines_nl (h a (by simp)), ih fun x hx => h x (by simp [hx])]

/-- Reading one section. -/
theorem sections_sect {name : Txt} (hn : Clean name) {rs : List Txt} (h : ∀ x ∈ rs, '\n' ∉ x) (k : Nat) (r : List Char) :
    sections (k + 1) (lines (sect name rs.length (rs.map (· ++ ['\n'])) ++ r)) = (sections k (lines r)).map ((name, rs) :: ·) := by
  have hd := clean_natTxt rs.length
  have e : sect name rs.length (rs.map (· ++ ['\n'])) ++ r = (name ++ ' ' :: natTxt rs.length) ++ '\n' :: ((rs.map (· ++ ['\n'])).flatten ++ r) := by
    unfold sect; simp
  have nl : '\n' ∉ name ++ ' ' :: natTxt rs.length := by simp [hn.2.2.1, hd.2.2.1]
  have hw : words (name ++ ' ' :: natTxt rs.length) = [name, natTxt rs.length] := by
    rw [words_append (by decide), words_free (clean_free hn) hn.1, words_free (clean_free hd) hd.1]; rfl
  rw [e, lines_nl nl, lines_rowsN h]
  simp only [sections, hw, readNat_natTxt]
  show (if (rs ++ lines r).length < rs.length then none else _) = _
  rw [if_neg (by simp), List.drop_left, List.take_left]

theorem fields_csv {l : List Txt} (hl : l ≠ []) (h : ∀ x ∈ l, ',' ∉ x) : fields (List.intercalate [','] l) = l.map trim := by
  unfold fields
  congr 1
  induction l with
  | nil => exact absurd rfl hl
  | cons a l ih =>
    have ha : ∀ c ∈ a, (c == ',') = false := fun c hc => by
      rw [beq_eq_false_iff_ne]; rintro rfl; exact h a (by simp) hc
    cases l with
    | nil => simp [List.intercalate, split_free ha]
    | cons b l =>
      have e : List.intercalate [','] (a :: b :: l) = a ++ ',' :: List.intercalate [','] (b :: l) := by
        simp [List.intercalate]
      rw [e, split_append (by decide), split_free ha, ih (by simp) fun x hx => h x (by simp [hx])]; rfl

theorem mem_intercalate {c : Char} {l : List Txt} (h : c ∈ List.intercalate [','] l) : c = ',' ∨ ∃ x ∈ l, c ∈ x := by
  induction l with
  | nil => simp [List.intercalate] at h
  | cons a l ih =>
    cases l with
    | nil => right; exact ⟨a, by simp, by simpa [List.intercalate] using h⟩
    | cons b l =>
      have e : List.intercalate [','] (a :: b :: l) = a ++ ',' :: List.intercalate [','] (b :: l) := by
        simp [List.intercalate]
      rw [e] at h
      rcases List.mem_append.1 h with h | h
      · exact Or.inr ⟨a, by simp, h⟩
      · rcases List.mem_cons.1 h with h | h
        · exact Or.inl h
        · rcases ih h with h | ⟨x, hx, hc⟩
          · exact Or.inl h
          · exact Or.inr ⟨x, by simp only [List.mem_cons] at hx ⊢; tauto, hc⟩

theorem trim_clean {t : List Char} (h : Clean t) : trim t = t := by
  obtain ⟨hn, hs, -⟩ := h
  cases t with
  | nil => exact absurd rfl hn
  | cons c cs =>
    have : c ≠ ' ' := by rintro rfl; simp at hs
    simp [trim, this]

/-- No separator of the formats is in a printed number. -/
theorem comma_free {t : List Char} (hd : ∀ c ∈ t, c.isDigit = true ∨ c = '-' ∨ c = '.' ∨ c = ' ') : ',' ∉ t ∧ '\n' ∉ t := by
  constructor <;> intro hm <;> rcases hd _ hm with h | h | h | h <;> revert h <;> decide

theorem setw_chars (i : Int) : ∀ c ∈ setw 4 (intTxt i), c.isDigit = true ∨ c = '-' ∨ c = '.' ∨ c = ' ' := by
  intro c hc
  unfold setw spaces at hc
  rcases List.mem_append.1 hc with h | h
  · exact Or.inr (Or.inr (Or.inr (List.mem_replicate.1 h).2))
  · unfold intTxt at h
    split at h
    · rcases List.mem_cons.1 h with rfl | h
      · simp
      · exact Or.inl (natTxt_digits _ c h)
    · exact Or.inl (natTxt_digits _ c h)

theorem fixed5_chars (x : ℚ) : ∀ c ∈ fixed5 x, c.isDigit = true ∨ c = '-' ∨ c = '.' ∨ c = ' ' := by
  rw [fixed5_eq]
  intro c hc
  rcases List.mem_append.1 hc with h | h
  · split at h <;> simp at h; right; left; exact h
  · rcases List.mem_append.1 h with h | h
    · exact Or.inl (natTxt_digits _ c h)
    · rcases List.mem_cons.1 h with rfl | h
      · simp
      · exact Or.inl (frac5_digits _ c h)

/-- A row of integers without its line break. -/
def row (l : List Int) : Txt := List.intercalate [','] (l.map fun i => setw 4 (intTxt i))

theorem nums_row (l : List Int) : nums l = row l ++ ['\n'] := rfl

theorem row_nl (l : List Int) : '\n' ∉ row l := by
  intro h
  rcases mem_intercalate h with h | ⟨x, hx, hc⟩
  · revert h; decide
  · obtain ⟨i, -, rfl⟩ := List.mem_map.1 hx
    exact (comma_free (setw_chars i)).2 hc

theorem read_row {l : List Int} (hl : l ≠ []) : (fields (row l)).mapM readInt = some l := by
  unfold row
  rw [fields_csv (by simpa using hl), List.map_map, mapM_map_some (g := id)]
  · simp
  · intro i _
    show readInt (trim (setw 4 (intTxt i))) = _
    unfold setw
    rw [trim_spaces, trim_clean (clean_intTxt i), readInt_intTxt]; rfl
  · intro x hx
    obtain ⟨i, -, rfl⟩ := List.mem_map.1 hx
    exact (comma_free (setw_chars i)).1

/-- A row of decimals without its line break. -/
def drow (l : List ℚ) : Txt := List.intercalate [','] (l.map fixed5)

theorem drow_nl (l : List ℚ) : '\n' ∉ drow l := by
  intro h
  rcases mem_intercalate h with h | ⟨x, hx, hc⟩
  · revert h; decide
  · obtain ⟨i, -, rfl⟩ := List.mem_map.1 hx
    exact (comma_free (fixed5_chars i)).2 hc

theorem read_drow {l : List ℚ} (hl : l ≠ []) : (fields (drow l)).mapM readDec = some (l.map dec5) := by
  unfold drow
  rw [fields_csv (by simpa using hl), List.map_map, mapM_map_some (g := dec5)]
  · intro x _
    show readDec (trim (fixed5 x)) = _
    rw [trim_clean (clean_fixed5 x), readDec_fixed5]
  · intro x hx
    obtain ⟨i, -, rfl⟩ := List.mem_map.1 hx
    exact (comma_free (fixed5_chars i)).1

/-! ### The whole file -/

/-- The sections of a text file. -/
def txtSections (twin : Nat × Nat → Int × Int) (msize : Nat → ℚ) (s : St ℚ) (ixV : Nat → Nat) (ixF : FRef → Nat) :
    List (Txt × List Txt) :=
  [("VERTICES".toList, s.verts.map fun v => drow [(s.pos v).x, (s.pos v).y]),
   ("INTERIOREDGES".toList, (validIntr s).map fun e => row [ixV (s.E e).v1, ixV (s.E e).v2, fIdx ixF (s.E e).fl, fIdx ixF (s.E e).fr]),
   ("BOUNDARYEDGES".toList, (validBdry s).map fun e => row [ixV (s.E e).v1, ixV (s.E e).v2, fIdx ixF (s.E e).fl, (s.E e).color]),
   ("INTERFACEEDGES".toList, (interfaces s).map fun e => row [ixV (s.E e).v1, ixV (s.E e).v2, fIdx ixF (s.E e).fl,
      ((s.E e).twin.map twin).elim 0 (·.1), ((s.E e).twin.map twin).elim 0 (·.2)]),
   ("FRONT".toList, (MC.frontEdges s).map fun e => row [ixV (s.E e).v1, ixV (s.E e).v2, -1]),
   ("QUADS".toList, s.quads.map fun q => row ((s.F (.quad q)).corners.map (fun v => (ixV v : Int)) ++ [(s.F (.quad q)).color])),
   ("TRIANGLES".toList, s.tris.map fun t => row ((s.F (.tri t)).corners.map (fun v => (ixV v : Int)) ++ [(s.F (.tri t)).color])),
   ("QUADNEIGHBORS".toList, s.quads.map fun q => row ((s.F (.quad q)).nbrs.map (fIdx ixF))),
   ("TRIANGLENEIGHBORS".toList, s.tris.map fun t => row ((s.F (.tri t)).nbrs.map (fIdx ixF))),
   ("SIZEFUNCTION".toList, s.verts.map fun v => drow [msize v])]

theorem readTxt_mesh (id : Int) (twin : Nat × Nat → Int × Int) (msize : Nat → ℚ) (s : St ℚ) (ixV : Nat → Nat) (ixF : FRef → Nat) :
    readTxt (meshTxt id twin msize s ixV ixF) = some (id, txtSections twin msize s ixV ixF) := by
  have sr : ∀ {α : Type} (name : Txt) (l : List α) (f : α → List Int) (r : Txt) (k : Nat), Clean name →
      sections (k + 1) (lines (sect name l.length (l.map fun a => nums (f a)) ++ r)) =
        (sections k (lines r)).map ((name, l.map fun a => row (f a)) :: ·) := by
    intro α name l f r k hn
    have := sections_sect hn (rs := l.map fun a => row (f a)) (fun x hx => by
      obtain ⟨a, -, rfl⟩ := List.mem_map.1 hx; exact row_nl _) k r
    rw [List.length_map, List.map_map] at this
    exact this
  have sd : ∀ {α : Type} (name : Txt) (l : List α) (f : α → List ℚ) (r : Txt) (k : Nat), Clean name →
      sections (k + 1) (lines (sect name l.length (l.map fun a => drow (f a) ++ ['\n']) ++ r)) =
        (sections k (lines r)).map ((name, l.map fun a => drow (f a)) :: ·) := by
    intro α name l f r k hn
    have := sections_sect hn (rs := l.map fun a => drow (f a)) (fun x hx => by
      obtain ⟨a, -, rfl⟩ := List.mem_map.1 hx; exact drow_nl _) k r
    rw [List.length_map, List.map_map] at this
    exact this
  have hid := clean_intTxt id
  have hw : words ("MESH ".toList ++ intTxt id) = ["MESH".toList, intTxt id] := by
    rw [show "MESH ".toList ++ intTxt id = "MESH".toList ++ ' ' :: intTxt id from rfl, words_append (by decide),
      words_free (clean_free hid) hid.1]
    rfl
  have nl : '\n' ∉ "MESH ".toList ++ intTxt id := by simp [hid.2.2.1]
  have cl : ∀ t : Txt, (t.all fun c => decide (c ≠ ' ' ∧ c ≠ '\n' ∧ c ≠ '<')) = true → t ≠ [] → Clean t := by
    intro t ht hn
    simp only [List.all_eq_true, decide_eq_true_eq] at ht
    exact ⟨hn, fun h => (ht _ h).1 rfl, fun h => (ht _ h).2.1 rfl, fun h => (ht _ h).2.2 rfl⟩
  unfold readTxt meshTxt
  simp only [List.append_assoc]
  rw [← List.append_assoc, List.cons_append, List.nil_append, lines_nl nl]
  simp only [hw, if_true, readInt_intTxt]
  have e1 : ∀ v, csv [fixed5 (s.pos v).x, fixed5 (s.pos v).y] = drow [(s.pos v).x, (s.pos v).y] ++ ['\n'] := fun v => rfl
  have e2 : ∀ v, fixed5 (msize v) ++ ['\n'] = drow [msize v] ++ ['\n'] := fun v => by simp [drow, List.intercalate]
  simp only [e1, e2]
  rw [sd _ _ _ _ _ (cl _ (by decide) (by decide)), sr _ _ _ _ _ (cl _ (by decide) (by decide)), sr _ _ _ _ _ (cl _ (by decide) (by decide)),
    sr _ _ _ _ _ (cl _ (by decide) (by decide)), sr _ _ _ _ _ (cl _ (by decide) (by decide)), sr _ _ _ _ _ (cl _ (by decide) (by decide)),
    sr _ _ _ _ _ (cl _ (by decide) (by decide)), sr _ _ _ _ _ (cl _ (by decide) (by decide)), sr _ _ _ _ _ (cl _ (by decide) (by decide)),
    ← List.append_nil (sect "SIZEFUNCTION".toList _ _), sd _ _ _ _ _ (cl _ (by decide) (by decide))]
  rfl

/-! ### Numbers of vertices and elements -/

/-- Number of a vertex: its position in the mesh. -/
def vNo (s : St ℚ) (v : Nat) : Int := s.verts.idxOf v

/-- Number of an element: its position among the quads followed by the triangles; -1 for no element. -/
def fNo (s : St ℚ) (f : FRef) : Int := if f = .null then -1 else ((s.quads.map FRef.quad ++ s.tris.map FRef.tri).idxOf f : Nat)

/-- All element pointers of edges and elements that are written are null or refer to elements of the mesh. -/
def PtrLive (s : St ℚ) : Prop :=
  (∀ e ∈ s.es .intr ++ s.es .bdry, ((s.E e).fl = .null ∨ Live s (s.E e).fl) ∧ (e ∈ s.es .intr → (s.E e).fr = .null ∨ Live s (s.E e).fr)) ∧ NbrLive s

theorem idx_of_get {α : Type} [DecidableEq α] {l : List α} (hn : l.Nodup) {i : Nat} {x : α} (h : l[i]? = some x) : l.idxOf x = i := by
  obtain ⟨hi, rfl⟩ := List.getElem?_eq_some_iff.1 h
  exact hn.idxOf_getElem i hi

theorem index_V {s : St ℚ} (h : WF s) (eps : ℚ) {v : Nat} (hv : v ∈ s.verts) : (((prepare eps s).2.1 v : Nat) : Int) = vNo s v := by
  obtain ⟨i, hi, e⟩ := List.getElem_of_mem hv
  have e2 : s.verts[i]? = some v := by rw [List.getElem?_eq_getElem hi, e]
  have := (C47_indices h (fun _ => 0) (fun _ => 0)).1 i v e2
  unfold vNo
  rw [idx_of_get h.vnd e2]
  exact_mod_cast this

theorem index_F {s : St ℚ} (h : WF s) (eps : ℚ) {f : FRef} (hf : f = .null ∨ Live s f) : fIdx (prepare eps s).2.2 f = fNo s f := by
  obtain ⟨-, hq, ht⟩ := C47_indices h (fun _ => 0) (fun _ => 0)
  have nd : (s.quads.map FRef.quad ++ s.tris.map FRef.tri).Nodup := by
    rw [List.nodup_append]
    refine ⟨h.qnd.map (fun a b hab => by simpa using hab), h.tnd.map (fun a b hab => by simpa using hab), ?_⟩
    intro a ha b hb
    obtain ⟨_, -, rfl⟩ := List.mem_map.1 ha
    obtain ⟨_, -, rfl⟩ := List.mem_map.1 hb
    simp
  unfold fNo
  rcases hf with rfl | hf
  · rfl
  · cases f with
    | null => exact absurd hf (by simp [Live])
    | quad q =>
      obtain ⟨i, hi, e⟩ := List.getElem_of_mem (show q ∈ s.quads from hf)
      have e2 : s.quads[i]? = some q := by rw [List.getElem?_eq_getElem hi, e]
      have e3 : (s.quads.map FRef.quad ++ s.tris.map FRef.tri)[i]? = some (.quad q) := by
        rw [List.getElem?_append_left (by simpa using hi), List.getElem?_map, e2]; rfl
      rw [if_neg (by simp), idx_of_get nd e3]
      exact congrArg (fun n : Nat => (n : Int)) (hq i q e2)
    | tri t =>
      obtain ⟨i, hi, e⟩ := List.getElem_of_mem (show t ∈ s.tris from hf)
      have e2 : s.tris[i]? = some t := by rw [List.getElem?_eq_getElem hi, e]
      have e3 : (s.quads.map FRef.quad ++ s.tris.map FRef.tri)[s.quads.length + i]? = some (.tri t) := by
        rw [List.getElem?_append_right (by simp), List.getElem?_map]; simp [e2]
      rw [if_neg (by simp), idx_of_get nd e3]
      exact congrArg (fun n : Nat => (n : Int)) (ht i t e2)

/-- Reading the rows of a section. -/
theorem intRows_of {ss : List (Txt × List Txt)} {name : Txt} {α : Type} {l : List α} {f g : α → List Int}
    (h : ss.find? (fun s => s.1 = name) = some (name, l.map fun a => row (f a))) (hne : ∀ a ∈ l, f a ≠ []) (hg : ∀ a ∈ l, f a = g a) :
    intRows name ss = some (l.map g) := by
  unfold intRows
  rw [h]
  show (l.map fun a => row (f a)).mapM (fun r => (fields r).mapM readInt) = _
  exact mapM_map_some fun a ha => by rw [read_row (hne a ha), hg a ha]

/-- **C125.** Reading the text file gives back the mesh: all vertices up to half of the last decimal, and for edges, elements,
neighbours exactly the numbers of their vertices and elements and their colours, where `s'` is the mesh with the element
connectivity set up. -/
theorem _root_.TQ.C125_read_back (W : WEnv) (eps : ℚ) (id : Int) (twin : Nat × Nat → Int × Int) {s s' : St ℚ} (h : WF s)
    (hs' : s' = MC.setupConnectivity eps s) (hp : PtrLive s') (hn : NbrLen s') :
    ∃ ss, readTxt (writeTxt W eps id twin s) = some (id, ss) ∧
      (∃ pts : List (List ℚ), decRows "VERTICES".toList ss = some pts ∧ pts.length = s.verts.length ∧
        ∀ i v : Nat, s.verts[i]? = some v → ∃ x y : ℚ, pts[i]? = some [x, y] ∧
          |x - (s.pos v).x| ≤ 1 / 200000 ∧ |y - (s.pos v).y| ≤ 1 / 200000) ∧
      intRows "INTERIOREDGES".toList ss = some (((s.es .intr).filter fun e => decide ((s'.E e).fl ≠ .null) && decide ((s'.E e).fr ≠ .null)).map
        fun e => [vNo s (s.E e).v1, vNo s (s.E e).v2, fNo s (s'.E e).fl, fNo s (s'.E e).fr]) ∧
      intRows "BOUNDARYEDGES".toList ss = some (((s.es .bdry).filter fun e => decide ((s'.E e).fl ≠ .null)).map
        fun e => [vNo s (s.E e).v1, vNo s (s.E e).v2, fNo s (s'.E e).fl, (s.E e).color]) ∧
      intRows "FRONT".toList ss = some (((s.es .intr).filter (fun e => decide ((s'.E e).fl = .null ∨ (s'.E e).fr = .null)) ++
        (s.es .bdry).filter fun e => decide ((s'.E e).fl = .null)).map fun e => [vNo s (s.E e).v1, vNo s (s.E e).v2, -1]) ∧
      intRows "QUADS".toList ss = some (s.quads.map fun q => (s.F (.quad q)).corners.map (vNo s) ++ [(s.F (.quad q)).color]) ∧
      intRows "TRIANGLES".toList ss = some (s.tris.map fun t => (s.F (.tri t)).corners.map (vNo s) ++ [(s.F (.tri t)).color]) ∧
      intRows "QUADNEIGHBORS".toList ss = some (s.quads.map fun q => (s'.F (.quad q)).nbrs.map (fNo s)) ∧
      intRows "TRIANGLENEIGHBORS".toList ss = some (s.tris.map fun t => (s'.F (.tri t)).nbrs.map (fNo s)) := by
  have sbp := MC.setup_sbp eps h
  rw [← hs'] at sbp
  have p1 : (prepare eps s).1 = s' := hs'.symm
  have hpos : ∀ v, s'.pos v = s.pos v := fun v => by unfold St.pos; rw [sbp.V]
  have live : ∀ f, Live s' f ↔ Live s f := by
    intro f; cases f <;> simp [Live, sbp.tris, sbp.quads]
  have eV : ∀ l, ∀ e ∈ s.es l, (((prepare eps s).2.1 (s'.E e).v1 : Nat) : Int) = vNo s (s.E e).v1 ∧
      (((prepare eps s).2.1 (s'.E e).v2 : Nat) : Int) = vNo s (s.E e).v2 := by
    intro l e he
    obtain ⟨-, a, b, -⟩ := (h.ends l).2 e he
    rw [(sbp.ends e).1, (sbp.ends e).2.1]
    exact ⟨index_V h eps a, index_V h eps b⟩
  have eF : ∀ e ∈ s.es .intr ++ s.es .bdry, fIdx (prepare eps s).2.2 (s'.E e).fl = fNo s (s'.E e).fl ∧
      (e ∈ s.es .intr → fIdx (prepare eps s).2.2 (s'.E e).fr = fNo s (s'.E e).fr) := by
    intro e he
    obtain ⟨a, b⟩ := hp.1 e (by rw [sbp.es]; exact he)
    rw [live] at a
    refine ⟨index_F h eps a, fun hi => ?_⟩
    have b := b (by rw [sbp.es]; exact hi)
    rw [live] at b
    exact index_F h eps b
  have nb : ∀ f, Live s f → (s'.F f).nbrs.map (fIdx (prepare eps s).2.2) = (s'.F f).nbrs.map (fNo s) := by
    intro f hf
    refine List.map_congr_left fun g hg => ?_
    have := hp.2 f ((live f).2 hf) g hg
    rw [live] at this
    exact index_F h eps this
  have co : ∀ f, Live s f → (s'.F f).corners.map (fun v => (((prepare eps s).2.1 v : Nat) : Int)) = (s.F f).corners.map (vNo s) := by
    intro f hf
    rw [(sbp.corners f).1]
    exact List.map_congr_left fun v hv => index_V h eps ((h.cor f hf).2 v hv)
  have nbne : ∀ f, Live s f → (s'.F f).nbrs ≠ [] := by
    intro f hf
    have := hn f ((live f).2 hf)
    rw [(sbp.corners f).1] at this
    cases f with
    | null => exact absurd hf (by simp [Live])
    | tri t => rw [h.tcor t hf] at this; intro h0; rw [h0] at this; cases this
    | quad q => rw [h.qcor q hf] at this; intro h0; rw [h0] at this; cases this
  have vi : validIntr s' = (s.es .intr).filter fun e => decide ((s'.E e).fl ≠ .null) && decide ((s'.E e).fr ≠ .null) := by
    unfold validIntr; rw [sbp.es]
  have vb : validBdry s' = (s.es .bdry).filter fun e => decide ((s'.E e).fl ≠ .null) := by unfold validBdry; rw [sbp.es]
  have fe : MC.frontEdges s' = (s.es .intr).filter (fun e => decide ((s'.E e).fl = .null ∨ (s'.E e).fr = .null)) ++
        (s.es .bdry).filter fun e => decide ((s'.E e).fl = .null) := by unfold MC.frontEdges; rw [sbp.es]
  refine ⟨txtSections twin (fun v => W.rho (s.pos v)) s' (prepare eps s).2.1 (prepare eps s).2.2, ?_, ?_, ?_, ?_, ?_, ?_, ?_, ?_, ?_⟩
  · unfold writeTxt
    rw [← p1]
    exact readTxt_mesh _ _ _ _ _ _
  · refine ⟨s.verts.map fun v => [dec5 (s.pos v).x, dec5 (s.pos v).y], ?_, by simp, ?_⟩
    · unfold decRows
      rw [show (txtSections twin (fun v => W.rho (s.pos v)) s' (prepare eps s).2.1 (prepare eps s).2.2).find?
        (fun s => s.1 = "VERTICES".toList) = some ("VERTICES".toList, s'.verts.map fun v => drow [(s'.pos v).x, (s'.pos v).y]) from rfl]
      show (s'.verts.map fun v => drow [(s'.pos v).x, (s'.pos v).y]).mapM (fun r => (fields r).mapM readDec) = _
      rw [sbp.verts]
      exact mapM_map_some fun v _ => by rw [read_drow (by simp), hpos]; rfl
    · intro i v hi
      exact ⟨_, _, by rw [List.getElem?_map, hi]; rfl, dec5_near _, dec5_near _⟩
  · rw [← vi]
    refine intRows_of (f := fun e => [((prepare eps s).2.1 (s'.E e).v1 : Int), (prepare eps s).2.1 (s'.E e).v2,
      fIdx (prepare eps s).2.2 (s'.E e).fl, fIdx (prepare eps s).2.2 (s'.E e).fr]) rfl (fun _ _ => by simp) fun e he => ?_
    rw [vi] at he
    have he' := List.mem_of_mem_filter he
    rw [(eV _ e he').1, (eV _ e he').2, (eF e (by simp [he'])).1, (eF e (by simp [he'])).2 he']
  · rw [← vb]
    refine intRows_of (f := fun e => [((prepare eps s).2.1 (s'.E e).v1 : Int), (prepare eps s).2.1 (s'.E e).v2,
      fIdx (prepare eps s).2.2 (s'.E e).fl, (s'.E e).color]) rfl (fun _ _ => by simp) fun e he => ?_
    rw [vb] at he
    have he' := List.mem_of_mem_filter he
    rw [(eV _ e he').1, (eV _ e he').2, (eF e (by simp [he'])).1, (sbp.ends e).2.2.2.1]
  · rw [← fe]
    refine intRows_of (f := fun e => [((prepare eps s).2.1 (s'.E e).v1 : Int), (prepare eps s).2.1 (s'.E e).v2, -1]) rfl
      (fun _ _ => by simp) fun e he => ?_
    rw [fe] at he
    rcases List.mem_append.1 he with he | he
    · have he' := List.mem_of_mem_filter he
      rw [(eV _ e he').1, (eV _ e he').2]
    · have he' := List.mem_of_mem_filter he
      rw [(eV _ e he').1, (eV _ e he').2]
  · rw [← sbp.quads]
    refine intRows_of (f := fun q => (s'.F (.quad q)).corners.map (fun v => ((prepare eps s).2.1 v : Int)) ++ [(s'.F (.quad q)).color]) rfl
      (fun _ _ => by simp) fun q hq => ?_
    rw [sbp.quads] at hq
    rw [co _ (show Live s (.quad q) from hq), (sbp.corners _).2.1]
  · rw [← sbp.tris]
    refine intRows_of (f := fun q => (s'.F (.tri q)).corners.map (fun v => ((prepare eps s).2.1 v : Int)) ++ [(s'.F (.tri q)).color]) rfl
      (fun _ _ => by simp) fun q hq => ?_
    rw [sbp.tris] at hq
    rw [co _ (show Live s (.tri q) from hq), (sbp.corners _).2.1]
  · rw [← sbp.quads]
    refine intRows_of (f := fun q => (s'.F (.quad q)).nbrs.map (fIdx (prepare eps s).2.2)) rfl (fun q hq => ?_) fun q hq => ?_
    · rw [sbp.quads] at hq
      simpa using nbne _ (show Live s (.quad q) from hq)
    · rw [sbp.quads] at hq
      exact nb _ (show Live s (.quad q) from hq)
  · rw [← sbp.tris]
    refine intRows_of (f := fun q => (s'.F (.tri q)).nbrs.map (fIdx (prepare eps s).2.2)) rfl (fun q hq => ?_) fun q hq => ?_
    · rw [sbp.tris] at hq
      simpa using nbne _ (show Live s (.tri q) from hq)
    · rw [sbp.tris] at hq
      exact nb _ (show Live s (.tri q) from hq)

/-- **C126.** The rows of the sections INTERIOREDGES, BOUNDARYEDGES and FRONT list every edge of the mesh exactly once:
their vertex numbers are those of the interior and boundary edges, in another order. -/
theorem _root_.TQ.C126_edges_once (W : WEnv) (eps : ℚ) (id : Int) (twin : Nat × Nat → Int × Int) {s s' : St ℚ} (h : WF s)
    (hs' : s' = MC.setupConnectivity eps s) (hp : PtrLive s') (hn : NbrLen s') :
    ∃ ss ri rb rf, readTxt (writeTxt W eps id twin s) = some (id, ss) ∧ intRows "INTERIOREDGES".toList ss = some ri ∧
      intRows "BOUNDARYEDGES".toList ss = some rb ∧ intRows "FRONT".toList ss = some rf ∧
      ((ri ++ rb ++ rf).map (·.take 2)).Perm ((s.es .intr ++ s.es .bdry).map fun e => [vNo s (s.E e).v1, vNo s (s.E e).v2]) := by
  obtain ⟨ss, hr, -, hi, hb, hf, -⟩ := C125_read_back W eps id twin h hs' hp hn
  refine ⟨ss, _, _, _, hr, hi, hb, hf, ?_⟩
  simp only [List.map_append, List.map_map, Function.comp_def, List.take_succ_cons, List.take_zero]
  have part : ∀ (l : List Nat) (p q : Nat → Bool) (g : Nat → List Int), (∀ e, q e = !p e) → ((l.filter p).map g ++ (l.filter q).map g).Perm (l.map g) := by
    intro l p q g hpq
    rw [← List.map_append]
    refine List.Perm.map g ?_
    have : q = fun e => !p e := funext hpq
    rw [this]
    exact List.filter_append_perm p l
  have a := part (s.es .intr) (fun e => decide ((s'.E e).fl ≠ .null) && decide ((s'.E e).fr ≠ .null))
    (fun e => decide ((s'.E e).fl = .null ∨ (s'.E e).fr = .null)) (fun e => [vNo s (s.E e).v1, vNo s (s.E e).v2]) (fun e => by
      by_cases h1 : (s'.E e).fl = .null <;> by_cases h2 : (s'.E e).fr = .null <;> simp [h1, h2])
  have b := part (s.es .bdry) (fun e => decide ((s'.E e).fl ≠ .null))
    (fun e => decide ((s'.E e).fl = .null)) (fun e => [vNo s (s.E e).v1, vNo s (s.E e).v2]) (fun e => by simp)
  refine List.Perm.trans ?_ (a.append b)
  generalize ((s.es .intr).filter fun e => decide ((s'.E e).fl ≠ .null) && decide ((s'.E e).fr ≠ .null)).map (fun e => [vNo s (s.E e).v1, vNo s (s.E e).v2]) = A
  generalize ((s.es .intr).filter fun e => decide ((s'.E e).fl = .null ∨ (s'.E e).fr = .null)).map (fun e => [vNo s (s.E e).v1, vNo s (s.E e).v2]) = B
  generalize ((s.es .bdry).filter fun e => decide ((s'.E e).fl ≠ .null)).map (fun e => [vNo s (s.E e).v1, vNo s (s.E e).v2]) = C
  generalize ((s.es .bdry).filter fun e => decide ((s'.E e).fl = .null)).map (fun e => [vNo s (s.E e).v1, vNo s (s.E e).v2]) = D
  rw [List.append_assoc, List.append_assoc]
  refine List.Perm.append_left A ?_
  rw [← List.append_assoc, ← List.append_assoc]
  exact List.Perm.append_right D List.perm_append_comm

/-- The text file of the house: five boundary edges, one interior edge between the quad and the triangle. -/
example :
    ((readTxt (writeTxt W0 0 4 (fun _ => (0, 0)) (MCEx.build house (St.empty 1)))).bind fun r => intRows "INTERIOREDGES".toList r.2) =
      some [[3, 2, 1, 0]] ∧
    ((readTxt (writeTxt W0 0 4 (fun _ => (0, 0)) (MCEx.build house (St.empty 1)))).bind fun r => intRows "BOUNDARYEDGES".toList r.2) =
      some [[0, 1, 0, 1], [1, 2, 0, 1], [2, 4, 1, 2], [4, 3, 1, 2], [3, 0, 0, 1]] ∧
    ((readTxt (writeTxt W0 0 4 (fun _ => (0, 0)) (MCEx.build house (St.empty 1)))).bind fun r => intRows "FRONT".toList r.2) = some [] ∧
    ((readTxt (writeTxt W0 0 4 (fun _ => (0, 0)) (MCEx.build house (St.empty 1)))).bind fun r => intRows "QUADS".toList r.2) =
      some [[0, 1, 2, 3, 7]] :=
  ⟨by decide +kernel, by decide +kernel, by decide +kernel, by decide +kernel⟩

/-- The hypotheses hold for the house. -/
example : WF (MCEx.build house (St.empty 1)) ∧ PtrLive (MC.setupConnectivity 0 (MCEx.build house (St.empty 1))) ∧
    NbrLen (MC.setupConnectivity 0 (MCEx.build house (St.empty 1))) := by
  refine ⟨wf_house, ⟨?_, ?_⟩, ?_⟩
  · have : ∀ e ∈ (MC.setupConnectivity 0 (MCEx.build house (St.empty 1))).es .intr ++ (MC.setupConnectivity 0 (MCEx.build house (St.empty 1))).es .bdry,
        ((MC.setupConnectivity 0 (MCEx.build house (St.empty 1))).E e).fl ∈ [FRef.null, .quad 5, .tri 6] ∧
        ((MC.setupConnectivity 0 (MCEx.build house (St.empty 1))).E e).fr ∈ [FRef.null, .quad 5, .tri 6] := by decide +kernel
    have lv : ∀ f ∈ [FRef.null, .quad 5, .tri 6], f = .null ∨ Live (MC.setupConnectivity 0 (MCEx.build house (St.empty 1))) f := by
      intro f hf
      simp only [List.mem_cons, List.not_mem_nil, or_false] at hf
      rcases hf with rfl | rfl | rfl
      · exact Or.inl rfl
      · exact Or.inr (show 5 ∈ (MC.setupConnectivity 0 (MCEx.build house (St.empty 1))).quads by decide +kernel)
      · exact Or.inr (show 6 ∈ (MC.setupConnectivity 0 (MCEx.build house (St.empty 1))).tris by decide +kernel)
    exact fun e he => ⟨lv _ (this e he).1, fun _ => lv _ (this e he).2⟩
  · have hq : (MC.setupConnectivity 0 (MCEx.build house (St.empty 1))).quads = [5] := by decide +kernel
    have ht : (MC.setupConnectivity 0 (MCEx.build house (St.empty 1))).tris = [6] := by decide +kernel
    have nq : ((MC.setupConnectivity 0 (MCEx.build house (St.empty 1))).F (.quad 5)).nbrs.all (fun g => g ∈ [FRef.null, .quad 5, .tri 6]) = true := by decide +kernel
    have nt : ((MC.setupConnectivity 0 (MCEx.build house (St.empty 1))).F (.tri 6)).nbrs.all (fun g => g ∈ [FRef.null, .quad 5, .tri 6]) = true := by decide +kernel
    have lv : ∀ f ∈ [FRef.null, .quad 5, .tri 6], f = .null ∨ Live (MC.setupConnectivity 0 (MCEx.build house (St.empty 1))) f := by
      intro f hf
      simp only [List.mem_cons, List.not_mem_nil, or_false] at hf
      rcases hf with rfl | rfl | rfl
      · exact Or.inl rfl
      · exact Or.inr (show 5 ∈ (MC.setupConnectivity 0 (MCEx.build house (St.empty 1))).quads by decide +kernel)
      · exact Or.inr (show 6 ∈ (MC.setupConnectivity 0 (MCEx.build house (St.empty 1))).tris by decide +kernel)
    intro f hf g hg
    cases f with
    | null => exact absurd hf (by simp [Live])
    | quad q =>
      have : q = 5 := by simpa [Live, hq] using hf
      subst this
      exact lv g (by simpa using (List.all_eq_true.1 nq) g hg)
    | tri q =>
      have : q = 6 := by simpa [Live, ht] using hf
      subst this
      exact lv g (by simpa using (List.all_eq_true.1 nt) g hg)
  · intro f hf
    have hq : (MC.setupConnectivity 0 (MCEx.build house (St.empty 1))).quads = [5] := by decide +kernel
    have ht : (MC.setupConnectivity 0 (MCEx.build house (St.empty 1))).tris = [6] := by decide +kernel
    cases f with
    | null => exact absurd hf (by simp [Live])
    | quad q =>
      have : q = 5 := by simpa [Live, hq] using hf
      subst this
      decide +kernel
    | tri q =>
      have : q = 6 := by simpa [Live, ht] using hf
      subst this
      decide +kernel

end VT
end TQ

#print axioms TQ.C125_read_back
#print axioms TQ.C126_edges_once
