import Verif.Writer.VtuLemmas

/-!
# Properties of the VTU export (C66–C69)
-/

namespace TQ
namespace VT
open VTSpec MS MS.St MeshSpec

/-! ## C67 -/

/-- **C67.** The words of an array text are the entries, each exactly once and in order, for every number of entries per
line and every width. -/
theorem _root_.TQ.C67_entries (n k : Nat) {ws : List (List Char)} (h : ∀ w ∈ ws, Clean w) : words (body n (ws.map (setw k))) = ws := by
  unfold body
  rw [words_append (by decide), words_body0 n k h, words_nil, List.append_nil]

/-- One printed row. -/
def rowTxt (a : List Txt) : Txt := a.flatMap fun t => t ++ [' ']

theorem rowsGo_append (n j : Nat) (a b : List Txt) : rowsGo n j (a ++ b) = rowsGo n j a ++ rowsGo n (j + a.length) b := by
  induction a generalizing j with
  | nil => simp [rowsGo]
  | cons t a ih =>
    simp only [List.cons_append, rowsGo, ih, List.length_cons, List.append_assoc]
    rw [show j + 1 + a.length = j + (a.length + 1) by omega]

theorem rowsGo_inner (n j : Nat) (a : List Txt) (hj : 0 < j % n) (hl : j % n + a.length ≤ n) : rowsGo n j a = rowTxt a := by
  induction a generalizing j with
  | nil => rfl
  | cons t a ih =>
    have h1 : ¬ (j % n = 0 ∧ 0 < j) := by omega
    simp only [rowsGo, h1, if_false, rowTxt, List.flatMap_cons, List.nil_append]
    cases a with
    | nil => simp [rowsGo]
    | cons u a =>
      simp only [List.length_cons] at hl
      have e : (j + 1) % n = j % n + 1 := by
        rw [Nat.add_mod, Nat.mod_eq_of_lt (show 1 < n by omega), Nat.mod_eq_of_lt]; omega
      rw [ih (j + 1) (by omega) (by rw [e]; simp only [List.length_cons]; omega)]; rfl

theorem rowsGo_chunk (n j : Nat) (hn : 0 < n) (hj : j % n = 0) (a : List Txt) (ha : a ≠ []) (hl : a.length ≤ n) :
    rowsGo n j a = (if 0 < j then '\n' :: spaces 10 else []) ++ rowTxt a := by
  cases a with
  | nil => exact absurd rfl ha
  | cons t a =>
    simp only [rowsGo, hj, true_and, rowTxt, List.flatMap_cons, List.append_assoc]
    congr 3
    cases a with
    | nil => simp [rowsGo]
    | cons u a =>
      simp only [List.length_cons] at hl
      have e : (j + 1) % n = 1 := by
        rw [Nat.add_mod, hj, Nat.mod_eq_of_lt (show 1 < n by omega)]; simp [Nat.mod_eq_of_lt (show 1 < n by omega)]
      rw [rowsGo_inner n (j + 1) _ (by omega) (by rw [e]; simp only [List.length_cons]; omega)]; rfl

theorem lines_rows (n k : Nat) (hn : 0 < n) : ∀ (fuel : Nat) (ws : List (List Char)) (j : Nat) (pre : List Char), ws.length ≤ fuel → j % n = 0 →
    (∀ w ∈ ws, Clean w) → 0 < j → words pre ≠ [] → '\n' ∉ pre →
    ((lines (pre ++ rowsGo n j (ws.map (setw k)))).map words).filter (· ≠ []) = words pre :: chunks n fuel ws := by
  have one : ∀ pre : List Char, words pre ≠ [] → '\n' ∉ pre → ((lines pre).map words).filter (· ≠ []) = [words pre] := by
    intro pre h1 h2
    unfold lines
    rw [split_free (fun c hc => by rw [beq_eq_false_iff_ne]; rintro rfl; exact h2 hc)]
    simp [h1]
  intro fuel
  induction fuel with
  | zero =>
    intro ws j pre hl hj hw j0 h1 h2
    have : ws = [] := List.length_eq_zero_iff.1 (by omega)
    subst this
    simp only [List.map_nil, rowsGo, List.append_nil, chunks]
    exact one pre h1 h2
  | succ fuel ih =>
    intro ws j pre hl hj hw j0 h1 h2
    cases hws : ws with
    | nil =>
      simp only [List.map_nil, rowsGo, List.append_nil, chunks]
      exact one pre h1 h2
    | cons w ws' =>
      have hne : ws ≠ [] := by rw [hws]; simp
      rw [← hws]
      have hc : chunks n (fuel + 1) ws = ws.take n :: chunks n fuel (ws.drop n) := by rw [hws]; rfl
      rw [hc]
      have hs : ws.map (setw k) = (ws.take n).map (setw k) ++ (ws.drop n).map (setw k) := by
        rw [← List.map_append, List.take_append_drop]
      have tne : ws.take n ≠ [] := by
        rw [Ne, List.take_eq_nil_iff]; rintro (h | h)
        · omega
        · exact hne h
      rw [hs, rowsGo_append, rowsGo_chunk n j hn hj _ (by simpa using tne) (by simp), if_pos j0]
      have e : pre ++ ('\n' :: spaces 10 ++ rowTxt ((ws.take n).map (setw k)) ++
          rowsGo n (j + ((ws.take n).map (setw k)).length) ((ws.drop n).map (setw k))) =
          pre ++ '\n' :: ((spaces 10 ++ rowTxt ((ws.take n).map (setw k))) ++
          rowsGo n (j + ((ws.take n).map (setw k)).length) ((ws.drop n).map (setw k))) := by simp
      have hwt : ∀ w ∈ ws.take n, Clean w := fun w h => hw w (List.mem_of_mem_take h)
      have cw := words_body0 n k hwt
      rw [rowsGo_chunk n 0 hn (by simp) _ (by simpa using tne) (by simp), if_neg (by omega), List.nil_append] at cw
      have nl : '\n' ∉ spaces 10 ++ rowTxt ((ws.take n).map (setw k)) := by
        intro hm
        rcases List.mem_append.1 hm with h | h
        · simp [spaces, List.mem_replicate] at h
        · obtain ⟨t, ht, hm⟩ := List.mem_flatMap.1 h
          obtain ⟨u, hu, rfl⟩ := List.mem_map.1 ht
          have := (hwt u hu).2.2.1
          simp [setw, spaces, List.mem_replicate, this] at hm
      have hrec : ((lines ((spaces 10 ++ rowTxt ((ws.take n).map (setw k))) ++
          rowsGo n (j + ((ws.take n).map (setw k)).length) ((ws.drop n).map (setw k)))).map words).filter (· ≠ []) =
          ws.take n :: chunks n fuel (ws.drop n) := by
        by_cases hd : ws.length ≤ n
        · have d0 : ws.drop n = [] := List.drop_eq_nil_iff.2 hd
          rw [d0]
          simp only [List.map_nil, rowsGo, List.append_nil]
          rw [one _ (by rw [cw]; exact tne) nl, cw]
          cases fuel <;> rfl
        · have tl : ((ws.take n).map (setw k)).length = n := by simp; omega
          rw [tl]
          have := ih (ws.drop n) (j + n) (spaces 10 ++ rowTxt ((ws.take n).map (setw k))) (by simp; omega) (by simp [hj])
            (fun w h => hw w (List.mem_of_mem_drop h)) (by omega) (by rw [cw]; exact tne) nl
          rw [this, cw]
      rw [e]
      have la : ∀ x : List Char, lines (pre ++ '\n' :: x) = lines pre ++ lines x := fun x => by
        unfold lines; rw [split_append (by decide)]
      rw [la, List.map_append, List.filter_append, one pre h1 h2, hrec]; rfl

/-- **C67.** The lines of an array text hold `n` entries each, the last one the rest. -/
theorem _root_.TQ.C67_layout (n k : Nat) (hn : 0 < n) {ws : List (List Char)} (h : ∀ w ∈ ws, Clean w) :
    ((lines (body n (ws.map (setw k)))).map words).filter (· ≠ []) = chunks n ws.length ws := by
  have la : ∀ x y : List Char, lines (x ++ '\n' :: y) = lines x ++ lines y := fun x y => by
    unfold lines; rw [split_append (by decide)]
  have e0 : ((lines (body n (ws.map (setw k)))).map words).filter (· ≠ []) =
      ((lines (spaces 10 ++ rowsGo n 0 (ws.map (setw k)))).map words).filter (· ≠ []) := by
    unfold body
    rw [la]
    simp [lines, pieces, words_nil]
  rw [e0]
  cases hws : ws with
  | nil => rfl
  | cons w ws' =>
    rw [← hws]
    have hne : ws ≠ [] := by rw [hws]; simp
    have tne : ws.take n ≠ [] := by
      rw [Ne, List.take_eq_nil_iff]; rintro (h | h)
      · omega
      · exact hne h
    have hs : ws.map (setw k) = (ws.take n).map (setw k) ++ (ws.drop n).map (setw k) := by
      rw [← List.map_append, List.take_append_drop]
    have hwt : ∀ w ∈ ws.take n, Clean w := fun w hh => h w (List.mem_of_mem_take hh)
    have cw := words_body0 n k hwt
    rw [rowsGo_chunk n 0 hn (by simp) _ (by simpa using tne) (by simp), if_neg (by omega), List.nil_append] at cw
    have nl : '\n' ∉ spaces 10 ++ rowTxt ((ws.take n).map (setw k)) := by
      intro hm
      rcases List.mem_append.1 hm with h | h
      · simp [spaces, List.mem_replicate] at h
      · obtain ⟨t, ht, hm⟩ := List.mem_flatMap.1 h
        obtain ⟨u, hu, rfl⟩ := List.mem_map.1 ht
        have := (hwt u hu).2.2.1
        simp [setw, spaces, List.mem_replicate, this] at hm
    have hc : chunks n ws.length ws = ws.take n :: chunks n (ws.length - 1) (ws.drop n) := by rw [hws]; rfl
    rw [hc, hs, rowsGo_append, rowsGo_chunk n 0 hn (by simp) _ (by simpa using tne) (by simp), if_neg (by omega), List.nil_append,
      ← List.append_assoc]
    by_cases hd : ws.length ≤ n
    · have d0 : ws.drop n = [] := List.drop_eq_nil_iff.2 hd
      rw [d0]
      simp only [List.map_nil, rowsGo, List.append_nil]
      unfold lines
      rw [split_free (fun c hc => by rw [beq_eq_false_iff_ne]; rintro rfl; exact nl hc)]
      simp only [List.map_cons, List.map_nil, cw]
      simp only [ne_eq, tne, not_false_eq_true, decide_true, List.filter_cons_of_pos, List.filter_nil]
      cases ws.length - 1 <;> rfl
    · have tl : ((ws.take n).map (setw k)).length = n := by simp; omega
      rw [tl]
      have hl : 0 < ws.length := List.length_pos_iff.2 hne
      have := lines_rows n k hn (ws.length - 1) (ws.drop n) (0 + n) (spaces 10 ++ rowTxt ((ws.take n).map (setw k)))
        (by simp; omega) (by simp) (fun w hh => h w (List.mem_of_mem_drop hh)) (by omega) (by rw [cw]; exact tne) nl
      rw [this, cw]

/-- Twelve entries: a line of ten and a line of two. -/
example : (lines (body 10 ((List.range 12).map fun i => setw 2 (natTxt i)))).map (fun l => (words l).length) = [10, 2, 0] ∧
    words (body 10 ((List.range 12).map fun i => setw 2 (natTxt i))) = (List.range 12).map natTxt := by decide +kernel

/-! ## C66 -/

/-- All tokens of the exported file are clean if the default output of doubles is. -/
theorem vtu_arrays {W : WEnv} (hW : ∀ x, Clean (W.show6 x)) {s : St ℚ} {ixV : Nat → Nat} {t : Txt} (ht : file (vtuOf W s ixV) = some t) :
    arrays t = (vtuOf W s ixV).pointData.map (fun d => (dataHead d, d.toks)) ++ ((vtuOf W s ixV).cellData.map (fun d => (dataHead d, d.toks)) ++
      [(pointsHead, (vtuOf W s ixV).points), (connHead, (vtuOf W s ixV).conn.map natTxt), (offsetsHead, (vtuOf W s ixV).offsets.map natTxt),
        (typesHead, ((vtuOf W s ixV).types.take (vtuOf W s ixV).offsets.length).map natTxt)]) := by
  refine arrays_file ht ?_ ?_ ?_
  · intro w hw
    obtain ⟨v, -, h⟩ := List.mem_flatMap.1 hw
    simp only [List.mem_cons, List.not_mem_nil, or_false] at h
    rcases h with rfl | rfl | rfl <;> exact clean_fixed5 _
  · intro d hd
    simp only [vtuOf, List.mem_cons, List.not_mem_nil, or_false] at hd
    rcases hd with rfl | rfl | rfl
    · refine ⟨by dsimp only; decide, by dsimp only; decide, fun w hw => ?_⟩
      obtain ⟨v, -, rfl⟩ := List.mem_map.1 hw
      exact hW _
    · refine ⟨by dsimp only; decide, by dsimp only; decide, fun w hw => ?_⟩
      obtain ⟨v, -, rfl⟩ := List.mem_map.1 hw
      exact clean_intTxt _
    · refine ⟨by dsimp only; decide, by dsimp only; decide, fun w hw => ?_⟩
      obtain ⟨v, -, rfl⟩ := List.mem_map.1 hw
      exact clean_intTxt _
  · intro d hd
    simp only [vtuOf, List.mem_cons, List.not_mem_nil, or_false] at hd
    rcases hd with rfl | rfl | rfl | rfl
    · refine ⟨by dsimp only; decide, by dsimp only; decide, fun w hw => ?_⟩
      obtain ⟨v, -, rfl⟩ := List.mem_map.1 hw
      exact clean_intTxt _
    all_goals
      refine ⟨by dsimp only; decide, by dsimp only; decide, fun w hw => ?_⟩
      obtain ⟨v, -, rfl⟩ := List.mem_map.1 hw
      exact hW _

/-- The names in the tags. -/
theorem heads (a b c d e f g : List Txt) :
    attr "Name".toList (dataHead ⟨"Float64".toList, "size_function".toList, 1, a⟩) = some "size_function".toList ∧
    attr "Name".toList (dataHead ⟨"Int32".toList, "in_quad_layer".toList, 1, b⟩) = some "in_quad_layer".toList ∧
    attr "Name".toList (dataHead ⟨"Int32".toList, "fixed_vertices".toList, 1, c⟩) = some "fixed_vertices".toList ∧
    attr "Name".toList (dataHead ⟨"Int32".toList, "element_color".toList, 1, d⟩) = some "element_color".toList ∧
    attr "Name".toList (dataHead ⟨"Float64".toList, "edge_length".toList, 1, e⟩) = some "edge_length".toList ∧
    attr "Name".toList (dataHead ⟨"Float64".toList, "max_angle".toList, 1, f⟩) = some "max_angle".toList ∧
    attr "Name".toList (dataHead ⟨"Float64".toList, "cell_quality".toList, 1, g⟩) = some "cell_quality".toList ∧
    attr "Name".toList pointsHead = none ∧ attr "Name".toList connHead = some "connectivity".toList ∧
    attr "Name".toList offsetsHead = some "offsets".toList ∧ attr "Name".toList typesHead = some "types".toList := by
  show
    attr "Name".toList (dataHead ⟨"Float64".toList, "size_function".toList, 1, []⟩) = some "size_function".toList ∧
    attr "Name".toList (dataHead ⟨"Int32".toList, "in_quad_layer".toList, 1, []⟩) = some "in_quad_layer".toList ∧
    attr "Name".toList (dataHead ⟨"Int32".toList, "fixed_vertices".toList, 1, []⟩) = some "fixed_vertices".toList ∧
    attr "Name".toList (dataHead ⟨"Int32".toList, "element_color".toList, 1, []⟩) = some "element_color".toList ∧
    attr "Name".toList (dataHead ⟨"Float64".toList, "edge_length".toList, 1, []⟩) = some "edge_length".toList ∧
    attr "Name".toList (dataHead ⟨"Float64".toList, "max_angle".toList, 1, []⟩) = some "max_angle".toList ∧
    attr "Name".toList (dataHead ⟨"Float64".toList, "cell_quality".toList, 1, []⟩) = some "cell_quality".toList ∧
    attr "Name".toList pointsHead = none ∧ attr "Name".toList connHead = some "connectivity".toList ∧
    attr "Name".toList offsetsHead = some "offsets".toList ∧ attr "Name".toList typesHead = some "types".toList
  decide +kernel

theorem named_of {W : WEnv} (hW : ∀ x, Clean (W.show6 x)) {s : St ℚ} {ixV : Nat → Nat} {t : Txt} (ht : file (vtuOf W s ixV) = some t) :
    named none t = some (vtuOf W s ixV).points ∧
    named (some "connectivity".toList) t = some ((vtuOf W s ixV).conn.map natTxt) ∧
    named (some "offsets".toList) t = some ((vtuOf W s ixV).offsets.map natTxt) ∧
    named (some "types".toList) t = some (((vtuOf W s ixV).types.take (vtuOf W s ixV).offsets.length).map natTxt) ∧
    named (some "element_color".toList) t = some ((elements s).map fun f => intTxt (s.F f).color) ∧
    named (some "in_quad_layer".toList) t =
      some (s.verts.map fun v => intTxt (if Flags.has (s.V v).props Flags.vInQuadLayer then 1 else 0)) ∧
    named (some "fixed_vertices".toList) t =
      some (s.verts.map fun v => intTxt (if Flags.has (s.V v).props Flags.vIsFixed then 1 else 0)) ∧
    named (some "size_function".toList) t = some (s.verts.map fun v => W.show6 (W.rho (s.pos v))) ∧
    named (some "edge_length".toList) t = some ((elements s).map fun f => W.show6 (W.maxEdge s f)) ∧
    named (some "max_angle".toList) t = some ((elements s).map fun f => W.show6 (W.maxAngle s f)) ∧
    named (some "cell_quality".toList) t = some ((elements s).map fun f => W.show6 (W.quality s f)) := by
  have ha := vtu_arrays hW ht
  unfold named
  rw [ha]
  generalize h : vtuOf W s ixV = v
  have hp : v.pointData = (vtuOf W s ixV).pointData := by rw [h]
  have hc : v.cellData = (vtuOf W s ixV).cellData := by rw [h]
  rw [hp, hc]
  simp only [vtuOf, List.map_cons, List.map_nil, List.cons_append, List.nil_append, List.find?_cons]
  obtain ⟨h1, h2, h3, h4, h5, h6, h7, h8, h9, h10, h11⟩ := heads (s.verts.map fun v => W.show6 (W.rho (s.pos v)))
    (s.verts.map fun v => intTxt (if Flags.has (s.V v).props Flags.vInQuadLayer then 1 else 0))
    (s.verts.map fun v => intTxt (if Flags.has (s.V v).props Flags.vIsFixed then 1 else 0))
    ((elements s).map fun f => intTxt (s.F f).color) ((elements s).map fun f => W.show6 (W.maxEdge s f))
    ((elements s).map fun f => W.show6 (W.maxAngle s f)) ((elements s).map fun f => W.show6 (W.quality s f))
  simp only [h1, h2, h3, h4, h5, h6, h7, h8, h9, h10, h11]
  refine ⟨?_, ?_, ?_, ?_, ?_, ?_, ?_, ?_, ?_, ?_, ?_⟩ <;> rfl

/-- The corner rows in the order of the export. -/
theorem vtu_file {W : WEnv} {s : St ℚ} {ixV : Nat → Nat} : ∃ t, file (vtuOf W s ixV) = some t := by
  unfold file
  rw [if_neg]
  · exact ⟨_, rfl⟩
  · simp [vtuOf, offsetsFrom_length]

theorem vtu_cells {W : WEnv} (hW : ∀ x, Clean (W.show6 x)) {s : St ℚ} (hs : Sound s) {ixV : Nat → Nat} {t : Txt}
    (ht : file (vtuOf W s ixV) = some t) :
    readCells t = some (s.quads.map (fun q => (9, (s.F (.quad q)).corners.map ixV)) ++
      s.tris.map (fun q => (5, (s.F (.tri q)).corners.map ixV))) := by
  obtain ⟨-, hc, ho, hy, -⟩ := named_of hW ht
  unfold readCells
  rw [hc, ho, hy]
  have rd : ∀ l : List Nat, (l.map natTxt).mapM readNat = some l := fun l => by
    rw [mapM_map_some (g := id) fun a _ => readNat_natTxt a]; simp
  show (do
    let a ← ((vtuOf W s ixV).conn.map natTxt).mapM readNat
    let b ← ((vtuOf W s ixV).offsets.map natTxt).mapM readNat
    let c ← (((vtuOf W s ixV).types.take (vtuOf W s ixV).offsets.length).map natTxt).mapM readNat
    cellsOf 0 a b c) = _
  rw [rd, rd, rd]
  show cellsOf 0 _ _ _ = _
  set rows := s.quads.map (fun q => (s.F (.quad q)).corners.map ixV) ++ s.tris.map (fun q => (s.F (.tri q)).corners.map ixV) with hr
  have e1 : (vtuOf W s ixV).conn = rows.flatten := by
    simp only [vtuOf, elements, hr, List.flatMap_append, List.flatten_append, List.flatMap_def, List.map_append, List.map_map]; rfl
  have e2 : (vtuOf W s ixV).offsets = offsetsFrom 0 (rows.map List.length) := by
    simp only [vtuOf, hr, List.map_append, List.map_map]
    congr 2
    · refine List.map_congr_left fun q hq => ?_
      simp [hs.qcor q hq]
    · refine List.map_congr_left fun q hq => ?_
      simp [hs.tcor q hq]
  have e3 : (vtuOf W s ixV).types.take (vtuOf W s ixV).offsets.length = s.quads.map (fun _ => 9) ++ s.tris.map fun _ => 5 := by
    rw [List.take_of_length_le]
    · rfl
    · simp [vtuOf, offsetsFrom_length]
  rw [e3, e1, e2, cellsOf_rows 0 (by simp [hr]), hr, List.zip_append (by simp)]
  rw [List.zip_map', List.zip_map']

theorem vtu_points {W : WEnv} (hW : ∀ x, Clean (W.show6 x)) {s : St ℚ} {ixV : Nat → Nat} {t : Txt} (ht : file (vtuOf W s ixV) = some t) :
    readPoints t = some (s.verts.map fun v => (dec5 (s.pos v).x, dec5 (s.pos v).y, dec5 0)) := by
  obtain ⟨hp, -⟩ := named_of hW ht
  unfold readPoints
  rw [hp]
  have : (vtuOf W s ixV).points.mapM readDec = some (s.verts.flatMap fun v => [dec5 (s.pos v).x, dec5 (s.pos v).y, dec5 0]) := by
    have e : (vtuOf W s ixV).points = (s.verts.flatMap fun v => [(s.pos v).x, (s.pos v).y, 0]).map fixed5 := by
      simp [vtuOf, List.map_flatMap]
    rw [e, mapM_map_some (g := dec5) fun a _ => readDec_fixed5 a]
    simp [List.map_flatMap]
  show (do
    let x ← (vtuOf W s ixV).points.mapM readDec
    triples x) = _
  rw [this]
  exact triples_flat _ _ _ _

theorem sound_prepare (eps : ℚ) {s : St ℚ} (h : WF s) :
    (prepare eps s).1.verts = s.verts ∧ (prepare eps s).1.quads = s.quads ∧ (prepare eps s).1.tris = s.tris ∧
    (prepare eps s).1.V = s.V ∧ (∀ f, ((prepare eps s).1.F f).corners = (s.F f).corners ∧ ((prepare eps s).1.F f).color = (s.F f).color) ∧
    (prepare eps s).1.es = s.es := by
  have := MC.setup_sbp eps h
  exact ⟨this.verts, this.quads, this.tris, this.V, fun f => ⟨(this.corners f).1, (this.corners f).2.1⟩, this.es⟩

/-- **C66.** Reading the exported file gives back the mesh: as many cells as elements, quads first; the k-th cell has the
type of the k-th element and as many corners, and the point read at its i-th entry is the i-th corner of the element, up to
half of the last printed decimal. -/
theorem _root_.TQ.C66_read_back {W : WEnv} (hW : ∀ x, Clean (W.show6 x)) (eps : ℚ) {s : St ℚ} (h : WF s) :
    ∃ (t : List Char) (pts : List (ℚ × ℚ × ℚ)) (cells : List (Nat × List Nat)), writeVtu W eps s = some t ∧ readPoints t = some pts ∧ readCells t = some cells ∧
      pts.length = s.verts.length ∧ cells.length = s.quads.length + s.tris.length ∧
      readCounts t = some (s.verts.length, s.quads.length + s.tris.length) ∧
      ∀ (k : Nat) (f : FRef), (s.quads.map FRef.quad ++ s.tris.map FRef.tri)[k]? = some f → ∃ c : Nat × List Nat, cells[k]? = some c ∧
        c.1 = (match f with | .quad _ => 9 | _ => 5) ∧ c.2.length = (s.F f).corners.length ∧
        ∀ i v : Nat, (s.F f).corners[i]? = some v → ∃ (n : Nat) (p : ℚ × ℚ × ℚ), c.2[i]? = some n ∧ pts[n]? = some p ∧
          |p.1 - (s.pos v).x| ≤ 1 / 200000 ∧ |p.2.1 - (s.pos v).y| ≤ 1 / 200000 ∧ p.2.2 = 0 := by
  obtain ⟨t, ht⟩ := vtu_file (W := W) (s := (prepare eps s).1) (ixV := (prepare eps s).2.1)
  have hsp := sound_prepare eps h
  obtain ⟨hv, hq, htr, hV, hF, hE⟩ := hsp
  have hpos : ∀ v, (prepare eps s).1.pos v = s.pos v := fun v => by unfold St.pos; rw [hV]
  have hpts := vtu_points hW ht
  have hcells : readCells t = some (s.quads.map (fun q => (9, (s.F (.quad q)).corners.map (prepare eps s).2.1)) ++
      s.tris.map (fun q => (5, (s.F (.tri q)).corners.map (prepare eps s).2.1))) := by
    have hw := MC.setup_sbp eps h
    have : Sound (prepare eps s).1 := by
      refine ⟨by rw [hv]; exact h.vnd, ?_, ?_, by rw [htr]; exact h.tnd, by rw [hq]; exact h.qnd, ?_, ?_, ?_, ?_, ?_⟩
      · rw [hv, show (prepare eps s).1.nxt = s.nxt from hw.nxt]; exact h.vlt
      · intro l
        rw [hE, hv, show (prepare eps s).1.nxt = s.nxt from hw.nxt]
        refine ⟨(h.ends l).1, fun e he => ?_⟩
        obtain ⟨a, b, c, -⟩ := hw.ends e
        have := (h.ends l).2 e he
        show (((MC.setupConnectivity eps s)).E e).list = l ∧ _
        rw [show ((prepare eps s).1.E e) = (MC.setupConnectivity eps s).E e from rfl, a, b, c]
        exact this
      · rw [htr, show (prepare eps s).1.nxt = s.nxt from hw.nxt]; exact h.tlt
      · rw [hq, show (prepare eps s).1.nxt = s.nxt from hw.nxt]; exact h.qlt
      · rw [htr]; intro q hq'; rw [(hF _).1]; exact h.tcor q hq'
      · rw [hq]; intro q hq'; rw [(hF _).1]; exact h.qcor q hq'
      · intro f hf
        rw [(hF f).1, hv]
        apply h.cor f
        cases f with
        | null => exact hf
        | tri i => show i ∈ s.tris; rw [← htr]; exact hf
        | quad i => show i ∈ s.quads; rw [← hq]; exact hf
    have := vtu_cells hW this ht
    rw [hq, htr] at this
    simpa only [(hF _).1] using this
  have z0 : dec5 0 = 0 := by decide +kernel
  refine ⟨t, _, _, ht, hpts, hcells, ?_, ?_, ?_, ?_⟩
  · rw [hv]; simp
  · simp
  · rw [counts_file ht]
    simp only [vtuOf, offsetsFrom_length, List.length_append, List.length_map, hq, htr, hv]
    congr 2
    rw [List.length_flatMap]; simp
  · obtain ⟨a, -⟩ := C47_indices h (fun _ => 0) (fun _ => 0)
    have look : ∀ v ∈ s.verts, s.verts[(prepare eps s).2.1 v]? = some v := by
      intro v hv
      obtain ⟨i, hi, e⟩ := List.getElem_of_mem hv
      have e2 : s.verts[i]? = some v := by rw [List.getElem?_eq_getElem hi, e]
      have := a i v e2
      show s.verts[(MC.assignIndices s (fun _ => 0) (fun _ => 0)).1 v]? = _
      rw [this]; exact e2
    intro k f hk
    have row : (s.quads.map (fun q => (9, (s.F (.quad q)).corners.map (prepare eps s).2.1)) ++
      s.tris.map (fun q => (5, (s.F (.tri q)).corners.map (prepare eps s).2.1)))[k]? =
        some ((match f with | .quad _ => 9 | _ => 5), (s.F f).corners.map (prepare eps s).2.1) ∧ Live s f := by
      rw [List.getElem?_append] at hk ⊢
      simp only [List.length_map] at hk ⊢
      split at hk
      · next hl =>
        rw [if_pos hl]
        rw [List.getElem?_map] at hk ⊢
        cases hh : s.quads[k]? with
        | none => rw [hh] at hk; cases hk
        | some q => rw [hh] at hk; simp only [Option.map_some, Option.some.injEq] at hk; subst hk
                    exact ⟨rfl, List.mem_of_getElem? hh⟩
      · next hl =>
        rw [if_neg hl]
        rw [List.getElem?_map] at hk ⊢
        cases hh : s.tris[k - s.quads.length]? with
        | none => rw [hh] at hk; cases hk
        | some q => rw [hh] at hk; simp only [Option.map_some, Option.some.injEq] at hk; subst hk
                    exact ⟨rfl, List.mem_of_getElem? hh⟩
    refine ⟨_, row.1, rfl, by simp, fun i v hi => ?_⟩
    have hvv := (h.cor f row.2).2 v (List.mem_of_getElem? hi)
    refine ⟨_, _, by rw [List.getElem?_map, hi]; rfl, by rw [hv, List.getElem?_map, look v hvv]; rfl, ?_, ?_, z0⟩
    · dsimp only; rw [hpos]; exact dec5_near _
    · dsimp only; rw [hpos]; exact dec5_near _

theorem flag_bits {b : BitVec 8} : Flags.has b Flags.vInQuadLayer = b.getLsbD 1 ∧ Flags.has b Flags.vIsFixed = b.getLsbD 2 := by
  revert b; decide

/-- **C66.** The data arrays: one colour per element and one flag per vertex, as in the mesh; the other arrays have one entry
per vertex or element. -/
theorem _root_.TQ.C66_data {W : WEnv} (hW : ∀ x, Clean (W.show6 x)) (eps : ℚ) {s : St ℚ} (h : WF s) :
    ∃ t, writeVtu W eps s = some t ∧
      readInts "element_color".toList t = some ((s.quads.map FRef.quad ++ s.tris.map FRef.tri).map fun f => (s.F f).color) ∧
      readInts "in_quad_layer".toList t = some (s.verts.map fun v => if (s.V v).props.getLsbD 1 then 1 else 0) ∧
      readInts "fixed_vertices".toList t = some (s.verts.map fun v => if (s.V v).props.getLsbD 2 then 1 else 0) ∧
      named (some "size_function".toList) t = some (s.verts.map fun v => W.show6 (W.rho (s.pos v))) ∧
      (∃ l, named (some "edge_length".toList) t = some l ∧ l.length = s.quads.length + s.tris.length) ∧
      (∃ l, named (some "max_angle".toList) t = some l ∧ l.length = s.quads.length + s.tris.length) ∧
      (∃ l, named (some "cell_quality".toList) t = some l ∧ l.length = s.quads.length + s.tris.length) := by
  obtain ⟨t, ht⟩ := vtu_file (W := W) (s := (prepare eps s).1) (ixV := (prepare eps s).2.1)
  obtain ⟨hv, hq, htr, hV, hF, hE⟩ := sound_prepare eps h
  obtain ⟨-, -, -, -, n5, n6, n7, n8, n9, n10, n11⟩ := named_of hW ht
  have hpos : ∀ v, (prepare eps s).1.pos v = s.pos v := fun v => by unfold St.pos; rw [hV]
  have he : elements (prepare eps s).1 = s.quads.map FRef.quad ++ s.tris.map FRef.tri := by unfold elements; rw [hq, htr]
  have rd : ∀ {α : Type} (l : List α) (f : α → Int), (l.map fun a => intTxt (f a)).mapM readInt = some (l.map f) := fun l f =>
    mapM_map_some fun a _ => readInt_intTxt _
  refine ⟨t, ht, ?_, ?_, ?_, ?_, ?_, ?_, ?_⟩
  · unfold readInts
    rw [n5, he]
    simp only [(hF _).2]
    exact rd _ _
  · unfold readInts
    rw [n6, hv, hV]
    refine (rd _ _).trans (congrArg some (List.map_congr_left fun v _ => ?_))
    rw [flag_bits.1]
  · unfold readInts
    rw [n7, hv, hV]
    refine (rd _ _).trans (congrArg some (List.map_congr_left fun v _ => ?_))
    rw [flag_bits.2]
  · rw [n8, hv]; simp only [hpos]
  · exact ⟨_, n9, by rw [he]; simp⟩
  · exact ⟨_, n10, by rw [he]; simp⟩
  · exact ⟨_, n11, by rw [he]; simp⟩

theorem offsets_pairwise (o : Nat) {l : List Nat} (h : ∀ n ∈ l, 0 < n) : (offsetsFrom o l).Pairwise (· < ·) ∧ (∀ x ∈ offsetsFrom o l, o < x) ∧
    (offsetsFrom o l).getLastD o = o + l.sum := by
  induction l generalizing o with
  | nil => simp [offsetsFrom]
  | cons n l ih =>
    obtain ⟨a, b, c⟩ := ih (o + n) fun x hx => h x (by simp [hx])
    have hn := h n (by simp)
    refine ⟨?_, ?_, ?_⟩
    · simp only [offsetsFrom, List.pairwise_cons]; exact ⟨b, a⟩
    · simp only [offsetsFrom, List.mem_cons]
      rintro x (rfl | hx)
      · omega
      · have := b x hx; omega
    · simp only [offsetsFrom, List.getLastD_cons, List.sum_cons]; rw [c]; omega

/-- **C66.** The offsets in the file are strictly increasing and the last one is the number of connectivity entries. -/
theorem _root_.TQ.C66_offsets {W : WEnv} (hW : ∀ x, Clean (W.show6 x)) (eps : ℚ) {s : St ℚ} (h : WF s) :
    ∃ (t : List Char) (co os : List (List Char)) (on : List Nat), writeVtu W eps s = some t ∧ named (some "connectivity".toList) t = some co ∧
      named (some "offsets".toList) t = some os ∧ os.mapM readNat = some on ∧ on.Pairwise (· < ·) ∧ (∀ n ∈ on, 0 < n) ∧
      on.getLastD 0 = co.length ∧ on.length = s.quads.length + s.tris.length := by
  obtain ⟨t, ht⟩ := vtu_file (W := W) (s := (prepare eps s).1) (ixV := (prepare eps s).2.1)
  obtain ⟨hv, hq, htr, hV, hF, hE⟩ := sound_prepare eps h
  obtain ⟨-, hc, ho, -⟩ := named_of hW ht
  have hpos : ∀ n ∈ s.quads.map (fun _ => 4) ++ s.tris.map (fun _ => 3), 0 < n := by
    intro n hn
    rcases List.mem_append.1 hn with h | h <;> (obtain ⟨_, -, rfl⟩ := List.mem_map.1 h; omega)
  have e : (vtuOf W (prepare eps s).1 (prepare eps s).2.1).offsets = offsetsFrom 0 (s.quads.map (fun _ => 4) ++ s.tris.map fun _ => 3) := by
    simp only [vtuOf, hq, htr]
  obtain ⟨a, b, c⟩ := offsets_pairwise 0 hpos
  refine ⟨t, _, _, (vtuOf W (prepare eps s).1 (prepare eps s).2.1).offsets, ht, hc, ho, ?_, ?_, ?_, ?_, ?_⟩
  · rw [mapM_map_some (g := id) fun a _ => readNat_natTxt a]; simp
  · rw [e]; exact a
  · rw [e]; exact b
  · rw [e, c, List.length_map]
    have l4 : ∀ l : List Nat, (l.map fun _ => 4).sum = 4 * l.length := fun l => by
      induction l with
      | nil => rfl
      | cons x l ih => simp only [List.map_cons, List.sum_cons, ih, List.length_cons]; omega
    have l3 : ∀ l : List Nat, (l.map fun _ => 3).sum = 3 * l.length := fun l => by
      induction l with
      | nil => rfl
      | cons x l ih => simp only [List.map_cons, List.sum_cons, ih, List.length_cons]; omega
    simp only [vtuOf, elements, hq, htr, List.flatMap_append, List.length_append, List.sum_append, l4, l3]
    have fl : ∀ (k : Nat) (l : List Nat) (g : Nat → FRef), (∀ x ∈ l, (s.F (g x)).corners.length = k) →
        ((l.map g).flatMap fun f => ((prepare eps s).1.F f).corners.map (prepare eps s).2.1).length = k * l.length := by
      intro k l g hg
      induction l with
      | nil => rfl
      | cons x l ih =>
        rw [List.map_cons, List.flatMap_cons, List.length_append, ih fun y hy => hg y (by simp [hy]), List.length_map, (hF _).1,
          hg x (by simp), List.length_cons]
        ring
    rw [fl 4 _ _ h.qcor, fl 3 _ _ h.tcor]; omega
  · rw [e, offsetsFrom_length]; simp

/-- Default output of doubles is only a parameter; here everything prints as `0`. -/
def W0 : WEnv := ⟨fun _ => ['0'], fun _ => 0, fun _ _ => 0, fun _ _ => 0, fun _ _ => 0⟩

/-- A square with a triangle on top. -/
def house : List MCEx.Op := [.v 0 0, .v 1 0, .v 1 1, .v 0 1, .v (1 / 3) (5 / 3), .quad 0 1 2 3 7, .tri 3 2 4 8, .intr 3 2,
  .bdry 0 1 1, .bdry 1 2 1, .bdry 2 4 2, .bdry 4 3 2, .bdry 3 0 1]

theorem wf_house : WF (MCEx.build house (St.empty 1)) := built_wf (MCEx.built_of _ _ Built.empty (by decide +kernel))

theorem clean_W0 : ∀ x, Clean (W0.show6 x) := fun _ => by simp [W0, Clean]

/-- The file of the house: a quad, then the triangle. -/
example : ((writeVtu W0 0 (MCEx.build house (St.empty 1))).bind readCells) = some [(9, [0, 1, 2, 3]), (5, [3, 2, 4])] ∧
    ((writeVtu W0 0 (MCEx.build house (St.empty 1))).bind readPoints) =
      some [(0, 0, 0), (1, 0, 0), (1, 1, 0), (0, 1, 0), (33333 / 100000, 166667 / 100000, 0)] ∧
    ((writeVtu W0 0 (MCEx.build house (St.empty 1))).bind readCounts) = some (5, 2) ∧
    ((writeVtu W0 0 (MCEx.build house (St.empty 1))).bind (readInts "element_color".toList)) = some [7, 8] ∧
    WF (MCEx.build house (St.empty 1)) ∧ ∀ x, Clean (W0.show6 x) :=
  ⟨by decide +kernel, by decide +kernel, by decide +kernel, by decide +kernel, wf_house, clean_W0⟩

/-! ## C68 -/

/-- **C68 (part).** Vertices that differ by more than 10⁻⁵ in a coordinate are written differently.  Missing: closer
vertices, see `C68_distinct_violated`. -/
theorem _root_.TQ.C68_distinct_partial {W : WEnv} (hW : ∀ x, Clean (W.show6 x)) (eps : ℚ) {s : St ℚ} (h : WF s) :
    ∃ (t : List Char) (pts : List (ℚ × ℚ × ℚ)), writeVtu W eps s = some t ∧ readPoints t = some pts ∧
      ∀ i j v w : Nat, s.verts[i]? = some v → s.verts[j]? = some w →
        (1 / 100000 < |(s.pos v).x - (s.pos w).x| ∨ 1 / 100000 < |(s.pos v).y - (s.pos w).y|) → pts[i]? ≠ pts[j]? := by
  obtain ⟨t, ht⟩ := vtu_file (W := W) (s := (prepare eps s).1) (ixV := (prepare eps s).2.1)
  obtain ⟨hv, hq, htr, hV, hF, hE⟩ := sound_prepare eps h
  have hpos : ∀ v, (prepare eps s).1.pos v = s.pos v := fun v => by unfold St.pos; rw [hV]
  have far : ∀ x y : ℚ, 1 / 100000 < |x - y| → dec5 x ≠ dec5 y := by
    intro x y hxy e
    have h1 := dec5_near x
    have h2 := dec5_near y
    rw [← e] at h2
    have : |x - y| ≤ 1 / 200000 + 1 / 200000 := by
      calc |x - y| = |(dec5 x - y) - (dec5 x - x)| := by ring_nf
        _ ≤ |dec5 x - y| + |dec5 x - x| := abs_sub _ _
        _ ≤ _ := add_le_add h2 h1
    linarith
  refine ⟨t, _, ht, vtu_points hW ht, fun i j v w hi hj hd he => ?_⟩
  rw [hv, List.getElem?_map, List.getElem?_map, hi, hj] at he
  simp only [Option.map_some, Option.some.injEq, Prod.mk.injEq, hpos] at he
  rcases hd with hd | hd
  · exact far _ _ hd he.1
  · exact far _ _ hd he.2.1

/-- A triangle with a very short side. -/
def thin : List MCEx.Op := [.v 0 0, .v (1 / 1000000) 0, .v 0 1, .tri 0 1 2 7]

/-- **C68 is false**: a consistent mesh whose triangle has three different corners and whose file holds two equal points. -/
theorem _root_.TQ.C68_distinct_violated : ∃ s : St ℚ, WF s ∧ ∃ t pts, writeVtu W0 0 s = some t ∧ readPoints t = some pts ∧
    ∃ v w : Nat, s.verts[0]? = some v ∧ s.verts[1]? = some w ∧ s.pos v ≠ s.pos w ∧ pts[0]? = pts[1]? := by
  refine ⟨MCEx.build thin (St.empty 1), built_wf (MCEx.built_of _ _ Built.empty (by decide +kernel)), ?_⟩
  obtain ⟨t, ht⟩ := vtu_file (W := W0) (s := (prepare 0 (MCEx.build thin (St.empty 1))).1) (ixV := (prepare 0 (MCEx.build thin (St.empty 1))).2.1)
  refine ⟨t, _, ht, vtu_points clean_W0 ht, 0, 1, by decide +kernel, by decide +kernel, by decide +kernel, by decide +kernel⟩

/-- Two vertices of the house are far apart. -/
example : (1 : ℚ) / 100000 < |((MCEx.build house (St.empty 1)).pos 0).x - ((MCEx.build house (St.empty 1)).pos 1).x| := by
  decide +kernel

/-! ## C69 -/

theorem afterLast_dot (p e : List Char) (h : '.' ∉ e) : afterLast '.' (p ++ '.' :: e) = e := by
  unfold afterLast
  have : (p ++ '.' :: e).reverse = e.reverse ++ '.' :: p.reverse := by simp
  rw [this, List.takeWhile_append_of_pos]
  · simp
  · intro c hc
    simp only [ne_eq, decide_not, Bool.not_eq_eq_eq_not, Bool.not_true, decide_eq_false_iff_not]
    rintro rfl
    exact h (List.mem_reverse.1 hc)

/-- The text behind the last dot: the text ends with it, behind a dot or as a whole. -/
theorem afterLast_cases (p : List Char) : (∃ q, p = q ++ '.' :: afterLast '.' p) ∨ afterLast '.' p = p := by
  unfold afterLast
  have h := List.takeWhile_append_dropWhile (p := fun x => decide (x ≠ '.')) (l := p.reverse)
  cases hd : p.reverse.dropWhile (fun x => decide (x ≠ '.')) with
  | nil =>
    right
    rw [hd, List.append_nil] at h
    rw [h, List.reverse_reverse]
  | cons c cs =>
    left
    have hc : c = '.' := by
      have := List.head_dropWhile_not (fun x => decide (x ≠ '.')) (l := p.reverse) (by rw [hd]; simp)
      simp only [hd, List.head_cons] at this
      simpa using this
    subst hc
    rw [hd] at h
    refine ⟨cs.reverse, ?_⟩
    have := congrArg List.reverse h
    rw [List.reverse_append, List.reverse_cons, List.reverse_reverse] at this
    calc p = _ := this.symm
      _ = _ := by rw [List.append_assoc]; rfl

/-- **C69 (part).** The name of the exported file is the given name if this ends with a dot and the extension, and otherwise the
given name with a dot and the extension added.  Missing: names that are the bare extension, see `C69_bare_violated`. -/
theorem _root_.TQ.C69_extension_partial {ext p : List Char} (he : '.' ∉ ext) (hp : p ≠ ext) :
    (∃ q, fullPath ext p = q ++ '.' :: ext) ∧ ((∃ q, p = q ++ '.' :: ext) → fullPath ext p = p) ∧
    ((¬ ∃ q, p = q ++ '.' :: ext) → fullPath ext p = p ++ '.' :: ext) := by
  have key : (∃ q, p = q ++ '.' :: ext) ↔ afterLast '.' p = ext := by
    constructor
    · rintro ⟨q, rfl⟩; exact afterLast_dot q ext he
    · intro h
      rcases afterLast_cases p with ⟨q, hq⟩ | h2
      · exact ⟨q, by rw [h] at hq; exact hq⟩
      · exact absurd (h2.symm.trans h) hp
  have e1 : (∃ q, p = q ++ '.' :: ext) → fullPath ext p = p := fun h => by unfold fullPath; rw [if_neg (not_not.2 (key.1 h))]
  have e2 : (¬ ∃ q, p = q ++ '.' :: ext) → fullPath ext p = p ++ '.' :: ext := fun h => by
    unfold fullPath; rw [if_pos (fun h' => h (key.2 h'))]
  refine ⟨?_, e1, e2⟩
  by_cases h : ∃ q, p = q ++ '.' :: ext
  · rw [e1 h]; exact h
  · exact ⟨p, e2 h⟩

/-- Writing twice to the same name uses the same file. -/
theorem _root_.TQ.C69_idempotent {ext p : List Char} (he : '.' ∉ ext) : fullPath ext (fullPath ext p) = fullPath ext p := by
  by_cases hp : p = ext
  · subst hp
    have : fullPath p p = p := by
      unfold fullPath
      rw [if_neg]
      simp only [ne_eq, not_not]
      rcases afterLast_cases p with ⟨q, hq⟩ | h
      · exact absurd (show '.' ∈ p by rw [hq]; simp) he
      · exact h
    rw [this, this]
  · obtain ⟨⟨q, hq⟩, -⟩ := C69_extension_partial he hp
    have hne : fullPath ext p ≠ ext := by rw [hq]; intro h; exact he (by rw [← h]; simp)
    exact (C69_extension_partial he hne).2.1 ⟨q, hq⟩

/-- **C69 is false** for the bare extension: the file is called `vtu`. -/
theorem _root_.TQ.C69_bare_violated : ∃ p : List Char, p ≠ [] ∧ ¬ ∃ q, fullPath "vtu".toList p = q ++ '.' :: "vtu".toList := by
  refine ⟨"vtu".toList, by decide, ?_⟩
  rintro ⟨q, hq⟩
  have : '.' ∈ fullPath "vtu".toList "vtu".toList := by rw [hq]; simp
  exact absurd this (by decide)

example : fullPath "vtu".toList "out/mesh.v2".toList = "out/mesh.v2.vtu".toList ∧ fullPath "vtu".toList "mesh.vtu".toList = "mesh.vtu".toList ∧
    "out/mesh.v2".toList ≠ "vtu".toList ∧ '.' ∉ "vtu".toList := by decide

end VT
end TQ

#print axioms TQ.C67_entries
#print axioms TQ.C67_layout
#print axioms TQ.C66_read_back
#print axioms TQ.C66_data
#print axioms TQ.C66_offsets
#print axioms TQ.C68_distinct_partial
#print axioms TQ.C68_distinct_violated
#print axioms TQ.C69_extension_partial
#print axioms TQ.C69_idempotent
#print axioms TQ.C69_bare_violated
