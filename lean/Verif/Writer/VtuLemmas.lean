import Verif.Writer.Lemmas
import Verif.Cleanup.Lemmas
import Verif.Cleanup.Props

/-!
# Lemmas about the VTU file
-/

namespace TQ
namespace VT
open VTSpec MS MS.St MeshSpec

theorem setw_zero (l : List Txt) : l.map (setw 0) = l := by
  induction l with
  | nil => rfl
  | cons t l ih => rw [List.map_cons, ih]; simp [setw, spaces]

theorem scan_array0 {hd : List Char} (h : '\n' ∉ hd) (hp : "<DataArray".toList.isPrefixOf (trim hd) = true) (ht : trim hd = hd)
    {ws : List (List Char)} (hw : ∀ w ∈ ws, Clean w) (r : List Char) :
    scan none (lines (arrayTxt hd ws ++ r)) = (hd, ws) :: scan none (lines r) := by
  have := scan_array h hp ht 0 hw r
  rwa [setw_zero] at this

theorem dataHead_ok {d : Data} (h1 : '\n' ∉ d.type) (h2 : '\n' ∉ d.name) :
    '\n' ∉ dataHead d ∧ "<DataArray".toList.isPrefixOf (trim (dataHead d)) = true ∧ trim (dataHead d) = dataHead d := by
  have e : trim (dataHead d) = dataHead d := by unfold dataHead; rfl
  refine ⟨?_, ?_, e⟩
  · have h3 := (clean_natTxt d.dim).2.2.1
    unfold dataHead
    simp [h1, h2, h3]
  · rw [e]; unfold dataHead; rfl

theorem scan_data {o c : Txt} (ho : '\n' ∉ o) (ho2 : "<DataArray".toList.isPrefixOf (trim o) = false) (hc : '\n' ∉ c)
    (hc2 : "<DataArray".toList.isPrefixOf (trim c) = false) {l : List Data}
    (h : ∀ d ∈ l, '\n' ∉ d.type ∧ '\n' ∉ d.name ∧ ∀ w ∈ d.toks, Clean w) (r : List Char) :
    scan none (lines (dataTxt o c l ++ r)) = l.map (fun d => (dataHead d, d.toks)) ++ scan none (lines r) := by
  have key : ∀ (l : List Data) (r : List Char), (∀ d ∈ l, '\n' ∉ d.type ∧ '\n' ∉ d.name ∧ ∀ w ∈ d.toks, Clean w) →
      scan none (lines (l.flatMap (fun d => arrayTxt (dataHead d) d.toks) ++ r)) =
        l.map (fun d => (dataHead d, d.toks)) ++ scan none (lines r) := by
    intro l
    induction l with
    | nil => intro r _; rfl
    | cons d l ih =>
      intro r h
      obtain ⟨h1, h2, h3⟩ := h d (by simp)
      obtain ⟨a, b, e⟩ := dataHead_ok h1 h2
      rw [List.flatMap_cons, List.append_assoc, scan_array0 a b e h3, ih r fun x hx => h x (by simp [hx])]
      rfl
  unfold dataTxt
  split
  · next hl =>
    have : l = [] := List.length_eq_zero_iff.1 (by omega)
    subst this; rfl
  · rw [List.append_assoc, List.append_assoc, scan_skip 6 ho ho2, key l _ h, scan_skip 6 hc hc2]

/-- All arrays of the file, in order. -/
theorem arrays_file {v : Vtu} {t : Txt} (ht : file v = some t) (hp : ∀ w ∈ v.points, Clean w)
    (h1 : ∀ d ∈ v.pointData, '\n' ∉ d.type ∧ '\n' ∉ d.name ∧ ∀ w ∈ d.toks, Clean w)
    (h2 : ∀ d ∈ v.cellData, '\n' ∉ d.type ∧ '\n' ∉ d.name ∧ ∀ w ∈ d.toks, Clean w) :
    arrays t = v.pointData.map (fun d => (dataHead d, d.toks)) ++ (v.cellData.map (fun d => (dataHead d, d.toks)) ++
      [(pointsHead, v.points), (connHead, v.conn.map natTxt), (offsetsHead, v.offsets.map natTxt),
        (typesHead, (v.types.take v.offsets.length).map natTxt)]) := by
  have cn : ∀ (l : List Nat), ∀ w ∈ l.map natTxt, Clean w := by
    intro l w hw
    obtain ⟨n, -, rfl⟩ := List.mem_map.1 hw
    exact clean_natTxt n
  have sw : ∀ l : List Nat, (l.map fun n => setw 2 (natTxt n)) = (l.map natTxt).map (setw 2) := by intro l; simp
  unfold file at ht
  split at ht
  · cases ht
  · rw [Option.some.injEq] at ht
    subst ht
    have pc : '\n' ∉ "<Piece NumberOfPoints=\"".toList ++ natTxt (v.points.length / 3) ++ "\" NumberOfCells=\"".toList ++
        natTxt v.offsets.length ++ "\">".toList := by
      have a := (clean_natTxt (v.points.length / 3)).2.2.1
      have b := (clean_natTxt v.offsets.length).2.2.1
      simp [a, b]
    have pd : "<DataArray".toList.isPrefixOf (trim ("<Piece NumberOfPoints=\"".toList ++ natTxt (v.points.length / 3) ++
        "\" NumberOfCells=\"".toList ++ natTxt v.offsets.length ++ "\">".toList)) = false := by
      rw [List.append_assoc, List.append_assoc, List.append_assoc]; rfl
    unfold arrays
    simp only [List.append_assoc] at pc pd ⊢
    rw [scan_skip 0 (by decide) (by decide), scan_skip 2 (by decide) (by decide), scan_skip 4 pc pd,
      scan_data (by decide) (by decide) (by decide) (by decide) h1, scan_data (by decide) (by decide) (by decide) (by decide) h2,
      scan_skip 6 (by decide) (by decide), scan_array0 (by decide) (by decide) (by decide) hp,
      scan_skip 6 (by decide) (by decide), scan_skip 6 (by decide) (by decide),
      sw, sw, sw, scan_array (by decide) (by decide) (by decide) 2 (cn _), scan_array (by decide) (by decide) (by decide) 2 (cn _),
      scan_array (by decide) (by decide) (by decide) 2 (cn _),
      scan_skip 6 (by decide) (by decide), scan_skip 4 (by decide) (by decide), scan_skip 2 (by decide) (by decide)]
    rw [← List.append_nil (line 0 "</VTKFile>".toList), scan_skip 0 (by decide) (by decide)]
    rfl

/-- The announced numbers. -/
theorem counts_file {v : Vtu} {t : Txt} (ht : file v = some t) : readCounts t = some (v.points.length / 3, v.offsets.length) := by
  unfold file at ht
  split at ht
  · cases ht
  · rw [Option.some.injEq] at ht
    subst ht
    generalize v.points.length / 3 = a
    generalize v.offsets.length = b
    have ca := clean_natTxt a
    have cb := clean_natTxt b
    have pc : '\n' ∉ "<Piece NumberOfPoints=\"".toList ++ natTxt a ++ "\" NumberOfCells=\"".toList ++
        natTxt b ++ "\">".toList := by
      simp [ca.2.2.1, cb.2.2.1]
    unfold readCounts
    simp only [List.append_assoc] at pc ⊢
    rw [lines_line 0 (by decide), lines_line 2 (by decide), lines_line 4 pc]
    rw [List.find?_cons, show ("<Piece".toList.isPrefixOf (trim (spaces 0 ++
        "<VTKFile type=\"UnstructuredGrid\" version=\"0.1\" byte_order=\"LittleEndian\">".toList))) = false from by decide]
    rw [List.find?_cons, show ("<Piece".toList.isPrefixOf (trim (spaces 2 ++ "<UnstructuredGrid>".toList))) = false from by decide]
    rw [List.find?_cons, trim_spaces]
    have e : "<Piece".toList.isPrefixOf (trim ("<Piece NumberOfPoints=\"".toList ++ (natTxt a ++
        ("\" NumberOfCells=\"".toList ++ (natTxt b ++ "\">".toList))))) = true := rfl
    rw [e]
    have nq : ∀ n, ∀ c ∈ natTxt n, (c != '"') = true := fun n c hc => by
      simpa using digit_free (natTxt_digits n c hc) (by decide)
    have sa : pieces isSep (spaces 4 ++ ("<Piece NumberOfPoints=\"".toList ++ (natTxt a ++
        ("\" NumberOfCells=\"".toList ++ (natTxt b ++ "\">".toList))))) =
        [[], [], [], [], "<Piece".toList, "NumberOfPoints=\"".toList ++ (natTxt a ++ "\"".toList),
          "NumberOfCells=\"".toList ++ (natTxt b ++ "\">".toList)] := by
      have e1 : spaces 4 ++ ("<Piece NumberOfPoints=\"".toList ++ (natTxt a ++
        ("\" NumberOfCells=\"".toList ++ (natTxt b ++ "\">".toList)))) =
        "    <Piece".toList ++ ' ' :: (("NumberOfPoints=\"".toList ++ (natTxt a ++ "\"".toList)) ++ ' ' ::
          ("NumberOfCells=\"".toList ++ (natTxt b ++ "\">".toList))) := by
        simp [spaces, List.replicate]
      have fr : ∀ (x y : List Char) n, (∀ c ∈ x, isSep c = false) → (∀ c ∈ y, isSep c = false) →
          ∀ c ∈ x ++ (natTxt n ++ y), isSep c = false := by
        intro x y n hx hy c hc
        rcases List.mem_append.1 hc with h | h
        · exact hx c h
        · rcases List.mem_append.1 h with h | h
          · exact clean_free (clean_natTxt n) c h
          · exact hy c h
      rw [e1, split_append (by decide), split_append (by decide), split_free (fr _ _ _ (by decide) (by decide)),
        split_free (fr _ _ _ (by decide) (by decide))]
      rfl
    have tw : ∀ n (r : List Char), List.takeWhile (fun x => decide (x ≠ '"')) (natTxt n ++ '"' :: r) = natTxt n := by
      intro n r
      rw [List.takeWhile_append_of_pos]
      · simp
      · intro c hc; simpa using nq n c hc
    have ap : attr "NumberOfPoints".toList (spaces 4 ++ ("<Piece NumberOfPoints=\"".toList ++ (natTxt a ++
        ("\" NumberOfCells=\"".toList ++ (natTxt b ++ "\">".toList))))) = some (natTxt a) := by
      unfold attr; rw [sa]
      exact congrArg some (tw a [])
    have ac : attr "NumberOfCells".toList (spaces 4 ++ ("<Piece NumberOfPoints=\"".toList ++ (natTxt a ++
        ("\" NumberOfCells=\"".toList ++ (natTxt b ++ "\">".toList))))) = some (natTxt b) := by
      unfold attr; rw [sa]
      exact congrArg some (tw b ['>'])
    dsimp only
    show (do
      let p ← attr "NumberOfPoints".toList _
      let c ← attr "NumberOfCells".toList _
      return (← readNat p, ← readNat c)) = _
    rw [ap, ac]
    show (do
      let x ← readNat (natTxt a)
      let y ← readNat (natTxt b)
      return (x, y)) = _
    rw [readNat_natTxt, readNat_natTxt]
    rfl

/-! ### Cells -/

theorem cellsOf_rows (o : Nat) {rows : List (List Nat)} {types : List Nat} (h : types.length = rows.length) :
    cellsOf o rows.flatten (offsetsFrom o (rows.map List.length)) types = some (types.zip rows) := by
  induction rows generalizing o types with
  | nil =>
    have : types = [] := List.length_eq_zero_iff.1 h
    subst this; rfl
  | cons r rows ih =>
    cases types with
    | nil => simp at h
    | cons t ts =>
      simp only [List.map_cons, offsetsFrom, List.flatten_cons, cellsOf]
      rw [if_pos ⟨by omega, by simp⟩]
      have e : o + r.length - o = r.length := by omega
      rw [e, List.drop_left, List.take_left, ih _ (by simpa using h)]
      rfl

theorem triples_flat {α β : Type} (l : List α) (f g h : α → β) :
    triples (l.flatMap fun v => [f v, g v, h v]) = some (l.map fun v => (f v, g v, h v)) := by
  induction l with
  | nil => rfl
  | cons a l ih => rw [List.flatMap_cons, List.map_cons]; simp [triples, ih]

theorem offsetsFrom_length (o : Nat) (l : List Nat) : (offsetsFrom o l).length = l.length := by
  induction l generalizing o with
  | nil => rfl
  | cons n l ih => simp [offsetsFrom, ih]

end VT
end TQ
