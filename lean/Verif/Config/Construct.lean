import Verif.Config.Inits

/-!
# A whole mesh definition
-/

set_option linter.unusedSectionVars false

namespace TQ
namespace Cf
open PR PRSpec CfSpec

variable {K : Type} [Field K] [LinearOrder K] {E : Env K} {c : List Line} {its : List Item} {L : List Name} {r : Reader K}

/-- The entries of a boundary kind. -/
def bEdges (E : Env K) (it : Item) : BDef K := .edges (it.rows.map fun l => (index E l 0, index E l 1, index E l 2))

def bCoords (E : Env K) (it : Item) : BDef K := .coords (it.rows.map fun l => (point E l 0, whole E l 2, point E l 3))

theorem bdriesOf_eq (E : Env K) (b : BdryType) (its : List Item) : bdriesOf E b its =
    (entriesOf (.edges b) its).map (bEdges E) ++ (entriesOf (.coords b) its).map (bCoords E) ++ (entriesOf (.rect b) its).map (fun it => rectOf E it.text) ++
    (entriesOf (.circ b) its).map (fun it => circOf E it.text) ++ (entriesOf (.square b) its).map (fun it => squareOf E it.text) ++
    (entriesOf (.triangle b) its).map (fun it => triangleOf E it.text) ++ (entriesOf (.csv b) its).map (fun it => csvOf it.text) := by
  unfold bdriesOf tables singles
  simp only [List.map_map]
  rfl

/-- The names of the kinds of boundaries. -/
def kinds (b : BdryType) : List Name := [.csv b, .triangle b, .square b, .circ b, .rect b, .coords b, .edges b]

section
variable (hw : WellWritten E its) (b : BdryType)
include hw

theorem ww_edges : ∀ it ∈ entriesOf (.edges b) its, Reads E.convI 0 none c (.edges b) readEdges (bEdges E) it :=
  fun _ hit => have := hw.edges b _ (tables_mem hit); reads_edges E this.1 this.2

theorem ww_coords : ∀ it ∈ entriesOf (.coords b) its, Reads E.convD 0 (some (-1)) c (.coords b) (readCoords E) (bCoords E) it :=
  fun _ hit => have := hw.coords b _ (tables_mem hit); reads_coords E this.1 this.2

theorem ww_rect : ∀ it ∈ entriesOf (.rect b) its, Reads E.convD 0 (some (-1)) c (.rect b) (readRect E) (fun it => rectOf E it.text) it :=
  fun _ hit => reads_rect E (hw.marks b _ (by simp) _ (singles_mem hit))

theorem ww_circ : ∀ it ∈ entriesOf (.circ b) its, Reads E.convD 0 (some (-1)) c (.circ b) (readCirc E) (fun it => circOf E it.text) it :=
  fun _ hit => reads_circ E (hw.marks b _ (by simp) _ (singles_mem hit)) (hw.circ b _ (singles_mem hit))

theorem ww_square : ∀ it ∈ entriesOf (.square b) its, Reads E.convD 0 (some (-1)) c (.square b) (readSquare E) (fun it => squareOf E it.text) it :=
  fun _ hit => reads_square E (hw.marks b _ (by simp) _ (singles_mem hit))

theorem ww_triangle : ∀ it ∈ entriesOf (.triangle b) its, Reads E.convD 0 (some (-1)) c (.triangle b) (readTriangle E) (fun it => triangleOf E it.text) it :=
  fun _ hit => reads_triangle E (hw.marks b _ (by simp) _ (singles_mem hit))

theorem ww_csv : ∀ it ∈ entriesOf (.csv b) its, Reads convS [] none c (.csv b) readCsv (fun it => (csvOf it.text : BDef K)) it :=
  fun _ hit => reads_csv (hw.texts _ (by cases b <;> simp) _ (singles_mem hit))
end

theorem initExterior_inv (hw : WellWritten E its) (h : Inv c its L r) (hL : ∀ n ∈ kinds .exterior, n ∉ L) :
    ∃ r', initExterior E c r = .ok (bdriesOf E .exterior its, r') ∧ Inv c its (kinds .exterior ++ L) r' := by
  have hone := hw.exterior
  rw [bdriesOf_eq] at hone ⊢
  have hin : ∀ n ∈ kinds .exterior, ∀ L', (∀ m ∈ L', m ≠ n) → n ∉ L' ++ L := fun n hn L' h1 h2 => (List.mem_append.1 h2).elim (fun h3 => h1 n h3 rfl) (hL n hn)
  have hd : ∀ L', (∀ m ∈ L', m ∈ kinds .exterior) → L' ++ L ⊆ kinds .exterior ++ L := fun L' h1 x hx =>
    List.mem_append.2 ((List.mem_append.1 hx).imp (h1 x) id)
  unfold initExterior
  rcases askI_inv (L := [] ++ L) rfl h (hin _ (by decide) _ (by decide)) hw.ok (ww_edges hw .exterior) with ⟨e0, r0, a0, i0, -⟩ | ⟨it, as, r', e0, a0, i0, g0, -⟩
  rotate_left
  · refine ⟨r', ?_, Inv.mono i0 (hd [.edges .exterior] (by decide))⟩
    rw [a0]
    dsimp only [bind, Except.bind]
    simp only [if_true]
    rw [g0]
    have hx : as = [] := by
      simp only [e0, List.map_nil, List.nil_append, List.map_cons, List.length_append, List.length_cons, List.length_map] at hone
      cases as with
      | nil => rfl
      | cons _ _ => simp only [List.length_cons] at hone; omega
    subst hx
    have z_coords : entriesOf (.coords .exterior) its = [] := by
      simp only [e0, List.map_nil, List.nil_append, List.map_cons, List.length_append, List.length_cons, List.length_map, List.length_nil] at hone
      exact List.eq_nil_of_length_eq_zero (by omega)
    have z_rect : entriesOf (.rect .exterior) its = [] := by
      simp only [e0, List.map_nil, List.nil_append, List.map_cons, List.length_append, List.length_cons, List.length_map, List.length_nil] at hone
      exact List.eq_nil_of_length_eq_zero (by omega)
    have z_circ : entriesOf (.circ .exterior) its = [] := by
      simp only [e0, List.map_nil, List.nil_append, List.map_cons, List.length_append, List.length_cons, List.length_map, List.length_nil] at hone
      exact List.eq_nil_of_length_eq_zero (by omega)
    have z_square : entriesOf (.square .exterior) its = [] := by
      simp only [e0, List.map_nil, List.nil_append, List.map_cons, List.length_append, List.length_cons, List.length_map, List.length_nil] at hone
      exact List.eq_nil_of_length_eq_zero (by omega)
    have z_triangle : entriesOf (.triangle .exterior) its = [] := by
      simp only [e0, List.map_nil, List.nil_append, List.map_cons, List.length_append, List.length_cons, List.length_map, List.length_nil] at hone
      exact List.eq_nil_of_length_eq_zero (by omega)
    have z_csv : entriesOf (.csv .exterior) its = [] := by
      simp only [e0, List.map_nil, List.nil_append, List.map_cons, List.length_append, List.length_cons, List.length_map, List.length_nil] at hone
      exact List.eq_nil_of_length_eq_zero (by omega)
    rw [e0, z_coords, z_rect, z_circ, z_square, z_triangle, z_csv]
    rfl
  rw [a0]
  dsimp only [bind, Except.bind]
  simp only [Bool.false_eq_true, if_false]
  rcases askD_inv (L := [.edges .exterior] ++ L) trivial i0 (hin _ (by decide) _ (by decide)) hw.ok (ww_coords hw .exterior) with ⟨e1, r1, a1, i1, -⟩ | ⟨it, as, r', e1, a1, i1, g1, -⟩
  rotate_left
  · refine ⟨r', ?_, Inv.mono i1 (hd [.coords .exterior, .edges .exterior] (by decide))⟩
    rw [a1]
    dsimp only [bind, Except.bind]
    simp only [if_true]
    rw [g1]
    have hx : as = [] := by
      simp only [e0, e1, List.map_nil, List.nil_append, List.map_cons, List.length_append, List.length_cons, List.length_map] at hone
      cases as with
      | nil => rfl
      | cons _ _ => simp only [List.length_cons] at hone; omega
    subst hx
    have z_rect : entriesOf (.rect .exterior) its = [] := by
      simp only [e0, e1, List.map_nil, List.nil_append, List.map_cons, List.length_append, List.length_cons, List.length_map, List.length_nil] at hone
      exact List.eq_nil_of_length_eq_zero (by omega)
    have z_circ : entriesOf (.circ .exterior) its = [] := by
      simp only [e0, e1, List.map_nil, List.nil_append, List.map_cons, List.length_append, List.length_cons, List.length_map, List.length_nil] at hone
      exact List.eq_nil_of_length_eq_zero (by omega)
    have z_square : entriesOf (.square .exterior) its = [] := by
      simp only [e0, e1, List.map_nil, List.nil_append, List.map_cons, List.length_append, List.length_cons, List.length_map, List.length_nil] at hone
      exact List.eq_nil_of_length_eq_zero (by omega)
    have z_triangle : entriesOf (.triangle .exterior) its = [] := by
      simp only [e0, e1, List.map_nil, List.nil_append, List.map_cons, List.length_append, List.length_cons, List.length_map, List.length_nil] at hone
      exact List.eq_nil_of_length_eq_zero (by omega)
    have z_csv : entriesOf (.csv .exterior) its = [] := by
      simp only [e0, e1, List.map_nil, List.nil_append, List.map_cons, List.length_append, List.length_cons, List.length_map, List.length_nil] at hone
      exact List.eq_nil_of_length_eq_zero (by omega)
    rw [e0, e1, z_rect, z_circ, z_square, z_triangle, z_csv]
    rfl
  rw [a1]
  dsimp only [bind, Except.bind]
  simp only [Bool.false_eq_true, if_false]
  rcases askD_inv (L := [.coords .exterior, .edges .exterior] ++ L) trivial i1 (hin _ (by decide) _ (by decide)) hw.ok (ww_rect hw .exterior) with ⟨e2, r2, a2, i2, -⟩ | ⟨it, as, r', e2, a2, i2, g2, -⟩
  rotate_left
  · refine ⟨r', ?_, Inv.mono i2 (hd [.rect .exterior, .coords .exterior, .edges .exterior] (by decide))⟩
    rw [a2]
    dsimp only [bind, Except.bind]
    simp only [if_true]
    rw [g2]
    have hx : as = [] := by
      simp only [e0, e1, e2, List.map_nil, List.nil_append, List.map_cons, List.length_append, List.length_cons, List.length_map] at hone
      cases as with
      | nil => rfl
      | cons _ _ => simp only [List.length_cons] at hone; omega
    subst hx
    have z_circ : entriesOf (.circ .exterior) its = [] := by
      simp only [e0, e1, e2, List.map_nil, List.nil_append, List.map_cons, List.length_append, List.length_cons, List.length_map, List.length_nil] at hone
      exact List.eq_nil_of_length_eq_zero (by omega)
    have z_square : entriesOf (.square .exterior) its = [] := by
      simp only [e0, e1, e2, List.map_nil, List.nil_append, List.map_cons, List.length_append, List.length_cons, List.length_map, List.length_nil] at hone
      exact List.eq_nil_of_length_eq_zero (by omega)
    have z_triangle : entriesOf (.triangle .exterior) its = [] := by
      simp only [e0, e1, e2, List.map_nil, List.nil_append, List.map_cons, List.length_append, List.length_cons, List.length_map, List.length_nil] at hone
      exact List.eq_nil_of_length_eq_zero (by omega)
    have z_csv : entriesOf (.csv .exterior) its = [] := by
      simp only [e0, e1, e2, List.map_nil, List.nil_append, List.map_cons, List.length_append, List.length_cons, List.length_map, List.length_nil] at hone
      exact List.eq_nil_of_length_eq_zero (by omega)
    rw [e0, e1, e2, z_circ, z_square, z_triangle, z_csv]
    rfl
  rw [a2]
  dsimp only [bind, Except.bind]
  simp only [Bool.false_eq_true, if_false]
  rcases askD_inv (L := [.rect .exterior, .coords .exterior, .edges .exterior] ++ L) trivial i2 (hin _ (by decide) _ (by decide)) hw.ok (ww_circ hw .exterior) with ⟨e3, r3, a3, i3, -⟩ | ⟨it, as, r', e3, a3, i3, g3, -⟩
  rotate_left
  · refine ⟨r', ?_, Inv.mono i3 (hd [.circ .exterior, .rect .exterior, .coords .exterior, .edges .exterior] (by decide))⟩
    rw [a3]
    dsimp only [bind, Except.bind]
    simp only [if_true]
    rw [g3]
    have hx : as = [] := by
      simp only [e0, e1, e2, e3, List.map_nil, List.nil_append, List.map_cons, List.length_append, List.length_cons, List.length_map] at hone
      cases as with
      | nil => rfl
      | cons _ _ => simp only [List.length_cons] at hone; omega
    subst hx
    have z_square : entriesOf (.square .exterior) its = [] := by
      simp only [e0, e1, e2, e3, List.map_nil, List.nil_append, List.map_cons, List.length_append, List.length_cons, List.length_map, List.length_nil] at hone
      exact List.eq_nil_of_length_eq_zero (by omega)
    have z_triangle : entriesOf (.triangle .exterior) its = [] := by
      simp only [e0, e1, e2, e3, List.map_nil, List.nil_append, List.map_cons, List.length_append, List.length_cons, List.length_map, List.length_nil] at hone
      exact List.eq_nil_of_length_eq_zero (by omega)
    have z_csv : entriesOf (.csv .exterior) its = [] := by
      simp only [e0, e1, e2, e3, List.map_nil, List.nil_append, List.map_cons, List.length_append, List.length_cons, List.length_map, List.length_nil] at hone
      exact List.eq_nil_of_length_eq_zero (by omega)
    rw [e0, e1, e2, e3, z_square, z_triangle, z_csv]
    rfl
  rw [a3]
  dsimp only [bind, Except.bind]
  simp only [Bool.false_eq_true, if_false]
  rcases askD_inv (L := [.circ .exterior, .rect .exterior, .coords .exterior, .edges .exterior] ++ L) trivial i3 (hin _ (by decide) _ (by decide)) hw.ok (ww_square hw .exterior) with ⟨e4, r4, a4, i4, -⟩ | ⟨it, as, r', e4, a4, i4, g4, -⟩
  rotate_left
  · refine ⟨r', ?_, Inv.mono i4 (hd [.square .exterior, .circ .exterior, .rect .exterior, .coords .exterior, .edges .exterior] (by decide))⟩
    rw [a4]
    dsimp only [bind, Except.bind]
    simp only [if_true]
    rw [g4]
    have hx : as = [] := by
      simp only [e0, e1, e2, e3, e4, List.map_nil, List.nil_append, List.map_cons, List.length_append, List.length_cons, List.length_map] at hone
      cases as with
      | nil => rfl
      | cons _ _ => simp only [List.length_cons] at hone; omega
    subst hx
    have z_triangle : entriesOf (.triangle .exterior) its = [] := by
      simp only [e0, e1, e2, e3, e4, List.map_nil, List.nil_append, List.map_cons, List.length_append, List.length_cons, List.length_map, List.length_nil] at hone
      exact List.eq_nil_of_length_eq_zero (by omega)
    have z_csv : entriesOf (.csv .exterior) its = [] := by
      simp only [e0, e1, e2, e3, e4, List.map_nil, List.nil_append, List.map_cons, List.length_append, List.length_cons, List.length_map, List.length_nil] at hone
      exact List.eq_nil_of_length_eq_zero (by omega)
    rw [e0, e1, e2, e3, e4, z_triangle, z_csv]
    rfl
  rw [a4]
  dsimp only [bind, Except.bind]
  simp only [Bool.false_eq_true, if_false]
  rcases askD_inv (L := [.square .exterior, .circ .exterior, .rect .exterior, .coords .exterior, .edges .exterior] ++ L) trivial i4 (hin _ (by decide) _ (by decide)) hw.ok (ww_triangle hw .exterior) with ⟨e5, r5, a5, i5, -⟩ | ⟨it, as, r', e5, a5, i5, g5, -⟩
  rotate_left
  · refine ⟨r', ?_, Inv.mono i5 (hd [.triangle .exterior, .square .exterior, .circ .exterior, .rect .exterior, .coords .exterior, .edges .exterior] (by decide))⟩
    rw [a5]
    dsimp only [bind, Except.bind]
    simp only [if_true]
    rw [g5]
    have hx : as = [] := by
      simp only [e0, e1, e2, e3, e4, e5, List.map_nil, List.nil_append, List.map_cons, List.length_append, List.length_cons, List.length_map] at hone
      cases as with
      | nil => rfl
      | cons _ _ => simp only [List.length_cons] at hone; omega
    subst hx
    have z_csv : entriesOf (.csv .exterior) its = [] := by
      simp only [e0, e1, e2, e3, e4, e5, List.map_nil, List.nil_append, List.map_cons, List.length_append, List.length_cons, List.length_map, List.length_nil] at hone
      exact List.eq_nil_of_length_eq_zero (by omega)
    rw [e0, e1, e2, e3, e4, e5, z_csv]
    rfl
  rw [a5]
  dsimp only [bind, Except.bind]
  simp only [Bool.false_eq_true, if_false]
  rcases askS_inv (L := [.triangle .exterior, .square .exterior, .circ .exterior, .rect .exterior, .coords .exterior, .edges .exterior] ++ L) rfl i5 (hin _ (by decide) _ (by decide)) hw.ok (ww_csv hw .exterior) with ⟨e6, r6, a6, i6, -⟩ | ⟨it, as, r', e6, a6, i6, g6, -⟩
  rotate_left
  · refine ⟨r', ?_, Inv.mono i6 (hd [.csv .exterior, .triangle .exterior, .square .exterior, .circ .exterior, .rect .exterior, .coords .exterior, .edges .exterior] (by decide))⟩
    rw [a6]
    dsimp only [bind, Except.bind]
    simp only [if_true]
    rw [g6]
    have hx : as = [] := by
      simp only [e0, e1, e2, e3, e4, e5, e6, List.map_nil, List.nil_append, List.map_cons, List.length_append, List.length_cons, List.length_map] at hone
      cases as with
      | nil => rfl
      | cons _ _ => simp only [List.length_cons] at hone; omega
    subst hx
    rw [e0, e1, e2, e3, e4, e5, e6]
    rfl
  rw [a6]
  dsimp only [bind, Except.bind]
  simp only [Bool.false_eq_true, if_false]
  refine ⟨r6, ?_, i6⟩
  rw [e0, e1, e2, e3, e4, e5, e6]
  rfl

theorem initInterior_inv (hw : WellWritten E its) (h : Inv c its L r) (hL : ∀ n ∈ kinds .interior, n ∉ L) :
    ∃ r', initInterior E c r = .ok (bdriesOf E .interior its, r') ∧ Inv c its (kinds .interior ++ L) r' := by
  have hin : ∀ n ∈ kinds .interior, ∀ L', (∀ m ∈ L', m ≠ n) → n ∉ L' ++ L := fun n hn L' h1 h2 => (List.mem_append.1 h2).elim (fun h3 => h1 n h3 rfl) (hL n hn)
  rw [bdriesOf_eq]
  obtain ⟨r0, a0, i0⟩ := whileI_inv (L := [] ++ L) rfl h (hin _ (by decide) _ (by decide)) hw.ok (ww_edges hw .interior)
  obtain ⟨r1, a1, i1⟩ := whileD_inv (L := [.edges .interior] ++ L) trivial i0 (hin _ (by decide) _ (by decide)) hw.ok (ww_coords hw .interior)
  obtain ⟨r2, a2, i2⟩ := whileD_inv (L := [.coords .interior, .edges .interior] ++ L) trivial i1 (hin _ (by decide) _ (by decide)) hw.ok (ww_rect hw .interior)
  obtain ⟨r3, a3, i3⟩ := whileD_inv (L := [.rect .interior, .coords .interior, .edges .interior] ++ L) trivial i2 (hin _ (by decide) _ (by decide)) hw.ok (ww_circ hw .interior)
  obtain ⟨r4, a4, i4⟩ := whileD_inv (L := [.circ .interior, .rect .interior, .coords .interior, .edges .interior] ++ L) trivial i3 (hin _ (by decide) _ (by decide)) hw.ok (ww_square hw .interior)
  obtain ⟨r5, a5, i5⟩ := whileD_inv (L := [.square .interior, .circ .interior, .rect .interior, .coords .interior, .edges .interior] ++ L) trivial i4 (hin _ (by decide) _ (by decide)) hw.ok (ww_triangle hw .interior)
  obtain ⟨r6, a6, i6⟩ := whileS_inv (L := [.triangle .interior, .square .interior, .circ .interior, .rect .interior, .coords .interior, .edges .interior] ++ L) rfl i5 (hin _ (by decide) _ (by decide)) hw.ok (ww_csv hw .interior)
  refine ⟨r6, ?_, i6⟩
  unfold initInterior
  rw [a0]
  dsimp only [bind, Except.bind]
  rw [a1]
  dsimp only [bind, Except.bind]
  rw [a2]
  dsimp only [bind, Except.bind]
  rw [a3]
  dsimp only [bind, Except.bind]
  rw [a4]
  dsimp only [bind, Except.bind]
  rw [a5]
  dsimp only [bind, Except.bind]
  rw [a6]
  dsimp only [bind, Except.bind]
  rfl

theorem initFixedEdges_inv (hw : WellWritten E its) (h : Inv c its L r) (hL : .fixedEdges ∉ L) :
    ∃ r', initFixedEdges E c r = .ok ((tables .fixedEdges its).map (fun rows => rows.map fun l => (index E l 0, index E l 1)), r') ∧ Inv c its (.fixedEdges :: L) r' := by
  obtain ⟨r', h1, h2⟩ := whileI_inv (n := .fixedEdges) rfl h hL hw.ok fun it hit => have := hw.fixedEdges _ (tables_mem hit); reads_pairs E this.1 this.2
  refine ⟨r', ?_, h2⟩
  unfold initFixedEdges tables
  rw [List.map_map]
  exact h1

theorem initLayers_inv (hw : WellWritten E its) (h : Inv c its L r) (hL : .layers ∉ L) :
    ∃ r', initLayers E c r = .ok ((singles .layers its).map (layerOf E), r') ∧ Inv c its (.layers :: L) r' := by
  obtain ⟨r', h1, h2⟩ := whileD_inv (n := .layers) trivial h hL hw.ok fun it hit => have := hw.layers _ (singles_mem hit); reads_layer E this.1 this.2
  refine ⟨r', ?_, h2⟩
  unfold initLayers singles
  rw [List.map_map]
  exact h1

theorem valueOr_none {T : Type} {conv : Line → Option T} {d : T} {n : Name} {its : List Item} (h : entriesOf n its = []) : valueOr conv d n its = d := by
  unfold valueOr singles; rw [h]; rfl

theorem valueOr_cons {T : Type} {conv : Line → Option T} {d : T} {n : Name} {its : List Item} {it : Item} {as : List Item} (h : entriesOf n its = it :: as) :
    valueOr conv d n its = (conv it.text).getD d := by
  unfold valueOr singles; rw [h]; rfl

theorem reads_value {T : Type} {conv : Line → Option T} {zero : T} {c : List Line} {n : Name} {it : Item} (d : T)
    (hk : n.kind = .scalar) (hv : ∃ v, conv it.text = some v) :
    Reads conv zero none c n getValue (fun it => (conv it.text).getD d) it := by
  obtain ⟨v, hv⟩ := hv
  exact reads_scalar (f := fun t => (conv t).getD d) hk hv fun p hp => by rw [hp, hv]; rfl

theorem reads_word {c : List Line} {n : Name} {it : Item} (hk : n.kind = .scalar) (hv : word it.text ≠ []) :
    Reads convS [] none c n getValue (fun it => word it.text) it :=
  reads_scalar (f := word) hk (convS_word hv) fun _ hp => hp

theorem initColor_inv (hw : WellWritten E its) (h : Inv c its L r) (hL : .color ∉ L) :
    ∃ r', initColor E c r = .ok (valueOr E.convI 0 .color its, r') ∧ Inv c its (.color :: L) r' := by
  rcases askI_inv (n := .color) rfl h hL hw.ok (fun it hit => reads_value (0 : Int) rfl (hw.color _ (singles_mem hit))) with ⟨h1, r', h2, h3, -⟩ | ⟨it, as, r', h1, h2, h3, h4, -⟩
  · refine ⟨r', ?_, h3⟩
    unfold initColor
    rw [h2, valueOr_none h1]
    rfl
  · refine ⟨r', ?_, h3⟩
    unfold initColor
    rw [h2, valueOr_cons h1]
    dsimp only [bind, Except.bind]
    simp only [if_true]
    rw [h4]
    rfl

theorem initAlgorithm_inv (hw : WellWritten E its) (h : Inv c its L r) (hL : .algorithm ∉ L) :
    ∃ r', initAlgorithm c r = .ok (valueOr (some ∘ word) "Triangulation".toList .algorithm its, r') ∧ Inv c its (.algorithm :: L) r' := by
  rcases askS_inv (n := .algorithm) rfl h hL hw.ok (fun it hit => reads_word rfl (hw.texts _ (by decide) _ (singles_mem hit))) with ⟨h1, r', h2, h3, -⟩ | ⟨it, as, r', h1, h2, h3, h4, -⟩
  · refine ⟨r', ?_, h3⟩
    unfold initAlgorithm
    rw [h2, valueOr_none h1]
    rfl
  · refine ⟨r', ?_, h3⟩
    unfold initAlgorithm
    rw [h2, valueOr_cons h1]
    dsimp only [bind, Except.bind]
    simp only [if_true]
    rw [h4]
    rfl

theorem initRefinement_inv (hw : WellWritten E its) (h : Inv c its L r) (hL : .refinements ∉ L) :
    ∃ r', initRefinement E c r = .ok (valueOr E.convN 0 .refinements its, r') ∧ Inv c its (.refinements :: L) r' := by
  rcases askN_inv (n := .refinements) rfl h hL hw.ok (fun it hit => reads_value (0 : Nat) rfl (hw.refinements _ (singles_mem hit))) with ⟨h1, r', h2, h3, -⟩ | ⟨it, as, r', h1, h2, h3, h4, -⟩
  · refine ⟨r', ?_, h3⟩
    unfold initRefinement
    rw [h2, valueOr_none h1]
    rfl
  · refine ⟨r', ?_, h3⟩
    unfold initRefinement
    rw [h2, valueOr_cons h1]
    dsimp only [bind, Except.bind]
    simp only [if_true]
    rw [h4]
    rfl

theorem initSmoothing_inv (hw : WellWritten E its) (h : Inv c its L r) (hL : .smoothing ∉ L) (hL2 : .smoothLayers ∉ L) :
    ∃ r', initSmoothing E c r = .ok ((valueOr E.convN 2 .smoothing its, valueOr E.convB false .smoothLayers its), r') ∧ Inv c its (.smoothLayers :: .smoothing :: L) r' := by
  have h1 : ∃ b r1, askN E c .smoothing r = .ok (b, r1) ∧ Inv c its (.smoothing :: L) r1 ∧
      (if b then getValue (r1.N .smoothing) else .ok 2) = .ok (valueOr E.convN 2 .smoothing its) := by
    rcases askN_inv (n := .smoothing) rfl h hL hw.ok (fun it hit => reads_value (2 : Nat) rfl (hw.smoothing _ (singles_mem hit))) with
      ⟨h1, r', h2, h3, -⟩ | ⟨it, as, r', h1, h2, h3, h4, -⟩
    · exact ⟨false, r', h2, h3, by rw [valueOr_none h1]; rfl⟩
    · exact ⟨true, r', h2, h3, by rw [valueOr_cons h1, if_pos rfl]; exact h4⟩
  obtain ⟨b, r1, a1, a2, a3⟩ := h1
  have h2 : ∃ b r2, askB E c .smoothLayers r1 = .ok (b, r2) ∧ Inv c its (.smoothLayers :: .smoothing :: L) r2 ∧
      (if b then getValue (r2.B .smoothLayers) else .ok false) = .ok (valueOr E.convB false .smoothLayers its) := by
    rcases askB_inv (n := .smoothLayers) rfl a2 (by simp [hL2]) hw.ok (fun it hit => reads_value false rfl (hw.smoothLayers _ (singles_mem hit))) with
      ⟨h1, r', h2, h3, -⟩ | ⟨it, as, r', h1, h2, h3, h4, -⟩
    · exact ⟨false, r', h2, h3, by rw [valueOr_none h1]; rfl⟩
    · exact ⟨true, r', h2, h3, by rw [valueOr_cons h1, if_pos rfl]; exact h4⟩
  obtain ⟨b2, r2, b1, b3, b4⟩ := h2
  refine ⟨r2, ?_, b3⟩
  unfold initSmoothing
  rw [a1]
  dsimp only [bind, Except.bind]
  rw [b1]
  dsimp only
  generalize valueOr E.convN 2 .smoothing its = v at a3 ⊢
  generalize valueOr E.convB false .smoothLayers its = w at b4 ⊢
  clear h a1 a2 b1 b3 hw
  cases b <;> cases b2 <;> simp_all [pure, Except.pure]

theorem construct_inv (big : K) (hw : WellWritten E its) (h : Inv c its [] r) : ∃ r', construct E big c r = .ok (described E big its, r') ∧ Shaped r' := by
  obtain ⟨r1, a1, i1, z1⟩ := mandatory_inv hw h
  obtain ⟨r2, a2, i2, z2⟩ := initVertices_inv big hw i1 (by decide)
  obtain ⟨r3, a3, i3, z3⟩ := initFixedVertices_inv hw i2 (by decide)
  obtain ⟨r4, a4, i4⟩ := initExterior_inv hw i3 (by decide)
  obtain ⟨r5, a5, i5⟩ := initInterior_inv hw i4 (by decide)
  obtain ⟨r6, a6, i6⟩ := initFixedEdges_inv hw i5 (by decide)
  obtain ⟨r7, a7, i7⟩ := initLayers_inv hw i6 (by decide)
  obtain ⟨r8, a8, i8⟩ := initColor_inv hw i7 (by decide)
  obtain ⟨r9, a9, i9⟩ := initAlgorithm_inv hw i8 (by decide)
  obtain ⟨r10, a10, i10⟩ := initRefinement_inv hw i9 (by decide)
  obtain ⟨r11, a11, i11⟩ := initSmoothing_inv hw i10 (by decide) (by decide)
  refine ⟨r11, ?_, i11.1⟩
  have hsz : getValue (r3.S .size) = .ok (valueOr (some ∘ word) [] .size its) := by rw [z3, z2]; exact z1
  unfold construct
  rw [a1]
  dsimp only [bind, Except.bind]
  rw [a2]
  dsimp only
  rw [a3]
  dsimp only
  rw [hsz]
  dsimp only
  rw [a4]
  dsimp only
  rw [a5]
  dsimp only
  rw [a6]
  dsimp only
  rw [a7]
  dsimp only
  rw [a8]
  dsimp only
  rw [a9]
  dsimp only
  rw [a10]
  dsimp only
  rw [a11]
  rfl

end Cf
end TQ
