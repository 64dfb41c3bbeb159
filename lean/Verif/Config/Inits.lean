import Verif.Config.Steps

/-!
# What the entries become
-/

set_option linter.unusedSectionVars false

namespace TQ
namespace Cf
open PR PRSpec CfSpec

variable {K : Type} [Field K] [LinearOrder K]

theorem eachRow_ok {A B : Type} (g : Nat → Except Fail B) (f : A → B) : ∀ (l : List A) (i : Nat), (∀ j a, l[j]? = some a → g (i + j) = .ok (f a)) →
    eachRow g l.length i = .ok (l.map f)
  | [], _, _ => rfl
  | a :: l, i, h => by
    have h0 : g i = .ok (f a) := by simpa using h 0 a (by simp)
    have ih := eachRow_ok g f l (i + 1) fun j b hj => by
      have := h (j + 1) b (by simpa using hj)
      rw [← this]
      congr 1
      omega
    simp only [List.length_cons, eachRow, h0, bind, Except.bind, ih]
    rfl

theorem val_ok {T : Type} {p : Para T} {i : Nat} {v : T} (h : p.value i = some v) : val p i = .ok v := by unfold val; rw [h]

theorem val2_ok {T : Type} {p : Para T} {i j : Nat} {v : T} (h : p.value2 i j = some v) : val2 p i j = .ok v := by unfold val2; rw [h]

theorem getValue_ok {T : Type} {p : Para T} {v : T} (hf : p.found = true) (h : p.value 0 = some v) : getValue p = .ok v := by
  unfold getValue; rw [if_pos hf, val_ok h]

theorem toInt_ok {E : Env K} {x : K} {m : Int} (h : E.trunc x = some m) : toInt E x = .ok m := by unfold toInt; rw [h]

theorem convS_word {t : Line} (h : word t ≠ []) : convS t = some (word t) := by
  unfold convS
  dsimp only
  exact if_neg h

/-- Tables of numbers. -/
theorem reads_matrix {T A : Type} {conv : Line → Option T} {zero : T} {d : T} {dflt : Option T} {c : List Line} {n : Name} {g : Para T → Nat → Except Fail A}
    {f : Line → A} {it : Item} (hk : n.kind = .matrix) (hne : it.rows ≠ [])
    (hd : (dflt = some d ∧ ∀ l ∈ it.rows, (cells l).length ≤ n.cols) ∨ (dflt = none ∧ ∀ l ∈ it.rows, Filled conv n.cols l))
    (hg : ∀ (p : Para T) (j : Nat) (l : Line), l ∈ it.rows → (∀ i, i < n.cols → p.value2 i j = some (cellValue conv d l i)) → g p j = .ok (f l)) :
    Reads conv zero dflt c n (fun p => eachRow (g p) p.nrow 0) (fun it => it.rows.map f) it := by
  intro p its1 its2 hs h hok hn hit
  obtain ⟨p', h1, h2, h3, h4, h5⟩ := read_matrix conv zero d hk hs h hok hn hit hne hd
  refine ⟨p', h1, h2, h3, ?_⟩
  dsimp only
  rw [h4]
  refine eachRow_ok _ _ _ _ fun j l hj => ?_
  rw [Nat.zero_add]
  exact hg p' j l (List.mem_of_getElem? hj) (h5 j l hj)

/-- Lines of numbers. -/
theorem reads_vector {T A : Type} {conv : Line → Option T} {zero : T} {d : T} {dflt : Option T} {c : List Line} {n : Name} {g : Para T → Except Fail A}
    {f : Line → A} {it : Item} (hk : n.kind = .vector) (hd : dflt = some d ∨ dflt = none ∧ Filled conv n.cols it.text)
    (hg : ∀ p : Para T, (∀ i, i < n.cols → p.value i = some (cellValue conv d it.text i)) → g p = .ok (f it.text)) :
    Reads conv zero dflt c n g (fun it => f it.text) it := by
  intro p its1 its2 hs h hok hn hit
  obtain ⟨p', h1, h2, h3, h4⟩ := read_vector conv zero d hk hs h hok hn hit hd
  exact ⟨p', h1, h2, h3, hg p' h4⟩

/-- Single values. -/
theorem reads_scalar {T A : Type} {conv : Line → Option T} {zero : T} {dflt : Option T} {c : List Line} {n : Name} {g : Para T → Except Fail A} {f : Line → A} {it : Item}
    (hk : n.kind = .scalar) {v : T} (hv : conv it.text = some v) (hg : ∀ p : Para T, getValue p = .ok v → g p = .ok (f it.text)) :
    Reads conv zero dflt c n g (fun it => f it.text) it := by
  intro p its1 its2 hs h hok hn hit
  obtain ⟨p', h1, h2, h3, h4, h5⟩ := read_scalar conv zero dflt hk hs h hok hn hit hv
  exact ⟨p', h1, h2, h3, hg p' (getValue_ok h4 h5)⟩

theorem reads_vert (E : Env K) {c : List Line} {n : Name} {it : Item} (fixed : Bool) (hk : n.kind = .matrix) (hc : n.cols = 4) (hne : it.rows ≠ [])
    (hl : ∀ l ∈ it.rows, (cells l).length ≤ 4) :
    Reads E.convD 0 (some (-1)) c n (fun p => eachRow (vertRow fixed p) p.nrow 0) (fun it => it.rows.map (vertexOf E fixed)) it := by
  refine reads_matrix (d := -1) hk hne (Or.inl ⟨rfl, fun l h => by rw [hc]; exact hl l h⟩) fun p j l _ hv => ?_
  rw [hc] at hv
  unfold vertRow
  rw [val2_ok (hv 0 (by decide)), val2_ok (hv 1 (by decide)), val2_ok (hv 2 (by decide)), val2_ok (hv 3 (by decide))]
  rfl

theorem reads_edges (E : Env K) {c : List Line} {b : BdryType} {it : Item} (hne : it.rows ≠ []) (hl : ∀ l ∈ it.rows, Filled E.convI 3 l) :
    Reads E.convI 0 none c (.edges b) readEdges (fun it => (BDef.edges (it.rows.map fun l => (index E l 0, index E l 1, index E l 2)) : BDef K)) it := by
  have h := reads_matrix (n := .edges b) (c := c) (zero := 0) (d := 0) (g := edgeRow) (f := fun l => (index E l 0, index E l 1, index E l 2)) rfl hne (Or.inr ⟨rfl, hl⟩)
    fun p j l _ hv => by
      unfold edgeRow
      rw [val2_ok (hv 0 (by decide : 0 < 3)), val2_ok (hv 1 (by decide : 1 < 3)), val2_ok (hv 2 (by decide : 2 < 3))]
      rfl
  intro p its1 its2 hs ha hok hn hit
  obtain ⟨p', h1, h2, h3, h4⟩ := h p its1 its2 hs ha hok hn hit
  refine ⟨p', h1, h2, h3, ?_⟩
  unfold readEdges
  dsimp only at h4
  rw [h4]
  rfl

theorem reads_coords (E : Env K) {c : List Line} {b : BdryType} {it : Item} (hne : it.rows ≠ [])
    (hl : ∀ l ∈ it.rows, (cells l).length ≤ 5 ∧ ∃ m, E.trunc (num E l 2) = some m ∧ 0 ≤ m) :
    Reads E.convD 0 (some (-1)) c (.coords b) (readCoords E) (fun it => BDef.coords (it.rows.map fun l => (point E l 0, whole E l 2, point E l 3))) it := by
  have h := reads_matrix (n := .coords b) (c := c) (zero := 0) (d := -1) (g := coordRow E) (f := fun l => (point E l 0, whole E l 2, point E l 3)) rfl hne
    (Or.inl ⟨rfl, fun l h => (hl l h).1⟩)
    fun p j l hlm hv => by
      obtain ⟨-, m, hm, hm0⟩ := hl l hlm
      unfold coordRow
      rw [val2_ok (hv 0 (by decide : 0 < 5)), val2_ok (hv 1 (by decide : 1 < 5)), val2_ok (hv 2 (by decide : 2 < 5)), val2_ok (hv 3 (by decide : 3 < 5)), val2_ok (hv 4 (by decide : 4 < 5))]
      dsimp only [bind, Except.bind]
      have h2 : toInt E (cellValue E.convD (-1) l 2) = .ok m := toInt_ok hm
      rw [h2]
      dsimp only
      rw [if_neg (by omega)]
      unfold whole
      rw [hm]
      rfl
  intro p its1 its2 hs ha hok hn hit
  obtain ⟨p', h1, h2, h3, h4⟩ := h p its1 its2 hs ha hok hn hit
  refine ⟨p', h1, h2, h3, ?_⟩
  unfold readCoords
  dsimp only at h4
  rw [h4]
  rfl

theorem whole_eq {E : Env K} {l : Line} {i : Nat} {m : Int} (h : E.trunc (num E l i) = some m) : toInt E (num E l i) = .ok (whole E l i) := by
  unfold whole; rw [h]; exact toInt_ok h

def rectOf (E : Env K) (t : Line) : BDef K := .rect (whole E t 0) (point E t 1) (num E t 3) (num E t 4) (point E t 5)

def circOf (E : Env K) (t : Line) : BDef K := .circ (whole E t 0) (point E t 1) (num E t 3) (whole E t 4) (point E t 5)

def squareOf (E : Env K) (t : Line) : BDef K := .square (whole E t 0) (point E t 1) (num E t 3) (point E t 4)

def triangleOf (E : Env K) (t : Line) : BDef K := .triangle (whole E t 0) (point E t 1) (num E t 3) (point E t 4)

def csvOf (t : Line) : BDef K := .csv (word t)

theorem reads_rect (E : Env K) {c : List Line} {b : BdryType} {it : Item} (hm : ∃ m, E.trunc (num E it.text 0) = some m) :
    Reads E.convD 0 (some (-1)) c (.rect b) (readRect E) (fun it => rectOf E it.text) it := by
  refine reads_vector (d := -1) (n := .rect b) (f := rectOf E) rfl (Or.inl rfl) fun p hv => ?_
  obtain ⟨m, hm⟩ := hm
  have h2 : toInt E (cellValue E.convD (-1) it.text 0) = _ := whole_eq hm
  unfold readRect
  rw [val_ok (hv 0 (by decide : 0 < 7)), val_ok (hv 1 (by decide : 1 < 7)), val_ok (hv 2 (by decide : 2 < 7)), val_ok (hv 3 (by decide : 3 < 7)), val_ok (hv 4 (by decide : 4 < 7)),
    val_ok (hv 5 (by decide : 5 < 7)), val_ok (hv 6 (by decide : 6 < 7))]
  dsimp only [bind, Except.bind]
  rw [h2]
  rfl

theorem reads_circ (E : Env K) {c : List Line} {b : BdryType} {it : Item} (hm : ∃ m, E.trunc (num E it.text 0) = some m) (hm4 : ∃ m, E.trunc (num E it.text 4) = some m) :
    Reads E.convD 0 (some (-1)) c (.circ b) (readCirc E) (fun it => circOf E it.text) it := by
  refine reads_vector (d := -1) (n := .circ b) (f := circOf E) rfl (Or.inl rfl) fun p hv => ?_
  obtain ⟨m, hm⟩ := hm
  obtain ⟨m4, hm4⟩ := hm4
  have h2 : toInt E (cellValue E.convD (-1) it.text 0) = _ := whole_eq hm
  have h4 : toInt E (cellValue E.convD (-1) it.text 4) = _ := whole_eq hm4
  unfold readCirc
  rw [val_ok (hv 0 (by decide : 0 < 7)), val_ok (hv 1 (by decide : 1 < 7)), val_ok (hv 2 (by decide : 2 < 7)), val_ok (hv 3 (by decide : 3 < 7)), val_ok (hv 4 (by decide : 4 < 7)),
    val_ok (hv 5 (by decide : 5 < 7)), val_ok (hv 6 (by decide : 6 < 7))]
  dsimp only [bind, Except.bind]
  rw [h2, h4]
  rfl

theorem reads_square (E : Env K) {c : List Line} {b : BdryType} {it : Item} (hm : ∃ m, E.trunc (num E it.text 0) = some m) :
    Reads E.convD 0 (some (-1)) c (.square b) (readSquare E) (fun it => squareOf E it.text) it := by
  refine reads_vector (d := -1) (n := .square b) (f := squareOf E) rfl (Or.inl rfl) fun p hv => ?_
  obtain ⟨m, hm⟩ := hm
  have h2 : toInt E (cellValue E.convD (-1) it.text 0) = _ := whole_eq hm
  unfold readSquare
  rw [val_ok (hv 0 (by decide : 0 < 6)), val_ok (hv 1 (by decide : 1 < 6)), val_ok (hv 2 (by decide : 2 < 6)), val_ok (hv 3 (by decide : 3 < 6)), val_ok (hv 4 (by decide : 4 < 6)),
    val_ok (hv 5 (by decide : 5 < 6))]
  dsimp only [bind, Except.bind]
  rw [h2]
  rfl

theorem reads_triangle (E : Env K) {c : List Line} {b : BdryType} {it : Item} (hm : ∃ m, E.trunc (num E it.text 0) = some m) :
    Reads E.convD 0 (some (-1)) c (.triangle b) (readTriangle E) (fun it => triangleOf E it.text) it := by
  refine reads_vector (d := -1) (n := .triangle b) (f := triangleOf E) rfl (Or.inl rfl) fun p hv => ?_
  obtain ⟨m, hm⟩ := hm
  have h2 : toInt E (cellValue E.convD (-1) it.text 0) = _ := whole_eq hm
  unfold readTriangle
  rw [val_ok (hv 0 (by decide : 0 < 6)), val_ok (hv 1 (by decide : 1 < 6)), val_ok (hv 2 (by decide : 2 < 6)), val_ok (hv 3 (by decide : 3 < 6)), val_ok (hv 4 (by decide : 4 < 6)),
    val_ok (hv 5 (by decide : 5 < 6))]
  dsimp only [bind, Except.bind]
  rw [h2]
  rfl

theorem reads_csv {c : List Line} {b : BdryType} {it : Item} (hw : word it.text ≠ []) :
    Reads convS [] none c (.csv b) readCsv (fun it => (csvOf it.text : BDef K)) it := by
  refine reads_scalar (n := .csv b) (f := csvOf) rfl (convS_word hw) fun p hp => ?_
  unfold readCsv
  rw [hp]
  rfl

theorem reads_pairs (E : Env K) {c : List Line} {it : Item} (hne : it.rows ≠ []) (hl : ∀ l ∈ it.rows, Filled E.convI 2 l) :
    Reads E.convI 0 none c .fixedEdges (fun p => eachRow (pairRow p) p.nrow 0) (fun it => it.rows.map fun l => (index E l 0, index E l 1)) it := by
  refine reads_matrix (n := .fixedEdges) (d := 0) rfl hne (Or.inr ⟨rfl, hl⟩) fun p j l _ hv => ?_
  unfold pairRow
  rw [val2_ok (hv 0 (by decide)), val2_ok (hv 1 (by decide))]
  rfl

theorem reads_layer (E : Env K) {c : List Line} {it : Item} (hf : Filled E.convD 7 it.text) (hm : ∃ m, E.trunc (num E it.text 4) = some m) :
    Reads E.convD 0 none c .layers (readLayer E) (fun it => layerOf E it.text) it := by
  refine reads_vector (d := -1) (n := .layers) rfl (Or.inr ⟨rfl, hf⟩) fun p hv => ?_
  obtain ⟨m, hm⟩ := hm
  have h2 : toInt E (cellValue E.convD (-1) it.text 4) = _ := whole_eq hm
  unfold readLayer
  rw [val_ok (hv 0 (by decide)), val_ok (hv 1 (by decide)), val_ok (hv 2 (by decide)), val_ok (hv 3 (by decide)), val_ok (hv 4 (by decide)),
    val_ok (hv 5 (by decide)), val_ok (hv 6 (by decide))]
  dsimp only [bind, Except.bind]
  rw [h2]
  rfl

theorem singles_mem {n : Name} {its : List Item} {it : Item} (h : it ∈ entriesOf n its) : it.text ∈ singles n its := List.mem_map_of_mem h

theorem tables_mem {n : Name} {its : List Item} {it : Item} (h : it ∈ entriesOf n its) : it.rows ∈ tables n its := List.mem_map_of_mem h

theorem foldl_extent (vs : List (Pt K)) (e : K) : vs.foldl (fun e v => max (max e |v.x|) |v.y|) e = (vs.flatMap fun v => [|v.x|, |v.y|]).foldl max e := by
  induction vs generalizing e with
  | nil => rfl
  | cons v vs ih => simp [ih]

variable {E : Env K} {c : List Line} {its : List Item} {L : List Name} {r : Reader K}

theorem mandatory_inv (hw : WellWritten E its) (h : Inv c its [] r) :
    ∃ r', mandatory c r = .ok ((valueOr (some ∘ word) [] .outPrefix its, valueOr (some ∘ word) [] .outFormat its), r') ∧ Inv c its [.size, .outFormat, .outPrefix] r' ∧
      getValue (r'.S .size) = .ok (valueOr (some ∘ word) [] .size its) := by
  have hR : ∀ n ∈ [Name.outPrefix, .outFormat, .size], ∀ it ∈ entriesOf n its, Reads convS [] none c n getValue (fun it => word it.text) it := by
    intro n hn it hit
    refine reads_scalar (f := word) ?_ (convS_word (hw.texts n (by clear hit; revert n; decide) _ (singles_mem hit))) fun p hp => hp
    clear hit; revert n; decide
  have hv : ∀ n it as, entriesOf n its = it :: as → valueOr (some ∘ word) [] n its = word it.text := by
    intro n it as h
    unfold valueOr singles
    rw [h]
    rfl
  rcases askS_inv (n := .outPrefix) rfl h (by decide) hw.ok (hR _ (by decide)) with ⟨h1, -⟩ | ⟨it1, as1, r1, a1, a2, a3, a4, a5⟩
  · exact (hw.needed _ (by decide) h1).elim
  rcases askS_inv (n := .outFormat) rfl a3 (by decide) hw.ok (hR _ (by decide)) with ⟨h1, -⟩ | ⟨it2, as2, r2, b1, b2, b3, b4, b5⟩
  · exact (hw.needed _ (by decide) h1).elim
  rcases askS_inv (n := .size) rfl b3 (by decide) hw.ok (hR _ (by decide)) with ⟨h1, -⟩ | ⟨it3, as3, r3, c1, c2, c3, c4, c5⟩
  · exact (hw.needed _ (by decide) h1).elim
  refine ⟨r3, ?_, c3, ?_⟩
  · have e1 : getValue (r2.S .outPrefix) = .ok (word it1.text) := by rw [b5 _ (by decide)]; exact a4
    have e2 : getValue (r2.S .outFormat) = .ok (word it2.text) := b4
    unfold mandatory
    rw [a2]
    dsimp only [bind, Except.bind]
    simp only [Bool.not_true, Bool.false_eq_true, if_false]
    rw [b2]
    dsimp only
    simp only [Bool.not_true, Bool.false_eq_true, if_false]
    rw [e1, e2]
    dsimp only
    rw [c2]
    dsimp only
    simp only [Bool.not_true, Bool.false_eq_true, if_false]
    rw [hv _ _ _ a1, hv _ _ _ b1]
    rfl
  · rw [hv _ _ _ c1]
    exact c4

theorem initVertices_inv (big : K) (hw : WellWritten E its) (h : Inv c its L r) (hL : .vertices ∉ L) :
    ∃ r', initVertices E big c r = .ok ((vertsOf E false .vertices its, extentOf E big its), r') ∧ Inv c its (.vertices :: L) r' ∧ r'.S = r.S := by
  have hR : ∀ it ∈ entriesOf .vertices its, Reads E.convD 0 (some (-1)) c .vertices (fun p => eachRow (vertRow false p) p.nrow 0) (fun it => it.rows.map (vertexOf E false)) it :=
    fun it hit => have := hw.verts .vertices (by decide) _ (tables_mem hit); reads_vert E false rfl rfl this.1 this.2
  rcases askD_inv trivial h hL hw.ok hR with ⟨h1, r', h2, h3, h4⟩ | ⟨it, as, r', h1, h2, h3, h4, h5⟩
  · refine ⟨r', ?_, h3, h4⟩
    unfold initVertices
    rw [h2]
    have e1 : tables .vertices its = [] := by unfold tables; rw [h1]; rfl
    unfold vertsOf extentOf
    rw [e1]
    rfl
  · refine ⟨r', ?_, h3, h5⟩
    have has : as = [] := by
      have := hw.once .vertices (by decide)
      rw [h1] at this
      simpa using this
    have e1 : tables .vertices its = [it.rows] := by unfold tables; rw [h1, has]; rfl
    have e2 : vertsOf E false .vertices its = it.rows.map (vertexOf E false) := by unfold vertsOf; rw [e1]; simp
    unfold initVertices
    rw [h2]
    dsimp only [bind, Except.bind] at h4 ⊢
    simp only [if_true]
    rw [h4]
    dsimp only
    unfold extentOf
    rw [e1, if_neg (by simp), e2]
    have e3 := foldl_extent ((it.rows.map (vertexOf E false)).map (·.xy)) 0
    rw [List.flatMap_map] at e3
    rw [← e3]
    rfl

theorem initFixedVertices_inv (hw : WellWritten E its) (h : Inv c its L r) (hL : .fixedVerts ∉ L) :
    ∃ r', initFixedVertices E c r = .ok (vertsOf E true .fixedVerts its, r') ∧ Inv c its (.fixedVerts :: L) r' ∧ r'.S = r.S := by
  have hR : ∀ it ∈ entriesOf .fixedVerts its, Reads E.convD 0 (some (-1)) c .fixedVerts (fun p => eachRow (vertRow true p) p.nrow 0) (fun it => it.rows.map (vertexOf E true)) it :=
    fun it hit => have := hw.verts .fixedVerts (by decide) _ (tables_mem hit); reads_vert E true rfl rfl this.1 this.2
  rcases askD_inv trivial h hL hw.ok hR with ⟨h1, r', h2, h3, h4⟩ | ⟨it, as, r', h1, h2, h3, h4, h5⟩
  · refine ⟨r', ?_, h3, h4⟩
    unfold initFixedVertices
    rw [h2]
    have e1 : tables .fixedVerts its = [] := by unfold tables; rw [h1]; rfl
    unfold vertsOf
    rw [e1]
    rfl
  · refine ⟨r', ?_, h3, h5⟩
    have has : as = [] := by
      have := hw.once .fixedVerts (by decide)
      rw [h1] at this
      simpa using this
    have e1 : tables .fixedVerts its = [it.rows] := by unfold tables; rw [h1, has]; rfl
    have e2 : vertsOf E true .fixedVerts its = it.rows.map (vertexOf E true) := by unfold vertsOf; rw [e1]; simp
    unfold initFixedVertices
    rw [h2]
    dsimp only [bind, Except.bind] at h4 ⊢
    simp only [if_true]
    rw [h4, e2]
    rfl

end Cf
end TQ
