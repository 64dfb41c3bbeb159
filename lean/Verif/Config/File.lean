import Verif.Config.Construct
import Verif.Reader.Props

/-!
# Whole input files
-/

set_option linter.unusedSectionVars false

namespace TQ
namespace Cf
open PR PRSpec CfSpec

variable {K : Type} [Field K] [LinearOrder K] {E : Env K} {c : List Line}

theorem shaped_new : Shaped (Reader.new : Reader K) := ⟨fun n => shape_new n _, fun n => shape_new n _, fun n => shape_new n _, fun n => shape_new n _, fun n => shape_new n _⟩

theorem shaped_enter {r : Reader K} (h : Shaped r) (s e : Nat) : Shaped (r.enter s e) :=
  ⟨fun n => shape_enter (h.D n) s e, fun n => shape_enter (h.I n) s e, fun n => shape_enter (h.S n) s e, fun n => shape_enter (h.N n) s e, fun n => shape_enter (h.B n) s e⟩

theorem inv_enter {r : Reader K} {its : List Item} (h : Shaped r) {s e : Nat} (ha : At c ⟨s, e, 0⟩ its) : Inv c its [] (r.enter s e) :=
  ⟨shaped_enter h s e, fun _ _ => ⟨ha, ha, ha, ha, ha⟩⟩

theorem entriesOf_other (n : Name) (l : Line) (its : List Item) : entriesOf n (.other l :: its) = entriesOf n its := by simp [entriesOf, Item.name]

theorem singles_other (n : Name) (l : Line) (its : List Item) : singles n (.other l :: its) = singles n its := by unfold singles; rw [entriesOf_other]

theorem tables_other (n : Name) (l : Line) (its : List Item) : tables n (.other l :: its) = tables n its := by unfold tables; rw [entriesOf_other]

theorem bdriesOf_other (E : Env K) (b : BdryType) (l : Line) (its : List Item) : bdriesOf E b (.other l :: its) = bdriesOf E b its := by
  unfold bdriesOf; simp only [singles_other, tables_other]

theorem described_other (E : Env K) (big : K) (l : Line) (its : List Item) : described E big (.other l :: its) = described E big its := by
  unfold described extentOf vertsOf valueOr; simp only [singles_other, tables_other, bdriesOf_other]

theorem wellWritten_other {l : Line} {its : List Item} (hl : NoKey l) (h : WellWritten E its) : WellWritten E (.other l :: its) where
  ok := List.forall_mem_cons.2 ⟨hl, h.ok⟩
  once := by simp only [entriesOf_other]; exact h.once
  exterior := by rw [bdriesOf_other]; exact h.exterior
  needed := by simp only [entriesOf_other]; exact h.needed
  texts := by simp only [singles_other]; exact h.texts
  color := by simp only [singles_other]; exact h.color
  refinements := by simp only [singles_other]; exact h.refinements
  smoothing := by simp only [singles_other]; exact h.smoothing
  smoothLayers := by simp only [singles_other]; exact h.smoothLayers
  verts := by simp only [tables_other]; exact h.verts
  coords := by simp only [tables_other]; exact h.coords
  edges := by simp only [tables_other]; exact h.edges
  fixedEdges := by simp only [tables_other]; exact h.fixedEdges
  layers := by simp only [singles_other]; exact h.layers
  marks := by simp only [singles_other]; exact h.marks
  circ := by simp only [singles_other]; exact h.circ

theorem readLoop_blocks (E : Env K) (big : K) (c : List Line) {sk ek : Line} {pos : Nat} {bs : List (Nat × Nat)} (hB : Blocks sk ek c pos bs) :
    ∀ (itss : List (List Item)) (k : Nat) (b : Block) (r : Reader K), List.Forall₂ (fun p its => At c ⟨p.1, p.2, 0⟩ its ∧ WellWritten E its) bs itss →
      bs.length < k → b.startKey = sk → b.endKey = ek → b.cur.be ≤ c.length → b.pos c = pos → Shaped r →
      readLoop E big c k b r = .ok (itss.map (described E big)) := by
  induction hB with
  | nil hno =>
    intro itss k b r hf hk h1 h2 hb hp hr
    cases hf
    obtain ⟨k, rfl⟩ : ∃ k', k = k' + 1 := ⟨k - 1, by simp at hk; omega⟩
    rcases queryBlock_spec c b hb with ⟨s, e, hn, -⟩ | ⟨-, cc, hq, -⟩
    · rw [h1, h2, hp] at hn
      exact (hno _ _ hn).elim
    · unfold readLoop
      rw [hq]
      rfl
  | @cons pos s e bs hn _ ih =>
    intro itss k b r hf hk h1 h2 hb hp hr
    cases hf with
    | @cons _ its _ itss hh ht =>
    obtain ⟨k, rfl⟩ : ∃ k', k = k' + 1 := ⟨k - 1, by simp at hk; omega⟩
    rcases queryBlock_spec c b hb with ⟨s', e', hn', hlt, ix, hq⟩ | ⟨hno, -⟩
    · rw [h1, h2, hp] at hn'
      obtain rfl := first_unique hn.1 hn'.1
      obtain rfl := first_unique hn.2 hn'.2
      obtain ⟨r', hc, hr'⟩ := construct_inv big hh.2 (inv_enter hr hh.1)
      have hi := ih itss k { b with cur := ⟨s, e, ix⟩, paras := b.paras.map fun _ => ⟨s, e, 0⟩ } r' ht (by simpa using hk) h1 h2 hlt.le
        (by unfold Block.pos; rw [if_pos hlt]) hr'
      unfold readLoop
      rw [hq]
      dsimp only
      rw [hc]
      dsimp only [bind, Except.bind]
      rw [hi]
      rfl
    · rw [h1, h2, hp] at hno
      exact (hno _ _ hn).elim

/-- The mesh definition without reading its entries. -/
def seg (m : MeshText) : Seg := ⟨m.gap, m.pre ++ "Define mesh:".toList ++ m.rest, m.items.flatMap Item.lines, m.en⟩

theorem seg_ok {m : MeshText} (h : m.OK) : SegOK "Define mesh:".toList "End mesh".toList (seg m) := by
  obtain ⟨h1, -, -, h4, h5, h6⟩ := h
  exact ⟨h1, ⟨m.pre, m.rest, rfl⟩, h4, h5, h6⟩

theorem layout_eq (ms : List MeshText) (tail : List Line) : ms.flatMap MeshText.lines ++ tail = layout (ms.map seg) tail := by
  unfold layout
  rw [List.flatMap_map]
  congr 2
  funext m
  simp [MeshText.lines, seg]

/-- The entries of a definition with its first line. -/
def full (m : MeshText) : List Item := .other (m.pre ++ "Define mesh:".toList ++ m.rest) :: m.items

theorem ranges_at (E : Env K) (tail : List Line) : ∀ (ms : List MeshText) (pre : List Line), (∀ m ∈ ms, m.OK ∧ WellWritten E m.items) →
    List.Forall₂ (fun p its => At (pre ++ (ms.flatMap MeshText.lines ++ tail)) ⟨p.1, p.2, 0⟩ its ∧ WellWritten E its) (ranges pre.length (ms.map seg)) (ms.map full)
  | [], _, _ => .nil
  | m :: ms, pre, h => by
    obtain ⟨⟨hm, hw⟩, ht⟩ := List.forall_mem_cons.1 h
    have ih := ranges_at E tail ms (pre ++ m.lines) ht
    have e1 : pre ++ m.lines ++ (ms.flatMap MeshText.lines ++ tail) = pre ++ ((m :: ms).flatMap MeshText.lines ++ tail) := by simp
    have e2 : (pre ++ m.lines).length = pre.length + (seg m).gap.length + (seg m).body.length + 2 := by
      simp [MeshText.lines, seg]; omega
    rw [e1, e2] at ih
    refine .cons ⟨?_, wellWritten_other (fun n => mesh_line hm.2.1 hm.2.2.1) hw⟩ ih
    refine ⟨pre ++ m.gap, m.en :: (ms.flatMap MeshText.lines ++ tail), ?_, ?_, ?_⟩
    · simp [full, MeshText.lines, Item.lines]
    · simp [seg]
    · have e3 : ((full m).flatMap Item.lines).length = (seg m).body.length + 1 := by simp [full, seg, Item.lines]
      rw [e3]
      simp [seg]; omega

theorem ranges_length (o : Nat) (ss : List Seg) : (ranges o ss).length = ss.length := by
  induction ss generalizing o with
  | nil => rfl
  | cons s ss ih => simp [ranges, ih]

theorem readFile_meshes (E : Env K) (big : K) (file : List Line) (ms : List MeshText) (tail : List Line)
    (hc : readContent file = ms.flatMap MeshText.lines ++ tail) (ht : ∀ l ∈ tail, ¬"Define mesh:".toList <:+: l) (hm : ∀ m ∈ ms, m.OK ∧ WellWritten E m.items) :
    readFile E big file = .ok (ms.map fun m => described E big m.items) := by
  have hB := blocks_layout "Define mesh:".toList "End mesh".toList tail ht (ms.map seg) [] 0
    (by rintro s hs; obtain ⟨m, hmm, rfl⟩ := List.mem_map.1 hs; exact seg_ok (hm m hmm).1) le_rfl (by simp)
  rw [← layout_eq] at hB
  have hF := ranges_at E tail ms [] hm
  simp only [List.nil_append] at hB hF
  have hlen : ms.length ≤ (ms.flatMap MeshText.lines ++ tail).length := by
    clear hB hF hc ht hm
    induction ms with
    | nil => simp
    | cons m ms ih =>
      simp only [List.flatMap_cons, List.length_cons, List.length_append, MeshText.lines] at ih ⊢
      omega
  unfold readFile
  dsimp only
  rw [hc]
  rw [readLoop_blocks E big _ hB (ms.map full) _ _ _ hF (by rw [ranges_length, List.length_map]; omega) rfl rfl le_rfl (by simp [Block.pos]) shaped_new]
  rw [List.map_map]
  exact congrArg Except.ok (List.map_congr_left fun m _ => described_other E big _ _)

end Cf
end TQ
