import Verif.QuadTree.Spec
import Verif.Geometry.UnitProps

/-! # C199: search trees at another place and in another unit -/

set_option linter.unusedSectionVars false

namespace TQ
open GeoSpec QT
variable {α K : Type*} [Field K] [LinearOrder K] [IsStrictOrderedRing K]

/-- A shift by `t` and a change of the unit by the factor `a`, without a turn. -/
def GeoSpec.zoom (a : K) (t : Pt K) : Similarity K := ⟨a, 0, t⟩
/-- The square of a tree at another place. -/
def GeoSpec.zoomBox (a : K) (t : Pt K) (b : Box K) : Box K := ⟨(zoom a t).at b.c, a * b.s⟩

theorem zoom_at (a : K) (t p : Pt K) : (zoom a t).at p = ⟨a * p.x + t.x, a * p.y + t.y⟩ := by simp [zoom, Similarity.at]
theorem zoom_lo (a : K) (t : Pt K) (b : Box K) : (zoomBox a t b).lo = (zoom a t).at b.lo := by
  refine Pt.ext' ?_ ?_ <;> simp only [zoomBox, Box.lo, zoom_at] <;> ring
theorem zoom_up (a : K) (t : Pt K) (b : Box K) : (zoomBox a t b).up = (zoom a t).at b.up := by
  refine Pt.ext' ?_ ?_ <;> simp only [zoomBox, Box.up, zoom_at] <;> ring
theorem box_ext {b c : Box K} (hx : b.c.x = c.c.x) (hy : b.c.y = c.c.y) (hs : b.s = c.s) : b = c := by
  rcases b with ⟨⟨x, y⟩, s⟩; rcases c with ⟨⟨x', y'⟩, s'⟩; simp_all
theorem zoom_ch0 (a : K) (t : Pt K) (b : Box K) : (zoomBox a t b).ch0 = zoomBox a t b.ch0 := by
  refine box_ext ?_ ?_ ?_ <;> simp only [zoomBox, Box.ch0, zoom_at] <;> ring
theorem zoom_ch1 (a : K) (t : Pt K) (b : Box K) : (zoomBox a t b).ch1 = zoomBox a t b.ch1 := by
  refine box_ext ?_ ?_ ?_ <;> simp only [zoomBox, Box.ch1, zoom_at] <;> ring
theorem zoom_ch2 (a : K) (t : Pt K) (b : Box K) : (zoomBox a t b).ch2 = zoomBox a t b.ch2 := by
  refine box_ext ?_ ?_ ?_ <;> simp only [zoomBox, Box.ch2, zoom_at] <;> ring
theorem zoom_ch3 (a : K) (t : Pt K) (b : Box K) : (zoomBox a t b).ch3 = zoomBox a t b.ch3 := by
  refine box_ext ?_ ?_ ?_ <;> simp only [zoomBox, Box.ch3, zoom_at] <;> ring

section
variable {a : K} (ha : 0 < a) (t : Pt K)
include ha

theorem zoom_rect (p lo up : Pt K) : inOnRect ((zoom a t).at p) ((zoom a t).at lo) ((zoom a t).at up) = inOnRect p lo up := by
  unfold inOnRect
  simp only [zoom_at, add_le_add_iff_right, mul_le_mul_iff_right₀ ha]
theorem zoom_overlap (p q r s : Pt K) : rectOverlap ((zoom a t).at p) ((zoom a t).at q) ((zoom a t).at r) ((zoom a t).at s) = rectOverlap p q r s := by
  unfold rectOverlap
  simp only [zoom_at, add_le_add_iff_right, mul_le_mul_iff_right₀ ha]
theorem zoom_has (b : Box K) (p : Pt K) : (zoomBox a t b).has ((zoom a t).at p) = b.has p := by
  unfold Box.has
  rw [zoom_lo, zoom_up, zoom_rect ha]

omit ha in
theorem zoom_pass {g g' : Box K → QT α → QT α × Bool} (h : ∀ b q, g' (zoomBox a t b) q = g b q) (b : Box K) (c : Kids α) : passKids g' (zoomBox a t b) c = passKids g b c := by
  unfold passKids
  simp only [zoom_ch0, zoom_ch1, zoom_ch2, zoom_ch3, h]

omit ha in
theorem zoom_dist {g g' : α → Box K → QT α → QT α × Bool} (h : ∀ x b q, g' x (zoomBox a t b) q = g x b q) (b : Box K) :
    ∀ (l : List α) (n : Nat) (c : Kids α), distribute g' (zoomBox a t b) l n c = distribute g b l n c
  | [], _, _ => rfl
  | x :: l, n, c => by
    unfold distribute
    simp only [zoom_pass t (h x)]
    split_ifs
    · exact zoom_dist h b l _ _
    · rfl

theorem zoom_add (mi : Nat) (pos : α → Pt K) : ∀ (d : Nat) (x : α) (b : Box K) (q : QT α), add mi (fun x => (zoom a t).at (pos x)) d x (zoomBox a t b) q = add mi pos d x b q
  | 0, x, b, .leaf n l => by unfold add; rw [zoom_has ha]
  | 0, _, _, .node .. => rfl
  | d + 1, x, b, .leaf n l => by
    unfold add
    rw [zoom_has ha, zoom_dist t (g := add mi pos d) (fun x b q => zoom_add mi pos d x b q)]
  | d + 1, x, b, .node n c0 c1 c2 c3 => by
    unfold add
    rw [zoom_has ha, zoom_pass t (g := add mi pos d x) (fun b q => zoom_add mi pos d x b q)]

theorem zoom_remove [DecidableEq α] (mi : Nat) (pos : α → Pt K) (x : α) : ∀ (q : QT α) (b : Box K), remove mi (fun x => (zoom a t).at (pos x)) x (zoomBox a t b) q = remove mi pos x b q
  | .leaf n l, b => by unfold remove; rw [zoom_has ha]
  | .node n c0 c1 c2 c3, b => by
    unfold remove
    simp only [zoom_has ha, zoom_ch0, zoom_ch1, zoom_ch2, zoom_ch3, zoom_remove mi pos x c0, zoom_remove mi pos x c1, zoom_remove mi pos x c2, zoom_remove mi pos x c3]

theorem zoom_getRect (pos : α → Pt K) (lo up : Pt K) : ∀ (q : QT α) (qf : α → Bool) (b : Box K),
    getRect (fun x => (zoom a t).at (pos x)) ((zoom a t).at lo) ((zoom a t).at up) qf (zoomBox a t b) q = getRect pos lo up qf b q
  | .leaf n l, qf, b => by unfold getRect; rw [zoom_lo, zoom_up, zoom_overlap ha]
  | .node n c0 c1 c2 c3, qf, b => by
    unfold getRect
    simp only [zoom_lo, zoom_up, zoom_overlap ha, zoom_ch0, zoom_ch1, zoom_ch2, zoom_ch3, zoom_rect ha]
    simp only [zoom_getRect pos lo up c0, zoom_getRect pos lo up c1, zoom_getRect pos lo up c2, zoom_getRect pos lo up c3]

theorem zoom_query (pos : α → Pt K) (c : Pt K) (r : K) : circQuery (fun x => (zoom a t).at (pos x)) ((zoom a t).at c) (a * r * (a * r)) = circQuery pos c (r * r) := by
  funext x
  unfold circQuery
  have h2 : (0 : K) < a ^ 2 := by positivity
  rw [normSq_at, show (zoom a t).factor = a ^ 2 by simp [zoom, Similarity.factor], show a * r * (a * r) = a ^ 2 * (r * r) by ring]
  simp only [mul_lt_mul_iff_right₀ h2]

theorem zoom_getCirc (pos : α → Pt K) (c : Pt K) (r : K) : ∀ (q : QT α) (qf : α → Bool) (b : Box K),
    getCirc (fun x => (zoom a t).at (pos x)) ((zoom a t).at c) (a * r) qf (zoomBox a t b) q = getCirc pos c r qf b q
  | .leaf n l, qf, b => by
    have e1 : (⟨((zoom a t).at c).x - 14142 / 10000 * (a * r), ((zoom a t).at c).y - 14142 / 10000 * (a * r)⟩ : Pt K) = (zoom a t).at ⟨c.x - 14142 / 10000 * r, c.y - 14142 / 10000 * r⟩ := by
      refine Pt.ext' ?_ ?_ <;> simp only [zoom_at] <;> ring
    have e2 : (⟨((zoom a t).at c).x + 14142 / 10000 * (a * r), ((zoom a t).at c).y + 14142 / 10000 * (a * r)⟩ : Pt K) = (zoom a t).at ⟨c.x + 14142 / 10000 * r, c.y + 14142 / 10000 * r⟩ := by
      refine Pt.ext' ?_ ?_ <;> simp only [zoom_at] <;> ring
    unfold getCirc
    rw [e1, e2, zoom_lo, zoom_up, zoom_overlap ha]
  | .node n c0 c1 c2 c3, qf, b => by
    have e1 : (⟨((zoom a t).at c).x - 14142 / 10000 * (a * r), ((zoom a t).at c).y - 14142 / 10000 * (a * r)⟩ : Pt K) = (zoom a t).at ⟨c.x - 14142 / 10000 * r, c.y - 14142 / 10000 * r⟩ := by
      refine Pt.ext' ?_ ?_ <;> simp only [zoom_at] <;> ring
    have e2 : (⟨((zoom a t).at c).x + 14142 / 10000 * (a * r), ((zoom a t).at c).y + 14142 / 10000 * (a * r)⟩ : Pt K) = (zoom a t).at ⟨c.x + 14142 / 10000 * r, c.y + 14142 / 10000 * r⟩ := by
      refine Pt.ext' ?_ ?_ <;> simp only [zoom_at] <;> ring
    unfold getCirc
    dsimp only
    rw [e1, e2, zoom_lo, zoom_up, zoom_overlap ha, zoom_query ha, zoom_ch0, zoom_ch1, zoom_ch2, zoom_ch3, zoom_getCirc pos c r c0, zoom_getCirc pos c r c1, zoom_getCirc pos c r c2,
      zoom_getCirc pos c r c3]

/-- **C199, the search trees.** If the square of a tree is shifted and stretched with its items, the tree gets the same cells, and every query reports the same items in the same order. -/
theorem C199_tree [DecidableEq α] (mi d : Nat) (pos : α → Pt K) (b : Box K) (q : QT α) :
    (∀ x, add mi (fun x => (zoom a t).at (pos x)) d x (zoomBox a t b) q = add mi pos d x b q) ∧
    (∀ x, remove mi (fun x => (zoom a t).at (pos x)) x (zoomBox a t b) q = remove mi pos x b q) ∧
    (∀ lo up, getRect (fun x => (zoom a t).at (pos x)) ((zoom a t).at lo) ((zoom a t).at up) (rectQuery (fun x => (zoom a t).at (pos x)) ((zoom a t).at lo) ((zoom a t).at up)) (zoomBox a t b) q =
      getRect pos lo up (rectQuery pos lo up) b q) ∧
    ∀ c r, getCirc (fun x => (zoom a t).at (pos x)) ((zoom a t).at c) (a * r) (circQuery (fun x => (zoom a t).at (pos x)) ((zoom a t).at c) (a * r * (a * r))) (zoomBox a t b) q =
      getCirc pos c r (circQuery pos c (r * r)) b q := by
  refine ⟨fun x => zoom_add ha t mi pos d x b q, fun x => zoom_remove ha t mi pos x q b, fun lo up => ?_, fun c r => ?_⟩
  · rw [show rectQuery (fun x => (zoom a t).at (pos x)) ((zoom a t).at lo) ((zoom a t).at up) = rectQuery pos lo up from funext fun x => zoom_rect ha t _ _ _]
    exact zoom_getRect ha t pos lo up q _ b
  · rw [zoom_query ha]
    exact zoom_getCirc ha t pos c r q _ b

end

/-- The positions of two items. -/
def PlaceTree.pos : Bool → Pt ℚ := fun x => if x then ⟨1, 1⟩ else ⟨-1, 1⟩
/-- A tree of one item per leaf with both items, at the place `t`; the square is not shifted. -/
def PlaceTree.tree (t : Pt ℚ) : QT Bool :=
  (add 1 (fun x => (zoom 1 t).at (PlaceTree.pos x)) 3 true ⟨⟨0, 0⟩, 32⟩ (add 1 (fun x => (zoom 1 t).at (PlaceTree.pos x)) 3 false ⟨⟨0, 0⟩, 32⟩ QT.empty).1).1

/-- **C199, squares that stay.** The square of a mesh is centred at the origin wherever the domain is. Then a shift of the items can change the order in which a query reports them. -/
theorem C199_order_violated : ∃ t : Pt ℚ,
    getCirc PlaceTree.pos ⟨0, 0⟩ 9 (circQuery PlaceTree.pos ⟨0, 0⟩ 81) ⟨⟨0, 0⟩, 32⟩ (PlaceTree.tree ⟨0, 0⟩) = [true, false] ∧
    getCirc (fun x => (zoom 1 t).at (PlaceTree.pos x)) ((zoom 1 t).at ⟨0, 0⟩) 9 (circQuery (fun x => (zoom 1 t).at (PlaceTree.pos x)) ((zoom 1 t).at ⟨0, 0⟩) 81) ⟨⟨0, 0⟩, 32⟩ (PlaceTree.tree t) =
      [false, true] := by
  refine ⟨⟨8, 6⟩, ?_, ?_⟩ <;> decide +kernel

example := C199_tree (a := (2 : ℚ)) (by norm_num) ⟨5, -2⟩ 1 3 PlaceTree.pos ⟨⟨0, 0⟩, 32⟩ (PlaceTree.tree ⟨0, 0⟩)

end TQ

#print axioms TQ.C199_tree
#print axioms TQ.C199_order_violated
