import Verif.Front.Sub
import Verif.Front.Lemmas
import Verif.Domain.Props
import Mathlib.Analysis.Complex.Exponential
import Mathlib.Analysis.Real.Sqrt

/-!
# Properties of the initial front: C29–C33, C85–C88
-/

set_option linter.unusedSectionVars false

namespace TQ
open Fr FrSpec Dom
variable {K : Type*} [Field K] [LinearOrder K]

/-! ## C29 -/

/-- C29: the arrays are parallel, every pair of ids refers to vertices at the end points of its edge
(exchanged iff the edge comes from a neighbour mesh), no two vertices have the same coordinates, and
every vertex is an end point of a collected edge. -/
theorem C29_front_data (nbr : SrcEdge K → List (SrcEdge K)) (bd : List (List (SrcEdge K)))
    (fx : List (SrcEdge K)) :
    let F := collect nbr bd fx
    let calls := collectCalls nbr bd fx
    F.edges = calls.map (·.1) ∧ F.twins = calls.map (·.2) ∧ F.colors = F.edges.map (·.color) ∧
    F.ids.length = F.edges.length ∧
    (∀ i (h : i < F.ids.length) (h' : i < calls.length),
      (F.verts[F.ids[i].1]?).map (·.1) =
        some (if calls[i].2 then calls[i].1.p2 else calls[i].1.p1) ∧
      (F.verts[F.ids[i].2]?).map (·.1) =
        some (if calls[i].2 then calls[i].1.p1 else calls[i].1.p2)) ∧
    (F.verts.map (·.1)).Nodup ∧
    ∀ v ∈ F.verts, ∃ e ∈ F.edges, v.1 = e.p1 ∨ v.1 = e.p2 := by
  intro F calls
  have h : FID.Good F calls := good_collect nbr bd fx
  have hlen : F.ids.length = calls.length := by
    have := congrArg List.length h.ends; simpa using this
  refine ⟨h.edges, h.twins, ?_, ?_, ?_, ?_, ?_⟩
  · rw [h.colors, h.edges, List.map_map]; rfl
  · rw [h.edges, hlen]; simp
  · intro i hi hc
    have hh : (F.ids.map (FID.ends F))[i]'(by simpa using hi) =
        (calls.map callEnds)[i]'(by simpa using hc) := by simp only [h.ends]
    rw [List.getElem_map, List.getElem_map, callEnds_eq] at hh
    obtain ⟨h1, h2⟩ := Prod.mk.inj hh
    unfold callPts at h1 h2
    refine ⟨h1.trans ?_, h2.trans ?_⟩ <;> split_ifs <;> rfl
  · rw [List.nodup_iff_injective_get]
    intro i j hij
    have hi : i.val < F.verts.length := by simpa using i.2
    have hj : j.val < F.verts.length := by simpa using j.2
    have e1 : FID.coord F i.val = some ((F.verts.map (·.1)).get i) := by
      unfold FID.coord; rw [List.getElem?_eq_getElem hi]; simp
    have e2 : FID.coord F j.val = some ((F.verts.map (·.1)).get j) := by
      unfold FID.coord; rw [List.getElem?_eq_getElem hj]; simp
    rw [← hij] at e2
    have := ((h.inv _ _).mpr e1).symm.trans ((h.inv _ _).mpr e2)
    exact Fin.ext (Option.some.inj this)
  · intro v hv
    obtain ⟨c, hc, hh⟩ := h.used v hv
    exact ⟨c.1, by rw [h.edges]; exact List.mem_map_of_mem hc, hh⟩

/-- a triangle -/
def exTri : List (SrcEdge ℚ) :=
  [⟨⟨0, 0⟩, ⟨1, 0⟩, 1, false, false, false⟩, ⟨⟨1, 0⟩, ⟨0, 1⟩, 2, false, false, false⟩,
   ⟨⟨0, 1⟩, ⟨0, 0⟩, 3, false, false, false⟩]
/-- a fixed edge from a corner of the triangle to an interior point -/
def exFix : List (SrcEdge ℚ) := [⟨⟨0, 0⟩, ⟨1 / 4, 1 / 4⟩, 0, true, false, true⟩]
/-- the second edge has two neighbour edges -/
def exNbr (e : SrcEdge ℚ) : List (SrcEdge ℚ) :=
  if e.color = 2 then
    [⟨⟨1 / 2, 1 / 2⟩, ⟨1, 0⟩, 7, false, false, false⟩, ⟨⟨0, 1⟩, ⟨1 / 2, 1 / 2⟩, 7, false, false, false⟩]
  else []

example : (collect exNbr [exTri] exFix).ids = [(0, 1), (1, 2), (2, 3), (3, 0), (0, 4)] ∧
    (collect exNbr [exTri] exFix).twins = [false, true, true, false, false] ∧
    (collect exNbr [exTri] exFix).verts.map (·.1) =
      [⟨0, 0⟩, ⟨1, 0⟩, ⟨1 / 2, 1 / 2⟩, ⟨0, 1⟩, ⟨1 / 4, 1 / 4⟩] := by decide +kernel

/-! ## C30 -/

/-- counts of the calls made for one boundary -/
theorem calls_count (nbr : SrcEdge K → List (SrcEdge K)) (b : List (SrcEdge K))
    (hn : ∀ e ∈ b, nbr e ≠ [] → LeadsBack e.p1 e.p2 (nbr e)) (v : Pt K) :
    ((b.flatMap fun e => if (nbr e).length > 0 then (nbr e).map fun n => (n, true) else
      [(e, false)]).map fun c => (callPts c).2).count v + (b.map (·.p1)).count v =
    ((b.flatMap fun e => if (nbr e).length > 0 then (nbr e).map fun n => (n, true) else
      [(e, false)]).map fun c => (callPts c).1).count v + (b.map (·.p2)).count v := by
  induction b with
  | nil => simp
  | cons e b ih =>
    have ih' := ih fun f hf => hn f (List.mem_cons_of_mem _ hf)
    rw [List.flatMap_cons, List.map_append, List.map_append, List.count_append, List.count_append,
      List.map_cons, List.map_cons, List.count_cons, List.count_cons]
    by_cases hc : (nbr e).length > 0
    · rw [if_pos hc]
      have hlb := hn e (by simp) (by intro h; rw [h] at hc; simp at hc)
      unfold LeadsBack at hlb
      have hcount := List.perm_iff_count.mp hlb v
      rw [List.count_cons, List.count_cons] at hcount
      rw [List.map_map, List.map_map]
      have e1 : (nbr e).map ((fun c => (callPts c).2) ∘ fun n => (n, true)) = (nbr e).map (·.p1) := by
        apply List.map_congr_left; intro n _; rfl
      have e2 : (nbr e).map ((fun c => (callPts c).1) ∘ fun n => (n, true)) = (nbr e).map (·.p2) := by
        apply List.map_congr_left; intro n _; rfl
      rw [e1, e2]
      omega
    · rw [if_neg hc]
      simp only [List.map_cons, List.map_nil, List.count_cons, List.count_nil]
      have e1 : (callPts (e, false)).2 = e.p2 := rfl
      have e2 : (callPts (e, false)).1 = e.p1 := rfl
      rw [e1, e2]
      omega

/-- the boundary calls of a valid domain are closed -/
theorem calls_closed (nbr : SrcEdge K → List (SrcEdge K)) (bd : List (List (SrcEdge K)))
    (fx : List (SrcEdge K)) (hcl : ∀ b ∈ bd, ClosedSrc b)
    (hn : ∀ b ∈ bd, ∀ e ∈ b, nbr e ≠ [] → LeadsBack e.p1 e.p2 (nbr e))
    (hf1 : ∀ b ∈ bd, ∀ e ∈ b, e.fixed = false ∧ ∀ n ∈ nbr e, n.fixed = false)
    (hf2 : ∀ e ∈ fx, e.fixed = true) :
    let cs := (collectCalls nbr bd fx).filter fun c => !c.1.fixed
    (cs.map fun c => (callPts c).2).Perm (cs.map fun c => (callPts c).1) := by
  intro cs
  have hcs : cs = bd.flatMap fun b => b.flatMap fun e =>
      if (nbr e).length > 0 then (nbr e).map fun n => (n, true) else [(e, false)] := by
    change (collectCalls nbr bd fx).filter _ = _
    unfold collectCalls
    rw [List.filter_append]
    have h1 : (fx.map fun e => (e, false)).filter (fun c : SrcEdge K × Bool => !c.1.fixed) = [] := by
      rw [List.filter_eq_nil_iff]
      intro c hc
      obtain ⟨e, he, rfl⟩ := List.mem_map.mp hc
      simp [hf2 e he]
    rw [h1, List.append_nil, List.filter_eq_self]
    intro c hc
    obtain ⟨b, hb, hc⟩ := List.mem_flatMap.mp hc
    obtain ⟨e, he, hc⟩ := List.mem_flatMap.mp hc
    split_ifs at hc
    · obtain ⟨n, hn, rfl⟩ := List.mem_map.mp hc
      simp [(hf1 b hb e he).2 n hn]
    · simp at hc; subst hc; simp [(hf1 b hb e he).1]
  rw [hcs]
  clear hcs cs hf1 hf2
  rw [List.perm_iff_count]
  intro v
  induction bd with
  | nil => simp
  | cons b bd ih =>
    rw [List.flatMap_cons, List.map_append, List.map_append, List.count_append, List.count_append,
      ih (fun c hc => hcl c (List.mem_cons_of_mem _ hc)) (fun c hc => hn c (List.mem_cons_of_mem _ hc))]
    have h1 := calls_count nbr b (hn b (by simp)) v
    have h2 := List.perm_iff_count.mp (hcl b (by simp)) v
    omega

theorem forall₂_mem {α β : Type*} {R : α → β → Prop} {l : List α} {m : List β}
    (h : List.Forall₂ R l m) : ∀ a ∈ l, ∃ b ∈ m, R a b := by
  induction h with
  | nil => simp
  | @cons a b l m hab _ ih =>
    intro x hx
    rcases List.mem_cons.mp hx with rfl | hx
    · exact ⟨b, by simp, hab⟩
    · obtain ⟨c, hc, hr⟩ := ih x hx
      exact ⟨c, List.mem_cons_of_mem _ hc, hr⟩

/-- C30: for closed boundaries, whose interfaces to neighbour meshes are covered by neighbour edges, and
for arbitrary fixed edges, the initial front exists as soon as the refinement ends, all its vertex
numbers are valid, every fixed edge occurs in both directions, and every vertex has as many outgoing as
incoming edges. -/
theorem C30_front_balanced (nbr : SrcEdge K → List (SrcEdge K)) (bd : List (List (SrcEdge K)))
    (fx : List (SrcEdge K)) (hcl : ∀ b ∈ bd, ClosedSrc b)
    (hn : ∀ b ∈ bd, ∀ e ∈ b, nbr e ≠ [] → LeadsBack e.p1 e.p2 (nbr e))
    (hf1 : ∀ b ∈ bd, ∀ e ∈ b, e.fixed = false ∧ ∀ n ∈ nbr e, n.fixed = false)
    (hf2 : ∀ e ∈ fx, e.fixed = true)
    (sub : List (MVert K) → FEdge → Option (List (Pt K))) (st : List (MVert K)) :
    ((∀ s e, (sub s e).isSome = true) → (initFront sub st (collect nbr bd fx)).isSome = true) ∧
    ∀ st' es A, initFront sub st (collect nbr bd fx) = some (st', es, A) →
      Balanced es ∧ (∀ e ∈ es, e.v1 < st'.length ∧ e.v2 < st'.length) ∧
      ∀ e ∈ es, e.isFixed = true → ∃ g ∈ es, g.isFixed = true ∧ g.v1 = e.v2 ∧ g.v2 = e.v1 := by
  have hg := good_collect nbr bd fx
  obtain ⟨es0, h0, hfa⟩ := initEdges_calls hg st.length
  unfold initFront
  rw [h0]
  dsimp only
  constructor
  · intro hs
    have : ∀ (es : List FEdge) (s : List (MVert K)),
        (refineEdges (sub (initVerts st (collect nbr bd fx))) s es).isSome = true := by
      intro es
      induction es with
      | nil => intro s; rfl
      | cons e es ih =>
        intro s
        rw [refineEdges]
        split_ifs
        · have := ih s
          rw [Option.isSome_iff_exists] at this
          obtain ⟨q, hq⟩ := this
          rw [hq]; rfl
        · have := hs (initVerts st (collect nbr bd fx)) e
          rw [Option.isSome_iff_exists] at this
          obtain ⟨c, hc⟩ := this
          rw [hc]
          dsimp only
          have := ih (refineEdge c s e).1
          rw [Option.isSome_iff_exists] at this
          obtain ⟨q, hq⟩ := this
          rw [hq]; rfl
    have := this es0 (initVerts st (collect nbr bd fx))
    rw [Option.isSome_iff_exists] at this
    obtain ⟨q, hq⟩ := this
    rw [hq]; rfl
  · intro st' es A h
    cases hr : refineEdges (sub (initVerts st (collect nbr bd fx))) (initVerts st (collect nbr bd fx))
        es0 with
    | none => rw [hr] at h; simp at h
    | some q =>
      rw [hr] at h
      simp only [Option.some.injEq, Prod.mk.injEq] at h
      obtain ⟨rfl, rfl, _⟩ := h
      have hir : InRange (initVerts st (collect nbr bd fx)).length es0 := by
        intro e he
        obtain ⟨c, hc, i, j, rfl, hi, hj⟩ := forall₂_mem hfa e he
        have := coord_some_lt hi
        have := coord_some_lt hj
        unfold initVerts
        simp; omega
      obtain ⟨_, hrange⟩ := refineEdges_range _ _ _ _ _ hr hir
      refine ⟨?_, ?_, ?_⟩
      · intro v
        have hb : bal v (addGhosts q.2) = 0 := by
          rw [addGhosts_bal, refineEdges_bal v _ _ _ _ _ hr]
          exact bal_of_perm (free_perm hg.inv (free_forall₂ hfa)
            (calls_closed nbr bd fx hcl hn hf1 hf2)) v
        rw [bal_count] at hb
        omega
      · intro e he
        obtain ⟨f, hf, h | h⟩ := addGhosts_mem he
        · rw [h]; exact hrange f hf
        · have := hrange f hf; omega
      · intro e he hfix
        have hghost : ∀ f ∈ q.2, f.isFixed = true →
            (⟨f.v2, f.v1, f.color, Flags.add (Flags.add 0 Flags.eIsFixed) Flags.eIsGhost, false⟩ : FEdge)
              ∈ addGhosts q.2 ∧ f ∈ addGhosts q.2 := by
          intro f hf hfx
          constructor <;> · unfold addGhosts; exact List.mem_flatMap.mpr ⟨f, hf, by simp [hfx]⟩
        obtain ⟨f, hf, h | ⟨hfx, h1, h2⟩⟩ := addGhosts_mem he
        · subst h
          exact ⟨_, (hghost e hf hfix).1, by unfold FEdge.isFixed; dsimp only; decide, rfl, rfl⟩
        · exact ⟨f, (hghost f hf hfx).2, hfx, by rw [h2], by rw [h1]⟩

/-- the example: triangle with a fixed edge, second side split by a neighbour mesh; the first side is
refined once -/
def exSub (st : List (MVert ℚ)) (e : FEdge) : Option (List (Pt ℚ)) :=
  let p := vpos st e.v1
  let q := vpos st e.v2
  some (if e.color = 1 then [p, Pt.smul (1 / 2) (p + q), q] else [p, q])

example : (initFront exSub [] (collect exNbr [exTri] exFix)).map (fun r => (r.2.1.map fun e => (e.v1, e.v2), r.2.2)) =
    some ([(0, 5), (5, 1), (1, 2), (2, 3), (3, 0), (4, 0), (0, 4)], 1 / 2) := by decide +kernel

example : ClosedSrc exTri ∧ (∀ e ∈ exTri, exNbr e ≠ [] → LeadsBack e.p1 e.p2 (exNbr e)) := by
  unfold ClosedSrc LeadsBack
  constructor <;> decide +kernel

/-! ## C86: the area of the initial front -/

section
variable [IsStrictOrderedRing K]

theorem subCoords_onLine {norm : Pt K → K} (hn : IsNorm norm) {rho : Pt K → K} {p1 p2 : Pt K}
    (h : p1 ≠ p2) (hpos : ∀ p, 0 < rho p) (fuel : Nat) {coords : List (Pt K)}
    (hc : subCoords norm rho fuel p1 p2 = some coords) :
    ∃ ts : List K, (coords.drop 1).dropLast = ts.map (onLine p1 p2) := by
  obtain ⟨ρ, rev, _, _, he⟩ := subCoords_eq hn h (fun t => hpos _) fuel
  rw [he] at hc
  simp only [Option.map_eq_some_iff] at hc
  obtain ⟨q, _, rfl⟩ := hc
  cases rev
  · simp only [Bool.false_eq_true, if_false]
    exact ⟨_, by rw [← List.map_drop, ← List.map_dropLast]⟩
  · simp only [if_true]
    exact ⟨_, by rw [← List.map_drop, ← List.map_dropLast]⟩

/-- C86: the area of the initial front is the sum of the signed areas of the boundary pieces it was
built from (neighbour edges traversed backwards), whatever the refinement and the fixed edges. -/
theorem C86_front_area (norm : Pt K → K) (hnorm : IsNorm norm) (rho : Pt K → K) (hrho : ∀ p, 0 < rho p)
    (fuel : Nat) (nbr : SrcEdge K → List (SrcEdge K)) (bd : List (List (SrcEdge K)))
    (fx : List (SrcEdge K)) (hcl : ∀ b ∈ bd, ClosedSrc b)
    (hn : ∀ b ∈ bd, ∀ e ∈ b, nbr e ≠ [] → LeadsBack e.p1 e.p2 (nbr e))
    (hf1 : ∀ b ∈ bd, ∀ e ∈ b, e.fixed = false ∧ ∀ n ∈ nbr e, n.fixed = false)
    (hf2 : ∀ e ∈ fx, e.fixed = true)
    (hne : ∀ c ∈ collectCalls nbr bd fx, c.1.p1 ≠ c.1.p2)
    (st st' : List (MVert K)) (es : List FEdge) (A : K)
    (h : initFront (fun s e => subCoords norm rho fuel (vpos s e.v1) (vpos s e.v2)) st
      (collect nbr bd fx) = some (st', es, A)) :
    A = 1 / 2 * (bd.map fun b => (b.map fun e =>
      if nbr e = [] then Pt.cross e.p1 e.p2
      else ((nbr e).map fun n => Pt.cross n.p2 n.p1).sum).sum).sum := by
  have hbal := (C30_front_balanced nbr bd fx hcl hn hf1 hf2
    (fun s e => subCoords norm rho fuel (vpos s e.v1) (vpos s e.v2)) st).2 st' es A h
  have hg := good_collect nbr bd fx
  obtain ⟨es0, h0, hfa⟩ := initEdges_calls hg st.length
  unfold initFront at h
  rw [h0] at h
  dsimp only at h
  cases hr : refineEdges (fun e => subCoords norm rho fuel
      (vpos (initVerts st (collect nbr bd fx)) e.v1) (vpos (initVerts st (collect nbr bd fx)) e.v2))
      (initVerts st (collect nbr bd fx)) es0 with
  | none => rw [hr] at h; simp at h
  | some q =>
    rw [hr] at h
    simp only [Option.some.injEq, Prod.mk.injEq] at h
    obtain ⟨rfl, rfl, rfl⟩ := h
    have hir : InRange (initVerts st (collect nbr bd fx)).length es0 := by
      intro e he
      obtain ⟨c, hc, i, j, rfl, hi, hj⟩ := forall₂_mem hfa e he
      have := coord_some_lt hi
      have := coord_some_lt hj
      unfold initVerts
      simp; omega
    have hon : ∀ e ∈ es0, OnEdge (initVerts st (collect nbr bd fx)) (fun e => subCoords norm rho fuel
      (vpos (initVerts st (collect nbr bd fx)) e.v1) (vpos (initVerts st (collect nbr bd fx)) e.v2)) e := by
      intro e he coords hco
      obtain ⟨c, hc, i, j, rfl, hi, hj⟩ := forall₂_mem hfa e he
      apply subCoords_onLine hnorm _ hrho fuel hco
      dsimp only
      rw [vpos_init st _ hi, vpos_init st _ hj]
      have := hne c hc
      unfold callPts
      split_ifs
      · exact this.symm
      · exact this
    have hperm := perm_of_bal (es := addGhosts q.2) (fun v => by rw [bal_count, hbal.1 v]; simp)
    rw [frontArea_balanced _ _ hperm, addGhosts_cross,
      refineEdges_cross _ _ _ _ _ _ ⟨[], by simp⟩ hir hon hr, crossSum_calls (free_forall₂ hfa)]
    congr 1
    unfold collectCalls
    rw [List.filter_append]
    have h1 : (fx.map fun e => (e, false)).filter (fun c : SrcEdge K × Bool => !c.1.fixed) = [] := by
      rw [List.filter_eq_nil_iff]
      intro c hc
      obtain ⟨e, he, rfl⟩ := List.mem_map.mp hc
      simp [hf2 e he]
    rw [h1, List.append_nil, List.filter_eq_self.mpr]
    · clear * -
      induction bd with
      | nil => simp
      | cons b bd ih =>
        rw [List.flatMap_cons, List.map_append, List.sum_append, ih, List.map_cons, List.sum_cons]
        congr 1
        clear ih
        induction b with
        | nil => simp
        | cons e b ih =>
          rw [List.flatMap_cons, List.map_append, List.sum_append, ih, List.map_cons, List.sum_cons]
          congr 1
          cases hnb : nbr e with
          | nil => simp [callPts]
          | cons n ns => simp [callPts, Function.comp_def]
    · intro c hc
      obtain ⟨b, hb, hc⟩ := List.mem_flatMap.mp hc
      obtain ⟨e, he, hc⟩ := List.mem_flatMap.mp hc
      split_ifs at hc
      · obtain ⟨n, hn, rfl⟩ := List.mem_map.mp hc
        simp [(hf1 b hb e he).2 n hn]
      · simp at hc; subst hc; simp [(hf1 b hb e he).1]

/-- C86, without neighbour meshes: the area of the initial front is the sum of the signed areas of the
boundary polygons. -/
theorem C86_front_area_polygons (norm : Pt K → K) (hnorm : IsNorm norm) (rho : Pt K → K)
    (hrho : ∀ p, 0 < rho p) (fuel : Nat) (bd : List (List (SrcEdge K))) (fx : List (SrcEdge K))
    (hcl : ∀ b ∈ bd, b.map (·.p2) = (b.map (·.p1)).rotate 1)
    (hf1 : ∀ b ∈ bd, ∀ e ∈ b, e.fixed = false) (hf2 : ∀ e ∈ fx, e.fixed = true)
    (hne1 : ∀ b ∈ bd, ∀ e ∈ b, e.p1 ≠ e.p2) (hne2 : ∀ e ∈ fx, e.p1 ≠ e.p2)
    (st st' : List (MVert K)) (es : List FEdge) (A : K)
    (h : initFront (fun s e => subCoords norm rho fuel (vpos s e.v1) (vpos s e.v2)) st
      (collect (fun _ => []) bd fx) = some (st', es, A)) :
    A = (bd.map fun b => polygonArea (b.map (·.p1))).sum := by
  have hp : ∀ b ∈ bd, polygonArea (b.map (·.p1)) =
      1 / 2 * (b.map fun e => Pt.cross e.p1 e.p2).sum := by
    intro b hb
    have h1 := C15_fan (b.map (·.p1)) 0
    rw [h1]
    unfold GeoSpec.cyclicSum GeoSpec.cyclicPairs
    rw [← hcl b hb, List.zip_map', List.map_map]
    clear * -
    induction b with
    | nil => simp
    | cons e b ih =>
      simp only [List.map_cons, List.sum_cons] at ih ⊢
      rw [ih]
      simp [GeoSpec.triArea, Pt.cross]; ring
  have hA := C86_front_area norm hnorm rho hrho fuel (fun _ => []) bd fx
    (fun b hb => by unfold ClosedSrc; rw [hcl b hb]; exact List.rotate_perm _ 1)
    (fun b hb e he hh => absurd rfl hh) (fun b hb e he => ⟨hf1 b hb e he, by simp⟩) hf2
    (by
      intro c hc
      unfold collectCalls at hc
      rcases List.mem_append.mp hc with hc | hc
      · obtain ⟨b, hb, hc⟩ := List.mem_flatMap.mp hc
        obtain ⟨e, he, hc⟩ := List.mem_flatMap.mp hc
        simp at hc; subst hc; exact hne1 b hb e he
      · obtain ⟨e, he, rfl⟩ := List.mem_map.mp hc
        exact hne2 e he)
    st st' es A h
  rw [hA]
  simp only [if_true]
  clear * - hp
  induction bd with
  | nil => simp
  | cons b bd ih =>
    simp only [List.map_cons, List.sum_cons]
    rw [hp b (by simp), ← ih fun c hc => hp c (List.mem_cons_of_mem _ hc)]
    ring


/-! ## C31 and C32: refinement of an edge -/

theorem pairwise_ends {ts : List K} (h : ts.IsChain (· < ·)) : ts.Pairwise (· < ·) :=
  List.isChain_iff_pairwise.mp h

theorem min_cases (len m : K) :
    (cppMIN len m = len ∨ cppMIN len m = m) ∧ cppMIN len m ≤ len ∧ cppMIN len m ≤ m := by
  unfold cppMIN
  split_ifs with h
  · exact ⟨Or.inl rfl, le_refl _, h.le⟩
  · exact ⟨Or.inr rfl, not_lt.mp h, le_refl _⟩

theorem onLine_norm {norm : Pt K → K} (hn : IsNorm norm) {p q : Pt K} {s t : K} (hst : s ≤ t) :
    norm (onLine p q t - onLine p q s) = (t - s) * norm (q - p) := by
  obtain ⟨h1, h2⟩ := hn (onLine p q t - onLine p q s)
  obtain ⟨h3, h4⟩ := hn (q - p)
  have e : Pt.normSq (onLine p q t - onLine p q s) = (t - s) * (t - s) * Pt.normSq (q - p) := by
    unfold onLine Pt.normSq; simp; ring
  rw [e, ← h4] at h2
  have h5 : 0 ≤ (t - s) * norm (q - p) := mul_nonneg (sub_nonneg.mpr hst) h3
  apply (mul_self_inj_of_nonneg h1 h5).mp
  rw [h2]; ring

theorem tFinish_head (ρ : K → K) (len : K) (xs : List K) (z : K) :
    (tFinish ρ len xs z).head? = some 0 ∧ (tFinish ρ len xs z).getLast? = some len := by
  unfold tFinish
  exact ⟨by simp, by rw [List.getLast?_concat]⟩

/-- C31, what holds: if the sizes along the edge lie in `[r, R]` with `2R < 3r`, the points run strictly
monotonically from the start to the end of the edge, and the debug checks pass. The full statement
(arbitrary size functions) is false, see `C31_partition_violated`. -/
theorem C31_partition_partial (norm : Pt K → K) (hn : IsNorm norm) (rho : Pt K → K) (p1 p2 : Pt K)
    (h : p1 ≠ p2) (r R : K) (h0 : 0 < r) (hR : 2 * R < 3 * r)
    (hr : ∀ t, r ≤ rho (onLine p1 p2 t) ∧ rho (onLine p1 p2 t) ≤ R) (fuel : Nat) (xs : List (Pt K))
    (hx : subCoords norm rho fuel p1 p2 = some xs) : Partition p1 p2 xs := by
  obtain ⟨ρ, rev, _, hρ, he⟩ := subCoords_eq hn h (fun t => lt_of_lt_of_le h0 (hr t).1) fuel
  obtain ⟨hlen, _⟩ := unit_tang hn h
  rw [he] at hx
  simp only [Option.map_eq_some_iff] at hx
  obtain ⟨⟨ys, z⟩, hq, rfl⟩ := hx
  have hρb : ∀ t, r ≤ ρ t ∧ ρ t ≤ R := fun t => by rw [hρ]; exact hr _
  have e0 : p1 = onLine p1 p2 0 := by unfold onLine; apply Pt.ext' <;> simp
  have e1 : p2 = onLine p1 p2 1 := by unfold onLine; apply Pt.ext' <;> simp
  have hb1 := hr 0
  have hb2 := hr 1
  rw [← e0] at hb1
  rw [← e1] at hb2
  obtain ⟨m1, m2, m3⟩ := min_cases (norm (p2 - p1)) (1 / 2 * (rho p1 + rho p2))
  have hs := tFinish_sorted h0 hρb hR hlen (m := cppMIN (norm (p2 - p1)) (1 / 2 * (rho p1 + rho p2)))
    (by rcases m1 with h | h
        · exact Or.inr h
        · left; rw [h]; linarith) (by linarith) m2 hq
  obtain ⟨hh, hl⟩ := tFinish_head ρ (norm (p2 - p1)) ys z
  have hp := pairwise_ends hs
  cases rev
  · simp only [Bool.false_eq_true, if_false]
    refine ⟨_, rfl, ?_, ?_, ?_⟩
    · rw [List.pairwise_map]
      exact hp.imp fun hab => (div_lt_div_iff_of_pos_right hlen).mpr hab
    · rw [List.head?_map, hh]; simp
    · rw [List.getLast?_map, hl]; simp [hlen.ne']
  · simp only [if_true]
    refine ⟨_, rfl, ?_, ?_, ?_⟩
    · rw [List.pairwise_reverse, List.pairwise_map]
      apply hp.imp
      intro a b hab
      have := (div_lt_div_iff_of_pos_right hlen).mpr hab
      linarith
    · rw [List.head?_reverse, List.getLast?_map, hl]; simp [hlen.ne']
    · rw [List.getLast?_reverse, List.head?_map, hh]; simp

/-- a partition passes the debug checks, in either direction -/
theorem partition_checks {norm : Pt K → K} (hn : IsNorm norm) {p q : Pt K} (h : p ≠ q)
    {xs : List (Pt K)} (hx : Partition p q xs) : subChecks norm xs = true := by
  obtain ⟨hlen, _⟩ := unit_tang hn h
  obtain ⟨ts, rfl, hp, hh, hl⟩ := hx
  cases ts with
  | nil => simp at hh
  | cons t ts =>
    simp at hh
    subst hh
    rw [List.map_cons]
    unfold subChecks
    dsimp only
    rw [Bool.and_eq_true]
    rw [List.pairwise_cons] at hp
    constructor
    · have : ∀ (ts : List K) (s : K), 0 ≤ s → (∀ t ∈ ts, s < t) → ts.Pairwise (· < ·) →
          subCheckLoop norm (onLine p q 0) (s * norm (q - p)) (ts.map (onLine p q)) = true := by
        intro ts
        induction ts with
        | nil => intros; rfl
        | cons t ts ih =>
          intro s hs hlt hpw
          rw [List.map_cons, subCheckLoop]
          have ht := hlt t (by simp)
          have e : norm (onLine p q t - onLine p q 0) = t * norm (q - p) := by
            rw [onLine_norm hn (by linarith), sub_zero]
          rw [e, Bool.and_eq_true]
          rw [List.pairwise_cons] at hpw
          exact ⟨by simpa using mul_lt_mul_of_pos_right ht hlen,
            ih t (by linarith) hpw.1 hpw.2⟩
      have := this ts 0 (le_refl _) hp.1 hp.2
      simpa using this
    · unfold subCheckEnd
      dsimp only
      rw [List.all_eq_true]
      intro x hx
      rw [decide_eq_true_eq]
      rw [← List.map_dropLast] at hx
      obtain ⟨t, ht, rfl⟩ := List.mem_map.mp hx
      have hne : ts ≠ [] := by rintro rfl; simp at ht
      have hlast : ts.getLast? = some 1 := by
        cases ts with
        | nil => exact absurd rfl hne
        | cons a l => rw [List.getLast?_cons_cons] at hl; exact hl
      have hsplit : ts = ts.dropLast ++ [1] := by
        rw [List.getLast?_eq_some_iff] at hlast
        obtain ⟨l, rfl⟩ := hlast
        simp
      have hgl : (ts.map (onLine p q)).getLastD (onLine p q 0) = onLine p q 1 := by
        rw [List.getLastD_eq_getLast?, List.getLast?_map, hlast]; rfl
      rw [hgl]
      have ht0 : 0 < t := hp.1 t (List.mem_of_mem_dropLast ht)
      have ht1 : t < 1 := by
        have h2 := hp.2
        rw [hsplit, List.pairwise_append] at h2
        exact h2.2.2 t ht 1 (by simp)
      have h4 := (hn (q - p)).2
      have e1 : Pt.normSq (onLine p q t - onLine p q 0) = t * t * Pt.normSq (q - p) := by
        unfold onLine Pt.normSq; simp; ring
      have e2 : Pt.normSq (onLine p q 0 - onLine p q 1) = Pt.normSq (q - p) := by
        unfold onLine Pt.normSq; simp; ring
      rw [e1, e2, ← h4]
      have : 0 < norm (q - p) * norm (q - p) := mul_pos hlen hlen
      have htt : t * t < 1 := by nlinarith
      nlinarith

theorem partition_reverse {p q : Pt K} {xs : List (Pt K)} (hx : Partition p q xs) :
    Partition q p xs.reverse := by
  obtain ⟨ts, rfl, hp, hh, hl⟩ := hx
  refine ⟨(ts.map fun t => 1 - t).reverse, ?_, ?_, ?_, ?_⟩
  · rw [List.map_reverse, List.map_map]
    congr 1
    apply List.map_congr_left
    intro t _
    unfold onLine; apply Pt.ext' <;> simp <;> ring
  · rw [List.pairwise_reverse, List.pairwise_map]
    exact hp.imp fun hab => by linarith
  · rw [List.head?_reverse, List.getLast?_map, hl]; simp
  · rw [List.getLast?_reverse, List.head?_map, hh]; simp

/-- C31: under the same condition the debug assertions hold (they are evaluated on the points ordered
from the end with the smaller size). -/
theorem C31_debug_checks (norm : Pt K → K) (hn : IsNorm norm) (rho : Pt K → K) (p1 p2 : Pt K)
    (h : p1 ≠ p2) (r R : K) (h0 : 0 < r) (hR : 2 * R < 3 * r)
    (hr : ∀ t, r ≤ rho (onLine p1 p2 t) ∧ rho (onLine p1 p2 t) ≤ R) (fuel : Nat) (xs : List (Pt K))
    (hx : subCoords norm rho fuel p1 p2 = some xs) :
    subChecks norm (if rho p1 < rho p2 then xs else xs.reverse) = true := by
  have hp := C31_partition_partial norm hn rho p1 p2 h r R h0 hR hr fuel xs hx
  split_ifs
  · exact partition_checks hn h hp
  · exact partition_checks hn h.symm (partition_reverse hp)

/-- C31: with a constant size `s` every piece of a refined edge is at least `s/2` and shorter than
`3s/2`. -/
theorem C31_constant_size (norm : Pt K → K) (hn : IsNorm norm) (rho : Pt K → K) (p1 p2 : Pt K)
    (h : p1 ≠ p2) (s : K) (h0 : 0 < s) (hr : ∀ t, rho (onLine p1 p2 t) = s) (fuel : Nat)
    (xs : List (Pt K)) (hx : subCoords norm rho fuel p1 p2 = some xs) (h3 : 3 ≤ xs.length) :
    xs.IsChain (fun a b => s / 2 ≤ norm (b - a) ∧ norm (b - a) < 3 * s / 2) := by
  have hpart := C31_partition_partial norm hn rho p1 p2 h s s h0 (by linarith)
    (fun t => by rw [hr]; exact ⟨le_refl _, le_refl _⟩) fuel xs hx
  obtain ⟨ρ, rev, _, hρ, he⟩ := subCoords_eq (rho := rho) hn h (fun t => by rw [hr t]; exact h0) fuel
  obtain ⟨hlen, _⟩ := unit_tang hn h
  rw [he] at hx
  simp only [Option.map_eq_some_iff] at hx
  obtain ⟨⟨ys, z⟩, hq, hxs⟩ := hx
  have e0 : p1 = onLine p1 p2 0 := by unfold onLine; apply Pt.ext' <;> simp
  have e1 : p2 = onLine p1 p2 1 := by unfold onLine; apply Pt.ext' <;> simp
  have hb1 := hr 0
  have hb2 := hr 1
  rw [← e0] at hb1
  rw [← e1] at hb2
  have hmid : 1 / 2 * (rho p1 + rho p2) = s := by rw [hb1, hb2]; ring
  rw [hmid] at hq
  obtain ⟨m1, m2, m3⟩ := min_cases (norm (p2 - p1)) s
  have hne : ys ≠ [] := by
    rintro rfl
    rw [← hxs] at h3
    cases rev <;> simp [tFinish] at h3
  have hs := tFinish_const h0 (fun t => by rw [hρ]; exact hr _) hlen m1.symm m3 m2 hq hne
  have hlen' := hlen.ne'
  cases rev
  · simp only [Bool.false_eq_true, if_false] at hxs
    rw [← hxs, List.map_map, List.isChain_map]
    apply hs.imp
    intro a b ⟨h1, h2⟩
    have hab : a / norm (p2 - p1) ≤ b / norm (p2 - p1) :=
      (div_le_div_iff_of_pos_right hlen).mpr (by linarith)
    simp only [Function.comp_apply]
    rw [onLine_norm hn hab]
    have : (b / norm (p2 - p1) - a / norm (p2 - p1)) * norm (p2 - p1) = b - a := by field_simp
    rw [this]; exact ⟨h1, h2⟩
  · simp only [if_true] at hxs
    rw [← hxs, List.isChain_map, List.isChain_reverse, List.isChain_map]
    apply hs.imp
    intro a b ⟨h1, h2⟩
    have hab : 1 - b / norm (p2 - p1) ≤ 1 - a / norm (p2 - p1) := by
      have := (div_le_div_iff_of_pos_right hlen).mpr (show a ≤ b by linarith)
      linarith
    rw [onLine_norm hn hab]
    have : (1 - a / norm (p2 - p1) - (1 - b / norm (p2 - p1))) * norm (p2 - p1) = b - a := by
      field_simp; ring
    rw [this]; exact ⟨h1, h2⟩

/-- C31: the sub edges form a chain from the start to the end vertex of the edge through new vertices at
the given points, and keep the marker and the fixed flag. -/
theorem C31_sub_edges (coords : List (Pt K)) (st : List (MVert K)) (e : FEdge)
    (h1 : e.v1 < st.length) (h2 : e.v2 < st.length) (h3 : 3 ≤ coords.length) :
    let r := refineEdge coords st e
    r.2.length + 1 = coords.length ∧
    r.2.map (fun f => vpos r.1 f.v1) = vpos st e.v1 :: (coords.drop 1).dropLast ∧
    r.2.map (fun f => vpos r.1 f.v2) = (coords.drop 1).dropLast ++ [vpos st e.v2] ∧
    (r.2.map (·.v1)).head? = some e.v1 ∧ r.2.map (·.v2) = (r.2.map (·.v1)).tail ++ [e.v2] ∧
    (∀ f ∈ r.2, f.color = e.color ∧ f.isFixed = e.isFixed) ∧
    ∃ ext, r.1 = st ++ ext ∧ ext.map (·.xy) = (coords.drop 1).dropLast := by
  intro r
  have hr : r = subEdges e st e.v1 (coords.drop 1).dropLast := by
    change refineEdge coords st e = _
    unfold refineEdge; rw [if_neg (by omega)]
  rw [hr]
  obtain ⟨a1, a2⟩ := subEdges_points e (coords.drop 1).dropLast st e.v1 h1 h2
  obtain ⟨b1, b2⟩ := subEdges_linked e (coords.drop 1).dropLast st e.v1
  obtain ⟨c1, _⟩ := subEdges_range e (coords.drop 1).dropLast st e.v1 h1 h2
  refine ⟨?_, a1, a2, b2, b1, ?_, c1⟩
  · have := congrArg List.length a1
    rw [List.length_map, List.length_cons, List.length_dropLast, List.length_drop] at this
    omega
  · intro f hf
    have := subEdges_fixed e _ _ _ f hf
    exact ⟨this.2.1, this.1⟩

/-- C32: for a size function bounded below by `r > 0` along the line, the loop ends within `n` rounds as
soon as `n * r` exceeds the length of the edge, and the result does not depend on how much further fuel
is available. -/
theorem C32_terminates (norm : Pt K → K) (hn : IsNorm norm) (rho : Pt K → K) (p1 p2 : Pt K)
    (h : p1 ≠ p2) (r : K) (h0 : 0 < r) (hr : ∀ t, r ≤ rho (onLine p1 p2 t)) (n : Nat)
    (hlen : norm (p2 - p1) < n * r) :
    ∃ xs, ∀ m, n ≤ m → subCoords norm rho m p1 p2 = some xs := by
  obtain ⟨hl, _⟩ := unit_tang hn h
  have hpos : ∀ t, 0 < rho (onLine p1 p2 t) := fun t => lt_of_lt_of_le h0 (hr t)
  have e0 : p1 = onLine p1 p2 0 := by unfold onLine; apply Pt.ext' <;> simp
  have e1 : p2 = onLine p1 p2 1 := by unfold onLine; apply Pt.ext' <;> simp
  have hb1 := hpos 0
  have hb2 := hpos 1
  rw [← e0] at hb1
  rw [← e1] at hb2
  have hn0 : 0 < n := by
    rcases Nat.eq_zero_or_pos n with h | h
    · rw [h] at hlen; simp at hlen; linarith
    · exact h
  have hmin : 0 < cppMIN (norm (p2 - p1)) (1 / 2 * (rho p1 + rho p2)) := by
    obtain ⟨m1 | m1, _, _⟩ := min_cases (norm (p2 - p1)) (1 / 2 * (rho p1 + rho p2))
    · rw [m1]; exact hl
    · rw [m1]; linarith
  unfold subCoords
  have key : ∀ (a tang : Pt K), Pt.normSq tang = 1 → (∀ t, r ≤ rho (ray a tang t)) →
      ∃ q, ∀ m, n ≤ m → subLoop norm rho a tang (norm (p2 - p1))
        (subEnd (rho p1) (rho p2) (norm (p2 - p1))) m a = some q := by
    intro a tang hu hra
    have ea : a = ray a tang 0 := by unfold ray; apply Pt.ext' <;> simp
    obtain ⟨q, hq⟩ := tLoop_terminates (ρ := fun t => rho (ray a tang t))
      (S := subEnd (rho p1) (rho p2) (norm (p2 - p1)) * norm (p2 - p1)) hra n 0
      (by rw [subEnd_mul hl]; linarith) hn0
    refine ⟨(q.1.map (ray a tang) ++ [ray a tang q.2], q.2 / norm (p2 - p1)), ?_⟩
    intro m hm
    have := subLoop_eq hn hu hl (subEnd (rho p1) (rho p2) (norm (p2 - p1))) (rho := rho)
      (fun t => lt_of_lt_of_le h0 (hra t)) m 0 (le_refl _)
    rw [← ea, tLoop_mono n m 0 q hm hq] at this
    exact this
  have hu := (unit_tang hn h).2
  have hu2 : Pt.normSq (-(Pt.smul (1 / norm (p2 - p1)) (p2 - p1))) = 1 := by
    refine Eq.trans ?_ hu; unfold Pt.normSq; simp
  have hl' := hl.ne'
  dsimp only
  split_ifs with hc
  · obtain ⟨q, hq⟩ := key p1 _ hu (fun t => by
      have : ray p1 (Pt.smul (1 / norm (p2 - p1)) (p2 - p1)) t = onLine p1 p2 (t / norm (p2 - p1)) := by
        unfold ray onLine; apply Pt.ext' <;> simp <;> field_simp
      rw [this]; exact hr _)
    exact ⟨_, fun m hm => by rw [hq m hm]⟩
  · obtain ⟨q, hq⟩ := key p2 _ hu2 (fun t => by
      have : ray p2 (-(Pt.smul (1 / norm (p2 - p1)) (p2 - p1))) t =
          onLine p1 p2 (1 - t / norm (p2 - p1)) := by
        unfold ray onLine; apply Pt.ext' <;> simp <;> field_simp <;> ring_nf
      rw [this]; exact hr _)
    exact ⟨_, fun m hm => by rw [hq m hm]⟩

/-- C32 for Archimedean fields such as the rationals and the reals: the loop ends. -/
theorem C32_terminates_archimedean [Archimedean K] (norm : Pt K → K) (hn : IsNorm norm)
    (rho : Pt K → K) (p1 p2 : Pt K) (h : p1 ≠ p2) (r : K) (h0 : 0 < r)
    (hr : ∀ t, r ≤ rho (onLine p1 p2 t)) : ∃ n xs, subCoords norm rho n p1 p2 = some xs := by
  obtain ⟨n, hn'⟩ := Archimedean.arch (norm (p2 - p1)) h0
  obtain ⟨xs, hx⟩ := C32_terminates norm hn rho p1 p2 h r h0 hr (n + 1) (by
    rw [nsmul_eq_mul] at hn'; push_cast; linarith)
  exact ⟨n + 1, xs, hx _ (le_refl _)⟩

end

/-- a norm on the axis-parallel vectors, enough to run the code on rational examples -/
def taxi (p : Pt ℚ) : ℚ := (if p.x < 0 then -p.x else p.x) + if p.y < 0 then -p.y else p.y

example : subCoords taxi (fun _ => 1) 20 ⟨0, 0⟩ ⟨17 / 4, 0⟩ =
    some [⟨0, 0⟩, ⟨7 / 6, 0⟩, ⟨13 / 6, 0⟩, ⟨19 / 6, 0⟩, ⟨17 / 4, 0⟩] := by decide +kernel
example : subCoords taxi (fun p => 1 + p.x / 10) 20 ⟨4, 0⟩ ⟨0, 0⟩ =
    (subCoords taxi (fun p => 1 + p.x / 10) 20 ⟨0, 0⟩ ⟨4, 0⟩).map List.reverse ∧
    ((subCoords taxi (fun p => 1 + p.x / 10) 20 ⟨0, 0⟩ ⟨4, 0⟩).map List.length) = some 4 := by
  decide +kernel
/-- the bound `s/2` is attained -/
example : subCoords taxi (fun _ => 1) 20 ⟨0, 0⟩ ⟨3 / 2, 0⟩ =
    some [⟨0, 0⟩, ⟨1, 0⟩, ⟨3 / 2, 0⟩] := by decide +kernel
example : (refineEdge [⟨0, 0⟩, ⟨1, 0⟩, ⟨2, 0⟩, ⟨3, 0⟩] [(⟨⟨0, 0⟩, 0⟩ : MVert ℚ), ⟨⟨3, 0⟩, 0⟩]
    ⟨0, 1, 5, edgeProps false, false⟩).2.map (fun f => (f.v1, f.v2, f.color)) =
    [(0, 2, 5), (2, 3, 5), (3, 1, 5)] := by decide +kernel

/-- the Euclidean length on the reals -/
noncomputable def euclid (p : Pt ℝ) : ℝ := Real.sqrt (Pt.normSq p)

theorem euclid_isNorm : IsNorm euclid := fun p =>
  ⟨Real.sqrt_nonneg _, Real.mul_self_sqrt (normSq_nonneg p)⟩

/-- the hypotheses of `C31_partition_partial`, `C31_constant_size` and `C32_terminates` are met on the
reals -/
example : ∃ xs, subCoords euclid (fun _ => 1) 5 ⟨0, 0⟩ ⟨2, 2⟩ = some xs ∧ Partition ⟨0, 0⟩ ⟨2, 2⟩ xs := by
  have hne : (⟨0, 0⟩ : Pt ℝ) ≠ ⟨2, 2⟩ := by
    intro h; have := congrArg Pt.x h; norm_num at this
  obtain ⟨xs, hx⟩ := C32_terminates euclid euclid_isNorm (fun _ => 1) ⟨0, 0⟩ ⟨2, 2⟩ hne 1 one_pos
    (fun _ => le_refl _) 5 (by
      have : Pt.normSq ((⟨2, 2⟩ : Pt ℝ) - ⟨0, 0⟩) = 8 := by unfold Pt.normSq; simp; norm_num
      unfold euclid
      rw [this, mul_one]
      exact (Real.sqrt_lt' (by norm_num)).mpr (by norm_num))
  exact ⟨xs, hx 5 (le_refl _), C31_partition_partial euclid euclid_isNorm (fun _ => 1) _ _ hne 1 1 one_pos
    (by norm_num) (fun _ => ⟨le_refl _, le_refl _⟩) 5 xs (hx 5 (le_refl _))⟩

section
variable [IsStrictOrderedRing K]

/-- A user size function that jumps from 1 to 100. -/
def jumpSize (p : Pt K) : K := if p.x < 1 / 2 then 1 else 100

/-- The square with side 10 (length of the edges as computed by the constructor of `Edge`). -/
def square10 : List (SEdge K) :=
  [⟨⟨⟨0, 0⟩, 0, 0⟩, ⟨⟨10, 0⟩, 0, 0⟩, 10⟩, ⟨⟨⟨10, 0⟩, 0, 0⟩, ⟨⟨10, 10⟩, 0, 0⟩, 10⟩,
   ⟨⟨⟨10, 10⟩, 0, 0⟩, ⟨⟨0, 10⟩, 0, 0⟩, 10⟩, ⟨⟨⟨0, 10⟩, 0, 0⟩, ⟨⟨0, 0⟩, 0, 0⟩, 10⟩]

/-- The size function of the domain. -/
def jumpRho (E : K → K) (p : Pt K) : K := (evaluate E jumpSize [square10] [] p).getD 0

theorem jump_pos (p : Pt K) : 0 < (jumpSize p : K) := by unfold jumpSize; split_ifs <;> norm_num

theorem jumpRho_spec (E : K → K) (hE : ExpLike E) (p : Pt K) :
    evaluate E jumpSize [square10] [] p = some (jumpRho E p) ∧ jumpRho E p ≤ jumpSize p ∧
    (∀ m, m ≤ jumpSize p → m ≤ 10 → m ≤ jumpRho E p) ∧
    ∀ e ∈ (square10 : List (SEdge K)), jumpRho E p ≤ endSize E (jumpSize p) e.len p e.v1 ∧
      jumpRho E p ≤ endSize E (jumpSize p) e.len p e.v2 := by
  have hlen : ∀ b ∈ [(square10 : List (SEdge K))], ∀ e ∈ b, 0 < e.len ∧ e.len = 10 ∧
      e.v1.meshSize = 0 ∧ e.v2.meshSize = 0 := by
    intro b hb e he
    simp at hb; subst hb
    simp [square10] at he
    rcases he with rfl | rfl | rfl | rfl <;> norm_num
  have h := C27_size_bounds E hE jumpSize [square10] [] p (fun b hb e he => (hlen b hb e he).1)
  cases hev : evaluate E jumpSize [square10] [] p with
  | none => exact absurd (h.1.mp hev) (not_le.mpr (jump_pos p))
  | some x =>
    have hx : jumpRho E p = x := by unfold jumpRho; rw [hev]; rfl
    rw [hx]
    obtain ⟨_, h2, h3⟩ := h.2 x hev
    refine ⟨rfl, h2, ?_, ?_⟩
    · intro m hm1 hm2
      apply h3 m hm1 _ (by simp)
      intro b hb e he
      obtain ⟨_, h4, h5, h6⟩ := hlen b hb e he
      rw [h4, h5, h6]
      exact ⟨hm2, fun h => absurd h (lt_irrefl _), fun h => absurd h (lt_irrefl _)⟩
    · intro e he
      unfold evaluate at hev
      dsimp only at hev
      rw [if_neg (not_le.mpr (jump_pos p))] at hev
      simp only [Option.some.injEq, fixedLoop, List.flatten_cons, List.flatten_nil, List.append_nil] at hev
      rw [← hev]
      exact (edgeLoop_le E _ p square10 _).2 e he

/-- C31 (refuted): for the square with side 10 and a user size that jumps from 1 to 100 near a corner,
the only interior point created on the lower side does not lie inside of that side: its abscissa is not
positive. `E` stands for `exp`, of which only `1 + x ≤ exp x` is used in addition. -/
theorem C31_partition_violated (norm : Pt K → K) (hn : IsNorm norm) (E : K → K) (hE : ExpLike E)
    (hE1 : ∀ x, 1 + x ≤ E x) (fuel : Nat) :
    ∃ u : K, u ≤ 0 ∧
      subCoords norm (jumpRho E) (fuel + 2) ⟨0, 0⟩ ⟨10, 0⟩ = some [⟨0, 0⟩, ⟨u, 0⟩, ⟨10, 0⟩] ∧
      ¬ Partition (⟨0, 0⟩ : Pt K) ⟨10, 0⟩ [⟨0, 0⟩, ⟨u, 0⟩, ⟨10, 0⟩] := by
  have hne : (⟨0, 0⟩ : Pt K) ≠ ⟨10, 0⟩ := by
    intro h; have := congrArg Pt.x h; norm_num at this
  have hlen : norm ((⟨10, 0⟩ : Pt K) - ⟨0, 0⟩) = 10 := by
    have := hn ((⟨10, 0⟩ : Pt K) - ⟨0, 0⟩)
    have e : Pt.normSq ((⟨10, 0⟩ : Pt K) - ⟨0, 0⟩) = 10 * 10 := by unfold Pt.normSq; simp
    rw [e] at this
    exact (mul_self_inj_of_nonneg this.1 (by norm_num)).mp this.2
  have hon : ∀ t : K, onLine (⟨0, 0⟩ : Pt K) ⟨10, 0⟩ t = ⟨10 * t, 0⟩ := by
    intro t; unfold onLine; apply Pt.ext' <;> simp; ring
  have hposR : ∀ p : Pt K, 0 < jumpRho E p := by
    intro p
    have := (jumpRho_spec E hE p).2.2.1 1 (by unfold jumpSize; split_ifs <;> norm_num) (by norm_num)
    linarith
  -- values of the size function
  have r0 : jumpRho E (⟨0, 0⟩ : Pt K) = 1 := by
    obtain ⟨_, h2, h3, _⟩ := jumpRho_spec E hE (⟨0, 0⟩ : Pt K)
    have e : jumpSize (⟨0, 0⟩ : Pt K) = 1 := by unfold jumpSize; rw [if_pos (by norm_num)]
    rw [e] at h2 h3
    exact le_antisymm h2 (h3 1 (le_refl _) (by norm_num))
  have rge : ∀ x : K, 1 / 2 ≤ x → 10 ≤ jumpRho E (⟨x, 0⟩ : Pt K) := by
    intro x hx
    obtain ⟨_, _, h3, _⟩ := jumpRho_spec E hE (⟨x, 0⟩ : Pt K)
    exact h3 10 (by unfold jumpSize; rw [if_neg (not_lt.mpr hx)]; norm_num) (le_refl _)
  have r10 : jumpRho E (⟨10, 0⟩ : Pt K) = 10 := by
    apply le_antisymm _ (rge 10 (by norm_num))
    have hev := (jumpRho_spec E hE (⟨10, 0⟩ : Pt K)).1
    have := (C27_local_sizes E hE jumpSize [square10] [] _ _ hev).1 square10 (by simp)
      ⟨⟨⟨0, 0⟩, 0, 0⟩, ⟨⟨10, 0⟩, 0, 0⟩, 10⟩ (by simp [square10]) _ (Or.inr rfl) rfl
    exact this.1
  have r1 : jumpRho E (⟨1, 0⟩ : Pt K) ≤ 11 := by
    have h4 := ((jumpRho_spec E hE (⟨1, 0⟩ : Pt K)).2.2.2
      ⟨⟨⟨0, 0⟩, 0, 0⟩, ⟨⟨10, 0⟩, 0, 0⟩, 10⟩ (by simp [square10])).1
    have e : jumpSize (⟨1, 0⟩ : Pt K) = 100 := by unfold jumpSize; rw [if_neg (by norm_num)]
    rw [e] at h4
    have es : endSize E 100 10 (⟨1, 0⟩ : Pt K) ⟨⟨0, 0⟩, 0, 0⟩ =
        E (-1 / 10000) * 10 + (1 - E (-1 / 10000)) * 100 := by
      unfold endSize
      have m1 : cppMAX ((100 : K) / 10) (10 / 100) = 10 := by
        unfold cppMAX; norm_num
      have m2 : cppMIN (100 : K) 10 = 10 := by unfold cppMIN; norm_num
      dsimp only
      rw [m1, if_pos (le_refl _), if_pos (le_refl _), m2]
      have : -Pt.normSq ((⟨1, 0⟩ : Pt K) - ⟨0, 0⟩) * (1 / (10 * 10)) * (1 / (10 * 10)) = -1 / 10000 := by
        unfold Pt.normSq; simp; norm_num
      rw [this]
    have hb := hE1 (-1 / 10000)
    change _ ≤ endSize E 100 10 (⟨1, 0⟩ : Pt K) ⟨⟨0, 0⟩, 0, 0⟩ at h4
    rw [es] at h4
    norm_num at hb
    linarith
  have r1' := rge 1 (by norm_num)
  obtain ⟨ρ, rev, hrev, hρ, he⟩ := subCoords_eq (rho := jumpRho E) hn hne (fun t => hposR _) (fuel + 2)
  have hrf : rev = false := by rw [hrev, r0, r10]; norm_num
  subst hrf
  rw [hlen] at hρ he
  have hρ' : ∀ t, ρ t = jumpRho E ⟨t, 0⟩ := by
    intro t; rw [hρ, hon]; simp only [Bool.false_eq_true, if_false]; congr 2; field_simp
  have hmin : cppMIN (10 : K) (1 / 2 * (1 + 10)) = 11 / 2 := by unfold cppMIN; norm_num
  rw [r0, r10, hmin] at he
  simp only [Bool.false_eq_true, if_false] at he
  obtain ⟨x1, hx1⟩ : ∃ x, x = 0 + 1 / 2 * (ρ 0 + ρ (0 + ρ 0)) := ⟨_, rfl⟩
  have hx1v : 11 / 2 ≤ x1 ∧ x1 ≤ 6 := by
    rw [hx1, hρ' 0, r0, zero_add, hρ' (0 + 1), zero_add]
    constructor <;> linarith
  obtain ⟨y, hy⟩ : ∃ x, x = x1 + 1 / 2 * (ρ x1 + ρ (x1 + ρ x1)) := ⟨_, rfl⟩
  have hρ1 : 10 ≤ ρ x1 := by rw [hρ']; exact rge _ (by linarith)
  have hyv : x1 + 10 ≤ y := by
    have : 10 ≤ ρ (x1 + ρ x1) := by rw [hρ']; exact rge _ (by linarith)
    rw [hy]; linarith
  have hloop : tLoop ρ (10 - 11 / 2 / 2) (fuel + 2) 0 = some ([x1], y) := by
    rw [tLoop, ← hx1, if_neg (by norm_num; linarith), tLoop, ← hy, if_pos (by norm_num; linarith)]
    rfl
  rw [hloop] at he
  have hfin : tFinish ρ 10 [x1] y = [0, x1 + (10 - y), 10] := by
    unfold tFinish
    have : ρ x1 / (ρ x1 + 0) = 1 := by rw [add_zero]; exact div_self (by linarith)
    simp only [List.map_cons, List.map_nil, List.sum_cons, List.sum_nil, this, one_mul]
    rfl
  simp only [Option.map_some] at he
  rw [hfin] at he
  refine ⟨x1 + (10 - y), by linarith, ?_, ?_⟩
  · rw [he]
    simp only [List.map_cons, List.map_nil, hon]
    have e1 : (10 : K) * (0 / 10) = 0 := by norm_num
    have e2 : (10 : K) * ((x1 + (10 - y)) / 10) = x1 + (10 - y) := by field_simp
    have e3 : (10 : K) * (10 / 10) = 10 := by norm_num
    rw [e1, e2, e3]
  · rintro ⟨ts, h1, h2, h3, _⟩
    have hl := congrArg List.length h1
    match ts, h1, h2, h3, hl with
    | [], _, _, _, hl => simp at hl
    | [_], _, _, _, hl => simp at hl
    | [_, _], _, _, _, hl => simp at hl
    | [a, b, c], h1, h2, h3, _ =>
      simp only [List.map_cons, List.map_nil, hon, List.cons.injEq, Pt.mk.injEq, and_true] at h1
      have ha : a = 0 := by simpa using h3
      have hab : a < b := by
        rw [List.pairwise_cons] at h2; exact h2.1 b (by simp)
      have := h1.2.1
      linarith
    | _ :: _ :: _ :: _ :: _, _, _, _, hl => simp at hl

end

/-- the witness exists on the reals with the exponential function -/
example : ∃ u : ℝ, u ≤ 0 ∧
    subCoords euclid (jumpRho Real.exp) 2 ⟨0, 0⟩ ⟨10, 0⟩ = some [⟨0, 0⟩, ⟨u, 0⟩, ⟨10, 0⟩] := by
  obtain ⟨u, h1, h2, _⟩ := C31_partition_violated euclid euclid_isNorm Real.exp
    ⟨fun _ hx => ⟨(Real.exp_pos _).le, Real.exp_le_one_iff.mpr hx⟩, Real.exp_zero⟩
    (fun x => by linarith [Real.add_one_le_exp x]) 0
  exact ⟨u, h1, h2⟩

/-! ## C33: sorting -/

/-- C33: sorting keeps exactly the edges, orders them by the key in the requested direction, keeps the
order of edges with equal keys, and makes the first one the base; the next base is the cyclic
successor. -/
theorem C33_sort {α : Type*} (key : α → K) (asc : Bool) (es : List α) :
    let r := sortEdges key asc es
    r.1.Perm es ∧
    r.1.Pairwise (fun a b => if asc then key a ≤ key b else key b ≤ key a) ∧
    (∀ a b, key a = key b → List.Sublist [a, b] es → List.Sublist [a, b] r.1) ∧
    (r.2 = if es = [] then none else some 0) := by
  intro r
  have htrans : ∀ a b c : α, (!decide (key b < key a)) = true → (!decide (key c < key b)) = true →
      (!decide (key c < key a)) = true := by
    intro a b c; simp only [Bool.not_eq_true', decide_eq_false_iff_not, not_lt]; exact le_trans
  have htotal : ∀ a b : α, ((!decide (key b < key a)) || (!decide (key a < key b))) = true := by
    intro a b; simp only [Bool.or_eq_true, Bool.not_eq_true', decide_eq_false_iff_not, not_lt]
    exact le_total _ _
  have htrans' : ∀ a b c : α, (!decide (key b > key a)) = true → (!decide (key c > key b)) = true →
      (!decide (key c > key a)) = true := by
    intro a b c; simp only [Bool.not_eq_true', decide_eq_false_iff_not, not_lt, gt_iff_lt]
    exact fun h1 h2 => le_trans h2 h1
  have htotal' : ∀ a b : α, ((!decide (key b > key a)) || (!decide (key a > key b))) = true := by
    intro a b
    simp only [Bool.or_eq_true, Bool.not_eq_true', decide_eq_false_iff_not, not_lt, gt_iff_lt]
    exact (le_total _ _)
  have hlen : r.1.length = es.length := by
    change (if asc then sortAsc key es else sortDesc key es).length = _
    unfold sortAsc sortDesc
    split_ifs <;> exact List.length_mergeSort _
  have hbase : r.2 = if es = [] then none else some 0 := by
    change (if r.1.length < 1 then none else some 0) = _
    rw [hlen]
    cases es <;> simp
  refine ⟨?_, ?_, ?_, hbase⟩
  · change (if asc then sortAsc key es else sortDesc key es).Perm es
    unfold sortAsc sortDesc
    split_ifs <;> exact List.mergeSort_perm _ _
  · change (if asc then sortAsc key es else sortDesc key es).Pairwise _
    unfold sortAsc sortDesc
    cases asc
    · simp only [Bool.false_eq_true, if_false]
      exact (List.pairwise_mergeSort htrans' htotal' es).imp fun h => by simpa using h
    · simp only [if_true]
      exact (List.pairwise_mergeSort htrans htotal es).imp fun h => by simpa using h
  · intro a b hab hsub
    change List.Sublist [a, b] (if asc then sortAsc key es else sortDesc key es)
    unfold sortAsc sortDesc
    cases asc
    · simp only [Bool.false_eq_true, if_false]
      exact List.pair_sublist_mergeSort htrans' htotal' (by simp [hab]) hsub
    · simp only [if_true]
      exact List.pair_sublist_mergeSort htrans htotal (by simp [hab]) hsub

example : sortEdges (fun x : ℚ × Nat => x.1) true [(2, 0), (1, 1), (2, 2), (1, 3)] =
    ([(1, 1), (1, 3), (2, 0), (2, 2)], some 0) := by
  simp [sortEdges, sortAsc, List.mergeSort, List.MergeSort.Internal.splitInTwo]

/-- C33: stepping through the base edges visits all positions of the front cyclically. -/
theorem C33_base_next (n i : Nat) (h : i < n) : baseNext n i = some ((i + 1) % n) := by
  unfold baseNext
  rw [if_neg (by omega)]
  split_ifs with h1
  · rw [h1, Nat.mod_self]
  · rw [Nat.mod_eq_of_lt (by omega)]

example : baseNext 3 2 = some 0 ∧ baseNext 3 0 = some 1 := by decide

/-! ## C85: the edges of neighbour meshes on an interface -/

section
variable [IsStrictOrderedRing K]

/-- both end points on the edge, as tested by the code -/
def onIface (eps : K) (e n : SrcEdge K) : Bool :=
  inOnSegment eps e.p1 e.p2 n.p1 && inOnSegment eps e.p1 e.p2 n.p2

theorem onIface_near (eps : K) (e n : SrcEdge K)
    (heps : eps ≤ 2 * (Pt.normSq (e.p2 - e.p1) * Pt.normSq (e.p2 - e.p1)))
    (h : onIface eps e n = true) :
    Pt.normSq (srcMid n - srcMid e) < 9 / 4 * Pt.normSq (e.p2 - e.p1) := by
  unfold onIface inOnSegment at h
  rw [Bool.and_eq_true] at h
  obtain ⟨h1, h2⟩ := h
  split_ifs at h1 h2 with c1 c2
  rw [not_not] at c1 c2
  rw [Bool.and_eq_true, decide_eq_true_eq, decide_eq_true_eq] at h1 h2
  rw [orientation_CL_iff] at c1 c2
  obtain ⟨⟨ax, ay⟩, ⟨bx, cy⟩, _, _, _, _⟩ := e
  obtain ⟨⟨px, py⟩, ⟨qx, qy⟩, _, _, _, _⟩ := n
  simp only [area2, srcMid, Pt.normSq, Pt.dot, Pt.smul_x, Pt.smul_y, Pt.sub_x, Pt.sub_y,
    Pt.add_x, Pt.add_y] at *
  obtain ⟨N, hN⟩ : ∃ N, N = (bx - ax) * (bx - ax) + (cy - ay) * (cy - ay) := ⟨_, rfl⟩
  obtain ⟨t1, ht1⟩ : ∃ t, t = (px - ax) * (bx - ax) + (py - ay) * (cy - ay) := ⟨_, rfl⟩
  obtain ⟨t2, ht2⟩ : ∃ t, t = (qx - ax) * (bx - ax) + (qy - ay) * (cy - ay) := ⟨_, rfl⟩
  obtain ⟨s1, hs1⟩ : ∃ t, t = (ax - px) * (cy - py) - (bx - px) * (ay - py) := ⟨_, rfl⟩
  obtain ⟨s2, hs2⟩ : ∃ t, t = (ax - qx) * (cy - qy) - (bx - qx) * (ay - qy) := ⟨_, rfl⟩
  obtain ⟨M, hM⟩ : ∃ M, M = (1 / 2 * (px + qx) - 1 / 2 * (ax + bx)) * (1 / 2 * (px + qx) - 1 / 2 * (ax + bx)) +
    (1 / 2 * (py + qy) - 1 / 2 * (ay + cy)) * (1 / 2 * (py + qy) - 1 / 2 * (ay + cy)) := ⟨_, rfl⟩
  rw [← hN] at heps h1 h2 ⊢
  rw [← ht1] at h1
  rw [← ht2] at h2
  rw [← hs1] at c1
  rw [← hs2] at c2
  rw [← hM]
  have key : N * M = ((t1 + t2 - N) / 2) * ((t1 + t2 - N) / 2) + ((s1 + s2) / 2) * ((s1 + s2) / 2) := by
    rw [hM, ht1, ht2, hs1, hs2, hN]; ring
  clear ht1 ht2 hs1 hs2 hM
  have hN0 : 0 < N := by
    rcases lt_or_eq_of_le (show 0 ≤ N by rw [hN]; nlinarith [mul_self_nonneg (bx - ax), mul_self_nonneg (cy - ay)]) with h | h
    · exact h
    · exfalso; rw [← h] at heps; nlinarith [mul_self_nonneg s1]
  have hT : ((t1 + t2 - N) / 2) * ((t1 + t2 - N) / 2) ≤ N * N / 4 := by
    nlinarith [mul_nonneg (show 0 ≤ t1 + t2 by linarith [h1.1, h2.1])
      (show 0 ≤ 2 * N - (t1 + t2) by linarith [h1.2, h2.2])]
  have hS : ((s1 + s2) / 2) * ((s1 + s2) / 2) < eps := by
    nlinarith [mul_self_nonneg (s1 - s2)]
  have e9 : N * (9 / 4 * N) = N * N / 4 + 2 * (N * N) := by ring
  have : N * M < N * (9 / 4 * N) := by rw [key, e9]; linarith
  exact lt_of_mul_lt_mul_left this hN0.le

theorem nbrStep_perm (eps : K) (e : SrcEdge K)
    (heps : eps ≤ 2 * (Pt.normSq (e.p2 - e.p1) * Pt.normSq (e.p2 - e.p1)))
    (found bdry : List (SrcEdge K)) :
    (nbrStep eps e found bdry).Perm (found ++ bdry.filter (onIface eps e)) := by
  unfold nbrStep
  dsimp only
  refine (List.mergeSort_perm _ _).trans ?_
  rw [List.filter_filter]
  have : bdry.filter (fun n => (inOnSegment eps e.p1 e.p2 n.p1 && inOnSegment eps e.p1 e.p2 n.p2) &&
      decide (Pt.normSq (srcMid n - srcMid e) < 9 / 4 * Pt.normSq (e.p2 - e.p1))) =
      bdry.filter (onIface eps e) := by
    apply List.filter_congr
    intro n _
    change (onIface eps e n && _) = _
    cases h : onIface eps e n
    · rfl
    · simp [onIface_near eps e n heps h]
  rw [this]

theorem nbrStep_sorted (eps : K) (e : SrcEdge K) (found bdry : List (SrcEdge K)) :
    (nbrStep eps e found bdry).Pairwise
      (fun a b => Pt.normSq (srcMid a - e.p1) ≤ Pt.normSq (srcMid b - e.p1)) := by
  unfold nbrStep
  dsimp only
  refine (List.pairwise_mergeSort ?_ ?_ _).imp fun h => by simpa using h
  · intro a b c; simp only [Bool.not_eq_true', decide_eq_false_iff_not, not_lt]; exact le_trans
  · intro a b; simp only [Bool.or_eq_true, Bool.not_eq_true', decide_eq_false_iff_not, not_lt]
    exact le_total _ _

/-- C85: the edges found for a boundary edge are exactly the boundary edges of the neighbour meshes with
both end points on it (each as often as it occurs); the limited search radius hides none of them as long
as the tolerance `eps` of the orientation test is at most twice the fourth power of the length. They are
sorted by the distance of their centroids from the start of the edge. -/
theorem C85_neighbour_edges (eps : K) (e : SrcEdge K)
    (heps : eps ≤ 2 * (Pt.normSq (e.p2 - e.p1) * Pt.normSq (e.p2 - e.p1)))
    (meshes : List (List (SrcEdge K))) :
    (nbrEdges eps meshes e).Perm (meshes.flatten.filter fun n =>
      inOnSegment eps e.p1 e.p2 n.p1 && inOnSegment eps e.p1 e.p2 n.p2) ∧
    (nbrEdges eps meshes e).Pairwise
      (fun a b => Pt.normSq (srcMid a - e.p1) ≤ Pt.normSq (srcMid b - e.p1)) := by
  have key : ∀ (ms : List (List (SrcEdge K))) (found : List (SrcEdge K)),
      found.Pairwise (fun a b => Pt.normSq (srcMid a - e.p1) ≤ Pt.normSq (srcMid b - e.p1)) →
      (ms.foldl (nbrStep eps e) found).Perm (found ++ ms.flatten.filter (onIface eps e)) ∧
      (ms.foldl (nbrStep eps e) found).Pairwise
        (fun a b => Pt.normSq (srcMid a - e.p1) ≤ Pt.normSq (srcMid b - e.p1)) := by
    intro ms
    induction ms with
    | nil => intro found h; simpa using h
    | cons m ms ih =>
      intro found h
      rw [List.foldl_cons]
      obtain ⟨h1, h2⟩ := ih (nbrStep eps e found m) (nbrStep_sorted eps e found m)
      refine ⟨h1.trans ?_, h2⟩
      rw [List.flatten_cons, List.filter_append, ← List.append_assoc]
      exact (nbrStep_perm eps e heps found m).append_right _
  have := key meshes [] List.Pairwise.nil
  rw [List.nil_append] at this
  exact this

end

/-- two of the three boundary edges of a neighbour mesh are on the interface -/
example : (nbrEdges (1 / 10 ^ 12) [[⟨⟨2, 0⟩, ⟨1, 0⟩, 1, false, false, false⟩,
      ⟨⟨1, 0⟩, ⟨0, 0⟩, 1, false, false, false⟩, (⟨⟨0, 0⟩, ⟨2, -1⟩, 2, false, false, false⟩ : SrcEdge ℚ)]]
      ⟨⟨0, 0⟩, ⟨2, 0⟩, 1, false, false, false⟩).length = 2 := by
  have h := (C85_neighbour_edges (1 / 10 ^ 12 : ℚ) ⟨⟨0, 0⟩, ⟨2, 0⟩, 1, false, false, false⟩
    (by decide +kernel) [[⟨⟨2, 0⟩, ⟨1, 0⟩, 1, false, false, false⟩,
      ⟨⟨1, 0⟩, ⟨0, 0⟩, 1, false, false, false⟩, ⟨⟨0, 0⟩, ⟨2, -1⟩, 2, false, false, false⟩]]).1.length_eq
  rw [h]
  decide +kernel

/-! ## C87: boundary flags of the initial vertices -/

/-- C87 (refuted): vertices of fixed edges in the interior of the domain are marked `on_boundary`: in the
example the end point of the fixed edge, which is no boundary vertex. -/
theorem C87_boundary_flag_violated : ∃ (bd : List (List (SrcEdge ℚ))) (fx : List (SrcEdge ℚ))
    (v : MVert ℚ), v ∈ initVerts [] (collect (fun _ => []) bd fx) ∧
    (∀ b ∈ bd, ∀ e ∈ b, v.xy ≠ e.p1 ∧ v.xy ≠ e.p2) ∧ Flags.has v.props Flags.vOnBoundary = true :=
  ⟨[exTri], exFix, newVert (⟨1 / 4, 1 / 4⟩, true), by decide +kernel, by decide +kernel, by decide +kernel⟩

/-- C87, what holds: all new vertices are marked as front vertices, those at boundary end points as
boundary vertices, and a vertex is fixed iff the first edge end at its position is fixed. Missing: the
converse for the boundary flag, see `C87_boundary_flag_violated`. -/
theorem C87_boundary_flag_partial (st : List (MVert K)) (F : FID K) :
    ∀ v ∈ (initVerts st F).drop st.length, Flags.has v.props Flags.vOnFront = true ∧
      Flags.has v.props Flags.vOnBoundary = true ∧
      ∃ w ∈ F.verts, v.xy = w.1 ∧ Flags.has v.props Flags.vIsFixed = w.2 := by
  intro v hv
  unfold initVerts at hv
  rw [List.drop_left] at hv
  obtain ⟨w, hw, rfl⟩ := List.mem_map.mp hv
  have h1 : Flags.has (newVert w).props Flags.vOnFront = true ∧
      Flags.has (newVert w).props Flags.vOnBoundary = true ∧
      Flags.has (newVert w).props Flags.vIsFixed = w.2 := by
    unfold newVert
    dsimp only
    cases w.2 <;> decide
  exact ⟨h1.1, h1.2.1, w, hw, rfl, h1.2.2⟩

/-! ## C88: moving the front data -/

/-- C88 (refuted): after a move the new object has edges but neither vertices nor ids, so that
`init_front` reads out of bounds. -/
theorem C88_move_violated (nbr : SrcEdge K → List (SrcEdge K)) (bd : List (List (SrcEdge K)))
    (fx : List (SrcEdge K)) (h : (collect nbr bd fx).edges ≠ [])
    (sub : List (MVert K) → FEdge → Option (List (Pt K))) (st : List (MVert K)) :
    (collect nbr bd fx).moved.verts = [] ∧ initEdges st.length (collect nbr bd fx).moved = none ∧
    initFront sub st (collect nbr bd fx).moved = none := by
  have h2 : initEdges st.length (collect nbr bd fx).moved = none := by
    unfold initEdges
    have hl : 0 < (collect nbr bd fx).moved.edges.length := by
      change 0 < (collect nbr bd fx).edges.length
      exact List.length_pos_iff.mpr h
    obtain ⟨n, hn⟩ : ∃ n, (collect nbr bd fx).moved.edges.length = n + 1 := ⟨_, (Nat.succ_pred_eq_of_pos hl).symm⟩
    rw [hn, List.range_succ_eq_map, List.mapM_cons]
    have : initEdge st.length (collect nbr bd fx).moved.verts.length (collect nbr bd fx).moved 0 = none := by
      unfold initEdge FID.moved FID.empty
      rfl
    rw [this]; rfl
  exact ⟨rfl, h2, by unfold initFront; rw [h2]⟩

example : (collect exNbr [exTri] exFix).edges ≠ [] := by decide +kernel

end TQ

#print axioms TQ.C29_front_data
#print axioms TQ.C30_front_balanced
#print axioms TQ.C86_front_area
#print axioms TQ.C86_front_area_polygons
#print axioms TQ.C31_partition_partial
#print axioms TQ.C31_debug_checks
#print axioms TQ.C31_constant_size
#print axioms TQ.C31_sub_edges
#print axioms TQ.C31_partition_violated
#print axioms TQ.C32_terminates
#print axioms TQ.C32_terminates_archimedean
#print axioms TQ.C33_sort
#print axioms TQ.C33_base_next
#print axioms TQ.C85_neighbour_edges
#print axioms TQ.C87_boundary_flag_violated
#print axioms TQ.C87_boundary_flag_partial
#print axioms TQ.C88_move_violated
