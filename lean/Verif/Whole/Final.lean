import Verif.Whole.Flag
import Verif.Whole.CleanProps

/-! # Lemmas: meshes at the end of a session -/

set_option linter.unusedSectionVars false
set_option linter.unusedSimpArgs false

namespace TQ.Whole
open TQ.MS TQ.MeshSpec TQ.FUSpec TQ.MS.St TQ.GeoSpec TQ.FU TQ.Sm TQ.MCSpec TQ.WholeSpec TQ.RefSpec TQ.QLSpec TQ.QL TQ.CleanSpec TQ.SmSpec
variable {K : Type*} [Field K] [LinearOrder K] [IsStrictOrderedRing K]

theorem sum_cancelK {w : Nat × Nat → K} (anti : ∀ a b, w (a, b) = - w (b, a)) : ∀ (n : Nat) (l : List (Nat × Nat)), l.length ≤ n →
    (∀ a b, chain l a b = 0) → (l.map w).sum = 0 := by
  intro n
  induction n with
  | zero =>
    intro l hl _
    have : l = [] := List.length_eq_zero_iff.mp (by omega)
    rw [this]; rfl
  | succ n ih =>
    intro l hl hc
    match l with
    | [] => rfl
    | (a, b) :: l =>
      rw [List.map_cons, List.sum_cons]
      rw [List.length_cons] at hl
      have hcons : ∀ x y, chain ((a, b) :: l) x y = chain [(a, b)] x y + chain l x y := fun x y => chain_append [(a, b)] l x y
      by_cases hab : a = b
      · subst hab
        have h0 : w (a, a) = 0 := by have := anti a a; linarith
        rw [h0, zero_add]
        refine ih l (by omega) fun x y => ?_
        have := hc x y
        rw [hcons] at this
        have h1 : chain [(a, a)] x y = 0 := by
          unfold chain
          simp only [List.count_cons, List.count_nil, beq_iff_eq, Prod.mk.injEq]
          have : (a = x ∧ a = y) ↔ (a = y ∧ a = x) := and_comm
          simp only [this]; ring
        omega
      · have h1 := hc a b
        rw [hcons] at h1
        have h2 : chain [(a, b)] a b = 1 := by
          unfold chain
          simp [List.count_cons, hab]
        have hm : (b, a) ∈ l := by
          by_contra hn
          have : l.count (b, a) = 0 := List.count_eq_zero.mpr hn
          unfold chain at h1 h2
          omega
        have hp := List.perm_cons_erase hm
        rw [(hp.map w).sum_eq, List.map_cons, List.sum_cons, anti a b]
        have := ih (l.erase (b, a)) (by rw [List.length_erase_of_mem hm]; omega) fun x y => ?_
        · rw [this]; ring
        · have h3 := hc x y
          rw [hcons, chain_perm hp, show (b, a) :: l.erase (b, a) = [(b, a)] ++ l.erase (b, a) from rfl, chain_append] at h3
          have h4 : chain [(b, a)] x y = - chain [(a, b)] x y := chain_swap [(a, b)] x y
          omega

theorem sum_chainK {w : Nat × Nat → K} (anti : ∀ a b, w (a, b) = - w (b, a)) {xs ys zs : List (Nat × Nat)}
    (h : ∀ a b, chain xs a b + chain ys a b = chain zs a b) : (xs.map w).sum + (ys.map w).sum = (zs.map w).sum := by
  have h1 := sum_cancelK anti _ (xs ++ (ys ++ zs.map fun e => (e.2, e.1))) le_rfl fun a b => by
    rw [chain_append, chain_append, chain_swap, ← h a b]; ring
  rw [List.map_append, List.map_append, List.sum_append, List.sum_append, List.map_map] at h1
  have h2 : (zs.map (w ∘ fun e => (e.2, e.1))).sum = - (zs.map w).sum := by
    clear h h1
    induction zs with
    | nil => simp
    | cons e zs ih =>
      obtain ⟨a, b⟩ := e
      rw [List.map_cons, List.sum_cons, ih, List.map_cons, List.sum_cons]
      simp only [Function.comp]
      rw [anti b a]; ring
  linear_combination h1 - h2

theorem enclosed_sides {s : St K} (h : WF s) : enclosed s.pos (allSides s) = meshArea s := by
  rw [meshArea_facets]
  unfold enclosed allSides
  rw [sum_flatMap (facets s) (fun f => sidesOf (s.F f).corners) _ (fun f => s.fArea f) (fun f hf => by
    have := fArea_sides h (mem_facets.mp hf)
    rw [List.sum_map_mul_left, this]; ring)]

/-- The area of the elements and the area inside the front add up to the area inside the boundary. -/
theorem meshing_area {s : St K} (h : Meshing s) :
    meshArea s + enclosed s.pos (pairs s .front) = enclosed s.pos (pairs s .bdry) := by
  rw [← enclosed_sides h.wf]
  exact sum_chainK (w := fun e => 1 / 2 * Pt.cross (s.pos e.1) (s.pos e.2)) (fun a b => by unfold Pt.cross; ring) h.chain

theorem complete_area {s : St K} (h : Complete s) : meshArea s = enclosed s.pos (pairs s .bdry) := by
  have := meshArea_boundary h.toConforming
  unfold enclosed pairs
  rw [List.map_map]
  have e : ((s.es .bdry).map ((fun e : Nat × Nat => 1 / 2 * Pt.cross (s.pos e.1) (s.pos e.2)) ∘ fun e => ((s.E e).v1, (s.E e).v2))) =
    ((s.es .bdry).map fun e => 1 / 2 * Pt.cross (s.pos (s.E e).v1) (s.pos (s.E e).v2)) := rfl
  rw [e, List.sum_map_mul_left, ← this]
  ring

theorem enclosed_congr {x y : Nat → Pt K} {es : List (Nat × Nat)} (h : ∀ e ∈ es, x e.1 = y e.1 ∧ x e.2 = y e.2) :
    enclosed x es = enclosed y es := by
  unfold enclosed
  congr 1
  exact List.map_congr_left fun e he => by rw [(h e he).1, (h e he).2]

theorem work_enclosed {L : LEnv K} (he : 0 < L.env.eps) (hq : QueryExact L.env) (hso : SortOK L.env)
    (hn : ∀ p, 0 ≤ L.env.norm p ∧ Pt.normSq p ≤ L.env.norm p * L.env.norm p) {s0 s : St K} (h0 : Bare s0)
    (h : Work L s0 s) : enclosed s.pos (pairs s .bdry) = enclosed s0.pos (pairs s0 .bdry) := by
  have hql := queryExact_live hq
  induction h with
  | start =>
    obtain ⟨d1, d2, d3, d4, d5, d6, d7, -⟩ := start_bare L.env.eps h0.wf h0.tris h0.quads h0.intr h0.front h0.null
    rw [funext d2.pos]
    congr 1
    unfold pairs
    rw [d4]
    exact List.map_congr_left fun e hem => by rw [d6 e hem]
  | @run s s' log hss hrun hres hreach ih =>
    have hm := (work_inv he hq hso hn h0 hss).mesh
    obtain ⟨w, fr⟩ := run_frame he hql hso hm.wf hrun
    rw [← ih]
    have : pairs s' .bdry = pairs s .bdry := by
      unfold pairs
      rw [fr.bdry]
      exact List.map_congr_left fun e hem => by rw [fr.E e hem]
    rw [this]
    exact enclosed_congr fun e hem => ⟨fr.pos _ (pairs_verts hm.wf e hem).1, fr.pos _ (pairs_verts hm.wf e hem).2⟩
  | @layers s fuel n growth ht xs xe r hss hl hf ih =>
    have hm := (work_inv he hq hso hn h0 hss).mesh
    obtain ⟨m, k⟩ := meshing_layers he hq hso hn hm hl hf
    have hr := (layers_tracks (R := regFine he hq hso hn) he hql hso n hm hl hf).1
    obtain ⟨c1, -, -⟩ := C119_tiling_partial he hql hso hm.wf hl (fine_good he hq hso hn hm hr hf).2
    rw [← ih, ← meshing_area m, ← meshing_area hm]
    exact c1
  | @resume s hss hlf ih =>
    have hm := (work_inv he hq hso hn h0 hss).mesh
    obtain ⟨-, m2, -, m4, m5, -⟩ := MC.resume (meshing_remaining hm).1 hlf
    rw [← ih, funext m2.pos]
    congr 1
    unfold pairs
    rw [m4]
    exact List.map_congr_left fun e he => (m5 e (Or.inr he)).1

theorem resolved_big {eps : K} {s : St K} (h : Complete s) (hr : Resolved eps s) : BigTris eps s := by
  intro t ht a b c hc
  have h1 : 0 < side (s.pos a) (s.pos b) (s.pos c) :=
    h.ccw (.tri t, a, b, c) (mem_pieces.mpr ⟨ht, by simp [hc, halves]⟩)
  have hv := (h.wf.cor (.tri t) ht).2
  rw [hc] at hv
  have e : area2 (s.pos a) (s.pos b) (s.pos c) = side (s.pos a) (s.pos b) (s.pos c) := by
    unfold area2 side; ring
  rw [e, pow_two]
  refine ⟨h1, ?_⟩
  by_contra hlt
  have := hr a (hv a (by simp)) b (hv b (by simp)) c (hv c (by simp)) (not_le.mp hlt)
  rw [this] at h1
  exact lt_irrefl _ h1

/-- The boundary of a coarser mesh is the same. -/
theorem coarsened_bdry {s t : St K} (h : Coarsened s t) : pairs t .bdry = pairs s .bdry := by
  unfold pairs
  rw [h.lists _ (by simp)]
  exact List.map_congr_left fun e _ => by rw [(h.edata e).1, (h.edata e).2.1]

theorem coarsened_flagged {s t : St K} (h : Coarsened s t) (hb : BdryFlagged s) : BdryFlagged t := by
  intro e he
  rw [h.lists _ (by simp)] at he
  rw [(h.edata e).1, (h.edata e).2.1, (h.vdata _).2, (h.vdata _).2]
  exact hb e he

theorem coarsened_resolved {eps : K} {s t : St K} (h : Coarsened s t) (hr : Resolved eps s) : Resolved eps t := by
  intro a ha b hb c hc
  rw [(h.vdata a).1, (h.vdata b).1, (h.vdata c).1]
  exact hr a (h.verts.subset ha) b (h.verts.subset hb) c (h.verts.subset hc)

end TQ.Whole
