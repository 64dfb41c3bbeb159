import Verif.Whole.MultiSearch
import Verif.Whole.NextExample

/-! # C177: the preparation of a mesh links it with the meshes beside it -/

set_option linter.unusedSectionVars false
set_option linter.unusedSimpArgs false

namespace TQ
open QL MS MeshSpec MCSpec MC MS.St FUSpec WholeSpec RefSpec CleanSpec Whole QLSpec SmSpec Sm GN MM MergeSpec CK FU AM AppSpec LinkSpec
variable {K : Type*} [Field K] [LinearOrder K] [IsStrictOrderedRing K]

/-- **C177.** The preparation of a mesh beside other meshes: every boundary edge of another mesh with both ends on an edge of
the domain gets its counterpart, a boundary edge of the new mesh between the same points in opposite direction, and the two are
linked with each other; every link of the new mesh is of this kind; apart from these links the other meshes are as before; and
linked edges that meet in a point have a vertex in common. -/
theorem C177_links {eps : K} {bd : List (List (Fr.SrcEdge K))} {fx : List (Fr.SrcEdge K)} {w w' : World K} {ms : List Nat} {a : Nat}
    (D : DomainData (fun e => (nbrA eps w ms e).map (·.2)) bd fx) (N : Neighbours eps w ms a (LinkSpec.sides bd)) {P : Prep K}
    (hF : P.front = Fr.collect (fun e => (nbrA eps w ms e).map (·.2)) bd fx) (hR : P.refs = refsOf eps w ms bd) (hS : LineSub P.sub) (hw : WF (w a))
    (h : prepareMesh P w a = .ret true w') :
    (∀ m ∈ ms, ∀ e' ∈ (w m).es .bdry, (∃ d ∈ LinkSpec.sides bd, LiesOn eps d (w m) e') → ∃ e ∈ (w' a).es .bdry, Linked w' a e m e') ∧
    (∀ e ∈ (w' a).es .bdry, ∀ m e', ((w' a).E e).twin = some (m, e') →
      m ∈ ms ∧ e' ∈ (w m).es .bdry ∧ (∃ d ∈ LinkSpec.sides bd, LiesOn eps d (w m) e') ∧ Linked w' a e m e') ∧
    (∀ m, m ≠ a → SameButTwins (w m) (w' m)) ∧
    (∀ m e', m ≠ a → ¬ (m ∈ ms ∧ e' ∈ (w m).es .bdry ∧ ∃ d ∈ LinkSpec.sides bd, LiesOn eps d (w m) e') → ((w' m).E e').twin = ((w m).E e').twin) ∧
    (∀ e ∈ (w' a).es .bdry, ∀ f ∈ (w' a).es .bdry, ((w' a).E e).twin ≠ none → ((w' a).E f).twin ≠ none →
      ∀ u v, (u = ((w' a).E e).v1 ∨ u = ((w' a).E e).v2) → (v = ((w' a).E f).v1 ∨ v = ((w' a).E f).v2) → (w' a).pos u = (w' a).pos v → u = v) := by
  have e1 : P.refs = (bd.flatten.flatMap (nbrA eps w ms)).map (·.1) := by rw [hR, refsOf_flatten]
  have e2 : (bd.flatMap fun b => b.flatMap fun e => (nbrA eps w ms e).map (·.2)) = (bd.flatten.flatMap (nbrA eps w ms)).map (·.2) := by
    rw [List.map_flatMap, flatMap_flatten]
  have mem : ∀ n, n ∈ bd.flatten.flatMap (nbrA eps w ms) ↔
      n.1.1 ∈ ms ∧ n.1.2 ∈ (w n.1.1).es .bdry ∧ (∃ d ∈ LinkSpec.sides bd, LiesOn eps d (w n.1.1) n.1.2) ∧ n.2 = edgeSrc (w n.1.1) n.1.2 := by
    intro n
    rw [List.mem_flatMap]
    constructor
    · rintro ⟨d, hd, hn⟩
      have hd' : (d.p1, d.p2) ∈ LinkSpec.sides bd := List.mem_map_of_mem (f := fun d : Fr.SrcEdge K => (d.p1, d.p2)) hd
      obtain ⟨q1, q2, q3, q4⟩ := (nbrA_addr (N.small _ hd') n).mp hn
      exact ⟨q1, q2, ⟨_, hd', q3⟩, q4⟩
    · rintro ⟨q1, q2, ⟨x, hx, q3⟩, q4⟩
      have sx := N.small x hx
      obtain ⟨d, hd, rfl⟩ := List.mem_map.mp hx
      exact ⟨d, hd, (nbrA_addr sx n).mpr ⟨q1, q2, q3, q4⟩⟩
  have hr : ∀ x ∈ P.refs, x.1 ≠ a := by
    rw [e1]
    intro x hx hxa
    obtain ⟨n, hn, rfl⟩ := List.mem_map.mp hx
    exact N.other (hxa ▸ ((mem n).mp hn).1)
  obtain ⟨k1, k2, k3, place, k4⟩ := links_made D hF hw hr (by rw [hR]; exact refsOf_nodup N) h e1 e2
  obtain ⟨-, -, -, -, -, -, -, -, -, -, same⟩ := C115_prepared D hF hS hw hr h
  have good : ∀ n ∈ bd.flatten.flatMap (nbrA eps w ms), ∀ e, ((w' a).pos ((w' a).E e).v1 = n.2.p2 ∧ (w' a).pos ((w' a).E e).v2 = n.2.p1 ∧
      ((w' a).E e).twin = some n.1 ∧ ((w' n.1.1).E n.1.2).twin = some (a, e)) → Linked w' a e n.1.1 n.1.2 := by
    rintro n hn e ⟨g1, g2, g3, g4⟩
    obtain ⟨q1, -, -, q4⟩ := (mem n).mp hn
    obtain ⟨s1, s2⟩ := edgeSrc_same (same n.1.1 fun hh => N.other (hh ▸ q1)) n.1.2
    exact ⟨g3, g4, by rw [g1, s2, q4], by rw [g2, s1, q4]⟩
  refine ⟨fun m hm e' he' hd => ?_, fun e he m e' ht => ?_, same, fun m e' hm hno => ?_, fun e he f hf he0 hf0 u v hu hv hp => ?_⟩
  · have hn := (mem ((m, e'), edgeSrc (w m) e')).mpr ⟨hm, he', hd, rfl⟩
    obtain ⟨e, he, g⟩ := k1 _ hn
    exact ⟨e, he, good _ hn e g⟩
  · rcases k2 e he with hh | ⟨n, hn, g⟩
    · rw [hh] at ht; simp at ht
    · obtain ⟨q1, q2, q3, q4⟩ := (mem n).mp hn
      have := g.2.2.1
      rw [ht, Option.some.injEq] at this
      have L := good n hn e g
      rw [← this] at q1 q2 q3 L
      exact ⟨q1, q2, q3, L⟩
  · refine k3 m e' hm ?_
    rw [e1]
    intro hx
    obtain ⟨n, hn, hx⟩ := List.mem_map.mp hx
    obtain ⟨q1, q2, q3, -⟩ := (mem n).mp hn
    rw [hx] at q1 q2 q3
    exact hno ⟨q1, q2, q3⟩
  · obtain ⟨a1, a2⟩ := k4 e he he0
    obtain ⟨b1, b2⟩ := k4 f hf hf0
    have hu' : u = place ((w' a).pos u) := by rcases hu with rfl | rfl; exacts [a1, a2]
    have hv' : v = place ((w' a).pos v) := by rcases hv with rfl | rfl; exacts [b1, b2]
    rw [hu', hv', hp]

/-- **C177.** A mesh prepared beside the mesh `oi`, which has no links before, satisfies what the following steps of the application need (see C163):
the boundaries of the old mesh and of the domain have to be apart, except for the edges of the old mesh that lie on the domain's. -/
theorem C177_beside {eps : K} {bd : List (List (Fr.SrcEdge K))} {fx : List (Fr.SrcEdge K)} {w w' : World K} {oi a : Nat}
    (D : DomainData (fun e => (nbrA eps w [oi] e).map (·.2)) bd fx) (N : Neighbours eps w [oi] a (LinkSpec.sides bd)) {P : Prep K}
    (hF : P.front = Fr.collect (fun e => (nbrA eps w [oi] e).map (·.2)) bd fx) (hR : P.refs = refsOf eps w [oi] bd) (hS : LineSub P.sub) (hw : WF (w a))
    (h : prepareMesh P w a = .ret true w') (old : ∀ e ∈ (w oi).es .bdry, ((w oi).E e).twin = none) (ends : EndsApart (w oi))
    (meet : ∃ d ∈ LinkSpec.sides bd, ∃ e' ∈ (w oi).es .bdry, LiesOn eps d (w oi) e')
    (disjoint : ∀ p, winding (w' a).pos (pairs (w' a) .bdry) p + winding (w' oi).pos (pairs (w' oi) .bdry) p ≤ 1)
    (rims : RimsApart w' a oi) : Beside w' a oi := by
  obtain ⟨k1, k2, same, k4, k5⟩ := C177_links D N hF hR hS hw h
  have hne : a ≠ oi := fun hh => N.other (by simp [hh])
  have so := same oi hne.symm
  have hb : (w' oi).es .bdry = (w oi).es .bdry := by rw [so.1]
  have links : ∀ e' ∈ (w' oi).es .bdry, ∀ x, ((w' oi).E e').twin = some x → ∃ e ∈ (w' a).es .bdry, x = (a, e) ∧ Linked w' a e oi e' := by
    intro e' he' x hx
    rw [hb] at he'
    by_cases hd : ∃ d ∈ LinkSpec.sides bd, LiesOn eps d (w oi) e'
    · obtain ⟨e, he, L⟩ := k1 oi (by simp) e' he' hd
      have := L.back
      rw [hx, Option.some.injEq] at this
      exact ⟨e, he, this, L⟩
    · have := k4 oi e' hne.symm (fun hh => hd hh.2.2)
      rw [hx, old e' he'] at this
      simp at this
  have notIface : ∀ s t e, (∀ x, ((w' s).E e).twin = some x → x.1 = t) → ¬ Iface w' s t e → ((w' s).E e).twin = none := by
    intro s t e hh hi
    rcases ht : ((w' s).E e).twin with _ | x
    · rfl
    · have := hh x ht
      exact absurd ⟨x.2, by rw [ht, ← this]⟩ hi
  refine { ne := hne, link := ?_, back := ?_, apartN := ?_, apartO := ?_, self := ?_, disjoint := disjoint, rims := ?_, shared := ?_ }
  · intro e he e' ht
    obtain ⟨-, q2, -, L⟩ := k2 e he oi e' ht
    exact ⟨by rw [hb]; exact q2, L.back, L.first, L.second⟩
  · intro e' he' e ht
    obtain ⟨e2, he2, hx, L⟩ := links e' he' _ ht
    simp only [Prod.mk.injEq, true_and] at hx
    subst hx
    exact ⟨he2, L.twin⟩
  · rintro u v ⟨e, he, ⟨x, hx⟩, hu⟩ ⟨f, hf, ⟨y, hy⟩, hv⟩ hp
    exact k5 e he f hf (by rw [hx]; simp) (by rw [hy]; simp) u v (hu.imp Eq.symm Eq.symm) (hv.imp Eq.symm Eq.symm) hp
  · rintro u v ⟨e, he, -, hu⟩ ⟨f, hf, -, hv⟩ hp
    have hp' : (w' oi).pos = (w oi).pos := by rw [so.1]; rfl
    rw [hp'] at hp
    rw [hb] at he hf
    rw [so.2 e] at hu
    rw [so.2 f] at hv
    exact ends u v ⟨e, he, hu⟩ ⟨f, hf, hv⟩ hp
  · intro e he x hx
    obtain ⟨e2, -, rfl, -⟩ := links e he x hx
    rfl
  · intro e he hi e' he' hi'
    refine rims e he (notIface a oi e (fun x hx => ?_) hi) e' he' (notIface oi a e' (fun x hx => ?_) hi')
    · obtain ⟨q1, -⟩ := k2 e he x.1 x.2 hx
      simpa using q1
    · obtain ⟨e2, -, rfl, -⟩ := links e' he' x hx
      rfl
  · obtain ⟨d, hd, e', he', hl⟩ := meet
    obtain ⟨e, he, L⟩ := k1 oi (by simp) e' he' ⟨d, hd, hl⟩
    exact ⟨e, he, e', L.twin⟩

/-! ### Examples -/

namespace MLEx
open NXEx GNEx Fr
/-- The square at the right with the neighbour edges found in the mesh of the unit square. -/
def prepN : Prep ℚ :=
  ⟨1 / 1000, pos2, [(true, sqEdges)], collect (fun e => (nbrA (1 / 1000) w1 [0] e).map (·.2)) [sq2] [], noSub, [], refsOf (1 / 1000) w1 [0] [sq2]⟩
def wN : World ℚ := match prepareMesh prepN w1 1 with
  | .ret _ w => w
  | _ => w1
theorem wN_eq : prepareMesh prepN w1 1 = .ret true wN := by
  have key : (match prepareMesh prepN w1 1 with
    | .ret b _ => b
    | _ => false) = true := by decide +kernel
  unfold wN
  rcases h : prepareMesh prepN w1 1 with ⟨b, w⟩ | _ | _
  · rw [h] at key
    obtain rfl : b = true := key
    rfl
  · rw [h] at key; simp at key
  · rw [h] at key; simp at key
theorem nbrN : sq2.map (fun e => (nbrA (1 / 1000) w1 [0] e).map (·.2)) = sq2.map nbr2 := by decide +kernel
theorem nbrN_mem {e : SrcEdge ℚ} (he : e ∈ sq2) : (nbrA (1 / 1000) w1 [0] e).map (·.2) = nbr2 e := by
  have := nbrN
  rw [List.map_inj_left] at this
  exact this e he
theorem dataN : DomainData (fun e => (nbrA (1 / 1000) w1 [0] e).map (·.2)) [sq2] [] where
  closed := data2.closed
  leads := by
    intro b hb e he h
    simp only [List.mem_cons, List.not_mem_nil, or_false] at hb
    subst hb
    rw [nbrN_mem he] at h ⊢
    exact data2.leads sq2 (by simp) e he h
  free := by
    intro b hb e he
    simp only [List.mem_cons, List.not_mem_nil, or_false] at hb
    subst hb
    rw [nbrN_mem he]
    exact data2.free sq2 (by simp) e he
  fixed := by simp
  ne := by decide +kernel
theorem neighN : Neighbours (1 / 1000) w1 [0] 1 (LinkSpec.sides [sq2]) :=
  ⟨by decide, by decide, by decide +kernel, by decide +kernel, by decide +kernel⟩
theorem simpleN : SimpleFront (wN 1).pos (pairs (wN 1) .bdry) := by
  rw [show pairs (wN 1) .bdry = [(0, 1), (1, 2), (2, 3), (3, 0)] by decide +kernel]
  exact simple_shift ⟨1, 0⟩ (FUEx.unit_simple (pos := GNEx.sqMesh.pos) (by decide +kernel)) (by decide +kernel)
theorem endsN : EndsApart (w1 0) := by
  have key : ∀ e ∈ (w1 0).es .bdry, ∀ f ∈ (w1 0).es .bdry, ∀ u ∈ [((w1 0).E e).v1, ((w1 0).E e).v2], ∀ v ∈ [((w1 0).E f).v1, ((w1 0).E f).v2],
      (w1 0).pos u = (w1 0).pos v → u = v := by decide +kernel
  rintro u v ⟨e, he, hu⟩ ⟨f, hf, hv⟩ hp
  exact key e he f hf u (by rcases hu with rfl | rfl <;> simp) v (by rcases hv with rfl | rfl <;> simp) hp
theorem oldN : SimpleFront (wN 0).pos (pairs (wN 0) .bdry) := by
  obtain ⟨-, -, -, -, -, -, -, -, -, -, same⟩ := C115_prepared dataN (P := prepN) rfl noSub_line (w := w1) (a := 1) (wf_empty 1) (by decide +kernel) wN_eq
  obtain ⟨-, -, -, m4, -⟩ := C161_application (L := FNEx.Lf) FUEx.epsPos FUEx.exact FUEx.sortOK FUEx.norm_ok first_prepared.bare first_prepared.flagged
    first_prepared.area (APEx.done_of ok1) first_run.layers first_run.well first_run.ok first_run.quads (Or.inl rfl) (APEx.unfolded_of (by decide +kernel))
  exact (meshOf_twins m4 (same 0 (by decide))).complete.bdry
end MLEx

/-- `C177_links`: the right side of the unit square gets its counterpart. -/
example : ∃ e ∈ (MLEx.wN 1).es .bdry, Linked MLEx.wN 1 e 0 5 :=
  (C177_links MLEx.dataN MLEx.neighN (P := MLEx.prepN) rfl rfl GNEx.noSub_line (w := NXEx.w1) (wf_empty 1) MLEx.wN_eq).1 0 (by decide) 5
    (by decide +kernel) (by decide +kernel)

/-- `C177_beside`: the two squares. -/
example : Beside MLEx.wN 1 0 := by
  refine C177_beside MLEx.dataN MLEx.neighN (P := MLEx.prepN) rfl rfl GNEx.noSub_line (w := NXEx.w1) (wf_empty 1) MLEx.wN_eq
    (by decide +kernel) MLEx.endsN (by decide +kernel) (disjoint_of_line (c := 1) MLEx.simpleN MLEx.oldN (by decide +kernel) (by decide +kernel)) ?_
  intro e he ht e' he' ht' x hx hx'
  exact rims_of_line (c := 1) ((show ∀ e ∈ (MLEx.wN 1).es .bdry, 1 ≤ ((MLEx.wN 1).pos ((MLEx.wN 1).E e).v1).x ∧ 1 ≤ ((MLEx.wN 1).pos ((MLEx.wN 1).E e).v2).x by
      decide +kernel) e he)
    ((show ∀ e ∈ (MLEx.wN 0).es .bdry, ((MLEx.wN 0).pos ((MLEx.wN 0).E e).v1).x ≤ 1 ∧ ((MLEx.wN 0).pos ((MLEx.wN 0).E e).v2).x ≤ 1 by decide +kernel) e' he')
    ((show ∀ e ∈ (MLEx.wN 1).es .bdry, ((MLEx.wN 1).E e).twin = none → 1 < ((MLEx.wN 1).pos ((MLEx.wN 1).E e).v1).x ∨
      1 < ((MLEx.wN 1).pos ((MLEx.wN 1).E e).v2).x by decide +kernel) e he ht)
    ((show ∀ e ∈ (MLEx.wN 0).es .bdry, ((MLEx.wN 0).E e).twin = none → ((MLEx.wN 0).pos ((MLEx.wN 0).E e).v1).x < 1 ∨
      ((MLEx.wN 0).pos ((MLEx.wN 0).E e).v2).x < 1 by decide +kernel) e' he' ht') hx hx'

end TQ

#print axioms TQ.C177_links
#print axioms TQ.C177_beside
