import Verif.Whole.MultiLemmas
import Verif.Whole.MultiSpec
import Verif.Whole.NextProps

/-! # Lemmas: the search for the edges of other meshes -/

set_option linter.unusedSectionVars false
set_option linter.unusedSimpArgs false

namespace TQ
open QL MS MeshSpec MCSpec MC MS.St FUSpec WholeSpec RefSpec CleanSpec Whole QLSpec SmSpec Sm GN MM MergeSpec CK FU AM AppSpec LinkSpec
variable {K : Type*} [Field K] [LinearOrder K] [IsStrictOrderedRing K]

theorem nbrStepA_perm (eps : K) (e : Fr.SrcEdge K) (heps : eps ≤ 2 * (Pt.normSq (e.p2 - e.p1) * Pt.normSq (e.p2 - e.p1)))
    (found bdry : List ((Nat × Nat) × Fr.SrcEdge K)) :
    (nbrStepA eps e found bdry).Perm (found ++ bdry.filter fun n => onIface eps e n.2) := by
  unfold nbrStepA
  dsimp only
  refine (List.mergeSort_perm _ _).trans ?_
  rw [List.filter_filter]
  have : bdry.filter (fun n => (inOnSegment eps e.p1 e.p2 n.2.p1 && inOnSegment eps e.p1 e.p2 n.2.p2) &&
      decide (Pt.normSq (Fr.srcMid n.2 - Fr.srcMid e) < 9 / 4 * Pt.normSq (e.p2 - e.p1))) = bdry.filter fun n => onIface eps e n.2 := by
    apply List.filter_congr
    intro n _
    cases h : onIface eps e n.2 with
    | false => unfold onIface at h; rw [h]; rfl
    | true =>
      have := onIface_near eps e n.2 heps h
      unfold onIface at h
      rw [h]
      simpa using this
  rw [this]

theorem nbrA_perm (eps : K) (w : World K) (ms : List Nat) (e : Fr.SrcEdge K) (heps : eps ≤ 2 * (Pt.normSq (e.p2 - e.p1) * Pt.normSq (e.p2 - e.p1))) :
    (nbrA eps w ms e).Perm ((ms.flatMap (GN.bdryOf w)).filter fun n => onIface eps e n.2) := by
  have key : ∀ (l : List (List ((Nat × Nat) × Fr.SrcEdge K))) (found : List ((Nat × Nat) × Fr.SrcEdge K)),
      (l.foldl (nbrStepA eps e) found).Perm (found ++ l.flatten.filter fun n => onIface eps e n.2) := by
    intro l
    induction l with
    | nil => intro found; simp
    | cons b l ih =>
      intro found
      rw [List.foldl_cons, List.flatten_cons, List.filter_append, ← List.append_assoc]
      exact (ih _).trans ((nbrStepA_perm eps e heps found b).append_right _)
  have := key (ms.map (GN.bdryOf w)) []
  rw [List.nil_append] at this
  rw [List.flatMap]
  exact this

theorem lies_iff (eps : K) (d : Fr.SrcEdge K) (s : St K) (e : Nat) : onIface eps d (edgeSrc s e) = true ↔ LiesOn eps (d.p1, d.p2) s e := by
  unfold onIface LiesOn edgeSrc
  rw [Bool.and_eq_true]

/-- The addresses found for an edge of the domain. -/
theorem nbrA_addr {eps : K} {w : World K} {ms : List Nat} {d : Fr.SrcEdge K} (heps : eps ≤ 2 * (Pt.normSq (d.p2 - d.p1) * Pt.normSq (d.p2 - d.p1))) (n : (Nat × Nat) × Fr.SrcEdge K) :
    n ∈ nbrA eps w ms d ↔ n.1.1 ∈ ms ∧ n.1.2 ∈ (w n.1.1).es .bdry ∧ LiesOn eps (d.p1, d.p2) (w n.1.1) n.1.2 ∧ n.2 = edgeSrc (w n.1.1) n.1.2 := by
  rw [(nbrA_perm eps w ms d heps).mem_iff, List.mem_filter, List.mem_flatMap]
  constructor
  · rintro ⟨⟨m, hm, hn⟩, ho⟩
    unfold GN.bdryOf at hn
    obtain ⟨e, he, rfl⟩ := List.mem_map.mp hn
    exact ⟨hm, he, (lies_iff ..).mp ho, rfl⟩
  · rintro ⟨hm, he, ho, hn⟩
    refine ⟨⟨n.1.1, hm, List.mem_map.mpr ⟨n.1.2, he, ?_⟩⟩, ?_⟩
    · rw [← hn]
    · rw [hn]; exact (lies_iff ..).mpr ho

theorem bdryOf_nodup {w : World K} {ms : List Nat} (h1 : ms.Nodup) (h2 : ∀ m ∈ ms, ((w m).es .bdry).Nodup) : ((ms.flatMap (GN.bdryOf w)).map (·.1)).Nodup := by
  rw [List.map_flatMap, List.nodup_flatMap]
  refine ⟨fun m hm => ?_, ?_⟩
  · unfold GN.bdryOf
    rw [List.map_map]
    exact (h2 m hm).map fun x y h => (Prod.mk.inj h).2
  · refine List.Pairwise.imp ?_ h1
    intro m m' hne
    simp only [Function.onFun]
    intro x hx hx'
    unfold GN.bdryOf at hx hx'
    rw [List.map_map, List.mem_map] at hx hx'
    obtain ⟨e, -, rfl⟩ := hx
    obtain ⟨e', -, h⟩ := hx'
    exact hne (Prod.mk.inj h).1.symm

theorem flatMap_flatten {α β : Type*} (l : List (List α)) (g : α → List β) : l.flatten.flatMap g = l.flatMap fun b => b.flatMap g := by
  induction l with
  | nil => rfl
  | cons b l ih => simp [ih]

theorem refsOf_flatten (eps : K) (w : World K) (ms : List Nat) (bd : List (List (Fr.SrcEdge K))) :
    refsOf eps w ms bd = (bd.flatten.flatMap (nbrA eps w ms)).map (·.1) := by
  unfold refsOf
  rw [List.map_flatMap, flatMap_flatten]

theorem refsOf_nodup {eps : K} {w : World K} {ms : List Nat} {a : Nat} {bd : List (List (Fr.SrcEdge K))} (N : Neighbours eps w ms a (LinkSpec.sides bd)) :
    (refsOf eps w ms bd).Nodup := by
  have sm : ∀ d ∈ bd.flatten, eps ≤ 2 * (Pt.normSq (d.p2 - d.p1) * Pt.normSq (d.p2 - d.p1)) := fun d hd =>
    N.small (d.p1, d.p2) (List.mem_map_of_mem (f := fun d : Fr.SrcEdge K => (d.p1, d.p2)) hd)
  rw [refsOf_flatten, List.map_flatMap, List.nodup_flatMap]
  refine ⟨fun d hd => ?_, ?_⟩
  · have p := (nbrA_perm eps w ms d (sm d hd)).map (·.1)
    rw [p.nodup_iff]
    exact (bdryOf_nodup N.distinct N.listed).sublist (List.filter_sublist.map _)
  · have h := List.pairwise_map.mp N.once
    rw [List.pairwise_iff_forall_sublist] at h ⊢
    intro d d' hs
    simp only [Function.onFun]
    intro x hx hx'
    have hd := hs.subset (show d ∈ [d, d'] by simp)
    have hd' := hs.subset (show d' ∈ [d, d'] by simp)
    obtain ⟨n, hn, rfl⟩ := List.mem_map.mp hx
    obtain ⟨n', hn', e⟩ := List.mem_map.mp hx'
    obtain ⟨a1, a2, a3, -⟩ := (nbrA_addr (sm d hd) n).mp hn
    obtain ⟨-, -, b3, -⟩ := (nbrA_addr (sm d' hd') n').mp hn'
    rw [e] at b3
    exact h hs _ a1 _ a2 a3 b3

theorem edgeSrc_same {s t : St K} (h : SameButTwins s t) (e : Nat) : t.pos (t.E e).v1 = (edgeSrc s e).p1 ∧ t.pos (t.E e).v2 = (edgeSrc s e).p2 := by
  have hE := h.2 e
  have hp : t.pos = s.pos := by rw [h.1]; rfl
  rw [hp, hE]
  exact ⟨rfl, rfl⟩

end TQ
