import Verif.Move.Spec
import Verif.QuadTree.Props

/-! # C197: moving meshes -/

set_option linter.unusedSectionVars false

namespace TQ
open Mv MvSpec QTSpec QT
variable {α K : Type*} [Field K] [LinearOrder K]

/-- The objects without those at some addresses. -/
def without (h : Heap α K) (fs : List Nat) : Heap α K := fun x => if x ∈ fs then none else h x

theorem stored_congr {h h' : Heap α K} {a : Nat} {b : Box K} {t : QT α} {fs : List Nat} (s : Stored h a b t fs) (e : ∀ x ∈ fs, h' x = h x) : Stored h' a b t fs := by
  induction s with
  | leaf ha => exact .leaf (by rw [e _ (by simp)]; exact ha)
  | node ha _ _ _ _ nd i0 i1 i2 i3 =>
    refine .node (by rw [e _ (by simp)]; exact ha) (i0 fun x hx => e x ?_) (i1 fun x hx => e x ?_) (i2 fun x hx => e x ?_) (i3 fun x hx => e x ?_) nd <;>
      simp [hx]

theorem stored_self {h : Heap α K} {a : Nat} {b : Box K} {t : QT α} {fs : List Nat} (s : Stored h a b t fs) : a ∈ fs := by cases s <;> simp

theorem destroy_ok {h : Heap α K} {a : Nat} {b : Box K} {t : QT α} {fs : List Nat} (s : Stored h a b t fs) : ∀ {h' : Heap α K}, (∀ x ∈ fs, h' x = h x) →
    ∀ k, height t < k → destroy k h' a = .ok (without h' fs) := by
  induction s with
  | @leaf a b n l ha =>
    intro h' e k hk
    obtain ⟨k, rfl⟩ : ∃ m, k = m + 1 := ⟨k - 1, by omega⟩
    unfold destroy
    simp only [e a (by simp), ha]
    congr 1
    funext x
    simp [free, without]
  | @node a a0 a1 a2 a3 b n c0 c1 c2 c3 f0 f1 f2 f3 ha s0 s1 s2 s3 nd i0 i1 i2 i3 =>
    intro h' e k hk
    simp only [height] at hk
    obtain ⟨k, rfl⟩ : ∃ m, k = m + 1 := ⟨k - 1, by omega⟩
    rw [List.nodup_cons] at nd
    obtain ⟨-, nd⟩ := nd
    simp only [List.nodup_append, List.mem_append] at nd
    obtain ⟨-, ⟨-, ⟨-, -, d23⟩, d1⟩, d0⟩ := nd
    have g0 := i0 (h' := h') (fun x hx => e x (by simp [hx])) k (by omega)
    have g1 := i1 (h' := without h' f0) (fun x hx => by
      rw [← e x (by simp [hx])]
      exact if_neg fun hc => d0 x hc x (Or.inl hx) rfl) k (by omega)
    have g2 := i2 (h' := without (without h' f0) f1) (fun x hx => by
      rw [← e x (by simp [hx])]
      unfold without
      rw [if_neg fun hc => d1 x hc x (Or.inl hx) rfl, if_neg fun hc => d0 x hc x (Or.inr (Or.inl hx)) rfl]) k (by omega)
    have g3 := i3 (h' := without (without (without h' f0) f1) f2) (fun x hx => by
      rw [← e x (by simp [hx])]
      unfold without
      rw [if_neg fun hc => d23 x hc x hx rfl, if_neg fun hc => d1 x hc x (Or.inr hx) rfl, if_neg fun hc => d0 x hc x (Or.inr (Or.inr hx)) rfl]) k (by omega)
    unfold destroy
    simp only [e a (by simp), ha, g0, g1, g2, g3]
    congr 1
    funext x
    simp only [free, without, List.mem_cons, List.mem_append]
    by_cases h1 : x = a <;> by_cases h2 : x ∈ f0 <;> by_cases h3 : x ∈ f1 <;> by_cases h4 : x ∈ f2 <;> by_cases h5 : x ∈ f3 <;> simp [h1, h2, h3, h4, h5]

/-- **C197, partial.** A tree that is not split can be moved: after the end of the source the same tree is at the new place and can be destroyed. -/
theorem C197_unsplit_partial {h : Heap α K} {src dst : Nat} {b : Box K} {n : Nat} {l : List α} {fs : List Nat} (s : Stored h src b (.leaf n l) fs) (hd : dst ≠ src) :
    ∃ h', destroy 1 (moveTree h src dst) src = .ok h' ∧ Stored h' dst b (.leaf n l) [dst] ∧ ∃ h'', destroy 1 h' dst = .ok h'' ∧ h'' dst = none ∧ h'' src = none := by
  cases s with
  | leaf ha =>
    have e1 : moveTree h src dst src = h src := if_neg hd.symm
    have s1 : Stored (moveTree h src dst) src b (.leaf n l) [src] := .leaf (by rw [e1, ha])
    have s2 : Stored (without (moveTree h src dst) [src]) dst b (.leaf n l) [dst] := .leaf (by
      unfold without moveTree
      rw [if_neg (by simpa using hd), if_pos rfl, ha])
    refine ⟨_, destroy_ok s1 (fun _ _ => rfl) 1 (by simp [height]), s2, _, destroy_ok s2 (fun _ _ => rfl) 1 (by simp [height]), ?_, ?_⟩ <;> simp [without, hd.symm]

/-- **C197, partial.** This is so for every tree with at most as many items as a cell may hold, whatever its history; in particular for the empty trees of a new mesh. -/
theorem C197_small_partial [DecidableEq α] [IsStrictOrderedRing K] (mi md : Nat) (pos : α → Pt K) (b : Box K) (hs : 0 ≤ b.s) (os : List (Op α)) (hl : LegalHist pos b [] os)
    (hn : (QTSpec.run pos b [] os).length ≤ mi) : ∃ n l outs, exec mi md pos b QT.empty os = some (.leaf n l, outs) := by
  obtain ⟨t, e, w, p, -⟩ := exec_inv mi md pos b hs os [] QT.empty List.nodup_nil (WF_empty mi md pos b) (List.Perm.refl _) hl
  have hsz : t.size = (QTSpec.run pos b [] os).length := by rw [w.size_eq, p.length_eq]
  cases t with
  | leaf n l => exact ⟨n, l, _, e⟩
  | node n c0 c1 c2 c3 =>
    cases md with
    | zero => exact w.elim
    | succ d =>
      have := (WF_node.mp w).1.1
      simp only [QT.size] at hsz
      omega

/-- **C197 is violated by every split tree:** the end of the source ends the cells that the moved tree refers to, and the end of the moved tree ends them a second time. -/
theorem C197_violated {h : Heap α K} {src dst : Nat} {b : Box K} {n : Nat} {c0 c1 c2 c3 : QT α} {fs : List Nat} (s : Stored h src b (.node n c0 c1 c2 c3) fs) (hd : dst ∉ fs)
    (k : Nat) (hk : height (.node n c0 c1 c2 c3) < k) :
    ∃ h', destroy k (moveTree h src dst) src = .ok h' ∧
      (∃ a0 a1 a2 a3, h' dst = some ⟨b, n, [], some (a0, a1, a2, a3)⟩ ∧ h' a0 = none ∧ h' a1 = none ∧ h' a2 = none ∧ h' a3 = none) ∧ destroy k h' dst = .ub := by
  have e1 : ∀ x ∈ fs, moveTree h src dst x = h x := fun x hx => if_neg fun hc : x = dst => hd (by rw [← hc]; exact hx)
  refine ⟨_, destroy_ok s e1 k hk, ?_⟩
  cases s with
  | @node a a0 a1 a2 a3 b n c0 c1 c2 c3 f0 f1 f2 f3 ha s0 s1 s2 s3 nd =>
    set fs := src :: (f0 ++ (f1 ++ (f2 ++ f3))) with hfs
    have hdst : without (moveTree h src dst) fs dst = some ⟨b, n, [], some (a0, a1, a2, a3)⟩ := by
      unfold without moveTree
      rw [if_neg hd, if_pos rfl, ha]
    have gone : ∀ x ∈ fs, without (moveTree h src dst) fs x = none := fun x hx => if_pos hx
    have g0 := gone a0 (by simp [hfs, stored_self s0])
    refine ⟨⟨a0, a1, a2, a3, hdst, g0, gone a1 (by simp [hfs, stored_self s1]), gone a2 (by simp [hfs, stored_self s2]), gone a3 (by simp [hfs, stored_self s3])⟩, ?_⟩
    simp only [height] at hk
    obtain ⟨k, rfl⟩ : ∃ m, k = m + 1 := ⟨k - 1, by omega⟩
    obtain ⟨k, rfl⟩ : ∃ m, k = m + 1 := ⟨k - 1, by omega⟩
    unfold destroy
    simp only [hdst]
    unfold destroy
    simp only [g0]

/-- Every edge of the list says that it belongs to it. -/
def OwnsAll (l : EList) : Prop := ∀ e ∈ l.edges, e.owner = l.addr

theorem owns_add {l : EList} (h : OwnsAll l) (v1 v2 : Nat) : OwnsAll (addEd l v1 v2) := by
  intro e he
  simp only [addEd, List.mem_append, List.mem_singleton] at he
  rcases he with he | rfl
  · exact h e he
  · rfl

/-- **C197 is violated by every list of edges:** the edges of a moved list are the same, but none is found in it, and none can be removed. (`es` are the edges at a vertex; the others belong to other
lists.) -/
theorem C197_edges_violated {l : EList} (h : OwnsAll l) {new : Nat} (hn : new ≠ l.addr) {es : List Ed} (hes : ∀ e ∈ es, e ∈ (moveEd l new).edges ∨ e.owner ≠ new) :
    (moveEd l new).edges.map (fun e => (e.v1, e.v2)) = l.edges.map (fun e => (e.v1, e.v2)) ∧
    (∀ v1 v2, getDir (moveEd l new) es v1 v2 = none) ∧ ∀ e ∈ (moveEd l new).edges, removeEd (moveEd l new) e = moveEd l new := by
  refine ⟨rfl, fun v1 v2 => List.find?_eq_none.mpr fun e he hc => ?_, fun e he => if_pos ?_⟩
  · rw [Bool.and_eq_true] at hc
    have h2 : e.owner = new := of_decide_eq_true hc.1
    rcases hes e he with h1 | h1
    · exact hn (h2.symm.trans (h e h1))
    · exact h1 h2
  · rw [h e he]; exact hn.symm

/-- **C197, partial.** A list that is moved while it is empty can be filled afterwards: every added edge is found in it. -/
theorem C197_edges_partial (l : EList) (h0 : l.edges = []) (new : Nat) (ps : List (Nat × Nat)) :
    OwnsAll (ps.foldl (fun l p => addEd l p.1 p.2) (moveEd l new)) ∧
    ∀ p ∈ ps, getDir (ps.foldl (fun l p => addEd l p.1 p.2) (moveEd l new)) (ps.foldl (fun l p => addEd l p.1 p.2) (moveEd l new)).edges p.1 p.2 = some ⟨p.1, p.2, new⟩ := by
  have key : ∀ (ps : List (Nat × Nat)) (l : EList), (ps.foldl (fun l p => addEd l p.1 p.2) l).addr = l.addr ∧
      (ps.foldl (fun l p => addEd l p.1 p.2) l).edges = l.edges ++ ps.map fun p => ⟨p.1, p.2, l.addr⟩ := by
    intro ps
    induction ps with
    | nil => intro l; simp
    | cons p ps ih => intro l; obtain ⟨i1, i2⟩ := ih (addEd l p.1 p.2); exact ⟨by rw [List.foldl_cons, i1]; rfl, by rw [List.foldl_cons, i2]; simp [addEd]⟩
  obtain ⟨k1, k2⟩ := key ps (moveEd l new)
  have k3 : (ps.foldl (fun l p => addEd l p.1 p.2) (moveEd l new)).edges = ps.map fun p => ⟨p.1, p.2, new⟩ := by rw [k2]; simp [moveEd, h0]
  refine ⟨fun e he => ?_, fun p hp => ?_⟩
  · rw [k3] at he
    obtain ⟨q, -, rfl⟩ := List.mem_map.mp he
    rw [k1]; rfl
  · rw [k3]
    unfold getDir
    rw [k1]
    rcases hf : (ps.map fun p => (⟨p.1, p.2, new⟩ : Ed)).find? (fun e => decide (e.owner = (moveEd l new).addr) && (decide (e.v1 = p.1) && decide (e.v2 = p.2))) with _ | e
    · exact absurd (List.find?_eq_none.mp hf ⟨p.1, p.2, new⟩ (List.mem_map.mpr ⟨p, hp, rfl⟩)) (by simp [moveEd])
    · have h1 := List.find?_some hf
      obtain ⟨q, -, rfl⟩ := List.mem_map.mp (List.mem_of_find?_eq_some hf)
      rw [Bool.and_eq_true, Bool.and_eq_true] at h1
      rw [← show q = p from Prod.ext (of_decide_eq_true h1.2.1) (of_decide_eq_true h1.2.2)] at hf ⊢
      exact hf

namespace MvEx
/-- A tree with four leaves at the address 7 with its children at 1 to 4. -/
def heap : Heap Nat ℚ := fun x =>
  if x = 7 then some ⟨⟨⟨0, 0⟩, 4⟩, 2, [], some (1, 2, 3, 4)⟩
  else if x = 1 then some ⟨⟨⟨1, 1⟩, 2⟩, 1, [5], none⟩
  else if x = 2 then some ⟨⟨⟨-1, 1⟩, 2⟩, 0, [], none⟩
  else if x = 3 then some ⟨⟨⟨-1, -1⟩, 2⟩, 1, [6], none⟩
  else if x = 4 then some ⟨⟨⟨1, -1⟩, 2⟩, 0, [], none⟩ else none
theorem stored : Stored heap 7 ⟨⟨0, 0⟩, 4⟩ (.node 2 (.leaf 1 [5]) (.leaf 0 []) (.leaf 1 [6]) (.leaf 0 [])) [7, 1, 2, 3, 4] :=
  .node (f0 := [1]) (f1 := [2]) (f2 := [3]) (f3 := [4]) (by decide +kernel) (.leaf (by decide +kernel)) (.leaf (by decide +kernel)) (.leaf (by decide +kernel)) (.leaf (by decide +kernel)) (by decide)
/-- Moved to the address 9. -/
example : ∃ h', destroy 2 (moveTree heap 7 9) 7 = .ok h' ∧ destroy 2 h' 9 = .ub :=
  have ⟨h', h1, _, h2⟩ := C197_violated stored (dst := 9) (by decide) 2 (by decide)
  ⟨h', h1, h2⟩
/-- Without the move it can be destroyed. -/
example : destroy 2 heap 7 = .ok (without heap [7, 1, 2, 3, 4]) := destroy_ok stored (fun _ _ => rfl) 2 (by decide)
/-- One of its leaves can be moved. -/
example := C197_unsplit_partial (dst := 9) (.leaf (by decide +kernel : heap 1 = some ⟨⟨⟨1, 1⟩, 2⟩, 1, [5], none⟩)) (by decide)
/-- A history that ends with few items. -/
example : LegalHist samplePos sampleBox [] [.add 0, .add 1, .add 2, .remove 1] ∧ (QTSpec.run samplePos sampleBox [] [.add 0, .add 1, .add 2, .remove 1]).length ≤ 2 := by decide +kernel
/-- A list with two edges. -/
example : OwnsAll (addEd (addEd ⟨3, []⟩ 0 1) 1 2) ∧ getDir (addEd (addEd ⟨3, []⟩ 0 1) 1 2) (addEd (addEd ⟨3, []⟩ 0 1) 1 2).edges 1 2 = some ⟨1, 2, 3⟩ ∧
    getDir (moveEd (addEd (addEd ⟨3, []⟩ 0 1) 1 2) 8) (addEd (addEd ⟨3, []⟩ 0 1) 1 2).edges 1 2 = none :=
  ⟨owns_add (owns_add (by simp [OwnsAll]) 0 1) 1 2, by decide, by decide⟩
end MvEx

end TQ

#print axioms TQ.C197_unsplit_partial
#print axioms TQ.C197_small_partial
#print axioms TQ.C197_violated
#print axioms TQ.C197_edges_violated
#print axioms TQ.C197_edges_partial
