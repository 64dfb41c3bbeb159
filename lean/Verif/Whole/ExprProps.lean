import Verif.Whole.ExprModel

/-! # C176: the element size of a mesh definition is the expression written in it -/

set_option linter.unusedSectionVars false

namespace TQ
open PR Cf Ex
variable {K : Type}

/-- **C176.** What holds: while the definition `k` is worked on, the size function is the one of the last text up to `k` that is an
expression; so it is the one written in the definition if this is an expression, and not a number if there was none so far. Missing: a text
that is no expression is not reported (see `C176_unparsable_violated`). -/
theorem C176_sizes_partial (parse : Line → Option (Pt K → K)) (ts : List Line) (k : Nat) (hk : k < ts.length) :
    ∃ st, (sizesUsed parse none ts)[k]? = some st ∧ st = ((ts.take (k + 1)).reverse.findSome? parse) ∧
      (∀ f, parse ts[k] = some f → ∀ p, callSize st p = some (f p)) := by
  have key : ∀ (ts : List Line) (st0 : Static K) (k : Nat), k < ts.length →
      (sizesUsed parse st0 ts)[k]? = some (((ts.take (k + 1)).reverse.findSome? parse).or st0) := by
    intro ts
    induction ts with
    | nil => intro st0 k hk; simp at hk
    | cons t ts ih =>
      intro st0 k hk
      have e0 : initSize parse t st0 = (parse t).or st0 := by
        unfold initSize; cases parse t <;> rfl
      cases k with
      | zero => simp [sizesUsed, e0]
      | succ k =>
        have hk : k < ts.length := by simpa using hk
        rw [sizesUsed, List.getElem?_cons_succ, ih _ k hk, e0, List.take_succ_cons, List.reverse_cons, List.findSome?_append]
        simp only [List.findSome?_cons, List.findSome?_nil]
        cases h : ((ts.take (k + 1)).reverse.findSome? parse) <;> cases h2 : parse t <;> simp
  refine ⟨_, key ts none k hk, by simp, fun f hf p => ?_⟩
  have hl : (ts.take (k + 1)).reverse = ts[k] :: (ts.take k).reverse := by rw [List.take_succ_eq_append_getElem hk]; simp
  rw [hl, List.findSome?_cons, hf]
  rfl

/-- **C176 (refuted).** A definition whose size is no expression is meshed with the size of the definition before, without any message. -/
theorem C176_unparsable_violated : ∃ (parse : Line → Option (Pt ℚ → ℚ)) (t1 t2 : Line) (f : Pt ℚ → ℚ), parse t1 = some f ∧ parse t2 = none ∧
    sizesUsed parse none [t1, t2] = [some f, some f] :=
  ⟨fun t => if t = "0.1".toList then some fun _ => 1 / 10 else none, "0.1".toList, "0,1".toList, fun _ => 1 / 10, rfl, rfl, rfl⟩

/-- **C176 (refuted).** A program that makes two size functions finds that the first one has become the second one. -/
theorem C176_library_violated : ∃ (parse : Line → Option (Pt ℚ → ℚ)) (t1 t2 : Line) (f g : Pt ℚ → ℚ), parse t1 = some f ∧ parse t2 = some g ∧
    ∃ h ∈ (keptSizes parse [t1, t2])[0]?, h ⟨0, 0⟩ = some (g ⟨0, 0⟩) ∧ f ⟨0, 0⟩ ≠ g ⟨0, 0⟩ :=
  ⟨fun t => if t = "0.1".toList then some fun _ => 1 / 10 else some fun p => 1 / 5 + p.x, "0.1".toList, "0.2+x".toList, fun _ => 1 / 10, fun p => 1 / 5 + p.x,
    rfl, rfl, _, rfl, rfl, by norm_num⟩

/-- **C176 (refuted).** Without the expression library, everything behind the first number is ignored: `n ++ rest` gives the constant function with the value of `n`,
whenever no longer beginning is a number. -/
theorem C176_prefix_violated (number : Line → Option K) (n rest : Line) (c : K) (hn : number n = some c)
    (hl : ∀ m, n.length < m → number ((n ++ rest).take m) = none) : initConst number (n ++ rest) = some fun _ => c := by
  unfold initConst stodPrefix
  suffices h : ∀ k, ((List.range (n.length + k + 1)).reverse.findSome? fun m => number ((n ++ rest).take m)) = some c by
    rw [List.length_append, h]; rfl
  intro k
  induction k with
  | zero => rw [Nat.add_zero, List.range_succ, List.reverse_append]; simp [hn]
  | succ k ih =>
    rw [List.range_succ, List.reverse_append, List.findSome?_append, ← Nat.add_assoc, ih]
    simp [hl (n.length + k + 1) (by omega)]

/-- `C176_sizes_partial`: of three definitions, the second one is not an expression. -/
example : ∃ st, (sizesUsed (fun t => if t = "x".toList then some fun p : Pt ℚ => p.x else if t = "2*y".toList then some fun p => 2 * p.y else none) none
      ["x".toList, "x+".toList, "2*y".toList])[2]? = some st ∧ callSize st ⟨1, 3⟩ = some 6 := by
  obtain ⟨st, h1, -, h3⟩ := C176_sizes_partial (fun t => if t = "x".toList then some fun p : Pt ℚ => p.x else if t = "2*y".toList then some fun p => 2 * p.y else none)
    ["x".toList, "x+".toList, "2*y".toList] 2 (by decide)
  exact ⟨st, h1, (h3 _ rfl ⟨1, 3⟩).trans (by norm_num)⟩

/-- `C176_prefix_violated`: `0.1*x` is the constant function `1 / 10`. -/
example : initConst (fun t => if t = "0".toList then some (0 : ℚ) else if t = "0.".toList then some 0 else if t = "0.1".toList then some (1 / 10) else none)
    "0.1*x".toList = some fun _ => 1 / 10 :=
  C176_prefix_violated _ "0.1".toList "*x".toList (1 / 10) (by decide +kernel) fun m hm => by
    obtain ⟨j, rfl⟩ : ∃ j, m = 4 + j := ⟨m - 4, by simp at hm; omega⟩
    rw [show ("0.1".toList ++ "*x".toList) = ['0', '.', '1', '*', 'x'] by decide]
    rw [show 4 + j = j + 4 by omega]
    simp [List.take]

end TQ

#print axioms TQ.C176_sizes_partial
#print axioms TQ.C176_unparsable_violated
#print axioms TQ.C176_library_violated
#print axioms TQ.C176_prefix_violated
