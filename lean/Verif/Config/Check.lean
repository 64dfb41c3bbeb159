import Verif.Config.Keys

/-!
# Deciding whether entries are well written
-/

set_option linter.unusedSectionVars false

namespace TQ
namespace Cf
open PR PRSpec CfSpec

instance (l : Line) : Decidable (NoKey l) := decidable_of_iff (∀ n ∈ names, ¬keyword n <:+: l) ⟨fun h n => h n (mem_names n), fun h n _ => h n⟩

instance decExSome {α : Type*} (o : Option α) (p : α → Prop) [DecidablePred p] : Decidable (∃ q, o = some q ∧ p q) := match o with
  | none => isFalse (by simp)
  | some q => decidable_of_iff (p q) (by simp)

instance decExSome' {α : Type*} (o : Option α) : Decidable (∃ q, o = some q) := match o with
  | none => isFalse (by simp)
  | some q => isTrue ⟨q, rfl⟩

instance (it : Item) : Decidable it.OK := match it with
  | .other l => inferInstanceAs (Decidable (NoKey l))
  | .single n pre body => inferInstanceAs (Decidable (closing n = none ∧ ':' ∉ pre ∧ ':' ∉ body))
  | .table n pre body rows en =>
    inferInstanceAs (Decidable (∃ q, closing n = some q ∧ ':' ∉ pre ∧ ':' ∉ body ∧ (∀ l ∈ rows, NoKey l ∧ ¬q <:+: l) ∧ NoKey en ∧ q <:+: en))

instance (p : BdryType → Prop) [DecidablePred p] : Decidable (∀ b, p b) :=
  decidable_of_iff (p .exterior ∧ p .interior) ⟨fun h b => by cases b; exacts [h.1, h.2], fun h => ⟨h _, h _⟩⟩

variable {K : Type} [Field K] [LinearOrder K]

instance {T : Type} (conv : Line → Option T) (w : Nat) (l : Line) : Decidable (Filled conv w l) := by unfold Filled; infer_instance

instance (E : Env K) (its : List Item) : Decidable (WellWritten E its) :=
  decidable_of_iff ((∀ it ∈ its, it.OK) ∧
    (∀ n ∈ [Name.vertices, .fixedVerts, .outPrefix, .outFormat, .size, .color, .algorithm, .refinements, .smoothing, .smoothLayers], (entriesOf n its).length ≤ 1) ∧
    ((bdriesOf E .exterior its).length ≤ 1) ∧
    (∀ n ∈ [Name.outPrefix, .outFormat, .size], (entriesOf n its).length ≠ 0) ∧
    (∀ n ∈ [Name.outPrefix, .outFormat, .size, .algorithm, .csv .exterior, .csv .interior], ∀ t ∈ singles n its, word t ≠ []) ∧
    (∀ t ∈ singles .color its, ∃ v, E.convI t = some v) ∧
    (∀ t ∈ singles .refinements its, ∃ v, E.convN t = some v) ∧
    (∀ t ∈ singles .smoothing its, ∃ v, E.convN t = some v) ∧
    (∀ t ∈ singles .smoothLayers its, ∃ v, E.convB t = some v) ∧
    (∀ n ∈ [Name.vertices, .fixedVerts], ∀ rows ∈ tables n its, rows ≠ [] ∧ ∀ l ∈ rows, (cells l).length ≤ 4) ∧
    (∀ b, ∀ rows ∈ tables (.coords b) its, rows ≠ [] ∧ ∀ l ∈ rows, (cells l).length ≤ 5 ∧ ∃ m, E.trunc (num E l 2) = some m ∧ 0 ≤ m) ∧
    (∀ b, ∀ rows ∈ tables (.edges b) its, rows ≠ [] ∧ ∀ l ∈ rows, Filled E.convI 3 l) ∧
    (∀ rows ∈ tables .fixedEdges its, rows ≠ [] ∧ ∀ l ∈ rows, Filled E.convI 2 l) ∧
    (∀ t ∈ singles .layers its, Filled E.convD 7 t ∧ ∃ m, E.trunc (num E t 4) = some m) ∧
    (∀ b, ∀ n ∈ [Name.rect b, .circ b, .square b, .triangle b], ∀ t ∈ singles n its, ∃ m, E.trunc (num E t 0) = some m) ∧
    (∀ b, ∀ t ∈ singles (.circ b) its, ∃ m, E.trunc (num E t 4) = some m))
  ⟨fun ⟨h1, h2, h3, h4, h5, h6, h7, h8, h9, h10, h11, h12, h13, h14, h15, h16⟩ =>
      ⟨h1, h2, h3, fun n hn he => h4 n hn (by rw [he]; rfl), h5, h6, h7, h8, h9, h10, h11, h12, h13, h14, h15, h16⟩,
    fun h => ⟨h.ok, h.once, h.exterior, fun n hn he => h.needed n hn (List.eq_nil_of_length_eq_zero he), h.texts, h.color, h.refinements, h.smoothing, h.smoothLayers, h.verts, h.coords,
      h.edges, h.fixedEdges, h.layers, h.marks, h.circ⟩⟩

instance (m : MeshText) : Decidable m.OK := by unfold MeshText.OK; infer_instance

end Cf
end TQ
