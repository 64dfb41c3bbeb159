import Verif.Domain.EditModel

/-!
# When a domain is sound

Independent of the functions that edit it: a statement on the data of a domain only.
-/

namespace TQ
namespace DE

/-- The data of a domain fit together. -/
structure Sound (s : St) : Prop where
  /-- no vertex is listed twice -/
  verts_nodup : s.verts.Nodup
  /-- no edge occurs twice, neither in one list nor in two lists -/
  edges_nodup : (s.bdrys.flatten ++ s.fixedE).Nodup
  /-- the ends of the edges are two different vertices of the domain -/
  ends_mem : ∀ e, e ∈ s.bdrys.flatten ++ s.fixedE →
    (s.ends e).1 ∈ s.verts ∧ (s.ends e).2 ∈ s.verts ∧ (s.ends e).1 ≠ (s.ends e).2
  /-- a vertex points to the edges that end in it and to nothing else -/
  inc_iff : ∀ v ∈ s.verts, ∀ e, e ∈ s.inc v ↔
    e ∈ s.bdrys.flatten ++ s.fixedE ∧ ((s.ends e).1 = v ∨ (s.ends e).2 = v)
  /-- and points to each of them once -/
  inc_nodup : ∀ v ∈ s.verts, (s.inc v).Nodup
  /-- the fixed vertices are the vertices marked as fixed, each once -/
  fixed_iff : ∀ v, v ∈ s.fixedV ↔ v ∈ s.verts ∧ s.fixedFlag v = true
  fixed_nodup : s.fixedV.Nodup

/-- Calls that do not take away what is still in use: a vertex is removed by the function for its kind when
no edge ends in it, a boundary when it has no edges. -/
def Careful (s : St) : Op → Prop
  | .removeVertex v => s.fixedFlag v = false ∧
      ∀ e ∈ s.bdrys.flatten ++ s.fixedE, (s.ends e).1 ≠ v ∧ (s.ends e).2 ≠ v
  | .removeFixedVertex v => ∀ e ∈ s.bdrys.flatten ++ s.fixedE, (s.ends e).1 ≠ v ∧ (s.ends e).2 ≠ v
  | .removeBoundary pos => s.bdrys[pos]? = some []
  | _ => True

/-- A history of careful calls. -/
inductive CarefulRun : St → List Op → St → Prop
  | nil (s : St) : CarefulRun s [] s
  | cons {s t u : St} {o : Op} {os : List Op} (hc : Careful s o) (hs : step s o = some t)
      (h : CarefulRun t os u) : CarefulRun s (o :: os) u

/-- Calls that take nothing away, the only ones in the application. -/
def Adds : Op → Prop
  | .addVertex | .addFixedVertex | .insertBoundary _ | .addBdryEdge _ _ _ | .addFixedEdge _ _ => True
  | _ => False

end DE
end TQ
