import Mathlib.Algebra.Order.Field.Basic

/-! # Specifications for the utilities -/

namespace TQ.UtilSpec

/-- abstract set of vertex flags -/
structure VFlags where
  onFront : Bool
  inQuadLayer : Bool
  isFixed : Bool
  onBoundary : Bool
deriving DecidableEq

/-- names of the vertex flags -/
inductive VName | onFront | inQuadLayer | isFixed | onBoundary
deriving DecidableEq

def VFlags.get (f : VFlags) : VName → Bool
  | .onFront => f.onFront
  | .inQuadLayer => f.inQuadLayer
  | .isFixed => f.isFixed
  | .onBoundary => f.onBoundary

def VFlags.put (f : VFlags) (v : Bool) : VName → VFlags
  | .onFront => { f with onFront := v }
  | .inQuadLayer => { f with inQuadLayer := v }
  | .isFixed => { f with isFixed := v }
  | .onBoundary => { f with onBoundary := v }

/-- abstract set of edge flags -/
structure EFlags where
  onBoundary : Bool
  isFixed : Bool
  isGhost : Bool
deriving DecidableEq

inductive EName | onBoundary | isFixed | isGhost
deriving DecidableEq

def EFlags.get (f : EFlags) : EName → Bool
  | .onBoundary => f.onBoundary
  | .isFixed => f.isFixed
  | .isGhost => f.isGhost

def EFlags.put (f : EFlags) (v : Bool) : EName → EFlags
  | .onBoundary => { f with onBoundary := v }
  | .isFixed => { f with isFixed := v }
  | .isGhost => { f with isGhost := v }

/-- every part followed by the delimiter -/
def terminated (d : Char) (parts : List (List Char)) : List Char :=
  parts.flatMap fun p => p ++ [d]

/-- a list of distinct indices is the stable sorting permutation of `v`: earlier entries are smaller,
or equal with smaller index -/
def StableSorted {T : Type*} [LinearOrder T] {n : Nat} (v : Fin n → T) (l : List (Fin n)) : Prop :=
  l.Perm (List.finRange n) ∧ l.Pairwise fun i j => v i < v j ∨ v i = v j ∧ i < j

end TQ.UtilSpec
