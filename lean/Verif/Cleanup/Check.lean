import Verif.Cleanup.Spec

/-! # Decidable forms of the specifications, used for the concrete cases -/

namespace TQ.MCSpec
open TQ.MS TQ.MeshSpec
variable {K : Type*}

instance (s : St K) (f : FRef) (a b : Nat) : Decidable (HasSide s f a b) :=
  inferInstanceAs (Decidable (∃ i < _, _))

instance (s : St K) (f : FRef) (a b : Nat) : Decidable (Touches s f a b) := inferInstanceAs (Decidable (_ ∨ _))

instance (s : St K) (f : FRef) : Decidable (Live s f) := by
  cases f <;> simp only [Live] <;> infer_instance

theorem all_live {s : St K} {P : FRef → Prop} :
    (∀ f, Live s f → P f) ↔ (∀ t ∈ s.tris, P (.tri t)) ∧ ∀ q ∈ s.quads, P (.quad q) := by
  constructor
  · intro h; exact ⟨fun t ht => h _ ht, fun q hq => h _ hq⟩
  · rintro ⟨h1, h2⟩ f hf
    cases f with
    | null => exact absurd hf (by simp [Live])
    | tri t => exact h1 t hf
    | quad q => exact h2 q hf

theorem ex_live {s : St K} {P : FRef → Prop} :
    (∃ f, Live s f ∧ P f) ↔ (∃ t ∈ s.tris, P (.tri t)) ∨ ∃ q ∈ s.quads, P (.quad q) := by
  constructor
  · rintro ⟨f, hf, hp⟩
    cases f with
    | null => exact absurd hf (by simp [Live])
    | tri t => exact Or.inl ⟨t, hf, hp⟩
    | quad q => exact Or.inr ⟨q, hf, hp⟩
  · rintro (⟨t, ht, hp⟩ | ⟨q, hq, hp⟩)
    · exact ⟨.tri t, ht, hp⟩
    · exact ⟨.quad q, hq, hp⟩

/-- All facets. -/
def facets (s : St K) : List FRef := s.tris.map .tri ++ s.quads.map .quad

theorem mem_facets {s : St K} {f : FRef} : f ∈ facets s ↔ Live s f := by
  cases f <;> simp [facets, Live]

theorem dirUnique_of {s : St K} (h : ∀ f ∈ facets s, ∀ g ∈ facets s, ∀ i < (s.F f).corners.length, ∀ j < (s.F g).corners.length,
    sideAt (s.F f).corners i = sideAt (s.F g).corners j → f = g) : DirUnique s := by
  rintro f g a b hf hg ⟨i, hi, h1⟩ ⟨j, hj, h2⟩
  exact h f (mem_facets.mpr hf) g (mem_facets.mpr hg) i hi j hj (h1.trans h2.symm)

variable [Field K] [LinearOrder K]

/-- `SoundShapes` for given corners. -/
def shapeOK (eps : K) (s : St K) (f : FRef) : Bool :=
  match (s.F f).corners with
  | [a, b, c] => decide (0 < area2 (s.pos a) (s.pos b) (s.pos c)) && decide (9 * eps ≤ area2 (s.pos a) (s.pos b) (s.pos c) ^ 2)
  | [a, b, c, d] => [(a, b, c), (b, c, d), (c, d, a), (d, a, b)].all fun p =>
      decide (0 < area2 (s.pos p.1) (s.pos p.2.1) (s.pos p.2.2)) && decide (4 * eps ≤ area2 (s.pos p.1) (s.pos p.2.1) (s.pos p.2.2) ^ 2)
  | _ => false

theorem shapes_of {eps : K} {s : St K} (h : (facets s).all (shapeOK eps s) = true) : SoundShapes eps s := by
  rw [List.all_eq_true] at h
  refine ⟨fun t ht a b c hc => ?_, fun q hq a b c d hc p hp => ?_⟩
  · have := h (.tri t) (mem_facets.mpr ht)
    unfold shapeOK at this
    rw [hc] at this
    simpa using this
  · have := h (.quad q) (mem_facets.mpr hq)
    unfold shapeOK at this
    rw [hc] at this
    have h2 := (List.all_eq_true.mp this) p hp
    simpa using h2

end TQ.MCSpec

namespace TQ.MCEx
open TQ.MS TQ.MeshSpec MS.St

/-- Steps for building the concrete meshes. -/
inductive Op where
  | v (x y : ℚ)
  | bdry (a b : Nat) (c : Int)
  | intr (a b : Nat)
  | front (a b : Nat) (c : Int)
  | tri (a b c : Nat) (col : Int)
  | quad (a b c d : Nat) (col : Int)

/-- One step. -/
def op (s : St ℚ) : Op → St ℚ
  | .v x y => s.addVertex ⟨x, y⟩
  | .bdry a b c => s.addBdry a b c
  | .intr a b => s.addIntr a b
  | .front a b c => s.addEdge .front a b c 0
  | .tri a b c col => s.addTri a b c col
  | .quad a b c d col => s.addQuad a b c d col

/-- The step refers to different vertices of the mesh. -/
def opOK (s : St ℚ) : Op → Bool
  | .v _ _ => true
  | .bdry a b _ => decide (a ∈ s.verts ∧ b ∈ s.verts ∧ a ≠ b)
  | .intr a b => decide (a ∈ s.verts ∧ b ∈ s.verts ∧ a ≠ b)
  | .front a b _ => decide (a ∈ s.verts ∧ b ∈ s.verts ∧ a ≠ b)
  | .tri a b c _ => decide (a ∈ s.verts ∧ b ∈ s.verts ∧ c ∈ s.verts ∧ [a, b, c].Nodup)
  | .quad a b c d _ => decide (a ∈ s.verts ∧ b ∈ s.verts ∧ c ∈ s.verts ∧ d ∈ s.verts ∧ [a, b, c, d].Nodup)

/-- The mesh after some steps. -/
def build (ops : List Op) (s : St ℚ) : St ℚ := ops.foldl op s

/-- All steps refer to different vertices. -/
def buildOK : List Op → St ℚ → Bool
  | [], _ => true
  | o :: l, s => opOK s o && buildOK l (op s o)

theorem built_of {c : Int} : ∀ (ops : List Op) (s : St ℚ), Built c s → buildOK ops s = true → Built c (build ops s) := by
  intro ops
  induction ops with
  | nil => intro s h _; exact h
  | cons o l ih =>
    intro s h hk
    simp only [buildOK, Bool.and_eq_true] at hk
    refine ih (op s o) ?_ hk.2
    have h1 := hk.1
    cases o <;> simp only [opOK, decide_eq_true_eq] at h1
    · exact Built.addVertex _ h
    · exact Built.addEdge _ _ _ _ _ h h1.1 h1.2.1 h1.2.2
    · exact Built.addEdge _ _ _ _ _ h h1.1 h1.2.1 h1.2.2
    · exact Built.addEdge _ _ _ _ _ h h1.1 h1.2.1 h1.2.2
    · exact Built.addTri _ _ _ _ h h1.1 h1.2.1 h1.2.2.1 h1.2.2.2
    · exact Built.addQuad _ _ _ _ _ h h1.1 h1.2.1 h1.2.2.1 h1.2.2.2.1 h1.2.2.2.2

end TQ.MCEx
