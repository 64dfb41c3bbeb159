import Verif.Generator.Spec
import Verif.Merger.Props

/-! # Properties of the mesh generator: registry, merging, accessors -/

set_option linter.unusedSectionVars false
set_option linter.unusedSimpArgs false

namespace TQ
open MS MS.St MM GN GNSpec MeshSpec MCSpec RefSpec MergeSpec

section
variable {K : Type*} [Field K] [LinearOrder K]

/-! ### The registry as a list of pairs -/

/-- The lists of the generator describe the registry `R`. -/
structure Reg (g : Gen K) (R : List (Nat × Nat)) : Prop where
  m : g.meshes = R.map (·.1)
  bm : g.bMeshes = R.map (·.1)
  bd : g.bDomains = R.map (·.2)
  nd : (R.map (·.1)).Nodup

theorem getDomain_find (m : Nat) (R : List (Nat × Nat)) :
    getDomain m (R.map (·.1)) (R.map (·.2)) = (R.find? fun x => decide (x.1 = m)).map (·.2) := by
  induction R with
  | nil => rfl
  | cons x R ih =>
    simp only [List.map_cons, getDomain, List.find?_cons]
    by_cases h : x.1 = m
    · simp [h]
    · simp [h, ih]

theorem find_isSome {m : Nat} {R : List (Nat × Nat)} :
    ((R.find? fun x => decide (x.1 = m)).map (·.2)).isSome = true ↔ m ∈ R.map (·.1) := by
  rw [Option.isSome_map, List.find?_isSome]
  simp only [decide_eq_true_eq, List.mem_map]

theorem Reg.domain {g : Gen K} {R : List (Nat × Nat)} (h : Reg g R) (m : Nat) :
    g.domain m = (R.find? fun x => decide (x.1 = m)).map (·.2) := by
  unfold Gen.domain; rw [h.bm, h.bd, getDomain_find]

theorem Reg.valid {g : Gen K} {R : List (Nat × Nat)} (h : Reg g R) (m : Nat) : g.isValid m = true ↔ m ∈ g.meshes := by
  unfold Gen.isValid; rw [h.domain, find_isSome, h.m]

theorem erase_map_fst {d : Nat} : ∀ {R : List (Nat × Nat)}, (R.map (·.1)).Nodup →
    (R.map (·.1)).eraseIdx ((R.map (·.1)).idxOf d) = (R.filter fun x => decide (x.1 ≠ d)).map (·.1) ∧
    (R.map (·.2)).eraseIdx ((R.map (·.1)).idxOf d) = (R.filter fun x => decide (x.1 ≠ d)).map (·.2) := by
  intro R
  induction R with
  | nil => intro _; simp
  | cons x R ih =>
    intro hn
    rw [List.map_cons, List.nodup_cons] at hn
    obtain ⟨i1, i2⟩ := ih hn.2
    by_cases h : x.1 = d
    · have hf : (R.filter fun y => decide (y.1 ≠ d)) = R := by
        rw [List.filter_eq_self]
        intro y hy
        rw [decide_eq_true_eq]
        intro hyd
        exact hn.1 (List.mem_map.mpr ⟨y, hy, by rw [hyd, h]⟩)
      have h0 : (x.1 :: R.map (·.1)).idxOf d = 0 := by rw [h]; simp
      simp only [List.map_cons, h0, List.eraseIdx_cons_zero]
      rw [List.filter_cons_of_neg (by simp [h]), hf]
      exact ⟨rfl, rfl⟩
    · have h1 : (x.1 :: R.map (·.1)).idxOf d = (R.map (·.1)).idxOf d + 1 := List.idxOf_cons_ne _ h
      simp only [List.map_cons, h1, List.eraseIdx_cons_succ]
      rw [List.filter_cons_of_pos (by simp [h]), List.map_cons, List.map_cons, i1, i2]
      exact ⟨rfl, rfl⟩

theorem reg_world {g : Gen K} {R : List (Nat × Nat)} (h : Reg g R) (w' : World K) : Reg { g with w := w' } R :=
  ⟨h.m, h.bm, h.bd, h.nd⟩

theorem nodup_filter_fst {R : List (Nat × Nat)} (h : (R.map (·.1)).Nodup) (p : Nat × Nat → Bool) :
    ((R.filter p).map (·.1)).Nodup :=
  h.sublist (List.Sublist.map _ List.filter_sublist)

/-- What `merge_meshes` does in every registered state. -/
theorem merge_cases {eps : K} {g g' : Gen K} {R : List (Nat × Nat)} (hR : Reg g R) {r d : Nat} {b : Bool}
    (h : g.mergeMeshes eps r d = some (g', b)) :
    (b = false ∧ g' = g ∧ (g.isValid r && g.isValid d) = false) ∨
    (b = true ∧ (g.isValid r && g.isValid d) = true ∧ ∃ w', merge eps g.w r d false = some (w', false) ∧ g' = { g with w := w' }) ∨
    (b = true ∧ (g.isValid r && g.isValid d) = true ∧ ∃ w', merge eps g.w r d false = some (w', true) ∧ g'.w = w' ∧
      Reg g' (R.filter fun x => decide (x.1 ≠ d)) ∧ g'.slots = g.slots ∧ g'.fresh = g.fresh) := by
  unfold Gen.mergeMeshes at h
  by_cases hv : (g.isValid r && g.isValid d) = true
  · have hv' := hv
    rw [Bool.and_eq_true] at hv
    have h1 : ((g.domain r).isNone || (g.domain d).isNone) = false := by
      unfold Gen.isValid at hv
      rw [Bool.or_eq_false_iff, Option.isNone_eq_false_iff, Option.isNone_eq_false_iff]
      exact hv
    rw [h1] at h
    simp only [Bool.false_eq_true, ↓reduceIte] at h
    cases hm : merge eps g.w r d false with
    | none => rw [hm] at h; simp at h
    | some q =>
      obtain ⟨w', ok⟩ := q
      rw [hm] at h
      cases ok with
      | false =>
        simp only [Option.some.injEq, Prod.mk.injEq] at h
        exact Or.inr (Or.inl ⟨h.2.symm, hv', w', rfl, h.1.symm⟩)
      | true =>
        have hd : d ∈ g.meshes := (hR.valid d).mp hv.2
        have hd2 : d ∈ g.bMeshes := by rw [hR.bm, ← hR.m]; exact hd
        simp only [hd, ↓reduceIte, Gen.removeMesh, hd2, Option.some.injEq, Prod.mk.injEq] at h
        obtain ⟨rfl, rfl⟩ := h
        refine Or.inr (Or.inr ⟨rfl, hv', w', rfl, rfl, ?_, rfl, rfl⟩)
        obtain ⟨e1, e2⟩ := erase_map_fst (d := d) hR.nd
        refine ⟨?_, ?_, ?_, nodup_filter_fst hR.nd _⟩
        · change g.meshes.erase d = _
          rw [List.erase_eq_eraseIdx_of_idxOf (i := (R.map (·.1)).idxOf d) (by rw [hR.m]), hR.m, e1]
        · change g.bMeshes.eraseIdx _ = _
          rw [hR.bm, e1]
        · change g.bDomains.eraseIdx _ = _
          rw [hR.bm, hR.bd, e2]
  · have h1 : ((g.domain r).isNone || (g.domain d).isNone) = true := by
      by_contra hc
      apply hv
      rw [Bool.not_eq_true, Bool.or_eq_false_iff, Option.isNone_eq_false_iff, Option.isNone_eq_false_iff] at hc
      unfold Gen.isValid
      rw [Bool.and_eq_true]; exact hc
    rw [if_pos h1] at h
    simp only [Option.some.injEq, Prod.mk.injEq] at h
    exact Or.inl ⟨h.2.symm, h.1.symm, by simpa using hv⟩

theorem setAlgorithm_reg {g g' : Gen K} {k : Kind} {m : Nat} (h : g.setAlgorithm k m = some g') :
    g'.meshes = g.meshes ∧ g'.bMeshes = g.bMeshes ∧ g'.bDomains = g.bDomains ∧ g'.w = g.w ∧
    ∃ d, g.domain m = some d ∧ g'.slots = (fun s => if s = k.slot then some ⟨k, m, d, g.fresh⟩ else g.slots s) ∧ g'.fresh = g.fresh + 1 := by
  unfold Gen.setAlgorithm at h
  cases hd : g.domain m with
  | none => rw [hd] at h; simp at h
  | some d =>
    rw [hd] at h
    simp only [Option.some.injEq] at h
    subst h
    exact ⟨rfl, rfl, rfl, rfl, d, rfl, rfl, rfl⟩

/-- What an accessor does: it returns the object in the slot if that has the right type and the same mesh address,
otherwise a new object for the domain of the mesh; it terminates the program if there is neither. -/
theorem access_cases (g : Gen K) (k : Kind) (m : Nat) :
    (∃ al, g.slots k.slot = some al ∧ al.kind = k ∧ al.mesh = m ∧ g.access k m = some (g, al)) ∨
    ((∀ al, g.slots k.slot = some al → ¬ (al.kind = k ∧ al.mesh = m)) ∧
      ((g.domain m = none ∧ g.access k m = none) ∨
       ∃ d g', g.domain m = some d ∧ g.setAlgorithm k m = some g' ∧ g.access k m = some (g', ⟨k, m, d, g.fresh⟩))) := by
  have hset : ∀ o : Option (Gen K × Alg), (o = match g.setAlgorithm k m with
      | none => none
      | some g' => (g'.slots k.slot).map fun al => (g', al)) →
      (g.domain m = none ∧ o = none) ∨
       ∃ d g', g.domain m = some d ∧ g.setAlgorithm k m = some g' ∧ o = some (g', ⟨k, m, d, g.fresh⟩) := by
    intro o ho
    cases hd : g.domain m with
    | none =>
      left
      refine ⟨rfl, ?_⟩
      rw [ho]
      have : g.setAlgorithm k m = none := by unfold Gen.setAlgorithm; rw [hd]
      rw [this]
    | some d =>
      right
      have : g.setAlgorithm k m = some { g with slots := fun s => if s = k.slot then some ⟨k, m, d, g.fresh⟩ else g.slots s, fresh := g.fresh + 1 } := by
        unfold Gen.setAlgorithm; rw [hd]
      refine ⟨d, _, rfl, this, ?_⟩
      rw [ho, this]
      simp
  unfold Gen.access
  cases hs : g.slots k.slot with
  | none =>
    right
    refine ⟨by simp, hset _ rfl⟩
  | some al =>
    dsimp only
    by_cases hc : al.kind = k ∧ al.mesh = m
    · left
      exact ⟨al, rfl, hc.1, hc.2, by rw [if_neg (by simp [hc.1, hc.2])]⟩
    · right
      rw [if_pos (by rw [← not_and_or]; exact hc)]
      refine ⟨?_, hset _ rfl⟩
      intro al' h'
      simp only [Option.some.injEq] at h'
      rw [← h']; exact hc

/-- The registry over all histories. -/
theorem hist_reg {eps : K} {w0 : World K} {log : List Ev} {g : Gen K} (h : Hist eps w0 log g) : Reg g (live log) := by
  induction h with
  | start => exact ⟨rfl, rfl, rfl, by simp [live]⟩
  | @new log g prep a d _ hn ih =>
    refine ⟨?_, ?_, ?_, ?_⟩
    · simp [live, Gen.newMesh, ih.m]
    · simp [live, Gen.newMesh, ih.bm]
    · simp [live, Gen.newMesh, ih.bd]
    · rw [ih.m] at hn
      simp only [live, List.map_append, List.map_cons, List.map_nil]
      rw [List.nodup_append]
      refine ⟨ih.nd, by simp, ?_⟩
      rintro x hx y hy rfl
      simp only [List.mem_singleton] at hy
      subst hy
      exact hn hx
  | @merge log g g' r d b _ hm ih =>
    rcases merge_cases ih hm with ⟨_, rfl, hv⟩ | ⟨_, hv, w', hw, rfl⟩ | ⟨_, hv, w', hw, _, hr, _, _⟩
    · rw [hv, Bool.false_and]; exact ih
    · have : mergerOk eps g r d = false := by unfold mergerOk; rw [hw]; rfl
      rw [this, Bool.and_false]; exact reg_world ih w'
    · have : mergerOk eps g r d = true := by unfold mergerOk; rw [hw]; rfl
      rw [hv, this]; exact hr
  | @access log g g' k m al _ ha ih =>
    rcases access_cases g k m with ⟨al', _, _, _, e⟩ | ⟨_, ⟨_, e⟩ | ⟨d, g1, _, hs, e⟩⟩
    · rw [e] at ha
      simp only [Option.some.injEq, Prod.mk.injEq] at ha
      rw [← ha.1]; exact ih
    · rw [e] at ha; simp at ha
    · rw [e] at ha
      simp only [Option.some.injEq, Prod.mk.injEq] at ha
      rw [← ha.1]
      obtain ⟨a1, a2, a3, _⟩ := setAlgorithm_reg hs
      exact ⟨a1.trans ih.m, a2.trans ih.bm, a3.trans ih.bd, ih.nd⟩
  | work w' _ ih => exact reg_world ih w'

/-! ### C63 -/

/-- **C63.** After any history: the meshes of the generator are the live ones in order of creation, each once;
`get_domain` is the domain the mesh was created for (null for all others), `is_valid` holds exactly for live
meshes, `mesh(i)` is the `i`-th live mesh and terminates the program iff there is none. -/
theorem C63_registry {eps : K} {w0 : World K} {log : List Ev} {g : Gen K} (h : Hist eps w0 log g) :
    g.meshes = (live log).map (·.1) ∧ g.meshes.Nodup ∧ (∀ m, g.domain m = domainOf log m) ∧
    (∀ m, g.isValid m = true ↔ ∃ d, (m, d) ∈ live log) ∧
    ∀ i, g.mesh i = ((live log).map (·.1))[i]? ∧ (g.mesh i = none ↔ (live log).length ≤ i) := by
  have hr := hist_reg h
  refine ⟨hr.m, by rw [hr.m]; exact hr.nd, hr.domain, ?_, ?_⟩
  · intro m
    rw [hr.valid, hr.m, List.mem_map]
    constructor
    · rintro ⟨⟨a, d⟩, hx, rfl⟩; exact ⟨d, hx⟩
    · rintro ⟨d, hx⟩; exact ⟨(m, d), hx, rfl⟩
  · intro i
    have e : g.mesh i = ((live log).map (·.1))[i]? := by
      unfold Gen.mesh
      rw [hr.m]
      split_ifs with hi
      · rw [List.getElem?_eq_none hi]
      · rfl
    refine ⟨e, ?_⟩
    rw [e, List.getElem?_eq_none_iff, List.length_map]

/-! ### C64 -/

/-- **C64 (partial).** In every history: `merge_meshes` returns `false` exactly if one of the meshes is not
registered, and then nothing changes; if it returns `true`, the donor is no longer valid exactly if the
merger reported success.  Missing: the result `true` does not tell whether the donor was merged, see
`C64_return_violated`. -/
theorem C64_return_partial {eps : K} {w0 : World K} {log : List Ev} {g g' : Gen K} (h : Hist eps w0 log g) {r d : Nat} {b : Bool}
    (hm : g.mergeMeshes eps r d = some (g', b)) :
    (b = false ↔ ¬ (g.isValid r = true ∧ g.isValid d = true)) ∧ (b = false → g' = g) ∧
    (b = true → (g'.isValid d = false ↔ mergerOk eps g r d = true) ∧ ∀ m, m ≠ d → g'.isValid m = g.isValid m) := by
  have hr := hist_reg h
  rcases merge_cases hr hm with ⟨rfl, rfl, hv⟩ | ⟨rfl, hv, w', hw, rfl⟩ | ⟨rfl, hv, w', hw, _, hr', _, _⟩
  · refine ⟨?_, fun _ => rfl, by simp⟩
    rw [← Bool.and_eq_true, hv]; simp
  · refine ⟨?_, by simp, fun _ => ⟨?_, fun _ _ => rfl⟩⟩
    · rw [← Bool.and_eq_true, hv]; simp
    · have : mergerOk eps g r d = false := by unfold mergerOk; rw [hw]; rfl
      rw [this]
      rw [Bool.and_eq_true] at hv
      have : ({ g with w := w' } : Gen K).isValid d = g.isValid d := rfl
      rw [this, hv.2]; simp
  · refine ⟨?_, by simp, fun _ => ⟨?_, fun m hmd => ?_⟩⟩
    · rw [← Bool.and_eq_true, hv]; simp
    · have : mergerOk eps g r d = true := by unfold mergerOk; rw [hw]; rfl
      rw [this]
      simp only [iff_true]
      rw [← Bool.not_eq_true, hr'.valid, hr'.m]
      simp
    · rw [Bool.eq_iff_iff, hr'.valid, hr.valid, hr'.m, hr.m]
      simp [hmd]

/-- **C64 (partial).** Two registered meshes with a common interface, their facets on the left of their sides: the
donor is merged into the receiver, removed, and `true` is returned. -/
theorem C64_adjacent_partial [IsStrictOrderedRing K] {eps : K} {w0 : World K} {log : List Ev} {g : Gen K} (h : Hist eps w0 log g) {r d : Nat}
    (hvr : g.isValid r = true) (hvd : g.isValid d = true) (A : Adjacent g.w r d)
    (lr : LeftFacets eps (g.w r)) (ld : LeftFacets eps (g.w d))
    (hex : ∃ e ∈ (g.w r).es .bdry, Iface g.w r d e) :
    ∃ g' φ, g.mergeMeshes eps r d = some (g', true) ∧ Merged g.w g'.w r d φ ∧ g'.isValid d = false ∧ g'.isValid r = true := by
  obtain ⟨w', φ, hm, _, hM⟩ := C53_merge A lr ld hex
  cases hg : g.mergeMeshes eps r d with
  | none =>
    exfalso
    unfold Gen.mergeMeshes at hg
    unfold Gen.isValid at hvr hvd
    have h1 : ((g.domain r).isNone || (g.domain d).isNone) = false := by
      rw [Bool.or_eq_false_iff, Option.isNone_eq_false_iff, Option.isNone_eq_false_iff]; exact ⟨hvr, hvd⟩
    rw [h1, hm] at hg
    simp only [Bool.false_eq_true, ↓reduceIte] at hg
    split_ifs at hg
    split at hg <;> simp at hg
  | some q =>
    obtain ⟨g', b⟩ := q
    have hr := hist_reg h
    obtain ⟨c1, c2, c3⟩ := C64_return_partial h hg
    have hok : mergerOk eps g r d = true := by unfold mergerOk; rw [hm]; rfl
    have hb : b = true := by
      by_contra hb
      exact c1.mp (by simpa using hb) ⟨hvr, hvd⟩
    subst hb
    obtain ⟨d1, d2⟩ := c3 rfl
    rcases merge_cases hr hg with ⟨hf, _⟩ | ⟨_, _, w'', hw, _⟩ | ⟨_, _, w'', hw, hgw, _⟩
    · simp at hf
    · rw [hm] at hw; simp at hw
    · rw [hm] at hw
      simp only [Option.some.injEq, Prod.mk.injEq, and_true] at hw
      refine ⟨g', φ, rfl, ?_, d1.mpr hok, ?_⟩
      · rw [hgw, ← hw]; exact hM
      · rw [d2 r A.ne]; exact hvr

/-! ### C65 -/

/-- The slots remember the last request. -/
theorem hist_slots {eps : K} {w0 : World K} {log : List Ev} {g : Gen K} (h : Hist eps w0 log g) :
    (∀ s, (g.slots s).map (fun al => (al.kind, al.mesh, al.ident)) = lastGot s log) ∧
    (∀ s al, g.slots s = some al → al.ident < g.fresh ∧ al.kind.slot = s) ∧
    ∀ k m i, Ev.got k m i ∈ log → i < g.fresh := by
  induction h with
  | start => exact ⟨fun _ => rfl, by simp [Gen.init], by simp⟩
  | new prep a d _ _ ih =>
    refine ⟨ih.1, ih.2.1, ?_⟩
    intro k m i hi
    simp only [List.mem_cons, reduceCtorEq, false_or] at hi
    exact ih.2.2 k m i hi
  | @merge log g g' r d b hh hm ih =>
    have : g'.slots = g.slots ∧ g'.fresh = g.fresh := by
      rcases merge_cases (hist_reg hh) hm with ⟨_, rfl, _⟩ | ⟨_, _, w', _, rfl⟩ | ⟨_, _, w', _, _, _, h1, h2⟩
      · exact ⟨rfl, rfl⟩
      · exact ⟨rfl, rfl⟩
      · exact ⟨h1, h2⟩
    rw [this.1, this.2]
    refine ⟨ih.1, ih.2.1, ?_⟩
    intro k m i hi
    simp only [List.mem_cons, reduceCtorEq, false_or] at hi
    exact ih.2.2 k m i hi
  | @access log g g' k m al _ ha ih =>
    rcases access_cases g k m with ⟨al', hs, hk, hm, e⟩ | ⟨hno, ⟨_, e⟩ | ⟨d, g1, _, hs, e⟩⟩
    · rw [e] at ha
      simp only [Option.some.injEq, Prod.mk.injEq] at ha
      obtain ⟨rfl, rfl⟩ := ha
      refine ⟨?_, ih.2.1, ?_⟩
      · intro s
        by_cases hks : k.slot = s
        · subst hks
          simp only [lastGot, ↓reduceIte, hs, Option.map_some, hk, hm]
        · simp only [lastGot, if_neg hks]; exact ih.1 s
      · intro k' m' i hi
        simp only [List.mem_cons, Ev.got.injEq] at hi
        rcases hi with ⟨_, _, rfl⟩ | hi
        · exact (ih.2.1 _ _ hs).1
        · exact ih.2.2 _ _ _ hi
    · rw [e] at ha; simp at ha
    · rw [e] at ha
      simp only [Option.some.injEq, Prod.mk.injEq] at ha
      obtain ⟨rfl, rfl⟩ := ha
      obtain ⟨_, _, _, _, d', _, h1, h2⟩ := setAlgorithm_reg hs
      rw [h1, h2]
      refine ⟨?_, ?_, ?_⟩
      · intro s
        by_cases hks : s = k.slot
        · subst hks; simp [lastGot]
        · simp only [if_neg hks, lastGot, if_neg (Ne.symm hks)]; exact ih.1 s
      · intro s al hal
        by_cases hks : s = k.slot
        · subst hks
          simp only [↓reduceIte, Option.some.injEq] at hal
          subst hal
          exact ⟨Nat.lt_succ_self _, rfl⟩
        · simp only [if_neg hks] at hal
          exact ⟨Nat.lt_succ_of_lt (ih.2.1 _ _ hal).1, (ih.2.1 _ _ hal).2⟩
      · intro k' m' i hi
        simp only [List.mem_cons, Ev.got.injEq] at hi
        rcases hi with ⟨_, _, rfl⟩ | hi
        · exact Nat.lt_succ_self _
        · exact Nat.lt_succ_of_lt (ih.2.2 _ _ _ hi)
  | work w' _ ih => exact ih

/-- **C65.** After any history, the accessor of a valid mesh returns an algorithm of the requested kind for the
requested mesh.  If the last request to the same group (meshing, smoothing, refinement, modification) was the
same algorithm for the same mesh, it is the same object with all its settings and nothing changes; otherwise it
is an object that was never handed out before. -/
theorem C65_accessor {eps : K} {w0 : World K} {log : List Ev} {g : Gen K} (h : Hist eps w0 log g) (k : Kind) {m : Nat}
    (hv : g.isValid m = true) :
    ∃ g' al, g.access k m = some (g', al) ∧ al.kind = k ∧ al.mesh = m ∧ g'.meshes = g.meshes ∧ g'.w = g.w ∧
      (∀ i, lastGot k.slot log = some (k, m, i) → al.ident = i ∧ g' = g) ∧
      ((∀ i, lastGot k.slot log ≠ some (k, m, i)) → ∀ k' m' i, Ev.got k' m' i ∈ log → al.ident ≠ i) := by
  obtain ⟨s1, s2, s3⟩ := hist_slots h
  rcases access_cases g k m with ⟨al, hs, hk, hm, e⟩ | ⟨hno, ⟨hd, e⟩ | ⟨d, g1, hd, hs, e⟩⟩
  · refine ⟨g, al, e, hk, hm, rfl, rfl, ?_, ?_⟩
    · intro i hi
      have := s1 k.slot
      rw [hs, hi] at this
      simp only [Option.map_some, Option.some.injEq, Prod.mk.injEq] at this
      exact ⟨this.2.2, rfl⟩
    · intro hn
      have := s1 k.slot
      rw [hs] at this
      simp only [Option.map_some, hk, hm] at this
      exact absurd this.symm (hn _)
  · unfold Gen.isValid at hv
    rw [hd] at hv; simp at hv
  · obtain ⟨a1, _, _, a4, _⟩ := setAlgorithm_reg hs
    refine ⟨g1, _, e, rfl, rfl, a1, a4, ?_, ?_⟩
    · intro i hi
      exfalso
      have := s1 k.slot
      rw [hi] at this
      cases hal : g.slots k.slot with
      | none => rw [hal] at this; simp at this
      | some al =>
        rw [hal] at this
        simp only [Option.map_some, Option.some.injEq, Prod.mk.injEq] at this
        exact hno al hal ⟨this.1, this.2.1⟩
    · intro _ k' m' i hi hc
      have := s3 k' m' i hi
      simp only at hc
      omega

/-- **C65.** Requests to one group do not disturb the algorithms of the other groups. -/
theorem C65_groups {g g' : Gen K} {k : Kind} {m : Nat} {al : Alg} (h : g.access k m = some (g', al)) (s : Slot) (hs : s ≠ k.slot) :
    g'.slots s = g.slots s := by
  rcases access_cases g k m with ⟨al', _, _, _, e⟩ | ⟨_, ⟨_, e⟩ | ⟨d, g1, _, hs1, e⟩⟩
  · rw [e] at h
    simp only [Option.some.injEq, Prod.mk.injEq] at h
    rw [← h.1]
  · rw [e] at h; simp at h
  · rw [e] at h
    simp only [Option.some.injEq, Prod.mk.injEq] at h
    rw [← h.1]
    obtain ⟨_, _, _, _, d', _, h1, _⟩ := setAlgorithm_reg hs1
    rw [h1]; simp [hs]

/-! ### C112, C113 -/

/-- **C112 (partial).** The accessor of a mesh that is not valid terminates the program unless the last request to the
group was for the same algorithm and the same address. -/
theorem C112_invalid_mesh_partial {eps : K} {w0 : World K} {log : List Ev} {g : Gen K} (h : Hist eps w0 log g) (k : Kind) {m : Nat}
    (hv : g.isValid m = false) : (∀ i, lastGot k.slot log ≠ some (k, m, i)) ↔ g.access k m = none := by
  obtain ⟨s1, _, _⟩ := hist_slots h
  rcases access_cases g k m with ⟨al, hs, hk, hm, e⟩ | ⟨hno, ⟨hd, e⟩ | ⟨d, g1, hd, hs, e⟩⟩
  · rw [e]
    simp only [reduceCtorEq, iff_false]
    intro hn
    have := s1 k.slot
    rw [hs] at this
    simp only [Option.map_some, hk, hm] at this
    exact hn _ this.symm
  · rw [e]
    simp only [iff_true]
    intro i hi
    have := s1 k.slot
    rw [hi] at this
    cases hal : g.slots k.slot with
    | none => rw [hal] at this; simp at this
    | some al =>
      rw [hal] at this
      simp only [Option.map_some, Option.some.injEq, Prod.mk.injEq] at this
      exact hno al hal ⟨this.1, this.2.1⟩
  · unfold Gen.isValid at hv
    rw [hd] at hv; simp at hv

/-- No address was ever used twice. -/
def Once (log : List Ev) : Prop := (addresses log).Nodup

theorem live_addresses {log : List Ev} {x : Nat × Nat} (h : x ∈ live log) : x.1 ∈ addresses log := by
  induction log with
  | nil => simp [live] at h
  | cons e log ih =>
    cases e with
    | new a d =>
      simp only [live, List.mem_append, List.mem_singleton] at h
      rcases h with h | rfl
      · exact List.mem_cons_of_mem _ (ih h)
      · exact List.mem_cons_self
    | merge r d ok =>
      cases ok with
      | true => simp only [live, List.mem_filter] at h; exact ih h.1
      | false => exact ih h
    | got k m i => exact ih h

/-- The domain of the objects, if no address is used twice. -/
theorem hist_domains {eps : K} {w0 : World K} {log : List Ev} {g : Gen K} (h : Hist eps w0 log g) (ho : Once log) :
    ∀ s al, g.slots s = some al → al.mesh ∈ addresses log ∧ ∀ d, (al.mesh, d) ∈ live log → d = al.domain := by
  induction h with
  | start => simp [Gen.init]
  | @new log g prep a d _ _ ih =>
    intro s al hs
    unfold Once at ho
    simp only [addresses, List.nodup_cons] at ho
    obtain ⟨i1, i2⟩ := ih ho.2 s al hs
    refine ⟨List.mem_cons_of_mem _ i1, ?_⟩
    intro d' hd
    simp only [live, List.mem_append, List.mem_singleton, Prod.mk.injEq] at hd
    rcases hd with hd | ⟨hd, _⟩
    · exact i2 _ hd
    · rw [hd] at i1; exact absurd i1 ho.1
  | @merge log g g' r d b hh hm ih =>
    have : g'.slots = g.slots := by
      rcases merge_cases (hist_reg hh) hm with ⟨_, rfl, _⟩ | ⟨_, _, w', _, rfl⟩ | ⟨_, _, w', _, _, _, h1, h2⟩
      · rfl
      · rfl
      · exact h1
    rw [this]
    intro s al hs
    obtain ⟨i1, i2⟩ := ih ho s al hs
    refine ⟨i1, fun d' hd => i2 d' ?_⟩
    generalize (g.isValid r && g.isValid d && mergerOk eps g r d) = o at hd
    cases o with
    | true => simp only [live, List.mem_filter] at hd; exact hd.1
    | false => exact hd
  | @access log g g' k m al0 hh ha ih =>
    rcases access_cases g k m with ⟨al', hs, hk, hm, e⟩ | ⟨hno, ⟨_, e⟩ | ⟨d, g1, hd, hs, e⟩⟩
    · rw [e] at ha
      simp only [Option.some.injEq, Prod.mk.injEq] at ha
      rw [← ha.1]; exact ih ho
    · rw [e] at ha; simp at ha
    · rw [e] at ha
      simp only [Option.some.injEq, Prod.mk.injEq] at ha
      rw [← ha.1]
      obtain ⟨_, _, _, _, d', hd', h1, _⟩ := setAlgorithm_reg hs
      rw [h1]
      intro s al hal
      by_cases hks : s = k.slot
      · subst hks
        simp only [↓reduceIte, Option.some.injEq] at hal
        subst hal
        have hr := hist_reg hh
        rw [hr.domain] at hd'
        simp only [Option.map_eq_some_iff] at hd'
        obtain ⟨x, hx, rfl⟩ := hd'
        have hx1 : x.1 = m := by simpa using List.find?_some hx
        have hxm := List.mem_of_find?_eq_some hx
        refine ⟨?_, ?_⟩
        · have := live_addresses hxm
          rw [hx1] at this; exact this
        · intro d2 hd2
          have e1 : ((m, d2) : Nat × Nat) = x := by
            refine List.inj_on_of_nodup_map hr.nd hd2 hxm ?_
            exact hx1.symm
          rw [← e1]
      · simp only [if_neg hks] at hal
        exact ih ho s al hal
  | work w' _ ih => exact ih ho

/-- **C113 (partial).** As long as no address is used for two meshes, the algorithm returned for a valid mesh refers to
the domain the mesh was created for.  Missing: with reused memory it may refer to an old domain, see
`C113_stale_domain_violated`. -/
theorem C113_domain_partial {eps : K} {w0 : World K} {log : List Ev} {g g' : Gen K} (h : Hist eps w0 log g) (ho : Once log)
    {k : Kind} {m : Nat} {al : Alg} (hv : g.isValid m = true) (ha : g.access k m = some (g', al)) :
    domainOf log m = some al.domain := by
  have hr := hist_reg h
  have hdom : domainOf log m = g.domain m := (hr.domain m).symm
  rw [hdom]
  rcases access_cases g k m with ⟨al', hs, hk, hm, e⟩ | ⟨hno, ⟨_, e⟩ | ⟨d, g1, hd, hs, e⟩⟩
  · rw [e] at ha
    simp only [Option.some.injEq, Prod.mk.injEq] at ha
    obtain ⟨_, rfl⟩ := ha
    unfold Gen.isValid at hv
    cases hd : g.domain m with
    | none => rw [hd] at hv; simp at hv
    | some d =>
      rw [hr.domain] at hd
      simp only [Option.map_eq_some_iff] at hd
      obtain ⟨x, hx, rfl⟩ := hd
      have hx1 : x.1 = m := by simpa using List.find?_some hx
      have hxm := List.mem_of_find?_eq_some hx
      rw [(hist_domains h ho _ _ hs).2 x.2 (by rw [hm, ← hx1]; exact hxm)]
  · rw [e] at ha; simp at ha
  · rw [e] at ha
    simp only [Option.some.injEq, Prod.mk.injEq] at ha
    rw [hd, ← ha.2]

end
end TQ

namespace TQ
open MS MS.St MM GN GNSpec MeshSpec MCSpec RefSpec MergeSpec

namespace GNEx

/-- Creation without change of the contents. -/
def keep : World ℚ → Nat → World ℚ × Bool := fun w _ => (w, true)

/-- Three meshes at the addresses 0, 1, 2 for the domains 10, 11, 12. -/
def g3 : Gen ℚ := (((Gen.init MMEx.three).newMesh keep 0 10).newMesh keep 1 11).newMesh keep 2 12

theorem h3 : Hist (1 / 1000000) MMEx.three [.new 2 12, .new 1 11, .new 0 10] g3 :=
  .new keep 2 12 (.new keep 1 11 (.new keep 0 10 .start (by decide)) (by decide)) (by decide)

/-- The triangulation of the mesh 1 is requested. -/
def g4 : Gen ℚ := { g3 with slots := fun s => if s = .meshing then some ⟨.triangulation, 1, 11, 0⟩ else none, fresh := 1 }

theorem access4 : g3.access .triangulation 1 = some (g4, ⟨.triangulation, 1, 11, 0⟩) := rfl

theorem h4 : Hist (1 / 1000000) MMEx.three [.got .triangulation 1 0, .new 2 12, .new 1 11, .new 0 10] g4 :=
  .access h3 access4

/-- The mesh 1 is merged into the mesh 0. -/
theorem ex5 : ∃ g5, Hist (1 / 1000000) MMEx.three
    [.merge 0 1 true, .got .triangulation 1 0, .new 2 12, .new 1 11, .new 0 10] g5 ∧ g5.slots = g4.slots := by
  obtain ⟨g', φ, h1, h2, h3, _⟩ := C64_adjacent_partial h4 (r := 0) (d := 1) (by decide) (by decide) MMEx.adj MMEx.left0 MMEx.left1 MMEx.iface
  have hok : (g4.isValid 0 && g4.isValid 1 && mergerOk (1 / 1000000) g4 0 1) = true := by
    have := ((C64_return_partial h4 h1).2.2 rfl).1.mp h3
    rw [this]; decide
  refine ⟨g', by have := Hist.merge h4 h1; rw [hok] at this; exact this, ?_⟩
  rcases merge_cases (hist_reg h4) h1 with ⟨hf, _⟩ | ⟨_, _, w'', hw, rfl⟩ | ⟨_, _, w'', hw, hgw, _, hs, _⟩
  · simp at hf
  · rfl
  · exact hs

end GNEx

/-- **C64 (violated).** Whenever two registered meshes have no common interface, nothing is merged, the donor stays
registered, and `merge_meshes` still returns `true`; such a state exists. -/
theorem C64_return_violated :
    (∀ {K : Type} [Field K] [LinearOrder K] [IsStrictOrderedRing K] (eps : K) (g : Gen K) (r d : Nat), r ≠ d → g.isValid r = true → g.isValid d = true →
      WF (g.w r) → WF (g.w d) → (∀ e ∈ (g.w r).es .bdry, ¬ Iface g.w r d e) →
      ∃ g', g.mergeMeshes eps r d = some (g', true) ∧ g'.meshes = g.meshes ∧ SameButPointers (g.w r) (g'.w r) ∧ SameButPointers (g.w d) (g'.w d)) ∧
    ∃ log, ∃ g : Gen ℚ, Hist (1 / 1000000) MMEx.three log g ∧ g.isValid 0 = true ∧ g.isValid 2 = true ∧ WF (g.w 0) ∧ WF (g.w 2) ∧
      ∀ e ∈ (g.w 0).es .bdry, ¬ Iface g.w 0 2 e := by
  constructor
  · intro K _ _ _ eps g r d hne hr hd wr wd hI
    obtain ⟨w', hm, s1, s2, _⟩ := (C53_refused eps hne wr wd).1 hI
    refine ⟨{ g with w := w' }, ?_, rfl, s1, s2⟩
    unfold Gen.mergeMeshes
    unfold Gen.isValid at hr hd
    have h1 : ((g.domain r).isNone || (g.domain d).isNone) = false := by
      rw [Bool.or_eq_false_iff, Option.isNone_eq_false_iff, Option.isNone_eq_false_iff]; exact ⟨hr, hd⟩
    rw [h1, hm]
    rfl
  · refine ⟨_, GNEx.g3, GNEx.h3, by decide, by decide, MMEx.wf0, ?_, by decide +kernel⟩
    exact wf_setTwin (remark_spec _ (built_wf (c := 9) (MCEx.built_of _ _ Built.empty (by decide +kernel)))).1 _ _

/-- **C112 (violated).** The mesh 1 was merged away and destroyed; the accessor still returns the triangulation object
made for it instead of terminating. -/
theorem C112_dangling_violated : ∃ log, ∃ g : Gen ℚ, Hist (1 / 1000000) MMEx.three log g ∧ g.isValid 1 = false ∧
    ∃ al, g.access .triangulation 1 = some (g, al) ∧ al.mesh = 1 := by
  obtain ⟨g5, h5, hs⟩ := GNEx.ex5
  refine ⟨_, g5, h5, ?_, ⟨.triangulation, 1, 11, 0⟩, ?_, rfl⟩
  · rw [← Bool.not_eq_true, (C63_registry h5).2.2.2.1 1]
    simp [live]
  · unfold Gen.access
    rw [hs]
    rfl

/-- **C113 (violated).** A new mesh for the domain 13 is created in the memory of the destroyed mesh 1: the
triangulation returned for it is the old object that refers to the domain 11. -/
theorem C113_stale_domain_violated : ∃ log, ∃ g : Gen ℚ, Hist (1 / 1000000) MMEx.three log g ∧ g.isValid 1 = true ∧ domainOf log 1 = some 13 ∧
    ∃ al, g.access .triangulation 1 = some (g, al) ∧ al.domain = 11 := by
  obtain ⟨g5, h5, hs⟩ := GNEx.ex5
  have hn : 1 ∉ g5.meshes := by rw [(C63_registry h5).1]; decide
  have h6 := Hist.new GNEx.keep 1 13 h5 hn
  refine ⟨_, _, h6, ?_, by decide, ⟨.triangulation, 1, 11, 0⟩, ?_, rfl⟩
  · rw [(C63_registry h6).2.2.2.1 1]
    exact ⟨13, by simp [live]⟩
  · unfold Gen.access Gen.newMesh
    dsimp only
    rw [hs]
    rfl

/-! ### Examples -/

/-- After merging, the meshes 0 and 2 remain. -/
example : ∃ g : Gen ℚ, Hist (1 / 1000000) MMEx.three [.merge 0 1 true, .got .triangulation 1 0, .new 2 12, .new 1 11, .new 0 10] g ∧
    g.meshes = [0, 2] ∧ g.domain 2 = some 12 ∧ g.domain 1 = none ∧ g.mesh 1 = some 2 ∧ g.mesh 2 = none := by
  obtain ⟨g5, h5, _⟩ := GNEx.ex5
  obtain ⟨c1, _, c3, _, c5⟩ := C63_registry h5
  refine ⟨g5, h5, by rw [c1]; decide, by rw [c3]; decide, by rw [c3]; decide, by rw [(c5 1).1]; decide, by rw [(c5 2).1]; decide⟩

/-- Requests in one group: the same again, another mesh, back to the first one. -/
example : ((GNEx.g3.access .triangulation 1).bind fun x => (x.1.access .triangulation 1).bind fun y => (y.1.access .quadLayer 1).bind fun z =>
    (z.1.access .mixed 1).bind fun u => (u.1.access .triangulation 1).map fun v =>
      [x.2.ident, y.2.ident, z.2.ident, u.2.ident, v.2.ident]) = some [0, 0, 1, 2, 3] := by decide +kernel

example : Once [.got .triangulation 1 0, .new 2 12, .new 1 11, .new 0 10] ∧ GNEx.g4.isValid 1 = true ∧ GNEx.g4.isValid 5 = false := by
  refine ⟨by unfold Once; decide, by decide, by decide⟩

end TQ

#print axioms TQ.C63_registry
#print axioms TQ.C64_return_partial
#print axioms TQ.C64_adjacent_partial
#print axioms TQ.C65_accessor
#print axioms TQ.C65_groups
#print axioms TQ.C112_invalid_mesh_partial
#print axioms TQ.C113_domain_partial
#print axioms TQ.C64_return_violated
#print axioms TQ.C112_dangling_violated
#print axioms TQ.C113_stale_domain_violated
