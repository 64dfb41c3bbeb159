import Verif.Cleanup.Lemmas
import Verif.Geometry.Props

/-! # Lemmas: what `setup_facet_connectivity` writes -/

set_option linter.unusedSectionVars false
set_option linter.unusedSimpArgs false

namespace TQ.MC
open TQ.MS TQ.MeshSpec TQ.MCSpec MS.St
variable {K : Type*} [Field K] [LinearOrder K]

theorem applyW_none (ws : List (FRef × Nat × FRef)) (F : FRef → FData) (f : FRef) (i : Nat)
    (h : ∀ w ∈ ws, w.1 = f → w.2.1 ≠ i) : (applyW ws F f).nbrs[i]? = (F f).nbrs[i]? := by
  induction ws generalizing F with
  | nil => rfl
  | cons w ws ih =>
    have h2 : applyW (w :: ws) F f = applyW ws (upd F w.1 fun d => { d with nbrs := d.nbrs.set w.2.1 w.2.2 }) f := rfl
    rw [h2, ih _ (fun x hx => h x (List.mem_cons_of_mem _ hx))]
    by_cases hf : f = w.1
    · subst hf
      have := h w List.mem_cons_self rfl
      simp [List.getElem?_set_ne this]
    · simp [upd_ne _ _ hf]

theorem applyW_some (ws : List (FRef × Nat × FRef)) (F : FRef → FData) (f : FRef) (i : Nat) (g : FRef)
    (hi : i < (F f).nbrs.length) (hm : (f, i, g) ∈ ws) (h : ∀ w ∈ ws, w.1 = f → w.2.1 = i → w.2.2 = g) :
    (applyW ws F f).nbrs[i]? = some g := by
  induction ws generalizing F with
  | nil => simp at hm
  | cons w ws ih =>
    have h2 : applyW (w :: ws) F f = applyW ws (upd F w.1 fun d => { d with nbrs := d.nbrs.set w.2.1 w.2.2 }) f := rfl
    rw [h2]
    by_cases hc : (f, i, g) ∈ ws
    · refine ih _ ?_ hc (fun x hx => h x (List.mem_cons_of_mem _ hx))
      by_cases hf : f = w.1
      · subst hf; simpa using hi
      · simpa [upd_ne _ _ hf] using hi
    · rw [List.mem_cons] at hm
      have hw : w = (f, i, g) := by rcases hm with hm | hm; exacts [hm.symm, absurd hm hc]
      rw [applyW_none]
      · rw [hw]
        simp [List.getElem?_set_self hi]
      · intro x hx h1 h3
        refine hc ?_
        have := h x (List.mem_cons_of_mem _ hx) h1 h3
        have he : x = (f, i, g) := by rw [← h1, ← h3, ← this]
        rw [← he]; exact hx

theorem sideAt_inj {cs : List Nat} (hl : cs.length = 3 ∨ cs.length = 4) (hn : cs.Nodup) {i j a b : Nat} (hi : i < cs.length)
    (hj : j < cs.length) (h1 : sideAt cs i = some (a, b)) (h2 : sideAt cs j = some (a, b) ∨ sideAt cs j = some (b, a)) : i = j := by
  have e1 := (C49_edge_index (d := ⟨cs, [], 0, true⟩) hl hn a b i).mpr ⟨hi, Or.inl h1⟩
  have e2 := (C49_edge_index (d := ⟨cs, [], 0, true⟩) hl hn a b j).mpr ⟨hj, h2⟩
  rw [e1] at e2
  exact Option.some.inj e2

/-- With distinct directions at most two facets share an edge. -/
theorem sharing_two {s : St K} (h : WF s) (hd : DirUnique s) {a b : Nat} (ha : a ∈ s.verts) :
    (sharing s a b).length ≤ 2 := by
  have hn := sharing_nodup h (b := b) ha
  have hm := fun f i => (mem_sharing h (b := b) ha f i).mp
  match hs : sharing s a b with
  | [] => simp
  | [_] => simp
  | [_, _] => simp
  | (f1, i1) :: (f2, i2) :: (f3, i3) :: r =>
    exfalso
    rw [hs] at hn hm
    simp only [List.map_cons, List.nodup_cons, List.mem_cons, not_or] at hn
    obtain ⟨⟨n1, n2, -⟩, ⟨n3, -⟩, -⟩ := hn
    obtain ⟨l1, j1, s1⟩ := hm f1 i1 (by simp)
    obtain ⟨l2, j2, s2⟩ := hm f2 i2 (by simp)
    obtain ⟨l3, j3, s3⟩ := hm f3 i3 (by simp)
    rcases s1 with s1 | s1 <;> rcases s2 with s2 | s2 <;> rcases s3 with s3 | s3 <;>
    first
    | exact n1 (hd _ _ _ _ l1 l2 ⟨_, j1, s1⟩ ⟨_, j2, s2⟩)
    | exact n2 (hd _ _ _ _ l1 l3 ⟨_, j1, s1⟩ ⟨_, j3, s3⟩)
    | exact n3 (hd _ _ _ _ l2 l3 ⟨_, j2, s2⟩ ⟨_, j3, s3⟩)

/-- What is written at an interior edge. -/
theorem mem_nbrWrites {s : St K} (h : WF s) (hd : DirUnique s) {e : Nat} (ha : (s.E e).v1 ∈ s.verts) (f : FRef) (i : Nat) (g : FRef) :
    (f, i, g) ∈ nbrWrites s e ↔ (f, i) ∈ sharing s (s.E e).v1 (s.E e).v2 ∧
      ((g ≠ f ∧ ∃ j, (g, j) ∈ sharing s (s.E e).v1 (s.E e).v2) ∨
       (g = .null ∧ ∀ k j, (k, j) ∈ sharing s (s.E e).v1 (s.E e).v2 → k = f)) := by
  have hn := sharing_nodup h (b := (s.E e).v2) ha
  have h2 := sharing_two h hd (b := (s.E e).v2) ha
  have hm := fun f i => (mem_sharing h (b := (s.E e).v2) ha f i).mp
  have hnull : ∀ j, (FRef.null, j) ∉ sharing s (s.E e).v1 (s.E e).v2 := fun j hj => by
    have := (hm _ _ hj).1; simp [Live] at this
  unfold nbrWrites
  match hs : sharing s (s.E e).v1 (s.E e).v2 with
  | [] => simp
  | [(f1, i1)] =>
    simp only [List.mem_singleton, Prod.mk.injEq]
    constructor
    · rintro ⟨rfl, rfl, rfl⟩
      exact ⟨⟨rfl, rfl⟩, Or.inr ⟨rfl, fun k j hk => hk.1⟩⟩
    · rintro ⟨⟨rfl, rfl⟩, hh⟩
      rcases hh with ⟨hne, j, hj⟩ | ⟨hg, -⟩
      · exact absurd hj.1 hne
      · exact ⟨rfl, rfl, hg⟩
  | [(f1, i1), (f2, i2)] =>
    rw [hs] at hn hnull
    simp only [List.map_cons, List.map_nil, List.nodup_cons, List.mem_cons, List.not_mem_nil, or_false,
      not_false_eq_true, List.nodup_nil, and_true] at hn
    simp only [List.mem_cons, List.not_mem_nil, or_false, Prod.mk.injEq]
    constructor
    · rintro (⟨rfl, rfl, rfl⟩ | ⟨rfl, rfl, rfl⟩)
      · exact ⟨Or.inl ⟨rfl, rfl⟩, Or.inl ⟨Ne.symm hn, i2, Or.inr ⟨rfl, rfl⟩⟩⟩
      · exact ⟨Or.inr ⟨rfl, rfl⟩, Or.inl ⟨hn, i1, Or.inl ⟨rfl, rfl⟩⟩⟩
    · rintro ⟨hf, hg⟩
      rcases hf with ⟨rfl, rfl⟩ | ⟨rfl, rfl⟩
      · rcases hg with ⟨hne, j, ⟨rfl, rfl⟩ | ⟨rfl, rfl⟩⟩ | ⟨rfl, hk⟩
        · exact absurd rfl hne
        · exact Or.inl ⟨rfl, rfl, rfl⟩
        · exact absurd (hk f2 i2 (Or.inr ⟨rfl, rfl⟩)) (Ne.symm hn)
      · rcases hg with ⟨hne, j, ⟨rfl, rfl⟩ | ⟨rfl, rfl⟩⟩ | ⟨rfl, hk⟩
        · exact Or.inr ⟨rfl, rfl, rfl⟩
        · exact absurd rfl hne
        · exact absurd (hk f1 i1 (Or.inl ⟨rfl, rfl⟩)) hn
  | _ :: _ :: _ :: _ => rw [hs] at h2; simp at h2

theorem intr_verts {s : St K} (h : WF s) {l : EL} {e : Nat} (he : e ∈ s.es l) : (s.E e).v1 ∈ s.verts ∧ (s.E e).v2 ∈ s.verts :=
  ⟨((h.ends _).2 e he).2.1, ((h.ends _).2 e he).2.2.1⟩

/-- The neighbour pointer of a side with an interior edge. -/
theorem setup_nbr {eps : K} {s : St K} (h : WF s) (hd : DirUnique s) (hu : UniqueIntr s) (hl : NbrLen s) {f : FRef} (hf : Live s f)
    {i a b : Nat} (hi : i < (s.F f).corners.length) (hs : sideAt (s.F f).corners i = some (a, b)) (hie : IntrEdge s a b) :
    ∃ g, ((setupConnectivity eps s).F f).nbrs[i]? = some g ∧ (g ≠ .null → Live s g ∧ g ≠ f ∧ Touches s g a b) ∧
      ∀ k, Live s k → k ≠ f → Touches s k a b → g = k := by
  obtain ⟨e, he, hab⟩ := hie
  obtain ⟨w1, w2⟩ := intr_verts h he
  have hmem : (f, i) ∈ sharing s (s.E e).v1 (s.E e).v2 := by
    refine (mem_sharing h w1 f i).mpr ⟨hf, hi, ?_⟩
    rcases hab with ⟨h1, h2⟩ | ⟨h1, h2⟩
    · rw [h1, h2]; exact Or.inl hs
    · rw [h1, h2]; exact Or.inr hs
  -- the written value
  have hval : ∃ g, (g ≠ f ∧ ∃ j, (g, j) ∈ sharing s (s.E e).v1 (s.E e).v2) ∨
       (g = .null ∧ ∀ k j, (k, j) ∈ sharing s (s.E e).v1 (s.E e).v2 → k = f) := by
    by_cases hc : ∃ g j, (g, j) ∈ sharing s (s.E e).v1 (s.E e).v2 ∧ g ≠ f
    · obtain ⟨g, j, hj, hne⟩ := hc; exact ⟨g, Or.inl ⟨hne, j, hj⟩⟩
    · push Not at hc; exact ⟨.null, Or.inr ⟨rfl, hc⟩⟩
  obtain ⟨g, hg⟩ := hval
  have htouch : ∀ k, Live s k → (Touches s k a b ↔ ∃ j, (k, j) ∈ sharing s (s.E e).v1 (s.E e).v2) := by
    intro k hk
    constructor
    · intro ht
      rcases ht with ⟨j, hj, hside⟩ | ⟨j, hj, hside⟩ <;> refine ⟨j, (mem_sharing h w1 k j).mpr ⟨hk, hj, ?_⟩⟩ <;>
        rcases hab with ⟨h1, h2⟩ | ⟨h1, h2⟩ <;> rw [h1, h2]
      exacts [Or.inl hside, Or.inr hside, Or.inr hside, Or.inl hside]
    · rintro ⟨j, hj⟩
      obtain ⟨-, hj1, hj2⟩ := (mem_sharing h w1 k j).mp hj
      rcases hab with ⟨h1, h2⟩ | ⟨h1, h2⟩ <;> rw [h1, h2] at hj2
      · exact hj2.imp (fun x => ⟨j, hj1, x⟩) (fun x => ⟨j, hj1, x⟩)
      · exact hj2.symm.imp (fun x => ⟨j, hj1, x⟩) (fun x => ⟨j, hj1, x⟩)
  have hw := (mem_nbrWrites h hd w1 f i g).mpr ⟨hmem, hg⟩
  have huniq : ∀ k, Live s k → k ≠ f → Touches s k a b → g = k := by
    intro k hk hkf ht
    obtain ⟨j, hj⟩ := (htouch k hk).mp ht
    have hw2 := (mem_nbrWrites h hd w1 f i k).mpr ⟨hmem, Or.inl ⟨hkf, j, hj⟩⟩
    rcases hg with ⟨hgf, j', hj'⟩ | ⟨-, hall⟩
    · -- two different facets besides f would make three
      by_contra hgk
      have h2 := sharing_two h hd (b := (s.E e).v2) w1
      have hsub : [(f, i), (g, j'), (k, j)].length ≤ (sharing s (s.E e).v1 (s.E e).v2).length := by
        refine (List.subperm_of_subset ?_ ?_).length_le
        · simp only [List.nodup_cons, List.mem_cons, Prod.mk.injEq, List.not_mem_nil, or_false, not_or, not_and,
            List.nodup_nil, not_false_eq_true, and_true]
          exact ⟨⟨fun hh => absurd hh.symm hgf, fun hh => absurd hh.symm hkf⟩, fun hh => absurd hh hgk⟩
        · intro x hx
          simp only [List.mem_cons, List.not_mem_nil, or_false] at hx
          rcases hx with rfl | rfl | rfl <;> assumption
      simp at hsub; omega
    · exact absurd (hall k j hj) hkf
  refine ⟨g, ?_, ?_, huniq⟩
  · rw [setup_F eps h]
    refine applyW_some _ _ _ _ _ ?_ ?_ ?_
    · rw [hl f hf]; exact hi
    · exact List.mem_flatMap.mpr ⟨e, he, hw⟩
    · intro w hw' h1 h2
      obtain ⟨e', he', hw''⟩ := List.mem_flatMap.mp hw'
      obtain ⟨x1, x2⟩ := intr_verts h he'
      obtain ⟨wf, wi, wg⟩ := w
      dsimp only at h1 h2 ⊢
      subst h1; subst h2
      have hh := (mem_nbrWrites h hd x1 wf wi wg).mp hw''
      have hs' := ((mem_sharing h x1 wf wi).mp hh.1).2.2
      have : e' = e := by
        refine hu e' he' e he ?_
        rw [hs] at hs'
        simp only [Option.some.injEq, Prod.mk.injEq] at hs'
        rcases hab with ⟨h1, h2⟩ | ⟨h1, h2⟩ <;> rcases hs' with ⟨h3, h4⟩ | ⟨h3, h4⟩
        · left; exact ⟨by rw [h1, h3], by rw [h2, h4]⟩
        · right; exact ⟨by rw [h2, h4], by rw [h1, h3]⟩
        · right; exact ⟨by rw [h2, h3], by rw [h1, h4]⟩
        · left; exact ⟨by rw [h1, h4], by rw [h2, h3]⟩
      subst this
      rcases hh.2 with ⟨hne, j, hj⟩ | ⟨hnull, hall⟩
      · have hlk := ((mem_sharing h x1 wg j).mp hj).1
        exact (huniq wg hlk hne ((htouch wg hlk).mpr ⟨j, hj⟩)).symm
      · rcases hg with ⟨hgf, j, hj⟩ | ⟨hgn, -⟩
        · exact absurd (hall g j hj) hgf
        · rw [hnull, hgn]
  · intro hgn
    rcases hg with ⟨hne, j, hj⟩ | ⟨hg0, -⟩
    · have hlk := ((mem_sharing h w1 g j).mp hj).1
      exact ⟨hlk, hne, (htouch g hlk).mpr ⟨j, hj⟩⟩
    · exact absurd hg0 hgn

/-- Without an interior edge the neighbour pointer stays. -/
theorem setup_nbr_keep {eps : K} {s : St K} (h : WF s) (hd : DirUnique s) {f : FRef}
    {i a b : Nat} (hs : sideAt (s.F f).corners i = some (a, b)) (hie : ¬ IntrEdge s a b) :
    ((setupConnectivity eps s).F f).nbrs[i]? = (s.F f).nbrs[i]? := by
  rw [setup_F eps h]
  refine applyW_none _ _ _ _ ?_
  intro w hw h1 h2
  obtain ⟨e, he, hw2⟩ := List.mem_flatMap.mp hw
  obtain ⟨x1, x2⟩ := intr_verts h he
  obtain ⟨wf, wi, wg⟩ := w
  dsimp only at h1 h2
  subst h1; subst h2
  have hh := ((mem_nbrWrites h hd x1 wf wi wg).mp hw2).1
  have hs' := ((mem_sharing h x1 wf wi).mp hh).2.2
  rw [hs] at hs'
  simp only [Option.some.injEq, Prod.mk.injEq] at hs'
  apply hie
  rcases hs' with ⟨h3, h4⟩ | ⟨h3, h4⟩
  · exact ⟨e, he, Or.inl ⟨h3.symm, h4.symm⟩⟩
  · exact ⟨e, he, Or.inr ⟨h4.symm, h3.symm⟩⟩

/-! ### Left and right facet -/

variable [IsStrictOrderedRing K]

theorem isLeft_swap {eps : K} (p q r : Pt K) (h : isLeft eps p q r = true) : isLeft eps q p r = false := by
  unfold isLeft orientation at *
  have e : area2 q p r = - area2 p q r := by unfold area2; ring
  simp only [e, neg_mul_neg]
  by_cases h1 : area2 p q r * area2 p q r < eps
  · simp [h1] at h
  · simp only [h1, if_false] at h ⊢
    by_cases h2 : 0 < area2 p q r
    · rw [if_neg (by linarith)]; rfl
    · simp [h2] at h

/-- The facet pointers of an interior edge after its turn. -/
theorem setup_intr {eps : K} {s : St K} (h : WF s) (hd : DirUnique s) (hlf : LeftFacets eps s) {e : Nat} (he : e ∈ s.es .intr) :
    (∀ f, Live s f → HasSide s f (s.E e).v1 (s.E e).v2 → ((setupConnectivity eps s).E e).fl = f) ∧
    (∀ f, Live s f → HasSide s f (s.E e).v2 (s.E e).v1 → ((setupConnectivity eps s).E e).fr = f) ∧
    ((∀ f, Live s f → ¬ HasSide s f (s.E e).v1 (s.E e).v2) → ((setupConnectivity eps s).E e).fl = (s.E e).fl) ∧
    ((∀ f, Live s f → ¬ HasSide s f (s.E e).v2 (s.E e).v1) → ((setupConnectivity eps s).E e).fr = (s.E e).fr) := by
  obtain ⟨w1, w2⟩ := intr_verts h he
  rw [setup_E eps h, if_pos he]
  unfold edgeAfter
  generalize ha : (s.E e).v1 = a at *
  generalize hb : (s.E e).v2 = b at *
  have hm := mem_sharing h (b := b) w1
  have h2 := sharing_two h hd (b := b) w1
  have hn := sharing_nodup h (b := b) w1
  have hall : ∀ f, Live s f → (Touches s f a b ↔ ∃ j, (f, j) ∈ sharing s a b) := by
    intro k hk
    constructor
    · rintro (⟨j, hj, hside⟩ | ⟨j, hj, hside⟩)
      · exact ⟨j, (hm k j).mpr ⟨hk, hj, Or.inl hside⟩⟩
      · exact ⟨j, (hm k j).mpr ⟨hk, hj, Or.inr hside⟩⟩
    · rintro ⟨j, hj⟩
      obtain ⟨-, hj1, hj2⟩ := (hm k j).mp hj
      exact hj2.imp (fun x => ⟨j, hj1, x⟩) (fun x => ⟨j, hj1, x⟩)
  have hdir : ∀ f j, (f, j) ∈ sharing s a b →
      (HasSide s f a b ∧ isLeft eps (s.pos a) (s.pos b) (s.fCentroid f) = true ∧ ¬ HasSide s f b a) ∨
      (HasSide s f b a ∧ isLeft eps (s.pos a) (s.pos b) (s.fCentroid f) = false ∧ ¬ HasSide s f a b) := by
    intro f j hj
    obtain ⟨hl, hj1, hj2⟩ := (hm f j).mp hj
    rcases hj2 with hj2 | hj2
    · have hs : HasSide s f a b := ⟨j, hj1, hj2⟩
      have := hlf f a b hl hs
      refine Or.inl ⟨hs, this, fun hs' => ?_⟩
      have h3 := isLeft_swap _ _ _ (hlf f b a hl hs')
      rw [this] at h3; exact Bool.noConfusion h3
    · have hs : HasSide s f b a := ⟨j, hj1, hj2⟩
      have h3 := isLeft_swap _ _ _ (hlf f b a hl hs)
      refine Or.inr ⟨hs, h3, fun hs' => ?_⟩
      have := hlf f a b hl hs'
      rw [h3] at this; exact Bool.noConfusion this
  match hs : sharing s a b with
  | [] =>
    have hno : ∀ f, Live s f → ¬ Touches s f a b := fun f hf ht => by
      obtain ⟨j, hj⟩ := (hall f hf).mp ht; rw [hs] at hj; simp at hj
    exact ⟨fun f hf hh => absurd (Or.inl hh) (hno f hf), fun f hf hh => absurd (Or.inr hh) (hno f hf), fun _ => rfl, fun _ => rfl⟩
  | [(f1, i1)] =>
    rw [hs] at hall hdir
    have hl1 : Live s f1 := ((hm f1 i1).mp (by rw [hs]; simp)).1
    simp only [List.mem_singleton, Prod.mk.injEq] at hall hdir
    have hone : ∀ f, Live s f → Touches s f a b → f = f1 := fun f hf ht => by
      obtain ⟨j, hj⟩ := (hall f hf).mp ht; exact hj.1
    simp only [List.take_succ_cons, List.take_nil, List.map_cons, List.map_nil, List.foldl_cons, List.foldl_nil, put]
    rcases hdir f1 i1 ⟨rfl, rfl⟩ with ⟨d1, d2, d3⟩ | ⟨d1, d2, d3⟩
    · rw [if_pos d2]
      refine ⟨fun f hf hh => (hone f hf (Or.inl hh)).symm, fun f hf hh => ?_, fun hno => absurd d1 (hno f1 hl1), fun _ => rfl⟩
      have := hone f hf (Or.inr hh); subst this; exact absurd hh d3
    · rw [if_neg (by rw [d2]; simp)]
      refine ⟨fun f hf hh => ?_, fun f hf hh => (hone f hf (Or.inr hh)).symm, fun _ => rfl, fun hno => absurd d1 (hno f1 hl1)⟩
      have := hone f hf (Or.inl hh); subst this; exact absurd hh d3
  | [(f1, i1), (f2, i2)] =>
    rw [hs] at hall hdir hn
    have hl1 : Live s f1 := ((hm f1 i1).mp (by rw [hs]; simp)).1
    have hl2 : Live s f2 := ((hm f2 i2).mp (by rw [hs]; simp)).1
    simp only [List.map_cons, List.map_nil, List.nodup_cons, List.mem_cons, List.not_mem_nil, or_false,
      not_false_eq_true, List.nodup_nil, and_true] at hn
    simp only [List.mem_cons, List.not_mem_nil, or_false, Prod.mk.injEq] at hall hdir
    have hone : ∀ f, Live s f → Touches s f a b → f = f1 ∨ f = f2 := fun f hf ht => by
      obtain ⟨j, hj⟩ := (hall f hf).mp ht; exact hj.imp And.left And.left
    simp only [List.take_succ_cons, List.take_nil, List.map_cons, List.map_nil, List.foldl_cons, List.foldl_nil, put]
    rcases hdir f1 i1 (Or.inl ⟨rfl, rfl⟩) with ⟨d1, d2, d3⟩ | ⟨d1, d2, d3⟩ <;>
    rcases hdir f2 i2 (Or.inr ⟨rfl, rfl⟩) with ⟨c1, c2, c3⟩ | ⟨c1, c2, c3⟩
    · exact absurd (hd _ _ _ _ hl1 hl2 d1 c1) hn
    · simp only [d2, c2, if_true, Bool.false_eq_true, if_false]
      refine ⟨fun f hf hh => ?_, fun f hf hh => ?_, fun hno => absurd d1 (hno f1 hl1), fun hno => absurd c1 (hno f2 hl2)⟩
      · rcases hone f hf (Or.inl hh) with rfl | rfl
        · rfl
        · exact absurd hh c3
      · rcases hone f hf (Or.inr hh) with rfl | rfl
        · exact absurd hh d3
        · rfl
    · simp only [d2, c2, if_true, Bool.false_eq_true, if_false]
      refine ⟨fun f hf hh => ?_, fun f hf hh => ?_, fun hno => absurd c1 (hno f2 hl2), fun hno => absurd d1 (hno f1 hl1)⟩
      · rcases hone f hf (Or.inl hh) with rfl | rfl
        · exact absurd hh d3
        · rfl
      · rcases hone f hf (Or.inr hh) with rfl | rfl
        · rfl
        · exact absurd hh c3
    · exact absurd (hd _ _ _ _ hl1 hl2 d1 c1) hn
  | _ :: _ :: _ :: _ => rw [hs] at h2; simp at h2

/-- The left facet of a boundary edge after its turn; the asserted condition holds. -/
theorem setup_bdry {eps : K} {s : St K} (h : WF s) (hlf : LeftFacets eps s) {e : Nat} (he : e ∈ s.es .bdry)
    (hno : ∀ f, Live s f → ¬ HasSide s f (s.E e).v2 (s.E e).v1) (hd : DirUnique s) :
    bdryAssert eps s e = true ∧
    (∀ f, Live s f → HasSide s f (s.E e).v1 (s.E e).v2 → ((setupConnectivity eps s).E e).fl = f) ∧
    ((∀ f, Live s f → ¬ HasSide s f (s.E e).v1 (s.E e).v2) → ((setupConnectivity eps s).E e).fl = (s.E e).fl) := by
  obtain ⟨w1, w2⟩ := intr_verts h he
  have hni : e ∉ s.es .intr := fun h2 => by
    have := ((h.ends _).2 e h2).1.symm.trans ((h.ends _).2 e he).1
    simp at this
  rw [setup_E eps h, if_neg hni, if_pos he]
  unfold bdryAfter bdryAssert
  have hm := mem_sharing h (b := (s.E e).v2) w1
  match hs : sharing s (s.E e).v1 (s.E e).v2 with
  | [] =>
    refine ⟨rfl, fun f hf hh => ?_, fun _ => rfl⟩
    obtain ⟨j, hj, hside⟩ := hh
    have := (hm f j).mpr ⟨hf, hj, Or.inl hside⟩
    rw [hs] at this; simp at this
  | (f1, i1) :: r =>
    obtain ⟨l1, j1, s1⟩ := (hm f1 i1).mp (by rw [hs]; simp)
    have hside : HasSide s f1 (s.E e).v1 (s.E e).v2 := by
      rcases s1 with s1 | s1
      · exact ⟨_, j1, s1⟩
      · exact absurd ⟨_, j1, s1⟩ (hno f1 l1)
    have hleft := hlf f1 _ _ l1 hside
    dsimp only
    rw [if_pos hleft]
    exact ⟨hleft, fun f hf hh => hd _ _ _ _ l1 hf hside hh, fun hn => absurd hside (hn f1 l1)⟩

end TQ.MC
