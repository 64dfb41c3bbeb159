import Verif.Smoothing.Props

/-! # Lemmas on the relaxation factors, the directions and the neighbours -/

set_option linter.unusedSectionVars false
set_option linter.unusedSimpArgs false

namespace TQ.Sm
open TQ.MS TQ.MS.St TQ.MeshSpec TQ.MCSpec TQ.SmSpec TQ.RefSpec TQ.MC
variable {K : Type*} [Field K] [LinearOrder K] [IsStrictOrderedRing K]

theorem loopM_congr {α β : Type*} {f g : α → β → Option α} : ∀ {l : List β}, (∀ b ∈ l, ∀ a, f a b = g a b) → ∀ a, loopM f a l = loopM g a l := by
  intro l
  induction l with
  | nil => intro _ a; rfl
  | cons b l ih =>
    intro h a
    unfold loopM
    rw [h b (by simp) a]
    cases g a b with
    | none => rfl
    | some a1 => exact ih (fun b hb => h b (by simp [hb])) a1

theorem smoothIter_dirs {c : SmoothCfg K} {rule : Rule K} {dirs dirs' : List (Pt K)} {step : K} {conn : List (Nat × List Nat)}
    (h : ∀ i < conn.length, dirs[i]? = dirs'[i]?) (s : St K) : smoothIter c rule dirs step conn s = smoothIter c rule dirs' step conn s := by
  refine loopM_congr (fun x hx a => ?_) s
  have := List.mem_zipIdx hx
  unfold smoothVertex
  rw [h x.2 (by omega)]

theorem smoothLoop_dirs {c : SmoothCfg K} {rule : Rule K} {dirs dirs' : List (Pt K)} {decay : K} {conn : List (Nat × List Nat)}
    (h : ∀ i < conn.length, dirs[i]? = dirs'[i]?) : ∀ (n : Nat) (r : St K × K),
      smoothLoop c rule dirs decay conn n r = smoothLoop c rule dirs' decay conn n r := by
  intro n
  induction n with
  | zero => intro r; rfl
  | succ n ih =>
    intro r
    unfold smoothLoop
    rw [smoothIter_dirs h]
    cases smoothIter c rule dirs' r.2 conn r.1 with
    | none => rfl
    | some t => exact ih _

theorem mixedLoop_dirs {c : SmoothCfg K} {r1 r2 : Rule K} {dirs dirs' : List (Pt K)} {decay : K} {conn : List (Nat × List Nat)}
    (h : ∀ i < conn.length, dirs[i]? = dirs'[i]?) : ∀ (n : Nat) (r : St K × K),
      mixedLoop c r1 r2 dirs decay conn n r = mixedLoop c r1 r2 dirs' decay conn n r := by
  intro n
  induction n with
  | zero => intro r; rfl
  | succ n ih =>
    intro r
    unfold mixedLoop
    rw [smoothIter_dirs h]
    cases smoothIter c r1 dirs' r.2 conn r.1 with
    | none => rfl
    | some t =>
      dsimp only
      rw [smoothIter_dirs h]
      cases smoothIter c r2 dirs' r.2 conn t with
      | none => rfl
      | some u => exact ih _

theorem layerDirs_zero (nearest : St K → Pt K → Option Nat) (norm : Pt K → K) (c : SmoothCfg K) (s : St K) {i : Nat}
    (h : i < s.verts.length) : (layerDirs nearest norm c s)[i]? = some 0 := by
  unfold layerDirs
  rw [List.getElem?_append_left (by simpa using h)]
  simp [h]

/-! ### Meshes that differ in facet pointers only -/

section pointers
variable {s t : St K} (h : SameButPointers s t)
include h

theorem sbp_setPos (v : Nat) (p : Pt K) : SameButPointers (s.setPos v p) (t.setPos v p) := by
  refine ⟨h.verts, ?_, h.es, h.tris, h.quads, h.nxt, h.area, h.color, h.ends, h.corners⟩
  unfold setPos
  dsimp only
  rw [h.V]

theorem sbp_oriented (eps : K) (f : FRef) : t.facetOriented eps f = s.facetOriented eps f := by
  unfold facetOriented pos
  rw [(h.corners f).1, h.V]

theorem sbp_searchSqr (v : Nat) : t.searchSqr v = s.searchSqr v := by
  unfold searchSqr
  rw [h.V]
  have : t.sideSqrs = s.sideSqrs := by
    funext f; unfold sideSqrs pos; rw [(h.corners f).1, h.V]
  rw [this]

theorem sbp_near (l : EL) (v : Nat) : t.edgesNear l v = s.edgesNear l v := by
  unfold edgesNear
  rw [h.es, sbp_searchSqr h, sbp_pos h]
  have : t.edgeMid = s.edgeMid := by
    funext e; unfold edgeMid; rw [(h.ends e).1, (h.ends e).2.1, sbp_pos h, sbp_pos h]
  rw [this]

theorem sbp_cross (eps : K) : t.edgesCross eps = s.edgesCross eps := by
  funext e f
  unfold edgesCross
  rw [(h.ends e).1, (h.ends e).2.1, (h.ends f).1, (h.ends f).2.1]
  simp only [sbp_pos h]

theorem sbp_valid (c : SmoothCfg K) (v : Nat) : t.placeValid c v = s.placeValid c v := by
  unfold placeValid crossFree
  have : t.facetOriented c.eps = s.facetOriented c.eps := funext fun f => sbp_oriented h c.eps f
  rw [sbp_near h, sbp_near h, sbp_cross h, sbp_pos h, this, h.V]

theorem sbp_star (v : Nat) : t.starNbrs v = s.starNbrs v := by
  unfold starNbrs
  rw [h.V]
  congr 1
  funext f
  rw [(h.corners f).1]

end pointers

theorem sp_star {s t : St K} (h : SameButPlaces s t) (v : Nat) : t.starNbrs v = s.starNbrs v := by
  unfold starNbrs
  rw [(h.V v).2.2]
  congr 1
  funext f
  rw [(h.corners f).1]

instance (s : St K) : RightCommutative (fun (p : Pt K) (w : Nat) => p + s.pos w) :=
  ⟨fun a b c => by apply Pt.ext' <;> simp <;> ring⟩

theorem laplace_perm {s t : St K} (h : SameButPointers s t) {v : Nat} {ns ns' : List Nat} (hp : ns'.Perm ns) :
    laplaceRule t v ns' = laplaceRule s v ns := by
  unfold laplaceRule
  have h1 : (ns' = []) = (ns = []) := by
    apply propext
    constructor
    · rintro rfl; exact hp.symm.eq_nil
    · rintro rfl; exact hp.eq_nil
  have h2 : (fun (p : Pt K) w => p + t.pos w) = fun p w => p + s.pos w := by
    funext p w; rw [sbp_pos h]
  rw [h2, sbp_pos h, hp.foldl_eq, hp.length_eq]
  simp only [h1]

theorem smoothVertex_rel {c : SmoothCfg K} {d d' : List (Pt K)} {step : K} {s s' t : St K} (h : SameButPointers s s')
    {v i : Nat} {ns ns' : List Nat} (hp : ns'.Perm ns) (hd : d'[i]? = d[i]?)
    (ht : smoothVertex c laplaceRule d step s ((v, ns), i) = some t) :
    ∃ t', smoothVertex c laplaceRule d' step s' ((v, ns'), i) = some t' ∧ SameButPointers t t' := by
  unfold smoothVertex at ht ⊢
  dsimp only at ht ⊢
  have hk : s'.keeps c v = s.keeps c v := by unfold keeps; rw [h.V]
  rw [hk, hd, laplace_perm h hp, h.V, sbp_pos h]
  by_cases hk : s.keeps c v = true
  · rw [if_pos hk] at ht ⊢
    exact ⟨s', rfl, Option.some.inj ht ▸ h⟩
  · rw [if_neg hk] at ht ⊢
    generalize (if Flags.has (s.V v).props Flags.vInQuadLayer = true then d[i]? else some 0) = o at ht ⊢
    cases o with
    | none => exact absurd ht (by simp)
    | some dd =>
      dsimp only at ht ⊢
      cases hl : laplaceRule s v ns with
      | none => rw [hl] at ht; exact ⟨s', rfl, Option.some.inj ht ▸ h⟩
      | some delta =>
        rw [hl] at ht
        dsimp only at ht ⊢
        rw [sbp_valid (sbp_setPos h _ _)]
        split_ifs at ht ⊢
        · exact ⟨_, rfl, Option.some.inj ht ▸ sbp_setPos h _ _⟩
        · exact ⟨_, rfl, Option.some.inj ht ▸ sbp_setPos (sbp_setPos h _ _) _ _⟩
        · exact ⟨s', rfl, Option.some.inj ht ▸ h⟩

theorem loopM_rel {α β : Type*} {f g : α → β → Option α} {R : α → α → Prop} {S : β → β → Prop}
    (h : ∀ a a' b b' r, R a a' → S b b' → f a b = some r → ∃ r', g a' b' = some r' ∧ R r r') :
    ∀ {l l' : List β}, List.Forall₂ S l l' → ∀ a a' r, R a a' → loopM f a l = some r → ∃ r', loopM g a' l' = some r' ∧ R r r' := by
  intro l l' hl
  induction hl with
  | nil => intro a a' r hr hf; exact ⟨a', rfl, Option.some.inj hf ▸ hr⟩
  | @cons b b' l l' hb _ ih =>
    intro a a' r hr hf
    unfold loopM at hf ⊢
    cases hfa : f a b with
    | none => rw [hfa] at hf; exact absurd hf (by simp)
    | some a1 =>
      rw [hfa] at hf
      obtain ⟨a1', h1, h2⟩ := h a a' b b' a1 hr hb hfa
      rw [h1]
      exact ih a1 a1' r h2 hf

/-- Connectivities with the same vertices and permuted neighbours. -/
def ConnRel (x y : (Nat × List Nat) × Nat) : Prop := y.1.1 = x.1.1 ∧ y.1.2.Perm x.1.2 ∧ y.2 = x.2

theorem smoothIter_rel {c : SmoothCfg K} {d d' : List (Pt K)} {step : K} {s s' t : St K} (h : SameButPointers s s')
    {k k' : List (Nat × List Nat)} (hk : List.Forall₂ ConnRel k.zipIdx k'.zipIdx) (hd : ∀ i : Nat, i < k.length → d'[i]? = d[i]?)
    (ht : smoothIter c laplaceRule d step k s = some t) :
    ∃ t', smoothIter c laplaceRule d' step k' s' = some t' ∧ SameButPointers t t' := by
  have key : List.Forall₂ (fun x y => ConnRel x y ∧ x.2 < k.length) k.zipIdx k'.zipIdx := by
    have : ∀ x ∈ k.zipIdx, x.2 < k.length := fun x hx => by have := List.mem_zipIdx hx; omega
    revert this
    generalize k.length = m
    intro hm
    revert hk hm
    generalize k.zipIdx = l
    generalize k'.zipIdx = l'
    intro hk hm
    induction hk with
    | nil => exact .nil
    | cons hb _ ih => exact .cons ⟨hb, hm _ (by simp)⟩ (ih fun x hx => hm x (by simp [hx]))
  refine loopM_rel (R := SameButPointers) ?_ key s s' t h ht
  rintro a a' ⟨⟨v, ns⟩, i⟩ ⟨⟨v', ns'⟩, i'⟩ r ha ⟨⟨h1, h2, h3⟩, h4⟩ hf
  dsimp only at h1 h2 h3 h4
  subst h1; subst h3
  exact smoothVertex_rel ha h2 (hd _ h4) hf

theorem smoothLoop_rel {c : SmoothCfg K} {d d' : List (Pt K)} {decay : K} {k k' : List (Nat × List Nat)}
    (hk : List.Forall₂ ConnRel k.zipIdx k'.zipIdx) (hd : ∀ i : Nat, i < k.length → d'[i]? = d[i]?) :
    ∀ (n : Nat) (s s' : St K) (step : K) (r : St K × K), SameButPointers s s' → smoothLoop c laplaceRule d decay k n (s, step) = some r →
      ∃ r', smoothLoop c laplaceRule d' decay k' n (s', step) = some r' ∧ SameButPointers r.1 r'.1 ∧ r'.2 = r.2 := by
  intro n
  induction n with
  | zero => intro s s' step r h hr; exact ⟨(s', step), rfl, by rw [← Option.some.inj hr]; exact h, by rw [← Option.some.inj hr]⟩
  | succ n ih =>
    intro s s' step r h hr
    unfold smoothLoop at hr ⊢
    cases hs : smoothIter c laplaceRule d step k s with
    | none => simp only [hs] at hr; exact absurd hr (by simp)
    | some t =>
      simp only [hs] at hr
      obtain ⟨t', h1, h2⟩ := smoothIter_rel h hk hd hs
      simp only [h1]
      exact ih t t' _ r h2 hr

theorem smoothLoop_succ (c : SmoothCfg K) (rule : Rule K) (d : List (Pt K)) (decay : K) (k : List (Nat × List Nat)) (n : Nat) (r : St K × K) :
    smoothLoop c rule d decay k (n + 1) r =
      match smoothIter c rule d r.2 k r.1 with
      | none => none
      | some t => smoothLoop c rule d decay k n (t, r.2 * (-decay)) := rfl

theorem smoothLoop_add {c : SmoothCfg K} {rule : Rule K} {d : List (Pt K)} {decay : K} {k : List (Nat × List Nat)} (b : Nat) :
    ∀ (a : Nat) (r : St K × K), smoothLoop c rule d decay k (a + b) r =
      match smoothLoop c rule d decay k a r with
      | none => none
      | some r' => smoothLoop c rule d decay k b r' := by
  intro a
  induction a with
  | zero => intro r; rw [Nat.zero_add]; rfl
  | succ a ih =>
    intro r
    rw [Nat.succ_add, smoothLoop_succ, smoothLoop_succ]
    cases smoothIter c rule d r.2 k r.1 with
    | none => rfl
    | some t =>
      dsimp only
      rw [ih]

theorem conn_rel {c : SmoothCfg K} (ho : ∀ t v l, (c.order t v l).Perm l) {s t : St K} (h : SameButPlaces s t) :
    List.Forall₂ ConnRel (vertexConn c s).zipIdx (vertexConn c t).zipIdx := by
  unfold vertexConn
  rw [h.verts]
  generalize 0 = j
  generalize s.verts = l
  induction l generalizing j with
  | nil => exact .nil
  | cons v l ih =>
    simp only [List.map_cons, List.zipIdx_cons]
    refine .cons ⟨rfl, ?_, rfl⟩ (ih (j + 1))
    dsimp only
    rw [sp_star h]
    exact (ho _ _ _).trans (ho _ _ _).symm

/-! ### The neighbours of a vertex -/

theorem star_facet {a b c v : Nat} (hn : [a, b, c].Nodup) (hv : v ∈ [a, b, c]) :
    ([a, b, c].filter (· ≠ v)).Perm (((sidesOf [a, b, c]).filter (fun p => p.1 = v)).map Prod.snd ++
      ((sidesOf [a, b, c]).filter (fun p => p.2 = v)).map Prod.fst) := by
  simp only [List.nodup_cons, List.mem_cons, List.not_mem_nil, or_false, not_or, List.nodup_nil, and_true, not_false_eq_true] at hn hv
  obtain ⟨⟨h1, h2⟩, h3⟩ := hn
  rw [sides3]
  rcases hv with rfl | rfl | rfl
  · simp [h1, h2, h3, Ne.symm h1, Ne.symm h2, Ne.symm h3]
  · simp [h1, h2, h3, Ne.symm h1, Ne.symm h2, Ne.symm h3, List.Perm.swap]
  · simp [h1, h2, h3, Ne.symm h1, Ne.symm h2, Ne.symm h3]

theorem side_corner {s : St K} {f : FRef} {p : Nat × Nat} (h : p ∈ sidesOf (s.F f).corners) :
    p.1 ∈ (s.F f).corners ∧ p.2 ∈ (s.F f).corners := by
  unfold sidesOf at h
  rw [List.mem_filterMap] at h
  obtain ⟨i, _, hi⟩ := h
  unfold sideAt at hi
  split at hi
  · rename_i a b h1 h2
    rw [← Option.some.inj hi]
    exact ⟨List.mem_of_getElem? h1, List.mem_of_getElem? h2⟩
  · exact absurd hi (by simp)

theorem flatMap_append_perm {α β : Type*} (l : List α) (g h : α → List β) :
    (l.flatMap fun x => g x ++ h x).Perm (l.flatMap g ++ l.flatMap h) := by
  induction l with
  | nil => simp
  | cons x l ih =>
    simp only [List.flatMap_cons]
    refine (List.Perm.append_left (g x ++ h x) ih).trans ?_
    rw [List.append_assoc, List.append_assoc]
    refine List.Perm.append_left _ ?_
    rw [← List.append_assoc, ← List.append_assoc]
    exact List.Perm.append_right _ List.perm_append_comm

theorem flatMap_perm {α β : Type*} {l : List α} {g h : α → List β} (hp : ∀ x ∈ l, (g x).Perm (h x)) : (l.flatMap g).Perm (l.flatMap h) := by
  induction l with
  | nil => simp
  | cons x l ih =>
    simp only [List.flatMap_cons]
    exact (hp x (by simp)).append (ih fun y hy => hp y (by simp [hy]))

theorem flatMap_filter {α β : Type*} (l : List α) (q : α → Bool) (g : α → List β) (h : ∀ x ∈ l, q x = false → g x = []) :
    (l.filter q).flatMap g = l.flatMap g := by
  induction l with
  | nil => rfl
  | cons x l ih =>
    have ih := ih fun y hy => h y (by simp [hy])
    cases hq : q x with
    | true => simp [List.filter_cons, hq, ih]
    | false => simp [List.filter_cons, hq, ih, h x (by simp) hq]

/-- The neighbours of a vertex with triangles only: the ends of the sides that start there and the starts of
the sides that end there. -/
theorem star_sides {s : St K} (w : WF s) {v : Nat} (hv : v ∈ s.verts) (ht : ∀ f ∈ (s.V v).facets, (s.F f).corners.length = 3) :
    (s.starNbrs v).Perm (((allSides s).filter (fun p => p.1 = v)).map Prod.snd ++ ((allSides s).filter (fun p => p.2 = v)).map Prod.fst) := by
  have hp : (s.V v).facets.Perm ((facets s).filter fun f => v ∈ (s.F f).corners) := by
    rw [List.perm_ext_iff_of_nodup (w.facets v hv).1 ((facets_nodup w).filter _)]
    intro f
    rw [(w.facets v hv).2 f, List.mem_filter, mem_facets]
    simp
  unfold starNbrs
  have h1 : ((s.V v).facets.flatMap fun f => (s.F f).corners.filter (· ≠ v)).Perm
      ((s.V v).facets.flatMap fun f => ((sidesOf (s.F f).corners).filter (fun p => p.1 = v)).map Prod.snd ++
        ((sidesOf (s.F f).corners).filter (fun p => p.2 = v)).map Prod.fst) := by
    refine flatMap_perm fun f hf => ?_
    have h3 := ht f hf
    have hl := ((w.facets v hv).2 f).mp hf
    have hn := (w.cor f hl.1).1
    have hm := hl.2
    match hc : (s.F f).corners with
    | [a, b, c] => rw [hc] at hn hm; exact star_facet hn hm
    | [] | [_] | [_, _] | _ :: _ :: _ :: _ :: _ => rw [hc] at h3; simp at h3
  refine h1.trans ((flatMap_append_perm _ _ _).trans (List.Perm.append ?_ ?_))
  · refine (hp.flatMap_right _).trans ?_
    rw [flatMap_filter]
    · unfold allSides
      rw [List.filter_flatMap, List.map_flatMap]
    · intro f _ hq
      rw [List.map_eq_nil_iff, List.filter_eq_nil_iff]
      intro p hp1 hp2
      have := (side_corner hp1).1
      simp at hp2 hq
      rw [hp2] at this
      exact hq this
  · refine (hp.flatMap_right _).trans ?_
    rw [flatMap_filter]
    · unfold allSides
      rw [List.filter_flatMap, List.map_flatMap]
    · intro f _ hq
      rw [List.map_eq_nil_iff, List.filter_eq_nil_iff]
      intro p hp1 hp2
      have := (side_corner hp1).2
      simp at hp2 hq
      rw [hp2] at this
      exact hq this

/-- Around an interior vertex with triangles only, every neighbour is counted twice. -/
theorem star_twice {s : St K} (h : Conforming s) {v : Nat} (hv : v ∈ s.verts) (ht : ∀ f ∈ (s.V v).facets, (s.F f).corners.length = 3)
    (hb : ∀ e ∈ s.es .bdry, (s.E e).v1 ≠ v ∧ (s.E e).v2 ≠ v) {N : List Nat} (hn : N.Nodup)
    (hN : ∀ w, w ∈ N ↔ ∃ e ∈ s.es .intr, Connects s e v w) : (s.starNbrs v).Perm (N ++ N) := by
  have cov : ∀ w, (Covered s v w ↔ w ∈ N) ∧ (Covered s w v ↔ w ∈ N) := by
    intro w
    rw [hN]
    have back : (∃ e ∈ s.es .intr, Connects s e v w) → Covered s v w ∧ Covered s w v := by
      rintro ⟨e, he, ⟨h1, h2⟩ | ⟨h1, h2⟩⟩
      · have := h.intrFull e he; rw [h1, h2] at this; exact this
      · have := h.intrFull e he; rw [h1, h2] at this; exact this.symm
    refine ⟨⟨fun hc => ?_, fun hx => (back hx).1⟩, ⟨fun hc => ?_, fun hx => (back hx).2⟩⟩
    · obtain ⟨e, he | he, hcon⟩ := h.sides v w hc
      · exact ⟨e, he, hcon⟩
      · rcases hcon with ⟨h1, _⟩ | ⟨_, h1⟩
        · exact absurd h1 (hb e he).1
        · exact absurd h1 (hb e he).2
    · obtain ⟨e, he | he, hcon⟩ := h.sides w v hc
      · exact ⟨e, he, hcon.symm⟩
      · rcases hcon with ⟨_, h1⟩ | ⟨h1, _⟩
        · exact absurd h1 (hb e he).2
        · exact absurd h1 (hb e he).1
  have nd := allSides_nodup h.wf h.dir
  refine (star_sides h.wf hv ht).trans (List.Perm.append ?_ ?_)
  · rw [List.perm_ext_iff_of_nodup _ hn]
    · intro w
      rw [← (cov w).1]
      simp only [List.mem_map, List.mem_filter, decide_eq_true_eq]
      constructor
      · rintro ⟨p, ⟨hp, rfl⟩, rfl⟩; exact mem_allSides.mp hp
      · intro hc; exact ⟨(v, w), ⟨mem_allSides.mpr hc, rfl⟩, rfl⟩
    · refine List.Nodup.map_on ?_ (nd.filter _)
      intro p hp q hq heq
      simp only [List.mem_filter, decide_eq_true_eq] at hp hq
      exact Prod.ext (hp.2.trans hq.2.symm) heq
  · rw [List.perm_ext_iff_of_nodup _ hn]
    · intro w
      rw [← (cov w).2]
      simp only [List.mem_map, List.mem_filter, decide_eq_true_eq]
      constructor
      · rintro ⟨p, ⟨hp, rfl⟩, rfl⟩; exact mem_allSides.mp hp
      · intro hc; exact ⟨(w, v), ⟨mem_allSides.mpr hc, rfl⟩, rfl⟩
    · refine List.Nodup.map_on ?_ (nd.filter _)
      intro p hp q hq heq
      simp only [List.mem_filter, decide_eq_true_eq] at hp hq
      exact Prod.ext heq (hp.2.trans hq.2.symm)

end TQ.Sm
