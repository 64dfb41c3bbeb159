import Verif.Whole.SizeLemmas

/-! # Helper lemmas on the vertices of a domain, if all written vertices are different -/

set_option linter.unusedSectionVars false

namespace TQ
open OutlSpec FlSpec Fl Cf Sh Dom FrSpec
variable {K : Type} [Field K] [LinearOrder K] [IsStrictOrderedRing K]

def vertOf (x : Pt K × Pt K) : BVert K := ⟨x.1, x.2.x, x.2.y⟩

theorem pickVert_fresh {st : List (BVert K)} {r : Option Nat} {xy pr : Pt K} (h : ∀ v ∈ st, v.xy ≠ xy) : (pickVert st r xy pr).2 = st ++ [⟨xy, pr.x, pr.y⟩] := by
  unfold pickVert
  split
  · split
    · rename_i v hv
      rw [if_neg (h v (List.mem_of_getElem? hv))]
    · rfl
  · rfl

theorem gatherVerts_fresh {nearest : List (BVert K) → Pt K → Out (Option Nat)} {cs : List (Pt K)} : ∀ {props : List (Pt K)} {st st' : List (BVert K)} {is : List Nat},
    gatherVerts nearest cs props st = .ok (is, st') → (∀ v ∈ st, v.xy ∉ cs) → cs.Nodup → st' = st ++ (cs.zip props).map vertOf := by
  induction cs with
  | nil =>
    intro props st st' is h _ _
    simp only [gatherVerts, Out.ok.injEq, Prod.mk.injEq] at h
    rw [← h.2]; simp
  | cons xy cs ih =>
    intro props st st' is h hf hn
    cases props with
    | nil => simp [gatherVerts] at h
    | cons pr props =>
      rw [gatherVerts] at h
      split at h
      · cases h
      · cases h
      · rename_i r _
        rw [pickVert_fresh (fun v hv e => hf v hv (by rw [e]; exact List.mem_cons_self ..))] at h
        split at h
        · rename_i is' st1 hg
          simp only [Out.ok.injEq, Prod.mk.injEq] at h
          obtain ⟨-, rfl⟩ := h
          rw [List.nodup_cons] at hn
          rw [ih hg ?_ hn.2]
          · simp [vertOf]
          · intro v hv
            rcases List.mem_append.mp hv with hv | hv
            · exact fun hm => hf v hv (List.mem_cons_of_mem _ hm)
            · rw [List.mem_singleton.mp hv]; exact hn.1
        · cases h
        · cases h

theorem createShape_fresh {nearest : List (BVert K) → Pt K → Out (Option Nat)} {bt : BdryType} {st st' : List (BVert K)} {L' : EList K} {coords props : List (Pt K)} {colors : List Int}
    (h : createShape nearest bt st emptyBoundary coords props colors = .ok (st', L')) (hf : ∀ v ∈ st, v.xy ∉ coords) (hn : coords.Nodup) : st' = st ++ (coords.zip props).map vertOf := by
  unfold createShape at h
  rw [if_neg (by simp [emptyBoundary])] at h
  dsimp only at h
  split at h
  · cases h
  · cases h
  · rename_i hg
    split at h
    · simp only [Out.ok.injEq, Prod.mk.injEq] at h
      obtain ⟨rfl, -⟩ := h
      exact gatherVerts_fresh hg hf hn
    · cases h
    · cases h

theorem zip_const {l : List (Pt K)} {m : List (Pt K)} {s : Pt K} (h : ∀ x ∈ m, x = s) (hl : l.length = m.length) : l.zip m = l.map fun p => (p, s) := by
  induction l generalizing m with
  | nil => rfl
  | cons a l ih =>
    cases m with
    | nil => simp at hl
    | cons b m =>
      rw [List.zip_cons_cons, List.map_cons, h b (by simp), ih (fun x hx => h x (List.mem_cons_of_mem _ hx)) (by simpa using hl)]

theorem makeBdry_fresh {D : DEnv K} {ext : K} {bt : BdryType} {vs : List (Pt K)} {st st' : List (BVert K)} {b : BDef K} {L : EList K} {ps : List (Pt K)}
    (hd : Draws D vs bt b ps) (h : makeBdry D ext bt st b = .ok (st', L)) (hf : ∀ v ∈ st, v.xy ∉ (cornersWritten D b).map (·.1)) (hn : ((cornersWritten D b).map (·.1)).Nodup) :
    st' = st ++ (cornersWritten D b).map vertOf := by
  have er : ∀ (c : Pt K) (w h : K), rectangleCoords c w h = rectangle c w h := by
    intro c w h
    unfold rectangleCoords rectangle
    have e1 : 1 / 2 * w = w / 2 := by ring
    have e2 : 1 / 2 * h = h / 2 := by ring
    rw [e1, e2]
  have key : ∀ coords props colors, lift (createShape (D.nearest ext) bt st emptyBoundary coords props colors) = .ok (st', L) → coords.zip props = cornersWritten D b →
      coords.length ≤ props.length → st' = st ++ (cornersWritten D b).map vertOf := by
    intro coords props colors h e hl
    have e' : coords = (cornersWritten D b).map (·.1) := by rw [← e]; exact (List.map_fst_zip hl).symm
    rw [← e]
    exact createShape_fresh (lift_ok h) (by rw [e']; exact hf) (by rw [e']; exact hn)
  cases hd with
  | edges idx h1 h2 hp =>
    rename_i rows
    rw [makeBdry] at h
    cases hr : addRows (badIndex bt st.length) st rows emptyBoundary with
    | error f => rw [hr] at h; cases h
    | ok L1 =>
      rw [hr] at h
      change Except.ok (st, L1) = _ at h
      simp only [Except.ok.injEq, Prod.mk.injEq] at h
      rw [← h.1]; simp [cornersWritten]
  | shape hw ho =>
    cases hw with
    | coords rows => exact key _ _ _ h (by simp [cornersWritten, List.zip_map']) (by simp)
    | rect m c w hh s =>
      rw [makeBdry, setRectangle, er] at h
      exact key _ _ _ h (zip_const (fun x hx => List.eq_of_mem_replicate hx) (by simp [rectangle])) (by simp [rectangle])
    | circ m c r s n h3 hn' =>
      have hn2 : n < 2 ^ 64 := lt_trans hn' (by norm_num)
      rw [makeBdry, if_neg (by simp), toSize_nat hn2, setCircle, if_neg (by omega)] at h
      refine key _ _ _ h ?_ (by simp [circleCoords])
      rw [zip_const (s := s) (by simp) (by simp [circleCoords])]
      rfl
    | square m c a s =>
      rw [makeBdry, setSquare, setRectangle, er] at h
      exact key _ _ _ h (zip_const (fun x hx => List.eq_of_mem_replicate hx) (by simp [rectangle])) (by simp [rectangle])
    | triangle m c a s =>
      rw [makeBdry, setCircle, if_neg (by omega)] at h
      refine key _ _ _ h ?_ (by simp [circleCoords])
      rw [zip_const (s := s) (by simp) (by simp [circleCoords])]
      rfl
    | csv f t rows hf' hr =>
      rw [makeBdry, hf'] at h
      dsimp only at h
      rw [hr] at h
      refine key _ _ _ h ?_ (by simp)
      simp [cornersWritten, hf', hr, Except.toOption, List.zip_map']

theorem makeBdries_fresh {D : DEnv K} {ext : K} {vs : List (Pt K)} {bs : List (BdryType × BDef K)} {qs : List (List (Pt K))}
    (hd : List.Forall₂ (fun b q => Draws D vs b.1 b.2 q) bs qs) : ∀ {st st' : List (BVert K)} {Ls : List (BdryType × EList K)},
    makeBdries D ext bs st = .ok (st', Ls) → (st.map (·.xy) ++ (bs.flatMap fun b => cornersWritten D b.2).map (·.1)).Nodup →
    st' = st ++ (bs.flatMap fun b => cornersWritten D b.2).map vertOf := by
  induction hd with
  | nil =>
    intro st st' Ls h _
    simp only [makeBdries, Except.ok.injEq, Prod.mk.injEq] at h
    rw [← h.1]; simp
  | @cons b q bs qs hb _ ih =>
    intro st st' Ls h hn
    obtain ⟨bt, b⟩ := b
    obtain ⟨st1, L, Ls', h1, h2, -⟩ := makeBdries_cons h
    rw [List.flatMap_cons, List.map_append, ← List.append_assoc] at hn
    have hn1 := (List.nodup_append.mp hn).1
    obtain ⟨-, n2, n3⟩ := List.nodup_append.mp hn1
    have e1 := makeBdry_fresh hb h1 (fun v hv hm => n3 _ (List.mem_map_of_mem hv) _ hm rfl) n2
    have e2 := ih h2 (by
      rw [e1, List.map_append, List.map_map]
      exact hn)
    rw [e2, e1, List.flatMap_cons, List.map_append, List.append_assoc]

theorem drawing_verts {D : DEnv K} {c : Cfg K} {d : Dm K} {b : BDef K} {bs : List (BDef K)} {ps : List (Pt K)} {hs : List (List (Pt K))}
    (H : Drawing D c b bs ps hs) (h : makeDomain D c = .ok d) (hn : ((vertsWritten D c).map (·.1)).Nodup) : d.verts = (vertsWritten D c).map vertOf := by
  obtain ⟨h1, -, -⟩ := makeDomain_ok h
  have hd : List.Forall₂ (fun b q => Draws D (c.verts.map (·.xy)) b.1 b.2 q) c.bdries (ps :: hs) := by
    rw [H.bdries]
    refine .cons H.outer ?_
    rw [List.forall₂_map_left_iff]
    exact H.holes
  unfold vertsWritten at hn ⊢
  rw [List.map_append, List.map_map] at hn ⊢
  have := makeBdries_fresh hd h1 (by unfold initVerts; rw [List.map_map]; exact hn)
  rw [this]
  rfl

/-- Corners of the drawing are ends of boundary edges. -/
theorem drawing_used {D : DEnv K} {c : Cfg K} {d : Dm K} {b : BDef K} {bs : List (BDef K)} {ps : List (Pt K)} {hs : List (List (Pt K))}
    (H : Drawing D c b bs ps hs) (h : makeDomain D c = .ok d) {p : Pt K} (hp : p ∈ ps ∨ ∃ q ∈ hs, p ∈ q) :
    ∃ L ∈ d.bdries, ∃ e ∈ L.2.edges, e.v1 < d.verts.length ∧ storePos d.verts e.v1 = p := by
  obtain ⟨-, L, Ls, e, m, ms⟩ := drawing_bdries H h
  have key : ∀ {bt : BdryType} {L : EList K} {q : List (Pt K)}, Made bt d.verts L q → p ∈ q → ∃ e ∈ L.edges, e.v1 < d.verts.length ∧ storePos d.verts e.v1 = p := by
    intro bt L q m hq
    obtain ⟨x, hx, rfl⟩ := List.mem_map.mp ((made_corners m).mem_iff.mpr hq)
    exact ⟨x, hx, (m.range x hx).1, rfl⟩
  rw [e]
  rcases hp with hp | ⟨q, hq, hp⟩
  · obtain ⟨x, h1, h2⟩ := key m hp
    exact ⟨_, List.mem_cons_self .., x, h1, h2⟩
  · obtain ⟨L', hL', -, m'⟩ : ∃ L' ∈ Ls, L'.1 = BdryType.interior ∧ Made .interior d.verts L'.2 q := by
      clear e H m hp
      induction ms with
      | nil => simp at hq
      | cons m _ ih =>
        rcases List.mem_cons.mp hq with rfl | hq
        · exact ⟨_, List.mem_cons_self .., m⟩
        · obtain ⟨L', h1, h2⟩ := ih hq
          exact ⟨L', List.mem_cons_of_mem _ h1, h2⟩
    obtain ⟨x, h1, h2⟩ := key m' hp
    exact ⟨_, List.mem_cons_of_mem _ hL', x, h1, h2⟩

end TQ
