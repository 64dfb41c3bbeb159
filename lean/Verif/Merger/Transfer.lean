import Verif.Merger.Result

/-! # Setting up the connectivity changes nothing the merge depends on -/

set_option linter.unusedSectionVars false

namespace TQ.MM
open TQ.MS TQ.MS.St TQ.MC TQ.MeshSpec TQ.MCSpec TQ.RefSpec TQ.MergeSpec
variable {K : Type*} [Field K] [LinearOrder K]

theorem sbp_dir {s t : St K} (h : SameButPointers s t) (d : DirUnique s) : DirUnique t := by
  intro f g a b hf hg h1 h2
  exact d f g a b ((sbp_live h f).mp hf) ((sbp_live h g).mp hg) ((sbp_hasSide h f a b).mp h1) ((sbp_hasSide h g a b).mp h2)

theorem sbp_covered {s t : St K} (h : SameButPointers s t) (a b : Nat) : Covered t a b ↔ Covered s a b := by
  unfold Covered
  exact exists_congr fun f => and_congr (sbp_live h f) (sbp_hasSide h f a b)

theorem sbp_connects {s t : St K} (h : SameButPointers s t) (e a b : Nat) : Connects t e a b ↔ Connects s e a b := by
  unfold Connects; rw [(h.ends e).1, (h.ends e).2.1]

theorem sbp_proper {s t : St K} (h : SameButPointers s t) (p : Proper s) : Proper t where
  wf := sbp_wf h p.wf
  dir := sbp_dir h p.dir
  sides := by
    intro a b hc
    obtain ⟨e, he, hh⟩ := p.sides a b ((sbp_covered h a b).mp hc)
    exact ⟨e, by rw [h.es]; exact he, (sbp_connects h e a b).mpr hh⟩
  right := by
    intro e he
    rw [h.es] at he
    rw [sbp_covered h, (h.ends e).1, (h.ends e).2.1]
    exact p.right e he

theorem sbp_iface {w w1 : World K} {ri : Nat} (h : SameButPointers (w ri) (w1 ri)) (di e : Nat) : Iface w1 ri di e ↔ Iface w ri di e := by
  unfold Iface TwinIn; rw [(h.ends e).2.2.2.2.2]

theorem sbp_onIface {w w1 : World K} {ri : Nat} (h : SameButPointers (w ri) (w1 ri)) (di v : Nat) : OnIface w1 ri di v ↔ OnIface w ri di v := by
  unfold OnIface
  rw [h.es]
  refine exists_congr fun e => and_congr Iff.rfl ?_
  rw [sbp_iface h, (h.ends e).1, (h.ends e).2.1]

theorem adjacent_sbp {w w1 : World K} {ri di : Nat} (hr : SameButPointers (w ri) (w1 ri)) (hd : SameButPointers (w di) (w1 di))
    (A : Adjacent w ri di) : Adjacent w1 ri di where
  ne := A.ne
  receiver := sbp_proper hr A.receiver
  donor := sbp_proper hd A.donor
  link := by
    intro e he e' ht
    rw [hr.es] at he
    rw [(hr.ends e).2.2.2.2.2] at ht
    rw [hd.es, (hd.ends e').2.2.2.2.2, (hr.ends e).1, (hr.ends e).2.1, (hd.ends e').1, (hd.ends e').2.1]
    simp only [sbp_pos hr, sbp_pos hd]
    exact A.link e he e' ht
  back := by
    intro e he e' ht
    rw [hd.es] at he
    rw [(hd.ends e).2.2.2.2.2] at ht
    rw [hr.es, (hr.ends e').2.2.2.2.2]
    exact A.back e he e' ht
  meshedR := by
    intro e he hi
    rw [hr.es] at he
    rw [sbp_iface hr] at hi
    rw [sbp_covered hr, (hr.ends e).1, (hr.ends e).2.1]
    exact A.meshedR e he hi
  meshedD := by
    intro e he hi
    rw [hd.es] at he
    rw [sbp_iface hd] at hi
    rw [sbp_covered hd, (hd.ends e).1, (hd.ends e).2.1]
    exact A.meshedD e he hi
  apartR := by
    intro u v hu hv hp
    rw [sbp_onIface hr] at hu hv
    rw [sbp_pos hr, sbp_pos hr] at hp
    exact A.apartR u v hu hv hp
  apartD := by
    intro u v hu hv hp
    rw [sbp_onIface hd] at hu hv
    rw [sbp_pos hd, sbp_pos hd] at hp
    exact A.apartD u v hu hv hp
  self := by
    intro e he x hx
    rw [hd.es] at he
    rw [(hd.ends e).2.2.2.2.2] at hx
    exact A.self e he x hx
  different := by
    intro e he e' he' x hx hx'
    rw [hd.es] at he he'
    rw [(hd.ends _).2.2.2.2.2] at hx hx'
    exact A.different e he e' he' x hx hx'

theorem merged_sbp {w w1 w' : World K} {ri di : Nat} {φ : Nat → Nat} (hr : SameButPointers (w ri) (w1 ri)) (hd : SameButPointers (w di) (w1 di))
    (ho : ∀ m, m ≠ ri → m ≠ di → w1 m = w m) (M : Merged w1 w' ri di φ) : Merged w w' ri di φ := by
  have fr : (fun e => decide (Iface w1 ri di e)) = fun e => decide (Iface w ri di e) := funext fun e => by simp only [sbp_iface hr]
  have fd' : (fun e => decide (¬ Iface w1 di ri e)) = fun e => decide (¬ Iface w di ri e) := funext fun e => by simp only [sbp_iface hd]
  have fr' : (fun e => decide (¬ Iface w1 ri di e)) = fun e => decide (¬ Iface w ri di e) := funext fun e => by simp only [sbp_iface hr]
  have fo : (fun v => decide (¬ OnIface w1 di ri v)) = fun v => decide (¬ OnIface w di ri v) := funext fun e => by simp only [sbp_onIface hd]
  constructor
  · rw [M.verts, hr.verts, hd.verts, fo]
  · have := M.inj; rw [hd.verts] at this; exact this
  · intro v hv
    have := M.shared v (by rw [hd.verts]; exact hv)
    rw [hr.verts, sbp_onIface hd] at this; exact this
  · intro e he e' ht
    have := M.glue e (by rw [hr.es]; exact he) e' (by rw [(hr.ends e).2.2.2.2.2]; exact ht)
    rw [(hr.ends e).1, (hr.ends e).2.1, (hd.ends e').1, (hd.ends e').2.1] at this
    exact this
  · intro v hv
    have := M.old v (by rw [hr.verts]; exact hv)
    rw [sbp_pos hr, hr.V] at this
    refine ⟨this.1, this.2.trans ?_⟩
    unfold mergedFlags
    simp only [sbp_onIface hr]
  · intro v hv
    rw [M.pos v (by rw [hd.verts]; exact hv), sbp_pos hd]
  · intro v hv hi
    rw [M.props v (by rw [hd.verts]; exact hv) (by rw [sbp_onIface hd]; exact hi), hd.V]
  · obtain ⟨n, h1, h2⟩ := M.tris
    rw [hd.tris] at h2
    refine ⟨n, by rw [h1, hr.tris], h2.imp fun x y hxy => ?_⟩
    unfold CopiedF at hxy ⊢
    rw [(hd.corners _).1, (hd.corners _).2.1, hr.color] at hxy
    exact hxy
  · obtain ⟨n, h1, h2⟩ := M.quads
    rw [hd.quads] at h2
    refine ⟨n, by rw [h1, hr.quads], h2.imp fun x y hxy => ?_⟩
    unfold CopiedF at hxy ⊢
    rw [(hd.corners _).1, (hd.corners _).2.1, hr.color] at hxy
    exact hxy
  · intro f hf
    have := M.oldF f ((sbp_live hr f).mpr hf)
    rw [(hr.corners f).1, (hr.corners f).2.1, (hr.corners f).2.2.1] at this
    exact this
  · obtain ⟨n1, n2, h1, h2, h3⟩ := M.intr
    rw [hd.es] at h2
    rw [hr.es, fr] at h3
    refine ⟨n1, n2, by rw [h1, hr.es], h2.imp fun x y hxy => ?_, h3.imp fun x y hxy => ?_⟩
    · unfold CopiedE at hxy ⊢
      rw [(hd.ends x).1, (hd.ends x).2.1, (hd.ends x).2.2.2.2.1] at hxy
      exact hxy
    · unfold Converted at hxy ⊢
      rw [(hr.ends x).1, (hr.ends x).2.1] at hxy
      exact hxy
  · obtain ⟨n1, h1, h2⟩ := M.bdry
    rw [hd.es, fd'] at h2
    refine ⟨n1, by rw [h1, hr.es, fr'], h2.imp fun x y hxy => ?_⟩
    unfold CopiedE at hxy ⊢
    rw [(hd.ends x).1, (hd.ends x).2.1, (hd.ends x).2.2.2.2.1, (hd.ends x).2.2.2.1, (hd.ends x).2.2.2.2.2] at hxy
    exact hxy
  · rw [M.front, hr.es]
  · intro l e he
    have := M.oldE l e (by rw [hr.es]; exact he)
    rw [(hr.ends e).1, (hr.ends e).2.1, (hr.ends e).2.2.2.2.1, (hr.ends e).2.2.2.1, (hr.ends e).2.2.2.2.2] at this
    exact this
  · rw [M.color, hr.color]
  · exact sbp_trans hd M.donor
  · intro m h1 h2
    obtain ⟨g1, g2⟩ := M.others m h1 h2
    rw [ho m h1 h2] at g1
    refine ⟨g1, fun e he => ?_⟩
    rw [g2 e (fun x hx => by rw [hd.es] at hx; rw [(hd.ends x).2.2.2.2.2]; exact he x hx), ho m h1 h2]

/-- **The merge of adjacent meshes.** -/
theorem merge_spec [IsStrictOrderedRing K] {eps : K} {w : World K} {ri di : Nat} (A : Adjacent w ri di) (lr : LeftFacets eps (w ri)) (ld : LeftFacets eps (w di))
    (hex : ∃ e ∈ (w ri).es .bdry, Iface w ri di e) :
    ∃ w' φ, merge eps w ri di false = some (w', true) ∧ Merged w w' ri di φ ∧ WF (w' ri) ∧ (w' ri).area = (w ri).area ∧
      ∀ f, Live (w ri) f → (w' ri).F f = (setupConnectivity eps (w ri)).F f := by
  rw [merge_eq]
  obtain ⟨w1, hw1⟩ : ∃ w1, upd (upd w ri (setupConnectivity eps)) di (setupConnectivity eps) = w1 := ⟨_, rfl⟩
  rw [hw1]
  have e1 : w1 ri = setupConnectivity eps (w ri) := by rw [← hw1]; simp [upd, A.ne]
  have e2 : w1 di = setupConnectivity eps (w di) := by rw [← hw1]; simp [upd, Ne.symm A.ne]
  have e3 : ∀ m, m ≠ ri → m ≠ di → w1 m = w m := fun m h1 h2 => by rw [← hw1]; simp [upd, h1, h2]
  have hr : SameButPointers (w ri) (w1 ri) := by rw [e1]; exact setup_sbp eps A.receiver.wf
  have hd : SameButPointers (w di) (w1 di) := by rw [e2]; exact setup_sbp eps A.donor.wf
  have key : ∀ {s : St K}, Proper s → LeftFacets eps s → ∀ e ∈ s.es .bdry, Covered s (s.E e).v1 (s.E e).v2 →
      ((setupConnectivity eps s).E e).fl ≠ .null := by
    intro s p l e he ⟨f, hf, hs⟩
    have hno : ∀ f, Live s f → ¬ HasSide s f (s.E e).v2 (s.E e).v1 := fun g hg hh => p.right e he ⟨g, hg, hh⟩
    rw [(setup_bdry p.wf l he hno p.dir).2.1 f hf hs]
    rintro rfl
    exact hf
  obtain ⟨w', φ, h1, h2, h3, h4, h5⟩ := core (adjacent_sbp hr hd A)
    (fun e he hi => by
      rw [hd.es] at he; rw [sbp_iface hd] at hi; rw [e2]
      exact key A.donor ld e he (A.meshedD e he hi))
    (fun e he hi => by
      rw [hr.es] at he; rw [sbp_iface hr] at hi; rw [e1]
      exact key A.receiver lr e he (A.meshedR e he hi))
    (by
      obtain ⟨e, he, hi⟩ := hex
      exact ⟨e, by rw [hr.es]; exact he, (sbp_iface hr di e).mpr hi⟩)
  exact ⟨w', φ, h1, merged_sbp hr hd e3 h2, h3, by rw [h4, hr.area], fun f hf => by rw [h5 f ((sbp_live hr f).mpr hf), e1]⟩

/-- The merge of meshes without elements at a common interface. -/
theorem merge_refused (eps : K) {w : World K} {ri di : Nat} (hne : ri ≠ di) (wr : WF (w ri)) (wd : WF (w di))
    (hex : ∀ e ∈ (w ri).es .bdry, ∀ x, ((w ri).E e).twin = some x → x.1 ≠ di ∨ ((setupConnectivity eps (w di)).E x.2).fl = .null) :
    ∃ w', merge eps w ri di false = some (w', false) ∧ SameButPointers (w ri) (w' ri) ∧ SameButPointers (w di) (w' di) ∧
      ∀ m, m ≠ ri → m ≠ di → w' m = w m := by
  rw [merge_eq]
  obtain ⟨w1, hw1⟩ : ∃ w1, upd (upd w ri (setupConnectivity eps)) di (setupConnectivity eps) = w1 := ⟨_, rfl⟩
  rw [hw1]
  have e1 : w1 ri = setupConnectivity eps (w ri) := by rw [← hw1]; simp [upd, hne]
  have e2 : w1 di = setupConnectivity eps (w di) := by rw [← hw1]; simp [upd, Ne.symm hne]
  have e3 : ∀ m, m ≠ ri → m ≠ di → w1 m = w m := fun m h1 h2 => by rw [← hw1]; simp [upd, h1, h2]
  have hr : SameButPointers (w ri) (w1 ri) := by rw [e1]; exact setup_sbp eps wr
  have hd : SameButPointers (w di) (w1 di) := by rw [e2]; exact setup_sbp eps wd
  have hfac : ∀ e ∈ (w1 ri).es .bdry, ∀ x, ((w1 ri).E e).twin = some x → facetIn w1 di x = false := by
    intro e he x hx
    rw [hr.es] at he
    rw [(hr.ends e).2.2.2.2.2] at hx
    unfold facetIn
    rcases hex e he x hx with h | h
    · simp [h]
    · by_cases hxd : x.1 = di
      · rw [hxd, e2, h]; simp
      · simp [hxd]
  have hid : ∀ (l : List Nat), (∀ e ∈ l, e ∈ (w1 ri).es .bdry) → ∀ c : St K × NewV × Nat, (∀ e, (c.1.E e).twin = ((w1 ri).E e).twin) →
      l.foldl (collect1 w1 di) c = c := by
    intro l
    induction l with
    | nil => intro _ c _; rfl
    | cons e l ih =>
      intro hl c hc
      have he : collect1 w1 di c e = c := by
        unfold collect1
        rw [hc e]
        cases ht : ((w1 ri).E e).twin with
        | none => rfl
        | some x =>
          simp [hfac e (hl e (by simp)) x ht]
      rw [List.foldl_cons, he]
      exact ih (fun e he => hl e (List.mem_cons_of_mem _ he)) c hc
  have hc : collect w1 ri di = (w1 ri, fun _ => none, 0) := hid _ (fun e he => he) _ (fun _ => rfl)
  refine ⟨w1, ?_, hr, hd, e3⟩
  unfold mergeFrom
  rw [hc]
  dsimp only
  rw [if_pos rfl]
  congr 2
  funext m
  unfold upd
  split_ifs with hm
  · rw [hm]
  · rfl

/-- The merge of meshes without interface. -/
theorem merge_none (eps : K) {w : World K} {ri di : Nat} (hne : ri ≠ di) (wr : WF (w ri)) (wd : WF (w di))
    (hex : ∀ e ∈ (w ri).es .bdry, ¬ Iface w ri di e) :
    ∃ w', merge eps w ri di false = some (w', false) ∧ SameButPointers (w ri) (w' ri) ∧ SameButPointers (w di) (w' di) ∧
      ∀ m, m ≠ ri → m ≠ di → w' m = w m :=
  merge_refused eps hne wr wd fun e he x hx => Or.inl fun hh => hex e he ⟨x.2, by rw [hx, ← hh]⟩

end TQ.MM
