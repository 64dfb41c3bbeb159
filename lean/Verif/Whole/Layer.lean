import Verif.Whole.Rim

/-! # Lemmas: the changes made by quad layers keep a domain partly meshed -/

set_option linter.unusedSectionVars false
set_option linter.unusedSimpArgs false

namespace TQ.Whole
open TQ.MS TQ.MeshSpec TQ.FUSpec TQ.MS.St TQ.GeoSpec TQ.FU TQ.Sm TQ.MCSpec TQ.WholeSpec TQ.RefSpec TQ.QLSpec TQ.QL
variable {K : Type*} [Field K] [LinearOrder K] [IsStrictOrderedRing K]

/-- Only the elements, the edges and the positions of the vertices matter. -/
theorem Meshing.congr {s s' : St K} (h : Meshing s) (wf : WF s') (hp : ∀ v ∈ s.verts, s'.pos v = s.pos v)
    (es : s'.es = s.es) (eE : s'.E = s.E) (et : s'.tris = s.tris) (eq : s'.quads = s.quads)
    (eF : ∀ f, Live s f → (s'.F f).corners = (s.F f).corners) : Meshing s' := by
  have hlive : ∀ f, Live s' f ↔ Live s f := by
    intro f
    cases f with
    | null => simp [Live]
    | tri t => show t ∈ _ ↔ t ∈ _; rw [et]
    | quad t => show t ∈ _ ↔ t ∈ _; rw [eq]
  have hfa : facets s' = facets s := by unfold facets; rw [et, eq]
  refine ((Meshing.rim h).congr wf hp es eE).meshing ?_ ?_ ?_
  · have : allSides s' = allSides s := by
      unfold allSides
      rw [hfa, List.flatMap_def, List.flatMap_def]
      congr 1
      exact List.map_congr_left fun f hf => by rw [eF f (mem_facets.mp hf)]
    rw [this]
  · intro x hx
    obtain ⟨hl, hm⟩ := mem_pieces.mp hx
    have hl' := (hlive _).mp hl
    rw [eF _ hl'] at hm
    have hv : ∀ y ∈ (s.F x.1).corners, s'.pos y = s.pos y := fun y hy => hp y ((h.wf.cor _ hl').2 y hy)
    have hin := halves_mem hm
    rw [halves_congr hv] at hm
    have := h.ccw _ (mem_pieces.mpr ⟨hl', hm⟩)
    rw [hv _ hin.1, hv _ hin.2.1, hv _ hin.2.2]
    exact this
  · intro b hb hno
    rw [es] at hb
    rw [eE] at hno ⊢
    refine h.null b hb fun f hf hside => hno f ((hlive f).mpr hf) ?_
    unfold HasSide at hside ⊢
    rw [eF f hf]; exact hside

theorem simple_of_front {pos : Nat → Pt K} {es : List (Nat × Nat)} (h : SimpleFront pos es) : QLSpec.Simple es := by
  have hne : ∀ a b, (a, b) ∈ es → a ≠ b := by
    rintro a b hab rfl
    exact h.proper _ hab rfl
  refine ⟨?_, ?_⟩
  · rw [List.nodup_iff_count_le_one]
    rintro ⟨a, b⟩
    by_cases hm : (a, b) ∈ es
    · have := simple_connecting h a b
      rw [connecting_count _ (hne a b hm)] at this
      omega
    · rw [List.count_eq_zero_of_not_mem hm]; omega
  · intro a b h1 h2
    have := simple_connecting h a b
    rw [connecting_count _ (hne a b h1)] at this
    have c1 := count_pos_mem.mpr h1
    have c2 := count_pos_mem.mpr h2
    omega

/-! ### The checks of a triangle -/

theorem free_rot {pos : Nat → Pt K} {es : List (Nat × Nat)} {a b c : Nat} (h : Free pos es a b c) : Free pos es b c a := by
  intro e he
  rcases h e he with h1 | h1 | h1 | h1
  · exact Or.inr (Or.inr (Or.inl h1))
  · exact Or.inl h1
  · exact Or.inr (Or.inl h1)
  · refine Or.inr (Or.inr (Or.inr fun x hx hi => ?_))
    obtain ⟨h2, h3⟩ := h1 x hx (inClosed_rot hi)
    exact ⟨h2, by tauto⟩

/-- A triangle that passes the checks meets the front edges of a list only along sides and in corners. -/
theorem checked_free {env : Env K} (he : 0 < env.eps) (hq : QueryExact env)
    (hn : ∀ p, 0 ≤ env.norm p ∧ Pt.normSq p ≤ env.norm p * env.norm p) {s : St K} (h : WF s) {t a b c : Nat}
    (hv : triangleIsValid env s t a b c = true) (ha : a ∈ s.verts) (hb : b ∈ s.verts) (hc : c ∈ s.verts)
    (hres : Resolved env.eps s) {l : List Nat} (hl : ∀ e ∈ l, e ∈ s.es .front)
    (hreach : Reach env s.pos (l.map fun e => ((s.E e).v1, (s.E e).v2)) a b c) :
    0 < side (s.pos a) (s.pos b) (s.pos c) ∧ Free s.pos (l.map fun e => ((s.E e).v1, (s.E e).v2)) a b c := by
  unfold triangleIsValid at hv
  dsimp only at hv
  rw [checkRange_eq] at hv
  simp only [Bool.if_false_left, Bool.and_eq_true, Bool.not_eq_true', decide_eq_false_iff_not, Bool.not_eq_false,
    List.any_eq_false, Bool.and_true, not_lt] at hv
  obtain ⟨v1, v2, v3, v4, -, -, v8, v9⟩ := hv
  rw [checkValidity_iff] at v1
  rw [Bool.not_eq_true, List.any_eq_false] at v2 v4
  rw [Bool.not_eq_true] at v3
  let s2 : St K := { s with tris := [], quads := [], es := upd s.es .front fun _ => l }
  have hfr : s2.es .front = l := by simp [s2, upd]
  have V : ValidTriangle env s2 a b c := by
    refine ⟨v1.1, v1.2, ?_, ?_, ?_, ?_, ?_, v8, v9⟩
    · intro e hem hne
      rw [hfr] at hem
      have := v2 e ((hq.front _ _ _ _).mpr ⟨hl e hem, hne⟩)
      rw [Bool.not_eq_true] at this
      exact this
    · unfold hitsDomain at v3
      rw [List.any_eq_false] at v3
      intro x hx
      have := v3 x hx
      rw [Bool.not_eq_true] at this
      exact this
    · intro v hvm n1 n2 n3 hne
      have := v4 v ((hq.verts _ _ _ _).mpr ⟨hvm, hne⟩)
      unfold hitsVertex at this
      rw [if_neg (by simp [n1, n2, n3]), Bool.not_eq_true] at this
      exact this
    · intro u hu; cases hu
    · intro u hu; cases hu
  have hp2 : pairs s2 .front = l.map fun e => ((s.E e).v1, (s.E e).v2) := by
    unfold pairs; rw [hfr]
  refine ⟨?_, ?_⟩
  · have := v1.1
    unfold GeoSpec.triArea at this
    unfold side
    linarith
  · have := valid_free he hn V (show Resolved env.eps s2 from hres) ha hb hc (fun e hem => by
      rw [hfr] at hem
      have := (h.ends _).2 e (hl e hem)
      exact ⟨this.2.1, this.2.2.1, this.2.2.2.1⟩) (by rw [hp2]; exact hreach)
    rw [hp2] at this
    exact this

theorem reach_rot {env : Env K} {pos : Nat → Pt K} {es : List (Nat × Nat)} {a b c : Nat} (h : Reach env pos es b c a) :
    Reach env pos es a b c := by
  intro e he hx
  obtain ⟨x, h1, h2⟩ := hx
  have := h e he ⟨x, h1, inClosed_rot (inClosed_rot h2)⟩
  have e1 : St.triCentroid (pos b) (pos c) (pos a) = St.triCentroid (pos a) (pos b) (pos c) := by
    unfold St.triCentroid
    apply Pt.ext' <;> simp only [Pt.add_x, Pt.add_y, Pt.smul_x, Pt.smul_y] <;> ring
  have e2 : checkRange env (pos b) (pos c) (pos a) = checkRange env (pos a) (pos b) (pos c) := by
    unfold checkRange
    rw [e1]
    congr 1
    rw [max_right_comm, max_comm (env.norm (pos c - pos b)), max_right_comm]
  rw [e1, e2] at this
  exact this

/-! ### New triangles -/

/-- Sides of new triangles `(t, a, b, c)`. -/
def newSides (ts : List (Nat × Nat × Nat × Nat)) : List (Nat × Nat) :=
  ts.flatMap fun x => [(x.2.1, x.2.2.1), (x.2.2.1, x.2.2.2), (x.2.2.2, x.2.1)]

/-- Counter-clockwise triangles that fit to the edges are added. -/
theorem meshing_grown {s s' : St K} (h : Meshing s) {ts : List (Nat × Nat × Nat × Nat)} {sd : List (Nat × Nat)} (r : Rim s' sd)
    (hsd : sd.Perm (allSides s ++ newSides ts)) (ht : s'.tris = s.tris ++ ts.map (·.1)) (hq : s'.quads = s.quads)
    (hF : ∀ f, Live s f → (s'.F f).corners = (s.F f).corners)
    (hc : ∀ x ∈ ts, (s'.F (.tri x.1)).corners = [x.2.1, x.2.2.1, x.2.2.2])
    (hA : ∀ x ∈ ts, 0 < side (s'.pos x.2.1) (s'.pos x.2.2.1) (s'.pos x.2.2.2))
    (hp : ∀ v ∈ s.verts, s'.pos v = s.pos v) (hb : s'.es .bdry = s.es .bdry) (hE : ∀ b ∈ s.es .bdry, s'.E b = s.E b) :
    Meshing s' := by
  have hlive : ∀ f, Live s' f ↔ Live s f ∨ ∃ x ∈ ts, f = .tri x.1 := by
    intro f
    cases f with
    | null => simp [Live]
    | tri t =>
      show t ∈ _ ↔ t ∈ _ ∨ _
      rw [ht, List.mem_append, List.mem_map]
      simp only [FRef.tri.injEq]
      constructor
      · rintro (h | ⟨x, hx, rfl⟩)
        · exact Or.inl h
        · exact Or.inr ⟨x, hx, rfl⟩
      · rintro (h | ⟨x, hx, rfl⟩)
        · exact Or.inl h
        · exact Or.inr ⟨x, hx, rfl⟩
    | quad t => show t ∈ _ ↔ t ∈ _ ∨ _; rw [hq]; simp
  refine r.meshing (hsd.trans ?_) ?_ ?_
  · unfold allSides facets
    rw [ht, hq, List.map_append, List.flatMap_append, List.flatMap_append, List.flatMap_append]
    have e1 : (s.tris.map FRef.tri).flatMap (fun f => sidesOf (s'.F f).corners) =
        (s.tris.map FRef.tri).flatMap (fun f => sidesOf (s.F f).corners) := by
      rw [List.flatMap_def, List.flatMap_def]
      congr 1
      refine List.map_congr_left fun f hf => ?_
      obtain ⟨t, ht, rfl⟩ := List.mem_map.mp hf
      rw [hF (.tri t) ht]
    have e2 : (s.quads.map FRef.quad).flatMap (fun f => sidesOf (s'.F f).corners) =
        (s.quads.map FRef.quad).flatMap (fun f => sidesOf (s.F f).corners) := by
      rw [List.flatMap_def, List.flatMap_def]
      congr 1
      refine List.map_congr_left fun f hf => ?_
      obtain ⟨t, ht, rfl⟩ := List.mem_map.mp hf
      rw [hF (.quad t) ht]
    rw [e1, e2]
    have e3 : (newSides ts).Perm (((ts.map (·.1)).map FRef.tri).flatMap (fun f => sidesOf (s'.F f).corners)) := by
      unfold newSides
      rw [List.map_map, List.flatMap_map]
      refine List.Perm.flatMap_left _ fun x hx => ?_
      show List.Perm _ (sidesOf (s'.F (.tri x.1)).corners)
      rw [hc x hx, sides3]
      exact List.perm_append_comm (l₁ := [(x.2.1, x.2.2.1)]) (l₂ := [(x.2.2.1, x.2.2.2), (x.2.2.2, x.2.1)])
    rw [List.append_assoc, List.append_assoc]
    exact List.Perm.append (List.Perm.refl _) ((List.perm_append_comm).trans (List.Perm.append e3 (List.Perm.refl _)))
  · intro x hx
    obtain ⟨hl, hm⟩ := mem_pieces.mp hx
    rcases (hlive _).mp hl with hl' | ⟨y, hy, hxy⟩
    · rw [hF _ hl'] at hm
      have hv : ∀ y ∈ (s.F x.1).corners, s'.pos y = s.pos y := fun y hy => hp y ((h.wf.cor _ hl').2 y hy)
      have hin := halves_mem hm
      rw [halves_congr hv] at hm
      have := h.ccw _ (mem_pieces.mpr ⟨hl', hm⟩)
      rw [hv _ hin.1, hv _ hin.2.1, hv _ hin.2.2]
      exact this
    · rw [hxy, hc y hy] at hm
      simp only [halves, List.mem_singleton] at hm
      rw [hm]
      exact hA y hy
  · intro b hbm hno
    rw [hb] at hbm
    rw [hE b hbm] at hno ⊢
    refine h.null b hbm fun f hf hside => hno f ((hlive f).mpr (Or.inl hf)) ?_
    unfold HasSide at hside ⊢
    rw [hF f hf]; exact hside

variable {L : LEnv K} (he : 0 < L.env.eps) (hq : QueryExact L.env) (hso : SortOK L.env)
  (hn : ∀ p, 0 ≤ L.env.norm p ∧ Pt.normSq p ≤ L.env.norm p * L.env.norm p)
include he hq hso hn

theorem meshing_tri {s s' : St K} (h : Meshing s) {base t v : Nat} {np sp : Pt K} {r : K} (hb : base ∈ s.es .front)
    (hu : updateFront L.env s base np sp r = (s', some t)) (hv : (s'.F (.tri t)).corners[2]? = some v)
    (hreach : Reach L.env s'.pos (pairs s .front) (s.E base).v1 (s.E base).v2 v) (hres : Resolved L.env.eps s') : Meshing s' := by
  refine meshing_run he hq hso hn h (.update .start hb hu hv) hres fun e hem => ?_
  simp only [List.nil_append, List.mem_singleton] at hem
  subst hem
  exact hreach

omit hso in
theorem meshing_gap {s : St K} (h : Meshing s) {a b c e : Nat} (hnd : [a, b, c].Nodup) (ha : a ∈ s.verts)
    (hb : b ∈ s.verts) (hc : c ∈ s.verts) (hv : triangleIsValid L.env (s.addTri a b c (-1)) s.nxt a b c = true)
    (hg : (s.addTri a b c (-1)).getEdge .front b c = some e) (hm : (b, c) ∈ pairs s .front)
    (hreach : Reach L.env (advanceFront (s.addTri a b c (-1)) e a s.nxt).pos (pairs s .front) b c a)
    (hres : Resolved L.env.eps (advanceFront (s.addTri a b c (-1)) e a s.nxt)) :
    Meshing (advanceFront (s.addTri a b c (-1)) e a s.nxt) ∧ (∀ v ∈ s.verts, v ∈ (advanceFront (s.addTri a b c (-1)) e a s.nxt).verts) ∧
      GoodEntry ⟨pairs s .front, b, c, a⟩ := by
  have w1 : WF (s.addTri a b c (-1)) := wf_addTri h.wf (-1) ha hb hc hnd
  have r1 : Rim (s.addTri a b c (-1)) (allSides s) := (Meshing.rim h).congr w1 (fun v _ => addTri_pos ..) rfl rfl
  have hn' := hnd
  simp only [List.nodup_cons, List.mem_cons, List.not_mem_nil, or_false, not_or] at hnd
  have hpr : pairs (s.addTri a b c (-1)) .front = pairs s .front := rfl
  have hF1 : ∀ f, Live s f → (s.addTri a b c (-1)).F f = s.F f := fun f hf => addTri_fresh h.wf hf a b c (-1)
  have hcor : ((s.addTri a b c (-1)).F (.tri s.nxt)).corners = [a, b, c] := by simp [addTri, upd]
  have htr : (s.addTri a b c (-1)).tris = s.tris ++ [s.nxt] := rfl
  have hqd : (s.addTri a b c (-1)).quads = s.quads := rfl
  have hvt : (s.addTri a b c (-1)).verts = s.verts := rfl
  have hps : ∀ v, (s.addTri a b c (-1)).pos v = s.pos v := fun v => addTri_pos ..
  have hbd0 : (s.addTri a b c (-1)).es .bdry = s.es .bdry := rfl
  have hE0 : (s.addTri a b c (-1)).E = s.E := rfl
  generalize s.addTri a b c (-1) = s1 at *
  obtain ⟨hem, e1, e2⟩ := found_dir w1 (hvt ▸ hb) (simple_of_front r1.front) (by rw [hpr]; exact hm) hg
  have n1 : a ≠ (s1.E e).v1 := by rw [e1]; exact hnd.1.1
  have n2 : a ≠ (s1.E e).v2 := by rw [e2]; exact hnd.1.2
  have ha1 : a ∈ s1.verts := hvt ▸ ha
  have A := advanceFront_spec w1 s.nxt hem ha1 n1 n2
  have hpA : (advanceFront s1 e a s.nxt).pos = s1.pos := funext A.pos
  have hres1 : Resolved L.env.eps s1 := by
    intro x hx y hy z hz
    have := hres x (by rw [A.verts]; exact hx) y (by rw [A.verts]; exact hy) z (by rw [A.verts]; exact hz)
    rw [hpA] at this
    exact this
  rw [hpA] at hreach
  have hf := checked_free he hq hn w1 hv ha1 (hvt ▸ hb) (hvt ▸ hc) hres1 (l := s1.es .front) (fun _ h => h)
    (by show Reach L.env s1.pos (pairs s1 .front) a b c; rw [hpr]; exact reach_rot hreach)
  have r2 := r1.advance s.nxt hem ha1 n1 n2 (by rw [e1, e2, side_rot]; exact hf.1) (by
    rw [e1, e2]; exact free_rot hf.2)
  have hbd := advanceFront_bdry w1 s.nxt hem ha1 n1 n2
  rw [e1, e2] at r2
  have hAF : ∀ f, ((advanceFront s1 e a s.nxt).F f).corners = (s1.F f).corners := by
    intro f; rw [A.F]; unfold upd; split_ifs with hh
    · rw [hh]
    · rfl
  refine ⟨meshing_grown h (ts := [(s.nxt, a, b, c)]) r2 ?_ ?_ ?_ ?_ ?_ ?_ ?_ ?_ ?_, ?_, hm, simple_of_front h.front, ?_⟩
  · refine List.Perm.append (List.Perm.refl _) ?_
    show List.Perm [(b, c), (c, a), (a, b)] [(a, b), (b, c), (c, a)]
    exact List.perm_append_comm (l₁ := [(b, c), (c, a)]) (l₂ := [(a, b)])
  · rw [A.tris, htr]; rfl
  · rw [A.quads, hqd]
  · intro f hf'
    rw [hAF, hF1 f hf']
  · intro x hx
    rw [List.mem_singleton.mp hx, hAF]
    exact hcor
  · intro x hx
    rw [List.mem_singleton.mp hx, hpA]
    exact hf.1
  · intro v hv'; rw [hpA, hps]
  · rw [hbd, hbd0]
  · intro x hx
    rw [A.E x ?_, hE0]
    rw [← hbd0] at hx
    exact ((w1.ends _).2 x hx).2.2.2.2
  · intro v hv'; rw [A.verts, hvt]; exact hv'
  · have := free_oriented (b1 := b) (b2 := c) (v := a) r1.front (by rw [hpr]; exact hm) (by rw [side_rot]; exact hf.1) (free_rot hf.2)
    rw [hpr] at this
    exact this

end TQ.Whole
