import Verif.QuadLayer.Spec
import Verif.FrontUpdate.Sums
import Verif.Smoothing.Area
import Mathlib.Tactic.Ring
import Mathlib.Tactic.LinearCombination
import Mathlib.Tactic.Linarith

/-! # Lemmas on quad layers: accounts of sides and areas -/

set_option linter.unusedSectionVars false

namespace TQ.QL
open TQ.MS TQ.MeshSpec TQ.FUSpec TQ.MCSpec TQ.QLSpec TQ.FU MS.St
variable {K : Type*} [Field K] [LinearOrder K] [IsStrictOrderedRing K]

/-- A weight of directed pairs of vertices with places. -/
abbrev Wt (K : Type*) := Nat × Pt K → Nat × Pt K → K

/-- Front and element sides together. -/
def acct (w : Wt K) (s : St K) : K := wsum w s (pairs s .front) + wsum w s (elemSides s)

/-- Half the cross product. -/
def cw : Wt K := fun a b => 1 / 2 * Pt.cross a.2 b.2

theorem cw_anti (a b : Nat × Pt K) : cw a b = - cw b a := by unfold cw Pt.cross; ring

theorem bdry3 (a b c : Nat) : bdryOf [a, b, c] = [(a, b), (b, c), (c, a)] := rfl
theorem bdry4 (a b c d : Nat) : bdryOf [a, b, c, d] = [(a, b), (b, c), (c, d), (d, a)] := rfl

theorem wsum_flat (w : Wt K) (s : St K) {α : Type*} (l : List α) (f : α → List (Nat × Nat)) :
    wsum w s (l.flatMap f) = (l.map fun x => wsum w s (f x)).sum := by
  induction l with
  | nil => rfl
  | cons x l ih => rw [List.flatMap_cons, wsum_append, ih]; rfl

theorem fArea_cw {s : St K} (h : WF s) {f : FRef} (hf : Live s f) : s.fArea f = wsum cw s (bdryOf (s.F f).corners) := by
  rcases Sm.corners_cases h hf with ⟨a, b, c, hc⟩ | ⟨a, b, c, d, hc⟩
  · unfold fArea wsum
    rw [hc, bdry3]
    simp only [List.map_cons, List.map_nil, List.sum_cons, List.sum_nil, cw, triArea, Pt.cross]
    simp only [Pt.sub_x, Pt.sub_y]
    ring
  · unfold fArea wsum
    rw [hc, bdry4]
    simp only [List.map_cons, List.map_nil, List.sum_cons, List.sum_nil, cw, quadArea, Pt.cross]
    simp only [Pt.sub_x, Pt.sub_y]
    ring

theorem meshArea_cw {s : St K} (h : WF s) : meshArea s = wsum cw s (elemSides s) := by
  unfold meshArea elemSides sides triCorners
  rw [wsum_append, wsum_flat, wsum_flat, List.map_map, List.map_map]
  congr 2
  · exact List.map_congr_left fun t ht => fArea_cw (f := .tri t) h ht
  · exact List.map_congr_left fun t ht => fArea_cw (f := .quad t) h ht

theorem enclosed_cw (s : St K) (es : List (Nat × Nat)) : enclosed s.pos es = wsum cw s es := rfl

theorem elemSides_verts {s : St K} (h : WF s) : ∀ e ∈ elemSides s, e.1 ∈ s.verts ∧ e.2 ∈ s.verts := by
  intro e he
  unfold elemSides at he
  rw [List.mem_append] at he
  rcases he with he | he
  · exact sides_verts h e he
  · rw [List.mem_flatMap] at he
    obtain ⟨cs, hcs, hm⟩ := he
    obtain ⟨t, ht, rfl⟩ := List.mem_map.mp hcs
    have h1 := bdryOf_verts hm
    have h2 := (h.cor (.quad t) ht).2
    exact ⟨h2 _ h1.1, h2 _ h1.2⟩

/-- What a step of the quad layers keeps. -/
structure Kept (s : St K) (l : List (Ev K)) (s' : St K) : Prop where
  wf : WF s'
  verts : ∀ v ∈ s.verts, v ∈ s'.verts
  pos : ∀ v ∈ s.verts, s'.pos v = s.pos v
  sum : ∀ w : Wt K, (∀ a b, w a b = - w b a) →
    (∀ a b n bd, .split a b n bd ∈ l → ∀ p q m, Between m p q → w (a, p) (n, m) + w (n, m) (b, q) = w (a, p) (b, q)) →
    acct w s' = acct w s
  area : s'.area + meshArea s = s.area + meshArea s'
  elem : ElemPos s → ElemPos s'

theorem Kept.refl {s : St K} (h : WF s) : Kept s [] s :=
  ⟨h, fun _ h => h, fun _ _ => rfl, fun _ _ _ => rfl, rfl, fun h => h⟩

theorem Kept.trans {s s1 s2 : St K} {l m : List (Ev K)} (h1 : Kept s l s1) (h2 : Kept s1 m s2) : Kept s (l ++ m) s2 where
  wf := h2.wf
  verts := fun v hv => h2.verts v (h1.verts v hv)
  pos := fun v hv => (h2.pos v (h1.verts v hv)).trans (h1.pos v hv)
  sum := fun w hw hl => (h2.sum w hw fun a b n bd hn => hl a b n bd (List.mem_append_right _ hn)).trans
    (h1.sum w hw fun a b n bd hn => hl a b n bd (List.mem_append_left _ hn))
  area := by linear_combination h1.area + h2.area
  elem := fun h => h2.elem (h1.elem h)

theorem acct_congr (w : Wt K) {s s' : St K} (h : WF s) (hp : ∀ v ∈ s.verts, s'.pos v = s.pos v)
    (h1 : pairs s' .front = pairs s .front) (h2 : elemSides s' = elemSides s) : acct w s' = acct w s := by
  unfold acct
  rw [h1, h2]
  congr 1
  · exact wsum_congr w fun e he => ⟨hp _ (pairs_verts h e he).1, hp _ (pairs_verts h e he).2⟩
  · exact wsum_congr w fun e he => ⟨hp _ (elemSides_verts h e he).1, hp _ (elemSides_verts h e he).2⟩

theorem fArea_kept {s s' : St K} (h : WF s) {f : FRef} (hf : Live s f) (hp : ∀ v ∈ s.verts, s'.pos v = s.pos v)
    (hF : (s'.F f).corners = (s.F f).corners) : s'.fArea f = s.fArea f := by
  have hc := (h.cor f hf).2
  rcases Sm.corners_cases h hf with ⟨a, b, c, hh⟩ | ⟨a, b, c, d, hh⟩
  · unfold fArea
    rw [hh] at hF hc
    rw [hF, hh]
    simp only [List.mem_cons, List.not_mem_nil, or_false, forall_eq_or_imp, forall_eq] at hc
    dsimp only
    rw [hp _ hc.1, hp _ hc.2.1, hp _ hc.2.2]
  · unfold fArea
    rw [hh] at hF hc
    rw [hF, hh]
    simp only [List.mem_cons, List.not_mem_nil, or_false, forall_eq_or_imp, forall_eq] at hc
    dsimp only
    rw [hp _ hc.1, hp _ hc.2.1, hp _ hc.2.2.1, hp _ hc.2.2.2]

theorem elemSides_congr {s s' : St K} (ht : s'.tris = s.tris) (hq : s'.quads = s.quads)
    (hF : ∀ f, Live s f → (s'.F f).corners = (s.F f).corners) : elemSides s' = elemSides s := by
  unfold elemSides sides triCorners
  rw [ht, hq]
  congr 2
  · exact List.map_congr_left fun t h => hF (.tri t) h
  · exact List.map_congr_left fun t h => hF (.quad t) h

theorem meshArea_congr {s s' : St K} (h : WF s) (hp : ∀ v ∈ s.verts, s'.pos v = s.pos v)
    (ht : s'.tris = s.tris) (hq : s'.quads = s.quads)
    (hF : ∀ f, Live s f → (s'.F f).corners = (s.F f).corners) : meshArea s' = meshArea s := by
  unfold meshArea
  rw [ht, hq]
  congr 2
  · exact List.map_congr_left fun t hl => fArea_kept (f := .tri t) h hl hp (hF _ hl)
  · exact List.map_congr_left fun t hl => fArea_kept (f := .quad t) h hl hp (hF _ hl)

theorem live_congr {s s' : St K} (ht : s'.tris = s.tris) (hq : s'.quads = s.quads) (f : FRef) : Live s' f ↔ Live s f := by
  cases f <;> simp only [Live, ht, hq]

/-- Steps that leave elements, front and the places of the vertices alone. -/
theorem kept_of_same {s s' : St K} (h : WF s) (w : WF s') (hv : ∀ v ∈ s.verts, v ∈ s'.verts)
    (hp : ∀ v ∈ s.verts, s'.pos v = s.pos v) (hf : pairs s' .front = pairs s .front)
    (ht : s'.tris = s.tris) (hq : s'.quads = s.quads) (ha : s'.area = s.area)
    (hF : ∀ f, Live s f → (s'.F f).corners = (s.F f).corners) : Kept s [] s' where
  wf := w
  verts := hv
  pos := hp
  sum := fun w _ _ => acct_congr w h hp hf (elemSides_congr ht hq hF)
  area := by rw [ha, meshArea_congr h hp ht hq hF]
  elem := fun he f hf => by
    have hl := (live_congr ht hq f).mp hf
    rw [fArea_kept h hl hp (hF f hl)]; exact he f hl

theorem kept_same {s s' : St K} (h : WF s) (w : WF s') (m : SameMesh s s') : Kept s [] s' :=
  kept_of_same h w (fun v hv => by rw [m.verts]; exact hv) (fun v hv => same_pos m hv) (same_pairs m .front) m.tris m.quads
    m.area (fun f hf => by rw [m.fdata f hf])

theorem kept_mark {s : St K} (h : WF s) (v : Nat) (g : BitVec 8 → BitVec 8) : Kept s [] (s.setProps v g) :=
  kept_of_same h (wf_setProps h v g) (fun _ h => h)
    (fun u _ => by unfold setProps pos upd; dsimp only; split_ifs <;> rfl) rfl rfl rfl rfl (fun _ _ => rfl)

/-- The weight of the sides of a triangle. -/
def tw (w : Wt K) (s : St K) (a b c : Nat) : K :=
  w (a, s.pos a) (b, s.pos b) + w (b, s.pos b) (c, s.pos c) + w (c, s.pos c) (a, s.pos a)

theorem wsum_tri (w : Wt K) (s : St K) (a b c : Nat) : wsum w s [(a, b), (b, c), (c, a)] = tw w s a b c := by
  unfold wsum tw; simp [add_assoc]

theorem tw_rot (w : Wt K) (s : St K) (a b c : Nat) : tw w s b c a = tw w s a b c := by unfold tw; ring

theorem replaced_tw (w : Wt K) (hw : ∀ a b, w a b = - w b a) (s : St K) {old new : List (Nat × Nat)} {b1 b2 v : Nat}
    (h : Replaced old new b1 b2 v) : wsum w s new + tw w s b1 b2 v = wsum w s old := by
  have := replaced_sum (fun e => w (e.1, s.pos e.1) (e.2, s.pos e.2)) (fun a b => hw _ _) h
  exact this

/-! ### A triangle by the front update -/

theorem kept_done {env : Env K} {s s' s'' : St K} {b1 b2 v t : Nat} (h : WF s) (d : Done env s s' b1 b2 v t)
    (ho : Oriented (pairs s .front) b1 b2 v) : Kept s [.tri ⟨pairs s .front, b1, b2, v⟩ s''] s' where
  wf := d.wf
  verts := d.verts
  pos := d.pos
  sum := fun w hw _ => by
    have h1 := replaced_tw w hw s' (d.front ho)
    have h2 : elemSides s' = sides s ++ [(b1, b2), (b2, v), (v, b1)] ++
        (s.quads.map fun q => (s.F (.quad q)).corners).flatMap bdryOf := by
      unfold elemSides
      rw [done_sides d, d.quads]
      congr 2
      exact List.map_congr_left fun q hq => by rw [d.fold (.quad q) hq]
    have h3 : wsum w s' (elemSides s') = wsum w s' (elemSides s) + tw w s' b1 b2 v := by
      rw [h2]
      unfold elemSides
      rw [wsum_append, wsum_append, wsum_append, wsum_tri]
      ring
    have h4 : wsum w s' (elemSides s) = wsum w s (elemSides s) :=
      wsum_congr w fun e he => ⟨d.pos _ (elemSides_verts h e he).1, d.pos _ (elemSides_verts h e he).2⟩
    have h5 : wsum w s' (pairs s .front) = wsum w s (pairs s .front) :=
      wsum_congr w fun e he => ⟨d.pos _ (pairs_verts h e he).1, d.pos _ (pairs_verts h e he).2⟩
    unfold acct
    rw [h3, h4, ← h5, ← h1]; ring
  area := by
    unfold meshArea
    rw [d.area, d.tris, d.quads, List.map_append, List.sum_append]
    have h1 : (s.tris.map fun t => s'.fArea (.tri t)) = s.tris.map fun t => s.fArea (.tri t) :=
      List.map_congr_left fun t ht => fArea_kept (f := .tri t) h ht d.pos (by rw [d.fold (.tri t) ht])
    have h2 : (s.quads.map fun t => s'.fArea (.quad t)) = s.quads.map fun t => s.fArea (.quad t) :=
      List.map_congr_left fun t ht => fArea_kept (f := .quad t) h ht d.pos (by rw [d.fold (.quad t) ht])
    have h3 : s'.fArea (.tri t) = triArea (s'.pos b1) (s'.pos b2) (s'.pos v) := by unfold fArea; rw [d.cor]
    rw [h1, h2, List.map_singleton, List.sum_singleton, h3]
    ring
  elem := fun he f hf => by
    have hold : Live s f → 0 < s'.fArea f := fun hl => by
      rw [fArea_kept h hl d.pos (by rw [d.fold _ hl])]; exact he f hl
    cases f with
    | null => exact absurd hf (by simp [Live])
    | quad q => simp only [Live, d.quads] at hf; exact hold hf
    | tri u =>
      simp only [Live, d.tris, List.mem_append, List.mem_singleton] at hf
      rcases hf with hf | rfl
      · exact hold hf
      · have h3 : s'.fArea (.tri u) = triArea (s'.pos b1) (s'.pos b2) (s'.pos v) := by unfold fArea; rw [d.cor]
        rw [h3]; exact d.tpos

/-! ### A triangle added by hand -/

theorem addTri_fresh {s : St K} (h : WF s) {f : FRef} (hf : Live s f) (a b c : Nat) (col : Int) :
    (s.addTri a b c col).F f = s.F f := by
  have : f ≠ .tri s.nxt := by
    rintro rfl; exact absurd (h.tlt _ hf) (lt_irrefl _)
  simp only [addTri, upd, if_neg this]

theorem regFacet_pos (f : FRef) (cs : List Nat) : ∀ (V : Nat → VData K) (v : Nat), (regFacet V f cs v).xy = (V v).xy := by
  induction cs with
  | nil => intro V v; rfl
  | cons c cs ih =>
    intro V v
    show (regFacet (upd V c (vAddFacet f)) f cs v).xy = _
    rw [ih]
    unfold upd; split_ifs <;> rfl

theorem unregFacet_pos (f : FRef) (cs : List Nat) : ∀ (V : Nat → VData K) (v : Nat), (unregFacet V f cs v).xy = (V v).xy := by
  induction cs with
  | nil => intro V v; rfl
  | cons c cs ih =>
    intro V v
    show (unregFacet (upd V c (vRemFacet f)) f cs v).xy = _
    rw [ih]
    unfold upd; split_ifs <;> rfl

theorem addTri_pos (s : St K) (a b c : Nat) (col : Int) (v : Nat) : (s.addTri a b c col).pos v = s.pos v :=
  regFacet_pos _ _ _ _
theorem addQuad_pos (s : St K) (a b c d : Nat) (col : Int) (v : Nat) : (s.addQuad a b c d col).pos v = s.pos v :=
  regFacet_pos _ _ _ _
theorem removeTri_pos (s : St K) (t v : Nat) : (s.removeTri t).pos v = s.pos v := unregFacet_pos _ _ _ _

theorem addTri_cor (s : St K) (a b c : Nat) (col : Int) : ((s.addTri a b c col).F (.tri s.nxt)).corners = [a, b, c] := by
  simp [addTri, upd]

theorem addTri_acct {s : St K} (h : WF s) (w : Wt K) (a b c : Nat) (col : Int) :
    acct w (s.addTri a b c col) = acct w s + tw w s a b c := by
  have hp := addTri_pos s a b c col
  have h1 : pairs (s.addTri a b c col) .front = pairs s .front := rfl
  have h2 : elemSides (s.addTri a b c col) = sides s ++ [(a, b), (b, c), (c, a)] ++
      (s.quads.map fun q => (s.F (.quad q)).corners).flatMap bdryOf := by
    unfold elemSides sides triCorners
    have hq : (s.addTri a b c col).quads = s.quads := rfl
    have ht : (s.addTri a b c col).tris = s.tris ++ [s.nxt] := rfl
    have m1 : (s.tris.map fun t => ((s.addTri a b c col).F (.tri t)).corners) = s.tris.map fun t => (s.F (.tri t)).corners :=
      List.map_congr_left fun q hq => by rw [addTri_fresh (f := .tri q) h hq]
    have m2 : (s.quads.map fun t => ((s.addTri a b c col).F (.quad t)).corners) = s.quads.map fun t => (s.F (.quad t)).corners :=
      List.map_congr_left fun q hq => by rw [addTri_fresh (f := .quad q) h hq]
    rw [hq, ht, List.map_append, List.flatMap_append, m1, m2, List.map_singleton, addTri_cor]
    rfl
  unfold acct
  rw [h1, h2]
  have e : ∀ l, wsum w (s.addTri a b c col) l = wsum w s l := fun l => wsum_congr w fun e _ => ⟨hp _, hp _⟩
  simp only [e]
  unfold elemSides
  rw [wsum_append, wsum_append, wsum_append, wsum_tri]
  ring

theorem addTri_area {s : St K} (h : WF s) (a b c : Nat) (col : Int) :
    meshArea (s.addTri a b c col) = meshArea s + triArea (s.pos a) (s.pos b) (s.pos c) := by
  have hp := addTri_pos s a b c col
  unfold meshArea
  have hq : (s.addTri a b c col).quads = s.quads := rfl
  have ht : (s.addTri a b c col).tris = s.tris ++ [s.nxt] := rfl
  rw [hq, ht, List.map_append, List.sum_append]
  have h1 : (s.tris.map fun t => (s.addTri a b c col).fArea (.tri t)) = s.tris.map fun t => s.fArea (.tri t) :=
    List.map_congr_left fun t ht => fArea_kept (f := .tri t) h ht (fun v _ => hp v) (by rw [addTri_fresh (f := .tri t) h ht])
  have h2 : (s.quads.map fun t => (s.addTri a b c col).fArea (.quad t)) = s.quads.map fun t => s.fArea (.quad t) :=
    List.map_congr_left fun t ht => fArea_kept (f := .quad t) h ht (fun v _ => hp v) (by rw [addTri_fresh (f := .quad t) h ht])
  have h3 : (s.addTri a b c col).fArea (.tri s.nxt) = triArea (s.pos a) (s.pos b) (s.pos c) := by
    unfold fArea; rw [addTri_cor]; dsimp only; rw [hp, hp, hp]
  rw [h1, h2, List.map_singleton, List.sum_singleton, h3]
  ring

theorem addTri_elem {s : St K} (h : WF s) {a b c : Nat} {col : Int} (hA : 0 < triArea (s.pos a) (s.pos b) (s.pos c))
    (he : ElemPos s) : ElemPos (s.addTri a b c col) := by
  intro f hf
  have hp := addTri_pos s a b c col
  have hold : Live s f → 0 < (s.addTri a b c col).fArea f := fun hl => by
    rw [fArea_kept h hl (fun v _ => hp v) (by rw [addTri_fresh h hl])]; exact he f hl
  cases f with
  | null => exact absurd hf (by simp [Live])
  | quad q => exact hold hf
  | tri u =>
    have : u ∈ s.tris ++ [s.nxt] := hf
    rw [List.mem_append, List.mem_singleton] at this
    rcases this with hf | rfl
    · exact hold hf
    · have h3 : (s.addTri a b c col).fArea (.tri s.nxt) = triArea (s.pos a) (s.pos b) (s.pos c) := by
        unfold fArea; rw [addTri_cor]; dsimp only; rw [hp, hp, hp]
      rw [h3]; exact hA

/-! ### Advance of the front -/

theorem adv_cor {s s' : St K} {base v t : Nat} (a : Adv s s' base v t) (f : FRef) : (s'.F f).corners = (s.F f).corners := by
  rw [a.F]; unfold upd; split_ifs <;> rfl

theorem adv_acct {s s' : St K} {base v t : Nat} (h : WF s) (a : Adv s s' base v t)
    (ho : Oriented (pairs s .front) (s.E base).v1 (s.E base).v2 v) (w : Wt K) (hw : ∀ a b, w a b = - w b a) :
    acct w s' + tw w s (s.E base).v1 (s.E base).v2 v = acct w s := by
  have h1 := replaced_tw w hw s (a.front ho)
  have e : ∀ l, wsum w s' l = wsum w s l := fun l => wsum_congr w fun e _ => ⟨a.pos _, a.pos _⟩
  unfold acct
  rw [elemSides_congr a.tris a.quads fun f _ => adv_cor a f, e, e, ← h1]
  ring

theorem adv_meshArea {s s' : St K} {base v t : Nat} (h : WF s) (a : Adv s s' base v t) : meshArea s' = meshArea s :=
  meshArea_congr h (fun v _ => a.pos v) a.tris a.quads fun f _ => adv_cor a f

theorem adv_elem {s s' : St K} {base v t : Nat} (h : WF s) (a : Adv s s' base v t) (he : ElemPos s) : ElemPos s' := by
  intro f hf
  have hl := (live_congr a.tris a.quads f).mp hf
  rw [fArea_kept h hl (fun v _ => a.pos v) (adv_cor a f)]; exact he f hl

/-- The edge found between `b` and `c` is `b → c` in a simple front with this edge. -/
theorem found_dir {s : St K} (h : WF s) {b c e : Nat} (hb : b ∈ s.verts) (hs : Simple (pairs s .front))
    (hm : (b, c) ∈ pairs s .front) (hg : s.getEdge .front b c = some e) :
    e ∈ s.es .front ∧ (s.E e).v1 = b ∧ (s.E e).v2 = c := by
  obtain ⟨h1, h2⟩ := getEdge_some h hb hg
  refine ⟨h1, ?_⟩
  rcases h2 with h2 | h2
  · exact h2
  · exfalso
    have := mem_pairs h1
    rw [h2.1, h2.2] at this
    exact hs.2 _ _ hm this

theorem kept_gap {L : LEnv K} {s : St K} (h : WF s) {a b c e : Nat} (hn : [a, b, c].Nodup) (ha : a ∈ s.verts)
    (hb : b ∈ s.verts) (hc : c ∈ s.verts) (hv : triangleIsValid L.env (s.addTri a b c (-1)) s.nxt a b c = true)
    (hg : (s.addTri a b c (-1)).getEdge .front b c = some e)
    (good : GoodEntry ⟨pairs s .front, b, c, a⟩) :
    Kept s [.tri ⟨pairs s .front, b, c, a⟩ (advanceFront (s.addTri a b c (-1)) e a s.nxt)] (advanceFront (s.addTri a b c (-1)) e a s.nxt) := by
  obtain ⟨g1, g2, g3⟩ := good
  dsimp only at g1 g2 g3
  have w1 : WF (s.addTri a b c (-1)) := wf_addTri h (-1) ha hb hc hn
  obtain ⟨he, e1, e2⟩ := found_dir w1 hb g2 g1 hg
  simp only [List.nodup_cons, List.mem_cons, List.not_mem_nil, or_false, not_or] at hn
  have A := advanceFront_spec w1 s.nxt he (v := a) ha (by rw [e1]; exact hn.1.1) (by rw [e2]; exact hn.1.2)
  have hA := triArea_pos_of_checkValidity (checkValidity_of_valid hv)
  rw [addTri_pos, addTri_pos, addTri_pos] at hA
  have hp := addTri_pos s a b c (-1)
  refine ⟨A.wf, ?_, ?_, ?_, ?_, ?_⟩
  · intro v hv; rw [A.verts]; exact hv
  · intro v _; rw [A.pos, hp]
  · intro w hw _
    have h1 := adv_acct w1 A (by rw [e1, e2]; exact g3) w hw
    rw [addTri_acct h, e1, e2] at h1
    have h2 : tw w (s.addTri a b c (-1)) b c a = tw w s a b c := by
      unfold tw; rw [hp, hp, hp]; ring
    rw [h2] at h1
    linear_combination h1
  · rw [adv_meshArea w1 A, addTri_area h, A.area]
    have h3 : (s.addTri a b c (-1)).fArea (.tri s.nxt) = triArea (s.pos a) (s.pos b) (s.pos c) := by
      unfold fArea; rw [addTri_cor]; dsimp only; rw [hp, hp, hp]
    rw [h3]
    have : (s.addTri a b c (-1)).area = s.area := rfl
    rw [this]; ring
  · intro he; exact adv_elem w1 A (addTri_elem h hA he)

/-! ### Withdrawn triangles -/

theorem filter_fresh {l : List Nat} {n : Nat} (h : ∀ x ∈ l, x < n) : (l ++ [n]).filter (fun x => decide (x ≠ n)) = l := by
  rw [List.filter_append]
  have h1 : l.filter (fun x => decide (x ≠ n)) = l := by
    rw [List.filter_eq_self]; intro x hx; simpa using Nat.ne_of_lt (h x hx)
  rw [h1]; simp

theorem kept_gapFail {s : St K} (h : WF s) {a b c : Nat} (hn : [a, b, c].Nodup) (ha : a ∈ s.verts)
    (hb : b ∈ s.verts) (hc : c ∈ s.verts) : Kept s [] ((s.addTri a b c (-1)).removeTri s.nxt) := by
  refine kept_of_same h (wf_removeTri (wf_addTri h (-1) ha hb hc hn) _) (fun _ h => h) ?_ rfl ?_ rfl rfl ?_
  · intro v _; rw [removeTri_pos, addTri_pos]
  · exact filter_fresh h.tlt
  · intro f hf
    have := addTri_fresh h hf a b c (-1)
    show ((s.addTri a b c (-1)).F f).corners = _
    rw [this]

theorem addVertex_pos {s : St K} (h : WF s) (p : Pt K) {v : Nat} (hv : v ∈ s.verts) : (s.addVertex p).pos v = s.pos v := by
  have : v ≠ s.nxt := Nat.ne_of_lt (h.vlt v hv)
  simp only [addVertex, pos, upd, if_neg this]

theorem kept_addVertex {s : St K} (h : WF s) (p : Pt K) : Kept s [] (s.addVertex p) :=
  kept_of_same h (wf_addVertex h p) (fun _ h => List.mem_append_left _ h) (fun _ hv => addVertex_pos h p hv) rfl rfl rfl rfl
    (fun _ _ => rfl)

theorem fresh_edges {s : St K} (h : WF s) {v : Nat} (hv : v ∈ s.verts) (hE : ∀ l, ∀ e ∈ s.es l, (s.E e).v1 ≠ v ∧ (s.E e).v2 ≠ v) :
    (s.V v).edges = [] := by
  rw [List.eq_nil_iff_forall_not_mem]
  intro e he
  obtain ⟨h1, h2⟩ := ((h.edges v hv).2 e).mp he
  have := hE _ e h1
  exact h2.elim this.1 this.2

theorem fresh_facets {s : St K} (h : WF s) {v : Nat} (hv : v ∈ s.verts) (hF : ∀ f, Live s f → v ∉ (s.F f).corners) :
    (s.V v).facets = [] := by
  rw [List.eq_nil_iff_forall_not_mem]
  intro f hf
  obtain ⟨h1, h2⟩ := ((h.facets v hv).2 f).mp hf
  exact hF f h1 h2

theorem kept_gap2Fail {s : St K} (h : WF s) {a b c : Nat} (p : Pt K) (hn : [a, b, c].Nodup) (ha : a ∈ s.verts)
    (hb : b ∈ s.verts) (hc : c ∈ s.verts) :
    Kept s [] ((((((s.addVertex p).addTri a b s.nxt (-1)).addTri b c s.nxt (-1)).removeTri (s.nxt + 1)).removeTri
        (s.nxt + 2)).removeVertex s.nxt) := by
  simp only [List.nodup_cons, List.mem_cons, List.not_mem_nil, or_false, not_or] at hn
  have na : a ≠ s.nxt := Nat.ne_of_lt (h.vlt a ha)
  have nb : b ≠ s.nxt := Nat.ne_of_lt (h.vlt b hb)
  have nc : c ≠ s.nxt := Nat.ne_of_lt (h.vlt c hc)
  have k0 := wf_addVertex h p
  have vm : s.nxt ∈ (s.addVertex p).verts := by simp [addVertex]
  have k1 : WF ((s.addVertex p).addTri a b s.nxt (-1)) := by
    refine wf_addTri k0 (-1) (List.mem_append_left _ ha) (List.mem_append_left _ hb) vm ?_
    simp only [List.nodup_cons, List.mem_cons, List.not_mem_nil, or_false, not_or]
    exact ⟨⟨hn.1.1, na⟩, nb, not_false, List.nodup_nil⟩
  have k2 : WF (((s.addVertex p).addTri a b s.nxt (-1)).addTri b c s.nxt (-1)) := by
    refine wf_addTri k1 (-1) (List.mem_append_left _ hb) (List.mem_append_left _ hc) vm ?_
    simp only [List.nodup_cons, List.mem_cons, List.not_mem_nil, or_false, not_or]
    exact ⟨⟨hn.2.1, nb⟩, nc, not_false, List.nodup_nil⟩
  have k3 := wf_removeTri (wf_removeTri k2 (s.nxt + 1)) (s.nxt + 2)
  generalize hs3 : (((((s.addVertex p).addTri a b s.nxt (-1)).addTri b c s.nxt (-1)).removeTri (s.nxt + 1)).removeTri
    (s.nxt + 2)) = s3 at k3 ⊢
  have es : s3.es = s.es := by rw [← hs3]; rfl
  have eE : s3.E = s.E := by rw [← hs3]; rfl
  have ev : s3.verts = s.verts ++ [s.nxt] := by rw [← hs3]; rfl
  have eq : s3.quads = s.quads := by rw [← hs3]; rfl
  have ear : s3.area = s.area := by rw [← hs3]; rfl
  have et : s3.tris = s.tris := by
    have : s3.tris = ((s.tris ++ [s.nxt + 1] ++ [s.nxt + 2]).filter (fun x => decide (x ≠ s.nxt + 1))).filter
      (fun x => decide (x ≠ s.nxt + 2)) := by rw [← hs3]; rfl
    rw [this, List.filter_comm, filter_fresh, filter_fresh]
    · intro x hx; have := h.tlt x hx; omega
    · intro x hx
      rw [List.mem_append, List.mem_singleton] at hx
      rcases hx with hx | rfl
      · have := h.tlt x hx; omega
      · omega
  have eF : ∀ f, Live s f → (s3.F f).corners = (s.F f).corners := by
    intro f hf
    have n1 : f ≠ .tri (s.nxt + 1) := by
      rintro rfl; have : s.nxt + 1 < s.nxt := h.tlt _ hf
      omega
    have n2 : f ≠ .tri (s.nxt + 2) := by
      rintro rfl; have : s.nxt + 2 < s.nxt := h.tlt _ hf
      omega
    have : s3.F = upd (upd s.F (.tri (s.nxt + 1)) fun _ => ⟨[a, b, s.nxt], [.null, .null, .null], s.newColor (-1), false⟩)
      (.tri (s.nxt + 2)) fun _ => ⟨[b, c, s.nxt], [.null, .null, .null], s.newColor (-1), false⟩ := by rw [← hs3]; rfl
    rw [this]
    simp only [upd, if_neg n1, if_neg n2]
  have ep : ∀ v ∈ s.verts, s3.pos v = s.pos v := by
    intro v hv
    rw [← hs3, removeTri_pos, removeTri_pos, addTri_pos, addTri_pos, addVertex_pos h p hv]
  have lv : ∀ f, Live s3 f ↔ Live s f := live_congr et eq
  have hvm : s.nxt ∈ s3.verts := by rw [ev]; simp
  have nin : s.nxt ∉ s.verts := fun hm => absurd (h.vlt _ hm) (lt_irrefl _)
  have kw : WF (s3.removeVertex s.nxt) := by
    refine wf_removeVertex k3 s.nxt ?_ ?_ ?_
    · refine fresh_edges k3 hvm ?_
      intro l e he
      rw [es] at he; rw [eE]
      obtain ⟨_, h1, h2, _⟩ := (h.ends l).2 e he
      exact ⟨fun hh => nin (hh ▸ h1), fun hh => nin (hh ▸ h2)⟩
    · refine fresh_facets k3 hvm ?_
      intro f hf hm
      have hl := (lv f).mp hf
      rw [eF f hl] at hm
      exact nin ((h.cor f hl).2 _ hm)
    · exact hvm
  have verts' : (s3.removeVertex s.nxt).verts = s.verts := by
    show s3.verts.filter _ = _
    rw [ev]; exact filter_fresh h.vlt
  refine kept_of_same h kw (fun v hv => by rw [verts']; exact hv) ep ?_ et eq ear eF
  unfold pairs
  show (s3.es .front).map (fun e => ((s3.E e).v1, (s3.E e).v2)) = _
  rw [es, eE]

end TQ.QL
