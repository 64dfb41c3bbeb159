import Verif.Whole.Marks
import Verif.Whole.SeveralLemmas
import Verif.Whole.FileProps
import Verif.Whole.NextProps

/-! # Lemmas: the boundary edges of a finished mesh have no links and are not marked as fixed -/

set_option linter.unusedSectionVars false
set_option linter.unusedSimpArgs false

namespace TQ.Whole
open TQ TQ.MS TQ.MS.St TQ.MeshSpec TQ.FUSpec TQ.MCSpec TQ.WholeSpec TQ.FU TQ.Sm TQ.MC TQ.RefSpec TQ.CleanSpec TQ.MM TQ.MergeSpec TQ.SmSpec TQ.AM TQ.AppSpec TQ.QL TQ.QLSpec

section
variable {K : Type*} [Field K] [LinearOrder K]
variable {R : BitVec 8 → Option (Nat × Nat) → Prop}

/-- All boundary edges are in the set. -/
def Lst (R : BitVec 8 → Option (Nat × Nat) → Prop) (s : St K) : Prop := ∀ e ∈ s.es .bdry, R (s.E e).props (s.E e).twin

theorem All.lst {s : St K} (h : All R s) : Lst R s := fun e _ => h e

theorem lst_E {s t : St K} (h : Lst R s) (ht : t.E = s.E) (he : t.es = s.es) : Lst R t := fun e hm => by
  rw [he] at hm
  rw [ht]; exact h e hm

theorem lst_foldl {α : Type*} {f : St K → α → St K} (hf : ∀ s x, Lst R s → Lst R (f s x)) (l : List α) {s : St K} (h : Lst R s) : Lst R (l.foldl f s) := by
  induction l generalizing s with
  | nil => exact h
  | cons x l ih => exact ih (hf s x h)

theorem lst_addEdge {s : St K} (h : Lst R s) (l : EL) (a b : Nat) (c : Int) {p : BitVec 8} (hp : R p none) : Lst R (s.addEdge l a b c p) := fun e hm => by
  unfold addEdge upd at hm ⊢
  dsimp only at hm ⊢
  split_ifs with hx
  · exact hp
  · refine h e ?_
    split_ifs at hm with hl
    · simpa [hx] using hm
    · exact hm

theorem lst_removeEdge {s : St K} (h : Lst R s) (e : Nat) : Lst R (s.removeEdge e) := fun x hm => by
  refine h x ?_
  unfold removeEdge upd at hm
  dsimp only at hm
  split_ifs at hm
  · exact List.mem_of_mem_filter hm
  · exact hm
theorem lst_removeIntr {s : St K} (h : Lst R s) (e : Nat) : Lst R (s.removeIntr e) := by
  unfold removeIntr; split_ifs
  · exact h
  · exact lst_removeEdge h e
theorem lst_removeBdry {s : St K} (h : Lst R s) (e : Nat) : Lst R (s.removeBdry e) := by
  unfold removeBdry; split_ifs
  · exact h
  · exact lst_removeEdge h e

theorem inherit_es (v : Nat) (ws : List Nat) (s : St K) : (s.inheritProps v ws).es = s.es := by
  unfold inheritProps
  induction ws generalizing s with
  | nil => rfl
  | cons w ws ih => rw [List.foldl_cons, ih]; rfl

theorem lst_splitFacet (M : Marks R) {s : St K} (h : Lst R s) (p : Pt K) (vs : List Nat) (c : Int) (qs : List (Nat × Nat × Nat × Nat)) (ms : List Nat) : Lst R (s.splitFacet p vs c qs ms) := by
  unfold splitFacet
  dsimp only
  refine lst_foldl (fun s m h => lst_addEdge h _ _ _ _ M.zero) _ (lst_foldl (f := fun (t : St K) q => t.addSub c q) (fun s q h => h) _ ?_)
  unfold clearBoundary
  exact lst_E h (inherit_E (K := K) _ _ _) (inherit_es (K := K) _ _ _)

theorem lst_loopR {α : Type*} {f : RS K → α → Option (RS K)} (hf : ∀ s x t, Lst R s.1 → f s x = some t → Lst R t.1) : ∀ (l : List α) {s t : RS K}, Lst R s.1 → loopM f s l = some t → Lst R t.1
  | [], s, t, h, e => by simp only [loopM, Option.some.injEq] at e; rw [← e]; exact h
  | x :: l, s, t, h, e => by
    simp only [loopM] at e
    split at e
    · simp at e
    · rename_i u hu
      exact lst_loopR hf l (hf _ _ _ h hu) e

theorem lst_foldR {α : Type*} {f : RS K → α → RS K} (hf : ∀ s x, Lst R s.1 → Lst R (f s x).1) (l : List α) {s : RS K} (h : Lst R s.1) : Lst R (l.foldl f s).1 := by
  induction l generalizing s with
  | nil => exact h
  | cons x l ih => exact ih (hf s x h)

theorem lst_refine (M : Marks R) {s : St K} {r : St K × Bool} (h : Lst R s) (e : s.refine = some r) : Lst R r.1 := by
  unfold refine at e
  split_ifs at e
  · simp only [Option.some.injEq] at e
    rw [← e]; exact h
  · dsimp only at e
    split at e
    · simp at e
    · rename_i r1 h1
      split at e
      · simp at e
      · rename_i r2 h2
        simp only [Option.some.injEq] at e
        rw [← e]
        have a0 : Lst R ((s.es .bdry).foldl St.splitBdry ((s.es .intr).foldl splitIntr (s, fun _ => none))).1 := by
          refine lst_foldR (fun r e h => ?_) _ (lst_foldR (fun r e h => ?_) _ h)
          · unfold St.splitBdry
            dsimp only
            exact lst_E (lst_addEdge (lst_addEdge (s := r.1.addVertex _) h _ _ _ _ M.bdry) _ _ _ _ M.bdry) (inherit_E _ _ _) (inherit_es _ _ _)
          · unfold splitIntr clearBoundary
            dsimp only
            exact lst_E (t := _) (lst_addEdge (lst_addEdge (s := r.1.addVertex _) h _ _ _ _ M.zero) _ _ _ _ M.zero) (inherit_E (K := K) _ _ _) (inherit_es (K := K) _ _ _)
        have a1 : Lst R r1.1 := by
          refine lst_loopR (fun r t u h e => ?_) _ a0 h1
          unfold splitTri at e
          split at e
          · split at e
            · simp only [Option.some.injEq] at e
              rw [← e]; exact lst_splitFacet M h _ _ _ _ _
            · simp at e
          · simp at e
        have a2 : Lst R r2.1 := by
          refine lst_loopR (fun r t u h e => ?_) _ a1 h2
          unfold splitQuad at e
          split at e
          · split at e
            · simp only [Option.some.injEq] at e
              rw [← e]; exact lst_splitFacet M h _ _ _ _ _
            · simp at e
          · simp at e
        unfold St.removeOld
        dsimp only
        exact lst_foldl (f := fun (t : St K) q => t.removeQuad q) (fun s q h => h) _ (lst_foldl (f := fun (t : St K) q => t.removeTri q) (fun s q h => h) _
          (lst_foldl (fun s e h => lst_removeBdry h e) _ (lst_foldl (fun s e h => lst_removeIntr h e) _ a2)))

theorem lst_refineAll (M : Marks R) : ∀ (n : Nat) {s t : St K}, Lst R s → AM.refineAll n s = some t → Lst R t
  | 0, s, t, h, e => by simp only [AM.refineAll, Option.some.injEq] at e; rw [← e]; exact h
  | n + 1, s, t, h, e => by
    simp only [AM.refineAll, Option.bind_eq_some_iff] at e
    obtain ⟨r, h1, h2⟩ := e
    exact lst_refineAll M n (lst_refine M h h1) h2

end

/-! ### Prepared meshes -/

/-- Not marked as fixed, and linked at most to meshes of the set `S`. -/
def Lk (S : Nat → Prop) (p : BitVec 8) (t : Option (Nat × Nat)) : Prop := Flags.has p Flags.eIsFixed = false ∧ ∀ x, t = some x → S x.1

theorem marks_lk (S : Nat → Prop) : Marks (Lk S) where
  zero := ⟨by decide, by simp⟩
  bdry := ⟨by decide, by simp⟩
  copy := fun h => ⟨h.1, by simp⟩

section
variable {K : Type*} [Field K] [LinearOrder K]

theorem all_setTwin {S : Nat → Prop} {s : St K} (h : All (Lk S) s) (e : Nat) {x : Nat × Nat} (hx : S x.1) : All (Lk S) (setTwin s e x) := fun y => by
  unfold setTwin upd
  dsimp only
  split_ifs
  · exact ⟨(h y).1, fun z hz => by simp only [Option.some.injEq] at hz; rw [← hz]; exact hx⟩
  · exact h y

theorem all_addFrontEdges {S : Nat → Prop} {a : Nat} (ha : ¬ S a) (off : Nat) : ∀ (es : List Fr.FEdge) (c : World K × List (Nat × Nat)), All (Lk S) (c.1 a) → (∀ x ∈ c.2, S x.1) →
    All (Lk S) ((es.foldl (GN.addFrontEdge a off) c).1 a)
  | [], c, h, _ => h
  | e :: es, c, h, hr => by
    rw [List.foldl_cons]
    have key : All (Lk S) ((GN.addFrontEdge a off c e).1 a) ∧ ∀ x ∈ (GN.addFrontEdge a off c e).2, S x.1 := by
      unfold GN.addFrontEdge
      dsimp only
      split_ifs with h1 h2
      · exact ⟨h, hr⟩
      · have h3 : All (Lk S) ((c.1 a).addEdge .bdry (off + e.v1) (off + e.v2) e.color e.props) :=
          all_addEdge h _ _ _ _ ⟨by simpa [Fr.FEdge.isFixed] using h1, by simp⟩
        split
        · exact ⟨by simpa [upd] using h3, by simp⟩
        · rename_i x rest hc
          have hx : S x.1 := hr x (by rw [hc]; simp)
          have hxa : a ≠ x.1 := fun hh => ha (by rw [hh]; exact hx)
          refine ⟨?_, fun y hy => hr y (by rw [hc]; exact List.mem_cons_of_mem _ hy)⟩
          simp only [upd, if_true, hxa, if_false]
          exact all_setTwin h3 _ hx
      · exact ⟨by simpa [upd] using all_addEdge h .bdry (off + e.v1) (off + e.v2) e.color (p := e.props) ⟨by simpa [Fr.FEdge.isFixed] using h1, by simp⟩, hr⟩
    exact all_addFrontEdges ha off es _ key.1 key.2

/-- The edges of a prepared mesh. -/
theorem all_prepare {S : Nat → Prop} {P : GN.Prep K} {w w1 : World K} {a : Nat} {ok : Bool} (ha : ¬ S a) (h : All (Lk S) (w a)) (hr : ∀ x ∈ P.refs, S x.1)
    (e : GN.prepareMesh P w a = .ret ok w1) : All (Lk S) (w1 a) := by
  have hv : ∀ vs : List (Fr.MVert K), All (Lk S) (vs.foldl GN.addVert (w a)) := fun vs => all_foldl (f := GN.addVert) (fun s v h => h) _ h
  have hf : ∀ (vs : List (Fr.MVert K)) (fs : List (GN.FixV K)), All (Lk S) (fs.foldl GN.addFixed (vs.foldl GN.addVert (w a))) := fun vs fs =>
    all_foldl (fun s v h => by unfold GN.addFixed; split_ifs <;> exact h) _ (hv vs)
  unfold GN.prepareMesh at e
  dsimp only at e
  split_ifs at e
  · simp only [GN.PrepRes.ret.injEq] at e
    rw [← e.2]; exact h
  · split at e
    · simp at e
    · simp only [GN.PrepRes.ret.injEq] at e
      rw [← e.2]; exact h
    · split at e
      · simp at e
      · rename_i vs es z hi
        split_ifs at e
        · simp only [GN.PrepRes.ret.injEq] at e
          rw [← e.2]
          simpa [upd] using hv vs
        · simp only [GN.PrepRes.ret.injEq] at e
          rw [← e.2]
          refine all_addFrontEdges ha _ _ _ ?_ hr
          simpa [upd] using hf vs P.fixed

end

/-! ### Finished meshes -/

section
variable {K : Type*} [Field K] [LinearOrder K] [IsStrictOrderedRing K]

theorem lst_places {R : BitVec 8 → Option (Nat × Nat) → Prop} {s t : St K} (h : Lst R s) (k : SameButPlaces s t) : Lst R t := fun e he => by
  rw [k.es] at he
  obtain ⟨-, -, -, -, k1, k2⟩ := k.ends e
  rw [k1, k2]; exact h e he

/-- The mesh of the first definition. -/
theorem lst_first {S : Nat → Prop} {L : LEnv K} {fuel : Nat} {J : Job K} {D : Dom.Domain K} {s0 : St K} {T : Trace K} (h : generateMesh L fuel J D s0 = .done T)
    (h0 : All (Lk S) s0) (hw : WF T.refined) : Lst (Lk S) T.smoothed := by
  obtain ⟨h1, ⟨ok, h2⟩, h3, h4, ⟨x, h5⟩, -⟩ := generateMesh_steps h
  have a2 := all_triangulate (marks_lk S) (all_layerAll (marks_lk S) _ h0 h1) h2
  have a3 : All (Lk S) T.modified := by
    split_ifs at h3
    · exact all_tri2quad a2 h3
    · simp only [Option.some.injEq] at h3
      rw [← h3]; exact a2
  have a4 := all_refineAll (marks_lk S) _ a3 h4
  obtain ⟨r, hr, k, -⟩ := C58_mixed J.nearest L.env.norm J.cfg J.torsion J.laplace J.decay J.smoothing hw J.step
  rw [h5] at hr
  simp only [Option.some.injEq] at hr
  rw [← hr] at k
  exact lst_places a4.lst k

theorem mem_right₂ {α β : Type*} {Q : α → β → Prop} {l : List α} {m : List β} (h : List.Forall₂ Q l m) {y : β} (hy : y ∈ m) : ∃ x ∈ l, Q x y := by
  induction h with
  | nil => simp at hy
  | cons h1 _ ih =>
    rcases List.mem_cons.mp hy with rfl | hy
    · exact ⟨_, List.mem_cons_self, h1⟩
    · obtain ⟨x, hx, hq⟩ := ih hy
      exact ⟨x, List.mem_cons_of_mem _ hx, hq⟩

/-- The merged mesh. -/
theorem lst_merged {eps : K} {w w' : World K} {ri di : Nat} (A : Adjacent w ri di) (lr : LeftFacets eps (w ri)) (ld : LeftFacets eps (w di))
    (hex : ∃ e ∈ (w ri).es .bdry, Iface w ri di e) (hm : merge eps w ri di false = some (w', true))
    (hR : Lst (Lk (· = di)) (w ri)) (hD : Lst (Lk (· = ri)) (w di)) : Lst (Lk fun _ => False) (w' ri) := by
  obtain ⟨u, φ, h1, h2, M⟩ := C53_merge A lr ld hex
  rw [hm] at h1
  simp only [Option.some.injEq, Prod.mk.injEq, and_true] at h1
  subst h1
  obtain ⟨n1, hb, hc⟩ := M.bdry
  intro e he
  rw [hb, List.mem_append, List.mem_filter] at he
  rcases he with ⟨h3, h4⟩ | h3
  · obtain ⟨-, -, -, o4, o5⟩ := M.oldE .bdry e h3
    rw [o4, o5]
    refine ⟨(hR e h3).1, fun x hx => ?_⟩
    have := (hR e h3).2 x hx
    apply of_decide_eq_true h4
    exact ⟨x.2, by rw [hx, ← this]⟩
  · obtain ⟨x, hx, c1, -, c3, -⟩ := mem_right₂ hc h3
    rw [List.mem_filter] at hx
    rw [c1.2.2, c3]
    refine ⟨(hD x hx.1).1, fun y hy => ?_⟩
    have := (hD x hx.1).2 y hy
    apply of_decide_eq_true hx.2
    exact ⟨y.2, by rw [hy, ← this]⟩

/-- The mesh of a further definition. -/
theorem lst_next {L : LEnv K} (he : 0 < L.env.eps) (hq : QueryExact L.env) (hso : SortOK L.env)
    (hn : ∀ p, 0 ≤ L.env.norm p ∧ Pt.normSq p ≤ L.env.norm p * L.env.norm p) {fuel : Nat} {J : Job K} {D : Dom.Domain K} {w : World K} {ni oi : Nat} {b : St K} {T : NextTrace K}
    (h0 : Prepared (w ni)) (hb : MeshOf b (w oi)) (B : Beside w ni oi) (ld : LeftFacets L.env.eps (w oi))
    (h : generateNext L fuel J D w ni oi = .done T) (g : AppSpec.GoodRun L fuel J (w ni) T.layered T.meshed) (hrim : RimKept (w ni) T.layered)
    (lr : LeftFacets L.env.eps T.modified) (hN : All (Lk (· = oi)) (w ni)) (hO : ∀ e ∈ (w oi).es .bdry, Flags.has ((w oi).E e).props Flags.eIsFixed = false) (hw : WF T.refined) :
    Lst (Lk fun _ => False) T.smoothed := by
  obtain ⟨h1, ⟨ok, h2⟩, h3, h4, h5, ⟨x, h6⟩, -⟩ := generateNext_steps h
  have a2 := all_triangulate (marks_lk _) (all_layerAll (marks_lk _) _ hN h1) h2
  have a3 : All (Lk (· = oi)) T.modified := by
    split_ifs at h3
    · exact all_tri2quad a2 h3
    · simp only [Option.some.injEq] at h3
      rw [← h3]; exact a2
  obtain ⟨m1, a1, r1⟩ := meshed_part he hq hso hn h0 h1 h3 g
  obtain ⟨S, hex⟩ := beside_done B (r1 hrim) m1.region m1.complete hb.complete
  have e1 : (upd w ni fun _ => T.modified) ni = T.modified := by simp [upd]
  have e2 : (upd w ni fun _ => T.modified) oi = w oi := by simp [upd, Ne.symm B.ne]
  have a4 := lst_merged S.adj (by rw [e1]; exact lr) (by rw [e2]; exact ld) hex h4 (by rw [e1]; exact a3.lst)
    (by rw [e2]; exact fun e hm => ⟨hO e hm, fun y hy => B.self e hm y hy⟩)
  have a5 := lst_refineAll (marks_lk _) _ a4 h5
  obtain ⟨r, hr, k, -⟩ := C58_mixed J.nearest L.env.norm J.cfg J.torsion J.laplace J.decay J.smoothing hw J.step
  rw [h6] at hr
  simp only [Option.some.injEq] at hr
  rw [← hr] at k
  exact lst_places a5 k

end

end TQ.Whole
