import Verif.Whole.RimLayer
import Verif.Whole.NextProps

/-! # Lemmas: the markers of the boundary edges during the meshing -/

set_option linter.unusedSectionVars false
set_option linter.unusedSimpArgs false
set_option linter.unusedVariables false

namespace TQ.Whole
open TQ.MS TQ.MeshSpec TQ.FUSpec TQ.MS.St TQ.GeoSpec TQ.FU TQ.MCSpec TQ.WholeSpec TQ.RefSpec TQ.QLSpec TQ.QL TQ.AM TQ.AppSpec TQ.MC
variable {K : Type*} [Field K] [LinearOrder K]

/-! ### The front edges on the boundary have the markers of the boundary edges -/

/-- Not on the boundary. -/
def inner (d : EData) : Bool := !Flags.has d.props Flags.eOnBoundary

/-- Interior edges are not on the boundary; front edges are not, or their data fulfil `S`. -/
def FI (S : Nat → Nat → Int → Prop) (s : St K) : Prop :=
  ∀ l, l ≠ .bdry → ∀ e ∈ s.es l, e < s.nxt ∧ (inner (s.E e) = true ∨ (l = .front ∧ S (s.E e).v1 (s.E e).v2 (s.E e).color))

variable {S : Nat → Nat → Int → Prop}

theorem fi_sub {s t : St K} (h : FI S s) (hes : ∀ l, l ≠ .bdry → ∀ e ∈ t.es l, e ∈ s.es l) (hE : t.E = s.E) (hn : s.nxt ≤ t.nxt) : FI S t := by
  intro l hl e he
  obtain ⟨h1, h2⟩ := h l hl e (hes l hl e he)
  rw [hE]
  exact ⟨lt_of_lt_of_le h1 hn, h2⟩

theorem fi_mono {S' : Nat → Nat → Int → Prop} {s : St K} (h : FI S s) (hS : ∀ a b c, S a b c → S' a b c) : FI S' s := by
  intro l hl e he
  obtain ⟨h1, h2⟩ := h l hl e he
  exact ⟨h1, h2.imp id fun h => ⟨h.1, hS _ _ _ h.2⟩⟩

theorem fi_addVertex {s : St K} (h : FI S s) (p : Pt K) : FI S (s.addVertex p) := fi_sub h (fun _ _ _ he => he) rfl (Nat.le_succ _)
theorem fi_removeVertex {s : St K} (h : FI S s) (v : Nat) : FI S (s.removeVertex v) := h
theorem fi_addTri {s : St K} (h : FI S s) (a b c : Nat) (k : Int) : FI S (s.addTri a b c k) := fi_sub h (fun _ _ _ he => he) rfl (Nat.le_succ _)
theorem fi_addQuad {s : St K} (h : FI S s) (a b c d : Nat) (k : Int) : FI S (s.addQuad a b c d k) := fi_sub h (fun _ _ _ he => he) rfl (Nat.le_succ _)
theorem fi_removeTri {s : St K} (h : FI S s) (t : Nat) : FI S (s.removeTri t) := h
theorem fi_setProps {s : St K} (h : FI S s) (v : Nat) (g : BitVec 8 → BitVec 8) : FI S (s.setProps v g) := h

theorem fi_removeEdge {s : St K} (h : FI S s) (e : Nat) : FI S (s.removeEdge e) := by
  refine fi_sub h (fun l _ x hx => ?_) rfl le_rfl
  unfold removeEdge upd at hx
  dsimp only at hx
  split_ifs at hx with hl
  · exact List.mem_of_mem_filter hx
  · exact hx

theorem fi_removeIntr {s : St K} (h : FI S s) (e : Nat) : FI S (s.removeIntr e) := by
  unfold removeIntr; split_ifs
  · exact h
  · exact fi_removeEdge h e

theorem fi_addEdge {s : St K} (h : FI S s) {l : EL} (a b : Nat) (c : Int) (p : BitVec 8)
    (hd : l ≠ .bdry → Flags.has p Flags.eOnBoundary = false ∨ (l = .front ∧ S a b c)) : FI S (s.addEdge l a b c p) := by
  intro l' hl' e he
  unfold addEdge upd at he ⊢
  dsimp only at he ⊢
  have old : e ∈ s.es l' → e < s.nxt + 1 ∧ (inner (if e = s.nxt then ⟨a, b, c, p, l, .null, .null, none⟩ else s.E e) = true ∨
      (l' = .front ∧ S (if e = s.nxt then (⟨a, b, c, p, l, .null, .null, none⟩ : EData) else s.E e).v1 (if e = s.nxt then (⟨a, b, c, p, l, .null, .null, none⟩ : EData) else s.E e).v2
        (if e = s.nxt then (⟨a, b, c, p, l, .null, .null, none⟩ : EData) else s.E e).color)) := by
    intro he
    obtain ⟨h1, h2⟩ := h l' hl' e he
    rw [if_neg (Nat.ne_of_lt h1)]
    exact ⟨Nat.lt_succ_of_lt h1, h2⟩
  by_cases hl : l' = l
  · rw [if_pos hl] at he
    rcases List.mem_append.mp he with he | he
    · exact old (hl ▸ he)
    · rw [List.mem_singleton] at he
      subst he
      rw [if_pos rfl]
      refine ⟨Nat.lt_succ_self _, ?_⟩
      subst hl
      exact (hd hl').imp (fun h => by unfold inner; dsimp only; rw [h]; rfl) id
  · rw [if_neg hl] at he
    exact old he

theorem fi_addIntr {s : St K} (h : FI S s) (a b : Nat) : FI S (s.addIntr a b) := fi_addEdge h _ _ _ _ fun _ => Or.inl (by decide)
theorem fi_addFront {s : St K} (h : FI S s) (a b : Nat) : FI S (addFront s a b) := fi_addEdge h _ _ _ _ fun _ => Or.inl (by decide)

theorem fi_keepEdge {s : St K} (h : FI S s) (e : Nat) : FI S (keepEdge s e) := by
  unfold keepEdge
  split_ifs
  · exact fi_addIntr h _ _
  · exact h

theorem fi_updateFrontState {s : St K} (h : FI S s) (v : Nat) : FI S (updateFrontState s v) := by
  unfold updateFrontState; split_ifs <;> exact h

theorem fi_advanceEdges {s : St K} (h : FI S s) (a b v : Nat) : FI S (advanceEdges s a b v) := by
  unfold advanceEdges
  split
  · exact fi_removeEdge (fi_removeEdge (fi_keepEdge (fi_keepEdge h _) _) _) _
  · exact fi_addFront (fi_removeEdge (fi_keepEdge h _) _) _ _
  · exact fi_addFront (fi_removeEdge (fi_keepEdge h _) _) _ _
  · exact fi_addFront (fi_addFront h _ _) _ _

theorem fi_advanceFront {s : St K} (h : FI S s) (base v t : Nat) : FI S (advanceFront s base v t) := by
  unfold advanceFront
  dsimp only
  have h2 := fi_updateFrontState (fi_updateFrontState (fi_updateFrontState (fi_advanceEdges h (s.E base).v1 (s.E base).v2 v) (s.E base).v1) (s.E base).v2) v
  split_ifs
  · exact fi_removeEdge (fi_addIntr h2 _ _) base
  · exact fi_removeEdge h2 base

theorem fi_createPossible {env : FU.Env K} {s : St K} (h : FI S s) (base : Nat) (xy : Pt K) (r : K) : FI S (createPossible env s base xy r).1 := by
  unfold createPossible
  generalize env.qVerts s xy r = l
  suffices ∀ acc : St K × List Nat, FI S acc.1 → FI S (l.foldl (tryVertex env (s.E base).v1 (s.E base).v2) acc).1 from this (s, []) h
  induction l with
  | nil => intro acc h; exact h
  | cons v l ih =>
    intro acc h
    rw [List.foldl_cons]
    apply ih
    unfold tryVertex
    dsimp only
    split_ifs
    · exact h
    · exact h
    · exact fi_addTri h _ _ _ _
    · exact fi_removeTri (fi_addTri h _ _ _ _) _

theorem fi_foldl {α : Type*} {f : St K → α → St K} (hf : ∀ s x, FI S s → FI S (f s x)) (l : List α) {s : St K} (h : FI S s) : FI S (l.foldl f s) := by
  induction l generalizing s with
  | nil => exact h
  | cons x l ih => exact ih (hf s x h)

theorem fi_updateFront {env : FU.Env K} {s : St K} (h : FI S s) (base : Nat) (np sp : Pt K) (r : K) : FI S (updateFront env s base np sp r).1 := by
  have h1 : FI S (createPossible env s base sp r).1 := fi_createPossible h base sp r
  unfold updateFront
  dsimp only
  split
  · rename_i s1 t hc
    have h2 : FI S s1 := by
      unfold chooseBest at hc
      split at hc
      · simp at hc
      · simp only [Option.some.injEq, Prod.mk.injEq] at hc
        rw [← hc.1]
        exact fi_foldl (f := St.removeTri) (fun s v h => fi_removeTri h v) _ h1
    split
    · exact fi_advanceFront h2 _ _ _
    · exact h2
  · split_ifs
    · exact fi_advanceFront (fi_addTri (fi_addVertex h1 np) _ _ _ _) _ _ _
    · exact fi_removeVertex (fi_removeTri (fi_addTri (fi_addVertex h1 np) _ _ _ _) _) _

theorem fi_toQuad {s : St K} (h : FI S s) (e t1 t2 a b p2 p1 : Nat) : FI S (toQuad s e t1 t2 a b p2 p1) := by
  unfold toQuad
  exact fi_addQuad (fi_removeTri (fi_removeTri (fi_removeIntr h e) t1) t2) a b p2 p1 (-1)

theorem fi_setup (eps : K) {s : St K} (hw : WF s) (h : FI S s) : FI S (setupConnectivity eps s) := by
  have b := setup_sbp eps hw
  intro l hl e he
  rw [b.es] at he
  obtain ⟨h1, h2⟩ := h l hl e he
  obtain ⟨e1, e2, -, e4, e5, -⟩ := b.ends e
  rw [b.nxt]
  refine ⟨h1, ?_⟩
  unfold inner at h2 ⊢
  rw [e1, e2, e4, e5]
  exact h2

theorem fi_init : ∀ (l : List Nat) {t : St K}, FI S t → (∀ e ∈ l, e < t.nxt ∧ (inner (t.E e) = true ∨ S (t.E e).v1 (t.E e).v2 (t.E e).color)) → FI S (l.foldl addFrontEdge t)
  | [], t, h, _ => h
  | e :: l, t, h, hl => by
    rw [List.foldl_cons]
    obtain ⟨h1, h2⟩ := hl e (by simp)
    refine fi_init l (fi_addEdge (fi_setProps (fi_setProps h _ _) _ _) _ _ _ _ fun _ => h2.imp (fun h => by unfold inner at h; simpa using h) fun h => ⟨rfl, h⟩) fun x hx => ?_
    obtain ⟨h3, h4⟩ := hl x (by simp [hx])
    unfold addFrontEdge addEdge setProps upd
    dsimp only
    rw [if_neg (Nat.ne_of_lt h3)]
    exact ⟨Nat.lt_succ_of_lt h3, h4⟩

theorem fi_start (eps : K) {s : St K} (hw : WF s) (h : FI S s) (hS : ∀ e ∈ s.es .bdry, S (s.E e).v1 (s.E e).v2 (s.E e).color) : FI S (startStep eps s) := by
  have b := setup_sbp eps hw
  have h1 := fi_setup eps hw h
  unfold startStep removeInvalid initFront
  refine fi_foldl (fun s e h => fi_removeIntr h e) _ (fi_init _ h1 fun e he => ?_)
  unfold frontEdges at he
  rcases List.mem_append.mp he with he | he
  · obtain ⟨h2, h3⟩ := h1 .intr (by decide) e (List.mem_of_mem_filter he)
    exact ⟨h2, h3.imp id fun h => absurd h.1 (by decide)⟩
  · have hm := List.mem_of_mem_filter he
    rw [b.es] at hm
    obtain ⟨e1, e2, -, e4, -⟩ := b.ends e
    rw [b.nxt, e1, e2, e4]
    exact ⟨((hw.ends _).2 e hm).2.2.2.2, Or.inr (hS e hm)⟩

theorem fi_finish {s : St K} (h : FI S s) : FI S (finishStep s) := by
  unfold finishStep clearFront addRemaining
  refine fi_foldl (fun s e h => fi_removeEdge h e) _ (fi_foldl (fun s e h => ?_) _ h)
  unfold addRemaining1
  dsimp only
  split_ifs
  · exact h
  · exact h
  · exact fi_addIntr (fi_setProps (fi_setProps h _ _) _ _) _ _

/-- The ends and the marker of a boundary edge. -/
def trip (s : St K) (a b : Nat) (c : Int) : Prop := ∃ x ∈ s.es .bdry, (s.E x).v1 = a ∧ (s.E x).v2 = b ∧ (s.E x).color = c

/-! ### Parts of boundary edges keep the marker -/

section
variable [IsStrictOrderedRing K]

/-- The boundary edges of `t` are parts of boundary edges of `s` with the same markers, and these parts cover the edges of `s`. -/
structure RimCut (s t : St K) : Prop where
  part : ∀ e ∈ t.es .bdry, ∃ b ∈ s.es .bdry, (t.E e).color = (s.E b).color ∧ OnClosed (s.pos (s.E b).v1) (s.pos (s.E b).v2) (t.pos (t.E e).v1) ∧
    OnClosed (s.pos (s.E b).v1) (s.pos (s.E b).v2) (t.pos (t.E e).v2)
  full : ∀ b ∈ s.es .bdry, ∀ z, OnClosed (s.pos (s.E b).v1) (s.pos (s.E b).v2) z →
    ∃ e ∈ t.es .bdry, (t.E e).color = (s.E b).color ∧ OnClosed (t.pos (t.E e).v1) (t.pos (t.E e).v2) z

theorem cut_trans {s t u : St K} (a : RimCut s t) (b : RimCut t u) : RimCut s u := by
  refine ⟨fun e he => ?_, fun e he z hz => ?_⟩
  · obtain ⟨x, hx, c1, p1, q1⟩ := b.part e he
    obtain ⟨y, hy, c2, p2, q2⟩ := a.part x hx
    exact ⟨y, hy, c1.trans c2, closed_trans p2 q2 p1, closed_trans p2 q2 q1⟩
  · obtain ⟨x, hx, c1, p1⟩ := a.full e he z hz
    obtain ⟨y, hy, c2, p2⟩ := b.full x hx z p1
    exact ⟨y, hy, c2.trans c1, p2⟩

/-- A point of a segment is on one side of another one. -/
theorem closed_cases {p q m z : Pt K} (hm : OnClosed p q m) (hz : OnClosed p q z) : OnClosed p m z ∨ OnClosed m q z := by
  obtain ⟨s, s0, s1, rfl⟩ := hm
  obtain ⟨t, t0, t1, rfl⟩ := hz
  rcases le_total t s with h | h
  · left
    rcases eq_or_lt_of_le s0 with h0 | h0
    · have : t = 0 := le_antisymm (by rw [h0]; exact h) t0
      subst this; rw [← h0]
      exact ⟨0, le_refl _, zero_le_one, by apply Pt.ext' <;> simp [GeoSpec.onSeg]⟩
    · refine ⟨t / s, div_nonneg t0 s0, (div_le_one h0).mpr h, ?_⟩
      apply Pt.ext' <;> simp only [GeoSpec.onSeg] <;> field_simp <;> ring
  · right
    rcases eq_or_lt_of_le s1 with h1 | h1
    · have : t = 1 := le_antisymm t1 (by rw [← h1]; exact h)
      subst this; rw [h1]
      exact ⟨0, le_refl _, zero_le_one, by apply Pt.ext' <;> simp [GeoSpec.onSeg]⟩
    · have h1' : 0 < 1 - s := by linarith
      refine ⟨(t - s) / (1 - s), div_nonneg (by linarith) h1'.le, (div_le_one h1').mpr (by linarith), ?_⟩
      have := h1'.ne'
      apply Pt.ext' <;> simp only [GeoSpec.onSeg] <;> field_simp <;> ring

/-- The boundary edges are kept with their markers. -/
def RimCol (s t : St K) : Prop := RimSame s t ∧ ∀ e ∈ s.es .bdry, (t.E e).color = (s.E e).color

theorem rcol_refl (s : St K) : RimCol s s := ⟨same_refl s, fun _ _ => rfl⟩
theorem rcol_trans {s t u : St K} (a : RimCol s t) (b : RimCol t u) : RimCol s u :=
  ⟨same_trans a.1 b.1, fun e he => (b.2 e (by rw [a.1.1]; exact he)).trans (a.2 e he)⟩

theorem rcol_cut {s t : St K} (h : RimCol s t) : RimCut s t := by
  refine ⟨fun e he => ?_, fun e he z hz => ?_⟩
  · rw [h.1.1] at he
    obtain ⟨h1, h2, -, h4, h5⟩ := h.1.2 e he
    refine ⟨e, he, h.2 e he, ?_, ?_⟩
    · rw [h1, h4]; exact closed_left _ _
    · rw [h2, h5]; exact closed_right _ _
  · obtain ⟨h1, h2, -, h4, h5⟩ := h.1.2 e he
    refine ⟨e, by rw [h.1.1]; exact he, h.2 e he, ?_⟩
    rw [h1, h2, h4, h5]; exact hz

theorem cut_refl (s : St K) : RimCut s s := rcol_cut (rcol_refl s)

theorem rcol_trip {s t : St K} (h : RimCol s t) {a b : Nat} {c : Int} (ht : trip s a b c) : trip t a b c := by
  obtain ⟨x, hx, h1, h2, h3⟩ := ht
  obtain ⟨k1, k2, -⟩ := h.1.2 x hx
  exact ⟨x, by rw [h.1.1]; exact hx, k1.trans h1, k2.trans h2, (h.2 x hx).trans h3⟩

theorem rcol_of {s t : St K} (h : WF s) (hb : t.es .bdry = s.es .bdry) (hE : ∀ e ∈ s.es .bdry, t.E e = s.E e)
    (hp : ∀ v ∈ s.verts, t.pos v = s.pos v) : RimCol s t := ⟨same_of h hb hE hp, fun e he => by rw [hE e he]⟩

theorem rcol_adv {s : St K} (h : WF s) {base v t : Nat} (hb : base ∈ s.es .front) (hv : v ∈ s.verts) (n1 : v ≠ (s.E base).v1)
    (n2 : v ≠ (s.E base).v2) : RimCol s (advanceFront s base v t) := by
  have A := advanceFront_spec h t hb hv n1 n2
  exact rcol_of h (advanceFront_bdry h t hb hv n1 n2) (fun e he => A.E e ((h.ends _).2 e he).2.2.2.2) fun v _ => A.pos v

theorem rcol_frame {s t : St K} (h : WF s) (f : Frame s t) : RimCol s t := ⟨same_frame h f, fun e he => by rw [f.E e he]⟩

theorem meshing_once {s : St K} (h : Meshing s) : (pairs s .front).Nodup ∧ (pairs s .bdry).Nodup := by
  have key : ∀ l a b, (a, b) ∈ pairs s l → a ≠ b := by
    intro l a b hm
    obtain ⟨e, he, heq⟩ := List.mem_map.mp hm
    simp only [Prod.mk.injEq] at heq
    rw [← heq.1, ← heq.2]
    exact ((h.wf.ends _).2 e he).2.2.2.1
  constructor <;> rw [List.nodup_iff_count_le_one] <;> rintro ⟨a, b⟩
  · by_cases hm : (a, b) ∈ pairs s .front
    · have := (meshing_numbers h (key _ a b hm)).f1
      omega
    · rw [List.count_eq_zero.mpr hm]; exact Nat.zero_le _
  · by_cases hm : (a, b) ∈ pairs s .bdry
    · have := (meshing_numbers h (key _ a b hm)).b1
      omega
    · rw [List.count_eq_zero.mpr hm]; exact Nat.zero_le _

/-- Cutting a boundary edge. -/
theorem cut_split {s s' : St K} (h : Meshing s) (hf : FI (trip s) s) {e n : Nat} {sf : K} (hm : e ∈ s.es .front) (hsp : QL.split s e sf = some (s', n))
    (hbd : (s.getEdge .bdry (s.E e).v1 (s.E e).v2).isSome = true) : RimCut s s' ∧ FI (trip s') s' := by
  obtain ⟨b, hb⟩ := Option.isSome_iff_exists.mp hbd
  obtain ⟨hbm, d1, d2, hin⟩ := front_on_bdry h hm hb
  obtain ⟨hnx, k, -, hpn, s0, s1, -⟩ := split_spec h.wf hm hsp
  have S := split_edges h.wf hm hsp hb
  have uniq : ∀ x ∈ s.es .bdry, (s.E x).v1 = (s.E b).v1 → (s.E x).v2 = (s.E b).v2 → x = b := by
    intro x hx e1 e2
    have hnd := (meshing_once h).2
    unfold pairs at hnd
    exact List.inj_on_of_nodup_map hnd hx hbm (by simp only [e1, e2])
  have hcol : (s.E e).color = (s.E b).color := by
    rcases (hf .front (by decide) e hm).2 with hi | ⟨-, x, hx, x1, x2, x3⟩
    · unfold isInterior at hin
      unfold inner at hi
      rw [hi] at hin
      exact absurd hin (by decide)
    · rw [← x3, uniq x hx (x1.trans d1.symm) (x2.trans d2.symm)]
  have hE : ∀ x ∈ s.es .bdry, s'.E x = s.E x := fun x hx => S.E x (Nat.le_of_lt ((h.wf.ends _).2 x hx).2.2.2.2)
  have hpos : ∀ x ∈ s.es .bdry, s'.pos (s.E x).v1 = s.pos (s.E x).v1 ∧ s'.pos (s.E x).v2 = s.pos (s.E x).v2 := by
    intro x hx
    have := (h.wf.ends _).2 x hx
    exact ⟨k.pos _ this.2.1, k.pos _ this.2.2.1⟩
  have hmem : ∀ x, x ∈ s'.es .bdry ↔ (x ∈ s.es .bdry ∧ x ≠ b) ∨ x = s.nxt + 3 ∨ x = s.nxt + 4 := by
    intro x
    rw [S.bdry]
    simp only [List.mem_append, List.mem_filter, decide_eq_true_eq, List.mem_cons, List.not_mem_nil, or_false]
  have hon : OnClosed (s.pos (s.E b).v1) (s.pos (s.E b).v2) (s'.pos s.nxt) := by
    rw [← hnx, hpn, d1, d2]
    refine ⟨1 - sf, by linarith, by linarith, ?_⟩
    apply Pt.ext' <;> simp [GeoSpec.onSeg, Pt.smul] <;> ring
  obtain ⟨pb1, pb2⟩ := hpos b hbm
  refine ⟨⟨fun x hx => ?_, fun x hx z hz => ?_⟩, fun l hl x hx => ?_⟩
  · rcases (hmem x).mp hx with ⟨hx, -⟩ | rfl | rfl
    · obtain ⟨p1, p2⟩ := hpos x hx
      refine ⟨x, hx, by rw [hE x hx], ?_⟩
      rw [hE x hx, p1, p2]
      exact ⟨closed_left _ _, closed_right _ _⟩
    · refine ⟨b, hbm, by rw [S.e3]; exact hcol, ?_⟩
      rw [S.e3]
      dsimp only
      rw [← d1, pb1]
      exact ⟨closed_left _ _, hon⟩
    · refine ⟨b, hbm, by rw [S.e4]; exact hcol, ?_⟩
      rw [S.e4]
      dsimp only
      rw [← d2, pb2]
      exact ⟨hon, closed_right _ _⟩
  · by_cases hxb : x = b
    · subst hxb
      rcases closed_cases hon hz with hz | hz
      · refine ⟨s.nxt + 3, (hmem _).mpr (by simp), by rw [S.e3]; exact hcol, ?_⟩
        rw [S.e3]
        dsimp only
        rw [← d1, pb1]
        exact hz
      · refine ⟨s.nxt + 4, (hmem _).mpr (by simp), by rw [S.e4]; exact hcol, ?_⟩
        rw [S.e4]
        dsimp only
        rw [← d2, pb2]
        exact hz
    · obtain ⟨p1, p2⟩ := hpos x hx
      refine ⟨x, (hmem x).mpr (Or.inl ⟨hx, hxb⟩), by rw [hE x hx], ?_⟩
      rw [hE x hx, p1, p2]
      exact hz
  · have hlt := ((k.wf.ends _).2 x hx).2.2.2.2
    refine ⟨hlt, ?_⟩
    clear hlt
    cases l with
    | bdry => exact absurd rfl hl
    | intr =>
      rw [S.intr] at hx
      obtain ⟨h1, h2⟩ := hf .intr (by decide) x hx
      rw [S.E x (Nat.le_of_lt h1)]
      exact Or.inl (h2.resolve_right fun h => absurd h.1 (by decide))
    | front =>
      rw [S.front] at hx
      obtain ⟨hx1, hx2⟩ := List.mem_filter.mp hx
      simp only [decide_eq_true_eq] at hx2
      rcases List.mem_append.mp hx1 with hx1 | hx1
      · obtain ⟨h1, h2⟩ := hf .front (by decide) x hx1
        rw [S.E x (Nat.le_of_lt h1)]
        refine h2.imp id ?_
        rintro ⟨-, y, hy, y1, y2, y3⟩
        refine ⟨rfl, y, (hmem y).mpr (Or.inl ⟨hy, ?_⟩), ?_⟩
        · rintro rfl
          apply hx2
          have hnd := (meshing_once h).1
          unfold pairs at hnd
          exact List.inj_on_of_nodup_map hnd hx1 hm (by simp only [← y1, ← y2, d1, d2])
        · rw [hE y hy]; exact ⟨y1, y2, y3⟩
      · simp only [List.mem_cons, List.not_mem_nil, or_false] at hx1
        rcases hx1 with rfl | rfl
        · rw [S.e1]
          exact Or.inr ⟨rfl, s.nxt + 3, (hmem _).mpr (by simp), by rw [S.e3], by rw [S.e3], by rw [S.e3]⟩
        · rw [S.e2]
          exact Or.inr ⟨rfl, s.nxt + 4, (hmem _).mpr (by simp), by rw [S.e4], by rw [S.e4], by rw [S.e4]⟩

variable {L : LEnv K} (he : 0 < L.env.eps) (hq : QueryExact L.env) (hso : SortOK L.env)
  (hn : ∀ p, 0 ≤ L.env.norm p ∧ Pt.normSq p ≤ L.env.norm p * L.env.norm p)
include he hq hso hn

theorem rcol_update {s s' : St K} (h : WF s) {base t v : Nat} {np sp : Pt K} {r : K} (hb : base ∈ s.es .front)
    (hu : updateFront L.env s base np sp r = (s', some t)) (hv : (s'.F (.tri t)).corners[2]? = some v) : RimCol s s' :=
  rcol_frame h (run_frame he (queryExact_live hq) hso h (.update .start hb hu hv)).2

theorem cut_step {s s' : St K} {l : List (Ev K)} (h : Meshing s) (st : LStep L s l s') (fine : ∀ x ∈ l, Fine L.env x)
    (hf : FI (trip s) s) : RimCut s s' ∧ FI (trip s') s' := by
  have hql : QueryLive L.env := queryExact_live hq
  have fin : ∀ {u : St K}, FI (trip s) u → RimCol s u → RimCut s u ∧ FI (trip u) u := fun f k => ⟨rcol_cut k, fi_mono f fun _ _ _ => rcol_trip k⟩
  cases st with
  | @fail _ base np sp r hb hu =>
    have ho := updateFront_outcome he hql hso h.wf hb np sp r
    rw [hu] at ho
    cases ho with
    | fail same wf _ =>
      exact fin (by have := fi_updateFront (env := L.env) hf base np sp r; rw [hu] at this; exact this) (rcol_of h.wf (by rw [same.es]) (fun e _ => by rw [same.edata]) fun v hv => by unfold pos; rw [same.vdata v hv])
  | @tri _ base np sp r t v hb hu hv => exact fin (by have := fi_updateFront (env := L.env) hf base np sp r; rw [hu] at this; exact this) (rcol_update he hq hso hn h.wf hb hu hv)
  | @quad s1 s2 base np sp r t1 q1 dg np' sp' r' t2 q2 er hb hu1 hq1 hdg hu2 hq2 her =>
    obtain ⟨v', d1⟩ := updateFront_done he hql hso h.wf hb hu1
    have : v' = q1 := by rw [d1.cor] at hq1; simpa using hq1
    subst this
    obtain ⟨hdm, -⟩ := getEdge_some d1.wf d1.vmem hdg
    obtain ⟨v'', d2⟩ := updateFront_done he hql hso d1.wf hdm hu2
    have hm2 : (s.E base).v2 ∈ s2.verts := d2.verts _ (d1.verts _ ((h.wf.ends _).2 base hb).2.2.1)
    obtain ⟨herm, -⟩ := getEdge_some d2.wf hm2 her
    have hl : (s2.E er).list = .intr := ((d2.wf.ends _).2 er herm).1
    have hi : s2.removeIntr er = s2.removeEdge er := by unfold removeIntr; simp [hl]
    refine fin (fi_toQuad (by have := fi_updateFront (env := L.env) (by have := fi_updateFront (env := L.env) hf base np sp r; rw [hu1] at this; exact this) dg np' sp' r'; rw [hu2] at this; exact this) _ _ _ _ _ _ _) (rcol_trans (rcol_update he hq hso hn h.wf hb hu1 hq1) (rcol_trans (rcol_update he hq hso hn d1.wf hdm hu2 hq2)
      (rcol_of d2.wf ?_ ?_ ?_)))
    · have : ((s2.removeEdge er).es .bdry) = s2.es .bdry := by simp [removeEdge, upd, hl]
      unfold toQuad
      rw [hi]
      exact this
    · intro e _
      unfold toQuad
      rw [hi]
      rfl
    · intro v _
      unfold toQuad
      rw [hi]
      show ((((s2.removeEdge er).removeTri t1).removeTri t2).addQuad _ _ _ _ (-1)).pos v = _
      rw [addQuad_pos, removeTri_pos, removeTri_pos, (ext_removeEdge s2 er).pos]
  | gapFail hnd ha hb hc =>
    exact fin (fi_removeTri (fi_addTri hf _ _ _ _) _) (rcol_of h.wf rfl (fun _ _ => rfl) fun v _ => by rw [removeTri_pos, addTri_pos])
  | @gap a b c e hnd ha hb hc hv hg =>
    have w1 := wf_addTri h.wf (-1) ha hb hc hnd
    obtain ⟨hm, hd⟩ := getEdge_some w1 (show b ∈ (s.addTri a b c (-1)).verts from hb) hg
    simp only [List.nodup_cons, List.mem_cons, List.not_mem_nil, or_false, not_or] at hnd
    have A := rcol_adv w1 (t := s.nxt) hm (v := a) ha
      (by rcases hd with ⟨x, y⟩ | ⟨x, y⟩ <;> (first | rw [x] | rw [y]) <;> (first | exact hnd.1.1 | exact hnd.1.2))
      (by rcases hd with ⟨x, y⟩ | ⟨x, y⟩ <;> (first | rw [x] | rw [y]) <;> (first | exact hnd.1.1 | exact hnd.1.2))
    exact fin (fi_advanceFront (fi_addTri hf _ _ _ _) _ _ _) (rcol_trans (t := s.addTri a b c (-1)) (rcol_of h.wf rfl (fun _ _ => rfl) fun v _ => by rw [addTri_pos]) A)
  | @gap2Fail a b c p hnd ha hb hc =>
    have k := kept_gap2Fail h.wf p hnd ha hb hc
    exact fin (fi_removeVertex (fi_removeTri (fi_removeTri (fi_addTri (fi_addTri (fi_addVertex hf _) _ _ _ _) _ _ _ _) _) _) _) (rcol_of h.wf rfl (fun _ _ => rfl) k.pos)
  | @gap2 s1 a b c e1 e2 p hnd ha hb hc hs1 hv1 hv2 hg1 hg2 =>
    simp only [List.nodup_cons, List.mem_cons, List.not_mem_nil, or_false, not_or] at hnd
    have na : a ≠ s.nxt := Nat.ne_of_lt (h.wf.vlt a ha)
    have nb : b ≠ s.nxt := Nat.ne_of_lt (h.wf.vlt b hb)
    have nc : c ≠ s.nxt := Nat.ne_of_lt (h.wf.vlt c hc)
    have k0 := kept_addVertex h.wf p
    have vm : s.nxt ∈ (s.addVertex p).verts := by simp [addVertex]
    have k1 : WF ((s.addVertex p).addTri a b s.nxt (-1)) := by
      refine wf_addTri k0.wf (-1) (List.mem_append_left _ ha) (List.mem_append_left _ hb) vm ?_
      simp only [List.nodup_cons, List.mem_cons, List.not_mem_nil, or_false, not_or]
      exact ⟨⟨hnd.1.1, na⟩, nb, not_false, List.nodup_nil⟩
    have w1 : WF s1 := by
      rw [hs1]
      refine wf_addTri k1 (-1) (List.mem_append_left _ hb) (List.mem_append_left _ hc) vm ?_
      simp only [List.nodup_cons, List.mem_cons, List.not_mem_nil, or_false, not_or]
      exact ⟨⟨hnd.2.1, nb⟩, nc, not_false, List.nodup_nil⟩
    have fs1 : FI (trip s) s1 := by rw [hs1]; exact fi_addTri (fi_addTri (fi_addVertex hf _) _ _ _ _) _ _ _ _
    have kk : RimCol s s1 := by
      refine rcol_of h.wf (by rw [hs1]; rfl) (fun e _ => by rw [hs1]; rfl) fun v hv => ?_
      rw [hs1, addTri_pos, addTri_pos]
      exact k0.pos v hv
    have hvt : s1.verts = s.verts ++ [s.nxt] := by rw [hs1]; rfl
    have ha1 : a ∈ s1.verts := by rw [hvt]; exact List.mem_append_left _ ha
    have hb1 : b ∈ s1.verts := by rw [hvt]; exact List.mem_append_left _ hb
    have hv1 : s.nxt ∈ s1.verts := by rw [hvt]; simp
    clear hs1 k0 k1 vm fine
    obtain ⟨he1, d1⟩ := getEdge_some w1 ha1 hg1
    have n1 : s.nxt ≠ (s1.E e1).v1 := by rcases d1 with ⟨x, y⟩ | ⟨x, y⟩ <;> (first | rw [x] | rw [y]) <;> (first | exact Ne.symm na | exact Ne.symm nb)
    have n2 : s.nxt ≠ (s1.E e1).v2 := by rcases d1 with ⟨x, y⟩ | ⟨x, y⟩ <;> (first | rw [x] | rw [y]) <;> (first | exact Ne.symm na | exact Ne.symm nb)
    have A1 := advanceFront_spec w1 (s.nxt + 1) he1 (v := s.nxt) hv1 n1 n2
    obtain ⟨he2, d2⟩ := getEdge_some A1.wf (by rw [A1.verts]; exact hb1) hg2
    exact fin (fi_advanceFront (fi_advanceFront fs1 _ _ _) _ _ _) (rcol_trans kk (rcol_trans (rcol_adv w1 he1 hv1 n1 n2) (rcol_adv A1.wf he2 (by rw [A1.verts]; exact hv1)
      (by rcases d2 with ⟨x, y⟩ | ⟨x, y⟩ <;> (first | rw [x] | rw [y]) <;> (first | exact Ne.symm nb | exact Ne.symm nc))
      (by rcases d2 with ⟨x, y⟩ | ⟨x, y⟩ <;> (first | rw [x] | rw [y]) <;> (first | exact Ne.symm nb | exact Ne.symm nc)))))
  | @split _ e sf n hm hsp =>
    exact cut_split h hf hm hsp (fine _ (List.mem_singleton.mpr rfl))
  | move hv => exact absurd (fine _ (List.mem_singleton.mpr rfl)) (by simp [Fine])
  | mark =>
    exact fin (fi_setProps hf _ _) (rcol_of h.wf rfl (fun _ _ => rfl) fun v _ => by unfold setProps pos upd; dsimp only; split_ifs <;> rfl)


theorem cut_lrun {s0 s : St K} {log : List (Ev K)} (h : Meshing s0) (r : LRun L s0 log s) (f : ∀ x ∈ log, Fine L.env x)
    (hf : FI (trip s0) s0) : RimCut s0 s ∧ FI (trip s) s := by
  induction r with
  | start => exact ⟨cut_refl _, hf⟩
  | step hr st ih =>
    have f1 := fun x hx => f x (List.mem_append_left _ hx)
    obtain ⟨k, k2⟩ := ih f1
    obtain ⟨k3, k4⟩ := cut_step he hq hso hn (fine_good he hq hso hn h hr f1).1 st (fun x hx => f x (List.mem_append_right _ hx)) k2
    exact ⟨cut_trans k k3, k4⟩

theorem rcol_finish {s : St K} (h : Meshing s) : WF (finishStep s) ∧ RimCol s (finishStep s) := by
  obtain ⟨new, R⟩ := MC.rinv_all (meshing_remaining h).1
  obtain ⟨c1, c2, -, c4, c5, -⟩ := MC.clearFront_spec R.wf
  refine ⟨c1, rcol_of h.wf ((c4 .bdry (by decide)).trans R.bdry) (fun e hx => ?_) fun v _ => (c2.pos v).trans (R.se.pos v)⟩
  show (clearFront (addRemaining s)).E e = _
  rw [c5]
  exact R.old e ((h.wf.ends _).2 e hx).2.2.2.2

omit he hq hso hn in
theorem rcol_start (eps : K) {s : St K} (h : WF s) : RimCol s (startStep eps s) := by
  refine ⟨same_start eps h, ?_⟩
  have b := setup_sbp eps h
  have key : ∀ (l : List Nat) (t : St K), s.nxt ≤ t.nxt → (∀ x < s.nxt, (t.E x).color = (s.E x).color) →
      s.nxt ≤ (l.foldl addFrontEdge t).nxt ∧ ∀ x < s.nxt, ((l.foldl addFrontEdge t).E x).color = (s.E x).color := by
    intro l
    induction l with
    | nil => intro t h1 h2; exact ⟨h1, h2⟩
    | cons e l ih =>
      intro t h1 h2
      rw [List.foldl_cons]
      refine ih _ (le_trans h1 (Nat.le_succ _)) fun x hx => ?_
      unfold addFrontEdge addEdge setProps upd
      dsimp only
      rw [if_neg (by omega)]
      exact h2 x hx
  have rem : ∀ (l : List Nat) (t : St K), (l.foldl removeIntr t).E = t.E := by
    intro l
    induction l with
    | nil => intro t; rfl
    | cons e l ih =>
      intro t
      rw [List.foldl_cons, ih]
      unfold removeIntr
      split_ifs <;> rfl
  intro e he
  unfold startStep removeInvalid initFront
  rw [rem]
  exact (key _ _ (le_of_eq b.nxt.symm) fun x _ => (b.ends x).2.2.2.1).2 e ((h.ends _).2 e he).2.2.2.2

/-- Sets of quad layers keep the markers. -/
theorem cut_layerAll {fuel : Nat} {s0 : St K} (h0 : Bare s0) : ∀ {ds : List (LayerDef K)} {s t : St K}, Staged L s0 s → WF s →
    LayersFine L fuel ds s → FI (trip s) s → layerAll L fuel ds s = some t → RimCut s t
  | [], s, t, hs, _, _, _, h => by
    simp only [layerAll, Option.some.injEq] at h
    rw [← h]; exact cut_refl _
  | d :: ds, s, t, hs, hw, hf, hi, h => by
    simp only [layerAll, Option.bind_eq_some_iff] at h
    obtain ⟨r, h1, h2⟩ := h
    unfold QL.generate at h1
    unfold LayersFine at hf
    by_cases hb : (s.es .bdry).length < 1
    · rw [if_pos hb] at h1 hf
      simp only [Option.some.injEq] at h1
      rw [← h1] at h2
      exact cut_layerAll h0 hs hw hf hi h2
    · rw [if_neg hb] at h1 hf
      simp only [Option.map_eq_some_iff] at h1
      obtain ⟨r', h3, rfl⟩ := h1
      have hwk : Work L s0 r'.1 := .layers (staged_start hs) h3 hf.1
      have hm := (work_inv he hq hso hn h0 hwk).mesh
      have hm0 := (work_inv he hq hso hn h0 (staged_start hs)).mesh
      have k1 := rcol_start L.env.eps hw
      have f1 : FI (trip (startStep L.env.eps s)) (startStep L.env.eps s) :=
        fi_mono (fi_start L.env.eps hw hi fun e he => ⟨e, he, rfl, rfl, rfl⟩) fun _ _ _ => rcol_trip k1
      have hr := (layers_tracks (R := regFine he hq hso hn) he (queryExact_live hq) hso _ hm0 h3 hf.1).1
      obtain ⟨k2, f2⟩ := cut_lrun he hq hso hn hm0 hr hf.1 f1
      obtain ⟨w3, k3⟩ := rcol_finish he hq hso hn hm
      have f3 : FI (trip (finishStep r'.1)) (finishStep r'.1) := fi_mono (fi_finish f2) fun _ _ _ => rcol_trip k3
      exact cut_trans (rcol_cut k1) (cut_trans k2 (cut_trans (rcol_cut k3)
        (cut_layerAll h0 (.left hwk (hf.2 _ h3).1) w3 (hf.2 _ h3).2 f3 h2)))

end

end TQ.Whole
