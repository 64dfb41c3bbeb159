import Verif.Cleanup.Merge

/-! # Lemmas: removal of vertices of degree three -/

set_option linter.unusedSectionVars false
set_option linter.unusedSimpArgs false

namespace TQ.MC
open TQ TQ.MS TQ.MeshSpec TQ.MCSpec MS.St
variable {K : Type*} [Field K] [LinearOrder K]

/-! ### The star of a vertex -/

/-- A triangle with the corner `v`. -/
theorem rot3_of_corner {s : St K} (h : WF s) {t v : Nat} (ht : t ∈ s.tris) (hv : v ∈ (s.F (.tri t)).corners) :
    ∃ a b, Rot3 (s.F (.tri t)).corners v a b ∧ [v, a, b].Nodup ∧ a ∈ s.verts ∧ b ∈ s.verts ∧ succCorner (s.F (.tri t)) v = some a := by
  have hlen := h.tcor t ht
  obtain ⟨hn, hc⟩ := h.cor (.tri t) ht
  unfold succCorner vertexIndex
  match hcs : (s.F (.tri t)).corners, hlen with
  | [x, y, z], _ =>
    rw [hcs] at hv hn hc
    have hxy : x ≠ y ∧ x ≠ z ∧ y ≠ z := by simp at hn; tauto
    simp at hv
    rcases hv with rfl | rfl | rfl
    · refine ⟨y, z, Or.inl rfl, by simp; tauto, hc _ (by simp), hc _ (by simp), ?_⟩
      simp [List.idxOf?, List.findIdx?_cons]
    · refine ⟨z, x, Or.inr (Or.inr rfl), by simp; tauto, hc _ (by simp), hc _ (by simp), ?_⟩
      have h1 : (x == v) = false := by simp [hxy.1]
      simp [List.idxOf?, List.findIdx?_cons, h1]
    · refine ⟨x, y, Or.inr (Or.inl rfl), by simp; tauto, hc _ (by simp), hc _ (by simp), ?_⟩
      have h1 : (x == v) = false := by simp [hxy.2.1]
      have h2 : (y == v) = false := by simp [hxy.2.2]
      simp [List.idxOf?, List.findIdx?_cons, h1, h2]

/-- Three predecessors among three successors, without fixed point. -/
theorem derange {v0 v1 v2 p0 p1 p2 : Nat} (q0 : p0 = v0 ∨ p0 = v1 ∨ p0 = v2) (q1 : p1 = v0 ∨ p1 = v1 ∨ p1 = v2)
    (q2 : p2 = v0 ∨ p2 = v1 ∨ p2 = v2) (d0 : v0 ≠ p0) (d1 : v1 ≠ p1) (d2 : v2 ≠ p2) (n1 : p0 ≠ p1) (n2 : p0 ≠ p2) (n3 : p1 ≠ p2) :
    (p0 = v1 ∧ p1 = v2 ∧ p2 = v0) ∨ (p0 = v2 ∧ p1 = v0 ∧ p2 = v1) := by
  rcases q0 with rfl | rfl | rfl
  · exact absurd rfl d0
  · rcases q1 with rfl | rfl | rfl
    · rcases q2 with rfl | rfl | rfl
      · exact absurd rfl n3
      · exact absurd rfl n2
      · exact absurd rfl d2
    · exact absurd rfl n1
    · rcases q2 with rfl | rfl | rfl
      · exact Or.inl ⟨rfl, rfl, rfl⟩
      · exact absurd rfl n2
      · exact absurd rfl d2
  · rcases q1 with rfl | rfl | rfl
    · rcases q2 with rfl | rfl | rfl
      · exact absurd rfl n3
      · exact Or.inr ⟨rfl, rfl, rfl⟩
      · exact absurd rfl n2
    · exact absurd rfl d1
    · exact absurd rfl n1

/-- Three different members of a list of three are all of it. -/
theorem mem_three {x0 x1 x2 e0 e1 e2 : Nat} (h0 : e0 ∈ [x0, x1, x2]) (h1 : e1 ∈ [x0, x1, x2]) (h2 : e2 ∈ [x0, x1, x2])
    (n1 : e0 ≠ e1) (n2 : e0 ≠ e2) (n3 : e1 ≠ e2) (e : Nat) : e ∈ [x0, x1, x2] ↔ e = e0 ∨ e = e1 ∨ e = e2 := by
  simp at h0 h1 h2 ⊢
  omega

/-- The triangles around `v`, in the order of the facet list. -/
structure Star (s : St K) (v t0 t1 t2 v0 v1 v2 e0 e1 e2 : Nat) : Prop where
  facets : (s.V v).facets = [.tri t0, .tri t1, .tri t2]
  live : t0 ∈ s.tris ∧ t1 ∈ s.tris ∧ t2 ∈ s.tris
  succ : succCorner (s.F (.tri t0)) v = some v0 ∧ succCorner (s.F (.tri t1)) v = some v1 ∧ succCorner (s.F (.tri t2)) v = some v2
  mem : v0 ∈ s.verts ∧ v1 ∈ s.verts ∧ v2 ∈ s.verts
  nd : [v, v0, v1, v2].Nodup
  edges : ∀ e, e ∈ (s.V v).edges ↔ e = e0 ∨ e = e1 ∨ e = e2
  intr : e0 ∈ s.es .intr ∧ e1 ∈ s.es .intr ∧ e2 ∈ s.es .intr
  con : Connects s e0 v v0 ∧ Connects s e1 v v1 ∧ Connects s e2 v v2
  shape : (Rot3 (s.F (.tri t0)).corners v v0 v1 ∧ Rot3 (s.F (.tri t1)).corners v v1 v2 ∧ Rot3 (s.F (.tri t2)).corners v v2 v0) ∨
    (Rot3 (s.F (.tri t0)).corners v v0 v2 ∧ Rot3 (s.F (.tri t1)).corners v v1 v0 ∧ Rot3 (s.F (.tri t2)).corners v v2 v1)
  color : (s.F (.tri t1)).color = (s.F (.tri t0)).color ∧ (s.F (.tri t2)).color = (s.F (.tri t0)).color

theorem star_of_bad {s : St K} (h : Proper s) {v : Nat} (hv : v ∈ s.verts) (hb : isBad s v = true) :
    ∃ t0 t1 t2 v0 v1 v2 e0 e1 e2, Star s v t0 t1 t2 v0 v1 v2 e0 e1 e2 := by
  have w := h.wf
  obtain ⟨hfn, hfm⟩ := w.facets v hv
  obtain ⟨hep, hem⟩ := w.edges v hv
  unfold isBad at hb
  match hf : (s.V v).facets, he : (s.V v).edges with
  | [f0, f1, f2], [x0, x1, x2] =>
    rw [hf, he] at hb
    simp only [Bool.and_eq_true, decide_eq_true_eq] at hb
    obtain ⟨-, ⟨⟨⟨n0, n1⟩, n2⟩, c1⟩, c2⟩ := hb
    have tri : ∀ f, f ∈ (s.V v).facets → nVerts s f = 3 → ∃ t, f = .tri t ∧ t ∈ s.tris ∧ v ∈ (s.F (.tri t)).corners := by
      intro f hfm' hn
      obtain ⟨a, b⟩ := (hfm f).mp hfm'
      cases f with
      | null => exact absurd a (by simp [Live])
      | tri t => exact ⟨t, rfl, a, b⟩
      | quad q => have := w.qcor q a; unfold nVerts at hn; omega
    obtain ⟨t0, rfl, l0, m0⟩ := tri f0 (by rw [hf]; simp) n0
    obtain ⟨t1, rfl, l1, m1⟩ := tri f1 (by rw [hf]; simp) n1
    obtain ⟨t2, rfl, l2, m2⟩ := tri f2 (by rw [hf]; simp) n2
    obtain ⟨v0, p0, r0, d0, a0, b0, s0⟩ := rot3_of_corner w l0 m0
    obtain ⟨v1, p1, r1, d1, a1, b1, s1⟩ := rot3_of_corner w l1 m1
    obtain ⟨v2, p2, r2, d2, a2, b2, s2⟩ := rot3_of_corner w l2 m2
    rw [hf] at hfn
    have tne : t0 ≠ t1 ∧ t0 ≠ t2 ∧ t1 ≠ t2 := by
      simp at hfn; tauto
    have so : ∀ {t a b}, Rot3 (s.F (.tri t)).corners v a b → HasSide s (.tri t) v a ∧ HasSide s (.tri t) b v := by
      intro t a b hr
      exact ⟨(rot3_side hr _ _).mpr (Or.inl rfl), (rot3_side hr _ _).mpr (Or.inr (Or.inr rfl))⟩
    have dv : ∀ {t t' a b}, t ∈ s.tris → t' ∈ s.tris → HasSide s (.tri t) a b → HasSide s (.tri t') a b → t = t' := by
      intro t t' a b h1 h2 h3 h4
      have := h.dir _ _ _ _ (show Live s (.tri t) from h1) (show Live s (.tri t') from h2) h3 h4
      simpa using this
    have ne01 : v0 ≠ v1 := fun hh => tne.1 (dv l0 l1 (so r0).1 (hh ▸ (so r1).1))
    have ne02 : v0 ≠ v2 := fun hh => tne.2.1 (dv l0 l2 (so r0).1 (hh ▸ (so r2).1))
    have ne12 : v1 ≠ v2 := fun hh => tne.2.2 (dv l1 l2 (so r1).1 (hh ▸ (so r2).1))
    have pn01 : p0 ≠ p1 := fun hh => tne.1 (dv l0 l1 (so r0).2 (hh ▸ (so r1).2))
    have pn02 : p0 ≠ p2 := fun hh => tne.2.1 (dv l0 l2 (so r0).2 (hh ▸ (so r2).2))
    have pn12 : p1 ≠ p2 := fun hh => tne.2.2 (dv l1 l2 (so r1).2 (hh ▸ (so r2).2))
    have edge : ∀ {t a}, t ∈ s.tris → (HasSide s (.tri t) v a ∨ HasSide s (.tri t) a v) →
        ∃ e ∈ (s.V v).edges, Connects s e v a := by
      intro t a ht hs
      have : ∃ e, (e ∈ s.es .intr ∨ e ∈ s.es .bdry) ∧ Connects s e v a := by
        rcases hs with hs | hs
        · exact h.sides v a ⟨.tri t, ht, hs⟩
        · obtain ⟨e, e1, e2⟩ := h.sides a v ⟨.tri t, ht, hs⟩
          exact ⟨e, e1, e2.symm⟩
      obtain ⟨e, e1, e2⟩ := this
      refine ⟨e, (hem e).mpr ⟨?_, ?_⟩, e2⟩
      · rcases e1 with e1 | e1 <;> exact (liveE_iff w.toSound e).mpr ⟨_, e1⟩
      · rcases e2 with e2 | e2
        · exact Or.inl e2.1
        · exact Or.inr e2.2
    obtain ⟨e0, em0, ec0⟩ := edge l0 (Or.inl (so r0).1)
    obtain ⟨e1, em1, ec1⟩ := edge l1 (Or.inl (so r1).1)
    obtain ⟨e2, em2, ec2⟩ := edge l2 (Or.inl (so r2).1)
    have cne : ∀ {e a b}, Connects s e v a → Connects s e v b → a = b := by
      intro e a b h1 h2
      unfold Connects at h1 h2
      omega
    have een01 : e0 ≠ e1 := fun hh => ne01 (cne ec0 (hh ▸ ec1))
    have een02 : e0 ≠ e2 := fun hh => ne02 (cne ec0 (hh ▸ ec2))
    have een12 : e1 ≠ e2 := fun hh => ne12 (cne ec1 (hh ▸ ec2))
    have hall : ∀ e, e ∈ (s.V v).edges ↔ e = e0 ∨ e = e1 ∨ e = e2 := by
      intro e
      rw [he] at em0 em1 em2 ⊢
      exact mem_three em0 em1 em2 een01 een02 een12 e
    have preds : ∀ {t p}, t ∈ s.tris → HasSide s (.tri t) p v → p = v0 ∨ p = v1 ∨ p = v2 := by
      intro t p ht hs
      obtain ⟨e, e1', e2'⟩ := edge ht (Or.inr hs)
      rcases (hall e).mp e1' with rfl | rfl | rfl
      · exact Or.inl (cne e2' ec0)
      · exact Or.inr (Or.inl (cne e2' ec1))
      · exact Or.inr (Or.inr (cne e2' ec2))
    have q0 := preds l0 (so r0).2
    have q1 := preds l1 (so r1).2
    have q2 := preds l2 (so r2).2
    simp at d0 d1 d2
    have shape : (p0 = v1 ∧ p1 = v2 ∧ p2 = v0) ∨ (p0 = v2 ∧ p1 = v0 ∧ p2 = v1) :=
      derange q0 q1 q2 d0.2 d1.2 d2.2 pn01 pn02 pn12
    -- the edges are interior
    have isIntr : ∀ {e a}, e ∈ (s.V v).edges → Connects s e v a → Covered s v a → Covered s a v → e ∈ s.es .intr := by
      intro e a h1 h2 h3 h4
      have hc3 : ∃ e', (e' ∈ s.es .intr ∨ e' ∈ s.es .bdry) ∧ Connects s e' v a := h.sides v a h3
      obtain ⟨e', g1, g2⟩ := hc3
      have hm' : e' ∈ (s.V v).edges := by
        refine (hem e').mpr ⟨?_, ?_⟩
        · rcases g1 with g1 | g1 <;> exact (liveE_iff w.toSound e').mpr ⟨_, g1⟩
        · rcases g2 with g2 | g2
          · exact Or.inl g2.1
          · exact Or.inr g2.2
      have hee : e' = e := by
        rcases (hall e).mp h1 with rfl | rfl | rfl <;> rcases (hall e').mp hm' with rfl | rfl | rfl <;> try rfl
        · exact absurd ((cne ec0 h2).trans (cne ec1 g2).symm) ne01
        · exact absurd ((cne ec0 h2).trans (cne ec2 g2).symm) ne02
        · exact absurd ((cne ec1 h2).trans (cne ec0 g2).symm) ne01.symm
        · exact absurd ((cne ec1 h2).trans (cne ec2 g2).symm) ne12
        · exact absurd ((cne ec2 h2).trans (cne ec0 g2).symm) ne02.symm
        · exact absurd ((cne ec2 h2).trans (cne ec1 g2).symm) ne12.symm
      subst hee
      rcases g1 with g1 | g1
      · exact g1
      · exfalso
        rcases h2 with ⟨x, y⟩ | ⟨x, y⟩
        · exact h.right e' g1 (by rw [x, y]; exact h4)
        · exact h.right e' g1 (by rw [x, y]; exact h3)
    have cov : ∀ {t a b}, t ∈ s.tris → HasSide s (.tri t) a b → Covered s a b := fun {t _ _} ht hs => ⟨.tri t, ht, hs⟩
    have back : Covered s v0 v ∧ Covered s v1 v ∧ Covered s v2 v := by
      rcases shape with ⟨rfl, rfl, rfl⟩ | ⟨rfl, rfl, rfl⟩
      · exact ⟨cov l2 (so r2).2, cov l0 (so r0).2, cov l1 (so r1).2⟩
      · exact ⟨cov l1 (so r1).2, cov l2 (so r2).2, cov l0 (so r0).2⟩
    refine ⟨t0, t1, t2, v0, v1, v2, e0, e1, e2,
      { facets := hf, live := ⟨l0, l1, l2⟩, succ := ⟨s0, s1, s2⟩, mem := ⟨a0, a1, a2⟩, nd := ?_, edges := hall,
        intr := ⟨isIntr em0 ec0 (cov l0 (so r0).1) back.1, isIntr em1 ec1 (cov l1 (so r1).1) back.2.1,
          isIntr em2 ec2 (cov l2 (so r2).1) back.2.2⟩,
        con := ⟨ec0, ec1, ec2⟩, shape := ?_, color := ⟨c1, c2⟩ }⟩
    · simp
      exact ⟨⟨fun hh => d0.1.1 hh, fun hh => d1.1.1 hh, fun hh => d2.1.1 hh⟩, ⟨ne01, ne02⟩, ne12⟩
    · rcases shape with ⟨rfl, rfl, rfl⟩ | ⟨rfl, rfl, rfl⟩
      · exact Or.inl ⟨r0, r1, r2⟩
      · exact Or.inr ⟨r0, r1, r2⟩
  | [], _ => rw [hf] at hb; simp at hb
  | [_], _ => rw [hf] at hb; simp at hb
  | [_, _], _ => rw [hf] at hb; simp at hb
  | _ :: _ :: _ :: _ :: _, _ => rw [hf] at hb; simp at hb
  | [_, _, _], [] => rw [hf, he] at hb; simp at hb
  | [_, _, _], [_] => rw [hf, he] at hb; simp at hb
  | [_, _, _], [_, _] => rw [hf, he] at hb; simp at hb
  | [_, _, _], _ :: _ :: _ :: _ :: _ => rw [hf, he] at hb; simp at hb

/-! ### One turn of the loop -/

/-- The star of `v` with its triangles in counter-clockwise order. -/
structure Ring (s : St K) (v a b c x1 x2 x3 : Nat) : Prop where
  live : x1 ∈ s.tris ∧ x2 ∈ s.tris ∧ x3 ∈ s.tris
  r1 : Rot3 (s.F (.tri x1)).corners v a b
  r2 : Rot3 (s.F (.tri x2)).corners v b c
  r3 : Rot3 (s.F (.tri x3)).corners v c a
  nd : [v, a, b, c].Nodup
  mem : a ∈ s.verts ∧ b ∈ s.verts ∧ c ∈ s.verts
  only : ∀ f, Live s f → v ∈ (s.F f).corners → f = .tri x1 ∨ f = .tri x2 ∨ f = .tri x3
  color : (s.F (.tri x2)).color = (s.F (.tri x1)).color ∧ (s.F (.tri x3)).color = (s.F (.tri x1)).color

theorem Ring.rot {s : St K} {v a b c x1 x2 x3 : Nat} (h : Ring s v a b c x1 x2 x3) : Ring s v b c a x2 x3 x1 :=
  { live := ⟨h.live.2.1, h.live.2.2, h.live.1⟩, r1 := h.r2, r2 := h.r3, r3 := h.r1
    nd := by have := h.nd; simp at this ⊢; omega
    mem := ⟨h.mem.2.1, h.mem.2.2, h.mem.1⟩
    only := fun f h1 h2 => by rcases h.only f h1 h2 with h | h | h <;> simp [h]
    color := ⟨h.color.2.trans h.color.1.symm, h.color.1.symm⟩ }

theorem star_ring {s : St K} (w : WF s) {v t0 t1 t2 v0 v1 v2 e0 e1 e2 : Nat} (hv : v ∈ s.verts)
    (h : Star s v t0 t1 t2 v0 v1 v2 e0 e1 e2) :
    Ring s v v0 v1 v2 t0 t1 t2 ∨ Ring s v v0 v2 v1 t0 t2 t1 := by
  have only : ∀ f, Live s f → v ∈ (s.F f).corners → f = .tri t0 ∨ f = .tri t1 ∨ f = .tri t2 := by
    intro f h1 h2
    have := ((w.facets v hv).2 f).mpr ⟨h1, h2⟩
    rw [h.facets] at this
    simpa using this
  rcases h.shape with ⟨a, b, c⟩ | ⟨a, b, c⟩
  · exact Or.inl ⟨h.live, a, b, c, h.nd, h.mem, only, h.color⟩
  · refine Or.inr ⟨⟨h.live.1, h.live.2.2, h.live.2.1⟩, a, c, b, ?_, ⟨h.mem.1, h.mem.2.2, h.mem.2.1⟩, ?_, ⟨h.color.2, h.color.1⟩⟩
    · have := h.nd; simp at this ⊢; omega
    · intro f h1 h2; rcases only f h1 h2 with h | h | h <;> simp [h]

theorem rot3_nodup {cs : List Nat} {a b c : Nat} (h : Rot3 cs a b c) (hn : cs.Nodup) : [a, b, c].Nodup := by
  rcases h with rfl | rfl | rfl <;> simp at hn ⊢ <;> omega

theorem rot3_mem {cs : List Nat} {a b c : Nat} (h : Rot3 cs a b c) (x : Nat) : x ∈ cs ↔ x = a ∨ x = b ∨ x = c := by
  rcases h with rfl | rfl | rfl <;> simp <;> tauto

theorem ne_three {a b c p q r : Nat} (h : (a = p ∧ b = q ∧ c = r) ∨ (a = p ∧ b = r ∧ c = q)) (z : Nat) :
    (z ≠ a ∧ z ≠ b ∧ z ≠ c) ↔ (z ≠ p ∧ z ≠ q ∧ z ≠ r) := by
  rcases h with ⟨rfl, rfl, rfl⟩ | ⟨rfl, rfl, rfl⟩ <;> tauto

theorem star_corner {s : St K} {v t0 t1 t2 v0 v1 v2 e0 e1 e2 : Nat} (h : Star s v t0 t1 t2 v0 v1 v2 e0 e1 e2) {x z : Nat}
    (hx : x = t0 ∨ x = t1 ∨ x = t2) (hz : z ∈ (s.F (.tri x)).corners) : z = v ∨ z = v0 ∨ z = v1 ∨ z = v2 := by
  rcases h.shape with ⟨p, q, r⟩ | ⟨p, q, r⟩
  · rcases hx with rfl | rfl | rfl
    · have := (rot3_mem p z).mp hz; tauto
    · have := (rot3_mem q z).mp hz; tauto
    · have := (rot3_mem r z).mp hz; tauto
  · rcases hx with rfl | rfl | rfl
    · have := (rot3_mem p z).mp hz; tauto
    · have := (rot3_mem q z).mp hz; tauto
    · have := (rot3_mem r z).mp hz; tauto

/-- What one turn does. -/
structure Starred (s u : St K) (v a b c x1 x2 x3 : Nat) : Prop where
  wf : WF u
  verts : u.verts = s.verts.filter (· ≠ v)
  vdata : ∀ w, u.pos w = s.pos w ∧ (u.V w).props = (s.V w).props
  far : ∀ w, w ≠ v → w ≠ a → w ≠ b → w ≠ c → u.V w = s.V w
  intr : u.es .intr = (s.es .intr).filter fun e => decide ((s.E e).v1 ≠ v ∧ (s.E e).v2 ≠ v)
  nEdges : (u.es .intr).length + 3 = (s.es .intr).length
  others : ∀ l, l ≠ .intr → u.es l = s.es l
  E : u.E = s.E
  tris : ∀ x, x ∈ u.tris ↔ (x ∈ s.tris ∧ x ≠ x1 ∧ x ≠ x2 ∧ x ≠ x3) ∨ x = s.nxt
  triArea : ∀ f : Nat → K, (u.tris.map f).sum + f x1 + f x2 + f x3 = (s.tris.map f).sum + f s.nxt
  nTris : u.tris.length + 2 = s.tris.length
  quads : u.quads = s.quads
  F : ∀ f, f ≠ .tri s.nxt → u.F f = s.F f
  Fn : u.F (.tri s.nxt) = ⟨[a, b, c], [.null, .null, .null], s.newColor (s.F (.tri x1)).color, false⟩
  color : u.color = s.color

theorem length_filter_ne {l : List Nat} (hn : l.Nodup) {x : Nat} (hx : x ∈ l) : (l.filter (· ≠ x)).length + 1 = l.length := by
  have := (filter_cons_perm hn hx).length_eq
  rw [this]; simp

/-- Edges in three removals. -/
theorem removeIntr_spec {s : St K} (w : WF s) {e : Nat} (he : e ∈ s.es .intr) :
    WF (s.removeIntr e) ∧ (s.removeIntr e).es .intr = (s.es .intr).filter (· ≠ e) ∧ (∀ l, l ≠ .intr → (s.removeIntr e).es l = s.es l) ∧
    (s.removeIntr e).E = s.E ∧ (s.removeIntr e).F = s.F ∧ (s.removeIntr e).verts = s.verts ∧ (s.removeIntr e).tris = s.tris ∧
    (s.removeIntr e).quads = s.quads ∧ (s.removeIntr e).nxt = s.nxt ∧ (s.removeIntr e).color = s.color ∧
    (∀ v, ((s.removeIntr e).V v).xy = (s.V v).xy ∧ ((s.removeIntr e).V v).props = (s.V v).props) ∧
    (∀ v, v ≠ (s.E e).v1 → v ≠ (s.E e).v2 → (s.removeIntr e).V v = s.V v) := by
  have hlist := ((w.ends _).2 e he).1
  have hr : s.removeIntr e = s.removeEdge e := by unfold removeIntr; rw [hlist]; simp
  rw [hr]
  refine ⟨wf_removeEdge w e ((liveE_iff w.toSound e).mpr ⟨_, he⟩), ?_, ?_, rfl, rfl, rfl, rfl, rfl, rfl, rfl, ?_, ?_⟩
  · simp only [removeEdge, hlist, upd, if_pos]
  · intro l hl; simp only [removeEdge, hlist, upd, if_neg hl]
  · intro v; rw [removeEdge_V]; split_ifs <;> exact ⟨rfl, rfl⟩
  · intro v h1 h2; rw [removeEdge_V, if_neg (by tauto)]

theorem removeTri_V {s : St K} (t v : Nat) : (((s.removeTri t).V v).xy = (s.V v).xy ∧ ((s.removeTri t).V v).props = (s.V v).props) ∧
    (v ∉ (s.F (.tri t)).corners → (s.removeTri t).V v = s.V v) := by
  simp only [removeTri, unregFacet_apply]
  constructor
  · split_ifs <;> exact ⟨rfl, rfl⟩
  · intro h; rw [if_neg h]

set_option maxHeartbeats 400000 in
theorem starred_of {s : St K} (w : WF s) {v t0 t1 t2 v0 v1 v2 e0 e1 e2 : Nat} (hv : v ∈ s.verts)
    (h : Star s v t0 t1 t2 v0 v1 v2 e0 e1 e2) {a b c x1 x2 x3 : Nat} (hr : Ring s v a b c x1 x2 x3)
    (hv' : (a = v0 ∧ b = v1 ∧ c = v2) ∨ (a = v0 ∧ b = v2 ∧ c = v1)) (hx : x1 = t0)
    (hx' : (x2 = t1 ∧ x3 = t2) ∨ (x2 = t2 ∧ x3 = t1)) :
    Starred s (((removeFacet (removeFacet (removeFacet (((s.removeIntr e0).removeIntr e1).removeIntr e2) (.tri t0)) (.tri t1)) (.tri t2)).removeVertex v).addTri
      a b c (s.F (.tri t0)).color) v a b c x1 x2 x3 := by
  have nd := h.nd
  simp at nd
  obtain ⟨⟨n0, n1, n2⟩, ⟨n01, n02⟩, n12⟩ := nd
  obtain ⟨c0, c1, c2⟩ := h.con
  have cne : ∀ {e a b}, Connects s e v a → Connects s e v b → a = b := by
    intro e a b h1 h2; unfold Connects at h1 h2; omega
  have ee01 : e0 ≠ e1 := fun hh => n01 (cne c0 (hh ▸ c1))
  have ee02 : e0 ≠ e2 := fun hh => n02 (cne c0 (hh ▸ c2))
  have ee12 : e1 ≠ e2 := fun hh => n12 (cne c1 (hh ▸ c2))
  obtain ⟨i0, i1, i2⟩ := h.intr
  obtain ⟨w1, es1, o1, E1, F1, vs1, ts1, q1, nx1, col1, V1, V1'⟩ := removeIntr_spec w i0
  generalize hs1 : s.removeIntr e0 = s1 at *
  have i1' : e1 ∈ s1.es .intr := by rw [es1, List.mem_filter]; exact ⟨i1, by simp [ee01.symm]⟩
  obtain ⟨w2, es2, o2, E2, F2, vs2, ts2, q2, nx2, col2, V2, V2'⟩ := removeIntr_spec w1 i1'
  generalize hs2 : s1.removeIntr e1 = s2 at *
  have i2' : e2 ∈ s2.es .intr := by rw [es2, List.mem_filter, es1, List.mem_filter]; exact ⟨⟨i2, by simp [ee02.symm]⟩, by simp [ee12.symm]⟩
  obtain ⟨w3, es3, o3, E3, F3, vs3, ts3, q3, nx3, col3, V3, V3'⟩ := removeIntr_spec w2 i2'
  generalize hs3 : s2.removeIntr e2 = s3 at *
  have E3s : s3.E = s.E := by rw [E3, E2, E1]
  have F3s : s3.F = s.F := by rw [F3, F2, F1]
  have T3s : s3.tris = s.tris := by rw [ts3, ts2, ts1]
  have vmem3 : s3.verts = s.verts := by rw [vs3, vs2, vs1]
  have nx3s : s3.nxt = s.nxt := by rw [nx3, nx2, nx1]
  have es3s : s3.es .intr = (s.es .intr).filter fun e => decide ((s.E e).v1 ≠ v ∧ (s.E e).v2 ≠ v) := by
    rw [es3, es2, es1, List.filter_filter, List.filter_filter]
    refine List.filter_congr ?_
    intro e he
    have hm := h.edges e
    rw [(w.edges v hv).2 e] at hm
    have hl : LiveE s e := (liveE_iff w.toSound e).mpr ⟨_, he⟩
    have : ((s.E e).v1 ≠ v ∧ (s.E e).v2 ≠ v) ↔ (e ≠ e0 ∧ e ≠ e1 ∧ e ≠ e2) := by
      rw [← not_or, ← not_or, ← not_or]
      exact not_congr ⟨fun hh => hm.mp ⟨hl, hh⟩, fun hh => (hm.mpr hh).2⟩
    by_cases g0 : e = e0 <;> by_cases g1 : e = e1 <;> by_cases g2 : e = e2 <;> simp only [this] <;> simp [g0, g1, g2]
  have len3 : (s3.es .intr).length + 3 = (s.es .intr).length := by
    have l1 := length_filter_ne (w.ends .intr).1 i0
    have l2 := length_filter_ne (w1.ends .intr).1 i1'
    have l3 := length_filter_ne (w2.ends .intr).1 i2'
    rw [← es1] at l1; rw [← es2] at l2; rw [← es3] at l3
    clear * - l1 l2 l3
    omega
  -- the triangles
  obtain ⟨L0, L1, L2⟩ := h.live
  have hfn := (w.facets v hv).1
  rw [h.facets] at hfn
  have tne : t0 ≠ t1 ∧ t0 ≠ t2 ∧ t1 ≠ t2 := by clear * - hfn; simp at hfn; tauto
  have w4 := wf_removeTri w3 t0
  have w5 := wf_removeTri w4 t1
  have w6 := wf_removeTri w5 t2
  change Starred s (((((s3.removeTri t0).removeTri t1).removeTri t2).removeVertex v).addTri a b c (s.F (.tri t0)).color) v a b c x1 x2 x3
  generalize hs6 : ((s3.removeTri t0).removeTri t1).removeTri t2 = s6 at *
  have T6 : s6.tris = ((s.tris.filter (· ≠ t0)).filter (· ≠ t1)).filter (· ≠ t2) := by
    rw [← hs6, ← T3s]; rfl
  have F6 : s6.F = s.F := by rw [← hs6, ← F3s]; rfl
  have E6 : s6.E = s.E := by rw [← hs6, ← E3s]; rfl
  have es6 : s6.es = s3.es := by rw [← hs6]; rfl
  have vs6 : s6.verts = s.verts := by rw [← hs6, ← vmem3]; rfl
  have nx6 : s6.nxt = s.nxt := by rw [← hs6, ← nx3s]; rfl
  have q6 : s6.quads = s.quads := by rw [← hs6, ← q1, ← q2, ← q3]; rfl
  have c6 : s6.color = s.color := by rw [← hs6, ← col1, ← col2, ← col3]; rfl
  have V6 : ∀ z, (s6.V z).xy = (s.V z).xy ∧ (s6.V z).props = (s.V z).props := by
    intro z
    rw [← hs6]
    have a1 := (removeTri_V (s := (s3.removeTri t0).removeTri t1) t2 z).1
    have a2 := (removeTri_V (s := s3.removeTri t0) t1 z).1
    have a3 := (removeTri_V (s := s3) t0 z).1
    exact ⟨by rw [a1.1, a2.1, a3.1, (V3 z).1, (V2 z).1, (V1 z).1], by rw [a1.2, a2.2, a3.2, (V3 z).2, (V2 z).2, (V1 z).2]⟩
  have vv : ∀ z, (z ≠ a ∧ z ≠ b ∧ z ≠ c) ↔ (z ≠ v0 ∧ z ≠ v1 ∧ z ≠ v2) := by
    intro z
    exact ne_three hv' z
  have cor : ∀ x, x = t0 ∨ x = t1 ∨ x = t2 → ∀ z, z ∈ (s.F (.tri x)).corners → z = v ∨ z = v0 ∨ z = v1 ∨ z = v2 := by
    intro x hx z hz
    exact star_corner h hx hz
  have V6' : ∀ z, z ≠ v → z ≠ v0 → z ≠ v1 → z ≠ v2 → s6.V z = s.V z := by
    intro z g g0 g1 g2
    have nc : ∀ x, x = t0 ∨ x = t1 ∨ x = t2 → z ∉ (s.F (.tri x)).corners := by
      intro x hx hz
      rcases cor x hx z hz with k | k | k | k
      exacts [g k, g0 k, g1 k, g2 k]
    rw [← hs6]
    rw [(removeTri_V (s := (s3.removeTri t0).removeTri t1) t2 z).2 (by change z ∉ (s3.F _).corners; rw [F3s]; exact nc _ (by simp))]
    rw [(removeTri_V (s := s3.removeTri t0) t1 z).2 (by change z ∉ (s3.F _).corners; rw [F3s]; exact nc _ (by simp))]
    rw [(removeTri_V (s := s3) t0 z).2 (by rw [F3s]; exact nc _ (by simp))]
    have ce : ∀ {e y}, Connects s e v y → z ≠ y → z ≠ (s.E e).v1 ∧ z ≠ (s.E e).v2 := by
      intro e y hc hy; clear * - hc hy g; unfold Connects at hc; omega
    rw [V3' z (by rw [E2, E1]; exact (ce c2 g2).1) (by rw [E2, E1]; exact (ce c2 g2).2)]
    rw [V2' z (by rw [E1]; exact (ce c1 g1).1) (by rw [E1]; exact (ce c1 g1).2)]
    rw [V1' z (ce c0 g0).1 (ce c0 g0).2]
  have hv6 : v ∈ s6.verts := by rw [vs6]; exact hv
  have noE : (s6.V v).edges = [] := by
    rw [List.eq_nil_iff_forall_not_mem]
    intro e he
    obtain ⟨g1, g2⟩ := ((w6.edges v hv6).2 e).mp he
    rw [E6] at g2
    unfold LiveE at g1
    rw [es6, E6] at g1
    have hin : ∃ l, e ∈ s.es l := by
      by_cases hl : (s.E e).list = .intr
      · rw [hl, es3s] at g1; exact ⟨_, (List.mem_filter.mp g1).1⟩
      · rw [o3 _ hl, o2 _ hl, o1 _ hl] at g1; exact ⟨_, g1⟩
    have := (h.edges e).mp (((w.edges v hv).2 e).mpr ⟨(liveE_iff w.toSound e).mpr hin, g2⟩)
    have hi : e ∈ s.es .intr := by rcases this with rfl | rfl | rfl <;> assumption
    have hl := ((w.ends _).2 e hi).1
    rw [hl, es3s, List.mem_filter] at g1
    have := g1.2
    clear * - this g2
    simp at this
    omega
  have noF : (s6.V v).facets = [] := by
    rw [List.eq_nil_iff_forall_not_mem]
    intro f hf
    obtain ⟨g1, g2⟩ := ((w6.facets v hv6).2 f).mp hf
    rw [F6] at g2
    have hl : Live s f ∧ f ≠ .tri t0 ∧ f ≠ .tri t1 ∧ f ≠ .tri t2 := by
      cases f with
      | null => exact absurd g1 (by simp [Live])
      | tri x =>
        simp only [Live, T6, List.mem_filter] at g1
        obtain ⟨⟨⟨k0, k1⟩, k2⟩, k3⟩ := g1
        simp at k1 k2 k3
        exact ⟨k0, by simp [k1], by simp [k2], by simp [k3]⟩
      | quad q =>
        simp only [Live, q6] at g1
        exact ⟨g1, by simp, by simp, by simp⟩
    have := ((w.facets v hv).2 f).mpr ⟨hl.1, g2⟩
    rw [h.facets] at this
    simp only [List.mem_cons, List.not_mem_nil, or_false] at this
    rcases this with k | k | k
    exacts [hl.2.1 k, hl.2.2.1 k, hl.2.2.2 k]
  have w7 := wf_removeVertex w6 v noE noF hv6
  generalize hs7 : s6.removeVertex v = s7 at *
  have vs7 : s7.verts = s.verts.filter (· ≠ v) := by rw [← hs7, ← vs6]; rfl
  have F7 : s7.F = s.F := by rw [← hs7, ← F6]; rfl
  have E7 : s7.E = s.E := by rw [← hs7, ← E6]; rfl
  have es7 : s7.es = s3.es := by rw [← hs7, ← es6]; rfl
  have nx7 : s7.nxt = s.nxt := by rw [← hs7, ← nx6]; rfl
  have q7 : s7.quads = s.quads := by rw [← hs7, ← q6]; rfl
  have c7 : s7.color = s.color := by rw [← hs7, ← c6]; rfl
  have T7 : s7.tris = s6.tris := by rw [← hs7]; rfl
  have V7 : s7.V = s6.V := by rw [← hs7]; rfl
  have ringnd := hr.nd
  have nd3 : [a, b, c].Nodup := (List.nodup_cons.mp ringnd).2
  have memv : ∀ z, z ∈ s.verts → z ≠ v → z ∈ s7.verts := by
    intro z h1 h2; rw [vs7, List.mem_filter]; exact ⟨h1, by simp [h2]⟩
  obtain ⟨ma, mb, mc⟩ := hr.mem
  have nea : a ≠ v ∧ b ≠ v ∧ c ≠ v := by clear * - ringnd; simp at ringnd; omega
  have w8 : WF (s7.addTri a b c (s.F (.tri t0)).color) :=
    wf_addTri w7 _ (memv a ma nea.1) (memv b mb nea.2.1) (memv c mc nea.2.2) nd3
  have nlt : ∀ x ∈ s.tris, x ≠ s.nxt := fun x hx hh => lt_irrefl _ (hh ▸ w.tlt x hx)
  have xs : ∀ x, (x ≠ x1 ∧ x ≠ x2 ∧ x ≠ x3) ↔ (x ≠ t0 ∧ x ≠ t1 ∧ x ≠ t2) := by
    intro x
    exact ne_three (hx'.imp (fun k => ⟨hx, k⟩) fun k => ⟨hx, k⟩) x
  have tm0 : t1 ∈ s.tris.filter (· ≠ t0) := by rw [List.mem_filter]; exact ⟨L1, by simp [tne.1.symm]⟩
  have tm1 : t2 ∈ (s.tris.filter (· ≠ t0)).filter (· ≠ t1) := by
    rw [List.mem_filter, List.mem_filter]; exact ⟨⟨L2, by simp [tne.2.1.symm]⟩, by simp [tne.2.2.symm]⟩
  refine ⟨w8, vs7, ?_, ?_, ?_, ?_, ?_, E7, ?_, ?_, ?_, q7, ?_, ?_, c7⟩
  · intro z
    simp only [pos, addTri, regFacet_apply _ _ _ _ nd3, V7]
    split_ifs <;> exact V6 z
  · intro z g ga gb gc
    have hvs := (vv z).mp ⟨ga, gb, gc⟩
    simp only [addTri, regFacet_apply _ _ _ _ nd3, V7]
    rw [if_neg (by simp only [List.mem_cons, List.not_mem_nil, or_false, not_or]; exact ⟨ga, gb, gc⟩)]
    exact V6' z g hvs.1 hvs.2.1 hvs.2.2
  · change s7.es .intr = _; rw [es7, es3s]
  · change (s7.es .intr).length + 3 = _; rw [es7, len3]
  · intro l hl; change s7.es l = _; rw [es7, o3 l hl, o2 l hl, o1 l hl]
  · intro x
    change x ∈ s7.tris ++ [s7.nxt] ↔ _
    rw [List.mem_append, T7, T6, nx7, xs]
    simp only [List.mem_filter, List.mem_singleton, ne_eq, decide_not, Bool.not_eq_true', decide_eq_false_iff_not, and_assoc]
  · intro f
    change ((s7.tris ++ [s7.nxt]).map f).sum + _ + _ + _ = _
    rw [T7, T6, nx7, sum_filter_ne w.tnd L0 f, sum_filter_ne (w.tnd.filter _) tm0 f, sum_filter_ne ((w.tnd.filter _).filter _) tm1 f]
    simp only [List.map_append, List.map_cons, List.map_nil, List.sum_append, List.sum_cons, List.sum_nil, hx]
    rcases hx' with ⟨rfl, rfl⟩ | ⟨rfl, rfl⟩ <;> ring
  · change (s7.tris ++ [s7.nxt]).length + 2 = _
    rw [T7, T6]
    have l1 := length_filter_ne w.tnd L0
    have l2 := length_filter_ne (w.tnd.filter _) tm0
    have l3 := length_filter_ne ((w.tnd.filter _).filter _) tm1
    rw [List.length_append]
    simp only [List.length_cons, List.length_nil]
    clear * - l1 l2 l3
    omega
  · intro f hf
    simp [addTri, upd, nx7, hf, F7]
  · simp [addTri, upd, nx7, newColor, c7, hx]

end TQ.MC
