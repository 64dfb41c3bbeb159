import Verif.Mesh.Spec
import Mathlib.Data.List.Nodup
import Mathlib.Tactic.Linarith
import Mathlib.Tactic.Ring

/-! # Lemmas: the mesh operations preserve consistency -/

set_option linter.unusedSectionVars false

namespace TQ.MS
open TQ.MeshSpec
variable {K : Type*} [Field K] [LinearOrder K]

@[simp] theorem upd_self {α β : Type*} [DecidableEq α] (f : α → β) (i : α) (g : β → β) : upd f i g i = g (f i) := by
  simp [upd]
theorem upd_ne {α β : Type*} [DecidableEq α] (f : α → β) {i j : α} (g : β → β) (h : j ≠ i) : upd f i g j = f j := by
  simp [upd, h]

namespace St

theorem regFacet_apply (f : FRef) : ∀ (cs : List Nat) (V : Nat → VData K) (v : Nat), cs.Nodup →
    regFacet V f cs v = if v ∈ cs then vAddFacet f (V v) else V v := by
  intro cs
  induction cs with
  | nil => intro V v _; simp [regFacet]
  | cons c cs ih =>
    intro V v h
    rw [List.nodup_cons] at h
    change regFacet (upd V c (vAddFacet f)) f cs v = _
    rw [ih _ _ h.2]
    by_cases hc : v = c
    · subst hc; simp [h.1]
    · simp [upd_ne _ _ hc, hc]

theorem unregFacet_apply (f : FRef) : ∀ (cs : List Nat) (V : Nat → VData K) (v : Nat),
    unregFacet V f cs v = if v ∈ cs then vRemFacet f (V v) else V v := by
  intro cs
  induction cs with
  | nil => intro V v; simp [unregFacet]
  | cons c cs ih =>
    intro V v
    change unregFacet (upd V c (vRemFacet f)) f cs v = _
    rw [ih _ _]
    by_cases hc : v = c
    · subst hc
      by_cases hv : v ∈ cs
      · simp [hv, vRemFacet]
      · simp [hv]
    · simp [upd_ne _ _ hc, hc]

theorem liveE_iff {s : St K} (h : Sound s) (e : Nat) : LiveE s e ↔ ∃ l, e ∈ s.es l := by
  constructor
  · intro he; exact ⟨_, he⟩
  · rintro ⟨l, hl⟩
    have := ((h.ends l).2 e hl).1
    unfold LiveE; rw [this]; exact hl

theorem wf_empty (c : Int) : WF (St.empty c : St K) := by
  refine { edges := ?_, facets := ?_, vnd := ?_, vlt := ?_, ends := ?_, tnd := ?_, qnd := ?_, tlt := ?_,
           qlt := ?_, tcor := ?_, qcor := ?_, cor := ?_ } <;> try simp [St.empty]

theorem wf_addVertex {s : St K} (h : WF s) (p : Pt K) : WF (s.addVertex p) := by
  have hn : s.nxt ∉ s.verts := fun hm => lt_irrefl _ (h.vlt _ hm)
  have hlive : ∀ f, Live (s.addVertex p) f ↔ Live s f := by intro f; cases f <;> exact Iff.rfl
  refine { edges := ?_, facets := ?_, vnd := ?_, vlt := ?_, ends := ?_, tnd := h.tnd, qnd := h.qnd, tlt := ?_,
           qlt := ?_, tcor := h.tcor, qcor := h.qcor, cor := ?_ }
  · intro v hv
    have hle : ∀ e, LiveE (s.addVertex p) e ↔ LiveE s e := fun e => Iff.rfl
    simp only [addVertex, List.mem_append, List.mem_singleton] at hv
    rcases hv with hv | rfl
    · have : v ≠ s.nxt := fun hh => hn (hh ▸ hv)
      simp only [hle]
      simp only [addVertex, upd_ne _ _ this]
      exact h.edges v hv
    · simp only [hle]
      simp only [addVertex, upd_self, List.Pairwise.nil, List.not_mem_nil, false_iff, true_and]
      rintro e ⟨he, hh⟩
      obtain ⟨_, h1, h2, _⟩ := (h.ends _).2 e he
      rcases hh with hh | hh
      · exact hn (hh ▸ h1)
      · exact hn (hh ▸ h2)
  · intro v hv
    simp only [hlive]
    simp only [addVertex, List.mem_append, List.mem_singleton] at hv
    rcases hv with hv | rfl
    · have : v ≠ s.nxt := fun hh => hn (hh ▸ hv)
      simp only [addVertex, upd_ne _ _ this]
      exact h.facets v hv
    · simp only [addVertex, upd_self, List.nodup_nil, List.not_mem_nil, false_iff, true_and]
      rintro f ⟨hf, hh⟩
      exact hn ((h.cor f hf).2 _ hh)
  · simp only [addVertex]
    rw [List.nodup_append]
    exact ⟨h.vnd, by simp, by intro a ha b hb; simp only [List.mem_singleton] at hb; subst hb; exact fun hh => hn (hh ▸ ha)⟩
  · intro v hv
    simp only [addVertex, List.mem_append, List.mem_singleton] at hv ⊢
    rcases hv with hv | rfl
    · exact Nat.lt_succ_of_lt (h.vlt v hv)
    · exact Nat.lt_succ_self _
  · intro l
    refine ⟨(h.ends l).1, fun e he => ?_⟩
    obtain ⟨h0, h1, h2, h3, h4⟩ := (h.ends l).2 e he
    simp only [addVertex, List.mem_append]
    exact ⟨h0, Or.inl h1, Or.inl h2, h3, Nat.lt_succ_of_lt h4⟩
  · intro t ht; exact Nat.lt_succ_of_lt (h.tlt t ht)
  · intro t ht; exact Nat.lt_succ_of_lt (h.qlt t ht)
  · intro f hf
    rw [hlive] at hf
    refine ⟨(h.cor f hf).1, fun c hc => ?_⟩
    simp only [addVertex, List.mem_append]
    exact Or.inl ((h.cor f hf).2 c hc)

theorem wf_removeVertex {s : St K} (h : WF s) (v : Nat) (he : (s.V v).edges = []) (hf : (s.V v).facets = [])
    (hv : v ∈ s.verts) : WF (s.removeVertex v) := by
  have hne : ∀ w, w ∈ (s.removeVertex v).verts ↔ w ∈ s.verts ∧ w ≠ v := by
    intro w; simp [removeVertex]
  have hlive : ∀ f, Live (s.removeVertex v) f ↔ Live s f := by intro f; cases f <;> exact Iff.rfl
  refine { edges := ?_, facets := ?_, vnd := ?_, vlt := ?_, ends := ?_, tnd := h.tnd, qnd := h.qnd, tlt := h.tlt,
           qlt := h.qlt, tcor := h.tcor, qcor := h.qcor, cor := ?_ }
  · intro w hw; exact h.edges w ((hne w).mp hw).1
  · intro w hw; simp only [hlive]; exact h.facets w ((hne w).mp hw).1
  · exact h.vnd.filter _
  · intro w hw; exact h.vlt w ((hne w).mp hw).1
  · intro l
    refine ⟨(h.ends l).1, fun e hel => ?_⟩
    obtain ⟨h0, h1, h2, h3, h4⟩ := (h.ends l).2 e hel
    have hno : ¬ ((s.E e).v1 = v ∨ (s.E e).v2 = v) := by
      intro hh
      have : e ∈ (s.V v).edges := ((h.edges v hv).2 e).mpr ⟨by unfold LiveE; rw [h0]; exact hel, hh⟩
      rw [he] at this; simp at this
    refine ⟨h0, (hne _).mpr ⟨h1, fun hh => hno (Or.inl hh)⟩, (hne _).mpr ⟨h2, fun hh => hno (Or.inr hh)⟩, h3, h4⟩
  · intro f hl
    rw [hlive] at hl
    refine ⟨(h.cor f hl).1, fun c hc => (hne _).mpr ⟨(h.cor f hl).2 c hc, ?_⟩⟩
    rintro rfl
    have : f ∈ (s.V c).facets := ((h.facets c hv).2 f).mpr ⟨hl, hc⟩
    rw [hf] at this; simp at this

theorem addEdge_V {s : St K} (l : EL) (a b : Nat) (c : Int) (p : BitVec 8) (hab : a ≠ b) (v : Nat) :
    ((s.addEdge l a b c p).V v) = if v = a ∨ v = b then vAddEdge s.nxt (s.V v) else s.V v := by
  simp only [addEdge, upd]
  by_cases h1 : v = b
  · subst h1; simp [Ne.symm hab]
  · by_cases h2 : v = a
    · subst h2; simp [h1]
    · simp [h1, h2]

theorem addEdge_live {s : St K} (l : EL) (a b : Nat) (c : Int) (p : BitVec 8) (e : Nat) :
    LiveE (s.addEdge l a b c p) e ↔ LiveE s e ∨ e = s.nxt := by
  unfold LiveE
  by_cases he : e = s.nxt
  · subst he
    simp [addEdge, upd]
  · simp only [addEdge, upd_ne _ _ he, he, or_false]
    by_cases hl : (s.E e).list = l
    · subst hl; simp [he]
    · rw [upd_ne _ _ hl]

theorem wf_addEdge {s : St K} (h : WF s) (l : EL) {a b : Nat} (c : Int) (p : BitVec 8) (ha : a ∈ s.verts)
    (hb : b ∈ s.verts) (hab : a ≠ b) : WF (s.addEdge l a b c p) := by
  have hlive : ∀ f, Live (s.addEdge l a b c p) f ↔ Live s f := by intro f; cases f <;> exact Iff.rfl
  have hE : ∀ e, e ≠ s.nxt → (s.addEdge l a b c p).E e = s.E e := fun e he => by simp [addEdge, upd, he]
  have hEn : (s.addEdge l a b c p).E s.nxt = ⟨a, b, c, p, l, .null, .null, none⟩ := by simp [addEdge]
  have hlt : ∀ e, LiveE s e → e < s.nxt := fun e he => ((h.ends _).2 e he).2.2.2.2
  refine { edges := ?_, facets := ?_, vnd := h.vnd, vlt := ?_, ends := ?_, tnd := h.tnd, qnd := h.qnd, tlt := ?_,
           qlt := ?_, tcor := h.tcor, qcor := h.qcor, cor := ?_ }
  · intro v hv
    obtain ⟨o1, o2⟩ := h.edges v hv
    rw [addEdge_V _ _ _ _ _ hab]
    by_cases hva : v = a ∨ v = b
    · rw [if_pos hva]
      simp only [vAddEdge]
      constructor
      · rw [List.pairwise_append]
        refine ⟨o1, by simp, ?_⟩
        intro x hx y hy
        simp only [List.mem_singleton] at hy; subst hy
        exact hlt x ((o2 x).mp hx).1
      · intro e
        rw [List.mem_append, List.mem_singleton, o2, addEdge_live]
        by_cases he : e = s.nxt
        · subst he
          rw [hEn]
          simp only [or_true, true_iff, true_and]
          rcases hva with hh | hh
          · exact Or.inl hh.symm
          · exact Or.inr hh.symm
        · rw [hE e he]; simp [he]
    · rw [if_neg hva]
      refine ⟨o1, fun e => ?_⟩
      rw [o2, addEdge_live]
      by_cases he : e = s.nxt
      · subst he
        rw [hEn]
        constructor
        · rintro ⟨hl, _⟩; exact absurd (hlt _ hl) (lt_irrefl _)
        · rintro ⟨_, hh⟩
          exact absurd (hh.imp Eq.symm Eq.symm) hva
      · rw [hE e he]; simp [he]
  · intro v hv
    have : ((s.addEdge l a b c p).V v).facets = (s.V v).facets := by
      rw [addEdge_V _ _ _ _ _ hab]; split_ifs <;> rfl
    simp only [hlive, this]
    exact h.facets v hv
  · intro v hv; exact Nat.lt_succ_of_lt (h.vlt v hv)
  · intro m
    obtain ⟨n1, n2⟩ := h.ends m
    have hold : ∀ e ∈ s.es m, ((s.addEdge l a b c p).E e).list = m ∧ ((s.addEdge l a b c p).E e).v1 ∈ s.verts ∧
        ((s.addEdge l a b c p).E e).v2 ∈ s.verts ∧
        ((s.addEdge l a b c p).E e).v1 ≠ ((s.addEdge l a b c p).E e).v2 ∧ e < s.nxt + 1 := by
      intro e he
      obtain ⟨h0, h1, h2, h3, h4⟩ := n2 e he
      rw [hE e (ne_of_lt h4)]
      exact ⟨h0, h1, h2, h3, Nat.lt_succ_of_lt h4⟩
    by_cases hm : m = l
    · subst hm
      have hes : (s.addEdge m a b c p).es m = s.es m ++ [s.nxt] := by simp [addEdge]
      rw [hes]
      constructor
      · rw [List.nodup_append]
        refine ⟨n1, by simp, ?_⟩
        intro x hx y hy
        simp only [List.mem_singleton] at hy; subst hy
        exact ne_of_lt (n2 x hx).2.2.2.2
      · intro e he
        rw [List.mem_append, List.mem_singleton] at he
        rcases he with he | rfl
        · exact hold e he
        · rw [hEn]; exact ⟨rfl, ha, hb, hab, Nat.lt_succ_self _⟩
    · have hes : (s.addEdge l a b c p).es m = s.es m := by simp [addEdge, upd, hm]
      rw [hes]
      exact ⟨n1, hold⟩
  · intro t ht; exact Nat.lt_succ_of_lt (h.tlt t ht)
  · intro t ht; exact Nat.lt_succ_of_lt (h.qlt t ht)
  · intro f hf; rw [hlive] at hf; exact h.cor f hf

theorem removeEdge_V {s : St K} (e v : Nat) :
    ((s.removeEdge e).V v) = if v = (s.E e).v1 ∨ v = (s.E e).v2 then vRemEdge e (s.V v) else s.V v := by
  simp only [removeEdge, upd]
  generalize (s.E e).v1 = a
  generalize (s.E e).v2 = b
  by_cases h1 : v = b
  · subst h1
    by_cases h2 : v = a
    · subst h2; simp [vRemEdge]
    · simp [h2]
  · by_cases h2 : v = a
    · subst h2; simp [h1]
    · simp [h1, h2]
theorem removeEdge_es {s : St K} (e : Nat) (l : EL) (f : Nat) :
    f ∈ (s.removeEdge e).es l ↔ f ∈ s.es l ∧ (l = (s.E e).list → f ≠ e) := by
  simp only [removeEdge, upd]
  by_cases h1 : l = (s.E e).list <;> simp [h1]

theorem wf_removeEdge {s : St K} (h : WF s) (e : Nat) (hl : LiveE s e) : WF (s.removeEdge e) := by
  have hlive : ∀ f, Live (s.removeEdge e) f ↔ Live s f := by intro f; cases f <;> exact Iff.rfl
  have hE : ∀ f, (s.removeEdge e).E f = s.E f := fun _ => rfl
  have hLE : ∀ f, LiveE (s.removeEdge e) f ↔ LiveE s f ∧ f ≠ e := by
    intro f
    unfold LiveE
    rw [removeEdge_es, hE]
    constructor
    · rintro ⟨h1, h2⟩
      refine ⟨h1, ?_⟩
      rintro rfl; exact h2 rfl rfl
    · rintro ⟨h1, h2⟩; exact ⟨h1, fun _ => h2⟩
  refine { edges := ?_, facets := ?_, vnd := h.vnd, vlt := h.vlt, ends := ?_, tnd := h.tnd, qnd := h.qnd, tlt := h.tlt,
           qlt := h.qlt, tcor := h.tcor, qcor := h.qcor, cor := ?_ }
  · intro v hv
    obtain ⟨o1, o2⟩ := h.edges v hv
    rw [removeEdge_V]
    simp only [hE, hLE]
    by_cases hva : v = (s.E e).v1 ∨ v = (s.E e).v2
    · rw [if_pos hva]
      simp only [vRemEdge]
      refine ⟨o1.filter _, fun f => ?_⟩
      rw [List.mem_filter, o2]
      simp only [ne_eq, decide_not, Bool.not_eq_eq_eq_not, Bool.not_true, decide_eq_false_iff_not]
      tauto
    · rw [if_neg hva]
      refine ⟨o1, fun f => ?_⟩
      rw [o2]
      constructor
      · rintro ⟨h1, h2⟩
        refine ⟨⟨h1, ?_⟩, h2⟩
        rintro rfl
        exact hva (h2.imp Eq.symm Eq.symm)
      · rintro ⟨⟨h1, _⟩, h2⟩; exact ⟨h1, h2⟩
  · intro v hv
    have : ((s.removeEdge e).V v).facets = (s.V v).facets := by
      rw [removeEdge_V]; split_ifs <;> rfl
    simp only [hlive, this]
    exact h.facets v hv
  · intro m
    obtain ⟨n1, n2⟩ := h.ends m
    constructor
    · simp only [removeEdge, upd]
      split_ifs
      · exact n1.filter _
      · exact n1
    · intro f hf
      exact n2 f ((removeEdge_es e m f).mp hf).1
  · intro f hf; rw [hlive] at hf; exact h.cor f hf

theorem wf_addTri {s : St K} (h : WF s) {a b c : Nat} (col : Int) (ha : a ∈ s.verts) (hb : b ∈ s.verts)
    (hc : c ∈ s.verts) (hn : [a, b, c].Nodup) : WF (s.addTri a b c col) := by
  have hF : ∀ f, f ≠ .tri s.nxt → (s.addTri a b c col).F f = s.F f := fun f he => by simp [addTri, upd, he]
  have hFn : (s.addTri a b c col).F (.tri s.nxt) = ⟨[a, b, c], [.null, .null, .null], s.newColor col, false⟩ := by
    simp [addTri]
  have hlt : ∀ f, Live s f → f ≠ .tri s.nxt := by
    rintro f hf rfl
    exact lt_irrefl _ (h.tlt _ hf)
  have hlive : ∀ f, Live (s.addTri a b c col) f ↔ Live s f ∨ f = .tri s.nxt := by
    intro f; cases f <;> simp [Live, addTri]
  have hV : ∀ v, (s.addTri a b c col).V v = if v ∈ [a, b, c] then vAddFacet (.tri s.nxt) (s.V v) else s.V v :=
    fun v => regFacet_apply _ _ _ _ hn
  refine { edges := ?_, facets := ?_, vnd := h.vnd, vlt := ?_, ends := ?_, tnd := ?_, qnd := h.qnd, tlt := ?_,
           qlt := ?_, tcor := ?_, qcor := ?_, cor := ?_ }
  · intro v hv
    have : ((s.addTri a b c col).V v).edges = (s.V v).edges := by rw [hV]; split_ifs <;> rfl
    rw [this]
    exact h.edges v hv
  · intro v hv
    obtain ⟨o1, o2⟩ := h.facets v hv
    rw [hV]
    simp only [hlive]
    by_cases hva : v ∈ [a, b, c]
    · rw [if_pos hva]
      simp only [vAddFacet]
      constructor
      · rw [List.nodup_append]
        refine ⟨o1, by simp, ?_⟩
        intro x hx y hy
        simp only [List.mem_singleton] at hy; subst hy
        exact hlt x ((o2 x).mp hx).1
      · intro f
        rw [List.mem_append, List.mem_singleton, o2]
        by_cases he : f = .tri s.nxt
        · subst he; rw [hFn]; simp only [or_true, true_iff, true_and]; exact hva
        · rw [hF f he]; simp [he]
    · rw [if_neg hva]
      refine ⟨o1, fun f => ?_⟩
      rw [o2]
      by_cases he : f = .tri s.nxt
      · subst he
        rw [hFn]
        constructor
        · rintro ⟨hl, _⟩; exact absurd rfl (hlt _ hl)
        · rintro ⟨_, hh⟩; exact absurd hh hva
      · rw [hF f he]; simp [he]
  · intro v hv; exact Nat.lt_succ_of_lt (h.vlt v hv)
  · intro m
    refine ⟨(h.ends m).1, fun e he => ?_⟩
    obtain ⟨h0, h1, h2, h3, h4⟩ := (h.ends m).2 e he
    exact ⟨h0, h1, h2, h3, Nat.lt_succ_of_lt h4⟩
  · change (s.tris ++ [s.nxt]).Nodup
    rw [List.nodup_append]
    refine ⟨h.tnd, by simp, ?_⟩
    intro x hx y hy
    simp only [List.mem_singleton] at hy; subst hy
    exact ne_of_lt (h.tlt x hx)
  · intro t ht
    change t ∈ s.tris ++ [s.nxt] at ht
    rw [List.mem_append, List.mem_singleton] at ht
    change t < s.nxt + 1
    rcases ht with ht | rfl
    · exact Nat.lt_succ_of_lt (h.tlt t ht)
    · exact Nat.lt_succ_self _
  · intro t ht; exact Nat.lt_succ_of_lt (h.qlt t ht)
  · intro t ht
    change t ∈ s.tris ++ [s.nxt] at ht
    rw [List.mem_append, List.mem_singleton] at ht
    rcases ht with ht | rfl
    · rw [hF _ (hlt (.tri t) ht)]; exact h.tcor t ht
    · rw [hFn]; rfl
  · intro q hq
    rw [hF _ (by simp)]; exact h.qcor q hq
  · intro f hf
    rw [hlive] at hf
    rcases hf with hf | rfl
    · rw [hF f (hlt f hf)]; exact h.cor f hf
    · rw [hFn]
      refine ⟨hn, ?_⟩
      intro x hx
      simp only [List.mem_cons, List.not_mem_nil, or_false] at hx
      rcases hx with rfl | rfl | rfl <;> assumption

theorem wf_addQuad {s : St K} (h : WF s) {a b c d : Nat} (col : Int) (ha : a ∈ s.verts) (hb : b ∈ s.verts)
    (hc : c ∈ s.verts) (hd : d ∈ s.verts) (hn : [a, b, c, d].Nodup) : WF (s.addQuad a b c d col) := by
  have hF : ∀ f, f ≠ .quad s.nxt → (s.addQuad a b c d col).F f = s.F f := fun f he => by simp [addQuad, upd, he]
  have hFn : (s.addQuad a b c d col).F (.quad s.nxt) =
      ⟨[a, b, c, d], [.null, .null, .null, .null], s.newColor col, false⟩ := by simp [addQuad]
  have hlt : ∀ f, Live s f → f ≠ .quad s.nxt := by
    rintro f hf rfl
    exact lt_irrefl _ (h.qlt _ hf)
  have hlive : ∀ f, Live (s.addQuad a b c d col) f ↔ Live s f ∨ f = .quad s.nxt := by
    intro f; cases f <;> simp [Live, addQuad]
  have hV : ∀ v, (s.addQuad a b c d col).V v = if v ∈ [a, b, c, d] then vAddFacet (.quad s.nxt) (s.V v) else s.V v :=
    fun v => regFacet_apply _ _ _ _ hn
  refine { edges := ?_, facets := ?_, vnd := h.vnd, vlt := ?_, ends := ?_, tnd := h.tnd, qnd := ?_, tlt := ?_,
           qlt := ?_, tcor := ?_, qcor := ?_, cor := ?_ }
  · intro v hv
    have : ((s.addQuad a b c d col).V v).edges = (s.V v).edges := by rw [hV]; split_ifs <;> rfl
    rw [this]
    exact h.edges v hv
  · intro v hv
    obtain ⟨o1, o2⟩ := h.facets v hv
    rw [hV]
    simp only [hlive]
    by_cases hva : v ∈ [a, b, c, d]
    · rw [if_pos hva]
      simp only [vAddFacet]
      constructor
      · rw [List.nodup_append]
        refine ⟨o1, by simp, ?_⟩
        intro x hx y hy
        simp only [List.mem_singleton] at hy; subst hy
        exact hlt x ((o2 x).mp hx).1
      · intro f
        rw [List.mem_append, List.mem_singleton, o2]
        by_cases he : f = .quad s.nxt
        · subst he; rw [hFn]; simp only [or_true, true_iff, true_and]; exact hva
        · rw [hF f he]; simp [he]
    · rw [if_neg hva]
      refine ⟨o1, fun f => ?_⟩
      rw [o2]
      by_cases he : f = .quad s.nxt
      · subst he
        rw [hFn]
        constructor
        · rintro ⟨hl, _⟩; exact absurd rfl (hlt _ hl)
        · rintro ⟨_, hh⟩; exact absurd hh hva
      · rw [hF f he]; simp [he]
  · intro v hv; exact Nat.lt_succ_of_lt (h.vlt v hv)
  · intro m
    refine ⟨(h.ends m).1, fun e he => ?_⟩
    obtain ⟨h0, h1, h2, h3, h4⟩ := (h.ends m).2 e he
    exact ⟨h0, h1, h2, h3, Nat.lt_succ_of_lt h4⟩
  · change (s.quads ++ [s.nxt]).Nodup
    rw [List.nodup_append]
    refine ⟨h.qnd, by simp, ?_⟩
    intro x hx y hy
    simp only [List.mem_singleton] at hy; subst hy
    exact ne_of_lt (h.qlt x hx)
  · intro t ht; exact Nat.lt_succ_of_lt (h.tlt t ht)
  · intro t ht
    change t ∈ s.quads ++ [s.nxt] at ht
    rw [List.mem_append, List.mem_singleton] at ht
    change t < s.nxt + 1
    rcases ht with ht | rfl
    · exact Nat.lt_succ_of_lt (h.qlt t ht)
    · exact Nat.lt_succ_self _
  · intro q hq
    rw [hF _ (by simp)]; exact h.tcor q hq
  · intro t ht
    change t ∈ s.quads ++ [s.nxt] at ht
    rw [List.mem_append, List.mem_singleton] at ht
    rcases ht with ht | rfl
    · rw [hF _ (hlt (.quad t) ht)]; exact h.qcor t ht
    · rw [hFn]; rfl
  · intro f hf
    rw [hlive] at hf
    rcases hf with hf | rfl
    · rw [hF f (hlt f hf)]; exact h.cor f hf
    · rw [hFn]
      refine ⟨hn, ?_⟩
      intro x hx
      simp only [List.mem_cons, List.not_mem_nil, or_false] at hx
      rcases hx with rfl | rfl | rfl | rfl <;> assumption

theorem wf_removeTri {s : St K} (h : WF s) (t : Nat) : WF (s.removeTri t) := by
  have hlive : ∀ f, Live (s.removeTri t) f ↔ Live s f ∧ f ≠ .tri t := by
    intro f; cases f <;> simp [Live, removeTri]
  have hV : ∀ v, (s.removeTri t).V v =
      if v ∈ (s.F (.tri t)).corners then vRemFacet (.tri t) (s.V v) else s.V v :=
    fun v => unregFacet_apply _ _ _ _
  have hF : ∀ f, (s.removeTri t).F f = s.F f := fun _ => rfl
  refine { edges := ?_, facets := ?_, vnd := h.vnd, vlt := h.vlt, ends := h.ends, tnd := h.tnd.filter _, qnd := h.qnd,
           tlt := ?_, qlt := h.qlt, tcor := ?_, qcor := h.qcor, cor := ?_ }
  · intro v hv
    have : ((s.removeTri t).V v).edges = (s.V v).edges := by rw [hV]; split_ifs <;> rfl
    rw [this]
    exact h.edges v hv
  · intro v hv
    obtain ⟨o1, o2⟩ := h.facets v hv
    rw [hV]
    simp only [hlive, hF]
    by_cases hva : v ∈ (s.F (.tri t)).corners
    · rw [if_pos hva]
      simp only [vRemFacet]
      refine ⟨o1.filter _, fun f => ?_⟩
      rw [List.mem_filter, o2]
      simp only [ne_eq, decide_not, Bool.not_eq_eq_eq_not, Bool.not_true, decide_eq_false_iff_not]
      tauto
    · rw [if_neg hva]
      refine ⟨o1, fun f => ?_⟩
      rw [o2]
      constructor
      · rintro ⟨h1, h2⟩
        refine ⟨⟨h1, ?_⟩, h2⟩
        rintro rfl; exact hva h2
      · rintro ⟨⟨h1, _⟩, h2⟩; exact ⟨h1, h2⟩
  · intro x hx; exact h.tlt x (List.mem_filter.mp hx).1
  · intro x hx; exact h.tcor x (List.mem_filter.mp hx).1
  · intro f hf; exact h.cor f ((hlive f).mp hf).1

theorem wf_removeQuad {s : St K} (h : WF s) (t : Nat) : WF (s.removeQuad t) := by
  have hlive : ∀ f, Live (s.removeQuad t) f ↔ Live s f ∧ f ≠ .quad t := by
    intro f; cases f <;> simp [Live, removeQuad]
  have hV : ∀ v, (s.removeQuad t).V v =
      if v ∈ (s.F (.quad t)).corners then vRemFacet (.quad t) (s.V v) else s.V v :=
    fun v => unregFacet_apply _ _ _ _
  have hF : ∀ f, (s.removeQuad t).F f = s.F f := fun _ => rfl
  refine { edges := ?_, facets := ?_, vnd := h.vnd, vlt := h.vlt, ends := h.ends, tnd := h.tnd, qnd := h.qnd.filter _,
           tlt := h.tlt, qlt := ?_, tcor := h.tcor, qcor := ?_, cor := ?_ }
  · intro v hv
    have : ((s.removeQuad t).V v).edges = (s.V v).edges := by rw [hV]; split_ifs <;> rfl
    rw [this]
    exact h.edges v hv
  · intro v hv
    obtain ⟨o1, o2⟩ := h.facets v hv
    rw [hV]
    simp only [hlive, hF]
    by_cases hva : v ∈ (s.F (.quad t)).corners
    · rw [if_pos hva]
      simp only [vRemFacet]
      refine ⟨o1.filter _, fun f => ?_⟩
      rw [List.mem_filter, o2]
      simp only [ne_eq, decide_not, Bool.not_eq_eq_eq_not, Bool.not_true, decide_eq_false_iff_not]
      tauto
    · rw [if_neg hva]
      refine ⟨o1, fun f => ?_⟩
      rw [o2]
      constructor
      · rintro ⟨h1, h2⟩
        refine ⟨⟨h1, ?_⟩, h2⟩
        rintro rfl; exact hva h2
      · rintro ⟨⟨h1, _⟩, h2⟩; exact ⟨h1, h2⟩
  · intro x hx; exact h.qlt x (List.mem_filter.mp hx).1
  · intro x hx; exact h.qcor x (List.mem_filter.mp hx).1
  · intro f hf; exact h.cor f ((hlive f).mp hf).1

/-- Changing vertex properties keeps the mesh consistent. -/
theorem wf_setProps {s : St K} (h : WF s) (v : Nat) (g : BitVec 8 → BitVec 8) : WF (s.setProps v g) := by
  have hV : ∀ w, ((s.setProps v g).V w).edges = (s.V w).edges ∧ ((s.setProps v g).V w).facets = (s.V w).facets := by
    intro w
    simp only [setProps, upd]
    split_ifs <;> exact ⟨rfl, rfl⟩
  have hlive : ∀ f, Live (s.setProps v g) f ↔ Live s f := by intro f; cases f <;> exact Iff.rfl
  refine { edges := ?_, facets := ?_, vnd := h.vnd, vlt := h.vlt, ends := h.ends, tnd := h.tnd, qnd := h.qnd,
           tlt := h.tlt, qlt := h.qlt, tcor := h.tcor, qcor := h.qcor, cor := ?_ }
  · intro w hw; rw [(hV w).1]; exact h.edges w hw
  · intro w hw; rw [(hV w).2]; simp only [hlive]; exact h.facets w hw
  · intro f hf; rw [hlive] at hf; exact h.cor f hf

theorem wf_activate {s : St K} (h : WF s) (f : FRef) : WF (s.activate f) := by
  have hF : ∀ g, ((s.activate f).F g).corners = (s.F g).corners := by
    intro g
    simp only [activate, upd]
    split_ifs <;> rfl
  have hlive : ∀ g, Live (s.activate f) g ↔ Live s g := by intro g; cases g <;> exact Iff.rfl
  refine { edges := h.edges, facets := ?_, vnd := h.vnd, vlt := h.vlt, ends := h.ends, tnd := h.tnd, qnd := h.qnd,
           tlt := h.tlt, qlt := h.qlt, tcor := ?_, qcor := ?_, cor := ?_ }
  · intro w hw; simp only [hlive, hF]; exact h.facets w hw
  · intro t ht; rw [hF]; exact h.tcor t ht
  · intro t ht; rw [hF]; exact h.qcor t ht
  · intro g hg; rw [hlive] at hg; rw [hF]; exact h.cor g hg

theorem wf_addArea {s : St K} (h : WF s) (a : K) : WF (s.addArea a) := by
  have hlive : ∀ g, Live (s.addArea a) g ↔ Live s g := by intro g; cases g <;> exact Iff.rfl
  refine { edges := h.edges, facets := ?_, vnd := h.vnd, vlt := h.vlt, ends := h.ends, tnd := h.tnd, qnd := h.qnd,
           tlt := h.tlt, qlt := h.qlt, tcor := h.tcor, qcor := h.qcor, cor := ?_ }
  · intro w hw; simp only [hlive]; exact h.facets w hw
  · intro g hg; rw [hlive] at hg; exact h.cor g hg

/-! ### Lookups -/

theorem getEdge_some {s : St K} (h : WF s) {l : EL} {a b e : Nat} (ha : a ∈ s.verts)
    (hg : s.getEdge l a b = some e) :
    e ∈ s.es l ∧ (((s.E e).v1 = a ∧ (s.E e).v2 = b) ∨ ((s.E e).v2 = a ∧ (s.E e).v1 = b)) := by
  unfold getEdge at hg
  have h1 := List.find?_some hg
  have h2 := List.mem_of_find?_eq_some hg
  simp only [Bool.and_eq_true, decide_eq_true_eq] at h1
  have h3 := ((h.edges a ha).2 e).mp h2
  refine ⟨?_, h1.2⟩
  have := h3.1
  unfold LiveE at this
  rw [h1.1] at this
  exact this

theorem getEdge_none {s : St K} (h : WF s) {l : EL} {a b : Nat} (ha : a ∈ s.verts)
    (hg : s.getEdge l a b = none) : ∀ e ∈ s.es l,
    ¬ (((s.E e).v1 = a ∧ (s.E e).v2 = b) ∨ ((s.E e).v2 = a ∧ (s.E e).v1 = b)) := by
  intro e he hh
  unfold getEdge at hg
  rw [List.find?_eq_none] at hg
  have hl := ((h.ends l).2 e he).1
  refine hg e ?_ ?_
  · refine ((h.edges a ha).2 e).mpr ⟨?_, ?_⟩
    · unfold LiveE; rw [hl]; exact he
    · rcases hh with hh | hh
      · exact Or.inl hh.1
      · exact Or.inr hh.1
  · simp only [Bool.and_eq_true, decide_eq_true_eq]; exact ⟨hl, hh⟩

end St
end TQ.MS
