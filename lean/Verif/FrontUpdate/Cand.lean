import Verif.FrontUpdate.Lemmas
import Verif.Geometry.Lemmas
import Mathlib.Algebra.Order.Ring.Defs

/-! # Lemmas on candidate triangles -/

set_option linter.unusedSectionVars false

namespace TQ.FU
open TQ.MS TQ.MeshSpec TQ.FUSpec TQ.MS.St
variable {K : Type*} [Field K] [LinearOrder K] [IsStrictOrderedRing K]

/-- `s'` is `s0` with the additional inactive triangles `ts`, all on the edge `b1 → b2`; the third corners
satisfy `P`. -/
structure Cand (s0 s' : St K) (b1 b2 : Nat) (P : Nat → Prop) (ts : List Nat) : Prop where
  wf : WF s'
  verts : s'.verts = s0.verts
  es : s'.es = s0.es
  E : s'.E = s0.E
  quads : s'.quads = s0.quads
  area : s'.area = s0.area
  color : s'.color = s0.color
  tris : s'.tris = s0.tris ++ ts
  nxt : s0.nxt ≤ s'.nxt
  F : ∀ f, Live s0 f → s'.F f = s0.F f
  V : ∀ w, (s'.V w).xy = (s0.V w).xy ∧ (s'.V w).props = (s0.V w).props ∧ (s'.V w).edges = (s0.V w).edges ∧
    (s'.V w).facets = (s0.V w).facets ++ (ts.filter fun t => w ∈ (s'.F (.tri t)).corners).map .tri
  cor : ∀ t ∈ ts, s0.nxt ≤ t ∧ ∃ v, s'.F (.tri t) = ⟨[b1, b2, v], [.null, .null, .null], s0.newColor (-1), false⟩ ∧
    v ∈ s0.verts ∧ [b1, b2, v].Nodup ∧ P v

theorem Cand.pos {s0 s' : St K} {b1 b2 : Nat} {P : Nat → Prop} {ts : List Nat} (h : Cand s0 s' b1 b2 P ts) (w : Nat) :
    s'.pos w = s0.pos w := (h.V w).1

theorem Cand.nil {s : St K} (h : WF s) (b1 b2 : Nat) (P : Nat → Prop) : Cand s s b1 b2 P [] where
  wf := h
  verts := rfl
  es := rfl
  E := rfl
  quads := rfl
  area := rfl
  color := rfl
  tris := by simp
  nxt := le_refl _
  F := fun _ _ => rfl
  V := fun w => by simp
  cor := by simp

theorem Cand.nodup {s0 s' : St K} {b1 b2 : Nat} {P : Nat → Prop} {ts : List Nat} (h : Cand s0 s' b1 b2 P ts) :
    ts.Nodup := by
  have := h.wf.tnd
  rw [h.tris] at this
  exact (List.nodup_append.mp this).2.1

theorem Cand.add {s0 s' : St K} {b1 b2 : Nat} {P : Nat → Prop} {ts : List Nat} (h0 : WF s0)
    (h : Cand s0 s' b1 b2 P ts)
    {v : Nat} (hb1 : b1 ∈ s0.verts) (hb2 : b2 ∈ s0.verts) (hv : v ∈ s0.verts) (hn : [b1, b2, v].Nodup) (hP : P v) :
    Cand s0 (s'.addTri b1 b2 v (-1)) b1 b2 P (ts ++ [s'.nxt]) := by
  have hw : WF (s'.addTri b1 b2 v (-1)) :=
    wf_addTri h.wf _ (by rw [h.verts]; exact hb1) (by rw [h.verts]; exact hb2) (by rw [h.verts]; exact hv) hn
  have hF : ∀ f, f ≠ .tri s'.nxt → (s'.addTri b1 b2 v (-1)).F f = s'.F f := fun f he => by simp [addTri, upd, he]
  have hFn : (s'.addTri b1 b2 v (-1)).F (.tri s'.nxt) = ⟨[b1, b2, v], [.null, .null, .null], s'.newColor (-1), false⟩ := by
    simp [addTri]
  have hlt : ∀ t ∈ ts, t ≠ s'.nxt := by
    intro t ht
    refine ne_of_lt (h.wf.tlt t ?_)
    rw [h.tris]; exact List.mem_append_right _ ht
  have hcol : s'.newColor (-1) = s0.newColor (-1) := by unfold newColor; rw [h.color]
  have hV : ∀ w, (s'.addTri b1 b2 v (-1)).V w =
      if w ∈ [b1, b2, v] then vAddFacet (.tri s'.nxt) (s'.V w) else s'.V w := fun w => regFacet_apply _ _ _ _ hn
  refine ⟨hw, h.verts, h.es, h.E, h.quads, h.area, h.color, ?_, le_trans h.nxt (Nat.le_succ _), ?_, ?_, ?_⟩
  · change s'.tris ++ [s'.nxt] = _
    rw [h.tris, List.append_assoc]
  · intro f hf
    have hne : f ≠ .tri s'.nxt := by
      rintro rfl
      exact absurd (lt_of_lt_of_le (h0.tlt _ hf) h.nxt) (lt_irrefl _)
    rw [hF f hne]; exact h.F f hf
  · intro w
    obtain ⟨a1, a2, a3, a4⟩ := h.V w
    have hflt : (ts.filter fun t => w ∈ ((s'.addTri b1 b2 v (-1)).F (.tri t)).corners) =
        ts.filter fun t => w ∈ (s'.F (.tri t)).corners := by
      refine List.filter_congr ?_
      intro t ht
      rw [hF (.tri t) (by simpa using hlt t ht)]
    rw [hV]
    rw [List.filter_append, List.map_append, hflt]
    by_cases hm : w ∈ [b1, b2, v]
    · rw [if_pos hm]
      simp only [vAddFacet]
      refine ⟨a1, a2, a3, ?_⟩
      rw [a4, List.append_assoc]
      congr 2
      simp only [List.filter_cons, hFn, hm, decide_true, if_true, List.filter_nil, List.map_cons, List.map_nil]
    · rw [if_neg hm]
      refine ⟨a1, a2, a3, ?_⟩
      rw [a4]
      simp only [List.filter_cons, hFn, hm, decide_false, List.filter_nil, Bool.false_eq_true, if_false, List.map_nil,
        List.append_nil]
  · intro t ht
    rw [List.mem_append, List.mem_singleton] at ht
    rcases ht with ht | rfl
    · rw [hF (.tri t) (by simpa using hlt t ht)]; exact h.cor t ht
    · exact ⟨h.nxt, v, by rw [hFn, hcol], hv, hn, hP⟩

theorem Cand.remove {s0 s' : St K} {b1 b2 : Nat} {P : Nat → Prop} {ts : List Nat} (h0 : WF s0)
    (h : Cand s0 s' b1 b2 P ts) {r : Nat} (hr : r ∈ ts) : Cand s0 (s'.removeTri r) b1 b2 P (ts.filter (· ≠ r)) := by
  obtain ⟨hge, v, hFr, hv, hn, hP⟩ := h.cor r hr
  have hF : (s'.removeTri r).F = s'.F := rfl
  have hV : ∀ w, (s'.removeTri r).V w = if w ∈ (s'.F (.tri r)).corners then vRemFacet (.tri r) (s'.V w) else s'.V w :=
    fun w => unregFacet_apply _ _ _ _
  refine ⟨wf_removeTri h.wf r, h.verts, h.es, h.E, h.quads, h.area, h.color, ?_, h.nxt, h.F, ?_, ?_⟩
  · change s'.tris.filter (· ≠ r) = _
    rw [h.tris, List.filter_append]
    congr 1
    rw [List.filter_eq_self]
    intro a ha
    have : a < r := lt_of_lt_of_le (h0.tlt a ha) hge
    simpa using ne_of_lt this
  · intro w
    obtain ⟨a1, a2, a3, a4⟩ := h.V w
    rw [hF, hV]
    by_cases hm : w ∈ (s'.F (.tri r)).corners
    · rw [if_pos hm]
      simp only [vRemFacet]
      refine ⟨a1, a2, a3, ?_⟩
      have hm' : w ∈ s0.verts := by
        have := (h.wf.cor (.tri r) (by
          change r ∈ s'.tris; rw [h.tris]; exact List.mem_append_right _ hr)).2 w hm
        rwa [h.verts] at this
      rw [a4, List.filter_append]
      congr 1
      · rw [List.filter_eq_self]
        intro f hf
        have hl := ((h0.facets w hm').2 f).mp hf
        simp only [ne_eq, decide_not, Bool.not_eq_eq_eq_not, Bool.not_true, decide_eq_false_iff_not]
        rintro rfl
        exact absurd (lt_of_lt_of_le (h0.tlt r hl.1) hge) (lt_irrefl _)
      · rw [List.filter_map, List.filter_filter, List.filter_filter]
        congr 1
        refine List.filter_congr ?_
        intro t _
        simp only [Function.comp, ne_eq, FRef.tri.injEq]
        rw [Bool.and_comm]
    · rw [if_neg hm]
      refine ⟨a1, a2, a3, ?_⟩
      rw [a4, List.filter_filter]
      congr 2
      refine List.filter_congr ?_
      intro t _
      by_cases htr : t = r
      · subst htr; simp [hm]
      · simp [htr]
  · intro t ht
    exact h.cor t (List.mem_filter.mp ht).1

theorem notCL_nodup {eps : K} (he : 0 < eps) {s : St K} {b1 b2 v : Nat} (hb : b1 ≠ b2)
    (h : orientation eps (s.pos b1) (s.pos b2) (s.pos v) ≠ .CL) : [b1, b2, v].Nodup := by
  have hCL : ∀ x y z : Pt K, area2 x y z = 0 → orientation eps x y z = .CL := by
    intro x y z hz
    rw [orientation_CL_iff, hz]; simpa using he
  have h1 : v ≠ b1 := by
    rintro rfl
    refine h (hCL _ _ _ ?_)
    simp [area2]
  have h2 : v ≠ b2 := by
    rintro rfl
    refine h (hCL _ _ _ ?_)
    simp [area2]
  simp [hb, Ne.symm h1, Ne.symm h2]

/-- What a vertex must satisfy to become a candidate (apart from the validity of the triangle). -/
def Eligible (env : Env K) (s : St K) (b1 b2 v : Nat) : Prop :=
  Flags.has (s.V v).props Flags.vOnFront = true ∧ orientation env.eps (s.pos b1) (s.pos b2) (s.pos v) ≠ .CL

/-- The property of the corners of the candidates. -/
def CandP (env : Env K) (s0 : St K) (b1 b2 : Nat) (v : Nat) : Prop :=
  Eligible env s0 b1 b2 v ∧ checkValidity env (s0.pos b1) (s0.pos b2) (s0.pos v) = true

theorem checkValidity_of_valid {env : Env K} {s : St K} {t a b c : Nat} (h : triangleIsValid env s t a b c = true) :
    checkValidity env (s.pos a) (s.pos b) (s.pos c) = true := by
  unfold triangleIsValid at h
  dsimp only at h
  by_contra hc
  simp [hc] at h

theorem fold_cand {env : Env K} (he : 0 < env.eps) {s0 : St K} (h0 : WF s0) {b1 b2 : Nat} (hb1 : b1 ∈ s0.verts)
    (hb2 : b2 ∈ s0.verts) (hb : b1 ≠ b2) : ∀ (vs : List Nat) (s' : St K) (ts : List Nat), (∀ v ∈ vs, v ∈ s0.verts) →
    Cand s0 s' b1 b2 (CandP env s0 b1 b2) ts →
    Cand s0 (vs.foldl (tryVertex env b1 b2) (s', ts)).1 b1 b2 (CandP env s0 b1 b2)
      (vs.foldl (tryVertex env b1 b2) (s', ts)).2 := by
  intro vs
  induction vs with
  | nil => intro s' ts _ h; exact h
  | cons v vs ih =>
    intro s' ts hvs h
    have hv : v ∈ s0.verts := hvs v (by simp)
    rw [List.foldl_cons]
    have hstep : Cand s0 (tryVertex env b1 b2 (s', ts) v).1 b1 b2 (CandP env s0 b1 b2)
        (tryVertex env b1 b2 (s', ts) v).2 := by
      unfold tryVertex
      dsimp only
      split_ifs with c1 c2 c3
      · exact h
      · exact h
      · have hn : [b1, b2, v].Nodup := by
          refine notCL_nodup (s := s0) he hb ?_
          rw [h.pos, h.pos, h.pos] at c2; exact c2
        refine h.add h0 hb1 hb2 hv hn ⟨⟨?_, ?_⟩, ?_⟩
        · rw [← (h.V v).2.1]; simpa using c1
        · rw [h.pos, h.pos, h.pos] at c2; exact c2
        · have := checkValidity_of_valid c3
          have hp : ∀ w, (s'.addTri b1 b2 v (-1)).pos w = s0.pos w := by
            intro w
            rw [← h.pos w]
            change (regFacet s'.V _ _ w).xy = _
            rw [regFacet_apply _ _ _ _ hn]; split_ifs <;> rfl
          rw [hp, hp, hp] at this; exact this
      · have hn : [b1, b2, v].Nodup := by
          refine notCL_nodup (s := s0) he hb ?_
          rw [h.pos, h.pos, h.pos] at c2; exact c2
        have hb1' : b1 ∈ s'.verts := by rw [h.verts]; exact hb1
        have hb2' : b2 ∈ s'.verts := by rw [h.verts]; exact hb2
        have hv' : v ∈ s'.verts := by rw [h.verts]; exact hv
        -- adding and removing
        have hadd : Cand s' (s'.addTri b1 b2 v (-1)) b1 b2 (fun _ => True) ([] ++ [s'.nxt]) :=
          (Cand.nil h.wf b1 b2 (fun _ => True)).add h.wf hb1' hb2' hv' hn trivial
        have hrem := hadd.remove h.wf (r := s'.nxt) (by simp)
        have hts : (([] : List Nat) ++ [s'.nxt]).filter (· ≠ s'.nxt) = [] := by simp
        rw [hts] at hrem
        have htl : ∀ t ∈ ts, Live s' (.tri t) := by
          intro t ht; change t ∈ s'.tris; rw [h.tris]; exact List.mem_append_right _ ht
        refine ⟨hrem.wf, hrem.verts.trans h.verts, hrem.es.trans h.es, hrem.E.trans h.E, hrem.quads.trans h.quads,
          hrem.area.trans h.area, hrem.color.trans h.color, ?_, le_trans h.nxt hrem.nxt, ?_, ?_, ?_⟩
        · rw [hrem.tris, h.tris, List.append_nil]
        · intro f hf
          rw [hrem.F f ?_, h.F f hf]
          cases f with
          | null => exact hf
          | tri i => change i ∈ s'.tris; rw [h.tris]; exact List.mem_append_left _ hf
          | quad i => change i ∈ s'.quads; rw [h.quads]; exact hf
        · intro w
          obtain ⟨a1, a2, a3, a4⟩ := h.V w
          obtain ⟨r1, r2, r3, r4⟩ := hrem.V w
          refine ⟨r1.trans a1, r2.trans a2, r3.trans a3, ?_⟩
          rw [r4, a4]
          simp only [List.filter_nil, List.map_nil, List.append_nil]
          congr 2
          refine List.filter_congr ?_
          intro t ht
          rw [hrem.F _ (htl t ht)]
        · intro t ht
          rw [hrem.F _ (htl t ht)]
          exact h.cor t ht
    exact ih _ _ (fun w hw => hvs w (by simp [hw])) hstep

theorem createPossible_cand {env : Env K} (he : 0 < env.eps) (hq : QueryLive env) {s0 : St K} (h0 : WF s0) {base : Nat}
    (hb : base ∈ s0.es .front) (xy : Pt K) (range : K) :
    Cand s0 (createPossible env s0 base xy range).1 (s0.E base).v1 (s0.E base).v2
      (CandP env s0 (s0.E base).v1 (s0.E base).v2) (createPossible env s0 base xy range).2 := by
  obtain ⟨_, hb1, hb2, hb12, _⟩ := (h0.ends _).2 base hb
  exact fold_cand he h0 hb1 hb2 hb12 _ _ _ (hq.verts _ _ _) (Cand.nil h0 _ _ _)

theorem fold_remove {s0 : St K} (h0 : WF s0) {b1 b2 : Nat} {P : Nat → Prop} : ∀ (rs : List Nat) (s' : St K) (ts : List Nat),
    Cand s0 s' b1 b2 P ts → (∀ r ∈ rs, r ∈ ts) → rs.Nodup →
    Cand s0 (rs.foldl St.removeTri s') b1 b2 P (ts.filter (· ∉ rs)) := by
  intro rs
  induction rs with
  | nil => intro s' ts h _ _; simpa using h
  | cons r rs ih =>
    intro s' ts h hr hn
    rw [List.foldl_cons]
    rw [List.nodup_cons] at hn
    have h1 := h.remove h0 (hr r (by simp))
    have h2 := ih _ _ h1 (by
      intro x hx
      rw [List.mem_filter]
      refine ⟨hr x (by simp [hx]), ?_⟩
      have : x ≠ r := fun hh => hn.1 (hh ▸ hx)
      simpa using this) hn.2
    rw [List.filter_filter] at h2
    have : (ts.filter fun a => decide (a ∉ rs) && decide (a ≠ r)) = ts.filter (fun a => decide (a ∉ r :: rs)) := by
      refine List.filter_congr ?_
      intro a _
      simp only [List.mem_cons, not_or, Bool.decide_and]
      rw [Bool.and_comm]
    rw [this] at h2
    exact h2

theorem chooseBest_some {env : Env K} (hs : SortOK env) {s0 s' : St K} (h0 : WF s0) {b1 b2 : Nat} {P : Nat → Prop}
    {ts : List Nat} (h : Cand s0 s' b1 b2 P ts) {s1 : St K} {t : Nat} (hc : chooseBest env s' ts = some (s1, t)) :
    t ∈ ts ∧ Cand s0 s1 b1 b2 P [t] ∧ ∀ u ∈ ts, sortKey env s' u ≤ sortKey env s' t := by
  unfold chooseBest at hc
  obtain ⟨hp, ho⟩ := hs (sortKey env s') ts
  cases hl : env.sort (sortKey env s') ts with
  | nil => rw [hl] at hc; simp at hc
  | cons t' rest =>
    rw [hl] at hc hp ho
    simp only [Option.some.injEq, Prod.mk.injEq] at hc
    obtain ⟨rfl, rfl⟩ := hc
    have hnd : (t' :: rest).Nodup := hp.nodup_iff.mpr h.nodup
    have hmem : ∀ x, x ∈ t' :: rest ↔ x ∈ ts := fun x => hp.mem_iff
    have ht : t' ∈ ts := (hmem t').mp (by simp)
    refine ⟨ht, ?_, ?_⟩
    · have h2 := fold_remove h0 rest s' ts h (fun r hr => (hmem r).mp (by simp [hr])) (List.nodup_cons.mp hnd).2
      have hfl : ts.filter (fun a => decide (a ∉ rest)) = [t'] := by
        have hp2 : (ts.filter (fun a => decide (a ∉ rest))).Perm ((t' :: rest).filter (fun a => decide (a ∉ rest))) :=
          (hp.symm).filter _
        have : (t' :: rest).filter (fun a => decide (a ∉ rest)) = [t'] := by
          rw [List.filter_cons, if_pos (by simpa using (List.nodup_cons.mp hnd).1)]
          congr 1
          rw [List.filter_eq_nil_iff]
          intro a ha; simpa using ha
        rw [this] at hp2
        exact List.perm_singleton.mp hp2
      rw [hfl] at h2
      exact h2
    · intro u hu
      rcases List.mem_cons.mp ((hmem u).mpr hu) with rfl | hu'
      · exact le_refl _
      · exact (List.pairwise_cons.mp ho).1 u hu'

theorem chooseBest_none {env : Env K} (hs : SortOK env) {s' : St K} {ts : List Nat} :
    chooseBest env s' ts = none ↔ ts = [] := by
  unfold chooseBest
  obtain ⟨hp, _⟩ := hs (sortKey env s') ts
  cases hl : env.sort (sortKey env s') ts with
  | nil => rw [hl] at hp; simp [List.nil_perm.mp hp]
  | cons t rest =>
    rw [hl] at hp
    constructor
    · intro h; simp at h
    · rintro rfl; simp at hp

end TQ.FU
