import Verif.Merger.Loops

/-! # The merged mesh -/

set_option linter.unusedSectionVars false
set_option linter.unusedSimpArgs false

namespace TQ.MM
open TQ.MS TQ.MS.St TQ.MC TQ.MeshSpec TQ.MCSpec TQ.RefSpec TQ.MergeSpec
variable {K : Type*} [Field K] [LinearOrder K]

/-- `merge` after the connectivity is set up. -/
def mergeFrom (w1 : World K) (ri di : Nat) : Option (World K × Bool) :=
  let c := collect w1 ri di
  if c.2.2 = 0 then some (upd w1 ri fun _ => c.1, false)
  else
    let d := w1 di
    let c1 := d.verts.foldl (copyVertex d) (c.1, c.2.1)
    match loopM (copyQuad d c1.2) c1.1 d.quads with
    | none => none
    | some s =>
      match loopM (copyTri d c1.2) s d.tris with
      | none => none
      | some s =>
        match loopM (copyIntr d c1.2) s (d.es .intr) with
        | none => none
        | some s =>
          match loopM (copyBdry ri di c1.2) (upd w1 ri fun _ => s) (d.es .bdry) with
          | none => none
          | some w2 =>
            match interfaces w2 ri di c1.2 ((w2 ri).es .bdry) with
            | none => none
            | some l => some (upd w2 ri fun s => remark (convert s l), true)

theorem merge_eq (eps : K) (w : World K) (ri di : Nat) : merge eps w ri di false =
    mergeFrom (upd (upd w ri (setupConnectivity eps)) di (setupConnectivity eps)) ri di := rfl

theorem removeBdrys_nxt : ∀ (l : List Nat) (s : St K), (l.foldl (fun s x => s.removeBdry x) s).nxt = s.nxt := by
  intro l
  induction l with
  | nil => intro s; rfl
  | cons e l ih =>
    intro s
    rw [List.foldl_cons, ih]
    unfold removeBdry
    split_ifs <;> rfl

/-- The last step: interface edges become interior edges, flags are set. -/
theorem convert_spec {s : St K} (h : WF s) {es : List Nat} (hes : ∀ e ∈ es, e ∈ s.es .bdry) (hn : es.Nodup) :
    let t := remark (convert s (es.map fun e => (e, (s.E e).v1, (s.E e).v2)))
    ∃ n, WF t ∧ s.nxt ≤ t.nxt ∧ t.verts = s.verts ∧ t.tris = s.tris ∧ t.quads = s.quads ∧
      t.es .intr = s.es .intr ++ n ∧ t.es .bdry = (s.es .bdry).filter (· ∉ es) ∧ t.es .front = s.es .front ∧
      (∀ e < s.nxt, t.E e = s.E e) ∧ t.F = s.F ∧ (∀ v, v < s.nxt → t.pos v = s.pos v) ∧
      (∀ v, v < s.nxt → (t.V v).props = if BdryEnd t v then (s.V v).props ||| Flags.vOnBoundary else (s.V v).props) ∧
      t.area = s.area ∧ t.color = s.color ∧
      List.Forall₂ (fun x y => t.E y = ⟨(s.E x).v1, (s.E x).v2, -1, 0, .intr, .null, .null, none⟩) es n := by
  intro t
  obtain ⟨g1, g2, g3, g4, g5⟩ := removeEdges_spec .bdry (fun s x => s.removeBdry x)
    (fun s e hl => by unfold removeBdry; rw [if_neg (by simpa using hl)]) es s h hes hn
  have gn := removeBdrys_nxt es s
  generalize hu : es.foldl (fun s x => s.removeBdry x) s = u at *
  have hadd := addEdges_spec .intr (fun e => (⟨(s.E e).v1, (s.E e).v2, -1, 0, .intr, .null, .null, none⟩ : EData)) es u g1.wf
    (fun x hx => by
      have := (h.ends _).2 x (hes x hx)
      rw [g1.verts]
      exact ⟨this.2.1, this.2.2.1, this.2.2.2.1⟩)
  dsimp only at hadd
  obtain ⟨n, a1, a2, a3, a4, a5, a6, a7, a8⟩ := hadd
  have hconv : convert s (es.map fun e => (e, (s.E e).v1, (s.E e).v2)) =
      es.foldl (fun s_1 x => s_1.addEdge .intr (s.E x).v1 (s.E x).v2 (-1) 0) u := by
    unfold convert
    dsimp only
    rw [List.foldl_map, List.foldl_map]
    congr 1
  have hF : (es.foldl (fun s_1 x => s_1.addEdge .intr (s.E x).v1 (s.E x).v2 (-1) 0) u).F = u.F := by
    clear * -
    induction es generalizing u with
    | nil => rfl
    | cons e l ih => rw [List.foldl_cons, ih]; rfl
  have ht : t = remark (es.foldl (fun s_1 x => s_1.addEdge .intr (s.E x).v1 (s.E x).v2 (-1) 0) u) := by
    rw [← hconv]
  generalize es.foldl (fun s_1 x => s_1.addEdge .intr (s.E x).v1 (s.E x).v2 (-1) 0) u = y at *
  obtain ⟨r1, r2, r3, r4⟩ := remark_spec y a1
  rw [← ht] at r1 r2 r3 r4
  have tes : t.es = y.es := by rw [r2]
  have tE : t.E = y.E := by rw [r2]
  have hbe : ∀ v, BdryEnd t v ↔ BdryEnd y v := fun v => by unfold BdryEnd; rw [tes, tE]
  refine ⟨n, r1, ?_, ?_, ?_, ?_, ?_, ?_, ?_, ?_, ?_, ?_, ?_, ?_, ?_, ?_⟩
  · rw [r2]; have := a2.nxt; show s.nxt ≤ y.nxt; omega
  · rw [r2]; exact a3.trans g1.verts
  · rw [r2]; exact a4.trans g2
  · rw [r2]; exact a5.trans g3
  · rw [tes, a6, g5 _ (by decide)]
  · rw [tes, a7 _ (by decide), g4]
  · rw [tes, a7 _ (by decide), g5 _ (by decide)]
  · intro e he; rw [tE, a2.E e (by omega), g1.E]
  · rw [r2]; exact hF.trans g1.F
  · intro v hv; rw [r3, a2.pos v (by omega), (g1.V v).1]
  · intro v hv
    rw [r4 v]
    simp only [hbe, a2.props v (by omega), (g1.V v).2]
  · rw [r2]; exact a2.area.trans g1.area
  · rw [r2]; exact a2.color.trans g1.color
  · refine a8.imp fun x z hxz => ?_
    rw [tE]; exact hxz.2.2

theorem onIface_verts {w : World K} {ri di : Nat} (h : WF (w ri)) {v : Nat} (hv : OnIface w ri di v) : v ∈ (w ri).verts := by
  obtain ⟨e, he, _, hh⟩ := hv
  have := (h.ends _).2 e he
  rcases hh with rfl | rfl
  · exact this.2.1
  · exact this.2.2.1

/-- The merge after the connectivity is set up. -/
theorem core {w : World K} {ri di : Nat} (A : Adjacent w ri di)
    (hD : ∀ e ∈ (w di).es .bdry, Iface w di ri e → ((w di).E e).fl ≠ .null)
    (hR : ∀ e ∈ (w ri).es .bdry, Iface w ri di e → ((w ri).E e).fl ≠ .null)
    (hex : ∃ e ∈ (w ri).es .bdry, Iface w ri di e) :
    ∃ w' φ, mergeFrom w ri di = some (w', true) ∧ Merged w w' ri di φ ∧ WF (w' ri) ∧ (w' ri).area = (w ri).area ∧
      ∀ f, Live (w ri) f → (w' ri).F f = (w ri).F f := by
  have hne := A.ne
  have wR := A.receiver.wf
  have wD := A.donor.wf
  have hfac : ∀ e ∈ (w ri).es .bdry, ∀ x, ((w ri).E e).twin = some x → (facetIn w di x = true ↔ x.1 = di) := by
    intro e he x hx
    unfold facetIn
    constructor
    · intro hh; simp at hh; exact hh.1
    · intro hh
      obtain ⟨a, b⟩ := x
      simp only at hh; subst hh
      obtain ⟨k1, k2, _⟩ := A.link e he b hx
      simpa using hD b k1 ⟨e, k2⟩
  have hcol : collect w ri di = ((w ri).es .bdry).foldl (collect1 w di) (w ri, fun _ => none, 0) := rfl
  obtain ⟨c1, c2, c3, c4, c5, c6, c7, c8⟩ := collect_spec (w := w) (di := di) ((w ri).es .bdry) (w ri, fun _ => none, 0) wR hfac
  rw [← hcol] at c1 c2 c3 c4 c5 c6 c7 c8
  obtain ⟨s0, new0, cnt, hcc⟩ : ∃ a b c, collect w ri di = (a, b, c) := ⟨_, _, _, rfl⟩
  rw [hcc] at c1 c2 c3 c4 c5 c6 c7 c8
  dsimp only at c1 c2 c3 c4 c5 c6 c7 c8
  have hcnt : cnt ≠ 0 := by
    intro hh
    obtain ⟨e, he, e', he'⟩ := hex
    exact (c8.mp hh).2 ⟨e, e', he, he'⟩
  -- interface vertices of the donor
  have hnone : ∀ v, new0 v = none ↔ ¬ OnIface w di ri v := by
    intro v
    rw [c7 v]
    constructor
    · rintro ⟨_, h2⟩ ⟨e', he', ⟨e, hee⟩, hv⟩
      obtain ⟨k1, k2⟩ := A.back e' he' e hee
      exact h2 ⟨e, e', ⟨k1, k2⟩, hv.imp Eq.symm Eq.symm⟩
    · intro h2
      refine ⟨rfl, ?_⟩
      rintro ⟨e, e', ⟨k1, k2⟩, hv⟩
      obtain ⟨l1, l2, _⟩ := A.link e k1 e' k2
      exact h2 ⟨e', l1, ⟨e, l2⟩, hv.imp Eq.symm Eq.symm⟩
  have hsome : ∀ v a, new0 v = some a → OnIface w ri di a ∧ (w ri).pos a = (w di).pos v := by
    intro v a hv
    rcases c6 v a hv with h | ⟨e, e', ⟨k1, k2⟩, hh⟩
    · exact absurd h (by simp)
    · obtain ⟨_, _, l3, l4⟩ := A.link e k1 e' k2
      rcases hh with ⟨rfl, rfl⟩ | ⟨rfl, rfl⟩
      · exact ⟨⟨e, k1, ⟨e', k2⟩, Or.inr rfl⟩, l4⟩
      · exact ⟨⟨e, k1, ⟨e', k2⟩, Or.inl rfl⟩, l3⟩
  have s0E : s0.E = (w ri).E := by rw [c2]
  have s0F : s0.F = (w ri).F := by rw [c2]
  have s0n : s0.nxt = (w ri).nxt := by rw [c2]
  have s0v : s0.verts = (w ri).verts := by rw [c2]
  have s0e : s0.es = (w ri).es := by rw [c2]
  have s0t : s0.tris = (w ri).tris := by rw [c2]
  have s0q : s0.quads = (w ri).quads := by rw [c2]
  have s0a : s0.area = (w ri).area := by rw [c2]
  have s0c : s0.color = (w ri).color := by rw [c2]
  -- vertices
  obtain ⟨v1, v2, v3, v4, v5, v6, φ0, v7, v8, v9⟩ := copyVertices_spec (d := w di) (w di).verts (s0, new0) c1 wD.vnd
  obtain ⟨s1, new, hcv⟩ : ∃ a b, (w di).verts.foldl (copyVertex (w di)) (s0, new0) = (a, b) := ⟨_, _, rfl⟩
  rw [hcv] at v1 v2 v3 v4 v5 v6 v7 v8
  dsimp only at v1 v2 v3 v4 v5 v6 v7 v8 v9
  obtain ⟨φ, hφ⟩ : ∃ φ : Nat → Nat, φ = fun v => (new v).getD 0 := ⟨_, rfl⟩
  have hnew : ∀ v ∈ (w di).verts, new v = some (φ v) := by
    intro v hv
    cases hh : new0 v with
    | none => rw [hφ]; simp [(v8 v hv hh).1]
    | some a => rw [hφ]; simp [v6 v (Or.inr (by simp [hh])), hh]
  have hφ0 : ∀ v ∈ (w di).verts, new0 v = none → φ v = φ0 v := by
    intro v hv hh
    have := (v8 v hv hh).1
    rw [hnew v hv] at this
    simpa using this
  have hφa : ∀ v ∈ (w di).verts, ∀ a, new0 v = some a → φ v = a := by
    intro v hv a hh
    have := v6 v (Or.inr (by simp [hh]))
    rw [hnew v hv, hh] at this
    simpa using this
  have hsh : ∀ v ∈ (w di).verts, OnIface w di ri v → OnIface w ri di (φ v) ∧ (w ri).pos (φ v) = (w di).pos v := by
    intro v hv hi
    cases hh : new0 v with
    | none => exact absurd hi ((hnone v).mp hh)
    | some a => rw [hφa v hv a hh]; exact hsome v a hh
  have hmem : ∀ v ∈ (w di).verts, φ v ∈ s1.verts := by
    intro v hv
    rw [v7, List.mem_append]
    by_cases hi : OnIface w di ri v
    · exact Or.inl (by rw [s0v]; exact onIface_verts wR (hsh v hv hi).1)
    · refine Or.inr (List.mem_map.mpr ⟨v, List.mem_filter.mpr ⟨hv, ?_⟩, (hφ0 v hv ((hnone v).mpr hi)).symm⟩)
      simp [(hnone v).mpr hi]
  have hfresh : ∀ v ∈ (w di).verts, ¬ OnIface w di ri v → (w ri).nxt ≤ φ v ∧ φ v < s1.nxt := by
    intro v hv hi
    have := v8 v hv ((hnone v).mpr hi)
    rw [hφ0 v hv ((hnone v).mpr hi)]
    exact ⟨by omega, this.2.2.1⟩
  have hold : ∀ v ∈ (w di).verts, OnIface w di ri v → φ v < (w ri).nxt := fun v hv hi =>
    wR.vlt _ (onIface_verts wR (hsh v hv hi).1)
  have hinj : ∀ u ∈ (w di).verts, ∀ v ∈ (w di).verts, φ u = φ v → u = v := by
    intro u hu v hv huv
    by_cases iu : OnIface w di ri u <;> by_cases iv : OnIface w di ri v
    · apply A.apartD u v iu iv
      rw [← (hsh u hu iu).2, ← (hsh v hv iv).2, huv]
    · have := hold u hu iu; have := hfresh v hv iv; omega
    · have := hold v hv iv; have := hfresh u hu iu; omega
    · apply v9 u hu v hv ((hnone u).mpr iu) ((hnone v).mpr iv)
      rw [← hφ0 u hu ((hnone u).mpr iu), ← hφ0 v hv ((hnone v).mpr iv), huv]
  have hnd : ∀ cs : List Nat, cs.Nodup → (∀ c ∈ cs, c ∈ (w di).verts) → (cs.map φ).Nodup := by
    intro cs h1 h2
    exact List.Nodup.map_on (fun x hx y hy => hinj x (h2 x hx) y (h2 y hy)) h1
  -- elements
  obtain ⟨s2, nq, q1, q2, q3, q4, q5, q6, q7, q8⟩ := copyQuads_spec (d := w di) (new := new) (φ := φ) (w di).quads s1 v1
    (fun q hq => by
      have hc := wD.cor (.quad q) hq
      exact ⟨wD.qcor q hq, fun x hx => ⟨hnew x (hc.2 x hx), hmem x (hc.2 x hx)⟩, hnd _ hc.1 hc.2⟩)
  obtain ⟨s3, nt, t1, t2, t3, t4, t5, t6, t7, t8⟩ := copyTris_spec (d := w di) (new := new) (φ := φ) (w di).tris s2 q2
    (fun q hq => by
      have hc := wD.cor (.tri q) hq
      exact ⟨wD.tcor q hq, fun x hx => ⟨hnew x (hc.2 x hx), by rw [q4]; exact hmem x (hc.2 x hx)⟩, hnd _ hc.1 hc.2⟩)
  -- interior edges
  have hEnds : ∀ k, ∀ e ∈ (w di).es k, new ((w di).E e).v1 = some (φ ((w di).E e).v1) ∧ new ((w di).E e).v2 = some (φ ((w di).E e).v2) ∧
      φ ((w di).E e).v1 ∈ s1.verts ∧ φ ((w di).E e).v2 ∈ s1.verts ∧ φ ((w di).E e).v1 ≠ φ ((w di).E e).v2 := by
    intro k e he
    obtain ⟨_, k1, k2, k3, _⟩ := (wD.ends k).2 e he
    exact ⟨hnew _ k1, hnew _ k2, hmem _ k1, hmem _ k2, fun hh => k3 (hinj _ k1 _ k2 hh)⟩
  have i0 := copyIntrs_eq (d := w di) (new := new) (φ := φ) ((w di).es .intr) s3 (fun e he => ⟨(hEnds _ e he).1, (hEnds _ e he).2.1⟩)
  have hadd := addEdges_spec .intr (fun e => (⟨φ ((w di).E e).v1, φ ((w di).E e).v2, -1, ((w di).E e).props, .intr, .null, .null, none⟩ : EData))
    ((w di).es .intr) s3 t2 (fun e he => by
      obtain ⟨_, _, k3, k4, k5⟩ := hEnds _ e he
      rw [t4, q4]; exact ⟨k3, k4, k5⟩)
  dsimp only at hadd
  obtain ⟨s4, hs4⟩ : ∃ a, (((w di).es .intr).foldl (fun s e => s.addEdge .intr (φ ((w di).E e).v1) (φ ((w di).E e).v2) (-1) ((w di).E e).props) s3) = a := ⟨_, rfl⟩
  rw [hs4] at hadd i0
  obtain ⟨ni, i1, i2, i3, i4, i5, i6, i7, i8⟩ := hadd
  -- boundary edges
  have x01 : Ext s0 s4 := (v2.trans q3).trans (t3.trans i2)
  have hw4 : (upd w ri fun _ => s4) ri = s4 := by simp [upd]
  have hs4v : s4.verts = s1.verts := by rw [i3, t4, q4]
  obtain ⟨w2, nb, b1, b2, b3, b4, b5, b6, b7, b8, b9, b10, b11⟩ := copyBdrys_spec (ri := ri) (di := di) hne (new := new) (φ := φ) (w di)
    ((w di).es .bdry) (upd w ri fun _ => s4) (by rw [hw4]; exact i1) (by simp [upd, Ne.symm hne]) (wD.ends _).1
    (fun e he => by
      rw [hw4, hs4v]
      exact hEnds _ e he)
    (fun e he x hx => by
      refine ⟨A.self e he x hx, fun hxr => ?_⟩
      obtain ⟨a, b⟩ := x
      simp only at hxr; subst hxr
      obtain ⟨k1, k2⟩ := A.back e he b hx
      have hlt := ((wR.ends _).2 b k1).2.2.2.2
      rw [hw4, x01.E b (by omega), s0E]
      exact ⟨by have := x01.nxt; simp only []; omega, hR b k1 ⟨e, k2⟩⟩)
    (fun e he e' he' x => A.different e he e' he' x)
  rw [hw4] at b3 b5 b6 b7 b8 b9 b10
  have x05 : Ext s0 (w2 ri) := x01.trans b3
  have E5 : ∀ e, e < (w ri).nxt → (w2 ri).E e = (w ri).E e := fun e he => by rw [x05.E e (by omega), s0E]
  have oldlt : ∀ l, ∀ e ∈ (w ri).es l, e < (w ri).nxt := fun l e he => ((wR.ends l).2 e he).2.2.2.2
  have s4es : ∀ k, k ≠ .intr → s4.es k = (w ri).es k := fun k hk => by rw [i7 k hk, t5, q5, v3, s0e]
  have bdry5 : (w2 ri).es .bdry = (w ri).es .bdry ++ nb := by rw [b8, s4es _ (by decide)]
  have hnbE : ∀ y ∈ nb, ∃ x ∈ (w di).es .bdry, ¬ TwinIn (w di) ri x ∧ s4.nxt ≤ y ∧ ((w2 ri).E y).twin = ((w di).E x).twin := by
    intro y hy
    obtain ⟨i, hi, hyi⟩ := List.getElem_of_mem hy
    have hlen := b10.length_eq
    have := b10.get (i := i) (by omega) hi
    simp only [List.get_eq_getElem] at this
    rw [hyi] at this
    have hm := List.getElem_mem (l := (w di).es .bdry |>.filter fun e => ¬ TwinIn (w di) ri e) (n := i) (by omega)
    rw [List.mem_filter] at hm
    exact ⟨_, hm.1, of_decide_eq_true hm.2, this.1, by rw [this.2.2.1]⟩
  have twE : ∀ e ∈ (w ri).es .bdry, (TwinIn (w2 ri) di e ↔ TwinIn (w ri) di e) := fun e he => by
    unfold TwinIn; rw [E5 e (oldlt _ e he)]
  have twN : ∀ y ∈ nb, ¬ TwinIn (w2 ri) di y := by
    rintro y hy ⟨z, hz⟩
    obtain ⟨x, hx, _, _, ht⟩ := hnbE y hy
    rw [ht] at hz
    exact A.self x hx _ hz rfl
  have hfilter : ((w2 ri).es .bdry).filter (fun e => Iface w2 ri di e) = ((w ri).es .bdry).filter (fun e => Iface w ri di e) := by
    rw [bdry5, List.filter_append]
    have h1 : nb.filter (fun e => Iface w2 ri di e) = [] := by
      rw [List.filter_eq_nil_iff]; intro y hy; simpa using twN y hy
    rw [h1, List.append_nil]
    exact List.filter_congr fun e he => by simp only [twE e he]
  have w2di : w2 di = w di := b4
  have hint := interfaces_spec (w := w2) (ri := ri) (di := di) (new := new) ((w2 ri).es .bdry) (by
    intro e he x hx
    rw [bdry5, List.mem_append] at he
    rcases he with he | he
    · rw [E5 e (oldlt _ e he)] at hx ⊢
      have hf := hfac e he x hx
      have : facetIn w2 di x = facetIn w di x := by
        unfold facetIn
        by_cases hxd : x.1 = di
        · rw [hxd, w2di]
        · simp [hxd]
      rw [this]
      refine ⟨hf, fun hxd => ?_⟩
      obtain ⟨a, b⟩ := x
      simp only at hxd; subst hxd
      obtain ⟨l1, l2, l3, l4⟩ := A.link e he b hx
      obtain ⟨_, k1, k2, _, _⟩ := (wD.ends _).2 b l1
      rw [w2di, hnew _ k1, hnew _ k2]
      have o1 : OnIface w a ri ((w a).E b).v1 := ⟨b, l1, ⟨e, l2⟩, Or.inl rfl⟩
      have o2 : OnIface w a ri ((w a).E b).v2 := ⟨b, l1, ⟨e, l2⟩, Or.inr rfl⟩
      have p1 := A.apartR _ _ (hsh _ k1 o1).1 ⟨e, he, ⟨b, hx⟩, Or.inr rfl⟩ ((hsh _ k1 o1).2.trans l4.symm)
      have p2 := A.apartR _ _ (hsh _ k2 o2).1 ⟨e, he, ⟨b, hx⟩, Or.inl rfl⟩ ((hsh _ k2 o2).2.trans l3.symm)
      rw [p1, p2]; exact ⟨rfl, rfl⟩
    · obtain ⟨y, hy, _, _, ht⟩ := hnbE e he
      rw [ht] at hx
      have := A.self y hy x hx
      refine ⟨by simp [facetIn, this], fun hh => absurd hh this⟩)
  rw [hfilter] at hint
  have hmapE : (((w ri).es .bdry).filter (fun e => Iface w ri di e)).map (fun e => (e, ((w2 ri).E e).v1, ((w2 ri).E e).v2)) =
      (((w ri).es .bdry).filter (fun e => Iface w ri di e)).map (fun e => (e, ((w2 ri).E e).v1, ((w2 ri).E e).v2)) := rfl
  obtain ⟨n2, d1, d2, d3, d4, d5, d6, d7, d8, d9, d10, d11, d12, d13, d14, d15⟩ := convert_spec b2
    (es := ((w ri).es .bdry).filter (fun e => Iface w ri di e)) (fun e he => by
      rw [bdry5]; exact List.mem_append_left _ (List.mem_of_mem_filter he)) ((wR.ends _).1.filter _)
  obtain ⟨t, ht⟩ : ∃ t, remark (convert (w2 ri) ((((w ri).es .bdry).filter (fun e => Iface w ri di e)).map (fun e => (e, ((w2 ri).E e).v1, ((w2 ri).E e).v2)))) = t := ⟨_, rfl⟩
  rw [ht] at d1 d2 d3 d4 d5 d6 d7 d8 d9 d10 d11 d12 d13 d14 d15
  obtain ⟨w', hw'⟩ : ∃ w', w' = upd w2 ri fun _ => t := ⟨_, rfl⟩
  have hw'r : w' ri = t := by rw [hw']; simp [upd]
  have hw'm : ∀ m, m ≠ ri → w' m = w2 m := fun m hm => by rw [hw']; simp [upd, hm]
  have hrun : mergeFrom w ri di = some (w', true) := by
    unfold mergeFrom
    rw [hcc]
    dsimp only
    rw [if_neg hcnt, hcv]
    dsimp only
    rw [q1]
    dsimp only
    rw [t1]
    dsimp only
    rw [i0]
    dsimp only
    rw [b1]
    dsimp only
    rw [hint]
    dsimp only
    rw [hw', ← ht]
    congr 2
    funext m
    unfold upd
    split_ifs with hm
    · subst hm; rfl
    · rfl
  have n01 : (w ri).nxt ≤ s1.nxt := by have : s0.nxt ≤ s1.nxt := v2.nxt; omega
  have n12 : s1.nxt ≤ s2.nxt := q3.nxt
  have n23 : s2.nxt ≤ s3.nxt := t3.nxt
  have n34 : s3.nxt ≤ s4.nxt := i2.nxt
  have n45 : s4.nxt ≤ (w2 ri).nxt := b3.nxt
  have x25 : Ext s2 (w2 ri) := (t3.trans i2).trans b3
  have x35 : Ext s3 (w2 ri) := i2.trans b3
  have x15 : Ext s1 (w2 ri) := q3.trans x25
  have tv : t.verts = (w ri).verts ++ ((w di).verts.filter fun v => ¬ OnIface w di ri v).map φ := by
    rw [d3, b5, hs4v, v7, s0v]
    congr 1
    have e1 : (w di).verts.filter (fun v => (new0 v).isNone) = (w di).verts.filter (fun v => ¬ OnIface w di ri v) := by
      apply List.filter_congr
      intro v _
      rw [Bool.eq_iff_iff, Option.isNone_iff_eq_none, hnone v, decide_eq_true_eq]
    rw [e1]
    refine (List.map_congr_left fun v hv => ?_).symm
    rw [List.mem_filter] at hv
    exact hφ0 v hv.1 ((hnone v).mpr (of_decide_eq_true hv.2))
  have hF : ∀ f, Live (w ri) f → t.F f = (w ri).F f := by
    intro f hf
    rw [d10]
    match f, hf with
    | .tri i, hf => have := wR.tlt i hf; rw [x05.Ft i (by omega), s0F]
    | .quad i, hf => have := wR.qlt i hf; rw [x05.Fq i (by omega), s0F]
  refine ⟨w', φ, hrun, ?_, by rw [hw'r]; exact d1, ?_, fun f hf => by rw [hw'r, hF f hf]⟩
  · refine { verts := ?_, inj := hinj, shared := ?_, glue := ?_, old := ?_, pos := ?_, props := ?_, tris := ?_, quads := ?_,
             oldF := ?_, intr := ?_, bdry := ?_, front := ?_, oldE := ?_, color := ?_, donor := ?_, others := ?_ }
    · rw [hw'r]; exact tv
    · intro v hv
      constructor
      · intro hm
        by_contra hi
        have := (hfresh v hv hi).1
        have := wR.vlt _ hm
        omega
      · intro hi; exact onIface_verts wR (hsh v hv hi).1
    · intro e he e' he'
      obtain ⟨l1, l2, l3, l4⟩ := A.link e he e' he'
      obtain ⟨_, k1, k2, _, _⟩ := (wD.ends _).2 e' l1
      have o1 : OnIface w di ri ((w di).E e').v1 := ⟨e', l1, ⟨e, l2⟩, Or.inl rfl⟩
      have o2 : OnIface w di ri ((w di).E e').v2 := ⟨e', l1, ⟨e, l2⟩, Or.inr rfl⟩
      exact ⟨A.apartR _ _ (hsh _ k1 o1).1 ⟨e, he, ⟨e', he'⟩, Or.inr rfl⟩ ((hsh _ k1 o1).2.trans l4.symm),
        A.apartR _ _ (hsh _ k2 o2).1 ⟨e, he, ⟨e', he'⟩, Or.inl rfl⟩ ((hsh _ k2 o2).2.trans l3.symm)⟩
    · intro v hv
      have hlt := wR.vlt v hv
      rw [hw'r]
      refine ⟨?_, ?_⟩
      · rw [d11 v (by omega), x05.pos v (by omega), c3]
      · rw [d12 v (by omega), x05.props v (by omega)]
        unfold mergedFlags
        by_cases hi : OnIface w ri di v
        · rw [if_pos hi, c4 v, pin_eq]
          obtain ⟨e, he, ⟨e', he'⟩, hh⟩ := hi
          exact ⟨e, e', ⟨he, he'⟩, hh⟩
        · rw [if_neg hi, c5 v]
          rintro ⟨e, e', ⟨he, he'⟩, hh⟩
          exact hi ⟨e, he, ⟨e', he'⟩, hh⟩
    · intro v hv
      rw [hw'r]
      by_cases hi : OnIface w di ri v
      · have hlt := hold v hv hi
        rw [d11 _ (by omega), x05.pos _ (by omega), c3, (hsh v hv hi).2]
      · have hlt := (hfresh v hv hi).2
        rw [d11 _ (by omega), x15.pos _ hlt, hφ0 v hv ((hnone v).mpr hi)]
        exact (v8 v hv ((hnone v).mpr hi)).2.2.2.1
    · intro v hv hi
      have hlt := (hfresh v hv hi).2
      rw [hw'r, d12 _ (by omega), x15.props _ hlt, hφ0 v hv ((hnone v).mpr hi), (v8 v hv ((hnone v).mpr hi)).2.2.2.2]
      simp [mergedFlags]
    · refine ⟨nt, by rw [hw'r, d4, b6, i4, t7, q6, v4, s0t], t8.imp fun x y hxy => ?_⟩
      have hF : t.F (.tri y) = s3.F (.tri y) := by rw [d10, x35.Ft y hxy.2.1]
      have hc : s2.color = (w ri).color := by rw [q3.color, v2.color, s0c]
      rw [hw'r]
      have := hxy.2.2
      rw [hc] at this
      unfold CopiedF at this ⊢
      rw [hF]; exact this
    · refine ⟨nq, by rw [hw'r, d5, b7, i5, t6, q7, v5, s0q], q8.imp fun x y hxy => ?_⟩
      have hF : t.F (.quad y) = s2.F (.quad y) := by rw [d10, x25.Fq y hxy.2.1]
      have hc : s1.color = (w ri).color := by rw [v2.color, s0c]
      rw [hw'r]
      have := hxy.2.2
      rw [hc] at this
      unfold CopiedF at this ⊢
      rw [hF]; exact this
    · intro f hf
      rw [hw'r, hF f hf]; exact ⟨rfl, rfl, rfl⟩
    · refine ⟨ni, n2, ?_, i8.imp fun x y hxy => ?_, ?_⟩
      · rw [hw'r, d6, b9 _ (by decide), i6, t5, q5, v3, s0e]
      · have hE : t.E y = s4.E y := by
          rw [d9 y (by omega), b3.E y hxy.2.1]
        rw [hw'r]
        unfold CopiedE
        rw [hE, hxy.2.2]
        exact ⟨⟨rfl, rfl, rfl⟩, rfl, rfl⟩
      · have hb : ∀ x ∈ ((w ri).es .bdry).filter (fun e => Iface w ri di e), (w2 ri).E x = (w ri).E x := fun x hx =>
          E5 x (oldlt _ x (List.mem_of_mem_filter hx))
        rw [hw'r]
        have := (List.forall₂_and_left (p := fun x => x ∈ ((w ri).es .bdry).filter (fun e => Iface w ri di e)) _ _).mpr ⟨fun x hx => hx, d15⟩
        refine this.imp fun x y hxy => ?_
        unfold Converted
        rw [hxy.2, hb x hxy.1]
        exact ⟨rfl, rfl, rfl, rfl, rfl⟩
    · refine ⟨nb, ?_, ((List.forall₂_and_left (p := fun x => ¬ TwinIn (w di) ri x) _ _).mpr
        ⟨fun x hx => of_decide_eq_true (List.mem_filter.mp hx).2, b10⟩).imp fun x y hxy' => ?_⟩
      · rw [hw'r, d7, bdry5, List.filter_append]
        congr 1
        · apply List.filter_congr
          intro e he
          rw [Bool.eq_iff_iff, decide_eq_true_eq, decide_eq_true_eq, List.mem_filter]
          constructor
          · intro hh h2; exact hh ⟨he, decide_eq_true h2⟩
          · intro hh h2; exact hh (of_decide_eq_true h2.2)
        · rw [List.filter_eq_self]
          intro y hy
          rw [decide_eq_true_eq]
          intro hh
          obtain ⟨x, hx, _, hle, _⟩ := hnbE y hy
          have := oldlt _ y (List.mem_of_mem_filter hh)
          omega
      · obtain ⟨hxm, k1, k2, k3, k4⟩ := hxy'
        have hE : t.E y = ⟨φ ((w di).E x).v1, φ ((w di).E x).v2, ((w di).E x).color, ((w di).E x).props, .bdry, .null, .null,
            ((w di).E x).twin⟩ := by rw [d9 y k2, k3]
        rw [hw'r]
        unfold CopiedE
        rw [hE]
        refine ⟨⟨rfl, rfl, rfl⟩, rfl, rfl, fun z hz => ?_⟩
        by_cases hzr : z.1 = ri
        · -- not an interface edge, so its twin is elsewhere
          exfalso
          exact hxm ⟨z.2, by rw [← hzr]; exact hz⟩
        · rw [hw'm _ hzr]; exact k4 z hz
    · rw [hw'r, d8, b9 _ (by decide), s4es _ (by decide)]
    · intro l e he
      have := oldlt l e he
      rw [hw'r, d9 e (by omega), E5 e this]
      exact ⟨rfl, rfl, rfl, rfl, rfl⟩
    · rw [hw'r, d14, x05.color, s0c]
    · rw [hw'm _ (Ne.symm hne), w2di]; exact sbp_refl _
    · intro m hm1 hm2
      have := b11 m hm1
      have hwm : (upd w ri fun _ => s4) m = w m := by simp [upd, hm1]
      rw [hwm] at this
      rw [hw'm m hm1]
      exact this
  · rw [hw'r, d13, x05.area, s0a]

end TQ.MM
