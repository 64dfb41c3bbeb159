import Verif.Whole.KeptProps
import Verif.Whole.SeveralExample

/-! # The sides of two squares (an instance of C189) -/

set_option linter.unusedSectionVars false

namespace TQ
open QL MS MeshSpec MCSpec MC MS.St FUSpec WholeSpec RefSpec CleanSpec Whole QLSpec SmSpec Sm GN MM MergeSpec CK FU AM AppSpec LinkSpec OutlSpec Outl SevSpec FlSpec Cf CfSpec Fl PR PRSpec TQ.Sev

/-- The side of the first square at the left is found on the boundary of the mesh of both squares with its marker, as no side of the second square is there. -/
example (z : Pt ℚ) (hz : OnClosed ⟨0, 1⟩ ⟨0, 0⟩ z) : OnRim SVEx.parts.2.2.smoothed 1 z := by
  have e : (upd SVEx.parts.2.1 1 fun _ => SVEx.parts.2.2.smoothed) 1 = SVEx.parts.2.2.smoothed := by simp [upd]
  have al : ∀ (m : Int) (c : Pt ℚ) (a b : ℚ) (s : Pt ℚ), Aligned FLEx.D (.exterior, .rect m c a b s) := fun m c a b s ps hw => Or.inl (by simp [markers])
  obtain ⟨h1, h2⟩ := C189_file demoEnv 1000 SVEx.file [FLEx.text, SVEx.text] [] SVEx.file_ok.1 (by simp) SVEx.file_ok.2 (L := FNEx.Lf) FUEx.epsPos FUEx.exact FUEx.sortOK FUEx.norm_ok
    (xs := [SVEx.x1, SVEx.x2]) (by simp only [List.map_cons, List.map_nil, FLEx.cfg_eq, SVEx.cfg_eq]; rfl) SVEx.both
    (by intro m hm; simp only [List.mem_cons, List.not_mem_nil, or_false] at hm; rcases hm with rfl | rfl
        · rw [FLEx.cfg_eq]
          intro b hb
          simp only [FLEx.cfg, List.mem_singleton] at hb
          rw [hb]; exact al _ _ _ _ _
        · rw [SVEx.cfg_eq]
          intro b hb
          simp only [SVEx.cfg, List.mem_singleton] at hb
          rw [hb]; exact al _ _ _ _ _)
  rw [e] at h2
  rcases h2 [] SVEx.x1 [SVEx.x2] rfl _ (List.mem_singleton.mpr rfl) ⟨0, 1⟩ ⟨0, 0⟩ 1
    (.side (i := 3) (.rect _ _ _ _ _) (by decide +kernel) (by decide +kernel) (Or.inl rfl)) z hz with ⟨y, hy, b, hb, p, q, m, hm, hon⟩ | hr
  · exfalso
    simp only [List.nil_append, List.mem_singleton] at hy
    subst hy
    simp only [SVEx.x2, SVEx.cfg, List.mem_singleton] at hb
    subst hb
    have key : ∀ p ∈ rectangle (⟨3 / 2, 1 / 2⟩ : Pt ℚ) 1 1, 1 ≤ p.x := by decide +kernel
    cases hm with
    | side hw hp hq hm =>
      cases hw
      have k1 := key _ (List.mem_of_getElem? hp)
      have k2 := key _ (List.mem_of_getElem? hq)
      obtain ⟨s, s0, s1, rfl⟩ := hz
      obtain ⟨t, t0, t1, ht⟩ := hon
      have := congrArg Pt.x ht
      simp only [GeoSpec.onSeg] at this
      nlinarith
  · exact hr

end TQ
