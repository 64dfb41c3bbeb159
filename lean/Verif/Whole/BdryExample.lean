import Verif.Whole.BdryProps
import Verif.Whole.SeveralExample

/-! # The markers of two squares (an instance of C188) -/

set_option linter.unusedSectionVars false

namespace TQ
open QL MS MeshSpec MCSpec MC MS.St FUSpec WholeSpec RefSpec CleanSpec Whole QLSpec SmSpec Sm GN MM MergeSpec CK FU AM AppSpec LinkSpec OutlSpec Outl SevSpec FlSpec Cf CfSpec Fl PR PRSpec TQ.Sev

/-- The boundary edges of the mesh of both squares have the markers of the squares. -/
example : MarkedAs FLEx.D [SVEx.x1, SVEx.x2] SVEx.parts.2.2.smoothed := by
  have e : (upd SVEx.parts.2.1 1 fun _ => SVEx.parts.2.2.smoothed) 1 = SVEx.parts.2.2.smoothed := by simp [upd]
  have al : ∀ (m : Int) (c : Pt ℚ) (a b : ℚ) (s : Pt ℚ), Aligned FLEx.D (.exterior, .rect m c a b s) := fun m c a b s ps hw => Or.inl (by simp [markers])
  obtain ⟨h1, h2⟩ := C188_file demoEnv 1000 SVEx.file [FLEx.text, SVEx.text] [] SVEx.file_ok.1 (by simp) SVEx.file_ok.2 (L := FNEx.Lf) FUEx.epsPos FUEx.exact FUEx.sortOK FUEx.norm_ok
    (xs := [SVEx.x1, SVEx.x2]) (by simp only [List.map_cons, List.map_nil, FLEx.cfg_eq, SVEx.cfg_eq]; rfl) SVEx.both
    (by intro m hm; simp only [List.mem_cons, List.not_mem_nil, or_false] at hm; rcases hm with rfl | rfl
        · rw [FLEx.cfg_eq]
          intro b hb
          simp only [FLEx.cfg, List.mem_singleton] at hb
          rw [hb]; exact al _ _ _ _ _
        · rw [SVEx.cfg_eq]
          intro b hb
          simp only [SVEx.cfg, List.mem_singleton] at hb
          rw [hb]; exact al _ _ _ _ _)
  rw [e] at h2
  exact h2

end TQ
