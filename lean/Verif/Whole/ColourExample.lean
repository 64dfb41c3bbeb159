import Verif.Whole.ColourProps
import Verif.Whole.SeveralExample

/-! # The colours of two squares (an instance of C187) -/

set_option linter.unusedSectionVars false

namespace TQ
open QL MS MeshSpec MCSpec MC MS.St FUSpec WholeSpec RefSpec CleanSpec Whole QLSpec SmSpec Sm GN MM MergeSpec CK FU AM AppSpec LinkSpec OutlSpec Outl SevSpec FlSpec Cf CfSpec Fl PR PRSpec TQ.Sev

/-- The quads of the first square keep its colour, the triangles of the second one have another. -/
example : ColouredAs [SVEx.x1, SVEx.x2] SVEx.parts.2.2.smoothed ∧ SVEx.x1.cfg.color = 1 ∧ SVEx.x2.cfg.color = 2 ∧
    SVEx.parts.2.2.smoothed.quads.map (fun q => (SVEx.parts.2.2.smoothed.F (.quad q)).color) = [1, 1, 1, 1] ∧
    SVEx.parts.2.2.smoothed.tris.map (fun q => (SVEx.parts.2.2.smoothed.F (.tri q)).color) = [2, 2, 2] := by
  have e : (upd SVEx.parts.2.1 1 fun _ => SVEx.parts.2.2.smoothed) 1 = SVEx.parts.2.2.smoothed := by simp [upd]
  obtain ⟨h1, h2⟩ := C187_file demoEnv 1000 SVEx.file [FLEx.text, SVEx.text] [] SVEx.file_ok.1 (by simp) SVEx.file_ok.2 (L := FNEx.Lf) FUEx.epsPos FUEx.exact FUEx.sortOK FUEx.norm_ok
    (xs := [SVEx.x1, SVEx.x2]) (by simp only [List.map_cons, List.map_nil, FLEx.cfg_eq, SVEx.cfg_eq]; rfl) SVEx.both
    (by intro m hm; simp only [List.mem_cons, List.not_mem_nil, or_false] at hm; rcases hm with rfl | rfl
        · rw [FLEx.cfg_eq]; decide
        · rw [SVEx.cfg_eq]; decide)
  rw [e] at h2
  exact ⟨h2, by decide +kernel, by decide +kernel, SVEx.colours⟩

end TQ
