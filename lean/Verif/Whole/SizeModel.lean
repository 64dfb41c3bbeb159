import Verif.Whole.FileModel
import Verif.Domain.Model
import Verif.Generator.Prepare

/-! # Model: the size function of the domain of a file, and the refinement of the front with it -/

set_option linter.unusedSectionVars false

namespace TQ.Fl
open TQ.Cf
variable {K : Type} [Field K] [LinearOrder K]

/-- What the size function reads of a vertex of the domain (src/algorithm/Domain.h:61-62, 74-88, 98-104). An index without a vertex does not occur: edges hold pointers to vertices. -/
def Dm.sizeVert (d : Dm K) (i : Nat) : Dom.SVert K := (d.verts[i]?).elim ⟨0, 0, 0⟩ fun v => ⟨v.xy, v.size, v.range⟩

/-- The boundary edges with their lengths (src/algorithm/Domain.h:56-63, src/algorithm/Edge.h:130, 236-241). -/
def Dm.sizeEdges (norm : Pt K → K) (d : Dm K) : List (List (Dom.SEdge K)) :=
  d.bdries.map fun b => b.2.edges.map fun e => ⟨d.sizeVert e.v1, d.sizeVert e.v2, norm (storePos d.verts e.v2 - storePos d.verts e.v1)⟩

/-- The size function of the domain (src/algorithm/Domain.h:47-111, 282-283) with the function `f` of the user; `none` is `TERMINATE`. -/
def Dm.size? (Ex : K → K) (norm : Pt K → K) (f : Pt K → K) (d : Dm K) (p : Pt K) : Option K :=
  Dom.evaluate Ex f (d.sizeEdges norm) (d.fixedVerts.map d.sizeVert) p

/-- The same where it does not terminate the program (for positive `f`, see `TQ.C174_size`); the value 0 else is not used. -/
def Dm.size (Ex : K → K) (norm : Pt K → K) (f : Pt K → K) (d : Dm K) (p : Pt K) : K := (d.size? Ex norm f p).getD 0

/-- The refinement of the front edges in `init_front` (src/algorithm/Front.h:366-500) with the size function of the domain. `user` is the function for the expression in the
file (src/app/size_function.h, a library for expressions), `n` bounds the number of points. -/
def codeSub (Ex : K → K) (norm : Pt K → K) (user : PR.Line → Pt K → K) (n : Nat) (c : Cfg K) (d : Dm K) : List (Fr.MVert K) → Fr.FEdge → Option (List (Pt K)) :=
  TQ.subOf norm (d.size Ex norm (user c.size)) n

end TQ.Fl
