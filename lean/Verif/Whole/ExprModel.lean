import Verif.Config.Model

/-!
# Model: the size function of a mesh definition (src/app/size_function.cpp)

The expression library (src/extern_libs/exprtk.h) is a parameter: `parse` gives the function of a text, if it can be compiled.
-/

set_option linter.unusedSectionVars false

namespace TQ.Ex
open TQ.PR TQ.Cf
variable {K : Type}

/-- The static variable `expression` (src/app/size_function.cpp:20): the compiled function, or `none` before the first
successful compilation, when its value is not a number (src/extern_libs/exprtk.h:19037-19041, 19107-19112). -/
abbrev Static (K : Type) := Option (Pt K → K)

/-- `init_size_function` with the expression library (src/app/size_function.cpp:30-45): the result of `parser.compile` is ignored, and
a text that cannot be compiled leaves the expression as it was (src/extern_libs/exprtk.h:21374-21468). -/
def initSize (parse : Line → Option (Pt K → K)) (t : Line) (st : Static K) : Static K :=
  match parse t with
  | some f => some f
  | none => st

/-- A call of any size function made by `init_size_function`: it evaluates the static expression (src/app/size_function.cpp:38-43); `none`: not a number. -/
def callSize (st : Static K) (p : Pt K) : Option K := st.map (· p)

/-- The static expression while the definitions are worked on, one after the other: `init_mesh_domain` comes first in `construct_mesh`
(src/app/TQMeshApp.h:94-126, 784-798, 943-955). -/
def sizesUsed (parse : Line → Option (Pt K → K)) : Static K → List Line → List (Static K)
  | _, [] => []
  | st, t :: ts => initSize parse t st :: sizesUsed parse (initSize parse t st) ts

/-- A program that makes a size function for each text and keeps them: what the i-th one evaluates afterwards. -/
def keptSizes (parse : Line → Option (Pt K → K)) (ts : List Line) : List (Pt K → Option K) :=
  let st := ts.foldl (fun st t => initSize parse t st) none
  ts.map fun _ => callSize st

/-- `std::stod`: the longest beginning of the text that is a number (src/app/size_function.cpp:49); `none`: an exception. White space in front
is left out. -/
def stodPrefix (number : Line → Option K) (t : Line) : Option K := (List.range (t.length + 1)).reverse.findSome? fun m => number (t.take m)

/-- `init_size_function` without the expression library (src/app/size_function.cpp:49-56). -/
def initConst (number : Line → Option K) (t : Line) : Option (Pt K → K) := (stodPrefix number t).map fun s _ => s

end TQ.Ex
