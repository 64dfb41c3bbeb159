import Verif.App.Model

/-! # Model of `src/app/main.cpp` -/

namespace TQ
namespace App

/-- `main` (src/app/main.cpp:38-75): the exit status for the command line `args` (with the name of the program first). `files` gives the lines of a file, `none` if it cannot be read to its end
(src/utils/ParaReader.h:922-923, 943-946). An exception that is thrown by the reader (`Invalid`, src/utils/ParaReader.h:325-339) or by the application (`Error`, src/algorithm/Error.h:22-30) is
caught in lines 67-71. The output of the header and of the usage is left out. -/
def mainStatus (construct : List PR.Line → Nat → Nat × Nat → Option Bool) (files : List Char → Option (List PR.Line)) : List (List Char) → Nat
  | _ :: path :: _ => match files path with
    | none => 1
    | some file =>
      let r := run (construct (PR.readContent file)) (PR.readContent file)
      if r.exc then 1 else if r.ret then 0 else 1
  | _ => 0

end App
end TQ
