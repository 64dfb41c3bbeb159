import Verif.Reader.Model

/-! # Model of `print_parameter` -/

namespace TQ
namespace App
open PR

variable {T : Type*}

/-- The inner loops of `print_parameter` (src/app/TQMeshApp.h:47-53, 74-80): the values with a comma and a blank between them. `fmt` is the output operator of the type. -/
def echoRow (fmt : T → Line) : List T → Line
  | [] => []
  | [v] => fmt v
  | v :: w :: vs => fmt v ++ [',', ' '] ++ echoRow fmt (w :: vs)

/-- `print_parameter` (src/app/TQMeshApp.h:33-89): the texts given to the log, one for each statement. `none` is an access behind the end of the stored values. -/
def echo (fmt : T → Line) (p : Para T) : Option (List Line) :=
  match p.kind with
  | .matrix =>
    (((List.range p.nrow).mapM fun j => (List.range p.ncol).mapM fun i => p.value2 i j)).map fun rows =>
      p.startKey :: rows.map (echoRow fmt) ++ [p.endKey, []]
  | _ => ((List.range p.ncol).mapM p.value).map fun vs => [p.startKey ++ [' '] ++ echoRow fmt vs, []]

end App
end TQ
