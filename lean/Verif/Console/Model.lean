import Verif.Writer.Model

/-! # Model of the console output: `src/utils/Log.h`, `src/utils/ProgressBar.h`

Text is the list of its characters. A stream is what has been written to it. -/

set_option linter.unusedSectionVars false

namespace TQ.Con
open TQ.VT

/-- `LogLevel` (src/utils/Log.h:20-21) in the order of the enumeration. -/
inductive Level | ERROR | WARNING | INFO | DEBUG
deriving DecidableEq, Repr

/-- The number of a level (src/utils/Log.h:20-21). -/
def Level.num : Level → Nat
  | .ERROR => 0 | .WARNING => 1 | .INFO => 2 | .DEBUG => 3

/-- `OStreamType` (src/utils/Log.h:23-24). -/
inductive Stream | cout | cerr | clog | file
deriving DecidableEq, Repr

/-- The escape character `\033` (src/utils/Log.h:166), `\e` (src/utils/Log.h:293). -/
def esc : Char := Char.ofNat 27

/-- `LogProperties` (src/utils/Log.h:77-230); `color` is the number of the colour. -/
structure LogProps where
  level : Level
  showHeader : Bool
  useNewline : Bool
  useColor : Bool
  header : Level → Txt
  stream : Level → Stream
  color : Level → Nat

/-- `get_color` (src/utils/Log.h:164-185), also for an own colour (src/utils/Log.h:275-277). -/
def colorTxt (n : Nat) : Txt := esc :: '[' :: natTxt n ++ ['m']

/-- A `LOG` object: `opened_` and what it has written to the stream of its level (src/utils/Log.h:321-322). -/
structure Log where
  opened : Bool
  out : Txt

/-- `operator<<` (src/utils/Log.h:306-315). -/
def Log.put (P : LogProps) (v : Level) (o : Log) (msg : Txt) : Log := if v.num ≤ P.level.num then ⟨true, o.out ++ msg⟩ else o

/-- Whether colours are written (src/utils/Log.h:257-258, 272-273, 291-292). -/
def LogProps.colored (P : LogProps) (v : Level) : Bool := P.useColor && decide (P.stream v ≠ .file)

/-- The constructors (src/utils/Log.h:253-263, 268-283); `col` is an own colour. -/
def Log.make (P : LogProps) (v : Level) (col : Option Nat) : Log :=
  let o : Log := ⟨false, []⟩
  let o := if P.colored v then o.put P v (colorTxt (col.getD (P.color v))) else o
  if P.showHeader then o.put P v (P.header v) else o

/-- The destructor (src/utils/Log.h:288-301). -/
def Log.close (P : LogProps) (v : Level) (o : Log) : Txt :=
  let o := if P.colored v then o.put P v [esc, '[', '0', 'm'] else o
  if o.opened && P.useNewline then o.out ++ ['\n'] else o.out

/-- A statement `LOG(v) << m1 << m2 …;` or `LOG(v, col) << …;` (src/utils/Log.h:242-324): what is written to the stream of the level. -/
def logStmt (P : LogProps) (v : Level) (col : Option Nat) (msgs : List Txt) : Txt := Log.close P v (msgs.foldl (Log.put P v) (Log.make P v col))

/-- `ProgressBar` (src/utils/ProgressBar.h:67-70). -/
structure Bar where
  width : Nat
  progress : Int
  update : Bool
deriving DecidableEq

/-- A new bar (src/utils/ProgressBar.h:24-26, 68-70). -/
def Bar.new (w : Nat) : Bar := ⟨w, 0, false⟩

/-- `update` (src/utils/ProgressBar.h:31-44). -/
def Bar.set (b : Bar) (prog : Int) : Bar :=
  let p := min 100 (max 0 prog)
  if p ≤ b.progress then { b with update := false } else { b with progress := p, update := true }

/-- The signs of the bar (src/utils/ProgressBar.h:56-60). -/
def barTxt (w : Nat) (pos : Int) : Txt :=
  (List.range w).map fun i : Nat => if (i : Int) < pos then '=' else if (i : Int) = pos then '>' else ' '

/-- `show` (src/utils/ProgressBar.h:49-64); `width_ * progress_` fits to `int` as both are small. -/
def Bar.show (b : Bar) : Txt :=
  if !b.update then [] else "# [".toList ++ barTxt b.width ((b.width * b.progress) / 100) ++ "] ".toList ++ intTxt b.progress ++ " %\r".toList

/-- `update_progress_bar` (src/algorithm/MeshingStrategy.h:114-121): the bar and what is written to the stream of the level `INFO`.
Undefined (`none`) if the value does not fit to `int`, in particular without domain area. -/
def progress (b : Bar) (meshArea domArea : ℚ) : Option (Bar × Txt) :=
  if domArea = 0 then none
  else
    let v := ⌈100 * meshArea / domArea⌉
    if -2147483648 ≤ v ∧ v ≤ 2147483647 then some (b.set v, (b.set v).show) else none

/-- What the program does to the console: a log statement, a new progress bar (one for each meshing strategy, src/algorithm/MeshingStrategy.h:131),
an update of the bar with this percentage, or `std::cout << mesh` (src/algorithm/MeshWriter.h:59-61). -/
inductive Ev
  | log (v : Level) (col : Option Nat) (msgs : List Txt)
  | newBar
  | bar (pct : Int)
  | mesh (t : Txt)

/-- The standard output of a sequence of events, and the bar. -/
def stdout (P : LogProps) : Bar → List Ev → Txt
  | _, [] => []
  | b, .log v col ms :: es => (if P.stream v = .cout then logStmt P v col ms else []) ++ stdout P b es
  | _, .newBar :: es => stdout P (Bar.new 70) es
  | b, .bar p :: es => (if P.stream .INFO = .cout then (b.set p).show else []) ++ stdout P (b.set p) es
  | b, .mesh t :: es => t ++ stdout P b es

/-- The settings of the program (src/app/main.cpp:40-46, src/utils/Log.h:200-228). -/
def mainProps : LogProps where
  level := .INFO
  showHeader := true
  useNewline := true
  useColor := true
  header := fun
    | .ERROR => "  [ERROR] ".toList
    | .WARNING => "  [WARNING] ".toList
    | .INFO => "  ".toList
    | .DEBUG => "# ".toList
  stream := fun _ => .cout
  color := fun
    | .ERROR => 31
    | .WARNING => 33
    | .INFO => 39
    | .DEBUG => 39

/-- `print_header` (src/app/main.cpp:19-32); `major`, `minor` are the version numbers. -/
def banner (major minor : Txt) : List Ev :=
  [[[]], ["   - - - - - - - - - - - - - - - - - - -  ".toList], ["  | TQMesh - A simple 2D mesh generator | ".toList],
    ["   - - - - - - - - - - - - - - - - - - -  ".toList], [[]], ["  by Florian Setzwein".toList], [[]],
    ["  Version ".toList, major, ".".toList, minor], [[]]].map (Ev.log .INFO none)

/-- A run of the program with output on the console (src/app/main.cpp:51-66, src/app/TQMeshApp.h:94-234, 941-955): the header, and for each mesh
what is logged before, the line break after the progress bar (src/app/TQMeshApp.h:205) and the mesh (src/app/TQMeshApp.h:222); `post` is logged
at the end. What is logged before a mesh depends on the file; it is a parameter. -/
def program (major minor : Txt) (steps : List (List Ev × Txt)) (post : List Ev) : List Ev :=
  banner major minor ++ (steps.map fun st => st.1 ++ [.log .INFO none [['\n']], .mesh st.2]).flatten ++ post

end TQ.Con
