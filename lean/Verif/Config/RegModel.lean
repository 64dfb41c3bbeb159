import Verif.Config.Model

/-!
# The parameters registered in a `ParaReader`

`para_list_` and `para_map_` of a `ParaBlock` (src/utils/ParaReader.h:951-952), the functions that fill them
and the functions that look parameters up, and the registrations and accesses of `src/app/TQMeshApp.h`.
-/

namespace TQ
namespace Rg
open PR

/-- The types of values of the parameters. -/
inductive Ty where
  | dbl
  | int
  | str
  | size
  | bool
deriving DecidableEq, Repr

/-- An entry of `para_list_`: a `Parameter<T>` with its kind, its keys and its number of columns, or a block.  The
values are left out (see `Verif/Reader`). -/
inductive Entry where
  | par (ty : Ty) (kind : Kind) (startKey endKey : Line) (cols : Nat)
  | block (startKey endKey : Line)
deriving DecidableEq, Repr

/-- `para_list_` and `para_map_` (src/utils/ParaReader.h:951-952). -/
structure Reg where
  list : List Entry := []
  map : List (Line × Nat) := []
deriving DecidableEq, Repr

/-- `para_map_.count(name)`, `para_map_[name]` for a known name. -/
def lookup (m : List (Line × Nat)) (n : Line) : Option Nat :=
  match m with
  | [] => none
  | (k, i) :: m => if k = n then some i else lookup m n

/-- `para_map_[name] = i` (src/utils/ParaReader.h:390, 419, 443, 469). -/
def assign (m : List (Line × Nat)) (n : Line) (i : Nat) : List (Line × Nat) :=
  match m with
  | [] => [(n, i)]
  | (k, j) :: m => if k = n then (k, i) :: m else (k, j) :: assign m n i

/-- The test for empty keys (src/utils/ParaReader.h:380-381, 408-409, 433-434, 459-460). -/
def keysOK : Entry → Bool
  | .par _ .matrix s e _ => decide (1 ≤ s.length) && decide (1 ≤ e.length)
  | .par _ _ s _ _ => decide (1 ≤ s.length)
  | .block s e => decide (1 ≤ s.length) && decide (1 ≤ e.length)

/-- `new_block_parameter`, `new_scalar_parameter`, `new_vector_parameter`, `new_matrix_parameter`
(src/utils/ParaReader.h:372-472).  `none`: the exception for a name that is in use or for an empty key. -/
def register (r : Reg) (n : Line) (e : Entry) : Option Reg :=
  if (lookup r.map n).isSome then none
  else if keysOK e = false then none
  else
    let l := r.list ++ [e]
    some ⟨l, assign r.map n (l.length - 1)⟩

/-- Several registrations. -/
def registerAll (r : Reg) : List (Line × Entry) → Option Reg
  | [] => some r
  | (n, e) :: h =>
    match register r n e with
    | some r => registerAll r h
    | none => none

/-- Outcome of a look-up. -/
inductive Got where
  | entry (e : Entry)
  /-- the exception for an unknown name -/
  | error
  /-- a reference is made from a null pointer, or the list is read behind its end -/
  | ub
deriving DecidableEq, Repr

/-- `get_parameter<T>` (src/utils/ParaReader.h:477-490): the `dynamic_cast` gives null for a block and for a
parameter of another type. -/
def getPara (r : Reg) (t : Ty) (n : Line) : Got :=
  match lookup r.map n with
  | none => .error
  | some i =>
    match r.list[i]? with
    | some (.par t' k s e c) => if t' = t then .entry (.par t' k s e c) else .ub
    | _ => .ub

/-- `get_block` (src/utils/ParaReader.h:495-508). -/
def getBlock (r : Reg) (n : Line) : Got :=
  match lookup r.map n with
  | none => .error
  | some i =>
    match r.list[i]? with
    | some (.block s e) => .entry (.block s e)
    | _ => .ub

/-! ## The application -/

/-- The registrations in the block of a mesh (src/app/TQMeshApp.h:983-1073). -/
def appNames : List (Line × Entry) :=
  [("output_prefix".toList, .par .str .scalar "Output file prefix:".toList [] 1),
   ("output_format".toList, .par .str .scalar "Output file format:".toList [] 1),
   ("vertices".toList, .par .dbl .matrix "Define boundary vertices:".toList "End boundary vertices".toList 4),
   ("size_function".toList, .par .str .scalar "Element size:".toList [] 1),
   ("elem_color".toList, .par .int .scalar "Element color:".toList [] 1),
   ("algorithm".toList, .par .str .scalar "Meshing algorithm:".toList [] 1),
   ("quad_refinements".toList, .par .size .scalar "Number of quad refinements:".toList [] 1),
   ("smoothing_iterations".toList, .par .size .scalar "Number of smoothing iterations:".toList [] 1),
   ("smooth_quad_layers".toList, .par .bool .scalar "Smooth quad layers:".toList [] 1),
   ("quad_layers".toList, .par .dbl .vector "Add quad layers:".toList [] 7),
   ("fixed_vertices".toList, .par .dbl .matrix "Define fixed vertices:".toList "End fixed vertices".toList 4),
   ("fixed_edges".toList, .par .int .matrix "Define fixed edges:".toList "End fixed edges".toList 2),
   ("extr_bdry_csv".toList, .par .str .scalar "Define exterior boundary from CSV file:".toList [] 1),
   ("intr_bdry_csv".toList, .par .str .scalar "Define interior boundary from CSV file:".toList [] 1),
   ("extr_bdry_edges".toList, .par .int .matrix "Define exterior boundary edges:".toList
      "End exterior boundary edges".toList 3),
   ("intr_bdry_edges".toList, .par .int .matrix "Define interior boundary edges:".toList
      "End interior boundary edges".toList 3),
   ("extr_bdry_coords".toList, .par .dbl .matrix "Define exterior boundary:".toList
      "End exterior boundary".toList 5),
   ("intr_bdry_coords".toList, .par .dbl .matrix "Define interior boundary:".toList
      "End interior boundary".toList 5),
   ("extr_bdry_rect".toList, .par .dbl .vector "Define exterior rectangular boundary:".toList [] 7),
   ("intr_bdry_rect".toList, .par .dbl .vector "Define interior rectangular boundary:".toList [] 7),
   ("extr_bdry_circ".toList, .par .dbl .vector "Define exterior circular boundary:".toList [] 7),
   ("intr_bdry_circ".toList, .par .dbl .vector "Define interior circular boundary:".toList [] 7),
   ("extr_bdry_square".toList, .par .dbl .vector "Define exterior squared boundary:".toList [] 6),
   ("intr_bdry_square".toList, .par .dbl .vector "Define interior squared boundary:".toList [] 6),
   ("extr_bdry_triangle".toList, .par .dbl .vector "Define exterior triangular boundary:".toList [] 6),
   ("intr_bdry_triangle".toList, .par .dbl .vector "Define interior triangular boundary:".toList [] 6)]

/-- The registration of the block itself (src/app/TQMeshApp.h:977-978). -/
def appBlocks : List (Line × Entry) :=
  [("mesh_reader".toList, .block "Define mesh:".toList "End mesh".toList)]

/-- The accesses `query<T>`, `get_value<T>`, `get_parameter<T>` and `print_parameter<T>` of the application
(src/app/TQMeshApp.h:246-870): name, type and the number of columns that are read.  All accesses to a name have
the same type; the line numbers of the first access are given. -/
def appAccesses : List (Line × Ty × Nat) :=
  [("smoothing_iterations".toList, .size, 1),   -- 246-249
   ("smooth_quad_layers".toList, .bool, 1),     -- 252-255
   ("quad_refinements".toList, .size, 1),       -- 267-270
   ("algorithm".toList, .str, 1),               -- 282-285
   ("elem_color".toList, .int, 1),              -- 297-300
   ("quad_layers".toList, .dbl, 7),             -- 318-333
   ("fixed_vertices".toList, .dbl, 4),          -- 348-360
   ("fixed_edges".toList, .int, 2),             -- 379-391
   ("intr_bdry_edges".toList, .int, 3),         -- 420-435
   ("intr_bdry_coords".toList, .dbl, 5),        -- 452-470
   ("intr_bdry_rect".toList, .dbl, 7),          -- 486-500
   ("intr_bdry_circ".toList, .dbl, 7),          -- 507-521
   ("intr_bdry_square".toList, .dbl, 6),        -- 527-540
   ("intr_bdry_triangle".toList, .dbl, 6),      -- 546-559
   ("intr_bdry_csv".toList, .str, 1),           -- 565-572
   ("extr_bdry_edges".toList, .int, 3),         -- 589-616
   ("extr_bdry_coords".toList, .dbl, 5),        -- 622-652
   ("extr_bdry_rect".toList, .dbl, 7),          -- 659-674
   ("extr_bdry_circ".toList, .dbl, 7),          -- 682-697
   ("extr_bdry_square".toList, .dbl, 6),        -- 705-719
   ("extr_bdry_triangle".toList, .dbl, 6),      -- 727-741
   ("extr_bdry_csv".toList, .str, 1),           -- 749-755
   ("size_function".toList, .str, 1),           -- 790-796, 870
   ("vertices".toList, .dbl, 4),                -- 814-829
   ("output_prefix".toList, .str, 1),           -- 858-867
   ("output_format".toList, .str, 1)]           -- 861-868

/-- The texts of the names of `Cf.Name` (src/app/TQMeshApp.h:983-1073). -/
def text : Cf.Name → Line
  | .outPrefix => "output_prefix".toList
  | .outFormat => "output_format".toList
  | .vertices => "vertices".toList
  | .size => "size_function".toList
  | .color => "elem_color".toList
  | .algorithm => "algorithm".toList
  | .refinements => "quad_refinements".toList
  | .smoothing => "smoothing_iterations".toList
  | .smoothLayers => "smooth_quad_layers".toList
  | .layers => "quad_layers".toList
  | .fixedVerts => "fixed_vertices".toList
  | .fixedEdges => "fixed_edges".toList
  | .csv .exterior => "extr_bdry_csv".toList
  | .csv .interior => "intr_bdry_csv".toList
  | .edges .exterior => "extr_bdry_edges".toList
  | .edges .interior => "intr_bdry_edges".toList
  | .coords .exterior => "extr_bdry_coords".toList
  | .coords .interior => "intr_bdry_coords".toList
  | .rect .exterior => "extr_bdry_rect".toList
  | .rect .interior => "intr_bdry_rect".toList
  | .circ .exterior => "extr_bdry_circ".toList
  | .circ .interior => "intr_bdry_circ".toList
  | .square .exterior => "extr_bdry_square".toList
  | .square .interior => "intr_bdry_square".toList
  | .triangle .exterior => "extr_bdry_triangle".toList
  | .triangle .interior => "intr_bdry_triangle".toList

/-- The field of `Cf.Reader` that the model of the application uses for a name (`askD`, `askI`, `askS`, `askN`,
`askB` in `Verif/Config/Model.lean`). -/
def fieldOf : Cf.Name → Ty
  | .outPrefix | .outFormat | .size | .algorithm | .csv _ => .str
  | .color | .fixedEdges | .edges _ => .int
  | .refinements | .smoothing => .size
  | .smoothLayers => .bool
  | _ => .dbl

end Rg
end TQ
