import Verif.FrontUpdate.Model
import Mathlib.Data.List.Sort

/-! # Model of the meshing loops (src/algorithm/Triangulation.h, src/algorithm/Front.h)

The state before the loops is a mesh with an initialised front.  `mesh_.clear_waste()` and the progress bar
are left out (no effect on the lists).  `n_elements` is converted to `int` in the code; the model uses natural
numbers, i.e. values below 2^31.  The loops have no visible bound, the model takes fuel. -/

set_option linter.unusedSectionVars false

namespace TQ
namespace TG
open MS FU
variable {K : Type*} [Field K] [LinearOrder K]

/-- `mesh_range_factor_`, `base_vertex_factor_`, `wide_search_factor_` (src/algorithm/Triangulation.h:323-325)
and the constant `h` (line 164). -/
structure Par (K : Type*) where
  rangeFactor : K
  baseFactor : K
  wideFactor : K
  h : K

/-- `Edge::length()` (src/algorithm/Edge.h:238-240). -/
def elen (env : Env K) (s : St K) (e : Nat) : K := env.norm (s.pos (s.E e).v2 - s.pos (s.E e).v1)

/-- `Edge::xy()` (src/algorithm/Edge.h:99). -/
def emid (s : St K) (e : Nat) : Pt K := Pt.smul (1 / 2) (s.pos (s.E e).v1 + s.pos (s.E e).v2)

/-- `Edge::normal()` (src/algorithm/Edge.h:241-244). -/
def enormal (env : Env K) (s : St K) (e : Nat) : Pt K :=
  ⟨-((s.pos (s.E e).v2 - s.pos (s.E e).v1).y / elen env s e),
    (s.pos (s.E e).v2 - s.pos (s.E e).v1).x / elen env s e⟩

/-- `advance_front_triangle` (src/algorithm/Triangulation.h:160-179). -/
def advTriangle (env : Env K) (par : Par K) (s : St K) (e : Nat) (wide : Bool) : St K × Option Nat :=
  let l1 := elen env s e * par.h * par.baseFactor
  let l2 := env.rho (emid s e)
  let len := cppMIN l1 l2
  let xy := emid s e + Pt.smul len (enormal env s e)
  let range := par.rangeFactor * len
  let range := if wide then range * par.wideFactor else range
  updateFront env s e xy xy range

/-- The front edges in the given order. -/
def setFront (s : St K) (l : List Nat) : St K := { s with es := upd s.es .front fun _ => l }

/-- `Front::sort_edges(ascending)` (src/algorithm/Front.h:171-193).  `std::list::sort` is stable and so is
insertion sort; both give the same list. -/
def sortFront (env : Env K) (ascending : Bool) (s : St K) : St K :=
  setFront s ((s.es .front).insertionSort fun a b =>
    if ascending then elen env s a ≤ elen env s b else elen env s b ≤ elen env s a)

/-- `Front::set_base_first` (src/algorithm/Front.h:142-148): returned pointer and new `base_`. -/
def baseFirst (s : St K) (fb : Option Nat) : Option Nat × Option Nat :=
  match s.es .front with
  | [] => (none, fb)
  | e :: _ => (some e, some e)

/-- The element after `b`, cyclically; `none` if `b` is not in the list. -/
def nextOf (l : List Nat) (b : Nat) : Option Nat :=
  match l.dropWhile (· ≠ b) with
  | [] => none
  | [_] => l.head?
  | _ :: c :: _ => some c

/-- `Front::set_base_next` (src/algorithm/Front.h:153-165): returned pointer and new `base_`; `none` if
`base_` is null or dangling (undefined behaviour). -/
def baseNext (s : St K) (fb : Option Nat) : Option (Option Nat × Option Nat) :=
  match s.es .front with
  | [] => some (none, fb)
  | _ :: _ =>
    match fb with
    | none => none
    | some b =>
      match nextOf (s.es .front) b with
      | none => none
      | some c => some (some c, some c)

/-- A record of one attempt: base edge, search mode, result.  Not part of the code; it makes the order of the
attempts visible to the theorems. -/
structure Try where
  edge : Nat
  wide : Bool
  ok : Bool
deriving DecidableEq

/-- The variables of a loop: mesh and front, the local `base_edge`, `front_.base_`, `iteration`,
`wide_search`, `n_generated_` and the record of the attempts. -/
structure Lp (K : Type*) where
  s : St K
  base : Option Nat
  fbase : Option Nat
  iter : Nat
  wide : Bool
  n : Nat
  log : List Try

/-- One turn of a loop: go on, return, or undefined behaviour. -/
inductive Turn (K : Type*) where
  | next (l : Lp K)
  | ret (b : Bool) (l : Lp K)
  | undef

/-- Checks at the end of a turn of the advancing front loop (src/algorithm/Triangulation.h:215-238). -/
def advChecks (nEl : Nat) (L : Lp K) : Turn K :=
  let m := (L.s.es .front).length
  let L := if L.iter = m ∧ L.wide = false then { L with wide := true, iter := 0 } else L
  if m = 0 then .ret true L
  else if 0 < nEl ∧ L.n = nEl then .ret true L
  else if L.iter = m ∧ L.wide = true then .ret false L
  else .next L

/-- One turn of `advancing_front_loop` (src/algorithm/Triangulation.h:189-239). -/
def advTurn (env : Env K) (par : Par K) (nEl : Nat) (L : Lp K) : Turn K :=
  match L.base with
  | none => .undef
  | some e =>
    match advTriangle env par L.s e L.wide with
    | (s', some _) =>
      let s'' := if L.wide then sortFront env false s' else s'
      let b := baseFirst s'' L.fbase
      advChecks nEl ⟨s'', b.1, b.2, 0, false, L.n + 1, L.log ++ [⟨e, L.wide, true⟩]⟩
    | (s', none) =>
      match baseNext s' L.fbase with
      | none => .undef
      | some b => advChecks nEl ⟨s', b.1, b.2, L.iter + 1, L.wide, L.n, L.log ++ [⟨e, L.wide, false⟩]⟩

/-- Result of a loop. -/
inductive Res (K : Type*) where
  | ret (b : Bool) (l : Lp K)
  | undef
  | fuel (l : Lp K)

/-- `advancing_front_loop` (src/algorithm/Triangulation.h:184-242). -/
def advLoop (env : Env K) (par : Par K) (nEl : Nat) : Nat → Lp K → Res K
  | 0, L => .fuel L
  | k + 1, L =>
    match advTurn env par nEl L with
    | .next L' => advLoop env par nEl k L'
    | .ret b L' => .ret b L'
    | .undef => .undef

/-- The walk of `exhaustive_search_triangle` (src/algorithm/Triangulation.h:297-317); `k` is
`front_.size() - i`, the third argument is `next_edge`. -/
def exhWalk (env : Env K) (base : Nat) : Nat → St K → Option Nat → St K × Bool
  | 0, s, _ => (s, false)
  | _ + 1, s, none => (s, false)
  | k + 1, s, some ne =>
    if ne = base then (s, false)
    else
      let v := (s.E ne).v2
      if v ≠ (s.E base).v1 ∧ v ≠ (s.E base).v2 then
        match updateFrontExhaustive env s base v with
        | (s', some _) => (s', true)
        | (s', none) => exhWalk env base k s' (s'.nextEdge ne)
      else exhWalk env base k s (s.nextEdge ne)

/-- `exhaustive_search_triangle` (src/algorithm/Triangulation.h:297-317). -/
def exhTriangle (env : Env K) (s : St K) (base : Nat) : St K × Bool :=
  exhWalk env base (s.es .front).length s (s.nextEdge base)

/-- Checks at the end of a turn of the exhaustive loop (src/algorithm/Triangulation.h:276-286). -/
def exhChecks (nEl : Nat) (L : Lp K) : Turn K :=
  let m := (L.s.es .front).length
  if L.base.isSome ∧ L.iter = m then .ret false L
  else if L.base.isNone ∧ L.iter = m then .ret true L
  else if m = 0 then .ret true L
  else if 0 < nEl ∧ L.n = nEl then .ret true L
  else .next L

/-- One turn of `exhaustive_search_loop` (src/algorithm/Triangulation.h:259-289). -/
def exhTurn (env : Env K) (nEl : Nat) (L : Lp K) : Turn K :=
  match L.base with
  | none => .ret true L
  | some e =>
    match exhTriangle env L.s e with
    | (s', true) =>
      let b := baseFirst s' L.fbase
      exhChecks nEl ⟨s', b.1, b.2, 0, L.wide, L.n + 1, L.log ++ [⟨e, L.wide, true⟩]⟩
    | (s', false) =>
      match baseNext s' L.fbase with
      | none => .undef
      | some b => exhChecks nEl ⟨s', b.1, b.2, L.iter + 1, L.wide, L.n, L.log ++ [⟨e, L.wide, false⟩]⟩

/-- The loop of `exhaustive_search_loop` (src/algorithm/Triangulation.h:259-289). -/
def exhLoop (env : Env K) (nEl : Nat) : Nat → Lp K → Res K
  | 0, L => .fuel L
  | k + 1, L =>
    match exhTurn env nEl L with
    | .next L' => exhLoop env nEl k L'
    | .ret b L' => .ret b L'
    | .undef => .undef

/-- Start of `exhaustive_search_loop` (src/algorithm/Triangulation.h:251-255): the edges are sorted in
ascending order and the counter is reset. -/
def exhStart (env : Env K) (s : St K) (fb : Option Nat) : Lp K :=
  let s' := sortFront env true s
  let b := baseFirst s' fb
  ⟨s', b.1, b.2, 0, true, 0, []⟩

/-- Start of the advancing front loop: `init_advancing_front` takes the base edge before sorting
(src/algorithm/MeshingStrategy.h:61-72); sorting resets `front_.base_` (src/algorithm/Front.h:190-191) but not
the returned pointer. -/
def advStart (env : Env K) (s : St K) : Lp K :=
  let b := baseFirst s none
  let s' := sortFront env false s
  ⟨s', b.1, (baseFirst s' b.2).2, 0, false, 0, []⟩

/-- Result of the meshing part of `generate_elements`: success, final state and number of triangles created
by both loops; undefined behaviour (a null base edge; `ASSERT` in debug builds); out of fuel. -/
inductive GRes (K : Type*) where
  | ret (success : Bool) (s : St K) (created : Nat)
  | undef
  | fuel

/-- The meshing part of `generate_elements` (src/algorithm/Triangulation.h:86-98) on a mesh with initialised
front.  `n_elements_ - n_generated_` is computed in `size_t`, converted to `int` and clipped at 0: truncated
subtraction. -/
def generate (env : Env K) (par : Par K) (nEl fuel : Nat) (s : St K) : GRes K :=
  match advLoop env par nEl fuel (advStart env s) with
  | .undef => .undef
  | .fuel _ => .fuel
  | .ret true L => .ret true L.s L.n
  | .ret false L =>
    match exhLoop env (nEl - L.n) fuel (exhStart env L.s L.fbase) with
    | .undef => .undef
    | .fuel _ => .fuel
    | .ret b L' => .ret b L'.s (L.n + L'.n)

/-- The meshing part of `generate_elements_exhaustive` (src/algorithm/Triangulation.h:137-143). -/
def generateExhaustive (env : Env K) (nEl fuel : Nat) (s : St K) : GRes K :=
  match exhLoop env nEl fuel (exhStart env (sortFront env false s) (baseFirst s none).2) with
  | .undef => .undef
  | .fuel _ => .fuel
  | .ret b L => .ret b L.s L.n

end TG
end TQ
