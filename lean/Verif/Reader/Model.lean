import Mathlib.Data.List.Basic

/-!
# Model of `src/utils/ParaReader.h`

Text is a list of characters, the content of a file a list of lines. The conversion
`operator>>` of a value type (lines 902-913) is a parameter `conv : List Char → Option T`, `none`
being a failed conversion, which the code turns into an exception. `T{}` is a parameter `zero`.
Access to a line behind the end of the content is undefined behaviour and a separate outcome `ub`.
The `int` returned by `block_index()` (line 115) is identified with the number it stands for: files
with 2^31 lines are not considered.

Not modelled: the opening of the file and its errors (lines 918-949, apart from the skipping of
comment lines), the cast of a parameter to a wrong type in `get_parameter` (a null dereference),
nested blocks below the first level (the application has none).
-/

namespace TQ
namespace PR

/-- A line of text. -/
abbrev Line := List Char

/-- First place in the text `l` that starts at position `i` of a line where `q` begins: the loop inside `string::find`. -/
def findAt (q : Line) : Line → Nat → Option Nat
  | [], i => if q = [] then some i else none
  | c :: l, i => if q.isPrefixOf (c :: l) then some i else findAt q l (i + 1)

/-- `line.find(query, pos)`. -/
def find (q l : Line) (pos : Nat) : Option Nat :=
  if pos ≤ l.length then findAt q (l.drop pos) pos else none

/-- The inner loop of `get_query_data` (src/utils/ParaReader.h:159-170): the position found last. The first argument bounds the number of rounds; the position grows in each round, so that the length of the line suffices. -/
def lastHit (q l : Line) : Nat → Nat → Option Nat → Option Nat
  | 0, _, acc => acc
  | n + 1, pos, acc => match find q l pos with
    | none => acc
    | some i => lastHit q l n (i + 1) (some i)

/-- `block_start_`, `block_end_`, `block_index_` (src/utils/ParaReader.h:199-202). -/
structure Cur where
  bs : Nat
  be : Nat
  ix : Nat
deriving DecidableEq, Repr

/-- `QueryContainer` (src/utils/ParaReader.h:48-58): line and position in the line. `ub`: a line behind the end of the content is read. -/
inductive Hit where
  | ub
  | miss
  | at (line pos : Nat)
deriving DecidableEq, Repr

/-- The outer loop of `get_query_data` (src/utils/ParaReader.h:151-175) for `n` more lines beginning with `cur`. -/
def scan (q : Line) (content : List Line) : Nat → Nat → Hit
  | 0, _ => .miss
  | n + 1, cur => match content[cur]? with
    | none => .ub
    | some l => match lastHit q l (l.length + 1) 0 none with
      | some p => .at cur p
      | none => scan q content n (cur + 1)

/-- `reached_end` (src/utils/ParaReader.h:117). -/
def Cur.reachedEnd (c : Cur) : Bool := c.be ≤ c.ix

/-- `get_query_data` (src/utils/ParaReader.h:133-189): the result and the new indices. -/
def query (q : Line) (content : List Line) (c : Cur) : Hit × Cur :=
  if c.reachedEnd then (.miss, c)
  else match scan q content (c.be - (c.bs + c.ix)) (c.bs + c.ix) with
    | .at l p => (.at l p, { c with ix := l + 1 - c.bs })
    | r => (r, c)

/-- `ParaType` (src/utils/ParaReader.h:35-40) without blocks. -/
inductive Kind where
  | scalar
  | vector
  | matrix
deriving DecidableEq, Repr

/-- `Parameter` (src/utils/ParaReader.h:212-304) with the members of its base class. -/
structure Para (T : Type*) where
  kind : Kind
  startKey : Line
  endKey : Line
  cur : Cur
  found : Bool
  ncol : Nat
  nrow : Nat
  vals : List T

variable {T : Type*}

/-- Constructors (src/utils/ParaReader.h:219-237) as called by `new_*_parameter` (403-473). -/
def Para.new (kind : Kind) (startKey endKey : Line) (n : Nat) (zero : T) (bs be : Nat) : Para T :=
  ⟨kind, startKey, endKey, ⟨bs, be, 0⟩, false, n, 1, List.replicate n zero⟩

/-- `get_value(i)` (src/utils/ParaReader.h:242-247); `none` is an access behind the end of the vector. -/
def Para.value (p : Para T) (i : Nat) : Option T :=
  if p.ncol * p.nrow ≤ i then p.vals[0]? else p.vals[i]?

/-- `get_value(i,j)` (src/utils/ParaReader.h:249-255). -/
def Para.value2 (p : Para T) (i j : Nat) : Option T :=
  let index := j * p.ncol + i
  if p.ncol * p.nrow ≤ index then p.vals[0]? else p.vals[index]?

/-- `std::vector::resize`. -/
def resizeTo (n : Nat) (zero : T) (l : List T) : List T := l.take n ++ List.replicate (n - l.length) zero

/-- `resize` (src/utils/ParaReader.h:260-264). -/
def Para.resize (zero : T) (p : Para T) : Para T :=
  { p with nrow := 1, vals := resizeTo p.ncol zero p.vals }

/-- `set_value(i,val)` (src/utils/ParaReader.h:269-275). -/
def Para.setValue (p : Para T) (i : Nat) (v : T) : Para T :=
  if p.ncol * p.nrow ≤ i then p else { p with vals := p.vals.set i v }

/-- `add_row` (src/utils/ParaReader.h:286-294). -/
def Para.addRow (zero : T) (p : Para T) : Para T :=
  if p.kind ≠ .matrix then p
  else { p with nrow := p.nrow + 1, vals := p.vals ++ List.replicate p.ncol zero }

/-- Result of a query: `ub` is undefined behaviour, otherwise the returned flag and the new parameter. -/
inductive Res (T : Type*) where
  | ub
  | ret (b : Bool) (p : Para T)

/-- `substr(0, find('#'))` and removal of the blanks (src/utils/ParaReader.h:664-671, 705-712). -/
def strip (s : Line) : Line := (s.takeWhile (· ≠ '#')).filter (· ≠ ' ')

/-- `query_scalar` (src/utils/ParaReader.h:652-686). -/
def queryScalar (conv : Line → Option T) (content : List Line) (p : Para T) : Res T :=
  match query p.startKey content p.cur with
  | (.ub, _) => .ub
  | (.miss, c) => .ret false { p with cur := c }
  | (.at i pos, c) =>
    let p := { p with cur := c }
    match content[i]? with
    | none => .ub
    | some l => match conv (strip (l.drop (pos + p.startKey.length))) with
      | some v => .ret true { p.setValue 0 v with found := true }
      | none => .ret false p

/-- `std::getline(ss, s, d)` repeated until it fails: the pieces between the delimiters; nothing is read behind a delimiter at the very end. -/
def getlines (d : Char) : Line → List Line
  | [] => []
  | c :: l => if c = d then [] :: getlines d l else
    match l with
    | [] => [[c]]
    | c' :: l' => if c' = d then [c] :: getlines d l' else
      match getlines d (c' :: l') with
      | w :: ws => (c :: w) :: ws
      | [] => [[c]]

/-- Removal of parentheses (src/utils/ParaReader.h:810-814, 865-869). -/
def noParens (s : Line) : Line :=
  (((s.filter (· ≠ '(')).filter (· ≠ ')')).filter (· ≠ '[')).filter (· ≠ ']')

/-- The entries of one line (src/utils/ParaReader.h:799-832 and 856-887): converted entries; those that fail are replaced by the default value, if there is one, and dropped otherwise. -/
def entries (conv : Line → Option T) (dflt : Option T) (s : Line) : List T :=
  (getlines ',' s).filterMap fun e => match conv (noParens e) with
    | some v => some v
    | none => dflt

/-- Filling up with default values (src/utils/ParaReader.h:834-837, 889-892). -/
def fill (n : Nat) (dflt : Option T) (l : List T) : List T :=
  match dflt with
  | none => l
  | some d => l ++ List.replicate (n - l.length) d

/-- `process_vector_query` (src/utils/ParaReader.h:793-841). -/
def processVector (conv : Line → Option T) (dflt : Option T) (n : Nat) (s : Line) : List T :=
  fill n dflt (entries conv dflt s)

/-- `process_matrix_query` (src/utils/ParaReader.h:846-897). -/
def processMatrix (conv : Line → Option T) (dflt : Option T) (n : Nat) (ls : List Line) : List T :=
  ls.flatMap fun s => processVector conv dflt n s

/-- The loop of lines 726-727: `set_value(i, out[i])` for the columns `i, …, i+k-1`. -/
def setCols (out : List T) : Nat → Nat → Para T → Para T
  | 0, _, p => p
  | k + 1, i, p => match out[i]? with
    | none => p
    | some v => setCols out k (i + 1) (p.setValue i v)

/-- `query_vector` (src/utils/ParaReader.h:692-732). -/
def queryVector (conv : Line → Option T) (dflt : Option T) (content : List Line) (p : Para T) : Res T :=
  match query p.startKey content p.cur with
  | (.ub, _) => .ub
  | (.miss, c) => .ret false { p with cur := c }
  | (.at i pos, c) =>
    let p := { p with cur := c }
    match content[i]? with
    | none => .ub
    | some l =>
      let out := processVector conv dflt p.ncol (strip (l.drop (pos + p.startKey.length)))
      if out.length < p.ncol then .ret false p
      else .ret true { setCols out p.ncol 0 p with found := true }

/-- The loop of lines 771-781 from row `j` on with `k` more rows. `j < n_rows-1` holds for all rows but the last. -/
def setRows (zero : T) (out : List T) : Nat → Nat → Para T → Para T
  | 0, _, p => p
  | k + 1, j, p =>
    let p := setCols out p.ncol (j * p.ncol) p
    setRows zero out k (j + 1) (if k = 0 then p else p.addRow zero)

/-- `query_matrix` (src/utils/ParaReader.h:738-788). With zero columns line 763 divides by zero, which is undefined. -/
def queryMatrix (conv : Line → Option T) (zero : T) (dflt : Option T) (content : List Line) (p : Para T) : Res T :=
  match query p.startKey content p.cur with
  | (.ub, _) => .ub
  | (.miss, c) => .ret false { p with cur := c }
  | (.at s _, c) =>
    match query p.endKey content c with
    | (.ub, _) => .ub
    | (.miss, c) => .ret false { p with cur := c }
    | (.at e _, c) =>
      let p := { p with cur := c }
      if content.length < e then .ub
      else
        let out := processMatrix conv dflt p.ncol ((content.take e).drop (s + 1))
        if p.ncol = 0 then .ub
        else
          let rows := out.length / p.ncol
          if out.length ≠ p.ncol * rows then .ret false p
          else .ret true { setRows zero out rows 0 (p.resize zero) with found := true }

/-- `query<T>` (src/utils/ParaReader.h:571-598). -/
def queryPara (conv : Line → Option T) (zero : T) (dflt : Option T) (content : List Line) (p : Para T) : Res T :=
  match p.kind with
  | .scalar => queryScalar conv content p
  | .vector => queryVector conv dflt content p
  | .matrix => queryMatrix conv zero dflt content p

/-- A block parameter (src/utils/ParaReader.h:310-358): its keys, its indices and the indices of its parameters. -/
structure Block where
  startKey : Line
  endKey : Line
  cur : Cur
  paras : List Cur
deriving DecidableEq, Repr

/-- Result of a block query. -/
inductive BRes where
  | ub
  | ret (b : Bool) (blk : Block)
deriving DecidableEq, Repr

/-- `query(name)` for a block (src/utils/ParaReader.h:603-644). -/
def queryBlock (content : List Line) (b : Block) : BRes :=
  let cur := if b.cur.be < content.length then ⟨b.cur.be, content.length, 0⟩ else b.cur
  match query b.startKey content cur with
  | (.ub, _) => .ub
  | (.miss, c) => .ret false { b with cur := c }
  | (.at s _, c) =>
    match query b.endKey content c with
    | (.ub, _) => .ub
    | (.miss, c) => .ret false { b with cur := c }
    | (.at e _, c) =>
      .ret true { b with cur := ⟨s, e, c.ix⟩, paras := b.paras.map fun _ => ⟨s, e, 0⟩ }

/-- White space as seen by `isspace` in the default locale. -/
def isSpace (c : Char) : Bool := c = ' ' || c = '\t' || c = '\n' || c = '\r' || c = '\x0b' || c = '\x0c'

/-- `string_to_single_value<std::string>` (src/utils/ParaReader.h:902-914), that is `operator>>` for strings: leading white space is skipped, everything up to the next white space is read. -/
def convS (s : Line) : Option Line :=
  let w := (s.dropWhile isSpace).takeWhile fun c => !isSpace c
  if w = [] then none else some w

/-- `read_content` (src/utils/ParaReader.h:929-941): lines whose first visible character is `#` are left out. For an empty copy `l_cpy[0]` is the terminating zero. -/
def readContent (file : List Line) : List Line :=
  file.filter fun l => (l.filter fun c => !isSpace c).head? ≠ some '#'

end PR
end TQ
