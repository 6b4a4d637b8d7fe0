/-!
Model of `include/zensim/io/MeshIO.hpp` ("H") and `include/zensim/io/MeshIO.cpp` ("C"): files of tetrahedron and triangle meshes.

A text is a list of characters.  How a coordinate is printed (`operator<<`) and read (`operator>>`) is given by `Num`; indices are natural numbers, printed in
decimal and without bounds.  A number that cannot be read makes the whole result `none` (the code goes on with zero); opening and closing files, and messages, are not
modelled.
-/
namespace Verif.MeshIO

abbrev Text := List Char

/-- Printing and reading of coordinates. -/
structure Num (α : Type) where
  print : α → Text
  parse : Text → Option α

/-! ## Streams -/

/-- `isspace`. -/
def isWs (c : Char) : Bool := c = ' ' || (9 ≤ c.toNat && c.toNat ≤ 13)

/-- `std::getline` until the end. -/
def getlines : Text → List Text
  | [] => []
  | c :: cs => if c = '\n' then [] :: getlines cs else
    match getlines cs with
    | [] => [[c]]
    | l :: ls => (c :: l) :: ls

/-- `ss.ignore(n, ' ')`. -/
def ignore : Nat → Text → Text
  | 0, s => s
  | _ + 1, [] => []
  | n + 1, c :: cs => if c = ' ' then cs else ignore n cs

/-- `ss >> x` for an unsigned integer: its value and what is left. -/
def readNat (s : Text) : Option (Nat × Text) :=
  let s := s.dropWhile isWs
  if s.takeWhile Char.isDigit = [] then none else some (Nat.ofDigitChars 10 (s.takeWhile Char.isDigit) 0, s.dropWhile Char.isDigit)

/-- `ss >> x` for a coordinate. -/
def readNum {α : Type} (N : Num α) (s : Text) : Option (α × Text) :=
  let s := s.dropWhile isWs
  (N.parse (s.takeWhile fun c => !isWs c)).map fun x => (x, s.dropWhile fun c => !isWs c)

/-- `os << n`. -/
def printNat (n : Nat) : Text := Nat.toDigits 10 n

/-- Words with blanks between them. -/
def spaced : List Text → Text
  | [] => []
  | [w] => w
  | w :: ws => w ++ ' ' :: spaced ws

/-- Lines, each ended. -/
def unlines (ls : List Text) : Text := ls.flatMap fun l => l ++ ['\n']

/-! ## Tetrahedra -/

abbrev Pt (α : Type) := α × α × α
abbrev Tet := Nat × Nat × Nat × Nat

/-- The words of the format. -/
def kwPoints : Text := ['P', 'O', 'I', 'N', 'T', 'S']
def kwCells : Text := ['C', 'E', 'L', 'L', 'S']
def kwTypes : Text := ['C', 'E', 'L', 'L', '_', 'T', 'Y', 'P', 'E', 'S']
def kwFloat : Text := ['f', 'l', 'o', 'a', 't']
def kwDouble : Text := ['d', 'o', 'u', 'b', 'l', 'e']

/-- H lines 139-142. -/
def header : List Text :=
  [['#', ' ', 'v', 't', 'k', ' ', 'D', 'a', 't', 'a', 'F', 'i', 'l', 'e', ' ', 'V', 'e', 'r', 's', 'i', 'o', 'n', ' ', '2', '.', '0'],
   ['U', 'n', 's', 't', 'r', 'u', 'c', 't', 'u', 'r', 'e', 'd', ' ', 'G', 'r', 'i', 'd'],
   ['A', 'S', 'C', 'I', 'I'],
   ['D', 'A', 'T', 'A', 'S', 'E', 'T', ' ', 'U', 'N', 'S', 'T', 'R', 'U', 'C', 'T', 'U', 'R', 'E', 'D', '_', 'G', 'R', 'I', 'D']]

/-- A point, H line 150. -/
def ptLine {α : Type} (N : Num α) (x : Pt α) : Text := spaced [N.print x.1, N.print x.2.1, N.print x.2.2]

/-- A tetrahedron, H line 155. -/
def tetLine (m : Tet) : Text := spaced [['4'], printNat m.1, printNat m.2.1, printNat m.2.2.1, printNat m.2.2.2]

/-- `write_tet_mesh_vtk`, H lines 122-164; `isFloat` is the type of the coordinates. -/
def writeVtk {α : Type} (N : Num α) (isFloat : Bool) (X : List (Pt α)) (T : List Tet) : Text :=
  unlines (header ++ [spaced [kwPoints, printNat X.length, if isFloat then kwFloat else kwDouble]] ++ X.map (ptLine N) ++ [[]] ++
    [spaced [kwCells, printNat T.length, printNat (5 * T.length)]] ++ T.map tetLine ++ [[]] ++
    [spaced [kwTypes, printNat T.length]] ++ T.map fun _ => ['1', '0'])

/-- The variables of the reader, H lines 43-55. -/
structure St (α : Type) where
  points : Bool
  tets : Bool
  nPoints : Nat
  nTets : Nat
  X : List (Pt α)
  T : List Tet

/-- Reading a point, H line 74. -/
def readPt {α : Type} (N : Num α) (l : Text) : Option (Pt α) :=
  (readNum N l).bind fun a => (readNum N a.2).bind fun b => (readNum N b.2).map fun c => (a.1, b.1, c.1)

/-- Reading the indices of a tetrahedron, H lines 79-82. -/
def readTet (shift : Nat) (l : Text) : Option Tet :=
  (readNat l).bind fun a => (readNat a.2).bind fun b => (readNat b.2).bind fun c => (readNat c.2).map fun d =>
    (a.1 + shift, b.1 + shift, c.1 + shift, d.1 + shift)

/-- A line, H lines 58-84. -/
def step {α : Type} (N : Num α) (shift : Nat) (st : St α) (l : Text) : Option (St α) :=
  if l = [] then some st
  else if l.take 6 = kwPoints then (readNat (ignore 128 l)).map fun n => { st with points := true, tets := false, nPoints := n.1 }
  else if l.take 5 = kwCells then (readNat (ignore 128 l)).map fun n => { st with points := false, tets := true, nTets := n.1 }
  else if l.take 10 = kwTypes then some { st with points := false, tets := false }
  else if st.points then (readPt N l).map fun x => { st with X := st.X ++ [x] }
  else if st.tets then (readTet shift (ignore 128 l)).map fun t => { st with T := st.T ++ [t] }
  else some st

/-- All lines. -/
def steps {α : Type} (N : Num α) (shift : Nat) : List Text → St α → Option (St α)
  | [], st => some st
  | l :: ls, st => (step N shift st l).bind (steps N shift ls)

/-- `read_tet_mesh_vtk`, H lines 32-94, which appends to the mesh; `none` also if the numbers differ from those announced (lines 88-90). -/
def readVtk {α : Type} (N : Num α) (X : List (Pt α)) (T : List Tet) (text : Text) : Option (List (Pt α) × List Tet) :=
  (steps N X.length (getlines text) ⟨false, false, 0, 0, X, T⟩).bind fun st =>
    if st.nPoints = st.X.length - X.length ∧ st.nTets = st.T.length - T.length then some (st.X, st.T) else none

/-! ## Triangles -/

/-- `write_tri_mesh_obj` with three coordinates, H lines 96-120. -/
def writeObj {α : Type} (N : Num α) (X : List (Pt α)) (T : List (Nat × Nat × Nat)) : Text :=
  unlines (X.map (fun x => spaced [['v'], N.print x.1, N.print x.2.1, N.print x.2.2]) ++ [[]] ++
    T.map fun f => spaced [['f'], printNat (f.1 + 1), printNat (f.2.1 + 1), printNat (f.2.2 + 1)])

/-- `write_tri_mesh_obj` with two coordinates: the third is zero, lines 108-109. -/
def writeObj2 {α : Type} (N : Num α) (X : List (α × α)) (T : List (Nat × Nat × Nat)) : Text :=
  unlines (X.map (fun x => spaced [['v'], N.print x.1, N.print x.2, ['0']]) ++ [[]] ++
    T.map fun f => spaced [['f'], printNat (f.1 + 1), printNat (f.2.1 + 1), printNat (f.2.2 + 1)])

/-- A mesh as `load_obj` fills it. -/
structure Mesh (α : Type) where
  pos : List (Pt α)
  nrm : List (Pt α)
  tris : List (List Nat)

/-- What the library `tinyobj` returns: positions, normals, and for each shape the triangles, whose corners have an index of the position and perhaps one of the
normal. -/
structure Obj (α : Type) where
  vertices : List (Pt α)
  normals : List (Pt α)
  shapes : List (List (List (Nat × Option Nat)))

/-- The normal of a corner, C lines 84-87; `none` is an index outside of an array. -/
def setNormal {α : Type} (o : Obj α) (offset : Nat) (nrm : List (Pt α)) (c : Nat × Option Nat) : Option (List (Pt α)) :=
  match c.2 with
  | none => some nrm
  | some n => (o.normals[n]?).bind fun x => if offset + c.1 < nrm.length then some (nrm.set (offset + c.1) x) else none

/-- Normals of corners in turn. -/
def setNormals {α : Type} (o : Obj α) (offset : Nat) : List (Nat × Option Nat) → List (Pt α) → Option (List (Pt α))
  | [], nrm => some nrm
  | c :: cs, nrm => (setNormal o offset nrm c).bind (setNormals o offset cs)

/-- `load_obj`, C lines 11-99, where the file has normals (otherwise they are computed, C106), without texture coordinates: it appends to the mesh. -/
def loadObj {α : Type} (zero : Pt α) (m : Mesh α) (o : Obj α) : Option (Mesh α) :=
  (setNormals o m.nrm.length (o.shapes.flatten.flatten) (m.nrm ++ List.replicate o.vertices.length zero)).map fun nrm =>
    ⟨m.pos ++ o.vertices, nrm, m.tris ++ o.shapes.flatten.map fun f => f.map Prod.fst⟩

end Verif.MeshIO
