import Verif.Soup

/-!
# Wavefront OBJ files: `readMeshFromObjFile`, `parseFaceIndex`, `writeMeshObj`

Code modelled: src/surface/simple_polygon_mesh.cpp:55-94, 167-232, 901-939 and the stream operator of `Vector3`
(include/geometrycentral/utilities/vector3.ipp:166-171).

A file is its list of characters, read and written character by character. The C++ streams are in their default state
(decimal integers, the "C" locale). A `double` is an element of an arbitrary type `D`; the pair `Num D` says how
`operator<<` prints one and what `operator>>` extracts from the characters left on the line. Only finite doubles are
meant: the source cannot read back what it prints for a NaN or an infinity. A variable whose extraction failed holds
`junk` (in the source: zero or an uninitialised value).

Simplification: when a line with a nonpositive vertex index is the last line of a file, the model throws; the source
does so if that line ends with a newline, otherwise it parses the same line again.
-/

namespace GC.Obj

/-- `std::isspace` in the "C" locale. -/
def isSpace (c : Char) : Bool :=
  c == ' ' || c == '\t' || c == '\n' || c == '\x0b' || c == '\x0c' || c == '\r'

/-- The sequence of strings the loop `while (getline(in, s, delim))` sees. -/
def splitLines (delim : Char) : List Char → List (List Char)
  | [] => []
  | c :: cs =>
    if c = delim then [] :: splitLines delim cs
    else match splitLines delim cs with
      | [] => [[c]]
      | l :: ls => (c :: l) :: ls

/-- `ss >> token` for a string: the token (empty if there is none) and the characters left. -/
def getToken (s : List Char) : List Char × List Char :=
  let t := s.dropWhile isSpace
  (t.takeWhile (fun c => !isSpace c), t.dropWhile (fun c => !isSpace c))

/-- The sequence of tokens the loop `while (ss >> token)` sees; `cur` is the token being read. -/
def tokens (cur : List Char) : List Char → List (List Char)
  | [] => if cur = [] then [] else [cur]
  | c :: cs =>
    if isSpace c then (if cur = [] then tokens [] cs else cur :: tokens [] cs)
    else tokens (cur ++ [c]) cs

/-- The value of a string of decimal digits. -/
def decVal (s : List Char) : ℕ := s.foldl (fun a c => 10 * a + (c.toNat - '0'.toNat)) 0

/-- `INT_MAX` for a 32-bit `int`. -/
def intMax : ℤ := 2147483647

/-- `ss >> i` for an `int` holding `old`: unchanged at the end of the stream, zero without digits, clamped when out of range. -/
def getInt (old : ℤ) (s : List Char) : ℤ :=
  match s.dropWhile isSpace with
  | [] => old
  | c :: cs =>
    let neg := c == '-'
    let body := if c == '-' || c == '+' then cs else c :: cs
    let ds := body.takeWhile Char.isDigit
    if ds = [] then 0
    else
      let v : ℤ := if neg then -(decVal ds : ℤ) else decVal ds
      if intMax < v then intMax else if v < -intMax - 1 then -intMax - 1 else v

/-- `Index`, simple_polygon_mesh.cpp:59-78. -/
structure Index where
  position : ℤ
  uv : ℤ
  normal : ℤ
deriving DecidableEq

/-- State of the loop of `parseFaceIndex`: `i` and the array `indices`. Writing `indices[3]` is undefined behaviour. -/
def indexStep (st : ℕ × (ℤ × ℤ × ℤ)) (part : List Char) : Res (ℕ × (ℤ × ℤ × ℤ)) :=
  if part = ['\\'] then .ok st
  else match st with
    | (0, (a, b, c)) => .ok (1, (getInt a part, b, c))
    | (1, (a, b, c)) => .ok (2, (a, getInt b part, c))
    | (2, (a, b, c)) => .ok (3, (a, b, getInt c part))
    | _ => .error .ub

/-- `parseFaceIndex`, simple_polygon_mesh.cpp:80-95. -/
def parseFaceIndex (token : List Char) : Res Index :=
  match (splitLines '/' token).foldlM indexStep (0, (1, 1, 1)) with
  | .error e => .error e
  | .ok (_, (a, b, c)) => .ok ⟨a - 1, b - 1, c - 1⟩

/-- Conversion of a `long long` to `size_t`. -/
def toSize (z : ℤ) : ℕ := (z % 2 ^ 64).toNat

/-- The loop over the corners of a face line, simple_polygon_mesh.cpp:199-213. `ls` are the lines of the file not yet
read; `face` and `uvs` are `face` and `faceCoordInds`. -/
def faceLoop : List (List Char) → List (List Char) → List ℕ → List ℕ → Res (List ℕ × List ℕ × List (List Char))
  | [], ls, face, uvs => .ok (face, uvs, ls)
  | token :: rest, ls, face, uvs =>
    match parseFaceIndex token with
    | .error e => .error e
    | .ok index =>
      if index.position < 0 then
        match ls with
        | [] => .error .throw
        | line :: ls =>
          match line.dropWhile isSpace with
          | [] => .error .throw
          | t => match parseFaceIndex t with
            | .error e => .error e
            | .ok index =>
              faceLoop rest ls (face ++ [toSize index.position]) (if index.uv ≠ -1 then uvs ++ [toSize index.uv] else uvs)
      else
        faceLoop rest ls (face ++ [toSize index.position]) (if index.uv ≠ -1 then uvs ++ [toSize index.uv] else uvs)

/-- How doubles are printed, and what `>>` extracts from the rest of a line (`none` if it fails). -/
structure Num (D : Type) where
  shw : D → List Char
  get : List Char → Option (D × List Char)

variable {D : Type}

/-- `ss >> x_1 >> … >> x_k`; after a failure nothing more is extracted. -/
def getDoubles (N : Num D) (junk : D) : ℕ → List Char → List D
  | 0, _ => []
  | k + 1, s => match N.get s with
    | none => List.replicate (k + 1) junk
    | some (x, s) => x :: getDoubles N junk k s

/-- The local variables and members filled by the reader. -/
structure RState (D : Type) where
  verts : List (D × D × D)
  coords : List (D × D)
  polys : List (List ℕ)
  polyCoordInds : List (List ℕ)

/-- One pass of `while (getline(in, line))`, simple_polygon_mesh.cpp:176-221. -/
def readLine (N : Num D) (junk : D) (line : List Char) (ls : List (List Char)) (st : RState D) :
    Res (RState D × List (List Char)) :=
  let t := getToken line
  if t.1 = ['v'] then
    match getDoubles N junk 3 t.2 with
    | [x, y, z] => .ok ({ st with verts := st.verts ++ [(x, y, z)] }, ls)
    | _ => .error .ub
  else if t.1 = ['v', 't'] then
    match getDoubles N junk 2 t.2 with
    | [u, v] => .ok ({ st with coords := st.coords ++ [(u, v)] }, ls)
    | _ => .error .ub
  else if t.1 = ['v', 'n'] then .ok (st, ls)
  else if t.1 = ['f'] then
    match faceLoop (tokens [] t.2) ls [] [] with
    | .error e => .error e
    | .ok (face, uvs, ls) =>
      .ok ({ st with polys := st.polys ++ [face],
                     polyCoordInds := if uvs = [] then st.polyCoordInds else st.polyCoordInds ++ [uvs] }, ls)
  else .ok (st, ls)

/-- The loop over the lines; every pass takes at least one line, so the number of lines is enough fuel. -/
def readLoop (N : Num D) (junk : D) : ℕ → List (List Char) → RState D → Res (RState D)
  | _, [], st => .ok st
  | 0, _ :: _, _ => .error .hang
  | k + 1, line :: ls, st => match readLine N junk line ls st with
    | .error e => .error e
    | .ok (st, ls) => readLoop N junk k ls st

/-- The unpacking of the corner coordinates, simple_polygon_mesh.cpp:223-231. -/
def unpack (coords : List (D × D)) (inds : List (List ℕ)) : List (List (D × D)) :=
  inds.map (fun f => f.filterMap (fun i => coords[i]?))

/-- `readMeshFromObjFile`, simple_polygon_mesh.cpp:167-232. -/
def readObj (N : Num D) (junk : D) (file : List Char) : Res (Soup (D × D × D) (D × D)) :=
  let ls := splitLines '\n' file
  match readLoop N junk ls.length ls ⟨[], [], [], []⟩ with
  | .error e => .error e
  | .ok st => .ok ⟨st.polys, st.verts, unpack st.coords st.polyCoordInds⟩

/-- `out << n` for a `size_t`. -/
def dec (n : ℕ) : List Char :=
  if n < 10 then [Char.ofNat (48 + n)] else dec (n / 10) ++ [Char.ofNat (48 + n % 10)]
decreasing_by omega

/-- A size_t incremented by one. -/
def succ64 (n : ℕ) : ℕ := (n + 1) % 2 ^ 64

/-- The header, simple_polygon_mesh.cpp:906-910. -/
def header (s : Soup (D × D × D) (D × D)) : List Char :=
  ('#' :: " Mesh exported from geometry-central".toList) ++ '\n' ::
    (('#' :: ("  vertices: ".toList ++ dec s.coords.length)) ++ '\n' ::
    (('#' :: ("     faces: ".toList ++ dec s.polygons.length)) ++ '\n' :: ['\n']))

/-- A vertex line, simple_polygon_mesh.cpp:913-915. -/
def vertLine (N : Num D) (p : D × D × D) : List Char :=
  'v' :: ' ' :: (N.shw p.1 ++ ' ' :: (N.shw p.2.1 ++ ' ' :: (N.shw p.2.2 ++ ['\n'])))

/-- A texture line, simple_polygon_mesh.cpp:919-923. -/
def texLine (N : Num D) (c : D × D) : List Char :=
  'v' :: 't' :: ' ' :: (N.shw c.1 ++ ' ' :: (N.shw c.2 ++ ['\n']))

/-- The loop over the corners of a face, simple_polygon_mesh.cpp:929-936, from the counter `iC`. -/
def writeCorners (hasP : Bool) : List ℕ → ℕ → List Char × ℕ
  | [], iC => ([], iC)
  | ind :: rest, iC =>
    let r := writeCorners hasP rest (if hasP then iC + 1 else iC)
    (' ' :: (dec (succ64 ind) ++ ((if hasP then '/' :: dec (succ64 iC) else []) ++ r.1)), r.2)

/-- The loop over the faces, simple_polygon_mesh.cpp:926-938. -/
def writeFaces (hasP : Bool) : List (List ℕ) → ℕ → List Char
  | [], _ => []
  | face :: rest, iC =>
    let r := writeCorners hasP face iC
    'f' :: (r.1 ++ '\n' :: writeFaces hasP rest r.2)

/-- `writeMeshObj`, simple_polygon_mesh.cpp:901-939. -/
def writeObj (N : Num D) (s : Soup (D × D × D) (D × D)) : List Char :=
  header s ++ ((s.coords.map (vertLine N)).flatten ++
    ((s.params.flatten.map (texLine N)).flatten ++ writeFaces (!s.params.isEmpty) s.polygons 0))

end GC.Obj
