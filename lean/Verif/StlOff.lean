import Verif.Obj

/-!
# STL and OFF files

Code modelled: `readMeshFromAsciiStlFile`, `readMeshFromBinaryStlFile`, `readMeshFromStlFile` and `readMeshFromOffFile`
(src/surface/simple_polygon_mesh.cpp:235-422) with the stream operator of `Vector3` (vector3.ipp:166-171).

A file is its list of characters, one for each byte, read from the beginning. Doubles are those of `Obj.Num`; a double that was not
extracted holds `junk`, as there. A `size_t` that was not extracted and then used is undefined behaviour, as are bytes that were not
read and then used. `flip n a b c` stands for the test `dot(cross(b - a, c - a), n) < 0`. Memory is not bounded: the source may also
throw where the model goes on to look for the lines that a count announces.
-/

namespace GC.Stl
open GC.Obj

/-- A `std::stringstream`: the characters left, or `none` once it has failed. -/
abbrev Stream := Option (List Char)

/-- `ss >> token` for a string that is empty. -/
def takeToken : Stream → List Char × Stream
  | none => ([], none)
  | some s => let t := getToken s; if t.1 = [] then ([], none) else (t.1, some t.2)

variable {D : Type}

/-- `ss >> x` for a `double`. -/
def takeD (N : Num D) (junk : D) : Stream → D × Stream
  | none => (junk, none)
  | some s => match N.get s with
    | none => (junk, none)
    | some (x, s) => (x, some s)

/-- `ss >> v` for a `Vector3`, vector3.ipp:166-171. -/
def takeVec (N : Num D) (junk : D) (ss : Stream) : (D × D × D) × Stream :=
  let x := takeD N junk ss
  let y := takeD N junk x.2
  let z := takeD N junk y.2
  ((x.1, y.1, z.1), z.2)

/-- `ss >> n` for a `size_t`: `none` if the variable is left as it was. No digits give zero, a value out of range the largest value,
and the stream fails; a minus sign gives the negative modulo 2^64. -/
def takeSize : Stream → Option ℕ × Stream
  | none => (none, none)
  | some s => match s.dropWhile isSpace with
    | [] => (none, none)
    | c :: cs =>
      let body := if c == '-' || c == '+' then cs else c :: cs
      let ds := body.takeWhile Char.isDigit
      if ds = [] then (some 0, none)
      else if 2 ^ 64 ≤ decVal ds then (some (2 ^ 64 - 1), none)
      else (some (if c == '-' then (2 ^ 64 - decVal ds) % 2 ^ 64 else decVal ds), some (body.dropWhile Char.isDigit))

/-! ## ASCII STL -/

/-- `assertToken`, simple_polygon_mesh.cpp:242-253. -/
def assertToken (expected : String) (ss : Stream) : Res Stream :=
  let t := takeToken ss
  if t.1 ≠ expected.toList then .error .throw else .ok t.2

/-- `nextLine` where the result is not used, simple_polygon_mesh.cpp:255-263: at the end of the file the stream stays. -/
def nextLine (ss : Stream) : List (List Char) → Stream × List (List Char)
  | [] => (ss, [])
  | l :: ls => (some l, ls)

/-- `startsWithToken`, simple_polygon_mesh.cpp:265-270. -/
def startsWithToken (line : List Char) (p : String) : Bool := (getToken line).1 == p.toList

/-- The members and the local variable filled by the readers. -/
structure St (D : Type) where
  verts : List (D × D × D)
  polys : List (List ℕ)

/-- The loop over the vertices, simple_polygon_mesh.cpp:288-296. -/
def vertexLoop (N : Num D) (junk : D) : List (List Char) → Stream → List (D × D × D) → List ℕ → Res (List (D × D × D) × List ℕ × Stream × List (List Char))
  | [], ss, verts, face => .ok (verts, face, ss, [])
  | l :: ls, _, verts, face =>
    if startsWithToken l "endloop" then .ok (verts, face, some l, ls)
    else do
      let ss ← assertToken "vertex" (some l)
      let p := takeVec N junk ss
      let verts := verts ++ [p.1]
      vertexLoop N junk ls p.2 verts (face ++ [verts.length - 1])

/-- The end of the loops over the faces, simple_polygon_mesh.cpp:301-308, 337-344. -/
def pushFace (flip : D × D × D → D × D × D → D × D × D → D × D × D → Bool) (n : D × D × D) (verts : List (D × D × D)) (face : List ℕ)
    (polys : List (List ℕ)) : Res (St D) :=
  match face with
  | a :: b :: c :: _ => match verts[a]?, verts[b]?, verts[c]? with
    | some pa, some pb, some pc => .ok ⟨verts, polys ++ [if flip n pa pb pc then face.reverse else face]⟩
    | _, _, _ => .error .ub
  | _ => .error .ub

/-- One pass of the loop over the facets, simple_polygon_mesh.cpp:275-308; `line` is the line read by the condition. -/
def facet (N : Num D) (junk : D) (flip : D × D × D → D × D × D → D × D × D → D × D × D → Bool) (line : List Char) (ls : List (List Char)) (st : St D) :
    Res (St D × List (List Char)) := do
  let ss ← assertToken "facet" (some line)
  let ss ← assertToken "normal" ss
  let n := takeVec N junk ss
  let x := nextLine n.2 ls
  let ss ← assertToken "outer" x.1
  let ss ← assertToken "loop" ss
  let r ← vertexLoop N junk x.2 ss st.verts []
  let x := nextLine r.2.2.1 r.2.2.2
  let _ ← assertToken "endfacet" x.1
  let st ← pushFace flip n.1 r.1 r.2.1 st.polys
  .ok (st, x.2)

/-- The loop over the facets; every pass takes at least one line, so the number of lines is enough fuel. -/
def facetLoop (N : Num D) (junk : D) (flip : D × D × D → D × D × D → D × D × D → D × D × D → Bool) : ℕ → List (List Char) → St D → Res (St D)
  | _, [], st => .ok st
  | 0, _ :: _, _ => .error .hang
  | k + 1, l :: ls, st =>
    if startsWithToken l "endsolid" then .ok st
    else do
      let r ← facet N junk flip l ls st
      facetLoop N junk flip k r.2 r.1

/-- `readMeshFromAsciiStlFile`, simple_polygon_mesh.cpp:235-310. -/
def readAsciiStl (N : Num D) (junk : D) (flip : D × D × D → D × D × D → D × D × D → D × D × D → Bool) (file : List Char) : Res (Soup (D × D × D) (D × D)) := do
  let ls := (nextLine none (splitLines '\n' file)).2
  let st ← facetLoop N junk flip ls.length ls ⟨[], []⟩
  .ok ⟨st.polys, st.verts, []⟩

/-! ## Binary STL -/

/-- `in.read(buffer, n)`: `none` if some byte of the buffer is not read. -/
def readBytes (n : ℕ) (s : List Char) : Option (List Char × List Char) := if n ≤ s.length then some (s.take n, s.drop n) else none

/-- An `unsigned int` on a machine with the least significant byte first. -/
def le32 (b : List Char) : ℕ := b.foldr (fun c a => c.toNat + 256 * a) 0

/-- `parseVector3`, simple_polygon_mesh.cpp:315-320; `fl` is the value of a `float` with the given bytes. -/
def parseVec (fl : List Char → D) (s : List Char) : Option ((D × D × D) × List Char) :=
  (readBytes 12 s).map fun r => ((fl (r.1.take 4), fl ((r.1.drop 4).take 4), fl (r.1.drop 8)), r.2)

/-- The loop over the vertices, simple_polygon_mesh.cpp:332-335, `k` more times. -/
def cornerLoop (fl : List Char → D) : ℕ → List Char → List (D × D × D) → List ℕ → Res (List (D × D × D) × List ℕ × List Char)
  | 0, s, verts, face => .ok (verts, face, s)
  | k + 1, s, verts, face => match parseVec fl s with
    | none => .error .ub
    | some (p, s) =>
      let verts := verts ++ [p]
      cornerLoop fl k s verts (face ++ [verts.length - 1])

/-- The loop over the triangles, simple_polygon_mesh.cpp:329-347; the two bytes at the end are not used. -/
def triangleLoop (fl : List Char → D) (flip : D × D × D → D × D × D → D × D × D → D × D × D → Bool) : ℕ → List Char → St D → Res (St D)
  | 0, _, st => .ok st
  | k + 1, s, st => match parseVec fl s with
    | none => .error .ub
    | some (n, s) => do
      let r ← cornerLoop fl 3 s st.verts []
      let st ← pushFace flip n r.1 r.2.1 st.polys
      triangleLoop fl flip k (r.2.2.drop 2) st

/-- `readMeshFromBinaryStlFile`, simple_polygon_mesh.cpp:312-348. -/
def readBinaryStl (fl : List Char → D) (flip : D × D × D → D × D × D → D × D × D → D × D × D → Bool) (file : List Char) : Res (Soup (D × D × D) (D × D)) :=
  match readBytes 4 (file.drop 80) with
  | none => .error .ub
  | some (b, s) => do
    let st ← triangleLoop fl flip (le32 b) s ⟨[], []⟩
    .ok ⟨st.polys, st.verts, []⟩

/-- `readMeshFromStlFile`, simple_polygon_mesh.cpp:351-371. A file of fewer than five bytes leaves the stream in a failed state, so that
nothing is read by the reader of binary files. -/
def readStl (N : Num D) (junk : D) (fl : List Char → D) (flip : D × D × D → D × D × D → D × D × D → D × D × D → Bool) (file : List Char) :
    Res (Soup (D × D × D) (D × D)) :=
  match readBytes 5 file with
  | none => .error .ub
  | some (b, _) => if b.map Char.toLower = "solid".toList then readAsciiStl N junk flip file else readBinaryStl fl flip file

/-! ## OFF -/

/-- `getNextLine`, simple_polygon_mesh.cpp:377-385. -/
def dataLine : List (List Char) → Res (List Char × List (List Char))
  | [] => .error .throw
  | [] :: ls => dataLine ls
  | (c :: l) :: ls => if c = '#' then dataLine ls else .ok (c :: l, ls)

/-- The loop over the vertices, simple_polygon_mesh.cpp:399-405. -/
def offVerts (N : Num D) (junk : D) : ℕ → List (List Char) → Res (List (D × D × D) × List (List Char))
  | 0, ls => .ok ([], ls)
  | k + 1, ls => do
    let l ← dataLine ls
    let r ← offVerts N junk k l.2
    .ok ((takeVec N junk (some l.1)).1 :: r.1, r.2)

/-- The loop over the corners, simple_polygon_mesh.cpp:416-420, `k` more times; `ind` is not initialised. -/
def offCorners : ℕ → Stream → Res (List ℕ)
  | 0, _ => .ok []
  | k + 1, ss => match takeSize ss with
    | (none, _) => .error .ub
    | (some i, ss) => do
      let r ← offCorners k ss
      .ok (i :: r)

/-- One pass of the loop over the faces, simple_polygon_mesh.cpp:410-421; `degree` is not initialised. -/
def offFace (line : List Char) : Res (List ℕ) :=
  match takeSize (some line) with
  | (none, _) => .error .ub
  | (some d, ss) => offCorners d ss

/-- The loop over the faces, simple_polygon_mesh.cpp:409-421. -/
def offFaces : ℕ → List (List Char) → Res (List (List ℕ))
  | 0, _ => .ok []
  | k + 1, ls => do
    let l ← dataLine ls
    let f ← offFace l.1
    let r ← offFaces k l.2
    .ok (f :: r)

/-- `readMeshFromOffFile`, simple_polygon_mesh.cpp:373-422; `nVert` and `nFace` are not initialised. -/
def readOff (N : Num D) (junk : D) (file : List Char) : Res (Soup (D × D × D) (D × D)) := do
  let h ← dataLine (splitLines '\n' file)
  if ¬ "OFF".toList <+: h.1 then .error .throw else do
    let c ← dataLine h.2
    let nv := takeSize (some c.1)
    let nf := takeSize nv.2
    match nv.1, nf.1 with
    | some nVert, some nFace => do
      let v ← offVerts N junk nVert c.2
      let f ← offFaces nFace v.2
      .ok ⟨f, v.1, []⟩
    | _, _ => .error .ub

end GC.Stl
