import Verif.Loop
import Verif.Containers
import Verif.Nav

/-! # Point clouds

src/pointcloud/point_cloud.cpp with the containers `PointData = MeshData<Point, T>` registered with the cloud. Counters are unbounded. Not
modelled: `modificationTick`, deregistration of containers, `copy`. -/

namespace GC

/-- `PointCloud`, point_cloud.h:89-118, and its containers. -/
structure PC (T : Type) where
  pointValid : List Bool
  nPoints : ℕ
  cap : ℕ
  fill : ℕ
  compressed : Bool
  cs : List (Container T)

namespace PC
variable {T : Type}

/-- `PointCloud(nPts)`, point_cloud.cpp:13-24. -/
def create (nPts : ℕ) : PC T := ⟨List.replicate nPts true, nPts, nPts, nPts, true, []⟩

/-- `std::vector::resize`. -/
def resize (l : List Bool) (n : ℕ) : List Bool := l.take n ++ List.replicate (n - l.length) false

/-- `getNewPoint`, point_cloud.cpp:94-127. -/
def getNewPoint (s : PC T) : Res (PC T × ℕ) :=
  let s := if s.fill < s.cap then s
    else
      let newCapacity := s.cap * 2;
      { s with pointValid := resize s.pointValid newCapacity, cap := newCapacity, cs := s.cs.map (·.expand newCapacity) }
  match wr s.pointValid s.fill true with
  | .error e => .error e
  | .ok v => .ok ({ s with pointValid := v, fill := s.fill + 1, nPoints := s.nPoints + 1, compressed := false }, s.fill)

/-- `deleteElement`, point_cloud.cpp:129-137. -/
def deleteElement (s : PC T) (iV : ℕ) : Res (PC T) :=
  match wr s.pointValid iV false with
  | .error e => .error e
  | .ok v => .ok { s with pointValid := v, nPoints := s.nPoints - 1, compressed := false }

/-- The loop that builds `newIndMap`, point_cloud.cpp:139-145 (`oldIndMap` is not used). -/
def mapStep (s : PC T) (newIndMap : List ℕ) (i : ℕ) : Res (List ℕ) :=
  match rd s.pointValid i with
  | .error e => .error e
  | .ok v => if v then .ok (newIndMap ++ [i]) else .ok newIndMap

/-- `compressPoints`, point_cloud.cpp:139-162. -/
def compressPoints (s : PC T) : Res (PC T) :=
  match (List.range s.fill).foldlM (mapStep s) [] with
  | .error e => .error e
  | .ok newIndMap =>
    match newIndMap.mapM (fun i => rd s.pointValid i) with
    | .error e => .error e
    | .ok v => .ok { s with pointValid := v, fill := s.nPoints, cap := s.nPoints, cs := s.cs.map (·.permute newIndMap) }

/-- `compress`, point_cloud.cpp:165-172. -/
def compress (s : PC T) : Res (PC T) :=
  if s.compressed then .ok s
  else match s.compressPoints with
    | .error e => .error e
    | .ok s => .ok { s with compressed := true }

/-- `points()`, point_cloud.ipp:18, iterated with `RangeIteratorBase`. -/
def points (s : PC T) : Res (List ℕ) := rangeList (fun i => s.pointValid.getD i false) s.fill

/-- `getPointIndices`, point_cloud.cpp:36-44: a container of numbers registered with the cloud. -/
def getPointIndices (s : PC T) : Res (Container ℕ) :=
  match s.points with
  | .error e => .error e
  | .ok l => .ok ((l.foldl (fun (st : Container ℕ × ℕ) p => (st.1.write p st.2, st.2 + 1)) (Container.create s.cap 0, 0)).1)

/-- What can be done with a cloud and its containers. -/
inductive Op (T : Type) where
  | add
  | del (i : ℕ)
  | compress
  | newData (d : T)
  | assign (c i : ℕ) (v : T)

def step (s : PC T) : Op T → Res (PC T)
  | .add => match s.getNewPoint with
    | .error e => .error e
    | .ok (s, _) => .ok s
  | .del i => s.deleteElement i
  | .compress => s.compress
  | .newData d => .ok { s with cs := s.cs ++ [Container.create s.cap d] }
  | .assign c i v => match s.cs[c]? with
    | none => .error .ub
    | some x => if i < x.size then .ok { s with cs := s.cs.set c (x.write i v) } else .error .ub

def run (s : PC T) : List (Op T) → Res (PC T)
  | [] => .ok s
  | op :: ops => match s.step op with
    | .error e => .error e
    | .ok s' => s'.run ops

end PC
end GC
