import Verif.Loop

/-!
# `MutationManager`: policies, constraints and the low-level mutations

Code modelled: src/surface/mutation_manager.cpp:12-290 and 338-404, the `Simple…Updater` classes of
include/geometrycentral/surface/mutation_manager.ipp:12-105 and `removeFromVector`
(include/geometrycentral/utilities/utilities.h:106-111).

A policy object is its address, a number. `kinds p k` tells whether `dynamic_cast` to the policy class of kind `k`
succeeds. Address `0` is the policy that `setConstraintCallbacks` registers in the constructor. A before-callback
stores a value in the member `data` of its object, computed by `pre` from what it can see; the after-callback gets it
back. Calling a virtual function of an object that has been deleted is undefined behaviour. Callbacks do not call the
manager or change the mesh. The mesh operations are arbitrary functions `Ops`; the constraint arrays are functions of
the element index, `none` if the array has size 0 (entries of elements that do not exist yet hold the default value,
see C17).
-/

namespace GC.Mut

inductive Kind | reposition | flip | split | collapse | faceSplit
deriving DecidableEq

/-- The operations of mesh and geometry the manager uses. `P` are split parameters (a number in [0,1] or barycentric
coordinates), `X` are positions. -/
structure Ops (M P X : Type) where
  flip : M → ℕ → Res (M × Bool)
  split : M → ℕ → Res (M × ℕ)
  /-- `newHeFront.prevOrbitFace().twin().prevOrbitFace().twin()` -/
  back : M → ℕ → Res ℕ
  collapse : M → ℕ → Res (M × Option ℕ)
  insert : M → ℕ → Res (M × ℕ)
  /-- `e.adjacentVertices()` -/
  ends : M → ℕ → List ℕ
  edge : ℕ → ℕ
  vertex : M → ℕ → ℕ
  /-- `if (geometry) pos[v] = x` -/
  place : M → ℕ → X → M
  /-- `geometry->vertexPositions[v] += x` -/
  shift : M → ℕ → X → M
  /-- `pointLineSegmentNeaestLocation` for the end points of an edge -/
  nearest : M → ℕ → X → P
  minusOne : P

/-- What happens, in the order in which it happens. -/
inductive Call (P T : Type)
  | before (k : Kind) (p arg : ℕ) (t : Option P)
  | mutate (k : Kind) (arg : ℕ)
  | after (k : Kind) (p : ℕ) (res : List ℕ) (t : Option P) (d : T)

structure Mgr (M P T : Type) where
  mesh : M
  /-- the addresses in `allPolicies`; exactly these objects exist -/
  all : List ℕ
  lists : Kind → List ℕ
  data : ℕ → T
  /-- `data` of the manager's own policy -/
  own : Bool × Bool × Bool
  splittable : Option (ℕ → Bool)
  collapsible : Option (ℕ → Bool)
  flippable : Option (ℕ → Bool)
  repositionable : Option (ℕ → Bool)
  splittableFaces : Option (ℕ → Bool)
  log : List (Call P T)

variable {M P X T : Type} (O : Ops M P X) (kinds : ℕ → Kind → Bool) (pre : ℕ → Kind → M → ℕ → Option P → T)

/-- The result of the dynamic cast. -/
def isKind (p : ℕ) (k : Kind) : Bool := if p = 0 then decide (k = .split) else kinds p k

/-- `array.size() == 0 || array[i]` -/
def allowed (a : Option (ℕ → Bool)) (i : ℕ) : Bool := match a with
  | none => true
  | some c => c i

/-- `mayCollapseEdge`, mutation_manager.cpp:70-78. -/
def mayCollapse (s : Mgr M P T) (e : ℕ) : Bool :=
  if !allowed s.collapsible e then false
  else if !((O.ends s.mesh e).all (allowed s.repositionable)) then false
  else allowed s.collapsible e

/-- `registerPolicy`, mutation_manager.cpp:365-388. -/
def register (s : Mgr M P T) (p : ℕ) : Mgr M P T :=
  { s with all := s.all ++ [p], lists := fun k => if isKind kinds p k then s.lists k ++ [p] else s.lists k }

/-- `removePolicy`, mutation_manager.cpp:389-399. -/
def remove (s : Mgr M P T) (p : ℕ) : Mgr M P T :=
  { s with
    lists := fun k => match k with
      | .reposition => (s.lists .reposition).filter (· ≠ p)
      | .flip => (s.lists .flip).filter (· ≠ p)
      | .split => (s.lists .split).filter (· ≠ p)
      | .collapse => (s.lists .collapse).filter (· ≠ p)
      | .faceSplit => s.lists .faceSplit
    all := s.all.erase p }

/-- A before-callback of policy `p`. That of policy 0 is mutation_manager.cpp:26-31. -/
def callBefore (k : Kind) (arg : ℕ) (t : Option P) (s : Mgr M P T) (p : ℕ) : Res (Mgr M P T) :=
  if p ∉ s.all then .error .ub
  else .ok { s with
    data := Function.update s.data p (pre p k s.mesh arg t)
    own := if p = 0 then (allowed s.splittable arg, mayCollapse O s arg, allowed s.flippable arg) else s.own
    log := s.log ++ [.before k p arg t] }

/-- Write the constraint of the old edge to both pieces, mutation_manager.cpp:34-45. -/
def inherit (a : Option (ℕ → Bool)) (e1 e2 : ℕ) (b : Bool) : Option (ℕ → Bool) :=
  a.map (fun c => Function.update (Function.update c e1 b) e2 b)

/-- An after-callback of policy `p`. That of policy 0 is mutation_manager.cpp:32-46. -/
def callAfter (k : Kind) (res : List ℕ) (t : Option P) (s : Mgr M P T) (p : ℕ) : Res (Mgr M P T) :=
  if p ∉ s.all then .error .ub
  else
    let s := { s with log := s.log ++ [.after k p res t (s.data p)] }
    if p = 0 then match res with
      | [h1, h2] => .ok { s with
          splittable := inherit s.splittable (O.edge h1) (O.edge h2) s.own.1
          collapsible := inherit s.collapsible (O.edge h1) (O.edge h2) s.own.2.1
          flippable := inherit s.flippable (O.edge h1) (O.edge h2) s.own.2.2 }
      | _ => .ok s
    else .ok s

/-- The loops over the policies of a kind. -/
def allBefore (k : Kind) (arg : ℕ) (t : Option P) (s : Mgr M P T) : Res (Mgr M P T) :=
  (s.lists k).foldlM (callBefore O pre k arg t) s

def allAfter (k : Kind) (res : List ℕ) (t : Option P) (s : Mgr M P T) : Res (Mgr M P T) :=
  (s.lists k).foldlM (callAfter O k res t) s

/-- Set the mesh and record the mutation. -/
def Mgr.mutated (s : Mgr M P T) (k : Kind) (arg : ℕ) (m : M) : Mgr M P T :=
  { s with mesh := m, log := s.log ++ [.mutate k arg] }

/-- `repositionVertex`, mutation_manager.cpp:98-108. `none`: refused. -/
def repositionVertex (s : Mgr M P T) (v : ℕ) (x : X) : Res (Mgr M P T × Option (List ℕ)) :=
  if !allowed s.repositionable v then .ok (s, none)
  else match allBefore O pre .reposition v none s with
    | .error e => .error e
    | .ok s => .ok (s.mutated .reposition v (O.shift s.mesh v x), some [])

/-- `flipEdge`, mutation_manager.cpp:111-140. The test flip and its undoing are not recorded in the log. -/
def flipEdge (s : Mgr M P T) (e : ℕ) : Res (Mgr M P T × Option (List ℕ)) :=
  if !allowed s.flippable e then .ok (s, none)
  else match O.flip s.mesh e with
    | .error x => .error x
    | .ok (m1, canFlip) =>
      if !canFlip then .ok ({ s with mesh := m1 }, none)
      else match O.flip m1 e with
        | .error x => .error x
        | .ok (m2, _) => match allBefore O pre .flip e none { s with mesh := m2 } with
          | .error x => .error x
          | .ok s => match O.flip s.mesh e with
            | .error x => .error x
            | .ok (m3, _) => match allAfter O .flip [e] none (s.mutated .flip e m3) with
              | .error x => .error x
              | .ok s => .ok (s, some [e])

/-- `splitEdge(e, tSplit, newVertexPosition)`, mutation_manager.cpp:175-199. -/
def splitEdge (s : Mgr M P T) (e : ℕ) (t : P) (x : X) : Res (Mgr M P T × Option (List ℕ)) :=
  if !allowed s.splittable e then .ok (s, none)
  else match allBefore O pre .split e (some t) s with
    | .error y => .error y
    | .ok s => match O.split s.mesh e with
      | .error y => .error y
      | .ok (m1, front) =>
        let m2 := O.place m1 (O.vertex m1 front) x
        match O.back m2 front with
        | .error y => .error y
        | .ok back => match allAfter O .split [front, back] (some t) (s.mutated .split e m2) with
          | .error y => .error y
          | .ok s => .ok (s, some [front, back])

/-- `splitEdge(e, newVertexPosition)`, mutation_manager.cpp:159-173, for a manager with a geometry. -/
def splitEdgeAt (s : Mgr M P T) (e : ℕ) (x : X) : Res (Mgr M P T × Option (List ℕ)) :=
  if !allowed s.splittable e then .ok (s, none)
  else splitEdge O pre s e (O.nearest s.mesh e x) x

/-- `collapseEdge(e, tCollapse, newVertexPosition)`, mutation_manager.cpp:231-255. -/
def collapseEdge (s : Mgr M P T) (e : ℕ) (t : P) (x : X) : Res (Mgr M P T × Option (List ℕ)) :=
  if !mayCollapse O s e then .ok (s, none)
  else match allBefore O pre .collapse e (some t) s with
    | .error y => .error y
    | .ok s => match O.collapse s.mesh e with
      | .error y => .error y
      | .ok (m1, none) => .ok ({ s with mesh := m1 }, none)
      | .ok (m1, some v) => match allAfter O .collapse [v] (some t) (s.mutated .collapse e (O.place m1 v x)) with
        | .error y => .error y
        | .ok s => .ok (s, some [v])

/-- `collapseEdge(e, newVertexPosition)`, mutation_manager.cpp:215-230, for a manager with a geometry. The nearest
location goes to a variable of the inner block, so the outer `tCollapse` keeps its value −1. -/
def collapseEdgeAt (s : Mgr M P T) (e : ℕ) (x : X) : Res (Mgr M P T × Option (List ℕ)) :=
  if !mayCollapse O s e then .ok (s, none)
  else
    let tCollapse := O.minusOne
    let _inner := O.nearest s.mesh e x
    collapseEdge O pre s e tCollapse x

/-- `splitFace(f, bSplit, newVertexPosition)`, mutation_manager.cpp:287-308. -/
def splitFace (s : Mgr M P T) (f : ℕ) (t : P) (x : X) : Res (Mgr M P T × Option (List ℕ)) :=
  if !allowed s.splittableFaces f then .ok (s, none)
  else match allBefore O pre .faceSplit f (some t) s with
    | .error y => .error y
    | .ok s => match O.insert s.mesh f with
      | .error y => .error y
      | .ok (m1, v) => match allAfter O .faceSplit [v] (some t) (s.mutated .faceSplit f (O.place m1 v x)) with
        | .error y => .error y
        | .ok s => .ok (s, some [v])

/-- The mutations. -/
inductive Mutation (P X : Type)
  | reposition (v : ℕ) (x : X)
  | flip (e : ℕ)
  | split (e : ℕ) (t : P) (x : X)
  | collapse (e : ℕ) (t : P) (x : X)
  | faceSplit (f : ℕ) (t : P) (x : X)

def Mutation.kind : Mutation P X → Kind
  | .reposition .. => .reposition
  | .flip .. => .flip
  | .split .. => .split
  | .collapse .. => .collapse
  | .faceSplit .. => .faceSplit

def Mutation.arg : Mutation P X → ℕ
  | .reposition v _ => v
  | .flip e => e
  | .split e _ _ => e
  | .collapse e _ _ => e
  | .faceSplit f _ _ => f

def Mutation.param : Mutation P X → Option P
  | .reposition .. => none
  | .flip _ => none
  | .split _ t _ => some t
  | .collapse _ t _ => some t
  | .faceSplit _ t _ => some t

def perform (s : Mgr M P T) : Mutation P X → Res (Mgr M P T × Option (List ℕ))
  | .reposition v x => repositionVertex O pre s v x
  | .flip e => flipEdge O pre s e
  | .split e t x => splitEdge O pre s e t x
  | .collapse e t x => collapseEdge O pre s e t x
  | .faceSplit f t x => splitFace O pre s f t x

/-- The calls of a user: registration, removal, new constraints, mutations. -/
inductive Event (P X : Type)
  | register (p : ℕ)
  | remove (p : ℕ)
  | constrain (splittable collapsible flippable repositionable splittableFaces : Option (ℕ → Bool))
  | mutate (mu : Mutation P X)

def step (s : Mgr M P T) : Event P X → Res (Mgr M P T)
  | .register p => .ok (register kinds s p)
  | .remove p => .ok (remove s p)
  | .constrain a b c d e => .ok { s with
      splittable := a, collapsible := b, flippable := c, repositionable := d, splittableFaces := e }
  | .mutate mu => match perform O pre s mu with
    | .error x => .error x
    | .ok (s, _) => .ok s

/-- The constructor, mutation_manager.cpp:12-20. -/
def init (m : M) (d : ℕ → T) : Mgr M P T :=
  register kinds ⟨m, [], fun _ => [], d, (false, false, false), none, none, none, none, none, []⟩ 0

def run (s : Mgr M P T) (h : List (Event P X)) : Res (Mgr M P T) := h.foldlM (step O kinds pre) s

end GC.Mut
