import Verif.Loop

/-!
# Dependent quantities: `require`, `unrequire`, `refreshQuantities`, `purgeQuantities`

Code modelled: include/geometrycentral/utilities/dependent_quantity.h:15-62, dependent_quantity.ipp:3-34, 78-84,
src/surface/base_geometry_interface.cpp:29-42.

A geometry object has the quantities `0, …, n-1`, in the order of its list `quantities`. The evaluation function of
quantity `i` first calls `ensureHave()` on the quantities `deps i` and then computes the new value from the inputs of
the geometry (connectivity, positions, …) and the values of these quantities, as the `compute…` methods do. `log`
records the evaluations, in the order in which they finish. `clearable i` stands for `clearable` together with
`dataBuffer != nullptr`. The counter `int requireCount` is an integer without overflow. The recursion of `ensureHave`
has `depth` stack frames available; without them the outcome is `hang` (a stack overflow in the source).
-/

namespace GC.Dep

/-- The quantities of a geometry class. -/
structure Graph (I V : Type) where
  n : ℕ
  deps : ℕ → List ℕ
  f : ℕ → I → List V → V
  clearable : ℕ → Bool
  depth : ℕ

/-- The members of the quantities, the inputs and the record of evaluations. -/
structure St (I V : Type) where
  input : I
  val : ℕ → V
  computed : ℕ → Bool
  req : ℕ → ℤ
  log : List ℕ

variable {I V : Type}

/-- `ensureHave()`, dependent_quantity.ipp:9-20, with the evaluation function of quantity `i`. -/
def ensureHave (G : Graph I V) : ℕ → St I V → ℕ → Res (St I V)
  | 0, _, _ => .error .hang
  | k + 1, s, i =>
    if s.computed i then .ok s
    else match (G.deps i).foldlM (ensureHave G k) s with
      | .error e => .error e
      | .ok s => .ok { s with
          val := Function.update s.val i (G.f i s.input ((G.deps i).map s.val))
          computed := Function.update s.computed i true
          log := s.log ++ [i] }

/-- `require()`, dependent_quantity.ipp:22-25. -/
def require (G : Graph I V) (s : St I V) (i : ℕ) : Res (St I V) :=
  ensureHave G G.depth { s with req := Function.update s.req i (s.req i + 1) } i

/-- `unrequire()`, dependent_quantity.ipp:27-34. The flag tells whether it throws; the count stays decremented. -/
def unrequire (s : St I V) (i : ℕ) : St I V × Bool :=
  let s := { s with req := Function.update s.req i (s.req i - 1) }
  if s.req i < 0 then (s, true) else (s, false)

/-- `ensureHaveIfRequired()`, dependent_quantity.ipp:3-7. -/
def ensureHaveIfRequired (G : Graph I V) (s : St I V) (i : ℕ) : Res (St I V) :=
  if 0 < s.req i then ensureHave G G.depth s i else .ok s

/-- `refreshQuantities()`, base_geometry_interface.cpp:29-36. -/
def refresh (G : Graph I V) (s : St I V) : Res (St I V) :=
  let s := (List.range G.n).foldl (fun s i => { s with computed := Function.update s.computed i false }) s
  (List.range G.n).foldlM (ensureHaveIfRequired G) s

/-- `clearIfNotRequired()`, dependent_quantity.ipp:78-84. What is in a cleared buffer does not matter: it may be
anything, given by `junk`. -/
def clearIfNotRequired (G : Graph I V) (junk : ℕ → V) (s : St I V) (i : ℕ) : St I V :=
  if G.clearable i && decide (s.req i ≤ 0) && s.computed i then
    { s with val := Function.update s.val i (junk i), computed := Function.update s.computed i false }
  else s

/-- `purgeQuantities()`, base_geometry_interface.cpp:38-42. -/
def purge (G : Graph I V) (junk : ℕ → V) (s : St I V) : St I V :=
  (List.range G.n).foldl (clearIfNotRequired G junk) s

/-- The calls a user can make, and changes of the inputs. -/
inductive Event (I : Type)
  | require (i : ℕ)
  | unrequire (i : ℕ)
  | refresh
  | purge
  | setInput (x : I)
deriving DecidableEq

/-- One call. An exception of `unrequire` is caught by the caller. -/
def step (G : Graph I V) (junk : ℕ → V) (s : St I V) : Event I → Res (St I V)
  | .require i => require G s i
  | .unrequire i => .ok (unrequire s i).1
  | .refresh => refresh G s
  | .purge => .ok (purge G junk s)
  | .setInput x => .ok { s with input := x }

/-- A geometry just built: nothing computed, nothing required. -/
def init (x : I) (junk : ℕ → V) : St I V := ⟨x, junk, fun _ => false, fun _ => 0, []⟩

/-- A history of calls. -/
def run (G : Graph I V) (junk : ℕ → V) (s : St I V) (h : List (Event I)) : Res (St I V) :=
  h.foldlM (step G junk) s

end GC.Dep
