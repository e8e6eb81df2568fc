import Verif.MeshValid

/-!
# The iterators behind range-based for loops

Model of `RangeIteratorBase` and `NavigationIteratorBase`
(`include/geometrycentral/utilities/element_iterators.ipp`). The `for (x : set)` loop is
`for (it = set.begin(); it != set.end(); ++it) yield *it`, modelled as the list of yielded elements;
fuel running out stands for a loop that never ends. The loop body is assumed not to change the mesh.
-/

namespace GC

/-! ### Range iterator -/

/-- The loop inside `RangeIteratorBase::operator++`, element_iterators.ipp:18-20. -/
def rangeSkip (ok : ℕ → Bool) (iEnd : ℕ) : ℕ → ℕ → Res ℕ
  | 0, _ => .error .hang
  | n + 1, c => if c ≠ iEnd ∧ ¬ ok c then rangeSkip ok iEnd n (c + 1) else .ok c

/-- `RangeIteratorBase::operator++`, element_iterators.ipp:16-22. -/
def rangeNext (ok : ℕ → Bool) (iEnd fuel c : ℕ) : Res ℕ := rangeSkip ok iEnd fuel (c + 1)

/-- Constructor of `RangeIteratorBase`, element_iterators.ipp:8-13. -/
def rangeBegin (ok : ℕ → Bool) (iEnd fuel c : ℕ) : Res ℕ :=
  if c ≠ iEnd ∧ ¬ ok c then rangeNext ok iEnd fuel c else .ok c

/-- The for loop from an iterator at `c`; `fuel` bounds the inner loop, the last argument the outer. -/
def rangeLoop (ok : ℕ → Bool) (iEnd fuel : ℕ) : ℕ → ℕ → Res (List ℕ)
  | 0, _ => .error .hang
  | n + 1, c => if c = iEnd then .ok [] else
      match rangeNext ok iEnd fuel c with
      | .error e => .error e
      | .ok c' => match rangeLoop ok iEnd fuel n c' with
        | .error e => .error e
        | .ok l => .ok (c :: l)

/-- `for (x : RangeSetBase(mesh, 0, iEnd))`, element_iterators.ipp:51-58. `end()` is the iterator
constructed at `iEnd`, which does not move. -/
def rangeList (ok : ℕ → Bool) (iEnd : ℕ) : Res (List ℕ) :=
  match rangeBegin ok iEnd (iEnd + 2) 0 with
  | .error e => .error e
  | .ok c => rangeLoop ok iEnd (iEnd + 2) (iEnd + 2) c

/-! ### Navigation iterator -/

section Nav
variable {α : Type} [DecidableEq α]

/-- Constructor of `NavigationIteratorBase`, element_iterators.ipp:65-82: the current element and
`justStarted`. -/
def navCtor (adv : α → α) (valid : α → Bool) (e : α) (js : Bool) : ℕ → α → Res (α × Bool)
  | 0, _ => .error .hang
  | n + 1, c => if valid c then .ok (c, js)
      else if adv c = e then .ok (adv c, false)
      else navCtor adv valid e js n (adv c)

/-- The loop inside `NavigationIteratorBase::operator++`, element_iterators.ipp:86-89. -/
def navSkip (adv : α → α) (valid : α → Bool) : ℕ → α → Res α
  | 0, _ => .error .hang
  | n + 1, c => if valid c then .ok c else navSkip adv valid n (adv c)

/-- The for loop over a navigation set from the iterator `(c, js)` to the iterator `last`
(element_iterators.ipp:85-97, 110-122). -/
def navLoop (adv : α → α) (valid : α → Bool) (fuel : ℕ) (last : α × Bool) : ℕ → α × Bool → Res (List α)
  | 0, _ => .error .hang
  | n + 1, it => if it = last then .ok [] else
      match navSkip adv valid fuel (adv it.1) with
      | .error e => .error e
      | .ok c' => match navLoop adv valid fuel last n (c', false) with
        | .error e => .error e
        | .ok l => .ok (it.1 :: l)

/-- `for (x : NavigationSetBase(e))`: the elements `currE` at which the body is run. -/
def navList (adv : α → α) (valid : α → Bool) (e : α) (fuel : ℕ) : Res (List α) :=
  match navCtor adv valid e true fuel e, navCtor adv valid e false fuel e with
  | .ok b, .ok l => navLoop adv valid fuel l fuel b
  | .error x, _ => .error x
  | _, .error x => .error x

end Nav

namespace Mesh
variable (m : Mesh)

/-- `Vertex::outgoingHalfedges`, halfedge_element_types.ipp:110-112, 193-195. -/
def navOutgoing (v : ℕ) : Res (List ℕ) := navList m.vNext (fun _ => true) (m.vHalfedge v) (m.nHeFill + 2)

/-- `heNextIncomingNeighbor` with implicit twins, surface_mesh.ipp:42-44. -/
def inNext (i : ℕ) : ℕ := twin (m.heNext i)

/-- `Vertex::incomingHalfedges`, halfedge_element_types.ipp:107-109, 189-191. -/
def navIncoming (v : ℕ) : Res (List ℕ) :=
  match m.prevOrbitFace (m.vHalfedge v) with
  | .error e => .error e
  | .ok p => navList m.inNext (fun _ => true) p (m.nHeFill + 2)

/-- `Vertex::adjacentFaces`, halfedge_element_types.ipp:116-118, 205-207. -/
def navVertexFaces (v : ℕ) : Res (List ℕ) :=
  (navList m.vNext (fun i => decide (m.heIsInterior i)) (m.vHalfedge v) (m.nHeFill + 2)).map (List.map m.heFace)

/-- `Vertex::adjacentEdges` with implicit twins (the navigator state is then just the outgoing
halfedge), halfedge_element_types.ipp:119-121, 139-142, 201-203. -/
def navVertexEdges (v : ℕ) : Res (List ℕ) :=
  (navList m.vNext (fun _ => true) (m.vHalfedge v) (m.nHeFill + 2)).map (List.map heEdge)

/-- `Vertex::adjacentVertices` with implicit twins, halfedge_element_types.ipp:113-115, 179-187. -/
def navVertexVertices (v : ℕ) : Res (List ℕ) :=
  (navList m.vNext (fun _ => true) (m.vHalfedge v) (m.nHeFill + 2)).map (List.map m.tip)

/-- `Vertex::degree`, halfedge_element_types.ipp:95-99. -/
def vDegree (v : ℕ) : Res ℕ := (m.navVertexEdges v).map List.length

/-- `Face::adjacentHalfedges`, halfedge_element_types.ipp:419-421, 447-449. -/
def navFaceHalfedges (f : ℕ) : Res (List ℕ) := navList m.heNext (fun _ => true) (m.fHalfedge f) (m.nHeFill + 2)

/-- `Face::adjacentVertices`, halfedge_element_types.ipp:422-424, 443-445. -/
def navFaceVertices (f : ℕ) : Res (List ℕ) :=
  (navList m.heNext (fun _ => true) (m.fHalfedge f) (m.nHeFill + 2)).map (List.map m.heVertex)

/-- `Face::degree`, halfedge_element_types.ipp:410-414. -/
def fDegree (f : ℕ) : Res ℕ := (m.navFaceHalfedges f).map List.length

/-- `FaceAdjacentFaceNavigator::advance`, halfedge_element_types.ipp:459-465. -/
def ffAdvance (s : ℕ × ℕ) : ℕ × ℕ :=
  if s.1 = twin s.2 then (m.heNext s.1, m.heNext s.1) else (s.1, twin s.2)

/-- `Face::adjacentFaces`, halfedge_element_types.ipp:425-427, 459-467. -/
def navFaceFaces (f : ℕ) : Res (List ℕ) :=
  (navList m.ffAdvance (fun s => decide (s.1 ≠ s.2 ∧ m.heIsInterior s.2)) (m.fHalfedge f, m.fHalfedge f)
    (2 * m.nHeFill + 2)).map (List.map (fun s => m.heFace s.2))

/-- `Edge::adjacentInteriorHalfedges`, halfedge_element_types.ipp:362-364, 373-375. -/
def navEdgeInterior (e : ℕ) : Res (List ℕ) :=
  navList twin (fun i => decide (m.heIsInterior i)) (eHalfedge e) (m.nHeFill + 2)

/-- `mesh.vertices()`, surface_mesh.ipp:76, halfedge_element_types.ipp:127-129. -/
def rangeVertices : Res (List ℕ) := rangeList (fun v => decide (m.vHalfedge v ≠ INV)) m.nVFill

/-- `mesh.halfedges()`, surface_mesh.ipp:77, halfedge_element_types.ipp:259-261. -/
def rangeHalfedges : Res (List ℕ) := rangeList (fun i => decide (m.heNext i ≠ INV)) m.nHeFill

/-- `mesh.interiorHalfedges()` and `mesh.corners()`, surface_mesh.ipp:78, 80,
halfedge_element_types.ipp:262-264, 285-287. -/
def rangeInteriorHalfedges : Res (List ℕ) :=
  rangeList (fun i => decide (m.heNext i ≠ INV ∧ m.heIsInterior i)) m.nHeFill

/-- `mesh.exteriorHalfedges()`, surface_mesh.ipp:79, halfedge_element_types.ipp:265-267. -/
def rangeExteriorHalfedges : Res (List ℕ) :=
  rangeList (fun i => decide (m.heNext i ≠ INV ∧ ¬ m.heIsInterior i)) m.nHeFill

/-- `mesh.edges()`, surface_mesh.ipp:81, halfedge_element_types.ipp:353-355 and `edgeIsDead`. -/
def rangeEdges : Res (List ℕ) := rangeList (fun e => decide (m.heNext (eHalfedge e) ≠ INV)) m.nEFill

/-- `mesh.faces()`, surface_mesh.ipp:82, halfedge_element_types.ipp:437-439. -/
def rangeFaces : Res (List ℕ) := rangeList (fun f => decide (m.fHalfedge f ≠ INV)) m.nFFill

/-- `mesh.boundaryLoops()`, surface_mesh.ipp:83, halfedge_element_types.ipp:501-503: boundary-loop
indices, loop `b` lives in slot `nFacesCapacityCount - 1 - b` of the face arrays. -/
def rangeBoundaryLoops : Res (List ℕ) :=
  rangeList (fun b => decide (m.fHalfedge (m.nFCap - 1 - b) ≠ INV)) m.nBLFill

end Mesh

/-! ### What the loops return (generic lemmas) -/

theorem rangeSkip_eq (ok : ℕ → Bool) (n : ℕ) : ∀ d c fuel, c + d = n → d < fuel →
    ∃ c', rangeSkip ok n fuel c = .ok c' ∧ c ≤ c' ∧ c' ≤ n ∧ (∀ j, c ≤ j → j < c' → ok j = false) ∧
      (c' = n ∨ ok c' = true) := by
  intro d
  induction d with
  | zero =>
    intro c fuel hc hf
    obtain ⟨k, rfl⟩ : ∃ k, fuel = k + 1 := ⟨fuel - 1, by omega⟩
    refine ⟨c, ?_, by omega, by omega, by intros; omega, by left; omega⟩
    rw [rangeSkip, if_neg]; omega
  | succ d ih =>
    intro c fuel hc hf
    obtain ⟨k, rfl⟩ : ∃ k, fuel = k + 1 := ⟨fuel - 1, by omega⟩
    by_cases h : ok c = true
    · refine ⟨c, ?_, by omega, by omega, by intros; omega, Or.inr h⟩
      rw [rangeSkip, if_neg]; simp [h]
    · obtain ⟨c', e, h1, h2, h3, h4⟩ := ih (c + 1) k (by omega) (by omega)
      refine ⟨c', ?_, by omega, h2, ?_, h4⟩
      · rw [rangeSkip, if_pos ⟨by omega, h⟩, e]
      · intro j hj1 hj2
        by_cases hjc : j = c
        · rw [hjc]; simpa using h
        · exact h3 j (by omega) hj2

/-- `c..n-1` filtered by `ok`. -/
def rangeFrom (ok : ℕ → Bool) (c n : ℕ) : List ℕ := ((List.range' c (n - c))).filter ok

theorem rangeFrom_skip (ok : ℕ → Bool) (n : ℕ) : ∀ d c, (∀ j, c ≤ j → j < c + d → ok j = false) → c + d ≤ n →
    rangeFrom ok c n = rangeFrom ok (c + d) n := by
  intro d
  induction d with
  | zero => intros; rfl
  | succ d ih =>
    intro c h hn
    rw [show c + (d + 1) = c + 1 + d by omega, ← ih (c+1) (fun j h1 h2 => h j (by omega) (by omega)) (by omega)]
    unfold rangeFrom
    rw [show n - c = (n - (c+1)) + 1 by omega, List.range'_succ, List.filter_cons_of_neg]
    rw [h c (by omega) (by omega)]; simp

theorem rangeFrom_cons (ok : ℕ → Bool) (c n : ℕ) (h : ok c = true) (hc : c < n) :
    rangeFrom ok c n = c :: rangeFrom ok (c+1) n := by
  unfold rangeFrom
  rw [show n - c = (n - (c+1)) + 1 by omega, List.range'_succ, List.filter_cons_of_pos h]

theorem rangeLoop_eq (ok : ℕ → Bool) (n : ℕ) (F : ℕ) (hF : n < F) : ∀ d c fuel, c + d = n → d < fuel →
    (c = n ∨ ok c = true) → rangeLoop ok n F fuel c = .ok (rangeFrom ok c n) := by
  intro d
  induction d using Nat.strong_induction_on with
  | _ d ih =>
    intro c fuel hc hf hok
    obtain ⟨k, rfl⟩ : ∃ k, fuel = k + 1 := ⟨fuel - 1, by omega⟩
    rw [rangeLoop]
    by_cases hcn : c = n
    · rw [if_pos hcn]; subst hcn; simp [rangeFrom]
    · rw [if_neg hcn]
      have hoc : ok c = true := hok.resolve_left hcn
      obtain ⟨c', e, h1, h2, h3, h4⟩ := rangeSkip_eq ok n (n - (c+1)) (c+1) F (by omega) (by omega)
      rw [rangeNext, e]
      simp only
      rw [ih (n - c') (by omega) c' k (by omega) (by omega) h4]
      simp only
      rw [rangeFrom_cons ok c n hoc (by omega)]
      rw [rangeFrom_skip ok n (c' - (c+1)) (c+1) (fun j a b => h3 j a (by omega)) (by omega)]
      rw [show c + 1 + (c' - (c+1)) = c' by omega]

/-- A range loop yields exactly the accepted indices below the end, in increasing order. -/
theorem rangeList_eq (ok : ℕ → Bool) (n : ℕ) : rangeList ok n = .ok ((List.range n).filter ok) := by
  unfold rangeList rangeBegin
  have hfin : rangeFrom ok 0 n = (List.range n).filter ok := by simp [rangeFrom, List.range_eq_range']
  by_cases h : 0 ≠ n ∧ ¬ ok 0 = true
  · rw [if_pos h, rangeNext]
    obtain ⟨c', e, h1, h2, h3, h4⟩ := rangeSkip_eq ok n (n - 1) 1 (n+2) (by omega) (by omega)
    rw [show 0 + 1 = 1 by rfl, e]
    simp only
    rw [rangeLoop_eq ok n (n+2) (by omega) (n - c') c' (n+2) (by omega) (by omega) h4, ← hfin,
      rangeFrom_skip ok n c' 0 ?_ (by omega), Nat.zero_add]
    intro j _ hj
    by_cases hj0 : j = 0
    · subst hj0; simpa using h.2
    · exact h3 j (by omega) (by omega)
  · rw [if_neg h]
    simp only
    rw [rangeLoop_eq ok n (n+2) (by omega) n 0 (n+2) (by omega) (by omega) ?_, hfin]
    by_cases hn : 0 = n
    · left; exact hn
    · right; by_contra hc; exact h ⟨hn, hc⟩

section Nav
variable {α : Type} [DecidableEq α] {adv : α → α} {valid : α → Bool}

theorem navSkip_eq : ∀ d x fuel, d < fuel → valid (adv^[d] x) = true → (∀ j < d, valid (adv^[j] x) = false) →
    navSkip adv valid fuel x = .ok (adv^[d] x) := by
  intro d
  induction d with
  | zero =>
    intro x fuel hf h _
    obtain ⟨k, rfl⟩ : ∃ k, fuel = k + 1 := ⟨fuel - 1, by omega⟩
    rw [navSkip, if_pos (by simpa using h)]; rfl
  | succ d ih =>
    intro x fuel hf h hj
    obtain ⟨k, rfl⟩ : ∃ k, fuel = k + 1 := ⟨fuel - 1, by omega⟩
    rw [navSkip, if_neg (by have := hj 0 (by omega); simpa using this),
      ih (adv x) k (by omega) (by rwa [← Function.iterate_succ_apply])
        (fun j h => by rw [← Function.iterate_succ_apply]; exact hj (j+1) (by omega))]
    rw [Function.iterate_succ_apply]

theorem navCtor_hit (e : α) (js : Bool) : ∀ d x fuel, d < fuel → valid (adv^[d] x) = true →
    (∀ j < d, valid (adv^[j] x) = false) → (∀ j < d, adv^[j+1] x ≠ e) →
    navCtor adv valid e js fuel x = .ok (adv^[d] x, js) := by
  intro d
  induction d with
  | zero =>
    intro x fuel hf h _ _
    obtain ⟨k, rfl⟩ : ∃ k, fuel = k + 1 := ⟨fuel - 1, by omega⟩
    rw [navCtor, if_pos (by simpa using h)]; rfl
  | succ d ih =>
    intro x fuel hf h hj hne
    obtain ⟨k, rfl⟩ : ∃ k, fuel = k + 1 := ⟨fuel - 1, by omega⟩
    rw [navCtor, if_neg (by have := hj 0 (by omega); simpa using this), if_neg (by have := hne 0 (by omega); simpa using this),
      ih (adv x) k (by omega) (by rwa [← Function.iterate_succ_apply])
        (fun j h => by rw [← Function.iterate_succ_apply]; exact hj (j+1) (by omega))
        (fun j h => by rw [← Function.iterate_succ_apply]; exact hne (j+1) (by omega))]
    rw [Function.iterate_succ_apply]

theorem navCtor_none (e : α) (js : Bool) : ∀ d x fuel, d < fuel → adv^[d+1] x = e → (∀ j < d, adv^[j+1] x ≠ e) →
    (∀ j ≤ d, valid (adv^[j] x) = false) → navCtor adv valid e js fuel x = .ok (e, false) := by
  intro d
  induction d with
  | zero =>
    intro x fuel hf h _ hj
    obtain ⟨k, rfl⟩ : ∃ k, fuel = k + 1 := ⟨fuel - 1, by omega⟩
    have h1 : adv x = e := by simpa using h
    rw [navCtor, if_neg (by have := hj 0 (by omega); simpa using this), if_pos h1, h1]
  | succ d ih =>
    intro x fuel hf h hne hj
    obtain ⟨k, rfl⟩ : ∃ k, fuel = k + 1 := ⟨fuel - 1, by omega⟩
    rw [navCtor, if_neg (by have := hj 0 (by omega); simpa using this), if_neg (by have := hne 0 (by omega); simpa using this),
      ih (adv x) k (by omega) (by rwa [← Function.iterate_succ_apply])
        (fun j h => by rw [← Function.iterate_succ_apply]; exact hne (j+1) (by omega))
        (fun j h => by rw [← Function.iterate_succ_apply]; exact hj (j+1) (by omega))]

/-- The valid points of the orbit from position `i` on. -/
def orbFrom (adv : α → α) (valid : α → Bool) (e : α) (i k : ℕ) : List α :=
  ((List.range' i (k + 1 - i)).map (fun j => adv^[j] e)).filter valid

theorem orbFrom_step_pos {e : α} {i k : ℕ} (hi : i ≤ k) (h : valid (adv^[i] e) = true) :
    orbFrom adv valid e i k = adv^[i] e :: orbFrom adv valid e (i+1) k := by
  unfold orbFrom
  rw [show k + 1 - i = (k + 1 - (i+1)) + 1 by omega, List.range'_succ, List.map_cons, List.filter_cons_of_pos h]

theorem orbFrom_step_neg {e : α} {i k : ℕ} (hi : i ≤ k) (h : valid (adv^[i] e) = false) :
    orbFrom adv valid e i k = orbFrom adv valid e (i+1) k := by
  unfold orbFrom
  rw [show k + 1 - i = (k + 1 - (i+1)) + 1 by omega, List.range'_succ, List.map_cons, List.filter_cons_of_neg]
  rw [h]; simp

theorem orbFrom_end {e : α} {k : ℕ} : orbFrom adv valid e (k+1) k = [] := by simp [orbFrom]

/-- The loop after an increment that starts looking at position `i` of the orbit. -/
theorem navLoop_tail {e : α} {k p F : ℕ} (hhit : adv^[k+1] e = e)
    (hinj : ∀ i j, i ≤ k → j ≤ k → adv^[i] e = adv^[j] e → i = j)
    (hp : p ≤ k) (hpv : valid (adv^[p] e) = true) (hpm : ∀ j < p, valid (adv^[j] e) = false) (hF : k + 1 < F) :
    ∀ d i s n, i + d = k + 1 → p < i → d + p < s → d < n →
    (match navSkip adv valid s (adv^[i] e) with
      | .error x => Except.error x
      | .ok c => navLoop adv valid F (adv^[p] e, false) n (c, false)) = .ok (orbFrom adv valid e i k) := by
  intro d
  induction d with
  | zero =>
    intro i s n hi hpi hs hn
    obtain rfl : i = k + 1 := by omega
    rw [hhit, navSkip_eq p e s (by omega) hpv hpm]
    simp only
    obtain ⟨n, rfl⟩ : ∃ n', n = n' + 1 := ⟨n - 1, by omega⟩
    rw [navLoop, if_pos rfl, orbFrom_end]
  | succ d ih =>
    intro i s n hi hpi hs hn
    by_cases hv : valid (adv^[i] e) = true
    · rw [navSkip_eq 0 _ s (by omega) hv (by intros; omega)]
      simp only [Function.iterate_zero, id]
      obtain ⟨n, rfl⟩ : ∃ n', n = n' + 1 := ⟨n - 1, by omega⟩
      have hne : ((adv^[i] e, false) : α × Bool) ≠ (adv^[p] e, false) := by
        intro h
        have := hinj i p (by omega) hp (by simpa using h)
        omega
      rw [navLoop, if_neg hne]
      have := ih (i+1) F n (by omega) (by omega) (by omega) (by omega)
      rw [Function.iterate_succ_apply'] at this
      simp only
      rw [orbFrom_step_pos (by omega) hv]
      revert this
      cases navSkip adv valid F (adv (adv^[i] e)) with
      | error x => intro h; simp at h
      | ok c => intro h; simp only at h ⊢; rw [h]
    · have hvf : valid (adv^[i] e) = false := by simpa using hv
      rw [orbFrom_step_neg (by omega) hvf]
      obtain ⟨s, rfl⟩ : ∃ n', s = n' + 1 := ⟨s - 1, by omega⟩
      have := ih (i+1) s n (by omega) (by omega) (by omega) (by omega)
      rw [Function.iterate_succ_apply'] at this
      rw [navSkip, if_neg hv]
      exact this

theorem orbit_inj {e : α} {k : ℕ} (hhit : adv^[k+1] e = e) (hmin : ∀ j < k, adv^[j+1] e ≠ e) :
    ∀ i j, i ≤ k → j ≤ k → adv^[i] e = adv^[j] e → i = j := by
  have key : ∀ a b, a < b → b ≤ k → adv^[a] e ≠ adv^[b] e := by
    intro a b hab hbk heq
    have h1 := congrArg (adv^[k+1-b]) heq
    rw [← Function.iterate_add_apply, ← Function.iterate_add_apply,
      show k + 1 - b + b = k + 1 by omega, hhit] at h1
    apply hmin (k + 1 - b + a - 1) (by omega)
    rwa [show k + 1 - b + a - 1 + 1 = k + 1 - b + a by omega]
  intro i j hi hj h
  rcases Nat.lt_trichotomy i j with h1 | h1 | h1
  · exact absurd h (key i j h1 hj)
  · exact h1
  · exact absurd h.symm (key j i h1 hi)

/-- **Navigation loops.** If advancing from `e` returns to `e` for the first time after `k+1` steps, the
loop terminates and yields the valid points of the orbit, each once, in order. -/
theorem navList_eq {e : α} {k F : ℕ} (hhit : adv^[k+1] e = e) (hmin : ∀ j < k, adv^[j+1] e ≠ e) (hF : k + 1 < F) :
    navList adv valid e F = .ok (((List.range (k+1)).map (fun j => adv^[j] e)).filter valid) := by
  have hinj := orbit_inj hhit hmin
  have hfin : orbFrom adv valid e 0 k = ((List.range (k+1)).map (fun j => adv^[j] e)).filter valid := by
    simp [orbFrom, List.range_eq_range']
  rw [← hfin]
  by_cases hex : ∃ p, p ≤ k ∧ valid (adv^[p] e) = true
  · have hex' : ∃ p, p ≤ k ∧ valid (adv^[p] e) = true := hex
    classical
    obtain ⟨hp, hpv⟩ := Nat.find_spec hex
    have hpm : ∀ j < Nat.find hex, valid (adv^[j] e) = false := by
      intro j hj
      have := Nat.find_min hex hj
      by_contra hc
      exact this ⟨by omega, by simpa using hc⟩
    generalize Nat.find hex = p at hp hpv hpm
    have hne : ∀ j < p, adv^[j+1] e ≠ e := fun j hj => hmin j (by omega)
    unfold navList
    rw [navCtor_hit e true p e F (by omega) hpv hpm hne, navCtor_hit e false p e F (by omega) hpv hpm hne]
    simp only
    obtain ⟨F', rfl⟩ : ∃ F', F = F' + 1 := ⟨F - 1, by omega⟩
    rw [navLoop, if_neg (by simp)]
    have hskip : ∀ q, q ≤ p → orbFrom adv valid e 0 k = orbFrom adv valid e q k := by
      intro q
      induction q with
      | zero => intro; rfl
      | succ q ih => intro h; rw [ih (by omega), orbFrom_step_neg (by omega) (hpm q (by omega))]
    rw [hskip p (le_refl _), orbFrom_step_pos hp hpv]
    have := navLoop_tail (valid := valid) hhit hinj hp hpv hpm hF (k - p) (p+1) (F'+1) F' (by omega) (by omega) (by omega) (by omega)
    rw [Function.iterate_succ_apply'] at this
    simp only
    revert this
    cases navSkip adv valid (F'+1) (adv (adv^[p] e)) with
    | error x => intro h; simp at h
    | ok c => intro h; simp only at h ⊢; rw [h]
  · have hno : ∀ j ≤ k, valid (adv^[j] e) = false := by
      intro j hj
      by_contra hc
      exact hex ⟨j, hj, by simpa using hc⟩
    unfold navList
    rw [navCtor_none e true k e F (by omega) hhit hmin hno, navCtor_none e false k e F (by omega) hhit hmin hno]
    simp only
    obtain ⟨F', rfl⟩ : ∃ F', F = F' + 1 := ⟨F - 1, by omega⟩
    rw [navLoop, if_pos rfl]
    have : ∀ d i, i + d = k + 1 → orbFrom adv valid e i k = [] := by
      intro d
      induction d with
      | zero => intro i hi; obtain rfl : i = k + 1 := by omega
                exact orbFrom_end
      | succ d ih => intro i hi; rw [orbFrom_step_neg (by omega) (hno i (by omega)), ih (i+1) (by omega)]
    rw [this (k+1) 0 (by omega)]

end Nav
end GC
