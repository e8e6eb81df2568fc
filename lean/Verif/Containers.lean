import Verif.Compress

/-! # Mesh containers (`MeshData`) through histories

One element kind (vertices, halfedges, edges or faces) is a pool of slots: `fill` slots were handed out,
`cap` are allocated, `live` marks the elements that exist. Everything a container does with the mesh goes
through the callbacks of `registerWithMesh`, so the pool is the part of the mesh a container sees.
`Verif.Props.Containers` shows that the allocation and compression functions of the mesh model act on the
four pools of a mesh in this way.

Not modelled: deregistration (a destroyed container is no longer read), `reinterpretTo`, the arithmetic
operators, and containers of boundary loops (see C18). -/

namespace GC

/-- `MeshData<E,T>`: `data` has `size` entries, mesh_data.h:34-142. -/
structure Container (T : Type) where
  size : ℕ
  dflt : T
  data : ℕ → T

namespace Container
variable {T : Type}

/-- Constructors, mesh_data.ipp:13-27. -/
def create (cap : ℕ) (d : T) : Container T := ⟨cap, d, fun _ => d⟩

/-- `expandFunc`, mesh_data.ipp:84-94. -/
def expand (c : Container T) (newSize : ℕ) : Container T :=
  { c with size := newSize, data := fun i => if i < c.size then c.data i else c.dflt }

/-- `permuteFunc`, mesh_data.ipp:98-105. -/
def permute (c : Container T) (perm : List ℕ) : Container T :=
  { c with size := perm.length, data := applyPermutation c.data perm }

/-- `operator[]` as an assignment target, mesh_data.ipp:201-210. -/
def write (c : Container T) (i : ℕ) (v : T) : Container T :=
  { c with data := fun j => if j = i then v else c.data j }

/-- `fill`, mesh_data.ipp:136-140: a range loop over the existing elements. -/
def fillAll (c : Container T) (live : ℕ → Bool) (v : T) : Container T :=
  { c with data := fun j => if live j then v else c.data j }

/-- `setDefault`, mesh_data.ipp:264-281. -/
def setDefault (c : Container T) (live : ℕ → Bool) (fill : ℕ) (d : T) : Container T :=
  let maxInd := ((List.range fill).filter live).foldl max 0
  { c with dflt := d, data := fun i => if maxInd + 1 ≤ i ∧ i < c.size then d else c.data i }

end Container

/-- The slots of one element kind and the containers registered for it. -/
structure Pool (T : Type) where
  fill : ℕ
  cap : ℕ
  live : ℕ → Bool
  cs : List (Container T)

/-- What can happen to a pool and its containers.
* `alloc k newCap`: hand out `k` slots after growing the storage to `newCap` (or `newCap = cap`). For
  vertices `k = 1` and `newCap = 2 * cap` if full; for halfedges `k = 2`; the face storage also grows when
  boundary loops need room.
* `delete i`: mark element `i` as deleted.
* `compress`: surface_mesh.cpp:1756-1930.
* `create d`, `copy c`: construct a container, mesh_data.ipp:13-55.
* `assign c i v`, `fillAll c v`, `setDefault c d`: operations on the `c`-th container. -/
inductive Event (T : Type) where
  | alloc (k newCap : ℕ)
  | delete (i : ℕ)
  | compress
  | create (d : T)
  | copy (c : ℕ)
  | assign (c i : ℕ) (v : T)
  | fillAll (c : ℕ) (v : T)
  | setDefault (c : ℕ) (d : T)

namespace Pool
variable {T : Type}

/-- New-to-old map of `compress`, surface_mesh.cpp:1759-1772. -/
def perm (s : Pool T) : List ℕ := (shiftMaps s.live s.fill).1

/-- One event; `none` if it is not possible in this state (an element that does not exist, no such container,
or an allocation that does not provide the slots). -/
def step (s : Pool T) : Event T → Option (Pool T)
  | .alloc k newCap =>
    if s.cap ≤ newCap ∧ s.fill + k ≤ newCap ∧ 0 < k then
      some { fill := s.fill + k, cap := newCap,
             live := fun i => s.live i || (decide (s.fill ≤ i) && decide (i < s.fill + k)),
             cs := if newCap = s.cap then s.cs else s.cs.map (·.expand newCap) }
    else none
  | .delete i => if s.live i then some { s with live := fun j => s.live j && decide (j ≠ i) } else none
  | .compress =>
    some { fill := s.perm.length, cap := s.perm.length, live := fun i => decide (i < s.perm.length),
           cs := s.cs.map (·.permute s.perm) }
  | .create d => some { s with cs := s.cs ++ [Container.create s.cap d] }
  | .copy c => match s.cs[c]? with
    | some x => some { s with cs := s.cs ++ [x] }
    | none => none
  | .assign c i v => match s.cs[c]? with
    | some x => if s.live i then some { s with cs := s.cs.set c (x.write i v) } else none
    | none => none
  | .fillAll c v => match s.cs[c]? with
    | some x => some { s with cs := s.cs.set c (x.fillAll s.live v) }
    | none => none
  | .setDefault c d => match s.cs[c]? with
    | some x => some { s with cs := s.cs.set c (x.setDefault s.live s.fill d) }
    | none => none

def run (s : Pool T) : List (Event T) → Option (Pool T)
  | [] => some s
  | e :: es => match s.step e with
    | none => none
    | some s' => s'.run es

/-- `container[c][i]`. -/
def read (s : Pool T) (c i : ℕ) : Option T := (s.cs[c]?).map (·.data i)

/-- The invariant of pools and containers. -/
structure Inv (s : Pool T) : Prop where
  fill_le : s.fill ≤ s.cap
  zero : s.fill = 0 → s.cap = 0
  live_lt : ∀ i, s.live i = true → i < s.fill
  size : ∀ x ∈ s.cs, x.size = s.cap
  spare : ∀ x ∈ s.cs, ∀ i, s.fill ≤ i → i < s.cap → x.data i = x.dflt

/-- Number of live slots below `i`. -/
def idx (s : Pool T) (i : ℕ) : ℕ := Nat.count (fun j => s.live j = true) i

theorem perm_length (s : Pool T) : s.perm.length = s.idx s.fill := shift_length _ _

theorem perm_get {s : Pool T} {i : ℕ} (h : s.Inv) (hi : s.live i = true) : s.perm.getD (s.idx i) 0 = i :=
  shift_get _ _ _ (h.live_lt i hi) hi 0

theorem idx_lt {s : Pool T} {i : ℕ} (h : s.Inv) (hi : s.live i = true) : s.idx i < s.perm.length := by
  rw [perm_length]; exact count_lt_count (p := fun j => s.live j = true) hi (h.live_lt i hi)

theorem foldl_max_le (l : List ℕ) (n a : ℕ) (ha : a ≤ n) (h : ∀ x ∈ l, x ≤ n) : l.foldl max a ≤ n := by
  induction l generalizing a with
  | nil => exact ha
  | cons x l ih =>
    rw [List.foldl_cons]
    exact ih _ (max_le ha (h x (by simp))) (fun y hy => h y (by simp [hy]))

theorem le_foldl_max (l : List ℕ) (a : ℕ) : a ≤ l.foldl max a ∧ ∀ x ∈ l, x ≤ l.foldl max a := by
  induction l generalizing a with
  | nil => simp
  | cons x l ih =>
    rw [List.foldl_cons]
    obtain ⟨h1, h2⟩ := ih (max a x)
    refine ⟨le_trans (le_max_left _ _) h1, fun y hy => ?_⟩
    rcases List.mem_cons.1 hy with rfl | hy
    · exact le_trans (le_max_right _ _) h1
    · exact h2 y hy

theorem mem_set_cases {α : Type} {l : List α} {c : ℕ} {y x : α} (h : x ∈ l.set c y) : x ∈ l ∨ x = y :=
  List.mem_or_eq_of_mem_set h

theorem step_inv {s s' : Pool T} {e : Event T} (h : s.Inv) (hs : s.step e = some s') : s'.Inv := by
  cases e with
  | alloc k newCap =>
    simp only [step] at hs
    by_cases hc : s.cap ≤ newCap ∧ s.fill + k ≤ newCap ∧ 0 < k
    swap
    · rw [if_neg hc] at hs; exact absurd hs (by simp)
    rw [if_pos hc] at hs
    obtain ⟨h1, h2, h3⟩ := hc
    injection hs with hs
    have hfl := h.fill_le
    have lv : ∀ i, (s.live i || (decide (s.fill ≤ i) && decide (i < s.fill + k))) = true → i < s.fill + k := by
      intro i hi
      rw [Bool.or_eq_true] at hi
      rcases hi with hi | hi
      · have := h.live_lt i hi; omega
      · simp at hi; omega
    subst hs
    by_cases c : newCap = s.cap
    · refine ⟨h2, fun h0 => by dsimp at h0; omega, lv, ?_, ?_⟩
      · dsimp; rw [if_pos c]; intro x hx; rw [h.size x hx, c]
      · dsimp; rw [if_pos c]; intro x hx i a b; exact h.spare x hx i (by omega) (by omega)
    · refine ⟨h2, fun h0 => by dsimp at h0; omega, lv, ?_, ?_⟩
      · dsimp; rw [if_neg c]; intro x hx
        obtain ⟨y, hy, rfl⟩ := List.mem_map.1 hx
        rfl
      · dsimp; rw [if_neg c]; intro x hx i a b
        obtain ⟨y, hy, rfl⟩ := List.mem_map.1 hx
        show (if i < y.size then y.data i else y.dflt) = y.dflt
        split_ifs with hlt
        · rw [h.size y hy] at hlt; exact h.spare y hy i (by omega) hlt
        · rfl
  | delete i =>
    simp only [step] at hs
    split_ifs at hs with hc
    injection hs with hs; subst hs
    refine ⟨h.fill_le, h.zero, fun j hj => ?_, h.size, h.spare⟩
    dsimp at hj
    rw [Bool.and_eq_true] at hj
    exact h.live_lt j hj.1
  | compress =>
    simp only [step] at hs
    injection hs with hs; subst hs
    refine ⟨le_rfl, id, fun i hi => by simpa using hi, ?_, fun x _ i a b => by dsimp at a b; omega⟩
    intro x hx
    obtain ⟨y, hy, rfl⟩ := List.mem_map.1 hx
    rfl
  | create d =>
    simp only [step] at hs
    injection hs with hs; subst hs
    refine ⟨h.fill_le, h.zero, h.live_lt, ?_, ?_⟩
    · intro x hx
      rcases List.mem_append.1 hx with hx | hx
      · exact h.size x hx
      · rw [List.mem_singleton.1 hx]; rfl
    · intro x hx i a b
      rcases List.mem_append.1 hx with hx | hx
      · exact h.spare x hx i a b
      · rw [List.mem_singleton.1 hx]; rfl
  | copy c =>
    simp only [step] at hs
    split at hs
    · rename_i x hx
      injection hs with hs; subst hs
      have hm := List.mem_of_getElem? hx
      refine ⟨h.fill_le, h.zero, h.live_lt, ?_, ?_⟩
      · intro y hy
        rcases List.mem_append.1 hy with hy | hy
        · exact h.size y hy
        · rw [List.mem_singleton.1 hy]; exact h.size x hm
      · intro y hy i a b
        rcases List.mem_append.1 hy with hy | hy
        · exact h.spare y hy i a b
        · rw [List.mem_singleton.1 hy]; exact h.spare x hm i a b
    · exact absurd hs (by simp)
  | assign c i v =>
    simp only [step] at hs
    split at hs
    · rename_i x hx
      have hm := List.mem_of_getElem? hx
      split_ifs at hs with hc
      injection hs with hs; subst hs
      have hlt := h.live_lt i hc
      refine ⟨h.fill_le, h.zero, h.live_lt, ?_, ?_⟩
      · intro y hy
        rcases mem_set_cases hy with hy | rfl
        · exact h.size y hy
        · exact h.size x hm
      · intro y hy j a b
        rcases mem_set_cases hy with hy | rfl
        · exact h.spare y hy j a b
        · show (if j = i then v else x.data j) = x.dflt
          dsimp at a
          rw [if_neg (by omega)]; exact h.spare x hm j a b
    · exact absurd hs (by simp)
  | fillAll c v =>
    simp only [step] at hs
    split at hs
    · rename_i x hx
      have hm := List.mem_of_getElem? hx
      injection hs with hs; subst hs
      refine ⟨h.fill_le, h.zero, h.live_lt, ?_, ?_⟩
      · intro y hy
        rcases mem_set_cases hy with hy | rfl
        · exact h.size y hy
        · exact h.size x hm
      · intro y hy j a b
        rcases mem_set_cases hy with hy | rfl
        · exact h.spare y hy j a b
        · show (if s.live j = true then v else x.data j) = x.dflt
          dsimp at a
          have : ¬ s.live j = true := fun hj => by have := h.live_lt j hj; omega
          rw [if_neg this]; exact h.spare x hm j a b
    · exact absurd hs (by simp)
  | setDefault c d =>
    simp only [step] at hs
    split at hs
    · rename_i x hx
      have hm := List.mem_of_getElem? hx
      injection hs with hs; subst hs
      refine ⟨h.fill_le, h.zero, h.live_lt, ?_, ?_⟩
      · intro y hy
        rcases mem_set_cases hy with hy | rfl
        · exact h.size y hy
        · exact h.size x hm
      · intro y hy j a b
        rcases mem_set_cases hy with hy | rfl
        · exact h.spare y hy j a b
        · dsimp at a b
          show (if _ + 1 ≤ j ∧ j < x.size then d else x.data j) = d
          have hz := h.zero
          have hmax : ((List.range s.fill).filter s.live).foldl max 0 ≤ s.fill - 1 := by
            apply foldl_max_le _ _ _ (by omega)
            intro y hy
            have := List.mem_range.1 (List.mem_filter.1 hy).1
            omega
          rw [if_pos ⟨by omega, by rw [h.size x hm]; exact b⟩]
    · exact absurd hs (by simp)

theorem run_inv {s s' : Pool T} {es : List (Event T)} (h : s.Inv) (hs : s.run es = some s') : s'.Inv := by
  induction es generalizing s with
  | nil => simp only [run, Option.some.injEq] at hs; rw [← hs]; exact h
  | cons e es ih =>
    simp only [run] at hs
    split at hs
    · exact absurd hs (by simp)
    · rename_i s1 h1
      exact ih (step_inv h h1) hs

end Pool
end GC
