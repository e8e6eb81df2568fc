import Verif.MeshFlip

/-! # A decision procedure for `Valid`, and sample meshes

`Valid` quantifies over all slots and over orbits; on a concrete mesh it can be decided by bounded
search. This is only used for the concrete cases (`example`s and counterexamples). -/

namespace GC
namespace Mesh

/-- Bounded version of the conditions of `Valid`. -/
def check (m : Mesh) : Bool :=
  let he := List.range m.nHeFill
  let live := fun i => decide (m.heLive i)
  decide (m.nHeFill = 2 * m.nEFill) && decide (m.nHeFill ≤ m.nHeCap ∧ m.nHeCap < INV) &&
  decide (m.nHeCap = 2 * m.nECap) && decide (m.nVFill ≤ m.nVCap ∧ m.nVCap < INV) &&
  decide (m.nFFill + m.nBLFill ≤ m.nFCap ∧ m.nFCap < INV) &&
  (he.all fun i => !live i || (live (twin i) && live (m.heNext i) && decide (m.vLive (m.heVertex i)) &&
    decide (m.fLive (m.heFace i)) && decide (m.heFace (m.heNext i) = m.heFace i) &&
    decide (m.heVertex (m.vNext i) = m.heVertex i) && decide (m.heNext i ≠ i) &&
    (decide (¬ m.ext i) || decide (m.ext (twin (m.vHalfedge (m.heVertex i))))))) &&
  (he.all fun i => !live i || he.all fun j => !live j ||
    ((decide (m.heFace i ≠ m.heFace j) || he.any fun k => decide (m.heNext^[k] i = j)) &&
     (decide (m.heVertex i ≠ m.heVertex j) || he.any fun k => decide (m.vNext^[k] i = j)) &&
     (decide (¬ m.ext i) || decide (¬ m.ext j) || decide (m.heVertex i ≠ m.heVertex j) || decide (i = j)))) &&
  ((List.range m.nVFill).all fun v => decide (¬ m.vLive v) ||
    decide (m.heLive (m.vHalfedge v) ∧ m.heVertex (m.vHalfedge v) = v)) &&
  ((List.range m.nFCap).all fun f => decide (¬ m.fLive f) ||
    decide (m.heLive (m.fHalfedge f) ∧ m.heFace (m.fHalfedge f) = f)) &&
  ((List.range m.nEFill).all fun e => decide (¬ m.heLive (eHalfedge e)) || decide (¬ m.ext (eHalfedge e))) &&
  decide (m.nHe = Nat.count (fun i => m.heNext i ≠ INV) m.nHeFill) &&
  decide (m.nInt = Nat.count (fun i => m.heNext i ≠ INV ∧ m.heFace i < m.nFFill) m.nHeFill) &&
  decide (m.nE = Nat.count (fun e => m.heNext (eHalfedge e) ≠ INV) m.nEFill) &&
  decide (m.nV = Nat.count (fun v => m.vHalfedge v ≠ INV) m.nVFill) &&
  decide (m.nF = Nat.count (fun f => m.fHalfedge f ≠ INV) m.nFFill) &&
  decide (m.nBL = m.nBLFill) &&
  ((List.range m.nFCap).all fun f => decide (f < m.nFCap - m.nBLFill) || decide (m.fHalfedge f ≠ INV))

theorem valid_of_check {m : Mesh} (h : m.check = true) : m.Valid := by
  unfold check at h
  simp only [Bool.and_eq_true, List.all_eq_true, List.any_eq_true, Bool.or_eq_true, Bool.not_eq_true',
    decide_eq_true_eq, decide_eq_false_iff_not, List.mem_range] at h
  obtain ⟨⟨⟨⟨⟨⟨⟨⟨⟨⟨⟨⟨⟨⟨⟨⟨a1, a2⟩, a3⟩, a4⟩, a5⟩, b⟩, c⟩, v⟩, f⟩, e⟩, n1⟩, n2⟩, n3⟩, n4⟩, n5⟩, n6⟩, n7⟩ := h
  have b' : ∀ i, m.heLive i → _ := fun i hi => (b i hi.1).resolve_left (fun h => h hi)
  have c' : ∀ i j, m.heLive i → m.heLive j → _ := fun i j hi hj =>
    ((c i hi.1).resolve_left (fun h => h hi) j hj.1).resolve_left (fun h => h hj)
  have hn : ∀ i, m.heLive i → m.heLive (m.heNext i) := fun i hi => (b' i hi).1.1.1.1.1.1.2
  have ht : ∀ i, m.heLive i → m.heLive (twin i) := fun i hi => (b' i hi).1.1.1.1.1.1.1
  refine ⟨a1, a2, a3, a4, a5, ht, hn, fun i hi => (b' i hi).1.1.1.1.1.2,
    fun i hi => (b' i hi).1.1.1.1.2, ?_, ?_, ?_, ?_, fun i hi => (b' i hi).1.2, ?_, ?_, ?_,
    n1, n2, n3, n4, n5, n6, ?_⟩
  · intro i j hi hj
    constructor
    · intro hf
      obtain ⟨k, _, hk⟩ := (c' i j hi hj).1.1.resolve_left (fun h => h hf)
      exact ⟨k, hk⟩
    · intro o
      exact (o.mem (fun z => m.heLive z ∧ m.heFace z = m.heFace i) ⟨hi, rfl⟩
        (fun z hz => ⟨hn z hz.1, by rw [(b' z hz.1).1.1.1.2, hz.2]⟩)).2.symm
  · intro i j hi hj
    constructor
    · intro hf
      obtain ⟨k, _, hk⟩ := (c' i j hi hj).1.2.resolve_left (fun h => h hf)
      exact ⟨k, hk⟩
    · intro o
      exact (o.mem (fun z => m.heLive z ∧ m.heVertex z = m.heVertex i) ⟨hi, rfl⟩
        (fun z hz => ⟨hn _ (ht z hz.1), by rw [(b' z hz.1).1.1.2, hz.2]⟩)).2.symm
  · intro w hw
    exact (v w hw.1).resolve_left (fun h => h hw)
  · intro g hg
    refine (f g ?_).resolve_left (fun h => h hg)
    rcases hg.1 with h | h <;> omega
  · intro g hg
    refine (e g ?_).resolve_left (fun h => h hg)
    have := hg.1; unfold eHalfedge at this; omega
  · intro i j hi hj ei ej hv
    have := (c' i j hi hj).2
    rcases this with ((h | h) | h) | h
    · exact absurd ei h
    · exact absurd ej h
    · exact absurd hv h
    · exact h
  · intro i hi ei
    exact (b' i hi).2.resolve_left (fun h => h ei)
  · intro g h1 h2
    exact (n7 g h2).resolve_left (by omega)

/-- A mesh given by its arrays, with no deleted slots and no spare capacity. `nf` is the number of
interior faces, the rest of `fh` are boundary loops. -/
def ofLists (next vert face vh fh : List ℕ) (nf : ℕ) : Mesh :=
  { heNext := fun i => next.getD i INV
    heVertex := fun i => vert.getD i INV
    heFace := fun i => face.getD i INV
    vHalfedge := fun i => vh.getD i INV
    fHalfedge := fun i => fh.getD i INV
    nHe := next.length, nHeFill := next.length, nHeCap := next.length
    nInt := face.countP (· < nf)
    nV := vh.length, nVFill := vh.length, nVCap := vh.length
    nE := next.length / 2, nEFill := next.length / 2, nECap := next.length / 2
    nF := nf, nFFill := nf, nFCap := fh.length
    nBL := fh.length - nf, nBLFill := fh.length - nf }

/-- Tetrahedron: faces 012, 031, 132, 230 (edges 01, 12, 20, 03, 31, 23). -/
def tetra : Mesh :=
  -- he: 0:0→1 1:1→0 2:1→2 3:2→1 4:2→0 5:0→2 6:0→3 7:3→0 8:3→1 9:1→3 10:2→3 11:3→2
  -- faces: 0: 0,2,4   1: 0→3→1→0 = 6,8,1   2: 1→3→2→1 = 9,11,3   3: 2→3→0→2 = 10,7,5
  ofLists [2, 6, 4, 9, 0, 10, 8, 5, 1, 11, 7, 3]
    [0, 1, 1, 2, 2, 0, 0, 3, 3, 1, 2, 3]
    [0, 1, 0, 2, 0, 3, 1, 3, 1, 2, 3, 2]
    [0, 2, 4, 7] [0, 6, 9, 10] 4

/-- Two triangles glued along all three sides: faces 012, 102 (a sphere with two faces). -/
def pillow : Mesh :=
  -- 0:0→1 2:1→2 4:2→0 ; face 1: 1→0→2→1 : 1, 5, 3
  ofLists [2, 5, 4, 1, 0, 3] [0, 1, 1, 2, 2, 0] [0, 1, 0, 1, 0, 1] [0, 2, 4] [0, 1] 2

/-- A square 0123 cut along 02: faces 012, 023, one boundary loop. -/
def square : Mesh :=
  -- edges: 0:0→1, 2:1→2, 4:2→0 | 5:0→2, 6:2→3, 8:3→0 ; boundary 1:1→0, 3:2→1, 7:3→2, 9:0→3
  -- loop: 1(1→0), 9(0→3), 7(3→2), 3(2→1)
  ofLists [2, 9, 4, 1, 0, 6, 8, 3, 5, 7] [0, 1, 1, 2, 2, 0, 2, 3, 3, 0]
    [0, 2, 0, 2, 0, 1, 1, 2, 1, 2] [0, 2, 6, 8] [0, 5, 1] 2

theorem tetra_valid : tetra.Valid := valid_of_check (by decide +kernel)
theorem pillow_valid : pillow.Valid := valid_of_check (by decide +kernel)
theorem square_valid : square.Valid := valid_of_check (by decide +kernel)

end Mesh
end GC
