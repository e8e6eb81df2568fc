import Verif.Props.Connect

/-! # Property C21: allocation on empty meshes -/

namespace GC
open Mesh

/-- The mesh with no elements and no storage, as built by the constructors from an empty polygon list
(manifold_surface_mesh.cpp:48-252: all arrays get length 0). -/
def emptyMesh : Mesh := ofLists [] [] [] [] [] 0

theorem emptyMesh_valid : emptyMesh.Valid := valid_of_check (by decide +kernel)

/-- **C21 fails** on the empty mesh: the doubled capacity is still zero, so `getNewVertex` and `getNewFace`
hand out a slot that does not exist (`Err.ub`). -/
theorem C21_alloc_empty_fails :
    ∃ m : Mesh, m.Valid ∧ m.getNewVertex = .error .ub ∧ m.getNewFace = .error .ub ∧
      m.getNewBoundaryLoop = .error .ub :=
  ⟨emptyMesh, emptyMesh_valid, rfl, rfl, rfl⟩

/-- **C21, partial.** Full claim: every allocation on every valid mesh hands out an existing slot. Missing:
vertices on a mesh with vertex capacity 0, faces and loops on a mesh with face capacity 0
(`C21_alloc_empty_fails`). Otherwise the slot handed out is the next unused index and lies inside the
(possibly grown) storage; edges can be allocated even on the empty mesh. -/
theorem C21_alloc_partial (m : Mesh) (hv : m.Valid) :
    (0 < m.nVCap → (m.getNewVertex = .error .oom ∧ m.nearLimit 0) ∨
      ∃ m', m.getNewVertex = .ok (m', m.nVFill) ∧ m.nVFill < m'.nVCap ∧ m'.nVFill = m.nVFill + 1 ∧
        m'.nV = m.nV + 1) ∧
    (0 < m.nFCap → (m.getNewFace = .error .oom ∧ m.nearLimit 0) ∨
      ∃ m', m.getNewFace = .ok (m', m.nFFill) ∧ m.nFFill < m'.nFCap - m'.nBLFill ∧ m'.nF = m.nF + 1) ∧
    (∀ b, (m.getNewEdgeTriple b = .error .oom ∧ m.nearLimit 0) ∨
      ∃ m', m.getNewEdgeTriple b = .ok (m', m.nHeFill) ∧ m.nHeFill + 1 < m'.nHeCap ∧ m.nEFill < m'.nECap ∧
        m'.nE = m.nE + 1 ∧ m'.nHe = m.nHe + 2) := by
  refine ⟨fun hp => ?_, fun hp => ?_, fun b => ?_⟩
  · rcases getNewVertex_ok hp hv.v_cap.1 hv.v_cap.2 with h | ⟨cap, h, h1, h2⟩
    · exact Or.inl h
    · exact Or.inr ⟨_, h, by show m.nVFill < cap; omega, rfl, rfl⟩
  · rcases C20_getNewFace_fresh m hv hp with h | ⟨m', h, h1, _, _, _, h2, _⟩
    · exact Or.inl h
    · exact Or.inr ⟨m', h, h1, h2⟩
  · rcases getNewEdgeTriple_ok hv.he_fill hv.he_cap.1 hv.e_cap hv.he_cap.2 b with h | ⟨hcap, ecap, h, h1, h2, h3⟩
    · exact Or.inl h
    · have := hv.he_fill
      exact Or.inr ⟨_, h, by show m.nHeFill + 1 < hcap; omega, by show m.nEFill < ecap; omega, rfl, rfl⟩

example : tetra.Valid ∧ 0 < tetra.nVCap ∧ 0 < tetra.nFCap ∧
    (∃ m', tetra.getNewVertex = .ok (m', 4) ∧ m'.nVCap = 8) ∧
    (∃ m', tetra.getNewFace = .ok (m', 4) ∧ m'.nFCap = 8) ∧
    (∃ m', emptyMesh.getNewEdgeTriple false = .ok (m', 0) ∧ m'.nHeCap = 2) :=
  ⟨tetra_valid, by decide +kernel, by decide +kernel, ⟨_, rfl, rfl⟩, ⟨_, rfl, rfl⟩, ⟨_, rfl, rfl⟩⟩

end GC
