import Verif.MeshInsert

/-! # Face storage growth: helper lemmas -/

namespace GC
namespace Mesh

/-- New index of a face or boundary loop after the face array has grown. -/
def faceShift (m : Mesh) (f : ℕ) : ℕ := if m.nFFill ≤ f then f + m.nFCap else f

theorem faceShift_inj {m : Mesh} {f g : ℕ} (h : m.faceShift f = m.faceShift g) : f = g := by
  unfold faceShift at h
  split_ifs at h <;> omega

theorem expand_heFace {m : Mesh} {i : ℕ} (hi : m.heLive i) :
    m.expandFaceStorage.heFace i = m.faceShift (m.heFace i) := by
  have h1 := hi.1; have h2 := hi.2
  unfold expandFaceStorage faceShift
  simp only [h1, h2, ne_eq, not_false_eq_true, true_and]
  split_ifs <;> omega

theorem expand_fLive {m : Mesh} (hv : m.Valid) {f : ℕ} (hf : m.fLive f) :
    m.expandFaceStorage.fLive (m.faceShift f) ∧
    m.expandFaceStorage.fHalfedge (m.faceShift f) = m.fHalfedge f := by
  have hc := hv.f_cap
  have key : m.expandFaceStorage.fHalfedge (m.faceShift f) = m.fHalfedge f := by
    unfold expandFaceStorage faceShift
    simp only
    rcases hf.1 with h | ⟨h, h'⟩
    · rw [if_neg (show ¬ m.nFFill ≤ f by omega), if_neg (by omega), if_neg (by omega)]
    · rw [if_pos (show m.nFFill ≤ f by omega), if_pos (by omega)]
      congr 1; omega
  refine ⟨⟨?_, ?_⟩, key⟩
  · unfold expandFaceStorage faceShift
    simp only
    rcases hf.1 with h | ⟨h, h'⟩
    · rw [if_neg (by omega)]; omega
    · rw [if_pos (by omega)]; omega
  · rw [key]; exact hf.2

theorem expand_fLive_inv {m : Mesh} (hv : m.Valid) {g : ℕ} (hg : m.expandFaceStorage.fLive g) :
    ∃ f, m.fLive f ∧ g = m.faceShift f := by
  have hc := hv.f_cap
  obtain ⟨h1, h2⟩ := hg
  unfold expandFaceStorage at h1 h2
  simp only at h1 h2
  rcases h1 with h | ⟨h, h'⟩
  · refine ⟨g, ⟨Or.inl h, ?_⟩, by unfold faceShift; rw [if_neg (by omega)]⟩
    rwa [if_neg (by omega), if_neg (by omega)] at h2
  · rw [if_pos ⟨h, h'⟩] at h2
    refine ⟨g - m.nFCap, ⟨Or.inr ⟨by omega, by omega⟩, ?_⟩, ?_⟩
    · rwa [show m.nFCap * 2 - m.nFCap = m.nFCap by omega] at h2
    · unfold faceShift; rw [if_pos (by omega)]; omega

theorem expand_valid {m : Mesh} (hv : m.Valid) (hcap : m.nFCap * 2 < INV) :
    m.expandFaceStorage.Valid := by
  have hc := hv.f_cap
  have hlive : ∀ i, m.expandFaceStorage.heLive i ↔ m.heLive i := fun i => Iff.rfl
  have hface : ∀ {i}, m.heLive i → m.expandFaceStorage.heFace i = m.faceShift (m.heFace i) :=
    fun hi => expand_heFace hi
  have hext : ∀ {i}, m.heLive i → (m.expandFaceStorage.ext i ↔ m.ext i) := by
    intro i hi
    show m.nFFill ≤ m.expandFaceStorage.heFace i ↔ m.nFFill ≤ m.heFace i
    rw [hface hi]; unfold faceShift; split_ifs <;> omega
  constructor
  · exact hv.he_fill
  · exact hv.he_cap
  · exact hv.e_cap
  · exact hv.v_cap
  · constructor
    · show m.nFFill + m.nBLFill ≤ m.nFCap * 2; omega
    · exact hcap
  · exact hv.twin_live
  · exact hv.next_live
  · exact hv.vertex_live
  · intro i hi; rw [hface hi]; exact (expand_fLive hv (hv.face_live i hi)).1
  · intro i j hi hj
    rw [hface hi, hface hj]
    have := hv.face_iff i j hi hj
    constructor
    · intro h; exact this.1 (faceShift_inj h)
    · intro h; rw [this.2 h]
  · exact hv.vertex_iff
  · exact hv.v_he
  · intro g hg
    obtain ⟨f, hf, rfl⟩ := expand_fLive_inv hv hg
    rw [(expand_fLive hv hf).2]
    obtain ⟨l, e⟩ := hv.f_he f hf
    exact ⟨l, by rw [hface l, e]⟩
  · exact hv.deg_two
  · intro e he; rw [hext he]; exact hv.edge_int e he
  · intro i j hi hj ei ej h
    exact hv.bdy_unique i j hi hj ((hext hi).1 ei) ((hext hj).1 ej) h
  · intro i hi ei
    have l0 := (hv.v_he _ (hv.vertex_live i hi)).1
    have := hv.bdy_first i hi ((hext hi).1 ei)
    exact (hext (hv.twin_live _ l0)).2 this
  · exact hv.cnt_he
  · refine hv.cnt_int.trans (count_congr fun i hi => ?_)
    show _ ↔ (m.heNext i ≠ INV ∧ m.expandFaceStorage.heFace i < m.nFFill)
    by_cases hn : m.heNext i = INV
    · simp [hn]
    · rw [hface ⟨hi, hn⟩]; unfold faceShift
      split_ifs <;> simp [hn] <;> omega
  · exact hv.cnt_e
  · exact hv.cnt_v
  · refine hv.cnt_f.trans (count_congr fun f hf => ?_)
    have hff : f < m.nFFill := hf
    show _ ↔ m.expandFaceStorage.fHalfedge f ≠ INV
    unfold expandFaceStorage; simp only
    rw [if_neg (by omega), if_neg (by omega)]
  · exact hv.cnt_bl
  · intro f h1 h2
    have h1' : m.nFCap * 2 - m.nBLFill ≤ f := h1
    have h2' : f < m.nFCap * 2 := h2
    unfold expandFaceStorage; simp only
    rw [if_pos ⟨h1', h2'⟩]
    exact hv.bl_live _ (by omega) (by omega)

end Mesh
end GC
