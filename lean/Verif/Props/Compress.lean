import Verif.Compress
import Verif.Props.RemoveEdge

/-! # Properties C18, C19: compress -/

namespace GC
open Mesh

/-- **C19.** `compress` on a mesh that is not flagged as compressed returns. With `hIdx`, `vIdx`, `fIdx`,
`eIdx` the number of live elements of smaller index (so the order is kept, and the new indices are
`0 … n-1` without gaps), every reference of the new mesh is the renumbered old one, twins and edges
included; the counters are unchanged and there are no spare slots; the new mesh is valid. -/
theorem C19_compress (m : Mesh) (hv : m.Valid) (hs : m.SpareOk) :
    ∃ m' P, m.compress false = .ok (m', some P) ∧ m'.Valid ∧ m'.SpareOk ∧
      -- the renumbering of the live elements is one-to-one onto the new index ranges
      (∀ i, m.heLive i → m.hIdx i < m.nHe) ∧ (∀ j < m.nHe, ∃! i, m.heLive i ∧ m.hIdx i = j) ∧
      (∀ e, m.heLive (2 * e) → m.eIdx e < m.nE) ∧ (∀ j < m.nE, ∃! e, m.heLive (2 * e) ∧ m.eIdx e = j) ∧
      (∀ v, m.vLive v → m.vIdx v < m.nV) ∧ (∀ j < m.nV, ∃! v, m.vLive v ∧ m.vIdx v = j) ∧
      (∀ f, m.fLive f → (m.fIdx f < m.nF ↔ f < m.nFFill) ∧ m.fIdx f < m.nF + m.nBL) ∧
      (∀ j < m.nF + m.nBL, ∃! f, m.fLive f ∧ m.fIdx f = j) ∧
      -- every slot of the new mesh is in use and live
      (∀ j, m'.heLive j ↔ j < m.nHe) ∧ (∀ j, m'.vLive j ↔ j < m.nV) ∧ (∀ j, m'.fLive j ↔ j < m.nF + m.nBL) ∧
      -- every reference is the renumbered one
      (∀ i, m.heLive i → m'.heNext (m.hIdx i) = m.hIdx (m.heNext i) ∧ m'.heVertex (m.hIdx i) = m.vIdx (m.heVertex i) ∧
        m'.heFace (m.hIdx i) = m.fIdx (m.heFace i) ∧ twin (m.hIdx i) = m.hIdx (twin i) ∧
        heEdge (m.hIdx i) = m.eIdx (heEdge i)) ∧
      (∀ v, m.vLive v → m'.vHalfedge (m.vIdx v) = m.hIdx (m.vHalfedge v)) ∧
      (∀ f, m.fLive f → m'.fHalfedge (m.fIdx f) = m.hIdx (m.fHalfedge f)) ∧
      -- counters
      m'.nHe = m.nHe ∧ m'.nE = m.nE ∧ m'.nV = m.nV ∧ m'.nF = m.nF ∧ m'.nBL = m.nBL ∧ m'.nInt = m.nInt ∧
      m'.nHeFill = m.nHe ∧ m'.nHeCap = m.nHe ∧ m'.nEFill = m.nE ∧ m'.nECap = m.nE ∧ m'.nVFill = m.nV ∧
      m'.nVCap = m.nV ∧ m'.nFFill = m.nF ∧ m'.nBLFill = m.nBL ∧ m'.nFCap = m.nF + m.nBL := by
  obtain ⟨m', P, h, C, -⟩ := compress_spec hv hs
  have hv' := C.valid hv
  obtain ⟨a1, a2, a3, a4⟩ := C.c_he
  obtain ⟨b1, b2, b3⟩ := C.c_e
  obtain ⟨c1, c2, c3⟩ := C.c_v
  obtain ⟨d1, d2, d3⟩ := C.c_f
  obtain ⟨e1, e2⟩ := C.c_bl
  have hf := hv.he_fill
  have hI := hv'.he_cap
  have hl : ∀ j, m'.heLive j ↔ j < m.nHe := by
    intro j
    refine ⟨fun h => by have := h.1; omega, fun h => ?_⟩
    obtain ⟨i, hi, rfl⟩ := hv.hIdx_surj h
    refine ⟨by omega, ?_⟩
    rw [C.next i hi]
    have := hv.hIdx_lt (hv.next_live i hi); omega
  have vl : ∀ j, m'.vLive j ↔ j < m.nV := by
    intro j
    refine ⟨fun h => by have := h.1; omega, fun h => ?_⟩
    obtain ⟨i, hi, rfl⟩ := hv.vIdx_surj h
    refine ⟨by omega, ?_⟩
    rw [C.vh i hi]
    have := hv.hIdx_lt (hv.v_he i hi).1; omega
  have fl : ∀ j, m'.fLive j ↔ j < m.nF + m.nBL := by
    intro j
    refine ⟨fun h => by have := h.1; omega, fun h => ?_⟩
    obtain ⟨i, hi, rfl⟩ := hv.fIdx_surj h
    refine ⟨by omega, ?_⟩
    rw [C.fh i hi]
    have := hv.hIdx_lt (hv.f_he i hi).1; omega
  have hev : ∀ e, m.heLive (2 * e) → m.hIdx (2 * e) = 2 * m.eIdx e := by
    intro e he
    have := he.1
    exact hv.hIdx_even (by omega)
  have h2 := hv.nHe_eq
  refine ⟨m', P, h, hv', ⟨?_, ?_⟩, fun i hi => hv.hIdx_lt hi, ?_, ?_, ?_, fun v hl => hv.vIdx_lt hl, ?_,
    fun f hl => ⟨hv.fIdx_ext hl, hv.fIdx_lt hl⟩, ?_, hl, vl, fl, ?_, C.vh, C.fh, a1, b1, c1, d1, e1, a4, a2, a3, b2, b3, c2, c3,
    d2, e2, d3⟩
  · intro v hlt; right; rw [c3] at hlt; exact (hv'.v_he v ((vl v).2 hlt)).1.1
  · intro f hlt; right; rw [d3] at hlt; exact (hv'.f_he f ((fl f).2 hlt)).1.1
  · intro j hj
    obtain ⟨i, hi, e⟩ := hv.hIdx_surj hj
    exact ⟨i, ⟨hi, e⟩, fun k hk => hv.hIdx_inj hk.1 hi (by rw [hk.2, e])⟩
  · intro e he
    have := hv.hIdx_lt he
    rw [hev e he] at this; omega
  · intro j hj
    obtain ⟨i, hi, hij⟩ := hv.hIdx_surj (j := 2 * j) (by omega)
    obtain ⟨e, rfl | rfl⟩ : ∃ e, i = 2 * e ∨ i = 2 * e + 1 := ⟨i / 2, by omega⟩
    · refine ⟨e, ⟨hi, by have := hev e hi; omega⟩, fun k hk => ?_⟩
      have := hv.hIdx_inj hk.1 hi (by rw [hev k hk.1, hk.2, hij]); omega
    · exfalso
      have l2 := hv.twin_live _ hi
      rw [twin_two_mul_add] at l2
      have := hv.hIdx_twin hi
      rw [twin_two_mul_add, hij, twin_two_mul, hev e l2] at this; omega
  · intro j hj
    obtain ⟨i, hi, e⟩ := hv.vIdx_surj hj
    exact ⟨i, ⟨hi, e⟩, fun k hk => hv.vIdx_inj hk.1 hi (by rw [hk.2, e])⟩
  · intro j hj
    obtain ⟨i, hi, e⟩ := hv.fIdx_surj hj
    exact ⟨i, ⟨hi, e⟩, fun k hk => hv.fIdx_inj hk.1 hi (by rw [hk.2, e])⟩
  · intro i hi
    refine ⟨C.next i hi, C.vert i hi, C.face i hi, (hv.hIdx_twin hi).symm, ?_⟩
    unfold heEdge
    obtain ⟨e, rfl | rfl⟩ : ∃ e, i = 2 * e ∨ i = 2 * e + 1 := ⟨i / 2, by omega⟩
    · rw [hev e hi, show 2 * e / 2 = e by omega]; omega
    · have l2 := hv.twin_live _ hi
      rw [twin_two_mul_add] at l2
      have := hv.hIdx_twin l2
      rw [twin_two_mul, hev e l2, twin_two_mul] at this
      rw [this, show (2 * e + 1) / 2 = e by omega]; omega

/-- The mesh of two triangles with its diagonal removed has a deleted edge, a deleted face and satisfies the
hypotheses. -/
def squareHoled : Mesh := (square.removeEdge 2).toOption.elim square Prod.fst

theorem squareHoled_valid : squareHoled.Valid := by
  obtain ⟨m', h, hv, -⟩ := (C09_removeEdge square square_valid 2 (by decide +kernel) (by decide +kernel)).2 (by decide +kernel)
  have : squareHoled = m' := by unfold squareHoled; rw [h]; rfl
  rw [this]; exact hv

example : squareHoled.Valid ∧ squareHoled.SpareOk ∧ ¬ squareHoled.heLive 4 ∧ squareHoled.heLive 6 ∧ squareHoled.hIdx 6 = 4 :=
  ⟨squareHoled_valid, by decide +kernel, by decide +kernel, by decide +kernel, by decide +kernel⟩

/-- **C19, flag set.** A mesh flagged as compressed is returned as it is, and no container is told to permute. -/
theorem C19_compress_flagged (m : Mesh) : m.compress true = .ok (m, none) := rfl

/-- **C19, already compressed.** On a mesh without deleted or spare slots the full procedure changes nothing. -/
theorem C19_compress_dense (m : Mesh) (hv : m.Valid) (h1 : m.nHe = m.nHeFill) (h2 : m.nV = m.nVFill)
    (h3 : m.nF = m.nFFill) (v1 : m.nVCap = m.nVFill) (f1 : m.nFCap = m.nFFill + m.nBL) :
    ∃ m' P, m.compress false = .ok (m', some P) ∧
      (∀ i < m.nHeFill, m'.heNext i = m.heNext i ∧ m'.heVertex i = m.heVertex i ∧ m'.heFace i = m.heFace i) ∧
      (∀ v < m.nVFill, m'.vHalfedge v = m.vHalfedge v) ∧ (∀ f < m.nFCap, m'.fHalfedge f = m.fHalfedge f) := by
  have all : ∀ {p : ℕ → Prop} [DecidablePred p] {n : ℕ}, Nat.count p n = n → ∀ i < n, p i := by
    intro p _ n h i hi
    by_contra hn
    have h2 : Nat.count p (i + 1) = Nat.count p i := by rw [Nat.count_succ, if_neg hn]; rfl
    have h3 : Nat.count p n ≤ Nat.count p (i + 1) + (n - (i + 1)) := by
      have := Nat.count_add p (i + 1) (n - (i + 1))
      rw [show i + 1 + (n - (i + 1)) = n by omega] at this
      rw [this]
      have := Nat.count_le (fun k => p (i + 1 + k)) (n := n - (i + 1))
      omega
    have h4 := Nat.count_le p (n := i)
    omega
  have lh : ∀ i < m.nHeFill, m.heLive i := fun i hi => ⟨hi, all (by rw [← hv.cnt_he, h1]) i hi⟩
  have lv : ∀ i < m.nVFill, m.vLive i := fun i hi => ⟨hi, all (by rw [← hv.cnt_v, h2]) i hi⟩
  have lf : ∀ i < m.nFCap, m.fLive i := by
    intro i hi
    have hbl := hv.cnt_bl
    by_cases c : i < m.nFFill
    · exact ⟨Or.inl c, all (p := fun f => m.fHalfedge f ≠ INV) (by rw [← hv.cnt_f, h3]) i c⟩
    · exact ⟨Or.inr ⟨by omega, hi⟩, hv.bl_live i (by omega) hi⟩
  have hs : m.SpareOk := ⟨fun v hl => Or.inr (hv.v_he v (lv v (by omega))).1.1, fun f hl => Or.inr (hv.f_he f (lf f hl)).1.1⟩
  obtain ⟨m', P, h, C, -⟩ := compress_spec hv hs
  have cnt : ∀ {p : ℕ → Prop} [DecidablePred p] {n : ℕ}, (∀ i < n, p i) → Nat.count p n = n := by
    intro p _ n h; exact Nat.count_of_forall fun {i} hi => h i hi
  have ih : ∀ i, m.heLive i → m.hIdx i = i := fun i hi => cnt fun k hk => (lh k (by have := hi.1; omega)).2
  have iv : ∀ i, m.vLive i → m.vIdx i = i := fun i hi => cnt fun k hk => (lv k (by have := hi.1; omega)).2
  have jf : ∀ i, m.fLive i → m.fIdx i = i := fun i hi =>
    cnt fun k hk => (hv.fpred.2 (lf k (by have := (hv.fpred.2 hi).1; omega))).2
  refine ⟨m', P, h, fun i hi => ?_, fun v hl => ?_, fun f hl => ?_⟩
  · have l := lh i hi
    have n := C.next i l; have v := C.vert i l; have f := C.face i l
    rw [ih i l, ih _ (hv.next_live i l)] at n
    rw [ih i l, iv _ (hv.vertex_live i l)] at v
    rw [ih i l, jf _ (hv.face_live i l)] at f
    exact ⟨n, v, f⟩
  · have l := lv v hl
    have n := C.vh v l
    rwa [iv v l, ih _ (hv.v_he v l).1] at n
  · have l := lf f hl
    have n := C.fh f l
    rwa [jf f l, ih _ (hv.f_he f l).1] at n

example : square.Valid ∧ square.nHe = square.nHeFill ∧ square.nV = square.nVFill ∧ square.nF = square.nFFill ∧
    square.nVCap = square.nVFill ∧ square.nFCap = square.nFFill + square.nBL :=
  ⟨square_valid, by decide +kernel, by decide +kernel, by decide +kernel, by decide +kernel, by decide +kernel⟩

/-- Index of the boundary loop in face slot `f`: `faceIndToBoundaryLoopInd`, surface_mesh.ipp:66. -/
def blIndex (m : Mesh) (f : ℕ) : ℕ := m.nFCap - 1 - f

/-- Face slot of a boundary loop: `boundaryLoopIndToFaceInd`, surface_mesh.ipp:65. -/
def blSlot (m : Mesh) (b : ℕ) : ℕ := m.nFCap - 1 - b

/-- **What `compress` does to `BoundaryLoopData`.** The boundary loop with index `b` keeps its index, but the
container is reversed: the loop then reads what was stored for loop `nBL - 1 - b`. -/
theorem C18_compress_reverses (T : Type) (m : Mesh) (hv : m.Valid) (hs : m.SpareOk) (data : ℕ → T) :
    ∃ m' P, m.compress false = .ok (m', some P) ∧ P.bl.length = m.nBL ∧
      ∀ b < m.nBL, m.fLive (blSlot m b) ∧ m'.fLive (m.fIdx (blSlot m b)) ∧
        blIndex m' (m.fIdx (blSlot m b)) = b ∧
        applyPermutation data P.bl (blIndex m' (m.fIdx (blSlot m b))) = data (m.nBL - 1 - b) := by
  obtain ⟨m', P, h, C, Q⟩ := compress_spec hv hs
  obtain ⟨d1, d2, d3⟩ := C.c_f
  obtain ⟨e1, e2⟩ := C.c_bl
  have hc := hv.f_cap
  have hbl := hv.cnt_bl
  have hI := (C.valid hv).he_cap
  refine ⟨m', P, h, by rw [Q.bl]; simp [hbl], fun b hb => ?_⟩
  have hl : m.fLive (blSlot m b) := ⟨Or.inr (by unfold blSlot; omega), hv.bl_live _ (by unfold blSlot; omega) (by unfold blSlot; omega)⟩
  have hidx : m.fIdx (blSlot m b) = m.nF + (m.nBL - 1 - b) := by
    have := hv.fcount_high (k := m.nBL - 1 - b) (by omega)
    rwa [show m.nFCap - m.nBLFill + (m.nBL - 1 - b) = blSlot m b by unfold blSlot; omega] at this
  have hb' : blIndex m' (m.fIdx (blSlot m b)) = b := by unfold blIndex; rw [hidx, d3]; omega
  have hl' : m'.fLive (m.fIdx (blSlot m b)) := by
    refine ⟨by have := hv.fIdx_lt hl; omega, ?_⟩
    rw [C.fh _ hl]
    have := hv.hIdx_lt (hv.f_he _ hl).1
    have := C.c_he; omega
  refine ⟨hl, hl', hb', ?_⟩
  rw [hb']
  unfold applyPermutation
  rw [Q.bl]
  congr 1
  rw [List.getD, List.getElem?_map, List.getElem?_range' (by omega)]
  simp; omega

/-- **C18**, for meshes with at most one boundary loop: the value stored at the loop is read there after
`compress`. With more loops it is false: `C18_fails`. -/
theorem C18_boundaryLoopData_partial (T : Type) (m : Mesh) (hv : m.Valid) (hs : m.SpareOk) (h1 : m.nBL ≤ 1) (data : ℕ → T) :
    ∃ m' P, m.compress false = .ok (m', some P) ∧
      ∀ b < m.nBL, applyPermutation data P.bl (blIndex m' (m.fIdx (blSlot m b))) = data b := by
  obtain ⟨m', P, h, -, k⟩ := C18_compress_reverses T m hv hs data
  refine ⟨m', P, h, fun b hb => ?_⟩
  rw [(k b hb).2.2.2]; congr 1; omega

example : squareHoled.Valid ∧ squareHoled.SpareOk ∧ squareHoled.nBL = 1 :=
  ⟨squareHoled_valid, by decide +kernel, by decide +kernel⟩

/-- **C18, failure.** On every mesh with two or more boundary loops that is not flagged as compressed, some
container loses the association: loop 0 does not read its value afterwards. -/
theorem C18_fails (m : Mesh) (hv : m.Valid) (hs : m.SpareOk) (h2 : 2 ≤ m.nBL) :
    ∃ (data : ℕ → ℕ) (m' : Mesh) (P : Perms), m.compress false = .ok (m', some P) ∧
      applyPermutation data P.bl (blIndex m' (m.fIdx (blSlot m 0))) ≠ data 0 := by
  obtain ⟨m', P, h, -, k⟩ := C18_compress_reverses ℕ m hv hs id
  refine ⟨id, m', P, h, ?_⟩
  rw [(k 0 (by omega)).2.2.2]
  show m.nBL - 1 - 0 ≠ 0
  omega

/-- Two disjoint triangles: two boundary loops. -/
def twoTriangles : Mesh := ofLists [2, 5, 4, 1, 0, 3, 8, 11, 10, 7, 6, 9] [0, 1, 1, 2, 2, 0, 3, 4, 4, 5, 5, 3]
  [0, 2, 0, 2, 0, 2, 1, 3, 1, 3, 1, 3] [0, 2, 4, 6, 8, 10] [0, 6, 1, 7] 2

example : twoTriangles.Valid ∧ twoTriangles.SpareOk ∧ 2 ≤ twoTriangles.nBL :=
  ⟨valid_of_check (by decide +kernel), by decide +kernel, by decide +kernel⟩

end GC
