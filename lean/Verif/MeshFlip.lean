import Verif.MeshValid

/-! # Edge flip (model and helper lemmas) -/

set_option linter.unusedSimpArgs false

namespace GC
namespace Mesh

/-- The pointer updates of `SurfaceMesh::flip`, surface_mesh.cpp:890-923 (implicit-twin case: the
vertex-list maintenance in lines 892-895 and 921-924 is skipped). The local variables of lines
851-860, 877-880, 889-890 are recomputed from `m` here. -/
def flipCore (m : Mesh) (ha1 : ℕ) : Mesh :=
  let ha2 := m.heNext ha1
  let ha3 := m.heNext ha2
  let hb1 := twin ha1
  let hb2 := m.heNext hb1
  let hb3 := m.heNext hb2
  let va := m.heVertex ha1
  let vb := m.heVertex hb1
  let vc := m.heVertex ha3
  let vd := m.heVertex hb3
  let fa := m.heFace ha1
  let fb := m.heFace hb1
  let vH1 := if m.vHalfedge va = ha1 then upd m.vHalfedge va hb2 else m.vHalfedge
  let vH2 := if vH1 vb = hb1 then upd vH1 vb ha2 else vH1
  { m with
    vHalfedge := vH2,
    fHalfedge := upd (upd m.fHalfedge fa ha1) fb hb1,
    heNext := upd (upd (upd (upd (upd (upd m.heNext ha1 hb3) hb3 ha2) ha2 ha1) hb1 ha3) ha3 hb2) hb2 hb1,
    heVertex := upd (upd m.heVertex ha1 vc) hb1 vd,
    heFace := upd (upd m.heFace ha3 fb) hb3 fa }

/-- `SurfaceMesh::flip(Edge, bool)`, surface_mesh.cpp:848-928, on an implicit-twin mesh. The tests of
lines 864 (`hb1.sibling() != ha1`) and 868-874 (equal orientation of the two halfedges) can never
succeed with implicit twins and are omitted. -/
def flip (m : Mesh) (e : ℕ) (preventSelfEdges : Bool) : Res (Mesh × Bool) :=
  if m.eIsBoundary e then .ok (m, false) else
  let ha1 := eHalfedge e
  let ha2 := m.heNext ha1
  let ha3 := m.heNext ha2
  if m.heNext ha3 ≠ ha1 then .ok (m, false) else
  let hb1 := twin ha1
  let hb2 := m.heNext hb1
  let hb3 := m.heNext hb2
  if m.heNext hb3 ≠ hb1 then .ok (m, false) else
  if ha2 = hb1 ∨ hb2 = ha1 then .ok (m, false) else
  if preventSelfEdges then
    match m.adjacentVertices (m.heVertex ha3) with
    | .error e => .error e
    | .ok l => if m.heVertex hb3 ∈ l then .ok (m, false) else .ok (m.flipCore ha1, true)
  else .ok (m.flipCore ha1, true)

/-- Assemble the cycle condition for faces from invariance along `next` and connectedness. -/
theorem face_iff_of {m : Mesh} (hl : ∀ i, m.heLive i → m.heLive (m.heNext i))
    (hinv : ∀ i, m.heLive i → m.heFace (m.heNext i) = m.heFace i)
    (hconn : ∀ i j, m.heLive i → m.heLive j → m.heFace i = m.heFace j → Orb m.nx i j) :
    ∀ i j, m.heLive i → m.heLive j → (m.heFace i = m.heFace j ↔ Orb m.heNext i j) := by
  intro i j hi hj
  constructor
  · intro h
    exact (Orb.congr (fun i => m.heLive i) hi hl (fun _ hz => (nx_live hz).symm)).2 (hconn i j hi hj h)
  · intro h
    have : m.heLive j ∧ m.heFace j = m.heFace i := by
      refine h.mem (fun z => m.heLive z ∧ m.heFace z = m.heFace i) ⟨hi, rfl⟩ ?_
      rintro z ⟨hz, hzi⟩
      exact ⟨hl z hz, by rw [hinv z hz, hzi]⟩
    exact this.2.symm

/-- The same for vertices. -/
theorem vertex_iff_of {m : Mesh} (ht : ∀ i, m.heLive i → m.heLive (twin i))
    (hl : ∀ i, m.heLive i → m.heLive (m.heNext i))
    (hconn : ∀ i j, m.heLive i → m.heLive j → (m.heVertex i = m.heVertex j ↔ Orb m.vx i j)) :
    ∀ i j, m.heLive i → m.heLive j → (m.heVertex i = m.heVertex j ↔ Orb m.vNext i j) := by
  intro i j hi hj
  rw [hconn i j hi hj]
  exact (Orb.congr (fun i => m.heLive i) hi (fun z hz => hl _ (ht _ hz))
    (fun z hz => by rw [vx, nx_live (ht _ hz)])).symm

theorem face_iff_of' {m : Mesh} (hl : ∀ i, m.heLive i → m.heLive (m.heNext i))
    (hconn : ∀ i j, m.heLive i → m.heLive j → (m.heFace i = m.heFace j ↔ Orb m.nx i j)) :
    ∀ i j, m.heLive i → m.heLive j → (m.heFace i = m.heFace j ↔ Orb m.heNext i j) := by
  intro i j hi hj
  rw [hconn i j hi hj]
  exact (Orb.congr (fun i => m.heLive i) hi hl (fun _ hz => (nx_live hz).symm)).symm

/-- The situation in which `flip` performs the flip. -/
structure FlipOK (m : Mesh) (a1 : ℕ) : Prop where
  live : m.heLive a1
  int_a : ¬ m.ext a1
  int_b : ¬ m.ext (twin a1)
  tri_a : m.heNext (m.heNext (m.heNext a1)) = a1
  tri_b : m.heNext (m.heNext (m.heNext (twin a1))) = twin a1
  deg_a : m.heNext a1 ≠ twin a1
  deg_b : m.heNext (twin a1) ≠ a1

/-- Names and distinctness facts of the six halfedges around a flippable edge. -/
structure Six (m : Mesh) (a1 a2 a3 b1 b2 b3 : ℕ) : Prop where
  tb : b1 = twin a1
  na1 : m.heNext a1 = a2
  na2 : m.heNext a2 = a3
  na3 : m.heNext a3 = a1
  nb1 : m.heNext b1 = b2
  nb2 : m.heNext b2 = b3
  nb3 : m.heNext b3 = b1
  la1 : m.heLive a1
  la2 : m.heLive a2
  la3 : m.heLive a3
  lb1 : m.heLive b1
  lb2 : m.heLive b2
  lb3 : m.heLive b3
  d12 : a1 ≠ a2
  d13 : a1 ≠ a3
  d23 : a2 ≠ a3
  e12 : b1 ≠ b2
  e13 : b1 ≠ b3
  e23 : b2 ≠ b3
  x11 : a1 ≠ b1
  x12 : a1 ≠ b2
  x13 : a1 ≠ b3
  x21 : a2 ≠ b1
  x22 : a2 ≠ b2
  x23 : a2 ≠ b3
  x31 : a3 ≠ b1
  x32 : a3 ≠ b2
  x33 : a3 ≠ b3
  fne : m.heFace a1 ≠ m.heFace b1

theorem six_of {m : Mesh} (hv : m.Valid) {a1 : ℕ} (h : FlipOK m a1) :
    Six m a1 (m.heNext a1) (m.heNext (m.heNext a1)) (twin a1) (m.heNext (twin a1))
      (m.heNext (m.heNext (twin a1))) := by
  have la1 := h.live
  have la2 := hv.next_live _ la1
  have la3 := hv.next_live _ la2
  have lb1 := hv.twin_live _ la1
  have lb2 := hv.next_live _ lb1
  have lb3 := hv.next_live _ lb2
  have d12 : a1 ≠ m.heNext a1 := (hv.deg_two _ la1).symm
  have d23 : m.heNext a1 ≠ m.heNext (m.heNext a1) := (hv.deg_two _ la2).symm
  have d13 : a1 ≠ m.heNext (m.heNext a1) := by
    intro e; have := hv.deg_two _ la3; rw [h.tri_a] at this; exact this e
  have e12 : twin a1 ≠ m.heNext (twin a1) := (hv.deg_two _ lb1).symm
  have e23 := (hv.deg_two _ lb2).symm
  have e13 : twin a1 ≠ m.heNext (m.heNext (twin a1)) := by
    intro e; have := hv.deg_two _ lb3; rw [h.tri_b] at this; exact this e
  -- the twin is not in the cycle of a1
  have hnot : ¬ Orb m.heNext a1 (twin a1) := by
    intro ho
    have : twin a1 = a1 ∨ twin a1 = m.heNext a1 ∨ twin a1 = m.heNext (m.heNext a1) := by
      refine ho.mem (fun z => z = a1 ∨ z = m.heNext a1 ∨ z = m.heNext (m.heNext a1)) (Or.inl rfl) ?_
      rintro z (rfl | rfl | rfl)
      · exact Or.inr (Or.inl rfl)
      · exact Or.inr (Or.inr rfl)
      · exact Or.inl h.tri_a
    rcases this with e | e | e
    · exact twin_ne _ e
    · exact h.deg_a e.symm
    · apply h.deg_b; rw [e]; exact h.tri_a
  have fne : m.heFace a1 ≠ m.heFace (twin a1) := fun e => hnot ((hv.face_iff _ _ la1 lb1).1 e)
  have fa2 : m.heFace (m.heNext a1) = m.heFace a1 := hv.face_next la1
  have fa3 : m.heFace (m.heNext (m.heNext a1)) = m.heFace a1 := by rw [hv.face_next la2, fa2]
  have fb2 : m.heFace (m.heNext (twin a1)) = m.heFace (twin a1) := hv.face_next lb1
  have fb3 : m.heFace (m.heNext (m.heNext (twin a1))) = m.heFace (twin a1) := by
    rw [hv.face_next lb2, fb2]
  refine ⟨rfl, rfl, rfl, h.tri_a, rfl, rfl, h.tri_b, la1, la2, la3, lb1, lb2, lb3,
    d12, d13, d23, e12, e13, e23, ?_, ?_, ?_, ?_, ?_, ?_, ?_, ?_, ?_, fne⟩ <;>
  · intro e
    have := congrArg m.heFace e
    try simp only [fa2, fa3, fb2, fb3] at this
    exact fne this

/-- Pointwise description of the arrays after the flip. -/
structure FlipArrays (m m' : Mesh) (a1 a2 a3 b1 b2 b3 : ℕ) : Prop where
  na1 : m'.heNext a1 = b3
  nb3 : m'.heNext b3 = a2
  na2 : m'.heNext a2 = a1
  nb1 : m'.heNext b1 = a3
  na3 : m'.heNext a3 = b2
  nb2 : m'.heNext b2 = b1
  no : ∀ i, i ≠ a1 → i ≠ a2 → i ≠ a3 → i ≠ b1 → i ≠ b2 → i ≠ b3 → m'.heNext i = m.heNext i
  va1 : m'.heVertex a1 = m.heVertex a3
  vb1 : m'.heVertex b1 = m.heVertex b3
  vo : ∀ i, i ≠ a1 → i ≠ b1 → m'.heVertex i = m.heVertex i
  fa3 : m'.heFace a3 = m.heFace b1
  fb3 : m'.heFace b3 = m.heFace a1
  fo : ∀ i, i ≠ a3 → i ≠ b3 → m'.heFace i = m.heFace i

theorem flipArrays {m : Mesh} {a1 a2 a3 b1 b2 b3 : ℕ} (s : Six m a1 a2 a3 b1 b2 b3) :
    FlipArrays m (m.flipCore a1) a1 a2 a3 b1 b2 b3 := by
  have e2 := s.na1; have e3 := s.na2
  have f1 := s.tb; have f2 := s.nb1; have f3 := s.nb2
  obtain ⟨_, _, _, _, _, _, _, _, _, _, _, _, _, d12, d13, d23, e12, e13, e23, x11, x12, x13, x21,
    x22, x23, x31, x32, x33, _⟩ := s
  constructor
  all_goals (try intro i)
  all_goals simp only [flipCore, e2, e3, ← f1, f2, f3, upd_apply]
  all_goals first
    | (intros; simp_all; done)
    | simp [d12, d13, d23, e12, e13, e23, x11, x12, x13, x21, x22, x23, x31, x32, x33, d12.symm,
        d13.symm, d23.symm, e12.symm, e13.symm, e23.symm, x11.symm, x12.symm, x13.symm, x21.symm,
        x22.symm, x23.symm, x31.symm, x32.symm, x33.symm]

/-- Moving two fixed-point-free corners: `g` arises from the periodic map `f` by taking `x` out
after `p` and putting it back after `q`, and the same for `x'`. -/
theorem move_two {f g : ℕ → ℕ} (hf : Per f) {p x q p' x' q' : ℕ}
    (hpx : p ≠ x) (hqx : q ≠ x) (hpx' : p' ≠ x') (hqx' : q' ≠ x') (hxx : x ≠ x')
    (hpq : p ≠ q) (hpp : p ≠ p') (hpq' : p ≠ q') (hxp' : x ≠ p') (hxq' : x ≠ q')
    (hqp' : q ≠ p') (hqq' : q ≠ q') (hpx2 : p ≠ x') (hqx2 : q ≠ x') (hpq2 : p' ≠ q')
    (fp : f p = x) (fp' : f p' = x')
    (gp : g p = f x) (gp' : g p' = f x') (gq : g q = x) (gq' : g q' = x') (gx : g x = f q)
    (gx' : g x' = f q')
    (go : ∀ i, i ≠ p → i ≠ x → i ≠ q → i ≠ p' → i ≠ x' → i ≠ q' → g i = f i) :
    Per g ∧ ∀ y z, y ≠ x → y ≠ x' → z ≠ x → z ≠ x' → (Orb g y z ↔ Orb f y z) := by
  have e1 : Per (swapf f p x) := hf.swapf _ _
  have e2 : Per (swapf (swapf f p x) p' x') := e1.swapf _ _
  have e3 := e2.swapf q x
  have h1 : swapf f p x p' = x' := by rw [swapf_other _ (Ne.symm hpp) (Ne.symm hxp'), fp']
  have h2 : swapf (swapf f p x) p' x' x = x := by
    rw [swapf_other _ hxp' hxx, swapf_right, fp]
  have h3 : swapf (swapf (swapf f p x) p' x') q x x' = x' := by
    rw [swapf_other _ (Ne.symm hqx2) (Ne.symm hxx), swapf_right, h1]
  have hg : g = swapf (swapf (swapf (swapf f p x) p' x') q x) q' x' := by
    funext i
    unfold swapf
    by_cases a1 : i = p
    · subst a1; rw [gp]; simp [hpx, hpq, hpp, hpq', hpx2]
    by_cases a2 : i = x
    · subst a2; rw [gx]
      simp [hxq', hxx, Ne.symm hqx, hqp', hqx2, Ne.symm hpq, hqx]
    by_cases a3 : i = q
    · subst a3; rw [gq]; simp [hqq', hqx2, hqx, hxp', hxx, fp, Ne.symm hpx]
    by_cases a4 : i = p'
    · subst a4; rw [gp']; simp [hpq2, hpx', Ne.symm hqp', Ne.symm hxp', Ne.symm hpx2, Ne.symm hxx]
    by_cases a5 : i = x'
    · subst a5; rw [gx']; simp [Ne.symm hqx', Ne.symm hqq', Ne.symm hxq', Ne.symm hpq2, hqx', Ne.symm hpq']
    by_cases a6 : i = q'
    · subst a6; rw [gq']; simp [Ne.symm hqx', hqx', Ne.symm hqx2, Ne.symm hxx, fp', Ne.symm hpp, Ne.symm hxp', Ne.symm hpx']
    rw [go i a1 a2 a3 a4 a5 a6]; simp [a1, a2, a3, a4, a5, a6]
  refine ⟨by rw [hg]; exact e3.swapf _ _, ?_⟩
  intro y z hy hy' hz hz'
  rw [hg, swapf_insert e3 h3 hqx' hy' hz', swapf_insert e2 h2 hqx hy hz,
    swapf_remove e1 h1 hpx' hy' hz', swapf_remove hf fp hpx hy hz]

theorem flip_heLive {m m' : Mesh} (hv : m.Valid) {a1 a2 a3 b1 b2 b3 : ℕ}
    (s : Six m a1 a2 a3 b1 b2 b3) (F : FlipArrays m m' a1 a2 a3 b1 b2 b3)
    (hfill : m'.nHeFill = m.nHeFill) (i : ℕ) :
    m'.heNext i ≠ INV ↔ m.heNext i ≠ INV := by
  have hl : ∀ {j}, m.heLive j → j ≠ INV := fun h => (hv.live_lt_INV h).ne
  by_cases h1 : i = a1
  · subst h1; rw [F.na1]; exact iff_of_true (hl s.lb3) s.la1.2
  by_cases h2 : i = a2
  · subst h2; rw [F.na2]; exact iff_of_true (hl s.la1) s.la2.2
  by_cases h3 : i = a3
  · subst h3; rw [F.na3]; exact iff_of_true (hl s.lb2) s.la3.2
  by_cases h4 : i = b1
  · subst h4; rw [F.nb1]; exact iff_of_true (hl s.la3) s.lb1.2
  by_cases h5 : i = b2
  · subst h5; rw [F.nb2]; exact iff_of_true (hl s.lb1) s.lb2.2
  by_cases h6 : i = b3
  · subst h6; rw [F.nb3]; exact iff_of_true (hl s.la2) s.lb3.2
  rw [F.no i h1 h2 h3 h4 h5 h6]

/-- The flipped mesh is valid. -/
theorem flipCore_valid {m : Mesh} (hv : m.Valid) {a1 : ℕ} (h : FlipOK m a1) :
    (m.flipCore a1).Valid := by
  have s := six_of hv h
  set a2 := m.heNext a1 with ha2
  set a3 := m.heNext a2 with ha3
  set b1 := twin a1 with hb1
  set b2 := m.heNext b1 with hb2
  set b3 := m.heNext b2 with hb3
  have F := flipArrays s
  have hn := flip_heLive hv s F rfl
  have hfh : (m.flipCore a1).fHalfedge = upd (upd m.fHalfedge (m.heFace a1) a1) (m.heFace b1) b1 := rfl
  have hvh : (m.flipCore a1).vHalfedge =
      (let vH1 := if m.vHalfedge (m.heVertex a1) = a1 then upd m.vHalfedge (m.heVertex a1) b2
        else m.vHalfedge
       if vH1 (m.heVertex b1) = b1 then upd vH1 (m.heVertex b1) a2 else vH1) := rfl
  have hfill : (m.flipCore a1).nHeFill = m.nHeFill := rfl
  have c1 : (m.flipCore a1).nHeCap = m.nHeCap := rfl
  have c2 : (m.flipCore a1).nVFill = m.nVFill := rfl
  have c3 : (m.flipCore a1).nVCap = m.nVCap := rfl
  have c4 : (m.flipCore a1).nFFill = m.nFFill := rfl
  have c5 : (m.flipCore a1).nFCap = m.nFCap := rfl
  have c6 : (m.flipCore a1).nBL = m.nBL := rfl
  have c7 : (m.flipCore a1).nBLFill = m.nBLFill := rfl
  have c8 : (m.flipCore a1).nEFill = m.nEFill := rfl
  have c9 : (m.flipCore a1).nECap = m.nECap := rfl
  have d1 : (m.flipCore a1).nHe = m.nHe := rfl
  have d2 : (m.flipCore a1).nInt = m.nInt := rfl
  have d3 : (m.flipCore a1).nV = m.nV := rfl
  have d4 : (m.flipCore a1).nE = m.nE := rfl
  have d5 : (m.flipCore a1).nF = m.nF := rfl
  generalize m.flipCore a1 = m' at *
  clear_value a2 a3 b1 b2 b3
  clear ha2 ha3 hb2 hb3
  have intb : ¬ m.ext b1 := by rw [hb1]; exact h.int_b
  have hlive : ∀ i, m'.heLive i ↔ m.heLive i := by
    intro i; unfold heLive; rw [hfill, hn i]
  -- old facts
  have fa2 : m.heFace a2 = m.heFace a1 := by rw [← s.na1]; exact hv.face_next s.la1
  have fa3 : m.heFace a3 = m.heFace a1 := by rw [← fa2, ← s.na2]; exact hv.face_next s.la2
  have fb2 : m.heFace b2 = m.heFace b1 := by rw [← s.nb1]; exact hv.face_next s.lb1
  have fb3 : m.heFace b3 = m.heFace b1 := by rw [← fb2, ← s.nb2]; exact hv.face_next s.lb2
  have hfa : m.heFace a1 < m.nFFill := Valid.face_lt h.int_a
  have hfb : m.heFace b1 < m.nFFill := Valid.face_lt intb
  have cyc : ∀ {x y z w}, m.heLive x → m.heLive w → m.heNext x = y → m.heNext y = z →
      m.heNext z = x → m.heFace w = m.heFace x → w = x ∨ w = y ∨ w = z := by
    intro x y z w lx lw e1 e2 e3 hf
    refine ((hv.face_iff _ _ lx lw).1 hf.symm).mem (fun t => t = x ∨ t = y ∨ t = z) (Or.inl rfl) ?_
    rintro t (rfl | rfl | rfl)
    · rw [e1]; tauto
    · rw [e2]; tauto
    · rw [e3]; tauto
  have cyca : ∀ {w}, m.heLive w → m.heFace w = m.heFace a1 → w = a1 ∨ w = a2 ∨ w = a3 :=
    fun lw => cyc s.la1 lw s.na1 s.na2 s.na3
  have cycb : ∀ {w}, m.heLive w → m.heFace w = m.heFace b1 → w = b1 ∨ w = b2 ∨ w = b3 :=
    fun lw => cyc s.lb1 lw s.nb1 s.nb2 s.nb3
  have hnl : ∀ i, m'.heLive i → m'.heLive (m'.heNext i) := by
    intro i hi
    rw [hlive] at hi ⊢
    by_cases h1 : i = a1
    · subst h1; rw [F.na1]; exact s.lb3
    by_cases h2 : i = a2
    · subst h2; rw [F.na2]; exact s.la1
    by_cases h3 : i = a3
    · subst h3; rw [F.na3]; exact s.lb2
    by_cases h4 : i = b1
    · subst h4; rw [F.nb1]; exact s.la3
    by_cases h5 : i = b2
    · subst h5; rw [F.nb2]; exact s.lb1
    by_cases h6 : i = b3
    · subst h6; rw [F.nb3]; exact s.la2
    rw [F.no i h1 h2 h3 h4 h5 h6]; exact hv.next_live i hi
  have htl : ∀ i, m'.heLive i → m'.heLive (twin i) := by
    intro i hi; rw [hlive] at hi ⊢; exact hv.twin_live i hi
  have Fa1 : m'.heFace a1 = m.heFace a1 := F.fo _ s.d13 s.x13
  have Fa2 : m'.heFace a2 = m.heFace a1 := by rw [F.fo _ s.d23 s.x23, fa2]
  have Fb1 : m'.heFace b1 = m.heFace b1 := F.fo _ s.x31.symm s.e13
  have Fb2 : m'.heFace b2 = m.heFace b1 := by rw [F.fo _ s.x32.symm s.e23, fb2]
  -- exteriority is unchanged
  have hext : ∀ i, m'.ext i ↔ m.ext i := by
    intro i
    unfold ext
    rw [c4]
    by_cases h3 : i = a3
    · subst h3; rw [F.fa3, fa3]; omega
    by_cases h6 : i = b3
    · subst h6; rw [F.fb3, fb3]; omega
    rw [F.fo i h3 h6]
  -- vertices
  have tb1 : twin b1 = a1 := by rw [s.tb, twin_twin]
  have ta1 : twin a1 = b1 := s.tb.symm
  have nx' : ∀ i, m'.nx i = if m.heLive i then m'.heNext i else i := by
    intro i; unfold nx; simp only [hlive]
  have ne : ∀ {x y : ℕ}, x ≠ y → twin x ≠ twin y := fun h e => h (twin_inj e)
  have neL : ∀ {x}, x ≠ b1 → twin x ≠ a1 := fun h e => h (by rw [← ta1, ← e, twin_twin])
  have neR : ∀ {x}, x ≠ a1 → twin x ≠ b1 := fun h e => h (by rw [← tb1, ← e, twin_twin])
  have vxeq : ∀ i, m'.vx i = m'.nx (twin i) := fun i => rfl
  have vxeq0 : ∀ i, m.vx i = m.nx (twin i) := fun i => rfl
  have mv := move_two (f := m.vx) (g := m'.vx) hv.per_vx (p := twin a3) (x := a1) (q := twin a2)
    (p' := twin b3) (x' := b1) (q' := twin b2)
    (neL s.x31) (neL s.x21) (neR s.x13.symm) (neR s.x12.symm) s.x11
    (ne s.d23.symm) (ne s.x33) (ne s.x32) (neL s.e13.symm).symm (neL s.e12.symm).symm
    (ne s.x23) (ne s.x22) (neR s.d13.symm) (neR s.d12.symm) (ne s.e23.symm)
    (by rw [vxeq0, twin_twin, nx_live s.la3, s.na3])
    (by rw [vxeq0, twin_twin, nx_live s.lb3, s.nb3])
    (by rw [vxeq, vxeq0, twin_twin, ta1, nx_live s.lb1, nx_live ((hlive _).2 s.la3), F.na3, s.nb1])
    (by rw [vxeq, vxeq0, twin_twin, tb1, nx_live s.la1, nx_live ((hlive _).2 s.lb3), F.nb3, s.na1])
    (by rw [vxeq, twin_twin, nx_live ((hlive _).2 s.la2), F.na2])
    (by rw [vxeq, twin_twin, nx_live ((hlive _).2 s.lb2), F.nb2])
    (by rw [vxeq, vxeq0, ta1, twin_twin, nx_live s.la2, nx_live ((hlive _).2 s.lb1), F.nb1, s.na2])
    (by rw [vxeq, vxeq0, tb1, twin_twin, nx_live s.lb2, nx_live ((hlive _).2 s.la1), F.na1, s.nb2])
    (by
      intro i h1 h2 h3 h4 h5 h6
      rw [vxeq, vxeq0]
      by_cases hl : m.heLive (twin i)
      · rw [nx_live hl, nx_live ((hlive _).2 hl)]
        apply F.no
        · intro e; apply h5; rw [← twin_twin i, e, ta1]
        · intro e; exact h3 (by rw [← e]; simp)
        · intro e; exact h1 (by rw [← e]; simp)
        · intro e; apply h2; rw [← twin_twin i, e, tb1]
        · intro e; exact h6 (by rw [← e]; simp)
        · intro e; exact h4 (by rw [← e]; simp)
      · rw [nx_dead hl, nx_dead (fun h => hl ((hlive _).1 h))])
  obtain ⟨per', orb'⟩ := mv
  have oa : Orb m'.vx a1 a3 := ⟨1, by
    show m'.nx (twin a1) = a3; rw [ta1, nx_live ((hlive _).2 s.lb1), F.nb1]⟩
  have ob : Orb m'.vx b1 b3 := ⟨1, by
    show m'.nx (twin b1) = b3; rw [tb1, nx_live ((hlive _).2 s.la1), F.na1]⟩
  -- representative map
  let ρ : ℕ → ℕ := fun i => if i = a1 then a3 else if i = b1 then b3 else i
  have hρ : ∀ i, Orb m'.vx i (ρ i) ∧ ρ i ≠ a1 ∧ ρ i ≠ b1 ∧ m'.heVertex i = m.heVertex (ρ i) ∧
      (m.heLive i → m.heLive (ρ i)) := by
    intro i
    simp only [ρ]
    by_cases h1 : i = a1
    · subst h1; simp only [if_true]
      exact ⟨oa, s.d13.symm, s.x31, F.va1, fun _ => s.la3⟩
    · by_cases h2 : i = b1
      · subst h2; simp only [if_neg h1, if_true]
        exact ⟨ob, s.x13.symm, s.e13.symm, F.vb1, fun _ => s.lb3⟩
      · simp only [if_neg h1, if_neg h2]
        exact ⟨Orb.refl _ _, h1, h2, F.vo i h1 h2, id⟩
  have vconn : ∀ i j, m'.heLive i → m'.heLive j → (m'.heVertex i = m'.heVertex j ↔ Orb m'.vx i j) := by
    intro i j hi hj
    rw [hlive] at hi hj
    obtain ⟨o1, p1, q1, e1, l1⟩ := hρ i
    obtain ⟨o2, p2, q2, e2, l2⟩ := hρ j
    rw [e1, e2, hv.vertex_vx_iff (l1 hi) (l2 hj), ← orb' _ _ p1 q1 p2 q2]
    constructor
    · intro o; exact o1.trans (o.trans (o2.symm per'))
    · intro o; exact (o1.symm per').trans (o.trans o2)
  -- vertex halfedges
  have va1 : m.heVertex a1 = m.heVertex b2 := by
    have := hv.vertex_next s.lb1; rw [s.nb1, tb1] at this; exact this.symm
  have vb1 : m.heVertex b1 = m.heVertex a2 := by
    have := hv.vertex_next s.la1; rw [s.na1, ta1] at this; exact this.symm
  have vhe : ∀ v, m'.vHalfedge v =
      if v = m.heVertex a1 ∧ m.vHalfedge v = a1 then b2
      else if v = m.heVertex b1 ∧ m.vHalfedge v = b1 then a2 else m.vHalfedge v := by
    intro v
    rw [hvh]
    simp only
    have key : ∀ w, (if m.vHalfedge (m.heVertex a1) = a1 then upd m.vHalfedge (m.heVertex a1) b2
        else m.vHalfedge) w = if w = m.heVertex a1 ∧ m.vHalfedge w = a1 then b2 else m.vHalfedge w := by
      intro w
      by_cases hc : m.vHalfedge (m.heVertex a1) = a1
      · rw [if_pos hc, upd_apply]
        by_cases hw : w = m.heVertex a1
        · subst hw; simp [hc]
        · simp [hw]
      · rw [if_neg hc]
        by_cases hw : w = m.heVertex a1
        · subst hw; simp [hc]
        · simp [hw]
    rw [key]
    by_cases hv1 : m.heVertex b1 = m.heVertex a1 ∧ m.vHalfedge (m.heVertex b1) = a1
    · rw [if_pos hv1, if_neg s.e12.symm, key]
      by_cases hc : v = m.heVertex a1 ∧ m.vHalfedge v = a1
      · rw [if_pos hc, if_pos hc]
      · rw [if_neg hc, if_neg hc, if_neg]
        rintro ⟨rfl, h2⟩
        exact hc ⟨hv1.1, hv1.2⟩
    · rw [if_neg hv1]
      by_cases hc : m.vHalfedge (m.heVertex b1) = b1
      · rw [if_pos hc, upd_apply]
        by_cases hvv : v = m.heVertex b1
        · subst hvv
          rw [if_pos rfl, if_neg hv1, if_pos ⟨rfl, hc⟩]
        · rw [if_neg hvv, key]
          simp [hvv]
      · rw [if_neg hc, key]
        by_cases hvv : v = m.heVertex b1
        · subst hvv; simp [hc]
        · simp [hvv]
  have b2ne : b2 ≠ INV := (hv.live_lt_INV s.lb2).ne
  have a2ne : a2 ≠ INV := (hv.live_lt_INV s.la2).ne
  have a1ne : a1 ≠ INV := (hv.live_lt_INV s.la1).ne
  have b1ne : b1 ≠ INV := (hv.live_lt_INV s.lb1).ne
  have vhne : ∀ v, m'.vHalfedge v ≠ INV ↔ m.vHalfedge v ≠ INV := by
    intro v; rw [vhe]
    split_ifs with h1 h2
    · rw [h1.2]; exact iff_of_true b2ne a1ne
    · rw [h2.2]; exact iff_of_true a2ne b1ne
    · rfl
  have vlive : ∀ v, m'.vLive v ↔ m.vLive v := by
    intro v; unfold vLive; rw [c2, vhne]
  have fhne : ∀ f, m'.fHalfedge f ≠ INV ↔ m.fHalfedge f ≠ INV := by
    intro f
    rw [hfh, upd_apply, upd_apply]
    split_ifs with h1 h2
    · exact iff_of_true b1ne (by rw [h1]; exact (hv.face_live _ s.lb1).2)
    · exact iff_of_true a1ne (by rw [h2]; exact (hv.face_live _ s.la1).2)
    · rfl
  have flive : ∀ f, m'.fLive f ↔ m.fLive f := by
    intro f; unfold fLive; rw [c4, c5, c7, fhne]
  constructor
  · rw [hfill, c8]; exact hv.he_fill
  · rw [hfill, c1]; exact hv.he_cap
  · rw [c1, c9]; exact hv.e_cap
  · rw [c2, c3]; exact hv.v_cap
  · rw [c4, c5, c7]; exact hv.f_cap
  · exact htl
  · exact hnl
  · intro i hi
    rw [vlive, (hρ i).2.2.2.1]
    exact hv.vertex_live _ ((hρ i).2.2.2.2 ((hlive i).1 hi))
  · intro i hi
    rw [flive]
    rw [hlive] at hi
    by_cases h3 : i = a3
    · subst h3; rw [F.fa3]; exact hv.face_live _ s.lb1
    by_cases h6 : i = b3
    · subst h6; rw [F.fb3]; exact hv.face_live _ s.la1
    rw [F.fo i h3 h6]; exact hv.face_live _ hi
  · -- faces
    refine face_iff_of hnl ?_ ?_
    · intro i hi
      rw [hlive] at hi
      by_cases h1 : i = a1
      · subst h1; rw [F.na1, F.fb3, Fa1]
      by_cases h2 : i = a2
      · subst h2; rw [F.na2, Fa1, Fa2]
      by_cases h3 : i = a3
      · subst h3; rw [F.na3, F.fa3, Fb2]
      by_cases h4 : i = b1
      · subst h4; rw [F.nb1, F.fa3, Fb1]
      by_cases h5 : i = b2
      · subst h5; rw [F.nb2, Fb1, Fb2]
      by_cases h6 : i = b3
      · subst h6; rw [F.nb3, Fa2, F.fb3]
      rw [F.no i h1 h2 h3 h4 h5 h6, F.fo i h3 h6, F.fo, hv.face_next hi]
      · intro e
        have := hv.face_next hi
        rw [e, fa3] at this
        rcases cyca hi this.symm with e | e | e <;> contradiction
      · intro e
        have := hv.face_next hi
        rw [e, fb3] at this
        rcases cycb hi this.symm with e | e | e <;> contradiction
    · intro i j hi hj hf
      have hi0 := (hlive i).1 hi
      have hj0 := (hlive j).1 hj
      -- class of an element
      have cls : ∀ k, m.heLive k → m'.heFace k = m.heFace a1 → k = a1 ∨ k = a2 ∨ k = b3 := by
        intro k hk hkf
        by_cases h3 : k = a3
        · subst h3; rw [F.fa3] at hkf; exact absurd hkf s.fne.symm
        by_cases h6 : k = b3
        · tauto
        rw [F.fo k h3 h6] at hkf
        rcases cyca hk hkf with e | e | e <;> tauto
      have clsb : ∀ k, m.heLive k → m'.heFace k = m.heFace b1 → k = b1 ∨ k = b2 ∨ k = a3 := by
        intro k hk hkf
        by_cases h3 : k = b3
        · subst h3; rw [F.fb3] at hkf; exact absurd hkf s.fne
        by_cases h6 : k = a3
        · tauto
        rw [F.fo k h6 h3] at hkf
        rcases cycb hk hkf with e | e | e <;> tauto
      have na1 : m'.nx a1 = b3 := by rw [nx_live ((hlive _).2 s.la1), F.na1]
      have nb3 : m'.nx b3 = a2 := by rw [nx_live ((hlive _).2 s.lb3), F.nb3]
      have na2 : m'.nx a2 = a1 := by rw [nx_live ((hlive _).2 s.la2), F.na2]
      have nb1 : m'.nx b1 = a3 := by rw [nx_live ((hlive _).2 s.lb1), F.nb1]
      have na3 : m'.nx a3 = b2 := by rw [nx_live ((hlive _).2 s.la3), F.na3]
      have nb2 : m'.nx b2 = b1 := by rw [nx_live ((hlive _).2 s.lb2), F.nb2]
      by_cases ca : m'.heFace i = m.heFace a1
      · have cj := cls j hj0 (hf ▸ ca)
        rcases cls i hi0 ca with rfl | rfl | rfl <;> rcases cj with rfl | rfl | rfl <;>
          first
          | exact ⟨0, rfl⟩
          | (refine ⟨1, ?_⟩; show m'.nx _ = _; simp only [na1, na2, nb3]; done)
          | (refine ⟨2, ?_⟩; show m'.nx (m'.nx _) = _; simp only [na1, na2, nb3]; done)
      by_cases cb : m'.heFace i = m.heFace b1
      · have cj := clsb j hj0 (hf ▸ cb)
        rcases clsb i hi0 cb with rfl | rfl | rfl <;> rcases cj with rfl | rfl | rfl <;>
          first
          | exact ⟨0, rfl⟩
          | (refine ⟨1, ?_⟩; show m'.nx _ = _; simp only [nb1, nb2, na3]; done)
          | (refine ⟨2, ?_⟩; show m'.nx (m'.nx _) = _; simp only [nb1, nb2, na3]; done)
      · have nota : ∀ k, m'.heFace k = m'.heFace i → k ≠ a1 ∧ k ≠ a2 ∧ k ≠ a3 ∧ k ≠ b1 ∧ k ≠ b2 ∧ k ≠ b3 := by
          intro k hk
          refine ⟨?_, ?_, ?_, ?_, ?_, ?_⟩ <;> rintro rfl <;> rw [← hk] at ca cb
          · exact ca Fa1
          · exact ca Fa2
          · exact cb F.fa3
          · exact cb Fb1
          · exact cb Fb2
          · exact ca F.fb3
        obtain ⟨i1, i2, i3, i4, i5, i6⟩ := nota i rfl
        obtain ⟨j1, j2, j3, j4, j5, j6⟩ := nota j hf.symm
        rw [F.fo i i3 i6, F.fo j j3 j6] at hf
        rw [F.fo i i3 i6] at ca cb
        have o := (hv.face_nx_iff hi0 hj0).1 hf
        refine (Orb.congr (fun k => m.heLive k ∧ m.heFace k = m.heFace i) ⟨hi0, rfl⟩ ?_ ?_).1 o
        · rintro z ⟨hz, hzi⟩
          refine ⟨hv.nx_live_of hz, ?_⟩
          rw [nx_live hz, hv.face_next hz, hzi]
        · rintro z ⟨hz, hzi⟩
          rw [nx_live hz, nx_live ((hlive _).2 hz), F.no] <;>
          · rintro rfl
            try simp only [fa2, fa3, fb2, fb3] at hzi
            first | exact ca hzi.symm | exact cb hzi.symm
  · exact vertex_iff_of htl hnl vconn
  · intro v hvl
    rw [vlive] at hvl
    obtain ⟨l0, e0⟩ := hv.v_he v hvl
    rw [hlive, vhe]
    split_ifs with h1 h2
    · refine ⟨s.lb2, ?_⟩
      rw [F.vo _ s.x12.symm s.e12.symm, ← va1, ← h1.1]
    · refine ⟨s.la2, ?_⟩
      rw [F.vo _ s.d12.symm s.x21, ← vb1, ← h2.1]
    · refine ⟨l0, ?_⟩
      rw [F.vo, e0]
      · intro e; exact h1 ⟨by rw [← e0, e], e⟩
      · intro e; exact h2 ⟨by rw [← e0, e], e⟩
  · intro f hfl
    rw [flive] at hfl
    obtain ⟨l0, e0⟩ := hv.f_he f hfl
    rw [hlive, hfh, upd_apply, upd_apply]
    split_ifs with h1 h2
    · exact ⟨s.lb1, by rw [Fb1, h1]⟩
    · exact ⟨s.la1, by rw [Fa1, h2]⟩
    · refine ⟨l0, ?_⟩
      rw [F.fo, e0]
      · intro e; apply h2; rw [← e0, e, fa3]
      · intro e; apply h1; rw [← e0, e, fb3]
  · intro i hi e
    rw [hlive] at hi
    by_cases h1 : i = a1
    · subst h1; rw [F.na1] at e; exact s.x13 e.symm
    by_cases h2 : i = a2
    · subst h2; rw [F.na2] at e; exact s.d12 e
    by_cases h3 : i = a3
    · subst h3; rw [F.na3] at e; exact s.x32 e.symm
    by_cases h4 : i = b1
    · subst h4; rw [F.nb1] at e; exact s.x31 e
    by_cases h5 : i = b2
    · subst h5; rw [F.nb2] at e; exact s.e12 e
    by_cases h6 : i = b3
    · subst h6; rw [F.nb3] at e; exact s.x23 e
    rw [F.no i h1 h2 h3 h4 h5 h6] at e; exact hv.deg_two i hi e
  · intro e he
    rw [hext]; exact hv.edge_int e ((hlive _).1 he)
  · intro i j hi hj ei ej hij
    rw [hlive] at hi hj
    rw [hext] at ei ej
    have i1 : i ≠ a1 := by rintro rfl; exact h.int_a ei
    have i2 : i ≠ b1 := by rintro rfl; exact intb ei
    have j1 : j ≠ a1 := by rintro rfl; exact h.int_a ej
    have j2 : j ≠ b1 := by rintro rfl; exact intb ej
    rw [F.vo i i1 i2, F.vo j j1 j2] at hij
    exact hv.bdy_unique i j hi hj ei ej hij
  · intro i hi ei
    rw [hlive] at hi
    rw [hext] at ei
    have i1 : i ≠ a1 := by rintro rfl; exact h.int_a ei
    have i2 : i ≠ b1 := by rintro rfl; exact intb ei
    rw [F.vo i i1 i2, hext, vhe]
    have b0 := hv.bdy_first i hi ei
    split_ifs with h1 h2
    · rw [h1.2, ta1] at b0; exact absurd b0 intb
    · rw [h2.2, tb1] at b0; exact absurd b0 h.int_a
    · exact b0
  · rw [d1, hfill, hv.cnt_he]
    exact count_congr (fun i _ => (hn i).symm)
  · rw [d2, hfill, hv.cnt_int, c4]
    refine count_congr (fun i _ => ?_)
    rw [hn i]
    have := hext i
    unfold ext at this; rw [c4] at this
    constructor <;> rintro ⟨x, y⟩ <;> exact ⟨x, by omega⟩
  · rw [d4, c8, hv.cnt_e]
    exact count_congr (fun i _ => (hn _).symm)
  · rw [d3, c2, hv.cnt_v]
    exact count_congr (fun i _ => (vhne _).symm)
  · rw [d5, c4, hv.cnt_f]
    exact count_congr (fun i _ => (fhne _).symm)
  · rw [c6, c7]; exact hv.cnt_bl
  · intro f; rw [c5, c7, fhne]; exact hv.bl_live f

end Mesh
end GC
