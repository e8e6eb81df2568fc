import Verif.MeshSwitch
import Verif.MeshInsertFace
import Verif.MeshRemoveVertex

/-! # separateEdge (model and helper lemmas) -/

set_option linter.unusedSimpArgs false

namespace GC

/-- Inserting a fixed point `x` after `c`, for all pairs of points: `x` is represented by `c`. -/
theorem swapf_insert_rep {f : ℕ → ℕ} (hf : Per f) {c x : ℕ} (hx : f x = x) (hcx : c ≠ x) (y z : ℕ) :
    Orb (swapf f c x) y z ↔ Orb f (if y = x then c else y) (if z = x then c else z) := by
  have hg := hf.swapf c x
  by_cases hy : y = x
  · by_cases hz : z = x
    · rw [if_pos hy, if_pos hz, hy, hz]; exact ⟨fun _ => Orb.refl _ _, fun _ => Orb.refl _ _⟩
    · rw [if_pos hy, if_neg hz, hy]; exact swapf_insert_new hf hx hcx hz
  · by_cases hz : z = x
    · rw [if_neg hy, if_pos hz, hz]
      constructor
      · intro o; exact ((swapf_insert_new hf hx hcx hy).1 (o.symm hg)).symm hf
      · intro o; exact ((swapf_insert_new hf hx hcx hy).2 (o.symm hf)).symm hg
    · rw [if_neg hy, if_neg hz]; exact swapf_insert hf hx hcx hy hz

/-- The loop `do { arr[cur] = val; cur = cur.next().next().twin(); } while (cur != stop); arr[cur] = val;`
of `separateEdge`, manifold_surface_mesh.cpp:770-775. -/
def fanRelabel (next : ℕ → ℕ) (stop val : ℕ) : ℕ → ℕ → (ℕ → ℕ) → Res (ℕ → ℕ)
  | 0, _, _ => .error .hang
  | n + 1, cur, arr =>
    if twin (next (next cur)) = stop then .ok (upd (upd arr cur val) (twin (next (next cur))) val)
    else fanRelabel next stop val n (twin (next (next cur))) (upd arr cur val)

/-- If the loop walks backward along a cycle `w` of `k + 2` elements, from its last element to its first, it
marks exactly these. -/
theorem fanRelabel_ok {next w : ℕ → ℕ} {val : ℕ} (k : ℕ) {fuel : ℕ} (hk : k < fuel) (arr : ℕ → ℕ)
    (hstep : ∀ j ≤ k, twin (next (next (w (j + 1)))) = w j) (hinj : ∀ j ≤ k, 0 < j → w j ≠ w 0) :
    ∃ arr', fanRelabel next (w 0) val fuel (w (k + 1)) arr = .ok arr' ∧
      ∀ i, arr' i = if (∃ j ≤ k + 1, w j = i) then val else arr i := by
  classical
  induction k generalizing fuel arr with
  | zero =>
    cases fuel with
    | zero => omega
    | succ fuel =>
      unfold fanRelabel
      rw [hstep 0 le_rfl, if_pos rfl]
      refine ⟨_, rfl, fun i => ?_⟩
      rw [upd_apply, upd_apply]
      by_cases h0 : i = w 0
      · rw [if_pos h0, if_pos ⟨0, by omega, h0.symm⟩]
      rw [if_neg h0]
      by_cases h1 : i = w (0 + 1)
      · rw [if_pos h1, if_pos ⟨1, by omega, h1.symm⟩]
      rw [if_neg h1, if_neg]
      rintro ⟨j, hj, e⟩
      rcases (show j = 0 ∨ j = 0 + 1 by omega) with rfl | rfl
      · exact h0 e.symm
      · exact h1 e.symm
  | succ k ih =>
    cases fuel with
    | zero => omega
    | succ fuel =>
      unfold fanRelabel
      rw [hstep (k + 1) le_rfl, if_neg (hinj (k + 1) le_rfl (by omega))]
      obtain ⟨arr', h1, h2⟩ := ih (fuel := fuel) (by omega) (upd arr (w (k + 1 + 1)) val)
        (fun j hj => hstep j (by omega)) (fun j hj => hinj j (by omega))
      refine ⟨arr', h1, fun i => ?_⟩
      rw [h2, upd_apply]
      by_cases c : ∃ j ≤ k + 1, w j = i
      · obtain ⟨j, hj, e⟩ := c
        rw [if_pos ⟨j, hj, e⟩, if_pos ⟨j, by omega, e⟩]
      rw [if_neg c]
      by_cases d : i = w (k + 1 + 1)
      · rw [if_pos d, if_pos ⟨k + 1 + 1, le_rfl, d.symm⟩]
      · rw [if_neg d, if_neg]
        rintro ⟨j, hj, e⟩
        rcases Nat.lt_or_ge j (k + 1 + 1) with h | h
        · exact c ⟨j, by omega, e⟩
        · have : j = k + 1 + 1 := by omega
          subst this; exact d e.symm

namespace Mesh

/-- Pointer updates of case 1 of `separateEdge` (neither endpoint on the boundary),
manifold_surface_mesh.cpp:721-741. `fB` is `heT.face()`, read before any allocation. -/
def separateWrites1 (m : Mesh) (he heTPrev heN1 fB bl : ℕ) : Mesh :=
  let heT := twin he
  let heN2 := twin heN1
  let vA := m.heVertex he
  let vB := m.heVertex heT
  { m with
    heNext := upd (upd (upd (upd m.heNext heT heN2) heN2 heT) heN1 (m.heNext heT)) heTPrev heN1
    heVertex := upd (upd m.heVertex heN1 vB) heN2 vA
    heFace := upd (upd (upd m.heFace heT bl) heN1 fB) heN2 bl
    fHalfedge := upd (upd m.fHalfedge fB heN1) bl heT
    vHalfedge := upd (upd m.vHalfedge vA he) vB heN1 }

/-- Pointer updates of case 2 of `separateEdge` (`vA` on the boundary, `vB` not),
manifold_surface_mesh.cpp:761-784, with the loop over the fan at `vA`. -/
def separateWrites2 (m : Mesh) (he heTPrev heN1 vN : ℕ) : Res Mesh :=
  let heT := twin he
  let heN2 := twin heN1
  let vA := m.heVertex he
  let vB := m.heVertex heT
  let fB := m.heFace heT
  let heB := twin (m.vHalfedge vA)
  let heBN := m.heNext heB
  let bl := m.heFace heB
  let next := upd (upd (upd (upd (upd m.heNext heT heBN) heN2 heT) heN1 (m.heNext heT)) heTPrev heN1) heB heN2
  match fanRelabel next heBN vN m.nHeFill he (upd (upd m.heVertex heN1 vB) heN2 vA) with
  | .error x => .error x
  | .ok vert => .ok { m with
    heNext := next
    heVertex := vert
    heFace := upd (upd (upd m.heFace heT bl) heN1 fB) heN2 bl
    fHalfedge := upd m.fHalfedge fB heN1
    vHalfedge := upd (upd m.vHalfedge vB heN1) vN he }

/-- Case 1 of `separateEdge`, manifold_surface_mesh.cpp:711-743. -/
def separateCase1 (m : Mesh) (he heTPrev : ℕ) : Res (Mesh × (ℕ × ℕ)) :=
  match m.getNewEdgeTriple true with
  | .error x => .error x
  | .ok (m1, heN1) => match m1.getNewBoundaryLoop with
    | .error x => .error x
    | .ok (m2, bl) => .ok (m2.separateWrites1 he heTPrev heN1 (m.heFace (twin he)) bl, (he, heN1))

/-- Case 2 of `separateEdge`, manifold_surface_mesh.cpp:746-796. -/
def separateCase2 (m : Mesh) (he heTPrev : ℕ) (swapAB : Bool) : Res (Mesh × (ℕ × ℕ)) :=
  match m.getNewEdgeTriple true with
  | .error x => .error x
  | .ok (m1, heN1) => match m1.getNewVertex with
    | .error x => .error x
    | .ok (m2, vN) => match m2.separateWrites2 he heTPrev heN1 vN with
      | .error x => .error x
      | .ok m3 => match m3.ensureEdgeHasInteriorHalfedge (heEdge he) with
        | .error x => .error x
        | .ok (m4, _) => .ok (m4, if swapAB then (heN1, eHalfedge (heEdge he)) else (eHalfedge (heEdge he), heN1))

/-- `ManifoldSurfaceMesh::separateEdge`, manifold_surface_mesh.cpp:675-824. Cases 3 and 4 (both endpoints on
the boundary) throw. -/
def separateEdge (m : Mesh) (e : ℕ) : Res (Mesh × (ℕ × ℕ)) :=
  if m.eIsBoundary e then .error .throw
  else
    let vABdy := m.vIsBoundary (m.heVertex (eHalfedge e))
    let vBBdy := m.vIsBoundary (m.heVertex (twin (eHalfedge e)))
    let swapAB : Bool := decide (vBBdy ∧ ¬ vABdy)
    let he := if swapAB then twin (eHalfedge e) else eHalfedge e
    match m.prevOrbitFace (twin he) with
    | .error x => .error x
    | .ok heTPrev =>
      if ¬ vABdy ∧ ¬ vBBdy then m.separateCase1 he heTPrev
      else if ¬ (vABdy ∧ vBBdy) then m.separateCase2 he heTPrev swapAB
      else .error .throw

/-! ### The cycles -/

/-- `twin().next()` on live halfedges, the identity elsewhere. -/
def vy (m : Mesh) (i : ℕ) : ℕ := if m.heLive i then m.vNext i else i

theorem vy_live {m : Mesh} {i : ℕ} (h : m.heLive i) : m.vy i = m.vNext i := by simp [vy, h]
theorem vy_dead {m : Mesh} {i : ℕ} (h : ¬ m.heLive i) : m.vy i = i := by simp [vy, h]

theorem Valid.orb_vNext_vy {m : Mesh} (hv : m.Valid) {i j : ℕ} (hi : m.heLive i) : Orb m.vNext i j ↔ Orb m.vy i j :=
  Orb.congr (fun i => m.heLive i) hi (fun _ h => hv.vNext_live h) (fun _ hz => (vy_live hz).symm)

theorem Valid.per_vy {m : Mesh} (hv : m.Valid) : Per m.vy := by
  intro i
  by_cases hi : m.heLive i
  · rw [vy_live hi]
    exact (hv.orb_vNext_vy (hv.vNext_live hi)).1 ((hv.vertex_iff _ i (hv.vNext_live hi) hi).1 (hv.vertex_vNext hi))
  · rw [vy_dead hi]; exact Orb.refl _ _

theorem Valid.vertex_vy_iff {m : Mesh} (hv : m.Valid) {i j : ℕ} (hi : m.heLive i) (hj : m.heLive j) :
    m.heVertex i = m.heVertex j ↔ Orb m.vy i j := (hv.vertex_iff i j hi hj).trans (hv.orb_vNext_vy hi)

/-- What the two cases have in common: the halfedge `T = heT` is replaced by the new halfedge `n1` in its face and
moved with the other new halfedge `n2` to a boundary loop `fl`. The count of interior halfedges is the correct
one, one less than what the code leaves. -/
structure SepBase (m m' : Mesh) (T p n1 n2 fl : ℕ) : Prop where
  lT : m.heLive T
  lp : m.heLive p
  np : m.heNext p = T
  iT : ¬ m.ext T
  iH : ¬ m.ext (twin T)
  hn1 : n1 = m.nHeFill
  hn2 : n2 = m.nHeFill + 1
  xfl : m.nFFill ≤ fl
  next_n2 : m'.heNext n2 = T
  next_n1 : m'.heNext n1 = m.heNext T
  next_p : m'.heNext p = n1
  f_T : m'.heFace T = fl
  f_n1 : m'.heFace n1 = m.heFace T
  f_n2 : m'.heFace n2 = fl
  f_o : ∀ i, i ≠ T → i ≠ n1 → i ≠ n2 → m'.heFace i = m.heFace i
  c_heFill : m'.nHeFill = m.nHeFill + 2
  c_eFill : m'.nEFill = m.nEFill + 1
  c_heCap : m.nHeFill + 2 ≤ m'.nHeCap ∧ m'.nHeCap < INV
  c_eCap : m'.nHeCap = 2 * m'.nECap
  c_fFill : m'.nFFill = m.nFFill
  c_fCap : m'.nFCap = m.nFCap
  c_he : m'.nHe = m.nHe + 2
  c_int : m'.nInt = m.nInt
  c_e : m'.nE = m.nE + 1
  c_f : m'.nF = m.nF

section base
variable {m m' : Mesh} {T p n1 n2 fl : ℕ}

theorem SepBase.pT (hv : m.Valid) (S : SepBase m m' T p n1 n2 fl) : p ≠ T := by
  intro e; have := S.np; rw [e] at this; exact hv.deg_two T S.lT this

theorem SepBase.lt (S : SepBase m m' T p n1 n2 fl) {i : ℕ} (hi : m.heLive i) : i ≠ n1 ∧ i ≠ n2 := by
  have := hi.1; have := S.hn1; have := S.hn2; omega

theorem SepBase.dead1 (S : SepBase m m' T p n1 n2 fl) : ¬ m.heLive n1 := fun h => (S.lt h).1 rfl
theorem SepBase.dead2 (S : SepBase m m' T p n1 n2 fl) : ¬ m.heLive n2 := fun h => (S.lt h).2 rfl

theorem SepBase.n12 (S : SepBase m m' T p n1 n2 fl) : n1 ≠ n2 := by have := S.hn1; have := S.hn2; omega

theorem SepBase.tn1 (hv : m.Valid) (S : SepBase m m' T p n1 n2 fl) : twin n1 = n2 := by
  rw [S.hn1, S.hn2, hv.he_fill, twin_two_mul]

theorem SepBase.tn2 (hv : m.Valid) (S : SepBase m m' T p n1 n2 fl) : twin n2 = n1 := by
  rw [← S.tn1 hv, twin_twin]

/-- The successor function with `T` renamed to `n1`; `T` and `n2` are fixed. -/
def renx (m : Mesh) (T n1 : ℕ) (i : ℕ) : ℕ := swp T n1 (m.nx (swp T n1 i))

theorem SepBase.renx_per (hv : m.Valid) : Per (renx m T n1) := by
  intro i
  show Orb (renx m T n1) _ _
  rw [orb_conj (g := renx m T n1) (σ := swp T n1) (f := m.nx) (by simp) (fun _ => rfl)]
  unfold renx; rw [swp_swp]; exact hv.per_nx _

theorem SepBase.renx_orb {i j : ℕ} : Orb (renx m T n1) i j ↔ Orb m.nx (swp T n1 i) (swp T n1 j) :=
  orb_conj (σ := swp T n1) (by simp) (fun _ => rfl)

theorem SepBase.renx_T (S : SepBase m m' T p n1 n2 fl) : renx m T n1 T = T := by
  unfold renx; rw [swp_left, nx_dead S.dead1, swp_right]

theorem SepBase.renx_n2 (S : SepBase m m' T p n1 n2 fl) : renx m T n1 n2 = n2 := by
  have h : swp T n1 n2 = n2 := swp_ne (S.lt S.lT).2.symm S.n12.symm
  unfold renx; rw [h, nx_dead S.dead2, h]

theorem SepBase.renx_n1 (hv : m.Valid) (S : SepBase m m' T p n1 n2 fl) : renx m T n1 n1 = m.heNext T := by
  unfold renx; rw [swp_right, nx_live S.lT, swp_ne (hv.deg_two T S.lT) (S.lt (hv.next_live T S.lT)).1]

theorem SepBase.renx_p (hv : m.Valid) (S : SepBase m m' T p n1 n2 fl) : renx m T n1 p = n1 := by
  unfold renx; rw [swp_ne (S.pT hv) (S.lt S.lp).1, nx_live S.lp, S.np, swp_left]

theorem SepBase.renx_o (hv : m.Valid) (S : SepBase m m' T p n1 n2 fl) {i : ℕ} (hi : m.heLive i) (h1 : i ≠ T)
    (h2 : i ≠ p) : renx m T n1 i = m.heNext i := by
  unfold renx
  rw [swp_ne h1 (S.lt hi).1, nx_live hi, swp_ne ?_ (S.lt (hv.next_live i hi)).1]
  intro e; exact h2 (hv.next_inj hi S.lp (e.trans S.np.symm))

theorem SepBase.ext_iff (S : SepBase m m' T p n1 n2 fl) {i : ℕ} (hi : m.heLive i) :
    m'.ext i ↔ i = T ∨ m.ext i := by
  unfold ext
  by_cases h : i = T
  · subst h; rw [S.f_T, S.c_fFill]; exact ⟨fun _ => Or.inl rfl, fun _ => S.xfl⟩
  · rw [S.f_o i h (S.lt hi).1 (S.lt hi).2, S.c_fFill]; simp [h]

theorem SepBase.ext_n1 (S : SepBase m m' T p n1 n2 fl) : ¬ m'.ext n1 := by
  unfold ext; rw [S.f_n1, S.c_fFill]; exact S.iT

theorem SepBase.ext_n2 (S : SepBase m m' T p n1 n2 fl) : m'.ext n2 := by
  unfold ext; rw [S.f_n2, S.c_fFill]; exact S.xfl

/-- The counts of halfedges and edges. -/
theorem SepBase.counts (hv : m.Valid) (S : SepBase m m' T p n1 n2 fl)
    (hne : ∀ i, i ≠ n1 → i ≠ n2 → (m'.heNext i ≠ INV ↔ m.heNext i ≠ INV)) :
    m'.nHe = Nat.count (fun i => m'.heNext i ≠ INV) m'.nHeFill ∧
    m'.nInt = Nat.count (fun i => m'.heNext i ≠ INV ∧ m'.heFace i < m'.nFFill) m'.nHeFill ∧
    m'.nE = Nat.count (fun e => m'.heNext (eHalfedge e) ≠ INV) m'.nEFill := by
  have h1 : m'.heNext n1 ≠ INV := by rw [S.next_n1]; exact ne_of_lt (hv.live_lt_INV (hv.next_live T S.lT))
  have h2 : m'.heNext n2 ≠ INV := by rw [S.next_n2]; exact ne_of_lt (hv.live_lt_INV S.lT)
  have e1 := S.hn1
  have e2 := S.hn2
  have ef := hv.he_fill
  refine ⟨?_, ?_, ?_⟩
  · rw [S.c_he, S.c_heFill, Nat.count_succ, Nat.count_succ, ← e2, ← e1, if_pos h1, if_pos h2, e1, hv.cnt_he]
    have hc : Nat.count (fun i => m'.heNext i ≠ INV) m.nHeFill = Nat.count (fun i => m.heNext i ≠ INV) m.nHeFill :=
      count_congr fun i hi => hne i (by omega) (by omega)
    rw [hc]
  · have x1 := S.ext_n1
    have x2 := S.ext_n2
    unfold ext at x1 x2
    rw [S.c_int, S.c_heFill, Nat.count_succ, Nat.count_succ, ← e2, ← e1, if_pos ⟨h1, by omega⟩,
      if_neg (fun h => absurd h.2 (by omega)), e1, hv.cnt_int]
    refine count_sub_list [T] (by simp) ?_ ?_
    · intro a ha
      rw [List.mem_singleton] at ha; subst ha
      have := S.iT; unfold ext at this
      exact ⟨S.lT.1, S.lT.2, by omega⟩
    · intro i hi
      rw [List.mem_singleton, hne i (by omega) (by omega), S.c_fFill]
      by_cases c : i = T
      · subst c; rw [S.f_T]; have := S.xfl
        constructor
        · rintro ⟨_, h⟩; omega
        · rintro ⟨_, h⟩; exact absurd rfl h
      · rw [S.f_o i c (by omega) (by omega)]
        constructor
        · intro h; exact ⟨h, c⟩
        · intro h; exact h.1
  · rw [S.c_e, S.c_eFill, Nat.count_succ, hv.cnt_e,
      show eHalfedge m.nEFill = n1 by unfold eHalfedge; omega, if_pos h1]
    congr 1
    refine count_congr fun i hi => (hne _ ?_ ?_).symm <;> (unfold eHalfedge; omega)

end base

/-! ### Case 1 -/

structure Sep1 (m m' : Mesh) (T p n1 n2 fl : ℕ) : Prop extends SepBase m m' T p n1 n2 fl where
  hT : m.heVertex T ≠ m.heVertex (twin T)
  nbA : ∀ i, m.heLive i → m.heVertex i = m.heVertex (twin T) → ¬ m.ext i
  nbB : ∀ i, m.heLive i → m.heVertex i = m.heVertex T → ¬ m.ext i
  hfl : fl + m.nBLFill + 1 = m.nFCap
  next_T : m'.heNext T = n2
  next_o : ∀ i, i ≠ T → i ≠ n1 → i ≠ n2 → i ≠ p → m'.heNext i = m.heNext i
  v_n1 : m'.heVertex n1 = m.heVertex T
  v_n2 : m'.heVertex n2 = m.heVertex (twin T)
  v_o : ∀ i, i ≠ n1 → i ≠ n2 → m'.heVertex i = m.heVertex i
  vh : ∀ v, m'.vHalfedge v = if v = m.heVertex T then n1 else if v = m.heVertex (twin T) then twin T else m.vHalfedge v
  fh : ∀ f, m'.fHalfedge f = if f = fl then T else if f = m.heFace T then n1 else m.fHalfedge f
  c_vFill : m'.nVFill = m.nVFill
  c_vCap : m'.nVCap = m.nVCap
  c_v : m'.nV = m.nV
  c_bl : m'.nBL = m.nBL + 1
  c_blFill : m'.nBLFill = m.nBLFill + 1

theorem sep1_weak {m m' : Mesh} (hv : m.Valid) {T p n1 n2 fl : ℕ} (S : Sep1 m m' T p n1 n2 fl) :
    m'.WeakValid ∧ (∀ i, m'.heLive i ↔ i = n1 ∨ i = n2 ∨ m.heLive i) := by
  have B := S.toSepBase
  have pT := B.pT hv
  have lH := hv.twin_live T S.lT
  have I1 : n1 < INV := by have := S.hn1; have := S.c_heCap; omega
  have I2 : n2 < INV := by have := S.hn2; have := S.c_heCap; omega
  obtain ⟨T1, T2⟩ := B.lt S.lT
  have lTn := hv.next_live T S.lT
  have next_o' : ∀ {i}, m.heLive i → i ≠ T → i ≠ p → m'.heNext i = m.heNext i := fun {i} hi h1 h2 =>
    S.next_o i h1 (B.lt hi).1 (B.lt hi).2 h2
  have hne : ∀ i, i ≠ n1 → i ≠ n2 → (m'.heNext i ≠ INV ↔ m.heNext i ≠ INV) := by
    intro i h1 h2
    by_cases c : i = T
    · rw [c, S.next_T]; exact ⟨fun _ => S.lT.2, fun _ => ne_of_lt I2⟩
    by_cases d : i = p
    · rw [d, S.next_p]; exact ⟨fun _ => S.lp.2, fun _ => ne_of_lt I1⟩
    rw [S.next_o i c h1 h2 d]
  have hlive : ∀ i, m'.heLive i ↔ i = n1 ∨ i = n2 ∨ m.heLive i := by
    intro i
    have a1 := S.hn1; have a2 := S.hn2; have a3 := S.c_heFill
    by_cases c1 : i = n1
    · subst c1
      refine ⟨fun _ => Or.inl rfl, fun _ => ⟨by omega, ?_⟩⟩
      rw [S.next_n1]; exact ne_of_lt (hv.live_lt_INV lTn)
    by_cases c2 : i = n2
    · subst c2
      refine ⟨fun _ => Or.inr (Or.inl rfl), fun _ => ⟨by omega, ?_⟩⟩
      rw [S.next_n2]; exact ne_of_lt (hv.live_lt_INV S.lT)
    unfold heLive
    rw [hne i c1 c2]
    constructor
    · rintro ⟨h, h'⟩; exact Or.inr (Or.inr ⟨by omega, h'⟩)
    · rintro (h | h | h)
      · exact absurd h c1
      · exact absurd h c2
      · exact ⟨by have := h.1; omega, h.2⟩
  have live_old : ∀ {i}, m.heLive i → m'.heLive i := fun h => (hlive _).2 (Or.inr (Or.inr h))
  have live1 : m'.heLive n1 := (hlive _).2 (Or.inl rfl)
  have live2 : m'.heLive n2 := (hlive _).2 (Or.inr (Or.inl rfl))
  have htl : ∀ i, m'.heLive i → m'.heLive (twin i) := by
    intro i hi
    rcases (hlive i).1 hi with h | h | h
    · rw [h, B.tn1 hv]; exact live2
    · rw [h, B.tn2 hv]; exact live1
    · exact live_old (hv.twin_live i h)
  have hnl : ∀ i, m'.heLive i → m'.heLive (m'.heNext i) := by
    intro i hi
    by_cases c1 : i = n1
    · rw [c1, S.next_n1]; exact live_old lTn
    by_cases c2 : i = n2
    · rw [c2, S.next_n2]; exact live_old S.lT
    by_cases c : i = T
    · rw [c, S.next_T]; exact live2
    by_cases d : i = p
    · rw [d, S.next_p]; exact live1
    have l := ((hlive i).1 hi).resolve_left c1 |>.resolve_left c2
    rw [next_o' l c d]; exact live_old (hv.next_live i l)
  -- the successor function
  let g := swapf (renx m T n1) T n2
  have gval : ∀ i, m'.heLive i → m'.heNext i = g i := by
    intro i hi
    by_cases c : i = T
    · subst c; rw [S.next_T]; show _ = swapf _ _ _ _; rw [swapf_left, B.renx_n2]
    by_cases c2 : i = n2
    · subst c2; rw [S.next_n2]; show _ = swapf _ _ _ _; rw [swapf_right, B.renx_T]
    show _ = swapf _ _ _ _
    rw [swapf_other _ c c2]
    by_cases c1 : i = n1
    · subst c1; rw [S.next_n1, B.renx_n1 hv]
    by_cases d : i = p
    · subst d; rw [S.next_p, B.renx_p hv]
    have l := ((hlive i).1 hi).resolve_left c1 |>.resolve_left c2
    rw [next_o' l c d, B.renx_o hv l c d]
  have orbF : ∀ {i j}, m'.heLive i → (Orb m'.heNext i j ↔ Orb g i j) := fun {i j} hi =>
    Orb.congr (fun i => m'.heLive i) hi hnl gval
  -- faces
  have fiff : ∀ i j, m'.heLive i → m'.heLive j → (m'.heFace i = m'.heFace j ↔ Orb m'.heNext i j) := by
    intro i j hi hj
    rw [orbF hi]
    show _ ↔ Orb (swapf _ _ _) _ _
    rw [swapf_insert_rep (SepBase.renx_per hv) B.renx_n2 T2, SepBase.renx_orb]
    have key : ∀ i, m'.heLive i → ∃ r, swp T n1 (if i = n2 then T else i) = r ∧
        ((r = n1 ∧ m'.heFace i = fl) ∨ (m.heLive r ∧ m'.heFace i = m.heFace r ∧ m.heFace r ≠ fl)) := by
      intro i hi
      refine ⟨_, rfl, ?_⟩
      by_cases c2 : i = n2
      · rw [if_pos c2, swp_left, c2]; exact Or.inl ⟨rfl, S.f_n2⟩
      rw [if_neg c2]
      by_cases c : i = T
      · rw [c, swp_left]; exact Or.inl ⟨rfl, S.f_T⟩
      have nfl : ∀ r, m.heLive r → m.heFace r ≠ fl := by
        intro r hr e
        have h1 := hv.face_live r hr
        rw [e] at h1
        have := S.hfl; have := S.xfl; have := h1.1; omega
      right
      by_cases c1 : i = n1
      · rw [c1, swp_right]; exact ⟨S.lT, S.f_n1, nfl _ S.lT⟩
      · rw [swp_ne c c1]
        have l := ((hlive i).1 hi).resolve_left c1 |>.resolve_left c2
        exact ⟨l, S.f_o i c c1 c2, nfl _ l⟩
    obtain ⟨r, er, hr⟩ := key i hi
    obtain ⟨s, es, hs⟩ := key j hj
    rw [er, es]
    have fx : m.nx n1 = n1 := nx_dead B.dead1
    rcases hr with ⟨r1, r2⟩ | ⟨r1, r2, r3⟩ <;> rcases hs with ⟨s1, s2⟩ | ⟨s1, s2, s3⟩
    · rw [r1, s1, r2, s2]; exact ⟨fun _ => Orb.refl _ _, fun _ => rfl⟩
    · rw [r1, r2, s2]
      constructor
      · intro h; exact absurd h.symm s3
      · intro o; rw [Orb.eq_of_fix fx o] at s1; exact absurd s1 B.dead1
    · rw [s1, s2, r2]
      constructor
      · intro h; exact absurd h r3
      · intro o; rw [Orb.eq_of_fix fx (o.symm hv.per_nx)] at r1; exact absurd r1 B.dead1
    · rw [r2, s2]; exact hv.face_nx_iff r1 s1
  -- vertices
  have tp : twin p ≠ twin T := fun e => pT (twin_inj e)
  have lq := hv.twin_live p S.lp
  let w := swapf (swapf m.vy (twin T) n2) (twin p) n1
  have y1 : m.vy n1 = n1 := vy_dead B.dead1
  have y2 : m.vy n2 = n2 := vy_dead B.dead2
  have wval : ∀ i, m'.heLive i → m'.vNext i = w i := by
    intro i hi
    show m'.heNext (twin i) = swapf _ _ _ _
    by_cases c1 : i = n1
    · rw [c1, B.tn1 hv, S.next_n2, swapf_right, swapf_other _ tp (B.lt lq).2, vy_live lq]
      show T = m.heNext (twin (twin p)); rw [twin_twin, S.np]
    by_cases c2 : i = n2
    · rw [c2, B.tn2 hv, S.next_n1, swapf_other _ (B.lt lq).2.symm B.n12.symm, swapf_right, vy_live lH]
      show _ = m.heNext (twin (twin T)); rw [twin_twin]
    by_cases d : i = twin p
    · rw [d, twin_twin, S.next_p, swapf_left, swapf_other _ (B.lt lH).1.symm B.n12, y1]
    rw [swapf_other _ d c1]
    by_cases c : i = twin T
    · rw [c, twin_twin, S.next_T, swapf_left, y2]
    rw [swapf_other _ c c2]
    have l := ((hlive i).1 hi).resolve_left c1 |>.resolve_left c2
    have a1 : twin i ≠ T := fun e => c (by rw [← e, twin_twin])
    have a2 : twin i ≠ p := fun e => d (by rw [← e, twin_twin])
    rw [next_o' (hv.twin_live i l) a1 a2, vy_live l]; rfl
  have orbV : ∀ {i j}, m'.heLive i → (Orb m'.vNext i j ↔ Orb w i j) := fun {i j} hi =>
    Orb.congr (fun i => m'.heLive i) hi (fun i hi => hnl _ (htl i hi)) wval
  have fixn1 : swapf m.vy (twin T) n2 n1 = n1 := by rw [swapf_other _ (B.lt lH).1.symm B.n12, y1]
  have vq : m.heVertex (twin p) = m.heVertex T := by
    have := hv.vertex_vNext lq
    rw [twin_twin, S.np] at this; exact this.symm
  have viff : ∀ i j, m'.heLive i → m'.heLive j → (m'.heVertex i = m'.heVertex j ↔ Orb m'.vNext i j) := by
    intro i j hi hj
    rw [orbV hi]
    show _ ↔ Orb (swapf _ _ _) _ _
    rw [swapf_insert_rep (hv.per_vy.swapf _ _) fixn1 (B.lt lq).1, swapf_insert_rep hv.per_vy y2 (B.lt lH).2]
    have key : ∀ i, m'.heLive i → ∃ r, (if (if i = n1 then twin p else i) = n2 then twin T else if i = n1 then twin p else i) = r ∧
        m.heLive r ∧ m'.heVertex i = m.heVertex r := by
      intro i hi
      refine ⟨_, rfl, ?_⟩
      by_cases c1 : i = n1
      · rw [if_pos c1, if_neg (B.lt lq).2, c1, S.v_n1]; exact ⟨lq, vq.symm⟩
      rw [if_neg c1]
      by_cases c2 : i = n2
      · rw [if_pos c2, c2, S.v_n2]; exact ⟨lH, rfl⟩
      rw [if_neg c2]
      exact ⟨((hlive i).1 hi).resolve_left c1 |>.resolve_left c2, S.v_o i c1 c2⟩
    obtain ⟨r, er, r1, r2⟩ := key i hi
    obtain ⟨s, es, s1, s2⟩ := key j hj
    rw [er, es, r2, s2]; exact hv.vertex_vy_iff r1 s1
  have vl : ∀ v, m'.vLive v ↔ m.vLive v := by
    intro v
    unfold vLive
    rw [S.vh, S.c_vFill]
    split_ifs with h1 h2
    · rw [h1]; exact ⟨fun _ => hv.vertex_live _ S.lT, fun h => ⟨h.1, ne_of_lt I1⟩⟩
    · rw [h2]; exact ⟨fun _ => hv.vertex_live _ lH, fun h => ⟨h.1, ne_of_lt (hv.live_lt_INV lH)⟩⟩
    · rfl
  have fcap := hv.f_cap
  have hfl := S.hfl
  have xfl := S.xfl
  have ff := S.c_fFill
  have bf := S.c_blFill
  have fc := S.c_fCap
  have fTlt : m.heFace T < m.nFFill := by have := S.iT; unfold ext at this; omega
  have fl' : ∀ f, m'.fLive f ↔ f = fl ∨ m.fLive f := by
    intro f
    unfold fLive
    rw [S.fh, ff, bf, fc]
    by_cases h1 : f = fl
    · rw [if_pos h1, h1]
      exact ⟨fun _ => Or.inl rfl, fun _ => ⟨Or.inr ⟨by omega, by omega⟩, ne_of_lt (hv.live_lt_INV S.lT)⟩⟩
    rw [if_neg h1]
    by_cases h2 : f = m.heFace T
    · rw [if_pos h2, h2]
      refine ⟨fun _ => Or.inr (hv.face_live _ S.lT), fun _ => ⟨Or.inl fTlt, ne_of_lt I1⟩⟩
    rw [if_neg h2]
    constructor
    · rintro ⟨h, h'⟩; exact Or.inr ⟨by omega, h'⟩
    · rintro (h | ⟨h, h'⟩)
      · exact absurd h h1
      · exact ⟨by omega, h'⟩
  obtain ⟨k1, k2, k3⟩ := B.counts hv hne
  have ext_inv : ∀ i, m'.heLive i → m'.ext i → i = n2 ∨ i = T ∨ (m.heLive i ∧ m.ext i) := by
    intro i hi x
    rcases (hlive i).1 hi with h | h | h
    · subst h; exact absurd x B.ext_n1
    · exact Or.inl h
    · rcases (B.ext_iff h).1 x with h' | h'
      · exact Or.inr (Or.inl h')
      · exact Or.inr (Or.inr ⟨h, h'⟩)
  refine ⟨⟨?_, ?_, S.c_eCap, ?_, ?_, htl, hnl, ?_, ?_, fiff, viff, ?_, ?_, ?_, ?_, ?_, k1, k2, k3, ?_, ?_, ?_, ?_⟩, hlive⟩
  · rw [S.c_heFill, S.c_eFill, hv.he_fill]; omega
  · rw [S.c_heFill]; exact S.c_heCap
  · rw [S.c_vFill, S.c_vCap]; exact hv.v_cap
  · rw [ff, bf, fc]; omega
  · intro i hi
    rw [vl]
    rcases (hlive i).1 hi with h | h | h
    · rw [h, S.v_n1]; exact hv.vertex_live _ S.lT
    · rw [h, S.v_n2]; exact hv.vertex_live _ lH
    · rw [S.v_o i (B.lt h).1 (B.lt h).2]; exact hv.vertex_live i h
  · intro i hi
    rw [fl']
    rcases (hlive i).1 hi with h | h | h
    · rw [h, S.f_n1]; exact Or.inr (hv.face_live _ S.lT)
    · rw [h, S.f_n2]; exact Or.inl rfl
    · by_cases c : i = T
      · rw [c, S.f_T]; exact Or.inl rfl
      · rw [S.f_o i c (B.lt h).1 (B.lt h).2]; exact Or.inr (hv.face_live i h)
  · intro v hvl
    rw [vl] at hvl
    rw [S.vh]
    split_ifs with h1 h2
    · exact ⟨live1, by rw [S.v_n1, h1]⟩
    · exact ⟨live_old lH, by rw [S.v_o _ (B.lt lH).1 (B.lt lH).2, h2]⟩
    · obtain ⟨l0, e0⟩ := hv.v_he v hvl
      exact ⟨live_old l0, by rw [S.v_o _ (B.lt l0).1 (B.lt l0).2, e0]⟩
  · intro f hf
    rw [S.fh]
    split_ifs with h1 h2
    · exact ⟨live_old S.lT, by rw [S.f_T, h1]⟩
    · exact ⟨live1, by rw [S.f_n1, h2]⟩
    · obtain ⟨l0, e0⟩ := hv.f_he f (((fl' f).1 hf).resolve_left h1)
      refine ⟨live_old l0, ?_⟩
      rw [S.f_o _ ?_ (B.lt l0).1 (B.lt l0).2, e0]
      intro e; rw [e] at e0; exact h2 e0.symm
  · intro i hi
    by_cases c1 : i = n1
    · rw [c1, S.next_n1]; exact (B.lt lTn).1
    by_cases c2 : i = n2
    · rw [c2, S.next_n2]; exact T2
    by_cases c : i = T
    · rw [c, S.next_T]; exact T2.symm
    by_cases d : i = p
    · rw [d, S.next_p]; exact (B.lt S.lp).1.symm
    have l := ((hlive i).1 hi).resolve_left c1 |>.resolve_left c2
    rw [next_o' l c d]; exact hv.deg_two i l
  · intro i j hi hj xi xj
    have vv : ∀ {i}, m.heLive i → m'.heVertex i = m.heVertex i := fun h => S.v_o _ (B.lt h).1 (B.lt h).2
    rcases ext_inv i hi xi with a | a | ⟨a, a'⟩ <;> rcases ext_inv j hj xj with b | b | ⟨b, b'⟩ <;> intro e
    · rw [a, b]
    · rw [a, b, S.v_n2, vv S.lT] at e; exact absurd e.symm S.hT
    · rw [a, S.v_n2, vv b] at e; exact absurd b' (S.nbA j b e.symm)
    · rw [a, b, S.v_n2, vv S.lT] at e; exact absurd e S.hT
    · rw [a, b]
    · rw [a, vv S.lT, vv b] at e; exact absurd b' (S.nbB j b e.symm)
    · rw [b, S.v_n2, vv a] at e; exact absurd a' (S.nbA i a e)
    · rw [b, vv S.lT, vv a] at e; exact absurd a' (S.nbB i a e)
    · rw [vv a, vv b] at e; exact hv.bdy_unique i j a b a' b' e
  · intro i hi xi
    have vv : ∀ {i}, m.heLive i → m'.heVertex i = m.heVertex i := fun h => S.v_o _ (B.lt h).1 (B.lt h).2
    rw [S.vh]
    rcases ext_inv i hi xi with a | a | ⟨a, a'⟩
    · rw [a, S.v_n2, if_neg S.hT.symm, if_pos rfl, twin_twin]; exact (B.ext_iff S.lT).2 (Or.inl rfl)
    · rw [a, vv S.lT, if_pos rfl, B.tn1 hv]; exact B.ext_n2
    · rw [vv a, if_neg (fun e => S.nbB i a e a'), if_neg (fun e => S.nbA i a e a')]
      have l0 := (hv.v_he _ (hv.vertex_live i a)).1
      exact (B.ext_iff (hv.twin_live _ l0)).2 (Or.inr (hv.bdy_first i a a'))
  · rw [S.c_v, S.c_vFill, hv.cnt_v]
    refine count_congr fun v hvl => ?_
    have := vl v; unfold vLive at this; rw [S.c_vFill] at this
    tauto
  · rw [S.c_f, ff, hv.cnt_f]
    refine count_congr fun f hf => ?_
    have := fl' f; unfold fLive at this; rw [ff] at this
    have nf : f ≠ fl := by omega
    tauto
  · rw [S.c_bl, bf, hv.cnt_bl]
  · intro f h1 h2
    rw [fc, bf] at h1; rw [fc] at h2
    rw [S.fh]
    split_ifs with c1 c2
    · exact ne_of_lt (hv.live_lt_INV S.lT)
    · exact ne_of_lt I1
    · exact hv.bl_live f (by omega) h2

/-! ### Case 2 -/

/-- `twin().next()` after splitting the vertex `vA` between the edge and the boundary. -/
def splitV (m : Mesh) (T h0 : ℕ) : ℕ → ℕ := swapf m.vy (twin T) h0

structure Sep2 (m m' : Mesh) (T p n1 n2 h0 vN : ℕ) : Prop extends SepBase m m' T p n1 n2 (m.heFace (twin h0)) where
  l0 : m.heLive h0
  xB : m.ext (twin h0)
  v0 : m.heVertex h0 = m.heVertex (twin T)
  vh0 : m.vHalfedge (m.heVertex (twin T)) = h0
  nbB : ∀ i, m.heLive i → m.heVertex i = m.heVertex T → ¬ m.ext i
  hvN : vN = m.nVFill
  next_T : m'.heNext T = m.heNext (twin h0)
  next_B : m'.heNext (twin h0) = n2
  next_o : ∀ i, i ≠ T → i ≠ n1 → i ≠ n2 → i ≠ p → i ≠ twin h0 → m'.heNext i = m.heNext i
  v_n1 : m'.heVertex n1 = m.heVertex T
  v_n2 : m'.heVertex n2 = m.heVertex (twin T)
  v_fan : ∀ i, Orb (splitV m T h0) (twin T) i → m'.heVertex i = vN
  v_o : ∀ i, i ≠ n1 → i ≠ n2 → ¬ Orb (splitV m T h0) (twin T) i → m'.heVertex i = m.heVertex i
  vh : ∀ v, m'.vHalfedge v = if v = vN then twin T else if v = m.heVertex T then n1 else m.vHalfedge v
  fh : ∀ f, m'.fHalfedge f = if f = m.heFace T then n1 else m.fHalfedge f
  c_vFill : m'.nVFill = m.nVFill + 1
  c_vCap : m.nVFill + 1 ≤ m'.nVCap ∧ m'.nVCap < INV
  c_v : m'.nV = m.nV + 1
  c_bl : m'.nBL = m.nBL
  c_blFill : m'.nBLFill = m.nBLFill

/-- Facts about the split vertex, from the old mesh alone. -/
theorem splitV_facts {m : Mesh} (hv : m.Valid) {T h0 : ℕ} (lT : m.heLive T) (iT : ¬ m.ext T) (l0 : m.heLive h0)
    (xB : m.ext (twin h0)) (v0 : m.heVertex h0 = m.heVertex (twin T)) :
    twin T ≠ h0 ∧ ¬ Orb (splitV m T h0) (twin T) h0 ∧
    (∀ i, Orb (splitV m T h0) (twin T) i → m.heLive i ∧ m.heVertex i = m.heVertex (twin T)) ∧
    (∀ i j, m.heLive i → m.heLive j → (m.heVertex i = m.heVertex j ↔ Orb (splitV m T h0) i j ∨
      ((Orb (splitV m T h0) (twin T) i ∨ Orb (splitV m T h0) h0 i) ∧
        (Orb (splitV m T h0) (twin T) j ∨ Orb (splitV m T h0) h0 j)))) ∧
    splitV m T h0 (twin T) = m.heNext (twin h0) := by
  have lH := hv.twin_live T lT
  have hne : twin T ≠ h0 := by
    intro e; rw [← e, twin_twin] at xB; exact iT xB
  have o : Orb m.vy (twin T) h0 := (hv.vertex_vy_iff lH l0).1 v0.symm
  have iff := swapf_split_iff hv.per_vy hne o
  refine ⟨hne, swapf_split hne (o.symm hv.per_vy), ?_, ?_, ?_⟩
  · intro i oi
    have h1 : Orb m.vy (twin T) i := (iff _ _).2 (Or.inl oi)
    have h2 : Orb m.vNext (twin T) i := (hv.orb_vNext_vy lH).2 h1
    have l := hv.live_of_orb_vNext lH h2
    exact ⟨l, ((hv.vertex_iff _ _ lH l).2 h2).symm⟩
  · intro i j hi hj
    rw [hv.vertex_vy_iff hi hj]; exact iff i j
  · unfold splitV; rw [swapf_left, vy_live l0]; rfl

theorem sep2_weak {m m' : Mesh} (hv : m.Valid) {T p n1 n2 h0 vN : ℕ} (S : Sep2 m m' T p n1 n2 h0 vN) :
    m'.WeakValid ∧ (∀ i, m'.heLive i ↔ i = n1 ∨ i = n2 ∨ m.heLive i) := by
  have B := S.toSepBase
  have pT := B.pT hv
  have lH := hv.twin_live T S.lT
  have lB := hv.twin_live h0 S.l0
  have I1 : n1 < INV := by have := S.hn1; have := S.c_heCap; omega
  have I2 : n2 < INV := by have := S.hn2; have := S.c_heCap; omega
  obtain ⟨T1, T2⟩ := B.lt S.lT
  have lTn := hv.next_live T S.lT
  obtain ⟨Hh0, nfan0, fanv, split, gH⟩ := splitV_facts hv S.lT S.iT S.l0 S.xB S.v0
  have ip : ¬ m.ext p := by
    have := S.iT; rw [← S.np] at this
    unfold ext at *; rw [hv.face_next S.lp] at this; exact this
  have pB : p ≠ twin h0 := fun e => ip (e ▸ S.xB)
  have TB : T ≠ twin h0 := fun e => S.iT (e ▸ S.xB)
  have vAB : m.heVertex T ≠ m.heVertex (twin T) := by
    intro e
    have h1 := hv.next_live _ lB
    have h2 : m.heVertex (m.heNext (twin h0)) = m.heVertex (twin T) := (hv.vertex_vNext S.l0).trans S.v0
    refine S.nbB _ h1 (h2.trans e.symm) ?_
    unfold ext; rw [hv.face_next lB]; exact S.xB
  have next_o' : ∀ {i}, m.heLive i → i ≠ T → i ≠ p → i ≠ twin h0 → m'.heNext i = m.heNext i :=
    fun {i} hi h1 h2 h3 => S.next_o i h1 (B.lt hi).1 (B.lt hi).2 h2 h3
  have hne : ∀ i, i ≠ n1 → i ≠ n2 → (m'.heNext i ≠ INV ↔ m.heNext i ≠ INV) := by
    intro i h1 h2
    by_cases c : i = T
    · rw [c, S.next_T]; exact ⟨fun _ => S.lT.2, fun _ => lB.2⟩
    by_cases d : i = p
    · rw [d, S.next_p]; exact ⟨fun _ => S.lp.2, fun _ => ne_of_lt I1⟩
    by_cases b : i = twin h0
    · rw [b, S.next_B]; exact ⟨fun _ => lB.2, fun _ => ne_of_lt I2⟩
    rw [S.next_o i c h1 h2 d b]
  have hlive : ∀ i, m'.heLive i ↔ i = n1 ∨ i = n2 ∨ m.heLive i := by
    intro i
    have a1 := S.hn1; have a2 := S.hn2; have a3 := S.c_heFill
    by_cases c1 : i = n1
    · subst c1
      refine ⟨fun _ => Or.inl rfl, fun _ => ⟨by omega, ?_⟩⟩
      rw [S.next_n1]; exact ne_of_lt (hv.live_lt_INV lTn)
    by_cases c2 : i = n2
    · subst c2
      refine ⟨fun _ => Or.inr (Or.inl rfl), fun _ => ⟨by omega, ?_⟩⟩
      rw [S.next_n2]; exact ne_of_lt (hv.live_lt_INV S.lT)
    unfold heLive
    rw [hne i c1 c2]
    constructor
    · rintro ⟨h, h'⟩; exact Or.inr (Or.inr ⟨by omega, h'⟩)
    · rintro (h | h | h)
      · exact absurd h c1
      · exact absurd h c2
      · exact ⟨by have := h.1; omega, h.2⟩
  have live_old : ∀ {i}, m.heLive i → m'.heLive i := fun h => (hlive _).2 (Or.inr (Or.inr h))
  have live1 : m'.heLive n1 := (hlive _).2 (Or.inl rfl)
  have live2 : m'.heLive n2 := (hlive _).2 (Or.inr (Or.inl rfl))
  have htl : ∀ i, m'.heLive i → m'.heLive (twin i) := by
    intro i hi
    rcases (hlive i).1 hi with h | h | h
    · rw [h, B.tn1 hv]; exact live2
    · rw [h, B.tn2 hv]; exact live1
    · exact live_old (hv.twin_live i h)
  have hnl : ∀ i, m'.heLive i → m'.heLive (m'.heNext i) := by
    intro i hi
    by_cases c1 : i = n1
    · rw [c1, S.next_n1]; exact live_old lTn
    by_cases c2 : i = n2
    · rw [c2, S.next_n2]; exact live_old S.lT
    by_cases c : i = T
    · rw [c, S.next_T]; exact live_old (hv.next_live _ lB)
    by_cases d : i = p
    · rw [d, S.next_p]; exact live1
    by_cases b : i = twin h0
    · rw [b, S.next_B]; exact live2
    have l := ((hlive i).1 hi).resolve_left c1 |>.resolve_left c2
    rw [next_o' l c d b]; exact live_old (hv.next_live i l)
  -- the successor function
  have rB : renx m T n1 (twin h0) = m.heNext (twin h0) := B.renx_o hv lB TB.symm pB.symm
  let g := swapf (swapf (renx m T n1) (twin h0) n2) n2 T
  have fixT : swapf (renx m T n1) (twin h0) n2 T = T := by rw [swapf_other _ TB T2, B.renx_T]
  have gval : ∀ i, m'.heLive i → m'.heNext i = g i := by
    intro i hi
    show _ = swapf _ _ _ _
    by_cases c : i = T
    · rw [c, S.next_T, swapf_right, swapf_right, rB]
    by_cases c2 : i = n2
    · rw [c2, S.next_n2, swapf_left, fixT]
    rw [swapf_other _ c2 c]
    by_cases b : i = twin h0
    · rw [b, S.next_B, swapf_left, B.renx_n2]
    rw [swapf_other _ b c2]
    by_cases c1 : i = n1
    · subst c1; rw [S.next_n1, B.renx_n1 hv]
    by_cases d : i = p
    · rw [d, S.next_p, B.renx_p hv]
    have l := ((hlive i).1 hi).resolve_left c1 |>.resolve_left c2
    rw [next_o' l c d b, B.renx_o hv l c d]
  have orbF : ∀ {i j}, m'.heLive i → (Orb m'.heNext i j ↔ Orb g i j) := fun {i j} hi =>
    Orb.congr (fun i => m'.heLive i) hi hnl gval
  -- faces
  have fkey : ∀ i, m'.heLive i → ∃ r, swp T n1 (if (if i = T then n2 else i) = n2 then twin h0 else if i = T then n2 else i) = r ∧
      m.heLive r ∧ m'.heFace i = m.heFace r := by
    intro i hi
    refine ⟨_, rfl, ?_⟩
    by_cases c : i = T
    · rw [if_pos c, if_pos rfl, swp_ne TB.symm (B.lt lB).1, c]; exact ⟨lB, S.f_T⟩
    rw [if_neg c]
    by_cases c2 : i = n2
    · rw [if_pos c2, swp_ne TB.symm (B.lt lB).1, c2]; exact ⟨lB, S.f_n2⟩
    rw [if_neg c2]
    by_cases c1 : i = n1
    · rw [c1, swp_right]; exact ⟨S.lT, S.f_n1⟩
    · rw [swp_ne c c1]
      exact ⟨((hlive i).1 hi).resolve_left c1 |>.resolve_left c2, S.f_o i c c1 c2⟩
  have fiff : ∀ i j, m'.heLive i → m'.heLive j → (m'.heFace i = m'.heFace j ↔ Orb m'.heNext i j) := by
    intro i j hi hj
    rw [orbF hi]
    show _ ↔ Orb (swapf _ _ _) _ _
    rw [swapf_insert_rep ((SepBase.renx_per hv).swapf _ _) fixT T2.symm,
      swapf_insert_rep (SepBase.renx_per hv) B.renx_n2 (B.lt lB).2, SepBase.renx_orb]
    obtain ⟨r, er, r1, r2⟩ := fkey i hi
    obtain ⟨s, es, s1, s2⟩ := fkey j hj
    rw [er, es, r2, s2]; exact hv.face_nx_iff r1 s1
  -- vertices
  have tp : twin p ≠ twin T := fun e => pT (twin_inj e)
  have tp0 : twin p ≠ h0 := fun e => pB (by rw [← e, twin_twin])
  have lq := hv.twin_live p S.lp
  have vfan := S.v_fan
  have vo := S.v_o
  generalize hsv : splitV m T h0 = sv at nfan0 fanv split gH vfan vo
  have svdef : sv = swapf m.vy (twin T) h0 := hsv.symm
  have persv : Per sv := by rw [svdef]; exact hv.per_vy.swapf _ _
  have svdead : ∀ i, ¬ m.heLive i → sv i = i := by
    intro i hi
    rw [svdef, swapf_other _ (show i ≠ twin T from fun e => hi (e ▸ lH)) (show i ≠ h0 from fun e => hi (e ▸ S.l0)), vy_dead hi]
  have sv0 : sv h0 = m.heNext T := by
    rw [svdef, swapf_right, vy_live lH]; show m.heNext (twin (twin T)) = _; rw [twin_twin]
  let w := swapf (swapf sv h0 n2) (twin p) n1
  have fixn1 : swapf sv h0 n2 n1 = n1 := by rw [swapf_other _ (B.lt S.l0).1.symm B.n12, svdead _ B.dead1]
  have wval : ∀ i, m'.heLive i → m'.vNext i = w i := by
    intro i hi
    show m'.heNext (twin i) = swapf _ _ _ _
    by_cases c1 : i = n1
    · rw [c1, B.tn1 hv, S.next_n2, swapf_right, swapf_other _ tp0 (B.lt lq).2, svdef, swapf_other _ tp tp0, vy_live lq]
      show T = m.heNext (twin (twin p)); rw [twin_twin, S.np]
    by_cases c2 : i = n2
    · rw [c2, B.tn2 hv, S.next_n1, swapf_other _ (B.lt lq).2.symm B.n12.symm, swapf_right, sv0]
    by_cases d : i = twin p
    · rw [d, twin_twin, S.next_p, swapf_left, fixn1]
    rw [swapf_other _ d c1]
    by_cases b : i = h0
    · rw [b, S.next_B, swapf_left, svdead _ B.dead2]
    rw [swapf_other _ b c2]
    by_cases c : i = twin T
    · rw [c, twin_twin, S.next_T, gH]
    have l := ((hlive i).1 hi).resolve_left c1 |>.resolve_left c2
    have a1 : twin i ≠ T := fun e => c (by rw [← e, twin_twin])
    have a2 : twin i ≠ p := fun e => d (by rw [← e, twin_twin])
    have a3 : twin i ≠ twin h0 := fun e => b (twin_inj e)
    rw [next_o' (hv.twin_live i l) a1 a2 a3, svdef, swapf_other _ c b, vy_live l]; rfl
  have orbV : ∀ {i j}, m'.heLive i → (Orb m'.vNext i j ↔ Orb w i j) := fun {i j} hi =>
    Orb.congr (fun i => m'.heLive i) hi (fun i hi => hnl _ (htl i hi)) wval
  have vq : m.heVertex (twin p) = m.heVertex T := by
    have := hv.vertex_vNext lq
    rw [twin_twin, S.np] at this; exact this.symm
  have vltN : ∀ {i}, m.heLive i → m.heVertex i ≠ vN := by
    intro i hi e; have := (hv.vertex_live i hi).1; have := S.hvN; omega
  have W_o : ∀ {i}, m.heLive i → ¬ Orb sv (twin T) i → m'.heVertex i = m.heVertex i := fun hi h =>
    vo _ (B.lt hi).1 (B.lt hi).2 h
  have nfanq : ¬ Orb sv (twin T) (twin p) := fun o => vAB (vq.symm.trans (fanv _ o).2)
  have nfanT : ¬ Orb sv (twin T) T := fun o => vAB (fanv _ o).2
  have vkey : ∀ i, m'.heLive i → ∃ r, (if (if i = n1 then twin p else i) = n2 then h0 else if i = n1 then twin p else i) = r ∧
      m.heLive r ∧ m'.heVertex i = m'.heVertex r := by
    intro i hi
    refine ⟨_, rfl, ?_⟩
    by_cases c1 : i = n1
    · rw [if_pos c1, if_neg (B.lt lq).2, c1, S.v_n1]; exact ⟨lq, by rw [W_o lq nfanq, vq]⟩
    rw [if_neg c1]
    by_cases c2 : i = n2
    · rw [if_pos c2, c2, S.v_n2]; exact ⟨S.l0, by rw [W_o S.l0 nfan0, S.v0]⟩
    rw [if_neg c2]
    exact ⟨((hlive i).1 hi).resolve_left c1 |>.resolve_left c2, rfl⟩
  have viff : ∀ i j, m'.heLive i → m'.heLive j → (m'.heVertex i = m'.heVertex j ↔ Orb m'.vNext i j) := by
    intro i j hi hj
    rw [orbV hi]
    show _ ↔ Orb (swapf _ _ _) _ _
    rw [swapf_insert_rep (persv.swapf _ _) fixn1 (B.lt lq).1, swapf_insert_rep persv (svdead _ B.dead2) (B.lt S.l0).2]
    obtain ⟨r, er, r1, r2⟩ := vkey i hi
    obtain ⟨s, es, s1, s2⟩ := vkey j hj
    rw [er, es, r2, s2]
    by_cases a : Orb sv (twin T) r
    · by_cases b : Orb sv (twin T) s
      · rw [vfan r a, vfan s b]; exact ⟨fun _ => (a.symm persv).trans b, fun _ => rfl⟩
      · rw [vfan r a, W_o s1 b]
        exact ⟨fun e => absurd e.symm (vltN s1), fun o => absurd (a.trans o) b⟩
    · by_cases b : Orb sv (twin T) s
      · rw [vfan s b, W_o r1 a]
        exact ⟨fun e => absurd e (vltN r1), fun o => absurd (b.trans (o.symm persv)) a⟩
      · rw [W_o r1 a, W_o s1 b, split r s r1 s1]
        constructor
        · rintro (h | ⟨h1, h2⟩)
          · exact h
          · exact ((h1.resolve_left a).symm persv).trans (h2.resolve_left b)
        · intro h; exact Or.inl h
  have vBN : m.heVertex T ≠ vN := vltN S.lT
  have vl : ∀ v, m'.vLive v ↔ v = vN ∨ m.vLive v := by
    intro v
    have := S.hvN
    unfold vLive
    rw [S.vh, S.c_vFill]
    split_ifs with h1 h2
    · exact ⟨fun _ => Or.inl h1, fun _ => ⟨by omega, ne_of_lt (hv.live_lt_INV lH)⟩⟩
    · refine ⟨fun _ => Or.inr (by rw [h2]; exact hv.vertex_live _ S.lT), fun _ => ⟨?_, ne_of_lt I1⟩⟩
      have := (hv.vertex_live _ S.lT).1; omega
    · constructor
      · rintro ⟨h, h'⟩; exact Or.inr ⟨by omega, h'⟩
      · rintro (h | ⟨h, h'⟩)
        · exact absurd h h1
        · exact ⟨by omega, h'⟩
  have ff := S.c_fFill
  have bf := S.c_blFill
  have fc := S.c_fCap
  have fTlt : m.heFace T < m.nFFill := by have := S.iT; unfold ext at this; omega
  have fl' : ∀ f, m'.fLive f ↔ m.fLive f := by
    intro f
    unfold fLive
    rw [S.fh, ff, bf, fc]
    by_cases h2 : f = m.heFace T
    · rw [if_pos h2, h2]
      refine ⟨fun _ => hv.face_live _ S.lT, fun _ => ⟨Or.inl fTlt, ne_of_lt I1⟩⟩
    rw [if_neg h2]
  obtain ⟨k1, k2, k3⟩ := B.counts hv hne
  have ext_inv : ∀ i, m'.heLive i → m'.ext i → i = n2 ∨ i = T ∨ (m.heLive i ∧ m.ext i) := by
    intro i hi x
    rcases (hlive i).1 hi with h | h | h
    · subst h; exact absurd x B.ext_n1
    · exact Or.inl h
    · rcases (B.ext_iff h).1 x with h' | h'
      · exact Or.inr (Or.inl h')
      · exact Or.inr (Or.inr ⟨h, h'⟩)
  have lBN := hv.next_live _ lB
  have xBN : m.ext (m.heNext (twin h0)) := by unfold ext; rw [hv.face_next lB]; exact S.xB
  have vBN' : m.heVertex (m.heNext (twin h0)) = m.heVertex (twin T) := (hv.vertex_vNext S.l0).trans S.v0
  have fanBN : Orb sv (twin T) (m.heNext (twin h0)) := by rw [← gH]; exact Orb.step _ _
  -- an exterior old halfedge outside the fan does not leave vA
  have outA : ∀ j, m.heLive j → m.ext j → ¬ Orb sv (twin T) j → m.heVertex j ≠ m.heVertex (twin T) := by
    intro j lj xj nf e
    have := hv.bdy_unique j _ lj lBN xj xBN (e.trans vBN'.symm)
    rw [this] at nf; exact nf fanBN
  have vT' : m'.heVertex T = m.heVertex T := W_o S.lT nfanT
  refine ⟨⟨?_, ?_, S.c_eCap, ?_, ?_, htl, hnl, ?_, ?_, fiff, viff, ?_, ?_, ?_, ?_, ?_, k1, k2, k3, ?_, ?_, ?_, ?_⟩, hlive⟩
  · rw [S.c_heFill, S.c_eFill, hv.he_fill]; omega
  · rw [S.c_heFill]; exact S.c_heCap
  · rw [S.c_vFill]; exact S.c_vCap
  · rw [ff, bf, fc]; exact hv.f_cap
  · intro i hi
    rw [vl]
    rcases (hlive i).1 hi with h | h | h
    · rw [h, S.v_n1]; exact Or.inr (hv.vertex_live _ S.lT)
    · rw [h, S.v_n2]; exact Or.inr (hv.vertex_live _ lH)
    · by_cases c : Orb sv (twin T) i
      · exact Or.inl (vfan i c)
      · rw [W_o h c]; exact Or.inr (hv.vertex_live i h)
  · intro i hi
    rw [fl']
    obtain ⟨r, -, r1, r2⟩ := fkey i hi
    rw [r2]; exact hv.face_live r r1
  · intro v hvl
    rw [S.vh]
    split_ifs with h1 h2
    · exact ⟨live_old lH, by rw [vfan _ (Orb.refl _ _), h1]⟩
    · exact ⟨live1, by rw [S.v_n1, h2]⟩
    · obtain ⟨l0, e0⟩ := hv.v_he v (((vl v).1 hvl).resolve_left h1)
      refine ⟨live_old l0, ?_⟩
      rw [W_o l0 ?_, e0]
      intro o
      have e1 := (fanv _ o).2
      rw [e0] at e1
      rw [e1, S.vh0] at o
      exact nfan0 o
  · intro f hf
    rw [S.fh]
    split_ifs with h2
    · exact ⟨live1, by rw [S.f_n1, h2]⟩
    · obtain ⟨l0, e0⟩ := hv.f_he f ((fl' f).1 hf)
      refine ⟨live_old l0, ?_⟩
      rw [S.f_o _ ?_ (B.lt l0).1 (B.lt l0).2, e0]
      intro e; rw [e] at e0; exact h2 e0.symm
  · intro i hi
    by_cases c1 : i = n1
    · rw [c1, S.next_n1]; exact (B.lt lTn).1
    by_cases c2 : i = n2
    · rw [c2, S.next_n2]; exact T2
    by_cases c : i = T
    · rw [c, S.next_T]; intro e; rw [e] at xBN; exact S.iT xBN
    by_cases d : i = p
    · rw [d, S.next_p]; exact (B.lt S.lp).1.symm
    by_cases b : i = twin h0
    · rw [b, S.next_B]; exact (B.lt lB).2.symm
    have l := ((hlive i).1 hi).resolve_left c1 |>.resolve_left c2
    rw [next_o' l c d b]; exact hv.deg_two i l
  · intro i j hi hj xi xj
    have vA2 : ∀ j, m.heLive j → m.ext j → m'.heVertex j ≠ m.heVertex (twin T) := by
      intro j lj xj e
      by_cases c : Orb sv (twin T) j
      · rw [vfan j c] at e; exact vltN lH e.symm
      · rw [W_o lj c] at e; exact outA j lj xj c e
    have vB2 : ∀ j, m.heLive j → m.ext j → m'.heVertex j ≠ m.heVertex T := by
      intro j lj xj e
      by_cases c : Orb sv (twin T) j
      · rw [vfan j c] at e; exact vBN e.symm
      · rw [W_o lj c] at e; exact S.nbB j lj e xj
    rcases ext_inv i hi xi with a | a | ⟨a, a'⟩ <;> rcases ext_inv j hj xj with b | b | ⟨b, b'⟩ <;> intro e
    · rw [a, b]
    · rw [a, b, S.v_n2, vT'] at e; exact absurd e.symm vAB
    · rw [a, S.v_n2] at e; exact absurd e.symm (vA2 j b b')
    · rw [a, b, S.v_n2, vT'] at e; exact absurd e vAB
    · rw [a, b]
    · rw [a, vT'] at e; exact absurd e.symm (vB2 j b b')
    · rw [b, S.v_n2] at e; exact absurd e (vA2 i a a')
    · rw [b, vT'] at e; exact absurd e (vB2 i a a')
    · by_cases c : Orb sv (twin T) i
      · by_cases d : Orb sv (twin T) j
        · exact hv.bdy_unique i j a b a' b' ((fanv i c).2.trans (fanv j d).2.symm)
        · rw [vfan i c, W_o b d] at e; exact absurd e.symm (vltN b)
      · by_cases d : Orb sv (twin T) j
        · rw [vfan j d, W_o a c] at e; exact absurd e (vltN a)
        · rw [W_o a c, W_o b d] at e; exact hv.bdy_unique i j a b a' b' e
  · intro i hi xi
    rw [S.vh]
    rcases ext_inv i hi xi with a | a | ⟨a, a'⟩
    · rw [a, S.v_n2, if_neg (vltN lH), if_neg vAB.symm, S.vh0]; exact (B.ext_iff lB).2 (Or.inr S.xB)
    · rw [a, vT', if_neg vBN, if_pos rfl, B.tn1 hv]; exact B.ext_n2
    · by_cases c : Orb sv (twin T) i
      · rw [vfan i c, if_pos rfl, twin_twin]; exact (B.ext_iff S.lT).2 (Or.inl rfl)
      · rw [W_o a c, if_neg (vltN a), if_neg (fun e => S.nbB i a e a')]
        have l0 := (hv.v_he _ (hv.vertex_live i a)).1
        exact (B.ext_iff (hv.twin_live _ l0)).2 (Or.inr (hv.bdy_first i a a'))
  · have hN := S.hvN
    rw [S.c_v, S.c_vFill, Nat.count_succ, ← hN, if_pos (by rw [S.vh, if_pos rfl]; exact ne_of_lt (hv.live_lt_INV lH)),
      hN, hv.cnt_v]
    congr 1
    refine count_congr fun v hvl => ?_
    have := vl v; unfold vLive at this; rw [S.c_vFill] at this
    have nv : v ≠ vN := by omega
    have h2 : v < m.nVFill + 1 := by omega
    tauto
  · rw [S.c_f, ff, hv.cnt_f]
    refine count_congr fun f hf => ?_
    have := fl' f; unfold fLive at this; rw [ff] at this
    tauto
  · rw [S.c_bl, bf, hv.cnt_bl]
  · intro f h1 h2
    rw [fc, bf] at h1; rw [fc] at h2
    rw [S.fh]
    split_ifs with c2
    · exact ne_of_lt I1
    · exact hv.bl_live f h1 h2

/-! ### Running the code -/

/-- `v.isBoundary()` in terms of the halfedges leaving `v`. -/
theorem Valid.bdy_iff {m : Mesh} (hv : m.Valid) {v : ℕ} (hvl : m.vLive v) :
    m.vIsBoundary v ↔ ∃ i, m.heLive i ∧ m.heVertex i = v ∧ m.ext i := by
  obtain ⟨l, e⟩ := hv.v_he v hvl
  have h : m.vIsBoundary v ↔ m.ext (twin (m.vHalfedge v)) := by
    unfold vIsBoundary heIsInterior faceIsBL ext; rw [not_not]
  rw [h]
  constructor
  · intro x
    have l2 := hv.twin_live _ l
    refine ⟨m.heNext (twin (m.vHalfedge v)), hv.next_live _ l2, (hv.vertex_vNext l).trans e, ?_⟩
    unfold ext at *; rw [hv.face_next l2]; exact x
  · rintro ⟨i, hi, rfl, x⟩; exact hv.bdy_first i hi x

/-- `getNewBoundaryLoop` in terms of `spare`. -/
theorem getNewBoundaryLoop_ok {m : Mesh} (hcap : m.nFFill + m.nBLFill ≤ m.nFCap) (hbl : m.nBL = m.nBLFill)
    (hpos : 0 < m.nFCap) (hlt : m.nFCap < INV) :
    (m.getNewBoundaryLoop = .error .oom ∧ m.nearLimit 0) ∨
    (m.getNewBoundaryLoop = .ok ({ m.spare with nBL := m.nBL + 1, nBLFill := m.nBLFill + 1 }, m.spare.nFCap - (m.nBLFill + 1)) ∧
      m.spare.nFCap < INV ∧ m.nFFill + 1 + m.nBLFill ≤ m.spare.nFCap) := by
  have e : m.getNewBoundaryLoop = (if INV ≤ m.spare.nFCap then .error .oom
    else if m.spare.nFCap - m.spare.nBLFill ≤ m.spare.nFFill then .error .ub
    else .ok ({ m.spare with nBL := m.spare.nBL + 1, nBLFill := m.spare.nBLFill + 1 }, m.spare.nFCap - (m.spare.nBLFill + 1))) := rfl
  rw [e]
  by_cases h1 : INV ≤ m.spare.nFCap
  · left; rw [if_pos h1]; refine ⟨rfl, ?_⟩
    unfold spare at h1; split_ifs at h1 with h
    · omega
    · have h1' : INV ≤ m.nFCap * 2 := h1
      unfold nearLimit; omega
  right
  have key : m.nFFill + 1 + m.nBLFill ≤ m.spare.nFCap := by
    unfold spare; split_ifs with h
    · omega
    · show _ ≤ m.nFCap * 2; omega
  rw [if_neg h1, if_neg (by rw [spare_nBLFill, spare_nFFill]; omega)]
  refine ⟨by simp, by omega, key⟩

theorem sep1_spec {m : Mesh} (hv : m.Valid) {he p : ℕ} (lH : m.heLive he) (lp : m.heLive p) (np : m.heNext p = twin he)
    (iH : ¬ m.ext he) (iT : ¬ m.ext (twin he)) (hs : m.heVertex he ≠ m.heVertex (twin he))
    (nA : ¬ m.vIsBoundary (m.heVertex he)) (nB : ¬ m.vIsBoundary (m.heVertex (twin he))) :
    (m.separateCase1 he p = .error .oom ∧ m.nearLimit 1) ∨
    ∃ m', m.separateCase1 he p = .ok ({ m' with nInt := m'.nInt + 1 }, (he, m.nHeFill)) ∧ m.spare.Valid ∧
      Sep1 m.spare m' (twin he) p m.nHeFill (m.nHeFill + 1) (m.spare.nFCap - (m.nBLFill + 1)) := by
  have lT := hv.twin_live _ lH
  unfold separateCase1
  rcases getNewEdgeTriple_ok (m := m) hv.he_fill hv.he_cap.1 hv.e_cap hv.he_cap.2 true with
    ⟨h, lim⟩ | ⟨hcap, ecap, h, ha, hb, hc⟩
  · left; rw [h]; exact ⟨rfl, lim.mono (by omega) (by omega) (by omega)⟩
  rw [h]; simp only [if_true]
  set m1 : Mesh := { m with
    nHeCap := hcap, nECap := ecap, nHeFill := m.nHeFill + 2, nHe := m.nHe + 2,
    nInt := m.nInt + 1, nEFill := m.nEFill + 1, nE := m.nE + 1 } with hm1
  have hfl := Valid.face_lt iT
  rcases getNewBoundaryLoop_ok (m := m1) hv.f_cap.1 hv.cnt_bl (by have := hv.f_cap; show 0 < m.nFCap; omega) hv.f_cap.2 with
    ⟨g, lim⟩ | ⟨g, g1, g2⟩
  · left; rw [g]; exact ⟨rfl, lim.mono (by simp only [hm1]; omega) (by simp only [hm1]; omega) (by simp only [hm1]; omega)⟩
  right
  rw [g]; simp only
  have e1 : m1.spare.nFCap = m.spare.nFCap := by unfold spare; simp only [hm1]; split_ifs <;> rfl
  rw [e1] at g1 g2
  replace g2 : m.nFFill + 1 + m.nBLFill ≤ m.spare.nFCap := g2
  have hsv := spare_valid hv g1
  have heven : twin m.nHeFill = m.nHeFill + 1 := by rw [hv.he_fill, twin_two_mul]
  have ff : ∀ i, i ≠ m.nHeFill → i ≠ m.nHeFill + 1 → m1.spare.heFace i = m.spare.heFace i := by
    intro i hi0 hi1
    unfold spare; simp only [hm1]; split_ifs with c
    · rfl
    · unfold expandFaceStorage; simp only
      have : i < m.nHeFill + 2 ↔ i < m.nHeFill := by omega
      simp only [this]
  have fh : m1.spare.fHalfedge = m.spare.fHalfedge := by
    unfold spare; simp only [hm1]; split_ifs <;> rfl
  have ltn : ∀ {i}, m.heLive i → i ≠ m.nHeFill ∧ i ≠ m.nHeFill + 1 := by
    intro i hi; have := hi.1; constructor <;> omega
  have pT : p ≠ twin he := by rintro rfl; exact hv.deg_two _ lp np
  have n01 : m.nHeFill ≠ m.nHeFill + 1 := by omega
  obtain ⟨T0, T1⟩ := ltn lT
  obtain ⟨H0, H1⟩ := ltn lH
  obtain ⟨p0, p1⟩ := ltn lp
  refine ⟨{ (Mesh.separateWrites1 { m1.spare with nBL := m1.nBL + 1, nBLFill := m1.nBLFill + 1 } he p m.nHeFill
    (m.heFace (twin he)) (m1.spare.nFCap - (m1.nBLFill + 1))) with nInt := m.nInt }, ?_, hsv, ?_⟩
  · simp only [separateWrites1, spare_nInt, hm1]
  have hfT := spare_heFace_int iT
  constructor
  case toSepBase =>
    constructor
    case lT => exact spare_heLive.2 lT
    case lp => exact spare_heLive.2 lp
    case np => simpa using np
    case iT => rw [spare_ext]; exact iT
    case iH => rw [spare_ext, twin_twin]; exact iH
    case hn1 => simp
    case hn2 => simp
    case xfl => rw [spare_nFFill]; omega
    case c_heCap => simp only [separateWrites1, spare_nHeCap, spare_nHeFill]; exact ⟨ha, hb⟩
    case c_eCap => simp only [separateWrites1, spare_nHeCap, spare_nECap]; exact hc
    case c_fCap => simp only [separateWrites1, e1]
    case f_o =>
      intro i i0 i1 i2
      simp only [separateWrites1, upd_apply, heven]
      rw [if_neg i2, if_neg i1, if_neg i0, ff i i1 i2]
    case f_T =>
      simp only [separateWrites1, upd_apply, heven]
      rw [if_neg T1, if_neg T0, if_pos trivial, e1]
    case f_n2 =>
      simp only [separateWrites1, upd_apply, heven]
      rw [if_pos trivial, e1]
    all_goals
      simp only [separateWrites1, upd_apply, heven, spare_heNext, hfT]
      simp [hm1, T0, T1, H0, H1, p0, p1, T0.symm, T1.symm, H0.symm, H1.symm, p0.symm, p1.symm, n01, n01.symm, pT, pT.symm]
  case hT => rw [spare_heVertex, twin_twin]; exact hs.symm
  case nbA =>
    intro i hi; rw [spare_heVertex, twin_twin, spare_ext]; intro e x
    exact nA ((hv.bdy_iff (hv.vertex_live _ lH)).2 ⟨i, spare_heLive.1 hi, e, x⟩)
  case nbB =>
    intro i hi; rw [spare_heVertex, spare_ext]; intro e x
    exact nB ((hv.bdy_iff (hv.vertex_live _ lT)).2 ⟨i, spare_heLive.1 hi, e, x⟩)
  case hfl => rw [spare_nBLFill]; omega
  case next_o =>
    intro i i0 i1 i2 i3
    simp only [separateWrites1, upd_apply, heven]
    rw [if_neg i3, if_neg i1, if_neg i2, if_neg i0]; simp [hm1]
  case v_o =>
    intro i i1 i2
    simp only [separateWrites1, upd_apply, heven]
    rw [if_neg i2, if_neg i1]; simp [hm1]
  case vh =>
    intro v
    simp only [separateWrites1, upd_apply, heven, spare_heVertex, spare_vHalfedge, twin_twin]; rfl
  case fh =>
    intro f
    simp only [separateWrites1, upd_apply, heven, fh, e1, hfT]; rfl
  all_goals
    simp only [separateWrites1, upd_apply, heven, spare_heNext, spare_heVertex]
    simp [hm1, T0, T1, H0, H1, p0, p1, T0.symm, T1.symm, H0.symm, H1.symm, p0.symm, p1.symm, n01, n01.symm, pT, pT.symm]

/-- The loop over the fan marks the part of the old vertex cycle that the new vertex gets, if its faces are
triangles. -/
theorem fan_ok {m : Mesh} (hv : m.Valid) {T p h0 n1 n2 N vN : ℕ} (arr : ℕ → ℕ) (lT : m.heLive T) (iT : ¬ m.ext T)
    (iHx : ¬ m.ext (twin T))
    (lp : m.heLive p) (np : m.heNext p = T)
    (l0 : m.heLive h0) (xB : m.ext (twin h0)) (v0 : m.heVertex h0 = m.heVertex (twin T))
    (hn1 : n1 = m.nHeFill) (hn2 : n2 = m.nHeFill + 1) (hN : m.nHeFill ≤ N)
    (hs : m.heVertex T ≠ m.heVertex (twin T))
    (tri : ∀ i, m.heLive i → ¬ m.ext i → m.heVertex i = m.heVertex (twin T) → m.heNext (m.heNext (m.heNext i)) = i)
    (next : ℕ → ℕ) (hnext : next = upd (upd (upd (upd (upd m.heNext T (m.heNext (twin h0))) n2 T) n1 (m.heNext T)) p n1)
      (twin h0) n2) :
    ∃ arr', fanRelabel next (m.heNext (twin h0)) vN N (twin T) arr = .ok arr' ∧
      (∀ i, Orb (splitV m T h0) (twin T) i → arr' i = vN) ∧
      (∀ i, ¬ Orb (splitV m T h0) (twin T) i → arr' i = arr i) := by
  have lH := hv.twin_live T lT
  have lB := hv.twin_live h0 l0
  obtain ⟨Hh0, nfan0, fanv, split, gH⟩ := splitV_facts hv lT iT l0 xB v0
  have persv : Per (splitV m T h0) := hv.per_vy.swapf _ _
  have lBN := hv.next_live _ lB
  have xBN : m.ext (m.heNext (twin h0)) := by unfold ext; rw [hv.face_next lB]; exact xB
  have vBN : m.heVertex (m.heNext (twin h0)) = m.heVertex (twin T) := (hv.vertex_vNext l0).trans v0
  have iH : m.heNext (twin h0) ≠ twin T := by
    intro e; rw [e] at xBN; exact iHx xBN
  obtain ⟨K, hK, hit, hmin⟩ := first_hit (N := m.nHeFill) (f := splitV m T h0) (x := m.heNext (twin h0)) (y := twin T)
    (by rw [← gH]; exact persv _)
    (fun z hz => (fanv z (by
      have : Orb (splitV m T h0) (twin T) (m.heNext (twin h0)) := by rw [← gH]; exact Orb.step _ _
      exact this.trans hz)).1.1)
  obtain ⟨k, rfl⟩ : ∃ k, K = k + 1 := ⟨K - 1, by
    rcases Nat.eq_zero_or_pos K with h | h
    · subst h; exact absurd hit iH
    · omega⟩
  set w : ℕ → ℕ := fun j => (splitV m T h0)^[j] (m.heNext (twin h0)) with hw
  have wfan : ∀ j, Orb (splitV m T h0) (twin T) (w j) := by
    intro j
    have : Orb (splitV m T h0) (twin T) (m.heNext (twin h0)) := by rw [← gH]; exact Orb.step _ _
    exact this.trans ⟨j, rfl⟩
  have wne : ∀ j ≤ k, w j ≠ twin T := fun j hj => hmin j (by omega)
  have w0 : w 0 = m.heNext (twin h0) := rfl
  have wsucc : ∀ j, w (j + 1) = splitV m T h0 (w j) := fun j => Function.iterate_succ_apply' _ _ _
  have hinj : ∀ j, j ≤ k + 1 → 0 < j → w j ≠ w 0 := by
    intro j hj hpos e
    obtain ⟨i, rfl⟩ : ∃ i, j = i + 1 := ⟨j - 1, by omega⟩
    rw [wsucc, w0, ← gH] at e
    exact wne i (by omega) (persv.injective e)
  have hstep : ∀ j ≤ k, twin (next (next (w (j + 1)))) = w j := by
    intro j hj
    obtain ⟨lj, vj⟩ := fanv _ (wfan j)
    obtain ⟨lz, vz⟩ := fanv _ (wfan (j + 1))
    have wj0 : w j ≠ h0 := fun e => nfan0 (e ▸ wfan j)
    have ez : w (j + 1) = m.heNext (twin (w j)) := by
      rw [wsucc]; unfold splitV
      rw [swapf_other _ (wne j hj) wj0, vy_live lj]; rfl
    have iz : ¬ m.ext (w (j + 1)) := by
      intro x
      exact hinj (j + 1) (by omega) (by omega) (hv.bdy_unique _ _ lz lBN x xBN (vz.trans vBN.symm))
    have ly := hv.twin_live _ lj
    have tz := tri _ lz iz vz
    generalize w (j + 1) = z at *
    generalize hy : w j = u at *
    have la := hv.next_live z lz
    have e2 : m.heNext (m.heNext z) = twin u := hv.next_inj (hv.next_live _ la) ly (tz.trans ez)
    have yT : twin u ≠ T := fun e => wne j hj (by rw [hy, ← e, twin_twin])
    have zT : z ≠ T := by intro e; rw [e] at vz; exact hs vz
    have ia : ¬ m.ext (m.heNext z) := by unfold ext; rw [hv.face_next lz]; exact iz
    have zB : z ≠ twin h0 := fun e => iz (e ▸ xB)
    have aB : m.heNext z ≠ twin h0 := fun e => ia (e ▸ xB)
    have ltn : ∀ {i}, m.heLive i → i ≠ n1 ∧ i ≠ n2 := by intro i hi; have := hi.1; omega
    have n12 : n1 ≠ n2 := by omega
    have N1 : next n1 = m.heNext T := by
      rw [hnext]; simp only [upd_apply]
      rw [if_neg (ltn lB).1.symm, if_neg (ltn lp).1.symm, if_pos trivial]
    have Np : p ≠ twin h0 → next p = n1 := by
      intro h
      rw [hnext]; simp only [upd_apply]
      rw [if_neg h, if_pos trivial]
    have No : ∀ i, m.heLive i → i ≠ T → i ≠ p → i ≠ twin h0 → next i = m.heNext i := by
      intro i hi a1 a2 a3
      rw [hnext]; simp only [upd_apply]
      rw [if_neg a3, if_neg a2, if_neg (ltn hi).1, if_neg (ltn hi).2, if_neg a1]
    by_cases c : z = p
    · subst c
      rw [Np zB, N1]
      rw [np] at e2
      rw [e2, twin_twin]
    · rw [No z lz zT c zB]
      have aT : m.heNext z ≠ T := fun e => c (hv.next_inj lz lp (e.trans np.symm))
      have ap : m.heNext z ≠ p := by
        intro e; rw [e, np] at e2; exact yT e2.symm
      rw [No _ la aT ap aB, e2, twin_twin]
  obtain ⟨arr', h1, h2⟩ := fanRelabel_ok (next := next) (w := w) (val := vN) k (fuel := N) (by omega) arr hstep
    (fun j hj => hinj j (by omega))
  have ek : w (k + 1) = twin T := hit
  rw [w0, ek] at h1
  have hper : (splitV m T h0)^[k + 1 + 1] (m.heNext (twin h0)) = m.heNext (twin h0) := by
    rw [Function.iterate_succ_apply', hit, gH]
  have key : ∀ i, (∃ j ≤ k + 1, w j = i) ↔ Orb (splitV m T h0) (twin T) i := by
    intro i
    constructor
    · rintro ⟨j, _, rfl⟩; exact wfan j
    · intro o
      have o' : Orb (splitV m T h0) (m.heNext (twin h0)) i := by
        rw [← gH]; exact Orb.trans (persv _) o
      have := (orbit_range_mem hper).2 o'
      rw [List.mem_map] at this
      obtain ⟨j, hj, e⟩ := this
      rw [List.mem_range] at hj
      exact ⟨j, by omega, e⟩
  refine ⟨arr', h1, fun i o => ?_, fun i o => ?_⟩
  · rw [h2, if_pos ((key i).2 o)]
  · rw [h2, if_neg (fun h => o ((key i).1 h))]

/-- The first half of case 2: everything before `ensureEdgeHasInteriorHalfedge`. -/
theorem sep2_spec {m : Mesh} (hv : m.Valid) {he p : ℕ} (lH : m.heLive he) (lp : m.heLive p) (np : m.heNext p = twin he)
    (iH : ¬ m.ext he) (iT : ¬ m.ext (twin he))
    (nA : m.vIsBoundary (m.heVertex he)) (nB : ¬ m.vIsBoundary (m.heVertex (twin he)))
    (tri : ∀ i, m.heLive i → ¬ m.ext i → m.heVertex i = m.heVertex he → m.heNext (m.heNext (m.heNext i)) = i) (b : Bool) :
    (m.separateCase2 he p b = .error .oom ∧ m.nearLimit 1) ∨
    ∃ m', Sep2 m m' (twin he) p m.nHeFill (m.nHeFill + 1) (m.vHalfedge (m.heVertex he)) m.nVFill ∧
      m.separateCase2 he p b =
        match ({ m' with nInt := m'.nInt + 1 } : Mesh).ensureEdgeHasInteriorHalfedge (heEdge he) with
        | .error x => .error x
        | .ok (m4, _) => .ok (m4, if b then (m.nHeFill, eHalfedge (heEdge he)) else (eHalfedge (heEdge he), m.nHeFill)) := by
  have lT := hv.twin_live _ lH
  obtain ⟨l0, v0⟩ := hv.v_he _ (hv.vertex_live _ lH)
  have xB : m.ext (twin (m.vHalfedge (m.heVertex he))) := by
    have := nA; unfold vIsBoundary heIsInterior faceIsBL at this; rw [not_not] at this; exact this
  have hs : m.heVertex he ≠ m.heVertex (twin he) := by intro e; rw [e] at nA; exact nB nA
  unfold separateCase2
  rcases getNewEdgeTriple_ok (m := m) hv.he_fill hv.he_cap.1 hv.e_cap hv.he_cap.2 true with
    ⟨h, lim⟩ | ⟨hcap, ecap, h, ha, hb, hc⟩
  · left; rw [h]; exact ⟨rfl, lim.mono (by omega) (by omega) (by omega)⟩
  rw [h]; simp only [if_true]
  set m1 : Mesh := { m with
    nHeCap := hcap, nECap := ecap, nHeFill := m.nHeFill + 2, nHe := m.nHe + 2,
    nInt := m.nInt + 1, nEFill := m.nEFill + 1, nE := m.nE + 1 } with hm1
  have vl := hv.vertex_live _ lH
  rcases getNewVertex_ok (m := m1) (by have := vl.1; have := hv.v_cap; simp only [hm1]; omega) hv.v_cap.1 hv.v_cap.2 with
    ⟨g, lim⟩ | ⟨vcap, g, g1, g2⟩
  · left; rw [g]; exact ⟨rfl, lim.mono (by simp only [hm1]; omega) (by simp only [hm1]; omega) (by simp only [hm1]; omega)⟩
  right
  rw [g]; simp only
  have heven : twin m.nHeFill = m.nHeFill + 1 := by rw [hv.he_fill, twin_two_mul]
  have hs' : m.heVertex (twin he) ≠ m.heVertex (twin (twin he)) := by rw [twin_twin]; exact hs.symm
  obtain ⟨arr, harr, hfan, hout⟩ := fan_ok hv (T := twin he) (p := p) (h0 := m.vHalfedge (m.heVertex he)) (n1 := m.nHeFill)
    (n2 := m.nHeFill + 1) (N := m.nHeFill + 2) (vN := m.nVFill)
    (upd (upd m.heVertex m.nHeFill (m.heVertex (twin he))) (m.nHeFill + 1) (m.heVertex he)) lT iT
    (by rw [twin_twin]; exact iH) lp np l0 xB
    (by rw [twin_twin]; exact v0) rfl rfl (by omega) hs' (by rw [twin_twin]; exact tri) _ rfl
  have ltn : ∀ {i}, m.heLive i → i ≠ m.nHeFill ∧ i ≠ m.nHeFill + 1 := by
    intro i hi; have := hi.1; constructor <;> omega
  have lB := hv.twin_live _ l0
  have pT : p ≠ twin he := by rintro rfl; exact hv.deg_two _ lp np
  have ip : ¬ m.ext p := by
    have := iT; rw [← np] at this
    unfold ext at *; rw [hv.face_next lp] at this; exact this
  have pB : p ≠ twin (m.vHalfedge (m.heVertex he)) := fun e => ip (e ▸ xB)
  have TB : twin he ≠ twin (m.vHalfedge (m.heVertex he)) := fun e => iT (e ▸ xB)
  obtain ⟨Hh0, nfan0, fanv, split, gH⟩ := splitV_facts hv lT iT l0 xB (by rw [twin_twin]; exact v0)
  rw [twin_twin] at harr
  have n01 : m.nHeFill ≠ m.nHeFill + 1 := by omega
  obtain ⟨T0, T1⟩ := ltn lT
  obtain ⟨H0, H1⟩ := ltn lH
  obtain ⟨p0, p1⟩ := ltn lp
  obtain ⟨B0, B1⟩ := ltn lB
  have d1 : ¬ Orb (splitV m (twin he) (m.vHalfedge (m.heVertex he))) (twin (twin he)) m.nHeFill :=
    fun o => (ltn (fanv _ o).1).1 rfl
  have d2 : ¬ Orb (splitV m (twin he) (m.vHalfedge (m.heVertex he))) (twin (twin he)) (m.nHeFill + 1) :=
    fun o => (ltn (fanv _ o).1).2 rfl
  have hwr : Mesh.separateWrites2 { m1 with nVCap := vcap, nVFill := m1.nVFill + 1, nV := m1.nV + 1 } he p m.nHeFill m1.nVFill =
      .ok { m1 with
        nVCap := vcap, nVFill := m1.nVFill + 1, nV := m1.nV + 1
        heNext := upd (upd (upd (upd (upd m.heNext (twin he) (m.heNext (twin (m.vHalfedge (m.heVertex he))))) (m.nHeFill + 1) (twin he))
          m.nHeFill (m.heNext (twin he))) p m.nHeFill) (twin (m.vHalfedge (m.heVertex he))) (m.nHeFill + 1)
        heVertex := arr
        heFace := upd (upd (upd m.heFace (twin he) (m.heFace (twin (m.vHalfedge (m.heVertex he))))) m.nHeFill (m.heFace (twin he)))
          (m.nHeFill + 1) (m.heFace (twin (m.vHalfedge (m.heVertex he))))
        fHalfedge := upd m.fHalfedge (m.heFace (twin he)) m.nHeFill
        vHalfedge := upd (upd m.vHalfedge (m.heVertex (twin he)) m.nHeFill) m.nVFill he } := by
    unfold separateWrites2
    simp only [heven, hm1]
    rw [harr]
  rw [hwr]
  simp only
  refine ⟨{ m1 with
        nInt := m.nInt, nVCap := vcap, nVFill := m1.nVFill + 1, nV := m1.nV + 1
        heNext := upd (upd (upd (upd (upd m.heNext (twin he) (m.heNext (twin (m.vHalfedge (m.heVertex he))))) (m.nHeFill + 1) (twin he))
          m.nHeFill (m.heNext (twin he))) p m.nHeFill) (twin (m.vHalfedge (m.heVertex he))) (m.nHeFill + 1)
        heVertex := arr
        heFace := upd (upd (upd m.heFace (twin he) (m.heFace (twin (m.vHalfedge (m.heVertex he))))) m.nHeFill (m.heFace (twin he)))
          (m.nHeFill + 1) (m.heFace (twin (m.vHalfedge (m.heVertex he))))
        fHalfedge := upd m.fHalfedge (m.heFace (twin he)) m.nHeFill
        vHalfedge := upd (upd m.vHalfedge (m.heVertex (twin he)) m.nHeFill) m.nVFill he }, ?_, rfl⟩
  constructor
  case toSepBase =>
    constructor
    case lT => exact lT
    case lp => exact lp
    case np => exact np
    case iT => exact iT
    case iH => rw [twin_twin]; exact iH
    case hn1 => rfl
    case hn2 => rfl
    case xfl => exact xB
    case c_heCap => exact ⟨ha, hb⟩
    case c_eCap => exact hc
    case f_o =>
      intro i i0 i1 i2
      simp only [upd_apply]
      rw [if_neg i2, if_neg i1, if_neg i0]
    all_goals first
      | rfl
      | (simp only [upd_apply]
         simp [T0, T1, H0, H1, p0, p1, B0, B1, T0.symm, T1.symm, H0.symm, H1.symm, p0.symm, p1.symm, B0.symm, B1.symm, n01, n01.symm,
           pT, pT.symm, pB, pB.symm, TB, TB.symm]; done)
  case l0 => exact l0
  case xB => exact xB
  case v0 => rw [twin_twin]; exact v0
  case vh0 => rw [twin_twin]
  case nbB =>
    intro i hi e x
    exact nB ((hv.bdy_iff (hv.vertex_live _ lT)).2 ⟨i, hi, e, x⟩)
  case hvN => rfl
  case next_o =>
    intro i i0 i1 i2 i3 i4
    simp only [upd_apply]
    rw [if_neg i4, if_neg i3, if_neg i1, if_neg i2, if_neg i0]
  case next_T => simp only [upd_apply]; rw [if_neg TB, if_neg pT.symm, if_neg T0, if_neg T1, if_pos trivial]
  case next_B => simp only [upd_apply]; rw [if_pos trivial]
  case v_n1 =>
    show arr _ = _
    rw [hout _ d1, upd_apply, if_neg n01, upd_same]
  case v_n2 =>
    show arr _ = _
    rw [hout _ d2, upd_same, twin_twin]
  case v_fan => exact hfan
  case v_o =>
    intro i i1 i2 o
    show arr i = _
    rw [hout i o, upd_apply, if_neg i2, upd_apply, if_neg i1]
  case vh => intro v; simp only [upd_apply, twin_twin]
  case fh => intro v; simp only [upd_apply]
  case c_vCap => exact ⟨g1, g2⟩
  all_goals rfl

/-- The interior-halfedge count plays no role in `ensureEdgeHasInteriorHalfedge`. -/
theorem ensure_nInt (m : Mesh) (k e : ℕ) :
    ({ m with nInt := k } : Mesh).ensureEdgeHasInteriorHalfedge e =
      match m.ensureEdgeHasInteriorHalfedge e with
      | .error x => .error x
      | .ok (m', b) => .ok ({ m' with nInt := k }, b) := by
  have hs : ({ m with nInt := k } : Mesh).switchHalfedgeSides e =
      match m.switchHalfedgeSides e with
      | .error x => .error x
      | .ok (m', b) => .ok ({ m' with nInt := k }, b) := by
    unfold switchHalfedgeSides
    have e1 : ∀ i, ({ m with nInt := k } : Mesh).prevOrbitVertex i = m.prevOrbitVertex i := fun _ => rfl
    rw [e1, e1]
    cases m.prevOrbitVertex (eHalfedge e) with
    | error x => rfl
    | ok a =>
      cases m.prevOrbitVertex (twin (eHalfedge e)) with
      | error x => rfl
      | ok c => rfl
  unfold ensureEdgeHasInteriorHalfedge
  rw [hs]
  have e2 : ({ m with nInt := k } : Mesh).heIsInterior (eHalfedge e) ↔ m.heIsInterior (eHalfedge e) := Iff.rfl
  by_cases c : m.heIsInterior (eHalfedge e)
  · rw [if_neg (not_not.2 (e2.2 c)), if_neg (not_not.2 c)]
  · rw [if_pos (fun h => c (e2.1 h)), if_pos c]
    cases m.switchHalfedgeSides e with
    | error x => rfl
    | ok a => rfl

end Mesh
end GC
