import Verif.MeshRemoveEdge
import Verif.MeshRemoveVertex
import Verif.MeshSwitch

/-! # removeFaceAlongBoundary (model and helper lemmas) -/

set_option linter.unusedSimpArgs false

namespace GC

theorem walkPrev_congr {test adv test' adv' : ℕ → ℕ} (s : ℕ → Prop) (hs : ∀ z, s z → s (adv z))
    (h : ∀ z, s z → test' z = test z ∧ adv' z = adv z) (t n : ℕ) :
    ∀ cur, s cur → walkPrev test' adv' t n cur = walkPrev test adv t n cur := by
  induction n with
  | zero => intro cur _; rfl
  | succ n ih =>
    intro cur hc
    unfold walkPrev
    rw [(h cur hc).1, (h cur hc).2, ih _ (hs cur hc)]

/-- `for (he : list) arr[he] = val;` -/
def writeAll (arr : ℕ → ℕ) (l : List ℕ) (val : ℕ) : ℕ → ℕ := l.foldl (fun a h => upd a h val) arr

theorem writeAll_apply (l : List ℕ) (val : ℕ) : ∀ (arr : ℕ → ℕ) (i : ℕ),
    writeAll arr l val i = if i ∈ l then val else arr i := by
  induction l with
  | nil => intro arr i; simp [writeAll]
  | cons a t ih =>
    intro arr i
    have := ih (upd arr a val) i
    unfold writeAll at this ⊢
    rw [List.foldl_cons, this, upd_apply]
    by_cases h : i ∈ t
    · simp [h]
    · by_cases h2 : i = a
      · simp [h, h2]
      · simp [h, h2]

namespace Mesh

/-- The loop of `ManifoldSurfaceMesh::ensureVertexHasBoundaryHalfedge`, manifold_surface_mesh.cpp:1627-1636. -/
def ensureVertexLoop (v : ℕ) : ℕ → Mesh → Res Mesh
  | 0, _ => .error .hang
  | n + 1, m =>
    if ¬ m.heIsInterior (twin (m.vHalfedge v)) then .ok m
    else ensureVertexLoop v n { m with vHalfedge := upd m.vHalfedge v (m.heNext (twin (m.vHalfedge v))) }

/-- `ManifoldSurfaceMesh::ensureVertexHasBoundaryHalfedge`, manifold_surface_mesh.cpp:1627-1636. -/
def ensureVertexHasBoundaryHalfedge (m : Mesh) (v : ℕ) : Res Mesh := ensureVertexLoop v m.nHeFill m

/-- The do-while loop of `removeFaceAlongBoundary`, manifold_surface_mesh.cpp:1376-1381. -/
def ensureEdgesLoop (stop : ℕ) : ℕ → Mesh → ℕ → Res Mesh
  | 0, _, _ => .error .hang
  | n + 1, m, cur =>
    match m.ensureEdgeHasInteriorHalfedge (heEdge cur) with
    | .error x => .error x
    | .ok (m', _) => if m.heNext cur = stop then .ok m' else ensureEdgesLoop stop n m' (m.heNext cur)

/-- The writes of `removeFaceAlongBoundary` before the repairs, manifold_surface_mesh.cpp:1362-1371; `hs` are
the halfedges of the face. -/
def removeFaceWrites (m : Mesh) (hs : List ℕ) (heB heBPrev heTPrev : ℕ) : Mesh :=
  { m with
    heFace := writeAll m.heFace hs (m.heFace (twin heB))
    heNext := upd (upd m.heNext heBPrev (m.heNext (twin heB))) heTPrev (m.heNext heB)
    vHalfedge := upd m.vHalfedge (m.heVertex (m.heNext (twin heB))) (twin heBPrev) }

/-- The case of one boundary edge `heB` of `removeFaceAlongBoundary`, manifold_surface_mesh.cpp:1343-1386. -/
def removeFaceOne (m : Mesh) (f : ℕ) (hs : List ℕ) (heB : ℕ) : Res (Mesh × Bool) :=
  match m.prevOrbitFace heB with
  | .error x => .error x
  | .ok heBPrev => match m.prevOrbitVertex (twin heB) with
    | .error x => .error x
    | .ok heTPrev =>
      if m.vIsBoundary (m.heVertex heBPrev) then .ok (m, false)
      else match (m.removeFaceWrites hs heB heBPrev heTPrev).ensureVertexHasBoundaryHalfedge (m.heVertex heBPrev) with
        | .error x => .error x
        | .ok m2 =>
          match ensureEdgesLoop (m.heNext (twin heB)) m.nHeFill
              { m2 with fHalfedge := upd m2.fHalfedge (m.heFace (twin heB)) (m.heNext (twin heB)) } (m.heNext heB) with
          | .error x => .error x
          | .ok m4 => .ok ((m4.deleteFace f).deleteEdgeBundle (heEdge heB), true)

/-- `ManifoldSurfaceMesh::removeFaceAlongBoundary`, manifold_surface_mesh.cpp:1330-1525. -/
def removeFaceAlongBoundary (m : Mesh) (f : ℕ) : Res (Mesh × Bool) :=
  match m.faceHalfedges f with
  | .error x => .error x
  | .ok hs => match hs.filter (fun h => ¬ m.heIsInterior (twin h)) with
    | [] => .error .throw
    | [heB] => m.removeFaceOne f hs heB
    | _ :: _ :: _ => .ok (m, false)

/-- `m` without the edge `e` and the face `f`, with `K` as the count of interior halfedges. -/
def drop (m : Mesh) (e f K : ℕ) : Mesh := { (m.deleteFace f).deleteEdgeBundle e with nInt := K }

theorem drop_next (m : Mesh) (e f K i : ℕ) : (m.drop e f K).heNext i = if i / 2 = e then INV else m.heNext i := by
  show upd (upd m.heNext (2 * e) INV) (twin (2 * e)) INV i = _
  rw [twin_two_mul, upd_apply, upd_apply]; split_ifs <;> first | rfl | omega

theorem drop_vertex (m : Mesh) (e f K i : ℕ) : (m.drop e f K).heVertex i = if i / 2 = e then INV else m.heVertex i := by
  show upd (upd m.heVertex (2 * e) INV) (twin (2 * e)) INV i = _
  rw [twin_two_mul, upd_apply, upd_apply]; split_ifs <;> first | rfl | omega

theorem drop_face (m : Mesh) (e f K i : ℕ) : (m.drop e f K).heFace i = if i / 2 = e then INV else m.heFace i := by
  show upd (upd m.heFace (2 * e) INV) (twin (2 * e)) INV i = _
  rw [twin_two_mul, upd_apply, upd_apply]; split_ifs <;> first | rfl | omega

theorem drop_fh (m : Mesh) (e f K g : ℕ) : (m.drop e f K).fHalfedge g = if g = f then INV else m.fHalfedge g := rfl

theorem drop_live {m : Mesh} {e f K i : ℕ} (h : (m.drop e f K).heLive i) : m.heLive i ∧ i / 2 ≠ e := by
  have h2 := h.2
  rw [drop_next] at h2
  by_cases c : i / 2 = e
  · rw [if_pos c] at h2; exact absurd rfl h2
  · rw [if_neg c] at h2; exact ⟨⟨h.1, h2⟩, c⟩

theorem mesh_ext {a b : Mesh} (h1 : a.heNext = b.heNext) (h2 : a.heVertex = b.heVertex) (h3 : a.heFace = b.heFace)
    (h4 : a.vHalfedge = b.vHalfedge) (h5 : a.fHalfedge = b.fHalfedge)
    (hc : b.nHe = a.nHe ∧ b.nHeFill = a.nHeFill ∧ b.nHeCap = a.nHeCap ∧ b.nInt = a.nInt ∧ b.nV = a.nV ∧
    b.nVFill = a.nVFill ∧ b.nVCap = a.nVCap ∧ b.nE = a.nE ∧ b.nEFill = a.nEFill ∧ b.nECap = a.nECap ∧
    b.nF = a.nF ∧ b.nFFill = a.nFFill ∧ b.nFCap = a.nFCap ∧ b.nBL = a.nBL ∧ b.nBLFill = a.nBLFill) : a = b := by
  obtain ⟨k1, k2, k3, k4, k5, k6, k7, k8, k9, k10, k11, k12, k13, k14, k15⟩ := hc
  cases a; cases b; simp only at *
  subst h1 h2 h3 h4 h5 k1 k2 k3 k4 k5 k6 k7 k8 k9 k10 k11 k12 k13 k14 k15
  rfl

/-- The removal of the dead edge and face can be done before or after a switch of another edge. -/
theorem drop_switchWrites (m : Mesh) {e f K A P Q : ℕ} (hA : A / 2 ≠ e) (hP : P / 2 ≠ e) (hQ : Q / 2 ≠ e)
    (fA : m.heFace A ≠ f) (fB : m.heFace (twin A) ≠ f) :
    (m.switchWrites A P Q).drop e f K = (m.drop e f K).switchWrites A P Q := by
  have hT : twin A / 2 ≠ e := by rw [twin_div]; exact hA
  have n1 := drop_next m e f K A; have n2 := drop_next m e f K (twin A)
  have f1 := drop_face m e f K A; have f2 := drop_face m e f K (twin A)
  have v1 := drop_vertex m e f K A; have v2 := drop_vertex m e f K (twin A)
  rw [if_neg hA] at n1 f1 v1; rw [if_neg hT] at n2 f2 v2
  have bl : ∀ g, (m.drop e f K).faceIsBL g ↔ m.faceIsBL g := fun g => Iff.rfl
  have vh : (m.drop e f K).vHalfedge = m.vHalfedge := rfl
  refine mesh_ext ?_ ?_ ?_ ?_ ?_ ⟨rfl, rfl, rfl, rfl, rfl, rfl, rfl, rfl, rfl, rfl, rfl, rfl, rfl, rfl, rfl⟩
  · funext i
    rw [drop_next]
    unfold switchWrites
    simp only [n1, n2, upd_apply, drop_next]
    by_cases c : i / 2 = e
    · have c1 : i ≠ P := fun h => hP (h ▸ c)
      have c2 : i ≠ twin A := fun h => hT (h ▸ c)
      have c3 : i ≠ Q := fun h => hQ (h ▸ c)
      have c4 : i ≠ A := fun h => hA (h ▸ c)
      simp [c, c1, c2, c3, c4]
    · simp [c]
  · funext i
    rw [drop_vertex]
    unfold switchWrites
    simp only [v1, v2, upd_apply, drop_vertex]
    by_cases c : i / 2 = e
    · have c2 : i ≠ twin A := fun h => hT (h ▸ c)
      have c4 : i ≠ A := fun h => hA (h ▸ c)
      simp [c, c2, c4]
    · simp [c]
  · funext i
    rw [drop_face]
    unfold switchWrites
    simp only [f1, f2, upd_apply, drop_face]
    by_cases c : i / 2 = e
    · have c2 : i ≠ twin A := fun h => hT (h ▸ c)
      have c4 : i ≠ A := fun h => hA (h ▸ c)
      simp [c, c2, c4]
    · simp [c]
  · show (m.switchWrites A P Q).vHalfedge = _
    unfold switchWrites
    simp only [f1, f2, v1, v2, vh, bl]
  · funext g
    rw [drop_fh]
    unfold switchWrites
    simp only [f1, f2, upd_apply, drop_fh]
    by_cases c : g = f
    · subst c; simp [fA.symm, fB.symm]
    · simp [c]

theorem drop_prevOrbitVertex {m : Mesh} {e f K i : ℕ} (hw : (m.drop e f K).WeakValid) (hi : (m.drop e f K).heLive i) :
    m.prevOrbitVertex i = (m.drop e f K).prevOrbitVertex i := by
  unfold prevOrbitVertex
  refine walkPrev_congr (fun z => (m.drop e f K).heLive z) (fun z hz => hw.twin_live _ (hw.next_live z hz)) ?_ i m.nHeFill
    _ (hw.twin_live i hi)
  intro z hz
  have := drop_next m e f K z
  rw [if_neg (drop_live hz).2] at this
  rw [this]; exact ⟨rfl, rfl⟩

/-- `ensureEdgeHasInteriorHalfedge` commutes with the removal of a dead edge and face. -/
theorem drop_ensure {m X : Mesh} {e f K e' : ℕ} {r : Bool} (hw : (m.drop e f K).WeakValid)
    (he : (m.drop e f K).heLive (2 * e')) (h : (m.drop e f K).ensureEdgeHasInteriorHalfedge e' = .ok (X, r)) :
    ∃ m', m.ensureEdgeHasInteriorHalfedge e' = .ok (m', r) ∧ m'.drop e f K = X ∧ m'.nInt = m.nInt ∧
      m'.nFFill = m.nFFill ∧ (∀ i, i / 2 = e → m'.heFace i = m.heFace i) := by
  have hA := (drop_live he).2
  have hT : twin (2 * e') / 2 ≠ e := by rw [twin_div]; exact hA
  have lT := hw.twin_live _ he
  have fdead : ∀ i, (m.drop e f K).heLive i → m.heFace i ≠ f := by
    intro i hi c
    have h1 := (hw.face_live i hi).2
    rw [drop_face, if_neg (drop_live hi).2, c, drop_fh, if_pos rfl] at h1
    exact h1 rfl
  have hin : (m.drop e f K).heIsInterior (2 * e') ↔ m.heIsInterior (2 * e') := by
    unfold heIsInterior faceIsBL
    rw [drop_face, if_neg hA]; rfl
  unfold ensureEdgeHasInteriorHalfedge at h ⊢
  show ∃ m', (if ¬ m.heIsInterior (2 * e') then _ else _) = _ ∧ _
  change (if ¬ (m.drop e f K).heIsInterior (2 * e') then _ else _) = _ at h
  by_cases c : m.heIsInterior (2 * e')
  · rw [if_neg (not_not.2 (hin.2 c))] at h
    rw [if_neg (not_not.2 c)]
    simp only [Except.ok.injEq, Prod.mk.injEq] at h
    exact ⟨m, by rw [h.2], h.1, rfl, rfl, fun _ _ => rfl⟩
  · rw [if_pos (fun h => c (hin.1 h))] at h
    rw [if_pos c]
    have hc := hw.closeUp_valid
    obtain ⟨P, hP, lP, nP⟩ := hc.prevOrbitVertex_ok (i := 2 * e') he
    obtain ⟨Q, hQ, lQ, nQ⟩ := hc.prevOrbitVertex_ok (i := twin (2 * e')) lT
    change (m.drop e f K).prevOrbitVertex _ = _ at hP hQ
    change (m.drop e f K).heLive _ at lP lQ
    have s1 : (m.drop e f K).switchHalfedgeSides e' = .ok ((m.drop e f K).switchWrites (2 * e') P Q, 2 * e') := by
      unfold switchHalfedgeSides
      rw [show eHalfedge e' = 2 * e' from rfl, hP, hQ]
    have s2 : m.switchHalfedgeSides e' = .ok (m.switchWrites (2 * e') P Q, 2 * e') := by
      unfold switchHalfedgeSides
      rw [show eHalfedge e' = 2 * e' from rfl, drop_prevOrbitVertex hw he, drop_prevOrbitVertex hw lT, hP, hQ]
    rw [s1] at h
    rw [s2]
    simp only [Except.ok.injEq, Prod.mk.injEq] at h ⊢
    refine ⟨_, ⟨rfl, h.2⟩, ?_, rfl, rfl, ?_⟩
    · rw [← h.1]
      exact drop_switchWrites m hA (drop_live lP).2 (drop_live lQ).2 (fdead _ he) (fdead _ lT)
    · intro i hi
      show upd (upd m.heFace _ _) _ _ i = _
      rw [upd_ne _ _ (by rintro rfl; exact hT hi), upd_ne _ _ (by rintro rfl; exact hA hi)]

/-- `m'` is `m` with halfedges renamed by `ρ`. -/
structure Ren (m m' : Mesh) (ρ : ℕ → ℕ) : Prop where
  live : ∀ i, m'.heLive i ↔ m.heLive i
  next : ∀ i, m.heLive i → m'.heNext (ρ i) = ρ (m.heNext i)
  face : ∀ i, m.heLive i → m'.heFace (ρ i) = m.heFace i
  vert : ∀ i, m.heLive i → m'.heVertex (ρ i) = m.heVertex i
  vlive : ∀ v, m'.vLive v ↔ m.vLive v
  flive : ∀ f, m'.fLive f ↔ m.fLive f
  counts : m'.nHe = m.nHe ∧ m'.nHeFill = m.nHeFill ∧ m'.nHeCap = m.nHeCap ∧ m'.nInt = m.nInt ∧ m'.nV = m.nV ∧
    m'.nVFill = m.nVFill ∧ m'.nVCap = m.nVCap ∧ m'.nE = m.nE ∧ m'.nEFill = m.nEFill ∧ m'.nECap = m.nECap ∧
    m'.nF = m.nF ∧ m'.nFFill = m.nFFill ∧ m'.nFCap = m.nFCap ∧ m'.nBL = m.nBL ∧ m'.nBLFill = m.nBLFill

open Classical in
/-- The renaming that exchanges the halfedges of every edge whose first halfedge satisfies `s`. -/
noncomputable def exch (s : ℕ → Prop) (i : ℕ) : ℕ := if s (2 * (i / 2)) then twin i else i

theorem two_div (i : ℕ) : 2 * (i / 2) = i ∨ 2 * (i / 2) = twin i := by
  rw [twin_eq]; split_ifs <;> omega

/-- `ensureEdgeHasInteriorHalfedge` at the edge of an exterior halfedge `h`. -/
theorem ensure_step {m : Mesh} (hw : m.WeakValid) {h : ℕ} (lh : m.heLive h) (xh : m.ext h) (it : ¬ m.ext (twin h)) :
    ∃ m' r, m.ensureEdgeHasInteriorHalfedge (heEdge h) = .ok (m', r) ∧ m'.WeakValid ∧ Ren m m' (exch (fun i => i = h)) := by
  have lt := hw.twin_live h lh
  have nt : m.heNext (twin h) ≠ h := by
    intro c; have := hw.ext_next lt; rw [c] at this; exact it (this.1 xh)
  have nh : m.heNext h ≠ twin h := by
    intro c; have := hw.ext_next lh; rw [c] at this; exact it (this.2 xh)
  by_cases c : 2 * (h / 2) = h
  · have hc : eHalfedge (heEdge h) = h := c
    obtain ⟨m', hr, S⟩ := switch_spec hw (e := heEdge h) (by rw [hc]; exact lh) (by rw [hc]; exact nh)
      (by rw [hc]; exact nt)
    rw [hc] at S hr
    have R := S.renamed hw lh
    refine ⟨m', true, ?_, (R.weak hw lh).1, ?_⟩
    · unfold ensureEdgeHasInteriorHalfedge
      rw [hc, if_pos (show ¬ m.heIsInterior h from fun c => c xh), hr]
    · have es : ∀ i, exch (fun i => i = h) i = swp h (twin h) i := by
        intro i
        unfold exch swp
        by_cases c1 : i = h
        · subst c1; rw [if_pos c, if_pos rfl]
        · by_cases c2 : i = twin h
          · subst c2; rw [if_pos (by rw [twin_div]; exact c), twin_twin, if_neg c1, if_pos rfl]
          · rw [if_neg c1, if_neg c2, if_neg]
            intro c3
            rcases two_div i with d | d
            · exact c1 (d.symm.trans c3)
            · exact c2 (by rw [← c3, d, twin_twin])
      have sl : ∀ i, m.heLive i → m.heLive (swp h (twin h) i) := by
        intro i hi; unfold swp; split_ifs
        · exact lt
        · exact lh
        · exact hi
      refine ⟨R.live, ?_, ?_, ?_, R.vlive, R.flive, R.counts⟩
      · intro i hi; rw [es, es, R.next _ (sl i hi), swp_swp]
      · intro i hi; rw [es, R.face _ (sl i hi), swp_swp]
      · intro i hi; rw [es, R.vert _ (sl i hi), swp_swp]
  · have hc : 2 * (h / 2) = twin h := (two_div h).resolve_left c
    refine ⟨m, false, ?_, hw, ?_⟩
    · unfold ensureEdgeHasInteriorHalfedge
      rw [show eHalfedge (heEdge h) = twin h from hc, if_neg (show ¬ ¬ m.heIsInterior (twin h) from not_not.2 it)]
    · have es : ∀ i, exch (fun i => i = h) i = i := by
        intro i; unfold exch
        rw [if_neg]
        intro c3
        have : h % 2 = 0 := by omega
        exact c (by omega)
      refine ⟨fun _ => Iff.rfl, ?_, ?_, ?_, fun _ => Iff.rfl, fun _ => Iff.rfl,
        ⟨rfl, rfl, rfl, rfl, rfl, rfl, rfl, rfl, rfl, rfl, rfl, rfl, rfl, rfl, rfl⟩⟩
      · intro i _; rw [es, es]
      · intro i _; rw [es]
      · intro i _; rw [es]

open Classical in
/-- The loop over the edges of the removed face. -/
theorem ensureEdges_ok {e f K stop : ℕ} (k : ℕ) : ∀ (m : Mesh) (p : ℕ → ℕ) (n : ℕ), k < n → (m.drop e f K).WeakValid →
    (∀ j ≤ k, (m.drop e f K).heLive (p j) ∧ (m.drop e f K).ext (p j) ∧ ¬ (m.drop e f K).ext (twin (p j))) →
    (∀ j < k, (m.drop e f K).heNext (p j) = p (j + 1)) → (m.drop e f K).heNext (p k) = stop →
    (∀ i ≤ k, ∀ j ≤ k, p i = p j → i = j) → (∀ j ≤ k, p j ≠ stop) →
    ∃ m', ensureEdgesLoop stop n m (p 0) = .ok m' ∧ (m'.drop e f K).WeakValid ∧
      Ren (m.drop e f K) (m'.drop e f K) (exch (fun i => ∃ j ≤ k, i = p j)) ∧ m'.nInt = m.nInt ∧ m'.nFFill = m.nFFill ∧
      (∀ i, i / 2 = e → m'.heFace i = m.heFace i) := by
  induction k with
  | zero =>
    intro m p n hn hw hp _ hstop _ _
    obtain ⟨n, rfl⟩ : ∃ n', n = n' + 1 := ⟨n - 1, by omega⟩
    obtain ⟨l0, x0, t0⟩ := hp 0 (le_refl 0)
    obtain ⟨X, r, hX, wX, RX⟩ := ensure_step hw l0 x0 t0
    have le2 : (m.drop e f K).heLive (2 * (p 0 / 2)) := by
      rcases two_div (p 0) with d | d <;> rw [d]
      · exact l0
      · exact hw.twin_live _ l0
    obtain ⟨m', h1, h2, h3, h4, h5⟩ := drop_ensure hw le2 hX
    refine ⟨m', ?_, h2 ▸ wX, ?_, h3, h4, h5⟩
    · unfold ensureEdgesLoop
      rw [show heEdge (p 0) = p 0 / 2 from rfl, h1]
      have := drop_next m e f K (p 0)
      rw [if_neg (drop_live l0).2] at this
      simp only
      rw [if_pos (by rw [← this]; exact hstop)]
    · rw [h2]
      have es : ∀ i, exch (fun i => ∃ j ≤ 0, i = p j) i = exch (fun i => i = p 0) i := by
        intro i; unfold exch; simp
      refine ⟨RX.live, fun i hi => ?_, fun i hi => ?_, fun i hi => ?_, RX.vlive, RX.flive, RX.counts⟩
      · rw [es, es]; exact RX.next i hi
      · rw [es]; exact RX.face i hi
      · rw [es]; exact RX.vert i hi
  | succ k ih =>
    intro m p n hn hw hp hnx hstop hinj hns
    obtain ⟨n, rfl⟩ : ∃ n', n = n' + 1 := ⟨n - 1, by omega⟩
    obtain ⟨l0, x0, t0⟩ := hp 0 (by omega)
    obtain ⟨X, r, hX, wX, RX⟩ := ensure_step hw l0 x0 t0
    have le2 : (m.drop e f K).heLive (2 * (p 0 / 2)) := by
      rcases two_div (p 0) with d | d <;> rw [d]
      · exact l0
      · exact hw.twin_live _ l0
    obtain ⟨m1, h1, h2, h3, h4, h5⟩ := drop_ensure hw le2 hX
    have ext1 : ∀ i, (m.drop e f K).heLive i → (X.ext (exch (fun i => i = p 0) i) ↔ (m.drop e f K).ext i) := by
      intro i hi
      unfold ext; rw [RX.face i hi, RX.counts.2.2.2.2.2.2.2.2.2.2.2.1]
    have fix : ∀ i, i ≠ p 0 → twin i ≠ p 0 → exch (fun i => i = p 0) i = i := by
      intro i a b
      unfold exch
      rw [if_neg]
      rcases two_div i with d | d <;> rw [d]
      · exact a
      · exact b
    have tne : ∀ j ≤ k + 1, twin (p j) ≠ p 0 := fun j hj c => (hp j hj).2.2 (c ▸ x0)
    have pne : ∀ j ≤ k, p (j + 1) ≠ p 0 := fun j hj c => by have := hinj (j + 1) (by omega) 0 (by omega) c; omega
    have pfix : ∀ j ≤ k, exch (fun i => i = p 0) (p (j + 1)) = p (j + 1) :=
      fun j hj => fix _ (pne j hj) (tne (j + 1) (by omega))
    have tfix : ∀ j ≤ k, exch (fun i => i = p 0) (twin (p (j + 1))) = twin (p (j + 1)) :=
      fun j hj => fix _ (tne (j + 1) (by omega)) (by rw [twin_twin]; exact pne j hj)
    have xs : (m.drop e f K).ext stop := by
      rw [← hstop]; exact (hw.ext_next (hp _ (le_refl _)).1).2 (hp _ (le_refl _)).2.1
    have sfix : exch (fun i => i = p 0) stop = stop :=
      fix _ (hns 0 (by omega)).symm (fun c => t0 (by rw [← c, twin_twin]; exact xs))
    obtain ⟨m', g1, g2, g3, g4, g5, g6⟩ := ih m1 (fun j => p (j + 1)) n (by omega) (h2 ▸ wX)
      (by
        intro j hj
        obtain ⟨a, b, c⟩ := hp (j + 1) (by omega)
        rw [h2]
        refine ⟨(RX.live _).2 a, ?_, ?_⟩
        · rw [← pfix j hj, ext1 _ a]; exact b
        · rw [← tfix j hj, ext1 _ (hw.twin_live _ a)]; exact c)
      (by
        intro j hj
        rw [h2]
        have := RX.next _ (hp (j + 1) (by omega)).1
        rw [pfix j (by omega), hnx (j + 1) (by omega), pfix (j + 1) (by omega)] at this
        exact this)
      (by
        rw [h2]
        have := RX.next _ (hp (k + 1) (by omega)).1
        rw [pfix k (by omega), hstop, sfix] at this
        exact this)
      (fun i hi j hj c => by have := hinj (i + 1) (by omega) (j + 1) (by omega) c; omega)
      (fun j hj => hns (j + 1) (by omega))
    refine ⟨m', ?_, g2, ?_, g4.trans h3, g5.trans h4, fun i hi => (g6 i hi).trans (h5 i hi)⟩
    · unfold ensureEdgesLoop
      rw [show heEdge (p 0) = p 0 / 2 from rfl, h1]
      have := drop_next m e f K (p 0)
      rw [if_neg (drop_live l0).2] at this
      simp only
      rw [← this, hnx 0 (by omega), if_neg (hns 1 (by omega))]
      exact g1
    · rw [h2] at g3
      have es : ∀ i, exch (fun i => ∃ j ≤ k + 1, i = p j) i = exch (fun i => ∃ j ≤ k, i = p (j + 1)) (exch (fun i => i = p 0) i) := by
        intro i
        unfold exch
        by_cases c : 2 * (i / 2) = p 0
        · rw [if_pos ⟨0, by omega, c⟩, if_pos c, if_neg]
          rintro ⟨j, hj, d⟩
          rw [twin_div, c] at d
          exact pne j hj d.symm
        · rw [if_neg c]
          have : (∃ j ≤ k + 1, 2 * (i / 2) = p j) ↔ ∃ j ≤ k, 2 * (i / 2) = p (j + 1) := by
            constructor
            · rintro ⟨j, hj, d⟩
              rcases j with _ | j
              · exact absurd d c
              · exact ⟨j, by omega, d⟩
            · rintro ⟨j, hj, d⟩; exact ⟨j + 1, by omega, d⟩
          by_cases d : ∃ j ≤ k, 2 * (i / 2) = p (j + 1)
          · rw [if_pos (this.2 d), if_pos d]
          · rw [if_neg (fun h => d (this.1 h)), if_neg d]
      have el : ∀ i, (m.drop e f K).heLive i → X.heLive (exch (fun i => i = p 0) i) := by
        intro i hi
        rw [RX.live]
        unfold exch; split_ifs
        · exact hw.twin_live _ hi
        · exact hi
      refine ⟨fun i => (g3.live i).trans (RX.live i), fun i hi => ?_, fun i hi => ?_, fun i hi => ?_,
        fun v => (g3.vlive v).trans (RX.vlive v), fun v => (g3.flive v).trans (RX.flive v), ?_⟩
      · rw [es, es, g3.next _ (el i hi), RX.next i hi]
      · rw [es, g3.face _ (el i hi), RX.face i hi]
      · rw [es, g3.vert _ (el i hi), RX.vert i hi]
      · have a := g3.counts
        have b := RX.counts
        simp only [b] at a
        exact a

/-- The loop of `ensureVertexHasBoundaryHalfedge`. -/
theorem ensureVertexLoop_ok (v : ℕ) (n : ℕ) : ∀ (m : Mesh) (k : ℕ), k < n →
    ¬ m.heIsInterior (twin (m.vNext^[k] (m.vHalfedge v))) →
    (∀ j < k, m.heIsInterior (twin (m.vNext^[j] (m.vHalfedge v)))) →
    ensureVertexLoop v n m = .ok { m with vHalfedge := upd m.vHalfedge v (m.vNext^[k] (m.vHalfedge v)) } := by
  induction n with
  | zero => intro m k hk; omega
  | succ n ih =>
    intro m k hk hit hmin
    unfold ensureVertexLoop
    cases k with
    | zero =>
      rw [if_pos (show ¬ m.heIsInterior (twin (m.vHalfedge v)) from hit)]
      have : upd m.vHalfedge v (m.vNext^[0] (m.vHalfedge v)) = m.vHalfedge := by
        funext i; rw [upd_apply]; split_ifs with c
        · rw [c]; rfl
        · rfl
      rw [this]
    | succ k =>
      rw [if_neg (not_not.2 (show m.heIsInterior (twin (m.vHalfedge v)) from hmin 0 (by omega)))]
      have e0 : upd m.vHalfedge v (m.heNext (twin (m.vHalfedge v))) v = m.vNext (m.vHalfedge v) := by rw [upd_same]; rfl
      have := ih { m with vHalfedge := upd m.vHalfedge v (m.heNext (twin (m.vHalfedge v))) } k (by omega)
        (by
          show ¬ m.heIsInterior (twin (m.vNext^[k] (upd m.vHalfedge v (m.heNext (twin (m.vHalfedge v))) v)))
          rw [e0, ← Function.iterate_succ_apply]; exact hit)
        (by
          intro j hj
          show m.heIsInterior (twin (m.vNext^[j] (upd m.vHalfedge v (m.heNext (twin (m.vHalfedge v))) v)))
          rw [e0, ← Function.iterate_succ_apply]; exact hmin (j + 1) (by omega))
      rw [this]
      have e1 : upd (upd m.vHalfedge v (m.heNext (twin (m.vHalfedge v)))) v
          (m.vNext^[k] (upd m.vHalfedge v (m.heNext (twin (m.vHalfedge v))) v)) =
          upd m.vHalfedge v (m.vNext^[k + 1] (m.vHalfedge v)) := by
        rw [e0, ← Function.iterate_succ_apply]
        funext i; simp only [upd_apply]; split_ifs <;> rfl
      rw [← e1]; rfl

/-- Pointwise effect of the writes of `removeFaceAlongBoundary` before the switches, and of the deletions: `b` is the
boundary halfedge of the face, `P` and `Q` precede `b` and its twin, `R` precedes `P`. -/
structure RFSpec (m m' : Mesh) (b P Q R : ℕ) : Prop where
  lb : m.heLive b
  ib : ¬ m.ext b
  xT : m.ext (twin b)
  lP : m.heLive P
  nP : m.heNext P = b
  lQ : m.heLive Q
  nQ : m.heNext Q = twin b
  lR : m.heLive R
  nR : m.heNext R = P
  next_d : ∀ i, i / 2 = b / 2 → m'.heNext i = INV
  next_o : ∀ i, i / 2 ≠ b / 2 → m'.heNext i =
    if i = Q then m.heNext b else if i = P then m.heNext (twin b) else m.heNext i
  v_o : ∀ i, i / 2 ≠ b / 2 → m'.heVertex i = m.heVertex i
  f_o : ∀ i, m.heLive i → i / 2 ≠ b / 2 → m'.heFace i = if m.heFace i = m.heFace b then m.heFace (twin b) else m.heFace i
  fh : ∀ g, m'.fHalfedge g = if g = m.heFace b then INV else if g = m.heFace (twin b) then m.heNext (twin b) else m.fHalfedge g
  vh_P : m'.vHalfedge (m.heVertex P) = twin R
  vh_b : m'.vHalfedge (m.heVertex b) = twin P
  vh_o : ∀ v, v ≠ m.heVertex P → v ≠ m.heVertex b → m'.vHalfedge v = m.vHalfedge v
  c_heFill : m'.nHeFill = m.nHeFill
  c_heCap : m'.nHeCap = m.nHeCap
  c_eFill : m'.nEFill = m.nEFill
  c_eCap : m'.nECap = m.nECap
  c_vFill : m'.nVFill = m.nVFill
  c_vCap : m'.nVCap = m.nVCap
  c_fFill : m'.nFFill = m.nFFill
  c_fCap : m'.nFCap = m.nFCap
  c_blFill : m'.nBLFill = m.nBLFill
  c_he : m'.nHe = m.nHe - 2
  c_int : m'.nInt = Nat.count (fun i => m'.heNext i ≠ INV ∧ m'.heFace i < m'.nFFill) m'.nHeFill
  c_e : m'.nE = m.nE - 1
  c_v : m'.nV = m.nV
  c_f : m'.nF = m.nF - 1
  c_bl : m'.nBL = m.nBL

/-- The corners of the face away from its boundary edge `b`: their vertices are interior, occur once in the face, and
all but the last have the stored halfedge that will start along the new boundary. -/
def Corners (m : Mesh) (b : ℕ) : Prop :=
  ∀ i, m.heLive i → m.heFace i = m.heFace b → i ≠ b → i ≠ m.heNext b →
    (∀ j, m.heLive j → m.heVertex j = m.heVertex i → ¬ m.ext j) ∧
    (∀ j, m.heLive j → m.heFace j = m.heFace b → m.heVertex j = m.heVertex i → j = i) ∧
    (m.heNext i ≠ b → m.heNext (twin (m.vHalfedge (m.heVertex i))) = i)

open Classical in
/-- The mesh with all faces and boundary loops regarded as interior, after the removal of the edge `b`. -/
noncomputable def rfAux (m m' : Mesh) (b : ℕ) : Mesh :=
  { m.closeUp with
    heNext := m'.heNext, heVertex := m'.heVertex, heFace := m'.heFace
    vHalfedge := fun v => if m.vLive v ∧ m.vHalfedge v = twin b then m.heNext b
      else if m.vLive v ∧ m.vHalfedge v = b then m.heNext (twin b) else m.vHalfedge v
    fHalfedge := fun g => if g = m.heFace b then INV else if g = m.heFace (twin b) then m.heNext (twin b)
      else m.closeUp.fHalfedge g
    nHe := m.nHe - 2, nE := m.nE - 1, nInt := m.closeUp.nInt - 2, nF := m.closeUp.nF - 1 }

section
variable {m m' : Mesh} {b P Q R : ℕ}

theorem half_iff (i b : ℕ) : i / 2 = b / 2 ↔ i = b ∨ i = twin b := by
  constructor
  · intro h; rw [twin_eq]; split_ifs <;> omega
  · rintro (rfl | rfl)
    · rfl
    · rw [twin_div]

theorem RFSpec.fne (S : RFSpec m m' b P Q R) : m.heFace (twin b) ≠ m.heFace b := by
  have h1 := S.ib; have h2 := S.xT; unfold ext at h1 h2; omega

theorem RFSpec.aux (hv : m.Valid) (S : RFSpec m m' b P Q R) : RemSpec m.closeUp (rfAux m m' b) (twin b) b := by
  have lT := hv.twin_live _ S.lb
  have hcap : ∀ i, m.heLive i → ¬ m.closeUp.ext i := by
    intro i hi
    have := fLive_lt_cap hv.f_cap.1 (hv.face_live i hi)
    unfold ext closeUp; simpa using this
  constructor
  case lA => exact lT
  case hB => rw [twin_twin]
  case fne => exact S.fne
  case iA => exact hcap _ lT
  case iB => exact hcap _ S.lb
  case next_A => exact S.next_d _ (twin_div b)
  case next_B => exact S.next_d _ rfl
  case next_o =>
    intro i hi h1 h2
    change m.heLive i at hi
    have hne : i / 2 ≠ b / 2 := fun h => by rcases (half_iff i b).1 h with h | h; exacts [h2 h, h1 h]
    show m'.heNext i = if m.heNext i = twin b then m.heNext b else if m.heNext i = b then m.heNext (twin b) else m.heNext i
    rw [S.next_o i hne]
    have e1 : i = Q ↔ m.heNext i = twin b := ⟨fun h => h ▸ S.nQ, fun h => hv.next_inj hi S.lQ (h.trans S.nQ.symm)⟩
    have e2 : i = P ↔ m.heNext i = b := ⟨fun h => h ▸ S.nP, fun h => hv.next_inj hi S.lP (h.trans S.nP.symm)⟩
    simp only [e1, e2]
  case next_dead =>
    intro i hi
    change ¬ m.heLive i at hi
    show m'.heNext i = m.heNext i
    have hne : i / 2 ≠ b / 2 := fun h => by
      rcases (half_iff i b).1 h with h | h
      · exact hi (h ▸ S.lb)
      · exact hi (h ▸ lT)
    rw [S.next_o i hne, if_neg (show i ≠ Q from fun h => hi (h ▸ S.lQ)), if_neg (show i ≠ P from fun h => hi (h ▸ S.lP))]
  case v_o =>
    intro i _ h1 h2
    exact S.v_o i (fun h => by rcases (half_iff i b).1 h with h | h; exacts [h2 h, h1 h])
  case f_o =>
    intro i hi h1 h2
    exact S.f_o i hi (fun h => by rcases (half_iff i b).1 h with h | h; exacts [h2 h, h1 h])
  case vh_o =>
    intro v h
    show (if m.vLive v ∧ m.vHalfedge v = twin b then _ else if m.vLive v ∧ m.vHalfedge v = b then _ else m.vHalfedge v) = m.vHalfedge v
    rw [if_neg, if_neg]
    · exact fun c => h ⟨c.1, Or.inr c.2⟩
    · exact fun c => h ⟨c.1, Or.inl c.2⟩
  case vh_e =>
    intro v hvl h
    change m.vLive v at hvl
    change m.vHalfedge v = _ ∨ m.vHalfedge v = _ at h
    show ((if m.vLive v ∧ m.vHalfedge v = twin b then m.heNext b else if m.vLive v ∧ m.vHalfedge v = b then m.heNext (twin b)
        else m.vHalfedge v) = m.heNext (twin b) ∨ (if m.vLive v ∧ m.vHalfedge v = twin b then m.heNext b else
        if m.vLive v ∧ m.vHalfedge v = b then m.heNext (twin b) else m.vHalfedge v) = m.heNext b) ∧
      m.heVertex (if m.vLive v ∧ m.vHalfedge v = twin b then m.heNext b else if m.vLive v ∧ m.vHalfedge v = b then m.heNext (twin b)
        else m.vHalfedge v) = v
    have hv2 := (hv.v_he v hvl).2
    by_cases c : m.vHalfedge v = twin b
    · rw [if_pos ⟨hvl, c⟩]
      refine ⟨Or.inr rfl, ?_⟩
      rw [hv.vertex_next S.lb, ← c]; exact hv2
    · rw [if_neg (fun h => c h.2)]
      have d := h.resolve_left c
      rw [if_pos ⟨hvl, d⟩]
      refine ⟨Or.inl rfl, ?_⟩
      rw [hv.vertex_next lT, twin_twin, ← d]; exact hv2
  case fh => intro g; rfl
  case c_heFill => rfl
  case c_heCap => rfl
  case c_eFill => rfl
  case c_eCap => rfl
  case c_vFill => rfl
  case c_vCap => rfl
  case c_fFill => rfl
  case c_fCap => rfl
  case c_blFill => rfl
  case c_he => rfl
  case c_int => rfl
  case c_e => rfl
  case c_v => rfl
  case c_f => rfl
  case c_bl => rfl

/-- The mesh after the deletions and before the switches. -/
theorem rf_weak (hv : m.Valid) (S : RFSpec m m' b P Q R) (hC : m.Corners b)
    (one : ∀ i, m.heLive i → m.heFace i = m.heFace b → m.ext (twin i) → i = b) (hP : P ≠ m.heNext b) :
    m'.WeakValid ∧ (∀ i, m'.heLive i ↔ m.heLive i ∧ i ≠ b ∧ i ≠ twin b) ∧
    (∀ i, m'.heLive i → (m'.ext i ↔ m.ext i ∨ m.heFace i = m.heFace b)) ∧
    (∀ i, m'.heLive i → m.heFace i = m.heFace b → m.heFace (twin i) ≠ m.heFace b ∧ ¬ m'.ext (twin i)) ∧
    (∀ v, m'.vLive v ↔ m.vLive v) ∧ (∀ g, m'.fLive g ↔ m.fLive g ∧ g ≠ m.heFace b) ∧ 2 ≤ m.nHe ∧ 1 ≤ m.nE ∧ 1 ≤ m.nF := by
  have lb := S.lb
  have lT := hv.twin_live _ lb
  have hT : m.ext (twin b) := S.xT
  have A := S.aux hv
  obtain ⟨VA, -, c2, c1, -⟩ := rem_valid hv.weak.closeUp_valid A
  change 2 ≤ m.nHe at c2
  change 1 ≤ m.nE at c1
  have hlive : ∀ i, m'.heLive i ↔ m.heLive i ∧ i ≠ b ∧ i ≠ twin b := by
    intro i
    have := A.live hv.weak.closeUp_valid i
    change (i < m.nHeFill ∧ m'.heNext i ≠ INV) ↔ (m.heLive i ∧ i ≠ twin b ∧ i ≠ b) at this
    unfold heLive at this ⊢
    rw [S.c_heFill, this]; tauto
  have liveA : ∀ i, (rfAux m m' b).heLive i ↔ m'.heLive i := by
    intro i; show (i < m.nHeFill ∧ m'.heNext i ≠ INV) ↔ _
    unfold heLive; rw [S.c_heFill]
  have hne : ∀ {i}, i ≠ b → i ≠ twin b → i / 2 ≠ b / 2 := by
    intro i h1 h2 h; rcases (half_iff i b).1 h with h | h
    · exact h1 h
    · exact h2 h
  have fT := S.fne
  have lnT := hv.next_live _ lT
  have xnT : m.ext (m.heNext (twin b)) := (hv.ext_next lT).2 hT
  have vnT : m.heVertex (m.heNext (twin b)) = m.heVertex b := by rw [hv.vertex_next lT, twin_twin]
  have lnb := hv.next_live _ lb
  have vnb : m.heVertex (m.heNext b) = m.heVertex (twin b) := hv.vertex_next lb
  have fnb : m.heFace (m.heNext b) = m.heFace b := hv.face_next lb
  have nT_T : m.heNext (twin b) ≠ twin b := hv.deg_two _ lT
  have nT_b : m.heNext (twin b) ≠ b := fun h => S.ib (h ▸ xnT)
  have fP : m.heFace P = m.heFace b := by rw [← S.nP]; exact (hv.face_next S.lP).symm
  have fR : m.heFace R = m.heFace b := by rw [← fP, ← S.nR]; exact (hv.face_next S.lR).symm
  have Pb : P ≠ b := fun h => hv.deg_two P S.lP (by rw [S.nP, h])
  have Rb : R ≠ b := fun h => hP (by rw [← S.nR, h])
  have fint : ∀ {i}, m.heFace i = m.heFace b → ¬ m.ext i := by
    intro i h; have := S.ib; unfold ext at *; rw [h]; exact this
  have neT : ∀ {i}, m.heFace i = m.heFace b → i ≠ twin b := fun h c => fT (c ▸ h)
  -- the vertices of the face
  have v01 : m.heVertex b ≠ m.heVertex (twin b) := by
    intro h
    exact nT_T (hv.bdy_unique _ _ lnT lT xnT hT (by rw [vnT, h]))
  obtain ⟨P1, P2, -⟩ := hC P S.lP fP Pb hP
  have wb : m.heVertex P ≠ m.heVertex b := fun h => P1 _ lnT (vnT.trans h.symm) xnT
  have wT : m.heVertex P ≠ m.heVertex (twin b) := fun h => P1 _ lT h.symm hT
  have dist : ∀ i j, m.heLive i → m.heLive j → m.heFace i = m.heFace b → m.heFace j = m.heFace b →
      m.heVertex i = m.heVertex j → i = j := by
    intro i j hi hj fi fj h
    by_cases a1 : i = b
    · by_cases a2 : j = b
      · rw [a1, a2]
      · by_cases a3 : j = m.heNext b
        · rw [a1, a3, vnb] at h; exact absurd h v01
        · exact absurd xnT ((hC j hj fj a2 a3).1 _ lnT (by rw [vnT, ← h, a1]))
    · by_cases a2 : i = m.heNext b
      · by_cases a3 : j = b
        · rw [a2, a3, vnb] at h; exact absurd h.symm v01
        · by_cases a4 : j = m.heNext b
          · rw [a2, a4]
          · exact absurd hT ((hC j hj fj a3 a4).1 _ lT (by rw [← h, a2, vnb]))
      · exact ((hC i hi fi a1 a2).2.1 j hj fj h.symm).symm
  have twinf : ∀ i, m.heLive i → m.heFace i = m.heFace b → i ≠ b → m.heFace (twin i) ≠ m.heFace b := by
    intro i hi fi ib ft
    have lt := hv.twin_live i hi
    have tb : twin i ≠ b := fun h => neT fi (by rw [← h, twin_twin])
    have e1 : m.heNext i = twin i := dist _ _ (hv.next_live i hi) lt ((hv.face_next hi).trans fi) ft (hv.vertex_next hi)
    have e2 : m.heNext (twin i) = i := dist _ _ (hv.next_live _ lt) hi ((hv.face_next lt).trans ft) fi
      (by rw [hv.vertex_next lt, twin_twin])
    have o := (hv.face_iff i b hi lb).1 fi
    have := o.mem (fun z => z = i ∨ z = twin i) (Or.inl rfl) (by
      rintro z (h | h) <;> rw [h]
      · exact Or.inr e1
      · exact Or.inl e2)
    rcases this with h | h
    · exact ib h.symm
    · exact tb h.symm
  have ext' : ∀ i, m'.heLive i → (m'.ext i ↔ m.ext i ∨ m.heFace i = m.heFace b) := by
    intro i hi
    obtain ⟨h, h1, h2⟩ := (hlive i).1 hi
    unfold ext
    rw [S.f_o i h (hne h1 h2), S.c_fFill]
    by_cases c : m.heFace i = m.heFace b
    · rw [if_pos c]; unfold ext at hT; simp [c, hT]
    · rw [if_neg c]; simp [c]
  have htl : ∀ i, m'.heLive i → m'.heLive (twin i) := fun i hi => (liveA _).1 (VA.twin_live i ((liveA _).2 hi))
  have extt : ∀ i, m'.heLive i → m.heFace i = m.heFace b → m.heFace (twin i) ≠ m.heFace b ∧ ¬ m'.ext (twin i) := by
    intro i hi fi
    obtain ⟨h, h1, h2⟩ := (hlive i).1 hi
    have a := twinf i h fi h1
    refine ⟨a, ?_⟩
    rw [ext' _ (htl i hi)]
    rintro (c | c)
    · exact h1 (one i h fi c)
    · exact a c
  have vlive : ∀ v, m'.vLive v ↔ m.vLive v := by
    intro v
    unfold vLive; rw [S.c_vFill]
    by_cases c : v = m.heVertex P
    · have := hv.vertex_live P S.lP
      rw [c, S.vh_P]
      exact iff_of_true ⟨this.1, (hv.live_lt_INV (hv.twin_live _ S.lR)).ne⟩ this
    · by_cases d : v = m.heVertex b
      · have := hv.vertex_live b lb
        rw [d, S.vh_b]
        exact iff_of_true ⟨this.1, (hv.live_lt_INV (hv.twin_live _ S.lP)).ne⟩ this
      · rw [S.vh_o v c d]
  have fBlt := Valid.face_lt S.ib
  have flive : ∀ g, m'.fLive g ↔ m.fLive g ∧ g ≠ m.heFace b := by
    intro g
    unfold fLive
    rw [S.c_fFill, S.c_fCap, S.c_blFill, S.fh]
    by_cases c1 : g = m.heFace b
    · simp [c1]
    rw [if_neg c1]
    by_cases c2 : g = m.heFace (twin b)
    · rw [if_pos c2]
      have := hv.face_live _ lT
      rw [← c2] at this
      exact iff_of_true ⟨this.1, (hv.live_lt_INV lnT).ne⟩ ⟨this, c1⟩
    · rw [if_neg c2]; simp [c1]
  have vT : m.vHalfedge (m.heVertex (twin b)) ≠ twin b := by
    intro h
    have := hv.bdy_first _ lT hT
    rw [h, twin_twin] at this; exact S.ib this
  have cF : Nat.count (fun f => m.fHalfedge f ≠ INV) m.nFFill =
      Nat.count (fun f => m'.fHalfedge f ≠ INV) m.nFFill + 1 := by
    refine count_add_one (a := m.heFace b) fBlt ?_ ?_ ?_
    · simp [S.fh]
    · exact (hv.face_live _ lb).2
    · intro g hg hne
      have := flive g
      unfold fLive at this; rw [S.c_fFill] at this
      simp only [hg, true_or, true_and, hne, ne_eq, not_false_eq_true, and_true] at this
      exact this
  refine ⟨?_, hlive, ext', extt, vlive, flive, c2, c1, by have := hv.cnt_f; omega⟩
  constructor
  · rw [S.c_heFill, S.c_eFill]; exact hv.he_fill
  · rw [S.c_heFill, S.c_heCap]; exact hv.he_cap
  · rw [S.c_heCap, S.c_eCap]; exact hv.e_cap
  · rw [S.c_vFill, S.c_vCap]; exact hv.v_cap
  · rw [S.c_fFill, S.c_blFill, S.c_fCap]; exact hv.f_cap
  · exact htl
  · exact fun i hi => (liveA _).1 (VA.next_live i ((liveA _).2 hi))
  · intro i hi
    obtain ⟨h, h1, h2⟩ := (hlive i).1 hi
    rw [vlive, S.v_o i (hne h1 h2)]; exact hv.vertex_live i h
  · intro i hi
    obtain ⟨h, h1, h2⟩ := (hlive i).1 hi
    rw [flive, S.f_o i h (hne h1 h2)]
    split_ifs with c
    · exact ⟨hv.face_live _ lT, fT⟩
    · exact ⟨hv.face_live _ h, c⟩
  · exact fun i j hi hj => VA.face_iff i j ((liveA _).2 hi) ((liveA _).2 hj)
  · exact fun i j hi hj => VA.vertex_iff i j ((liveA _).2 hi) ((liveA _).2 hj)
  · intro v hvl
    have hv0 := (vlive v).1 hvl
    have mk : ∀ x, m.heLive x → x ≠ b → x ≠ twin b → m.heVertex x = v → m'.heLive x ∧ m'.heVertex x = v :=
      fun x a c d e => ⟨(hlive x).2 ⟨a, c, d⟩, by rw [S.v_o x (hne c d)]; exact e⟩
    by_cases c : v = m.heVertex P
    · subst c
      rw [S.vh_P]
      refine mk _ (hv.twin_live _ S.lR) ?_ ?_ ?_
      · intro h; exact neT fR (by rw [← h, twin_twin])
      · intro h; exact Rb (twin_inj h)
      · rw [← hv.vertex_next S.lR, S.nR]
    · by_cases d : v = m.heVertex b
      · subst d
        rw [S.vh_b]
        refine mk _ (hv.twin_live _ S.lP) ?_ ?_ ?_
        · intro h; exact neT fP (by rw [← h, twin_twin])
        · intro h; exact Pb (twin_inj h)
        · rw [← hv.vertex_next S.lP, S.nP]
      · rw [S.vh_o v c d]
        obtain ⟨a, e⟩ := hv.v_he v hv0
        refine mk _ a ?_ ?_ e
        · intro h; rw [h] at e; exact d e.symm
        · intro h; have e' := e; rw [h] at e'; rw [← e'] at h; exact vT h
  · intro g hg
    obtain ⟨hg0, g1⟩ := (flive g).1 hg
    rw [S.fh, if_neg g1]
    by_cases c : g = m.heFace (twin b)
    · rw [if_pos c]
      refine ⟨(hlive _).2 ⟨lnT, nT_b, nT_T⟩, ?_⟩
      rw [S.f_o _ lnT (hne nT_b nT_T), hv.face_next lT, if_neg fT, c]
    · rw [if_neg c]
      obtain ⟨a, e⟩ := hv.f_he g hg0
      have h1 : m.fHalfedge g ≠ b := by intro h; rw [h] at e; exact g1 e.symm
      have h2 : m.fHalfedge g ≠ twin b := by intro h; rw [h] at e; exact c e.symm
      refine ⟨(hlive _).2 ⟨a, h1, h2⟩, ?_⟩
      rw [S.f_o _ a (hne h1 h2), e, if_neg g1]
  · exact fun i hi => VA.deg_two i ((liveA _).2 hi)
  · intro i j hi hj ei ej hij
    obtain ⟨h, h1, h2⟩ := (hlive i).1 hi
    obtain ⟨h', h1', h2'⟩ := (hlive j).1 hj
    rw [S.v_o i (hne h1 h2), S.v_o j (hne h1' h2')] at hij
    have mixed : ∀ i j, m.heLive i → m.heLive j → i ≠ b → j ≠ twin b → m.heFace i = m.heFace b → m.ext j →
        m.heVertex i ≠ m.heVertex j := by
      intro i j hi hj ib jT fi xj e
      by_cases c : i = m.heNext b
      · rw [c, vnb] at e
        exact jT (hv.bdy_unique _ _ lT hj hT xj e).symm
      · exact (hC i hi fi ib c).1 j hj e.symm xj
    rcases (ext' i hi).1 ei with a | a <;> rcases (ext' j hj).1 ej with c | c
    · exact hv.bdy_unique i j h h' a c hij
    · exact absurd hij.symm (mixed j i h' h h1' h2 c a)
    · exact absurd hij (mixed i j h h' h1 h2' a c)
    · exact dist i j h h' a c hij
  · intro i hi ei
    obtain ⟨h, h1, h2⟩ := (hlive i).1 hi
    rw [S.v_o i (hne h1 h2)]
    by_cases d : m.heVertex i = m.heVertex b
    · rw [d, S.vh_b, twin_twin, ext' _ ((hlive _).2 ⟨S.lP, Pb, neT fP⟩)]
      exact Or.inr fP
    by_cases e : m.heVertex i = m.heVertex P
    · rw [e, S.vh_P, twin_twin, ext' _ ((hlive _).2 ⟨S.lR, Rb, neT fR⟩)]
      exact Or.inr fR
    rw [S.vh_o _ e d]
    have vl := hv.vertex_live i h
    obtain ⟨a, ea⟩ := hv.v_he _ vl
    have la := hv.twin_live _ a
    -- an old boundary vertex keeps its halfedge
    have old : (∃ j, m.heLive j ∧ m.ext j ∧ m.heVertex j = m.heVertex i) → m'.ext (twin (m.vHalfedge (m.heVertex i))) := by
      rintro ⟨j, lj, xj, ej⟩
      have x := hv.bdy_first j lj xj
      rw [ej] at x
      rw [ext' _ ((hlive _).2 ⟨la, fun c => S.ib (c ▸ x), fun c => ?_⟩)]
      · exact Or.inl x
      · have := twin_inj c
        rw [this] at ea; exact d ea.symm
    rcases (ext' i hi).1 ei with c | c
    · exact old ⟨i, h, c, rfl⟩
    · by_cases c2 : i = m.heNext b
      · exact old ⟨_, lT, hT, by rw [c2, vnb]⟩
      · have iP : m.heNext i ≠ b := by
          intro c3
          exact e (by rw [hv.next_inj h S.lP (c3.trans S.nP.symm)])
        have n3 := (hC i h c h1 c2).2.2 iP
        have f3 : m.heFace (twin (m.vHalfedge (m.heVertex i))) = m.heFace b := by
          rw [← c, ← n3]; rw [hv.face_next la, n3]
        rw [ext' _ ((hlive _).2 ⟨la, fun c3 => c2 (by rw [← n3, c3]), neT f3⟩)]
        exact Or.inr f3
  · rw [S.c_he, S.c_heFill]; exact VA.cnt_he
  · exact S.c_int
  · rw [S.c_e, S.c_eFill]; exact VA.cnt_e
  · rw [S.c_v, S.c_vFill, hv.cnt_v]
    refine count_congr fun v hvv => ?_
    have := vlive v; unfold vLive at this; rw [S.c_vFill] at this
    simp only [hvv, true_and] at this; exact this.symm
  · rw [S.c_f, S.c_fFill, hv.cnt_f, cF]; rfl
  · rw [S.c_bl, S.c_blFill]; exact hv.cnt_bl
  · intro g h1 h2
    rw [S.c_fCap, S.c_blFill] at h1; rw [S.c_fCap] at h2
    have := hv.f_cap.1
    rw [S.fh, if_neg (by omega)]
    split_ifs
    · exact (hv.live_lt_INV lnT).ne
    · exact hv.bl_live g h1 h2

end

theorem filter_single {l : List ℕ} {p : ℕ → Bool} {b : ℕ} (nd : l.Nodup) (hb : b ∈ l) (h : ∀ x ∈ l, (p x = true ↔ x = b)) :
    l.filter p = [b] := by
  have nd' := nd.filter p
  have mem : ∀ x, x ∈ l.filter p ↔ x = b := by
    intro x
    rw [List.mem_filter]
    constructor
    · rintro ⟨a, c⟩; exact (h x a).1 c
    · rintro rfl; exact ⟨hb, (h _ hb).2 rfl⟩
  match hl : l.filter p, nd', mem with
  | [], _, mem => exact absurd ((mem b).2 rfl) (by simp)
  | [x], _, mem => rw [(mem x).1 (by simp)]
  | x :: y :: t, nd', mem =>
    have a := (mem x).1 (by simp)
    have c := (mem y).1 (by simp)
    rw [a, c] at nd'
    simp at nd'

/-- A successful run of `removeFaceAlongBoundary`. -/
theorem removeFace_run {m : Mesh} (hv : m.Valid) {b : ℕ} (lb : m.heLive b) (ib : ¬ m.ext b) (xT : m.ext (twin b))
    (one : ∀ i, m.heLive i → m.heFace i = m.heFace b → m.ext (twin i) → i = b) (hC : m.Corners b)
    (d3 : m.heNext (m.heNext b) ≠ b) :
    ∃ (m1 m' : Mesh) (P Q R : ℕ) (s : ℕ → Prop),
      m.removeFaceAlongBoundary (m.heFace b) = .ok ({ m' with nInt := m.nInt }, true) ∧ RFSpec m m1 b P Q R ∧
      P ≠ m.heNext b ∧ m'.WeakValid ∧ Ren m1 m' (exch s) ∧
      ∀ i, s i ↔ m.heLive i ∧ m.heFace i = m.heFace b ∧ i ≠ b := by
  have lT := hv.twin_live _ lb
  obtain ⟨hs, hhs, nd, mem, -⟩ := hv.faceHalfedges_ok (hv.face_live b lb)
  obtain ⟨P, hP, lP, nP⟩ := hv.prevOrbitFace_ok lb
  obtain ⟨Q, hQ, lQ, nQ⟩ := hv.prevOrbitVertex_ok lT
  obtain ⟨R, -, lR, nR⟩ := hv.prevOrbitFace_ok lP
  have fT : m.heFace (twin b) ≠ m.heFace b := by unfold ext at ib xT; omega
  have fP : m.heFace P = m.heFace b := by rw [← nP]; exact (hv.face_next lP).symm
  have fR : m.heFace R = m.heFace b := by rw [← fP, ← nR]; exact (hv.face_next lR).symm
  have fQ : m.heFace Q = m.heFace (twin b) := by rw [← nQ]; exact (hv.face_next lQ).symm
  have PQ : P ≠ Q := fun h => fT (by rw [← fQ, ← h, fP])
  have Pb : P ≠ b := fun h => hv.deg_two P lP (by rw [nP, h])
  have Pnb : P ≠ m.heNext b := fun h => d3 (by rw [← h, nP])
  have Pe : P / 2 ≠ b / 2 := fun h => by
    rcases (half_iff P b).1 h with h | h
    · exact Pb h
    · exact fT (by rw [← h, fP])
  have Qb : Q ≠ b := fun h => fT (by rw [← fQ, h])
  have QT : Q ≠ twin b := fun h => hv.deg_two Q lQ (by rw [nQ, h])
  have Qe : Q / 2 ≠ b / 2 := fun h => by
    rcases (half_iff Q b).1 h with h | h
    · exact Qb h
    · exact QT h
  have lnT := hv.next_live _ lT
  have lnb := hv.next_live _ lb
  have xnT : m.ext (m.heNext (twin b)) := (hv.ext_next lT).2 xT
  have vnT : m.heVertex (m.heNext (twin b)) = m.heVertex b := by rw [hv.vertex_next lT, twin_twin]
  obtain ⟨P1, P2, -⟩ := hC P lP fP Pb Pnb
  have wb : m.heVertex P ≠ m.heVertex b := fun h => P1 _ lnT (vnT.trans h.symm) xnT
  have wT : m.heVertex P ≠ m.heVertex (twin b) := fun h => P1 _ lT h.symm xT
  have fb0 : m.heFace b < m.nFFill := Valid.face_lt ib
  -- the boundary halfedge is found
  have hfil : hs.filter (fun h => ¬ m.heIsInterior (twin h)) = [b] := by
    refine filter_single nd ((mem b).2 ⟨lb, rfl⟩) ?_
    intro x hx
    have hx' := (mem x).1 hx
    have : (¬ m.heIsInterior (twin x)) ↔ m.ext (twin x) := by unfold heIsInterior faceIsBL ext; exact not_not
    rw [decide_eq_true_iff, this]
    constructor
    · exact one x hx'.1 hx'.2
    · rintro rfl; exact xT
  -- the opposite vertex is interior
  have hnb : ¬ m.vIsBoundary (m.heVertex P) := by
    intro h
    unfold vIsBoundary at h
    have h' : m.ext (twin (m.vHalfedge (m.heVertex P))) := by unfold heIsInterior faceIsBL at h; exact not_not.1 h
    obtain ⟨a, c⟩ := hv.v_he _ (hv.vertex_live P lP)
    have lt := hv.twin_live _ a
    exact P1 _ (hv.next_live _ lt) (by rw [hv.vertex_next lt, twin_twin, c]) ((hv.ext_next lt).2 h')
  -- ensureVertexHasBoundaryHalfedge
  obtain ⟨M1, hM1⟩ : ∃ M1, M1 = m.removeFaceWrites hs b P Q := ⟨_, rfl⟩
  have M1v : M1.vHalfedge (m.heVertex P) = m.vHalfedge (m.heVertex P) := by
    rw [hM1]; show upd m.vHalfedge _ _ _ = _
    rw [vnT, upd_ne _ _ wb]
  have M1n : ∀ i, m.heLive i → m.heVertex i = m.heVertex P → M1.vNext i = m.vNext i := by
    intro i hi hiv
    have i1 : twin i ≠ P := by
      intro h
      have hh : i = twin P := by rw [← h, twin_twin]
      apply wb
      rw [← hiv, hh, ← hv.vertex_next lP, nP]
    have i2 : twin i ≠ Q := by
      intro h
      have hh : i = twin Q := by rw [← h, twin_twin]
      apply wT
      rw [← hiv, hh, ← hv.vertex_next lQ, nQ]
    rw [hM1]; show upd (upd m.heNext _ _) _ _ (twin i) = m.heNext (twin i)
    rw [upd_ne _ _ i2, upd_ne _ _ i1]
  obtain ⟨lw, vw⟩ := hv.v_he _ (hv.vertex_live P lP)
  have orbw : ∀ j, m.heLive (m.vNext^[j] (m.vHalfedge (m.heVertex P))) ∧
      m.heVertex (m.vNext^[j] (m.vHalfedge (m.heVertex P))) = m.heVertex P ∧
      M1.vNext^[j] (m.vHalfedge (m.heVertex P)) = m.vNext^[j] (m.vHalfedge (m.heVertex P)) := by
    intro j
    induction j with
    | zero => exact ⟨lw, vw, rfl⟩
    | succ j ih =>
      obtain ⟨a, c, d⟩ := ih
      rw [Function.iterate_succ_apply', Function.iterate_succ_apply', d, M1n _ a c]
      exact ⟨hv.vNext_live a, (hv.vertex_vNext a).trans c, rfl⟩
  have vtR : m.heVertex (twin R) = m.heVertex P := by rw [← hv.vertex_next lR, nR]
  obtain ⟨k, hk, khit, kmin⟩ := first_hit (N := m.nHeFill) ((hv.vertex_iff _ (twin R) lw (hv.twin_live _ lR)).1 (by rw [vw, vtR]))
    (fun z hz => (hv.live_of_orb_vNext lw hz).1)
  have M1f : ∀ i, M1.heFace i = if i ∈ hs then m.heFace (twin b) else m.heFace i := by
    intro i; rw [hM1]; exact writeAll_apply hs _ _ i
  have M1i : ∀ i, m.heLive i → (M1.heIsInterior i ↔ ¬ (m.ext i ∨ m.heFace i = m.heFace b)) := by
    intro i hi
    unfold heIsInterior faceIsBL
    rw [M1f]
    have e : M1.nFFill = m.nFFill := by rw [hM1]; rfl
    rw [e]
    by_cases c : i ∈ hs
    · rw [if_pos c]; simp only [((mem i).1 c).2, or_true, not_true, iff_false, not_not]; exact xT
    · rw [if_neg c]
      have : m.heFace i ≠ m.heFace b := fun h => c ((mem i).2 ⟨hi, h⟩)
      simp only [this, or_false]; rfl
  have hev : M1.ensureVertexHasBoundaryHalfedge (m.heVertex P) =
      .ok { M1 with vHalfedge := upd M1.vHalfedge (m.heVertex P) (twin R) } := by
    unfold ensureVertexHasBoundaryHalfedge
    rw [ensureVertexLoop_ok (m.heVertex P) M1.nHeFill M1 k (by rw [hM1]; exact hk)]
    · rw [M1v, (orbw k).2.2, khit]
    · rw [M1v, (orbw k).2.2, khit, twin_twin, M1i _ lR]
      exact fun h => h (Or.inr fR)
    · intro j hj
      obtain ⟨a, c, d⟩ := orbw j
      have la := hv.twin_live _ a
      rw [M1v, d, M1i _ la]
      have vx : m.heVertex (m.heNext (twin (m.vNext^[j] (m.vHalfedge (m.heVertex P))))) = m.heVertex P :=
        (hv.vertex_vNext a).trans c
      rintro (h | h)
      · exact P1 _ (hv.next_live _ la) vx ((hv.ext_next la).2 h)
      · have := P2 _ (hv.next_live _ la) ((hv.face_next la).trans h) vx
        have := hv.next_inj la lR (this.trans nR.symm)
        exact kmin j hj (by rw [← this, twin_twin])
  -- the mesh with the edge and the face dropped
  obtain ⟨M3, hM3⟩ : ∃ M3 : Mesh, M3 = { M1 with vHalfedge := upd M1.vHalfedge (m.heVertex P) (twin R), fHalfedge := upd M1.fHalfedge (m.heFace (twin b)) (m.heNext (twin b)) } := ⟨_, rfl⟩
  obtain ⟨K, hK⟩ : ∃ K, K = Nat.count (fun i => (M3.drop (b / 2) (m.heFace b) 0).heNext i ≠ INV ∧
    (M3.drop (b / 2) (m.heFace b) 0).heFace i < m.nFFill) m.nHeFill := ⟨_, rfl⟩
  have M3n : ∀ i, M3.heNext i = if i = Q then m.heNext b else if i = P then m.heNext (twin b) else m.heNext i := by
    intro i; rw [hM3, hM1]; rfl
  have SP : RFSpec m (M3.drop (b / 2) (m.heFace b) K) b P Q R := by
    constructor
    case lb => exact lb
    case ib => exact ib
    case xT => exact xT
    case lP => exact lP
    case nP => exact nP
    case lQ => exact lQ
    case nQ => exact nQ
    case lR => exact lR
    case nR => exact nR
    case next_d => intro i hi; rw [drop_next, if_pos hi]
    case next_o => intro i hi; rw [drop_next, if_neg hi, M3n]
    case v_o => intro i hi; rw [drop_vertex, if_neg hi, hM3, hM1]; rfl
    case f_o =>
      intro i li hi
      rw [drop_face, if_neg hi]
      have : M3.heFace i = M1.heFace i := by rw [hM3]
      rw [this, M1f]
      by_cases c : i ∈ hs
      · rw [if_pos c, if_pos ((mem i).1 c).2]
      · rw [if_neg c, if_neg (fun h => c ((mem i).2 ⟨li, h⟩))]
    case fh => intro g; rw [drop_fh, hM3, hM1]; rfl
    case vh_P => show M3.vHalfedge _ = _; rw [hM3]; exact upd_same _ _ _
    case vh_b =>
      show M3.vHalfedge _ = _; rw [hM3]
      show upd M1.vHalfedge _ _ _ = _
      rw [upd_ne _ _ wb.symm, hM1]
      show upd m.vHalfedge _ _ _ = _
      rw [vnT, upd_same]
    case vh_o =>
      intro v v1 v2
      show M3.vHalfedge _ = _; rw [hM3]
      show upd M1.vHalfedge _ _ _ = _
      rw [upd_ne _ _ v1, hM1]
      show upd m.vHalfedge _ _ _ = _
      rw [vnT, upd_ne _ _ v2]
    case c_int =>
      have e1 : (M3.drop (b / 2) (m.heFace b) K).nHeFill = m.nHeFill := by
        show M3.nHeFill = _; rw [hM3, hM1]; rfl
      have e2 : (M3.drop (b / 2) (m.heFace b) K).nFFill = m.nFFill := by
        show M3.nFFill = _; rw [hM3, hM1]; rfl
      rw [e1, e2]
      exact hK
    case c_heFill => show M3.nHeFill = _; rw [hM3, hM1]; rfl
    case c_heCap => show M3.nHeCap = _; rw [hM3, hM1]; rfl
    case c_eFill => show M3.nEFill = _; rw [hM3, hM1]; rfl
    case c_eCap => show M3.nECap = _; rw [hM3, hM1]; rfl
    case c_vFill => show M3.nVFill = _; rw [hM3, hM1]; rfl
    case c_vCap => show M3.nVCap = _; rw [hM3, hM1]; rfl
    case c_fFill => show M3.nFFill = _; rw [hM3, hM1]; rfl
    case c_fCap => show M3.nFCap = _; rw [hM3, hM1]; rfl
    case c_blFill => show M3.nBLFill = _; rw [hM3, hM1]; rfl
    case c_he => show M3.nHe - 1 - 1 = _; rw [hM3, hM1]; show m.nHe - 1 - 1 = _; omega
    case c_e => show M3.nE - 1 = _; rw [hM3, hM1]; rfl
    case c_v => show M3.nV = _; rw [hM3, hM1]; rfl
    case c_f => show M3.nF - 1 = _; rw [hM3, hM1]; rfl
    case c_bl => show M3.nBL = _; rw [hM3, hM1]; rfl
  obtain ⟨hw, hlive, hext, hextt, -, -, -⟩ := rf_weak hv SP hC one Pnb
  -- the edges of the face
  have fnb : m.heFace (m.heNext b) = m.heFace b := hv.face_next lb
  obtain ⟨l, hl, lhit, lmin⟩ := first_hit (N := m.nHeFill) ((hv.face_iff _ P lnb lP).1 (by rw [fnb, fP]))
    (fun z hz => (hv.live_of_orb_next lnb hz).1)
  have pj : ∀ j, m.heLive (m.heNext^[j] (m.heNext b)) ∧ m.heFace (m.heNext^[j] (m.heNext b)) = m.heFace b := by
    intro j
    have o : Orb m.heNext (m.heNext b) (m.heNext^[j] (m.heNext b)) := ⟨j, rfl⟩
    have lj := hv.live_of_orb_next lnb o
    exact ⟨lj, by rw [← fnb]; exact ((hv.face_iff _ _ lnb lj).2 o).symm⟩
  have pb : ∀ j ≤ l, m.heNext^[j] (m.heNext b) ≠ b := by
    intro j hj h
    cases j with
    | zero => exact hv.deg_two b lb h
    | succ j =>
      rw [Function.iterate_succ_apply'] at h
      exact lmin j (by omega) (hv.next_inj (pj j).1 lP (h.trans nP.symm))
  have pT : ∀ j, m.heNext^[j] (m.heNext b) ≠ twin b := fun j h => fT (by rw [← h, (pj j).2])
  have plive : ∀ j ≤ l, (M3.drop (b / 2) (m.heFace b) K).heLive (m.heNext^[j] (m.heNext b)) :=
    fun j hj => (hlive _).2 ⟨(pj j).1, pb j hj, pT j⟩
  have pe : ∀ j ≤ l, m.heNext^[j] (m.heNext b) / 2 ≠ b / 2 := fun j hj h => by
    rcases (half_iff _ b).1 h with h | h
    · exact pb j hj h
    · exact pT j h
  obtain ⟨M4, r1, r2, r3, r4, r5, r6⟩ := ensureEdges_ok (e := b / 2) (f := m.heFace b) (K := K) (stop := m.heNext (twin b)) l
    M3 (fun j => m.heNext^[j] (m.heNext b)) m.nHeFill hl hw
    (fun j hj => ⟨plive j hj, (hext _ (plive j hj)).2 (Or.inr (pj j).2), (hextt _ (plive j hj) (pj j).2).2⟩)
    (fun j hj => by
      show (M3.drop (b / 2) (m.heFace b) K).heNext (m.heNext^[j] (m.heNext b)) = m.heNext^[j + 1] (m.heNext b)
      rw [SP.next_o _ (pe j (by omega)), if_neg, if_neg (lmin j hj), Function.iterate_succ_apply']
      intro h; exact fT (by rw [← fQ, ← h, (pj j).2]))
    (by
      show (M3.drop (b / 2) (m.heFace b) K).heNext (m.heNext^[l] (m.heNext b)) = _
      rw [lhit, SP.next_o _ Pe, if_neg PQ, if_pos rfl])
    (by
      have key : ∀ i j, i < j → j ≤ l → m.heNext^[i] (m.heNext b) ≠ m.heNext^[j] (m.heNext b) := by
        intro i j hij hj h
        apply lmin (l - (j - i)) (by omega)
        have e2 : l - (j - i) = (l - j) + i := by omega
        rw [e2, Function.iterate_add_apply, h, ← Function.iterate_add_apply, show l - j + j = l by omega, lhit]
      intro i hi j hj h
      rcases Nat.lt_trichotomy i j with c | c | c
      · exact absurd h (key i j c hj)
      · exact c
      · exact absurd h.symm (key j i c hi))
    (by
      intro j _ h
      have := (pj j).2
      apply fT
      rw [← hv.face_next lT, ← this]
      exact congrArg m.heFace h.symm)
  refine ⟨M3.drop (b / 2) (m.heFace b) K, M4.drop (b / 2) (m.heFace b) K, P, Q, R, _, ?_, SP, Pnb, r2, r3, ?_⟩
  · unfold removeFaceAlongBoundary
    rw [hhs]; simp only
    rw [hfil]; simp only
    unfold removeFaceOne
    rw [hP]; simp only
    rw [hQ]; simp only
    rw [if_neg hnb, ← hM1, hev]; simp only
    rw [← hM3]
    have r1' : ensureEdgesLoop (m.heNext (twin b)) m.nHeFill M3 (m.heNext b) = .ok M4 := r1
    rw [r1']; simp only
    have i1 : ∀ i, i / 2 = b / 2 → m.nFFill ≤ M4.heFace i := by
      intro i hi
      rw [r6 i hi]
      have : M3.heFace i = M1.heFace i := by rw [hM3]
      rw [this, M1f]
      unfold ext at xT
      rcases (half_iff i b).1 hi with h | h
      · rw [h, if_pos ((mem b).2 ⟨lb, rfl⟩)]; exact xT
      · rw [h]; split_ifs <;> exact xT
    have n4 : M4.nFFill = m.nFFill := by rw [r5, hM3, hM1]; rfl
    have i2 : M4.nInt = m.nInt := by rw [r4, hM3, hM1]; rfl
    have h1 : ¬ (M4.deleteFace (m.heFace b)).heIsInterior (2 * (b / 2)) := by
      intro h; apply h; show M4.nFFill ≤ M4.heFace _; rw [n4]; exact i1 _ (by omega)
    have h2 : ¬ ((M4.deleteFace (m.heFace b)).deleteHe (2 * (b / 2))).heIsInterior (twin (2 * (b / 2))) := by
      intro h; apply h; show M4.nFFill ≤ upd M4.heFace _ _ _
      rw [upd_ne _ _ (twin_ne _), n4]; exact i1 _ (by rw [twin_div]; omega)
    have e3 : ((M4.deleteFace (m.heFace b)).deleteEdgeBundle (b / 2)).nInt = m.nInt := by
      show (if ((M4.deleteFace (m.heFace b)).deleteHe (2 * (b / 2))).heIsInterior (twin (2 * (b / 2))) then
          (if (M4.deleteFace (m.heFace b)).heIsInterior (2 * (b / 2)) then M4.nInt - 1 else M4.nInt) - 1
          else (if (M4.deleteFace (m.heFace b)).heIsInterior (2 * (b / 2)) then M4.nInt - 1 else M4.nInt)) = _
      rw [if_neg h2, if_neg h1, i2]
    have e4 : (M4.deleteFace (m.heFace b)).deleteEdgeBundle (heEdge b) =
        { M4.drop (b / 2) (m.heFace b) K with nInt := m.nInt } := by
      rw [← e3]; rfl
    rw [e4]
  · intro i
    constructor
    · rintro ⟨j, hj, rfl⟩; exact ⟨(pj j).1, (pj j).2, pb j hj⟩
    · rintro ⟨li, fi, ib'⟩
      have hper : m.heNext^[l + 1 + 1] b = b := by
        rw [Function.iterate_succ_apply, Function.iterate_succ_apply', lhit, nP]
      have := (orbit_range_mem hper).2 ((hv.face_iff b i lb li).1 fi.symm)
      rw [List.mem_map] at this
      obtain ⟨j, hj, rfl⟩ := this
      rw [List.mem_range] at hj
      obtain ⟨j, rfl⟩ : ∃ j', j = j' + 1 := ⟨j - 1, by
        have : j ≠ 0 := by rintro rfl; exact ib' rfl
        omega⟩
      exact ⟨j, by omega, by rw [Function.iterate_succ_apply]⟩

end Mesh
end GC
