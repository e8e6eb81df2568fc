import Verif.SimplifyLoop
import Verif.SimplifyQuadric
import Verif.Props.Dijkstra

/-! # Property C83: quadric error simplification -/

namespace GC
open Finset

section
variable {R Q X : Type} [LinearOrder R] {O : QOps R Q X} {may : Mesh → ℕ → Bool}
  {pop : List (R × ℕ) → Option ((R × ℕ) × List (R × ℕ))} {tol : R}

/-- At an earlier pass the edge `e`, with the quadric it has in `s`, was turned down: by the mesh, by the manager, or for a value that is not finite. -/
def Refused (O : QOps R Q X) (may : Mesh → ℕ → Bool) (pop : List (R × ℕ) → Option ((R × ℕ) × List (R × ℕ))) (tol : R)
    (s0 s : QState R Q X) (e : ℕ) : Prop :=
  ∃ s1, (Passes O may pop tol s0 s1 ∧ Passes O may pop tol s1 s) ∧ s1.m.heLive (2 * e) ∧ s1.m.edgeQuadric O s1.qd e = s.m.edgeQuadric O s.qd e ∧
    (O.fin (s.m.edgeCost O s.qd e) = false ∨ O.finP (O.opt (s.m.edgeQuadric O s.qd e)) = false ∨ may s1.m e = false ∨
      s1.m.collapseEdgeTriangular e = .ok (s1.m, INV))

theorem edgeCost_eq {m m' : Mesh} {qd qd' : ℕ → Q} {e : ℕ} (h : m'.edgeQuadric O qd' e = m.edgeQuadric O qd e) :
    m'.edgeCost O qd' e = m.edgeCost O qd e := by
  unfold Mesh.edgeCost; rw [h]

/-- Every live edge has an entry with its cost in the queue, or was refused. -/
theorem passes_complete {s0 s : QState R Q X} (hp : Dij.IsPop pop) (hfar : ∀ c, O.far c c = false) (G : s0.m.Good)
    (h0 : ∀ e, s0.m.heLive (2 * e) → (s0.m.edgeCost O s0.qd e, e) ∈ s0.queue) (h : Passes O may pop tol s0 s) :
    ∀ e, s.m.heLive (2 * e) → (s.m.edgeCost O s.qd e, e) ∈ s.queue ∨ Refused O may pop tol s0 s e := by
  induction h with
  | refl => exact fun e he => .inl (h0 e he)
  | @tail s s' hs k ih =>
    have Gs := (Mesh.passes_good hp hs G).1
    obtain ⟨c, e, q, -, perm, -, ⟨h, hsk⟩ | ⟨m', a0, es, le, -, la, S, -, hv, -, hes, h⟩⟩ := Mesh.qstep_cases Gs hp k
    · subst h
      intro f hf
      rcases ih f hf with h | h
      · have h' := perm.mem_iff.1 h
        rw [List.mem_cons] at h'
        rcases h' with h' | h'
        · right
          injection h' with h1 h2
          subst h2
          rcases hsk hf with k1 | k1 | k1 | k1 | k1
          · exact ⟨s, ⟨hs, .single k⟩, hf, rfl, .inl (by rw [← h1] at k1; exact k1)⟩
          · rw [← h1, hfar] at k1; cases k1
          · exact ⟨s, ⟨hs, .single k⟩, hf, rfl, .inr (.inl k1)⟩
          · exact ⟨s, ⟨hs, .single k⟩, hf, rfl, .inr (.inr (.inl k1))⟩
          · exact ⟨s, ⟨hs, .single k⟩, hf, rfl, .inr (.inr (.inr k1))⟩
        · exact .inl h'
      · obtain ⟨s1, g1, g2⟩ := h
        exact .inr ⟨s1, ⟨g1.1, g1.2.tail k⟩, g2⟩
    · subst h
      intro f hf
      change m'.heLive (2 * f) at hf
      have hv' := S.good.valid
      have lf := S.live _ hf
      have lt : m'.heLive (2 * f + 1) := by rw [← twin_two_mul]; exact hv'.twin_live _ hf
      by_cases inc : m'.heVertex (2 * f) = s.m.heVertex (twin a0) ∨ m'.heVertex (2 * f + 1) = s.m.heVertex (twin a0)
      · left
        refine (Mesh.mem_pushCosts m' _ q es _).2 (.inr ⟨(hes f).2 ?_, rfl⟩)
        rcases inc with h | h
        · exact ⟨2 * f, hf, h, by omega⟩
        · exact ⟨2 * f + 1, lt, h, by omega⟩
      · rw [not_or] at inc
        have v1 : m'.heVertex (2 * f) = s.m.heVertex (2 * f) := by
          have := S.vert _ hf
          by_cases c : s.m.heVertex (2 * f) = s.m.heVertex a0
          · rw [if_pos c] at this; exact (inc.1 this).elim
          · rw [if_neg c] at this; exact this
        have v2 : m'.heVertex (2 * f + 1) = s.m.heVertex (2 * f + 1) := by
          have := S.vert _ lt
          by_cases c : s.m.heVertex (2 * f + 1) = s.m.heVertex a0
          · rw [if_pos c] at this; exact (inc.2 this).elim
          · rw [if_neg c] at this; exact this
        have quad : m'.edgeQuadric O (Function.update s.qd (s.m.heVertex (twin a0)) (s.m.edgeQuadric O s.qd e)) f = s.m.edgeQuadric O s.qd f := by
          have t1 : m'.tip (Mesh.eHalfedge f) = m'.heVertex (2 * f + 1) := by rw [← twin_two_mul]; exact hv'.vertex_next hf
          have t2 : s.m.tip (Mesh.eHalfedge f) = s.m.heVertex (2 * f + 1) := by rw [← twin_two_mul]; exact Gs.valid.vertex_next lf
          have t3 : m'.heVertex (Mesh.eHalfedge f) = m'.heVertex (2 * f) := rfl
          have t4 : s.m.heVertex (Mesh.eHalfedge f) = s.m.heVertex (2 * f) := rfl
          unfold Mesh.edgeQuadric
          rw [t1, t2, t3, t4, Function.update_of_ne inc.1, Function.update_of_ne inc.2, v1, v2]
        have ne : f ≠ e := by
          rintro rfl
          rcases hv with h | h
          · exact inc.1 (by rw [v1, h])
          · exact inc.2 (by rw [v2, h])
        rcases ih f lf with h | ⟨s1, g1, g2, g3, g4⟩
        · left
          refine (Mesh.mem_pushCosts m' _ q es _).2 (.inl ?_)
          have h' := perm.mem_iff.1 h
          rw [List.mem_cons] at h'
          rcases h' with h' | h'
          · injection h' with _ h2; exact (ne h2).elim
          · change (m'.edgeCost O _ f, f) ∈ q
            rw [edgeCost_eq quad]; exact h'
        · right
          refine ⟨s1, ⟨g1.1, g1.2.tail k⟩, g2, g3.trans quad.symm, ?_⟩
          rw [show (⟨m', _, _, _⟩ : QState R Q X).m = m' from rfl]
          change O.fin (m'.edgeCost O _ f) = false ∨ O.finP (O.opt (m'.edgeQuadric O _ f)) = false ∨ _
          rw [edgeCost_eq quad, quad]
          exact g4

/-- The vertices of `m` that `r` merges to `w`. -/
noncomputable def cluster (m : Mesh) (r : ℕ → ℕ) (w : ℕ) : Finset ℕ := {u ∈ m.verts | r u = w}

/-- On a closed mesh the quadric of a vertex is the sum of the quadrics of the vertices merged into it. -/
theorem passes_clusters {Q : Type} [AddCommMonoid Q] {O : QOps R Q X} {s0 s : QState R Q X} (hO : O.add = (· + ·)) (hp : Dij.IsPop pop)
    (G : s0.m.Good) (closed : ∀ i, s0.m.heLive i → ¬ s0.m.ext i) (h : Passes O may pop tol s0 s) :
    (∀ i, s.m.heLive i → ¬ s.m.ext i) ∧ ∃ r ρ, Mesh.Contracts s0.m s.m r ρ ∧ ∀ w, s.m.vLive w → s.qd w = ∑ u ∈ cluster s0.m r w, s0.qd u ∧
      ((cluster s0.m r w = {w} ∧ s.pos w = s0.pos w) ∨
        (s.pos w = O.opt (s.qd w) ∧ ∃ c ≤ tol, O.far c (O.cost (s.qd w) (O.opt (s.qd w))) = false)) := by
  induction h with
  | refl =>
    refine ⟨closed, id, id, Mesh.Contracts.refl _, fun w hw => ?_⟩
    have : cluster s0.m id w = {w} := by
      ext u
      unfold cluster
      rw [mem_filter, mem_singleton, Mesh.mem_verts]
      constructor
      · rintro ⟨-, h⟩; exact h
      · rintro rfl; exact ⟨hw, rfl⟩
    exact ⟨by rw [this, sum_singleton], .inl ⟨this, rfl⟩⟩
  | @tail s s' hs k ih =>
    have Gs := (Mesh.passes_good hp hs G).1
    obtain ⟨cl, r, ρ, C, H⟩ := ih
    obtain ⟨c, e, q, -, -, hc, ⟨h, -⟩ | ⟨m', a0, es, le, far, la, S, -, -, ha, -, h⟩⟩ := Mesh.qstep_cases Gs hp k
    · subst h
      exact ⟨cl, r, ρ, C, H⟩
    · subst h
      have lt : s.m.heLive (2 * e + 1) := by rw [← twin_two_mul]; exact Gs.valid.twin_live _ le
      have ha := ha (cl _ lt)
      obtain ⟨ρ', C'⟩ := S.con
      refine ⟨fun i hi x => cl i (S.live i hi) ((S.ext i hi).1 x), _, _, C.trans C', fun w hw => ?_⟩
      change m'.vLive w at hw
      obtain ⟨lw, wA⟩ := (S.v w).1 hw
      have lA := Gs.valid.vertex_live _ la
      have lB := Gs.valid.vertex_live _ (Gs.valid.twin_live _ la)
      have AB := S.ends
      have quad : s.m.edgeQuadric O s.qd e = s.qd (s.m.heVertex a0) + s.qd (s.m.heVertex (twin a0)) := by
        unfold Mesh.edgeQuadric
        rw [hO, show s.m.tip (Mesh.eHalfedge e) = s.m.heVertex (twin (2 * e)) from Gs.valid.vertex_next le, twin_two_mul]
        rcases ha with rfl | rfl
        · rw [twin_two_mul]; rfl
        · rw [twin_two_mul_add]; exact add_comm _ _
      by_cases hw2 : w = s.m.heVertex (twin a0)
      · subst hw2
        have un : cluster s0.m ((fun v => if v = s.m.heVertex a0 then s.m.heVertex (twin a0) else v) ∘ r) (s.m.heVertex (twin a0)) =
            cluster s0.m r (s.m.heVertex a0) ∪ cluster s0.m r (s.m.heVertex (twin a0)) := by
          ext u
          unfold cluster
          rw [mem_union, mem_filter, mem_filter, mem_filter, Function.comp_apply]
          by_cases c : r u = s.m.heVertex a0
          · rw [if_pos c]
            constructor
            · rintro ⟨a, -⟩; exact .inl ⟨a, c⟩
            · rintro (⟨a, -⟩ | ⟨a, -⟩) <;> exact ⟨a, rfl⟩
          · rw [if_neg c]
            constructor
            · intro h; exact .inr h
            · rintro (⟨-, h⟩ | h)
              · exact (c h).elim
              · exact h
        have dis : Disjoint (cluster s0.m r (s.m.heVertex a0)) (cluster s0.m r (s.m.heVertex (twin a0))) := by
          rw [Finset.disjoint_left]
          intro u h1 h2
          unfold cluster at h1 h2
          exact AB ((mem_filter.1 h1).2.symm.trans (mem_filter.1 h2).2)
        dsimp only
        rw [Function.update_self, Function.update_self, un, sum_union dis, ← (H _ lA).1, ← (H _ lB).1]
        exact ⟨quad, .inr ⟨rfl, c, hc, far⟩⟩
      · have un : cluster s0.m ((fun v => if v = s.m.heVertex a0 then s.m.heVertex (twin a0) else v) ∘ r) w = cluster s0.m r w := by
          ext u
          unfold cluster
          rw [mem_filter, mem_filter, Function.comp_apply]
          by_cases c : r u = s.m.heVertex a0
          · rw [if_pos c]
            constructor
            · rintro ⟨-, h⟩; exact (hw2 h.symm).elim
            · rintro ⟨-, h⟩; exact (wA (h.symm.trans c)).elim
          · rw [if_neg c]
        dsimp only
        rw [Function.update_of_ne hw2, Function.update_of_ne hw2, un]
        exact H w lw

end

namespace Mesh
section
variable {R Q X : Type} [LinearOrder R] {O : QOps R Q X} {may : Mesh → ℕ → Bool}
  {pop : List (R × ℕ) → Option ((R × ℕ) × List (R × ℕ))} {tol : R}

theorem simplifyFrom_eq {m : Mesh} (hv : m.Valid) (pos : ℕ → X) (qd : ℕ → Q) : ∃ q, (∀ x, x ∈ q ↔ m.heLive (2 * x.2) ∧ x.1 = m.edgeCost O qd x.2) ∧
    ∀ fuel, simplifyFrom O may pop tol m pos qd fuel = simplifyLoop O may pop tol fuel ⟨m, pos, qd, q⟩ := by
  obtain ⟨-, -, -, -, ⟨l, e, rng, -⟩, -⟩ := C16_ranges m hv
  refine ⟨m.pushCosts O qd [] l, fun x => ?_, fun fuel => ?_⟩
  · rw [mem_pushCosts, rng.2]
    simp
  · unfold simplifyFrom
    rw [e]
    rfl

/-- **C83, one collapse.** In a valid triangle mesh without double edges `collapseEdgeTriangular` leaves the mesh as it is and returns the null
vertex, or throws, which happens only at two triangles with all sides in common, or merges two vertices; the mesh is then again a valid triangle mesh
without double edges. So the cases in which it breaks a mesh (C13) do not come up, however often it is called. -/
theorem C83_collapse (m : Mesh) (hv : m.Valid) (tri : m.TriMesh) (hs : m.NoDouble) (e : ℕ) (he : m.heLive (2 * e)) :
    m.collapseEdgeTriangular e = .ok (m, INV) ∨ (m.collapseEdgeTriangular e = .error .throw ∧ m.Doubled e) ∨
    ∃ m' a0, m.collapseEdgeTriangular e = .ok (m', m.heVertex (twin a0)) ∧ m'.Valid ∧ m'.TriMesh ∧ m'.NoDouble ∧
      ((¬ m.ext (2 * e + 1) ∧ (a0 = 2 * e ∨ a0 = 2 * e + 1) ∧ Collapsed m m' a0) ∨
       (m.ext (2 * e + 1) ∧ (a0 = 2 * e ∨ a0 = m.heNext (m.heNext (2 * e)) ∧ m.vDegree (m.heVertex (2 * e)) = .ok 2) ∧
         RimCollapsed m m' a0)) := by
  rcases collapse_simple hv tri hs he with h | h | ⟨m', a0, h, h1, -, -, h2⟩
  · exact .inl h
  · exact .inr (.inl h)
  · refine .inr (.inr ⟨m', a0, h, ?_, ?_, h1, ?_⟩)
    · rcases h2 with ⟨-, -, C⟩ | ⟨-, -, -, C⟩ <;> exact C.valid
    · rcases h2 with ⟨-, -, C⟩ | ⟨-, -, -, C⟩ <;> exact C.tri
    · rcases h2 with ⟨a, b, C⟩ | ⟨a, -, b, C⟩
      · exact .inl ⟨a, b, C⟩
      · exact .inr ⟨a, b, C⟩

/-- **C83, the mesh.** For any arithmetic, any constraints and any priority queue, the loop on a valid triangle mesh without double edges never
breaks the mesh: if it returns, the mesh is valid, a triangle mesh and without double edges, has the same Euler characteristic and number of boundary
loops, and is the first mesh with some vertices merged and some faces removed. If it throws, it has reached a mesh of this kind with two triangles that
have all sides in common. -/
theorem C83_mesh (m : Mesh) (hv : m.Valid) (tri : m.TriMesh) (hs : m.NoDouble) (hp : Dij.IsPop pop) (pos : ℕ → X) (qd : ℕ → Q) (fuel : ℕ) :
    simplifyFrom O may pop tol m pos qd fuel = .error .hang ∨
    (simplifyFrom O may pop tol m pos qd fuel = .error .throw ∧ ∃ m1 r ρ e, m1.Valid ∧ m1.TriMesh ∧ m1.NoDouble ∧ Contracts m m1 r ρ ∧
      m1.heLive (2 * e) ∧ m1.Doubled e) ∨
    ∃ s r ρ, simplifyFrom O may pop tol m pos qd fuel = .ok s ∧ s.m.Valid ∧ s.m.TriMesh ∧ s.m.NoDouble ∧ Contracts m s.m r ρ ∧
      s.m.eulerCharacteristic = m.eulerCharacteristic ∧ s.m.nBL = m.nBL := by
  obtain ⟨q, -, e⟩ := simplifyFrom_eq (O := O) (may := may) (pop := pop) (tol := tol) hv pos qd
  rw [e]
  have G : (QState.mk m pos qd q).m.Good := ⟨hv, tri, hs⟩
  rcases loop_outcome hp fuel _ G with h | ⟨h, s1, e1, p, l1, l2⟩ | ⟨s', s1, h, p, k, -⟩
  · exact .inl h
  · obtain ⟨G1, ⟨r, ρ, C⟩, -⟩ := passes_good hp p G
    exact .inr (.inl ⟨h, s1.m, r, ρ, e1, G1.valid, G1.tri, G1.simple, C, l1, l2⟩)
  · obtain ⟨G1, ⟨r, ρ, C⟩, c1, c2, -⟩ := passes_good hp p G
    refine .inr (.inr ⟨s', r, ρ, h, ?_⟩)
    rw [k]
    exact ⟨G1.valid, G1.tri, G1.simple, C, c1, c2⟩

/-- **C83, termination.** -/
theorem C83_ends (m : Mesh) (hv : m.Valid) (tri : m.TriMesh) (hs : m.NoDouble) (hp : Dij.IsPop pop) (pos : ℕ → X) (qd : ℕ → Q) :
    ∃ N, ∀ fuel, N ≤ fuel → simplifyFrom O may pop tol m pos qd fuel ≠ .error .hang := by
  obtain ⟨q, -, e⟩ := simplifyFrom_eq (O := O) (may := may) (pop := pop) (tol := tol) hv pos qd
  obtain ⟨N, h⟩ := loop_ends (O := O) (may := may) (tol := tol) hp _ _ (QState.mk m pos qd q) ⟨hv, tri, hs⟩ rfl rfl
  exact ⟨N, fun fuel hf => by rw [e]; exact h fuel hf⟩

/-- **C83, nothing is forgotten.** When the loop returns, each remaining edge costs more than the tolerance, or it was turned down with its present
quadric in an earlier mesh: by `collapseEdgeTriangular`, by the constraints of the manager, or because a value was not finite. -/
theorem C83_exhaustive (m : Mesh) (hv : m.Valid) (tri : m.TriMesh) (hs : m.NoDouble) (hp : Dij.IsPop pop) (hfar : ∀ c, O.far c c = false)
    (pos : ℕ → X) (qd : ℕ → Q) (fuel : ℕ) (s : QState R Q X) (h : simplifyFrom O may pop tol m pos qd fuel = .ok s) (e : ℕ)
    (he : s.m.heLive (2 * e)) :
    tol < s.m.edgeCost O s.qd e ∨ O.fin (s.m.edgeCost O s.qd e) = false ∨ O.finP (O.opt (s.m.edgeQuadric O s.qd e)) = false ∨
    ∃ (m1 : Mesh) (qd1 : ℕ → Q) (r1 ρ1 r2 ρ2 : ℕ → ℕ), Contracts m m1 r1 ρ1 ∧ Contracts m1 s.m r2 ρ2 ∧ m1.heLive (2 * e) ∧
      m1.edgeQuadric O qd1 e = s.m.edgeQuadric O s.qd e ∧ (may m1 e = false ∨ m1.collapseEdgeTriangular e = .ok (m1, INV)) := by
  obtain ⟨q, hq, ee⟩ := simplifyFrom_eq (O := O) (may := may) (pop := pop) (tol := tol) hv pos qd
  rw [ee] at h
  have G : (QState.mk m pos qd q).m.Good := ⟨hv, tri, hs⟩
  rcases loop_outcome hp fuel _ G with h' | ⟨h', -⟩ | ⟨s', s1, h', p, k1, -, k3, k4⟩
  · rw [h] at h'; cases h'
  · rw [h] at h'; cases h'
  · rw [h] at h'
    injection h' with h'
    subst h'
    rw [k1] at he
    rw [k1, k3]
    rcases passes_complete hp hfar G (fun e he => (hq _).2 ⟨he, rfl⟩) p e he with c | ⟨s2, g1, g2, g3, g4⟩
    · exact .inl (k4 _ c)
    · right
      obtain ⟨G2, ⟨r1, ρ1, C1⟩, -⟩ := passes_good hp g1.1 G
      obtain ⟨-, ⟨r2, ρ2, C2⟩, -⟩ := passes_good hp g1.2 G2
      rcases g4 with g4 | g4 | g4
      · exact .inl g4
      · exact .inr (.inl g4)
      · exact .inr (.inr ⟨s2.m, s2.qd, r1, ρ1, r2, ρ2, C1, C2, g2, g3, g4⟩)

end

/-! ### The geometry -/

open Quadric Matrix

theorem simplify_ok {m : Mesh} {pos : ℕ → V3} {solve : Matrix (_root_.Fin 3) (_root_.Fin 3) ℝ → (_root_.Fin 3 → ℝ) → (_root_.Fin 3 → ℝ)}
    {may : Mesh → ℕ → Bool} {pop : List (ℝ × ℕ) → Option ((ℝ × ℕ) × List (ℝ × ℕ))} {tol : ℝ} {fuel : ℕ} {req req' : ℤ}
    {s : QState ℝ Quadric (_root_.Fin 3 → ℝ)} (h : m.quadricErrorSimplify solve may pop tol pos fuel req = .ok (s, req')) :
    ∃ qd, m.vertexQuadrics pos = .ok qd ∧ simplifyFrom (realOps solve) may pop tol m (fun v => (pos v).toEigen) qd fuel = .ok s ∧
      req' = req + 1 := by
  unfold quadricErrorSimplify at h
  cases h1 : m.vertexQuadrics pos with
  | error x => rw [h1] at h; cases h
  | ok qd =>
    rw [h1] at h
    simp only [bind, Except.bind] at h
    cases hh : simplifyFrom (realOps solve) may pop tol m (fun v => (pos v).toEigen) qd fuel with
    | error x => rw [hh] at h; cases h
    | ok s' =>
      rw [hh] at h
      simp only [Except.ok.injEq, Prod.mk.injEq] at h
      obtain ⟨h, h'⟩ := h
      exact ⟨qd, rfl, by rw [hh, h], h'.symm⟩

/-- **C83, quadrics.** Before the loop the cost of a point for a vertex is the sum of its squared distances to the planes of the faces at the vertex;
the costs of quadrics that are added add up; for a sum of such quadrics the optimal point, computed with a solver that solves every solvable system, has
the least cost of all points. -/
theorem C83_quadrics (m : Mesh) (pos : ℕ → V3) (hv : m.Valid) (tri : m.TriMesh) (hn : m.NonDegenerate pos) :
    ∃ N qd, m.faceNormalsE pos = .ok N ∧ m.vertexQuadrics pos = .ok qd ∧ (∀ h, m.heLive h → ¬ m.ext h → (N (m.heFace h)).norm = 1) ∧
      (∀ v x, (qd v).cost x = ∑ h ∈ m.ints with m.heVertex h = v, ((N (m.heFace h)).toEigen ⬝ᵥ (x - (pos v).toEigen)) ^ 2) ∧
      (∀ (P S : Quadric) x, (P.add S).cost x = P.cost x + S.cost x) ∧
      ∀ (s : Finset ℕ) solve, Solves solve → ∀ x, (∑ v ∈ s, qd v).cost ((∑ v ∈ s, qd v).optimalPoint solve) ≤ (∑ v ∈ s, qd v).cost x := by
  obtain ⟨N, A, h1, -, -, h2⟩ := C70_normals m pos hv tri hn
  obtain ⟨qd, e, h⟩ := vertexQuadrics_ok hv pos N h1
  refine ⟨N, qd, h1, e, fun i a b => (h2 i a b).1, fun v x => ?_, fun P S x => cost_add P S x, fun s solve hs x => ?_⟩
  · rw [h, cost_sum]
    exact sum_congr rfl (fun i _ => cost_ofPlane _ _ _)
  · refine IsPlanes.optimal (isPlanes_sum _ _ (fun v _ => ?_)) hs x
    rw [h]
    exact isPlanes_sum _ _ (fun i _ => isPlanes_ofPlane _ _)

/-- **C83, the result**, for closed meshes (see `C83_ear` for the boundary). If the simplification returns, the mesh is the first mesh with some
vertices merged and some faces removed. The position of each vertex minimises the sum of the squared distances to the planes of the faces at all the
vertices merged into it, and this sum is at most the tolerance plus 1e-8, unless nothing was merged into the vertex, which is then in its old place. -/
theorem C83_result_partial (m : Mesh) (pos : ℕ → V3) (hv : m.Valid) (tri : m.TriMesh) (hs : m.NoDouble) (closed : ∀ i, m.heLive i → ¬ m.ext i)
    (hn : m.NonDegenerate pos) {solve : Matrix (_root_.Fin 3) (_root_.Fin 3) ℝ → (_root_.Fin 3 → ℝ) → (_root_.Fin 3 → ℝ)} (hsol : Solves solve) {may : Mesh → ℕ → Bool}
    {pop : List (ℝ × ℕ) → Option ((ℝ × ℕ) × List (ℝ × ℕ))} (hp : Dij.IsPop pop) {tol : ℝ} {fuel : ℕ} {req req' : ℤ} {s : QState ℝ Quadric (_root_.Fin 3 → ℝ)}
    (h : m.quadricErrorSimplify solve may pop tol pos fuel req = .ok (s, req')) :
    ∃ N r ρ, m.faceNormalsE pos = .ok N ∧ s.m.Valid ∧ s.m.TriMesh ∧ s.m.NoDouble ∧ s.m.eulerCharacteristic = m.eulerCharacteristic ∧
      Contracts m s.m r ρ ∧ ∀ w, s.m.vLive w →
        ∀ E : (_root_.Fin 3 → ℝ) → ℝ, (∀ x, E x = ∑ u ∈ cluster m r w, ∑ h ∈ m.ints with m.heVertex h = u,
          ((N (m.heFace h)).toEigen ⬝ᵥ (x - (pos u).toEigen)) ^ 2) →
        (∀ x, E (s.pos w) ≤ E x) ∧ (E (s.pos w) ≤ tol + 1e-8 ∨ cluster m r w = {w} ∧ s.pos w = (pos w).toEigen) := by
  obtain ⟨N, qd, h1, h2, h3, h4, -, h5⟩ := C83_quadrics m pos hv tri hn
  obtain ⟨qd', h2', h6, -⟩ := simplify_ok h
  rw [h2] at h2'
  injection h2' with h2'
  subst h2'
  obtain ⟨q, -, ee⟩ := simplifyFrom_eq (O := realOps solve) (may := may) (pop := pop) (tol := tol) hv (fun v => (pos v).toEigen) qd
  have G : (QState.mk m (fun v => (pos v).toEigen) qd q).m.Good := ⟨hv, tri, hs⟩
  have h' := (ee fuel).symm.trans h6
  rcases loop_outcome hp fuel _ G with k | ⟨k, -⟩ | ⟨s', s1, k, p, k1, k2, k3, -⟩
  · rw [h'] at k; cases k
  · rw [h'] at k; cases k
  rw [h'] at k
  injection k with k
  subst k
  obtain ⟨G1, -, chi, -⟩ := passes_good hp p G
  obtain ⟨-, r, ρ, C, H⟩ := passes_clusters rfl hp G closed p
  refine ⟨N, r, ρ, h1, k1 ▸ G1.valid, k1 ▸ G1.tri, k1 ▸ G1.simple, by rw [k1]; exact chi, by rw [k1]; exact C, fun w hw E hE => ?_⟩
  rw [k1] at hw
  obtain ⟨H1, H2⟩ := H w hw
  have hE' : ∀ x, E x = (s1.qd w).cost x := by
    intro x
    rw [hE, H1, cost_sum]
    exact sum_congr rfl (fun u _ => (h4 u x).symm)
  rw [k2]
  rcases H2 with ⟨c1, c2⟩ | ⟨c1, c, ct, cf⟩
  · have z : E (s1.pos w) = 0 := by
      rw [hE, c1, sum_singleton, c2]
      refine sum_eq_zero (fun h _ => ?_)
      simp
    refine ⟨fun x => ?_, .inr ⟨c1, c2⟩⟩
    rw [z, hE]
    exact sum_nonneg (fun u _ => sum_nonneg (fun h _ => by positivity))
  · refine ⟨fun x => ?_, .inl ?_⟩
    · rw [hE', hE', c1, H1]
      exact h5 _ solve hsol x
    · rw [hE', c1]
      have : ¬ (1e-8 < |c - (s1.qd w).cost ((s1.qd w).optimalPoint solve)|) := of_decide_eq_false cf
      have := abs_le.1 (not_lt.1 this)
      change (s1.qd w).cost ((s1.qd w).optimalPoint solve) ≤ _
      linarith [this.1]

/-- The face normals are required once and never given back. -/
theorem C83_leak (m : Mesh) (pos : ℕ → V3) (solve : Matrix (_root_.Fin 3) (_root_.Fin 3) ℝ → (_root_.Fin 3 → ℝ) → (_root_.Fin 3 → ℝ)) (may : Mesh → ℕ → Bool)
    (pop : List (ℝ × ℕ) → Option ((ℝ × ℕ) × List (ℝ × ℕ))) (tol : ℝ) (fuel : ℕ) (req req' : ℤ) (s : QState ℝ Quadric (_root_.Fin 3 → ℝ))
    (h : m.quadricErrorSimplify solve may pop tol pos fuel req = .ok (s, req')) : req' = req + 1 :=
  (simplify_ok h).choose_spec.2.2

theorem noDouble_of_check {m : Mesh} (h : ((List.range m.nHeFill).all fun i => (List.range m.nHeFill).all fun j =>
    !decide (m.heLive i ∧ m.heLive j ∧ m.heVertex i = m.heVertex j ∧ m.heVertex (twin i) = m.heVertex (twin j)) || i == j) = true) : m.NoDouble := by
  intro i j li lj h1 h2
  have t := (List.all_eq_true.1 ((List.all_eq_true.1 h) i (List.mem_range.2 li.1))) j (List.mem_range.2 lj.1)
  rw [decide_eq_true ⟨li, lj, h1, h2⟩] at t
  simpa using t

theorem tetra_noDouble : tetra.NoDouble := noDouble_of_check (by decide +kernel)

theorem closed_of_check {m : Mesh} (h : ((List.range m.nHeFill).all fun i => !decide (m.heLive i ∧ m.ext i)) = true) :
    ∀ i, m.heLive i → ¬ m.ext i := by
  intro i li h1
  have t := (List.all_eq_true.1 h) i (List.mem_range.2 li.1)
  rw [decide_eq_true ⟨li, h1⟩] at t
  simp at t

theorem tetra_closed : ∀ i, tetra.heLive i → ¬ tetra.ext i := closed_of_check (by decide +kernel)

/-! ### A closed mesh is simplified until an exception

`collapseEdgeTriangular` throws at a component of two triangles (C13), and a tetrahedron becomes one with the first collapse. -/

theorem tetra_table : ((List.range 6).all fun e => match tetra.collapseEdgeTriangular e with
    | .error _ => false
    | .ok (m', v) => v != INV && m'.nHeFill == 12 && ((List.range 6).any fun f => decide (m'.heLive (2 * f))) &&
      (List.range 6).all fun f => !decide (m'.heLive (2 * f)) || match m'.collapseEdgeTriangular f with
        | .error .throw => true
        | _ => false) = true := by
  decide +kernel

/-- The tetrahedron, or a mesh in which every collapse throws. -/
def TetraLike (m : Mesh) : Prop :=
  m = tetra ∨ (∃ e, m.heLive (2 * e)) ∧ ∀ e, m.heLive (2 * e) → m.collapseEdgeTriangular e = .error .throw

theorem tetra_step {e v : ℕ} {m' : Mesh} (he : tetra.heLive (2 * e)) (h : tetra.collapseEdgeTriangular e = .ok (m', v)) :
    v ≠ INV ∧ TetraLike m' := by
  have he6 : e < 6 := by have : 2 * e < 12 := he.1; omega
  have t := (List.all_eq_true.1 tetra_table) e (List.mem_range.2 he6)
  rw [h] at t
  simp only [Bool.and_eq_true, bne_iff_ne, ne_eq, beq_iff_eq] at t
  obtain ⟨⟨⟨t1, t2⟩, t3⟩, t4⟩ := t
  refine ⟨t1, .inr ⟨?_, fun f hf => ?_⟩⟩
  · obtain ⟨f, -, hf⟩ := List.any_eq_true.1 t3
    exact ⟨f, of_decide_eq_true hf⟩
  · have hf6 : f < 6 := by have := hf.1; rw [t2] at this; omega
    have t5 := (List.all_eq_true.1 t4) f (List.mem_range.2 hf6)
    rw [decide_eq_true hf] at t5
    cases hh : m'.collapseEdgeTriangular f with
    | ok x => rw [hh] at t5; simp at t5
    | error x => rw [hh] at t5; cases x <;> simp at t5 ⊢

theorem TetraLike.not_refused {m m' : Mesh} (h : TetraLike m) {e : ℕ} (he : m.heLive (2 * e)) : m.collapseEdgeTriangular e ≠ .ok (m', INV) := by
  rcases h with rfl | ⟨-, h⟩
  · exact fun h => (tetra_step he h).1 rfl
  · rw [h e he]; simp

section
variable {R Q X : Type} [LinearOrder R] {O : QOps R Q X} {may : Mesh → ℕ → Bool} {pop : List (R × ℕ) → Option ((R × ℕ) × List (R × ℕ))} {tol : R}

theorem passes_tetra {s0 s : QState R Q X} (hp : Dij.IsPop pop) (G : s0.m.Good) (h0 : TetraLike s0.m) (h : Passes O may pop tol s0 s) :
    TetraLike s.m := by
  induction h with
  | refl => exact h0
  | @tail s s' hs k ih =>
    have Gs := (Mesh.passes_good hp hs G).1
    obtain ⟨c, e, q, -, perm, -, ⟨h, hsk⟩ | ⟨m', a0, es, le, -, la, S, col, hv, -, hes, h⟩⟩ := Mesh.qstep_cases Gs hp k
    · subst h; exact ih
    · subst h
      show TetraLike m'
      rcases ih with e1 | ⟨-, e1⟩
      · rw [e1] at le col
        exact (tetra_step le col).2
      · rw [e1 e le] at col; cases col

end

/-- **C83, exception.** Any tetrahedron with a large enough tolerance makes the simplification throw in the middle of its work. -/
theorem C83_tetra (pos : ℕ → V3) (hn : tetra.NonDegenerate pos)
    {solve : Matrix (_root_.Fin 3) (_root_.Fin 3) ℝ → (_root_.Fin 3 → ℝ) → (_root_.Fin 3 → ℝ)} (hsol : Solves solve)
    {pop : List (ℝ × ℕ) → Option ((ℝ × ℕ) × List (ℝ × ℕ))} (hp : Dij.IsPop pop) :
    ∃ T, ∀ tol, T ≤ tol → ∃ n, ∀ fuel, n ≤ fuel → ∀ req,
      tetra.quadricErrorSimplify solve (fun _ _ => true) pop tol pos fuel req = .error .throw := by
  have G0 : tetra.Good := ⟨tetra_valid, tetra_tri, tetra_noDouble⟩
  obtain ⟨N, A, h1, -⟩ := C70_normals tetra pos tetra_valid tetra_tri hn
  obtain ⟨qd, hq, hqd⟩ := vertexQuadrics_ok tetra_valid pos N h1
  have pl : ∀ v, IsPlanes (qd v) := fun v => by
    rw [hqd]; exact isPlanes_sum _ _ (fun i _ => isPlanes_ofPlane _ _)
  refine ⟨∑ v ∈ tetra.verts, (qd v).cost 0, fun tol ht => ?_⟩
  obtain ⟨q, hq0, ee⟩ := simplifyFrom_eq (O := realOps solve) (may := fun _ _ => true) (pop := pop) (tol := tol) tetra_valid
    (fun v => (pos v).toEigen) qd
  have G : (QState.mk tetra (fun v => (pos v).toEigen) qd q).m.Good := G0
  obtain ⟨n, hn⟩ := loop_ends (O := realOps solve) (may := fun _ _ => true) (tol := tol) hp _ _ _ G rfl rfl
  refine ⟨n, fun fuel hf req => ?_⟩
  have key : simplifyLoop (realOps solve) (fun _ _ => true) pop tol fuel ⟨tetra, fun v => (pos v).toEigen, qd, q⟩ = .error .throw := by
    rcases loop_outcome hp fuel _ G with k | ⟨k, -⟩ | ⟨s', s, k, p, -, -, -, k4⟩
    · exact absurd k (hn fuel hf)
    · exact k
    exfalso
    have small : ∀ e, s.m.heLive (2 * e) → s.m.edgeCost (realOps solve) s.qd e ≤ tol := by
      intro e he
      obtain ⟨-, r, ρ, C, H⟩ := passes_clusters rfl hp G (fun i hi => tetra_closed i hi) p
      have Gs := (passes_good hp p G).1
      have ne : s.m.heVertex (2 * e) ≠ s.m.heVertex (2 * e + 1) := by
        have := Gs.simple.noLoop Gs.valid he
        rwa [twin_two_mul] at this
      have l1 := Gs.valid.vertex_live _ he
      have l2 := Gs.valid.vertex_live _ (twin_two_mul e ▸ Gs.valid.twin_live _ he)
      have e1 := (H _ l1).1
      have e2 := (H _ l2).1
      refine le_trans ?_ ht
      have tip : s.m.tip (2 * e) = s.m.heVertex (2 * e + 1) := by
        have := Gs.valid.vertex_next he
        rwa [twin_two_mul] at this
      have eq : s.m.edgeQuadric (realOps solve) s.qd e =
          ∑ u ∈ cluster tetra r (s.m.heVertex (2 * e)) ∪ cluster tetra r (s.m.heVertex (2 * e + 1)), qd u := by
        rw [sum_union (disjoint_left.2 fun u h h' => ne ((mem_filter.1 h).2.symm.trans (mem_filter.1 h').2))]
        change s.qd (s.m.heVertex (2 * e)) + s.qd (s.m.tip (2 * e)) = _
        rw [tip, e1, e2]
      have p1 : IsPlanes (s.m.edgeQuadric (realOps solve) s.qd e) := by
        rw [eq]
        exact isPlanes_sum _ _ (fun u _ => pl u)
      refine le_trans (p1.optimal hsol 0) ?_
      rw [eq, cost_sum]
      exact sum_le_sum_of_subset_of_nonneg (union_subset (filter_subset _ _) (filter_subset _ _)) (fun u _ _ => (pl u).cost_nonneg 0)
    have T := passes_tetra hp G (.inl rfl) p
    have : ∃ e, s.m.heLive (2 * e) := by
      rcases T with e1 | ⟨e1, -⟩
      · exact ⟨0, by rw [e1]; decide +kernel⟩
      · exact e1
    obtain ⟨e, he⟩ := this
    rcases passes_complete hp (fun c => by simp only [realOps, sub_self, abs_zero]; norm_num) G (fun e he => (hq0 _).2 ⟨he, rfl⟩) p e he with c | ⟨s2, g1, g2, -, g4⟩
    · exact absurd (k4 _ c) (not_lt.2 (small e he))
    · rcases g4 with g4 | g4 | g4 | g4
      · exact absurd g4 (by simp [realOps])
      · exact absurd g4 (by simp [realOps])
      · exact absurd g4 (by simp)
      · exact (passes_tetra hp G (.inl rfl) g1.1).not_refused g2 g4
  unfold quadricErrorSimplify
  rw [hq]
  simp only [bind, Except.bind]
  rw [ee fuel, key]

/-! ### Boundary edges at a vertex of degree two

For the edge 1 of `square`, which goes from vertex 1 to vertex 2, `collapseEdgeTriangular` falls back to the other boundary edge at vertex 1, removes
vertex 0 and returns vertex 1. The loop stores the quadric of the vertices 1 and 2 at vertex 1, keeps vertex 2 with its quadric, and forgets the
quadric of vertex 0. -/

theorem square_table : (square.collapseEdgeTriangular 1).toOption.map (fun p =>
    (p.2, decide (p.1.vLive 0), decide (p.1.vLive 1), decide (p.1.vLive 2), decide (p.1.vLive 3),
      (p.1.navVertexEdges 1).toOption.isSome)) = some (1, false, true, true, true, true) := by
  decide +kernel

/-- **C83, boundary.** -/
theorem C83_ear {R Q X : Type} [LinearOrder R] (O : QOps R Q X) {pop : List (R × ℕ) → Option ((R × ℕ) × List (R × ℕ))} {tol : R}
    (hfar : ∀ c, O.far c c = false) (hfin : ∀ c, O.fin c = true) (hfinP : ∀ p, O.finP p = true) (pos : ℕ → X) (qd : ℕ → Q)
    (q q' : List (R × ℕ)) (h : pop q = some ((square.edgeCost O qd 1, 1), q')) (ht : square.edgeCost O qd 1 ≤ tol) :
    square.heVertex 2 = 1 ∧ square.heVertex 3 = 2 ∧
    ∃ s, QStep O (fun _ _ => true) pop tol ⟨square, pos, qd, q⟩ s ∧ ¬ s.m.vLive 0 ∧ s.m.vLive 1 ∧ s.m.vLive 2 ∧ s.m.vLive 3 ∧
      s.qd 1 = O.add (qd 1) (qd 2) ∧ s.qd 2 = qd 2 ∧ s.qd 3 = qd 3 := by
  refine ⟨rfl, rfl, ?_⟩
  have t := square_table
  cases hc : square.collapseEdgeTriangular 1 with
  | error x => rw [hc] at t; cases t
  | ok p =>
    obtain ⟨m', v⟩ := p
    rw [hc] at t
    simp only [Except.toOption, Option.map_some, Option.some.injEq, Prod.mk.injEq, decide_eq_true_eq, decide_eq_false_iff_not] at t
    obtain ⟨rfl, t0, t1, t2, t3, t4⟩ := t
    cases hn : m'.navVertexEdges 1 with
    | error x => rw [hn] at t4; cases t4
    | ok es =>
      have eq : square.edgeQuadric O qd 1 = O.add (qd 1) (qd 2) := rfl
      refine ⟨⟨m', Function.update pos 1 (O.opt (square.edgeQuadric O qd 1)), Function.update qd 1 (square.edgeQuadric O qd 1),
        m'.pushCosts O (Function.update qd 1 (square.edgeQuadric O qd 1)) q' es⟩, ⟨_, _, _, h, not_lt.2 ht, ?_⟩, t0, t1, t2, t3, ?_, ?_, ?_⟩
      · unfold simplifyEdge
        have l : square.heLive (eHalfedge 1) := by decide +kernel
        dsimp only
        rw [hfin, if_neg (by simp), if_neg (not_not.2 l)]
        rw [show O.far (square.edgeCost O qd 1) (O.cost (square.edgeQuadric O qd 1) (O.opt (square.edgeQuadric O qd 1))) = false from hfar _,
          if_neg (by simp), hfinP, if_neg (by simp), if_neg (by simp), hc]
        simp only [bind, Except.bind]
        rw [if_neg (by decide), hn]
      · rw [← eq]; exact Function.update_self (f := qd) 1 _
      · exact Function.update_of_ne (f := qd) (show 2 ≠ 1 by decide) (square.edgeQuadric O qd 1)
      · exact Function.update_of_ne (f := qd) (show 3 ≠ 1 by decide) (square.edgeQuadric O qd 1)

/-! ### Concrete cases -/

/-- Hypotheses of `C83_collapse` to `C83_exhaustive`: a closed mesh and one with boundary, on which a collapse succeeds. -/
example : (octa.Valid ∧ octa.TriMesh ∧ octa.NoDouble ∧ octa.heLive (2 * 0)) ∧ (fan4.Valid ∧ fan4.TriMesh ∧ fan4.NoDouble ∧ fan4.heLive (2 * 0)) :=
  ⟨⟨octa_valid, triMesh_of (by decide +kernel), noDouble_of_check (by decide +kernel), by decide +kernel⟩,
    fan4_valid, triMesh_of (by decide +kernel), noDouble_of_check (by decide +kernel), by decide +kernel⟩

/-- A toy arithmetic: quadrics are numbers, every point costs its quadric. -/
def natOps : QOps ℕ ℕ ℕ := ⟨(· + ·), id, fun q _ => q, fun c d => c != d, fun _ => true, fun _ => true⟩

/-- A run that merges vertices and returns. -/
example : (simplifyFrom natOps (fun _ _ => true) Dij.popMin 3 octa id id 40).toOption.map (fun s =>
    (s.m.nV, decide (s.m.vLive 0), decide (s.m.vLive 1), s.qd 2)) = some (4, false, false, 3) := by
  decide +kernel

/-- Hypotheses of `C83_result_partial` and `C83_tetra`. -/
example : tetra.Valid ∧ tetra.TriMesh ∧ tetra.NoDouble ∧ (∀ i, tetra.heLive i → ¬ tetra.ext i) ∧ tetra.NonDegenerate tetraPos ∧
    ∃ solve, Solves solve := by
  classical
  refine ⟨tetra_valid, tetra_tri, tetra_noDouble, tetra_closed, tetraPos_nonDegenerate,
    fun A b => if h : ∃ x, A *ᵥ x = b then h.choose else 0, fun A b h => ?_⟩
  beta_reduce
  rw [dif_pos h]
  exact h.choose_spec

/-- Hypotheses of `C83_ear`. -/
example : square.Valid ∧ square.TriMesh ∧ square.NoDouble ∧ square.vDegree 1 = .ok 2 ∧
    Dij.popMin (square.pushCosts natOps (fun _ => 0) [] [0, 2, 3, 4, 1]) = some ((0, 1), square.pushCosts natOps (fun _ => 0) [] [0, 2, 3, 4]) :=
  ⟨square_valid, triMesh_of (by decide +kernel), noDouble_of_check (by decide +kernel), by decide +kernel, by decide +kernel⟩

end Mesh
end GC
