import Mathlib.Logic.Relation
import Verif.SimplifyMesh

/-! # The loop of the simplification (lemmas for C83) -/

namespace GC

/-- One pass of the loop that does not leave it. -/
def QStep {R Q X : Type} [LinearOrder R] (O : QOps R Q X) (may : Mesh → ℕ → Bool) (pop : List (R × ℕ) → Option ((R × ℕ) × List (R × ℕ))) (tol : R)
    (s s' : QState R Q X) : Prop :=
  ∃ c e q, pop s.queue = some ((c, e), q) ∧ ¬ tol < c ∧ Mesh.simplifyEdge O may { s with queue := q } c e = .ok s'

/-- The states at the beginning of later passes. -/
def Passes {R Q X : Type} [LinearOrder R] (O : QOps R Q X) (may : Mesh → ℕ → Bool) (pop : List (R × ℕ) → Option ((R × ℕ) × List (R × ℕ))) (tol : R) :
    QState R Q X → QState R Q X → Prop := Relation.ReflTransGen (QStep O may pop tol)

namespace Mesh

/-- A valid triangle mesh without double edges. -/
structure Good (m : Mesh) : Prop where
  valid : m.Valid
  tri : m.TriMesh
  simple : m.NoDouble

/-- What one collapse of the edge of `a0` does, at the boundary or not. -/
structure OneStep (m m' : Mesh) (a0 : ℕ) : Prop where
  good : m'.Good
  con : ∃ ρ, Contracts m m' (fun v => if v = m.heVertex a0 then m.heVertex (twin a0) else v) ρ
  live : ∀ i, m'.heLive i → m.heLive i
  v : ∀ v, m'.vLive v ↔ m.vLive v ∧ v ≠ m.heVertex a0
  ends : m.heVertex a0 ≠ m.heVertex (twin a0)
  vert : ∀ i, m'.heLive i → m'.heVertex i = if m.heVertex i = m.heVertex a0 then m.heVertex (twin a0) else m.heVertex i
  ext : ∀ i, m'.heLive i → (m'.ext i ↔ m.ext i)
  nV : m'.nV + 1 = m.nV
  nBL : m'.nBL = m.nBL
  chi : m'.eulerCharacteristic = m.eulerCharacteristic

variable {m m' : Mesh}

theorem OneStep.of {a0 e : ℕ} (G : m.Good) (hs : m'.NoDouble) (la : m.heLive a0) (xa : ¬ m.ext a0)
    (h : (¬ m.ext (2 * e + 1) ∧ (a0 = 2 * e ∨ a0 = 2 * e + 1) ∧ Collapsed m m' a0) ∨
       (m.ext (2 * e + 1) ∧ m.ext (twin a0) ∧ (a0 = 2 * e ∨ a0 = m.heNext (m.heNext (2 * e)) ∧ m.vDegree (m.heVertex (2 * e)) = .ok 2) ∧
         RimCollapsed m m' a0)) (he : m.heLive (2 * e)) : OneStep m m' a0 := by
  rcases h with ⟨x, k, C⟩ | ⟨-, xb, -, C⟩
  · have xb : ¬ m.ext (twin a0) := by
      rcases k with rfl | rfl
      · rw [twin_two_mul]; exact x
      · rw [twin_two_mul_add]; exact G.valid.edge_int e he
    obtain ⟨c1, c2, c3, c4, c5, c6⟩ := C.count
    exact ⟨⟨C.valid, C.tri, hs⟩, ⟨_, C.contracts G.valid G.tri G.simple la xa xb⟩, fun i hi => ((C.he i).1 hi).1, C.v, C.ends, C.vert, C.ext, c4, c5,
      by unfold eulerCharacteristic; omega⟩
  · obtain ⟨c1, c2, c3, c4, c5, c6⟩ := C.count
    exact ⟨⟨C.valid, C.tri, hs⟩, ⟨_, C.contracts G.valid G.tri G.simple la xa xb⟩, fun i hi => ((C.he i).1 hi).1, C.v, C.ends, C.vert, C.ext, c4, c5,
      by unfold eulerCharacteristic; omega⟩

variable {R Q X : Type} [LinearOrder R] {O : QOps R Q X} {may : Mesh → ℕ → Bool}
  {pop : List (R × ℕ) → Option ((R × ℕ) × List (R × ℕ))} {tol : R}

theorem mem_pushCosts (m : Mesh) (qd : ℕ → Q) (q : List (R × ℕ)) (es : List ℕ) (x : R × ℕ) :
    x ∈ m.pushCosts O qd q es ↔ x ∈ q ∨ x.2 ∈ es ∧ x.1 = m.edgeCost O qd x.2 := by
  unfold pushCosts
  induction es generalizing q with
  | nil => simp
  | cons e t ih =>
    rw [List.foldl_cons, ih, List.mem_cons, List.mem_cons]
    obtain ⟨c, f⟩ := x
    constructor
    · rintro ((h | h) | ⟨h, h'⟩)
      · injection h with h1 h2
        subst h2
        exact .inr ⟨.inl rfl, h1⟩
      · exact .inl h
      · exact .inr ⟨.inr h, h'⟩
    · rintro (h | ⟨h | h, h'⟩)
      · exact .inl (.inr h)
      · dsimp only at h h'
        subst h
        exact .inl (.inl (by rw [h']))
      · exact .inr ⟨h, h'⟩

/-- Why an entry for a live edge is passed over. -/
def Skipped (O : QOps R Q X) (may : Mesh → ℕ → Bool) (s : QState R Q X) (c : R) (e : ℕ) : Prop :=
  O.fin c = false ∨ O.far c (s.m.edgeCost O s.qd e) = true ∨ O.finP (O.opt (s.m.edgeQuadric O s.qd e)) = false ∨ may s.m e = false ∨
    s.m.collapseEdgeTriangular e = .ok (s.m, INV)

theorem simplifyEdge_cases {s : QState R Q X} (G : s.m.Good) (c : R) (e : ℕ) :
    (simplifyEdge O may s c e = .ok s ∧ (s.m.heLive (2 * e) → Skipped O may s c e)) ∨
    (simplifyEdge O may s c e = .error .throw ∧ s.m.heLive (2 * e) ∧ s.m.Doubled e) ∨
    ∃ m' a0 es, s.m.heLive (2 * e) ∧ O.far c (s.m.edgeCost O s.qd e) = false ∧ s.m.heLive a0 ∧ OneStep s.m m' a0 ∧
      s.m.collapseEdgeTriangular e = .ok (m', s.m.heVertex (twin a0)) ∧
      (s.m.heVertex (twin a0) = s.m.heVertex (2 * e) ∨ s.m.heVertex (twin a0) = s.m.heVertex (2 * e + 1)) ∧
      (¬ s.m.ext (2 * e + 1) → a0 = 2 * e ∨ a0 = 2 * e + 1) ∧
      (∀ f, f ∈ es ↔ ∃ i, m'.heLive i ∧ m'.heVertex i = s.m.heVertex (twin a0) ∧ i / 2 = f) ∧
      simplifyEdge O may s c e = .ok ⟨m', Function.update s.pos (s.m.heVertex (twin a0)) (O.opt (s.m.edgeQuadric O s.qd e)),
        Function.update s.qd (s.m.heVertex (twin a0)) (s.m.edgeQuadric O s.qd e),
        m'.pushCosts O (Function.update s.qd (s.m.heVertex (twin a0)) (s.m.edgeQuadric O s.qd e)) s.queue es⟩ := by
  unfold simplifyEdge
  by_cases h1 : O.fin c = false
  · left
    rw [if_pos (by rw [h1]; rfl)]
    exact ⟨rfl, fun _ => .inl h1⟩
  rw [if_neg (by simpa using h1)]
  by_cases he : s.m.heLive (2 * e)
  swap
  · left
    refine ⟨if_pos he, fun h => (he h).elim⟩
  have he' : s.m.heLive (eHalfedge e) := he
  rw [if_neg (not_not.2 he')]
  dsimp only
  by_cases h2 : O.far c (s.m.edgeCost O s.qd e) = true
  · left
    refine ⟨if_pos h2, fun _ => .inr (.inl h2)⟩
  rw [show O.far c (O.cost (s.m.edgeQuadric O s.qd e) (O.opt (s.m.edgeQuadric O s.qd e))) = false from Bool.eq_false_iff.2 h2]
  by_cases h3 : O.finP (O.opt (s.m.edgeQuadric O s.qd e)) = false
  · left
    rw [h3]
    exact ⟨rfl, fun _ => .inr (.inr (.inl h3))⟩
  rw [show O.finP (O.opt (s.m.edgeQuadric O s.qd e)) = true from by simpa using h3]
  by_cases h4 : may s.m e = false
  · left
    rw [h4]
    exact ⟨rfl, fun _ => .inr (.inr (.inr (.inl h4)))⟩
  rw [show may s.m e = true from by simpa using h4]
  have h2' : O.far c (s.m.edgeCost O s.qd e) = false := by simpa using h2
  rcases collapse_simple G.valid G.tri G.simple he with h | ⟨h, hd⟩ | ⟨m', a0, h, hs, la, xa, k⟩
  · left
    rw [h]
    exact ⟨rfl, fun _ => .inr (.inr (.inr (.inr h)))⟩
  · right; left
    rw [h]
    exact ⟨rfl, he, hd⟩
  · right; right
    have S := OneStep.of G hs la xa k he
    have lv : m'.vLive (s.m.heVertex (twin a0)) := (S.v _).2 ⟨G.valid.vertex_live _ (G.valid.twin_live _ la), S.ends.symm⟩
    obtain ⟨l, -, nd, mem, -, -, -, ve, -⟩ := C49_vertex_outgoing m' S.good.valid _ lv
    refine ⟨m', a0, l.map (fun i => i / 2), he, h2', la, S, h, ?_, ?_, ?_, ?_⟩
    · rcases k with ⟨-, k, -⟩ | ⟨-, -, k, -⟩
      · rcases k with rfl | rfl
        · right; rw [twin_two_mul]
        · left; rw [twin_two_mul_add]
      · rcases k with rfl | ⟨k, -⟩
        · right; rw [twin_two_mul]
        · left; rw [k, (tri_ends G.valid G.tri G.simple he (G.valid.edge_int e he)).2.2.1]
    · intro x
      rcases k with ⟨-, k, -⟩ | ⟨x', -⟩
      · exact k
      · exact (x x').elim
    · intro f
      rw [List.mem_map]
      constructor
      · rintro ⟨i, hi, rfl⟩
        obtain ⟨a, b⟩ := (mem i).1 hi
        exact ⟨i, a, b, rfl⟩
      · rintro ⟨i, a, b, rfl⟩
        exact ⟨i, (mem i).2 ⟨a, b⟩, rfl⟩
    · rw [h]
      have ne : s.m.heVertex (twin a0) ≠ INV := by
        have := S.good.valid.v_cap
        have := lv.1
        omega
      show (if s.m.heVertex (twin a0) = INV then _ else _) = _
      rw [if_neg ne, ve]
      rfl

/-- The entry of a dead edge, or one passed over, leaves the state as it is. -/
theorem qstep_cases {s s' : QState R Q X} (G : s.m.Good) (hp : Dij.IsPop pop) (h : QStep O may pop tol s s') :
    ∃ c e q, pop s.queue = some ((c, e), q) ∧ s.queue.Perm ((c, e) :: q) ∧ c ≤ tol ∧
      ((s' = { s with queue := q } ∧ (s.m.heLive (2 * e) → Skipped O may s c e)) ∨
      ∃ m' a0 es, s.m.heLive (2 * e) ∧ O.far c (s.m.edgeCost O s.qd e) = false ∧ s.m.heLive a0 ∧ OneStep s.m m' a0 ∧
      s.m.collapseEdgeTriangular e = .ok (m', s.m.heVertex (twin a0)) ∧
      (s.m.heVertex (twin a0) = s.m.heVertex (2 * e) ∨ s.m.heVertex (twin a0) = s.m.heVertex (2 * e + 1)) ∧
      (¬ s.m.ext (2 * e + 1) → a0 = 2 * e ∨ a0 = 2 * e + 1) ∧
      (∀ f, f ∈ es ↔ ∃ i, m'.heLive i ∧ m'.heVertex i = s.m.heVertex (twin a0) ∧ i / 2 = f) ∧
      s' = ⟨m', Function.update s.pos (s.m.heVertex (twin a0)) (O.opt (s.m.edgeQuadric O s.qd e)),
        Function.update s.qd (s.m.heVertex (twin a0)) (s.m.edgeQuadric O s.qd e),
        m'.pushCosts O (Function.update s.qd (s.m.heVertex (twin a0)) (s.m.edgeQuadric O s.qd e)) q es⟩) := by
  obtain ⟨c, e, q, h1, h2, h3⟩ := h
  have hne : s.queue ≠ [] := by
    intro h
    rw [h, hp.1] at h1
    cases h1
  obtain ⟨x, r, k1, k2, k3⟩ := hp.2 _ hne
  rw [h1] at k1
  injection k1 with k1
  injection k1 with k4 k5
  subst k4 k5
  refine ⟨c, e, q, h1, k2, not_lt.1 h2, ?_⟩
  rcases simplifyEdge_cases (O := O) (may := may) (s := { s with queue := q }) G c e with ⟨k, k'⟩ | ⟨k, -⟩ | ⟨m', a0, es, a1, a2, a3, a4, a5, a6, a7, a8, a9⟩
  · left
    rw [k] at h3
    injection h3 with h3
    exact ⟨h3.symm, k'⟩
  · rw [k] at h3; cases h3
  · right
    rw [a9] at h3
    injection h3 with h3
    exact ⟨m', a0, es, a1, a2, a3, a4, a5, a6, a7, a8, h3.symm⟩

/-- The meshes of later passes. -/
theorem passes_good {s s' : QState R Q X} (hp : Dij.IsPop pop) (h : Passes O may pop tol s s') (G : s.m.Good) :
    s'.m.Good ∧ (∃ r ρ, Contracts s.m s'.m r ρ) ∧ s'.m.eulerCharacteristic = s.m.eulerCharacteristic ∧ s'.m.nBL = s.m.nBL ∧ s'.m.nV ≤ s.m.nV := by
  induction h with
  | refl => exact ⟨G, ⟨_, _, Contracts.refl _⟩, rfl, rfl, le_rfl⟩
  | tail _ k ih =>
    obtain ⟨G', ⟨r, ρ, C⟩, c1, c2, c3⟩ := ih
    obtain ⟨c, e, q, -, -, -, h | ⟨m', a0, es, -, -, -, S, -, -, -, -, h⟩⟩ := qstep_cases G' hp k
    · rw [h.1]; exact ⟨G', ⟨r, ρ, C⟩, c1, c2, c3⟩
    · rw [h]
      obtain ⟨ρ', C'⟩ := S.con
      exact ⟨S.good, ⟨_, _, C.trans C'⟩, S.chi.trans c1, S.nBL.trans c2, by have := S.nV; show m'.nV ≤ _; omega⟩

/-- How a run can end. -/
theorem loop_outcome (hp : Dij.IsPop pop) (fuel : ℕ) (s : QState R Q X) (G : s.m.Good) :
    simplifyLoop O may pop tol fuel s = .error .hang ∨
    (simplifyLoop O may pop tol fuel s = .error .throw ∧ ∃ s1 e, Passes O may pop tol s s1 ∧ s1.m.heLive (2 * e) ∧ s1.m.Doubled e) ∨
    ∃ s' s1, simplifyLoop O may pop tol fuel s = .ok s' ∧ Passes O may pop tol s s1 ∧ s'.m = s1.m ∧ s'.pos = s1.pos ∧ s'.qd = s1.qd ∧
      ∀ x ∈ s1.queue, tol < x.1 := by
  induction fuel generalizing s with
  | zero => exact .inl rfl
  | succ fuel ih =>
    unfold simplifyLoop
    by_cases hne : s.queue = []
    · right; right
      rw [hne, hp.1]
      exact ⟨s, s, rfl, .refl, rfl, rfl, rfl, by rw [hne]; simp⟩
    · obtain ⟨⟨c, e⟩, q, k1, k2, k3⟩ := hp.2 _ hne
      rw [k1]
      dsimp only
      by_cases ht : tol < c
      · right; right
        rw [if_pos ht]
        exact ⟨_, s, rfl, .refl, rfl, rfl, rfl, fun x hx => lt_of_lt_of_le ht (k3 x hx)⟩
      · rw [if_neg ht]
        have key : ∀ s2 : QState R Q X, simplifyEdge O may { s with queue := q } c e = .ok s2 → s2.m.Good →
            (simplifyLoop O may pop tol fuel s2 = .error .hang ∨
            (simplifyLoop O may pop tol fuel s2 = .error .throw ∧ ∃ s1 e, Passes O may pop tol s s1 ∧ s1.m.heLive (2 * e) ∧ s1.m.Doubled e) ∨
            ∃ s' s1, simplifyLoop O may pop tol fuel s2 = .ok s' ∧ Passes O may pop tol s s1 ∧ s'.m = s1.m ∧ s'.pos = s1.pos ∧ s'.qd = s1.qd ∧
              ∀ x ∈ s1.queue, tol < x.1) := by
          intro s2 h2 G2
          have st : QStep O may pop tol s s2 := ⟨c, e, q, k1, ht, h2⟩
          rcases ih s2 G2 with h | ⟨h, s1, e1, p, l⟩ | ⟨s', s1, h, p, l⟩
          · exact .inl h
          · exact .inr (.inl ⟨h, s1, e1, .head st p, l⟩)
          · exact .inr (.inr ⟨s', s1, h, .head st p, l⟩)
        rcases simplifyEdge_cases (O := O) (may := may) (s := { s with queue := q }) G c e with ⟨k, -⟩ | ⟨k, k'⟩ | ⟨m', a0, es, -, -, -, S, -, -, -, -, k⟩
        · rw [k]; exact key _ k G
        · rw [k]
          exact .inr (.inl ⟨rfl, s, e, .refl, k'⟩)
        · rw [k]; exact key _ k S.good

/-- Every run ends. -/
theorem loop_ends (hp : Dij.IsPop pop) : ∀ (n k : ℕ) (s : QState R Q X), s.m.Good → s.m.nV = n → s.queue.length = k →
    ∃ N, ∀ fuel, N ≤ fuel → simplifyLoop O may pop tol fuel s ≠ .error .hang := by
  intro n
  induction n using Nat.strong_induction_on with
  | _ n ihn =>
    intro k
    induction k with
    | zero =>
      intro s G hn hk
      have hq : s.queue = [] := List.length_eq_zero_iff.1 hk
      refine ⟨1, fun fuel hf => ?_⟩
      obtain ⟨f, rfl⟩ : ∃ f, fuel = f + 1 := ⟨fuel - 1, by omega⟩
      unfold simplifyLoop
      rw [hq, hp.1]
      simp
    | succ k ihk =>
      intro s G hn hk
      have hne : s.queue ≠ [] := fun h => by rw [h] at hk; cases hk
      obtain ⟨⟨c, e⟩, q, k1, k2, k3⟩ := hp.2 _ hne
      have hq : q.length = k := by have := k2.length_eq; simp only [List.length_cons] at this; omega
      have key : ∀ s2, simplifyEdge O may { s with queue := q } c e = .ok s2 →
          (∃ N, ∀ fuel, N ≤ fuel → simplifyLoop O may pop tol fuel s2 ≠ .error .hang) →
          ∃ N, ∀ fuel, N ≤ fuel → simplifyLoop O may pop tol fuel s ≠ .error .hang := by
        rintro s2 h2 ⟨N, hN⟩
        refine ⟨N + 1, fun fuel hf => ?_⟩
        obtain ⟨f, rfl⟩ : ∃ f, fuel = f + 1 := ⟨fuel - 1, by omega⟩
        unfold simplifyLoop
        rw [k1]
        dsimp only
        by_cases ht : tol < c
        · rw [if_pos ht]; simp
        · rw [if_neg ht, h2]
          exact hN f (by omega)
      rcases simplifyEdge_cases (O := O) (may := may) (s := { s with queue := q }) G c e with ⟨h, -⟩ | ⟨h, -⟩ | ⟨m', a0, es, -, -, -, S, -, -, -, -, h⟩
      · exact key _ h (ihk _ G hn hq)
      · refine ⟨1, fun fuel hf => ?_⟩
        obtain ⟨f, rfl⟩ : ∃ f, fuel = f + 1 := ⟨fuel - 1, by omega⟩
        unfold simplifyLoop
        rw [k1]
        dsimp only
        by_cases ht : tol < c
        · rw [if_pos ht]; simp
        · rw [if_neg ht, h]; simp
      · refine key _ h (ihn m'.nV ?_ _ _ S.good rfl rfl)
        have := S.nV
        dsimp only at this
        omega

end Mesh
end GC
