import Verif.MeshBasic

/-! Consequences of validity used by all mutation proofs. No code is modelled here. -/

namespace GC
namespace Mesh

/-- `next`, extended by the identity outside the live halfedges. -/
def nx (m : Mesh) (i : ℕ) : ℕ := if m.heLive i then m.heNext i else i

/-- `twin().next()`, extended to all indices. -/
def vx (m : Mesh) (i : ℕ) : ℕ := m.nx (twin i)

theorem nx_live {m : Mesh} {i : ℕ} (h : m.heLive i) : m.nx i = m.heNext i := by simp [nx, h]

theorem nx_dead {m : Mesh} {i : ℕ} (h : ¬ m.heLive i) : m.nx i = i := by simp [nx, h]

namespace Valid
variable {m : Mesh}

theorem twin_live_iff (hv : m.Valid) {i : ℕ} : m.heLive (twin i) ↔ m.heLive i :=
  ⟨fun h => by simpa using hv.twin_live _ h, hv.twin_live i⟩

theorem live_lt {i : ℕ} (h : m.heLive i) : i < m.nHeFill := h.1

theorem live_lt_INV (hv : m.Valid) {i : ℕ} (h : m.heLive i) : i < INV := by
  have := hv.he_cap; have := h.1; omega

theorem orb_next_nx (hv : m.Valid) {i j : ℕ} (hi : m.heLive i) : Orb m.heNext i j ↔ Orb m.nx i j :=
  Orb.congr (fun i => m.heLive i) hi hv.next_live (fun _ hz => (nx_live hz).symm)

theorem vNext_live (hv : m.Valid) {i : ℕ} (hi : m.heLive i) : m.heLive (m.vNext i) :=
  hv.next_live _ (hv.twin_live _ hi)

theorem orb_vNext_vx (hv : m.Valid) {i j : ℕ} (hi : m.heLive i) : Orb m.vNext i j ↔ Orb m.vx i j :=
  Orb.congr (fun i => m.heLive i) hi (fun _ h => hv.vNext_live h)
    (fun _ hz => by rw [vx, nx_live (hv.twin_live _ hz)]; rfl)

theorem face_next (hv : m.Valid) {i : ℕ} (hi : m.heLive i) : m.heFace (m.heNext i) = m.heFace i :=
  ((hv.face_iff i _ hi (hv.next_live i hi)).2 (Orb.step _ _)).symm

theorem vertex_vNext (hv : m.Valid) {i : ℕ} (hi : m.heLive i) :
    m.heVertex (m.heNext (twin i)) = m.heVertex i :=
  ((hv.vertex_iff i _ hi (hv.vNext_live hi)).2 (Orb.step _ _)).symm

theorem vertex_next (hv : m.Valid) {i : ℕ} (hi : m.heLive i) :
    m.heVertex (m.heNext i) = m.heVertex (twin i) := by
  have := hv.vertex_vNext (hv.twin_live i hi); simpa using this

theorem per_nx (hv : m.Valid) : Per m.nx := by
  intro i
  by_cases hi : m.heLive i
  · rw [nx_live hi]
    have h1 := hv.next_live i hi
    exact (hv.orb_next_nx h1).1 ((hv.face_iff _ i h1 hi).1 (hv.face_next hi))
  · rw [nx_dead hi]; exact Orb.refl _ _

theorem nx_live_of (hv : m.Valid) {i : ℕ} (hi : m.heLive i) : m.heLive (m.nx i) := by
  rw [nx_live hi]; exact hv.next_live i hi

theorem vx_live_of (hv : m.Valid) {i : ℕ} (hi : m.heLive i) : m.heLive (m.vx i) :=
  hv.nx_live_of (hv.twin_live i hi)

theorem per_vx (hv : m.Valid) : Per m.vx := by
  intro i
  by_cases hi : m.heLive i
  · have h1 := hv.vNext_live hi
    have h2 : m.vx i = m.vNext i := by rw [vx, nx_live (hv.twin_live i hi)]; rfl
    rw [h2]
    exact (hv.orb_vNext_vx h1).1 ((hv.vertex_iff _ i h1 hi).1 (hv.vertex_vNext hi))
  · have hti : ¬ m.heLive (twin i) := fun h => hi (hv.twin_live_iff.1 h)
    have : m.vx i = twin i := by rw [vx, nx_dead hti]
    rw [this]
    exact ⟨1, by simp [vx, nx_dead hi]⟩

theorem face_nx_iff (hv : m.Valid) {i j : ℕ} (hi : m.heLive i) (hj : m.heLive j) :
    m.heFace i = m.heFace j ↔ Orb m.nx i j := (hv.face_iff i j hi hj).trans (hv.orb_next_nx hi)

theorem vertex_vx_iff (hv : m.Valid) {i j : ℕ} (hi : m.heLive i) (hj : m.heLive j) :
    m.heVertex i = m.heVertex j ↔ Orb m.vx i j := (hv.vertex_iff i j hi hj).trans (hv.orb_vNext_vx hi)

theorem next_inj (hv : m.Valid) {i j : ℕ} (hi : m.heLive i) (hj : m.heLive j)
    (h : m.heNext i = m.heNext j) : i = j := by
  apply hv.per_nx.inj; rw [nx_live hi, nx_live hj, h]

theorem live_of_orb_next (hv : m.Valid) {i j : ℕ} (hi : m.heLive i) (h : Orb m.heNext i j) :
    m.heLive j := h.mem (fun i => m.heLive i) hi hv.next_live

theorem live_of_orb_vNext (hv : m.Valid) {i j : ℕ} (hi : m.heLive i) (h : Orb m.vNext i j) :
    m.heLive j := h.mem (fun i => m.heLive i) hi (fun _ h => hv.vNext_live h)

theorem back_next (hv : m.Valid) {i : ℕ} (hi : m.heLive i) : Orb m.heNext (m.heNext i) i :=
  (hv.face_iff _ i (hv.next_live i hi) hi).1 (hv.face_next hi)

theorem back_vNext (hv : m.Valid) {i : ℕ} (hi : m.heLive i) : Orb m.vNext (m.vNext i) i :=
  (hv.vertex_iff _ i (hv.vNext_live hi) hi).1 (hv.vertex_vNext hi)

/-! boundary conventions -/

theorem ext_twin (hv : m.Valid) {i : ℕ} (hi : m.heLive i) (he : m.ext i) : ¬ m.ext (twin i) := by
  rcases Nat.mod_two_eq_zero_or_one i with h | h
  · have := hv.edge_int (i / 2) (by unfold eHalfedge; rwa [show 2 * (i/2) = i by omega])
    unfold eHalfedge at this; rw [show 2 * (i/2) = i by omega] at this
    exact absurd he this
  · have e1 : twin i = 2 * (i / 2) := by rw [twin_eq, if_neg (by omega)]; omega
    have := hv.edge_int (i / 2) (by unfold eHalfedge; rw [← e1]; exact hv.twin_live i hi)
    unfold eHalfedge at this; rwa [← e1] at this

theorem ext_next (hv : m.Valid) {i : ℕ} (hi : m.heLive i) : m.ext (m.heNext i) ↔ m.ext i := by
  unfold ext; rw [hv.face_next hi]

/-- An interior face reference is below the fill count and is a live interior face. -/
theorem face_lt {i : ℕ} (he : ¬ m.ext i) : m.heFace i < m.nFFill := by
  unfold ext at he; omega

/-- An exterior face reference lies in the boundary-loop region. -/
theorem face_ext_region (hv : m.Valid) {i : ℕ} (hi : m.heLive i) (he : m.ext i) :
    m.nFCap - m.nBLFill ≤ m.heFace i ∧ m.heFace i < m.nFCap := by
  have := (hv.face_live i hi).1
  unfold ext at he
  omega

/-! loops terminate -/

theorem prevOrbitFace_ok (hv : m.Valid) {i : ℕ} (hi : m.heLive i) :
    ∃ p, m.prevOrbitFace i = .ok p ∧ m.heLive p ∧ m.heNext p = i := by
  -- first p with next p = i along the orbit
  have hb : ∀ z, Orb m.heNext (m.heNext i) z → z < m.nHeFill := fun z hz =>
    (hv.live_of_orb_next (hv.next_live i hi) hz).1
  obtain ⟨k, hk, hhit, hmin⟩ := first_hit (hv.back_next hi) hb
  refine ⟨m.heNext^[k] i, walkPrev_ok hk ?_ ?_, ?_, ?_⟩
  · rw [← Function.iterate_succ_apply' m.heNext, Function.iterate_succ_apply]; exact hhit
  · intro j hj
    rw [← Function.iterate_succ_apply' m.heNext, Function.iterate_succ_apply]; exact hmin j hj
  · exact hv.live_of_orb_next hi ⟨k, rfl⟩
  · rw [← Function.iterate_succ_apply' m.heNext, Function.iterate_succ_apply]; exact hhit

theorem prevOrbitVertex_ok (hv : m.Valid) {i : ℕ} (hi : m.heLive i) :
    ∃ p, m.prevOrbitVertex i = .ok p ∧ m.heLive p ∧ m.heNext p = i := by
  have hb : ∀ z, Orb m.vNext (m.vNext i) z → z < m.nHeFill := fun z hz =>
    (hv.live_of_orb_vNext (hv.vNext_live hi) hz).1
  obtain ⟨k, hk, hhit, hmin⟩ := first_hit (hv.back_vNext hi) hb
  -- iterate of (twin ∘ next) from twin i is twin of iterate of vNext from i
  have conj : ∀ j, (fun i => twin (m.heNext i))^[j] (twin i) = twin (m.vNext^[j] i) := by
    intro j
    induction j with
    | zero => rfl
    | succ j ih => rw [Function.iterate_succ_apply', ih, Function.iterate_succ_apply']; rfl
  refine ⟨twin (m.vNext^[k] i), ?_, ?_, ?_⟩
  · rw [← conj k]
    refine walkPrev_ok hk ?_ ?_
    · rw [conj k]
      show m.vNext (m.vNext^[k] i) = i
      rw [← Function.iterate_succ_apply' m.vNext, Function.iterate_succ_apply]; exact hhit
    · intro j hj
      rw [conj j]
      show m.vNext (m.vNext^[j] i) ≠ i
      rw [← Function.iterate_succ_apply' m.vNext, Function.iterate_succ_apply]; exact hmin j hj
  · exact hv.twin_live _ (hv.live_of_orb_vNext hi ⟨k, rfl⟩)
  · show m.vNext (m.vNext^[k] i) = i
    rw [← Function.iterate_succ_apply' m.vNext, Function.iterate_succ_apply]; exact hhit

end Valid

/-- What a terminating navigation loop returns: the orbit, each point once, in order. -/
theorem orbitList_ok {f : ℕ → ℕ} {x N : ℕ} (hback : Orb f (f x) x) (hb : ∀ z, Orb f x z → z < N) :
    ∃ k < N, f^[k+1] x = x ∧ (∀ j < k, f^[j+1] x ≠ x) ∧
      orbitList f x N = .ok ((List.range (k+1)).map (fun j => f^[j] x)) := by
  obtain ⟨k, hk, hhit, hmin⟩ := first_hit hback (fun z hz => hb z hz.head)
  refine ⟨k, hk, by rw [Function.iterate_succ_apply]; exact hhit,
    fun j hj => by rw [Function.iterate_succ_apply]; exact hmin j hj, ?_⟩
  exact orbitAux_ok hk (by rw [Function.iterate_succ_apply]; exact hhit)
    (fun j hj => by rw [Function.iterate_succ_apply]; exact hmin j hj)

theorem orbit_range_nodup {f : ℕ → ℕ} {x k : ℕ} (hhit : f^[k+1] x = x)
    (hmin : ∀ j < k, f^[j+1] x ≠ x) : ((List.range (k+1)).map (fun j => f^[j] x)).Nodup := by
  have key : ∀ a b, a < b → b ≤ k → f^[a] x ≠ f^[b] x := by
    intro a b hab hbk heq
    -- apply f^[k+1-b]
    have h1 := congrArg (f^[k+1-b]) heq
    rw [← Function.iterate_add_apply, ← Function.iterate_add_apply,
      show k + 1 - b + b = k + 1 by omega, hhit] at h1
    apply hmin (k + 1 - b + a - 1) (by omega)
    rwa [show k + 1 - b + a - 1 + 1 = k + 1 - b + a by omega]
  rw [List.nodup_map_iff_inj_on List.nodup_range]
  intro a ha b hb hab
  rw [List.mem_range] at ha hb
  rcases Nat.lt_trichotomy a b with h1 | h1 | h1
  · exact absurd hab (key a b h1 (by omega))
  · exact h1
  · exact absurd hab.symm (key b a h1 (by omega))

theorem orbit_range_mem {f : ℕ → ℕ} {x k y : ℕ} (hhit : f^[k+1] x = x) :
    y ∈ (List.range (k+1)).map (fun j => f^[j] x) ↔ Orb f x y := by
  constructor
  · intro h
    rw [List.mem_map] at h
    obtain ⟨j, _, rfl⟩ := h
    exact ⟨j, rfl⟩
  · intro h
    refine h.mem (fun y => y ∈ (List.range (k+1)).map (fun j => f^[j] x)) ?_ ?_
    · rw [List.mem_map]; exact ⟨0, by simp, rfl⟩
    · intro z hz
      rw [List.mem_map] at hz ⊢
      obtain ⟨j, hj, rfl⟩ := hz
      rw [List.mem_range] at hj
      by_cases hjk : j = k
      · subst hjk
        exact ⟨0, by simp, by rw [← Function.iterate_succ_apply' f]; exact hhit.symm⟩
      · exact ⟨j+1, by rw [List.mem_range]; omega, by rw [Function.iterate_succ_apply']⟩

namespace Valid
variable {m : Mesh}

/-- The halfedge loop of a face terminates and lists exactly its halfedges, once each. -/
theorem faceHalfedges_ok (hv : m.Valid) {f : ℕ} (hf : m.fLive f) :
    ∃ l, m.faceHalfedges f = .ok l ∧ l.Nodup ∧ (∀ i, i ∈ l ↔ m.heLive i ∧ m.heFace i = f) ∧
      ∃ k, l = (List.range (k+1)).map (fun j => m.heNext^[j] (m.fHalfedge f)) ∧
        m.heNext^[k+1] (m.fHalfedge f) = m.fHalfedge f := by
  obtain ⟨hl, hff⟩ := hv.f_he f hf
  obtain ⟨k, hk, hhit, hmin, hok⟩ := orbitList_ok (hv.back_next hl)
    (fun z hz => (hv.live_of_orb_next hl hz).1)
  refine ⟨_, hok, orbit_range_nodup hhit hmin, fun i => ?_, k, rfl, hhit⟩
  rw [orbit_range_mem hhit]
  constructor
  · intro h
    have hi := hv.live_of_orb_next hl h
    exact ⟨hi, by rw [← (hv.face_iff _ _ hl hi).2 h, hff]⟩
  · rintro ⟨hi, hfi⟩
    exact (hv.face_iff _ _ hl hi).1 (by rw [hff, hfi])

theorem outgoingHalfedges_ok (hv : m.Valid) {v : ℕ} (hvl : m.vLive v) :
    ∃ l, m.outgoingHalfedges v = .ok l ∧ l.Nodup ∧ (∀ i, i ∈ l ↔ m.heLive i ∧ m.heVertex i = v) ∧
      ∃ k, l = (List.range (k+1)).map (fun j => m.vNext^[j] (m.vHalfedge v)) ∧
        m.vNext^[k+1] (m.vHalfedge v) = m.vHalfedge v := by
  obtain ⟨hl, hff⟩ := hv.v_he v hvl
  obtain ⟨k, hk, hhit, hmin, hok⟩ := orbitList_ok (hv.back_vNext hl)
    (fun z hz => (hv.live_of_orb_vNext hl hz).1)
  refine ⟨_, hok, orbit_range_nodup hhit hmin, fun i => ?_, k, rfl, hhit⟩
  rw [orbit_range_mem hhit]
  constructor
  · intro h
    have hi := hv.live_of_orb_vNext hl h
    exact ⟨hi, by rw [← (hv.vertex_iff _ _ hl hi).2 h, hff]⟩
  · rintro ⟨hi, hfi⟩
    exact (hv.vertex_iff _ _ hl hi).1 (by rw [hff, hfi])

end Valid
end Mesh
end GC
