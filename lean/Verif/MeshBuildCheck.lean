import Verif.MeshBuildFinal

/-! # The manifold polygon constructor: the mesh after the boundary loops, and the last check -/

namespace GC.Mesh

section
variable {m0 m : Mesh} {N : ℕ}

theorem Open.sig_surj (hO : Open m0 N) {w : ℕ} (hw : isX m0 N w) : ∃ h, isX m0 N h ∧ sig m0 N h = w := by
  obtain ⟨k, hk⟩ := hO.sig_per w
  rw [← Function.iterate_succ_apply, Function.iterate_succ_apply'] at hk
  exact ⟨_, hO.sig_lt hw k, hk⟩

/-- `next` of an exterior halfedge. -/
theorem RI.next_ext (hO : Open m0 N) (hR : RI m0 N (isX m0 N) m) {w : ℕ} (hw : isX m0 N w) :
    isX m0 N (m.heNext w) ∧ sig m0 N (m.heNext w) = w ∧ m0.heVertex (m.heNext w) = m0.heVertex (twin w) := by
  obtain ⟨h, h1, rfl⟩ := hO.sig_surj hw
  rw [hR.nextP h h1]
  obtain ⟨-, -, -, -, -, h2⟩ := hO.sig_eq h1
  exact ⟨h1, rfl, h2.symm⟩

theorem RI.next_int (hO : Open m0 N) (hR : RI m0 N (isX m0 N) m) {h : ℕ} (hh : h < N) (hX : ¬ isX m0 N h) :
    m.heNext h = m0.heNext h ∧ m.heNext h < N ∧ ¬ isX m0 N (m.heNext h) ∧ m0.heVertex (m.heNext h) = m0.heVertex (twin h) := by
  have hf : m0.heFace h ≠ INV := fun e => hX ⟨hh, e⟩
  obtain ⟨h1, h2, h3, h4⟩ := hO.face h hh hf
  rw [hR.next h hX]
  refine ⟨rfl, h2, fun h5 => hf ?_, h3⟩
  rw [← h4]; exact h5.2

theorem RI.next_lt (hO : Open m0 N) (hR : RI m0 N (isX m0 N) m) {h : ℕ} (hh : h < N) : m.heNext h < N := by
  by_cases hX : isX m0 N h
  · exact (hR.next_ext hO hX).1.1
  · exact (hR.next_int hO hh hX).2.1

theorem RI.tipv (hO : Open m0 N) (hR : RI m0 N (isX m0 N) m) {h : ℕ} (hh : h < N) :
    m.heVertex (m.heNext h) = m.heVertex (twin h) := by
  rw [hR.same.1]
  by_cases hX : isX m0 N h
  · exact (hR.next_ext hO hX).2.2
  · exact (hR.next_int hO hh hX).2.2.2

theorem RI.next_inj (hO : Open m0 N) (hR : RI m0 N (isX m0 N) m) {i j : ℕ} (hi : i < N) (hj : j < N)
    (h : m.heNext i = m.heNext j) : i = j := by
  by_cases hX : isX m0 N i <;> by_cases hY : isX m0 N j
  · rw [← (hR.next_ext hO hX).2.1, h, (hR.next_ext hO hY).2.1]
  · exact absurd (h ▸ (hR.next_ext hO hX).1) (hR.next_int hO hj hY).2.2.1
  · exact absurd (h ▸ (hR.next_ext hO hY).1) (hR.next_int hO hi hX).2.2.1
  · obtain ⟨a, -⟩ := hR.next_int hO hi hX
    obtain ⟨b, -⟩ := hR.next_int hO hj hY
    exact hO.inj i hi j hj (fun e => hX ⟨hi, e⟩) (fun e => hY ⟨hj, e⟩) (by rw [← a, ← b, h])

theorem RI.face_next (hO : Open m0 N) (hR : RI m0 N (isX m0 N) m) {h : ℕ} (hh : h < N) :
    m.heFace (m.heNext h) = m.heFace h := by
  by_cases hX : isX m0 N h
  · obtain ⟨h1, h2, -⟩ := hR.next_ext hO hX
    have := hR.fsig _ h1
    rw [h2] at this
    exact this.symm
  · obtain ⟨h1, -, h3, -⟩ := hR.next_int hO hh hX
    rw [hR.face _ h3, hR.face h hX, h1]
    exact (hO.face h hh (fun e => hX ⟨hh, e⟩)).2.2.2

theorem RI.face_int (hO : Open m0 N) (hR : RI m0 N (isX m0 N) m) {h : ℕ} (hh : h < N) :
    m.heFace h < m.nF ↔ ¬ isX m0 N h := by
  constructor
  · intro h1 hX
    obtain ⟨b, -, h2, -⟩ := hR.faceP h hX
    omega
  · intro hX
    rw [hR.face h hX, hR.same.2.2.1]
    exact (hO.face h hh (fun e => hX ⟨hh, e⟩)).1

/-- `next` of the exterior halfedges runs against `sig`. -/
theorem RI.orb_of_sig (hR : RI m0 N (isX m0 N) m) (hO : Open m0 N) {x y : ℕ} (hx : isX m0 N x) (h : Orb (sig m0 N) x y) :
    Orb m.heNext y x := by
  obtain ⟨k, rfl⟩ := h
  induction k with
  | zero => exact Orb.refl _ _
  | succ k ih =>
    rw [Function.iterate_succ_apply']
    refine Orb.head ?_
    rw [hR.nextP _ (hO.sig_lt hx k)]
    exact ih

/-- Rotation around a vertex in the final mesh, extended by the identity. -/
def rot (m : Mesh) (N i : ℕ) : ℕ := if i < N then m.vNext i else i

theorem RI.vNext_lt (hO : Open m0 N) (hR : RI m0 N (isX m0 N) m) {i : ℕ} (hi : i < N) : m.vNext i < N :=
  hR.next_lt hO (hO.twin_lt hi)

theorem RI.rot_inj (hO : Open m0 N) (hR : RI m0 N (isX m0 N) m) : Function.Injective (rot m N) := by
  intro i j h
  unfold rot at h
  split_ifs at h with h1 h2 h2
  · exact twin_inj (hR.next_inj hO (hO.twin_lt h1) (hO.twin_lt h2) h)
  · exact absurd (h ▸ hR.vNext_lt hO h1) h2
  · exact absurd (h ▸ hR.vNext_lt hO h2) h1
  · exact h

theorem RI.orb_rot (hO : Open m0 N) (hR : RI m0 N (isX m0 N) m) {i j : ℕ} (hi : i < N) :
    Orb m.vNext i j ↔ Orb (rot m N) i j :=
  Orb.congr (fun z => z < N) hi (fun z hz => hR.vNext_lt hO hz) (fun z hz => by unfold rot; rw [if_pos hz])

theorem RI.rot_per (hO : Open m0 N) (hR : RI m0 N (isX m0 N) m) : Per (rot m N) := by
  intro i
  by_cases hi : i < N
  · refine back_of_inj_finite (hR.rot_inj hO) {h | h < N} (Set.finite_lt_nat N) ?_
    intro k
    induction k with
    | zero => exact hi
    | succ k ih =>
      rw [Function.iterate_succ_apply']
      have ih' : (rot m N)^[k] i < N := ih
      show rot m N _ < N
      unfold rot at ih' ⊢
      rw [if_pos ih']
      exact hR.vNext_lt hO ih'
  · exact ⟨0, by unfold rot; rw [if_neg hi]; rfl⟩

theorem RI.orb_symm (hO : Open m0 N) (hR : RI m0 N (isX m0 N) m) {i j : ℕ} (hi : i < N) (hj : j < N)
    (h : Orb m.vNext i j) : Orb m.vNext j i := by
  rw [hR.orb_rot hO hj]
  rw [hR.orb_rot hO hi] at h
  exact h.symm (hR.rot_per hO)

theorem RI.orb_lt (hO : Open m0 N) (hR : RI m0 N (isX m0 N) m) {i j : ℕ} (hi : i < N) (h : Orb m.vNext i j) : j < N :=
  h.mem (fun z => z < N) hi (fun z hz => hR.vNext_lt hO hz)

theorem RI.orb_vertex (hO : Open m0 N) (hR : RI m0 N (isX m0 N) m) {i j : ℕ} (hi : i < N) (h : Orb m.vNext i j) :
    m.heVertex i = m.heVertex j := by
  refine (h.induct (fun z => z < N ∧ m.heVertex i = m.heVertex z) ⟨hi, rfl⟩ ?_).2
  rintro z ⟨hz, h1⟩
  refine ⟨hR.vNext_lt hO hz, ?_⟩
  show _ = m.heVertex (m.heNext (twin z))
  rw [hR.tipv hO (hO.twin_lt hz), twin_twin, h1]

end

/-- The orbit loop of the last check. -/
theorem seeOrbit_ok {m : Mesh} {first : ℕ} (r : ℕ) : ∀ (n : ℕ) (seen : ℕ → Bool) (cur : ℕ), r < n →
    (∀ j ≤ r, seen (m.vNext^[j] cur) = false) → (∀ a b, a < b → b ≤ r → m.vNext^[a] cur ≠ m.vNext^[b] cur) →
    m.vNext^[r + 1] cur = first → (∀ j < r, m.vNext^[j + 1] cur ≠ first) →
    ∃ seen', seeOrbit m first n seen cur = .ok seen' ∧
      ∀ h, seen' h = true ↔ seen h = true ∨ ∃ j ≤ r, m.vNext^[j] cur = h := by
  induction r with
  | zero =>
    intro n seen cur hn hs _ hend _
    obtain ⟨n, rfl⟩ : ∃ n', n = n' + 1 := ⟨n - 1, by omega⟩
    unfold seeOrbit
    have h0 : seen cur = false := hs 0 le_rfl
    rw [if_neg (by rw [h0]; simp)]
    have h1 : m.heNext (twin cur) = first := hend
    simp only
    rw [if_pos h1]
    refine ⟨_, rfl, ?_⟩
    intro h
    split_ifs with h2
    · simp only [true_iff]
      exact .inr ⟨0, le_rfl, h2.symm⟩
    · constructor
      · exact .inl
      · rintro (h3 | ⟨j, hj, h3⟩)
        · exact h3
        · have : j = 0 := by omega
          subst this
          exact absurd h3.symm h2
  | succ r ih =>
    intro n seen cur hn hs hd hend hmin
    obtain ⟨n, rfl⟩ : ∃ n', n = n' + 1 := ⟨n - 1, by omega⟩
    unfold seeOrbit
    have h0 : seen cur = false := hs 0 (by omega)
    rw [if_neg (by rw [h0]; simp)]
    simp only
    have h1 : m.heNext (twin cur) ≠ first := hmin 0 (by omega)
    rw [if_neg h1]
    obtain ⟨seen', h2, h3⟩ := ih n (fun h => if h = cur then true else seen h) (m.vNext cur) (by omega) (by
        intro j hj
        rw [← Function.iterate_succ_apply]
        rw [if_neg (fun e => hd 0 (j + 1) (by omega) (by omega) e.symm)]
        exact hs (j + 1) (by omega)) (by
        intro a b hab hb
        rw [← Function.iterate_succ_apply, ← Function.iterate_succ_apply]
        exact hd _ _ (by omega) (by omega)) (by rw [← Function.iterate_succ_apply]; exact hend) (by
        intro j hj
        rw [← Function.iterate_succ_apply]
        exact hmin (j + 1) (by omega))
    refine ⟨seen', h2, ?_⟩
    intro h
    rw [h3]
    constructor
    · rintro (h4 | ⟨j, hj, h4⟩)
      · split_ifs at h4 with h5
        · exact .inr ⟨0, by omega, h5.symm⟩
        · exact .inl h4
      · exact .inr ⟨j + 1, by omega, by rw [Function.iterate_succ_apply]; exact h4⟩
    · rintro (h4 | ⟨j, hj, h4⟩)
      · left
        split_ifs
        · rfl
        · exact h4
      · by_cases hj0 : j = 0
        · left
          subst hj0
          rw [if_pos (show h = cur from h4.symm)]
        · right
          refine ⟨j - 1, by omega, ?_⟩
          rw [← Function.iterate_succ_apply, show (j - 1).succ = j by omega]
          exact h4

/-- The last check throws exactly if some halfedge is not in the orbit of the first halfedge of its vertex. -/
theorem checkVertices_ok {m0 m : Mesh} {N : ℕ} (hO : Open m0 N) (hR : RI m0 N (isX m0 N) m)
    (hv : ∀ v < m.nV, m.vHalfedge v < N ∧ m.heVertex (m.vHalfedge v) = v) (hV : ∀ h < N, m.heVertex h < m.nV) :
    (checkVertices m = .ok () ∧ ∀ h < N, Orb m.vNext (m.vHalfedge (m.heVertex h)) h) ∨
    (checkVertices m = .error .throw ∧ ∃ h < N, ¬ Orb m.vNext (m.vHalfedge (m.heVertex h)) h) := by
  have hN : m.nHe = N := hR.same.2.1.trans hO.he
  obtain ⟨seen, h1, h2⟩ := range_inv (n := m.nV)
    (f := fun seen v => seeOrbit m (m.vHalfedge v) (m.nHe + 1) seen (m.vHalfedge v))
    (fun k seen => ∀ h, seen h = true ↔ ∃ v < k, Orb m.vNext (m.vHalfedge v) h) (s0 := fun _ => false) (by simp) (by
    intro v seen hvn hs
    obtain ⟨h1, h2⟩ := hv v hvn
    have hback : Orb m.vNext (m.vNext (m.vHalfedge v)) (m.vHalfedge v) :=
      hR.orb_symm hO h1 (hR.vNext_lt hO h1) (Orb.step _ _)
    obtain ⟨k, hk, hhit, hmin⟩ := first_hit hback (N := N) (fun z hz => hR.orb_lt hO (hR.vNext_lt hO h1) hz)
    have hhit' : m.vNext^[k + 1] (m.vHalfedge v) = m.vHalfedge v := by rw [Function.iterate_succ_apply]; exact hhit
    have hmin' : ∀ j < k, m.vNext^[j + 1] (m.vHalfedge v) ≠ m.vHalfedge v := fun j hj => by
      rw [Function.iterate_succ_apply]; exact hmin j hj
    have hnd := orbit_range_nodup hhit' hmin'
    rw [List.nodup_map_iff_inj_on List.nodup_range] at hnd
    obtain ⟨seen', h3, h4⟩ := seeOrbit_ok (m := m) (first := m.vHalfedge v) k (m.nHe + 1) seen (m.vHalfedge v) (by omega) (by
        intro j hj
        rw [← Bool.not_eq_true, hs]
        rintro ⟨v', hv', ho⟩
        have e1 := hR.orb_vertex hO (hv v' (by omega)).1 ho
        have e2 := hR.orb_vertex hO h1 (show Orb m.vNext _ _ from ⟨j, rfl⟩)
        rw [(hv v' (by omega)).2] at e1
        rw [h2] at e2
        omega) (by
        intro a b hab hb e
        have := hnd a (List.mem_range.2 (by omega)) b (List.mem_range.2 (by omega)) e
        omega) hhit' hmin'
    refine ⟨seen', h3, ?_⟩
    intro h
    rw [h4, hs]
    have horb : (∃ j ≤ k, m.vNext^[j] (m.vHalfedge v) = h) ↔ Orb m.vNext (m.vHalfedge v) h := by
      rw [← orbit_range_mem hhit', List.mem_map]
      simp only [List.mem_range, Nat.lt_succ_iff]
    rw [horb]
    constructor
    · rintro (⟨v', hv', ho⟩ | ho)
      · exact ⟨v', by omega, ho⟩
      · exact ⟨v, by omega, ho⟩
    · rintro ⟨v', hv', ho⟩
      by_cases hvv : v' = v
      · rw [hvv] at ho; exact .inr ho
      · exact .inl ⟨v', by omega, ho⟩)
  have hseen : ∀ h < N, seen h = true ↔ Orb m.vNext (m.vHalfedge (m.heVertex h)) h := by
    intro h hh
    rw [h2]
    constructor
    · rintro ⟨v, hvn, ho⟩
      have := hR.orb_vertex hO (hv v hvn).1 ho
      rw [(hv v hvn).2] at this
      rw [← this]; exact ho
    · intro ho
      exact ⟨_, hV h hh, ho⟩
  unfold checkVertices
  rw [h1]
  show (((if (List.range m.nHe).any (fun h => !seen h) then .error .throw else .ok () : Res Unit) = _) ∧ _) ∨
    (((if (List.range m.nHe).any (fun h => !seen h) then .error .throw else .ok () : Res Unit) = _) ∧ _)
  rw [hN]
  by_cases hany : (List.range N).any (fun h => !seen h) = true
  · right
    rw [if_pos hany]
    refine ⟨rfl, ?_⟩
    rw [List.any_eq_true] at hany
    obtain ⟨h, h3, h4⟩ := hany
    rw [List.mem_range] at h3
    refine ⟨h, h3, ?_⟩
    rw [← hseen h h3]
    simpa using h4
  · left
    rw [if_neg hany]
    refine ⟨rfl, ?_⟩
    intro h hh
    rw [← hseen h hh]
    by_contra h3
    apply hany
    rw [List.any_eq_true]
    exact ⟨h, List.mem_range.2 hh, by simpa using h3⟩

end GC.Mesh
