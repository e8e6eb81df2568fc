import Verif.MeshBuildSides
import Verif.MeshValid

/-! # The manifold polygon constructor: boundary loops

Lemmas about the second part of `ManifoldSurfaceMesh(polygons)` (manifold_surface_mesh.cpp:166-215). -/

namespace GC.Mesh

/-- The mesh after the faces are entered: halfedges without face are those whose `next` is missing. -/
structure Open (m : Mesh) (N : ℕ) : Prop where
  even : ∃ n, N = 2 * n
  lim : N < INV
  he : m.nHe = N
  bl : m.nBL = 0
  face : ∀ h < N, m.heFace h ≠ INV → m.heFace h < m.nF ∧ m.heNext h < N ∧ m.heVertex (m.heNext h) = m.heVertex (twin h) ∧
    m.heFace (m.heNext h) = m.heFace h
  ext : ∀ h < N, m.heFace h = INV → m.heNext h = INV
  inj : ∀ i < N, ∀ j < N, m.heFace i ≠ INV → m.heFace j ≠ INV → m.heNext i = m.heNext j → i = j
  tw : ∀ h < N, m.heFace h = INV → m.heFace (twin h) ≠ INV
  fhe : ∀ f < m.nF, m.fHalfedge f < N ∧ m.heFace (m.fHalfedge f) = f
  uniq : ∀ i < N, ∀ j < N, m.heFace i = INV → m.heFace j = INV → m.heVertex i = m.heVertex j → i = j

/-- The rotation around a vertex along incoming halfedges. -/
def rho (m : Mesh) (y : ℕ) : ℕ := twin (m.heNext y)

namespace Open
variable {m : Mesh} {N : ℕ}

theorem twin_lt (hO : Open m N) {h : ℕ} (hh : h < N) : twin h < N := by
  obtain ⟨n, rfl⟩ := hO.even
  exact twin_lt_even hh

/-- Facts along the rotation from an exterior halfedge. -/
theorem rot (hO : Open m N) {c : ℕ} (hc : c < N) (hX : m.heFace c = INV) (k : ℕ)
    (hk : ∀ j < k, m.heFace ((rho m)^[j] (twin c)) ≠ INV) :
    (rho m)^[k] (twin c) < N ∧ m.heVertex (twin ((rho m)^[k] (twin c))) = m.heVertex c := by
  induction k with
  | zero => exact ⟨hO.twin_lt hc, by simp⟩
  | succ k ih =>
    obtain ⟨h1, h2⟩ := ih (fun j hj => hk j (by omega))
    obtain ⟨-, h3, h4, -⟩ := hO.face _ h1 (hk k (by omega))
    rw [Function.iterate_succ_apply']
    refine ⟨hO.twin_lt h3, ?_⟩
    show m.heVertex (twin (twin _)) = _
    rw [twin_twin, h4, h2]

theorem rot_ne (hO : Open m N) {c : ℕ} (hc : c < N) (hX : m.heFace c = INV) : ∀ (a b : ℕ), a < b →
    (∀ j < b, m.heFace ((rho m)^[j] (twin c)) ≠ INV) → (rho m)^[a] (twin c) ≠ (rho m)^[b] (twin c) := by
  intro a
  induction a with
  | zero =>
    intro b hab hk heq
    obtain ⟨b, rfl⟩ : ∃ b', b = b' + 1 := ⟨b - 1, by omega⟩
    rw [Function.iterate_succ_apply'] at heq
    have h1 := twin_inj (show twin c = twin _ from heq)
    obtain ⟨h2, -⟩ := hO.rot hc hX b (fun j hj => hk j (by omega))
    obtain ⟨h3, -, -, h4⟩ := hO.face _ h2 (hk b (by omega))
    rw [← h1, hX] at h4
    exact hk b (by omega) h4.symm
  | succ a ih =>
    intro b hab hk heq
    obtain ⟨b, rfl⟩ : ∃ b', b = b' + 1 := ⟨b - 1, by omega⟩
    rw [Function.iterate_succ_apply', Function.iterate_succ_apply'] at heq
    have h1 := twin_inj (show twin _ = twin _ from heq)
    have ha := (hO.rot hc hX a (fun j hj => hk j (by omega))).1
    have hb := (hO.rot hc hX b (fun j hj => hk j (by omega))).1
    exact ih b (by omega) (fun j hj => hk j (by omega)) (hO.inj _ ha _ hb (hk a (by omega)) (hk b (by omega)) h1)

theorem rot_le (hO : Open m N) {c : ℕ} (hc : c < N) (hX : m.heFace c = INV) {K : ℕ}
    (hk : ∀ j < K, m.heFace ((rho m)^[j] (twin c)) ≠ INV) : K < N := by
  have h1 : Set.InjOn (fun j => (rho m)^[j] (twin c)) (Finset.range (K + 1) : Set ℕ) := by
    intro a ha b hb hab
    simp only [Finset.coe_range, Set.mem_Iio] at ha hb
    rcases Nat.lt_trichotomy a b with h | h | h
    · exact absurd hab (hO.rot_ne hc hX a b h (fun j hj => hk j (by omega)))
    · exact h
    · exact absurd hab.symm (hO.rot_ne hc hX b a h (fun j hj => hk j (by omega)))
  have h2 := Finset.card_le_card_of_injOn (t := Finset.range N) _ (fun a ha => by
    simp only [Finset.coe_range, Set.mem_Iio] at ha ⊢
    exact (hO.rot hc hX a (fun j hj => hk j (by omega))).1) h1
  simp at h2
  omega

/-- The rotation reaches an exterior halfedge. -/
theorem rot_hit (hO : Open m N) {c : ℕ} (hc : c < N) (hX : m.heFace c = INV) :
    ∃ k, k + 1 < N ∧ m.heFace ((rho m)^[k + 1] (twin c)) = INV ∧ ∀ j < k + 1, m.heFace ((rho m)^[j] (twin c)) ≠ INV := by
  classical
  by_cases h : ∃ k, m.heFace ((rho m)^[k] (twin c)) = INV
  · have h1 := Nat.find_spec h
    have h2 := fun j hj => Nat.find_min h (m := j) hj
    have h3 : Nat.find h ≠ 0 := by
      intro h0
      rw [h0] at h1
      exact hO.tw c hc hX h1
    obtain ⟨k, hk⟩ : ∃ k, Nat.find h = k + 1 := ⟨Nat.find h - 1, by omega⟩
    rw [hk] at h1 h2
    exact ⟨k, hO.rot_le hc hX h2, h1, h2⟩
  · push Not at h
    have := hO.rot_le hc hX (K := N) (fun j _ => h j)
    omega

end Open

open Classical in
/-- The exterior halfedge before the exterior halfedge `c`; other indices are fixed. -/
noncomputable def sig (m : Mesh) (N c : ℕ) : ℕ :=
  if h : c < N ∧ m.heFace c = INV ∧ ∃ k, m.heFace ((rho m)^[k + 1] (twin c)) = INV then
    (rho m)^[Nat.find h.2.2 + 1] (twin c)
  else c

/-- The halfedges on the boundary. -/
def isX (m : Mesh) (N c : ℕ) : Prop := c < N ∧ m.heFace c = INV

namespace Open
variable {m : Mesh} {N : ℕ}

theorem sig_eq (hO : Open m N) {c : ℕ} (hc : isX m N c) :
    ∃ k, k + 1 < N ∧ sig m N c = (rho m)^[k + 1] (twin c) ∧ isX m N (sig m N c) ∧
      (∀ j < k + 1, m.heFace ((rho m)^[j] (twin c)) ≠ INV) ∧ m.heVertex (twin (sig m N c)) = m.heVertex c := by
  classical
  obtain ⟨hc, hX⟩ := hc
  obtain ⟨k, h1, h2, h3⟩ := hO.rot_hit hc hX
  have hex : ∃ k, m.heFace ((rho m)^[k + 1] (twin c)) = INV := ⟨k, h2⟩
  have hk : Nat.find hex = k := by
    rw [Nat.find_eq_iff]
    exact ⟨h2, fun j hj => h3 (j + 1) (by omega)⟩
  have hs : sig m N c = (rho m)^[k + 1] (twin c) := by
    unfold sig
    rw [dif_pos ⟨hc, hX, hex⟩]
    congr 2
  obtain ⟨h4, h5⟩ := hO.rot hc hX (k + 1) h3
  exact ⟨k, h1, hs, ⟨by rw [hs]; exact h4, by rw [hs]; exact h2⟩, h3, by rw [hs]; exact h5⟩

theorem sig_fix {c : ℕ} (hc : ¬ isX m N c) : sig m N c = c := by
  unfold sig
  rw [dif_neg]
  rintro ⟨a, b, -⟩
  exact hc ⟨a, b⟩

theorem sig_X (hO : Open m N) {c : ℕ} : isX m N (sig m N c) ↔ isX m N c := by
  by_cases h : isX m N c
  · obtain ⟨k, -, -, h1, -⟩ := hO.sig_eq h
    exact ⟨fun _ => h, fun _ => h1⟩
  · rw [sig_fix h]

theorem sig_inj (hO : Open m N) : Function.Injective (sig m N) := by
  intro a b hab
  by_cases ha : isX m N a
  · have hb : isX m N b := by rw [← hO.sig_X, ← hab, hO.sig_X]; exact ha
    obtain ⟨-, -, -, -, -, h1⟩ := hO.sig_eq ha
    obtain ⟨-, -, -, -, -, h2⟩ := hO.sig_eq hb
    exact hO.uniq a ha.1 b hb.1 ha.2 hb.2 (by rw [← h1, ← h2, hab])
  · have hb : ¬ isX m N b := by rw [← hO.sig_X, ← hab, hO.sig_X]; exact ha
    rwa [sig_fix ha, sig_fix hb] at hab

theorem sig_lt (hO : Open m N) {c : ℕ} (hc : isX m N c) (k : ℕ) : isX m N ((sig m N)^[k] c) := by
  induction k with
  | zero => exact hc
  | succ k ih => rw [Function.iterate_succ_apply', hO.sig_X]; exact ih

theorem sig_per (hO : Open m N) : Per (sig m N) := by
  intro c
  by_cases hc : isX m N c
  · exact back_of_inj_finite hO.sig_inj {h | h < N} (Set.finite_lt_nat N) (fun k => (hO.sig_lt hc k).1)
  · exact ⟨0, by rw [Function.iterate_zero, id, sig_fix hc]⟩

end Open

/-- The inner walk along a vertex. -/
theorem bdyOrbit_ok {m : Mesh} {iHe : ℕ} (r : ℕ) : ∀ (n c cur : ℕ), r < n → c + r < m.nHe →
    (∀ j < r, m.heFace ((rho m)^[j] cur) ≠ INV ∧ (rho m)^[j] cur ≠ iHe ∧ m.heNext ((rho m)^[j] cur) ≠ INV) →
    (m.heFace ((rho m)^[r] cur) = INV ∨ (rho m)^[r] cur = iHe) →
    bdyOrbit m iHe n c cur = .ok ((rho m)^[r] cur) := by
  induction r with
  | zero =>
    intro n c cur hn _ _ hend
    obtain ⟨n, rfl⟩ : ∃ n', n = n' + 1 := ⟨n - 1, by omega⟩
    unfold bdyOrbit
    have hend' : m.heFace cur = INV ∨ cur = iHe := hend
    by_cases h : m.heFace cur = INV
    · rw [if_pos h]; rfl
    · rw [if_neg h, if_pos (hend'.resolve_left h)]; rfl
  | succ r ih =>
    intro n c cur hn hc hmid hend
    obtain ⟨n, rfl⟩ : ∃ n', n = n' + 1 := ⟨n - 1, by omega⟩
    have hm0 := hmid 0 (by omega)
    rw [Function.iterate_zero, id] at hm0
    obtain ⟨h1, h2, h3⟩ := hm0
    unfold bdyOrbit
    rw [if_neg h1, if_neg h2, if_neg h3, if_neg (by omega)]
    have := ih n (c + 1) (rho m cur) (by omega) (by omega) (fun j hj => by
      rw [← Function.iterate_succ_apply]; exact hmid (j + 1) (by omega)) (by
      rw [← Function.iterate_succ_apply]; exact hend)
    rw [Function.iterate_succ_apply]
    exact this

/-- The state between two boundary loops: the halfedges in `P` have been resolved. -/
structure RI (m0 : Mesh) (N : ℕ) (P : ℕ → Prop) (m : Mesh) : Prop where
  same : m.heVertex = m0.heVertex ∧ m.nHe = m0.nHe ∧ m.nF = m0.nF ∧ m.nV = m0.nV ∧ m.nE = m0.nE
  sub : ∀ h, P h → isX m0 N h
  cl : ∀ h, P (sig m0 N h) ↔ P h
  next : ∀ h, ¬ P h → m.heNext h = m0.heNext h
  nextP : ∀ h, P h → m.heNext (sig m0 N h) = h
  face : ∀ h, ¬ P h → m.heFace h = m0.heFace h
  faceP : ∀ h, P h → ∃ b < m.nBL, m.heFace h = m.nF + b ∧ Orb (sig m0 N) (m.fHalfedge (m.nF + b)) h
  root : ∀ b < m.nBL, P (m.fHalfedge (m.nF + b)) ∧ m.heFace (m.fHalfedge (m.nF + b)) = m.nF + b
  fsig : ∀ h, P h → m.heFace (sig m0 N h) = m.heFace h
  fhe : ∀ f < m.nF, m.fHalfedge f = m0.fHalfedge f
  int : m.nInt = Nat.count (fun h => m.heFace h < m.nF ∨ m.heFace h = INV) N
  room0 : m.nF + m.nBL ≤ N
  vhe : ∀ v, (m.vHalfedge v = m0.vHalfedge v ∧ ∀ w, P w → m0.heVertex (twin w) ≠ v) ∨
    ∃ w, P w ∧ m.vHalfedge v = twin w ∧ m0.heVertex (twin w) = v

/-- Within a boundary loop: the first `a` halfedges from `i` have been visited. -/
structure LI (m0 : Mesh) (N : ℕ) (m1 : Mesh) (i bl a : ℕ) (m : Mesh) : Prop where
  same : m.heVertex = m1.heVertex ∧ m.nHe = m1.nHe ∧ m.nF = m1.nF ∧ m.nV = m1.nV ∧ m.nE = m1.nE ∧ m.nBL = m1.nBL ∧
    m.fHalfedge = m1.fHalfedge
  face : ∀ j < a, m.heFace ((sig m0 N)^[j] i) = bl
  face' : ∀ h, (∀ j < a, (sig m0 N)^[j] i ≠ h) → m.heFace h = m1.heFace h
  next : ∀ j < a, m.heNext ((sig m0 N)^[j + 1] i) = (sig m0 N)^[j] i
  next' : ∀ h, (∀ j < a, (sig m0 N)^[j + 1] i ≠ h) → m.heNext h = m1.heNext h
  vhe : ∀ v, (m.vHalfedge v = m1.vHalfedge v ∧ ∀ j < a, m0.heVertex (twin ((sig m0 N)^[j] i)) ≠ v) ∨
    ∃ j < a, m.vHalfedge v = twin ((sig m0 N)^[j] i) ∧ m0.heVertex (twin ((sig m0 N)^[j] i)) = v
  int : m.nInt = Nat.count (fun h => m.heFace h < m.nF ∨ m.heFace h = INV) N

theorem bdyLoop_ok {m0 : Mesh} {N : ℕ} (hO : Open m0 N) {P : ℕ → Prop} {m m1 : Mesh} (hR : RI m0 N P m) {i n : ℕ}
    (hX : isX m0 N i) (hP : ¬ P i) (hn : (sig m0 N)^[n] i = i) (hmin : ∀ j, 0 < j → j < n → (sig m0 N)^[j] i ≠ i)
    (hnN : n < N) (hm1 : m1 = { m with fHalfedge := upd m.fHalfedge (m.nF + m.nBL) i, nBL := m.nBL + 1 })
    (hbl : m.nF + m.nBL < INV) :
    ∀ (r a fuel : ℕ) (m' : Mesh), a + r = n → 0 < r → r ≤ fuel → LI m0 N m1 i (m.nF + m.nBL) a m' →
      ∃ m'', bdyLoop i (m.nF + m.nBL) fuel a m' ((sig m0 N)^[a] i) = .ok m'' ∧ LI m0 N m1 i (m.nF + m.nBL) n m'' := by
  -- points of the loop
  have hs : ∀ a b, a < b → b < n → (sig m0 N)^[a] i ≠ (sig m0 N)^[b] i := by
    intro a b hab hb heq
    obtain ⟨d, rfl⟩ := Nat.exists_eq_add_of_le hab.le
    rw [Function.iterate_add_apply] at heq
    exact hmin d (by omega) (by omega) ((hO.sig_inj.iterate a) heq).symm
  have hXs : ∀ a, isX m0 N ((sig m0 N)^[a] i) := hO.sig_lt hX
  have hPs : ∀ a, ¬ P ((sig m0 N)^[a] i) := by
    intro a
    induction a with
    | zero => exact hP
    | succ a ih => rw [Function.iterate_succ_apply', hR.cl]; exact ih
  have e1 : m1.heVertex = m0.heVertex := by rw [hm1]; exact hR.same.1
  have e2 : m1.nHe = N := by rw [hm1]; exact hR.same.2.1.trans hO.he
  have e3 : m1.heNext = m.heNext := by rw [hm1]
  have e4 : m1.heFace = m.heFace := by rw [hm1]
  have e5 : m1.nF = m.nF := by rw [hm1]
  -- interior halfedges keep their entries
  have hin : ∀ {m' : Mesh} {a : ℕ}, LI m0 N m1 i (m.nF + m.nBL) a m' → ∀ h < N, m0.heFace h ≠ INV →
      m'.heNext h = m0.heNext h ∧ m'.heFace h = m0.heFace h := by
    intro m' a hL h hh hf
    have hne : ∀ j, (sig m0 N)^[j] i ≠ h := fun j e => hf (e ▸ (hXs j).2)
    have hnP : ¬ P h := fun hP => hf (hR.sub h hP).2
    rw [hL.next' h (fun j _ => hne _), hL.face' h (fun j _ => hne _), e3, e4, hR.next h hnP, hR.face h hnP]
    exact ⟨rfl, rfl⟩
  intro r
  induction r with
  | zero => intro a fuel m' _ h0; omega
  | succ r ih =>
    intro a fuel m' har _ hf hL
    obtain ⟨fuel, rfl⟩ : ∃ f', fuel = f' + 1 := ⟨fuel - 1, by omega⟩
    have hcX := hXs a
    generalize hcur : (sig m0 N)^[a] i = cur at hcX
    obtain ⟨k, hk1, hk2, hk3, hk4, hk5⟩ := hO.sig_eq hcX
    have htw := hO.tw cur hcX.1 hcX.2
    have htl := hO.twin_lt hcX.1
    have hnew : (sig m0 N)^[a + 1] i = sig m0 N cur := by rw [Function.iterate_succ_apply', hcur]
    unfold bdyLoop
    -- the mesh after the writes at the beginning of the round
    have hst : ∀ h < N, m0.heFace h ≠ INV → upd m'.heFace cur (m.nF + m.nBL) h = m0.heFace h := by
      intro h hh hf
      rw [upd_ne _ _ (show h ≠ cur from fun e => hf (e ▸ hcX.2))]
      exact (hin hL h hh hf).2
    simp only
    have hnx := hO.face _ htl htw
    have hb1 : (m'.bdyMark cur (m.nF + m.nBL)).heNext = m'.heNext := rfl
    rw [hb1, (hin hL _ htl htw).1, if_neg (show ¬ m0.heNext (twin cur) = INV by have := hO.lim; omega)]
    generalize hm2 : m'.bdyMark cur (m.nF + m.nBL) = m2
    have f1 : m2.heNext = m'.heNext := by rw [← hm2]; rfl
    have f2 : m2.heFace = upd m'.heFace cur (m.nF + m.nBL) := by rw [← hm2]; rfl
    have f3 : m2.nHe = N := by rw [← hm2]; exact hL.same.2.1.trans e2
    -- the rotation of the present mesh is that of the initial one
    have hrot : ∀ j ≤ k, (rho m2)^[j] (twin (m0.heNext (twin cur))) = (rho m0)^[j + 1] (twin cur) := by
      intro j hj
      induction j with
      | zero => rfl
      | succ j ihj =>
        rw [Function.iterate_succ_apply', ihj (by omega), Function.iterate_succ_apply' (rho m0) (j + 1)]
        have h1 := (hO.rot hcX.1 hcX.2 (j + 1) (fun x hx => hk4 x (by omega))).1
        have h2 := hk4 (j + 1) (by omega)
        show twin (m2.heNext _) = twin (m0.heNext _)
        rw [f1, (hin hL _ h1 h2).1]
    have horb : bdyOrbit m2 i (m2.nHe + 1) 0 (twin (m0.heNext (twin cur))) = .ok (sig m0 N cur) := by
      rw [hk2, ← hrot k le_rfl]
      refine bdyOrbit_ok k _ _ _ (by omega) (by omega) ?_ ?_
      · intro j hj
        rw [hrot j (by omega)]
        have h1 := (hO.rot hcX.1 hcX.2 (j + 1) (fun x hx => hk4 x (by omega))).1
        have h2 := hk4 (j + 1) (by omega)
        refine ⟨?_, ?_, ?_⟩
        · rw [f2, hst _ h1 h2]; exact h2
        · intro e; exact h2 (e ▸ hX.2)
        · rw [f1, (hin hL _ h1 h2).1]
          have := (hO.face _ h1 h2).2.1
          have := hO.lim
          omega
      · rw [hrot k le_rfl, ← hk2]
        by_cases han : a + 1 = n
        · right
          rw [← hnew, han, hn]
        · left
          rw [f2, ← hnew, upd_ne _ _ (by rw [← hcur]; exact (hs a (a + 1) (by omega) (by omega)).symm),
            hL.face' _ (fun j hj => hs j (a + 1) (by omega) (by omega)), e4, hR.face _ (hPs _)]
          exact (hXs _).2
    rw [horb]
    -- the state after this round
    have hL' : LI m0 N m1 i (m.nF + m.nBL) (a + 1) { m2 with heNext := upd m2.heNext (sig m0 N cur) cur } := by
      have hcf : m'.heFace cur = INV := by
        rw [hL.face' cur (fun j hj => by rw [← hcur]; exact hs j a hj (by omega)), e4, hR.face _ (by rw [← hcur]; exact hPs a)]
        exact hcX.2
      have hsame : m2.heVertex = m'.heVertex ∧ m2.nHe = m'.nHe ∧ m2.nF = m'.nF ∧ m2.nV = m'.nV ∧ m2.nE = m'.nE ∧
          m2.nBL = m'.nBL ∧ m2.fHalfedge = m'.fHalfedge := by rw [← hm2]; exact ⟨rfl, rfl, rfl, rfl, rfl, rfl, rfl⟩
      obtain ⟨s1, s2, s3, s4, s5, s6, s7⟩ := hsame
      refine ⟨?_, ?_, ?_, ?_, ?_, ?_, ?_⟩
      · simp only [s1, s2, s3, s4, s5, s6, s7]; exact hL.same
      · intro j hj
        simp only [f2]
        by_cases hja : j = a
        · rw [hja, hcur, upd_same]
        · rw [upd_ne _ _ (by rw [← hcur]; exact hs j a (by omega) (by omega)), hL.face j (by omega)]
      · intro h hh
        simp only [f2]
        rw [upd_ne _ _ (show h ≠ cur from fun e => hh a (by omega) (by rw [hcur, e])), hL.face' h (fun j hj => hh j (by omega))]
      · intro j hj
        simp only [f1]
        by_cases hja : j = a
        · rw [hja, hnew, upd_same, hcur]
        · rw [upd_ne _ _, hL.next j (by omega)]
          rw [← hnew]
          intro e
          rw [Function.iterate_succ_apply', Function.iterate_succ_apply'] at e
          exact hs j a (by omega) (by omega) (hO.sig_inj e)
      · intro h hh
        simp only [f1]
        rw [upd_ne _ _ (show h ≠ sig m0 N cur from fun e => hh a (by omega) (by rw [hnew, e])),
          hL.next' h (fun j hj => hh j (by omega))]
      · intro v
        have hv2 : m2.vHalfedge = upd m'.vHalfedge (m0.heVertex (twin cur)) (twin cur) := by
          rw [← hm2]; unfold bdyMark; simp only; rw [hL.same.1, e1]
        simp only [hv2]
        by_cases hv : m0.heVertex (twin cur) = v
        · right
          exact ⟨a, by omega, by rw [hcur, ← hv, upd_same], by rw [hcur]; exact hv⟩
        · rw [upd_ne _ _ (show v ≠ _ from fun e => hv e.symm)]
          rcases hL.vhe v with ⟨h1, h2⟩ | ⟨j, hj, h1⟩
          · left
            refine ⟨h1, ?_⟩
            intro j hj
            by_cases hja : j = a
            · rw [hja, hcur]; exact hv
            · exact h2 j (by omega)
          · exact .inr ⟨j, by omega, h1⟩
      · have hi2 : m2.nInt = m'.nInt - 1 := by rw [← hm2]; rfl
        have hF : m'.nF = m.nF := hL.same.2.2.1.trans e5
        have hc1 := count_add_one (p := fun h => m2.heFace h < m2.nF ∨ m2.heFace h = INV)
          (q := fun h => m'.heFace h < m'.nF ∨ m'.heFace h = INV) (n := N) (a := cur) hcX.1
          (by simp only [f2, s3, hF, upd_same]; omega) (.inr hcf) (by
            intro x _ hx
            simp only [f2, s3]
            rw [upd_ne _ _ hx])
        simp only
        rw [hi2, hL.int, hc1]
        rfl
    rw [f1] at hL'
    show ∃ m'', (if ¬ a + 1 < m2.nHe then _ else _) = _ ∧ _
    rw [if_neg (by omega)]
    by_cases hend : a + 1 = n
    · rw [if_pos (by rw [← hnew, hend, hn])]
      refine ⟨_, rfl, ?_⟩
      rw [← hend]
      exact hL'
    · rw [if_neg (by rw [← hnew]; exact hmin (a + 1) (by omega) (by omega)), ← hnew]
      rw [← hnew] at hL'
      exact ih (a + 1) fuel _ (by omega) (by omega) (by omega) hL'

/-- Indices of faces and loops do not reach `INVALID_IND`. -/
theorem RI.room {m0 : Mesh} {N : ℕ} (hO : Open m0 N) {P : ℕ → Prop} {m : Mesh} (hR : RI m0 N P m) {i : ℕ}
    (hX : isX m0 N i) (hP : ¬ P i) : m.nF + m.nBL < N := by
  have hroot : ∀ f < m.nF + m.nBL, m.fHalfedge f < N ∧ m.heFace (m.fHalfedge f) = f ∧ m.fHalfedge f ≠ i := by
    intro f hf
    by_cases h : f < m.nF
    · have h1 := hO.fhe f (by rw [← hR.same.2.2.1]; exact h)
      have h2 : m0.heFace (m0.fHalfedge f) ≠ INV := by
        rw [h1.2]
        have := hR.room0
        have := hO.lim
        omega
      have h3 : ¬ P (m0.fHalfedge f) := fun h3 => h2 (hR.sub _ h3).2
      rw [hR.fhe f h, hR.face _ h3]
      exact ⟨h1.1, h1.2, fun e => h2 (e ▸ hX.2)⟩
    · obtain ⟨h1, h2⟩ := hR.root (f - m.nF) (by omega)
      rw [show m.nF + (f - m.nF) = f by omega] at h1 h2
      exact ⟨(hR.sub _ h1).1, h2, fun e => hP (e ▸ h1)⟩
  have h1 : Set.InjOn (fun f => if f < m.nF + m.nBL then m.fHalfedge f else i) (Finset.range (m.nF + m.nBL + 1) : Set ℕ) := by
    intro a ha b hb hab
    simp only [Finset.coe_range, Set.mem_Iio] at ha hb hab
    split_ifs at hab with h1 h2 h2
    · rw [← (hroot a h1).2.1, ← (hroot b h2).2.1, hab]
    · exact absurd hab (hroot a h1).2.2
    · exact absurd hab.symm (hroot b h2).2.2
    · omega
  have h2 := Finset.card_le_card_of_injOn (t := Finset.range N) _ (fun a ha => by
    simp only [Finset.coe_range, Set.mem_Iio] at ha ⊢
    split_ifs with h
    · exact (hroot a h).1
    · exact hX.1) h1
  simp at h2
  omega

theorem resolve_ok {m0 : Mesh} {N : ℕ} (hO : Open m0 N) {P : ℕ → Prop} {m : Mesh} (hR : RI m0 N P m) {i : ℕ} (hi : i < N) :
    ∃ m' P', resolve m i = .ok m' ∧ RI m0 N P' m' ∧ (∀ h, P h → P' h) ∧ (m0.heFace i = INV → P' i) := by
  unfold resolve
  by_cases hf : m.heFace i = INV
  swap
  · rw [if_pos hf]
    refine ⟨m, P, rfl, hR, fun _ h => h, ?_⟩
    intro h0
    by_contra hP
    exact hf (by rw [hR.face i hP]; exact h0)
  rw [if_neg (by simpa using hf)]
  have hlim := hO.lim
  -- the halfedge is exterior and not resolved
  have hP : ¬ P i := by
    intro hP
    obtain ⟨b, hb, h1, -⟩ := hR.faceP i hP
    have := hR.room0
    omega
  have hX : isX m0 N i := ⟨hi, by rw [← hR.face i hP]; exact hf⟩
  have hroom := hR.room hO hX hP
  -- the length of the loop
  have hback := hO.sig_per.back i
  obtain ⟨k, hk, hhit, hmin⟩ := first_hit hback (fun z hz => (by
    obtain ⟨j, rfl⟩ := hz
    rw [← Function.iterate_succ_apply]
    exact (hO.sig_lt hX (j + 1)).1 : z < N))
  have hn : (sig m0 N)^[k + 1] i = i := by rw [Function.iterate_succ_apply]; exact hhit
  have hmin' : ∀ j, 0 < j → j < k + 1 → (sig m0 N)^[j] i ≠ i := by
    intro j h0 hj
    obtain ⟨j, rfl⟩ : ∃ j', j = j' + 1 := ⟨j - 1, by omega⟩
    rw [Function.iterate_succ_apply]
    exact hmin j (by omega)
  have hnN : k + 1 < N := by
    have hnd := orbit_range_nodup hn (fun j hj => hmin' (j + 1) (by omega) (by omega))
    have h1 : (twin i :: (List.range (k + 1)).map (fun j => (sig m0 N)^[j] i)).Nodup := by
      rw [List.nodup_cons]
      refine ⟨?_, hnd⟩
      rw [List.mem_map]
      rintro ⟨j, -, hj⟩
      exact hO.tw i hi hX.2 (hj ▸ (hO.sig_lt hX j).2)
    have h2 : (twin i :: (List.range (k + 1)).map (fun j => (sig m0 N)^[j] i)) ⊆ List.range N := by
      intro x hx
      rw [List.mem_range]
      rw [List.mem_cons, List.mem_map] at hx
      rcases hx with rfl | ⟨j, -, rfl⟩
      · exact hO.twin_lt hi
      · exact (hO.sig_lt hX j).1
    have := (h1.subperm h2).length_le
    simp at this
    omega
  obtain ⟨m'', he, hL⟩ := bdyLoop_ok hO hR hX hP hn hmin' hnN rfl (by omega) (k + 1) 0 (m.nHe + 1)
    { m with fHalfedge := upd m.fHalfedge (m.nF + m.nBL) i, nBL := m.nBL + 1 } (by omega) (by omega)
    (by rw [hR.same.2.1, hO.he]; omega) ⟨⟨rfl, rfl, rfl, rfl, rfl, rfl, rfl⟩, fun j hj => by omega, fun h _ => rfl,
      fun j hj => by omega, fun h _ => rfl, fun v => .inl ⟨rfl, fun j hj => by omega⟩, hR.int⟩
  have horb : ∀ h, Orb (sig m0 N) i h ↔ ∃ j < k + 1, (sig m0 N)^[j] i = h := by
    intro h
    rw [← orbit_range_mem hn, List.mem_map]
    simp [List.mem_range]
  have horb' : ∀ h, Orb (sig m0 N) i h ↔ ∃ j < k + 1, (sig m0 N)^[j + 1] i = h := by
    intro h
    rw [horb]
    constructor
    · rintro ⟨j, hj, rfl⟩
      by_cases h0 : j = 0
      · exact ⟨k, by omega, by rw [h0, hn]; rfl⟩
      · exact ⟨j - 1, by omega, by rw [show j - 1 + 1 = j by omega]⟩
    · rintro ⟨j, hj, rfl⟩
      by_cases h0 : j = k
      · exact ⟨0, by omega, by rw [h0, hn]; rfl⟩
      · exact ⟨j + 1, by omega, rfl⟩
  have hXo : ∀ h, Orb (sig m0 N) i h → isX m0 N h := by rintro h ⟨j, rfl⟩; exact hO.sig_lt hX j
  have hPo : ∀ h, Orb (sig m0 N) i h → ¬ P h := by
    rintro h ⟨j, rfl⟩
    induction j with
    | zero => exact hP
    | succ a ih => rw [Function.iterate_succ_apply', hR.cl]; exact ih
  have hcl : ∀ h, Orb (sig m0 N) i (sig m0 N h) ↔ Orb (sig m0 N) i h :=
    fun h => ⟨fun h1 => h1.trans (hO.sig_per.back h), fun h1 => h1.tail⟩
  obtain ⟨s1, s2, s3, s4, s5, s6, s7⟩ := hL.same
  simp only at s1 s2 s3 s4 s5 s6 s7
  obtain ⟨r1, r2, r3, r4, r5⟩ := hR.same
  have hnew : ∀ h, Orb (sig m0 N) i h → m''.heFace h = m.nF + m.nBL := by
    intro h hh
    obtain ⟨j, hj, rfl⟩ := (horb h).1 hh
    exact hL.face j hj
  have hold : ∀ h, ¬ Orb (sig m0 N) i h → m''.heFace h = m.heFace h := by
    intro h hh
    exact hL.face' h (fun j hj e => hh ((horb h).2 ⟨j, hj, e⟩))
  refine ⟨m'', fun h => P h ∨ Orb (sig m0 N) i h, he, ?_, fun _ h => .inl h, fun _ => .inr (Orb.refl _ _)⟩
  refine ⟨⟨by rw [s1, r1], by rw [s2, r2], by rw [s3, r3], by rw [s4, r4], by rw [s5, r5]⟩, ?_, ?_, ?_, ?_, ?_, ?_, ?_, ?_, ?_,
    hL.int, by omega, ?_⟩
  · rintro h (h1 | h1)
    · exact hR.sub h h1
    · exact hXo h h1
  · intro h
    show P _ ∨ _ ↔ _
    rw [hR.cl, hcl]
  · intro h hh
    push Not at hh
    rw [hL.next' h (fun j hj e => hh.2 ((horb' h).2 ⟨j, hj, e⟩))]
    exact hR.next h hh.1
  · rintro h (h1 | h1)
    · rw [hL.next' _ (fun j hj e => hPo _ ((hcl h).1 ((horb' _).2 ⟨j, hj, e⟩)) h1)]
      exact hR.nextP h h1
    · obtain ⟨j, hj, rfl⟩ := (horb h).1 h1
      rw [← Function.iterate_succ_apply' (sig m0 N)]
      exact hL.next j hj
  · intro h hh
    push Not at hh
    rw [hold h hh.2]
    exact hR.face h hh.1
  · rintro h (h1 | h1)
    · obtain ⟨b, hb, h2, h3⟩ := hR.faceP h h1
      refine ⟨b, by omega, ?_, ?_⟩
      · rw [hold h (fun h4 => hPo h h4 h1), h2, s3]
      · rw [s3, s7, upd_ne _ _ (by omega)]; exact h3
    · refine ⟨m.nBL, by omega, ?_, ?_⟩
      · rw [hnew h h1, s3]
      · rw [s3, s7, upd_same]; exact h1
  · intro b hb
    rw [s3, s7]
    by_cases hbn : b = m.nBL
    · rw [hbn, upd_same]
      exact ⟨.inr (Orb.refl _ _), hnew i (Orb.refl _ _)⟩
    · rw [upd_ne _ _ (by omega)]
      obtain ⟨h1, h2⟩ := hR.root b (by omega)
      exact ⟨.inl h1, by rw [hold _ (fun h => hPo _ h h1)]; exact h2⟩
  · rintro h (h1 | h1)
    · rw [hold h (fun h4 => hPo h h4 h1), hold _ (fun h4 => hPo h ((hcl h).1 h4) h1)]
      exact hR.fsig h h1
    · rw [hnew h h1, hnew _ ((hcl h).2 h1)]
  · intro f hf
    rw [s3] at hf
    rw [s7, upd_ne _ _ (by omega)]
    exact hR.fhe f hf
  · intro v
    rcases hL.vhe v with ⟨h1, h2⟩ | ⟨j, hj, h1, h2⟩
    · rw [h1]
      simp only
      rcases hR.vhe v with ⟨h3, h4⟩ | ⟨w, h3, h4⟩
      · left
        refine ⟨h3, ?_⟩
        rintro w (hw | hw)
        · exact h4 w hw
        · obtain ⟨j, hj, rfl⟩ := (horb w).1 hw
          exact h2 j hj
      · exact .inr ⟨w, .inl h3, h4⟩
    · exact .inr ⟨_, .inr ⟨j, rfl⟩, h1, h2⟩

theorem Open.nF_le {m0 : Mesh} {N : ℕ} (hO : Open m0 N) : m0.nF ≤ N := by
  have h1 : Set.InjOn m0.fHalfedge (Finset.range m0.nF : Set ℕ) := by
    intro a ha b hb hab
    simp only [Finset.coe_range, Set.mem_Iio] at ha hb
    rw [← (hO.fhe a ha).2, ← (hO.fhe b hb).2, hab]
  have h2 := Finset.card_le_card_of_injOn (t := Finset.range N) _ (fun a ha => by
    simp only [Finset.coe_range, Set.mem_Iio] at ha ⊢
    exact (hO.fhe a ha).1) h1
  simpa using h2

/-- All boundary loops are resolved. -/
theorem resolveAll_ok {m0 : Mesh} {N : ℕ} (hO : Open m0 N) :
    ∃ m, (List.range m0.nHe).foldlM resolve { m0 with nInt := m0.nHe } = .ok m ∧ RI m0 N (isX m0 N) m := by
  have h0 : RI m0 N (fun _ => False) { m0 with nInt := m0.nHe } := by
    refine ⟨⟨rfl, rfl, rfl, rfl, rfl⟩, fun _ h => h.elim, fun _ => Iff.rfl, fun _ _ => rfl, fun _ h => h.elim, fun _ _ => rfl,
      fun _ h => h.elim, fun b hb => ?_, fun _ h => h.elim, fun _ _ => rfl, ?_, ?_, fun v => .inl ⟨rfl, fun _ h => h.elim⟩⟩
    · simp only [hO.bl] at hb; omega
    · simp only
      rw [hO.he]
      symm
      refine Nat.count_of_forall ?_
      intro h hh
      by_cases hf : m0.heFace h = INV
      · exact .inr hf
      · exact .inl (hO.face h hh hf).1
    · simp only [hO.bl]
      exact hO.nF_le
  rw [hO.he]
  rw [hO.he] at h0
  obtain ⟨m, he, P, hR, hP⟩ := range_inv (f := resolve) (n := N)
    (fun k m => ∃ P, RI m0 N P m ∧ ∀ h < k, m0.heFace h = INV → P h) ⟨_, h0, fun h hh => by omega⟩ (by
    rintro i m hi ⟨P, hR, hP⟩
    obtain ⟨m', P', h1, h2, h3, h4⟩ := resolve_ok hO hR hi
    refine ⟨m', h1, P', h2, ?_⟩
    intro h hh hf
    by_cases hhi : h = i
    · rw [hhi] at hf ⊢; exact h4 hf
    · exact h3 h (hP h (by omega) hf))
  have : P = isX m0 N := by
    funext h
    exact propext ⟨hR.sub h, fun hX => hP h hX.1 hX.2⟩
  rw [this] at hR
  exact ⟨m, he, hR⟩

end GC.Mesh
