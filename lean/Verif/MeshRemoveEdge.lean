import Verif.MeshInsertFace

/-! # removeEdge (model and helper lemmas) -/

set_option linter.unusedSimpArgs false

namespace GC

/-- `for (i = 0; i < n; i++) arr[idx(i)] = val(i);` -/
def writeLoop (arr idx val : ℕ → ℕ) : ℕ → ℕ → ℕ
  | 0 => arr
  | n + 1 => upd (writeLoop arr idx val n) (idx n) (val n)

theorem writeLoop_hit {arr idx val : ℕ → ℕ} {n : ℕ} (hinj : ∀ j < n, ∀ k < n, idx j = idx k → val j = val k) :
    ∀ k < n, writeLoop arr idx val n (idx k) = val k := by
  induction n with
  | zero => intro k hk; omega
  | succ n ih =>
    intro k hk
    unfold writeLoop; rw [upd_apply]
    split_ifs with h
    · exact (hinj k hk n (by omega) h).symm
    · exact ih (fun j hj k hk => hinj j (by omega) k (by omega)) k
        (by rcases Nat.lt_succ_iff_lt_or_eq.1 hk with h' | h'
            · exact h'
            · subst h'; exact absurd rfl h)

theorem writeLoop_miss {arr idx val : ℕ → ℕ} {n i : ℕ} (h : ∀ k < n, i ≠ idx k) :
    writeLoop arr idx val n i = arr i := by
  induction n with
  | zero => rfl
  | succ n ih =>
    unfold writeLoop; rw [upd_ne _ _ (h n (by omega))]
    exact ih fun k hk => h k (by omega)

/-- The ring-collecting loop of `removeEdge`, manifold_surface_mesh.cpp:1279-1288: the halfedges from `cur`
up to `start`, or `none` if one of them belongs to edge `e`. -/
def ringFrom (next : ℕ → ℕ) (e start : ℕ) : ℕ → ℕ → Res (Option (List ℕ))
  | 0, _ => .error .hang
  | n + 1, cur =>
    if cur = start then .ok (some [])
    else if cur / 2 = e then .ok none
    else match ringFrom next e start n (next cur) with
      | .error x => .error x
      | .ok none => .ok none
      | .ok (some l) => .ok (some (cur :: l))

theorem ringFrom_some {next : ℕ → ℕ} {e start fuel cur k : ℕ} (hk : k < fuel) (hhit : next^[k] cur = start)
    (hmin : ∀ j < k, next^[j] cur ≠ start ∧ next^[j] cur / 2 ≠ e) :
    ringFrom next e start fuel cur = .ok (some ((List.range k).map (fun j => next^[j] cur))) := by
  induction fuel generalizing cur k with
  | zero => omega
  | succ n ih =>
    unfold ringFrom
    cases k with
    | zero => rw [if_pos (by simpa using hhit)]; simp
    | succ k =>
      have h0 := hmin 0 (by omega)
      simp only [Function.iterate_zero, id] at h0
      rw [if_neg h0.1, if_neg h0.2, ih (cur := next cur) (k := k) (by omega)
        (by rw [Function.iterate_succ_apply] at hhit; exact hhit)
        (by intro j hj; have := hmin (j + 1) (by omega); rw [Function.iterate_succ_apply] at this; exact this)]
      simp only
      congr 2
      rw [List.range_succ_eq_map, List.map_cons, List.map_map]
      congr 1

theorem ringFrom_none {next : ℕ → ℕ} {e start fuel cur k : ℕ} (hk : k < fuel) (hhit : next^[k] cur / 2 = e)
    (hs : next^[k] cur ≠ start) (hmin : ∀ j < k, next^[j] cur ≠ start ∧ next^[j] cur / 2 ≠ e) :
    ringFrom next e start fuel cur = .ok none := by
  induction fuel generalizing cur k with
  | zero => omega
  | succ n ih =>
    unfold ringFrom
    cases k with
    | zero => rw [if_neg (by simpa using hs), if_pos (by simpa using hhit)]
    | succ k =>
      have h0 := hmin 0 (by omega)
      simp only [Function.iterate_zero, id] at h0
      rw [if_neg h0.1, if_neg h0.2, ih (cur := next cur) (k := k) (by omega)
        (by rw [Function.iterate_succ_apply] at hhit; exact hhit)
        (by rw [Function.iterate_succ_apply] at hs; exact hs)
        (by intro j hj; have := hmin (j + 1) (by omega); rw [Function.iterate_succ_apply] at this; exact this)]

namespace Mesh

/-- Second half of `removeEdge`, manifold_surface_mesh.cpp:1294-1323, given the ring of `N` halfedges. -/
def removeEdgeWrite (m : Mesh) (e : ℕ) (ring : ℕ → ℕ) (N : ℕ) : Mesh :=
  let A := eHalfedge e
  let B := twin A
  let keep := m.heFace A
  let src := m.heVertex A
  let dst := m.heVertex B
  let altSrc := m.heNext B
  let altDst := m.heNext A
  let m1 := { m with
    heNext := writeLoop m.heNext ring (fun i => ring ((i + 1) % N)) N,
    heFace := writeLoop m.heFace ring (fun _ => keep) N }
  let m2 := { m1 with vHalfedge := if m1.vHalfedge src / 2 = e then upd m1.vHalfedge src altSrc else m1.vHalfedge }
  let m3 := { m2 with vHalfedge := if m2.vHalfedge dst / 2 = e then upd m2.vHalfedge dst altDst else m2.vHalfedge }
  let m4 := { m3 with fHalfedge := upd m3.fHalfedge keep (ring 0) }
  (m4.deleteFace (m4.heFace B)).deleteEdgeBundle e

/-- `ManifoldSurfaceMesh::removeEdge`, manifold_surface_mesh.cpp:1270-1328. The null face `Face()` is `INV`. -/
def removeEdge (m : Mesh) (e : ℕ) : Res (Mesh × ℕ) :=
  if m.eIsBoundary e then .error .throw
  else
    let A := eHalfedge e
    let B := twin A
    match ringFrom m.heNext e A m.nHeFill (m.heNext A) with
    | .error x => .error x
    | .ok none => .ok (m, INV)
    | .ok (some r0) =>
      match ringFrom m.heNext e B m.nHeFill (m.heNext B) with
      | .error x => .error x
      | .ok none => .ok (m, INV)
      | .ok (some r1) =>
        if m.heFace A = m.heFace B then .ok (m, INV)
        else .ok (m.removeEdgeWrite e (fun i => (r0 ++ r1).getD i INV) (r0 ++ r1).length, m.heFace A)

/-- Pointwise effect of a successful `removeEdge`. -/
structure RemSpec (m m' : Mesh) (A B : ℕ) : Prop where
  lA : m.heLive A
  hB : B = twin A
  fne : m.heFace A ≠ m.heFace B
  iA : ¬ m.ext A
  iB : ¬ m.ext B
  next_A : m'.heNext A = INV
  next_B : m'.heNext B = INV
  next_o : ∀ i, m.heLive i → i ≠ A → i ≠ B → m'.heNext i =
    if m.heNext i = A then m.heNext B else if m.heNext i = B then m.heNext A else m.heNext i
  next_dead : ∀ i, ¬ m.heLive i → m'.heNext i = m.heNext i
  v_o : ∀ i, m.heLive i → i ≠ A → i ≠ B → m'.heVertex i = m.heVertex i
  f_o : ∀ i, m.heLive i → i ≠ A → i ≠ B → m'.heFace i = if m.heFace i = m.heFace B then m.heFace A else m.heFace i
  vh_o : ∀ v, ¬ (m.vLive v ∧ (m.vHalfedge v = A ∨ m.vHalfedge v = B)) → m'.vHalfedge v = m.vHalfedge v
  vh_e : ∀ v, m.vLive v → (m.vHalfedge v = A ∨ m.vHalfedge v = B) →
    (m'.vHalfedge v = m.heNext A ∨ m'.vHalfedge v = m.heNext B) ∧ m.heVertex (m'.vHalfedge v) = v
  fh : ∀ f, m'.fHalfedge f = if f = m.heFace B then INV else if f = m.heFace A then m.heNext A else m.fHalfedge f
  c_heFill : m'.nHeFill = m.nHeFill
  c_heCap : m'.nHeCap = m.nHeCap
  c_eFill : m'.nEFill = m.nEFill
  c_eCap : m'.nECap = m.nECap
  c_vFill : m'.nVFill = m.nVFill
  c_vCap : m'.nVCap = m.nVCap
  c_fFill : m'.nFFill = m.nFFill
  c_fCap : m'.nFCap = m.nFCap
  c_blFill : m'.nBLFill = m.nBLFill
  c_he : m'.nHe = m.nHe - 2
  c_int : m'.nInt = m.nInt - 2
  c_e : m'.nE = m.nE - 1
  c_v : m'.nV = m.nV
  c_f : m'.nF = m.nF - 1
  c_bl : m'.nBL = m.nBL

section
variable {m m' : Mesh} {A B : ℕ}

theorem RemSpec.live (hv : m.Valid) (S : RemSpec m m' A B) (i : ℕ) :
    m'.heLive i ↔ (m.heLive i ∧ i ≠ A ∧ i ≠ B) := by
  have lB : m.heLive B := by rw [S.hB]; exact hv.twin_live _ S.lA
  by_cases hA : i = A
  · subst hA; simp [heLive, S.next_A]
  by_cases hB : i = B
  · subst hB; simp [heLive, S.next_B]
  simp only [hA, hB, ne_eq, not_false_eq_true, and_true]
  by_cases hi : m.heLive i
  · refine iff_of_true ⟨by rw [S.c_heFill]; exact hi.1, ?_⟩ hi
    rw [S.next_o i hi hA hB]
    split_ifs
    · exact (hv.live_lt_INV (hv.next_live _ lB)).ne
    · exact (hv.live_lt_INV (hv.next_live _ S.lA)).ne
    · exact hi.2
  · refine iff_of_false ?_ hi
    unfold heLive at hi ⊢; rw [S.c_heFill, S.next_dead i hi]; exact hi

theorem rem_valid (hv : m.Valid) (S : RemSpec m m' A B) : m'.Valid ∧
    (∀ i, m.heLive i → i ≠ A → i ≠ B → (m'.ext i ↔ m.ext i)) ∧ 2 ≤ m.nHe ∧ 1 ≤ m.nE ∧ 1 ≤ m.nF := by
  classical
  have lA := S.lA
  have lB : m.heLive B := by rw [S.hB]; exact hv.twin_live _ S.lA
  have hlive := S.live hv
  have tA : twin A = B := S.hB.symm
  have tB : twin B = A := by rw [S.hB, twin_twin]
  have AB : A ≠ B := by rintro h; rw [← tA] at h; exact twin_ne A h.symm
  have nA : m.heLive (m.heNext A) := hv.next_live _ lA
  have nB : m.heLive (m.heNext B) := hv.next_live _ lB
  have nAA : m.heNext A ≠ A := hv.deg_two _ lA
  have nBB : m.heNext B ≠ B := hv.deg_two _ lB
  have nAB : m.heNext A ≠ B := by intro h; apply S.fne; rw [← hv.face_next lA, h]
  have nBA : m.heNext B ≠ A := by intro h; apply S.fne; rw [← hv.face_next lB, h]
  have lnA : m'.heLive (m.heNext A) := (hlive _).2 ⟨nA, nAA, nAB⟩
  have lnB : m'.heLive (m.heNext B) := (hlive _).2 ⟨nB, nBA, nBB⟩
  have htl : ∀ i, m'.heLive i → m'.heLive (twin i) := by
    intro i hi
    obtain ⟨h, h1, h2⟩ := (hlive i).1 hi
    refine (hlive _).2 ⟨hv.twin_live _ h, ?_, ?_⟩
    · rw [Ne, twin_eq_iff, tA]; exact h2
    · rw [Ne, twin_eq_iff, tB]; exact h1
  have hnl : ∀ i, m'.heLive i → m'.heLive (m'.heNext i) := by
    intro i hi
    obtain ⟨h, h1, h2⟩ := (hlive i).1 hi
    rw [S.next_o i h h1 h2]
    split_ifs with c1 c2
    · exact lnB
    · exact lnA
    · exact (hlive _).2 ⟨hv.next_live _ h, c1, c2⟩
  have hper := hv.per_nx
  have hnot : ¬ Orb m.nx A B := fun o => S.fne ((hv.face_nx_iff lA lB).2 o)
  have forb : ∀ {i j}, m'.heLive i → m'.heLive j → (Orb m'.heNext i j ↔
      (m.heFace i = m.heFace j ∨ ((m.heFace i = m.heFace A ∨ m.heFace i = m.heFace B) ∧
        (m.heFace j = m.heFace A ∨ m.heFace j = m.heFace B)))) := by
    intro i j hi hj
    have hi0 := ((hlive i).1 hi).1
    have hj0 := ((hlive j).1 hj).1
    rw [← orb_subdivide (g := swapf m.nx A B) (fun z => m'.heLive z) hnl ?_ hi hj, swapf_merge hper hnot,
      ← hv.face_nx_iff hi0 hj0, ← hv.face_nx_iff lA hi0, ← hv.face_nx_iff lA hj0, ← hv.face_nx_iff lB hi0,
      ← hv.face_nx_iff lB hj0]
    · simp only [eq_comm]
    · intro x hx
      obtain ⟨h, h1, h2⟩ := (hlive x).1 hx
      rw [swapf_other _ h1 h2, nx_live h, S.next_o x h h1 h2]
      by_cases c1 : m.heNext x = A
      · right
        rw [c1, if_pos rfl, swapf_left, nx_live lB]
        exact ⟨fun h => ((hlive _).1 h).2.1 rfl, rfl⟩
      by_cases c2 : m.heNext x = B
      · right
        rw [c2, if_neg AB.symm, if_pos rfl, swapf_right, nx_live lA]
        exact ⟨fun h => ((hlive _).1 h).2.2 rfl, rfl⟩
      left; rw [if_neg c1, if_neg c2]
  have vorb : ∀ {i j}, m'.heLive i → m'.heLive j → (Orb m'.vNext i j ↔ m.heVertex i = m.heVertex j) := by
    intro i j hi hj
    have hi0 := ((hlive i).1 hi).1
    have hj0 := ((hlive j).1 hj).1
    rw [hv.vertex_iff i j hi0 hj0]
    refine (orb_subdivide (f := m'.vNext) (g := m.vNext) (fun z => m'.heLive z) (fun z hz => hnl _ (htl z hz)) ?_ hi hj).symm
    intro x hx
    obtain ⟨h, h1, h2⟩ := (hlive _).1 (htl x hx)
    unfold vNext
    rw [S.next_o _ h h1 h2]
    by_cases c1 : m.heNext (twin x) = A
    · right; rw [c1, if_pos rfl, tA]
      exact ⟨fun h => ((hlive _).1 h).2.1 rfl, rfl⟩
    by_cases c2 : m.heNext (twin x) = B
    · right; rw [c2, if_neg AB.symm, if_pos rfl, tB]
      exact ⟨fun h => ((hlive _).1 h).2.2 rfl, rfl⟩
    left; rw [if_neg c1, if_neg c2]
  have fA := Valid.face_lt S.iA
  have fB := Valid.face_lt S.iB
  have fcap := hv.f_cap
  have ext_old : ∀ {i}, m.heLive i → i ≠ A → i ≠ B → (m'.ext i ↔ m.ext i) := by
    intro i hi h1 h2
    unfold ext; rw [S.f_o i hi h1 h2, S.c_fFill]
    split_ifs with c
    · rw [c]; omega
    · rfl
  have ext_inv : ∀ {i}, m'.heLive i → m'.ext i → m.heLive i ∧ m.ext i := by
    intro i hi ei
    obtain ⟨h, h1, h2⟩ := (hlive i).1 hi
    exact ⟨h, (ext_old h h1 h2).1 ei⟩
  have vlive : ∀ v, m'.vLive v ↔ m.vLive v := by
    intro v
    unfold vLive; rw [S.c_vFill]
    by_cases c : m.vLive v ∧ (m.vHalfedge v = A ∨ m.vHalfedge v = B)
    · refine iff_of_true ⟨c.1.1, ?_⟩ c.1
      rcases (S.vh_e v c.1 c.2).1 with h | h <;> rw [h]
      · exact (hv.live_lt_INV nA).ne
      · exact (hv.live_lt_INV nB).ne
    · rw [S.vh_o v c]
  have flive : ∀ f, m'.fLive f ↔ (m.fLive f ∧ f ≠ m.heFace B) := by
    intro f
    unfold fLive
    rw [S.c_fFill, S.c_fCap, S.c_blFill, S.fh]
    by_cases c1 : f = m.heFace B
    · simp [c1]
    rw [if_neg c1]
    by_cases c2 : f = m.heFace A
    · rw [if_pos c2]
      refine iff_of_true ⟨Or.inl (by omega), (hv.live_lt_INV nA).ne⟩ ⟨?_, c1⟩
      rw [c2]; exact hv.face_live _ lA
    · rw [if_neg c2]; simp [c1]
  have hN := hv.he_fill
  have hAlt := lA.1
  have hBe : B / 2 = A / 2 := by rw [S.hB, twin_div]
  have cHe : Nat.count (fun i => m.heNext i ≠ INV) m.nHeFill = Nat.count (fun i => m'.heNext i ≠ INV) m.nHeFill + 2 := by
    have e1 := count_add_one (p := fun i => m.heNext i ≠ INV ∧ i ≠ B) (q := fun i => m.heNext i ≠ INV) (a := B)
      lB.1 (by simp) lB.2 (fun i _ h => by simp [h])
    have e2 := count_add_one (p := fun i => m'.heNext i ≠ INV) (q := fun i => m.heNext i ≠ INV ∧ i ≠ B) (a := A)
      lA.1 (by simp [S.next_A]) ⟨lA.2, AB⟩ (fun i hi h => by
        have := hlive i; unfold heLive at this; rw [S.c_heFill] at this; tauto)
    rw [e1, e2]
  have cInt : Nat.count (fun i => m.heNext i ≠ INV ∧ m.heFace i < m.nFFill) m.nHeFill =
      Nat.count (fun i => m'.heNext i ≠ INV ∧ m'.heFace i < m'.nFFill) m.nHeFill + 2 := by
    have e1 := count_add_one (p := fun i => (m.heNext i ≠ INV ∧ m.heFace i < m.nFFill) ∧ i ≠ B)
      (q := fun i => m.heNext i ≠ INV ∧ m.heFace i < m.nFFill) (a := B)
      lB.1 (by simp) ⟨lB.2, fB⟩ (fun i _ h => by simp [h])
    have e2 := count_add_one (p := fun i => m'.heNext i ≠ INV ∧ m'.heFace i < m'.nFFill)
      (q := fun i => (m.heNext i ≠ INV ∧ m.heFace i < m.nFFill) ∧ i ≠ B) (a := A)
      lA.1 (by simp [S.next_A]) ⟨⟨lA.2, fA⟩, AB⟩ (fun i hi h => by
        have hl := hlive i; unfold heLive at hl; rw [S.c_heFill] at hl
        by_cases hb : i = B
        · subst hb; simp [S.next_B]
        by_cases hn : m.heNext i = INV
        · have : ¬ (i < m.nHeFill ∧ m'.heNext i ≠ INV) := fun h' => (hl.1 h').1.2 hn
          simp only [hi, true_and, not_not] at this
          simp [hn, this]
        · have x := ext_old ⟨hi, hn⟩ h hb
          unfold ext at x
          have : m'.heNext i ≠ INV := (hl.2 ⟨⟨hi, hn⟩, h, hb⟩).2
          simp only [hn, this, hb, ne_eq, not_false_eq_true, true_and, and_true]; omega)
    rw [e1, e2]
  have cE : Nat.count (fun e => m.heNext (eHalfedge e) ≠ INV) m.nEFill =
      Nat.count (fun e => m'.heNext (eHalfedge e) ≠ INV) m.nEFill + 1 := by
    have hAB2 : 2 * (A / 2) = A ∨ 2 * (A / 2) = B := by omega
    refine count_add_one (a := A / 2) (by omega) ?_ ?_ ?_
    · unfold eHalfedge; rcases hAB2 with h | h <;> rw [h]
      · simp [S.next_A]
      · simp [S.next_B]
    · unfold eHalfedge; rcases hAB2 with h | h <;> rw [h]
      · exact lA.2
      · exact lB.2
    · intro e he hne
      unfold eHalfedge
      have hl := hlive (2 * e); unfold heLive at hl; rw [S.c_heFill] at hl
      have h1 : 2 * e ≠ A := by omega
      have h2 : 2 * e ≠ B := by omega
      have h3 : 2 * e < m.nHeFill := by omega
      simp only [h1, h2, h3, ne_eq, not_false_eq_true, and_true, true_and] at hl
      exact hl
  have cF : Nat.count (fun f => m.fHalfedge f ≠ INV) m.nFFill =
      Nat.count (fun f => m'.fHalfedge f ≠ INV) m.nFFill + 1 := by
    refine count_add_one (a := m.heFace B) fB ?_ ?_ ?_
    · simp [S.fh]
    · exact (hv.face_live _ lB).2
    · intro f hf hne
      have := flive f
      unfold fLive at this; rw [S.c_fFill] at this
      simp only [hf, true_or, true_and, hne, ne_eq, not_false_eq_true, and_true] at this
      exact this
  refine ⟨?_, fun i hi h1 h2 => ext_old hi h1 h2, by have := hv.cnt_he; omega, by have := hv.cnt_e; omega,
    by have := hv.cnt_f; omega⟩
  constructor
  · rw [S.c_heFill, S.c_eFill]; exact hv.he_fill
  · rw [S.c_heFill, S.c_heCap]; exact hv.he_cap
  · rw [S.c_heCap, S.c_eCap]; exact hv.e_cap
  · rw [S.c_vFill, S.c_vCap]; exact hv.v_cap
  · rw [S.c_fFill, S.c_blFill, S.c_fCap]; exact hv.f_cap
  · exact htl
  · exact hnl
  · intro i hi
    obtain ⟨h, h1, h2⟩ := (hlive i).1 hi
    rw [vlive, S.v_o i h h1 h2]; exact hv.vertex_live _ h
  · intro i hi
    obtain ⟨h, h1, h2⟩ := (hlive i).1 hi
    rw [flive, S.f_o i h h1 h2]
    split_ifs with c
    · exact ⟨hv.face_live _ lA, S.fne⟩
    · exact ⟨hv.face_live _ h, c⟩
  · intro i j hi hj
    rw [forb hi hj]
    obtain ⟨h, h1, h2⟩ := (hlive i).1 hi
    obtain ⟨h', h1', h2'⟩ := (hlive j).1 hj
    rw [S.f_o i h h1 h2, S.f_o j h' h1' h2']
    have := S.fne
    by_cases c1 : m.heFace i = m.heFace B <;> by_cases c2 : m.heFace j = m.heFace B
    · simp [c1, c2]
    · simp only [c1, c2, if_true, if_false]
      constructor
      · intro h; right; exact ⟨Or.inr trivial, Or.inl h.symm⟩
      · rintro (h | ⟨-, h | h⟩)
        · exact absurd h.symm c2
        · exact h.symm
        · exact absurd h (by simp)
    · simp only [c1, c2, if_true, if_false]
      constructor
      · intro h; right; exact ⟨Or.inl h, Or.inr trivial⟩
      · rintro (h | ⟨h | h, -⟩)
        · exact absurd h (by simp)
        · exact h
        · exact absurd h (by simp)
    · simp only [c1, c2, if_false, or_false]
      constructor
      · intro h; exact Or.inl h
      · rintro (h | ⟨h, h'⟩)
        · exact h
        · rw [h, h']
  · intro i j hi hj
    rw [vorb hi hj]
    obtain ⟨h, h1, h2⟩ := (hlive i).1 hi
    obtain ⟨h', h1', h2'⟩ := (hlive j).1 hj
    rw [S.v_o i h h1 h2, S.v_o j h' h1' h2']
  · intro v hvl
    have hv0 := (vlive v).1 hvl
    obtain ⟨l0, e0⟩ := hv.v_he v hv0
    by_cases c : m.vHalfedge v = A ∨ m.vHalfedge v = B
    · obtain ⟨h1, h2⟩ := S.vh_e v hv0 c
      have : m'.heLive (m'.vHalfedge v) := by rcases h1 with h | h <;> rw [h]; exacts [lnA, lnB]
      obtain ⟨a, b, c⟩ := (hlive _).1 this
      exact ⟨this, by rw [S.v_o _ a b c, h2]⟩
    · rw [S.vh_o v (fun h => c h.2)]
      push Not at c
      exact ⟨(hlive _).2 ⟨l0, c.1, c.2⟩, by rw [S.v_o _ l0 c.1 c.2, e0]⟩
  · intro f hf
    obtain ⟨hf0, hne⟩ := (flive f).1 hf
    rw [S.fh, if_neg hne]
    by_cases c : f = m.heFace A
    · rw [if_pos c]
      refine ⟨lnA, ?_⟩
      rw [S.f_o _ nA nAA nAB, hv.face_next lA, if_neg S.fne, c]
    · rw [if_neg c]
      obtain ⟨l0, e0⟩ := hv.f_he f hf0
      have h1 : m.fHalfedge f ≠ A := by rintro h; rw [h] at e0; exact c e0.symm
      have h2 : m.fHalfedge f ≠ B := by rintro h; rw [h] at e0; exact hne e0.symm
      refine ⟨(hlive _).2 ⟨l0, h1, h2⟩, ?_⟩
      rw [S.f_o _ l0 h1 h2, e0, if_neg hne]
  · intro i hi
    obtain ⟨h, h1, h2⟩ := (hlive i).1 hi
    rw [S.next_o i h h1 h2]
    have fi := hv.face_next h
    split_ifs with c1 c2
    · rintro rfl
      rw [c1, hv.face_next lB] at fi; exact S.fne fi
    · rintro rfl
      rw [c2, hv.face_next lA] at fi; exact S.fne fi.symm
    · exact hv.deg_two i h
  · intro e he
    obtain ⟨h, h1, h2⟩ := (hlive _).1 he
    rw [ext_old h h1 h2]; exact hv.edge_int e h
  · intro i j hi hj ei ej hij
    obtain ⟨h, h1, h2⟩ := (hlive i).1 hi
    obtain ⟨h', h1', h2'⟩ := (hlive j).1 hj
    rw [S.v_o i h h1 h2, S.v_o j h' h1' h2'] at hij
    exact hv.bdy_unique i j h h' (ext_inv hi ei).2 (ext_inv hj ej).2 hij
  · intro i hi ei
    obtain ⟨h, h1, h2⟩ := (hlive i).1 hi
    have x := (ext_inv hi ei).2
    have y := hv.bdy_first i h x
    have vl := hv.vertex_live i h
    have l0 := (hv.v_he _ vl).1
    rw [S.v_o i h h1 h2]
    have c : ¬ (m.vHalfedge (m.heVertex i) = A ∨ m.vHalfedge (m.heVertex i) = B) := by
      rintro (c | c) <;> rw [c] at y
      · rw [tA] at y; exact S.iB y
      · rw [tB] at y; exact S.iA y
    rw [S.vh_o _ (fun h => c h.2)]
    push Not at c
    rw [ext_old (hv.twin_live _ l0)]
    · exact y
    · rw [Ne, twin_eq_iff, tA]; exact c.2
    · rw [Ne, twin_eq_iff, tB]; exact c.1
  · rw [S.c_he, S.c_heFill, hv.cnt_he, cHe]; rfl
  · rw [S.c_int, S.c_heFill, hv.cnt_int, cInt]; rfl
  · rw [S.c_e, S.c_eFill, hv.cnt_e, cE]; rfl
  · rw [S.c_v, S.c_vFill, hv.cnt_v]
    refine count_congr fun v hvv => ?_
    have := vlive v; unfold vLive at this; rw [S.c_vFill] at this
    simp only [hvv, true_and] at this; exact this.symm
  · rw [S.c_f, S.c_fFill, hv.cnt_f, cF]; rfl
  · rw [S.c_bl, S.c_blFill]; exact hv.cnt_bl
  · intro f h1 h2
    rw [S.c_fCap, S.c_blFill] at h1; rw [S.c_fCap] at h2
    rw [S.fh, if_neg (by omega), if_neg (by omega)]; exact hv.bl_live f h1 h2

end

/-- The ring of one side of `e`: refused if and only if both sides are the same face. -/
theorem ring_ok {m : Mesh} (hv : m.Valid) {A B e : ℕ} (lA : m.heLive A) (lB : m.heLive B) (hAe : A / 2 = e)
    (hBe : B / 2 = e) (hAB : A ≠ B) (hme : ∀ i, i / 2 = e → i = A ∨ i = B) :
    (m.heFace A = m.heFace B ∧ ringFrom m.heNext e A m.nHeFill (m.heNext A) = .ok none) ∨
    (m.heFace A ≠ m.heFace B ∧ ∃ k, m.heNext^[k + 1] (m.heNext A) = A ∧
      (∀ j < k + 1, m.heNext^[j] (m.heNext A) ≠ A) ∧
      ringFrom m.heNext e A m.nHeFill (m.heNext A) =
        .ok (some ((List.range (k + 1)).map (fun j => m.heNext^[j] (m.heNext A))))) := by
  have nA := hv.next_live _ lA
  obtain ⟨k, hk, hhit, hmin⟩ := first_hit (hv.back_next lA) (fun z hz => (hv.live_of_orb_next nA hz).1)
  have hface : ∀ j, m.heFace (m.heNext^[j] (m.heNext A)) = m.heFace A := by
    intro j
    have o : Orb m.heNext A (m.heNext^[j] (m.heNext A)) := Orb.head ⟨j, rfl⟩
    exact ((hv.face_iff _ _ lA (hv.live_of_orb_next lA o)).2 o).symm
  by_cases hf : m.heFace A = m.heFace B
  · left
    refine ⟨hf, ?_⟩
    have o := (hv.face_iff _ _ lA lB).1 hf
    have hper : m.heNext^[k + 1] A = A := by rw [Function.iterate_succ_apply]; exact hhit
    have := (orbit_range_mem hper).2 o
    rw [List.mem_map] at this
    obtain ⟨j, hj, hjB⟩ := this
    rw [List.mem_range] at hj
    have j0 : j ≠ 0 := by rintro rfl; exact hAB hjB
    obtain ⟨j, rfl⟩ : ∃ j', j = j' + 1 := ⟨j - 1, by omega⟩
    rw [Function.iterate_succ_apply] at hjB
    -- first occurrence of a halfedge of `e`
    classical
    have ex : ∃ i, m.heNext^[i] (m.heNext A) / 2 = e := ⟨j, by rw [hjB, hBe]⟩
    have hle := Nat.find_min' ex (show m.heNext^[j] (m.heNext A) / 2 = e by rw [hjB, hBe])
    refine ringFrom_none (k := Nat.find ex) (by omega) (Nat.find_spec ex) (hmin _ (by omega)) ?_
    intro i hi
    exact ⟨hmin i (by omega), Nat.find_min ex hi⟩
  · right
    refine ⟨hf, ?_⟩
    have k0 : k ≠ 0 := by rintro rfl; exact hv.deg_two _ lA hhit
    obtain ⟨k, rfl⟩ : ∃ k', k = k' + 1 := ⟨k - 1, by omega⟩
    refine ⟨k, hhit, hmin, ringFrom_some hk hhit ?_⟩
    intro j hj
    refine ⟨hmin j hj, ?_⟩
    intro h
    rcases hme _ h with h | h
    · exact hmin j hj h
    · have := hface j; rw [h] at this; exact hf this.symm

theorem rem_spec {m : Mesh} (hv : m.Valid) {e : ℕ} (le : m.heLive (2 * e)) :
    (m.ext (2 * e + 1) ∧ m.removeEdge e = .error .throw) ∨
    (m.heFace (2 * e) = m.heFace (2 * e + 1) ∧ m.removeEdge e = .ok (m, INV)) ∨
    (m.heFace (2 * e) ≠ m.heFace (2 * e + 1) ∧ ∃ m', m.removeEdge e = .ok (m', m.heFace (2 * e)) ∧
      RemSpec m m' (2 * e) (2 * e + 1)) := by
  have tA : twin (2 * e) = 2 * e + 1 := twin_two_mul e
  have tB : twin (2 * e + 1) = 2 * e := twin_two_mul_add e
  have lA := le
  have lB : m.heLive (2 * e + 1) := by rw [← tA]; exact hv.twin_live _ lA
  have hAe : (2 * e) / 2 = e := by omega
  have hBe : (2 * e + 1) / 2 = e := by omega
  have hme : ∀ i, i / 2 = e → i = 2 * e ∨ i = 2 * e + 1 := by intro i hi; omega
  have hme' : ∀ i, i / 2 = e → i = 2 * e + 1 ∨ i = 2 * e := by intro i hi; omega
  have iA : ¬ m.ext (2 * e) := hv.edge_int e lA
  have hbd : m.eIsBoundary e ↔ m.ext (2 * e + 1) := by
    unfold eIsBoundary heIsInterior faceIsBL eHalfedge ext; rw [tA, not_not]
  unfold removeEdge
  by_cases hb : m.ext (2 * e + 1)
  · left; exact ⟨hb, by rw [if_pos (hbd.2 hb)]⟩
  right
  rw [if_neg (fun h => hb (hbd.1 h))]
  simp only [eHalfedge, tA]
  clear hbd
  generalize hgA : 2 * e = A at *
  generalize hgB : A + 1 = B at *
  have AB : A ≠ B := by omega
  rcases ring_ok hv lA lB hAe hBe AB hme with ⟨hf, h⟩ | ⟨hf, k, hit, hmin, h⟩
  · left; rw [h]; exact ⟨hf, rfl⟩
  right
  rcases ring_ok hv lB lA hBe hAe AB.symm hme' with ⟨hf', h'⟩ | ⟨_, l, hit', hmin', h'⟩
  · exact absurd hf'.symm hf
  refine ⟨hf, ?_⟩
  rw [h, h']; simp only
  rw [if_neg hf]
  have nA := hv.next_live _ lA
  have nB := hv.next_live _ lB
  generalize hr0 : (List.range (k + 1)).map (fun j => m.heNext^[j] (m.heNext A)) = r0
  generalize hr1 : (List.range (l + 1)).map (fun j => m.heNext^[j] (m.heNext B)) = r1
  generalize hring : (fun i => (r0 ++ r1).getD i INV) = ring
  have hN : (r0 ++ r1).length = (k + 1) + (l + 1) := by rw [← hr0, ← hr1]; simp
  rw [hN]
  have ring0 : ∀ i < k + 1, ring i = m.heNext^[i] (m.heNext A) := by
    intro i hi
    rw [← hring, ← hr0, ← hr1]; simp only [List.getD]
    rw [List.getElem?_append_left (by simpa using hi)]; simp [hi]
  have ring1 : ∀ i, i < l + 1 → ring (k + 1 + i) = m.heNext^[i] (m.heNext B) := by
    intro i hi
    rw [← hring, ← hr0, ← hr1]; simp only [List.getD]
    rw [List.getElem?_append_right (by simp)]; simp [hi]
  have liveA : ∀ j, m.heLive (m.heNext^[j] (m.heNext A)) := fun j => hv.live_of_orb_next nA ⟨j, rfl⟩
  have liveB : ∀ j, m.heLive (m.heNext^[j] (m.heNext B)) := fun j => hv.live_of_orb_next nB ⟨j, rfl⟩
  have faceA : ∀ j, m.heFace (m.heNext^[j] (m.heNext A)) = m.heFace A := by
    intro j
    rw [← hv.face_next lA]; exact ((hv.face_iff _ _ nA (liveA j)).2 ⟨j, rfl⟩).symm
  have faceB : ∀ j, m.heFace (m.heNext^[j] (m.heNext B)) = m.heFace B := by
    intro j
    rw [← hv.face_next lB]; exact ((hv.face_iff _ _ nB (liveB j)).2 ⟨j, rfl⟩).symm
  -- membership in the ring
  have memA : ∀ i, m.heLive i → m.heFace i = m.heFace A → i ≠ A → ∃ j < k + 1, i = m.heNext^[j] (m.heNext A) := by
    intro i hi hfi hne
    have hper : m.heNext^[k + 1 + 1] A = A := by rw [Function.iterate_succ_apply]; exact hit
    have := (orbit_range_mem hper).2 ((hv.face_iff A i lA hi).1 hfi.symm)
    rw [List.mem_map] at this
    obtain ⟨j, hj, rfl⟩ := this
    rw [List.mem_range] at hj
    obtain ⟨j, rfl⟩ : ∃ j', j = j' + 1 := ⟨j - 1, by
      have : j ≠ 0 := by rintro rfl; exact hne rfl
      omega⟩
    exact ⟨j, by omega, by rw [Function.iterate_succ_apply]⟩
  have memB : ∀ i, m.heLive i → m.heFace i = m.heFace B → i ≠ B → ∃ j < l + 1, i = m.heNext^[j] (m.heNext B) := by
    intro i hi hfi hne
    have hper : m.heNext^[l + 1 + 1] B = B := by rw [Function.iterate_succ_apply]; exact hit'
    have := (orbit_range_mem hper).2 ((hv.face_iff B i lB hi).1 hfi.symm)
    rw [List.mem_map] at this
    obtain ⟨j, hj, rfl⟩ := this
    rw [List.mem_range] at hj
    obtain ⟨j, rfl⟩ : ∃ j', j = j' + 1 := ⟨j - 1, by
      have : j ≠ 0 := by rintro rfl; exact hne rfl
      omega⟩
    exact ⟨j, by omega, by rw [Function.iterate_succ_apply]⟩
  have injA : ∀ i < k + 1, ∀ j < k + 1, m.heNext^[i] (m.heNext A) = m.heNext^[j] (m.heNext A) → i = j := by
    have hper : m.heNext^[k + 1 + 1] A = A := by rw [Function.iterate_succ_apply]; exact hit
    have nd := orbit_range_nodup hper (fun j hj => by rw [Function.iterate_succ_apply]; exact hmin j hj)
    rw [List.nodup_map_iff_inj_on List.nodup_range] at nd
    intro i hi j hj e
    have := nd (i + 1) (by simp; omega) (j + 1) (by simp; omega)
      (by rw [Function.iterate_succ_apply, Function.iterate_succ_apply]; exact e)
    omega
  have injB : ∀ i < l + 1, ∀ j < l + 1, m.heNext^[i] (m.heNext B) = m.heNext^[j] (m.heNext B) → i = j := by
    have hper : m.heNext^[l + 1 + 1] B = B := by rw [Function.iterate_succ_apply]; exact hit'
    have nd := orbit_range_nodup hper (fun j hj => by rw [Function.iterate_succ_apply]; exact hmin' j hj)
    rw [List.nodup_map_iff_inj_on List.nodup_range] at nd
    intro i hi j hj e
    have := nd (i + 1) (by simp; omega) (j + 1) (by simp; omega)
      (by rw [Function.iterate_succ_apply, Function.iterate_succ_apply]; exact e)
    omega
  have kind : ∀ i < k + 1 + (l + 1), (i < k + 1) ∨ ∃ i', i = k + 1 + i' ∧ i' < l + 1 := by
    intro i hi
    by_cases h : i < k + 1
    · exact Or.inl h
    · exact Or.inr ⟨i - (k + 1), by omega, by omega⟩
  have rinj : ∀ i < k + 1 + (l + 1), ∀ j < k + 1 + (l + 1), ring i = ring j → i = j := by
    intro i hi j hj e
    rcases kind i hi with h1 | ⟨i', rfl, h1⟩ <;> rcases kind j hj with h2 | ⟨j', rfl, h2⟩
    · rw [ring0 i h1, ring0 j h2] at e; exact injA i h1 j h2 e
    · rw [ring0 i h1, ring1 j' h2] at e
      exact absurd (by rw [← faceA i, e, faceB]) hf
    · rw [ring1 i' h1, ring0 j h2] at e
      exact absurd (by rw [← faceA j, ← e, faceB]) hf
    · rw [ring1 i' h1, ring1 j' h2] at e; rw [injB i' h1 j' h2 e]
  have rface : ∀ i < k + 1 + (l + 1), m.heLive (ring i) ∧ (m.heFace (ring i) = m.heFace A ∨ m.heFace (ring i) = m.heFace B) ∧
      ring i ≠ A ∧ ring i ≠ B := by
    intro i hi
    rcases kind i hi with h1 | ⟨i', rfl, h1⟩
    · rw [ring0 i h1]
      refine ⟨liveA i, Or.inl (faceA i), hmin i h1, ?_⟩
      intro e; have := faceA i; rw [e] at this; exact hf this.symm
    · rw [ring1 i' h1]
      refine ⟨liveB i', Or.inr (faceB i'), ?_, hmin' i' h1⟩
      intro e; have := faceB i'; rw [e] at this; exact hf this
  have rmem : ∀ i, m.heLive i → (m.heFace i = m.heFace A ∨ m.heFace i = m.heFace B) → i ≠ A → i ≠ B →
      ∃ j < k + 1 + (l + 1), i = ring j := by
    intro i hi hfi h1 h2
    rcases hfi with h | h
    · obtain ⟨j, hj, e⟩ := memA i hi h h1
      exact ⟨j, by omega, by rw [ring0 j hj]; exact e⟩
    · obtain ⟨j, hj, e⟩ := memB i hi h h2
      exact ⟨k + 1 + j, by omega, by rw [ring1 j hj]; exact e⟩
  have nAA := hv.deg_two _ lA
  have nBB := hv.deg_two _ lB
  have nAB : m.heNext A ≠ B := by intro h; apply hf; rw [← hv.face_next lA, h]
  have nBA : m.heNext B ≠ A := by intro h; apply hf; rw [← hv.face_next lB, h]
  have rnext : ∀ i < k + 1 + (l + 1), ring ((i + 1) % (k + 1 + (l + 1))) =
      if m.heNext (ring i) = A then m.heNext B else if m.heNext (ring i) = B then m.heNext A else m.heNext (ring i) := by
    intro i hi
    rcases kind i hi with h1 | ⟨i', rfl, h1⟩
    · rw [Nat.mod_eq_of_lt (by omega), ring0 i h1, ← Function.iterate_succ_apply' m.heNext]
      by_cases hik : i = k
      · subst hik
        rw [hit, if_pos rfl]; exact ring1 0 (by omega)
      · rw [ring0 (i + 1) (by omega), if_neg (hmin (i + 1) (by omega)), if_neg]
        intro e; have := faceA (i + 1); rw [e] at this; exact hf this.symm
    · rw [ring1 i' h1, ← Function.iterate_succ_apply' m.heNext]
      by_cases hik : i' = l
      · subst hik
        rw [show k + 1 + i' + 1 = k + 1 + (i' + 1) by omega, Nat.mod_self, hit', if_neg AB.symm, if_pos rfl]
        exact ring0 0 (by omega)
      · rw [Nat.mod_eq_of_lt (by omega), show k + 1 + i' + 1 = k + 1 + (i' + 1) by omega, ring1 (i' + 1) (by omega),
          if_neg, if_neg (hmin' (i' + 1) (by omega))]
        intro e; have := faceB (i' + 1); rw [e] at this; exact hf this
  -- vertex reassignment
  have vA := hv.vertex_live _ lA
  have vB := hv.vertex_live _ lB
  have vnB : m.heVertex (m.heNext B) = m.heVertex A := by rw [hv.vertex_next lB, tB]
  have vnA : m.heVertex (m.heNext A) = m.heVertex B := by rw [hv.vertex_next lA, tA]
  have nBe : ¬ m.heNext B / 2 = e := by intro h; rcases hme _ h with h | h; exacts [nBA h, nBB h]
  have nAe : ¬ m.heNext A / 2 = e := by intro h; rcases hme _ h with h | h; exacts [nAA h, nAB h]
  have vown : ∀ v, m.vLive v → (m.vHalfedge v = A ∨ m.vHalfedge v = B) → v = m.heVertex A ∨ v = m.heVertex B := by
    rintro v hvl (h | h)
    · left; rw [← h]; exact (hv.v_he v hvl).2.symm
    · right; rw [← h]; exact (hv.v_he v hvl).2.symm
  have hee : ∀ i, i / 2 = e ↔ (i = A ∨ i = B) := by
    intro i; exact ⟨hme i, by rintro (rfl | rfl); exacts [hAe, hBe]⟩
  have fB0 : writeLoop m.heFace ring (fun _ => m.heFace A) (k + 1 + (l + 1)) B = m.heFace B :=
    writeLoop_miss fun j hj => (rface j hj).2.2.2.symm
  have fA0 : writeLoop m.heFace ring (fun _ => m.heFace A) (k + 1 + (l + 1)) A = m.heFace A :=
    writeLoop_miss fun j hj => (rface j hj).2.2.1.symm
  have r00 : ring 0 = m.heNext A := ring0 0 (by omega)
  have fB := Valid.face_lt hb
  have fA := Valid.face_lt iA
  obtain ⟨m', unf⟩ : ∃ m', m' = m.removeEdgeWrite e ring (k + 1 + (l + 1)) := ⟨_, rfl⟩
  refine ⟨m', by rw [unf], ?_⟩
  unfold removeEdgeWrite deleteEdgeBundle deleteFace deleteHe heIsInterior faceIsBL eHalfedge at unf
  rw [hgA] at unf
  simp only [tA, fA0, fB0, r00] at unf
  constructor
  case lA => exact lA
  case hB => exact tA.symm
  case fne => exact hf
  case iA => exact iA
  case iB => exact hb
  case next_A => rw [unf]; simp [upd_apply, AB]
  case next_B => rw [unf]; simp [upd_apply]
  case next_o =>
    intro i hi h1 h2
    rw [unf]; simp only [upd_apply, h1, h2, if_false]
    by_cases hfi : m.heFace i = m.heFace A ∨ m.heFace i = m.heFace B
    · obtain ⟨j, hj, rfl⟩ := rmem i hi hfi h1 h2
      rw [writeLoop_hit (fun a ha b hb h => by rw [rinj a ha b hb h]) j hj]
      exact rnext j hj
    · rw [writeLoop_miss (fun j hj h => hfi (by rw [h]; exact (rface j hj).2.1)), if_neg, if_neg]
      · intro h; apply hfi; right; rw [← h]; exact (hv.face_next hi).symm
      · intro h; apply hfi; left; rw [← h]; exact (hv.face_next hi).symm
  case next_dead =>
    intro i hi
    have h1 : i ≠ A := by rintro rfl; exact hi lA
    have h2 : i ≠ B := by rintro rfl; exact hi lB
    rw [unf]; simp only [upd_apply, h1, h2, if_false]
    exact writeLoop_miss (fun j hj h => hi (by rw [h]; exact (rface j hj).1))
  case v_o => intro i hi h1 h2; rw [unf]; simp only [upd_apply, h1, h2, if_false]
  case f_o =>
    intro i hi h1 h2
    rw [unf]; simp only [upd_apply, h1, h2, if_false]
    by_cases hfi : m.heFace i = m.heFace A ∨ m.heFace i = m.heFace B
    · obtain ⟨j, hj, rfl⟩ := rmem i hi hfi h1 h2
      rw [writeLoop_hit (fun a ha b hb h => rfl) j hj]
      rcases hfi with h | h <;> simp [h]
    · rw [writeLoop_miss (fun j hj h => hfi (by rw [h]; exact (rface j hj).2.1)), if_neg]
      exact fun h => hfi (Or.inr h)
  case vh_o =>
    intro v hvv
    rw [unf]; simp only
    by_cases c1 : m.vHalfedge (m.heVertex A) / 2 = e
    · have v1 : v ≠ m.heVertex A := by rintro rfl; exact hvv ⟨vA, hme _ c1⟩
      rw [if_pos c1]
      split_ifs with c2
      · rw [upd_apply] at c2
        split_ifs at c2 with c3
        · exact absurd c2 nBe
        · have v2 : v ≠ m.heVertex B := by rintro rfl; exact hvv ⟨vB, hme _ c2⟩
          simp [upd_apply, v1, v2]
      · simp [upd_apply, v1]
    · rw [if_neg c1]
      split_ifs with c2
      · have v2 : v ≠ m.heVertex B := by rintro rfl; exact hvv ⟨vB, hme _ c2⟩
        simp [upd_apply, v2]
      · rfl
  case vh_e =>
    intro v hvl hve
    rw [unf]; simp only
    by_cases c1 : m.vHalfedge (m.heVertex A) / 2 = e
    · rw [if_pos c1]
      by_cases v1 : v = m.heVertex A
      · by_cases c3 : m.heVertex B = m.heVertex A
        · rw [if_neg (by rw [c3]; simpa [upd_apply] using nBe)]
          simp [upd_apply, v1, vnB]
        · split_ifs
          · simp [upd_apply, v1, vnB, Ne.symm c3]
          · simp [upd_apply, v1, vnB]
      · have v2 : v = m.heVertex B := (vown v hvl hve).resolve_left v1
        have c3 : m.heVertex B ≠ m.heVertex A := by rw [← v2]; exact v1
        rw [if_pos (by rw [upd_ne _ _ c3, ← v2]; exact (hee _).2 hve)]
        simp [upd_apply, v2, vnA]
    · rw [if_neg c1]
      have v1 : v ≠ m.heVertex A := by rintro rfl; exact c1 ((hee _).2 hve)
      have v2 : v = m.heVertex B := (vown v hvl hve).resolve_left v1
      rw [if_pos (by rw [← v2]; exact (hee _).2 hve)]
      simp [upd_apply, v2, vnA]
  case fh =>
    intro f; rw [unf]; simp only [upd_apply]
  case c_int =>
    rw [unf]; simp only [upd_ne _ _ AB.symm, fB0]
    rw [if_pos (show ¬ m.nFFill ≤ m.heFace A by omega), if_pos (show ¬ m.nFFill ≤ m.heFace B by omega)]; rfl
  all_goals (rw [unf]; try rfl)

end Mesh
end GC
