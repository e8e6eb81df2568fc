import Verif.SubdivideAll
import Verif.Compress
import Verif.Props.Embedded

/-! # Property C81: subdivision into quadrilaterals -/

namespace GC
open Mesh

/-- `m'` is `m` with every edge cut in two and every face cut into quadrilaterals.  The halfedge `i` of `m` becomes `fst i` followed by
`snd i`; `mid e` is the middle of the edge `e`, `cen f` the centre of the face `f`; `inn i` runs from the middle of `i` to the centre. -/
structure Quadrangulated (m m' : Mesh) (fst snd inn mid cen : ℕ → ℕ) : Prop where
  /-- the halfedges -/
  live : ∀ x, m'.heLive x ↔ ∃ i, m.heLive i ∧ (x = fst i ∨ x = snd i ∨ (¬ m.ext i ∧ (x = inn i ∨ x = GC.twin (inn i))))
  fst_inj : ∀ i j, m.heLive i → m.heLive j → fst i = fst j → i = j
  snd_inj : ∀ i j, m.heLive i → m.heLive j → snd i = snd j → i = j
  inn_inj : ∀ i j, m.heLive i → ¬ m.ext i → m.heLive j → ¬ m.ext j → inn i = inn j → i = j
  fst_snd : ∀ i j, m.heLive i → m.heLive j → fst i ≠ snd j
  inn_new : ∀ i j, m.heLive i → m.heLive j → ¬ m.ext j → fst i ≠ inn j ∧ fst i ≠ GC.twin (inn j) ∧ snd i ≠ inn j ∧ snd i ≠ GC.twin (inn j)
  inn_twin : ∀ i j, m.heLive i → ¬ m.ext i → m.heLive j → ¬ m.ext j → inn i ≠ GC.twin (inn j)
  /-- the two sides of the two halves of an edge -/
  twin_fst : ∀ i, m.heLive i → GC.twin (fst i) = snd (GC.twin i)
  /-- around a quadrilateral at a corner of a face, and along a boundary -/
  next_fst : ∀ i, m.heLive i → ¬ m.ext i → m'.heNext (fst i) = inn i
  next_inn : ∀ i, m.heLive i → ¬ m.ext i → m'.heNext (inn (m.heNext i)) = GC.twin (inn i)
  next_out : ∀ i, m.heLive i → ¬ m.ext i → m'.heNext (GC.twin (inn i)) = snd i
  next_snd : ∀ i, m.heLive i → m'.heNext (snd i) = fst (m.heNext i)
  next_ext : ∀ i, m.heLive i → m.ext i → m'.heNext (fst i) = snd i
  /-- tails -/
  vertex_fst : ∀ i, m.heLive i → m'.heVertex (fst i) = m.heVertex i
  vertex_snd : ∀ i, m.heLive i → m'.heVertex (snd i) = mid (i / 2)
  vertex_inn : ∀ i, m.heLive i → ¬ m.ext i → m'.heVertex (inn i) = mid (i / 2)
  vertex_out : ∀ i, m.heLive i → ¬ m.ext i → m'.heVertex (GC.twin (inn i)) = cen (m.heFace i)
  /-- what lies on a boundary -/
  ext_fst : ∀ i, m.heLive i → (m'.ext (fst i) ↔ m.ext i)
  ext_snd : ∀ i, m.heLive i → (m'.ext (snd i) ↔ m.ext i)
  ext_inn : ∀ i, m.heLive i → ¬ m.ext i → ¬ m'.ext (inn i) ∧ ¬ m'.ext (GC.twin (inn i))
  /-- the vertices -/
  vLive : ∀ v, m'.vLive v ↔ m.vLive v ∨ (∃ e, m.heLive (2 * e) ∧ v = mid e) ∨ ∃ f, m.fLive f ∧ f < m.nFFill ∧ v = cen f
  mid_inj : ∀ e e', m.heLive (2 * e) → m.heLive (2 * e') → mid e = mid e' → e = e'
  cen_inj : ∀ f f', m.fLive f → f < m.nFFill → m.fLive f' → f' < m.nFFill → cen f = cen f' → f = f'
  mid_new : ∀ e, m.heLive (2 * e) → m.nVFill ≤ mid e
  cen_new : ∀ f, m.fLive f → f < m.nFFill → m.nVFill ≤ cen f
  mid_cen : ∀ e f, m.heLive (2 * e) → m.fLive f → f < m.nFFill → mid e ≠ cen f
  /-- the numbers of elements -/
  c_v : m'.nV = m.nV + m.nE + m.nF
  c_e : m'.nE = 2 * m.nE + m.nInt
  c_f : m'.nF = m.nInt
  c_bl : m'.nBL = m.nBL

theorem subRk_all {m : Mesh} (hv : m.Valid) : subRk m m.nEFill = m.nE := by
  rw [hv.cnt_e]; unfold subRk
  refine count_congr fun e he => ?_
  have := hv.he_fill
  unfold heLive eHalfedge
  constructor
  · exact fun h => h.2
  · exact fun h => ⟨by omega, h⟩

theorem subSides_all {m : Mesh} (hv : m.Valid) : subSides m m.nFFill = m.nInt := by
  rw [hv.cnt_int, Nat.count_eq_card_filter_range]; unfold subSides heLive
  congr 1; ext i
  simp only [Finset.mem_filter, Finset.mem_range]; tauto

/-- A mesh too small for its storage to be refused by the subdivision. -/
def roomToSubdivide (m : Mesh) : Prop := ¬ m.nearLimit (m.nE + 2 * m.nInt + m.nFFill)

instance (m : Mesh) : Decidable (roomToSubdivide m) := by unfold roomToSubdivide nearLimit; infer_instance

/-- **C81, connectivity.** On a valid mesh in which no `e.halfedge()` starts at a vertex of degree one, the two loops shared by
`linearSubdivide` and `catmullClarkSubdivide` finish without an error.  The result is a valid mesh, namely the given one with every edge
cut in two and every face cut into one quadrilateral per corner.  Old vertices keep the position they were given, the middle of an edge and the
centre of a face get those computed for them. -/
theorem C81_quads {P : Type} (m : Mesh) (hv : m.Valid) (hd : ∀ e, m.heLive (2 * e) → m.heNext (2 * e + 1) ≠ 2 * e)
    (hlim : roomToSubdivide m) (pos splitE splitF : ℕ → P) :
    ∃ s fst snd inn mid cen, m.subdivideQuads pos splitE splitF = .ok s ∧ s.m.Valid ∧ Quadrangulated m s.m fst snd inn mid cen ∧
      (∀ v, m.vLive v → s.pos v = pos v) ∧ (∀ e, m.heLive (2 * e) → s.pos (mid e) = splitE e) ∧
      (∀ f, m.fLive f → f < m.nFFill → s.pos (cen f) = splitF f) := by
  classical
  unfold roomToSubdivide at hlim
  have rk := subRk_all hv
  have sd := subSides_all hv
  have rf : subRf m m.nFFill = m.nF := hv.cnt_f.symm
  unfold subdivideQuads
  rcases splitEdges_ok (pos := pos) (splitE := splitE) hv hd with ⟨s1, e1, E⟩ | ⟨-, lim⟩
  swap
  · exact (hlim (lim.mono (by omega) (by omega) (by omega))).elim
  rcases splitFaces_ok (splitF := splitF) hv E with ⟨s, inn, e2, I⟩ | ⟨-, lim⟩
  swap
  · refine (hlim (lim.mono ?_ ?_ ?_)).elim
    all_goals have := E.vFill; have := E.heFill; have := E.fFill; have := E.c_bl; omega
  simp only [e1, bind, Except.bind]
  have ex : ∀ {i}, ¬ m.ext i ↔ m.heFace i < m.nFFill := fun {i} => by unfold Mesh.ext; omega
  have tw : ∀ {i}, m.heLive i → ¬ m.ext i → GC.twin (inn i) = inn i + 1 := fun {i} hi h => by
    have := I.ev i hi (ex.1 h)
    obtain ⟨k, hk⟩ : ∃ k, inn i = 2 * k := ⟨inn i / 2, by omega⟩
    rw [hk, twin_two_mul]
  have lA : ∀ {i}, m.heLive i → s.m.heLive (partA m i) := fun hi => (I.live _).2 (.inl (E.partA_live hv hi))
  have lB : ∀ {i}, m.heLive i → s.m.heLive (partB m i) := fun hi => (I.live _).2 (.inl (E.partB_live hv hi))
  have live : ∀ x, s.m.heLive x ↔
      ∃ i, m.heLive i ∧ (x = partA m i ∨ x = partB m i ∨ (¬ m.ext i ∧ (x = inn i ∨ x = GC.twin (inn i)))) := by
    intro x
    constructor
    · intro h
      rcases (I.live x).1 h with h | ⟨i, a, b, h⟩
      · obtain ⟨i, hi, h⟩ := E.cover hv h
        exact ⟨i, hi, by tauto⟩
      · exact ⟨i, a, .inr (.inr ⟨ex.2 b, by rw [tw a (ex.2 b)]; exact h⟩)⟩
    · rintro ⟨i, hi, rfl | rfl | ⟨a, h⟩⟩
      · exact lA hi
      · exact lB hi
      · rw [tw hi a] at h; exact (I.live x).2 (.inr ⟨i, hi, ex.1 a, h⟩)
  have inn_new : ∀ i j, m.heLive i → m.heLive j → ¬ m.ext j → partA m i ≠ inn j ∧ partA m i ≠ GC.twin (inn j) ∧
      partB m i ≠ inn j ∧ partB m i ≠ GC.twin (inn j) := by
    intro i j hi hj h
    rw [tw hj h]
    have := (E.partA_live hv hi).1; have := (E.partB_live hv hi).1; have := I.ge j hj (ex.1 h)
    refine ⟨?_, ?_, ?_, ?_⟩ <;> omega
  have inn_twin : ∀ i j, m.heLive i → ¬ m.ext i → m.heLive j → ¬ m.ext j → inn i ≠ GC.twin (inn j) := by
    intro i j hi h hj h'
    rw [tw hj h']
    have := I.ev i hi (ex.1 h); have := I.ev j hj (ex.1 h'); omega
  have evf : ∀ {e}, m.heLive (2 * e) → subRk m e < m.nE := fun {e} he => by
    rw [← rk]; have := subRk_lt hv he (live_half_lt hv he); rwa [show 2 * e / 2 = e by omega] at this
  have sv : s1.m.nVFill = m.nVFill + m.nE := by rw [E.vFill, rk]
  have fhe : ∀ {f}, m.fLive f → f < m.nFFill → ∃ i, m.heLive i ∧ ¬ m.ext i ∧ m.heFace i = f := fun {f} hf h => by
    obtain ⟨a, b⟩ := hv.f_he f hf; exact ⟨_, a, ex.2 (by omega), b⟩
  refine ⟨s, partA m, partB m, inn, fun e => m.nVFill + subRk m e, fun f => s1.m.nVFill + subRf m f, e2, I.valid, ?_, ?_, ?_, ?_⟩
  · -- the number of edges
    have cE : s.m.nE = 2 * m.nE + m.nInt := by
      have h1 : s.m.nHe = 2 * m.nHe + 2 * m.nInt := by
        rw [I.valid.cnt_he, hv.cnt_he, Nat.count_eq_card_filter_range, Nat.count_eq_card_filter_range, ← sd]
        unfold subSides
        have key : ((Finset.range s.m.nHeFill).filter fun x => s.m.heNext x ≠ INV) =
            ((((Finset.range m.nHeFill).filter fun i => m.heNext i ≠ INV).image (partA m)) ∪
            (((Finset.range m.nHeFill).filter fun i => m.heNext i ≠ INV).image (partB m))) ∪
            ((((Finset.range m.nHeFill).filter fun i => m.heLive i ∧ m.heFace i < m.nFFill).image inn) ∪
            (((Finset.range m.nHeFill).filter fun i => m.heLive i ∧ m.heFace i < m.nFFill).image fun i => GC.twin (inn i))) := by
          ext x
          have := live x
          unfold heLive at this
          simp only [Finset.mem_filter, Finset.mem_range, Finset.mem_union, Finset.mem_image]
          rw [this]
          constructor
          · rintro ⟨i, hi, h | h | ⟨a, h | h⟩⟩
            · exact .inl (.inl ⟨i, hi, h.symm⟩)
            · exact .inl (.inr ⟨i, hi, h.symm⟩)
            · exact .inr (.inl ⟨i, ⟨hi.1, hi, ex.1 a⟩, h.symm⟩)
            · exact .inr (.inr ⟨i, ⟨hi.1, hi, ex.1 a⟩, h.symm⟩)
          · rintro ((⟨i, hi, h⟩ | ⟨i, hi, h⟩) | ⟨i, hi, h⟩ | ⟨i, hi, h⟩)
            · exact ⟨i, hi, .inl h.symm⟩
            · exact ⟨i, hi, .inr (.inl h.symm)⟩
            · exact ⟨i, hi.2.1, .inr (.inr ⟨ex.2 hi.2.2, .inl h.symm⟩)⟩
            · exact ⟨i, hi.2.1, .inr (.inr ⟨ex.2 hi.2.2, .inr h.symm⟩)⟩
        rw [key, Finset.card_union_of_disjoint, Finset.card_union_of_disjoint, Finset.card_union_of_disjoint,
          Finset.card_image_of_injOn, Finset.card_image_of_injOn, Finset.card_image_of_injOn, Finset.card_image_of_injOn]
        · omega
        · intro i hi j hj h
          simp only [Finset.coe_filter, Finset.mem_range, Set.mem_setOf_eq] at hi hj
          exact I.inj i j hi.2.1 hi.2.2 hj.2.1 hj.2.2 (twin_inj h)
        · intro i hi j hj h
          simp only [Finset.coe_filter, Finset.mem_range, Set.mem_setOf_eq] at hi hj
          exact I.inj i j hi.2.1 hi.2.2 hj.2.1 hj.2.2 h
        · intro i hi j hj h
          simp only [Finset.coe_filter, Finset.mem_range, Set.mem_setOf_eq] at hi hj
          exact partB_inj hv hi hj h
        · intro i hi j hj h
          simp only [Finset.coe_filter, Finset.mem_range, Set.mem_setOf_eq] at hi hj
          exact partA_inj hv hi hj h
        · rw [Finset.disjoint_left]
          intro x h1 h2
          simp only [Finset.mem_image, Finset.mem_filter] at h1 h2
          obtain ⟨i, hi, rfl⟩ := h1
          obtain ⟨j, hj, h⟩ := h2
          exact inn_twin i j hi.2.1 (ex.2 hi.2.2) hj.2.1 (ex.2 hj.2.2) h.symm
        · rw [Finset.disjoint_left]
          intro x h1 h2
          simp only [Finset.mem_image, Finset.mem_filter, Finset.mem_range] at h1 h2
          obtain ⟨i, hi, rfl⟩ := h1
          obtain ⟨j, hj, h⟩ := h2
          exact partA_ne_B hv hi hj h.symm
        · rw [Finset.disjoint_left]
          intro x h1 h2
          simp only [Finset.mem_union, Finset.mem_image, Finset.mem_filter, Finset.mem_range] at h1 h2
          rcases h1 with ⟨i, hi, rfl⟩ | ⟨i, hi, rfl⟩ <;> rcases h2 with ⟨j, hj, h⟩ | ⟨j, hj, h⟩
          · exact (inn_new i j hi hj.2.1 (ex.2 hj.2.2)).1 h.symm
          · exact (inn_new i j hi hj.2.1 (ex.2 hj.2.2)).2.1 h.symm
          · exact (inn_new i j hi hj.2.1 (ex.2 hj.2.2)).2.2.1 h.symm
          · exact (inn_new i j hi hj.2.1 (ex.2 hj.2.2)).2.2.2 h.symm
      have h2 := I.valid.nHe_eq
      have h3 := hv.nHe_eq
      omega
    exact {
      live := live
      fst_inj := fun i j hi hj => partA_inj hv hi hj
      snd_inj := fun i j hi hj => partB_inj hv hi hj
      inn_inj := fun i j hi h hj h' => I.inj i j hi (ex.1 h) hj (ex.1 h')
      fst_snd := fun i j hi hj => partA_ne_B hv hi hj
      inn_new := inn_new
      inn_twin := inn_twin
      twin_fst := fun i hi => twin_partA hv hi
      next_fst := fun i hi h => I.n_fst i hi (ex.1 h)
      next_inn := fun i hi h => by rw [tw hi h]; exact I.n_inn i hi (ex.1 h)
      next_out := fun i hi h => by rw [tw hi h]; exact I.n_out i hi (ex.1 h)
      next_snd := fun i hi => I.n_snd i hi
      next_ext := fun i hi h => I.n_un i hi h
      vertex_fst := fun i hi => I.v1 i hi
      vertex_snd := fun i hi => I.v2 i hi
      vertex_inn := fun i hi h => I.v_inn i hi (ex.1 h)
      vertex_out := fun i hi h => by rw [tw hi h]; exact I.v_out i hi (ex.1 h)
      ext_fst := fun i hi => ⟨fun h => by
        by_contra c; exact (I.f_pr i hi (ex.1 c) _ (.inl rfl)).1 h, fun h => (I.f_ext i hi h).1⟩
      ext_snd := fun i hi => ⟨fun h => by
        by_contra c; exact (I.f_pr i hi (ex.1 c) _ (.inr (.inl rfl))).1 h, fun h => (I.f_ext i hi h).2⟩
      ext_inn := fun i hi h => by
        rw [tw hi h]
        exact ⟨(I.f_pr i hi (ex.1 h) _ (.inr (.inr (.inl rfl)))).1, (I.f_pr i hi (ex.1 h) _ (.inr (.inr (.inr rfl)))).1⟩
      vLive := fun v => by
        constructor
        · intro h
          obtain ⟨a, b⟩ := I.valid.v_he v h
          obtain ⟨i, hi, e | e | ⟨c, e | e⟩⟩ := (live _).1 a
          · left; rw [← b, e, I.v1 i hi]; exact hv.vertex_live i hi
          · right; left; exact ⟨i / 2, live_even hv hi, by rw [← b, e, I.v2 i hi]⟩
          · right; left; exact ⟨i / 2, live_even hv hi, by rw [← b, e, I.v_inn i hi (ex.1 c)]⟩
          · right; right; exact ⟨m.heFace i, hv.face_live i hi, ex.1 c, by rw [← b, e, tw hi c, I.v_out i hi (ex.1 c)]⟩
        · rintro (h | ⟨e, he, rfl⟩ | ⟨f, hf, hf', rfl⟩)
          · obtain ⟨a, b⟩ := hv.v_he v h
            rw [← b, ← I.v1 _ a]; exact I.valid.vertex_live _ (lA a)
          · have := I.v2 _ he
            rw [show 2 * e / 2 = e by omega] at this
            rw [← this]; exact I.valid.vertex_live _ (lB he)
          · obtain ⟨i, hi, c, rfl⟩ := fhe hf hf'
            rw [← I.v_out i hi (ex.1 c)]
            exact I.valid.vertex_live _ ((I.live _).2 (.inr ⟨i, hi, ex.1 c, .inr rfl⟩))
      mid_inj := fun e e' he he' h => Nat.count_injective (p := fun e => m.heLive (2 * e)) he he' (by
        unfold subRk at h; omega)
      cen_inj := fun f f' hf _ hf' _ h => Nat.count_injective (p := fun f => m.fHalfedge f ≠ INV) hf.2 hf'.2 (by
        unfold subRf at h; omega)
      mid_new := fun e _ => by omega
      cen_new := fun f _ _ => by omega
      mid_cen := fun e f he _ _ => by have := evf he; omega
      c_v := by rw [I.c_v, E.c_v, rk, rf]
      c_e := cE
      c_f := by have := I.c_fe; rw [E.c_e, rk, rf] at this; omega
      c_bl := I.c_bl }
  · intro v hvl
    have := hvl.1
    rw [I.pos_o v (by omega), E.pos_o v this]
  · intro e he
    have := evf he
    simp only
    rw [I.pos_o _ (by omega), E.pos_n e (by have := live_half_lt hv he; omega) he]
  · intro f hf hf'
    exact I.pos_n f hf' hf.2

/-- A cycle of four distinct halfedges. -/
def FourCycle (m : Mesh) (x : ℕ) : Prop :=
  m.heNext (m.heNext (m.heNext (m.heNext x))) = x ∧ m.heNext x ≠ x ∧ m.heNext (m.heNext x) ≠ x ∧ m.heNext (m.heNext (m.heNext x)) ≠ x

theorem fourCycle_of {m : Mesh} {a b c d : ℕ} (hab : m.heNext a = b) (hbc : m.heNext b = c) (hcd : m.heNext c = d) (hda : m.heNext d = a)
    (h : a ≠ b ∧ a ≠ c ∧ a ≠ d ∧ b ≠ c ∧ b ≠ d ∧ c ≠ d) {x : ℕ} (hx : x = a ∨ x = b ∨ x = c ∨ x = d) : FourCycle m x := by
  obtain ⟨h1, h2, h3, h4, h5, h6⟩ := h
  unfold FourCycle
  rcases hx with rfl | rfl | rfl | rfl
  · simp only [hab, hbc, hcd, hda]; exact ⟨trivial, h1.symm, h2.symm, h3.symm⟩
  · simp only [hab, hbc, hcd, hda]; exact ⟨trivial, h4.symm, h5.symm, h1⟩
  · simp only [hab, hbc, hcd, hda]; exact ⟨trivial, h6.symm, h2, h4⟩
  · simp only [hab, hbc, hcd, hda]; exact ⟨trivial, h3, h5, h6⟩

/-- **C81, faces.** Every face of the result is a quadrilateral. -/
theorem C81_faces (m m' : Mesh) (hv : m.Valid) (hv' : m'.Valid) (fst snd inn mid cen : ℕ → ℕ)
    (Q : Quadrangulated m m' fst snd inn mid cen) (f : ℕ) (hf : m'.fLive f) (hint : f < m'.nFFill) : m'.fDegree f = .ok 4 := by
  classical
  obtain ⟨lh, fh⟩ := hv'.f_he f hf
  generalize hx : m'.fHalfedge f = x at lh fh
  have xi : ¬ m'.ext x := by unfold Mesh.ext; omega
  have cyc : ∀ i, m.heLive i → ¬ m.ext i → ∀ y, (y = snd i ∨ y = fst (m.heNext i) ∨ y = inn (m.heNext i) ∨ y = GC.twin (inn i)) →
      FourCycle m' y := by
    intro i hi h y hy
    have li := hv.next_live i hi
    have xi' : ¬ m.ext (m.heNext i) := by rwa [hv.ext_next hi]
    have n1 := Q.inn_new i (m.heNext i) hi li xi'
    have n2 := Q.inn_new i i hi hi h
    have n3 := Q.inn_new (m.heNext i) (m.heNext i) li li xi'
    have n4 := Q.inn_new (m.heNext i) i li hi h
    exact fourCycle_of (Q.next_snd i hi) (Q.next_fst _ li xi') (Q.next_inn i hi h) (Q.next_out i hi h)
      ⟨(Q.fst_snd _ _ li hi).symm, n1.2.2.1, n2.2.2.2, n3.1, n4.2.1, Q.inn_twin _ _ li xi' hi h⟩ hy
  have fc : FourCycle m' x := by
    obtain ⟨i, hi, h | h | ⟨a, h | h⟩⟩ := (Q.live x).1 lh
    · obtain ⟨q, -, lq, rfl⟩ := hv.prevOrbitFace_ok hi
      have : ¬ m.ext (m.heNext q) := by rwa [← Q.ext_fst _ hi, ← h]
      exact cyc q lq (by rwa [← hv.ext_next lq]) x (.inr (.inl h))
    · exact cyc i hi (by rwa [← Q.ext_snd _ hi, ← h]) x (.inl h)
    · obtain ⟨q, -, lq, rfl⟩ := hv.prevOrbitFace_ok hi
      exact cyc q lq (by rwa [← hv.ext_next lq]) x (.inr (.inr (.inl h)))
    · exact cyc i hi a x (.inr (.inr (.inr h)))
  obtain ⟨l, -, nd, hm, -, -, hdeg, -⟩ := C49_face_halfedges m' hv' f hf
  rw [hdeg]
  have : l.toFinset = {x, m'.heNext x, m'.heNext (m'.heNext x), m'.heNext (m'.heNext (m'.heNext x))} := by
    ext y
    rw [List.mem_toFinset, hm]
    simp only [Finset.mem_insert, Finset.mem_singleton]
    constructor
    · rintro ⟨ly, fy⟩
      have := (hv'.face_iff x y lh ly).1 (fh.trans fy.symm)
      refine this.mem (fun y => y = x ∨ y = m'.heNext x ∨ y = m'.heNext (m'.heNext x) ∨ y = m'.heNext (m'.heNext (m'.heNext x))) (.inl rfl) ?_
      rintro z (rfl | rfl | rfl | rfl)
      · exact .inr (.inl rfl)
      · exact .inr (.inr (.inl rfl))
      · exact .inr (.inr (.inr rfl))
      · exact .inl fc.1
    · have l1 := hv'.next_live _ lh
      have l2 := hv'.next_live _ l1
      have f1 := hv'.face_next lh
      have f2 := hv'.face_next l1
      have f3 := hv'.face_next l2
      rintro (rfl | rfl | rfl | rfl)
      · exact ⟨lh, fh⟩
      · exact ⟨l1, f1.trans fh⟩
      · exact ⟨l2, f2.trans (f1.trans fh)⟩
      · exact ⟨hv'.next_live _ l2, f3.trans (f2.trans (f1.trans fh))⟩
  rw [← List.toFinset_card_of_nodup nd, this]
  obtain ⟨c1, c2, c3, c4⟩ := fc
  have d1 : m'.heNext x ≠ m'.heNext (m'.heNext x) := fun h => c2 (by
    exact (hv'.next_inj lh (hv'.next_live _ lh) h).symm)
  have d2 : m'.heNext x ≠ m'.heNext (m'.heNext (m'.heNext x)) := fun h => c3 (by
    exact (hv'.next_inj lh (hv'.next_live _ (hv'.next_live _ lh)) h).symm)
  have d3 : m'.heNext (m'.heNext x) ≠ m'.heNext (m'.heNext (m'.heNext x)) := fun h => d1 (by
    exact hv'.next_inj (hv'.next_live _ lh) (hv'.next_live _ (hv'.next_live _ lh)) h)
  rw [Finset.card_insert_of_notMem, Finset.card_insert_of_notMem, Finset.card_insert_of_notMem, Finset.card_singleton]
  · simpa using d3
  · simp only [Finset.mem_insert, Finset.mem_singleton, not_or]; exact ⟨d1, d2⟩
  · simp only [Finset.mem_insert, Finset.mem_singleton, not_or]; exact ⟨c2.symm, c3.symm, c4.symm⟩

/-! ### Positions -/

/-- The mean of the points `p i` for `i` in `L`. -/
noncomputable def meanOf (L : Finset ℕ) (p : ℕ → V3) : V3 :=
  ⟨(∑ i ∈ L, (p i).x) / L.card, (∑ i ∈ L, (p i).y) / L.card, (∑ i ∈ L, (p i).z) / L.card⟩

theorem meanOf_congr {L : Finset ℕ} {p q : ℕ → V3} (h : ∀ i ∈ L, p i = q i) : meanOf L p = meanOf L q := by
  unfold meanOf
  rw [Finset.sum_congr rfl fun i hi => congrArg V3.x (h i hi), Finset.sum_congr rfl fun i hi => congrArg V3.y (h i hi),
    Finset.sum_congr rfl fun i hi => congrArg V3.z (h i hi)]

/-- The halfedges along a face. -/
def sidesOf (m : Mesh) (f : ℕ) : Finset ℕ := (Finset.range m.nHeFill).filter fun i => m.heLive i ∧ m.heFace i = f

/-- The halfedges leaving a vertex. -/
def spokesOf (m : Mesh) (v : ℕ) : Finset ℕ := (Finset.range m.nHeFill).filter fun i => m.heLive i ∧ m.heVertex i = v

/-- The mean of the corners of a face. -/
noncomputable def centroid (m : Mesh) (pos : ℕ → V3) (f : ℕ) : V3 := meanOf (sidesOf m f) fun i => pos (m.heVertex i)

theorem foldl_add_sdiv {α : Type} (g : α → V3) (D : ℝ) (l : List α) : ∀ p : V3,
    l.foldl (fun (p : V3) a => p.add ((g a).sdiv D)) p =
      ⟨p.x + (l.map fun a => (g a).x).sum / D, p.y + (l.map fun a => (g a).y).sum / D, p.z + (l.map fun a => (g a).z).sum / D⟩ := by
  induction l with
  | nil => intro p; simp
  | cons a l ih =>
    intro p
    rw [List.foldl_cons, ih]
    simp only [V3.add, V3.sdiv, List.map_cons, List.sum_cons, add_div]
    ext <;> simp only <;> ring

theorem foldl_mean (g : ℕ → V3) {L : Finset ℕ} {l : List ℕ} (nd : l.Nodup) (hL : l.toFinset = L) :
    l.foldl (fun (p : V3) a => p.add ((g a).sdiv l.length)) ⟨0, 0, 0⟩ = meanOf L g := by
  rw [foldl_add_sdiv]
  have e : ∀ h : ℕ → ℝ, (l.map h).sum = ∑ i ∈ L, h i := fun h => by rw [← hL, List.sum_toFinset h nd]
  have c : (L.card : ℝ) = l.length := by rw [← hL, List.toFinset_card_of_nodup nd]
  unfold meanOf
  rw [e, e, e, c]; simp

theorem facePoints_ok {m : Mesh} (hv : m.Valid) (pos : ℕ → V3) :
    ∃ F, m.facePoints pos = .ok F ∧ ∀ f, m.fLive f → f < m.nFFill → F f = centroid m pos f := by
  classical
  obtain ⟨-, -, -, -, -, ⟨fs, h1, h2, -⟩, -⟩ := C16_ranges m hv
  refine ⟨assign (fun _ => ⟨0, 0, 0⟩) (centroid m pos) fs, ?_, fun f hf hf' => by rw [assign_apply, if_pos ((h2.2 f).2 ⟨hf, hf'⟩)]⟩
  unfold facePoints
  simp only [h1, bind, Except.bind]
  refine assignM_ok (fun f hf => ?_) _
  obtain ⟨l, -, nd, hm, -, -, hdeg, hvs, -⟩ := C49_face_halfedges m hv f ((h2.2 f).1 hf).1
  simp only [hdeg, hvs]
  rw [List.foldl_map]
  have := foldl_mean (fun i => pos (m.heVertex i)) (L := sidesOf m f) nd (by
    ext i; rw [List.mem_toFinset, hm]; unfold sidesOf
    simp only [Finset.mem_filter, Finset.mem_range]
    exact ⟨fun h => ⟨h.1.1, h⟩, fun h => h.2⟩)
  rw [this]; rfl

/-- **C81, `linearSubdivide`.** Old vertices stay, the middle of an edge is half way between its ends, and the centre of a face is the mean of its
corners. -/
theorem C81_linear (m : Mesh) (hv : m.Valid) (hd : ∀ e, m.heLive (2 * e) → m.heNext (2 * e + 1) ≠ 2 * e) (hlim : roomToSubdivide m)
    (pos : ℕ → V3) :
    ∃ s fst snd inn mid cen, m.linearSubdivide pos = .ok s ∧ s.m.Valid ∧ Quadrangulated m s.m fst snd inn mid cen ∧
      (∀ v, m.vLive v → s.pos v = pos v) ∧
      (∀ i, m.heLive i → s.pos (mid (i / 2)) = ((pos (m.heVertex i)).add (pos (m.heVertex (GC.twin i)))).smul (1 / 2)) ∧
      (∀ f, m.fLive f → f < m.nFFill → s.pos (cen f) = centroid m pos f) := by
  obtain ⟨F, hF, hF'⟩ := facePoints_ok hv pos
  obtain ⟨-, -, -, -, ⟨es, h1, h2, -⟩, -⟩ := C16_ranges m hv
  obtain ⟨s, fst, snd, inn, mid, cen, e, val, Q, p1, p2, p3⟩ := C81_quads m hv hd hlim pos
    (assign (fun _ => ⟨0, 0, 0⟩) (fun e => ((pos (m.heVertex (eHalfedge e))).add (pos (m.tip (eHalfedge e)))).sdiv 2) es) F
  refine ⟨s, fst, snd, inn, mid, cen, ?_, val, Q, p1, fun i hi => ?_, fun f hf hf' => by rw [p3 f hf hf', hF' f hf hf']⟩
  · unfold linearSubdivide edgePointsLinear
    simp only [hF, h1, bind, Except.bind, Except.map]
    exact e
  · have le := live_even hv hi
    rw [p2 _ le, assign_apply, if_pos ((h2.2 _).2 le)]
    unfold eHalfedge tip
    rw [hv.vertex_next le]
    rcases Nat.even_or_odd' i with ⟨k, rfl | rfl⟩
    · rw [show 2 * k / 2 = k by omega]; rfl
    · rw [show (2 * k + 1) / 2 = k by omega, twin_two_mul, twin_two_mul_add]
      unfold V3.add V3.sdiv V3.smul
      ext <;> simp only <;> ring

theorem assignM_ub {α : Type} {g : ℕ → Res α} {l : List ℕ} (h : ∀ a ∈ l, (∃ y, g a = .ok y) ∨ g a = .error .ub)
    (hx : ∃ a ∈ l, g a = .error .ub) : ∀ d : ℕ → α, assignM d g l = .error .ub := by
  unfold assignM
  induction l with
  | nil => obtain ⟨a, ha, -⟩ := hx; simp at ha
  | cons a l ih =>
    intro d
    rw [List.foldlM_cons]
    rcases h a (by simp) with ⟨y, hy⟩ | hy
    · simp only [hy, bind, Except.bind]
      refine ih (fun b hb => h b (by simp [hb])) ?_ _
      obtain ⟨b, hb, e⟩ := hx
      rcases List.mem_cons.1 hb with rfl | hb
      · rw [hy] at e; cases e
      · exact ⟨b, hb, e⟩
    · simp only [hy, bind, Except.bind]

theorem readFaceData_int {m : Mesh} (hv : m.Valid) {α : Type} (d : ℕ → α) {i : ℕ} (hi : ¬ m.ext i) :
    m.readFaceData d (m.heFace i) = .ok (d (m.heFace i)) := by
  have := hv.f_cap
  unfold readFaceData Mesh.ext at *
  rw [if_pos (by omega)]

theorem readFaceData_ext {m : Mesh} (hv : m.Valid) {α : Type} (d : ℕ → α) {i : ℕ} (hl : m.heLive i) (hi : m.ext i) :
    m.readFaceData d (m.heFace i) = .error .ub := by
  have := hv.face_ext_region hl hi
  unfold readFaceData
  rw [if_neg (by omega)]

/-- **C81 fails for `catmullClarkSubdivide` on every mesh with boundary**: it reads the data of faces beyond its end. -/
theorem C81_catmullClark_boundary (m : Mesh) (hv : m.Valid) (hb : ∃ i, m.heLive i ∧ m.ext i) (pos : ℕ → V3) :
    m.catmullClarkSubdivide pos = .error .ub := by
  obtain ⟨F, hF, -⟩ := facePoints_ok hv pos
  obtain ⟨-, -, -, -, ⟨es, h1, h2, -⟩, -⟩ := C16_ranges m hv
  have he : m.edgePointsCC F = .error .ub := by
    unfold edgePointsCC
    simp only [h1, bind, Except.bind]
    refine assignM_ub (fun e hel => ?_) ?_ _
    · have le : m.heLive (eHalfedge e) := (h2.2 e).1 hel
      simp only [readFaceData_int hv F (hv.edge_int e le)]
      by_cases c : m.ext (GC.twin (eHalfedge e))
      · right; simp only [readFaceData_ext hv F (hv.twin_live _ le) c]
      · left; simp only [readFaceData_int hv F c]; exact ⟨_, rfl⟩
    · obtain ⟨i, hi, hx⟩ := hb
      have le := live_even hv hi
      refine ⟨i / 2, (h2.2 _).2 le, ?_⟩
      have ei : GC.twin (eHalfedge (i / 2)) = i := by
        unfold eHalfedge
        rcases Nat.even_or_odd' i with ⟨k, rfl | rfl⟩
        · exact (hv.edge_int k hi hx).elim
        · rw [show (2 * k + 1) / 2 = k by omega, twin_two_mul]
      simp only [readFaceData_int hv F (hv.edge_int _ le), ei, readFaceData_ext hv F hi hx]
  unfold catmullClarkSubdivide
  simp only [hF, he, bind, Except.bind]

/-- **C81, `catmullClarkSubdivide` without boundary.** What is computed is not the scheme of Catmull and Clark: the new vertex of an edge is the mean
of the centres of the two faces alone, and an old vertex of degree `D` goes to `(3 Q + (D - 3) S) / D`, where `S` is its position and
`Q` the mean of the centres of its faces. -/
theorem C81_catmullClark (m : Mesh) (hv : m.Valid) (hd : ∀ e, m.heLive (2 * e) → m.heNext (2 * e + 1) ≠ 2 * e) (hlim : roomToSubdivide m)
    (hb : ∀ i, m.heLive i → ¬ m.ext i) (pos : ℕ → V3) :
    ∃ s fst snd inn mid cen, m.catmullClarkSubdivide pos = .ok s ∧ s.m.Valid ∧ Quadrangulated m s.m fst snd inn mid cen ∧
      (∀ v, m.vLive v → s.pos v = (((meanOf (spokesOf m v) fun i => centroid m pos (m.heFace i)).smul 3).add
        ((pos v).smul ((spokesOf m v).card - 3))).smul (1 / (spokesOf m v).card)) ∧
      (∀ i, m.heLive i → s.pos (mid (i / 2)) = ((centroid m pos (m.heFace i)).add (centroid m pos (m.heFace (GC.twin i)))).smul (1 / 2)) ∧
      (∀ f, m.fLive f → f < m.nFFill → s.pos (cen f) = centroid m pos f) := by
  classical
  obtain ⟨F, hF, hF'⟩ := facePoints_ok hv pos
  obtain ⟨⟨vs, h3, h4, -⟩, -, -, -, ⟨es, h1, h2, -⟩, -⟩ := C16_ranges m hv
  have Fi : ∀ i, m.heLive i → F (m.heFace i) = centroid m pos (m.heFace i) := fun i hi =>
    hF' _ (hv.face_live i hi) (by have := hb i hi; unfold Mesh.ext at this; omega)
  have hE : m.edgePointsCC F = .ok (assign (fun _ => ⟨0, 0, 0⟩)
      (fun e => ((F (m.heFace (eHalfedge e))).add (F (m.heFace (GC.twin (eHalfedge e))))).sdiv 2) es) := by
    unfold edgePointsCC
    simp only [h1, bind, Except.bind]
    refine assignM_ok (fun e hel => ?_) _
    have le : m.heLive (eHalfedge e) := (h2.2 e).1 hel
    simp only [readFaceData_int hv F (hb _ le), readFaceData_int hv F (hb _ (hv.twin_live _ le))]
  generalize hEd : assign (fun _ => (⟨0, 0, 0⟩ : V3))
      (fun e => ((F (m.heFace (eHalfedge e))).add (F (m.heFace (GC.twin (eHalfedge e))))).sdiv 2) es = Ed at hE
  have Ei : ∀ i, m.heLive i → Ed (i / 2) =
      ((centroid m pos (m.heFace i)).add (centroid m pos (m.heFace (GC.twin i)))).smul (1 / 2) := by
    intro i hi
    have le := live_even hv hi
    rw [← hEd, assign_apply, if_pos ((h2.2 _).2 le), ← Fi i hi, ← Fi _ (hv.twin_live i hi)]
    unfold eHalfedge
    rcases Nat.even_or_odd' i with ⟨k, rfl | rfl⟩
    · rw [show 2 * k / 2 = k by omega]; rfl
    · rw [show (2 * k + 1) / 2 = k by omega, twin_two_mul, twin_two_mul_add]
      unfold V3.add V3.sdiv V3.smul
      ext <;> simp only <;> ring
  have hV : m.vertexPointsCC pos Ed F = .ok (assign (fun _ => ⟨0, 0, 0⟩)
      (fun v => (((meanOf (spokesOf m v) fun i => centroid m pos (m.heFace i)).smul 3).add
        ((pos v).smul ((spokesOf m v).card - 3))).smul (1 / (spokesOf m v).card)) vs) := by
    unfold vertexPointsCC
    simp only [h3, bind, Except.bind]
    refine assignM_ok (fun v hvl => ?_) _
    obtain ⟨l, -, nd, hm, -, -, hdeg, hes, -, hfs⟩ := C49_vertex_outgoing m hv v ((h4.2 v).1 hvl)
    have hL : l.toFinset = spokesOf m v := by
      ext i; rw [List.mem_toFinset, hm]; unfold spokesOf
      simp only [Finset.mem_filter, Finset.mem_range]
      exact ⟨fun h => ⟨h.1.1, h⟩, fun h => h.2⟩
    have fl : l.filter (fun i => decide (m.heFace i < m.nFFill)) = l := by
      rw [List.filter_eq_self]
      intro i hi
      have := hb i ((hm i).1 hi).1
      unfold Mesh.ext at this
      simp; omega
    simp only [hdeg, hes, hfs, fl]
    rw [List.foldl_map, List.foldl_map, foldl_mean (fun i => Ed (i / 2)) nd hL, foldl_mean (fun i => F (m.heFace i)) nd hL]
    have hS : ∀ i ∈ spokesOf m v, m.heLive i := fun i hi => by
      unfold spokesOf at hi; simp only [Finset.mem_filter] at hi; exact hi.2.1
    -- turning around the vertex
    have rot : ∀ h : ℕ → ℝ, ∑ i ∈ spokesOf m v, h (m.heFace (GC.twin i)) = ∑ i ∈ spokesOf m v, h (m.heFace i) := by
      intro h
      have inj : Set.InjOn m.vNext (spokesOf m v) := by
        intro i hi j hj e
        exact twin_inj (hv.next_inj (hv.twin_live _ (hS i hi)) (hv.twin_live _ (hS j hj)) e)
      have im : (spokesOf m v).image m.vNext = spokesOf m v := by
        refine Finset.eq_of_subset_of_card_le (fun j hj => ?_) (by rw [Finset.card_image_of_injOn inj])
        obtain ⟨i, hi, rfl⟩ := Finset.mem_image.1 hj
        have li := hS i hi
        unfold spokesOf at hi ⊢
        simp only [Finset.mem_filter, Finset.mem_range] at hi ⊢
        exact ⟨(hv.vNext_live li).1, hv.vNext_live li, (hv.vertex_vNext li).trans hi.2.2⟩
      conv_rhs => rw [← im, Finset.sum_image inj]
      refine Finset.sum_congr rfl fun i hi => ?_
      unfold vNext
      rw [hv.face_next (hv.twin_live _ (hS i hi))]
    have cd : (l.length : ℝ) = (spokesOf m v).card := by rw [← hL, List.toFinset_card_of_nodup nd]
    have e1 : (meanOf (spokesOf m v) fun i => Ed (i / 2)) = meanOf (spokesOf m v) fun i => centroid m pos (m.heFace i) := by
      unfold meanOf
      have k : ∀ h : V3 → ℝ, (∀ p q, h ((V3.add p q).smul (1 / 2)) = (h p + h q) * (1 / 2)) →
          ∑ i ∈ spokesOf m v, h (Ed (i / 2)) = ∑ i ∈ spokesOf m v, h (centroid m pos (m.heFace i)) := by
        intro h hh
        rw [Finset.sum_congr rfl fun i hi => by rw [Ei i (hS i hi), hh], ← Finset.sum_mul, Finset.sum_add_distrib,
          rot fun f => h (centroid m pos f)]
        ring
      rw [k V3.x (fun _ _ => rfl), k V3.y (fun _ _ => rfl), k V3.z (fun _ _ => rfl)]
    have e2 : (meanOf (spokesOf m v) fun i => F (m.heFace i)) = meanOf (spokesOf m v) fun i => centroid m pos (m.heFace i) :=
      meanOf_congr fun i hi => Fi i (hS i hi)
    rw [e1, e2, cd]
    congr 1
    generalize (meanOf (spokesOf m v) fun i => centroid m pos (m.heFace i)) = q
    unfold V3.add V3.sdiv V3.smul
    ext <;> simp only <;> ring
  obtain ⟨s, fst, snd, inn, mid, cen, e, val, Q, p1, p2, p3⟩ := C81_quads m hv hd hlim (assign (fun _ => ⟨0, 0, 0⟩)
      (fun v => (((meanOf (spokesOf m v) fun i => centroid m pos (m.heFace i)).smul 3).add
        ((pos v).smul ((spokesOf m v).card - 3))).smul (1 / (spokesOf m v).card)) vs) Ed F
  refine ⟨s, fst, snd, inn, mid, cen, ?_, val, Q, fun v hvl => ?_, fun i hi => ?_, fun f hf hf' => by rw [p3 f hf hf', hF' f hf hf']⟩
  · unfold catmullClarkSubdivide
    simp only [hF, hE, hV, bind, Except.bind]
    exact e
  · rw [p1 v hvl, assign_apply, if_pos ((h4.2 v).2 hvl)]
  · rw [p2 _ (live_even hv hi), Ei i hi]

/-- The hypotheses are met by a mesh with boundary and by one without. -/
example : square.Valid ∧ (∀ e, square.heLive (2 * e) → square.heNext (2 * e + 1) ≠ 2 * e) ∧ roomToSubdivide square ∧
    (∃ i, square.heLive i ∧ square.ext i) ∧
    (square.subdivideQuads (P := ℕ) id id id).toOption.map (fun s => (s.m.nV, s.m.nE, s.m.nF)) = some (11, 16, 6) :=
  ⟨square_valid, fun e he => (by decide +kernel : ∀ e < 5, square.heNext (2 * e + 1) ≠ 2 * e) e (by have := he.1; change 2 * e < 10 at this; omega),
    by decide +kernel, ⟨1, by decide +kernel⟩, by decide +kernel⟩

theorem tetra_subdivisible : tetra.Valid ∧ (∀ e, tetra.heLive (2 * e) → tetra.heNext (2 * e + 1) ≠ 2 * e) ∧ roomToSubdivide tetra ∧
    ∀ i, tetra.heLive i → ¬ tetra.ext i :=
  ⟨tetra_valid, fun e he => (by decide +kernel : ∀ e < 6, tetra.heNext (2 * e + 1) ≠ 2 * e) e (by have := he.1; change 2 * e < 12 at this; omega),
    by decide +kernel, fun i hi => (by decide +kernel : ∀ i < 12, ¬ tetra.ext i) i hi.1⟩

/-- The first hypothesis is needed: a valid mesh with vertices of degree one makes the loop over the edges throw (positions play no part
in it, so they are left out). -/
theorem C81_fails : ∃ m : Mesh, m.Valid ∧ roomToSubdivide m ∧ ∀ pos splitE splitF : ℕ → Unit, m.subdivideQuads pos splitE splitF = .error .throw :=
  ⟨pillowFlipped, pillowFlipped_valid, by decide +kernel, fun _ _ _ => by
    have : (match pillowFlipped.subdivideQuads (fun _ => ()) (fun _ => ()) (fun _ => ()) with | .error .throw => true | _ => false) = true := by
      decide +kernel
    split at this
    · assumption
    · cases this⟩

/-- Vertex 0 at `(12, 0, 0)`, the others at the origin. -/
noncomputable def spikePos : ℕ → V3 := fun v => if v = 0 then ⟨12, 0, 0⟩ else ⟨0, 0, 0⟩

theorem spike_centroid {f : ℕ} {L : Finset ℕ} (h : sidesOf tetra f = L) (hc : L.card = 3)
    (hs : (L.filter fun i => tetra.heVertex i = 0).card = 1) : centroid tetra spikePos f = ⟨4, 0, 0⟩ := by
  unfold centroid meanOf
  rw [h, hc]
  have e : ∀ i, spikePos (tetra.heVertex i) = if tetra.heVertex i = 0 then ⟨12, 0, 0⟩ else ⟨0, 0, 0⟩ := fun i => rfl
  have x : ∑ i ∈ L, (spikePos (tetra.heVertex i)).x = 12 := by
    have : ∀ i ∈ L, (spikePos (tetra.heVertex i)).x = if tetra.heVertex i = 0 then (12 : ℝ) else 0 := fun i _ => by
      rw [e]; split_ifs <;> rfl
    rw [Finset.sum_congr rfl this, ← Finset.sum_filter, Finset.sum_const, hs]; simp
  have y : ∑ i ∈ L, (spikePos (tetra.heVertex i)).y = 0 := Finset.sum_eq_zero fun i _ => by rw [e]; split_ifs <;> rfl
  have z : ∑ i ∈ L, (spikePos (tetra.heVertex i)).z = 0 := Finset.sum_eq_zero fun i _ => by rw [e]; split_ifs <;> rfl
  simp only [x, y, z]
  ext <;> norm_num

/-- **`catmullClarkSubdivide` is not the scheme of Catmull and Clark.**  There the new vertex of an edge is the mean of its two ends and the
centres of its two faces, and an old vertex goes to `(Q + 2 R + (D - 3) S) / D` with `R` the mean of the middles of its edges.  On a
tetrahedron neither is what is computed. -/
theorem C81_catmullClark_fails : ∃ (m : Mesh) (pos : ℕ → V3) (s : SubSt V3) (fst snd inn mid cen : ℕ → ℕ), m.Valid ∧ m.heLive 0 ∧ m.vLive 0 ∧
    m.catmullClarkSubdivide pos = .ok s ∧ Quadrangulated m s.m fst snd inn mid cen ∧
    s.pos (mid 0) ≠ ((((pos (m.heVertex 0)).add (pos (m.heVertex 1))).add (centroid m pos (m.heFace 0))).add (centroid m pos (m.heFace 1))).smul (1 / 4) ∧
    s.pos 0 ≠ ((((meanOf (spokesOf m 0) fun i => centroid m pos (m.heFace i)).add
      ((meanOf (spokesOf m 0) fun i => ((pos (m.heVertex i)).add (pos (m.heVertex (GC.twin i)))).smul (1 / 2)).smul 2)).add
      ((pos 0).smul ((spokesOf m 0).card - 3)))).smul (1 / (spokesOf m 0).card) := by
  obtain ⟨h1, h2, h3, h4⟩ := tetra_subdivisible
  obtain ⟨s, fst, snd, inn, mid, cen, e, -, Q, p1, p2, -⟩ := C81_catmullClark tetra h1 h2 h3 h4 spikePos
  have l0 : tetra.heLive 0 := by decide +kernel
  have v0 : tetra.vLive 0 := by decide +kernel
  have c0 : centroid tetra spikePos 0 = ⟨4, 0, 0⟩ := spike_centroid (L := {0, 2, 4}) (by decide +kernel) (by decide) (by decide +kernel)
  have c1 : centroid tetra spikePos 1 = ⟨4, 0, 0⟩ := spike_centroid (L := {6, 8, 1}) (by decide +kernel) (by decide) (by decide +kernel)
  have c3 : centroid tetra spikePos 3 = ⟨4, 0, 0⟩ := spike_centroid (L := {10, 7, 5}) (by decide +kernel) (by decide) (by decide +kernel)
  have sp : spokesOf tetra 0 = {0, 5, 6} := by decide +kernel
  have f0 : tetra.heFace 0 = 0 := by decide +kernel
  have f1 : tetra.heFace 1 = 1 := by decide +kernel
  have f5 : tetra.heFace 5 = 3 := by decide +kernel
  have f6 : tetra.heFace 6 = 1 := by decide +kernel
  have w0 : tetra.heVertex 0 = 0 := by decide +kernel
  have w1 : tetra.heVertex 1 = 1 := by decide +kernel
  have q0 : spikePos 0 = ⟨12, 0, 0⟩ := rfl
  have q1 : spikePos 1 = ⟨0, 0, 0⟩ := rfl
  refine ⟨tetra, spikePos, s, fst, snd, inn, mid, cen, h1, l0, v0, e, Q, ?_, ?_⟩
  · have := p2 0 l0
    rw [show GC.twin 0 = 1 from rfl, f0, f1, c0, c1] at this
    rw [show mid 0 = mid (0 / 2) from rfl, this, w0, w1, q0, q1, f0, f1, c0, c1]
    intro h; have := congrArg V3.x h
    simp only [V3.add, V3.smul] at this
    norm_num at this
  · rw [p1 0 v0]
    have mq : (meanOf (spokesOf tetra 0) fun i => centroid tetra spikePos (tetra.heFace i)) = ⟨4, 0, 0⟩ := by
      rw [sp, meanOf_congr (q := fun _ => ⟨4, 0, 0⟩) (fun i hi => ?_)]
      · unfold meanOf; simp
      · simp only [Finset.mem_insert, Finset.mem_singleton] at hi
        rcases hi with rfl | rfl | rfl
        · rw [f0, c0]
        · rw [f5, c3]
        · rw [f6, c1]
    have mr : (meanOf (spokesOf tetra 0) fun i => ((spikePos (tetra.heVertex i)).add (spikePos (tetra.heVertex (GC.twin i)))).smul (1 / 2)) = ⟨6, 0, 0⟩ := by
      rw [sp, meanOf_congr (q := fun _ => ⟨6, 0, 0⟩) (fun i hi => ?_)]
      · unfold meanOf; simp
      · have a : ∀ i, tetra.heVertex i = 0 → tetra.heVertex (GC.twin i) ≠ 0 →
            ((spikePos (tetra.heVertex i)).add (spikePos (tetra.heVertex (GC.twin i)))).smul (1 / 2) = ⟨6, 0, 0⟩ := by
          intro i a b
          unfold spikePos
          rw [if_pos a, if_neg b]; unfold V3.add V3.smul; ext <;> norm_num
        simp only [Finset.mem_insert, Finset.mem_singleton] at hi
        rcases hi with rfl | rfl | rfl <;> exact a _ (by decide +kernel) (by decide +kernel)
    rw [mq, mr, sp, q0]
    intro h; have := congrArg V3.x h
    simp only [V3.add, V3.smul] at this
    rw [show (({0, 5, 6} : Finset ℕ).card : ℝ) = 3 by norm_num] at this
    norm_num at this

end GC
