import Verif.TwinBuildFinal
import Verif.Props.MeshBuild
import Mathlib.Tactic.IntervalCases

/-! # The constructor from polygons and twins (manifold_surface_mesh.cpp:262-442): the finished mesh -/

namespace GC.Mesh

/-- The boundary loops having been made, the mesh is valid if the halfedges around each vertex form one cycle. -/
theorem RI.valid {m0 m : Mesh} {N nV : ℕ} (hO : Open m0 N) (hR : RI m0 N (isX m0 N) m) (hE : N = 2 * m.nE) (hV : m.nV = nV)
    (hVI : nV < INV) (v_lt : ∀ h < N, m0.heVertex h < nV)
    (vHe : ∀ v < nV, m.vHalfedge v < N ∧ m0.heVertex (m.vHalfedge v) = v)
    (ne : ∀ h < N, m0.heVertex h ≠ m0.heVertex (twin h))
    (face_orb : ∀ i j, i < N → j < N → (m.heFace i = m.heFace j ↔ Orb m.heNext i j))
    (even : ∀ e < m.nE, ¬ isX m0 N (2 * e))
    (hc : ∀ h < N, Orb m.vNext (m.vHalfedge (m.heVertex h)) h) : m.setCaps.Valid := by
  obtain ⟨r1, r2, r3, r4, r5⟩ := hR.same
  have hN : m.nHe = N := r2.trans hO.he
  have hlim := hO.lim
  have hnl : ∀ h < N, m.heNext h ≠ INV := by
    intro h hh
    have := hR.next_lt hO hh
    omega
  have hlive : ∀ h, m.setCaps.heLive h ↔ h < N := by
    intro h
    show (h < m.nHe ∧ m.heNext h ≠ INV) ↔ _
    rw [hN]
    exact ⟨fun x => x.1, fun x => ⟨x, hnl h x⟩⟩
  have hext : ∀ h < N, (m.setCaps.ext h ↔ isX m0 (N) h) := by
    intro h hh
    show m.nF ≤ m.heFace h ↔ _
    rw [← not_lt, hR.face_int hO hh, not_not]
  have hvl : ∀ v, m.setCaps.vLive v ↔ v < nV := by
    intro v
    show (v < m.nV ∧ m.vHalfedge v ≠ INV) ↔ _
    rw [hV]
    refine ⟨fun x => x.1, fun x => ⟨x, ?_⟩⟩
    have := (vHe _ x).1
    omega
  have hroom := hR.room0
  have hfhe : ∀ f < m.nF + m.nBL, m.fHalfedge f < N ∧ m.heFace (m.fHalfedge f) = f := by
    intro f hf
    by_cases h : f < m.nF
    · obtain ⟨h1, h2⟩ := hO.fhe f (by omega)
      have h3 : ¬ isX m0 (N) (m0.fHalfedge f) := by
        rintro ⟨-, h3⟩
        omega
      rw [hR.fhe f h, hR.face _ h3]
      exact ⟨h1, h2⟩
    · obtain ⟨h1, h2⟩ := hR.root (f - m.nF) (by omega)
      rw [show m.nF + (f - m.nF) = f by omega] at h1 h2
      exact ⟨h1.1, h2⟩
  have hfl : ∀ f, m.setCaps.fLive f ↔ f < m.nF + m.nBL := by
    intro f
    show ((f < m.nF ∨ (m.nF + m.nBL - m.nBL ≤ f ∧ f < m.nF + m.nBL)) ∧ m.fHalfedge f ≠ INV) ↔ _
    constructor
    · rintro ⟨h1, -⟩; omega
    · intro h
      refine ⟨by omega, ?_⟩
      have := (hfhe f h).1
      omega
  refine ⟨?_, ?_, ?_, ?_, ?_, ?_, ?_, ?_, ?_, ?_, ?_, ?_, ?_, ?_, ?_, ?_, ?_, ?_, ?_, ?_, ?_, ?_, rfl, ?_⟩
  · show m.nHe = 2 * m.nE; omega
  · exact ⟨le_rfl, show m.nHe < INV by omega⟩
  · show m.nHe = 2 * m.nE; omega
  · exact ⟨le_rfl, show m.nV < INV by omega⟩
  · exact ⟨le_rfl, show m.nF + m.nBL < INV by omega⟩
  · intro i hi
    rw [hlive] at hi ⊢
    exact hO.twin_lt hi
  · intro i hi
    rw [hlive] at hi ⊢
    exact hR.next_lt hO hi
  · intro i hi
    rw [hlive] at hi
    rw [hvl]
    show m.heVertex i < nV
    rw [r1]
    exact v_lt _ hi
  · intro i hi
    rw [hlive] at hi
    rw [hfl]
    show m.heFace i < _
    by_cases hX : isX m0 (N) i
    · obtain ⟨b, hb, h1, -⟩ := hR.faceP i hX
      omega
    · have := (hR.face_int hO hi).2 hX
      omega
  · intro i j hi hj
    rw [hlive] at hi hj
    exact face_orb i j hi hj
  · intro i j hi hj
    rw [hlive] at hi hj
    constructor
    · intro he
      have h1 := hc i hi
      have h2 := hc j hj
      have he' : m.heVertex i = m.heVertex j := he
      rw [← he'] at h2
      have hvh := (vHe (m.heVertex i) (by rw [r1]; exact v_lt _ hi)).1
      exact (hR.orb_symm hO hvh hi h1).trans h2
    · intro h
      exact hR.orb_vertex hO hi h
  · intro v hv
    rw [hvl] at hv
    obtain ⟨h1, h2⟩ := vHe _ hv
    rw [hlive]
    exact ⟨h1, show m.heVertex _ = v by rw [r1]; exact h2⟩
  · intro f hf
    rw [hfl] at hf
    rw [hlive]
    exact hfhe f hf
  · intro i hi he
    rw [hlive] at hi
    have h1 := hR.tipv hO hi
    have h2 : m.heNext i = i := he
    rw [h2, r1] at h1
    exact ne _ hi h1
  · intro e he hx
    rw [hlive] at he
    rw [hext _ he] at hx
    have h1 : eHalfedge e = 2 * e := rfl
    rw [h1] at he hx
    exact even e (by omega) hx
  · intro i j hi hj hxi hxj he
    rw [hlive] at hi hj
    rw [hext _ hi] at hxi
    rw [hext _ hj] at hxj
    have he' : m.heVertex i = m.heVertex j := he
    rw [r1] at he'
    exact hO.uniq i hi j hj hxi.2 hxj.2 he'
  · intro i hi hx
    rw [hlive] at hi
    rw [hext _ hi] at hx
    show m.setCaps.ext (twin (m.vHalfedge (m.heVertex i)))
    rw [r1]
    obtain ⟨k, -, -, h1, -, h2⟩ := hO.sig_eq hx
    rcases hR.vhe (m0.heVertex i) with ⟨-, h3⟩ | ⟨w, h3, h4, -⟩
    · exact absurd h2 (h3 _ h1)
    · rw [h4, twin_twin, hext _ h3.1]
      exact h3
  · show m.nHe = Nat.count (fun i => m.heNext i ≠ INV) m.nHe
    rw [hN, Nat.count_of_forall hnl]
  · show m.nInt = Nat.count (fun i => m.heNext i ≠ INV ∧ m.heFace i < m.nF) m.nHe
    rw [hR.int, hN]
    refine count_congr ?_
    intro h hh
    constructor
    · rintro (h1 | h1)
      · exact ⟨hnl h hh, h1⟩
      · exfalso
        by_cases hX : isX m0 (N) h
        · obtain ⟨b, hb, h2, -⟩ := hR.faceP h hX
          omega
        · have := (hR.face_int hO hh).2 hX
          omega
    · exact fun h1 => .inl h1.2
  · show m.nE = Nat.count (fun e => m.heNext (eHalfedge e) ≠ INV) m.nE
    rw [Nat.count_of_forall]
    intro e he
    exact hnl _ (show 2 * e < _ by omega)
  · show m.nV = Nat.count (fun v => m.vHalfedge v ≠ INV) m.nV
    rw [Nat.count_of_forall]
    intro v hv
    have := (vHe v (by omega)).1
    omega
  · show m.nF = Nat.count (fun f => m.fHalfedge f ≠ INV) m.nF
    rw [Nat.count_of_forall]
    intro f hf
    have := (hfhe f (by omega)).1
    omega
  · intro f _ hf
    have hf' : f < m.nF + m.nBL := hf
    show m.fHalfedge f ≠ INV
    have := (hfhe f hf').1
    omega


/-! ### What is claimed -/

/-- The corner after `a` around its vertex: cross the side of `a`, go on to the next corner of the neighbouring face. -/
def TwinAdj (polys : List (List ℕ)) (twins : List (List (ℕ × ℕ))) (a b : ℕ × ℕ) : Prop :=
  IsCorner polys a ∧ IsCorner polys (twinAt twins a) ∧ b = cornerNext polys (twinAt twins a)

/-- The corners at a vertex form one fan or cycle. -/
def Fans (polys : List (List ℕ)) (twins : List (List (ℕ × ℕ))) : Prop :=
  ∀ a b, IsCorner polys a → IsCorner polys b → cornerV polys a = cornerV polys b → Relation.EqvGen (TwinAdj polys twins) a b

/-- There is a vertex, and every index up to the largest is used. -/
def Dense (polys : List (List ℕ)) : Prop := polys ≠ [] ∧ ∀ v w, v ≤ w → w ∈ polys.flatten → v ∈ polys.flatten

/-- `H` maps the sides to the interior halfedges of the mesh, faces to faces and twins to twins. -/
structure Realises (polys : List (List ℕ)) (twins : List (List (ℕ × ℕ))) (m : Mesh) (H : ℕ × ℕ → ℕ) : Prop where
  nF : m.nF = polys.length ∧ m.nFFill = polys.length
  nV : ∀ v, v < m.nVFill ↔ v = 0 ∨ ∃ w ∈ polys.flatten, v ≤ w
  int : ∀ c, IsCorner polys c → m.heLive (H c) ∧ ¬ m.ext (H c)
  inj : ∀ c c', IsCorner polys c → IsCorner polys c' → H c = H c' → c = c'
  surj : ∀ h, m.heLive h → ¬ m.ext h → ∃ c, IsCorner polys c ∧ H c = h
  vertex : ∀ c, IsCorner polys c → m.heVertex (H c) = cornerV polys c
  face : ∀ c, IsCorner polys c → m.heFace (H c) = c.1
  next : ∀ c, IsCorner polys c → m.heNext (H c) = H (cornerNext polys c)
  first : ∀ f < polys.length, m.fHalfedge f = H (f, 0)
  twin : ∀ c, IsCorner polys c → twinAt twins c ≠ (INV, INV) → GC.twin (H c) = H (twinAt twins c)
  gap : ∀ c, IsCorner polys c → twinAt twins c = (INV, INV) →
    m.heLive (GC.twin (H c)) ∧ m.ext (GC.twin (H c)) ∧ m.heVertex (GC.twin (H c)) = cornerV polys (cornerNext polys c)

section
variable {polys : List (List ℕ)} {twins : List (List (ℕ × ℕ))}

theorem no_corner (hF : polys.length < INV) : ¬ IsCorner polys (INV, INV) := fun h => by
  have := h.1
  simp only at this
  omega

theorem Glued.back (hG : Glued polys twins) (hF : polys.length < INV) {a : ℕ × ℕ} (ha : IsCorner polys a)
    (ht : IsCorner polys (twinAt twins a)) : twinAt twins (twinAt twins a) = a ∧
      cornerV polys (twinAt twins a) = cornerV polys (cornerNext polys a) ∧
      cornerV polys (cornerNext polys (twinAt twins a)) = cornerV polys a := by
  have h1 := (hG.pair a ha).resolve_left (fun h => no_corner hF (h ▸ ht))
  have h2 := (hG.pair _ ht).resolve_left (fun h => no_corner hF (by rw [h1.2.1] at h; exact h ▸ ha))
  refine ⟨h1.2.1, h1.2.2.2, ?_⟩
  have := h2.2.2.2
  rw [h1.2.1] at this
  exact this.symm

/-- If the corners at each vertex are connected, at most one side without twin ends at a vertex. -/
theorem Fans.oneGap (hG : Glued polys twins) (hF : polys.length < INV) (hf : Fans polys twins) : OneGap polys twins := by
  intro p q hp hq hpt hqt hv
  have hroot : ∀ p, IsCorner polys p → twinAt twins p = (INV, INV) → ∀ a, ¬ TwinAdj polys twins a (cornerNext polys p) := by
    rintro p hp hpt a ⟨ha, hta, he⟩
    have := cornerNext_inj hp hta he
    subst this
    rw [(hG.back hF ha hta).1] at hpt
    exact no_corner hF (hpt ▸ ha)
  have hfwd : ∀ x y, Relation.EqvGen (TwinAdj polys twins) x y →
      (Relation.ReflTransGen (TwinAdj polys twins) (cornerNext polys p) x ↔
        Relation.ReflTransGen (TwinAdj polys twins) (cornerNext polys p) y) := by
    intro x y hxy
    induction hxy with
    | rel x y hxy =>
      refine ⟨fun h => h.tail hxy, ?_⟩
      intro h
      rcases Relation.ReflTransGen.cases_tail h with h1 | ⟨z, h1, h2⟩
      · rw [h1] at hxy
        exact absurd hxy (hroot p hp hpt x)
      · obtain ⟨hx, hxt, hxe⟩ := hxy
        obtain ⟨hz, hzt, hze⟩ := h2
        have h3 := cornerNext_inj hxt hzt (hxe.symm.trans hze)
        have h4 := (hG.back hF hx hxt).1
        rw [h3, (hG.back hF hz hzt).1] at h4
        rw [← h4]
        exact h1
    | refl => exact Iff.rfl
    | symm x y _ ih => exact ih.symm
    | trans x y z _ _ ih1 ih2 => exact ih1.trans ih2
  have h1 := (hfwd _ _ (hf _ _ hp.next hq.next hv)).1 .refl
  rcases Relation.ReflTransGen.cases_tail h1 with h2 | ⟨z, -, h3⟩
  · exact (cornerNext_inj hq hp h2).symm
  · exact absurd h3 (hroot q hq hqt z)

/-- The state when the faces have been entered and the boundary loops made. -/
structure TDone (polys : List (List ℕ)) (twins : List (List (ℕ × ℕ))) (nV n : ℕ) (s : PolySt) (m : Mesh) : Prop where
  glued : Glued polys twins
  built : TInv polys twins nV polys.length 0 n s
  nF : polys.length < INV
  nVI : nV < INV
  lt : ∀ c, IsCorner polys c → cornerV polys c < nV
  op : Open s.m (2 * s.m.nEFill)
  ri : RI s.m (2 * s.m.nEFill) (isX s.m (2 * s.m.nEFill)) m

namespace TDone
variable {nV n : ℕ} {s : PolySt} {m : Mesh}

theorem look_iff (hD : TDone polys twins nV n s m) {h : ℕ} (hh : h < 2 * s.m.nEFill) :
    ¬ isX s.m (2 * s.m.nEFill) h ↔ ∃ c, IsCorner polys c ∧ s.look c = some h := by
  rw [← hD.built.face_iff hD.nF hh]
  constructor
  · intro h1 h2; exact h1 ⟨hh, h2⟩
  · rintro h1 ⟨-, h2⟩; exact h1 h2

theorem isCorner (hD : TDone polys twins nV n s m) {c : ℕ × ℕ} {h : ℕ} (hk : s.look c = some h) : IsCorner polys c :=
  ((hD.built.dom c).1 (by rw [hk]; simp)).1

theorem notX (hD : TDone polys twins nV n s m) {k : ℕ × ℕ} {h : ℕ} (hk : s.look k = some h) :
    h < 2 * s.m.nEFill ∧ ¬ isX s.m (2 * s.m.nEFill) h := by
  have h1 := (hD.built.vert _ _ hk).1
  exact ⟨h1, (hD.look_iff h1).2 ⟨k, hD.isCorner hk, hk⟩⟩

theorem twinX (hD : TDone polys twins nV n s m) {h : ℕ} (hX : isX s.m (2 * s.m.nEFill) h) :
    ∃ c, IsCorner polys c ∧ s.look c = some (twin h) ∧ twinAt twins c = (INV, INV) :=
  hD.built.ext hD.glued hX.1 hX.2 hD.nF

theorem v_lt (hD : TDone polys twins nV n s m) {h : ℕ} (hh : h < 2 * s.m.nEFill) : s.m.heVertex h < nV := by
  by_cases hX : isX s.m (2 * s.m.nEFill) h
  · obtain ⟨c, hc, hl, -⟩ := hD.twinX hX
    have := (hD.built.vert _ _ hl).2.2
    rw [twin_twin] at this
    rw [this]
    exact hD.lt _ hc.next
  · obtain ⟨c, hc, hl⟩ := (hD.look_iff hh).1 hX
    rw [(hD.built.vert _ _ hl).2.1]
    exact hD.lt _ hc

theorem vHe (hD : TDone polys twins nV n s m) {v : ℕ} (hv : ∃ c, IsCorner polys c ∧ cornerV polys c = v) :
    m.vHalfedge v < 2 * s.m.nEFill ∧ s.m.heVertex (m.vHalfedge v) = v := by
  rcases hD.ri.vhe v with ⟨h1, -⟩ | ⟨w, h1, h2, h3⟩
  · rw [h1]
    rcases hD.built.vhe v with ⟨-, h2⟩ | ⟨k, h2, h3⟩
    · obtain ⟨c, hc, he⟩ := hv
      exact absurd he (h2 c ⟨hc, .inl hc.1⟩)
    · obtain ⟨h4, h5, -⟩ := hD.built.vert _ _ h2
      exact ⟨h4, h5.trans h3⟩
  · rw [h2]
    exact ⟨hD.op.twin_lt h1.1, h3⟩

theorem vDead (hD : TDone polys twins nV n s m) {v : ℕ} (hv : ¬ ∃ c, IsCorner polys c ∧ cornerV polys c = v) :
    m.vHalfedge v = INV := by
  rcases hD.ri.vhe v with ⟨h1, -⟩ | ⟨w, h1, -, h3⟩
  · rw [h1]
    rcases hD.built.vhe v with ⟨h2, -⟩ | ⟨k, h2, h3⟩
    · exact h2
    · exact absurd ⟨k, hD.isCorner h2, h3⟩ hv
  · obtain ⟨c, hc, hl, -⟩ := hD.twinX h1
    exact absurd ⟨c, hc, (hD.built.vert _ _ hl).2.1.symm.trans h3⟩ hv

theorem ne (hD : TDone polys twins nV n s m) {h : ℕ} (hh : h < 2 * s.m.nEFill) : s.m.heVertex h ≠ s.m.heVertex (twin h) := by
  have hint : ∀ c h, s.look c = some h → s.m.heVertex h ≠ s.m.heVertex (twin h) := by
    intro c h hl
    obtain ⟨-, h1, h2⟩ := hD.built.vert _ _ hl
    rw [h1, h2]
    exact hD.glued.loop c (hD.isCorner hl)
  by_cases hX : isX s.m (2 * s.m.nEFill) h
  · obtain ⟨c, -, hl, -⟩ := hD.twinX hX
    have := hint _ _ hl
    rw [twin_twin] at this
    exact this.symm
  · obtain ⟨c, -, hl⟩ := (hD.look_iff hh).1 hX
    exact hint _ _ hl

/-- `next` in the finished mesh follows the sides. -/
theorem next (hD : TDone polys twins nV n s m) {c : ℕ × ℕ} {h : ℕ} (hl : s.look c = some h) :
    s.look (cornerNext polys c) = some (m.heNext h) := by
  obtain ⟨h', a, -, b⟩ := hD.built.corner (hD.isCorner hl)
  rw [hl] at a
  cases a
  obtain ⟨h3, h4⟩ := hD.notX hl
  rw [(hD.ri.next_int hD.op h3 h4).1]
  exact b

/-- Walking along a face. -/
theorem walk (hD : TDone polys twins nV n s m) {c : ℕ × ℕ} {h : ℕ} (hl : s.look c = some h) (k : ℕ) :
    s.look ((cornerNext polys)^[k] c) = some (m.heNext^[k] h) := by
  induction k with
  | zero => exact hl
  | succ k ih =>
    rw [Function.iterate_succ_apply', Function.iterate_succ_apply']
    exact hD.next ih

theorem face_orb (hD : TDone polys twins nV n s m) {i j : ℕ} (hi : i < 2 * s.m.nEFill) (hj : j < 2 * s.m.nEFill) :
    m.heFace i = m.heFace j ↔ Orb m.heNext i j := by
  have hO := hD.op
  have hR := hD.ri
  constructor
  · intro he
    by_cases hX : isX s.m (2 * s.m.nEFill) i
    · have hY : isX s.m (2 * s.m.nEFill) j := by
        by_contra hY
        rw [← hR.face_int hO hj, ← he, hR.face_int hO hi] at hY
        exact hY hX
      obtain ⟨b, hb, h1, h2⟩ := hR.faceP i hX
      obtain ⟨b', hb', h1', h2'⟩ := hR.faceP j hY
      have hbb : b = b' := by omega
      subst hbb
      exact hR.orb_of_sig hO hY ((h2'.symm hO.sig_per).trans h2)
    · have hY : ¬ isX s.m (2 * s.m.nEFill) j := by
        rw [← hR.face_int hO hj, ← he, hR.face_int hO hi]
        exact hX
      obtain ⟨c, hc, hl⟩ := (hD.look_iff hi).1 hX
      obtain ⟨c', hc', hl'⟩ := (hD.look_iff hj).1 hY
      rw [hR.face _ hX, hR.face _ hY, hD.built.face _ _ hl, hD.built.face _ _ hl'] at he
      obtain ⟨k, hk⟩ := cornerNext_orb hc hc' he
      have := hD.walk hl k
      rw [hk, hl'] at this
      exact ⟨k, (Option.some.inj this).symm⟩
  · intro h
    refine (h.induct (fun z => z < 2 * s.m.nEFill ∧ m.heFace i = m.heFace z) ⟨hi, rfl⟩ ?_).2
    rintro z ⟨hz, h1⟩
    exact ⟨hR.next_lt hO hz, by rw [hR.face_next hO hz, h1]⟩

/-- The twin of a side's halfedge. -/
theorem twin_look (hD : TDone polys twins nV n s m) {c : ℕ × ℕ} {h : ℕ} (hl : s.look c = some h)
    (ht : IsCorner polys (twinAt twins c)) : s.look (twinAt twins c) = some (twin h) := by
  obtain ⟨t, a, -⟩ := hD.built.corner ht
  rw [a, hD.built.pair' _ _ _ hl a]

/-- The corners at a vertex are connected if the halfedges around it form one cycle. -/
theorem fans (hD : TDone polys twins nV n s m) (hck : ∀ h < 2 * s.m.nEFill, Orb m.vNext (m.vHalfedge (m.heVertex h)) h) :
    Fans polys twins := by
  have hO := hD.op
  have hR := hD.ri
  have hC := hD.built
  have r1 := hR.same.1
  intro a b ha hb hab
  generalize hav : cornerV polys a = v at hab
  have hbv := hab.symm
  have key : ∀ a, IsCorner polys a → cornerV polys a = v → ∃ c,
      s.look c = some (m.vHalfedge v) ∧ Relation.EqvGen (TwinAdj polys twins) a c := by
    intro a ha hav
    obtain ⟨h, hl, -⟩ := hC.corner ha
    obtain ⟨hh, hhv, -⟩ := hC.vert _ _ hl
    have hhv' : s.m.heVertex h = v := hhv.trans hav
    obtain ⟨hv1, hv2⟩ := hD.vHe ⟨a, ha, hav⟩
    have horb := hck h hh
    rw [r1, hhv'] at horb
    have horb' := hR.orb_symm hO hv1 hh horb
    obtain ⟨k, -, hk, hmin⟩ := first_hit horb' (N := 2 * s.m.nEFill) (fun z hz => hR.orb_lt hO hh hz)
    have hstep : ∀ j ≤ k, ∃ c, cornerV polys c = v ∧ s.look c = some (m.vNext^[j] h) ∧
        Relation.EqvGen (TwinAdj polys twins) a c := by
      intro j hj
      induction j with
      | zero => exact ⟨a, hav, hl, .refl _⟩
      | succ j ih =>
        obtain ⟨c, hcv, hcl, hce⟩ := ih (by omega)
        obtain ⟨hz1, hz2⟩ := hD.notX hcl
        obtain ⟨-, hzv, hzt⟩ := hC.vert _ _ hcl
        have hne := hmin j (by omega)
        rw [Function.iterate_succ_apply']
        generalize m.vNext^[j] h = z at *
        have htw : ¬ isX s.m (2 * s.m.nEFill) (twin z) := by
          intro hX
          obtain ⟨h1, -, h3⟩ := hR.next_ext hO hX
          rw [twin_twin, hzv] at h3
          obtain ⟨-, -, -, h4, -, h5⟩ := hO.sig_eq h1
          rw [h3] at h5
          have h5' : s.m.heVertex (twin (sig s.m (2 * s.m.nEFill) (m.heNext (twin z)))) = v := h5.trans hcv
          rcases hR.vhe v with ⟨-, h6⟩ | ⟨w, h6, h7, h8⟩
          · exact h6 _ h4 h5'
          · obtain ⟨h9, -, h10⟩ := hR.next_ext hO h6
            have h11 := hO.uniq _ h1.1 _ h9.1 h1.2 h9.2 (by rw [h3, h10, h8]; exact hcv)
            have h12 := hR.next_inj hO hX.1 h6.1 h11
            apply hne
            rw [h7, ← h12, twin_twin]
        obtain ⟨p, hp, hpl⟩ := (hD.look_iff (hO.twin_lt hz1)).1 htw
        have hpe := hC.pair _ _ _ hcl hpl
        subst hpe
        have hc := hD.isCorner hcl
        refine ⟨cornerNext polys (twinAt twins c), ((hD.glued.back hD.nF hc hp).2.2).trans hcv, hD.next hpl, ?_⟩
        exact .trans _ _ _ hce (.rel _ _ ⟨hc, hp, rfl⟩)
    obtain ⟨c, -, hcl, hce⟩ := hstep k le_rfl
    rw [hk] at hcl
    exact ⟨c, hcl, hce⟩
  obtain ⟨c, hcl, hce⟩ := key a ha hav
  obtain ⟨c', hcl', hce'⟩ := key b hb hbv
  have := hC.inj _ _ _ hcl hcl'
  subst this
  exact .trans _ _ _ hce (.symm _ _ hce')

/-- If the corners at each vertex are connected, the halfedges around it form one cycle. -/
theorem check (hD : TDone polys twins nV n s m) (hM : Fans polys twins) {h : ℕ} (hh : h < 2 * s.m.nEFill) :
    Orb m.vNext (m.vHalfedge (m.heVertex h)) h := by
  have hO := hD.op
  have hR := hD.ri
  have hC := hD.built
  have r1 := hR.same.1
  have key : ∀ x y, Relation.EqvGen (TwinAdj polys twins) x y → (IsCorner polys x ↔ IsCorner polys y) ∧
      (IsCorner polys x → ∀ a b, s.look x = some a → s.look y = some b → Orb m.vNext a b) := by
    intro x y hxy
    induction hxy with
    | rel x y hxy =>
      obtain ⟨hx, hy, rfl⟩ := hxy
      refine ⟨⟨fun _ => hy.next, fun _ => hx⟩, ?_⟩
      intro _ a b hla hlb
      have h1 := hD.next (hD.twin_look hla hy)
      rw [hlb] at h1
      cases h1
      exact Orb.step m.vNext a
    | refl x =>
      refine ⟨Iff.rfl, ?_⟩
      intro _ a b ha hb
      rw [ha] at hb
      cases hb
      exact Orb.refl _ _
    | symm x y _ ih =>
      refine ⟨ih.1.symm, ?_⟩
      intro hy a b ha hb
      exact hR.orb_symm hO (hD.notX hb).1 (hD.notX ha).1 (ih.2 (ih.1.2 hy) b a hb ha)
    | trans x y z _ _ ih1 ih2 =>
      refine ⟨ih1.1.trans ih2.1, ?_⟩
      intro hx a b ha hb
      obtain ⟨d, hd, -⟩ := hC.corner (ih1.1.1 hx)
      exact (ih1.2 hx a d ha hd).trans (ih2.2 (ih1.1.1 hx) d b hd hb)
  have hint : ∀ c h, s.look c = some h → Orb m.vNext (m.vHalfedge (m.heVertex h)) h := by
    intro c h hl
    have hc := hD.isCorner hl
    have hcv := (hC.vert _ _ hl).2.1
    rw [r1, hcv]
    obtain ⟨hv1, hv2⟩ := hD.vHe ⟨c, hc, rfl⟩
    have hvX : ∃ c', s.look c' = some (m.vHalfedge (cornerV polys c)) := by
      rcases hR.vhe (cornerV polys c) with ⟨h1, -⟩ | ⟨w, h1, h2, -⟩
      · rw [h1]
        rcases hC.vhe (cornerV polys c) with ⟨-, h2⟩ | ⟨k, h2, -⟩
        · exact absurd rfl (h2 c ⟨hc, .inl hc.1⟩)
        · exact ⟨k, h2⟩
      · obtain ⟨c', -, hl', -⟩ := hD.twinX h1
        exact ⟨c', by rw [h2]; exact hl'⟩
    obtain ⟨c', hl'⟩ := hvX
    have hc' := hD.isCorner hl'
    exact (key _ _ (hM c' c hc' hc ((hC.vert _ _ hl').2.1.symm.trans hv2))).2 hc' _ _ hl' hl
  by_cases hX : isX s.m (2 * s.m.nEFill) h
  · obtain ⟨c, -, hl, -⟩ := hD.twinX hX
    have h1 := hint _ _ (hD.next hl)
    have hn := hR.vNext_lt hO hh
    have h2 : m.heVertex (m.vNext h) = m.heVertex h := (hR.orb_vertex hO hh (Orb.step _ _)).symm
    have h3 : m.heNext (twin h) = m.vNext h := rfl
    rw [h3, h2] at h1
    exact h1.trans (hR.orb_symm hO hh hn (Orb.step _ _))
  · obtain ⟨c, -, hl⟩ := (hD.look_iff hh).1 hX
    exact hint _ _ hl

theorem valid_iff (hD : TDone polys twins nV n s m) (hnV : ∀ v, v < nV ↔ v = 0 ∨ ∃ w ∈ polys.flatten, v ≤ w) :
    m.setCaps.Valid ↔ Dense polys ∧ Fans polys twins := by
  have hO := hD.op
  have hR := hD.ri
  have hC := hD.built
  obtain ⟨r1, r2, r3, r4, r5⟩ := hR.same
  have hV : m.nV = nV := r4.trans hC.other.1
  have hlim := hO.lim
  have hN : m.nHe = 2 * s.m.nEFill := r2.trans hO.he
  constructor
  · intro hv
    have hall : ∀ v < nV, v ∈ polys.flatten := by
      intro v hlt
      by_contra hn
      rw [mem_flatten_iff] at hn
      have h1 := hD.vDead hn
      have h2 : m.nV = Nat.count (fun v => m.vHalfedge v ≠ INV) m.nV := hv.cnt_v
      have h3 := (Nat.count_iff_forall (p := fun v => m.vHalfedge v ≠ INV) (n := m.nV)).1 h2.symm
      exact h3 v (by omega) h1
    have hdense : Dense polys := by
      refine ⟨?_, ?_⟩
      · rintro rfl
        have := hall 0 ((hnV 0).2 (.inl rfl))
        simp at this
      · intro v w hvw hw
        exact hall v ((hnV v).2 (.inr ⟨w, hw, hvw⟩))
    refine ⟨hdense, hD.fans ?_⟩
    intro h hh
    have hlive : ∀ h < 2 * s.m.nEFill, m.setCaps.heLive h := by
      intro h hh
      have := hR.next_lt hO hh
      exact ⟨show h < m.nHe by omega, show m.heNext h ≠ INV by omega⟩
    have hvl := hv.vertex_live h (hlive h hh)
    obtain ⟨h1, h2⟩ := hv.v_he _ hvl
    exact (hv.vertex_iff _ _ h1 (hlive h hh)).1 h2
  · rintro ⟨hd, hf⟩
    have hall : ∀ v < nV, ∃ c, IsCorner polys c ∧ cornerV polys c = v := by
      intro v hv
      rw [← mem_flatten_iff]
      rcases (hnV v).1 hv with rfl | ⟨w, hw, hvw⟩
      · obtain ⟨p, ps, hps⟩ := List.exists_cons_of_ne_nil hd.1
        have h4 := hD.glued.deg p (by rw [hps]; simp)
        obtain ⟨x, hx⟩ := List.exists_mem_of_length_pos (show 0 < p.length by omega)
        exact hd.2 0 x (Nat.zero_le _) (List.mem_flatten.2 ⟨p, by rw [hps]; simp, hx⟩)
      · exact hd.2 v w hvw hw
    have hE := hC.e
    refine RI.valid hO hR (by omega) hV hD.nVI (fun h hh => hD.v_lt hh) (fun v hv => hD.vHe (hall v hv))
      (fun h hh => hD.ne hh) (fun i j hi hj => hD.face_orb hi hj) ?_ (fun h hh => hD.check hf hh)
    intro e he
    obtain ⟨k, hk⟩ := hC.even e (by omega)
    exact (hD.notX hk).2

theorem realises (hD : TDone polys twins nV n s m) (hnV : ∀ v, v < nV ↔ v = 0 ∨ ∃ w ∈ polys.flatten, v ≤ w) :
    Realises polys twins m.setCapsAt (fun c => (s.look c).getD 0) := by
  have hO := hD.op
  have hR := hD.ri
  have hC := hD.built
  obtain ⟨r1, r2, r3, r4, r5⟩ := hR.same
  have hV : m.nV = nV := r4.trans hC.other.1
  have hF : m.nF = polys.length := r3.trans hC.other.2.1
  have hlim := hO.lim
  have hN : m.nHe = 2 * s.m.nEFill := r2.trans hO.he
  have hlive : ∀ h, m.setCapsAt.heLive h ↔ h < 2 * s.m.nEFill := by
    intro h
    show (h < m.nHe ∧ m.heNext h ≠ INV) ↔ _
    rw [hN]
    refine ⟨fun x => x.1, fun x => ⟨x, ?_⟩⟩
    have := hR.next_lt hO x
    omega
  have hext : ∀ h < 2 * s.m.nEFill, (m.setCapsAt.ext h ↔ isX s.m (2 * s.m.nEFill) h) := by
    intro h hh
    show m.nF ≤ m.heFace h ↔ _
    rw [← not_lt, hR.face_int hO hh, not_not]
  have ex : ∀ c, IsCorner polys c → ∃ h, s.look c = some h ∧ (s.look c).getD 0 = h := by
    intro c hc
    obtain ⟨h, hl, -⟩ := hC.corner hc
    exact ⟨h, hl, by rw [hl]; rfl⟩
  refine ⟨⟨hF, hF⟩, ?_, ?_, ?_, ?_, ?_, ?_, ?_, ?_, ?_, ?_⟩
  · intro v
    rw [← hnV, ← hV]
    exact Iff.rfl
  · intro c hc
    obtain ⟨h, hl, he⟩ := ex c hc
    simp only [he]
    obtain ⟨h1, h2⟩ := hD.notX hl
    exact ⟨(hlive h).2 h1, by rw [hext h h1]; exact h2⟩
  · intro c c' hc hc' h1
    obtain ⟨h, hl, he⟩ := ex c hc
    obtain ⟨h', hl', he'⟩ := ex c' hc'
    simp only [he, he'] at h1
    subst h1
    exact hC.inj _ _ _ hl hl'
  · intro h hh hx
    rw [hlive] at hh
    rw [hext h hh] at hx
    obtain ⟨c, hc, hl⟩ := (hD.look_iff hh).1 hx
    exact ⟨c, hc, by simp only [hl, Option.getD_some]⟩
  · intro c hc
    obtain ⟨h, hl, he⟩ := ex c hc
    simp only [he]
    show m.heVertex h = _
    rw [r1]
    exact (hC.vert _ _ hl).2.1
  · intro c hc
    obtain ⟨h, hl, he⟩ := ex c hc
    simp only [he]
    show m.heFace h = _
    rw [hR.face _ (hD.notX hl).2]
    exact hC.face _ _ hl
  · intro c hc
    obtain ⟨h, hl, he⟩ := ex c hc
    simp only [he, hD.next hl, Option.getD_some]
    rfl
  · intro f hf
    have hc : IsCorner polys (f, 0) := ⟨hf, by
      have := hD.glued.deg polys[f] (List.getElem_mem hf)
      simp only [polyAt_eq hf]
      omega⟩
    obtain ⟨h, hl, he⟩ := ex _ hc
    simp only [he]
    show m.fHalfedge f = h
    rw [hR.fhe f (by omega)]
    exact hC.first _ _ hl
  · intro c hc ht
    obtain ⟨h, hl, he⟩ := ex c hc
    have h1 := ((hD.glued.pair c hc).resolve_left ht).1
    simp only [he, hD.twin_look hl h1, Option.getD_some]
  · intro c hc ht
    obtain ⟨h, hl, he⟩ := ex c hc
    simp only [he]
    obtain ⟨h1, -⟩ := hD.notX hl
    have h2 := twin_lt_even h1
    refine ⟨(hlive _).2 h2, (hext _ h2).2 ⟨h2, (hC.noTwin hD.nF ht hl).1⟩, ?_⟩
    show m.heVertex _ = _
    rw [r1]
    exact (hC.vert _ _ hl).2.2

end TDone
end

/-- Making the boundary loops leaves the storage of the edges alone. -/
theorem bdyLoop_fill (iHe bl : ℕ) : ∀ (n c : ℕ) (m : Mesh) (cur : ℕ) (m' : Mesh), bdyLoop iHe bl n c m cur = .ok m' →
    m'.nEFill = m.nEFill ∧ m'.nECap = m.nECap := by
  intro n
  induction n with
  | zero => intro c m cur m' h; cases h
  | succ n ih =>
    intro c m cur m' h
    unfold bdyLoop at h
    dsimp only at h
    by_cases h1 : (m.bdyMark cur bl).heNext (twin cur) = INV
    · rw [if_pos h1] at h
      cases h
    rw [if_neg h1] at h
    cases h2 : bdyOrbit (m.bdyMark cur bl) iHe ((m.bdyMark cur bl).nHe + 1) 0 (twin ((m.bdyMark cur bl).heNext (twin cur))) with
    | error e => rw [h2] at h; cases h
    | ok new =>
      rw [h2] at h
      dsimp only [bind, Except.bind] at h
      split_ifs at h
      · cases h
        exact ⟨rfl, rfl⟩
      · have := ih _ _ _ _ h
        exact this

theorem resolve_fill {m m' : Mesh} {i : ℕ} (h : resolve m i = .ok m') : m'.nEFill = m.nEFill ∧ m'.nECap = m.nECap := by
  unfold resolve at h
  split_ifs at h
  · cases h
    exact ⟨rfl, rfl⟩
  · have := bdyLoop_fill _ _ _ _ _ _ _ h
    exact this

theorem resolveAll_fill (l : List ℕ) : ∀ (m m' : Mesh), l.foldlM resolve m = .ok m' → m'.nEFill = m.nEFill ∧ m'.nECap = m.nECap := by
  induction l with
  | nil => intro m m' h; cases h; exact ⟨rfl, rfl⟩
  | cons i l ih =>
    intro m m' h
    rw [List.foldlM_cons] at h
    cases h1 : resolve m i with
    | error e => rw [h1] at h; cases h
    | ok m1 =>
      rw [h1] at h
      obtain ⟨a, b⟩ := ih m1 m' h
      obtain ⟨c, d⟩ := resolve_fill h1
      exact ⟨a.trans c, b.trans d⟩

/-- **C79.** On polygons with matching twins the constructor throws just if two sides without twin end at the same vertex.
Otherwise the interior halfedges of the mesh are the sides, glued as the twins say.  Apart from the capacity of the edges
the mesh is valid just if every vertex is used and the corners at every vertex are connected. -/
theorem C79 (polys : List (List ℕ)) (twins : List (List (ℕ × ℕ))) (hG : Glued polys twins)
    (hv : ∀ v ∈ polys.flatten, v + 1 < INV) (hl : 4 * (polys.flatten.length + 1) < INV) :
    (¬ OneGap polys twins → fromTwins polys twins = .error .throw) ∧
    (OneGap polys twins → ∃ m H, fromTwins polys twins = .ok m ∧ Realises polys twins m H ∧
      m.nHeCap = 2 * m.nE ∧ m.nE ≤ m.nECap ∧ m.nECap ≤ 2 * m.nE ∧
      ({ m with nECap := m.nE }.Valid ↔ Dense polys ∧ Fans polys twins)) ∧
    (Fans polys twins → OneGap polys twins) := by
  have hlen := length_le_flatten hG.deg
  have hF : polys.length < INV := by omega
  have hI : 2 < INV := by decide
  have hlt : ∀ v, v < polys.flatten.foldl max 0 + 1 ↔ v = 0 ∨ ∃ w ∈ polys.flatten, v ≤ w := by
    intro v
    rw [foldl_max_lt, Nat.le_zero]
  have hnV : polys.flatten.foldl max 0 + 1 < INV := by
    by_contra h
    rcases (hlt (INV - 1)).1 (by omega) with h1 | ⟨w, h1, h2⟩
    · omega
    · have := hv w h1
      omega
  have hrun : ∃ s, TInv polys twins (polys.flatten.foldl max 0 + 1) polys.length 0 polys.flatten.length s ∧
      fromTwins polys twins = (do
        let _ ← (List.range s.m.nHe).foldlM (checkBdy s.m) (fun _ => false)
        let m ← (List.range s.m.nHe).foldlM resolve { s.m with nInt := s.m.nHe }
        .ok m.setCapsAt) := by
    obtain ⟨s, hs, hC⟩ := polysAt_ok hG hF hl (polys.flatten.foldl max 0 + 1)
    refine ⟨s, hC, ?_⟩
    unfold fromTwins
    rw [if_neg (not_not.2 hG.len), if_neg (by
      rw [List.any_eq_true]
      rintro ⟨p, hp, h⟩
      have := hG.deg p hp
      simp at h
      omega)]
    dsimp only
    rw [if_neg (by omega), if_neg (by omega), hs]
    rfl
  obtain ⟨s, hC, hrun⟩ := hrun
  rw [hrun]
  have hgap := hC.gap_iff hG hF
  refine ⟨?_, ?_, Fans.oneGap hG hF⟩
  · intro hn
    rcases checkBdy_ok s.m with ⟨-, hu⟩ | ⟨ho, -⟩
    · exact absurd (hgap.1 hu) hn
    · rw [ho]
      rfl
  · intro hg
    rcases checkBdy_ok s.m with ⟨⟨o, ho⟩, -⟩ | ⟨-, i, hi, j, hj, hni, hnj, he, hne⟩
    swap
    · exact absurd (hgap.2 hg i hi j hj hni hnj he) hne
    have hO := hC.open hG hF hg
    obtain ⟨m, hm, hR⟩ := resolveAll_ok hO
    have hD : TDone polys twins _ _ s m := ⟨hG, hC, hF, hnV, fun c hc => (hlt _).2 (.inr ⟨_, mem_flatten_iff.2 ⟨c, hc, rfl⟩, le_rfl⟩),
      hO, hR⟩
    obtain ⟨f1, f2⟩ := resolveAll_fill _ _ _ hm
    simp only at f1 f2
    obtain ⟨r1, r2, r3, r4, r5⟩ := hR.same
    have hE := hC.e
    have hcap := hC.cap
    have hhe := hC.he
    refine ⟨m.setCapsAt, _, ?_, hD.realises hlt, ?_, ?_, ?_, ?_⟩
    · rw [ho]
      dsimp only [bind, Except.bind]
      rw [hm]
    · show m.nHe = 2 * m.nE
      omega
    · show m.nE ≤ m.nECap
      omega
    · show m.nECap ≤ 2 * m.nE
      omega
    · rw [← hD.valid_iff hlt]
      have : { m.setCapsAt with nECap := m.setCapsAt.nE } = m.setCaps := by
        unfold setCapsAt setCaps
        have h1 : m.nEFill = m.nE := by omega
        simp only [h1]
      rw [this]

/-! ### Examples -/

theorem corners_iff {polys : List (List ℕ)} {P : ℕ × ℕ → Prop} :
    (∀ c, IsCorner polys c → P c) ↔ ∀ f < polys.length, ∀ i < (polyAt polys f).length, P (f, i) :=
  ⟨fun h f hf i hi => h (f, i) ⟨hf, hi⟩, fun h c hc => h c.1 hc.1 c.2 hc.2⟩

def cornerList (polys : List (List ℕ)) : List (ℕ × ℕ) :=
  (List.range polys.length).flatMap (fun f => (List.range (polyAt polys f).length).map (f, ·))

theorem mem_cornerList {polys : List (List ℕ)} {c : ℕ × ℕ} : c ∈ cornerList polys ↔ IsCorner polys c := by
  unfold cornerList
  simp only [List.mem_flatMap, List.mem_range, List.mem_map]
  constructor
  · rintro ⟨f, hf, i, hi, rfl⟩
    exact ⟨hf, hi⟩
  · intro h
    exact ⟨c.1, h.1, c.2, h.2, rfl⟩

instance (polys : List (List ℕ)) (c : ℕ × ℕ) : Decidable (IsCorner polys c) :=
  inferInstanceAs (Decidable (_ ∧ _))

/-- Turning around vertices of a mesh without boundary. -/
theorem fans_of_turn {polys : List (List ℕ)} {twins : List (List (ℕ × ℕ))} (N : ℕ)
    (ht : ∀ c, IsCorner polys c → IsCorner polys (twinAt twins c))
    (h : ∀ a, IsCorner polys a → ∀ b, IsCorner polys b → cornerV polys a = cornerV polys b →
      ∃ k < N, (fun a => cornerNext polys (twinAt twins a))^[k] a = b) : Fans polys twins := by
  intro a b ha hb hab
  obtain ⟨k, -, rfl⟩ := h a ha b hb hab
  clear h hb hab
  suffices H : IsCorner polys ((fun a => cornerNext polys (twinAt twins a))^[k] a) ∧
      Relation.EqvGen (TwinAdj polys twins) a ((fun a => cornerNext polys (twinAt twins a))^[k] a) from H.2
  induction k with
  | zero => exact ⟨ha, .refl _⟩
  | succ k ih =>
    rw [Function.iterate_succ_apply']
    obtain ⟨h1, h2⟩ := ih
    exact ⟨(ht _ h1).next, .trans _ _ _ h2 (.rel _ _ ⟨h1, ht _ h1, rfl⟩)⟩

/-- A sphere of four triangles with two edges between vertices 0 and 1. -/
def twoEdges : List (List ℕ) := [[0, 1, 2], [1, 0, 2], [1, 0, 3], [0, 1, 3]]
def twoEdgesT : List (List (ℕ × ℕ)) :=
  [[(2, 0), (1, 2), (1, 1)], [(3, 0), (0, 2), (0, 1)], [(0, 0), (3, 2), (3, 1)], [(1, 0), (2, 2), (2, 1)]]

theorem twoEdges_glued : Glued twoEdges twoEdgesT :=
  ⟨by decide, by decide, by decide, corners_iff.2 (by decide), corners_iff.2 (by decide)⟩

theorem twoEdges_fans : Fans twoEdges twoEdgesT :=
  fans_of_turn 4 (corners_iff.2 (by decide)) (fun a ha b hb => by
    rw [← mem_cornerList] at ha hb
    revert a b
    decide)

/-- The hypotheses of `C79` hold for this sphere: it is accepted with these twins (and rejected without them). -/
example : (∃ m H, fromTwins twoEdges twoEdgesT = .ok m ∧ Realises twoEdges twoEdgesT m H ∧ { m with nECap := m.nE }.Valid) ∧
    fromPolygons twoEdges = .error .throw := by
  obtain ⟨-, h2, h3⟩ := C79 twoEdges twoEdgesT twoEdges_glued (by decide) (by decide)
  obtain ⟨m, H, a, b, -, -, -, c⟩ := h2 (h3 twoEdges_fans)
  refine ⟨⟨m, H, a, b, c.2 ⟨⟨by decide, ?_⟩, twoEdges_fans⟩⟩, rfl⟩
  intro v w hvw hw
  have : w ≤ 3 := by clear hvw; revert w; decide
  have hv : v ≤ 3 := hvw.trans this
  clear * - hv
  interval_cases v <;> decide

/-- Two triangles with a common side, and the rest boundary. -/
def kite : List (List ℕ) := [[0, 1, 2], [2, 1, 3]]
def kiteT : List (List (ℕ × ℕ)) := [[(INV, INV), (1, 0), (INV, INV)], [(0, 1), (INV, INV), (INV, INV)]]

theorem kite_glued : Glued kite kiteT :=
  ⟨by decide, by decide, by decide, corners_iff.2 (by decide), corners_iff.2 (by decide)⟩

example : OneGap kite kiteT := by
  have : ∀ c, IsCorner kite c → ∀ c', IsCorner kite c' → twinAt kiteT c = (INV, INV) → twinAt kiteT c' = (INV, INV) →
    cornerV kite (cornerNext kite c) = cornerV kite (cornerNext kite c') → c = c' :=
    fun c hc c' hc' => by
      rw [← mem_cornerList] at hc hc'
      revert c c'
      decide
  exact fun c c' hc hc' => this c hc c' hc'

/-- The same two triangles, not glued. -/
example : Glued kite [[(INV, INV), (INV, INV), (INV, INV)], [(INV, INV), (INV, INV), (INV, INV)]] ∧
    ¬ OneGap kite [[(INV, INV), (INV, INV), (INV, INV)], [(INV, INV), (INV, INV), (INV, INV)]] := by
  refine ⟨⟨by decide, by decide, by decide, corners_iff.2 (by decide), corners_iff.2 (by decide)⟩, fun h => ?_⟩
  have := h (0, 0) (1, 0) (by decide) (by decide) (by decide) (by decide) (by decide)
  exact absurd this (by decide)

/-- Two tetrahedra with a common vertex. -/
def twoTets : List (List ℕ) :=
  [[0, 1, 2], [0, 2, 3], [0, 3, 1], [1, 3, 2], [0, 4, 5], [0, 5, 6], [0, 6, 4], [4, 6, 5]]
def twoTetsT : List (List (ℕ × ℕ)) :=
  [[(2, 2), (3, 2), (1, 0)], [(0, 2), (3, 1), (2, 0)], [(1, 2), (3, 0), (0, 0)], [(2, 1), (1, 1), (0, 1)],
   [(6, 2), (7, 2), (5, 0)], [(4, 2), (7, 1), (6, 0)], [(5, 2), (7, 0), (4, 0)], [(6, 1), (5, 1), (4, 1)]]

theorem twoTets_glued : Glued twoTets twoTetsT :=
  ⟨by decide, by decide, by decide, corners_iff.2 (by decide), corners_iff.2 (by decide)⟩

/-- **C79 (checks that are missing).** The constructor accepts two tetrahedra with a common vertex, though the corners at
the vertex are not connected; the mesh is not valid. -/
theorem C79_vertex : ∃ polys twins m, Glued polys twins ∧ OneGap polys twins ∧ Dense polys ∧ fromTwins polys twins = .ok m ∧
    ¬ { m with nECap := m.nE }.Valid := by
  have hg : OneGap twoTets twoTetsT := by
    have : ∀ c, IsCorner twoTets c → twinAt twoTetsT c ≠ (INV, INV) := corners_iff.2 (by decide)
    exact fun c c' hc _ h => absurd h (this c hc)
  obtain ⟨-, h2, -⟩ := C79 twoTets twoTetsT twoTets_glued (by decide) (by decide)
  obtain ⟨m, H, a, -, -, -, -, c⟩ := h2 hg
  refine ⟨twoTets, twoTetsT, m, twoTets_glued, hg, ⟨by decide, ?_⟩, a, ?_⟩
  · intro v w hvw hw
    have : w ≤ 6 := by clear hvw; revert w; decide
    have hv : v ≤ 6 := hvw.trans this
    clear * - hv
    interval_cases v <;> decide
  · intro hv
    have hf := (c.1 hv).2 (0, 0) (4, 0) (by decide) (by decide) (by decide)
    have hstep : ∀ c, IsCorner twoTets c → ((cornerNext twoTets (twinAt twoTetsT c)).1 < 4 ↔ c.1 < 4) :=
      corners_iff.2 (by decide)
    have key : ∀ x y, Relation.EqvGen (TwinAdj twoTets twoTetsT) x y → (x.1 < 4 ↔ y.1 < 4) := by
      intro x y h
      induction h with
      | rel x y h =>
        obtain ⟨h1, -, rfl⟩ := h
        exact (hstep x h1).symm
      | refl => exact Iff.rfl
      | symm x y _ ih => exact ih.symm
      | trans x y z _ _ i j => exact i.trans j
    exact absurd ((key _ _ hf).1 (by decide)) (by decide)

/-- An unused index becomes a vertex without halfedge that is counted. -/
theorem C79_unused : ∃ m, fromTwins [[0, 1, 3]] [[(INV, INV), (INV, INV), (INV, INV)]] = .ok m ∧ m.nV = 4 ∧ m.vHalfedge 2 = INV :=
  ⟨_, rfl, rfl, rfl⟩

/-- No polygons at all give a mesh with a counted vertex. -/
theorem C79_empty : ∃ m, fromTwins [] [] = .ok m ∧ m.nV = 1 ∧ m.vHalfedge 0 = INV := ⟨_, rfl, rfl, rfl⟩

/-- Twins are not compared with the vertices: sides between different vertices are glued, and then the halfedge of
vertex 3 leaves vertex 1. -/
theorem C79_mismatch : ∃ m, fromTwins [[0, 1, 2], [3, 4, 5]]
    [[(1, 0), (INV, INV), (INV, INV)], [(0, 0), (INV, INV), (INV, INV)]] = .ok m ∧
    m.heVertex (m.vHalfedge 3) = 1 ∧ m.heFace (m.vHalfedge 3) = 1 :=
  ⟨_, rfl, rfl, rfl⟩

/-- Twins need not be mutual: a side may name itself or a face that does not exist. -/
theorem C79_oneSided : (∃ m, fromTwins [[0, 1, 2]] [[(0, 0), (INV, INV), (INV, INV)]] = .ok m) ∧
    ∃ m, fromTwins [[0, 1, 2]] [[(7, 9), (INV, INV), (INV, INV)]] = .ok m :=
  ⟨⟨_, rfl⟩, ⟨_, rfl⟩⟩

/-- The capacity of the edges is not set: this sphere has storage for 12 halfedges and 8 edges. -/
theorem C79_capacity : ∃ m, fromTwins twoEdges twoEdgesT = .ok m ∧ m.nHeCap = 12 ∧ m.nECap = 8 := ⟨_, rfl, rfl, rfl⟩

end GC.Mesh
