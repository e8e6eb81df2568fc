import Verif.MeshBuildCheck
import Mathlib.Logic.Relation

/-! # C22, C23: the polygon constructor of `ManifoldSurfaceMesh` -/

namespace GC

/-- Two corners at the vertex `v` are neighbours: the side leaving `a` and the side entering `b` are the two
directions of one edge. -/
def CornerAdj (polys : List (List ℕ)) (v : ℕ) (a b : ℕ × ℕ) : Prop :=
  IsCorner polys a ∧ IsCorner polys b ∧ cornerV polys a = v ∧ cornerV polys b = v ∧
    ∃ p, IsCorner polys p ∧ cornerNext polys p = b ∧ side polys p = ((side polys a).2, (side polys a).1)

/-- The polygon list describes an oriented manifold surface, with dense vertex indices. -/
structure Manifold (polys : List (List ℕ)) : Prop where
  ne : polys ≠ []
  /-- at least three sides -/
  deg : ∀ p ∈ polys, 3 ≤ p.length
  /-- no vertex twice in a row -/
  loop : ∀ c, IsCorner polys c → (side polys c).1 ≠ (side polys c).2
  /-- no directed side twice -/
  once : ∀ c c', IsCorner polys c → IsCorner polys c' → side polys c = side polys c' → c = c'
  /-- no unreferenced vertex -/
  dense : ∀ v w, v ≤ w → w ∈ polys.flatten → v ∈ polys.flatten
  /-- the neighbourhood of a vertex has one component -/
  conn : ∀ v a b, IsCorner polys a → IsCorner polys b → cornerV polys a = v → cornerV polys b = v →
    Relation.EqvGen (CornerAdj polys v) a b

/-- The mesh has exactly the given faces. -/
structure Represents (polys : List (List ℕ)) (m : Mesh) : Prop where
  nF : m.nF = polys.length ∧ m.nFFill = polys.length
  /-- the vertices of the mesh are the indices that occur -/
  verts : ∀ v, m.vLive v ↔ v ∈ polys.flatten
  /-- walking around face `f` from its first halfedge gives polygon `f` -/
  faces : ∀ f < polys.length, ∃ hs, orbitList m.heNext (m.fHalfedge f) m.nHeFill = .ok hs ∧
    hs.map m.heVertex = polyAt polys f
  /-- every side is a halfedge -/
  sides : ∀ c, IsCorner polys c → ∃ h, m.heLive h ∧ (m.heVertex h, m.heVertex (twin h)) = side polys c
  /-- two halfedges between the same vertices are equal -/
  once : ∀ h h', m.heLive h → m.heLive h' → m.heVertex h = m.heVertex h' → m.heVertex (twin h) = m.heVertex (twin h') → h = h'
  /-- the interior halfedges are the sides -/
  int : ∀ h, m.heLive h → (¬ m.ext h ↔ ∃ c, IsCorner polys c ∧ side polys c = (m.heVertex h, m.heVertex (twin h)))
  /-- along a boundary loop run exactly the sides without partner, in the opposite direction -/
  bdy : ∀ h, m.heLive h → (m.ext h ↔ (∃ c, IsCorner polys c ∧ side polys c = (m.heVertex (twin h), m.heVertex h)) ∧
    ¬ ∃ c, IsCorner polys c ∧ side polys c = (m.heVertex h, m.heVertex (twin h)))

theorem mem_flatten_iff {polys : List (List ℕ)} {v : ℕ} : v ∈ polys.flatten ↔ ∃ c, IsCorner polys c ∧ cornerV polys c = v := by
  rw [List.mem_flatten]
  constructor
  · rintro ⟨p, hp, hv⟩
    obtain ⟨f, hf, rfl⟩ := List.getElem_of_mem hp
    obtain ⟨i, hi, rfl⟩ := List.getElem_of_mem hv
    refine ⟨(f, i), ⟨hf, by simp only; rw [polyAt_eq hf]; exact hi⟩, ?_⟩
    unfold cornerV
    simp only
    rw [polyAt_eq hf, List.getD_eq_getElem?_getD, List.getElem?_eq_getElem hi]; rfl
  · rintro ⟨c, hc, rfl⟩
    refine ⟨polyAt polys c.1, ?_, Mesh.getD_mem hc.2⟩
    have := polyAt_eq hc.1
    rw [this]
    exact List.getElem_mem hc.1

namespace Mesh

/-- The state when the faces have been entered, the boundary loops resolved, and the checks before them passed. -/
structure Done (polys : List (List ℕ)) (nV : ℕ) (s : PolySt) (m : Mesh) : Prop where
  built : Built nV polys.length polys s
  nF : polys.length < INV
  nVI : nV < INV
  deg : ∀ p ∈ polys, 3 ≤ p.length
  verts : ∀ v, v < nV ↔ v ∈ polys.flatten
  op : Open s.m (2 * s.m.nEFill)
  ri : RI s.m (2 * s.m.nEFill) (isX s.m (2 * s.m.nEFill)) m

namespace Done
variable {polys : List (List ℕ)} {nV : ℕ} {s : PolySt} {m : Mesh}

theorem look_iff (hD : Done polys nV s m) {h : ℕ} (hh : h < 2 * s.m.nEFill) :
    ¬ isX s.m (2 * s.m.nEFill) h ↔ s.look (s.m.heVertex h, s.m.heVertex (twin h)) = some h := by
  rw [← hD.built.face_iff hD.nF hh]
  constructor
  · intro h1 h2; exact h1 ⟨hh, h2⟩
  · rintro h1 ⟨-, h2⟩; exact h1 h2

theorem notX (hD : Done polys nV s m) {k : ℕ × ℕ} {h : ℕ} (hk : s.look k = some h) :
    h < 2 * s.m.nEFill ∧ ¬ isX s.m (2 * s.m.nEFill) h := by
  obtain ⟨h1, h2, h3⟩ := hD.built.core.vert _ _ hk
  exact ⟨h1, (hD.look_iff h1).2 (by rw [h2, h3]; exact hk)⟩

theorem v_lt (hD : Done polys nV s m) {h : ℕ} (hh : h < 2 * s.m.nEFill) : s.m.heVertex h < nV := by
  have hint : ∀ h < 2 * s.m.nEFill, ¬ isX s.m (2 * s.m.nEFill) h → s.m.heVertex h < nV := by
    intro h hh hX
    obtain ⟨c, hc, he, -⟩ := hD.built.of_look ((hD.look_iff hh).1 hX)
    rw [hD.verts, mem_flatten_iff]
    exact ⟨c, hc, congrArg Prod.fst he⟩
  by_cases hX : isX s.m (2 * s.m.nEFill) h
  · have h1 := hD.op.twin_lt hh
    have h2 := hD.op.tw h hh hX.2
    obtain ⟨-, h3, h4, h5⟩ := hD.op.face _ h1 h2
    rw [twin_twin] at h4
    rw [← h4]
    exact hint _ h3 (fun h6 => h2 (h5 ▸ h6.2))
  · exact hint h hh hX

theorem vHe (hD : Done polys nV s m) {v : ℕ} (hv : v < nV) :
    m.vHalfedge v < 2 * s.m.nEFill ∧ s.m.heVertex (m.vHalfedge v) = v := by
  rcases hD.ri.vhe v with ⟨h1, -⟩ | ⟨w, h1, h2, h3⟩
  · rw [h1]
    rcases hD.built.core.vhe v with ⟨-, h2⟩ | ⟨k, -, h2, h3⟩
    · obtain ⟨c, hc, he⟩ := mem_flatten_iff.1 ((hD.verts v).1 hv)
      exact absurd he (h2 _ (mem_sides.2 ⟨c, hc, rfl⟩))
    · obtain ⟨h4, h5, -⟩ := hD.built.core.vert _ _ h2
      exact ⟨h4, h5.trans h3⟩
  · rw [h2]
    exact ⟨hD.op.twin_lt h1.1, h3⟩

theorem ne (hD : Done polys nV s m) {h : ℕ} (hh : h < 2 * s.m.nEFill) : s.m.heVertex h ≠ s.m.heVertex (twin h) := by
  have hint : ∀ h < 2 * s.m.nEFill, ¬ isX s.m (2 * s.m.nEFill) h → s.m.heVertex h ≠ s.m.heVertex (twin h) := by
    intro h hh hX
    exact hD.built.core.ne _ ((hD.built.core.dom _).1 (by rw [(hD.look_iff hh).1 hX]; simp))
  by_cases hX : isX s.m (2 * s.m.nEFill) h
  · have := hint (twin h) (hD.op.twin_lt hh) (fun h1 => hD.op.tw h hh hX.2 h1.2)
    rw [twin_twin] at this
    exact this.symm
  · exact hint h hh hX

/-- Walking along a face. -/
theorem walk (hD : Done polys nV s m) {c : ℕ × ℕ} (hc : IsCorner polys c) {h : ℕ} (hl : s.look (side polys c) = some h) (k : ℕ) :
    IsCorner polys ((cornerNext polys)^[k] c) ∧ s.look (side polys ((cornerNext polys)^[k] c)) = some (m.heNext^[k] h) := by
  induction k with
  | zero => exact ⟨hc, hl⟩
  | succ k ih =>
    obtain ⟨h1, h2⟩ := ih
    rw [Function.iterate_succ_apply', Function.iterate_succ_apply']
    refine ⟨h1.next, ?_⟩
    obtain ⟨h', a, -, b⟩ := hD.built.corner h1
    rw [h2] at a
    cases a
    obtain ⟨h3, h4⟩ := hD.notX h2
    rw [(hD.ri.next_int hD.op h3 h4).1]
    exact b

theorem face_orb (hD : Done polys nV s m) {i j : ℕ} (hi : i < 2 * s.m.nEFill) (hj : j < 2 * s.m.nEFill) :
    m.heFace i = m.heFace j ↔ Orb m.heNext i j := by
  have hO := hD.op
  have hR := hD.ri
  constructor
  · intro he
    by_cases hX : isX s.m (2 * s.m.nEFill) i
    · have hY : isX s.m (2 * s.m.nEFill) j := by
        by_contra hY
        rw [← hR.face_int hO hj, ← he, hR.face_int hO hi] at hY
        exact hY hX
      obtain ⟨b, hb, h1, h2⟩ := hR.faceP i hX
      obtain ⟨b', hb', h1', h2'⟩ := hR.faceP j hY
      have hbb : b = b' := by omega
      subst hbb
      exact hR.orb_of_sig hO hY ((h2'.symm hO.sig_per).trans h2)
    · have hY : ¬ isX s.m (2 * s.m.nEFill) j := by
        rw [← hR.face_int hO hj, ← he, hR.face_int hO hi]
        exact hX
      obtain ⟨c, hc, hce, hcf, -⟩ := hD.built.of_look ((hD.look_iff hi).1 hX)
      obtain ⟨c', hc', hce', hcf', -⟩ := hD.built.of_look ((hD.look_iff hj).1 hY)
      rw [hR.face _ hX, hR.face _ hY] at he
      obtain ⟨k, hk⟩ := cornerNext_orb hc hc' (by rw [← hcf, ← hcf', he])
      have hl := (hD.look_iff hi).1 hX
      rw [← hce] at hl
      have := (hD.walk hc hl k).2
      rw [hk, hce', (hD.look_iff hj).1 hY] at this
      exact ⟨k, (Option.some.inj this).symm⟩
  · intro h
    refine (h.induct (fun z => z < 2 * s.m.nEFill ∧ m.heFace i = m.heFace z) ⟨hi, rfl⟩ ?_).2
    rintro z ⟨hz, h1⟩
    exact ⟨hR.next_lt hO hz, by rw [hR.face_next hO hz, h1]⟩

theorem valid (hD : Done polys nV s m) (hc : ∀ h < 2 * s.m.nEFill, Orb m.vNext (m.vHalfedge (m.heVertex h)) h) :
    m.setCaps.Valid := by
  have hO := hD.op
  have hR := hD.ri
  have hC := hD.built.core
  obtain ⟨r1, r2, r3, r4, r5⟩ := hR.same
  have hN : m.nHe = 2 * s.m.nEFill := r2.trans hO.he
  have hlim := hO.lim
  have hE : m.nE = s.m.nEFill := r5.trans hC.e
  have hF : m.nF = polys.length := r3.trans hC.other.2.1
  have hV : m.nV = nV := r4.trans hC.other.1
  have hnl : ∀ h < 2 * s.m.nEFill, m.heNext h ≠ INV := by
    intro h hh
    have := hR.next_lt hO hh
    omega
  have hlive : ∀ h, m.setCaps.heLive h ↔ h < 2 * s.m.nEFill := by
    intro h
    show (h < m.nHe ∧ m.heNext h ≠ INV) ↔ _
    rw [hN]
    exact ⟨fun x => x.1, fun x => ⟨x, hnl h x⟩⟩
  have hext : ∀ h < 2 * s.m.nEFill, (m.setCaps.ext h ↔ isX s.m (2 * s.m.nEFill) h) := by
    intro h hh
    show m.nF ≤ m.heFace h ↔ _
    rw [← not_lt, hR.face_int hO hh, not_not]
  have hvl : ∀ v, m.setCaps.vLive v ↔ v < nV := by
    intro v
    show (v < m.nV ∧ m.vHalfedge v ≠ INV) ↔ _
    rw [hV]
    refine ⟨fun x => x.1, fun x => ⟨x, ?_⟩⟩
    have := (hD.vHe x).1
    omega
  have hroom := hR.room0
  have hfhe : ∀ f < m.nF + m.nBL, m.fHalfedge f < 2 * s.m.nEFill ∧ m.heFace (m.fHalfedge f) = f := by
    intro f hf
    by_cases h : f < m.nF
    · obtain ⟨h1, h2⟩ := hO.fhe f (by omega)
      have h3 : ¬ isX s.m (2 * s.m.nEFill) (s.m.fHalfedge f) := by
        rintro ⟨-, h3⟩
        omega
      rw [hR.fhe f h, hR.face _ h3]
      exact ⟨h1, h2⟩
    · obtain ⟨h1, h2⟩ := hR.root (f - m.nF) (by omega)
      rw [show m.nF + (f - m.nF) = f by omega] at h1 h2
      exact ⟨h1.1, h2⟩
  have hfl : ∀ f, m.setCaps.fLive f ↔ f < m.nF + m.nBL := by
    intro f
    show ((f < m.nF ∨ (m.nF + m.nBL - m.nBL ≤ f ∧ f < m.nF + m.nBL)) ∧ m.fHalfedge f ≠ INV) ↔ _
    constructor
    · rintro ⟨h1, -⟩; omega
    · intro h
      refine ⟨by omega, ?_⟩
      have := (hfhe f h).1
      omega
  refine ⟨?_, ?_, ?_, ?_, ?_, ?_, ?_, ?_, ?_, ?_, ?_, ?_, ?_, ?_, ?_, ?_, ?_, ?_, ?_, ?_, ?_, ?_, rfl, ?_⟩
  · show m.nHe = 2 * m.nE; omega
  · exact ⟨le_rfl, show m.nHe < INV by omega⟩
  · show m.nHe = 2 * m.nE; omega
  · exact ⟨le_rfl, show m.nV < INV by have := hD.nVI; omega⟩
  · exact ⟨le_rfl, show m.nF + m.nBL < INV by omega⟩
  · intro i hi
    rw [hlive] at hi ⊢
    exact hO.twin_lt hi
  · intro i hi
    rw [hlive] at hi ⊢
    exact hR.next_lt hO hi
  · intro i hi
    rw [hlive] at hi
    rw [hvl]
    show m.heVertex i < nV
    rw [r1]
    exact hD.v_lt hi
  · intro i hi
    rw [hlive] at hi
    rw [hfl]
    show m.heFace i < _
    by_cases hX : isX s.m (2 * s.m.nEFill) i
    · obtain ⟨b, hb, h1, -⟩ := hR.faceP i hX
      omega
    · have := (hR.face_int hO hi).2 hX
      omega
  · intro i j hi hj
    rw [hlive] at hi hj
    exact hD.face_orb hi hj
  · intro i j hi hj
    rw [hlive] at hi hj
    constructor
    · intro he
      have h1 := hc i hi
      have h2 := hc j hj
      have he' : m.heVertex i = m.heVertex j := he
      rw [← he'] at h2
      have hvh := (hD.vHe (v := m.heVertex i) (by rw [r1]; exact hD.v_lt hi)).1
      exact (hR.orb_symm hO hvh hi h1).trans h2
    · intro h
      exact hR.orb_vertex hO hi h
  · intro v hv
    rw [hvl] at hv
    obtain ⟨h1, h2⟩ := hD.vHe hv
    rw [hlive]
    exact ⟨h1, show m.heVertex _ = v by rw [r1]; exact h2⟩
  · intro f hf
    rw [hfl] at hf
    rw [hlive]
    exact hfhe f hf
  · intro i hi he
    rw [hlive] at hi
    have h1 := hR.tipv hO hi
    have h2 : m.heNext i = i := he
    rw [h2, r1] at h1
    exact hD.ne hi h1
  · intro e he hx
    rw [hlive] at he
    rw [hext _ he] at hx
    have h1 : eHalfedge e = 2 * e := rfl
    rw [h1] at he hx
    exact (hD.look_iff he).2 (hC.even e (by omega)) hx
  · intro i j hi hj hxi hxj he
    rw [hlive] at hi hj
    rw [hext _ hi] at hxi
    rw [hext _ hj] at hxj
    have he' : m.heVertex i = m.heVertex j := he
    rw [r1] at he'
    exact hO.uniq i hi j hj hxi.2 hxj.2 he'
  · intro i hi hx
    rw [hlive] at hi
    rw [hext _ hi] at hx
    show m.setCaps.ext (twin (m.vHalfedge (m.heVertex i)))
    rw [r1]
    obtain ⟨k, -, -, h1, -, h2⟩ := hO.sig_eq hx
    rcases hR.vhe (s.m.heVertex i) with ⟨-, h3⟩ | ⟨w, h3, h4, -⟩
    · exact absurd h2 (h3 _ h1)
    · rw [h4, twin_twin, hext _ h3.1]
      exact h3
  · show m.nHe = Nat.count (fun i => m.heNext i ≠ INV) m.nHe
    rw [hN, Nat.count_of_forall hnl]
  · show m.nInt = Nat.count (fun i => m.heNext i ≠ INV ∧ m.heFace i < m.nF) m.nHe
    rw [hR.int, hN]
    refine count_congr ?_
    intro h hh
    constructor
    · rintro (h1 | h1)
      · exact ⟨hnl h hh, h1⟩
      · exfalso
        by_cases hX : isX s.m (2 * s.m.nEFill) h
        · obtain ⟨b, hb, h2, -⟩ := hR.faceP h hX
          omega
        · have := (hR.face_int hO hh).2 hX
          omega
    · exact fun h1 => .inl h1.2
  · show m.nE = Nat.count (fun e => m.heNext (eHalfedge e) ≠ INV) m.nE
    rw [Nat.count_of_forall]
    intro e he
    exact hnl _ (show 2 * e < _ by omega)
  · show m.nV = Nat.count (fun v => m.vHalfedge v ≠ INV) m.nV
    rw [Nat.count_of_forall]
    intro v hv
    have := (hD.vHe (v := v) (by omega)).1
    omega
  · show m.nF = Nat.count (fun f => m.fHalfedge f ≠ INV) m.nF
    rw [Nat.count_of_forall]
    intro f hf
    have := (hfhe f (by omega)).1
    omega
  · intro f _ hf
    have hf' : f < m.nF + m.nBL := hf
    show m.fHalfedge f ≠ INV
    have := (hfhe f hf').1
    omega

theorem look_none (hD : Done polys nV s m) {h : ℕ} (hX : isX s.m (2 * s.m.nEFill) h) :
    s.look (s.m.heVertex h, s.m.heVertex (twin h)) = none := by
  refine ((hD.built.core.all h hX.1).resolve_left ?_).2.2
  intro h1
  exact (hD.look_iff hX.1).2 h1 hX

theorem key_iff (hD : Done polys nV s m) {h : ℕ} (hh : h < 2 * s.m.nEFill) :
    ¬ isX s.m (2 * s.m.nEFill) h ↔ ∃ c, IsCorner polys c ∧ side polys c = (s.m.heVertex h, s.m.heVertex (twin h)) := by
  constructor
  · intro hX
    obtain ⟨c, hc, he, -⟩ := hD.built.of_look ((hD.look_iff hh).1 hX)
    exact ⟨c, hc, he⟩
  · rintro ⟨c, hc, he⟩ hX
    obtain ⟨h', h1, -⟩ := hD.built.corner hc
    rw [he, hD.look_none hX] at h1
    cases h1

theorem represents (hD : Done polys nV s m) : Represents polys m.setCaps := by
  have hO := hD.op
  have hR := hD.ri
  have hC := hD.built.core
  obtain ⟨r1, r2, r3, r4, r5⟩ := hR.same
  have hN : m.nHe = 2 * s.m.nEFill := r2.trans hO.he
  have hlim := hO.lim
  have hF : m.nF = polys.length := r3.trans hC.other.2.1
  have hV : m.nV = nV := r4.trans hC.other.1
  have hlive : ∀ h, m.setCaps.heLive h ↔ h < 2 * s.m.nEFill := by
    intro h
    show (h < m.nHe ∧ m.heNext h ≠ INV) ↔ _
    rw [hN]
    refine ⟨fun x => x.1, fun x => ⟨x, ?_⟩⟩
    have := hR.next_lt hO x
    omega
  have hext : ∀ h < 2 * s.m.nEFill, (m.setCaps.ext h ↔ isX s.m (2 * s.m.nEFill) h) := by
    intro h hh
    show m.nF ≤ m.heFace h ↔ _
    rw [← not_lt, hR.face_int hO hh, not_not]
  have hve : m.setCaps.heVertex = s.m.heVertex := r1
  refine ⟨⟨hF, hF⟩, ?_, ?_, ?_, ?_, ?_, ?_⟩
  · intro v
    show (v < m.nV ∧ m.vHalfedge v ≠ INV) ↔ _
    rw [hV, ← hD.verts]
    refine ⟨fun x => x.1, fun x => ⟨x, ?_⟩⟩
    have := (hD.vHe x).1
    omega
  · intro f hf
    have hlen : 3 ≤ (polyAt polys f).length := by rw [polyAt_eq hf]; exact hD.deg _ (List.getElem_mem hf)
    have hc : IsCorner polys (f, 0) := ⟨hf, by simp only; omega⟩
    have hl := hD.built.first hc
    have hfh : m.fHalfedge f = s.m.fHalfedge f := hR.fhe f (by omega)
    have hw := fun k => hD.walk hc hl k
    have hiter : ∀ k, (cornerNext polys)^[k] (f, 0) = (f, k % (polyAt polys f).length) := by
      intro k
      rw [cornerNext_iter hc, Nat.zero_add]
    have hinj : ∀ a b, m.heNext^[a] (s.m.fHalfedge f) = m.heNext^[b] (s.m.fHalfedge f) →
        a % (polyAt polys f).length = b % (polyAt polys f).length := by
      intro a b he
      have h1 := hw a
      have h2 := hw b
      rw [← he] at h2
      have h3 := nodup_sides.1 hC.nodup _ _ h1.1 h2.1 (hC.look_inj h1.2 h2.2)
      rw [hiter, hiter] at h3
      exact congrArg Prod.snd h3
    have hret : m.heNext^[(polyAt polys f).length] (s.m.fHalfedge f) = s.m.fHalfedge f := by
      have h1 := (hw (polyAt polys f).length).2
      rw [hiter, Nat.mod_self, hl] at h1
      exact (Option.some.inj h1).symm
    have hnd : ((List.range (polyAt polys f).length).map (fun j => m.heNext^[j] (s.m.fHalfedge f))).Nodup := by
      rw [List.nodup_map_iff_inj_on List.nodup_range]
      intro a ha b hb he
      rw [List.mem_range] at ha hb
      have := hinj a b he
      rwa [Nat.mod_eq_of_lt ha, Nat.mod_eq_of_lt hb] at this
    have hle : (polyAt polys f).length ≤ 2 * s.m.nEFill := by
      have h2 : (List.range (polyAt polys f).length).map (fun j => m.heNext^[j] (s.m.fHalfedge f)) ⊆ List.range (2 * s.m.nEFill) := by
        intro x hx
        rw [List.mem_map] at hx
        obtain ⟨j, -, rfl⟩ := hx
        rw [List.mem_range]
        exact (hD.notX (hw j).2).1
      have := (hnd.subperm h2).length_le
      simpa using this
    refine ⟨(List.range (polyAt polys f).length).map (fun j => m.heNext^[j] (s.m.fHalfedge f)), ?_, ?_⟩
    · show orbitList m.heNext (m.fHalfedge f) m.nHe = _
      rw [hfh, hN]
      have := orbitAux_ok (f := m.heNext) (start := s.m.fHalfedge f) (fuel := 2 * s.m.nEFill) (cur := s.m.fHalfedge f)
        (k := (polyAt polys f).length - 1) (by omega) (by
          rw [show (polyAt polys f).length - 1 + 1 = (polyAt polys f).length by omega]; exact hret) (by
          intro j hj he
          have h1 := hinj (j + 1) 0 he
          rw [Nat.mod_eq_of_lt (by omega), Nat.zero_mod] at h1
          omega)
      rw [show (polyAt polys f).length - 1 + 1 = (polyAt polys f).length by omega] at this
      exact this
    · rw [List.map_map, hve]
      refine List.ext_getElem (by simp) ?_
      intro j hj1 hj2
      rw [List.getElem_map, List.getElem_range]
      simp only [Function.comp]
      have h1 := (hw j).2
      rw [(hC.vert _ _ h1).2.1, hiter, Nat.mod_eq_of_lt hj2]
      show (polyAt polys f).getD j 0 = _
      rw [List.getD_eq_getElem?_getD, List.getElem?_eq_getElem hj2]; rfl
  · intro c hc
    obtain ⟨h, h1, -⟩ := hD.built.corner hc
    obtain ⟨h2, h3, h4⟩ := hC.vert _ _ h1
    exact ⟨h, (hlive h).2 h2, by rw [hve, h3, h4]⟩
  · intro h h' hh hh' h1 h2
    rw [hlive] at hh hh'
    rw [hve] at h1 h2
    by_cases hX : isX s.m (2 * s.m.nEFill) h <;> by_cases hY : isX s.m (2 * s.m.nEFill) h'
    · exact hO.uniq h hh h' hh' hX.2 hY.2 h1
    · have := (hD.look_iff hh').1 hY
      rw [← h1, ← h2, hD.look_none hX] at this
      cases this
    · have := (hD.look_iff hh).1 hX
      rw [h1, h2, hD.look_none hY] at this
      cases this
    · have h3 := (hD.look_iff hh).1 hX
      rw [h1, h2, (hD.look_iff hh').1 hY] at h3
      exact (Option.some.inj h3).symm
  · intro h hh
    rw [hlive] at hh
    rw [hext h hh, hve]
    exact hD.key_iff hh
  · intro h hh
    rw [hlive] at hh
    rw [hext h hh, hve, ← hD.key_iff hh, not_not]
    constructor
    · intro hX
      refine ⟨?_, hX⟩
      have := (hD.key_iff (hO.twin_lt hh)).1 (fun h1 => hO.tw h hh hX.2 h1.2)
      rwa [twin_twin] at this
    · exact fun h1 => h1.2

/-- The corners at a vertex are connected if the last check passes. -/
theorem conn (hD : Done polys nV s m) (hck : ∀ h < 2 * s.m.nEFill, Orb m.vNext (m.vHalfedge (m.heVertex h)) h)
    {a b : ℕ × ℕ} {v : ℕ} (ha : IsCorner polys a) (hb : IsCorner polys b) (hav : cornerV polys a = v) (hbv : cornerV polys b = v) :
    Relation.EqvGen (CornerAdj polys v) a b := by
  have hO := hD.op
  have hR := hD.ri
  have hC := hD.built.core
  have r1 := hR.same.1
  -- from a corner to the corner of the first halfedge
  have key : ∀ a, IsCorner polys a → cornerV polys a = v → ∃ c, IsCorner polys c ∧
      s.look (side polys c) = some (m.vHalfedge v) ∧ Relation.EqvGen (CornerAdj polys v) a c := by
    intro a ha hav
    obtain ⟨h, hl, -⟩ := hD.built.corner ha
    obtain ⟨hh, hhv, -⟩ := hC.vert _ _ hl
    have hhv' : s.m.heVertex h = v := hhv.trans hav
    have hvn : v < nV := by rw [← hhv']; exact hD.v_lt hh
    obtain ⟨hv1, hv2⟩ := hD.vHe hvn
    have horb := hck h hh
    rw [r1, hhv'] at horb
    have horb' := hR.orb_symm hO hv1 hh horb
    obtain ⟨k, -, hk, hmin⟩ := first_hit horb' (N := 2 * s.m.nEFill) (fun z hz => hR.orb_lt hO hh hz)
    have hstep : ∀ j ≤ k, ∃ c, IsCorner polys c ∧ cornerV polys c = v ∧ s.look (side polys c) = some (m.vNext^[j] h) ∧
        Relation.EqvGen (CornerAdj polys v) a c := by
      intro j hj
      induction j with
      | zero => exact ⟨a, ha, hav, hl, .refl _⟩
      | succ j ih =>
        obtain ⟨c, hc, hcv, hcl, hce⟩ := ih (by omega)
        obtain ⟨hz1, hz2⟩ := hD.notX hcl
        obtain ⟨-, hzv, hzt⟩ := hC.vert _ _ hcl
        have hne := hmin j (by omega)
        rw [Function.iterate_succ_apply']
        generalize m.vNext^[j] h = z at *
        -- the twin is interior as well
        have htw : ¬ isX s.m (2 * s.m.nEFill) (twin z) := by
          intro hX
          obtain ⟨h1, -, h3⟩ := hR.next_ext hO hX
          rw [twin_twin, hzv] at h3
          obtain ⟨-, -, -, h4, -, h5⟩ := hO.sig_eq h1
          rw [h3] at h5
          have h5' : s.m.heVertex (twin (sig s.m (2 * s.m.nEFill) (m.heNext (twin z)))) = v := h5.trans hcv
          rcases hR.vhe v with ⟨-, h6⟩ | ⟨w, h6, h7, h8⟩
          · exact h6 _ h4 h5'
          · obtain ⟨h9, -, h10⟩ := hR.next_ext hO h6
            have h11 := hO.uniq _ h1.1 _ h9.1 h1.2 h9.2 (by rw [h3, h10, h8]; exact hcv)
            have h12 := hR.next_inj hO hX.1 h6.1 h11
            apply hne
            rw [h7, ← h12, twin_twin]
        obtain ⟨p, hp, hpe, -, hpn⟩ := hD.built.of_look ((hD.look_iff (hO.twin_lt hz1)).1 htw)
        rw [twin_twin] at hpe
        have hsw : side polys p = ((side polys c).2, (side polys c).1) := by rw [hpe, hzv, hzt]
        have hpv : cornerV polys (cornerNext polys p) = v := by
          have := congrArg Prod.snd hsw
          exact this.trans hcv
        refine ⟨cornerNext polys p, hp.next, hpv, ?_, ?_⟩
        · rw [hpn]
          show _ = some (m.heNext (twin z))
          rw [(hR.next_int hO (hO.twin_lt hz1) htw).1]
        · exact .trans _ _ _ hce (.rel _ _ ⟨hc, hp.next, hcv, hpv, p, hp, rfl, hsw⟩)
    obtain ⟨c, hc, -, hcl, hce⟩ := hstep k le_rfl
    rw [hk] at hcl
    exact ⟨c, hc, hcl, hce⟩
  obtain ⟨c, hc, hcl, hce⟩ := key a ha hav
  obtain ⟨c', hc', hcl', hce'⟩ := key b hb hbv
  have := nodup_sides.1 hC.nodup c c' hc hc' (hC.look_inj hcl hcl')
  subst this
  exact .trans _ _ _ hce (.symm _ _ hce')

/-- If the corners at each vertex are connected, the last check passes. -/
theorem check (hD : Done polys nV s m) (hM : Manifold polys) {h : ℕ} (hh : h < 2 * s.m.nEFill) :
    Orb m.vNext (m.vHalfedge (m.heVertex h)) h := by
  have hO := hD.op
  have hR := hD.ri
  have hC := hD.built.core
  have r1 := hR.same.1
  have key : ∀ v x y, Relation.EqvGen (CornerAdj polys v) x y → (IsCorner polys x ↔ IsCorner polys y) ∧
      (IsCorner polys x → ∀ a b, s.look (side polys x) = some a → s.look (side polys y) = some b → Orb m.vNext a b) := by
    intro v x y hxy
    induction hxy with
    | rel x y hxy =>
      obtain ⟨hx, hy, -, -, p, hp, rfl, hsw⟩ := hxy
      refine ⟨⟨fun _ => hy, fun _ => hx⟩, ?_⟩
      intro _ a b hla hlb
      obtain ⟨ha, hav, hat⟩ := hC.vert _ _ hla
      obtain ⟨q, hq, -, hqn⟩ := hD.built.corner hp
      have hta := hO.twin_lt ha
      have hq' : q = twin a := by
        have hk : s.look (s.m.heVertex (twin a), s.m.heVertex (twin (twin a))) = some (twin a) := by
          refine (hC.all (twin a) hta).resolve_right ?_
          rintro ⟨-, -, h1⟩
          rw [twin_twin, hat, hav, ← hsw, hq] at h1
          cases h1
        rw [twin_twin, hat, hav, ← hsw, hq] at hk
        exact Option.some.inj hk
      rw [hqn] at hlb
      cases hlb
      have h1 := (hD.notX hq).2
      rw [hq'] at h1 ⊢
      rw [← (hR.next_int hO hta h1).1]
      exact Orb.step m.vNext a
    | refl x =>
      refine ⟨Iff.rfl, ?_⟩
      intro _ a b ha hb
      rw [ha] at hb
      cases hb
      exact Orb.refl _ _
    | symm x y _ ih =>
      refine ⟨ih.1.symm, ?_⟩
      intro hy a b ha hb
      exact hR.orb_symm hO (hD.notX hb).1 (hD.notX ha).1 (ih.2 (ih.1.2 hy) b a hb ha)
    | trans x y z _ _ ih1 ih2 =>
      refine ⟨ih1.1.trans ih2.1, ?_⟩
      intro hx a b ha hb
      obtain ⟨d, hd, -⟩ := hD.built.corner (ih1.1.1 hx)
      exact (ih1.2 hx a d ha hd).trans (ih2.2 (ih1.1.1 hx) d b hd hb)
  have hint : ∀ h < 2 * s.m.nEFill, ¬ isX s.m (2 * s.m.nEFill) h → Orb m.vNext (m.vHalfedge (m.heVertex h)) h := by
    intro h hh hX
    have hvn := hD.v_lt hh
    obtain ⟨hv1, hv2⟩ := hD.vHe hvn
    have hvX : ¬ isX s.m (2 * s.m.nEFill) (m.vHalfedge (s.m.heVertex h)) := by
      rcases hR.vhe (s.m.heVertex h) with ⟨h1, -⟩ | ⟨w, h1, h2, -⟩
      · rw [h1]
        rcases hC.vhe (s.m.heVertex h) with ⟨h2, -⟩ | ⟨k, -, h2, -⟩
        · rw [h1, h2] at hv1
          have := hO.lim
          omega
        · exact (hD.notX h2).2
      · rw [h2]
        exact fun h3 => hO.tw w h1.1 h1.2 h3.2
    have l1 := (hD.look_iff hv1).1 hvX
    have l2 := (hD.look_iff hh).1 hX
    obtain ⟨c1, hc1, he1, -⟩ := hD.built.of_look l1
    obtain ⟨c2, hc2, he2, -⟩ := hD.built.of_look l2
    rw [← he1] at l1
    rw [← he2] at l2
    rw [r1]
    exact (key _ _ _ (hM.conn (s.m.heVertex h) c1 c2 hc1 hc2 ((congrArg Prod.fst he1).trans hv2) (congrArg Prod.fst he2))).2 hc1 _ _ l1 l2
  by_cases hX : isX s.m (2 * s.m.nEFill) h
  · have hn := hR.vNext_lt hO hh
    have hnX : ¬ isX s.m (2 * s.m.nEFill) (m.vNext h) :=
      (hR.next_int hO (hO.twin_lt hh) (fun h1 => hO.tw h hh hX.2 h1.2)).2.2.1
    have h1 := hint _ hn hnX
    have h2 : m.heVertex (m.vNext h) = m.heVertex h := (hR.orb_vertex hO hh (Orb.step _ _)).symm
    rw [h2] at h1
    exact h1.trans (hR.orb_symm hO hh hn (Orb.step _ _))
  · exact hint h hh hX

end Done

/-- If the corners at each vertex are connected, a vertex has at most one boundary halfedge. -/
theorem Built.unique {polys : List (List ℕ)} {nV : ℕ} {s : PolySt} (hB : Built nV polys.length polys s)
    (hF : polys.length < INV) (hM : Manifold polys) : ∀ i < 2 * s.m.nEFill, ∀ j < 2 * s.m.nEFill, s.m.heNext i = INV →
      s.m.heNext j = INV → s.m.heVertex i = s.m.heVertex j → i = j := by
  have hC := hB.core
  obtain ⟨c1, c2, c3, c4⟩ := hC.cap
  -- an exterior halfedge and the corner behind its twin
  have key : ∀ i < 2 * s.m.nEFill, s.m.heNext i = INV → s.look (s.m.heVertex i, s.m.heVertex (twin i)) = none ∧
      ∃ p, IsCorner polys p ∧ side polys p = (s.m.heVertex (twin i), s.m.heVertex i) ∧ s.look (side polys p) = some (twin i) := by
    intro i hi hn
    have hnl : s.look (s.m.heVertex i, s.m.heVertex (twin i)) ≠ some i := by
      intro h1
      obtain ⟨c, hc, -, -, h2⟩ := hB.of_look h1
      have := (hC.vert _ _ h2).1
      omega
    refine ⟨((hC.all i hi).resolve_left hnl).2.2, ?_⟩
    have hodd : i % 2 = 1 := by
      by_contra h0
      have h6 := hC.even (i / 2) (by omega)
      rw [show 2 * (i / 2) = i by omega] at h6
      exact hnl h6
    have h6 := hC.even (i / 2) (by omega)
    have h7 : 2 * (i / 2) = twin i := by
      rw [← twin_two_mul_add (i / 2)]
      congr 1
      omega
    rw [h7, twin_twin] at h6
    obtain ⟨p, hp, he, -⟩ := hB.of_look h6
    exact ⟨p, hp, he, by rw [he]; exact h6⟩
  intro i hi j hj hni hnj hv
  obtain ⟨ki, p, hp, hpe, hpl⟩ := key i hi hni
  obtain ⟨kj, q, hq, hqe, hql⟩ := key j hj hnj
  -- no corner comes before
  have hroot : ∀ v p, IsCorner polys p → (∃ i, s.look (s.m.heVertex i, s.m.heVertex (twin i)) = none ∧
      side polys p = (s.m.heVertex (twin i), s.m.heVertex i)) → ∀ a, ¬ CornerAdj polys v a (cornerNext polys p) := by
    rintro v p hp ⟨i, ki, hpe⟩ a ⟨ha, -, -, -, p', hp', hpp, hsw⟩
    have := cornerNext_inj hp' hp hpp
    subst this
    rw [hpe, Prod.mk.injEq] at hsw
    obtain ⟨h, h1, -⟩ := hB.corner ha
    rw [show side polys a = (s.m.heVertex i, s.m.heVertex (twin i)) from Prod.ext hsw.2.symm hsw.1.symm, ki] at h1
    cases h1
  have hconn := hM.conn (s.m.heVertex i) (cornerNext polys p) (cornerNext polys q) hp.next hq.next (congrArg Prod.snd hpe)
    ((congrArg Prod.snd hqe).trans hv.symm)
  have hfwd : ∀ x y, Relation.EqvGen (CornerAdj polys (s.m.heVertex i)) x y →
      (Relation.ReflTransGen (CornerAdj polys (s.m.heVertex i)) (cornerNext polys p) x ↔
        Relation.ReflTransGen (CornerAdj polys (s.m.heVertex i)) (cornerNext polys p) y) := by
    intro x y hxy
    induction hxy with
    | rel x y hxy =>
      refine ⟨fun h => h.tail hxy, ?_⟩
      intro h
      rcases Relation.ReflTransGen.cases_tail h with h1 | ⟨z, h1, h2⟩
      · rw [h1] at hxy
        exact absurd hxy (hroot _ p hp ⟨i, ki, hpe⟩ x)
      · obtain ⟨hx, -, -, -, r, hr, hre, hrs⟩ := hxy
        obtain ⟨hz, -, -, -, r', hr', hre', hrs'⟩ := h2
        have := cornerNext_inj hr hr' (hre.trans hre'.symm)
        subst this
        rw [hrs, Prod.mk.injEq] at hrs'
        rw [hM.once x z hx hz (Prod.ext hrs'.2 hrs'.1)]
        exact h1
    | refl => exact Iff.rfl
    | symm x y _ ih => exact ih.symm
    | trans x y z _ _ ih1 ih2 => exact ih1.trans ih2
  have h1 := (hfwd _ _ hconn).1 .refl
  rcases Relation.ReflTransGen.cases_tail h1 with h2 | ⟨z, -, h3⟩
  · have := cornerNext_inj hq hp h2
    subst this
    rw [hpl] at hql
    exact twin_inj (Option.some.inj hql)
  · exact absurd h3 (hroot _ q hq ⟨j, kj, hqe⟩ z)

theorem foldl_max_lt (l : List ℕ) (a v : ℕ) : v < l.foldl max a + 1 ↔ v ≤ a ∨ ∃ w ∈ l, v ≤ w := by
  induction l generalizing a with
  | nil => simp [Nat.lt_succ_iff]
  | cons x l ih =>
    rw [List.foldl_cons, ih]
    simp only [List.mem_cons, exists_eq_or_imp]
    rw [le_max_iff, or_assoc]

theorem sides_length (polys : List (List ℕ)) : (polys.flatMap sidesOf).length = polys.flatten.length := by
  induction polys with
  | nil => rfl
  | cons p ps ih => rw [List.flatMap_cons, List.flatten_cons, List.length_append, List.length_append, ih, sidesOf_length]

theorem length_le_flatten {polys : List (List ℕ)} (h : ∀ p ∈ polys, 3 ≤ p.length) : polys.length ≤ polys.flatten.length := by
  induction polys with
  | nil => exact le_rfl
  | cons p ps ih =>
    have h1 := h p (by simp)
    have h2 := ih (fun q hq => h q (by simp [hq]))
    rw [List.flatten_cons, List.length_append, List.length_cons]
    omega

theorem seeOrbit_setCaps (m : Mesh) (first n : ℕ) (seen : ℕ → Bool) (cur : ℕ) :
    seeOrbit m.setCaps first n seen cur = seeOrbit m first n seen cur := by
  induction n generalizing seen cur with
  | zero => rfl
  | succ n ih =>
    unfold seeOrbit
    simp only [ih]
    rfl

theorem checkVertices_setCaps (m : Mesh) : checkVertices m.setCaps = checkVertices m := by
  unfold checkVertices
  simp only [seeOrbit_setCaps]
  rfl

/-- All outcomes of the constructor. -/
theorem fromPolygons_cases (polys : List (List ℕ)) :
    (∃ m, fromPolygons polys = .ok m ∧ m.Valid ∧ Represents polys m ∧ Manifold polys) ∨
    (fromPolygons polys = .error .throw ∧ ¬ Manifold polys) ∨
    (fromPolygons polys = .error .oom ∧ ((∃ v ∈ polys.flatten, INV ≤ v + 1) ∨ INV ≤ 4 * (polys.flatten.length + 1))) ∨
    (fromPolygons polys = .error .ub ∧ ∃ v ∈ polys.flatten, INV ≤ v) := by
  unfold fromPolygons
  by_cases hd : polys.any (fun p => decide (p.length < 3)) = true
  · right; left
    rw [if_pos hd]
    refine ⟨rfl, fun hM => ?_⟩
    rw [List.any_eq_true] at hd
    obtain ⟨p, hp, h1⟩ := hd
    have := hM.deg p hp
    simp at h1
    omega
  rw [if_neg hd]
  have h3 : ∀ p ∈ polys, 3 ≤ p.length := by
    intro p hp
    by_contra h
    exact hd (List.any_eq_true.2 ⟨p, hp, by simpa using h⟩)
  generalize hnV : polys.flatten.foldl max 0 + 1 = nV
  have hlt : ∀ v, v < nV ↔ v = 0 ∨ ∃ w ∈ polys.flatten, v ≤ w := by
    intro v
    rw [← hnV, foldl_max_lt, Nat.le_zero]
  have hI : 2 < INV := by decide
  simp only
  by_cases hub : INV < nV
  · right; right; right
    rw [if_pos hub]
    refine ⟨rfl, ?_⟩
    rcases (hlt _).1 hub with h | h
    · omega
    · exact h
  rw [if_neg hub]
  by_cases hoom : INV ≤ nV ∨ INV ≤ polys.length
  · right; right; left
    rw [if_pos hoom]
    refine ⟨rfl, ?_⟩
    rcases hoom with h | h
    · rcases (hlt (INV - 1)).1 (by omega) with h1 | ⟨w, h1, h2⟩
      · omega
      · exact .inl ⟨w, h1, by omega⟩
    · have := length_le_flatten h3
      exact .inr (by omega)
  rw [if_neg hoom]
  push Not at hoom
  rcases polys_ok h3 nV with ⟨s, hs, hB⟩ | ⟨e, he, ⟨rfl, h1⟩ | ⟨rfl, h1⟩⟩
  · rw [hs]
    dsimp only [bind, Except.bind]
    by_cases hun : (List.range nV).any (fun v => !polys.flatten.contains v) = true
    · right; left
      rw [if_pos hun]
      refine ⟨rfl, fun hM => ?_⟩
      rw [List.any_eq_true] at hun
      obtain ⟨v, hv, h1⟩ := hun
      rw [List.mem_range, hlt] at hv
      have h2 : v ∉ polys.flatten := by simpa using h1
      rcases hv with rfl | ⟨w, hw, hvw⟩
      · obtain ⟨p, ps, hps⟩ := List.exists_cons_of_ne_nil hM.ne
        have h4 := hM.deg p (by rw [hps]; simp)
        obtain ⟨x, hx⟩ := List.exists_mem_of_length_pos (show 0 < p.length by omega)
        exact h2 (hM.dense 0 x (Nat.zero_le _) (List.mem_flatten.2 ⟨p, by rw [hps]; simp, hx⟩))
      · exact h2 (hM.dense v w hvw hw)
    rw [if_neg hun]
    have hverts : ∀ v, v < nV ↔ v ∈ polys.flatten := by
      intro v
      constructor
      · intro hv
        by_contra h
        exact hun (List.any_eq_true.2 ⟨v, List.mem_range.2 hv, by simpa using h⟩)
      · intro hv
        exact (hlt v).2 (.inr ⟨v, hv, le_rfl⟩)
    have hN := hB.core.he
    rcases checkBdy_ok s.m with ⟨⟨o, ho⟩, hu⟩ | ⟨ho, i, hi, j, hj, hni, hnj, hv, hne⟩
    swap
    · right; left
      rw [ho]
      refine ⟨rfl, fun hM => ?_⟩
      exact hne (hB.unique hoom.2 hM i (by omega) j (by omega) hni hnj hv)
    rw [hN] at hu
    have hO := hB.open hoom.2 h3 hu
    obtain ⟨m, hm, hR⟩ := resolveAll_ok hO
    have hD : Done polys nV s m := ⟨hB, hoom.2, hoom.1, h3, hverts, hO, hR⟩
    have hck := checkVertices_ok (m := m) hO hR
      (fun v hv => by
        have hV : m.nV = nV := hR.same.2.2.2.1.trans hB.core.other.1
        rw [hR.same.1]
        exact hD.vHe (by omega))
      (fun h hh => by
        rw [hR.same.1, hR.same.2.2.2.1, hB.core.other.1]
        exact hD.v_lt hh)
    have hsame := checkVertices_setCaps m
    rw [ho]
    dsimp only
    rw [hm]
    dsimp only
    rw [hsame]
    rcases hck with ⟨hc1, hc2⟩ | ⟨hc1, h, hh, hc2⟩
    · left
      rw [hc1]
      refine ⟨_, rfl, hD.valid hc2, hD.represents, ?_⟩
      refine ⟨?_, h3, ?_, nodup_sides.1 hB.core.nodup, ?_, ?_⟩
      · rintro rfl
        have := (hverts 0).1 (by omega)
        simp at this
      · intro c hc
        exact hB.core.ne _ (mem_sides.2 ⟨c, hc, rfl⟩)
      · intro v w hvw hw
        rw [← hverts] at hw ⊢
        omega
      · intro v a b ha hb hav hbv
        exact hD.conn hc2 ha hb hav hbv
    · right; left
      rw [hc1]
      exact ⟨rfl, fun hM => hc2 (hD.check hM hh)⟩
  · right; left
    rw [he]
    refine ⟨rfl, fun hM => ?_⟩
    rcases h1 with ⟨d, hd, h1⟩ | h1
    · obtain ⟨c, hc, rfl⟩ := mem_sides.1 hd
      exact hM.loop c hc h1
    · exact h1 (nodup_sides.2 hM.once)
  · right; right; left
    rw [he]
    refine ⟨rfl, .inr ?_⟩
    rw [sides_length] at h1
    exact h1

/-- **C22.** If the constructor accepts a polygon list, the mesh is valid and has exactly the given faces, edges and
boundary loops. -/
theorem C22 (polys : List (List ℕ)) (m : Mesh) (h : fromPolygons polys = .ok m) : m.Valid ∧ Represents polys m := by
  rcases fromPolygons_cases polys with ⟨m', h1, h2, h3, -⟩ | ⟨h1, -⟩ | ⟨h1, -⟩ | ⟨h1, -⟩ <;> rw [h] at h1
  · cases h1
    exact ⟨h2, h3⟩
  · cases h1
  · cases h1
  · cases h1

/-- **C23.** The constructor throws on every polygon list that is not an oriented manifold. The bounds exclude lists for
which storage would be refused and the index `INVALID_IND`. -/
theorem C23 (polys : List (List ℕ)) (hv : ∀ v ∈ polys.flatten, v + 1 < INV) (hl : 4 * (polys.flatten.length + 1) < INV)
    (hbad : (∃ c c', IsCorner polys c ∧ IsCorner polys c' ∧ c ≠ c' ∧ side polys c = side polys c') ∨
      (∃ p ∈ polys, p.length < 3) ∨
      (∃ c, IsCorner polys c ∧ (side polys c).1 = (side polys c).2) ∨
      polys = [] ∨ (∃ v w, v ≤ w ∧ w ∈ polys.flatten ∧ v ∉ polys.flatten) ∨
      (∃ v a b, IsCorner polys a ∧ IsCorner polys b ∧ cornerV polys a = v ∧ cornerV polys b = v ∧
        ¬ Relation.EqvGen (CornerAdj polys v) a b)) :
    fromPolygons polys = .error .throw := by
  have hM : ¬ Manifold polys := by
    intro hM
    rcases hbad with ⟨c, c', h1, h2, h3, h4⟩ | ⟨p, h1, h2⟩ | ⟨c, h1, h2⟩ | h1 | ⟨v, w, h1, h2, h3⟩ | ⟨v, a, b, h1, h2, h3, h4, h5⟩
    · exact h3 (hM.once c c' h1 h2 h4)
    · have := hM.deg p h1; omega
    · exact hM.loop c h1 h2
    · exact hM.ne h1
    · exact h3 (hM.dense v w h1 h2)
    · exact h5 (hM.conn v a b h1 h2 h3 h4)
  rcases fromPolygons_cases polys with ⟨m', -, -, -, h4⟩ | ⟨h1, -⟩ | ⟨-, ⟨v, h1, h2⟩ | h1⟩ | ⟨-, v, h1, h2⟩
  · exact absurd h4 hM
  · exact h1
  · have := hv v h1; omega
  · omega
  · have := hv v h1; omega

/-- Oriented manifold polygon lists are accepted. -/
theorem C23_accept (polys : List (List ℕ)) (hv : ∀ v ∈ polys.flatten, v + 1 < INV) (hl : 4 * (polys.flatten.length + 1) < INV)
    (hM : Manifold polys) : ∃ m, fromPolygons polys = .ok m := by
  rcases fromPolygons_cases polys with ⟨m', h1, -⟩ | ⟨-, h1⟩ | ⟨-, ⟨v, h1, h2⟩ | h1⟩ | ⟨-, v, h1, h2⟩
  · exact ⟨m', h1⟩
  · exact absurd hM h1
  · have := hv v h1; omega
  · omega
  · have := hv v h1; omega

/-- Two triangles glued along a side: accepted, with one boundary loop of four halfedges. -/
example : (fromPolygons [[0, 1, 2], [2, 1, 3]]).map (fun m => (m.nE, m.nV, m.nBL, m.nInt)) = .ok (5, 4, 1, 6) := rfl

/-- A tetrahedron: accepted, closed. -/
example : (fromPolygons [[0, 1, 2], [0, 2, 3], [0, 3, 1], [1, 3, 2]]).map (fun m => (m.nE, m.nV, m.nBL, m.nInt)) =
    .ok (6, 4, 0, 12) := rfl

/-- Rejected: a side used twice, a repeated vertex, an unreferenced vertex, two triangles sharing only a vertex, and two
tetrahedra sharing only a vertex. -/
example : fromPolygons [[0, 1, 2], [0, 1, 3]] = .error .throw := rfl
example : fromPolygons [[0, 0, 1]] = .error .throw := rfl
example : fromPolygons [[0, 1, 3]] = .error .throw := rfl
example : fromPolygons [[0, 1, 2], [0, 3, 4]] = .error .throw := rfl
example : fromPolygons [[0, 1, 2], [0, 2, 3], [0, 3, 1], [1, 3, 2], [0, 4, 5], [0, 5, 6], [0, 6, 4], [4, 6, 5]] =
    .error .throw := rfl

end Mesh
end GC
