import Verif.Props.Stats
import Verif.Props.MeshBuild
import Verif.Props.Collapse

/-! # C63: `getFaceVertexList` and rebuilding a mesh from it -/

namespace GC
namespace Mesh
variable {m : Mesh}

/-- The lists behind `getFaceVertexList`: the polygons are the faces in index order, each from `f.halfedge()` along `next()`,
with dense vertex indices. -/
structure FaceLists (m : Mesh) (polys : List (List ℕ)) (idx : ℕ → ℕ) (fs : List ℕ) (L : ℕ → List ℕ) : Prop where
  index : IsIndex idx m.vLive m.nV
  range : IsRange fs (fun f => m.fLive f ∧ f < m.nFFill)
  eq : polys = fs.map (fun f => (L f).map (fun i => idx (m.heVertex i)))
  nodup : ∀ f ∈ fs, (L f).Nodup
  mem : ∀ f ∈ fs, ∀ i, i ∈ L f ↔ m.heLive i ∧ m.heFace i = f
  first : ∀ f ∈ fs, (L f)[0]? = some (m.fHalfedge f)
  cyc : ∀ f ∈ fs, ∀ j i, (L f)[j]? = some i → (L f)[(j + 1) % (L f).length]? = some (m.heNext i)

theorem faceLists (hv : m.Valid) : ∃ polys idx fs L, m.getFaceVertexList = .ok polys ∧ m.getVertexIndices = .ok idx ∧
    m.rangeFaces = .ok fs ∧ (∀ f ∈ fs, m.navFaceHalfedges f = .ok (L f)) ∧ FaceLists m polys idx fs L := by
  obtain ⟨⟨idx, hi, hI⟩, -⟩ := C62_indices m hv
  obtain ⟨-, -, -, -, -, ⟨fs, hf, hF, -⟩, -⟩ := C16_ranges m hv
  have key : ∀ f, m.fLive f ∧ f < m.nFFill → ∃ l, m.navFaceHalfedges f = .ok l ∧ l.Nodup ∧
      (∀ i, i ∈ l ↔ m.heLive i ∧ m.heFace i = f) ∧
      l[0]? = some (m.fHalfedge f) ∧ (∀ j i, l[j]? = some i → l[(j+1) % l.length]? = some (m.heNext i)) ∧
      m.navFaceVertices f = .ok (l.map m.heVertex) := by
    rintro f ⟨h1, -⟩
    obtain ⟨l, a, b, c, d, e, -, g, -⟩ := C49_face_halfedges m hv f h1
    exact ⟨l, a, b, c, d, e, g⟩
  choose! L k1 k2 k3 k4 k5 k6 using key
  have mem : ∀ f ∈ fs, m.fLive f ∧ f < m.nFFill := fun f h => (hF.2 f).1 h
  refine ⟨fs.map (fun f => (L f).map (fun i => idx (m.heVertex i))), idx, fs, L, ?_, hi, hf, fun f h => k1 f (mem f h), hI, hF, rfl,
    fun f h => k2 f (mem f h), fun f h => k3 f (mem f h), fun f h => k4 f (mem f h), fun f h => k5 f (mem f h)⟩
  unfold getFaceVertexList
  rw [hi, hf]
  show fs.foldlM _ _ = _
  have : ∀ (l : List ℕ) (acc : List (List ℕ)), (∀ f ∈ l, m.fLive f ∧ f < m.nFFill) →
      l.foldlM (fun result f => (do
        let l ← m.navFaceVertices f
        .ok (result ++ [l.map idx]) : Res (List (List ℕ)))) acc =
      .ok (acc ++ l.map (fun f => (L f).map (fun i => idx (m.heVertex i)))) := by
    intro l
    induction l with
    | nil => intro acc _; simp [pure, Except.pure]
    | cons a l ih =>
      intro acc h
      rw [List.foldlM_cons, k6 a (h a List.mem_cons_self)]
      show List.foldlM _ _ l = _
      rw [ih _ (fun f hf => h f (List.mem_cons_of_mem _ hf))]
      simp [List.map_map, Function.comp_def]
  have h := this fs [] mem
  rw [List.nil_append] at h
  exact h

theorem getD_get {l : List ℕ} {k d : ℕ} (h : k < l.length) : l.getD k d = l[k] := by
  rw [List.getD_eq_getElem?_getD, List.getElem?_eq_getElem h]; rfl

/-- The halfedge at a corner of the polygon list. -/
def cornerHe (fs : List ℕ) (L : ℕ → List ℕ) (c : ℕ × ℕ) : ℕ := (L (fs.getD c.1 0)).getD c.2 0

namespace FaceLists
variable {polys : List (List ℕ)} {idx : ℕ → ℕ} {fs : List ℕ} {L : ℕ → List ℕ}

theorem len (h : FaceLists m polys idx fs L) : polys.length = fs.length := by rw [h.eq, List.length_map]

theorem polyAt (h : FaceLists m polys idx fs L) {k : ℕ} (hk : k < fs.length) :
    GC.polyAt polys k = (L (fs.getD k 0)).map (fun i => idx (m.heVertex i)) := by
  rw [polyAt_eq (by rw [h.len]; exact hk)]
  simp only [h.eq, List.getElem_map]
  rw [getD_get hk]

theorem fmem (_ : FaceLists m polys idx fs L) {k : ℕ} (hk : k < fs.length) : fs.getD k 0 ∈ fs := by
  rw [getD_get hk]; exact List.getElem_mem hk

theorem corner_iff (h : FaceLists m polys idx fs L) {c : ℕ × ℕ} :
    IsCorner polys c ↔ c.1 < fs.length ∧ c.2 < (L (fs.getD c.1 0)).length := by
  unfold IsCorner
  rw [h.len]
  constructor
  · rintro ⟨a, b⟩; rw [h.polyAt a, List.length_map] at b; exact ⟨a, b⟩
  · rintro ⟨a, b⟩; rw [h.polyAt a, List.length_map]; exact ⟨a, b⟩

theorem he_get (h : FaceLists m polys idx fs L) {c : ℕ × ℕ} (hc : IsCorner polys c) :
    (L (fs.getD c.1 0))[c.2]? = some (cornerHe fs L c) := by
  have := (h.corner_iff.1 hc).2
  unfold cornerHe
  rw [getD_get this, List.getElem?_eq_getElem this]

theorem he_mem (h : FaceLists m polys idx fs L) {c : ℕ × ℕ} (hc : IsCorner polys c) :
    m.heLive (cornerHe fs L c) ∧ m.heFace (cornerHe fs L c) = fs.getD c.1 0 := by
  have := List.mem_of_getElem? (h.he_get hc)
  exact (h.mem _ (h.fmem (h.corner_iff.1 hc).1) _).1 this

theorem he_int (h : FaceLists m polys idx fs L) {c : ℕ × ℕ} (hc : IsCorner polys c) : ¬ m.ext (cornerHe fs L c) := by
  unfold ext
  rw [(h.he_mem hc).2]
  have := ((h.range.2 _).1 (h.fmem (h.corner_iff.1 hc).1)).2
  omega

theorem he_inj (h : FaceLists m polys idx fs L) {c c' : ℕ × ℕ} (hc : IsCorner polys c) (hc' : IsCorner polys c')
    (e : cornerHe fs L c = cornerHe fs L c') : c = c' := by
  have e1 : fs.getD c.1 0 = fs.getD c'.1 0 := by rw [← (h.he_mem hc).2, ← (h.he_mem hc').2, e]
  obtain ⟨a1, a2⟩ := h.corner_iff.1 hc
  obtain ⟨b1, b2⟩ := h.corner_iff.1 hc'
  have f1 : c.1 = c'.1 := by
    rw [getD_get a1, getD_get b1] at e1
    exact (nodup_of_range h.range).getElem_inj_iff.1 e1
  have f2 : c.2 = c'.2 := by
    have g1 := h.he_get hc
    have g2 := h.he_get hc'
    rw [← e, ← e1] at g2
    rw [← e1] at b2
    rw [List.getElem?_eq_getElem a2] at g1
    rw [List.getElem?_eq_getElem b2] at g2
    exact (h.nodup _ (h.fmem a1)).getElem_inj_iff.1 ((Option.some.inj g1).trans (Option.some.inj g2).symm)
  exact Prod.ext f1 f2

theorem he_surj (h : FaceLists m polys idx fs L) (hv : m.Valid) {i : ℕ} (hi : m.heLive i) (xi : ¬ m.ext i) :
    ∃ c, IsCorner polys c ∧ cornerHe fs L c = i := by
  have hm : m.heFace i ∈ fs := (h.range.2 _).2 ⟨hv.face_live i hi, by unfold ext at xi; omega⟩
  obtain ⟨k, hk, e⟩ := List.getElem_of_mem hm
  have hi' := (h.mem _ hm i).2 ⟨hi, rfl⟩
  obtain ⟨j, hj, e'⟩ := List.getElem_of_mem hi'
  have hg : fs.getD k 0 = m.heFace i := by rw [getD_get hk, e]
  have hc : IsCorner polys (k, j) := h.corner_iff.2 ⟨hk, by simp only; rw [hg]; exact hj⟩
  refine ⟨(k, j), hc, ?_⟩
  have := h.he_get hc
  simp only at this
  rw [hg, List.getElem?_eq_getElem hj, e'] at this
  exact (Option.some.inj this).symm

theorem cornerV (h : FaceLists m polys idx fs L) {c : ℕ × ℕ} (hc : IsCorner polys c) :
    GC.cornerV polys c = idx (m.heVertex (cornerHe fs L c)) := by
  obtain ⟨a1, a2⟩ := h.corner_iff.1 hc
  unfold GC.cornerV cornerHe
  rw [h.polyAt a1, getD_get (by rw [List.length_map]; exact a2), List.getElem_map, getD_get a2]

theorem next_corner (h : FaceLists m polys idx fs L) {c : ℕ × ℕ} (hc : IsCorner polys c) :
    IsCorner polys (cornerNext polys c) ∧ cornerHe fs L (cornerNext polys c) = m.heNext (cornerHe fs L c) := by
  obtain ⟨a1, a2⟩ := h.corner_iff.1 hc
  have hl : (GC.polyAt polys c.1).length = (L (fs.getD c.1 0)).length := by rw [h.polyAt a1, List.length_map]
  have hc' : IsCorner polys (cornerNext polys c) := by
    rw [h.corner_iff]
    refine ⟨a1, ?_⟩
    unfold cornerNext
    simp only
    rw [hl]
    exact Nat.mod_lt _ (by omega)
  refine ⟨hc', ?_⟩
  have e1 := h.he_get hc'
  have e2 := h.cyc _ (h.fmem a1) _ _ (h.he_get hc)
  have e3 : (cornerNext polys c).2 = (c.2 + 1) % (L (fs.getD c.1 0)).length := by rw [← hl]; rfl
  have e4 : (cornerNext polys c).1 = c.1 := rfl
  rw [e3, e4, e2] at e1
  exact (Option.some.inj e1).symm

theorem side (h : FaceLists m polys idx fs L) (hv : m.Valid) {c : ℕ × ℕ} (hc : IsCorner polys c) :
    GC.side polys c = (idx (m.heVertex (cornerHe fs L c)), idx (m.heVertex (twin (cornerHe fs L c)))) := by
  unfold GC.side
  obtain ⟨h1, h2⟩ := h.next_corner hc
  rw [h.cornerV hc, h.cornerV h1, h2, hv.vertex_next (h.he_mem hc).1]

end FaceLists

/-- No two halfedges run from the same vertex to the same vertex (so there is no edge from a vertex to itself), and no
face has only two sides. -/
structure Simple (m : Mesh) : Prop where
  once : ∀ i j, m.heLive i → m.heLive j → m.heVertex i = m.heVertex j → m.heVertex (twin i) = m.heVertex (twin j) → i = j
  deg : ∀ i, m.heLive i → ¬ m.ext i → m.heNext (m.heNext i) ≠ i

theorem Simple.ne (hs : m.Simple) (hv : m.Valid) {i : ℕ} (hi : m.heLive i) : m.heVertex i ≠ m.heVertex (twin i) := by
  intro h
  have := hs.once i (twin i) hi (hv.twin_live i hi) h (by rw [twin_twin]; exact h.symm)
  exact twin_ne i this.symm

theorem vHe_int (hv : m.Valid) {v : ℕ} (hl : m.vLive v) : ¬ m.ext (m.vHalfedge v) := by
  obtain ⟨h1, h2⟩ := hv.v_he v hl
  intro hx
  have := hv.bdy_first _ h1 hx
  rw [h2] at this
  have := hv.ext_twin h1 hx
  contradiction

/-- The interior halfedges that leave a vertex are joined by steps over interior edges. -/
theorem fan_conn (hv : m.Valid) {R : ℕ → ℕ → Prop}
    (hR : ∀ i, m.heLive i → ¬ m.ext i → ¬ m.ext (twin i) → Relation.EqvGen R i (m.vNext i))
    {a b : ℕ} (ha : m.heLive a) (hb : m.heLive b) (xa : ¬ m.ext a) (xb : ¬ m.ext b) (hab : m.heVertex a = m.heVertex b) :
    Relation.EqvGen R a b := by
  -- a starting halfedge such that a boundary halfedge is followed by it
  obtain ⟨s, ls, xs, vs, hs⟩ : ∃ s, m.heLive s ∧ ¬ m.ext s ∧ m.heVertex s = m.heVertex a ∧
      ∀ z, m.heLive z → m.ext z → m.heVertex z = m.heVertex a → m.vNext z = s := by
    by_cases h : ∃ z, m.heLive z ∧ m.ext z ∧ m.heVertex z = m.heVertex a
    · obtain ⟨z, lz, xz, vz⟩ := h
      refine ⟨m.vNext z, hv.vNext_live lz, ?_, (hv.vertex_vNext lz).trans vz, ?_⟩
      · unfold vNext
        rw [hv.ext_next (hv.twin_live z lz)]
        exact hv.ext_twin lz xz
      · intro z' lz' xz' vz'
        rw [hv.bdy_unique z' z lz' lz xz' xz (by rw [vz, vz'])]
    · push Not at h
      exact ⟨a, ha, xa, rfl, fun z lz xz vz => absurd vz (h z lz xz)⟩
  have key : ∀ k, ¬ m.ext (m.vNext^[k] s) → Relation.EqvGen R s (m.vNext^[k] s) := by
    intro k
    induction k with
    | zero => intro _; exact .refl _
    | succ k ih =>
      intro hx
      rw [Function.iterate_succ_apply'] at hx ⊢
      have lz : m.heLive (m.vNext^[k] s) := hv.live_of_orb_vNext ls ⟨k, rfl⟩
      have vz : m.heVertex (m.vNext^[k] s) = m.heVertex a := by
        rw [← vs]; exact ((hv.vertex_iff _ _ ls lz).2 ⟨k, rfl⟩).symm
      by_cases xz : m.ext (m.vNext^[k] s)
      · rw [hs _ lz xz vz]; exact .refl _
      · refine .trans _ _ _ (ih xz) (hR _ lz xz ?_)
        intro c
        apply hx
        unfold vNext
        exact (hv.ext_next (hv.twin_live _ lz)).2 c
  obtain ⟨k, hk⟩ := (hv.vertex_iff s a ls ha).1 vs
  obtain ⟨j, hj⟩ := (hv.vertex_iff s b ls hb).1 (vs.trans hab)
  have k1 := key k (by rw [hk]; exact xa)
  have k2 := key j (by rw [hj]; exact xb)
  rw [hk] at k1
  rw [hj] at k2
  exact .trans _ _ _ (.symm _ _ k1) k2

/-- The face list of a simple mesh describes an oriented manifold. -/
theorem faceList_manifold (hv : m.Valid) (hs : m.Simple) (hne : ∃ i, m.heLive i) {polys : List (List ℕ)} {idx : ℕ → ℕ}
    {fs : List ℕ} {L : ℕ → List ℕ} (h : FaceLists m polys idx fs L) : Manifold polys := by
  have vl : ∀ {i}, m.heLive i → m.vLive (m.heVertex i) := fun hi => hv.vertex_live _ hi
  refine ⟨?_, ?_, ?_, ?_, ?_, ?_⟩
  · obtain ⟨i, hi⟩ := hne
    obtain ⟨c, hc, -⟩ := h.he_surj hv (hv.v_he _ (vl hi)).1 (vHe_int hv (vl hi))
    intro e
    have := hc.1
    rw [e] at this
    simp at this
  · intro p hp
    rw [h.eq] at hp
    obtain ⟨f, hf, rfl⟩ := List.mem_map.1 hp
    rw [List.length_map]
    obtain ⟨lf, hlt⟩ := (h.range.2 f).1 hf
    obtain ⟨hl, hff⟩ := hv.f_he f lf
    have xi : ¬ m.ext (m.fHalfedge f) := by unfold ext; rw [hff]; omega
    have z0 := h.first f hf
    have pos : 0 < (L f).length := by
      by_contra c
      rw [List.getElem?_eq_none (by omega)] at z0
      cases z0
    have c1 := h.cyc f hf _ _ z0
    have c2 := h.cyc f hf _ _ c1
    by_contra c
    have : (L f).length = 1 ∨ (L f).length = 2 := by omega
    rcases this with c | c
    · rw [c] at c1
      have c1' : (L f)[0]? = some (m.heNext (m.fHalfedge f)) := c1
      rw [z0] at c1'
      exact hv.deg_two _ hl (Option.some.inj c1').symm
    · rw [c] at c2
      have c2' : (L f)[0]? = some (m.heNext (m.heNext (m.fHalfedge f))) := c2
      rw [z0] at c2'
      exact hs.deg _ hl xi (Option.some.inj c2').symm
  · intro c hc
    rw [h.side hv hc]
    simp only
    intro e
    have hl := (h.he_mem hc).1
    exact hs.ne hv hl (h.index.inj (vl hl) (vl (hv.twin_live _ hl)) e)
  · intro c c' hc hc' e
    rw [h.side hv hc, h.side hv hc', Prod.mk.injEq] at e
    have hl := (h.he_mem hc).1
    have hl' := (h.he_mem hc').1
    exact h.he_inj hc hc' (hs.once _ _ hl hl' (h.index.inj (vl hl) (vl hl') e.1)
      (h.index.inj (vl (hv.twin_live _ hl)) (vl (hv.twin_live _ hl')) e.2))
  · intro v w hvw hw
    obtain ⟨c, hc, rfl⟩ := mem_flatten_iff.1 hw
    rw [h.cornerV hc] at hvw
    have := h.index.1 _ (vl (h.he_mem hc).1)
    obtain ⟨u, hu, rfl⟩ := h.index.2.1 v (by omega)
    obtain ⟨h1, h2⟩ := hv.v_he u hu
    obtain ⟨c', hc', e⟩ := h.he_surj hv h1 (vHe_int hv hu)
    exact mem_flatten_iff.2 ⟨c', hc', by rw [h.cornerV hc', e, h2]⟩
  · intro v a b ha hb va vb
    rw [h.cornerV ha] at va
    rw [h.cornerV hb] at vb
    have la := (h.he_mem ha).1
    have lb := (h.he_mem hb).1
    have hab : m.heVertex (cornerHe fs L a) = m.heVertex (cornerHe fs L b) := h.index.inj (vl la) (vl lb) (va.trans vb.symm)
    have conn := fan_conn hv (R := fun i j => m.heLive i ∧ ¬ m.ext i ∧ ¬ m.ext (twin i) ∧ j = m.vNext i)
      (fun i li xi xt => .rel _ _ ⟨li, xi, xt, rfl⟩) la lb (h.he_int ha) (h.he_int hb) hab
    -- transport to corners
    have key : ∀ i j, Relation.EqvGen (fun i j => m.heLive i ∧ ¬ m.ext i ∧ ¬ m.ext (twin i) ∧ j = m.vNext i) i j →
        i = j ∨ (m.heLive i ∧ ¬ m.ext i ∧ m.heLive j ∧ ¬ m.ext j ∧ m.heVertex i = m.heVertex j ∧
          ∀ c d, IsCorner polys c → IsCorner polys d → cornerHe fs L c = i → cornerHe fs L d = j → idx (m.heVertex i) = v →
          Relation.EqvGen (CornerAdj polys v) c d) := by
      intro i j hij
      induction hij with
      | refl => exact Or.inl rfl
      | rel i j h' =>
        obtain ⟨li, xi, xt, rfl⟩ := h'
        refine Or.inr ⟨li, xi, hv.vNext_live li, ?_, (hv.vertex_vNext li).symm, ?_⟩
        · unfold vNext; rw [hv.ext_next (hv.twin_live i li)]; exact xt
        · intro c d hc hd ec ed ev
          subst ec
          obtain ⟨p, hp, ep⟩ := h.he_surj hv (hv.twin_live _ li) xt
          obtain ⟨n1, n2⟩ := h.next_corner hp
          have hnd : cornerNext polys p = d := h.he_inj n1 hd (by rw [n2, ep, ed]; rfl)
          refine .rel _ _ ⟨hc, hd, by rw [h.cornerV hc, ev], ?_, p, hp, hnd, ?_⟩
          · rw [h.cornerV hd, ed, show m.heVertex (m.vNext (cornerHe fs L c)) = _ from hv.vertex_vNext li, ev]
          · rw [h.side hv hp, h.side hv hc, ep, twin_twin]
      | symm i j _ ih =>
        rcases ih with rfl | ⟨l1, x1, l2, x2, e, k⟩
        · exact Or.inl rfl
        · exact Or.inr ⟨l2, x2, l1, x1, e.symm, fun c d hc hd ec ed ev =>
            .symm _ _ (k d c hd hc ed ec (by rw [e]; exact ev))⟩
      | trans i j k _ _ ih1 ih2 =>
        rcases ih1 with rfl | ⟨l1, x1, l2, x2, e, k1⟩
        · exact ih2
        · rcases ih2 with rfl | ⟨l2', x2', l3, x3, e', k2⟩
          · exact Or.inr ⟨l1, x1, l2, x2, e, k1⟩
          · refine Or.inr ⟨l1, x1, l3, x3, e.trans e', fun c d hc hd ec ed ev => ?_⟩
            obtain ⟨q, hq, eq⟩ := h.he_surj hv l2 x2
            exact .trans _ _ _ (k1 c q hc hq ec eq ev) (k2 q d hq hd eq ed (by rw [← e]; exact ev))
    rcases key _ _ conn with c | ⟨-, -, -, -, -, k⟩
    · rw [h.he_inj ha hb c]; exact .refl _
    · exact k a b ha hb rfl rfl va

/-- `φ` maps the halfedges of `m` one-to-one onto those of `m'` and respects everything; vertices and faces correspond by
`vI` and `fI`. -/
structure Iso (m m' : Mesh) (vI fI φ : ℕ → ℕ) : Prop where
  live : ∀ i, m.heLive i → m'.heLive (φ i)
  inj : ∀ i j, m.heLive i → m.heLive j → φ i = φ j → i = j
  surj : ∀ h, m'.heLive h → ∃ i, m.heLive i ∧ φ i = h
  next : ∀ i, m.heLive i → m'.heNext (φ i) = φ (m.heNext i)
  twin : ∀ i, m.heLive i → GC.twin (φ i) = φ (GC.twin i)
  vertex : ∀ i, m.heLive i → m'.heVertex (φ i) = vI (m.heVertex i)
  ext : ∀ i, m.heLive i → (m'.ext (φ i) ↔ m.ext i)
  face : ∀ i, m.heLive i → ¬ m.ext i → m'.heFace (φ i) = fI (m.heFace i)
  first : ∀ f, m.fLive f → f < m.nFFill → m'.fHalfedge (fI f) = φ (m.fHalfedge f)
  verts : ∀ w, m'.vLive w ↔ ∃ v, m.vLive v ∧ vI v = w

theorem flatten_len (hv : m.Valid) {polys : List (List ℕ)} {idx : ℕ → ℕ} {fs : List ℕ} {L : ℕ → List ℕ}
    (h : FaceLists m polys idx fs L) : polys.flatten.length ≤ m.nHeFill := by
  have e : polys.flatten.length = (fs.flatMap L).length := by
    rw [h.eq, List.length_flatten, List.length_flatMap, List.map_map]
    congr 1
    apply List.map_congr_left
    intro f _
    simp
  rw [e]
  have nd : (fs.flatMap L).Nodup := by
    rw [List.nodup_flatMap]
    refine ⟨fun f hf => h.nodup f hf, ?_⟩
    have := (nodup_of_range h.range)
    refine List.Pairwise.imp_of_mem ?_ this
    intro a b ha hb hab i hia hib
    exact hab (((h.mem a ha i).1 hia).2.symm.trans ((h.mem b hb i).1 hib).2)
  have sub : (fs.flatMap L).toFinset ⊆ Finset.range m.nHeFill := by
    intro i hi
    rw [List.mem_toFinset, List.mem_flatMap] at hi
    obtain ⟨f, hf, hi⟩ := hi
    exact Finset.mem_range.2 ((h.mem f hf i).1 hi).1.1
  have := Finset.card_le_card sub
  rwa [List.toFinset_card_of_nodup nd, Finset.card_range] at this

theorem count_full {p : ℕ → Prop} [DecidablePred p] {n : ℕ} (h : Nat.count p n = n) : ∀ k < n, p k := by
  rw [Nat.count_eq_card_filter_range] at h
  intro k hk
  have : (Finset.range n).filter p = Finset.range n := Finset.eq_of_subset_of_card_le (Finset.filter_subset _ _) (by rw [h, Finset.card_range])
  have hk' : k ∈ (Finset.range n).filter p := by rw [this]; exact Finset.mem_range.2 hk
  exact (Finset.mem_filter.1 hk').2

/-- Two meshes with the same face lists are the same up to numbering. -/
theorem iso_of_represents (hv : m.Valid) (hs : m.Simple) {polys : List (List ℕ)} {idx : ℕ → ℕ} {fs : List ℕ} {L : ℕ → List ℕ}
    (h : FaceLists m polys idx fs L) {m' : Mesh} (hv' : m'.Valid) (R : Represents polys m') :
    ∃ φ, Iso m m' idx (number fs) φ := by
  have vl : ∀ {i}, m.heLive i → m.vLive (m.heVertex i) := fun hi => hv.vertex_live _ hi
  have tl : ∀ {i}, m.heLive i → m.heLive (GC.twin i) := fun hi => hv.twin_live _ hi
  have ex : ∀ i, m.heLive i → ∃ h', m'.heLive h' ∧ m'.heVertex h' = idx (m.heVertex i) ∧
      m'.heVertex (GC.twin h') = idx (m.heVertex (GC.twin i)) := by
    have int : ∀ i, m.heLive i → ¬ m.ext i → ∃ h', m'.heLive h' ∧ m'.heVertex h' = idx (m.heVertex i) ∧
        m'.heVertex (GC.twin h') = idx (m.heVertex (GC.twin i)) := by
      intro i li xi
      obtain ⟨c, hc, rfl⟩ := h.he_surj hv li xi
      obtain ⟨h', l', e⟩ := R.sides c hc
      rw [h.side hv hc, Prod.mk.injEq] at e
      exact ⟨h', l', e.1, e.2⟩
    intro i li
    by_cases xi : m.ext i
    · obtain ⟨h', l', e1, e2⟩ := int _ (tl li) (hv.ext_twin li xi)
      rw [twin_twin] at e2
      exact ⟨GC.twin h', hv'.twin_live _ l', e2, by rw [twin_twin]; exact e1⟩
    · exact int i li xi
  choose! φ f1 f2 f3 using ex
  -- a halfedge with the right ends is the image
  have uniq : ∀ i g, m.heLive i → m'.heLive g → m'.heVertex g = idx (m.heVertex i) →
      m'.heVertex (GC.twin g) = idx (m.heVertex (GC.twin i)) → g = φ i := fun i g li lg e1 e2 =>
    R.once g (φ i) lg (f1 i li) (by rw [e1, f2 i li]) (by rw [e2, f3 i li])
  have same : ∀ i j, m.heLive i → m.heLive j → idx (m.heVertex i) = idx (m.heVertex j) →
      idx (m.heVertex (GC.twin i)) = idx (m.heVertex (GC.twin j)) → i = j := fun i j li lj e1 e2 =>
    hs.once i j li lj (h.index.inj (vl li) (vl lj) e1) (h.index.inj (vl (tl li)) (vl (tl lj)) e2)
  have tw : ∀ i, m.heLive i → GC.twin (φ i) = φ (GC.twin i) := by
    intro i li
    exact uniq _ _ (tl li) (hv'.twin_live _ (f1 i li)) (f3 i li) (by rw [twin_twin, twin_twin]; exact f2 i li)
  have xt : ∀ i, m.heLive i → (m'.ext (φ i) ↔ m.ext i) := by
    intro i li
    rw [← not_iff_not, R.int _ (f1 i li), f2 i li, f3 i li]
    constructor
    · rintro ⟨c, hc, e⟩
      rw [h.side hv hc, Prod.mk.injEq] at e
      rw [← same _ _ (h.he_mem hc).1 li e.1 e.2]
      exact h.he_int hc
    · intro xi
      obtain ⟨c, hc, rfl⟩ := h.he_surj hv li xi
      exact ⟨c, hc, h.side hv hc⟩
  -- walking around a face
  have fl : ∀ k < polys.length, m'.fLive k := by
    intro k hk
    have := hv'.cnt_f
    rw [R.nF.1, R.nF.2] at this
    exact ⟨Or.inl (by rw [R.nF.2]; exact hk), count_full this.symm k hk⟩
  have walk : ∀ k < polys.length, ∃ hs' : List ℕ, hs'[0]? = some (m'.fHalfedge k) ∧
      ∀ c, IsCorner polys c → c.1 = k → hs'[c.2]? = some (φ (cornerHe fs L c)) ∧ m'.heFace (φ (cornerHe fs L c)) = k ∧
        hs'[(cornerNext polys c).2]? = some (m'.heNext (φ (cornerHe fs L c))) := by
    intro k hk
    obtain ⟨hs', e1, e2⟩ := R.faces k hk
    obtain ⟨l, e3, nd, hm, d, el, hhit⟩ := hv'.faceHalfedges_ok (fl k hk)
    unfold faceHalfedges at e3
    rw [e1] at e3
    injection e3 with e3
    subst e3
    obtain ⟨z0, cyc⟩ := cyc_list hhit el
    refine ⟨hs', z0, ?_⟩
    rintro c hc rfl
    have hlen : hs'.length = (GC.polyAt polys c.1).length := by rw [← e2, List.length_map]
    have hj : c.2 < hs'.length := by rw [hlen]; exact hc.2
    have ge : ∀ j (hj : j < hs'.length), m'.heVertex hs'[j] = (GC.polyAt polys c.1).getD j 0 := by
      intro j hj
      rw [← e2, List.getD_eq_getElem?_getD, List.getElem?_eq_getElem (by rw [List.length_map]; exact hj), List.getElem_map]
      rfl
    have nx := cyc c.2 _ (List.getElem?_eq_getElem hj)
    rw [hlen] at nx
    have hn : (c.2 + 1) % (GC.polyAt polys c.1).length < hs'.length := by rw [hlen]; exact Nat.mod_lt _ (by omega)
    have li' : m'.heLive hs'[c.2] := ((hm _).1 (List.getElem_mem hj)).1
    obtain ⟨n1, n2⟩ := h.next_corner hc
    have v1 : m'.heVertex hs'[c.2] = idx (m.heVertex (cornerHe fs L c)) := by rw [ge _ hj, ← h.cornerV hc]; rfl
    have v2 : m'.heVertex (GC.twin hs'[c.2]) = idx (m.heVertex (GC.twin (cornerHe fs L c))) := by
      rw [← hv'.vertex_next li', ← hv.vertex_next (h.he_mem hc).1, ← n2, ← h.cornerV n1]
      rw [List.getElem?_eq_getElem hn] at nx
      rw [← Option.some.inj nx, ge _ hn]; rfl
    have eφ := uniq _ _ (h.he_mem hc).1 li' v1 v2
    refine ⟨?_, ?_, ?_⟩
    · rw [← eφ]; exact List.getElem?_eq_getElem hj
    · rw [← eφ]; exact ((hm _).1 (List.getElem_mem hj)).2
    · rw [← eφ]; exact nx
  have fc : ∀ c, IsCorner polys c → number fs (m.heFace (cornerHe fs L c)) = c.1 := by
    intro c hc
    have h1 := (h.corner_iff.1 hc).1
    rw [(h.he_mem hc).2, getD_get h1]
    exact number_get (nodup_of_range h.range) _ h1
  refine ⟨φ, f1, ?_, ?_, ?_, tw, f2, xt, ?_, ?_, ?_⟩
  · intro i j li lj e
    refine same i j li lj ?_ ?_
    · rw [← f2 i li, ← f2 j lj, e]
    · rw [← f3 i li, ← f3 j lj, e]
  · intro g lg
    by_cases xg : m'.ext g
    · obtain ⟨⟨c, hc, e⟩, -⟩ := (R.bdy g lg).1 xg
      rw [h.side hv hc, Prod.mk.injEq] at e
      refine ⟨GC.twin (cornerHe fs L c), tl (h.he_mem hc).1, (uniq _ _ (tl (h.he_mem hc).1) lg e.2.symm ?_).symm⟩
      rw [twin_twin]; exact e.1.symm
    · obtain ⟨c, hc, e⟩ := (R.int g lg).1 xg
      rw [h.side hv hc, Prod.mk.injEq] at e
      exact ⟨cornerHe fs L c, (h.he_mem hc).1, (uniq _ _ (h.he_mem hc).1 lg e.1.symm e.2.symm).symm⟩
  · intro i li
    by_cases xi : m.ext i
    · -- the boundary halfedge at the tip is unique
      have ln := hv.next_live i li
      have ln' := hv'.next_live _ (f1 i li)
      refine hv'.bdy_unique _ _ ln' (f1 _ ln) ((hv'.ext_next (f1 i li)).2 ((xt i li).2 xi)) ((xt _ ln).2 ((hv.ext_next li).2 xi)) ?_
      rw [hv'.vertex_next (f1 i li), f3 i li, f2 _ ln, hv.vertex_next li]
    · obtain ⟨c, hc, rfl⟩ := h.he_surj hv li xi
      obtain ⟨hs', -, w⟩ := walk c.1 hc.1
      obtain ⟨-, -, w4⟩ := w c hc rfl
      obtain ⟨n1, n2⟩ := h.next_corner hc
      obtain ⟨w1, -⟩ := w _ n1 rfl
      rw [w4, n2] at w1
      exact Option.some.inj w1
  · intro i li xi
    obtain ⟨c, hc, rfl⟩ := h.he_surj hv li xi
    obtain ⟨hs', -, w⟩ := walk c.1 hc.1
    rw [(w c hc rfl).2.1, fc c hc]
  · intro f lf hf
    obtain ⟨h1, h2⟩ := hv.f_he f lf
    have hm : f ∈ fs := (h.range.2 f).2 ⟨lf, hf⟩
    obtain ⟨k, hk, rfl⟩ := List.getElem_of_mem hm
    rw [number_get (nodup_of_range h.range) k hk]
    have z0 := h.first _ hm
    have pos : 0 < (L fs[k]).length := by
      by_contra c
      rw [List.getElem?_eq_none (by omega)] at z0
      cases z0
    have hc : IsCorner polys (k, 0) := h.corner_iff.2 ⟨hk, by simp only; rw [getD_get hk]; exact pos⟩
    obtain ⟨hs', w2, w⟩ := walk k hc.1
    obtain ⟨w1, -⟩ := w (k, 0) hc rfl
    have := h.he_get hc
    simp only at this w1 w2
    rw [getD_get hk, z0] at this
    rw [w2] at w1
    rw [Option.some.inj w1, ← Option.some.inj this]
  · intro w
    rw [R.verts, mem_flatten_iff]
    constructor
    · rintro ⟨c, hc, rfl⟩
      exact ⟨_, vl (h.he_mem hc).1, (h.cornerV hc).symm⟩
    · rintro ⟨v, lv, rfl⟩
      obtain ⟨h1, h2⟩ := hv.v_he v lv
      obtain ⟨c, hc, e⟩ := h.he_surj hv h1 (vHe_int hv lv)
      exact ⟨c, hc, by rw [h.cornerV hc, e, h2]⟩

/-- **C63.** For every valid mesh without double edges and two-sided faces, building a mesh from `getFaceVertexList()` is
accepted and gives the same mesh up to the numbering of the halfedges; vertices and faces get their dense indices.
(For meshes with double edges this fails, `C63_fails`.) The bound excludes meshes for which storage would be refused. -/
theorem C63_partial (m : Mesh) (hv : m.Valid) (hs : m.Simple) (hne : ∃ i, m.heLive i) (hsize : 4 * (m.nHeFill + 1) < INV) :
    ∃ polys vI fI m' φ, m.getFaceVertexList = .ok polys ∧ m.getVertexIndices = .ok vI ∧ m.getFaceIndices = .ok fI ∧
      fromPolygons polys = .ok m' ∧ m'.Valid ∧ Iso m m' vI fI φ := by
  obtain ⟨polys, idx, fs, L, e1, e2, e3, -, h⟩ := faceLists hv
  have hM := faceList_manifold hv hs hne h
  have hlen := flatten_len hv h
  obtain ⟨m', e4⟩ := C23_accept polys (by
    intro v hvm
    obtain ⟨c, hc, rfl⟩ := mem_flatten_iff.1 hvm
    rw [h.cornerV hc]
    have h1 := h.index.1 _ (hv.vertex_live _ (h.he_mem hc).1)
    have h2 : m.nV ≤ m.nVFill := by rw [hv.cnt_v]; exact Nat.count_le _
    have := hv.v_cap
    omega) (by omega) hM
  obtain ⟨hv', hR⟩ := C22 polys m' e4
  obtain ⟨φ, hφ⟩ := iso_of_represents hv hs h hv' hR
  exact ⟨polys, idx, number fs, m', φ, e1, e2, by unfold getFaceIndices; rw [e3]; rfl, e4, hv', hφ⟩

/-- **C63, the list itself.** On every valid mesh the list has one polygon for each face, in index order; the polygon of
a face lists the dense indices of its corners, from `f.halfedge()` along `next()`. -/
theorem C63_list (m : Mesh) (hv : m.Valid) :
    ∃ polys vI fI, m.getFaceVertexList = .ok polys ∧ m.getVertexIndices = .ok vI ∧ m.getFaceIndices = .ok fI ∧
      polys.length = m.nF ∧ ∀ f, m.fLive f → f < m.nFFill →
        ∃ l, m.navFaceHalfedges f = .ok l ∧ polys[fI f]? = some (l.map (fun i => vI (m.heVertex i))) := by
  obtain ⟨polys, idx, fs, L, e1, e2, e3, e4, h⟩ := faceLists hv
  refine ⟨polys, idx, number fs, e1, e2, by unfold getFaceIndices; rw [e3]; rfl, ?_, ?_⟩
  · obtain ⟨-, -, -, -, -, ⟨fs', hf', -, hn⟩, -⟩ := C16_ranges m hv
    rw [e3] at hf'
    injection hf' with hf'
    rw [h.len, hf', hn]
  · intro f lf hf
    have hm : f ∈ fs := (h.range.2 f).2 ⟨lf, hf⟩
    obtain ⟨k, hk, rfl⟩ := List.getElem_of_mem hm
    refine ⟨L fs[k], e4 _ hm, ?_⟩
    rw [number_get (nodup_of_range h.range) k hk, h.eq, List.getElem?_map, List.getElem?_eq_getElem hk]
    rfl

theorem simple_of {n : ℕ} (hn : m.nHeFill = n)
    (h1 : ∀ i < n, ∀ j < n, m.heVertex i = m.heVertex j ∧ m.heVertex (twin i) = m.heVertex (twin j) → i = j)
    (h2 : ∀ i < n, m.heNext (m.heNext i) ≠ i ∨ m.ext i) : m.Simple := by
  subst hn
  refine ⟨fun i j li lj a b => h1 i li.1 j lj.1 ⟨a, b⟩, fun i li xi c => ?_⟩
  rcases h2 i li.1 with k | k
  · exact k c
  · exact xi k

/-- The tetrahedron and the square satisfy the hypotheses of `C63_partial`. -/
example : tetra.Simple ∧ square.Simple ∧ (∃ i, tetra.heLive i) ∧ 4 * (tetra.nHeFill + 1) < INV :=
  ⟨simple_of rfl (by decide +kernel) (by decide +kernel), simple_of rfl (by decide +kernel) (by decide +kernel),
    ⟨0, by decide +kernel⟩, by decide +kernel⟩

/-- The full statement of C63: also with double edges. -/
def C63_statement : Prop := ∀ m : Mesh, m.Valid → (∃ i, m.heLive i) → 4 * (m.nHeFill + 1) < INV →
  ∃ polys vI fI m' φ, m.getFaceVertexList = .ok polys ∧ m.getVertexIndices = .ok vI ∧ m.getFaceIndices = .ok fI ∧
    fromPolygons polys = .ok m' ∧ m'.Valid ∧ Iso m m' vI fI φ

/-- **C63 fails** for a disk of two triangles glued along two sides: the constructor also glues the two boundary edges and
returns a closed mesh. -/
theorem C63_fails : ¬ C63_statement := by
  intro h
  obtain ⟨polys, vI, fI, m', φ, e1, -, -, e4, -, hI⟩ := h lens lens_valid ⟨0, by decide +kernel⟩ (by decide +kernel)
  have x : (lens.getFaceVertexList >>= fromPolygons).map (fun m => (m.nHeFill, (List.range 6).all (fun i => ¬ m.ext i))) =
      .ok (6, true) := rfl
  rw [e1] at x
  simp only [bind, Except.bind, e4, Except.map, Except.ok.injEq, Prod.mk.injEq] at x
  have l1 : lens.heLive 1 := by decide +kernel
  have x1 : lens.ext 1 := by decide +kernel
  have h1 := (hI.ext 1 l1).2 x1
  have h2 := (hI.live 1 l1).1
  rw [x.1] at h2
  have := List.all_eq_true.1 x.2 (φ 1) (List.mem_range.2 h2)
  simp at this
  exact this h1

end Mesh
end GC
