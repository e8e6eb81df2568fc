import Verif.ToManifold
import Verif.Props.FaceList
import Verif.Props.TwinBuild
import Verif.Props.GNav

/-! # C80: converting a general mesh to a manifold mesh -/

namespace GC.GMesh
variable {m : GMesh}

theorem gRangeF (hv : m.Valid) : ∃ fs, m.rangeFaces = .ok fs ∧ IsRange fs m.fL ∧ fs.length = m.nF := by
  obtain ⟨l, a, b, c⟩ := rangeList_isRange (fun f => decide (m.fHalfedge f ≠ INV)) m.nFFill
  refine ⟨l, a, ⟨b.1, fun i => (b.2 i).trans (by simp [fL])⟩, ?_⟩
  rw [c, hv.cnt_f]
  exact count_congr (fun i _ => by simp)

theorem gRangeV (hv : m.Valid) : ∃ vs, m.rangeVertices = .ok vs ∧ IsRange vs m.vL ∧ vs.length = m.nV := by
  obtain ⟨l, a, b, c⟩ := rangeList_isRange (fun f => decide (m.vHalfedge f ≠ INV)) m.nVFill
  refine ⟨l, a, ⟨b.1, fun i => (b.2 i).trans (by simp [vL])⟩, ?_⟩
  rw [c, hv.cnt_v]
  exact count_congr (fun i _ => by simp)

theorem gRangeE (m : GMesh) : ∃ es, m.rangeEdges = .ok es ∧ IsRange es m.eL := by
  obtain ⟨l, a, b, c⟩ := rangeList_isRange (fun f => decide (m.eHalfedge f ≠ INV)) m.nEFill
  exact ⟨l, a, ⟨b.1, fun i => (b.2 i).trans (by simp [eL])⟩⟩

/-! ### The tests -/

theorem allM_ok {t : ℕ → Res Bool} {P : ℕ → Prop} {l : List ℕ} (h : ∀ x ∈ l, ∃ b, t x = .ok b ∧ (b = true ↔ P x)) :
    ∃ b, allM t l = .ok b ∧ (b = true ↔ ∀ x ∈ l, P x) := by
  induction l with
  | nil => exact ⟨true, rfl, by simp⟩
  | cons a l ih =>
    obtain ⟨b, h1, h2⟩ := h a List.mem_cons_self
    obtain ⟨b', h3, h4⟩ := ih (fun x hx => h x (List.mem_cons_of_mem _ hx))
    unfold allM
    rw [h1]
    simp only [bind, Except.bind]
    cases b with
    | true => exact ⟨b', by simpa using h3, by rw [h4]; simp [h2.1 rfl]⟩
    | false => exact ⟨false, rfl, by simp [← h2]⟩

/-- The halfedges leaving a vertex are linked by faces, as `Vertex::isManifold` tests it. -/
def FacesLinked (m : GMesh) (v : ℕ) : Prop :=
  ∀ h h', m.heL h → m.heL h' → m.heVertex h = v → m.heVertex h' = v → Relation.ReflTransGen (m.FaceAdj v) (m.heFace h) (m.heFace h')

/-- The corners at a vertex form one fan. -/
def CornersLinked (m : GMesh) (v : ℕ) : Prop :=
  ∀ h h', m.heL h → m.heL h' → m.heVertex h = v → m.heVertex h' = v → Conn m.CornerAdj h h'

theorem meshIsManifold_ok (hv : m.Valid) : ∃ b, m.meshIsManifold = .ok b ∧
    (b = true ↔ (∀ e, m.eL e → m.isManifold e = true) ∧ ∀ v, m.vL v → m.FacesLinked v) := by
  obtain ⟨es, e1, e2⟩ := gRangeE m
  obtain ⟨vs, v1, v2, -⟩ := gRangeV hv
  obtain ⟨b, b1, b2⟩ := allM_ok (t := fun e => .ok (m.isManifold e)) (P := fun e => m.isManifold e = true) (l := es)
    (fun x _ => ⟨_, rfl, Iff.rfl⟩)
  obtain ⟨c, c1, c2⟩ := allM_ok (t := m.vIsManifold) (l := vs)
    (fun v q => C77_isManifold hv ((v2.2 v).1 q))
  unfold meshIsManifold
  rw [e1]
  simp only [bind, Except.bind]
  rw [b1]
  simp only
  cases b with
  | false =>
    refine ⟨false, rfl, ?_⟩
    constructor
    · intro q; cases q
    · rintro ⟨q, -⟩
      exact b2.2 (fun e he => q e ((e2.2 e).1 he))
  | true =>
    simp only [Bool.not_true, Bool.false_eq_true, if_false]
    rw [v1]
    simp only
    refine ⟨c, c1, c2.trans ?_⟩
    have hE : ∀ e, m.eL e → m.isManifold e = true := fun e he => b2.1 rfl e ((e2.2 e).2 he)
    constructor
    · intro q
      exact ⟨hE, fun v hl => (q v ((v2.2 v).2 hl)).2⟩
    · rintro ⟨-, q⟩ v hl
      exact ⟨fun e he _ => hE e he, q v ((v2.2 v).1 hl)⟩

theorem meshIsOriented_ok (m : GMesh) : ∃ b, m.meshIsOriented = .ok b ∧
    (b = true ↔ ∀ e, m.eL e → m.isManifold e = true ∧ m.isOriented e = true) := by
  obtain ⟨es, e1, e2⟩ := gRangeE m
  obtain ⟨b, b1, b2⟩ := allM_ok (t := fun e => .ok (m.isManifold e && m.isOriented e))
    (P := fun e => m.isManifold e = true ∧ m.isOriented e = true) (l := es) (fun x _ => ⟨_, rfl, by simp⟩)
  unfold meshIsOriented
  rw [e1]
  simp only [bind, Except.bind]
  exact ⟨b, b1, b2.trans ⟨fun q e he => q e ((e2.2 e).2 he), fun q e he => q e ((e2.2 e).1 he)⟩⟩

/-! ### The polygons -/

/-- The lists behind `getFaceVertexList`: the polygons are the faces in index order, each from `f.halfedge()` along `next()`,
with dense vertex indices. -/
structure GLists (m : GMesh) (polys : List (List ℕ)) (idx : ℕ → ℕ) (fs : List ℕ) (L : ℕ → List ℕ) : Prop where
  index : IsIndex idx m.vL m.nV
  range : IsRange fs m.fL
  eq : polys = fs.map (fun f => (L f).map (fun i => idx (m.heVertex i)))
  nodup : ∀ f ∈ fs, (L f).Nodup
  mem : ∀ f ∈ fs, ∀ i, i ∈ L f ↔ m.heL i ∧ m.heFace i = f
  first : ∀ f ∈ fs, (L f)[0]? = some (m.fHalfedge f)
  cyc : ∀ f ∈ fs, ∀ j i, (L f)[j]? = some i → (L f)[(j + 1) % (L f).length]? = some (m.heNext i)

theorem gLists (hv : m.Valid) : ∃ polys idx fs L, m.getFaceVertexList = .ok polys ∧ m.getVertexIndices = .ok idx ∧
    m.rangeFaces = .ok fs ∧ (∀ f ∈ fs, m.faceHalfedges f = .ok (L f)) ∧ fs.length = m.nF ∧ GLists m polys idx fs L := by
  obtain ⟨vs, v1, v2, v3⟩ := gRangeV hv
  obtain ⟨fs, hf, hF, hn⟩ := gRangeF hv
  have hi : m.getVertexIndices = .ok (number vs) := by unfold getVertexIndices; rw [v1]; rfl
  have hI : IsIndex (number vs) m.vL m.nV := by rw [← v3]; exact number_isIndex v2
  have key : ∀ f, m.fL f → ∃ l, m.faceHalfedges f = .ok l ∧ l.Nodup ∧
      (∀ i, i ∈ l ↔ m.heL i ∧ m.heFace i = f) ∧
      l[0]? = some (m.fHalfedge f) ∧ (∀ j i, l[j]? = some i → l[(j+1) % l.length]? = some (m.heNext i)) := by
    intro f h1
    obtain ⟨l, a, b, c, k, -, rfl, e⟩ := hv.faceHalfedges_ok h1
    refine ⟨_, a, b, c, by simp, ?_⟩
    intro j i hj
    simp only [List.getElem?_map, Option.map_eq_some_iff, List.length_map, List.length_range] at hj ⊢
    obtain ⟨j', h2, rfl⟩ := hj
    obtain ⟨h3, h4⟩ := List.getElem?_eq_some_iff.1 h2
    rw [List.length_range] at h3
    rw [List.getElem_range] at h4
    subst h4
    refine ⟨(j + 1) % (k + 1), by rw [List.getElem?_range (Nat.mod_lt _ (by omega))], ?_⟩
    rw [← Function.iterate_succ_apply' m.heNext]
    rw [succ_mod h3]
    split_ifs with q
    · show _ = m.heNext^[j+1] _
      rw [q, e]; rfl
    · rfl
  choose! L k1 k2 k3 k4 k5 using key
  have mem : ∀ f ∈ fs, m.fL f := fun f h => (hF.2 f).1 h
  refine ⟨fs.map (fun f => (L f).map (fun i => number vs (m.heVertex i))), number vs, fs, L, ?_, hi, hf, fun f h => k1 f (mem f h), hn, hI, hF, rfl,
    fun f h => k2 f (mem f h), fun f h => k3 f (mem f h), fun f h => k4 f (mem f h), fun f h => k5 f (mem f h)⟩
  unfold getFaceVertexList
  rw [hi, hf]
  show fs.foldlM _ _ = _
  have : ∀ (l : List ℕ) (acc : List (List ℕ)), (∀ f ∈ l, m.fL f) →
      l.foldlM (fun result f => (do
        let hs ← m.faceHalfedges f
        .ok (result ++ [hs.map (fun h => number vs (m.heVertex h))]) : Res (List (List ℕ)))) acc =
      .ok (acc ++ l.map (fun f => (L f).map (fun i => number vs (m.heVertex i)))) := by
    intro l
    induction l with
    | nil => intro acc _; simp [pure, Except.pure]
    | cons a l ih =>
      intro acc h
      rw [List.foldlM_cons, k1 a (h a List.mem_cons_self)]
      show List.foldlM _ _ l = _
      rw [ih _ (fun f hf => h f (List.mem_cons_of_mem _ hf))]
      simp
  have h := this fs [] mem
  rw [List.nil_append] at h
  exact h

namespace GLists
variable {polys : List (List ℕ)} {idx : ℕ → ℕ} {fs : List ℕ} {L : ℕ → List ℕ}

theorem len (h : GLists m polys idx fs L) : polys.length = fs.length := by rw [h.eq, List.length_map]

theorem polyAt (h : GLists m polys idx fs L) {k : ℕ} (hk : k < fs.length) :
    GC.polyAt polys k = (L (fs.getD k 0)).map (fun i => idx (m.heVertex i)) := by
  rw [polyAt_eq (by rw [h.len]; exact hk)]
  simp only [h.eq, List.getElem_map]
  rw [Mesh.getD_get hk]

theorem fmem (_ : GLists m polys idx fs L) {k : ℕ} (hk : k < fs.length) : fs.getD k 0 ∈ fs := by
  rw [Mesh.getD_get hk]; exact List.getElem_mem hk

theorem corner_iff (h : GLists m polys idx fs L) {c : ℕ × ℕ} :
    IsCorner polys c ↔ c.1 < fs.length ∧ c.2 < (L (fs.getD c.1 0)).length := by
  unfold IsCorner
  rw [h.len]
  constructor
  · rintro ⟨a, b⟩; rw [h.polyAt a, List.length_map] at b; exact ⟨a, b⟩
  · rintro ⟨a, b⟩; rw [h.polyAt a, List.length_map]; exact ⟨a, b⟩

theorem he_get (h : GLists m polys idx fs L) {c : ℕ × ℕ} (hc : IsCorner polys c) :
    (L (fs.getD c.1 0))[c.2]? = some (Mesh.cornerHe fs L c) := by
  have := (h.corner_iff.1 hc).2
  unfold Mesh.cornerHe
  rw [Mesh.getD_get this, List.getElem?_eq_getElem this]

theorem he_mem (h : GLists m polys idx fs L) {c : ℕ × ℕ} (hc : IsCorner polys c) :
    m.heL (Mesh.cornerHe fs L c) ∧ m.heFace (Mesh.cornerHe fs L c) = fs.getD c.1 0 := by
  have := List.mem_of_getElem? (h.he_get hc)
  exact (h.mem _ (h.fmem (h.corner_iff.1 hc).1) _).1 this

theorem he_inj (h : GLists m polys idx fs L) {c c' : ℕ × ℕ} (hc : IsCorner polys c) (hc' : IsCorner polys c')
    (e : Mesh.cornerHe fs L c = Mesh.cornerHe fs L c') : c = c' := by
  have e1 : fs.getD c.1 0 = fs.getD c'.1 0 := by rw [← (h.he_mem hc).2, ← (h.he_mem hc').2, e]
  obtain ⟨a1, a2⟩ := h.corner_iff.1 hc
  obtain ⟨b1, b2⟩ := h.corner_iff.1 hc'
  have f1 : c.1 = c'.1 := by
    rw [Mesh.getD_get a1, Mesh.getD_get b1] at e1
    exact (nodup_of_range h.range).getElem_inj_iff.1 e1
  have f2 : c.2 = c'.2 := by
    have g1 := h.he_get hc
    have g2 := h.he_get hc'
    rw [← e, ← e1] at g2
    rw [← e1] at b2
    rw [List.getElem?_eq_getElem a2] at g1
    rw [List.getElem?_eq_getElem b2] at g2
    exact (h.nodup _ (h.fmem a1)).getElem_inj_iff.1 ((Option.some.inj g1).trans (Option.some.inj g2).symm)
  exact Prod.ext f1 f2

theorem he_surj (h : GLists m polys idx fs L) (hv : m.Valid) {i : ℕ} (hi : m.heL i) :
    ∃ c, IsCorner polys c ∧ Mesh.cornerHe fs L c = i := by
  have hm : m.heFace i ∈ fs := (h.range.2 _).2 (hv.face_live i hi)
  obtain ⟨k, hk, e⟩ := List.getElem_of_mem hm
  have hi' := (h.mem _ hm i).2 ⟨hi, rfl⟩
  obtain ⟨j, hj, e'⟩ := List.getElem_of_mem hi'
  have hg : fs.getD k 0 = m.heFace i := by rw [Mesh.getD_get hk, e]
  have hc : IsCorner polys (k, j) := h.corner_iff.2 ⟨hk, by simp only; rw [hg]; exact hj⟩
  refine ⟨(k, j), hc, ?_⟩
  have := h.he_get hc
  simp only at this
  rw [hg, List.getElem?_eq_getElem hj, e'] at this
  exact (Option.some.inj this).symm

theorem cornerV (h : GLists m polys idx fs L) {c : ℕ × ℕ} (hc : IsCorner polys c) :
    GC.cornerV polys c = idx (m.heVertex (Mesh.cornerHe fs L c)) := by
  obtain ⟨a1, a2⟩ := h.corner_iff.1 hc
  unfold GC.cornerV Mesh.cornerHe
  rw [h.polyAt a1, Mesh.getD_get (by rw [List.length_map]; exact a2), List.getElem_map, Mesh.getD_get a2]

theorem next_corner (h : GLists m polys idx fs L) {c : ℕ × ℕ} (hc : IsCorner polys c) :
    IsCorner polys (cornerNext polys c) ∧ Mesh.cornerHe fs L (cornerNext polys c) = m.heNext (Mesh.cornerHe fs L c) := by
  obtain ⟨a1, a2⟩ := h.corner_iff.1 hc
  have hl : (GC.polyAt polys c.1).length = (L (fs.getD c.1 0)).length := by rw [h.polyAt a1, List.length_map]
  have hc' : IsCorner polys (cornerNext polys c) := by
    rw [h.corner_iff]
    refine ⟨a1, ?_⟩
    unfold cornerNext
    simp only
    rw [hl]
    exact Nat.mod_lt _ (by omega)
  refine ⟨hc', ?_⟩
  have e1 := h.he_get hc'
  have e2 := h.cyc _ (h.fmem a1) _ _ (h.he_get hc)
  have e3 : (cornerNext polys c).2 = (c.2 + 1) % (L (fs.getD c.1 0)).length := by rw [← hl]; rfl
  have e4 : (cornerNext polys c).1 = c.1 := rfl
  rw [e3, e4, e2] at e1
  exact (Option.some.inj e1).symm

end GLists

theorem gFlatten_len {polys : List (List ℕ)} {idx : ℕ → ℕ} {fs : List ℕ} {L : ℕ → List ℕ}
    (h : GLists m polys idx fs L) : polys.flatten.length ≤ m.nHeFill := by
  have e : polys.flatten.length = (fs.flatMap L).length := by
    rw [h.eq, List.length_flatten, List.length_flatMap, List.map_map]
    congr 1
    apply List.map_congr_left
    intro f _
    simp
  rw [e]
  have nd : (fs.flatMap L).Nodup := by
    rw [List.nodup_flatMap]
    refine ⟨fun f hf => h.nodup f hf, ?_⟩
    have := (nodup_of_range h.range)
    refine List.Pairwise.imp_of_mem ?_ this
    intro a b ha hb hab i hia hib
    exact hab (((h.mem a ha i).1 hia).2.symm.trans ((h.mem b hb i).1 hib).2)
  have sub : (fs.flatMap L).toFinset ⊆ Finset.range m.nHeFill := by
    intro i hi
    rw [List.mem_toFinset, List.mem_flatMap] at hi
    obtain ⟨f, hf, hi⟩ := hi
    exact Finset.mem_range.2 ((h.mem f hf i).1 hi).1.1
  have := Finset.card_le_card sub
  rwa [List.toFinset_card_of_nodup nd, Finset.card_range] at this

theorem index_inj {idx : ℕ → ℕ} {ex : ℕ → Prop} {n : ℕ} (h : IsIndex idx ex n) {i j : ℕ} (hi : ex i) (hj : ex j) (e : idx i = idx j) : i = j := by
  rcases Nat.lt_trichotomy i j with q | q | q
  · have := h.2.2 i j hi hj q; omega
  · exact q
  · have := h.2.2 j i hj hi q; omega

/-! ### The twins -/

theorem placeInFace_ok {L : ℕ → List ℕ} : ∀ (rest : List ℕ) (p : ℕ → ℕ), rest.Nodup → (∀ f ∈ rest, m.faceHalfedges f = .ok (L f)) →
    (∀ f ∈ rest, (L f).Nodup) → (∀ f ∈ rest, ∀ g ∈ rest, ∀ i, i ∈ L f → i ∈ L g → f = g) →
    ∃ p', rest.foldlM (fun p f => (do
      let hs ← m.faceHalfedges f
      .ok (hs.foldl (fun (s : (ℕ → ℕ) × ℕ) he => (upd s.1 he s.2, s.2 + 1)) (p, 0)).1 : Res (ℕ → ℕ))) p = .ok p' ∧
      (∀ f ∈ rest, ∀ j (hj : j < (L f).length), p' (L f)[j] = j) ∧ ∀ x, (∀ f ∈ rest, x ∉ L f) → p' x = p x := by
  intro rest
  induction rest with
  | nil => intro p _ _ _ _; exact ⟨p, rfl, by simp, fun _ _ => rfl⟩
  | cons a rest ih =>
    intro p nd hL hN hD
    rw [List.nodup_cons] at nd
    rw [List.foldlM_cons, hL a List.mem_cons_self]
    simp only [bind, Except.bind]
    have na := number_aux (L a) p 0 (hN a List.mem_cons_self)
    obtain ⟨p', e, q1, q2⟩ := ih ((L a).foldl (fun (s : (ℕ → ℕ) × ℕ) he => (upd s.1 he s.2, s.2 + 1)) (p, 0)).1 nd.2
      (fun f hf => hL f (List.mem_cons_of_mem _ hf)) (fun f hf => hN f (List.mem_cons_of_mem _ hf))
      (fun f hf g hg => hD f (List.mem_cons_of_mem _ hf) g (List.mem_cons_of_mem _ hg))
    refine ⟨p', e, ?_, ?_⟩
    · intro f hf j hj
      rcases List.mem_cons.1 hf with rfl | hf
      · rw [q2 _ (fun g hg c => nd.1 ?_), na.1 j hj, Nat.zero_add]
        rw [hD f List.mem_cons_self g (List.mem_cons_of_mem _ hg) _ (List.getElem_mem hj) c]
        exact hg
      · exact q1 f hf j hj
    · intro x hx
      rw [q2 x (fun f hf => hx f (List.mem_cons_of_mem _ hf)), na.2 x (hx a List.mem_cons_self)]

theorem twinRows_ok {polys : List (List ℕ)} {fs : List ℕ} {L : ℕ → List ℕ} {fI p : ℕ → ℕ} (hL : ∀ f ∈ fs, m.faceHalfedges f = .ok (L f))
    (hI : ∀ k (hk : k < fs.length), fI fs[k] = k) (hp : polys.length = fs.length)
    (hl : ∀ k (hk : k < fs.length), (polys.getD k []).length = (L fs[k]).length) :
    ∀ (rest done : List ℕ), fs = done ++ rest →
    rest.foldlM (m.twinRow polys fI p) (done.map (fun f => (L f).map (m.twinEntry fI p)) ++ List.replicate rest.length []) =
      .ok (fs.map (fun f => (L f).map (m.twinEntry fI p))) := by
  intro rest
  induction rest with
  | nil => intro done e; rw [List.append_nil] at e; subst e; simp [pure, Except.pure]
  | cons a rest ih =>
    intro done e
    have hk : done.length < fs.length := by rw [e]; simp
    have ha : fs[done.length] = a := by simp [e]
    have i1 := hI _ hk
    have i2 := hl _ hk
    rw [ha] at i1 i2
    rw [List.foldlM_cons]
    have step : m.twinRow polys fI p (done.map (fun f => (L f).map (m.twinEntry fI p)) ++ List.replicate (a :: rest).length []) a =
        .ok ((done ++ [a]).map (fun f => (L f).map (m.twinEntry fI p)) ++ List.replicate rest.length []) := by
      unfold twinRow
      rw [hL a (by rw [e]; simp)]
      simp only [bind, Except.bind]
      rw [i1, i2, if_neg (by rw [hp]; simp; omega), if_neg (by omega)]
      simp only [Nat.sub_self, List.replicate_zero, List.append_nil]
      congr 1
      rw [List.set_append_right _ _ (by simp), List.length_cons, List.replicate_succ]
      simp
    rw [step]
    exact ih (done ++ [a]) (by rw [e]; simp)

/-- No face has fewer than three sides and no side joins a vertex to itself. -/
structure Sides3 (m : GMesh) : Prop where
  two : ∀ h, m.heL h → m.heNext (m.heNext h) ≠ h
  loop : ∀ h, m.heL h → m.heVertex h ≠ m.tip h

/-- What the constructor is called with: the twin of a corner is the corner of the sibling, `INVALID_IND` at the boundary. -/
structure TwinLists (m : GMesh) (polys : List (List ℕ)) (fI : ℕ → ℕ) (fs : List ℕ) (L : ℕ → List ℕ) (twins : List (List (ℕ × ℕ))) : Prop where
  len : twins.length = fs.length
  row : ∀ k < fs.length, (twins.getD k []).length = (L (fs.getD k 0)).length
  number : ∀ k < fs.length, fI (fs.getD k 0) = k
  bdy : ∀ c, IsCorner polys c → m.isBoundary (m.heEdge (Mesh.cornerHe fs L c)) = true → Mesh.twinAt twins c = (INV, INV)
  int : ∀ c c', IsCorner polys c → IsCorner polys c' → m.isBoundary (m.heEdge (Mesh.cornerHe fs L c)) = false →
    Mesh.cornerHe fs L c' = m.heSibling (Mesh.cornerHe fs L c) → Mesh.twinAt twins c = c'

theorem convert_lists (hv : m.Valid) : ∃ polys vI fs L fI twins, GLists m polys vI fs L ∧ fs.length = m.nF ∧ IsIndex fI m.fL m.nF ∧
    m.getVertexIndices = .ok vI ∧ m.getFaceIndices = .ok fI ∧ TwinLists m polys fI fs L twins ∧
    m.toManifoldMesh = (do
      let b ← m.meshIsManifold
      if !b then .error .throw
      else do
        let b ← m.meshIsOriented
        if !b then .error .throw else Mesh.fromTwins polys twins) := by
  obtain ⟨polys, vI, fs, L, e1, e2, e3, e4, e5, G⟩ := gLists hv
  have nd := nodup_of_range G.range
  have eI : m.getFaceIndices = .ok (number fs) := by unfold getFaceIndices; rw [e3]; rfl
  obtain ⟨p, p1, p2, -⟩ := placeInFace_ok (m := m) (L := L) fs (fun _ => 0) nd e4 G.nodup
    (fun f hf g hg i h1 h2 => ((G.mem f hf i).1 h1).2.symm.trans ((G.mem g hg i).1 h2).2)
  have pe : m.placeInFace fs = .ok p := p1
  have nI : ∀ k (hk : k < fs.length), number fs fs[k] = k := fun k hk => number_get nd k hk
  have tr := twinRows_ok (m := m) (polys := polys) (p := p) e4 nI G.len (fun k hk => by
    have := G.polyAt hk
    unfold GC.polyAt at this
    rw [this, List.length_map, Mesh.getD_get hk]) fs [] rfl
  rw [List.map_nil, List.nil_append, e5] at tr
  have at' : ∀ c, IsCorner polys c → Mesh.twinAt (fs.map (fun f => (L f).map (m.twinEntry (number fs) p))) c =
      m.twinEntry (number fs) p (Mesh.cornerHe fs L c) := by
    intro c hc
    obtain ⟨a1, a2⟩ := G.corner_iff.1 hc
    unfold Mesh.twinAt Mesh.cornerHe
    rw [Mesh.getD_get (l := fs) a1] at a2 ⊢
    rw [List.getD_eq_getElem?_getD (l := fs.map _), List.getElem?_map, List.getElem?_eq_getElem a1]
    simp only [Option.map_some, Option.getD_some]
    rw [List.getD_eq_getElem?_getD, List.getElem?_map, Mesh.getD_get a2, List.getElem?_eq_getElem a2]
    rfl
  refine ⟨polys, vI, fs, L, number fs, fs.map (fun f => (L f).map (m.twinEntry (number fs) p)), G, e5, by rw [← e5]; exact number_isIndex G.range, e2, eI,
    ⟨by rw [List.length_map], ?_, ?_, ?_, ?_⟩, ?_⟩
  · intro k hk
    rw [List.getD_eq_getElem?_getD, List.getElem?_map, List.getElem?_eq_getElem hk, Mesh.getD_get hk]
    simp
  · intro k hk
    rw [Mesh.getD_get hk]
    exact nI k hk
  · intro c hc hb
    rw [at' c hc]
    unfold twinEntry
    rw [if_pos hb]
  · intro c c' hc hc' hb e
    rw [at' c hc]
    unfold twinEntry
    rw [hb, if_neg (by decide), ← e, (G.he_mem hc').2]
    obtain ⟨a1, a2⟩ := G.corner_iff.1 hc'
    refine Prod.ext ?_ ?_
    · simp only
      rw [Mesh.getD_get a1]
      exact nI _ a1
    · simp only
      have := p2 _ (G.fmem a1) c'.2 a2
      unfold Mesh.cornerHe
      rw [Mesh.getD_get a2]
      exact this
  · unfold toManifoldMesh
    obtain ⟨b, hb, -⟩ := meshIsManifold_ok hv
    obtain ⟨b', hb', -⟩ := meshIsOriented_ok m
    rw [hb]
    simp only [bind, Except.bind]
    cases b with
    | false => rfl
    | true =>
      simp only [Bool.not_true, Bool.false_eq_true, if_false]
      rw [hb']
      simp only
      cases b' with
      | false => rfl
      | true =>
        simp only [Bool.not_true, Bool.false_eq_true, if_false]
        rw [e1, eI, e3]
        simp only
        rw [pe]
        simp only
        rw [tr]

/-- Every edge has at most two halfedges, which run in opposite directions. -/
def EdgesGood (m : GMesh) : Prop := ∀ e, m.eL e → m.isManifold e = true ∧ m.isOriented e = true

theorem EdgesGood.sib (hE : m.EdgesGood) (hv : m.Valid) {h : ℕ} (hl : m.heL h) :
    m.heSibling (m.heSibling h) = h ∧ (m.isBoundary (m.heEdge h) = true ↔ m.heSibling h = h) ∧
    (m.heSibling h ≠ h → m.heOrient h ≠ m.heOrient (m.heSibling h) ∧ m.heVertex h = m.tip (m.heSibling h) ∧ m.tip h = m.heVertex (m.heSibling h)) := by
  have el := hv.edge_live h hl
  obtain ⟨em, eo⟩ := hE _ el
  obtain ⟨lg, eg⟩ := hv.e_he _ el
  obtain ⟨s, g⟩ := hv.two_of_manifold em hl lg eg.symm
  have sl := hv.sib_live h hl
  refine ⟨s, ?_, ?_⟩
  · unfold isBoundary
    rw [beq_iff_eq]
    rcases g with g | g
    · rw [g]
    · rw [g, s]; exact eq_comm
  · intro n
    have o : m.heOrient h ≠ m.heOrient (m.heSibling h) := by
      unfold isOriented at eo
      simp only at eo
      rcases g with g | g
      · rw [g, if_neg (Ne.symm n), if_neg (by rw [s]; simp)] at eo
        simpa using eo
      · rw [g, s, if_neg n, if_neg (by simp)] at eo
        exact Ne.symm (by simpa using eo)
    have al := hv.orient h _ hl sl ((hv.edge_iff _ _ hl sl).2 ⟨1, rfl⟩)
    unfold aligned at al
    rw [if_neg o] at al
    exact ⟨o, al⟩

section
variable {polys : List (List ℕ)} {vI fI : ℕ → ℕ} {fs : List ℕ} {L : ℕ → List ℕ} {twins : List (List (ℕ × ℕ))}

theorem GLists.small (G : GLists m polys vI fs L) (hv : m.Valid) : ∀ v ∈ polys.flatten, v + 1 < INV := by
  intro v h
  obtain ⟨c, hc, e⟩ := mem_flatten_iff.1 h
  rw [G.cornerV hc] at e
  have h1 := G.index.1 _ (hv.vertex_live _ (G.he_mem hc).1)
  have h2 := hv.v_cap
  have h3 : m.nV ≤ m.nVFill := by rw [hv.cnt_v]; exact Nat.count_le _
  omega

theorem GLists.deg (G : GLists m polys vI fs L) (hv : m.Valid) (h3 : m.Sides3) : ∀ p ∈ polys, 3 ≤ p.length := by
  intro p hp
  rw [G.eq, List.mem_map] at hp
  obtain ⟨f, hf, rfl⟩ := hp
  rw [List.length_map]
  have h0 := G.first f hf
  have lh := ((G.mem f hf _).1 (List.mem_of_getElem? h0)).1
  have h1 := G.cyc f hf _ _ h0
  have h2 := G.cyc f hf _ _ h1
  obtain ⟨q, -⟩ := List.getElem?_eq_some_iff.1 h0
  by_contra c
  have : (L f).length = 1 ∨ (L f).length = 2 := by omega
  rcases this with c | c
  · rw [c] at h1
    simp only [Nat.mod_one] at h1
    rw [h0] at h1
    have := Option.some.inj h1
    apply h3.loop _ lh
    unfold tip
    rw [← this]
  · rw [c] at h2
    simp only [Nat.zero_add, Nat.reduceMod, Nat.reduceAdd] at h2
    rw [h0] at h2
    exact h3.two _ lh (Option.some.inj h2).symm

theorem TwinLists.self (T : TwinLists m polys fI fs L twins) (G : GLists m polys vI fs L) (hv : m.Valid) (hE : m.EdgesGood) {c : ℕ × ℕ} (hc : IsCorner polys c)
    (h : m.heSibling (Mesh.cornerHe fs L c) = Mesh.cornerHe fs L c) : Mesh.twinAt twins c = (INV, INV) :=
  T.bdy c hc ((hE.sib hv (G.he_mem hc).1).2.1.2 h)

theorem TwinLists.other (T : TwinLists m polys fI fs L twins) (G : GLists m polys vI fs L) (hv : m.Valid) (hE : m.EdgesGood) {c : ℕ × ℕ} (hc : IsCorner polys c)
    (h : m.heSibling (Mesh.cornerHe fs L c) ≠ Mesh.cornerHe fs L c) : IsCorner polys (Mesh.twinAt twins c) ∧
      Mesh.cornerHe fs L (Mesh.twinAt twins c) = m.heSibling (Mesh.cornerHe fs L c) := by
  have lh := (G.he_mem hc).1
  obtain ⟨c', hc', e⟩ := G.he_surj hv (hv.sib_live _ lh)
  have := T.int c c' hc hc' (by rw [Bool.eq_false_iff]; exact fun q => h ((hE.sib hv lh).2.1.1 q)) e
  rw [this]
  exact ⟨hc', e⟩

theorem TwinLists.none_iff (T : TwinLists m polys fI fs L twins) (G : GLists m polys vI fs L) (hv : m.Valid) (hE : m.EdgesGood) (hF : polys.length < INV)
    {c : ℕ × ℕ} (hc : IsCorner polys c) : Mesh.twinAt twins c = (INV, INV) ↔ m.heSibling (Mesh.cornerHe fs L c) = Mesh.cornerHe fs L c := by
  refine ⟨fun h => ?_, T.self G hv hE hc⟩
  by_contra q
  have := (T.other G hv hE hc q).1
  rw [h] at this
  exact Mesh.no_corner hF this

theorem TwinLists.glued (T : TwinLists m polys fI fs L twins) (G : GLists m polys vI fs L) (hv : m.Valid) (hE : m.EdgesGood) (h3 : m.Sides3) : Mesh.Glued polys twins := by
  refine ⟨by rw [T.len, G.len], ?_, G.deg hv h3, ?_, ?_⟩
  · intro f hf
    rw [G.len] at hf
    rw [G.polyAt hf, List.length_map, T.row f hf]
  · intro c hc
    obtain ⟨n1, n2⟩ := G.next_corner hc
    have lh := (G.he_mem hc).1
    rw [G.cornerV hc, G.cornerV n1, n2]
    exact fun e => h3.loop _ lh (index_inj G.index (hv.vertex_live _ lh) (hv.vertex_live _ (hv.next_live _ lh)) e)
  · intro c hc
    have lh := (G.he_mem hc).1
    by_cases s : m.heSibling (Mesh.cornerHe fs L c) = Mesh.cornerHe fs L c
    · exact .inl (T.self G hv hE hc s)
    · right
      obtain ⟨a, b⟩ := T.other G hv hE hc s
      obtain ⟨ss, -, al⟩ := hE.sib hv lh
      obtain ⟨-, -, al⟩ := al s
      have s' : m.heSibling (Mesh.cornerHe fs L (Mesh.twinAt twins c)) ≠ Mesh.cornerHe fs L (Mesh.twinAt twins c) := by
        rw [b, ss]; exact Ne.symm s
      obtain ⟨a', b'⟩ := T.other G hv hE a s'
      refine ⟨a, G.he_inj a' hc (by rw [b', b, ss]), fun e => s (by rw [← b, e]), ?_⟩
      obtain ⟨n1, n2⟩ := G.next_corner hc
      rw [G.cornerV a, G.cornerV n1, n2, b, ← al]
      rfl

theorem TwinLists.dense (G : GLists m polys vI fs L) (hv : m.Valid) : Mesh.Dense polys ↔ ∃ f, m.fL f := by
  have key : ∀ v w, v ≤ w → w ∈ polys.flatten → v ∈ polys.flatten := by
    intro v w h hw
    obtain ⟨c, hc, e⟩ := mem_flatten_iff.1 hw
    rw [G.cornerV hc] at e
    have h1 := G.index.1 _ (hv.vertex_live _ (G.he_mem hc).1)
    obtain ⟨i, hi, e'⟩ := G.index.2.1 v (by omega)
    obtain ⟨lx, vx⟩ := hv.v_he i hi
    obtain ⟨d, hd, e2⟩ := G.he_surj hv lx
    exact mem_flatten_iff.2 ⟨d, hd, by rw [G.cornerV hd, e2, vx, e']⟩
  constructor
  · rintro ⟨h, -⟩
    rw [G.eq] at h
    obtain ⟨f, hf⟩ := List.exists_mem_of_ne_nil fs (fun q => h (by rw [q]; rfl))
    exact ⟨f, (G.range.2 f).1 hf⟩
  · rintro ⟨f, hf⟩
    refine ⟨fun h => ?_, key⟩
    have := (G.range.2 f).2 hf
    have l0 := G.len
    rw [h] at l0
    rw [List.eq_nil_of_length_eq_zero l0.symm] at this
    cases this

theorem TwinLists.fans (T : TwinLists m polys fI fs L twins) (G : GLists m polys vI fs L) (hv : m.Valid) (hE : m.EdgesGood) (hF : polys.length < INV) :
    Mesh.Fans polys twins ↔ ∀ v, m.vL v → m.CornersLinked v := by
  constructor
  · intro H v hvl h h' l l' e e'
    obtain ⟨c, hc, rfl⟩ := G.he_surj hv l
    obtain ⟨c', hc', rfl⟩ := G.he_surj hv l'
    have := H c c' hc hc' (by rw [G.cornerV hc, G.cornerV hc', e, e'])
    clear * - this T G hv hE hF
    induction this with
    | refl => exact .refl _
    | symm _ _ _ ih => exact .symm _ _ ih
    | trans _ _ _ _ _ ih ih' => exact .trans _ _ _ ih ih'
    | rel a b q =>
      obtain ⟨ha, ht, rfl⟩ := q
      have s : m.heSibling (Mesh.cornerHe fs L a) ≠ Mesh.cornerHe fs L a := fun s => by
        rw [T.self G hv hE ha s] at ht
        exact Mesh.no_corner hF ht
      obtain ⟨-, b'⟩ := T.other G hv hE ha s
      obtain ⟨-, n2⟩ := G.next_corner ht
      have lh := (G.he_mem ha).1
      refine .rel _ _ ⟨_, lh, s, ?_⟩
      rw [if_neg ((hE.sib hv lh).2.2 s).1, n2, b']
      exact .inr ⟨rfl, rfl⟩
  · intro H a b ha hb e
    rw [G.cornerV ha, G.cornerV hb] at e
    have la := (G.he_mem ha).1
    have lb := (G.he_mem hb).1
    have e := index_inj G.index (hv.vertex_live _ la) (hv.vertex_live _ lb) e
    have key : ∀ x y, Conn m.CornerAdj x y → ∀ a b, IsCorner polys a → IsCorner polys b → Mesh.cornerHe fs L a = x →
        Mesh.cornerHe fs L b = y → Relation.EqvGen (Mesh.TwinAdj polys twins) a b := by
      intro x y c
      induction c with
      | refl =>
        intro a b ha hb e1 e2
        rw [G.he_inj ha hb (e1.trans e2.symm)]
        exact .refl _
      | symm x y _ ih =>
        intro a b ha hb e1 e2
        exact .symm _ _ (ih b a hb ha e2 e1)
      | trans x y z c c' ih ih' =>
        intro a b ha hb e1 e2
        have ly := (conn_ends hv c).1.1 (by rw [← e1]; exact (G.he_mem ha).1)
        obtain ⟨d, hd, e3⟩ := G.he_surj hv ly
        exact .trans _ _ _ (ih a d ha hd e1 e3) (ih' d b hd hb e3 e2)
      | rel x y c =>
        intro a b ha hb e1 e2
        obtain ⟨h, lh, s, c⟩ := c
        obtain ⟨ss, -, al⟩ := hE.sib hv lh
        obtain ⟨o, -⟩ := al s
        rw [if_neg o] at c
        rcases c with ⟨q1, q2⟩ | ⟨q1, q2⟩
        · have sb : m.heSibling (Mesh.cornerHe fs L b) ≠ Mesh.cornerHe fs L b := by rw [e2, q2, ss]; exact Ne.symm s
          obtain ⟨t1, t2⟩ := T.other G hv hE hb sb
          refine .symm _ _ (.rel _ _ ⟨hb, t1, ?_⟩)
          obtain ⟨n1, n2⟩ := G.next_corner t1
          exact G.he_inj ha n1 (by rw [n2, t2, e1, e2, q2, ss, q1])
        · have sb : m.heSibling (Mesh.cornerHe fs L a) ≠ Mesh.cornerHe fs L a := by rw [e1, q1]; exact s
          obtain ⟨t1, t2⟩ := T.other G hv hE ha sb
          refine .rel _ _ ⟨ha, t1, ?_⟩
          obtain ⟨n1, n2⟩ := G.next_corner t1
          exact G.he_inj hb n1 (by rw [n2, t2, e1, e2, q2, q1])
    exact key _ _ (H _ (hv.vertex_live _ la) _ _ la lb rfl e.symm) a b ha hb rfl rfl

/-- Two different boundary halfedges end at the same vertex. -/
def TwoGaps (m : GMesh) : Prop := ∃ h h', m.heL h ∧ m.heL h' ∧ h ≠ h' ∧ m.heSibling h = h ∧ m.heSibling h' = h' ∧ m.tip h = m.tip h'

theorem TwinLists.oneGap (T : TwinLists m polys fI fs L twins) (G : GLists m polys vI fs L) (hv : m.Valid) (hE : m.EdgesGood) (hF : polys.length < INV) :
    Mesh.OneGap polys twins ↔ ¬ m.TwoGaps := by
  constructor
  · rintro H ⟨h, h', l, l', n, s, s', e⟩
    obtain ⟨c, hc, rfl⟩ := G.he_surj hv l
    obtain ⟨c', hc', rfl⟩ := G.he_surj hv l'
    obtain ⟨n1, n2⟩ := G.next_corner hc
    obtain ⟨n1', n2'⟩ := G.next_corner hc'
    apply n
    rw [H c c' hc hc' (T.self G hv hE hc s) (T.self G hv hE hc' s') (by
      rw [G.cornerV n1, G.cornerV n1', n2, n2']
      unfold tip at e
      rw [e])]
  · intro H c c' hc hc' t t' e
    by_contra n
    obtain ⟨n1, n2⟩ := G.next_corner hc
    obtain ⟨n1', n2'⟩ := G.next_corner hc'
    rw [G.cornerV n1, G.cornerV n1', n2, n2'] at e
    have l := (G.he_mem hc).1
    have l' := (G.he_mem hc').1
    exact H ⟨_, _, l, l', fun q => n (G.he_inj hc hc' q), (T.none_iff G hv hE hF hc).1 t, (T.none_iff G hv hE hF hc').1 t',
      index_inj G.index (hv.vertex_live _ (hv.next_live _ l)) (hv.vertex_live _ (hv.next_live _ l')) e⟩

/-- `m'` is the manifold mesh with the connectivity of `m`: `φ` maps the halfedges of `m` onto the interior halfedges of `m'`,
vertices and faces get dense indices in index order, siblings become twins, and boundary halfedges get an exterior twin. -/
structure Converted (m : GMesh) (m' : Mesh) (φ vI fI : ℕ → ℕ) : Prop where
  vidx : IsIndex vI m.vL m.nV
  fidx : IsIndex fI m.fL m.nF
  nF : m'.nF = m.nF ∧ m'.nFFill = m.nF
  nV : m'.nVFill = max m.nV 1
  int : ∀ h, m.heL h → m'.heLive (φ h) ∧ ¬ m'.ext (φ h)
  inj : ∀ h h', m.heL h → m.heL h' → φ h = φ h' → h = h'
  surj : ∀ g, m'.heLive g → ¬ m'.ext g → ∃ h, m.heL h ∧ φ h = g
  vertex : ∀ h, m.heL h → m'.heVertex (φ h) = vI (m.heVertex h)
  face : ∀ h, m.heL h → m'.heFace (φ h) = fI (m.heFace h)
  next : ∀ h, m.heL h → m'.heNext (φ h) = φ (m.heNext h)
  first : ∀ f, m.fL f → m'.fHalfedge (fI f) = φ (m.fHalfedge f)
  twin : ∀ h, m.heL h → m.heSibling h ≠ h → GC.twin (φ h) = φ (m.heSibling h)
  gap : ∀ h, m.heL h → m.heSibling h = h →
    m'.heLive (GC.twin (φ h)) ∧ m'.ext (GC.twin (φ h)) ∧ m'.heVertex (GC.twin (φ h)) = vI (m.tip h)

theorem TwinLists.converted (T : TwinLists m polys fI fs L twins) (G : GLists m polys vI fs L) (hv : m.Valid) (hE : m.EdgesGood) (hF : polys.length < INV)
    (hn : fs.length = m.nF) (hI : IsIndex fI m.fL m.nF) {m' : Mesh} {H : ℕ × ℕ → ℕ} (R : Mesh.Realises polys twins m' H) : ∃ φ, Converted m m' φ vI fI := by
  have key : ∀ h, m.heL h → ∃ c, IsCorner polys c ∧ Mesh.cornerHe fs L c = h := fun h l => G.he_surj hv l
  choose! κ k1 k2 using key
  have kc : ∀ c, IsCorner polys c → κ (Mesh.cornerHe fs L c) = c := fun c hc => by
    have l := (G.he_mem hc).1
    exact G.he_inj (k1 _ l) hc (k2 _ l)
  refine ⟨fun h => H (κ h), G.index, hI, ⟨by rw [R.nF.1, G.len, hn], by rw [R.nF.2, G.len, hn]⟩, ?_, fun h l => R.int _ (k1 h l), ?_, ?_, ?_, ?_, ?_, ?_, ?_, ?_⟩
  · have q : ∀ v, v < m'.nVFill ↔ v < max m.nV 1 := by
      intro v
      rw [R.nV v, lt_max_iff]
      constructor
      · rintro (h | ⟨w, hw, h⟩)
        · right; omega
        · left
          obtain ⟨c, hc, e⟩ := mem_flatten_iff.1 hw
          rw [G.cornerV hc] at e
          have h1 := G.index.1 _ (hv.vertex_live _ (G.he_mem hc).1)
          omega
      · rintro (h | h)
        · right
          obtain ⟨i, hi, e'⟩ := G.index.2.1 v h
          obtain ⟨lx, vx⟩ := hv.v_he i hi
          exact ⟨v, mem_flatten_iff.2 ⟨κ _, k1 _ lx, by rw [G.cornerV (k1 _ lx), k2 _ lx, vx, e']⟩, le_refl _⟩
        · left; omega
    apply Nat.le_antisymm
    · by_contra c
      have := (q (max m.nV 1)).1 (by omega)
      omega
    · by_contra c
      have := (q m'.nVFill).2 (by omega)
      omega
  · intro h h' l l' e
    rw [← k2 h l, ← k2 h' l', R.inj _ _ (k1 h l) (k1 h' l') e]
  · intro g lg ig
    obtain ⟨c, hc, e⟩ := R.surj g lg ig
    exact ⟨_, (G.he_mem hc).1, by rw [kc c hc, e]⟩
  · intro h l
    rw [R.vertex _ (k1 h l), G.cornerV (k1 h l), k2 h l]
  · intro h l
    rw [R.face _ (k1 h l)]
    have := T.number (κ h).1 (G.corner_iff.1 (k1 h l)).1
    rw [← (G.he_mem (k1 h l)).2, k2 h l] at this
    exact this.symm
  · intro h l
    rw [R.next _ (k1 h l)]
    obtain ⟨n1, n2⟩ := G.next_corner (k1 h l)
    rw [k2 h l] at n2
    rw [← n2, kc _ n1]
  · intro f hf
    have hm := (G.range.2 f).2 hf
    obtain ⟨k, hk, e⟩ := List.getElem_of_mem hm
    have e' : fs.getD k 0 = f := by rw [Mesh.getD_get hk]; exact e
    have fk := T.number k hk
    rw [e'] at fk
    rw [fk, R.first k (by rw [G.len]; exact hk)]
    have h0 := G.first f hm
    have hc : IsCorner polys (k, 0) := G.corner_iff.2 ⟨hk, by
      obtain ⟨q, -⟩ := List.getElem?_eq_some_iff.1 h0
      simp only; rw [e']; exact q⟩
    have := G.he_get hc
    simp only at this
    rw [e', h0] at this
    rw [Option.some.inj this, kc _ hc]
  · intro h l s
    have s' : m.heSibling (Mesh.cornerHe fs L (κ h)) ≠ Mesh.cornerHe fs L (κ h) := by rw [k2 h l]; exact s
    obtain ⟨a, b⟩ := T.other G hv hE (k1 h l) s'
    rw [R.twin _ (k1 h l) (fun q => s' ((T.none_iff G hv hE hF (k1 h l)).1 q))]
    rw [k2 h l] at b
    rw [← b, kc _ a]
  · intro h l s
    have s' : m.heSibling (Mesh.cornerHe fs L (κ h)) = Mesh.cornerHe fs L (κ h) := by rw [k2 h l]; exact s
    obtain ⟨x, y, z⟩ := R.gap _ (k1 h l) (T.self G hv hE (k1 h l) s')
    refine ⟨x, y, ?_⟩
    obtain ⟨n1, n2⟩ := G.next_corner (k1 h l)
    rw [z, G.cornerV n1, n2, k2 h l]
    rfl

end

/-- **C80: converting a general mesh to a manifold mesh**, for valid meshes without loop edges and faces of two sides.  The
conversion throws unless every edge is manifold and oriented and the faces at each vertex are linked by edges there.  It also throws
if two boundary halfedges end at one vertex.  Otherwise the result has the connectivity of `m`; it is a valid manifold mesh (its edge
capacity apart) exactly if `m` has a face and the corners at each vertex form one fan. -/
theorem C80 (hv : m.Valid) (h3 : m.Sides3) (hcap : 4 * (m.nHeFill + 1) < INV) :
    (¬ (m.EdgesGood ∧ ∀ v, m.vL v → m.FacesLinked v) → m.toManifoldMesh = .error .throw) ∧
    (m.EdgesGood → (∀ v, m.vL v → m.FacesLinked v) → m.TwoGaps → m.toManifoldMesh = .error .throw) ∧
    (m.EdgesGood → (∀ v, m.vL v → m.FacesLinked v) → ¬ m.TwoGaps → ∃ m' φ vI fI, m.toManifoldMesh = .ok m' ∧ Converted m m' φ vI fI ∧
      m'.nHeCap = 2 * m'.nE ∧ m'.nE ≤ m'.nECap ∧
      ({ m' with nECap := m'.nE }.Valid ↔ (∃ f, m.fL f) ∧ ∀ v, m.vL v → m.CornersLinked v)) ∧
    (m.EdgesGood → (∀ v, m.vL v → m.CornersLinked v) → (∀ v, m.vL v → m.FacesLinked v) ∧ ¬ m.TwoGaps) := by
  obtain ⟨polys, vI, fs, L, fI, twins, G, hn, hI, -, -, T, e⟩ := convert_lists hv
  obtain ⟨b, b1, b2⟩ := meshIsManifold_ok hv
  obtain ⟨b', b1', b2'⟩ := meshIsOriented_ok m
  rw [b1] at e
  simp only [bind, Except.bind] at e
  have fl := gFlatten_len G
  have hF : polys.length < INV := by
    have := hv.f_cap
    have h3 : m.nF ≤ m.nFFill := by rw [hv.cnt_f]; exact Nat.count_le _
    rw [G.len, hn]; omega
  have good : m.EdgesGood → (∀ v, m.vL v → m.FacesLinked v) → m.toManifoldMesh = Mesh.fromTwins polys twins := by
    intro hE hL
    rw [e, b2.2 ⟨fun x hx => (hE x hx).1, hL⟩]
    simp only [Bool.not_true, Bool.false_eq_true, if_false]
    rw [b1', b2'.2 hE]
    rfl
  refine ⟨?_, ?_, ?_, ?_⟩
  · intro h
    rw [e]
    cases b with
    | false => rfl
    | true =>
      simp only [Bool.not_true, Bool.false_eq_true, if_false]
      rw [b1']
      cases b' with
      | false => rfl
      | true => exact absurd ⟨b2'.1 rfl, (b2.1 rfl).2⟩ h
  · intro hE hL hg
    rw [good hE hL]
    apply (Mesh.C79 polys twins (T.glued G hv hE h3) (G.small hv) (by omega)).1
    rw [T.oneGap G hv hE hF]
    exact not_not.2 hg
  · intro hE hL hg
    rw [good hE hL]
    obtain ⟨m', H, r, R, c1, c2, -, c4⟩ := (Mesh.C79 polys twins (T.glued G hv hE h3) (G.small hv) (by omega)).2.1 ((T.oneGap G hv hE hF).2 hg)
    obtain ⟨φ, C⟩ := T.converted G hv hE hF hn hI R
    refine ⟨m', φ, vI, fI, r, C, c1, c2, c4.trans ?_⟩
    rw [TwinLists.dense G hv, T.fans G hv hE hF]
  · intro hE hC
    refine ⟨fun v hvl h h' l l' z z' => conn_faceAdj hv h h' (hC v hvl h h' l l' z z') l z, ?_⟩
    rw [← T.oneGap G hv hE hF]
    exact (Mesh.C79 polys twins (T.glued G hv hE h3) (G.small hv) (by omega)).2.2 ((T.fans G hv hE hF).2 hC)

/-- **C80: the tests** `isManifold` and `isOriented` of a mesh. -/
theorem C80_tests (hv : m.Valid) :
    (∃ b, m.meshIsManifold = .ok b ∧ (b = true ↔ (∀ e, m.eL e → m.isManifold e = true) ∧ ∀ v, m.vL v → m.FacesLinked v)) ∧
    ∃ b, m.meshIsOriented = .ok b ∧ (b = true ↔ m.EdgesGood) :=
  ⟨meshIsManifold_ok hv, meshIsOriented_ok m⟩

/-! ### Examples and witnesses -/

/-- A decidable form of the hypotheses on a concrete mesh. -/
def convTest (r : Res GMesh) : Option (Bool × Bool × Bool × Bool) :=
  match r with
  | .error _ => none
  | .ok m => match m.meshIsManifold, m.meshIsOriented with
    | .ok a, .ok b => some (a, b,
      (List.range m.nHeFill).all (fun h => m.heNext (m.heNext h) != h && m.heVertex h != m.tip h),
      decide (4 * (m.nHeFill + 1) < INV))
    | _, _ => none

theorem convTest_ok {r : Res GMesh} (hv : m.Valid) (e : r = .ok m) (t : convTest r = some (true, true, true, true)) :
    m.meshIsManifold = .ok true ∧ m.meshIsOriented = .ok true ∧ m.EdgesGood ∧ (∀ v, m.vL v → m.FacesLinked v) ∧ m.Sides3 ∧ 4 * (m.nHeFill + 1) < INV := by
  subst e
  obtain ⟨⟨b, b1, b2⟩, b', b1', b2'⟩ := C80_tests hv
  simp only [convTest] at t
  rw [b1, b1'] at t
  simp only [Option.some.injEq, Prod.mk.injEq, decide_eq_true_eq, List.all_eq_true, List.mem_range, Bool.and_eq_true, bne_iff_ne, ne_eq] at t
  obtain ⟨rfl, rfl, t3, t4⟩ := t
  exact ⟨b1, b1', b2'.1 rfl, (b2.1 rfl).2, ⟨fun h l => (t3 h l.1).1, fun h l => (t3 h l.1).2⟩, t4⟩

theorem tet_conv : convTest (fromPolygons tet tetOrder) = some (true, true, true, true) := rfl
theorem pinch_conv : convTest (fromPolygons pinch pinchOrder) = some (true, true, true, true) := rfl

/-- A sphere with two points glued together: both fans at vertex 0 are closed. -/
def pinchedSphere : List (List ℕ) := [[0, 1, 2, 0, 3, 4], [1, 0, 4], [3, 0, 2], [2, 1, 4, 3]]
def pinchedSphereOrder : List (ℕ × ℕ) := [(0, 1), (1, 2), (0, 2), (0, 3), (3, 4), (0, 4), (1, 4), (2, 3)]

theorem pinchedSphere_built : ∃ m, fromPolygons pinchedSphere pinchedSphereOrder = .ok m ∧ Built pinchedSphere m :=
  C24 pinchedSphere pinchedSphereOrder (by decide) (by decide) (by decide) (by decide) (by decide) (by decide)

theorem pinchedSphere_conv : convTest (fromPolygons pinchedSphere pinchedSphereOrder) = some (true, true, true, true) := rfl

/-- The tetrahedron, whose vertices meet every hypothesis, becomes a valid manifold mesh. -/
example : ∃ m m' φ vI fI, fromPolygons tet tetOrder = .ok m ∧ m.toManifoldMesh = .ok m' ∧ Converted m m' φ vI fI ∧ { m' with nECap := m'.nE }.Valid := by
  obtain ⟨m, e, hb⟩ := tet_built
  obtain ⟨c1, -, c2, c3, c4, c5⟩ := convTest_ok hb.valid e tet_conv
  have t : (match fromPolygons tet tetOrder with
    | .ok m => (decide (0 < m.nFFill ∧ m.fHalfedge 0 ≠ INV), (List.range m.nHeFill).all (fun h => (List.range m.nHeFill).all (fun h' =>
        m.heVertex h != m.heVertex h' || m.heFace h != m.heFace h' || h == h')))
    | .error _ => (false, false)) = (true, true) := rfl
  rw [e] at t
  simp only [Prod.mk.injEq, decide_eq_true_eq, List.all_eq_true, List.mem_range, Bool.or_eq_true, bne_iff_ne, beq_iff_eq, ne_eq] at t
  obtain ⟨t1, t2⟩ := t
  have hc : ∀ v, m.vL v → m.CornersLinked v := by
    intro v hvl
    obtain ⟨b, q, r⟩ := C77_fan_partial hb.valid hvl (fun h h' l l' z z' y => by
      rcases t2 h l.1 h' l'.1 with (k | k) | k
      exacts [absurd (z.trans z'.symm) k, absurd y k, k])
    obtain ⟨b', q', r'⟩ := C77_isManifold hb.valid hvl
    have : b' = true := r'.2 ⟨fun x hx _ => (c2 x hx).1, c3 v hvl⟩
    rw [q', this] at q
    injection q with q
    exact (r.1 q.symm).2
  obtain ⟨-, -, C, C'⟩ := C80 hb.valid c4 c5
  obtain ⟨m', φ, vI, fI, h1, h2, -, -, h3⟩ := C c2 c3 (C' c2 hc).2
  exact ⟨m, m', φ, vI, fI, e, h1, h2, h3.2 ⟨⟨0, t1⟩, hc⟩⟩

/-- **C80 fails: both tests accept the pinched hexagon, but the conversion throws.** -/
theorem C80_pinch : ∃ m, fromPolygons pinch pinchOrder = .ok m ∧ m.Valid ∧ m.meshIsManifold = .ok true ∧ m.meshIsOriented = .ok true ∧
    m.toManifoldMesh = .error .throw := by
  obtain ⟨m, e, hb⟩ := pinch_built
  obtain ⟨c1, c1', c2, c3, c4, c5⟩ := convTest_ok hb.valid e pinch_conv
  refine ⟨m, e, hb.valid, c1, c1', (C80 hb.valid c4 c5).2.1 c2 c3 ?_⟩
  have t : (match fromPolygons pinch pinchOrder with
    | .ok m => decide ((2 < m.nHeFill ∧ m.heNext 2 ≠ INV) ∧ (5 < m.nHeFill ∧ m.heNext 5 ≠ INV) ∧ m.heSibling 2 = 2 ∧ m.heSibling 5 = 5 ∧ m.tip 2 = m.tip 5)
    | .error _ => false) = true := rfl
  rw [e] at t
  simp only [decide_eq_true_eq] at t
  exact ⟨2, 5, t.1, t.2.1, by decide, t.2.2⟩

/-- **C80 fails: both tests accept the pinched sphere, and the conversion returns a mesh that is not manifold at vertex 0.** -/
theorem C80_sphere : ∃ m m', fromPolygons pinchedSphere pinchedSphereOrder = .ok m ∧ m.Valid ∧ m.meshIsManifold = .ok true ∧ m.meshIsOriented = .ok true ∧
    m.toManifoldMesh = .ok m' ∧ ¬ { m' with nECap := m'.nE }.Valid := by
  obtain ⟨m, e, hb⟩ := pinchedSphere_built
  obtain ⟨c1, c1', c2, c3, c4, c5⟩ := convTest_ok hb.valid e pinchedSphere_conv
  have t : (match fromPolygons pinchedSphere pinchedSphereOrder with
    | .ok m => (decide ((0 < m.nHeFill ∧ m.heNext 0 ≠ INV) ∧ (3 < m.nHeFill ∧ m.heNext 3 ≠ INV) ∧ (0 < m.nVFill ∧ m.vHalfedge 0 ≠ INV) ∧ m.heVertex 0 = 0 ∧ m.heVertex 3 = 0),
        (List.range m.nHeFill).all (fun h => decide ((m.heSibling h ≠ h ∧ m.heOrient h ≠ m.heOrient (m.heSibling h)) ∧
          ((m.heNext h = 0 ∨ m.heNext h = 7) ↔ (m.heSibling h = 0 ∨ m.heSibling h = 7)) ∧
          ((h = 0 ∨ h = 7) ↔ (m.heNext (m.heSibling h) = 0 ∨ m.heNext (m.heSibling h) = 7)))))
    | .error _ => (false, false)) = (true, true) := rfl
  rw [e] at t
  simp only [Prod.mk.injEq, decide_eq_true_eq, List.all_eq_true, List.mem_range] at t
  obtain ⟨t1, t2⟩ := t
  have key : ∀ x y, Conn m.CornerAdj x y → ((x = 0 ∨ x = 7) ↔ (y = 0 ∨ y = 7)) := by
    intro x y c
    induction c with
    | rel x y c =>
      obtain ⟨a, la, -, c⟩ := c
      obtain ⟨q1, q2, q3⟩ := t2 a la.1
      rw [if_neg q1.2] at c
      rcases c with ⟨rfl, rfl⟩ | ⟨rfl, rfl⟩
      · exact q2
      · exact q3
    | refl => exact Iff.rfl
    | symm _ _ _ ih => exact ih.symm
    | trans _ _ _ _ _ a b => exact a.trans b
  obtain ⟨-, -, C, -⟩ := C80 hb.valid c4 c5
  obtain ⟨m', φ, vI, fI, h1, h2, -, -, h3⟩ := C c2 c3 (by
    rintro ⟨h, h', l, -, -, s, -⟩
    exact (t2 h l.1).1.1 s)
  refine ⟨m, m', e, hb.valid, c1, c1', h1, fun H => ?_⟩
  have := key 0 3 ((h3.1 H).2 0 t1.2.2.1 0 3 t1.1 t1.2.1 t1.2.2.2.1 t1.2.2.2.2)
  omega

/-- **C80 fails: an empty mesh is converted to a mesh with a vertex that does not exist.** -/
theorem C80_empty : (empty 0 0).Valid ∧ ∃ m', (empty 0 0).toManifoldMesh = .ok m' ∧ m'.nVFill = 1 ∧ ¬ { m' with nECap := m'.nE }.Valid := by
  have no : ∀ i, ¬ (empty 0 0).heL i := fun i h => absurd h.1 (Nat.not_lt_zero i)
  have nv : ∀ i, ¬ (empty 0 0).vL i := fun i h => absurd h.1 (Nat.not_lt_zero i)
  have nf : ∀ i, ¬ (empty 0 0).fL i := fun i h => absurd h.1 (Nat.not_lt_zero i)
  have ne : ∀ i, ¬ (empty 0 0).eL i := fun i h => absurd h.1 (Nat.not_lt_zero i)
  have ring0 : ∀ (R : Ring) A, (∀ h, A h = none) → Ring.Inv R A (empty 0 0).vL := fun R A q =>
    ⟨q _, fun h v a => absurd (a.symm.trans (q h)) (by simp), fun h v a => absurd (a.symm.trans (q h)) (by simp),
      fun h _ v a => absurd (a.symm.trans (q h)) (by simp), fun v a => absurd a (nv v)⟩
  have hv : (empty 0 0).Valid := by
    refine ⟨⟨?_, ?_⟩, ⟨?_, ?_⟩, ⟨?_, ?_⟩, ⟨?_, ?_⟩, fun i h => absurd h (no i), fun i h => absurd h (no i), fun i h => absurd h (no i), fun i h => absurd h (no i),
      fun i h => absurd h (no i), fun i _ h => absurd h (no i), fun i _ h => absurd h (no i), fun i h => absurd h (nv i), fun i h => absurd h (nf i),
      fun i h => absurd h (ne i), fun i _ h => absurd h (no i), ?_, ?_, ?_, ?_, ?_, ?_⟩
    all_goals first | decide | rfl | skip
    · exact ring0 _ _ (fun h => if_neg (no h))
    · exact ring0 _ _ (fun h => if_neg (no h))
  obtain ⟨-, -, C, -⟩ := C80 hv ⟨fun h l => absurd l (no h), fun h l => absurd l (no h)⟩ (by decide)
  obtain ⟨m', φ, vI, fI, h1, h2, -, -, h3⟩ := C (fun x hx => absurd hx (ne x)) (fun v h => absurd h (nv v)) (by rintro ⟨h, _, l, _⟩; exact no h l)
  refine ⟨hv, m', h1, h2.nV, fun H => ?_⟩
  obtain ⟨f, hf⟩ := (h3.1 H).1
  exact nf f hf

end GC.GMesh
