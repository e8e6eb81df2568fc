import Verif.Intrinsic
import Verif.DelaunayMesh
import Verif.Props.Stats
import Mathlib.Algebra.BigOperators.Group.Finset.Basic
import Mathlib.Algebra.BigOperators.Ring.Finset
import Mathlib.Algebra.Order.BigOperators.Group.Finset

/-! # Sums over mesh elements -/

namespace GC
open Classical Finset

/-! ## Loops -/

theorem assign_apply {α : Type} (d f : ℕ → α) (l : List ℕ) (x : ℕ) : assign d f l x = if x ∈ l then f x else d x := by
  unfold assign
  induction l generalizing d with
  | nil => simp
  | cons a l ih =>
    rw [List.foldl_cons, ih]
    by_cases h : x ∈ l
    · simp [h]
    · by_cases e : x = a
      · subst e; simp [h]
      · simp [h, e]

theorem accum_apply {β : Type} (key : β → ℕ) (val : β → ℝ) (l : List β) (v : ℕ) :
    accum key val l v = (l.map (fun x => if key x = v then val x else 0)).sum := by
  unfold accum
  have : ∀ (l : List β) (d : ℕ → ℝ), (l.foldl (fun d x => Function.update d (key x) (d (key x) + val x)) d) v =
      d v + (l.map (fun x => if key x = v then val x else 0)).sum := by
    intro l
    induction l with
    | nil => simp
    | cons a l ih =>
      intro d
      rw [List.foldl_cons, ih, List.map_cons, List.sum_cons]
      by_cases e : key a = v
      · rw [if_pos e, ← e, Function.update_self]; ring
      · rw [if_neg e, Function.update_of_ne (Ne.symm e)]; ring
  rw [this]; simp

theorem foldl_add {β : Type} (f : β → ℝ) (l : List β) (a : ℝ) : l.foldl (fun s x => s + f x) a = a + (l.map f).sum := by
  induction l generalizing a with
  | nil => simp
  | cons b l ih => rw [List.foldl_cons, ih, List.map_cons, List.sum_cons]; ring

theorem foldl_sub {β : Type} (f : β → ℝ) (l : List β) (a : ℝ) : l.foldl (fun s x => s - f x) a = a - (l.map f).sum := by
  induction l generalizing a with
  | nil => simp
  | cons b l ih => rw [List.foldl_cons, ih, List.map_cons, List.sum_cons]; ring

theorem fillVector_apply {ind : ℕ → ℕ} {val : ℕ → ℝ} {l : List ℕ} {x : ℕ} (hx : x ∈ l)
    (inj : ∀ y ∈ l, ind y = ind x → y = x) : Mesh.fillVector ind val l (ind x) = val x := by
  unfold Mesh.fillVector
  have : ∀ (l : List ℕ) (d : ℕ → ℝ), (∀ y ∈ l, ind y = ind x → y = x) → (x ∈ l ∨ d (ind x) = val x) →
      (l.foldl (fun d e => Function.update d (ind e) (val e)) d) (ind x) = val x := by
    intro l
    induction l with
    | nil => intro d _ h; simpa using h
    | cons a l ih =>
      intro d hi h
      rw [List.foldl_cons]
      refine ih _ (fun y hy => hi y (List.mem_cons_of_mem _ hy)) ?_
      by_cases hl : x ∈ l
      · exact .inl hl
      · right
        by_cases e : ind a = ind x
        · rw [e, Function.update_self, hi a List.mem_cons_self e]
        · rw [Function.update_of_ne (Ne.symm e)]
          rcases h with h | h
          · rcases List.mem_cons.1 h with rfl | h
            · exact absurd rfl e
            · exact absurd h hl
          · exact h
  exact this l _ inj (.inl hx)

/-- The entries of a nested loop. -/
theorem nested_ok {g : ℕ → Res (List ℕ)} {L : ℕ → List ℕ} : ∀ {l : List ℕ}, (∀ a ∈ l, g a = .ok (L a)) →
    nested g l = .ok (l.flatMap (fun a => (L a).map (fun b => (a, b))))
  | [], _ => rfl
  | a :: l, h => by
    simp only [nested, bind, Except.bind, h a List.mem_cons_self, nested_ok (fun b hb => h b (List.mem_cons_of_mem _ hb)),
      List.flatMap_cons]

theorem sum_flatMap {β γ α : Type} [AddCommMonoid α] (l : List β) (g : β → List γ) (F : γ → α) :
    ((l.flatMap g).map F).sum = (l.map (fun a => ((g a).map F).sum)).sum := by
  induction l with
  | nil => simp
  | cons a l ih => rw [List.flatMap_cons, List.map_append, List.sum_append, ih, List.map_cons, List.sum_cons]

theorem sum_of_nodup {α : Type} [AddCommMonoid α] {l : List ℕ} {S : Finset ℕ} (nd : l.Nodup) (h : ∀ i, i ∈ l ↔ i ∈ S)
    (F : ℕ → α) : (l.map F).sum = ∑ i ∈ S, F i := by
  have : S = l.toFinset := by ext i; rw [List.mem_toFinset, h]
  rw [this, List.sum_toFinset _ nd]

/-! ## Matrices -/

theorem setFromTriplets_ok {α : Type} [AddCommMonoid α] {rows cols : ℕ} {l : List (Triplet α)}
    (h : ∀ t ∈ l, t.1 < rows ∧ t.2.1 < cols) : setFromTriplets rows cols l = .ok (entry l) := by
  unfold setFromTriplets; rw [if_pos h]

/-- Pairing a matrix made from triplets with weights of rows and columns. -/
theorem entry_pair {α : Type} [NonUnitalNonAssocSemiring α] {rows cols : ℕ} {l : List (Triplet α)}
    (h : ∀ t ∈ l, t.1 < rows ∧ t.2.1 < cols) (x y : ℕ → α) :
    ∑ i ∈ range rows, ∑ j ∈ range cols, x i * entry l i j * y j = (l.map (fun t => x t.1 * t.2.2 * y t.2.1)).sum := by
  induction l with
  | nil => simp [entry]
  | cons t l ih =>
    rw [List.map_cons, List.sum_cons, ← ih (fun t ht => h t (List.mem_cons_of_mem _ ht))]
    have e : ∀ i j, entry (t :: l) i j = (if t.1 = i ∧ t.2.1 = j then t.2.2 else 0) + entry l i j := by
      intro i j; unfold entry; rw [List.map_cons, List.sum_cons]
    simp only [e, mul_add, add_mul, sum_add_distrib]
    congr 1
    obtain ⟨h1, h2⟩ := h t List.mem_cons_self
    rw [sum_eq_single t.1, sum_eq_single t.2.1]
    · simp
    · intro j _ hj; rw [if_neg (fun q => hj q.2.symm)]; simp
    · intro q; exact absurd (mem_range.2 h2) q
    · intro i _ hi
      refine sum_eq_zero (fun j _ => ?_)
      rw [if_neg (fun q => hi q.1.symm)]; simp
    · intro q; exact absurd (mem_range.2 h1) q

/-- The transposed matrix. -/
theorem entry_swap {α : Type} [AddCommMonoid α] (l : List (Triplet α)) (i j : ℕ) :
    entry l j i = entry (l.map (fun t => (t.2.1, t.1, t.2.2))) i j := by
  unfold entry
  rw [List.map_map]
  congr 1
  refine List.map_congr_left (fun t _ => ?_)
  simp only [Function.comp, and_comm]

theorem entry_flatMap {β α : Type} [AddCommMonoid α] (l : List β) (g : β → List (Triplet α)) (i j : ℕ) :
    entry (l.flatMap g) i j = (l.map (fun a => entry (g a) i j)).sum := sum_flatMap _ _ _

namespace Mesh
variable (m : Mesh)

/-! ## The sets of elements -/

/-- The halfedges, interior halfedges, vertices, edges and faces of a mesh. -/
noncomputable def hes : Finset ℕ := {i ∈ range m.nHeFill | m.heLive i}
noncomputable def ints : Finset ℕ := {i ∈ range m.nHeFill | m.heLive i ∧ ¬ m.ext i}
noncomputable def verts : Finset ℕ := {v ∈ range m.nVFill | m.vLive v}
noncomputable def edges : Finset ℕ := {e ∈ range m.nEFill | m.heLive (2 * e)}
noncomputable def faces : Finset ℕ := {f ∈ range m.nFFill | m.fLive f}

variable {m}

theorem mem_hes {i : ℕ} : i ∈ m.hes ↔ m.heLive i := by
  unfold hes; rw [mem_filter, mem_range]; exact ⟨fun h => h.2, fun h => ⟨h.1, h⟩⟩
theorem mem_ints {i : ℕ} : i ∈ m.ints ↔ m.heLive i ∧ ¬ m.ext i := by
  unfold ints; rw [mem_filter, mem_range]; exact ⟨fun h => h.2, fun h => ⟨h.1.1, h⟩⟩
theorem mem_verts {v : ℕ} : v ∈ m.verts ↔ m.vLive v := by
  unfold verts; rw [mem_filter, mem_range]; exact ⟨fun h => h.2, fun h => ⟨h.1, h⟩⟩
theorem mem_faces {f : ℕ} : f ∈ m.faces ↔ m.fLive f ∧ f < m.nFFill := by
  unfold faces; rw [mem_filter, mem_range]; exact And.comm
theorem mem_edges (hv : m.Valid) {e : ℕ} : e ∈ m.edges ↔ m.heLive (2 * e) := by
  unfold edges; rw [mem_filter, mem_range]
  have := hv.he_fill
  exact ⟨fun h => h.2, fun h => ⟨by have := h.1; omega, h⟩⟩

/-- The range loops, as sets. -/
structure Ranges (m : Mesh) (vs hs is es fs : List ℕ) : Prop where
  v : m.rangeVertices = .ok vs
  h : m.rangeHalfedges = .ok hs
  i : m.rangeInteriorHalfedges = .ok is
  e : m.rangeEdges = .ok es
  f : m.rangeFaces = .ok fs
  mv : ∀ x, x ∈ vs ↔ x ∈ m.verts
  mh : ∀ x, x ∈ hs ↔ x ∈ m.hes
  mi : ∀ x, x ∈ is ↔ x ∈ m.ints
  me : ∀ x, x ∈ es ↔ x ∈ m.edges
  mf : ∀ x, x ∈ fs ↔ x ∈ m.faces
  nv : vs.Nodup
  nh : hs.Nodup
  ni : is.Nodup
  ne : es.Nodup
  nf : fs.Nodup
  cv : m.verts.card = m.nV
  ce : m.edges.card = m.nE
  cf : m.faces.card = m.nF
  iv : m.getVertexIndices = .ok (number vs) ∧ IsIndex (number vs) m.vLive m.nV
  ie : m.getEdgeIndices = .ok (number es) ∧ IsIndex (number es) (fun e => m.heLive (2 * e)) m.nE
  if' : m.getFaceIndices = .ok (number fs) ∧ IsIndex (number fs) (fun f => m.fLive f ∧ f < m.nFFill) m.nF

theorem Valid.ranges (hv : m.Valid) : ∃ vs hs is es fs, m.Ranges vs hs is es fs := by
  obtain ⟨⟨vs, v1, v2, v3⟩, ⟨hs, h1, h2, h3⟩, ⟨is, i1, i2, i3⟩, -, ⟨es, e1, e2, e3⟩, ⟨fs, f1, f2, f3⟩, -⟩ := C16_ranges m hv
  have card : ∀ {l : List ℕ} {S : Finset ℕ}, l.Nodup → (∀ x, x ∈ l ↔ x ∈ S) → S.card = l.length := by
    intro l S nd h
    have : S = l.toFinset := by ext i; rw [List.mem_toFinset, h]
    rw [this, List.toFinset_card_of_nodup nd]
  have mv : ∀ x, x ∈ vs ↔ x ∈ m.verts := fun x => (v2.2 x).trans mem_verts.symm
  have me : ∀ x, x ∈ es ↔ x ∈ m.edges := fun x => (e2.2 x).trans (mem_edges hv).symm
  have mf : ∀ x, x ∈ fs ↔ x ∈ m.faces := fun x => (f2.2 x).trans mem_faces.symm
  refine ⟨vs, hs, is, es, fs, v1, h1, i1, e1, f1, mv, fun x => (h2.2 x).trans mem_hes.symm,
    fun x => (i2.2 x).trans mem_ints.symm, me, mf, nodup_of_range v2, nodup_of_range h2, nodup_of_range i2, nodup_of_range e2,
    nodup_of_range f2, (card (nodup_of_range v2) mv).trans v3, (card (nodup_of_range e2) me).trans e3,
    (card (nodup_of_range f2) mf).trans f3, ⟨by unfold getVertexIndices; rw [v1]; rfl, v3 ▸ number_isIndex v2⟩,
    ⟨by unfold getEdgeIndices; rw [e1]; rfl, e3 ▸ number_isIndex e2⟩,
    ⟨by unfold getFaceIndices; rw [f1]; rfl, f3 ▸ number_isIndex f2⟩⟩

/-- A nested loop over elements and their interior halfedges goes through the interior halfedges once. -/
theorem nested_ints {g : ℕ → Res (List ℕ)} {K : ℕ → ℕ} {l : List ℕ} (nd : l.Nodup)
    (hg : ∀ a ∈ l, ∃ L, g a = .ok L ∧ L.Nodup ∧ ∀ i, i ∈ L ↔ i ∈ m.ints ∧ K i = a) (hK : ∀ i ∈ m.ints, K i ∈ l) :
    ∃ r, nested g l = .ok r ∧ (∀ p ∈ r, p.1 = K p.2 ∧ p.2 ∈ m.ints) ∧
      ∀ {α : Type} [AddCommMonoid α] (F : ℕ × ℕ → α), (r.map F).sum = ∑ i ∈ m.ints, F (K i, i) := by
  choose! L h1 h2 h3 using hg
  refine ⟨_, nested_ok h1, ?_, ?_⟩
  · intro p hp
    obtain ⟨a, ha, hb⟩ := List.mem_flatMap.1 hp
    obtain ⟨b, hb', rfl⟩ := List.mem_map.1 hb
    obtain ⟨q, e⟩ := (h3 a ha b).1 hb'
    exact ⟨e.symm, q⟩
  · intro α _ F
    rw [sum_flatMap, sum_of_nodup nd (S := l.toFinset) (fun i => List.mem_toFinset.symm)]
    rw [← sum_fiberwise_of_maps_to (s := m.ints) (t := l.toFinset) (g := K) (fun i hi => List.mem_toFinset.2 (hK i hi))]
    refine sum_congr rfl (fun a ha => ?_)
    have ha := List.mem_toFinset.1 ha
    rw [List.map_map, sum_of_nodup (h2 a ha) (S := {i ∈ m.ints | K i = a}) (fun i => by rw [h3 a ha, mem_filter])]
    refine sum_congr rfl (fun i hi => ?_)
    rw [(mem_filter.1 hi).2]; rfl

variable {vs hs is es fs : List ℕ}

theorem int_face (hv : m.Valid) {i : ℕ} (h : i ∈ m.ints) : m.heFace i ∈ m.faces := by
  obtain ⟨h1, h2⟩ := mem_ints.1 h
  refine mem_faces.2 ⟨hv.face_live i h1, ?_⟩
  unfold ext at h2; omega

theorem face_not_ext (hv : m.Valid) {i : ℕ} (h : m.heFace i < m.nFFill) : ¬ m.ext i := by
  unfold ext; omega

/-- The loops over the halfedges of all faces. -/
theorem nested_faces (hv : m.Valid) (R : m.Ranges vs hs is es fs) :
    ∃ r, nested m.navFaceHalfedges fs = .ok r ∧ nested m.navFaceVertices fs = .ok (r.map (fun p => (p.1, m.heVertex p.2))) ∧
      (∀ p ∈ r, p.1 = m.heFace p.2 ∧ p.2 ∈ m.ints) ∧
      ∀ {α : Type} [AddCommMonoid α] (F : ℕ × ℕ → α), (r.map F).sum = ∑ i ∈ m.ints, F (m.heFace i, i) := by
  have key : ∀ f ∈ fs, ∃ L, m.navFaceHalfedges f = .ok L ∧ L.Nodup ∧ (∀ i, i ∈ L ↔ i ∈ m.ints ∧ m.heFace i = f) ∧
      m.navFaceVertices f = .ok (L.map m.heVertex) := by
    intro f hf
    obtain ⟨q1, q2⟩ := mem_faces.1 ((R.mf f).1 hf)
    obtain ⟨L, a, b, c, -, -, -, d, -⟩ := C49_face_halfedges m hv f q1
    refine ⟨L, a, b, fun i => ?_, d⟩
    rw [c, mem_ints]
    constructor
    · rintro ⟨x, rfl⟩; exact ⟨⟨x, face_not_ext hv q2⟩, rfl⟩
    · rintro ⟨⟨x, -⟩, y⟩; exact ⟨x, y⟩
  obtain ⟨r, r1, r2, r3⟩ := nested_ints (g := m.navFaceHalfedges) (K := m.heFace) R.nf
    (fun a ha => by obtain ⟨L, a, b, c, -⟩ := key a ha; exact ⟨L, a, b, c⟩) (fun i hi => (R.mf _).2 (int_face hv hi))
  refine ⟨r, r1, ?_, r2, r3⟩
  choose! L k1 k2 k3 k4 using key
  have e := nested_ok k1
  rw [r1] at e
  injection e with e
  rw [nested_ok k4, e, List.map_flatMap]
  congr 2
  funext a
  simp

/-- The loops over the interior halfedges of all edges. -/
theorem nested_edges (hv : m.Valid) (R : m.Ranges vs hs is es fs) :
    ∃ r, nested m.navEdgeInterior es = .ok r ∧ (∀ p ∈ r, p.1 = heEdge p.2 ∧ p.2 ∈ m.ints) ∧
      ∀ {α : Type} [AddCommMonoid α] (F : ℕ × ℕ → α), (r.map F).sum = ∑ i ∈ m.ints, F (heEdge i, i) := by
  refine nested_ints (K := heEdge) R.ne (fun e he => ?_) (fun i hi => ?_)
  · have hl := (mem_edges hv).1 ((R.me e).1 he)
    refine ⟨_, C49_edge_interior m hv e hl, ?_, fun i => ?_⟩
    · split
      · simp
      · simp
    · have h0 : ¬ m.ext (2 * e) := hv.edge_int e hl
      have h1 : m.heLive (2 * e + 1) := by have := hv.twin_live _ hl; rwa [twin_two_mul] at this
      rw [mem_ints]
      have hE : heEdge i = e ↔ i = 2 * e ∨ i = 2 * e + 1 := by unfold heEdge; omega
      rw [hE]
      split
      · rename_i hx
        rw [List.mem_singleton]
        constructor
        · rintro rfl; exact ⟨⟨hl, h0⟩, .inl rfl⟩
        · rintro ⟨⟨-, q⟩, rfl | rfl⟩
          · rfl
          · exact absurd hx q
      · rename_i hx
        simp only [List.mem_cons, List.not_mem_nil, or_false]
        constructor
        · rintro (rfl | rfl)
          · exact ⟨⟨hl, h0⟩, .inl rfl⟩
          · exact ⟨⟨h1, hx⟩, .inr rfl⟩
        · exact fun h => h.2
  · rw [R.me, mem_edges hv]
    have h1 := (mem_ints.1 hi).1
    rcases Nat.mod_two_eq_zero_or_one i with h | h
    · rwa [show 2 * heEdge i = i by unfold heEdge; omega]
    · have := hv.twin_live _ h1
      have e : i = 2 * (i / 2) + 1 := by omega
      rw [e, ← twin_two_mul, twin_twin] at this
      exact this

/-- Sums over the halfedges of all edges. -/
theorem sum_edges (hv : m.Valid) {α : Type} [AddCommMonoid α] (F : ℕ → α) :
    ∑ e ∈ m.edges, (F (2 * e) + F (2 * e + 1)) = ∑ i ∈ m.hes, F i := by
  have mp : ∀ i ∈ m.hes, i / 2 ∈ m.edges := by
    intro i hi
    rw [mem_edges hv]
    have h1 := mem_hes.1 hi
    rcases Nat.mod_two_eq_zero_or_one i with h | h
    · rwa [show 2 * (i / 2) = i by omega]
    · have := hv.twin_live _ h1
      have e : i = 2 * (i / 2) + 1 := by omega
      rw [e, ← twin_two_mul, twin_twin] at this
      exact this
  rw [← sum_fiberwise_of_maps_to mp]
  refine sum_congr rfl (fun e he => ?_)
  have hl := (mem_edges hv).1 he
  have h1 : m.heLive (2 * e + 1) := by have := hv.twin_live _ hl; rwa [twin_two_mul] at this
  have : {i ∈ m.hes | i / 2 = e} = {2 * e, 2 * e + 1} := by
    ext i
    rw [mem_filter, mem_hes, mem_insert, mem_singleton]
    constructor
    · rintro ⟨-, h⟩; omega
    · rintro (rfl | rfl)
      · exact ⟨hl, by omega⟩
      · exact ⟨h1, by omega⟩
  rw [this, sum_pair (by omega)]

theorem hes_split : m.hes = m.ints ∪ {i ∈ m.hes | m.ext i} ∧ Disjoint m.ints {i ∈ m.hes | m.ext i} := by
  constructor
  · ext i; rw [mem_union, mem_ints, mem_filter, mem_hes]; tauto
  · rw [disjoint_left]; intro i h1 h2; exact (mem_ints.1 h1).2 (mem_filter.1 h2).2

theorem int_next (hv : m.Valid) {i : ℕ} (h : i ∈ m.ints) : m.heNext i ∈ m.ints := by
  obtain ⟨h1, h2⟩ := mem_ints.1 h
  exact mem_ints.2 ⟨hv.next_live i h1, fun q => h2 ((hv.ext_next h1).1 q)⟩

/-- On a triangle mesh `next` permutes the interior halfedges. -/
theorem sum_next (hv : m.Valid) (ht : m.TriFaces) {α : Type} [AddCommMonoid α] (F : ℕ → α) :
    ∑ i ∈ m.ints, F (m.heNext i) = ∑ i ∈ m.ints, F i := by
  refine sum_bij (fun i _ => m.heNext i) (fun i hi => int_next hv hi)
    (fun i hi j hj e => hv.next_inj (mem_ints.1 hi).1 (mem_ints.1 hj).1 e) (fun i hi => ?_) (fun _ _ => rfl)
  obtain ⟨h1, h2⟩ := mem_ints.1 hi
  exact ⟨m.heNext (m.heNext i), int_next hv (int_next hv hi), ht i h1 h2⟩

/-- Sums over the faces of the values at their three halfedges. -/
theorem sum_faces (hv : m.Valid) (ht : m.TriFaces) {α : Type} [AddCommMonoid α] (F : ℕ → α) :
    ∑ f ∈ m.faces, (F (m.fHalfedge f) + F (m.heNext (m.fHalfedge f)) + F (m.heNext (m.heNext (m.fHalfedge f)))) =
      ∑ i ∈ m.ints, F i := by
  rw [← sum_fiberwise_of_maps_to (fun i hi => int_face hv hi)]
  refine sum_congr rfl (fun f hf => ?_)
  obtain ⟨q1, q2⟩ := mem_faces.1 hf
  obtain ⟨l0, e0⟩ := hv.f_he f q1
  have x0 : ¬ m.ext (m.fHalfedge f) := face_not_ext hv (by rw [e0]; exact q2)
  have t := ht _ l0 x0
  set h := m.fHalfedge f
  have i0 : h ∈ m.ints := mem_ints.2 ⟨l0, x0⟩
  have i1 := int_next hv i0
  have i2 := int_next hv i1
  have n1 : m.heNext h ≠ h := hv.deg_two h l0
  have n2 : m.heNext (m.heNext h) ≠ m.heNext h := hv.deg_two _ (mem_ints.1 i1).1
  have n3 : h ≠ m.heNext (m.heNext h) := by
    intro e
    apply n1
    conv_rhs => rw [← t]
    rw [← e]
  have : {i ∈ m.ints | m.heFace i = f} = {h, m.heNext h, m.heNext (m.heNext h)} := by
    ext i
    rw [mem_filter, mem_insert, mem_insert, mem_singleton]
    constructor
    · rintro ⟨hi, e⟩
      have := hv.tri_mem l0 (mem_ints.1 hi).1 t (by rw [e0, e])
      tauto
    · have f1 := hv.face_next (mem_ints.1 i0).1
      have f2 := hv.face_next (mem_ints.1 i1).1
      rintro (rfl | rfl | rfl)
      · exact ⟨i0, e0⟩
      · exact ⟨i1, by rw [f1, e0]⟩
      · exact ⟨i2, by rw [f2, f1, e0]⟩
  rw [this, sum_insert (by simp only [mem_insert, mem_singleton]; tauto),
    sum_insert (by simp only [mem_singleton]; tauto), sum_singleton, add_assoc]

/-- Sums over the corners by vertices. -/
theorem sum_verts (hv : m.Valid) {α : Type} [AddCommMonoid α] (F : ℕ → α) :
    ∑ v ∈ m.verts, ∑ i ∈ m.ints, (if m.heVertex i = v then F i else 0) = ∑ i ∈ m.ints, F i := by
  rw [sum_comm]
  refine sum_congr rfl (fun i hi => ?_)
  rw [sum_ite_eq, if_pos (mem_verts.2 (hv.vertex_live i (mem_ints.1 hi).1))]

/-- Three corners per face. -/
theorem card_ints (hv : m.Valid) (ht : m.TriFaces) : m.ints.card = 3 * m.nF := by
  obtain ⟨vs, hs, is, es, fs, R⟩ := hv.ranges
  have := sum_faces hv ht (fun _ => 1)
  rw [sum_const, sum_const, R.cf] at this
  simp only [smul_eq_mul, mul_one] at this
  omega

/-- Two halfedges per edge. -/
theorem card_hes (hv : m.Valid) : m.hes.card = 2 * m.nE := by
  obtain ⟨vs, hs, is, es, fs, R⟩ := hv.ranges
  have := sum_edges hv (fun _ => 1)
  rw [sum_const, sum_const, R.ce] at this
  simp only [smul_eq_mul, mul_one] at this
  omega

/-- One exterior halfedge per boundary vertex. -/
theorem card_bdy (hv : m.Valid) : ({i ∈ m.hes | m.ext i} : Finset ℕ).card = ({v ∈ m.verts | m.vIsBoundary v} : Finset ℕ).card := by
  refine card_bij (fun i _ => m.heVertex i) (fun i hi => ?_) (fun i hi j hj e => ?_) (fun v hvv => ?_)
  · obtain ⟨h1, h2⟩ := mem_filter.1 hi
    have hl := mem_hes.1 h1
    refine mem_filter.2 ⟨mem_verts.2 (hv.vertex_live i hl), ?_⟩
    have := hv.bdy_first i hl h2
    unfold vIsBoundary heIsInterior faceIsBL; unfold ext at this; omega
  · obtain ⟨h1, h2⟩ := mem_filter.1 hi
    obtain ⟨g1, g2⟩ := mem_filter.1 hj
    exact hv.bdy_unique i j (mem_hes.1 h1) (mem_hes.1 g1) h2 g2 e
  · obtain ⟨h1, h2⟩ := mem_filter.1 hvv
    have hl := mem_verts.1 h1
    obtain ⟨l0, e0⟩ := hv.v_he v hl
    have hx : m.ext (twin (m.vHalfedge v)) := by
      unfold vIsBoundary heIsInterior faceIsBL at h2; unfold ext; omega
    have lt := hv.twin_live _ l0
    refine ⟨m.heNext (twin (m.vHalfedge v)), mem_filter.2 ⟨mem_hes.2 (hv.next_live _ lt), (hv.ext_next lt).2 hx⟩, ?_⟩
    exact (hv.vertex_vNext l0).trans e0

end Mesh
end GC
