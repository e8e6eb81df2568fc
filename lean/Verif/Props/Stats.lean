import Verif.Stats
import Verif.Props.Nav
import Verif.Props.DisjointSets
import Verif.Props.BuildEdges
import Verif.MeshBuild
import Mathlib.Data.Nat.Prime.Basic

/-! # C62: statistics, dense indices and connected components -/

namespace GC

/-! ## Dense indices -/

theorem number_aux (l : List ℕ) : ∀ (f : ℕ → ℕ) (k : ℕ), l.Nodup →
    (∀ j (h : j < l.length), (l.foldl (fun (s : (ℕ → ℕ) × ℕ) x => (upd s.1 x s.2, s.2 + 1)) (f, k)).1 l[j] = k + j) ∧
    (∀ x, x ∉ l → (l.foldl (fun (s : (ℕ → ℕ) × ℕ) x => (upd s.1 x s.2, s.2 + 1)) (f, k)).1 x = f x) := by
  induction l with
  | nil => intro f k _; exact ⟨fun j h => absurd h (by simp), fun x _ => rfl⟩
  | cons a l ih =>
    intro f k hnd
    obtain ⟨ha, hl⟩ := List.nodup_cons.1 hnd
    obtain ⟨h1, h2⟩ := ih (upd f a k) (k + 1) hl
    refine ⟨fun j h => ?_, fun x hx => ?_⟩
    · cases j with
      | zero =>
        simp only [List.getElem_cons_zero, List.foldl_cons, Nat.add_zero]
        rw [h2 a ha]; simp [upd]
      | succ j =>
        simp only [List.getElem_cons_succ, List.foldl_cons]
        rw [h1 j (by simpa using h)]; omega
    · simp only [List.foldl_cons]
      rw [h2 x (fun c => hx (List.mem_cons_of_mem _ c))]
      have : x ≠ a := fun c => hx (c ▸ List.mem_cons_self)
      simp [upd, this]

theorem number_get {l : List ℕ} (hl : l.Nodup) (j : ℕ) (h : j < l.length) : number l l[j] = j := by
  have := (number_aux l (fun _ => 0) 0 hl).1 j h
  rw [Nat.zero_add] at this; exact this

/-- Specification of a dense index: the existing elements get the numbers `0, …, n - 1` in index order. -/
def IsIndex (idx : ℕ → ℕ) (exist : ℕ → Prop) (n : ℕ) : Prop :=
  (∀ i, exist i → idx i < n) ∧ (∀ k < n, ∃ i, exist i ∧ idx i = k) ∧ ∀ i j, exist i → exist j → i < j → idx i < idx j

theorem nodup_of_range {l : List ℕ} {ex : ℕ → Prop} (h : IsRange l ex) : l.Nodup := by
  have := h.1
  exact this.imp (fun hab => Nat.ne_of_lt hab)

theorem number_isIndex {l : List ℕ} {ex : ℕ → Prop} (h : IsRange l ex) : IsIndex (number l) ex l.length := by
  have nd := nodup_of_range h
  refine ⟨fun i hi => ?_, fun k hk => ⟨l[k], (h.2 _).1 (List.getElem_mem hk), number_get nd k hk⟩, fun i j hi hj hij => ?_⟩
  · obtain ⟨k, hk, rfl⟩ := List.getElem_of_mem ((h.2 i).2 hi)
    rw [number_get nd k hk]; exact hk
  · obtain ⟨a, ha, rfl⟩ := List.getElem_of_mem ((h.2 i).2 hi)
    obtain ⟨b, hb, rfl⟩ := List.getElem_of_mem ((h.2 j).2 hj)
    rw [number_get nd a ha, number_get nd b hb]
    by_contra hc
    push Not at hc
    rcases Nat.lt_or_eq_of_le hc with c | c
    · have := List.pairwise_iff_getElem.1 h.1 b a hb ha c
      omega
    · subst c; omega

theorem IsIndex.inj {idx : ℕ → ℕ} {ex : ℕ → Prop} {n : ℕ} (h : IsIndex idx ex n) {i j : ℕ} (hi : ex i) (hj : ex j)
    (e : idx i = idx j) : i = j := by
  rcases Nat.lt_trichotomy i j with c | c | c
  · have := h.2.2 i j hi hj c; omega
  · exact c
  · have := h.2.2 j i hj hi c; omega

theorem numberUnless_aux (skip : ℕ → Prop) [DecidablePred skip] (l : List ℕ) : ∀ (f : ℕ → ℕ) (k : ℕ), l.Nodup →
    (∀ x ∈ l, skip x → (l.foldl (fun (s : (ℕ → ℕ) × ℕ) x => if skip x then (upd s.1 x INV, s.2) else (upd s.1 x s.2, s.2 + 1)) (f, k)).1 x = INV) ∧
    (∀ x, (¬ skip x ∨ x ∉ l) → (l.foldl (fun (s : (ℕ → ℕ) × ℕ) x => if skip x then (upd s.1 x INV, s.2) else (upd s.1 x s.2, s.2 + 1)) (f, k)).1 x =
      ((l.filter (fun x => ¬ skip x)).foldl (fun (s : (ℕ → ℕ) × ℕ) x => (upd s.1 x s.2, s.2 + 1)) (f, k)).1 x) := by
  induction l with
  | nil => intro f k _; exact ⟨fun x h => absurd h (by simp), fun x _ => rfl⟩
  | cons a l ih =>
    intro f k hnd
    obtain ⟨ha, hl⟩ := List.nodup_cons.1 hnd
    by_cases hs : skip a
    · obtain ⟨h1, h2⟩ := ih (upd f a INV) k hl
      simp only [List.foldl_cons, if_pos hs]
      rw [List.filter_cons_of_neg (by simpa using hs)]
      have nd' : (l.filter (fun x => ¬ skip x)).Nodup := hl.filter _
      refine ⟨fun x hx hsx => ?_, fun x hx => ?_⟩
      · rcases List.mem_cons.1 hx with rfl | hx
        · rw [h2 x (Or.inr ha), (number_aux _ _ _ nd').2 x (fun c => ha (List.mem_filter.1 c).1)]
          simp [upd]
        · exact h1 x hx hsx
      · have hxa : x ≠ a := by
          rintro rfl
          rcases hx with c | c
          · exact c hs
          · exact c List.mem_cons_self
        rw [h2 x (hx.imp id (fun c c' => c (List.mem_cons_of_mem _ c')))]
        by_cases hm : x ∈ l.filter (fun x => ¬ skip x)
        · obtain ⟨j, hj, rfl⟩ := List.getElem_of_mem hm
          rw [(number_aux _ _ _ nd').1 j hj, (number_aux _ _ _ nd').1 j hj]
        · rw [(number_aux _ _ _ nd').2 x hm, (number_aux _ _ _ nd').2 x hm]
          simp [upd, hxa]
    · obtain ⟨h1, h2⟩ := ih (upd f a k) (k + 1) hl
      simp only [List.foldl_cons, if_neg hs]
      rw [List.filter_cons_of_pos (by simpa using hs)]
      simp only [List.foldl_cons]
      refine ⟨fun x hx hsx => ?_, fun x hx => ?_⟩
      · rcases List.mem_cons.1 hx with rfl | hx
        · exact absurd hsx hs
        · exact h1 x hx hsx
      · exact h2 x (hx.imp id (fun c c' => c (List.mem_cons_of_mem _ c')))

theorem filter_isRange {l : List ℕ} {ex p : ℕ → Prop} [DecidablePred p] (h : IsRange l ex) :
    IsRange (l.filter (fun x => p x)) (fun x => ex x ∧ p x) :=
  ⟨h.1.filter _, fun i => by rw [List.mem_filter, h.2]; simp⟩

/-! ## Counting components -/

/-- `n` is the number of classes of the relation generated by `P` on the elements of `ex`: there is a list of `n`
elements that meets each class exactly once. -/
def IsClassCount (ex : ℕ → Prop) (P : ℕ → ℕ → Prop) (n : ℕ) : Prop :=
  ∃ reps : List ℕ, reps.length = n ∧ reps.Nodup ∧ (∀ r ∈ reps, ex r) ∧
    (∀ v, ex v → ∃ r ∈ reps, Conn P v r) ∧ ∀ r ∈ reps, ∀ r' ∈ reps, Conn P r r' → r = r'

theorem IsClassCount.unique {ex : ℕ → Prop} {P : ℕ → ℕ → Prop} {n k : ℕ} (h : IsClassCount ex P n) (h' : IsClassCount ex P k) :
    n = k := by
  have key : ∀ {n k}, IsClassCount ex P n → IsClassCount ex P k → n ≤ k := by
    rintro n k ⟨l, rfl, nd, hl, -, hu⟩ ⟨l', rfl, nd', -, hc', hu'⟩
    have : ∀ r ∈ l, ∃ r' ∈ l', Conn P r r' := fun r hr => hc' r (hl r hr)
    choose! g hg hg' using this
    rw [← List.toFinset_card_of_nodup nd, ← List.toFinset_card_of_nodup nd']
    refine Finset.card_le_card_of_injOn g (fun r hr => by simpa using hg r (by simpa using hr)) ?_
    intro a ha b hb hab
    have ha' : a ∈ l := by simpa using ha
    have hb' : b ∈ l := by simpa using hb
    refine hu a ha' b hb' (.trans _ _ _ (hg' a ha') ?_)
    rw [hab]
    exact .symm _ _ (hg' b hb')
  exact le_antisymm (key h h') (key h' h)

theorem merge_fold (n : ℕ) (es : List ℕ) (a b : ℕ → ℕ) (h : ∀ e ∈ es, a e ≤ n ∧ b e ≤ n) :
    ∃ d, es.foldlM (fun d e => DS.merge d (a e) (b e)) (DS.init n) = .ok d ∧ d.Inv ∧ d.n = n ∧
      ∀ x ≤ n, ∀ y ≤ n, (d.root x = d.root y ↔ Conn (fun u v => ∃ e ∈ es, a e = u ∧ b e = v) x y) := by
  obtain ⟨d, e, h1, h2, h3⟩ := DS.runAll_spec n (es.map (fun e => DSOp.merge (a e) (b e))) (DS.init n) (fun _ _ => False)
    (DS.init_inv n) rfl (by simp)
    (by
      intro a _ b _
      rw [DS.init_root, DS.init_root]
      exact ⟨by rintro rfl; exact .refl _, conn_false a b⟩)
    (by
      intro o ho
      obtain ⟨e, he, rfl⟩ := List.mem_map.1 ho
      exact h e he)
  refine ⟨d, ?_, h1, h2, fun x hx y hy => ?_⟩
  · rw [← e]
    clear * -
    generalize DS.init n = d
    induction es generalizing d with
    | nil => rfl
    | cons e es ih =>
      rw [List.foldlM_cons, List.map_cons]
      unfold DS.runAll
      simp only [DSOp.run]
      cases hm : d.merge (a e) (b e) with
      | error _ => rfl
      | ok d' => exact ih d'
  · rw [h3 x hx y hy]
    have : (fun u v => False ∨ DSOp.merge u v ∈ es.map (fun e => DSOp.merge (a e) (b e))) =
        (fun u v => ∃ e ∈ es, a e = u ∧ b e = v) := by
      funext u v
      simp
    rw [this]

theorem find_fold (n : ℕ) (d : DS) (hd : d.Inv) (hn : d.n = n) :
    ∃ d' s, (List.range n).foldlM (fun (s : DS × Finset ℕ) i => (do
      let (d, r) ← s.1.find i
      .ok (d, insert r s.2) : Res (DS × Finset ℕ))) (d, ∅) = .ok (d', s) ∧ s = (Finset.range n).image d.root := by
  obtain ⟨⟨d', s⟩, h1, -, -, -, h5⟩ := range_inv (n := n) (s0 := (d, (∅ : Finset ℕ)))
    (f := fun (s : DS × Finset ℕ) i => (do
      let (d, r) ← s.1.find i
      .ok (d, insert r s.2) : Res (DS × Finset ℕ)))
    (fun k s => s.1.Inv ∧ s.1.n = n ∧ (∀ y ≤ n, s.1.root y = d.root y) ∧ s.2 = (Finset.range k).image d.root)
    ⟨hd, hn, fun _ _ => rfl, by simp⟩
    (by
      rintro i ⟨d1, s1⟩ hi ⟨k1, k2, k3, k4⟩
      have k2' : d1.n = n := k2
      have k3' : ∀ y ≤ n, d1.root y = d.root y := k3
      obtain ⟨d2, e2, j1, j2, -, j3⟩ := DS.find_spec (d := d1) k1 (x := i) (by omega)
      refine ⟨(d2, insert (d1.root i) s1), ?_, j1, by simp only at *; omega, fun y hy => ?_, ?_⟩
      · simp only [e2]; rfl
      · rw [← k3' y hy]; exact j3 y (by omega)
      · simp only at *
        rw [k4, k3 i (by omega), Finset.range_add_one, Finset.image_insert])
  exact ⟨d', s, h1, h5⟩

/-- The count of the code is right for any lists of vertices and edges. -/
theorem components_spec {nV : ℕ} {vs es : List ℕ} {ex : ℕ → Prop} (fst snd : ℕ → ℕ) (hr : IsRange vs ex) (hn : vs.length = nV)
    (he : ∀ e ∈ es, ex (fst e) ∧ ex (snd e)) :
    ∃ n, components nV vs es fst snd = .ok n ∧ IsClassCount ex (fun u v => ∃ e ∈ es, fst e = u ∧ snd e = v) n := by
  have hI := number_isIndex hr
  rw [hn] at hI
  obtain ⟨d, e1, d1, d2, d3⟩ := merge_fold nV es (fun e => number vs (fst e)) (fun e => number vs (snd e))
    (fun e h => ⟨(hI.1 _ (he e h).1).le, (hI.1 _ (he e h).2).le⟩)
  obtain ⟨d', s, e2, hs⟩ := find_fold nV d d1 d2
  refine ⟨s.card, ?_, ?_⟩
  · unfold components
    simp only [e1, bind, Except.bind] at e2 ⊢
    rw [e2]
  -- classes of vertices and classes of numbers
  have up : ∀ u v, Conn (fun u v => ∃ e ∈ es, fst e = u ∧ snd e = v) u v →
      Conn (fun u v => ∃ e ∈ es, number vs (fst e) = u ∧ number vs (snd e) = v) (number vs u) (number vs v) := by
    intro u v h
    induction h with
    | rel _ _ h =>
      obtain ⟨e, h1, rfl, rfl⟩ := h
      exact .rel _ _ ⟨e, h1, rfl, rfl⟩
    | refl => exact .refl _
    | symm _ _ _ ih => exact .symm _ _ ih
    | trans _ _ _ _ _ i1 i2 => exact .trans _ _ _ i1 i2
  have down : ∀ a b, Conn (fun u v => ∃ e ∈ es, number vs (fst e) = u ∧ number vs (snd e) = v) a b →
      a = b ∨ ∃ u v, ex u ∧ ex v ∧ number vs u = a ∧ number vs v = b ∧ Conn (fun u v => ∃ e ∈ es, fst e = u ∧ snd e = v) u v := by
    intro a b h
    induction h with
    | rel _ _ h =>
      obtain ⟨e, h1, rfl, rfl⟩ := h
      exact Or.inr ⟨_, _, (he e h1).1, (he e h1).2, rfl, rfl, .rel _ _ ⟨e, h1, rfl, rfl⟩⟩
    | refl => exact Or.inl rfl
    | symm _ _ _ ih =>
      rcases ih with rfl | ⟨u, v, hu, hv, h1, h2, h3⟩
      · exact Or.inl rfl
      · exact Or.inr ⟨v, u, hv, hu, h2, h1, .symm _ _ h3⟩
    | trans _ _ _ _ _ i1 i2 =>
      rcases i1 with rfl | ⟨u, v, hu, hv, h1, h2, h3⟩
      · exact i2
      · rcases i2 with rfl | ⟨u', v', hu', hv', h1', h2', h3'⟩
        · exact Or.inr ⟨u, v, hu, hv, h1, h2, h3⟩
        · have : v = u' := hI.inj hv hu' (by rw [h2, h1'])
          subst this
          exact Or.inr ⟨u, v', hu, hv', h1, h2', .trans _ _ _ h3 h3'⟩
  have iff : ∀ u v, ex u → ex v → (d.root (number vs u) = d.root (number vs v) ↔
      Conn (fun u v => ∃ e ∈ es, fst e = u ∧ snd e = v) u v) := by
    intro u v hu hv
    rw [d3 _ (hI.1 u hu).le _ (hI.1 v hv).le]
    refine ⟨fun h => ?_, up u v⟩
    rcases down _ _ h with c | ⟨u', v', hu', hv', h1, h2, h3⟩
    · rw [hI.inj hu hv c]; exact .refl _
    · rwa [hI.inj hu' hu h1, hI.inj hv' hv h2] at h3
  have sur : ∀ r ∈ s, ∃ u, ex u ∧ d.root (number vs u) = r := by
    intro r hr
    rw [hs, Finset.mem_image] at hr
    obtain ⟨k, hk, rfl⟩ := hr
    obtain ⟨u, h1, h2⟩ := hI.2.1 k (Finset.mem_range.1 hk)
    exact ⟨u, h1, by rw [h2]⟩
  choose! g hg1 hg2 using sur
  refine ⟨s.toList.map g, by simp, ?_, ?_, ?_, ?_⟩
  · refine List.Nodup.map_on ?_ s.nodup_toList
    intro x hx y hy hxy
    rw [← hg2 x (by simpa using hx), ← hg2 y (by simpa using hy), hxy]
  · intro r hr
    obtain ⟨x, hx, rfl⟩ := List.mem_map.1 hr
    exact hg1 x (by simpa using hx)
  · intro v hv
    have hm : d.root (number vs v) ∈ s := by
      rw [hs]
      exact Finset.mem_image.2 ⟨_, Finset.mem_range.2 (hI.1 v hv), rfl⟩
    refine ⟨g (d.root (number vs v)), List.mem_map.2 ⟨_, by simpa using hm, rfl⟩, ?_⟩
    rw [← iff v _ hv (hg1 _ hm), hg2 _ hm]
  · intro r hr r' hr' hc
    obtain ⟨x, hx, rfl⟩ := List.mem_map.1 hr
    obtain ⟨y, hy, rfl⟩ := List.mem_map.1 hr'
    have hx' : x ∈ s := by simpa using hx
    have hy' : y ∈ s := by simpa using hy
    rw [← iff _ _ (hg1 x hx') (hg1 y hy'), hg2 x hx', hg2 y hy'] at hc
    rw [hc]

/-- Two vertices are joined by an edge. -/
def Mesh.Joined (m : Mesh) (u v : ℕ) : Prop := ∃ i, m.heLive i ∧ m.heVertex i = u ∧ m.tip i = v

theorem conn_of_imp {P Q : ℕ → ℕ → Prop} (h : ∀ a b, P a b → Conn Q a b) {a b : ℕ} (c : Conn P a b) : Conn Q a b := by
  induction c with
  | rel _ _ r => exact h _ _ r
  | refl => exact .refl _
  | symm _ _ _ ih => exact .symm _ _ ih
  | trans _ _ _ _ _ i1 i2 => exact .trans _ _ _ i1 i2

theorem IsClassCount.congr {ex : ℕ → Prop} {P Q : ℕ → ℕ → Prop} {n : ℕ} (h : ∀ a b, Conn P a b ↔ Conn Q a b)
    (hc : IsClassCount ex P n) : IsClassCount ex Q n := by
  obtain ⟨l, h1, h2, h3, h4, h5⟩ := hc
  refine ⟨l, h1, h2, h3, fun v hv => ?_, fun r hr r' hr' c => h5 r hr r' hr' ((h _ _).2 c)⟩
  obtain ⟨r, a, b⟩ := h4 v hv
  exact ⟨r, a, (h _ _).1 b⟩

/-- **C62, components.** On every valid manifold mesh `nConnectedComponents()` is the number of classes of vertices
joined by edges. -/
theorem Mesh.C62_components (m : Mesh) (hv : m.Valid) :
    ∃ n, m.nConnectedComponents = .ok n ∧ IsClassCount m.vLive m.Joined n := by
  obtain ⟨⟨vs, e1, r1, n1⟩, -, -, -, ⟨es, e2, r2, -⟩, -⟩ := C16_ranges m hv
  have tipE : ∀ i, m.heLive i → m.heVertex (twin i) = m.tip i := fun i hi => (hv.vertex_next hi).symm
  obtain ⟨n, h1, h2⟩ := components_spec (es := es) (fun e => m.heVertex (eHalfedge e)) (fun e => m.heVertex (twin (eHalfedge e)))
    r1 n1 (by
      intro e he
      have hl := (r2.2 e).1 he
      exact ⟨hv.vertex_live _ hl, hv.vertex_live _ (hv.twin_live _ hl)⟩)
  refine ⟨n, ?_, h2.congr (fun a b => ⟨conn_of_imp ?_, conn_of_imp ?_⟩)⟩
  · unfold nConnectedComponents
    rw [e1, e2]; exact h1
  · rintro a b ⟨e, he, rfl, rfl⟩
    have hl := (r2.2 e).1 he
    exact .rel _ _ ⟨_, hl, rfl, (tipE _ hl).symm⟩
  · rintro a b ⟨i, hi, rfl, rfl⟩
    rw [← tipE i hi]
    rcases Nat.even_or_odd' i with ⟨e, rfl | rfl⟩
    · exact .rel _ _ ⟨e, (r2.2 e).2 hi, rfl, rfl⟩
    · have hl : m.heLive (2 * e) := by
        have := hv.twin_live _ hi
        rwa [show twin (2 * e + 1) = 2 * e by rw [← twin_two_mul, twin_twin]] at this
      have ht : twin (2 * e + 1) = 2 * e := by rw [← twin_two_mul, twin_twin]
      refine .symm _ _ (.rel _ _ ⟨e, (r2.2 e).2 hl, ?_, ?_⟩)
      · show m.heVertex (2 * e) = _; rw [ht]
      · show m.heVertex (twin (2 * e)) = _; rw [← ht, twin_twin, ht]

/-- Two components: the list of a tetrahedron and a triangle next to it. -/
example : (Mesh.fromPolygons [[0, 1, 2], [0, 2, 3], [0, 3, 1], [1, 3, 2], [4, 5, 6]] >>= Mesh.nConnectedComponents) = .ok 2 := rfl

/-- **C62, indices.** On every valid mesh the index functions give the existing elements the numbers `0, 1, …` in index
order, as many as there are elements. -/
theorem Mesh.C62_indices (m : Mesh) (hv : m.Valid) :
    (∃ f, m.getVertexIndices = .ok f ∧ IsIndex f m.vLive m.nV) ∧
    (∃ f, m.getHalfedgeIndices = .ok f ∧ IsIndex f m.heLive m.nHe) ∧
    (∃ f, m.getCornerIndices = .ok f ∧ IsIndex f (fun i => m.heLive i ∧ ¬ m.ext i) m.nInt) ∧
    (∃ f, m.getEdgeIndices = .ok f ∧ IsIndex f (fun e => m.heLive (2 * e)) m.nE) ∧
    (∃ f, m.getFaceIndices = .ok f ∧ IsIndex f (fun f => m.fLive f ∧ f < m.nFFill) m.nF) ∧
    (∃ f, m.getBoundaryLoopIndices = .ok f ∧
      IsIndex f (fun b => b < m.nFCap ∧ m.fLive (m.nFCap - 1 - b) ∧ m.nFFill ≤ m.nFCap - 1 - b) m.nBL) := by
  obtain ⟨⟨a, a1, a2, a3⟩, ⟨b, b1, b2, b3⟩, ⟨c, c1, c2, c3⟩, -, ⟨d, d1, d2, d3⟩, ⟨e, e1, e2, e3⟩, ⟨g, g1, g2, g3⟩⟩ := C16_ranges m hv
  refine ⟨⟨number a, ?_, ?_⟩, ⟨number b, ?_, ?_⟩, ⟨number c, ?_, ?_⟩, ⟨number d, ?_, ?_⟩, ⟨number e, ?_, ?_⟩, ⟨number g, ?_, ?_⟩⟩
  · unfold getVertexIndices; rw [a1]; rfl
  · rw [← a3]; exact number_isIndex a2
  · unfold getHalfedgeIndices; rw [b1]; rfl
  · rw [← b3]; exact number_isIndex b2
  · unfold getCornerIndices; rw [c1]; rfl
  · rw [← c3]; exact number_isIndex c2
  · unfold getEdgeIndices; rw [d1]; rfl
  · rw [← d3]; exact number_isIndex d2
  · unfold getFaceIndices; rw [e1]; rfl
  · rw [← e3]; exact number_isIndex e2
  · unfold getBoundaryLoopIndices; rw [g1]; rfl
  · rw [← g3]; exact number_isIndex g2

/-- A vertex lies on the boundary: a halfedge of a boundary loop starts there. -/
def Mesh.OnBoundary (m : Mesh) (v : ℕ) : Prop := ∃ i, m.heLive i ∧ m.ext i ∧ m.heVertex i = v

theorem Mesh.Valid.vIsBoundary_iff {m : Mesh} (hv : m.Valid) {v : ℕ} (hl : m.vLive v) : m.vIsBoundary v ↔ m.OnBoundary v := by
  obtain ⟨h1, h2⟩ := hv.v_he v hl
  have hx : m.vIsBoundary v ↔ m.ext (twin (m.vHalfedge v)) := by
    unfold vIsBoundary heIsInterior faceIsBL ext; tauto
  rw [hx]
  constructor
  · intro h
    have ht := hv.twin_live _ h1
    refine ⟨m.heNext (twin (m.vHalfedge v)), hv.next_live _ ht, (hv.ext_next ht).2 h, ?_⟩
    rw [hv.vertex_next ht, twin_twin, h2]
  · rintro ⟨i, li, xi, rfl⟩
    exact hv.bdy_first i li xi

/-- **C62, interior vertices.** On every valid mesh `nInteriorVertices()` counts the vertices that are not on the
boundary; `getInteriorVertexIndices()` numbers these densely and gives the others `INVALID_IND`. -/
theorem Mesh.C62_interior (m : Mesh) (hv : m.Valid) :
    ∃ n f, m.nInteriorVertices = .ok n ∧ m.getInteriorVertexIndices = .ok f ∧
      IsIndex f (fun v => m.vLive v ∧ ¬ m.OnBoundary v) n ∧ ∀ v, m.vLive v → m.OnBoundary v → f v = INV := by
  obtain ⟨⟨l, e1, r1, -⟩, -⟩ := C16_ranges m hv
  have hr : IsRange (l.filter (fun v => ¬ m.vIsBoundary v)) (fun v => m.vLive v ∧ ¬ m.OnBoundary v) := by
    obtain ⟨h1, h2⟩ := filter_isRange (p := fun v => ¬ m.vIsBoundary v) r1
    refine ⟨h1, fun v => (h2 v).trans ?_⟩
    constructor
    · rintro ⟨a, b⟩; exact ⟨a, fun c => b ((hv.vIsBoundary_iff a).2 c)⟩
    · rintro ⟨a, b⟩; exact ⟨a, fun c => b ((hv.vIsBoundary_iff a).1 c)⟩
  have cnt : ∀ (l : List ℕ) (k : ℕ), l.foldl (fun n v => if ¬ m.vIsBoundary v then n + 1 else n) k =
      k + (l.filter (fun v => ¬ m.vIsBoundary v)).length := by
    intro l
    induction l with
    | nil => intro k; rfl
    | cons a l ih =>
      intro k
      rw [List.foldl_cons]
      by_cases h : m.vIsBoundary a
      · rw [if_neg (by simpa using h), ih, List.filter_cons_of_neg (by simpa using h)]
      · rw [if_pos h, ih, List.filter_cons_of_pos (by simpa using h), List.length_cons]; omega
  have nd := nodup_of_range r1
  obtain ⟨h1, h2⟩ := numberUnless_aux m.vIsBoundary l (fun _ => 0) 0 nd
  have hI := number_isIndex hr
  have same : ∀ v, ¬ m.vIsBoundary v → numberUnless m.vIsBoundary l v = number (l.filter (fun v => ¬ m.vIsBoundary v)) v :=
    fun v hb => h2 v (Or.inl hb)
  refine ⟨_, _, by unfold nInteriorVertices; rw [e1]; rfl, by unfold getInteriorVertexIndices; rw [e1]; rfl, ?_, ?_⟩
  · beta_reduce
    rw [cnt, Nat.zero_add]
    refine ⟨fun i hi => ?_, fun k hk => ?_, fun i j hi hj hij => ?_⟩
    · rw [same i (fun c => hi.2 ((hv.vIsBoundary_iff hi.1).1 c))]; exact hI.1 i hi
    · obtain ⟨i, hi, rfl⟩ := hI.2.1 k hk
      exact ⟨i, hi, same i (fun c => hi.2 ((hv.vIsBoundary_iff hi.1).1 c))⟩
    · rw [same i (fun c => hi.2 ((hv.vIsBoundary_iff hi.1).1 c)), same j (fun c => hj.2 ((hv.vIsBoundary_iff hj.1).1 c))]
      exact hI.2.2 i j hi hj hij
  · intro v hl hb
    exact h1 v ((r1.2 v).2 hl) ((hv.vIsBoundary_iff hl).2 hb)

open Mesh in
/-- The square has four vertices, all on the boundary; the tetrahedron has four interior ones. -/
example : square.nInteriorVertices = .ok 0 ∧ tetra.nInteriorVertices = .ok 4 := ⟨rfl, rfl⟩

/-- **C62, yes-or-no questions.** On every valid mesh `isTriangular()` tells whether every face has degree three, and
`hasBoundary()` whether there is a boundary halfedge; the version of the base class agrees. -/
theorem Mesh.C62_flags (m : Mesh) (hv : m.Valid) :
    (∃ b, m.isTriangular = .ok b ∧ (b = true ↔ ∀ f, m.fLive f → f < m.nFFill → m.fDegree f = .ok 3)) ∧
    (m.hasBoundary = true ↔ ∃ i, m.heLive i ∧ m.ext i) ∧ m.hasBoundaryLoop = .ok m.hasBoundary := by
  obtain ⟨-, -, -, -, ⟨es, e1, r1, -⟩, ⟨fs, e2, r2, -⟩, ⟨bs, e3, r3, n3⟩⟩ := C16_ranges m hv
  have hB : m.hasBoundary = true ↔ ∃ i, m.heLive i ∧ m.ext i := by
    unfold hasBoundary
    rw [decide_eq_true_iff]
    constructor
    · intro h
      rw [← n3] at h
      obtain ⟨b, hb⟩ := List.exists_mem_of_length_pos h
      obtain ⟨b1, b2, b3⟩ := (r3.2 b).1 hb
      obtain ⟨h1, h2⟩ := hv.f_he _ b2
      exact ⟨_, h1, by unfold ext; rw [h2]; exact b3⟩
    · rintro ⟨i, li, xi⟩
      have := hv.face_ext_region li xi
      rw [hv.cnt_bl]; omega
  refine ⟨⟨_, by unfold isTriangular; rw [e2]; rfl, ?_⟩, hB, ?_⟩
  · have tri : ∀ f, m.fLive f → (m.fIsTriangle f ↔ m.fDegree f = .ok 3) := by
      intro f hf
      obtain ⟨l, -, nd, hm, h0, hc, hd, -⟩ := C49_face_halfedges m hv f hf
      obtain ⟨hl, -⟩ := hv.f_he f hf
      have d2 := hv.deg_two _ hl
      have z0 : l[0]? = some (m.fHalfedge f) := h0
      have pos : 0 < l.length := by
        by_contra c
        rw [List.getElem?_eq_none (by omega)] at z0
        cases z0
      have c1 := hc _ _ z0
      have n1 : l.length ≠ 1 := by
        intro c
        rw [c] at c1
        simp only [Nat.mod_one] at c1
        rw [z0] at c1
        exact d2 (Option.some.inj c1).symm
      rw [Nat.zero_add, Nat.mod_eq_of_lt (by omega)] at c1
      have c2 := hc _ _ c1
      rw [hd]
      constructor
      · intro ht
        unfold fIsTriangle at ht
        have c3 := hc _ _ c2
        rw [← ht] at c3
        rw [Nat.mod_add_mod] at c3
        have inj : ∀ a b, a < l.length → b < l.length → l[a]? = l[b]? → a = b := by
          intro a b ha hb hab
          rw [List.getElem?_eq_getElem ha, List.getElem?_eq_getElem hb] at hab
          exact (nd.getElem_inj_iff).1 (Option.some.inj hab)
        have e := inj _ _ (Nat.mod_lt _ pos) pos (c3.trans z0.symm)
        have : l.length ∣ 3 := Nat.dvd_of_mod_eq_zero e
        have := (Nat.dvd_prime Nat.prime_three).1 this
        rcases this with c | c
        · exact absurd c n1
        · rw [c]
      · intro h
        injection h with h
        have c3 := hc _ _ c2
        rw [Nat.mod_add_mod, h] at c3
        unfold fIsTriangle
        have : l[0]? = some (m.heNext (m.heNext (m.heNext (m.fHalfedge f)))) := c3
        rw [z0] at this
        exact Option.some.inj this
    rw [Bool.not_eq_true', ← Bool.not_eq_true, List.any_eq_true]
    push Not
    constructor
    · intro h f hf hlt
      have := h f ((r2.2 f).2 ⟨hf, hlt⟩)
      exact (tri f hf).1 (by simpa using this)
    · intro h f hf
      obtain ⟨a, b⟩ := (r2.2 f).1 hf
      simpa using (tri f a).2 (h f a b)
  · unfold hasBoundaryLoop
    rw [e1]
    show Except.ok _ = _
    congr 1
    rw [Bool.eq_iff_iff, hB, List.any_eq_true]
    have bd : ∀ e, m.eIsBoundary e ↔ m.ext (twin (2 * e)) := by
      intro e; unfold eIsBoundary heIsInterior faceIsBL ext eHalfedge; tauto
    constructor
    · rintro ⟨e, he, hb⟩
      have hb' : m.eIsBoundary e := by simpa using hb
      exact ⟨_, hv.twin_live _ ((r1.2 e).1 he), (bd e).1 hb'⟩
    · rintro ⟨i, li, xi⟩
      rcases Nat.even_or_odd' i with ⟨e, rfl | rfl⟩
      · exact absurd xi (hv.edge_int e li)
      · rw [← twin_two_mul] at li xi
        refine ⟨e, (r1.2 e).2 ?_, by simpa using (bd e).2 xi⟩
        have := hv.twin_live _ li
        rwa [twin_twin] at this

open Mesh in
example : tetra.isTriangular = .ok true ∧ tetra.hasBoundary = false ∧ square.hasBoundary = true := ⟨rfl, rfl, rfl⟩

namespace GMesh

/-- Two vertices are joined by an edge. -/
def Joined (m : GMesh) (u v : ℕ) : Prop := ∃ i, m.heL i ∧ m.heVertex i = u ∧ m.tip i = v

/-- **C62, general meshes.** `nConnectedComponents()` is right for a general mesh if every edge is oriented and not on the
boundary (without this it fails, `C62_general_fails`). -/
theorem C62_general_partial (m : GMesh) (hv : m.Valid) (ho : ∀ e, m.eL e → m.isOriented e = true ∧ m.isBoundary e = false) :
    ∃ n, m.nConnectedComponents = .ok n ∧ IsClassCount m.vL m.Joined n := by
  obtain ⟨vs, e1, r1, n1⟩ := rangeList_isRange (fun v => decide (m.vHalfedge v ≠ INV)) m.nVFill
  obtain ⟨es, e2, r2, -⟩ := rangeList_isRange (fun e => decide (m.eHalfedge e ≠ INV)) m.nEFill
  have r1' : IsRange vs m.vL := ⟨r1.1, fun v => by rw [r1.2]; simp [vL]⟩
  have r2' : IsRange es m.eL := ⟨r2.1, fun v => by rw [r2.2]; simp [eL]⟩
  have n1' : vs.length = m.nV := by rw [n1, hv.cnt_v]; simp
  have tipE : ∀ e, m.eL e → m.heVertex (m.heSibling (m.eHalfedge e)) = m.tip (m.eHalfedge e) := by
    intro e he
    obtain ⟨h1, h2⟩ := hv.e_he e he
    obtain ⟨o1, o2⟩ := ho e he
    have hs := hv.sib_live _ h1
    have hne : m.heSibling (m.eHalfedge e) ≠ m.eHalfedge e := by
      intro c; unfold isBoundary at o2; rw [c] at o2; simp at o2
    have hor : m.heOrient (m.eHalfedge e) ≠ m.heOrient (m.heSibling (m.eHalfedge e)) := by
      unfold isOriented at o1
      simp only at o1
      rw [if_neg (fun c => hne c.symm)] at o1
      split_ifs at o1
      simpa using o1
    have hed : m.heEdge (m.eHalfedge e) = m.heEdge (m.heSibling (m.eHalfedge e)) :=
      (hv.edge_iff _ _ h1 hs).2 ⟨1, rfl⟩
    have := hv.orient _ _ h1 hs hed
    unfold aligned at this
    rw [if_neg hor] at this
    exact this.2.symm
  obtain ⟨n, h1, h2⟩ := components_spec (es := es) (fun e => m.heVertex (m.eHalfedge e))
    (fun e => m.heVertex (m.heSibling (m.eHalfedge e))) r1' n1' (by
      intro e he
      obtain ⟨hl, -⟩ := hv.e_he e ((r2'.2 e).1 he)
      exact ⟨hv.vertex_live _ hl, hv.vertex_live _ (hv.sib_live _ hl)⟩)
  refine ⟨n, ?_, h2.congr (fun a b => ⟨conn_of_imp ?_, conn_of_imp ?_⟩)⟩
  · unfold nConnectedComponents rangeVertices rangeEdges
    rw [e1, e2]; exact h1
  · rintro a b ⟨e, he, rfl, rfl⟩
    have hl := (r2'.2 e).1 he
    exact .rel _ _ ⟨_, (hv.e_he e hl).1, rfl, (tipE e hl).symm⟩
  · rintro a b ⟨i, hi, rfl, rfl⟩
    have hel := hv.edge_live i hi
    obtain ⟨hl, he⟩ := hv.e_he _ hel
    have ha := hv.orient _ _ hi hl he.symm
    have r : Conn (fun u v => ∃ e ∈ es, m.heVertex (m.eHalfedge e) = u ∧ m.heVertex (m.heSibling (m.eHalfedge e)) = v)
        (m.heVertex (m.eHalfedge (m.heEdge i))) (m.tip (m.eHalfedge (m.heEdge i))) :=
      .rel _ _ ⟨m.heEdge i, (r2'.2 _).2 hel, rfl, tipE _ hel⟩
    unfold aligned at ha
    split_ifs at ha
    · rw [ha.1, ha.2]; exact r
    · rw [ha.1, ha.2]; exact .symm _ _ r

/-- The single triangle as a general mesh. -/
def oneTriangle : Res GMesh := fromPolygons [[0, 1, 2]] [(0, 1), (1, 2), (0, 2)]

/-- **C62 fails** for general meshes with boundary: a single triangle is said to have three components, although its
vertices are joined. -/
theorem C62_general_fails : ∃ m : GMesh, m.Valid ∧ m.nConnectedComponents = .ok 3 ∧ IsClassCount m.vL m.Joined 1 := by
  obtain ⟨m, h1, hB⟩ := C24 [[0, 1, 2]] [(0, 1), (1, 2), (0, 2)] (by decide) (by decide) (by decide) (by decide) (by decide) (by decide)
  have hc : (oneTriangle >>= nConnectedComponents) = .ok 3 := rfl
  have hm : oneTriangle = .ok m := h1
  refine ⟨m, hB.valid, ?_, ⟨[0], rfl, by simp, ?_, ?_, ?_⟩⟩
  · rw [hm] at hc; exact hc
  · intro r hr
    rw [List.mem_singleton.1 hr, hB.v]; decide
  · intro v hv
    refine ⟨0, by simp, ?_⟩
    have hj : ∀ i, i < 3 → Conn m.Joined (m.heVertex i) (m.tip i) := fun i hi => .rel _ _ ⟨i, (hB.heL i).2 hi, rfl, rfl⟩
    have hx : (oneTriangle.map (fun m => (m.heVertex 0, m.tip 0, m.heVertex 1, m.tip 1))) = .ok (0, 1, 1, 2) := rfl
    rw [hm] at hx
    simp only [Except.map, Except.ok.injEq, Prod.mk.injEq] at hx
    obtain ⟨x1, x2, x3, x4⟩ := hx
    have j0 := hj 0 (by decide)
    have j1 := hj 1 (by decide)
    rw [x1, x2] at j0
    rw [x3, x4] at j1
    rw [hB.v] at hv
    have hv' : v = 0 ∨ v = 1 ∨ v = 2 := by simpa using hv
    rcases hv' with rfl | rfl | rfl
    · exact .refl _
    · exact .symm _ _ j0
    · exact .symm _ _ (.trans _ _ _ j0 j1)
  · intro r hr r' hr' _
    rw [List.mem_singleton.1 hr, List.mem_singleton.1 hr']

/-- The tetrahedron as a general mesh satisfies the hypotheses of `C62_general_partial`. -/
example : ((fromPolygons [[0, 1, 2], [0, 2, 3], [0, 3, 1], [1, 3, 2]] [(0, 1), (0, 2), (0, 3), (1, 2), (1, 3), (2, 3)]).map
    (fun m => (List.range m.nEFill).all (fun e => m.isOriented e && !m.isBoundary e))) = .ok true := rfl

end GMesh
end GC
