import Verif.SurgeryLoop
import Verif.Props.Collapse

/-! # C84: `cutAlongEdges` cuts a mesh open along a tree of edges -/

namespace GC
namespace Mesh
variable {m m' : Mesh}

/-! ### What the cut mesh looks like around a vertex -/

/-- From one corner of a vertex to the next one, across an edge that is not cut. -/
def Turn (m : Mesh) (P : Finset ℕ) (a b : ℕ) : Prop :=
  m.heLive a ∧ ¬ m.ext a ∧ ¬ m.ext (twin a) ∧ a / 2 ∉ P ∧ b = m.heNext (twin a)

theorem CutOpen.glue {m0 : Mesh} (hv0 : m0.Valid) {P : Finset ℕ} {ρ : ℕ → ℕ} (I : CutOpen m0 m P ρ) {a : ℕ} (la : m0.heLive a) (xa : ¬ m0.ext a)
    (h : ¬ m.ext (twin (ρ a))) : ρ a = a ∧ m0.Turn P a (m0.heNext (twin a)) ∧ ρ (m0.heNext (twin a)) = m.heNext (twin (ρ a)) ∧
      m0.heLive (m0.heNext (twin a)) ∧ ¬ m0.ext (m0.heNext (twin a)) := by
  have aP : a / 2 ∉ P := fun c => h (I.rim a la xa c)
  have ra := I.fix a la aP
  obtain ⟨l1, x1, -, -⟩ := I.keep a la xa
  have l2 := I.valid.twin_live _ l1
  obtain ⟨b, lb, xb, hb⟩ := I.onto _ l2 h
  have bP : b / 2 ∉ P := by
    intro c
    have := I.rim b lb xb c
    rw [hb, twin_twin] at this
    exact x1 this
  have rb := I.fix b lb bP
  have hba : b = twin a := by rw [← rb, hb, ra]
  subst hba
  refine ⟨ra, ⟨la, xa, xb, aP, rfl⟩, ?_, hv0.next_live _ lb, by rw [hv0.ext_next lb]; exact xb⟩
  rw [← (I.keep _ lb xb).2.2.2, hb]

/-- Two corners of the cut mesh have the same vertex if and only if the old mesh leads from one to the other around a vertex without crossing a
cut edge (or the old boundary). -/
theorem CutOpen.corner_iff {m0 : Mesh} (hv0 : m0.Valid) {P : Finset ℕ} {ρ : ℕ → ℕ} (I : CutOpen m0 m P ρ) {i j : ℕ} (li : m0.heLive i)
    (xi : ¬ m0.ext i) (lj : m0.heLive j) (xj : ¬ m0.ext j) :
    m.heVertex (ρ i) = m.heVertex (ρ j) ↔ Relation.EqvGen (m0.Turn P) i j := by
  have hv := I.valid
  constructor
  · intro h
    obtain ⟨l1, x1, -, -⟩ := I.keep i li xi
    obtain ⟨l2, x2, -, -⟩ := I.keep j lj xj
    by_cases ob : m.OnBdy (m.heVertex (ρ i))
    · obtain ⟨w, lw, vw, xw⟩ := ob
      have lw' := hv.twin_live _ lw
      have xw' := hv.ext_twin lw xw
      obtain ⟨b, lb, xb, hb⟩ := I.onto _ (hv.next_live _ lw') (by rw [hv.ext_next lw']; exact xw')
      have all : ∀ {z}, m.heLive z → m.heVertex z = m.heVertex w → m.heLive z ∧ m.heVertex z = m.heVertex w ∧
          (m.ext z ∨ ∃ a, m0.heLive a ∧ ¬ m0.ext a ∧ ρ a = z ∧ Relation.EqvGen (m0.Turn P) b a) := by
        intro z lz vz
        refine hv.out_closed lw (P := fun z => m.heLive z ∧ m.heVertex z = m.heVertex w ∧
          (m.ext z ∨ ∃ a, m0.heLive a ∧ ¬ m0.ext a ∧ ρ a = z ∧ Relation.EqvGen (m0.Turn P) b a)) ⟨lw, rfl, .inl xw⟩ ?_ lz vz
        rintro y ⟨ly, vy, hy⟩
        have ly' := hv.twin_live _ ly
        refine ⟨hv.next_live _ ly', by rw [hv.vertex_vNext ly]; exact vy, ?_⟩
        rcases hy with xy | ⟨a, la, xa, rfl, ra⟩
        · have := hv.bdy_unique _ _ ly lw xy xw vy
          subst this
          exact .inr ⟨b, lb, xb, hb, .refl _⟩
        · by_cases c : m.ext (twin (ρ a))
          · exact .inl ((hv.ext_next ly').2 c)
          · obtain ⟨-, t, e, ln, xn⟩ := I.glue hv0 la xa c
            exact .inr ⟨_, ln, xn, e, ra.trans _ _ _ (.rel _ _ t)⟩
      have get : ∀ k, m0.heLive k → ¬ m0.ext k → m.heVertex (ρ k) = m.heVertex w → Relation.EqvGen (m0.Turn P) b k := by
        intro k lk xk vk
        obtain ⟨q1, q2, -, -⟩ := I.keep k lk xk
        obtain ⟨-, -, hz⟩ := all q1 vk
        obtain ⟨a, la, xa, ha, ra⟩ := hz.resolve_left q2
        rwa [I.inj _ _ la xa lk xk ha] at ra
      exact ((get i li xi vw.symm).symm _ _).trans _ _ _ (get j lj xj (by rw [vw, h]))
    · have := hv.out_closed l1 (P := fun z => m.heVertex z = m.heVertex (ρ i) ∧ ∃ a, m0.heLive a ∧ ¬ m0.ext a ∧ ρ a = z ∧
        Relation.EqvGen (m0.Turn P) i a) ⟨rfl, i, li, xi, rfl, .refl _⟩ (by
          rintro y ⟨vy, a, la, xa, rfl, ra⟩
          have ly := (I.keep a la xa).1
          have ly' := hv.twin_live _ ly
          have v' : m.heVertex (m.heNext (twin (ρ a))) = m.heVertex (ρ i) := by rw [hv.vertex_vNext ly]; exact vy
          have c : ¬ m.ext (twin (ρ a)) := fun c => ob ⟨_, hv.next_live _ ly', v', (hv.ext_next ly').2 c⟩
          obtain ⟨-, t, e, ln, xn⟩ := I.glue hv0 la xa c
          exact ⟨v', _, ln, xn, e, ra.trans _ _ _ (.rel _ _ t)⟩) l2 h.symm
      obtain ⟨-, a, la, xa, ha, ra⟩ := this
      rwa [I.inj _ _ la xa lj xj ha] at ra
  · intro h
    clear li xi lj xj
    induction h with
    | rel a b h =>
      obtain ⟨la, xa, xt, aP, rfl⟩ := h
      have lt := hv0.twin_live _ la
      have ra := I.fix a la aP
      have rt := I.fix _ lt (by rw [twin_div]; exact aP)
      have l1 := (I.keep a la xa).1
      rw [← (I.keep _ lt xt).2.2.2, rt, ra, hv.vertex_vNext (by rw [← ra]; exact l1)]
    | refl => rfl
    | symm _ _ _ ih => exact ih.symm
    | trans _ _ _ _ _ ih1 ih2 => exact ih1.trans ih2

/-! ### The theorem -/

/-- A tree or forest of edges, in the words of counts: every part of it has more vertices than edges. -/
def Forest (m : Mesh) (T : Finset ℕ) : Prop := ∀ S ⊆ T, S.Nonempty → S.card < (m.touched S).card

/-- The parents as promised in surgery.h: every halfedge of a face has the halfedge that it comes from. -/
def ParentsOf (m m' : Mesh) (ρ parent : ℕ → ℕ) : Prop :=
  (∀ i, m.heLive i → ¬ m.ext i → parent (ρ i) = i) ∧ (∀ j, m'.heLive j → m'.ext j → parent j = INV)

/-- The full property: along every tree of edges without vertices on the boundary the mesh is cut open, with the right counts, and the new mesh knows
its parents. -/
def C84_statement : Prop :=
  ∀ (m : Mesh), m.Valid → (∀ i, m.heLive i → ¬ m.ext i → m.heNext (m.heNext (m.heNext i)) = i) →
    ∀ (cut : ℕ → Bool) (T : Finset ℕ), (∀ e, e ∈ T ↔ m.heLive (2 * e) ∧ cut e = true) → T.Nonempty → m.Forest T →
      (∀ e ∈ T, ¬ m.OnBdy (m.heVertex (2 * e)) ∧ ¬ m.OnBdy (m.heVertex (2 * e + 1))) → ¬ m.nearLimit T.card →
      ∀ fuel, T.card < fuel → ∃ m' ρ parent, m.cutAlongEdges cut fuel = .ok (m', parent) ∧ CutOpen m m' T ρ ∧ m.ParentsOf m' ρ parent

theorem cutAlongEdges_ok (hv : m.Valid) (tri : ∀ i, m.heLive i → ¬ m.ext i → m.heNext (m.heNext (m.heNext i)) = i)
    {cut : ℕ → Bool} {T : Finset ℕ} (hT : ∀ e, e ∈ T ↔ m.heLive (2 * e) ∧ cut e = true) (ne : T.Nonempty) (forest : m.Forest T)
    (inner : ∀ e ∈ T, ¬ m.OnBdy (m.heVertex (2 * e)) ∧ ¬ m.OnBdy (m.heVertex (2 * e + 1))) (packed : m.nHe = m.nHeFill)
    (room : ¬ m.nearLimit T.card) {fuel : ℕ} (hf : T.card < fuel) :
    ∃ P m' ρ parent, m.cutAlongEdges cut fuel = .ok (bump P.card m', parent) ∧ P ⊆ T ∧ P.Nonempty ∧ m.OneTree P ∧
      (∀ f ∈ T, m.Touches P f → f ∈ P) ∧ (∃ e ∈ P, m.Leaf T e) ∧ CutOpen m m' P ρ ∧ m.ParentsOf m' ρ parent := by
  obtain ⟨-, -, -, -, ⟨es, hes, res, -⟩, -⟩ := C16_ranges m hv
  obtain ⟨t, ht⟩ := ne
  have hdat : ∀ e, m.heLive (2 * e) → cutData cut es e = cut e := by
    intro e le
    unfold cutData
    have := (foldl_max_above es 0).2 e ((res.2 e).2 le)
    rw [if_neg (by omega)]
  have hfill : ∀ e, m.heLive (2 * e) → e < m.nEFill := by
    intro e le
    have := le.1
    have := hv.he_fill
    omega
  have hT' : ∀ e, e ∈ T ↔ m.heLive (2 * e) ∧ cutData cut es e = true := by
    intro e
    rw [hT]
    exact and_congr_right (fun le => by rw [hdat e le])
  have H : CutSpec m (cutData cut es) T := by
    refine ⟨hv, hT', fun e he => ?_, forest, inner, room⟩
    unfold cutData at he
    split at he
    · cases he
    · have := hfill t ((hT t).1 ht).1
      have := foldl_max_below es 0 m.nEFill (by omega) (fun x hx => hfill x ((res.2 x).1 hx))
      omega
  obtain ⟨o, ho, hs, hn⟩ := cutLeaf_ok hv hT' es (fun e he => (res.2 e).1 he)
  obtain ⟨f, fT, fL⟩ := exists_leaf (forest T (Finset.Subset.refl _) ⟨t, ht⟩)
  rcases o with _ | e
  · exact absurd fL (hn rfl f ((res.2 f).2 ((hT f).1 fT).1) fT)
  obtain ⟨-, eT, eL⟩ := hs e rfl
  have hpar : ∀ i, m.heLive i → i < m.nHe := fun i li => packed ▸ li.1
  have R : CutRun m T ⟨m, fun i => if i < m.nHe then i else INV, Function.update (fun _ => false) e true, [e]⟩ m ∅ id := by
    refine ⟨rfl, CutOpen.refl hv tri, Finset.empty_subset _, List.nodup_singleton _, fun g hg => ?_, fun _ => rfl, fun g => ?_, fun g _ h => ?_, ?_, ?_,
      fun i li _ => if_pos (hpar i li)⟩
    · rw [List.mem_singleton] at hg
      subst hg
      exact ⟨eT, Finset.notMem_empty _, fun h => absurd h Finset.not_nonempty_empty⟩
    · by_cases c : g = e
      · subst c; simp
      · simp [c]
    · rcases h with h | h <;> simp [touched] at h
    · simp [touched]
    · intro S hS ne
      exact absurd (Finset.subset_empty.1 hS) ne.ne_empty
  obtain ⟨s, m', P, ρ, h1, R', hq, all⟩ := R.loop H fuel (by simpa using hf)
  have eP : e ∈ P := all e (.inr (List.mem_singleton_self _))
  obtain ⟨-, -, -, ⟨xs, hxs, rxs, -⟩, -⟩ := C16_ranges m' R'.opn.valid
  have hxs' : s.m.rangeExteriorHalfedges = .ok xs := by
    rw [R'.mesh]
    exact hxs
  refine ⟨P, m', ρ, xs.foldl (fun p i => Function.update p i INV) s.parent, ?_, R'.sub, ⟨e, eP⟩, R'.joined, fun g gT tg => ?_, ⟨e, eP, eL⟩, R'.opn,
    fun i li xi => ?_, fun j lj xj => ?_⟩
  · unfold cutAlongEdges
    simp only [bind, Except.bind, hes, ho, h1, hxs']
    rw [R'.mesh]
  · have := R'.closed g gT tg
    rw [hq] at this
    exact this.resolve_right List.not_mem_nil
  · rw [foldl_inv, if_neg, R'.parent i li xi]
    intro c
    exact (R'.opn.keep i li xi).2.1 ((rxs.2 _).1 c).2
  · rw [foldl_inv, if_pos ((rxs.2 j).2 ⟨lj, xj⟩)]

/-- C84. On a triangle mesh without gaps in the storage of halfedges, and for a tree `T` of edges that has no vertex on the boundary: the mesh is cut
open along `T`, except that `nInteriorHalfedges` is too large by the number of cuts; the halfedges of the faces have the right parents, and the exterior
halfedges have none. -/
theorem C84_partial (m : Mesh) (hv : m.Valid) (tri : ∀ i, m.heLive i → ¬ m.ext i → m.heNext (m.heNext (m.heNext i)) = i)
    (cut : ℕ → Bool) (T : Finset ℕ) (hT : ∀ e, e ∈ T ↔ m.heLive (2 * e) ∧ cut e = true) (ne : T.Nonempty) (forest : m.Forest T) (joined : m.OneTree T)
    (inner : ∀ e ∈ T, ¬ m.OnBdy (m.heVertex (2 * e)) ∧ ¬ m.OnBdy (m.heVertex (2 * e + 1))) (packed : m.nHe = m.nHeFill)
    (room : ¬ m.nearLimit T.card) (fuel : ℕ) (hf : T.card < fuel) :
    ∃ m' ρ parent, m.cutAlongEdges cut fuel = .ok ({ m' with nInt := m'.nInt + T.card }, parent) ∧ CutOpen m m' T ρ ∧ m.ParentsOf m' ρ parent := by
  obtain ⟨P, m', ρ, parent, h1, sub, neP, -, cl, -, op, pr⟩ := cutAlongEdges_ok hv tri hT ne forest inner packed room hf
  have := joined P sub neP cl
  subst this
  exact ⟨m', ρ, parent, h1, op, pr⟩

/-- C84. If the edges form several trees, only one of them is cut: the one with the first leaf found. No exception tells the caller. -/
theorem C84_one_tree (m : Mesh) (hv : m.Valid) (tri : ∀ i, m.heLive i → ¬ m.ext i → m.heNext (m.heNext (m.heNext i)) = i)
    (cut : ℕ → Bool) (T : Finset ℕ) (hT : ∀ e, e ∈ T ↔ m.heLive (2 * e) ∧ cut e = true) (ne : T.Nonempty) (forest : m.Forest T)
    (inner : ∀ e ∈ T, ¬ m.OnBdy (m.heVertex (2 * e)) ∧ ¬ m.OnBdy (m.heVertex (2 * e + 1))) (packed : m.nHe = m.nHeFill)
    (room : ¬ m.nearLimit T.card) (fuel : ℕ) (hf : T.card < fuel) :
    ∃ P m' ρ parent, m.cutAlongEdges cut fuel = .ok ({ m' with nInt := m'.nInt + P.card }, parent) ∧ P ⊆ T ∧ P.Nonempty ∧ m.OneTree P ∧
      (∀ f ∈ T, m.Touches P f → f ∈ P) ∧ (P = T ↔ m.OneTree T) ∧ CutOpen m m' P ρ ∧ m.ParentsOf m' ρ parent := by
  obtain ⟨P, m', ρ, parent, h1, sub, neP, jn, cl, -, op, pr⟩ := cutAlongEdges_ok hv tri hT ne forest inner packed room hf
  exact ⟨P, m', ρ, parent, h1, sub, neP, jn, cl, ⟨fun h => h ▸ jn, fun h => h P sub neP cl⟩, op, pr⟩

/-- C84. Without a leaf (in particular if no edge is to be cut, or along a closed curve) the call throws and nothing is changed. -/
theorem C84_no_leaf (m : Mesh) (hv : m.Valid) (cut : ℕ → Bool) (T : Finset ℕ) (hT : ∀ e, e ∈ T ↔ m.heLive (2 * e) ∧ cut e = true)
    (leaf : ∀ e ∈ T, ¬ m.Leaf T e) (fuel : ℕ) : m.cutAlongEdges cut fuel = .error .throw := by
  obtain ⟨-, -, -, -, ⟨es, hes, res, -⟩, -⟩ := C16_ranges m hv
  have hT' : ∀ e, e ∈ T ↔ m.heLive (2 * e) ∧ cutData cut es e = true := by
    intro e
    rw [hT]
    refine and_congr_right (fun le => ?_)
    unfold cutData
    have := (foldl_max_above es 0).2 e ((res.2 e).2 le)
    rw [if_neg (by omega)]
  obtain ⟨o, ho, hs, -⟩ := cutLeaf_ok hv hT' es (fun e he => (res.2 e).1 he)
  unfold cutAlongEdges
  simp only [bind, Except.bind, hes, ho]
  rcases o with _ | e
  · rfl
  · exact absurd (hs e rfl).2.2 (leaf e (hs e rfl).2.1)

/-- C84. The vertices of the cut mesh: two corners have the same vertex if and only if they were corners of one vertex with no cut in between. -/
theorem C84_corners {m0 m : Mesh} (hv0 : m0.Valid) {T : Finset ℕ} {ρ : ℕ → ℕ} (I : CutOpen m0 m T ρ) (i j : ℕ) (li : m0.heLive i)
    (xi : ¬ m0.ext i) (lj : m0.heLive j) (xj : ¬ m0.ext j) :
    m.heVertex (ρ i) = m.heVertex (ρ j) ↔ Relation.EqvGen (m0.Turn T) i j := I.corner_iff hv0 li xi lj xj

/-! ### Examples -/

/-- The names of the parents and the counts that a call leaves. -/
def cutRun (m : Mesh) (T : List ℕ) (fuel : ℕ) : Option (List ℕ × List ℕ) :=
  (m.cutAlongEdges (fun e => T.contains e) fuel).toOption.map fun r =>
    ([r.1.nHe, r.1.nInt, r.1.nE, r.1.nV, r.1.nF, r.1.nBL], (List.range r.1.nHeFill).map r.2)

theorem octa_closed (v : ℕ) : ¬ octa.OnBdy v := by
  rintro ⟨i, li, -, xi⟩
  have : ∀ i < 24, ¬ octa.ext i := by decide +kernel
  exact this i li.1 xi

theorem octa_tri : ∀ i, octa.heLive i → ¬ octa.ext i → octa.heNext (octa.heNext (octa.heNext i)) = i := by
  have : ∀ i < 24, octa.heNext (octa.heNext (octa.heNext i)) = i := by decide +kernel
  exact fun i li _ => this i li.1

theorem octa_cut (T : List ℕ) (h : ∀ e ∈ T, e < 12) (e : ℕ) : e ∈ T.toFinset ↔ octa.heLive (2 * e) ∧ T.contains e = true := by
  have live : ∀ e < 12, octa.heLive (2 * e) := by decide +kernel
  rw [List.mem_toFinset, List.contains_iff_mem]
  exact ⟨fun c => ⟨live e (h e c), c⟩, fun c => c.2⟩

theorem octa_room (k : ℕ) (h : k ≤ 12) : ¬ octa.nearLimit k := by
  have : octa.nVFill = 6 ∧ octa.nHeFill = 24 ∧ octa.nFFill = 8 ∧ octa.nBL = 0 := by decide +kernel
  obtain ⟨a, b, c, d⟩ := this
  unfold nearLimit INV
  omega

/-- Path of two edges: the hypotheses of `C84_partial` hold. -/
example : ∃ m' ρ parent, octa.cutAlongEdges (fun e => [0, 1].contains e) 3 = .ok ({ m' with nInt := m'.nInt + 2 }, parent) ∧
    CutOpen octa m' {0, 1} ρ ∧ octa.ParentsOf m' ρ parent :=
  C84_partial octa octa_valid octa_tri _ {0, 1} (octa_cut [0, 1] (by decide)) (by decide)
    (by
      have : ∀ S ∈ ({0, 1} : Finset ℕ).powerset, S.Nonempty → S.card < (octa.touched S).card := by decide +kernel
      exact fun S hS => this S (Finset.mem_powerset.2 hS))
    (by
      have : ∀ S ∈ ({0, 1} : Finset ℕ).powerset, S.Nonempty → (∀ f ∈ ({0, 1} : Finset ℕ),
        (octa.heVertex (2 * f) ∈ octa.touched S ∨ octa.heVertex (2 * f + 1) ∈ octa.touched S) → f ∈ S) → S = {0, 1} := by decide +kernel
      exact fun S hS => this S (Finset.mem_powerset.2 hS))
    (fun e _ => ⟨octa_closed _, octa_closed _⟩) (by decide +kernel) (octa_room 2 (by norm_num)) 3 (by decide)

/-- The hypotheses of `C84_no_leaf` hold for a triangle of edges. -/
example : octa.cutAlongEdges (fun e => [0, 1, 2].contains e) 5 = .error .throw :=
  C84_no_leaf octa octa_valid _ {0, 1, 2} (octa_cut [0, 1, 2] (by decide))
    (by
      have : ∀ e ∈ ({0, 1, 2} : Finset ℕ), ¬ (octa.ends {0, 1, 2} (octa.heVertex (2 * e)) = 1 ∨ octa.ends {0, 1, 2} (octa.heVertex (2 * e + 1)) = 1) := by
        decide +kernel
      exact this) 5

/-! ### Findings -/

/-- Of the two edges 0 and 3, which have no vertex in common, only the first is cut. -/
theorem C84_second_tree_left : octa.cutRun [0, 3] 5 = octa.cutRun [0] 5 ∧ octa.cutRun [0, 3] 5 ≠ none := by decide +kernel

/-- The counter of interior halfedges is wrong: 25 instead of 24 after one cut of the octahedron. -/
theorem C84_wrong_count : (octa.cutRun [0] 5).map (·.1) = some [26, 25, 13, 6, 8, 1] := by decide +kernel

/-- The full property fails already there. -/
theorem C84_fails : ¬ C84_statement := by
  intro h
  have for' : octa.Forest {0} := by
    have : ∀ S ∈ ({0} : Finset ℕ).powerset, S.Nonempty → S.card < (octa.touched S).card := by decide +kernel
    exact fun S hS => this S (Finset.mem_powerset.2 hS)
  obtain ⟨m', ρ, parent, h1, h2, -⟩ := h octa octa_valid octa_tri (fun e => [0].contains e) {0} (octa_cut [0] (by decide)) (by decide) for'
    (fun e _ => ⟨octa_closed _, octa_closed _⟩) (octa_room 1 (by norm_num)) 5 (by decide)
  have w := C84_wrong_count
  unfold cutRun at w
  rw [h1] at w
  simp only [Except.toOption, Option.map_some, Option.some.injEq, List.cons.injEq] at w
  have := h2.count.2.2.2.1
  have o : octa.nInt = 24 := by decide +kernel
  omega

/-- The exterior halfedges of the old boundary lose their parents too: halfedge 1 of the wheel is at the old boundary, whose edges are not cut, but after a
cut along edge 3 its parent is the empty halfedge. -/
theorem C84_old_boundary : wheel.heLive 1 ∧ wheel.ext 1 ∧ (wheel.cutRun [3] 5).map (fun r => r.2[1]?) = some (some INV) := by decide +kernel

/-- With gaps in the storage (here after one collapse) halfedges of faces are left without parents: only the first `nHalfedges()` entries are filled. -/
theorem C84_gaps : ((octa.collapseEdgeTriangular 0).toOption.map fun r =>
    (r.1.nHe, r.1.nHeFill, (List.range 24).filter (fun i => decide (18 ≤ i ∧ r.1.heNext i ≠ INV ∧ r.1.heFace i < r.1.nFFill)),
      (r.1.cutRun [1] 5).map (fun r => r.2.drop 18))) =
    some (18, 24, [18, 19, 20, 21, 22, 23], some [INV, INV, INV, INV, INV, INV, 3, INV]) := by decide +kernel

/-- With a boundary vertex on the tree the outcome depends on the names: in the octahedron with a slit at edge 0 the path over the edges 9 and 10 from the
boundary to the inside is cut, the path over 9 and 8 gives an exception, since there the leaf inside has the smaller index. -/
theorem C84_boundary_order : ((octa.cutAlongEdges (fun e => [0].contains e) 5).toOption.map fun r =>
    ((r.1.cutRun [9, 10] 5).map (·.1), (r.1.cutRun [8, 9] 5).isNone, [r.1.heVertex 18, r.1.heVertex 19, r.1.heVertex 16, r.1.heVertex 17,
      r.1.heVertex 20, r.1.heVertex 21])) =
    some (some [30, 27, 15, 8, 8, 1], true, [1, 5, 5, 2, 5, 3]) := by decide +kernel

end Mesh
end GC
