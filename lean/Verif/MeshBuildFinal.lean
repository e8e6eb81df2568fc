import Verif.MeshBuildLoops

/-! # The manifold polygon constructor: corners of the input and the final checks -/

namespace GC

/-! ### Polygon lists

The specification side: nothing here refers to the constructor. -/

/-- Polygon `f` of the list. -/
def polyAt (polys : List (List ℕ)) (f : ℕ) : List ℕ := polys.getD f []

/-- `c = (f, i)` is the position of a corner. -/
def IsCorner (polys : List (List ℕ)) (c : ℕ × ℕ) : Prop := c.1 < polys.length ∧ c.2 < (polyAt polys c.1).length

/-- The vertex at a corner. -/
def cornerV (polys : List (List ℕ)) (c : ℕ × ℕ) : ℕ := (polyAt polys c.1).getD c.2 0

/-- The next corner of the polygon. -/
def cornerNext (polys : List (List ℕ)) (c : ℕ × ℕ) : ℕ × ℕ := (c.1, (c.2 + 1) % (polyAt polys c.1).length)

/-- The directed side that leaves a corner. -/
def side (polys : List (List ℕ)) (c : ℕ × ℕ) : ℕ × ℕ := (cornerV polys c, cornerV polys (cornerNext polys c))

theorem polyAt_eq {polys : List (List ℕ)} {f : ℕ} (hf : f < polys.length) : polyAt polys f = polys[f] := by
  unfold polyAt; rw [List.getD_eq_getElem?_getD, List.getElem?_eq_getElem hf]; rfl

theorem succ_mod {i n : ℕ} (h : i < n) : (i + 1) % n = if i + 1 = n then 0 else i + 1 := by
  split_ifs with h1
  · rw [h1, Nat.mod_self]
  · exact Nat.mod_eq_of_lt (by omega)

theorem IsCorner.next {polys : List (List ℕ)} {c : ℕ × ℕ} (h : IsCorner polys c) : IsCorner polys (cornerNext polys c) :=
  ⟨h.1, Nat.mod_lt _ (by have := h.2; omega)⟩

theorem cornerNext_inj {polys : List (List ℕ)} {c c' : ℕ × ℕ} (h : IsCorner polys c) (h' : IsCorner polys c')
    (e : cornerNext polys c = cornerNext polys c') : c = c' := by
  obtain ⟨f, i⟩ := c
  obtain ⟨g, j⟩ := c'
  simp only [cornerNext, Prod.mk.injEq] at e
  obtain ⟨rfl, e⟩ := e
  have h1 := h.2
  have h2 := h'.2
  simp only at h1 h2
  congr 1
  rw [succ_mod h1, succ_mod h2] at e
  split_ifs at e <;> omega

theorem cornerNext_iter {polys : List (List ℕ)} {f i : ℕ} (h : IsCorner polys (f, i)) (k : ℕ) :
    (cornerNext polys)^[k] (f, i) = (f, (i + k) % (polyAt polys f).length) := by
  induction k with
  | zero => rw [Nat.add_zero, Nat.mod_eq_of_lt h.2]; rfl
  | succ k ih =>
    rw [Function.iterate_succ_apply', ih]
    simp only [cornerNext]
    rw [Nat.mod_add_mod, Nat.add_assoc]

/-- The corners of one polygon are one cycle. -/
theorem cornerNext_orb {polys : List (List ℕ)} {c c' : ℕ × ℕ} (h : IsCorner polys c) (h' : IsCorner polys c')
    (e : c.1 = c'.1) : Orb (cornerNext polys) c c' := by
  obtain ⟨f, i⟩ := c
  obtain ⟨g, j⟩ := c'
  simp only at e
  subst e
  have h1 := h.2
  have h2 := h'.2
  simp only at h1 h2
  refine ⟨(polyAt polys f).length - i + j, ?_⟩
  rw [cornerNext_iter h]
  congr 1
  rw [show i + ((polyAt polys f).length - i + j) = (polyAt polys f).length + j by omega, Nat.add_mod_left, Nat.mod_eq_of_lt h2]

namespace Mesh

theorem sidesOf_getD {polys : List (List ℕ)} {c : ℕ × ℕ} (h : c.2 < (polyAt polys c.1).length) :
    (sidesOf (polys.getD c.1 [])).getD c.2 (0, 0) = side polys c := by
  unfold sidesOf
  rw [List.getD_eq_getElem?_getD, List.getElem?_map, List.getElem?_range (show c.2 < (polys.getD c.1 []).length from h)]
  rfl

theorem mem_sides {polys : List (List ℕ)} {k : ℕ × ℕ} :
    k ∈ polys.flatMap sidesOf ↔ ∃ c, IsCorner polys c ∧ side polys c = k := by
  rw [List.mem_flatMap]
  constructor
  · rintro ⟨p, hp, hk⟩
    obtain ⟨f, hf, rfl⟩ := List.getElem_of_mem hp
    unfold sidesOf at hk
    rw [List.mem_map] at hk
    obtain ⟨i, hi, rfl⟩ := hk
    rw [List.mem_range] at hi
    have hpa : polyAt polys f = polys[f] := by
      unfold polyAt; rw [List.getD_eq_getElem?_getD, List.getElem?_eq_getElem hf]; rfl
    refine ⟨(f, i), ⟨hf, by simp only [hpa]; exact hi⟩, ?_⟩
    simp only [side, cornerV, cornerNext, hpa]
  · rintro ⟨c, hc, rfl⟩
    have hpa := polyAt_eq hc.1
    refine ⟨polyAt polys c.1, by rw [hpa]; exact List.getElem_mem hc.1, ?_⟩
    rw [← sidesOf_getD hc.2]
    exact getD_mem (by rw [sidesOf_length]; exact hc.2)

theorem nodup_sides {polys : List (List ℕ)} :
    (polys.flatMap sidesOf).Nodup ↔ ∀ c c', IsCorner polys c → IsCorner polys c' → side polys c = side polys c' → c = c' := by
  have hpa : ∀ f (hf : f < polys.length), polyAt polys f = polys[f] := by
    intro f hf
    unfold polyAt; rw [List.getD_eq_getElem?_getD, List.getElem?_eq_getElem hf]; rfl
  have hmem : ∀ c, IsCorner polys c → side polys c ∈ sidesOf (polyAt polys c.1) := by
    intro c hc
    rw [← sidesOf_getD hc.2]
    exact getD_mem (by rw [sidesOf_length]; exact hc.2)
  rw [List.nodup_flatMap]
  constructor
  · rintro ⟨h1, h2⟩ c c' hc hc' he
    have hf : c.1 = c'.1 := by
      by_contra hne
      rw [List.pairwise_iff_getElem] at h2
      rcases Nat.lt_or_gt_of_ne hne with h | h
      · have := h2 c.1 c'.1 hc.1 hc'.1 h
        refine this (hmem c hc |> fun x => by rwa [hpa _ hc.1] at x) ?_
        rw [he]
        exact hmem c' hc' |> fun x => by rwa [hpa _ hc'.1] at x
      · have := h2 c'.1 c.1 hc'.1 hc.1 h
        refine this (hmem c' hc' |> fun x => by rwa [hpa _ hc'.1] at x) ?_
        rw [← he]
        exact hmem c hc |> fun x => by rwa [hpa _ hc.1] at x
    refine Prod.ext hf ?_
    have h3 := h1 (polys[c.1]'hc.1) (List.getElem_mem hc.1)
    rw [← sidesOf_getD hc.2, ← sidesOf_getD hc'.2, ← hf] at he
    have h4 := hc'.2
    rw [← hf] at h4
    rw [← hpa _ hc.1] at h3
    exact getD_inj h3 (by rw [sidesOf_length]; exact hc.2) (by rw [sidesOf_length]; exact h4) he
  · intro h
    constructor
    · intro p hp
      obtain ⟨f, hf, rfl⟩ := List.getElem_of_mem hp
      rw [← hpa f hf, List.nodup_iff_injective_getElem]
      intro ⟨i, hi⟩ ⟨j, hj⟩ he
      rw [sidesOf_length] at hi hj
      have e1 : (sidesOf (polyAt polys f))[i]'(by rw [sidesOf_length]; exact hi) = side polys (f, i) := by
        rw [← sidesOf_getD (c := (f, i)) hi, List.getD_eq_getElem?_getD, List.getElem?_eq_getElem]; rfl
      have e2 : (sidesOf (polyAt polys f))[j]'(by rw [sidesOf_length]; exact hj) = side polys (f, j) := by
        rw [← sidesOf_getD (c := (f, j)) hj, List.getD_eq_getElem?_getD, List.getElem?_eq_getElem]; rfl
      simp only at he
      rw [e1, e2] at he
      have := h (f, i) (f, j) ⟨hf, hi⟩ ⟨hf, hj⟩ he
      simp only [Prod.mk.injEq] at this
      exact Fin.ext this.2
    · rw [List.pairwise_iff_getElem]
      intro f g hf hg hfg k h1 h2
      rw [← hpa f hf] at h1
      rw [← hpa g hg] at h2
      obtain ⟨i, hi, e1⟩ := List.getElem_of_mem h1
      obtain ⟨j, hj, e2⟩ := List.getElem_of_mem h2
      have e1' : side polys (f, i) = k := by
        rw [← sidesOf_getD (c := (f, i)) (by rw [sidesOf_length] at hi; exact hi), ← e1, List.getD_eq_getElem?_getD,
          List.getElem?_eq_getElem]; rfl
      have e2' : side polys (g, j) = k := by
        rw [← sidesOf_getD (c := (g, j)) (by rw [sidesOf_length] at hj; exact hj), ← e2, List.getD_eq_getElem?_getD,
          List.getElem?_eq_getElem]; rfl
      rw [sidesOf_length] at hi hj
      have := h (f, i) (g, j) ⟨hf, hi⟩ ⟨hg, hj⟩ (e1'.trans e2'.symm)
      simp only [Prod.mk.injEq] at this
      omega

/-! ### The halfedge of a corner -/

section
variable {nV : ℕ} {polys : List (List ℕ)} {s : PolySt}

theorem Built.corner (hB : Built nV polys.length polys s) {c : ℕ × ℕ} (hc : IsCorner polys c) :
    ∃ h, s.look (side polys c) = some h ∧ s.m.heFace h = c.1 ∧
      s.look (side polys (cornerNext polys c)) = some (s.m.heNext h) := by
  obtain ⟨-, h2⟩ := hB.link c.1 hc.1
  obtain ⟨h, a, b, d⟩ := h2 c.2 (by rw [sidesOf_length]; exact hc.2)
  rw [sidesOf_getD hc.2] at a
  rw [sidesOf_length] at d
  have := sidesOf_getD (c := cornerNext polys c) hc.next.2
  refine ⟨h, a, b, ?_⟩
  rw [← this]
  exact d

theorem Built.first (hB : Built nV polys.length polys s) {f : ℕ} (hf : IsCorner polys (f, 0)) :
    s.look (side polys (f, 0)) = some (s.m.fHalfedge f) := by
  have := (hB.link f hf.1).1
  rwa [sidesOf_getD (c := (f, 0)) hf.2] at this

/-- Every entered halfedge belongs to a corner. -/
theorem Built.of_look (hB : Built nV polys.length polys s) {k : ℕ × ℕ} {h : ℕ} (hk : s.look k = some h) :
    ∃ c, IsCorner polys c ∧ side polys c = k ∧ s.m.heFace h = c.1 ∧
      s.look (side polys (cornerNext polys c)) = some (s.m.heNext h) := by
  obtain ⟨c, hc, he⟩ := mem_sides.1 ((hB.core.dom k).1 (by rw [hk]; simp))
  obtain ⟨h', a, b, d⟩ := hB.corner hc
  rw [he, hk] at a
  cases a
  exact ⟨c, hc, he, b, d⟩

/-- A halfedge has a face exactly if it has been entered. -/
theorem Built.face_iff (hB : Built nV polys.length polys s) (hF : polys.length < INV) {h : ℕ} (hh : h < 2 * s.m.nEFill) :
    s.m.heFace h ≠ INV ↔ s.look (s.m.heVertex h, s.m.heVertex (twin h)) = some h := by
  constructor
  · intro h1
    exact (hB.core.all h hh).resolve_right (fun h2 => h1 h2.1)
  · intro h1
    obtain ⟨c, hc, -, h2, -⟩ := hB.of_look h1
    rw [h2]
    have := hc.1
    omega

theorem Built.open (hB : Built nV polys.length polys s) (hF : polys.length < INV) (h3 : ∀ p ∈ polys, 3 ≤ p.length)
    (hu : ∀ i < 2 * s.m.nEFill, ∀ j < 2 * s.m.nEFill, s.m.heNext i = INV → s.m.heNext j = INV →
      s.m.heVertex i = s.m.heVertex j → i = j) : Open s.m (2 * s.m.nEFill) := by
  have hC := hB.core
  have hcap := hC.cap
  have hnd := nodup_sides.1 hC.nodup
  have hx : ∀ h < 2 * s.m.nEFill, s.m.heFace h = INV → s.m.heNext h = INV := by
    intro h hh hf
    refine ((hC.all h hh).resolve_left ?_).2.1
    intro h1
    exact (hB.face_iff hF hh).2 h1 hf
  refine ⟨⟨_, rfl⟩, by omega, hC.he, hC.other.2.2, ?_, hx, ?_, ?_, ?_, ?_⟩
  · intro h hh hf
    have hl := (hB.face_iff hF hh).1 hf
    obtain ⟨c, hc, he, hfc, hn⟩ := hB.of_look hl
    obtain ⟨h1, h2, -⟩ := hC.vert _ _ hn
    obtain ⟨h', a, b, -⟩ := hB.corner hc.next
    rw [hn] at a
    cases a
    refine ⟨?_, h1, ?_, ?_⟩
    · rw [hfc, hC.other.2.1]; exact hc.1
    · rw [h2]
      have := congrArg Prod.snd he
      exact this
    · rw [b, hfc]; rfl
  · intro i hi j hj hfi hfj he
    obtain ⟨c, hc, hce, -, hn⟩ := hB.of_look ((hB.face_iff hF hi).1 hfi)
    obtain ⟨c', hc', hce', -, hn'⟩ := hB.of_look ((hB.face_iff hF hj).1 hfj)
    rw [he] at hn
    have h1 := cornerNext_inj hc hc' (hnd _ _ hc.next hc'.next (hC.look_inj hn hn'))
    have h2 := (hB.face_iff hF hi).1 hfi
    have h3 := (hB.face_iff hF hj).1 hfj
    rw [← hce, h1, hce', h3] at h2
    exact (Option.some.inj h2).symm
  · intro h hh hf
    -- a halfedge without face is odd
    have h1 : h % 2 = 1 := by
      by_contra h0
      have h2 := hC.even (h / 2) (by omega)
      rw [show 2 * (h / 2) = h by omega] at h2
      exact (hB.face_iff hF hh).2 h2 hf
    have h2 := hC.even (h / 2) (by omega)
    have h3 : twin h = 2 * (h / 2) := by
      rw [← twin_two_mul_add (h / 2)]
      congr 1
      omega
    rw [h3, hB.face_iff hF (by omega)]
    exact h2
  · intro f hf
    rw [hC.other.2.1] at hf
    have hp : polys[f] ∈ polys := List.getElem_mem hf
    have hpa : polyAt polys f = polys[f] := by
      unfold polyAt; rw [List.getD_eq_getElem?_getD, List.getElem?_eq_getElem hf]; rfl
    have hc : IsCorner polys (f, 0) := ⟨hf, by have := h3 _ hp; simp only [hpa]; omega⟩
    have h1 := hB.first hc
    obtain ⟨h', a, b, -⟩ := hB.corner hc
    rw [h1] at a
    cases a
    exact ⟨(hC.vert _ _ h1).1, b⟩
  · intro i hi j hj h1 h2 h3
    exact hu i hi j hj (hx i hi h1) (hx j hj h2) h3

end

/-- The check for boundary vertices. -/
theorem checkBdy_ok (m : Mesh) :
    ((∃ o, (List.range m.nHe).foldlM (checkBdy m) (fun _ => false) = .ok o) ∧
      ∀ i < m.nHe, ∀ j < m.nHe, m.heNext i = INV → m.heNext j = INV → m.heVertex i = m.heVertex j → i = j) ∨
    ((List.range m.nHe).foldlM (checkBdy m) (fun _ => false) = .error .throw ∧
      ∃ i < m.nHe, ∃ j < m.nHe, m.heNext i = INV ∧ m.heNext j = INV ∧ m.heVertex i = m.heVertex j ∧ i ≠ j) := by
  have := foldlM_inv_err (f := checkBdy m) (l := List.range m.nHe)
    (fun p o => (∀ v, o v = true ↔ ∃ i ∈ p, m.heNext i = INV ∧ m.heVertex i = v) ∧
      ∀ i ∈ p, ∀ j ∈ p, m.heNext i = INV → m.heNext j = INV → m.heVertex i = m.heVertex j → i = j)
    (fun e => e = .throw ∧ ∃ i < m.nHe, ∃ j < m.nHe, m.heNext i = INV ∧ m.heNext j = INV ∧ m.heVertex i = m.heVertex j ∧ i ≠ j)
    (s0 := fun _ => false) ⟨by simp, by simp⟩ (by
    rintro p x q o hl ⟨hP, hQ⟩
    have hmem : ∀ i, i ∈ p ++ x :: q → i < m.nHe := by
      intro i hi
      rw [← hl, List.mem_range] at hi
      exact hi
    have hnd : (p ++ x :: q).Nodup := by rw [← hl]; exact List.nodup_range
    have hxp : ∀ i ∈ p, i ≠ x := fun i hi => (List.nodup_append.1 hnd).2.2 i hi x (by simp)
    unfold checkBdy
    by_cases hx : m.heNext x = INV
    · rw [if_pos hx]
      simp only
      by_cases ho : o (m.heVertex x) = true
      · right
        rw [if_pos ho]
        obtain ⟨i, hi, h1, h2⟩ := (hP _).1 ho
        exact ⟨_, rfl, rfl, i, hmem i (by simp [hi]), x, hmem x (by simp), h1, hx, h2, hxp i hi⟩
      · left
        rw [if_neg ho]
        refine ⟨_, rfl, ?_, ?_⟩
        · intro v
          simp only [List.mem_append, List.mem_singleton]
          split_ifs with h
          · simp only [true_iff]
            exact ⟨x, .inr rfl, hx, h.symm⟩
          · rw [hP]
            constructor
            · rintro ⟨i, hi, h1⟩; exact ⟨i, .inl hi, h1⟩
            · rintro ⟨i, hi | rfl, h1, h2⟩
              · exact ⟨i, hi, h1, h2⟩
              · exact absurd h2.symm h
        · intro i hi j hj h1 h2 h3
          rw [List.mem_append, List.mem_singleton] at hi hj
          rcases hi with hi | rfl <;> rcases hj with hj | rfl
          · exact hQ i hi j hj h1 h2 h3
          · exact absurd ((hP _).2 ⟨i, hi, h1, h3⟩) ho
          · exact absurd ((hP _).2 ⟨j, hj, h2, h3.symm⟩) ho
          · rfl
    · left
      rw [if_neg hx]
      refine ⟨o, rfl, ?_, ?_⟩
      · intro v
        rw [hP]
        constructor
        · rintro ⟨i, hi, h1⟩; exact ⟨i, by simp [hi], h1⟩
        · rintro ⟨i, hi, h1, h2⟩
          rw [List.mem_append, List.mem_singleton] at hi
          rcases hi with hi | rfl
          · exact ⟨i, hi, h1, h2⟩
          · exact absurd h1 hx
      · intro i hi j hj h1 h2 h3
        rw [List.mem_append, List.mem_singleton] at hi hj
        rcases hi with hi | rfl
        · rcases hj with hj | rfl
          · exact hQ i hi j hj h1 h2 h3
          · exact absurd h2 hx
        · exact absurd h1 hx)
  rcases this with ⟨o, h1, -, h2⟩ | ⟨e, h1, rfl, h2⟩
  · exact .inl ⟨⟨o, h1⟩, fun i hi j hj => h2 i (List.mem_range.2 hi) j (List.mem_range.2 hj)⟩
  · exact .inr ⟨h1, h2⟩

end Mesh
end GC
