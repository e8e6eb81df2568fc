import Verif.TwinBuildSides
import Verif.MeshBuildCheck

/-! # The constructor from polygons and twins: the loop over the faces, and what holds before the boundary loops are made -/

namespace GC.Mesh

variable {polys : List (List ℕ)} {twins : List (List (ℕ × ℕ))} {nV F I n : ℕ} {s : PolySt}

theorem addPolyAt_ok (hG : Glued polys twins) (hF : polys.length < INV) (hC : TInv polys twins nV F 0 n s)
    (hf : F < polys.length) (hn : 4 * (n + (polyAt polys F).length + 1) < INV) :
    ∃ s', addPolyAt s ((polyAt polys F, twins.getD F []), F) = .ok s' ∧
      TInv polys twins nV (F + 1) 0 (n + (polyAt polys F).length) s' := by
  have hdeg : 3 ≤ (polyAt polys F).length := by
    refine hG.deg _ ?_
    rw [polyAt_eq hf]
    exact List.getElem_mem hf
  unfold addPolyAt
  simp only
  rw [if_neg (not_not.2 (hG.shape F hf))]
  obtain ⟨⟨s1, p1⟩, e1, hC1, hp1⟩ := range_inv (f := addSideAt (polyAt polys F) (twins.getD F []) F) (n := (polyAt polys F).length)
    (fun I s => TInv polys twins nV F I (n + I) s.1 ∧ PrevIs s.1 F I s.2) (s0 := (s, none)) ⟨hC, .inl ⟨rfl, rfl⟩⟩ (by
      rintro I ⟨s, p⟩ hI ⟨h1, h2⟩
      rcases addSideAt_ok hG hF h1 ⟨hf, hI⟩ h2 with ⟨s', q, e, h3, h4⟩ | ⟨-, h3⟩
      · exact ⟨_, e, h3, .inr ⟨I, q, rfl, rfl, h4⟩⟩
      · omega)
  rw [e1]
  simp only at hC1 hp1
  obtain ⟨i, q, hi, rfl, hq⟩ : ∃ i q, (polyAt polys F).length = i + 1 ∧ p1 = some q ∧ s1.look (F, i) = some q := by
    rcases hp1 with ⟨h, -⟩ | h
    · omega
    · exact h
  refine ⟨_, rfl, ?_⟩
  have hb : ∀ k, Before polys (F + 1) 0 k ↔ Before polys F (polyAt polys F).length k := by
    intro k
    unfold Before
    refine and_congr_right (fun hk => ?_)
    have h1 := hk.2
    constructor
    · rintro (h | ⟨-, h⟩)
      · by_cases e : k.1 = F
        · exact .inr ⟨e, by rw [← e]; exact h1⟩
        · exact .inl (by omega)
      · omega
    · rintro (h | ⟨h, -⟩)
      · exact .inl (by omega)
      · exact .inl (by omega)
  have hbI : ∀ k h, s1.look k = some h → Before polys F (polyAt polys F).length k := fun k h e => (hC1.dom k).1 (by rw [e]; simp)
  exact {
    he := hC1.he, hef := hC1.hef, e := hC1.e, cap := hC1.cap, few := hC1.few, other := hC1.other
    dom := fun k => by rw [hb]; exact hC1.dom k
    inj := hC1.inj, vert := hC1.vert, pair := hC1.pair, pair' := hC1.pair'
    all := fun h hh => by
      rcases hC1.all h hh with a | ⟨a, b, c⟩
      · exact .inl a
      · refine .inr ⟨a, ?_, c⟩
        simp only
        rw [upd_ne, b]
        rintro rfl
        have := hC1.face _ _ hq
        rw [a] at this
        simp only at this
        omega
    even := hC1.even
    vhe := fun v => by
      rcases hC1.vhe v with ⟨a, b⟩ | a
      · exact .inl ⟨a, fun k hk => b k ((hb k).1 hk)⟩
      · exact .inr a
    face := hC1.face
    next := fun f j a b ha hb => by
      simp only
      rw [upd_ne]
      · exact hC1.next f j a b ha hb
      · rintro rfl
        have := hC1.inj _ _ _ ha hq
        simp only [Prod.mk.injEq] at this
        have h2 := (hbI _ _ hb).1.2
        simp only at h2
        rw [this.1] at h2
        omega
    last := fun f j a b ha hf' hj hb => by
      simp only
      by_cases e : f = F
      · subst e
        have : j = i := by omega
        subst this
        rw [hq] at ha
        cases ha
        rw [upd_same]
        exact hC1.first _ _ hb
      · rw [upd_ne]
        · exact hC1.last f j a b ha (by omega) hj hb
        · rintro rfl
          have := hC1.inj _ _ _ ha hq
          simp only [Prod.mk.injEq] at this
          exact e this.1
    first := hC1.first }

theorem TInv.start (nV : ℕ) : TInv polys twins nV 0 0 0 ⟨empty nV polys.length, fun _ => none⟩ := by
  have hd : ∀ k, ¬ Before polys 0 0 k := by
    rintro k ⟨-, h | ⟨-, h⟩⟩ <;> exact absurd h (Nat.not_lt_zero _)
  exact {
    he := rfl, hef := rfl, e := rfl, cap := ⟨rfl, le_rfl, le_rfl, show (0 : ℕ) < INV by decide⟩, few := le_rfl
    other := ⟨rfl, rfl, rfl⟩
    dom := fun k => ⟨fun h => absurd rfl h, fun h => absurd h (hd k)⟩
    inj := fun k k' h e => by cases e
    vert := fun k h e => by cases e
    pair := fun k k' h e => by cases e
    pair' := fun k h t e => by cases e
    all := fun h hh => absurd hh (Nat.not_lt_zero _)
    even := fun e he => absurd he (Nat.not_lt_zero _)
    vhe := fun v => .inl ⟨rfl, fun k hk => absurd hk (hd k)⟩
    face := fun k h e => by cases e
    next := fun f i h g e => by cases e
    last := fun f i h g e => by cases e
    first := fun f h e => by cases e }

/-- The loop over the faces. -/
theorem polysAt_ok (hG : Glued polys twins) (hF : polys.length < INV) (hl : 4 * (polys.flatten.length + 1) < INV) (nV : ℕ) :
    ∃ s, (polys.zip twins).zipIdx.foldlM addPolyAt ⟨empty nV polys.length, fun _ => none⟩ = .ok s ∧
      TInv polys twins nV polys.length 0 polys.flatten.length s := by
  have hlen : ∀ F ≤ polys.length, (polys.take F).flatten.length ≤ polys.flatten.length := by
    intro F _
    conv_rhs => rw [← List.take_append_drop F polys]
    rw [List.flatten_append, List.length_append]
    omega
  obtain ⟨s, e, h⟩ := foldlM_inv (f := addPolyAt) (l := (polys.zip twins).zipIdx)
    (fun p s => TInv polys twins nV p.length 0 (polys.take p.length).flatten.length s)
    (s0 := ⟨empty nV polys.length, fun _ => none⟩) (TInv.start nV) (by
      intro p x q s hp hC
      have h1 : ((polys.zip twins).zipIdx)[p.length]? = some x := by rw [hp]; simp
      have hf : p.length < polys.length := by
        have := congrArg List.length hp
        have h2 := hG.len
        simp only [List.length_zipIdx, List.length_zip, List.length_append, List.length_cons] at this
        omega
      have hf' : p.length < twins.length := by rw [← hG.len]; exact hf
      have hx : x = ((polyAt polys p.length, twins.getD p.length []), p.length) := by
        rw [List.getElem?_zipIdx, Option.map_eq_some_iff] at h1
        obtain ⟨a, h2, h3⟩ := h1
        rw [List.getElem?_zip_eq_some] at h2
        rw [← h3, polyAt_eq hf, List.getD_eq_getElem?_getD, List.getElem?_eq_getElem hf']
        rw [List.getElem?_eq_getElem hf, List.getElem?_eq_getElem hf'] at h2
        obtain ⟨a1, a2⟩ := a
        simp only [Option.some.injEq] at h2
        simp [h2.1, h2.2]
      have hsum : (polys.take (p.length + 1)).flatten.length = (polys.take p.length).flatten.length + (polyAt polys p.length).length := by
        rw [List.take_add_one, List.getElem?_eq_getElem hf, polyAt_eq hf, List.flatten_append, List.length_append]
        congr 1
        simp only [Option.toList_some, List.flatten_singleton]
      have hle := hlen (p.length + 1) (by omega)
      obtain ⟨s', e, h⟩ := addPolyAt_ok hG hF hC hf (by omega)
      refine ⟨s', by rw [hx]; exact e, ?_⟩
      rw [List.length_append, List.length_singleton, hsum]
      exact h)
  refine ⟨s, e, ?_⟩
  have h2 := hG.len
  have : (polys.zip twins).zipIdx.length = polys.length := by
    rw [List.length_zipIdx, List.length_zip]
    omega
  rw [this, List.take_length] at h
  exact h

/-! ### All faces entered -/

/-- Every side has a halfedge; `next` follows the sides. -/
theorem TInv.corner (hC : TInv polys twins nV polys.length 0 n s) {c : ℕ × ℕ} (hc : IsCorner polys c) :
    ∃ h, s.look c = some h ∧ s.m.heFace h = c.1 ∧ s.look (cornerNext polys c) = some (s.m.heNext h) := by
  have ex : ∀ c, IsCorner polys c → ∃ h, s.look c = some h := fun c hc =>
    Option.ne_none_iff_exists'.1 ((hC.dom c).2 ⟨hc, .inl hc.1⟩)
  obtain ⟨h, hh⟩ := ex c hc
  obtain ⟨g, hg⟩ := ex _ hc.next
  refine ⟨h, hh, hC.face _ _ hh, ?_⟩
  rw [hg]
  obtain ⟨f, i⟩ := c
  have hi := hc.2
  simp only at hi
  have hn : cornerNext polys (f, i) = (f, if i + 1 = (polyAt polys f).length then 0 else i + 1) := by
    unfold cornerNext
    simp only
    rw [succ_mod hi]
  rw [hn] at hg
  split_ifs at hg with e
  · rw [hC.last f i h g hh hc.1 e hg]
  · rw [hC.next f i h g hh hg]

/-- Every halfedge with a face belongs to a side. -/
theorem TInv.face_iff (hC : TInv polys twins nV polys.length 0 n s) (hF : polys.length < INV) {h : ℕ} (hh : h < 2 * s.m.nEFill) :
    s.m.heFace h ≠ INV ↔ ∃ c, IsCorner polys c ∧ s.look c = some h := by
  constructor
  · intro h1
    obtain ⟨k, hk⟩ := (hC.all h hh).resolve_right (fun h2 => h1 h2.1)
    exact ⟨k, ((hC.dom k).1 (by rw [hk]; simp)).1, hk⟩
  · rintro ⟨c, hc, hk⟩
    rw [hC.face _ _ hk]
    have := hc.1
    omega

/-- A halfedge without face belongs to a side without twin. -/
theorem TInv.ext (hG : Glued polys twins) (hC : TInv polys twins nV polys.length 0 n s) {h : ℕ}
    (hh : h < 2 * s.m.nEFill) (hf : s.m.heFace h = INV) (hF : polys.length < INV) :
    ∃ c, IsCorner polys c ∧ s.look c = some (twin h) ∧ twinAt twins c = (INV, INV) := by
  rcases hC.all h hh with ⟨k, hk⟩ | ⟨-, -, k, hk, hk'⟩
  · have h1 := hC.face _ _ hk
    have h2 := ((hC.dom k).1 (by rw [hk]; simp)).1.1
    omega
  · have hc := ((hC.dom k).1 (by rw [hk]; simp)).1
    refine ⟨k, hc, hk, ?_⟩
    rcases hG.pair k hc with h1 | ⟨h1, -⟩
    · exact h1
    · exact absurd hk' ((hC.dom _).2 ⟨h1, .inl h1.1⟩)

/-- No two sides without twin end at the same vertex. -/
def OneGap (polys : List (List ℕ)) (twins : List (List (ℕ × ℕ))) : Prop :=
  ∀ c c', IsCorner polys c → IsCorner polys c' → twinAt twins c = (INV, INV) → twinAt twins c' = (INV, INV) →
    cornerV polys (cornerNext polys c) = cornerV polys (cornerNext polys c') → c = c'

theorem TInv.noTwin (hC : TInv polys twins nV polys.length 0 n s) {c : ℕ × ℕ} (hF : polys.length < INV)
    (ht : twinAt twins c = (INV, INV)) {h : ℕ} (hl : s.look c = some h) :
    s.m.heFace (twin h) = INV ∧ s.m.heNext (twin h) = INV := by
  obtain ⟨a, -⟩ := hC.vert _ _ hl
  rcases hC.all (twin h) (twin_lt_even a) with ⟨k, hk⟩ | ⟨b, b', -⟩
  · have h1 := hC.pair _ _ _ hl hk
    have h2 := ((hC.dom k).1 (by rw [hk]; simp)).1.1
    rw [h1, ht] at h2
    simp only at h2
    omega
  · exact ⟨b, b'⟩

theorem TInv.bare (hG : Glued polys twins) (hC : TInv polys twins nV polys.length 0 n s) (hF : polys.length < INV) {h : ℕ}
    (hh : h < 2 * s.m.nEFill) : s.m.heNext h = INV ↔ s.m.heFace h = INV := by
  constructor
  · intro e
    by_contra hf
    obtain ⟨c, hc, hl⟩ := (hC.face_iff hF hh).1 hf
    obtain ⟨h', a, -, b⟩ := hC.corner hc
    rw [hl] at a
    cases a
    have h1 := (hC.vert _ _ b).1
    have := hC.cap
    omega
  · intro e
    obtain ⟨c, hc, hl, ht⟩ := hC.ext hG hh e hF
    have := (hC.noTwin hF ht hl).2
    rwa [twin_twin] at this

/-- The check of the boundary vertices passes just if no two sides without twin end at the same vertex. -/
theorem TInv.gap_iff (hG : Glued polys twins) (hC : TInv polys twins nV polys.length 0 n s) (hF : polys.length < INV) :
    (∀ i < s.m.nHe, ∀ j < s.m.nHe, s.m.heNext i = INV → s.m.heNext j = INV → s.m.heVertex i = s.m.heVertex j → i = j) ↔
      OneGap polys twins := by
  rw [hC.he]
  constructor
  · intro hu c c' hc hc' ht ht' hv
    obtain ⟨h, hl, -⟩ := hC.corner hc
    obtain ⟨h', hl', -⟩ := hC.corner hc'
    obtain ⟨a1, -, a3⟩ := hC.vert _ _ hl
    obtain ⟨b1, -, b3⟩ := hC.vert _ _ hl'
    have := hu _ (twin_lt_even a1) _ (twin_lt_even b1) (hC.noTwin hF ht hl).2 (hC.noTwin hF ht' hl').2 (by rw [a3, b3, hv])
    rw [twin_inj this] at hl
    exact hC.inj _ _ _ hl hl'
  · intro hg i hi j hj hni hnj hv
    obtain ⟨c, hc, hl, ht⟩ := hC.ext hG hi ((hC.bare hG hF hi).1 hni) hF
    obtain ⟨c', hc', hl', ht'⟩ := hC.ext hG hj ((hC.bare hG hF hj).1 hnj) hF
    obtain ⟨-, -, a3⟩ := hC.vert _ _ hl
    obtain ⟨-, -, b3⟩ := hC.vert _ _ hl'
    rw [twin_twin] at a3 b3
    have := hg c c' hc hc' ht ht' (by rw [← a3, ← b3, hv])
    rw [this, hl'] at hl
    exact (twin_inj (Option.some.inj hl)).symm

theorem TInv.open (hG : Glued polys twins) (hC : TInv polys twins nV polys.length 0 n s) (hF : polys.length < INV)
    (hg : OneGap polys twins) : Open s.m (2 * s.m.nEFill) := by
  have hcap := hC.cap
  have hu := (hC.gap_iff hG hF).2 hg
  rw [hC.he] at hu
  refine ⟨⟨_, rfl⟩, by omega, hC.he, hC.other.2.2, ?_, fun h hh => (hC.bare hG hF hh).2, ?_, ?_, ?_,
    fun i hi j hj a b => hu i hi j hj ((hC.bare hG hF hi).2 a) ((hC.bare hG hF hj).2 b)⟩
  · intro h hh hf
    obtain ⟨c, hc, hl⟩ := (hC.face_iff hF hh).1 hf
    obtain ⟨h', a, b, d⟩ := hC.corner hc
    rw [hl] at a
    cases a
    obtain ⟨e1, e2, -⟩ := hC.vert _ _ d
    refine ⟨by rw [b, hC.other.2.1]; exact hc.1, e1, by rw [e2, (hC.vert _ _ hl).2.2], by rw [b, hC.face _ _ d]; rfl⟩
  · intro i hi j hj hfi hfj he
    obtain ⟨c, hc, hl⟩ := (hC.face_iff hF hi).1 hfi
    obtain ⟨c', hc', hl'⟩ := (hC.face_iff hF hj).1 hfj
    obtain ⟨h', a, -, d⟩ := hC.corner hc
    rw [hl] at a
    cases a
    obtain ⟨h', a, -, d'⟩ := hC.corner hc'
    rw [hl'] at a
    cases a
    rw [he] at d
    have := cornerNext_inj hc hc' (hC.inj _ _ _ d d')
    rw [this, hl'] at hl
    exact (Option.some.inj hl).symm
  · intro h hh hf
    obtain ⟨c, hc, hl, -⟩ := hC.ext hG hh hf hF
    rw [hC.face _ _ hl]
    have := hc.1
    omega
  · intro f hf
    rw [hC.other.2.1] at hf
    have hc : IsCorner polys (f, 0) := ⟨hf, by
      have := hG.deg polys[f] (List.getElem_mem hf)
      simp only [polyAt_eq hf]
      omega⟩
    obtain ⟨h, a, b, -⟩ := hC.corner hc
    rw [hC.first _ _ a]
    exact ⟨(hC.vert _ _ a).1, b⟩

end GC.Mesh
