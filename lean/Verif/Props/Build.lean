import Verif.GMeshBuild
import Verif.GMeshBasic
import Verif.Loop

/-!
# C24: the general constructor groups halfedges into edges by endpoints
-/

namespace GC.GMesh

/-! ### Faces and halfedges -/

/-- The sides of one polygon. -/
def side (poly : List ℕ) : List (ℕ × ℕ) := (List.range poly.length).map (fun i => (poly.getD i 0, tipOf poly i))

theorem sides_snoc (ps : List (List ℕ)) (p : List ℕ) : sides (ps ++ [p]) = sides ps ++ side p := by
  simp [sides, side]

theorem sides_length (ps : List (List ℕ)) : (sides ps).length = ps.flatten.length := by
  induction ps with
  | nil => rfl
  | cons p ps ih =>
    simp only [sides, List.flatMap_cons, List.length_append, List.length_map, List.length_range,
      List.flatten_cons] at ih ⊢
    omega

/-- The counters and arrays that the first phase does not touch. -/
structure SameA (nV nF : ℕ) (m : GMesh) : Prop where
  v : m.nV = nV ∧ m.nVFill = nV ∧ m.nVCap = nV
  e : m.nE = 0 ∧ m.nEFill = 0 ∧ m.nECap = 0
  f : m.nF = nF ∧ m.nFFill = nF ∧ m.nFCap = nF

/-- Storage for `t` halfedges. -/
structure Store (m : GMesh) (t : ℕ) : Prop where
  fill : m.nHeFill = t
  he : m.nHe = t
  int : m.nInt = t
  le : t ≤ m.nHeCap
  cap : m.nHeCap ≤ 2 * t

/-- After the faces `ps`. -/
structure PA (nV nF : ℕ) (ps : List (List ℕ)) (m : GMesh) : Prop where
  same : SameA nV nF m
  store : Store m ps.flatten.length
  sd : ∀ h < ps.flatten.length, (sides ps)[h]? = some (m.heVertex h, m.heVertex (m.heNext h))
  next_lt : ∀ h < ps.flatten.length, m.heNext h < ps.flatten.length
  face_lt : ∀ h < ps.flatten.length, m.heFace h < ps.length
  /-- the halfedges of a face are consecutive -/
  block : ∀ f (hf : f < ps.length), m.fHalfedge f + ps[f].length ≤ ps.flatten.length ∧
    ∀ i (hi : i < ps[f].length), m.heNext (m.fHalfedge f + i) = m.fHalfedge f + (i + 1) % ps[f].length ∧
      m.heVertex (m.fHalfedge f + i) = ps[f][i] ∧ m.heFace (m.fHalfedge f + i) = f
  inblock : ∀ h (hh : h < ps.flatten.length), ∃ i, i < (ps[m.heFace h]'(face_lt h hh)).length ∧
    h = m.fHalfedge (m.heFace h) + i
  vhe : ∀ v, (m.vHalfedge v = INV ∧ v ∉ ps.flatten) ∨
    (m.vHalfedge v < ps.flatten.length ∧ m.heVertex (m.vHalfedge v) = v)

/-- Within a face, after the vertices `l`, starting from `m` with `t` halfedges. -/
structure Part (nV nF : ℕ) (m : GMesh) (t iFace : ℕ) (l : List ℕ) (s : GMesh × Option ℕ) : Prop where
  same : SameA nV nF s.1
  store : Store s.1 (t + l.length)
  prev : s.2 = if l = [] then none else some (t + l.length - 1)
  old : ∀ h < t, s.1.heNext h = m.heNext h ∧ s.1.heVertex h = m.heVertex h ∧ s.1.heFace h = m.heFace h
  new : ∀ i (hi : i < l.length), s.1.heVertex (t + i) = l[i] ∧ s.1.heFace (t + i) = iFace ∧
    (i + 1 < l.length → s.1.heNext (t + i) = t + i + 1)
  fhe : ∀ f, s.1.fHalfedge f = if f = iFace ∧ l ≠ [] then t else m.fHalfedge f
  vhe : ∀ v, (s.1.vHalfedge v = m.vHalfedge v ∧ v ∉ l) ∨ ∃ i, ∃ hi : i < l.length, s.1.vHalfedge v = t + i ∧ l[i] = v

theorem getNewHalfedge_ok {m : GMesh} {t : ℕ} (hs : Store m t) (hlim : 2 * (t + 1) < INV) :
    ∃ m', m.getNewHalfedge true = .ok (m', t) ∧ Store m' (t + 1) ∧ m' = { m with
      nHeCap := m'.nHeCap, nHeFill := m'.nHeFill, nHe := m'.nHe, nInt := m'.nInt } := by
  have hle := hs.le
  have hcap := hs.cap
  unfold getNewHalfedge
  rw [hs.fill]
  generalize hc : (if t < m.nHeCap then m.nHeCap else max (m.nHeCap * 2) 1) = c
  have h1 : t + 1 ≤ c ∧ c ≤ 2 * (t + 1) := by
    split_ifs at hc with h
    · omega
    · omega
  simp only [hc]
  rw [if_neg (by omega), if_neg (by omega)]
  refine ⟨_, rfl, ⟨rfl, by simp [hs.he], by simp [hs.int], h1.1, h1.2⟩, rfl⟩

theorem addHe_ok {nV nF : ℕ} {m : GMesh} {t iFace : ℕ} {l : List ℕ} {s : GMesh × Option ℕ}
    (hp : Part nV nF m t iFace l s) (x : ℕ) (hlim : 2 * (t + l.length + 1) < INV) :
    ∃ s', addHe iFace s x = .ok s' ∧ Part nV nF m t iFace (l ++ [x]) s' := by
  obtain ⟨m1, h1, hst, hm1⟩ := getNewHalfedge_ok hp.store hlim
  unfold addHe
  rw [h1]
  simp only [bind, Except.bind]
  refine ⟨_, rfl, ?_⟩
  have eN : m1.heNext = s.1.heNext := by rw [hm1]
  have eV : m1.heVertex = s.1.heVertex := by rw [hm1]
  have eF : m1.heFace = s.1.heFace := by rw [hm1]
  have efh : m1.fHalfedge = s.1.fHalfedge := by rw [hm1]
  have evh : m1.vHalfedge = s.1.vHalfedge := by rw [hm1]
  have hsame : SameA nV nF m1 := by rw [hm1]; exact ⟨hp.same.v, hp.same.e, hp.same.f⟩
  clear h1 hm1
  have hlen : (l ++ [x]).length = l.length + 1 := by simp
  -- common parts, for either value of the match
  have getl : ∀ i (hi : i < l.length), (l ++ [x])[i]'(by rw [hlen]; omega) = l[i] := fun i hi =>
    List.getElem_append_left hi
  have getx : ∀ (h : l.length < (l ++ [x]).length), (l ++ [x])[l.length]'h = x := fun h => by simp
  have hvhe : ∀ v, (upd s.1.vHalfedge x (t + l.length) v = m.vHalfedge v ∧ v ∉ l ++ [x]) ∨
      ∃ i, ∃ hi : i < (l ++ [x]).length, upd s.1.vHalfedge x (t + l.length) v = t + i ∧ (l ++ [x])[i] = v := by
    intro v
    by_cases e : v = x
    · subst e
      exact .inr ⟨l.length, by simp, by simp, by simp⟩
    · rw [upd_ne _ _ e]
      rcases hp.vhe v with ⟨a, b⟩ | ⟨i, hi, a, b⟩
      · exact .inl ⟨a, by simp [b, e]⟩
      · exact .inr ⟨i, by rw [hlen]; omega, a, by rw [getl i hi]; exact b⟩
  by_cases hl : l = []
  · subst hl
    have hpr : s.2 = none := by rw [hp.prev]; simp
    rw [hpr]
    simp only [List.nil_append, List.length_nil, Nat.add_zero] at *
    refine ⟨⟨hsame.v, hsame.e, hsame.f⟩, ⟨hst.fill, hst.he, hst.int, hst.le, hst.cap⟩, by simp, ?_, ?_, ?_, ?_⟩
    · intro h hh
      simp only [eN, eV, eF]
      rw [upd_ne _ _ (by omega), upd_ne _ _ (by omega), upd_ne _ _ (by omega)]
      exact hp.old h hh
    · intro i hi
      have : i = 0 := by simpa using hi
      subst this
      simp
    · intro f
      simp only [efh]
      by_cases e : f = iFace
      · subst e; simp
      · rw [upd_ne _ _ e, if_neg (fun k => e k.1), hp.fhe, if_neg (fun k => e k.1)]
    · intro v
      simp only [evh]
      exact hvhe v
  · have hpos : 0 < l.length := List.length_pos_of_ne_nil hl
    have hpr : s.2 = some (t + l.length - 1) := by rw [hp.prev, if_neg hl]
    rw [hpr]
    simp only
    refine ⟨⟨hsame.v, hsame.e, hsame.f⟩, ⟨?_, ?_, ?_, ?_, ?_⟩, ?_, ?_, ?_, ?_, ?_⟩
    · rw [hlen]; exact hst.fill
    · rw [hlen]; exact hst.he
    · rw [hlen]; exact hst.int
    · rw [hlen]; exact hst.le
    · rw [hlen]; exact hst.cap
    · rw [hlen]; simp
    · intro h hh
      simp only [eN, eV, eF]
      rw [upd_ne _ _ (by omega), upd_ne _ _ (by omega), upd_ne _ _ (by omega), upd_ne _ _ (by omega)]
      exact hp.old h hh
    · intro i hi
      rw [hlen] at hi
      simp only [eN, eV, eF]
      by_cases e : i = l.length
      · subst e
        refine ⟨by rw [upd_same, getx], upd_same _ _ _, fun k => ?_⟩
        rw [hlen] at k; omega
      · obtain ⟨a, b, c⟩ := hp.new i (by omega)
        refine ⟨by rw [upd_ne _ _ (by omega), a, getl], by rw [upd_ne _ _ (by omega), b], fun k => ?_⟩
        by_cases e' : i + 1 = l.length
        · rw [show t + i = t + l.length - 1 by omega, upd_same]; omega
        · rw [upd_ne _ _ (by omega), upd_ne _ _ (by omega)]
          exact c (by omega)
    · intro f
      simp only [efh]
      rw [hp.fhe]
      by_cases e : f = iFace <;> simp [e, hl]
    · intro v
      simp only [evh]
      exact hvhe v

theorem flatten_snoc (ps : List (List ℕ)) (p : List ℕ) : (ps ++ [p]).flatten = ps.flatten ++ p := by simp

theorem addFace_ok {nV nF : ℕ} {m : GMesh} {ps : List (List ℕ)} (hp : PA nV nF ps m) {p : List ℕ} (h3 : 3 ≤ p.length)
    (hlim : 2 * (ps.flatten.length + p.length + 1) < INV) :
    ∃ m', addFace m (p, ps.length) = .ok m' ∧ PA nV nF (ps ++ [p]) m' := by
  generalize ht : ps.flatten.length = t at hlim
  have h0 : Part nV nF m t ps.length [] (m, none) := by
    refine ⟨hp.same, by rw [← ht]; exact hp.store, rfl, fun h _ => ⟨rfl, rfl, rfl⟩, fun i hi => absurd hi (by simp), ?_, ?_⟩
    · intro f; simp
    · intro v; exact .inl ⟨rfl, by simp⟩
  obtain ⟨s, hs, hpart⟩ := foldlM_inv (f := addHe ps.length) (l := p) (Part nV nF m t ps.length) h0 (by
    intro q x r s hq hP
    have hl := congrArg List.length hq
    simp at hl
    exact addHe_ok hP x (by omega))
  unfold addFace
  simp only [hs, bind, Except.bind]
  have hne : p ≠ [] := fun e => by rw [e] at h3; simp at h3
  have hpr := hpart.prev
  rw [if_neg hne] at hpr
  rw [hpr]
  simp only
  refine ⟨_, rfl, ?_⟩
  have hfl : ∀ f, s.1.fHalfedge f = if f = ps.length then t else m.fHalfedge f := fun f => by
    rw [hpart.fhe]; simp [hne]
  have hflt : (ps ++ [p]).flatten.length = t + p.length := by rw [flatten_snoc, List.length_append, ht]
  generalize hm3 : ({ s.1 with heNext := upd s.1.heNext (t + p.length - 1) (s.1.fHalfedge ps.length) } : GMesh) = m3
  have nold : ∀ h < t, m3.heNext h = m.heNext h ∧ m3.heVertex h = m.heVertex h ∧ m3.heFace h = m.heFace h := by
    intro h hh
    obtain ⟨a, b, c⟩ := hpart.old h hh
    rw [← hm3]
    refine ⟨?_, b, c⟩
    simp only
    rw [upd_ne _ _ (by omega)]; exact a
  have nnew : ∀ i (hi : i < p.length), m3.heNext (t + i) = t + (i + 1) % p.length ∧ m3.heVertex (t + i) = p[i] ∧
      m3.heFace (t + i) = ps.length := by
    intro i hi
    obtain ⟨a, b, c⟩ := hpart.new i hi
    rw [← hm3]
    refine ⟨?_, a, b⟩
    simp only
    by_cases e : i + 1 = p.length
    · rw [show t + i = t + p.length - 1 by omega, upd_same, e, Nat.mod_self, hfl, if_pos rfl, Nat.add_zero]
    · rw [upd_ne _ _ (by omega), c (by omega), Nat.mod_eq_of_lt (by omega)]; omega
  have hfh : ∀ f, m3.fHalfedge f = if f = ps.length then t else m.fHalfedge f := fun f => by
    rw [← hm3]; exact hfl f
  have hvh : m3.vHalfedge = s.1.vHalfedge := by rw [← hm3]
  have hsame3 : SameA nV nF m3 := by rw [← hm3]; exact ⟨hpart.same.v, hpart.same.e, hpart.same.f⟩
  have hstore3 : Store m3 (t + p.length) := by
    rw [← hm3]; exact ⟨hpart.store.fill, hpart.store.he, hpart.store.int, hpart.store.le, hpart.store.cap⟩
  clear hm3
  have hge : ∀ h, h < t + p.length → h < t ∨ ∃ i, i < p.length ∧ h = t + i := by
    intro h hh
    by_cases e : h < t
    · exact .inl e
    · exact .inr ⟨h - t, by omega, by omega⟩
  have hlt : ∀ h < t, m.heFace h < ps.length := fun h hh => hp.face_lt h (by rw [ht]; exact hh)
  have faceLt : ∀ h < (ps ++ [p]).flatten.length, m3.heFace h < (ps ++ [p]).length := by
    intro h hh
    rw [hflt] at hh
    rw [List.length_append, List.length_singleton]
    rcases hge h hh with h' | ⟨i, hi, rfl⟩
    · rw [(nold h h').2.2]; have := hlt h h'; omega
    · rw [(nnew i hi).2.2]; omega
  refine ⟨hsame3, by rw [hflt]; exact hstore3, ?_, ?_, faceLt, ?_, ?_, ?_⟩
  · intro h hh
    rw [hflt] at hh
    rw [sides_snoc]
    rcases hge h hh with h' | ⟨i, hi, rfl⟩
    · have hn := hp.next_lt h (by rw [ht]; exact h')
      rw [ht] at hn
      rw [List.getElem?_append_left (by rw [sides_length, ht]; exact h'), (nold h h').1, (nold h h').2.1,
        (nold _ hn).2.1]
      exact hp.sd h (by rw [ht]; exact h')
    · have hsl : (sides ps).length = t := by rw [sides_length, ht]
      have hm := Nat.mod_lt (i + 1) (show 0 < p.length by omega)
      rw [List.getElem?_append_right (by omega), hsl, Nat.add_sub_cancel_left, (nnew i hi).1, (nnew i hi).2.1,
        (nnew _ hm).2.1]
      unfold side tipOf
      rw [List.getElem?_map, List.getElem?_range hi]
      simp [List.getD, List.getElem?_eq_getElem hi, List.getElem?_eq_getElem hm]
  · intro h hh
    rw [hflt] at hh ⊢
    rcases hge h hh with h' | ⟨i, hi, rfl⟩
    · rw [(nold h h').1]
      have := hp.next_lt h (by rw [ht]; exact h')
      omega
    · rw [(nnew i hi).1]
      have hm := Nat.mod_lt (i + 1) (show 0 < p.length by omega)
      omega
  · intro f hf
    rw [List.length_append, List.length_singleton] at hf
    rw [hflt, hfh]
    by_cases e : f = ps.length
    · subst e
      simp only [if_true]
      have hget : (ps ++ [p])[ps.length]'(by simp) = p := by simp
      simp only [hget]
      exact ⟨le_rfl, nnew⟩
    · have hf' : f < ps.length := by omega
      have hget : (ps ++ [p])[f]'(by simp; omega) = ps[f] := List.getElem_append_left hf'
      simp only [e, if_false, hget]
      obtain ⟨a, b⟩ := hp.block f hf'
      rw [ht] at a
      refine ⟨by omega, fun i hi => ?_⟩
      obtain ⟨b1, b2, b3⟩ := b i hi
      obtain ⟨o1, o2, o3⟩ := nold (m.fHalfedge f + i) (by omega)
      rw [o1, o2, o3]
      exact ⟨b1, b2, b3⟩
  · intro h hh
    rw [hflt] at hh
    rcases hge h hh with h' | ⟨i, hi, rfl⟩
    · obtain ⟨i, hi, e⟩ := hp.inblock h (by rw [ht]; exact h')
      have hface := (nold h h').2.2
      have hlth := hlt h h'
      refine ⟨i, ?_, ?_⟩
      · simp only [hface]
        rw [List.getElem_append_left hlth]; exact hi
      · rw [hface, hfh, if_neg (by omega)]; exact e
    · have hface := (nnew i hi).2.2
      refine ⟨i, ?_, ?_⟩
      · simp only [hface]
        simpa using hi
      · rw [hface, hfh, if_pos rfl]
  · intro v
    rw [hvh, hflt, flatten_snoc]
    rcases hpart.vhe v with ⟨a, b⟩ | ⟨i, hi, a, b⟩
    · rw [a]
      rcases hp.vhe v with ⟨c, d⟩ | ⟨c, d⟩
      · exact .inl ⟨c, by simp [b, d]⟩
      · rw [ht] at c
        exact .inr ⟨by omega, by rw [(nold _ c).2.1]; exact d⟩
    · rw [a]
      exact .inr ⟨by omega, by rw [(nnew i hi).2.1]; exact b⟩

theorem facesLoop_ok {polys : List (List ℕ)} (h3 : ∀ p ∈ polys, 3 ≤ p.length) (nV : ℕ)
    (hlim : 2 * (polys.flatten.length + 1) < INV) :
    ∃ m, polys.zipIdx.foldlM addFace (empty nV polys.length) = .ok m ∧ PA nV polys.length polys m := by
  have h0 : PA nV polys.length [] (empty nV polys.length) := by
    refine ⟨⟨⟨rfl, rfl, rfl⟩, ⟨rfl, rfl, rfl⟩, ⟨rfl, rfl, rfl⟩⟩, ⟨rfl, rfl, rfl, le_rfl, le_rfl⟩, ?_, ?_, ?_, ?_, ?_, ?_⟩
    · intro h hh; simp at hh
    · intro h hh; simp at hh
    · intro h hh; simp at hh
    · intro h hh; simp at hh
    · intro h hh; simp at hh
    · intro v; exact .inl ⟨rfl, by simp⟩
  obtain ⟨m, hm, hP⟩ := foldlM_inv (f := addFace) (l := polys.zipIdx)
    (fun q m => PA nV polys.length (q.map Prod.fst) m) (s0 := empty nV polys.length) h0 (by
    intro q x r m hq hP
    -- `x` is the polygon number `q.length`
    have hx : x = (x.1, q.length) := by
      have h1 : polys.zipIdx[q.length]? = some x := by rw [hq]; simp
      rw [List.getElem?_zipIdx] at h1
      rw [Option.map_eq_some_iff] at h1
      obtain ⟨a, -, h2⟩ := h1
      rw [← h2]; simp
    have hpolys : polys = q.map Prod.fst ++ x.1 :: r.map Prod.fst := by
      have := congrArg (List.map Prod.fst) hq
      rw [List.map_append, List.map_cons] at this
      rw [← this]; simp
    have hmem : x.1 ∈ polys := by rw [hpolys]; simp
    have hle : (q.map Prod.fst).flatten.length + x.1.length ≤ polys.flatten.length := by
      rw [hpolys]; simp
    obtain ⟨m', e, hP'⟩ := addFace_ok (p := x.1) hP (h3 _ hmem) (by omega)
    refine ⟨m', ?_, ?_⟩
    · rw [hx]; rw [List.length_map] at e; exact e
    · rw [List.map_append]; exact hP')
  refine ⟨m, hm, ?_⟩
  have : polys.zipIdx.map Prod.fst = polys := by simp
  rw [this] at hP
  exact hP

end GC.GMesh
