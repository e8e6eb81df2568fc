import Verif.SeparateVerts
import Verif.Props.Separate
import Verif.Props.DisjointSets
import Verif.Props.BuildEdges

/-! # C76: separating non-manifold vertices -/

namespace GC.GMesh

/-- Two corners (given by their halfedges) lie next to each other across an edge, at the same end of it. -/
def CornerAdj (m : GMesh) (h h' : ℕ) : Prop :=
  ∃ a, m.heL a ∧ m.heSibling a ≠ a ∧
    if m.heOrient a = m.heOrient (m.heSibling a) then (h = a ∧ h' = m.heSibling a) ∨ (h = m.heNext a ∧ h' = m.heNext (m.heSibling a))
    else (h = m.heNext a ∧ h' = m.heSibling a) ∨ (h = a ∧ h' = m.heNext (m.heSibling a))

theorem CornerAdj.ends {m : GMesh} (hv : m.Valid) {h h' : ℕ} (c : m.CornerAdj h h') : m.heL h ∧ m.heL h' ∧ m.heVertex h = m.heVertex h' := by
  obtain ⟨a, la, -, c⟩ := c
  have lb := hv.sib_live a la
  have al := hv.orient a _ la lb ((hv.edge_iff _ _ la lb).2 ⟨1, rfl⟩)
  unfold aligned at al
  split_ifs at c with q
  · rw [if_pos q] at al
    rcases c with ⟨rfl, rfl⟩ | ⟨rfl, rfl⟩
    · exact ⟨la, lb, al.1⟩
    · exact ⟨hv.next_live _ la, hv.next_live _ lb, al.2⟩
  · rw [if_neg q] at al
    rcases c with ⟨rfl, rfl⟩ | ⟨rfl, rfl⟩
    · exact ⟨hv.next_live _ la, lb, al.2⟩
    · exact ⟨la, hv.next_live _ lb, al.1⟩

theorem runAll_append (d : DS) (a b : List DSOp) : d.runAll (a ++ b) = (match d.runAll a with | .error e => .error e | .ok d' => d'.runAll b) := by
  induction a generalizing d with
  | nil => rfl
  | cons o a ih =>
    rw [List.cons_append]
    simp only [DS.runAll]
    cases o.run d with
    | error e => rfl
    | ok d' => exact ih d'

/-- Pairs of corners that are merged at edge `e`. -/
def EdgeAdj (m : GMesh) (e h h' : ℕ) : Prop :=
  m.isBoundary e = false ∧
    if m.heOrient (m.eHalfedge e) = m.heOrient (m.heSibling (m.eHalfedge e)) then
      (h = m.eHalfedge e ∧ h' = m.heSibling (m.eHalfedge e)) ∨ (h = m.heNext (m.eHalfedge e) ∧ h' = m.heNext (m.heSibling (m.eHalfedge e)))
    else (h = m.heNext (m.eHalfedge e) ∧ h' = m.heSibling (m.eHalfedge e)) ∨ (h = m.eHalfedge e ∧ h' = m.heNext (m.heSibling (m.eHalfedge e)))

/-- Body of the first loop. -/
abbrev sepStep (m : GMesh) (d : DS) (e : ℕ) : Res DS := if m.eHalfedge e = INV then .ok d else sepMerge m d e

/-- The first `k` steps of the first loop. -/
theorem sepMerges_ok {m : GMesh} (hv : m.Valid) {k : ℕ} (hk : k ≤ m.nEFill) (hm : ∀ e < k, m.eL e → m.isManifold e = true) :
    ∃ d, (List.range k).foldlM (sepStep m) (DS.init m.nHeFill) = .ok d ∧
      d.Inv ∧ d.n = m.nHeFill ∧ ∀ a ≤ m.nHeFill, ∀ b ≤ m.nHeFill, (d.root a = d.root b ↔ Conn (fun h h' => ∃ e < k, m.eL e ∧ m.EdgeAdj e h h') a b) := by
  obtain ⟨d, r, ops, r1, r2, r3⟩ := range_inv (f := sepStep m) (n := k) (s0 := DS.init m.nHeFill)
    (fun i d => ∃ ops, (DS.init m.nHeFill).runAll ops = .ok d ∧ (∀ o ∈ ops, o.inRange m.nHeFill) ∧
      ∀ h h', DSOp.merge h h' ∈ ops ↔ ∃ e < i, m.eL e ∧ m.EdgeAdj e h h')
    ⟨[], rfl, by simp, by simp⟩
    (by
      rintro i d hi ⟨ops, r1, r2, r3⟩
      -- a list of further operations
      have ext : ∀ ops' d', d.runAll ops' = .ok d' → (∀ o ∈ ops', o.inRange m.nHeFill) → (∀ h h', DSOp.merge h h' ∈ ops' ↔ m.eL i ∧ m.EdgeAdj i h h') →
          ∃ ops, (DS.init m.nHeFill).runAll ops = .ok d' ∧ (∀ o ∈ ops, o.inRange m.nHeFill) ∧
            ∀ h h', DSOp.merge h h' ∈ ops ↔ ∃ e < i + 1, m.eL e ∧ m.EdgeAdj e h h' := by
        intro ops' d' q1 q2 q3
        refine ⟨ops ++ ops', by rw [runAll_append, r1]; exact q1, fun o ho => ?_, fun h h' => ?_⟩
        · rcases List.mem_append.1 ho with z | z
          · exact r2 o z
          · exact q2 o z
        · rw [List.mem_append, r3, q3]
          constructor
          · rintro (⟨e, e1, e2⟩ | e2)
            · exact ⟨e, by omega, e2⟩
            · exact ⟨i, by omega, e2⟩
          · rintro ⟨e, e1, e2⟩
            rcases Nat.lt_succ_iff_lt_or_eq.1 e1 with z | rfl
            · exact .inl ⟨e, z, e2⟩
            · exact .inr e2
      have dI : d.Inv ∧ d.n = m.nHeFill := by
        obtain ⟨d', e', h1, h2, -⟩ := DS.runAll_spec m.nHeFill ops (DS.init m.nHeFill) (fun _ _ => False) (DS.init_inv _) rfl (by simp)
          (by intro a _ b _; rw [DS.init_root, DS.init_root]; exact ⟨by rintro rfl; exact .refl _, conn_false a b⟩) r2
        rw [r1] at e'
        injection e' with e'
        subst e'
        exact ⟨h1, h2⟩
      unfold sepStep
      by_cases c : m.eHalfedge i = INV
      · rw [if_pos c]
        exact ⟨d, rfl, ext [] d rfl (by simp) (fun h h' => by simp only [List.not_mem_nil, false_iff]; exact fun q => q.1.2 c)⟩
      · rw [if_neg c]
        have el : m.eL i := ⟨by omega, c⟩
        obtain ⟨la, ea⟩ := hv.e_he i el
        have lb := hv.sib_live _ la
        have mk : ∀ x y x' y', m.heL x → m.heL y → m.heL x' → m.heL y' → ∃ d1 d2, d.merge x y = .ok d1 ∧ d1.merge x' y' = .ok d2 ∧
            d.runAll [.merge x y, .merge x' y'] = .ok d2 ∧ ∀ o ∈ [DSOp.merge x y, .merge x' y'], o.inRange m.nHeFill := by
          intro x y x' y' a1 a2 a3 a4
          have a1 := a1.1; have a2 := a2.1; have a3 := a3.1; have a4 := a4.1
          obtain ⟨d1, b1, b2, b3, -⟩ := DS.merge_spec dI.1 (x := x) (y := y) (by omega) (by omega)
          obtain ⟨d2, b4, -⟩ := DS.merge_spec b2 (x := x') (y := y') (by omega) (by omega)
          refine ⟨d1, d2, b1, b4, by simp only [DS.runAll, DSOp.run, b1, b4], ?_⟩
          intro o ho
          simp only [List.mem_cons, List.not_mem_nil, or_false] at ho
          rcases ho with rfl | rfl
          · exact ⟨by omega, by omega⟩
          · exact ⟨by omega, by omega⟩
        unfold sepMerge
        by_cases b : m.isBoundary i = true
        · rw [if_pos b]
          exact ⟨d, rfl, ext [] d rfl (by simp) (fun h h' => by simp only [List.not_mem_nil, false_iff]; exact fun q => by rw [q.2.1] at b; cases b)⟩
        · have b' : m.isBoundary i = false := by simpa using b
          rw [if_neg b, if_neg (by rw [hm i hi el]; simp)]
          simp only
          by_cases o : m.heOrient (m.eHalfedge i) = m.heOrient (m.heSibling (m.eHalfedge i))
          · rw [if_pos o]
            obtain ⟨d1, d2, q1, q2, q3, q4⟩ := mk _ _ _ _ la lb (hv.next_live _ la) (hv.next_live _ lb)
            simp only [bind, Except.bind, q1, q2]
            refine ⟨d2, rfl, ext _ d2 q3 q4 (fun h h' => ?_)⟩
            simp only [EdgeAdj, if_pos o, b', true_and, el, List.mem_cons, DSOp.merge.injEq, List.not_mem_nil, or_false]
          · rw [if_neg o]
            obtain ⟨d1, d2, q1, q2, q3, q4⟩ := mk _ _ _ _ (hv.next_live _ la) lb la (hv.next_live _ lb)
            simp only [bind, Except.bind, q1, q2]
            refine ⟨d2, rfl, ext _ d2 q3 q4 (fun h h' => ?_)⟩
            simp only [EdgeAdj, if_neg o, b', true_and, el, List.mem_cons, DSOp.merge.injEq, List.not_mem_nil, or_false])
  refine ⟨d, r, ?_⟩
  obtain ⟨d', e', h1, h2, h3⟩ := DS.runAll_spec m.nHeFill ops (DS.init m.nHeFill) (fun _ _ => False) (DS.init_inv _) rfl (by simp)
    (by intro a _ b _; rw [DS.init_root, DS.init_root]; exact ⟨by rintro rfl; exact .refl _, conn_false a b⟩) r2
  rw [r1] at e'
  injection e' with e'
  subst e'
  refine ⟨h1, h2, fun a ha b hb => ?_⟩
  rw [h3 a ha b hb]
  have : (fun u v => False ∨ DSOp.merge u v ∈ ops) = fun h h' => ∃ e < k, m.eL e ∧ m.EdgeAdj e h h' := by
    funext u v
    simp only [false_or, r3]
  rw [this]

/-- The pairs merged are the pairs of corners next to each other. -/
theorem conn_edgeAdj {m : GMesh} (hv : m.Valid) (hm : ∀ e, m.eL e → m.isManifold e = true) (a b : ℕ) :
    Conn (fun h h' => ∃ e < m.nEFill, m.eL e ∧ m.EdgeAdj e h h') a b ↔ Conn m.CornerAdj a b := by
  constructor
  · apply Conn.mono
    rintro x y ⟨e, -, el, q⟩
    refine ⟨m.eHalfedge e, (hv.e_he e el).1, ?_, q.2⟩
    have := q.1
    unfold isBoundary at this
    simpa using this
  · intro q
    induction q with
    | refl => exact .refl _
    | symm _ _ _ ih => exact .symm _ _ ih
    | trans x y z _ _ i1 i2 => exact .trans _ _ _ i1 i2
    | rel x y c =>
      obtain ⟨a, la, sa, c⟩ := c
      have el := hv.edge_live a la
      obtain ⟨lg, eg⟩ := hv.e_he _ el
      have mf := hm _ el
      generalize ge : m.eHalfedge (m.heEdge a) = g at *
      have og := (hv.edge_iff g a lg la).1 eg
      have m2 : m.heSibling (m.heSibling g) = g := by
        unfold isManifold at mf
        rw [ge] at mf
        simp only [Bool.or_eq_true, beq_iff_eq] at mf
        rcases mf with z | z
        · exact z
        · rw [z, z]
      have ag : a = g ∨ a = m.heSibling g :=
        og.mem (fun z => z = g ∨ z = m.heSibling g) (.inl rfl) (by
          rintro z (rfl | rfl)
          · exact .inr rfl
          · exact .inl m2)
      have sg : m.heSibling g ≠ g := by
        rcases ag with rfl | rfl
        · exact sa
        · intro z; rw [z] at sa; exact sa z
      have bd : m.isBoundary (m.heEdge a) = false := by
        unfold isBoundary
        rw [ge]
        simpa using sg
      have mk : ∀ x y, m.EdgeAdj (m.heEdge a) x y → Conn (fun h h' => ∃ e < m.nEFill, m.eL e ∧ m.EdgeAdj e h h') x y :=
        fun x y q => .rel _ _ ⟨_, el.1, el, q⟩
      rcases ag with rfl | hag
      · exact mk x y ⟨bd, by rw [ge]; exact c⟩
      · rw [hag, m2] at c
        by_cases o : m.heOrient g = m.heOrient (m.heSibling g)
        · rw [if_pos o.symm] at c
          refine .symm _ _ (mk y x ⟨bd, ?_⟩)
          rw [ge, if_pos o]
          rcases c with ⟨rfl, rfl⟩ | ⟨rfl, rfl⟩
          · exact .inl ⟨rfl, rfl⟩
          · exact .inr ⟨rfl, rfl⟩
        · rw [if_neg (fun z => o z.symm)] at c
          refine .symm _ _ (mk y x ⟨bd, ?_⟩)
          rw [ge, if_neg o]
          rcases c with ⟨rfl, rfl⟩ | ⟨rfl, rfl⟩
          · exact .inr ⟨rfl, rfl⟩
          · exact .inl ⟨rfl, rfl⟩

theorem conn_ends {m : GMesh} (hv : m.Valid) {a b : ℕ} (c : Conn m.CornerAdj a b) : (m.heL a ↔ m.heL b) ∧ (m.heL a → m.heVertex a = m.heVertex b) := by
  induction c with
  | refl => exact ⟨Iff.rfl, fun _ => rfl⟩
  | symm _ _ _ ih => exact ⟨ih.1.symm, fun q => (ih.2 (ih.1.2 q)).symm⟩
  | trans x y z _ _ i1 i2 => exact ⟨i1.1.trans i2.1, fun q => (i1.2 q).trans (i2.2 (i1.1.1 q))⟩
  | rel x y c =>
    obtain ⟨a, b, c⟩ := c.ends hv
    exact ⟨⟨fun _ => b, fun _ => a⟩, fun _ => c⟩

/-- Invariant of the loop over the corners; `ρ` gives the representative of a component. -/
structure SepInv (m : GMesh) (ρ : ℕ → ℕ) (i : ℕ) (s : SepV) : Prop where
  dj : s.dj.Inv ∧ s.dj.n = m.nHeFill ∧ ∀ h ≤ m.nHeFill, s.dj.root h = ρ h
  same : s.m = { m with heVertex := s.m.heVertex, vHalfedge := s.m.vHalfedge, nV := s.m.nV, nVFill := s.m.nVFill, nVCap := s.m.nVCap }
  todo : ∀ h, i ≤ h → s.m.heVertex h = m.heVertex h
  done : ∀ h < i, m.heL h → s.entry (ρ h) = some (s.m.heVertex h)
  ent : ∀ r v, s.entry r = some v → ∃ h < i, m.heL h ∧ ρ h = r ∧ s.parents v = some (m.heVertex h) ∧ (v = m.heVertex h ∨ m.nVFill ≤ v)
  ent_he : ∀ r v, s.entry r = some v → v < s.m.nVFill ∧ m.heL (s.m.vHalfedge v) ∧ s.m.vHalfedge v < i ∧ s.m.heVertex (s.m.vHalfedge v) = v
  inj : ∀ r r' v, s.entry r = some v → s.entry r' = some v → r = r'
  used : ∀ v, s.used v = true ↔ ∃ h < i, m.heL h ∧ m.heVertex h = v
  used_ent : ∀ v, s.used v = true → ∃ r, s.entry r = some v
  old : ∀ v < m.nVFill, s.used v = false → s.m.vHalfedge v = m.vHalfedge v
  fresh : ∀ v, m.nVFill ≤ v → v < s.m.nVFill → ∃ r, s.entry r = some v
  pnone : ∀ v, (∀ r, s.entry r ≠ some v) → s.parents v = none
  cnt : s.m.nV + m.nVFill = m.nV + s.m.nVFill
  fill : m.nVFill ≤ s.m.nVFill ∧ s.m.nVFill ≤ m.nVFill + i
  cap : s.m.nVFill ≤ s.m.nVCap ∧ s.m.nVCap < INV

/-- What `sepEntry` does, in the three cases alike. -/
theorem sepEntry_ok {m : GMesh} (hv : m.Valid) (hsz : 2 * (m.nVFill + m.nHeFill) < INV) {ρ : ℕ → ℕ}
    (hρ : ∀ a b, m.heL a → m.heL b → ρ a = ρ b → m.heVertex a = m.heVertex b) {i : ℕ} {s : SepV} (hi : m.heL i) (hr : ρ i < m.nHeFill)
    (I : SepInv m ρ i s) :
    ∃ s1 v, sepEntry s (ρ i) (m.heVertex i) = .ok (s1, v) ∧ s1.dj = s.dj ∧
      s1.m = { s.m with nV := s1.m.nV, nVFill := s1.m.nVFill, nVCap := s1.m.nVCap } ∧
      s1.entry = (fun r => if r = ρ i then some v else s.entry r) ∧
      s1.parents v = some (m.heVertex i) ∧ (∀ w, w ≠ v → s1.parents w = s.parents w) ∧
      (∀ w, s1.used w = true ↔ s.used w = true ∨ w = m.heVertex i) ∧ (∀ w, s1.used w = true → ∃ r, s1.entry r = some w) ∧
      (v = m.heVertex i ∨ m.nVFill ≤ v) ∧ v < s1.m.nVFill ∧ (∀ r, s.entry r = some v → r = ρ i) ∧
      (∀ w, s.entry (ρ i) = some w → w = v) ∧
      s.m.nVFill ≤ s1.m.nVFill ∧ s1.m.nVFill ≤ s.m.nVFill + 1 ∧ (∀ w, s.m.nVFill ≤ w → w < s1.m.nVFill → w = v) ∧
      s1.m.nV + m.nVFill = m.nV + s1.m.nVFill ∧ s1.m.nVFill ≤ s1.m.nVCap ∧ s1.m.nVCap < INV := by
  have hvi := hv.vertex_live i hi
  have hF : s.m.nHeFill = m.nHeFill := by rw [I.same]
  unfold sepEntry
  rw [if_neg (by omega)]
  cases he : s.entry (ρ i) with
  | some v =>
    simp only
    have hent : s.entry = fun r => if r = ρ i then some v else s.entry r := by
      funext r
      split_ifs with q
      · rw [q, he]
      · rfl
    obtain ⟨h, h1, h2, h3, h4, h5⟩ := I.ent _ _ he
    have hvv := hρ h i h2 hi h3
    have hu : s.used (m.heVertex i) = true := (I.used _).2 ⟨h, h1, h2, hvv⟩
    refine ⟨s, v, rfl, rfl, rfl, hent, by rw [h4, hvv], fun _ _ => rfl, ?_, I.used_ent, by rw [← hvv]; exact h5, (I.ent_he _ _ he).1,
      fun r q => I.inj _ _ _ q he, fun w q => (Option.some.inj q).symm, le_refl _, Nat.le_succ _, ?_, I.cnt, I.cap.1, I.cap.2⟩
    · intro w
      exact ⟨.inl, fun q => q.elim id (fun q => q ▸ hu)⟩
    · intro w a b; omega
  | none =>
    simp only
    by_cases hu : s.used (m.heVertex i) = true
    · rw [if_pos hu]
      have c1 := I.fill
      have c2 := I.cap
      have hi1 := hi.1
      have hvi1 := hvi.1
      -- the new vertex
      have hnew : ∃ cap, s.m.getNewVertex = .ok ({ s.m with nVCap := cap, nVFill := s.m.nVFill + 1, nV := s.m.nV + 1 }, s.m.nVFill) ∧
          s.m.nVFill < cap ∧ cap < INV := by
        unfold getNewVertex
        simp only
        by_cases q : s.m.nVFill < s.m.nVCap
        · simp only [if_pos q]
          rw [if_neg (by omega), if_neg (by omega)]
          exact ⟨_, rfl, q, c2.2⟩
        · simp only [if_neg q]
          rw [if_neg (by omega), if_neg (by omega)]
          exact ⟨_, rfl, by omega, by omega⟩
      obtain ⟨cap, n1, n2, n3⟩ := hnew
      rw [n1]
      have ne : ∀ r, s.entry r ≠ some s.m.nVFill := fun r q => by have := (I.ent_he _ _ q).1; omega
      refine ⟨_, _, rfl, rfl, rfl, rfl, by simp, fun w hw => by simp [hw], ?_, ?_, .inr c1.1, Nat.lt_succ_self _,
        fun r q => absurd q (ne r), fun w q => (by cases q), Nat.le_succ _, le_refl _, ?_, ?_, n2, n3⟩
      · intro w
        exact ⟨.inl, fun q => q.elim id (fun q => q ▸ hu)⟩
      · intro w hw
        obtain ⟨r, hr⟩ := I.used_ent w hw
        refine ⟨r, ?_⟩
        have : r ≠ ρ i := fun z => by rw [z, he] at hr; cases hr
        simp only [if_neg this, hr]
      · intro w a b
        simp only at b
        omega
      · have := I.cnt
        simp only
        omega
    · rw [if_neg hu]
      have hu' : s.used (m.heVertex i) = false := by simpa using hu
      have c1 := I.fill
      have hvi1 := hvi.1
      have ne : ∀ r, s.entry r ≠ some (m.heVertex i) := by
        intro r q
        obtain ⟨h, h1, h2, h3, h4, h5⟩ := I.ent _ _ q
        rcases h5 with z | z
        · exact hu ((I.used _).2 ⟨h, h1, h2, z.symm⟩)
        · omega
      refine ⟨_, _, rfl, rfl, rfl, rfl, by simp, fun w hw => by simp [hw], ?_, ?_, .inl rfl, by simp only; omega,
        fun r q => absurd q (ne r), fun w q => (by cases q), le_refl _, Nat.le_succ _, ?_, I.cnt, I.cap.1, I.cap.2⟩
      · intro w
        simp only
        split_ifs with q
        · exact ⟨fun _ => .inr q, fun _ => rfl⟩
        · exact ⟨.inl, fun z => z.elim id (fun z => absurd z q)⟩
      · intro w hw
        simp only at hw
        split_ifs at hw with q
        · exact ⟨ρ i, by simp [q]⟩
        · obtain ⟨r, hr⟩ := I.used_ent w hw
          refine ⟨r, ?_⟩
          have : r ≠ ρ i := fun z => by rw [z, he] at hr; cases hr
          simp only [if_neg this, hr]
      · intro w a b
        simp only at b
        omega

/-- One step of the second loop. -/
theorem sepCorner_ok {m : GMesh} (hv : m.Valid) (hsz : 2 * (m.nVFill + m.nHeFill) < INV) {ρ : ℕ → ℕ}
    (hρ : ∀ a b, m.heL a → m.heL b → ρ a = ρ b → m.heVertex a = m.heVertex b) {i : ℕ} {s : SepV} (hi : m.heL i) (hr : ρ i < m.nHeFill)
    (I : SepInv m ρ i s) : ∃ s', sepCorner s i = .ok s' ∧ SepInv m ρ (i + 1) s' := by
  have hi1 := hi.1
  obtain ⟨dj, e1, d1, d2, -, d3⟩ := DS.find_spec I.dj.1 (x := i) (by rw [I.dj.2.1]; omega)
  rw [I.dj.2.2 i (by omega)] at e1
  have I' : SepInv m ρ i { s with dj := dj } :=
    { dj := ⟨d1, by rw [d2, I.dj.2.1], fun h hh => by rw [d3 h (by rw [I.dj.2.1]; exact hh), I.dj.2.2 h hh]⟩
      same := I.same, todo := I.todo, done := I.done, ent := I.ent, ent_he := I.ent_he, inj := I.inj, used := I.used, used_ent := I.used_ent
      old := I.old, fresh := I.fresh, pnone := I.pnone, cnt := I.cnt, fill := I.fill, cap := I.cap }
  obtain ⟨s1, v, e2, f1, f2, f3, f4, f5, f6, f7, f8, f9, g1, g0, g2, g3, g4, g5, g6, g7⟩ := sepEntry_ok hv hsz hρ hi hr I'
  have hV : s1.m.heVertex = s.m.heVertex := by rw [f2]
  have hH : s1.m.vHalfedge = s.m.vHalfedge := by rw [f2]
  refine ⟨{ s1 with m := { s1.m with heVertex := upd s1.m.heVertex i v, vHalfedge := upd s1.m.vHalfedge v i } }, ?_, ?_⟩
  · unfold sepCorner
    rw [e1]
    simp only [bind, Except.bind, I.todo i (le_refl _)]
    rw [e2]
  clear e1 e2
  -- entries
  have en : ∀ r w, s1.entry r = some w → (r = ρ i ∧ w = v) ∨ (r ≠ ρ i ∧ s.entry r = some w ∧ w ≠ v) := by
    intro r w q
    rw [f3] at q
    simp only at q
    split_ifs at q with z
    · exact .inl ⟨z, (Option.some.inj q).symm⟩
    · exact .inr ⟨z, q, fun y => z (g1 r (by rw [← y]; exact q))⟩
  have eo : ∀ r w, s.entry r = some w → s1.entry r = some w := by
    intro r w q
    rw [f3]
    simp only
    split_ifs with z
    · rw [z] at q
      rw [g0 w q]
    · exact q
  exact
    { dj := by rw [f1]; exact I'.dj
      same := by
        simp only
        rw [f2]
        simp only
        rw [I.same]
      todo := by
        intro h hh
        simp only
        rw [upd_ne _ _ (by omega), hV, I.todo h (by omega)]
      done := by
        intro h hh hl
        simp only
        rcases Nat.lt_succ_iff_lt_or_eq.1 hh with z | rfl
        · rw [upd_ne _ _ (by omega), hV]
          exact eo _ _ (I.done h z hl)
        · rw [upd_same, f3]
          simp
      ent := by
        intro r w q
        simp only at q ⊢
        rcases en r w q with ⟨z1, z2⟩ | ⟨z1, z2, z3⟩
        · exact ⟨i, by omega, hi, z1.symm, by rw [z2, f4], by rw [z2]; exact f8⟩
        · obtain ⟨h, h1, h2, h3, h4, h5⟩ := I.ent _ _ z2
          exact ⟨h, by omega, h2, h3, by rw [f5 w z3]; exact h4, h5⟩
      ent_he := by
        intro r w q
        simp only at q ⊢
        rcases en r w q with ⟨z1, z2⟩ | ⟨z1, z2, z3⟩
        · rw [z2, upd_same, upd_same]
          exact ⟨f9, hi, by omega, rfl⟩
        · obtain ⟨h1, h2, h3, h4⟩ := I.ent_he _ _ z2
          rw [upd_ne _ _ z3, hH, upd_ne _ _ (by omega), hV]
          simp only at g2
          exact ⟨by omega, h2, by omega, h4⟩
      inj := by
        intro r r' w q q'
        simp only at q q'
        rcases en r w q with ⟨z1, z2⟩ | ⟨z1, z2, z3⟩ <;> rcases en r' w q' with ⟨y1, y2⟩ | ⟨y1, y2, y3⟩
        · rw [z1, y1]
        · exact absurd z2 y3
        · exact absurd y2 z3
        · exact I.inj _ _ _ z2 y2
      used := by
        intro w
        simp only
        rw [f6, I'.used]
        constructor
        · rintro (⟨h, h1, h2⟩ | rfl)
          · exact ⟨h, by omega, h2⟩
          · exact ⟨i, by omega, hi, rfl⟩
        · rintro ⟨h, h1, h2, h3⟩
          rcases Nat.lt_succ_iff_lt_or_eq.1 h1 with z | rfl
          · exact .inl ⟨h, z, h2, h3⟩
          · exact .inr h3.symm
      used_ent := f7
      old := by
        intro w hw hu
        simp only at hu ⊢
        have n1 : s.used w = false ∧ w ≠ m.heVertex i := by
          have := (f6 w).not.1 (by rw [hu]; simp)
          exact ⟨by simpa using fun z => this (.inl z), fun z => this (.inr z)⟩
        have n2 : w ≠ v := by
          intro z
          rcases f8 with y | y
          · exact n1.2 (z.trans y)
          · omega
        rw [upd_ne _ _ n2, hH]
        exact I.old w hw n1.1
      fresh := by
        intro w a b
        simp only at b ⊢
        by_cases z : w < s.m.nVFill
        · obtain ⟨r, hr⟩ := I.fresh w a z
          exact ⟨r, eo _ _ hr⟩
        · have := g4 w (by simp only; omega) b
          exact ⟨ρ i, by rw [f3, this]; simp⟩
      pnone := by
        intro w hw
        simp only at hw ⊢
        have : w ≠ v := fun z => hw (ρ i) (by rw [f3, z]; simp)
        rw [f5 w this]
        exact I.pnone w (fun r q => hw r (eo _ _ q))
      cnt := g5
      fill := by
        have := I.fill
        simp only at g2 g3 ⊢
        omega
      cap := ⟨g6, g7⟩ }

/-- What separating the vertices means: the halfedges of `m'` start at the same vertex just if their corners are connected through edges. -/
structure VertsSeparated (m m' : GMesh) (parents : ℕ → Option ℕ) : Prop where
  valid : m'.Valid
  same : m' = { m with heVertex := m'.heVertex, vHalfedge := m'.vHalfedge, rin := m'.rin, rout := m'.rout, nV := m'.nV, nVFill := m'.nVFill, nVCap := m'.nVCap }
  comp : ∀ h h', m.heL h → m.heL h' → (m'.heVertex h = m'.heVertex h' ↔ Conn m.CornerAdj h h')
  parent : ∀ h, m.heL h → parents (m'.heVertex h) = some (m.heVertex h)
  keep : ∀ v, m.vL v → m'.vL v ∧ parents v = some v
  dom : ∀ v, parents v ≠ none ↔ m'.vL v

theorem separate_final {m : GMesh} (hv : m.Valid) (hm : ∀ e, m.eL e → m.isManifold e = true) {ρ : ℕ → ℕ}
    (hρ : ∀ a ≤ m.nHeFill, ∀ b ≤ m.nHeFill, (ρ a = ρ b ↔ Conn m.CornerAdj a b)) {s : SepV} (I : SepInv m ρ m.nHeFill s) :
    VertsSeparated m s.m.initNeighbors s.parents := by
  obtain ⟨M, dj, entry, parents, used⟩ := s
  obtain ⟨V, H, nv, nf, nc, q⟩ : ∃ V H nv nf nc, M = { m with heVertex := V, vHalfedge := H, nV := nv, nVFill := nf, nVCap := nc } := ⟨_, _, _, _, _, I.same⟩
  subst q
  have Idone : ∀ h, m.heL h → entry (ρ h) = some (V h) := fun h hl => I.done h hl.1 hl
  have Ient : ∀ r v, entry r = some v → ∃ h, m.heL h ∧ ρ h = r ∧ parents v = some (m.heVertex h) ∧ (v = m.heVertex h ∨ m.nVFill ≤ v) := by
    intro r v q
    obtain ⟨h, -, q⟩ := I.ent r v q
    exact ⟨h, q⟩
  have Ihe : ∀ r v, entry r = some v → v < nf ∧ m.heL (H v) ∧ V (H v) = v := by
    intro r v q
    obtain ⟨a, b, -, c⟩ := I.ent_he r v q
    exact ⟨a, b, c⟩
  have Iinj : ∀ r r' v, entry r = some v → entry r' = some v → r = r' := I.inj
  have Iused : ∀ v, used v = true ↔ ∃ h, m.heL h ∧ m.heVertex h = v := by
    intro v
    have := I.used v
    simp only at this
    rw [this]
    exact ⟨fun ⟨h, _, a⟩ => ⟨h, a⟩, fun ⟨h, a⟩ => ⟨h, a.1.1, a⟩⟩
  have Iue : ∀ v, used v = true → ∃ r, entry r = some v := I.used_ent
  have Iold : ∀ v < m.nVFill, used v = false → H v = m.vHalfedge v := I.old
  have Ifresh : ∀ v, m.nVFill ≤ v → v < nf → ∃ r, entry r = some v := I.fresh
  have Ipn : ∀ v, (∀ r, entry r ≠ some v) → parents v = none := I.pnone
  have Icnt : nv + m.nVFill = m.nV + nf := I.cnt
  have Ifill : m.nVFill ≤ nf := I.fill.1
  have Icap : nf ≤ nc ∧ nc < INV := I.cap
  clear I
  have heI : ∀ h, m.heL h → h ≠ INV := fun h hl => by have := hl.1; have := hv.he_cap; omega
  -- live vertices, before and after
  have usedL : ∀ v, used v = true ↔ m.vL v := by
    intro v
    rw [Iused]
    constructor
    · rintro ⟨h, a, rfl⟩
      exact hv.vertex_live h a
    · intro q
      exact ⟨_, hv.v_he v q⟩
  have oldL : ∀ v < m.nVFill, (H v ≠ INV ↔ m.vHalfedge v ≠ INV) := by
    intro v hv'
    cases u : used v with
    | true =>
      obtain ⟨r, hr⟩ := Iue v u
      exact ⟨fun _ => ((usedL v).1 u).2, fun _ => heI _ (Ihe r v hr).2.1⟩
    | false => rw [Iold v hv' u]
  have vl : ∀ v, (v < nf ∧ H v ≠ INV) ↔ ∃ r, entry r = some v := by
    intro v
    constructor
    · rintro ⟨a, b⟩
      by_cases c : v < m.nVFill
      · exact Iue v ((usedL v).2 ⟨c, (oldL v c).1 b⟩)
      · exact Ifresh v (by omega) a
    · rintro ⟨r, hr⟩
      exact ⟨(Ihe r v hr).1, heI _ (Ihe r v hr).2.1⟩
  have comp : ∀ h h', m.heL h → m.heL h' → (V h = V h' ↔ Conn m.CornerAdj h h') := by
    intro h h' a b
    have a1 := a.1
    have b1 := b.1
    rw [← hρ h (by omega) h' (by omega)]
    constructor
    · intro q
      exact Iinj _ _ _ (Idone h a) (by rw [q]; exact Idone h' b)
    · intro q
      have z := Idone h a
      rw [q, Idone h' b] at z
      exact (Option.some.inj z).symm
  have par : ∀ h, m.heL h → parents (V h) = some (m.heVertex h) := by
    intro h hl
    obtain ⟨g, a, b, c, -⟩ := Ient _ _ (Idone h hl)
    have h1 := hl.1
    have g1 := a.1
    rw [c, (conn_ends hv ((hρ g (by omega) h (by omega)).1 b)).2 a]
  have Vl : ∀ h, m.heL h → V h < nf ∧ H (V h) ≠ INV := fun h hl => (vl _).2 ⟨_, Idone h hl⟩
  have keep : ∀ v, m.vL v → (v < nf ∧ H v ≠ INV) ∧ parents v = some v := by
    intro v q
    obtain ⟨r, hr⟩ := Iue v ((usedL v).2 q)
    refine ⟨(vl v).2 ⟨r, hr⟩, ?_⟩
    obtain ⟨h, a, b, c, d⟩ := Ient r v hr
    rcases d with d | d
    · rw [c, ← d]
    · have := q.1; omega
  refine ⟨?_, rfl, comp, par, keep, ?_⟩
  swap
  · intro v
    show parents v ≠ none ↔ (v < nf ∧ H v ≠ INV)
    rw [vl]
    constructor
    · intro q
      by_contra z
      exact q (Ipn v (fun r hr => z ⟨r, hr⟩))
    · rintro ⟨r, hr⟩
      obtain ⟨h, -, -, c, -⟩ := Ient r v hr
      rw [c]
      simp
  have hdead : ∀ h, (h < m.nHeFill ∧ (m.heNext h == INV) = false) ↔ m.heL h := by
    intro h
    rw [beq_eq_false_iff_ne]
    exact Iff.rfl
  have vdead : (fun v => v < nf ∧ (H v == INV) = false) = fun v => v < nf ∧ H v ≠ INV := by
    funext v
    rw [beq_eq_false_iff_ne]
  have hC := hv.he_cap
  exact
    { he_cap := hv.he_cap
      v_cap := Icap
      e_cap := hv.e_cap
      f_cap := hv.f_cap
      next_live := hv.next_live
      sib_live := hv.sib_live
      vertex_live := Vl
      face_live := hv.face_live
      edge_live := hv.edge_live
      face_iff := hv.face_iff
      edge_iff := hv.edge_iff
      v_he := by
        intro v q
        obtain ⟨r, hr⟩ := (vl v).1 q
        exact (Ihe r v hr).2
      f_he := hv.f_he
      e_he := hv.e_he
      orient := by
        intro i j li lj e
        have li : m.heL i := li
        have lj : m.heL j := lj
        have o := (hv.edge_iff i j li lj).1 e
        have cl : m.heSibling (m.heSibling i) = i := by
          have el := hv.edge_live i li
          obtain ⟨lg, eg⟩ := hv.e_he _ el
          have mf := hm _ el
          have og := (hv.edge_iff _ i lg li).1 eg
          unfold isManifold at mf
          simp only [Bool.or_eq_true, beq_iff_eq] at mf
          generalize m.eHalfedge (m.heEdge i) = g at *
          have m2 : m.heSibling (m.heSibling g) = g := by
            rcases mf with z | z
            · exact z
            · rw [z, z]
          exact og.mem (fun z => m.heSibling (m.heSibling z) = z) m2 (fun z q => by rw [q])
        have ji : j = i ∨ j = m.heSibling i :=
          o.mem (fun z => z = i ∨ z = m.heSibling i) (.inl rfl) (by
            rintro z (rfl | rfl)
            · exact .inr rfl
            · exact .inl cl)
        by_cases q : j = i
        · subst q
          unfold aligned
          rw [if_pos rfl]
          exact ⟨rfl, rfl⟩
        · have ji := ji.resolve_left q
          subst ji
          have li' := hv.next_live _ li
          have lj' := hv.next_live _ lj
          show if m.heOrient i = m.heOrient (m.heSibling i) then V i = V (m.heSibling i) ∧ V (m.heNext i) = V (m.heNext (m.heSibling i))
            else V i = V (m.heNext (m.heSibling i)) ∧ V (m.heNext i) = V (m.heSibling i)
          split_ifs with oo
          · exact ⟨(comp _ _ li lj).2 (.rel _ _ ⟨i, li, q, by rw [if_pos oo]; exact .inl ⟨rfl, rfl⟩⟩),
              (comp _ _ li' lj').2 (.rel _ _ ⟨i, li, q, by rw [if_pos oo]; exact .inr ⟨rfl, rfl⟩⟩)⟩
          · exact ⟨(comp _ _ li lj').2 (.rel _ _ ⟨i, li, q, by rw [if_neg oo]; exact .inr ⟨rfl, rfl⟩⟩),
              (comp _ _ li' lj).2 (.rel _ _ ⟨i, li, q, by rw [if_neg oo]; exact .inl ⟨rfl, rfl⟩⟩)⟩
      in_ring := by
        refine (Ring.C25_init m.rin (dead := fun h => m.heNext h == INV) (vdead := fun v => H v == INV)
          (key := fun h => V (m.heNext h)) (nHe := m.nHeFill) (nV := nf) (by omega) ?_ ?_).cast ?_ vdead
        · intro h a b
          obtain ⟨c, d⟩ := Vl _ (hv.next_live _ ((hdead h).1 ⟨a, b⟩))
          exact ⟨c, by rw [beq_eq_false_iff_ne]; exact d⟩
        · intro v a b
          rw [beq_eq_false_iff_ne] at b
          obtain ⟨r, hr⟩ := (vl v).1 ⟨a, b⟩
          obtain ⟨-, l, e⟩ := Ihe r v hr
          obtain ⟨p, p1, p2⟩ := hv.faces.pred (fKey_some.2 ⟨l, rfl⟩)
          obtain ⟨p1, -⟩ := fKey_some.1 p1
          exact ⟨p, p1.1, ((hdead p).2 p1).2, by rw [p2, e]⟩
        · funext h
          by_cases l : m.heL h
          · rw [if_pos ((hdead h).2 l)]
            exact (if_pos (show GMesh.heL _ h from l)).symm
          · rw [if_neg (fun z => l ((hdead h).1 z))]
            exact (if_neg (show ¬ GMesh.heL _ h from l)).symm
      out_ring := by
        refine (Ring.C25_init m.rout (dead := fun h => m.heNext h == INV) (vdead := fun v => H v == INV)
          (key := V) (nHe := m.nHeFill) (nV := nf) (by omega) ?_ ?_).cast ?_ vdead
        · intro h a b
          obtain ⟨c, d⟩ := Vl _ ((hdead h).1 ⟨a, b⟩)
          exact ⟨c, by rw [beq_eq_false_iff_ne]; exact d⟩
        · intro v a b
          rw [beq_eq_false_iff_ne] at b
          obtain ⟨r, hr⟩ := (vl v).1 ⟨a, b⟩
          obtain ⟨-, l, e⟩ := Ihe r v hr
          exact ⟨H v, l.1, ((hdead _).2 l).2, e⟩
        · funext h
          by_cases l : m.heL h
          · rw [if_pos ((hdead h).2 l)]
            exact (if_pos (show GMesh.heL _ h from l)).symm
          · rw [if_neg (fun z => l ((hdead h).1 z))]
            exact (if_neg (show ¬ GMesh.heL _ h from l)).symm
      cnt_he := hv.cnt_he
      cnt_e := hv.cnt_e
      cnt_v := by
        show nv = Nat.count (fun v => H v ≠ INV) nf
        obtain ⟨k, rfl⟩ := Nat.exists_eq_add_of_le Ifill
        rw [Nat.count_add]
        have c1 : Nat.count (fun v => H v ≠ INV) m.nVFill = m.nV := by
          rw [hv.cnt_v, Nat.count_eq_card_filter_range, Nat.count_eq_card_filter_range]
          congr 1
          apply Finset.filter_congr
          intro v hv'
          exact oldL v (Finset.mem_range.1 hv')
        have c2 : Nat.count (fun j => H (m.nVFill + j) ≠ INV) k = k := by
          rw [Nat.count_iff_forall]
          intro j hj
          obtain ⟨r, hr⟩ := Ifresh (m.nVFill + j) (by omega) (by omega)
          exact heI _ (Ihe r _ hr).2.1
        rw [c1, c2]
        omega
      cnt_f := hv.cnt_f }

/-- **C76.**  On an edge-manifold mesh `separateNonmanifoldVertices` gives every fan of corners its own vertex. -/
theorem C76 {m : GMesh} (hv : m.Valid) (hm : ∀ e, m.eL e → m.isManifold e = true) (hsz : 2 * (m.nVFill + m.nHeFill) < INV) :
    ∃ m' parents, m.separateNonmanifoldVertices = .ok (m', parents) ∧ VertsSeparated m m' parents := by
  obtain ⟨d, e1, d1, d2, d3⟩ := sepMerges_ok hv (le_refl _) (fun e _ => hm e)
  have hρ : ∀ a ≤ m.nHeFill, ∀ b ≤ m.nHeFill, (d.root a = d.root b ↔ Conn m.CornerAdj a b) := by
    intro a ha b hb
    rw [d3 a ha b hb, conn_edgeAdj hv hm]
  have hρv : ∀ a b, m.heL a → m.heL b → d.root a = d.root b → m.heVertex a = m.heVertex b := by
    intro a b la lb q
    have a1 := la.1
    have b1 := lb.1
    exact (conn_ends hv ((hρ a (by omega) b (by omega)).1 q)).2 la
  have hρl : ∀ a, m.heL a → d.root a < m.nHeFill := by
    intro a la
    have a1 := la.1
    have b1 := d1.root_le (x := a) (by omega)
    have := (hρ a (by omega) _ (by rw [d2] at b1; exact b1)).1 (d1.root_root (by omega)).symm
    exact ((conn_ends hv this).1.1 la).1
  obtain ⟨s, e2, I⟩ := range_inv (f := fun s c => if s.m.heNext c = INV then .ok s else sepCorner s c) (n := m.nHeFill)
    (s0 := (⟨m, d, fun _ => none, fun _ => none, fun _ => false⟩ : SepV)) (SepInv m d.root)
    { dj := ⟨d1, d2, fun _ _ => rfl⟩
      same := rfl
      todo := fun _ _ => rfl
      done := fun h hh => absurd hh (Nat.not_lt_zero h)
      ent := fun r v q => by cases q
      ent_he := fun r v q => by cases q
      inj := fun r r' v q => by cases q
      used := fun v => ⟨fun q => (by cases q), fun ⟨h, hh, _⟩ => absurd hh (Nat.not_lt_zero h)⟩
      used_ent := fun v q => by cases q
      old := fun _ _ _ => rfl
      fresh := fun v a b => absurd (lt_of_lt_of_le b a) (lt_irrefl _)
      pnone := fun _ _ => rfl
      cnt := Nat.add_comm m.nV m.nVFill ▸ rfl
      fill := ⟨le_refl _, Nat.le_add_right _ _⟩
      cap := hv.v_cap }
    (by
      intro i s hi I
      have eN : s.m.heNext = m.heNext := by rw [I.same]
      by_cases c : s.m.heNext i = INV
      · rw [if_pos c]
        have nl : ¬ m.heL i := fun l => l.2 (by rw [← eN]; exact c)
        refine ⟨s, rfl, ?_⟩
        have lt : ∀ h < i + 1, m.heL h → h < i := by
          intro h hh l
          rcases Nat.lt_succ_iff_lt_or_eq.1 hh with z | rfl
          · exact z
          · exact absurd l nl
        exact
          { dj := I.dj, same := I.same, inj := I.inj, used_ent := I.used_ent, old := I.old, fresh := I.fresh, pnone := I.pnone, cnt := I.cnt, cap := I.cap
            todo := fun h hh => I.todo h (by omega)
            done := fun h hh l => I.done h (lt h hh l) l
            ent := fun r v q => by obtain ⟨h, a, b⟩ := I.ent r v q; exact ⟨h, by omega, b⟩
            ent_he := fun r v q => by obtain ⟨a, b, c, e⟩ := I.ent_he r v q; exact ⟨a, b, by omega, e⟩
            used := fun v => (I.used v).trans ⟨fun ⟨h, a, b⟩ => ⟨h, by omega, b⟩, fun ⟨h, a, b⟩ => ⟨h, lt h a b.1, b⟩⟩
            fill := ⟨I.fill.1, by have := I.fill.2; omega⟩ }
      · rw [if_neg c]
        have l : m.heL i := ⟨hi, by rw [← eN]; exact c⟩
        exact sepCorner_ok hv hsz hρv l (hρl i l) I)
  refine ⟨_, _, ?_, separate_final hv hm hρ I⟩
  unfold separateNonmanifoldVertices
  rw [e1]
  simp only [bind, Except.bind]
  rw [e2]

/-- Afterwards every vertex is a single fan: corners of `m'` at the same vertex are connected through edges of `m'`. -/
theorem C76_manifold {m : GMesh} (hv : m.Valid) (hm : ∀ e, m.eL e → m.isManifold e = true) (hsz : 2 * (m.nVFill + m.nHeFill) < INV)
    {m' : GMesh} {parents : ℕ → Option ℕ} (h : m.separateNonmanifoldVertices = .ok (m', parents)) :
    ∀ a b, m'.heL a → m'.heL b → (m'.heVertex a = m'.heVertex b ↔ Conn m'.CornerAdj a b) := by
  obtain ⟨m1, p1, e, S⟩ := C76 hv hm hsz
  rw [h] at e
  injection e with e
  injection e with ea eb
  subst ea eb
  have := S.comp
  rw [S.same]
  exact this

/-- A mesh whose vertices are fans already keeps its vertices. -/
theorem C76_noop {m : GMesh} (hv : m.Valid) (hm : ∀ e, m.eL e → m.isManifold e = true) (hsz : 2 * (m.nVFill + m.nHeFill) < INV)
    (hfan : ∀ a b, m.heL a → m.heL b → m.heVertex a = m.heVertex b → Conn m.CornerAdj a b)
    {m' : GMesh} {parents : ℕ → Option ℕ} (h : m.separateNonmanifoldVertices = .ok (m', parents)) :
    (∀ a, m.heL a → m'.heVertex a = m.heVertex a) ∧ ∀ v, m'.vL v ↔ m.vL v := by
  obtain ⟨m1, p1, e, S⟩ := C76 hv hm hsz
  rw [h] at e
  injection e with e
  injection e with ea eb
  subst ea eb
  have eL : ∀ a, m'.heL a ↔ m.heL a := fun a => by rw [S.same]; exact Iff.rfl
  have key : ∀ a, m.heL a → m'.heVertex a = m.heVertex a := by
    intro a la
    obtain ⟨k1, k2⟩ := S.keep _ (hv.vertex_live a la)
    obtain ⟨l, q⟩ := S.valid.v_he _ k1
    have l := (eL _).1 l
    have p := S.parent _ l
    rw [q, k2] at p
    have c := hfan a _ la l (Option.some.inj p)
    rw [(S.comp _ _ la l).2 c, q]
  refine ⟨key, fun v => ⟨fun q => ?_, fun q => (S.keep v q).1⟩⟩
  obtain ⟨l, q⟩ := S.valid.v_he v q
  have l := (eL _).1 l
  rw [← q, key _ l]
  exact hv.vertex_live _ l

/-- An edge with three or more faces is reported. -/
theorem C76_throw {m : GMesh} (hv : m.Valid) {e : ℕ} (he : m.eL e) (hn : m.isManifold e = false) : m.separateNonmanifoldVertices = .error .throw := by
  classical
  have hex : ∃ e, m.eL e ∧ m.isManifold e = false := ⟨e, he, hn⟩
  obtain ⟨e0, e1⟩ := Nat.find_spec hex
  have e2 : ∀ e < Nat.find hex, m.eL e → m.isManifold e = true := by
    intro e q l
    have := Nat.find_min hex q
    by_contra z
    exact this ⟨l, by simpa using z⟩
  generalize Nat.find hex = k at e0 e1 e2
  obtain ⟨d, r, -⟩ := sepMerges_ok hv (k := k) (by have := e0.1; omega) e2
  obtain ⟨j, hj⟩ := Nat.exists_eq_add_of_lt e0.1
  have hb : ¬ m.isBoundary k = true := by
    intro z
    unfold isManifold at e1
    unfold isBoundary at z
    rw [z] at e1
    simp at e1
  have : (List.range m.nEFill).foldlM (sepStep m) (DS.init m.nHeFill) = .error .throw := by
    have hl : List.range m.nEFill = List.range k ++ k :: (List.range j).map (fun i => k + 1 + i) := by
      rw [hj, show k + j + 1 = (k + 1) + j by omega, List.range_add, List.range_succ, List.append_assoc]
      rfl
    rw [hl, List.foldlM_append, r]
    simp only [bind, Except.bind, List.foldlM_cons]
    unfold sepStep sepMerge
    rw [if_neg e0.2, if_neg hb, if_pos (by rw [e1]; rfl)]
  unfold separateNonmanifoldVertices
  rw [this]
  rfl

/-! Two triangles that touch in a vertex. -/

def bow : List (List ℕ) := [[0, 1, 2], [0, 3, 4]]
def bowOrder : List (ℕ × ℕ) := [(0, 1), (1, 2), (0, 2), (0, 3), (3, 4), (0, 4)]

theorem bow_built : ∃ m, fromPolygons bow bowOrder = .ok m ∧ Built bow m :=
  C24 bow bowOrder (by decide) (by decide) (by decide) (by decide) (by decide) (by decide)

def bowTest (r : Res GMesh) : Bool × ℕ × ℕ × ℕ :=
  match r with
  | .ok m => ((List.range m.nEFill).all m.isManifold, m.nVFill + m.nHeFill, m.nV, match m.separateNonmanifoldVertices with
    | .ok (m', _) => m'.nV
    | .error _ => 0)
  | .error _ => (false, 0, 0, 0)

theorem bowTest_eq : bowTest (fromPolygons bow bowOrder) = (true, 11, 5, 6) := rfl

example : ∃ m m' parents, fromPolygons bow bowOrder = .ok m ∧ m.separateNonmanifoldVertices = .ok (m', parents) ∧ VertsSeparated m m' parents ∧
    m.nV = 5 ∧ m'.nV = 6 := by
  obtain ⟨m, e, hb⟩ := bow_built
  have t := bowTest_eq
  rw [e] at t
  simp only [bowTest, Prod.mk.injEq] at t
  obtain ⟨t1, t2, t0, t3⟩ := t
  rw [List.all_eq_true] at t1
  obtain ⟨m', parents, q, S⟩ := C76 hb.valid (fun e he => t1 e (List.mem_range.2 he.1)) (by rw [t2]; decide)
  rw [q] at t3
  exact ⟨m, m', parents, e, q, S, t0, t3⟩

example : ∃ m, fromPolygons book bookOrder = .ok m ∧ m.separateNonmanifoldVertices = .error .throw := by
  obtain ⟨m, e, hb⟩ := book_built
  refine ⟨m, e, ?_⟩
  have t : (match fromPolygons book bookOrder with | .ok m => (List.range m.nEFill).any (fun e => !(m.eHalfedge e == INV) && !m.isManifold e) | .error _ => false) = true := rfl
  rw [e] at t
  simp only [List.any_eq_true, List.mem_range, Bool.and_eq_true, Bool.not_eq_true', beq_eq_false_iff_ne] at t
  obtain ⟨x, x1, x2, x3⟩ := t
  exact C76_throw hb.valid ⟨x1, x2⟩ x3

end GC.GMesh
