import Verif.GMesh
import Verif.KeyOrb
import Verif.Props.Ring

/-!
# Consequences of validity of a general mesh
-/

namespace GC

namespace Ring
variable {R : Ring} {A : ℕ → Option ℕ} {V : ℕ → Prop}

/-- Removing a list of members. -/
theorem fold_remove (hR : Inv R A V) (k : ℕ → ℕ) (l : List ℕ) (hl : l.Nodup) (hA : ∀ h ∈ l, A h = some (k h)) :
    Inv (l.foldl (fun R h => R.remove h (k h)) R) (fun h => if h ∈ l then none else A h) V := by
  induction l generalizing R A with
  | nil => simpa using hR
  | cons a l ih =>
    have h1 := C25_remove hR (hA a (by simp))
    have hn := List.nodup_cons.1 hl
    have := ih h1 hn.2 (fun h hh => by
      rw [Function.update_of_ne (show h ≠ a from fun e => hn.1 (e ▸ hh))]; exact hA h (by simp [hh]))
    refine this.cast ?_ rfl
    funext h
    by_cases e : h = a
    · subst e; simp [Function.update_self]
    · simp [e, Function.update_of_ne e]

/-- Inserting a list of halfedges that are in no list. -/
theorem fold_add (hR : Inv R A V) (k : ℕ → ℕ) (l : List ℕ) (hl : l.Nodup)
    (hA : ∀ h ∈ l, A h = none ∧ h ≠ INV ∧ V (k h)) :
    Inv (l.foldl (fun R h => R.add h (k h)) R) (fun h => if h ∈ l then some (k h) else A h) V := by
  induction l generalizing R A with
  | nil => simpa using hR
  | cons a l ih =>
    obtain ⟨a1, a2, a3⟩ := hA a (by simp)
    have h1 := C25_add hR a1 a2 a3
    have hn := List.nodup_cons.1 hl
    have := ih h1 hn.2 (fun h hh => by
      rw [Function.update_of_ne (show h ≠ a from fun e => hn.1 (e ▸ hh))]; exact hA h (by simp [hh]))
    refine this.cast ?_ rfl
    funext h
    by_cases e : h = a
    · subst e; simp [Function.update_self, hn.1]
    · simp [e, Function.update_of_ne e]

end Ring

namespace GMesh

theorem fold_removeLists (m : GMesh) (l : List ℕ) :
    l.foldl removeFromVertexLists m = { m with
      rin := l.foldl (fun R h => R.remove h (m.tip h)) m.rin
      rout := l.foldl (fun R h => R.remove h (m.heVertex h)) m.rout } := by
  induction l generalizing m with
  | nil => rfl
  | cons a l ih => rw [List.foldl_cons, ih]; rfl

theorem fold_addLists (m : GMesh) (l : List ℕ) :
    l.foldl addToVertexLists m = { m with
      rin := l.foldl (fun R h => R.add h (m.tip h)) m.rin
      rout := l.foldl (fun R h => R.add h (m.heVertex h)) m.rout } := by
  induction l generalizing m with
  | nil => rfl
  | cons a l ih => rw [List.foldl_cons, ih]; rfl

/-- Key of a halfedge: its face, edge. -/
def fKey (m : GMesh) (h : ℕ) : Option ℕ := if m.heL h then some (m.heFace h) else none
def eKey (m : GMesh) (h : ℕ) : Option ℕ := if m.heL h then some (m.heEdge h) else none

theorem fKey_some {m : GMesh} {h v : ℕ} : m.fKey h = some v ↔ m.heL h ∧ m.heFace h = v := by
  unfold fKey; split_ifs with hh <;> simp [hh]

theorem eKey_some {m : GMesh} {h v : ℕ} : m.eKey h = some v ↔ m.heL h ∧ m.heEdge h = v := by
  unfold eKey; split_ifs with hh <;> simp [hh]

theorem fKey_ne {m : GMesh} {h : ℕ} : m.fKey h ≠ none ↔ m.heL h := by
  unfold fKey; split_ifs with hh <;> simp [hh]

theorem eKey_ne {m : GMesh} {h : ℕ} : m.eKey h ≠ none ↔ m.heL h := by
  unfold eKey; split_ifs with hh <;> simp [hh]

/-- `face_iff` from cycles. -/
theorem iff_of_key {m : GMesh} {f k : ℕ → ℕ} (hk : KeyOrb f (fun h => if m.heL h then some (k h) else none)) :
    (∀ i, m.heL i → m.heL (f i)) ∧ (∀ i j, m.heL i → m.heL j → (k i = k j ↔ Orb f i j)) := by
  have hs : ∀ h v, (if m.heL h then some (k h) else none) = some v ↔ m.heL h ∧ k h = v := by
    intro h v; split_ifs with hh <;> simp [hh]
  refine ⟨fun i hi => ((hs _ _).1 (hk.mem i (k i) ((hs _ _).2 ⟨hi, rfl⟩))).1, fun i j hi hj => ⟨fun e => ?_, fun ho => ?_⟩⟩
  · exact hk.orb i j (k i) ((hs _ _).2 ⟨hi, rfl⟩) ((hs _ _).2 ⟨hj, e.symm⟩)
  · exact (((hs _ _).1 (hk.mem_orb ((hs _ _).2 ⟨hi, rfl⟩) ho)).2).symm

namespace Valid
variable {m : GMesh}

theorem faces (hv : m.Valid) : KeyOrb m.heNext m.fKey := by
  refine ⟨fun h v hA => ?_, fun h h' v hA hA' => ?_⟩
  · obtain ⟨a, rfl⟩ := fKey_some.1 hA
    exact fKey_some.2 ⟨hv.next_live h a, ((hv.face_iff _ _ a (hv.next_live h a)).2 (Orb.step _ _)).symm⟩
  · obtain ⟨a, b⟩ := fKey_some.1 hA
    obtain ⟨a', b'⟩ := fKey_some.1 hA'
    exact (hv.face_iff h h' a a').1 (by rw [b, b'])

theorem edges (hv : m.Valid) : KeyOrb m.heSibling m.eKey := by
  refine ⟨fun h v hA => ?_, fun h h' v hA hA' => ?_⟩
  · obtain ⟨a, rfl⟩ := eKey_some.1 hA
    exact eKey_some.2 ⟨hv.sib_live h a, ((hv.edge_iff _ _ a (hv.sib_live h a)).2 (Orb.step _ _)).symm⟩
  · obtain ⟨a, b⟩ := eKey_some.1 hA
    obtain ⟨a', b'⟩ := eKey_some.1 hA'
    exact (hv.edge_iff h h' a a').1 (by rw [b, b'])

theorem next_inj (hv : m.Valid) {i j : ℕ} (hi : m.heL i) (hj : m.heL j) (e : m.heNext i = m.heNext j) : i = j :=
  hv.faces.inj (fKey_ne.2 hi) (fKey_ne.2 hj) e

theorem face_next (hv : m.Valid) {i : ℕ} (hi : m.heL i) : m.heFace (m.heNext i) = m.heFace i :=
  ((hv.face_iff _ _ hi (hv.next_live i hi)).2 (Orb.step _ _)).symm

theorem edge_sib (hv : m.Valid) {i : ℕ} (hi : m.heL i) : m.heEdge (m.heSibling i) = m.heEdge i :=
  ((hv.edge_iff _ _ hi (hv.sib_live i hi)).2 (Orb.step _ _)).symm

theorem he_lt (hv : m.Valid) {i : ℕ} (hi : m.heL i) : i < INV := by
  have := hv.he_cap; have := hi.1; omega

/-- **Iterating a face.** -/
theorem faceHalfedges_ok (hv : m.Valid) {f : ℕ} (hf : m.fL f) :
    ∃ l, m.faceHalfedges f = .ok l ∧ l.Nodup ∧ (∀ z, z ∈ l ↔ m.heL z ∧ m.heFace z = f) ∧
      ∃ k, k + 1 ≤ m.nHeFill ∧ l = (List.range (k + 1)).map (fun j => m.heNext^[j] (m.fHalfedge f)) ∧
        m.heNext^[k + 1] (m.fHalfedge f) = m.fHalfedge f := by
  obtain ⟨a, b⟩ := hv.f_he f hf
  obtain ⟨l, h1, h2, h3, h4⟩ := hv.faces.iter (N := m.nHeFill) (fKey_some.2 ⟨a, b⟩) (fun z hz => (fKey_ne.1 hz).1)
  exact ⟨l, h1, h2, fun z => (h3 z).trans fKey_some, h4⟩

/-- **Iterating an edge.** -/
theorem edgeHalfedges_ok (hv : m.Valid) {e : ℕ} (he : m.eL e) :
    ∃ l, m.edgeHalfedges e = .ok l ∧ l.Nodup ∧ (∀ z, z ∈ l ↔ m.heL z ∧ m.heEdge z = e) ∧
      ∃ k, k + 1 ≤ m.nHeFill ∧ l = (List.range (k + 1)).map (fun j => m.heSibling^[j] (m.eHalfedge e)) ∧
        m.heSibling^[k + 1] (m.eHalfedge e) = m.eHalfedge e := by
  obtain ⟨a, b⟩ := hv.e_he e he
  obtain ⟨l, h1, h2, h3, h4⟩ := hv.edges.iter (N := m.nHeFill) (eKey_some.2 ⟨a, b⟩) (fun z hz => (eKey_ne.1 hz).1)
  exact ⟨l, h1, h2, fun z => (h3 z).trans eKey_some, h4⟩

end Valid

/-- The test of `walkPrev` succeeds at the predecessor. -/
theorem walkPrev_ok {f : ℕ → ℕ} {A : ℕ → Option ℕ} (hk : KeyOrb f A) {x v N : ℕ} (hA : A x = some v)
    (hN : ∀ z, A z ≠ none → z < N) {s : ℕ} (hs : A s = some v) :
    ∃ q, walkPrev f f x N s = .ok q ∧ A q = some v ∧ f q = x := by
  -- distance from `s` to the predecessor
  obtain ⟨l, -, hnd, hmem, k, hkN, hl, hhit⟩ := hk.iter hs hN
  obtain ⟨p, hp, hpx⟩ := hk.pred hA
  have hpl : p ∈ l := (hmem p).2 hp
  rw [hl, List.mem_map] at hpl
  obtain ⟨j, hj, hjp⟩ := hpl
  rw [List.mem_range] at hj
  have main : ∀ n s j, j < n → A s = some v → f^[j] s = p → ∃ q, walkPrev f f x n s = .ok q ∧ A q = some v ∧ f q = x := by
    intro n
    induction n with
    | zero => intro s j hj; omega
    | succ n ih =>
      intro s j hj hs hp'
      rw [walkPrev]
      by_cases e : f s = x
      · rw [if_pos e]; exact ⟨s, rfl, hs, e⟩
      · rw [if_neg e]
        cases j with
        | zero => rw [Function.iterate_zero, id] at hp'; rw [hp'] at e; exact absurd hpx e
        | succ j => exact ih (f s) j (by omega) (hk.mem s v hs) (by rw [← Function.iterate_succ_apply]; exact hp')
  exact main N s j (by omega) hs hjp

/-- **C25 on a mesh.**  Iterating the outgoing halfedges of a vertex yields exactly the halfedges with
that tail, iterating the incoming ones exactly those with that tip, once each. -/
theorem C25_outgoing {m : GMesh} (hv : m.Valid) {v : ℕ} (hl : m.vL v) :
    ∃ l, m.outgoing v = .ok l ∧ l.Nodup ∧ ∀ h, h ∈ l ↔ m.heL h ∧ m.heVertex h = v := by
  obtain ⟨a, b⟩ := hv.v_he v hl
  have hs : ∀ z w, (if m.heL z then some (m.heVertex z) else none) = some w ↔ m.heL z ∧ m.heVertex z = w := by
    intro z w; split_ifs with hh <;> simp [hh]
  obtain ⟨l, h1, h2, h3⟩ := Ring.C25_iter hv.out_ring (N := m.nHeFill) ((hs _ _).2 ⟨a, b⟩) (fun z hz => by
    by_contra hc
    exact hz (if_neg (fun hl => hc hl.1)))
  exact ⟨l, h1, h2, fun h => (h3 h).trans (hs _ _)⟩

theorem C25_incoming {m : GMesh} (hv : m.Valid) {v : ℕ} (hl : m.vL v) :
    ∃ l, m.incoming v = .ok l ∧ l.Nodup ∧ ∀ h, h ∈ l ↔ m.heL h ∧ m.tip h = v := by
  obtain ⟨a, b⟩ := hv.v_he v hl
  have hs : ∀ z w, (if m.heL z then some (m.tip z) else none) = some w ↔ m.heL z ∧ m.tip z = w := by
    intro z w; split_ifs with hh <;> simp [hh]
  have hA := fKey_some.2 ⟨a, rfl⟩
  obtain ⟨q, q1, q2, q3⟩ := walkPrev_ok hv.faces hA (N := m.nHeFill) (fun z hz => (fKey_ne.1 hz).1) hA
  have hq := (fKey_some.1 q2).1
  obtain ⟨l, h1, h2, h3⟩ := Ring.C25_iter hv.in_ring (N := m.nHeFill) ((hs q v).2 ⟨hq, by rw [tip, q3, b]⟩) (fun z hz => by
    by_contra hc
    exact hz (if_neg (fun hl => hc hl.1)))
  refine ⟨l, ?_, h2, fun h => (h3 h).trans (hs _ _)⟩
  unfold incoming
  rw [q1]
  exact h1

end GMesh
end GC
