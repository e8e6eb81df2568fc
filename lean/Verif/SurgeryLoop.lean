import Verif.SurgeryStep
import Mathlib.Algebra.Order.BigOperators.Group.Finset
import Mathlib.Data.Nat.Cast.Basic
import Mathlib.Tactic.Ring

/-! # The loop of `cutAlongEdges` (lemmas for C84) -/

namespace GC
namespace Mesh
variable {m m' : Mesh}

/-- An edge with an end among the ends of the edges in `S`. -/
def Touches (m : Mesh) (S : Finset ℕ) (f : ℕ) : Prop := m.heVertex (2 * f) ∈ m.touched S ∨ m.heVertex (2 * f + 1) ∈ m.touched S

/-- The edges in `P` hang together: a part that contains all edges of `P` with an end in common with it is empty or all of `P`. -/
def OneTree (m : Mesh) (P : Finset ℕ) : Prop := ∀ S ⊆ P, S.Nonempty → (∀ f ∈ P, m.Touches S f → f ∈ S) → S = P

theorem touched_mono {P Q : Finset ℕ} (h : P ⊆ Q) : m.touched P ⊆ m.touched Q := Finset.biUnion_subset_biUnion_of_subset_left _ h

theorem Touches.mono {P Q : Finset ℕ} (h : P ⊆ Q) {f : ℕ} (t : m.Touches P f) : m.Touches Q f := t.imp (fun x => touched_mono h x) (fun x => touched_mono h x)

theorem Touches.symm {e : ℕ} {P : Finset ℕ} (hf : m.Touches P e) : ∃ f ∈ P, m.Touches {e} f := by
  rcases hf with h | h <;> obtain ⟨f, hf, h⟩ := mem_touched.1 h <;> refine ⟨f, hf, ?_⟩ <;> rcases h with h | h
  · exact .inl (mem_touched.2 ⟨e, by simp, .inl h.symm⟩)
  · exact .inr (mem_touched.2 ⟨e, by simp, .inl h.symm⟩)
  · exact .inl (mem_touched.2 ⟨e, by simp, .inr h.symm⟩)
  · exact .inr (mem_touched.2 ⟨e, by simp, .inr h.symm⟩)

theorem OneTree.insert {P : Finset ℕ} (J : m.OneTree P) {e : ℕ} (h : P.Nonempty → m.Touches P e) : m.OneTree (insert e P) := by
  intro S hS ne hc
  by_cases heS : e ∈ S
  · by_cases hP : P.Nonempty
    · obtain ⟨f, hf, tf⟩ := (h hP).symm
      by_cases heP : e ∈ P
      · rw [Finset.insert_eq_self.2 heP] at *
        exact J S hS ne hc
      have fe : f ≠ e := fun c => heP (c ▸ hf)
      have fS : f ∈ S := hc f (Finset.mem_insert_of_mem hf) (tf.mono (Finset.singleton_subset_iff.2 heS))
      have := J (S.erase e) (fun x hx => (Finset.mem_insert.1 (hS (Finset.mem_of_mem_erase hx))).resolve_left (Finset.ne_of_mem_erase hx))
        ⟨f, Finset.mem_erase.2 ⟨fe, fS⟩⟩
        (fun g hg tg => Finset.mem_erase.2 ⟨fun c => heP (c ▸ hg), hc g (Finset.mem_insert_of_mem hg) (tg.mono (Finset.erase_subset _ _))⟩)
      rw [← this, Finset.insert_erase heS]
    · rw [Finset.not_nonempty_iff_eq_empty] at hP
      subst hP
      exact Finset.Subset.antisymm hS (by simpa using heS)
  · exfalso
    have sub : S ⊆ P := fun x hx => (Finset.mem_insert.1 (hS hx)).resolve_left (fun c => heS (c ▸ hx))
    have := J S sub ne (fun f hf tf => hc f (Finset.mem_insert_of_mem hf) tf)
    subst this
    exact heS (hc e (Finset.mem_insert_self _ _) (h ne))

/-! ### Adding neighbors -/

theorem foldl_cutPush (cut : ℕ → Bool) (es : List ℕ) (s : CutSt) : ∃ l : List ℕ, (es.foldl (cutPush cut) s).m = s.m ∧
    (es.foldl (cutPush cut) s).parent = s.parent ∧ (es.foldl (cutPush cut) s).queue = s.queue ++ l ∧ l.Nodup ∧
    (∀ f, f ∈ l ↔ f ∈ es ∧ cut f = true ∧ s.considered f = false) ∧
    (∀ f, (es.foldl (cutPush cut) s).considered f = true ↔ s.considered f = true ∨ f ∈ l) := by
  induction es generalizing s with
  | nil => exact ⟨[], rfl, rfl, by simp, List.nodup_nil, by simp, by simp⟩
  | cons e es ih =>
    rw [List.foldl_cons]
    by_cases h : cut e = true ∧ s.considered e = false
    · have hp : cutPush cut s e = { s with considered := Function.update s.considered e true, queue := s.queue ++ [e] } := by
        unfold cutPush
        rw [if_pos (by simp [h.1, h.2])]
      rw [hp]
      obtain ⟨l, a1, a2, a3, a4, a5, a6⟩ := ih { s with considered := Function.update s.considered e true, queue := s.queue ++ [e] }
      simp only at a1 a2 a3 a5 a6
      have el : e ∉ l := fun c => by have := ((a5 e).1 c).2.2; simp at this
      refine ⟨e :: l, a1, a2, by rw [a3]; simp, List.nodup_cons.2 ⟨el, a4⟩, fun f => ?_, fun f => ?_⟩
      · rw [List.mem_cons, List.mem_cons, a5]
        by_cases c : f = e
        · subst c; simp [h.1, h.2]
        · simp [c, Function.update_of_ne c]
      · rw [a6, List.mem_cons]
        by_cases c : f = e
        · subst c; simp
        · simp [c, Function.update_of_ne c]
    · have hp : cutPush cut s e = s := by
        unfold cutPush
        rw [if_neg (by simpa using h)]
      rw [hp]
      obtain ⟨l, a1, a2, a3, a4, a5, a6⟩ := ih s
      refine ⟨l, a1, a2, a3, a4, fun f => ?_, a6⟩
      rw [a5, List.mem_cons]
      constructor
      · rintro ⟨x, y⟩
        exact ⟨.inr x, y⟩
      · rintro ⟨rfl | x, y⟩
        · exact absurd y h
        · exact ⟨x, y⟩

/-! ### The invariant -/

/-- The edges to cut: they form a forest without vertices on the boundary. -/
structure CutSpec (m0 : Mesh) (cut : ℕ → Bool) (T : Finset ℕ) : Prop where
  valid : m0.Valid
  mem : ∀ e, e ∈ T ↔ m0.heLive (2 * e) ∧ cut e = true
  low : ∀ e, cut e = true → e < m0.nEFill
  forest : ∀ S ⊆ T, S.Nonempty → S.card < (m0.touched S).card
  inner : ∀ e ∈ T, ¬ m0.OnBdy (m0.heVertex (2 * e)) ∧ ¬ m0.OnBdy (m0.heVertex (2 * e + 1))
  room : ¬ m0.nearLimit T.card

structure CutRun (m0 : Mesh) (T : Finset ℕ) (s : CutSt) (m : Mesh) (P : Finset ℕ) (ρ : ℕ → ℕ) : Prop where
  mesh : s.m = bump P.card m
  opn : CutOpen m0 m P ρ
  sub : P ⊆ T
  nodup : s.queue.Nodup
  wait : ∀ f ∈ s.queue, f ∈ T ∧ f ∉ P ∧ (P.Nonempty → m0.Touches P f)
  first : P = ∅ → s.queue.length = 1
  seen : ∀ f, s.considered f = true ↔ f ∈ P ∨ f ∈ s.queue
  closed : ∀ f ∈ T, m0.Touches P f → f ∈ P ∨ f ∈ s.queue
  few : (m0.touched P).card ≤ P.card + 1
  joined : m0.OneTree P
  parent : ∀ i, m0.heLive i → ¬ m0.ext i → s.parent (ρ i) = i

theorem navVertexEdges_bump (k v : ℕ) : (bump k m).navVertexEdges v = m.navVertexEdges v := rfl

theorem touched_insert (P : Finset ℕ) (e : ℕ) : m.touched (insert e P) = insert (m.heVertex (2 * e)) (insert (m.heVertex (2 * e + 1)) (m.touched P)) := by
  ext v
  simp [touched, or_assoc]

/-- Every halfedge at a vertex of the cut mesh lies on a place of an old edge or on a new place. -/
theorem CutOpen.old_edge {m0 : Mesh} {P : Finset ℕ} {ρ : ℕ → ℕ} (hv0 : m0.Valid) (I : CutOpen m0 m P ρ) {j : ℕ} (lj : m.heLive j)
    (h : j / 2 < m0.nEFill) (hP : j / 2 ∉ P) :
    m0.heLive (2 * (j / 2)) ∧ ∃ i, m0.heLive i ∧ ¬ m0.ext i ∧ i / 2 = j / 2 ∧ ρ i = i ∧ (i = j ∨ twin i = j) := by
  have key : ∀ k, m.heLive k → ¬ m.ext k → k / 2 = j / 2 → ∃ i, m0.heLive i ∧ ¬ m0.ext i ∧ ρ i = i ∧ i = k := by
    intro k lk xk hk
    obtain ⟨i, li, xi, hi⟩ := I.onto k lk xk
    have : i / 2 ∉ P := by
      intro c
      rcases I.edge i li xi c with d | d
      · exact hP (by rw [← hk, ← hi]; exact d)
      · rw [hi, hk] at d
        omega
    have := I.fix i li this
    exact ⟨i, li, xi, this, by rw [← hi, this]⟩
  have hl : ∀ i, m0.heLive i → i / 2 = j / 2 → m0.heLive (2 * (j / 2)) := by
    intro i li hi
    rw [← hi]
    rcases half_or i with c | c
    · rwa [← c]
    · have := hv0.twin_live _ li
      rw [c, twin_two_mul_add] at this
      rwa [show i / 2 = (2 * (i / 2) + 1) / 2 by omega, ← c] at this
  by_cases x : m.ext j
  · obtain ⟨i, li, xi, ri, hi⟩ := key _ (I.valid.twin_live _ lj) (I.valid.ext_twin lj x) (twin_div j)
    exact ⟨hl i li (by rw [hi, twin_div]), i, li, xi, by rw [hi, twin_div], ri, .inr (by rw [hi, twin_twin])⟩
  · obtain ⟨i, li, xi, ri, hi⟩ := key _ lj x rfl
    exact ⟨hl i li (by rw [hi]), i, li, xi, by rw [hi], ri, .inl hi⟩

theorem or_shuffle {a b c d : Prop} : (a ∨ b ∨ c) ∨ d ↔ (b ∨ a) ∨ c ∨ d := by tauto

set_option maxHeartbeats 800000 in
theorem CutRun.step {m0 : Mesh} {cut : ℕ → Bool} {T : Finset ℕ} (H : CutSpec m0 cut T) {s : CutSt} {P : Finset ℕ} {ρ : ℕ → ℕ}
    (R : CutRun m0 T s m P ρ) {e : ℕ} {q : List ℕ} (hq : s.queue = e :: q) :
    ∃ s' m' σ, cutStep cut { s with queue := q } e = .ok s' ∧ e ∉ P ∧ CutRun m0 T s' m' (insert e P) (σ ∘ ρ) := by
  have hv0 := H.valid
  have I := R.opn
  obtain ⟨eT, eP, eC⟩ := R.wait e (by rw [hq]; exact List.mem_cons_self)
  obtain ⟨l0, ce⟩ := (H.mem e).1 eT
  obtain ⟨b0, b1⟩ := H.inner e eT
  have x0 : ¬ m0.ext (2 * e) := hv0.edge_int e l0
  have l1 : m0.heLive (2 * e + 1) := by rw [← twin_two_mul]; exact hv0.twin_live _ l0
  have x1 : ¬ m0.ext (2 * e + 1) := fun c => b1 ⟨_, l1, rfl, c⟩
  have r0 : ρ (2 * e) = 2 * e := I.fix _ l0 (by rw [Nat.mul_div_cancel_left _ (by norm_num)]; exact eP)
  have r1 : ρ (2 * e + 1) = 2 * e + 1 := I.fix _ l1 (by rw [show (2 * e + 1) / 2 = e by omega]; exact eP)
  obtain ⟨k0, y0, -⟩ := I.keep _ l0 x0
  obtain ⟨k1, y1, -⟩ := I.keep _ l1 x1
  have hb0 := I.bdy _ l0 x0
  have hb1 := I.bdy _ l1 x1
  rw [r0] at k0 y0 hb0
  rw [r1] at k1 y1 hb1
  have insT : insert e P ⊆ T := Finset.insert_subset eT R.sub
  have cardI : (insert e P).card = P.card + 1 := Finset.card_insert_of_notMem eP
  have hnot : ¬ (m0.heVertex (2 * e) ∈ m0.touched P ∧ m0.heVertex (2 * e + 1) ∈ m0.touched P) := by
    rintro ⟨c0, c1⟩
    have := H.forest _ insT ⟨e, Finset.mem_insert_self _ _⟩
    rw [touched_insert, Finset.insert_eq_self.2 c1, Finset.insert_eq_self.2 c0, cardI] at this
    have := R.few
    omega
  have hs : m.heVertex (2 * e) ≠ m.heVertex (2 * e + 1) := by
    intro c
    have c' := I.same _ _ l0 x0 l1 x1 (by rw [r0, r1]; exact c)
    have := H.forest {e} (Finset.singleton_subset_iff.2 eT) ⟨e, Finset.mem_singleton_self _⟩
    rw [show m0.touched {e} = {m0.heVertex (2 * e)} by simp [touched, ← c']] at this
    simp at this
  have hb : ¬ (m.OnBdy (m.heVertex (2 * e)) ∧ m.OnBdy (m.heVertex (2 * e + 1))) := by
    rintro ⟨c0, c1⟩
    exact hnot ⟨(hb0.1 c0).resolve_right b0, (hb1.1 c1).resolve_right b1⟩
  have cardT : P.card + 1 ≤ T.card := by rw [← cardI]; exact Finset.card_le_card insT
  rcases C11_partial m I.valid e k0 y1 hb hs (fun i li xi _ _ => I.tri i li xi) with ⟨-, c⟩ | ⟨m', r, hsep, S⟩
  · exfalso
    apply H.room
    obtain ⟨f1, f2, f3, f4, f5⟩ := I.fill
    unfold nearLimit at c ⊢
    omega
  have hf := separateEdge_fills hsep
  simp only at hf
  obtain ⟨σ, C, hr, I'⟩ := I.step hv0 eP l0 b0 b1 eC hnot S hf
  have ht : ∀ v, v ∈ m0.touched (insert e P) ↔ v = m0.heVertex (2 * e) ∨ v = m0.heVertex (2 * e + 1) ∨ v ∈ m0.touched P := by
    intro v
    rw [touched_insert, Finset.mem_insert, Finset.mem_insert]
  -- the edge `e` of the new mesh
  obtain ⟨i0, hi0, hσ0⟩ := C.edge'
  have hE : ∀ i, i / 2 = e → i = 2 * e ∨ i = 2 * e + 1 := fun i h => by omega
  have li0 : m0.heLive i0 := by rcases hE i0 hi0 with h | h <;> rw [h] <;> assumption
  have xi0 : ¬ m0.ext i0 := by rcases hE i0 hi0 with h | h <;> rw [h] <;> assumption
  have ri0 : ρ i0 = i0 := by rcases hE i0 hi0 with h | h <;> rw [h] <;> assumption
  obtain ⟨lσ, xσ, -, nσ⟩ := I'.keep i0 li0 xi0
  simp only [Function.comp, ri0] at lσ xσ nσ
  have lτ := I'.valid.twin_live _ lσ
  have xτ : m'.ext (twin (σ i0)) := C.rim i0 hi0
  have vτ : m'.heVertex (m'.heNext (twin (σ i0))) = m'.heVertex (σ i0) := I'.valid.vertex_vNext lσ
  have onA : m'.OnBdy (m'.heVertex (σ i0)) := ⟨_, I'.valid.next_live _ lτ, vτ, (I'.valid.ext_next lτ).2 xτ⟩
  have onB : m'.OnBdy (m'.heVertex (twin (σ i0))) := ⟨_, lτ, rfl, xτ⟩
  have pair : ∀ Q : ℕ → Prop, Q (σ i0) → Q (twin (σ i0)) → Q (2 * e) ∧ Q (2 * e + 1) := by
    intro Q q1 q2
    rcases hE _ hσ0 with h | h <;> rw [h] at q1 q2
    · rw [twin_two_mul] at q2; exact ⟨q1, q2⟩
    · rw [twin_two_mul_add] at q2; exact ⟨q2, q1⟩
  obtain ⟨L0, L1⟩ := pair m'.heLive lσ lτ
  obtain ⟨B0, B1⟩ := pair (fun i => m'.OnBdy (m'.heVertex i)) onA onB
  obtain ⟨n1, -, -, hn1, -, -, -, nav1, -⟩ := C49_vertex_outgoing m' I'.valid _ (I'.valid.vertex_live _ L0)
  obtain ⟨n2, -, -, hn2, -, -, -, nav2, -⟩ := C49_vertex_outgoing m' I'.valid _ (I'.valid.vertex_live _ L1)
  have hstep : cutStep cut { s with queue := q } e = .ok ((n1.map (fun i => i / 2) ++ n2.map (fun i => i / 2)).foldl (cutPush cut)
      ⟨bump (P.card + 1) m', Function.update (Function.update s.parent (σ (2 * e)) (s.parent (2 * e))) (σ (2 * e + 1)) (s.parent (2 * e + 1)),
        s.considered, q⟩) := by
    have e1 : s.m.separateEdge e = .ok (bump (P.card + 1) m', r) := by
      rw [R.mesh, separateEdge_bump, hsep]
      simp only [Except.map, bump]
      congr 3
      omega
    unfold cutStep
    simp only [bind, Except.bind, e1]
    have a1 : (bump (P.card + 1) m').navVertexEdges ((bump (P.card + 1) m').heVertex (eHalfedge e)) = .ok (n1.map (fun i => i / 2)) := nav1
    have a2 : (bump (P.card + 1) m').navVertexEdges ((bump (P.card + 1) m').heVertex (twin (eHalfedge e))) = .ok (n2.map (fun i => i / 2)) := by
      rw [show twin (eHalfedge e) = 2 * e + 1 from twin_two_mul e]
      exact nav2
    rw [a1]
    simp only
    rw [a2]
    simp only [List.foldl_append, hr]
    rw [show twin (eHalfedge e) = 2 * e + 1 from twin_two_mul e]
    rfl
  obtain ⟨l, a1, a2, a3, a4, a5, a6⟩ := foldl_cutPush cut (n1.map (fun i => i / 2) ++ n2.map (fun i => i / 2))
    ⟨bump (P.card + 1) m', Function.update (Function.update s.parent (σ (2 * e)) (s.parent (2 * e))) (σ (2 * e + 1)) (s.parent (2 * e + 1)),
        s.considered, q⟩
  refine ⟨_, m', σ, hstep, eP, ?_⟩
  generalize (n1.map (fun i => i / 2) ++ n2.map (fun i => i / 2)).foldl (cutPush cut) _ = s' at a1 a2 a3 a6 ⊢
  simp only at a1 a2 a3 a5 a6
  have hmem : ∀ f, f ∈ n1.map (fun i => i / 2) ++ n2.map (fun i => i / 2) ↔
      ∃ j, m'.heLive j ∧ (m'.heVertex j = m'.heVertex (2 * e) ∨ m'.heVertex j = m'.heVertex (2 * e + 1)) ∧ j / 2 = f := by
    intro f
    rw [List.mem_append, List.mem_map, List.mem_map]
    constructor
    · rintro (⟨j, hj, rfl⟩ | ⟨j, hj, rfl⟩)
      · exact ⟨j, ((hn1 j).1 hj).1, .inl ((hn1 j).1 hj).2, rfl⟩
      · exact ⟨j, ((hn2 j).1 hj).1, .inr ((hn2 j).1 hj).2, rfl⟩
    · rintro ⟨j, lj, h | h, rfl⟩
      · exact .inl ⟨j, (hn1 j).2 ⟨lj, h⟩, rfl⟩
      · exact .inr ⟨j, (hn2 j).2 ⟨lj, h⟩, rfl⟩
  have hnd : (e :: q).Nodup := hq ▸ R.nodup
  have eq' : e ∉ q := (List.nodup_cons.1 hnd).1
  have seen : ∀ f, s.considered f = true ↔ f ∈ P ∨ f = e ∨ f ∈ q := by
    intro f
    rw [R.seen, hq, List.mem_cons]
  have unseen : ∀ f, s.considered f = false ↔ f ∉ P ∧ f ≠ e ∧ f ∉ q := by
    intro f
    rw [← Bool.not_eq_true, seen, not_or, not_or]
  refine ⟨by rw [a1, cardI], I', insT, ?_, ?_, fun h => absurd h (Finset.insert_ne_empty _ _), ?_, ?_, ?_, R.joined.insert eC, ?_⟩
  · rw [a3, List.nodup_append']
    exact ⟨(List.nodup_cons.1 hnd).2, a4, fun f hf hl => ((unseen f).1 ((a5 f).1 hl).2.2).2.2 hf⟩
  · intro f hf
    rw [a3, List.mem_append] at hf
    rcases hf with hf | hf
    · obtain ⟨w1, w2, w3⟩ := R.wait f (by rw [hq]; exact List.mem_cons_of_mem _ hf)
      refine ⟨w1, ?_, fun _ => ?_⟩
      · rw [Finset.mem_insert, not_or]
        exact ⟨fun c => eq' (c ▸ hf), w2⟩
      · by_cases c : P.Nonempty
        · exact (w3 c).mono (Finset.subset_insert _ _)
        · have := R.first (Finset.not_nonempty_iff_eq_empty.1 c)
          rw [hq, List.length_cons] at this
          have := List.length_pos_of_mem hf
          omega
    · obtain ⟨h1, h2, h3⟩ := (a5 f).1 hf
      obtain ⟨u1, u2, u3⟩ := (unseen f).1 h3
      obtain ⟨j, lj, vj, rfl⟩ := (hmem f).1 h1
      have nI : j / 2 ∉ insert e P := by rw [Finset.mem_insert, not_or]; exact ⟨u2, u1⟩
      obtain ⟨lf, i, li, xi, hi, ri, hij⟩ := I'.old_edge hv0 lj (H.low _ h2) nI
      have fT := (H.mem _).2 ⟨lf, h2⟩
      have Bj : m'.OnBdy (m'.heVertex j) := by
        rcases vj with c | c <;> rw [c]
        · exact B0
        · exact B1
      obtain ⟨g0, g1⟩ := H.inner _ fT
      have ends : ∀ k, k / 2 = j / 2 → ¬ m0.OnBdy (m0.heVertex k) ∧ (m0.heVertex k ∈ m0.touched (insert e P) → m0.Touches (insert e P) (j / 2)) := by
        intro k hk
        have : k = 2 * (j / 2) ∨ k = 2 * (j / 2) + 1 := by omega
        rcases this with h | h <;> rw [h]
        · exact ⟨g0, .inl⟩
        · exact ⟨g1, .inr⟩
      refine ⟨fT, nI, fun _ => ?_⟩
      rcases hij with hij | hij
      · have := (I'.bdy i li xi).1 (by rw [ri, hij]; exact Bj)
        exact (ends i hi).2 (this.resolve_right (ends i hi).1)
      · have ln := hv0.next_live _ li
        have xn : ¬ m0.ext (m0.heNext i) := by rw [hv0.ext_next li]; exact xi
        have lm := (I'.keep i li xi).1
        have nm := (I'.keep i li xi).2.2.2
        rw [ri] at lm nm
        have := (I'.bdy _ ln xn).1 (by rw [← nm, I'.valid.vertex_next lm, hij]; exact Bj)
        rw [hv0.vertex_next li] at this
        have ht' := ends (twin i) (by rw [twin_div]; exact hi)
        exact ht'.2 (this.resolve_right ht'.1)
  · intro f
    rw [a6, seen, a3, List.mem_append, Finset.mem_insert]
    exact or_shuffle
  · intro f fT tf
    rw [Finset.mem_insert, a3, List.mem_append]
    by_cases fe : f = e
    · exact .inl (.inl fe)
    by_cases fP : f ∈ P
    · exact .inl (.inr fP)
    by_cases fq : f ∈ q
    · exact .inr (.inl fq)
    by_cases tP : m0.Touches P f
    · rcases R.closed f fT tP with h | h
      · exact .inl (.inr h)
      · rw [hq, List.mem_cons] at h
        exact (h.elim fe fq).elim
    refine .inr (.inr ((a5 f).2 ⟨(hmem f).2 ?_, ((H.mem f).1 fT).2, (unseen f).2 ⟨fP, fe, fq⟩⟩))
    obtain ⟨lf, -⟩ := (H.mem f).1 fT
    have lf1 : m0.heLive (2 * f + 1) := by rw [← twin_two_mul]; exact hv0.twin_live _ lf
    have hk : ∃ k, m0.heLive k ∧ k / 2 = f ∧ ¬ m0.OnBdy (m0.heVertex k) ∧ m0.heVertex k ∉ m0.touched P ∧
        (m0.heVertex k = m0.heVertex (2 * e) ∨ m0.heVertex k = m0.heVertex (2 * e + 1)) := by
      rcases tf with h | h
      · rcases (ht _).1 h with c | c | c
        · exact ⟨2 * f, lf, by omega, (H.inner f fT).1, fun d => tP (.inl d), .inl c⟩
        · exact ⟨2 * f, lf, by omega, (H.inner f fT).1, fun d => tP (.inl d), .inr c⟩
        · exact absurd (.inl c) tP
      · rcases (ht _).1 h with c | c | c
        · exact ⟨2 * f + 1, lf1, by omega, (H.inner f fT).2, fun d => tP (.inr d), .inl c⟩
        · exact ⟨2 * f + 1, lf1, by omega, (H.inner f fT).2, fun d => tP (.inr d), .inr c⟩
        · exact absurd (.inr c) tP
    obtain ⟨k, lk, hkf, bk, tk, hk⟩ := hk
    have xk : ¬ m0.ext k := fun c => bk ⟨k, lk, rfl, c⟩
    generalize hw : m0.heVertex k = w at *
    have put : ∀ i, m0.heLive i → ¬ m0.ext i → m0.heVertex i = w → m'.heVertex (σ (ρ i)) = w := by
      intro i li xi hi
      obtain ⟨p1, p2, -⟩ := I.keep i li xi
      have p3 := I.stay i li xi (by rw [hi]; exact tk)
      have p4 : ¬ m.OnBdy (m.heVertex (ρ i)) := by
        rw [I.bdy i li xi, hi, not_or]
        exact ⟨tk, bk⟩
      rw [C.stay _ p1 p2 (.inl p4), p3, hi]
    have rk : ρ k = k := I.fix k lk (by rw [hkf]; exact fP)
    have sk : σ k = k := C.fix k (by have := (I.keep k lk xk).1; rwa [rk] at this) (by rw [hkf]; exact fe)
    have vk := put k lk xk hw
    rw [rk, sk] at vk
    have lk' := (I'.keep k lk xk).1
    simp only [Function.comp, rk, sk] at lk'
    refine ⟨k, lk', ?_, hkf⟩
    rw [vk]
    have ln := hv0.next_live _ li0
    have xn : ¬ m0.ext (m0.heNext i0) := by rw [hv0.ext_next li0]; exact xi0
    have hw0 : w = m0.heVertex i0 ∨ w = m0.heVertex (m0.heNext i0) := by
      rw [hv0.vertex_next li0]
      rcases hE i0 hi0 with h | h <;> rw [h]
      · rw [twin_two_mul]; exact hk
      · rw [twin_two_mul_add]; exact hk.symm
    have hfin : w = m'.heVertex (σ i0) ∨ w = m'.heVertex (twin (σ i0)) := by
      rcases hw0 with h | h
      · have := put i0 li0 xi0 h.symm
        rw [ri0] at this
        exact .inl this.symm
      · have := put _ ln xn h.symm
        rw [← nσ, I'.valid.vertex_next lσ] at this
        exact .inr this.symm
    rcases hE _ hσ0 with h | h <;> rw [h] at hfin
    · rwa [twin_two_mul] at hfin
    · rw [twin_two_mul_add] at hfin; exact hfin.symm
  · rw [touched_insert, cardI]
    have c1 := Finset.card_insert_le (m0.heVertex (2 * e)) (insert (m0.heVertex (2 * e + 1)) (m0.touched P))
    have c2 := Finset.card_insert_le (m0.heVertex (2 * e + 1)) (m0.touched P)
    by_cases c : P.Nonempty
    · have := R.few
      rcases eC c with h | h
      · rw [Finset.insert_eq_self.2 (Finset.mem_insert_of_mem h)]
        omega
      · rw [Finset.insert_eq_self.2 h] at c1 ⊢
        omega
    · rw [Finset.not_nonempty_iff_eq_empty] at c
      subst c
      have : (m0.touched ∅).card = 0 := by simp [touched]
      simp only [Finset.card_empty]
      omega
  · intro i li xi
    rw [a2]
    simp only [Function.comp]
    obtain ⟨p1, p2, -⟩ := I.keep i li xi
    have k0' := I.keep _ l0 x0
    by_cases c1 : i = 2 * e + 1
    · rw [c1, r1, Function.update_self]
      have := R.parent _ l1 x1
      rwa [r1] at this
    · have d1 : σ (ρ i) ≠ σ (2 * e + 1) := by
        intro d
        have := C.inj _ _ p1 k1 d
        exact c1 (I.inj i _ li xi l1 x1 (by rw [r1]; exact this))
      rw [Function.update_of_ne d1]
      by_cases c0 : i = 2 * e
      · rw [c0, r0, Function.update_self]
        have := R.parent _ l0 x0
        rwa [r0] at this
      · have d0 : σ (ρ i) ≠ σ (2 * e) := by
          intro d
          have := C.inj _ _ p1 k0 d
          exact c0 (I.inj i _ li xi l0 x0 (by rw [r0]; exact this))
        rw [Function.update_of_ne d0]
        have ne : ρ i / 2 ≠ e := by
          intro d
          rcases hE _ d with d | d
          · exact c0 (I.inj i _ li xi l0 x0 (by rw [r0]; exact d))
          · exact c1 (I.inj i _ li xi l1 x1 (by rw [r1]; exact d))
        rw [C.fix _ p1 ne]
        exact R.parent i li xi

theorem CutRun.loop {m0 : Mesh} {cut : ℕ → Bool} {T : Finset ℕ} (H : CutSpec m0 cut T) (fuel : ℕ) {s : CutSt} {m : Mesh} {P : Finset ℕ} {ρ : ℕ → ℕ}
    (R : CutRun m0 T s m P ρ) (hf : T.card < fuel + P.card) :
    ∃ s' m' P' ρ', cutLoop cut fuel s = .ok s' ∧ CutRun m0 T s' m' P' ρ' ∧ s'.queue = [] ∧ (∀ f, f ∈ P ∨ f ∈ s.queue → f ∈ P') := by
  induction fuel generalizing s m P ρ with
  | zero =>
    have := Finset.card_le_card R.sub
    omega
  | succ n ih =>
    unfold cutLoop
    rcases hq : s.queue with _ | ⟨e, q⟩
    · exact ⟨s, m, P, ρ, rfl, R, hq, fun f h => h.elim id (fun h => absurd h List.not_mem_nil)⟩
    · obtain ⟨s1, m1, σ, h1, eP, R1⟩ := R.step H hq
      obtain ⟨s', m', P', ρ', h2, R2, q2, all⟩ := ih R1 (by rw [Finset.card_insert_of_notMem eP]; omega)
      simp only [h1]
      refine ⟨s', m', P', ρ', h2, R2, q2, fun f hf => ?_⟩
      rw [← hq] at hf
      have := (R.seen f).2 hf
      apply all
      rw [← R1.seen]
      clear ih all R2 h2 R1
      unfold cutStep at h1
      simp only [bind, Except.bind] at h1
      split at h1
      · cases h1
      split at h1
      · cases h1
      split at h1
      · cases h1
      cases h1
      rw [← List.foldl_append]
      obtain ⟨l, -, -, -, -, -, a6⟩ := foldl_cutPush cut (_ ++ _) _
      exact (a6 f).2 (.inl this)

/-! ### The leaf -/

/-- The two halfedges of each edge in `T`. -/
def halves (T : Finset ℕ) : Finset ℕ := T.biUnion (fun e => {2 * e, 2 * e + 1})

theorem mem_halves {T : Finset ℕ} {i : ℕ} : i ∈ halves T ↔ i / 2 ∈ T := by
  simp only [halves, Finset.mem_biUnion, Finset.mem_insert, Finset.mem_singleton]
  constructor
  · rintro ⟨e, he, h⟩
    rwa [show i / 2 = e by omega]
  · intro h
    exact ⟨_, h, half_or i⟩

theorem card_halves (T : Finset ℕ) : (halves T).card ≤ 2 * T.card := by
  refine Finset.card_biUnion_le.trans ?_
  have := Finset.sum_le_card_nsmul T (fun e => ({2 * e, 2 * e + 1} : Finset ℕ).card) 2 (fun e _ => Finset.card_le_two)
  simp only [nsmul_eq_mul, Nat.cast_id] at this
  omega

/-- The number of ends of edges of `T` at a vertex. -/
def ends (m : Mesh) (T : Finset ℕ) (v : ℕ) : ℕ := ((halves T).filter (fun i => m.heVertex i = v)).card

theorem touched_eq_image (T : Finset ℕ) : m.touched T = (halves T).image m.heVertex := by
  ext v
  rw [mem_touched, Finset.mem_image]
  constructor
  · rintro ⟨e, he, rfl | rfl⟩
    · exact ⟨2 * e, mem_halves.2 (by rwa [show 2 * e / 2 = e by omega]), rfl⟩
    · exact ⟨2 * e + 1, mem_halves.2 (by rwa [show (2 * e + 1) / 2 = e by omega]), rfl⟩
  · rintro ⟨i, hi, rfl⟩
    refine ⟨i / 2, mem_halves.1 hi, ?_⟩
    rcases half_or i with h | h
    · left; rw [← h]
    · right; rw [← h]

theorem cutCount_eq (hv : m.Valid) {cut : ℕ → Bool} {T : Finset ℕ} (hT : ∀ e, e ∈ T ↔ m.heLive (2 * e) ∧ cut e = true) {v : ℕ} (lv : m.vLive v) :
    m.cutCount cut v = .ok (m.ends T v) := by
  obtain ⟨l, -, nd, hl, -, -, -, nav, -⟩ := C49_vertex_outgoing m hv v lv
  unfold cutCount
  rw [nav]
  simp only [Except.map]
  congr 1
  rw [List.filter_map, List.length_map]
  unfold ends
  rw [← List.toFinset_card_of_nodup (nd.filter _)]
  congr 1
  ext i
  rw [List.mem_toFinset, List.mem_filter, Finset.mem_filter, mem_halves, hl, hT]
  simp only [Function.comp]
  have live : m.heLive i ↔ m.heLive (2 * (i / 2)) := by
    rcases half_or i with h | h
    · rw [← h]
    · constructor
      · intro li
        have := hv.twin_live _ li
        rwa [h, twin_two_mul_add] at this
      · intro li
        have := hv.twin_live _ li
        rwa [twin_two_mul, ← h] at this
  constructor
  · rintro ⟨⟨a, b⟩, c⟩
    exact ⟨⟨live.1 a, c⟩, b⟩
  · rintro ⟨⟨a, c⟩, b⟩
    exact ⟨⟨live.2 a, b⟩, c⟩

/-- An edge with an end at which no other edge of `T` ends. -/
def Leaf (m : Mesh) (T : Finset ℕ) (e : ℕ) : Prop := m.ends T (m.heVertex (2 * e)) = 1 ∨ m.ends T (m.heVertex (2 * e + 1)) = 1

theorem cutLeaf_ok (hv : m.Valid) {cut : ℕ → Bool} {T : Finset ℕ} (hT : ∀ e, e ∈ T ↔ m.heLive (2 * e) ∧ cut e = true) (es : List ℕ)
    (hes : ∀ e ∈ es, m.heLive (2 * e)) :
    ∃ o, m.cutLeaf cut es = .ok o ∧ (∀ e, o = some e → e ∈ es ∧ e ∈ T ∧ m.Leaf T e) ∧ (o = none → ∀ e ∈ es, e ∈ T → ¬ m.Leaf T e) := by
  induction es with
  | nil => exact ⟨none, rfl, by simp, by simp⟩
  | cons e es ih =>
    obtain ⟨o, h1, h2, h3⟩ := ih (fun f hf => hes f (List.mem_cons_of_mem _ hf))
    have le := hes e List.mem_cons_self
    unfold cutLeaf
    by_cases c : cut e = true
    · rw [if_pos c]
      have eT := (hT e).2 ⟨le, c⟩
      have c1 : m.cutCount cut (m.heVertex (eHalfedge e)) = .ok (m.ends T (m.heVertex (2 * e))) := cutCount_eq hv hT (hv.vertex_live _ le)
      have c2 : m.cutCount cut (m.heVertex (twin (eHalfedge e))) = .ok (m.ends T (m.heVertex (2 * e + 1))) := by
        rw [show twin (eHalfedge e) = 2 * e + 1 from twin_two_mul e]
        refine cutCount_eq hv hT (hv.vertex_live _ ?_)
        rw [← twin_two_mul]
        exact hv.twin_live _ le
      simp only [bind, Except.bind, c1, c2]
      by_cases d : m.Leaf T e
      · rw [if_pos (show _ ∨ _ from d)]
        exact ⟨some e, rfl, fun f hf => by cases hf; exact ⟨List.mem_cons_self, eT, d⟩, fun h => by cases h⟩
      · rw [if_neg (show ¬ (_ ∨ _) from d)]
        refine ⟨o, h1, fun f hf => ⟨List.mem_cons_of_mem _ (h2 f hf).1, (h2 f hf).2⟩, fun h f hf => ?_⟩
        rcases List.mem_cons.1 hf with rfl | hf
        · exact fun _ => d
        · exact h3 h f hf
    · rw [if_neg c]
      refine ⟨o, h1, fun f hf => ⟨List.mem_cons_of_mem _ (h2 f hf).1, (h2 f hf).2⟩, fun h f hf => ?_⟩
      rcases List.mem_cons.1 hf with rfl | hf
      · exact fun fT => absurd ((hT f).1 fT).2 c
      · exact h3 h f hf

theorem exists_leaf {T : Finset ℕ} (h : T.card < (m.touched T).card) : ∃ e ∈ T, m.Leaf T e := by
  by_contra c
  push Not at c
  have := Finset.mul_card_image_le_card (f := m.heVertex) (halves T) 2 (fun v hv => by
    obtain ⟨i, hi, rfl⟩ := Finset.mem_image.1 hv
    have hl := c _ (mem_halves.1 hi)
    unfold Leaf at hl
    rw [not_or] at hl
    have : m.ends T (m.heVertex i) ≠ 1 := by
      rcases half_or i with d | d
      · rw [← d] at hl; exact hl.1
      · rw [← d] at hl; exact hl.2
    have pos : 0 < m.ends T (m.heVertex i) := Finset.card_pos.2 ⟨i, Finset.mem_filter.2 ⟨hi, rfl⟩⟩
    unfold ends at this pos
    omega)
  rw [← touched_eq_image] at this
  have := card_halves T
  omega

theorem foldl_max_above (l : List ℕ) (a : ℕ) : a ≤ l.foldl max a ∧ ∀ x ∈ l, x ≤ l.foldl max a := by
  induction l generalizing a with
  | nil => exact ⟨le_rfl, by simp⟩
  | cons b l ih =>
    obtain ⟨h1, h2⟩ := ih (max a b)
    refine ⟨(le_max_left _ _).trans h1, fun x hx => ?_⟩
    rcases List.mem_cons.1 hx with rfl | hx
    · exact (le_max_right _ _).trans h1
    · exact h2 x hx

theorem foldl_max_below (l : List ℕ) (a N : ℕ) (ha : a < N) (h : ∀ x ∈ l, x < N) : l.foldl max a < N := by
  induction l generalizing a with
  | nil => exact ha
  | cons b l ih => exact ih _ (max_lt ha (h b List.mem_cons_self)) (fun x hx => h x (List.mem_cons_of_mem _ hx))

/-! ### The parents -/

theorem foldl_inv (xs : List ℕ) (p : ℕ → ℕ) (i : ℕ) : xs.foldl (fun p i => Function.update p i INV) p i = if i ∈ xs then INV else p i := by
  induction xs generalizing p with
  | nil => simp
  | cons x xs ih =>
    rw [List.foldl_cons, ih]
    by_cases h : i ∈ xs
    · simp [h]
    · by_cases c : i = x
      · subst c; simp
      · simp [h, c, Function.update_of_ne c]

end Mesh
end GC
