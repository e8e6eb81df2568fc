import Verif.Marching
import Verif.MeshValid
import Verif.MeshCheck
import Verif.Props.Nav
import Mathlib.Data.List.Perm.Basic
import Mathlib.Tactic.FieldSimp
import Mathlib.Tactic.Linarith

/-! # C46, C54: level curves -/

namespace GC
namespace Marching

section
variable {α : Type}

/-- Segment `b` begins where segment `a` ends. -/
def Link (nodes : List α) (a b : Seg) : Prop := nodes[a.2]? = nodes[b.1]?

def InRange (nodes : List α) (s : Seg) : Prop := s.1 < nodes.length ∧ s.2 < nodes.length

variable [DecidableEq α]

theorem scan_ok (nodes : List α) (sel : Seg → ℕ) (p : α) (l : List Seg) (h : ∀ o ∈ l, sel o < nodes.length) : ∀ i,
    (scan nodes sel p l i = .ok none ∧ ∀ o ∈ l, nodes[sel o]? ≠ some p) ∨
    ∃ (j : ℕ) (o : Seg), scan nodes sel p l i = .ok (some (i + j, o)) ∧ l[j]? = some o ∧ nodes[sel o]? = some p := by
  induction l with
  | nil => intro i; left; exact ⟨rfl, by simp⟩
  | cons a l ih =>
    intro i
    have ha := h a List.mem_cons_self
    unfold scan
    rw [rd_lt ha]
    dsimp only
    by_cases hp : nodes[sel a] = p
    · right
      refine ⟨0, a, by rw [if_pos hp]; rfl, rfl, by rw [List.getElem?_eq_getElem ha, hp]⟩
    · rw [if_neg hp]
      rcases ih (fun o ho => h o (List.mem_cons_of_mem _ ho)) (i + 1) with ⟨e, hn⟩ | ⟨j, o, e, h1, h2⟩
      · left
        refine ⟨e, fun o ho => ?_⟩
        rcases List.mem_cons.1 ho with rfl | ho
        · rw [List.getElem?_eq_getElem ha]
          exact fun hc => hp (Option.some.inj hc)
        · exact hn o ho
      · right
        exact ⟨j + 1, o, by rw [e]; congr 3; omega, h1, h2⟩

theorem erase_perm {l : List Seg} {j : ℕ} {o : Seg} (h : l[j]? = some o) : (o :: l.eraseIdx j).Perm l := by
  obtain ⟨hj, rfl⟩ := List.getElem?_eq_some_iff.1 h
  exact List.getElem_cons_eraseIdx_perm hj

theorem front_ok (nodes : List α) : ∀ (n : ℕ) (curr : Seg) (curve edges : List Seg), edges.length < n → InRange nodes curr →
    (∀ o ∈ edges, InRange nodes o) →
    ∃ ext rest, extendFront nodes n curr curve edges = .ok (curve ++ ext, rest) ∧ (ext ++ rest).Perm edges ∧
      (curr :: ext).IsChain (Link nodes) ∧ ∀ a ∈ (curr :: ext).getLast?, ∀ o ∈ rest, ¬ Link nodes a o := by
  intro n
  induction n with
  | zero => intro curr curve edges h; omega
  | succ n ih =>
    intro curr curve edges hn hc he
    unfold extendFront
    rw [rd_lt hc.2]
    dsimp only
    have hc2 := hc.2
    rcases scan_ok nodes Prod.fst nodes[curr.2] edges (fun o ho => (he o ho).1) 0 with ⟨e, hnone⟩ | ⟨j, o, e, hj, ho⟩
    · rw [e]
      refine ⟨[], edges, by simp, by simp, by simp, ?_⟩
      intro a ha o ho hl
      simp at ha
      subst ha
      unfold Link at hl
      rw [List.getElem?_eq_getElem hc.2] at hl
      exact hnone o ho hl.symm
    · rw [e]
      dsimp only
      rw [Nat.zero_add]
      have hp := erase_perm hj
      have hlen := hp.length_eq
      simp only [List.length_cons] at hlen
      obtain ⟨ext, rest, e', h1, h2, h3⟩ := ih o (curve ++ [o]) (edges.eraseIdx j) (by omega) (he o (List.mem_of_getElem? hj))
        (fun x hx => he x (List.mem_of_mem_eraseIdx hx))
      refine ⟨o :: ext, rest, by rw [e']; simp, ?_, ?_, ?_⟩
      · rw [List.cons_append]
        exact (h1.cons o).trans hp
      · rw [List.isChain_cons_cons]
        refine ⟨?_, h2⟩
        unfold Link
        rw [List.getElem?_eq_getElem hc.2, ho]
      · rw [List.getLast?_cons_cons]; exact h3

theorem back_ok (nodes : List α) : ∀ (n : ℕ) (curr : Seg) (curve edges : List Seg), edges.length < n → InRange nodes curr →
    (∀ o ∈ edges, InRange nodes o) →
    ∃ ext rest, extendBack nodes n curr curve edges = .ok (ext ++ curve, rest) ∧ (ext ++ rest).Perm edges ∧
      (ext ++ [curr]).IsChain (Link nodes) ∧ ∀ a ∈ (ext ++ [curr]).head?, ∀ o ∈ rest, ¬ Link nodes o a := by
  intro n
  induction n with
  | zero => intro curr curve edges h; omega
  | succ n ih =>
    intro curr curve edges hn hc he
    unfold extendBack
    rw [rd_lt hc.1]
    dsimp only
    have hc1 := hc.1
    rcases scan_ok nodes Prod.snd nodes[curr.1] edges (fun o ho => (he o ho).2) 0 with ⟨e, hnone⟩ | ⟨j, o, e, hj, ho⟩
    · rw [e]
      refine ⟨[], edges, by simp, by simp, by simp, ?_⟩
      intro a ha o ho hl
      simp at ha
      subst ha
      unfold Link at hl
      rw [List.getElem?_eq_getElem hc.1] at hl
      exact hnone o ho hl
    · rw [e]
      dsimp only
      rw [Nat.zero_add]
      have hp := erase_perm hj
      have hlen := hp.length_eq
      simp only [List.length_cons] at hlen
      obtain ⟨ext, rest, e', h1, h2, h3⟩ := ih o (o :: curve) (edges.eraseIdx j) (by omega) (he o (List.mem_of_getElem? hj))
        (fun x hx => he x (List.mem_of_mem_eraseIdx hx))
      refine ⟨ext ++ [o], rest, by rw [e']; simp, ?_, ?_, ?_⟩
      · refine List.Perm.trans ?_ hp
        rw [List.append_assoc, List.singleton_append]
        exact List.perm_middle.trans (h1.cons o)
      · rw [List.append_assoc, List.singleton_append, List.isChain_split]
        refine ⟨h2, ?_⟩
        rw [List.isChain_cons_cons]
        refine ⟨?_, by simp⟩
        unfold Link
        rw [List.getElem?_eq_getElem hc.1, ho]
      · have : (ext ++ [o] ++ [curr]).head? = (ext ++ [o]).head? := by
          cases ext <;> rfl
        rw [this]; exact h3

/-- What `getCurveComponents` guarantees about the chains `curves` of the segments `edges`. -/
structure Chains (nodes : List α) (edges : List Seg) (curves : List (List Seg)) : Prop where
  /-- Every segment occurs exactly once. -/
  all : curves.flatten.Perm edges
  ne : ∀ c ∈ curves, c ≠ []
  /-- Each segment begins where its predecessor ends. -/
  chain : ∀ c ∈ curves, c.IsChain (Link nodes)
  /-- Chains are as long as possible: no later segment continues an earlier chain at either end. -/
  maximal : curves.Pairwise (fun c d => ∀ o ∈ d, (∀ a ∈ c.getLast?, ¬ Link nodes a o) ∧ (∀ a ∈ c.head?, ¬ Link nodes o a))

theorem components_ok (nodes : List α) (nSegs : ℕ) : ∀ (n : ℕ) (edges : List Seg) (curves : List (List Seg)), edges.length < n →
    edges.length ≤ nSegs → (∀ o ∈ edges, InRange nodes o) →
    ∃ more, componentsAux nodes nSegs n edges curves = .ok (curves ++ more) ∧ Chains nodes edges more := by
  intro n
  induction n with
  | zero => intro edges curves h; omega
  | succ n ih =>
    intro edges curves hn hs he
    unfold componentsAux
    rcases List.eq_nil_or_concat edges with rfl | ⟨l, start, rfl⟩
    · exact ⟨[], by simp, by simp, by simp, by simp, by simp⟩
    · rw [List.concat_eq_append] at hn hs he ⊢
      rw [List.getLast?_append_of_ne_nil _ (by simp), List.dropLast_concat]
      dsimp only [List.getLast?_singleton]
      simp only [List.length_append, List.length_singleton] at hn hs
      have hst : InRange nodes start := he start (by simp)
      have hl : ∀ o ∈ l, InRange nodes o := fun o ho => he o (by simp [ho])
      obtain ⟨ext, rest, e1, p1, c1, m1⟩ := front_ok nodes (nSegs + 1) start [start] l (by omega) hst hl
      rw [e1]
      dsimp only
      have hsub : ∀ o ∈ rest, o ∈ l := fun o ho => p1.subset (by simp [ho])
      have len1 := p1.length_eq
      simp only [List.length_append] at len1
      obtain ⟨ext', rest', e2, p2, c2, m2⟩ := back_ok nodes (nSegs + 1) start ([start] ++ ext) rest (by omega) hst
        (fun o ho => hl o (hsub o ho))
      rw [e2]
      dsimp only
      have hsub' : ∀ o ∈ rest', o ∈ rest := fun o ho => p2.subset (by simp [ho])
      have len2 := p2.length_eq
      simp only [List.length_append] at len2
      obtain ⟨more, e3, H⟩ := ih rest' (curves ++ [ext' ++ ([start] ++ ext)]) (by omega) (by omega)
        (fun o ho => hl o (hsub o (hsub' o ho)))
      refine ⟨(ext' ++ ([start] ++ ext)) :: more, by rw [e3]; simp, ?_, ?_, ?_, ?_⟩
      · rw [List.flatten_cons]
        have q1 : (ext' ++ ([start] ++ ext) ++ more.flatten).Perm (ext' ++ ([start] ++ ext) ++ rest') := H.all.append_left _
        have q2 : (ext' ++ ([start] ++ ext) ++ rest').Perm (start :: (ext ++ (ext' ++ rest'))) := by
          rw [List.append_assoc, List.append_assoc, List.singleton_append]
          refine List.perm_middle.trans (List.Perm.cons _ ?_)
          rw [← List.append_assoc, ← List.append_assoc]
          exact List.perm_append_comm.append_right _
        have q3 : (start :: (ext ++ (ext' ++ rest'))).Perm (start :: (ext ++ rest)) := (p2.append_left _).cons _
        have q4 : (start :: (ext ++ rest)).Perm (start :: l) := p1.cons _
        have q5 : (start :: l).Perm (l ++ [start]) := (List.perm_append_singleton _ _).symm
        exact q1.trans (q2.trans (q3.trans (q4.trans q5)))
      · intro c hc
        rcases List.mem_cons.1 hc with rfl | hc
        · simp
        · exact H.ne c hc
      · intro c hc
        rcases List.mem_cons.1 hc with rfl | hc
        · rw [List.singleton_append, List.isChain_split]; exact ⟨c2, c1⟩
        · exact H.chain c hc
      · rw [List.pairwise_cons]
        refine ⟨?_, H.maximal⟩
        intro d hd o ho
        have hor : o ∈ rest' := H.all.subset (List.mem_flatten.2 ⟨d, hd, ho⟩)
        constructor
        · intro a ha
          apply m1 a _ o (hsub' o hor)
          rw [List.getLast?_append_of_ne_nil _ (by simp)] at ha
          exact ha
        · intro a ha
          apply m2 a _ o hor
          cases ext' <;> simpa using ha

/-- **C46.** `getCurveComponents` terminates and returns chains of consecutively connected segments that together contain every segment
exactly once; moreover no two chains could have been joined. -/
theorem C46 (nodes : List α) (edges : List Seg) (h : ∀ o ∈ edges, InRange nodes o) :
    ∃ curves, getCurveComponents nodes edges = .ok curves ∧ Chains nodes edges curves := by
  obtain ⟨more, e, H⟩ := components_ok nodes edges.length (edges.length + 1) edges [] (by omega) le_rfl h
  exact ⟨more, by unfold getCurveComponents; rw [e]; rfl, H⟩

/-- Two loops (segments `0→1→0` and `2→3→4`) given out of order. -/
example : getCurveComponents [10, 11, 12, 13, 14] [(3, 4), (0, 1), (2, 3), (1, 0)] = .ok [[(1, 0), (0, 1)], [(2, 3), (3, 4)]] := rfl
example : ∀ o ∈ [(3, 4), (0, 1), (2, 3), (1, 0)], InRange [10, 11, 12, 13, 14] o := by unfold InRange; decide

theorem intern_ok (nodes : List α) (hn : nodes.Nodup) (p : α) : ∃ k more, intern nodes p = (nodes ++ more, k) ∧
    (nodes ++ more)[k]? = some p ∧ (nodes ++ more).Nodup := by
  unfold intern
  by_cases h : nodes.idxOf p < nodes.length
  · rw [if_pos h]
    refine ⟨_, [], by rw [List.append_nil], ?_, by rw [List.append_nil]; exact hn⟩
    rw [List.append_nil, List.getElem?_eq_getElem h, List.getElem_idxOf h]
  · rw [if_neg h]
    refine ⟨_, [p], rfl, by simp, ?_⟩
    have hp : p ∉ nodes := fun hp => h (List.idxOf_lt_length_iff.2 hp)
    rw [List.nodup_append]
    exact ⟨hn, by simp, by intro a ha b hb; simp at hb; rintro rfl; exact hp (hb ▸ ha)⟩

theorem curvePoints_ok (nodes : List α) (c : List Seg) (hc : c ≠ []) (h : ∀ o ∈ c, InRange nodes o) :
    ∃ pts : List (α × α), c.map (fun o => (nodes[o.1]?, nodes[o.2]?)) = pts.map (fun q => (some q.1, some q.2)) ∧
      curvePoints nodes c = .ok (pts.map Prod.fst ++ (pts.map Prod.snd).getLast?.toList) := by
  have hex : ∀ l : List Seg, (∀ o ∈ l, InRange nodes o) → ∃ pts : List (α × α),
      l.map (fun o => (nodes[o.1]?, nodes[o.2]?)) = pts.map (fun q => (some q.1, some q.2)) ∧
      l.mapM (fun s => rd nodes s.1) = .ok (pts.map Prod.fst) := by
    intro l
    induction l with
    | nil => intro _; exact ⟨[], rfl, rfl⟩
    | cons o l ih =>
      intro h
      obtain ⟨pts, a, b⟩ := ih (fun x hx => h x (List.mem_cons_of_mem _ hx))
      obtain ⟨h1, h2⟩ := h o List.mem_cons_self
      refine ⟨(nodes[o.1], nodes[o.2]) :: pts, ?_, ?_⟩
      · rw [List.map_cons, List.map_cons, a, List.getElem?_eq_getElem h1, List.getElem?_eq_getElem h2]
      · rw [List.mapM_cons, rd_lt h1, b]; rfl
  obtain ⟨pts, a, b⟩ := hex c h
  refine ⟨pts, a, ?_⟩
  unfold curvePoints
  rw [b]
  dsimp only
  have hlt : c.length - 1 < c.length := by
    have := List.length_pos_iff.2 hc; omega
  rw [rd_lt hlt]
  dsimp only
  have hin := h _ (List.getElem_mem hlt)
  rw [rd_lt hin.2]
  dsimp only
  have hlen : pts.length = c.length := by simpa using (congrArg List.length a).symm
  have hlast : (pts.map Prod.snd).getLast? = some (nodes[(c[c.length - 1]).2]'hin.2) := by
    rw [List.getLast?_eq_getElem?, List.length_map, hlen]
    have := congrArg (fun l => l[c.length - 1]?) a
    simp only [List.getElem?_map] at this
    rw [List.getElem?_eq_getElem hlt, List.getElem?_eq_getElem (by omega : c.length - 1 < pts.length)] at this
    simp only [Option.map_some, Option.some.injEq, Prod.mk.injEq] at this
    rw [List.getElem?_map, List.getElem?_eq_getElem (by omega : c.length - 1 < pts.length), Option.map_some, ← this.2,
      List.getElem?_eq_getElem hin.2]
  rw [hlast]; rfl
end

/-! ### Where the level crosses a triangle -/

/-- The level lies strictly between the two values. -/
def Between (x y iso : ℝ) : Prop := (x < iso ∧ iso < y) ∨ (y < iso ∧ iso < x)

/-- The parameter of the crossing, marching_triangles.cpp:88-90. -/
noncomputable def crossT (a b iso : ℝ) : ℝ :=
  if b < a then 1 - (iso - min a b) / (max a b - min a b) else (iso - min a b) / (max a b - min a b)

theorem crossT_spec {a b iso : ℝ} (hab : a ≠ b) :
    (1 - crossT a b iso) * a + crossT a b iso * b = iso ∧
    (a ≠ iso → b ≠ iso → ((crossT a b iso ≤ 1 ∧ 0 ≤ crossT a b iso) ↔ Between a b iso)) ∧
    (Between a b iso → 0 < crossT a b iso ∧ crossT a b iso < 1) := by
  unfold crossT
  rcases lt_or_gt_of_ne hab with h | h
  · rw [if_neg (not_lt.2 h.le), min_eq_left h.le, max_eq_right h.le]
    have hp : 0 < b - a := sub_pos.2 h
    refine ⟨by field_simp; ring, ?_, ?_⟩
    · intro ha hb
      rw [div_le_one hp, div_nonneg_iff]
      unfold Between
      constructor
      · rintro ⟨h1, h2⟩
        left
        have h3 : a ≤ iso := by rcases h2 with h2 | h2 <;> linarith [h2.1, h2.2]
        exact ⟨lt_of_le_of_ne h3 ha, lt_of_le_of_ne (by linarith) (Ne.symm hb)⟩
      · rintro (h1 | h1)
        · exact ⟨by linarith [h1.2], Or.inl ⟨by linarith [h1.1], hp.le⟩⟩
        · linarith [h1.1, h1.2]
    · intro hB
      rcases hB with h1 | h1
      · exact ⟨div_pos (by linarith [h1.1]) hp, by rw [div_lt_one hp]; linarith [h1.2]⟩
      · linarith [h1.1, h1.2]
  · rw [if_pos h, min_eq_right h.le, max_eq_left h.le]
    have hp : 0 < a - b := sub_pos.2 h
    have e : 1 - (iso - b) / (a - b) = (a - iso) / (a - b) := by field_simp; ring
    rw [e]
    refine ⟨by field_simp; ring, ?_, ?_⟩
    · intro ha hb
      rw [div_le_one hp, div_nonneg_iff]
      unfold Between
      constructor
      · rintro ⟨h1, h2⟩
        right
        have h3 : iso ≤ a := by rcases h2 with h2 | h2 <;> linarith [h2.1, h2.2]
        exact ⟨lt_of_le_of_ne (by linarith) hb, lt_of_le_of_ne h3 (Ne.symm ha)⟩
      · rintro (h1 | h1)
        · linarith [h1.1, h1.2]
        · exact ⟨by linarith [h1.1], Or.inl ⟨by linarith [h1.2], hp.le⟩⟩
    · intro hB
      rcases hB with h1 | h1
      · linarith [h1.1, h1.2]
      · exact ⟨div_pos (by linarith [h1.2]) hp, by rw [div_lt_one hp]; linarith [h1.1]⟩

theorem hitsLoop_cons (m : Mesh) (u : ℕ → ℝ) (iso : ℝ) (he : ℕ) (l : List ℕ) (hits : List SPoint) {a b : ℝ}
    (ha : u (m.heVertex (Mesh.eHalfedge (he / 2))) = a) (hb : u (m.tip (Mesh.eHalfedge (he / 2))) = b) :
    (a = b → a ≠ iso → hitsLoop m u iso (he :: l) hits = hitsLoop m u iso l hits) ∧
    (a ≠ b → hitsLoop m u iso (he :: l) hits = hitsLoop m u iso l
      (if crossT a b iso ≤ 1 ∧ 0 ≤ crossT a b iso then hits ++ [.edge (he / 2) (crossT a b iso)] else hits)) := by
  have hmm : min a b = max a b ↔ a = b := by
    constructor
    · intro h
      exact le_antisymm ((le_max_left a b).trans (h ▸ min_le_right a b)) ((le_max_right a b).trans (h ▸ min_le_left a b))
    · rintro rfl; simp
  constructor
  · intro hab hi
    conv_lhs => unfold hitsLoop
    simp only [show Mesh.heEdge he = he / 2 from rfl, ha, hb]
    rw [if_neg (by rintro ⟨-, h⟩; rw [hab, min_self] at h; exact hi (hab.trans h)), if_pos (hmm.2 hab)]
  · intro hab
    conv_lhs => unfold hitsLoop
    simp only [show Mesh.heEdge he = he / 2 from rfl, ha, hb]
    rw [if_neg (fun h => hab (hmm.1 h.1)), if_neg (fun h => hab (hmm.1 h))]
    rfl

theorem edge_ends (m : Mesh) (hv : m.Valid) {he : ℕ} (hl : m.heLive he) :
    m.tip (Mesh.eHalfedge (he / 2)) = m.heVertex (twin (Mesh.eHalfedge (he / 2))) ∧
    ((m.heVertex (Mesh.eHalfedge (he / 2)) = m.heVertex he ∧ m.tip (Mesh.eHalfedge (he / 2)) = m.tip he) ∨
     (m.heVertex (Mesh.eHalfedge (he / 2)) = m.tip he ∧ m.tip (Mesh.eHalfedge (he / 2)) = m.heVertex he)) := by
  rcases Nat.mod_two_eq_zero_or_one he with h | h
  · have e : Mesh.eHalfedge (he / 2) = he := by show 2 * (he / 2) = he; omega
    rw [e]
    exact ⟨hv.vertex_next hl, Or.inl ⟨rfl, rfl⟩⟩
  · have e : Mesh.eHalfedge (he / 2) = twin he := by
      rw [twin_eq, if_neg (by omega)]
      show 2 * (he / 2) = he - 1; omega
    rw [e]
    have ht := hv.twin_live _ hl
    refine ⟨hv.vertex_next ht, Or.inr ⟨(hv.vertex_next hl).symm, ?_⟩⟩
    unfold Mesh.tip
    rw [hv.vertex_next ht, twin_twin]

theorem between_comm {x y iso : ℝ} : Between x y iso ↔ Between y x iso := by unfold Between; exact or_comm

theorem hitsLoop_edge (m : Mesh) (hv : m.Valid) (u : ℕ → ℝ) (iso : ℝ) {he : ℕ} (hl : m.heLive he) (l : List ℕ) (hits : List SPoint)
    (h0 : u (m.heVertex he) ≠ iso) (h1 : u (m.tip he) ≠ iso) :
    (¬ Between (u (m.heVertex he)) (u (m.tip he)) iso → hitsLoop m u iso (he :: l) hits = hitsLoop m u iso l hits) ∧
    (Between (u (m.heVertex he)) (u (m.tip he)) iso → ∃ t, 0 < t ∧ t < 1 ∧ (SPoint.edge (he / 2) t).interpolate m u = iso ∧
      hitsLoop m u iso (he :: l) hits = hitsLoop m u iso l (hits ++ [.edge (he / 2) t])) := by
  obtain ⟨ht, hor⟩ := edge_ends m hv hl
  obtain ⟨a, ha⟩ : ∃ a, u (m.heVertex (Mesh.eHalfedge (he / 2))) = a := ⟨_, rfl⟩
  obtain ⟨b, hb⟩ : ∃ b, u (m.tip (Mesh.eHalfedge (he / 2))) = b := ⟨_, rfl⟩
  obtain ⟨g1, g2⟩ := hitsLoop_cons m u iso he l hits ha hb
  have hB : Between (u (m.heVertex he)) (u (m.tip he)) iso ↔ Between a b iso := by
    rcases hor with ⟨x, y⟩ | ⟨x, y⟩
    · rw [← x, ← y, ha, hb]
    · rw [← x, ← y, ha, hb, between_comm]
  have hai : a ≠ iso ∧ b ≠ iso := by
    rcases hor with ⟨x, y⟩ | ⟨x, y⟩
    · rw [← ha, ← hb, x, y]; exact ⟨h0, h1⟩
    · rw [← ha, ← hb, x, y]; exact ⟨h1, h0⟩
  rw [hB]
  by_cases hab : a = b
  · refine ⟨fun _ => g1 hab hai.1, fun h => ?_⟩
    subst hab
    unfold Between at h
    rcases h with h | h <;> exact absurd (h.1.trans h.2) (lt_irrefl _)
  · obtain ⟨c1, c2, c3⟩ := crossT_spec (iso := iso) hab
    refine ⟨fun h => ?_, fun h => ⟨crossT a b iso, (c3 h).1, (c3 h).2, ?_, ?_⟩⟩
    · rw [g2 hab, if_neg (fun hc => h ((c2 hai.1 hai.2).1 hc))]
    · show (1 - crossT a b iso) • u (m.heVertex (Mesh.eHalfedge (he / 2))) + crossT a b iso • u (m.heVertex (twin (Mesh.eHalfedge (he / 2)))) = iso
      rw [ha, ← ht, hb]
      simpa [smul_eq_mul] using c1
    · rw [g2 hab, if_pos ((c2 hai.1 hai.2).2 h)]

/-- A point in the interior of an edge of `f` whose interpolated value is the level. -/
def OnLevel (m : Mesh) (u : ℕ → ℝ) (iso : ℝ) (f : ℕ) (p : SPoint) : Prop :=
  ∃ he t, p = .edge (he / 2) t ∧ m.heLive he ∧ m.heFace he = f ∧ 0 < t ∧ t < 1 ∧ p.interpolate m u = iso

/-- **C54 (generic level).** If no corner of a triangle has the level as its value, then the triangle contributes exactly one segment,
with both ends on the level, if some corner lies below and some above, and nothing otherwise. Missing for C54: levels through a vertex, where it
is false (`C54_fails`). -/
theorem C54_partial (m : Mesh) (hv : m.Valid) (u : ℕ → ℝ) (iso : ℝ) (f : ℕ) (hf : m.fLive f) (ht : m.fIsTriangle f)
    (hne : ∀ he, m.heLive he → m.heFace he = f → u (m.heVertex he) ≠ iso) :
    ((∃ i j, m.heLive i ∧ m.heFace i = f ∧ m.heLive j ∧ m.heFace j = f ∧ u (m.heVertex i) < iso ∧ iso < u (m.heVertex j)) →
      ∃ p q, faceHits m u iso f = .ok [p, q] ∧ OnLevel m u iso f p ∧ OnLevel m u iso f q) ∧
    ((¬ ∃ i j, m.heLive i ∧ m.heFace i = f ∧ m.heLive j ∧ m.heFace j = f ∧ u (m.heVertex i) < iso ∧ iso < u (m.heVertex j)) →
      faceHits m u iso f = .ok []) := by
  obtain ⟨l0, l1, l2, f0, f1, f2⟩ := hv.tri_of hf ht
  have hlist := hv.tri_list hf ht
  have hcases : ∀ h, m.heLive h → m.heFace h = f → _ := fun h hh hhf => hv.tri_cases hf ht hh hhf
  unfold Mesh.fIsTriangle at ht
  generalize m.fHalfedge f = i0 at *
  generalize hi1 : m.heNext i0 = i1 at *
  generalize hi2 : m.heNext i1 = i2 at *
  have n0 := hne i0 l0 f0
  have n1 := hne i1 l1 f1
  have n2 := hne i2 l2 f2
  have t0 : m.tip i0 = m.heVertex i1 := by unfold Mesh.tip; rw [hi1]
  have t1 : m.tip i1 = m.heVertex i2 := by unfold Mesh.tip; rw [hi2]
  have t2 : m.tip i2 = m.heVertex i0 := by unfold Mesh.tip; rw [← ht]
  have hex : (∃ i j, m.heLive i ∧ m.heFace i = f ∧ m.heLive j ∧ m.heFace j = f ∧ u (m.heVertex i) < iso ∧ iso < u (m.heVertex j)) ↔
      (u (m.heVertex i0) < iso ∨ u (m.heVertex i1) < iso ∨ u (m.heVertex i2) < iso) ∧
      (iso < u (m.heVertex i0) ∨ iso < u (m.heVertex i1) ∨ iso < u (m.heVertex i2)) := by
    constructor
    · rintro ⟨i, j, a1, a2, b1, b2, c1, c2⟩
      constructor
      · rcases hcases i a1 a2 with rfl | rfl | rfl
        · exact Or.inl c1
        · exact Or.inr (Or.inl c1)
        · exact Or.inr (Or.inr c1)
      · rcases hcases j b1 b2 with rfl | rfl | rfl
        · exact Or.inl c2
        · exact Or.inr (Or.inl c2)
        · exact Or.inr (Or.inr c2)
    · rintro ⟨a, b⟩
      have A : ∃ i, m.heLive i ∧ m.heFace i = f ∧ u (m.heVertex i) < iso := by
        rcases a with a | a | a
        · exact ⟨i0, l0, f0, a⟩
        · exact ⟨i1, l1, f1, a⟩
        · exact ⟨i2, l2, f2, a⟩
      have B : ∃ i, m.heLive i ∧ m.heFace i = f ∧ iso < u (m.heVertex i) := by
        rcases b with a | a | a
        · exact ⟨i0, l0, f0, a⟩
        · exact ⟨i1, l1, f1, a⟩
        · exact ⟨i2, l2, f2, a⟩
      obtain ⟨i, x, y, z⟩ := A
      obtain ⟨j, x', y', z'⟩ := B
      exact ⟨i, j, x, y, x', y', z, z'⟩
  rw [hex]
  unfold faceHits
  rw [hlist]
  dsimp only
  have E0 := fun l hits => hitsLoop_edge m hv u iso l0 l hits n0 (by rw [t0]; exact n1)
  have E1 := fun l hits => hitsLoop_edge m hv u iso l1 l hits n1 (by rw [t1]; exact n2)
  have E2 := fun l hits => hitsLoop_edge m hv u iso l2 l hits n2 (by rw [t2]; exact n0)
  rw [t0] at E0
  rw [t1] at E1
  rw [t2] at E2
  generalize u (m.heVertex i0) = a at *
  generalize u (m.heVertex i1) = b at *
  generalize u (m.heVertex i2) = c at *
  have N : ∀ {x y : ℝ}, (x < iso ∧ y < iso) ∨ (iso < x ∧ iso < y) → ¬ Between x y iso := by
    intro x y h hB
    unfold Between at hB
    rcases h with h | h <;> rcases hB with g | g <;> linarith [h.1, h.2, g.1, g.2]
  have Nil : ∀ hits, hitsLoop m u iso [] hits = hits := fun _ => rfl
  rcases lt_or_gt_of_ne n0 with h0 | h0 <;> rcases lt_or_gt_of_ne n1 with h1 | h1 <;> rcases lt_or_gt_of_ne n2 with h2 | h2
  · refine ⟨fun h => absurd h.2 (by rintro (g | g | g) <;> linarith), fun _ => ?_⟩
    rw [(E0 _ _).1 (N (Or.inl ⟨h0, h1⟩)), (E1 _ _).1 (N (Or.inl ⟨h1, h2⟩)), (E2 _ _).1 (N (Or.inl ⟨h2, h0⟩))]; rfl
  · refine ⟨fun _ => ?_, fun h => absurd ⟨Or.inl h0, Or.inr (Or.inr h2)⟩ h⟩
    obtain ⟨s, s1, s2, s3, s4⟩ := (E1 [i2] []).2 (Or.inl ⟨h1, h2⟩)
    obtain ⟨t, q1, q2, q3, q4⟩ := (E2 [] ([] ++ [.edge (i1 / 2) s])).2 (Or.inr ⟨h0, h2⟩)
    refine ⟨_, _, by rw [(E0 _ _).1 (N (Or.inl ⟨h0, h1⟩)), s4, q4]; rfl, ⟨i1, s, rfl, l1, f1, s1, s2, s3⟩, ⟨i2, t, rfl, l2, f2, q1, q2, q3⟩⟩
  · refine ⟨fun _ => ?_, fun h => absurd ⟨Or.inl h0, Or.inr (Or.inl h1)⟩ h⟩
    obtain ⟨s, s1, s2, s3, s4⟩ := (E0 [i1, i2] []).2 (Or.inl ⟨h0, h1⟩)
    obtain ⟨t, q1, q2, q3, q4⟩ := (E1 [i2] ([] ++ [.edge (i0 / 2) s])).2 (Or.inr ⟨h2, h1⟩)
    refine ⟨_, _, by rw [s4, q4, (E2 _ _).1 (N (Or.inl ⟨h2, h0⟩))]; rfl, ⟨i0, s, rfl, l0, f0, s1, s2, s3⟩, ⟨i1, t, rfl, l1, f1, q1, q2, q3⟩⟩
  · refine ⟨fun _ => ?_, fun h => absurd ⟨Or.inl h0, Or.inr (Or.inl h1)⟩ h⟩
    obtain ⟨s, s1, s2, s3, s4⟩ := (E0 [i1, i2] []).2 (Or.inl ⟨h0, h1⟩)
    obtain ⟨t, q1, q2, q3, q4⟩ := (E2 [] ([] ++ [.edge (i0 / 2) s])).2 (Or.inr ⟨h0, h2⟩)
    refine ⟨_, _, by rw [s4, (E1 _ _).1 (N (Or.inr ⟨h1, h2⟩)), q4]; rfl, ⟨i0, s, rfl, l0, f0, s1, s2, s3⟩, ⟨i2, t, rfl, l2, f2, q1, q2, q3⟩⟩
  · refine ⟨fun _ => ?_, fun h => absurd ⟨Or.inr (Or.inl h1), Or.inl h0⟩ h⟩
    obtain ⟨s, s1, s2, s3, s4⟩ := (E0 [i1, i2] []).2 (Or.inr ⟨h1, h0⟩)
    obtain ⟨t, q1, q2, q3, q4⟩ := (E2 [] ([] ++ [.edge (i0 / 2) s])).2 (Or.inl ⟨h2, h0⟩)
    refine ⟨_, _, by rw [s4, (E1 _ _).1 (N (Or.inl ⟨h1, h2⟩)), q4]; rfl, ⟨i0, s, rfl, l0, f0, s1, s2, s3⟩, ⟨i2, t, rfl, l2, f2, q1, q2, q3⟩⟩
  · refine ⟨fun _ => ?_, fun h => absurd ⟨Or.inr (Or.inl h1), Or.inl h0⟩ h⟩
    obtain ⟨s, s1, s2, s3, s4⟩ := (E0 [i1, i2] []).2 (Or.inr ⟨h1, h0⟩)
    obtain ⟨t, q1, q2, q3, q4⟩ := (E1 [i2] ([] ++ [.edge (i0 / 2) s])).2 (Or.inl ⟨h1, h2⟩)
    refine ⟨_, _, by rw [s4, q4, (E2 _ _).1 (N (Or.inr ⟨h2, h0⟩))]; rfl, ⟨i0, s, rfl, l0, f0, s1, s2, s3⟩, ⟨i1, t, rfl, l1, f1, q1, q2, q3⟩⟩
  · refine ⟨fun _ => ?_, fun h => absurd ⟨Or.inr (Or.inr h2), Or.inl h0⟩ h⟩
    obtain ⟨s, s1, s2, s3, s4⟩ := (E1 [i2] []).2 (Or.inr ⟨h2, h1⟩)
    obtain ⟨t, q1, q2, q3, q4⟩ := (E2 [] ([] ++ [.edge (i1 / 2) s])).2 (Or.inl ⟨h2, h0⟩)
    refine ⟨_, _, by rw [(E0 _ _).1 (N (Or.inr ⟨h0, h1⟩)), s4, q4]; rfl, ⟨i1, s, rfl, l1, f1, s1, s2, s3⟩, ⟨i2, t, rfl, l2, f2, q1, q2, q3⟩⟩
  · refine ⟨fun h => absurd h.1 (by rintro (g | g | g) <;> linarith), fun _ => ?_⟩
    rw [(E0 _ _).1 (N (Or.inr ⟨h0, h1⟩)), (E1 _ _).1 (N (Or.inr ⟨h1, h2⟩)), (E2 _ _).1 (N (Or.inr ⟨h2, h0⟩))]; rfl

/-- Values 0, -1, 1, 1 at the four corners of `square`. -/
noncomputable def uDemo : ℕ → ℝ := fun v => if v = 0 then 0 else if v = 1 then -1 else 1

theorem square_hits : ∃ p q r, faceHits Mesh.square uDemo 0 0 = .ok [p, q, r] := by
  have hlist : Mesh.square.navFaceHalfedges 0 = .ok [0, 2, 4] := by decide +kernel
  unfold faceHits
  rw [hlist]
  dsimp only
  have v0 : Mesh.square.heVertex (Mesh.eHalfedge (0 / 2)) = 0 := by decide +kernel
  have w0 : Mesh.square.tip (Mesh.eHalfedge (0 / 2)) = 1 := by decide +kernel
  have v1 : Mesh.square.heVertex (Mesh.eHalfedge (2 / 2)) = 1 := by decide +kernel
  have w1 : Mesh.square.tip (Mesh.eHalfedge (2 / 2)) = 2 := by decide +kernel
  have v2 : Mesh.square.heVertex (Mesh.eHalfedge (4 / 2)) = 2 := by decide +kernel
  have w2 : Mesh.square.tip (Mesh.eHalfedge (4 / 2)) = 0 := by decide +kernel
  rw [(hitsLoop_cons _ uDemo 0 0 _ _ (a := 0) (b := -1) (by rw [v0]; simp [uDemo]) (by rw [w0]; simp [uDemo])).2 (by norm_num),
    (hitsLoop_cons _ uDemo 0 2 _ _ (a := -1) (b := 1) (by rw [v1]; simp [uDemo]) (by rw [w1]; simp [uDemo])).2 (by norm_num),
    (hitsLoop_cons _ uDemo 0 4 _ _ (a := 1) (b := 0) (by rw [v2]; simp [uDemo]) (by rw [w2]; simp [uDemo])).2 (by norm_num)]
  rw [if_pos (by unfold crossT; norm_num), if_pos (by unfold crossT; norm_num), if_pos (by unfold crossT; norm_num)]
  exact ⟨_, _, _, rfl⟩

/-- **C54 fails.** A level through a corner and the opposite side gives three hits, so the triangle contributes no segment although
the level passes through it: on `square` the curve has a gap. -/
theorem C54_fails : ∃ (m : Mesh) (u : ℕ → ℝ) (iso : ℝ) (f : ℕ), m.Valid ∧ m.fLive f ∧ m.fIsTriangle f ∧
    (∃ i j, m.heLive i ∧ m.heFace i = f ∧ m.heLive j ∧ m.heFace j = f ∧ u (m.heVertex i) < iso ∧ iso < u (m.heVertex j)) ∧
    (¬ ∃ p q, faceHits m u iso f = .ok [p, q]) ∧ ∀ keepDir, marchingTriangles m u iso keepDir [f] = .ok [] := by
  obtain ⟨p, q, r, h⟩ := square_hits
  refine ⟨Mesh.square, uDemo, 0, 0, Mesh.square_valid, by decide +kernel, by decide +kernel, ?_, ?_, ?_⟩
  · have v1 : Mesh.square.heVertex 2 = 1 := by decide +kernel
    have v2 : Mesh.square.heVertex 4 = 2 := by decide +kernel
    refine ⟨2, 4, by decide +kernel, by decide +kernel, by decide +kernel, by decide +kernel, ?_, ?_⟩
    · rw [v1]; simp [uDemo]
    · rw [v2]; simp [uDemo]
  · rintro ⟨a, b, hab⟩
    rw [h] at hab
    injection hab with hab
    simp at hab
  · intro keepDir
    unfold marchingTriangles
    rw [List.foldlM_cons]
    have : faceStep Mesh.square uDemo 0 keepDir ([], []) 0 = .ok ([], []) := by
      unfold faceStep; rw [h]
    rw [this]
    rfl

/-- A level that meets no corner: `C54_partial` applies and yields a segment. -/
example : ∃ p q, faceHits Mesh.square uDemo (1 / 2) 0 = .ok [p, q] := by
  have v0 : Mesh.square.heVertex 0 = 0 := by decide +kernel
  have v1 : Mesh.square.heVertex 2 = 1 := by decide +kernel
  have v2 : Mesh.square.heVertex 4 = 2 := by decide +kernel
  obtain ⟨p, q, h, -⟩ := (C54_partial Mesh.square Mesh.square_valid uDemo (1 / 2) 0 (by decide +kernel) (by decide +kernel) (by
      intro he _ _
      unfold uDemo
      split_ifs <;> norm_num)).1
    ⟨2, 4, by decide +kernel, by decide +kernel, by decide +kernel, by decide +kernel, by rw [v1]; norm_num [uDemo], by rw [v2]; norm_num [uDemo]⟩
  exact ⟨p, q, h⟩

/-! ### The curves returned -/

/-- The directed segment a face contributes. -/
def segOf (keepDir : Bool) : List SPoint → Option (SPoint × SPoint)
  | [p, q] => some (if keepDir then (p, q) else (q, p))
  | _ => none

/-- **C46 (curves).** On a valid mesh `marchingTriangles` returns polylines: chains of the directed segments of the faces, each face's
segment in exactly one chain exactly once, each polyline being the first points of its segments followed by the last end. -/
theorem C46_curves (m : Mesh) (hv : m.Valid) (u : ℕ → ℝ) (iso : ℝ) (keepDir : ℕ → Bool) (faces : List ℕ) (hf : ∀ f ∈ faces, m.fLive f) :
    ∃ (hits : ℕ → List SPoint) (chains : List (List (SPoint × SPoint))),
      (∀ f ∈ faces, faceHits m u iso f = .ok (hits f)) ∧
      marchingTriangles m u iso keepDir faces = .ok (chains.map (fun c => c.map Prod.fst ++ (c.map Prod.snd).getLast?.toList)) ∧
      chains.flatten.Perm (faces.filterMap (fun f => segOf (keepDir f) (hits f))) ∧
      ∀ c ∈ chains, c ≠ [] ∧ c.IsChain (fun a b => a.2 = b.1) := by
  classical
  have hex : ∀ f, ∃ h, f ∈ faces → faceHits m u iso f = .ok h := by
    intro f
    by_cases hff : f ∈ faces
    · obtain ⟨l, e, -⟩ := C49_face_halfedges m hv f (hf f hff)
      exact ⟨_, fun _ => by unfold faceHits; rw [e]⟩
    · exact ⟨[], fun h => absurd h hff⟩
  choose hits hhits using hex
  let g : List SPoint → Seg → Option SPoint × Option SPoint := fun nodes o => (nodes[o.1]?, nodes[o.2]?)
  let sm : SPoint × SPoint → Option SPoint × Option SPoint := fun q => (some q.1, some q.2)
  have smi : Function.Injective sm := by
    rintro ⟨a, b⟩ ⟨c, d⟩ h
    simp only [sm, Prod.mk.injEq, Option.some.injEq] at h
    exact Prod.ext h.1 h.2
  have gmono : ∀ (nodes more : List SPoint) (l : List Seg) (q : List (SPoint × SPoint)), l.map (g nodes) = q.map sm →
      l.map (g (nodes ++ more)) = q.map sm := by
    intro nodes more l q h
    rw [← h]
    apply List.map_congr_left
    intro o ho
    have : g nodes o ∈ q.map sm := by rw [← h]; exact List.mem_map.2 ⟨o, ho, rfl⟩
    obtain ⟨p, -, hp⟩ := List.mem_map.1 this
    simp only [g, sm, Prod.mk.injEq] at hp
    have a1 := (List.getElem?_eq_some_iff.1 hp.1.symm).1
    have a2 := (List.getElem?_eq_some_iff.1 hp.2.symm).1
    simp only [g]
    rw [List.getElem?_append_left a1, List.getElem?_append_left a2]
  obtain ⟨⟨nodes, edges⟩, e, hnd, hseg⟩ := foldlM_inv (f := faceStep m u iso keepDir) (l := faces) (s0 := ([], []))
    (fun p s => s.1.Nodup ∧ s.2.map (g s.1) = (p.filterMap (fun f => segOf (keepDir f) (hits f))).map sm) ⟨by simp, rfl⟩ (by
      rintro p f q ⟨nodes, edges⟩ hp ⟨h1, h2⟩
      dsimp only at h1 h2
      have hff : f ∈ faces := by rw [hp]; simp
      unfold faceStep
      rw [hhits f hff, List.filterMap_append]
      have none_case : segOf (keepDir f) (hits f) = none → (match (Except.ok (hits f) : Res (List SPoint)) with
          | .error e => .error e
          | .ok [h0, h1] =>
            let (nodes, i0) := intern nodes h0
            let (nodes, i1) := intern nodes h1
            if keepDir f then .ok (nodes, edges ++ [(i0, i1)]) else .ok (nodes, edges ++ [(i1, i0)])
          | .ok _ => .ok (nodes, edges)) = (.ok (nodes, edges) : Res (List SPoint × List Seg)) := by
        intro hs
        generalize hits f = H at hs
        rcases H with _ | ⟨a, _ | ⟨b, _ | ⟨c, H⟩⟩⟩
        · rfl
        · rfl
        · simp [segOf] at hs
        · rfl
      rcases hs : segOf (keepDir f) (hits f) with _ | seg
      · refine ⟨(nodes, edges), none_case hs, h1, ?_⟩
        simp [hs, h2]
      · obtain ⟨a, b, hab⟩ : ∃ a b, hits f = [a, b] := by
          generalize hits f = H at hs
          rcases H with _ | ⟨a, _ | ⟨b, _ | ⟨c, H⟩⟩⟩
          · cases hs
          · cases hs
          · exact ⟨a, b, rfl⟩
          · cases hs
        rw [hab] at hs ⊢
        simp only [List.filterMap_cons, List.filterMap_nil, hab, hs]
        obtain ⟨k0, more0, e0, g0, n0⟩ := intern_ok nodes h1 a
        obtain ⟨k1, more1, e1, g1, n1⟩ := intern_ok (nodes ++ more0) n0 b
        have g0' : (nodes ++ more0 ++ more1)[k0]? = some a := by
          rw [List.getElem?_append_left (List.getElem?_eq_some_iff.1 g0).1, g0]
        have hold := gmono (nodes ++ more0) more1 _ _ (gmono nodes more0 _ _ h2)
        simp only [e0, e1]
        simp only [segOf, Option.some.injEq] at hs
        by_cases hk : keepDir f = true
        · rw [if_pos hk] at hs ⊢
          refine ⟨_, rfl, n1, ?_⟩
          dsimp only
          rw [List.map_append, hold, List.map_append, ← hs]
          simp [g, sm, ← List.append_assoc, g0', g1, -List.append_assoc]
        · rw [if_neg hk] at hs ⊢
          refine ⟨_, rfl, n1, ?_⟩
          dsimp only
          rw [List.map_append, hold, List.map_append, ← hs]
          simp [g, sm, ← List.append_assoc, g0', g1, -List.append_assoc])
  dsimp only at hnd hseg
  have hin : ∀ o ∈ edges, InRange nodes o := by
    intro o ho
    have : g nodes o ∈ (faces.filterMap (fun f => segOf (keepDir f) (hits f))).map sm := by rw [← hseg]; exact List.mem_map.2 ⟨o, ho, rfl⟩
    obtain ⟨p, -, hp⟩ := List.mem_map.1 this
    simp only [g, sm, Prod.mk.injEq] at hp
    exact ⟨(List.getElem?_eq_some_iff.1 hp.1.symm).1, (List.getElem?_eq_some_iff.1 hp.2.symm).1⟩
  obtain ⟨curves, ec, H⟩ := C46 nodes edges hin
  have hpts : ∀ cs : List (List Seg), (∀ c ∈ cs, c ≠ [] ∧ ∀ o ∈ c, InRange nodes o) → ∃ chains : List (List (SPoint × SPoint)),
      cs.map (fun c => c.map (g nodes)) = chains.map (fun c => c.map sm) ∧
      cs.mapM (fun c => curvePoints nodes c) = .ok (chains.map (fun c => c.map Prod.fst ++ (c.map Prod.snd).getLast?.toList)) := by
    intro cs
    induction cs with
    | nil => intro _; exact ⟨[], rfl, rfl⟩
    | cons c cs ih =>
      intro h
      obtain ⟨chains, a, b⟩ := ih (fun x hx => h x (List.mem_cons_of_mem _ hx))
      obtain ⟨h1, h2⟩ := h c List.mem_cons_self
      obtain ⟨pts, p1, p2⟩ := curvePoints_ok nodes c h1 h2
      refine ⟨pts :: chains, ?_, ?_⟩
      · rw [List.map_cons, List.map_cons, a]; congr 1
      · rw [List.mapM_cons, p2, b]; rfl
  obtain ⟨chains, c1, c2⟩ := hpts curves (fun c hc => ⟨H.ne c hc, fun o ho => hin o (H.all.subset (List.mem_flatten.2 ⟨c, hc, ho⟩))⟩)
  refine ⟨hits, chains, hhits, ?_, ?_, ?_⟩
  · unfold marchingTriangles
    rw [e]; dsimp only
    have : @getCurveComponents SPoint (fun a b => Classical.propDecidable (a = b)) nodes edges = .ok curves := by
      rw [← ec]
    rw [this]
    exact c2
  · rw [← List.map_perm_map_iff smi, ← hseg, List.map_flatten, ← c1, ← List.map_flatten]
    exact H.all.map _
  · intro c hc
    have hm : c.map sm ∈ curves.map (fun c => c.map (g nodes)) := by rw [c1]; exact List.mem_map.2 ⟨c, hc, rfl⟩
    obtain ⟨d, hd, hdc⟩ := List.mem_map.1 hm
    refine ⟨?_, ?_⟩
    · rintro rfl
      exact H.ne d hd (by simpa using hdc)
    · have h1 := H.chain d hd
      have h2 : (d.map (g nodes)).IsChain (fun a b => a.2 = b.1) := by
        rw [List.isChain_map]; exact h1
      rw [hdc, List.isChain_map] at h2
      exact h2.imp (fun a b h => Option.some.inj h)

end Marching
end GC
