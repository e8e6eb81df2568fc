import Verif.Soup
import Mathlib.Tactic.Ring
import Mathlib.Tactic.LinearCombination

/-! # C33, C35: clean-up and triangulation of polygon soups -/

namespace GC
namespace Soup
variable {P U : Type}

/-- The position of every corner of every face (`none` for an index out of range). -/
def corners (s : Soup P U) : List (List (Option P)) := s.polygons.map (fun f => f.map (fun i => s.coords[i]?))

/-- All indices are in range. -/
def InRange (s : Soup P U) : Prop := ∀ f ∈ s.polygons, ∀ i ∈ f, i < s.coords.length

/-- Texture coordinates are absent or given for every face. -/
def Aligned (s : Soup P U) : Prop := s.params = [] ∨ s.params.length = s.polygons.length

theorem mapM_ok {α β : Type} {f : α → Res β} {g : α → β} {l : List α} (h : ∀ x ∈ l, f x = .ok (g x)) : l.mapM f = .ok (l.map g) := by
  induction l with
  | nil => rfl
  | cons a l ih =>
    rw [List.mapM_cons, h a List.mem_cons_self, ih (fun x hx => h x (List.mem_cons_of_mem _ hx))]
    rfl

theorem mapM_err {α β : Type} {f : α → Res β} {e : Err} {l : List α} (hb : ∀ x y, f x = .error y → y = e) {x : α} (hx : x ∈ l)
    (hf : f x = .error e) : l.mapM f = .error e := by
  induction l with
  | nil => simp at hx
  | cons a l ih =>
    rw [List.mapM_cons]
    rcases h : f a with err | b
    · rw [hb _ _ h]; rfl
    · rcases List.mem_cons.1 hx with rfl | hx
      · rw [hf] at h; cases h
      · rw [ih hx]; rfl

theorem reindex_ok {table : List ℕ} {polys : List (List ℕ)} (h : ∀ f ∈ polys, ∀ i ∈ f, i < table.length) :
    reindex table polys = .ok (polys.map (fun f => f.map (fun i => table.getD i 0))) := by
  apply mapM_ok
  intro f hf
  apply mapM_ok
  intro i hi
  have := h f hf i hi
  rw [rd_lt this]; simp [this]

theorem reindex_err {table : List ℕ} {polys : List (List ℕ)} {f : List ℕ} (hf : f ∈ polys) {i : ℕ} (hi : i ∈ f)
    (h : table.length ≤ i) : reindex table polys = .error .ub := by
  have h1 : ∀ x y, rd table x = .error y → y = .ub := by
    intro x y hxy
    unfold rd at hxy
    split at hxy <;> cases hxy
    rfl
  have h2 : ∀ (g : List ℕ) y, g.mapM (fun iV => rd table iV) = .error y → y = .ub := by
    intro g
    induction g with
    | nil => intro y h; cases h
    | cons a g ih =>
      intro y hy
      rw [List.mapM_cons] at hy
      rcases ha : rd table a with err | b
      · rw [ha] at hy; cases hy; exact h1 _ _ ha
      · rw [ha] at hy
        rcases hg : g.mapM (fun iV => rd table iV) with err | c
        · have := ih _ hg
          rw [hg] at hy; cases hy; exact this
        · rw [hg] at hy; cases hy
  exact mapM_err h2 hf (mapM_err h1 hi (rd_ge h))

/-! ### mergeIdenticalVertices -/

theorem merge_inv [DecidableEq P] (l : List P) :
    let t := l.foldl mergeStep ⟨[], [], fun _ => none⟩
    t.comp.length = l.length ∧ t.pos.Nodup ∧ (∀ v, v ∈ t.pos ↔ v ∈ l) ∧ (∀ v (k : ℕ), t.canon v = some k ↔ t.pos[k]? = some v) ∧
    ∀ (i : ℕ) v, l[i]? = some v → ∃ k : ℕ, t.comp[i]? = some k ∧ t.pos[k]? = some v := by
  induction l using List.reverseRecOn with
  | nil => simp
  | append_singleton l v ih =>
    rw [List.foldl_append]
    simp only [List.foldl_cons, List.foldl_nil]
    generalize l.foldl mergeStep ⟨[], [], fun _ => none⟩ = t at ih ⊢
    obtain ⟨h1, h2, h3, h4, h5⟩ := ih
    unfold mergeStep
    rcases hc : t.canon v with _ | k
    · have hv : v ∉ t.pos := by
        intro hm
        obtain ⟨k, hk⟩ := List.mem_iff_getElem?.1 hm
        rw [(h4 v k).2 hk] at hc; cases hc
      have hlen : (t.pos ++ [v]).length - 1 = t.pos.length := by simp
      have hlast : (t.pos ++ [v])[t.pos.length]? = some v := by simp
      have hold : ∀ (k : ℕ) w, t.pos[k]? = some w → (t.pos ++ [v])[k]? = some w := by
        intro k w hk
        rw [List.getElem?_append_left (List.getElem?_eq_some_iff.1 hk).1, hk]
      dsimp only
      rw [hlen]
      refine ⟨by simp [h1], ?_, ?_, ?_, ?_⟩
      · rw [List.nodup_append]
        exact ⟨h2, by simp, by intro a ha b hb; simp at hb; rintro rfl; exact hv (hb ▸ ha)⟩
      · intro w; simp [h3]
      · intro w k
        by_cases hw : w = v
        · subst hw
          rw [if_pos rfl]
          constructor
          · intro hk; cases hk; exact hlast
          · intro hk
            by_cases hlt : k < t.pos.length
            · rw [List.getElem?_append_left hlt] at hk
              exact absurd (List.mem_of_getElem? hk) hv
            · have := (List.getElem?_eq_some_iff.1 hk).1
              simp at this
              congr 1; omega
        · rw [if_neg hw, h4]
          constructor
          · exact hold k w
          · intro hk
            by_cases hlt : k < t.pos.length
            · rwa [List.getElem?_append_left hlt] at hk
            · have := (List.getElem?_eq_some_iff.1 hk).1
              simp at this
              obtain rfl : k = t.pos.length := by omega
              rw [hlast] at hk
              exact absurd (Option.some.inj hk).symm hw
      · intro i w hi
        by_cases hlt : i < l.length
        · rw [List.getElem?_append_left hlt] at hi
          obtain ⟨k, a, b⟩ := h5 i w hi
          exact ⟨k, by rw [List.getElem?_append_left (by omega)]; exact a, hold k w b⟩
        · have := (List.getElem?_eq_some_iff.1 hi).1
          simp at this
          obtain rfl : i = l.length := by omega
          simp at hi
          subst hi
          exact ⟨t.pos.length, by rw [← h1]; simp, hlast⟩
    · dsimp only
      have hk := (h4 v k).1 hc
      have hv : v ∈ t.pos := List.mem_of_getElem? hk
      refine ⟨by simp [h1], h2, ?_, h4, ?_⟩
      · intro w
        rw [h3]
        simp only [List.mem_append, List.mem_singleton]
        constructor
        · exact Or.inl
        · rintro (h | rfl)
          · exact h
          · exact (h3 _).1 hv
      · intro i w hi
        by_cases hlt : i < l.length
        · rw [List.getElem?_append_left hlt] at hi
          obtain ⟨j, a, b⟩ := h5 i w hi
          exact ⟨j, by rw [List.getElem?_append_left (by omega)]; exact a, b⟩
        · have := (List.getElem?_eq_some_iff.1 hi).1
          simp at this
          obtain rfl : i = l.length := by omega
          simp at hi
          subst hi
          exact ⟨k, by rw [← h1]; simp, hk⟩

/-- **C33 (merging).** `mergeIdenticalVertices` keeps the position of every corner, afterwards no two vertices coincide and no position is
lost or invented; texture coordinates are untouched. An index out of range is read out of range. -/
theorem C33_merge [DecidableEq P] (s : Soup P U) :
    (¬ s.InRange → s.mergeIdentical = .error .ub) ∧
    (s.InRange → ∃ s', s.mergeIdentical = .ok s' ∧ s'.corners = s.corners ∧ s'.InRange ∧ s'.params = s.params ∧ s'.coords.Nodup ∧
      ∀ v, v ∈ s'.coords ↔ v ∈ s.coords) := by
  obtain ⟨h1, h2, h3, -, h5⟩ := merge_inv s.coords
  set t := s.coords.foldl mergeStep ⟨[], [], fun _ => none⟩ with ht
  constructor
  · intro h
    unfold InRange at h
    push Not at h
    obtain ⟨f, hf, i, hi, hlt⟩ := h
    unfold mergeIdentical
    dsimp only
    rw [← ht, reindex_err hf hi (by omega)]
  · intro h
    have hre := reindex_ok (table := t.comp) (polys := s.polygons) (fun f hf i hi => by have := h f hf i hi; omega)
    refine ⟨⟨s.polygons.map (fun f => f.map (fun i => t.comp.getD i 0)), t.pos, s.params⟩, ?_, ?_, ?_, rfl, h2, h3⟩
    · unfold mergeIdentical
      dsimp only
      rw [← ht, hre]
    · unfold corners
      dsimp only
      rw [List.map_map]
      apply List.map_congr_left
      intro f hf
      simp only [Function.comp_apply, List.map_map]
      apply List.map_congr_left
      intro i hi
      have hlt := h f hf i hi
      obtain ⟨k, a, b⟩ := h5 i _ (List.getElem?_eq_getElem hlt)
      simp only [Function.comp_apply, List.getD_eq_getElem?_getD, a, Option.getD_some, b]
      rw [List.getElem?_eq_getElem hlt]
    · intro f hf i hi
      obtain ⟨g, hg, rfl⟩ := List.mem_map.1 hf
      obtain ⟨j, hj, rfl⟩ := List.mem_map.1 hi
      obtain ⟨k, a, b⟩ := h5 j _ (List.getElem?_eq_getElem (h g hg j hj))
      rw [List.getD_eq_getElem?_getD, a, Option.getD_some]
      exact (List.getElem?_eq_some_iff.1 b).1

/-! ### stripUnusedVertices -/

/-- Vertex `k` occurs in a face. -/
def Used (s : Soup P U) (k : ℕ) : Prop := ∃ f ∈ s.polygons, k ∈ f

theorem mark_ok (nV : ℕ) (l : List ℕ) (h : ∀ i ∈ l, i < nV) :
    ∃ u, l.foldlM (markStep nV) (List.replicate nV false) = .ok u ∧ u.length = nV ∧ ∀ k < nV, u[k]? = some (decide (k ∈ l)) := by
  obtain ⟨u, e, h1, h2⟩ := foldlM_inv (f := markStep nV) (l := l) (s0 := List.replicate nV false)
    (fun p u => u.length = nV ∧ ∀ k < nV, u[k]? = some (decide (k ∈ p))) (by
      refine ⟨by simp, fun k hk => by simp [hk]⟩) (by
      rintro p x q u hp ⟨g1, g2⟩
      have hx : x < nV := h x (by rw [hp]; simp)
      refine ⟨u.set x true, by unfold markStep; rw [if_pos hx]; exact wr_lt _ (by omega), by simp [g1], ?_⟩
      intro k hk
      by_cases hkx : x = k
      · subst hkx; rw [List.getElem?_set_self (by omega)]; simp
      · rw [List.getElem?_set_ne hkx, g2 k hk]
        have : k ≠ x := fun h => hkx h.symm
        simp [this])
  exact ⟨u, e, h1, h2⟩

/-- **C33 (unused vertices).** `stripUnusedVertices` throws for an index out of range; otherwise it keeps the position of every corner,
every vertex is used afterwards, and the returned table sends each used vertex to the vertex at the same position (with the polygons
translated by it), each unused one to `INVALID_IND`. -/
theorem C33_stripUnused (s : Soup P U) :
    (¬ s.InRange → s.stripUnused = .error .throw) ∧
    (s.InRange → ∃ s' ni, s.stripUnused = .ok (s', ni) ∧ s'.corners = s.corners ∧ s'.InRange ∧ s'.params = s.params ∧
      (∀ k < s'.coords.length, s'.Used k) ∧ ni.length = s.coords.length ∧
      (∀ k v, s.coords[k]? = some v → (s.Used k → ∃ j, ni[k]? = some j ∧ s'.coords[j]? = some v) ∧ (¬ s.Used k → ni[k]? = some INV)) ∧
      (∀ k l j : ℕ, s.Used k → s.Used l → ni[k]? = some j → ni[l]? = some j → k = l) ∧
      s'.polygons = s.polygons.map (fun f => f.map (fun i => ni.getD i 0))) := by
  constructor
  · intro h
    unfold InRange at h
    push Not at h
    obtain ⟨f, hf, i, hi, hlt⟩ := h
    have hmem : i ∈ s.polygons.flatten := List.mem_flatten.2 ⟨f, hf, hi⟩
    have key : ∀ (l : List ℕ) (u : List Bool), u.length = s.coords.length → i ∈ l →
        l.foldlM (markStep s.coords.length) u = .error .throw := by
      intro l
      induction l with
      | nil => intro u _ h; simp at h
      | cons a l ih =>
        intro u hu hmem
        rw [List.foldlM_cons]
        by_cases ha : a < s.coords.length
        · have : markStep s.coords.length u a = .ok (u.set a true) := by
            unfold markStep; rw [if_pos ha]; exact wr_lt _ (by omega)
          rw [this]
          rcases List.mem_cons.1 hmem with rfl | hm
          · omega
          · exact ih (u.set a true) (by simp [hu]) hm
        · have : markStep s.coords.length u a = .error .throw := by unfold markStep; rw [if_neg ha]
          rw [this]; rfl
    unfold stripUnused
    dsimp only
    rw [key _ _ (by simp) hmem]
  · intro h
    have hin : ∀ i ∈ s.polygons.flatten, i < s.coords.length := by
      intro i hi
      obtain ⟨f, hf, hi⟩ := List.mem_flatten.1 hi
      exact h f hf i hi
    have used_iff : ∀ k, s.Used k ↔ k ∈ s.polygons.flatten := by
      intro k; unfold Used; rw [List.mem_flatten]
    obtain ⟨u, eu, lu, hu⟩ := mark_ok s.coords.length s.polygons.flatten hin
    let M : ℕ → Bool := fun k => decide (k ∈ s.polygons.flatten)
    have hM : ∀ k, M k = true ↔ s.Used k := fun k => by rw [used_iff]; exact decide_eq_true_iff
    obtain ⟨⟨ni, nc, n⟩, e, g1, g2, g3, g4, g5, g6⟩ := range_inv (f := stripStep s.coords u) (n := s.coords.length)
      (s0 := (List.replicate s.coords.length INV, [], 0))
      (fun i t => t.1.length = s.coords.length ∧ t.2.2 = pos M i ∧ t.2.1.length = pos M i ∧
        (∀ k < i, M k = true → t.1[k]? = some (pos M k)) ∧
        (∀ k < s.coords.length, (M k = false ∨ i ≤ k) → t.1[k]? = some INV) ∧
        (∀ k < i, M k = true → t.2.1[pos M k]? = s.coords[k]?))
      ⟨by simp, rfl, rfl, fun k hk => absurd hk (Nat.not_lt_zero _), fun k hk _ => by simp [hk],
        fun k hk => absurd hk (Nat.not_lt_zero _)⟩ (by
        rintro i ⟨ni, nc, n⟩ hi ⟨g1, g2, g3, g4, g5, g6⟩
        dsimp only at g1 g2 g3 g4 g5 g6
        unfold stripStep
        have hrd : rd u i = .ok (M i) := by rw [rd_ok]; exact hu i hi
        rw [hrd]
        cases hMi : M i with
        | false =>
          dsimp only
          have hp : pos M (i + 1) = pos M i := by rw [pos_succ, hMi]; rfl
          refine ⟨_, rfl, g1, by rw [hp]; exact g2, by rw [hp]; exact g3, ?_, ?_, ?_⟩
          · intro k hk hMk
            rcases Nat.lt_succ_iff_lt_or_eq.1 hk with hk | rfl
            · exact g4 k hk hMk
            · rw [hMi] at hMk; cases hMk
          · intro k hk hor
            apply g5 k hk
            rcases hor with h | h
            · exact Or.inl h
            · exact Or.inr (by omega)
          · intro k hk hMk
            rcases Nat.lt_succ_iff_lt_or_eq.1 hk with hk | rfl
            · exact g6 k hk hMk
            · rw [hMi] at hMk; cases hMk
        | true =>
          dsimp only
          have hp : pos M (i + 1) = pos M i + 1 := by rw [pos_succ, hMi]; rfl
          rw [wr_lt _ (by omega : i < ni.length), rd_lt hi]
          dsimp only
          refine ⟨_, rfl, by simp [g1], by dsimp only; rw [hp, g2], by simp [hp, g3], ?_, ?_, ?_⟩ <;> dsimp only
          · intro k hk hMk
            rcases Nat.lt_succ_iff_lt_or_eq.1 hk with hk | rfl
            · rw [List.getElem?_set_ne (by omega)]; exact g4 k hk hMk
            · rw [List.getElem?_set_self (by omega), g2]
          · intro k hk hor
            have : i ≠ k := by
              rintro rfl
              rcases hor with h | h
              · rw [hMi] at h; cases h
              · omega
            rw [List.getElem?_set_ne this]
            apply g5 k hk
            rcases hor with h | h
            · exact Or.inl h
            · exact Or.inr (by omega)
          · intro k hk hMk
            rcases Nat.lt_succ_iff_lt_or_eq.1 hk with hk | rfl
            · have := pos_lt M hk hMk
              rw [List.getElem?_append_left (by omega)]; exact g6 k hk hMk
            · rw [List.getElem?_append_right (by omega), g3]
              simp [hi])
    dsimp only at g1 g2 g3 g4 g5 g6
    have hre := reindex_ok (table := ni) (polys := s.polygons) (fun f hf i hi => by rw [g1]; exact h f hf i hi)
    have niU : ∀ k, s.Used k → k < s.coords.length ∧ ni[k]? = some (pos M k) := by
      intro k hk
      have hlt := hin k ((used_iff k).1 hk)
      exact ⟨hlt, g4 k hlt ((hM k).2 hk)⟩
    refine ⟨⟨_, nc, s.params⟩, ni, ?_, ?_, ?_, rfl, ?_, g1, ?_, ?_, rfl⟩
    · unfold stripUnused
      dsimp only
      rw [eu]; dsimp only
      rw [e]; dsimp only
      rw [hre]
    · unfold corners
      dsimp only
      rw [List.map_map]
      apply List.map_congr_left
      intro f hf
      simp only [Function.comp_apply, List.map_map]
      apply List.map_congr_left
      intro i hi
      obtain ⟨a, b⟩ := niU i ⟨f, hf, hi⟩
      simp only [Function.comp_apply, List.getD_eq_getElem?_getD, b, Option.getD_some]
      exact g6 i a ((hM i).2 ⟨f, hf, hi⟩)
    · intro f hf i hi
      obtain ⟨g, hg, rfl⟩ := List.mem_map.1 hf
      obtain ⟨j, hj, rfl⟩ := List.mem_map.1 hi
      obtain ⟨a, b⟩ := niU j ⟨g, hg, hj⟩
      rw [List.getD_eq_getElem?_getD, b, Option.getD_some]
      show _ < nc.length
      rw [g3]
      exact pos_lt M a ((hM j).2 ⟨g, hg, hj⟩)
    · intro k hk
      dsimp only at hk
      rw [g3] at hk
      have hk' : k < ((List.range s.coords.length).filter M).length := hk
      obtain ⟨old, hold⟩ : ∃ old, ((List.range s.coords.length).filter M)[k]? = some old := ⟨_, List.getElem?_eq_getElem hk'⟩
      have hlt : old < s.coords.length := List.mem_range.1 (List.mem_filter.1 (List.mem_of_getElem? hold)).1
      obtain ⟨hMo, hpo⟩ := (filter_range_getElem M hlt).1 hold
      obtain ⟨f, hf, hfo⟩ := (hM old).1 hMo
      refine ⟨_, List.mem_map.2 ⟨f, hf, rfl⟩, List.mem_map.2 ⟨old, hfo, ?_⟩⟩
      rw [List.getD_eq_getElem?_getD, (niU old ⟨f, hf, hfo⟩).2, Option.getD_some, hpo]
    · intro k v hkv
      have hlt := (List.getElem?_eq_some_iff.1 hkv).1
      constructor
      · intro hU
        exact ⟨_, (niU k hU).2, by rw [g6 k hlt ((hM k).2 hU), hkv]⟩
      · intro hU
        apply g5 k hlt
        left
        by_contra hc
        exact hU ((hM k).1 (by simpa using hc))
    · intro k l j hk hl a b
      rw [(niU k hk).2] at a
      rw [(niU l hl).2] at b
      have hpp : pos M k = pos M l := by rw [Option.some.inj a, Option.some.inj b]
      rcases Nat.lt_trichotomy k l with h | h | h
      · have := pos_lt M h ((hM k).2 hk); omega
      · exact h
      · have := pos_lt M h ((hM l).2 hl); omega

/-! ### stripInvalidFaces -/

theorem repeatSearch_iff (face : List ℕ) : repeatSearch face = true ↔ ¬ face.Nodup := by
  unfold repeatSearch
  rw [List.nodup_iff_getElem?_ne_getElem?]
  simp only [List.any_eq_true, List.mem_range, Bool.and_eq_true, decide_eq_true_eq, beq_iff_eq]
  push Not
  constructor
  · rintro ⟨i, hi, j, hj, hij, h⟩; exact ⟨i, j, by omega, hj, h⟩
  · rintro ⟨i, j, hij, hj, h⟩; exact ⟨i, by omega, j, hj, by omega, h⟩

theorem repeatHash_iff (face : List ℕ) : repeatHash face = true ↔ ¬ face.Nodup := by
  have key : ∀ (l : List ℕ),
      let r := l.foldl (fun (s : List ℕ × Bool) ind => (ind :: s.1, if ind ∈ s.1 then true else s.2)) ([], false)
      (∀ x, x ∈ r.1 ↔ x ∈ l) ∧ (r.2 = true ↔ ¬ l.Nodup) := by
    intro l
    induction l using List.reverseRecOn with
    | nil => simp
    | append_singleton l v ih =>
      rw [List.foldl_append]
      simp only [List.foldl_cons, List.foldl_nil]
      obtain ⟨h1, h2⟩ := ih
      refine ⟨fun x => by rw [List.mem_cons, h1, List.mem_append, List.mem_singleton, or_comm], ?_⟩
      rw [List.nodup_append]
      by_cases hv : v ∈ l
      · rw [if_pos ((h1 v).2 hv)]
        simp only [true_iff]
        rintro ⟨-, -, h⟩
        exact h v hv v (by simp) rfl
      · rw [if_neg (fun h => hv ((h1 v).1 h)), h2, not_iff_not]
        constructor
        · intro h
          exact ⟨h, by simp, by intro a ha b hb; simp at hb; rintro rfl; exact hv (hb ▸ ha)⟩
        · exact fun h => h.1
  exact (key face).2

theorem cull_repeated (nV : ℕ) (face : List ℕ) : cull nV false false true face = false ↔ face.Nodup := by
  unfold cull
  simp only [Bool.false_eq_true, if_false, if_true]
  by_cases h : face.length < 8
  · rw [if_pos h]
    by_cases hn : face.Nodup
    · rw [if_neg (fun hc => (repeatSearch_iff face).1 hc hn)]; simp [hn]
    · rw [if_pos ((repeatSearch_iff face).2 hn)]; simp [hn]
  · rw [if_neg h]
    by_cases hn : face.Nodup
    · rw [if_neg (fun hc => (repeatHash_iff face).1 hc hn)]; simp [hn]
    · rw [if_pos ((repeatHash_iff face).2 hn)]; simp [hn]

theorem cull_invalid (nV : ℕ) (face : List ℕ) :
    cull nV true true true face = false ↔ (∀ i ∈ face, i < nV) ∧ 3 ≤ face.length ∧ face.Nodup := by
  unfold cull
  simp only [if_true]
  have hb : face.any (fun ind => decide (nV ≤ ind)) = true ↔ ¬ ∀ i ∈ face, i < nV := by
    simp only [List.any_eq_true, decide_eq_true_eq]
    push Not
    rfl
  have rest : ∀ c : Bool, (if face.length < 8 then (if repeatSearch face = true then true else c)
      else (if repeatHash face = true then true else c)) = false ↔ face.Nodup ∧ c = false := by
    intro c
    by_cases h : face.length < 8
    · rw [if_pos h]
      by_cases hn : face.Nodup
      · rw [if_neg (fun hc => (repeatSearch_iff face).1 hc hn)]; simp [hn]
      · rw [if_pos ((repeatSearch_iff face).2 hn)]; simp [hn]
    · rw [if_neg h]
      by_cases hn : face.Nodup
      · rw [if_neg (fun hc => (repeatHash_iff face).1 hc hn)]; simp [hn]
      · rw [if_pos ((repeatHash_iff face).2 hn)]; simp [hn]
  rw [rest]
  by_cases h3 : face.length < 3
  · rw [if_pos h3]; simp; omega
  · rw [if_neg h3]
    by_cases h : ∀ i ∈ face, i < nV
    · rw [if_neg (fun hc => hb.1 hc h)]
      exact ⟨fun hc => ⟨h, by omega, hc.1⟩, fun hc => ⟨hc.2.2, rfl⟩⟩
    · rw [if_pos (hb.2 h)]; simp [h]

theorem worker_ok (s : Soup P U) (hs : s.Aligned) (a b c : Bool) :
    ∃ s', s.stripWorker a b c = .ok s' ∧ s'.coords = s.coords ∧ s'.Aligned ∧
      s'.polygons = s.polygons.filter (fun f => !cull s.coords.length a b c f) ∧
      (s.params = [] → s'.params = []) ∧
      (s.params ≠ [] → s'.params.length = s'.polygons.length ∧
        s'.polygons.zip s'.params = (s.polygons.zip s.params).filter (fun x => !cull s.coords.length a b c x.1)) := by
  let K : List ℕ → Bool := fun f => !cull s.coords.length a b c f
  by_cases hp : s.params = []
  · obtain ⟨⟨nf, nu⟩, e, h1, h2⟩ := range_inv (f := workerStep s a b c) (n := s.polygons.length) (s0 := ([], []))
      (fun i t => t.1 = (s.polygons.take i).filter K ∧ t.2 = []) ⟨rfl, rfl⟩ (by
        rintro i ⟨nf, nu⟩ hi ⟨g1, g2⟩
        dsimp only at g1 g2
        subst g1 g2
        refine ⟨((s.polygons.take (i + 1)).filter K, []), ?_, rfl, rfl⟩
        unfold workerStep
        rw [rd_lt hi]; dsimp only
        have hh : s.hasParam = false := by unfold hasParam; rw [hp]; rfl
        rw [hh, List.take_succ, List.getElem?_eq_getElem hi, List.filter_append]
        simp only [Bool.false_eq_true, if_false, Option.toList_some, List.filter_cons, List.filter_nil]
        cases hc : cull s.coords.length a b c s.polygons[i] <;> simp [K, hc])
    dsimp only at h1 h2
    rw [List.take_length] at h1
    subst h1 h2
    have hh : s.hasParam = false := by unfold hasParam; rw [hp]; rfl
    refine ⟨⟨s.polygons.filter K, s.coords, s.params⟩, ?_, rfl, Or.inl hp, rfl, fun _ => hp, fun h => absurd hp h⟩
    unfold stripWorker; rw [e]; dsimp only; rw [hh]; rfl
  · have hl : s.params.length = s.polygons.length := hs.resolve_left hp
    have hh : s.hasParam = true := by
      unfold hasParam
      cases hpp : s.params with
      | nil => exact absurd hpp hp
      | cons _ _ => rfl
    obtain ⟨⟨nf, nu⟩, e, h1, h2, h3⟩ := range_inv (f := workerStep s a b c) (n := s.polygons.length) (s0 := ([], []))
      (fun i t => t.1 = (s.polygons.take i).filter K ∧ t.2.length = t.1.length ∧
        t.1.zip t.2 = ((s.polygons.zip s.params).take i).filter (fun x => K x.1)) ⟨rfl, rfl, rfl⟩ (by
        rintro i ⟨nf, nu⟩ hi ⟨g1, g2, g3⟩
        dsimp only at g1 g2 g3
        have hi' : i < s.params.length := by omega
        have hz : (s.polygons.zip s.params)[i]? = some (s.polygons[i], s.params[i]) := by
          rw [List.getElem?_eq_getElem (by simp; omega)]; simp
        unfold workerStep
        rw [rd_lt hi, hh, rd_lt hi']
        dsimp only
        have ht : (s.polygons.take (i + 1)).filter K = (s.polygons.take i).filter K ++ (if K s.polygons[i] then [s.polygons[i]] else []) := by
          rw [List.take_succ, List.getElem?_eq_getElem hi, List.filter_append]
          congr 1
          cases hc : K s.polygons[i] <;> simp [hc]
        have hzt : ((s.polygons.zip s.params).take (i + 1)).filter (fun x => K x.1) =
            ((s.polygons.zip s.params).take i).filter (fun x => K x.1) ++
              (if K s.polygons[i] then [(s.polygons[i], s.params[i])] else []) := by
          rw [List.take_succ, hz, List.filter_append]
          congr 1
          cases hc : K s.polygons[i] <;> simp [hc]
        rw [ht, hzt]
        cases hc : cull s.coords.length a b c s.polygons[i] with
        | true =>
          have hK : K s.polygons[i] = false := by simp [K, hc]
          refine ⟨(nf, nu), rfl, ?_, g2, ?_⟩
          · simp [hK, g1]
          · simp [hK, g3]
        | false =>
          have hK : K s.polygons[i] = true := by simp [K, hc]
          refine ⟨(nf ++ [s.polygons[i]], nu ++ [s.params[i]]), rfl, ?_, by simp [g2], ?_⟩
          · simp [hK, g1]
          · simp only [hK, if_true]
            rw [List.zip_append g2.symm, g3]; rfl)
    dsimp only at h1 h2 h3
    rw [List.take_length] at h1
    rw [List.take_of_length_le (by simp)] at h3
    refine ⟨⟨nf, s.coords, nu⟩, ?_, rfl, Or.inr h2, h1, fun h => absurd h hp, fun _ => ⟨h2, h3⟩⟩
    unfold stripWorker; rw [e]; dsimp only; rw [hh]; rfl

/-- **C33 (invalid faces).** `stripInvalidFaces` keeps, in order and with their texture coordinates, exactly the faces whose indices are
in range, which have at least three corners, and in which no vertex repeats. -/
theorem C33_stripInvalidFaces (s : Soup P U) (hs : s.Aligned) :
    ∃ (s' : Soup P U) (good : List ℕ → Bool), s.stripInvalidFaces = .ok s' ∧
      (∀ f, good f = true ↔ (∀ i ∈ f, i < s.coords.length) ∧ 3 ≤ f.length ∧ f.Nodup) ∧
      s'.coords = s.coords ∧ s'.polygons = s.polygons.filter good ∧ s'.Aligned ∧ (s.params = [] → s'.params = []) ∧
      (s.params ≠ [] → s'.params.length = s'.polygons.length ∧
        s'.polygons.zip s'.params = (s.polygons.zip s.params).filter (fun x => good x.1)) := by
  obtain ⟨s', e, h1, h2, h3, h4, h5⟩ := worker_ok s hs true true true
  refine ⟨s', _, e, ?_, h1, h3, h2, h4, h5⟩
  intro f
  rw [Bool.not_eq_true', cull_invalid]

/-- **C33 (repeated vertices).** `stripFacesWithDuplicateVertices` keeps, in order and with their texture coordinates, exactly the faces
in which no vertex repeats. -/
theorem C33_stripDuplicateVertexFaces (s : Soup P U) (hs : s.Aligned) :
    ∃ (s' : Soup P U) (good : List ℕ → Bool), s.stripDuplicateVertexFaces = .ok s' ∧ (∀ f, good f = true ↔ f.Nodup) ∧
      s'.coords = s.coords ∧ s'.polygons = s.polygons.filter good ∧ s'.Aligned ∧ (s.params = [] → s'.params = []) ∧
      (s.params ≠ [] → s'.params.length = s'.polygons.length ∧
        s'.polygons.zip s'.params = (s.polygons.zip s.params).filter (fun x => good x.1)) := by
  obtain ⟨s', e, h1, h2, h3, h4, h5⟩ := worker_ok s hs false false true
  refine ⟨s', _, e, ?_, h1, h3, h2, h4, h5⟩
  intro f
  rw [Bool.not_eq_true', cull_repeated]

/-! ### stripDuplicateFaces -/

/-- What `std::sort` guarantees: the same entries, no entry before a smaller one (lexicographic comparison). -/
def IsSort (sort : List IndPoly → List IndPoly) : Prop :=
  ∀ l, (sort l).Perm l ∧ (sort l).Pairwise (fun a b => ¬ b.inds < a.inds)

theorem sortInds_eq {a b : List ℕ} : sortInds a = sortInds b ↔ a.Perm b := by
  constructor
  · intro h
    have h1 : (sortInds a).Perm a := List.perm_insertionSort _ _
    have h2 : (sortInds b).Perm b := List.perm_insertionSort _ _
    exact h1.symm.trans (h ▸ h2)
  · intro h
    have h1 : (sortInds a).Perm a := List.perm_insertionSort _ _
    have h2 : (sortInds b).Perm b := List.perm_insertionSort _ _
    exact List.Perm.eq_of_pairwise' (List.pairwise_insertionSort _ _) (List.pairwise_insertionSort _ _) ((h1.trans h).trans h2.symm)

theorem mem_dropWhile_ne {p : IndPoly} {l : List IndPoly} (hp : ∀ q ∈ l, ¬ q.inds < p.inds) (hs : l.Pairwise (fun a b => ¬ b.inds < a.inds)) :
    ∀ q ∈ l.dropWhile (fun q => q.inds == p.inds), q.inds ≠ p.inds := by
  induction l with
  | nil => simp
  | cons a l ih =>
    intro q hq
    rw [List.dropWhile_cons] at hq
    rw [List.pairwise_cons] at hs
    by_cases ha : (a.inds == p.inds) = true
    · rw [if_pos ha] at hq
      exact ih (fun q hq => hp q (List.mem_cons_of_mem _ hq)) hs.2 q hq
    · rw [if_neg ha] at hq
      have hne : a.inds ≠ p.inds := by simpa using ha
      rcases List.mem_cons.1 hq with rfl | hq
      · exact hne
      · intro heq
        have h1 := hs.1 q hq
        rw [heq] at h1
        have h2 := hp a List.mem_cons_self
        exact hne (List.le_antisymm h1 h2)

theorem keepRuns_spec (l : List IndPoly) (hs : l.Pairwise (fun a b => ¬ b.inds < a.inds)) :
    (keepRuns l).Sublist l ∧ (keepRuns l).Pairwise (fun a b => a.inds ≠ b.inds) ∧ ∀ p ∈ l, ∃ q ∈ keepRuns l, q.inds = p.inds := by
  induction hn : l.length using Nat.strong_induction_on generalizing l with
  | _ n ih =>
    cases l with
    | nil => rw [keepRuns]; simp
    | cons p l =>
      rw [keepRuns]
      have hsub := List.dropWhile_sublist (l := l) (fun q => q.inds == p.inds)
      rw [List.pairwise_cons] at hs
      have hle := hsub.length_le
      obtain ⟨h1, h2, h3⟩ := ih _ (by rw [← hn, List.length_cons]; omega) (l.dropWhile (fun q => q.inds == p.inds))
        (hs.2.sublist hsub) rfl
      refine ⟨(h1.trans hsub).cons_cons p, ?_, ?_⟩
      · rw [List.pairwise_cons]
        refine ⟨fun q hq => (mem_dropWhile_ne hs.1 hs.2 q (h1.subset hq)).symm, h2⟩
      · intro q hq
        rcases List.mem_cons.1 hq with rfl | hq
        · exact ⟨_, List.mem_cons_self, rfl⟩
        · rw [← List.takeWhile_append_dropWhile (p := fun q => q.inds == p.inds) (l := l)] at hq
          rcases List.mem_append.1 hq with hq | hq
          · have h := List.all_eq_true.1 (List.all_takeWhile (p := fun q : IndPoly => q.inds == p.inds) (l := l)) q hq
            exact ⟨p, List.mem_cons_self, Eq.symm (by simpa using h)⟩
          · obtain ⟨r, hr, e⟩ := h3 q hq
            exact ⟨r, List.mem_cons_of_mem _ hr, e⟩

/-- **C33 (duplicate faces).** Whatever order `std::sort` gives to equal entries, `stripDuplicateFaces` keeps original faces with their
texture coordinates (`kept` lists their numbers), and each original face is represented by exactly one kept face with the same vertices. -/
theorem C33_stripDuplicateFaces (sort : List IndPoly → List IndPoly) (hsort : IsSort sort) (s : Soup P U) (hs : s.Aligned) :
    ∃ (s' : Soup P U) (kept : List ℕ), s.stripDuplicateFaces sort = .ok s' ∧ s'.coords = s.coords ∧ s'.Aligned ∧ kept.Nodup ∧
      s'.polygons.map some = kept.map (fun k => s.polygons[k]?) ∧
      (s.params = [] → s'.params = []) ∧ (s.params ≠ [] → s'.params.map some = kept.map (fun k => s.params[k]?)) ∧
      ∀ (i : ℕ) f, s.polygons[i]? = some f → ∃! k : ℕ, k ∈ kept ∧ ∃ g, s.polygons[k]? = some g ∧ g.Perm f := by
  obtain ⟨hperm, hpw⟩ := hsort s.indPolys
  obtain ⟨k1, k2, k3⟩ := keepRuns_spec _ hpw
  set L := keepRuns (sort s.indPolys) with hL
  have hmem : ∀ p ∈ L, p.orig < s.polygons.length ∧ ∀ f, s.polygons[p.orig]? = some f → p.inds = sortInds f := by
    intro p hp
    have := hperm.subset (k1.subset hp)
    unfold indPolys at this
    obtain ⟨i, hi, rfl⟩ := List.mem_map.1 this
    refine ⟨List.mem_range.1 hi, fun f hf => ?_⟩
    dsimp only at hf ⊢
    rw [List.getD_eq_getElem?_getD, hf]; rfl
  have horig : (L.map IndPoly.orig).Nodup := by
    have h1 : (s.indPolys.map IndPoly.orig).Nodup := by
      unfold indPolys
      rw [List.map_map]
      have : (IndPoly.orig ∘ fun iF => (⟨sortInds (s.polygons.getD iF []), iF⟩ : IndPoly)) = id := rfl
      rw [this, List.map_id]
      exact List.nodup_range
    have h2 : ((sort s.indPolys).map IndPoly.orig).Nodup := (hperm.map _).nodup_iff.2 h1
    exact h2.sublist (k1.map _)
  obtain ⟨⟨nf, nu⟩, e, h1, h2, h3⟩ := foldlM_inv (f := keepStep s) (l := L) (s0 := ([], []))
    (fun p t => t.1.map some = p.map (fun q => s.polygons[q.orig]?) ∧ (s.params = [] → t.2 = []) ∧
      (s.params ≠ [] → t.2.map some = p.map (fun q => s.params[q.orig]?))) ⟨rfl, fun _ => rfl, fun _ => rfl⟩ (by
      rintro p x q ⟨nf, nu⟩ hp ⟨g1, g2, g3⟩
      dsimp only at g1 g2 g3
      have hx := (hmem x (by rw [hp]; simp)).1
      unfold keepStep
      rw [rd_lt hx]
      dsimp only
      by_cases hpp : s.params = []
      · have hh : s.hasParam = false := by unfold hasParam; rw [hpp]; rfl
        rw [hh]
        refine ⟨_, rfl, ?_, g2, fun h => absurd hpp h⟩
        dsimp only
        rw [List.map_append, List.map_append, g1]; simp [hx]
      · have hl : s.params.length = s.polygons.length := hs.resolve_left hpp
        have hh : s.hasParam = true := by
          unfold hasParam
          cases hq : s.params with
          | nil => exact absurd hq hpp
          | cons _ _ => rfl
        have hx' : x.orig < s.params.length := by omega
        rw [hh, rd_lt hx']
        refine ⟨_, rfl, ?_, fun h => absurd h hpp, fun h => ?_⟩ <;> dsimp only
        · rw [List.map_append, List.map_append, g1]; simp [hx]
        · rw [List.map_append, List.map_append, g3 h]; simp [hx'])
  dsimp only at h1 h2 h3
  refine ⟨⟨nf, s.coords, nu⟩, L.map IndPoly.orig, ?_, rfl, ?_, horig, ?_, h2, ?_, ?_⟩
  · unfold stripDuplicateFaces; rw [← hL, e]
  · by_cases hpp : s.params = []
    · exact Or.inl (h2 hpp)
    · right
      have a := congrArg List.length h1
      have b := congrArg List.length (h3 hpp)
      simp at a b
      dsimp only
      omega
  · rw [List.map_map]; exact h1
  · intro h; rw [List.map_map]; exact h3 h
  · intro i f hf
    have hi := (List.getElem?_eq_some_iff.1 hf).1
    have hin : (⟨sortInds f, i⟩ : IndPoly) ∈ sort s.indPolys := by
      apply hperm.symm.subset
      unfold indPolys
      refine List.mem_map.2 ⟨i, List.mem_range.2 hi, ?_⟩
      rw [List.getD_eq_getElem?_getD, hf]; rfl
    obtain ⟨q, hq, hqi⟩ := k3 _ hin
    obtain ⟨hql, hqf⟩ := hmem q hq
    have hg := List.getElem?_eq_getElem hql
    refine ⟨q.orig, ⟨List.mem_map.2 ⟨q, hq, rfl⟩, _, hg, ?_⟩, ?_⟩
    · exact sortInds_eq.1 ((hqf _ hg).symm.trans hqi)
    · rintro k ⟨hk, g, hkg, hgp⟩
      obtain ⟨r, hr, rfl⟩ := List.mem_map.1 hk
      have hri := (hmem r hr).2 g hkg
      have hrq : r.inds = q.inds := by rw [hri, hqi]; exact sortInds_eq.2 hgp
      by_contra hne
      have hne' : r ≠ q := fun h => hne (by rw [h])
      haveI : Std.Symm (fun a b : IndPoly => a.inds ≠ b.inds) := ⟨fun _ _ h => h.symm⟩
      exact k2.forall hr hq hne' hrq

/-! ### triangulate -/

/-- The directed sides of a polygon, in order. -/
def sides (f : List ℕ) : List (ℕ × ℕ) := f.zip (f.tail ++ f.head?.toList)

/-- How often the polygon runs from `a` to `b`, minus how often it runs back. -/
def net (f : List ℕ) (a b : ℕ) : ℤ := (sides f).count (a, b) - (sides f).count (b, a)

/-- The same for several polygons together: their boundary as a chain. -/
def netAll (l : List (List ℕ)) (a b : ℕ) : ℤ := (l.map (fun f => net f a b)).sum

def one (a b : ℕ) (p : ℕ × ℕ) : ℤ := (if p = (a, b) then 1 else 0) - (if p = (b, a) then 1 else 0)

theorem one_swap (a b x y : ℕ) : one a b (x, y) + one a b (y, x) = 0 := by
  unfold one
  have h1 : ((x, y) = (a, b)) ↔ ((y, x) = (b, a)) := by simp [and_comm]
  have h2 : ((x, y) = (b, a)) ↔ ((y, x) = (a, b)) := by simp [and_comm]
  simp only [h1, h2]
  ring

theorem count_sum (l : List (ℕ × ℕ)) (a b : ℕ) : ((l.count (a, b) : ℤ) - l.count (b, a)) = (l.map (one a b)).sum := by
  induction l with
  | nil => simp
  | cons p l ih =>
    rw [List.map_cons, List.sum_cons, ← ih, List.count_cons, List.count_cons]
    unfold one
    simp only [beq_iff_eq]
    push_cast
    ring

theorem net_eq (f : List ℕ) (a b : ℕ) : net f a b = ((sides f).map (one a b)).sum := count_sum _ _ _

theorem zip_shift {α : Type} (x y : α) (l : List α) : (x :: l).zip (l ++ [y]) = (x :: l).zip l ++ [((x :: l).getLast (by simp), y)] := by
  induction l generalizing x with
  | nil => rfl
  | cons a l ih =>
    rw [List.cons_append, List.zip_cons_cons, ih a, List.zip_cons_cons, List.getLast_cons_cons]; rfl

theorem fan_eq (v0 v1 : ℕ) (l : List ℕ) : fan (v0 :: v1 :: l) = ((v1 :: l).zip l).map (fun p => [v0, p.1, p.2]) := by
  unfold fan
  apply List.ext_getElem
  · simp
  · intro i h1 h2
    simp at h1 h2
    have e : 2 + 1 * i - 1 = i + 1 := by omega
    have e' : 2 + 1 * i = i + 1 + 1 := by omega
    simp only [List.getElem_map, List.getElem_range', List.getElem_zip, e]
    rw [e']
    simp only [List.getD_eq_getElem?_getD, List.getElem?_cons_succ, List.getElem?_cons_zero, Option.getD_some]
    rw [List.getElem?_eq_getElem (show i < (v1 :: l).length by simp; omega), List.getElem?_eq_getElem h1]
    rfl

theorem net_tri (v0 x y a b : ℕ) : net [v0, x, y] a b = one a b (v0, x) + one a b (x, y) + one a b (y, v0) := by
  rw [net_eq]
  simp [sides]
  ring

theorem fan_chain (v0 a b : ℕ) (l : List ℕ) : ∀ v1 : ℕ,
    (((v1 :: l).zip l).map (fun p => net [v0, p.1, p.2] a b)).sum =
      one a b (v0, v1) + (((v1 :: l).zip l).map (one a b)).sum + one a b ((v1 :: l).getLast (by simp), v0) := by
  induction l with
  | nil => intro v1; simp [one_swap]
  | cons v2 l ih =>
    intro v1
    rw [List.zip_cons_cons, List.map_cons, List.sum_cons, ih v2, net_tri, List.map_cons, List.sum_cons, List.getLast_cons_cons]
    have := one_swap a b v2 v0
    linear_combination this

/-- The fan of a polygon of degree at least three: `d - 2` triangles on vertices of the polygon whose boundary is the polygon. -/
theorem fan_boundary (f : List ℕ) (h : 3 ≤ f.length) :
    (fan f).length = f.length - 2 ∧ (∀ t ∈ fan f, t.length = 3 ∧ ∀ i ∈ t, i ∈ f) ∧ ∀ a b, netAll (fan f) a b = net f a b := by
  rcases f with _ | ⟨v0, _ | ⟨v1, l⟩⟩
  · simp at h
  · simp at h
  rw [fan_eq]
  refine ⟨by simp, ?_, ?_⟩
  · intro t ht
    obtain ⟨⟨x, y⟩, hp, rfl⟩ := List.mem_map.1 ht
    refine ⟨rfl, ?_⟩
    have h1 : x ∈ v1 :: l := (List.of_mem_zip hp).1
    have h2 : y ∈ l := (List.of_mem_zip hp).2
    intro i hi
    simp only [List.mem_cons, List.not_mem_nil, or_false] at hi
    rcases hi with rfl | rfl | rfl
    · exact List.mem_cons_self
    · exact List.mem_cons_of_mem _ h1
    · exact List.mem_cons_of_mem _ (List.mem_cons_of_mem _ h2)
  · intro a b
    unfold netAll
    rw [List.map_map, net_eq]
    show (((v1 :: l).zip l).map (fun p => net [v0, p.1, p.2] a b)).sum = _
    rw [fan_chain]
    unfold sides
    rw [List.tail_cons, List.head?_cons, Option.toList_some, List.cons_append, List.zip_cons_cons, zip_shift, List.map_cons, List.map_append,
      List.sum_cons, List.sum_append]
    simp
    ring

/-- **C35 (geometry).** `triangulate` throws if some polygon has fewer than three corners, and otherwise replaces the polygons, in order,
by groups of triangles: `d - 2` of them for a polygon of degree `d`, on its vertices, with the polygon as their boundary (every side not
on the polygon is run through once in either direction). Missing for C35: the texture coordinates, see `C35_fails`. -/
theorem C35_partial (s : Soup P U) :
    ((∃ f ∈ s.polygons, f.length < 3) → s.triangulate = .error .throw) ∧
    ((∀ f ∈ s.polygons, 3 ≤ f.length) → ∃ (s' : Soup P U) (groups : List (List (List ℕ))), s.triangulate = .ok s' ∧ s'.coords = s.coords ∧
      s'.polygons = groups.flatten ∧ groups.length = s.polygons.length ∧
      ∀ f g, (f, g) ∈ s.polygons.zip groups → g.length = f.length - 2 ∧ (∀ t ∈ g, t.length = 3 ∧ ∀ i ∈ t, i ∈ f) ∧
        ∀ a b, netAll g a b = net f a b) := by
  constructor
  · rintro ⟨f, hf, hl⟩
    unfold triangulate
    have key : ∀ (l : List (List ℕ)) (t : List (List ℕ)), f ∈ l →
        l.foldlM (fun (t : List (List ℕ)) poly => if poly.length ≤ 2 then (.error .throw : Res _) else .ok (t ++ fan poly)) t = .error .throw := by
      intro l
      induction l with
      | nil => intro t h; simp at h
      | cons p l ih =>
        intro t h
        rw [List.foldlM_cons]
        by_cases hp : p.length ≤ 2
        · rw [if_pos hp]; rfl
        · rw [if_neg hp]
          rcases List.mem_cons.1 h with rfl | h
          · omega
          · exact ih _ h
    rw [key _ _ hf]
  · intro h
    obtain ⟨t, e, ht⟩ := foldlM_inv (l := s.polygons) (s0 := ([] : List (List ℕ)))
      (f := fun (t : List (List ℕ)) poly => if poly.length ≤ 2 then (.error .throw : Res _) else .ok (t ++ fan poly))
      (fun p t => t = (p.map fan).flatten) rfl (by
        rintro p x q t hp rfl
        have hx := h x (by rw [hp]; simp)
        refine ⟨_, if_neg (by omega), ?_⟩
        simp)
    subst ht
    refine ⟨⟨(s.polygons.map fan).flatten, s.coords, s.params⟩, s.polygons.map fan, by unfold triangulate; rw [e], rfl, rfl, by simp, ?_⟩
    intro f g hfg
    rw [List.zip_map_right] at hfg
    obtain ⟨⟨f', g'⟩, hm, heq⟩ := List.mem_map.1 hfg
    simp only [Prod.map_apply, id_eq, Prod.mk.injEq] at heq
    obtain ⟨rfl, rfl⟩ := heq
    have hself : f' = g' := by
      obtain ⟨i, hi⟩ := List.mem_iff_getElem?.1 hm
      rw [List.getElem?_zip_eq_some] at hi
      exact Option.some.inj (hi.1.symm.trans hi.2)
    subst hself
    exact fan_boundary f' (h f' (List.of_mem_zip hm).1)

/-- **C35 fails for texture coordinates.** `triangulate` leaves `paramCoordinates` as they were, so after triangulating a square there are
two faces with three corners and one list of four coordinates. -/
theorem C35_fails : ∃ s s' : Soup ℕ ℕ, (∀ f ∈ s.polygons, 3 ≤ f.length) ∧ s.InRange ∧ s.Aligned ∧
    s.params.map List.length = s.polygons.map List.length ∧ s.triangulate = .ok s' ∧ ¬ s'.Aligned ∧
    s'.params.map List.length ≠ s'.polygons.map List.length := by
  refine ⟨⟨[[0, 1, 2, 3]], [10, 11, 12, 13], [[0, 1, 2, 3]]⟩, ⟨[[0, 1, 2], [0, 2, 3]], [10, 11, 12, 13], [[0, 1, 2, 3]]⟩, ?_, ?_, ?_, ?_, rfl, ?_, ?_⟩
  · decide
  · unfold InRange; decide
  · exact Or.inr rfl
  · decide
  · rintro (h | h)
    · cases h
    · cases h
  · decide

/-! ### unionMeshes -/

/-- `unionMeshes` puts the faces one after the other, each corner at its position, and keeps the texture coordinates, aligned, if every
mesh has them. -/
theorem union_ok (l : List (Soup P U)) (h : ∀ s ∈ l, s.InRange) :
    (union l).corners = l.flatMap corners ∧ (union l).InRange ∧ (union l).coords = l.flatMap (fun s => s.coords) ∧
    (union l).polygons.length = (l.map (fun s => s.polygons.length)).sum ∧
    ((∀ s ∈ l, s.params ≠ []) → (union l).params = l.flatMap (fun s => s.params)) ∧
    ((∃ s ∈ l, s.params = []) → (union l).params = []) ∧
    ((∀ s ∈ l, s.Aligned) → (union l).Aligned) := by
  have hp : ∀ s : Soup P U, s.hasParam = true ↔ s.params ≠ [] := by
    intro s; unfold hasParam
    cases s.params <;> simp
  unfold union
  dsimp only
  generalize hk : l.all (fun m => m.hasParam) = keep
  have key : ∀ l : List (Soup P U), (∀ s ∈ l, s.InRange) →
      let r := l.foldl (fun acc m => (⟨acc.polygons ++ m.polygons.map (fun f => f.map (fun i => i + acc.coords.length)), acc.coords ++ m.coords,
        if keep then acc.params ++ m.params else acc.params⟩ : Soup P U)) ⟨[], [], []⟩
      r.corners = l.flatMap corners ∧ r.InRange ∧ r.coords = l.flatMap (fun s => s.coords) ∧
      r.polygons.length = (l.map (fun s => s.polygons.length)).sum ∧
      (keep = true → r.params = l.flatMap (fun s => s.params)) ∧ (keep = false → r.params = []) := by
    intro l
    induction l using List.reverseRecOn with
    | nil => intro _; exact ⟨rfl, by intro f hf; simp at hf, rfl, rfl, fun _ => rfl, fun _ => rfl⟩
    | append_singleton l m ih =>
      intro h
      obtain ⟨a1, a2, a3, a4, a5, a6⟩ := ih (fun s hs => h s (by simp [hs]))
      have hm := h m (by simp)
      rw [List.foldl_append]
      simp only [List.foldl_cons, List.foldl_nil]
      generalize l.foldl (fun acc m => (⟨acc.polygons ++ m.polygons.map (fun f => f.map (fun i => i + acc.coords.length)), acc.coords ++ m.coords,
        if keep then acc.params ++ m.params else acc.params⟩ : Soup P U)) ⟨[], [], []⟩ = r at a1 a2 a3 a4 a5 a6
      refine ⟨?_, ?_, ?_, ?_, ?_, ?_⟩
      · rw [List.flatMap_append, ← a1]
        unfold corners
        dsimp only
        rw [List.map_append]
        congr 1
        · apply List.map_congr_left
          intro f hf
          apply List.map_congr_left
          intro i hi
          rw [List.getElem?_append_left (a2 f hf i hi)]
        · simp only [List.flatMap_cons, List.flatMap_nil, List.append_nil, List.map_map]
          apply List.map_congr_left
          intro f hf
          simp only [Function.comp_apply, List.map_map]
          apply List.map_congr_left
          intro i hi
          simp only [Function.comp_apply]
          rw [List.getElem?_append_right (by omega), Nat.add_sub_cancel]
      · intro f hf i hi
        dsimp only at hf ⊢
        rw [List.length_append]
        rcases List.mem_append.1 hf with hf | hf
        · have := a2 f hf i hi; omega
        · obtain ⟨g, hg, rfl⟩ := List.mem_map.1 hf
          obtain ⟨j, hj, rfl⟩ := List.mem_map.1 hi
          have := hm g hg j hj; omega
      · simp [a3]
      · simp [a4]
      · intro hk; simp [hk, a5 hk]
      · intro hk; simp [hk, a6 hk]
  obtain ⟨b1, b2, b3, b4, b5, b6⟩ := key l h
  refine ⟨b1, b2, b3, b4, ?_, ?_, ?_⟩
  · intro hall
    apply b5
    rw [← hk, List.all_eq_true]
    exact fun s hs => (hp s).2 (hall s hs)
  · rintro ⟨s, hs, he⟩
    apply b6
    rw [← hk, List.all_eq_false]
    exact ⟨s, hs, fun hc => (hp s).1 hc he⟩
  · intro hal
    cases keep with
    | false => exact Or.inl (b6 rfl)
    | true =>
      right
      rw [b5 rfl, b4, List.length_flatMap]
      congr 1
      apply List.map_congr_left
      intro s hs
      exact (hal s hs).resolve_left ((hp s).1 (List.all_eq_true.1 hk s hs))

/-! ### Examples: a soup with coinciding and unused vertices, a bad and a duplicate face -/

def demo : Soup ℕ ℕ := ⟨[[0, 1, 2], [3, 2, 5], [2, 0, 1], [1, 1, 2]], [7, 8, 9, 7, 4, 6], [[0, 0, 0], [1, 1, 1], [2, 2, 2], [3, 3, 3]]⟩

theorem demo_ok : demo.InRange ∧ demo.Aligned := ⟨by unfold InRange; decide, Or.inr rfl⟩

example : demo.mergeIdentical = .ok ⟨[[0, 1, 2], [0, 2, 4], [2, 0, 1], [1, 1, 2]], [7, 8, 9, 4, 6], demo.params⟩ := rfl
example : demo.stripUnused = .ok (⟨[[0, 1, 2], [3, 2, 4], [2, 0, 1], [1, 1, 2]], [7, 8, 9, 7, 6], demo.params⟩, [0, 1, 2, 3, INV, 4]) := rfl
example : demo.stripInvalidFaces = .ok ⟨[[0, 1, 2], [3, 2, 5], [2, 0, 1]], demo.coords, [[0, 0, 0], [1, 1, 1], [2, 2, 2]]⟩ := rfl
example : ¬ (⟨[[0, 9]], [5], []⟩ : Soup ℕ ℕ).InRange := by unfold InRange; decide
/-- Sorting by insertion meets the requirement on `std::sort`. -/
example : IsSort (fun l => l.insertionSort (fun a b => a.inds ≤ b.inds)) := by
  intro l
  refine ⟨List.perm_insertionSort _ _, ?_⟩
  haveI : Std.Total (fun a b : IndPoly => a.inds ≤ b.inds) := ⟨fun a b => le_total _ _⟩
  haveI : IsTrans IndPoly (fun a b : IndPoly => a.inds ≤ b.inds) := ⟨fun a b c => le_trans⟩
  exact (List.pairwise_insertionSort (fun a b : IndPoly => a.inds ≤ b.inds) l).imp (fun h => not_lt.2 h)

end Soup
end GC
