import Verif.Dijkstra
import Verif.Props.Nav
import Verif.MeshCheck

/-!
# C39: `shortestEdgePath` returns a shortest path, `vertexDijkstraDistanceWithinRadius` the distances
-/

namespace GC.Dij

variable {R : Type} [LinearOrder R]

/-- The list `p` of arrows leads from `s` to `t`. -/
def Chain (E : ℕ → Prop) (tail tip : ℕ → ℕ) : ℕ → List ℕ → ℕ → Prop
  | s, [], t => s = t
  | s, h :: p, t => E h ∧ tail h = s ∧ Chain E tail tip (tip h) p t

/-- The length of a path, added up from its start. -/
def pathLen (add : R → R → R) (len : ℕ → R) (z : R) (p : List ℕ) : R := p.foldl (fun d h => add d (len h)) z

/-- Addition of the lengths that occur is monotone and does not decrease. -/
structure Lengths (E : ℕ → Prop) (add : R → R → R) (len : ℕ → R) : Prop where
  mono : ∀ h, E h → ∀ a b, a ≤ b → add a (len h) ≤ add b (len h)
  infl : ∀ h, E h → ∀ a, a ≤ add a (len h)

variable {E V : ℕ → Prop} {tail tip : ℕ → ℕ}

theorem chain_append {s t : ℕ} {p p' : List ℕ} :
    Chain E tail tip s (p ++ p') t ↔ ∃ u, Chain E tail tip s p u ∧ Chain E tail tip u p' t := by
  induction p generalizing s with
  | nil => simp [Chain]
  | cons h p ih => simp only [List.cons_append, Chain, ih]; aesop

theorem chain_snoc {s u : ℕ} {p : List ℕ} {h : ℕ} (hp : Chain E tail tip s p u) (hE : E h) (ht : tail h = u) :
    Chain E tail tip s (p ++ [h]) (tip h) := chain_append.2 ⟨u, hp, hE, ht, rfl⟩

theorem pathLen_snoc (add : R → R → R) (len : ℕ → R) (z : R) (p : List ℕ) (h : ℕ) :
    pathLen add len z (p ++ [h]) = add (pathLen add len z p) (len h) := by
  simp [pathLen]

theorem pathLen_infl {add : R → R → R} {len : ℕ → R} (L : Lengths E add len) {s t : ℕ} {p : List ℕ}
    (hp : Chain E tail tip s p t) (z : R) : z ≤ pathLen add len z p := by
  induction p generalizing s z with
  | nil => exact le_refl _
  | cons h p ih =>
    exact le_trans (L.infl h hp.1 z) (ih hp.2.2 _)

/-- A path that starts in `S` and ends outside leaves `S` somewhere. -/
theorem chain_leaves (S : ℕ → Prop) {s t : ℕ} {p : List ℕ} (hp : Chain E tail tip s p t) (hs : S s) (ht : ¬ S t) :
    ∃ p1 h p2 u, p = p1 ++ h :: p2 ∧ Chain E tail tip s p1 u ∧ S u ∧ E h ∧ tail h = u ∧ ¬ S (tip h) ∧
      Chain E tail tip (tip h) p2 t := by
  induction p generalizing s with
  | nil => exact absurd (hp ▸ hs) ht
  | cons h p ih =>
    obtain ⟨h1, h2, h3⟩ := hp
    by_cases hS : S (tip h)
    · obtain ⟨p1, h', p2, u, rfl, a, b⟩ := ih h3 hS
      exact ⟨h :: p1, h', p2, u, rfl, ⟨h1, h2, a⟩, b⟩
    · exact ⟨[], h, p, s, rfl, rfl, hs, h1, h2, hS, h3⟩

/-- A path that leaves `S` is at least as long as some step out of `S`. -/
theorem leave_step {add : R → R → R} {len : ℕ → R} (L : Lengths E add len) (z : R) (S : ℕ → Prop) (D : ℕ → R)
    {s t : ℕ} (opt : ∀ u, S u → ∀ p, Chain E tail tip s p u → D u ≤ pathLen add len z p)
    {p : List ℕ} (hp : Chain E tail tip s p t) (hs : S s) (ht : ¬ S t) :
    ∃ h, S (tail h) ∧ E h ∧ ¬ S (tip h) ∧ add (D (tail h)) (len h) ≤ pathLen add len z p := by
  obtain ⟨p1, h, p2, u, rfl, c1, hu, hE, htl, hn, c2⟩ := chain_leaves S hp hs ht
  subst htl
  have b := L.mono h hE _ _ (opt _ hu p1 c1)
  have c := pathLen_infl L c2 (add (pathLen add len z p1) (len h))
  have e : pathLen add len z (p1 ++ h :: p2) = pathLen add len (add (pathLen add len z p1) (len h)) p2 := by
    simp [pathLen]
  exact ⟨h, hu, hE, hn, by rw [e]; exact le_trans b c⟩

/-- Lower bound for a path that leaves `S`. -/
theorem leave_bound {add : R → R → R} {len : ℕ → R} (L : Lengths E add len) (z : R) (S : ℕ → Prop) (D : ℕ → R)
    {s t : ℕ} (opt : ∀ u, S u → ∀ p, Chain E tail tip s p u → D u ≤ pathLen add len z p) (d : R)
    (hd : ∀ u h, S u → E h → tail h = u → ¬ S (tip h) → d ≤ add (D u) (len h))
    {p : List ℕ} (hp : Chain E tail tip s p t) (hs : S s) (ht : ¬ S t) : d ≤ pathLen add len z p := by
  obtain ⟨h, k1, k2, k3, k4⟩ := leave_step L z S D opt hp hs ht
  exact le_trans (hd _ h k1 k2 rfl k3) k4

/-! ### The search for a path -/

/-- What a graph has to provide: the outgoing halfedges of a vertex are those of the set `E` that start there. -/
structure Good (G : Graph R) (E V : ℕ → Prop) (N : ℕ) : Prop where
  out : ∀ v, V v → ∃ l, G.out v = .ok l ∧ l.Nodup ∧ ∀ h, h ∈ l ↔ E h ∧ G.vert h = v
  far : ∀ h, E h → V (G.far h)
  lt : ∀ h, E h → h < N

def Disc (s : ℕ) (inc : List (ℕ × ℕ)) (v : ℕ) : Prop := v = s ∨ ∃ h, (v, h) ∈ inc

theorem lookup_some {α : Type} (l : List (ℕ × α)) (v : ℕ) : (l.lookup v).isSome = true ↔ ∃ h, (v, h) ∈ l := by
  induction l with
  | nil => simp
  | cons x l ih =>
    obtain ⟨a, b⟩ := x
    rw [List.lookup_cons]
    by_cases h : v = a
    · subst h; simp
    · have : (v == a) = false := by simpa using h
      rw [this]; simp only [ih]; simp [h]

theorem discovered_iff (s : ℕ) (inc : List (ℕ × ℕ)) (v : ℕ) : discovered s inc v = true ↔ Disc s inc v := by
  unfold discovered Disc
  rw [Bool.or_eq_true, lookup_some]
  simp

/-- The entries of the map of incoming halfedges. -/
def IncOk (G : Graph R) (E : ℕ → Prop) (s : ℕ) (D : ℕ → R) : List (ℕ × ℕ) → Prop
  | [] => True
  | (v, h) :: r => G.far h = v ∧ E h ∧ Disc s r (G.vert h) ∧ ¬ Disc s r v ∧
      D v = G.add (D (G.vert h)) (G.len h) ∧ IncOk G E s D r

theorem IncOk.mem {G : Graph R} {s : ℕ} {D : ℕ → R} {r : List (ℕ × ℕ)} (h : IncOk G E s D r) {v x : ℕ}
    (hm : (v, x) ∈ r) : E x ∧ G.far x = v ∧ Disc s r (G.vert x) := by
  induction r with
  | nil => simp at hm
  | cons y r ih =>
    obtain ⟨w, hw⟩ := y
    obtain ⟨a, b, c, _, _, d⟩ := h
    have up : ∀ u, Disc s r u → Disc s ((w, hw) :: r) u := by
      rintro u (k | ⟨z, k⟩)
      · exact Or.inl k
      · exact Or.inr ⟨z, by simp [k]⟩
    rcases List.mem_cons.1 hm with k | k
    · injection k with k1 k2
      subst k1 k2
      exact ⟨b, a, up _ c⟩
    · obtain ⟨e1, e2, e3⟩ := ih d k
      exact ⟨e1, e2, up _ e3⟩

theorem lookup_mem {l : List (ℕ × ℕ)} {v h : ℕ} (k : l.lookup v = some h) : (v, h) ∈ l := by
  induction l with
  | nil => simp at k
  | cons x l ih =>
    obtain ⟨a, b⟩ := x
    rw [List.lookup_cons] at k
    by_cases hv : v = a
    · subst hv; simp at k; simp [k]
    · have : (v == a) = false := by simpa using hv
      rw [this] at k
      exact List.mem_cons_of_mem _ (ih k)

theorem walk_cons {G : Graph R} {s : ℕ} {D : ℕ → R} {r : List (ℕ × ℕ)} {w x : ℕ} (hr : IncOk G E s D r)
    (hw : ¬ Disc s r w) (fuel v : ℕ) (path : List ℕ) (hv : Disc s r v) :
    walk G s ((w, x) :: r) fuel v path = walk G s r fuel v path := by
  induction fuel generalizing v path with
  | zero =>
    have hvw : v ≠ w := fun k => hw (k ▸ hv)
    have e : ((w, x) :: r).lookup v = r.lookup v := by
      rw [List.lookup_cons]
      have : (v == w) = false := by simpa using hvw
      rw [this]
    unfold walk
    rw [e]
  | succ fuel ih =>
    have hvw : v ≠ w := fun k => hw (k ▸ hv)
    have e : ((w, x) :: r).lookup v = r.lookup v := by
      rw [List.lookup_cons]
      have : (v == w) = false := by simpa using hvw
      rw [this]
    unfold walk
    rw [e]
    split
    · rfl
    · cases k : r.lookup v with
      | none => rfl
      | some he =>
        simp only
        exact ih _ _ (hr.mem (lookup_mem k)).2.2

/-- Walking back gives a path of the recorded length. -/
theorem walk_ok {G : Graph R} {s : ℕ} {D : ℕ → R} (h0 : D s = G.zero) (inc : List (ℕ × ℕ)) (hi : IncOk G E s D inc)
    (v : ℕ) (hv : Disc s inc v) (fuel : ℕ) (hf : inc.length ≤ fuel) (path : List ℕ) :
    ∃ p, walk G s inc fuel v path = .ok (path ++ p.reverse) ∧ Chain E G.vert G.far s p v ∧
      pathLen G.add G.len G.zero p = D v := by
  induction inc generalizing v fuel path with
  | nil =>
    rcases hv with rfl | ⟨h, k⟩
    · exact ⟨[], by unfold walk; simp, rfl, h0.symm⟩
    · simp at k
  | cons y r ih =>
    obtain ⟨w, h⟩ := y
    obtain ⟨a, b, c, d, e, f⟩ := hi
    by_cases hr : Disc s r v
    · obtain ⟨p, k1, k2, k3⟩ := ih f v hr fuel (by simp at hf; omega) path
      exact ⟨p, by rw [walk_cons f d _ _ _ hr, k1], k2, k3⟩
    · have hvw : v = w := by
        rcases hv with k | ⟨z, k⟩
        · exact absurd (Or.inl k) hr
        · rcases List.mem_cons.1 k with k | k
          · injection k
          · exact absurd (Or.inr ⟨z, k⟩) hr
      subst hvw
      obtain ⟨fuel, rfl⟩ : ∃ g, fuel = g + 1 := ⟨fuel - 1, by simp at hf; omega⟩
      obtain ⟨p, k1, k2, k3⟩ := ih f (G.vert h) c fuel (by simp at hf; omega) (path ++ [h])
      refine ⟨p ++ [h], ?_, ?_, ?_⟩
      · unfold walk
        have hvs : v ≠ s := fun k => hr (Or.inl k)
        rw [if_neg hvs]
        simp only [List.lookup_cons, beq_self_eq_true]
        rw [walk_cons f d _ _ _ c, k1]
        simp
      · rw [← a]; exact chain_snoc k2 b rfl
      · rw [pathLen_snoc, k3, e]

/-- The invariant of the search; `except` is a vertex whose neighbours have not been queued yet. -/
structure SInv (G : Graph R) (E : ℕ → Prop) (N s t : ℕ) (D : ℕ → R) (except : Option ℕ) (inc : List (ℕ × ℕ))
    (q : List (R × ℕ)) (fuel : ℕ) : Prop where
  start : D s = G.zero
  inc_ok : IncOk G E s D inc
  queue : ∀ d h, (d, h) ∈ q → E h ∧ Disc s inc (G.vert h) ∧ d = G.add (D (G.vert h)) (G.len h)
  complete : ∀ h, E h → Disc s inc (G.vert h) → some (G.vert h) ≠ except → ¬ Disc s inc (G.far h) →
    (G.add (D (G.vert h)) (G.len h), h) ∈ q
  opt : ∀ v, Disc s inc v → ∀ p, Chain E G.vert G.far s p v → D v ≤ pathLen G.add G.len G.zero p
  target : ¬ Disc s inc t
  fuel_ok : q.length + ((Finset.range N).filter (fun h => discovered s inc (G.vert h) = false ∨
    some (G.vert h) = except)).card < fuel

theorem foldl_enqueue (f : ℕ → Bool) (g : ℕ → R) (l : List ℕ) (q : List (R × ℕ)) :
    (∀ x, x ∈ l.foldl (fun q he => if f he then (g he, he) :: q else q) q ↔
      x ∈ q ∨ (x.2 ∈ l ∧ f x.2 = true ∧ x.1 = g x.2)) ∧
    (l.foldl (fun q he => if f he then (g he, he) :: q else q) q).length ≤ q.length + l.length := by
  induction l generalizing q with
  | nil => simp
  | cons a l ih =>
    simp only [List.foldl_cons]
    obtain ⟨h1, h2⟩ := ih (if f a then (g a, a) :: q else q)
    constructor
    · intro x
      rw [h1]
      obtain ⟨d, h⟩ := x
      by_cases hf : f a
      · simp only [hf, if_true, List.mem_cons, Prod.mk.injEq]
        constructor
        · rintro ((⟨rfl, rfl⟩ | k) | ⟨k1, k2, k3⟩)
          · exact Or.inr ⟨Or.inl rfl, hf, rfl⟩
          · exact Or.inl k
          · exact Or.inr ⟨Or.inr k1, k2, k3⟩
        · rintro (k | ⟨rfl | k1, k2, k3⟩)
          · exact Or.inl (Or.inr k)
          · exact Or.inl (Or.inl ⟨k3, rfl⟩)
          · exact Or.inr ⟨k1, k2, k3⟩
      · simp only [hf, List.mem_cons]
        constructor
        · rintro (k | ⟨k1, k2, k3⟩)
          · exact Or.inl k
          · exact Or.inr ⟨Or.inr k1, k2, k3⟩
        · rintro (k | ⟨rfl | k1, k2, k3⟩)
          · exact Or.inl k
          · exact absurd k2 hf
          · exact Or.inr ⟨k1, k2, k3⟩
    · refine le_trans h2 ?_
      split <;> simp <;> omega

/-- Queueing the neighbours of the vertex that is still missing. -/
theorem enqueue_ok {G : Graph R} {N s t : ℕ} {D : ℕ → R} {inc : List (ℕ × ℕ)} {q : List (R × ℕ)} {fuel v : ℕ}
    (hG : Good G E V N) (hv : V v) (hd : Disc s inc v) (I : SInv G E N s t D (some v) inc q fuel) :
    ∃ q', enqueue G s inc q v (D v) = .ok q' ∧ SInv G E N s t D none inc q' fuel := by
  obtain ⟨l, k1, k2, k3⟩ := hG.out v hv
  obtain ⟨f1, f2⟩ := foldl_enqueue (fun he => !discovered s inc (G.far he)) (fun he => G.add (D v) (G.len he)) l q
  refine ⟨_, by unfold enqueue; rw [k1], I.start, I.inc_ok, ?_, ?_, I.opt, I.target, ?_⟩
  · intro d h hm
    rcases (f1 (d, h)).1 hm with k | ⟨a, _, c⟩
    · exact I.queue d h k
    · obtain ⟨a1, a2⟩ := (k3 h).1 a
      refine ⟨a1, a2 ▸ hd, ?_⟩
      rw [a2]; exact c
  · intro h hE hdv _ hn
    rw [f1]
    by_cases hvv : G.vert h = v
    · right
      refine ⟨(k3 h).2 ⟨hE, hvv⟩, ?_, by simp [hvv]⟩
      have : discovered s inc (G.far h) = false := by
        cases hb : discovered s inc (G.far h) with
        | false => rfl
        | true => exact absurd ((discovered_iff _ _ _).1 hb) hn
      simp [this]
    · left
      exact I.complete h hE hdv (fun k => hvv (by injection k)) hn
  · have hsub : l.toFinset ∪ (Finset.range N).filter (fun h => discovered s inc (G.vert h) = false ∨
        some (G.vert h) = none) ⊆ (Finset.range N).filter (fun h => discovered s inc (G.vert h) = false ∨
        some (G.vert h) = some v) := by
      intro h hh
      simp only [Finset.mem_union, List.mem_toFinset, Finset.mem_filter, Finset.mem_range, reduceCtorEq,
        or_false, Option.some.injEq] at hh ⊢
      rcases hh with hh | hh
      · obtain ⟨a1, a2⟩ := (k3 h).1 hh
        exact ⟨hG.lt h a1, Or.inr a2⟩
      · exact ⟨hh.1, Or.inl hh.2⟩
    have hdis : Disjoint l.toFinset ((Finset.range N).filter (fun h => discovered s inc (G.vert h) = false ∨
        some (G.vert h) = none)) := by
      rw [Finset.disjoint_left]
      intro h h1 h2
      simp only [List.mem_toFinset, Finset.mem_filter, reduceCtorEq, or_false] at h1 h2
      obtain ⟨_, a2⟩ := (k3 h).1 h1
      have := (discovered_iff s inc v).2 hd
      rw [← a2, h2.2] at this
      cases this
    have hc := Finset.card_le_card hsub
    rw [Finset.card_union_of_disjoint hdis, List.toFinset_card_of_nodup k2] at hc
    have := I.fuel_ok
    omega

/-- One more vertex is accepted. -/
theorem accept_ok {G : Graph R} {N s t : ℕ} {D : ℕ → R} {inc : List (ℕ × ℕ)} {q q' : List (R × ℕ)} {fuel h : ℕ} {d : R}
    (L : Lengths E G.add G.len) (I : SInv G E N s t D none inc q (fuel + 1)) (hp : q.Perm ((d, h) :: q'))
    (hmin : ∀ y ∈ q, d ≤ y.1) (hn : ¬ Disc s inc (G.far h)) :
    let D' := Function.update D (G.far h) d
    E h ∧ IncOk G E s D' ((G.far h, h) :: inc) ∧ D' s = G.zero ∧
      (∀ v, Disc s ((G.far h, h) :: inc) v → ∀ p, Chain E G.vert G.far s p v →
        D' v ≤ pathLen G.add G.len G.zero p) ∧
      (G.far h ≠ t → SInv G E N s t D' (some (G.far h)) ((G.far h, h) :: inc) q' fuel) := by
  intro D'
  have hmem : (d, h) ∈ q := hp.mem_iff.2 (by simp)
  obtain ⟨hE, hdv, hd⟩ := I.queue d h hmem
  have hD : ∀ v, Disc s inc v → D' v = D v := by
    intro v hv
    exact Function.update_of_ne (show v ≠ G.far h from fun k => hn (k ▸ hv)) _ _
  have hincOk : ∀ r, IncOk G E s D r → (∀ v, Disc s r v → Disc s inc v) → IncOk G E s D' r := by
    intro r
    induction r with
    | nil => intro _ _; trivial
    | cons y r ih =>
      obtain ⟨w, x⟩ := y
      intro hr hsub
      obtain ⟨a, b, c, e, f, g⟩ := hr
      have up : ∀ u, Disc s r u → Disc s ((w, x) :: r) u := by
        rintro u (k | ⟨z, k⟩)
        · exact Or.inl k
        · exact Or.inr ⟨z, by simp [k]⟩
      refine ⟨a, b, c, e, ?_, ih g (fun v hv => hsub v (up v hv))⟩
      rw [hD w (hsub w (Or.inr ⟨x, by simp⟩)), hD _ (hsub _ (up _ c)), f]
  have hI' : IncOk G E s D' ((G.far h, h) :: inc) := by
    refine ⟨rfl, hE, hdv, hn, ?_, hincOk inc I.inc_ok (fun v hv => hv)⟩
    rw [hD _ hdv, ← hd]
    exact Function.update_self ..
  have hs : D' s = G.zero := by rw [hD s (Or.inl rfl), I.start]
  have split : ∀ v, Disc s ((G.far h, h) :: inc) v → v = G.far h ∨ Disc s inc v := by
    rintro v (k | ⟨z, k⟩)
    · exact Or.inr (Or.inl k)
    · rcases List.mem_cons.1 k with k | k
      · injection k with k _; exact Or.inl k
      · exact Or.inr (Or.inr ⟨z, k⟩)
  have up : ∀ u, Disc s inc u → Disc s ((G.far h, h) :: inc) u := by
    rintro u (k | ⟨z, k⟩)
    · exact Or.inl k
    · exact Or.inr ⟨z, by simp [k]⟩
  have hopt : ∀ v, Disc s ((G.far h, h) :: inc) v → ∀ p, Chain E G.vert G.far s p v →
      D' v ≤ pathLen G.add G.len G.zero p := by
    intro v hv p hc
    rcases split v hv with rfl | k
    · rw [show D' (G.far h) = d from Function.update_self ..]
      refine leave_bound L G.zero (Disc s inc) D I.opt d ?_ hc (Or.inl rfl) hn
      intro u h' hu hE' ht' hn'
      subst ht'
      exact hmin _ (I.complete h' hE' hu (by simp) hn')
    · rw [hD v k]; exact I.opt v k p hc
  refine ⟨hE, hI', hs, hopt, ?_⟩
  intro hne
  refine ⟨hs, hI', ?_, ?_, hopt, ?_, ?_⟩
  · intro d2 h2 hm
    obtain ⟨a, b, c⟩ := I.queue d2 h2 (hp.mem_iff.2 (by simp [hm]))
    exact ⟨a, up _ b, by rw [hD _ b]; exact c⟩
  · intro h2 hE2 hd2 hex hn2
    rcases split _ hd2 with k | k
    · exact absurd (by rw [k]) hex
    · have hm := I.complete h2 hE2 k (by simp) (fun k2 => hn2 (up _ k2))
      rw [hD _ k]
      rcases List.mem_cons.1 (hp.mem_iff.1 hm) with k3 | k3
      · injection k3 with _ k3
        subst k3
        exact absurd (Or.inr ⟨h2, by simp⟩) hn2
      · exact k3
  · intro k
    rcases split t k with k | k
    · exact hne k.symm
    · exact I.target k
  · have hf := I.fuel_ok
    rw [hp.length_eq] at hf
    have hsub : (Finset.range N).filter (fun x => discovered s ((G.far h, h) :: inc) (G.vert x) = false ∨
        some (G.vert x) = some (G.far h)) ⊆ (Finset.range N).filter (fun x => discovered s inc (G.vert x) = false ∨
        some (G.vert x) = none) := by
      intro x hx
      simp only [Finset.mem_filter, Finset.mem_range, reduceCtorEq, or_false, Option.some.injEq] at hx ⊢
      refine ⟨hx.1, ?_⟩
      cases hb : discovered s inc (G.vert x) with
      | false => rfl
      | true =>
        exfalso
        have hb' := (discovered_iff _ _ _).1 hb
        rcases hx.2 with k | k
        · have := (discovered_iff _ _ _).2 (up _ hb')
          rw [k] at this; cases this
        · exact hn (k ▸ hb')
    have := Finset.card_le_card hsub
    simp only [List.length_cons] at hf
    omega

/-- The search returns a shortest path or finds that there is none. -/
theorem search_ok {G : Graph R} {pop : List (R × ℕ) → Option ((R × ℕ) × List (R × ℕ))} {N s t : ℕ}
    (hG : Good G E V N) (L : Lengths E G.add G.len) (hpop : IsPop pop) (fuel : ℕ) (D : ℕ → R) (inc : List (ℕ × ℕ))
    (q : List (R × ℕ)) (I : SInv G E N s t D none inc q fuel) :
    ∃ path, search G pop s t fuel inc q = .ok path ∧
      ((path = [] ∧ ∀ p, ¬ Chain E G.vert G.far s p t) ∨
        (path ≠ [] ∧ Chain E G.vert G.far s path t ∧ ∀ p, Chain E G.vert G.far s p t →
          pathLen G.add G.len G.zero path ≤ pathLen G.add G.len G.zero p)) := by
  induction fuel generalizing D inc q with
  | zero => have := I.fuel_ok; omega
  | succ fuel ih =>
    unfold search
    by_cases hq : q = []
    · subst hq
      rw [hpop.1]
      refine ⟨[], rfl, Or.inl ⟨rfl, ?_⟩⟩
      intro p hp
      obtain ⟨p1, h, p2, u, _, _, hu, hE, hth, hn, _⟩ := chain_leaves (Disc s inc) hp (Or.inl rfl) I.target
      have := I.complete h hE (hth ▸ hu) (by simp) hn
      simp at this
    · obtain ⟨⟨d, h⟩, r, k1, k2, k3⟩ := hpop.2 q hq
      rw [k1]
      simp only
      by_cases hdis : Disc s inc (G.far h)
      · rw [if_pos ((discovered_iff _ _ _).2 hdis)]
        refine ih D inc r ⟨I.start, I.inc_ok, ?_, ?_, I.opt, I.target, ?_⟩
        · exact fun d2 h2 hm => I.queue d2 h2 (k2.mem_iff.2 (by simp [hm]))
        · intro h2 hE2 hd2 hex hn2
          rcases List.mem_cons.1 (k2.mem_iff.1 (I.complete h2 hE2 hd2 hex hn2)) with k | k
          · injection k with _ k
            subst k
            exact absurd hdis hn2
          · exact k
        · have := I.fuel_ok
          rw [k2.length_eq] at this
          simp only [List.length_cons] at this
          omega
      · rw [if_neg (fun k => hdis ((discovered_iff _ _ _).1 k))]
        obtain ⟨hE, a1, a2, a3, a4⟩ := accept_ok L I k2 k3 hdis
        have hnew : Disc s ((G.far h, h) :: inc) (G.far h) := Or.inr ⟨h, by simp⟩
        by_cases ht : G.far h = t
        · rw [if_pos ht]
          obtain ⟨p, w1, w2, w3⟩ := walk_ok a2 _ a1 (G.far h) hnew _ (le_refl _) []
          rw [w1]
          refine ⟨p, by simp [Except.map], Or.inr ⟨?_, ht ▸ w2, ?_⟩⟩
          · rintro rfl
            exact hdis (Or.inl w2.symm)
          · intro p' hp'
            rw [w3]
            exact a3 _ hnew p' (ht ▸ hp')
        · rw [if_neg ht]
          have hd : d = Function.update D (G.far h) d (G.far h) := by simp
          obtain ⟨q', e1, e2⟩ := enqueue_ok hG (hG.far h hE) hnew (a4 ht)
          rw [← hd] at e1
          rw [e1]
          exact ih _ _ q' e2

theorem shortestEdgePath_ok {G : Graph R} {pop : List (R × ℕ) → Option ((R × ℕ) × List (R × ℕ))} {N : ℕ}
    (hG : Good G E V N) (L : Lengths E G.add G.len) (hpop : IsPop pop) (s t : ℕ) (hs : V s) (req : ℤ) :
    ∃ path, shortestEdgePath G pop (N + 1) s t req = .ok (path, req) ∧
      (path ≠ [] → Chain E G.vert G.far s path t) ∧
      (∀ p, Chain E G.vert G.far s p t → path ≠ [] →
        pathLen G.add G.len G.zero path ≤ pathLen G.add G.len G.zero p) ∧
      (path = [] ↔ s = t ∨ ∀ p, ¬ Chain E G.vert G.far s p t) := by
  unfold shortestEdgePath
  by_cases hst : s = t
  · rw [if_pos hst]
    exact ⟨[], rfl, by simp, by simp, by simp [hst]⟩
  · rw [if_neg hst]
    have I : SInv G E N s t (fun _ => G.zero) (some s) [] [] (N + 1) := by
      have hD : ∀ v, Disc s [] v → v = s := by
        rintro v (k | ⟨h, k⟩)
        · exact k
        · simp at k
      refine ⟨rfl, trivial, by simp, ?_, ?_, ?_, ?_⟩
      · intro h _ hd hex
        exact absurd (by rw [hD _ hd]) hex
      · intro v hv p hp
        exact pathLen_infl L hp G.zero
      · intro k
        exact hst (hD t k).symm
      · have := Finset.card_filter_le (Finset.range N) (fun h => discovered s [] (G.vert h) = false ∨
          some (G.vert h) = some s)
        rw [Finset.card_range] at this
        simp only [List.length_nil]
        omega
    obtain ⟨q, e1, e2⟩ := enqueue_ok hG hs (Or.inl rfl) I
    rw [e1]
    obtain ⟨path, k1, k2⟩ := search_ok hG L hpop _ _ _ _ e2
    simp only [k1]
    refine ⟨path, by simp, ?_, ?_, ?_⟩
    · intro hne
      rcases k2 with k | k
      · exact absurd k.1 hne
      · exact k.2.1
    · intro p hp hne
      rcases k2 with k | k
      · exact absurd k.1 hne
      · exact k.2.2 p hp
    · rcases k2 with k | k
      · simp [k.1]; exact Or.inr k.2
      · simp only [k.1, hst, false_or, false_iff, not_forall, not_not]
        exact ⟨path, k.2.1⟩

/-- A path of halfedges of a mesh. -/
def IsPath (m : Mesh) (s : ℕ) (p : List ℕ) (t : ℕ) : Prop :=
  Chain m.heLive m.heVertex m.tip s p t

theorem Chain.congr {tip' : ℕ → ℕ} (h : ∀ i, E i → tip i = tip' i) {s t : ℕ} {p : List ℕ} :
    Chain E tail tip s p t ↔ Chain E tail tip' s p t := by
  induction p generalizing s with
  | nil => exact Iff.rfl
  | cons a p ih =>
    unfold Chain
    constructor
    · rintro ⟨k1, k2, k3⟩; exact ⟨k1, k2, ih.1 (h a k1 ▸ k3)⟩
    · rintro ⟨k1, k2, k3⟩; exact ⟨k1, k2, ih.2 ((h a k1).symm ▸ k3)⟩

theorem good_mesh (m : Mesh) (hv : m.Valid) (lens : ℕ → R) (add : R → R → R) (zero : R) :
    Good (meshGraph m lens add zero) m.heLive m.vLive m.nHeFill := by
  refine ⟨?_, ?_, fun h hh => hh.1⟩
  · intro v hvl
    obtain ⟨l, k1, k2, k3, _⟩ := C49_vertex_outgoing m hv v hvl
    exact ⟨l, k1, k2, k3⟩
  · intro h hh
    exact hv.vertex_live _ (hv.twin_live _ hh)

/-- **C39** for manifold meshes (it fails on general ones, `C39_general_fails`). On every valid mesh, for all edge lengths for which addition is monotone and does not decrease (for example
nonnegative numbers, with exact or rounded addition) and whatever the priority queue does with ties:
`shortestEdgePath` returns a path of halfedges from `s` to `t` that no other path is shorter than, and an empty path
only if `s = t` or there is no path. The require count of the edge lengths is as before. -/
theorem C39_partial (m : Mesh) (hv : m.Valid) (lens : ℕ → R) (add : R → R → R) (zero : R)
    (hmono : ∀ e a b, a ≤ b → add a (lens e) ≤ add b (lens e)) (hinfl : ∀ e a, a ≤ add a (lens e))
    (pop : List (R × ℕ) → Option ((R × ℕ) × List (R × ℕ))) (hpop : IsPop pop) (s t : ℕ) (hs : m.vLive s) (req : ℤ) :
    ∃ path, shortestEdgePath (meshGraph m lens add zero) pop (m.nHeFill + 1) s t req = .ok (path, req) ∧
      (path ≠ [] → IsPath m s path t) ∧
      (∀ p, IsPath m s p t → path ≠ [] →
        path.foldl (fun d i => add d (lens (i / 2))) zero ≤ p.foldl (fun d i => add d (lens (i / 2))) zero) ∧
      (path = [] ↔ s = t ∨ ∀ p, ¬ IsPath m s p t) := by
  have hc : ∀ p t, IsPath m s p t ↔
      Chain m.heLive (meshGraph m lens add zero).vert (meshGraph m lens add zero).far s p t := by
    intro p t
    exact Chain.congr (fun i hi => hv.vertex_next hi)
  obtain ⟨path, k1, k2, k3, k4⟩ := shortestEdgePath_ok (good_mesh m hv lens add zero)
    ⟨fun h _ => hmono _, fun h _ => hinfl _⟩ hpop s t hs req
  refine ⟨path, k1, fun h => (hc _ _).2 (k2 h), fun p hp hne => ?_, ?_⟩
  · exact k3 p ((hc _ _).1 hp) hne
  · rw [k4]
    constructor
    · rintro (k | k)
      · exact Or.inl k
      · exact Or.inr fun p hp => k p ((hc _ _).1 hp)
    · rintro (k | k)
      · exact Or.inl k
      · exact Or.inr fun p hp => k p ((hc _ _).2 hp)

/-! ### Distances within a radius -/

/-- What the graph has to provide: the neighbours listed for a vertex are the ends of the arrows from there. -/
structure EGood (H : EGraph R) (E V : ℕ → Prop) (tail tip : ℕ → ℕ) (len : ℕ → R) (NV B : ℕ) : Prop where
  nbr : ∀ v, V v → ∃ l, H.nbr v = .ok l ∧ l.length ≤ B ∧
    ∀ w x, (w, x) ∈ l ↔ ∃ h, E h ∧ tail h = v ∧ tip h = w ∧ len h = x
  tip : ∀ h, E h → V (tip h)
  lt : ∀ v, V v → v < NV

def Key (dist : List (ℕ × R)) (v : ℕ) : Prop := ∃ d, (v, d) ∈ dist

theorem key_iff (dist : List (ℕ × R)) (v : ℕ) : (dist.lookup v).isSome = true ↔ Key dist v := lookup_some dist v

/-- The invariant; `except` is a vertex whose neighbours have not been queued yet. -/
structure WInv (H : EGraph R) (E V : ℕ → Prop) (tail tip : ℕ → ℕ) (len : ℕ → R) (NV B s : ℕ) (rad : R) (D : ℕ → R)
    (except : Option ℕ) (dist : List (ℕ × R)) (q : List (R × ℕ)) (fuel : ℕ) : Prop where
  start : Key dist s
  nodup : (dist.map Prod.fst).Nodup
  dist_D : ∀ v d, (v, d) ∈ dist → d = D v
  queue : ∀ d w, (d, w) ∈ q → V w ∧ d ≤ rad ∧ ∃ p, Chain E tail tip s p w ∧ pathLen H.add len H.zero p = d
  complete : ∀ h, E h → Key dist (tail h) → some (tail h) ≠ except → ¬ Key dist (tip h) →
    H.add (D (tail h)) (len h) ≤ rad → (H.add (D (tail h)) (len h), tip h) ∈ q
  opt : ∀ v, Key dist v → ∀ p, Chain E tail tip s p v → D v ≤ pathLen H.add len H.zero p
  attained : ∀ v, Key dist v → V v ∧ (v = s ∨ D v ≤ rad) ∧
    ∃ p, Chain E tail tip s p v ∧ pathLen H.add len H.zero p = D v
  fuel_ok : q.length + B * ((Finset.range NV).filter (fun v => (dist.lookup v).isSome = false ∨
    some v = except)).card < fuel

theorem foldl_within (f : ℕ × R → Bool) (g : ℕ × R → R) (l : List (ℕ × R)) (q : List (R × ℕ)) :
    (∀ x, x ∈ l.foldl (fun q wl => if f wl then (g wl, wl.1) :: q else q) q ↔
      x ∈ q ∨ ∃ wl ∈ l, f wl = true ∧ x = (g wl, wl.1)) ∧
    (l.foldl (fun q wl => if f wl then (g wl, wl.1) :: q else q) q).length ≤ q.length + l.length := by
  induction l generalizing q with
  | nil => simp
  | cons a l ih =>
    simp only [List.foldl_cons]
    obtain ⟨h1, h2⟩ := ih (if f a then (g a, a.1) :: q else q)
    constructor
    · intro x
      rw [h1]
      by_cases hf : f a
      · simp only [hf, if_true, List.mem_cons, exists_eq_or_imp, true_and]
        tauto
      · simp only [hf, List.mem_cons, exists_eq_or_imp]
        simp
    · refine le_trans h2 ?_
      split <;> simp <;> omega

variable {H : EGraph R} {len : ℕ → R} {NV B s : ℕ} {rad : R}

theorem enqueueW_ok {D : ℕ → R} {dist : List (ℕ × R)} {q : List (R × ℕ)} {fuel v : ℕ}
    (hG : EGood H E V tail tip len NV B) (hd : Key dist v)
    (I : WInv H E V tail tip len NV B s rad D (some v) dist q fuel) :
    ∃ l, H.nbr v = .ok l ∧ WInv H E V tail tip len NV B s rad D none dist (l.foldl (fun q wl =>
        if H.add (D v) wl.2 ≤ rad ∧ !(dist.lookup wl.1).isSome then (H.add (D v) wl.2, wl.1) :: q else q) q) fuel := by
  obtain ⟨hVv, _, p0, hp0, hl0⟩ := I.attained v hd
  obtain ⟨l, k1, k2, k3⟩ := hG.nbr v hVv
  obtain ⟨f1, f2⟩ := foldl_within (fun wl => decide (H.add (D v) wl.2 ≤ rad ∧ !(dist.lookup wl.1).isSome))
    (fun wl => H.add (D v) wl.2) l q
  simp only [decide_eq_true_eq] at f1 f2
  refine ⟨l, k1, I.start, I.nodup, I.dist_D, ?_, ?_, I.opt, I.attained, ?_⟩
  · intro d w hm
    rcases (f1 (d, w)).1 hm with k | ⟨⟨w', x⟩, a, b, c⟩
    · exact I.queue d w k
    · injection c with c1 c2
      simp only at c1 c2 b
      subst c1 c2
      obtain ⟨h, e1, e2, e3, e4⟩ := (k3 _ _).1 a
      subst e3 e4 e2
      exact ⟨hG.tip h e1, b.1, p0 ++ [h], chain_snoc hp0 e1 rfl, by rw [pathLen_snoc, hl0]⟩
  · intro h hE hk _ hn hr
    rw [f1]
    by_cases hvv : tail h = v
    · right
      subst hvv
      refine ⟨(tip h, len h), (k3 _ _).2 ⟨h, hE, rfl, rfl, rfl⟩, ⟨hr, ?_⟩, rfl⟩
      cases hb : (dist.lookup (tip h)).isSome with
      | false => simp
      | true => exact absurd ((key_iff _ _).1 hb) hn
    · left
      exact I.complete h hE hk (fun k => hvv (by injection k)) hn hr
  · have hvn : v < NV := hG.lt v hVv
    have hsub : insert v ((Finset.range NV).filter (fun w => (dist.lookup w).isSome = false ∨ some w = none)) ⊆
        (Finset.range NV).filter (fun w => (dist.lookup w).isSome = false ∨ some w = some v) := by
      intro w hw
      simp only [Finset.mem_insert, Finset.mem_filter, Finset.mem_range, reduceCtorEq, or_false,
        Option.some.injEq] at hw ⊢
      rcases hw with rfl | hw
      · exact ⟨hvn, Or.inr rfl⟩
      · exact ⟨hw.1, Or.inl hw.2⟩
    have hc := Finset.card_le_card hsub
    rw [Finset.card_insert_of_notMem (by
      simp only [Finset.mem_filter, reduceCtorEq, or_false, not_and]
      intro _ k
      rw [(key_iff _ _).2 hd] at k
      cases k)] at hc
    have := I.fuel_ok
    have hmul := Nat.mul_le_mul_left B hc
    rw [Nat.mul_add, Nat.mul_one] at hmul
    omega

theorem within_ok {pop : List (R × ℕ) → Option ((R × ℕ) × List (R × ℕ))}
    (hG : EGood H E V tail tip len NV B) (L : Lengths E H.add len) (hpop : IsPop pop) (fuel : ℕ) (D : ℕ → R)
    (dist : List (ℕ × R)) (q : List (R × ℕ)) (I : WInv H E V tail tip len NV B s rad D none dist q fuel) :
    ∃ res, within pop H rad fuel dist q = .ok res ∧ (res.map Prod.fst).Nodup ∧
      (∀ v, Key res v ↔ v = s ∨ ∃ p, Chain E tail tip s p v ∧ pathLen H.add len H.zero p ≤ rad) ∧
      ∀ v d, (v, d) ∈ res → (∃ p, Chain E tail tip s p v ∧ pathLen H.add len H.zero p = d) ∧
        ∀ p, Chain E tail tip s p v → d ≤ pathLen H.add len H.zero p := by
  induction fuel generalizing D dist q with
  | zero => have := I.fuel_ok; omega
  | succ fuel ih =>
    unfold within
    by_cases hq : q = []
    · subst hq
      rw [hpop.1]
      refine ⟨dist, rfl, I.nodup, ?_, ?_⟩
      · intro v
        constructor
        · intro hk
          obtain ⟨_, k, p, h1, h2⟩ := I.attained v hk
          rcases k with k | k
          · exact Or.inl k
          · exact Or.inr ⟨p, h1, by rw [h2]; exact k⟩
        · rintro (rfl | ⟨p, h1, h2⟩)
          · exact I.start
          · by_contra hn
            obtain ⟨h, a, b, c, d⟩ := leave_step L H.zero (Key dist) D I.opt h1 I.start hn
            have := I.complete h b a (by simp) c (le_trans d h2)
            simp at this
      · intro v d hm
        have := I.dist_D v d hm
        subst this
        obtain ⟨_, _, p, h1, h2⟩ := I.attained v ⟨_, hm⟩
        exact ⟨⟨p, h1, h2⟩, I.opt v ⟨_, hm⟩⟩
    · obtain ⟨⟨d, v⟩, r, k1, k2, k3⟩ := hpop.2 q hq
      rw [k1]
      simp only
      have hmem : (d, v) ∈ q := k2.mem_iff.2 (by simp)
      obtain ⟨hVv, hrad, p0, hp0, hl0⟩ := I.queue d v hmem
      by_cases hdis : Key dist v
      · rw [if_pos ((key_iff _ _).2 hdis)]
        refine ih D dist r ⟨I.start, I.nodup, I.dist_D, ?_, ?_, I.opt, I.attained, ?_⟩
        · exact fun d2 h2 hm => I.queue d2 h2 (k2.mem_iff.2 (by simp [hm]))
        · intro h hE hk hex hn hr
          rcases List.mem_cons.1 (k2.mem_iff.1 (I.complete h hE hk hex hn hr)) with k | k
          · injection k with _ k
            subst k
            exact absurd hdis hn
          · exact k
        · have := I.fuel_ok
          rw [k2.length_eq] at this
          simp only [List.length_cons] at this
          omega
      · rw [if_neg (fun k => hdis ((key_iff _ _).1 k))]
        have hD : ∀ w, Key dist w → Function.update D v d w = D w := by
          intro w hw
          exact Function.update_of_ne (show w ≠ v from fun k => hdis (k ▸ hw)) _ _
        have hDv : Function.update D v d v = d := by simp
        have split : ∀ w, Key ((v, d) :: dist) w → w = v ∨ Key dist w := by
          rintro w ⟨x, k⟩
          rcases List.mem_cons.1 k with k | k
          · injection k with k _; exact Or.inl k
          · exact Or.inr ⟨x, k⟩
        have up : ∀ w, Key dist w → Key ((v, d) :: dist) w := fun w ⟨x, k⟩ => ⟨x, by simp [k]⟩
        have hnew : Key ((v, d) :: dist) v := ⟨d, by simp⟩
        have I' : WInv H E V tail tip len NV B s rad (Function.update D v d) (some v) ((v, d) :: dist) r fuel := by
          refine ⟨up _ I.start, ?_, ?_, ?_, ?_, ?_, ?_, ?_⟩
          · simp only [List.map_cons, List.nodup_cons]
            refine ⟨?_, I.nodup⟩
            intro k
            obtain ⟨⟨a, b⟩, j1, j2⟩ := List.mem_map.1 k
            simp only at j2
            subst j2
            exact hdis ⟨b, j1⟩
          · intro w x hm
            rcases List.mem_cons.1 hm with k | k
            · injection k with k k'
              subst k k'
              exact hDv.symm
            · rw [hD w ⟨x, k⟩]; exact I.dist_D w x k
          · exact fun d2 h2 hm => I.queue d2 h2 (k2.mem_iff.2 (by simp [hm]))
          · intro h hE hk hex hn hr
            rcases split _ hk with k | k
            · exact absurd (by rw [k]) hex
            · rw [hD _ k] at hr ⊢
              have hm := I.complete h hE k (by simp) (fun k2 => hn (up _ k2)) hr
              rcases List.mem_cons.1 (k2.mem_iff.1 hm) with k3 | k3
              · injection k3 with _ k3
                rw [k3] at hn
                exact absurd hnew hn
              · exact k3
          · intro w hw p hp
            rcases split w hw with rfl | k
            · rw [hDv]
              obtain ⟨h, a, b, c, e⟩ := leave_step L H.zero (Key dist) D I.opt hp I.start hdis
              refine le_trans ?_ e
              by_cases hr : H.add (D (tail h)) (len h) ≤ rad
              · exact k3 _ (I.complete h b a (by simp) c hr)
              · exact le_trans hrad (le_of_lt (not_le.1 hr))
            · rw [hD w k]; exact I.opt w k p hp
          · intro w hw
            rcases split w hw with rfl | k
            · rw [hDv]; exact ⟨hVv, Or.inr hrad, p0, hp0, hl0⟩
            · rw [hD w k]; exact I.attained w k
          · have hf := I.fuel_ok
            rw [k2.length_eq] at hf
            have hsub : (Finset.range NV).filter (fun w => (((v, d) :: dist).lookup w).isSome = false ∨
                some w = some v) ⊆ (Finset.range NV).filter (fun w => (dist.lookup w).isSome = false ∨
                some w = none) := by
              intro w hw
              simp only [Finset.mem_filter, Finset.mem_range, reduceCtorEq, or_false, Option.some.injEq] at hw ⊢
              refine ⟨hw.1, ?_⟩
              cases hb : (dist.lookup w).isSome with
              | false => rfl
              | true =>
                exfalso
                have hb' := (key_iff _ _).1 hb
                rcases hw.2 with k | k
                · have := (key_iff _ _).2 (up _ hb')
                  rw [k] at this; cases this
                · exact hdis (k ▸ hb')
            have hmul := Nat.mul_le_mul_left B (Finset.card_le_card hsub)
            simp only [List.length_cons] at hf
            omega
        obtain ⟨l, e1, e2⟩ := enqueueW_ok hG hnew I'
        rw [hDv] at e2
        simp only [e1]
        exact ih _ _ _ e2

theorem distancesWithin_ok {pop : List (R × ℕ) → Option ((R × ℕ) × List (R × ℕ))}
    (hG : EGood H E V tail tip len NV B) (L : Lengths E H.add len) (hpop : IsPop pop) (hs : V s) (req : ℤ) :
    ∃ res, distancesWithin pop H (B * NV + 2) s rad req = .ok (res, req + 1) ∧ (res.map Prod.fst).Nodup ∧
      (∀ v, Key res v ↔ v = s ∨ ∃ p, Chain E tail tip s p v ∧ pathLen H.add len H.zero p ≤ rad) ∧
      ∀ v d, (v, d) ∈ res → (∃ p, Chain E tail tip s p v ∧ pathLen H.add len H.zero p = d) ∧
        ∀ p, Chain E tail tip s p v → d ≤ pathLen H.add len H.zero p := by
  unfold distancesWithin within
  obtain ⟨⟨d, v⟩, r, k1, k2, k3⟩ := hpop.2 [(H.zero, s)] (by simp)
  rw [k1]
  have hr : (d, v) = (H.zero, s) ∧ r = [] := by
    have hl := k2.length_eq
    simp only [List.length_cons, List.length_nil] at hl
    have : r = [] := List.length_eq_zero_iff.1 (by omega)
    subst this
    have := k2.mem_iff (a := (d, v))
    simp only [List.mem_singleton, iff_true] at this
    exact ⟨this, rfl⟩
  obtain ⟨h1, rfl⟩ := hr
  injection h1 with h1 h2
  subst h1 h2
  simp only [List.lookup_nil, Option.isSome_none, Bool.false_eq_true, if_false]
  have hk : ∀ w, Key [(v, H.zero)] w → w = v := by
    rintro w ⟨x, k⟩
    simp at k
    exact k.1
  have I : WInv H E V tail tip len NV B v rad (fun _ => H.zero) (some v) [(v, H.zero)] [] (B * NV + 1) := by
    refine ⟨⟨H.zero, by simp⟩, by simp, ?_, by simp, ?_, ?_, ?_, ?_⟩
    · intro w x hm
      simp at hm
      exact hm.2
    · intro h _ hkk hex
      exact absurd (by rw [hk _ hkk]) hex
    · exact fun w _ p hp => pathLen_infl L hp H.zero
    · intro w hw
      have := hk w hw
      subst this
      exact ⟨hs, Or.inl rfl, [], rfl, rfl⟩
    · have := Finset.card_filter_le (Finset.range NV) (fun w => (([(v, H.zero)] : List (ℕ × R)).lookup w).isSome = false ∨
          some w = some v)
      rw [Finset.card_range] at this
      have := Nat.mul_le_mul_left B this
      simp only [List.length_nil]
      omega
  obtain ⟨l, e1, e2⟩ := enqueueW_ok hG ⟨H.zero, by simp⟩ I
  simp only [e1]
  obtain ⟨res, g1, g2⟩ := within_ok hG L hpop _ _ _ _ e2
  rw [g1]
  exact ⟨res, rfl, g2⟩

theorem egood_mesh (m : Mesh) (hv : m.Valid) (lens : ℕ → R) (add : R → R → R) (zero : R) :
    EGood (meshEGraph m lens add zero) m.heLive m.vLive m.heVertex m.tip (fun i => lens (i / 2)) m.nVFill
      m.nHeFill := by
  refine ⟨?_, ?_, fun h hh => hh.1⟩
  · intro v hvl
    obtain ⟨l, k1, k2, k3, _, _, _, k4, _⟩ := C49_vertex_outgoing m hv v hvl
    refine ⟨(l.map (fun i => i / 2)).map (fun e => (otherVertex m e v, lens e)), ?_, ?_, ?_⟩
    · simp only [meshEGraph]
      rw [k4]; rfl
    · simp only [List.length_map]
      have hsub : l.toFinset ⊆ Finset.range m.nHeFill := by
        intro i hi
        simp only [List.mem_toFinset] at hi
        exact Finset.mem_range.2 ((k3 i).1 hi).1.1
      have := Finset.card_le_card hsub
      rwa [List.toFinset_card_of_nodup k2, Finset.card_range] at this
    · have hother : ∀ i, m.heLive i → m.heVertex i = v → otherVertex m (i / 2) v = m.tip i := by
        intro i hi hiv
        unfold otherVertex Mesh.eHalfedge
        have htip : ∀ j, m.heLive j → m.tip j = m.heVertex (twin j) := fun j hj => hv.vertex_next hj
        rcases Nat.even_or_odd' i with ⟨a, rfl | rfl⟩
        · rw [show 2 * a / 2 = a by omega, if_pos hiv]
        · rw [show (2 * a + 1) / 2 = a by omega]
          have hl : m.heLive (2 * a) := by rw [← twin_two_mul_add]; exact hv.twin_live _ hi
          rw [htip _ hl, htip _ hi, twin_two_mul, twin_two_mul_add]
          split
          · rename_i k
            rw [hiv, k]
          · rfl
      intro w x
      simp only [List.mem_map]
      constructor
      · rintro ⟨e, ⟨i, hi, rfl⟩, he⟩
        obtain ⟨a1, a2⟩ := (k3 i).1 hi
        injection he with h1 h2
        rw [hother i a1 a2] at h1
        exact ⟨i, a1, a2, h1, h2⟩
      · rintro ⟨i, a1, a2, rfl, rfl⟩
        exact ⟨i / 2, ⟨i, (k3 i).2 ⟨a1, a2⟩, rfl⟩, by rw [hother i a1 a2]⟩
  · intro h hh
    exact hv.vertex_live _ (hv.next_live _ hh)

/-- **C39**, distances. Under the same conditions `vertexDijkstraDistanceWithinRadius` returns the start and exactly the
vertices that some path of length at most the radius leads to, each once, with the length of a shortest path. -/
theorem C39_radius (m : Mesh) (hv : m.Valid) (lens : ℕ → R) (add : R → R → R) (zero : R)
    (hmono : ∀ e a b, a ≤ b → add a (lens e) ≤ add b (lens e)) (hinfl : ∀ e a, a ≤ add a (lens e))
    (pop : List (R × ℕ) → Option ((R × ℕ) × List (R × ℕ))) (hpop : IsPop pop) (s : ℕ) (hs : m.vLive s) (rad : R)
    (req : ℤ) :
    ∃ res req', distancesWithin pop (meshEGraph m lens add zero) (m.nHeFill * m.nVFill + 2) s rad req =
        .ok (res, req') ∧ (res.map Prod.fst).Nodup ∧
      (∀ v, (∃ d, (v, d) ∈ res) ↔
        v = s ∨ ∃ p, IsPath m s p v ∧ p.foldl (fun d i => add d (lens (i / 2))) zero ≤ rad) ∧
      ∀ v d, (v, d) ∈ res → (∃ p, IsPath m s p v ∧ p.foldl (fun d i => add d (lens (i / 2))) zero = d) ∧
        ∀ p, IsPath m s p v → d ≤ p.foldl (fun d i => add d (lens (i / 2))) zero := by
  obtain ⟨res, k1, k2⟩ := distancesWithin_ok (rad := rad) (egood_mesh m hv lens add zero)
    ⟨fun h _ => hmono _, fun h _ => hinfl _⟩ hpop hs req
  exact ⟨res, _, k1, k2⟩

/-- **C57**, the part that holds: `shortestEdgePath` leaves the require count of the edge lengths as it was. -/
theorem C57_partial (G : Graph R) (pop : List (R × ℕ) → Option ((R × ℕ) × List (R × ℕ))) (fuel s t : ℕ) (req : ℤ)
    (path : List ℕ) (req' : ℤ) (h : shortestEdgePath G pop fuel s t req = .ok (path, req')) : req' = req := by
  unfold shortestEdgePath at h
  split at h
  · injection h with h; simp only [Prod.mk.injEq] at h; exact h.2.symm
  · simp only at h
    split at h
    · cases h
    · split at h
      · cases h
      · injection h with h
        simp only [Prod.mk.injEq] at h
        omega

/-- **C57 fails** for `vertexDijkstraDistanceWithinRadius`: each call leaves the count one higher. -/
theorem C57_fails (H : EGraph R) (pop : List (R × ℕ) → Option ((R × ℕ) × List (R × ℕ))) (fuel s : ℕ) (rad : R) (req : ℤ)
    (res : List (ℕ × R)) (req' : ℤ) (h : distancesWithin pop H fuel s rad req = .ok (res, req')) : req' = req + 1 := by
  unfold distancesWithin at h
  split at h
  · cases h
  · injection h with h
    simp only [Prod.mk.injEq] at h
    exact h.2.symm

/-! ### General meshes -/

/-- A single triangle as a general `SurfaceMesh` (no implicit twins): one halfedge per side, each its own sibling, so
`he.twin()` is `he` itself. -/
def triangleGraph : Graph ℕ where
  out := fun v => .ok [v]
  vert := fun he => he
  far := fun he => he
  len := fun _ => 1
  add := (· + ·)
  zero := 0

/-- **C39 fails** on a `SurfaceMesh` that is not a `ManifoldSurfaceMesh`: on a single triangle no path is found from
vertex 0 to vertex 1, whatever the queue does, although halfedge 0 leads there. -/
theorem C39_general_fails (pop : List (ℕ × ℕ) → Option ((ℕ × ℕ) × List (ℕ × ℕ))) (hpop : IsPop pop) (req : ℤ) :
    shortestEdgePath triangleGraph pop 4 0 1 req = .ok ([], req) := by
  simp [shortestEdgePath, enqueue, triangleGraph, discovered, search, hpop.1]

/-! ### Concrete cases -/

/-- A queue that keeps the order of insertion. -/
def popMin (q : List (ℕ × ℕ)) : Option ((ℕ × ℕ) × List (ℕ × ℕ)) :=
  match q.find? (fun x => q.all (fun y => x.1 ≤ y.1)) with
  | none => none
  | some x => some (x, q.erase x)

theorem popMin_ok : IsPop popMin := by
  refine ⟨rfl, ?_⟩
  intro q hq
  have hex : ∃ x ∈ q, ∀ y ∈ q, x.1 ≤ y.1 := by
    induction q with
    | nil => exact absurd rfl hq
    | cons a q ih =>
      by_cases h : q = []
      · subst h; exact ⟨a, by simp, by simp⟩
      · obtain ⟨x, h1, h2⟩ := ih h
        by_cases hc : a.1 ≤ x.1
        · exact ⟨a, by simp, fun y hy => by
            rcases List.mem_cons.1 hy with rfl | k
            · exact le_refl _
            · exact le_trans hc (h2 y k)⟩
        · exact ⟨x, by simp [h1], fun y hy => by
            rcases List.mem_cons.1 hy with rfl | k
            · omega
            · exact h2 y k⟩
  unfold popMin
  cases h : q.find? (fun x => q.all (fun y => x.1 ≤ y.1)) with
  | none =>
    obtain ⟨x, h1, h2⟩ := hex
    have := List.find?_eq_none.1 h x h1
    simp only [List.all_eq_true, decide_eq_true_eq] at this
    exact absurd (fun y hy => h2 y hy) this
  | some x =>
    have hx := List.mem_of_find?_eq_some h
    have hp := List.find?_some h
    simp only [List.all_eq_true, decide_eq_true_eq] at hp
    exact ⟨x, _, rfl, List.perm_cons_erase hx, hp⟩

/-- The hypotheses of `C39_partial` hold for the square with natural lengths, and the path found has two halfedges. -/
example : (∀ e a b : ℕ, a ≤ b → a + (fun e => if e = 0 then 5 else 1) e ≤ b + (fun e => if e = 0 then 5 else 1) e) ∧
    Mesh.square.Valid ∧ Mesh.square.vLive 0 ∧
    ∃ p, shortestEdgePath (meshGraph Mesh.square (fun e => if e = 0 then 5 else 1) (· + ·) 0) popMin
      (Mesh.square.nHeFill + 1) 0 1 0 = .ok (p, 0) ∧ p ≠ [] :=
  ⟨fun _ _ _ h => Nat.add_le_add_right h _, Mesh.square_valid, by decide +kernel, _, rfl, by decide⟩

end GC.Dij
