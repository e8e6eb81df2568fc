import Verif.Quantity
import Mathlib.Logic.Relation

/-!
# C31: cached quantities are present and fresh while required
-/

namespace GC.Dep

variable {I V : Type} {G : Graph I V} {junk : ℕ → V}

/-- The dependency graph has no cycle, and the stack is deep enough: `rank` is a height function, below `depth`. -/
structure Graph.Acyclic (G : Graph I V) (rank : ℕ → ℕ) : Prop where
  lt : ∀ i, ∀ d ∈ G.deps i, rank d < rank i
  depth : ∀ i, rank i < G.depth
  closed : ∀ i < G.n, ∀ d ∈ G.deps i, d < G.n

/-- The right value of quantity `i` for the inputs `x`: computed from the right values of what it depends on. -/
def truth (G : Graph I V) (rank : ℕ → ℕ) (hG : G.Acyclic rank) (x : I) (i : ℕ) : V :=
  G.f i x ((G.deps i).attach.map (fun d => truth G rank hG x d.1))
termination_by rank i
decreasing_by exact hG.lt i d.1 d.2

theorem truth_eq (rank : ℕ → ℕ) (hG : G.Acyclic rank) (x : I) (i : ℕ) :
    truth G rank hG x i = G.f i x ((G.deps i).map (truth G rank hG x)) := by
  conv_lhs => unfold truth
  congr 1
  exact List.attach_map_val

/-- The computed quantities have the right values. -/
def Fresh (rank : ℕ → ℕ) (hG : G.Acyclic rank) (s : St I V) : Prop :=
  ∀ i, s.computed i = true → s.val i = truth G rank hG s.input i

/-- What a sequence of calls of `ensureHave` does: it evaluates the quantities in `l`, each once, after what it needs. -/
structure Evals (G : Graph I V) (s s' : St I V) (l : List ℕ) : Prop where
  input : s'.input = s.input
  req : s'.req = s.req
  log : s'.log = s.log ++ l
  nodup : l.Nodup
  missing : ∀ j ∈ l, s.computed j = false
  computed : ∀ j, s'.computed j = true ↔ s.computed j = true ∨ j ∈ l
  val : ∀ j ∉ l, s'.val j = s.val j
  order : ∀ l1 j l2, l = l1 ++ j :: l2 → ∀ d ∈ G.deps j, s.computed d = true ∨ d ∈ l1
  fresh : ∀ rank hG, Fresh (G := G) rank hG s → Fresh (G := G) rank hG s'

theorem Evals.refl (s : St I V) : Evals G s s [] :=
  ⟨rfl, rfl, by simp, by simp, by simp, by simp, by simp, by simp, fun _ _ h => h⟩

theorem Evals.trans {s s' s'' : St I V} {l l' : List ℕ} (h : Evals G s s' l) (h' : Evals G s' s'' l') :
    Evals G s s'' (l ++ l') where
  input := h'.input.trans h.input
  req := h'.req.trans h.req
  log := by rw [h'.log, h.log, List.append_assoc]
  nodup := by
    refine List.nodup_append.2 ⟨h.nodup, h'.nodup, ?_⟩
    intro a ha b hb e
    subst e
    have := h'.missing a hb
    have k := (h.computed a).2 (Or.inr ha)
    rw [this] at k; cases k
  missing := by
    intro j hj
    rcases List.mem_append.1 hj with hj | hj
    · exact h.missing j hj
    · by_contra hc
      have := h'.missing j hj
      have k := (h.computed j).2 (Or.inl (by simpa using hc))
      rw [this] at k; cases k
  computed := by
    intro j
    rw [h'.computed, h.computed, List.mem_append, or_assoc]
  val := by
    intro j hj
    simp only [List.mem_append, not_or] at hj
    rw [h'.val j hj.2, h.val j hj.1]
  order := by
    intro l1 j l2 e d hd
    rcases List.append_eq_append_iff.1 e with ⟨a, e1, e2⟩ | ⟨a, e1, e2⟩
    · subst e1
      rcases h'.order a j l2 e2 d hd with k | k
      · rcases (h.computed d).1 k with k | k
        · exact Or.inl k
        · exact Or.inr (by simp [k])
      · exact Or.inr (by simp [k])
    · cases a with
      | nil =>
        simp only [List.append_nil, List.nil_append] at e1 e2
        subst e1
        rcases h'.order [] j l2 e2.symm d hd with k | k
        · rcases (h.computed d).1 k with k | k
          · exact Or.inl k
          · exact Or.inr k
        · simp at k
      | cons b a =>
        simp only [List.cons_append, List.cons.injEq] at e2
        obtain ⟨rfl, _⟩ := e2
        exact h.order l1 j a e1 d hd
  fresh := fun r hG hf => h'.fresh r hG (h.fresh r hG hf)

/-- Quantity `i` needs quantity `j`, directly or indirectly, or is it. -/
def Needs (G : Graph I V) : ℕ → ℕ → Prop := Relation.ReflTransGen (fun i d => d ∈ G.deps i)

/-- `Evals` keeps what is computed. -/
theorem Evals.mono {s s' : St I V} {l : List ℕ} (h : Evals G s s' l) {j : ℕ} (hj : s.computed j = true) :
    s'.computed j = true := (h.computed j).2 (Or.inl hj)

/-- `ensureHave` evaluates what is missing below quantity `i` and returns with `i` computed. -/
theorem ensureHave_ok (rank : ℕ → ℕ) (hG : G.Acyclic rank) (k : ℕ) (i : ℕ) (hk : rank i < k) (s : St I V) :
    ∃ s' l, ensureHave G k s i = .ok s' ∧ Evals G s s' l ∧ s'.computed i = true ∧ (∀ j ∈ l, Needs G i j) := by
  induction k generalizing i s with
  | zero => omega
  | succ k ih =>
    by_cases hc : s.computed i = true
    · exact ⟨s, [], by simp [ensureHave, hc], Evals.refl s, hc, by simp⟩
    · -- the loop over the dependencies
      have loop : ∀ ds : List ℕ, (∀ d ∈ ds, d ∈ G.deps i) → ∀ s : St I V,
          ∃ s' l, ds.foldlM (ensureHave G k) s = Except.ok s' ∧ Evals G s s' l ∧ (∀ d ∈ ds, s'.computed d = true) ∧
            (∀ j ∈ l, ∃ d ∈ ds, Needs G d j) := by
        intro ds
        induction ds with
        | nil => intro _ s; exact ⟨s, [], rfl, Evals.refl s, by simp, by simp⟩
        | cons d ds ihd =>
          intro hds s
          have hr := hG.lt i d (hds d (by simp))
          obtain ⟨s1, l1, e1, v1, c1, q1⟩ := ih d (by omega) s
          obtain ⟨s2, l2, e2, v2, c2, q2⟩ := ihd (fun x hx => hds x (by simp [hx])) s1
          refine ⟨s2, l1 ++ l2, by simp [List.foldlM, e1, bind, Except.bind, e2], v1.trans v2, ?_, ?_⟩
          · intro x hx
            rcases List.mem_cons.1 hx with rfl | hx
            · exact v2.mono c1
            · exact c2 x hx
          · intro j hj
            rcases List.mem_append.1 hj with hj | hj
            · exact ⟨d, by simp, q1 j hj⟩
            · obtain ⟨d', hd', k'⟩ := q2 j hj
              exact ⟨d', by simp [hd'], k'⟩
      obtain ⟨s1, l, e1, v, c1, q⟩ := loop (G.deps i) (fun _ h => h) s
      have hil : i ∉ l := by
        intro h
        obtain ⟨d, hd, nd⟩ := q i h
        have : ∀ a b, Needs G a b → rank b ≤ rank a := by
          intro a b h
          induction h with
          | refl => exact le_refl _
          | tail _ h ih => exact le_trans (le_of_lt (hG.lt _ _ h)) ih
        have := this d i nd
        have := hG.lt i d hd
        omega
      have hci : s1.computed i = false := by
        by_contra h
        rcases (v.computed i).1 (by simpa using h) with h | h
        · exact hc h
        · exact hil h
      refine ⟨_, l ++ [i], by simp only [ensureHave, hc, e1]; rfl, ?_, by simp, ?_⟩
      · refine v.trans ⟨rfl, rfl, rfl, by simp, by simpa using hci, ?_, ?_, ?_, ?_⟩
        · intro j
          by_cases hj : j = i
          · subst hj; simp
          · simp [Function.update_of_ne hj, hj]
        · intro j hj
          simp only [List.mem_singleton] at hj
          simp [Function.update_of_ne hj]
        · intro l1 j l2 e d hd
          have : j = i := by
            have : j ∈ [i] := by rw [e]; simp
            simpa using this
          subst this
          exact Or.inl (c1 d hd)
        · intro r hG' hf j hj
          simp only at hj ⊢
          by_cases hji : j = i
          · subst hji
            rw [Function.update_self, truth_eq]
            congr 1
            exact List.map_congr_left (fun d hd => hf d (c1 d hd))
          · rw [Function.update_of_ne hji]
            rw [Function.update_of_ne hji] at hj
            exact hf j hj
      · intro j hj
        rcases List.mem_append.1 hj with hj | hj
        · obtain ⟨d, hd, nd⟩ := q j hj
          exact Relation.ReflTransGen.head hd nd
        · simp only [List.mem_singleton] at hj
          subst hj
          exact Relation.ReflTransGen.refl

/-- The first loop of `refreshQuantities`. -/
theorem reset_ok (n : ℕ) (s : St I V) :
    (List.range n).foldl (fun s i => { s with computed := Function.update s.computed i false }) s =
      { s with computed := fun i => if i < n then false else s.computed i } := by
  induction n with
  | zero => simp
  | succ n ih =>
    rw [List.range_succ, List.foldl_append, ih]
    simp only [List.foldl_cons, List.foldl_nil]
    congr 1
    funext i
    by_cases hi : i = n
    · subst hi; simp
    · rw [Function.update_of_ne hi]
      have : i < n ↔ i < n + 1 := by omega
      simp [this]

/-- What `refreshQuantities` does. -/
theorem refresh_ok (rank : ℕ → ℕ) (hG : G.Acyclic rank) (s : St I V) :
    ∃ s' l, refresh G s = .ok s' ∧
      Evals G { s with computed := fun i => if i < G.n then false else s.computed i } s' l ∧
      (∀ i < G.n, 0 < s.req i → s'.computed i = true) ∧ (∀ j ∈ l, ∃ i < G.n, 0 < s.req i ∧ Needs G i j) := by
  unfold refresh
  simp only
  rw [reset_ok]
  generalize hs0 : ({ s with computed := fun i => if i < G.n then false else s.computed i } : St I V) = s0
  have hreq : s0.req = s.req := by rw [← hs0]
  have loop : ∀ ds : List ℕ, ∀ s1 : St I V, s1.req = s.req → ∃ s' l, ds.foldlM (ensureHaveIfRequired G) s1 =
      Except.ok s' ∧ Evals G s1 s' l ∧ (∀ d ∈ ds, 0 < s.req d → s'.computed d = true) ∧
        (∀ j ∈ l, ∃ d ∈ ds, 0 < s.req d ∧ Needs G d j) := by
    intro ds
    induction ds with
    | nil => intro s1 _; exact ⟨s1, [], rfl, Evals.refl s1, by simp, by simp⟩
    | cons d ds ih =>
      intro s1 h1
      by_cases hd : 0 < s.req d
      · obtain ⟨s2, l2, e2, v2, c2, q2⟩ := ensureHave_ok rank hG G.depth d (hG.depth d) s1
        obtain ⟨s3, l3, e3, v3, c3, q3⟩ := ih s2 (v2.req.trans h1)
        have e : ensureHaveIfRequired G s1 d = .ok s2 := by
          unfold ensureHaveIfRequired; rw [h1, if_pos hd, e2]
        refine ⟨s3, l2 ++ l3, by simp [List.foldlM, e, bind, Except.bind, e3], v2.trans v3, ?_, ?_⟩
        · intro x hx hr
          rcases List.mem_cons.1 hx with rfl | hx
          · exact v3.mono c2
          · exact c3 x hx hr
        · intro j hj
          rcases List.mem_append.1 hj with hj | hj
          · exact ⟨d, by simp, hd, q2 j hj⟩
          · obtain ⟨d', hd', k'⟩ := q3 j hj
            exact ⟨d', by simp [hd'], k'⟩
      · obtain ⟨s3, l3, e3, v3, c3, q3⟩ := ih s1 h1
        have e : ensureHaveIfRequired G s1 d = .ok s1 := by
          unfold ensureHaveIfRequired; rw [h1, if_neg hd]
        refine ⟨s3, l3, by simp [List.foldlM, e, bind, Except.bind, e3], v3, ?_, ?_⟩
        · intro x hx hr
          rcases List.mem_cons.1 hx with rfl | hx
          · exact absurd hr hd
          · exact c3 x hx hr
        · intro j hj
          obtain ⟨d', hd', k'⟩ := q3 j hj
          exact ⟨d', by simp [hd'], k'⟩
  obtain ⟨s', l, e, v, c, q⟩ := loop (List.range G.n) s0 hreq
  exact ⟨s', l, e, v, fun i hi hr => c i (by simpa using hi) hr, fun j hj => by
    obtain ⟨d, hd, k⟩ := q j hj
    exact ⟨d, by simpa using hd, k⟩⟩

/-- What `purgeQuantities` does, for the first `n` quantities. -/
theorem purge_prefix (n : ℕ) (s : St I V) :
    let s' := (List.range n).foldl (clearIfNotRequired G junk) s
    s'.input = s.input ∧ s'.req = s.req ∧ s'.log = s.log ∧
    (∀ i, s'.computed i = (s.computed i && !(decide (i < n) && G.clearable i && decide (s.req i ≤ 0)))) ∧
    (∀ i, s'.computed i = true → s'.val i = s.val i) := by
  induction n with
  | zero => simp
  | succ n ih =>
    rw [List.range_succ, List.foldl_append]
    simp only [List.foldl_cons, List.foldl_nil]
    obtain ⟨h1, h2, h3, h4, h5⟩ := ih
    generalize (List.range n).foldl (clearIfNotRequired G junk) s = s1 at h1 h2 h3 h4 h5
    unfold clearIfNotRequired
    have hn := h4 n
    simp only [lt_irrefl, decide_false, Bool.false_and, Bool.not_false, Bool.and_true] at hn
    by_cases hc : (G.clearable n && decide (s1.req n ≤ 0) && s1.computed n) = true
    · rw [if_pos hc]
      simp only [Bool.and_eq_true, decide_eq_true_eq] at hc
      refine ⟨h1, h2, h3, ?_, ?_⟩
      · intro i
        by_cases hi : i = n
        · subst hi
          have hr : s.req i ≤ 0 := h2 ▸ hc.1.2
          simp [hc.1.1, hr]
        · simp only [Function.update_of_ne hi]
          rw [h4]
          have : i < n ↔ i < n + 1 := by omega
          simp [this]
      · intro i hi
        by_cases hi' : i = n
        · subst hi'; simp at hi
        · simp only [Function.update_of_ne hi'] at hi ⊢
          exact h5 i hi
    · rw [if_neg hc]
      refine ⟨h1, h2, h3, ?_, h5⟩
      intro i
      by_cases hi : i = n
      · subst hi
        rw [hn]
        rw [hn, h2] at hc
        cases hs : s.computed i <;> cases hk : G.clearable i <;> simp_all
      · rw [h4]
        have : i < n ↔ i < n + 1 := by omega
        simp [this]

/-- Requires minus unrequires of quantity `i` in a history. -/
def net [DecidableEq I] (h : List (Event I)) (i : ℕ) : ℤ := (h.count (.require i) : ℤ) - h.count (.unrequire i)

/-- The inputs have not been changed since the last refresh (or since the construction). -/
def upToDate (h : List (Event I)) : Bool :=
  h.foldl (fun b e => match e with | .setInput _ => false | .refresh => true | _ => b) true

/-- The inputs after a history. -/
def lastInput (x : I) (h : List (Event I)) : I :=
  h.foldl (fun y e => match e with | .setInput z => z | _ => y) x

/-- The indices in the calls are those of quantities. -/
def Event.inRange (n : ℕ) : Event I → Prop
  | .require i => i < n
  | .unrequire i => i < n
  | _ => True

/-- What holds after a history `h` from the inputs `x`. -/
structure Inv [DecidableEq I] (rank : ℕ → ℕ) (hG : G.Acyclic rank) (x : I) (h : List (Event I)) (s : St I V) : Prop where
  input : s.input = lastInput x h
  req : ∀ i, s.req i = net h i
  range : ∀ i, s.computed i = true → i < G.n
  have_ : ∀ i, 0 < s.req i → s.computed i = true
  fresh : upToDate h = true → Fresh rank hG s

theorem needs_lt (rank : ℕ → ℕ) (hG : G.Acyclic rank) {i j : ℕ} (hi : i < G.n) (h : Needs G i j) : j < G.n := by
  induction h with
  | refl => exact hi
  | tail _ h ih => exact hG.closed _ ih _ h

theorem step_inv [DecidableEq I] (rank : ℕ → ℕ) (hG : G.Acyclic rank) (x : I) (h : List (Event I)) (s : St I V)
    (hs : Inv rank hG x h s) (e : Event I) (he : e.inRange G.n) :
    ∃ s', step G junk s e = .ok s' ∧ Inv rank hG x (h ++ [e]) s' := by
  have hcount : ∀ a : Event I, (h ++ [e]).count a = h.count a + if e = a then 1 else 0 := by
    intro a
    rw [List.count_append, List.count_singleton]
    simp
  cases e with
  | require i =>
    obtain ⟨s', l, e1, v, c, q⟩ := ensureHave_ok rank hG G.depth i (hG.depth i)
      { s with req := Function.update s.req i (s.req i + 1) }
    have hreq : ∀ j, s'.req j = net (h ++ [.require i]) j := by
      intro j
      rw [v.req]
      simp only [net, hcount]
      by_cases hj : j = i
      · subst hj
        simp only [Function.update_self, hs.req j, net]
        simp; omega
      · simp only [Function.update_of_ne hj, hs.req j, net]
        have : i ≠ j := fun k => hj k.symm
        simp [this]
    refine ⟨s', e1, ⟨?_, hreq, ?_, ?_, ?_⟩⟩
    · rw [v.input]; simp [hs.input, lastInput, List.foldl_append]
    · intro j hj
      rcases (v.computed j).1 hj with k | k
      · exact hs.range j k
      · exact needs_lt rank hG he (q j k)
    · intro j hj
      by_cases hji : j = i
      · subst hji; exact c
      · rw [v.req] at hj
        simp only [Function.update_of_ne hji] at hj
        exact v.mono (s := { s with req := Function.update s.req i (s.req i + 1) }) (hs.have_ j hj)
    · intro hu
      refine v.fresh rank hG ?_
      have : upToDate h = true := by simpa [upToDate, List.foldl_append] using hu
      exact hs.fresh this
  | unrequire i =>
    have e1 : (unrequire s i).1 = { s with req := Function.update s.req i (s.req i - 1) } := by
      unfold unrequire
      simp only
      split <;> rfl
    refine ⟨_, rfl, ?_⟩
    rw [e1]
    refine ⟨by simp [hs.input, lastInput, List.foldl_append], ?_, hs.range, ?_, ?_⟩
    · intro j
      simp only [net, hcount]
      by_cases hj : j = i
      · subst hj
        simp only [Function.update_self, hs.req j, net]
        simp; omega
      · simp only [Function.update_of_ne hj, hs.req j, net]
        have : i ≠ j := fun k => hj k.symm
        simp [this]
    · intro j hj
      simp only at hj ⊢
      by_cases hji : j = i
      · subst hji
        rw [Function.update_self] at hj
        exact hs.have_ j (by omega)
      · rw [Function.update_of_ne hji] at hj
        exact hs.have_ j hj
    · intro hu
      have : upToDate h = true := by simpa [upToDate, List.foldl_append] using hu
      exact hs.fresh this
  | refresh =>
    obtain ⟨s', l, e1, v, c, q⟩ := refresh_ok rank hG s
    refine ⟨s', e1, ⟨?_, ?_, ?_, ?_, ?_⟩⟩
    · rw [v.input]; simp [hs.input, lastInput, List.foldl_append]
    · intro j
      rw [v.req]
      simp [net, hcount, hs.req j]
    · intro j hj
      rcases (v.computed j).1 hj with k | k
      · simp only at k
        split at k
        · cases k
        · exact hs.range j k
      · obtain ⟨i, hi, _, nd⟩ := q j k
        exact needs_lt rank hG hi nd
    · intro j hj
      rw [v.req] at hj
      exact c j (hs.range j (hs.have_ j hj)) hj
    · intro _
      refine v.fresh rank hG ?_
      intro j hj
      simp only at hj
      split at hj
      · cases hj
      · rename_i hn
        exact absurd (hs.range j hj) hn
  | purge =>
    obtain ⟨h1, h2, h3, h4, h5⟩ := purge_prefix (G := G) (junk := junk) G.n s
    refine ⟨_, rfl, ⟨?_, ?_, ?_, ?_, ?_⟩⟩
    · unfold purge; rw [h1]; simp [hs.input, lastInput, List.foldl_append]
    · intro j
      unfold purge; rw [h2]
      simp [net, hcount, hs.req j]
    · intro j hj
      unfold purge at hj
      rw [h4] at hj
      simp only [Bool.and_eq_true] at hj
      exact hs.range j hj.1
    · intro j hj
      unfold purge at hj ⊢
      rw [h2] at hj
      rw [h4, hs.have_ j hj]
      have : ¬ s.req j ≤ 0 := by omega
      simp [this]
    · intro hu j hj
      have hu' : upToDate h = true := by simpa [upToDate, List.foldl_append] using hu
      unfold purge at hj ⊢
      rw [h5 j hj, h1]
      rw [h4] at hj
      simp only [Bool.and_eq_true] at hj
      exact hs.fresh hu' j hj.1
  | setInput y =>
    refine ⟨_, rfl, ⟨by simp [lastInput, List.foldl_append], ?_, hs.range, hs.have_, ?_⟩⟩
    · intro j
      simp [net, hcount, hs.req j]
    · intro hu
      simp [upToDate, List.foldl_append] at hu

theorem run_inv [DecidableEq I] (rank : ℕ → ℕ) (hG : G.Acyclic rank) (x : I) (h : List (Event I))
    (hh : ∀ e ∈ h, e.inRange G.n) : ∃ s, run G junk (init x junk) h = .ok s ∧ Inv rank hG x h s := by
  induction h using List.reverseRecOn with
  | nil =>
    refine ⟨_, rfl, ⟨rfl, ?_, ?_, ?_, ?_⟩⟩
    · intro i; simp [init, net]
    · intro i hi; simp [init] at hi
    · intro i hi; simp [init] at hi
    · intro _ i hi; simp [init] at hi
  | append_singleton h e ih =>
    obtain ⟨s, e1, hs⟩ := ih (fun a ha => hh a (by simp [ha]))
    obtain ⟨s', e2, hs'⟩ := step_inv (junk := junk) rank hG x h s hs e (hh e (by simp))
    refine ⟨s', ?_, hs'⟩
    unfold run at e1 ⊢
    rw [List.foldlM_append, e1]
    simp [bind, Except.bind, e2, pure, Except.pure]

/-- **C31.** After any history of calls, a quantity whose requires outnumber its unrequires is computed; if the inputs
have not changed since the last refresh, it has the right value for the current inputs. -/
theorem C31 [DecidableEq I] (rank : ℕ → ℕ) (hG : G.Acyclic rank) (x : I) (h : List (Event I))
    (hh : ∀ e ∈ h, e.inRange G.n) : ∃ s, run G junk (init x junk) h = .ok s ∧ ∀ i,
      h.count (.unrequire i) < h.count (.require i) →
        s.computed i = true ∧ (upToDate h = true → s.val i = truth G rank hG (lastInput x h) i) := by
  obtain ⟨s, e, hs⟩ := run_inv (junk := junk) rank hG x h hh
  refine ⟨s, e, fun i hi => ?_⟩
  have hc := hs.have_ i (by rw [hs.req i, net]; omega)
  exact ⟨hc, fun hu => hs.input ▸ hs.fresh hu i hc⟩

/-- **C31**, purging: only quantities whose requires do not outnumber their unrequires are dropped, all others keep
their values, and what is dropped is exactly what is clearable and not required. -/
theorem C31_purge [DecidableEq I] (rank : ℕ → ℕ) (hG : G.Acyclic rank) (x : I) (h : List (Event I))
    (hh : ∀ e ∈ h, e.inRange G.n) : ∃ s s', run G junk (init x junk) h = .ok s ∧
      run G junk (init x junk) (h ++ [.purge]) = .ok s' ∧ s'.input = s.input ∧ ∀ i,
        (s'.computed i = true ↔ s.computed i = true ∧
          (G.clearable i = false ∨ h.count (.unrequire i) < h.count (.require i))) ∧
        (s'.computed i = true → s'.val i = s.val i) := by
  obtain ⟨s, e, hs⟩ := run_inv (junk := junk) rank hG x h hh
  obtain ⟨h1, h2, h3, h4, h5⟩ := purge_prefix (G := G) (junk := junk) G.n s
  refine ⟨s, purge G junk s, e, ?_, h1, fun i => ⟨?_, h5 i⟩⟩
  · unfold run at e ⊢
    rw [List.foldlM_append, e]
    rfl
  · unfold purge
    rw [h4]
    have hr := hs.req i
    unfold net at hr
    by_cases hc : s.computed i = true
    · have hn := hs.range i hc
      simp only [hc, hn, decide_true, Bool.true_and, true_and, Bool.not_eq_true', Bool.and_eq_false_iff,
        decide_eq_false_iff_not]
      constructor
      · rintro (k | k)
        · exact Or.inl k
        · exact Or.inr (by omega)
      · rintro (k | k)
        · exact Or.inl k
        · exact Or.inr (by omega)
    · simp [hc]

/-- **C31**, refreshing: the evaluations `l` of a refresh are those of the required quantities and of what they need,
each exactly once and after everything it depends on; afterwards exactly these are computed. -/
theorem C31_refresh [DecidableEq I] (rank : ℕ → ℕ) (hG : G.Acyclic rank) (x : I) (h : List (Event I))
    (hh : ∀ e ∈ h, e.inRange G.n) : ∃ s s' l, run G junk (init x junk) h = .ok s ∧
      run G junk (init x junk) (h ++ [.refresh]) = .ok s' ∧ s'.log = s.log ++ l ∧ l.Nodup ∧
      (∀ l1 j l2, l = l1 ++ j :: l2 → ∀ d ∈ G.deps j, d ∈ l1) ∧
      (∀ j, j ∈ l ↔ ∃ i < G.n, h.count (.unrequire i) < h.count (.require i) ∧ Needs G i j) ∧
      (∀ j, s'.computed j = true ↔ j ∈ l) := by
  obtain ⟨s, e, hs⟩ := run_inv (junk := junk) rank hG x h hh
  obtain ⟨s', l, e1, v, c, q⟩ := refresh_ok rank hG s
  have hnone : ∀ j, (fun i => if i < G.n then false else s.computed i) j = false := by
    intro j
    by_contra k
    simp only at k
    split at k
    · simp at k
    · rename_i hn
      exact hn (hs.range j (by simpa using k))
  have hcomp : ∀ j, s'.computed j = true ↔ j ∈ l := by
    intro j
    rw [v.computed]
    simp only [hnone j]
    simp
  have hord : ∀ l1 j l2, l = l1 ++ j :: l2 → ∀ d ∈ G.deps j, d ∈ l1 := by
    intro l1 j l2 el d hd
    rcases v.order l1 j l2 el d hd with k | k
    · simp only [hnone d] at k; cases k
    · exact k
  refine ⟨s, s', l, e, ?_, v.log, v.nodup, hord, ?_, hcomp⟩
  · unfold run at e ⊢
    rw [List.foldlM_append, e]
    simp [bind, Except.bind, step, e1, pure, Except.pure]
  · intro j
    constructor
    · intro hj
      obtain ⟨i, hi, hr, nd⟩ := q j hj
      rw [hs.req i, net] at hr
      exact ⟨i, hi, by omega, nd⟩
    · rintro ⟨i, hi, hr, nd⟩
      have hi' := (hcomp i).1 (c i hi (by rw [hs.req i, net]; omega))
      induction nd with
      | refl => exact hi'
      | tail _ hd ih =>
        obtain ⟨l1, l2, el⟩ := List.append_of_mem ih
        have := hord l1 _ l2 el _ hd
        rw [el]
        simp [this]

/-- An unbalanced `unrequire()` throws and leaves the count at minus one: the next `require()` then does not protect
the quantity from `purgeQuantities()`. -/
theorem unrequire_leaves_count [DecidableEq I] (x : I) (rank : ℕ → ℕ) (hG : G.Acyclic rank) (i : ℕ) (hi : i < G.n)
    (hc : G.clearable i = true) : (unrequire (init x junk) i).2 = true ∧
      ∃ s, run G junk (init x junk) [.unrequire i, .require i, .purge] = .ok s ∧ s.computed i = false := by
  refine ⟨by simp [unrequire, init], ?_⟩
  obtain ⟨s, s', _, e', _, k⟩ := C31_purge (junk := junk) rank hG x [.unrequire i, .require i]
    (by intro e he; simp only [List.mem_cons, List.not_mem_nil, or_false] at he; rcases he with rfl | rfl <;> exact hi)
  refine ⟨s', e', ?_⟩
  by_contra hk
  have := ((k i).1.1 (by simpa using hk)).2
  simp [hc] at this

/-- Three quantities: areas from lengths, curvature from both. -/
def threeQ : Graph ℕ ℕ :=
  ⟨3, fun i => if i = 1 then [0] else if i = 2 then [1, 0] else [], fun i x vs => i + 10 * x + vs.sum, fun _ => true, 3⟩

theorem threeQ_acyclic : threeQ.Acyclic (fun i => if i = 1 then 1 else if i = 2 then 2 else 0) where
  lt i d hd := by
    simp only [threeQ] at hd
    split_ifs at hd <;> simp_all
    rcases hd with rfl | rfl <;> simp
  depth i := by
    simp only [threeQ]
    split_ifs <;> omega
  closed i _ d hd := by
    simp only [threeQ] at hd ⊢
    split_ifs at hd <;> simp_all
    rcases hd with rfl | rfl <;> simp

example : ∃ s, run threeQ (fun _ => 7) (init 1 (fun _ => 7)) [.require 2, .setInput 5, .purge, .refresh] = .ok s ∧
    s.computed 2 = true ∧ s.val 2 = 203 ∧ s.val 2 = truth threeQ _ threeQ_acyclic 5 2 := by
  obtain ⟨s, e, k⟩ := C31 (junk := fun _ => 7) _ threeQ_acyclic 1 [.require 2, .setInput 5, .purge, .refresh]
    (by intro e he; simp only [List.mem_cons, List.not_mem_nil, or_false] at he
        rcases he with rfl | rfl | rfl | rfl <;> simp [Event.inRange, threeQ])
  obtain ⟨h1, h2⟩ := k 2 (by decide)
  refine ⟨s, e, h1, ?_, h2 rfl⟩
  have : (run threeQ (fun _ => 7) (init 1 (fun _ => 7)) [.require 2, .setInput 5, .purge, .refresh]).toOption.map
    (fun s => s.val 2) = some 203 := by decide +kernel
  rw [e] at this
  simpa [Except.toOption] using this

end GC.Dep
