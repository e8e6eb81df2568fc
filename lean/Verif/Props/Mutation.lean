import Verif.Mutation
import Verif.Props.Split
import Verif.Props.Flip
import Verif.MeshInsertFace
import Verif.MeshCheck

/-!
# C44: policies of a `MutationManager` are called once around each mutation and can be removed
-/

namespace GC.Mut

variable {M P X T : Type} {O : Ops M P X} {kinds : ℕ → Kind → Bool} {pre : ℕ → Kind → M → ℕ → Option P → T}

/-- The effect of the before-callbacks of the policies `L`. -/
def beforeEffect (O : Ops M P X) (pre : ℕ → Kind → M → ℕ → Option P → T) (k : Kind) (arg : ℕ) (t : Option P)
    (s : Mgr M P T) (L : List ℕ) : Mgr M P T :=
  { s with
    data := fun p => if p ∈ L then pre p k s.mesh arg t else s.data p
    own := if 0 ∈ L then (allowed s.splittable arg, mayCollapse O s arg, allowed s.flippable arg) else s.own
    log := s.log ++ L.map (fun p => .before k p arg t) }

theorem foldBefore (k : Kind) (arg : ℕ) (t : Option P) (L : List ℕ) (s : Mgr M P T) (h : ∀ p ∈ L, p ∈ s.all) :
    L.foldlM (callBefore O pre k arg t) s = Except.ok (beforeEffect O pre k arg t s L) := by
  induction L generalizing s with
  | nil => simp [beforeEffect, pure, Except.pure]
  | cons p L ih =>
    have hp := h p (by simp)
    simp only [List.foldlM_cons, callBefore, hp, not_true_eq_false, if_false, bind, Except.bind]
    refine (ih _ ?_).trans ?_
    · exact fun q hq => h q (by simp [hq])
    simp only [beforeEffect, List.mem_cons, List.map_cons, List.append_assoc, List.cons_append, List.nil_append]
    congr 2
    · funext q
      by_cases hq : q ∈ L
      · simp [hq]
      · by_cases hqp : q = p
        · subst hqp; simp [hq]
        · simp [hq, hqp]
    · by_cases h0 : (0 : ℕ) ∈ L
      · simp [h0, mayCollapse]
      · by_cases hp0 : p = 0
        · subst hp0; simp [h0]
        · have : ¬ (0 : ℕ) = p := fun k => hp0 k.symm
          simp [h0, hp0, this]

/-- The effect of the after-callback of policy 0 on the constraints. -/
def inheritAll (O : Ops M P X) (res : List ℕ) (s : Mgr M P T) : Mgr M P T := match res with
  | [h1, h2] => { s with
      splittable := inherit s.splittable (O.edge h1) (O.edge h2) s.own.1
      collapsible := inherit s.collapsible (O.edge h1) (O.edge h2) s.own.2.1
      flippable := inherit s.flippable (O.edge h1) (O.edge h2) s.own.2.2 }
  | _ => s

theorem inheritAll_fields (res : List ℕ) (s : Mgr M P T) : (inheritAll O res s).mesh = s.mesh ∧
    (inheritAll O res s).all = s.all ∧ (inheritAll O res s).lists = s.lists ∧ (inheritAll O res s).data = s.data ∧
    (inheritAll O res s).own = s.own ∧ (inheritAll O res s).log = s.log ∧
    (inheritAll O res s).repositionable = s.repositionable ∧
    (inheritAll O res s).splittableFaces = s.splittableFaces := by
  unfold inheritAll
  split <;> simp

/-- The effect of the after-callbacks of the policies `L`. -/
def afterEffect (O : Ops M P X) (k : Kind) (res : List ℕ) (t : Option P) (s : Mgr M P T) (L : List ℕ) : Mgr M P T :=
  { (if 0 ∈ L then inheritAll O res s else s) with log := s.log ++ L.map (fun p => .after k p res t (s.data p)) }

theorem callAfter_zero (k : Kind) (res : List ℕ) (t : Option P) (s : Mgr M P T) (hp : 0 ∈ s.all) :
    callAfter O k res t s 0 =
      .ok (inheritAll O res { s with log := s.log ++ [Call.after k 0 res t (s.data 0)] }) := by
  unfold callAfter
  simp only [hp, not_true_eq_false, if_false, if_true]
  match res with
  | [] => rfl
  | [_] => rfl
  | [_, _] => rfl
  | _ :: _ :: _ :: _ => rfl

theorem foldAfter (k : Kind) (res : List ℕ) (t : Option P) (L : List ℕ) (s : Mgr M P T) (h : ∀ p ∈ L, p ∈ s.all)
    (hn : L.Nodup) : L.foldlM (callAfter O k res t) s = Except.ok (afterEffect O k res t s L) := by
  induction L generalizing s with
  | nil => simp [afterEffect, pure, Except.pure]
  | cons p L ih =>
    have hp := h p (by simp)
    obtain ⟨hpL, hn'⟩ := List.nodup_cons.1 hn
    simp only [List.foldlM_cons, bind, Except.bind]
    by_cases hp0 : p = 0
    · subst hp0
      rw [callAfter_zero k res t s hp]
      simp only
      obtain ⟨_, f2, _, f4, _, f6, _, _⟩ := inheritAll_fields (O := O) res
        { s with log := s.log ++ [Call.after k 0 res t (s.data 0)] }
      refine (ih _ (fun q hq => ?_) hn').trans ?_
      · rw [f2]; exact h q (by simp [hq])
      unfold afterEffect
      rw [if_neg hpL, if_pos (by simp), f4, f6]
      congr 1
      unfold inheritAll
      split <;> simp
    · simp only [callAfter, hp, not_true_eq_false, if_false, hp0]
      refine (ih _ ?_ hn').trans ?_
      · exact fun q hq => h q (by simp [hq])
      have hiff : (0 ∈ p :: L) ↔ 0 ∈ L := by
        have : ¬ (0 : ℕ) = p := fun k => hp0 k.symm
        simp [this]
      unfold afterEffect
      congr 1
      by_cases h0 : (0 : ℕ) ∈ L
      · rw [if_pos h0, if_pos (hiff.2 h0)]
        unfold inheritAll
        split <;> simp
      · rw [if_neg h0, if_neg (fun k => h0 (hiff.1 k))]
        simp

/-- Policy `p` is registered in history `h` and not removed afterwards; policy 0 always is. -/
def active (h : List (Event P X)) (p : ℕ) : Prop :=
  p = 0 ∨ ∃ h1 h2, h = h1 ++ .register p :: h2 ∧ .remove p ∉ h2

/-- The addresses registered in a history. -/
def registered (h : List (Event P X)) : List ℕ := h.filterMap (fun e => match e with | .register p => some p | _ => none)

/-- A sensible history: every registered object is a new one, and the manager's own policy is neither registered again
nor removed (users have no handle of it). -/
structure Sensible (h : List (Event P X)) : Prop where
  fresh : (0 :: registered h).Nodup
  keep0 : Event.remove 0 ∉ h

/-- No policy for face splits is removed. -/
def KeepsFaceSplit (kinds : ℕ → Kind → Bool) (h : List (Event P X)) : Prop :=
  ∀ p, Event.remove p ∈ h → isKind kinds p .faceSplit = false

/-- The lists after a history. -/
structure Inv (kinds : ℕ → Kind → Bool) (h : List (Event P X)) (s : Mgr M P T) : Prop where
  all_nodup : s.all.Nodup
  all_mem : ∀ p, p ∈ s.all ↔ active h p
  list_nodup : ∀ k, (s.lists k).Nodup
  list_mem : ∀ k, (k = .faceSplit → KeepsFaceSplit kinds h) → ∀ p, p ∈ s.lists k ↔ active h p ∧ isKind kinds p k = true
  list_face : ∀ p ∈ s.lists .faceSplit, p = 0 ∨ p ∈ registered h

theorem mem_registered (h : List (Event P X)) (p : ℕ) : p ∈ registered h ↔ Event.register p ∈ h := by
  unfold registered
  rw [List.mem_filterMap]
  constructor
  · rintro ⟨e, he, k⟩
    cases e <;> simp at k
    subst k; exact he
  · intro k; exact ⟨_, k, rfl⟩

theorem active_registered {h : List (Event P X)} {p : ℕ} (k : active h p) : p = 0 ∨ p ∈ registered h := by
  rcases k with k | ⟨h1, h2, e, _⟩
  · exact Or.inl k
  · right; rw [mem_registered, e]; simp

theorem active_append (h : List (Event P X)) (e : Event P X) (p : ℕ) :
    active (h ++ [e]) p ↔ e = .register p ∨ (active h p ∧ (e = .remove p → p = 0)) := by
  constructor
  · rintro (k | ⟨h1, h2, k, hr⟩)
    · exact Or.inr ⟨Or.inl k, fun _ => k⟩
    · rcases List.eq_nil_or_concat h2 with rfl | ⟨h2', a, rfl⟩
      · have := List.append_inj' k rfl
        simp at this
        exact Or.inl this.2
      · have k' : h ++ [e] = (h1 ++ .register p :: h2') ++ [a] := by rw [k]; simp
        obtain ⟨k1, k2⟩ := List.append_inj' k' rfl
        simp at k2
        subst k2
        refine Or.inr ⟨Or.inr ⟨h1, h2', k1, fun k => hr (by simp [k])⟩, ?_⟩
        rintro rfl
        exact absurd (by simp) hr
  · rintro (rfl | ⟨k | ⟨h1, h2, rfl, hr⟩, hne⟩)
    · exact Or.inr ⟨h, [], rfl, by simp⟩
    · exact Or.inl k
    · by_cases he : e = .remove p
      · exact Or.inl (hne he)
      · refine Or.inr ⟨h1, h2 ++ [e], by simp, ?_⟩
        simp only [List.mem_append, List.mem_singleton, not_or]
        exact ⟨hr, fun k => he k.symm⟩

/-- The parts of the manager the policies' administration looks at. -/
def SameLists (s s' : Mgr M P T) : Prop := s'.all = s.all ∧ s'.lists = s.lists

theorem afterEffect_lists (k : Kind) (res : List ℕ) (t : Option P) (s : Mgr M P T) (L : List ℕ) :
    SameLists s (afterEffect O k res t s L) := by
  obtain ⟨_, f2, f3, _, _, _, _, _⟩ := inheritAll_fields (O := O) res s
  unfold afterEffect SameLists
  split
  · exact ⟨f2, f3⟩
  · exact ⟨rfl, rfl⟩

/-- What a mutation does when all its policies exist. `mb` is the mesh the before-callbacks see. -/
theorem perform_calls (s : Mgr M P T) (mu : Mutation P X) (hl : ∀ p ∈ s.lists mu.kind, p ∈ s.all)
    (hn : (s.lists mu.kind).Nodup) :
    (∃ x m a, perform O pre s mu = .error x ∧ (O.flip m a = .error x ∨ O.split m a = .error x ∨
        O.back m a = .error x ∨ O.collapse m a = .error x ∨ O.insert m a = .error x)) ∨
    ∃ s' r, perform O pre s mu = .ok (s', r) ∧ SameLists s s' ∧
      (∀ res, r = some res → ∃ mb,
        (mu.kind ≠ .flip → mb = s.mesh) ∧
        (mu.kind = .flip → ∃ m1 b, O.flip s.mesh mu.arg = .ok (m1, true) ∧ O.flip m1 mu.arg = .ok (mb, b)) ∧
        s'.log = s.log ++ (s.lists mu.kind).map (fun p => .before mu.kind p mu.arg mu.param) ++
          [.mutate mu.kind mu.arg] ++
          (if mu.kind = .reposition then [] else
            (s.lists mu.kind).map (fun p => .after mu.kind p res mu.param (pre p mu.kind mb mu.arg mu.param)))) ∧
      (r = none → mu.kind ≠ .collapse → s'.log = s.log) := by
  have hmap : ∀ (k : Kind) (arg : ℕ) (t : Option P) (mb : M) (res : List ℕ) (L : List ℕ) (d : ℕ → T),
      L.map (fun p => Call.after k p res t (if p ∈ L then pre p k mb arg t else d p)) =
        L.map (fun p => (Call.after k p res t (pre p k mb arg t) : Call P T)) := by
    intro k arg t mb res L d
    exact List.map_congr_left (fun p hp => by simp [hp])
  cases mu with
  | reposition v x =>
    right
    simp only [Mutation.kind, Mutation.arg, Mutation.param] at hl hn ⊢
    unfold perform repositionVertex allBefore
    by_cases ha : allowed s.repositionable v = true
    · simp only [ha, Bool.not_true, Bool.false_eq_true, if_false]
      rw [foldBefore]
      rotate_left
      · exact hl
      refine ⟨_, _, rfl, ⟨rfl, rfl⟩, ?_, by simp⟩
      intro res _
      exact ⟨s.mesh, fun _ => rfl, by simp, by simp [Mgr.mutated, beforeEffect]⟩
    · simp only [ha]
      exact ⟨s, none, by simp, ⟨rfl, rfl⟩, by simp, by simp⟩
  | flip e =>
    simp only [Mutation.kind, Mutation.arg, Mutation.param] at hl hn ⊢
    unfold perform flipEdge allBefore allAfter
    by_cases ha : allowed s.flippable e = true
    · simp only [ha, Bool.not_true, Bool.false_eq_true, if_false]
      cases h1 : O.flip s.mesh e with
      | error x => left; exact ⟨x, s.mesh, e, rfl, Or.inl h1⟩
      | ok r1 =>
        obtain ⟨m1, b1⟩ := r1
        cases b1 with
        | false =>
          right
          exact ⟨{ s with mesh := m1 }, none, rfl, ⟨rfl, rfl⟩, by simp, by simp⟩
        | true =>
          simp only [Bool.not_true, Bool.false_eq_true, if_false]
          cases h2 : O.flip m1 e with
          | error x => left; exact ⟨x, m1, e, rfl, Or.inl h2⟩
          | ok r2 =>
            obtain ⟨m2, b2⟩ := r2
            simp only
            rw [foldBefore]
            rotate_left
            · exact hl
            simp only [beforeEffect]
            cases h3 : O.flip m2 e with
            | error x => left; exact ⟨x, m2, e, rfl, Or.inl h3⟩
            | ok r3 =>
              obtain ⟨m3, b3⟩ := r3
              right
              simp only [Mgr.mutated]
              rw [foldAfter]
              rotate_left
              · exact hl
              · exact hn
              refine ⟨_, _, rfl, ?_, ?_, by simp⟩
              · exact afterEffect_lists _ _ _ _ _
              · intro res hres
                injection hres with hres
                subst hres
                refine ⟨m2, by simp, fun _ => ⟨m1, b2, rfl, h2⟩, ?_⟩
                simp only [afterEffect]
                rw [hmap]
                simp
    · right
      simp only [ha]
      exact ⟨s, none, by simp, ⟨rfl, rfl⟩, by simp, by simp⟩
  | split e t x =>
    simp only [Mutation.kind, Mutation.arg, Mutation.param] at hl hn ⊢
    unfold perform splitEdge allBefore allAfter
    by_cases ha : allowed s.splittable e = true
    · simp only [ha, Bool.not_true, Bool.false_eq_true, if_false]
      rw [foldBefore]
      rotate_left
      · exact hl
      simp only [beforeEffect]
      cases h1 : O.split s.mesh e with
      | error y => left; exact ⟨y, s.mesh, e, rfl, Or.inr (Or.inl h1)⟩
      | ok r1 =>
        obtain ⟨m1, front⟩ := r1
        simp only
        cases h2 : O.back (O.place m1 (O.vertex m1 front) x) front with
        | error y => left; exact ⟨y, _, front, rfl, Or.inr (Or.inr (Or.inl h2))⟩
        | ok back =>
          right
          simp only [Mgr.mutated]
          rw [foldAfter]
          rotate_left
          · exact hl
          · exact hn
          refine ⟨_, _, rfl, afterEffect_lists _ _ _ _ _, ?_, by simp⟩
          intro res hres
          injection hres with hres
          subst hres
          refine ⟨s.mesh, fun _ => rfl, by simp, ?_⟩
          simp only [afterEffect]
          rw [hmap]
          simp
    · right
      simp only [ha]
      exact ⟨s, none, by simp, ⟨rfl, rfl⟩, by simp, by simp⟩
  | collapse e t x =>
    simp only [Mutation.kind, Mutation.arg, Mutation.param] at hl hn ⊢
    unfold perform collapseEdge allBefore allAfter
    by_cases ha : mayCollapse O s e = true
    · simp only [ha, Bool.not_true, Bool.false_eq_true, if_false]
      rw [foldBefore]
      rotate_left
      · exact hl
      simp only [beforeEffect]
      cases h1 : O.collapse s.mesh e with
      | error y => left; exact ⟨y, s.mesh, e, rfl, Or.inr (Or.inr (Or.inr (Or.inl h1)))⟩
      | ok r1 =>
        obtain ⟨m1, ov⟩ := r1
        cases ov with
        | none => right; exact ⟨_, none, rfl, ⟨rfl, rfl⟩, by simp, by simp⟩
        | some v =>
          right
          simp only [Mgr.mutated]
          rw [foldAfter]
          rotate_left
          · exact hl
          · exact hn
          refine ⟨_, _, rfl, afterEffect_lists _ _ _ _ _, ?_, by simp⟩
          intro res hres
          injection hres with hres
          subst hres
          refine ⟨s.mesh, fun _ => rfl, by simp, ?_⟩
          simp only [afterEffect]
          rw [hmap]
          simp
    · right
      simp only [ha]
      exact ⟨s, none, by simp, ⟨rfl, rfl⟩, by simp, by simp⟩
  | faceSplit f t x =>
    simp only [Mutation.kind, Mutation.arg, Mutation.param] at hl hn ⊢
    unfold perform splitFace allBefore allAfter
    by_cases ha : allowed s.splittableFaces f = true
    · simp only [ha, Bool.not_true, Bool.false_eq_true, if_false]
      rw [foldBefore]
      rotate_left
      · exact hl
      simp only [beforeEffect]
      cases h1 : O.insert s.mesh f with
      | error y => left; exact ⟨y, s.mesh, f, rfl, Or.inr (Or.inr (Or.inr (Or.inr h1)))⟩
      | ok r1 =>
        obtain ⟨m1, v⟩ := r1
        right
        simp only [Mgr.mutated]
        rw [foldAfter]
        rotate_left
        · exact hl
        · exact hn
        refine ⟨_, _, rfl, afterEffect_lists _ _ _ _ _, ?_, by simp⟩
        intro res hres
        injection hres with hres
        subst hres
        refine ⟨s.mesh, fun _ => rfl, by simp, ?_⟩
        simp only [afterEffect]
        rw [hmap]
        simp
    · right
      simp only [ha]
      exact ⟨s, none, by simp, ⟨rfl, rfl⟩, by simp, by simp⟩

/-- Mutations never change the lists of policies. -/
theorem foldlM_lists (g : Mgr M P T → ℕ → Res (Mgr M P T)) (hg : ∀ s p s', g s p = .ok s' → SameLists s s')
    (L : List ℕ) (s s' : Mgr M P T) (h : L.foldlM g s = Except.ok s') : SameLists s s' := by
  induction L generalizing s with
  | nil =>
    simp only [List.foldlM_nil, pure, Except.pure, Except.ok.injEq] at h
    subst h; exact ⟨rfl, rfl⟩
  | cons p L ih =>
    simp only [List.foldlM_cons, bind, Except.bind] at h
    cases e : g s p with
    | error x => rw [e] at h; cases h
    | ok s1 =>
      rw [e] at h
      have a := hg s p s1 e
      have b := ih s1 h
      exact ⟨b.1.trans a.1, b.2.trans a.2⟩

theorem callBefore_lists (k : Kind) (arg : ℕ) (t : Option P) (s : Mgr M P T) (p : ℕ) (s' : Mgr M P T)
    (h : callBefore O pre k arg t s p = .ok s') : SameLists s s' := by
  unfold callBefore at h
  split at h
  · cases h
  · injection h with h; subst h; exact ⟨rfl, rfl⟩

theorem callAfter_lists (k : Kind) (res : List ℕ) (t : Option P) (s : Mgr M P T) (p : ℕ) (s' : Mgr M P T)
    (h : callAfter O k res t s p = .ok s') : SameLists s s' := by
  unfold callAfter at h
  simp only at h
  split at h
  · cases h
  · split at h
    · split at h <;> (injection h with h; subst h; exact ⟨rfl, rfl⟩)
    · injection h with h; subst h; exact ⟨rfl, rfl⟩

theorem allBefore_lists {k : Kind} {arg : ℕ} {t : Option P} {s s' : Mgr M P T}
    (h : allBefore O pre k arg t s = .ok s') : SameLists s s' :=
  foldlM_lists _ (fun s p s' h => callBefore_lists k arg t s p s' h) _ _ _ h

theorem allAfter_lists {k : Kind} {res : List ℕ} {t : Option P} {s s' : Mgr M P T}
    (h : allAfter O k res t s = .ok s') : SameLists s s' :=
  foldlM_lists _ (fun s p s' h => callAfter_lists k res t s p s' h) _ _ _ h

theorem SameLists.trans {s s' s'' : Mgr M P T} (a : SameLists s s') (b : SameLists s' s'') : SameLists s s'' :=
  ⟨b.1.trans a.1, b.2.trans a.2⟩

theorem perform_lists (s : Mgr M P T) (mu : Mutation P X) (s' : Mgr M P T) (r : Option (List ℕ))
    (h : perform O pre s mu = .ok (s', r)) : SameLists s s' := by
  cases mu with
  | reposition v x =>
    simp only [perform, repositionVertex] at h
    split at h
    · cases h; exact ⟨rfl, rfl⟩
    · split at h
      · cases h
      · rename_i s1 e1
        cases h
        have a := allBefore_lists e1
        exact ⟨a.1, a.2⟩
  | flip e =>
    simp only [perform, flipEdge] at h
    split at h
    · cases h; exact ⟨rfl, rfl⟩
    split at h
    · cases h
    split at h
    · cases h; exact ⟨rfl, rfl⟩
    split at h
    · cases h
    split at h
    · cases h
    rename_i m2 _ _ s1 e1
    split at h
    · cases h
    split at h
    · cases h
    rename_i s2 e2
    cases h
    have a := allBefore_lists e1
    have b := allAfter_lists e2
    exact ⟨b.1.trans a.1, b.2.trans a.2⟩
  | split e t x =>
    simp only [perform, splitEdge] at h
    split at h
    · cases h; exact ⟨rfl, rfl⟩
    split at h
    · cases h
    rename_i s1 e1
    split at h
    · cases h
    split at h
    · cases h
    split at h
    · cases h
    rename_i s2 e2
    cases h
    have a := allBefore_lists e1
    have b := allAfter_lists e2
    exact ⟨b.1.trans a.1, b.2.trans a.2⟩
  | collapse e t x =>
    simp only [perform, collapseEdge] at h
    split at h
    · cases h; exact ⟨rfl, rfl⟩
    split at h
    · cases h
    rename_i s1 e1
    split at h
    · cases h
    · cases h
      have a := allBefore_lists e1
      exact ⟨a.1, a.2⟩
    split at h
    · cases h
    rename_i s2 e2
    cases h
    have a := allBefore_lists e1
    have b := allAfter_lists e2
    exact ⟨b.1.trans a.1, b.2.trans a.2⟩
  | faceSplit f t x =>
    simp only [perform, splitFace] at h
    split at h
    · cases h; exact ⟨rfl, rfl⟩
    split at h
    · cases h
    rename_i s1 e1
    split at h
    · cases h
    split at h
    · cases h
    rename_i s2 e2
    cases h
    have a := allBefore_lists e1
    have b := allAfter_lists e2
    exact ⟨b.1.trans a.1, b.2.trans a.2⟩

theorem registered_append (h : List (Event P X)) (e : Event P X) :
    registered (h ++ [e]) = registered h ++ (match e with | .register p => [p] | _ => []) := by
  unfold registered
  rw [List.filterMap_append]
  cases e <;> simp

theorem Sensible.left {h : List (Event P X)} {e : Event P X} (hs : Sensible (h ++ [e])) : Sensible h := by
  refine ⟨?_, fun k => hs.keep0 (by simp [k])⟩
  have := hs.fresh
  rw [registered_append, ← List.cons_append] at this
  exact (List.nodup_append.1 this).1

/-- After every sensible history the lists hold the active policies of their kind, once each. -/
theorem run_inv (m : M) (d : ℕ → T) (h : List (Event P X)) (hs : Sensible h) (s : Mgr M P T)
    (hr : run O kinds pre (init kinds m d) h = .ok s) : Inv kinds h s := by
  induction h using List.reverseRecOn generalizing s with
  | nil =>
    simp only [run, List.foldlM_nil, pure, Except.pure, Except.ok.injEq] at hr
    subst hr
    have hact : ∀ p, active ([] : List (Event P X)) p ↔ p = 0 := by
      intro p; simp [active]
    refine ⟨by simp [init, register], ?_, ?_, ?_, ?_⟩
    · intro p; rw [hact]; simp [init, register]
    · intro k; simp only [init, register]; split <;> simp
    · intro k _ p
      rw [hact]
      simp only [init, register]
      split
      · rename_i hk
        simp only [List.nil_append, List.mem_singleton]
        constructor
        · rintro rfl; exact ⟨rfl, hk⟩
        · exact fun k => k.1
      · rename_i hk
        simp only [List.not_mem_nil, false_iff, not_and]
        rintro rfl; exact hk
    · intro p hp
      simp only [init, register, isKind] at hp
      simp at hp
  | append_singleton h e ih =>
    unfold run at hr
    rw [List.foldlM_append] at hr
    cases hh : h.foldlM (step O kinds pre) (init kinds m d) with
    | error x => rw [hh] at hr; cases hr
    | ok s0 =>
      rw [hh] at hr
      have I := ih hs.left s0 hh
      simp only [bind, Except.bind, List.foldlM_cons, List.foldlM_nil] at hr
      have same : ∀ s', SameLists s0 s' → (∀ p, e ≠ .register p) → (∀ p, e ≠ .remove p) → Inv kinds (h ++ [e]) s' := by
        intro s' hsl h1 h2
        have hact : ∀ p, active (h ++ [e]) p ↔ active h p := by
          intro p; rw [active_append]; simp [h1 p, h2 p]
        refine ⟨hsl.1 ▸ I.all_nodup, fun p => by rw [hsl.1, I.all_mem, hact], fun k => hsl.2 ▸ I.list_nodup k, ?_, ?_⟩
        · intro k hk p
          rw [hsl.2, hact]
          refine I.list_mem k (fun e q hq => hk e q ?_) p
          simp [hq]
        · intro p hp
          rw [hsl.2] at hp
          rcases I.list_face p hp with k | k
          · exact Or.inl k
          · right; rw [registered_append]; simp [k]
      cases e with
      | register p =>
        simp only [step, pure, Except.pure] at hr
        injection hr with hr
        subst hr
        have hfr := hs.fresh
        rw [registered_append, ← List.cons_append] at hfr
        have hnew := (List.nodup_append.1 hfr).2.2
        have hp0 : p ≠ 0 := fun k => hnew 0 (by simp) p (by simp) k.symm
        have hpr : p ∉ registered h := fun k => hnew p (by simp [k]) p (by simp) rfl
        have hna : ¬ active h p := fun k => by
          rcases active_registered k with k | k
          · exact hp0 k
          · exact hpr k
        have hact : ∀ q, active (h ++ [.register p]) q ↔ active h q ∨ q = p := by
          intro q
          rw [active_append]
          constructor
          · rintro (k | k)
            · injection k with k; exact Or.inr k.symm
            · exact Or.inl k.1
          · rintro (k | rfl)
            · exact Or.inr ⟨k, by simp⟩
            · exact Or.inl rfl
        have hface : p ∉ s0.lists .faceSplit := fun k => by
          rcases I.list_face p k with k | k
          · exact hp0 k
          · exact hpr k
        have hlist : ∀ k, p ∉ s0.lists k := by
          intro k
          by_cases hk : k = .faceSplit
          · subst hk; exact hface
          · intro hm
            exact hna ((I.list_mem k (fun e => absurd e hk) p).1 hm).1
        refine ⟨?_, ?_, ?_, ?_, ?_⟩
        · simp only [register]
          refine List.nodup_append.2 ⟨I.all_nodup, by simp, ?_⟩
          rintro a ha b hb rfl
          simp only [List.mem_singleton] at hb
          subst hb
          exact hna ((I.all_mem _).1 ha)
        · intro q
          simp only [register, List.mem_append, List.mem_singleton]
          rw [I.all_mem, hact]
        · intro k
          simp only [register]
          split
          · refine List.nodup_append.2 ⟨I.list_nodup k, by simp, ?_⟩
            rintro a ha b hb rfl
            simp only [List.mem_singleton] at hb
            subst hb
            exact hlist k ha
          · exact I.list_nodup k
        · intro k hk q
          have hm := I.list_mem k (fun e q hq => hk e q (by simp [hq])) q
          rw [hact]
          simp only [register]
          split
          · rename_i hkp
            simp only [List.mem_append, List.mem_singleton, hm]
            constructor
            · rintro (k | rfl)
              · exact ⟨Or.inl k.1, k.2⟩
              · exact ⟨Or.inr rfl, hkp⟩
            · rintro ⟨k | rfl, k'⟩
              · exact Or.inl ⟨k, k'⟩
              · exact Or.inr rfl
          · rename_i hkp
            rw [hm]
            constructor
            · rintro ⟨k, k'⟩; exact ⟨Or.inl k, k'⟩
            · rintro ⟨k | rfl, k'⟩
              · exact ⟨k, k'⟩
              · exact absurd k' hkp
        · intro q hq
          rw [registered_append]
          simp only [register] at hq
          split at hq
          · rcases List.mem_append.1 hq with k | k
            · rcases I.list_face q k with k | k
              · exact Or.inl k
              · right; simp [k]
            · right
              simp only [List.mem_singleton] at k
              simp [k]
          · rcases I.list_face q hq with k | k
            · exact Or.inl k
            · right; simp [k]
      | remove p =>
        simp only [step, pure, Except.pure] at hr
        injection hr with hr
        subst hr
        have hp0 : p ≠ 0 := fun k => hs.keep0 (by simp [k])
        have hact : ∀ q, active (h ++ [.remove p]) q ↔ active h q ∧ q ≠ p := by
          intro q
          rw [active_append]
          constructor
          · rintro (k | ⟨k, k'⟩)
            · cases k
            · refine ⟨k, ?_⟩
              rintro rfl
              exact hp0 (k' rfl)
          · rintro ⟨k, k'⟩
            refine Or.inr ⟨k, fun e => ?_⟩
            injection e with e
            exact absurd e.symm k'
        refine ⟨I.all_nodup.erase p, ?_, ?_, ?_, ?_⟩
        · intro q
          simp only [remove]
          rw [I.all_nodup.mem_erase_iff, I.all_mem, hact, and_comm]
        · intro k
          cases k <;> simp only [remove] <;> first | exact (I.list_nodup _).filter _ | exact I.list_nodup _
        · intro k hk q
          have hm := I.list_mem k (fun e q hq => hk e q (by simp [hq])) q
          rw [hact]
          by_cases hkf : k = .faceSplit
          · subst hkf
            have hkp := hk rfl p (by simp)
            simp only [remove]
            rw [hm]
            constructor
            · rintro ⟨k, k'⟩
              refine ⟨⟨k, ?_⟩, k'⟩
              rintro rfl
              rw [hkp] at k'; cases k'
            · rintro ⟨⟨k, _⟩, k'⟩; exact ⟨k, k'⟩
          · have e : (remove s0 p).lists k = (s0.lists k).filter (· ≠ p) := by
              cases k <;> first | rfl | exact absurd rfl hkf
            rw [e]
            simp only [List.mem_filter, hm, ne_eq, decide_not, Bool.not_eq_true', decide_eq_false_iff_not]
            tauto
        · intro q hq
          rw [registered_append]
          rcases I.list_face q hq with k | k
          · exact Or.inl k
          · right; simp [k]
      | constrain a b c d' e' =>
        simp only [step, pure, Except.pure] at hr
        injection hr with hr
        subst hr
        exact same _ ⟨rfl, rfl⟩ (by simp) (by simp)
      | mutate mu =>
        simp only [step, pure, Except.pure] at hr
        cases hp : perform O pre s0 mu with
        | error x => rw [hp] at hr; cases hr
        | ok r =>
          obtain ⟨s1, r⟩ := r
          rw [hp] at hr
          simp only at hr
          injection hr with hr
          subst hr
          exact same _ (perform_lists s0 mu s1 r hp) (by simp) (by simp)

/-- **C44**, the part that holds. After any sensible history, a mutation fails only if the mesh operation fails. If it is
carried out, then exactly the policies of its kind that are registered and not removed get a before-callback, once each;
then the mutation happens; then the same policies get an after-callback, once each, with the data their own
before-callback computed (there are no after-callbacks for moving a vertex). If it is refused, no callback runs.
Missing for the full claim: removed face split policies (`C44_fails`), and collapses that turn out to be impossible
(`C44_collapse_fails`). -/
theorem C44_partial (m : M) (d : ℕ → T) (h : List (Event P X)) (hs : Sensible h) (s : Mgr M P T)
    (hr : run O kinds pre (init kinds m d) h = .ok s) (mu : Mutation P X)
    (hf : mu.kind = .faceSplit → KeepsFaceSplit kinds h) :
    (∃ x m a, perform O pre s mu = .error x ∧ (O.flip m a = .error x ∨ O.split m a = .error x ∨
        O.back m a = .error x ∨ O.collapse m a = .error x ∨ O.insert m a = .error x)) ∨
    ∃ s' r, ∃ L : List ℕ, perform O pre s mu = .ok (s', r) ∧
      L.Nodup ∧ (∀ p, p ∈ L ↔ active h p ∧ isKind kinds p mu.kind = true) ∧
      (∀ res, r = some res → ∃ mb,
        (mu.kind ≠ .flip → mb = s.mesh) ∧
        (mu.kind = .flip → ∃ m1 b, O.flip s.mesh mu.arg = .ok (m1, true) ∧ O.flip m1 mu.arg = .ok (mb, b)) ∧
        s'.log = s.log ++ L.map (fun p => .before mu.kind p mu.arg mu.param) ++ [.mutate mu.kind mu.arg] ++
          (if mu.kind = .reposition then [] else
            L.map (fun p => .after mu.kind p res mu.param (pre p mu.kind mb mu.arg mu.param)))) ∧
      (r = none → mu.kind ≠ .collapse → s'.log = s.log) := by
  have I := run_inv m d h hs s hr
  have hl : ∀ p ∈ s.lists mu.kind, p ∈ s.all := fun p hp => (I.all_mem p).2 ((I.list_mem _ hf p).1 hp).1
  rcases perform_calls (O := O) (pre := pre) s mu hl (I.list_nodup _) with k | ⟨s', r, k1, _, k2, k3⟩
  · exact Or.inl k
  · exact Or.inr ⟨s', r, s.lists mu.kind, k1, I.list_nodup _, I.list_mem _ hf, k2, k3⟩

/-- **C44**, constraints: constrained elements are left alone, and nobody is called. -/
theorem C44_constraints (s : Mgr M P T) (e : ℕ) (t : P) (x : X) :
    (∀ c, s.flippable = some c → c e = false → perform O pre s (.flip e) = .ok (s, none)) ∧
    (∀ c, s.splittable = some c → c e = false → perform O pre s (.split e t x) = .ok (s, none) ∧
      splitEdgeAt O pre s e x = .ok (s, none)) ∧
    (∀ c, s.collapsible = some c → c e = false → perform O pre s (.collapse e t x) = .ok (s, none) ∧
      collapseEdgeAt O pre s e x = .ok (s, none)) ∧
    (∀ c, s.repositionable = some c → (∃ v ∈ O.ends s.mesh e, c v = false) →
      perform O pre s (.collapse e t x) = .ok (s, none) ∧ collapseEdgeAt O pre s e x = .ok (s, none)) ∧
    (∀ c, s.repositionable = some c → c e = false → perform O pre s (.reposition e x) = .ok (s, none)) ∧
    (∀ c, s.splittableFaces = some c → c e = false → perform O pre s (.faceSplit e t x) = .ok (s, none)) := by
  refine ⟨?_, ?_, ?_, ?_, ?_, ?_⟩
  · intro c hc h
    simp [perform, flipEdge, allowed, hc, h]
  · intro c hc h
    simp [perform, splitEdge, splitEdgeAt, allowed, hc, h]
  · intro c hc h
    simp [perform, collapseEdge, collapseEdgeAt, mayCollapse, allowed, hc, h]
  · rintro c hc ⟨v, hv, h⟩
    have : mayCollapse O s e = false := by
      unfold mayCollapse
      split
      · rfl
      · have : ((O.ends s.mesh e).all (allowed s.repositionable)) = false := by
          rw [List.all_eq_false]
          exact ⟨v, hv, by simp [allowed, hc, h]⟩
        rw [this]
        rfl
    simp [perform, collapseEdge, collapseEdgeAt, this]
  · intro c hc h
    simp [perform, repositionVertex, allowed, hc, h]
  · intro c hc h
    simp [perform, splitFace, allowed, hc, h]

/-- **C44**, inheritance: after a split both pieces have the constraints of the old edge, and no other edge changes. -/
theorem C44_inherit (m : M) (d : ℕ → T) (h : List (Event P X)) (hs : Sensible h) (s : Mgr M P T)
    (hr : run O kinds pre (init kinds m d) h = .ok s) (e : ℕ) (t : P) (x : X) (s' : Mgr M P T) (h1 h2 : ℕ)
    (hp : perform O pre s (.split e t x) = .ok (s', some [h1, h2])) :
    (∀ i, allowed s'.splittable i =
      if s.splittable ≠ none ∧ (i = O.edge h1 ∨ i = O.edge h2) then allowed s.splittable e else allowed s.splittable i) ∧
    (∀ i, allowed s'.flippable i =
      if s.flippable ≠ none ∧ (i = O.edge h1 ∨ i = O.edge h2) then allowed s.flippable e else allowed s.flippable i) ∧
    (∀ i, allowed s'.collapsible i =
      if s.collapsible ≠ none ∧ (i = O.edge h1 ∨ i = O.edge h2) then mayCollapse O s e else allowed s.collapsible i) ∧
    s'.repositionable = s.repositionable ∧ s'.splittableFaces = s.splittableFaces := by
  have I := run_inv m d h hs s hr
  have hm : ∀ p, p ∈ s.lists .split ↔ active h p ∧ isKind kinds p .split = true := I.list_mem .split (by simp)
  have hl : ∀ p ∈ s.lists .split, p ∈ s.all := fun p hp => (I.all_mem p).2 ((hm p).1 hp).1
  have h0 : 0 ∈ s.lists .split := (hm 0).2 ⟨Or.inl rfl, by simp [isKind]⟩
  have inh : ∀ (a : Option (ℕ → Bool)) (e1 e2 : ℕ) (b : Bool) (i : ℕ), allowed (inherit a e1 e2 b) i =
      if a ≠ none ∧ (i = e1 ∨ i = e2) then b else allowed a i := by
    intro a e1 e2 b i
    cases a with
    | none => simp [inherit, allowed]
    | some c =>
      simp only [inherit, allowed, Option.map_some]
      by_cases k2 : i = e2
      · subst k2; simp
      · by_cases k1 : i = e1
        · subst k1; simp [Function.update_of_ne k2]
        · simp [Function.update_of_ne k2, Function.update_of_ne k1, k1, k2]
  simp only [perform, splitEdge, allBefore, allAfter] at hp
  split at hp
  · cases hp
  rw [foldBefore (h := by exact hl)] at hp
  simp only [beforeEffect] at hp
  split at hp
  · cases hp
  rename_i m1 front e1
  split at hp
  · cases hp
  rename_i back e2
  simp only [Mgr.mutated] at hp
  rw [foldAfter (h := by exact hl) (hn := by exact I.list_nodup _)] at hp
  injection hp with hp
  simp only [Prod.mk.injEq, Option.some.injEq, List.cons.injEq, and_true] at hp
  obtain ⟨rfl, rfl, rfl⟩ := hp
  simp only [afterEffect, h0, if_true, inheritAll]
  exact ⟨inh _ _ _ _, inh _ _ _ _, inh _ _ _ _, trivial, trivial⟩

/-- **C44 fails** for face splits: `removePolicy` forgets the list of face split policies, so the next face split calls
an object that has been deleted. This holds for every mesh and every policy that handles face splits. -/
theorem C44_fails (m : M) (d : ℕ → T) (p : ℕ) (hp : p ≠ 0) (hk : kinds p .faceSplit = true) (f : ℕ) (t : P) (x : X) :
    ∃ s, run O kinds pre (init kinds m d) [.register p, .remove p] = .ok s ∧
      perform O pre s (.faceSplit f t x) = .error .ub := by
  refine ⟨_, rfl, ?_⟩
  have hne : ¬ (0 : ℕ) = p := fun k => hp k.symm
  simp [perform, splitFace, allBefore, remove, register, init, isKind, hp, hk, allowed, callBefore, hne, bind, Except.bind]

/-- **C44 fails** for collapses that the mesh refuses: the before-callback runs, although no mutation follows and the
after-callback never runs. -/
theorem C44_collapse_fails (m : M) (d : ℕ → T) (p : ℕ) (hp : p ≠ 0) (hk : kinds p .collapse = true) (e : ℕ) (t : P)
    (x : X) (hc : O.collapse m e = .ok (m, none)) :
    ∃ s s', run O kinds pre (init kinds m d) [.register p] = .ok s ∧
      perform O pre s (.collapse e t x) = .ok (s', none) ∧ s'.log = [.before .collapse p e (some t)] := by
  let s1 : Mgr M P T := register kinds (init kinds m d) p
  refine ⟨s1, { s1 with
    data := Function.update d p (pre p .collapse m e (some t))
    log := [.before .collapse p e (some t)] }, rfl, ?_, rfl⟩
  simp [s1, perform, collapseEdge, allBefore, register, init, isKind, hp, hk, mayCollapse, allowed, callBefore, bind,
    Except.bind, hc, pure, Except.pure]

/-- **C56**, the part that holds: a split at a position gives every callback the parameter of the point of the edge
nearest to that position. -/
theorem C56_partial (m : M) (d : ℕ → T) (h : List (Event P X)) (hs : Sensible h) (s : Mgr M P T)
    (hr : run O kinds pre (init kinds m d) h = .ok s) (e : ℕ) (x : X) (s' : Mgr M P T) (res : List ℕ)
    (hp : splitEdgeAt O pre s e x = .ok (s', some res)) :
    ∃ L : List ℕ, (∀ p, p ∈ L ↔ active h p ∧ isKind kinds p .split = true) ∧
      s'.log = s.log ++ L.map (fun p => .before .split p e (some (O.nearest s.mesh e x))) ++ [.mutate .split e] ++
        L.map (fun p => .after .split p res (some (O.nearest s.mesh e x))
          (pre p .split s.mesh e (some (O.nearest s.mesh e x)))) := by
  unfold splitEdgeAt at hp
  split at hp
  · cases hp
  · have hp' : perform O pre s (.split e (O.nearest s.mesh e x) x) = .ok (s', some res) := hp
    rcases C44_partial m d h hs s hr (.split e (O.nearest s.mesh e x) x) (by simp [Mutation.kind]) with
      ⟨y, _, _, k, _⟩ | ⟨s1, r1, L, k1, _, k2, k3, _⟩
    · rw [hp'] at k; cases k
    · rw [hp'] at k1
      injection k1 with k1
      simp only [Prod.mk.injEq] at k1
      obtain ⟨rfl, rfl⟩ := k1
      obtain ⟨mb, k4, _, k5⟩ := k3 res rfl
      have := k4 (by simp [Mutation.kind])
      subst this
      exact ⟨L, k2, by simpa [Mutation.kind, Mutation.arg, Mutation.param] using k5⟩

/-- **C56 fails** for collapses: the nearest parameter is stored in a variable that shadows the one that is passed on, so
the callbacks get −1 whatever the position. -/
theorem C56_fails (m : M) (d : ℕ → T) (p : ℕ) (hp : p ≠ 0) (hk : kinds p .collapse = true) (e : ℕ)
    (x : X) (m' : M) (v : ℕ) (hc : O.collapse m e = .ok (m', some v)) :
    ∃ s s', run O kinds pre (init kinds m d) [.register p] = .ok s ∧
      collapseEdgeAt O pre s e x = .ok (s', some [v]) ∧
      s'.log = [.before .collapse p e (some O.minusOne), .mutate .collapse e,
        .after .collapse p [v] (some O.minusOne) (pre p .collapse m e (some O.minusOne))] := by
  let s1 : Mgr M P T := register kinds (init kinds m d) p
  refine ⟨s1, { s1 with
    mesh := O.place m' v x
    data := Function.update d p (pre p .collapse m e (some O.minusOne))
    log := [.before .collapse p e (some O.minusOne), .mutate .collapse e,
        .after .collapse p [v] (some O.minusOne) (pre p .collapse m e (some O.minusOne))] }, rfl, ?_, rfl⟩
  simp [s1, collapseEdgeAt, collapseEdge, allBefore, register, init, isKind, hp, hk, mayCollapse, allowed, callBefore,
    bind, Except.bind, hc, pure, Except.pure, allAfter, callAfter, Mgr.mutated]

/-! ### The mesh as `Ops` -/

/-- The operations of `ManifoldSurfaceMesh`, without a geometry. Collapses are left open; split
parameters are passed through without being looked at, so any type will do. -/
def meshOps (collapse : Mesh → ℕ → Res (Mesh × Option ℕ)) : Ops Mesh ℤ Unit where
  flip := fun m e => m.flip e false
  split := fun m e => m.splitEdgeTriangular e
  back := fun m h => match m.prevOrbitFace h with
    | .error x => .error x
    | .ok a => match m.prevOrbitFace (twin a) with
      | .error x => .error x
      | .ok b => .ok (twin b)
  collapse := collapse
  insert := fun m f => m.insertVertex f
  ends := fun m e => [m.heVertex (2 * e), m.tip (2 * e)]
  edge := Mesh.heEdge
  vertex := fun m h => m.heVertex h
  place := fun m _ _ => m
  shift := fun m _ _ => m
  nearest := fun _ _ _ => 0
  minusOne := -1

/-- **C44**, inheritance on the mesh: the two halfedges handed to the after-callbacks of a split are the two pieces of
the old edge, seen from the new vertex: one ends at the old tip, the other at the old tail. So with `C44_inherit` the
edges that get the constraints of the old edge `e` are its two pieces `e` and the new edge `nEFill`. -/
theorem C44_pieces (c) (m : Mesh) (hv : m.Valid) (e : ℕ) (he : m.heLive (2 * e))
    (hfaces : m.heFace (2 * e) ≠ m.heFace (2 * e + 1))
    (tri1 : m.heNext (m.heNext (m.heNext (2 * e))) = 2 * e)
    (tri2 : m.ext (2 * e + 1) ∨ m.heNext (m.heNext (m.heNext (2 * e + 1))) = 2 * e + 1)
    (m' : Mesh) (front : ℕ) (hsp : (meshOps c).split m e = .ok (m', front)) :
    ∃ back, (meshOps c).back m' front = .ok back ∧
      (meshOps c).edge front = e ∧ (meshOps c).edge back = m.nEFill ∧
      m'.heVertex front = m.nVFill ∧ m'.tip front = m.tip (2 * e) ∧
      m'.heVertex back = m.nVFill ∧ m'.tip back = m.heVertex (2 * e) := by
  simp only [meshOps] at hsp ⊢
  rcases C07_splitEdgeTriangular_partial m hv e he hfaces tri1 tri2 with
    ⟨k, _⟩ | ⟨m1, d, k, hv', _, _, _, _, _, t1, t2, _, _, hvx, _, n1, n2, l3, l0⟩
  · rw [hsp] at k; cases k
  · rw [hsp] at k
    injection k with k
    simp only [Prod.mk.injEq] at k
    obtain ⟨rfl, rfl⟩ := k
    have hN := hv.he_fill
    have tw0 : twin m.nHeFill = m.nHeFill + 1 := by
      rw [show m.nHeFill = 2 * m.nEFill by omega, twin_two_mul]
    have tw3 : twin (m.nHeFill + 3) = m.nHeFill + 2 := by
      rw [show m.nHeFill + 3 = 2 * (m.nEFill + 1) + 1 by omega, twin_two_mul_add]; omega
    have lT : m'.heLive (m.nHeFill + 2) := by rw [← tw3]; exact hv'.twin_live _ l3
    have lB : m'.heLive (m.nHeFill + 1) := by rw [← tw0]; exact hv'.twin_live _ l0
    have lF : m'.heLive (2 * e) := by rw [← n1]; exact hv'.next_live _ l3
    obtain ⟨a, a1, a2, a3⟩ := hv'.prevOrbitFace_ok lF
    obtain ⟨b, b1, b2, b3⟩ := hv'.prevOrbitFace_ok lT
    have ea : a = m.nHeFill + 3 := hv'.next_inj a2 l3 (by rw [a3, n1])
    have eb : b = m.nHeFill := hv'.next_inj b2 l0 (by rw [b3, n2])
    subst ea
    subst eb
    simp only [a1, tw3, b1, tw0]
    refine ⟨_, rfl, ?_, ?_, (hvx _ lF).2 (by simp), t1, (hvx _ lB).2 (by simp), t2⟩
    · simp [Mesh.heEdge]
    · unfold Mesh.heEdge; omega

/-- **C44 (flip).** The mesh the before-callbacks of a flip see is not the mesh before the flip: the two halfedges of the
edge have been exchanged by the test flip and its undoing. -/
theorem C44_flip_mesh (c) (m : Mesh) (hv : m.Valid) (e : ℕ) (he : m.heLive (2 * e)) (m1 mb : Mesh) (b : Bool)
    (h1 : (meshOps c).flip m e = .ok (m1, true)) (h2 : (meshOps c).flip m1 e = .ok (mb, b)) :
    mb.heVertex (2 * e) = m.heVertex (2 * e + 1) ∧ mb.heVertex (2 * e + 1) = m.heVertex (2 * e) := by
  obtain ⟨m2, k1, k2⟩ := C02_flip_twice m hv e he m1 h1
  rw [show (meshOps c).flip m1 e = m1.flip e false from rfl, k1] at h2
  injection h2 with h2
  simp only [Prod.mk.injEq] at h2
  obtain ⟨rfl, _⟩ := h2
  have lT : m.heLive (2 * e + 1) := by rw [← twin_two_mul]; exact hv.twin_live _ he
  have a := (k2 _ he).2.1
  have b := (k2 _ lT).2.1
  rw [Equiv.swap_apply_left] at a
  rw [Equiv.swap_apply_right] at b
  exact ⟨b, a⟩

/-! ### Concrete cases -/

/-- Two users' policies: 1 handles splits and flips, 2 handles face splits. -/
def exKinds : ℕ → Kind → Bool := fun p k => (p == 1 && (k == .split || k == .flip)) || (p == 2 && k == .faceSplit)

def exHistory : List (Event ℤ Unit) :=
  [.register 1, .register 2, .constrain (some fun e => e != 1) none (some fun e => e != 0) none none,
    .mutate (.split 0 5 ()), .remove 1]

example : Sensible exHistory := ⟨by decide, by simp [exHistory]⟩

example : KeepsFaceSplit exKinds exHistory := by
  intro p hp
  simp [exHistory] at hp
  subst hp
  decide

/-- The history runs on the two triangles of a square; edge 0 is split and policy 1 sees it. -/
example : ∃ s : Mgr Mesh ℤ ℕ, run (meshOps (fun m _ => .ok (m, none))) exKinds
    (fun p _ m _ _ => p + m.nV) (init exKinds Mesh.square (fun _ => 0)) exHistory = .ok s ∧ s.log.length = 5 ∧
    s.lists .split = [0] := ⟨_, rfl, rfl, rfl⟩

end GC.Mut
