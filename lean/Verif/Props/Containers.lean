import Verif.Containers
import Verif.Props.Compress

/-! # Property C17: containers through histories -/

namespace GC
namespace Pool
variable {T : Type}

/-- Where the element in slot `i` is after the events, and which value its entry of container `c` should have,
if it was `x` before: the value last assigned to that element in that container. `none` if the element is
deleted on the way (or an event is impossible). This specification knows nothing of how containers store
their values. -/
def follow (s : Pool T) : List (Event T) → ℕ → ℕ → T → Option (ℕ × T)
  | [], _, i, x => some (i, x)
  | e :: es, c, i, x => match s.step e with
    | none => none
    | some s' => match e with
      | .delete j => if j = i then none else s'.follow es c i x
      | .compress => s'.follow es c (s.idx i) x
      | .assign c' j v => s'.follow es c i (if c' = c ∧ j = i then v else x)
      | .fillAll c' v => s'.follow es c i (if c' = c then v else x)
      | _ => s'.follow es c i x

/-- The default value of container `c`. -/
def dflt (s : Pool T) (c : ℕ) : Option T := (s.cs[c]?).map (·.dflt)

/-- How one event acts on an existing element: its new slot and the new value of container `c` there. -/
theorem step_read {s s' : Pool T} {e : Event T} {c i : ℕ} {x : T} (h : s.Inv) (hs : s.step e = some s')
    (hl : s.live i = true) (hr : s.read c i = some x) :
    match e with
    | .delete j => j ≠ i → s'.live i = true ∧ s'.read c i = some x
    | .compress => s'.live (s.idx i) = true ∧ s'.read c (s.idx i) = some x
    | .assign c' j v => s'.live i = true ∧ s'.read c i = some (if c' = c ∧ j = i then v else x)
    | .fillAll c' v => s'.live i = true ∧ s'.read c i = some (if c' = c then v else x)
    | _ => s'.live i = true ∧ s'.read c i = some x := by
  unfold read at hr
  obtain ⟨y, hy, hyx⟩ : ∃ y, s.cs[c]? = some y ∧ y.data i = x := by
    cases hc : s.cs[c]? with
    | none => rw [hc] at hr; simp at hr
    | some y => rw [hc] at hr; exact ⟨y, rfl, by simpa using hr⟩
  have hlt := h.live_lt i hl
  have hym := List.mem_of_getElem? hy
  have hcl : c < s.cs.length := (List.getElem?_eq_some_iff.1 hy).1
  cases e with
  | alloc k newCap =>
    simp only [step] at hs
    by_cases hc : s.cap ≤ newCap ∧ s.fill + k ≤ newCap ∧ 0 < k
    swap
    · rw [if_neg hc] at hs; exact absurd hs (by simp)
    rw [if_pos hc] at hs
    injection hs with hs; subst hs
    refine ⟨by dsimp; rw [hl]; rfl, ?_⟩
    unfold read; dsimp
    by_cases c2 : newCap = s.cap
    · rw [if_pos c2, hy]; simp [hyx]
    · rw [if_neg c2, List.getElem?_map, hy]
      have := h.size y hym
      have := h.fill_le
      simp only [Option.map_some, Container.expand]
      rw [if_pos (by omega), hyx]
  | delete j =>
    simp only [step] at hs
    split_ifs at hs
    injection hs with hs; subst hs
    intro hji
    refine ⟨by dsimp; rw [hl]; simp; exact fun e => hji e.symm, ?_⟩
    unfold read; dsimp; rw [hy]; simp [hyx]
  | compress =>
    simp only [step] at hs
    injection hs with hs; subst hs
    refine ⟨by dsimp; simpa using idx_lt h hl, ?_⟩
    unfold read; dsimp
    rw [List.getElem?_map, hy]
    simp only [Option.map_some, Container.permute, applyPermutation]
    rw [perm_get h hl, hyx]
  | create d =>
    simp only [step] at hs
    injection hs with hs; subst hs
    refine ⟨hl, ?_⟩
    unfold read; dsimp
    rw [List.getElem?_append_left hcl, hy]; simp [hyx]
  | copy c' =>
    simp only [step] at hs
    split at hs
    · injection hs with hs; subst hs
      refine ⟨hl, ?_⟩
      unfold read; dsimp
      rw [List.getElem?_append_left hcl, hy]; simp [hyx]
    · exact absurd hs (by simp)
  | assign c' j v =>
    simp only [step] at hs
    split at hs
    · rename_i z hz
      split_ifs at hs
      injection hs with hs; subst hs
      refine ⟨hl, ?_⟩
      unfold read; dsimp
      by_cases cc : c' = c
      · subst cc
        rw [hz] at hy; injection hy with hy; subst hy
        rw [List.getElem?_set_self hcl]
        simp only [Option.map_some, Container.write, true_and]
        by_cases ji : j = i
        · rw [if_pos ji, if_pos ji.symm]
        · rw [if_neg ji, if_neg (fun e => ji e.symm), hyx]
      · rw [List.getElem?_set_ne cc, hy]; simp [cc, hyx]
    · exact absurd hs (by simp)
  | fillAll c' v =>
    simp only [step] at hs
    split at hs
    · rename_i z hz
      injection hs with hs; subst hs
      refine ⟨hl, ?_⟩
      unfold read; dsimp
      by_cases cc : c' = c
      · subst cc
        rw [hz] at hy; injection hy with hy; subst hy
        rw [List.getElem?_set_self hcl]
        simp only [Option.map_some, Container.fillAll]
        simp [hl]
      · rw [List.getElem?_set_ne cc, hy]; simp [cc, hyx]
    · exact absurd hs (by simp)
  | setDefault c' d =>
    simp only [step] at hs
    split at hs
    · rename_i z hz
      injection hs with hs; subst hs
      refine ⟨hl, ?_⟩
      unfold read; dsimp
      by_cases cc : c' = c
      · subst cc
        rw [hz] at hy; injection hy with hy; subst hy
        rw [List.getElem?_set_self hcl]
        simp only [Option.map_some, Container.setDefault]
        have := (le_foldl_max ((List.range s.fill).filter s.live) 0).2 i (List.mem_filter.2 ⟨List.mem_range.2 hlt, hl⟩)
        rw [if_neg (by omega), hyx]
      · rw [List.getElem?_set_ne cc, hy]; simp [hyx]
    · exact absurd hs (by simp)

end Pool

open Pool

/-- **C17 (values).** Take any state of a pool that satisfies the invariant (every state reached from a new
mesh does, `C17_reachable`), an element `i` and a container `c` reading `x` there. After any history the
container reads, at the slot where that element then is, the value last assigned to it (`follow`). -/
theorem C17_values {T : Type} (s s' : Pool T) (h : s.Inv) (es : List (Event T)) (c i : ℕ) (x : T) (hl : s.live i = true)
    (hr : s.read c i = some x) (hs : s.run es = some s') (j : ℕ) (y : T) (hf : s.follow es c i x = some (j, y)) :
    s'.live j = true ∧ s'.read c j = some y := by
  induction es generalizing s i x with
  | nil =>
    simp only [run, Option.some.injEq] at hs
    simp only [follow, Option.some.injEq, Prod.mk.injEq] at hf
    rw [← hs, ← hf.1, ← hf.2]; exact ⟨hl, hr⟩
  | cons e es ih =>
    simp only [run] at hs
    simp only [follow] at hf
    cases h1 : s.step e with
    | none => rw [h1] at hs; exact absurd hs (by simp)
    | some s1 =>
      rw [h1] at hs hf
      have k := step_read h h1 hl hr
      have hi := step_inv h h1
      cases e with
      | delete j' =>
        simp only at hf
        split_ifs at hf with hji
        exact ih s1 hi i x (k hji).1 (k hji).2 hs hf
      | _ => exact ih s1 hi _ _ k.1 k.2 hs hf

/-- **C17 (identity).** Distinct elements that survive stay distinct. -/
theorem C17_distinct {T : Type} (s : Pool T) (h : s.Inv) (es : List (Event T)) (c c' i i' : ℕ) (x x' : T)
    (hl : s.live i = true) (hl' : s.live i' = true) (hne : i ≠ i') (j j' : ℕ) (y y' : T)
    (hf : s.follow es c i x = some (j, y)) (hf' : s.follow es c' i' x' = some (j', y')) : j ≠ j' := by
  induction es generalizing s i i' x x' with
  | nil =>
    simp only [follow, Option.some.injEq, Prod.mk.injEq] at hf hf'
    rw [← hf.1, ← hf'.1]; exact hne
  | cons e es ih =>
    simp only [follow] at hf hf'
    cases h1 : s.step e with
    | none => rw [h1] at hf; exact absurd hf (by simp)
    | some s1 =>
      rw [h1] at hf hf'
      have hi := step_inv h h1
      -- existing elements that are not deleted are still live
      have lv : ∀ k, s.live k = true → match e with
          | .delete j => j ≠ k → s1.live k = true
          | .compress => s1.live (s.idx k) = true
          | _ => s1.live k = true := by
        intro k hk
        cases e with
        | alloc n newCap =>
          simp only [step] at h1
          by_cases hc : s.cap ≤ newCap ∧ s.fill + n ≤ newCap ∧ 0 < n
          · rw [if_pos hc] at h1; injection h1 with h1; subst h1; dsimp; rw [hk]; rfl
          · rw [if_neg hc] at h1; exact absurd h1 (by simp)
        | delete j =>
          simp only [step] at h1
          split_ifs at h1
          injection h1 with h1; subst h1
          intro hjk; dsimp; rw [hk]; simp; exact fun e => hjk e.symm
        | compress =>
          simp only [step] at h1
          injection h1 with h1; subst h1
          dsimp; simpa using idx_lt h hk
        | create d => simp only [step] at h1; injection h1 with h1; subst h1; exact hk
        | copy c =>
          simp only [step] at h1
          split at h1
          · injection h1 with h1; subst h1; exact hk
          · exact absurd h1 (by simp)
        | assign c j v =>
          simp only [step] at h1
          split at h1
          · split_ifs at h1; injection h1 with h1; subst h1; exact hk
          · exact absurd h1 (by simp)
        | fillAll c v =>
          simp only [step] at h1
          split at h1
          · injection h1 with h1; subst h1; exact hk
          · exact absurd h1 (by simp)
        | setDefault c v =>
          simp only [step] at h1
          split at h1
          · injection h1 with h1; subst h1; exact hk
          · exact absurd h1 (by simp)
      cases e with
      | delete d =>
        simp only at hf hf'
        split_ifs at hf with a
        split_ifs at hf' with b
        exact ih s1 hi i i' x x' (lv i hl a) (lv i' hl' b) hne hf hf'
      | compress =>
        refine ih s1 hi _ _ x x' (lv i hl) (lv i' hl') ?_ hf hf'
        intro he
        exact hne (Nat.count_injective (p := fun j => s.live j = true) hl hl' he)
      | _ => exact ih s1 hi _ _ _ _ (lv i hl) (lv i' hl') hne hf hf'

/-- **C17 (new elements).** Elements handed out by an allocation exist and read the default value in every
container, whatever happened before. -/
theorem C17_new_default {T : Type} (s s' : Pool T) (h : s.Inv) (k newCap : ℕ) (hs : s.step (.alloc k newCap) = some s')
    (i : ℕ) (h1 : s.fill ≤ i) (h2 : i < s.fill + k) (c : ℕ) (hc : c < s.cs.length) :
    s'.live i = true ∧ ∃ d, s.dflt c = some d ∧ s'.read c i = some d := by
  simp only [step] at hs
  by_cases hg : s.cap ≤ newCap ∧ s.fill + k ≤ newCap ∧ 0 < k
  swap
  · rw [if_neg hg] at hs; exact absurd hs (by simp)
  rw [if_pos hg] at hs
  injection hs with hs; subst hs
  refine ⟨by dsimp; simp [h1, h2], s.cs[c].dflt, by unfold dflt; simp [hc], ?_⟩
  have hm : s.cs[c] ∈ s.cs := List.getElem_mem hc
  unfold Pool.read; dsimp
  by_cases c2 : newCap = s.cap
  · rw [if_pos c2, List.getElem?_eq_getElem hc]
    simp only [Option.map_some]
    rw [h.spare _ hm i h1 (by omega)]
  · rw [if_neg c2, List.getElem?_map, List.getElem?_eq_getElem hc]
    simp only [Option.map_some, Container.expand]
    split_ifs with hlt
    · rw [h.size _ hm] at hlt; rw [h.spare _ hm i h1 hlt]
    · rfl

/-- **C17 (defaults).** The default value of a container changes only by `setDefault` on it, and is what the
container was created with. -/
theorem C17_default_kept {T : Type} (s s' : Pool T) (e : Event T) (hs : s.step e = some s') (c : ℕ) (hc : c < s.cs.length) :
    c < s'.cs.length ∧ s'.dflt c = match e with
      | .setDefault c' d => if c' = c then some d else s.dflt c
      | _ => s.dflt c := by
  have hg := List.getElem?_eq_getElem hc
  cases e with
  | alloc k newCap =>
    simp only [step] at hs
    by_cases hc' : s.cap ≤ newCap ∧ s.fill + k ≤ newCap ∧ 0 < k
    · rw [if_pos hc'] at hs; injection hs with hs; subst hs
      unfold dflt; dsimp
      split_ifs
      · exact ⟨hc, rfl⟩
      · rw [List.getElem?_map, hg]; exact ⟨by simpa using hc, rfl⟩
    · rw [if_neg hc'] at hs; exact absurd hs (by simp)
  | delete j => simp only [step] at hs; split_ifs at hs; injection hs with hs; subst hs; exact ⟨hc, rfl⟩
  | compress =>
    simp only [step] at hs; injection hs with hs; subst hs
    unfold dflt; dsimp; rw [List.getElem?_map, hg]; exact ⟨by simpa using hc, rfl⟩
  | create d =>
    simp only [step] at hs; injection hs with hs; subst hs
    unfold dflt; dsimp; rw [List.getElem?_append_left hc]; exact ⟨by simp; omega, rfl⟩
  | copy c' =>
    simp only [step] at hs
    split at hs
    · injection hs with hs; subst hs
      unfold dflt; dsimp; rw [List.getElem?_append_left hc]; exact ⟨by simp; omega, rfl⟩
    · exact absurd hs (by simp)
  | assign c' j v =>
    simp only [step] at hs
    split at hs
    · rename_i z hz
      split_ifs at hs
      injection hs with hs; subst hs
      refine ⟨by simpa using hc, ?_⟩
      unfold dflt; dsimp
      by_cases cc : c' = c
      · subst cc; rw [List.getElem?_set_self hc, hz]; rfl
      · rw [List.getElem?_set_ne cc]
    · exact absurd hs (by simp)
  | fillAll c' v =>
    simp only [step] at hs
    split at hs
    · rename_i z hz
      injection hs with hs; subst hs
      refine ⟨by simpa using hc, ?_⟩
      unfold dflt; dsimp
      by_cases cc : c' = c
      · subst cc; rw [List.getElem?_set_self hc, hz]; rfl
      · rw [List.getElem?_set_ne cc]
    · exact absurd hs (by simp)
  | setDefault c' d =>
    simp only [step] at hs
    split at hs
    · rename_i z hz
      injection hs with hs; subst hs
      refine ⟨by simpa using hc, ?_⟩
      unfold dflt; dsimp
      by_cases cc : c' = c
      · subst cc; rw [List.getElem?_set_self hc, if_pos rfl]; rfl
      · rw [List.getElem?_set_ne cc, if_neg cc]
    · exact absurd hs (by simp)

/-- **C17 (reachability).** The pool of a newly built mesh (all slots in use, no spare slots, no containers)
satisfies the invariant, and so does every state reached from it. -/
theorem C17_reachable {T : Type} (n : ℕ) (es : List (Event T)) (s : Pool T)
    (hs : run ⟨n, n, fun i => decide (i < n), []⟩ es = some s) : s.Inv :=
  run_inv ⟨le_rfl, id, fun i hi => by simpa using hi, by simp, by simp⟩ hs

/-- A history with a container created in the middle, growth, deletion and compression; the value 7 assigned to
element 2 is found at slot 1 afterwards, and the element allocated last reads the new default 9. -/
example : ∃ s : Pool ℕ, run ⟨3, 3, fun i => decide (i < 3), []⟩
      [.create 5, .assign 0 2 7, .alloc 1 6, .delete 0, .compress, .setDefault 0 9, .alloc 2 6] = some s ∧
    s.read 0 1 = some 7 ∧ s.read 0 2 = some 5 ∧ s.read 0 3 = some 9 ∧
    follow ⟨3, 3, fun i => decide (i < 3), [Container.create 3 5]⟩
      [.assign 0 2 7, .alloc 1 6, .delete 0, .compress, .setDefault 0 9, .alloc 2 6] 0 2 5 = some (1, 7) :=
  ⟨_, rfl, by decide +kernel, by decide +kernel, by decide +kernel, by decide +kernel⟩

/-! ## The pools of a mesh -/

open Mesh

/-- The four pools of a mesh, with the registered containers. -/
def vPool {T : Type} (m : Mesh) (cs : List (Container T)) : Pool T := ⟨m.nVFill, m.nVCap, fun i => decide (m.vLive i), cs⟩
def hePool {T : Type} (m : Mesh) (cs : List (Container T)) : Pool T := ⟨m.nHeFill, m.nHeCap, fun i => decide (m.heLive i), cs⟩
def ePool {T : Type} (m : Mesh) (cs : List (Container T)) : Pool T := ⟨m.nEFill, m.nECap, fun i => decide (m.heLive (2 * i)), cs⟩
def fPool {T : Type} (m : Mesh) (cs : List (Container T)) : Pool T :=
  ⟨m.nFFill, m.nFCap, fun i => decide (i < m.nFFill ∧ m.fLive i), cs⟩

/-- **C17 (link, allocation).** A successful allocation in the mesh is an `alloc` event of the pools: it hands out
the slots at `fill`, and the storage afterwards has room for them and is not smaller. (The new slot counts as
live from the allocation on; the mesh model marks it when the connectivity is written.) -/
theorem C17_link_alloc {T : Type} (m m' : Mesh) (cs : List (Container T)) (r : ℕ) :
    (m.getNewVertex = .ok (m', r) → r = m.nVFill ∧ ∃ s, (vPool m cs).step (.alloc 1 m'.nVCap) = some s ∧
      s.fill = m'.nVFill ∧ s.cap = m'.nVCap) ∧
    (∀ b, m.nHeCap = 2 * m.nECap → m.nHeFill = 2 * m.nEFill → m.getNewEdgeTriple b = .ok (m', r) → r = m.nHeFill ∧
      (∃ s, (hePool m cs).step (.alloc 2 m'.nHeCap) = some s ∧ s.fill = m'.nHeFill ∧ s.cap = m'.nHeCap) ∧
      (∃ s, (ePool m cs).step (.alloc 1 m'.nECap) = some s ∧ s.fill = m'.nEFill ∧ s.cap = m'.nECap)) ∧
    (m.getNewFace = .ok (m', r) → r = m.nFFill ∧ ∃ s, (fPool m cs).step (.alloc 1 m'.nFCap) = some s ∧
      s.fill = m'.nFFill ∧ s.cap = m'.nFCap) := by
  refine ⟨?_, ?_, ?_⟩
  · intro h
    unfold getNewVertex at h
    simp only at h
    by_cases c : m.nVFill < m.nVCap
    · simp only [if_pos c] at h
      split_ifs at h with h1 h2
      injection h with h; injection h with ha hb; subst ha
      refine ⟨hb.symm, _, if_pos ⟨le_rfl, ?_, by omega⟩, rfl, rfl⟩
      show m.nVFill + 1 ≤ m.nVCap; omega
    · simp only [if_neg c] at h
      split_ifs at h with h1 h2
      injection h with h; injection h with ha hb; subst ha
      refine ⟨hb.symm, _, if_pos ⟨?_, ?_, by omega⟩, rfl, rfl⟩
      · show m.nVCap ≤ m.nVCap * 2; omega
      · show m.nVFill + 1 ≤ m.nVCap * 2; omega
  · intro b hc hf h
    unfold getNewEdgeTriple at h
    simp only at h
    by_cases c : m.nHeFill + 1 < m.nHeCap
    · simp only [c, not_true_eq_false, if_false, not_false_eq_true, true_and] at h
      split_ifs at h <;>
      · injection h with h; injection h with ha hb; subst ha
        refine ⟨hb.symm, ⟨_, if_pos ⟨le_rfl, ?_, by omega⟩, rfl, rfl⟩, ⟨_, if_pos ⟨le_rfl, ?_, by omega⟩, rfl, rfl⟩⟩
        · show m.nHeFill + 2 ≤ m.nHeCap; omega
        · show m.nEFill + 1 ≤ m.nECap; omega
    · simp only [c, not_true_eq_false, if_true, not_false_eq_true, false_and, if_false] at h
      split_ifs at h <;>
      · injection h with h; injection h with ha hb; subst ha
        refine ⟨hb.symm, ⟨_, if_pos ⟨?_, ?_, by omega⟩, rfl, rfl⟩, ⟨_, if_pos ⟨?_, ?_, by omega⟩, rfl, rfl⟩⟩
        · show m.nHeCap ≤ max (m.nHeCap * 2) 2; omega
        · show m.nHeFill + 2 ≤ max (m.nHeCap * 2) 2; omega
        · show m.nECap ≤ max (m.nECap * 2) 1; omega
        · show m.nEFill + 1 ≤ max (m.nECap * 2) 1; omega
  · intro h
    unfold getNewFace at h
    simp only at h
    by_cases c : m.nFFill + m.nBL < m.nFCap
    · simp only [if_pos c] at h
      split_ifs at h with h1 h2
      injection h with h; injection h with ha hb; subst ha
      refine ⟨hb.symm, _, if_pos ⟨le_rfl, ?_, by omega⟩, rfl, rfl⟩
      show m.nFFill + 1 ≤ m.nFCap; omega
    · simp only [if_neg c] at h
      have e1 : m.expandFaceStorage.nFCap = m.nFCap * 2 := rfl
      have e2 : m.expandFaceStorage.nFFill = m.nFFill := rfl
      have e3 : m.expandFaceStorage.nBLFill = m.nBLFill := rfl
      split_ifs at h with h1 h2
      injection h with h; injection h with ha hb; subst ha
      rw [e1, e2, e3] at h2
      refine ⟨hb.symm, _, if_pos ⟨?_, ?_, by omega⟩, rfl, rfl⟩
      · show m.nFCap ≤ m.nFCap * 2; omega
      · show m.nFFill + 1 ≤ m.nFCap * 2; omega

theorem list_eq_of_getD {l l' : List ℕ} (hlen : l.length = l'.length) (h : ∀ i < l.length, l.getD i 0 = l'.getD i 0) : l = l' := by
  apply List.ext_getElem hlen
  intro i h1 h2
  have := h i h1
  simpa [List.getD, h1, h2] using this

/-- **C17 (link, compression).** The permutations that `compress` passes to the vertex, halfedge, edge and face
containers are those of the `compress` event of the pools. -/
theorem C17_link_compress {T : Type} (m m' : Mesh) (P : Perms) (hv : m.Valid) (hs : m.SpareOk)
    (h : m.compress false = .ok (m', some P)) (cs : List (Container T)) :
    P.v = (vPool m cs).perm ∧ P.he = (hePool m cs).perm ∧ P.e = (ePool m cs).perm ∧ P.f = (fPool m cs).perm := by
  obtain ⟨m1, P1, h1, C, Q⟩ := compress_spec hv hs
  rw [h1] at h; injection h with h; injection h with ha hb; injection hb with hb; subst hb
  have hf := hv.he_fill
  have gen : ∀ (l : List ℕ) (q : ℕ → Prop) [DecidablePred q] (n : ℕ), l.length = Nat.count q n →
      (∀ i < n, q i → l.getD (Nat.count q i) 0 = i) → l = (shiftMaps (fun i => decide (q i)) n).1 := by
    intro l q _ n hl hg
    apply list_eq_of_getD
    · rw [shiftP_length, hl]
    · intro j hj
      rw [hl] at hj
      obtain ⟨i, hi, hq, rfl⟩ := count_surj hj
      rw [hg i hi hq, shiftP_get q n i hi hq]
  refine ⟨?_, ?_, ?_, ?_⟩
  · have c : ∀ i ≤ m.nVFill, Nat.count (fun i => m.vLive i) i = m.vIdx i := by
      intro i hi; unfold vIdx; apply count_congr; intro k hk; unfold vLive
      have : k < m.nVFill := by omega
      simp [this]
    refine gen P1.v (fun i => m.vLive i) m.nVFill (by rw [Q.v_len, hv.cnt_v, c _ le_rfl]; rfl) fun i hi hq => ?_
    rw [c i hi.le, Q.v i 0 hq]
  · have c : ∀ i ≤ m.nHeFill, Nat.count (fun i => m.heLive i) i = m.hIdx i := by
      intro i hi; unfold hIdx; apply count_congr; intro k hk; unfold heLive
      have : k < m.nHeFill := by omega
      simp [this]
    refine gen P1.he (fun i => m.heLive i) m.nHeFill (by rw [Q.he_len, hv.cnt_he, c _ le_rfl]; rfl) fun i hi hq => ?_
    rw [c i hi.le, Q.he i 0 hq]
  · have c : ∀ i ≤ m.nEFill, Nat.count (fun i => m.heLive (2 * i)) i = m.eIdx i := by
      intro i hi; unfold eIdx; apply count_congr; intro k hk; unfold heLive
      have : 2 * k < m.nHeFill := by omega
      simp [this]
    refine gen P1.e (fun i => m.heLive (2 * i)) m.nEFill (by rw [Q.e_len, hv.cnt_e, c _ le_rfl]; rfl) fun i hi hq => ?_
    rw [c i hi.le, Q.e i 0 hq]
  · have c : ∀ i ≤ m.nFFill, Nat.count (fun i => i < m.nFFill ∧ m.fLive i) i = m.fIdx i := by
      intro i hi; rw [hv.fcount_low hi]; apply count_congr; intro k hk; unfold fLive
      have : k < m.nFFill := by omega
      simp [this]
    refine gen P1.f (fun i => i < m.nFFill ∧ m.fLive i) m.nFFill
      (by rw [Q.f_len, hv.cnt_f, c _ le_rfl, hv.fcount_low le_rfl]) fun i hi hq => ?_
    rw [c i hi.le, Q.f i 0 hq.2 hi]

example : squareHoled.Valid ∧ squareHoled.SpareOk ∧ ∃ m' P, squareHoled.compress false = .ok (m', some P) ∧ P.e = [0, 1, 3, 4] :=
  ⟨squareHoled_valid, by decide +kernel, _, _, rfl, by decide +kernel⟩

end GC
