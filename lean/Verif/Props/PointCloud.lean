import Verif.PointCloud
import Verif.Props.Containers

/-! # C47: point clouds through histories -/

namespace GC
namespace PC
variable {T : Type}

/-- Point `i` exists. -/
def Live (s : PC T) (i : ℕ) : Prop := s.pointValid[i]? = some true

/-- The operation refers to existing points and containers only. -/
def Legal (s : PC T) : Op T → Prop
  | .del i => s.Live i
  | .assign c i _ => c < s.cs.length ∧ s.Live i
  | _ => True

/-- Every operation of the history is legal when it is reached. -/
def LegalRun (s : PC T) : List (Op T) → Prop
  | [] => True
  | op :: ops => s.Legal op ∧ ∀ s', s.step op = .ok s' → s'.LegalRun ops

/-- `container[c][i]`. -/
def read (s : PC T) (c i : ℕ) : Option T := (s.cs[c]?).map (·.data i)

/-- Where the point at `i` is after the history, and the value last assigned to it in container `c` if it was `x` before: compression
moves a point to the number of existing points before it. `none` if the point is deleted. -/
def follow (s : PC T) : List (Op T) → ℕ → ℕ → T → Option (ℕ × T)
  | [], _, i, x => some (i, x)
  | op :: ops, c, i, x => match s.step op with
    | .error _ => none
    | .ok s' => match op with
      | .del j => if j = i then none else s'.follow ops c i x
      | .compress => s'.follow ops c (((List.range i).filter (fun j => s.pointValid.getD j false)).length) x
      | .assign c' j v => s'.follow ops c i (if c' = c ∧ j = i then v else x)
      | _ => s'.follow ops c i x

def toPool (s : PC T) : Pool T := ⟨s.fill, s.cap, fun i => s.pointValid.getD i false, s.cs⟩

structure Inv (s : PC T) : Prop where
  len : s.pointValid.length = s.cap
  pool : s.toPool.Inv
  count : s.nPoints = ((List.range s.fill).filter (fun j => s.pointValid.getD j false)).length
  comp : s.compressed = true → ∀ i < s.fill, s.pointValid.getD i false = true

theorem live_iff (s : PC T) (i : ℕ) : s.Live i ↔ s.pointValid.getD i false = true := by
  unfold Live
  rw [List.getD_eq_getElem?_getD]
  cases h : s.pointValid[i]? with
  | none => simp
  | some b => simp

theorem idx_eq (s : PC T) (i : ℕ) : s.toPool.idx i = ((List.range i).filter (fun j => s.pointValid.getD j false)).length := by
  unfold Pool.idx
  rw [Nat.count_eq_card_filter_range]
  show _ = _
  rw [← List.toFinset_card_of_nodup (List.nodup_range.filter _)]
  congr 1
  ext j
  simp [toPool]

theorem create_inv (n : ℕ) : (create n : PC T).Inv := by
  have hg : ∀ i, (List.replicate n true).getD i false = decide (i < n) := by
    intro i
    rw [List.getD_eq_getElem?_getD, List.getElem?_replicate]
    by_cases h : i < n <;> simp [h]
  refine ⟨by simp [create], ⟨le_rfl, id, fun i hi => ?_, by simp [create, toPool], by simp [create, toPool]⟩, ?_, ?_⟩
  · simp only [toPool, create, hg] at hi
    show i < n
    simpa using hi
  · simp only [create, hg]
    rw [List.filter_eq_self.2 (fun a ha => by simpa using ha)]
    simp
  · intro _ i hi
    simp only [create, hg] at hi ⊢
    simpa using hi

theorem getD_set (l : List Bool) (i j : ℕ) (b : Bool) (h : i < l.length) :
    (l.set i b).getD j false = if j = i then b else l.getD j false := by
  rw [List.getD_eq_getElem?_getD, List.getD_eq_getElem?_getD]
  by_cases hj : j = i
  · subst hj; rw [List.getElem?_set_self h, if_pos rfl]; rfl
  · rw [List.getElem?_set_ne (Ne.symm hj), if_neg hj]

theorem getD_resize (l : List Bool) (n j : ℕ) (h : l.length ≤ n) : (resize l n).getD j false = l.getD j false := by
  unfold resize
  rw [List.take_of_length_le h, List.getD_eq_getElem?_getD, List.getD_eq_getElem?_getD]
  by_cases hj : j < l.length
  · rw [List.getElem?_append_left hj]
  · rw [List.getElem?_append_right (by omega), List.getElem?_replicate, List.getElem?_eq_none (by omega : l.length ≤ j)]
    split <;> rfl

theorem filter_range_succ (p : ℕ → Bool) (n : ℕ) :
    ((List.range (n + 1)).filter p).length = ((List.range n).filter p).length + if p n then 1 else 0 := by
  rw [List.range_succ, List.filter_append, List.length_append]
  cases hp : p n <;> simp [hp]

theorem filter_remove (p : ℕ → Bool) (i n : ℕ) (hi : i < n) (hp : p i = true) :
    ((List.range n).filter (fun j => if j = i then false else p j)).length + 1 = ((List.range n).filter p).length := by
  induction n with
  | zero => omega
  | succ n ih =>
    rw [filter_range_succ, filter_range_succ]
    rcases Nat.lt_succ_iff_lt_or_eq.1 hi with h | rfl
    · have := ih h
      rw [if_neg (by omega : ¬ n = i)]
      omega
    · rw [if_pos rfl, hp]
      have : (List.range i).filter (fun j => if j = i then false else p j) = (List.range i).filter p := by
        apply List.filter_congr
        intro j hj
        have := List.mem_range.1 hj
        rw [if_neg (by omega)]
      rw [this]; simp

theorem map_ok (s : PC T) (h : s.Inv) :
    (List.range s.fill).foldlM (mapStep s) [] = .ok ((List.range s.fill).filter (fun j => s.pointValid.getD j false)) := by
  obtain ⟨l, e, hl⟩ := range_inv (f := mapStep s) (n := s.fill) (s0 := [])
    (fun i l => l = (List.range i).filter (fun j => s.pointValid.getD j false)) rfl (by
      rintro i l hi rfl
      have h1 := h.pool.fill_le
      have h2 : s.fill ≤ s.cap := h1
      have hlt : i < s.pointValid.length := by rw [h.len]; omega
      have hg : s.pointValid.getD i false = s.pointValid[i] := by
        rw [List.getD_eq_getElem?_getD, List.getElem?_eq_getElem hlt]; rfl
      unfold mapStep
      rw [rd_lt hlt]
      dsimp only
      refine ⟨_, ?_, rfl⟩
      rw [List.range_succ, List.filter_append]
      by_cases hv : s.pointValid[i] = true
      · rw [if_pos hv, List.filter_cons_of_pos (by rw [hg]; exact hv)]; rfl
      · rw [if_neg hv, List.filter_cons_of_neg (by rw [hg]; exact hv)]; simp)
  rw [e, hl]

/-- The pool event of an operation; `none` for a compression of a compressed cloud. -/
def evOf (s : PC T) : Op T → Option (Event T)
  | .add => some (.alloc 1 (if s.fill < s.cap then s.cap else s.cap * 2))
  | .del i => some (.delete i)
  | .compress => if s.compressed then none else some .compress
  | .newData d => some (.create d)
  | .assign c i v => some (.assign c i v)

theorem step_ok (s : PC T) (h : s.Inv) (op : Op T) (hl : s.Legal op) :
    (op = .add ∧ s.cap = 0 ∧ s.step op = .error .ub) ∨
    ∃ s', s.step op = .ok s' ∧ s'.Inv ∧ match s.evOf op with
      | none => s' = s
      | some e => s.toPool.step e = some s'.toPool := by
  have hfc : s.fill ≤ s.cap := h.pool.fill_le
  have hlen := h.len
  have poolinv : ∀ {e : Event T} {s' : PC T}, s.toPool.step e = some s'.toPool → s'.toPool.Inv := fun he => Pool.step_inv h.pool he
  cases op with
  | add =>
    by_cases hc : s.cap = 0
    · left
      refine ⟨rfl, hc, ?_⟩
      have hf : s.fill = 0 := by omega
      have : s.pointValid = [] := List.length_eq_zero_iff.1 (by omega)
      simp [step, getNewPoint, hc, hf, this, resize, wr]
    · right
      have hf0 : s.fill ≠ 0 := fun h0 => hc (h.pool.zero h0)
      by_cases hlt : s.fill < s.cap
      · have e : s.step .add = .ok (⟨s.pointValid.set s.fill true, s.nPoints + 1, s.cap, s.fill + 1, false, s.cs⟩ : PC T) := by
          simp only [step, getNewPoint, if_pos hlt]
          rw [wr_lt _ (by omega)]
        have hg : ∀ j, (s.pointValid.set s.fill true).getD j false = if j = s.fill then true else s.pointValid.getD j false :=
          fun j => getD_set _ _ _ _ (by omega)
        have hp : s.toPool.step (.alloc 1 s.cap) = some (toPool (⟨s.pointValid.set s.fill true, s.nPoints + 1, s.cap, s.fill + 1, false, s.cs⟩ : PC T)) := by
          unfold Pool.step toPool
          dsimp only
          rw [if_pos ⟨le_rfl, by omega, by omega⟩, if_pos rfl]
          congr 2
          funext j
          rw [hg]
          by_cases hj : j = s.fill
          · subst hj; simp
          · have : ¬ (s.fill ≤ j ∧ j < s.fill + 1) := by omega
            simp only [if_neg hj]
            rcases Decidable.not_and_iff_not_or_not.1 this with h' | h' <;> simp [h']
        refine ⟨_, e, ⟨by simp [hlen], poolinv hp, ?_, by simp⟩, by simp only [evOf, if_pos hlt]; exact hp⟩
        dsimp only
        rw [filter_range_succ, hg, if_pos rfl, h.count]
        simp only [if_true]
        congr 2
        apply List.filter_congr
        intro j hj
        have := List.mem_range.1 hj
        rw [hg, if_neg (by omega)]
      · have hfe : s.fill = s.cap := by omega
        have e : s.step .add = .ok (⟨(resize s.pointValid (s.cap * 2)).set s.fill true, s.nPoints + 1, s.cap * 2, s.fill + 1, false, s.cs.map (·.expand (s.cap * 2))⟩ : PC T) := by
          simp only [step, getNewPoint, if_neg hlt]
          rw [wr_lt _ (by simp [resize]; omega)]
        have hg : ∀ j, ((resize s.pointValid (s.cap * 2)).set s.fill true).getD j false = if j = s.fill then true else s.pointValid.getD j false := by
          intro j
          rw [getD_set _ _ _ _ (by simp [resize]; omega), getD_resize _ _ _ (by omega)]
        have hp : s.toPool.step (.alloc 1 (s.cap * 2)) = some (toPool (⟨(resize s.pointValid (s.cap * 2)).set s.fill true, s.nPoints + 1, s.cap * 2, s.fill + 1, false, s.cs.map (·.expand (s.cap * 2))⟩ : PC T)) := by
          unfold Pool.step toPool
          dsimp only
          rw [if_pos ⟨by omega, by omega, by omega⟩, if_neg (by omega)]
          congr 2
          funext j
          rw [hg]
          by_cases hj : j = s.fill
          · subst hj; simp
          · have : ¬ (s.fill ≤ j ∧ j < s.fill + 1) := by omega
            simp only [if_neg hj]
            rcases Decidable.not_and_iff_not_or_not.1 this with h' | h' <;> simp [h']
        refine ⟨_, e, ⟨by simp [resize]; omega, poolinv hp, ?_, by simp⟩, by simp only [evOf, if_neg hlt]; exact hp⟩
        dsimp only
        rw [filter_range_succ, hg, if_pos rfl, h.count]
        simp only [if_true]
        congr 2
        apply List.filter_congr
        intro j hj
        have := List.mem_range.1 hj
        rw [hg, if_neg (by omega)]
  | del i =>
    right
    have hli : s.pointValid.getD i false = true := (live_iff s i).1 hl
    have hif : i < s.fill := h.pool.live_lt i hli
    have hg : ∀ j, (s.pointValid.set i false).getD j false = if j = i then false else s.pointValid.getD j false :=
      fun j => getD_set _ _ _ _ (by omega)
    have hp : s.toPool.step (.delete i) = some (toPool { s with pointValid := s.pointValid.set i false, nPoints := s.nPoints - 1, compressed := false }) := by
      unfold Pool.step toPool
      dsimp only
      rw [if_pos hli]
      congr 2
      funext j
      rw [hg]
      by_cases hj : j = i
      · subst hj; simp
      · simp [hj]
    refine ⟨_, by simp only [step, deleteElement]; rw [wr_lt _ (by omega)], ⟨by simp [hlen], poolinv hp, ?_, by simp⟩, hp⟩
    dsimp only
    simp only [hg]
    have := filter_remove (fun j => s.pointValid.getD j false) i s.fill hif hli
    rw [h.count]
    omega
  | compress =>
    right
    by_cases hc : s.compressed = true
    · refine ⟨s, by simp [step, compress, hc], h, ?_⟩
      simp [evOf, hc]
    · have hmap : ((List.range s.fill).filter (fun j => s.pointValid.getD j false)).mapM (fun i => rd s.pointValid i) =
          .ok (List.replicate ((List.range s.fill).filter (fun j => s.pointValid.getD j false)).length true) := by
        have : ∀ l : List ℕ, (∀ j ∈ l, s.pointValid.getD j false = true) → l.mapM (fun i => rd s.pointValid i) = .ok (List.replicate l.length true) := by
          intro l
          induction l with
          | nil => intro _; rfl
          | cons a l ih =>
            intro ha
            have h1 := (live_iff s a).2 (ha a List.mem_cons_self)
            rw [List.mapM_cons, rd_ok.2 h1, ih (fun j hj => ha j (List.mem_cons_of_mem _ hj))]
            rfl
        exact this _ (fun j hj => (List.mem_filter.1 hj).2)
      have e : s.step .compress = .ok (⟨List.replicate ((List.range s.fill).filter (fun j => s.pointValid.getD j false)).length true, s.nPoints, s.nPoints, s.nPoints, true, s.cs.map (·.permute ((List.range s.fill).filter (fun j => s.pointValid.getD j false)))⟩ : PC T) := by
        simp only [step, compress, compressPoints, if_neg hc, map_ok s h, hmap]
      have hrep : ∀ n j : ℕ, (List.replicate n true).getD j false = decide (j < n) := by
        intro n j
        rw [List.getD_eq_getElem?_getD, List.getElem?_replicate]
        by_cases h : j < n <;> simp [h]
      have hperm : s.toPool.perm = (List.range s.fill).filter (fun j => s.pointValid.getD j false) := shift_list _ _
      have hp : s.toPool.step .compress = some (toPool (⟨List.replicate ((List.range s.fill).filter (fun j => s.pointValid.getD j false)).length true, s.nPoints, s.nPoints, s.nPoints, true, s.cs.map (·.permute ((List.range s.fill).filter (fun j => s.pointValid.getD j false)))⟩ : PC T)) := by
        unfold Pool.step
        dsimp only
        rw [hperm]
        unfold toPool
        dsimp only
        simp only [hrep, h.count]
      refine ⟨_, e, ⟨by simp [h.count], poolinv hp, ?_, ?_⟩, ?_⟩
      · dsimp only
        simp only [hrep, ← h.count]
        rw [List.filter_eq_self.2 (fun a ha => by simpa using ha)]
        simp
      · intro _ i hi
        dsimp only at hi ⊢
        rw [hrep, ← h.count]
        simpa using hi
      · simp only [evOf, if_neg hc]; exact hp
  | newData d =>
    right
    have hp : s.toPool.step (.create d) = some (toPool { s with cs := s.cs ++ [Container.create s.cap d] }) := rfl
    exact ⟨_, rfl, ⟨hlen, poolinv hp, h.count, h.comp⟩, hp⟩
  | assign c i v =>
    right
    obtain ⟨hc, hli⟩ := hl
    have hli : s.pointValid.getD i false = true := (live_iff s i).1 hli
    have hif : i < s.fill := h.pool.live_lt i hli
    have hx := List.getElem?_eq_getElem hc
    have hsz : s.cs[c].size = s.cap := h.pool.size _ (List.getElem_mem hc)
    have hp : s.toPool.step (.assign c i v) = some (toPool { s with cs := s.cs.set c (s.cs[c].write i v) }) := by
      unfold Pool.step toPool
      dsimp only
      rw [hx]
      dsimp only
      rw [if_pos hli]
    refine ⟨{ s with cs := s.cs.set c (s.cs[c].write i v) }, ?_, ⟨hlen, poolinv hp, h.count, h.comp⟩, hp⟩
    simp only [step, hx]
    rw [if_pos (by omega)]

theorem run_ok (ops : List (Op T)) : ∀ (s : PC T), s.Inv → s.LegalRun ops →
    (∃ s', s.run ops = .ok s' ∧ s'.Inv) ∨
    (s.run ops = .error .ub ∧ ∃ pre post s1, ops = pre ++ .add :: post ∧ s.run pre = .ok s1 ∧ s1.cap = 0) := by
  induction ops with
  | nil => intro s h _; exact Or.inl ⟨s, rfl, h⟩
  | cons op ops ih =>
    intro s h hl
    rcases step_ok s h op hl.1 with ⟨rfl, hc, e⟩ | ⟨s', e, h', -⟩
    · right
      exact ⟨by simp only [run, e], [], ops, s, rfl, rfl, hc⟩
    · rcases ih s' h' (hl.2 s' e) with ⟨s2, e2, h2⟩ | ⟨e2, pre, post, s1, r1, r2, r3⟩
      · exact Or.inl ⟨s2, by simp only [run, e]; exact e2, h2⟩
      · exact Or.inr ⟨by simp only [run, e]; exact e2, op :: pre, post, s1, by rw [r1]; rfl, by simp only [run, e]; exact r2, r3⟩

/-- **C47 (counts).** Any history on a new cloud that refers to existing points ends in a cloud where iterating `points()` gives each
existing point once, in order, and `nPoints()` is their number; in a compressed cloud they are `0 … nPoints() - 1`. Missing for C47: adding a
point to a cloud without storage, see `C47_fails`. -/
theorem C47_counts_partial (nPts : ℕ) (ops : List (Op T)) (hl : (create nPts : PC T).LegalRun ops) :
    (∃ s l, (create nPts).run ops = .ok s ∧ s.points = .ok l ∧ l.length = s.nPoints ∧ l.Pairwise (· < ·) ∧ (∀ i, i ∈ l ↔ s.Live i) ∧
      (s.compressed = true → l = List.range s.nPoints)) ∨
    ((create nPts : PC T).run ops = .error .ub ∧ ∃ pre post s, ops = pre ++ .add :: post ∧ (create nPts).run pre = .ok s ∧ s.cap = 0) := by
  rcases run_ok ops (create nPts) (create_inv nPts) hl with ⟨s, e, h⟩ | h
  · left
    refine ⟨s, _, e, rangeList_eq _ _, h.count.symm, ?_, ?_, ?_⟩
    · exact List.pairwise_lt_range.filter _
    · intro i
      rw [List.mem_filter, List.mem_range, live_iff]
      exact ⟨fun x => x.2, fun x => ⟨h.pool.live_lt i x, x⟩⟩
    · intro hc
      have := List.filter_eq_self.2 (fun a ha => h.comp hc a (List.mem_range.1 ha))
      have hn := h.count
      rw [this, List.length_range] at hn
      rw [this, hn]
  · exact Or.inr h

/-- **C47 (values).** At any moment of a history, take an existing point `i` and the value `x` it has in container `c`. After any further
history in which the point is not deleted, the point exists at the index given by `follow` and the container holds there the value last
assigned to that point. -/
theorem C47_values_partial (nPts : ℕ) (ops ops' : List (Op T)) (s s' : PC T) (hl : (create nPts : PC T).LegalRun ops)
    (hs : (create nPts).run ops = .ok s) (hl' : s.LegalRun ops') (hs' : s.run ops' = .ok s') (c i : ℕ) (x : T) (hi : s.Live i)
    (hx : s.read c i = some x) (j : ℕ) (y : T) (hf : s.follow ops' c i x = some (j, y)) : s'.Live j ∧ s'.read c j = some y := by
  have hinv : s.Inv := by
    rcases run_ok ops (create nPts) (create_inv nPts) hl with ⟨s2, e, h⟩ | ⟨e, -⟩
    · rw [hs] at e; cases e; exact h
    · rw [hs] at e; cases e
  clear hs hl
  induction ops' generalizing s i x with
  | nil =>
    simp only [run, Except.ok.injEq] at hs'
    simp only [follow, Option.some.injEq, Prod.mk.injEq] at hf
    rw [← hs', ← hf.1, ← hf.2]; exact ⟨hi, hx⟩
  | cons op ops' ih =>
    rcases step_ok s hinv op hl'.1 with ⟨rfl, hc, e⟩ | ⟨s1, e, h1, hev⟩
    · simp only [run, e] at hs'; cases hs'
    · simp only [run, e] at hs'
      simp only [follow, e] at hf
      have hi' : s.toPool.live i = true := (live_iff s i).1 hi
      have hx' : s.toPool.read c i = some x := hx
      have L : ∀ k, s1.toPool.live k = true → s1.Live k := fun k hk => (live_iff s1 k).2 hk
      cases op with
      | add =>
        simp only [evOf] at hev
        have k := Pool.step_read hinv.pool hev hi' hx'
        exact ih s1 (hl'.2 s1 e) hs' i x (L _ k.1) k.2 hf h1
      | del j' =>
        simp only [evOf] at hev
        have k := Pool.step_read hinv.pool hev hi' hx'
        by_cases hji : j' = i
        · simp [hji] at hf
        · simp only [if_neg hji] at hf
          exact ih s1 (hl'.2 s1 e) hs' i x (L _ (k hji).1) (k hji).2 hf h1
      | compress =>
        dsimp only at hf
        by_cases hc : s.compressed = true
        · simp only [evOf, if_pos hc] at hev
          subst hev
          have hif : i < s1.fill := hinv.pool.live_lt i hi'
          have hid : ((List.range i).filter (fun j => s1.pointValid.getD j false)).length = i := by
            rw [List.filter_eq_self.2 (fun a ha => hinv.comp hc a (by have := List.mem_range.1 ha; omega))]
            simp
          rw [hid] at hf
          exact ih s1 (hl'.2 s1 e) hs' i x hi hx hf hinv
        · simp only [evOf, if_neg hc] at hev
          have k := Pool.step_read hinv.pool hev hi' hx'
          rw [idx_eq] at k
          exact ih s1 (hl'.2 s1 e) hs' _ x (L _ k.1) k.2 hf h1
      | newData d =>
        simp only [evOf] at hev
        have k := Pool.step_read hinv.pool hev hi' hx'
        exact ih s1 (hl'.2 s1 e) hs' i x (L _ k.1) k.2 hf h1
      | assign c' j' v =>
        simp only [evOf] at hev
        have k := Pool.step_read hinv.pool hev hi' hx'
        exact ih s1 (hl'.2 s1 e) hs' i _ (L _ k.1) k.2 hf h1

/-- A new point reads the default value in every container. -/
theorem new_point_default (s : PC T) (h : s.Inv) (hc : s.cap ≠ 0) : ∃ s' k, s.getNewPoint = .ok (s', k) ∧ s'.Live k ∧ ¬ s.Live k ∧
    ∀ c x, s.cs[c]? = some x → s'.read c k = some x.dflt := by
  rcases step_ok s h .add trivial with ⟨-, h0, -⟩ | ⟨s', e, h', hev⟩
  · exact absurd h0 hc
  · simp only [step] at e
    rcases hg : s.getNewPoint with err | ⟨s1, k⟩
    · rw [hg] at e; cases e
    · rw [hg] at e
      simp only [Except.ok.injEq] at e
      subst e
      have hk : k = s.fill := by
        unfold getNewPoint at hg
        dsimp only at hg
        split at hg
        · cases hg
        · simp only [Except.ok.injEq, Prod.mk.injEq] at hg
          rw [← hg.2]
          split <;> rfl
      subst hk
      simp only [evOf] at hev
      refine ⟨s1, s.fill, rfl, ?_, ?_, ?_⟩
      · rw [live_iff]
        generalize (if s.fill < s.cap then s.cap else s.cap * 2) = nc at hev
        simp only [Pool.step] at hev
        by_cases hcond : s.toPool.cap ≤ nc ∧ s.toPool.fill + 1 ≤ nc ∧ 0 < 1
        · rw [if_pos hcond] at hev
          have := congrFun (congrArg Pool.live (Option.some.inj hev)) s.fill
          dsimp only [toPool] at this
          rw [← this]; simp
        · rw [if_neg hcond] at hev; cases hev
      · rw [live_iff]
        intro hc'
        exact absurd (h.pool.live_lt _ hc') (lt_irrefl _)
      · intro c x hx
        obtain ⟨-, d, hd, hr⟩ := C17_new_default _ _ h.pool _ _ hev s.fill le_rfl (by show s.fill < s.fill + 1; omega) c
          (List.getElem?_eq_some_iff.1 hx).1
        have : d = x.dflt := by
          unfold Pool.dflt at hd
          have hx' : s.toPool.cs[c]? = some x := hx
          rw [hx'] at hd
          simpa using hd.symm
        rw [← this]; exact hr

/-- `getPointIndices` enumerates the points densely, in the order of `points()`. -/
theorem pointIndices (s : PC T) (l : List ℕ) (hl : s.points = .ok l) :
    ∃ c, s.getPointIndices = .ok c ∧ c.size = s.cap ∧ ∀ k p : ℕ, l[k]? = some p → c.data p = k := by
  have hn : l.Nodup := by
    unfold points at hl
    rw [rangeList_eq] at hl
    cases hl
    exact List.nodup_range.filter _
  have key : ∀ l : List ℕ, l.Nodup → ∀ c0 : Container ℕ,
      let r := l.foldl (fun (st : Container ℕ × ℕ) p => (st.1.write p st.2, st.2 + 1)) (c0, 0)
      r.2 = l.length ∧ r.1.size = c0.size ∧ ∀ k p : ℕ, l[k]? = some p → r.1.data p = k := by
    intro l
    induction l using List.reverseRecOn with
    | nil => intro _ c0; exact ⟨rfl, rfl, by simp⟩
    | append_singleton l a ih =>
      intro hn c0
      rw [List.nodup_append] at hn
      obtain ⟨h1, h2, h3⟩ := ih hn.1 c0
      rw [List.foldl_append]
      simp only [List.foldl_cons, List.foldl_nil]
      refine ⟨by simp [h1], h2, ?_⟩
      intro k p hk
      show (if p = a then _ else _) = k
      by_cases hkl : k < l.length
      · rw [List.getElem?_append_left hkl] at hk
        have hpa : p ≠ a := hn.2.2 p (List.mem_of_getElem? hk) a (by simp)
        rw [if_neg hpa]; exact h3 k p hk
      · have := (List.getElem?_eq_some_iff.1 hk).1
        simp at this
        obtain rfl : k = l.length := by omega
        simp at hk
        rw [if_pos hk.symm, h1]
  obtain ⟨-, h2, h3⟩ := key l hn (Container.create s.cap 0)
  exact ⟨_, by unfold getPointIndices; rw [hl], h2, h3⟩

/-- **C47 fails without storage.** The capacity 0 of an empty or emptied and compressed cloud is doubled to 0, and the new point is
written outside the array. -/
theorem C47_fails : (create 0 : PC ℕ).run [.add] = .error .ub ∧ (create 0 : PC ℕ).LegalRun [.add] ∧
    (create 1 : PC ℕ).run [.del 0, .compress, .add] = .error .ub ∧ (create 1 : PC ℕ).LegalRun [.del 0, .compress, .add] := by
  refine ⟨rfl, ⟨trivial, fun _ _ => trivial⟩, rfl, rfl, ?_⟩
  intro s' _
  exact ⟨trivial, fun s'' _ => ⟨trivial, fun _ _ => trivial⟩⟩

/-- A history with growth, deletion and compression: the value 7 of point 2 is found at index 1, the point added last has the default. -/
example : ∃ s : PC ℕ, (create 3).run [.newData 5, .assign 0 2 7, .add, .del 0, .compress, .add] = .ok s ∧
    s.read 0 1 = some 7 ∧ s.read 0 3 = some 5 ∧ s.nPoints = 4 ∧ s.points = .ok [0, 1, 2, 3] :=
  ⟨_, rfl, rfl, rfl, rfl, rfl⟩

end PC
end GC
