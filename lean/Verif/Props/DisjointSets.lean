import Verif.DisjointSets
import Mathlib.Logic.Relation

/-! # Property C30: DisjointSets -/

namespace GC

/-- A call on a `DisjointSets`. -/
inductive DSOp where
  | merge (x y : ℕ)
  | find (x : ℕ)

def DSOp.inRange (n : ℕ) : DSOp → Prop
  | .merge x y => x ≤ n ∧ y ≤ n
  | .find x => x ≤ n

def DSOp.run (d : DS) : DSOp → Res DS
  | .merge x y => d.merge x y
  | .find x => (d.find x).map Prod.fst

/-- Run a list of calls. -/
def DS.runAll (d : DS) : List DSOp → Res DS
  | [] => .ok d
  | o :: os => match o.run d with
    | .error e => .error e
    | .ok d' => runAll d' os

/-- `a` and `b` are connected by pairs of the relation `P`. -/
abbrev Conn (P : ℕ → ℕ → Prop) : ℕ → ℕ → Prop := Relation.EqvGen P

theorem Conn.mono {P Q : ℕ → ℕ → Prop} (h : ∀ a b, P a b → Q a b) {a b : ℕ} (c : Conn P a b) : Conn Q a b := by
  induction c with
  | rel _ _ r => exact .rel _ _ (h _ _ r)
  | refl => exact .refl _
  | symm _ _ _ ih => exact .symm _ _ ih
  | trans _ _ _ _ _ i1 i2 => exact .trans _ _ _ i1 i2

/-- Effect of one link on connectivity, for any labelling `f` of the classes of `P`. -/
theorem conn_merge {n : ℕ} {P : ℕ → ℕ → Prop} {f g : ℕ → ℕ} {x y r : ℕ} (hP : ∀ a b, P a b → (a ≤ n ↔ b ≤ n))
    (hx : x ≤ n) (hy : y ≤ n)
    (hf : ∀ a ≤ n, ∀ b ≤ n, f a = f b ↔ Conn P a b) (hr : r = f x ∨ r = f y)
    (hg : ∀ z ≤ n, g z = if f z = f x ∨ f z = f y then r else f z) :
    ∀ a ≤ n, ∀ b ≤ n, (g a = g b ↔ Conn (fun u v => P u v ∨ (u = x ∧ v = y)) a b) := by
  intro a ha b hb
  have up : ∀ {u v}, u ≤ n → v ≤ n → f u = f v → Conn (fun u v => P u v ∨ (u = x ∧ v = y)) u v := by
    intro u v hu hv h
    exact Conn.mono (fun _ _ h => Or.inl h) ((hf u hu v hv).1 h)
  have hxy : Conn (fun u v => P u v ∨ (u = x ∧ v = y)) x y := .rel _ _ (Or.inr ⟨rfl, rfl⟩)
  constructor
  · intro h
    rw [hg a ha, hg b hb] at h
    -- every element of either class is connected to `x`
    have tox : ∀ z ≤ n, (f z = f x ∨ f z = f y) → Conn (fun u v => P u v ∨ (u = x ∧ v = y)) z x := by
      rintro z hz (e | e)
      · exact up hz hx e
      · exact .trans _ _ _ (up hz hy e) (.symm _ _ hxy)
    split_ifs at h with h1 h2 h2
    · exact .trans _ _ _ (tox a ha h1) (.symm _ _ (tox b hb h2))
    · exfalso; apply h2; rw [← h]; exact hr
    · exfalso; apply h1; rw [h]; exact hr
    · exact up ha hb h
  · intro h
    have key : ∀ u v, Conn (fun u v => P u v ∨ (u = x ∧ v = y)) u v → (u ≤ n ↔ v ≤ n) ∧ (u ≤ n → g u = g v) := by
      intro u v c
      induction c with
      | rel u v h =>
        rcases h with h | ⟨rfl, rfl⟩
        · refine ⟨hP u v h, fun lu => ?_⟩
          have lv := (hP u v h).1 lu
          rw [hg u lu, hg v lv, (hf u lu v lv).2 (.rel _ _ h)]
        · refine ⟨⟨fun _ => hy, fun _ => hx⟩, fun _ => ?_⟩
          rw [hg _ hx, hg _ hy, if_pos (Or.inl rfl), if_pos (Or.inr rfl)]
      | refl => exact ⟨Iff.rfl, fun _ => rfl⟩
      | symm _ _ _ ih => exact ⟨ih.1.symm, fun h => (ih.2 (ih.1.2 h)).symm⟩
      | trans _ _ _ _ _ i1 i2 => exact ⟨i1.1.trans i2.1, fun h => (i1.2 h).trans (i2.2 (i1.1.1 h))⟩
    exact (key a b h).2 ha

theorem DS.runAll_spec (n : ℕ) (ops : List DSOp) : ∀ (d : DS) (P : ℕ → ℕ → Prop), d.Inv → d.n = n →
    (∀ a b, P a b → (a ≤ n ↔ b ≤ n)) → (∀ a ≤ n, ∀ b ≤ n, d.root a = d.root b ↔ Conn P a b) →
    (∀ o ∈ ops, o.inRange n) →
    ∃ d', d.runAll ops = .ok d' ∧ d'.Inv ∧ d'.n = n ∧
      ∀ a ≤ n, ∀ b ≤ n, (d'.root a = d'.root b ↔ Conn (fun u v => P u v ∨ .merge u v ∈ ops) a b) := by
  induction ops with
  | nil =>
    intro d P hd hn _ hroot _
    exact ⟨d, rfl, hd, hn, by simpa using hroot⟩
  | cons o ops ih =>
    intro d P hd hn hP hroot hops
    have ho := hops o (by simp)
    have hrest : ∀ o ∈ ops, o.inRange n := fun o h => hops o (by simp [h])
    cases o with
    | merge x y =>
      obtain ⟨hx, hy⟩ := ho
      obtain ⟨d1, e1, h1, n1, r, hr, hrt⟩ := DS.merge_spec hd (x := x) (y := y) (by omega) (by omega)
      rw [hn] at hrt
      obtain ⟨d', e, h', n', hc⟩ := ih d1 (fun u v => P u v ∨ (u = x ∧ v = y)) h1 (by omega)
        (by rintro a b (h | ⟨rfl, rfl⟩)
            · exact hP a b h
            · exact ⟨fun _ => hy, fun _ => hx⟩)
        (conn_merge hP hx hy hroot hr hrt) hrest
      refine ⟨d', by simp only [DS.runAll, DSOp.run, e1]; exact e, h', n', fun a ha b hb => ?_⟩
      rw [hc a ha b hb]
      have : (fun u v => (P u v ∨ u = x ∧ v = y) ∨ DSOp.merge u v ∈ ops) =
          (fun u v => P u v ∨ DSOp.merge u v ∈ DSOp.merge x y :: ops) := by
        funext u v; simp only [List.mem_cons, DSOp.merge.injEq, or_assoc]
      rw [this]
    | find x =>
      have hx : x ≤ n := ho
      obtain ⟨d1, e1, h1, n1, _, hrt⟩ := DS.find_spec hd (x := x) (by omega)
      rw [hn] at hrt
      obtain ⟨d', e, h', n', hc⟩ := ih d1 P h1 (by omega) hP
        (fun a ha b hb => by rw [hrt a ha, hrt b hb]; exact hroot a ha b hb) hrest
      refine ⟨d', by simp only [DS.runAll, DSOp.run, e1, Except.map]; exact e, h', n', fun a ha b hb => ?_⟩
      rw [hc a ha b hb]
      simp

theorem conn_false (a b : ℕ) (h : Conn (fun _ _ => False) a b) : a = b := by
  induction h with
  | rel _ _ h => exact h.elim
  | refl => rfl
  | symm _ _ _ ih => exact ih.symm
  | trans _ _ _ _ _ i1 i2 => exact i1.trans i2

/-- **C30.** Start from `DisjointSets(n)` and make any sequence of `merge` and `find` calls with arguments in
`0..n`. No call fails to terminate or leaves the arrays, and afterwards `find(a) == find(b)` holds exactly
when `a` and `b` are connected by the merged pairs; `find(a)` itself is an element connected to `a`. -/
theorem C30_disjointSets (n : ℕ) (ops : List DSOp) (hops : ∀ o ∈ ops, o.inRange n) :
    ∃ d, (DS.init n).runAll ops = .ok d ∧ ∀ a ≤ n, ∀ b ≤ n, ∃ d1 d2 ra rb,
      d.find a = .ok (d1, ra) ∧ d1.find b = .ok (d2, rb) ∧
      (ra = rb ↔ Conn (fun u v => .merge u v ∈ ops) a b) ∧ ra ≤ n ∧ Conn (fun u v => .merge u v ∈ ops) a ra := by
  obtain ⟨d, e, hd, hn, hc⟩ := DS.runAll_spec n ops (DS.init n) (fun _ _ => False) (DS.init_inv n) rfl (by simp)
    (by
      intro a _ b _
      rw [DS.init_root, DS.init_root]
      exact ⟨by rintro rfl; exact .refl _, conn_false a b⟩) hops
  refine ⟨d, e, fun a ha b hb => ?_⟩
  obtain ⟨d1, e1, h1, n1, _, r1⟩ := DS.find_spec hd (x := a) (by omega)
  obtain ⟨d2, e2, h2, n2, _, r2⟩ := DS.find_spec h1 (x := b) (by omega)
  simp only [false_or] at hc
  have hra : d.root a ≤ n := by have := hd.root_le (x := a) (by omega); omega
  refine ⟨d1, d2, d.root a, d1.root b, e1, e2, ?_, hra, ?_⟩
  · rw [r1 b (by omega)]; exact hc a ha b hb
  · exact (hc a ha _ hra).1 (by rw [hd.root_root (by omega)])

/-- Non-vacuity: three merges and a find on six elements. -/
example : (∀ o ∈ [DSOp.merge 0 1, .merge 2 3, .find 3, .merge 1 3], o.inRange 5) ∧
    Conn (fun u v => DSOp.merge u v ∈ [DSOp.merge 0 1, .merge 2 3, .find 3, .merge 1 3]) 0 2 := by
  refine ⟨by simp [DSOp.inRange], ?_⟩
  exact .trans _ 1 _ (.rel _ _ (by simp)) (.trans _ 3 _ (.rel _ _ (by simp)) (.symm _ _ (.rel _ _ (by simp))))

/-! ## Marked sets -/

/-- A call on a `MarkedDisjointSets`. -/
inductive MOp where
  | merge (x y : ℕ)
  | find (x : ℕ)
  | mark (x : ℕ)
  | unmark (x : ℕ)
  | isMarked (x : ℕ)

def MOp.inRange (n : ℕ) : MOp → Prop
  | .merge x y => x ≤ n ∧ y ≤ n
  | .find x | .mark x | .unmark x | .isMarked x => x ≤ n

def MOp.run (d : MDS) : MOp → Res MDS
  | .merge x y => d.merge x y
  | .find x => (d.find x).map Prod.fst
  | .mark x => d.mark x
  | .unmark x => d.unmark x
  | .isMarked x => (d.isMarked x).map Prod.fst

def MDS.runAll (d : MDS) : List MOp → Res MDS
  | [] => .ok d
  | o :: os => match o.run d with
    | .error e => .error e
    | .ok d' => runAll d' os

/-- What the calls mean: an equivalence relation and a set of marked elements. `mark x` marks the whole class
of `x`, `unmark x` unmarks it, merging with a marked class marks the union. -/
structure MSpec where
  conn : ℕ → ℕ → Prop
  marked : ℕ → Prop

def MSpec.init : MSpec := ⟨Eq, fun _ => False⟩

def MSpec.step (s : MSpec) : MOp → MSpec
  | .merge x y =>
    let c := Conn (fun u v => s.conn u v ∨ (u = x ∧ v = y))
    ⟨c, fun z => s.marked z ∨ (c x z ∧ (s.marked x ∨ s.marked y))⟩
  | .mark x => ⟨s.conn, fun z => s.marked z ∨ s.conn x z⟩
  | .unmark x => ⟨s.conn, fun z => s.marked z ∧ ¬ s.conn x z⟩
  | .find _ | .isMarked _ => s

/-- The model state represents the abstract state on `0..n`. -/
structure MDS.Rep (n : ℕ) (d : MDS) (s : MSpec) : Prop where
  inv : d.toDS.Inv
  hn : d.n = n
  eqv : Equivalence s.conn
  rng : ∀ a b, s.conn a b → (a ≤ n ↔ b ≤ n)
  conn : ∀ a ≤ n, ∀ b ≤ n, d.root a = d.root b ↔ s.conn a b
  mkd : ∀ a ≤ n, d.marked (d.root a) = true ↔ s.marked a

theorem MDS.find_rep {n : ℕ} {d : MDS} {s : MSpec} (h : d.Rep n s) {x : ℕ} (hx : x ≤ n) :
    ∃ d', d.find x = .ok (d', d.root x) ∧ d'.Rep n s ∧ (∀ a ≤ n, d'.root a = d.root a) ∧ d'.marked = d.marked := by
  obtain ⟨d1, e1, h1, n1, _, r1⟩ := DS.find_spec h.inv (x := x) (by rw [h.hn]; exact hx)
  have r1' : ∀ a ≤ n, d1.root a = d.root a := fun a ha => r1 a (by rw [h.hn]; exact ha)
  refine ⟨{ d with toDS := d1 }, by unfold MDS.find; rw [e1], ⟨h1, by rw [← h.hn]; exact n1, h.eqv, h.rng, ?_, ?_⟩, r1', rfl⟩
  · intro a ha b hb; rw [← h.conn a ha b hb, ← r1' a ha, ← r1' b hb]
  · intro a ha; rw [← h.mkd a ha, ← r1' a ha]

theorem MDS.step_rep {n : ℕ} {d : MDS} {s : MSpec} (h : d.Rep n s) (o : MOp) (ho : o.inRange n) :
    ∃ d', o.run d = .ok d' ∧ d'.Rep n (s.step o) := by
  cases o with
  | find x =>
    obtain ⟨d1, e1, h1, -, -⟩ := MDS.find_rep h (x := x) ho
    exact ⟨d1, by simp [MOp.run, e1, Except.map], h1⟩
  | isMarked x =>
    obtain ⟨d1, e1, h1, -, -⟩ := MDS.find_rep h (x := x) ho
    exact ⟨d1, by simp [MOp.run, MDS.isMarked, e1, Except.map], h1⟩
  | mark x =>
    have hx : x ≤ n := ho
    obtain ⟨d1, e1, h1, r1, m1⟩ := MDS.find_rep h (x := x) ho
    refine ⟨{ d1 with marked := fun i => if i = d.root x then true else d1.marked i }, by simp [MOp.run, MDS.mark, e1],
      ⟨h1.inv, h1.hn, h.eqv, h.rng, h1.conn, ?_⟩⟩
    intro a ha
    show (if d1.root a = d.root x then true else d1.marked (d1.root a)) = true ↔ s.marked a ∨ s.conn x a
    rw [← h.conn x hx a ha, r1 a ha]
    split_ifs with c
    · simp [c]
    · rw [m1, h.mkd a ha]
      constructor
      · exact Or.inl
      · rintro (k | k)
        · exact k
        · exact absurd k.symm c
  | unmark x =>
    have hx : x ≤ n := ho
    obtain ⟨d1, e1, h1, r1, m1⟩ := MDS.find_rep h (x := x) ho
    refine ⟨{ d1 with marked := fun i => if i = d.root x then false else d1.marked i }, by simp [MOp.run, MDS.unmark, e1],
      ⟨h1.inv, h1.hn, h.eqv, h.rng, h1.conn, ?_⟩⟩
    intro a ha
    show (if d1.root a = d.root x then false else d1.marked (d1.root a)) = true ↔ s.marked a ∧ ¬ s.conn x a
    rw [← h.conn x hx a ha, r1 a ha]
    split_ifs with c
    · simp [c]
    · rw [m1, h.mkd a ha]
      exact ⟨fun k => ⟨k, fun e => c e.symm⟩, fun k => k.1⟩
  | merge x y =>
    obtain ⟨hx, hy⟩ := ho
    obtain ⟨d1, e1, h1, r1, m1⟩ := MDS.find_rep h (x := x) hx
    obtain ⟨d2, e2, h2, r2, m2⟩ := MDS.find_rep h1 (x := y) hy
    have rr : ∀ z ≤ n, d2.root z = d.root z := fun z hz => by rw [r2 z hz, r1 z hz]
    have fx : ∀ z ≤ n, d2.parent (d.root z) = d.root z := by
      intro z hz; rw [← rr z hz]; exact h2.inv.root_fixed (by rw [h2.hn]; exact hz)
    have lx : d.root x ≤ d2.n := by
      have := h.inv.root_le (x := x) (by rw [h.hn]; exact hx); rw [h2.hn, ← h.hn]; exact this
    have ly : d.root y ≤ d2.n := by
      have := h.inv.root_le (x := y) (by rw [h.hn]; exact hy); rw [h2.hn, ← h.hn]; exact this
    obtain ⟨a, b, r, hr, c⟩ := DS.link_spec h2.inv lx ly (fx x hx) (fx y hy)
    have c' : ∀ z ≤ n, (d2.toDS.link (d.root x) (d.root y)).root z =
        if d.root z = d.root x ∨ d.root z = d.root y then r else d.root z := by
      intro z hz; rw [c z (by rw [h2.hn]; exact hz), rr z hz]
    -- connectivity: `s.conn` restricted to the range is the generating relation
    have eqc : ∀ u v, Conn s.conn u v ↔ s.conn u v := by
      intro u v
      constructor
      · intro k
        induction k with
        | rel _ _ k => exact k
        | refl => exact h.eqv.refl _
        | symm _ _ _ ih => exact h.eqv.symm ih
        | trans _ _ _ _ _ i1 i2 => exact h.eqv.trans i1 i2
      · exact .rel _ _
    have hroot : ∀ u ≤ n, ∀ v ≤ n, d.root u = d.root v ↔ Conn s.conn u v := fun u hu v hv => by
      rw [eqc]; exact h.conn u hu v hv
    have hc := conn_merge h.rng hx hy hroot hr c'
    have mx : ∀ z ≤ n, d2.marked (d.root z) = true ↔ s.marked z := fun z hz => by rw [m2, m1]; exact h.mkd z hz
    refine ⟨_, by simp only [MOp.run, MDS.merge, e1, e2]; rfl, ⟨?_, ?_, ?_, ?_, ?_, ?_⟩⟩
    · rw [r1 y hy]; exact a
    · exact b.trans h2.hn
    · exact Relation.EqvGen.is_equivalence _
    · intro u v k
      change Conn _ u v at k
      induction k with
      | rel u v k =>
        rcases k with k | ⟨rfl, rfl⟩
        · exact h.rng _ _ k
        · exact ⟨fun _ => hy, fun _ => hx⟩
      | refl => exact Iff.rfl
      | symm _ _ _ ih => exact ih.symm
      | trans _ _ _ _ _ i1 i2 => exact i1.trans i2
    · intro u hu v hv; rw [r1 y hy]; exact hc u hu v hv
    · intro u hu
      rw [r1 y hy]
      show (if d2.marked (d.root x) || d2.marked (d.root y) then _ else d2.marked) _ = true ↔
        s.marked u ∨ (Conn _ x u ∧ (s.marked x ∨ s.marked y))
      rw [← hc x hx u hu, c' u hu, c' x hx, if_pos (Or.inl rfl), ← mx x hx, ← mx y hy, ← mx u hu]
      by_cases k : d.root u = d.root x ∨ d.root u = d.root y
      · rw [if_pos k]
        by_cases q : (d2.marked (d.root x) || d2.marked (d.root y)) = true
        · rw [if_pos q]
          rw [Bool.or_eq_true] at q
          rcases hr with rfl | rfl <;> simp [q]
        · rw [if_neg q]
          rw [Bool.or_eq_true, not_or] at q
          rcases hr with rfl | rfl <;> rcases k with k | k <;> simp [k, q]
      · rw [if_neg k]
        have nr : r ≠ d.root u := by
          rintro rfl; exact k hr
        rw [not_or] at k
        split_ifs <;> simp [k, nr]

theorem MDS.runAll_rep {n : ℕ} (ops : List MOp) : ∀ {d : MDS} {s : MSpec}, d.Rep n s → (∀ o ∈ ops, o.inRange n) →
    ∃ d', d.runAll ops = .ok d' ∧ d'.Rep n (ops.foldl MSpec.step s) := by
  induction ops with
  | nil => intro d s h _; exact ⟨d, rfl, h⟩
  | cons o ops ih =>
    intro d s h ho
    obtain ⟨d1, e1, h1⟩ := MDS.step_rep h o (ho o (by simp))
    obtain ⟨d2, e2, h2⟩ := ih h1 (fun o k => ho o (by simp [k]))
    exact ⟨d2, by simp only [MDS.runAll, e1]; exact e2, h2⟩

/-- **C30, marked sets.** After any sequence of calls with arguments in `0..n` on `MarkedDisjointSets(n)`, `find`
distinguishes exactly the classes of the merged pairs and `isMarked(a)` tells exactly whether `a` is marked in
the abstract sense of `MSpec`. -/
theorem C30_markedDisjointSets (n : ℕ) (ops : List MOp) (hops : ∀ o ∈ ops, o.inRange n) :
    ∃ d, (MDS.init n).runAll ops = .ok d ∧
      (∀ a ≤ n, ∀ b ≤ n, ∃ d1 d2 ra rb, d.find a = .ok (d1, ra) ∧ d1.find b = .ok (d2, rb) ∧
        (ra = rb ↔ (ops.foldl MSpec.step MSpec.init).conn a b)) ∧
      (∀ a ≤ n, ∃ d1 q, d.isMarked a = .ok (d1, q) ∧ (q = true ↔ (ops.foldl MSpec.step MSpec.init).marked a)) := by
  obtain ⟨d, e, h⟩ := MDS.runAll_rep ops (n := n) (d := MDS.init n) (s := MSpec.init)
    ⟨DS.init_inv n, rfl, eq_equivalence, fun a b (h : a = b) => by rw [h],
      fun a _ b _ => by
        show (DS.init n).root a = (DS.init n).root b ↔ a = b
        rw [DS.init_root, DS.init_root], fun a _ => by simp [MDS.init, MSpec.init]⟩ hops
  refine ⟨d, e, fun a ha b hb => ?_, fun a ha => ?_⟩
  · obtain ⟨d1, e1, h1, r1, _⟩ := MDS.find_rep h (x := a) ha
    obtain ⟨d2, e2, h2, r2, _⟩ := MDS.find_rep h1 (x := b) hb
    exact ⟨d1, d2, _, _, e1, e2, by rw [r1 b hb]; exact h.conn a ha b hb⟩
  · obtain ⟨d1, e1, h1, r1, m1⟩ := MDS.find_rep h (x := a) ha
    exact ⟨d1, _, by unfold MDS.isMarked; rw [e1], by rw [m1]; exact h.mkd a ha⟩

/-- Non-vacuity: mark, merge, unmark. -/
example : (∀ o ∈ [MOp.mark 0, .merge 0 1, .merge 2 3, .unmark 3, .find 1], o.inRange 3) ∧
    ([MOp.mark 0, .merge 0 1].foldl MSpec.step MSpec.init).marked 1 := by
  refine ⟨by simp [MOp.inRange], ?_⟩
  right
  exact ⟨.rel _ _ (Or.inr ⟨rfl, rfl⟩), Or.inl (Or.inr rfl)⟩

end GC
