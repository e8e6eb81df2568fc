import Verif.Mollify
import Verif.Props.Nav
import Mathlib.Tactic.Linarith
import Mathlib.Tactic.NormNum

/-! # C43: intrinsic mollification -/

namespace GC
open Mesh

/-- The triangle inequality with slack `δ` at one corner of a face: the halfedge `h` and its successors. -/
def SlackAt (m : Mesh) (len : ℕ → ℝ) (δ : ℝ) (h : ℕ) : Prop :=
  δ ≤ len (h / 2) + len (m.heNext h / 2) - len (m.heNext (m.heNext h) / 2)

theorem mollifyEps_spec (m : Mesh) (len : ℕ → ℝ) (δ : ℝ) (hs : List ℕ) (e0 : ℝ) :
    let r := hs.foldl (fun eps he => max eps (len (heEdge (m.heNext (m.heNext he))) - len (heEdge he) - len (heEdge (m.heNext he)) + δ)) e0
    e0 ≤ r ∧ (∀ h ∈ hs, len (m.heNext (m.heNext h) / 2) - len (h / 2) - len (m.heNext h / 2) + δ ≤ r) ∧
      ∀ x, e0 ≤ x → (∀ h ∈ hs, len (m.heNext (m.heNext h) / 2) - len (h / 2) - len (m.heNext h / 2) + δ ≤ x) → r ≤ x := by
  induction hs generalizing e0 with
  | nil => exact ⟨le_refl _, by simp, fun x h _ => h⟩
  | cons a l ih =>
    obtain ⟨h1, h2, h3⟩ := ih (max e0 (len (heEdge (m.heNext (m.heNext a))) - len (heEdge a) - len (heEdge (m.heNext a)) + δ))
    simp only [List.foldl_cons]
    refine ⟨le_trans (le_max_left _ _) h1, ?_, ?_⟩
    · intro h hh
      rcases List.mem_cons.1 hh with rfl | hh
      · exact le_trans (le_max_right _ _) h1
      · exact h2 h hh
    · intro x hx hall
      refine h3 x (max_le hx (hall a (by simp))) (fun h hh => hall h (List.mem_cons_of_mem _ hh))

theorem foldl_offset (es : List ℕ) (hnd : es.Nodup) (eps : ℝ) (len : ℕ → ℝ) (i : ℕ) :
    es.foldl (fun (l : ℕ → ℝ) e => fun i => if i = e then l i + eps else l i) len i = if i ∈ es then len i + eps else len i := by
  induction es generalizing len with
  | nil => simp
  | cons a l ih =>
    obtain ⟨ha, hl⟩ := List.nodup_cons.1 hnd
    rw [List.foldl_cons, ih hl]
    by_cases h1 : i = a
    · subst h1; simp [ha]
    · simp [h1]

/-- **C43.** On every valid mesh, for all edge lengths and every `δ`: all edges grow by the same amount `eps ≥ 0`,
afterwards every corner of every face has slack at least `δ`, no smaller common amount does, and nothing changes if the
slack was there from the start. (For a triangle the three corners are its three halfedges.) -/
theorem C43_absolute (m : Mesh) (hv : m.Valid) (len : ℕ → ℝ) (δ : ℝ) :
    ∃ eps len', m.mollifyAbsolute len δ = .ok len' ∧ 0 ≤ eps ∧
      (∀ e, m.heLive (2 * e) → len' e = len e + eps) ∧ (∀ e, ¬ m.heLive (2 * e) → len' e = len e) ∧
      (∀ h, m.heLive h → ¬ m.ext h → SlackAt m len' δ h) ∧
      (∀ eps', 0 ≤ eps' → (∀ h, m.heLive h → ¬ m.ext h → SlackAt m (fun e => len e + eps') δ h) → eps ≤ eps') ∧
      ((∀ h, m.heLive h → ¬ m.ext h → SlackAt m len δ h) → len' = len) := by
  obtain ⟨-, -, ⟨hs, hh1, hh2, -⟩, -, ⟨es, he1, he2, -⟩, -⟩ := C16_ranges m hv
  have hes : ∀ e, e ∈ es ↔ m.heLive (2 * e) := he2.2
  have hhs : ∀ h, h ∈ hs ↔ m.heLive h ∧ ¬ m.ext h := hh2.2
  obtain ⟨p1, p2, p3⟩ := mollifyEps_spec m len δ hs 0
  have hnd : es.Nodup := by
    have := he2.1
    exact this.imp (fun h => ne_of_lt h)
  have hok : m.mollifyAbsolute len δ =
      .ok (es.foldl (fun l e => fun i => if i = e then l i + m.mollifyEps len δ hs else l i) len) := by
    unfold mollifyAbsolute
    rw [hh1, he1]
  have hval : ∀ i, es.foldl (fun (l : ℕ → ℝ) e => fun i => if i = e then l i + m.mollifyEps len δ hs else l i) len i =
      if i ∈ es then len i + m.mollifyEps len δ hs else len i := foldl_offset es hnd _ len
  have hedge : ∀ h, m.heLive h → m.heLive (2 * (h / 2)) := by
    intro h hl
    rcases Nat.mod_two_eq_zero_or_one h with h0 | h0
    · rwa [show 2 * (h / 2) = h by omega]
    · have := hv.twin_live _ hl
      rwa [show h = 2 * (h / 2) + 1 by omega, twin_two_mul_add] at this
  have heps : m.mollifyEps len δ hs = hs.foldl (fun eps he => max eps (len (heEdge (m.heNext (m.heNext he))) - len (heEdge he) - len (heEdge (m.heNext he)) + δ)) 0 := rfl
  rw [← heps] at p1 p2 p3
  generalize m.mollifyEps len δ hs = eps at *
  refine ⟨eps, _, hok, p1, ?_, ?_, ?_, ?_, ?_⟩
  · intro e hl
    rw [hval, if_pos ((hes e).2 hl)]
  · intro e hl
    rw [hval, if_neg (fun h => hl ((hes e).1 h))]
  · intro h hl hx
    have h1 := hv.next_live _ hl
    have h2 := hv.next_live _ h1
    unfold SlackAt
    rw [hval, hval, hval, if_pos ((hes _).2 (hedge _ hl)), if_pos ((hes _).2 (hedge _ h1)), if_pos ((hes _).2 (hedge _ h2))]
    have := p2 h ((hhs h).2 ⟨hl, hx⟩)
    linarith
  · intro eps' h0 hall
    refine p3 eps' h0 (fun h hh => ?_)
    obtain ⟨hl, hx⟩ := (hhs h).1 hh
    have := hall h hl hx
    unfold SlackAt at this
    linarith
  · intro hall
    have : eps ≤ 0 := p3 0 (le_refl _) (fun h hh => by
      obtain ⟨hl, hx⟩ := (hhs h).1 hh
      have := hall h hl hx
      unfold SlackAt at this
      linarith)
    have h0 : eps = 0 := le_antisymm this p1
    funext i
    rw [hval, h0]
    split <;> simp

/-- **C43, relative version.** `mollifyIntrinsic` guarantees slack `factor · mean edge length`. -/
theorem C43_relative (m : Mesh) (hv : m.Valid) (len : ℕ → ℝ) (factor : ℝ) :
    ∃ es : List ℕ, IsRange es (fun e => m.heLive (2 * e)) ∧ es.length = m.nE ∧
    ∃ eps len', m.mollify len factor = .ok len' ∧ 0 ≤ eps ∧ (∀ e, m.heLive (2 * e) → len' e = len e + eps) ∧
      ∀ h, m.heLive h → ¬ m.ext h → SlackAt m len' (factor * ((es.map len).sum / es.length)) h := by
  obtain ⟨-, -, -, -, ⟨es, he1, he2, he3⟩, -⟩ := C16_ranges m hv
  refine ⟨es, he2, he3, ?_⟩
  obtain ⟨eps, len', h1, h2, h3, -, h5, -⟩ := C43_absolute m hv len (factor * ((es.map len).sum / es.length))
  refine ⟨eps, len', ?_, h2, h3, h5⟩
  unfold mollify
  rw [he1]
  simp only
  rw [← h1]
  congr 1
  have : ∀ (l : List ℕ) (x : ℝ), l.foldl (fun s e => s + len e) x = x + (l.map len).sum := by
    intro l
    induction l with
    | nil => intro x; simp
    | cons a l ih => intro x; simp [ih, add_assoc]
  rw [this, he3, zero_add, mul_comm]

/-- A degenerate example: a tetrahedron with one edge of length 3 and the others 1 violates the triangle inequality, so
the edges have to grow. -/
example : ¬ SlackAt tetra (fun e => if e = 2 then 3 else 1) 0 0 := by
  unfold SlackAt
  have h1 : tetra.heNext 0 = 2 := by decide +kernel
  have h2 : tetra.heNext 2 = 4 := by decide +kernel
  rw [h1, h2]; norm_num

end GC
