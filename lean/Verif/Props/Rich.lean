import Verif.Rich
import Verif.Compress
import Verif.MeshCheck
import Verif.Props.MeshBuild
import Verif.Props.InsertFace

/-! # C36: saving and loading a mesh with `RichSurfaceMeshData` -/

namespace GC

theorem fromSmall_toSmall {v : ℕ} (h : v = INV ∨ v < 2 ^ 32 - 1) : fromSmall (toSmall v) = v := by
  unfold fromSmall toSmall
  rcases h with rfl | h
  · rw [if_pos rfl, if_pos rfl]
  · have hI : (2 : ℕ) ^ 32 < INV := by decide
    have h1 : v % 2 ^ 32 = v := Nat.mod_eq_of_lt (by omega)
    rw [if_neg (show v ≠ INV by omega), h1, if_neg (by omega)]

theorem slice_length (a : ℕ → ℕ) (b n : ℕ) : (slice a b n).length = n := by simp [slice]

theorem vec_slice {a : ℕ → ℕ} {b n i : ℕ} (hi : i < n) : Mesh.vec ((slice a b n).map fromSmall) i = fromSmall (toSmall (a (b + i))) := by
  unfold Mesh.vec slice
  rw [List.getD_eq_getElem?_getD]
  simp [hi]

theorem count_alive {a b : ℕ → ℕ} {n : ℕ} (h : ∀ i < n, b i = a i) :
    n - Nat.count (fun i => b i = INV) n = Nat.count (fun i => a i ≠ INV) n := by
  have : Nat.count (fun i => b i = INV) n + Nat.count (fun i => a i ≠ INV) n = n := by
    induction n with
    | zero => rfl
    | succ n ih =>
      have h1 := ih (fun i hi => h i (by omega))
      have h2 := h n (by omega)
      rw [Nat.count_succ, Nat.count_succ]
      split_ifs <;> first | omega | (exfalso; simp_all)
  omega

theorem length_filter_count {p : ℕ → Prop} [DecidablePred p] (q : ℕ → Bool) (n : ℕ) (h : ∀ i < n, q i = true ↔ p i) :
    ((List.range n).filter q).length = Nat.count p n := by
  induction n with
  | zero => rfl
  | succ n ih =>
    rw [List.range_succ, List.filter_append, List.length_append, ih (fun i hi => h i (by omega)), Nat.count_succ,
      List.filter_cons, List.filter_nil]
    have := h n (by omega)
    by_cases hq : q n = true
    · rw [if_pos hq, if_pos (this.1 hq)]; rfl
    · rw [if_neg hq, if_neg (fun hp => hq (this.2 hp))]; rfl

theorem getD_app_left {l r : List ℕ} {i : ℕ} (h : i < l.length) : (l ++ r).getD i 0 = l.getD i 0 := by
  rw [List.getD_eq_getElem?_getD, List.getD_eq_getElem?_getD, List.getElem?_append_left h]

theorem getD_app_right {l r : List ℕ} {i : ℕ} (h : l.length ≤ i) : (l ++ r).getD i 0 = r.getD (i - l.length) 0 := by
  rw [List.getD_eq_getElem?_getD, List.getD_eq_getElem?_getD, List.getElem?_append_right h]

namespace Mesh

/-- Two meshes agree on everything that is in use. -/
structure Agree (m m' : Mesh) : Prop where
  fills : m'.nHeFill = m.nHeFill ∧ m'.nVFill = m.nVFill ∧ m'.nEFill = m.nEFill ∧ m'.nFFill = m.nFFill ∧ m'.nBLFill = m.nBLFill
  next : ∀ i < m.nHeFill, m'.heNext i = m.heNext i
  vert : ∀ i, m.heLive i → m'.heVertex i = m.heVertex i
  face : ∀ i, m.heLive i → m'.heFace i = m.heFace i
  vh : ∀ v < m.nVFill, m'.vHalfedge v = m.vHalfedge v
  fh : ∀ f, (f < m.nFFill ∨ m.nFCap - m.nBLFill ≤ f ∧ f < m.nFCap) → m'.fHalfedge f = m.fHalfedge f
  slot : m.nBLFill = 0 ∨ m'.nFCap = m.nFCap
  counts : m'.nHe = m.nHe ∧ m'.nInt = m.nInt ∧ m'.nE = m.nE ∧ m'.nV = m.nV ∧ m'.nF = m.nF ∧ m'.nBL = m.nBL

namespace Agree
variable {m m' : Mesh}

theorem heLive (h : Agree m m') (i : ℕ) : m'.heLive i ↔ m.heLive i := by
  unfold Mesh.heLive
  rw [h.fills.1]
  exact and_congr_right (fun hi => by rw [h.next i hi])

theorem vLive (h : Agree m m') (v : ℕ) : m'.vLive v ↔ m.vLive v := by
  unfold Mesh.vLive
  rw [h.fills.2.1]
  exact and_congr_right (fun hi => by rw [h.vh v hi])

theorem rng (h : Agree m m') (f : ℕ) : (f < m'.nFFill ∨ m'.nFCap - m'.nBLFill ≤ f ∧ f < m'.nFCap) ↔
    (f < m.nFFill ∨ m.nFCap - m.nBLFill ≤ f ∧ f < m.nFCap) := by
  rw [h.fills.2.2.2.1, h.fills.2.2.2.2]
  rcases h.slot with h1 | h1
  · rw [h1]; omega
  · rw [h1]

theorem fLive (h : Agree m m') (f : ℕ) : m'.fLive f ↔ m.fLive f := by
  unfold Mesh.fLive
  rw [h.rng]
  exact and_congr_right (fun hi => by rw [h.fh f hi])

theorem ext (h : Agree m m') {i : ℕ} (hi : m.heLive i) : m'.ext i ↔ m.ext i := by
  unfold Mesh.ext
  rw [h.face i hi, h.fills.2.2.2.1]

/-- A mesh that agrees with a valid one is valid, if its capacities are in order. -/
theorem valid (h : Agree m m') (hv : m.Valid) (h1 : m'.nHeFill ≤ m'.nHeCap ∧ m'.nHeCap < INV) (h2 : m'.nHeCap = 2 * m'.nECap)
    (h3 : m'.nVFill ≤ m'.nVCap ∧ m'.nVCap < INV) (h4 : m'.nFFill + m'.nBLFill ≤ m'.nFCap ∧ m'.nFCap < INV) : m'.Valid where
  he_fill := by rw [h.fills.1, h.fills.2.2.1]; exact hv.he_fill
  he_cap := h1
  e_cap := h2
  v_cap := h3
  f_cap := h4
  twin_live i hi := by rw [h.heLive] at hi ⊢; exact hv.twin_live i hi
  next_live i hi := by
    rw [h.heLive] at hi
    rw [h.heLive, h.next i hi.1]
    exact hv.next_live i hi
  vertex_live i hi := by
    rw [h.heLive] at hi
    rw [h.vLive, h.vert i hi]
    exact hv.vertex_live i hi
  face_live i hi := by
    rw [h.heLive] at hi
    rw [h.fLive, h.face i hi]
    exact hv.face_live i hi
  face_iff i j hi hj := by
    rw [h.heLive] at hi hj
    rw [h.face i hi, h.face j hj, hv.face_iff i j hi hj]
    exact Orb.congr m.heLive hi (fun z hz => hv.next_live z hz) (fun z hz => (h.next z hz.1).symm)
  vertex_iff i j hi hj := by
    rw [h.heLive] at hi hj
    rw [h.vert i hi, h.vert j hj, hv.vertex_iff i j hi hj]
    exact Orb.congr m.heLive hi (fun z hz => hv.next_live _ (hv.twin_live z hz))
      (fun z hz => (h.next _ (hv.twin_live z hz).1).symm)
  v_he v hl := by
    rw [h.vLive] at hl
    rw [h.vh v hl.1, h.heLive]
    obtain ⟨a, b⟩ := hv.v_he v hl
    exact ⟨a, by rw [h.vert _ a]; exact b⟩
  f_he f hl := by
    rw [h.fLive] at hl
    rw [h.fh f hl.1, h.heLive]
    obtain ⟨a, b⟩ := hv.f_he f hl
    exact ⟨a, by rw [h.face _ a]; exact b⟩
  deg_two i hi := by
    rw [h.heLive] at hi
    rw [h.next i hi.1]
    exact hv.deg_two i hi
  edge_int e he := by
    rw [h.heLive] at he
    rw [h.ext he]
    exact hv.edge_int e he
  bdy_unique i j hi hj h1 h2 h3 := by
    rw [h.heLive] at hi hj
    rw [h.ext hi] at h1
    rw [h.ext hj] at h2
    rw [h.vert i hi, h.vert j hj] at h3
    exact hv.bdy_unique i j hi hj h1 h2 h3
  bdy_first i hi h1 := by
    rw [h.heLive] at hi
    rw [h.ext hi] at h1
    have hl := hv.vertex_live i hi
    rw [h.vert i hi, h.vh _ hl.1, h.ext (hv.twin_live _ (hv.v_he _ hl).1)]
    exact hv.bdy_first i hi h1
  cnt_he := by
    rw [h.counts.1, h.fills.1, hv.cnt_he]
    exact count_congr (fun i hi => by rw [h.next i hi])
  cnt_int := by
    rw [h.counts.2.1, h.fills.1, hv.cnt_int]
    apply count_congr
    intro i hi
    rw [h.next i hi, h.fills.2.2.2.1]
    exact and_congr_right (fun h1 => by rw [h.face i ⟨hi, h1⟩])
  cnt_e := by
    rw [h.counts.2.2.1, h.fills.2.2.1, hv.cnt_e]
    apply count_congr
    intro e he
    have := hv.he_fill
    rw [h.next _ (show eHalfedge e < m.nHeFill by unfold eHalfedge; omega)]
  cnt_v := by
    rw [h.counts.2.2.2.1, h.fills.2.1, hv.cnt_v]
    exact count_congr (fun i hi => by rw [h.vh i hi])
  cnt_f := by
    rw [h.counts.2.2.2.2.1, h.fills.2.2.2.1, hv.cnt_f]
    exact count_congr (fun f hf => by rw [h.fh f (.inl hf)])
  cnt_bl := by rw [h.counts.2.2.2.2.2, h.fills.2.2.2.2]; exact hv.cnt_bl
  bl_live f h5 h6 := by
    have h7 := (h.rng f).1 (.inr ⟨h5, h6⟩)
    rw [h.fh f h7]
    rcases h.slot with h8 | h8
    · have := h.fills.2.2.2.2
      omega
    · rw [h8, h.fills.2.2.2.2] at h5
      rw [h8] at h6
      exact hv.bl_live f h5 h6

end Agree

variable {m : Mesh}

/-- No boundary loops, or no spare slot between the faces and the boundary loops. -/
def NoGap (m : Mesh) : Prop := m.nBLFill = 0 ∨ m.nFCap = m.nFFill + m.nBLFill

/-- Indices are small enough for 32 bits. -/
def Small (m : Mesh) : Prop := m.nHeFill < 2 ^ 32 ∧ m.nVFill < 2 ^ 32 ∧ m.nFFill + m.nBLFill < 2 ^ 32

theorem vec_next (hv : m.Valid) (hs : m.Small) {i : ℕ} (hi : i < m.nHeFill) : (load m.save).heNext i = m.heNext i := by
  show vec ((slice m.heNext 0 m.nHeFill).map fromSmall) i = _
  rw [vec_slice hi, Nat.zero_add, fromSmall_toSmall]
  by_cases h : m.heNext i = INV
  · exact .inl h
  · have := (hv.next_live i ⟨hi, h⟩).1
    have := hs.1
    exact .inr (by omega)

theorem load_agree (hv : m.Valid) (hs : m.Small) (hg : m.NoGap) : Agree m (load m.save) := by
  have hI : (2 : ℕ) ^ 32 < INV := by decide
  have hFC := hv.f_cap
  have hfl : ∀ f, m.fLive f → f < m.nFFill + m.nBLFill := by
    rintro f ⟨h1 | ⟨h1, h2⟩, -⟩
    · omega
    · rcases hg with h | h <;> omega
  have hlen : (load m.save).nHeFill = m.nHeFill := by
    show ((slice m.heNext 0 m.nHeFill).map fromSmall).length = _
    rw [List.length_map, slice_length]
  have hlenV : (load m.save).nVFill = m.nVFill := by
    show ((slice m.vHalfedge 0 m.nVFill).map fromSmall).length = _
    rw [List.length_map, slice_length]
  have hlenB : (load m.save).nBLFill = m.nBLFill := slice_length _ _ _
  have hcap : (load m.save).nFCap = m.nFFill + m.nBLFill := by
    show ((slice m.fHalfedge 0 m.nFFill).map fromSmall ++ (slice m.fHalfedge (m.nFCap - m.nBLFill) m.nBLFill).map fromSmall).length = _
    rw [List.length_append, List.length_map, List.length_map, slice_length, slice_length]
  have hF : (load m.save).nFFill = m.nFFill := by
    show (load m.save).nFCap - (load m.save).nBLFill = _
    rw [hcap, hlenB]; omega
  have hE : (load m.save).nEFill = m.nEFill := by
    show (load m.save).nHeFill / 2 = _
    rw [hlen, hv.he_fill]; omega
  have hvert : ∀ i, m.heLive i → (load m.save).heVertex i = m.heVertex i := by
    intro i hi
    show vec ((slice m.heVertex 0 m.nHeFill).map fromSmall) i = _
    rw [vec_slice hi.1, Nat.zero_add, fromSmall_toSmall]
    have := (hv.vertex_live i hi).1
    have := hs.2.1
    exact .inr (by omega)
  have hface : ∀ i, m.heLive i → (load m.save).heFace i = m.heFace i := by
    intro i hi
    show vec ((slice m.heFace 0 m.nHeFill).map fromSmall) i = _
    rw [vec_slice hi.1, Nat.zero_add, fromSmall_toSmall]
    have := hfl _ (hv.face_live i hi)
    have := hs.2.2
    exact .inr (by omega)
  have hvh : ∀ v < m.nVFill, (load m.save).vHalfedge v = m.vHalfedge v := by
    intro v hl
    show vec ((slice m.vHalfedge 0 m.nVFill).map fromSmall) v = _
    rw [vec_slice hl, Nat.zero_add, fromSmall_toSmall]
    by_cases h : m.vHalfedge v = INV
    · exact .inl h
    · have := (hv.v_he v ⟨hl, h⟩).1.1
      have := hs.1
      exact .inr (by omega)
  have hsm : ∀ f, (f < m.nFFill ∨ m.nFCap - m.nBLFill ≤ f ∧ f < m.nFCap) → fromSmall (toSmall (m.fHalfedge f)) = m.fHalfedge f := by
    intro f hf
    apply fromSmall_toSmall
    by_cases h : m.fHalfedge f = INV
    · exact .inl h
    · have := (hv.f_he f ⟨hf, h⟩).1.1
      have := hs.1
      exact .inr (by omega)
  have hfh : ∀ f, (f < m.nFFill ∨ m.nFCap - m.nBLFill ≤ f ∧ f < m.nFCap) → (load m.save).fHalfedge f = m.fHalfedge f := by
    intro f hf
    show vec ((slice m.fHalfedge 0 m.nFFill).map fromSmall ++ (slice m.fHalfedge (m.nFCap - m.nBLFill) m.nBLFill).map fromSmall) f = _
    have hl : ((slice m.fHalfedge 0 m.nFFill).map fromSmall).length = m.nFFill := by rw [List.length_map, slice_length]
    by_cases h1 : f < m.nFFill
    · have h2 := vec_slice (a := m.fHalfedge) (b := 0) h1
      unfold vec at h2 ⊢
      rw [getD_app_left (by rw [hl]; exact h1), h2, Nat.zero_add, hsm f hf]
    · have h3 : m.nFCap - m.nBLFill ≤ f ∧ f < m.nFCap := by omega
      have h5 : m.nFCap = m.nFFill + m.nBLFill := by
        rcases hg with h | h <;> omega
      have h2 := vec_slice (a := m.fHalfedge) (b := m.nFCap - m.nBLFill) (n := m.nBLFill) (i := f - m.nFFill) (by omega)
      unfold vec at h2 ⊢
      rw [getD_app_right (by rw [hl]; omega), hl, h2, show m.nFCap - m.nBLFill + (f - m.nFFill) = f by omega, hsm f hf]
  refine ⟨⟨hlen, hlenV, hE, hF, hlenB⟩, fun i hi => vec_next hv hs hi, hvert, hface, hvh, hfh, ?_, ?_, ?_, ?_, ?_, ?_, ?_⟩
  · rcases hg with h | h
    · exact .inl h
    · exact .inr (by rw [hcap, h])
  · show (load m.save).nHeFill - Nat.count (fun i => (load m.save).heNext i = INV) (load m.save).nHeFill = _
    rw [hlen, hv.cnt_he]
    exact count_alive (fun i hi => vec_next hv hs hi)
  · show ((List.range (load m.save).nHeFill).filter (fun i => decide ((load m.save).heNext i ≠ INV ∧ ¬ (load m.save).nFFill ≤ (load m.save).heFace i))).length = _
    rw [hlen, hF, hv.cnt_int]
    apply length_filter_count
    intro i hi
    rw [decide_eq_true_eq, vec_next hv hs hi, not_le]
    exact and_congr_right (fun h1 => by rw [hface i ⟨hi, h1⟩])
  · show (load m.save).nEFill - Nat.count (fun e => (load m.save).heNext (2 * e) = INV) (load m.save).nEFill = _
    rw [hE, hv.cnt_e]
    refine count_alive (a := fun e => m.heNext (2 * e)) (b := fun e => (load m.save).heNext (2 * e)) (fun e he => ?_)
    have := hv.he_fill
    exact vec_next hv hs (by omega)
  · show (load m.save).nVFill - Nat.count (fun v => (load m.save).vHalfedge v = INV) (load m.save).nVFill = _
    rw [hlenV, hv.cnt_v]
    exact count_alive hvh
  · show (load m.save).nFFill - Nat.count (fun f => (load m.save).fHalfedge f = INV) (load m.save).nFFill = _
    rw [hF, hv.cnt_f]
    exact count_alive (fun f hf => hfh f (.inl hf))
  · show (load m.save).nBLFill - ((List.range (load m.save).nBLFill).filter (fun b => decide ((load m.save).fHalfedge ((load m.save).nFFill + b) = INV))).length = _
    rw [hlenB, hF, hv.cnt_bl]
    have : (List.range m.nBLFill).filter (fun b => decide ((load m.save).fHalfedge (m.nFFill + b) = INV)) = [] := by
      rw [List.filter_eq_nil_iff]
      intro b hb
      rw [List.mem_range] at hb
      have h5 : m.nFCap = m.nFFill + m.nBLFill := by
        rcases hg with h | h <;> omega
      have h6 := hv.bl_live (m.nFFill + b) (by omega) (by omega)
      rw [hfh _ (.inr (by omega))]
      simpa using h6
    rw [this]; rfl


/-- The loaded mesh of a valid mesh without a gap is valid. -/
theorem load_valid (hv : m.Valid) (hs : m.Small) (hg : m.NoGap) : (load m.save).Valid := by
  have hI : (2 : ℕ) ^ 32 < INV := by decide
  have hA := load_agree hv hs hg
  have h1 : (load m.save).nHeCap = (load m.save).nHeFill := rfl
  have h2 : (load m.save).nECap = (load m.save).nHeFill / 2 := rfl
  have h3 : (load m.save).nVCap = (load m.save).nVFill := rfl
  have h4 : (load m.save).nFFill = (load m.save).nFCap - (load m.save).nBLFill := rfl
  have h5 : (load m.save).nFCap = m.nFFill + m.nBLFill := by
    show ((slice m.fHalfedge 0 m.nFFill).map fromSmall ++ (slice m.fHalfedge (m.nFCap - m.nBLFill) m.nBLFill).map fromSmall).length = _
    rw [List.length_append, List.length_map, List.length_map, slice_length, slice_length]
  have hf := hA.fills
  have := hv.he_fill
  obtain ⟨hs1, hs2, hs3⟩ := hs
  exact hA.valid hv ⟨by omega, by omega⟩ (by omega) ⟨by omega, by omega⟩ ⟨by omega, by omega⟩

end Mesh

/-! ### Properties -/

theorem fillProp_ok {T : Type} (raw : List T) : ∀ (l : List ℕ) (i : ℕ) (c : ℕ → T), l.Nodup → i + l.length ≤ raw.length →
    ∃ c', fillProp raw l i c = .ok c' ∧ (∀ k (h : k < l.length), raw[i + k]? = some (c' l[k])) ∧ ∀ j ∉ l, c' j = c j := by
  intro l
  induction l with
  | nil => intro i c _ _; exact ⟨c, rfl, fun k h => absurd h (by simp), fun _ _ => rfl⟩
  | cons e l ih =>
    intro i c hn hl
    rw [List.length_cons] at hl
    have hi : i < raw.length := by omega
    obtain ⟨he, hn'⟩ := List.nodup_cons.1 hn
    obtain ⟨c', h1, h2, h3⟩ := ih (i + 1) (fun j => if j = e then raw[i] else c j) hn' (by omega)
    refine ⟨c', ?_, ?_, ?_⟩
    · unfold fillProp
      rw [List.getElem?_eq_getElem hi]
      exact h1
    · intro k hk
      cases k with
      | zero =>
        show raw[i]? = some (c' e)
        rw [h3 e he, if_pos rfl, List.getElem?_eq_getElem hi]
      | succ k =>
        have := h2 k (by simpa using hk)
        rw [show i + (k + 1) = i + 1 + k by omega, this]
        rfl
    · intro j hj
      rw [h3 j (fun h => hj (List.mem_cons_of_mem _ h))]
      exact if_neg (fun h => hj (by rw [h]; exact List.mem_cons_self))

/-- Writing a property and reading it back on a mesh with the same elements. -/
theorem prop_trip {T : Type} {n n' : ℕ} {ids ids' : Res (List ℕ)} {l : List ℕ} (h1 : ids = .ok l) (h2 : ids' = .ok l)
    (hn : l.length = n) (hn' : n' = n) (hd : l.Nodup) (data : ℕ → T) (d : T) :
    ∃ raw c, putProp n ids data = .ok raw ∧ getProp n' ids' raw d = .ok c ∧ ∀ e ∈ l, c e = data e := by
  obtain ⟨c, h3, h4, -⟩ := fillProp_ok (l.map data) l 0 (fun _ => d) hd (by simp)
  refine ⟨l.map data, c, ?_, ?_, ?_⟩
  · rw [putProp, h1]
    show (if l.length ≠ n then _ else _) = _
    rw [if_neg (by omega)]
  · rw [getProp, if_neg (by rw [List.length_map]; omega), h2]
    exact h3
  · intro e he
    obtain ⟨k, hk, rfl⟩ := List.getElem_of_mem he
    have := h4 k hk
    rw [Nat.zero_add, List.getElem?_map, List.getElem?_eq_getElem hk] at this
    exact (Option.some.inj this).symm

namespace Mesh
variable {m : Mesh}

/-- **C36** (manifold meshes; the general statement fails, see `C36_gap`). A valid mesh without boundary loops, or
without spare slots in the face array, comes back with the same live elements, the same connectivity and counters, and
is valid. Properties on vertices, halfedges, corners, edges, faces and boundary loops come back unchanged. The mesh need
not be compressed. -/
theorem C36_partial (m : Mesh) (hv : m.Valid) (hs : m.Small) (hg : m.NoGap) :
    (load m.save).Valid ∧
    (∀ i, (load m.save).heLive i ↔ m.heLive i) ∧ (∀ v, (load m.save).vLive v ↔ m.vLive v) ∧
    (∀ f, (load m.save).fLive f ↔ m.fLive f) ∧
    (∀ i, m.heLive i → (load m.save).heNext i = m.heNext i ∧ (load m.save).heVertex i = m.heVertex i ∧
      (load m.save).heFace i = m.heFace i ∧ ((load m.save).heIsInterior i ↔ m.heIsInterior i)) ∧
    (∀ v, m.vLive v → (load m.save).vHalfedge v = m.vHalfedge v) ∧
    (∀ f, m.fLive f → (load m.save).fHalfedge f = m.fHalfedge f) ∧
    ((load m.save).nHe = m.nHe ∧ (load m.save).nInt = m.nInt ∧ (load m.save).nE = m.nE ∧ (load m.save).nV = m.nV ∧
      (load m.save).nF = m.nF ∧ (load m.save).nBL = m.nBL) ∧
    (∀ (T : Type) (data : ℕ → T) (d : T),
      (∃ raw c, putProp m.nV m.rangeVertices data = .ok raw ∧
        getProp (load m.save).nV (load m.save).rangeVertices raw d = .ok c ∧ ∀ v, m.vLive v → c v = data v) ∧
      (∃ raw c, putProp m.nHe m.rangeHalfedges data = .ok raw ∧
        getProp (load m.save).nHe (load m.save).rangeHalfedges raw d = .ok c ∧ ∀ i, m.heLive i → c i = data i) ∧
      (∃ raw c, putProp m.nInt m.rangeInteriorHalfedges data = .ok raw ∧
        getProp (load m.save).nInt (load m.save).rangeInteriorHalfedges raw d = .ok c ∧
        ∀ i, m.heLive i → ¬ m.ext i → c i = data i) ∧
      (∃ raw c, putProp m.nE m.rangeEdges data = .ok raw ∧
        getProp (load m.save).nE (load m.save).rangeEdges raw d = .ok c ∧ ∀ e, m.heLive (eHalfedge e) → c e = data e) ∧
      (∃ raw c, putProp m.nF m.rangeFaces data = .ok raw ∧
        getProp (load m.save).nF (load m.save).rangeFaces raw d = .ok c ∧ ∀ f < m.nFFill, m.fLive f → c f = data f) ∧
      (∃ raw c, putProp m.nBL m.rangeBoundaryLoops data = .ok raw ∧
        getProp (load m.save).nBL (load m.save).rangeBoundaryLoops raw d = .ok c ∧ ∀ b < m.nBL, c b = data b)) := by
  have hA := load_agree hv hs hg
  have hF := hv.he_fill
  have flt : ∀ (p q : ℕ → Bool) (n : ℕ), (∀ i < n, p i = q i) → (List.range n).filter p = (List.range n).filter q := by
    intro p q n h
    exact List.filter_congr (fun i hi => h i (List.mem_range.1 hi))
  refine ⟨load_valid hv hs hg, hA.heLive, hA.vLive, hA.fLive, ?_, fun v hl => hA.vh v hl.1, fun f hl => hA.fh f hl.1, hA.counts, ?_⟩
  · intro i hi
    refine ⟨hA.next i hi.1, hA.vert i hi, hA.face i hi, ?_⟩
    exact not_congr (hA.ext hi)
  intro T data d
  refine ⟨?_, ?_, ?_, ?_, ?_, ?_⟩
  · obtain ⟨raw, c, h1, h2, h3⟩ := prop_trip (n := m.nV) (n' := (load m.save).nV) (ids' := (load m.save).rangeVertices)
      (rangeList_eq (fun v => decide (m.vHalfedge v ≠ INV)) m.nVFill) (by
        unfold rangeVertices
        rw [rangeList_eq, hA.fills.2.1]
        exact congrArg _ (flt _ _ _ (fun i hi => by rw [hA.vh i hi]))) (by
        rw [hv.cnt_v]; exact length_filter_count _ _ (fun i _ => by rw [decide_eq_true_eq])) hA.counts.2.2.2.1
      (List.nodup_range.filter _) data d
    exact ⟨raw, c, h1, h2, fun v hl => h3 v (List.mem_filter.2 ⟨List.mem_range.2 hl.1, by simpa using hl.2⟩)⟩
  · obtain ⟨raw, c, h1, h2, h3⟩ := prop_trip (n := m.nHe) (n' := (load m.save).nHe) (ids' := (load m.save).rangeHalfedges)
      (rangeList_eq (fun v => decide (m.heNext v ≠ INV)) m.nHeFill) (by
        unfold rangeHalfedges
        rw [rangeList_eq, hA.fills.1]
        exact congrArg _ (flt _ _ _ (fun i hi => by rw [hA.next i hi]))) (by
        rw [hv.cnt_he]; exact length_filter_count _ _ (fun i _ => by rw [decide_eq_true_eq])) hA.counts.1
      (List.nodup_range.filter _) data d
    exact ⟨raw, c, h1, h2, fun v hl => h3 v (List.mem_filter.2 ⟨List.mem_range.2 hl.1, by simpa using hl.2⟩)⟩
  · obtain ⟨raw, c, h1, h2, h3⟩ := prop_trip (n := m.nInt) (n' := (load m.save).nInt) (ids' := (load m.save).rangeInteriorHalfedges)
      (rangeList_eq (fun i => decide (m.heNext i ≠ INV ∧ m.heIsInterior i)) m.nHeFill) (by
        unfold rangeInteriorHalfedges
        rw [rangeList_eq, hA.fills.1]
        refine congrArg _ (flt _ _ _ (fun i hi => ?_))
        rw [decide_eq_decide, hA.next i hi]
        exact and_congr_right (fun h => not_congr (hA.ext ⟨hi, h⟩))) (by
        rw [hv.cnt_int]
        refine length_filter_count _ _ (fun i _ => ?_)
        rw [decide_eq_true_eq]
        exact and_congr_right (fun _ => not_le)) hA.counts.2.1
      (List.nodup_range.filter _) data d
    exact ⟨raw, c, h1, h2, fun v hl hx => h3 v (List.mem_filter.2 ⟨List.mem_range.2 hl.1, by rw [decide_eq_true_eq]; exact ⟨hl.2, hx⟩⟩)⟩
  · obtain ⟨raw, c, h1, h2, h3⟩ := prop_trip (n := m.nE) (n' := (load m.save).nE) (ids' := (load m.save).rangeEdges)
      (rangeList_eq (fun e => decide (m.heNext (eHalfedge e) ≠ INV)) m.nEFill) (by
        unfold rangeEdges
        rw [rangeList_eq, hA.fills.2.2.1]
        exact congrArg _ (flt _ _ _ (fun i hi => by rw [hA.next _ (show eHalfedge i < m.nHeFill by unfold eHalfedge; omega)]))) (by
        rw [hv.cnt_e]; exact length_filter_count _ _ (fun i _ => by rw [decide_eq_true_eq])) hA.counts.2.2.1
      (List.nodup_range.filter _) data d
    refine ⟨raw, c, h1, h2, fun v hl => h3 v (List.mem_filter.2 ⟨List.mem_range.2 ?_, by simpa using hl.2⟩)⟩
    have := hl.1
    unfold eHalfedge at this
    omega
  · obtain ⟨raw, c, h1, h2, h3⟩ := prop_trip (n := m.nF) (n' := (load m.save).nF) (ids' := (load m.save).rangeFaces)
      (rangeList_eq (fun v => decide (m.fHalfedge v ≠ INV)) m.nFFill) (by
        unfold rangeFaces
        rw [rangeList_eq, hA.fills.2.2.2.1]
        exact congrArg _ (flt _ _ _ (fun i hi => by rw [hA.fh i (.inl hi)]))) (by
        rw [hv.cnt_f]; exact length_filter_count _ _ (fun i _ => by rw [decide_eq_true_eq])) hA.counts.2.2.2.2.1
      (List.nodup_range.filter _) data d
    exact ⟨raw, c, h1, h2, fun v hf hl => h3 v (List.mem_filter.2 ⟨List.mem_range.2 hf, by simpa using hl.2⟩)⟩
  · have hall : ∀ b < m.nBLFill, m.fHalfedge (m.nFCap - 1 - b) ≠ INV := fun b hb => by
      have := hv.f_cap
      exact hv.bl_live _ (by omega) (by omega)
    obtain ⟨raw, c, h1, h2, h3⟩ := prop_trip (n := m.nBL) (n' := (load m.save).nBL) (ids' := (load m.save).rangeBoundaryLoops)
      (rangeList_eq (fun b => decide (m.fHalfedge (m.nFCap - 1 - b) ≠ INV)) m.nBLFill) (by
        unfold rangeBoundaryLoops
        rw [rangeList_eq, hA.fills.2.2.2.2]
        refine congrArg _ (flt _ _ _ (fun i hi => ?_))
        have := hv.f_cap
        rcases hA.slot with h | h
        · omega
        · rw [h, hA.fh _ (.inr ⟨by omega, by omega⟩)]) (by
        rw [hv.cnt_bl, length_filter_count (p := fun _ => True) _ _ (fun i hi => by simpa using hall i hi)]
        exact Nat.count_true _) hA.counts.2.2.2.2.2
      (List.nodup_range.filter _) data d
    refine ⟨raw, c, h1, h2, fun v hl => h3 v (List.mem_filter.2 ⟨List.mem_range.2 ?_, ?_⟩)⟩
    · rw [← hv.cnt_bl]; exact hl
    · simpa using hall v (by rw [← hv.cnt_bl]; exact hl)

/-- After `compress` there is no gap, so every mesh can be saved once it has been compressed (a call that does not
return early because of `isCompressedFlag`). -/
theorem C36_compressed_partial (m : Mesh) (hv : m.Valid) (hsp : m.SpareOk) (hs : m.nHe < 2 ^ 32 ∧ m.nV < 2 ^ 32 ∧ m.nF + m.nBL < 2 ^ 32) :
    ∃ m' P, m.compress false = .ok (m', some P) ∧ Agree m' (load m'.save) ∧ (load m'.save).Valid := by
  obtain ⟨m', P, h, C, -⟩ := compress_spec hv hsp
  obtain ⟨a1, a2, a3, a4⟩ := C.c_he
  obtain ⟨c1, c2, c3⟩ := C.c_v
  obtain ⟨d1, d2, d3⟩ := C.c_f
  obtain ⟨e1, e2⟩ := C.c_bl
  have hs' : m'.Small := ⟨by omega, by omega, by omega⟩
  have hg : m'.NoGap := .inr (by omega)
  exact ⟨m', P, h, load_agree (C.valid hv) hs' hg, load_valid (C.valid hv) hs' hg⟩

/-- The round trip of a mesh with boundary loops and spare slots in the face array gives an invalid mesh: the halfedges
of the last boundary loop refer to a slot behind the end of the face array. -/
theorem C36_gap (m : Mesh) (hv : m.Valid) (hs : m.Small) (hcap : m.nFCap < 2 ^ 32) (hb : m.nBLFill ≠ 0)
    (hg : m.nFFill + m.nBLFill < m.nFCap) :
    ¬ (load m.save).Valid ∧ ∃ i, (load m.save).heLive i ∧ (load m.save).nFCap ≤ (load m.save).heFace i := by
  have h1 := hv.bl_live (m.nFCap - 1) (by omega) (by omega)
  obtain ⟨h2, h3⟩ := hv.f_he (m.nFCap - 1) ⟨.inr ⟨by omega, by omega⟩, h1⟩
  have h4 : (load m.save).heLive (m.fHalfedge (m.nFCap - 1)) := by
    constructor
    · show _ < ((slice m.heNext 0 m.nHeFill).map fromSmall).length
      rw [List.length_map, slice_length]
      exact h2.1
    · rw [vec_next hv hs h2.1]; exact h2.2
  have h5 : (load m.save).heFace (m.fHalfedge (m.nFCap - 1)) = m.nFCap - 1 := by
    show vec ((slice m.heFace 0 m.nHeFill).map fromSmall) _ = _
    rw [vec_slice h2.1, Nat.zero_add, h3, fromSmall_toSmall (.inr (by omega))]
  have h6 : (load m.save).nFCap = m.nFFill + m.nBLFill := by
    show ((slice m.fHalfedge 0 m.nFFill).map fromSmall ++ (slice m.fHalfedge (m.nFCap - m.nBLFill) m.nBLFill).map fromSmall).length = _
    rw [List.length_append, List.length_map, List.length_map, slice_length, slice_length]
  have h7 : (load m.save).nFFill = m.nFFill := by
    show (load m.save).nFCap - (load m.save).nBLFill = _
    rw [h6, show (load m.save).nBLFill = m.nBLFill from slice_length _ _ _]; omega
  refine ⟨fun h => ?_, _, h4, by omega⟩
  have h8 := (h.face_live _ h4).1
  rw [h5, h7, h6] at h8
  omega

end Mesh
end GC
namespace GC.Mesh

/-- Hypotheses of `C36_partial`: two triangles with one boundary loop. -/
example : ∃ m, fromPolygons [[0, 1, 2], [2, 1, 3]] = .ok m ∧ m.Valid ∧ m.Small ∧ m.NoGap ∧ m.nBL = 1 := by
  obtain ⟨m, hm⟩ : ∃ m, fromPolygons [[0, 1, 2], [2, 1, 3]] = .ok m := ⟨_, rfl⟩
  have h : (fromPolygons [[0, 1, 2], [2, 1, 3]]).map
      (fun m => (m.nHeFill, m.nVFill, m.nFFill, m.nBLFill, m.nFCap, m.nBL)) = .ok (10, 4, 2, 1, 3, 1) := rfl
  rw [hm] at h
  have h := Except.ok.inj h
  simp only [Prod.mk.injEq] at h
  obtain ⟨h1, h2, h3, h4, h5, h6⟩ := h
  exact ⟨m, hm, (C22 _ m hm).1, ⟨by omega, by omega, by omega⟩, .inr (by omega), h6⟩

/-- Two triangles, then `insertVertex` in the first: valid, with a gap, so the round trip gives an invalid mesh. -/
theorem C36_fails : ∃ m m' v, fromPolygons [[0, 1, 2], [2, 1, 3]] = .ok m ∧ m.insertVertex 0 = .ok (m', v) ∧ m'.Valid ∧
    ¬ (load m'.save).Valid := by
  obtain ⟨m, hm⟩ : ∃ m, fromPolygons [[0, 1, 2], [2, 1, 3]] = .ok m := ⟨_, rfl⟩
  have hv := (C22 _ m hm).1
  have h : (fromPolygons [[0, 1, 2], [2, 1, 3]] >>= fun m => m.insertVertex 0).map
      (fun r => (r.1.nHeFill, r.1.nVFill, r.1.nFFill, r.1.nBLFill, r.1.nFCap)) = .ok (16, 5, 4, 1, 6) := rfl
  rw [hm] at h
  change (m.insertVertex 0).map _ = _ at h
  cases hi : m.insertVertex 0 with
  | error e => rw [hi] at h; cases h
  | ok r =>
    rw [hi] at h
    have h := Except.ok.inj h
    simp only [Prod.mk.injEq] at h
    obtain ⟨h1, h2, h3, h4, h5⟩ := h
    have hf : m.fLive 0 := by
      have h6 : (fromPolygons [[0, 1, 2], [2, 1, 3]]).map (fun m => (m.nFFill, m.fHalfedge 0)) = .ok (2, 0) := rfl
      rw [hm] at h6
      have h6 := Except.ok.inj h6
      simp only [Prod.mk.injEq] at h6
      exact ⟨.inl (by omega), by rw [h6.2]; decide⟩
    have hf0 : 0 < m.nFFill := by
      have h6 : (fromPolygons [[0, 1, 2], [2, 1, 3]]).map (fun m => m.nFFill) = .ok 2 := rfl
      rw [hm] at h6
      have h6 : m.nFFill = 2 := Except.ok.inj h6
      omega
    have hv' : r.1.Valid := by
      rcases C06_insertVertex m hv 0 hf hf0 ((Finset.range m.nHeFill).filter (fun i => m.heNext i ≠ INV ∧ m.heFace i = 0))
        (by intro i; simp only [Finset.mem_filter, Finset.mem_range]; unfold Mesh.heLive; tauto) with ⟨h6, -⟩ | ⟨m', h6, h7, -⟩
      · rw [hi] at h6; cases h6
      · rw [hi] at h6; cases h6; exact h7
    exact ⟨m, r.1, r.2, hm, hi, hv', (C36_gap r.1 hv' ⟨by omega, by omega, by omega⟩ (by omega) (by omega) (by omega)).1⟩

end GC.Mesh
