import Verif.StlOff
import Verif.Props.Obj
import Mathlib.Data.List.Perm.Basic
import Mathlib.Algebra.Order.Ring.Defs
import Mathlib.Tactic.Linarith
import Mathlib.Tactic.Ring

/-! # C88: STL and OFF files -/

namespace GC.Stl
open GC.Obj

variable {D : Type} {N : Num D} {junk : D}

/-- Empty, or starting with white space. -/
def Ends (s : List Char) : Prop := ∀ c r, s = c :: r → isSpace c = true

/-- A line that begins with the given words, separated by white space; `rest` is what follows the last one. -/
inductive Words : List (List Char) → List Char → List Char → Prop
  | nil {s} (h : Ends s) : Words [] s s
  | cons {w t s r ts} (hw : ∀ c ∈ w, isSpace c = true) (hn : t ≠ []) (ht : ∀ c ∈ t, isSpace c = false) (hs : Ends s) (h : Words ts s r) :
      Words (t :: ts) (w ++ (t ++ s)) r

/-- What is needed of the printing and reading of doubles: what is printed is a word, and is read back, whatever white space comes before. -/
structure Exact (N : Num D) : Prop where
  ne : ∀ d, N.shw d ≠ []
  noSpace : ∀ d, ∀ c ∈ N.shw d, isSpace c = false
  get_shw : ∀ d w s, (∀ c ∈ w, isSpace c = true) → Ends s → N.get (w ++ (N.shw d ++ s)) = some (d, s)

/-- The words of a point. -/
def vecWords (N : Num D) (p : D × D × D) : List (List Char) := [N.shw p.1, N.shw p.2.1, N.shw p.2.2]

theorem drop_word {w t s : List Char} (hw : ∀ c ∈ w, isSpace c = true) (hn : t ≠ []) (ht : ∀ c ∈ t, isSpace c = false) :
    (w ++ (t ++ s)).dropWhile isSpace = t ++ s := by
  rw [List.dropWhile_append_of_pos hw]
  obtain ⟨c, t', rfl⟩ := List.exists_cons_of_ne_nil hn
  rw [List.cons_append, List.dropWhile_cons_of_neg]
  rw [ht c List.mem_cons_self]; simp

theorem getToken_word {w t s : List Char} (hw : ∀ c ∈ w, isSpace c = true) (hn : t ≠ []) (ht : ∀ c ∈ t, isSpace c = false) (hs : Ends s) :
    getToken (w ++ (t ++ s)) = (t, s) := by
  unfold getToken
  rw [drop_word hw hn ht]
  have ht' : ∀ c ∈ t, (!isSpace c) = true := fun c hc => by rw [ht c hc]; rfl
  have k : s.takeWhile (fun c => !isSpace c) = [] ∧ s.dropWhile (fun c => !isSpace c) = s := by
    cases s with
    | nil => exact ⟨rfl, rfl⟩
    | cons c r =>
      have := hs c r rfl
      simp [this]
  simp only [List.takeWhile_append_of_pos ht', List.dropWhile_append_of_pos ht', k.1, k.2, List.append_nil]

theorem Words.ends {ts : List (List Char)} {l r : List Char} (h : Words ts l r) : Ends r := by
  induction h with
  | nil h => exact h
  | cons _ _ _ _ _ ih => exact ih

theorem Words.token {t : List Char} {ts : List (List Char)} {l r : List Char} (h : Words (t :: ts) l r) :
    ∃ s, takeToken (some l) = (t, some s) ∧ (getToken l).1 = t ∧ Words ts s r := by
  cases h with
  | cons hw hn ht hs h =>
    refine ⟨_, ?_, ?_, h⟩
    · unfold takeToken
      simp only [getToken_word hw hn ht hs, if_neg hn]
    · rw [getToken_word hw hn ht hs]

theorem Words.double (hN : Exact N) {d : D} {ts : List (List Char)} {l r : List Char} (h : Words (N.shw d :: ts) l r) :
    ∃ s, takeD N junk (some l) = (d, some s) ∧ Words ts s r := by
  cases h with
  | cons hw hn ht hs h =>
    refine ⟨_, ?_, h⟩
    unfold takeD
    simp only
    rw [hN.get_shw d _ _ hw hs]

theorem Words.vec (hN : Exact N) {p : D × D × D} {ts : List (List Char)} {l r : List Char} (h : Words (vecWords N p ++ ts) l r) :
    ∃ s, takeVec N junk (some l) = (p, some s) ∧ Words ts s r := by
  obtain ⟨s1, e1, h⟩ := Words.double (junk := junk) hN h
  obtain ⟨s2, e2, h⟩ := Words.double (junk := junk) hN h
  obtain ⟨s3, e3, h⟩ := Words.double (junk := junk) hN h
  refine ⟨s3, ?_, h⟩
  unfold takeVec
  simp only [e1, e2, e3]

theorem Words.size {n : ℕ} (hn : n < 2 ^ 64) {ts : List (List Char)} {l r : List Char} (h : Words (dec n :: ts) l r) :
    ∃ s, takeSize (some l) = (some n, some s) ∧ Words ts s r := by
  cases h with
  | @cons w t s _ _ hw hne ht hs h =>
    refine ⟨s, ?_, h⟩
    unfold takeSize
    simp only
    rw [drop_word hw hne ht]
    obtain ⟨c, t', e⟩ := List.exists_cons_of_ne_nil (dec_ne n)
    have hd := dec_digits n
    have k : s.takeWhile Char.isDigit = [] ∧ s.dropWhile Char.isDigit = s := by
      cases s with
      | nil => exact ⟨rfl, rfl⟩
      | cons c r =>
        have h1 := hs c r rfl
        have : c.isDigit = false := by
          by_contra hc
          rw [(isDigit_not c (by simpa using hc)).1] at h1
          exact absurd h1 (by simp)
        simp [this]
    have c1 := isDigit_not c (hd c (by rw [e]; exact List.mem_cons_self))
    have e2 : dec n ++ s = c :: (t' ++ s) := by rw [e]; rfl
    rw [e2]
    simp only
    have b1 : (c == '-') = false := by simpa using c1.2.2.2.1
    have b2 : (c == '+') = false := by simpa using c1.2.2.2.2.1
    rw [b1, b2]
    simp only [Bool.or_self, Bool.false_eq_true, if_false]
    rw [← e2, List.takeWhile_append_of_pos hd, List.dropWhile_append_of_pos hd, k.1, k.2, List.append_nil, if_neg (dec_ne n), decVal_dec, if_neg (by omega)]

theorem takeSize_blank {s : List Char} (h : ∀ c ∈ s, isSpace c = true) : takeSize (some s) = (none, none) := by
  unfold takeSize
  simp only
  have : s.dropWhile isSpace = [] := by
    have := List.dropWhile_append_of_pos (l₂ := []) h
    simpa using this
  rw [this]

/-! ## ASCII STL -/

/-- The lines of a facet with the normal and corners. -/
inductive FacetLines (N : Num D) (n : D × D × D) (ps : List (D × D × D)) : List (List Char) → Prop
  | mk {l1 l2 l3 l4 r1 r2 r3 r4} {ls : List (List Char)} (h1 : Words ("facet".toList :: "normal".toList :: vecWords N n) l1 r1)
      (h2 : Words ["outer".toList, "loop".toList] l2 r2) (h : List.Forall₂ (fun p l => ∃ r, Words ("vertex".toList :: vecWords N p) l r) ps ls)
      (h3 : Words ["endloop".toList] l3 r3) (h4 : Words ["endfacet".toList] l4 r4) : FacetLines N n ps (l1 :: l2 :: (ls ++ [l3, l4]))

theorem assertToken_ok {t : String} {ts : List (List Char)} {l r : List Char} (h : Words (t.toList :: ts) l r) :
    ∃ s, assertToken t (some l) = .ok (some s) ∧ Words ts s r := by
  obtain ⟨s, e, -, h⟩ := h.token
  exact ⟨s, by unfold assertToken; rw [e]; simp, h⟩

theorem starts_eq {t : List Char} {ts : List (List Char)} {l r : List Char} (h : Words (t :: ts) l r) (p : String) : startsWithToken l p = (t == p.toList) := by
  obtain ⟨s, -, e, -⟩ := h.token
  unfold startsWithToken
  rw [e]

theorem vertexLoop_ok (hN : Exact N) {ps : List (D × D × D)} {ls rest : List (List Char)} {l3 r3 : List Char} (h3 : Words ["endloop".toList] l3 r3)
    (h : List.Forall₂ (fun p l => ∃ r, Words ("vertex".toList :: vecWords N p) l r) ps ls) (ss : Stream) (verts : List (D × D × D)) (face : List ℕ) :
    vertexLoop N junk (ls ++ l3 :: rest) ss verts face = .ok (verts ++ ps, face ++ List.range' verts.length ps.length, some l3, rest) := by
  induction h generalizing ss verts face with
  | nil =>
    simp only [List.nil_append, vertexLoop, starts_eq h3, beq_self_eq_true, if_true]
    simp
  | @cons p l ps ls hl _ ih =>
    obtain ⟨r, hl⟩ := hl
    obtain ⟨s, e, hl'⟩ := assertToken_ok hl
    obtain ⟨s', e', -⟩ := Words.vec (ts := []) (junk := junk) hN (by rw [List.append_nil]; exact hl')
    have ne : startsWithToken l "endloop" = false := by rw [starts_eq hl]; decide
    simp only [List.cons_append, vertexLoop, ne, Bool.false_eq_true, if_false, bind, Except.bind, e, e']
    rw [ih]
    simp [List.range'_succ]

/-- The corners of a facet, in the order of the file or, where the test says so, in the reverse order. -/
def oriented (flip : D × D × D → D × D × D → D × D × D → D × D × D → Bool) (n : D × D × D) (ps : List (D × D × D)) : List (D × D × D) :=
  match ps with
  | a :: b :: c :: _ => if flip n a b c then ps.reverse else ps
  | _ => ps

variable {flip : D × D × D → D × D × D → D × D × D → D × D × D → Bool}

/-- A new polygon: it takes the new vertices, once each, and its corners are the oriented ones. -/
structure NewFace (flip : D × D × D → D × D × D → D × D × D → D × D × D → Bool) (n : D × D × D) (base : ℕ) (ps : List (D × D × D)) (f : List ℕ) : Prop where
  perm : f.Perm (List.range' base ps.length)
  pos : ∀ pre post : List (D × D × D), pre.length = base → f.map ((pre ++ (ps ++ post))[·]?) = (oriented flip n ps).map some

theorem range_get (pre ps post : List (D × D × D)) : (List.range' pre.length ps.length).map ((pre ++ (ps ++ post))[·]?) = ps.map some := by
  apply List.ext_getElem?
  intro i
  by_cases h : i < ps.length
  · rw [List.getElem?_map, List.getElem?_map, List.getElem?_range' h, List.getElem?_eq_getElem h]
    simp only [Option.map_some, one_mul]
    rw [List.getElem?_append_right (by omega), List.getElem?_append_left (by omega)]
    simp [h]
  · rw [List.getElem?_eq_none (by simp; omega), List.getElem?_eq_none (by simp; omega)]

theorem pushFace_ok (n : D × D × D) (verts ps : List (D × D × D)) (polys : List (List ℕ)) (h3 : 3 ≤ ps.length) :
    ∃ f, pushFace flip n (verts ++ ps) (List.range' verts.length ps.length) polys = .ok ⟨verts ++ ps, polys ++ [f]⟩ ∧ NewFace flip n verts.length ps f := by
  obtain ⟨a, b, c, r, rfl⟩ : ∃ a b c r, ps = a :: b :: c :: r := by
    match ps, h3 with
    | a :: b :: c :: r, _ => exact ⟨a, b, c, r, rfl⟩
  refine ⟨if flip n a b c then (List.range' verts.length (a :: b :: c :: r).length).reverse else List.range' verts.length (a :: b :: c :: r).length, ?_, ?_, ?_⟩
  · have e : List.range' verts.length (a :: b :: c :: r).length = verts.length :: (verts.length + 1) :: (verts.length + 2) :: List.range' (verts.length + 3) r.length := by
      simp [List.range'_succ]
    rw [e]
    unfold pushFace
    have g : ∀ i < 3, (verts ++ a :: b :: c :: r)[verts.length + i]? = (a :: b :: c :: r)[i]? := fun i _ => by
      rw [List.getElem?_append_right (by omega)]; congr 1; omega
    have g0 := g 0 (by omega)
    have g1 := g 1 (by omega)
    have g2 := g 2 (by omega)
    simp only [add_zero, List.getElem?_cons_zero, List.getElem?_cons_succ] at g0 g1 g2
    simp only [g0, g1, g2]
  · split_ifs
    · exact List.reverse_perm _
    · exact List.Perm.refl _
  · intro pre post hb
    rw [← hb]
    unfold oriented
    simp only
    split_ifs
    · rw [List.map_reverse, range_get, List.map_reverse]
    · rw [range_get]

theorem pushFace_short (n : D × D × D) (verts : List (D × D × D)) (face : List ℕ) (polys : List (List ℕ)) (h3 : face.length < 3) :
    pushFace flip n verts face polys = .error .ub := by
  match face, h3 with
  | [], _ => rfl
  | [_], _ => rfl
  | [_, _], _ => rfl

/-- The part of a facet before the polygon is added. -/
theorem facet_eq (hN : Exact N) {n : D × D × D} {ps : List (D × D × D)} {l : List Char} {ls rest : List (List Char)} (h : FacetLines N n ps (l :: ls)) (st : St D) :
    facet N junk flip l (ls ++ rest) st = (pushFace flip n (st.verts ++ ps) (List.range' st.verts.length ps.length) st.polys).map (fun s => (s, rest)) := by
  cases h with
  | @mk _ l2 l3 l4 r1 r2 r3 r4 ls h1 h2 h h3 h4 =>
    obtain ⟨s1, e1, h1⟩ := assertToken_ok h1
    obtain ⟨s1', e1', h1⟩ := assertToken_ok h1
    obtain ⟨s1'', e1'', -⟩ := Words.vec (ts := []) (junk := junk) hN (by rw [List.append_nil]; exact h1)
    obtain ⟨s2, e2, h2⟩ := assertToken_ok h2
    obtain ⟨s2', e2', h2⟩ := assertToken_ok h2
    obtain ⟨s4, e4, h4⟩ := assertToken_ok h4
    have v := vertexLoop_ok (junk := junk) (rest := l4 :: rest) hN h3 h (some s2') st.verts []
    unfold facet
    have e : l2 :: (ls ++ [l3, l4]) ++ rest = l2 :: (ls ++ l3 :: l4 :: rest) := by simp
    rw [e]
    simp only [bind, Except.bind, e1, e1', e1'', nextLine, e2, e2', v, e4, List.nil_append]
    cases pushFace flip n (st.verts ++ ps) (List.range' st.verts.length ps.length) st.polys <;> rfl

/-- The end of the file, or a line that ends the solid. -/
def Done (tail : List (List Char)) : Prop := tail = [] ∨ ∃ l r ls, tail = l :: ls ∧ Words ["endsolid".toList] l r

theorem facetLoop_ok (hN : Exact N) {tail : List (List Char)} (ht : Done tail) (fs : List ((D × D × D) × List (D × D × D))) (Ls : List (List (List Char)))
    (h : List.Forall₂ (fun f L => FacetLines N f.1 f.2 L) fs Ls) (h3 : ∀ f ∈ fs, 3 ≤ f.2.length) (k : ℕ) (hk : (Ls.flatten ++ tail).length ≤ k) (st : St D) :
    ∃ polys, facetLoop N junk flip k (Ls.flatten ++ tail) st = .ok ⟨st.verts ++ (fs.map (·.2)).flatten, st.polys ++ polys⟩ ∧
      polys.flatten.Perm (List.range' st.verts.length (fs.map (·.2)).flatten.length) ∧
      ∀ pre post : List (D × D × D), pre.length = st.verts.length →
        polys.map (·.map ((pre ++ ((fs.map (·.2)).flatten ++ post))[·]?)) = fs.map (fun f => (oriented flip f.1 f.2).map some) := by
  induction h generalizing k st with
  | nil =>
    refine ⟨[], ?_, by simp, fun _ _ _ => rfl⟩
    rcases ht with rfl | ⟨l, r, ls, rfl, hl⟩
    · unfold facetLoop; simp
    · match k, hk with
      | k + 1, _ =>
        have : startsWithToken l "endsolid" = true := by rw [starts_eq hl]; simp
        simp [facetLoop, this]
  | @cons f L fs Ls hf h ih =>
    obtain ⟨n, ps⟩ := f
    match L, hf with
    | l :: L, hf =>
      match k, hk with
      | k + 1, hk =>
        have ne : startsWithToken l "endsolid" = false := by
          cases hf with
          | mk h1 _ _ _ _ => rw [starts_eq h1]; decide
        obtain ⟨f, f1, f2⟩ := pushFace_ok (flip := flip) n st.verts ps st.polys (h3 _ List.mem_cons_self)
        have e := facet_eq (junk := junk) (flip := flip) (rest := Ls.flatten ++ tail) hN hf st
        rw [f1] at e
        obtain ⟨polys, p1, p2, p3⟩ := ih (fun f hf => h3 f (List.mem_cons_of_mem _ hf)) k (by simp at hk ⊢; omega) ⟨st.verts ++ ps, st.polys ++ [f]⟩
        refine ⟨f :: polys, ?_, ?_, fun pre post hp => ?_⟩
        · have e0 : (((l :: L) :: Ls).flatten ++ tail) = l :: (L ++ (Ls.flatten ++ tail)) := by simp
          rw [e0]
          simp only [facetLoop, ne, Bool.false_eq_true, if_false, bind, Except.bind, e, Except.map, p1]
          simp
        · simp only [List.flatten_cons, List.map_cons, List.length_append]
          rw [← List.range'_append_1]
          rw [List.length_append] at p2
          exact f2.perm.append p2
        · simp only [List.map_cons, List.flatten_cons]
          have q := f2.pos pre ((fs.map (·.2)).flatten ++ post) hp
          have q' := p3 (pre ++ ps) post (by rw [List.length_append, List.length_append, hp])
          rw [List.append_assoc ps, q]
          rw [List.append_assoc] at q'
          rw [q']

/-- **C88, ASCII STL.** A file with a first line, the lines of facets with at least three corners each, and either nothing more or a line that ends the
solid, is read as these facets: the vertices are the corners in the order of the file, each vertex is the corner of one polygon, once, and the corners of the
polygons are those of the facets, in the reverse order where their normal is opposite to the given one. -/
theorem C88_ascii (hN : Exact N) (file : List Char) (head : List Char) (fs : List ((D × D × D) × List (D × D × D))) (Ls : List (List (List Char)))
    (tail : List (List Char)) (hf : splitLines '\n' file = head :: (Ls.flatten ++ tail)) (h : List.Forall₂ (fun f L => FacetLines N f.1 f.2 L) fs Ls)
    (ht : Done tail) (h3 : ∀ f ∈ fs, 3 ≤ f.2.length) :
    ∃ s, readAsciiStl N junk flip file = .ok s ∧ s.coords = (fs.map (·.2)).flatten ∧ s.params = [] ∧ s.polygons.flatten.Perm (List.range s.coords.length) ∧
      s.polygons.map (·.map (s.coords[·]?)) = fs.map (fun f => (oriented flip f.1 f.2).map some) := by
  obtain ⟨polys, p1, p2, p3⟩ := facetLoop_ok (junk := junk) (flip := flip) hN ht fs Ls h h3 _ le_rfl ⟨[], []⟩
  refine ⟨⟨polys, (fs.map (·.2)).flatten, []⟩, ?_, rfl, rfl, ?_, ?_⟩
  · unfold readAsciiStl
    rw [hf]
    simp only [nextLine, bind, Except.bind, p1, List.nil_append]
  · rw [List.range_eq_range']; exact p2
  · have := p3 [] [] rfl
    simpa using this

/-- **C88, facets with fewer than three corners (negative).** After any facets, a facet with fewer than three corners makes the reader look at entries
of the face that do not exist. -/
theorem C88_ascii_short (hN : Exact N) (file : List Char) (head : List Char) (fs : List ((D × D × D) × List (D × D × D))) (Ls : List (List (List Char)))
    (n : D × D × D) (ps : List (D × D × D)) (L : List (List Char)) (tail : List (List Char)) (hf : splitLines '\n' file = head :: (Ls.flatten ++ (L ++ tail)))
    (h : List.Forall₂ (fun f L => FacetLines N f.1 f.2 L) fs Ls) (h3 : ∀ f ∈ fs, 3 ≤ f.2.length) (hL : FacetLines N n ps L) (hp : ps.length < 3) :
    readAsciiStl N junk flip file = .error .ub := by
  have loop : ∀ (k : ℕ) (st : St D), (Ls.flatten ++ (L ++ tail)).length ≤ k → facetLoop N junk flip k (Ls.flatten ++ (L ++ tail)) st = .error .ub := by
    clear hf
    induction h with
    | nil =>
      intro k st hk
      match L, hL with
      | l :: L, hL =>
        match k, hk with
        | k + 1, _ =>
          have ne : startsWithToken l "endsolid" = false := by
            cases hL with
            | mk h1 _ _ _ _ => rw [starts_eq h1]; decide
          have e := facet_eq (junk := junk) (flip := flip) (rest := tail) hN hL st
          rw [pushFace_short _ _ _ _ (by simpa using hp)] at e
          simp only [List.flatten_nil, List.nil_append, List.cons_append, facetLoop, ne, Bool.false_eq_true, if_false, bind, Except.bind, e, Except.map]
    | @cons f L' fs Ls hf h ih =>
      intro k st hk
      obtain ⟨n', ps'⟩ := f
      match L', hf with
      | l :: L', hf =>
        match k, hk with
        | k + 1, hk =>
          have ne : startsWithToken l "endsolid" = false := by
            cases hf with
            | mk h1 _ _ _ _ => rw [starts_eq h1]; decide
          obtain ⟨f, f1, f2⟩ := pushFace_ok (flip := flip) n' st.verts ps' st.polys (h3 _ List.mem_cons_self)
          have e := facet_eq (junk := junk) (flip := flip) (rest := Ls.flatten ++ (L ++ tail)) hN hf st
          rw [f1] at e
          have e0 : (((l :: L') :: Ls).flatten ++ (L ++ tail)) = l :: (L' ++ (Ls.flatten ++ (L ++ tail))) := by simp
          rw [e0]
          simp only [facetLoop, ne, Bool.false_eq_true, if_false, bind, Except.bind, e, Except.map]
          exact ih (fun f hf => h3 f (List.mem_cons_of_mem _ hf)) k _ (by simp at hk ⊢; omega)
  unfold readAsciiStl
  rw [hf]
  simp only [nextLine, bind, Except.bind, loop _ _ le_rfl]

/-! ## All STL files -/

/-- What holds of every mesh that is read: each vertex is the corner of one polygon, once, and polygons have at least three corners. -/
def Good (verts : List (D × D × D)) (polys : List (List ℕ)) : Prop := polys.flatten.Perm (List.range verts.length) ∧ ∀ f ∈ polys, 3 ≤ f.length

theorem Good.push {verts ps : List (D × D × D)} {polys : List (List ℕ)} {f : List ℕ} (h : Good verts polys) (hf : f.Perm (List.range' verts.length ps.length))
    (h3 : 3 ≤ ps.length) : Good (verts ++ ps) (polys ++ [f]) := by
  refine ⟨?_, fun g hg => ?_⟩
  · rw [List.flatten_append, List.length_append, List.range_eq_range', ← List.range'_append_1, zero_add, ← List.range_eq_range']
    simpa using h.1.append hf
  · rcases List.mem_append.1 hg with hg | hg
    · exact h.2 g hg
    · rw [List.mem_singleton.1 hg, hf.length_eq]; simpa using h3

theorem pushFace_any (n : D × D × D) (verts ps : List (D × D × D)) (polys : List (List ℕ)) :
    pushFace flip n (verts ++ ps) (List.range' verts.length ps.length) polys = .error .ub ∨
    ∃ f, pushFace flip n (verts ++ ps) (List.range' verts.length ps.length) polys = .ok ⟨verts ++ ps, polys ++ [f]⟩ ∧
      f.Perm (List.range' verts.length ps.length) ∧ 3 ≤ ps.length := by
  by_cases h : 3 ≤ ps.length
  · obtain ⟨f, f1, f2⟩ := pushFace_ok (flip := flip) n verts ps polys h
    exact .inr ⟨f, f1, f2.perm, h⟩
  · exact .inl (pushFace_short _ _ _ _ (by simp; omega))

theorem assertToken_any (t : String) (ss : Stream) : assertToken t ss = .error .throw ∨ ∃ s, assertToken t ss = .ok s := by
  unfold assertToken
  simp only
  split_ifs
  all_goals first | exact .inr ⟨_, rfl⟩ | exact .inl rfl

theorem vertexLoop_any (ls : List (List Char)) (ss : Stream) (verts : List (D × D × D)) (face : List ℕ) :
    vertexLoop N junk ls ss verts face = .error .throw ∨ ∃ ps s ls', vertexLoop N junk ls ss verts face =
      .ok (verts ++ ps, face ++ List.range' verts.length ps.length, s, ls') ∧ ls'.length ≤ ls.length := by
  induction ls generalizing ss verts face with
  | nil => exact .inr ⟨[], ss, [], by simp [vertexLoop], le_rfl⟩
  | cons l ls ih =>
    unfold vertexLoop
    by_cases h : startsWithToken l "endloop" = true
    · rw [if_pos h]
      exact .inr ⟨[], some l, ls, by simp, by simp⟩
    · rw [if_neg h]
      rcases assertToken_any "vertex" (some l) with e | ⟨s, e⟩
      · left; simp only [bind, Except.bind, e]
      · simp only [bind, Except.bind, e]
        rcases ih (takeVec N junk s).2 (verts ++ [(takeVec N junk s).1]) (face ++ [(verts ++ [(takeVec N junk s).1]).length - 1]) with c | ⟨ps, s', ls', c, d⟩
        · exact .inl c
        · refine .inr ⟨(takeVec N junk s).1 :: ps, s', ls', ?_, by simp; omega⟩
          rw [c]
          simp [List.range'_succ]

theorem nextLine_length (ss : Stream) (ls : List (List Char)) : (nextLine ss ls).2.length ≤ ls.length := by
  cases ls <;> simp [nextLine]

theorem facet_any (l : List Char) (ls : List (List Char)) (st : St D) : facet N junk flip l ls st = .error .throw ∨ facet N junk flip l ls st = .error .ub ∨
    ∃ ps f ls', facet N junk flip l ls st = .ok (⟨st.verts ++ ps, st.polys ++ [f]⟩, ls') ∧ f.Perm (List.range' st.verts.length ps.length) ∧ 3 ≤ ps.length ∧
      ls'.length ≤ ls.length := by
  unfold facet
  rcases assertToken_any "facet" (some l) with e | ⟨s, e⟩
  · left; simp only [bind, Except.bind, e]
  simp only [bind, Except.bind, e]
  rcases assertToken_any "normal" s with e | ⟨s, e⟩
  · left; simp only [e]
  simp only [e]
  have b0 := nextLine_length (takeVec N junk s).2 ls
  rcases assertToken_any "outer" (nextLine (takeVec N junk s).2 ls).1 with e | ⟨s1, e⟩
  · left; simp only [e]
  simp only [e]
  rcases assertToken_any "loop" s1 with e | ⟨s2, e⟩
  · left; simp only [e]
  simp only [e]
  rcases vertexLoop_any (N := N) (junk := junk) (nextLine (takeVec N junk s).2 ls).2 s2 st.verts [] with e | ⟨ps, s3, ls3, e, b1⟩
  · left; simp only [e]
  simp only [e]
  have b2 := nextLine_length s3 ls3
  rcases assertToken_any "endfacet" (nextLine s3 ls3).1 with e | ⟨s4, e⟩
  · left; simp only [e]
  simp only [e, List.nil_append]
  rcases pushFace_any (flip := flip) (takeVec N junk s).1 st.verts ps st.polys with e | ⟨f, e, p1, p2⟩
  · right; left; simp only [e]
  · right; right
    exact ⟨ps, f, (nextLine s3 ls3).2, by simp only [e], p1, p2, by omega⟩

theorem facetLoop_any (k : ℕ) (ls : List (List Char)) (hk : ls.length ≤ k) (st : St D) (hg : Good st.verts st.polys) :
    facetLoop N junk flip k ls st = .error .throw ∨ facetLoop N junk flip k ls st = .error .ub ∨
      ∃ st', facetLoop N junk flip k ls st = .ok st' ∧ Good st'.verts st'.polys := by
  induction k generalizing ls st with
  | zero =>
    match ls, hk with
    | [], _ => exact .inr (.inr ⟨st, rfl, hg⟩)
  | succ k ih =>
    cases ls with
    | nil => exact .inr (.inr ⟨st, rfl, hg⟩)
    | cons l ls =>
      unfold facetLoop
      by_cases h : startsWithToken l "endsolid" = true
      · rw [if_pos h]; exact .inr (.inr ⟨st, rfl, hg⟩)
      · rw [if_neg h]
        rcases facet_any (N := N) (junk := junk) (flip := flip) l ls st with e | e | ⟨ps, f, ls', e, p1, p2, p3⟩
        · left; simp only [bind, Except.bind, e]
        · right; left; simp only [bind, Except.bind, e]
        · simp only [bind, Except.bind, e]
          exact ih ls' (by simp at hk; omega) _ (hg.push p1 p2)

/-- **C88, all ASCII STL files.** The reader ends on every file, and whatever it returns uses each vertex once and has no polygon with fewer than three corners. -/
theorem C88_ascii_sound (N : Num D) (junk : D) (flip : D × D × D → D × D × D → D × D × D → D × D × D → Bool) (file : List Char) :
    readAsciiStl N junk flip file ≠ .error .hang ∧ ∀ s, readAsciiStl N junk flip file = .ok s →
      s.polygons.flatten.Perm (List.range s.coords.length) ∧ ∀ f ∈ s.polygons, 3 ≤ f.length := by
  unfold readAsciiStl
  rcases facetLoop_any (N := N) (junk := junk) (flip := flip) _ (nextLine none (splitLines '\n' file)).2 le_rfl ⟨[], []⟩ ⟨by simp, by simp⟩ with e | e | ⟨st, e, g⟩
  · simp only [bind, Except.bind, e]; exact ⟨by simp, by simp⟩
  · simp only [bind, Except.bind, e]; exact ⟨by simp, by simp⟩
  · simp only [bind, Except.bind, e]
    refine ⟨by simp, fun s hs => ?_⟩
    injection hs with hs
    rw [← hs]; exact g

/-! ## Binary STL -/

/-- The point with the given twelve bytes. -/
def vecBytes (fl : List Char → D) (b : List Char) : D × D × D := (fl (b.take 4), fl ((b.drop 4).take 4), fl (b.drop 8))

variable {fl : List Char → D}

theorem parseVec_ok {b s : List Char} (h : b.length = 12) : parseVec fl (b ++ s) = some (vecBytes fl b, s) := by
  unfold parseVec readBytes
  rw [if_pos (by simp; omega)]
  simp only [Option.map_some, List.take_left' h, List.drop_left' h]
  rfl

theorem parseVec_any (s : List Char) : (s.length < 12 ∧ parseVec fl s = none) ∨ (12 ≤ s.length ∧ ∃ p, parseVec fl s = some (p, s.drop 12)) := by
  unfold parseVec readBytes
  by_cases h : 12 ≤ s.length
  · rw [if_pos h]; exact .inr ⟨h, _, rfl⟩
  · rw [if_neg h]; exact .inl ⟨by omega, rfl⟩

theorem cornerLoop_any (k : ℕ) (s : List Char) (verts : List (D × D × D)) (face : List ℕ) : (s.length < 12 * k ∧ cornerLoop fl k s verts face = .error .ub) ∨
    (12 * k ≤ s.length ∧ ∃ ps, ps.length = k ∧ cornerLoop fl k s verts face = .ok (verts ++ ps, face ++ List.range' verts.length ps.length, s.drop (12 * k))) := by
  induction k generalizing s verts face with
  | zero => exact .inr ⟨by omega, [], rfl, by simp [cornerLoop]⟩
  | succ k ih =>
    unfold cornerLoop
    rcases parseVec_any (fl := fl) s with ⟨h, e⟩ | ⟨h, p, e⟩
    · rw [e]; exact .inl ⟨by omega, rfl⟩
    · rw [e]
      simp only
      rcases ih (s.drop 12) (verts ++ [p]) (face ++ [(verts ++ [p]).length - 1]) with ⟨h', c⟩ | ⟨h', ps, hp, c⟩
      · exact .inl ⟨by simp at h'; omega, c⟩
      · refine .inr ⟨by simp at h'; omega, p :: ps, by simp [hp], ?_⟩
        rw [c, List.drop_drop]
        have : 12 + 12 * k = 12 * (k + 1) := by ring
        rw [this]
        simp [List.range'_succ]

theorem triangleLoop_any (k : ℕ) (s : List Char) (st : St D) (hg : Good st.verts st.polys) :
    (k ≠ 0 ∧ s.length + 2 < 50 * k ∧ triangleLoop fl flip k s st = .error .ub) ∨
      (50 * k ≤ s.length + 2 ∧ ∃ st', triangleLoop fl flip k s st = .ok st' ∧ Good st'.verts st'.polys ∧ st'.polys.length = st.polys.length + k) ∨
      (k = 0 ∧ triangleLoop fl flip k s st = .ok st) := by
  induction k generalizing s st with
  | zero => exact .inr (.inr ⟨rfl, rfl⟩)
  | succ k ih =>
    unfold triangleLoop
    rcases parseVec_any (fl := fl) s with ⟨h, e⟩ | ⟨h, n, e⟩
    · rw [e]; exact .inl ⟨by omega, by omega, rfl⟩
    · rw [e]
      simp only [bind, Except.bind]
      rcases cornerLoop_any (fl := fl) 3 (s.drop 12) st.verts [] with ⟨h', c⟩ | ⟨h', ps, hp, c⟩
      · rw [c]; simp only [List.length_drop] at h'; exact .inl ⟨by omega, by omega, rfl⟩
      · rw [c]
        simp only [List.nil_append]
        simp only [List.length_drop] at h'
        obtain ⟨f, f1, f2⟩ := pushFace_ok (flip := flip) n st.verts ps st.polys (by omega)
        rw [f1]
        simp only
        rcases ih (((s.drop 12).drop (12 * 3)).drop 2) ⟨st.verts ++ ps, st.polys ++ [f]⟩ (hg.push f2.perm (by omega)) with ⟨a, b, c⟩ | ⟨a, st', b, c, d⟩ | ⟨a, b⟩
        · refine .inl ⟨by omega, ?_, c⟩
          simp only [List.length_drop] at b
          omega
        · refine .inr (.inl ⟨?_, st', b, c, ?_⟩)
          · simp only [List.length_drop] at a
            omega
          · rw [d]; simp; omega
        · refine .inr (.inl ⟨by omega, _, b, hg.push f2.perm (by omega), ?_⟩)
          simp; omega

/-- **C88, all binary STL files.** The reader looks at bytes that are not in the file exactly if the file is shorter than its header and the triangles
that the header announces (the last two bytes may be missing). Otherwise it returns that many triangles, and each vertex is used once. -/
theorem C88_binary_sound (fl : List Char → D) (flip : D × D × D → D × D × D → D × D × D → D × D × D → Bool) (file : List Char) :
    (file.length < 84 → readBinaryStl fl flip file = .error .ub) ∧
    (84 ≤ file.length → le32 ((file.drop 80).take 4) ≠ 0 → file.length + 2 < 84 + 50 * le32 ((file.drop 80).take 4) → readBinaryStl fl flip file = .error .ub) ∧
    (84 ≤ file.length → 84 + 50 * le32 ((file.drop 80).take 4) ≤ file.length + 2 → ∃ s, readBinaryStl fl flip file = .ok s ∧
      s.polygons.length = le32 ((file.drop 80).take 4) ∧ s.polygons.flatten.Perm (List.range s.coords.length) ∧ ∀ f ∈ s.polygons, 3 ≤ f.length) := by
  unfold readBinaryStl readBytes
  refine ⟨fun h => ?_, fun h h0 h1 => ?_, fun h h1 => ?_⟩
  · rw [if_neg (by simp; omega)]
  · rw [if_pos (by simp; omega)]
    simp only [bind, Except.bind]
    rcases triangleLoop_any (fl := fl) (flip := flip) (le32 ((file.drop 80).take 4)) ((file.drop 80).drop 4) ⟨[], []⟩ ⟨by simp, by simp⟩ with ⟨-, -, e⟩ | ⟨a, -⟩ | ⟨a, -⟩
    · rw [e]
    · simp only [List.length_drop] at a; omega
    · exact absurd a h0
  · rw [if_pos (by simp; omega)]
    simp only [bind, Except.bind]
    rcases triangleLoop_any (fl := fl) (flip := flip) (le32 ((file.drop 80).take 4)) ((file.drop 80).drop 4) ⟨[], []⟩ ⟨by simp, by simp⟩ with ⟨a, b, e⟩ | ⟨a, st, b, c, d⟩ | ⟨a, b⟩
    · simp only [List.length_drop] at b; omega
    · rw [b]
      exact ⟨_, rfl, by simpa using d, c⟩
    · rw [b]
      exact ⟨_, rfl, a.symm, by simp, by simp⟩

/-- The bytes of a triangle: the normal, the corners and two bytes that are not used. -/
structure TriBytes where
  n : List Char
  a : List Char
  b : List Char
  c : List Char
  attr : List Char

/-- The lengths of the parts. -/
def TriBytes.Ok (t : TriBytes) : Prop := t.n.length = 12 ∧ t.a.length = 12 ∧ t.b.length = 12 ∧ t.c.length = 12 ∧ t.attr.length = 2

def TriBytes.bytes (t : TriBytes) : List Char := t.n ++ (t.a ++ (t.b ++ (t.c ++ t.attr)))

/-- The corners of a triangle in a binary file. -/
def TriBytes.corners (fl : List Char → D) (t : TriBytes) : List (D × D × D) := [vecBytes fl t.a, vecBytes fl t.b, vecBytes fl t.c]

theorem triangleLoop_ok (ts : List TriBytes) (h : ∀ t ∈ ts, t.Ok) (rest : List Char) (st : St D) :
    ∃ polys, triangleLoop fl flip ts.length ((ts.map TriBytes.bytes).flatten ++ rest) st = .ok ⟨st.verts ++ (ts.map (TriBytes.corners fl)).flatten, st.polys ++ polys⟩ ∧
      ∀ pre post : List (D × D × D), pre.length = st.verts.length →
        polys.map (·.map ((pre ++ ((ts.map (TriBytes.corners fl)).flatten ++ post))[·]?)) = ts.map (fun t => (oriented flip (vecBytes fl t.n) (t.corners fl)).map some) := by
  induction ts generalizing st with
  | nil => exact ⟨[], by simp [triangleLoop], fun _ _ _ => rfl⟩
  | cons t ts ih =>
    obtain ⟨h1, h2, h3, h4, h5⟩ := h t List.mem_cons_self
    obtain ⟨f, f1, f2⟩ := pushFace_ok (flip := flip) (vecBytes fl t.n) st.verts (t.corners fl) st.polys (by simp [TriBytes.corners])
    obtain ⟨polys, p1, p2⟩ := ih (fun t ht => h t (List.mem_cons_of_mem _ ht)) ⟨st.verts ++ t.corners fl, st.polys ++ [f]⟩
    refine ⟨f :: polys, ?_, fun pre post hp => ?_⟩
    · have e : ((t :: ts).map TriBytes.bytes).flatten ++ rest = t.n ++ (t.a ++ (t.b ++ (t.c ++ (t.attr ++ ((ts.map TriBytes.bytes).flatten ++ rest))))) := by
        simp [TriBytes.bytes]
      rw [e, List.length_cons]
      unfold triangleLoop
      rw [parseVec_ok h1]
      simp only [bind, Except.bind, cornerLoop, parseVec_ok h2, parseVec_ok h3, parseVec_ok h4, List.drop_left' h5]
      have f1' : pushFace flip (vecBytes fl t.n) (((st.verts ++ [vecBytes fl t.a]) ++ [vecBytes fl t.b]) ++ [vecBytes fl t.c])
          ((([] ++ [(st.verts ++ [vecBytes fl t.a]).length - 1]) ++ [((st.verts ++ [vecBytes fl t.a]) ++ [vecBytes fl t.b]).length - 1]) ++
            [(((st.verts ++ [vecBytes fl t.a]) ++ [vecBytes fl t.b]) ++ [vecBytes fl t.c]).length - 1]) st.polys = .ok ⟨st.verts ++ t.corners fl, st.polys ++ [f]⟩ := by
        rw [← f1]
        congr 1
        · simp [TriBytes.corners]
        · simp [TriBytes.corners, List.range'_succ]
      rw [f1']
      simp only
      rw [p1]
      simp
    · simp only [List.map_cons, List.flatten_cons]
      have q := f2.pos pre ((ts.map (TriBytes.corners fl)).flatten ++ post) hp
      have q' := p2 (pre ++ t.corners fl) post (by rw [List.length_append, List.length_append, hp])
      rw [List.append_assoc (t.corners fl), q]
      rw [List.append_assoc] at q'
      rw [q']

/-- **C88, binary STL.** A file with eighty bytes, the number of triangles and their bytes is read as these triangles. -/
theorem C88_binary (fl : List Char → D) (flip : D × D × D → D × D × D → D × D × D → D × D × D → Bool) (head count : List Char) (ts : List TriBytes) (rest : List Char)
    (h1 : head.length = 80) (h2 : count.length = 4) (h3 : le32 count = ts.length) (h : ∀ t ∈ ts, t.Ok) :
    ∃ s, readBinaryStl fl flip (head ++ (count ++ ((ts.map TriBytes.bytes).flatten ++ rest))) = .ok s ∧ s.coords = (ts.map (TriBytes.corners fl)).flatten ∧
      s.polygons.map (·.map (s.coords[·]?)) = ts.map (fun t => (oriented flip (vecBytes fl t.n) (t.corners fl)).map some) := by
  obtain ⟨polys, p1, p2⟩ := triangleLoop_ok (fl := fl) (flip := flip) ts h rest ⟨[], []⟩
  refine ⟨⟨polys, (ts.map (TriBytes.corners fl)).flatten, []⟩, ?_, rfl, ?_⟩
  · unfold readBinaryStl readBytes
    rw [List.drop_left' h1, if_pos (by simp; omega), List.take_left' h2, List.drop_left' h2]
    simp only [bind, Except.bind, h3, p1, List.nil_append]
  · have := p2 [] [] rfl
    simpa using this

/-- **C88, binary files that begin with "solid" (negative).** If no byte is a newline they are read as empty meshes. -/
theorem C88_solid (N : Num D) (junk : D) (fl : List Char → D) (flip : D × D × D → D × D × D → D × D × D → D × D × D → Bool) (rest : List Char) (h : '\n' ∉ rest) :
    readStl N junk fl flip ("solid".toList ++ rest) = .ok ⟨[], [], []⟩ := by
  have e : splitLines '\n' ("solid".toList ++ rest) = ["solid".toList ++ rest] := splitLines_single _ _ (by
    intro c
    rcases List.mem_append.1 c with c | c
    · revert c; decide
    · exact h c) (by simp)
  unfold readStl readBytes
  rw [if_pos (by simp)]
  have t : (("solid".toList ++ rest).take 5).map Char.toLower = "solid".toList := by
    rw [List.take_left' (by decide)]; decide
  simp only [t, if_true]
  unfold readAsciiStl
  rw [e]
  simp [nextLine, facetLoop, bind, Except.bind]

/-! ## Orientation -/

/-- **C88, orientation.** When the test tells a triangle from its reverse, no triangle that is read has a normal opposite to the given one. -/
theorem C88_oriented (hf : ∀ n a b c, flip n a b c = true → flip n c b a = false) (n a b c : D × D × D) :
    ∃ a' b' c', oriented flip n [a, b, c] = [a', b', c'] ∧ flip n a' b' c' = false := by
  unfold oriented
  simp only
  by_cases h : flip n a b c = true
  · rw [if_pos h]; exact ⟨c, b, a, rfl, hf _ _ _ _ h⟩
  · rw [if_neg h]; exact ⟨a, b, c, rfl, by simpa using h⟩

/-- `dot(cross(b - a, c - a), n) < 0`, simple_polygon_mesh.cpp:302-304 and 338-340, without rounding. -/
def exactFlip {K : Type} [Ring K] [LinearOrder K] (n a b c : K × K × K) : Bool :=
  decide (((b.2.1 - a.2.1) * (c.2.2 - a.2.2) - (b.2.2 - a.2.2) * (c.2.1 - a.2.1)) * n.1 +
    ((b.2.2 - a.2.2) * (c.1 - a.1) - (b.1 - a.1) * (c.2.2 - a.2.2)) * n.2.1 + ((b.1 - a.1) * (c.2.1 - a.2.1) - (b.2.1 - a.2.1) * (c.1 - a.1)) * n.2.2 < 0)

theorem C88_exact {K : Type} [CommRing K] [LinearOrder K] [IsStrictOrderedRing K] (n a b c : K × K × K) (h : exactFlip n a b c = true) : exactFlip n c b a = false := by
  unfold exactFlip at h ⊢
  rw [decide_eq_true_eq] at h
  rw [decide_eq_false_iff_not, not_lt]
  nlinarith [h]

/-! ## OFF -/

/-- A line that is not skipped: not empty, and not a comment. -/
def keep (l : List Char) : Bool := !l.isEmpty && l.head? != some '#'

theorem dataLine_ok {ls : List (List Char)} {l : List Char} {xs : List (List Char)} (h : ls.filter keep = l :: xs) :
    ∃ rest, dataLine ls = .ok (l, rest) ∧ rest.filter keep = xs := by
  induction ls with
  | nil => simp at h
  | cons a ls ih =>
    cases a with
    | nil =>
      rw [List.filter_cons_of_neg (by simp [keep])] at h
      exact ih h
    | cons c a =>
      by_cases hc : c = '#'
      · rw [List.filter_cons_of_neg (by simp [keep, hc])] at h
        unfold dataLine
        rw [if_pos hc]
        exact ih h
      · rw [List.filter_cons_of_pos (by simp [keep, hc])] at h
        injection h with h1 h2
        unfold dataLine
        rw [if_neg hc]
        exact ⟨ls, by rw [h1], h2⟩

theorem offVerts_ok (hN : Exact N) {ps : List (D × D × D)} {vl : List (List Char)} (h : List.Forall₂ (fun p l => ∃ r, Words (vecWords N p) l r) ps vl)
    {ls xs : List (List Char)} (hl : ls.filter keep = vl ++ xs) : ∃ rest, offVerts N junk ps.length ls = .ok (ps, rest) ∧ rest.filter keep = xs := by
  induction h generalizing ls with
  | nil => exact ⟨ls, rfl, hl⟩
  | @cons p l ps vl hp _ ih =>
    obtain ⟨r, hp⟩ := hp
    obtain ⟨s, e, -⟩ := Words.vec (ts := []) (junk := junk) hN (by rw [List.append_nil]; exact hp)
    obtain ⟨rest, d1, d2⟩ := dataLine_ok hl
    obtain ⟨rest', i1, i2⟩ := ih d2
    refine ⟨rest', ?_, i2⟩
    simp only [List.length_cons, offVerts, bind, Except.bind, d1, i1, e]

theorem offCorners_ok {f : List ℕ} (hf : ∀ i ∈ f, i < 2 ^ 64) {l r : List Char} (h : Words (f.map dec) l r) : offCorners f.length (some l) = .ok f := by
  induction f generalizing l with
  | nil => rfl
  | cons i f ih =>
    obtain ⟨s, e, h'⟩ := Words.size (hf i List.mem_cons_self) h
    simp only [List.length_cons, offCorners, e, bind, Except.bind, ih (fun j hj => hf j (List.mem_cons_of_mem _ hj)) h']

theorem offCorners_short {f : List ℕ} (hf : ∀ i ∈ f, i < 2 ^ 64) {l r : List Char} (h : Words (f.map dec) l r) (hr : ∀ c ∈ r, isSpace c = true) {d : ℕ} (hd : f.length < d) :
    offCorners d (some l) = .error .ub := by
  induction f generalizing l d with
  | nil =>
    cases h with
    | nil _ =>
      match d, hd with
      | d + 1, _ => simp only [offCorners, takeSize_blank hr]
  | cons i f ih =>
    obtain ⟨s, e, h'⟩ := Words.size (hf i List.mem_cons_self) h
    match d, hd with
    | d + 1, hd => simp only [offCorners, e, bind, Except.bind, ih (fun j hj => hf j (List.mem_cons_of_mem _ hj)) h' (by simpa using hd)]

/-- A line with a face. -/
def FaceLine (f : List ℕ) (l : List Char) : Prop := f.length < 2 ^ 64 ∧ (∀ i ∈ f, i < 2 ^ 64) ∧ ∃ r, Words (dec f.length :: f.map dec) l r

theorem offFace_ok {f : List ℕ} {l : List Char} (h : FaceLine f l) : offFace l = .ok f := by
  obtain ⟨h1, h2, r, h⟩ := h
  obtain ⟨s, e, h⟩ := h.size h1
  unfold offFace
  rw [e]
  exact offCorners_ok h2 h

theorem offFaces_ok {fs : List (List ℕ)} {fl : List (List Char)} (h : List.Forall₂ FaceLine fs fl) {ls xs : List (List Char)} (hl : ls.filter keep = fl ++ xs) :
    offFaces fs.length ls = .ok fs := by
  induction h generalizing ls with
  | nil => rfl
  | @cons f l fs fl hf _ ih =>
    obtain ⟨rest, d1, d2⟩ := dataLine_ok hl
    simp only [List.length_cons, offFaces, bind, Except.bind, d1, offFace_ok hf, ih d2]

theorem offFaces_short {fs : List (List ℕ)} {fl : List (List Char)} (h : List.Forall₂ FaceLine fs fl) {ls xs : List (List Char)} {l : List Char}
    (hl : ls.filter keep = fl ++ l :: xs) (hs : offFace l = .error .ub) {k : ℕ} (hk : fs.length < k) : offFaces k ls = .error .ub := by
  induction h generalizing ls k with
  | nil =>
    obtain ⟨rest, d1, d2⟩ := dataLine_ok hl
    match k, hk with
    | k + 1, _ => simp only [offFaces, bind, Except.bind, d1, hs]
  | @cons f l' fs fl hf _ ih =>
    obtain ⟨rest, d1, d2⟩ := dataLine_ok hl
    match k, hk with
    | k + 1, hk => simp only [offFaces, bind, Except.bind, d1, offFace_ok hf, ih d2 (by simpa using hk)]

/-- **C88, OFF.** A file whose lines, apart from empty lines and comments, are a line that starts with `OFF`, the numbers of vertices and faces, the vertices
and the faces, is read as these vertices and faces, whatever follows on the lines and in the file. -/
theorem C88_off (hN : Exact N) (file : List Char) (verts : List (D × D × D)) (faces : List (List ℕ)) (head count r : List Char) (vl fl extra : List (List Char))
    (hf : (splitLines '\n' file).filter keep = head :: count :: (vl ++ (fl ++ extra))) (h0 : "OFF".toList <+: head)
    (hc : Words [dec verts.length, dec faces.length] count r) (hv : verts.length < 2 ^ 64) (hF : faces.length < 2 ^ 64)
    (h1 : List.Forall₂ (fun p l => ∃ r, Words (vecWords N p) l r) verts vl) (h2 : List.Forall₂ FaceLine faces fl) :
    readOff N junk file = .ok ⟨faces, verts, []⟩ := by
  obtain ⟨r1, d1, e1⟩ := dataLine_ok hf
  obtain ⟨r2, d2, e2⟩ := dataLine_ok e1
  obtain ⟨s1, n1, hc⟩ := hc.size hv
  obtain ⟨s2, n2, -⟩ := hc.size hF
  obtain ⟨r3, v1, v2⟩ := offVerts_ok (junk := junk) hN h1 e2
  unfold readOff
  simp only [bind, Except.bind, d1, h0, not_true_eq_false, if_false, d2, n1, n2, v1, offFaces_ok h2 v2]

/-- **C88, short face lines (negative).** A face line with fewer indices than its first number says makes the reader store indices that it never read. -/
theorem C88_off_short (hN : Exact N) (file : List Char) (verts : List (D × D × D)) (faces : List (List ℕ)) (nF d : ℕ) (f : List ℕ) (head count r l r' : List Char)
    (vl fl extra : List (List Char)) (hf : (splitLines '\n' file).filter keep = head :: count :: (vl ++ (fl ++ l :: extra))) (h0 : "OFF".toList <+: head)
    (hc : Words [dec verts.length, dec nF] count r) (hv : verts.length < 2 ^ 64) (hF : nF < 2 ^ 64) (hlt : faces.length < nF)
    (h1 : List.Forall₂ (fun p l => ∃ r, Words (vecWords N p) l r) verts vl) (h2 : List.Forall₂ FaceLine faces fl) (hd : d < 2 ^ 64) (hi : ∀ i ∈ f, i < 2 ^ 64)
    (hl : Words (dec d :: f.map dec) l r') (hr : ∀ c ∈ r', isSpace c = true) (hs : f.length < d) : readOff N junk file = .error .ub := by
  obtain ⟨r1, d1, e1⟩ := dataLine_ok hf
  obtain ⟨r2, d2, e2⟩ := dataLine_ok e1
  obtain ⟨s1, n1, hc⟩ := hc.size hv
  obtain ⟨s2, n2, -⟩ := hc.size hF
  obtain ⟨r3, v1, v2⟩ := offVerts_ok (junk := junk) hN h1 e2
  have short : offFace l = .error .ub := by
    obtain ⟨s, e, hl⟩ := hl.size hd
    unfold offFace
    rw [e]
    exact offCorners_short hi hl hr hs
  unfold readOff
  simp only [bind, Except.bind, d1, h0, not_true_eq_false, if_false, d2, n1, n2, v1, offFaces_short h2 v2 short hlt]

theorem offVerts_length (k : ℕ) (ls : List (List Char)) {r} (h : offVerts N junk k ls = .ok r) : r.1.length = k := by
  induction k generalizing ls r with
  | zero => simp only [offVerts, Except.ok.injEq] at h; rw [← h]; rfl
  | succ k ih =>
    simp only [offVerts, bind, Except.bind] at h
    cases e : dataLine ls with
    | error _ => simp [e] at h
    | ok l =>
      simp only [e] at h
      cases e' : offVerts N junk k l.2 with
      | error _ => simp [e'] at h
      | ok q =>
        simp only [e', Except.ok.injEq] at h
        rw [← h, List.length_cons, ih _ e']

theorem offFaces_length (k : ℕ) (ls : List (List Char)) {r} (h : offFaces k ls = .ok r) : r.length = k := by
  induction k generalizing ls r with
  | zero => simp only [offFaces, Except.ok.injEq] at h; rw [← h]; rfl
  | succ k ih =>
    simp only [offFaces, bind, Except.bind] at h
    cases e : dataLine ls with
    | error _ => simp [e] at h
    | ok l =>
      simp only [e] at h
      cases e1 : offFace l.1 with
      | error _ => simp [e1] at h
      | ok f =>
        simp only [e1] at h
        cases e' : offFaces k l.2 with
        | error _ => simp [e'] at h
        | ok q =>
          simp only [e', Except.ok.injEq] at h
          rw [← h, List.length_cons, ih _ e']

/-- **C88, all OFF files.** Whatever is read has the announced numbers of vertices and faces. -/
theorem C88_off_sound (file : List Char) (nV nF : ℕ) (hV : nV < 2 ^ 64) (hF : nF < 2 ^ 64) (head count r : List Char) (rest : List (List Char))
    (hf : (splitLines '\n' file).filter keep = head :: count :: rest) (hc : Words [dec nV, dec nF] count r) (s) (h : readOff N junk file = .ok s) :
    s.coords.length = nV ∧ s.polygons.length = nF ∧ "OFF".toList <+: head := by
  obtain ⟨r1, d1, e1⟩ := dataLine_ok hf
  obtain ⟨r2, d2, e2⟩ := dataLine_ok e1
  obtain ⟨s1, n1, hc⟩ := hc.size hV
  obtain ⟨s2, n2, -⟩ := hc.size hF
  unfold readOff at h
  simp only [bind, Except.bind, d1, d2, n1, n2] at h
  by_cases h0 : "OFF".toList <+: head
  · simp only [h0, not_true_eq_false, if_false] at h
    cases e : offVerts N junk nV r2 with
    | error _ => simp [e] at h
    | ok v =>
      simp only [e] at h
      cases e' : offFaces nF v.2 with
      | error _ => simp [e'] at h
      | ok q =>
        simp only [e', Except.ok.injEq] at h
        rw [← h]
        exact ⟨offVerts_length _ _ e, offFaces_length _ _ e', h0⟩
  · rw [if_pos h0] at h; simp at h

/-- **C88, the line with the counts (negative).** A line with fewer than two numbers — for instance the carriage return of an otherwise empty line — leaves
the counts unset, and they are used. -/
theorem C88_off_count (file : List Char) (head count r : List Char) (rest : List (List Char)) (hf : (splitLines '\n' file).filter keep = head :: count :: rest)
    (h0 : "OFF".toList <+: head) (ns : List ℕ) (hn : ns.length < 2) (hs : ∀ i ∈ ns, i < 2 ^ 64) (hc : Words (ns.map dec) count r) (hr : ∀ c ∈ r, isSpace c = true) :
    readOff N junk file = .error .ub := by
  obtain ⟨r1, d1, e1⟩ := dataLine_ok hf
  obtain ⟨r2, d2, e2⟩ := dataLine_ok e1
  unfold readOff
  simp only [bind, Except.bind, d1, h0, not_true_eq_false, if_false, d2]
  match ns, hn, hs, hc with
  | [], _, _, hc =>
    cases hc with
    | nil _ => simp only [takeSize_blank hr]
  | [i], _, hs, hc =>
    obtain ⟨s, e, hc⟩ := Words.size (hs i List.mem_cons_self) hc
    cases hc with
    | nil _ => simp only [e, takeSize_blank hr]

/-! ## Examples -/

/-- Natural numbers as coordinates. -/
def blankNum : Num ℕ where
  shw := dec
  get s := let t := s.dropWhile isSpace
    let ds := t.takeWhile Char.isDigit
    if ds = [] then none else some (decVal ds, t.dropWhile Char.isDigit)

theorem blankNum_exact : Exact blankNum where
  ne := dec_ne
  noSpace d c h := (isDigit_not c (dec_digits d c h)).1
  get_shw d w s hw hs := by
    have sd : ∀ c, isSpace c = true → Char.isDigit c = false := fun c hc => by
      by_contra h
      have := (isDigit_not c (by simpa using h)).1
      rw [hc] at this; simp at this
    have e : (w ++ (dec d ++ s)).dropWhile isSpace = dec d ++ s := drop_word hw (dec_ne d) (fun c h => (isDigit_not c (dec_digits d c h)).1)
    have h1 : (dec d ++ s).takeWhile Char.isDigit = dec d := by
      rw [List.takeWhile_append_of_pos (dec_digits d)]
      cases s with
      | nil => simp
      | cons c r => simp [sd c (hs c r rfl)]
    have h2 : (dec d ++ s).dropWhile Char.isDigit = s := by
      rw [List.dropWhile_append_of_pos (dec_digits d)]
      cases s with
      | nil => simp
      | cons c r => simp [sd c (hs c r rfl)]
    simp only [blankNum]
    rw [e, h1, h2, if_neg (dec_ne d), decVal_dec]

/-- A line made of the given words, each after a blank. -/
def line (ts : List (List Char)) : List Char := (ts.map (' ' :: ·)).flatten

theorem line_words (ts : List (List Char)) (h : ∀ t ∈ ts, t ≠ [] ∧ ∀ c ∈ t, isSpace c = false) : Words ts (line ts) [] := by
  induction ts with
  | nil => exact Words.nil (s := []) (by intro c r h; simp at h)
  | cons t ts ih =>
    have e : line (t :: ts) = [' '] ++ (t ++ line ts) := by simp [line]
    rw [e]
    refine .cons (by decide) (h t List.mem_cons_self).1 (h t List.mem_cons_self).2 ?_ (ih fun t ht => h t (List.mem_cons_of_mem _ ht))
    intro c r hc
    cases ts with
    | nil => simp [line] at hc
    | cons t ts => simp [line] at hc; rw [← hc.1]; decide

/-- A triangle and a quadrilateral. -/
def stlText : List Char := "solid x
 facet normal 0 0 1
  outer loop
   vertex 0 0 0
   vertex 1 0 0
   vertex 0 1 0
  endloop
 endfacet
 facet normal 0 0 1
  outer loop
   vertex 0 0 0
   vertex 0 1 0
   vertex 2 2 0
   vertex 2 0 0
  endloop
 endfacet
endsolid x
".toList

theorem blank_words (n : ℕ) (ts : List (List Char)) (h : ∀ t ∈ ts, t ≠ [] ∧ ∀ c ∈ t, isSpace c = false) : Words ts (List.replicate n ' ' ++ line ts) [] ∨ ts = [] := by
  cases ts with
  | nil => exact .inr rfl
  | cons t ts =>
    left
    have e : List.replicate n ' ' ++ line (t :: ts) = (List.replicate n ' ' ++ [' ']) ++ (t ++ line ts) := by simp [line]
    rw [e]
    have := line_words (t :: ts) h
    have e' : line (t :: ts) = [' '] ++ (t ++ line ts) := by simp [line]
    rw [e'] at this
    refine .cons ?_ (h t List.mem_cons_self).1 (h t List.mem_cons_self).2 ?_ (line_words ts fun t ht => h t (List.mem_cons_of_mem _ ht))
    · intro c hc
      rcases List.mem_append.1 hc with hc | hc
      · rw [(List.mem_replicate.1 hc).2]; decide
      · rw [List.mem_singleton.1 hc]; decide
    · intro c r hc
      cases ts with
      | nil => simp [line] at hc
      | cons t ts => simp [line] at hc; rw [← hc.1]; decide

theorem words_at {ts : List (List Char)} {l : List Char} (n : ℕ) (h : ∀ t ∈ ts, t ≠ [] ∧ ∀ c ∈ t, isSpace c = false) (hn : ts ≠ []) (e : l = List.replicate n ' ' ++ line ts) :
    ∃ r, Words ts l r ∧ ∀ c ∈ r, isSpace c = true := by
  rcases blank_words n ts h with a | a
  · exact ⟨[], e ▸ a, by simp⟩
  · exact absurd a hn

theorem vertex_line (a b c : ℕ) {l : List Char} (e : l = "   vertex".toList ++ line [dec a, dec b, dec c]) :
    ∃ r, Words ("vertex".toList :: vecWords blankNum (a, b, c)) l r := by
  obtain ⟨r, h, -⟩ := words_at (ts := "vertex".toList :: vecWords blankNum (a, b, c)) (l := l) 2 (by
    intro t ht
    have dg : ∀ n, dec n ≠ [] ∧ ∀ x ∈ dec n, isSpace x = false := fun n => ⟨dec_ne n, fun x h => (isDigit_not x (dec_digits n x h)).1⟩
    simp only [vecWords, blankNum, List.mem_cons, List.not_mem_nil, or_false] at ht
    rcases ht with rfl | rfl | rfl | rfl
    · decide
    · exact dg _
    · exact dg _
    · exact dg _) (by simp) (by rw [e]; simp [line, vecWords, blankNum])
  exact ⟨r, h⟩

/-- The lines of a facet. -/
def facetText (f : (ℕ × ℕ × ℕ) × List (ℕ × ℕ × ℕ)) : List (List Char) := (" facet normal".toList ++ line [dec f.1.1, dec f.1.2.1, dec f.1.2.2]) ::
  "  outer loop".toList :: (f.2.map (fun p => "   vertex".toList ++ line [dec p.1, dec p.2.1, dec p.2.2]) ++ ["  endloop".toList, " endfacet".toList])

theorem facet_lines (n : ℕ × ℕ × ℕ) (ps : List (ℕ × ℕ × ℕ)) : FacetLines blankNum n ps (facetText (n, ps)) := by
  have dg : ∀ n, dec n ≠ [] ∧ ∀ x ∈ dec n, isSpace x = false := fun n => ⟨dec_ne n, fun x h => (isDigit_not x (dec_digits n x h)).1⟩
  obtain ⟨r1, h1, -⟩ := words_at (ts := "facet".toList :: "normal".toList :: vecWords blankNum n) (l := " facet normal".toList ++ line [dec n.1, dec n.2.1, dec n.2.2]) 0 (by
    intro t ht
    simp only [vecWords, blankNum, List.mem_cons, List.not_mem_nil, or_false] at ht
    rcases ht with rfl | rfl | rfl | rfl | rfl
    · decide
    · decide
    · exact dg _
    · exact dg _
    · exact dg _) (by simp) (by simp [line, vecWords, blankNum])
  obtain ⟨r2, h2, -⟩ := words_at (ts := ["outer".toList, "loop".toList]) (l := "  outer loop".toList) 1 (by decide) (by simp) (by decide)
  obtain ⟨r3, h3, -⟩ := words_at (ts := ["endloop".toList]) (l := "  endloop".toList) 1 (by decide) (by simp) (by decide)
  obtain ⟨r4, h4, -⟩ := words_at (ts := ["endfacet".toList]) (l := " endfacet".toList) 0 (by decide) (by simp) (by decide)
  refine .mk h1 h2 ?_ h3 h4
  rw [List.forall₂_map_right_iff]
  exact List.forall₂_same.2 fun p _ => vertex_line p.1 p.2.1 p.2.2 rfl

/-- The facets of `stlText`. -/
def stlFacets : List ((ℕ × ℕ × ℕ) × List (ℕ × ℕ × ℕ)) :=
  [((0, 0, 1), [(0, 0, 0), (1, 0, 0), (0, 1, 0)]), ((0, 0, 1), [(0, 0, 0), (0, 1, 0), (2, 2, 0), (2, 0, 0)])]

/-- The quadrilateral is listed against its normal. -/
def natFlip (_ a b c : ℕ × ℕ × ℕ) : Bool :=
  decide (b.1 * c.2.1 + c.1 * a.2.1 + a.1 * b.2.1 < b.2.1 * c.1 + c.2.1 * a.1 + a.2.1 * b.1)

example : ∃ s, readAsciiStl blankNum 7 natFlip stlText = .ok s ∧ s.coords.length = 7 ∧
    s.polygons.map (·.map (s.coords[·]?)) = [[some (0, 0, 0), some (1, 0, 0), some (0, 1, 0)], [some (2, 0, 0), some (2, 2, 0), some (0, 1, 0), some (0, 0, 0)]] := by
  obtain ⟨s, h1, h2, -, -, h3⟩ := C88_ascii (junk := 7) (flip := natFlip) blankNum_exact stlText "solid x".toList stlFacets (stlFacets.map facetText) ["endsolid x".toList] (by decide +kernel)
    (by rw [List.forall₂_map_right_iff]; exact List.forall₂_same.2 fun f _ => facet_lines f.1 f.2) (.inr ⟨_, " x".toList, _, rfl, by
      refine Words.cons (w := []) (t := "endsolid".toList) (s := " x".toList) (by simp) (by decide) (by decide) ?_ (.nil ?_)
      all_goals intro c r h; simp at h; rw [← h.1]; decide⟩) (by decide)
  exact ⟨s, h1, by rw [h2]; rfl, by rw [h3]; decide⟩

/-- A facet with two corners. -/
example : readAsciiStl blankNum 7 natFlip "solid\n facet normal 0 0 1\n  outer loop\n   vertex 0 0 0\n   vertex 1 0 0\n  endloop\n endfacet\n".toList = .error .ub :=
  C88_ascii_short blankNum_exact _ "solid".toList [] [] (0, 0, 1) [(0, 0, 0), (1, 0, 0)] (facetText ((0, 0, 1), [(0, 0, 0), (1, 0, 0)])) [] (by decide +kernel) .nil (by simp)
    (facet_lines _ _) (by decide)

/-- A binary file with one triangle; a coordinate is the value of its first byte. -/
example : ∃ s, readBinaryStl (fun b => (b.headD 'x').toNat) (fun _ _ _ _ => false) (List.replicate 80 'h' ++ (['\x01', '\x00', '\x00', '\x00'] ++
      (([TriBytes.mk (List.replicate 12 'n') (List.replicate 12 'a') (List.replicate 12 'b') (List.replicate 12 'c') ['x', 'y']].map TriBytes.bytes).flatten ++ []))) = .ok s ∧
    s.coords = [(97, 97, 97), (98, 98, 98), (99, 99, 99)] := by
  obtain ⟨s, h1, h2, -⟩ := C88_binary (fun b => (b.headD 'x').toNat) (fun _ _ _ _ => false) (List.replicate 80 'h') ['\x01', '\x00', '\x00', '\x00']
    [TriBytes.mk (List.replicate 12 'n') (List.replicate 12 'a') (List.replicate 12 'b') (List.replicate 12 'c') ['x', 'y']] [] (by decide) (by decide) (by decide)
    (by intro t ht; rw [List.mem_singleton.1 ht]; exact ⟨rfl, rfl, rfl, rfl, rfl⟩)
  exact ⟨s, h1, h2⟩

/-- The same header with a count of two: the second triangle is not there. -/
example : readBinaryStl (fun b => (b.headD 'x').toNat) (fun _ _ _ _ => false) (List.replicate 80 'h' ++ (['\x02', '\x00', '\x00', '\x00'] ++ List.replicate 50 'a')) = .error .ub :=
  (C88_binary_sound _ _ _).2.1 (by decide +kernel) (by decide +kernel) (by decide +kernel)

/-- The exact test on the coordinates distinguishes a triangle from its reverse. -/
example : exactFlip ((0, 0, 1) : ℤ × ℤ × ℤ) (0, 0, 0) (0, 1, 0) (1, 0, 0) = true ∧ exactFlip ((0, 0, 1) : ℤ × ℤ × ℤ) (1, 0, 0) (0, 1, 0) (0, 0, 0) = false := by
  have h : exactFlip ((0, 0, 1) : ℤ × ℤ × ℤ) (0, 0, 0) (0, 1, 0) (1, 0, 0) = true := by decide
  exact ⟨h, C88_exact _ _ _ _ h⟩

/-- An OFF file with a comment, an empty line and a face whose indices are not those of vertices. -/
def offText : List Char := "OFF # a file

# counts
 2 2 0
 0 0 0
 1 10 100

 3 0 1 1 255 0 0
 4 0 7 8 9
".toList

theorem dec_ok (n : ℕ) : dec n ≠ [] ∧ ∀ x ∈ dec n, isSpace x = false := ⟨dec_ne n, fun x h => (isDigit_not x (dec_digits n x h)).1⟩

theorem count_line (a b : ℕ) : Words [dec a, dec b] (line [dec a, dec b]) [] := line_words _ (by
  intro t ht
  simp only [List.mem_cons, List.not_mem_nil, or_false] at ht
  rcases ht with rfl | rfl <;> exact dec_ok _)

theorem vert_line (p : ℕ × ℕ × ℕ) : ∃ r, Words (vecWords blankNum p) (line [dec p.1, dec p.2.1, dec p.2.2]) r := ⟨[], line_words [dec p.1, dec p.2.1, dec p.2.2] (by
  intro t ht
  simp only [List.mem_cons, List.not_mem_nil, or_false] at ht
  rcases ht with rfl | rfl | rfl <;> exact dec_ok _)⟩

theorem index_line (d : ℕ) (f : List ℕ) : Words (dec d :: f.map dec) (line (dec d :: f.map dec)) [] := line_words _ (by
  intro t ht
  rcases List.mem_cons.1 ht with rfl | ht
  · exact dec_ok _
  · obtain ⟨i, -, rfl⟩ := List.mem_map.1 ht
    exact dec_ok _)

/-- More numbers on the line do not matter. -/
theorem Words.more {ts us : List (List Char)} {l r : List Char} (h : Words (ts ++ us) l r) (hl : ts = [] → Ends l) : ∃ r', Words ts l r' := by
  induction ts generalizing l with
  | nil => exact ⟨l, .nil (hl rfl)⟩
  | cons t ts ih =>
    cases h with
    | cons hw hn ht hs h =>
      obtain ⟨r', h'⟩ := ih h fun _ => hs
      exact ⟨r', .cons hw hn ht hs h'⟩

theorem nat_line (f g : List ℕ) (hf : f ≠ []) : ∃ r, Words (f.map dec) (line ((f ++ g).map dec)) r := by
  refine Words.more (us := g.map dec) (r := []) ?_ (fun h => absurd (List.map_eq_nil_iff.1 h) hf)
  rw [← List.map_append]
  exact line_words _ (by
    intro t ht
    obtain ⟨i, -, rfl⟩ := List.mem_map.1 ht
    exact dec_ok _)

theorem face_line (f g : List ℕ) (h1 : f.length < 2 ^ 64) (h2 : ∀ i ∈ f, i < 2 ^ 64) : FaceLine f (line ((f.length :: (f ++ g)).map dec)) :=
  ⟨h1, h2, nat_line (f.length :: f) g (by simp)⟩

example : readOff blankNum 7 offText = .ok ⟨[[0, 1, 1], [0, 7, 8, 9]], [(0, 0, 0), (1, 10, 100)], []⟩ := by
  obtain ⟨r, hr⟩ := nat_line [2, 2] [0] (by simp)
  exact C88_off blankNum_exact offText [(0, 0, 0), (1, 10, 100)] [[0, 1, 1], [0, 7, 8, 9]] "OFF # a file".toList (line ([2, 2, 0].map dec)) r (([(0, 0, 0), (1, 10, 100)] : List (ℕ × ℕ × ℕ)).map fun p => line [dec p.1, dec p.2.1, dec p.2.2])
    [line ([3, 0, 1, 1, 255, 0, 0].map dec), line ([4, 0, 7, 8, 9].map dec)] [] (by decide +kernel) (by decide) hr (by decide) (by decide)
    (by rw [List.forall₂_map_right_iff]; exact List.forall₂_same.2 fun p _ => vert_line p)
    (.cons (face_line [0, 1, 1] [255, 0, 0] (by decide) (by decide)) (.cons (face_line [0, 7, 8, 9] [] (by decide) (by decide)) .nil))

/-- A quadrilateral with three indices. -/
example : readOff blankNum 7 "OFF\n 1 1\n 0 0 0\n 4 0 0 0\n".toList = .error .ub :=
  C88_off_short blankNum_exact _ [(0, 0, 0)] [] 1 4 [0, 0, 0] "OFF".toList (line [dec 1, dec 1]) [] (line (dec 4 :: [0, 0, 0].map dec)) [] [line [dec 0, dec 0, dec 0]] [] []
    (by decide +kernel) (by decide) (count_line 1 1) (by decide) (by decide) (by decide) (.cons (vert_line (0, 0, 0)) .nil) .nil (by decide) (by decide) (index_line 4 [0, 0, 0])
    (by simp) (by decide)

/-- An empty line that ends with a carriage return. -/
example : readOff blankNum 7 "OFF\r\n\r\n1 1 0\r\n".toList = .error .ub :=
  C88_off_count _ "OFF\r".toList "\r".toList "\r".toList ["1 1 0\r".toList] (by decide +kernel) (by decide) [] (by decide) (by simp)
    (.nil (by intro c r h; simp at h; rw [← h.1]; decide)) (by decide)

end GC.Stl
