import Verif.Obj
import Mathlib.Tactic.IntervalCases

/-!
# C34: reading back a written OBJ mesh

The round trip is exact for meshes with texture coordinates on every corner (`C34_partial`). A mesh without texture
coordinates comes back with a list of empty texture lists, one for each face, so `hasParameterization()` becomes true
(`C34_plain`, `C34_fails`).
-/

namespace GC.Obj

/-- What is needed of the printing and reading of doubles: no blanks or newlines are printed, and extracting from
a blank, a printed double and something that is empty or starts with a blank gives that double back. -/
structure Num.Faithful (N : Num D) : Prop where
  noSpace : ∀ d, ∀ c ∈ N.shw d, isSpace c = false
  get_shw : ∀ d rest, (rest = [] ∨ ∃ r, rest = ' ' :: r) → N.get (' ' :: (N.shw d ++ rest)) = some (d, rest)

section text

theorem splitLines_cons (d : Char) (l r : List Char) (h : d ∉ l) :
    splitLines d (l ++ d :: r) = l :: splitLines d r := by
  induction l with
  | nil => simp [splitLines]
  | cons c cs ih =>
    have h1 : c ≠ d := fun e => h (by simp [e])
    have h2 : d ∉ cs := fun e => h (by simp [e])
    simp [splitLines, h1, ih h2]

theorem splitLines_single (d : Char) (l : List Char) (h : d ∉ l) (hl : l ≠ []) : splitLines d l = [l] := by
  induction l with
  | nil => exact absurd rfl hl
  | cons c cs ih =>
    have h1 : c ≠ d := fun e => h (by simp [e])
    have h2 : d ∉ cs := fun e => h (by simp [e])
    by_cases hc : cs = []
    · subst hc; simp [splitLines, h1]
    · simp [splitLines, h1, ih h2 hc]

theorem digit_facts : ∀ k : Fin 10, (Char.ofNat (48 + k.val)).isDigit = true ∧
    (Char.ofNat (48 + k.val)).toNat - '0'.toNat = k.val := by decide

theorem isDigit_not (c : Char) (h : c.isDigit = true) :
    isSpace c = false ∧ c ≠ '/' ∧ c ≠ '\n' ∧ c ≠ '-' ∧ c ≠ '+' ∧ c ≠ '\\' := by
  refine ⟨?_, ?_, ?_, ?_, ?_, ?_⟩
  · by_contra hc
    simp only [isSpace, Bool.not_eq_false, Bool.or_eq_true, beq_iff_eq] at hc
    rcases hc with ((((e | e) | e) | e) | e) | e <;> (subst e; revert h; decide)
  all_goals (intro e; subst e; revert h; decide)

theorem dec_digits (n : ℕ) : ∀ c ∈ dec n, c.isDigit = true := by
  induction n using Nat.strong_induction_on with
  | _ n ih =>
    intro c hc
    unfold dec at hc
    by_cases h : n < 10
    · rw [if_pos h] at hc
      simp only [List.mem_singleton] at hc
      exact hc ▸ (digit_facts ⟨n, h⟩).1
    · rw [if_neg h] at hc
      rcases List.mem_append.1 hc with hc | hc
      · exact ih (n / 10) (by omega) c hc
      · simp only [List.mem_singleton] at hc
        exact hc ▸ (digit_facts ⟨n % 10, by omega⟩).1

theorem dec_ne (n : ℕ) : dec n ≠ [] := by
  unfold dec; split <;> simp

theorem decVal_dec (n : ℕ) : decVal (dec n) = n := by
  induction n using Nat.strong_induction_on with
  | _ n ih =>
    unfold dec
    by_cases h : n < 10
    · rw [if_pos h]
      have := (digit_facts ⟨n, h⟩).2
      simp only [decVal, List.foldl_cons, List.foldl_nil] at this ⊢
      omega
    · rw [if_neg h]
      have := (digit_facts ⟨n % 10, by omega⟩).2
      have i := ih (n / 10) (by omega)
      simp only [decVal, List.foldl_append, List.foldl_cons, List.foldl_nil] at this i ⊢
      rw [i, this]
      omega

theorem getInt_dec (old : ℤ) (n : ℕ) (h : (n : ℤ) ≤ intMax) : getInt old (dec n) = n := by
  have hd := dec_digits n
  have hv := decVal_dec n
  have hne := dec_ne n
  generalize dec n = l at hd hv hne
  cases l with
  | nil => exact absurd rfl hne
  | cons c cs =>
    obtain ⟨h1, _, _, h4, h5, _⟩ := isDigit_not c (hd c (by simp))
    have e1 : (c :: cs).dropWhile isSpace = c :: cs := by simp [h1]
    have e2 : (c :: cs).takeWhile Char.isDigit = c :: cs :=
      by simpa using List.takeWhile_append_of_pos (l₂ := []) hd
    have b1 : (c == '-') = false := by simpa using h4
    have b2 : (c == '+') = false := by simpa using h5
    unfold getInt
    rw [e1]
    simp only [b1, b2, Bool.or_self, Bool.false_eq_true, if_false]
    rw [e2, hv, if_neg (by simp), if_neg (by omega), if_neg (by unfold intMax; omega)]

theorem dec_not (n : ℕ) : '/' ∉ dec n ∧ '\n' ∉ dec n ∧ dec n ≠ ['\\'] := by
  refine ⟨fun h => (isDigit_not _ (dec_digits n _ h)).2.1 rfl, fun h => (isDigit_not _ (dec_digits n _ h)).2.2.1 rfl, ?_⟩
  intro h
  exact (isDigit_not '\\' (dec_digits n _ (h ▸ by simp))).2.2.2.2.2 rfl

theorem parse_plain (a : ℕ) (h : (a : ℤ) ≤ intMax) : parseFaceIndex (dec a) = .ok ⟨a - 1, 0, 0⟩ := by
  obtain ⟨h1, _, h3⟩ := dec_not a
  unfold parseFaceIndex
  rw [splitLines_single _ _ h1 (dec_ne a)]
  simp [List.foldlM, indexStep, h3, getInt_dec 1 a h, bind, Except.bind, pure, Except.pure]

theorem parse_uv (a b : ℕ) (ha : (a : ℤ) ≤ intMax) (hb : (b : ℤ) ≤ intMax) :
    parseFaceIndex (dec a ++ '/' :: dec b) = .ok ⟨a - 1, b - 1, 0⟩ := by
  obtain ⟨h1, _, h3⟩ := dec_not a
  obtain ⟨k1, _, k3⟩ := dec_not b
  unfold parseFaceIndex
  rw [splitLines_cons _ _ _ h1, splitLines_single _ _ k1 (dec_ne b)]
  simp [List.foldlM, indexStep, h3, k3, getInt_dec 1 a ha, getInt_dec 1 b hb, bind, Except.bind, pure, Except.pure]

theorem tokens_word (cur w rest : List Char) (hw : ∀ c ∈ w, isSpace c = false) (h : cur ++ w ≠ [])
    (hr : rest = [] ∨ ∃ r, rest = ' ' :: r) : tokens cur (w ++ rest) = (cur ++ w) :: tokens [] rest := by
  induction w generalizing cur with
  | nil =>
    have hc : cur ≠ [] := by simpa using h
    rcases hr with e | ⟨r, e⟩
    · subst e; simp [tokens, hc]
    · have : isSpace ' ' = true := by decide
      subst e; simp [tokens, hc, this]
  | cons c cs ih =>
    have h1 := hw c (by simp)
    simp only [List.cons_append, tokens, h1, Bool.false_eq_true, if_false]
    rw [ih _ (fun x hx => hw x (by simp [hx])) (by simp)]
    simp

theorem tokens_blank (w rest : List Char) (hw : ∀ c ∈ w, isSpace c = false) (h : w ≠ [])
    (hr : rest = [] ∨ ∃ r, rest = ' ' :: r) : tokens [] (' ' :: (w ++ rest)) = w :: tokens [] rest := by
  have : isSpace ' ' = true := by decide
  conv_lhs => unfold tokens
  simp only [this, if_true]
  simpa using tokens_word [] w rest hw (by simpa using h) hr

theorem toSize_ok (n : ℕ) (h : n < 2 ^ 64) : toSize (n : ℤ) = n := by
  unfold toSize; omega

theorem writeCorners_start (p : Bool) (f : List ℕ) (iC : ℕ) :
    (writeCorners p f iC).1 = [] ∨ ∃ r, (writeCorners p f iC).1 = ' ' :: r := by
  cases f with
  | nil => left; rfl
  | cons a r => right; exact ⟨_, rfl⟩

theorem writeCorners_noNl (p : Bool) (f : List ℕ) (iC : ℕ) : '\n' ∉ (writeCorners p f iC).1 := by
  induction f generalizing iC with
  | nil => simp [writeCorners]
  | cons a r ih =>
    have h1 := (dec_not (succ64 a)).2.1
    have h2 := (dec_not (succ64 iC)).2.1
    cases p <;> simp [writeCorners, h1, h2, ih]

theorem writeCorners_count (f : List ℕ) (iC : ℕ) : (writeCorners true f iC).2 = iC + f.length := by
  induction f generalizing iC with
  | nil => rfl
  | cons a r ih => simp only [writeCorners, if_true, ih, List.length_cons]; omega

theorem succ64_ok (n : ℕ) (h : (n : ℤ) < intMax) : succ64 n = n + 1 := by
  unfold succ64 intMax at *; omega

/-- The corners of a face written with texture indices are read back, together with consecutive texture indices. -/
theorem faceLoop_uv (f : List ℕ) (iC : ℕ) (ls : List (List Char)) (face uvs : List ℕ)
    (hf : ∀ i ∈ f, (i : ℤ) < intMax) (hc : ((iC + f.length : ℕ) : ℤ) ≤ intMax) :
    faceLoop (tokens [] (writeCorners true f iC).1) ls face uvs = .ok (face ++ f, uvs ++ List.range' iC f.length, ls) := by
  induction f generalizing iC face uvs with
  | nil => simp [writeCorners, tokens, faceLoop]
  | cons a r ih =>
    have ha := hf a (by simp)
    simp only [List.length_cons] at hc
    have hI : ((iC : ℕ) : ℤ) < intMax := by omega
    have e : (writeCorners true (a :: r) iC).1 =
        ' ' :: ((dec (a + 1) ++ '/' :: dec (iC + 1)) ++ (writeCorners true r (iC + 1)).1) := by
      simp [writeCorners, succ64_ok a ha, succ64_ok iC hI]
    have hw : ∀ c ∈ dec (a + 1) ++ '/' :: dec (iC + 1), isSpace c = false := by
      intro c hc
      rcases List.mem_append.1 hc with h | h
      · exact (isDigit_not c (dec_digits _ c h)).1
      · rcases List.mem_cons.1 h with h | h
        · subst h; decide
        · exact (isDigit_not c (dec_digits _ c h)).1
    rw [e, tokens_blank _ _ hw (by simp) (writeCorners_start _ _ _)]
    conv_lhs => unfold faceLoop
    rw [parse_uv (a + 1) (iC + 1) (by push_cast; omega) (by push_cast; omega)]
    have p1 : ((a + 1 : ℕ) : ℤ) - 1 = (a : ℤ) := by push_cast; omega
    have p2 : ((iC + 1 : ℕ) : ℤ) - 1 = (iC : ℤ) := by push_cast; omega
    simp only [p1, p2]
    rw [if_neg (by omega), if_pos (by omega), toSize_ok a (by unfold intMax at ha; omega),
      toSize_ok iC (by unfold intMax at hI; omega)]
    rw [ih (iC + 1) _ _ (fun i hi => hf i (by simp [hi])) (by omega)]
    simp [List.range'_succ]

/-- The corners of a face written without texture indices are read back; every corner gets texture index zero. -/
theorem faceLoop_plain (f : List ℕ) (iC : ℕ) (ls : List (List Char)) (face uvs : List ℕ)
    (hf : ∀ i ∈ f, (i : ℤ) < intMax) :
    faceLoop (tokens [] (writeCorners false f iC).1) ls face uvs =
      .ok (face ++ f, uvs ++ List.replicate f.length 0, ls) := by
  induction f generalizing iC face uvs with
  | nil => simp [writeCorners, tokens, faceLoop]
  | cons a r ih =>
    have ha := hf a (by simp)
    have e : (writeCorners false (a :: r) iC).1 = ' ' :: (dec (a + 1) ++ (writeCorners false r iC).1) := by
      simp [writeCorners, succ64_ok a ha]
    have hw : ∀ c ∈ dec (a + 1), isSpace c = false := fun c h => (isDigit_not c (dec_digits _ c h)).1
    rw [e, tokens_blank _ _ hw (dec_ne _) (writeCorners_start _ _ _)]
    conv_lhs => unfold faceLoop
    rw [parse_plain (a + 1) (by push_cast; omega)]
    have p1 : ((a + 1 : ℕ) : ℤ) - 1 = (a : ℤ) := by push_cast; omega
    simp only [p1]
    rw [if_neg (by omega), if_pos (by omega), toSize_ok a (by unfold intMax at ha; omega)]
    rw [ih iC _ _ (fun i hi => hf i (by simp [hi]))]
    simp [List.replicate_succ, toSize]

end text

variable {N : Num D} {junk : D}

/-- The reader applied to the lines of a text. -/
def run (N : Num D) (junk : D) (text : List Char) (st : RState D) : Res (RState D) :=
  readLoop N junk (splitLines '\n' text).length (splitLines '\n' text) st

theorem run_line (line text : List Char) (st st' : RState D) (h : '\n' ∉ line)
    (hr : ∀ ls, readLine N junk line ls st = .ok (st', ls)) :
    run N junk (line ++ '\n' :: text) st = run N junk text st' := by
  unfold run
  rw [splitLines_cons _ _ _ h]
  simp only [List.length_cons, readLoop, hr]

theorem space_blank : isSpace ' ' = true := by decide

theorem run_vert (hN : N.Faithful) (p : D × D × D) (text : List Char) (st : RState D) :
    run N junk (vertLine N p ++ text) st = run N junk text { st with verts := st.verts ++ [p] } := by
  have e : vertLine N p ++ text =
      ('v' :: ' ' :: (N.shw p.1 ++ ' ' :: (N.shw p.2.1 ++ ' ' :: N.shw p.2.2))) ++ '\n' :: text := by
    simp [vertLine]
  have nl : ∀ d, '\n' ∉ N.shw d := fun d h => by
    have := hN.noSpace d _ h
    revert this; decide
  rw [e]
  refine run_line _ _ _ _ (by simp [nl]) (fun ls => ?_)
  have sv : isSpace 'v' = false := by decide
  have g1 := hN.get_shw p.1 (' ' :: (N.shw p.2.1 ++ ' ' :: N.shw p.2.2)) (Or.inr ⟨_, rfl⟩)
  have g2 := hN.get_shw p.2.1 (' ' :: N.shw p.2.2) (Or.inr ⟨_, rfl⟩)
  have g3 := hN.get_shw p.2.2 [] (Or.inl rfl)
  rw [List.append_nil] at g3
  simp [readLine, getToken, sv, space_blank, getDoubles, g1, g2, g3]

theorem run_tex (hN : N.Faithful) (p : D × D) (text : List Char) (st : RState D) :
    run N junk (texLine N p ++ text) st = run N junk text { st with coords := st.coords ++ [p] } := by
  have e : texLine N p ++ text = ('v' :: 't' :: ' ' :: (N.shw p.1 ++ ' ' :: N.shw p.2)) ++ '\n' :: text := by
    simp [texLine]
  have nl : ∀ d, '\n' ∉ N.shw d := fun d h => by
    have := hN.noSpace d _ h
    revert this; decide
  rw [e]
  refine run_line _ _ _ _ (by simp [nl]) (fun ls => ?_)
  have sv : isSpace 'v' = false := by decide
  have st' : isSpace 't' = false := by decide
  have g1 := hN.get_shw p.1 (' ' :: N.shw p.2) (Or.inr ⟨_, rfl⟩)
  have g2 := hN.get_shw p.2 [] (Or.inl rfl)
  rw [List.append_nil] at g2
  simp [readLine, getToken, sv, st', space_blank, getDoubles, g1, g2]

theorem run_verts (hN : N.Faithful) (ps : List (D × D × D)) (text : List Char) (st : RState D) :
    run N junk ((ps.map (vertLine N)).flatten ++ text) st = run N junk text { st with verts := st.verts ++ ps } := by
  induction ps generalizing st with
  | nil => simp
  | cons p ps ih =>
    simp only [List.map_cons, List.flatten_cons, List.append_assoc]
    rw [run_vert hN, ih]
    simp

theorem run_texs (hN : N.Faithful) (ps : List (D × D)) (text : List Char) (st : RState D) :
    run N junk ((ps.map (texLine N)).flatten ++ text) st = run N junk text { st with coords := st.coords ++ ps } := by
  induction ps generalizing st with
  | nil => simp
  | cons p ps ih =>
    simp only [List.map_cons, List.flatten_cons, List.append_assoc]
    rw [run_tex hN, ih]
    simp

theorem run_hash (l text : List Char) (st : RState D) (h : '\n' ∉ l) :
    run N junk (('#' :: l) ++ '\n' :: text) st = run N junk text st := by
  refine run_line _ _ _ _ (by simp [h]) (fun ls => ?_)
  have s : isSpace '#' = false := by decide
  simp [readLine, getToken, s]

theorem run_header (s : Soup (D × D × D) (D × D)) (text : List Char) (st : RState D) :
    run N junk (header s ++ text) st = run N junk text st := by
  have e : header s ++ text = ('#' :: " Mesh exported from geometry-central".toList) ++ '\n' ::
      (('#' :: ("  vertices: ".toList ++ dec s.coords.length)) ++ '\n' ::
      (('#' :: ("     faces: ".toList ++ dec s.polygons.length)) ++ '\n' :: ([] ++ '\n' :: text))) := by
    unfold header
    simp only [List.append_assoc, List.cons_append, List.nil_append]
  have h1 : '\n' ∉ " Mesh exported from geometry-central".toList := by decide
  have h2 : '\n' ∉ "  vertices: ".toList := by decide
  have h3 : '\n' ∉ "     faces: ".toList := by decide
  rw [e, run_hash _ _ _ h1, run_hash _ _ _ (fun h => (List.mem_append.1 h).elim h2 (dec_not _).2.1),
    run_hash _ _ _ (fun h => (List.mem_append.1 h).elim h3 (dec_not _).2.1)]
  refine run_line _ _ _ _ (by simp) (fun ls => ?_)
  simp [readLine, getToken]

theorem readLine_face (cs : List Char) (hcs : cs = [] ∨ ∃ r, cs = ' ' :: r) (ls : List (List Char)) (st : RState D)
    (face uvs : List ℕ) (h : faceLoop (tokens [] cs) ls [] [] = .ok (face, uvs, ls)) :
    readLine N junk ('f' :: cs) ls st = .ok ({ st with
      polys := st.polys ++ [face],
      polyCoordInds := if uvs = [] then st.polyCoordInds else st.polyCoordInds ++ [uvs] }, ls) := by
  have s : isSpace 'f' = false := by decide
  have e : getToken ('f' :: cs) = (['f'], cs) := by
    rcases hcs with rfl | ⟨r, rfl⟩
    · simp [getToken, s]
    · simp [getToken, s, space_blank]
  simp [readLine, e, h]

/-- The texture indices the writer gives to the corners of the faces. -/
def cornerInds : List (List ℕ) → ℕ → List (List ℕ)
  | [], _ => []
  | f :: fs, iC => List.range' iC f.length :: cornerInds fs (iC + f.length)

theorem run_faces_uv (fs : List (List ℕ)) (iC : ℕ) (st : RState D) (hf : ∀ f ∈ fs, ∀ i ∈ f, (i : ℤ) < intMax)
    (hne : ∀ f ∈ fs, f ≠ []) (hc : ((iC + fs.flatten.length : ℕ) : ℤ) ≤ intMax) :
    run N junk (writeFaces true fs iC) st =
      .ok { st with polys := st.polys ++ fs, polyCoordInds := st.polyCoordInds ++ cornerInds fs iC } := by
  induction fs generalizing iC st with
  | nil => simp [writeFaces, run, splitLines, readLoop, cornerInds]
  | cons f fs ih =>
    have e : writeFaces true (f :: fs) iC = ('f' :: (writeCorners true f iC).1) ++ '\n' ::
        writeFaces true fs (iC + f.length) := by
      simp [writeFaces, writeCorners_count]
    simp only [List.flatten_cons, List.length_append] at hc
    rw [e, run_line _ _ st ⟨st.verts, st.coords, st.polys ++ [f], st.polyCoordInds ++ [List.range' iC f.length]⟩]
    · rw [ih _ _ (fun g hg => hf g (by simp [hg])) (fun g hg => hne g (by simp [hg])) (by omega)]
      simp [cornerInds]
    · simp [writeCorners_noNl]
    · intro ls
      rw [readLine_face _ (writeCorners_start _ _ _) ls st f (List.range' iC f.length)]
      · rw [if_neg]
        have := hne f (by simp)
        simpa using this
      · simpa using faceLoop_uv f iC ls [] [] (hf f (by simp)) (by omega)

theorem run_faces_plain (fs : List (List ℕ)) (iC : ℕ) (st : RState D) (hf : ∀ f ∈ fs, ∀ i ∈ f, (i : ℤ) < intMax) :
    run N junk (writeFaces false fs iC) st =
      .ok { st with polys := st.polys ++ fs, polyCoordInds := st.polyCoordInds ++
        (fs.filter (fun f => decide (f ≠ []))).map (fun f => List.replicate f.length 0) } := by
  induction fs generalizing iC st with
  | nil => simp [writeFaces, run, splitLines, readLoop]
  | cons f fs ih =>
    have e : writeFaces false (f :: fs) iC = ('f' :: (writeCorners false f iC).1) ++ '\n' ::
        writeFaces false fs (writeCorners false f iC).2 := by
      simp [writeFaces]
    rw [e, run_line _ _ st ⟨st.verts, st.coords, st.polys ++ [f], if List.replicate f.length 0 = [] then
        st.polyCoordInds else st.polyCoordInds ++ [List.replicate f.length 0]⟩]
    · rw [ih _ _ (fun g hg => hf g (by simp [hg]))]
      cases f <;> simp [List.replicate_succ]
    · simp [writeCorners_noNl]
    · intro ls
      rw [readLine_face _ (writeCorners_start _ _ _) ls st f (List.replicate f.length 0)]
      simpa using faceLoop_plain f iC ls [] [] (hf f (by simp))

theorem filterMap_range (pre l post : List (D × D)) :
    (List.range' pre.length l.length).filterMap (fun i => (pre ++ (l ++ post))[i]?) = l := by
  induction l generalizing pre with
  | nil => simp
  | cons a l ih =>
    have := ih (pre ++ [a])
    simp only [List.length_append, List.length_cons, List.length_nil, List.append_assoc, List.cons_append,
      List.nil_append] at this
    simp only [List.length_cons, List.range'_succ, List.cons_append]
    rw [List.filterMap_cons]
    simp only [List.getElem?_append_right (le_refl _), Nat.sub_self, List.getElem?_cons_zero]
    rw [this]

theorem unpack_inds (fs : List (List ℕ)) (ps : List (List (D × D))) (pre : List (D × D))
    (h : ps.map List.length = fs.map List.length) :
    unpack (pre ++ ps.flatten) (cornerInds fs pre.length) = ps := by
  induction fs generalizing ps pre with
  | nil => cases ps <;> simp_all [unpack, cornerInds]
  | cons f fs ih =>
    cases ps with
    | nil => simp at h
    | cons p ps =>
      simp only [List.map_cons, List.cons.injEq] at h
      have := ih ps (pre ++ p) h.2
      simp only [List.length_append, List.append_assoc, h.1] at this
      simp only [unpack, cornerInds, List.map_cons, List.flatten_cons] at this ⊢
      rw [this]
      congr 1
      rw [← h.1]
      exact filterMap_range pre p ps.flatten

theorem readObj_run (file : List Char) : readObj N junk file = match run N junk file ⟨[], [], [], []⟩ with
    | .error e => .error e
    | .ok st => .ok ⟨st.polys, st.verts, unpack st.coords st.polyCoordInds⟩ := rfl

/-- **C34**, the part that holds. If every face has a corner, there are as many texture coordinates as corners, face by
face, and all indices fit an `int`, then reading back what was written gives the mesh: same faces, positions and
texture coordinates. Missing for the full claim: meshes without texture coordinates, see `C34_fails`. -/
theorem C34_partial (hN : N.Faithful) (s : Soup (D × D × D) (D × D))
    (hne : ∀ f ∈ s.polygons, f ≠ [])
    (halign : s.params.map List.length = s.polygons.map List.length)
    (hind : ∀ f ∈ s.polygons, ∀ i ∈ f, (i : ℤ) < 2 ^ 31 - 1)
    (hcor : ((s.polygons.map List.length).sum : ℤ) ≤ 2 ^ 31 - 1) :
    readObj N junk (writeObj N s) = .ok s := by
  obtain ⟨polys, verts, params⟩ := s
  simp only at hne halign hind hcor
  rw [readObj_run]
  unfold writeObj
  simp only
  rw [run_header, run_verts hN, run_texs hN]
  cases hp : params with
  | nil =>
    subst hp
    have : polys = [] := by cases polys <;> simp_all
    subst this
    simp [writeFaces, run, splitLines, readLoop, unpack]
  | cons p ps =>
    rw [← hp]
    have hb : (!params.isEmpty) = true := by simp [hp]
    rw [hb, run_faces_uv polys 0 _ (fun f hf i hi => by have := hind f hf i hi; unfold intMax; omega) hne
      (by rw [List.length_flatten]; unfold intMax; push_cast; omega)]
    have := unpack_inds polys params [] halign
    simp only [List.length_nil, List.nil_append] at this ⊢
    rw [this]

/-- A mesh without texture coordinates: faces and positions come back, but every face that has a corner brings an empty
list of texture coordinates. -/
theorem C34_plain (hN : N.Faithful) (s : Soup (D × D × D) (D × D)) (hp : s.params = [])
    (hind : ∀ f ∈ s.polygons, ∀ i ∈ f, (i : ℤ) < 2 ^ 31 - 1) :
    readObj N junk (writeObj N s) =
      .ok { s with params := (s.polygons.filter (fun f => decide (f ≠ []))).map (fun _ => []) } := by
  obtain ⟨polys, verts, params⟩ := s
  simp only at hp hind
  subst hp
  rw [readObj_run]
  unfold writeObj
  simp only
  rw [run_header, run_verts hN, run_texs hN]
  simp only [List.isEmpty_nil, Bool.not_true]
  rw [run_faces_plain polys 0 _ (fun f hf i hi => by have := hind f hf i hi; unfold intMax; omega)]
  simp [unpack, Function.comp_def]

/-- **C34 fails** for every mesh that has no texture coordinates and has a face with a corner: the mesh read back claims
to have a parameterization. -/
theorem C34_fails (hN : N.Faithful) (s : Soup (D × D × D) (D × D)) (hp : s.params = [])
    (hf : ∃ f ∈ s.polygons, f ≠ []) (hind : ∀ f ∈ s.polygons, ∀ i ∈ f, (i : ℤ) < 2 ^ 31 - 1) :
    s.hasParam = false ∧ ∃ t, readObj N junk (writeObj N s) = .ok t ∧ t.hasParam = true := by
  refine ⟨by simp [Soup.hasParam, hp], _, C34_plain hN s hp hind, ?_⟩
  obtain ⟨f, hf, hn⟩ := hf
  simp only [Soup.hasParam, Bool.not_eq_true', List.isEmpty_eq_false_iff, ne_eq, List.map_eq_nil_iff]
  intro h
  have := List.filter_eq_nil_iff.1 h f hf
  simp [hn] at this

theorem splitLines_length (d : Char) (l : List Char) : (splitLines d l).length ≤ l.count d + 1 := by
  induction l with
  | nil => simp [splitLines]
  | cons c cs ih =>
    by_cases h : c = d
    · subst h; simpa [splitLines] using ih
    · simp only [splitLines, h, if_false, List.count_cons_of_ne h]
      cases e : splitLines d cs with
      | nil => simp
      | cons a b => rw [e] at ih; simpa using ih

theorem indexStep_ok (st : ℕ × (ℤ × ℤ × ℤ)) (part : List Char) (h : st.1 < 3) :
    ∃ st', indexStep st part = .ok st' ∧ st'.1 ≤ st.1 + 1 := by
  obtain ⟨i, a, b, c⟩ := st
  unfold indexStep
  by_cases hp : part = ['\\']
  · rw [if_pos hp]; exact ⟨_, rfl, by simp⟩
  · rw [if_neg hp]
    simp only at h
    interval_cases i <;> exact ⟨_, rfl, by simp⟩

theorem indexFold_ok (parts : List (List Char)) (st : ℕ × (ℤ × ℤ × ℤ)) (h : st.1 + parts.length ≤ 3) :
    ∃ st', parts.foldlM indexStep st = Except.ok st' := by
  induction parts generalizing st with
  | nil => exact ⟨st, rfl⟩
  | cons a r ih =>
    simp only [List.length_cons] at h
    obtain ⟨st', e, hle⟩ := indexStep_ok st a (by omega)
    obtain ⟨st'', e'⟩ := ih st' (by omega)
    exact ⟨st'', by simp [List.foldlM, e, bind, Except.bind, e']⟩

/-- **C55**, the part that holds: a face token with at most two slashes is parsed within the bounds of `indices`. -/
theorem C55_partial (token : List Char) (h : token.count '/' ≤ 2) : ∃ ix, parseFaceIndex token = .ok ix := by
  have hl := splitLines_length '/' token
  obtain ⟨⟨i, a, b, c⟩, e⟩ := indexFold_ok (splitLines '/' token) (0, (1, 1, 1)) (by simp only; omega)
  exact ⟨⟨a - 1, b - 1, c - 1⟩, by unfold parseFaceIndex; rw [e]⟩

example : ∃ ix, parseFaceIndex "12/7/3".toList = .ok ix := C55_partial _ (by decide)

/-- **C55 fails**: with three slashes the fourth number is written behind the end of the array, and this happens while
reading a file. -/
theorem C55_fails : parseFaceIndex "1/2/3/4".toList = .error .ub ∧
    ∀ (D : Type) (N : Num D) (junk : D), readObj N junk "f 1/2/3/4\n".toList = .error .ub :=
  ⟨by decide +kernel, fun _ _ _ => rfl⟩

/-- Numbers printed and read in decimal, to try the theorems on. -/
def natNum : Num ℕ where
  shw := dec
  get s := match s with
    | [] => none
    | _ :: t => let ds := t.takeWhile Char.isDigit
      if ds = [] then none else some (decVal ds, t.dropWhile Char.isDigit)

theorem natNum_faithful : natNum.Faithful where
  noSpace d c h := (isDigit_not c (dec_digits d c h)).1
  get_shw d rest h := by
    have h1 : (dec d ++ rest).takeWhile Char.isDigit = dec d := by
      rw [List.takeWhile_append_of_pos (dec_digits d)]
      rcases h with rfl | ⟨r, rfl⟩
      · simp
      · have : Char.isDigit ' ' = false := by decide
        simp [this]
    have h2 : (dec d ++ rest).dropWhile Char.isDigit = rest := by
      rw [List.dropWhile_append_of_pos (dec_digits d)]
      rcases h with rfl | ⟨r, rfl⟩
      · simp
      · have : Char.isDigit ' ' = false := by decide
        simp [this]
    simp only [natNum]
    rw [h1, h2, if_neg (dec_ne d), decVal_dec]

/-- Two triangles with a texture coordinate on every corner. -/
def twoTriangles : Soup (ℕ × ℕ × ℕ) (ℕ × ℕ) :=
  ⟨[[0, 1, 2], [0, 2, 3]], [(0, 0, 0), (10, 0, 0), (10, 12, 0), (0, 1, 0)],
    [[(0, 0), (1, 0), (1, 1)], [(0, 0), (1, 1), (0, 123)]]⟩

example : readObj natNum 7 (writeObj natNum twoTriangles) = .ok twoTriangles :=
  C34_partial natNum_faithful twoTriangles (by decide) (by decide) (by decide) (by decide)

example : ∃ t, readObj natNum 7 (writeObj natNum { twoTriangles with params := [] }) = .ok t ∧ t.hasParam = true :=
  (C34_fails natNum_faithful { twoTriangles with params := [] } rfl (by decide) (by decide)).2

end GC.Obj
