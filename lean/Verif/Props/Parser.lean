import Verif.Model.Parser
import Verif.Props.Mesh
import Verif.Props.Util
import Mathlib.Data.List.TakeWhile

/-! # Properties of the text input (C54, C87, C88) -/

namespace Detran.Parser

open Detran.Util hiding range
open Detran.Mesh Detran.Material

variable {K : Type}

/-! ## Words of a line -/

/-- Specification: words separated by one blank or more, with any number of blanks at the end. -/
def render : List (List Char × Nat) → List Char
  | [] => []
  | [(w, n)] => w ++ List.replicate n ' '
  | (w, n) :: r => w ++ (List.replicate (n + 1) ' ' ++ render r)

/-- Specification: a word is not empty and contains no white space. -/
def Word (w : List Char) : Prop := w ≠ [] ∧ ∀ c ∈ w, c.isWhitespace = false

instance (w : List Char) : Decidable (Word w) := inferInstanceAs (Decidable (_ ∧ _))

/-- Runs of blanks reduced to one. -/
def squeeze : List Char → List Char
  | [] => []
  | c :: r =>
    match c, r with
    | ' ', ' ' :: r' => squeeze (' ' :: r')
    | c, r => c :: squeeze r

theorem collapse1_spec (s : List Char) :
    (collapse1 s = none → squeeze s = s) ∧
    ∀ t, collapse1 s = some t → squeeze t = squeeze s ∧ t.length + 1 = s.length := by
  induction s with
  | nil => exact ⟨fun _ => rfl, fun t h => by simp [collapse1] at h⟩
  | cons c r ih =>
    by_cases hb : c = ' ' ∧ r.head? = some ' '
    · obtain ⟨rfl, hr⟩ := hb
      cases r with
      | nil => simp at hr
      | cons d r' =>
        simp at hr
        subst hr
        refine ⟨fun h => by simp [collapse1] at h, fun t h => ?_⟩
        simp only [collapse1, Option.some.injEq] at h
        subst h
        exact ⟨by simp [squeeze], rfl⟩
    · have e1 : collapse1 (c :: r) = (collapse1 r).map (c :: ·) := by
        rw [collapse1]
        intro r' h1 h2
        exact hb ⟨h1, by rw [h2]; rfl⟩
      have e2 : ∀ r2 : List Char, (r2.head? = some ' ' → r.head? = some ' ') → squeeze (c :: r2) = c :: squeeze r2 := by
        intro r2 hr2
        rw [squeeze]
        intro r' h1 h2
        exact hb ⟨h1, hr2 (by rw [h2]; rfl)⟩
      refine ⟨fun h => ?_, fun t h => ?_⟩
      · rw [e1, Option.map_eq_none_iff] at h
        rw [e2 r id, ih.1 h]
      · rw [e1, Option.map_eq_some_iff] at h
        obtain ⟨t', h1, rfl⟩ := h
        obtain ⟨h2, h3⟩ := ih.2 t' h1
        refine ⟨?_, by simp [h3]⟩
        rw [e2 t' ?_, e2 r id, h2]
        intro ht'
        cases r with
        | nil => simp [collapse1] at h1
        | cons d r' =>
          by_cases hd : d = ' '
          · simp [hd]
          · rw [collapse1] at h1
            · rw [Option.map_eq_some_iff] at h1
              obtain ⟨t'', _, rfl⟩ := h1
              exact ht'
            · intro r'' h1' _
              exact hd h1'

theorem collapseN_eq (n : Nat) (s : List Char) (h : s.length ≤ n) : collapseN n s = squeeze s := by
  induction n generalizing s with
  | zero =>
    have : s = [] := List.length_eq_zero_iff.1 (by omega)
    subst this
    rfl
  | succ n ih =>
    obtain ⟨h1, h2⟩ := collapse1_spec s
    rw [collapseN]
    cases hc : collapse1 s with
    | none => exact (h1 hc).symm
    | some t =>
      obtain ⟨h3, h4⟩ := h2 t hc
      simp only
      rw [ih t (by omega), h3]

theorem removeWS_eq (s : List Char) : removeWS s = squeeze s := collapseN_eq _ _ (Nat.le_refl _)

theorem squeeze_cons (c : Char) (hc : c ≠ ' ') (r : List Char) : squeeze (c :: r) = c :: squeeze r := by
  rw [squeeze]
  intro r' h _
  exact hc h

theorem squeeze_word (w t : List Char) (hw : ∀ c ∈ w, c ≠ ' ') : squeeze (w ++ t) = w ++ squeeze t := by
  induction w with
  | nil => rfl
  | cons c w ih =>
    rw [List.cons_append, squeeze_cons c (hw c List.mem_cons_self), ih (fun d h => hw d (List.mem_cons_of_mem _ h))]
    rfl

theorem squeeze_blank (t : List Char) (ht : t.head? ≠ some ' ') : squeeze (' ' :: t) = ' ' :: squeeze t := by
  rw [squeeze]
  intro r' _ h
  rw [h] at ht
  simp at ht

theorem squeeze_blanks (n : Nat) (t : List Char) (ht : t.head? ≠ some ' ') :
    squeeze (List.replicate (n + 1) ' ' ++ t) = ' ' :: squeeze t := by
  induction n with
  | zero => exact squeeze_blank t ht
  | succ n ih =>
    rw [← ih]
    simp [List.replicate_succ, squeeze]

theorem Word.blank {w : List Char} (h : Word w) : ∀ c ∈ w, c ≠ ' ' := by
  intro c hc e
  have := h.2 c hc
  rw [e] at this
  revert this
  decide

/-! ### Splitting -/

theorem getWord_append (w r : List Char) (hw : ∀ c ∈ w, c ≠ ' ') : getWord (w ++ ' ' :: r) = some (w, r) := by
  have h1 : (w ++ ' ' :: r).takeWhile (fun c => decide (c ≠ ' ')) = w := by
    rw [List.takeWhile_append_of_pos (by simpa using hw)]
    simp
  have h2 : (w ++ ' ' :: r).dropWhile (fun c => decide (c ≠ ' ')) = ' ' :: r := by
    rw [List.dropWhile_append_of_pos (by simpa using hw)]
    simp
  unfold getWord
  split
  · rename_i h
    simp at h
  · rw [h1, h2]
    rfl

theorem getWord_last (w : List Char) (hne : w ≠ []) (hw : ∀ c ∈ w, c ≠ ' ') : getWord w = some (w, []) := by
  have h1 : w.takeWhile (fun c => decide (c ≠ ' ')) = w := List.takeWhile_eq_self_iff.2 (by simpa using hw)
  have h2 : w.dropWhile (fun c => decide (c ≠ ' ')) = [] := List.dropWhile_eq_nil_iff.2 (by simpa using hw)
  unfold getWord
  split
  · exact absurd rfl hne
  · rw [h1, h2]
    rfl

theorem getWord_shorter (s w r : List Char) (h : getWord s = some (w, r)) : r.length < s.length := by
  cases s with
  | nil => simp [getWord] at h
  | cons c t =>
    simp only [getWord, Option.some.injEq, Prod.mk.injEq] at h
    rw [← h.2, List.length_drop]
    have := (List.dropWhile_suffix (fun c => decide (c ≠ ' ')) (l := c :: t)).length_le
    have : (c :: t).length = t.length + 1 := rfl
    omega

theorem wordsN_enough (n : Nat) (s : List Char) (h : s.length ≤ n) : wordsN n s = words s := by
  suffices H : ∀ k (s : List Char), s.length ≤ k → ∀ n, s.length ≤ n → wordsN n s = wordsN k s from
    H s.length s (Nat.le_refl _) n h
  intro k
  induction k with
  | zero =>
    intro s hs n _
    have : s = [] := List.length_eq_zero_iff.1 (by omega)
    subst this
    cases n <;> rfl
  | succ k ih =>
    intro s hs n hn
    cases n with
    | zero =>
      have : s = [] := List.length_eq_zero_iff.1 (by omega)
      subst this
      rfl
    | succ n =>
      rw [wordsN, wordsN]
      cases hg : getWord s with
      | none => rfl
      | some p =>
        obtain ⟨w, r⟩ := p
        have := getWord_shorter s w r hg
        simp only
        rw [ih r (by omega) n (by omega)]

theorem words_cons (s w r : List Char) (h : getWord s = some (w, r)) : words s = w :: words r := by
  have hl := getWord_shorter s w r h
  unfold words
  obtain ⟨n, hn⟩ : ∃ n, s.length = n + 1 := ⟨s.length - 1, by omega⟩
  rw [hn, wordsN, h]
  simp only
  rw [wordsN_enough n r (by omega)]
  rfl

theorem render_head (l : List (List Char × Nat)) (hl : ∀ p ∈ l, Word p.1) : (render l).head? ≠ some ' ' := by
  cases l with
  | nil => simp [render]
  | cons p l =>
    obtain ⟨w, n⟩ := p
    have hw := hl _ List.mem_cons_self
    have hb := Word.blank hw
    cases w with
    | nil => exact absurd rfl hw.1
    | cons c w =>
      have hc : c ≠ ' ' := hb c List.mem_cons_self
      cases l <;> simp [render, hc]

/-- C87: the words of a line do not depend on how many blanks separate or follow them. -/
theorem C87_words (l : List (List Char × Nat)) (hl : ∀ p ∈ l, Word p.1) :
    words (removeWS (render l)) = l.map Prod.fst := by
  rw [removeWS_eq]
  induction l with
  | nil => rfl
  | cons p l ih =>
    obtain ⟨w, n⟩ := p
    have hw := hl _ List.mem_cons_self
    have hb : ∀ c ∈ w, c ≠ ' ' := Word.blank hw
    cases l with
    | nil =>
      simp only [render, List.map_cons, List.map_nil]
      rw [squeeze_word w _ hb]
      cases n with
      | zero =>
        rw [List.replicate_zero, squeeze, List.append_nil, words_cons w w [] (getWord_last w hw.1 hb)]
        rfl
      | succ n =>
        have := squeeze_blanks n [] (by simp)
        rw [List.append_nil] at this
        rw [this, words_cons _ w _ (getWord_append w _ hb)]
        rfl
    | cons q l =>
      have hl' : ∀ p ∈ q :: l, Word p.1 := fun p hp => hl p (List.mem_cons_of_mem _ hp)
      rw [render, squeeze_word w _ hb, squeeze_blanks n _ (render_head _ hl'), words_cons _ w _ (getWord_append w _ hb),
        ih hl']
      · rfl
      · simp

example : words (removeWS "vec_int  mesh_xfm    10 20  ".toList)
    = ["vec_int".toList, "mesh_xfm".toList, "10".toList, "20".toList] := by decide

theorem render_first (w : List Char) (n : Nat) (l : List (List Char × Nat)) (hw : Word w) :
    (removeWS (render ((w, n) :: l))).head? = w.head? := by
  rw [removeWS_eq]
  have hb := Word.blank hw
  have : ∃ t, render ((w, n) :: l) = w ++ t := by
    cases l with
    | nil => exact ⟨_, rfl⟩
    | cons q l => exact ⟨_, rfl⟩
  obtain ⟨t, ht⟩ := this
  rw [ht, squeeze_word w t hb]
  cases w with
  | nil => exact absurd rfl hw.1
  | cons c w => rfl

theorem strVal_word (w : List Char) (hw : Word w) : strVal w = String.ofList w := by
  unfold strVal
  have h1 : w.dropWhile Char.isWhitespace = w := by
    cases w with
    | nil => rfl
    | cons c w => rw [List.dropWhile_cons_of_neg (by simp [hw.2 c List.mem_cons_self])]
  rw [h1, List.takeWhile_eq_self_iff.2]
  intro c hc
  simp [hw.2 c hc]

/-! ## C87: input lines -/

/-- Specification: the database entry a line of words stands for. -/
def entry (cv : Conv K) (ty : List Char) (key : List Char) (vals : List (List Char)) : Option (PutOp K) :=
  if ty = "int".toList then some ⟨.int, String.ofList key, cv.int (vals.headD [])⟩
  else if ty = "dbl".toList then some ⟨.dbl, String.ofList key, cv.dbl (vals.headD [])⟩
  else if ty = "str".toList then some ⟨.str, String.ofList key, strVal (vals.headD [])⟩
  else if ty = "vec_int".toList then some ⟨.vecInt, String.ofList key, vals.map fun w => cv.trunc (cv.dbl w)⟩
  else if ty = "vec_dbl".toList then some ⟨.vecDbl, String.ofList key, vals.map cv.dbl⟩
  else none

/-- C87: a line `type key values..` makes the one entry it stands for, however it is spaced. -/
theorem C87_line (cv : Conv K) (ty key : List Char) (n m : Nat) (vals : List (List Char × Nat))
    (hty : Word ty) (hkey : Word key) (hv : ∀ p ∈ vals, Word p.1) (hc : ty.head? ≠ some '#') :
    inputLine cv (render ((ty, n) :: (key, m) :: vals)) = entry cv ty key (vals.map Prod.fst) := by
  have hl : ∀ p ∈ (ty, n) :: (key, m) :: vals, Word p.1 := by
    intro p hp
    rcases List.mem_cons.1 hp with rfl | hp
    · exact hty
    · rcases List.mem_cons.1 hp with rfl | hp
      · exact hkey
      · exact hv p hp
  unfold inputLine entry
  simp only
  rw [render_first ty n _ hty, if_neg hc, C87_words _ hl]
  simp only [List.map_cons, scalar, List.headD_cons, List.tail_cons, strVal_word key hkey]

/-- C87: comments, lines that begin with a blank, and lines of another kind make no entry. -/
theorem C87_ignored (cv : Conv K) :
    (∀ s, inputLine cv ('#' :: s) = none) ∧ (∀ s, inputLine cv (' ' :: s) = none) ∧
    (∀ l : List (List Char × Nat), (∀ p ∈ l, Word p.1) →
      (∀ w ∈ (l.map Prod.fst).head?, w ∉ ["int".toList, "dbl".toList, "str".toList, "vec_int".toList, "vec_dbl".toList]) →
      inputLine cv (render l) = none) := by
  refine ⟨fun s => ?_, fun s => ?_, fun l hl h => ?_⟩
  · unfold inputLine
    simp only
    rw [removeWS_eq, squeeze_cons '#' (by decide)]
    rfl
  · have hsq : ∃ r, squeeze (' ' :: s) = ' ' :: r := by
      induction s with
      | nil => exact ⟨[], rfl⟩
      | cons c s ih =>
        by_cases hc : c = ' '
        · subst hc
          obtain ⟨r, hr⟩ := ih
          exact ⟨r, by rw [← hr]; simp [squeeze]⟩
        · exact ⟨_, squeeze_blank _ (by simp [hc])⟩
    obtain ⟨r, hr⟩ := hsq
    unfold inputLine
    simp only
    rw [removeWS_eq, hr, words_cons (' ' :: r) [] r (getWord_append [] r (by simp))]
    simp
  · unfold inputLine
    simp only
    rw [C87_words l hl]
    cases l with
    | nil => simp
    | cons p l =>
      simp only [List.map_cons, List.head?_cons, Option.mem_def, Option.some.injEq, forall_eq', List.mem_cons,
        List.not_mem_nil, or_false, not_or] at h
      obtain ⟨h1, h2, h3, h4, h5⟩ := h
      simp only [List.map_cons]
      simp only [if_neg h1, if_neg h2, if_neg h3, if_neg h4, if_neg h5, ite_self]

/-- C87: of all the lines for a key and type the last one counts; other lines make no difference. -/
theorem C87_last_line (cv : Conv K) (pre post : List (List Char)) (line : List Char) (o : PutOp K)
    (ho : inputLine cv line = some o)
    (hpost : ∀ l ∈ post, ∀ o', inputLine cv l = some o' → ¬ (o'.ty = o.ty ∧ o'.key = o.key)) :
    (inputText cv (pre ++ line :: post)).get o.ty o.key = some o.val := by
  induction post using List.reverseRecOn with
  | nil =>
    unfold inputText InputDB.run
    rw [List.filterMap_append, List.foldl_append]
    simp only [List.filterMap_cons, ho, List.filterMap_nil, List.foldl_cons, List.foldl_nil]
    rw [get_put]
    simp
  | append_singleton post l ih =>
    have ih' := ih (fun l' hl' => hpost l' (List.mem_append_left _ hl'))
    rw [← ih']
    have e : pre ++ line :: (post ++ [l]) = (pre ++ line :: post) ++ [l] := by simp
    rw [e]
    unfold inputText InputDB.run
    rw [List.filterMap_append, List.foldl_append]
    cases hl : inputLine cv l with
    | none => simp [hl]
    | some o' =>
      simp only [List.filterMap_cons, hl, List.filterMap_nil, List.foldl_cons, List.foldl_nil]
      rw [get_put, dif_neg (hpost l (by simp) o' hl)]

/-- C87: a key of which no line makes an entry is absent. -/
theorem C87_absent (cv : Conv K) (lines : List (List Char)) (k : String)
    (h : ∀ l ∈ lines, ∀ o, inputLine cv l = some o → o.key ≠ k) : (inputText cv lines).check k = false := by
  have hg : ∀ t, (inputText cv lines).get t k = none := by
    intro t
    induction lines using List.reverseRecOn with
    | nil => cases t <;> rfl
    | append_singleton lines l ih =>
      have ih' := ih (fun l' hl' => h l' (List.mem_append_left _ hl'))
      rw [← ih']
      unfold inputText InputDB.run
      rw [List.filterMap_append, List.foldl_append]
      cases hl : inputLine cv l with
      | none => simp [hl]
      | some o' =>
        simp only [List.filterMap_cons, hl, List.filterMap_nil, List.foldl_cons, List.foldl_nil]
        rw [get_put, dif_neg]
        rintro ⟨_, h2⟩
        exact h l (by simp) o' hl h2
  by_contra hc
  rw [Bool.not_eq_false, check_iff] at hc
  obtain ⟨t, ht⟩ := hc
  rw [hg t] at ht
  simp at ht

/-- Three lines, one of them a comment. -/
def sampleLines : List (List Char) :=
  ["int  dimension   1".toList, "# int dimension 3".toList, "vec_int mesh_xfm 4   5 ".toList, "int dimension 2".toList]

example (cv : Conv K) : (inputText cv sampleLines).get .int "dimension" = some (cv.int ['2']) ∧
    (inputText cv sampleLines).get .vecInt "mesh_xfm" = some [cv.trunc (cv.dbl ['4']), cv.trunc (cv.dbl ['5'])] :=
  ⟨rfl, rfl⟩

/-! ## C54: mesh descriptions -/

/-- A mesh description: dimension, edges in each direction, counts (for coarse descriptions), material map of
    the coarse cells. -/
structure Desc (K : Type) where
  dim : Nat
  coarse : Bool
  xe : List K
  ye : List K
  ze : List K
  xfm : List Nat
  yfm : List Nat
  zfm : List Nat
  mat : List Int

/-- The database holds the description (under the keys of the manual, with the right types). -/
structure Gives (b : InputDB K) (d : Desc K) : Prop where
  dim : b.get .int "dimension" = some (d.dim : Int)
  mat : b.get .vecInt "mesh_mat_map" = some d.mat
  xc : d.coarse = true → b.get .vecDbl "mesh_xcme" = some d.xe ∧ b.get .vecInt "mesh_xfm" = some (d.xfm.map Int.ofNat)
  yc : d.coarse = true → 1 < d.dim →
    b.get .vecDbl "mesh_ycme" = some d.ye ∧ b.get .vecInt "mesh_yfm" = some (d.yfm.map Int.ofNat)
  zc : d.coarse = true → 2 < d.dim →
    b.get .vecDbl "mesh_zcme" = some d.ze ∧ b.get .vecInt "mesh_zfm" = some (d.zfm.map Int.ofNat)
  xf : d.coarse = false → b.check "mesh_xcme" = false ∧ b.get .vecDbl "mesh_xfme" = some d.xe
  yf : d.coarse = false → 1 < d.dim → b.get .vecDbl "mesh_yfme" = some d.ye
  zf : d.coarse = false → 2 < d.dim → b.get .vecDbl "mesh_zfme" = some d.ze

/-- Specification: fine counts of a direction; directions that are not used have one cell. -/
def Desc.fm (d : Desc K) (used : Bool) (fm : List Nat) (e : List K) : List Nat :=
  if used then (if d.coarse then fm else List.replicate (e.length - 1) 1) else [1]

/-- Specification: edges of a direction; directions that are not used extend from 0 to 1. -/
def Desc.edges [Zero K] [One K] (used : Bool) (e : List K) : List K := if used then e else [0, 1]

/-- Specification: one more edge than intervals in each used direction, and one material per coarse cell. -/
def Desc.Consistent (d : Desc K) : Prop :=
  (d.dim = 1 ∨ d.dim = 2 ∨ d.dim = 3) ∧
  d.xe.length = (d.fm true d.xfm d.xe).length + 1 ∧
  (1 < d.dim → d.ye.length = (d.fm true d.yfm d.ye).length + 1) ∧
  (2 < d.dim → d.ze.length = (d.fm true d.zfm d.ze).length + 1) ∧
  d.mat.length = (d.fm true d.xfm d.xe).length * (d.fm (decide (1 < d.dim)) d.yfm d.ye).length
    * (d.fm (decide (2 < d.dim)) d.zfm d.ze).length

/-- Specification: the widths of a direction are those of its intervals, split evenly. -/
def Widths [Field K] (e : List K) (fm : List Nat) (dx : List K) : Prop :=
  dx.length = fm.sum ∧ ∀ c p, InCoarse fm c p →
    dx[p]? = some ((e.getD (c + 1) 0 - e.getD c 0) / (fm.getD c 0 : K))

/-- Specification: every fine cell has the material of the coarse cell it lies in. -/
def Materials (xfm yfm zfm : List Nat) (mat fine : List Int) : Prop :=
  fine.length = xfm.sum * yfm.sum * zfm.sum ∧
  ∀ I J L i j k, InCoarse xfm I i → InCoarse yfm J j → InCoarse zfm L k →
    ∃ m, mat[I + J * xfm.length + L * xfm.length * yfm.length]? = some m ∧
      fine[i + j * xfm.sum + k * xfm.sum * yfm.sum]? = some m

/-- Specification: the mesh a description stands for. -/
def Desc.Stands [Field K] (d : Desc K) (m : Built K) : Prop :=
  m.dim = d.dim ∧
  Widths d.xe (d.fm true d.xfm d.xe) m.dx ∧
  Widths (Desc.edges (decide (1 < d.dim)) d.ye) (d.fm (decide (1 < d.dim)) d.yfm d.ye) m.dy ∧
  Widths (Desc.edges (decide (2 < d.dim)) d.ze) (d.fm (decide (2 < d.dim)) d.zfm d.ze) m.dz ∧
  Materials (d.fm true d.xfm d.xe) (d.fm (decide (1 < d.dim)) d.yfm d.ye) (d.fm (decide (2 < d.dim)) d.zfm d.ze)
    d.mat m.mat

/-- The full claim. -/
def C54Claim : Prop :=
  ∀ (b : InputDB ℚ) (d : Desc ℚ), Gives b d →
    (d.Consistent → ∃ m, parseMesh b = .ok m ∧ d.Stands m) ∧
    (¬ d.Consistent → parseMesh b = .error .insist)

theorem check_of_get {b : InputDB K} {t : Ty} {k : String} {v : t.Val K} (h : b.get t k = some v) :
    b.check k = true := (check_iff b k).2 ⟨t, by rw [h]; rfl⟩

theorem counts_ofNat (fm : List Nat) : counts (fm.map Int.ofNat) = .ok fm := by
  unfold counts
  rw [if_pos (by simp)]
  congr 1
  rw [List.map_map]
  conv_rhs => rw [← List.map_id fm]
  apply List.map_congr_left
  intro a _
  simp

theorem inCoarse_one {c p : Nat} (h : InCoarse [1] c p) : c = 0 ∧ p = 0 := by
  unfold InCoarse at h
  cases c with
  | zero => simp at h; exact ⟨rfl, h⟩
  | succ c => simp at h; omega

theorem unit_widths [Field K] : Widths [0, 1] [1] [(1 : K)] := by
  refine ⟨rfl, fun c p h => ?_⟩
  obtain ⟨rfl, rfl⟩ := inCoarse_one h
  simp

theorem widths_zero [Field K] : widths [(0 : K), 0] [1] = some [0] := by
  simp [widths, widthWrites, segs, segsFrom, upTo, applyWrites]

/-- Coarse construction gives the described widths and materials. -/
theorem coarseMesh_spec [Field K] (dim : Nat) (xfm yfm zfm : List Nat) (xe ye ze : List K) (mat : List Int)
    (hx : xe.length = xfm.length + 1) (hy : ye.length = yfm.length + 1) (hz : ze.length = zfm.length + 1)
    (hm : mat.length = xfm.length * yfm.length * zfm.length) :
    ∃ m, coarseMesh dim (xfm.map Int.ofNat) (yfm.map Int.ofNat) (zfm.map Int.ofNat) xe ye ze mat = .ok m ∧
      m.dim = dim ∧ Widths xe xfm m.dx ∧ Widths ye yfm m.dy ∧ Widths ze zfm m.dz ∧
      widths ze zfm = some m.dz ∧ widths ye yfm = some m.dy ∧ Materials xfm yfm zfm mat m.mat := by
  obtain ⟨dx, x1, x2, x3⟩ := widths_spec xe xfm hx
  obtain ⟨dy, y1, y2, y3⟩ := widths_spec ye yfm hy
  obtain ⟨dz, z1, z2, z3⟩ := widths_spec ze zfm hz
  obtain ⟨f, f1, f2, f3⟩ := C02_fine_cell_gets_coarse_material xfm yfm zfm mat (by omega)
  refine ⟨⟨dim, dx, dy, dz, f⟩, ?_, rfl, ⟨x2, x3⟩, ⟨y2, y3⟩, ⟨z2, z3⟩, z1, y1, ⟨f2, f3⟩⟩
  unfold coarseMesh
  rw [counts_ofNat, counts_ofNat, counts_ofNat]
  show (do
      let dx ← orUB (widths xe xfm)
      let dy ← orUB (widths ye yfm)
      let dz ← orUB (widths ze zfm)
      let m ← orUB (coarseToFine xfm yfm zfm mat)
      pure (⟨dim, dx, dy, dz, m⟩ : Built K)) = _
  rw [x1, y1, z1, f1]
  rfl

theorem take_replicate_sum (n c : Nat) (hc : c ≤ n) : ((List.replicate n 1).take c).sum = c := by
  rw [List.take_replicate, Nat.min_eq_left hc]
  simp

theorem inCoarse_replicate {n c p : Nat} (h : InCoarse (List.replicate n 1) c p) : c = p ∧ p < n := by
  unfold InCoarse at h
  have h2 : ((List.replicate n 1).take (c + 1)).sum ≤ n := by
    rw [List.take_replicate]; simp
  by_cases hc : c + 1 ≤ n
  · rw [take_replicate_sum n c (by omega), take_replicate_sum n (c + 1) hc] at h
    omega
  · have e : (List.replicate n 1).take c = List.replicate n 1 := List.take_of_length_le (by simp; omega)
    rw [e] at h
    simp at h
    omega

/-- C54: in one dimension, from coarse cells or fine edges, a consistent description is accepted and gives the
    mesh it stands for, and an inconsistent one is rejected. -/
theorem C54_one_dimension_partial [Field K] (b : InputDB K) (d : Desc K) (h1 : d.dim = 1) (hb : Gives b d) :
    (d.Consistent → ∃ m, parseMesh b = .ok m ∧ d.Stands m) ∧
    (¬ d.Consistent → parseMesh b = .error .insist) := by
  have hdim := hb.dim
  rw [h1] at hdim
  have e0 : parseMesh b = (do
      let (coarse, x) ← xDir b
      insist (decide ((d.mat.length : Int) = x.n * 1 * 1))
      construct 1 coarse x Dir.none Dir.none d.mat) := by
    unfold parseMesh
    rw [check_of_get hb.dim, hdim, check_of_get hb.mat, hb.mat]
    rfl
  have hst : ∀ (m : Built K) fm, m.dim = 1 → Widths d.xe fm m.dx → fm = d.fm true d.xfm d.xe →
      m.dy = [1] → m.dz = [1] → Materials fm [1] [1] d.mat m.mat → d.Stands m := by
    intro m fm a1 a2 a3 a4 a5 a6
    unfold Desc.Stands Desc.edges Desc.fm
    rw [h1, a4, a5]
    rw [a3] at a2 a6
    unfold Desc.fm at a2 a6
    exact ⟨a1, a2, unit_widths, unit_widths, a6⟩
  have hcons : d.Consistent ↔ d.xe.length = (d.fm true d.xfm d.xe).length + 1 ∧
      d.mat.length = (d.fm true d.xfm d.xe).length := by
    unfold Desc.Consistent
    rw [h1]
    simp [Desc.fm]
  rw [hcons, e0]
  cases hc : d.coarse with
  | true =>
    obtain ⟨g1, g2⟩ := hb.xc hc
    have efm : d.fm true d.xfm d.xe = d.xfm := by simp [Desc.fm, hc]
    have ex : xDir b = (do
        insist (decide (d.xe.length = (d.xfm.map Int.ofNat).length + 1))
        pure (true, ⟨d.xe, d.xfm.map Int.ofNat, (d.xfm.map Int.ofNat).length⟩)) := by
      unfold xDir
      rw [check_of_get g1, g1, check_of_get g2, g2]
      rfl
    rw [ex, efm, List.length_map]
    by_cases hl : d.xe.length = d.xfm.length + 1
    · have e1 : insist (decide (d.xe.length = d.xfm.length + 1)) = .ok () := by simp [insist, hl]
      rw [e1]
      by_cases hm : d.mat.length = d.xfm.length
      · refine ⟨fun _ => ?_, fun h => absurd ⟨hl, hm⟩ h⟩
        obtain ⟨m, m1, m2, m3, m4, m5, m6, m7, m8⟩ := coarseMesh_spec 1 d.xfm [1] [1] d.xe [0, 0] [0, 0] d.mat hl rfl rfl
          (by simp [hm])
        rw [widths_zero] at m6 m7
        simp only [Option.some.injEq] at m6 m7
        refine ⟨m.unitY.unitZ, ?_, hst _ d.xfm m2 m3 efm.symm ?_ ?_ m8⟩
        · have e2 : insist (decide ((d.mat.length : Int) = (d.xfm.length : Int) * 1 * 1)) = .ok () := by
            simp [insist, hm]
          show (do insist (decide ((d.mat.length : Int) = (d.xfm.length : Int) * 1 * 1)); mesh1 _ _ _) = _
          rw [e2]
          show mesh1 _ _ _ = _
          unfold mesh1
          have : coarseMesh 1 (d.xfm.map Int.ofNat) [1] [1] d.xe [0, 0] [0, 0] d.mat = .ok m := m1
          rw [this]
          rfl
        · simp [Built.unitY, Built.unitZ, ← m7]
        · simp [Built.unitY, Built.unitZ, ← m6]
      · refine ⟨fun h => absurd h.2 hm, fun _ => ?_⟩
        have e2 : insist (decide ((d.mat.length : Int) = (d.xfm.length : Int) * 1 * 1)) = .error .insist := by
          simp [insist, hm]
        show (do insist (decide ((d.mat.length : Int) = (d.xfm.length : Int) * 1 * 1)); mesh1 _ _ _) = _
        rw [e2]
        rfl
    · have e1 : insist (decide (d.xe.length = d.xfm.length + 1)) = .error .insist := by simp [insist, hl]
      rw [e1]
      exact ⟨fun h => absurd h.1 hl, fun _ => rfl⟩
  | false =>
    obtain ⟨g1, g2⟩ := hb.xf hc
    have efm : d.fm true d.xfm d.xe = List.replicate (d.xe.length - 1) 1 := by simp [Desc.fm, hc]
    have ex : xDir b = .ok (false, ⟨d.xe, [], (d.xe.length : Int) - 1⟩) := by
      unfold xDir
      rw [g1, check_of_get g2, g2]
      rfl
    rw [ex, efm, List.length_replicate]
    show _ ∧ (_ → (do insist (decide ((d.mat.length : Int) = ((d.xe.length : Int) - 1) * 1 * 1)); mesh1Fine d.xe d.mat) = _)
    by_cases hm : d.xe.length = d.xe.length - 1 + 1 ∧ d.mat.length = d.xe.length - 1
    · refine ⟨fun _ => ?_, fun h => absurd hm h⟩
      obtain ⟨hl, hm⟩ := hm
      obtain ⟨dx, x1, x2, x3⟩ := widths_spec d.xe (List.replicate (d.xe.length - 1) 1) (by simpa using hl)
      refine ⟨⟨1, dx, [1], [1], d.mat⟩, ?_, hst _ _ rfl ⟨x2, x3⟩ efm.symm rfl rfl ⟨by simp [hm], ?_⟩⟩
      · have e2 : insist (decide ((d.mat.length : Int) = ((d.xe.length : Int) - 1) * 1 * 1)) = .ok () := by
          unfold insist
          rw [if_pos (by simp; omega)]
        show (do insist (decide ((d.mat.length : Int) = ((d.xe.length : Int) - 1) * 1 * 1)); mesh1Fine d.xe d.mat) = _
        rw [e2]
        show mesh1Fine d.xe d.mat = _
        unfold mesh1Fine fineMesh
        rw [x1]
        have : widths [(0 : K), 0] (List.replicate ([(0 : K), 0].length - 1) 1) = some [0] := widths_zero
        rw [this]
        rfl
      · intro I J L i j k hI hJ hL
        obtain ⟨rfl, hi⟩ := inCoarse_replicate hI
        obtain ⟨rfl, rfl⟩ := inCoarse_one hJ
        obtain ⟨rfl, rfl⟩ := inCoarse_one hL
        have : I < d.mat.length := by omega
        exact ⟨d.mat[I], by simp [this], by simp [this]⟩
    · refine ⟨fun h => absurd h hm, fun _ => ?_⟩
      have e2 : insist (decide ((d.mat.length : Int) = ((d.xe.length : Int) - 1) * 1 * 1)) = .error .insist := by
        unfold insist
        rw [if_neg]
        simp
        omega
      rw [e2]
      rfl

/-- The start of `parse_mesh_text` for a coarse description: the first direction is accepted exactly when it has
    one more edge than counts. -/
theorem xDir_coarse {b : InputDB K} {d : Desc K} (hb : Gives b d) (hc : d.coarse = true) :
    xDir b = if d.xe.length = d.xfm.length + 1
      then .ok (true, ⟨d.xe, d.xfm.map Int.ofNat, (d.xfm.length : Int)⟩) else .error .insist := by
  obtain ⟨g1, g2⟩ := hb.xc hc
  unfold xDir
  rw [check_of_get g1, g1, check_of_get g2, g2]
  show (do
        insist (decide (d.xe.length = (d.xfm.map Int.ofNat).length + 1))
        pure (true, (⟨d.xe, d.xfm.map Int.ofNat, ((d.xfm.map Int.ofNat).length : Int)⟩ : Dir K))) = _
  rw [List.length_map]
  by_cases hl : d.xe.length = d.xfm.length + 1
  · rw [if_pos hl, show insist (decide (d.xe.length = d.xfm.length + 1)) = .ok () from by simp [insist, hl]]
    rfl
  · rw [if_neg hl, show insist (decide (d.xe.length = d.xfm.length + 1)) = .error .insist from by simp [insist, hl]]
    rfl

theorem yDir_coarse {b : InputDB K} {d : Desc K} (hb : Gives b d) (hc : d.coarse = true) (h2 : 1 < d.dim)
    (xe : List K) :
    yDir b true xe = if xe.length = d.yfm.length + 1
      then .ok ⟨d.ye, d.yfm.map Int.ofNat, (d.yfm.length : Int)⟩ else .error .insist := by
  obtain ⟨g1, g2⟩ := hb.yc hc h2
  unfold yDir
  rw [check_of_get g1, g1, check_of_get g2, g2]
  show (do
        insist (decide (xe.length = (d.yfm.map Int.ofNat).length + 1))
        pure (⟨d.ye, d.yfm.map Int.ofNat, ((d.yfm.map Int.ofNat).length : Int)⟩ : Dir K)) = _
  rw [List.length_map]
  by_cases hl : xe.length = d.yfm.length + 1
  · rw [if_pos hl, show insist (decide (xe.length = d.yfm.length + 1)) = .ok () from by simp [insist, hl]]
    rfl
  · rw [if_neg hl, show insist (decide (xe.length = d.yfm.length + 1)) = .error .insist from by simp [insist, hl]]
    rfl

theorem zDir_coarse {b : InputDB K} {d : Desc K} (hb : Gives b d) (hc : d.coarse = true) (h3 : 2 < d.dim) :
    zDir b true = if d.ze.length = d.zfm.length + 1
      then .ok ⟨d.ze, d.zfm.map Int.ofNat, (d.zfm.length : Int)⟩ else .error .insist := by
  obtain ⟨g1, g2⟩ := hb.zc hc h3
  unfold zDir
  rw [check_of_get g1, g1, check_of_get g2, g2]
  show (do
        insist (decide (d.ze.length = (d.zfm.map Int.ofNat).length + 1))
        pure (⟨d.ze, d.zfm.map Int.ofNat, ((d.zfm.map Int.ofNat).length : Int)⟩ : Dir K)) = _
  rw [List.length_map]
  by_cases hl : d.ze.length = d.zfm.length + 1
  · rw [if_pos hl, show insist (decide (d.ze.length = d.zfm.length + 1)) = .ok () from by simp [insist, hl]]
    rfl
  · rw [if_neg hl, show insist (decide (d.ze.length = d.zfm.length + 1)) = .error .insist from by simp [insist, hl]]
    rfl

theorem insist_true {p : Prop} [Decidable p] (h : p) : insist (decide p) = .ok () := by simp [insist, h]
theorem insist_false {p : Prop} [Decidable p] (h : ¬ p) : insist (decide p) = .error .insist := by simp [insist, h]

/-- `parse_mesh_text` on a two-dimensional coarse description. -/
theorem parse2 [Field K] {b : InputDB K} {d : Desc K} (hb : Gives b d) (hd : d.dim = 2) (hc : d.coarse = true)
    (hx : d.xe.length = d.xfm.length + 1) :
    parseMesh b = if d.yfm.length = d.xfm.length ∧ d.mat.length = d.xfm.length * d.yfm.length
      then mesh2 (d.xfm.map Int.ofNat) (d.yfm.map Int.ofNat) d.xe d.ye d.mat else .error .insist := by
  have hdim := hb.dim
  rw [hd] at hdim
  have e0 : parseMesh b = (do
      let (coarse, x) ← xDir b
      let y ← yDir b coarse x.e
      insist (decide ((d.mat.length : Int) = x.n * y.n * 1))
      construct 2 coarse x y Dir.none d.mat) := by
    unfold parseMesh
    rw [check_of_get hb.dim, hdim, check_of_get hb.mat, hb.mat]
    rfl
  rw [e0, xDir_coarse hb hc, if_pos hx]
  show (do
      let y ← yDir b true d.xe
      insist (decide ((d.mat.length : Int) = (d.xfm.length : Int) * y.n * 1))
      construct 2 true ⟨d.xe, d.xfm.map Int.ofNat, (d.xfm.length : Int)⟩ y Dir.none d.mat) = _
  rw [yDir_coarse hb hc (by omega)]
  by_cases hy : d.yfm.length = d.xfm.length
  · rw [if_pos (by omega)]
    show (do
      insist (decide ((d.mat.length : Int) = (d.xfm.length : Int) * (d.yfm.length : Int) * 1))
      construct 2 true _ _ Dir.none d.mat) = _
    by_cases hm : d.mat.length = d.xfm.length * d.yfm.length
    · rw [if_pos ⟨hy, hm⟩, insist_true (by rw [hm]; push_cast; ring)]
      rfl
    · rw [if_neg (fun h => hm h.2), insist_false (by intro h; apply hm; rw [mul_one] at h; exact_mod_cast h)]
      rfl
  · rw [if_neg (by omega), if_neg (fun h => hy h.1)]
    rfl

theorem unitZ_spec [Field K] {z : List K} (h : widths [(0 : K), 0] [1] = some z) : z.set 0 1 = [1] := by
  rw [widths_zero] at h
  simp only [Option.some.injEq] at h
  rw [← h]; rfl

/-- C54: in two dimensions, a consistent description by coarse cells is accepted, with the mesh it stands for,
    exactly when both directions have the same number of coarse cells; otherwise it is rejected. -/
theorem C54_two_dimensions_partial [Field K] (b : InputDB K) (d : Desc K) (h2 : d.dim = 2) (hc : d.coarse = true)
    (hb : Gives b d) (hd : d.Consistent) :
    (d.yfm.length = d.xfm.length → ∃ m, parseMesh b = .ok m ∧ d.Stands m) ∧
    (d.yfm.length ≠ d.xfm.length → parseMesh b = .error .insist) := by
  obtain ⟨-, c1, c2, -, c3⟩ := hd
  have c2 := c2 (by omega)
  simp only [Desc.fm, hc, if_true, h2, show decide (1 < 2) = true from rfl, show decide (2 < 2) = false from rfl,
    if_neg, List.length_singleton, Nat.mul_one, Bool.false_eq_true, if_false] at c1 c2 c3
  rw [parse2 hb h2 hc c1]
  refine ⟨fun hl => ?_, fun hl => by rw [if_neg (fun h => hl h.1)]⟩
  rw [if_pos ⟨hl, c3⟩]
  obtain ⟨m, m1, m2, m3, m4, m5, m6, m7, m8⟩ := coarseMesh_spec 2 d.xfm d.yfm [1] d.xe d.ye [0, 0] d.mat c1 c2 rfl
    (by simp [c3])
  refine ⟨m.unitZ, ?_, ?_⟩
  · unfold mesh2
    have : coarseMesh 2 (d.xfm.map Int.ofNat) (d.yfm.map Int.ofNat) [1] d.xe d.ye [0, 0] d.mat = .ok m := m1
    rw [this]
    rfl
  · have hz : m.unitZ.dz = [1] := unitZ_spec m6
    unfold Desc.Stands Desc.edges Desc.fm
    rw [h2, hc, hz]
    exact ⟨m2, m3, m4, unit_widths, m8⟩

/-- C54: a two- or three-dimensional description by fine edges is never accepted. -/
theorem C54_fine_rejected [Field K] (b : InputDB K) (d : Desc K) (h2 : d.dim = 2 ∨ d.dim = 3) (hc : d.coarse = false)
    (hb : Gives b d) : parseMesh b = .error .insist := by
  obtain ⟨g1, g2⟩ := hb.xf hc
  have gy := hb.yf hc (by omega)
  have ex : xDir b = .ok (false, ⟨d.xe, [], (d.xe.length : Int) - 1⟩) := by
    unfold xDir
    rw [g1, check_of_get g2, g2]
    rfl
  have ey : yDir b false d.xe = .ok ⟨d.ye, [], (d.ye.length : Int) - 1⟩ := by
    unfold yDir
    rw [check_of_get g2, gy]
    rfl
  have hdim := hb.dim
  rcases h2 with h2 | h2 <;> rw [h2] at hdim
  · have e0 : parseMesh b = (do
        let (coarse, x) ← xDir b
        let y ← yDir b coarse x.e
        insist (decide ((d.mat.length : Int) = x.n * y.n * 1))
        construct 2 coarse x y Dir.none d.mat) := by
      unfold parseMesh
      rw [check_of_get hb.dim, hdim, check_of_get hb.mat, hb.mat]
      rfl
    rw [e0, ex]
    show (do
      let y ← yDir b false d.xe
      insist (decide ((d.mat.length : Int) = ((d.xe.length : Int) - 1) * y.n * 1))
      construct 2 false _ y Dir.none d.mat) = _
    rw [ey]
    show (do
      insist (decide ((d.mat.length : Int) = ((d.xe.length : Int) - 1) * ((d.ye.length : Int) - 1) * 1))
      Except.error Fail.insist) = _
    by_cases hm : (d.mat.length : Int) = ((d.xe.length : Int) - 1) * ((d.ye.length : Int) - 1) * 1
    · rw [insist_true hm]; rfl
    · rw [insist_false hm]; rfl
  · have gz := hb.zf hc (by omega)
    have ez : zDir b false = .ok ⟨d.ze, [], (d.ze.length : Int) - 1⟩ := by
      unfold zDir
      rw [check_of_get gz, gz]
      rfl
    have e0 : parseMesh b = (do
        let (coarse, x) ← xDir b
        let y ← yDir b coarse x.e
        let z ← zDir b coarse
        insist (decide ((d.mat.length : Int) = x.n * y.n * z.n))
        construct 3 coarse x y z d.mat) := by
      unfold parseMesh
      rw [check_of_get hb.dim, hdim, check_of_get hb.mat, hb.mat]
      rfl
    rw [e0, ex]
    show (do
      let y ← yDir b false d.xe
      let z ← zDir b false
      insist (decide ((d.mat.length : Int) = ((d.xe.length : Int) - 1) * y.n * z.n))
      construct 3 false _ y z d.mat) = _
    rw [ey, ez]
    show (do
      insist (decide ((d.mat.length : Int) = ((d.xe.length : Int) - 1) * ((d.ye.length : Int) - 1) *
        ((d.ze.length : Int) - 1)))
      Except.error Fail.insist) = _
    by_cases hm : (d.mat.length : Int) = ((d.xe.length : Int) - 1) * ((d.ye.length : Int) - 1) *
        ((d.ze.length : Int) - 1)
    · rw [insist_true hm]; rfl
    · rw [insist_false hm]; rfl

/-- `parse_mesh_text` on a consistent three-dimensional coarse description: rejected unless the first two
    directions have the same number of coarse cells, and then the counts of the second, third and third
    direction are used. -/
theorem parse3 [Field K] {b : InputDB K} {d : Desc K} (hb : Gives b d) (hd : d.dim = 3) (hc : d.coarse = true)
    (hc3 : d.Consistent) :
    parseMesh b = if d.yfm.length = d.xfm.length
      then mesh3 (d.yfm.map Int.ofNat) (d.zfm.map Int.ofNat) (d.zfm.map Int.ofNat) d.xe d.ye d.ze d.mat
      else .error .insist := by
  obtain ⟨-, c1, c2, c4, c3⟩ := hc3
  have c2 := c2 (by omega)
  have c4 := c4 (by omega)
  simp only [Desc.fm, hc, if_true, hd, show decide (1 < 3) = true from rfl, show decide (2 < 3) = true from rfl]
    at c1 c2 c3 c4
  have hdim := hb.dim
  rw [hd] at hdim
  have e0 : parseMesh b = (do
      let (coarse, x) ← xDir b
      let y ← yDir b coarse x.e
      let z ← zDir b coarse
      insist (decide ((d.mat.length : Int) = x.n * y.n * z.n))
      construct 3 coarse x y z d.mat) := by
    unfold parseMesh
    rw [check_of_get hb.dim, hdim, check_of_get hb.mat, hb.mat]
    rfl
  rw [e0, xDir_coarse hb hc, if_pos c1]
  show (do
      let y ← yDir b true d.xe
      let z ← zDir b true
      insist (decide ((d.mat.length : Int) = (d.xfm.length : Int) * y.n * z.n))
      construct 3 true ⟨d.xe, d.xfm.map Int.ofNat, (d.xfm.length : Int)⟩ y z d.mat) = _
  rw [yDir_coarse hb hc (by omega), zDir_coarse hb hc (by omega), if_pos c4]
  by_cases hy : d.yfm.length = d.xfm.length
  · rw [if_pos (by omega), if_pos hy]
    show (do
      insist (decide ((d.mat.length : Int) = (d.xfm.length : Int) * (d.yfm.length : Int) * (d.zfm.length : Int)))
      construct 3 true _ _ _ d.mat) = _
    rw [insist_true (by rw [c3]; push_cast; ring)]
    rfl
  · rw [if_neg (by omega), if_neg hy]
    rfl

/-- C54: in three dimensions, a consistent description by coarse cells whose three directions have the same
    counts is accepted, with the mesh it stands for. -/
theorem C54_three_dimensions_partial [Field K] (b : InputDB K) (d : Desc K) (h3 : d.dim = 3) (hc : d.coarse = true)
    (hb : Gives b d) (hd : d.Consistent) (hy : d.yfm = d.xfm) (hz : d.zfm = d.xfm) :
    ∃ m, parseMesh b = .ok m ∧ d.Stands m := by
  rw [parse3 hb h3 hc hd, if_pos (by rw [hy])]
  obtain ⟨-, c1, c2, c4, c3⟩ := hd
  have c2 := c2 (by omega)
  have c4 := c4 (by omega)
  simp only [Desc.fm, hc, if_true, h3, show decide (1 < 3) = true from rfl, show decide (2 < 3) = true from rfl,
    hy, hz] at c1 c2 c3 c4
  obtain ⟨m, m1, m2, m3, m4, m5, m6, m7, m8⟩ := coarseMesh_spec 3 d.xfm d.xfm d.xfm d.xe d.ye d.ze d.mat c1 c2 c4 c3
  refine ⟨m, ?_, ?_⟩
  · rw [hy, hz]
    exact m1
  · unfold Desc.Stands Desc.edges Desc.fm
    rw [h3, hc, hy, hz]
    exact ⟨m2, m3, m4, m5, m8⟩

/-! ### Concrete descriptions -/

/-- Two slabs in one dimension. -/
def slabs : Desc ℚ := ⟨1, true, [0, 1, 3], [], [], [2, 3], [], [], [0, 1]⟩

def slabsDB : InputDB ℚ := InputDB.run [⟨.int, "dimension", (1 : Int)⟩, ⟨.vecDbl, "mesh_xcme", [0, 1, 3]⟩,
  ⟨.vecInt, "mesh_xfm", [2, 3]⟩, ⟨.vecInt, "mesh_mat_map", [0, 1]⟩]

theorem slabs_given : Gives slabsDB slabs where
  dim := rfl
  mat := rfl
  xc _ := ⟨rfl, rfl⟩
  yc _ h := absurd h (by decide)
  zc _ h := absurd h (by decide)
  xf h := absurd h (by decide)
  yf h := absurd h (by decide)
  zf h := absurd h (by decide)

example : slabs.Consistent :=
  ⟨Or.inl rfl, rfl, fun h => absurd h (by decide), fun h => absurd h (by decide), rfl⟩

/-- A rectangle of two by one coarse cells. -/
def rect : Desc ℚ := ⟨2, true, [0, 1, 3], [0, 1], [], [2, 3], [2], [], [0, 1]⟩

def rectDB : InputDB ℚ := InputDB.run [⟨.int, "dimension", (2 : Int)⟩, ⟨.vecDbl, "mesh_xcme", [0, 1, 3]⟩,
  ⟨.vecInt, "mesh_xfm", [2, 3]⟩, ⟨.vecDbl, "mesh_ycme", [0, 1]⟩, ⟨.vecInt, "mesh_yfm", [2]⟩,
  ⟨.vecInt, "mesh_mat_map", [0, 1]⟩]

theorem rect_given : Gives rectDB rect where
  dim := rfl
  mat := rfl
  xc _ := ⟨rfl, rfl⟩
  yc _ _ := ⟨rfl, rfl⟩
  zc _ h := absurd h (by decide)
  xf h := absurd h (by decide)
  yf h := absurd h (by decide)
  zf h := absurd h (by decide)

theorem rect_consistent : rect.Consistent :=
  ⟨Or.inr (Or.inl rfl), rfl, fun _ => rfl, fun h => absurd h (by decide), rfl⟩

/-- The full claim fails: a consistent rectangle is rejected. -/
theorem C54_claim_fails : ¬ C54Claim := by
  intro h
  obtain ⟨m, hm, -⟩ := (h rectDB rect rect_given).1 rect_consistent
  rw [(C54_two_dimensions_partial rectDB rect rfl rfl rect_given rect_consistent).2 (by decide)] at hm
  exact absurd hm (by simp)

/-- A square with counts 2, 3 in one direction and 1, 1 in the other. -/
def square : Desc ℚ := ⟨2, true, [0, 1, 3], [0, 1, 2], [], [2, 3], [1, 1], [], [0, 1, 2, 3]⟩

def squareDB : InputDB ℚ := InputDB.run [⟨.int, "dimension", (2 : Int)⟩, ⟨.vecDbl, "mesh_xcme", [0, 1, 3]⟩,
  ⟨.vecInt, "mesh_xfm", [2, 3]⟩, ⟨.vecDbl, "mesh_ycme", [0, 1, 2]⟩, ⟨.vecInt, "mesh_yfm", [1, 1]⟩,
  ⟨.vecInt, "mesh_mat_map", [0, 1, 2, 3]⟩]

example : Gives squareDB square where
  dim := rfl
  mat := rfl
  xc _ := ⟨rfl, rfl⟩
  yc _ _ := ⟨rfl, rfl⟩
  zc _ h := absurd h (by decide)
  xf h := absurd h (by decide)
  yf h := absurd h (by decide)
  zf h := absurd h (by decide)

example : square.Consistent ∧ square.yfm.length = square.xfm.length :=
  ⟨⟨Or.inr (Or.inl rfl), rfl, fun _ => rfl, fun h => absurd h (by decide), rfl⟩, rfl⟩

/-- One coarse cell in three dimensions, with 1, 2 and 3 fine cells. -/
def block : Desc ℚ := ⟨3, true, [0, 1], [0, 1], [0, 1], [1], [2], [3], [0]⟩

def blockDB : InputDB ℚ := InputDB.run [⟨.int, "dimension", (3 : Int)⟩, ⟨.vecDbl, "mesh_xcme", [0, 1]⟩,
  ⟨.vecInt, "mesh_xfm", [1]⟩, ⟨.vecDbl, "mesh_ycme", [0, 1]⟩, ⟨.vecInt, "mesh_yfm", [2]⟩,
  ⟨.vecDbl, "mesh_zcme", [0, 1]⟩, ⟨.vecInt, "mesh_zfm", [3]⟩, ⟨.vecInt, "mesh_mat_map", [0]⟩]

theorem block_given : Gives blockDB block where
  dim := rfl
  mat := rfl
  xc _ := ⟨rfl, rfl⟩
  yc _ _ := ⟨rfl, rfl⟩
  zc _ _ := ⟨rfl, rfl⟩
  xf h := absurd h (by decide)
  yf h := absurd h (by decide)
  zf h := absurd h (by decide)

theorem block_consistent : block.Consistent :=
  ⟨Or.inr (Or.inr rfl), rfl, fun _ => rfl, fun _ => rfl, rfl⟩

/-- C54: three-dimensional counts are shifted: a block of 1 x 2 x 3 fine cells is accepted and becomes one of
    2 x 3 x 3. -/
theorem C54_wrong_counts : ∃ m, parseMesh blockDB = .ok m ∧ m.dx.length = 2 ∧ m.dy.length = 3 ∧ m.dz.length = 3 ∧
    ¬ block.Stands m := by
  rw [parse3 block_given rfl rfl block_consistent, if_pos (by decide)]
  obtain ⟨m, m1, -, m3, m4, m5, -⟩ := coarseMesh_spec 3 [2] [3] [3] [(0 : ℚ), 1] [0, 1] [0, 1] [0] rfl rfl rfl rfl
  refine ⟨m, m1, m3.1, m4.1, m5.1, fun h => ?_⟩
  have e1 := h.2.1.1
  have e2 := m3.1
  rw [e1] at e2
  exact absurd e2 (by decide)

/-- A description whose second direction has too few edges. -/
def shortY : Desc ℚ := ⟨2, true, [0, 1, 3], [0], [], [2, 3], [1, 1], [], [0, 1, 2, 3]⟩

def shortYDB : InputDB ℚ := InputDB.run [⟨.int, "dimension", (2 : Int)⟩, ⟨.vecDbl, "mesh_xcme", [0, 1, 3]⟩,
  ⟨.vecInt, "mesh_xfm", [2, 3]⟩, ⟨.vecDbl, "mesh_ycme", [0]⟩, ⟨.vecInt, "mesh_yfm", [1, 1]⟩,
  ⟨.vecInt, "mesh_mat_map", [0, 1, 2, 3]⟩]

theorem shortY_given : Gives shortYDB shortY where
  dim := rfl
  mat := rfl
  xc _ := ⟨rfl, rfl⟩
  yc _ _ := ⟨rfl, rfl⟩
  zc _ h := absurd h (by decide)
  xf h := absurd h (by decide)
  yf h := absurd h (by decide)
  zf h := absurd h (by decide)

/-- C54: an inconsistent second direction is not rejected: the edges are read out of bounds. -/
theorem C54_inconsistent_undefined : Gives shortYDB shortY ∧ ¬ shortY.Consistent ∧ parseMesh shortYDB = .error .ub := by
  refine ⟨shortY_given, fun h => absurd (h.2.2.1 (by decide)) (by decide), ?_⟩
  rw [parse2 shortY_given rfl rfl rfl, if_pos (by decide)]
  decide +kernel

/-- The input and mesh lines of the documented example, StupidParser.hh:45-57. -/
def docLines : List (List Char) :=
  ["# General input (the \"#\" is ignored)".toList, "int      number_groups           2".toList,
   "int      dimension               2".toList, "dbl      inner_max_tolerance     1e-4".toList,
   "str      problem_type            fixed".toList, "".toList, "# Mesh (blank lines also ignored)".toList,
   "mesh mesh_xcme 0.0 1.0 2.0".toList, "mesh mesh_ycme 0.0 2.0 4.0".toList, "mesh mesh_xfm  10".toList,
   "mesh mesh_yfm  20".toList, "# all arrays are read in 1d; logically these ordered by x->y->z".toList,
   "mesh mesh_mat  0 0 1 0".toList]

/-- C54: lines that begin with `mesh` are ignored, so the documented "simple working example" is rejected. -/
theorem C54_documented_rejected [Field K] (cv : Conv K) : parseMesh (inputText cv docLines) = .error .insist := rfl

/-! ## C88: material lines -/

/-- Specification: the quantities given by one value per group. -/
def rowKinds : List String := ["sigma_t", "sigma_a", "sigma_f", "nu", "chi", "diff_coef"]

/-- Specification: the value of a quantity of a material. -/
def quantity (kind : String) (x : Mat K) : Nat → Nat → K :=
  if kind = "sigma_t" then x.sigT
  else if kind = "sigma_a" then x.sigA
  else if kind = "sigma_f" then x.sigF
  else if kind = "nu" then x.nu
  else if kind = "chi" then x.chi
  else x.diff

/-- Specification: a line is about a quantity of a material. -/
def About (cv : Conv K) (line : List Char) (kind : String) (m : Int) : Prop :=
  ∃ r, materialWords line = some r ∧ strVal (r.headD []) = kind ∧ cv.int (r.tail.headD []) = m

/-- Specification: a line is about scattering into a group of a material. -/
def AboutScat (cv : Conv K) (line : List Char) (m g : Int) : Prop :=
  About cv line "sigma_s" m ∧ ∃ r, materialWords line = some r ∧ cv.int (r.tail.tail.headD []) = g

/-- A material line: its words after the first, however it is spaced. -/
theorem materialWords_render (n : Nat) (l : List (List Char × Nat)) (hl : ∀ p ∈ l, Word p.1) :
    materialWords (render (("material".toList, n) :: l)) = some (l.map Prod.fst) := by
  have hw : Word "material".toList := by decide
  have hl' : ∀ p ∈ ("material".toList, n) :: l, Word p.1 := by
    intro p hp
    rcases List.mem_cons.1 hp with rfl | hp
    · exact hw
    · exact hl p hp
  unfold materialWords
  simp only
  rw [render_first _ _ _ hw, if_neg (by decide), C87_words _ hl']
  simp

/-- What a row assignment does, in one statement for all the kinds. -/
theorem row_effect (cv : Conv K) (x y : Mat K) (line : List Char) (r : List (List Char))
    (hr : materialWords line = some r) (kind : String) (hk : kind ∈ rowKinds) (h : strVal (r.headD []) = kind)
    (hy : materialLine cv x line = .ok y) :
    ∃ m : Nat, cv.int (r.tail.headD []) = m ∧ m < x.M ∧ (r.tail.tail).length = x.G ∧
      y.G = x.G ∧ y.M = x.M ∧ y.sigS = x.sigS ∧
      (∀ g m', quantity kind y g m' = setRow (quantity kind x) x.G m (r.tail.tail.map cv.dbl) g m') ∧
      ∀ k ∈ rowKinds, k ≠ kind → quantity k y = quantity k x := by
  have hrow : ∀ f : Nat → Mat K,
      (do insist (decide ((r.tail.tail.map cv.dbl).length = x.G))
          let m ← idx (cv.int (r.tail.headD [])) x.M
          pure (f m) : Except Fail (Mat K)) = .ok y →
      ∃ m : Nat, cv.int (r.tail.headD []) = m ∧ m < x.M ∧ (r.tail.tail).length = x.G ∧ y = f m := by
    intro f hf
    by_cases hl : (r.tail.tail.map cv.dbl).length = x.G
    · rw [insist_true hl] at hf
      by_cases hi : 0 ≤ cv.int (r.tail.headD []) ∧ cv.int (r.tail.headD []) < (x.M : Int)
      · have e : idx (cv.int (r.tail.headD [])) x.M = .ok (cv.int (r.tail.headD [])).toNat := by
          unfold idx; rw [if_pos hi]
        rw [e] at hf
        have hf' : f (cv.int (r.tail.headD [])).toNat = y := by injection hf
        exact ⟨_, (Int.toNat_of_nonneg hi.1).symm, by omega, by simpa using hl, hf'.symm⟩
      · have e : idx (cv.int (r.tail.headD [])) x.M = .error .ub := by unfold idx; rw [if_neg hi]
        rw [e] at hf
        exact absurd hf (by intro h; cases h)
    · rw [insist_false hl] at hf
      exact absurd hf (by intro h; cases h)
  unfold materialLine at hy
  rw [hr] at hy
  simp only [scalar, h] at hy
  simp only [rowKinds, List.mem_cons, List.not_mem_nil, or_false] at hk
  rcases hk with rfl | rfl | rfl | rfl | rfl | rfl
  all_goals
    simp only [String.reduceEq, if_true, if_false] at hy
    obtain ⟨m, h1, h2, h3, rfl⟩ := hrow _ hy
    refine ⟨m, h1, h2, h3, rfl, rfl, rfl, fun g m' => rfl, ?_⟩
    intro k hk hne
    simp only [rowKinds, List.mem_cons, List.not_mem_nil, or_false] at hk
    rcases hk with rfl | rfl | rfl | rfl | rfl | rfl <;> first | rfl | exact absurd rfl hne

/-- What a scattering assignment does. -/
theorem scat_effect (cv : Conv K) (x y : Mat K) (line : List Char) (r : List (List Char))
    (hr : materialWords line = some r) (h : strVal (r.headD []) = "sigma_s")
    (hy : materialLine cv x line = .ok y) :
    ∃ m g : Nat, cv.int (r.tail.headD []) = m ∧ cv.int (r.tail.tail.headD []) = g ∧ m < x.M ∧ g < x.G ∧
      (r.tail.tail.tail).length = x.G ∧
      y = { x with sigS := setScat x.sigS x.G m g (r.tail.tail.tail.map cv.dbl) } := by
  unfold materialLine at hy
  rw [hr] at hy
  simp only [scalar, h] at hy
  simp only [String.reduceEq, if_true, if_false] at hy
  have hy : (do
      insist (decide ((r.tail.tail.tail.map cv.dbl).length = x.G))
      let m ← idx (cv.int (r.tail.headD [])) x.M
      let g ← idx (cv.int (r.tail.tail.headD [])) x.G
      pure { x with sigS := setScat x.sigS x.G m g (r.tail.tail.tail.map cv.dbl) } : Except Fail (Mat K)) = .ok y := hy
  by_cases hl : (r.tail.tail.tail.map cv.dbl).length = x.G
  · rw [insist_true hl] at hy
    by_cases hi : 0 ≤ cv.int (r.tail.headD []) ∧ cv.int (r.tail.headD []) < (x.M : Int)
    · have e : idx (cv.int (r.tail.headD [])) x.M = .ok (cv.int (r.tail.headD [])).toNat := by
        unfold idx; rw [if_pos hi]
      rw [e] at hy
      by_cases hj : 0 ≤ cv.int (r.tail.tail.headD []) ∧ cv.int (r.tail.tail.headD []) < (x.G : Int)
      · have e : idx (cv.int (r.tail.tail.headD [])) x.G = .ok (cv.int (r.tail.tail.headD [])).toNat := by
          unfold idx; rw [if_pos hj]
        rw [e] at hy
        injection hy with hy'
        exact ⟨_, _, (Int.toNat_of_nonneg hi.1).symm, (Int.toNat_of_nonneg hj.1).symm, by omega, by omega,
          by simpa using hl, hy'.symm⟩
      · have e : idx (cv.int (r.tail.tail.headD [])) x.G = .error .ub := by unfold idx; rw [if_neg hj]
        rw [e] at hy
        exact absurd hy (by intro h; cases h)
    · have e : idx (cv.int (r.tail.headD [])) x.M = .error .ub := by unfold idx; rw [if_neg hi]
      rw [e] at hy
      exact absurd hy (by intro h; cases h)
  · rw [insist_false hl] at hy
    exact absurd hy (by intro h; cases h)

/-- Lines of other kinds change nothing. -/
theorem other_effect (cv : Conv K) (x : Mat K) (line : List Char)
    (h : ∀ r, materialWords line = some r → strVal (r.headD []) ∉ "sigma_s" :: rowKinds) :
    materialLine cv x line = .ok x := by
  unfold materialLine
  cases hr : materialWords line with
  | none => rfl
  | some r =>
    have h := h r hr
    simp only [rowKinds, List.mem_cons, List.not_mem_nil, or_false, not_or] at h
    obtain ⟨h0, h1, h2, h3, h4, h5, h6⟩ := h
    simp only [scalar, h0, h1, h2, h3, h4, h5, h6, if_false]

/-- Lines about something else leave a quantity as it is. -/
theorem line_frame (cv : Conv K) (x y : Mat K) (line : List Char) (hy : materialLine cv x line = .ok y) :
    y.G = x.G ∧ y.M = x.M ∧
    (∀ kind ∈ rowKinds, ∀ m : Nat, ¬ About cv line kind m → ∀ g, quantity kind y g m = quantity kind x g m) ∧
    (∀ m g : Nat, ¬ AboutScat cv line m g → ∀ gp, y.sigS g gp m = x.sigS g gp m) := by
  by_cases ho : ∀ r, materialWords line = some r → strVal (r.headD []) ∉ "sigma_s" :: rowKinds
  · rw [other_effect cv x line ho] at hy
    injection hy with hy
    subst hy
    exact ⟨rfl, rfl, fun _ _ _ _ _ => rfl, fun _ _ _ _ => rfl⟩
  · push Not at ho
    obtain ⟨r, hr, hk⟩ := ho
    rcases List.mem_cons.1 hk with hs | hk
    · obtain ⟨m, g, h1, h2, h3, h4, h5, rfl⟩ := scat_effect cv x y line r hr hs hy
      refine ⟨rfl, rfl, ?_, ?_⟩
      · intro kind hk m' _ g'
        simp only [rowKinds, List.mem_cons, List.not_mem_nil, or_false] at hk
        rcases hk with rfl | rfl | rfl | rfl | rfl | rfl <;> rfl
      · intro m' g' hn gp
        show setScat x.sigS x.G m g _ g' gp m' = _
        unfold setScat
        rw [if_neg]
        rintro ⟨rfl, rfl, _⟩
        exact hn ⟨⟨r, hr, hs, h1⟩, r, hr, h2⟩
    · obtain ⟨m, h1, h2, h3, h4, h5, h6, h7, h8⟩ := row_effect cv x y line r hr _ hk rfl hy
      refine ⟨h4, h5, ?_, fun _ _ _ _ => by rw [h6]⟩
      intro kind hk' m' hn g'
      by_cases he : kind = strVal (r.headD [])
      · rw [he, h7]
        unfold setRow
        rw [if_neg]
        rintro ⟨rfl, _⟩
        exact hn ⟨r, hr, he.symm, h1⟩
      · rw [h8 kind hk' he]

theorem lines_frame (cv : Conv K) (lines : List (List Char)) (x y : Mat K)
    (hy : lines.foldlM (materialLine cv) x = .ok y) :
    y.G = x.G ∧ y.M = x.M ∧
    (∀ kind ∈ rowKinds, ∀ m : Nat, (∀ l ∈ lines, ¬ About cv l kind m) →
      ∀ g, quantity kind y g m = quantity kind x g m) ∧
    (∀ m g : Nat, (∀ l ∈ lines, ¬ AboutScat cv l m g) → ∀ gp, y.sigS g gp m = x.sigS g gp m) := by
  induction lines generalizing x with
  | nil =>
    injection hy with hy
    subst hy
    exact ⟨rfl, rfl, fun _ _ _ _ _ => rfl, fun _ _ _ _ => rfl⟩
  | cons l lines ih =>
    rw [List.foldlM_cons] at hy
    cases hz : materialLine cv x l with
    | error e => rw [hz] at hy; cases hy
    | ok z =>
      rw [hz] at hy
      obtain ⟨a1, a2, a3, a4⟩ := line_frame cv x z l hz
      obtain ⟨b1, b2, b3, b4⟩ := ih z hy
      refine ⟨b1.trans a1, b2.trans a2, fun k hk m hn g => ?_, fun m g hn gp => ?_⟩
      · rw [b3 k hk m (fun l' hl' => hn l' (List.mem_cons_of_mem _ hl')) g, a3 k hk m (hn l List.mem_cons_self) g]
      · rw [b4 m g (fun l' hl' => hn l' (List.mem_cons_of_mem _ hl')) gp, a4 m g (hn l List.mem_cons_self) gp]

section text
variable [Field K] [LinearOrder K]

/-- The library before the lines are applied. -/
def startLib (cv : Conv K) (G : Nat) (lines : List (List Char)) : Mat K :=
  (Mat.new (header cv lines).1.toNat G).setDownscatter (header cv lines).2 false

theorem materialText_ok {cv : Conv K} {G : Nat} {lines : List (List Char)} {y : Mat K}
    (h : materialText cv G lines = .ok y) :
    ∃ z, lines.foldlM (materialLine cv) (startLib cv G lines) = .ok z ∧ y = z.finalize := by
  unfold materialText at h
  simp only at h
  cases hz : lines.foldlM (materialLine cv) (startLib cv G lines) with
  | error e =>
    unfold startLib at hz
    rw [hz] at h
    cases h
  | ok z =>
    unfold startLib at hz
    rw [hz] at h
    injection h with h
    exact ⟨z, rfl, h.symm⟩

theorem quantity_finalize (kind : String) (z : Mat K) : quantity kind z.finalize = quantity kind z := by
  unfold quantity Mat.finalize
  rfl

/-- C88: in an accepted text the last line about a quantity of a material determines it, and the line has one
    value per group and names an existing material. -/
theorem C88_last_row (cv : Conv K) (G : Nat) (pre post : List (List Char)) (n n1 n2 : Nat) (kind : String)
    (hk : kind ∈ rowKinds) (mw : List Char) (hm : Word mw) (vals : List (List Char × Nat)) (hv : ∀ p ∈ vals, Word p.1)
    (hpost : ∀ l ∈ post, ¬ About cv l kind (cv.int mw)) (y : Mat K)
    (h : materialText cv G
      (pre ++ render (("material".toList, n) :: (kind.toList, n1) :: (mw, n2) :: vals) :: post) = .ok y) :
    ∃ m : Nat, cv.int mw = m ∧ m < y.M ∧ vals.length = G ∧ y.G = G ∧
      ∀ g (hg : g < vals.length), quantity kind y g m = cv.dbl vals[g].1 := by
  obtain ⟨z, hz, rfl⟩ := materialText_ok h
  rw [List.foldlM_append] at hz
  cases hx : pre.foldlM (materialLine cv) (startLib cv G
      (pre ++ render (("material".toList, n) :: (kind.toList, n1) :: (mw, n2) :: vals) :: post)) with
  | error e => rw [hx] at hz; cases hz
  | ok x =>
    rw [hx] at hz
    have hz : (materialLine cv x (render (("material".toList, n) :: (kind.toList, n1) :: (mw, n2) :: vals)) >>=
      fun x => post.foldlM (materialLine cv) x) = .ok z := hz
    cases hw : materialLine cv x (render (("material".toList, n) :: (kind.toList, n1) :: (mw, n2) :: vals)) with
    | error e => rw [hw] at hz; cases hz
    | ok w =>
      rw [hw] at hz
      have hkw : Word kind.toList := by
        simp only [rowKinds, List.mem_cons, List.not_mem_nil, or_false] at hk
        rcases hk with rfl | rfl | rfl | rfl | rfl | rfl <;> decide
      have hl : ∀ p ∈ (kind.toList, n1) :: (mw, n2) :: vals, Word p.1 := by
        intro p hp
        rcases List.mem_cons.1 hp with rfl | hp
        · exact hkw
        · rcases List.mem_cons.1 hp with rfl | hp
          · exact hm
          · exact hv p hp
      have hr := materialWords_render n _ hl
      obtain ⟨m, h1, h2, h3, h4, h5, -, h7, -⟩ := row_effect cv x w _ _ hr kind hk
        (by rw [List.map_cons, List.headD_cons, strVal_word _ hkw, String.ofList_toList]) hw
      obtain ⟨a1, a2, -⟩ := lines_frame cv pre _ x hx
      obtain ⟨b1, b2, b3, -⟩ := lines_frame cv post w z hz
      have h1' : cv.int mw = m := h1
      have h3' : vals.length = x.G := by simpa using h3
      have hG : (startLib cv G
          (pre ++ render (("material".toList, n) :: (kind.toList, n1) :: (mw, n2) :: vals) :: post)).G = G := rfl
      rw [hG] at a1
      refine ⟨m, h1', ?_, by rw [h3', a1], ?_, ?_⟩
      · show m < z.M
        rw [b2, h5]; exact h2
      · show z.G = G
        rw [b1, h4, a1]
      · intro g hg
        rw [quantity_finalize, b3 kind hk m (by rw [← h1']; exact hpost) g, h7]
        unfold setRow
        rw [if_pos ⟨rfl, by omega⟩]
        simp [hg]

/-- C88: in an accepted text the last line about scattering into a group determines that row. -/
theorem C88_last_scatter (cv : Conv K) (G : Nat) (pre post : List (List Char)) (n n1 n2 n3 : Nat)
    (mw gw : List Char) (hm : Word mw) (hgw : Word gw) (vals : List (List Char × Nat)) (hv : ∀ p ∈ vals, Word p.1)
    (hpost : ∀ l ∈ post, ¬ AboutScat cv l (cv.int mw) (cv.int gw)) (y : Mat K)
    (h : materialText cv G
      (pre ++ render (("material".toList, n) :: ("sigma_s".toList, n1) :: (mw, n2) :: (gw, n3) :: vals) :: post)
        = .ok y) :
    ∃ m g : Nat, cv.int mw = m ∧ cv.int gw = g ∧ m < y.M ∧ g < G ∧ vals.length = G ∧
      ∀ gp (hg : gp < vals.length), y.sigS g gp m = cv.dbl vals[gp].1 := by
  obtain ⟨z, hz, rfl⟩ := materialText_ok h
  rw [List.foldlM_append] at hz
  cases hx : pre.foldlM (materialLine cv) (startLib cv G
      (pre ++ render (("material".toList, n) :: ("sigma_s".toList, n1) :: (mw, n2) :: (gw, n3) :: vals) :: post)) with
  | error e => rw [hx] at hz; cases hz
  | ok x =>
    rw [hx] at hz
    have hz : (materialLine cv x
        (render (("material".toList, n) :: ("sigma_s".toList, n1) :: (mw, n2) :: (gw, n3) :: vals)) >>=
      fun x => post.foldlM (materialLine cv) x) = .ok z := hz
    cases hw : materialLine cv x
        (render (("material".toList, n) :: ("sigma_s".toList, n1) :: (mw, n2) :: (gw, n3) :: vals)) with
    | error e => rw [hw] at hz; cases hz
    | ok w =>
      rw [hw] at hz
      have hkw : Word "sigma_s".toList := by decide
      have hl : ∀ p ∈ ("sigma_s".toList, n1) :: (mw, n2) :: (gw, n3) :: vals, Word p.1 := by
        intro p hp
        rcases List.mem_cons.1 hp with rfl | hp
        · exact hkw
        · rcases List.mem_cons.1 hp with rfl | hp
          · exact hm
          · rcases List.mem_cons.1 hp with rfl | hp
            · exact hgw
            · exact hv p hp
      have hr := materialWords_render n _ hl
      obtain ⟨m, g, h1, h2, h3, h4, h5, h6⟩ := scat_effect cv x w _ _ hr
        (by rw [List.map_cons, List.headD_cons, strVal_word _ hkw, String.ofList_toList]) hw
      obtain ⟨a1, a2, -⟩ := lines_frame cv pre _ x hx
      obtain ⟨b1, b2, -, b4⟩ := lines_frame cv post w z hz
      have h1' : cv.int mw = m := h1
      have h2' : cv.int gw = g := h2
      have h5' : vals.length = x.G := by simpa using h5
      have a1 : x.G = G := a1
      have w1 : w.M = x.M := by rw [h6]
      refine ⟨m, g, h1', h2', ?_, by omega, by omega, ?_⟩
      · show m < z.M
        rw [b2, w1]; exact h3
      · intro gp hg
        show z.sigS g gp m = _
        rw [b4 m g (by rw [← h1', ← h2']; exact hpost) gp, h6]
        show setScat x.sigS x.G m g _ g gp m = _
        unfold setScat
        rw [if_pos ⟨rfl, rfl, by omega⟩]
        simp [hg]

/-- C88: what no line is about keeps its default: `nu` one, everything else zero. -/
theorem C88_defaults (cv : Conv K) (G : Nat) (lines : List (List Char)) (y : Mat K)
    (h : materialText cv G lines = .ok y) :
    (∀ kind ∈ rowKinds, ∀ m : Nat, (∀ l ∈ lines, ¬ About cv l kind m) →
      ∀ g, quantity kind y g m = if kind = "nu" then 1 else 0) ∧
    (∀ m g : Nat, (∀ l ∈ lines, ¬ AboutScat cv l m g) → ∀ gp, y.sigS g gp m = 0) := by
  obtain ⟨z, hz, rfl⟩ := materialText_ok h
  obtain ⟨-, -, b3, b4⟩ := lines_frame cv lines _ z hz
  refine ⟨fun kind hk m hn g => ?_, fun m g hn gp => ?_⟩
  · rw [quantity_finalize, b3 kind hk m hn g]
    simp only [rowKinds, List.mem_cons, List.not_mem_nil, or_false] at hk
    rcases hk with rfl | rfl | rfl | rfl | rfl | rfl <;> rfl
  · exact b4 m g hn gp

/-- C88: the production cross section is always `nu` times `sigma_f`. -/
theorem C88_production (cv : Conv K) (G : Nat) (lines : List (List Char)) (y : Mat K)
    (h : materialText cv G lines = .ok y) :
    ∀ g m, y.nuSigF g m = quantity "nu" y g m * quantity "sigma_f" y g m := by
  obtain ⟨z, hz, rfl⟩ := materialText_ok h
  exact fun g m => rfl

/-- C88: a line of another kind (`nu_sigma_f` among them) has no effect at all. -/
theorem C88_ignored (cv : Conv K) (G : Nat) (pre post : List (List Char)) (line : List Char)
    (h : ∀ r, materialWords line = some r →
      strVal (r.headD []) ∉ "number_materials" :: "downscatter" :: "sigma_s" :: rowKinds) :
    materialText cv G (pre ++ line :: post) = materialText cv G (pre ++ post) := by
  have hh : header cv (pre ++ line :: post) = header cv (pre ++ post) := by
    unfold header
    rw [List.foldl_append, List.foldl_append, List.foldl_cons]
    congr 1
    cases hr : materialWords line with
    | none => rfl
    | some r =>
      have h := h r hr
      simp only [List.mem_cons, not_or] at h
      simp only [scalar, h.1, h.2.1, if_false]
  have hl : ∀ x, materialLine cv x line = .ok x := fun x => other_effect cv x line (fun r hr hm =>
    h r hr (List.mem_cons_of_mem _ (List.mem_cons_of_mem _ hm)))
  unfold materialText
  simp only
  rw [hh, List.foldlM_append, List.foldlM_append]
  congr 2
  funext x
  rw [List.foldlM_cons, hl]
  rfl

/-- C88: a row with the wrong number of values is never accepted. -/
theorem C88_wrong_length (cv : Conv K) (G : Nat) (pre post : List (List Char)) (n n1 n2 : Nat) (kind : String)
    (hk : kind ∈ rowKinds) (mw : List Char) (hm : Word mw) (vals : List (List Char × Nat)) (hv : ∀ p ∈ vals, Word p.1)
    (hG : vals.length ≠ G) (y : Mat K) :
    materialText cv G
      (pre ++ render (("material".toList, n) :: (kind.toList, n1) :: (mw, n2) :: vals) :: post) ≠ .ok y := by
  intro h
  obtain ⟨z, hz, rfl⟩ := materialText_ok h
  rw [List.foldlM_append] at hz
  cases hx : pre.foldlM (materialLine cv) (startLib cv G
      (pre ++ render (("material".toList, n) :: (kind.toList, n1) :: (mw, n2) :: vals) :: post)) with
  | error e => rw [hx] at hz; cases hz
  | ok x =>
    rw [hx] at hz
    have hz : (materialLine cv x (render (("material".toList, n) :: (kind.toList, n1) :: (mw, n2) :: vals)) >>=
      fun x => post.foldlM (materialLine cv) x) = .ok z := hz
    cases hw : materialLine cv x (render (("material".toList, n) :: (kind.toList, n1) :: (mw, n2) :: vals)) with
    | error e => rw [hw] at hz; cases hz
    | ok w =>
      have hkw : Word kind.toList := by
        simp only [rowKinds, List.mem_cons, List.not_mem_nil, or_false] at hk
        rcases hk with rfl | rfl | rfl | rfl | rfl | rfl <;> decide
      have hl : ∀ p ∈ (kind.toList, n1) :: (mw, n2) :: vals, Word p.1 := by
        intro p hp
        rcases List.mem_cons.1 hp with rfl | hp
        · exact hkw
        · rcases List.mem_cons.1 hp with rfl | hp
          · exact hm
          · exact hv p hp
      have hr := materialWords_render n _ hl
      obtain ⟨m, h1, h2, h3, -⟩ := row_effect cv x w _ _ hr kind hk
        (by rw [List.map_cons, List.headD_cons, strVal_word _ hkw, String.ofList_toList]) hw
      obtain ⟨a1, -⟩ := lines_frame cv pre _ x hx
      have a1 : x.G = G := a1
      apply hG
      rw [← a1]
      simpa using h3

end text

/-- The full claim: also a line that gives the production cross section determines it. -/
def C88Claim : Prop :=
  ∀ (cv : Conv ℚ) (G : Nat) (pre : List (List Char)) (mw : List Char) (vals : List (List Char × Nat)) (y : Mat ℚ),
    Word mw → (∀ p ∈ vals, Word p.1) →
    materialText cv G (pre ++ [render (("material".toList, 0) :: ("nu_sigma_f".toList, 0) :: (mw, 0) :: vals)]) = .ok y →
    ∀ m : Nat, cv.int mw = m → ∀ g (hg : g < vals.length), y.nuSigF g m = cv.dbl vals[g].1

/-- Conversions that read the first digit. -/
def digits : Conv ℚ where
  int w := ((w.headD '0').toNat : Int) - 48
  dbl w := ((w.headD '0').toNat : ℚ) - 48
  trunc q := q.floor

/-- A one-group, one-material text with a `nu_sigma_f` line. -/
def nuText : List (List Char) := ["material number_materials 1".toList, "material sigma_t 0 3".toList]

theorem C88_claim_fails : ¬ C88Claim := by
  intro h
  have hok : ∃ y, materialText digits 1 (nuText ++ ["material nu_sigma_f 0 2".toList]) = .ok y ∧ y.nuSigF 0 0 = 0 :=
    ⟨_, rfl, by decide +kernel⟩
  obtain ⟨y, hy, h0⟩ := hok
  have := h digits 1 nuText ['0'] [(['2'], 0)] y (by decide) (by decide) hy 0 (by decide +kernel) 0 (by decide)
  rw [h0] at this
  exact absurd this (by decide +kernel)

/-- The last row counts: the text is accepted and gives 5. -/
example : ∃ y, materialText digits 1 (nuText ++ ["material  sigma_t 0   5 ".toList, "material sigma_s 0 0 2".toList]) = .ok y ∧
    y.sigT 0 0 = 5 ∧ y.sigS 0 0 0 = 2 ∧ y.nu 0 0 = 1 ∧ y.sigF 0 0 = 0 :=
  ⟨_, rfl, by decide +kernel⟩

end Detran.Parser
