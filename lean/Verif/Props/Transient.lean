import Verif.Model.Transient
import Verif.Props.Kinetics
import Verif.Props.Stepper

/-!
# Whole transients (C126)
-/

namespace Detran.Kin

variable {K : Type} [Field K]

/-! ## Specification -/

/-- Fissions neutrons per volume in cell `i`, per the eigenvalue `k`, with the data `D`. -/
def production (x : Sys K) (D : KMat K) (phi : Nat → Nat → K) (i : Nat) : K :=
  (∑ g ∈ Finset.range x.G, D.nu (x.mt i) g * D.sf (x.mt i) g * phi g i) / x.k

/-- What a multigroup solve with material `S` and source `q` leaves over in one direction.  `stream` is the streaming term
    (closure and boundary included) of the discretization, which may depend on the material. -/
def resid (x : Sys K) (stream : KMat K → (Nat → Nat → Nat → K) → Nat → Nat → Nat → K) (S : KMat K)
    (q : Nat → Nat → Nat → K) (phi : Nat → Nat → K) (psi : Nat → Nat → Nat → K) (g a i : Nat) : K :=
  stream S psi g a i + S.st (x.mt i) g * psi g a i -
    x.norm * (∑ g' ∈ Finset.range x.G, S.ss (x.mt i) g g' * phi g' i +
      if x.multiply then S.chi (x.mt i) g * ∑ g' ∈ Finset.range x.G, S.nsf (x.mt i) g' * phi g' i else 0) - q g a i

/-- The flux of an earlier time level that enters the time derivative: the angular flux itself, or the mean of it over the
    directions. -/
def past (x : Sys K) (s : Sol K) (g a i : Nat) : K := if x.discrete then s.psi g a i else x.norm * s.phi g i

/-- What the implicit equation of the given order at time `t` leaves over in one direction: time derivative, streaming,
    collision, scattering, prompt and delayed fission, external sources. `old j` is the solution `j + 1` steps before. -/
def stepResid (x : Sys K) (stream : (Nat → Nat → Nat → K) → Nat → Nat → Nat → K) (D : KMat K)
    (order : Nat) (h t : K) (old : Nat → Sol K) (s : Sol K) (g a i : Nat) : K :=
  (bdf order 0 * s.psi g a i - ∑ j ∈ Finset.range order, bdf order (j + 1) * past x (old j) g a i) / (D.velocity g * h) +
    stream s.psi g a i + D.st (x.mt i) g * s.psi g a i -
    x.norm * (∑ g' ∈ Finset.range x.G, D.ss (x.mt i) g g' * s.phi g' i +
      if x.multiply then
        (1 - ∑ p ∈ Finset.range x.np, D.beta (x.mt i) p) * D.chi (x.mt i) g * production x D s.phi i +
          ∑ p ∈ Finset.range x.np, D.lambda p * D.chid (x.mt i) p g * s.C p i
      else 0) - x.ext t g a i

/-- The material's data are a function of the time and of the physics variables; velocities `V` and decay constants `L`
    never change. -/
structure Timed (x : Sys K) (data : K → (Nat → Nat → K) → KMat K) (V L : Nat → K) : Prop where
  same : ∀ t s M, M.velocity = V → M.lambda = L → setNsf (x.impl t s M) = setNsf (data t s.P)
  vel : ∀ t P, (data t P).velocity = V
  dec : ∀ t P, (data t P).lambda = L

section
variable [LinearOrder K] [IsStrictOrderedRing K]

/-- The length of a step, or half of it. -/
def StepSize (x : Sys K) (h : K) : Prop := h = x.dt ∨ h = x.dt / 2

/-- Multigroup solves leave at most `e`, for the materials of the steps. -/
def SolvedTo (x : Sys K) (stream : KMat K → (Nat → Nat → Nat → K) → Nat → Nat → Nat → K)
    (data : K → (Nat → Nat → K) → KMat K) (e : K) : Prop :=
  ∀ o h t P, 1 ≤ o → o ≤ 6 → 0 < h → StepSize x h → ∀ q s, let S := stepMat x.np o h x.k true (data t P)
    (∀ g a i, g < x.G → a < x.A → i < x.N → |resid x stream S q (x.solve S q s).1 (x.solve S q s).2 g a i| ≤ e) ∧
    ∀ g i, g < x.G → i < x.N →
      |(x.solve S q s).1 g i - ∑ a ∈ Finset.range x.A, x.w a * (x.solve S q s).2 g a i| ≤ e

/-- `s` solves the implicit equations of the given order at time `t`, with step `h`, up to `e` in the flux equation, from the
    solutions `old` and with the material at the physics of `c`. -/
structure Advance (x : Sys K) (stream : KMat K → (Nat → Nat → Nat → K) → Nat → Nat → Nat → K)
    (data : K → (Nat → Nat → K) → KMat K) (e : K) (order : Nat) (h t : K) (old : Nat → Sol K) (c s : Sol K) : Prop where
  flux : ∀ g a i, g < x.G → a < x.A → i < x.N →
    |stepResid x (stream (stepMat x.np order h x.k true (data t c.P))) (data t c.P) order h t old s g a i| ≤ e
  total : ∀ g i, g < x.G → i < x.N → |s.phi g i - ∑ a ∈ Finset.range x.A, x.w a * s.psi g a i| ≤ e
  prec : x.multiply = true → ∀ p i, p < x.np →
    (bdf order 0 * s.C p i - ∑ j ∈ Finset.range order, bdf order (j + 1) * (old j).C p i) / h =
      (data t c.P).beta (x.mt i) p * production x (data t c.P) s.phi i - (data t c.P).lambda p * s.C p i
  noPrec : x.multiply = false → s.C = c.C
  phys : ∀ v el, v < x.NV →
    (bdf order 0 * s.P v el - ∑ j ∈ Finset.range order, bdf order (j + 1) * (old j).P v el) / h =
      x.rhs t h { s with P := c.P } v el
  noPhys : ∀ v el, x.NV ≤ v → s.P v el = c.P v el

/-- `s` is `m`, or what follows from taking `m` for the mean of `s` and the solution `o` before. -/
structure Finish (x : Sys K) (half : Bool) (m o s : Sol K) : Prop where
  whole : half = false → s = m
  psi : half = true → x.discrete = true → ∀ g a i, (s.psi g a i + o.psi g a i) / 2 = m.psi g a i
  total : half = true → x.discrete = true → ∀ g i, s.phi g i = ∑ a ∈ Finset.range x.A, x.w a * s.psi g a i
  phi : half = true → x.discrete = false → ∀ g i, (s.phi g i + o.phi g i) / 2 = m.phi g i
  prec : half = true → x.multiply = true → ∀ p i, p < x.np → (s.C p i + o.C p i) / 2 = m.C p i
  phys : half = true → ∀ v el, v < x.NV → (s.P v el + o.P v el) / 2 = m.P v el

/-- `s` comes from `c` by at least one and at most `limit` passes, each with the material at the physics the pass before left,
    stopping at the first pass found to have converged. -/
inductive Iterated (x : Sys K) (stream : KMat K → (Nat → Nat → Nat → K) → Nat → Nat → Nat → K)
    (data : K → (Nat → Nat → K) → KMat K) (e : K) (order : Nat) (h t : K) (half : Bool) (old : Nat → Sol K) :
    Nat → Sol K → Sol K → Prop
  | last (limit : Nat) (c m s : Sol K) : Advance x stream data e order h t old c m → Finish x half m (old 0) s →
      (x.conv c s = true ∨ limit = 0) → Iterated x stream data e order h t half old (limit + 1) c s
  | more (limit : Nat) (c m c' s : Sol K) : Advance x stream data e order h t old c m → Finish x half m (old 0) c' →
      x.conv c c' = false → Iterated x stream data e order h t half old limit c' s →
      Iterated x stream data e order h t half old (limit + 1) c s

/-- A stepper that has been constructed and possibly used. -/
structure Ready (x : Sys K) (V L : Nat → K) (r : Run K) : Prop where
  vel : r.mat.velocity = V
  dec : r.mat.lambda = L
  len : r.hist.slots.length = max 1 x.scheme
  nodup : r.hist.slots.Nodup

/-! ## One pass -/

omit [LinearOrder K] [IsStrictOrderedRing K] in
theorem moment_discrete (S : KMat K) (np order : Nat) (h norm : K) (m g : Nat) (phi : Nat → K) (C : Nat → Nat → K) :
    norm * momentSource S np order h m g phi C = discreteSource S np order h norm m g (fun j => norm * phi j) C := by
  rw [momentSource_eq, discreteSource_eq, Finset.mul_sum]
  exact Finset.sum_congr rfl fun j _ => by ring

omit [LinearOrder K] [IsStrictOrderedRing K] in
theorem source_eq (x : Sys K) (S : KMat K) (order : Nat) (h t : K) (old : Nat → Sol K) (g a i : Nat) :
    x.source S order h t old g a i =
      discreteSource S (if x.multiply then x.np else 0) order h x.norm (x.mt i) g (fun j => past x (old j) g a i)
        (fun j p => (old j).C p i) + x.ext t g a i := by
  unfold Sys.source past
  cases x.discrete
  · simp only [Bool.false_eq_true, if_false]
    rw [moment_discrete]
  · rfl

omit [LinearOrder K] [IsStrictOrderedRing K] in
theorem density_eq (x : Sys K) (order : Nat) (h : K) (s : Bool) (D : KMat K) (phi : Nat → Nat → K) (i : Nat) :
    fissionDensity (stepMat x.np order h x.k s D) x.G (x.mt i) (fun g => phi g i) = production x D phi i := by
  unfold fissionDensity production
  rw [foldl_sum, zero_add, Finset.sum_div]
  refine Finset.sum_congr rfl fun g _ => ?_
  have : (stepMat x.np order h x.k s D).nsf (x.mt i) g = D.nu (x.mt i) g * (D.sf (x.mt i) g / x.k) := by
    cases s <;> rfl
  rw [this]; ring

/-- The new concentrations, from the new flux. -/
def newC (x : Sys K) (D : KMat K) (order : Nat) (h : K) (old : Nat → Sol K) (phi : Nat → Nat → K) (p i : Nat) : K :=
  updatePrecursor order h (D.lambda p) (D.beta (x.mt i) p) (production x D phi i) fun j => (old j).C p i

omit [LinearOrder K] [IsStrictOrderedRing K] in
/-- For any flux, the multigroup problem of a step leaves what the implicit equations leave. -/
theorem resid_eq (x : Sys K) (stream : KMat K → (Nat → Nat → Nat → K) → Nat → Nat → Nat → K) (D : KMat K)
    (order : Nat) (h t : K) (hh : h ≠ 0) (old : Nat → Sol K) (s : Sol K) (g a i : Nat)
    (hC : x.multiply = true → ∀ p, p < x.np → s.C p i = newC x D order h old s.phi p i) :
    let S := stepMat x.np order h x.k true D
    resid x stream S (x.source S order h t old) s.phi s.psi g a i =
      stepResid x (stream S) D order h t old s g a i := by
  intro S
  have e1 : S.st (x.mt i) g = D.st (x.mt i) g + bdf order 0 / (D.velocity g * h) := rfl
  have e2 : S.ss = D.ss := rfl
  have e3 : ∑ g' ∈ Finset.range x.G, S.nsf (x.mt i) g' * s.phi g' i = production x D s.phi i := by
    rw [← density_eq x order h true D s.phi i, fissionDensity, foldl_sum, zero_add]
    exact Finset.sum_congr rfl fun g _ => by ring
  unfold resid stepResid
  rw [source_eq, e2, e3]
  cases hm : x.multiply
  · simp only [Bool.false_eq_true, if_false]
    rw [discreteSource_eq, e1]
    have : ∑ j ∈ Finset.range order, (bdf order (j + 1) / h / S.velocity g * past x (old j) g a i +
        x.norm * ∑ p ∈ Finset.range 0, bdf order (j + 1) * S.lambda p / (bdf order 0 + h * S.lambda p) *
          S.chid (x.mt i) p g * (old j).C p i) =
        (∑ j ∈ Finset.range order, bdf order (j + 1) * past x (old j) g a i) / (D.velocity g * h) := by
      rw [Finset.sum_div]
      refine Finset.sum_congr rfl fun j _ => ?_
      show bdf order (j + 1) / h / D.velocity g * past x (old j) g a i + _ = _
      rw [Finset.sum_range_zero, mul_zero, add_zero, div_div, mul_comm h]
      ring
    rw [this]
    ring
  · simp only [if_true]
    have key := (C59_angular x.np order h x.k x.norm hh D x.G (x.mt i) g
      (x.norm * (S.chi (x.mt i) g * fissionDensity S x.G (x.mt i) fun g => s.phi g i) +
        discreteSource S x.np order h x.norm (x.mt i) g (fun j => past x (old j) g a i) (fun j p => (old j).C p i) -
        S.st (x.mt i) g * s.psi g a i) (s.psi g a i) (fun g => s.phi g i) (fun j => past x (old j) g a i)
      (fun j p => (old j).C p i)).1 (by ring)
    rw [density_eq x order h true D s.phi i, density_eq x order h false D s.phi i] at key
    have e4 : ∑ p ∈ Finset.range x.np, D.lambda p * D.chid (x.mt i) p g * s.C p i =
        ∑ p ∈ Finset.range x.np, D.lambda p * D.chid (x.mt i) p g *
          updatePrecursor order h (D.lambda p) (D.beta (x.mt i) p) (production x D s.phi i) (fun j => (old j).C p i) :=
      Finset.sum_congr rfl fun p hp => by rw [hC hm p (Finset.mem_range.1 hp)]; rfl
    rw [e4]
    linear_combination -key

/-- What a pass finds before any extrapolation, as a function of the stored solutions and of the current one. -/
def advance (x : Sys K) (data : K → (Nat → Nat → K) → KMat K) (order : Nat) (h t : K) (old : Nat → Sol K) (c : Sol K) :
    Sol K :=
  let D := data t c.P
  let S := stepMat x.np order h x.k true D
  let u := x.solve S (x.source S order h t old) c
  let s2 : Sol K := ⟨u.1, u.2, if x.delayed then newC x D order h old u.1 else c.C, c.P⟩
  x.physics order h t old s2

/-- What it leaves. -/
def fin (x : Sys K) (half : Bool) (m o : Sol K) : Sol K := if half then x.extrapolate m o else m

omit [IsStrictOrderedRing K] in
theorem update_eq (x : Sys K) (data : K → (Nat → Nat → K) → KMat K) (V L : Nat → K) (hx : Timed x data V L)
    (hV : ∀ g, g < x.G → 0 < V g) (hL : ∀ p, p < x.np → 0 < L p) (order : Nat) (h t : K) (b : Bool) (s : Sol K)
    (M : KMat K) (hMv : M.velocity = V) (hMl : M.lambda = L) :
    update x.np x.G order h x.k b (x.impl t s) M = some (stepMat x.np order h x.k b (data t s.P)) := by
  have hs := hx.same t s M hMv hMl
  have hv : (x.impl t s M).velocity = V := (congrArg KMat.velocity hs).trans (hx.vel t s.P)
  have hl : (x.impl t s M).lambda = L := (congrArg KMat.lambda hs).trans (hx.dec t s.P)
  rw [C59_update, hv, hl, if_pos ⟨hL, hV⟩]
  exact congrArg some (setNsf_adjust _ _ _ _ _ _ _ hs)

omit [LinearOrder K] [IsStrictOrderedRing K] in
theorem stepMat_vel (np order : Nat) (h k : K) (b : Bool) (D : KMat K) :
    (stepMat np order h k b D).velocity = D.velocity ∧ (stepMat np order h k b D).lambda = D.lambda ∧
      (stepMat np order h k b D).beta = D.beta := by
  cases b <;> exact ⟨rfl, rfl, rfl⟩

omit [IsStrictOrderedRing K] in
theorem pass_eq (x : Sys K) (data : K → (Nat → Nat → K) → KMat K) (V L : Nat → K) (hx : Timed x data V L)
    (hV : ∀ g, g < x.G → 0 < V g) (hL : ∀ p, p < x.np → 0 < L p) (order : Nat) (h t : K) (half : Bool) (r : Run K)
    (hMv : r.mat.velocity = V) (hMl : r.mat.lambda = L) :
    let te := if half then t - h else t
    x.pass t h order half r =
      some ⟨stepMat x.np order h x.k (!x.delayed) (data te r.cur.P),
        fin x half (advance x data order h te r.at r.cur) (r.at 0), r.hist⟩ := by
  intro te
  obtain ⟨v1, v2, v3⟩ := stepMat_vel x.np order h x.k true (data te r.cur.P)
  unfold Sys.pass
  have hte : (if half = true then t - h else t) = te := rfl
  simp only [hte]
  rw [update_eq x data V L hx hV hL order h te true r.cur r.mat hMv hMl]
  simp only [Option.bind_eq_bind, Option.bind_some, pure]
  cases hd : x.delayed
  · simp only [Bool.false_eq_true, if_false, Option.bind_some]
    unfold advance fin
    simp only [hd, Bool.false_eq_true, if_false, Bool.not_false]
  · simp only [if_true]
    rw [update_eq x data V L hx hV hL order h te false _ _ (v1.trans (hx.vel _ _)) (v2.trans (hx.dec _ _))]
    simp only [Option.map_some, Option.bind_some]
    unfold advance fin Sys.precursors newC
    obtain ⟨w1, w2, w3⟩ := stepMat_vel x.np order h x.k false (data te r.cur.P)
    simp only [hd, if_true, Bool.not_true, w2, w3, density_eq x order h false]

omit [LinearOrder K] [IsStrictOrderedRing K] in
theorem source_congr (x : Sys K) (S : KMat K) (order : Nat) (h t : K) (old old' : Nat → Sol K)
    (ho : ∀ j, j < order → old j = old' j) : x.source S order h t old = x.source S order h t old' := by
  funext g a i
  rw [source_eq, source_eq, discreteSource_eq, discreteSource_eq]
  congr 1
  exact Finset.sum_congr rfl fun j hj => by rw [ho j (Finset.mem_range.1 hj)]

omit [LinearOrder K] [IsStrictOrderedRing K] in
theorem newC_congr (x : Sys K) (D : KMat K) (order : Nat) (h : K) (old old' : Nat → Sol K) (phi : Nat → Nat → K)
    (ho : ∀ j, j < order → old j = old' j) : newC x D order h old phi = newC x D order h old' phi := by
  funext p i
  unfold newC
  rw [updatePrecursor_eq, updatePrecursor_eq]
  congr 1
  exact Finset.sum_congr rfl fun j hj => by rw [ho j (Finset.mem_range.1 hj)]

omit [LinearOrder K] [IsStrictOrderedRing K] in
theorem physics_congr (x : Sys K) (order : Nat) (h t : K) (old old' : Nat → Sol K) (s : Sol K)
    (ho : ∀ j, j < order → old j = old' j) : x.physics order h t old s = x.physics order h t old' s := by
  unfold Sys.physics
  congr 1
  funext v e
  split
  · rw [updatePhysics, updatePhysics, foldl_sum, foldl_sum]
    congr 2
    exact Finset.sum_congr rfl fun j hj => by rw [ho j (Finset.mem_range.1 hj)]
  · rfl

omit [LinearOrder K] [IsStrictOrderedRing K] in
theorem advance_congr (x : Sys K) (data : K → (Nat → Nat → K) → KMat K) (order : Nat) (h t : K) (old old' : Nat → Sol K)
    (c : Sol K) (ho : ∀ j, j < order → old j = old' j) :
    advance x data order h t old c = advance x data order h t old' c := by
  unfold advance
  simp only [source_congr x _ order h t old old' ho, newC_congr x _ order h old old' _ ho, physics_congr x order h t old old' _ ho]

omit [IsStrictOrderedRing K] in
theorem newC_balance (x : Sys K) (D : KMat K) (order : Nat) (h : K) (hh : h ≠ 0) (old : Nat → Sol K)
    (phi : Nat → Nat → K) (p i : Nat) (hd : bdf order 0 + h * D.lambda p ≠ 0) :
    (bdf order 0 * newC x D order h old phi p i - ∑ j ∈ Finset.range order, bdf order (j + 1) * (old j).C p i) / h =
      D.beta (x.mt i) p * production x D phi i - D.lambda p * newC x D order h old phi p i :=
  C47_balance order h _ _ _ _ hh hd

omit [LinearOrder K] [IsStrictOrderedRing K] in
theorem delayed_iff (x : Sys K) : x.delayed = true ↔ x.multiply = true ∧ x.np ≠ 0 := by
  unfold Sys.delayed; simp

theorem advance_spec (x : Sys K) (stream : KMat K → (Nat → Nat → Nat → K) → Nat → Nat → Nat → K)
    (data : K → (Nat → Nat → K) → KMat K) (V L : Nat → K) (hx : Timed x data V L) (hL : ∀ p, p < x.np → 0 < L p)
    (e : K) (hs : SolvedTo x stream data e) (order : Nat) (h1 : 1 ≤ order) (h6 : order ≤ 6) (h t : K) (hh : 0 < h) (hd : StepSize x h)
    (old : Nat → Sol K) (c : Sol K) :
    Advance x stream data e order h t old c (advance x data order h t old c) := by
  have hC : x.multiply = true → ∀ p, p < x.np →
      (advance x data order h t old c).C p =
        newC x (data t c.P) order h old (advance x data order h t old c).phi p := by
    intro hm p hp
    have hd : x.delayed = true := (delayed_iff x).2 ⟨hm, by omega⟩
    unfold advance Sys.physics
    simp only [hd, if_true]
  have sol := hs order h t c.P h1 h6 hh hd
    (x.source (stepMat x.np order h x.k true (data t c.P)) order h t old) c
  constructor
  · intro g a i hg ha hi
    rw [← resid_eq x stream (data t c.P) order h t hh.ne' old (advance x data order h t old c) g a i
      fun hm p hp => congrFun (hC hm p hp) i]
    exact sol.1 g a i hg ha hi
  · exact sol.2
  · intro hm p i hp
    rw [hC hm p hp]
    refine newC_balance x (data t c.P) order h hh.ne' old _ p i ?_
    rw [hx.dec]
    exact (add_pos (bdf_pos order h1 h6) (mul_pos hh (hL p hp))).ne'
  · intro hm
    unfold advance Sys.physics Sys.delayed
    simp only [hm, Bool.false_and, Bool.false_eq_true, if_false]
  · intro v el hv
    have e1 : (advance x data order h t old c).P v el =
        updatePhysics order h (x.rhs t h { advance x data order h t old c with P := c.P } v el)
          (fun j => (old j).P v el) := by
      unfold advance Sys.physics
      simp only [hv, if_true]
    rw [e1]
    exact C74_balance order h _ _ hh.ne' (bdf_pos order h1 h6).ne'
  · intro v el hv
    unfold advance Sys.physics
    simp only [Nat.not_lt.2 hv, if_false]

theorem fin_spec (x : Sys K) (half : Bool) (m o : Sol K) : Finish x half m o (fin x half m o) := by
  have h2 : (2 : K) ≠ 0 := two_ne_zero
  have hex : ∀ a b : K, (extrap a b + b) / 2 = a := by
    intro a b; unfold extrap; field_simp; ring
  constructor
  · rintro rfl; rfl
  · rintro rfl hd g a i
    simp only [fin, if_true, Sys.extrapolate, hd, hex]
  · rintro rfl hd g i
    simp only [fin, if_true, Sys.extrapolate, hd]
    rw [foldl_sum, zero_add]
  · rintro rfl hd g i
    simp only [fin, if_true, Sys.extrapolate, hd, Bool.false_eq_true, if_false, hex]
  · rintro rfl hm p i hp
    have hd : x.delayed = true := (delayed_iff x).2 ⟨hm, by omega⟩
    simp only [fin, if_true, Sys.extrapolate, hd, hex]
  · rintro rfl v el hv
    simp only [fin, if_true, Sys.extrapolate, hv, hex]

/-! ## The passes of a step -/

/-- What the passes leave, as a function of the stored solutions and the current one. -/
def iterFin (x : Sys K) (data : K → (Nat → Nat → K) → KMat K) (order : Nat) (h t : K) (half : Bool) (old : Nat → Sol K) :
    Nat → Sol K → Sol K
  | 0, c => c
  | n + 1, c =>
    let s := fin x half (advance x data order h t old c) (old 0)
    if x.conv c s || n = 0 then s else iterFin x data order h t half old n s

omit [LinearOrder K] [IsStrictOrderedRing K] in
theorem iterFin_congr (x : Sys K) (data : K → (Nat → Nat → K) → KMat K) (order : Nat) (h1 : 1 ≤ order) (h t : K) (half : Bool)
    (old old' : Nat → Sol K) (ho : ∀ j, j < order → old j = old' j) (n : Nat) (c : Sol K) :
    iterFin x data order h t half old n c = iterFin x data order h t half old' n c := by
  induction n generalizing c with
  | zero => rfl
  | succ n ih =>
    unfold iterFin
    rw [advance_congr x data order h t old old' c ho, ho 0 h1]
    simp only [ih]

theorem iterFin_spec (x : Sys K) (stream : KMat K → (Nat → Nat → Nat → K) → Nat → Nat → Nat → K)
    (data : K → (Nat → Nat → K) → KMat K) (V L : Nat → K) (hx : Timed x data V L) (hL : ∀ p, p < x.np → 0 < L p)
    (e : K) (hs : SolvedTo x stream data e) (order : Nat) (h1 : 1 ≤ order) (h6 : order ≤ 6) (h t : K) (hh : 0 < h) (hd : StepSize x h)
    (half : Bool) (old : Nat → Sol K) (n : Nat) (c : Sol K) (hn : 1 ≤ n) :
    Iterated x stream data e order h t half old n c (iterFin x data order h t half old n c) := by
  induction n generalizing c with
  | zero => omega
  | succ n ih =>
    have ha := advance_spec x stream data V L hx hL e hs order h1 h6 h t hh hd old c
    have hf := fin_spec x half (advance x data order h t old c) (old 0)
    unfold iterFin
    dsimp only
    split
    · rename_i hc
      refine .last n c _ _ ha hf ?_
      simpa using hc
    · rename_i hc
      simp only [Bool.or_eq_true, decide_eq_true_eq, not_or, Bool.not_eq_true] at hc
      exact .more n c _ _ _ ha hf hc.1 (ih _ (by omega))

omit [IsStrictOrderedRing K] in
theorem passes_eq (x : Sys K) (data : K → (Nat → Nat → K) → KMat K) (V L : Nat → K) (hx : Timed x data V L)
    (hV : ∀ g, g < x.G → 0 < V g) (hL : ∀ p, p < x.np → 0 < L p) (order : Nat) (h t : K) (half : Bool) (n : Nat) (r : Run K)
    (hMv : r.mat.velocity = V) (hMl : r.mat.lambda = L) :
    ∃ M : KMat K, M.velocity = V ∧ M.lambda = L ∧
      x.passes t h order half n r =
        some ⟨M, iterFin x data order h (if half then t - h else t) half r.at n r.cur, r.hist⟩ := by
  induction n generalizing r with
  | zero => exact ⟨r.mat, hMv, hMl, rfl⟩
  | succ n ih =>
    have hp := pass_eq x data V L hx hV hL order h t half r hMv hMl
    obtain ⟨v1, v2, -⟩ := stepMat_vel x.np order h x.k (!x.delayed) (data (if half then t - h else t) r.cur.P)
    unfold Sys.passes iterFin
    rw [hp]
    generalize (if half = true then t - h else t) = te at v1 v2 ih ⊢
    simp only [Option.bind_eq_bind, Option.bind_some]
    split
    · exact ⟨_, v1.trans (hx.vel _ _), v2.trans (hx.dec _ _), rfl⟩
    · exact ih ⟨stepMat x.np order h x.k (!x.delayed) (data te r.cur.P), _, r.hist⟩ (v1.trans (hx.vel _ _)) (v2.trans (hx.dec _ _))

/-! ## All steps -/

/-- Whether step `i` is a half step followed by extrapolation. -/
def half (x : Sys K) (i : Nat) : Bool :=
  decide (x.scheme = 0) || (decide (2 ≤ x.scheme) && decide (i = 1) && !x.noExtrap)

/-- The solutions up to step `n`, newest first, from the initial one. -/
def sequence (x : Sys K) (data : K → (Nat → Nat → K) → KMat K) (init : Sol K) : Nat → List (Sol K)
  | 0 => [init]
  | n + 1 =>
    let l := sequence x data init n
    let f := half x (n + 1)
    iterFin x data (min (n + 1) (max 1 x.scheme)) (if f then x.dt / 2 else x.dt)
      (if f then ((n + 1 : Nat) : K) * x.dt - x.dt / 2 else ((n + 1 : Nat) : K) * x.dt) f (fun j => l.getD j init)
      x.maxIter (l.getD 0 init) :: l

/-- The initial solution: the fluxes given, the physics held, precursors in equilibrium. -/
def initial (x : Sys K) (data : K → (Nat → Nat → K) → KMat K) (phi : Nat → Nat → K) (psi : Nat → Nat → Nat → K)
    (r : Run K) : Sol K :=
  let D := data 0 r.cur.P
  ⟨phi, psi, if x.delayed then fun p i => initPrecursor (D.lambda p) (D.beta (x.mt i) p) (production x D phi i) else r.cur.C,
    r.cur.P⟩

/-- What holds between the steps. -/
structure Inv (x : Sys K) (V L : Nat → K) (r : Run K) (l : List (Sol K)) (d : Sol K) : Prop extends Ready x V L r where
  cur : r.cur = l.getD 0 d
  stored : ∀ j, j < l.length → j < max 1 x.scheme → r.at j = l.getD j d

omit [LinearOrder K] [IsStrictOrderedRing K] in
theorem sequence_length (x : Sys K) (data : K → (Nat → Nat → K) → KMat K) (init : Sol K) (n : Nat) :
    (sequence x data init n).length = n + 1 := by
  induction n with
  | zero => rfl
  | succ n ih => rw [sequence, List.length_cons, ih]

theorem orderOf_eq (s : Nat) : orderOf s = max 1 s := by unfold orderOf; split <;> omega

theorem heap_contents {W : Type} (h : Hist W) (j : Nat) (d : W) (hj : j < h.slots.length) :
    h.heap (h.slots.getD j 0) = h.contents.getD j d := by
  unfold Hist.contents
  rw [List.getD_eq_getElem?_getD, List.getD_eq_getElem?_getD, List.getElem?_map, List.getElem?_eq_getElem hj]
  rfl

omit [IsStrictOrderedRing K] in
theorem start_eq (x : Sys K) (data : K → (Nat → Nat → K) → KMat K) (V L : Nat → K) (hx : Timed x data V L)
    (hV : ∀ g, g < x.G → 0 < V g) (hL : ∀ p, p < x.np → 0 < L p) (phi : Nat → Nat → K) (psi : Nat → Nat → Nat → K)
    (r : Run K) (hr : Ready x V L r) :
    ∃ r', x.start phi psi r = some r' ∧ r'.cur = initial x data phi psi r ∧
      Inv x V L r' [initial x data phi psi r] (initial x data phi psi r) := by
  obtain ⟨v1, v2, v3⟩ := stepMat_vel x.np 1 0 x.k false (data 0 r.cur.P)
  refine ⟨⟨stepMat x.np 1 0 x.k false (data 0 r.cur.P), initial x data phi psi r, r.hist.store (initial x data phi psi r)⟩, ?_, rfl, ?_⟩
  · unfold Sys.start
    rw [update_eq x data V L hx hV hL 1 0 0 false r.cur r.mat hr.vel hr.dec]
    simp only [Option.bind_eq_bind, Option.bind_some, pure]
    unfold initial
    cases x.delayed
    · simp only [Bool.false_eq_true, if_false]
    · simp only [if_true, v2, v3, density_eq x 1 0 false]
  · refine ⟨⟨v1.trans (hx.vel _ _), v2.trans (hx.dec _ _), hr.len, hr.nodup⟩, rfl, fun j hj _ => ?_⟩
    obtain rfl : j = 0 := by simpa using hj
    show (r.hist.store _).heap ((r.hist.store _).slots.getD 0 0) = _
    unfold Hist.store
    simp

omit [LinearOrder K] [IsStrictOrderedRing K] in
theorem time_eq (dt : K) (i : Nat) : (List.range i).foldl (fun t _ => t + dt) 0 = (i : K) * dt := by
  have := C72_time dt false i
  unfold stepTime at this
  simpa using congrArg Prod.fst this

omit [LinearOrder K] [IsStrictOrderedRing K] in
theorem half_eq (x : Sys K) (i : Nat) (hi : 1 ≤ i) :
    flag x.scheme (orderOf x.scheme) (stepOrder (orderOf x.scheme) i) x.noExtrap = half x i := by
  have := C72_half_steps x.scheme i x.noExtrap hi
  rw [Bool.eq_iff_iff, this]
  unfold half
  simp [and_assoc]

omit [IsStrictOrderedRing K] in
theorem step_eq (x : Sys K) (data : K → (Nat → Nat → K) → KMat K) (V L : Nat → K) (hx : Timed x data V L)
    (hV : ∀ g, g < x.G → 0 < V g) (hL : ∀ p, p < x.np → 0 < L p) (init : Sol K) (n : Nat) (r : Run K)
    (hr : Inv x V L r (sequence x data init n) init) :
    ∃ r', x.step (n + 1) r = some r' ∧ r'.cur = (sequence x data init (n + 1)).getD 0 init ∧
      Inv x V L r' (sequence x data init (n + 1)) init := by
  unfold Sys.step
  simp only [half_eq x (n + 1) (by omega)]
  simp only [time_eq, C48_order, orderOf_eq]
  have hh : (if half x (n + 1) = true then 1 / 2 * x.dt else x.dt) = if half x (n + 1) = true then x.dt / 2 else x.dt := by
    split <;> ring
  rw [hh]
  obtain ⟨M, hv, hl, hp⟩ := passes_eq x data V L hx hV hL (min (n + 1) (max 1 x.scheme))
    (if half x (n + 1) = true then x.dt / 2 else x.dt) (((n + 1 : Nat) : K) * x.dt) (half x (n + 1)) x.maxIter r hr.vel hr.dec
  rw [hp]
  simp only [Option.bind_eq_bind, Option.bind_some, pure]
  have hcur : iterFin x data (min (n + 1) (max 1 x.scheme)) (if half x (n + 1) = true then x.dt / 2 else x.dt)
      (if half x (n + 1) = true then ((n + 1 : Nat) : K) * x.dt - (if half x (n + 1) = true then x.dt / 2 else x.dt)
        else ((n + 1 : Nat) : K) * x.dt) (half x (n + 1)) r.at x.maxIter r.cur =
      (sequence x data init (n + 1)).getD 0 init := by
    rw [sequence, List.getD_cons_zero, hr.cur]
    rw [iterFin_congr x data (min (n + 1) (max 1 x.scheme)) (by omega) _ _ _ r.at
      (fun j => (sequence x data init n).getD j init)
      (fun j hj => hr.stored j (by rw [sequence_length]; omega) (by omega))]
    congr 1
    cases half x (n + 1) <;> rfl
  rw [hcur]
  refine ⟨_, rfl, rfl, ?_⟩
  have hne : r.hist.slots ≠ [] := by
    intro e; have := hr.len; rw [e] at this; simp at this; omega
  obtain ⟨c1, c2⟩ := C48_cycle r.hist hne
  have hnd := (C48_distinct r.hist hne).nodup_iff.2 hr.nodup
  have hlen : r.hist.cycle.slots.length = max 1 x.scheme := (C48_distinct r.hist hne).length_eq.trans hr.len
  refine ⟨⟨hv, hl, hlen, hnd⟩, rfl, fun j hj hj2 => ?_⟩
  have hw : (sequence x data init (n + 1)) = (sequence x data init (n + 1)).getD 0 init :: sequence x data init n := rfl
  generalize (sequence x data init (n + 1)).getD 0 init = w at hw
  show (r.hist.cycle.store w).heap ((r.hist.cycle.store w).slots.getD j 0) = _
  rw [heap_contents _ j init (by show j < r.hist.cycle.slots.length; omega), store_contents _ w _ _ c1 hnd, c2]
  rw [hw] at hj ⊢
  cases j with
  | zero => rfl
  | succ j =>
    rw [List.getD_cons_succ, List.getD_cons_succ, ← hr.stored j (by simpa using hj) (by omega)]
    have hj3 : j < r.hist.slots.length - 1 := by rw [hr.len]; omega
    show _ = r.hist.heap (r.hist.slots.getD j 0)
    rw [List.getD_eq_getElem?_getD, List.getElem?_map, List.getElem?_dropLast, if_pos hj3, List.getD_eq_getElem?_getD,
      List.getElem?_eq_getElem (by omega)]
    rfl

omit [IsStrictOrderedRing K] in
theorem transient_eq (x : Sys K) (data : K → (Nat → Nat → K) → KMat K) (V L : Nat → K) (hx : Timed x data V L)
    (hV : ∀ g, g < x.G → 0 < V g) (hL : ∀ p, p < x.np → 0 < L p) (phi : Nat → Nat → K) (psi : Nat → Nat → Nat → K)
    (r : Run K) (hr : Ready x V L r) (n : Nat) :
    ∃ r', x.transient phi psi r n = some (r', sequence x data (initial x data phi psi r) n) ∧
      Inv x V L r' (sequence x data (initial x data phi psi r) n) (initial x data phi psi r) := by
  induction n with
  | zero =>
    obtain ⟨r', h1, h2, h3⟩ := start_eq x data V L hx hV hL phi psi r hr
    refine ⟨r', ?_, h3⟩
    rw [Sys.transient, h1, Option.map_some, h2]
    rfl
  | succ n ih =>
    obtain ⟨r1, h1, h2⟩ := ih
    obtain ⟨r2, h3, h4, h5⟩ := step_eq x data V L hx hV hL _ n r1 h2
    refine ⟨r2, ?_, h5⟩
    rw [Sys.transient, h1]
    simp only [Option.bind_eq_bind, Option.bind_some, pure, h3]
    rw [h4]
    rfl

/-- **C126.**  A transient is one sequence of solutions: whatever the number of steps asked for, the stepper runs through,
    remains usable, and shows that sequence.  It starts from the fluxes given, the physics held and precursors in
    equilibrium, and each solution follows from those before it by the implicit step of the right order at the right time:
    order `i` in step `i` until the scheme's order is reached, at the end of the step, or the midpoint rule. -/
theorem C126_transient (x : Sys K) (stream : KMat K → (Nat → Nat → Nat → K) → Nat → Nat → Nat → K)
    (data : K → (Nat → Nat → K) → KMat K) (V L : Nat → K) (hx : Timed x data V L)
    (hV : ∀ g, g < x.G → 0 < V g) (hL : ∀ p, p < x.np → 0 < L p) (hsch : x.scheme ≤ 6) (hdt : 0 < x.dt)
    (hmax : 1 ≤ x.maxIter) (e : K) (he : SolvedTo x stream data e) (phi : Nat → Nat → K) (psi : Nat → Nat → Nat → K)
    (r : Run K) (hr : Ready x V L r) :
    ∃ sol : Nat → Sol K,
      (∀ n, ∃ r', x.transient phi psi r n = some (r', (List.range (n + 1)).reverse.map sol) ∧ Ready x V L r' ∧
        r'.cur = sol n) ∧
      (sol 0).phi = phi ∧ (sol 0).psi = psi ∧ (sol 0).P = r.cur.P ∧
      (x.multiply = true → ∀ p i, p < x.np →
        L p * (sol 0).C p i = (data 0 r.cur.P).beta (x.mt i) p * production x (data 0 r.cur.P) phi i) ∧
      ∀ i, 1 ≤ i →
        let hf : Bool := decide (x.scheme = 0) || (decide (2 ≤ x.scheme) && decide (i = 1) && !x.noExtrap)
        Iterated x stream data e (min i (max 1 x.scheme)) (if hf then x.dt / 2 else x.dt)
          (if hf then (i : K) * x.dt - x.dt / 2 else (i : K) * x.dt) hf (fun j => sol (i - 1 - j)) x.maxIter
          (sol (i - 1)) (sol i) := by
  let init := initial x data phi psi r
  let sol := fun n => (sequence x data init n).getD 0 init
  have hseq : ∀ n, sequence x data init n = (List.range (n + 1)).reverse.map sol := by
    intro n
    induction n with
    | zero => rfl
    | succ n ih =>
      rw [List.range_succ, List.reverse_append, List.reverse_singleton, List.singleton_append, List.map_cons, ← ih]
      rfl
  refine ⟨sol, fun n => ?_, rfl, rfl, rfl, ?_, ?_⟩
  · obtain ⟨r', h1, h2⟩ := transient_eq x data V L hx hV hL phi psi r hr n
    exact ⟨r', h1.trans (by rw [hseq]), h2.toReady, h2.cur⟩
  · intro hm p i hp
    have hd : x.delayed = true := (delayed_iff x).2 ⟨hm, by omega⟩
    show L p * (initial x data phi psi r).C p i = _
    unfold initial
    simp only [hd, if_true, hx.dec]
    exact C47_initial _ _ _ (hL p hp).ne'
  · intro i hi
    obtain ⟨n, rfl⟩ : ∃ n, i = n + 1 := ⟨i - 1, by omega⟩
    intro hf
    have hget : ∀ j, j ≤ n → (sequence x data init n).getD j init = sol (n - j) := by
      intro j hj
      rw [hseq, List.getD_eq_getElem?_getD, List.getElem?_map, List.getElem?_reverse (by simpa using by omega)]
      simp only [List.length_range]
      rw [List.getElem?_range (by omega)]
      show sol (n + 1 - 1 - j) = _
      congr 1
    have hs : sol (n + 1) = iterFin x data (min (n + 1) (max 1 x.scheme)) (if hf then x.dt / 2 else x.dt)
        (if hf then ((n + 1 : Nat) : K) * x.dt - x.dt / 2 else ((n + 1 : Nat) : K) * x.dt) hf
        (fun j => sol (n + 1 - 1 - j)) x.maxIter (sol (n + 1 - 1)) := by
      show iterFin x data _ _ _ _ _ _ _ = _
      rw [iterFin_congr x data _ (by omega) _ _ _ _ (fun j => sol (n + 1 - 1 - j)) (fun j hj => hget j (by omega))]
      rfl
    rw [hs]
    refine iterFin_spec x stream data V L hx hL e he _ (by omega) (by omega) _ _ ?_ ?_ _ _ _ _ hmax
    · split
      · exact half_pos hdt
      · exact hdt
    · split
      · exact Or.inr rfl
      · exact Or.inl rfl

/-! ## Steady states -/

/-- Fluxes that solve the time-independent problem with data `D` and sources `q`, delayed neutrons being emitted as fast as
    their precursors are made. -/
structure Steady (x : Sys K) (stream : (Nat → Nat → Nat → K) → Nat → Nat → Nat → K) (D : KMat K)
    (q : Nat → Nat → Nat → K) (phi : Nat → Nat → K) (psi : Nat → Nat → Nat → K) : Prop where
  flux : ∀ g a i, g < x.G → a < x.A → i < x.N →
    stream psi g a i + D.st (x.mt i) g * psi g a i =
      x.norm * (∑ g' ∈ Finset.range x.G, D.ss (x.mt i) g g' * phi g' i +
        if x.multiply then
          ((1 - ∑ p ∈ Finset.range x.np, D.beta (x.mt i) p) * D.chi (x.mt i) g +
            ∑ p ∈ Finset.range x.np, D.beta (x.mt i) p * D.chid (x.mt i) p g) * production x D phi i
        else 0) + q g a i
  total : ∀ g i, g < x.G → i < x.N → phi g i = ∑ a ∈ Finset.range x.A, x.w a * psi g a i

/-- The multigroup problems of the steps have at most one solution. -/
def UniqueSol (x : Sys K) (stream : KMat K → (Nat → Nat → Nat → K) → Nat → Nat → Nat → K) (D : KMat K) : Prop :=
  ∀ o h, 1 ≤ o → o ≤ 6 → 0 < h → StepSize x h → ∀ q phi psi phi' psi',
    let S := stepMat x.np o h x.k true D
    (∀ g a i, g < x.G → a < x.A → i < x.N → resid x stream S q phi psi g a i = 0) →
    (∀ g i, g < x.G → i < x.N → phi g i = ∑ a ∈ Finset.range x.A, x.w a * psi g a i) →
    (∀ g a i, g < x.G → a < x.A → i < x.N → resid x stream S q phi' psi' g a i = 0) →
    (∀ g i, g < x.G → i < x.N → phi' g i = ∑ a ∈ Finset.range x.A, x.w a * psi' g a i) →
    (∀ g i, g < x.G → i < x.N → phi g i = phi' g i) ∧
      ∀ g a i, g < x.G → a < x.A → i < x.N → psi g a i = psi' g a i

/-- The same solution in the cells, groups and directions there are, the same physics, and precursors in equilibrium. -/
structure Kept (x : Sys K) (D : KMat K) (phi : Nat → Nat → K) (psi : Nat → Nat → Nat → K) (P : Nat → Nat → K) (s : Sol K) :
    Prop where
  flux : ∀ g i, g < x.G → i < x.N → s.phi g i = phi g i
  angular : ∀ g a i, g < x.G → a < x.A → i < x.N → s.psi g a i = psi g a i
  phys : s.P = P
  prec : x.multiply = true → ∀ p i, p < x.np → i < x.N →
    s.C p i = D.beta (x.mt i) p * production x D phi i / D.lambda p

omit [LinearOrder K] [IsStrictOrderedRing K] in
theorem production_congr (x : Sys K) (D : KMat K) (phi phi' : Nat → Nat → K) (i : Nat)
    (h : ∀ g, g < x.G → phi g i = phi' g i) : production x D phi i = production x D phi' i := by
  unfold production
  congr 1
  exact Finset.sum_congr rfl fun g hg => by rw [h g (Finset.mem_range.1 hg)]

/-- What is asked of a steady state for it to be kept. -/
structure Rest (x : Sys K) (stream : KMat K → (Nat → Nat → Nat → K) → Nat → Nat → Nat → K)
    (data : K → (Nat → Nat → K) → KMat K) (D : KMat K) (phi : Nat → Nat → K) (psi : Nat → Nat → Nat → K)
    (P : Nat → Nat → K) : Prop where
  /-- the streaming term does not look at the total cross sections -/
  closure : ∀ S : KMat K, S.dc = D.dc → stream S = stream D
  /-- the fluxes solve the time-independent problem -/
  steady : Steady x (stream D) D (x.ext 0) phi psi
  /-- old angular fluxes enter as such, or there is nothing to tell apart -/
  angle : x.discrete = true ∨ ∀ g a i, g < x.G → a < x.A → i < x.N → psi g a i = x.norm * phi g i
  data : ∀ t, data t P = D
  ext : ∀ t g a i, g < x.G → a < x.A → i < x.N → x.ext t g a i = x.ext 0 g a i
  phys : ∀ t h s, s.P = P → (∀ g i, g < x.G → i < x.N → s.phi g i = phi g i) → ∀ v el, v < x.NV → x.rhs t h s v el = 0

theorem kept_advance (x : Sys K) (stream : KMat K → (Nat → Nat → Nat → K) → Nat → Nat → Nat → K)
    (data : K → (Nat → Nat → K) → KMat K) (D : KMat K) (hL : ∀ p, p < x.np → 0 < D.lambda p)
    (he : SolvedTo x stream data 0) (hu : UniqueSol x stream D) (phi : Nat → Nat → K) (psi : Nat → Nat → Nat → K)
    (P : Nat → Nat → K) (hr : Rest x stream data D phi psi P) (order : Nat) (h1 : 1 ≤ order) (h6 : order ≤ 6) (h t : K)
    (hh : 0 < h) (hdd : StepSize x h) (old : Nat → Sol K) (ho : ∀ j, j < order → Kept x D phi psi P (old j)) (c : Sol K)
    (hc : Kept x D phi psi P c) : Kept x D phi psi P (advance x data order h t old c) := by
  have hb : (0 : K) < bdf order 0 := bdf_pos order h1 h6
  have hsum : ∀ v : K, ∑ j ∈ Finset.range order, bdf order (j + 1) * v = bdf order 0 * v := by
    intro v; rw [← Finset.sum_mul, ← C46_sum order h1 h6]
  have hD : data t c.P = D := by rw [hc.phys]; exact hr.data t
  have hS : ∀ S : KMat K, S.dc = D.dc → stream S = stream D := hr.closure
  -- precursors of the steady flux
  have hnew : x.multiply = true → ∀ f : Nat → Nat → K, (∀ g i, g < x.G → i < x.N → f g i = phi g i) →
      ∀ p i, p < x.np → i < x.N → newC x D order h old f p i = D.beta (x.mt i) p * production x D phi i / D.lambda p := by
    intro hm f hf p i hp hi
    unfold newC
    rw [production_congr x D f phi i fun g hg => hf g i hg hi]
    refine (C47_unique order h _ _ _ _ _ hh.ne' (add_pos hb (mul_pos hh (hL p hp))).ne' ?_).symm
    have : ∑ k ∈ Finset.range order, bdf order (k + 1) * (old k).C p i =
        bdf order 0 * (D.beta (x.mt i) p * production x D phi i / D.lambda p) := by
      rw [← hsum]
      exact Finset.sum_congr rfl fun j hj => by rw [(ho j (Finset.mem_range.1 hj)).prec hm p i hp hi]
    rw [this, sub_self, zero_div, mul_div_cancel₀ _ (hL p hp).ne', sub_self]
  -- the steady flux solves the problem of the step
  have hsol : ∀ g a i, g < x.G → a < x.A → i < x.N →
      resid x stream (stepMat x.np order h x.k true D)
        (x.source (stepMat x.np order h x.k true D) order h t old) phi psi g a i = 0 := by
    intro g a i hg ha hi
    have key := resid_eq x stream D order h t hh.ne' old ⟨phi, psi, newC x D order h old phi, P⟩ g a i
      (fun _ _ _ => rfl)
    dsimp only at key
    rw [key]
    unfold stepResid
    dsimp only
    have hp : ∑ j ∈ Finset.range order, bdf order (j + 1) * past x (old j) g a i = bdf order 0 * psi g a i := by
      rw [← hsum]
      refine Finset.sum_congr rfl fun j hj => ?_
      have hk := ho j (Finset.mem_range.1 hj)
      congr 1
      unfold past
      rcases hr.angle with hd | hd
      · rw [hd]; exact hk.angular g a i hg ha hi
      · split
        · exact hk.angular g a i hg ha hi
        · rw [hk.flux g i hg hi, hd g a i hg ha hi]
    rw [hp, sub_self, zero_div, zero_add, hS (stepMat x.np order h x.k true D) rfl, hr.ext t g a i hg ha hi]
    have hst := hr.steady.flux g a i hg ha hi
    rw [hst]
    cases hm : x.multiply
    · simp only [Bool.false_eq_true, if_false]; ring
    · simp only [if_true]
      have : ∑ p ∈ Finset.range x.np, D.lambda p * D.chid (x.mt i) p g * newC x D order h old phi p i =
          (∑ p ∈ Finset.range x.np, D.beta (x.mt i) p * D.chid (x.mt i) p g) * production x D phi i := by
        rw [Finset.sum_mul]
        refine Finset.sum_congr rfl fun p hp => ?_
        have hp := Finset.mem_range.1 hp
        rw [hnew hm phi (fun _ _ _ _ => rfl) p i hp hi]
        have := (hL p hp).ne'
        field_simp
      rw [this]
      ring
  have hslv := he order h t c.P h1 h6 hh hdd (x.source (stepMat x.np order h x.k true D) order h t old) c
  rw [hD] at hslv
  have huniq := hu order h h1 h6 hh hdd (x.source (stepMat x.np order h x.k true D) order h t old) _ _ phi psi
    (fun g a i hg ha hi => abs_nonpos_iff.1 (hslv.1 g a i hg ha hi))
    (fun g i hg hi => sub_eq_zero.1 (abs_nonpos_iff.1 (hslv.2 g i hg hi))) hsol hr.steady.total
  have hphi : ∀ g i, g < x.G → i < x.N → (advance x data order h t old c).phi g i = phi g i := by
    intro g i hg hi
    unfold advance Sys.physics
    simp only [hD]
    exact huniq.1 g i hg hi
  refine ⟨hphi, fun g a i hg ha hi => ?_, ?_, fun hm p i hp hi => ?_⟩
  · unfold advance Sys.physics
    simp only [hD]
    exact huniq.2 g a i hg ha hi
  · funext v el
    by_cases hv : v < x.NV
    · have e1 : (advance x data order h t old c).P v el =
          updatePhysics order h (x.rhs t h { advance x data order h t old c with P := c.P } v el)
            (fun j => (old j).P v el) := by
        unfold advance Sys.physics
        simp only [hv, if_true]
      rw [e1, hr.phys t h { advance x data order h t old c with P := c.P } hc.phys hphi v el hv,
        ← C74_steady order h1 h6 h (P v el) hb.ne', updatePhysics, updatePhysics, foldl_sum, foldl_sum]
      congr 2
      refine Finset.sum_congr rfl fun j hj => ?_
      rw [(ho j (Finset.mem_range.1 hj)).phys]
    · unfold advance Sys.physics
      simp only [hv, if_false]
      rw [hc.phys]
  · have hd : x.delayed = true := (delayed_iff x).2 ⟨hm, by omega⟩
    rw [← hnew hm _ hphi p i hp hi]
    unfold advance Sys.physics
    simp only [hd, if_true, hD]

omit [LinearOrder K] [IsStrictOrderedRing K] in
theorem kept_fin (x : Sys K) (stream : (Nat → Nat → Nat → K) → Nat → Nat → Nat → K) (D : KMat K) (q : Nat → Nat → Nat → K)
    (phi : Nat → Nat → K) (psi : Nat → Nat → Nat → K) (P : Nat → Nat → K) (hst : Steady x stream D q phi psi)
    (hf : Bool) (m o : Sol K) (hm : Kept x D phi psi P m)
    (ho : Kept x D phi psi P o) : Kept x D phi psi P (fin x hf m o) := by
  have hex : ∀ a : K, extrap a a = a := fun a => by unfold extrap; ring
  cases hf
  · exact hm
  unfold fin Sys.extrapolate
  simp only [if_true]
  refine ⟨fun g i hg hi => ?_, fun g a i hg ha hi => ?_, ?_, fun hmu p i hp hi => ?_⟩
  · dsimp only
    split
    · rw [foldl_sum, zero_add, hst.total g i hg hi]
      refine Finset.sum_congr rfl fun a ha => ?_
      have ha := Finset.mem_range.1 ha
      rw [hm.angular g a i hg ha hi, ho.angular g a i hg ha hi, hex]
    · rw [hm.flux g i hg hi, ho.flux g i hg hi, hex]
  · dsimp only
    rw [hm.angular g a i hg ha hi, ho.angular g a i hg ha hi, hex, ite_self]
  · funext v e
    dsimp only
    rw [hm.phys, ho.phys, hex, ite_self]
  · dsimp only
    rw [hm.prec hmu p i hp hi, ho.prec hmu p i hp hi, hex, ite_self]

theorem kept_iterFin (x : Sys K) (stream : KMat K → (Nat → Nat → Nat → K) → Nat → Nat → Nat → K)
    (data : K → (Nat → Nat → K) → KMat K) (D : KMat K) (hL : ∀ p, p < x.np → 0 < D.lambda p)
    (he : SolvedTo x stream data 0) (hu : UniqueSol x stream D) (phi : Nat → Nat → K) (psi : Nat → Nat → Nat → K)
    (P : Nat → Nat → K) (hr : Rest x stream data D phi psi P) (order : Nat) (h1 : 1 ≤ order) (h6 : order ≤ 6) (h t : K)
    (hh : 0 < h) (hdd : StepSize x h) (hf : Bool) (old : Nat → Sol K) (ho : ∀ j, j < order → Kept x D phi psi P (old j)) (n : Nat) (c : Sol K)
    (hc : Kept x D phi psi P c) : Kept x D phi psi P (iterFin x data order h t hf old n c) := by
  induction n generalizing c with
  | zero => exact hc
  | succ n ih =>
    have := kept_fin x (stream D) D (x.ext 0) phi psi P hr.steady hf _ (old 0)
      (kept_advance x stream data D hL he hu phi psi P hr order h1 h6 h t hh hdd old ho c hc) (ho 0 h1)
    unfold iterFin
    dsimp only
    split
    · exact this
    · exact ih _ this

/-- **C126.**  With exact multigroup solves, a transient that starts from a steady state, everything in the problem being
    constant, stays there: for every scheme, step size, number of steps and of passes, with extrapolated steps or not. -/
theorem C126_steady_partial (x : Sys K) (stream : KMat K → (Nat → Nat → Nat → K) → Nat → Nat → Nat → K)
    (data : K → (Nat → Nat → K) → KMat K) (V L : Nat → K) (hx : Timed x data V L)
    (hV : ∀ g, g < x.G → 0 < V g) (hL : ∀ p, p < x.np → 0 < L p) (hsch : x.scheme ≤ 6) (hdt : 0 < x.dt)
    (D : KMat K) (he : SolvedTo x stream data 0) (hu : UniqueSol x stream D)
    (phi : Nat → Nat → K) (psi : Nat → Nat → Nat → K) (r : Run K) (hr : Ready x V L r)
    (hrest : Rest x stream data D phi psi r.cur.P) (n : Nat) :
    ∃ r' l, x.transient phi psi r n = some (r', l) ∧ l.length = n + 1 ∧ ∀ s ∈ l, Kept x D phi psi r.cur.P s := by
  have hDL : D.lambda = L := by rw [← hrest.data 0]; exact hx.dec _ _
  obtain ⟨r', h1, -⟩ := transient_eq x data V L hx hV hL phi psi r hr n
  refine ⟨r', _, h1, sequence_length _ _ _ _, ?_⟩
  clear h1
  have hinit : Kept x D phi psi r.cur.P (initial x data phi psi r) := by
    refine ⟨fun _ _ _ _ => rfl, fun _ _ _ _ _ _ => rfl, rfl, fun hm p i hp hi => ?_⟩
    have hd : x.delayed = true := (delayed_iff x).2 ⟨hm, by omega⟩
    unfold initial
    simp only [hd, if_true, hrest.data, initPrecursor]
    ring
  induction n with
  | zero =>
    intro s hs
    rw [sequence, List.mem_singleton] at hs
    rw [hs]; exact hinit
  | succ n ih =>
    intro s hs
    rw [sequence] at hs
    rcases List.mem_cons.1 hs with rfl | hs
    · have hget : ∀ j, Kept x D phi psi r.cur.P ((sequence x data (initial x data phi psi r) n).getD j
          (initial x data phi psi r)) := by
        intro j
        rw [List.getD_eq_getElem?_getD]
        cases hj : (sequence x data (initial x data phi psi r) n)[j]? with
        | none => exact hinit
        | some s => exact ih s (List.mem_of_getElem? hj)
      refine kept_iterFin x stream data D (by rw [hDL]; exact hL) he hu phi psi _ hrest _ (by omega) (by omega) _ _ ?_ ?_ _ _
        (fun j _ => hget j) _ _ (hget 0)
      · split
        · exact half_pos hdt
        · exact hdt
      · split
        · exact Or.inr rfl
        · exact Or.inl rfl
    · exact ih s hs

/-! ## Using a stepper again -/

omit [LinearOrder K] [IsStrictOrderedRing K] in
theorem iterFin_keeps (x : Sys K) (data : K → (Nat → Nat → K) → KMat K) (hNV : x.NV = 0) (order : Nat) (h t : K) (hf : Bool)
    (old : Nat → Sol K) (n : Nat) (c : Sol K) :
    (iterFin x data order h t hf old n c).P = c.P ∧
      (x.delayed = false → (iterFin x data order h t hf old n c).C = c.C) := by
  induction n generalizing c with
  | zero => exact ⟨rfl, fun _ => rfl⟩
  | succ n ih =>
    have h1 : (fin x hf (advance x data order h t old c) (old 0)).P = c.P := by
      cases hf <;>
      · funext v e
        simp [fin, Sys.extrapolate, advance, Sys.physics, hNV]
    have h2 : x.delayed = false → (fin x hf (advance x data order h t old c) (old 0)).C = c.C := by
      intro hd
      cases hf <;>
      · funext p i
        simp [fin, Sys.extrapolate, advance, Sys.physics, hd]
    unfold iterFin
    dsimp only
    split
    · exact ⟨h1, h2⟩
    · obtain ⟨h3, h4⟩ := ih (fin x hf (advance x data order h t old c) (old 0))
      exact ⟨h3.trans h1, fun hd => (h4 hd).trans (h2 hd)⟩

omit [IsStrictOrderedRing K] in
/-- **C126.**  Without physics variables, the solutions do not depend on what the stepper did before: solving again from the
    same fluxes gives the same transient. -/
theorem C126_repeat_partial (x : Sys K) (data : K → (Nat → Nat → K) → KMat K) (V L : Nat → K) (hx : Timed x data V L)
    (hV : ∀ g, g < x.G → 0 < V g) (hL : ∀ p, p < x.np → 0 < L p) (hNV : x.NV = 0) (phi phi' : Nat → Nat → K)
    (psi psi' : Nat → Nat → Nat → K) (r r' : Run K) (hr : Ready x V L r) (n : Nat) (l : List (Sol K))
    (h : x.transient phi' psi' r n = some (r', l)) (m : Nat) :
    (x.transient phi psi r' m).map (·.2) = (x.transient phi psi r m).map (·.2) := by
  obtain ⟨r1, h1, h2⟩ := transient_eq x data V L hx hV hL phi' psi' r hr n
  rw [h1] at h
  obtain rfl : r1 = r' := congrArg Prod.fst (Option.some.inj h)
  have hk : ∀ n j, ((sequence x data (initial x data phi' psi' r) n).getD j (initial x data phi' psi' r)).P = r.cur.P ∧
      (x.delayed = false → ((sequence x data (initial x data phi' psi' r) n).getD j (initial x data phi' psi' r)).C =
        r.cur.C) := by
    have h0 : (initial x data phi' psi' r).P = r.cur.P ∧ (x.delayed = false → (initial x data phi' psi' r).C = r.cur.C) :=
      ⟨rfl, fun hd => by unfold initial; simp [hd]⟩
    intro n
    induction n with
    | zero =>
      intro j
      cases j with
      | zero => exact h0
      | succ j => exact h0
    | succ n ih =>
      intro j
      rw [sequence]
      cases j with
      | zero =>
        rw [List.getD_cons_zero]
        obtain ⟨k1, k2⟩ := iterFin_keeps x data hNV (min (n + 1) (max 1 x.scheme))
          (if half x (n + 1) then x.dt / 2 else x.dt)
          (if half x (n + 1) then ((n + 1 : Nat) : K) * x.dt - x.dt / 2 else ((n + 1 : Nat) : K) * x.dt) (half x (n + 1))
          (fun j => (sequence x data (initial x data phi' psi' r) n).getD j (initial x data phi' psi' r)) x.maxIter
          ((sequence x data (initial x data phi' psi' r) n).getD 0 (initial x data phi' psi' r))
        exact ⟨k1.trans (ih 0).1, fun hd => (k2 hd).trans ((ih 0).2 hd)⟩
      | succ j => rw [List.getD_cons_succ]; exact ih j
  have hinit : initial x data phi psi r1 = initial x data phi psi r := by
    obtain ⟨k1, k2⟩ := hk n 0
    rw [← h2.cur] at k1 k2
    unfold initial
    rw [k1]
    cases hd : x.delayed
    · simp only [Bool.false_eq_true, if_false]; rw [k2 hd]
    · simp only [if_true]
  obtain ⟨r2, h3, -⟩ := transient_eq x data V L hx hV hL phi psi r1 h2.toReady m
  obtain ⟨r3, h4, -⟩ := transient_eq x data V L hx hV hL phi psi r hr m
  rw [h3, h4, hinit]
  rfl

end

/-! ## What fails -/

/-- The full statement for the systems `ok` admits: fluxes the library itself finds for the constant problem (which emits
    all fission neutrons with the one spectrum `chi`) are kept. -/
def C126ClaimFor (ok : Sys ℚ → Prop) : Prop :=
  ∀ (x : Sys ℚ) (stream : KMat ℚ → (Nat → Nat → Nat → ℚ) → Nat → Nat → Nat → ℚ) (data : ℚ → (Nat → Nat → ℚ) → KMat ℚ)
    (V L : Nat → ℚ) (D : KMat ℚ), ok x → Timed x data V L → (∀ g, g < x.G → 0 < V g) → (∀ p, p < x.np → 0 < L p) →
    x.scheme ≤ 6 → 0 < x.dt → SolvedTo x stream data 0 → UniqueSol x stream D →
    (∀ S : KMat ℚ, S.dc = D.dc → stream S = stream D) → (∀ t P, data t P = D) → (∀ t, x.ext t = x.ext 0) → x.NV = 0 →
    ∀ (phi : Nat → Nat → ℚ) (psi : Nat → Nat → Nat → ℚ) (r : Run ℚ), Ready x V L r →
    (∀ g a i, g < x.G → a < x.A → i < x.N →
      stream D psi g a i + D.st (x.mt i) g * psi g a i =
        x.norm * (∑ g' ∈ Finset.range x.G, D.ss (x.mt i) g g' * phi g' i +
          if x.multiply then D.chi (x.mt i) g * production x D phi i else 0) + x.ext 0 g a i) →
    (∀ g i, g < x.G → i < x.N → phi g i = ∑ a ∈ Finset.range x.A, x.w a * psi g a i) →
    ∀ n r' l, x.transient phi psi r n = some (r', l) → ∀ s ∈ l, ∀ g i, g < x.G → i < x.N → s.phi g i = phi g i

/-- The full statement. -/
def C126Claim : Prop := C126ClaimFor fun _ => True

/-- One cell that leaks in two directions, at different rates, with a constant source. -/
def slabData : KMat ℚ where
  st := fun _ _ => 1
  sa := fun _ _ => 1
  sf := fun _ _ => 0
  nu := fun _ _ => 0
  nsf := fun _ _ => 0
  chi := fun _ _ => 0
  dc := fun _ _ => 0
  ss := fun _ _ _ => 0
  velocity := fun _ => 1
  lambda := fun _ => 1
  beta := fun _ _ => 0
  chid := fun _ _ _ => 0

def slabLeak (a : Nat) : ℚ := if a = 0 then 1 else 3

def slabStream (_ : KMat ℚ) (psi : Nat → Nat → Nat → ℚ) (g a i : Nat) : ℚ := slabLeak a * psi g a i

def slab (discrete : Bool) (scheme : Nat) : Sys ℚ where
  G := 1
  N := 1
  np := 0
  A := 2
  NV := 0
  mt := fun _ => 0
  w := fun _ => 1
  norm := 1 / 2
  multiply := false
  discrete := discrete
  noExtrap := false
  scheme := scheme
  dt := 1
  k := 1
  maxIter := 1
  impl := fun _ _ => wrapped slabData
  ext := fun _ _ _ _ => 1
  solve := fun S q _ => (fun g i => q g 0 i / (S.st 0 g + slabLeak 0) + q g 1 i / (S.st 0 g + slabLeak 1),
    fun g a i => q g a i / (S.st 0 g + slabLeak a))
  rhs := fun _ _ _ _ _ => 0
  conv := fun _ _ => true

theorem slab_timed (d : Bool) (sc : Nat) : Timed (slab d sc) (fun _ _ => slabData) (fun _ => 1) (fun _ => 1) :=
  ⟨fun _ _ _ _ _ => rfl, fun _ _ => rfl, fun _ _ => rfl⟩

theorem slab_st (o : Nat) (h : ℚ) (h1 : 1 ≤ o) (h6 : o ≤ 6) (hh : 0 < h) (a : Nat) :
    0 < (stepMat 0 o h 1 true slabData).st 0 0 + slabLeak a := by
  have e : (stepMat 0 o h 1 true slabData).st 0 0 = 1 + bdf o 0 / (1 * h) := rfl
  have hb : (0 : ℚ) < bdf o 0 / (1 * h) := div_pos (bdf_pos o h1 h6) (by linarith)
  have hl : 0 < slabLeak a := by unfold slabLeak; split <;> norm_num
  rw [e]; linarith

theorem slab_resid (d : Bool) (sc : Nat) (S : KMat ℚ) (hS : S.ss = fun _ _ _ => 0) (q : Nat → Nat → Nat → ℚ)
    (phi : Nat → Nat → ℚ) (psi : Nat → Nat → Nat → ℚ) (g a i : Nat) :
    resid (slab d sc) slabStream S q phi psi g a i = (S.st 0 g + slabLeak a) * psi g a i - q g a i := by
  unfold resid slabStream
  simp only [slab, hS, Bool.false_eq_true, if_false, zero_mul, Finset.sum_const_zero, add_zero, mul_zero, sub_zero]
  ring

theorem slab_solved (d : Bool) (sc : Nat) : SolvedTo (slab d sc) slabStream (fun _ _ => slabData) 0 := by
  intro o h t P h1 h6 hh _ q s S
  refine ⟨fun g a i hg ha hi => ?_, fun g i hg hi => ?_⟩
  · obtain rfl : g = 0 := Nat.lt_one_iff.1 hg
    have hp : 0 < S.st 0 0 + slabLeak a := slab_st o h h1 h6 hh a
    rw [slab_resid d sc S rfl]
    show |(S.st 0 0 + slabLeak a) * (q 0 a i / (S.st 0 0 + slabLeak a)) - q 0 a i| ≤ 0
    rw [mul_div_cancel₀ _ hp.ne', sub_self, abs_zero]
  · have : ∑ a ∈ Finset.range 2, (1 : ℚ) * (q g a i / (S.st 0 g + slabLeak a)) =
        q g 0 i / (S.st 0 g + slabLeak 0) + q g 1 i / (S.st 0 g + slabLeak 1) := by
      rw [Finset.sum_range_succ, Finset.sum_range_one, one_mul, one_mul]
    show |q g 0 i / (S.st 0 g + slabLeak 0) + q g 1 i / (S.st 0 g + slabLeak 1) -
      ∑ a ∈ Finset.range 2, (1 : ℚ) * (q g a i / (S.st 0 g + slabLeak a))| ≤ 0
    rw [this, sub_self, abs_zero]

theorem slab_unique (d : Bool) (sc : Nat) : UniqueSol (slab d sc) slabStream slabData := by
  intro o h h1 h6 hh _ q phi psi phi' psi' S r1 t1 r2 t2
  have hpsi : ∀ g a i, g < (slab d sc).G → a < (slab d sc).A → i < (slab d sc).N → psi g a i = psi' g a i := by
    intro g a i hg ha hi
    have e1 := r1 g a i hg ha hi
    have e2 := r2 g a i hg ha hi
    obtain rfl : g = 0 := Nat.lt_one_iff.1 hg
    rw [slab_resid d sc S rfl] at e1 e2
    have hp := slab_st o h h1 h6 hh a
    refine mul_left_cancel₀ hp.ne' ?_
    change (S.st 0 0 + slabLeak a) * psi 0 a i = (S.st 0 0 + slabLeak a) * psi' 0 a i
    linarith
  refine ⟨fun g i hg hi => ?_, hpsi⟩
  rw [t1 g i hg hi, t2 g i hg hi]
  exact Finset.sum_congr rfl fun a ha => by rw [hpsi g a i hg (Finset.mem_range.1 ha) hi]

/-- Its steady angular flux. -/
def slabPsi (_ a _ : Nat) : ℚ := 1 / (1 + slabLeak a)

theorem slab_ready (d : Bool) (sc : Nat) :
    Ready (slab d sc) (fun _ => 1) (fun _ => 1) ((slab d sc).new slabData fun _ _ => 0) := by
  refine ⟨rfl, rfl, ?_, List.nodup_range⟩
  show (List.range (orderOf sc)).length = _
  rw [List.length_range, orderOf_eq]; rfl

theorem slab_steady (d : Bool) (sc : Nat) (a : Nat) :
    slabStream slabData slabPsi 0 a 0 + slabData.st 0 0 * slabPsi 0 a 0 = 1 := by
  have hl : 0 < slabLeak a := by unfold slabLeak; split <;> norm_num
  have h1 : 1 + slabLeak a ≠ 0 := by linarith
  show slabLeak a * (1 / (1 + slabLeak a)) + 1 * (1 / (1 + slabLeak a)) = 1
  field_simp
  ring

/-- The hypotheses are met, and with angular fluxes stored the slab stays as it is. -/
example (sc : Nat) (hsc : sc ≤ 6) (n : Nat) :
    ∃ r' l, (slab true sc).transient (fun _ _ => 3 / 4) slabPsi ((slab true sc).new slabData fun _ _ => 0) n = some (r', l) ∧
      l.length = n + 1 ∧ ∀ s ∈ l, Kept (slab true sc) slabData (fun _ _ => 3 / 4) slabPsi (fun _ _ => 0) s := by
  refine C126_steady_partial (slab true sc) slabStream (fun _ _ => slabData) _ _ (slab_timed _ _) (fun _ _ => one_pos)
    (fun _ _ => one_pos) hsc one_pos slabData (slab_solved _ _) (slab_unique _ _) _ _ _ (slab_ready _ _) ?_ n
  refine ⟨fun _ _ => rfl, ⟨fun g a i hg ha hi => ?_, fun g i hg hi => ?_⟩, Or.inl rfl, fun _ => rfl, fun _ _ _ _ _ _ _ => rfl,
    fun _ _ _ _ _ _ _ _ => rfl⟩
  · obtain rfl : g = 0 := Nat.lt_one_iff.1 hg
    obtain rfl : i = 0 := Nat.lt_one_iff.1 hi
    refine (slab_steady true sc a).trans ?_
    simp [slab, slabData]
  · show (3 / 4 : ℚ) = ∑ a ∈ Finset.range 2, 1 * (1 / (1 + slabLeak a))
    rw [Finset.sum_range_succ, Finset.sum_range_one]
    norm_num [slabLeak]

/-- So are those of the statement about all transients. -/
example (d : Bool) (sc : Nat) (hsc : sc ≤ 6) (phi : Nat → Nat → ℚ) (psi : Nat → Nat → Nat → ℚ) :=
  C126_transient (slab d sc) slabStream (fun _ _ => slabData) _ _ (slab_timed _ _) (fun _ _ => one_pos) (fun _ _ => one_pos) hsc
    one_pos le_rfl 0 (slab_solved _ _) phi psi _ (slab_ready _ _)

/-- **C126.**  With only flux moments stored, as by default, a steady state of the transport equation drifts: the old flux
    enters as if it were isotropic. -/
theorem C126_moments_drift : ¬ C126ClaimFor fun x => x.np = 0 := by
  intro h
  have key := h (slab false 1) slabStream (fun _ _ => slabData) (fun _ => 1) (fun _ => 1) slabData rfl (slab_timed _ _)
    (fun _ _ => one_pos) (fun _ _ => one_pos) (by decide) one_pos (slab_solved _ _) (slab_unique _ _) (fun _ _ => rfl)
    (fun _ _ => rfl) (fun _ => rfl) rfl (fun _ _ => 3 / 4) slabPsi _ (slab_ready _ _) ?_ ?_ 1
  · have hrun : ((slab false 1).transient (fun _ _ => 3 / 4) slabPsi ((slab false 1).new slabData fun _ _ => 0) 1).map
        (fun p => (p.2.getD 0 ⟨fun _ _ => 0, fun _ _ _ => 0, fun _ _ => 0, fun _ _ => 0⟩).phi 0 0) = some (11 / 15) := by
      decide +kernel
    cases ht : (slab false 1).transient (fun _ _ => 3 / 4) slabPsi ((slab false 1).new slabData fun _ _ => 0) 1 with
    | none => rw [ht] at hrun; simp at hrun
    | some p =>
      rw [ht, Option.map_some] at hrun
      have hl := Option.some.inj hrun
      obtain ⟨r', l⟩ := p
      cases l with
      | nil => norm_num at hl
      | cons s l =>
        have := key r' (s :: l) ht s (List.mem_cons_self ..) 0 0 one_pos one_pos
        rw [List.getD_cons_zero] at hl
        rw [hl] at this
        norm_num at this
  · intro g a i hg ha hi
    obtain rfl : g = 0 := Nat.lt_one_iff.1 hg
    obtain rfl : i = 0 := Nat.lt_one_iff.1 hi
    refine (slab_steady false 1 a).trans ?_
    simp [slab, slabData]
  · intro g i hg hi
    show (3 / 4 : ℚ) = ∑ a ∈ Finset.range 2, 1 * (1 / (1 + slabLeak a))
    rw [Finset.sum_range_succ, Finset.sum_range_one]
    norm_num [slabLeak]

/-- Two groups without leakage or scattering; fissions in the first, prompt neutrons in the first and delayed ones in the
    second. -/
def twoData : KMat ℚ where
  st := fun _ _ => 1
  sa := fun _ _ => 1
  sf := fun _ g => if g = 0 then 1 else 0
  nu := fun _ _ => 1
  nsf := fun _ _ => 0
  chi := fun _ g => if g = 0 then 1 else 0
  dc := fun _ _ => 0
  ss := fun _ _ _ => 0
  velocity := fun _ => 1
  lambda := fun _ => 1
  beta := fun _ _ => 1 / 2
  chid := fun _ _ g => if g = 0 then 0 else 1

def twoStream (_ : KMat ℚ) (_ : Nat → Nat → Nat → ℚ) (_ _ _ : Nat) : ℚ := 0

def twoSolve (S : KMat ℚ) (q : Nat → Nat → Nat → ℚ) (g i : Nat) : ℚ :=
  let f := q 0 0 i / (S.st 0 0 - S.chi 0 0)
  if g = 0 then f else (q g 0 i + S.chi 0 g * f) / S.st 0 g

def two : Sys ℚ where
  G := 2
  N := 1
  np := 1
  A := 1
  NV := 0
  mt := fun _ => 0
  w := fun _ => 1
  norm := 1
  multiply := true
  discrete := true
  noExtrap := false
  scheme := 1
  dt := 1
  k := 1
  maxIter := 1
  impl := fun _ _ => wrapped twoData
  ext := fun _ _ _ _ => 0
  solve := fun S q _ => (twoSolve S q, fun g _ i => twoSolve S q g i)
  rhs := fun _ _ _ _ _ => 0
  conv := fun _ _ => true

theorem two_S (o : Nat) (h : ℚ) (h1 : 1 ≤ o) (h6 : o ≤ 6) (hh : 0 < h) :
    let S := stepMat 1 o h 1 true twoData
    (∀ g, 0 < S.st 0 g) ∧ 0 < S.st 0 0 - S.chi 0 0 ∧ S.nsf 0 0 = 1 ∧ S.nsf 0 1 = 0 ∧ S.ss = fun _ _ _ => 0 := by
  intro S
  have e : ∀ g, S.st 0 g = 1 + bdf o 0 / (1 * h) := fun g => rfl
  have hb : (0 : ℚ) < bdf o 0 / (1 * h) := div_pos (bdf_pos o h1 h6) (by linarith)
  have hc : S.chi 0 0 = 1 / 2 := by
    have e1 : S.chi 0 0 = (List.range 1).foldl (fun c i => c + twoData.lambda i * twoData.chid 0 i 0 * h * twoData.beta 0 i /
        (bdf o 0 + h * twoData.lambda i)) ((1 - twoData.betaTotal 1 0) * twoData.chi 0 0) := rfl
    rw [e1, foldl_sum, Finset.sum_range_one, betaTotal_eq, Finset.sum_range_one]
    simp only [twoData, if_true]
    norm_num
  refine ⟨fun g => by rw [e]; linarith, by rw [e, hc]; linarith, ?_, ?_, rfl⟩
  · show (1 : ℚ) * ((if 0 = 0 then 1 else 0) / 1) = 1
    norm_num
  · show (1 : ℚ) * ((if 1 = 0 then 1 else 0) / 1) = 0
    norm_num

theorem two_resid (S : KMat ℚ) (hn : S.nsf 0 0 = 1) (hn1 : S.nsf 0 1 = 0) (hs : S.ss = fun _ _ _ => 0)
    (q : Nat → Nat → Nat → ℚ) (phi : Nat → Nat → ℚ) (psi : Nat → Nat → Nat → ℚ) (g a i : Nat) :
    resid two twoStream S q phi psi g a i = S.st 0 g * psi g a i - S.chi 0 g * phi 0 i - q g a i := by
  unfold resid twoStream
  simp only [two, hs, if_true, Finset.sum_range_succ, Finset.sum_range_zero, hn, hn1]
  ring

theorem two_solved : SolvedTo two twoStream (fun _ _ => twoData) 0 := by
  intro o h t P h1 h6 hh _ q s S
  obtain ⟨p1, p2, n0, n1, hss⟩ : (∀ g, 0 < S.st 0 g) ∧ 0 < S.st 0 0 - S.chi 0 0 ∧ S.nsf 0 0 = 1 ∧ S.nsf 0 1 = 0 ∧
    S.ss = fun _ _ _ => 0 := two_S o h h1 h6 hh
  refine ⟨fun g a i hg ha hi => ?_, fun g i hg hi => ?_⟩
  · obtain rfl : a = 0 := Nat.lt_one_iff.1 ha
    rw [two_resid S n0 n1 hss]
    show |S.st 0 g * twoSolve S q g i - S.chi 0 g * twoSolve S q 0 i - q g 0 i| ≤ 0
    have : S.st 0 g * twoSolve S q g i - S.chi 0 g * twoSolve S q 0 i - q g 0 i = 0 := by
      have h1 := p2.ne'
      have h2 := (p1 g).ne'
      unfold twoSolve
      by_cases h0 : g = 0
      · subst h0
        simp only [if_true]
        field_simp
        ring
      · simp only [h0, if_false, if_true]
        field_simp
        ring
    rw [this, abs_zero]
  · show |twoSolve S q g i - ∑ a ∈ Finset.range 1, (1 : ℚ) * twoSolve S q g i| ≤ 0
    rw [Finset.sum_range_one, one_mul, sub_self, abs_zero]

theorem two_unique : UniqueSol two twoStream twoData := by
  intro o h h1 h6 hh _ q phi psi phi' psi' S r1 t1 r2 t2
  obtain ⟨p1, p2, n0, n1, hss⟩ : (∀ g, 0 < S.st 0 g) ∧ 0 < S.st 0 0 - S.chi 0 0 ∧ S.nsf 0 0 = 1 ∧ S.nsf 0 1 = 0 ∧
    S.ss = fun _ _ _ => 0 := two_S o h h1 h6 hh
  have hone : ∀ f : Nat → ℚ, ∑ a ∈ Finset.range two.A, two.w a * f a = f 0 := by
    intro f
    show ∑ a ∈ Finset.range 1, (1 : ℚ) * f a = f 0
    rw [Finset.sum_range_one, one_mul]
  have h0 : ∀ i, i < two.N → phi 0 i = phi' 0 i := by
    intro i hi
    have e1 := r1 0 0 i two_pos one_pos hi
    have e2 := r2 0 0 i two_pos one_pos hi
    have e3 := t1 0 i two_pos hi
    have e4 := t2 0 i two_pos hi
    rw [two_resid S n0 n1 hss] at e1 e2
    rw [hone fun a => psi 0 a i] at e3
    rw [hone fun a => psi' 0 a i] at e4
    rw [← e3] at e1
    rw [← e4] at e2
    refine mul_left_cancel₀ p2.ne' ?_
    linarith
  have hpsi : ∀ g a i, g < two.G → a < two.A → i < two.N → psi g a i = psi' g a i := by
    intro g a i hg ha hi
    have e1 := r1 g a i hg ha hi
    have e2 := r2 g a i hg ha hi
    rw [two_resid S n0 n1 hss] at e1 e2
    rw [h0 i hi] at e1
    refine mul_left_cancel₀ (p1 g).ne' ?_
    linarith
  refine ⟨fun g i hg hi => ?_, hpsi⟩
  rw [t1 g i hg hi, t2 g i hg hi]
  exact Finset.sum_congr rfl fun a ha => by rw [hpsi g a i hg (Finset.mem_range.1 ha) hi]

theorem two_ready : Ready two (fun _ => 1) (fun _ => 1) (two.new twoData fun _ _ => 0) :=
  ⟨rfl, rfl, rfl, List.nodup_range⟩

def twoPhi (g _ : Nat) : ℚ := if g = 0 then 1 else 0

/-- **C126.**  The library's own critical state drifts when delayed neutrons have another spectrum. -/
theorem C126_spectrum_drift : ¬ C126ClaimFor fun x => x.discrete = true := by
  intro h
  have key := h two twoStream (fun _ _ => twoData) (fun _ => 1) (fun _ => 1) twoData rfl
    ⟨fun _ _ _ _ _ => rfl, fun _ _ => rfl, fun _ _ => rfl⟩
    (fun _ _ => one_pos) (fun _ _ => one_pos) (by decide) one_pos two_solved two_unique (fun _ _ => rfl)
    (fun _ _ => rfl) (fun _ => rfl) rfl twoPhi (fun g _ i => twoPhi g i) _ two_ready ?_ ?_ 1
  · have hrun : (two.transient twoPhi (fun g _ i => twoPhi g i) (two.new twoData fun _ _ => 0) 1).map
        (fun p => (p.2.getD 0 ⟨fun _ _ => 0, fun _ _ _ => 0, fun _ _ => 0, fun _ _ => 0⟩).phi 0 0) = some (2 / 3) := by
      decide +kernel
    cases ht : two.transient twoPhi (fun g _ i => twoPhi g i) (two.new twoData fun _ _ => 0) 1 with
    | none => rw [ht] at hrun; simp at hrun
    | some p =>
      rw [ht, Option.map_some] at hrun
      have hl := Option.some.inj hrun
      obtain ⟨r', l⟩ := p
      cases l with
      | nil => norm_num at hl
      | cons s l =>
        have := key r' (s :: l) ht s (List.mem_cons_self ..) 0 0 two_pos one_pos
        rw [List.getD_cons_zero] at hl
        rw [hl] at this
        norm_num [twoPhi] at this
  · intro g a i hg ha hi
    have hg : g < 2 := hg
    interval_cases g <;> simp [two, twoStream, twoData, twoPhi, production, Finset.sum_range_succ]
  · intro g i hg hi
    simp [two]

theorem C126_claim_fails : ¬ C126Claim := fun h =>
  C126_moments_drift fun x stream data V L D _ => h x stream data V L D trivial

/-- Feedback: one cell and group, a source, and a total cross section equal to the physics variable
    (unless negative), which grows in time. -/
def heat (scheme : Nat) : Sys ℚ where
  G := 1
  N := 1
  np := 0
  A := 1
  NV := 1
  mt := fun _ => 0
  w := fun _ => 1
  norm := 1
  multiply := false
  discrete := true
  noExtrap := false
  scheme := scheme
  dt := 2
  k := 1
  maxIter := 5
  impl := fun _ s _ => { slabData with st := fun _ _ => max (s.P 0 0) 0 }
  ext := fun _ _ _ _ => 2
  solve := fun S q _ => (fun g i => q g 0 i / S.st 0 g, fun g a i => q g a i / S.st 0 g)
  rhs := fun _ _ _ _ _ => 1
  conv := fun c s => decide (c.phi 0 0 = s.phi 0 0)

def heatData (_ : ℚ) (P : Nat → Nat → ℚ) : KMat ℚ := { slabData with st := fun _ _ => max (P 0 0) 0 }

theorem heat_timed (sc : Nat) : Timed (heat sc) heatData (fun _ => 1) (fun _ => 1) :=
  ⟨fun _ _ _ _ _ => rfl, fun _ _ => rfl, fun _ _ => rfl⟩

/-- With feedback, a midpoint step that its passes no longer change would satisfy the midpoint rule. -/
def C126MidpointClaim : Prop :=
  ∀ (x : Sys ℚ) (stream : (Nat → Nat → Nat → ℚ) → Nat → Nat → Nat → ℚ) (data : ℚ → (Nat → Nat → ℚ) → KMat ℚ) (V L : Nat → ℚ),
    Timed x data V L → (∀ g, g < x.G → 0 < V g) → (∀ p, p < x.np → 0 < L p) → x.discrete = true → x.multiply = false →
    SolvedTo x (fun _ => stream) data 0 →
    ∀ t h, 0 < h → h = x.dt / 2 → ∀ (r r' : Run ℚ), r.mat.velocity = V → x.pass t h 1 true r = some r' → r'.cur = r.cur →
    let m : Sol ℚ := ⟨fun g i => (r'.cur.phi g i + (r.at 0).phi g i) / 2, fun g a i => (r'.cur.psi g a i + (r.at 0).psi g a i) / 2,
      fun p i => (r'.cur.C p i + (r.at 0).C p i) / 2, fun v e => (r'.cur.P v e + (r.at 0).P v e) / 2⟩
    ∀ g a i, g < x.G → a < x.A → i < x.N →
      stepResid x stream (data (t - h) m.P) 1 h (t - h) (fun _ => r.at 0) m g a i = 0

/-- The stepper in the first step, after the passes have settled. -/
def heatRun : Run ℚ :=
  let s0 : Sol ℚ := ⟨fun _ _ => 1, fun _ _ _ => 1, fun _ _ => 0, fun _ _ => 0⟩
  ⟨slabData, ⟨fun _ _ => 1, fun _ _ _ => 1, fun _ _ => 0, fun v _ => if v = 0 then 2 else 0⟩, (Hist.new 1 s0).store s0⟩

/-- That is what the stepper reaches from there: flux 1 and physics 2 after the step. -/
example : ((heat 0).transient (fun _ _ => 1) (fun _ _ _ => 1) ((heat 0).new slabData fun _ _ => 0) 1).map
    (fun p => (p.1.cur.phi 0 0, p.1.cur.psi 0 0 0, p.1.cur.P 0 0)) = some (1, 1, 2) := by decide +kernel

/-- **C126.**  The material is evaluated with the physics at the end of the step, although the step is taken at the middle. -/
theorem C126_midpoint_fails : ¬ C126MidpointClaim := by
  intro h
  have hp := pass_eq (heat 0) heatData (fun _ => 1) (fun _ => 1) (heat_timed 0) (fun _ _ => one_pos) (fun _ _ => one_pos)
    1 1 2 true heatRun rfl rfl
  have hcur : fin (heat 0) true (advance (heat 0) heatData 1 1 (if true then 2 - 1 else 2) heatRun.at heatRun.cur)
      (heatRun.at 0) = heatRun.cur := by
    have e : ∀ s : Sol ℚ, s.phi = heatRun.cur.phi → s.psi = heatRun.cur.psi → s.C = heatRun.cur.C → s.P = heatRun.cur.P →
        s = heatRun.cur := by
      intro s a b c d; cases s; cases hq : heatRun.cur; rw [hq] at a b c d; simp only at a b c d; rw [a, b, c, d]
    refine e _ ?_ ?_ ?_ ?_
    · funext g i
      norm_num [fin, Sys.extrapolate, extrap, advance, Sys.physics, heat, heatRun, heatData, slabData, stepMat, setNsf, adjust,
        Sys.source, discreteSource, discreteTerm, bdf, bdfRows, Run.at, Hist.store, Hist.new, List.range_succ]
    · funext g a i
      norm_num [fin, Sys.extrapolate, extrap, advance, Sys.physics, heat, heatRun, heatData, slabData, stepMat, setNsf, adjust,
        Sys.source, discreteSource, discreteTerm, bdf, bdfRows, Run.at, Hist.store, Hist.new, List.range_succ]
    · funext p i
      norm_num [fin, Sys.extrapolate, extrap, advance, Sys.physics, heat, heatRun, Sys.delayed]
    · funext v el
      by_cases hv : v = 0
      · subst hv
        norm_num [fin, Sys.extrapolate, extrap, advance, Sys.physics, heat, heatRun, updatePhysics, bdf, bdfRows, Run.at,
          Hist.store, Hist.new, List.range_succ]
      · norm_num [fin, Sys.extrapolate, extrap, advance, Sys.physics, heat, heatRun, hv]
  have key := h (heat 0) (twoStream slabData) heatData (fun _ => 1) (fun _ => 1) (heat_timed 0) (fun _ _ => one_pos)
    (fun _ _ => one_pos) rfl rfl ?_ 2 1 one_pos (by norm_num [heat]) heatRun _ rfl hp hcur 0 0 0 one_pos one_pos one_pos
  · rw [hcur] at key
    revert key
    norm_num [stepResid, heat, heatRun, heatData, slabData, twoStream, past, bdf, bdfRows, Run.at, Hist.store, Hist.new,
      Finset.sum_range_succ]
  · intro o h t P h1 h6 hh _ q s S
    have hS : ∀ g, S.st 0 g ≠ 0 := by
      intro g
      have e : S.st 0 g = max (P 0 0) 0 + bdf o 0 / (1 * h) := rfl
      have hb : (0 : ℚ) < bdf o 0 / (1 * h) := div_pos (bdf_pos o h1 h6) (by linarith)
      have hm : 0 ≤ max (P 0 0) 0 := le_max_right _ _
      rw [e]; exact (by linarith : (0 : ℚ) < _).ne'
    refine ⟨fun g a i hg ha hi => ?_, fun g i hg hi => ?_⟩
    · have e : resid (heat 0) (fun _ => twoStream slabData) S q ((heat 0).solve S q s).1 ((heat 0).solve S q s).2 g a i =
          S.st 0 g * (q g a i / S.st 0 g) - q g a i := by
        have hss : S.ss = fun _ _ _ => 0 := rfl
        unfold resid twoStream
        simp only [heat, hss, Bool.false_eq_true, if_false, zero_mul, Finset.sum_const_zero, add_zero, mul_zero, sub_zero,
          zero_add]
      rw [e, mul_div_cancel₀ _ (hS g), sub_self, abs_zero]
    · have e : ∑ a ∈ Finset.range 1, (1 : ℚ) * (q g a i / S.st 0 g) = q g 0 i / S.st 0 g := by
        rw [Finset.sum_range_one, one_mul]
      show |q g 0 i / S.st 0 g - ∑ a ∈ Finset.range 1, (1 : ℚ) * (q g a i / S.st 0 g)| ≤ 0
      rw [e, sub_self, abs_zero]

/-- Solving again from the same fluxes would give the same transient. -/
def C126RepeatClaim : Prop :=
  ∀ (x : Sys ℚ) (data : ℚ → (Nat → Nat → ℚ) → KMat ℚ) (V L : Nat → ℚ), Timed x data V L → (∀ g, g < x.G → 0 < V g) →
    (∀ p, p < x.np → 0 < L p) → ∀ phi psi r, Ready x V L r → ∀ n r' l, x.transient phi psi r n = some (r', l) →
    (x.transient phi psi r' n).map (·.2) = some l

/-- **C126.**  With physics variables it does not: the second transient starts from the physics the first one left. -/
theorem C126_repeat_fails : ¬ C126RepeatClaim := by
  intro h
  have hrun : ((heat 1).transient (fun _ _ => 1) (fun _ _ _ => 1) ((heat 1).new slabData fun _ _ => 0) 1).bind (fun p =>
      ((heat 1).transient (fun _ _ => 1) (fun _ _ _ => 1) p.1 1).map fun q =>
        (p.2.map fun s => s.P 0 0, q.2.map fun s => s.P 0 0)) = some ([2, 0], [4, 2]) := by decide +kernel
  cases ht : (heat 1).transient (fun _ _ => 1) (fun _ _ _ => 1) ((heat 1).new slabData fun _ _ => 0) 1 with
  | none => rw [ht] at hrun; simp at hrun
  | some p =>
    obtain ⟨r', l⟩ := p
    have key := h (heat 1) heatData (fun _ => 1) (fun _ => 1) (heat_timed 1) (fun _ _ => one_pos) (fun _ _ => one_pos)
      _ _ _ ⟨rfl, rfl, rfl, List.nodup_range⟩ 1 r' l ht
    rw [ht, Option.bind_some] at hrun
    cases ht2 : (heat 1).transient (fun _ _ => 1) (fun _ _ _ => 1) r' 1 with
    | none => rw [ht2] at key; simp at key
    | some q =>
      rw [ht2, Option.map_some] at key hrun
      obtain rfl : q.2 = l := Option.some.inj key
      have := Option.some.inj hrun
      have h1 := congrArg Prod.fst this
      have h2 := congrArg Prod.snd this
      simp only at h1 h2
      rw [h1] at h2
      norm_num at h2

end Detran.Kin
