import Verif.Props.Transient

/-!
# Signs and growth of backward Euler transients (C135)
-/

namespace Detran.Kin

section main
variable {K : Type} [Field K] [LinearOrder K] [IsStrictOrderedRing K]

/-! ## Specification -/

/-- No negative fluxes (angular ones if they are stored) and precursors (if they are followed). -/
structure Sol.NonNeg (x : Sys K) (s : Sol K) : Prop where
  phi : ∀ g < x.G, ∀ i < x.N, 0 ≤ s.phi g i
  psi : x.discrete = true → ∀ g < x.G, ∀ a < x.A, ∀ i < x.N, 0 ≤ s.psi g a i
  C : x.multiply = true → ∀ p < x.np, ∀ i < x.N, 0 ≤ s.C p i

/-- Nowhere more than `c` times the group fluxes `v` and precursors `W`. -/
structure Sol.Under (x : Sys K) (v : Nat → K) (W : Nat → Nat → K) (c : K) (s : Sol K) : Prop where
  phi : ∀ g < x.G, ∀ i < x.N, s.phi g i ≤ c * v g
  psi : x.discrete = true → ∀ g < x.G, ∀ a < x.A, ∀ i < x.N, s.psi g a i ≤ x.norm * (c * v g)
  C : x.multiply = true → ∀ p < x.np, ∀ i < x.N, s.C p i ≤ c * W p i

/-- Nowhere less. -/
structure Sol.Over (x : Sys K) (v : Nat → K) (W : Nat → Nat → K) (c : K) (s : Sol K) : Prop where
  phi : ∀ g < x.G, ∀ i < x.N, c * v g ≤ s.phi g i
  psi : x.discrete = true → ∀ g < x.G, ∀ a < x.A, ∀ i < x.N, x.norm * (c * v g) ≤ s.psi g a i
  C : x.multiply = true → ∀ p < x.np, ∀ i < x.N, c * W p i ≤ s.C p i

/-- Signs of nuclear data. -/
structure Physical (x : Sys K) (D : KMat K) : Prop where
  fission : ∀ g < x.G, ∀ i < x.N, 0 ≤ D.nu (x.mt i) g * D.sf (x.mt i) g
  velocity : ∀ g < x.G, 0 < D.velocity g
  lambda : ∀ p < x.np, 0 ≤ D.lambda p
  beta : ∀ p < x.np, ∀ i < x.N, 0 ≤ D.beta (x.mt i) p
  chid : ∀ p < x.np, ∀ g < x.G, ∀ i < x.N, 0 ≤ D.chid (x.mt i) p g

/-- Neutrons scattered, emitted promptly and emitted by precursors `W` into group `g`, at the flat fluxes `v`. -/
def feed (x : Sys K) (D : KMat K) (v : Nat → K) (W : Nat → Nat → K) (g i : Nat) : K :=
  ∑ g' ∈ Finset.range x.G, D.ss (x.mt i) g g' * v g' +
    if x.multiply then
      (1 - ∑ p ∈ Finset.range x.np, D.beta (x.mt i) p) * D.chi (x.mt i) g * production x D (fun g _ => v g) i +
        ∑ p ∈ Finset.range x.np, D.lambda p * D.chid (x.mt i) p g * W p i
    else 0

/-- Without streaming, `v` and `W` would grow at most at the rate `om` in every medium: point kinetics.  `E` is given. -/
structure Slower (x : Sys K) (D : KMat K) (om : K) (v : Nat → K) (W : Nat → Nat → K) (E : Nat → Nat → Nat → K) : Prop where
  flux : ∀ g < x.G, ∀ a < x.A, ∀ i < x.N,
    x.norm * feed x D v W g i + E g a i ≤ x.norm * ((D.st (x.mt i) g + om / D.velocity g) * v g)
  prec : x.multiply = true → ∀ p < x.np, ∀ i < x.N,
    D.beta (x.mt i) p * production x D (fun g _ => v g) i ≤ (D.lambda p + om) * W p i

/-- They would grow at least at that rate. -/
structure Faster (x : Sys K) (D : KMat K) (om : K) (v : Nat → K) (W : Nat → Nat → K) (E : Nat → Nat → Nat → K) : Prop where
  flux : ∀ g < x.G, ∀ a < x.A, ∀ i < x.N,
    x.norm * ((D.st (x.mt i) g + om / D.velocity g) * v g) ≤ x.norm * feed x D v W g i + E g a i
  prec : x.multiply = true → ∀ p < x.np, ∀ i < x.N,
    (D.lambda p + om) * W p i ≤ D.beta (x.mt i) p * production x D (fun g _ => v g) i

/-- What the flat fluxes `v` lose by collisions beyond what they gain by scattering, fission and the source `q`, with
    material `S`. -/
def surplus (x : Sys K) (S : KMat K) (q : Nat → Nat → Nat → K) (v : Nat → K) (g a i : Nat) : K :=
  resid x (fun _ _ _ _ _ => 0) S q (fun g _ => v g) (fun g _ _ => x.norm * v g) g a i

/-- Unless angular fluxes are stored, sources are the same in all directions. -/
def Fits (x : Sys K) (q : Nat → Nat → Nat → K) : Prop :=
  x.discrete = false → ∀ g < x.G, ∀ a < x.A, ∀ i < x.N, q g a i = q g 0 i

/-- Multigroup solves with material `S` give no negative flux for sources without negative values, and no more than flat
    fluxes that lose more than they gain. -/
structure Compares (x : Sys K) (S : KMat K) : Prop where
  pos : ∀ q s, Fits x q → (∀ g < x.G, ∀ a < x.A, ∀ i < x.N, 0 ≤ q g a i) →
    (∀ g < x.G, ∀ i < x.N, 0 ≤ (x.solve S q s).1 g i) ∧
      (x.discrete = true → ∀ g < x.G, ∀ a < x.A, ∀ i < x.N, 0 ≤ (x.solve S q s).2 g a i)
  above : ∀ q s v, Fits x q → (∀ g < x.G, 0 ≤ v g) → (∀ g < x.G, ∀ a < x.A, ∀ i < x.N, 0 ≤ surplus x S q v g a i) →
    (∀ g < x.G, ∀ i < x.N, (x.solve S q s).1 g i ≤ v g) ∧
      (x.discrete = true → ∀ g < x.G, ∀ a < x.A, ∀ i < x.N, (x.solve S q s).2 g a i ≤ x.norm * v g)

/-- Nothing leaks: they give no less than flat fluxes that gain more than they lose. -/
def Closed (x : Sys K) (S : KMat K) : Prop :=
  ∀ q s v, Fits x q → (∀ g < x.G, 0 ≤ v g) → (∀ g < x.G, ∀ a < x.A, ∀ i < x.N, surplus x S q v g a i ≤ 0) →
    (∀ g < x.G, ∀ i < x.N, v g ≤ (x.solve S q s).1 g i) ∧
      (x.discrete = true → ∀ g < x.G, ∀ a < x.A, ∀ i < x.N, x.norm * v g ≤ (x.solve S q s).2 g a i)

/-- A backward Euler stepper: first order, positive step, at least one pass per step, angular norm and eigenvalue positive,
    external sources that suit it. -/
structure Euler (x : Sys K) : Prop where
  scheme : x.scheme = 1
  dt : 0 < x.dt
  iter : 1 ≤ x.maxIter
  norm : 0 < x.norm
  k : 0 < x.k
  fits : ∀ t, Fits x (x.ext t)

/-! ## One step -/

omit [LinearOrder K] [IsStrictOrderedRing K] in
theorem bdf10 : (bdf 1 0 : K) = 1 := by simp [bdf, bdfRows]
omit [LinearOrder K] [IsStrictOrderedRing K] in
theorem bdf11 : (bdf 1 1 : K) = 1 := by simp [bdf, bdfRows]

omit [LinearOrder K] [IsStrictOrderedRing K] in
theorem newC_one (x : Sys K) (D : KMat K) {h : K} (hh : h ≠ 0) (old : Nat → Sol K) (phi : Nat → Nat → K) (p i : Nat)  :
    newC x D 1 h old phi p i = (h * (D.beta (x.mt i) p * production x D phi i) + (old 0).C p i) / (1 + h * D.lambda p) := by
  unfold newC
  rw [updatePrecursor_eq, Finset.sum_range_one, bdf10, zero_add, bdf11]
  field_simp

theorem production_mono (x : Sys K) (D : KMat K) (hD : Physical x D) (hk : 0 < x.k) {phi phi' : Nat → Nat → K} {i : Nat}
    (hi : i < x.N) (h : ∀ g < x.G, phi g i ≤ phi' g i) : production x D phi i ≤ production x D phi' i :=
  div_le_div_of_nonneg_right (Finset.sum_le_sum fun g hg =>
    mul_le_mul_of_nonneg_left (h g (Finset.mem_range.1 hg)) (hD.fission g (Finset.mem_range.1 hg) i hi)) hk.le

omit [LinearOrder K] [IsStrictOrderedRing K] in
theorem production_smul (x : Sys K) (D : KMat K) (c : K) (v : Nat → K) (i : Nat) :
    production x D (fun g _ => c * v g) i = c * production x D (fun g _ => v g) i := by
  unfold production
  rw [← mul_div_assoc, Finset.mul_sum]
  congr 1
  exact Finset.sum_congr rfl fun g _ => by ring

theorem production_nonneg (x : Sys K) (D : KMat K) (hD : Physical x D) (hk : 0 < x.k) {phi : Nat → Nat → K} {i : Nat}
    (hi : i < x.N) (h : ∀ g < x.G, 0 ≤ phi g i) : 0 ≤ production x D phi i :=
  div_nonneg (Finset.sum_nonneg fun g hg =>
    mul_nonneg (hD.fission g (Finset.mem_range.1 hg) i hi) (h g (Finset.mem_range.1 hg))) hk.le

omit [LinearOrder K] [IsStrictOrderedRing K] in
theorem source_fits (x : Sys K) (S : KMat K) (h t : K) (old : Nat → Sol K) (he : Fits x (x.ext t)) :
    Fits x (x.source S 1 h t old) := by
  intro hd g hg a ha i hi
  rw [source_eq, source_eq, he hd g hg a ha i hi]
  have : ∀ s, past x s g a i = past x s g 0 i := fun s => by
    unfold past
    rw [hd, if_neg Bool.false_ne_true, if_neg Bool.false_ne_true]
  simp only [this]

omit [LinearOrder K] [IsStrictOrderedRing K] in
/-- The surplus of `c v` in the problem of a step: point kinetics. -/
theorem surplus_eq (x : Sys K) (D : KMat K) {h : K} (hh : h ≠ 0) (t : K) (old : Nat → Sol K) (c : K) (v : Nat → K) (g a i : Nat) :
    surplus x (stepMat x.np 1 h x.k true D) (x.source (stepMat x.np 1 h x.k true D) 1 h t old) (fun g => c * v g) g a i =
      (x.norm * (c * v g) - past x (old 0) g a i) / (D.velocity g * h) + D.st (x.mt i) g * (x.norm * (c * v g)) -
        x.norm * (c * ∑ g' ∈ Finset.range x.G, D.ss (x.mt i) g g' * v g' +
          if x.multiply then
            c * ((1 - ∑ p ∈ Finset.range x.np, D.beta (x.mt i) p) * D.chi (x.mt i) g * production x D (fun g _ => v g) i) +
              ∑ p ∈ Finset.range x.np, D.lambda p * D.chid (x.mt i) p g * newC x D 1 h old (fun g _ => c * v g) p i
          else 0) - x.ext t g a i := by
  have key := resid_eq x (fun _ _ _ _ _ => 0) D 1 h t hh old
    ⟨fun g _ => c * v g, fun g _ _ => x.norm * (c * v g), newC x D 1 h old fun g _ => c * v g, fun _ _ => 0⟩ g a i (fun _ _ _ => rfl)
  dsimp only at key
  unfold surplus
  rw [key]
  unfold stepResid
  dsimp only
  rw [bdf10, Finset.sum_range_one, zero_add, bdf11, production_smul, Finset.mul_sum]
  have e : ∑ g' ∈ Finset.range x.G, D.ss (x.mt i) g g' * (c * v g') = ∑ g' ∈ Finset.range x.G, c * (D.ss (x.mt i) g g' * v g') :=
    Finset.sum_congr rfl fun g' _ => by ring
  rw [e]
  split <;> ring

theorem advance_phi (x : Sys K) (data : K → (Nat → Nat → K) → KMat K) (h t : K) (old : Nat → Sol K) (c : Sol K) :
    let S := stepMat x.np 1 h x.k true (data t c.P)
    (advance x data 1 h t old c).phi = (x.solve S (x.source S 1 h t old) c).1 ∧
      (advance x data 1 h t old c).psi = (x.solve S (x.source S 1 h t old) c).2 ∧
      (x.multiply = true → ∀ p < x.np, ∀ i, (advance x data 1 h t old c).C p i =
        newC x (data t c.P) 1 h old (advance x data 1 h t old c).phi p i) := by
  refine ⟨rfl, rfl, fun hm p hp i => ?_⟩
  have hd : x.delayed = true := (delayed_iff x).2 ⟨hm, by omega⟩
  unfold advance Sys.physics
  simp only [hd, if_true]

theorem advance_nonneg (x : Sys K) (data : K → (Nat → Nat → K) → KMat K) {h t : K} (hh : 0 < h) (hn : 0 ≤ x.norm) (hk : 0 < x.k)
    (old : Nat → Sol K) (c : Sol K) (hD : Physical x (data t c.P)) (hS : Compares x (stepMat x.np 1 h x.k true (data t c.P)))
    (hf : Fits x (x.ext t)) (he : ∀ g < x.G, ∀ a < x.A, ∀ i < x.N, 0 ≤ x.ext t g a i) (ho : (old 0).NonNeg x) :
    (advance x data 1 h t old c).NonNeg x := by
  obtain ⟨e1, e2, e3⟩ := advance_phi x data h t old c
  generalize hDe : data t c.P = D at *
  have hsrc : ∀ g < x.G, ∀ a < x.A, ∀ i < x.N, 0 ≤ x.source (stepMat x.np 1 h x.k true D) 1 h t old g a i := by
    intro g hg a ha i hi
    rw [source_eq, discreteSource_eq, Finset.sum_range_one, bdf10, zero_add, bdf11]
    have hp : 0 ≤ past x (old 0) g a i := by
      unfold past
      split
      · rename_i hd
        exact ho.psi hd g hg a ha i hi
      · exact mul_nonneg hn (ho.phi g hg i hi)
    have hv : 0 < D.velocity g := hD.velocity g hg
    refine add_nonneg (add_nonneg (mul_nonneg (div_nonneg (by positivity) hv.le) hp) (mul_nonneg hn (Finset.sum_nonneg fun p hp => ?_)))
      (he g hg a ha i hi)
    have hp := Finset.mem_range.1 hp
    cases hm : x.multiply with
    | false => rw [hm] at hp; exact absurd hp (by simp)
    | true =>
      rw [hm, if_pos rfl] at hp
      have hl : 0 ≤ D.lambda p := hD.lambda p hp
      refine mul_nonneg (mul_nonneg (div_nonneg (by rw [one_mul]; exact hl) ?_) (hD.chid p hp g hg i hi)) (ho.C hm p hp i hi)
      exact add_nonneg zero_le_one (mul_nonneg hh.le hl)
  obtain ⟨p1, p2⟩ := hS.pos _ c (source_fits x _ h t old hf) hsrc
  refine ⟨fun g hg i hi => ?_, fun hd g hg a ha i hi => ?_, fun hm p hp i hi => ?_⟩
  · rw [e1]; exact p1 g hg i hi
  · rw [e2]; exact p2 hd g hg a ha i hi
  · rw [e3 hm p hp i, newC_one x D hh.ne']
    have hl : 0 ≤ D.lambda p := hD.lambda p hp
    refine div_nonneg (add_nonneg (mul_nonneg hh.le (mul_nonneg (hD.beta p hp i hi) (production_nonneg x D hD hk hi fun g hg => ?_)))
      (ho.C hm p hp i hi)) (by positivity)
    rw [e1]
    exact p1 g hg i hi

theorem newC_under (x : Sys K) (D : KMat K) {h om th c : K} (hh : 0 < h) (hth : th * (1 - om * h) = 1) (hth0 : 0 < th) (hc : 0 ≤ c)
    {v : Nat → K} {W : Nat → Nat → K} (old : Nat → Sol K) {p i : Nat} (hl : 0 ≤ D.lambda p)
    (hW : D.beta (x.mt i) p * production x D (fun g _ => v g) i ≤ (D.lambda p + om) * W p i) (ho : (old 0).C p i ≤ c * W p i) :
    newC x D 1 h old (fun g _ => th * c * v g) p i ≤ th * c * W p i := by
  rw [newC_one x D hh.ne', production_smul, div_le_iff₀ (by positivity)]
  have h1 : h * (D.beta (x.mt i) p * (th * c * production x D (fun g _ => v g) i)) ≤ h * (th * c) * ((D.lambda p + om) * W p i) := by
    have := mul_le_mul_of_nonneg_left hW (show 0 ≤ h * (th * c) by positivity)
    linarith
  have h2 : c * W p i = th * (1 - om * h) * (c * W p i) := by rw [hth, one_mul]
  have : h * (th * c) * ((D.lambda p + om) * W p i) + c * W p i = th * c * W p i * (1 + h * D.lambda p) := by
    rw [h2]; ring
  linarith

theorem newC_over (x : Sys K) (D : KMat K) {h om th c : K} (hh : 0 < h) (hth : th * (1 - om * h) = 1) (hth0 : 0 < th) (hc : 0 ≤ c)
    {v : Nat → K} {W : Nat → Nat → K} (old : Nat → Sol K) {p i : Nat} (hl : 0 ≤ D.lambda p)
    (hW : (D.lambda p + om) * W p i ≤ D.beta (x.mt i) p * production x D (fun g _ => v g) i) (ho : c * W p i ≤ (old 0).C p i) :
    th * c * W p i ≤ newC x D 1 h old (fun g _ => th * c * v g) p i := by
  rw [newC_one x D hh.ne', production_smul, le_div_iff₀ (by positivity)]
  have h1 : h * (th * c) * ((D.lambda p + om) * W p i) ≤ h * (D.beta (x.mt i) p * (th * c * production x D (fun g _ => v g) i)) := by
    have := mul_le_mul_of_nonneg_left hW (show 0 ≤ h * (th * c) by positivity)
    linarith
  have h2 : c * W p i = th * (1 - om * h) * (c * W p i) := by rw [hth, one_mul]
  have : h * (th * c) * ((D.lambda p + om) * W p i) + c * W p i = th * c * W p i * (1 + h * D.lambda p) := by
    rw [h2]; ring
  linarith

omit [LinearOrder K] [IsStrictOrderedRing K] in
theorem growth_identity {n c th om v V h : K} (hV : V ≠ 0) (hh : h ≠ 0) (hth : th * (1 - om * h) = 1) :
    (n * (th * c * v) - n * (c * v)) / (V * h) = n * (th * c * (om / V * v)) := by
  have : n * (c * v) = n * (th * (1 - om * h) * c * v) := by rw [hth, one_mul]
  rw [this]
  field_simp
  ring

theorem newC_mono (x : Sys K) (D : KMat K) (hD : Physical x D) (hk : 0 < x.k) {h : K} (hh : 0 < h) (old : Nat → Sol K)
    {phi phi' : Nat → Nat → K} {p i : Nat} (hp : p < x.np) (hi : i < x.N) (hle : ∀ g < x.G, phi g i ≤ phi' g i) :
    newC x D 1 h old phi p i ≤ newC x D 1 h old phi' p i := by
  have hl : 0 ≤ D.lambda p := hD.lambda p hp
  rw [newC_one x D hh.ne', newC_one x D hh.ne']
  refine div_le_div_of_nonneg_right (add_le_add (mul_le_mul_of_nonneg_left (mul_le_mul_of_nonneg_left
    (production_mono x D hD hk hi hle) (hD.beta p hp i hi)) hh.le) le_rfl) (by positivity)

theorem advance_under (x : Sys K) (data : K → (Nat → Nat → K) → KMat K) {h t om th c : K} (hh : 0 < h) (hn : 0 < x.norm)
    (hk : 0 < x.k) (hth : th * (1 - om * h) = 1) (hth0 : 0 < th) (hc : 0 ≤ c) (old : Nat → Sol K) (s : Sol K)
    (hD : Physical x (data t s.P)) (hS : Compares x (stepMat x.np 1 h x.k true (data t s.P))) {v : Nat → K} {W : Nat → Nat → K}
    {E : Nat → Nat → Nat → K} (hv : ∀ g < x.G, 0 ≤ v g) (hpk : Slower x (data t s.P) om v W E)
    (hf : Fits x (x.ext t)) (he : ∀ g < x.G, ∀ a < x.A, ∀ i < x.N, x.ext t g a i ≤ th * c * E g a i) (ho : (old 0).Under x v W c) :
    (advance x data 1 h t old s).Under x v W (th * c) := by
  obtain ⟨e1, e2, e3⟩ := advance_phi x data h t old s
  generalize hDe : data t s.P = D at *
  have hnew : x.multiply = true → ∀ p < x.np, ∀ i < x.N, newC x D 1 h old (fun g _ => th * c * v g) p i ≤ th * c * W p i :=
    fun hm p hp i hi => newC_under x D hh hth hth0 hc old (hD.lambda p hp) (hpk.prec hm p hp i hi) (ho.C hm p hp i hi)
  obtain ⟨p1, p2⟩ := hS.above (x.source (stepMat x.np 1 h x.k true D) 1 h t old) s (fun g => th * c * v g)
    (source_fits x _ h t old hf) (fun g hg => mul_nonneg (by positivity) (hv g hg)) fun g hg a ha i hi => by
      rw [surplus_eq x D hh.ne']
      have hp : past x (old 0) g a i ≤ x.norm * (c * v g) := by
        unfold past
        split
        · rename_i hd
          exact ho.psi hd g hg a ha i hi
        · exact mul_le_mul_of_nonneg_left (ho.phi g hg i hi) hn.le
      have hV : 0 < D.velocity g := hD.velocity g hg
      have h1 : x.norm * (th * c * (om / D.velocity g * v g)) ≤ (x.norm * (th * c * v g) - past x (old 0) g a i) / (D.velocity g * h) := by
        rw [← growth_identity hV.ne' hh.ne' hth]
        exact div_le_div_of_nonneg_right (by linarith) (by positivity)
      have h2 := mul_le_mul_of_nonneg_left (hpk.flux g hg a ha i hi) (show 0 ≤ th * c by positivity)
      have h3 := he g hg a ha i hi
      unfold feed at h2
      cases hm : x.multiply with
      | false =>
        simp only [hm, Bool.false_eq_true, if_false, add_zero] at h2 ⊢
        linarith
      | true =>
        simp only [hm, if_true] at h2 ⊢
        have h4 : ∑ p ∈ Finset.range x.np, D.lambda p * D.chid (x.mt i) p g * newC x D 1 h old (fun g _ => th * c * v g) p i ≤
            th * c * ∑ p ∈ Finset.range x.np, D.lambda p * D.chid (x.mt i) p g * W p i := by
          rw [Finset.mul_sum]
          refine Finset.sum_le_sum fun p hp => ?_
          have hp := Finset.mem_range.1 hp
          have := mul_le_mul_of_nonneg_left (hnew hm p hp i hi) (mul_nonneg (hD.lambda p hp) (hD.chid p hp g hg i hi))
          linarith
        have h5 := mul_le_mul_of_nonneg_left h4 hn.le
        linarith
  refine ⟨fun g hg i hi => ?_, fun hd g hg a ha i hi => ?_, fun hm p hp i hi => ?_⟩
  · rw [e1]; exact p1 g hg i hi
  · rw [e2]; exact p2 hd g hg a ha i hi
  · rw [e3 hm p hp i]
    exact (newC_mono x D hD hk hh old hp hi fun g hg => by rw [e1]; exact p1 g hg i hi).trans (hnew hm p hp i hi)

theorem advance_over (x : Sys K) (data : K → (Nat → Nat → K) → KMat K) {h t om th c : K} (hh : 0 < h) (hn : 0 < x.norm)
    (hk : 0 < x.k) (hth : th * (1 - om * h) = 1) (hth0 : 0 < th) (hc : 0 ≤ c) (old : Nat → Sol K) (s : Sol K)
    (hD : Physical x (data t s.P)) (hS : Closed x (stepMat x.np 1 h x.k true (data t s.P))) {v : Nat → K} {W : Nat → Nat → K}
    {E : Nat → Nat → Nat → K} (hv : ∀ g < x.G, 0 ≤ v g) (hpk : Faster x (data t s.P) om v W E)
    (hf : Fits x (x.ext t)) (he : ∀ g < x.G, ∀ a < x.A, ∀ i < x.N, th * c * E g a i ≤ x.ext t g a i) (ho : (old 0).Over x v W c) :
    (advance x data 1 h t old s).Over x v W (th * c) := by
  obtain ⟨e1, e2, e3⟩ := advance_phi x data h t old s
  generalize hDe : data t s.P = D at *
  have hnew : x.multiply = true → ∀ p < x.np, ∀ i < x.N, th * c * W p i ≤ newC x D 1 h old (fun g _ => th * c * v g) p i :=
    fun hm p hp i hi => newC_over x D hh hth hth0 hc old (hD.lambda p hp) (hpk.prec hm p hp i hi) (ho.C hm p hp i hi)
  obtain ⟨p1, p2⟩ := hS (x.source (stepMat x.np 1 h x.k true D) 1 h t old) s (fun g => th * c * v g)
    (source_fits x _ h t old hf) (fun g hg => mul_nonneg (by positivity) (hv g hg)) fun g hg a ha i hi => by
      rw [surplus_eq x D hh.ne']
      have hp : x.norm * (c * v g) ≤ past x (old 0) g a i := by
        unfold past
        split
        · rename_i hd
          exact ho.psi hd g hg a ha i hi
        · exact mul_le_mul_of_nonneg_left (ho.phi g hg i hi) hn.le
      have hV : 0 < D.velocity g := hD.velocity g hg
      have h1 : (x.norm * (th * c * v g) - past x (old 0) g a i) / (D.velocity g * h) ≤ x.norm * (th * c * (om / D.velocity g * v g)) := by
        rw [← growth_identity hV.ne' hh.ne' hth]
        exact div_le_div_of_nonneg_right (by linarith) (by positivity)
      have h2 := mul_le_mul_of_nonneg_left (hpk.flux g hg a ha i hi) (show 0 ≤ th * c by positivity)
      have h3 := he g hg a ha i hi
      unfold feed at h2
      cases hm : x.multiply with
      | false =>
        simp only [hm, Bool.false_eq_true, if_false, add_zero] at h2 ⊢
        linarith
      | true =>
        simp only [hm, if_true] at h2 ⊢
        have h4 : th * c * ∑ p ∈ Finset.range x.np, D.lambda p * D.chid (x.mt i) p g * W p i ≤
            ∑ p ∈ Finset.range x.np, D.lambda p * D.chid (x.mt i) p g * newC x D 1 h old (fun g _ => th * c * v g) p i := by
          rw [Finset.mul_sum]
          refine Finset.sum_le_sum fun p hp => ?_
          have hp := Finset.mem_range.1 hp
          have := mul_le_mul_of_nonneg_left (hnew hm p hp i hi) (mul_nonneg (hD.lambda p hp) (hD.chid p hp g hg i hi))
          linarith
        have h5 := mul_le_mul_of_nonneg_left h4 hn.le
        linarith
  refine ⟨fun g hg i hi => ?_, fun hd g hg a ha i hi => ?_, fun hm p hp i hi => ?_⟩
  · rw [e1]; exact p1 g hg i hi
  · rw [e2]; exact p2 hd g hg a ha i hi
  · rw [e3 hm p hp i]
    exact (hnew hm p hp i hi).trans (newC_mono x D hD hk hh old hp hi fun g hg => by rw [e1]; exact p1 g hg i hi)

/-! ## All steps -/

/-- What holds of the initial solution and passes from each to the next holds of the solutions of the transient. -/
theorem euler_induct (x : Sys K) (hx1 : Euler x) (data : K → (Nat → Nat → K) → KMat K) (V L : Nat → K) (hx : Timed x data V L)
    (hV : ∀ g, g < x.G → 0 < V g) (hL : ∀ p, p < x.np → 0 < L p) (phi : Nat → Nat → K) (psi : Nat → Nat → Nat → K)
    (r : Run K) (hr : Ready x V L r) (Q : Nat → Sol K → Prop) (h0 : Q 0 (initial x data phi psi r))
    (hs : ∀ n old c, Q n (old 0) → Q (n + 1) (advance x data 1 x.dt (((n + 1 : Nat) : K) * x.dt) old c)) :
    ∃ sol : Nat → Sol K, (∀ n, ∃ r', x.transient phi psi r n = some (r', (List.range (n + 1)).reverse.map sol) ∧ r'.cur = sol n) ∧
      ∀ n, Q n (sol n) := by
  let init := initial x data phi psi r
  let sol := fun n => (sequence x data init n).getD 0 init
  have hseq : ∀ n, sequence x data init n = (List.range (n + 1)).reverse.map sol := by
    intro n
    induction n with
    | zero => rfl
    | succ n ih =>
      rw [List.range_succ, List.reverse_append, List.reverse_singleton, List.singleton_append, List.map_cons, ← ih]
      rfl
  refine ⟨sol, fun n => ?_, fun n => ?_⟩
  · obtain ⟨r', h1, h2⟩ := transient_eq x data V L hx hV hL phi psi r hr n
    exact ⟨r', h1.trans (by rw [hseq]), h2.cur⟩
  · induction n with
    | zero => exact h0
    | succ n ih =>
      have hf : half x (n + 1) = false := by
        unfold half
        rw [hx1.scheme]
        simp
      have pass : ∀ m, 1 ≤ m → ∀ (old : Nat → Sol K) c, Q n (old 0) →
          Q (n + 1) (iterFin x data 1 x.dt (((n + 1 : Nat) : K) * x.dt) false old m c) := by
        intro m
        induction m with
        | zero => omega
        | succ m ihm =>
          intro _ old c hq
          have hadv : Q (n + 1) (fin x false (advance x data 1 x.dt (((n + 1 : Nat) : K) * x.dt) old c) (old 0)) := hs n old c hq
          unfold iterFin
          dsimp only
          split
          · exact hadv
          · rename_i hn
            exact ihm (by simp at hn; omega) old _ hq
      show Q (n + 1) ((sequence x data init (n + 1)).getD 0 init)
      rw [sequence, List.getD_cons_zero, hf]
      have ho : min (n + 1) (max 1 x.scheme) = 1 := by rw [hx1.scheme]; omega
      rw [ho]
      simp only [Bool.false_eq_true, if_false]
      exact pass x.maxIter hx1.iter _ _ ih

section
variable (x : Sys K) (hx1 : Euler x) (data : K → (Nat → Nat → K) → KMat K) (V L : Nat → K) (hx : Timed x data V L)
  (hV : ∀ g, g < x.G → 0 < V g) (hL : ∀ p, p < x.np → 0 < L p) (hD : ∀ t P, Physical x (data t P))
  (phi : Nat → Nat → K) (psi : Nat → Nat → Nat → K) (r : Run K) (hr : Ready x V L r)
include hx1 hx hV hL hD hr

/-- **C135.**  No step gives a negative flux or precursor concentration. -/
theorem C135_nonneg (hS : ∀ t P, Compares x (stepMat x.np 1 x.dt x.k true (data t P)))
    (he : ∀ t, ∀ g < x.G, ∀ a < x.A, ∀ i < x.N, 0 ≤ x.ext t g a i) (hphi : ∀ g < x.G, ∀ i < x.N, 0 ≤ phi g i)
    (hpsi : x.discrete = true → ∀ g < x.G, ∀ a < x.A, ∀ i < x.N, 0 ≤ psi g a i) :
    ∃ sol : Nat → Sol K, (∀ n, ∃ r', x.transient phi psi r n = some (r', (List.range (n + 1)).reverse.map sol) ∧ r'.cur = sol n) ∧
      ∀ n, (sol n).NonNeg x := by
  refine euler_induct x hx1 data V L hx hV hL phi psi r hr (fun _ s => s.NonNeg x) ⟨hphi, hpsi, fun hm p hp i hi => ?_⟩
    fun n old c ho => advance_nonneg x data hx1.dt hx1.norm.le hx1.k old c (hD _ _) (hS _ _) (hx1.fits _) (he _) ho
  have hd : x.delayed = true := (delayed_iff x).2 ⟨hm, by omega⟩
  unfold initial
  simp only [hd, if_true, initPrecursor]
  refine mul_nonneg (mul_nonneg (one_div_nonneg.2 ((hD 0 r.cur.P).lambda p hp)) ((hD 0 r.cur.P).beta p hp i hi)) ?_
  exact production_nonneg x _ (hD 0 r.cur.P) hx1.k hi fun g hg => hphi g hg i hi

/-- **C135.**  If at all times the media by themselves would let the fluxes `v` and precursors `W` grow at most at the rate
    `om`, fluxes that start below them are below `1 / (1 - om dt)` to the power `n` times them after `n` steps. -/
theorem C135_above (hS : ∀ t P, Compares x (stepMat x.np 1 x.dt x.k true (data t P))) {om : K} (hom : om * x.dt < 1) {v : Nat → K}
    {W : Nat → Nat → K} {E : Nat → Nat → Nat → K} (hv : ∀ g < x.G, 0 ≤ v g) (hpk : ∀ t P, Slower x (data t P) om v W E)
    (he : ∀ n : Nat, ∀ g < x.G, ∀ a < x.A, ∀ i < x.N, x.ext (((n + 1 : Nat) : K) * x.dt) g a i ≤ (1 / (1 - om * x.dt)) ^ (n + 1) * E g a i)
    (hW : x.multiply = true → ∀ p < x.np, ∀ i < x.N,
      (data 0 r.cur.P).beta (x.mt i) p * production x (data 0 r.cur.P) (fun g _ => v g) i ≤ L p * W p i)
    (hphi : ∀ g < x.G, ∀ i < x.N, phi g i ≤ v g)
    (hpsi : x.discrete = true → ∀ g < x.G, ∀ a < x.A, ∀ i < x.N, psi g a i ≤ x.norm * v g) :
    ∃ sol : Nat → Sol K, (∀ n, ∃ r', x.transient phi psi r n = some (r', (List.range (n + 1)).reverse.map sol) ∧ r'.cur = sol n) ∧
      ∀ n, (sol n).Under x v W ((1 / (1 - om * x.dt)) ^ n) := by
  have h1 : 0 < 1 - om * x.dt := by linarith
  have hth : 1 / (1 - om * x.dt) * (1 - om * x.dt) = 1 := by field_simp
  have hth0 : 0 < 1 / (1 - om * x.dt) := by positivity
  refine euler_induct x hx1 data V L hx hV hL phi psi r hr (fun n s => s.Under x v W ((1 / (1 - om * x.dt)) ^ n)) ?_
    fun n old c ho => ?_
  · refine ⟨fun g hg i hi => ?_, fun hd g hg a ha i hi => ?_, fun hm p hp i hi => ?_⟩
    · rw [pow_zero, one_mul]; exact hphi g hg i hi
    · rw [pow_zero, one_mul]; exact hpsi hd g hg a ha i hi
    · have hd : x.delayed = true := (delayed_iff x).2 ⟨hm, by omega⟩
      have e : (data 0 r.cur.P).lambda p = L p := by rw [hx.dec]
      unfold initial
      simp only [hd, if_true, initPrecursor, pow_zero, one_mul, e]
      have h2 := mul_le_mul_of_nonneg_left (production_mono x _ (hD 0 r.cur.P) hx1.k (phi := phi) (phi' := fun g _ => v g) hi
        fun g hg => hphi g hg i hi) ((hD 0 r.cur.P).beta p hp i hi)
      have h3 := h2.trans (hW hm p hp i hi)
      rw [one_div, mul_assoc, inv_mul_le_iff₀ (hL p hp)]
      exact h3
  · rw [pow_succ']
    exact advance_under x data hx1.dt hx1.norm hx1.k hth hth0 (by positivity) old c (hD _ _) (hS _ _) hv (hpk _ _) (hx1.fits _)
      (fun g hg a ha i hi => by rw [← pow_succ']; exact he n g hg a ha i hi) ho

/-- **C135.**  If nothing leaks and at all times the media would let them grow at least at that rate, fluxes that start above
    them stay above that. -/
theorem C135_below (hS : ∀ t P, Closed x (stepMat x.np 1 x.dt x.k true (data t P))) {om : K} (hom : om * x.dt < 1) {v : Nat → K}
    {W : Nat → Nat → K} {E : Nat → Nat → Nat → K} (hv : ∀ g < x.G, 0 ≤ v g) (hpk : ∀ t P, Faster x (data t P) om v W E)
    (he : ∀ n : Nat, ∀ g < x.G, ∀ a < x.A, ∀ i < x.N, (1 / (1 - om * x.dt)) ^ (n + 1) * E g a i ≤ x.ext (((n + 1 : Nat) : K) * x.dt) g a i)
    (hW : x.multiply = true → ∀ p < x.np, ∀ i < x.N,
      L p * W p i ≤ (data 0 r.cur.P).beta (x.mt i) p * production x (data 0 r.cur.P) (fun g _ => v g) i)
    (hphi : ∀ g < x.G, ∀ i < x.N, v g ≤ phi g i)
    (hpsi : x.discrete = true → ∀ g < x.G, ∀ a < x.A, ∀ i < x.N, x.norm * v g ≤ psi g a i) :
    ∃ sol : Nat → Sol K, (∀ n, ∃ r', x.transient phi psi r n = some (r', (List.range (n + 1)).reverse.map sol) ∧ r'.cur = sol n) ∧
      ∀ n, (sol n).Over x v W ((1 / (1 - om * x.dt)) ^ n) := by
  have h1 : 0 < 1 - om * x.dt := by linarith
  have hth : 1 / (1 - om * x.dt) * (1 - om * x.dt) = 1 := by field_simp
  have hth0 : 0 < 1 / (1 - om * x.dt) := by positivity
  refine euler_induct x hx1 data V L hx hV hL phi psi r hr (fun n s => s.Over x v W ((1 / (1 - om * x.dt)) ^ n)) ?_
    fun n old c ho => ?_
  · refine ⟨fun g hg i hi => ?_, fun hd g hg a ha i hi => ?_, fun hm p hp i hi => ?_⟩
    · rw [pow_zero, one_mul]; exact hphi g hg i hi
    · rw [pow_zero, one_mul]; exact hpsi hd g hg a ha i hi
    · have hd : x.delayed = true := (delayed_iff x).2 ⟨hm, by omega⟩
      have e : (data 0 r.cur.P).lambda p = L p := by rw [hx.dec]
      unfold initial
      simp only [hd, if_true, initPrecursor, pow_zero, one_mul, e]
      have h2 := mul_le_mul_of_nonneg_left (production_mono x _ (hD 0 r.cur.P) hx1.k (phi := fun g _ => v g) (phi' := phi) hi
        fun g hg => hphi g hg i hi) ((hD 0 r.cur.P).beta p hp i hi)
      have h3 := (hW hm p hp i hi).trans h2
      rw [one_div, mul_assoc, le_inv_mul_iff₀ (hL p hp)]
      exact h3
  · rw [pow_succ']
    exact advance_over x data hx1.dt hx1.norm hx1.k hth hth0 (by positivity) old c (hD _ _) (hS _ _) hv (hpk _ _) (hx1.fits _)
      (fun g hg a ha i hi => by rw [← pow_succ']; exact he n g hg a ha i hi) ho

end

end main

end Detran.Kin
