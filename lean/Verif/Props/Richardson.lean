import Verif.Props.Stationary

/-!
# Richardson solves (C158)
-/

namespace Detran.Solver

open Finset Detran.Matrix

variable {K : Type} [Field K] [LinearOrder K] [IsStrictOrderedRing K]

/-! ## Specification -/

/-- The iterates of a Richardson solve, Richardson.i.hh:52-99; `P` is the preconditioner on the left. -/
def RichIterates (A : CSR K) (P : Option ((Nat → K) → Nat → K)) (ω : K) (b : Nat → K) (x : Nat → Nat → K) : Prop :=
  ∀ n, x (n + 1) = richardsonStep A.multiply P ω b (x n)

/-- The residual norms it monitors: the first, Richardson.i.hh:45-48, compares the product times the relaxation factor with
    the right-hand side as it is used, Richardson.i.hh:27-36; later ones, Richardson.i.hh:84, compare successive iterates. -/
def richWatched (A : CSR K) (P : Option ((Nat → K) → Nat → K)) (ω : K) (b : Nat → K) (nrm0 nrm : (Nat → K) → K)
    (x : Nat → Nat → K) : Nat → K
  | 0 => nrm0 fun i => ω * A.multiply (x 0) i - (match P with | some Q => Q b i | none => b i * ω)
  | n + 1 => nrm fun i => x (n + 1) i - x n i

/-- What users rely on: there is a factor, the same for all right-hand sides, starting vectors and tolerances, such that a
    solve that reports success is as close to the solution as the tolerances allow, up to that factor. -/
def Reliable (A : CSR K) (P : Option ((Nat → K) → Nat → K)) (ω : K) (nrm0 nrm : (Nat → K) → K) : Prop :=
  ∃ f : K, 0 ≤ f ∧ ∀ b y, Solves A b y → ∀ x, RichIterates A P ω b x →
    let r := richWatched A P ω b nrm0 nrm x
    ∀ (par : Par K) s, (solve par .richardson r s).1.status = .success → ∀ i < A.m,
      |x (solve par .richardson r s).2 i - y i| ≤ f * max (par.rtol * r 0) par.atol

/-- The full statement: Richardson iteration is reliable on dominant matrices with positive diagonal, without preconditioner and a
    small enough relaxation factor as well as with the Jacobi preconditioner. -/
def C158Claim (K : Type) [Field K] [LinearOrder K] [IsStrictOrderedRing K] : Prop :=
  ∀ (A : CSR K) (u : Nat → K) (rho ω B0 B : K) (nrm0 nrm : (Nat → K) → K), WF A → Dominant A u rho →
    (∀ i < A.m, 0 < entry A i i ∧ ω * entry A i i ≤ 1) → 0 < ω → Sizes A.m nrm0 B0 → Sizes A.m nrm B →
    Reliable A none ω nrm0 nrm ∧ Reliable A (some (pcJacobiApply A)) ω nrm0 nrm

section
variable {A : CSR K} {u : Nat → K} {rho : K}

/-! ## One step -/

/-- A step without preconditioner. -/
theorem C158_step (h : WF A) (hD : Dominant A u rho) {ω d : K} (w0 : 0 < ω)
    (hω : ∀ i < A.m, d ≤ ω * entry A i i ∧ 0 < entry A i i ∧ ω * entry A i i ≤ 1) {b y : Nat → K} (hy : Solves A b y) {E : K} (hE : 0 ≤ E)
    {x0 : Nat → K} (h0 : Within A u E x0 y) :
    Within A u ((1 - d * (1 - rho)) * E) (richardsonStep A.multiply none ω b x0) y := by
  intro i hi
  obtain ⟨w1, w2, w3⟩ := hω i hi
  have e1 := off_row h hD hy hi
  have e2 := off_bound hD hE hi (e := fun j => x0 j - y j) fun j hj _ => h0 j hj
  have e3 : richardsonStep A.multiply none ω b x0 i - y i = (1 - ω * entry A i i) * (x0 i - y i) -
      ω * ∑ j ∈ (range A.m).erase i, entry A i j * (x0 j - y j) := by
    have := hy i hi
    simp only [richardsonStep]
    rw [← this, multiply_entry h x0 i hi, multiply_entry h y i hi, ← add_sum_erase _ _ (mem_range.2 hi),
      ← add_sum_erase _ _ (mem_range.2 hi)]
    simp only [mul_sub, sum_sub_distrib]
    ring
  rw [e3]
  have a1 : |(1 - ω * entry A i i) * (x0 i - y i)| ≤ (1 - ω * entry A i i) * (E * u i) := by
    rw [abs_mul, abs_of_nonneg (sub_nonneg.2 w3)]
    exact mul_le_mul_of_nonneg_left (h0 i hi) (sub_nonneg.2 w3)
  have a2 : |ω * ∑ j ∈ (range A.m).erase i, entry A i j * (x0 j - y j)| ≤ ω * (rho * E * u i * entry A i i) := by
    rw [abs_mul, abs_of_pos w0]
    rw [abs_of_pos w2] at e2
    exact mul_le_mul_of_nonneg_left e2 w0.le
  have a3 := (abs_sub _ _).trans (add_le_add a1 a2)
  have a4 := mul_le_mul_of_nonneg_right w1 (mul_nonneg (sub_nonneg.2 hD.less.le) (mul_nonneg hE (hD.pos i hi).le))
  refine a3.trans ?_
  linarith

/-- A step with the Jacobi preconditioner is a Jacobi sweep. -/
theorem C158_jacobi_step (h : WF A) (hd : ∀ i < A.m, entry A i i ≠ 0) (ω : K) (b x0 x1 : Nat → K) :
    ∀ i < A.m, richardsonStep A.multiply (some (pcJacobiApply A)) ω b x0 i = jacobiStep A 1 b x0 x1 i := by
  intro i hi
  have e := entry_diag h hi
  have hn := hd i hi
  rw [jacobiStep_eq _ b x0 x1 i hi, jacobiRow_eq h _ b x0 i hi]
  simp only [richardsonStep, pcJacobiApply, pcJacobi]
  rw [← e, if_neg hn]
  field_simp
  ring

/-! ## Whole solves -/

theorem close_of_step (hD : Dominant A u rho) {c : K} (hc : c < 1) {x x' y : Nat → K}
    (st : ∀ E, 0 ≤ E → Within A u E x y → Within A u (c * E) x' y) {D : K} (h0 : 0 ≤ D) (hr : ∀ i < A.m, |x' i - x i| ≤ D)
    {k : Nat} (hk : k < A.m) :
    |x' k - y k| ≤ (∑ j ∈ range A.m, 1 / ((1 - c) * u j)) * (∑ j ∈ range A.m, u j) * D := by
  obtain ⟨i, hi, M, m0, e, hw⟩ := worst hD (Nat.zero_lt_of_lt hk) x y
  have h1 := st M m0 hw
  refine spread_bound hD (M := M) (fun j hj => mul_pos (sub_pos.2 hc) (hD.pos j hj)) hi h0 ?_ (fun j hj => (h1 j hj).trans ?_) hk
  · have a1 := h1 i hi
    have a2 := hr i hi
    have a3 : |x i - y i| ≤ |x' i - y i| + |x' i - x i| := by
      have := abs_sub (x' i - y i) (x' i - x i)
      rwa [sub_sub_sub_cancel_left] at this
    rw [e] at a3
    linarith
  · have := mul_le_mul_of_nonneg_right hc.le (mul_nonneg m0 (hD.pos j hj).le)
    linarith

/-- Without preconditioner Richardson iteration is reliable. -/
theorem C158_plain_partial (h : WF A) (hD : Dominant A u rho) {ω : K} (w0 : 0 < ω)
    (hω : ∀ i < A.m, 0 < entry A i i ∧ ω * entry A i i ≤ 1) {nrm0 nrm : (Nat → K) → K} {B0 B : K} (hn0 : Sizes A.m nrm0 B0)
    (hn : Sizes A.m nrm B) : Reliable A none ω nrm0 nrm := by
  rcases Nat.eq_zero_or_pos A.m with hm | hm
  · exact ⟨0, le_rfl, fun b y hy x hx => fun par s hs i hi => by omega⟩
  obtain ⟨k, hk, hmin⟩ := exists_min_image (range A.m) (fun i => ω * entry A i i) ⟨0, mem_range.2 hm⟩
  have hk := mem_range.1 hk
  set d := ω * entry A k k with hd
  have d0 : 0 < d := mul_pos w0 (hω k hk).1
  have d1 : d ≤ 1 := (hω k hk).2
  have all : ∀ i < A.m, d ≤ ω * entry A i i ∧ 0 < entry A i i ∧ ω * entry A i i ≤ 1 := fun i hi =>
    ⟨hmin i (mem_range.2 hi), hω i hi⟩
  set c := 1 - d * (1 - rho) with hc
  have r0 : 0 < 1 - rho := sub_pos.2 hD.less
  have c1 : c < 1 := by
    have := mul_pos d0 r0
    rw [hc]
    linarith
  have c0 : 0 ≤ c := by
    have a := mul_le_mul_of_nonneg_right d1 r0.le
    have b := hD.nonneg
    rw [hc]
    linarith
  have u0 : 0 ≤ ∑ j ∈ range A.m, u j := sum_nonneg fun j hj => (hD.pos j (mem_range.1 hj)).le
  set f1 := (∑ j ∈ range A.m, 1 / ((1 - rho) * |entry A j j| * u j)) * (∑ j ∈ range A.m, u j) with hf1
  set f2 := (∑ j ∈ range A.m, 1 / ((1 - c) * u j)) * (∑ j ∈ range A.m, u j) with hf2
  have p1 : 0 ≤ f1 := mul_nonneg (sum_nonneg fun j hj => (one_div_pos.2 (mul_pos (mul_pos r0
    (abs_pos.2 (hD.diag j (mem_range.1 hj)))) (hD.pos j (mem_range.1 hj)))).le) u0
  have p2 : 0 ≤ f2 := mul_nonneg (sum_nonneg fun j hj => (one_div_pos.2 (mul_pos (sub_pos.2 c1)
    (hD.pos j (mem_range.1 hj)))).le) u0
  have p3 : 0 ≤ f1 / ω := div_nonneg p1 w0.le
  refine ⟨f1 / ω + f2, add_nonneg p3 p2, fun b y hy x hx => ?_⟩
  intro r par s hs i hi
  have close : ∀ n, |x n i - y i| ≤ (f1 / ω + f2) * r n := fun n => by
    cases n with
    | zero =>
      have lo : ∀ j < A.m, |ω * A.multiply (x 0) j - b j * ω| ≤ r 0 := fun j hj =>
        hn0.lower (fun i => ω * A.multiply (x 0) i - b i * ω) j hj
      have nn : 0 ≤ r 0 := (abs_nonneg _).trans (lo i hi)
      have := C156_residual h hD hy (x := x 0) (div_nonneg nn w0.le) (fun j hj => by
        rw [le_div_iff₀ w0, ← abs_of_pos w0, ← abs_mul]
        refine le_trans (le_of_eq ?_) (lo j hj)
        congr 1
        ring) hi
      calc |x 0 i - y i| ≤ f1 * (r 0 / ω) := this
        _ = f1 / ω * r 0 := by ring
        _ ≤ (f1 / ω + f2) * r 0 := mul_le_mul_of_nonneg_right (by linarith) nn
    | succ n =>
      have lo : ∀ j < A.m, |x (n + 1) j - x n j| ≤ r (n + 1) := fun j hj => hn.lower (fun i => x (n + 1) i - x n i) j hj
      have nn : 0 ≤ r (n + 1) := (abs_nonneg _).trans (lo i hi)
      have := close_of_step hD c1 (x := x n) (x' := x (n + 1)) (y := y) (fun E hE hw => by
        rw [hx n]
        exact C158_step h hD w0 all hy hE hw) nn lo hi
      exact this.trans (mul_le_mul_of_nonneg_right (by linarith) nn)
  refine (close _).trans (mul_le_mul_of_nonneg_left ?_ (add_nonneg p3 p2))
  rcases C19_success_truthful par .richardson r s hs with ⟨e, hlt⟩ | ⟨_, hlt⟩
  · rw [e]
    exact hlt.le.trans (le_max_right _ _)
  · exact hlt.le

/-- With the Jacobi preconditioner it is if success is not reported before the first iteration. -/
theorem C158_jacobi_partial (h : WF A) (hD : Dominant A u rho) (ω : K) {nrm0 nrm : (Nat → K) → K} {B : K} (hn : Sizes A.m nrm B) :
    ∃ f : K, 0 ≤ f ∧ ∀ b y, Solves A b y → ∀ x, RichIterates A (some (pcJacobiApply A)) ω b x →
      let r := richWatched A (some (pcJacobiApply A)) ω b nrm0 nrm x
      ∀ (par : Par K) s, (solve par .richardson r s).1.status = .success → 0 < (solve par .richardson r s).2 → ∀ i < A.m,
        |x (solve par .richardson r s).2 i - y i| ≤ f * max (par.rtol * r 0) par.atol := by
  have u0 : 0 ≤ ∑ j ∈ range A.m, u j := sum_nonneg fun j hj => (hD.pos j (mem_range.1 hj)).le
  have p2 : 0 ≤ (∑ j ∈ range A.m, 1 / ((1 - rho) * u j)) * (∑ j ∈ range A.m, u j) :=
    mul_nonneg (sum_nonneg fun j hj => (one_div_pos.2 (mul_pos (sub_pos.2 hD.less) (hD.pos j (mem_range.1 hj)))).le) u0
  refine ⟨_, p2, fun b y hy x hx => ?_⟩
  intro r par s hs hpos i hi
  have close : ∀ n, |x (n + 1) i - y i| ≤
      (∑ j ∈ range A.m, 1 / ((1 - rho) * u j)) * (∑ j ∈ range A.m, u j) * r (n + 1) := fun n => by
    have lo : ∀ j < A.m, |x (n + 1) j - x n j| ≤ r (n + 1) := fun j hj => hn.lower (fun i => x (n + 1) i - x n i) j hj
    exact close_of_step hD hD.less (x := x n) (x' := x (n + 1)) (y := y) (fun E hE hw j hj => by
      rw [hx n, C158_jacobi_step h hD.diag ω b (x n) (x n) j hj]
      have := C156_jacobi h hD hy 1 hE hw (x n) j hj
      simpa using this) ((abs_nonneg _).trans (lo i hi)) lo hi
  rcases C19_success_truthful par .richardson r s hs with ⟨e, -⟩ | ⟨_, hlt⟩
  · omega
  · obtain ⟨n, hn⟩ : ∃ n, (solve par .richardson r s).2 = n + 1 := ⟨_, (Nat.succ_pred_eq_of_pos hpos).symm⟩
    rw [hn] at hlt ⊢
    exact (close n).trans (mul_le_mul_of_nonneg_left hlt.le p2)

/-- Started from zero it is reliable with the Jacobi preconditioner too: the first residual is then that of the preconditioned
    system. -/
theorem C158_zero_partial (h : WF A) (hD : Dominant A u rho) (ω : K) {nrm0 nrm : (Nat → K) → K} {B0 B : K}
    (hn0 : Sizes A.m nrm0 B0) (hn : Sizes A.m nrm B) :
    ∃ f : K, 0 ≤ f ∧ ∀ b y, Solves A b y → ∀ x, RichIterates A (some (pcJacobiApply A)) ω b x → x 0 = (fun _ => 0) →
      let r := richWatched A (some (pcJacobiApply A)) ω b nrm0 nrm x
      ∀ (par : Par K) s, (solve par .richardson r s).1.status = .success → ∀ i < A.m,
        |x (solve par .richardson r s).2 i - y i| ≤ f * max (par.rtol * r 0) par.atol := by
  obtain ⟨f, f0, hf⟩ := C158_jacobi_partial h hD ω (nrm0 := nrm0) hn
  set f2 := (∑ j ∈ range A.m, 1 / ((1 - rho) * u j)) * (∑ j ∈ range A.m, u j) with hf2
  have u0 : 0 ≤ ∑ j ∈ range A.m, u j := sum_nonneg fun j hj => (hD.pos j (mem_range.1 hj)).le
  have p2 : 0 ≤ f2 :=
    mul_nonneg (sum_nonneg fun j hj => (one_div_pos.2 (mul_pos (sub_pos.2 hD.less) (hD.pos j (mem_range.1 hj)))).le) u0
  refine ⟨f + (f2 + 1), by linarith, fun b y hy x hx hx0 => ?_⟩
  intro r par s hs i hi
  have z : ∀ j < A.m, A.multiply (x 0) j = 0 := fun j hj => by
    rw [multiply_entry h _ j hj, hx0]
    simp
  have first : ∀ j < A.m, x 1 j = pcJacobiApply A b j := fun j hj => by
    rw [hx 0]
    simp only [richardsonStep, pcJacobiApply]
    rw [z j hj, hx0]
    ring
  have lo : ∀ j < A.m, |x 1 j| ≤ r 0 := fun j hj => by
    have := hn0.lower (fun i => ω * A.multiply (x 0) i - pcJacobiApply A b i) j hj
    simp only [z j hj] at this
    rw [mul_zero, zero_sub, abs_neg, ← first j hj] at this
    exact this
  have nn : 0 ≤ r 0 := (abs_nonneg _).trans (lo i hi)
  rcases C19_success_truthful par .richardson r s hs with ⟨e, hlt⟩ | ⟨hp, _⟩
  · have c1 := close_of_step hD hD.less (x := x 0) (x' := x 1) (y := y) (fun E hE hw j hj => by
      rw [hx 0, C158_jacobi_step h hD.diag ω b (x 0) (x 0) j hj]
      have := C156_jacobi h hD hy 1 hE hw (x 0) j hj
      simpa using this) nn (fun j hj => by
        rw [hx0]
        simpa using lo j hj) hi
    have c2 : |x 0 i - y i| ≤ |x 1 i - y i| + |x 1 i| := by
      have := abs_sub (x 1 i - y i) (x 1 i)
      rw [hx0]
      have e : x 1 i - y i - x 1 i = 0 - y i := by ring
      rwa [e] at this
    have c3 : |x 0 i - y i| ≤ (f2 + 1) * r 0 := by
      have := lo i hi
      linarith
    have c4 : r 0 ≤ max (par.rtol * r 0) par.atol := hlt.le.trans (le_max_right _ _)
    rw [e]
    calc |x 0 i - y i| ≤ (f2 + 1) * r 0 := c3
      _ ≤ (f2 + 1) * max (par.rtol * r 0) par.atol := mul_le_mul_of_nonneg_left c4 (by linarith)
      _ ≤ (f + (f2 + 1)) * max (par.rtol * r 0) par.atol := mul_le_mul_of_nonneg_right (by linarith) (nn.trans c4)
  · have k := hf b y hy x hx par s hs hp i hi
    have c4 : 0 ≤ max (par.rtol * r 0) par.atol := by
      rcases C19_success_truthful par .richardson r s hs with ⟨e, hlt⟩ | ⟨_, hlt⟩
      · exact nn.trans (hlt.le.trans (le_max_right _ _))
      · obtain ⟨n, hn'⟩ : ∃ n, (solve par .richardson r s).2 = n + 1 := ⟨_, (Nat.succ_pred_eq_of_pos hp).symm⟩
        rw [hn'] at hlt
        exact ((abs_nonneg _).trans (hn.lower (fun i => x (n + 1) i - x n i) i hi)).trans hlt.le
    exact k.trans (mul_le_mul_of_nonneg_right (by linarith) c4)

/-- Iterates of a contracting step end with a success. -/
theorem succeeds_of_step [Archimedean K] (hD : Dominant A u rho) {P : Option ((Nat → K) → Nat → K)} {ω c : K} (hc : c < 1)
    (c0 : 0 ≤ c) {b y : Nat → K} {nrm0 nrm : (Nat → K) → K} {B : K} (hn : Sizes A.m nrm B) {x : Nat → Nat → K}
    (st : ∀ n E, 0 ≤ E → Within A u E (x n) y → Within A u (c * E) (x (n + 1)) y) {atol : K} (hat : 0 < atol) (rtol : K) :
    ∃ N, ∀ maxit, N ≤ maxit → ∀ s,
      (solve ⟨atol, rtol, maxit, false⟩ .richardson (richWatched A P ω b nrm0 nrm x) s).1.status = .success := by
  set E := ∑ i ∈ range A.m, |x 0 i - y i| / u i with hE
  have E0 : 0 ≤ E := sum_nonneg fun i hi => div_nonneg (abs_nonneg _) (hD.pos i (mem_range.1 hi)).le
  have w0 : Within A u E (x 0) y := fun i hi => by
    rw [← div_le_iff₀ (hD.pos i hi)]
    exact single_le_sum (f := fun i => |x 0 i - y i| / u i)
      (fun j hj => div_nonneg (abs_nonneg _) (hD.pos j (mem_range.1 hj)).le) (mem_range.2 hi)
  have wn : ∀ n, Within A u (c ^ n * E) (x n) y := fun n => by
    induction n with
    | zero => simpa using w0
    | succ n ih =>
      have := st n _ (mul_nonneg (pow_nonneg c0 n) E0) ih
      rwa [← mul_assoc, ← pow_succ'] at this
  set Q := E * (2 * ∑ j ∈ range A.m, u j) with hQ
  have Q0 : 0 ≤ Q := mul_nonneg E0 (mul_nonneg zero_le_two (sum_nonneg fun j hj => (hD.pos j (mem_range.1 hj)).le))
  have small : ∀ n, richWatched A P ω b nrm0 nrm x (n + 1) ≤ B * (c ^ n * Q) := fun n => by
    have cn : 0 ≤ c ^ n := pow_nonneg c0 n
    have mono : c ^ (n + 1) * E ≤ c ^ n * E := by
      rw [pow_succ]
      exact mul_le_mul_of_nonneg_right (mul_le_of_le_one_right cn hc.le) E0
    have cE : 0 ≤ c ^ n * E := mul_nonneg cn E0
    change nrm (fun i => x (n + 1) i - x n i) ≤ _
    refine hn.upper _ _ (mul_nonneg cn Q0) fun i hi => ?_
    have a1 := wn (n + 1) i hi
    have a2 := wn n i hi
    have a3 : |x (n + 1) i - x n i| ≤ |x (n + 1) i - y i| + |x n i - y i| := by
      have := abs_sub (x (n + 1) i - y i) (x n i - y i)
      rwa [sub_sub_sub_cancel_right] at this
    have a4 : u i ≤ ∑ j ∈ range A.m, u j :=
      single_le_sum (f := u) (fun j hj => (hD.pos j (mem_range.1 hj)).le) (mem_range.2 hi)
    have a5 := mul_le_mul_of_nonneg_right mono (hD.pos i hi).le
    have a6 := mul_le_mul_of_nonneg_left a4 cE
    rw [hQ]
    linarith
  have lim : ∃ n, B * (c ^ n * Q) < atol := by
    obtain ⟨n, hn⟩ := exists_pow_lt_of_lt_one (div_pos hat (show (0 : K) < |B * Q| + 1 by positivity)) hc
    refine ⟨n, ?_⟩
    rw [lt_div_iff₀ (by positivity)] at hn
    have b1 := mul_le_mul_of_nonneg_left (le_abs_self (B * Q)) (pow_nonneg c0 n)
    have b2 := pow_nonneg c0 n
    calc B * (c ^ n * Q) = c ^ n * (B * Q) := by ring
      _ ≤ c ^ n * |B * Q| := b1
      _ ≤ c ^ n * (|B * Q| + 1) := by linarith
      _ < atol := hn
  obtain ⟨n, hlt⟩ := lim
  refine ⟨n + 2, fun maxit hm s => ?_⟩
  obtain ⟨k1, k2, k3⟩ := C19_definite_status_partial ⟨atol, rtol, maxit, false⟩ .richardson
    (richWatched A P ω b nrm0 nrm x) s (show 2 ≤ maxit by omega)
  rcases hst : (solve ⟨atol, rtol, maxit, false⟩ .richardson (richWatched A P ω b nrm0 nrm x) s).1.status with _ | _ | _ | _
  · exact absurd hst k1
  · rfl
  · exact absurd (((small n).trans_lt hlt).trans_le (le_max_right _ _)) ((k3 hst).2 (n + 1) (by omega) (show n + 1 < maxit by omega))
  · exact absurd (k2 hst).1 (by simp)

/-- With enough iterations allowed every solve reports success, with and without the preconditioner. -/
theorem C158_succeeds [Archimedean K] (h : WF A) (hD : Dominant A u rho) {ω : K} {P : Option ((Nat → K) → Nat → K)}
    (hP : (P = none ∧ 0 < ω ∧ ∀ i < A.m, 0 < entry A i i ∧ ω * entry A i i ≤ 1) ∨ P = some (pcJacobiApply A))
    {nrm0 nrm : (Nat → K) → K} {B : K} (hn : Sizes A.m nrm B) {b y : Nat → K} (hy : Solves A b y) {x : Nat → Nat → K}
    (hx : RichIterates A P ω b x) {atol : K} (hat : 0 < atol) (rtol : K) :
    ∃ N, ∀ maxit, N ≤ maxit → ∀ s,
      (solve ⟨atol, rtol, maxit, false⟩ .richardson (richWatched A P ω b nrm0 nrm x) s).1.status = .success := by
  rcases hP with ⟨rfl, w0, hω⟩ | rfl
  · obtain ⟨d, d0, d1, all⟩ : ∃ d : K, 0 < d ∧ d ≤ 1 ∧ ∀ i < A.m, d ≤ ω * entry A i i := by
      rcases Nat.eq_zero_or_pos A.m with hm | hm
      · exact ⟨1, one_pos, le_rfl, fun i hi => by omega⟩
      · obtain ⟨k, hk, hmin⟩ := exists_min_image (range A.m) (fun i => ω * entry A i i) ⟨0, mem_range.2 hm⟩
        have hk := mem_range.1 hk
        exact ⟨_, mul_pos w0 (hω k hk).1, (hω k hk).2, fun i hi => hmin i (mem_range.2 hi)⟩
    have r0 : 0 < 1 - rho := sub_pos.2 hD.less
    refine succeeds_of_step (y := y) (c := 1 - d * (1 - rho)) hD ?_ ?_ hn (fun n E hE hw => ?_) hat rtol
    · have := mul_pos d0 r0
      linarith
    · have a := mul_le_mul_of_nonneg_right d1 r0.le
      have b := hD.nonneg
      linarith
    · rw [hx n]
      exact C158_step h hD w0 (fun i hi => ⟨all i hi, hω i hi⟩) hy hE hw
  · refine succeeds_of_step (y := y) hD hD.less hD.nonneg hn (fun n E hE hw j hj => ?_) hat rtol
    rw [hx n, C158_jacobi_step h hD.diag ω b (x n) (x n) j hj]
    have := C156_jacobi h hD hy 1 hE hw (x n) j hj
    simpa using this

end

/-! ## The first residual of preconditioned solves -/

/-- One equation `x / 2 = 1`. -/
def half : CSR ℚ := ⟨1, 1, [0, 1], [0], [1 / 2], [some 0]⟩

theorem half_wf : WF half := by
  refine ⟨rfl, ?_, ?_, ?_, ?_, ?_, ?_⟩
  · decide +kernel
  · decide +kernel
  · decide +kernel
  · decide +kernel
  · intro i hi p h1 h2
    have : half.m = 1 := rfl
    obtain rfl : i = 0 := by omega
    have h3 : p < 1 := h2
    obtain rfl : p = 0 := by omega
    decide +kernel
  · intro i hi p q h1 h2 h3
    have : half.m = 1 := rfl
    obtain rfl : i = 0 := by omega
    have h4 : q < 1 := h3
    omega

theorem half_dominant : Dominant half (fun _ => 1) 0 := by
  refine ⟨fun _ _ => one_pos, ?_, ?_, le_rfl, one_pos⟩
  · decide +kernel
  · decide +kernel

theorem half_sizes : Sizes half.m (fun v : Nat → ℚ => |v 0|) 1 := by
  refine ⟨fun v i hi => ?_, fun v D _ h => ?_⟩
  · have : half.m = 1 := rfl
    obtain rfl : i = 0 := by omega
    exact le_rfl
  · rw [one_mul]
    exact h 0 (by decide)

/-- With the Jacobi preconditioner and the vector 4, twice the solution, the product and the preconditioned right-hand side are
    both 2: success is reported without an iteration, whatever the tolerance. -/
theorem C158_false_success (par : Par ℚ) (hp : 0 < par.atol) (s : LS ℚ) (x : Nat → Nat → ℚ) (h0 : x 0 = fun _ => 4) :
    let r := richWatched half (some (pcJacobiApply half)) 1 (fun _ => 1) (fun v => |v 0|) (fun v => |v 0|) x
    (solve par .richardson r s).1.status = .success ∧ (solve par .richardson r s).2 = 0 ∧ Solves half (fun _ => 1) (fun _ => 2) := by
  intro r
  have r0 : r 0 = 0 := by
    have e1 : half.multiply (fun _ => 4) 0 = 2 := by decide +kernel
    have e2 : pcJacobiApply half (fun _ => 1) 0 = 2 := by decide +kernel
    change |1 * half.multiply (x 0) 0 - pcJacobiApply half (fun _ => 1) 0| = 0
    rw [h0, e1, e2]
    norm_num
  refine ⟨?_, ?_, ?_⟩
  · simp [solve, monitorInit, r0, hp]
  · simp [solve, monitorInit, r0, hp]
  · intro i hi
    have : half.m = 1 := rfl
    obtain rfl : i = 0 := by omega
    decide +kernel

theorem C158_claim_fails : ¬ C158Claim ℚ := by
  intro hc
  obtain ⟨-, f, f0, hf⟩ := hc half (fun _ => 1) 0 1 1 1 _ _ half_wf half_dominant (by decide +kernel) one_pos half_sizes half_sizes
  let x : Nat → Nat → ℚ := fun n => Nat.rec (fun _ => 4) (fun _ v => richardsonStep half.multiply (some (pcJacobiApply half)) 1 (fun _ => 1) v) n
  have f1 : (0 : ℚ) < f + 1 := by linarith
  have hp : (0 : ℚ) < 1 / (f + 1) := by positivity
  obtain ⟨a, b, c⟩ := C158_false_success ⟨1 / (f + 1), 0, 5, false⟩ hp ⟨.running, 0, fun _ => 0⟩ x rfl
  have k := hf (fun _ => 1) (fun _ => 2) c x (fun n => rfl) ⟨1 / (f + 1), 0, 5, false⟩ ⟨.running, 0, fun _ => 0⟩ a 0 (by decide)
  rw [b, zero_mul, max_eq_right hp.le, mul_one_div] at k
  have e : |x 0 0 - 2| = 2 := by
    change |(4 : ℚ) - 2| = 2
    norm_num
  rw [e, le_div_iff₀ f1] at k
  linarith

/-- The partial theorems apply to a matrix of three rows. -/
example : Reliable tri none (1 / 6) (fun v => |v 0| + |v 1| + |v 2|) (fun v => |v 0| + |v 1| + |v 2|) :=
  C158_plain_partial tri_wf tri_dominant (by norm_num) (by decide +kernel) tri_sizes tri_sizes

example : ∀ i < tri.m, richardsonStep tri.multiply (some (pcJacobiApply tri)) 3 (fun i => (i : ℚ)) (fun _ => 1) i =
    jacobiStep tri 1 (fun i => (i : ℚ)) (fun _ => 1) (fun _ => 0) i :=
  C158_jacobi_step tri_wf tri_dominant.diag 3 _ _ _

example := C158_jacobi_partial tri_wf tri_dominant 1 (nrm0 := fun v => |v 0| + |v 1| + |v 2|) tri_sizes

example := C158_zero_partial tri_wf tri_dominant 1 tri_sizes tri_sizes

example (x : Nat → Nat → ℚ) (hx : RichIterates tri none (1 / 6) (tri.multiply fun _ => 1) x) :
    ∃ N, ∀ maxit, N ≤ maxit → ∀ s, (solve ⟨1 / 1000, 0, maxit, false⟩ .richardson (richWatched tri none (1 / 6)
      (tri.multiply fun _ => 1) (fun v => |v 0| + |v 1| + |v 2|) (fun v => |v 0| + |v 1| + |v 2|) x) s).1.status = .success :=
  C158_succeeds tri_wf tri_dominant (.inl ⟨rfl, by norm_num, by decide +kernel⟩) tri_sizes (y := fun _ => 1)
    (fun _ _ => rfl) hx (by norm_num) 0

end Detran.Solver
