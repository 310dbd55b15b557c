import Verif.Model.Rom
import Verif.Props.Dense

/-!
# Properties of the reduced-order solver (C119)
-/

namespace Detran.Rom

open Detran.Dense Finset

variable {K : Type} [Field K] [LinearOrder K]

/-! ## Specification -/

/-- The operator multiplies by the matrix `a` of order `n`. -/
def IsMat (n : Nat) (A : (Nat → K) → Nat → K) (a : Nat → Nat → K) : Prop :=
  ∀ (v : Nat → K), ∀ i < n, A v i = ∑ j ∈ range n, a i j * v j

/-- The product of the table `u` with `r` columns and a vector. -/
def mulU (r : Nat) (u : Nat → Nat → K) (c : Nat → K) (j : Nat) : K := ∑ i ∈ range r, u j i * c i

/-- Entry `(p, q)` of `uᵀ a u`. -/
def sandwich (n : Nat) (u a : Nat → Nat → K) (p q : Nat) : K :=
  ∑ j ∈ range n, ∑ l ∈ range n, u j p * a j l * u l q

omit [LinearOrder K] in
theorem rep_multiply {m n : Nat} {A : Dense K} {f : Nat → Nat → K} (h : Rep m n A f) (x : Nat → K) :
    (∀ i < m, A.multiply x i = ∑ j ∈ range n, f i j * x j) ∧
      ∀ j < n, A.multiplyTranspose x j = ∑ i ∈ range m, f i j * x i := by
  obtain ⟨hm, hn, hl, hv⟩ := h
  have hg : ∀ i < m, ∀ j < n, A.vals.getD (j * m + i) 0 = f i j := by
    intro i hi j hj
    rw [List.getD_eq_getElem?_getD, add_comm, hv i hi j hj]; rfl
  refine ⟨fun i hi => ?_, fun j hj => ?_⟩
  · simp only [Dense.multiply, hm, hn]
    rw [mul_outer]
    simp only [hi, if_true]
    refine sum_congr rfl fun j hj => ?_
    rw [hg i hi j (mem_range.mp hj), mul_comm]
  · simp only [Dense.multiplyTranspose, hm, hn]
    rw [tr_outer]
    simp only [hj, if_true]
    refine sum_congr rfl fun i hi => ?_
    rw [hg i (mem_range.mp hi) j hj, mul_comm]

omit [LinearOrder K] in
theorem rep_get {m n : Nat} {A : Dense K} {f : Nat → Nat → K} (h : Rep m n A f) {i j : Nat} (hi : i < m) (hj : j < n) :
    A.get i j = some (f i j) := by
  simp only [Dense.get, Dense.idx, h.1]
  exact h.2.2.2 i hi j hj

/-! ## The basis file -/

omit [LinearOrder K] in
theorem basis_loop {n r : Nat} (B : List K) (hB : n * r ≤ B.length) {U : Dense K} {u : Nat → Nat → K} (h : Rep n r U u) (k : Nat)
    (hk : k ≤ r * n) :
    ∃ V, loop (fun V c => (B[c]?).bind fun b => V.insert (c / r) (c % r) b false) U (List.range k) = some V ∧
      Rep n r V (fun i j => if i * r + j < k then B.getD (i * r + j) 0 else u i j) := by
  induction k with
  | zero => exact ⟨U, rfl, rep_congr h (fun a _ b _ => by simp)⟩
  | succ k ih =>
    obtain ⟨V, hV, hr⟩ := ih (by omega)
    have hr0 : 0 < r := Nat.pos_of_ne_zero fun e => by subst e; simp at hk
    have hi : k / r < n := Nat.div_lt_of_lt_mul (by omega)
    have hj : k % r < r := Nat.mod_lt _ hr0
    have hkB : k < B.length := by rw [Nat.mul_comm] at hB; omega
    obtain ⟨W, hW, hr'⟩ := rep_insert hr hi hj (B.getD k 0) false
    refine ⟨W, ?_, rep_congr hr' (fun a ha b hb => ?_)⟩
    · rw [loop_succ, hV, Option.bind_some, List.getElem?_eq_getElem hkB, Option.bind_some, ← hW,
        List.getD_eq_getElem?_getD, List.getElem?_eq_getElem hkB, Option.getD_some]
    · have hdm : k / r * r + k % r = k := by rw [Nat.mul_comm]; exact Nat.div_add_mod k r
      simp only [DOp.spec, Bool.false_eq_true, if_false]
      by_cases e : a * r + b = k
      · have h1 : a = k / r := by
          rw [← e, Nat.mul_comm, Nat.mul_add_div hr0, Nat.div_eq_of_lt hb, Nat.add_zero]
        have h2 : b = k % r := by
          rw [← e, Nat.mul_comm, Nat.mul_add_mod, Nat.mod_eq_of_lt hb]
        rw [if_pos ⟨h1, h2⟩, if_pos (by omega), e]
      · rw [if_neg (fun hc => e (by rw [hc.1, hc.2]; exact hdm))]
        have : a * r + b < k + 1 ↔ a * r + b < k := by omega
        simp only [this]

omit [LinearOrder K] in
/-- C119, reading the basis: from a file with at least rows × columns numbers, entry (i, j) is the number at position
    i · columns + j, whatever the matrix held before and whatever follows in the file. -/
theorem C119_basis {n r : Nat} (B : List K) (hB : n * r ≤ B.length) {U : Dense K} {u : Nat → Nat → K} (h : Rep n r U u) :
    ∃ V, getBasis (some B) U = some V ∧ V.m = n ∧ V.n = r ∧
      ∀ i < n, ∀ j < r, V.get i j = B[i * r + j]? := by
  obtain ⟨V, hV, hr⟩ := basis_loop B hB h (r * n) (le_refl _)
  refine ⟨V, by simpa [getBasis, h.1, h.2.1] using hV, hr.1, hr.2.1, fun i hi j hj => ?_⟩
  have hlt : i * r + j < n * r := by
    calc i * r + j < i * r + r := by omega
      _ = (i + 1) * r := by ring
      _ ≤ n * r := Nat.mul_le_mul_right _ hi
  rw [rep_get hr hi hj, if_pos (by rw [Nat.mul_comm r n]; exact hlt), List.getD_eq_getElem?_getD,
    List.getElem?_eq_getElem (by omega), Option.getD_some]

omit [LinearOrder K] in
/-- C119, a file that cannot be opened is not reported to the caller: the matrix stays as it was. -/
theorem C119_basis_missing (U : Dense K) : getBasis none U = some U := rfl

omit [LinearOrder K] in
theorem loop_none {S : Type} (g : S → Nat → Option S) (l : List Nat) (k : Nat) (hk : k ∈ l) (hg : ∀ s, g s k = none) (s : S) :
    loop g s l = none := by
  have hn : ∀ l' : List Nat, l'.foldl (fun acc k => acc.bind fun s => g s k) (none : Option S) = none := by
    intro l'
    induction l' with
    | nil => rfl
    | cons a l' ih => simpa using ih
  unfold loop
  suffices H : ∀ (l : List Nat), k ∈ l → ∀ a : Option S, l.foldl (fun acc k => acc.bind fun s => g s k) a = none from H l hk _
  intro l
  induction l with
  | nil => intro h; simp at h
  | cons b l ih =>
    intro h a
    rw [List.foldl_cons]
    rcases List.mem_cons.mp h with rfl | h
    · have : (a.bind fun s => g s k) = none := by cases a <;> simp [hg]
      rw [this]; exact hn l
    · exact ih h _

omit [LinearOrder K] in
/-- C119, a file that is too short leaves undefined numbers in the basis, and this is not reported either. -/
theorem C119_basis_short (B : List K) (U : Dense K) (h : B.length < U.n * U.m) : getBasis (some B) U = none := by
  refine loop_none _ _ B.length (List.mem_range.mpr h) (fun V => ?_) U
  simp

/-! ## The projection -/

omit [LinearOrder K] in
/-- C119, the projection: whatever was in the reduced matrix before, its entry (p, q) is the inner product of column p of the
    basis with the operator applied to column q. -/
theorem project_rep {n r : Nat} (A : (Nat → K) → Nat → K) {U R : Dense K} {u f : Nat → Nat → K} (h : Rep n r U u)
    (hR : Rep r r R f) :
    ∃ S, project A U R = some S ∧
      Rep r r S (fun p q => ∑ j ∈ range n, u j p * A (column U q) j) := by
  have step : ∀ k ≤ r, ∃ S, loop (fun R i => R.insertCol i (U.multiplyTranspose (A (column U i))) false) R (List.range k) = some S ∧
      Rep r r S (fun p q => if q < k then ∑ j ∈ range n, u j p * A (column U q) j else f p q) := by
    intro k
    induction k with
    | zero => exact fun _ => ⟨R, rfl, rep_congr hR (fun a _ b _ => by simp)⟩
    | succ k ih =>
      intro hk
      obtain ⟨S, hS, hr⟩ := ih (by omega)
      obtain ⟨T, hT, hr'⟩ := rep_op hr (.col k (U.multiplyTranspose (A (column U k))) false) (by simpa [DOp.InRange] using hk)
      refine ⟨T, by rw [loop_succ, hS]; exact hT, rep_congr hr' (fun a ha b _ => ?_)⟩
      simp only [DOp.spec, Bool.false_eq_true, if_false]
      by_cases e : b = k
      · subst e
        rw [if_pos rfl, if_pos (by omega), (rep_multiply h _).2 a ha]
      · have : b < k + 1 ↔ b < k := by omega
        rw [if_neg e]
        simp only [this]
  obtain ⟨S, hS, hr⟩ := step r (le_refl _)
  exact ⟨S, by rw [project, h.2.1]; exact hS, rep_congr hr (fun a _ b hb => by simp [hb])⟩

omit [LinearOrder K] in
theorem column_rep {n r : Nat} {U : Dense K} {u : Nat → Nat → K} (h : Rep n r U u) {i j : Nat} (hi : i < r) (hj : j < n) :
    column U i j = u j i := by
  rw [column, h.1, if_pos hj, rep_get h hj hi]; rfl

omit [LinearOrder K] in
theorem project_mat {n r : Nat} {A : (Nat → K) → Nat → K} {a : Nat → Nat → K} (hA : IsMat n A a) {U R : Dense K}
    {u f : Nat → Nat → K} (h : Rep n r U u) (hR : Rep r r R f) :
    ∃ S, project A U R = some S ∧ Rep r r S (sandwich n u a) := by
  obtain ⟨S, hS, hr⟩ := project_rep A h hR
  refine ⟨S, hS, rep_congr hr (fun p _ q hq => ?_)⟩
  unfold sandwich
  refine sum_congr rfl fun j hj => ?_
  rw [hA _ j (mem_range.mp hj), mul_sum]
  refine sum_congr rfl fun l hl => ?_
  rw [column_rep h hq (mem_range.mp hl)]
  ring

omit [LinearOrder K] in
/-- C119, the reduced operator of a matrix is UᵀAU, entry by entry, for every basis and whatever the reduced matrix held. -/
theorem C119_project {n r : Nat} {A : (Nat → K) → Nat → K} {a : Nat → Nat → K} (hA : IsMat n A a) {U R : Dense K}
    {u f : Nat → Nat → K} (h : Rep n r U u) (hR : Rep r r R f) :
    ∃ S, project A U R = some S ∧ ∀ p < r, ∀ q < r, S.get p q = some (∑ j ∈ range n, ∑ l ∈ range n, u j p * a j l * u l q) := by
  obtain ⟨S, hS, hr⟩ := project_mat hA h hR
  exact ⟨S, hS, fun p hp q hq => rep_get hr hp hq⟩

omit [LinearOrder K] in
/-- `uᵀ a u c` is `uᵀ` applied to `a` applied to the vector that `c` stands for. -/
theorem sandwich_mul (n r : Nat) (u a : Nat → Nat → K) (c : Nat → K) (p : Nat) :
    ∑ q ∈ range r, sandwich n u a p q * c q =
      ∑ j ∈ range n, u j p * ∑ l ∈ range n, a j l * mulU r u c l := by
  simp only [sandwich, mulU, sum_mul, mul_sum]
  rw [sum_comm]
  refine sum_congr rfl fun j _ => ?_
  rw [sum_comm]
  exact sum_congr rfl fun l _ => sum_congr rfl fun q _ => by ring

/-! ## The solution -/

variable [IsStrictOrderedRing K]

theorem fixSign_spec (n : Nat) (s : Nat → K) : ∀ j, fixSign n s j = if j < n then |s j| else s j := by
  induction n with
  | zero => intro j; simp [fixSign]
  | succ n ih =>
    intro j
    have hs : fixSign (n + 1) s = (fun t i => if t i < 0 then fun j => if j = i then t i * (-1) else t j else t) (fixSign n s) n := by
      simp [fixSign, List.range_succ]
    rw [hs]
    have hn : fixSign n s n = s n := by rw [ih]; simp
    dsimp only
    rw [hn]
    by_cases e : j = n
    · subst e
      rw [if_pos (by omega : j < j + 1)]
      split
      · next h => dsimp only; rw [if_pos rfl, abs_of_neg h]; ring
      · next h => rw [hn, abs_of_nonneg (not_lt.mp h)]
    · have : j < n + 1 ↔ j < n := by omega
      split
      · dsimp only; rw [if_neg e, ih]; simp only [this]
      · rw [ih]; simp only [this]

/-- The pair is a solution of the problem that the eigenvalue solver was given: P x = λ Q x, or P x = λ x. -/
def Solves (P : Dense K) (Q : Option (Dense K)) (x : Nat → K) (l : K) : Prop :=
  ∀ i < P.m, P.multiply x i = l * (match Q with | none => x i | some Q => Q.multiply x i)

/-- C119, diffusion and energy-dependent problems: the reduced solver gets the pair (UᵀBU, UᵀAU) and a vector of ones; the
    eigenvalue is handed on, the vector is expanded in the basis and made nonnegative entry by entry.  If the reduced solver
    solved its problem, the residual of the full problem B φ = λ A φ is orthogonal to every basis vector. -/
theorem C119_generalized {n r : Nat} {A B : (Nat → K) → Nat → K} {a b : Nat → Nat → K} (hA : IsMat n A a) (hB : IsMat n B b)
    {U : Dense K} {u : Nat → Nat → K} (h : Rep n r U u) (k : Kind) (hk : k ≠ .energyIndependent)
    (eig : Dense K → Option (Dense K) → (Nat → K) → (Nat → K) × K) :
    ∃ P Q x l s, eig P (some Q) (fun _ => 1) = (x, l) ∧ solve k A B eig U = some (s, l) ∧
      (∀ p < r, ∀ q < r, P.get p q = some (sandwich n u b p q) ∧ Q.get p q = some (sandwich n u a p q)) ∧
      (∀ j < n, s j = |mulU r u x j|) ∧
      (Solves P (some Q) x l ↔ ∀ p < r, ∑ j ∈ range n, u j p *
        ((∑ m ∈ range n, b j m * mulU r u x m) - l * ∑ m ∈ range n, a j m * mulU r u x m) = 0) := by
  obtain ⟨Q, hQ, rQ⟩ := project_mat hA h (rep_new r r (0 : K))
  obtain ⟨P, hP, rP⟩ := project_mat hB h (rep_new r r (0 : K))
  rcases hxl : eig P (some Q) (fun _ => 1) with ⟨x, l⟩
  have hs : solve k A B eig U = some (fixSign U.m (U.multiply x), l) := by
    rw [solve, h.2.1, hQ]
    cases k with
    | energyIndependent => exact absurd rfl hk
    | diffusion => simp [hP, hxl]
    | energyDependent => simp [hP, hxl]
  refine ⟨P, Q, x, l, _, hxl, hs, fun p hp q hq => ⟨rep_get rP hp hq, rep_get rQ hp hq⟩, fun j hj => ?_, ?_⟩
  · rw [fixSign_spec, h.1, if_pos hj, (rep_multiply h x).1 j hj]; rfl
  · simp only [Solves, rP.1]
    refine forall₂_congr fun p hp => ?_
    rw [(rep_multiply rP x).1 p hp, (rep_multiply rQ x).1 p hp, sandwich_mul, sandwich_mul]
    simp only [mul_sub, sum_sub_distrib]
    rw [sub_eq_zero, mul_sum]
    have : ∀ c : K, ∀ f : Nat → K, ∑ j ∈ range n, c * (u j p * f j) = ∑ j ∈ range n, u j p * (c * f j) :=
      fun c f => sum_congr rfl fun j _ => by ring
    rw [this]

/-- C119, energy-independent problems: the same with the one matrix UᵀAU; the orthogonality is that of A φ to λ c, which is
    the residual of A φ = λ φ when the columns are orthonormal. -/
theorem C119_standard {n r : Nat} {A : (Nat → K) → Nat → K} {a : Nat → Nat → K} (hA : IsMat n A a) (B : (Nat → K) → Nat → K)
    {U : Dense K} {u : Nat → Nat → K} (h : Rep n r U u)
    (eig : Dense K → Option (Dense K) → (Nat → K) → (Nat → K) × K) :
    ∃ P x l s, eig P none (fun _ => 1) = (x, l) ∧ solve .energyIndependent A B eig U = some (s, l) ∧
      (∀ p < r, ∀ q < r, P.get p q = some (sandwich n u a p q)) ∧
      (∀ j < n, s j = |mulU r u x j|) ∧
      (Solves P none x l ↔ ∀ p < r, ∑ j ∈ range n, u j p * (∑ m ∈ range n, a j m * mulU r u x m) = l * x p) ∧
      ((∀ p < r, ∀ q < r, ∑ j ∈ range n, u j p * u j q = if p = q then 1 else 0) →
        (Solves P none x l ↔ ∀ p < r, ∑ j ∈ range n, u j p *
          ((∑ m ∈ range n, a j m * mulU r u x m) - l * mulU r u x j) = 0)) := by
  obtain ⟨P, hP, rP⟩ := project_mat hA h (rep_new r r (0 : K))
  rcases hxl : eig P none (fun _ => 1) with ⟨x, l⟩
  have hs : solve .energyIndependent A B eig U = some (fixSign U.m (U.multiply x), l) := by
    rw [solve, h.2.1, hP]
    simp [hxl]
  have h1 : Solves P none x l ↔ ∀ p < r, ∑ j ∈ range n, u j p * (∑ m ∈ range n, a j m * mulU r u x m) = l * x p := by
    simp only [Solves, rP.1]
    refine forall₂_congr fun p hp => ?_
    rw [(rep_multiply rP x).1 p hp, sandwich_mul]
  refine ⟨P, x, l, _, hxl, hs, fun p hp q hq => rep_get rP hp hq, fun j hj => ?_, h1, fun ho => ?_⟩
  · rw [fixSign_spec, h.1, if_pos hj, (rep_multiply h x).1 j hj]; rfl
  · rw [h1]
    refine forall₂_congr fun p hp => ?_
    simp only [mul_sub, sum_sub_distrib]
    rw [sub_eq_zero]
    have : ∑ j ∈ range n, u j p * (l * mulU r u x j) = l * x p := by
      have e : ∀ j ∈ range n, u j p * (l * mulU r u x j) = ∑ q ∈ range r, l * x q * (u j p * u j q) := by
        intro j _
        rw [mulU, mul_sum, mul_sum]
        exact sum_congr rfl fun q _ => by ring
      rw [sum_congr rfl e, sum_comm]
      have e2 : ∀ q ∈ range r, ∑ j ∈ range n, l * x q * (u j p * u j q) = if p = q then l * x q else 0 := by
        intro q hq
        rw [← mul_sum, ho p hp q (mem_range.mp hq)]
        split <;> simp
      rw [sum_congr rfl e2, sum_ite_eq, if_pos (mem_range.mpr hp)]
    rw [this]

/-- C119, the basis can represent the answer: if the full eigenvector is `U c`, then `c` solves the reduced problem with the
    same eigenvalue. -/
theorem C119_exact {n r : Nat} {a b u : Nat → Nat → K} {c : Nat → K} {l : K} {P Q : Dense K}
    (hP : Rep r r P (sandwich n u b)) (hQ : Rep r r Q (sandwich n u a))
    (hc : ∀ j < n, ∑ m ∈ range n, b j m * mulU r u c m = l * ∑ m ∈ range n, a j m * mulU r u c m) : Solves P (some Q) c l := by
  intro p hp
  rw [hP.1] at hp
  simp only
  rw [(rep_multiply hP c).1 p hp, (rep_multiply hQ c).1 p hp, sandwich_mul, sandwich_mul, mul_sum]
  refine sum_congr rfl fun j hj => ?_
  rw [hc j (mem_range.mp hj)]
  ring

/-- C119, the returned vector: if the expanded vector solves the full problem and has one sign, the returned one solves it too
    and is nonnegative. -/
theorem C119_solution_partial {n : Nat} {a b : Nat → Nat → K} {φ s : Nat → K} {l : K} (hs : ∀ j < n, s j = |φ j|)
    (hφ : (∀ j < n, 0 ≤ φ j) ∨ ∀ j < n, φ j ≤ 0)
    (he : ∀ j < n, ∑ m ∈ range n, b j m * φ m = l * ∑ m ∈ range n, a j m * φ m) :
    (∀ j < n, 0 ≤ s j) ∧ ∀ j < n, ∑ m ∈ range n, b j m * s m = l * ∑ m ∈ range n, a j m * s m := by
  refine ⟨fun j hj => by rw [hs j hj]; exact abs_nonneg _, fun j hj => ?_⟩
  rcases hφ with h | h
  · have e : ∀ f : Nat → K, ∑ m ∈ range n, f m * s m = ∑ m ∈ range n, f m * φ m := fun f =>
      sum_congr rfl fun m hm => by rw [hs m (mem_range.mp hm), abs_of_nonneg (h m (mem_range.mp hm))]
    rw [e, e, he j hj]
  · have e : ∀ f : Nat → K, ∑ m ∈ range n, f m * s m = -∑ m ∈ range n, f m * φ m := fun f => by
      rw [← sum_neg_distrib]
      exact sum_congr rfl fun m hm => by rw [hs m (mem_range.mp hm), abs_of_nonpos (h m (mem_range.mp hm))]; ring
    rw [e, e, he j hj]
    ring

/-- The full claim: whenever the expanded vector is an eigenvector of the full problem, so is the returned one. -/
def C119Claim : Prop :=
  ∀ (n r : Nat) (a : Nat → Nat → ℚ) (u : Nat → Nat → ℚ) (U : Dense ℚ) (x : Nat → ℚ) (l : ℚ) (s : Nat → ℚ), Rep n r U u →
    solve .energyIndependent (fun v i => ∑ j ∈ range n, a i j * v j) (fun v => v) (fun _ _ _ => (x, l)) U = some (s, l) →
    (∀ j < n, ∑ m ∈ range n, a j m * mulU r u x m = l * mulU r u x j) →
    ∀ j < n, ∑ m ∈ range n, a j m * s m = l * s j

/-- C119, the claim fails: the dominant eigenvector (1, −1) of ((2, −1), (−1, 2)), eigenvalue 3, is returned as (1, 1), which
    belongs to the eigenvalue 1. -/
theorem C119_claim_fails : ¬ C119Claim := by
  intro h
  have h1 := h 2 1 (fun i j => if i = j then 2 else -1) (fun i _ => if i = 0 then 1 else -1) ⟨2, 1, [1, -1]⟩ (fun _ => 1) 3
    (fixSign 2 ((⟨2, 1, [1, -1]⟩ : Dense ℚ).multiply fun _ => 1)) (by
      refine ⟨rfl, rfl, rfl, ?_⟩
      decide +kernel) rfl (by decide +kernel) 0 (by omega)
  revert h1
  decide +kernel

omit K in
/-- C119, the choice: the three names select their operator, every other name and no name the energy-dependent one. -/
theorem C119_kind (o : Option String) :
    (chooseKind o = .diffusion ↔ o = some "diffusion") ∧
      (chooseKind o = .energyIndependent ↔ o = some "energy-independent") := by
  cases o with
  | none => simp [chooseKind]
  | some s =>
    simp only [chooseKind, Option.some.injEq]
    by_cases h1 : s = "diffusion"
    · subst h1; simp
    · by_cases h2 : s = "energy-independent"
      · subst h2; simp
      · simp [h1, h2]

omit K in
/-- C119, the caller's input: constructing the energy-dependent solver overwrites three of its entries, whatever they were;
    the other two kinds leave them alone. -/
theorem C119_keys (k : Kind) (d : Keys) :
    (k = .energyDependent → (setKeys k d).outerSolver = some "GMRES" ∧ (setKeys k d).cutoff = some 0 ∧
      (setKeys k d).eigenSolver = some "GD") ∧ (k ≠ .energyDependent → setKeys k d = d) := by
  cases k <;> simp [setKeys]

/-- `C119_basis` and `C119_project` on a 3 × 2 basis. -/
example :
    getBasis (some [1, 2, 3, 4, 5, 6, 7]) (Dense.new 3 2 (0 : ℚ)) = some ⟨3, 2, [1, 3, 5, 2, 4, 6]⟩ ∧
      project (fun v i => v i * ((i : ℚ) + 1)) (⟨3, 2, [1, 3, 5, 2, 4, 6]⟩ : Dense ℚ) (Dense.new 2 2 9) =
        some ⟨2, 2, [94, 116, 116, 144]⟩ ∧
      getBasis (some [1, 2, 3, 4, 5]) (Dense.new 3 2 (0 : ℚ)) = none := by decide +kernel

/-- `C119_generalized` and `C119_solution_partial` on a case: B = diag(6, 4), A = diag(2, 4), basis (1, 0): eigenvalue 3. -/
example :
    (solve .diffusion (fun v i => v i * (if i = 0 then 2 else 4)) (fun v i => v i * (if i = 0 then 6 else 4))
      (fun P Q x => (fun i => -x i, (P.get 0 0).getD 0 / ((Q.getD P).get 0 0).getD 1)) (⟨2, 1, [1, 0]⟩ : Dense ℚ)).map
        (fun q => (q.1 0, q.1 1, q.2)) = some (1, 0, 3) := by decide +kernel

end Detran.Rom
