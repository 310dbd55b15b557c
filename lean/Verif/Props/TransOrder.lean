import Verif.Lemmas.StepConverge
import Verif.Props.Transient
import Mathlib.Analysis.Calculus.ContDiff.Basic
import Mathlib.Analysis.Calculus.IteratedDeriv.Defs

/-!
# Transients converge as the time step is refined (C142)
-/

namespace Detran.Kin

open Set

/-! ## Specification: the equations in continuous time -/

/-- The rate of change of the angular flux: external and scattering sources, prompt and delayed fission, streaming and
    collision, times the velocity. -/
noncomputable def rate (x : Sys ℝ) (stream : KMat ℝ → (Nat → Nat → Nat → ℝ) → Nat → Nat → Nat → ℝ) (D : KMat ℝ) (t : ℝ)
    (psi : Nat → Nat → Nat → ℝ) (phi : Nat → Nat → ℝ) (C : Nat → Nat → ℝ) (g a i : Nat) : ℝ :=
  D.velocity g * (x.norm * (∑ g' ∈ Finset.range x.G, D.ss (x.mt i) g g' * phi g' i +
      if x.multiply then
        (1 - ∑ p ∈ Finset.range x.np, D.beta (x.mt i) p) * D.chi (x.mt i) g * production x D phi i +
          ∑ p ∈ Finset.range x.np, D.lambda p * D.chid (x.mt i) p g * C p i
      else 0) + x.ext t g a i - stream D psi g a i - D.st (x.mt i) g * psi g a i)

/-- The flux of given angular fluxes. -/
noncomputable def flux (x : Sys ℝ) (psi : Nat → Nat → Nat → ℝ) (g i : Nat) : ℝ := ∑ a ∈ Finset.range x.A, x.w a * psi g a i

/-- Angular fluxes and precursor concentrations that follow the equations from time zero to `T`, where the precursors are in
    equilibrium at first and the material depends on time only. -/
structure Evolves (x : Sys ℝ) (stream : KMat ℝ → (Nat → Nat → Nat → ℝ) → Nat → Nat → Nat → ℝ) (data : ℝ → KMat ℝ) (T : ℝ)
    (psi : ℝ → Nat → Nat → Nat → ℝ) (C : ℝ → Nat → Nat → ℝ) : Prop where
  flux : ∀ t ∈ Icc 0 T, ∀ g a i, g < x.G → a < x.A → i < x.N →
    HasDerivWithinAt (fun t => psi t g a i) (rate x stream (data t) t (psi t) (flux x (psi t)) (C t) g a i) (Icc 0 T) t
  prec : x.multiply = true → ∀ t ∈ Icc 0 T, ∀ p i, p < x.np → i < x.N →
    HasDerivWithinAt (fun t => C t p i)
      ((data t).beta (x.mt i) p * production x (data t) (Kin.flux x (psi t)) i - (data t).lambda p * C t p i) (Icc 0 T) t
  initial : x.multiply = true → ∀ p i, p < x.np → i < x.N →
    (data 0).lambda p * C 0 p i = (data 0).beta (x.mt i) p * production x (data 0) (Kin.flux x (psi 0)) i

/-- They have `n` continuous derivatives. -/
structure Smooth (x : Sys ℝ) (T : ℝ) (psi : ℝ → Nat → Nat → Nat → ℝ) (C : ℝ → Nat → Nat → ℝ) (n : Nat) : Prop where
  flux : ∀ g a i, g < x.G → a < x.A → i < x.N → ContDiffOn ℝ n (fun t => psi t g a i) (Icc 0 T)
  prec : x.multiply = true → ∀ p i, p < x.np → i < x.N → ContDiffOn ℝ n (fun t => C t p i) (Icc 0 T)

/-- Bounded from time zero to `T`. -/
def Bounded (T : ℝ) (c : ℝ → ℝ) : Prop := ∃ B, ∀ t ∈ Icc 0 T, |c t| ≤ B

/-- The material data are bounded, and streaming, which does not see what a step adds to the cross sections, is bounded: it
    changes by at most so many times as much as the fluxes. -/
structure Tame (x : Sys ℝ) (stream : KMat ℝ → (Nat → Nat → Nat → ℝ) → Nat → Nat → Nat → ℝ) (data : ℝ → KMat ℝ) (T : ℝ) :
    Prop where
  velocity : ∀ g, g < x.G → Bounded T fun t => (data t).velocity g
  st : ∀ i g, i < x.N → g < x.G → Bounded T fun t => (data t).st (x.mt i) g
  ss : ∀ i g g', i < x.N → g < x.G → g' < x.G → Bounded T fun t => (data t).ss (x.mt i) g g'
  chi : ∀ i g, i < x.N → g < x.G → Bounded T fun t => (data t).chi (x.mt i) g
  fission : ∀ i g, i < x.N → g < x.G → Bounded T fun t => (data t).nu (x.mt i) g * (data t).sf (x.mt i) g
  beta : ∀ i p, i < x.N → p < x.np → Bounded T fun t => (data t).beta (x.mt i) p
  lambda : ∀ p, p < x.np → Bounded T fun t => (data t).lambda p
  chid : ∀ i p g, i < x.N → p < x.np → g < x.G → Bounded T fun t => (data t).chid (x.mt i) p g
  streaming : ∃ B, 0 ≤ B ∧ ∀ t ∈ Icc 0 T, ∀ psi psi' r, (∀ g a i, g < x.G → a < x.A → i < x.N → |psi g a i - psi' g a i| ≤ r) →
    ∀ g a i, g < x.G → a < x.A → i < x.N → |stream (data t) psi g a i - stream (data t) psi' g a i| ≤ B * r
  same : ∀ o h t, stream (stepMat x.np o h x.k true (data t)) = stream (data t)

/-- Angular fluxes are stored, or there is one direction, whose flux is the norm times the total one: diffusion. -/
def Stored (x : Sys ℝ) : Prop := x.discrete = true ∨ x.A = 1 ∧ x.norm * x.w 0 = 1

/-! ## Bounded coefficients and Lipschitz functions -/

section lips
variable {T : ℝ}

theorem Bounded.const (c : ℝ) : Bounded T fun _ => c := ⟨|c|, fun _ _ => le_rfl⟩

theorem Bounded.sub {c d : ℝ → ℝ} (hc : Bounded T c) (hd : Bounded T d) : Bounded T fun t => c t - d t := by
  obtain ⟨B, hB⟩ := hc
  obtain ⟨B', hB'⟩ := hd
  exact ⟨B + B', fun t ht => (abs_sub _ _).trans (add_le_add (hB t ht) (hB' t ht))⟩

theorem Bounded.mul {c d : ℝ → ℝ} (hc : Bounded T c) (hd : Bounded T d) : Bounded T fun t => c t * d t := by
  obtain ⟨B, hB⟩ := hc
  obtain ⟨B', hB'⟩ := hd
  refine ⟨B * B', fun t ht => ?_⟩
  rw [abs_mul]
  exact mul_le_mul (hB t ht) (hB' t ht) (abs_nonneg _) ((abs_nonneg _).trans (hB t ht))

theorem Bounded.sum {n : Nat} {c : Nat → ℝ → ℝ} (h : ∀ j, j < n → Bounded T (c j)) :
    Bounded T fun t => ∑ j ∈ Finset.range n, c j t := by
  induction n with
  | zero => exact ⟨0, fun t _ => by simp⟩
  | succ n ih =>
    obtain ⟨B, hB⟩ := ih fun j hj => h j (by omega)
    obtain ⟨B', hB'⟩ := h n (by omega)
    refine ⟨B + B', fun t ht => ?_⟩
    dsimp only
    rw [Finset.sum_range_succ]
    exact (abs_add_le _ _).trans (add_le_add (hB t ht) (hB' t ht))

/-- Angular fluxes, total fluxes and concentrations within `r` of each other. -/
def Within (x : Sys ℝ) (r : ℝ) (psi psi' : Nat → Nat → Nat → ℝ) (phi phi' : Nat → Nat → ℝ) (C C' : Nat → Nat → ℝ) : Prop :=
  (∀ g a i, g < x.G → a < x.A → i < x.N → |psi g a i - psi' g a i| ≤ r) ∧
    (∀ g i, g < x.G → i < x.N → |phi g i - phi' g i| ≤ r) ∧
      (x.multiply = true → ∀ p i, p < x.np → i < x.N → |C p i - C' p i| ≤ r)

/-- A function of time, fluxes and concentrations that changes by at most a multiple of their change. -/
def Lips (x : Sys ℝ) (T : ℝ) (f : ℝ → (Nat → Nat → Nat → ℝ) → (Nat → Nat → ℝ) → (Nat → Nat → ℝ) → ℝ) : Prop :=
  ∃ L, 0 ≤ L ∧ ∀ t ∈ Icc 0 T, ∀ r psi psi' phi phi' C C', Within x r psi psi' phi phi' C C' → 0 ≤ r →
    |f t psi phi C - f t psi' phi' C'| ≤ L * r

variable {x : Sys ℝ} {f f' : ℝ → (Nat → Nat → Nat → ℝ) → (Nat → Nat → ℝ) → (Nat → Nat → ℝ) → ℝ}

theorem Lips.const (c : ℝ → ℝ) : Lips x T fun t _ _ _ => c t :=
  ⟨0, le_rfl, fun t _ r _ _ _ _ _ _ _ _ => by simp⟩

theorem Lips.add (hf : Lips x T f) (hf' : Lips x T f') : Lips x T fun t p q c => f t p q c + f' t p q c := by
  obtain ⟨L, h0, hL⟩ := hf
  obtain ⟨L', h0', hL'⟩ := hf'
  refine ⟨L + L', by positivity, fun t ht r p p' q q' c c' hw hr => ?_⟩
  have h1 := hL t ht r p p' q q' c c' hw hr
  have h2 := hL' t ht r p p' q q' c c' hw hr
  rw [abs_le] at h1 h2 ⊢
  constructor <;> nlinarith

theorem Lips.sub (hf : Lips x T f) (hf' : Lips x T f') : Lips x T fun t p q c => f t p q c - f' t p q c := by
  obtain ⟨L, h0, hL⟩ := hf
  obtain ⟨L', h0', hL'⟩ := hf'
  refine ⟨L + L', by positivity, fun t ht r p p' q q' c c' hw hr => ?_⟩
  have h1 := hL t ht r p p' q q' c c' hw hr
  have h2 := hL' t ht r p p' q q' c c' hw hr
  rw [abs_le] at h1 h2 ⊢
  constructor <;> nlinarith

theorem Lips.mul {c : ℝ → ℝ} (hc : Bounded T c) (hf : Lips x T f) : Lips x T fun t p q s => c t * f t p q s := by
  obtain ⟨B, hB⟩ := hc
  obtain ⟨L, h0, hL⟩ := hf
  refine ⟨|B| * L, by positivity, fun t ht r p p' q q' s s' hw hr => ?_⟩
  rw [← mul_sub, abs_mul, mul_assoc]
  exact mul_le_mul ((hB t ht).trans (le_abs_self _)) (hL t ht r p p' q q' s s' hw hr) (abs_nonneg _) (abs_nonneg _)

theorem Lips.sum {n : Nat} {f : Nat → ℝ → (Nat → Nat → Nat → ℝ) → (Nat → Nat → ℝ) → (Nat → Nat → ℝ) → ℝ}
    (h : ∀ j, j < n → Lips x T (f j)) : Lips x T fun t p q c => ∑ j ∈ Finset.range n, f j t p q c := by
  induction n with
  | zero => simpa using Lips.const (x := x) (T := T) fun _ => 0
  | succ n ih =>
    simp only [Finset.sum_range_succ]
    exact (ih fun j hj => h j (by omega)).add (h n (by omega))

theorem Lips.phi {g i : Nat} (hg : g < x.G) (hi : i < x.N) : Lips x T fun _ _ q _ => q g i :=
  ⟨1, zero_le_one, fun _ _ r _ _ _ _ _ _ hw _ => by rw [one_mul]; exact hw.2.1 g i hg hi⟩

theorem Lips.psi {g a i : Nat} (hg : g < x.G) (ha : a < x.A) (hi : i < x.N) : Lips x T fun _ p _ _ => p g a i :=
  ⟨1, zero_le_one, fun _ _ r _ _ _ _ _ _ hw _ => by rw [one_mul]; exact hw.1 g a i hg ha hi⟩

theorem Lips.prec (hm : x.multiply = true) {p i : Nat} (hp : p < x.np) (hi : i < x.N) : Lips x T fun _ _ _ c => c p i :=
  ⟨1, zero_le_one, fun _ _ r _ _ _ _ _ _ hw _ => by rw [one_mul]; exact hw.2.2 hm p i hp hi⟩

variable {stream : KMat ℝ → (Nat → Nat → Nat → ℝ) → Nat → Nat → Nat → ℝ} {data : ℝ → KMat ℝ}

theorem lips_production (hb : Tame x stream data T) {i : Nat} (hi : i < x.N) :
    Lips x T fun t _ q _ => production x (data t) q i := by
  have h1 : Lips x T fun t _ q _ => ∑ g ∈ Finset.range x.G, (data t).nu (x.mt i) g * (data t).sf (x.mt i) g * q g i :=
    Lips.sum fun g hg => (Lips.phi hg hi).mul (hb.fission i g hi hg)
  have h2 := h1.mul (Bounded.const (T := T) (1 / x.k))
  simpa only [production, div_eq_mul_inv, one_mul, mul_comm (x.k⁻¹)] using h2

theorem lips_rate (hb : Tame x stream data T) {g a i : Nat} (hg : g < x.G) (ha : a < x.A) (hi : i < x.N) :
    Lips x T fun t p q c => rate x stream (data t) t p q c g a i := by
  unfold rate
  refine Lips.mul (hb.velocity g hg) (Lips.sub (Lips.sub (Lips.add (Lips.mul (Bounded.const _) (Lips.add (Lips.sum fun g' hg' =>
    Lips.mul (hb.ss i g g' hi hg hg') (Lips.phi hg' hi)) ?_)) (Lips.const _)) ?_) (Lips.mul (hb.st i g hi hg) (Lips.psi hg ha hi)))
  · cases hm : x.multiply
    · simpa using Lips.const (x := x) (T := T) fun _ => 0
    · simp only [if_true]
      refine Lips.add (Lips.mul (Bounded.mul (Bounded.sub (Bounded.const 1) (Bounded.sum fun p hp => hb.beta i p hi hp))
        (hb.chi i g hi hg)) (lips_production hb hi)) (Lips.sum fun p hp => ?_)
      exact Lips.mul (Bounded.mul (hb.lambda p hp) (hb.chid i p g hi hp hg)) (Lips.prec hm hp hi)
  · obtain ⟨B, h0, hB⟩ := hb.streaming
    exact ⟨B, h0, fun t ht r p p' _ _ _ _ hw _ => hB t ht p p' r hw.1 g a i hg ha hi⟩

theorem lips_prec (hb : Tame x stream data T) (hm : x.multiply = true) {p i : Nat} (hp : p < x.np) (hi : i < x.N) :
    Lips x T fun t _ q c => (data t).beta (x.mt i) p * production x (data t) q i - (data t).lambda p * c p i :=
  Lips.sub (Lips.mul (hb.beta i p hi hp) (lips_production hb hi)) (Lips.mul (hb.lambda p hp) (Lips.prec hm hp hi))

end lips

/-! ## The equations as one system -/

section system
variable (x : Sys ℝ)

/-- Number of groups of precursors that are followed. -/
def groups : Nat := if x.multiply then x.np else 0

/-- The unknowns. -/
abbrev Unknown := (Fin x.G × Fin x.A × Fin x.N) ⊕ (Fin (groups x) × Fin x.N)

/-- Fluxes and concentrations as one vector. -/
def vec (psi : Nat → Nat → Nat → ℝ) (C : Nat → Nat → ℝ) : Unknown x → ℝ
  | .inl c => psi c.1 c.2.1 c.2.2
  | .inr c => C c.1 c.2

noncomputable def psiOf (u : Unknown x → ℝ) (g a i : Nat) : ℝ :=
  if h : g < x.G ∧ a < x.A ∧ i < x.N then u (.inl (⟨g, h.1⟩, ⟨a, h.2.1⟩, ⟨i, h.2.2⟩)) else 0

noncomputable def precOf (u : Unknown x → ℝ) (p i : Nat) : ℝ :=
  if h : p < groups x ∧ i < x.N then u (.inr (⟨p, h.1⟩, ⟨i, h.2⟩)) else 0

variable (stream : KMat ℝ → (Nat → Nat → Nat → ℝ) → Nat → Nat → Nat → ℝ) (data : ℝ → KMat ℝ)

/-- The right-hand side. -/
noncomputable def field (t : ℝ) (u : Unknown x → ℝ) : Unknown x → ℝ
  | .inl c => rate x stream (data t) t (psiOf x u) (flux x (psiOf x u)) (precOf x u) c.1 c.2.1 c.2.2
  | .inr c => (data t).beta (x.mt c.2) c.1 * production x (data t) (flux x (psiOf x u)) c.2 -
      (data t).lambda c.1 * precOf x u c.1 c.2

variable {x}

theorem psiOf_vec (psi : Nat → Nat → Nat → ℝ) (C : Nat → Nat → ℝ) {g a i : Nat} (hg : g < x.G) (ha : a < x.A) (hi : i < x.N) :
    psiOf x (vec x psi C) g a i = psi g a i := by
  rw [psiOf, dif_pos ⟨hg, ha, hi⟩]; rfl

theorem precOf_vec (psi : Nat → Nat → Nat → ℝ) (C : Nat → Nat → ℝ) (hm : x.multiply = true) {p i : Nat} (hp : p < x.np)
    (hi : i < x.N) : precOf x (vec x psi C) p i = C p i := by
  rw [precOf, dif_pos ⟨by rwa [groups, if_pos hm], hi⟩]; rfl

/-- The total weight of the directions. -/
noncomputable def total (x : Sys ℝ) : ℝ := ∑ a ∈ Finset.range x.A, |x.w a|

theorem total_nonneg (x : Sys ℝ) : 0 ≤ total x := Finset.sum_nonneg fun _ _ => abs_nonneg _

theorem flux_within {r : ℝ} {psi psi' : Nat → Nat → Nat → ℝ}
    (h : ∀ g a i, g < x.G → a < x.A → i < x.N → |psi g a i - psi' g a i| ≤ r) {g i : Nat} (hg : g < x.G) (hi : i < x.N) :
    |flux x psi g i - flux x psi' g i| ≤ total x * r := by
  unfold flux total
  rw [← Finset.sum_sub_distrib, Finset.sum_mul]
  refine (Finset.abs_sum_le_sum_abs _ _).trans (Finset.sum_le_sum fun a ha => ?_)
  rw [← mul_sub, abs_mul]
  exact mul_le_mul_of_nonneg_left (h g a i hg (Finset.mem_range.1 ha) hi) (abs_nonneg _)

theorem within_of {r : ℝ} (hr : 0 ≤ r) {psi psi' : Nat → Nat → Nat → ℝ} {C C' : Nat → Nat → ℝ}
    (h : ∀ g a i, g < x.G → a < x.A → i < x.N → |psi g a i - psi' g a i| ≤ r)
    (hC : x.multiply = true → ∀ p i, p < x.np → i < x.N → |C p i - C' p i| ≤ r) :
    Within x ((1 + total x) * r) psi psi' (flux x psi) (flux x psi') C C' := by
  have ht := total_nonneg x
  have h1 : r ≤ (1 + total x) * r := by nlinarith
  refine ⟨fun g a i hg ha hi => (h g a i hg ha hi).trans h1, fun g i hg hi => (flux_within h hg hi).trans (by nlinarith), ?_⟩
  exact fun hm p i hp hi => (hC hm p i hp hi).trans h1

theorem groups_lt {p : Nat} (h : p < groups x) : x.multiply = true ∧ p < x.np := by
  unfold groups at h
  cases hm : x.multiply
  · rw [hm] at h; simp at h
  · rw [hm] at h; simpa using h

theorem norm_parts (u v : Unknown x → ℝ) :
    (∀ g a i, g < x.G → a < x.A → i < x.N → |psiOf x u g a i - psiOf x v g a i| ≤ ‖u - v‖) ∧
      (x.multiply = true → ∀ p i, p < x.np → i < x.N → |precOf x u p i - precOf x v p i| ≤ ‖u - v‖) := by
  constructor
  · intro g a i hg ha hi
    rw [psiOf, psiOf, dif_pos ⟨hg, ha, hi⟩, dif_pos ⟨hg, ha, hi⟩]
    exact norm_le_pi_norm (u - v) _
  · intro hm p i hp hi
    have hp' : p < groups x := by rwa [groups, if_pos hm]
    rw [precOf, precOf, dif_pos ⟨hp', hi⟩, dif_pos ⟨hp', hi⟩]
    exact norm_le_pi_norm (u - v) _

variable {stream data} {T : ℝ}

/-- One Lipschitz constant for all components of the right-hand sides, as functions of separate fluxes. -/
theorem one_constant (hb : Tame x stream data T) :
    ∃ L, 0 ≤ L ∧ ∀ t ∈ Icc 0 T, ∀ r psi psi' phi phi' C C', Within x r psi psi' phi phi' C C' → 0 ≤ r →
      (∀ g a i, g < x.G → a < x.A → i < x.N →
        |rate x stream (data t) t psi phi C g a i - rate x stream (data t) t psi' phi' C' g a i| ≤ L * r) ∧
      (x.multiply = true → ∀ p i, p < x.np → i < x.N →
        |((data t).beta (x.mt i) p * production x (data t) phi i - (data t).lambda p * C p i) -
          ((data t).beta (x.mt i) p * production x (data t) phi' i - (data t).lambda p * C' p i)| ≤ L * r) := by
  have hex : ∀ c : Unknown x, ∃ L, 0 ≤ L ∧ ∀ t ∈ Icc 0 T, ∀ r psi psi' phi phi' C C', Within x r psi psi' phi phi' C C' → 0 ≤ r →
      match c with
      | .inl c => |rate x stream (data t) t psi phi C c.1 c.2.1 c.2.2 - rate x stream (data t) t psi' phi' C' c.1 c.2.1 c.2.2| ≤ L * r
      | .inr c => |((data t).beta (x.mt c.2) c.1 * production x (data t) phi c.2 - (data t).lambda c.1 * C c.1 c.2) -
          ((data t).beta (x.mt c.2) c.1 * production x (data t) phi' c.2 - (data t).lambda c.1 * C' c.1 c.2)| ≤ L * r := by
    rintro (c | c)
    · exact lips_rate hb c.1.2 c.2.1.2 c.2.2.2
    · obtain ⟨hm, hp⟩ := groups_lt c.1.2
      exact lips_prec hb hm hp c.2.2
  choose L h0 hL using hex
  have hs : ∀ c, L c ≤ ∑ c, L c := fun c => Finset.single_le_sum (f := L) (fun c _ => h0 c) (Finset.mem_univ c)
  refine ⟨∑ c, L c, Finset.sum_nonneg fun c _ => h0 c, fun t ht r psi psi' phi phi' C C' hw hr => ⟨?_, ?_⟩⟩
  · intro g a i hg ha hi
    exact (hL (.inl (⟨g, hg⟩, ⟨a, ha⟩, ⟨i, hi⟩)) t ht r psi psi' phi phi' C C' hw hr).trans
      (mul_le_mul_of_nonneg_right (hs _) hr)
  · intro hm p i hp hi
    exact (hL (.inr (⟨p, by rwa [groups, if_pos hm]⟩, ⟨i, hi⟩)) t ht r psi psi' phi phi' C C' hw hr).trans
      (mul_le_mul_of_nonneg_right (hs _) hr)

theorem field_lips (hb : Tame x stream data T) :
    ∃ Λ, 0 ≤ Λ ∧ ∀ t ∈ Icc 0 T, ∀ u v c, |field x stream data t u c - field x stream data t v c| ≤ Λ * ‖u - v‖ := by
  obtain ⟨L, h0, hL⟩ := one_constant hb
  have ht := total_nonneg x
  refine ⟨L * (1 + total x), by positivity, fun t htT u v c => ?_⟩
  obtain ⟨n1, n2⟩ := norm_parts u v
  have hw := within_of (norm_nonneg _) n1 n2
  obtain ⟨h1, h2⟩ := hL t htT _ _ _ _ _ _ _ hw (by positivity)
  rw [mul_assoc]
  rcases c with c | c
  · exact h1 _ _ _ c.1.2 c.2.1.2 c.2.2.2
  · obtain ⟨hm, hp⟩ := groups_lt c.1.2
    exact h2 hm _ _ hp c.2.2

/-- The right-hand side at fluxes and concentrations near given ones. -/
theorem field_near (hb : Tame x stream data T) {L : ℝ}
    (hL : ∀ t ∈ Icc 0 T, ∀ r psi psi' phi phi' C C', Within x r psi psi' phi phi' C C' → 0 ≤ r →
      (∀ g a i, g < x.G → a < x.A → i < x.N →
        |rate x stream (data t) t psi phi C g a i - rate x stream (data t) t psi' phi' C' g a i| ≤ L * r) ∧
      (x.multiply = true → ∀ p i, p < x.np → i < x.N →
        |((data t).beta (x.mt i) p * production x (data t) phi i - (data t).lambda p * C p i) -
          ((data t).beta (x.mt i) p * production x (data t) phi' i - (data t).lambda p * C' p i)| ≤ L * r))
    {t : ℝ} (ht : t ∈ Icc 0 T) {r : ℝ} (hr : 0 ≤ r) {psi u : Nat → Nat → Nat → ℝ} {phi : Nat → Nat → ℝ} {C : Nat → Nat → ℝ}
    (hpsi : ∀ g a i, g < x.G → a < x.A → i < x.N → |psi g a i - u g a i| ≤ r)
    (hphi : ∀ g i, g < x.G → i < x.N → |phi g i - flux x u g i| ≤ r) :
    (∀ (c : Fin x.G × Fin x.A × Fin x.N), |rate x stream (data t) t psi phi C c.1 c.2.1 c.2.2 -
        field x stream data t (vec x u C) (.inl c)| ≤ L * r) ∧
      ∀ (c : Fin (groups x) × Fin x.N), |((data t).beta (x.mt c.2) c.1 * production x (data t) phi c.2 - (data t).lambda c.1 * C c.1 c.2) -
        field x stream data t (vec x u C) (.inr c)| ≤ L * r := by
  have hw : Within x r psi (psiOf x (vec x u C)) phi (flux x (psiOf x (vec x u C))) C (precOf x (vec x u C)) := by
    refine ⟨fun g a i hg ha hi => ?_, fun g i hg hi => ?_, fun hm p i hp hi => ?_⟩
    · rw [psiOf_vec u C hg ha hi]; exact hpsi g a i hg ha hi
    · have : flux x (psiOf x (vec x u C)) g i = flux x u g i :=
        Finset.sum_congr rfl fun a ha => by rw [psiOf_vec u C hg (Finset.mem_range.1 ha) hi]
      rw [this]; exact hphi g i hg hi
    · rw [precOf_vec u C hm hp hi, sub_self, abs_zero]; exact hr
  obtain ⟨h1, h2⟩ := hL t ht _ _ _ _ _ _ _ hw hr
  refine ⟨fun c => h1 _ _ _ c.1.2 c.2.1.2 c.2.2.2, fun c => ?_⟩
  obtain ⟨hm, hp⟩ := groups_lt c.1.2
  exact h2 hm _ _ hp c.2.2

/-! ## A pass as a step of the system -/

/-- The unknowns a solution holds. -/
noncomputable def held (x : Sys ℝ) (s : Sol ℝ) : Unknown x → ℝ := vec x (past x s) s.C

theorem bdf_le_three (o : Nat) (h1 : 1 ≤ o) (h6 : o ≤ 6) : (bdf o 0 : ℝ) ≤ 3 := by
  interval_cases o <;> norm_num [bdf, bdfRows]

/-- The flux stored is that of the unknowns, up to what the solver leaves. -/
theorem held_near (hf : Stored x) {e : ℝ} {m : Sol ℝ} (he : 0 ≤ e)
    (ht : ∀ g i, g < x.G → i < x.N → |m.phi g i - ∑ a ∈ Finset.range x.A, x.w a * m.psi g a i| ≤ e) :
    (∀ g a i, g < x.G → a < x.A → i < x.N → |m.psi g a i - past x m g a i| ≤ (1 + |x.norm|) * e) ∧
      ∀ g i, g < x.G → i < x.N → |m.phi g i - flux x (past x m) g i| ≤ e := by
  have h1 : 0 ≤ (1 + |x.norm|) * e := by positivity
  cases hd : x.discrete
  · obtain ⟨hA, hn⟩ : x.A = 1 ∧ x.norm * x.w 0 = 1 := hf.resolve_left (by simp [hd])
    have hp : ∀ g a i, past x m g a i = x.norm * m.phi g i := by intro g a i; simp [past, hd]
    constructor
    · intro g a i hg ha hi
      obtain rfl : a = 0 := by omega
      have h2 := ht g i hg hi
      rw [hA, Finset.sum_range_one] at h2
      rw [hp]
      have h3 : m.psi g 0 i - x.norm * m.phi g i = -(x.norm * (m.phi g i - x.w 0 * m.psi g 0 i)) := by
        linear_combination -(m.psi g 0 i) * hn
      rw [h3, abs_neg, abs_mul]
      have := mul_le_mul_of_nonneg_left h2 (abs_nonneg x.norm)
      linarith
    · intro g i hg hi
      unfold flux
      rw [hA, Finset.sum_range_one, hp]
      have : m.phi g i - x.w 0 * (x.norm * m.phi g i) = 0 := by linear_combination -(m.phi g i) * hn
      rw [this, abs_zero]; exact he
  · have hp : past x m = m.psi := by funext g a i; simp [past, hd]
    rw [hp]
    exact ⟨fun g a i _ _ _ => by rw [sub_self, abs_zero]; exact h1, ht⟩

/-- What a pass finds solves the difference equations of the system, up to what the solver leaves. -/
theorem advance_residual (hb : Tame x stream data T) (hf : Stored x) {V : Nat → ℝ} (hvel : ∀ t, (data t).velocity = V)
    (hV : ∀ g, g < x.G → 0 < V g) :
    ∃ Kc, 0 ≤ Kc ∧ ∀ (e h t : ℝ) (o : Nat) (old : Nat → Sol ℝ) (c m : Sol ℝ), 0 ≤ e → 0 < h → t ∈ Icc 0 T → 1 ≤ o → o ≤ 6 →
      Advance x stream (fun t _ => data t) e o h t old c m → ∀ j,
        |bdf o 0 * held x m j - ∑ l ∈ Finset.range o, bdf o (l + 1) * held x (old l) j - h * field x stream data t (held x m) j| ≤
          h * (Kc * (e + e / h)) := by
  obtain ⟨L, h0, hL⟩ := one_constant hb
  set BV := ∑ g ∈ Finset.range x.G, |V g| with hBV
  have hBV0 : 0 ≤ BV := Finset.sum_nonneg fun _ _ => abs_nonneg _
  set κ := 1 + |x.norm| with hκ
  have hκ0 : 1 ≤ κ := by have := abs_nonneg x.norm; linarith
  refine ⟨BV + 3 * κ + L * κ, by positivity, ?_⟩
  intro e h t o old c m he hh ht h1 h6 ad j
  obtain ⟨n1, n2⟩ := held_near hf he ad.total
  have hκe : e ≤ κ * e := by nlinarith
  obtain ⟨f1, f2⟩ := field_near hb hL ht (r := κ * e) (by positivity) (C := m.C) n1 (fun g i hg hi => (n2 g i hg hi).trans hκe)
  have hfin : h * ((BV + 3 * κ + L * κ) * (e + e / h)) = (BV + 3 * κ + L * κ) * (h * e + e) := by
    field_simp
  rw [hfin]
  have hhe : 0 ≤ h * e := by positivity
  rcases j with j | j
  · have hg := j.1.2
    have ha := j.2.1.2
    have hi := j.2.2.2
    have hr := ad.flux j.1 j.2.1 j.2.2 hg ha hi
    rw [hb.same] at hr
    have hvj : V j.1 ≤ BV :=
      (le_abs_self _).trans (Finset.single_le_sum (f := fun g => |V g|) (fun _ _ => abs_nonneg _) (Finset.mem_range.2 hg))
    have hv0 := hV j.1 hg
    have heq : bdf o 0 * m.psi j.1 j.2.1 j.2.2 - ∑ l ∈ Finset.range o, bdf o (l + 1) * past x (old l) j.1 j.2.1 j.2.2 -
        h * rate x stream (data t) t m.psi m.phi m.C j.1 j.2.1 j.2.2 =
        V j.1 * h * stepResid x (stream (data t)) (data t) o h t old m j.1 j.2.1 j.2.2 := by
      unfold stepResid rate
      rw [hvel]
      field_simp
      ring
    have hr2 : |V j.1 * h * stepResid x (stream (data t)) (data t) o h t old m j.1 j.2.1 j.2.2| ≤ BV * h * e := by
      rw [abs_mul, abs_of_pos (by positivity : 0 < V j.1 * h)]
      exact mul_le_mul (mul_le_mul_of_nonneg_right hvj hh.le) hr (abs_nonneg _) (by positivity)
    have h3 := f1 j
    have h4 : |h * (rate x stream (data t) t m.psi m.phi m.C j.1 j.2.1 j.2.2 - field x stream data t (vec x (past x m) m.C) (.inl j))|
        ≤ h * (L * (κ * e)) := by
      rw [abs_mul, abs_of_pos hh]; exact mul_le_mul_of_nonneg_left h3 hh.le
    have h5 : |bdf o 0 * (m.psi j.1 j.2.1 j.2.2 - past x m j.1 j.2.1 j.2.2)| ≤ 3 * (κ * e) := by
      rw [abs_mul, abs_of_pos (bdf_pos o h1 h6)]
      exact mul_le_mul (bdf_le_three o h1 h6) (n1 _ _ _ hg ha hi) (abs_nonneg _) (by norm_num)
    have hsplit : bdf o 0 * held x m (.inl j) - ∑ l ∈ Finset.range o, bdf o (l + 1) * held x (old l) (.inl j) -
        h * field x stream data t (held x m) (.inl j) =
        V j.1 * h * stepResid x (stream (data t)) (data t) o h t old m j.1 j.2.1 j.2.2 -
          bdf o 0 * (m.psi j.1 j.2.1 j.2.2 - past x m j.1 j.2.1 j.2.2) +
          h * (rate x stream (data t) t m.psi m.phi m.C j.1 j.2.1 j.2.2 - field x stream data t (vec x (past x m) m.C) (.inl j)) := by
      rw [← heq]
      show bdf o 0 * past x m j.1 j.2.1 j.2.2 - ∑ l ∈ Finset.range o, bdf o (l + 1) * past x (old l) j.1 j.2.1 j.2.2 -
        h * field x stream data t (vec x (past x m) m.C) (.inl j) = _
      ring
    rw [hsplit]
    have hx1 : 0 ≤ κ * (h * e) := by positivity
    have hx2 : 0 ≤ L * κ * e := by positivity
    have hx3 : 0 ≤ BV * e := by positivity
    rw [abs_le] at hr2 h4 h5 ⊢
    constructor <;> nlinarith
  · obtain ⟨hm, hp⟩ := groups_lt j.1.2
    have hpr := ad.prec hm j.1 j.2 hp
    rw [div_eq_iff hh.ne'] at hpr
    have h3 := f2 j
    have h4 : |h * (((data t).beta (x.mt j.2) j.1 * production x (data t) m.phi j.2 - (data t).lambda j.1 * m.C j.1 j.2) -
        field x stream data t (vec x (past x m) m.C) (.inr j))| ≤ h * (L * (κ * e)) := by
      rw [abs_mul, abs_of_pos hh]; exact mul_le_mul_of_nonneg_left h3 hh.le
    have hsplit : bdf o 0 * held x m (.inr j) - ∑ l ∈ Finset.range o, bdf o (l + 1) * held x (old l) (.inr j) -
        h * field x stream data t (held x m) (.inr j) =
        h * (((data t).beta (x.mt j.2) j.1 * production x (data t) m.phi j.2 - (data t).lambda j.1 * m.C j.1 j.2) -
        field x stream data t (vec x (past x m) m.C) (.inr j)) := by
      show bdf o 0 * m.C j.1 j.2 - ∑ l ∈ Finset.range o, bdf o (l + 1) * (old l).C j.1 j.2 -
        h * field x stream data t (vec x (past x m) m.C) (.inr j) = _
      linear_combination hpr
    rw [hsplit]
    refine h4.trans ?_
    have hx1 : 0 ≤ BV * (h * e + e) := by positivity
    have hx2 : 0 ≤ 3 * κ * (h * e + e) := by positivity
    have hx3 : 0 ≤ L * κ * e := by positivity
    nlinarith

/-- The last pass of a step. -/
theorem iterated_last {x : Sys ℝ} {stream : KMat ℝ → (Nat → Nat → Nat → ℝ) → Nat → Nat → Nat → ℝ}
    {data : ℝ → (Nat → Nat → ℝ) → KMat ℝ} {e : ℝ} {o : Nat} {h t : ℝ} {half : Bool} {old : Nat → Sol ℝ} {n : Nat} {c s : Sol ℝ}
    (it : Iterated x stream data e o h t half old n c s) :
    ∃ c' m, Advance x stream data e o h t old c' m ∧ Finish x half m (old 0) s := by
  induction it with
  | last limit c m s ha hf _ => exact ⟨c, m, ha, hf⟩
  | more limit c m c' s _ _ _ _ ih => exact ih

/-! ## A smooth solution as a flow -/

/-- Derivatives of a smooth function on an interval, with a bound. -/
theorem derivatives (hT : 0 < T) (f : ℝ → ℝ) (n : Nat) (hf : ContDiffOn ℝ n f (Icc 0 T)) :
    ∃ M, 0 ≤ M ∧ Chain T n (fun m => iteratedDerivWithin m f (Icc 0 T)) ∧
      ∀ m, m ≤ n → ∀ t ∈ Icc 0 T, |iteratedDerivWithin m f (Icc 0 T) t| ≤ M := by
  have hu : UniqueDiffOn ℝ (Icc 0 T) := uniqueDiffOn_Icc hT
  have hbd : ∀ m, ∃ M, 0 ≤ M ∧ (m ≤ n → ∀ t ∈ Icc 0 T, |iteratedDerivWithin m f (Icc 0 T) t| ≤ M) := by
    intro m
    by_cases hm : m ≤ n
    · have hc : ContinuousOn (iteratedDerivWithin m f (Icc 0 T)) (Icc 0 T) :=
        hf.continuousOn_iteratedDerivWithin (by exact_mod_cast hm) hu
      obtain ⟨M, hM⟩ := isCompact_Icc.exists_bound_of_continuousOn hc
      exact ⟨|M|, abs_nonneg _, fun _ t ht => (hM t ht).trans (le_abs_self _)⟩
    · exact ⟨0, le_rfl, fun h => absurd h hm⟩
  choose M h0 hM using hbd
  refine ⟨∑ m ∈ Finset.range (n + 1), M m, Finset.sum_nonneg fun m _ => h0 m, ?_, fun m hm t ht => (hM m hm t ht).trans ?_⟩
  · intro m hm t ht
    have hdiff : DifferentiableOn ℝ (iteratedDerivWithin m f (Icc 0 T)) (Icc 0 T) :=
      hf.differentiableOn_iteratedDerivWithin (by exact_mod_cast hm) hu
    have := (hdiff t ht).hasDerivWithinAt
    rwa [← iteratedDerivWithin_succ] at this
  · exact Finset.single_le_sum (f := M) (fun m _ => h0 m) (Finset.mem_range.2 (by omega))

/-- The unknowns of the equations in continuous time. -/
theorem flow_of (hb : Tame x stream data T) (hT : 0 < T) {psi : ℝ → Nat → Nat → Nat → ℝ} {C : ℝ → Nat → Nat → ℝ}
    (ev : Evolves x stream data T psi C) {q : Nat} (sm : Smooth x T psi C (q + 1)) {Λ : ℝ} (h0 : 0 ≤ Λ)
    (hΛ : ∀ t ∈ Icc 0 T, ∀ u v c, |field x stream data t u c - field x stream data t v c| ≤ Λ * ‖u - v‖) :
    ∃ M d, Flow T (field x stream data) Λ (fun t => vec x (psi t) (C t)) q M d := by
  have hu : UniqueDiffOn ℝ (Icc 0 T) := uniqueDiffOn_Icc hT
  have hsm : ∀ c : Unknown x, ContDiffOn ℝ (q + 1 : Nat) (fun t => vec x (psi t) (C t) c) (Icc 0 T) := by
    rintro (c | c)
    · exact sm.flux _ _ _ c.1.2 c.2.1.2 c.2.2.2
    · obtain ⟨hm, hp⟩ := groups_lt c.1.2
      exact sm.prec hm _ _ hp c.2.2
  choose M hM0 hch hbd using fun c => derivatives hT _ _ (hsm c)
  refine ⟨∑ c, M c, fun c m => iteratedDerivWithin m (fun t => vec x (psi t) (C t) c) (Icc 0 T), h0,
    Finset.sum_nonneg fun c _ => hM0 c, hΛ, fun c t _ => by rw [iteratedDerivWithin_zero], ?_, hch, ?_⟩
  · obtain ⟨L, l0, hL⟩ := one_constant hb
    intro c t ht
    rw [iteratedDerivWithin_one]
    obtain ⟨f1, f2⟩ := field_near hb hL ht (r := 0) le_rfl (psi := psi t) (u := psi t) (phi := Kin.flux x (psi t)) (C := C t)
      (fun _ _ _ _ _ _ => by simp) (fun _ _ _ _ => by simp)
    simp only [mul_zero, abs_nonpos_iff, sub_eq_zero] at f1 f2
    rcases c with c | c
    · refine ((ev.flux t ht _ _ _ c.1.2 c.2.1.2 c.2.2.2).derivWithin (hu t ht)).trans ?_
      exact f1 c
    · obtain ⟨hm, hp⟩ := groups_lt c.1.2
      refine ((ev.prec hm t ht _ _ hp c.2.2).derivWithin (hu t ht)).trans ?_
      exact f2 c
  · intro c m _ hm t ht
    exact (hbd c m hm t ht).trans (Finset.single_le_sum (f := M) (fun c _ => hM0 c) (Finset.mem_univ c))

end system

/-! ## The transients -/

/-- The order the scheme shows: two for the midpoint rule, that of the implicit difference up to three, but no more than two
    if the first step is a whole one of order one. -/
def attained (scheme : Nat) (noExtrap : Bool) : Nat :=
  if scheme = 0 then 2 else if scheme ≤ 2 then scheme else if noExtrap then 2 else 3

/-- The same stepper with another step size, solver, convergence test and limit of passes. -/
def refined (x : Sys ℝ) (dt : ℝ) (solve : KMat ℝ → (Nat → Nat → Nat → ℝ) → Sol ℝ → (Nat → Nat → ℝ) × (Nat → Nat → Nat → ℝ))
    (conv : Sol ℝ → Sol ℝ → Bool) (limit : Nat) : Sys ℝ :=
  { x with dt := dt, solve := solve, conv := conv, maxIter := limit }

/-- With steps up to `h0`, whatever the solver, all solutions up to time `T` are within `Kc (dt ^ q + e / dt)` of those of the
    equations in continuous time, where `e` is what the solver leaves. -/
def Converges (x : Sys ℝ) (stream : KMat ℝ → (Nat → Nat → Nat → ℝ) → Nat → Nat → Nat → ℝ) (data : ℝ → KMat ℝ) (V L : Nat → ℝ)
    (T : ℝ) (psi : ℝ → Nat → Nat → Nat → ℝ) (C : ℝ → Nat → Nat → ℝ) (q : Nat) (Kc h0 : ℝ) : Prop :=
  ∀ (dt e : ℝ) (solve : KMat ℝ → (Nat → Nat → Nat → ℝ) → Sol ℝ → (Nat → Nat → ℝ) × (Nat → Nat → Nat → ℝ))
    (conv : Sol ℝ → Sol ℝ → Bool) (limit : Nat), 0 < dt → dt ≤ h0 → 0 ≤ e → 1 ≤ limit →
    SolvedTo (refined x dt solve conv limit) stream (fun t _ => data t) e →
    ∀ (phi0 : Nat → Nat → ℝ) (psi0 : Nat → Nat → Nat → ℝ) (r : Run ℝ), Ready (refined x dt solve conv limit) V L r →
      (∀ g i, g < x.G → i < x.N → phi0 g i = flux x (psi 0) g i) →
      (x.discrete = true → ∀ g a i, g < x.G → a < x.A → i < x.N → psi0 g a i = psi 0 g a i) →
      ∀ n : Nat, (n : ℝ) * dt ≤ T → ∃ r' s l, (refined x dt solve conv limit).transient phi0 psi0 r n = some (r', s :: l) ∧
        (∀ g i, g < x.G → i < x.N → |s.phi g i - flux x (psi (n * dt)) g i| ≤ Kc * (dt ^ q + e / dt)) ∧
        (x.discrete = true → ∀ g a i, g < x.G → a < x.A → i < x.N → |s.psi g a i - psi (n * dt) g a i| ≤ Kc * (dt ^ q + e / dt)) ∧
        (x.multiply = true → ∀ p i, p < x.np → i < x.N → |s.C p i - C (n * dt) p i| ≤ Kc * (dt ^ q + e / dt))

/-- The kind of step `i`: half a step of order one and an extrapolation, or a whole one. -/
def halved (x : Sys ℝ) (i : Nat) : Prop := x.scheme = 0 ∨ (decide (2 ≤ x.scheme) && !x.noExtrap) = true ∧ i = 1

instance (x : Sys ℝ) (i : Nat) : Decidable (halved x i) := by unfold halved; infer_instance

/-- Transients follow the difference equations of the equations in continuous time. -/
theorem follows (x : Sys ℝ) (stream : KMat ℝ → (Nat → Nat → Nat → ℝ) → Nat → Nat → Nat → ℝ) (data : ℝ → KMat ℝ)
    (V L : Nat → ℝ) (hx : Timed x (fun t _ => data t) V L) (hV : ∀ g, g < x.G → 0 < V g) (hL : ∀ p, p < x.np → 0 < L p)
    (hsch : x.scheme ≤ 6) (hf : Stored x) (T : ℝ) (hb : Tame x stream data T) (psi : ℝ → Nat → Nat → Nat → ℝ)
    (C : ℝ → Nat → Nat → ℝ) (ev : Evolves x stream data T psi C) :
    ∃ Ka, 0 ≤ Ka ∧ ∀ (dt e : ℝ) (solve : KMat ℝ → (Nat → Nat → Nat → ℝ) → Sol ℝ → (Nat → Nat → ℝ) × (Nat → Nat → Nat → ℝ))
      (conv : Sol ℝ → Sol ℝ → Bool) (limit : Nat), 0 < dt → 0 ≤ e → 1 ≤ limit →
      SolvedTo (refined x dt solve conv limit) stream (fun t _ => data t) e →
      ∀ (phi0 : Nat → Nat → ℝ) (psi0 : Nat → Nat → Nat → ℝ) (r : Run ℝ), Ready (refined x dt solve conv limit) V L r →
        (∀ g i, g < x.G → i < x.N → phi0 g i = flux x (psi 0) g i) →
        (x.discrete = true → ∀ g a i, g < x.G → a < x.A → i < x.N → psi0 g a i = psi 0 g a i) →
        ∃ sol : Nat → Sol ℝ,
          (∀ n, ∃ r', (refined x dt solve conv limit).transient phi0 psi0 r n = some (r', (List.range (n + 1)).reverse.map sol)) ∧
          held x (sol 0) = vec x (psi 0) (C 0) ∧
          (∀ i : Nat, 1 ≤ i → (i : ℝ) * dt ≤ T → if halved x i
            then Midpoint (field x stream data) dt (Ka * (e + 2 * (e / dt))) (fun n => held x (sol n)) i
            else Implicit (field x stream data) (max 1 x.scheme) dt (Ka * (e + 2 * (e / dt))) (fun n => held x (sol n)) i) ∧
          ∀ n g i, g < x.G → i < x.N → |(sol n).phi g i - flux x (past x (sol n)) g i| ≤ e := by
  obtain ⟨Ka, hKa, adv⟩ := advance_residual hb hf (fun t => hx.vel t fun _ _ => 0) hV
  refine ⟨Ka, hKa, ?_⟩
  set first : Bool := decide (2 ≤ x.scheme) && !x.noExtrap with hfirst
  intro dt e solve cv limit hdt he hlim hsolve phi0 psi0 r hr hphi0 hpsi0
  obtain ⟨sol, htr, hs1, hs2, -, hs3, hstep⟩ := C126_transient (refined x dt solve cv limit) stream (fun t _ => data t) V L
    ⟨hx.same, hx.vel, hx.dec⟩ hV hL hsch hdt hlim e hsolve phi0 psi0 r hr
  have hed0 : 0 ≤ e / dt := by positivity
  have hee : e / (dt / 2) = 2 * (e / dt) := by field_simp
  set ε := Ka * (e + 2 * (e / dt)) with hε
  have hε0 : 0 ≤ ε := by positivity
  have hε1 : Ka * (e + e / dt) ≤ ε := mul_le_mul_of_nonneg_left (by linarith) hKa
  -- the last pass of each step
  have hlast : ∀ i, 1 ≤ i → let hf : Bool := decide (x.scheme = 0) || (decide (2 ≤ x.scheme) && decide (i = 1) && !x.noExtrap)
      ∃ c m, Advance x stream (fun t _ => data t) e (min i (max 1 x.scheme)) (if hf then dt / 2 else dt)
        (if hf then (i : ℝ) * dt - dt / 2 else (i : ℝ) * dt) (fun j => sol (i - 1 - j)) c m ∧
        Finish x hf m (sol (i - 1)) (sol i) := by
    intro i hi hf
    obtain ⟨c, m, ha, hfi⟩ := iterated_last (hstep i hi)
    exact ⟨c, m, ⟨ha.flux, ha.total, ha.prec, ha.noPrec, ha.phys, ha.noPhys⟩,
      ⟨hfi.whole, hfi.psi, hfi.total, hfi.phi, hfi.prec, hfi.phys⟩⟩
  have hflag : ∀ i, (decide (x.scheme = 0) || (decide (2 ≤ x.scheme) && decide (i = 1) && !x.noExtrap)) = true ↔
      x.scheme = 0 ∨ first = true ∧ i = 1 := by
    intro i
    simp only [hfirst, Bool.or_eq_true, Bool.and_eq_true, decide_eq_true_eq]
    tauto
  -- the unknowns follow the difference equations
  have hy0 : held x (sol 0) = vec x (psi 0) (C 0) := by
    funext c
    rcases c with c | c
    · show past x (sol 0) c.1 c.2.1 c.2.2 = psi 0 c.1 c.2.1 c.2.2
      cases hd : x.discrete
      · obtain ⟨hA, hnw⟩ : x.A = 1 ∧ x.norm * x.w 0 = 1 := hf.resolve_left (by simp [hd])
        have ha : (c.2.1 : Nat) = 0 := by have := c.2.1.2; omega
        simp only [past, hd, Bool.false_eq_true, if_false]
        rw [hs1, hphi0 _ _ c.1.2 c.2.2.2, ha]
        have : ∀ g i, x.norm * flux x (psi 0) g i = psi 0 g 0 i := by
          intro g i
          unfold flux
          rw [hA, Finset.sum_range_one]
          linear_combination (psi 0 g 0 i) * hnw
        exact this _ _
      · simp only [past, hd, if_true]
        rw [hs2]
        exact hpsi0 hd _ _ _ c.1.2 c.2.1.2 c.2.2.2
    · obtain ⟨hm, hp⟩ := groups_lt c.1.2
      show (sol 0).C c.1 c.2 = C 0 c.1 c.2
      have h1 := hs3 hm c.1 c.2 hp
      have h2 := ev.initial hm c.1 c.2 hp c.2.2
      have h3 : production x (data 0) phi0 c.2 = production x (data 0) (flux x (psi 0)) c.2 := by
        unfold production
        congr 1
        exact Finset.sum_congr rfl fun g hg => by rw [hphi0 g c.2 (Finset.mem_range.1 hg) c.2.2]
      have h4 : (data 0).lambda = L := hx.dec 0 fun _ _ => 0
      rw [h4, ← h3] at h2
      exact mul_left_cancel₀ (hL c.1 hp).ne' (h1.trans h2.symm)
  refine ⟨sol, fun n => ?_, hy0, ?_, ?_⟩
  · obtain ⟨r', hrun, -, -⟩ := htr n
    exact ⟨r', hrun⟩
  · intro i h1 hiT
    obtain ⟨c, m, ha, hfi⟩ := hlast i h1
    have hi1 : (1 : ℝ) ≤ i := by exact_mod_cast h1
    split
    · rename_i hcase
      have hfl := (hflag i).2 hcase
      rw [hfl] at ha hfi
      simp only [if_true] at ha
      have hmin : min i (max 1 x.scheme) = 1 := by
        rcases hcase with h | h
        · rw [h]; omega
        · omega
      rw [hmin] at ha
      have hpast : ∀ j, held x m j = (held x (sol i) j + held x (sol (i - 1)) j) / 2 := by
        rintro (j | j)
        · show past x m j.1 j.2.1 j.2.2 = (past x (sol i) j.1 j.2.1 j.2.2 + past x (sol (i - 1)) j.1 j.2.1 j.2.2) / 2
          cases hd : x.discrete
          · have := hfi.phi rfl hd j.1 j.2.2
            simp only [past, hd, Bool.false_eq_true, if_false]
            rw [← this]; ring
          · have := hfi.psi rfl hd j.1 j.2.1 j.2.2
            simp only [past, hd, if_true]
            exact this.symm
        · obtain ⟨hm, hp⟩ := groups_lt j.1.2
          exact (hfi.prec rfl hm j.1 j.2 hp).symm
      intro j
      have hA := adv e (dt / 2) ((i : ℝ) * dt - dt / 2) 1 _ c m he (by positivity) ⟨by nlinarith, by linarith⟩ le_rfl (by norm_num) ha j
      rw [Finset.sum_range_one] at hA
      have hb0 : (bdf 1 0 : ℝ) = 1 := by norm_num [bdf, bdfRows]
      have hb1 : (bdf 1 (0 + 1) : ℝ) = 1 := by norm_num [bdf, bdfRows]
      rw [hb0, hb1, one_mul, one_mul] at hA
      have hfun : held x m = fun c => (held x (sol i) c + held x (sol (i - 1)) c) / 2 := funext hpast
      rw [hee, ← hε] at hA
      have h3 : held x (sol i) j - held x (sol (i - 1)) j -
          dt * field x stream data ((i : ℝ) * dt - dt / 2) (fun c => (held x (sol i) c + held x (sol (i - 1)) c) / 2) j =
          2 * (held x m j - held x (sol (i - 1)) j - dt / 2 * field x stream data ((i : ℝ) * dt - dt / 2) (held x m) j) := by
        rw [← hfun, hpast j]; ring
      show |held x (sol i) j - held x (sol (i - 1)) j - _| ≤ _
      rw [h3, abs_mul, abs_two]
      have hA' : |held x m j - held x (sol (i - 1)) j - dt / 2 * field x stream data ((i : ℝ) * dt - dt / 2) (held x m) j| ≤
        dt / 2 * ε := hA
      linarith
    · rename_i hcase
      have hfl : (decide (x.scheme = 0) || (decide (2 ≤ x.scheme) && decide (i = 1) && !x.noExtrap)) = false := by
        rw [← Bool.not_eq_true, hflag]; exact hcase
      rw [hfl] at ha hfi
      simp only [Bool.false_eq_true, if_false] at ha
      obtain rfl : sol i = m := hfi.whole rfl
      intro j
      have hA := adv e dt ((i : ℝ) * dt) _ _ c _ he hdt ⟨by positivity, hiT⟩ (by omega) (by omega) ha j
      have hsum : ∑ l ∈ Finset.range (min i (max 1 x.scheme)), bdf (min i (max 1 x.scheme)) (l + 1) * held x (sol (i - 1 - l)) j =
          ∑ l ∈ Finset.range (min i (max 1 x.scheme)), bdf (min i (max 1 x.scheme)) (l + 1) * held x (sol (i - (l + 1))) j :=
        Finset.sum_congr rfl fun l _ => by rw [show i - 1 - l = i - (l + 1) by omega]
      rw [hsum] at hA
      exact hA.trans (mul_le_mul_of_nonneg_left hε1 hdt.le)
  · intro n g i hg hi
    by_cases hn0 : n = 0
    · subst hn0
      rw [hs1, hphi0 g i hg hi]
      have : flux x (past x (sol 0)) g i = flux x (psi 0) g i := by
        refine Finset.sum_congr rfl fun a ha => ?_
        congr 1
        exact congrFun hy0 (.inl (⟨g, hg⟩, ⟨a, Finset.mem_range.1 ha⟩, ⟨i, hi⟩))
      rw [this, sub_self, abs_zero]; exact he
    · obtain ⟨c, m, ha, hfi⟩ := hlast n (by omega)
      cases hfl : (decide (x.scheme = 0) || (decide (2 ≤ x.scheme) && decide (n = 1) && !x.noExtrap))
      · rw [hfl] at hfi
        obtain rfl : sol n = m := hfi.whole rfl
        exact (held_near hf he ha.total).2 g i hg hi
      · rw [hfl] at hfi
        cases hd : x.discrete
        · obtain ⟨hA, hnw⟩ : x.A = 1 ∧ x.norm * x.w 0 = 1 := hf.resolve_left (by simp [hd])
          have : flux x (past x (sol n)) g i = (sol n).phi g i := by
            unfold flux
            rw [hA, Finset.sum_range_one]
            simp only [past, hd, Bool.false_eq_true, if_false]
            linear_combination ((sol n).phi g i) * hnw
          rw [this, sub_self, abs_zero]; exact he
        · have hp : past x (sol n) = (sol n).psi := by funext g a i; simp [past, hd]
          rw [hp, hfi.total rfl hd g i]
          unfold flux
          rw [sub_self, abs_zero]; exact he

/-- **C142.**  As the step is refined, transients converge to the solution of the time-dependent equations, at order two for
    the midpoint rule, one and two for the first two implicit differences, and three for the others (two without
    extrapolation). -/
theorem C142_order_partial (x : Sys ℝ) (stream : KMat ℝ → (Nat → Nat → Nat → ℝ) → Nat → Nat → Nat → ℝ) (data : ℝ → KMat ℝ)
    (V L : Nat → ℝ) (hx : Timed x (fun t _ => data t) V L) (hV : ∀ g, g < x.G → 0 < V g) (hL : ∀ p, p < x.np → 0 < L p)
    (hsch : x.scheme ≤ 6) (hf : Stored x) (T : ℝ) (hT : 0 < T) (hb : Tame x stream data T) (psi : ℝ → Nat → Nat → Nat → ℝ)
    (C : ℝ → Nat → Nat → ℝ) (ev : Evolves x stream data T psi C)
    (sm : Smooth x T psi C (attained x.scheme x.noExtrap + 1)) :
    ∃ Kc h0, 0 ≤ Kc ∧ 0 < h0 ∧ Converges x stream data V L T psi C (attained x.scheme x.noExtrap) Kc h0 := by
  set q := attained x.scheme x.noExtrap with hq
  obtain ⟨Λ, hΛ0, hΛ⟩ := field_lips hb
  obtain ⟨M, d, fl⟩ := flow_of hb hT ev sm hΛ0 hΛ
  obtain ⟨Ka, hKa, fol⟩ := follows x stream data V L hx hV hL hsch hf T hb psi C ev
  set first : Bool := decide (2 ≤ x.scheme) && !x.noExtrap with hfirst
  -- one constant for both kinds of schemes
  have hconv : ∃ Kb, 0 ≤ Kb ∧ ∀ h ε : ℝ, 0 < h → h ≤ 1 → 32 * h * Λ ≤ 1 → 0 ≤ ε → ∀ y : Nat → Unknown x → ℝ,
      y 0 = vec x (psi 0) (C 0) → ∀ N : Nat, (N : ℝ) * h ≤ T →
      (∀ n, 1 ≤ n → n ≤ N → if x.scheme = 0 ∨ first = true ∧ n = 1 then Midpoint (field x stream data) h ε y n
        else Implicit (field x stream data) (max 1 x.scheme) h ε y n) →
      ∀ n, n ≤ N → ‖y n - vec x (psi (n * h)) (C (n * h))‖ ≤ Kb * (h ^ q + ε) := by
    by_cases h0 : x.scheme = 0
    · have hq2 : q = 2 := by rw [hq, attained, if_pos h0]
      obtain ⟨Kb, k0, hK⟩ := midpoint_converges fl (by omega) hT.le
      refine ⟨Kb, k0, fun h ε hh _ hs hε y hy N hN st n hn => ?_⟩
      rw [hq2]
      refine hK h ε hh hs hε y hy N hN (fun n h1 h2 => ?_) n hn
      have := st n h1 h2
      rwa [if_pos (Or.inl h0)] at this
    · have hfq : first = true → 2 ≤ q := by
        intro hfi
        simp only [hfirst, Bool.and_eq_true, decide_eq_true_eq, Bool.not_eq_true'] at hfi
        rw [hq, attained, if_neg h0]
        split
        · exact hfi.1
        · rw [hfi.2]; simp
      have hfq2 : first = false → q ≤ 2 := by
        intro hfi
        simp only [hfirst, Bool.and_eq_false_iff, decide_eq_false_iff_not, Bool.not_eq_false'] at hfi
        rw [hq, attained, if_neg h0]
        split
        · assumption
        · rcases hfi with hfi | hfi
          · omega
          · rw [hfi]; simp
      have hq13 : 1 ≤ q ∧ q ≤ 3 ∧ q ≤ max 1 x.scheme := by
        rw [hq, attained, if_neg h0]
        split
        · omega
        · split <;> omega
      obtain ⟨Kb, k0, hK⟩ := implicit_converges fl (max 1 x.scheme) (by omega) (by omega) first hq13.1 hq13.2.2 hq13.2.1 hfq hfq2 hT.le
      refine ⟨Kb, k0, fun h ε hh hh1 hs hε y hy N hN st n hn => ?_⟩
      refine hK h ε hh hh1 hs hε y hy N hN (fun n h1 h2 => ?_) n hn
      have := st n h1 h2
      simpa only [h0, false_or] using this
  obtain ⟨Kb, hKb, conv⟩ := hconv
  have htot := total_nonneg x
  refine ⟨(1 + total x) * (Kb * (1 + 3 * Ka)) + 1, min 1 (1 / (32 * (Λ + 1))), by positivity, lt_min one_pos (by positivity), ?_⟩
  intro dt e solve cv limit hdt hdt0 he hlim hsolve phi0 psi0 r hr hphi0 hpsi0 n hn
  have hdt1 : dt ≤ 1 := hdt0.trans (min_le_left _ _)
  have hs : 32 * dt * Λ ≤ 1 := by
    have h1 : dt ≤ 1 / (32 * (Λ + 1)) := hdt0.trans (min_le_right _ _)
    rw [le_div_iff₀ (by positivity)] at h1
    nlinarith
  obtain ⟨sol, htr, hy0, hsteps, hphi⟩ := fol dt e solve cv limit hdt he hlim hsolve phi0 psi0 r hr hphi0 hpsi0
  have hed : e ≤ e / dt := by rw [le_div_iff₀ hdt]; nlinarith
  have hed0 : 0 ≤ e / dt := by positivity
  set ε := Ka * (e + 2 * (e / dt)) with hε
  have hε0 : 0 ≤ ε := by positivity
  have hε3 : ε ≤ 3 * Ka * (e / dt) := by nlinarith
  have hmem : ∀ i, 1 ≤ i → i ≤ n → (i : ℝ) * dt ≤ T := fun i _ h2 =>
    le_trans (mul_le_mul_of_nonneg_right (by exact_mod_cast h2) hdt.le) hn
  have herr := conv dt ε hdt hdt1 hs hε0 (fun n => held x (sol n)) hy0 n hn
    (fun i h1 h2 => hsteps i h1 (hmem i h1 h2)) n le_rfl
  set δ := Kb * (dt ^ q + ε) with hδ
  have hqp : 0 < dt ^ q := by positivity
  have hδ0 : 0 ≤ δ := by positivity
  have hδ1 : δ ≤ Kb * (1 + 3 * Ka) * (dt ^ q + e / dt) := by
    rw [hδ, mul_assoc]
    refine mul_le_mul_of_nonneg_left ?_ hKb
    have : 0 ≤ 3 * Ka * dt ^ q := by positivity
    nlinarith
  have hW : 0 ≤ dt ^ q + e / dt := by positivity
  have hpsi : ∀ g a i, g < x.G → a < x.A → i < x.N → |past x (sol n) g a i - psi (n * dt) g a i| ≤ δ := by
    intro g a i hg ha hi
    exact (norm_le_pi_norm (held x (sol n) - vec x (psi (n * dt)) (C (n * dt))) (.inl (⟨g, hg⟩, ⟨a, ha⟩, ⟨i, hi⟩))).trans herr
  have hbig : δ ≤ ((1 + total x) * (Kb * (1 + 3 * Ka)) + 1) * (dt ^ q + e / dt) := by
    have : 0 ≤ total x * (Kb * (1 + 3 * Ka) * (dt ^ q + e / dt)) := by positivity
    nlinarith
  obtain ⟨r', hrun⟩ := htr n
  refine ⟨r', sol n, (List.range n).reverse.map sol, ?_, ?_, ?_, ?_⟩
  · rw [hrun, List.range_succ, List.reverse_append, List.reverse_singleton, List.singleton_append, List.map_cons]
  · intro g i hg hi
    have h1 := hphi n g i hg hi
    have h2 := flux_within hpsi hg hi
    have h3 : total x * δ ≤ total x * (Kb * (1 + 3 * Ka) * (dt ^ q + e / dt)) := mul_le_mul_of_nonneg_left hδ1 htot
    have h4 : 0 ≤ Kb * (1 + 3 * Ka) * (dt ^ q + e / dt) := by positivity
    have h5 := abs_sub_le ((sol n).phi g i) (flux x (past x (sol n)) g i) (flux x (psi (n * dt)) g i)
    nlinarith
  · intro hd g a i hg ha hi
    have hp : past x (sol n) = (sol n).psi := by funext g a i; simp [past, hd]
    rw [← hp]
    exact (hpsi g a i hg ha hi).trans hbig
  · intro hm p i hp hi
    exact ((norm_le_pi_norm (held x (sol n) - vec x (psi (n * dt)) (C (n * dt)))
      (.inr (⟨p, by rwa [groups, if_pos hm]⟩, ⟨i, hi⟩))).trans herr).trans hbig

end Detran.Kin
