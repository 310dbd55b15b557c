import Verif.Props.Keff
import Verif.Lemmas.PerronRough

/-!
# Power iteration with group solves that are not exact (C143)

C134 is about power iteration whose multigroup solver returns the exact fluxes.  Here it returns fluxes that are off by up
to `e`, in any way, differently in every iteration.
-/

namespace Detran.EigenPI

open Finset Detran.Util Detran.Material

variable {K : Type} [Field K] [LinearOrder K] [IsStrictOrderedRing K]

/-! ## Specification -/

/-- The fluxes a multigroup solver returns for the sources power iteration gives it, the emissions of densities that are not
    negative, at a strength with which they emit from one fission in all, are off by at most `e`, whatever fluxes it starts from. -/
def Within (x : Src K) (S : (Nat → Nat → K) → Nat → Nat → K) (e : K)
    (solve : (Nat → Nat → K) → (Nat → Nat → K) → Nat → Nat → K) : Prop :=
  ∀ (s : K) (d : Nat → K) (phi : Nat → Nat → K), 0 < s → (∀ c < x.N, 0 ≤ d c) → s * ∑ c ∈ range x.N, d c = 1 → ∀ g < x.mat.G, ∀ c < x.N,
    |solve (fun g c => s * (d c * emits x g c)) phi g c - S (fun g c => s * (d c * emits x g c)) g c| ≤ e

/-- The states of a power iteration without relaxation, each of whose multigroup solves is within `e`.  The solves need not be
    the same function: what a solver keeps from call to call, as the fluxes on reflecting sides, may change them. -/
structure Steps (x : Src K) (S : (Nat → Nat → K) → Nat → Nat → K) (e : K) (st : Nat → PIState K) : Prop where
  first : ∃ (p : PI K) (phi : Nat → Nat → K), p.x = x ∧ st 0 = p.start phi
  next : ∀ n, ∃ p : PI K, p.x = x ∧ p.omega = 1 ∧ Within x S e p.solve ∧ st (n + 1) = p.iterate (st n)

/-- What is asked of the problem. -/
structure Regular (x : Src K) (S : (Nat → Nat → K) → Nat → Nat → K) : Prop where
  solver : Solver x S
  data : Data x
  mixing : Mixing x S
  seeded : Seeded x

/-! ## Lemmas -/

section lemmas
variable {x : Src K} {S : (Nat → Nat → K) → Nat → Nat → K}

/-- The first density. -/
def seed (x : Src K) : Nat → K := fun c => x.initDensity.getD c 0

/-- A bound for the density that a unit flux makes. -/
def yield (x : Src K) : K := ∑ c ∈ range x.N, ∑ g ∈ range x.mat.G, |makes x g c|

theorem yield_nonneg (x : Src K) : 0 ≤ yield x := sum_nonneg fun _ _ => sum_nonneg fun _ _ => abs_nonneg _

/-- The densities and estimates of such an iteration. -/
structure Rough (x : Src K) (S : (Nat → Nat → K) → Nat → Nat → K) (e : K) (d : Nat → Nat → K) (k : Nat → K) : Prop where
  d0 : d 0 = seed x
  k0 : k 0 = 1
  off : ∀ n, ∀ c < x.N, ¬ Fissile x c → d (n + 1) c = 0
  near : ∀ n, 0 < k n → (∀ c < x.N, 0 ≤ d n c) → ∑ c ∈ range x.N, d n c = k n → ∀ c < x.N,
    |d (n + 1) c - 1 / k n * fop x S (d n) c| ≤ e
  est : ∀ n, k (n + 1) = k n * nrm x.N (d (n + 1)) / nrm x.N (d n)

theorem density_makes (x : Src K) (f : Nat → Nat → K) {c : Nat} (hc : c < x.N) :
    x.density f c = ∑ g ∈ range x.mat.G, f g c * makes x g c := by
  rw [C25_density _ _ _ hc]
  exact sum_congr rfl fun g _ => by unfold makes; ring

theorem error_next (p : PI K) (ho : p.omega = 1) (s : PIState K) :
    (p.iterate s).error = some (nrm p.x.N fun c => (p.iterate s).dens c - s.dens c) := by
  show some (Util.normResL1 (p.vec (p.relaxed (p.iterate s).dens s.dens)) (p.vec s.dens)) = _
  rw [normRes_vec]
  unfold PI.relaxed
  rw [if_neg (by simp [ho])]

theorem keff_next (p : PI K) (ho : p.omega = 1) (s : PIState K) :
    (p.iterate s).keff = s.keff * nrm p.x.N (p.iterate s).dens / nrm p.x.N s.dens := by
  show _ * normL1 (p.vec (p.relaxed _ _)) / normL1 (p.vec _) = _
  rw [normL1_vec, normL1_vec]
  unfold PI.relaxed
  rw [if_neg (by simp [ho])]
  rfl

theorem Steps.rough {e : K} {st : Nat → PIState K} (h : Steps x S e st) (hS : Solver x S) (he : 0 ≤ e) :
    Rough x S (yield x * e) (fun n => (st n).dens) (fun n => (st n).keff) where
  d0 := by
    obtain ⟨p, phi, rfl, e⟩ := h.first
    rw [e]
    rfl
  k0 := by
    obtain ⟨p, phi, rfl, e⟩ := h.first
    rw [e]
    rfl
  off := by
    intro n c hc hF
    obtain ⟨p, rfl, _, _, e⟩ := h.next n
    rw [e]
    show p.x.density _ c = 0
    rw [density_makes _ _ hc]
    refine sum_eq_zero fun g hg => ?_
    have : makes p.x g c = 0 := by
      by_contra hn
      exact hF ⟨hc, g, mem_range.1 hg, hn⟩
    rw [this, mul_zero]
  near := by
    intro n hk hd hs c hc
    obtain ⟨p, rfl, _, hw, e1⟩ := h.next n
    rw [e1]
    show |p.x.density (p.solve (p.x.setupOuter (1 / (st n).keff) (st n).dens) (st n).phi) c - _| ≤ _
    have eq : p.x.setupOuter (1 / (st n).keff) (st n).dens = fun g c => 1 / (st n).keff * ((st n).dens c * emits p.x g c) := by
      funext g c
      unfold Src.setupOuter emits
      ring
    rw [eq, density_makes _ _ hc, fop_eq _ _ _ hc, mul_sum, ← sum_sub_distrib]
    have each := hw (1 / (st n).keff) (st n).dens (st n).phi (by positivity) hd (by rw [hs]; field_simp)
    refine (abs_sum_le_sum_abs _ _).trans ?_
    have lin : ∀ g < p.x.mat.G, S (fun g c => 1 / (st n).keff * ((st n).dens c * emits p.x g c)) g c =
        1 / (st n).keff * S (fun g c => (st n).dens c * emits p.x g c) g c := by
      intro g hg
      have := hS.lin (1 / (st n).keff) 0 (fun g c => (st n).dens c * emits p.x g c) (fun _ _ => 0) g hg c hc
      simpa using this
    have one : ∑ g ∈ range p.x.mat.G, |makes p.x g c| * e ≤ yield p.x * e := by
      rw [← sum_mul]
      refine mul_le_mul_of_nonneg_right ?_ he
      exact single_le_sum (f := fun c => ∑ g ∈ range p.x.mat.G, |makes p.x g c|)
        (fun _ _ => sum_nonneg fun _ _ => abs_nonneg _) (mem_range.2 hc)
    refine (sum_le_sum fun g hg => ?_).trans one
    have := each g (mem_range.1 hg) c hc
    rw [lin g (mem_range.1 hg)] at this
    rw [← mul_assoc, ← sub_mul, abs_mul, mul_comm]
    exact mul_le_mul_of_nonneg_left this (abs_nonneg _)
  est := by
    intro n
    obtain ⟨p, rfl, ho, _, e⟩ := h.next n
    rw [e]
    exact keff_next p ho _

theorem seed_start (x : Src K) : ∃ p : PI K, p.x = x ∧ ∀ phi, (p.start phi).dens = seed x :=
  ⟨⟨x, fun q _ => q, 0, 0, 1⟩, rfl, fun _ => rfl⟩

/-- What is known of the first density. -/
theorem seed_spec (hR : Regular x S) : (∀ c < x.N, 0 ≤ seed x c) ∧ ∑ c ∈ range x.N, seed x c = 1 ∧
    ∀ c, Fissile x c → 0 < fop x S (seed x) c := by
  obtain ⟨p, rfl, e⟩ := seed_start x
  obtain ⟨s1, s2⟩ := start_dens p hR.data hR.seeded fun _ _ => 0
  have s3 := start_nrm p (fun _ _ => 0) (seeded_sum hR.seeded)
  rw [e] at s1 s2 s3
  refine ⟨s1, ?_, fun c hF => ?_⟩
  · rw [← s3]
    exact sum_congr rfl fun c hc => (abs_of_nonneg (s1 c (mem_range.1 hc))).symm
  · obtain ⟨c0, hF0, hp0⟩ := s2
    have e := fop_mono hR.solver hR.data (d := fun i => seed p.x c0 * (if i = c0 then 1 else 0)) (d' := seed p.x) (fun i hi => by
      split
      · next e => rw [e, mul_one]
      · rw [mul_zero]; exact s1 i hi) hF.1
    rw [fop_smul hR.solver _ _ hF.1] at e
    exact (mul_pos hp0 (hR.mixing c0 hF0 c hF)).trans_le e

variable {e : K} {d : Nat → Nat → K} {k : Nat → K}

theorem nrm_of_nonneg {N : Nat} {f : Nat → K} (h : ∀ c < N, 0 ≤ f c) : nrm N f = ∑ c ∈ range N, f c :=
  sum_congr rfl fun c hc => abs_of_nonneg (h c (mem_range.1 hc))

/-- Bounds of all densities: with errors up to `t` no density falls below `t` or exceeds `H` in a fissile cell, and the exact
    ones lie between `2 t` and `H`. -/
theorem rough_bounds (hR : Regular x S) : ∃ t > 0, ∃ H > 0, ∀ e d k, Rough x S e d k → 0 ≤ e → e ≤ t → ∀ n,
    0 < k n ∧ (∀ c < x.N, 0 ≤ d n c) ∧ ∑ c ∈ range x.N, d n c = k n ∧ ∀ c, Fissile x c →
      2 * t ≤ 1 / k n * fop x S (d n) c ∧ 1 / k n * fop x S (d n) c ≤ H ∧ t ≤ d (n + 1) c ∧ d (n + 1) c ≤ H := by
  obtain ⟨c0, hF0, _⟩ := hR.seeded
  haveI : Nonempty (Cell x) := ⟨⟨⟨c0, hF0.1⟩, hF0⟩⟩
  obtain ⟨lo, hi, hmix⟩ := Perron.mix_of_pos (fmat_pos hR.mixing)
  obtain ⟨s1, s2, s3⟩ := seed_spec hR
  obtain ⟨a1, ha1⟩ := Finite.exists_min fun i : Cell x => fop x S (seed x) i.1.1
  obtain ⟨a2, ha2⟩ := Finite.exists_max fun i : Cell x => fop x S (seed x) i.1.1
  have f0 := s3 _ a1.2
  have f1 := s3 _ a2.2
  set A1 := fop x S (seed x) a1.1.1
  set A2 := fop x S (seed x) a2.1.1
  have lo0 := hmix.pos
  have hi0 := hmix.hi_pos
  refine ⟨min lo A1 / 2, half_pos (lt_min lo0 f0), hi + A2 + min lo A1 / 2,
    add_pos (add_pos hi0 f1) (half_pos (lt_min lo0 f0)), fun e d k hr e0 he n => ?_⟩
  have T0 : 0 < min lo A1 := lt_min lo0 f0
  have T1 : min lo A1 ≤ lo := min_le_left _ _
  have T2 : min lo A1 ≤ A1 := min_le_right _ _
  generalize min lo A1 = T at *
  have fin : ∀ n, 0 < k n → (∀ c < x.N, 0 ≤ d n c) → ∑ c ∈ range x.N, d n c = k n →
      (∀ c, Fissile x c → 2 * (T / 2) ≤ 1 / k n * fop x S (d n) c ∧ 1 / k n * fop x S (d n) c ≤ hi + A2) →
      ∀ c, Fissile x c → 2 * (T / 2) ≤ 1 / k n * fop x S (d n) c ∧ 1 / k n * fop x S (d n) c ≤ hi + A2 + T / 2 ∧
        T / 2 ≤ d (n + 1) c ∧ d (n + 1) c ≤ hi + A2 + T / 2 := by
    intro n h1 h2 h3 h4 c hF
    obtain ⟨b1, b2⟩ := h4 c hF
    obtain ⟨n1, n2⟩ := abs_le.1 (hr.near n h1 h2 h3 c hF.1)
    exact ⟨b1, by linarith, by linarith, by linarith⟩
  induction n with
  | zero =>
    have p1 : 0 < k 0 := by rw [hr.k0]; exact one_pos
    have p2 : ∀ c < x.N, 0 ≤ d 0 c := by rw [hr.d0]; exact s1
    have p3 : ∑ c ∈ range x.N, d 0 c = k 0 := by rw [hr.d0, hr.k0, s2]
    refine ⟨p1, p2, p3, fin 0 p1 p2 p3 fun c hF => ?_⟩
    rw [hr.d0, hr.k0]
    have u1 := ha1 ⟨⟨c, hF.1⟩, hF⟩
    have u2 := ha2 ⟨⟨c, hF.1⟩, hF⟩
    dsimp only at u1 u2
    constructor <;> linarith
  | succ n ih =>
    obtain ⟨i1, i2, i3, i4⟩ := ih
    have dp : ∀ c, Fissile x c → 0 < d (n + 1) c := fun c hF => by
      have := (i4 c hF).2.2.1
      linarith
    have p2 : ∀ c < x.N, 0 ≤ d (n + 1) c := fun c hc => by
      by_cases hF : Fissile x c
      · exact (dp c hF).le
      · exact (hr.off n c hc hF).ge
    have sp : 0 < ∑ c ∈ range x.N, d (n + 1) c :=
      sum_pos' (fun c hc => p2 c (mem_range.1 hc)) ⟨c0, mem_range.2 hF0.1, dp c0 hF0⟩
    have p3 : ∑ c ∈ range x.N, d (n + 1) c = k (n + 1) := by
      rw [hr.est, nrm_of_nonneg p2, nrm_of_nonneg i2, i3]
      field_simp
    have p1 : 0 < k (n + 1) := p3 ▸ sp
    refine ⟨p1, p2, p3, fin (n + 1) p1 p2 p3 fun c hF => ?_⟩
    have ea := fop_app hR.solver hR.data (d (n + 1)) (hr.off n) ⟨⟨c, hF.1⟩, hF⟩
    dsimp only at ea
    have g1 := Perron.app_ge hmix (fun j : Cell x => d (n + 1) j.1.1) (fun j => (dp _ j.2).le) ⟨⟨c, hF.1⟩, hF⟩
    have g2 := Perron.app_le hmix (fun j : Cell x => d (n + 1) j.1.1) (fun j => (dp _ j.2).le) ⟨⟨c, hF.1⟩, hF⟩
    rw [← sum_cells (d (n + 1)) (hr.off n), p3] at g1 g2
    rw [ea, one_div]
    constructor
    · rw [le_inv_mul_iff₀ p1]
      have := mul_le_mul_of_nonneg_left T1 p1.le
      linarith
    · rw [inv_mul_le_iff₀ p1]
      have := mul_pos p1 f1
      linarith

/-- Closeness to the mode. -/
theorem rough_close (hR : Regular x S) {kk : K} {v : Nat → K} (hm : Mode x S kk v) (h0 : 0 < kk)
    (hp : ∀ c, Fissile x c → 0 < v c) : ∃ rho, 0 ≤ rho ∧ rho < 1 ∧ ∃ C > 0, ∃ e0 > 0, ∀ e d k, Rough x S e d k → 0 ≤ e →
      e ≤ e0 → ∀ n, |k (n + 2) - kk| ≤ C * (rho ^ n + e) ∧
        ∀ c < x.N, |d (n + 1) c / k (n + 1) - v c / ∑ i ∈ range x.N, v i| ≤ C * (rho ^ n + e) := by
  obtain ⟨c0, hF0, _⟩ := hR.seeded
  haveI : Nonempty (Cell x) := ⟨⟨⟨c0, hF0.1⟩, hF0⟩⟩
  obtain ⟨lo, hi, hmix⟩ := Perron.mix_of_pos (fmat_pos hR.mixing)
  obtain ⟨t, t0, H, H0, hB⟩ := rough_bounds hR
  obtain ⟨th0, th1⟩ := hmix.theta
  set th := lo / hi with hth
  have hoff : ∀ c < x.N, ¬ Fissile x c → v c = 0 := fun c hc => mode_off h0.ne' hm hc
  set w : Cell x → K := fun j => v j.1.1 with hw
  have w0 : ∀ i, 0 < w i := fun i => hp _ i.2
  have hkw : ∀ i, Perron.app (fmat x S) w i = kk * w i := fun i => by
    rw [hw, ← fop_app hR.solver hR.data v hoff]
    exact hm _ i.1.2
  have hvw : ∑ i ∈ range x.N, v i = ∑ i, w i := sum_cells v hoff
  obtain ⟨a1, ha1⟩ := Finite.exists_min w
  obtain ⟨a2, ha2⟩ := Finite.exists_max w
  -- the first density
  obtain ⟨D, hD⟩ : ∃ D, D = H * w a2 / (t * w a1) := ⟨_, rfl⟩
  have D0 : 0 < D := by
    rw [hD]
    have := w0 a1
    have := w0 a2
    positivity
  have r0 : 0 ≤ 1 - th / 2 := by linarith
  have r1 : 1 - th / 2 < 1 := by linarith
  refine ⟨1 - th / 2, r0, r1, (2 * kk + 1) * (D + 8 / th * (1 / (2 * t))) + kk * (1 / (2 * t)), by positivity, min t (t * th / 2),
    lt_min t0 (by positivity), fun e d k hr e0 he n => ?_⟩
  have he1 : e ≤ t := he.trans (min_le_left _ _)
  have he2 : e ≤ t * th / 2 := he.trans (min_le_right _ _)
  have hb := hB e d k hr e0 he1
  obtain ⟨η, hη⟩ : ∃ η, η = e * (1 / (2 * t)) := ⟨_, rfl⟩
  have η0 : 0 ≤ η := by rw [hη]; positivity
  have η1 : 4 * η ≤ th := by
    rw [hη]
    calc 4 * (e * (1 / (2 * t))) = e * (2 / t) := by ring
      _ ≤ t * th / 2 * (2 / t) := mul_le_mul_of_nonneg_right he2 (by positivity)
      _ = th := by field_simp
  have rel : ∀ n (i : Cell x), |d (n + 2) i.1.1 - 1 / k (n + 1) * Perron.app (fmat x S) (fun j => d (n + 1) j.1.1) i| ≤
      η * (1 / k (n + 1) * Perron.app (fmat x S) (fun j => d (n + 1) j.1.1) i) := by
    intro n i
    obtain ⟨b1, b2, b3, b4⟩ := hb (n + 1)
    have q := hr.near (n + 1) b1 b2 b3 i.1.1 i.1.2
    obtain ⟨q1, _⟩ := b4 i.1.1 i.2
    rw [fop_app hR.solver hR.data (d (n + 1)) (hr.off n) i] at q q1
    refine q.trans ?_
    have := mul_le_mul_of_nonneg_left q1 η0
    refine le_trans (le_of_eq ?_) this
    rw [hη]
    field_simp
  have ks : ∀ n, k (n + 1) = ∑ j : Cell x, d (n + 1) j.1.1 := fun n => by
    rw [← (hb (n + 1)).2.2.1, sum_cells (d (n + 1)) (hr.off n)]
  -- closeness by induction
  have cl : ∀ n, Perron.Close w (fun j : Cell x => d (n + 1) j.1.1) ((1 - th / 2) ^ n * D + 4 * η / (1 - (1 - th / 2))) := by
    intro n
    have build : ∀ n, ∃ f : Nat → K, f 0 = D ∧ (∀ m, f (m + 1) = (1 - th / 2) * f m + 4 * η) ∧ (∀ m, 0 ≤ f m) ∧
        Perron.Close w (fun j : Cell x => d (n + 1) j.1.1) (f n) := by
      intro n
      let f : Nat → K := fun n => Nat.rec D (fun _ y => (1 - th / 2) * y + 4 * η) n
      have f0 : f 0 = D := rfl
      have fs : ∀ m, f (m + 1) = (1 - th / 2) * f m + 4 * η := fun _ => rfl
      have fn : ∀ m, 0 ≤ f m := by
        intro m
        induction m with
        | zero => exact D0.le
        | succ m ih => rw [fs]; positivity
      refine ⟨f, f0, fs, fn, ?_⟩
      clear_value f
      induction n with
      | zero =>
        rw [f0]
        have z := (hb 0).2.2.2
        have w1 := w0 a1
        have w2 := w0 a2
        refine ⟨t / w a2, by positivity, fun i => ?_⟩
        obtain ⟨_, _, z1, z2⟩ := z i.1.1 i.2
        have wi := w0 i
        constructor
        · refine le_trans ?_ z1
          rw [div_mul_eq_mul_div, div_le_iff₀ w2]
          exact mul_le_mul_of_nonneg_left (ha2 i) t0.le
        · refine z2.trans ?_
          have g1 : H * w a1 ≤ H * w i := mul_le_mul_of_nonneg_left (ha1 i) H0.le
          have g2 : H ≤ t / w a2 * D * w i := by
            rw [hD]
            have : t / w a2 * (H * w a2 / (t * w a1)) * w i = H * w i / w a1 := by field_simp
            rw [this, le_div_iff₀ w1]
            exact g1
          have g3 : 0 < t / w a2 * w i := by positivity
          linarith
      | succ n ih =>
        rw [fs]
        have := Perron.close_step hmix h0 w0 hkw (fn n) η0 η1 (one_div_pos.2 (hb (n + 1)).1) ih (rel n)
        exact this
    obtain ⟨f, f0, fs, fn, hc⟩ := build n
    refine hc.mono w0 ?_
    have := Perron.decay r0 r1 (b := 4 * η) (by positivity) (fun m => (fs m).le) n
    rwa [f0] at this
  obtain ⟨R, hRR⟩ : ∃ R, R = (1 - th / 2) ^ n := ⟨_, rfl⟩
  have R0 : 0 ≤ R := by rw [hRR]; positivity
  have c := cl n
  rw [← hRR] at c ⊢
  have e8 : 4 * η / (1 - (1 - th / 2)) = 8 / th * (1 / (2 * t)) * e := by
    rw [hη]
    have : 1 - (1 - th / 2) = th / 2 := by ring
    rw [this]
    field_simp
    ring
  rw [e8] at c
  obtain ⟨B, hBB⟩ : ∃ B, B = 8 / th * (1 / (2 * t)) := ⟨_, rfl⟩
  obtain ⟨A, hA⟩ : ∃ A, A = 1 / (2 * t) := ⟨_, rfl⟩
  rw [← hBB] at c ⊢
  rw [← hA] at hη ⊢
  have B0 : 0 < B := by rw [hBB]; positivity
  have A0 : 0 < A := by rw [hA]; positivity
  have δ0 : 0 ≤ R * D + B * e := by positivity
  have cross : R * D + B * e ≤ (D + B) * (R + e) := by
    have := mul_nonneg D0.le e0
    have := mul_nonneg B0.le R0
    linarith
  constructor
  · have q := Perron.close_quot h0 w0 (fun i j => (hmix.entry i j).le) hkw δ0 η0 (by linarith) c
      (y := fun i => d (n + 2) i.1.1) (fun i => by rw [← ks n]; exact rel n i)
    rw [← ks (n + 1)] at q
    refine q.trans ?_
    rw [hη]
    have m1 := mul_le_mul_of_nonneg_left cross h0.le
    have m2 : 0 ≤ kk * (R * A) := by positivity
    have m3 : 0 ≤ (D + B) * (R + e) := by positivity
    linarith
  · intro i hi'
    have m1 : 0 ≤ kk * ((D + B) * (R + e)) := by positivity
    have m2 : 0 ≤ kk * (A * (R + e)) := by positivity
    by_cases hF : Fissile x i
    · have q := Perron.close_shape w0 δ0 c ⟨⟨i, hi'⟩, hF⟩
      rw [← ks n, ← hvw] at q
      dsimp only at q
      refine q.trans ?_
      linarith
    · rw [hr.off n i hi' hF, hoff i hi' hF, zero_div, zero_div, sub_zero, abs_zero]
      have m3 : 0 ≤ (D + B) * (R + e) := by positivity
      linarith

theorem Steps.error {e : K} {st : Nat → PIState K} (h : Steps x S e st) (n : Nat) :
    (st (n + 1)).error = some (nrm x.N fun c => (st (n + 1)).dens c - (st n).dens c) := by
  obtain ⟨p, rfl, ho, _, e⟩ := h.next n
  rw [e]
  exact error_next p ho _

/-- The runs of the model are such iterations. -/
theorem steps_after {e : K} {solve : (Nat → Nat → K) → (Nat → Nat → K) → Nat → Nat → K} (hw : Within x S e solve) (N : Nat)
    (tol : K) (phi : Nat → Nat → K) : Steps x S e ((⟨x, solve, N, tol, 1⟩ : PI K).after phi) :=
  ⟨⟨⟨x, solve, N, tol, 1⟩, phi, rfl, rfl⟩, fun n => ⟨⟨x, solve, N, tol, 1⟩, rfl, rfl, hw, after_succ _ _ _⟩⟩

/-- Constants for the density from constants for the flux. -/
theorem scale_bound (x : Src K) {t : K} (t0 : 0 < t) : ∃ e0 > 0, ∀ e, 0 ≤ e → e ≤ e0 → yield x * e ≤ t := by
  have y0 := yield_nonneg x
  refine ⟨t / (yield x + 1), by positivity, fun e h0 he => ?_⟩
  have := mul_le_mul_of_nonneg_left he (show 0 ≤ yield x + 1 by linarith)
  rw [mul_div_cancel₀ _ (by linarith)] at this
  linarith

end lemmas

/-! ## C143 -/

section main
variable {x : Src K} {S : (Nat → Nat → K) → Nat → Nat → K}

/-- With small errors the densities stay positive in the fissile cells and zero elsewhere, the estimates stay positive, and the sum
    of the density is the estimate. -/
theorem C143_densities (hR : Regular x S) : ∃ e0 > 0, ∃ t > 0, ∀ e st, Steps x S e st → 0 ≤ e → e ≤ e0 → ∀ n,
    (∀ c, Fissile x c → t ≤ (st (n + 1)).dens c) ∧ (∀ c < x.N, ¬ Fissile x c → (st (n + 1)).dens c = 0) ∧
      0 < (st (n + 1)).keff ∧ ∑ c ∈ range x.N, (st (n + 1)).dens c = (st (n + 1)).keff := by
  obtain ⟨t, t0, H, _, hB⟩ := rough_bounds hR
  obtain ⟨e0, e00, hE⟩ := scale_bound x t0
  refine ⟨e0, e00, t, t0, fun e st h he he0 n => ?_⟩
  have hr := h.rough hR.solver he
  have hb := hB _ _ _ hr (mul_nonneg (yield_nonneg x) he) (hE e he he0)
  exact ⟨fun c hF => ((hb n).2.2.2 c hF).2.2.1, hr.off n, (hb (n + 1)).1, (hb (n + 1)).2.2.1⟩

/-- With errors up to `e` the estimates and the shape of the density come within a multiple of `e` of those of the fundamental
    mode, at a geometric rate.  Rate and multiple depend on the problem alone. -/
theorem C143_converges (hR : Regular x S) {k : K} {d : Nat → K} (hm : Mode x S k d) (h0 : 0 < k)
    (hp : ∀ c, Fissile x c → 0 < d c) : ∃ rho, 0 ≤ rho ∧ rho < 1 ∧ ∃ C > 0, ∃ e0 > 0, ∀ e st, Steps x S e st → 0 ≤ e →
      e ≤ e0 → ∀ n, |(st (n + 2)).keff - k| ≤ C * (rho ^ n + e) ∧
        ∀ c < x.N, |(st (n + 1)).dens c / (st (n + 1)).keff - d c / ∑ i ∈ range x.N, d i| ≤ C * (rho ^ n + e) := by
  obtain ⟨rho, r0, r1, C, C0, t, t0, hC⟩ := rough_close hR hm h0 hp
  obtain ⟨e0, e00, hE⟩ := scale_bound x t0
  have y0 := yield_nonneg x
  refine ⟨rho, r0, r1, C * (1 + yield x), by positivity, e0, e00, fun e st h he he0 n => ?_⟩
  have hr := h.rough hR.solver he
  obtain ⟨h1, h2⟩ := hC _ _ _ hr (mul_nonneg y0 he) (hE e he he0) n
  have le : C * (rho ^ n + yield x * e) ≤ C * (1 + yield x) * (rho ^ n + e) := by
    have a1 : 0 ≤ C * (yield x * rho ^ n) := by positivity
    have a2 : 0 ≤ C * e := by positivity
    linarith
  exact ⟨h1.trans le, fun c hc => (h2 c hc).trans le⟩

/-- An estimate found with a small change of the density is close to the multiplication factor, in proportion to the change and to
    the errors of the fluxes. -/
theorem C143_stopped (hR : Regular x S) {k : K} {d : Nat → K} (hm : Mode x S k d) (h0 : 0 < k)
    (hp : ∀ c, Fissile x c → 0 < d c) : ∃ C > 0, ∃ e0 > 0, ∀ e st, Steps x S e st → 0 ≤ e → e ≤ e0 → ∀ n err,
      (st (n + 2)).error = some err → |(st (n + 2)).keff - k| ≤ C * (err + e) := by
  obtain ⟨t, t0, H, H0, hB⟩ := rough_bounds hR
  obtain ⟨e0, e00, hE⟩ := scale_bound x t0
  have y0 := yield_nonneg x
  refine ⟨1 + x.N * H / t * (1 + yield x), by positivity, e0, e00, fun e st h he he0 n err herr => ?_⟩
  have hr := h.rough hR.solver he
  have e1 : 0 ≤ yield x * e := mul_nonneg y0 he
  have hb := hB _ _ _ hr e1 (hE e he he0)
  have er := Option.some.inj ((h.error (n + 1)).symm.trans herr)
  have err0 : 0 ≤ err := er ▸ nrm_nonneg _ _
  obtain ⟨b1, b2, b3, _⟩ := hb (n + 1)
  obtain ⟨_, c2, c3, _⟩ := hb (n + 2)
  have b4 := (hb n).2.2.2
  obtain ⟨c0, hF0, _⟩ := hR.seeded
  have K1 : (st (n + 1)).keff ≤ x.N * H := by
    rw [← b3]
    refine (sum_le_sum (g := fun _ => H) fun c hc => ?_).trans (by rw [sum_const, card_range, nsmul_eq_mul])
    by_cases hF : Fissile x c
    · exact (b4 c hF).2.2.2
    · rw [hr.off n c (mem_range.1 hc) hF]
      exact H0.le
  have cell : ∀ c, Fissile x c → |fop x S (st (n + 1)).dens c - (st (n + 1)).keff * (st (n + 1)).dens c| ≤
      x.N * H / t * (err + yield x * e) * (st (n + 1)).dens c := by
    intro c hF
    have l1 : |(st (n + 2)).dens c - (st (n + 1)).dens c| ≤ err := by
      rw [← er]
      exact single_le_sum (f := fun c => |(st (n + 2)).dens c - (st (n + 1)).dens c|) (fun _ _ => abs_nonneg _)
        (mem_range.2 hF.1)
    have l2 := hr.near (n + 1) b1 b2 b3 c hF.1
    have l3 := (b4 c hF).2.2.1
    have b1 : 0 < (st (n + 1)).keff := b1
    have l3 : t ≤ (st (n + 1)).dens c := l3
    change |(st (n + 2)).dens c - 1 / (st (n + 1)).keff * fop x S (st (n + 1)).dens c| ≤ yield x * e at l2
    have l4 : |1 / (st (n + 1)).keff * fop x S (st (n + 1)).dens c - (st (n + 1)).dens c| ≤ err + yield x * e := by
      rw [abs_le] at l1 l2 ⊢
      constructor <;> linarith [l1.1, l1.2, l2.1, l2.2]
    have l5 : fop x S (st (n + 1)).dens c - (st (n + 1)).keff * (st (n + 1)).dens c =
        (st (n + 1)).keff * (1 / (st (n + 1)).keff * fop x S (st (n + 1)).dens c - (st (n + 1)).dens c) := by
      field_simp
    rw [l5, abs_mul, abs_of_pos b1]
    have m0 : 0 ≤ err + yield x * e := by linarith
    have m1 := mul_le_mul K1 l4 (abs_nonneg _) (b1.le.trans K1)
    have m2 := mul_le_mul_of_nonneg_left l3 (show 0 ≤ x.N * H / t * (err + yield x * e) by positivity)
    have m3 : x.N * H / t * (err + yield x * e) * t = x.N * H * (err + yield x * e) := by field_simp
    linarith
  have pos1 : ∀ c, Fissile x c → 0 < (st (n + 1)).dens c := fun c hF => t0.trans_le (b4 c hF).2.2.1
  obtain ⟨q1, q2⟩ := C133_quotients hR.solver hR.data (lo := (st (n + 1)).keff - x.N * H / t * (err + yield x * e))
    (hi := (st (n + 1)).keff + x.N * H / t * (err + yield x * e)) hm h0 hp ⟨c0, hF0⟩ pos1 (hr.off n)
    (fun c hF => by have := (abs_le.1 (cell c hF)).1; linarith) (fun c hF => by have := (abs_le.1 (cell c hF)).2; linarith)
  have step : |(st (n + 2)).keff - (st (n + 1)).keff| ≤ err := by
    have c3 : ∑ c ∈ range x.N, (st (n + 2)).dens c = (st (n + 2)).keff := c3
    have b3 : ∑ c ∈ range x.N, (st (n + 1)).dens c = (st (n + 1)).keff := b3
    rw [← c3, ← b3, ← sum_sub_distrib, ← er]
    exact abs_sum_le_sum_abs _ _
  obtain ⟨s1, s2⟩ := abs_le.1 step
  have w1 : 0 ≤ x.N * H / t * (yield x * err) := by positivity
  have w2 : 0 ≤ x.N * H / t * e := by positivity
  rw [abs_le]
  constructor <;> linarith

/-- The change of the density falls to a multiple of the errors of the fluxes. -/
theorem C143_error (hR : Regular x S) {k : K} {d : Nat → K} (hm : Mode x S k d) (h0 : 0 < k)
    (hp : ∀ c, Fissile x c → 0 < d c) : ∃ rho, 0 ≤ rho ∧ rho < 1 ∧ ∃ C > 0, ∃ e0 > 0, ∀ e st, Steps x S e st → 0 ≤ e → e ≤ e0 →
      ∀ n, ∃ err, (st (n + 3)).error = some err ∧ err ≤ C * (rho ^ n + e) := by
  obtain ⟨rho, r0, r1, C, C0, e0, e00, hC⟩ := C143_converges hR hm h0 hp
  obtain ⟨f0, f00, t, t0, hDn⟩ := C143_densities hR
  refine ⟨rho, r0, r1, (x.N + 1) * ((2 * (k + C * (1 + e0)) + 2) * C), by positivity, min e0 f0, lt_min e00 f00,
    fun e st h he he0 n => ⟨_, h.error (n + 2), ?_⟩⟩
  have hC := hC e st h he (he0.trans (min_le_left _ _))
  have hDn := hDn e st h he (he0.trans (min_le_right _ _))
  have hee := he0.trans (min_le_left _ _)
  have hdn : ∀ c < x.N, 0 ≤ d c := fun c hc => by
    by_cases hF : Fissile x c
    · exact (hp c hF).le
    · exact (mode_off h0.ne' hm hc hF).ge
  have hD : 0 < ∑ i ∈ range x.N, d i := by
    obtain ⟨c, hF, _⟩ := hR.seeded
    exact sum_pos' (fun c hc => hdn c (mem_range.1 hc)) ⟨c, mem_range.2 hF.1, hp c hF⟩
  have hpow : ∀ m, n ≤ m → C * (rho ^ m + e) ≤ C * (rho ^ n + e) := fun m hm => by
    have := mul_le_mul_of_nonneg_left (pow_le_pow_of_le_one r0 r1.le hm) C0.le
    linarith
  have hRR : C * (rho ^ n + e) ≤ C * (1 + e0) :=
    mul_le_mul_of_nonneg_left (by linarith [pow_le_one₀ (n := n) r0 r1.le]) C0.le
  have R0 : 0 ≤ C * (rho ^ n + e) := mul_nonneg C0.le (add_nonneg (pow_nonneg r0 n) he)
  have each : ∀ c ∈ Finset.range x.N, |(st (n + 2 + 1)).dens c - (st (n + 2)).dens c| ≤
      (2 * (k + C * (1 + e0)) + 2) * (C * (rho ^ n + e)) := by
    intro c hc
    have hc := mem_range.1 hc
    have k1 := (hC n).1
    have k2 := ((hC (n + 1)).1).trans (hpow (n + 1) (by omega))
    have f1 := ((hC (n + 1)).2 c hc).trans (hpow (n + 1) (by omega))
    have f2 := ((hC (n + 2)).2 c hc).trans (hpow (n + 2) (by omega))
    have K1 := (hDn (n + 1)).2.2.1
    have K2 := (hDn (n + 2)).2.2.1
    have s0 : 0 ≤ d c / ∑ i ∈ range x.N, d i := div_nonneg (hdn c hc) hD.le
    have s1 : d c / ∑ i ∈ range x.N, d i ≤ 1 := by
      rw [div_le_one hD]
      exact single_le_sum (fun i hi => hdn i (mem_range.1 hi)) (mem_range.2 hc)
    change |(st (n + 3)).dens c - (st (n + 2)).dens c| ≤ _
    change |(st (n + 3)).keff - k| ≤ _ at k2
    change |(st (n + 2)).dens c / (st (n + 2)).keff - _| ≤ _ at f1
    change |(st (n + 3)).dens c / (st (n + 3)).keff - _| ≤ _ at f2
    change 0 < (st (n + 2)).keff at K1
    change 0 < (st (n + 3)).keff at K2
    generalize (st (n + 3)).keff = K2v at *
    generalize (st (n + 2)).keff = K1v at *
    generalize (st (n + 3)).dens c = D2 at *
    generalize (st (n + 2)).dens c = D1 at *
    generalize d c / ∑ i ∈ range x.N, d i = s at *
    generalize C * (rho ^ n + e) = R at *
    generalize C * (1 + e0) = B at *
    have w2 : D2 - D1 = K2v * (D2 / K2v - s) + (K2v - K1v) * s - K1v * (D1 / K1v - s) := by
      field_simp
      ring
    have m2 : K2v ≤ k + B := by have := (abs_le.1 k2).2; linarith
    have m1 : K1v ≤ k + B := by have := (abs_le.1 k1).2; linarith
    have t1 : |K2v * (D2 / K2v - s)| ≤ (k + B) * R := by
      rw [abs_mul, abs_of_pos K2]
      exact mul_le_mul m2 f2 (abs_nonneg _) (by linarith)
    have t3 : |K1v * (D1 / K1v - s)| ≤ (k + B) * R := by
      rw [abs_mul, abs_of_pos K1]
      exact mul_le_mul m1 f1 (abs_nonneg _) (by linarith)
    have t2 : |(K2v - K1v) * s| ≤ 2 * R := by
      rw [abs_mul, abs_of_nonneg s0]
      have : |K2v - K1v| ≤ 2 * R := by
        have a := abs_le.1 k1
        have b := abs_le.1 k2
        rw [abs_le]
        constructor <;> linarith [a.1, a.2, b.1, b.2]
      calc |K2v - K1v| * s ≤ |K2v - K1v| * 1 := mul_le_mul_of_nonneg_left s1 (abs_nonneg _)
        _ ≤ _ := by linarith
    rw [w2]
    have := abs_sub (K2v * (D2 / K2v - s) + (K2v - K1v) * s) (K1v * (D1 / K1v - s))
    have h' := abs_add_le (K2v * (D2 / K2v - s)) ((K2v - K1v) * s)
    linarith
  refine (sum_le_sum each).trans ?_
  rw [sum_const, card_range, nsmul_eq_mul]
  have : 0 ≤ (2 * (k + C * (1 + e0)) + 2) * (C * (rho ^ n + e)) := by positivity
  linarith

/-- What the solver stores: with a small enough tolerance, group solves as accurate as that tolerance, and enough iterations, it
    stops without a warning, and the eigenvalue it stores differs from the multiplication factor by no more than a fixed multiple of
    the tolerance.  The constants depend on the problem alone, and the number of iterations on it and the tolerance. -/
theorem C143_returned [Archimedean K] (hR : Regular x S) {k : K} {d : Nat → K} (hm : Mode x S k d) (h0 : 0 < k)
    (hp : ∀ c, Fissile x c → 0 < d c) : ∃ C > 0, ∃ t0 > 0, ∀ tol, 0 < tol → tol ≤ t0 → ∃ n0, ∀ solve, Within x S (tol / C) solve →
      ∀ phi N, n0 ≤ N → ∃ r, (⟨x, solve, N, tol, 1⟩ : PI K).run phi = some r ∧ r.warned = false ∧ |r.keff - k| ≤ C * tol := by
  obtain ⟨C1, C10, f1, f10, h1⟩ := C143_stopped hR hm h0 hp
  obtain ⟨rho, r0, r1, C2, C20, f2, f20, h2⟩ := C143_error hR hm h0 hp
  obtain ⟨f3, f30, _, _, h3⟩ := C143_densities hR
  have y0 := yield_nonneg x
  -- the exact change in the first iteration
  obtain ⟨a, ha⟩ : ∃ a, a = nrm x.N fun c => fop x S (seed x) c - seed x c := ⟨_, rfl⟩
  have a0 : 0 ≤ a := ha ▸ nrm_nonneg _ _
  obtain ⟨s1, s2, s3⟩ := seed_spec hR
  obtain ⟨c0, hF0, _⟩ := hR.seeded
  obtain ⟨Y, hY⟩ : ∃ Y, Y = x.N * yield x := ⟨_, rfl⟩
  have Y0 : 0 ≤ Y := by rw [hY]; positivity
  have first : ∀ e st, Steps x S e st → 0 ≤ e → |(nrm x.N fun c => (st 1).dens c - (st 0).dens c) - a| ≤ Y * e ∧
      (a = 0 → e ≤ f3 → |(st 1).keff - k| ≤ Y * e) := by
    intro e st h he
    have hr := h.rough hR.solver he
    have d0 : (st 0).dens = seed x := hr.d0
    have k0 : (st 0).keff = 1 := hr.k0
    have near : ∀ c < x.N, |(st 1).dens c - fop x S (seed x) c| ≤ yield x * e := by
      intro c hc
      have := hr.near 0 (by rw [hr.k0]; exact one_pos) (by rw [hr.d0]; exact s1) (by rw [hr.d0, hr.k0, s2]) c hc
      rw [hr.d0, hr.k0, div_one, one_mul] at this
      exact this
    have tot : ∑ c ∈ range x.N, |(st 1).dens c - fop x S (seed x) c| ≤ Y * e := by
      refine (sum_le_sum fun c hc => near c (mem_range.1 hc)).trans (le_of_eq ?_)
      rw [sum_const, card_range, nsmul_eq_mul, hY]
      ring
    constructor
    · rw [ha, d0]
      unfold nrm
      rw [← sum_sub_distrib]
      refine (abs_sum_le_sum_abs _ _).trans ((sum_le_sum fun c _ => ?_).trans tot)
      have := abs_abs_sub_abs_le_abs_sub ((st 1).dens c - seed x c) (fop x S (seed x) c - seed x c)
      have e2 : (st 1).dens c - seed x c - (fop x S (seed x) c - seed x c) = (st 1).dens c - fop x S (seed x) c := by ring
      rwa [e2] at this
    · intro haz hle
      have hsame : ∀ c < x.N, fop x S (seed x) c = seed x c := by
        rw [ha] at haz
        unfold nrm at haz
        rw [sum_eq_zero_iff_of_nonneg fun _ _ => abs_nonneg _] at haz
        exact fun c hc => sub_eq_zero.1 (abs_eq_zero.1 (haz c (mem_range.2 hc)))
      have hmode : Mode x S 1 (seed x) := fun c hc => by rw [hsame c hc, one_mul]
      have hpos : ∀ c, Fissile x c → 0 < seed x c := fun c hF => by rw [← hsame c hF.1]; exact s3 c hF
      rw [← C133_one hR.solver hR.data hmode one_pos hpos hm h0 hp ⟨c0, hF0⟩]
      rw [← (h3 e st h he hle 0).2.2.2]
      have e1 : (1 : K) = ∑ c ∈ range x.N, fop x S (seed x) c := by
        rw [← s2]
        exact sum_congr rfl fun c hc => (hsame c (mem_range.1 hc)).symm
      rw [e1, ← sum_sub_distrib]
      exact (abs_sum_le_sum_abs _ _).trans tot
  obtain ⟨C, hC⟩ : ∃ C, C = 2 * C1 + 2 * C2 + Y + 1 := ⟨_, rfl⟩
  have CC : 1 ≤ C := by rw [hC]; linarith
  have C0 : 0 < C := by linarith
  obtain ⟨t1, ht1⟩ : ∃ t1, t1 = min f1 (min f2 f3) := ⟨_, rfl⟩
  have t10 : 0 < t1 := by rw [ht1]; exact lt_min f10 (lt_min f20 f30)
  have ga : 0 < (if a = 0 then 1 else a / 2) := by
    split
    · exact one_pos
    · next h => exact half_pos (lt_of_le_of_ne a0 (Ne.symm h))
  refine ⟨C, C0, min t1 (if a = 0 then 1 else a / 2), lt_min t10 ga, fun tol ht htol => ?_⟩
  have q0 : 0 ≤ tol / C := by positivity
  have q1 : tol / C ≤ tol := div_le_self ht.le CC
  have g1 : tol ≤ f1 := htol.trans ((min_le_left _ _).trans (ht1 ▸ min_le_left _ _))
  have g2 : tol ≤ f2 := htol.trans ((min_le_left _ _).trans (ht1 ▸ (min_le_right _ _).trans (min_le_left _ _)))
  have g3 : tol ≤ f3 := htol.trans ((min_le_left _ _).trans (ht1 ▸ (min_le_right _ _).trans (min_le_right _ _)))
  have g4 : tol ≤ (if a = 0 then 1 else a / 2) := htol.trans (min_le_right _ _)
  have qC : tol / C * C = tol := div_mul_cancel₀ _ C0.ne'
  have qq : tol / C * (2 * C1 + 2 * C2 + Y + 1) = tol := by rw [← hC]; exact qC
  obtain ⟨n, hn⟩ := exists_pow_lt_of_lt_one (show 0 < tol / (2 * C2) by positivity) r1
  refine ⟨n + 4, fun solve hw phi N hN => ?_⟩
  set p : PI K := ⟨x, solve, N, tol, 1⟩ with hpp
  have hst := steps_after hw N tol phi
  rw [← hpp] at hst
  obtain ⟨m, m0, m1, m2, m3, m4⟩ := C56_reported p phi (show 0 < N by omega)
  have hm' : m < N := by
    by_contra hge
    have hge : m = N := le_antisymm m1 (not_lt.1 hge)
    obtain ⟨err, he, hle⟩ := h2 _ _ hst q0 (q1.trans g2) n
    refine m3 (n + 3) (by omega) (by omega) err he (hle.trans_lt ?_)
    change _ < tol
    have w1 : C2 * rho ^ n < tol / 2 := by
      have := mul_lt_mul_of_pos_left hn C20
      have e1 : C2 * (tol / (2 * C2)) = tol / 2 := by field_simp
      linarith
    have w2 : C2 * (tol / C) ≤ tol / 2 := by
      have : 0 ≤ tol / C * (2 * C1 + Y + 1) := by positivity
      linarith
    linarith
  obtain ⟨em, hem, heml⟩ := m4 hm'
  have heml : em < tol := heml
  refine ⟨_, m2, ?_, ?_⟩
  · change ((p.after phi m).error.any fun e => decide (e > tol)) = false
    rw [hem]
    simp [heml.le]
  dsimp only
  obtain ⟨j, rfl⟩ : ∃ j, m = j + 1 := ⟨m - 1, by omega⟩
  cases j with
  | zero =>
    have hem' := Option.some.inj ((hst.error 0).symm.trans hem)
    obtain ⟨b1, b2⟩ := first _ _ hst q0
    have yq : Y * (tol / C) ≤ tol := by
      have : 0 ≤ tol / C * (2 * C1 + 2 * C2 + 1) := by positivity
      linarith
    by_cases haz : a = 0
    · refine (b2 haz (q1.trans g3)).trans (yq.trans ?_)
      have := mul_le_mul_of_nonneg_right CC ht.le
      linarith
    · -- the first change is too large
      exfalso
      rw [if_neg haz] at g4
      have b1' := (abs_le.1 b1).1
      rw [hem'] at b1'
      have : 0 < tol / C * (2 * C1 + 2 * C2 + 1) := by positivity
      linarith
  | succ j =>
    refine (h1 _ _ hst q0 (q1.trans g1) j em hem).trans ?_
    have w1 := mul_le_mul_of_nonneg_left (show em + tol / C ≤ 2 * tol by linarith) C10.le
    have w2 : 0 ≤ tol * (2 * C2 + Y + 1) := by positivity
    have w3 : C * tol = 2 * C1 * tol + tol * (2 * C2 + Y + 1) := by rw [hC]; ring
    linarith

/-- No tolerance makes up for errors of the fluxes: if the group solves return `1 + δ` times the exact fluxes, the solver stops
    without a warning, for all small tolerances, at an eigenvalue off by at least half of `δ` of the multiplication factor. -/
theorem C143_biased [Archimedean K] {p : PI K} (hS : Sound p S) {k : K} {d : Nat → K} (hm : Mode p.x S k d) (h0 : 0 < k)
    (hp : ∀ c, Fissile p.x c → 0 < d c) (δ : K) (hδ : -1 < δ) (hne : δ ≠ 0) (phi : Nat → Nat → K) :
    ∃ t0 > 0, ∀ tol, 0 < tol → tol ≤ t0 → ∃ n0, ∀ N, n0 ≤ N → ∃ r,
      (⟨p.x, fun q _ g c => (1 + δ) * S q g c, N, tol, 1⟩ : PI K).run phi = some r ∧ r.warned = false ∧
        |δ| * k / 2 ≤ |r.keff - k| := by
  have p0 : 0 < 1 + δ := by linarith
  have ef : ∀ d c, fop p.x (fun q g c => (1 + δ) * S q g c) d c = (1 + δ) * fop p.x S d c := by
    intro d c
    by_cases hc : c < p.x.N
    · rw [fop_eq _ _ _ hc, fop_eq _ _ _ hc, mul_sum]
      exact sum_congr rfl fun g _ => by ring
    · unfold fop
      rw [if_neg hc, if_neg hc, mul_zero]
  have sound : Sound (⟨p.x, fun q _ g c => (1 + δ) * S q g c, 0, 0, 1⟩ : PI K) (fun q g c => (1 + δ) * S q g c) := by
    refine ⟨⟨fun _ _ => rfl, fun a q => ?_⟩, ⟨fun s t q q' g hg c hc => ?_, fun q hq g hg c hc => ?_⟩, hS.data,
      fun c hc c' hc' => ?_, hS.seeded, rfl⟩
    · funext g c
      rw [hS.exact.hom a q]
      ring
    · rw [hS.solver.lin s t q q' g hg c hc]
      ring
    · exact mul_nonneg p0.le (hS.solver.pos q hq g hg c hc)
    · show 0 < fop p.x _ _ _
      rw [ef]
      exact mul_pos p0 (hS.mixing c hc c' hc')
  have mode : Mode p.x (fun q g c => (1 + δ) * S q g c) ((1 + δ) * k) d := fun c hc => by
    rw [ef, hm c hc]
    ring
  obtain ⟨C, C0, t0, t00, h⟩ := C134_returned sound phi mode (mul_pos p0 h0) hp
  have ad : 0 < |δ| := abs_pos.2 hne
  refine ⟨min t0 (|δ| * k / (2 * C)), lt_min t00 (by positivity), fun tol ht htol => ?_⟩
  obtain ⟨n0, hn⟩ := h tol ht (htol.trans (min_le_left _ _))
  refine ⟨n0, fun N hN => ?_⟩
  obtain ⟨r, r1, r2, r3⟩ := hn N hN
  refine ⟨r, r1, r2, ?_⟩
  have b1 : C * tol ≤ |δ| * k / 2 := by
    have := mul_le_mul_of_nonneg_left (htol.trans (min_le_right _ _)) C0.le
    have e : C * (|δ| * k / (2 * C)) = |δ| * k / 2 := by field_simp
    linarith
  have b2 : |δ| * k = |(1 + δ) * k - k| := by
    rw [show (1 + δ) * k - k = δ * k by ring, abs_mul, abs_of_pos h0]
  have b3 : |(1 + δ) * k - k| ≤ |r.keff - (1 + δ) * k| + |r.keff - k| := by
    have := abs_sub (r.keff - k) (r.keff - (1 + δ) * k)
    rw [show r.keff - k - (r.keff - (1 + δ) * k) = (1 + δ) * k - k by ring] at this
    linarith
  linarith

end main

/-! ## Cases -/

theorem two_regular : Regular twoX twoS :=
  ⟨two_solver, two_data, two_mixing, (two_sound 0 0).seeded⟩

/-- A solver whose error depends on the flux it starts from: too high if that is large, too low if not. -/
def twoSolve (e : ℚ) (q phi : Nat → Nat → ℚ) (g c : Nat) : ℚ := if phi 0 c < 1 then twoS q g c - e else twoS q g c + e

theorem two_within (e : ℚ) (h : 0 ≤ e) : Within twoX twoS e (twoSolve e) := by
  intro s d phi _ _ _ g _ c _
  unfold twoSolve
  split
  · rw [show ∀ a : ℚ, a - e - a = -e by intro a; ring, abs_neg, abs_of_nonneg h]
  · rw [show ∀ a : ℚ, a + e - a = e by intro a; ring, abs_of_nonneg h]

example : ∃ C > 0, ∃ t0 > 0, ∀ tol, 0 < tol → tol ≤ t0 → ∃ n0, ∀ phi N, n0 ≤ N → ∃ r,
    (⟨twoX, twoSolve (tol / C), N, tol, 1⟩ : PI ℚ).run phi = some r ∧ r.warned = false ∧ |r.keff - 4| ≤ C * tol := by
  obtain ⟨C, C0, t0, t00, h⟩ := C143_returned two_regular two_mode (by norm_num) (fun _ _ => one_pos)
  refine ⟨C, C0, t0, t00, fun tol ht htol => ?_⟩
  obtain ⟨n0, hn⟩ := h tol ht htol
  exact ⟨n0, fun phi N hN => hn _ (two_within _ (by positivity)) phi N hN⟩

/-- Its first estimates with errors of a tenth. -/
example : ((⟨twoX, twoSolve (1 / 10), 9, 0, 1⟩ : PI ℚ).after (fun _ _ => 0) 1).keff ≠ 11 / 3 := by decide +kernel

/-- A hundredth too much flux everywhere. -/
example : ∃ t0 > 0, ∀ tol, 0 < tol → tol ≤ t0 → ∃ n0, ∀ N, n0 ≤ N → ∃ r,
    (⟨twoX, fun q _ g c => (1 + 1 / 100) * twoS q g c, N, tol, 1⟩ : PI ℚ).run (fun _ _ => 0) = some r ∧ r.warned = false ∧
      |(1 / 100 : ℚ)| * 4 / 2 ≤ |r.keff - 4| :=
  C143_biased (two_sound 9 0) two_mode (by norm_num) (fun _ _ => one_pos) (1 / 100) (by norm_num) (by norm_num) _

end Detran.EigenPI
