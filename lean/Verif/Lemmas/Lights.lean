import Verif.Lemmas.Positive

/-!
# Which cells a source in one cell reaches in a sweep (used for C133 and C134)
-/

namespace Detran.WGReflect

open Detran.Sweep (Solves1 Solves2 dd1 sd1 sc1 sd2 sc2 posn entry exit)
open Detran.Boundary (Bd BC Enters faceCells)
open Finset

variable {K : Type} [Field K] [LinearOrder K] [IsStrictOrderedRing K]

/-- Nothing negative comes of what is not negative, and whatever is put in, by the source or through the face, is seen in the
    cell and behind it. -/
def Strict1 (sch : K → K → K × K) : Prop := ∀ q e, 0 ≤ q → 0 ≤ e → (0 ≤ (sch q e).1 ∧ 0 ≤ (sch q e).2) ∧
  (0 < q ∨ 0 < e → 0 < (sch q e).1 ∧ 0 < (sch q e).2)

def Strict2 (sch : K → K × K → K × (K × K)) : Prop := ∀ q e, 0 ≤ q → 0 ≤ e.1 → 0 ≤ e.2 →
  (0 ≤ (sch q e).1 ∧ 0 ≤ (sch q e).2.1 ∧ 0 ≤ (sch q e).2.2) ∧
  (0 < q ∨ 0 < e.1 ∨ 0 < e.2 → 0 < (sch q e).1 ∧ 0 < (sch q e).2.1 ∧ 0 < (sch q e).2.2)

/-- The source is seen in the cell and behind it, what comes through the faces at least in the cell. -/
def Touch2 (sch : K → K × K → K × (K × K)) : Prop := ∀ q e, 0 ≤ q → 0 ≤ e.1 → 0 ≤ e.2 →
  (0 ≤ (sch q e).1 ∧ 0 ≤ (sch q e).2.1 ∧ 0 ≤ (sch q e).2.2) ∧
  (0 < q ∨ 0 < e.1 ∨ 0 < e.2 → 0 < (sch q e).1) ∧ (0 < q → 0 < (sch q e).2.1 ∧ 0 < (sch q e).2.2)

theorem strict_sd1 (mu dx sig : K) (hmu : 0 < mu) (hdx : 0 < dx) (hs : 0 < sig) : Strict1 (sd1 mu dx sig) := by
  intro q e hq he
  have h1 : 0 < mu / dx := by positivity
  have h2 : 0 < 1 / (sig + mu / dx) := by positivity
  have h3 := mul_nonneg h1.le he
  unfold sd1
  dsimp only
  refine ⟨⟨?_, ?_⟩, fun h => ?_⟩
  · positivity
  · positivity
  · have : 0 < q + mu / dx * e := by
      rcases h with h | h
      · linarith
      · have := mul_pos h1 h
        linarith
    have := mul_pos h2 this
    constructor <;> linarith

theorem strict_dd1 (mu dx sig : K) (hmu : 0 < mu) (hdx : 0 < dx) (hs : 0 < sig) (hthin : sig * dx < 2 * mu) :
    Strict1 (dd1 mu dx sig) := by
  intro q e hq he
  have h1 : 0 < 2 * mu / dx := by positivity
  have h2 : 0 < 1 / (sig + 2 * mu / dx) := by positivity
  have h3 := mul_nonneg h1.le he
  have h4 : sig < 2 * mu / dx := by rw [lt_div_iff₀ hdx]; exact hthin
  have h5 := mul_nonneg (sub_nonneg.2 h4.le) he
  have e2 : 2 * (1 / (sig + 2 * mu / dx) * (q + 2 * mu / dx * e)) - e =
      1 / (sig + 2 * mu / dx) * (2 * q + (2 * mu / dx - sig) * e) := by
    have : sig + 2 * mu / dx ≠ 0 := by positivity
    generalize 2 * mu / dx = z at *
    field_simp
    ring
  have e1 : dd1 mu dx sig q e = (1 / (sig + 2 * mu / dx) * (q + 2 * mu / dx * e),
      1 / (sig + 2 * mu / dx) * (2 * q + (2 * mu / dx - sig) * e)) := by
    rw [← e2]
    unfold dd1
    refine Prod.ext ?_ ?_ <;> dsimp only <;> ring
  rw [e1]
  dsimp only
  refine ⟨⟨by positivity, mul_nonneg h2.le (by linarith)⟩, fun h => ⟨mul_pos h2 ?_, mul_pos h2 ?_⟩⟩
  · rcases h with h | h
    · linarith
    · have := mul_pos h1 h
      linarith
  · rcases h with h | h
    · linarith
    · have := mul_pos (sub_pos.2 h4) h
      linarith

theorem strict_sc1 (ex : K → K) (hex : Attenuates ex) (hx0 : ∀ t > 0, 0 < ex (-t)) (mu dx sig : K) (hmu : 0 < mu)
    (hdx : 0 < dx) (hs : 0 < sig) : Strict1 (sc1 ex mu dx sig) := by
  intro q e hq he
  have ht : 0 < sig * dx / mu := by positivity
  have a0 := hx0 _ ht
  have a1 := hex.less _ ht
  have a2 := hex.lower _ ht
  have hx : sc1 ex mu dx sig = fun s pin => (pin * (1 - ex (-(sig * dx / mu))) / (sig * dx / mu) +
      s * (sig * dx + mu * (ex (-(sig * dx / mu)) - 1)) / (sig * sig * dx),
      ex (-(sig * dx / mu)) * pin + s * (1 - ex (-(sig * dx / mu))) / sig) := rfl
  rw [hx]
  generalize ex (-(sig * dx / mu)) = A at *
  have b1 : 0 < sig * dx + mu * (A - 1) := by
    have : mu * (1 - A) < mu * (sig * dx / mu) := mul_lt_mul_of_pos_left (by linarith) hmu
    rw [mul_div_cancel₀ _ hmu.ne'] at this
    linarith
  have d2 : 0 < 1 - A := by linarith
  dsimp only
  have p1 : 0 ≤ e * (1 - A) / (sig * dx / mu) := by positivity
  have p2 : 0 ≤ q * (sig * dx + mu * (A - 1)) / (sig * sig * dx) := by positivity
  have p3 : 0 ≤ A * e := by positivity
  have p4 : 0 ≤ q * (1 - A) / sig := by positivity
  refine ⟨⟨by linarith, by linarith⟩, ?_⟩
  rintro (h | h)
  · have q2 : 0 < q * (sig * dx + mu * (A - 1)) / (sig * sig * dx) := by positivity
    have q4 : 0 < q * (1 - A) / sig := by positivity
    exact ⟨by linarith, by linarith⟩
  · have q1 : 0 < e * (1 - A) / (sig * dx / mu) := by positivity
    have q3 : 0 < A * e := by positivity
    exact ⟨by linarith, by linarith⟩

theorem strict_sd2 (mu eta dx dy sig : K) (hmu : 0 < mu) (heta : 0 < eta) (hdx : 0 < dx) (hdy : 0 < dy) (hs : 0 < sig) :
    Strict2 (sd2 mu eta dx dy sig) := by
  intro q e hq he hf
  have h1 : 0 < mu / dx := by positivity
  have h1' : 0 < eta / dy := by positivity
  have h2 : 0 < 1 / (sig + mu / dx + eta / dy) := by positivity
  have h3 := mul_nonneg h1.le he
  have h3' := mul_nonneg h1'.le hf
  unfold sd2
  dsimp only
  refine ⟨⟨by positivity, by positivity, by positivity⟩, fun h => ?_⟩
  have : 0 < q + mu / dx * e.1 + eta / dy * e.2 := by
    rcases h with h | h | h
    · linarith
    · have := mul_pos h1 h
      linarith
    · have := mul_pos h1' h
      linarith
  have := mul_pos h2 this
  refine ⟨?_, ?_, ?_⟩ <;> linarith

theorem touch_of_strict {sch : K → K × K → K × (K × K)} (h : Strict2 sch) : Touch2 sch := fun q e hq h1 h2 =>
  ⟨(h q e hq h1 h2).1, fun k => ((h q e hq h1 h2).2 k).1, fun k => ((h q e hq h1 h2).2 (Or.inl k)).2⟩

theorem touch_sc2 (ex : K → K) (hex : Attenuates ex) (mu eta dx dy sig : K) (hmu : 0 < mu) (heta : 0 < eta) (hdx : 0 < dx)
    (hdy : 0 < dy) (hs : 0 < sig) : Touch2 (sc2 ex mu eta dx dy sig) := by
  obtain ⟨δ, hδ, hg⟩ := gain_sc2 ex hex mu eta dx dy sig hmu heta hdx hdy hs
  intro q e hq h1 h2
  have k := hg q e (q / sig) h1 h2 (by positivity) (by rw [div_mul_cancel₀ _ hs.ne'])
  have k0 : 0 ≤ δ * (q / sig) := by positivity
  refine ⟨⟨k0.trans k.1, k0.trans k.2.1, k0.trans k.2.2⟩, ?_, fun h => ?_⟩
  swap
  · have : 0 < δ * (q / sig) := by positivity
    exact ⟨this.trans_le k.2.1, this.trans_le k.2.2⟩
  rintro (h | h)
  · have : 0 < δ * (q / sig) := by positivity
    exact this.trans_le k.1
  have ha : 0 < sig * (dx / mu) := by positivity
  have hb : 0 < sig * (dy / eta) := by positivity
  -- the cell average is that without the entering fluxes, and a positive share of each
  have hz := (hg q (0, 0) 0 (le_refl _) (le_refl _) (le_refl _) (by simpa using hq)).1
  rw [mul_zero] at hz
  suffices H : ∃ s1 s2 : K, 0 < s1 ∧ 0 < s2 ∧ (sc2 ex mu eta dx dy sig q e).1 =
      (sc2 ex mu eta dx dy sig q (0, 0)).1 + s1 * e.1 + s2 * e.2 by
    obtain ⟨s1, s2, t1, t2, ee⟩ := H
    rw [ee]
    have u1 := mul_nonneg t1.le h1
    have u2 := mul_nonneg t2.le h2
    rcases h with h | h
    · have := mul_pos t1 h
      linarith
    · have := mul_pos t2 h
      linarith
  have half : ∀ al : K, 0 < al → (1 - ex (-al)) / al < 1 := fun al h => by
    rw [div_lt_one h]
    have := hex.lower al h
    linarith
  by_cases hr : sig * (dx / mu) / (sig * (dy / eta)) ≤ 1
  · have o1 := half _ ha
    have a1 := hex.less _ ha
    refine ⟨(1 - (1 - sig * (dx / mu) / (sig * (dy / eta))) * ex (-(sig * (dx / mu)))) / (sig * (dx / mu)) -
        (1 - ex (-(sig * (dx / mu)))) / (sig * (dx / mu)) / (sig * (dy / eta)),
      (1 - (1 - ex (-(sig * (dx / mu)))) / (sig * (dx / mu))) / (sig * (dy / eta)), ?_, ?_, ?_⟩
    · generalize sig * (dx / mu) = al at *
      generalize sig * (dy / eta) = be at *
      generalize ex (-al) = E at *
      have hr0 : 0 < al / be := by positivity
      have e1 : (1 - (1 - al / be) * E) / al - (1 - E) / al / be =
          ((1 - al / be) * (1 - E) + al / be * (1 - (1 - E) / al)) / al := by
        field_simp
        ring
      rw [e1]
      have : 0 < al / be * (1 - (1 - E) / al) := mul_pos hr0 (by linarith)
      have : 0 ≤ (1 - al / be) * (1 - E) := mul_nonneg (by linarith) (by linarith)
      exact div_pos (by linarith) ha
    · exact div_pos (by linarith) hb
    · unfold sc2
      simp only [if_pos hr]
      generalize sig * (dx / mu) = al at *
      generalize sig * (dy / eta) = be at *
      generalize ex (-al) = E at *
      generalize q / sig = Q
      field_simp
      ring
  · have o1 := half _ hb
    have a1 := hex.less _ hb
    refine ⟨(1 - (1 - ex (-(sig * (dy / eta)))) / (sig * (dy / eta))) / (sig * (dx / mu)),
      (1 - (1 - 1 / (sig * (dx / mu) / (sig * (dy / eta)))) * ex (-(sig * (dy / eta)))) / (sig * (dy / eta)) -
        (1 - ex (-(sig * (dy / eta)))) / (sig * (dy / eta)) / (sig * (dx / mu)), ?_, ?_, ?_⟩
    · exact div_pos (by linarith) ha
    · generalize sig * (dx / mu) = al at *
      generalize sig * (dy / eta) = be at *
      generalize ex (-be) = E at *
      have hr1 : 1 / (al / be) < 1 := by
        rw [div_lt_one (by positivity)]
        exact not_le.1 hr
      have hr0 : 0 < 1 / (al / be) := by positivity
      have e1 : (1 - (1 - 1 / (al / be)) * E) / be - (1 - E) / be / al =
          ((1 - 1 / (al / be)) * (1 - E) + 1 / (al / be) * (1 - (1 - E) / be)) / be := by
        field_simp
        ring
      rw [e1]
      have : 0 < 1 / (al / be) * (1 - (1 - E) / be) := mul_pos hr0 (by linarith)
      have : 0 ≤ (1 - 1 / (al / be)) * (1 - E) := mul_nonneg (by linarith) (by linarith)
      exact div_pos (by linarith) hb
    · unfold sc2
      simp only [if_neg hr]
      generalize sig * (dx / mu) = al at *
      generalize sig * (dy / eta) = be at *
      generalize ex (-be) = E at *
      generalize q / sig = Q
      field_simp
      ring

/-! ## Sweeps -/

/-- In some octant, whatever else is there, a source in cell `c'` is seen in cell `c` in every direction. -/
def Lights {F : Type} (P : Prob F K) (Sol : (Nat → K) → Nat → Nat → (Nat → F) → (Nat → K) → Prop) (c' c : Nat) : Prop :=
  ∃ o < 2 ^ P.dim, ∀ a < P.na, ∀ q b p, Sol q o a b p → (∀ i < P.N, 0 ≤ q i) →
    (∀ side < 2 * P.dim, Enters side o → ∀ i j, InFace P side i j → 0 ≤ P.get (b side) i j) → 0 < q c' → 0 < p c

theorem lights1 (sch : Nat → Nat → K → K → K × K) (w : Nat → K) (nx na : Nat) (up : Bool) (bc : Nat → BC K)
    (order : List Nat) (scat fixed mtod disc) (hc : ∀ a < na, ∀ i < nx, Strict1 (sch a i)) (c' c : Nat) (h' : c' < nx)
    (h : c < nx) : Lights (prob1 sch w nx na up bc order scat fixed mtod disc)
      (fun q o a b p => Solves1 nx (fun i => sch a i (q i)) o b p) c' c := by
  obtain ⟨o, ho, hle⟩ : ∃ o < 2 ^ 1, posn nx o 0 c' ≤ posn nx o 0 c := by
    rcases le_total c' c with k | k
    · refine ⟨0, by decide, ?_⟩
      have : 0 < Sweep.octantSign 0 0 := by decide
      unfold posn
      rw [if_pos this, if_pos this]
      exact k
    · refine ⟨1, by decide, ?_⟩
      have : ¬ 0 < Sweep.octantSign 1 0 := by decide
      unfold posn
      rw [if_neg this, if_neg this]
      omega
  refine ⟨o, ho, ?_⟩
  rintro a ha q b p ⟨E, e1, e2, e3⟩ hq hin hs
  have ha' : a < na := ha
  have hq' : ∀ c < nx, 0 ≤ q c := hq
  obtain ⟨x1, x2, x3, x4, x5, x6⟩ := entry_facts 1 (by decide) (by decide) o ho 0 (by decide)
  have face : ∀ side < 2, ∀ i j, InFace (prob1 sch w nx na up bc order scat fixed mtod disc) side i j ↔ i = 0 ∧ j = 0 := by
    intro side hs i j
    change i < faceCells 1 side (fun _ => nx) 0 ∧ j < faceCells 1 side (fun _ => nx) 1 ↔ _
    have : ∀ k, faceCells 1 side (fun _ => nx) k = 1 := by
      intro k
      interval_cases side <;> simp [faceCells, List.range, List.range.loop, List.filter]
    rw [this, this]
    omega
  have s0 : 0 ≤ E 0 := by
    rw [e1]
    exact hin _ x1 x3 0 0 ((face _ x1 0 0).2 ⟨rfl, rfl⟩)
  have step : ∀ n < nx, 0 ≤ E n → (0 ≤ p (posn nx o 0 n) ∧ 0 ≤ E (n + 1)) ∧
      (0 < q (posn nx o 0 n) ∨ 0 < E n → 0 < p (posn nx o 0 n) ∧ 0 < E (n + 1)) := by
    intro n hn hE
    have hi := posn_lt (o := o) (d := 0) hn
    have := hc a ha' _ hi (q (posn nx o 0 n)) (E n) (hq' _ hi) hE
    have h3 := e3 n hn
    dsimp only at h3
    rw [h3] at this
    exact this
  have nn : ∀ n ≤ nx, 0 ≤ E n := by
    intro n
    induction n with
    | zero => exact fun _ => s0
    | succ n ih => exact fun hn => (step n (by omega) (ih (by omega))).1.2
  have go : ∀ k, posn nx o 0 c' + k < nx → 0 < p (posn nx o 0 (posn nx o 0 c' + k)) ∧ 0 < E (posn nx o 0 c' + k + 1) := by
    intro k
    induction k with
    | zero =>
      intro hk
      refine (step _ hk (nn _ hk.le)).2 (Or.inl ?_)
      rw [Nat.add_zero, posn_posn h']
      exact hs
    | succ k ih =>
      intro hk
      exact (step _ hk (nn _ hk.le)).2 (Or.inr (ih (by omega)).2)
  have := (go (posn nx o 0 c - posn nx o 0 c') (by have := posn_lt (o := o) (d := 0) h; omega)).1
  rw [Nat.add_sub_cancel' hle, posn_posn h] at this
  exact this

theorem octant2 (nx ny i' j' i j : Nat) : ∃ o < 2 ^ 2, posn nx o 0 i' ≤ posn nx o 0 i ∧ posn ny o 1 j' ≤ posn ny o 1 j := by
  have f0 : 0 < Sweep.octantSign 0 0 ∧ 0 < Sweep.octantSign 0 1 := by decide
  have f1 : ¬ 0 < Sweep.octantSign 1 0 ∧ 0 < Sweep.octantSign 1 1 := by decide
  have f2 : ¬ 0 < Sweep.octantSign 2 0 ∧ ¬ 0 < Sweep.octantSign 2 1 := by decide
  have f3 : 0 < Sweep.octantSign 3 0 ∧ ¬ 0 < Sweep.octantSign 3 1 := by decide
  unfold posn
  rcases le_total i' i with k | k <;> rcases le_total j' j with l | l
  · refine ⟨0, by decide, ?_⟩
    rw [if_pos f0.1, if_pos f0.1, if_pos f0.2, if_pos f0.2]
    exact ⟨k, l⟩
  · refine ⟨3, by decide, ?_⟩
    rw [if_pos f3.1, if_pos f3.1, if_neg f3.2, if_neg f3.2]
    exact ⟨k, by omega⟩
  · refine ⟨1, by decide, ?_⟩
    rw [if_neg f1.1, if_neg f1.1, if_pos f1.2, if_pos f1.2]
    exact ⟨by omega, l⟩
  · refine ⟨2, by decide, ?_⟩
    rw [if_neg f2.1, if_neg f2.1, if_neg f2.2, if_neg f2.2]
    exact ⟨by omega, by omega⟩

/-- What both 2-D results use: the fluxes of a sweep are not negative, with the cell relations in sweep coordinates. -/
theorem sweep2_facts (sch : Nat → Nat → Nat → K → K × K → K × (K × K)) (w : Nat → K) (nx ny na : Nat) (up : Bool)
    (bc : Nat → BC (Nat → K)) (order : List Nat) (scat fixed mtod disc)
    (hc : ∀ a < na, ∀ i < nx, ∀ j < ny, Touch2 (sch a i j)) {o a : Nat} (ho : o < 2 ^ 2) (ha : a < na) {q : Nat → K}
    {b : Nat → Nat → K} {p : Nat → K} (hsol : Solves2 nx ny (fun i j => sch a i j (q (i + j * nx))) o b p)
    (hq : ∀ c < nx * ny, 0 ≤ q c)
    (hin : ∀ side < 2 * 2, Enters side o → ∀ i j, InFace (prob2 sch w nx ny na up bc order scat fixed mtod disc) side i j →
      0 ≤ b side i) :
    ∃ V H : Nat → Nat → K, (∀ s < nx, ∀ r < ny, 0 ≤ V s r ∧ 0 ≤ H s r) ∧ ∀ s < nx, ∀ r < ny,
      sch a (posn nx o 0 s) (posn ny o 1 r) (q (posn nx o 0 s + posn ny o 1 r * nx)) (V s r, H s r) =
        (p (posn nx o 0 s + posn ny o 1 r * nx), (V (s + 1) r, H s (r + 1))) := by
  obtain ⟨V, H, e1, e2, e3⟩ := hsol
  obtain ⟨x1, x2, x3, x4, x5, x6⟩ := entry_facts 2 (by decide) (by decide) o ho 0 (by decide)
  obtain ⟨y1, y2, y3, y4, y5, y6⟩ := entry_facts 2 (by decide) (by decide) o ho 1 (by decide)
  have v0 : ∀ r < ny, 0 ≤ V 0 r := by
    intro r hr
    rw [(e1 r hr).1]
    exact hin _ x1 x3 _ 0 ((face2 nx ny _ _ 0 x1).2 ⟨by rw [if_pos (by omega)]; exact posn_lt hr, rfl⟩)
  have h0 : ∀ s < nx, 0 ≤ H s 0 := by
    intro s hs
    rw [(e2 s hs).1]
    exact hin _ y1 y3 _ 0 ((face2 nx ny _ _ 0 y1).2 ⟨by rw [if_neg (by omega)]; exact posn_lt hs, rfl⟩)
  have step : ∀ s < nx, ∀ r < ny, 0 ≤ V s r → 0 ≤ H s r → 0 ≤ V (s + 1) r ∧ 0 ≤ H s (r + 1) := by
    intro s hs r hr hV hH
    have hi := posn_lt (o := o) (d := 0) hs
    have hj := posn_lt (o := o) (d := 1) hr
    have := (hc a ha _ hi _ hj (q (posn nx o 0 s + posn ny o 1 r * nx)) (V s r, H s r) (hq _ (cell2_lt hi hj)) hV hH).1
    have h3 := e3 s hs r hr
    dsimp only at h3
    rw [h3] at this
    exact this.2
  have nn : ∀ r ≤ ny, (∀ s < nx, 0 ≤ H s r) ∧ (r < ny → ∀ s ≤ nx, 0 ≤ V s r) := by
    have row : ∀ r < ny, (∀ s < nx, 0 ≤ H s r) → ∀ s ≤ nx, 0 ≤ V s r := by
      intro r hr hH s
      induction s with
      | zero => exact fun _ => v0 r hr
      | succ s ih => exact fun hs => (step s (by omega) r hr (ih (by omega)) (hH s (by omega))).1
    intro r
    induction r with
    | zero => exact fun _ => ⟨h0, fun hr => row 0 hr h0⟩
    | succ r ih =>
      intro hr
      obtain ⟨i1, i2⟩ := ih (by omega)
      have hH : ∀ s < nx, 0 ≤ H s (r + 1) := fun s hs => (step s hs r (by omega) (i2 (by omega) s hs.le) (i1 s hs)).2
      exact ⟨hH, fun h => row (r + 1) h hH⟩
  exact ⟨V, H, fun s hs r hr => ⟨(nn r hr.le).2 hr s hs.le, (nn r hr.le).1 s hs⟩, e3⟩

theorem lights2 (sch : Nat → Nat → Nat → K → K × K → K × (K × K)) (w : Nat → K) (nx ny na : Nat) (up : Bool)
    (bc : Nat → BC (Nat → K)) (order : List Nat) (scat fixed mtod disc)
    (hc : ∀ a < na, ∀ i < nx, ∀ j < ny, Strict2 (sch a i j)) (i' j' i j : Nat) (hi' : i' < nx) (hj' : j' < ny)
    (hi : i < nx) (hj : j < ny) : Lights (prob2 sch w nx ny na up bc order scat fixed mtod disc)
      (fun q o a b p => Solves2 nx ny (fun i j => sch a i j (q (i + j * nx))) o b p) (i' + j' * nx) (i + j * nx) := by
  obtain ⟨o, ho, hle1, hle2⟩ := octant2 nx ny i' j' i j
  refine ⟨o, ho, ?_⟩
  intro a ha q b p hsol hq hin hs
  have ha' : a < na := ha
  have hq' : ∀ c < nx * ny, 0 ≤ q c := hq
  obtain ⟨V, H, nn, e3⟩ := sweep2_facts sch w nx ny na up bc order scat fixed mtod disc
    (fun a ha i hi j hj => touch_of_strict (hc a ha i hi j hj)) ho ha' hsol hq' hin
  have step : ∀ s < nx, ∀ r < ny, (0 < q (posn nx o 0 s + posn ny o 1 r * nx) ∨ 0 < V s r ∨ 0 < H s r) →
      0 < p (posn nx o 0 s + posn ny o 1 r * nx) ∧ 0 < V (s + 1) r ∧ 0 < H s (r + 1) := by
    intro s hs r hr h
    have hi := posn_lt (o := o) (d := 0) hs
    have hj := posn_lt (o := o) (d := 1) hr
    have := (hc a ha' _ hi _ hj (q (posn nx o 0 s + posn ny o 1 r * nx)) (V s r, H s r) (hq' _ (cell2_lt hi hj))
      (nn s hs r hr).1 (nn s hs r hr).2).2 h
    rw [e3 s hs r hr] at this
    exact this
  have hs0 := posn_lt (o := o) (d := 0) hi'
  have hr0 := posn_lt (o := o) (d := 1) hj'
  have along : ∀ k, posn nx o 0 i' + k < nx →
      0 < V (posn nx o 0 i' + k + 1) (posn ny o 1 j') ∧ 0 < H (posn nx o 0 i' + k) (posn ny o 1 j' + 1) ∧
      0 < p (posn nx o 0 (posn nx o 0 i' + k) + posn ny o 1 (posn ny o 1 j') * nx) := by
    intro k
    induction k with
    | zero =>
      intro hk
      have := step _ hk _ hr0 (Or.inl (by
        rw [Nat.add_zero, posn_posn hi', posn_posn hj']
        exact hs))
      exact ⟨this.2.1, this.2.2, this.1⟩
    | succ k ih =>
      intro hk
      have := step _ hk _ hr0 (Or.inr (Or.inl (ih (by omega)).1))
      exact ⟨this.2.1, this.2.2, this.1⟩
  have up' : ∀ l, posn ny o 1 j' + l < ny → ∀ k, posn nx o 0 i' + k < nx →
      0 < H (posn nx o 0 i' + k) (posn ny o 1 j' + l + 1) ∧
      0 < p (posn nx o 0 (posn nx o 0 i' + k) + posn ny o 1 (posn ny o 1 j' + l) * nx) := by
    intro l
    induction l with
    | zero => exact fun _ k hk => (along k hk).2
    | succ l ih =>
      intro hl k hk
      have := step _ hk _ hl (Or.inr (Or.inr (ih (by omega) k hk).1))
      exact ⟨this.2.2, this.1⟩
  have := (up' (posn ny o 1 j - posn ny o 1 j') (by have := posn_lt (o := o) (d := 1) hj; omega)
    (posn nx o 0 i - posn nx o 0 i') (by have := posn_lt (o := o) (d := 0) hi; omega)).2
  rw [Nat.add_sub_cancel' hle1, Nat.add_sub_cancel' hle2, posn_posn hi, posn_posn hj] at this
  exact this

/-- Schemes that let what comes through the faces be seen in the cell: the cell itself and its neighbours are reached. -/
theorem touches2 (sch : Nat → Nat → Nat → K → K × K → K × (K × K)) (w : Nat → K) (nx ny na : Nat) (up : Bool)
    (bc : Nat → BC (Nat → K)) (order : List Nat) (scat fixed mtod disc)
    (hc : ∀ a < na, ∀ i < nx, ∀ j < ny, Touch2 (sch a i j)) (i' j' i j : Nat) (hi' : i' < nx) (hj' : j' < ny)
    (hi : i < nx) (hj : j < ny) (near : i = i' ∧ j = j' ∨ j = j' ∧ (i = i' + 1 ∨ i' = i + 1) ∨ i = i' ∧ (j = j' + 1 ∨ j' = j + 1)) :
    Lights (prob2 sch w nx ny na up bc order scat fixed mtod disc)
      (fun q o a b p => Solves2 nx ny (fun i j => sch a i j (q (i + j * nx))) o b p) (i' + j' * nx) (i + j * nx) := by
  obtain ⟨o, ho, hle1, hle2⟩ := octant2 nx ny i' j' i j
  refine ⟨o, ho, ?_⟩
  intro a ha q b p hsol hq hin hs
  have ha' : a < na := ha
  have hq' : ∀ c < nx * ny, 0 ≤ q c := hq
  obtain ⟨V, H, nn, e3⟩ := sweep2_facts sch w nx ny na up bc order scat fixed mtod disc hc ho ha' hsol hq' hin
  have step : ∀ s < nx, ∀ r < ny, ((0 < q (posn nx o 0 s + posn ny o 1 r * nx) ∨ 0 < V s r ∨ 0 < H s r) →
      0 < p (posn nx o 0 s + posn ny o 1 r * nx)) ∧
      (0 < q (posn nx o 0 s + posn ny o 1 r * nx) → 0 < V (s + 1) r ∧ 0 < H s (r + 1)) := by
    intro s hs r hr
    have hi := posn_lt (o := o) (d := 0) hs
    have hj := posn_lt (o := o) (d := 1) hr
    have := (hc a ha' _ hi _ hj (q (posn nx o 0 s + posn ny o 1 r * nx)) (V s r, H s r) (hq' _ (cell2_lt hi hj))
      (nn s hs r hr).1 (nn s hs r hr).2).2
    rw [e3 s hs r hr] at this
    exact this
  have hs0 := posn_lt (o := o) (d := 0) hi'
  have hr0 := posn_lt (o := o) (d := 1) hj'
  have hs1 := posn_lt (o := o) (d := 0) hi
  have hr1 := posn_lt (o := o) (d := 1) hj
  have hqq : 0 < q (posn nx o 0 (posn nx o 0 i') + posn ny o 1 (posn ny o 1 j') * nx) := by
    rw [posn_posn hi', posn_posn hj']
    exact hs
  have h0 := step _ hs0 _ hr0
  have goal := (step _ hs1 _ hr1).1
  rw [posn_posn hi, posn_posn hj] at goal
  refine goal ?_
  rcases near with ⟨n1, n2⟩ | ⟨n1, n2⟩ | ⟨n1, n2⟩
  · subst n1 n2
    exact Or.inl hs
  · subst n1
    have : posn nx o 0 i = posn nx o 0 i' + 1 := by
      revert hle1
      unfold posn
      split <;> omega
    rw [this]
    exact Or.inr (Or.inl (h0.2 hqq).1)
  · subst n1
    have : posn ny o 1 j = posn ny o 1 j' + 1 := by
      revert hle2
      unfold posn
      split <;> omega
    rw [this]
    exact Or.inr (Or.inr (h0.2 hqq).2)

end Detran.WGReflect
