import Verif.Props.Fold
import Verif.Props.KeffFlux
import Mathlib.Analysis.Complex.ExponentialBounds

/-!
# Symmetric problems, part problems and uniform directions (C140, C141)
-/

namespace Detran.MGReflect

open Detran.Boundary (Bd BC Loc Enters Mirror)
open Detran.WGReflect (Solution Carries SameSide InFace eqs1 eqs2 eqs3 carries_flip1 carries_fold1 carries_flip2 carries_turn2
  carries_fold2 carries_quarter2 carries_spread2 carries_spread3 plain)
open Detran.Sweep (Solves1 Solves2 Solves3 dd1 sd1 sc1 dd2 sd2 sc2 dd3 fx fd sx sd xr swapEq)
open Detran.EigenPI (emits makes Data Fissile Seeded)
open Finset

section main
variable {F F' K : Type} [Field K] [LinearOrder K] [IsStrictOrderedRing K]

/-! ## Specification -/

/-- The first problem is made of the materials of the second, cell `c` of that of cell `κ c`. -/
structure Image (M M' : MGSolve.Prob K) (κ : Nat → Nat) : Prop where
  mat : M.x.mat = M'.x.mat
  adjoint : M.x.adjoint = M'.x.adjoint
  implicit : M.implicit = M'.implicit
  scale : M.scale = M'.scale
  inside : ∀ c < M.x.N, κ c < M'.x.N
  mmap : ∀ c < M.x.N, M.x.mmap c = M'.x.mmap (κ c)

/-- The sources likewise. -/
def SameSource (M M' : MGSolve.Prob K) (κ : Nat → Nat) : Prop := ∀ g < M.x.mat.G, ∀ c < M.x.N, M.q g c = M'.q g (κ c)

/-- Every set of fluxes of the second problem gives one of the first. -/
def Unfolds (P : Prob F K) (w : Nat → K) (Sol : Nat → (Nat → K) → Nat → Nat → (Nat → F) → (Nat → K) → Prop) (P' : Prob F' K)
    (w' : Nat → K) (Sol' : Nat → (Nat → K) → Nat → Nat → (Nat → F') → (Nat → K) → Prop) (κ : Nat → Nat) : Prop :=
  ∀ phi', MGFlux P' w' Sol' phi' → MGFlux P w Sol fun g c => phi' g (κ c)

/-- Every mode of the second problem gives one of the first with the same factor. -/
def UnfoldsModes (P : Prob F K) (w : Nat → K) (Sol : Nat → (Nat → K) → Nat → Nat → (Nat → F) → (Nat → K) → Prop) (P' : Prob F' K)
    (w' : Nat → K) (Sol' : Nat → (Nat → K) → Nat → Nat → (Nat → F') → (Nat → K) → Prop) (κ : Nat → Nat) : Prop :=
  ∀ k phi', Eigen P' w' Sol' k phi' → Eigen P w Sol k fun g c => phi' g (κ c)

/-! ## Lemmas -/

theorem couple_image {M M' : MGSolve.Prob K} {κ : Nat → Nat} (h : Image M M' κ) (g gp : Nat) {c : Nat} (hc : c < M.x.N) :
    couple M g gp c = couple M' g gp (κ c) := by
  unfold couple
  rw [h.mat, h.adjoint, h.implicit, h.scale, h.mmap c hc]

variable {P : Prob F K} {P' : Prob F' K} {w w' : Nat → K}
  {Sol : Nat → (Nat → K) → Nat → Nat → (Nat → F) → (Nat → K) → Prop}
  {Sol' : Nat → (Nat → K) → Nat → Nat → (Nat → F') → (Nat → K) → Prop} {κ : Nat → Nat}

theorem carries_flux (hI : Image P.M P'.M κ) (hq : SameSource P.M P'.M κ) (hN : ∀ g, (P.W g).N = P.M.x.N)
    (hm : ∀ g o a o' a', (P.W g).mtod o a = (P'.W g).mtod o' a') (hd : ∀ g, (P.W g).disc = []) (hd' : ∀ g, (P'.W g).disc = [])
    (h : ∀ g < P.M.x.mat.G, ∃ ω τ, Carries (P.W g) w (Sol g) (P'.W g) w' (Sol' g) κ ω τ) : Unfolds P w Sol P' w' Sol' κ := by
  intro phi' hp g hg
  obtain ⟨bd', psi', hs⟩ := hp g (by rw [← hI.mat]; exact hg)
  obtain ⟨ω, τ, h⟩ := h g hg
  obtain ⟨bd, psi, hs2, _⟩ := h (P.src (fun g c => phi' g (κ c)) g) (P'.src phi' g) (fun c => phi' g (κ c)) (phi' g) bd' psi'
    (fun o _ a _ c hc => by
      rw [hN] at hc
      unfold Prob.src
      rw [hd, hd', source_couple, source_couple, hq g hg c hc, hm g o a (ω c o) (τ a), hI.mat]
      simp only [couple_image hI g _ hc, List.map_nil]) (fun _ _ => rfl) hs
  exact ⟨bd, psi, hs2⟩

theorem carries_eigen (hI : Image P.M P'.M κ) (hN : ∀ g, (P.W g).N = P.M.x.N)
    (hm : ∀ g o a o' a', (P.W g).mtod o a = (P'.W g).mtod o' a') (hd : ∀ g, (P.W g).disc = []) (hd' : ∀ g, (P'.W g).disc = [])
    (h : ∀ g < P.M.x.mat.G, ∃ ω τ, Carries (P.W g) w (Sol g) (P'.W g) w' (Sol' g) κ ω τ) : UnfoldsModes P w Sol P' w' Sol' κ := by
  intro k phi' hp
  have e : ∀ g, { P.W g with disc := [] } = P.W g := fun g => by have := hd g; cases hW : P.W g; rw [hW] at this; simp_all
  have e' : ∀ g, { P'.W g with disc := [] } = P'.W g := fun g => by have := hd' g; cases hW : P'.W g; rw [hW] at this; simp_all
  refine carries_flux (P := P.fed k fun g c => phi' g (κ c)) (P' := P'.fed k phi')
    ⟨hI.mat, hI.adjoint, rfl, hI.scale, hI.inside, hI.mmap⟩ (fun g _ c hc => ?_) hN (fun g => hm g) (fun _ => rfl) (fun _ => rfl)
    (fun g hg => ?_) phi' hp
  · change 1 / k * P.made _ g c = 1 / k * P'.made _ g (κ c)
    unfold Prob.made
    rw [hI.mat, hI.adjoint, hI.mmap c hc]
  · obtain ⟨ω, τ, h⟩ := h g hg
    rw [← e g, ← e' g] at h
    exact ⟨ω, τ, h⟩

/-! ## Mirror images and half problems -/

section one
variable {M M' : MGSolve.Prob K} {sch sch' : Nat → Nat → Nat → K → K → K × K} {w w' : Nat → K} {n na : Nat} {up up' : Bool}
  {bc bc' : Nat → Nat → BC K} {order order' : List Nat} {m : K}

/-- A slab in a mirror: whatever the cell equations, the fluxes are those of the slab, mirrored. -/
theorem C140_mirror_slab (hI : Image M M' fun c => n - 1 - c) (hN : M.x.N = n)
    (hsch : ∀ g < M.x.mat.G, ∀ a < na, ∀ i < n, sch g a i = sch' g a (n - 1 - i)) (hw : ∀ a < na, w a = w' a)
    (hbc : ∀ g < M.x.mat.G, ∀ s < 2, SameSide ((mg1 M sch w n na up bc order (fun _ _ => m) (fun _ => [])).W g)
      ((mg1 M' sch' w' n na up' bc' order' (fun _ _ => m) (fun _ => [])).W g) s (sx s) (fun _ _ => fx) id fun i j => (i, j)) :
    (SameSource M M' (fun c => n - 1 - c) →
      Unfolds (mg1 M sch w n na up bc order (fun _ _ => m) (fun _ => [])) w (fun g => eqs1 (sch g) n)
        (mg1 M' sch' w' n na up' bc' order' (fun _ _ => m) (fun _ => [])) w' (fun g => eqs1 (sch' g) n) fun c => n - 1 - c) ∧
    UnfoldsModes (mg1 M sch w n na up bc order (fun _ _ => m) (fun _ => [])) w (fun g => eqs1 (sch g) n)
      (mg1 M' sch' w' n na up' bc' order' (fun _ _ => m) (fun _ => [])) w' (fun g => eqs1 (sch' g) n) fun c => n - 1 - c :=
  ⟨fun hq => carries_flux hI hq (fun _ => hN.symm) (fun _ _ _ _ _ => rfl) (fun _ => rfl) (fun _ => rfl)
      fun g hg => ⟨_, _, carries_flip1 (hsch g hg) hw (hbc g hg)⟩,
    carries_eigen hI (fun _ => hN.symm) (fun _ _ _ _ _ => rfl) (fun _ => rfl) (fun _ => rfl)
      fun g hg => ⟨_, _, carries_flip1 (hsch g hg) hw (hbc g hg)⟩⟩

/-- Half of a symmetric slab with a mirror in the middle: its fluxes, unfolded, are those of the whole. -/
theorem C140_half_slab (hn : 0 < n) (hI : Image M M' fun c => if c < n then c else 2 * n - 1 - c) (hN : M.x.N = 2 * n)
    (hsch : ∀ g < M.x.mat.G, ∀ a < na, ∀ i < 2 * n, sch g a i = sch' g a (if i < n then i else 2 * n - 1 - i))
    (hw : ∀ a < na, w a = w' a) (hr : ∀ g, bc' g 1 = .reflect)
    (hbc : ∀ g < M.x.mat.G, ∀ s < 2, SameSide ((mg1 M sch w (2 * n) na up bc order (fun _ _ => m) (fun _ => [])).W g)
      ((mg1 M' sch' w' n na up' bc' order' (fun _ _ => m) (fun _ => [])).W g) s 0 (fun _ _ o => if s = 0 then o else fx o) id
      fun i j => (i, j)) :
    (SameSource M M' (fun c => if c < n then c else 2 * n - 1 - c) →
      Unfolds (mg1 M sch w (2 * n) na up bc order (fun _ _ => m) (fun _ => [])) w (fun g => eqs1 (sch g) (2 * n))
        (mg1 M' sch' w' n na up' bc' order' (fun _ _ => m) (fun _ => [])) w' (fun g => eqs1 (sch' g) n)
        fun c => if c < n then c else 2 * n - 1 - c) ∧
    UnfoldsModes (mg1 M sch w (2 * n) na up bc order (fun _ _ => m) (fun _ => [])) w (fun g => eqs1 (sch g) (2 * n))
      (mg1 M' sch' w' n na up' bc' order' (fun _ _ => m) (fun _ => [])) w' (fun g => eqs1 (sch' g) n)
      fun c => if c < n then c else 2 * n - 1 - c :=
  ⟨fun hq => carries_flux hI hq (fun _ => hN.symm) (fun _ _ _ _ _ => rfl) (fun _ => rfl) (fun _ => rfl)
      fun g hg => ⟨_, _, carries_fold1 hn (hsch g hg) hw (hr g) (hbc g hg)⟩,
    carries_eigen hI (fun _ => hN.symm) (fun _ _ _ _ _ => rfl) (fun _ => rfl) (fun _ => rfl)
      fun g hg => ⟨_, _, carries_fold1 hn (hsch g hg) hw (hr g) (hbc g hg)⟩⟩

end one

section two
variable {M M' : MGSolve.Prob K} {sch sch' : Nat → Nat → Nat → Nat → K → K × K → K × (K × K)} {w w' : Nat → K} {n nx ny na : Nat}
  {up up' : Bool} {bc bc' : Nat → Nat → BC (Nat → K)} {order order' : List Nat} {m : K}

/-- A rectangle in a mirror. -/
theorem C140_mirror_rectangle (hI : Image M M' fun c => nx - 1 - c % nx + c / nx * nx) (hN : M.x.N = nx * ny)
    (hsch : ∀ g < M.x.mat.G, ∀ a < na, ∀ i < nx, ∀ j < ny, sch g a i j = sch' g a (nx - 1 - i) j) (hw : ∀ a < na, w a = w' a)
    (hbc : ∀ g < M.x.mat.G, ∀ s < 4, SameSide ((mg2 M sch w nx ny na up bc order (fun _ _ => m) (fun _ => [])).W g)
      ((mg2 M' sch' w' nx ny na up' bc' order' (fun _ _ => m) (fun _ => [])).W g) s (sx s) (fun _ _ => fx) id
      fun i j => (if s < 2 then i else nx - 1 - i, j)) :
    (SameSource M M' (fun c => nx - 1 - c % nx + c / nx * nx) →
      Unfolds (mg2 M sch w nx ny na up bc order (fun _ _ => m) (fun _ => [])) w (fun g => eqs2 (sch g) nx ny)
        (mg2 M' sch' w' nx ny na up' bc' order' (fun _ _ => m) (fun _ => [])) w' (fun g => eqs2 (sch' g) nx ny)
        fun c => nx - 1 - c % nx + c / nx * nx) ∧
    UnfoldsModes (mg2 M sch w nx ny na up bc order (fun _ _ => m) (fun _ => [])) w (fun g => eqs2 (sch g) nx ny)
      (mg2 M' sch' w' nx ny na up' bc' order' (fun _ _ => m) (fun _ => [])) w' (fun g => eqs2 (sch' g) nx ny)
      fun c => nx - 1 - c % nx + c / nx * nx :=
  ⟨fun hq => carries_flux hI hq (fun _ => hN.symm) (fun _ _ _ _ _ => rfl) (fun _ => rfl) (fun _ => rfl)
      fun g hg => ⟨_, _, carries_flip2 (hsch g hg) hw (hbc g hg)⟩,
    carries_eigen hI (fun _ => hN.symm) (fun _ _ _ _ _ => rfl) (fun _ => rfl) (fun _ => rfl)
      fun g hg => ⟨_, _, carries_flip2 (hsch g hg) hw (hbc g hg)⟩⟩

/-- A rectangle with its axes exchanged, with a quadrature that has, for each angle `a`, an angle `τ a` with the cosines
    exchanged. -/
theorem C140_turned_rectangle (hI : Image M M' fun c => c / nx + c % nx * ny) (hN : M.x.N = nx * ny)
    {τ : Nat → Nat} (hτ : ∀ a < na, τ a < na)
    (hsch : ∀ g < M.x.mat.G, ∀ a < na, ∀ i < nx, ∀ j < ny, ∀ q, sch g a i j q = swapEq (sch' g (τ a) j i q))
    (hw : ∀ f : Nat → K, ∑ a ∈ range na, w a * f (τ a) = ∑ a ∈ range na, w' a * f a)
    (hbc : ∀ g < M.x.mat.G, ∀ s < 4, SameSide ((mg2 M sch w nx ny na up bc order (fun _ _ => m) (fun _ => [])).W g)
      ((mg2 M' sch' w' ny nx na up' bc' order' (fun _ _ => m) (fun _ => [])).W g) s (sd s) (fun _ _ => fd) τ fun i j => (i, j)) :
    (SameSource M M' (fun c => c / nx + c % nx * ny) →
      Unfolds (mg2 M sch w nx ny na up bc order (fun _ _ => m) (fun _ => [])) w (fun g => eqs2 (sch g) nx ny)
        (mg2 M' sch' w' ny nx na up' bc' order' (fun _ _ => m) (fun _ => [])) w' (fun g => eqs2 (sch' g) ny nx)
        fun c => c / nx + c % nx * ny) ∧
    UnfoldsModes (mg2 M sch w nx ny na up bc order (fun _ _ => m) (fun _ => [])) w (fun g => eqs2 (sch g) nx ny)
      (mg2 M' sch' w' ny nx na up' bc' order' (fun _ _ => m) (fun _ => [])) w' (fun g => eqs2 (sch' g) ny nx)
      fun c => c / nx + c % nx * ny :=
  ⟨fun hq => carries_flux hI hq (fun _ => hN.symm) (fun _ _ _ _ _ => rfl) (fun _ => rfl) (fun _ => rfl)
      fun g hg => ⟨_, _, carries_turn2 hτ (hsch g hg) hw (hbc g hg)⟩,
    carries_eigen hI (fun _ => hN.symm) (fun _ _ _ _ _ => rfl) (fun _ => rfl) (fun _ => rfl)
      fun g hg => ⟨_, _, carries_turn2 hτ (hsch g hg) hw (hbc g hg)⟩⟩

/-- Half of a symmetric rectangle. -/
theorem C140_half_rectangle (hn : 0 < n)
    (hI : Image M M' fun c => (if c % (2 * n) < n then c % (2 * n) else 2 * n - 1 - c % (2 * n)) + c / (2 * n) * n)
    (hN : M.x.N = 2 * n * ny)
    (hsch : ∀ g < M.x.mat.G, ∀ a < na, ∀ i < 2 * n, ∀ j < ny, sch g a i j = sch' g a (if i < n then i else 2 * n - 1 - i) j)
    (hw : ∀ a < na, w a = w' a) (hr : ∀ g, bc' g 1 = .reflect)
    (hbc : ∀ g < M.x.mat.G, ∀ s < 2, SameSide ((mg2 M sch w (2 * n) ny na up bc order (fun _ _ => m) (fun _ => [])).W g)
      ((mg2 M' sch' w' n ny na up' bc' order' (fun _ _ => m) (fun _ => [])).W g) s 0 (fun _ _ o => if s = 0 then o else fx o) id
      fun i j => (i, j))
    (hbc2 : ∀ g < M.x.mat.G, ∀ s, 2 ≤ s → s < 4 →
      SameSide ((mg2 M sch w (2 * n) ny na up bc order (fun _ _ => m) (fun _ => [])).W g)
      ((mg2 M' sch' w' n ny na up' bc' order' (fun _ _ => m) (fun _ => [])).W g) s s (fun i _ o => if i < n then o else fx o) id
      fun i j => (if i < n then i else 2 * n - 1 - i, j)) :
    (SameSource M M' (fun c => (if c % (2 * n) < n then c % (2 * n) else 2 * n - 1 - c % (2 * n)) + c / (2 * n) * n) →
      Unfolds (mg2 M sch w (2 * n) ny na up bc order (fun _ _ => m) (fun _ => [])) w (fun g => eqs2 (sch g) (2 * n) ny)
        (mg2 M' sch' w' n ny na up' bc' order' (fun _ _ => m) (fun _ => [])) w' (fun g => eqs2 (sch' g) n ny)
        fun c => (if c % (2 * n) < n then c % (2 * n) else 2 * n - 1 - c % (2 * n)) + c / (2 * n) * n) ∧
    UnfoldsModes (mg2 M sch w (2 * n) ny na up bc order (fun _ _ => m) (fun _ => [])) w (fun g => eqs2 (sch g) (2 * n) ny)
      (mg2 M' sch' w' n ny na up' bc' order' (fun _ _ => m) (fun _ => [])) w' (fun g => eqs2 (sch' g) n ny)
      fun c => (if c % (2 * n) < n then c % (2 * n) else 2 * n - 1 - c % (2 * n)) + c / (2 * n) * n :=
  ⟨fun hq => carries_flux hI hq (fun _ => hN.symm) (fun _ _ _ _ _ => rfl) (fun _ => rfl) (fun _ => rfl)
      fun g hg => ⟨_, _, carries_fold2 hn (hsch g hg) hw (hr g) (hbc g hg) (hbc2 g hg)⟩,
    carries_eigen hI (fun _ => hN.symm) (fun _ _ _ _ _ => rfl) (fun _ => rfl) (fun _ => rfl)
      fun g hg => ⟨_, _, carries_fold2 hn (hsch g hg) hw (hr g) (hbc g hg) (hbc2 g hg)⟩⟩

/-- A quarter of a rectangle symmetric about both middle lines, sides open or reflecting. -/
theorem C140_quarter_rectangle {l : Nat} (hn : 0 < n) (hl : 0 < l)
    (hI : Image M M' fun c => (if c % (2 * n) < n then c % (2 * n) else 2 * n - 1 - c % (2 * n)) +
        (if c / (2 * n) < l then c / (2 * n) else 2 * l - 1 - c / (2 * n)) * n)
    (hN : M.x.N = 2 * n * (2 * l))
    (hsch : ∀ g < M.x.mat.G, ∀ a < na, ∀ i < 2 * n, ∀ j < 2 * l,
      sch g a i j = sch' g a (if i < n then i else 2 * n - 1 - i) (if j < l then j else 2 * l - 1 - j))
    (hw : ∀ a < na, w a = w' a) (hr : ∀ g, bc' g 1 = .reflect ∧ bc' g 3 = .reflect)
    (hbc : ∀ g, ∀ s < 4, bc g s = .vacuum ∧ bc' g (2 * (s / 2)) = .vacuum ∨ bc g s = .reflect ∧ bc' g (2 * (s / 2)) = .reflect) :
    (SameSource M M' (fun c => (if c % (2 * n) < n then c % (2 * n) else 2 * n - 1 - c % (2 * n)) +
        (if c / (2 * n) < l then c / (2 * n) else 2 * l - 1 - c / (2 * n)) * n) →
      Unfolds (mg2 M sch w (2 * n) (2 * l) na up bc order (fun _ _ => m) (fun _ => [])) w (fun g => eqs2 (sch g) (2 * n) (2 * l))
        (mg2 M' sch' w' n l na up' bc' order' (fun _ _ => m) (fun _ => [])) w' (fun g => eqs2 (sch' g) n l)
        fun c => (if c % (2 * n) < n then c % (2 * n) else 2 * n - 1 - c % (2 * n)) +
          (if c / (2 * n) < l then c / (2 * n) else 2 * l - 1 - c / (2 * n)) * n) ∧
    UnfoldsModes (mg2 M sch w (2 * n) (2 * l) na up bc order (fun _ _ => m) (fun _ => [])) w (fun g => eqs2 (sch g) (2 * n) (2 * l))
      (mg2 M' sch' w' n l na up' bc' order' (fun _ _ => m) (fun _ => [])) w' (fun g => eqs2 (sch' g) n l)
      fun c => (if c % (2 * n) < n then c % (2 * n) else 2 * n - 1 - c % (2 * n)) +
        (if c / (2 * n) < l then c / (2 * n) else 2 * l - 1 - c / (2 * n)) * n := by
  have h : ∀ g < M.x.mat.G, ∃ ω τ, Carries ((mg2 M sch w (2 * n) (2 * l) na up bc order (fun _ _ => m) (fun _ => [])).W g) w
      (eqs2 (sch g) (2 * n) (2 * l)) ((mg2 M' sch' w' n l na up' bc' order' (fun _ _ => m) (fun _ => [])).W g) w'
      (eqs2 (sch' g) n l) _ ω τ := fun g hg => by
    obtain ⟨ω, h⟩ := carries_quarter2 (up := up) (up' := up') (order := order) (order' := order') (scat := fun _ _ => 0)
      (scat' := fun _ _ => 0) (fixed := fun _ => 0) (fixed' := fun _ => 0) (mtod := fun _ _ => m) (mtod' := fun _ _ => m)
      (disc := []) (disc' := []) hn hl (hsch g hg) hw (hr g) (hbc g)
    exact ⟨ω, id, h⟩
  exact ⟨fun hq => carries_flux hI hq (fun _ => hN.symm) (fun _ _ _ _ _ => rfl) (fun _ => rfl) (fun _ => rfl) h,
    carries_eigen hI (fun _ => hN.symm) (fun _ _ _ _ _ => rfl) (fun _ => rfl) (fun _ => rfl) h⟩

end two

/-! ## Uniform directions -/

section uniform
variable {M M' : MGSolve.Prob K} {w w' : Nat → K} {nx ny nz na na' : Nat} {up up' : Bool} {order order' : List Nat} {m : K}

/-- A rectangle that does not change along the second axis, between mirrors at the ends of it: with cell equations that pass
    on what enters sideways when it equals the average, the fluxes are those of a slab, whatever the mesh along that axis. -/
theorem C141_rectangle_slab {sch : Nat → Nat → Nat → Nat → K → K × K → K × (K × K)} {sch' : Nat → Nat → Nat → K → K → K × K}
    {bc : Nat → Nat → BC (Nat → K)} {bc' : Nat → Nat → BC K} {τ : Nat → Nat} (hI : Image M M' fun c => c % nx)
    (hN : M.x.N = nx * ny) (hτ : ∀ a < na, τ a < na')
    (hsch : ∀ g < M.x.mat.G, ∀ a < na, ∀ i < nx, ∀ j < ny, ∀ q v, sch g a i j q (v, (sch' g (τ a) i q v).1) =
      ((sch' g (τ a) i q v).1, ((sch' g (τ a) i q v).2, (sch' g (τ a) i q v).1)))
    (hw : ∀ f : Nat → K, 2 * ∑ a ∈ range na, w a * f (τ a) = ∑ a ∈ range na', w' a * f a)
    (hy : ∀ g, bc g 2 = .reflect ∧ bc g 3 = .reflect)
    (hbc : ∀ g < M.x.mat.G, ∀ s < 2, SameSide ((mg2 M sch w nx ny na up bc order (fun _ _ => m) (fun _ => [])).W g)
      ((mg1 M' sch' w' nx na' up' bc' order' (fun _ _ => m) (fun _ => [])).W g) s s (fun _ _ => xr) τ fun _ _ => (0, 0)) :
    (SameSource M M' (fun c => c % nx) →
      Unfolds (mg2 M sch w nx ny na up bc order (fun _ _ => m) (fun _ => [])) w (fun g => eqs2 (sch g) nx ny)
        (mg1 M' sch' w' nx na' up' bc' order' (fun _ _ => m) (fun _ => [])) w' (fun g => eqs1 (sch' g) nx) fun c => c % nx) ∧
    UnfoldsModes (mg2 M sch w nx ny na up bc order (fun _ _ => m) (fun _ => [])) w (fun g => eqs2 (sch g) nx ny)
      (mg1 M' sch' w' nx na' up' bc' order' (fun _ _ => m) (fun _ => [])) w' (fun g => eqs1 (sch' g) nx) fun c => c % nx :=
  ⟨fun hq => carries_flux hI hq (fun _ => hN.symm) (fun _ _ _ _ _ => rfl) (fun _ => rfl) (fun _ => rfl)
      fun g hg => ⟨_, _, carries_spread2 hτ (hsch g hg) hw (hy g) (hbc g hg)⟩,
    carries_eigen hI (fun _ => hN.symm) (fun _ _ _ _ _ => rfl) (fun _ => rfl) (fun _ => rfl)
      fun g hg => ⟨_, _, carries_spread2 hτ (hsch g hg) hw (hy g) (hbc g hg)⟩⟩

/-- A block that does not change along the third axis. -/
theorem C141_block_rectangle {sch : Nat → Nat → Nat → Nat → Nat → K → K × K × K → K × (K × K × K)}
    {sch' : Nat → Nat → Nat → Nat → K → K × K → K × (K × K)} {bc : Nat → Nat → BC (Nat → Nat → K)} {bc' : Nat → Nat → BC (Nat → K)}
    {τ : Nat → Nat} (hI : Image M M' fun c => c % (nx * ny)) (hN : M.x.N = nx * ny * nz) (hτ : ∀ a < na, τ a < na')
    (hsch : ∀ g < M.x.mat.G, ∀ a < na, ∀ i < nx, ∀ j < ny, ∀ k < nz, ∀ q v,
      sch g a i j k q (v.1, v.2, (sch' g (τ a) i j q v).1) = ((sch' g (τ a) i j q v).1,
        ((sch' g (τ a) i j q v).2.1, (sch' g (τ a) i j q v).2.2, (sch' g (τ a) i j q v).1)))
    (hw : ∀ f : Nat → K, 2 * ∑ a ∈ range na, w a * f (τ a) = ∑ a ∈ range na', w' a * f a)
    (hz : ∀ g, bc g 4 = .reflect ∧ bc g 5 = .reflect)
    (hbc : ∀ g < M.x.mat.G, ∀ s < 4, SameSide ((mg3 M sch w nx ny nz na up bc order (fun _ _ => m) (fun _ => [])).W g)
      ((mg2 M' sch' w' nx ny na' up' bc' order' (fun _ _ => m) (fun _ => [])).W g) s s (fun _ _ o => o % 4) τ fun _ j => (j, 0)) :
    (SameSource M M' (fun c => c % (nx * ny)) →
      Unfolds (mg3 M sch w nx ny nz na up bc order (fun _ _ => m) (fun _ => [])) w (fun g => eqs3 (sch g) nx ny nz)
        (mg2 M' sch' w' nx ny na' up' bc' order' (fun _ _ => m) (fun _ => [])) w' (fun g => eqs2 (sch' g) nx ny)
        fun c => c % (nx * ny)) ∧
    UnfoldsModes (mg3 M sch w nx ny nz na up bc order (fun _ _ => m) (fun _ => [])) w (fun g => eqs3 (sch g) nx ny nz)
      (mg2 M' sch' w' nx ny na' up' bc' order' (fun _ _ => m) (fun _ => [])) w' (fun g => eqs2 (sch' g) nx ny)
      fun c => c % (nx * ny) :=
  ⟨fun hq => carries_flux hI hq (fun _ => hN.symm) (fun _ _ _ _ _ => rfl) (fun _ => rfl) (fun _ => rfl)
      fun g hg => ⟨_, _, carries_spread3 hτ (hsch g hg) hw (hz g) (hbc g hg)⟩,
    carries_eigen hI (fun _ => hN.symm) (fun _ _ _ _ _ => rfl) (fun _ => rfl) (fun _ => rfl)
      fun g hg => ⟨_, _, carries_spread3 hτ (hsch g hg) hw (hz g) (hbc g hg)⟩⟩

/-- The schemes that pass on what enters sideways when it equals the average. -/
theorem C141_schemes (mu eta xi dx dy dz s : K) (h1 : 0 < mu) (h2 : 0 < eta) (h3 : 0 < xi) (hx : 0 < dx) (hy : 0 < dy) (hz : 0 < dz)
    (hs : 0 < s) (q : K) :
    (∀ v, dd2 mu eta dx dy s q (v, (dd1 mu dx s q v).1) = ((dd1 mu dx s q v).1, ((dd1 mu dx s q v).2, (dd1 mu dx s q v).1))) ∧
    (∀ v, sd2 mu eta dx dy s q (v, (sd1 mu dx s q v).1) = ((sd1 mu dx s q v).1, ((sd1 mu dx s q v).2, (sd1 mu dx s q v).1))) ∧
    ∀ v : K × K, dd3 mu eta xi dx dy dz s q (v.1, v.2, (dd2 mu eta dx dy s q v).1) = ((dd2 mu eta dx dy s q v).1,
      ((dd2 mu eta dx dy s q v).2.1, (dd2 mu eta dx dy s q v).2.2, (dd2 mu eta dx dy s q v).1)) := by
  have p1 : 0 < 2 * mu / dx := by positivity
  have p2 : 0 < 2 * eta / dy := by positivity
  have p3 : 0 < 2 * xi / dz := by positivity
  have p4 : 0 < mu / dx := by positivity
  have p5 : 0 < eta / dy := by positivity
  refine ⟨fun v => ?_, fun v => ?_, fun v => ?_⟩
  · have e : (dd2 mu eta dx dy s q (v, (dd1 mu dx s q v).1)).1 = (dd1 mu dx s q v).1 := by
      unfold dd2 dd1
      dsimp only
      generalize 2 * mu / dx = a at *
      generalize 2 * eta / dy = b at *
      have : s + a ≠ 0 := by positivity
      have : s + a + b ≠ 0 := by positivity
      field_simp
    have e2 : dd2 mu eta dx dy s q (v, (dd1 mu dx s q v).1) = ((dd2 mu eta dx dy s q (v, (dd1 mu dx s q v).1)).1,
      (2 * (dd2 mu eta dx dy s q (v, (dd1 mu dx s q v).1)).1 - v,
        2 * (dd2 mu eta dx dy s q (v, (dd1 mu dx s q v).1)).1 - (dd1 mu dx s q v).1)) := rfl
    rw [e2, e]
    refine Prod.ext rfl (Prod.ext rfl ?_)
    show 2 * _ - _ = _
    ring
  · have e : (sd2 mu eta dx dy s q (v, (sd1 mu dx s q v).1)).1 = (sd1 mu dx s q v).1 := by
      unfold sd2 sd1
      dsimp only
      generalize mu / dx = a at *
      generalize eta / dy = b at *
      have : s + a ≠ 0 := by positivity
      have : s + a + b ≠ 0 := by positivity
      field_simp
    have e2 : sd2 mu eta dx dy s q (v, (sd1 mu dx s q v).1) = ((sd2 mu eta dx dy s q (v, (sd1 mu dx s q v).1)).1,
      ((sd2 mu eta dx dy s q (v, (sd1 mu dx s q v).1)).1, (sd2 mu eta dx dy s q (v, (sd1 mu dx s q v).1)).1)) := rfl
    rw [e2, e]
    rfl
  · have e : (dd3 mu eta xi dx dy dz s q (v.1, v.2, (dd2 mu eta dx dy s q v).1)).1 = (dd2 mu eta dx dy s q v).1 := by
      unfold dd3 dd2
      dsimp only
      generalize 2 * mu / dx = a at *
      generalize 2 * eta / dy = b at *
      generalize 2 * xi / dz = c at *
      have : s + a + b ≠ 0 := by positivity
      have : s + a + b + c ≠ 0 := by positivity
      field_simp
    have e2 : dd3 mu eta xi dx dy dz s q (v.1, v.2, (dd2 mu eta dx dy s q v).1) =
      ((dd3 mu eta xi dx dy dz s q (v.1, v.2, (dd2 mu eta dx dy s q v).1)).1,
      (2 * (dd3 mu eta xi dx dy dz s q (v.1, v.2, (dd2 mu eta dx dy s q v).1)).1 - v.1,
       2 * (dd3 mu eta xi dx dy dz s q (v.1, v.2, (dd2 mu eta dx dy s q v).1)).1 - v.2,
       2 * (dd3 mu eta xi dx dy dz s q (v.1, v.2, (dd2 mu eta dx dy s q v).1)).1 - (dd2 mu eta dx dy s q v).1)) := rfl
    rw [e2, e]
    refine Prod.ext rfl (Prod.ext rfl (Prod.ext rfl ?_))
    show 2 * _ - _ = _
    ring

end uniform

/-! ## What the solvers give -/

/-- Both problems have one set of fluxes each, the first being the unfolded second, and Gauss–Seidel on either, started
    anywhere, gets there: with one pass of source iteration per group, or with any number if no side reflects. -/
def Agree (P : Prob F K) (w : Nat → K) (Sol : Nat → (Nat → K) → Nat → Nat → (Nat → F) → (Nat → K) → Prop) (P' : Prob F' K)
    (w' : Nat → K) (Sol' : Nat → (Nat → K) → Nat → Nat → (Nat → F') → (Nat → K) → Prop) (κ : Nat → Nat) : Prop :=
  (∃ phi phi', MGFlux P w Sol phi ∧ MGFlux P' w' Sol' phi') ∧
  (∀ phi phi', MGFlux P w Sol phi → MGFlux P' w' Sol' phi' → ∀ g < P.M.x.mat.G, ∀ c < P.M.x.N, phi g c = phi' g (κ c)) ∧
  ∀ (l l' : List Nat), l.Nodup → (∀ g, g ∈ l ↔ g < P.M.x.mat.G) → l'.Nodup → (∀ g, g ∈ l' ↔ g < P.M.x.mat.G) →
    ∀ R, Ready P R → ∀ R', Ready P' R' → ∀ (tolI tolI' : K) (n n' : Nat), 0 < n → (n = 1 ∨ Open P) → 0 < n' →
    (n' = 1 ∨ Open P') → ∀ ε > 0, ∃ k0, ∀ k ≥ k0, ∀ k' ≥ k0, ∀ g < P.M.x.mat.G, ∀ c < P.M.x.N,
      |((P.gsPass tolI n l)^[k] R).phi g c - ((P'.gsPass tolI' n' l')^[k'] R').phi g (κ c)| < ε

theorem agree (hI : Image P.M P'.M κ) (hU : Unfolds P w Sol P' w' Sol' κ) (h : GSFinds P w Sol) (h' : GSFinds P' w' Sol') :
    Agree P w Sol P' w' Sol' κ := by
  obtain ⟨phi, h1, h2, h3⟩ := h
  obtain ⟨phi', h1', h2', h3'⟩ := h'
  have eq : ∀ g < P.M.x.mat.G, ∀ c < P.M.x.N, phi' g (κ c) = phi g c := h2 _ (hU _ h1')
  refine ⟨⟨phi, phi', h1, h1'⟩, fun f f' hf hf' g hg c hc => ?_, ?_⟩
  · rw [h2 f hf g hg c hc, h2' f' hf' g (by rw [← hI.mat]; exact hg) _ (hI.inside c hc), eq g hg c hc]
  · intro l l' hl hl2 hl' hl2' R hR R' hR' t t' n n' hn hn1 hn' hn1' ε hε
    obtain ⟨k1, e1⟩ := h3 l hl hl2 R hR t n hn hn1 (ε / 2) (half_pos hε)
    obtain ⟨k2, e2⟩ := h3' l' hl' (by rw [← hI.mat]; exact hl2') R' hR' t' n' hn' hn1' (ε / 2) (half_pos hε)
    refine ⟨max k1 k2, fun k hk k' hk' g hg c hc => ?_⟩
    have a := e1 k (le_of_max_le_left hk) g hg c hc
    have b := e2 k' (le_of_max_le_right hk') g (by rw [← hI.mat]; exact hg) _ (hI.inside c hc)
    rw [eq g hg c hc] at b
    rw [abs_lt] at *
    constructor <;> linarith [a.1, a.2, b.1, b.2]

/-- The multiplication factors are the same, with the unfolded mode; power iteration with exact fluxes, started anywhere,
    stores eigenvalues that differ by no more than a multiple of the tolerance. -/
def SameFactor (P : Prob F K) (w : Nat → K) (Sol : Nat → (Nat → K) → Nat → Nat → (Nat → F) → (Nat → K) → Prop) (P' : Prob F' K)
    (w' : Nat → K) (Sol' : Nat → (Nat → K) → Nat → Nat → (Nat → F') → (Nat → K) → Prop) (κ : Nat → Nat) : Prop :=
  ∃ k > 0, (∃ phi', (∀ c, Fissile P'.M.x c → 0 < P'.dens phi' c) ∧ Eigen P' w' Sol' k phi' ∧
      Eigen P w Sol k (fun g c => phi' g (κ c)) ∧ ∀ c, Fissile P.M.x c → 0 < P.dens (fun g c => phi' g (κ c)) c) ∧
    (∀ k1 phi, 0 < k1 → Eigen P w Sol k1 phi → (∀ c, Fissile P.M.x c → 0 < P.dens phi c) → k1 = k) ∧
    (∀ k1 phi', 0 < k1 → Eigen P' w' Sol' k1 phi' → (∀ c, Fissile P'.M.x c → 0 < P'.dens phi' c) → k1 = k) ∧
    ∃ S S', Exactly P w Sol S ∧ Exactly P' w' Sol' S' ∧ ∀ phi0 phi0', ∃ C > 0, ∃ t0 > 0, ∀ tol, 0 < tol → tol ≤ t0 →
      ∃ n0, ∀ n ≥ n0, ∃ r r', (power P S n tol).run phi0 = some r ∧ (power P' S' n tol).run phi0' = some r' ∧
        r.warned = false ∧ r'.warned = false ∧ |r.keff - r'.keff| ≤ C * tol

theorem same_factor (hI : Image P.M P'.M κ) (hU : UnfoldsModes P w Sol P' w' Sol' κ) (h : Multiplies P w Sol)
    (h' : Multiplies P' w' Sol') : SameFactor P w Sol P' w' Sol' κ := by
  obtain ⟨S, hS, k, k0, _, _, hone, hrun⟩ := h
  obtain ⟨S', hS', k', k0', ⟨phi', hE', hp'⟩, _, hone', hrun'⟩ := h'
  have mk : ∀ g, ∀ c < P.M.x.N, makes P.M.x g c = makes P'.M.x g (κ c) := fun g c hc => by
    unfold makes
    rw [hI.mat, hI.adjoint, hI.mmap c hc]
  have hp : ∀ c, Fissile P.M.x c → 0 < P.dens (fun g c => phi' g (κ c)) c := by
    rintro c ⟨hc, g, hg, hm⟩
    have := hp' (κ c) ⟨hI.inside c hc, g, by rw [← hI.mat]; exact hg, by rw [← mk g c hc]; exact hm⟩
    unfold Prob.dens at this ⊢
    rw [hI.mat]
    simp only [mk _ c hc]
    exact this
  have e := hone k' _ k0' (hU k' phi' hE') hp
  subst e
  refine ⟨k', k0', ⟨phi', hp', hE', hU k' phi' hE', hp⟩, hone, hone', S, S', hS, hS', fun phi0 phi0' => ?_⟩
  obtain ⟨C, hC, t0, ht, hn⟩ := hrun phi0
  obtain ⟨C', hC', t0', ht', hn'⟩ := hrun' phi0'
  refine ⟨C + C', by positivity, min t0 t0', lt_min ht ht', fun tol h1 h2 => ?_⟩
  obtain ⟨n0, a⟩ := hn tol h1 (h2.trans (min_le_left _ _))
  obtain ⟨n0', a'⟩ := hn' tol h1 (h2.trans (min_le_right _ _))
  refine ⟨max n0 n0', fun n hn => ?_⟩
  obtain ⟨r, b1, b2, b3⟩ := a n (le_of_max_le_left hn)
  obtain ⟨r', c1, c2, c3⟩ := a' n (le_of_max_le_right hn)
  refine ⟨r, r', b1, c1, b2, c2, ?_⟩
  rw [abs_le] at *
  constructor <;> linarith [b3.1, b3.2, c3.1, c3.2]

theorem weak_image {M M' : MGSolve.Prob K} {sig r : Nat → Nat → K} {u : Nat → K} {rho : K} (hI : Image M M' κ)
    (h : Weak M' sig r u rho) : Weak M (fun g c => sig g (κ c)) r u rho where
  tot := fun g hg c hc => h.tot g (by rw [← hI.mat]; exact hg) _ (hI.inside c hc)
  rnn := by rw [hI.mat]; exact h.rnn
  ratio := fun g hg gp hgp c hc => by
    rw [couple_image hI g gp hc]
    exact h.ratio g (by rw [← hI.mat]; exact hg) gp (by rw [← hI.mat]; exact hgp) _ (hI.inside c hc)
  upos := by rw [hI.mat]; exact h.upos
  row := by rw [hI.mat]; exact h.row
  rpos := h.rpos
  less := h.less

theorem image_scatters {M M' : MGSolve.Prob K} (hI : Image M M' κ) : Image (scatters M) (scatters M') κ :=
  ⟨hI.mat, hI.adjoint, rfl, hI.scale, hI.inside, hI.mmap⟩

theorem tame_image {M M' : MGSolve.Prob K} {sig : Nat → Nat → K} {u : Nat → K} {th : K} (hI : Image M M' κ)
    (h : Tame M' sig u th) : Tame M (fun g c => sig g (κ c)) u th where
  tot := fun g hg c hc => h.tot g (by rw [← hI.mat]; exact hg) _ (hI.inside c hc)
  couple := fun g hg gp hgp c hc => by
    rw [couple_image hI g gp hc]
    exact h.couple g (by rw [← hI.mat]; exact hg) gp (by rw [← hI.mat]; exact hgp) _ (hI.inside c hc)
  upos := by rw [hI.mat]; exact h.upos
  row := fun g hg c hc => by
    simp only [couple_image hI g _ hc]
    rw [hI.mat]
    exact h.row g (by rw [← hI.mat]; exact hg) _ (hI.inside c hc)
  th0 := h.th0
  less := h.less

theorem makes_image {M M' : MGSolve.Prob K} (hI : Image M M' κ) (g : Nat) {c : Nat} (hc : c < M.x.N) :
    makes M.x g c = makes M'.x g (κ c) ∧ emits M.x g c = emits M'.x g (κ c) := by
  unfold makes emits
  rw [hI.mat, hI.adjoint, hI.mmap c hc]
  exact ⟨rfl, rfl⟩

theorem data_image {M M' : MGSolve.Prob K} (hI : Image M M' κ) (h : Data M'.x) : Data M.x where
  emits := fun g hg c hc => by
    rw [(makes_image hI g hc).2]
    exact h.emits g (by rw [← hI.mat]; exact hg) _ (hI.inside c hc)
  makes := fun g hg c hc => by
    rw [(makes_image hI g hc).1]
    exact h.makes g (by rw [← hI.mat]; exact hg) _ (hI.inside c hc)

theorem fissile_image {M M' : MGSolve.Prob K} (hI : Image M M' κ) {c : Nat} (hc : c < M.x.N) :
    Fissile M.x c ↔ Fissile M'.x (κ c) := by
  unfold Fissile
  simp only [(makes_image hI _ hc).1, hI.mat, hc, hI.inside c hc]

theorem seeded_image {M M' : MGSolve.Prob K} (hI : Image M M' κ) (hon : ∀ c' < M'.x.N, ∃ c < M.x.N, κ c = c')
    (h : Seeded M'.x) : Seeded M.x := by
  obtain ⟨c', hf, hs⟩ := h
  obtain ⟨c, hc, rfl⟩ := hon c' hf.1
  exact ⟨c, (fissile_image hI hc).2 hf, by rw [hI.mat, hI.mmap c hc]; exact hs⟩

theorem linked_image (hI : Image P.M P'.M κ) (hon : ∀ c' < P'.M.x.N, ∃ c < P.M.x.N, κ c = c') (h : Linked P') : Linked P := by
  intro c hc c' hc'
  obtain ⟨g, hg, he, g', hg', hm, hr⟩ := h (κ c) ((fissile_image hI hc.1).1 hc) (κ c') ((fissile_image hI hc'.1).1 hc')
  refine ⟨g, by rw [hI.mat]; exact hg, by rw [(makes_image hI g hc.1).2]; exact he, g', by rw [hI.mat]; exact hg',
    by rw [(makes_image hI g' hc'.1).1]; exact hm, ?_⟩
  refine Relation.ReflTransGen.mono (p := Downs P) ?_ _ _ hr
  rintro a b ⟨hb, d', hd', hp⟩
  obtain ⟨d, hd, rfl⟩ := hon d' hd'
  refine ⟨by rw [hI.mat]; exact hb, d, hd, ?_⟩
  have hJ : Image (P.sourced fun _ _ => 0).M (P'.sourced fun _ _ => 0).M κ :=
    ⟨hI.mat, hI.adjoint, rfl, hI.scale, hI.inside, hI.mmap⟩
  rw [couple_image hJ b a hd]
  exact hp

end main

/-! ## Cells of a part problem and where they are in the whole -/

/-- Cell of the first half in which cell `i` of `2 n` is found. -/
def half (n i : Nat) : Nat := if i < n then i else 2 * n - 1 - i

/-- Cell of a quarter in which a cell of a mesh `2 n` wide and `2 l` high is found. -/
def quarter (n l c : Nat) : Nat := half n (c % (2 * n)) + half l (c / (2 * n)) * n

theorem half_lt {n i : Nat} (h : i < 2 * n) : half n i < n := by unfold half; split <;> omega

theorem half_low {n i : Nat} (h : i < n) : half n i = i := if_pos h

theorem half_onto {n i : Nat} (h : i < n) : ∃ c < 2 * n, half n c = i := ⟨i, by omega, half_low h⟩

theorem quarter_onto {n l c : Nat} (h : c < n * l) : ∃ d < 2 * n * (2 * l), quarter n l d = c := by
  have hn : 0 < n := Nat.pos_of_ne_zero fun e => by simp [e] at h
  have h1 : c % n < n := Nat.mod_lt _ hn
  have h2 : c / n < l := Nat.div_lt_of_lt_mul h
  refine ⟨c % n + c / n * (2 * n), WGReflect.cell2_lt (by omega) (by omega), ?_⟩
  obtain ⟨e1, e2⟩ := Sweep.idx (j := c / n) (show c % n < 2 * n by omega)
  unfold quarter
  rw [e1, e2, half_low h1, half_low h2, Nat.mul_comm]
  exact Nat.mod_add_div c n

/-! ## Solved problems -/

section solved
variable {K : Type} [Field K] [LinearOrder K] [IsStrictOrderedRing K]

/-- Fluxes of a symmetric slab and of its half, diamond or step differencing by cell. -/
theorem C140_half_slab_fluxes [Archimedean K] (M M' : MGSolve.Prob K) (hM : M.OK) (hM' : M'.OK) (n : Nat) (hn : 0 < n)
    (hN : M.x.N = 2 * n) (hN' : M'.x.N = n) (hI : Image M M' (half n)) (hq : SameSource M M' (half n)) (mu w dx : Nat → K)
    (sig r : Nat → Nat → K) (u : Nat → K) (m rho : K) (hW : Weak M' sig r u rho) (na : Nat) (up up' : Bool)
    (bc bc' : Nat → Nat → BC K) (order order' : List Nat) (hord : order.Perm (List.range 2)) (hord' : order'.Perm (List.range 2))
    (sch : Nat → Nat → Nat → K → K → K × K)
    (hsch : ∀ g a i, sch g a i = dd1 (mu a) (dx i) (sig g i) ∨ sch g a i = sd1 (mu a) (dx i) (sig g i))
    (hmu : ∀ a < na, 0 < mu a) (hw : ∀ a < na, 0 < w a) (hm : m * ∑ _o ∈ range 2, ∑ a ∈ range na, w a = 1)
    (hdx : ∀ i < n, 0 < dx i) (hr : ∀ g s, bc g s = .reflect ↔ bc 0 s = .reflect)
    (hr' : ∀ g s, bc' g s = .reflect ↔ bc' 0 s = .reflect) (hp : ∀ g, ∀ s < 2, bc g s ≠ .periodic)
    (hp' : ∀ g, ∀ s < 2, bc' g s ≠ .periodic) (hmid : ∀ g, bc' g 1 = .reflect)
    (hbc : ∀ g < M.x.mat.G, ∀ s < 2,
      SameSide ((mg1 M (fun g a i => sch g a (half n i)) w (2 * n) na up bc order (fun _ _ => m) (fun _ => [])).W g)
      ((mg1 M' sch w n na up' bc' order' (fun _ _ => m) (fun _ => [])).W g) s 0 (fun _ _ o => if s = 0 then o else fx o) id
      fun i j => (i, j)) :
    Agree (mg1 M (fun g a i => sch g a (half n i)) w (2 * n) na up bc order (fun _ _ => m) (fun _ => [])) w
      (fun g => eqs1 (fun a i => sch g a (half n i)) (2 * n))
      (mg1 M' sch w n na up' bc' order' (fun _ _ => m) (fun _ => [])) w (fun g => eqs1 (sch g) n) (half n) := by
  have a1 := C129_1D M hM mu w (fun i => dx (half n i)) (fun g i => sig g (half n i)) r u m rho (weak_image hI hW) na up bc order
    hord (fun g a i => sch g a (half n i)) (fun g a i => hsch g a (half n i)) hmu hw hm
    (fun i hi => hdx _ (half_lt (by rw [← hN]; exact hi))) hr hp
  have a2 := C129_1D M' hM' mu w dx sig r u m rho hW na up' bc' order' hord' sch hsch hmu hw hm (by rw [hN']; exact hdx) hr' hp'
  rw [hN] at a1
  rw [hN'] at a2
  exact agree hI ((C140_half_slab hn hI hN (fun _ _ _ _ _ _ => rfl) (fun _ _ => rfl) hmid hbc).1 hq) a1 a2

/-- Fluxes of a symmetric slab are symmetric. -/
theorem C140_symmetric_slab [Archimedean K] (M : MGSolve.Prob K) (hM : M.OK) (hI : Image M M fun c => M.x.N - 1 - c)
    (hq : SameSource M M fun c => M.x.N - 1 - c) (mu w dx : Nat → K) (sig r : Nat → Nat → K) (u : Nat → K) (m rho : K)
    (hW : Weak M sig r u rho) (na : Nat) (up : Bool) (bc : Nat → Nat → BC K) (order : List Nat)
    (hord : order.Perm (List.range 2)) (sch : Nat → Nat → Nat → K → K → K × K)
    (hsch : ∀ g a i, sch g a i = dd1 (mu a) (dx i) (sig g i) ∨ sch g a i = sd1 (mu a) (dx i) (sig g i))
    (hsym : ∀ g < M.x.mat.G, ∀ a < na, ∀ i < M.x.N, sch g a i = sch g a (M.x.N - 1 - i))
    (hmu : ∀ a < na, 0 < mu a) (hw : ∀ a < na, 0 < w a) (hm : m * ∑ _o ∈ range 2, ∑ a ∈ range na, w a = 1)
    (hdx : ∀ i < M.x.N, 0 < dx i) (hr : ∀ g s, bc g s = .reflect ↔ bc 0 s = .reflect)
    (hp : ∀ g, ∀ s < 2, bc g s ≠ .periodic)
    (hbc : ∀ g < M.x.mat.G, ∀ s < 2, SameSide ((mg1 M sch w M.x.N na up bc order (fun _ _ => m) (fun _ => [])).W g)
      ((mg1 M sch w M.x.N na up bc order (fun _ _ => m) (fun _ => [])).W g) s (sx s) (fun _ _ => fx) id fun i j => (i, j)) :
    Agree (mg1 M sch w M.x.N na up bc order (fun _ _ => m) (fun _ => [])) w (fun g => eqs1 (sch g) M.x.N)
      (mg1 M sch w M.x.N na up bc order (fun _ _ => m) (fun _ => [])) w (fun g => eqs1 (sch g) M.x.N) fun c => M.x.N - 1 - c := by
  have a := C129_1D M hM mu w dx sig r u m rho hW na up bc order hord sch hsch hmu hw hm hdx hr hp
  exact agree hI ((C140_mirror_slab hI rfl hsym (fun _ _ => rfl) hbc).1 hq) a a

/-- Diamond or step differencing. -/
def mixed (d : Bool) (mu eta dx dy sig : K) : K → K × K → K × (K × K) := if d then dd2 mu eta dx dy sig else sd2 mu eta dx dy sig

theorem mixed_or (d : Bool) (mu eta dx dy sig : K) :
    mixed d mu eta dx dy sig = dd2 mu eta dx dy sig ∨ mixed d mu eta dx dy sig = sd2 mu eta dx dy sig := by
  cases d
  · exact Or.inr rfl
  · exact Or.inl rfl

theorem quarter_at {n l i : Nat} (hi : i < 2 * n) (j : Nat) : quarter n l (i + j * (2 * n)) = half n i + half l j * n := by
  obtain ⟨e1, e2⟩ := Sweep.idx (j := j) hi
  unfold quarter
  rw [e1, e2]

theorem quarter_sides {F : Type} {bc bc' : Nat → Nat → BC F} (hmid : ∀ g, bc' g 1 = .reflect ∧ bc' g 3 = .reflect)
    (hbc : ∀ g, ∀ s < 4, bc g s = .vacuum ∧ bc' g (2 * (s / 2)) = .vacuum ∨ bc g s = .reflect ∧ bc' g (2 * (s / 2)) = .reflect) :
    (∀ g, ∀ s < 4, bc g s = .vacuum ∨ bc g s = .reflect) ∧ ∀ g, ∀ s < 4, bc' g s = .vacuum ∨ bc' g s = .reflect := by
  refine ⟨fun g s hs => (hbc g s hs).imp And.left And.left, fun g s hs => ?_⟩
  rcases (show s = 0 ∨ s = 1 ∨ s = 2 ∨ s = 3 by omega) with e | e | e | e <;> subst e
  · exact (hbc g 0 (by decide)).imp And.right And.right
  · exact Or.inr (hmid g).1
  · exact (hbc g 2 (by decide)).imp And.right And.right
  · exact Or.inr (hmid g).2

theorem not_periodic {F : Type} {b : BC F} (h : b = .vacuum ∨ b = .reflect) : b ≠ .periodic := by
  rintro rfl
  rcases h with h | h <;> cases h

/-- Fluxes of a rectangle symmetric about both middle lines and of its quarter, diamond or step differencing by group and
    cell. -/
theorem C140_quarter_fluxes [Archimedean K] (M M' : MGSolve.Prob K) (hM : M.OK) (hM' : M'.OK) (n l : Nat) (hn : 0 < n) (hl : 0 < l)
    (hN : M.x.N = 2 * n * (2 * l)) (hN' : M'.x.N = n * l) (hI : Image M M' (quarter n l)) (hq : SameSource M M' (quarter n l))
    (mu eta w dx dy : Nat → K) (sig r : Nat → Nat → K) (u : Nat → K) (m rho : K) (hW : Weak M' sig r u rho) (na : Nat)
    (up up' : Bool) (bc bc' : Nat → Nat → BC (Nat → K)) (order order' : List Nat) (hord : order.Perm (List.range 4))
    (hord' : order'.Perm (List.range 4)) (d : Nat → Nat → Bool)
    (hmu : ∀ a < na, 0 < mu a) (heta : ∀ a < na, 0 < eta a) (hw : ∀ a < na, 0 < w a)
    (hm : m * ∑ _o ∈ range 4, ∑ a ∈ range na, w a = 1) (hdx : ∀ i < n, 0 < dx i) (hdy : ∀ j < l, 0 < dy j)
    (hr : ∀ g s, bc g s = .reflect ↔ bc 0 s = .reflect) (hr' : ∀ g s, bc' g s = .reflect ↔ bc' 0 s = .reflect)
    (hmid : ∀ g, bc' g 1 = .reflect ∧ bc' g 3 = .reflect)
    (hbc : ∀ g, ∀ s < 4, bc g s = .vacuum ∧ bc' g (2 * (s / 2)) = .vacuum ∨ bc g s = .reflect ∧ bc' g (2 * (s / 2)) = .reflect) :
    let sch := fun g a i j => mixed (d g (quarter n l (i + j * (2 * n)))) (mu a) (eta a) (dx (half n i)) (dy (half l j))
      (sig g (quarter n l (i + j * (2 * n))))
    let sch' := fun g a i j => mixed (d g (i + j * n)) (mu a) (eta a) (dx i) (dy j) (sig g (i + j * n))
    Agree (mg2 M sch w (2 * n) (2 * l) na up bc order (fun _ _ => m) (fun _ => [])) w (fun g => eqs2 (sch g) (2 * n) (2 * l))
      (mg2 M' sch' w n l na up' bc' order' (fun _ _ => m) (fun _ => [])) w (fun g => eqs2 (sch' g) n l) (quarter n l) := by
  intro sch sch'
  obtain ⟨hp, hp'⟩ := quarter_sides hmid hbc
  have a1 := C129_2D M hM mu eta w (fun i => dx (half n i)) (fun j => dy (half l j)) (fun g c => sig g (quarter n l c)) r u m rho
    (weak_image hI hW) (2 * n) (2 * l) na hN.symm up bc order hord sch (fun g a i j => mixed_or _ _ _ _ _ _) hmu heta hw hm
    (fun i hi => hdx _ (half_lt hi)) (fun j hj => hdy _ (half_lt hj)) hr (fun g s hs => not_periodic (hp g s hs))
  have a2 := C129_2D M' hM' mu eta w dx dy sig r u m rho hW n l na hN'.symm up' bc' order' hord' sch'
    (fun g a i j => mixed_or _ _ _ _ _ _) hmu heta hw hm hdx hdy hr' (fun g s hs => not_periodic (hp' g s hs))
  refine agree hI ((C140_quarter_rectangle hn hl hI hN (fun g _ a _ i hi j _ => ?_) (fun _ _ => rfl) hmid hbc).1 hq) a1 a2
  show mixed _ _ _ _ _ _ = mixed _ _ _ _ _ _
  rw [quarter_at hi]
  rfl

/-- The same with step characteristics. -/
theorem C140_quarter_fluxes_sc (M M' : MGSolve.Prob ℝ) (hM : M.OK) (hM' : M'.OK) (n l : Nat) (hn : 0 < n) (hl : 0 < l)
    (hN : M.x.N = 2 * n * (2 * l)) (hN' : M'.x.N = n * l) (hI : Image M M' (quarter n l)) (hq : SameSource M M' (quarter n l))
    (mu eta w dx dy : Nat → ℝ) (sig r : Nat → Nat → ℝ) (u : Nat → ℝ) (m rho : ℝ) (hW : Weak M' sig r u rho) (na : Nat)
    (up up' : Bool) (bc bc' : Nat → Nat → BC (Nat → ℝ)) (order order' : List Nat) (hord : order.Perm (List.range 4))
    (hord' : order'.Perm (List.range 4))
    (hmu : ∀ a < na, 0 < mu a) (heta : ∀ a < na, 0 < eta a) (hw : ∀ a < na, 0 < w a)
    (hm : m * ∑ _o ∈ range 4, ∑ a ∈ range na, w a = 1) (hdx : ∀ i < n, 0 < dx i) (hdy : ∀ j < l, 0 < dy j)
    (hr : ∀ g s, bc g s = .reflect ↔ bc 0 s = .reflect) (hr' : ∀ g s, bc' g s = .reflect ↔ bc' 0 s = .reflect)
    (hmid : ∀ g, bc' g 1 = .reflect ∧ bc' g 3 = .reflect)
    (hbc : ∀ g, ∀ s < 4, bc g s = .vacuum ∧ bc' g (2 * (s / 2)) = .vacuum ∨ bc g s = .reflect ∧ bc' g (2 * (s / 2)) = .reflect) :
    let sch := fun g a i j => sc2 Real.exp (mu a) (eta a) (dx (half n i)) (dy (half l j)) (sig g (quarter n l (i + j * (2 * n))))
    let sch' := fun g a i j => sc2 Real.exp (mu a) (eta a) (dx i) (dy j) (sig g (i + j * n))
    Agree (mg2 M sch w (2 * n) (2 * l) na up bc order (fun _ _ => m) (fun _ => [])) w (fun g => eqs2 (sch g) (2 * n) (2 * l))
      (mg2 M' sch' w n l na up' bc' order' (fun _ _ => m) (fun _ => [])) w (fun g => eqs2 (sch' g) n l) (quarter n l) := by
  intro sch sch'
  obtain ⟨hp, hp'⟩ := quarter_sides hmid hbc
  have a1 := C129_2D_sc M hM mu eta w (fun i => dx (half n i)) (fun j => dy (half l j)) (fun g c => sig g (quarter n l c)) r u m rho
    (weak_image hI hW) (2 * n) (2 * l) na hN.symm up bc order hord hmu heta hw hm
    (fun i hi => hdx _ (half_lt hi)) (fun j hj => hdy _ (half_lt hj)) hr (fun g s hs => not_periodic (hp g s hs))
  have a2 := C129_2D_sc M' hM' mu eta w dx dy sig r u m rho hW n l na hN'.symm up' bc' order' hord'
    hmu heta hw hm hdx hdy hr' (fun g s hs => not_periodic (hp' g s hs))
  refine agree hI ((C140_quarter_rectangle (sch := sch) (sch' := sch') hn hl hI hN (fun g _ a _ i hi j _ => ?_) (fun _ _ => rfl)
    hmid hbc).1 hq) a1 a2
  show sc2 _ _ _ _ _ _ = sc2 _ _ _ _ _ _
  rw [quarter_at hi]
  rfl

/-- The multiplication factor of a symmetric slab is that of its half: the positive schemes in any mixture. -/
theorem C140_half_slab_factor (M M' : MGSolve.Prob ℝ) (hM : M.OK) (hM' : M'.OK) (n : Nat) (hn : 0 < n) (hN : M.x.N = 2 * n)
    (hN' : M'.x.N = n) (hI : Image M M' (half n)) (mu w dx : Nat → ℝ) (sig : Nat → Nat → ℝ) (u : Nat → ℝ)
    (m th : ℝ) (hT : Tame (scatters M') sig u th) (na : Nat) (up up' : Bool) (bc bc' : Nat → Nat → BC ℝ)
    (order order' : List Nat) (hord : order.Perm (List.range 2)) (hord' : order'.Perm (List.range 2))
    (sch : Nat → Nat → Nat → ℝ → ℝ → ℝ × ℝ)
    (hsch : ∀ g a i, sch g a i = dd1 (mu a) (dx i) (sig g i) ∧ sig g i * dx i < 2 * mu a ∨
      sch g a i = sd1 (mu a) (dx i) (sig g i) ∨ sch g a i = sc1 Real.exp (mu a) (dx i) (sig g i))
    (hmu : ∀ a < na, 0 < mu a) (hw : ∀ a < na, 0 < w a) (hm : m * ∑ _o ∈ range 2, ∑ a ∈ range na, w a = 1)
    (hdx : ∀ i < n, 0 < dx i) (hr : ∀ g s, bc g s = .reflect ↔ bc 0 s = .reflect)
    (hr' : ∀ g s, bc' g s = .reflect ↔ bc' 0 s = .reflect)
    (hb : ∀ g s, bc g s = .vacuum ∧ bc' g 0 = .vacuum ∨ bc g s = .reflect ∧ bc' g 0 = .reflect)
    (hb' : ∀ g s, bc' g s = .vacuum ∨ bc' g s = .reflect) (hmid : ∀ g, bc' g 1 = .reflect) (hd : Data M'.x) (hx : Seeded M'.x)
    (hL : Linked (mg1 M' sch w n na up' bc' order' (fun _ _ => m) (fun _ => []))) :
    SameFactor (mg1 M (fun g a i => sch g a (half n i)) w (2 * n) na up bc order (fun _ _ => m) (fun _ => [])) w
      (fun g => eqs1 (fun a i => sch g a (half n i)) (2 * n))
      (mg1 M' sch w n na up' bc' order' (fun _ _ => m) (fun _ => [])) w (fun g => eqs1 (sch g) n) (half n) := by
  have hon : ∀ c' < M'.x.N, ∃ c < M.x.N, half n c = c' := fun c' h => by
    rw [hN]; exact half_onto (by rw [← hN']; exact h)
  have hL1 : Linked (mg1 M (fun g a i => sch g a (half n i)) w M.x.N na up bc order (fun _ _ => m) (fun _ => [])) :=
    linked_image (P' := mg1 M' sch w n na up' bc' order' (fun _ _ => m) (fun _ => [])) hI hon hL
  have a1 := C134_slab M hM mu w (fun i => dx (half n i)) (fun g i => sig g (half n i)) u m th (tame_image (image_scatters hI) hT)
    (by rw [hN]; omega) na up bc order hord (fun g a i => sch g a (half n i)) (fun g a i => hsch g a (half n i)) hmu hw hm
    (fun i hi => hdx _ (half_lt (by rw [← hN]; exact hi))) hr (fun g s => (hb g s).imp And.left And.left) (data_image hI hd)
    (seeded_image hI hon hx) hL1
  have a2 := C134_slab M' hM' mu w dx sig u m th hT (by rw [hN']; exact hn) na up' bc' order' hord' sch hsch hmu hw hm
    (by rw [hN']; exact hdx) hr' hb' hd hx (by rw [hN']; exact hL)
  rw [hN] at a1
  rw [hN'] at a2
  exact same_factor hI (C140_half_slab hn hI hN (fun _ _ _ _ _ _ => rfl) (fun _ _ => rfl) hmid
    (fun g _ s _ => plain (hb g s))).2 a1 a2

/-- Step differencing or step characteristics. -/
noncomputable def positive (d : Bool) (mu eta dx dy sig : ℝ) : ℝ → ℝ × ℝ → ℝ × (ℝ × ℝ) :=
  if d then sc2 Real.exp mu eta dx dy sig else sd2 mu eta dx dy sig

theorem positive_or (d : Bool) (mu eta dx dy sig : ℝ) :
    positive d mu eta dx dy sig = sd2 mu eta dx dy sig ∨ positive d mu eta dx dy sig = sc2 Real.exp mu eta dx dy sig := by
  cases d
  · exact Or.inl rfl
  · exact Or.inr rfl

/-- The multiplication factor of a rectangle symmetric about both middle lines is that of its quarter: step differencing,
    with step characteristics in some cells if every cell scatters within every group. -/
theorem C140_quarter_factor (M M' : MGSolve.Prob ℝ) (hM : M.OK) (hM' : M'.OK) (n l : Nat) (hn : 0 < n) (hl : 0 < l)
    (hN : M.x.N = 2 * n * (2 * l)) (hN' : M'.x.N = n * l) (hI : Image M M' (quarter n l))
    (mu eta w dx dy : Nat → ℝ) (sig : Nat → Nat → ℝ) (u : Nat → ℝ) (m th : ℝ) (hT : Tame (scatters M') sig u th) (na : Nat)
    (up up' : Bool) (bc bc' : Nat → Nat → BC (Nat → ℝ)) (order order' : List Nat) (hord : order.Perm (List.range 4))
    (hord' : order'.Perm (List.range 4)) (d : Nat → Nat → Bool)
    (hself : (∀ g c, d g c = false) ∨ ∀ g < M'.x.mat.G, ∀ c < M'.x.N, 0 < couple (scatters M') g g c)
    (hmu : ∀ a < na, 0 < mu a) (heta : ∀ a < na, 0 < eta a) (hw : ∀ a < na, 0 < w a)
    (hm : m * ∑ _o ∈ range 4, ∑ a ∈ range na, w a = 1) (hdx : ∀ i < n, 0 < dx i) (hdy : ∀ j < l, 0 < dy j)
    (hr : ∀ g s, bc g s = .reflect ↔ bc 0 s = .reflect) (hr' : ∀ g s, bc' g s = .reflect ↔ bc' 0 s = .reflect)
    (hb : ∀ g s, bc g s = .vacuum ∨ bc g s = .reflect) (hb' : ∀ g s, bc' g s = .vacuum ∨ bc' g s = .reflect)
    (hmid : ∀ g, bc' g 1 = .reflect ∧ bc' g 3 = .reflect)
    (hbc : ∀ g, ∀ s < 4, bc g s = .vacuum ∧ bc' g (2 * (s / 2)) = .vacuum ∨ bc g s = .reflect ∧ bc' g (2 * (s / 2)) = .reflect)
    (hd : Data M'.x) (hx : Seeded M'.x) (hL : ∀ W : Nat → WGReflect.Prob (Nat → ℝ) ℝ, Linked ⟨M', W⟩) :
    let sch := fun g a i j => positive (d g (quarter n l (i + j * (2 * n)))) (mu a) (eta a) (dx (half n i)) (dy (half l j))
      (sig g (quarter n l (i + j * (2 * n))))
    let sch' := fun g a i j => positive (d g (i + j * n)) (mu a) (eta a) (dx i) (dy j) (sig g (i + j * n))
    SameFactor (mg2 M sch w (2 * n) (2 * l) na up bc order (fun _ _ => m) (fun _ => [])) w (fun g => eqs2 (sch g) (2 * n) (2 * l))
      (mg2 M' sch' w n l na up' bc' order' (fun _ _ => m) (fun _ => [])) w (fun g => eqs2 (sch' g) n l) (quarter n l) := by
  intro sch sch'
  have hon : ∀ c' < M'.x.N, ∃ c < M.x.N, quarter n l c = c' := fun c' h => by
    rw [hN]; exact quarter_onto (by rw [← hN']; exact h)
  have step : ∀ d (e : d = false) (mu eta dx dy sig : ℝ), positive d mu eta dx dy sig = sd2 mu eta dx dy sig :=
    fun d e _ _ _ _ _ => by rw [e]; rfl
  have a1 := C134_rectangle M hM mu eta w (fun i => dx (half n i)) (fun j => dy (half l j)) (fun g c => sig g (quarter n l c)) u m th
    (tame_image (image_scatters hI) hT) (2 * n) (2 * l) na (by omega) (by omega) hN.symm up bc order hord sch
    (fun g a i j => positive_or _ _ _ _ _ _) (hself.imp (fun h g a i j => step _ (h _ _) _ _ _ _ _)
      fun h g hg c hc => by rw [couple_image (image_scatters hI) g g hc]; exact h g (by rw [← hI.mat]; exact hg) _ (hI.inside c hc))
    hmu heta hw hm (fun i hi => hdx _ (half_lt hi)) (fun j hj => hdy _ (half_lt hj)) hr hb (data_image hI hd) (seeded_image hI hon hx)
    (linked_image (P' := mg2 M' sch' w n l na up' bc' order' (fun _ _ => m) (fun _ => [])) hI hon (hL _))
  have a2 := C134_rectangle M' hM' mu eta w dx dy sig u m th hT n l na hn hl hN'.symm up' bc' order' hord' sch'
    (fun g a i j => positive_or _ _ _ _ _ _) (hself.imp (fun h g a i j => step _ (h _ _) _ _ _ _ _) id) hmu heta hw hm hdx hdy hr'
    hb' hd hx (hL _)
  refine same_factor hI (C140_quarter_rectangle (sch := sch) (sch' := sch') hn hl hI hN (fun g _ a _ i hi j _ => ?_) (fun _ _ => rfl)
    hmid hbc).2 a1 a2
  show positive _ _ _ _ _ _ = positive _ _ _ _ _ _
  rw [quarter_at hi]
  rfl

/-! ### Uniform along an axis -/

/-- Diamond or step differencing in a slab. -/
def mixed1 (d : Bool) (mu dx sig : K) : K → K → K × K := if d then dd1 mu dx sig else sd1 mu dx sig

theorem mixed1_or (d : Bool) (mu dx sig : K) : mixed1 d mu dx sig = dd1 mu dx sig ∨ mixed1 d mu dx sig = sd1 mu dx sig := by
  cases d
  · exact Or.inr rfl
  · exact Or.inl rfl

theorem mixed_spread (d : Bool) {mu eta dx dy s : K} (h1 : 0 < mu) (h2 : 0 < eta) (hx : 0 < dx) (hy : 0 < dy) (hs : 0 < s) (q v : K) :
    mixed d mu eta dx dy s q (v, (mixed1 d mu dx s q v).1) =
      ((mixed1 d mu dx s q v).1, ((mixed1 d mu dx s q v).2, (mixed1 d mu dx s q v).1)) := by
  obtain ⟨a, b, _⟩ := C141_schemes mu eta 1 dx dy 1 s h1 h2 one_pos hx hy one_pos hs q
  cases d
  · exact b v
  · exact a v

/-- Fluxes of a rectangle that does not change along the second axis, between mirrors, are those of a slab: diamond or step
    differencing by group and column, any mesh along that axis. -/
theorem C141_rectangle_fluxes [Archimedean K] (M M' : MGSolve.Prob K) (hM : M.OK) (hM' : M'.OK) (nx ny : Nat)
    (hN : M.x.N = nx * ny) (hN' : M'.x.N = nx) (hI : Image M M' fun c => c % nx) (hq : SameSource M M' fun c => c % nx)
    (mu eta w mu' w' dx dy : Nat → K) (sig r : Nat → Nat → K) (u : Nat → K) (m rho : K) (hW : Weak M' sig r u rho) (na na' : Nat)
    (τ : Nat → Nat) (hτ : ∀ a < na, τ a < na') (hmu' : ∀ a, mu a = mu' (τ a))
    (hww : ∀ f : Nat → K, 2 * ∑ a ∈ range na, w a * f (τ a) = ∑ a ∈ range na', w' a * f a) (up up' : Bool)
    (bc : Nat → Nat → BC (Nat → K)) (bc' : Nat → Nat → BC K) (order order' : List Nat) (hord : order.Perm (List.range 4))
    (hord' : order'.Perm (List.range 2)) (d : Nat → Nat → Bool)
    (hmu : ∀ a < na', 0 < mu' a) (heta : ∀ a < na, 0 < eta a) (hw : ∀ a < na, 0 < w a) (hw' : ∀ a < na', 0 < w' a)
    (hm : m * ∑ _o ∈ range 2, ∑ a ∈ range na', w' a = 1) (hdx : ∀ i < nx, 0 < dx i) (hdy : ∀ j < ny, 0 < dy j)
    (hr : ∀ g s, bc g s = .reflect ↔ bc 0 s = .reflect) (hr' : ∀ g s, bc' g s = .reflect ↔ bc' 0 s = .reflect)
    (hp : ∀ g, ∀ s < 4, bc g s ≠ .periodic) (hp' : ∀ g, ∀ s < 2, bc' g s ≠ .periodic)
    (hy : ∀ g, bc g 2 = .reflect ∧ bc g 3 = .reflect) :
    let sch := fun g a i j => mixed (d g ((i + j * nx) % nx)) (mu a) (eta a) (dx i) (dy j) (sig g ((i + j * nx) % nx))
    let sch' := fun g a i => mixed1 (d g i) (mu' a) (dx i) (sig g i)
    (∀ g < M.x.mat.G, ∀ s < 2, SameSide ((mg2 M sch w nx ny na up bc order (fun _ _ => m) (fun _ => [])).W g)
      ((mg1 M' sch' w' nx na' up' bc' order' (fun _ _ => m) (fun _ => [])).W g) s s (fun _ _ => xr) τ fun _ _ => (0, 0)) →
    Agree (mg2 M sch w nx ny na up bc order (fun _ _ => m) (fun _ => [])) w (fun g => eqs2 (sch g) nx ny)
      (mg1 M' sch' w' nx na' up' bc' order' (fun _ _ => m) (fun _ => [])) w' (fun g => eqs1 (sch' g) nx) fun c => c % nx := by
  intro sch sch' hbc
  have hmu2 : ∀ a < na, 0 < mu a := fun a ha => by rw [hmu' a]; exact hmu _ (hτ a ha)
  have hm2 : m * ∑ _o ∈ range 4, ∑ a ∈ range na, w a = 1 := by
    have := hww fun _ => 1
    simp only [mul_one] at this
    rw [← hm]
    simp only [sum_const, card_range, nsmul_eq_mul]
    rw [← this]
    push_cast
    ring
  have a1 := C129_2D M hM mu eta w dx dy (fun g c => sig g (c % nx)) r u m rho (weak_image hI hW) nx ny na hN.symm up bc order hord
    sch (fun g a i j => mixed_or _ _ _ _ _ _) hmu2 heta hw hm2 hdx hdy hr hp
  have a2 := C129_1D M' hM' mu' w' dx sig r u m rho hW na' up' bc' order' hord' sch' (fun g a i => mixed1_or _ _ _ _) hmu hw' hm
    (by rw [hN']; exact hdx) hr' hp'
  rw [hN'] at a2
  refine agree hI ((C141_rectangle_slab (sch := sch) (sch' := sch') hI hN hτ (fun g hg a ha i hi j hj q v => ?_) hww hy hbc).1 hq)
    a1 a2
  show mixed _ _ _ _ _ _ _ _ = _
  rw [(Sweep.idx (j := j) hi).1, hmu' a]
  exact mixed_spread _ (hmu _ (hτ a ha)) (heta a ha) (hdx i hi) (hdy j hj)
    (hW.tot g (by rw [← hI.mat]; exact hg) i (by rw [hN']; exact hi)) q v

/-- Fluxes of a block that does not change along the third axis, between mirrors, are those of a rectangle: diamond
    differencing. -/
theorem C141_block_fluxes [Archimedean K] (M M' : MGSolve.Prob K) (hM : M.OK) (hM' : M'.OK) (nx ny nz : Nat) (hfit : nx ≤ 2 ^ 32)
    (hN : M.x.N = nx * ny * nz) (hN' : M'.x.N = nx * ny) (hI : Image M M' fun c => c % (nx * ny))
    (hq : SameSource M M' fun c => c % (nx * ny))
    (mu eta xi w mu' eta' w' dx dy dz : Nat → K) (sig r : Nat → Nat → K) (u : Nat → K) (m rho : K) (hW : Weak M' sig r u rho)
    (na na' : Nat) (τ : Nat → Nat) (hτ : ∀ a < na, τ a < na') (hmu' : ∀ a, mu a = mu' (τ a)) (heta' : ∀ a, eta a = eta' (τ a))
    (hww : ∀ f : Nat → K, 2 * ∑ a ∈ range na, w a * f (τ a) = ∑ a ∈ range na', w' a * f a) (up up' : Bool)
    (bc : Nat → Nat → BC (Nat → Nat → K)) (bc' : Nat → Nat → BC (Nat → K)) (order order' : List Nat)
    (hord : order.Perm (List.range 8)) (hord' : order'.Perm (List.range 4))
    (hmu : ∀ a < na', 0 < mu' a) (heta : ∀ a < na', 0 < eta' a) (hxi : ∀ a < na, 0 < xi a) (hw : ∀ a < na, 0 < w a)
    (hw' : ∀ a < na', 0 < w' a) (hm : m * ∑ _o ∈ range 4, ∑ a ∈ range na', w' a = 1) (hdx : ∀ i < nx, 0 < dx i)
    (hdy : ∀ j < ny, 0 < dy j) (hdz : ∀ k < nz, 0 < dz k)
    (hr : ∀ g s, bc g s = .reflect ↔ bc 0 s = .reflect) (hr' : ∀ g s, bc' g s = .reflect ↔ bc' 0 s = .reflect)
    (hp : ∀ g, ∀ s < 6, bc g s ≠ .periodic) (hp' : ∀ g, ∀ s < 4, bc' g s ≠ .periodic)
    (hz : ∀ g, bc g 4 = .reflect ∧ bc g 5 = .reflect) :
    let sch := fun g a i j k => dd3 (mu a) (eta a) (xi a) (dx i) (dy j) (dz k) (sig g ((i + j * nx + k * nx * ny) % (nx * ny)))
    let sch' := fun g a i j => dd2 (mu' a) (eta' a) (dx i) (dy j) (sig g (i + j * nx))
    (∀ g < M.x.mat.G, ∀ s < 4, SameSide ((mg3 M sch w nx ny nz na up bc order (fun _ _ => m) (fun _ => [])).W g)
      ((mg2 M' sch' w' nx ny na' up' bc' order' (fun _ _ => m) (fun _ => [])).W g) s s (fun _ _ o => o % 4) τ fun _ j => (j, 0)) →
    Agree (mg3 M sch w nx ny nz na up bc order (fun _ _ => m) (fun _ => [])) w (fun g => eqs3 (sch g) nx ny nz)
      (mg2 M' sch' w' nx ny na' up' bc' order' (fun _ _ => m) (fun _ => [])) w' (fun g => eqs2 (sch' g) nx ny)
      fun c => c % (nx * ny) := by
  intro sch sch' hbc
  have hmu2 : ∀ a < na, 0 < mu a := fun a ha => by rw [hmu' a]; exact hmu _ (hτ a ha)
  have heta2 : ∀ a < na, 0 < eta a := fun a ha => by rw [heta' a]; exact heta _ (hτ a ha)
  have hm2 : m * ∑ _o ∈ range 8, ∑ a ∈ range na, w a = 1 := by
    have := hww fun _ => 1
    simp only [mul_one] at this
    rw [← hm]
    simp only [sum_const, card_range, nsmul_eq_mul]
    rw [← this]
    push_cast
    ring
  have a1 := C129_3D M hM mu eta xi w dx dy dz (fun g c => sig g (c % (nx * ny))) r u m rho (weak_image hI hW) nx ny nz na hfit
    hN.symm up bc order hord hmu2 heta2 hxi hw hm2 hdx hdy hdz hr hp
  have a2 := C129_2D M' hM' mu' eta' w' dx dy sig r u m rho hW nx ny na' hN'.symm up' bc' order' hord' sch'
    (fun g a i j => Or.inl rfl) hmu heta hw' hm hdx hdy hr' hp'
  refine agree hI ((C141_block_rectangle (sch := sch) (sch' := sch') hI hN hτ (fun g hg a ha i hi j hj k hk q v => ?_) hww hz
    hbc).1 hq) a1 a2
  have e : (i + j * nx + k * nx * ny) % (nx * ny) = i + j * nx := by
    rw [show k * nx * ny = k * (nx * ny) by ring]
    exact (Sweep.idx (WGReflect.cell2_lt hi hj)).1
  show dd3 _ _ _ _ _ _ _ _ _ = _
  rw [e, hmu' a, heta' a]
  exact (C141_schemes _ _ _ _ _ _ _ (hmu _ (hτ a ha)) (heta _ (hτ a ha)) (hxi a ha) (hdx i hi) (hdy j hj) (hdz k hk)
    (hW.tot g (by rw [← hI.mat]; exact hg) _ (by rw [hN']; exact WGReflect.cell2_lt hi hj)) q).2.2 v

/-- Two rectangles with the same columns, mirrors at the ends of the columns, and different meshes, heights, and cosines along
    them. -/
theorem C141_redrawn [Archimedean K] (M₁ M₂ : MGSolve.Prob K) (hM₁ : M₁.OK) (hM₂ : M₂.OK) (nx ny₁ ny₂ : Nat)
    (hy1 : 0 < ny₁) (hN₁ : M₁.x.N = nx * ny₁) (hN₂ : M₂.x.N = nx * ny₂)
    (hI₁ : Image M₁ M₁ fun c => c % nx) (hq₁ : SameSource M₁ M₁ fun c => c % nx)
    (hI₂ : Image M₂ M₁ fun c => c % nx) (hq₂ : SameSource M₂ M₁ fun c => c % nx)
    (mu eta₁ eta₂ w dx dy₁ dy₂ : Nat → K) (sig r : Nat → Nat → K) (u : Nat → K) (m rho : K) (hW : Weak M₁ sig r u rho) (na : Nat)
    (up₁ up₂ : Bool) (bc : Nat → Nat → BC (Nat → K)) (order₁ order₂ : List Nat) (hord₁ : order₁.Perm (List.range 4))
    (hord₂ : order₂.Perm (List.range 4)) (d : Nat → Nat → Bool)
    (hmu : ∀ a < na, 0 < mu a) (heta₁ : ∀ a < na, 0 < eta₁ a) (heta₂ : ∀ a < na, 0 < eta₂ a) (hw : ∀ a < na, 0 < w a)
    (hm : m * ∑ _o ∈ range 4, ∑ a ∈ range na, w a = 1) (hdx : ∀ i < nx, 0 < dx i) (hdy₁ : ∀ j < ny₁, 0 < dy₁ j)
    (hdy₂ : ∀ j < ny₂, 0 < dy₂ j) (hr : ∀ g s, bc g s = .reflect ↔ bc 0 s = .reflect)
    (hb : ∀ g s, bc g s = .vacuum ∨ bc g s = .reflect) (hy : ∀ g, bc g 2 = .reflect ∧ bc g 3 = .reflect) :
    let sch₁ := fun g a i j => mixed (d g ((i + j * nx) % nx)) (mu a) (eta₁ a) (dx i) (dy₁ j) (sig g ((i + j * nx) % nx))
    let sch₂ := fun g a i j => mixed (d g ((i + j * nx) % nx)) (mu a) (eta₂ a) (dx i) (dy₂ j) (sig g ((i + j * nx) % nx))
    let P₁ := mg2 M₁ sch₁ w nx ny₁ na up₁ bc order₁ (fun _ _ => m) (fun _ => [])
    let P₂ := mg2 M₂ sch₂ w nx ny₂ na up₂ bc order₂ (fun _ _ => m) (fun _ => [])
    (∃ phi, MGFlux P₁ w (fun g => eqs2 (sch₁ g) nx ny₁) phi) ∧ (∃ phi, MGFlux P₂ w (fun g => eqs2 (sch₂ g) nx ny₂) phi) ∧
    ∀ phi₁ phi₂, MGFlux P₁ w (fun g => eqs2 (sch₁ g) nx ny₁) phi₁ → MGFlux P₂ w (fun g => eqs2 (sch₂ g) nx ny₂) phi₂ →
      ∀ g < M₁.x.mat.G, ∀ i < nx, ∀ j < ny₁, ∀ j' < ny₂, phi₁ g (i + j * nx) = phi₂ g (i + j' * nx) := by
  intro sch₁ sch₂ P₁ P₂
  -- a slab made of the columns
  let M' : MGSolve.Prob K := { M₁ with x := { M₁.x with N := nx }, T := fun _ _ _ => 0 }
  have le : ∀ c < nx, c < M₁.x.N := fun c hc => by
    rw [hN₁]; exact lt_of_lt_of_le hc (Nat.le_mul_of_pos_right _ hy1)
  have hM' : M'.OK := ⟨congrArg (fun x => ({ x with N := nx } : Material.Src K)) hM₁.fin, hM₁.nn, fun c hc => hM₁.map c (le c hc), fun _ _ _ _ => (add_zero (0 : K)).symm, fun _ _ _ _ _ _ => rfl⟩
  have hW' : Weak M' sig r u rho := ⟨fun g hg c hc => hW.tot g hg c (le c hc), hW.rnn,
    fun g hg gp hgp c hc => hW.ratio g hg gp hgp c (le c hc), hW.upos, hW.row, hW.rpos, hW.less⟩
  have small : ∀ {n c : Nat}, c < nx * n → c % nx < nx := fun {n c} h =>
    Nat.mod_lt _ (Nat.pos_of_ne_zero fun e => by simp [e] at h)
  have J₁ : Image M₁ M' fun c => c % nx := ⟨rfl, rfl, rfl, rfl, fun c hc => small (by rw [← hN₁]; exact hc), hI₁.mmap⟩
  have J₂ : Image M₂ M' fun c => c % nx :=
    ⟨hI₂.mat, hI₂.adjoint, hI₂.implicit, hI₂.scale, fun c hc => small (by rw [← hN₂]; exact hc), hI₂.mmap⟩
  have hww : ∀ f : Nat → K, 2 * ∑ a ∈ range na, w a * f (id a) = ∑ a ∈ range na, 2 * w a * f a := fun f => by
    rw [mul_sum]; exact sum_congr rfl fun a _ => by simp only [id]; ring
  have hm' : m * ∑ _o ∈ range 2, ∑ a ∈ range na, 2 * w a = 1 := by
    rw [← hm]
    simp only [sum_const, card_range, nsmul_eq_mul, ← mul_sum]
    push_cast
    ring
  let bc' : Nat → Nat → BC K := fun _ s => match bc 0 s with
    | .vacuum => .vacuum
    | _ => .reflect
  have hr' : ∀ g s, bc' g s = .reflect ↔ bc' 0 s = .reflect := fun _ _ => Iff.rfl
  have hbb : ∀ g s, bc g s = .vacuum ∧ bc' g s = .vacuum ∨ bc g s = .reflect ∧ bc' g s = .reflect := fun g s => by
    have e0 := hb 0 s
    have e := hb g s
    have h := hr g s
    rcases e0 with e0 | e0
    · left
      refine ⟨?_, by show (match bc 0 s with | .vacuum => _ | _ => _) = _; rw [e0]⟩
      rcases e with e | e
      · exact e
      · rw [h, e0] at e; cases e
    · exact Or.inr ⟨h.2 e0, by show (match bc 0 s with | .vacuum => _ | _ => _) = _; rw [e0]⟩
  have hp : ∀ g, ∀ s < 4, bc g s ≠ .periodic := fun g s _ => not_periodic (hb g s)
  have hp' : ∀ g, ∀ s < 2, bc' g s ≠ .periodic := fun g s _ => not_periodic ((hbb g s).imp And.right And.right)
  have A₁ := C141_rectangle_fluxes M₁ M' hM₁ hM' nx ny₁ hN₁ rfl J₁ hq₁ mu eta₁ w mu (fun a => 2 * w a) dx dy₁ sig r u m rho hW' na na
    id (fun _ h => h) (fun _ => rfl) hww up₁ true bc bc' order₁ [0, 1] hord₁ (by decide) d hmu heta₁ hw
    (fun a ha => mul_pos two_pos (hw a ha)) hm' hdx hdy₁ hr hr' hp hp' hy (fun g _ s _ => plain (hbb g s))
  have A₂ := C141_rectangle_fluxes M₂ M' hM₂ hM' nx ny₂ hN₂ rfl J₂ hq₂ mu eta₂ w mu (fun a => 2 * w a) dx dy₂ sig r u m rho hW' na na
    id (fun _ h => h) (fun _ => rfl) hww up₂ true bc bc' order₂ [0, 1] hord₂ (by decide) d hmu heta₂ hw
    (fun a ha => mul_pos two_pos (hw a ha)) hm' hdx hdy₂ hr hr' hp hp' hy (fun g _ s _ => plain (hbb g s))
  obtain ⟨⟨f₁, f', e₁, e'⟩, u₁, _⟩ := A₁
  obtain ⟨⟨f₂, _, e₂, _⟩, u₂, _⟩ := A₂
  refine ⟨⟨f₁, e₁⟩, ⟨f₂, e₂⟩, fun phi₁ phi₂ h₁ h₂ g hg i hi j hj j' hj' => ?_⟩
  have k₁ := u₁ phi₁ f' h₁ e' g hg (i + j * nx) (by show _ < M₁.x.N; rw [hN₁]; exact WGReflect.cell2_lt hi hj)
  have k₂ := u₂ phi₂ f' h₂ e' g (by show g < M₂.x.mat.G; rw [hI₂.mat]; exact hg) (i + j' * nx)
    (by show _ < M₂.x.N; rw [hN₂]; exact WGReflect.cell2_lt hi hj')
  rw [k₁, k₂]
  show f' g ((i + j * nx) % nx) = f' g ((i + j' * nx) % nx)
  rw [(Sweep.idx (j := j) hi).1, (Sweep.idx (j := j') hi).1]

end solved

/-! ### Step characteristics in two dimensions -/

section characteristics

/-- One cell of unit width, absorbing, with a unit source, open at the sides and between mirrors at the ends of the column. -/
noncomputable def column (dy : ℝ) : Prob (Nat → ℝ) ℝ :=
  mg2 (bare 1) (fun _ _ _ _ => sc2 Real.exp 1 1 1 dy 1) (fun _ => 1 / 4) 1 1 1 true
    (fun _ s => if s < 2 then .vacuum else .reflect) [0, 1, 2, 3] (fun _ _ => 1) (fun _ => [])

theorem bare_source (N : Nat) (phi : Nat → Nat → ℝ) (c : Nat) : (bare N).source phi 0 c = 1 := by
  rw [source_couple]
  have h : ∀ gp, couple (bare N) 0 gp c = 0 := fun gp => by
    simp [couple, bare, Material.xs, Material.Mat.finalize, Material.Mat.new]
  simp only [h, zero_mul, sum_const_zero, add_zero]
  rfl

theorem column_flux (dy : ℝ) (hdy : 1 ≤ dy) (phi : Nat → Nat → ℝ)
    (h : MGFlux (column dy) (fun _ => 1 / 4) (fun _ => eqs2 (fun _ _ _ => sc2 Real.exp 1 1 1 dy 1) 1 1) phi) :
    phi 0 0 = (1 - 1 / dy) * Real.exp (-1) + 1 / dy * (1 - Real.exp (-1)) ^ 2 := by
  obtain ⟨bd, psi, hS⟩ := h 0 (by show 0 < 1; decide)
  have hS : Solution (WGReflect.prob2 (fun _ _ _ => sc2 Real.exp 1 1 1 dy 1) (fun _ => 1 / 4) 1 1 1 true
    (fun s => if s < 2 then .vacuum else .reflect) [0, 1, 2, 3] (fun _ _ => 0) (fun _ => 0) (fun _ _ => 1) []) (fun _ => 1 / 4)
    (eqs2 (fun _ _ _ => sc2 Real.exp 1 1 1 dy 1) 1 1) ((column dy).src phi 0) (phi 0) (fun _ => 0) (fun _ => 0) bd psi := hS
  have hsrc : ∀ o a, (column dy).src phi 0 o a 0 = 1 := fun o a => by
    change (bare 1).source phi 0 0 * 1 + ([] : List ℝ).sum = _
    rw [bare_source]
    simp
  have dy0 : 0 < dy := by linarith
  have hrho : (1 : ℝ) / dy ≤ 1 := by rw [div_le_one dy0]; exact hdy
  have cell : ∀ H : ℝ, sc2 Real.exp 1 1 1 dy 1 1 (0, H) =
      (1 - (1 + (0 - 1) * (1 - 1 / dy) * Real.exp (-1) + (H - 1) * (1 / dy) * (1 - Real.exp (-1))) -
        (1 + (0 - 1) * (1 - Real.exp (-1)) - H) / dy,
        (1 + (0 - 1) * (1 - 1 / dy) * Real.exp (-1) + (H - 1) * (1 / dy) * (1 - Real.exp (-1)), Real.exp (-1))) := fun H => by
    unfold sc2
    simp only [div_one, mul_one, one_mul, if_pos hrho, sub_zero]
    refine Prod.ext rfl (Prod.ext rfl ?_)
    show 1 + (0 - 1) * (1 - Real.exp (-1)) = _
    ring
  have one : ∀ o < 4, ∃ H : ℝ, H = bd (Sweep.entry o 1) o 0 0 ∧ bd (Sweep.exit o 1) o 0 0 = Real.exp (-1) ∧
      psi o 0 0 = 1 - (1 + (0 - 1) * (1 - 1 / dy) * Real.exp (-1) + (H - 1) * (1 / dy) * (1 - Real.exp (-1))) -
        (1 + (0 - 1) * (1 - Real.exp (-1)) - H) / dy := by
    intro o ho
    obtain ⟨V, H, h1, h2, h3⟩ := hS.cells o ho 0 (by show 0 < 1; decide)
    have pz : ∀ d, Sweep.posn 1 o d 0 = 0 := fun d => by unfold Sweep.posn; split <;> rfl
    have a1 := (h1 0 (by decide)).1
    obtain ⟨a2, a3⟩ := h2 0 (by decide)
    have a4 := h3 0 (by decide) 0 (by decide)
    rw [pz] at a1 a2 a3
    rw [pz, pz] at a4
    have ent : ∀ o < 4, Sweep.entry o 0 < 2 ∧ Enters (Sweep.entry o 0) o := by decide
    have v0 : bd (Sweep.entry o 0) o 0 0 = 0 := hS.vacuum (Sweep.entry o 0) (lt_of_lt_of_le (ent o ho).1 (by show 2 ≤ 4; decide))
      (if_pos (ent o ho).1) o ho (ent o ho).2 0 (by show 0 < 1; decide) 0 0 (by
        have := WGReflect.faceDim2 (n := fun d => if d = 0 then 1 else 1) (lt_of_lt_of_le (ent o ho).1 (show 2 ≤ 4 by decide))
        refine ⟨?_, ?_⟩
        · show 0 < Boundary.faceCells 2 _ (fun d => if d = 0 then 1 else 1) 0
          rw [this.1]; split <;> decide
        · show 0 < Boundary.faceCells 2 _ (fun d => if d = 0 then 1 else 1) 1
          rw [this.2]; decide)
    have a4 : sc2 Real.exp 1 1 1 dy 1 ((column dy).src phi 0 o 0 0) (V 0 0, H 0 0) = (psi o 0 0, (V 1 0, H 0 1)) := a4
    rw [hsrc, a1.trans v0, cell] at a4
    obtain ⟨b1, b2⟩ := Prod.mk.inj a4
    obtain ⟨b2, b3⟩ := Prod.mk.inj b2
    exact ⟨H 0 0, a2, a3.trans b3.symm, b1.symm⟩
  have full : ∀ o < 4, psi o 0 0 = (1 - 1 / dy) * Real.exp (-1) + 1 / dy * (1 - Real.exp (-1)) ^ 2 := by
    intro o ho
    obtain ⟨H, h1, _, h3⟩ := one o ho
    have tab : ∀ o < 4, 2 ≤ Sweep.entry o 1 ∧ Sweep.entry o 1 < 4 ∧ Enters (Sweep.entry o 1) o ∧ 3 - o < 4 ∧
        Sweep.exit (3 - o) 1 = Sweep.entry o 1 ∧ Mirror 2 (Sweep.entry o 1) o (3 - o) := by decide
    obtain ⟨t1, t2, t3, t4, t5, t6⟩ := tab o ho
    obtain ⟨_, _, k2, _⟩ := one (3 - o) t4
    have rf := hS.reflect (Sweep.entry o 1) t2 (if_neg (by omega)) o ho t3 (3 - o) t6 0 (by show 0 < 1; decide) 0 0 (by
        have := WGReflect.faceDim2 (n := fun d => if d = 0 then 1 else 1) t2
        refine ⟨?_, ?_⟩
        · show 0 < Boundary.faceCells 2 _ (fun d => if d = 0 then 1 else 1) 0
          rw [this.1]; split <;> decide
        · show 0 < Boundary.faceCells 2 _ (fun d => if d = 0 then 1 else 1) 1
          rw [this.2]; decide)
    have rf : bd (Sweep.entry o 1) o 0 0 - bd (Sweep.entry o 1) (3 - o) 0 0 = 0 := rf
    rw [t5] at k2
    have hH : H = Real.exp (-1) := by rw [h1]; linarith
    rw [h3, hH]
    ring
  have e3 : phi 0 0 + 0 = ∑ o ∈ range 4, ∑ a ∈ range 1, 1 / 4 * psi o a 0 := hS.flux 0 (by show 0 < 1 * 1; decide)
  simp only [sum_range_succ, sum_range_zero] at e3
  rw [full 0 (by decide), full 1 (by decide), full 2 (by decide), full 3 (by decide)] at e3
  linarith

theorem column_weak : Weak (bare 1) (fun _ _ => 1) (fun _ _ => 0) (fun _ => 1) (1 / 2) := by
  refine ⟨fun _ _ _ _ => one_pos, fun _ _ _ _ => le_refl _, fun g _ gp _ c _ => ?_, fun _ _ => one_pos, fun _ _ => ?_, by norm_num,
    by norm_num⟩
  · have h : couple (bare 1) g gp c = 0 := by simp [couple, bare, Material.xs, Material.Mat.finalize, Material.Mat.new]
    rw [h]; simp
  · simp

/-- With step characteristics the flux in such a column depends on its height: `C141_redrawn` fails for that scheme. -/
theorem C141_characteristics_fails :
    ∃ phi₁ phi₂, MGFlux (column 1) (fun _ => 1 / 4) (fun _ => eqs2 (fun _ _ _ => sc2 Real.exp 1 1 1 1 1) 1 1) phi₁ ∧
      MGFlux (column 2) (fun _ => 1 / 4) (fun _ => eqs2 (fun _ _ _ => sc2 Real.exp 1 1 1 2 1) 1 1) phi₂ ∧
      phi₁ 0 0 ≠ phi₂ 0 0 := by
  have ex : ∀ dy : ℝ, 0 < dy → ∃ phi, MGFlux (column dy) (fun _ => 1 / 4) (fun _ => eqs2 (fun _ _ _ => sc2 Real.exp 1 1 1 dy 1) 1 1) phi :=
    fun dy h => by
      obtain ⟨phi, hp, _⟩ := C129_2D_sc (bare 1) (bare_ok 1) (fun _ => 1) (fun _ => 1) (fun _ => 1 / 4) (fun _ => 1) (fun _ => dy)
        (fun _ _ => 1) (fun _ _ => 0) (fun _ => 1) 1 (1 / 2) column_weak 1 1 1 rfl true
        (fun _ s => if s < 2 then .vacuum else .reflect) [0, 1, 2, 3] (by decide) (fun _ _ => one_pos) (fun _ _ => one_pos)
        (fun _ _ => by norm_num) (by norm_num [sum_range_succ]) (fun _ _ => one_pos) (fun _ _ => h) (fun _ _ => Iff.rfl)
        (fun _ s _ => by split_ifs <;> simp)
      exact ⟨phi, hp⟩
  obtain ⟨f₁, h₁⟩ := ex 1 one_pos
  obtain ⟨f₂, h₂⟩ := ex 2 two_pos
  refine ⟨f₁, f₂, h₁, h₂, fun e => ?_⟩
  rw [column_flux 1 le_rfl f₁ h₁, column_flux 2 (by norm_num) f₂ h₂] at e
  have hl := Real.exp_neg_one_lt_d9
  have h0 : 0 < Real.exp (-1) := Real.exp_pos _
  norm_num at e
  nlinarith

end characteristics

/-! ## Cases -/

section cases

/-- Two groups in `N` cells of one material, cells by position with a source that `f` gives. -/
def toyN (N : Nat) (f : Nat → ℚ) : MGSolve.Prob ℚ where
  x := ⟨((Material.Mat.new 1 2).run pair).finalize, N, fun _ => 0, false⟩
  q := fun _ c => f c
  implicit := false
  scale := 1
  T := fun _ _ _ => 0
  disc := fun _ _ => 0
  bnd := fun _ _ => 0

theorem toyN_ok (N : Nat) (f : Nat → ℚ) : (toyN N f).OK where
  fin := by
    unfold toyN Material.Src.ready
    simp only
    rw [Material.C22_finalize_idempotent]
  nn := pair_ok.nn
  map := fun _ _ => show 0 < 1 by decide
  add := fun _ _ _ _ => (add_zero (0 : ℚ)).symm
  loc := fun _ _ _ _ _ _ => rfl

theorem toyN_weak (N : Nat) (f : Nat → ℚ) : Weak (toyN N f) (fun _ _ => 1) (fun _ _ => 1 / 4) (fun _ => 1) (1 / 2) where
  tot := fun _ _ _ _ => one_pos
  rnn := fun _ _ _ _ => by norm_num
  ratio := fun g hg gp hgp c _ => (pair_coupled fun _ => .vacuum).ratio g hg gp hgp 0 (by show 0 < 1; decide)
  upos := fun _ _ => one_pos
  row := fun _ _ => by
    change ∑ _gp ∈ range 2, (1 / 4 : ℚ) * 1 ≤ 1 / 2 * 1
    norm_num
  rpos := by norm_num
  less := by norm_num

theorem toyN_image {N N' : Nat} {f f' : Nat → ℚ} {κ : Nat → Nat} (h : ∀ c < N, κ c < N') : Image (toyN N f) (toyN N' f') κ :=
  ⟨rfl, rfl, rfl, rfl, h, fun _ _ => rfl⟩

/-- Four cells with sources 1, 3, 3, 1 and a flux 5 entering at both ends; the half has a mirror at its right end. -/
example : Agree (mg1 (toyN 4 fun c => [1, 3, 3, 1].getD c 0) (fun _ _ i => mixed1 (half 2 i == 0) 1 1 1) (fun _ => 1 / 2) (2 * 2) 1 true
      (fun _ _ => .fixed fun _ _ => 5) [0, 1] (fun _ _ => 1) (fun _ => [])) (fun _ => 1 / 2)
      (fun _ => eqs1 (fun _ i => mixed1 (half 2 i == 0) 1 1 1) (2 * 2))
    (mg1 (toyN 2 fun c => [1, 3].getD c 0) (fun _ _ i => mixed1 (i == 0) 1 1 1) (fun _ => 1 / 2) 2 1 true
      (fun _ s => if s = 0 then .fixed fun _ _ => 5 else .reflect) [1, 0] (fun _ _ => 1) (fun _ => [])) (fun _ => 1 / 2)
      (fun _ => eqs1 (fun _ i => mixed1 (i == 0) 1 1 1) 2) (half 2) :=
  C140_half_slab_fluxes _ _ (toyN_ok _ _) (toyN_ok _ _) 2 (by decide) rfl rfl (toyN_image fun c hc => half_lt hc)
    (fun g _ c hc => by
      have : ∀ c < 4, ([1, 3, 3, 1] : List ℚ).getD c 0 = [1, 3].getD (half 2 c) 0 := by decide +kernel
      exact this c hc) (fun _ => 1) _ (fun _ => 1) (fun _ _ => 1) (fun _ _ => 1 / 4) (fun _ => 1) 1 (1 / 2) (toyN_weak _ _) 1 _ _ _ _
    [0, 1] [1, 0] (by decide) (by decide) (fun _ _ i => mixed1 (i == 0) 1 1 1) (fun _ _ i => mixed1_or _ _ _ _) (fun _ _ => one_pos)
    (fun _ _ => by norm_num) (by norm_num) (fun _ _ => one_pos) (fun _ _ => Iff.rfl) (fun _ _ => Iff.rfl)
    (fun _ _ _ => by simp) (fun _ s _ => by split_ifs <;> simp) (fun _ => rfl) (fun _ _ s _ _ _ _ _ _ _ _ _ _ => rfl)

/-- Four cells, open at both ends. -/
example : Agree (mg1 (toyN 4 fun c => [1, 3, 3, 1].getD c 0) (fun _ _ _ => dd1 1 1 1) (fun _ => 1 / 2) 4 1 true
      (fun _ _ => .vacuum) [0, 1] (fun _ _ => 1) (fun _ => [])) (fun _ => 1 / 2) (fun _ => eqs1 (fun _ _ => dd1 1 1 1) 4)
    (mg1 (toyN 4 fun c => [1, 3, 3, 1].getD c 0) (fun _ _ _ => dd1 1 1 1) (fun _ => 1 / 2) 4 1 true
      (fun _ _ => .vacuum) [0, 1] (fun _ _ => 1) (fun _ => [])) (fun _ => 1 / 2) (fun _ => eqs1 (fun _ _ => dd1 1 1 1) 4)
    (fun c => 4 - 1 - c) :=
  C140_symmetric_slab (toyN 4 fun c => [1, 3, 3, 1].getD c 0) (toyN_ok _ _) (toyN_image fun c hc => by change c < 4 at hc; show 4 - 1 - c < 4; omega)
    (fun g _ c hc => by
      have : ∀ c < 4, ([1, 3, 3, 1] : List ℚ).getD c 0 = [1, 3, 3, 1].getD (4 - 1 - c) 0 := by decide +kernel
      exact this c hc) (fun _ => 1) _ (fun _ => 1) (fun _ _ => 1) (fun _ _ => 1 / 4) (fun _ => 1) 1 (1 / 2) (toyN_weak _ _) 1 _ _
    [0, 1] (by decide) (fun _ _ _ => dd1 1 1 1) (fun _ _ _ => Or.inl rfl) (fun _ _ _ _ _ _ => rfl) (fun _ _ => one_pos)
    (fun _ _ => by norm_num) (by norm_num) (fun _ _ => one_pos) (fun _ _ => Iff.rfl) (fun _ _ _ => by simp)
    (fun _ _ s _ => plain (Or.inl ⟨rfl, rfl⟩))

/-- Four by two cells and the quarter of two by one, diamond differencing outside and step differencing inside. -/
example : Agree (mg2 (toyN 8 fun c => [1, 3, 3, 1, 1, 3, 3, 1].getD c 0)
      (fun _ _ i j => mixed (quarter 2 1 (i + j * 4) == 0) 1 2 1 1 1) (fun _ => 1 / 4) (2 * 2) (2 * 1) 1 true
      (fun _ s => if s < 2 then .vacuum else .reflect) [0, 1, 2, 3] (fun _ _ => 1) (fun _ => [])) (fun _ => 1 / 4)
      (fun _ => eqs2 (fun _ i j => mixed (quarter 2 1 (i + j * 4) == 0) 1 2 1 1 1) (2 * 2) (2 * 1))
    (mg2 (toyN 2 fun c => [1, 3].getD c 0) (fun _ _ i j => mixed (i + j * 2 == 0) 1 2 1 1 1) (fun _ => 1 / 4) 2 1 1 true
      (fun _ s => if s = 0 then .vacuum else .reflect) [0, 1, 2, 3] (fun _ _ => 1) (fun _ => [])) (fun _ => 1 / 4)
      (fun _ => eqs2 (fun _ i j => mixed (i + j * 2 == 0) 1 2 1 1 1) 2 1) (quarter 2 1) :=
  C140_quarter_fluxes _ _ (toyN_ok _ _) (toyN_ok _ _) 2 1 (by decide) (by decide) rfl rfl
    (toyN_image (by decide)) (fun g _ c hc => by
      have : ∀ c < 8, ([1, 3, 3, 1, 1, 3, 3, 1] : List ℚ).getD c 0 = [1, 3].getD (quarter 2 1 c) 0 := by decide +kernel
      exact this c hc) (fun _ => 1) (fun _ => 2) _ (fun _ => 1) (fun _ => 1) (fun _ _ => 1) (fun _ _ => 1 / 4) (fun _ => 1) 1 (1 / 2)
    (toyN_weak _ _) 1 _ _ _ _ [0, 1, 2, 3] [0, 1, 2, 3] (by decide) (by decide) (fun _ c => c == 0) (fun _ _ => one_pos)
    (fun _ _ => two_pos) (fun _ _ => by norm_num) (by norm_num [sum_range_succ]) (fun _ _ => one_pos) (fun _ _ => one_pos)
    (fun _ _ => Iff.rfl) (fun _ _ => Iff.rfl) (fun _ => ⟨rfl, rfl⟩) (fun _ s hs => by
      rcases (show s = 0 ∨ s = 1 ∨ s = 2 ∨ s = 3 by omega) with e | e | e | e <;> subst e
      · exact Or.inl ⟨rfl, rfl⟩
      · exact Or.inl ⟨rfl, rfl⟩
      · exact Or.inr ⟨rfl, rfl⟩
      · exact Or.inr ⟨rfl, rfl⟩)

/-- Two columns of three cells and the slab of two, a flux 5 entering from the left. -/
example : Agree (mg2 (toyN 6 fun c => [1, 3, 1, 3, 1, 3].getD c 0) (fun _ _ i j => mixed ((i + j * 2) % 2 == 0) 1 2 1 (j + 1) 1)
      (fun _ => 1 / 4) 2 3 1 true (fun _ s => if s = 0 then .fixed fun _ _ _ => 5 else if s = 1 then .vacuum else .reflect)
      [0, 1, 2, 3] (fun _ _ => 1) (fun _ => [])) (fun _ => 1 / 4)
      (fun _ => eqs2 (fun _ i j => mixed ((i + j * 2) % 2 == 0) 1 2 1 (j + 1) 1) 2 3)
    (mg1 (toyN 2 fun c => [1, 3].getD c 0) (fun _ _ i => mixed1 (i == 0) 1 1 1) (fun _ => 1 / 2) 2 1 true
      (fun _ s => if s = 0 then .fixed fun _ _ => 5 else .vacuum) [0, 1] (fun _ _ => 1) (fun _ => [])) (fun _ => 1 / 2)
      (fun _ => eqs1 (fun _ i => mixed1 (i == 0) 1 1 1) 2) (fun c => c % 2) :=
  C141_rectangle_fluxes _ _ (toyN_ok _ _) (toyN_ok _ _) 2 3 rfl rfl (toyN_image (by decide)) (fun g _ c hc => by
      have : ∀ c < 6, ([1, 3, 1, 3, 1, 3] : List ℚ).getD c 0 = [1, 3].getD (c % 2) 0 := by decide +kernel
      exact this c hc) (fun _ => 1) (fun _ => 2) _ (fun _ => 1) _ (fun _ => 1) (fun j => j + 1) (fun _ _ => 1) (fun _ _ => 1 / 4) (fun _ => 1) 1
    (1 / 2) (toyN_weak _ _) 1 1 id (fun _ h => h) (fun _ => rfl) (fun f => by norm_num; ring) _ _ _ _ [0, 1, 2, 3] [0, 1] (by decide)
    (by decide) (fun _ c => c == 0) (fun _ _ => one_pos) (fun _ _ => two_pos) (fun _ _ => by norm_num) (fun _ _ => by norm_num)
    (by norm_num) (fun _ _ => one_pos) (fun _ _ => by positivity) (fun _ _ => Iff.rfl) (fun _ _ => Iff.rfl)
    (fun _ s _ => by split_ifs <;> simp) (fun _ s _ => by split_ifs <;> simp) (fun _ => ⟨rfl, rfl⟩) (fun _ _ s hs => by
      rcases (show s = 0 ∨ s = 1 by omega) with e | e <;> subst e
      · exact fun _ _ _ _ _ _ _ _ _ => rfl
      · exact plain (Or.inl ⟨rfl, rfl⟩))

/-- Two layers of two by one cells and the rectangle of two by one. -/
example : Agree (mg3 (toyN 4 fun c => [1, 3, 1, 3].getD c 0) (fun _ _ _ _ k => dd3 1 2 3 1 1 (k + 1) 1)
      (fun _ => 1 / 8) 2 1 2 1 true (fun _ s => if s < 4 then .vacuum else .reflect)
      [0, 1, 2, 3, 4, 5, 6, 7] (fun _ _ => 1) (fun _ => [])) (fun _ => 1 / 8)
      (fun _ => eqs3 (fun _ _ _ k => dd3 1 2 3 1 1 (k + 1) 1) 2 1 2)
    (mg2 (toyN 2 fun c => [1, 3].getD c 0) (fun _ _ _ _ => dd2 1 2 1 1 1) (fun _ => 1 / 4) 2 1 1 true
      (fun _ _ => .vacuum) [0, 1, 2, 3] (fun _ _ => 1) (fun _ => [])) (fun _ => 1 / 4)
      (fun _ => eqs2 (fun _ _ _ => dd2 1 2 1 1 1) 2 1) (fun c => c % (2 * 1)) :=
  C141_block_fluxes _ _ (toyN_ok _ _) (toyN_ok _ _) 2 1 2 (by norm_num) rfl rfl (toyN_image (by decide)) (fun g _ c hc => by
      have : ∀ c < 4, ([1, 3, 1, 3] : List ℚ).getD c 0 = [1, 3].getD (c % (2 * 1)) 0 := by decide +kernel
      exact this c hc) (fun _ => 1) (fun _ => 2) (fun _ => 3) _ (fun _ => 1) (fun _ => 2) _ (fun _ => 1) (fun _ => 1) (fun k => k + 1)
    (fun _ _ => 1) (fun _ _ => 1 / 4) (fun _ => 1) 1 (1 / 2) (toyN_weak _ _) 1 1 id (fun _ h => h) (fun _ => rfl) (fun _ => rfl)
    (fun f => by norm_num; ring) _ _ _ _ [0, 1, 2, 3, 4, 5, 6, 7] [0, 1, 2, 3] (by decide) (by decide) (fun _ _ => one_pos)
    (fun _ _ => two_pos) (fun _ _ => three_pos) (fun _ _ => by norm_num) (fun _ _ => by norm_num) (by norm_num [sum_range_succ])
    (fun _ _ => one_pos) (fun _ _ => one_pos) (fun _ _ => by positivity) (fun _ _ => Iff.rfl) (fun _ _ => Iff.rfl)
    (fun _ s _ => by split_ifs <;> simp) (fun _ _ _ => by simp) (fun _ => ⟨rfl, rfl⟩)
    (fun _ _ s hs => plain (Or.inl ⟨if_pos hs, rfl⟩))

/-- Two by two cells turned over the diagonal, sources 1, 2, 3, 4 and 1, 3, 2, 4. -/
example : Unfolds (mg2 (toyN 4 fun c => [1, 2, 3, 4].getD c 0) (fun _ _ _ _ => dd2 1 2 1 1 1) (fun _ => 1 / 4) 2 2 1 true
      (fun _ s => if s < 2 then .vacuum else .reflect) [0, 1, 2, 3] (fun _ _ => 1) (fun _ => [])) (fun _ => 1 / 4)
      (fun _ => eqs2 (fun _ _ _ => dd2 1 2 1 1 1) 2 2)
    (mg2 (toyN 4 fun c => [1, 3, 2, 4].getD c 0) (fun _ _ _ _ => dd2 2 1 1 1 1) (fun _ => 1 / 4) 2 2 1 true
      (fun _ s => if s < 2 then .reflect else .vacuum) [0, 1, 2, 3] (fun _ _ => 1) (fun _ => [])) (fun _ => 1 / 4)
      (fun _ => eqs2 (fun _ _ _ => dd2 2 1 1 1 1) 2 2) (fun c => c / 2 + c % 2 * 2) :=
  (C140_turned_rectangle (toyN_image (by decide)) rfl (τ := id) (fun _ h => h) (fun g _ a _ i _ j _ q => by
      funext v
      unfold swapEq dd2
      refine Prod.ext ?_ (Prod.ext ?_ ?_) <;> dsimp only <;> ring) (fun _ => rfl) (fun g _ s hs => plain (by
      rcases (show s = 0 ∨ s = 1 ∨ s = 2 ∨ s = 3 by omega) with e | e | e | e <;> subst e
      · exact Or.inl ⟨rfl, rfl⟩
      · exact Or.inl ⟨rfl, rfl⟩
      · exact Or.inr ⟨rfl, rfl⟩
      · exact Or.inr ⟨rfl, rfl⟩))).1 (fun g _ c hc => by
      have : ∀ c < 4, ([1, 2, 3, 4] : List ℚ).getD c 0 = [1, 3, 2, 4].getD (c / 2 + c % 2 * 2) 0 := by decide +kernel
      exact this c hc)

theorem fuel_image {N N' : Nat} {κ : Nat → Nat} (h : ∀ c < N, κ c < N') : Image (fuel N) (fuel N') κ :=
  ⟨rfl, rfl, rfl, rfl, h, fun _ _ => rfl⟩

/-- Four cells of multiplying material between open ends and the half with a mirror. -/
example : SameFactor (mg1 (fuel 4) (fun _ _ i => if half 2 i = 0 then sd1 1 2 1 else dd1 1 1 1) (fun _ => (1 : ℝ) / 2) (2 * 2) 1 true
      (fun _ _ => .vacuum) [0, 1] (fun _ _ => 1) (fun _ => [])) (fun _ => 1 / 2)
      (fun _ => eqs1 (fun _ i => if half 2 i = 0 then sd1 1 2 1 else dd1 1 1 1) (2 * 2))
    (mg1 (fuel 2) (fun _ _ i => if i = 0 then sd1 1 2 1 else dd1 1 1 1) (fun _ => (1 : ℝ) / 2) 2 1 true
      (fun _ s => if s = 0 then .vacuum else .reflect) [0, 1] (fun _ _ => 1) (fun _ => [])) (fun _ => 1 / 2)
      (fun _ => eqs1 (fun _ i => if i = 0 then sd1 1 2 1 else dd1 1 1 1) 2) (half 2) :=
  C140_half_slab_factor (fuel 4) (fuel 2) (fuelN_ok 4) (fuelN_ok 2) 2 (by decide) rfl rfl (fuel_image fun c hc => half_lt hc) (fun _ => 1)
    _ (fun i => if i = 0 then 2 else 1) (fun _ _ => 1) (fun _ => 1) 1 (5 / 8) (fuelN_tame 2) 1 _ _ _ _ [0, 1] [0, 1] (by decide) (by decide)
    (fun _ _ i => if i = 0 then sd1 1 2 1 else dd1 1 1 1) (fun g a i => by by_cases h0 : i = 0 <;> simp [h0]) (fun _ _ => one_pos)
    (fun _ _ => by norm_num) (by norm_num) (fun i _ => by split_ifs <;> norm_num) (fun _ _ => Iff.rfl) (fun _ _ => Iff.rfl)
    (fun _ _ => Or.inl ⟨rfl, rfl⟩) (fun _ s => by split_ifs <;> simp) (fun _ => rfl) (fuelN_data 2)
    (fuelN_seeded 2 (by decide)) (fuelN_linked 2 _)

/-- Four by two cells and the quarter of two by one, step characteristics in the outer cells. -/
example : SameFactor (mg2 (fuel 8) (fun _ _ i j => positive (quarter 2 1 (i + j * 4) == 0) 1 2 1 1 1) (fun _ => (1 : ℝ) / 4) (2 * 2) (2 * 1) 1
      true (fun _ s => if s < 2 then .vacuum else .reflect) [0, 1, 2, 3] (fun _ _ => 1) (fun _ => [])) (fun _ => 1 / 4)
      (fun _ => eqs2 (fun _ i j => positive (quarter 2 1 (i + j * 4) == 0) 1 2 1 1 1) (2 * 2) (2 * 1))
    (mg2 (fuel 2) (fun _ _ i j => positive (i + j * 2 == 0) 1 2 1 1 1) (fun _ => (1 : ℝ) / 4) 2 1 1 true
      (fun _ s => if s = 0 then .vacuum else .reflect) [0, 1, 2, 3] (fun _ _ => 1) (fun _ => [])) (fun _ => 1 / 4)
      (fun _ => eqs2 (fun _ i j => positive (i + j * 2 == 0) 1 2 1 1 1) 2 1) (quarter 2 1) :=
  C140_quarter_factor (fuel 8) (fuel 2) (fuelN_ok 8) (fuelN_ok 2) 2 1 (by decide) (by decide) rfl rfl
    (fuel_image (by decide)) (fun _ => 1) (fun _ => 2) _ (fun _ => 1) (fun _ => 1) (fun _ _ => 1) (fun _ => 1) 1 (5 / 8)
    (fuelN_tame 2) 1 _ _ _ _ [0, 1, 2, 3] [0, 1, 2, 3] (by decide) (by decide) (fun _ c => c == 0) (Or.inr fun g hg c _ => by
      have hg : g < 2 := hg
      rw [fuelN_couple]
      interval_cases g <;> norm_num) (fun _ _ => one_pos)
    (fun _ _ => two_pos) (fun _ _ => by norm_num) (by norm_num [sum_range_succ]) (fun _ _ => one_pos) (fun _ _ => one_pos)
    (fun _ _ => Iff.rfl) (fun _ _ => Iff.rfl) (fun _ s => by split_ifs <;> simp) (fun _ s => by split_ifs <;> simp)
    (fun _ => ⟨rfl, rfl⟩) (fun _ s hs => by
      rcases (show s = 0 ∨ s = 1 ∨ s = 2 ∨ s = 3 by omega) with e | e | e | e <;> subst e
      · exact Or.inl ⟨rfl, rfl⟩
      · exact Or.inl ⟨rfl, rfl⟩
      · exact Or.inr ⟨rfl, rfl⟩
      · exact Or.inr ⟨rfl, rfl⟩) (fuelN_data 2) (fuelN_seeded 2 (by decide)) (fuelN_linked 2)

end cases

end Detran.MGReflect
