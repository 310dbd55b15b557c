import Verif.Model.MGReflect
import Verif.Props.WGReflect
import Verif.Props.MGSolve

/-!
# Facts about the multigroup Krylov vectors and group loops, used for C125
-/

namespace Detran.MGReflect

open Detran.Sweep (St)
open Detran.MGSolve

variable {F K : Type} [Field K] [LinearOrder K]

theorem upd_same {A : Type} (S : Nat → A) (g : Nat) (s : A) : upd S g s g = s := if_pos rfl

theorem upd_ne {A : Type} (S : Nat → A) {g g' : Nat} (s : A) (h : g' ≠ g) : upd S g s g' = S g' := if_neg h

/-- Writing the values of one group into a Krylov vector, the boundary part only when `wr`. -/
def Prob.put (P : Prob F K) (k : Nat) (wr : Bool) (y : Nat → K) (g : Nat) (v : Nat → K) : Nat → K :=
  let y := setBlock y (gIndex P.M.x.adjoint k g * P.M.x.N).toNat P.M.x.N v
  if wr then
    setBlock y (boundaryPos P.M.x.mat.G P.M.x.adjoint k P.M.x.N P.bs g 0).toNat P.bs fun a => v (P.M.x.N + a)
  else y

/-- Cutoffs that make sense for the mode. -/
def Prob.Cut (P : Prob F K) (k : Nat) : Prop :=
  P.M.x.mat.G < 2147483648 ∧ if P.M.x.adjoint then k < P.M.x.mat.G else k ≤ P.M.x.mat.G

variable {P : Prob F K} {k : Nat}

theorem put_view (hc : P.Cut k) (wr : Bool) (y v : Nat → K) (g : Nat) (hg : g ∈ P.groups k) (i : Nat)
    (hi : i < P.M.x.N + P.bs) :
    P.view k (P.put k wr y g v) g i = if i < P.M.x.N ∨ wr = true then v i else P.view k y g i := by
  obtain ⟨l1, l2, _, _⟩ := C57_layout P.M.x.mat.G hc.1 P.M.x.adjoint k hc.2 P.M.x.N P.bs
  obtain ⟨o1, o2, _, _⟩ := C57_offsets P.M.x.mat.G hc.1 P.M.x.adjoint k hc.2
  have hg0 := (o2 g hg).1
  have hm : (0 : Int) ≤ gIndex P.M.x.adjoint k g * P.M.x.N := mul_nonneg hg0 (by omega)
  have hb : (0 : Int) ≤ gIndex P.M.x.adjoint k g * P.bs := mul_nonneg hg0 (by omega)
  unfold Prob.view
  by_cases h1 : i < P.M.x.N
  · rw [if_pos h1, if_pos (.inl h1)]
    have p1 := l1 g hg i h1
    have e : P.put k wr y g v (momentPos P.M.x.adjoint k P.M.x.N g i).toNat
        = setBlock y (gIndex P.M.x.adjoint k g * P.M.x.N).toNat P.M.x.N v (momentPos P.M.x.adjoint k P.M.x.N g i).toNat := by
      unfold Prob.put
      cases wr with
      | false => rfl
      | true =>
        simp only [if_true]
        refine if_neg ?_
        rintro ⟨h2, _⟩
        unfold boundaryPos at h2
        push_cast at h2
        have : (0 : Int) ≤ ((krylovGroups P.M.x.mat.G P.M.x.adjoint k).length : Int) * P.M.x.N := by positivity
        omega
    rw [e]
    unfold setBlock momentPos
    rw [if_pos (by omega)]
    congr 1
    omega
  · rw [if_neg h1]
    have p2 := l2 g hg (i - P.M.x.N) (by omega)
    have p0 : P.M.x.N = 0 ∨ gIndex P.M.x.adjoint k g * P.M.x.N + P.M.x.N
        ≤ ((krylovGroups P.M.x.mat.G P.M.x.adjoint k).length : Int) * P.M.x.N := by
      right
      have := (o2 g hg).2
      rw [← o1] at this
      nlinarith
    have e : setBlock y (gIndex P.M.x.adjoint k g * P.M.x.N).toNat P.M.x.N v
        (boundaryPos P.M.x.mat.G P.M.x.adjoint k P.M.x.N P.bs g (i - P.M.x.N)).toNat
        = y (boundaryPos P.M.x.mat.G P.M.x.adjoint k P.M.x.N P.bs g (i - P.M.x.N)).toNat := by
      refine if_neg ?_
      rintro ⟨h2, h3⟩
      omega
    unfold Prob.put
    cases wr with
    | false =>
      simp only [Bool.false_eq_true, if_false, or_false, if_neg h1]
      exact e
    | true =>
      simp only [if_true, or_true]
      unfold setBlock
      have q : (0 : Int) ≤ ((krylovGroups P.M.x.mat.G P.M.x.adjoint k).length : Int) * P.M.x.N := by positivity
      have q1 : (boundaryPos P.M.x.mat.G P.M.x.adjoint k P.M.x.N P.bs g (i - P.M.x.N)).toNat
          = (boundaryPos P.M.x.mat.G P.M.x.adjoint k P.M.x.N P.bs g 0).toNat + (i - P.M.x.N) := by
        unfold boundaryPos
        push_cast
        omega
      rw [if_pos (by omega)]
      dsimp only
      congr 1
      omega

theorem put_other (hc : P.Cut k) (wr : Bool) (y v : Nat → K) (g g' : Nat) (hg : g ∈ P.groups k)
    (hg' : g' ∈ P.groups k) (hne : g' ≠ g) (i : Nat) (hi : i < P.M.x.N + P.bs) :
    P.view k (P.put k wr y g v) g' i = P.view k y g' i := by
  obtain ⟨l1, l2, l3, l4⟩ := C57_layout P.M.x.mat.G hc.1 P.M.x.adjoint k hc.2 P.M.x.N P.bs
  obtain ⟨o1, o2, _, _⟩ := C57_offsets P.M.x.mat.G hc.1 P.M.x.adjoint k hc.2
  have hg0 := (o2 g hg).1
  have hm : (0 : Int) ≤ gIndex P.M.x.adjoint k g * P.M.x.N := mul_nonneg hg0 (by omega)
  have hb : (0 : Int) ≤ gIndex P.M.x.adjoint k g * P.bs := mul_nonneg hg0 (by omega)
  have q : (0 : Int) ≤ ((krylovGroups P.M.x.mat.G P.M.x.adjoint k).length : Int) * P.M.x.N := by positivity
  have key : ∀ p : Nat, ((∃ i < P.M.x.N, p = (momentPos P.M.x.adjoint k P.M.x.N g' i).toNat) ∨
      ∃ a < P.bs, p = (boundaryPos P.M.x.mat.G P.M.x.adjoint k P.M.x.N P.bs g' a).toNat) →
      P.put k wr y g v p = y p := by
    intro p hp
    have e1 : setBlock y (gIndex P.M.x.adjoint k g * P.M.x.N).toNat P.M.x.N v p = y p := by
      refine if_neg ?_
      rintro ⟨h2, h3⟩
      have hN : p - (gIndex P.M.x.adjoint k g * P.M.x.N).toNat < P.M.x.N := by omega
      have p1 := l1 g hg _ hN
      have ep : momentPos P.M.x.adjoint k P.M.x.N g (p - (gIndex P.M.x.adjoint k g * P.M.x.N).toNat) = p := by
        unfold momentPos
        omega
      rcases hp with ⟨i, hi, rfl⟩ | ⟨a, ha, rfl⟩
      · have p2 := l1 g' hg' i hi
        exact hne ((l3 g hg _ hN g' hg' i hi (by rw [ep]; omega)).1).symm
      · have p2 := l2 g' hg' a ha
        rw [ep] at p1
        omega
    unfold Prob.put
    cases wr with
    | false => exact e1
    | true =>
      simp only [if_true]
      have e2 : ∀ f : Nat → K, setBlock (setBlock y (gIndex P.M.x.adjoint k g * P.M.x.N).toNat P.M.x.N v)
          (boundaryPos P.M.x.mat.G P.M.x.adjoint k P.M.x.N P.bs g 0).toNat P.bs f p
          = setBlock y (gIndex P.M.x.adjoint k g * P.M.x.N).toNat P.M.x.N v p := by
        intro f
        refine if_neg ?_
        rintro ⟨h2, h3⟩
        have hB : p - (boundaryPos P.M.x.mat.G P.M.x.adjoint k P.M.x.N P.bs g 0).toNat < P.bs := by omega
        have p1 := l2 g hg _ hB
        have ep : boundaryPos P.M.x.mat.G P.M.x.adjoint k P.M.x.N P.bs g
            (p - (boundaryPos P.M.x.mat.G P.M.x.adjoint k P.M.x.N P.bs g 0).toNat) = p := by
          unfold boundaryPos at h2 h3 ⊢
          push_cast at h2 h3 ⊢
          omega
        rcases hp with ⟨i, hi, rfl⟩ | ⟨a, ha, rfl⟩
        · have p2 := l1 g' hg' i hi
          rw [ep] at p1
          omega
        · have p2 := l2 g' hg' a ha
          exact hne ((l4 g hg _ hB g' hg' a ha (by rw [ep]; omega)).1).symm
      rw [e2, e1]
  unfold Prob.view
  by_cases h1 : i < P.M.x.N
  · rw [if_pos h1, if_pos h1]
    exact key _ (.inl ⟨i, h1, rfl⟩)
  · rw [if_neg h1, if_neg h1]
    exact key _ (.inr ⟨i - P.M.x.N, by omega, rfl⟩)

/-- A loop over distinct groups, each reading and writing its own state and its own part of the vector. -/
theorem fold_view (hc : P.Cut k) (wr : Nat → Bool) (step : Nat → St F K → St F K × (Nat → K)) (l : List Nat)
    (hl : l.Nodup) (hsub : ∀ g ∈ l, g ∈ P.groups k) (S : Nat → St F K) (y : Nat → K) :
    let r := l.foldl (fun r g => (upd r.1 g (step g (r.1 g)).1, P.put k (wr g) r.2 g (step g (r.1 g)).2)) (S, y)
    ∀ g ∈ P.groups k, (r.1 g = if g ∈ l then (step g (S g)).1 else S g) ∧
      ∀ i < P.M.x.N + P.bs, P.view k r.2 g i =
        if g ∈ l ∧ (i < P.M.x.N ∨ wr g = true) then (step g (S g)).2 i else P.view k y g i := by
  induction l using List.reverseRecOn with
  | nil => intro r g hg; simp [r]
  | append_singleton l a ih =>
    intro r g hg
    have hnd := List.nodup_append.1 hl
    have ha : a ∉ l := fun h => hnd.2.2 a h a (by simp) rfl
    have ih := ih hnd.1 (fun g hg => hsub g (List.mem_append_left _ hg))
    have haG := hsub a (by simp)
    set q := l.foldl (fun r g => (upd r.1 g (step g (r.1 g)).1, P.put k (wr g) r.2 g (step g (r.1 g)).2)) (S, y) with hq
    have er : r = (upd q.1 a (step a (q.1 a)).1, P.put k (wr a) q.2 a (step a (q.1 a)).2) := by
      simp only [r, List.foldl_append, List.foldl_cons, List.foldl_nil, ← hq]
    have eS : q.1 a = S a := by rw [(ih a haG).1, if_neg ha]
    rw [er]
    dsimp only
    rw [eS]
    by_cases h : g = a
    · subst h
      refine ⟨by rw [upd_same, if_pos (by simp)], fun i hi => ?_⟩
      rw [put_view hc _ _ _ _ hg i hi]
      by_cases h1 : i < P.M.x.N ∨ wr g = true
      · rw [if_pos h1, if_pos ⟨by simp, h1⟩]
      · rw [if_neg h1, (ih g hg).2 i hi, if_neg (fun h => ha h.1), if_neg (fun h => h1 h.2)]
    · refine ⟨by rw [upd_ne _ _ h, (ih g hg).1]; simp [h], fun i hi => ?_⟩
      rw [put_other hc _ _ _ _ _ haG hg h i hi, (ih g hg).2 i hi]
      simp [h]

theorem view_sub (x y : Nat → K) (g i : Nat) : P.view k (fun p => x p - y p) g i = P.view k x g i - P.view k y g i := by
  unfold Prob.view
  split <;> rfl

theorem view_zero (g i : Nat) : P.view k (fun _ => 0) g i = 0 := by
  unfold Prob.view
  split <;> rfl

theorem view_comb (α β : K) (x y : Nat → K) (g i : Nat) :
    P.view k (fun p => α * x p + β * y p) g i = α * P.view k x g i + β * P.view k y g i := by
  unfold Prob.view
  split <;> rfl

/-- Entries that a group sees are entries of the vector. -/
theorem view_inside (hc : P.Cut k) (x y : Nat → K)
    (h : ∀ p < opSize P.M.x.mat.G P.M.x.adjoint k P.M.x.N P.bs, x p = y p) (g : Nat) (hg : g ∈ P.groups k) (i : Nat)
    (hi : i < P.M.x.N + P.bs) : P.view k x g i = P.view k y g i := by
  obtain ⟨l1, l2, _, _⟩ := C57_layout P.M.x.mat.G hc.1 P.M.x.adjoint k hc.2 P.M.x.N P.bs
  unfold Prob.view
  by_cases h1 : i < P.M.x.N
  · rw [if_pos h1, if_pos h1]
    refine h _ ?_
    have p1 := l1 g hg i h1
    unfold opSize
    have : (krylovGroups P.M.x.mat.G P.M.x.adjoint k).length * P.M.x.N
        ≤ (krylovGroups P.M.x.mat.G P.M.x.adjoint k).length * (P.M.x.N + P.bs) := Nat.mul_le_mul_left _ (by omega)
    have p3 := p1.2
    zify at this ⊢
    omega
  · rw [if_neg h1, if_neg h1]
    refine h _ ?_
    have p1 := l2 g hg (i - P.M.x.N) (by omega)
    have : (0 : Int) ≤ ((krylovGroups P.M.x.mat.G P.M.x.adjoint k).length : Int) * P.M.x.N := by positivity
    omega

/-- And every entry of the vector is seen by a group. -/
theorem view_cover (hc : P.Cut k) (x y : Nat → K)
    (h : ∀ g ∈ P.groups k, ∀ i < P.M.x.N + P.bs, P.view k x g i = P.view k y g i) :
    ∀ p < opSize P.M.x.mat.G P.M.x.adjoint k P.M.x.N P.bs, x p = y p := by
  obtain ⟨o1, o2, _, o4⟩ := C57_offsets P.M.x.mat.G hc.1 P.M.x.adjoint k hc.2
  intro p hp
  unfold opSize at hp
  rw [o1] at hp
  by_cases h1 : p < active P.M.x.mat.G P.M.x.adjoint k * P.M.x.N
  · have hN : 0 < P.M.x.N := Nat.pos_of_ne_zero fun e => by rw [e, Nat.mul_zero] at h1; omega
    obtain ⟨g, hg, e⟩ := o4 (p / P.M.x.N) (Nat.div_lt_of_lt_mul (by rw [Nat.mul_comm]; exact h1))
    have hi := Nat.mod_lt p hN
    have := h g hg (p % P.M.x.N) (by omega)
    unfold Prob.view at this
    rw [if_pos hi, if_pos hi] at this
    have ep : (momentPos P.M.x.adjoint k P.M.x.N g (p % P.M.x.N)).toNat = p := by
      unfold momentPos
      rw [e]
      have := Nat.div_add_mod p P.M.x.N
      rw [Nat.mul_comm] at this
      zify at this ⊢
      omega
    rwa [ep] at this
  · set q := p - active P.M.x.mat.G P.M.x.adjoint k * P.M.x.N with hq
    have hq' : q < active P.M.x.mat.G P.M.x.adjoint k * P.bs := by rw [Nat.mul_add] at hp; omega
    have hB : 0 < P.bs := Nat.pos_of_ne_zero fun e => by rw [e, Nat.mul_zero] at hq'; omega
    obtain ⟨g, hg, e⟩ := o4 (q / P.bs) (Nat.div_lt_of_lt_mul (by rw [Nat.mul_comm]; exact hq'))
    have hi := Nat.mod_lt q hB
    have := h g hg (P.M.x.N + q % P.bs) (by omega)
    unfold Prob.view at this
    rw [if_neg (by omega), if_neg (by omega), Nat.add_sub_cancel_left] at this
    have ep : (boundaryPos P.M.x.mat.G P.M.x.adjoint k P.M.x.N P.bs g (q % P.bs)).toNat = p := by
      unfold boundaryPos
      rw [e, o1]
      have h3 := Nat.div_add_mod q P.bs
      rw [Nat.mul_comm] at h3
      zify at h3
      push_cast
      rw [add_assoc, h3]
      have h4 : active P.M.x.mat.G P.M.x.adjoint k * P.M.x.N ≤ p := by omega
      have h5 : (q : Int) = p - (active P.M.x.mat.G P.M.x.adjoint k * P.M.x.N : Nat) := by omega
      rw [h5]
      push_cast
      omega
    rwa [ep] at this

end Detran.MGReflect
