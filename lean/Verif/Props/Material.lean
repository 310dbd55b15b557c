import Verif.Lemmas.Material

/-!
# Properties C21-C25, C62: materials, scatter and fission sources
-/

namespace Detran.Material

open Finset

variable {K : Type} [Field K] [LinearOrder K]

/-! ## C21  scatter bounds -/

/-- Specification: groups that may send particles to `g` (`tran = false`) or receive
    particles from `g` (`tran = true`), `g` itself included. -/
def scatterPartners (sigS : Nat → Nat → Nat → K) (G M g : Nat) (tran : Bool) : Set Nat :=
  {x | x = g ∨ (x < G ∧ ∃ m < M, 0 < (if tran then sigS x g m else sigS g x m))}

/-- C21: after `finalize`, `lower(g)` is the least and `upper(g)` the greatest group that
    scatters into `g` in some material. -/
theorem C21_bounds_forward (x : Mat K) (g : Nat) (hg : g < x.G) :
    IsLeast (scatterPartners x.sigS x.G x.M g false) (x.finalize.lower g false) ∧
    IsGreatest (scatterPartners x.sigS x.G x.M g false) (x.finalize.upper g false) := by
  have := scanBounds_spec x.G x.M g hg (fun gp m => x.sigS g gp m)
  simpa [scatterPartners, Mat.lower, Mat.upper, Mat.finalize] using this

/-- C21, transposed: in adjoint mode `lower(g)` is the greatest and `upper(g)` the least
    group that `g` scatters into. -/
theorem C21_bounds_adjoint (x : Mat K) (g : Nat) (hg : g < x.G) :
    IsGreatest (scatterPartners x.sigS x.G x.M g true) (x.finalize.lower g true) ∧
    IsLeast (scatterPartners x.sigS x.G x.M g true) (x.finalize.upper g true) := by
  have := scanBounds_spec x.G x.M g hg (fun gp m => x.sigS gp g m)
  simpa [scatterPartners, Mat.lower, Mat.upper, Mat.finalize, and_comm] using this

/-- Two materials, four groups: upscatter 2→1, downscatter 0→1, 1→2, 2→3. -/
def demo : Mat ℚ :=
  (Mat.new 2 4).run
    [.setSigS 0 0 0 1, .setSigS 0 1 0 2, .setSigS 1 1 2 3, .setSigS 0 1 1 1,
     .setSigS 0 2 1 4, .setSigS 1 2 2 1, .setSigS 0 3 2 5, .setSigS 0 3 3 1]

example : (List.range 4).map (fun g => (demo.finalize.lower g false, demo.finalize.upper g false))
    = [(0, 0), (0, 2), (1, 2), (2, 3)] := by decide +kernel

example : (List.range 4).map (fun g => (demo.finalize.lower g true, demo.finalize.upper g true))
    = [(1, 0), (2, 1), (3, 1), (3, 3)] := by decide +kernel

/-! ## C22  finalisation and histories -/

/-- Specification: the groups that receive particles from a higher-numbered group. -/
def upscatterInto (sigS : Nat → Nat → Nat → K) (G M : Nat) : Set Nat :=
  {g | g < G ∧ ∃ gp, g < gp ∧ gp < G ∧ ∃ m < M, 0 < sigS g gp m}

/-- Specification: the groups that send particles to a lower-numbered group. -/
def upscatterFrom (sigS : Nat → Nat → Nat → K) (G M : Nat) : Set Nat :=
  {gp | gp < G ∧ ∃ g, g < gp ∧ ∃ m < M, 0 < sigS g gp m}

theorem upper_gt_iff (x : Mat K) (g : Nat) (hg : g < x.G) :
    g < (scanBounds x.G x.M g (fun gp m => x.sigS g gp m)).2 ↔
      g ∈ upscatterInto x.sigS x.G x.M := by
  have ⟨h1, h2⟩ := (scanBounds_spec x.G x.M g hg (fun gp m => x.sigS g gp m)).2
  constructor
  · intro h
    rcases h1 with h1 | ⟨h1, m, hm, hs⟩
    · omega
    · exact ⟨hg, _, h, h1, m, hm, hs⟩
  · rintro ⟨_, gp, h3, h4, m, hm, hs⟩
    exact lt_of_lt_of_le h3 (h2 (.inr ⟨h4, m, hm, hs⟩))

theorem lower_lt_iff (x : Mat K) (g : Nat) (hg : g < x.G) :
    (scanBounds x.G x.M g (fun gp m => x.sigS gp g m)).1 < g ↔
      g ∈ upscatterFrom x.sigS x.G x.M := by
  have ⟨h1, h2⟩ := (scanBounds_spec x.G x.M g hg (fun gp m => x.sigS gp g m)).1
  constructor
  · intro h
    rcases h1 with h1 | ⟨h1, m, hm, hs⟩
    · omega
    · exact ⟨hg, _, h, m, hm, hs⟩
  · rintro ⟨_, gp, h3, m, hm, hs⟩
    exact lt_of_le_of_lt (h2 (.inr ⟨by omega, m, hm, hs⟩)) h3

theorem find_range_least (n : Nat) (p : Nat → Bool) (g : Nat)
    (h : (List.range n).find? p = some g) : IsLeast {k | k < n ∧ p k = true} g := by
  obtain ⟨h1, as, bs, h2, h3⟩ := List.find?_eq_some_iff_append.1 h
  have hlen : as.length < n := by
    have := congrArg List.length h2
    simp at this
    omega
  have hg : g = as.length := by
    have := congrArg (fun l => l[as.length]?) h2
    simpa [hlen] using this.symm
  refine ⟨⟨by omega, h1⟩, ?_⟩
  rintro k ⟨hk, hp⟩
  by_contra hlt
  have hk2 : k < as.length := by omega
  have hm : as[k]? = some k := by
    have := congrArg (fun l => l[k]?) h2
    simp [hk, List.getElem?_append_left hk2] at this
    exact this.symm
  have := h3 k (List.mem_of_getElem? hm)
  simp [hp] at this

theorem find_range_rev_greatest (n : Nat) (p : Nat → Bool) (g : Nat)
    (h : (List.range n).reverse.find? p = some g) : IsGreatest {k | k < n ∧ p k = true} g := by
  induction n with
  | zero => simp at h
  | succ n ih =>
    rw [List.range_succ, List.reverse_append, List.reverse_singleton,
      List.singleton_append, List.find?_cons] at h
    cases hp : p n with
    | true =>
      simp only [hp, Option.some.injEq] at h
      subst h
      exact ⟨⟨by omega, hp⟩, fun k hk => by have := hk.1; omega⟩
    | false =>
      simp only [hp] at h
      obtain ⟨⟨h1, h2⟩, h3⟩ := ih h
      refine ⟨⟨by omega, h2⟩, fun k hk => ?_⟩
      have : k ≠ n := by rintro rfl; have := hk.2; rw [hp] at this; exact absurd this (by simp)
      exact h3 ⟨by have := hk.1; omega, hk.2⟩

theorem step_dims (x : Mat K) (o : Op K) : (x.step o).G = x.G ∧ (x.step o).M = x.M := by
  cases o <;> simp [Mat.step, Mat.setDownscatter, Mat.finalize] <;> split <;> simp

theorem run_dims (ops : List (Op K)) (x : Mat K) : (x.run ops).G = x.G ∧ (x.run ops).M = x.M := by
  induction ops generalizing x with
  | nil => simp [Mat.run]
  | cons o ops ih =>
    have h := ih (x.step o)
    have h2 := step_dims x o
    simp only [Mat.run, List.foldl_cons] at *
    exact ⟨h.1.trans h2.1, h.2.trans h2.2⟩

/-- C22 (part 1): the scatter bounds and `nu_sigma_f` left by `finalize` depend on the
    stored cross sections only: two materials with the same stored data agree after
    `finalize`, whatever happened before (earlier `finalize` calls included). -/
theorem C22_bounds_history_independent (M G : Nat) (h1 h2 : List (Op K))
    (hs : ∀ g gp m, g < G → gp < G → m < M →
      ((Mat.new M G : Mat K).run h1).sigS g gp m = ((Mat.new M G : Mat K).run h2).sigS g gp m)
    (g : Nat) (hg : g < G) (tran : Bool) :
    ((Mat.new M G : Mat K).run h1).finalize.lower g tran
      = ((Mat.new M G : Mat K).run h2).finalize.lower g tran ∧
    ((Mat.new M G : Mat K).run h1).finalize.upper g tran
      = ((Mat.new M G : Mat K).run h2).finalize.upper g tran := by
  have hG1 : ((Mat.new M G : Mat K).run h1).G = G := (run_dims h1 _).1
  have hM1 : ((Mat.new M G : Mat K).run h1).M = M := (run_dims h1 _).2
  have hG2 : ((Mat.new M G : Mat K).run h2).G = G := (run_dims h2 _).1
  have hM2 : ((Mat.new M G : Mat K).run h2).M = M := (run_dims h2 _).2
  generalize hx : (Mat.new M G : Mat K).run h1 = x at *
  generalize hy : (Mat.new M G : Mat K).run h2 = y at *
  have key : ∀ tran, scatterPartners x.sigS x.G x.M g tran = scatterPartners y.sigS y.G y.M g tran := by
    intro tran
    rw [hG1, hM1, hG2, hM2]
    ext z
    simp only [scatterPartners, Set.mem_setOf_eq]
    refine or_congr Iff.rfl (and_congr_right fun hz => ?_)
    refine exists_congr fun m => and_congr_right fun hm => ?_
    cases tran
    · simp [hs g z m hg hz hm]
    · simp [hs z g m hz hg hm]
  cases tran
  · have a := C21_bounds_forward x g (by omega)
    have b := C21_bounds_forward y g (by omega)
    rw [key false] at a
    exact ⟨a.1.unique b.1, a.2.unique b.2⟩
  · have a := C21_bounds_adjoint x g (by omega)
    have b := C21_bounds_adjoint y g (by omega)
    rw [key true] at a
    exact ⟨a.1.unique b.1, a.2.unique b.2⟩

/-- C22 (part 2): whenever the stored data contain upscatter, the cutoff computed by
    `finalize` is the first group that receives upscatter, whatever the history. -/
theorem C22_cutoff_with_upscatter (x : Mat K) (h : (upscatterInto x.sigS x.G x.M).Nonempty) :
    IsLeast (upscatterInto x.sigS x.G x.M) (x.finalize.upscatterCutoff false) := by
  cases hf : (List.range x.G).find?
      (fun g => decide ((scanBounds x.G x.M g (fun gp m => x.sigS g gp m)).2 > g)) with
  | none =>
    obtain ⟨g, hg⟩ := h
    have := List.find?_eq_none.1 hf g (List.mem_range.2 hg.1)
    simp only [decide_eq_true_eq] at this
    exact absurd ((upper_gt_iff x g hg.1).2 hg) this
  | some g =>
    have e : x.finalize.upscatterCutoff false = g := by
      simp only [Mat.upscatterCutoff, Mat.finalize, hf]
      rfl
    rw [e]
    obtain ⟨⟨h1, h2⟩, h3⟩ := find_range_least _ _ _ hf
    simp only [decide_eq_true_eq] at h2
    refine ⟨(upper_gt_iff x g h1).1 h2, fun k hk => h3 ⟨hk.1, ?_⟩⟩
    simp only [decide_eq_true_eq]
    exact (upper_gt_iff x k hk.1).2 hk

/-- C22 (part 3): without upscatter in the stored data, `finalize` leaves the previous
    cutoff in place (this is where history leaks in). -/
theorem C22_cutoff_without_upscatter (x : Mat K) (h : upscatterInto x.sigS x.G x.M = ∅) :
    x.finalize.upscatterCutoff false = x.cut0 := by
  cases hf : (List.range x.G).find?
      (fun g => decide ((scanBounds x.G x.M g (fun gp m => x.sigS g gp m)).2 > g)) with
  | none => simp [Mat.upscatterCutoff, Mat.finalize, hf]
  | some g =>
    obtain ⟨⟨h1, h2⟩, _⟩ := find_range_least _ _ _ hf
    simp only [decide_eq_true_eq] at h2
    have := (upper_gt_iff x g h1).1 h2
    rw [h] at this
    exact absurd this (by simp)

/-- C22 (part 4): the adjoint cutoff is the last group that sends particles to a
    lower-numbered group, whenever there is one. -/
theorem C22_adjoint_cutoff (x : Mat K) :
    ((upscatterFrom x.sigS x.G x.M).Nonempty →
      IsGreatest (upscatterFrom x.sigS x.G x.M) (x.finalize.upscatterCutoff true)) ∧
    (upscatterFrom x.sigS x.G x.M = ∅ → x.finalize.upscatterCutoff true = x.cut1) := by
  cases hf : (List.range x.G).reverse.find?
      (fun g => decide ((scanBounds x.G x.M g (fun gp m => x.sigS gp g m)).1 < g)) with
  | none =>
    refine ⟨?_, fun _ => by simp [Mat.upscatterCutoff, Mat.finalize, hf]⟩
    rintro ⟨g, hg⟩
    have := List.find?_eq_none.1 hf g (by simpa using hg.1)
    simp only [decide_eq_true_eq] at this
    exact absurd ((lower_lt_iff x g hg.1).2 hg) this
  | some g =>
    have e : x.finalize.upscatterCutoff true = g := by
      simp only [Mat.upscatterCutoff, Mat.finalize, hf]
      rfl
    rw [e]
    obtain ⟨⟨h1, h2⟩, h3⟩ := find_range_rev_greatest _ _ _ hf
    simp only [decide_eq_true_eq] at h2
    have h4 := (lower_lt_iff x g h1).1 h2
    refine ⟨fun _ => ⟨h4, fun k hk => h3 ⟨hk.1, ?_⟩⟩, fun h => ?_⟩
    · simp only [decide_eq_true_eq]
      exact (lower_lt_iff x k hk.1).2 hk
    · rw [h] at h4
      exact absurd h4 (by simp)

/-- Calls that only store cross sections. -/
def Op.isData : Op K → Bool
  | .setDown _ _ => false
  | .finalize => false
  | _ => true

theorem run_data_flags (ops : List (Op K)) (x : Mat K) (h : ∀ o ∈ ops, o.isData = true) :
    (x.run ops).cut0 = x.cut0 ∧ (x.run ops).cut1 = x.cut1 ∧ (x.run ops).down0 = x.down0 ∧
    (x.run ops).down1 = x.down1 ∧ (x.run ops).finalized = x.finalized := by
  induction ops generalizing x with
  | nil => simp [Mat.run]
  | cons o ops ih =>
    have h1 := ih (x.step o) (fun o' ho => h o' (List.mem_cons_of_mem _ ho))
    have h2 : (x.step o).cut0 = x.cut0 ∧ (x.step o).cut1 = x.cut1 ∧ (x.step o).down0 = x.down0 ∧
        (x.step o).down1 = x.down1 ∧ (x.step o).finalized = x.finalized := by
      have := h o List.mem_cons_self
      cases o <;> simp_all [Op.isData, Mat.step]
    simp only [Mat.run, List.foldl_cons] at *
    obtain ⟨a, b, c, d, e⟩ := h1
    obtain ⟨a', b', c', d', e'⟩ := h2
    exact ⟨a.trans a', b.trans b', c.trans c', d.trans d', e.trans e'⟩

/-- C22 (part 5, `_partial`): for the first `finalize` of a material, the cutoff is the
    first group receiving upscatter, or the group count when there is none, and the
    downscatter flag is set exactly when there is no upscatter.  Missing for the full
    claim: materials finalised more than once (false, see the counterexample below). -/
theorem C22_first_finalize_partial (M G : Nat) (ops : List (Op K))
    (h : ∀ o ∈ ops, o.isData = true) :
    let x := (Mat.new M G : Mat K).run ops
    ((upscatterInto x.sigS G M).Nonempty →
      IsLeast (upscatterInto x.sigS G M) (x.finalize.upscatterCutoff false)) ∧
    (upscatterInto x.sigS G M = ∅ → x.finalize.upscatterCutoff false = G) ∧
    (x.finalize.downscatter false = true ↔ upscatterInto x.sigS G M = ∅) := by
  intro x
  obtain ⟨c0, c1, d0, d1, f⟩ := run_data_flags ops (Mat.new M G : Mat K) h
  have hG : x.G = G := (run_dims ops _).1
  have hM : x.M = M := (run_dims ops _).2
  have p2 := C22_cutoff_with_upscatter x
  have p3 := C22_cutoff_without_upscatter x
  rw [hG, hM] at p2 p3
  have q : upscatterInto x.sigS G M = ∅ → x.finalize.upscatterCutoff false = G :=
    fun he => (p3 he).trans c0
  refine ⟨p2, q, ?_⟩
  have hd : x.finalize.downscatter false =
      if x.finalize.upscatterCutoff false = x.G then true else x.down0 := by
    simp [Mat.downscatter, Mat.upscatterCutoff, Mat.finalize]
  have d0' : x.down0 = false := d0
  rw [hd, d0', hG]
  constructor
  · intro hh
    by_contra hne
    have := (p2 (Set.nonempty_iff_ne_empty.2 hne)).1.1
    rw [if_neg (by omega)] at hh
    exact absurd hh (by simp)
  · intro he
    rw [if_pos (q he)]

/-- The hypotheses are met: with upscatter 2→1 the cutoff is 1 and the flag is off. -/
example : demo.finalize.upscatterCutoff false = 1 ∧ demo.finalize.downscatter false = false ∧
    demo.finalize.upscatterCutoff true = 2 := by decide +kernel

/-- C22, negation: finalising with upscatter, removing the upscatter and finalising again
    does not give the cutoff and flag of a fresh material with the same data; nor does the
    opposite order (the downscatter flag stays set). -/
theorem C22_stale_cutoff_counterexample :
    (∃ h1 h2 : List (Op ℚ),
      ((Mat.new 1 2 : Mat ℚ).run h1).sigS = ((Mat.new 1 2 : Mat ℚ).run h2).sigS ∧
      ((Mat.new 1 2 : Mat ℚ).run h1).finalize.upscatterCutoff false
        ≠ ((Mat.new 1 2 : Mat ℚ).run h2).finalize.upscatterCutoff false ∧
      ((Mat.new 1 2 : Mat ℚ).run h1).finalize.downscatter false
        ≠ ((Mat.new 1 2 : Mat ℚ).run h2).finalize.downscatter false) ∧
    (∃ h1 h2 : List (Op ℚ),
      ((Mat.new 1 2 : Mat ℚ).run h1).sigS = ((Mat.new 1 2 : Mat ℚ).run h2).sigS ∧
      ((Mat.new 1 2 : Mat ℚ).run h1).finalize.downscatter false = true ∧
      ((Mat.new 1 2 : Mat ℚ).run h2).finalize.downscatter false = false) := by
  refine ⟨⟨[.setSigS 0 0 1 1, .finalize, .setSigS 0 0 1 0], [], ?_, ?_, ?_⟩,
    ⟨[.finalize, .setSigS 0 0 1 1], [.setSigS 0 0 1 1], ?_, ?_, ?_⟩⟩
  · funext g gp m
    simp only [Mat.run, List.foldl_cons, List.foldl_nil, Mat.step, Mat.finalize, set3, Mat.new]
    split <;> rfl
  · decide +kernel
  · decide +kernel
  · rfl
  · decide +kernel
  · decide +kernel

/-- Finalising twice in a row changes nothing more. -/
theorem C22_finalize_idempotent (x : Mat K) : x.finalize.finalize = x.finalize := by
  have hc0 : x.finalize.finalize.cut0 = x.finalize.cut0 := by
    simp only [Mat.finalize]
    split
    · rename_i h
      rw [h]
    · rfl
  have hc1 : x.finalize.finalize.cut1 = x.finalize.cut1 := by
    simp only [Mat.finalize]
    split
    · rename_i h
      rw [h]
    · rfl
  have e0 : x.finalize.finalize.down0 =
      if x.finalize.finalize.cut0 = x.G then true else x.finalize.down0 := rfl
  have e1 : x.finalize.finalize.down1 =
      if x.finalize.finalize.cut1 = x.G then true else x.finalize.down1 := rfl
  have f0 : x.finalize.down0 = if x.finalize.cut0 = x.G then true else x.down0 := rfl
  have f1 : x.finalize.down1 = if x.finalize.cut1 = x.G then true else x.down1 := rfl
  have hd0 : x.finalize.finalize.down0 = x.finalize.down0 := by
    rw [e0, hc0]
    split
    · rw [f0, if_pos ‹_›]
    · rfl
  have hd1 : x.finalize.finalize.down1 = x.finalize.down1 := by
    rw [e1, hc1]
    split
    · rw [f1, if_pos ‹_›]
    · rfl
  have hrec : ∀ y z : Mat K, y.cut0 = z.cut0 → y.cut1 = z.cut1 → y.down0 = z.down0 →
      y.down1 = z.down1 → { y with cut0 := 0, cut1 := 0, down0 := true, down1 := true } =
        { z with cut0 := 0, cut1 := 0, down0 := true, down1 := true } → y = z := by
    rintro ⟨⟩ ⟨⟩ h1 h2 h3 h4 h5
    simp only [Mat.mk.injEq] at h5 h1 h2 h3 h4 ⊢
    simp only [h1, h2, h3, h4, h5, and_self]
  exact hrec _ _ hc0 hc1 hd0 hd1 rfl

/-- The adjoint downscatter flag is never raised by `finalize`: in a history without
    `set_downscatter` it stays off although the material has no upscatter at all. -/
theorem C22_adjoint_flag_never_set (M G : Nat) (hG : 0 < G) (ops : List (Op K))
    (h : ∀ o ∈ ops, ∀ v t, o ≠ .setDown v t) :
    ((Mat.new M G : Mat K).run ops).finalize.downscatter true = false := by
  have inv : ∀ (ops : List (Op K)) (x : Mat K), (∀ o ∈ ops, ∀ v t, o ≠ .setDown v t) →
      0 < x.G → x.cut1 < x.G → x.down1 = false →
      (x.run ops).cut1 < (x.run ops).G ∧ (x.run ops).down1 = false := by
    intro ops
    induction ops with
    | nil => intro x _ _ h1 h2; exact ⟨h1, h2⟩
    | cons o ops ih =>
      intro x ho hp hc hd
      have hfin : x.finalize.cut1 < x.G ∧ x.finalize.down1 = false := by
        have hc' : x.finalize.cut1 < x.G := by
          rcases Set.eq_empty_or_nonempty (upscatterFrom x.sigS x.G x.M) with he | he
          · have := (C22_adjoint_cutoff x).2 he
            simp only [Mat.upscatterCutoff, if_true] at this
            omega
          · have := ((C22_adjoint_cutoff x).1 he).1.1
            simpa [Mat.upscatterCutoff] using this
        refine ⟨hc', ?_⟩
        have e : x.finalize.down1 = if x.finalize.cut1 = x.G then true else x.down1 := rfl
        rw [e, if_neg (by omega), hd]
      refine ih (x.step o) (fun o' h' => ho o' (List.mem_cons_of_mem _ h'))
        ((step_dims x o).1 ▸ hp) ?_ ?_
      · rw [(step_dims x o).1]
        have := ho o List.mem_cons_self
        cases o with
        | setDown v t => exact absurd rfl (this v t)
        | finalize => exact hfin.1
        | _ => exact hc
      · have := ho o List.mem_cons_self
        cases o with
        | setDown v t => exact absurd rfl (this v t)
        | finalize => exact hfin.2
        | _ => exact hd
  have h1 := inv (ops ++ [.finalize]) (Mat.new M G) (by
    intro o ho
    rcases List.mem_append.1 ho with ho | ho
    · exact h o ho
    · simp at ho; subst ho; simp) hG hG rfl
  simp only [Mat.run, List.foldl_append, List.foldl_cons, List.foldl_nil, Mat.step] at h1
  simpa [Mat.downscatter, Mat.run] using h1.2

example : (Mat.new 1 2 : Mat ℚ).finalize.downscatter false = true ∧
    (Mat.new 1 2 : Mat ℚ).finalize.downscatter true = false := by decide +kernel

/-- `set_downscatter(v, true)` changes the forward flag as well as the adjoint one. -/
theorem C22_set_downscatter_tran_changes_forward (x : Mat K) (hf : x.finalized = false) (v : Bool) :
    (x.setDownscatter v true).downscatter false = v ∧
    (x.setDownscatter v true).downscatter true = v := by
  simp [Mat.setDownscatter, hf, Mat.downscatter]

example : (Mat.new 1 2 : Mat ℚ).finalized = false := rfl

/-! ## C62  data accessors -/

/-- Specification: the value last stored for `(m, g, gp)`, or zero. -/
def lastS (ops : List (Op K)) (m g gp : Nat) : K :=
  (ops.reverse.findSome? fun o => match o with
    | .setSigS m' g' gp' v => if m' = m ∧ g' = g ∧ gp' = gp then some v else none
    | _ => none).getD 0

/-- Specification: the values last stored for `(m, g)` of each kind. -/
def lastT (ops : List (Op K)) (m g : Nat) : K :=
  (ops.reverse.findSome? fun o => match o with
    | .setSigT m' g' v => if m' = m ∧ g' = g then some v else none
    | _ => none).getD 0
@[inherit_doc lastT] def lastF (ops : List (Op K)) (m g : Nat) : K :=
  (ops.reverse.findSome? fun o => match o with
    | .setSigF m' g' v => if m' = m ∧ g' = g then some v else none
    | _ => none).getD 0
@[inherit_doc lastT] def lastNu (ops : List (Op K)) (m g : Nat) : K :=
  (ops.reverse.findSome? fun o => match o with
    | .setNu m' g' v => if m' = m ∧ g' = g then some v else none
    | _ => none).getD 1
@[inherit_doc lastT] def lastChi (ops : List (Op K)) (m g : Nat) : K :=
  (ops.reverse.findSome? fun o => match o with
    | .setChi m' g' v => if m' = m ∧ g' = g then some v else none
    | _ => none).getD 0

theorem step_sigS (x : Mat K) (o : Op K) (g gp m : Nat) :
    (x.step o).sigS g gp m = (match o with
    | .setSigS m' g' gp' v => if m' = m ∧ g' = g ∧ gp' = gp then some v else none
    | _ => none).getD (x.sigS g gp m) := by
  cases o with
  | setSigS m' g' gp' v =>
    simp only [Mat.step, set3]
    by_cases h : m' = m ∧ g' = g ∧ gp' = gp
    · simp [h.1, h.2.1, h.2.2]
    · rw [if_neg h, if_neg (fun h' => h ⟨h'.2.2.symm, h'.1.symm, h'.2.1.symm⟩)]; rfl
  | setDown v t => simp only [Mat.step, Mat.setDownscatter]; split <;> rfl
  | _ => rfl

theorem step_2 (x : Mat K) (o : Op K) (g m : Nat) :
    (x.step o).sigT g m = (match o with
      | .setSigT m' g' v => if m' = m ∧ g' = g then some v else none
      | _ => none).getD (x.sigT g m) ∧
    (x.step o).sigF g m = (match o with
      | .setSigF m' g' v => if m' = m ∧ g' = g then some v else none
      | _ => none).getD (x.sigF g m) ∧
    (x.step o).nu g m = (match o with
      | .setNu m' g' v => if m' = m ∧ g' = g then some v else none
      | _ => none).getD (x.nu g m) ∧
    (x.step o).chi g m = (match o with
      | .setChi m' g' v => if m' = m ∧ g' = g then some v else none
      | _ => none).getD (x.chi g m) := by
  have key : ∀ (a : Nat → Nat → K) (m' g' : Nat) (v : K), set2 a g' m' v g m
      = (if m' = m ∧ g' = g then some v else none).getD (a g m) := by
    intro a m' g' v
    simp only [set2]
    by_cases h : m' = m ∧ g' = g
    · simp [h.1, h.2]
    · rw [if_neg h, if_neg (fun h' => h ⟨h'.2.symm, h'.1.symm⟩)]; rfl
  cases o with
  | setDown v t =>
    simp only [Mat.step, Mat.setDownscatter]
    split <;> exact ⟨rfl, rfl, rfl, rfl⟩
  | setSigT m' g' v => exact ⟨key _ _ _ _, rfl, rfl, rfl⟩
  | setSigF m' g' v => exact ⟨rfl, key _ _ _ _, rfl, rfl⟩
  | setNu m' g' v => exact ⟨rfl, rfl, key _ _ _ _, rfl⟩
  | setChi m' g' v => exact ⟨rfl, rfl, rfl, key _ _ _ _⟩
  | _ => exact ⟨rfl, rfl, rfl, rfl⟩

theorem findSome_rev {A B : Type} (f : A → Option B) (proj : B) (l : List A) :
    (l.reverse.findSome? f).getD proj = l.foldl (fun b a => (f a).getD b) proj := by
  induction l generalizing proj with
  | nil => rfl
  | cons a l ih =>
    rw [List.foldl_cons, ← ih, List.reverse_cons, List.findSome?_append]
    cases h : l.reverse.findSome? f with
    | none => simp only [Option.none_or, List.findSome?_cons, List.findSome?_nil]
              cases f a <;> simp
    | some b => simp

theorem run_proj {B : Type} (p : Mat K → B) (f : Op K → Option B)
    (h : ∀ x o, p (x.step o) = (f o).getD (p x)) (ops : List (Op K)) (x : Mat K) :
    p (x.run ops) = (ops.reverse.findSome? f).getD (p x) := by
  rw [findSome_rev]
  induction ops generalizing x with
  | nil => rfl
  | cons o ops ih =>
    have := ih (x.step o)
    simp only [Mat.run, List.foldl_cons] at *
    rw [this, h]

/-- C62: after any history of calls (finalize and set_downscatter included) the scatter,
    total, fission, nu and chi values of a material are the ones stored last. -/
theorem C62_last_write (M G : Nat) (ops : List (Op K)) (m g gp : Nat) :
    let x := (Mat.new M G : Mat K).run ops
    x.sigS g gp m = lastS ops m g gp ∧ x.sigT g m = lastT ops m g ∧
    x.sigF g m = lastF ops m g ∧ x.nu g m = lastNu ops m g ∧ x.chi g m = lastChi ops m g := by
  intro x
  refine ⟨?_, ?_, ?_, ?_, ?_⟩
  · exact run_proj (fun x => x.sigS g gp m) _ (fun x o => step_sigS x o g gp m) ops _
  · exact run_proj (fun x => x.sigT g m) _ (fun x o => (step_2 x o g m).1) ops _
  · exact run_proj (fun x => x.sigF g m) _ (fun x o => (step_2 x o g m).2.1) ops _
  · exact run_proj (fun x => x.nu g m) _ (fun x o => (step_2 x o g m).2.2.1) ops _
  · exact run_proj (fun x => x.chi g m) _ (fun x o => (step_2 x o g m).2.2.2) ops _

example : lastS (K := ℚ) [.setSigS 0 1 0 2, .finalize, .setSigS 0 1 0 7, .setSigS 0 0 0 3] 0 1 0 = 7 := by
  decide +kernel

/-- C62: after any history ended by `finalize`, nu-sigma-f is the product of the last
    stored nu (one by default) and the last stored fission cross section. -/
theorem C62_nu_sigma_f (M G : Nat) (ops : List (Op K)) (m g : Nat) :
    (((Mat.new M G : Mat K).run ops).finalize).nuSigF g m = lastNu ops m g * lastF ops m g := by
  have h := C62_last_write M G ops m g 0
  simp only [Mat.finalize]
  rw [h.2.2.1, h.2.2.2.1]

/-- C62, negation: a value given to `set_nu_sigma_f` alone does not survive `finalize`. -/
theorem C62_set_nu_sigma_f_lost (M G m g : Nat) (v : K) :
    (((Mat.new M G : Mat K).run [.setNuSigF m g v]).nuSigF g m = v) ∧
    (((Mat.new M G : Mat K).run [.setNuSigF m g v, .finalize]).nuSigF g m = 0) := by
  constructor
  · simp [Mat.run, Mat.step, set2]
  · simp [Mat.run, Mat.step, Mat.finalize, Mat.new]

/-- C62: `compute_sigma_a` makes absorption plus scattering out of the group equal to the
    total cross section. -/
theorem C62_compute_sigma_a (x : Mat K) (g m : Nat) (hg : g < x.G) (hm : m < x.M) :
    x.computeSigmaA.sigA g m + ∑ gp ∈ range x.G, x.sigS gp g m = x.sigT g m := by
  have key : ∀ (l : List Nat) (a : K), l.foldl (fun sa gp => sa - x.sigS gp g m) a
      + (l.map (fun gp => x.sigS gp g m)).sum = a := by
    intro l
    induction l with
    | nil => simp
    | cons y l ih =>
      intro a
      have := ih (a - x.sigS y g m)
      simp only [List.foldl_cons, List.map_cons, List.sum_cons]
      rw [← add_assoc, add_right_comm, this]
      ring
  have h := key (List.range x.G) (x.sigT g m)
  rw [sum_map_range] at h
  simpa [Mat.computeSigmaA, hg, hm] using h

/-- C62: `compute_diff_coef` stores `1/(3 sigma_t)`. -/
theorem C62_compute_diff_coef (x : Mat K) (g m : Nat) (hg : g < x.G) (hm : m < x.M) :
    x.computeDiffCoef.diff g m = 1 / (3 * x.sigT g m) := by
  simp only [Mat.computeDiffCoef, hg, hm, and_self, if_true]
  rw [div_div]

/-! ## C23  in-scatter source -/

/-- Specification: cross section for scattering from `gp` to `g`, reversed for adjoint. -/
def xs (sigS : Nat → Nat → Nat → K) (adjoint : Bool) (g gp m : Nat) : K :=
  if adjoint then sigS gp g m else sigS g gp m

theorem ker_zero_of_not_partner [IsStrictOrderedRing K] (x : Src K) (g gp c : Nat)
    (hgp : gp < x.mat.G)
    (hc : x.mmap c < x.mat.M)
    (hnn : ∀ g gp m, 0 ≤ x.mat.sigS g gp m)
    (h : gp ∉ scatterPartners x.mat.sigS x.mat.G x.mat.M g x.adjoint) : x.ker g gp c = 0 := by
  have h2 : ¬ 0 < (if x.adjoint then x.mat.sigS gp g (x.mmap c) else x.mat.sigS g gp (x.mmap c)) :=
    fun hp => h (.inr ⟨hgp, _, hc, hp⟩)
  unfold Src.ker
  have h3 : 0 ≤ (if x.adjoint then x.mat.sigS gp g (x.mmap c) else x.mat.sigS g gp (x.mmap c)) := by
    split <;> exact hnn _ _ _
  exact le_antisymm (not_lt.1 h2) h3

/-- The source builder over a finalised material. -/
def Src.ready (x : Src K) : Src K := { x with mat := x.mat.finalize }

theorem partner_bounds (x : Src K) (g : Nat) (hg : g < x.mat.G) (z : Nat)
    (hz : z ∈ scatterPartners x.mat.sigS x.mat.G x.mat.M g x.adjoint) :
    min (x.ready.mat.lower g x.adjoint) (x.ready.mat.upper g x.adjoint) ≤ z ∧
    z ≤ max (x.ready.mat.lower g x.adjoint) (x.ready.mat.upper g x.adjoint) := by
  have e : x.ready.mat = x.mat.finalize := rfl
  rw [e]
  cases ha : x.adjoint with
  | false =>
    rw [ha] at hz
    obtain ⟨h1, h2⟩ := C21_bounds_forward x.mat g hg
    exact ⟨le_trans (min_le_left _ _) (h1.2 hz), le_trans (h2.2 hz) (le_max_right _ _)⟩
  | true =>
    rw [ha] at hz
    obtain ⟨h1, h2⟩ := C21_bounds_adjoint x.mat g hg
    exact ⟨le_trans (min_le_right _ _) (h2.2 hz), le_trans (h1.2 hz) (le_max_left _ _)⟩

theorem bounds_lt (x : Src K) (g : Nat) (hg : g < x.mat.G) :
    x.ready.mat.lower g x.adjoint < x.mat.G ∧ x.ready.mat.upper g x.adjoint < x.mat.G := by
  have mem : ∀ z t, z ∈ scatterPartners x.mat.sigS x.mat.G x.mat.M g t → z < x.mat.G := by
    rintro z t (rfl | h)
    · exact hg
    · exact h.1
  have e : x.ready.mat = x.mat.finalize := rfl
  rw [e]
  cases ha : x.adjoint with
  | false =>
    obtain ⟨h1, h2⟩ := C21_bounds_forward x.mat g hg
    exact ⟨mem _ _ h1.1, mem _ _ h2.1⟩
  | true =>
    obtain ⟨h1, h2⟩ := C21_bounds_adjoint x.mat g hg
    exact ⟨mem _ _ h1.1, mem _ _ h2.1⟩

/-- C23: for non-negative scattering data the in-scatter source adds, in every cell, the
    sum over all groups other than `g` of flux times cross section; cells past the mesh
    are untouched. -/
theorem C23_in_scatter [IsStrictOrderedRing K] (x : Src K) (phi : Nat → Nat → K)
    (g : Nat) (hg : g < x.mat.G)
    (hnn : ∀ g gp m, 0 ≤ x.mat.sigS g gp m) (hm : ∀ c < x.N, x.mmap c < x.mat.M)
    (s : Nat → K) (c : Nat) :
    x.ready.inScatter phi g s c = if c < x.N then
      s c + ∑ gp ∈ (range x.mat.G).erase g, phi gp c * xs x.mat.sigS x.adjoint g gp (x.mmap c)
      else s c := by
  unfold Src.inScatter
  rw [foldl_addCells_if]
  have eN : x.ready.N = x.N := rfl
  rw [eN]
  split
  · rename_i hc
    congr 1
    rw [sum_groups_incl]
    have ea : x.ready.adjoint = x.adjoint := rfl
    rw [ea]
    have hb := bounds_lt x g hg
    have hker : ∀ gp, x.ready.ker g gp c = xs x.mat.sigS x.adjoint g gp (x.mmap c) := fun _ => rfl
    have hk : ∀ gp, x.ready.ker g gp c = x.ker g gp c := fun _ => rfl
    have hself : g ∈ scatterPartners x.mat.sigS x.mat.G x.mat.M g x.adjoint := .inl rfl
    have hgin := partner_bounds x g hg g hself
    rw [← Finset.add_sum_erase _ _ (Finset.mem_Icc.2 hgin)]
    simp only [if_true, zero_add]
    rw [Finset.sum_congr rfl (g := fun gp => phi gp c * xs x.mat.sigS x.adjoint g gp (x.mmap c))
      (fun i hi => by rw [if_neg (Finset.ne_of_mem_erase hi).symm, hker])]
    refine Finset.sum_subset ?_ ?_
    · intro i hi
      rw [Finset.mem_erase] at hi ⊢
      refine ⟨hi.1, Finset.mem_range.2 ?_⟩
      have := (Finset.mem_Icc.1 hi.2).2
      omega
    · intro i hi hni
      rw [Finset.mem_erase] at hi hni
      have : i ∉ scatterPartners x.mat.sigS x.mat.G x.mat.M g x.adjoint := fun hp =>
        hni ⟨hi.1, Finset.mem_Icc.2 (partner_bounds x g hg i hp)⟩
      rw [← hker, hk, ker_zero_of_not_partner x g i c (Finset.mem_range.1 hi.2) (hm c hc) hnn this,
        mul_zero]
  · rfl

/-- C23: the within-group source adds flux times the self-scatter cross section. -/
theorem C23_within_group (x : Src K) (g : Nat) (phi s : Nat → K) (c : Nat) :
    x.withinGroup g phi s c =
      if c < x.N then s c + phi c * xs x.mat.sigS x.adjoint g g (x.mmap c) else s c := by
  simp [Src.withinGroup, addCells, xs]

/-- A three-cell mesh over `demo`. -/
def demoSrc (adj : Bool) : Src ℚ := ⟨demo, 3, fun c => if c = 1 then 1 else 0, adj⟩

example : (List.range 4).map ((demoSrc false).ready.inScatter
    (fun g c => if g = 2 then 10 else (c : ℚ) + 1) 1 (fun _ => 1)) = [3, 31, 7, 1] := by
  decide +kernel

example : (List.range 4).map ((demoSrc true).ready.inScatter
    (fun g c => if g = 2 then 10 else (c : ℚ) + 1) 1 (fun _ => 1)) = [41, 1, 41, 1] := by
  decide +kernel

/-! ## C24  Gauss-Seidel block plus Krylov block -/

/-- Specification: the full scatter sum over all groups. -/
def fullScatter (x : Src K) (phi : Nat → Nat → K) (g c : Nat) : K :=
  ∑ gp ∈ range x.mat.G, phi gp c * xs x.mat.sigS x.adjoint g gp (x.mmap c)

theorem sum_bounds_full [IsStrictOrderedRing K] (x : Src K) (phi : Nat → Nat → K)
    (g : Nat) (hg : g < x.mat.G)
    (hnn : ∀ g gp m, 0 ≤ x.mat.sigS g gp m) (c : Nat) (hm : x.mmap c < x.mat.M)
    (a b : Nat) (ha : a ≤ min (x.ready.mat.lower g x.adjoint) (x.ready.mat.upper g x.adjoint))
    (hb : max (x.ready.mat.lower g x.adjoint) (x.ready.mat.upper g x.adjoint) ≤ b)
    (hbG : b < x.mat.G) :
    ∑ gp ∈ Icc a b, phi gp c * x.ker g gp c = fullScatter x phi g c := by
  unfold fullScatter
  have hk : ∀ gp, x.ker g gp c = xs x.mat.sigS x.adjoint g gp (x.mmap c) := fun _ => rfl
  simp only [hk]
  refine Finset.sum_subset ?_ ?_
  · intro i hi
    have := (Finset.mem_Icc.1 hi).2
    exact Finset.mem_range.2 (by omega)
  · intro i hi hni
    have : i ∉ scatterPartners x.mat.sigS x.mat.G x.mat.M g x.adjoint := fun hp => by
      have := partner_bounds x g hg i hp
      exact hni (Finset.mem_Icc.2 ⟨by omega, by omega⟩)
    rw [← hk, ker_zero_of_not_partner x g i c (Finset.mem_range.1 hi) hm hnn this, mul_zero]

theorem lower_le_upper_fwd (x : Src K) (g : Nat) (hg : g < x.mat.G) (ha : x.adjoint = false) :
    x.ready.mat.lower g false ≤ g ∧ g ≤ x.ready.mat.upper g false := by
  obtain ⟨h1, h2⟩ := C21_bounds_forward x.mat g hg
  exact ⟨h1.2 (.inl rfl), h2.2 (.inl rfl)⟩

theorem upper_le_lower_adj (x : Src K) (g : Nat) (hg : g < x.mat.G) (ha : x.adjoint = true) :
    x.ready.mat.upper g true ≤ g ∧ g ≤ x.ready.mat.lower g true := by
  obtain ⟨h1, h2⟩ := C21_bounds_adjoint x.mat g hg
  exact ⟨h2.2 (.inl rfl), h1.2 (.inl rfl)⟩

/-- C24 (`_partial`), forward problems: for a group `g` of the Krylov block (`cutoff ≤ g`)
    with `lower(g) ≤ cutoff`, the down-scatter source plus the block scatter source is the
    full scatter sum.  Missing: `lower(g) > cutoff`, where the claim is false (below). -/
theorem C24_forward_partial [IsStrictOrderedRing K] (x : Src K) (phi : Nat → Nat → K)
    (hadj : x.adjoint = false)
    (g cutoff : Nat) (hg : g < x.mat.G) (hcut : cutoff ≤ g)
    (hlow : x.mat.finalize.lower g false ≤ cutoff)
    (hnn : ∀ g gp m, 0 ≤ x.mat.sigS g gp m) (c : Nat) (hc : c < x.N) (hm : x.mmap c < x.mat.M)
    (s : Nat → K) :
    x.ready.totalGroup phi g cutoff (x.ready.downScatter phi g cutoff s) c
      = s c + fullScatter x phi g c := by
  have hl := lower_le_upper_fwd x g hg hadj
  have hb := bounds_lt x g hg
  rw [hadj] at hb
  have hlow' : x.ready.mat.lower g false ≤ cutoff := hlow
  have e1 : ∀ gp, x.ready.ker g gp c = x.ker g gp c := fun _ => rfl
  have eN : x.ready.N = x.N := rfl
  have ea : x.ready.adjoint = false := hadj
  unfold Src.totalGroup Src.downScatter
  rw [foldl_addCells, foldl_addCells, eN, if_pos hc, if_pos hc, sum_groups_incl, sum_groups_excl, ea]
  simp only [e1]
  rw [← sum_bounds_full x phi g hg hnn c hm (x.ready.mat.lower g false) (x.ready.mat.upper g false)
    (by rw [hadj]; omega) (by rw [hadj]; omega) hb.2, add_assoc]
  congr 1
  rw [min_eq_left (by omega), max_eq_right (by omega)]
  by_cases h : x.ready.mat.lower g false < cutoff
  · rw [if_pos h, ← Finset.sum_union]
    · refine Finset.sum_congr ?_ fun _ _ => rfl
      ext i
      simp only [Finset.mem_union, Finset.mem_Ico, Finset.mem_Icc]
      omega
    · rw [Finset.disjoint_left]
      intro i hi hj
      have := Finset.mem_Ico.1 hi
      have := Finset.mem_Icc.1 hj
      omega
  · have he : x.ready.mat.lower g false = cutoff := by omega
    rw [if_neg h, he]
    simp

/-- C24 (`_partial`), adjoint problems: the mirror statement (`g ≤ cutoff ≤ lower(g)`). -/
theorem C24_adjoint_partial [IsStrictOrderedRing K] (x : Src K) (phi : Nat → Nat → K)
    (hadj : x.adjoint = true)
    (g cutoff : Nat) (hg : g < x.mat.G) (hcut : g ≤ cutoff)
    (hlow : cutoff ≤ x.mat.finalize.lower g true)
    (hnn : ∀ g gp m, 0 ≤ x.mat.sigS g gp m) (c : Nat) (hc : c < x.N) (hm : x.mmap c < x.mat.M)
    (s : Nat → K) :
    x.ready.totalGroup phi g cutoff (x.ready.downScatter phi g cutoff s) c
      = s c + fullScatter x phi g c := by
  have hl := upper_le_lower_adj x g hg hadj
  have hb := bounds_lt x g hg
  rw [hadj] at hb
  have hlow' : cutoff ≤ x.ready.mat.lower g true := hlow
  have e1 : ∀ gp, x.ready.ker g gp c = x.ker g gp c := fun _ => rfl
  have eN : x.ready.N = x.N := rfl
  have ea : x.ready.adjoint = true := hadj
  unfold Src.totalGroup Src.downScatter
  rw [foldl_addCells, foldl_addCells, eN, if_pos hc, if_pos hc, sum_groups_incl, sum_groups_excl, ea]
  simp only [e1]
  rw [← sum_bounds_full x phi g hg hnn c hm (x.ready.mat.upper g true) (x.ready.mat.lower g true)
    (by rw [hadj]; omega) (by rw [hadj]; omega) hb.1, add_assoc]
  congr 1
  rw [min_eq_right (by omega), max_eq_left (by omega), if_neg (by omega), ← Finset.sum_union]
  · refine Finset.sum_congr ?_ fun _ _ => rfl
    ext i
    simp only [Finset.mem_union, Finset.mem_Ioc, Finset.mem_Icc]
    omega
  · rw [Finset.disjoint_left]
    intro i hi hj
    have := Finset.mem_Ioc.1 hi
    have := Finset.mem_Icc.1 hj
    omega

/-- C24, what happens otherwise (forward): if every source of `g` lies above the cutoff
    (`cutoff < lower(g)`), then the groups `cutoff+1 .. lower(g)` are counted twice. -/
theorem C24_double_count [IsStrictOrderedRing K] (x : Src K) (phi : Nat → Nat → K)
    (hadj : x.adjoint = false)
    (g cutoff : Nat) (hg : g < x.mat.G)
    (hlow : cutoff < x.mat.finalize.lower g false)
    (hnn : ∀ g gp m, 0 ≤ x.mat.sigS g gp m) (c : Nat) (hc : c < x.N) (hm : x.mmap c < x.mat.M)
    (s : Nat → K) :
    x.ready.totalGroup phi g cutoff (x.ready.downScatter phi g cutoff s) c
      = s c + fullScatter x phi g c + phi (x.mat.finalize.lower g false) c
          * x.mat.sigS g (x.mat.finalize.lower g false) (x.mmap c) := by
  have hl := lower_le_upper_fwd x g hg hadj
  have hb := bounds_lt x g hg
  rw [hadj] at hb
  have hlow' : cutoff < x.ready.mat.lower g false := hlow
  have e1 : ∀ gp, x.ready.ker g gp c = x.ker g gp c := fun _ => rfl
  have eN : x.ready.N = x.N := rfl
  have ea : x.ready.adjoint = false := hadj
  have ek : ∀ gp, x.mat.sigS g gp (x.mmap c) = x.ker g gp c := fun gp => by
    unfold Src.ker; rw [hadj]; rfl
  have el : x.mat.finalize.lower g false = x.ready.mat.lower g false := rfl
  unfold Src.totalGroup Src.downScatter
  rw [foldl_addCells, foldl_addCells, eN, if_pos hc, if_pos hc, sum_groups_incl, sum_groups_excl, ea,
    ek, el]
  simp only [e1]
  rw [min_eq_left (by omega), max_eq_right (by omega), if_neg (by omega),
    sum_bounds_full x phi g hg hnn c hm cutoff (x.ready.mat.upper g false)
      (by rw [hadj]; omega) (by rw [hadj]; omega) hb.2]
  have h2 : ∑ i ∈ Ioc cutoff (x.ready.mat.lower g false), phi i c * x.ker g i c
      = phi (x.ready.mat.lower g false) c * x.ker g (x.ready.mat.lower g false) c := by
    refine Finset.sum_eq_single_of_mem _ (Finset.mem_Ioc.2 ⟨hlow', le_rfl⟩) ?_
    intro i hi hne
    have hi' := Finset.mem_Ioc.1 hi
    have hns : i ∉ scatterPartners x.mat.sigS x.mat.G x.mat.M g x.adjoint := fun hp => by
      rw [hadj] at hp
      have : x.ready.mat.lower g false ≤ i := (C21_bounds_forward x.mat g hg).1.2 hp
      omega
    rw [ker_zero_of_not_partner x g i c (by omega) hm hnn hns, mul_zero]
  rw [h2]
  ring

/-- Hypotheses of the partial theorem are met by group 2 of `demo` (cutoff 1). -/
example : demo.finalize.upscatterCutoff false = 1 ∧ demo.finalize.lower 2 false ≤ 1 := by
  decide +kernel

/-- C24, negation: with the cutoff computed by the material itself, group 3 of `demo`
    (fed by groups 2 and 3 only) gets its source from group 2 twice. -/
theorem C24_counterexample :
    let x := demoSrc false
    let cutoff := demo.finalize.upscatterCutoff false
    cutoff ≤ 3 ∧
    x.ready.totalGroup (fun _ _ => 1) 3 cutoff (x.ready.downScatter (fun _ _ => 1) 3 cutoff (fun _ => 0)) 0
      = 11 ∧ fullScatter x (fun _ _ => 1) 3 0 = 6 := by
  refine ⟨by decide +kernel, by decide +kernel, by decide +kernel⟩

/-! ## C25  fission source -/

/-- C25: `update` stores, in every cell, the group sum of flux times nu-sigma-f
    (times chi for adjoint problems). -/
theorem C25_density (x : Src K) (phi : Nat → Nat → K) (c : Nat) (hc : c < x.N) :
    x.density phi c = ∑ g ∈ range x.mat.G, phi g c *
      (if x.adjoint then x.mat.chi g (x.mmap c) else x.mat.nuSigF g (x.mmap c)) := by
  unfold Src.density
  rw [foldl_addCells, if_pos hc, zero_add, sum_map_range]

/-- C25: forward group sources add up to scale times density when chi sums to one. -/
theorem C25_sources_sum (x : Src K) (hadj : x.adjoint = false) (scale : K) (dens : Nat → K)
    (c : Nat) (hchi : ∑ g ∈ range x.mat.G, x.mat.chi g (x.mmap c) = 1) :
    ∑ g ∈ range x.mat.G, x.setupOuter scale dens g c = scale * dens c := by
  simp only [Src.setupOuter, hadj]
  simp only [Bool.false_eq_true, if_false]
  rw [← Finset.mul_sum, hchi, mul_one]

/-- C25: `update` followed by `setup_outer` gives the same group source as
    `build_total_group_source` with the same flux and scale, in both modes. -/
theorem C25_outer_eq_total (x : Src K) (scale : K) (phi : Nat → Nat → K) (g c : Nat)
    (hc : c < x.N) :
    x.setupOuter scale (x.density phi) g c = x.fissionTotal scale phi g (fun _ => 0) c := by
  unfold Src.setupOuter Src.fissionTotal
  rw [C25_density x phi c hc, foldl_addCells, if_pos hc, zero_add, sum_map_range,
    Finset.mul_sum, Finset.sum_mul]
  refine Finset.sum_congr rfl fun gp _ => ?_
  unfold Src.fker
  cases x.adjoint <;> simp <;> ring

/-- C25: within-group plus in-fission source is the total source. -/
theorem C25_within_plus_in (x : Src K) (scale : K) (phi : Nat → Nat → K) (g : Nat)
    (hg : g < x.mat.G) (s : Nat → K) (c : Nat) :
    x.fissionWithin scale g (phi g) (x.fissionIn scale phi g s) c
      = x.fissionTotal scale phi g s c := by
  unfold Src.fissionWithin Src.fissionIn Src.fissionTotal
  rw [foldl_addCells]
  unfold addCells
  by_cases hc : c < x.N
  · have := foldl_addCells_if x.N (fun gp => gp = g) (List.range x.mat.G)
      (fun gp c => phi gp c * scale * x.fker g gp c) s c
    unfold addCells at this
    rw [if_pos hc, if_pos hc, this, if_pos hc, add_assoc]
    congr 1
    rw [sum_map_range, sum_map_range,
      ← Finset.add_sum_erase _ _ (Finset.mem_range.2 hg),
      ← Finset.add_sum_erase (range x.mat.G) (fun gp => phi gp c * scale * x.fker g gp c)
        (Finset.mem_range.2 hg)]
    simp only [if_true, zero_add]
    rw [add_comm]
    congr 1
    · unfold Src.fker
      cases x.adjoint <;> simp <;> ring
    · exact Finset.sum_congr rfl fun i hi => if_neg (Finset.ne_of_mem_erase hi)
  · have := foldl_addCells_if x.N (fun gp => gp = g) (List.range x.mat.G)
      (fun gp c => phi gp c * scale * x.fker g gp c) s c
    unfold addCells at this
    rw [if_neg hc, if_neg hc, this, if_neg hc]

/-- C25: the forward and adjoint fission operators are transposes of each other:
    `<psi, F phi> = <F* psi, phi>` in every cell. -/
theorem C25_adjoint_transpose (x : Src K) (scale : K) (phi psi : Nat → Nat → K) (c : Nat)
    (hc : c < x.N) :
    ∑ g ∈ range x.mat.G, psi g c *
        ({ x with adjoint := false } : Src K).fissionTotal scale phi g (fun _ => 0) c
      = ∑ g ∈ range x.mat.G, phi g c *
        ({ x with adjoint := true } : Src K).fissionTotal scale psi g (fun _ => 0) c := by
  have key : ∀ (adj : Bool) (f : Nat → Nat → K) g,
      ({ x with adjoint := adj } : Src K).fissionTotal scale f g (fun _ => 0) c
        = ∑ gp ∈ range x.mat.G, f gp c * scale * ({ x with adjoint := adj } : Src K).fker g gp c := by
    intro adj f g
    unfold Src.fissionTotal
    rw [foldl_addCells, if_pos hc, zero_add, sum_map_range]
  simp only [key, Finset.mul_sum]
  rw [Finset.sum_comm]
  refine Finset.sum_congr rfl fun i _ => Finset.sum_congr rfl fun j _ => ?_
  simp only [Src.fker]
  simp
  ring

/-- The scatter operators of the two modes are transposes too. -/
theorem C25_scatter_transpose (x : Src K) (phi psi : Nat → Nat → K) (c : Nat) :
    ∑ g ∈ range x.mat.G, psi g c * fullScatter { x with adjoint := false } phi g c
      = ∑ g ∈ range x.mat.G, phi g c * fullScatter { x with adjoint := true } psi g c := by
  simp only [fullScatter, Finset.mul_sum]
  rw [Finset.sum_comm]
  refine Finset.sum_congr rfl fun i _ => Finset.sum_congr rfl fun j _ => ?_
  simp [xs]
  ring

/-- C25: `initialize` leaves a density proportional to the group sum of nu-sigma-f whose
    absolute values sum to one, provided that sum is not zero everywhere. -/
theorem C25_initialize [IsStrictOrderedRing K] (x : Src K)
    (hpos : ∃ c < x.N, ∑ g ∈ range x.mat.G, x.mat.nuSigF g (x.mmap c) ≠ 0) :
    (x.initDensity.map (fun d => |d|)).sum = 1 ∧
    ∃ t : K, 0 < t ∧ x.initDensity = (List.range x.N).map
      (fun c => (∑ g ∈ range x.mat.G, x.mat.nuSigF g (x.mmap c)) * t) := by
  have hd : ∀ c, (List.range x.mat.G).foldl (fun a g => a + x.mat.nuSigF g (x.mmap c)) 0
      = ∑ g ∈ range x.mat.G, x.mat.nuSigF g (x.mmap c) := by
    intro c
    rw [← sum_map_range, List.sum_eq_foldl, List.foldl_map]
  unfold Src.initDensity
  simp only [hd]
  set d := (List.range x.N).map (fun c => ∑ g ∈ range x.mat.G, x.mat.nuSigF g (x.mmap c)) with hdd
  have hn : 0 < Util.normL1 d := by
    rw [Util.C20_normL1]
    obtain ⟨c, hc, hne⟩ := hpos
    have hmem : |∑ g ∈ range x.mat.G, x.mat.nuSigF g (x.mmap c)| ∈ d.map (fun y => |y|) := by
      rw [hdd, List.map_map]
      exact List.mem_map.2 ⟨c, List.mem_range.2 hc, rfl⟩
    refine lt_of_lt_of_le (abs_pos.2 hne) (List.single_le_sum ?_ _ hmem)
    intro y hy
    obtain ⟨z, _, rfl⟩ := List.mem_map.1 hy
    exact abs_nonneg z
  refine ⟨?_, 1 / Util.normL1 d, by positivity, ?_⟩
  · unfold Util.vecScale
    rw [List.map_map]
    have h1 : ((fun d => |d|) ∘ fun y => y * (1 / Util.normL1 d))
        = fun y : K => |y| * (1 / Util.normL1 d) := by
      funext y
      simp [abs_mul, abs_of_pos hn]
    rw [h1, List.sum_map_mul_right, ← Util.C20_normL1, mul_one_div, div_self hn.ne']
  · unfold Util.vecScale
    rw [hdd, List.map_map]
    rfl

/-- Two groups, chi = (3/4, 1/4), nu-sigma-f = (1, 2). -/
def demoFission : Mat ℚ :=
  ((Mat.new 1 2).run [.setChi 0 0 (3/4), .setChi 0 1 (1/4), .setSigF 0 0 1, .setSigF 0 1 1,
    .setNu 0 1 2, .finalize])

example : ∑ g ∈ Finset.range 2, demoFission.chi g 0 = 1 := by decide +kernel

example : (⟨demoFission, 2, fun _ => 0, false⟩ : Src ℚ).density (fun g c => (g : ℚ) + c) 1 = 5 ∧
    (⟨demoFission, 2, fun _ => 0, false⟩ : Src ℚ).initDensity = [1/2, 1/2] := by decide +kernel

end Detran.Material
