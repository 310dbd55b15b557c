import Verif.Model.Managers
import Verif.Props.EigenPI
import Mathlib.Algebra.Module.LinearMap.Basic
import Mathlib.Algebra.Module.LinearMap.End

/-!
# C103, C104, C105: the managers
-/

namespace Detran.Managers

variable {K Src E Dn : Type}

/-! ## Specification, in terms of what the client did and was told -/

/-- The sources handed over, in order; null pointers do not count. -/
def given : List (Call K Src) → List Src
  | [] => []
  | .setSource (some q) :: h => q :: given h
  | _ :: h => given h

/-- The database after the calls. -/
def dbAfter (db : Db) : List (Call K Src) → Db
  | [] => db
  | .put db' :: h => dbAfter db' h
  | _ :: h => dbAfter db h

theorem given_append (a b : List (Call K Src)) : given (a ++ b) = given a ++ given b := by
  induction a with
  | nil => rfl
  | cons c a ih =>
    cases c with
    | setSource q => cases q <;> simp [given, ih]
    | _ => simp [given, ih]

theorem dbAfter_append (db : Db) (a b : List (Call K Src)) : dbAfter db (a ++ b) = dbAfter (dbAfter db a) b := by
  induction a generalizing db with
  | nil => rfl
  | cons c a ih => cases c <;> simp [dbAfter, ih]

/-- The solver asked for: the discretisation by the database at the last set-up, the rest by the database when
    the solver is set. -/
def Asked (d1 d2 : Db) : Kind → Prop
  | .diffusion => d1.equation = some "diffusion"
  | .gs => d1.equation ≠ some "diffusion" ∧ (d2.outer = none ∨ d2.outer = some "GS")
  | .cmfd => d1.equation ≠ some "diffusion" ∧ d2.outer = some "CMFD"
  | .gmres => d1.equation ≠ some "diffusion" ∧ d2.outer = some "GMRES"

/-- A solver was set and the problem was not set up again since. -/
def SolverSet (tr : List (Call K Src × Ret K)) : Prop :=
  ∃ a b, tr = a ++ (.setSolver, .flag true) :: b ∧ ∀ e ∈ b, e ≠ (.setup, .unit)

theorem solverSet_snoc (tr : List (Call K Src × Ret K)) (e : Call K Src × Ret K) :
    SolverSet (tr ++ [e]) ↔ e = (.setSolver, .flag true) ∨ (SolverSet tr ∧ e ≠ (.setup, .unit)) := by
  constructor
  · rintro ⟨a, b, h, hb⟩
    rcases List.eq_nil_or_concat b with rfl | ⟨b', x, rfl⟩
    · left
      have := congrArg List.getLast? h
      simpa using this
    · right
      rw [List.concat_eq_append, ← List.cons_append, ← List.append_assoc] at h
      obtain ⟨h1, h2⟩ := List.append_inj' h rfl
      simp only [List.cons.injEq, and_true] at h2
      subst h2
      exact ⟨⟨a, b', h1, fun e he => hb e (by simp [he])⟩, hb e (by simp)⟩
  · rintro (rfl | ⟨⟨a, b, rfl, hb⟩, he⟩)
    · exact ⟨tr, [], rfl, by simp⟩
    · refine ⟨a, b ++ [e], by simp, ?_⟩
      intro x hx
      rcases List.mem_append.1 hx with h | h
      · exact hb x h
      · rw [List.mem_singleton.1 h]; exact he

section machine
variable [AddCommMonoid E]

theorem trace_snoc (P : Phys K Src E Dn) (one : K) (w : Db × Mgr Src E Dn) (h : List (Call K Src)) (c : Call K Src) :
    trace P one w (h ++ [c]) =
      ((trace P one w h).1 ++ [(c, (step P one (trace P one w h).2 c).1)], (step P one (trace P one w h).2 c).2) := by
  simp [trace, List.foldl_append]

theorem trace_calls (P : Phys K Src E Dn) (one : K) (w : Db × Mgr Src E Dn) (h : List (Call K Src)) :
    (trace P one w h).1.map Prod.fst = h := by
  induction h using List.reverseRecOn with
  | nil => rfl
  | append_singleton h c ih => rw [trace_snoc, List.map_append, ih]; rfl

/-! ### Effect of the single calls on the flags -/

theorem setup_cases (P : Phys K Src E Dn) (db : Db) (m : Mgr Src E Dn) :
    ((m.setup P db).1 = .unit ∧ (m.setup P db).2.ready = false ∧ (m.setup P db).2.isSetup = true) ∨
    ((m.setup P db).1 = .threw ∧ (m.setup P db).2.ready = m.ready ∧ (m.setup P db).2.isSetup = m.isSetup) := by
  unfold Mgr.setup
  simp only
  split
  · exact Or.inr ⟨rfl, rfl, rfl⟩
  · split
    · exact Or.inr ⟨rfl, rfl, rfl⟩
    · exact Or.inl ⟨rfl, rfl, rfl⟩

theorem setup_keeps (P : Phys K Src E Dn) (db : Db) (m : Mgr Src E Dn) :
    (m.setup P db).2.solver = m.solver ∧ (m.setup P db).2.sources = m.sources ∧
    (m.setup P db).2.disc = discOf db ∧ (m.setup P db).2.dim = m.dim ∧
    (m.setup P db).2.multiply = m.multiply ∧ (m.setup P db).2.fission = m.fission := by
  unfold Mgr.setup
  simp only
  repeat' (first | split)
  all_goals simp_all

theorem setSolver_cases (db : Db) (m : Mgr Src E Dn) :
    ((m.setSolver db : Ret K × _).1 = .flag true ∧ (m.setSolver db : Ret K × _).2.ready = true ∧
      (m.setSolver db : Ret K × _).2.solver.isSome) ∨
    ((m.setSolver db : Ret K × _).1 ≠ .flag true ∧ (m.setSolver db : Ret K × _).2 = m) := by
  unfold Mgr.setSolver
  repeat' (first | split)
  all_goals simp

theorem setSolver_keeps (db : Db) (m : Mgr Src E Dn) :
    (m.setSolver db : Ret K × _).2.sources = m.sources ∧ (m.setSolver db : Ret K × _).2.disc = m.disc ∧
    (m.setSolver db : Ret K × _).2.isSetup = m.isSetup ∧ (m.setSolver db : Ret K × _).2.phi = m.phi ∧
    (m.setSolver db : Ret K × _).2.fsrc = m.fsrc ∧ (m.setSolver db : Ret K × _).2.fobj = m.fobj ∧
    (m.setSolver db : Ret K × _).2.multiply = m.multiply ∧ (m.setSolver db : Ret K × _).2.dim = m.dim ∧
    (m.setSolver db : Ret K × _).2.epoch = m.epoch ∧ (m.setSolver db : Ret K × _).2.bnd = m.bnd := by
  unfold Mgr.setSolver
  repeat' (first | split)
  all_goals simp

theorem solve_keeps (P : Phys K Src E Dn) (k : K) (m : Mgr Src E Dn) :
    (m.solve P k).2.ready = m.ready ∧ (m.solve P k).2.solver = m.solver ∧ (m.solve P k).2.sources = m.sources ∧
    (m.solve P k).2.disc = m.disc ∧ (m.solve P k).2.isSetup = m.isSetup ∧ (m.solve P k).2.fobj = m.fobj := by
  unfold Mgr.solve Mgr.runSolver
  cases h : m.solver <;> by_cases hr : m.ready = false <;> simp [hr, h]

theorem iterate_ready (P : Phys K Src E Dn) (one : K) (db : Db) (g : Int) (m : Mgr Src E Dn)
    (hs : m.ready = true → m.solver.isSome) :
    (m.iterate P one db g).2.ready = m.ready ∧
    ((m.iterate P one db g).2.ready = true → (m.iterate P one db g).2.solver.isSome) := by
  by_cases hr : m.ready = false ∨ m.fobj = false
  · have : m.iterate P one db g = (.ub, m) := by unfold Mgr.iterate; exact if_pos hr
    rw [this]; exact ⟨rfl, hs⟩
  · have hr' : m.ready = true := by simpa using (not_or.1 hr).1
    obtain ⟨s, hs'⟩ := Option.isSome_iff_exists.1 (hs hr')
    unfold Mgr.iterate
    rw [if_neg hr]
    by_cases hg : g = 0
    · rw [if_pos hg]
      simp only [Mgr.runSolver, hs', Option.map_some]
      have key := setSolver_cases (K := K) db ({ m with
        phi := P.run s.kind m.multiply one (m.fixedSource P s) m.phi, sources := [] } : Mgr Src E Dn)
      simp only [hs', hr'] at key ⊢
      generalize (Mgr.setSolver db _ : Ret K × Mgr Src E Dn) = r at key ⊢
      obtain ⟨r1, r2⟩ := r
      simp only at key
      rcases key with ⟨_, h2, h3⟩ | ⟨_, h2⟩
      · cases r1 <;> simp [h2, h3]
      · subst h2
        cases r1 <;> simp
    · rw [if_neg hg]
      simp [Mgr.runSolver, hs', hr']

theorem refresh_keeps (P : Phys K Src E Dn) (m : Mgr Src E Dn) :
    (m.refreshFission P : Ret K × _).2.ready = m.ready ∧ (m.refreshFission P : Ret K × _).2.solver = m.solver ∧
    (m.refreshFission P : Ret K × _).2.sources = m.sources ∧ (m.refreshFission P : Ret K × _).2.disc = m.disc ∧
    (m.refreshFission P : Ret K × _).2.isSetup = m.isSetup ∧
    ((m.refreshFission P : Ret K × _).1 = .unit ∨ (m.refreshFission P : Ret K × _).1 = .ub) := by
  unfold Mgr.refreshFission
  split <;> simp

theorem setSource_keeps (q : Option Src) (m : Mgr Src E Dn) :
    (m.setSource q).ready = m.ready ∧ (m.setSource q).solver = m.solver ∧ (m.setSource q).disc = m.disc ∧
    (m.setSource q).isSetup = m.isSetup ∧ (m.setSource q).sources = m.sources ++ q.toList := by
  cases q <;> simp [Mgr.setSource]

theorem ready_inv (P : Phys K Src E Dn) (one : K) (db : Db) (dim : Nat) (mu fi : Bool) (h : List (Call K Src)) :
    let t := trace P one (db, Mgr.fresh P dim mu fi) h
    (t.2.2.ready = true ↔ SolverSet t.1) ∧ (t.2.2.ready = true → t.2.2.solver.isSome) := by
  induction h using List.reverseRecOn with
  | nil =>
    simp only [trace, List.foldl_nil, Mgr.fresh]
    refine ⟨⟨by simp, ?_⟩, by simp⟩
    rintro ⟨a, b, h, _⟩
    simp at h
  | append_singleton h c ih =>
    simp only at ih ⊢
    rw [trace_snoc]
    generalize trace P one (db, Mgr.fresh P dim mu fi) h = t at ih ⊢
    obtain ⟨tr, d, m⟩ := t
    simp only at ih ⊢
    obtain ⟨ih1, ih2⟩ := ih
    rw [solverSet_snoc, ← ih1]
    cases c with
    | put db' => simp [step]; exact ih2
    | setup =>
      obtain ⟨k1, _⟩ := setup_keeps P d m
      rcases setup_cases P d m with ⟨e1, e2, _⟩ | ⟨e1, e2, _⟩
      · simp [step, e1, e2]
      · simp [step, e1, e2, k1]; exact ih2
    | setSource q =>
      obtain ⟨k1, k2, _⟩ := setSource_keeps q m
      simp [step, k1, k2]; exact ih2
    | setSolver =>
      rcases setSolver_cases (K := K) d m with ⟨e1, e2, e3⟩ | ⟨e1, e2⟩
      · simp [step, e1, e2, e3]
      · simp [step, e1, e2]; exact ih2
    | solve k =>
      obtain ⟨k1, k2, _⟩ := solve_keeps P k m
      simp [step, k1, k2]; exact ih2
    | iterate g =>
      obtain ⟨k1, k2⟩ := iterate_ready P one d g m ih2
      simp [step, k1]
      rw [← k1]; exact k2
    | refreshFission =>
      obtain ⟨k1, k2, _⟩ := refresh_keeps (K := K) P m
      simp [step, k1, k2]; exact ih2

/-- **C103 (order of calls).** Whatever the client did before — in any order, any number of times, with exceptions
    caught — `solve` answers true exactly when `set_solver` returned true at some point after which no `setup`
    completed; otherwise it answers false and nothing is undefined. -/
theorem C103_solve_iff (P : Phys K Src E Dn) (one : K) (db : Db) (dim : Nat) (mu fi : Bool)
    (h : List (Call K Src)) (k : K) :
    let t := trace P one (db, Mgr.fresh P dim mu fi) h
    ((step P one t.2 (.solve k)).1 = .flag true ↔ SolverSet t.1) ∧
    ((step P one t.2 (.solve k)).1 = .flag false ↔ ¬ SolverSet t.1) := by
  obtain ⟨h1, h2⟩ := ready_inv P one db dim mu fi h
  simp only at h1 h2 ⊢
  generalize trace P one (db, Mgr.fresh P dim mu fi) h = t at h1 h2 ⊢
  obtain ⟨tr, d, m⟩ := t
  simp only at h1 h2 ⊢
  rw [← h1]
  cases hr : m.ready with
  | false => simp [step, Mgr.solve, hr]
  | true =>
    obtain ⟨s, hs⟩ := Option.isSome_iff_exists.1 (h2 hr)
    simp [step, Mgr.solve, Mgr.runSolver, hr, hs]

/-! ### Which solver, with which sources -/

/-- What is known of a manager after calls `h` with trace `tr`. -/
structure Known (db0 : Db) (tr : List (Call K Src × Ret K)) (d : Db) (m : Mgr Src E Dn) : Prop where
  db : d = dbAfter db0 (tr.map Prod.fst)
  src : m.sources = given (tr.map Prod.fst)
  disc : m.isSetup = true → ∃ a b, tr.map Prod.fst = a ++ .setup :: b ∧ (.setup ∉ b) ∧ m.disc = discOf (dbAfter db0 a)
  solver : m.ready = true → ∃ a b s c d', tr = a ++ (.setSolver, .flag true) :: b ∧
    (∀ e ∈ b, e ≠ (.setup, .unit) ∧ e ≠ (.setSolver, .flag true)) ∧ m.solver = some s ∧
    s.sources = given (a.map Prod.fst) ∧ a.map Prod.fst = c ++ .setup :: d' ∧ (.setup ∉ d') ∧
    Asked (dbAfter db0 c) (dbAfter db0 (a.map Prod.fst)) s.kind

theorem discOf_diff (db : Db) : discOf db = .diff ↔ db.equation = some "diffusion" := by
  unfold discOf
  cases h : db.equation with
  | none => simp
  | some e =>
    simp only [Option.getD_some, Option.some.injEq]
    by_cases h1 : e = "scmoc" ∨ e = "ddmoc"
    · rw [if_pos h1]
      constructor
      · intro h; cases h
      · intro h; subst h; revert h1; decide
    · rw [if_neg h1]
      split <;> simp_all

theorem outerKind_spec (d1 d2 : Db) (h1 : d1.equation ≠ some "diffusion") (k : Kind) :
    outerKind (d2.outer.getD "GS") = some k → Asked d1 d2 k := by
  unfold outerKind
  intro h
  cases ho : d2.outer with
  | none =>
    simp [ho] at h; subst h
    exact ⟨h1, Or.inl ho⟩
  | some n =>
    simp only [ho, Option.getD_some] at h
    split at h
    · next e => simp at h; subst h; subst e; exact ⟨h1, Or.inr ho⟩
    · split at h
      · next e => simp at h; subst h; subst e; exact ⟨h1, ho⟩
      · split at h
        · next e => simp at h; subst h; subst e; exact ⟨h1, ho⟩
        · cases h

theorem Known.other {db0 : Db} {tr : List (Call K Src × Ret K)} {d : Db} {m m' : Mgr Src E Dn}
    (kn : Known db0 tr d m) (e : Call K Src × Ret K) {d2 : Db}
    (hd : d2 = dbAfter d [e.1]) (hs : m'.sources = m.sources ++ given [e.1]) (he : e.1 ≠ .setup)
    (h1 : m'.isSetup = m.isSetup) (h2 : m'.disc = m.disc) (h3 : m'.ready = m.ready) (h4 : m'.solver = m.solver)
    (he2 : e ≠ (.setSolver, .flag true)) : Known db0 (tr ++ [e]) d2 m' := by
  refine ⟨?_, ?_, ?_, ?_⟩
  · rw [hd, List.map_append, dbAfter_append, ← kn.db]; rfl
  · rw [hs, List.map_append, given_append, ← kn.src]; rfl
  · intro h
    obtain ⟨a, b, e1, e2, e3⟩ := kn.disc (h1 ▸ h)
    refine ⟨a, b ++ [e.1], by simp [e1], ?_, by rw [h2, e3]⟩
    simp only [List.mem_append, List.mem_singleton, not_or]
    exact ⟨e2, fun h => he h.symm⟩
  · intro h
    obtain ⟨a, b, s, c, d', e1, e2, e3⟩ := kn.solver (h3 ▸ h)
    refine ⟨a, b ++ [e], s, c, d', by simp [e1], ?_, by rw [h4]; exact e3⟩
    intro x hx
    rcases List.mem_append.1 hx with hx | hx
    · exact e2 x hx
    · rw [List.mem_singleton.1 hx]
      exact ⟨fun h => he (by rw [h]), he2⟩

theorem known (P : Phys K Src E Dn) (one : K) (db : Db) (dim : Nat) (mu fi : Bool) (h : List (Call K Src))
    (hi : ∀ g, .iterate g ∉ h) :
    let t := trace P one (db, Mgr.fresh P dim mu fi) h
    Known db t.1 t.2.1 t.2.2 := by
  induction h using List.reverseRecOn with
  | nil =>
    simp only [trace, List.foldl_nil, Mgr.fresh]
    exact ⟨rfl, rfl, by simp, by simp⟩
  | append_singleton h c ih =>
    have ih := ih (fun g hg => hi g (by simp [hg]))
    simp only at ih ⊢
    rw [trace_snoc]
    generalize trace P one (db, Mgr.fresh P dim mu fi) h = t at ih ⊢
    obtain ⟨tr, d, m⟩ := t
    simp only at ih ⊢
    cases c with
    | put db' => exact ih.other _ rfl (by simp [step, given]) (by simp) rfl rfl rfl rfl (by simp)
    | setup =>
      obtain ⟨k1, k2, k3, _⟩ := setup_keeps P d m
      refine ⟨?_, ?_, ?_, ?_⟩
      · rw [List.map_append, dbAfter_append, ← ih.db]; rfl
      · rw [List.map_append, given_append, ← ih.src]; simp [step, k2, given]
      · intro _
        exact ⟨tr.map Prod.fst, [], by simp, by simp, by simp only [step, k3]; rw [← ih.db]⟩
      · intro hr
        rcases setup_cases P d m with ⟨e1, e2, _⟩ | ⟨e1, e2, _⟩
        · simp [step, e2] at hr
        · simp only [step, e2] at hr
          obtain ⟨a, b, s, c, d', f1, f2, f3⟩ := ih.solver hr
          refine ⟨a, b ++ [(.setup, .threw)], s, c, d', by simp [f1, step, e1], ?_, by simp only [step, k1]; exact f3⟩
          intro x hx
          rcases List.mem_append.1 hx with hx | hx
          · exact f2 x hx
          · rw [List.mem_singleton.1 hx]; simp
    | setSource q =>
      obtain ⟨k1, k2, k3, k4, k5⟩ := setSource_keeps q m
      refine ih.other _ rfl ?_ (by simp) k4 k3 k1 k2 (by simp)
      simp only [step, k5]
      cases q <;> simp [given]
    | setSolver =>
      obtain ⟨k1, k2, k3, _⟩ := setSolver_keeps (K := K) d m
      rcases setSolver_cases (K := K) d m with ⟨e1, e2, e3⟩ | ⟨e1, e2⟩
      · refine ⟨?_, ?_, ?_, ?_⟩
        · rw [List.map_append, dbAfter_append, ← ih.db]; rfl
        · rw [List.map_append, given_append, ← ih.src]; simp [step, k1, given]
        · intro hs
          simp only [step, k3] at hs
          obtain ⟨a, b, f1, f2, f3⟩ := ih.disc hs
          exact ⟨a, b ++ [.setSolver], by simp [f1], by simp [f2], by simp only [step, k2]; exact f3⟩
        · intro _
          have hset : m.isSetup = true := by
            by_contra hne
            rw [Bool.not_eq_true] at hne
            simp [Mgr.setSolver, hne] at e1
          obtain ⟨a, b, f1, f2, f3⟩ := ih.disc hset
          obtain ⟨s, hs⟩ := Option.isSome_iff_exists.1 e3
          refine ⟨tr, [], s, a, b, by simp [step, e1], by simp, by simp [step, hs], ?_, f1, f2, ?_⟩
          · rw [← ih.src]
            revert hs e1
            unfold Mgr.setSolver
            repeat' (first | split)
            all_goals simp
            all_goals (rintro rfl; rfl)
          · rw [← ih.db]
            revert hs e1
            unfold Mgr.setSolver
            rw [if_neg (by simp [hset])]
            by_cases hd : m.disc = .diff
            · rw [if_pos hd]
              simp only [Option.some.injEq]
              rintro - rfl
              exact (discOf_diff _).1 (f3 ▸ hd)
            · rw [if_neg hd]
              have hne : (dbAfter db a).equation ≠ some "diffusion" := by
                rw [Ne, ← discOf_diff, ← f3]; exact hd
              cases ho : outerKind (d.outer.getD "GS") with
              | none => simp
              | some k =>
                simp only
                split
                · simp
                · simp only [Option.some.injEq]
                  rintro - rfl
                  exact outerKind_spec _ _ hne k ho
      · refine ih.other _ rfl (by simp [step, e2, given]) (by simp) (by simp [step, e2]) (by simp [step, e2])
          (by simp [step, e2]) (by simp [step, e2]) ?_
        simp only [step, ne_eq, Prod.mk.injEq, true_and]
        exact e1
    | solve k =>
      obtain ⟨k1, k2, k3, k4, k5, _⟩ := solve_keeps P k m
      exact ih.other _ rfl (by simp [step, k3, given]) (by simp) k5 k4 k1 k2 (by simp)
    | iterate g => exact absurd (by simp) (hi g)
    | refreshFission =>
      obtain ⟨k1, k2, k3, k4, k5, _⟩ := refresh_keeps (K := K) P m
      exact ih.other _ rfl (by simp [step, k3, given]) (by simp) k5 k4 k1 k2 (by simp)

/-- **C103 (which problem is solved).** When `solve` answers true, the flux is what the solver last set successfully
    makes of the problem: that solver is the one asked for by the database at its set-up (discretisation) and when it
    was set (multigroup solver), and its external source is the sum of exactly the sources handed over before it was
    set, null pointers aside. -/
theorem C103_problem (P : Phys K Src E Dn) (one : K) (db : Db) (dim : Nat) (mu fi : Bool)
    (h : List (Call K Src)) (hi : ∀ g, .iterate g ∉ h) (k : K) :
    let t := trace P one (db, Mgr.fresh P dim mu fi) h
    (step P one t.2 (.solve k)).1 = .flag true →
    ∃ a b kind c d', t.1 = a ++ (.setSolver, .flag true) :: b ∧
      (∀ e ∈ b, e ≠ (.setup, .unit) ∧ e ≠ (.setSolver, .flag true)) ∧
      a.map Prod.fst = c ++ .setup :: d' ∧ (.setup ∉ d') ∧
      Asked (dbAfter db c) (dbAfter db (a.map Prod.fst)) kind ∧
      (step P one t.2 (.solve k)).2.2.phi = P.run kind t.2.2.multiply k
        (((given (a.map Prod.fst)).map P.src).sum +
          (if t.2.2.fobj ∧ t.2.2.multiply = false then t.2.2.fsrc else 0)) t.2.2.phi := by
  have kn := known P one db dim mu fi h hi
  simp only at kn ⊢
  generalize trace P one (db, Mgr.fresh P dim mu fi) h = t at kn ⊢
  obtain ⟨tr, d, m⟩ := t
  simp only at kn ⊢
  intro hs
  have hr : m.ready = true := by
    by_contra hne
    rw [Bool.not_eq_true] at hne
    simp [step, Mgr.solve, hne] at hs
  obtain ⟨a, b, s, c, d', f1, f2, f3, f4, f5, f6, f7⟩ := kn.solver hr
  refine ⟨a, b, s.kind, c, d', f1, f2, f5, f6, f7, ?_⟩
  simp [step, Mgr.solve, Mgr.runSolver, hr, f3, Mgr.fixedSource, f4]

theorem setup_phi (P : Phys K Src E Dn) (db : Db) (m : Mgr Src E Dn) (h : (m.setup P db : Ret K × Mgr Src E Dn).1 = .unit) :
    (m.setup P db : Ret K × Mgr Src E Dn).2.phi = 0 ∧
    (m.setup P db : Ret K × Mgr Src E Dn).2.fobj = (m.fobj || m.fission) ∧
    (m.fission = true → (m.setup P db : Ret K × Mgr Src E Dn).2.dens = P.zeroD ∧
      (m.setup P db : Ret K × Mgr Src E Dn).2.fsrc = 0) := by
  have e : ∃ d q b, (m.setup P db : Ret K × Mgr Src E Dn).2 = { m with
      disc := d, quad := q, bnd := b, phi := 0, fobj := m.fobj || m.fission
      dens := if m.fission then P.zeroD else m.dens, fsrc := if m.fission then 0 else m.fsrc
      isSetup := true, ready := false, epoch := m.epoch + 1 } := by
    unfold Mgr.setup at h ⊢
    by_cases h1 : discOf db ≠ .diff ∧ db.quadOk = false
    · simp [h1] at h
    · by_cases h2 : discOf db = .sn ∧ db.bcOk = false
      · simp [h2] at h
        simp [h2] at h1
        rw [h1] at h
        cases h
      · simp only [h1, h2, if_false]
        exact ⟨_, _, _, rfl⟩
  obtain ⟨d, q, b, e⟩ := e
  rw [e]
  refine ⟨rfl, rfl, fun hf => ?_⟩
  simp [hf]

/-- The kind of problem never changes, and there is a fission source only if it was asked for. -/
theorem flags_inv (P : Phys K Src E Dn) (one : K) (db : Db) (dim : Nat) (mu fi : Bool) (h : List (Call K Src)) :
    let m := (trace P one (db, Mgr.fresh P dim mu fi) h).2.2
    m.fission = (mu || fi) ∧ m.multiply = mu ∧ m.dim = dim ∧ (m.fobj = true → (mu || fi) = true) := by
  have setS : ∀ (d : Db) (m : Mgr Src E Dn), (m.setSolver d : Ret K × Mgr Src E Dn).2.fission = m.fission ∧
      (m.setSolver d : Ret K × Mgr Src E Dn).2.multiply = m.multiply ∧
      (m.setSolver d : Ret K × Mgr Src E Dn).2.dim = m.dim ∧ (m.setSolver d : Ret K × Mgr Src E Dn).2.fobj = m.fobj := by
    intro d m
    unfold Mgr.setSolver
    split
    · simp
    · split
      · simp
      · split
        · simp
        · split <;> simp
  induction h using List.reverseRecOn with
  | nil => simp [trace, Mgr.fresh]
  | append_singleton h c ih =>
    simp only at ih ⊢
    rw [trace_snoc]
    generalize trace P one (db, Mgr.fresh P dim mu fi) h = t at ih ⊢
    obtain ⟨tr, d, m⟩ := t
    simp only at ih ⊢
    cases c with
    | put db' => exact ih
    | setup =>
      simp only [step]
      have e : (m.setup P d : Ret K × Mgr Src E Dn).2.fission = m.fission ∧
          (m.setup P d : Ret K × Mgr Src E Dn).2.multiply = m.multiply ∧
          (m.setup P d : Ret K × Mgr Src E Dn).2.dim = m.dim ∧
          ((m.setup P d : Ret K × Mgr Src E Dn).2.fobj = m.fobj ∨
            (m.setup P d : Ret K × Mgr Src E Dn).2.fobj = (m.fobj || m.fission)) := by
        unfold Mgr.setup
        dsimp only
        by_cases h1 : discOf d ≠ .diff ∧ d.quadOk = false
        · rw [if_pos h1]
          exact ⟨rfl, rfl, rfl, Or.inl rfl⟩
        · rw [if_neg h1]
          by_cases h2 : discOf d = .sn ∧ d.bcOk = false
          · rw [if_pos h2]
            exact ⟨rfl, rfl, rfl, Or.inl rfl⟩
          · rw [if_neg h2]
            exact ⟨rfl, rfl, rfl, Or.inr rfl⟩
      obtain ⟨e1, e2, e3, e4⟩ := e
      rw [e1, e2, e3]
      refine ⟨ih.1, ih.2.1, ih.2.2.1, fun hf => ?_⟩
      rcases e4 with e4 | e4
      · exact ih.2.2.2 (by rw [← e4]; exact hf)
      · rw [e4, ih.1] at hf
        rcases Bool.or_eq_true_iff.1 hf with h | h
        · exact ih.2.2.2 h
        · exact h
    | setSource q => cases q <;> exact ih
    | setSolver =>
      obtain ⟨a, b, c, e⟩ := setS d m
      simp only [step]
      rw [a, b, c, e]
      exact ih
    | solve k =>
      simp only [step]
      unfold Mgr.solve Mgr.runSolver
      split
      · exact ih
      · cases m.solver <;> exact ih
    | iterate g =>
      simp only [step]
      unfold Mgr.iterate Mgr.runSolver
      split
      · exact ih
      · split
        · cases hs : m.solver with
          | none => exact ih
          | some s =>
            simp only [Option.map_some]
            obtain ⟨a, b, c, e⟩ := setS d { m with phi := P.run s.kind m.multiply one (m.fixedSource P s) m.phi, sources := [], solver := some s }
            split
            · rename_i m3 hm
              rw [hm] at a b c e
              simp only at a b c e ⊢
              rw [a, b, c, e]
              exact ih
            · rename_i m3 _ hm
              rw [hm] at a b c e
              simp only at a b c e ⊢
              rw [a, b, c, e]
              exact ih
        · cases m.solver <;> exact ih
    | refreshFission =>
      simp only [step]
      unfold Mgr.refreshFission
      split <;> exact ih

/-- **C103 (a clean start).** Whatever the client did before, after a completed `setup` the flux is zero; there is a
    fission source exactly if the manager was made for a multiplying problem or with fission, and it is zero: asking for
    it is defined in these cases. -/
theorem C103_clean (P : Phys K Src E Dn) (one : K) (db : Db) (dim : Nat) (mu fi : Bool) (h : List (Call K Src)) :
    let t := (trace P one (db, Mgr.fresh P dim mu fi) h).2
    let s := step P one t .setup
    s.1 = .unit → s.2.2.phi = 0 ∧ (mu || fi → s.2.2.fsrc = 0 ∧ s.2.2.dens = P.zeroD) ∧
      ((step P one s.2 .refreshFission).1 = .unit ↔ (mu || fi) = true) := by
  obtain ⟨h1, -, -, h4⟩ := flags_inv P one db dim mu fi h
  simp only at h1 h4 ⊢
  generalize (trace P one (db, Mgr.fresh P dim mu fi) h).2 = t at h1 h4 ⊢
  obtain ⟨d, m⟩ := t
  simp only at h1 h4 ⊢
  intro hs
  obtain ⟨p1, p2, p3⟩ := setup_phi P d m hs
  refine ⟨p1, fun hf => ⟨(p3 (by rw [h1]; exact hf)).2, (p3 (by rw [h1]; exact hf)).1⟩, ?_⟩
  show ((m.setup P d : Ret K × Mgr Src E Dn).2.refreshFission P : Ret K × Mgr Src E Dn).1 = .unit ↔ _
  unfold Mgr.refreshFission
  rw [p2, h1]
  constructor
  · intro hu
    by_contra hne
    rw [Bool.not_eq_true] at hne
    have : m.fobj = false := by
      by_contra hf
      rw [Bool.not_eq_false] at hf
      rw [h4 hf] at hne
      cases hne
    rw [hne, this] at hu
    cases hu
  · intro hf
    rw [hf, Bool.or_true]
    rfl

/-- **C103 (options).** After a completed `setup`, and with the database left alone, `set_solver` answers true for the
    combinations of options supported, false exactly for an unknown multigroup transport solver, and throws for the
    rest; the solver then sweeps with the equation named (diamond difference by default), refers to the objects of this
    set-up and has a boundary of its own kind. -/
theorem C103_options (P : Phys K Src E Dn) (db : Db) (m : Mgr Src E Dn) (hs : (m.setup P db).1 = .unit) :
    let r := ((m.setup P db).2.setSolver db : Ret K × Mgr Src E Dn)
    let e := db.equation.getD "dd"
    (r.1 = .flag true ↔ e = "diffusion" ∨
      (db.outer.getD "GS" ∈ ["GS", "CMFD", "GMRES"] ∧ db.inner.getD "SI" ∈ ["SI", "GMRES"] ∧
        (e = "dd" ∨ m.dim ≤ 2 ∧ (e = "sc" ∨ e = "sd")))) ∧
    (r.1 = .flag false ↔ e ≠ "diffusion" ∧ db.outer.getD "GS" ∉ ["GS", "CMFD", "GMRES"]) ∧
    (r.1 = .flag true ∨ r.1 = .flag false ∨ r.1 = .threw) ∧
    (r.1 = .flag true → ∃ s, r.2.solver = some s ∧ s.eqn = e ∧ s.epoch = m.epoch + 1 ∧
      s.bnd = some (if s.kind = .diffusion then Bnd.diffusion else Bnd.sn)) := by
  have hset : (m.setup P db).2.isSetup = true := by
    rcases setup_cases P db m with h | h
    · exact h.2.2
    · rw [h.1] at hs; cases hs
  have hbnd : (m.setup P db).2.epoch = m.epoch + 1 ∧
      (m.setup P db).2.bnd = some (if discOf db = .sn then Bnd.sn else Bnd.diffusion) := by
    revert hs
    unfold Mgr.setup
    simp only
    repeat' (first | split)
    all_goals simp_all
  obtain ⟨_, _, hdisc, hdim, _⟩ := setup_keeps P db m
  generalize (m.setup P db).2 = m1 at *
  simp only
  have hdd : discOf db = .diff ↔ db.equation.getD "dd" = "diffusion" := by
    rw [discOf_diff]; cases db.equation <;> simp
  have hok : ∀ k, outerKind (db.outer.getD "GS") = some k → k ≠ .diffusion := by
    intro k; unfold outerKind; repeat' (first | split)
    all_goals (rintro ⟨⟩; try simp)
  have hout : outerKind (db.outer.getD "GS") = none ↔ db.outer.getD "GS" ∉ ["GS", "CMFD", "GMRES"] := by
    unfold outerKind; repeat' (first | split)
    all_goals simp_all
  by_cases hd : discOf db = .diff
  · have e1 := hdd.1 hd
    have : (m1.setSolver db : Ret K × Mgr Src E Dn) =
        (.flag true, { m1 with solver := some ⟨.diffusion, "diffusion", m1.sources, m1.epoch, m1.bnd⟩, ready := true }) := by
      unfold Mgr.setSolver
      rw [if_neg (by simp [hset]), if_pos (by rw [hdisc, hd])]
    rw [this]
    simp [e1, hbnd.1, hbnd.2, hd]
  · have e1 : db.equation.getD "dd" ≠ "diffusion" := fun h => hd (hdd.2 h)
    cases hk : outerKind (db.outer.getD "GS") with
    | none =>
      have e2 := hout.1 hk
      have : (m1.setSolver db : Ret K × Mgr Src E Dn) = (.flag false, m1) := by
        unfold Mgr.setSolver
        rw [if_neg (by simp [hset]), if_neg (by rw [hdisc]; exact hd), hk]
      rw [this]
      simp only [e1, e2, false_and, or_false, ne_eq, not_false_eq_true, and_self]
      simp
    | some k =>
      have e2 : db.outer.getD "GS" ∈ ["GS", "CMFD", "GMRES"] := by
        by_contra h; rw [← hout, hk] at h; cases h
      have ht : transportThrows db m1.dim = false ↔ (db.inner.getD "SI" ∈ ["SI", "GMRES"] ∧
          (db.equation.getD "dd" = "dd" ∨ m.dim ≤ 2 ∧ (db.equation.getD "dd" = "sc" ∨ db.equation.getD "dd" = "sd"))) := by
        unfold transportThrows sweepable
        rw [hdim]
        simp
        tauto
      by_cases htt : transportThrows db m1.dim = false
      · have : (m1.setSolver db : Ret K × Mgr Src E Dn) = (.flag true,
            { m1 with solver := some ⟨k, db.equation.getD "dd", m1.sources, m1.epoch, m1.bnd⟩, ready := true }) := by
          unfold Mgr.setSolver
          rw [if_neg (by simp [hset]), if_neg (by rw [hdisc]; exact hd), hk]
          simp [htt]
        rw [this]
        have h3 := ht.1 htt
        simp only [e1, e2, h3, ne_eq, not_false_eq_true, true_and, false_or, not_true_eq_false, and_false]
        refine ⟨by simp, by simp, fun _ => ⟨_, rfl, rfl, hbnd.1, ?_⟩⟩
        simp only [hok k hk, if_false, hbnd.2]
        have : discOf db = .sn := by
          have h4 := h3.2
          unfold discOf
          rcases h4 with h | ⟨_, h | h⟩ <;> simp [h]
        simp [this]
      · have : (m1.setSolver db : Ret K × Mgr Src E Dn) = (.threw, m1) := by
          unfold Mgr.setSolver
          rw [if_neg (by simp [hset]), if_neg (by rw [hdisc]; exact hd), hk]
          simp [htt]
        rw [this]
        rw [ht] at htt
        simp only [e1, e2, ne_eq, not_false_eq_true, true_and, false_or, not_true_eq_false, and_false, htt]
        simp

end machine

/-- **C103, full statement.** `solve` answers true only when the latest `set_solver` did. -/
def C103Claim : Prop :=
  ∀ (P : Phys ℚ ℚ ℚ ℚ) (db : Db) (h : List (Call ℚ ℚ)) (k : ℚ),
    let t := trace P 1 (db, Mgr.fresh P 1 false false) h
    (step P 1 t.2 (.solve k)).1 = .flag true →
    ∃ a b, t.1 = a ++ (.setSolver, .flag true) :: b ∧ ∀ e ∈ b, e.1 ≠ .setSolver

/-- Numbers for the examples: sources, fluxes and densities are rationals, a solve returns its source. -/
def demoPhys : Phys ℚ ℚ ℚ ℚ where
  src := id
  zeroD := 0
  density := id
  emit := id
  run := fun _ _ _ q _ => q
  dist := fun a b => |a - b|

def demoDb : Db := ⟨none, none, none, none, true, true⟩

/-- A client sets a Gauss-Seidel solver, asks for one that does not exist, is told no, and solves. -/
def demoCalls : List (Call ℚ ℚ) :=
  [.setup, .setSource none, .setSource (some 3), .setSolver, .put { demoDb with outer := some "SOR" }, .setSolver]

theorem demo_trace : (trace demoPhys 1 (demoDb, Mgr.fresh demoPhys 1 false false) demoCalls).1 =
    [(.setup, .unit), (.setSource none, .unit), (.setSource (some 3), .unit), (.setSolver, .flag true),
      (.put { demoDb with outer := some "SOR" }, .unit), (.setSolver, .flag false)] := by
  rfl

/-- The full statement fails: a refused `set_solver` leaves the old solver in force, and `solve` runs it. -/
theorem C103_claim_fails : ¬ C103Claim := by
  intro h
  obtain ⟨a, b, h1, h2⟩ := h demoPhys demoDb demoCalls 1 (by rfl)
  rw [demo_trace] at h1
  rcases List.eq_nil_or_concat b with rfl | ⟨b', x, rfl⟩
  · have := congrArg List.getLast? h1
    simp at this
  · rw [List.concat_eq_append, ← List.cons_append, ← List.append_assoc] at h1
    have e := congrArg List.getLast? h1
    simp only [List.getLast?_append, List.getLast?_singleton, Option.some_or] at e
    have hx := h2 x (by simp)
    simp at e
    rw [← e] at hx
    exact hx rfl

-- the hypotheses of `C103_problem` and `C103_options` are met by this client
example : (∀ g, Call.iterate g ∉ demoCalls) ∧
    (step demoPhys 1 (trace demoPhys 1 (demoDb, Mgr.fresh demoPhys 1 false false) demoCalls).2 (.solve 1)).1 = .flag true ∧
    (step demoPhys 1 (trace demoPhys 1 (demoDb, Mgr.fresh demoPhys 1 false false) demoCalls).2 (.solve 1)).2.2.phi = 3 := by
  refine ⟨by simp [demoCalls], rfl, ?_⟩
  decide +kernel

example : ((Mgr.fresh demoPhys 3 false false).setup demoPhys demoDb).1 = .unit := rfl

/-! ## C104: fission generations -/

section generations
variable [Field K] [AddCommGroup E] [Module K E] [AddCommGroup Dn] [Module K Dn]

/-- A manager ready for a generation series: a solver is set, fission is explicit, the fission source is the fresh one
    of the set-up, and the options still allow a solver. -/
structure Mgr.Start (db : Db) (m : Mgr Src E Dn) (s : Solver Src) : Prop where
  ready : m.ready = true
  fobj : m.fobj = true
  explicit : m.multiply = false
  solver : m.solver = some s
  cold : m.fsrc = 0
  ok : (m.setSolver db : Ret K × Mgr Src E Dn).1 = .flag true

/-- Exact solves of a linear problem, linear fission: `S` is the inverse of the transport operator, `D` the fission
    density, `X` the emission. -/
structure Phys.Exact (P : Phys K Src E Dn) (S : E →ₗ[K] E) (D : E →ₗ[K] Dn) (X : Dn →ₗ[K] E) : Prop where
  run : ∀ kind q phi, P.run kind false 1 q phi = S q
  density : ∀ phi, P.density phi = D phi
  emit : ∀ d, P.emit d = X d

/-- `iterate(0), …, iterate(n)`. -/
def Mgr.generations (P : Phys K Src E Dn) (db : Db) (m : Mgr Src E Dn) : Nat → Mgr Src E Dn
  | 0 => (m.iterate P 1 db 0).2
  | n + 1 => ((m.generations P db n).iterate P 1 db (n + 1 : Nat)).2

/-- The same with the client refreshing the fission source before every generation but the first. -/
def Mgr.generationsRefreshed (P : Phys K Src E Dn) (db : Db) (m : Mgr Src E Dn) : Nat → Mgr Src E Dn
  | 0 => (m.iterate P 1 db 0).2
  | n + 1 => ((((m.generationsRefreshed P db n).refreshFission P : Ret K × Mgr Src E Dn).2).iterate P 1 db
      (n + 1 : Nat)).2

/-- The flux after `n` fissions, as the documentation has it: `φ₀ = S q`, `φₙ₊₁ = S F φₙ`. -/
def genFlux (S : E →ₗ[K] E) (F : E →ₗ[K] E) (q : E) (n : Nat) : E := ((S ∘ₗ F) ^ n) (S q)

/-- **C104, full statement.** After `iterate(n)` the state holds the flux of the n-th fission generation. -/
def C104Claim (K : Type) [Field K] : Prop :=
  ∀ (P : Phys K K K K) (S D X : K →ₗ[K] K), P.Exact S D X → ∀ (db : Db) (m : Mgr K K K) (s : Solver K),
    Mgr.Start (K := K) db m s → ∀ n, (m.generations P db n).phi = genFlux S (X ∘ₗ D) ((s.sources.map P.src).sum) n

/-- What holds after generation zero. -/
structure Mgr.Going (m : Mgr Src E Dn) : Prop where
  ready : m.ready = true
  fobj : m.fobj = true
  explicit : m.multiply = false
  solver : ∃ s, m.solver = some s ∧ s.sources = []

theorem gen_zero (P : Phys K Src E Dn) {S : E →ₗ[K] E} {D : E →ₗ[K] Dn} {X : Dn →ₗ[K] E} (ex : P.Exact S D X) (db : Db)
    (m : Mgr Src E Dn) (s : Solver Src) (st : Mgr.Start (K := K) db m s) :
    (m.iterate P 1 db 0).2.phi = S ((s.sources.map P.src).sum) ∧ (m.iterate P 1 db 0).2.fsrc = 0 ∧
    (m.iterate P 1 db 0).2.Going := by
  have hok := st.ok
  have hset : m.isSetup = true := by
    by_contra hne
    rw [Bool.not_eq_true] at hne
    simp [Mgr.setSolver, hne] at hok
  unfold Mgr.iterate
  rw [if_neg (by simp [st.ready, st.fobj]), if_pos rfl]
  simp only [Mgr.runSolver, st.solver, Option.map_some]
  have hphi : P.run s.kind m.multiply 1 (m.fixedSource P s) m.phi = S ((s.sources.map P.src).sum) := by
    rw [st.explicit, ex.run, Mgr.fixedSource, if_pos ⟨st.fobj, st.explicit⟩, st.cold, add_zero]
  rw [hphi]
  unfold Mgr.setSolver at hok ⊢
  simp only [hset] at hok ⊢
  by_cases hd : m.disc = .diff
  · simp only [hd]
    exact ⟨rfl, st.cold, ⟨rfl, st.fobj, st.explicit, _, rfl, rfl⟩⟩
  · simp only [hd] at hok ⊢
    cases ho : outerKind (db.outer.getD "GS") with
    | none => simp [ho] at hok
    | some k =>
      simp only [ho] at hok ⊢
      by_cases ht : transportThrows db m.dim = true
      · simp [ht] at hok
      · simp only [ht]
        exact ⟨rfl, st.cold, ⟨rfl, st.fobj, st.explicit, _, rfl, rfl⟩⟩

theorem gen_succ (P : Phys K Src E Dn) {S : E →ₗ[K] E} {D : E →ₗ[K] Dn} {X : Dn →ₗ[K] E} (ex : P.Exact S D X) (db : Db)
    (m : Mgr Src E Dn) (go : m.Going) (n : Nat) :
    (m.iterate P 1 db (n + 1 : Nat)).2.phi = S m.fsrc ∧ (m.iterate P 1 db (n + 1 : Nat)).2.fsrc = m.fsrc ∧
    (m.iterate P 1 db (n + 1 : Nat)).2.Going := by
  obtain ⟨s, hs, he⟩ := go.solver
  have hn : ((n + 1 : Nat) : Int) ≠ 0 := by omega
  unfold Mgr.iterate
  rw [if_neg (by simp [go.ready, go.fobj]), if_neg hn]
  simp only [Mgr.runSolver, hs, Option.map_some]
  refine ⟨?_, trivial, ⟨go.ready, go.fobj, go.explicit, s, rfl, he⟩⟩
  simp only [go.explicit, ex.run, Mgr.fixedSource, he, List.map_nil, List.sum_nil, zero_add, go.fobj]
  simp

theorem refresh_going (P : Phys K Src E Dn) {S : E →ₗ[K] E} {D : E →ₗ[K] Dn} {X : Dn →ₗ[K] E} (ex : P.Exact S D X)
    (m : Mgr Src E Dn) (go : m.Going) :
    (m.refreshFission P : Ret K × Mgr Src E Dn).2.Going ∧
    (m.refreshFission P : Ret K × Mgr Src E Dn).2.fsrc = X (D m.phi) := by
  unfold Mgr.refreshFission
  rw [if_neg (by simp [go.fobj])]
  exact ⟨⟨go.ready, go.fobj, go.explicit, go.solver⟩, by simp [ex.emit, ex.density]⟩

/-- **C104 (generation zero), partial.** `iterate(0)` gives the flux of the external sources alone: what is missing is
    every later generation. -/
theorem C104_direct_partial (P : Phys K Src E Dn) {S : E →ₗ[K] E} {D : E →ₗ[K] Dn} {X : Dn →ₗ[K] E}
    (ex : P.Exact S D X) (db : Db) (m : Mgr Src E Dn) (s : Solver Src) (st : Mgr.Start (K := K) db m s) :
    (m.generations P db 0).phi = genFlux S (X ∘ₗ D) ((s.sources.map P.src).sum) 0 :=
  (gen_zero P ex db m s st).1

/-- **C104 (later generations).** `iterate` updates the fission density but never rebuilds the group sources from it, so
    every generation after the first is zero, whatever the fission. -/
theorem C104_vanish (P : Phys K Src E Dn) {S : E →ₗ[K] E} {D : E →ₗ[K] Dn} {X : Dn →ₗ[K] E}
    (ex : P.Exact S D X) (db : Db) (m : Mgr Src E Dn) (s : Solver Src) (st : Mgr.Start (K := K) db m s) (n : Nat) :
    (m.generations P db (n + 1)).phi = 0 := by
  have key : ∀ n, (m.generations P db n).fsrc = 0 ∧ (m.generations P db n).Going := by
    intro n
    induction n with
    | zero => exact (gen_zero P ex db m s st).2
    | succ n ih =>
      obtain ⟨_, h2, h3⟩ := gen_succ P ex db _ ih.2 n
      exact ⟨h2.trans ih.1, h3⟩
  have := (gen_succ P ex db _ (key n).2 n).1
  rw [(key n).1, map_zero] at this
  exact this

/-- **C104 (first guess).** Each generation after the first starts from a zero flux, and reports how far its flux is
    from that of the generation before. -/
theorem C104_guess (P : Phys K Src E Dn) (db : Db) (m : Mgr Src E Dn) (g : Int) (hg : g ≠ 0) (hr : m.ready = true)
    (hf : m.fobj = true) (s : Solver Src) (hs : m.solver = some s) (one : K) :
    (m.iterate P one db g).2.phi = P.run s.kind m.multiply one (m.fixedSource P s) 0 ∧
    (m.iterate P one db g).1 = .value (P.dist (m.iterate P one db g).2.phi m.phi) := by
  have e : m.iterate P one db g =
      (.value (P.dist (P.run s.kind m.multiply one (m.fixedSource P s) 0) m.phi),
        { m with dens := P.density m.phi, phi := P.run s.kind m.multiply one (m.fixedSource P s) 0 }) := by
    unfold Mgr.iterate
    rw [if_neg (by simp [hr, hf]), if_neg hg]
    simp only [Mgr.runSolver, hs, Option.map_some]
    rfl
  rw [e]
  exact ⟨rfl, rfl⟩

/-- **C104 (with the client's help).** When the client rebuilds the fission source from the state before every
    generation, the state holds the flux of each fission generation, as documented. -/
theorem C104_refreshed (P : Phys K Src E Dn) {S : E →ₗ[K] E} {D : E →ₗ[K] Dn} {X : Dn →ₗ[K] E}
    (ex : P.Exact S D X) (db : Db) (m : Mgr Src E Dn) (s : Solver Src) (st : Mgr.Start (K := K) db m s) (n : Nat) :
    (m.generationsRefreshed P db n).phi = genFlux S (X ∘ₗ D) ((s.sources.map P.src).sum) n := by
  have key : ∀ n, (m.generationsRefreshed P db n).phi = genFlux S (X ∘ₗ D) ((s.sources.map P.src).sum) n ∧
      (m.generationsRefreshed P db n).Going := by
    intro n
    induction n with
    | zero => exact ⟨(gen_zero P ex db m s st).1, (gen_zero P ex db m s st).2.2⟩
    | succ n ih =>
      obtain ⟨i1, i2⟩ := ih
      obtain ⟨g1, g2⟩ := refresh_going P ex _ i2
      obtain ⟨h1, _, h3⟩ := gen_succ P ex db _ g1 n
      refine ⟨?_, h3⟩
      rw [Mgr.generationsRefreshed, h1, g2, i1]
      unfold genFlux
      rw [pow_succ']
      rfl
  exact (key n).1

/-- **C104 (the series).** The sum of the generations weighted by powers of `1/k` solves the fixed-source problem with
    fission divided by `k`, up to the fission of the last generation kept. -/
theorem C104_series (T S F : E →ₗ[K] E) (hT : ∀ q, T (S q) = q) (q : E) (k : K) (hk : k ≠ 0) (n : Nat) :
    let sum := ∑ i ∈ Finset.range (n + 1), (1 / k) ^ i • genFlux S F q i
    T sum = q + (1 / k) • F sum - (1 / k) ^ (n + 1) • F (genFlux S F q n) := by
  have hstep : ∀ i, T (genFlux S F q (i + 1)) = F (genFlux S F q i) := by
    intro i
    unfold genFlux
    rw [pow_succ']
    exact hT _
  simp only
  induction n with
  | zero => simp [genFlux, hT]
  | succ n ih =>
    rw [Finset.sum_range_succ, map_add, ih, map_smul, hstep, map_add, map_smul, smul_add, smul_smul, ← pow_succ']
    abel

end generations

def demoMgr : Mgr ℚ ℚ ℚ :=
  (trace demoPhys 1 (demoDb, Mgr.fresh demoPhys 1 false true)
    [.setup, .setSource (some 3), .setSolver]).2.2

theorem demoMgr_start : Mgr.Start (K := ℚ) demoDb demoMgr ⟨.gs, "dd", [3], 1, some .sn⟩ :=
  ⟨rfl, rfl, rfl, rfl, rfl, rfl⟩

theorem demoPhys_exact : demoPhys.Exact (LinearMap.id : ℚ →ₗ[ℚ] ℚ) LinearMap.id LinearMap.id :=
  ⟨fun _ _ _ => rfl, fun _ => rfl, fun _ => rfl⟩

/-- The full statement fails: every neutron makes another one, and yet generation one is zero. -/
theorem C104_claim_fails : ¬ C104Claim ℚ := by
  intro h
  have h1 := h demoPhys _ _ _ demoPhys_exact demoDb demoMgr _ demoMgr_start 1
  rw [C104_vanish demoPhys demoPhys_exact demoDb demoMgr _ demoMgr_start 0] at h1
  simp [genFlux, demoPhys] at h1

-- the refreshed series of the same manager
example : (demoMgr.generationsRefreshed demoPhys demoDb 4).phi = 3 := by decide +kernel

/-! ## C105: the eigenvalue manager -/

/-- **C105 (choice).** `solve` answers true exactly for the eigenvalue solvers that exist and fit the discretisation, and
    then runs the one named; power iteration is the default. -/
theorem C105_choice (db : Db) (d : Disc) (k : EKind) :
    eigenChoice db d = some k ↔
      (k = .pi ∧ (db.eigen = none ∨ db.eigen = some "PI")) ∨
      (k = .diffusion ∧ db.eigen = some "diffusion" ∧ d = .diff) ∨
      (k = .arnoldi ∧ db.eigen = some "arnoldi") ∨
      (k = .cmfd ∧ db.eigen = some "cmfd") ∨
      (k = .gd ∧ db.eigen = some "GD" ∧ d ≠ .diff) := by
  unfold eigenChoice
  cases h : db.eigen with
  | none => simp [eq_comm]
  | some n =>
    simp only [Option.getD_some, Option.some.injEq]
    by_cases h1 : n = "PI"
    · subst h1; simp [eq_comm]
    · rw [if_neg h1]
      by_cases h2 : n = "diffusion"
      · subst h2
        by_cases hd : d = .diff <;> simp [hd, eq_comm]
      · rw [if_neg h2]
        by_cases h3 : n = "arnoldi"
        · subst h3; simp [eq_comm]
        · rw [if_neg h3]
          by_cases h4 : n = "cmfd"
          · subst h4; simp [eq_comm]
          · rw [if_neg h4]
            by_cases h5 : n = "GD"
            · subst h5
              by_cases hd : d = .diff <;> simp [hd, eq_comm]
            · rw [if_neg h5]
              simp [h1, h2, h3, h4, h5]

section eigen
variable [AddCommMonoid E]

/-- **C105 (construction).** Construction ends with an exception exactly when the quadrature, the boundary options, the
    inner solver or the equation are not accepted; otherwise the manager has a multigroup solver to call on, except when
    the name of that solver is unknown. -/
theorem C105_construct (P : Phys K Src E Dn) (db : Db) (dim : Nat) (m : Mgr Src E Dn)
    (h : eigenManager P db dim = some m) :
    m.disc = discOf db ∧
    (m.ready = true ↔ db.equation = some "diffusion" ∨ db.outer.getD "GS" ∈ ["GS", "CMFD", "GMRES"]) := by
  unfold eigenManager at h
  rcases setup_cases P db (Mgr.fresh P dim false true) with ⟨e1, e2, e3⟩ | ⟨e1, _, _⟩
  · obtain ⟨_, _, k3, _⟩ := setup_keeps P db (Mgr.fresh P dim false true)
    obtain ⟨o1, o2, o3, _⟩ := C103_options P db (Mgr.fresh P dim false true) e1
    generalize (Mgr.fresh P dim false true).setup P db = r at *
    obtain ⟨r1, m1⟩ := r
    simp only at e1 e2 e3 k3 o1 o2 o3 h
    subst e1
    simp only at h
    have kd := (setSolver_keeps (K := K) db m1).2.1
    have kc := setSolver_cases (K := K) db m1
    generalize (m1.setSolver db : Ret K × Mgr Src E Dn) = r at *
    obtain ⟨r1, m2⟩ := r
    simp only at kd kc o1 o2 o3 h
    have hdd : db.equation.getD "dd" = "diffusion" ↔ db.equation = some "diffusion" := by
      cases db.equation <;> simp
    rcases kc with ⟨c1, c2, _⟩ | ⟨c1, c2⟩
    · subst c1
      simp only [Option.some.injEq] at h
      subst h
      refine ⟨kd.trans k3, iff_of_true c2 ?_⟩
      rcases o1.1 rfl with h | h
      · exact Or.inl (hdd.1 h)
      · exact Or.inr h.1
    · rcases o3 with h3 | h3 | h3
      · exact absurd h3 c1
      · subst h3
        simp only [Option.some.injEq] at h
        subst h
        obtain ⟨n1, n2⟩ := o2.1 rfl
        refine ⟨kd.trans k3, iff_of_false (by rw [c2, e2]; simp) ?_⟩
        rintro (h | h)
        · exact n1 (hdd.2 h)
        · exact n2 h
      · subst h3; simp at h
  · generalize (Mgr.fresh P dim false true).setup P db = r at *
    obtain ⟨r1, m1⟩ := r
    simp only at e1
    subst e1
    simp at h

end eigen

/-- **C105, full statement.** When the manager was built and its `solve` answers true, there was a multigroup solver to
    solve with. -/
def C105Claim : Prop :=
  ∀ (P : Phys ℚ ℚ ℚ ℚ) (db : Db) (dim : Nat) (m : Mgr ℚ ℚ ℚ), eigenManager P db dim = some m →
    eigenReturns db m.disc = true → m.ready = true

/-- **C105 (with a known solver).** What is missing: an unknown name for the multigroup solver. -/
theorem C105_ready_partial [AddCommMonoid E] (P : Phys K Src E Dn) (db : Db) (dim : Nat) (m : Mgr Src E Dn)
    (h : eigenManager P db dim = some m)
    (ho : db.equation = some "diffusion" ∨ db.outer.getD "GS" ∈ ["GS", "CMFD", "GMRES"]) : m.ready = true :=
  (C105_construct P db dim m h).2.2 ho

/-- The full statement fails: an unknown multigroup solver is accepted, and power iteration runs without one. -/
theorem C105_claim_fails : ¬ C105Claim := by
  intro h
  have := h demoPhys { demoDb with outer := some "SOR" } 1 _ rfl rfl
  simp [demoDb, demoPhys, Mgr.fresh, discOf, Mgr.setup, Mgr.setSolver, outerKind] at this

section pi
variable [Field K] [LinearOrder K] [IsStrictOrderedRing K]
open Detran.EigenPI

/-- **C105 (without a solver).** Power iteration on a manager that skips every solve leaves the flux as it found it, for
    any number of iterations, and still stores an eigenvalue; from the zero flux of a fresh state and after a single
    iteration that eigenvalue is zero, whatever the materials. -/
theorem C105_skipped (p : PI K) (hp : p.solve = fun _ phi => phi) (phi : Nat → Nat → K) (r : Report K)
    (h : p.run phi = some r) :
    r.last.phi = phi ∧ (p.maxIt = 1 → p.omega = 1 → (∀ g c, phi g c = 0) → r.keff = 0) := by
  have hphi : ∀ n s, (p.loop n s).phi = s.phi := by
    intro n
    induction n with
    | zero => intro s; rfl
    | succ n ih =>
      intro s
      unfold PI.loop
      split
      · simp [PI.iterate, hp]
      · rw [ih]; simp [PI.iterate, hp]
  unfold PI.run at h
  simp only [Option.map_eq_some_iff] at h
  obtain ⟨e, he, rfl⟩ := h
  refine ⟨hphi _ _, ?_⟩
  intro h1 h2 h3
  have h0 : phi = fun _ _ => 0 := by funext g c; exact h3 g c
  simp only [h1, PI.loop]
  have hk : (p.iterate (p.start phi)).keff = 0 := by
    simp only [PI.iterate, PI.relaxed, h2, ne_eq, not_true_eq_false, if_false, hp, PI.start, h0]
    rw [normL1_vec]
    have : nrm p.x.N (p.x.density fun _ _ => 0) = 0 := by
      unfold nrm
      refine Finset.sum_eq_zero fun c hc => ?_
      rw [Material.C25_density p.x _ c (Finset.mem_range.1 hc)]
      simp
    rw [this]
    simp
  split <;> exact hk

-- power iteration without a solver, on the problem of the example of C56
example : (({ unitPI 1 1 with solve := fun _ phi => phi } : PI ℚ).run (fun _ _ => 0)).map Report.keff = some 0 := by
  decide +kernel

example : eigenManager demoPhys { demoDb with equation := some "diffusion", eigen := some "diffusion" } 2 ≠ none ∧
    eigenReturns { demoDb with eigen := some "diffusion" } .diff = true ∧
    eigenReturns { demoDb with eigen := some "diffusion" } .sn = false := by
  decide +kernel

end pi

end Detran.Managers
