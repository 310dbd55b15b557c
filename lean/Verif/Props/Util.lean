import Verif.Lemmas.Util
import Mathlib.Tactic.Ring
import Mathlib.Tactic.Linarith
import Mathlib.Tactic.FieldSimp
import Mathlib.Data.List.Sort
import Mathlib.Algebra.BigOperators.Group.List.Basic
import Mathlib.Analysis.Real.Sqrt

/-!
# Properties C05, C06, C07, C20, C60
-/

namespace Detran.Util

/-! ## C07  range -/

theorem rangeLoop_length (n : Nat) (i d : Int) : (rangeLoop n i d).length = n := by
  induction n generalizing i with
  | zero => rfl
  | succ n ih => simp [rangeLoop, ih]

theorem rangeLoop_get (n : Nat) (i d : Int) (k : Nat) (h : k < n) :
    (rangeLoop n i d)[k]? = some (i + k * d) := by
  induction n generalizing i k with
  | zero => omega
  | succ n ih =>
    cases k with
    | zero => simp [rangeLoop]
    | succ k =>
      simp only [rangeLoop, List.getElem?_cons_succ]
      rw [ih _ _ (by omega)]
      push_cast; congr 1; ring

theorem mem_rangeLoop (n : Nat) (i d x : Int) :
    x ∈ rangeLoop n i d ↔ ∃ k : Nat, k < n ∧ x = i + k * d := by
  induction n generalizing i with
  | zero => simp [rangeLoop]
  | succ n ih =>
    simp only [rangeLoop, List.mem_cons, ih]
    constructor
    · rintro (h | ⟨k, hk, h⟩)
      · exact ⟨0, by omega, by simp [h]⟩
      · exact ⟨k + 1, by omega, by rw [h]; push_cast; ring⟩
    · rintro ⟨k, hk, h⟩
      cases k with
      | zero => left; simpa using h
      | succ k => right; exact ⟨k, by omega, by rw [h]; push_cast; ring⟩

theorem rangeLoop_up_sorted (n : Nat) (i : Int) : (rangeLoop n i 1).Pairwise (· < ·) := by
  induction n generalizing i with
  | zero => simp [rangeLoop]
  | succ n ih =>
    simp only [rangeLoop, List.pairwise_cons]
    refine ⟨fun x hx => ?_, ih _⟩
    obtain ⟨k, _, rfl⟩ := (mem_rangeLoop _ _ _ _).1 hx
    omega

theorem rangeLoop_down_sorted (n : Nat) (i : Int) : (rangeLoop n i (-1)).Pairwise (· > ·) := by
  induction n generalizing i with
  | zero => simp [rangeLoop]
  | succ n ih =>
    simp only [rangeLoop, List.pairwise_cons]
    refine ⟨fun x hx => ?_, ih _⟩
    obtain ⟨k, _, rfl⟩ := (mem_rangeLoop _ _ _ _).1 hx
    omega

/-- C07 (ascending): for `a < b`, `range(a,b,incl)` is the strictly increasing list of
    exactly the integers `x` with `a ≤ x < b` (or `x ≤ b` when inclusive). -/
theorem C07_range_ascending (a b : Int) (incl : Bool) (h : a < b) :
    (range a b incl).Pairwise (· < ·) ∧
    ∀ x, x ∈ range a b incl ↔ a ≤ x ∧ (if incl then x ≤ b else x < b) := by
  unfold range
  simp only [h, if_true]
  refine ⟨rangeLoop_up_sorted _ _, fun x => ?_⟩
  rw [mem_rangeLoop]
  cases incl <;> simp only [if_true, Bool.false_eq_true, if_false]
  · constructor
    · rintro ⟨k, hk, rfl⟩; omega
    · rintro ⟨h1, h2⟩; exact ⟨(x - a).toNat, by omega, by omega⟩
  · constructor
    · rintro ⟨k, hk, rfl⟩; omega
    · rintro ⟨h1, h2⟩; exact ⟨(x - a).toNat, by omega, by omega⟩

example : (range 0 4 false) = [0, 1, 2, 3] ∧ range 0 4 true = [0, 1, 2, 3, 4] := by decide

/-- C07 (descending): for `b < a` the list travels down from `a` to `b`. -/
theorem C07_range_descending (a b : Int) (incl : Bool) (h : b < a) :
    (range a b incl).Pairwise (· > ·) ∧
    ∀ x, x ∈ range a b incl ↔ x ≤ a ∧ (if incl then b ≤ x else b < x) := by
  unfold range
  simp only [show ¬ a < b by omega, if_false]
  refine ⟨rangeLoop_down_sorted _ _, fun x => ?_⟩
  rw [mem_rangeLoop]
  cases incl <;> simp only [if_true, Bool.false_eq_true, if_false]
  · constructor
    · rintro ⟨k, hk, rfl⟩; omega
    · rintro ⟨h1, h2⟩; exact ⟨(a - x).toNat, by omega, by omega⟩
  · constructor
    · rintro ⟨k, hk, rfl⟩; omega
    · rintro ⟨h1, h2⟩; exact ⟨(a - x).toNat, by omega, by omega⟩

example : range 4 0 false = [4, 3, 2, 1] := by decide

/-- C07 (degenerate): `range(a,a)` is empty, `range(a,a,true)` is `{a}`. -/
theorem C07_range_self (a : Int) : range a a false = [] ∧ range a a true = [a] := by
  constructor <;> simp [range, rangeLoop]

/-- C07: a reversed pair is *not* treated as an empty interval: for `b < a` the
    exclusive range is non-empty and starts at `a`. -/
theorem C07_range_reversed_not_empty (a b : Int) (h : b < a) :
    (range a b false).head? = some a := by
  unfold range
  obtain ⟨n, hn⟩ : ∃ n, (a - b).natAbs = n + 1 := ⟨(a - b).natAbs - 1, by omega⟩
  simp [hn, rangeLoop]

/-! ## C05  InputDB -/

/-- Specification: the last value put under type `t` and key `k` (scanning the
    history from the newest call backwards). -/
def lastPut {D : Type} (t : Ty) (k : String) : List (PutOp D) → Option (t.Val D)
  | [] => none
  | o :: older =>
      if h : o.ty = t ∧ o.key = k then some (h.1 ▸ o.val) else lastPut t k older

theorem get_put {D : Type} (b : InputDB D) (o : PutOp D) (t : Ty) (k : String) :
    (b.put o.ty o.key o.val).get t k =
      if h : o.ty = t ∧ o.key = k then some (h.1 ▸ o.val) else b.get t k := by
  obtain ⟨ty, key, val⟩ := o
  cases ty <;> cases t <;>
    simp only [InputDB.put, InputDB.get] <;>
    first
      | rfl
      | (refine (SMap.find_set _ _ _ _).trans ?_
         by_cases h : key = k <;> simp [h] <;> rfl)

/-- C05: after any history of puts, `get<T>(key)` is the value most recently put under
    that key *and that type*; `none` (undefined behaviour) exactly when there is none. -/
theorem C05_get_is_last_put {D : Type} (ops : List (PutOp D)) (t : Ty) (k : String) :
    (InputDB.run ops).get t k = lastPut t k ops.reverse := by
  unfold InputDB.run
  induction ops using List.reverseRecOn with
  | nil => cases t <;> rfl
  | append_singleton ops o ih =>
    rw [List.foldl_append, List.reverse_append]
    simp only [List.foldl_cons, List.foldl_nil, List.reverse_cons, List.reverse_nil,
      List.nil_append, List.singleton_append, lastPut]
    rw [get_put, ih]

/-- A two-type history: the same key holds an int and a double independently. -/
example : (InputDB.run (D := Nat)
      [⟨.int, "tol", (5 : Int)⟩, ⟨.dbl, "tol", (7 : Nat)⟩, ⟨.int, "tol", (6 : Int)⟩]).get .int "tol"
    = some (6 : Int) := by rfl

theorem check_iff {D : Type} (b : InputDB D) (k : String) :
    b.check k = true ↔ ∃ t, (b.get t k).isSome := by
  unfold InputDB.check
  constructor
  · intro h
    by_cases h1 : (b.dataInt.find k).isSome
    · exact ⟨.int, h1⟩
    by_cases h2 : (b.dataDbl.find k).isSome
    · exact ⟨.dbl, h2⟩
    by_cases h3 : (b.dataVecInt.find k).isSome
    · exact ⟨.vecInt, h3⟩
    by_cases h4 : (b.dataVecDbl.find k).isSome
    · exact ⟨.vecDbl, h4⟩
    by_cases h5 : (b.dataStr.find k).isSome
    · exact ⟨.str, h5⟩
    by_cases h6 : (b.dataDb.find k).isSome
    · exact ⟨.db, h6⟩
    simp [h1, h2, h3, h4, h5, h6] at h
  · rintro ⟨t, ht⟩
    cases t with
    | int => have ht : (b.dataInt.find k).isSome = true := ht; simp [ht]
    | dbl => have ht : (b.dataDbl.find k).isSome = true := ht; simp [ht]
    | vecInt => have ht : (b.dataVecInt.find k).isSome = true := ht; simp [ht]
    | vecDbl => have ht : (b.dataVecDbl.find k).isSome = true := ht; simp [ht]
    | str => have ht : (b.dataStr.find k).isSome = true := ht; simp [ht]
    | db => have ht : (b.dataDb.find k).isSome = true := ht; simp [ht]

theorem lastPut_isSome {D : Type} (t : Ty) (k : String) (ops : List (PutOp D)) :
    (lastPut t k ops).isSome ↔ ∃ o ∈ ops, o.ty = t ∧ o.key = k := by
  induction ops with
  | nil => simp [lastPut]
  | cons o ops ih =>
    simp only [lastPut]
    split
    · rename_i h; simp [h]
    · rename_i h; rw [ih]; simp [h]

/-- C05: `check(key)` holds exactly when some put used that key, whatever the type. -/
theorem C05_check_iff_put {D : Type} (ops : List (PutOp D)) (k : String) :
    (InputDB.run ops).check k = true ↔ ∃ o ∈ ops, o.key = k := by
  rw [check_iff]
  constructor
  · rintro ⟨t, ht⟩
    rw [C05_get_is_last_put, lastPut_isSome] at ht
    obtain ⟨o, ho, _, hk⟩ := ht
    exact ⟨o, by simpa using ho, hk⟩
  · rintro ⟨o, ho, hk⟩
    refine ⟨o.ty, ?_⟩
    rw [C05_get_is_last_put, lastPut_isSome]
    exact ⟨o, by simpa using ho, rfl, hk⟩

/-- C05: a put never disturbs another (type, key) pair. -/
theorem C05_put_isolated {D : Type} (b : InputDB D) (o : PutOp D) (t : Ty) (k : String)
    (h : o.ty ≠ t ∨ o.key ≠ k) : (b.put o.ty o.key o.val).get t k = b.get t k := by
  rw [get_put, dif_neg]
  rintro ⟨h1, h2⟩
  rcases h with h | h
  · exact h h1
  · exact h h2

example : (⟨.int, "a", (1 : Int)⟩ : PutOp Nat).ty ≠ .dbl ∨
    (⟨.int, "a", (1 : Int)⟩ : PutOp Nat).key ≠ "a" := by decide

/-- C05: the membership test does not protect `get`: after a single put of any other
    type, `check` succeeds and `get<T>` is undefined behaviour. -/
theorem C05_check_does_not_guard_get {D : Type} (o : PutOp D) (t : Ty) (h : o.ty ≠ t) :
    (InputDB.run [o]).check o.key = true ∧ (InputDB.run [o]).get t o.key = none := by
  constructor
  · rw [C05_check_iff_put]; exact ⟨o, by simp, rfl⟩
  · rw [C05_get_is_last_put]
    simp [lastPut, h]

theorem SMap.set_keys {V : Type} (m : SMap V) (k : String) (v : V) :
    (SMap.set m k v).map Prod.fst =
      if k ∈ m.map Prod.fst then m.map Prod.fst else m.map Prod.fst ++ [k] := by
  induction m with
  | nil => simp [SMap.set]
  | cons a m ih =>
    obtain ⟨ka, va⟩ := a
    simp only [SMap.set]
    by_cases h : ka = k
    · subst h; simp
    · simp only [h, if_false, List.map_cons, ih, List.mem_cons, Ne.symm h, false_or]
      split <;> simp

/-- The keys used with type `t` in a history, each once, in order of first use. -/
def keysOf {D : Type} (t : Ty) (ops : List (PutOp D)) : List String :=
  ops.foldl (fun ks o => if o.ty = t ∧ o.key ∉ ks then ks ++ [o.key] else ks) []

/-- keys stored for type `t`. -/
def storedKeys {D : Type} (b : InputDB D) (t : Ty) : List String :=
  match t with
  | .int => b.dataInt.map Prod.fst
  | .dbl => b.dataDbl.map Prod.fst
  | .str => b.dataStr.map Prod.fst
  | .vecInt => b.dataVecInt.map Prod.fst
  | .vecDbl => b.dataVecDbl.map Prod.fst
  | .db => b.dataDb.map Prod.fst

theorem storedKeys_put {D : Type} (b : InputDB D) (o : PutOp D) (t : Ty) :
    storedKeys (b.put o.ty o.key o.val) t =
      if o.ty = t ∧ o.key ∉ storedKeys b t then storedKeys b t ++ [o.key]
      else storedKeys b t := by
  obtain ⟨ty, key, val⟩ := o
  cases ty <;> cases t <;>
    simp only [InputDB.put, storedKeys, reduceCtorEq, false_and, if_false, true_and] <;>
    (refine (SMap.set_keys _ _ _).trans ?_
     split <;> simp_all)

/-- C05: `size(type)` counts the distinct keys put with that type. -/
theorem C05_size_counts_keys {D : Type} (ops : List (PutOp D)) (t : Ty) :
    (InputDB.run ops).size t = (keysOf t ops).length := by
  have h : storedKeys (InputDB.run ops) t = keysOf t ops := by
    unfold InputDB.run keysOf
    induction ops using List.reverseRecOn with
    | nil => cases t <;> rfl
    | append_singleton ops o ih =>
      rw [List.foldl_append, List.foldl_append]
      simp only [List.foldl_cons, List.foldl_nil]
      rw [storedKeys_put, ih]
  rw [← h]
  cases t <;> simp [InputDB.size, storedKeys]

/-- `keysOf` really lists each used key exactly once. -/
theorem C05_keysOf_spec {D : Type} (t : Ty) (ops : List (PutOp D)) :
    (keysOf t ops).Nodup ∧ ∀ k, k ∈ keysOf t ops ↔ ∃ o ∈ ops, o.ty = t ∧ o.key = k := by
  unfold keysOf
  induction ops using List.reverseRecOn with
  | nil => simp
  | append_singleton ops o ih =>
    rw [List.foldl_append]
    simp only [List.foldl_cons, List.foldl_nil]
    obtain ⟨h1, h2⟩ := ih
    split
    · rename_i h
      refine ⟨?_, ?_⟩
      · rw [List.nodup_append]
        refine ⟨h1, by simp, ?_⟩
        intro a ha b hb; simp at hb; subst hb; rintro rfl; exact h.2 ha
      · intro k; rw [List.mem_append, h2]
        constructor
        · rintro (⟨o', ho', hh⟩ | hk)
          · exact ⟨o', by simp [ho'], hh⟩
          · simp at hk; exact ⟨o, by simp, h.1, hk.symm⟩
        · rintro ⟨o', ho', hh⟩
          simp at ho'
          rcases ho' with ho' | rfl
          · left; exact ⟨o', ho', hh⟩
          · right; simp [hh.2]
    · rename_i h
      refine ⟨h1, fun k => ?_⟩
      rw [h2]
      constructor
      · rintro ⟨o', ho', hh⟩; exact ⟨o', by simp [ho'], hh⟩
      · rintro ⟨o', ho', hh⟩
        simp at ho'
        rcases ho' with ho' | rfl
        · exact ⟨o', ho', hh⟩
        · rw [← h2]
          by_contra hc
          exact h ⟨hh.1, by rw [hh.2]; exact hc⟩

example : (InputDB.run (D := Nat)
      [⟨.int, "a", (5 : Int)⟩, ⟨.dbl, "a", (7 : Nat)⟩, ⟨.int, "b", (6 : Int)⟩,
       ⟨.int, "a", (6 : Int)⟩]).size .int = 2 := by rfl

/-! ## C06  Factory -/

theorem SMap.find_append {V : Type} (m : SMap V) (k k' : String) (v : V) :
    (m ++ [(k, v)] : SMap V).find k' =
      match m.find k' with
      | some w => some w
      | none => if k = k' then some v else none := by
  induction m with
  | nil => simp [SMap.find]
  | cons a m ih =>
    obtain ⟨ka, va⟩ := a
    simp only [List.cons_append, SMap.find]
    by_cases h : ka = k'
    · simp [h]
    · simp [h, ih]

/-- Specification: creator of the first registration of `k` in a history. -/
def firstReg {F : Type} (k : String) : List (String × F) → Option F
  | [] => none
  | (k', c) :: r => if k' = k then some c else firstReg k r

theorem Factory.find_run {F : Type} (f : Factory F) (regs : List (String × F)) (k : String) :
    SMap.find (Factory.run f regs).1 k =
      match SMap.find f k with
      | some w => some w
      | none => firstReg k regs := by
  induction regs generalizing f with
  | nil => simp only [Factory.run, firstReg]; cases SMap.find f k <;> rfl
  | cons a regs ih =>
    obtain ⟨ka, ca⟩ := a
    simp only [Factory.run]
    rw [ih]
    unfold Factory.register
    cases h : SMap.find f ka with
    | some w =>
      simp only []
      cases h2 : SMap.find f k with
      | some w2 => rfl
      | none =>
        simp only [firstReg]
        have : ka ≠ k := by rintro rfl; rw [h] at h2; cases h2
        simp [this]
    | none =>
      simp only [SMap.find_append]
      cases h2 : SMap.find f k with
      | some w2 => rfl
      | none => simp only [firstReg]; by_cases hk : ka = k <;> simp [hk]

/-- C06: after any registration history, look-up returns the creator of the first
    registration of the key, and throws when the key was never registered. -/
theorem C06_lookup_is_first {F : Type} (regs : List (String × F)) (k : String) :
    (Factory.run [] regs).1.getCreate k =
      match firstReg k regs with
      | some c => .ok c
      | none => .error ("Unknown key: " ++ k) := by
  unfold Factory.getCreate
  rw [Factory.find_run]
  simp only [SMap.find]
  cases firstReg k regs <;> rfl

example : (Factory.run [] [("a", 1), ("b", 2), ("a", 3)]).1.getCreate "a" = .ok 1 := by rfl

/-- C06: a registration reports success exactly when its key was new. -/
theorem C06_register_result {F : Type} (pre : List (String × F)) (k : String) (c : F) :
    ((Factory.run [] pre).1.register k c).2 = true ↔ ∀ p ∈ pre, p.1 ≠ k := by
  unfold Factory.register
  have h := Factory.find_run [] pre k
  simp only [SMap.find] at h
  rw [h]
  have h2 : firstReg k pre = none ↔ ∀ p ∈ pre, p.1 ≠ k := by
    clear h
    induction pre with
    | nil => simp [firstReg]
    | cons a pre ih =>
      obtain ⟨ka, ca⟩ := a
      simp only [firstReg, List.mem_cons, forall_eq_or_imp]
      by_cases hk : ka = k
      · simp [hk]
      · simp [hk, ih]
  rw [← h2]
  cases firstReg k pre <;> simp

/-- C06: `IsRegistered` is true exactly for keys that appeared. -/
theorem C06_isRegistered {F : Type} (regs : List (String × F)) (k : String) :
    (Factory.run [] regs).1.isRegistered k = true ↔ ∃ p ∈ regs, p.1 = k := by
  unfold Factory.isRegistered
  rw [Factory.find_run]
  simp only [SMap.find]
  induction regs with
  | nil => simp [firstReg]
  | cons a regs ih =>
    obtain ⟨ka, ca⟩ := a
    simp only [firstReg, List.mem_cons, exists_eq_or_imp]
    by_cases hk : ka = k
    · simp [hk]
    · simp [hk, ih]

/-! ## C20  norms -/

section Norms
variable {K : Type} [Field K] [LinearOrder K] [IsStrictOrderedRing K]

/-- Specification of "largest absolute component". -/
def IsMaxAbs (v : K) (x : List K) : Prop := (∀ y ∈ x, |y| ≤ v) ∧ ∃ y ∈ x, |y| = v

theorem foldl_max_spec {T : Type} (f : T → K) (l : List T) (v0 : K) :
    let r := l.foldl (fun v y => max (f y) v) v0
    v0 ≤ r ∧ (∀ y ∈ l, f y ≤ r) ∧ (r = v0 ∨ ∃ y ∈ l, f y = r) := by
  induction l generalizing v0 with
  | nil => simp
  | cons a l ih =>
    simp only [List.foldl_cons]
    obtain ⟨h1, h2, h3⟩ := ih (max (f a) v0)
    refine ⟨le_trans (le_max_right _ _) h1, ?_, ?_⟩
    · intro y hy
      rcases List.mem_cons.1 hy with rfl | hy
      · exact le_trans (le_max_left _ _) h1
      · exact h2 y hy
    · rcases h3 with h3 | ⟨y, hy, h3⟩
      · rcases max_choice (f a) v0 with h | h
        · right; exact ⟨a, by simp, by rw [h3, h]⟩
        · left; rw [h3, h]
      · right; exact ⟨y, by simp [hy], h3⟩

/-- C20 (`_partial`: only when the first component is non-negative or is not the one of
    largest magnitude).  Missing for the full claim: a first component that is negative
    and has the largest magnitude, for which the code returns something else, see
    `C20_normLinf_counterexample` and `C20_normLinf_fails_iff`. -/
theorem C20_normLinf_partial (x0 : K) (xs : List K)
    (h : 0 ≤ x0 ∨ ∃ y ∈ xs, |x0| ≤ |y|) :
    ∃ v, normLinf (x0 :: xs) = some v ∧ IsMaxAbs v (x0 :: xs) := by
  refine ⟨_, rfl, ?_⟩
  obtain ⟨h1, h2, h3⟩ := foldl_max_spec (fun y : K => |y|) xs x0
  set r := xs.foldl (fun v y => max |y| v) x0
  have hx : |x0| ≤ r := by
    rcases h with h | ⟨y, hy, h⟩
    · rw [abs_of_nonneg h]; exact h1
    · exact le_trans h (h2 y hy)
  refine ⟨?_, ?_⟩
  · intro y hy
    rcases List.mem_cons.1 hy with rfl | hy
    · exact hx
    · exact h2 y hy
  · rcases h3 with h3 | ⟨y, hy, h3⟩
    · exact ⟨x0, by simp, le_antisymm hx (by rw [h3]; exact le_abs_self _)⟩
    · exact ⟨y, by simp [hy], h3⟩

example : normLinf [1, -5, (3 : ℚ)] = some 5 := by decide +kernel

/-- C20 negated: for `x = (-2, 1)` the "Linf norm" is `1`, not `2`; for `x = (-2)` it is
    negative. -/
theorem C20_normLinf_counterexample :
    normLinf [-2, (1 : ℚ)] = some 1 ∧ normLinf [(-2 : ℚ)] = some (-2) ∧
    ¬ IsMaxAbs (1 : ℚ) [-2, 1] := by
  refine ⟨by decide +kernel, by decide +kernel, ?_⟩
  rintro ⟨h, _⟩
  have := h (-2) (by simp)
  norm_num at this

/-- C20: exactly when the code's value is not the maximum norm. -/
theorem C20_normLinf_fails_iff (x0 : K) (xs : List K) :
    (∃ v, normLinf (x0 :: xs) = some v ∧ ¬ IsMaxAbs v (x0 :: xs)) ↔
      (x0 < 0 ∧ ∀ y ∈ xs, |y| < |x0|) := by
  constructor
  · rintro ⟨v, hv, hn⟩
    by_contra hc
    apply hn
    have h : 0 ≤ x0 ∨ ∃ y ∈ xs, |x0| ≤ |y| := by
      by_cases h0 : 0 ≤ x0
      · left; exact h0
      · right
        by_contra h1
        push Not at h1 h0
        exact hc ⟨h0, h1⟩
    obtain ⟨w, hw, hm⟩ := C20_normLinf_partial x0 xs h
    rw [hv] at hw; cases hw; exact hm
  · rintro ⟨h0, h1⟩
    refine ⟨_, rfl, ?_⟩
    rintro ⟨h2, _⟩
    have hx := h2 x0 (by simp)
    obtain ⟨_, _, h3⟩ := foldl_max_spec (fun y : K => |y|) xs x0
    rcases h3 with h3 | ⟨y, hy, h3⟩
    · rw [h3] at hx
      have := abs_nonneg x0
      linarith
    · rw [← h3] at hx
      exact absurd (h1 y hy) (not_lt.2 hx)

/-- C20: `norm_residual(x, y, "Linf")` is the largest absolute difference, for all
    non-empty vectors of equal length (empty vectors are undefined behaviour). -/
theorem C20_normResLinf (x y : List K) (hl : x.length = y.length) (hne : x ≠ []) :
    ∃ v, normResLinf x y = some v ∧ IsMaxAbs v (List.zipWith (· - ·) x y) := by
  match x, y, hl, hne with
  | x0 :: xs, y0 :: ys, hl, _ =>
    have hl' : xs.length = ys.length := by simpa using hl
    refine ⟨(List.zip xs ys).foldl (fun v p => max |p.1 - p.2| v) |x0 - y0|,
      by simp only [normResLinf, hl', le_refl, if_true], ?_⟩
    obtain ⟨h1, h2, h3⟩ := foldl_max_spec (fun p : K × K => |p.1 - p.2|) (List.zip xs ys) |x0 - y0|
    refine ⟨?_, ?_⟩
    · intro z hz
      simp only [List.zipWith_cons_cons, List.mem_cons] at hz
      rcases hz with rfl | hz
      · exact h1
      · rw [← List.map_uncurry_zip_eq_zipWith] at hz
        obtain ⟨p, hp, rfl⟩ := List.mem_map.1 hz
        exact h2 p hp
    · rcases h3 with h3 | ⟨p, hp, h3⟩
      · exact ⟨x0 - y0, by simp, h3.symm⟩
      · refine ⟨p.1 - p.2, ?_, h3⟩
        simp only [List.zipWith_cons_cons, List.mem_cons]
        right
        rw [← List.map_uncurry_zip_eq_zipWith]
        exact List.mem_map.2 ⟨p, hp, rfl⟩

example : normResLinf [1, 2, (3 : ℚ)] [4, 0, 3] = some 3 := by decide +kernel

theorem foldl_add_eq_sum {T : Type} (f : T → K) (l : List T) (a : K) :
    l.foldl (fun v y => v + f y) a = a + (l.map f).sum := by
  induction l generalizing a with
  | nil => simp
  | cons b l ih => simp only [List.foldl_cons, ih, List.map_cons, List.sum_cons]; ring

/-- C20: the L1 norm is the sum of absolute values. -/
theorem C20_normL1 (x : List K) : normL1 x = (x.map (fun y => |y|)).sum := by
  unfold normL1; rw [foldl_add_eq_sum]; simp

/-- C20: the L2 norm is the root of the sum of squares (the root is applied outside). -/
theorem C20_normL2sq (x : List K) : normL2sq x = (x.map (fun y => y ^ 2)).sum := by
  unfold normL2sq
  rw [foldl_add_eq_sum, zero_add]
  congr 1
  exact List.map_congr_left fun y _ => (sq y).symm

/-- C20: the L1 residual norm is the sum of the absolute differences. -/
theorem C20_normResL1_is_sum (x y : List K) :
    normResL1 x y = (List.zipWith (fun a b => |a - b|) x y).sum := by
  unfold normResL1
  rw [foldl_add_eq_sum, zero_add]
  congr 1
  rw [List.zip, List.map_zipWith]

/-- C20: the L1 residual norm vanishes exactly when equally long vectors agree. -/
theorem C20_normResL1_eq_zero_iff (x y : List K) (hl : x.length = y.length) :
    normResL1 x y = 0 ↔ x = y := by
  have e : normResL1 x y = ((List.zip x y).map (fun p => |p.1 - p.2|)).sum := by
    unfold normResL1; rw [foldl_add_eq_sum]; simp
  rw [e]
  clear e
  have nn : ∀ l : List (K × K), 0 ≤ (l.map (fun p => |p.1 - p.2|)).sum := fun l =>
    List.sum_nonneg (by intro a ha; obtain ⟨p, _, rfl⟩ := List.mem_map.1 ha; exact abs_nonneg _)
  induction x generalizing y with
  | nil => cases y with
    | nil => simp
    | cons _ _ => simp at hl
  | cons a x ih => cases y with
    | nil => simp at hl
    | cons b y =>
      simp only [List.length_cons, Nat.add_right_cancel_iff] at hl
      simp only [List.zip_cons_cons, List.map_cons, List.sum_cons, List.cons.injEq]
      have ih' := ih y hl
      have h1 := nn (List.zip x y)
      have h2 := abs_nonneg (a - b)
      constructor
      · intro h
        have : |a - b| = 0 := by linarith
        exact ⟨sub_eq_zero.1 (abs_eq_zero.1 this), ih'.1 (by linarith)⟩
      · rintro ⟨rfl, h⟩; simp [ih'.2 h]

example : ([1, 2] : List ℚ).length = ([1, 2] : List ℚ).length := rfl

/-- C20: the relative Linf residual does not divide its first term: scaling both vectors
    by `s > 0` scales a one-element result by `s` although a relative error is invariant. -/
theorem C20_relative_residual_not_relative (x y s : K) (hs : 0 < s) :
    normRelResLinf [s * x] [s * y] = some (s * |x - y|) ∧
    |(s * x - s * y) / (s * y)| = |(x - y) / y| := by
  constructor
  · simp only [normRelResLinf, List.length_nil, le_refl, if_true, List.zip_nil_left, List.foldl_nil]
    rw [← mul_sub, abs_mul, abs_of_pos hs]
  · rw [← mul_sub, mul_div_mul_left _ _ hs.ne']

end Norms

/-- C20: over the reals `norm(x,"L2") = sqrt(sum x_i^2)` is non-negative and zero only for
    the zero vector. -/
theorem C20_normL2_zero_iff (x : List ℝ) :
    Real.sqrt (normL2sq x) = 0 ↔ ∀ y ∈ x, y = 0 := by
  have e : normL2sq x = (x.map (fun y => y * y)).sum := by
    unfold normL2sq; rw [foldl_add_eq_sum]; simp
  have nn : ∀ l : List ℝ, 0 ≤ (l.map (fun y => y * y)).sum := fun l =>
    List.sum_nonneg (by intro a ha; obtain ⟨p, _, rfl⟩ := List.mem_map.1 ha; exact mul_self_nonneg _)
  rw [e, Real.sqrt_eq_zero (nn x)]
  clear e
  induction x with
  | nil => simp
  | cons a x ih =>
    simp only [List.map_cons, List.sum_cons, List.mem_cons, forall_eq_or_imp]
    have h1 := nn x
    have h2 := mul_self_nonneg a
    constructor
    · intro h
      exact ⟨by have : a * a = 0 := by linarith
                exact mul_self_eq_zero.1 this, ih.1 (by linarith)⟩
    · rintro ⟨rfl, h⟩; simp [ih.2 h]

/-! ### vec_max / vec_min -/

theorem vecMax_spec {T : Type} [LinearOrder T] (m0 : T) (v : List T) :
    m0 ≤ vecMax m0 v ∧ (∀ y ∈ v, y ≤ vecMax m0 v) ∧ (vecMax m0 v = m0 ∨ vecMax m0 v ∈ v) := by
  unfold vecMax
  induction v generalizing m0 with
  | nil => simp
  | cons a v ih =>
    simp only [List.foldl_cons]
    obtain ⟨h1, h2, h3⟩ := ih (if m0 < a then a else m0)
    set r := List.foldl (fun m x => if m < x then x else m) (if m0 < a then a else m0) v
    by_cases h : m0 < a
    · simp only [h, if_true] at h1 h3
      refine ⟨le_trans h.le h1, ?_, ?_⟩
      · intro y hy; rcases List.mem_cons.1 hy with rfl | hy
        · exact h1
        · exact h2 y hy
      · right; rcases h3 with h3 | h3
        · rw [h3]; simp
        · simp [h3]
    · simp only [h, if_false] at h1 h3
      refine ⟨h1, ?_, ?_⟩
      · intro y hy; rcases List.mem_cons.1 hy with rfl | hy
        · exact le_trans (not_lt.1 h) h1
        · exact h2 y hy
      · rcases h3 with h3 | h3
        · left; exact h3
        · right; simp [h3]

/-- C20: with an initial value below every element (integers: `INT_MIN`), `vec_max` of a
    non-empty vector is its maximum. -/
theorem C20_vecMax_int {T : Type} [LinearOrder T] (m0 : T) (v : List T) (hne : v ≠ [])
    (hm : ∀ y ∈ v, m0 ≤ y) : vecMax m0 v ∈ v ∧ ∀ y ∈ v, y ≤ vecMax m0 v := by
  obtain ⟨h1, h2, h3⟩ := vecMax_spec m0 v
  refine ⟨?_, h2⟩
  rcases h3 with h3 | h3
  · obtain ⟨a, ha⟩ := List.exists_mem_of_ne_nil v hne
    have : vecMax m0 v = a := le_antisymm (by rw [h3]; exact hm a ha) (h2 a ha)
    rw [this]; exact ha
  · exact h3

example : vecMax (-2147483648 : Int) [-3, -7] = -3 := by decide

/-- C20 negated for `double`: with the positive initial value `numeric_limits::min()` the
    maximum of a vector of non-positive numbers is reported as that tiny positive number,
    which is not an element of the vector. -/
theorem C20_vecMax_double_wrong {K : Type} [Field K] [LinearOrder K] [IsStrictOrderedRing K]
    (tiny : K) (ht : 0 < tiny) (v : List K) (hv : ∀ y ∈ v, y ≤ 0) :
    vecMax tiny v = tiny ∧ vecMax tiny v ∉ v := by
  obtain ⟨h1, h2, h3⟩ := vecMax_spec tiny v
  have hnot : vecMax tiny v ∉ v := fun h => by
    have := hv _ h; linarith
  exact ⟨h3.resolve_right hnot, hnot⟩

example : vecMax (1/1000 : ℚ) [-3, -1] = 1/1000 := by decide +kernel

/-- C20: `vec_min` with an upper initial value is the minimum of a non-empty vector. -/
theorem C20_vecMin {T : Type} [LinearOrder T] (m0 : T) (v : List T) (hne : v ≠ [])
    (hm : ∀ y ∈ v, y ≤ m0) : vecMin m0 v ∈ v ∧ ∀ y ∈ v, vecMin m0 v ≤ y := by
  have h := C20_vecMax_int (T := Tᵒᵈ) m0 v hne hm
  exact h

example : vecMin (100 : Int) [5, -7, 9] = -7 := by decide

/-! ## C60 linspace, vec_unique, Reversible -/

section Lin
variable {K : Type} [Field K]

theorem stepLoop_length (dx : K) (n : Nat) (x : K) : (stepLoop dx n x).length = n := by
  induction n generalizing x with
  | zero => rfl
  | succ n ih => simp [stepLoop, ih]

theorem stepLoop_get (dx : K) (n : Nat) (x : K) (k : Nat) (h : k < n) :
    (stepLoop dx n x)[k]? = some (x + k * dx) := by
  induction n generalizing x k with
  | zero => omega
  | succ n ih =>
    cases k with
    | zero => simp [stepLoop]
    | succ k =>
      simp only [stepLoop, List.getElem?_cons_succ]
      rw [ih _ _ (by omega)]
      push_cast; congr 1; ring

/-- C60: `linspace(a,b,n)` has `n` points, point `k` is `a + k (b-a)/(n-1)`, so it starts
    at `a` and ends exactly at `b` (for `n ≥ 2`). -/
theorem C60_linspace [CharZero K] (a b : K) (n : Nat) (hn : 2 ≤ n) :
    (linspace a b n).length = n ∧
    (∀ k, k < n → (linspace a b n)[k]? = some (a + k * ((b - a) / ((n : K) - 1)))) ∧
    (linspace a b n)[0]? = some a ∧ (linspace a b n)[n - 1]? = some b := by
  unfold linspace
  simp only [show ¬ n ≤ 1 by omega, if_false]
  refine ⟨stepLoop_length _ _ _, fun k hk => stepLoop_get _ _ _ _ hk, ?_, ?_⟩
  · rw [stepLoop_get _ _ _ _ (by omega)]; simp
  · rw [stepLoop_get _ _ _ _ (by omega)]
    have h1 : ((n - 1 : Nat) : K) = (n : K) - 1 := by
      rw [Nat.cast_sub (by omega)]; simp
    have h2 : (n : K) - 1 ≠ 0 := by
      rw [← h1]; exact_mod_cast (by omega : n - 1 ≠ 0)
    rw [h1]; congr 1; field_simp; ring

example : linspace (0 : ℚ) 1 5 = [0, 1/4, 1/2, 3/4, 1] := by decide +kernel

/-- C60: with one point only `a` is returned: the end point is not reached. -/
theorem C60_linspace_one (a b : K) : linspace a b 1 = [a] := rfl

/-- C60: `linspace_center(a,b,n)` are the midpoints of the `n` equal cells of `[a,b]`. -/
theorem C60_linspaceCenter [CharZero K] (a b : K) (n : Nat) (hn : 2 ≤ n) (k : Nat) (hk : k < n) :
    (linspaceCenter a b n)[k]? =
      some (((a + k * ((b - a) / n)) + (a + (k + 1) * ((b - a) / n))) / 2) := by
  unfold linspaceCenter
  simp only [show ¬ n ≤ 1 by omega, if_false]
  rw [stepLoop_get _ _ _ _ hk]; congr 1; ring

end Lin

/-- Contract assumed of `std::sort`: a sorted permutation. -/
def IsSort {T : Type} [LinearOrder T] (sort : List T → List T) : Prop :=
  ∀ v, (sort v).Perm v ∧ (sort v).Pairwise (· ≤ ·)

theorem stdUnique_mem {T : Type} [DecidableEq T] (l : List T) (x : T) :
    x ∈ stdUnique l ↔ x ∈ l := by
  induction l with
  | nil => simp [stdUnique]
  | cons a l ih =>
    cases l with
    | nil => simp [stdUnique]
    | cons b l =>
      simp only [stdUnique]
      split
      · rename_i h; rw [ih]; subst h; simp
      · rw [List.mem_cons, ih, List.mem_cons, List.mem_cons, List.mem_cons]

theorem stdUnique_strict {T : Type} [LinearOrder T] (l : List T) (h : l.Pairwise (· ≤ ·)) :
    (stdUnique l).Pairwise (· < ·) := by
  induction l with
  | nil => simp [stdUnique]
  | cons a l ih =>
    cases l with
    | nil => simp [stdUnique]
    | cons b l =>
      simp only [stdUnique]
      rw [List.pairwise_cons] at h
      split
      · exact ih h.2
      · rename_i hab
        rw [List.pairwise_cons]
        refine ⟨fun x hx => ?_, ih h.2⟩
        rw [stdUnique_mem] at hx
        have hb : a < b := lt_of_le_of_ne (h.1 b (by simp)) hab
        rcases List.mem_cons.1 hx with rfl | hx
        · exact hb
        · exact lt_of_lt_of_le hb ((List.pairwise_cons.1 h.2).1 x hx)

/-- C60: `vec_unique` returns the distinct values, each once, in increasing order, for
    every realisation of the (unstable) sort. -/
theorem C60_vecUnique {T : Type} [LinearOrder T] (sort : List T → List T) (hs : IsSort sort)
    (v : List T) :
    (vecUnique sort v).Pairwise (· < ·) ∧ ∀ x, x ∈ vecUnique sort v ↔ x ∈ v := by
  obtain ⟨hp, ho⟩ := hs v
  refine ⟨stdUnique_strict _ ho, fun x => ?_⟩
  unfold vecUnique
  rw [stdUnique_mem, hp.mem_iff]

/-- `std::sort`'s contract is satisfiable: insertion sort meets it. -/
example : IsSort (T := Nat) (fun v => v.insertionSort (· ≤ ·)) := fun v =>
  ⟨List.perm_insertionSort _ v, List.pairwise_insertionSort _ v⟩

theorem walk_forward {T : Type} (l : List T) (f k : Nat) (hf : f + k = l.length) :
    Rev.walk l ⟨l.length, 1⟩ f ⟨k, 1⟩ = some (l.drop k) := by
  induction f generalizing k with
  | zero =>
    simp only [Nat.zero_add] at hf
    subst hf; rw [Rev.walk, if_pos rfl, List.drop_length]
  | succ f ih =>
    have hk : k < l.length := by omega
    simp only [Rev.walk]
    rw [if_neg (by omega)]
    simp only [Rev.deref, Rev.next]
    rw [if_pos (by omega)]
    simp only [Int.toNat_natCast, List.getElem?_eq_getElem hk]
    have : ((k : Int) + 1) = ((k + 1 : Nat) : Int) := by push_cast; rfl
    rw [this, ih (k + 1) (by omega)]
    rw [List.drop_eq_getElem_cons hk]; rfl

theorem walk_backward {T : Type} (l : List T) (k : Nat) (hk : k ≤ l.length) :
    Rev.walk l ⟨-1, -1⟩ k ⟨(k : Int) - 1, -1⟩ = some (l.take k).reverse := by
  induction k with
  | zero => simp [Rev.walk]
  | succ k ih =>
    have hk' : k < l.length := by omega
    simp only [Rev.walk]
    rw [if_neg (by push_cast; omega)]
    simp only [Rev.deref, Rev.next]
    rw [if_pos (by push_cast; omega)]
    have e : ((k + 1 : Nat) : Int) - 1 = (k : Int) := by push_cast; ring
    rw [e]
    simp only [Int.toNat_natCast, List.getElem?_eq_getElem hk']
    have e2 : (k : Int) + -1 = (k : Int) - 1 := by ring
    rw [e2, ih (by omega)]
    simp only [Option.map_some, Option.some.injEq]
    rw [List.take_add_one, List.getElem?_eq_getElem hk', Option.toList_some, List.reverse_append]
    rfl

/-- C60: the reversible iterator visits all elements once, in order or in reverse. -/
theorem C60_reversible_traverse {T : Type} (l : List T) :
    Rev.traverse l true = some l ∧ Rev.traverse l false = some l.reverse := by
  constructor
  · have := walk_forward l l.length 0 (by omega)
    simpa [Rev.traverse, Rev.mk', Rev.begin_, Rev.end_] using this
  · have := walk_backward l l.length (le_refl _)
    simpa [Rev.traverse, Rev.mk', Rev.begin_, Rev.end_] using this

example : Rev.traverse [1, 2, 3] false = some [3, 2, 1] := by decide

/-- C60: a freshly constructed reversible iterator points at the first element of its
    traversal. -/
theorem C60_reversible_initial {T : Type} (l : List T) (hne : l ≠ []) :
    (Rev.mk' l.length true).deref l = l.head? ∧
    (Rev.mk' l.length false).deref l = l.getLast? := by
  have hpos : 0 < l.length := List.length_pos_iff.2 hne
  constructor
  · simp [Rev.mk', Rev.deref, List.head?_eq_getElem?]
  · have e : ((l.length : Int) - 1).toNat = l.length - 1 := by omega
    have h0 : (0 : Int) ≤ (l.length : Int) - 1 := by omega
    simp [Rev.mk', Rev.deref, e, List.getLast?_eq_getElem?]

example : (Rev.mk' 3 false).deref [1, 2, 3] = some 3 := by decide

/-- C60: `vec_sum` is the sum of all elements, `vec_scale` and `vec_plus_a` act on every
    element. -/
theorem C60_vector_helpers {K : Type} [Field K] (v : List K) (a : K) :
    vecSum v = v.sum ∧ (vecScale v a).length = v.length ∧ (vecPlusA v a).length = v.length ∧
    ∀ (k : Nat) x, v[k]? = some x →
      (vecScale v a)[k]? = some (x * a) ∧ (vecPlusA v a)[k]? = some (x + a) := by
  refine ⟨?_, by simp [vecScale], by simp [vecPlusA], ?_⟩
  · have : ∀ (l : List K) (s : K), l.foldl (fun s x => s + x) s = s + l.sum := by
      intro l
      induction l with
      | nil => simp
      | cons b l ih => intro s; simp only [List.foldl_cons, ih, List.sum_cons]; ring
    unfold vecSum; rw [this]; simp
  · intro k x h
    simp [vecScale, vecPlusA, h]

example : vecSum [1, 2, (3 : ℚ)] = 6 ∧ vecScale [1, (2 : ℚ)] 3 = [3, 6] := by decide +kernel

end Detran.Util
