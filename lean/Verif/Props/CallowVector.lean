import Verif.Model.CallowVector
import Mathlib.Algebra.Field.Rat
import Mathlib.Tactic.FieldSimp
import Mathlib.Tactic.Ring
import Mathlib.Tactic.Tauto

/-!
# C112: vectors are values

`Spec` gives vectors their expected meaning without memory: a vector is a list of its own, or a view of an array of the
caller.
-/

namespace Detran.CallowVector

variable {K : Type} [Field K]

/-! ## Specification -/

/-- What a vector is to its user. -/
inductive Val (K : Type) where
  /-- values of its own -/
  | own (l : List K)
  /-- elements `o`, ..., `o + n - 1` of the caller's array `a` -/
  | view (a o n : Nat)

/-- The vectors and arrays a program has made. -/
structure Spec (K : Type) where
  vec : Nat → Option (Val K)
  arr : Nat → Option (List K)
  arrays : Nat

def Spec.init : Spec K := ⟨fun _ => none, fun _ => none, 0⟩

/-- The values of a vector; a view of a released array has none. -/
def Spec.value (t : Spec K) : Val K → Option (List K)
  | .own l => some l
  | .view a o n => (t.arr a).bind fun l => if o + n ≤ l.length then some ((l.drop o).take n) else none

def Spec.valueOf (t : Spec K) (x : Nat) : Option (List K) := (t.vec x).bind t.value

def Spec.put (t : Spec K) (x : Nat) (v : Option (Val K)) : Spec K :=
  { t with vec := fun y => if y = x then v else t.vec y }

/-- Give the vector `x`, which is `v`, the values `l`. -/
def Spec.store (t : Spec K) (x : Nat) (l : List K) : Val K → Spec K
  | .own _ => t.put x (some (.own l))
  | .view a o n =>
    { t with arr := fun c => if c = a then (t.arr a).map fun L => L.take o ++ l ++ L.drop (o + n) else t.arr c }

/-- Two views of one array coincide or have nothing in common. -/
def Apart : Val K → Val K → Prop
  | .view a o n, .view b q m => a = b → (o = q ∧ n = m) ∨ o + n ≤ q ∨ q + m ≤ o
  | _, _ => True

instance (v w : Val K) : Decidable (Apart v w) := by
  cases v <;> cases w <;> unfold Apart <;> infer_instance

/-- Meaning of the operations. -/
def unMean : Un K → K → K
  | .set v, _ => v
  | .scale v, x => v * x

def binMean : Bin K → K → K → K
  | .add, x, y => x + y
  | .subtract, x, y => x - y
  | .multiply, x, y => x * y
  | .divide, x, y => x / y
  | .copy, _, y => y
  | .axpy a, x, y => a * y + x

/-- An instruction is carried out or refused. -/
inductive Res (K : Type) where
  | done (t : Spec K)
  | refused

/-- The meaning of an instruction; `none` if the caller breaks the contract: a name used twice or not at
    all, sizes that differ, a vector made of size zero, an element outside an array, partly overlapping views. -/
def Spec.step (t : Spec K) : Instr K → Option (Res K)
  | .dflt x => if (t.vec x).isNone then some (.done (t.put x (some (.own [])))) else none
  | .make x n v =>
    if (t.vec x).isNone ∧ 0 < n then some (.done (t.put x (some (.own (List.replicate n v))))) else none
  | .dup x y =>
    if (t.vec x).isNone then (t.valueOf y).map fun l => .done (t.put x (some (.own l))) else none
  | .wrap x a =>
    if (t.vec x).isNone then
      (t.arr a).bind fun l => if 0 < l.length then some (.done (t.put x (some (.view a 0 l.length)))) else none
    else none
  | .wrapPtr x n a o =>
    if (t.vec x).isNone ∧ 0 < n then
      (t.arr a).bind fun l => if o + n ≤ l.length then some (.done (t.put x (some (.view a o n)))) else none
    else none
  | .destroy x => (t.vec x).map fun _ => .done (t.put x none)
  | .resize x n v =>
    (t.vec x).map fun w =>
      match w with
      | .own _ => .done (t.put x (some (.own (List.replicate n v))))
      | .view _ _ _ => .refused
  | .un x u =>
    (t.vec x).bind fun v => (t.value v).map fun l => .done (t.store x (l.map (unMean u)) v)
  | .bin x f y =>
    (t.vec x).bind fun v => (t.vec y).bind fun w => (t.value v).bind fun l => (t.value w).bind fun m =>
      if l.length = m.length ∧ Apart v w then some (.done (t.store x (List.zipWith (binMean f) l m) v)) else none
  | .assign x y =>
    (t.vec x).bind fun v =>
      match v with
      | .own _ => (t.valueOf y).map fun l => .done (t.put x (some (.own l)))
      | .view _ _ _ => none
  | .newArr l =>
    some (.done { t with arr := fun a => if a = t.arrays then some l else t.arr a, arrays := t.arrays + 1 })
  | .freeArr a => (t.arr a).map fun _ => .done { t with arr := fun c => if c = a then none else t.arr c }

def Spec.run : Spec K → List (Instr K) → Option (Res K)
  | t, [] => some (.done t)
  | t, i :: l =>
    (t.step i).bind fun r =>
      match r with
      | .done t => Spec.run t l
      | .refused => some .refused

/-- The memory shows what the specification says. -/
def Shows (s : State K) (t : Spec K) : Prop :=
  (∀ x, t.vec x = none ↔ s.size x = none) ∧
  (∀ x l, t.valueOf x = some l → s.size x = some l.length ∧ ∀ i (h : i < l.length), s.get x i = some l[i]) ∧
  (∀ a l, t.arr a = some l → ∀ i (h : i < l.length), s.getArr a i = some l[i])

/-- The outcome of a program is the one expected. -/
def Meets (o : Out (State K)) : Res K → Prop
  | .done t => ∃ s, o = .ok s ∧ Shows s t
  | .refused => o = .err

/-- No instruction of the program is an assignment. -/
def NoAssign (p : List (Instr K)) : Prop := ∀ i ∈ p, ∀ x y, i ≠ .assign x y

/-! ## The relation between memory and meaning -/

def Holds (h : Heap K) (b : Nat) (l : List K) : Prop :=
  h.len b = some l.length ∧ ∀ i (hi : i < l.length), h.cell b i = some l[i]

def Owns (s : State K) (x b : Nat) : Prop :=
  ∃ w, s.vec x = some w ∧ w.temp = false ∧ w.size ≠ 0 ∧ w.ptr = some (b, 0)

def VRel (h : Heap K) (arr : Nat → Option Nat) : Option Vec → Option (Val K) → Prop
  | none, none => True
  | some w, some (.own l) =>
    w.size = l.length ∧ w.temp = false ∧ (l ≠ [] → ∃ b, w.ptr = some (b, 0) ∧ Holds h b l)
  | some w, some (.view a o n) => w.size = n ∧ 0 < n ∧ w.temp = true ∧ ∃ b, arr a = some b ∧ w.ptr = some (b, o)
  | _, _ => False

structure Rel (s : State K) (t : Spec K) : Prop where
  arrays : s.arrays = t.arrays
  arrHolds : ∀ a l, t.arr a = some l → ∃ b, s.arr a = some b ∧ Holds s.heap b l
  arrNone : ∀ a b, t.arr a = none → s.arr a = some b → s.heap.len b = none
  arrLt : ∀ a b, s.arr a = some b → a < s.arrays ∧ b < s.heap.next
  arrInj : ∀ a c b, s.arr a = some b → s.arr c = some b → a = c
  vec : ∀ x, VRel s.heap s.arr (s.vec x) (t.vec x)
  ownInj : ∀ x y b, Owns s x b → Owns s y b → x = y
  ownArr : ∀ x b a, Owns s x b → s.arr a ≠ some b
  leak : ∀ b, s.heap.len b ≠ none → (∃ x, Owns s x b) ∨ ∃ a, s.arr a = some b
  unused : ∀ b, s.heap.next ≤ b → s.heap.len b = none

theorem Rel.init : Rel (State.init : State K) Spec.init where
  arrays := rfl
  arrHolds := by intro a l h; simp [Spec.init] at h
  arrNone := by intro a b _ h; simp [State.init] at h
  arrLt := by intro a b h; simp [State.init] at h
  arrInj := by intro a c b h; simp [State.init] at h
  vec := by intro x; simp [State.init, Spec.init, VRel]
  ownInj := by intro x y b h; obtain ⟨w, h, _⟩ := h; simp [State.init] at h
  ownArr := by intro x b a h; obtain ⟨w, h, _⟩ := h; simp [State.init] at h
  leak := by intro b h; simp [State.init] at h
  unused := by intro b _; rfl

theorem Holds.lt {s : State K} {t : Spec K} (R : Rel s t) {b : Nat} {l : List K} (h : Holds s.heap b l) :
    b < s.heap.next := by
  by_contra hb
  have := R.unused b (by omega)
  rw [h.1] at this
  simp at this

theorem Rel.own_lt {s : State K} {t : Spec K} (R : Rel s t) {x b : Nat} (h : Owns s x b) :
    b < s.heap.next ∧ ∃ l, t.vec x = some (.own l) ∧ l ≠ [] ∧ Holds s.heap b l := by
  obtain ⟨w, hw, ht, hs, hp⟩ := h
  have hv := R.vec x
  rw [hw] at hv
  cases htx : t.vec x with
  | none => rw [htx] at hv; exact hv.elim
  | some v =>
    rw [htx] at hv
    cases v with
    | view a o n => obtain ⟨_, _, h3, _⟩ := hv; rw [ht] at h3; cases h3
    | own l =>
      obtain ⟨h1, _, h3⟩ := hv
      have hl : l ≠ [] := by intro e; rw [e] at h1; exact hs h1
      obtain ⟨c, hc, hh⟩ := h3 hl
      rw [hp] at hc
      obtain rfl : b = c := by simpa using hc
      exact ⟨Holds.lt R hh, l, rfl, hl, hh⟩

/-! ## Loops -/

theorem un_loop (u : Un K) (b o n N : Nat) (h : Heap K) (g : Nat → K) (hlen : h.len b = some N) (hn : o + n ≤ N)
    (hg : ∀ i, i < n → u.val (h.cell b (o + i)) = some (g i)) :
    loop (unPass u (some (b, o))) n h =
      .ok { h with cell := fun c j => if c = b ∧ o ≤ j ∧ j < o + n then some (g (j - o)) else h.cell c j } := by
  induction n with
  | zero =>
    rw [loop]
    congr 1
    have : (fun c j => if c = b ∧ o ≤ j ∧ j < o + 0 then some (g (j - o)) else h.cell c j) = h.cell := by
      funext c j
      rw [if_neg (by omega)]
    rw [this]
  | succ n ih =>
    rw [loop, ih (by omega) fun i hi => hg i (by omega)]
    have hv : Heap.valid { h with cell := fun c j => if c = b ∧ o ≤ j ∧ j < o + n then some (g (j - o)) else h.cell c j }
        b (o + n) = true := by
      simp only [Heap.valid, hlen, decide_eq_true_eq]
      omega
    simp only [Out.bind, unPass, hv, if_true]
    rw [if_neg (by omega), hg n (by omega)]
    simp only [Heap.write]
    congr 2
    funext c j
    by_cases hc : c = b
    · subst hc
      by_cases hj : j = o + n
      · subst hj
        simp
      · by_cases hr : o ≤ j ∧ j < o + n
        · rw [if_neg (by omega), if_pos (by omega), if_pos (by omega)]
        · rw [if_neg (by omega), if_neg (by omega), if_neg (by omega)]
    · simp [hc]

theorem bin_loop (f : Bin K) (b o c r n N M : Nat) (h : Heap K) (y g : Nat → K) (hb : h.len b = some N)
    (hn : o + n ≤ N) (hc : h.len c = some M) (hm : r + n ≤ M)
    (hy : ∀ i, i < n → h.cell c (r + i) = some (y i))
    (hg : ∀ i, i < n → f.val (h.cell b (o + i)) (y i) = some (g i))
    (ha : c = b → r = o ∨ r + n ≤ o ∨ o + n ≤ r) :
    loop (binPass f (some (b, o)) (some (c, r))) n h =
      .ok { h with cell := fun d j => if d = b ∧ o ≤ j ∧ j < o + n then some (g (j - o)) else h.cell d j } := by
  have key : ∀ k, k ≤ n → loop (binPass f (some (b, o)) (some (c, r))) k h =
      .ok { h with cell := fun d j => if d = b ∧ o ≤ j ∧ j < o + k then some (g (j - o)) else h.cell d j } := by
    intro k
    induction k with
    | zero =>
      intro _
      rw [loop]
      congr 1
      have : (fun d j => if d = b ∧ o ≤ j ∧ j < o + 0 then some (g (j - o)) else h.cell d j) = h.cell := by
        funext d j
        rw [if_neg (by omega)]
      rw [this]
    | succ k ih =>
      intro hk
      rw [loop, ih (by omega)]
      have hv : Heap.valid { h with cell := fun d j => if d = b ∧ o ≤ j ∧ j < o + k then some (g (j - o)) else h.cell d j }
          b (o + k) = true ∧
          Heap.valid { h with cell := fun d j => if d = b ∧ o ≤ j ∧ j < o + k then some (g (j - o)) else h.cell d j }
          c (r + k) = true := by
        simp only [Heap.valid, hb, hc, decide_eq_true_eq]
        omega
      simp only [Out.bind, binPass, hv, and_self, if_true]
      have e1 : ¬(c = b ∧ o ≤ r + k ∧ r + k < o + k) := by
        rintro ⟨h1, h2, h3⟩
        have := ha h1
        omega
      rw [if_neg e1, if_neg (by omega), hy k (by omega)]
      simp only [Option.bind_some, hg k (by omega)]
      simp only [Heap.write]
      congr 2
      funext d j
      by_cases hd : d = b
      · subst hd
        by_cases hj : j = o + k
        · subst hj
          simp
        · by_cases hr : o ≤ j ∧ j < o + k
          · rw [if_neg (by omega), if_pos (by omega), if_pos (by omega)]
          · rw [if_neg (by omega), if_neg (by omega), if_neg (by omega)]
      · simp [hd]
  exact key n le_rfl

/-! ## Changes that keep the relation -/

/-- What memory there is behind a vector. -/
theorem Rel.source {s : State K} {t : Spec K} (R : Rel s t) {y : Nat} {v : Val K} {l : List K}
    (hv : t.vec y = some v) (hl : t.value v = some l) :
    ∃ w, s.vec y = some w ∧ w.size = l.length ∧
      (l ≠ [] → ∃ b o N, w.ptr = some (b, o) ∧ s.heap.len b = some N ∧ o + l.length ≤ N ∧
        ∀ i (hi : i < l.length), s.heap.cell b (o + i) = some l[i]) := by
  have h := R.vec y
  rw [hv] at h
  cases hw : s.vec y with
  | none => rw [hw] at h; exact h.elim
  | some w =>
    rw [hw] at h
    refine ⟨w, rfl, ?_⟩
    cases v with
    | own m =>
      obtain ⟨h1, h2, h3⟩ := h
      obtain rfl : m = l := by simpa [Spec.value] using hl
      refine ⟨h1, fun hne => ?_⟩
      obtain ⟨b, hb, hh⟩ := h3 hne
      exact ⟨b, 0, _, hb, hh.1, by omega, fun i hi => by rw [Nat.zero_add]; exact hh.2 i hi⟩
    | view a o n =>
      obtain ⟨h1, h2, h3, b, hb, hp⟩ := h
      simp only [Spec.value] at hl
      cases ha : t.arr a with
      | none => simp [ha] at hl
      | some L =>
        rw [ha, Option.bind_some] at hl
        split_ifs at hl with hle
        cases hl
        have hlen : ((L.drop o).take n).length = n := by simp; omega
        obtain ⟨b', hb', hh⟩ := R.arrHolds a L ha
        obtain rfl : b = b' := by rw [hb] at hb'; simpa using hb'
        refine ⟨by rw [h1, hlen], fun _ => ⟨b, o, L.length, hp, hh.1, by omega, fun i hi => ?_⟩⟩
        rw [hh.2 (o + i) (by omega)]
        simp

/-- A vector that owns no memory is dropped. -/
theorem Rel.drop {s : State K} {t : Spec K} (R : Rel s t) (x : Nat) (hx : ∀ b, ¬ Owns s x b) :
    Rel (s.put x none) (t.put x none) := by
  have ho : ∀ y b, Owns (s.put x none) y b ↔ Owns s y b := by
    intro y b
    by_cases hy : y = x
    · subst hy
      constructor
      · rintro ⟨w, hw, _⟩; simp [State.put] at hw
      · intro h; exact (hx b h).elim
    · simp [Owns, State.put, hy]
  refine ⟨R.arrays, R.arrHolds, R.arrNone, R.arrLt, R.arrInj, fun y => ?_, ?_, ?_, ?_, R.unused⟩
  · by_cases hy : y = x
    · simp [State.put, Spec.put, hy, VRel]
    · simpa [State.put, Spec.put, hy] using R.vec y
  · intro y z b h1 h2; exact R.ownInj y z b ((ho _ _).1 h1) ((ho _ _).1 h2)
  · intro y b a h; exact R.ownArr y b a ((ho _ _).1 h)
  · intro b hb
    rcases R.leak b hb with ⟨y, h⟩ | h
    · exact .inl ⟨y, (ho _ _).2 h⟩
    · exact .inr h

/-- The memory of a vector is released with it. -/
theorem Rel.release {s : State K} {t : Spec K} (R : Rel s t) {x b : Nat} {w : Vec} (hw : s.vec x = some w)
    (ht : w.temp = false) (hs : w.size ≠ 0) (hp : w.ptr = some (b, 0)) :
    ∃ h, s.heap.free w.ptr = .ok h ∧ h.next = s.heap.next ∧
      Rel ({ s with heap := h }.put x none) (t.put x none) := by
  have hO : Owns s x b := ⟨w, hw, ht, hs, hp⟩
  obtain ⟨hlt, l, htx, hne, hh⟩ := R.own_lt hO
  refine ⟨{ s.heap with len := fun c => if c = b then none else s.heap.len c }, ?_, rfl, ?_⟩
  · rw [hp, Heap.free, if_pos (by rw [hh.1]; rfl)]
  have ho : ∀ y c, Owns ({ s with heap := { s.heap with len := fun c => if c = b then none else s.heap.len c } }.put x none)
      y c ↔ y ≠ x ∧ Owns s y c := by
    intro y c
    by_cases hy : y = x
    · subst hy
      simp [Owns, State.put]
    · simp [Owns, State.put, hy]
  have keep : ∀ c m, c ≠ b → Holds s.heap c m →
      Holds { s.heap with len := fun c => if c = b then none else s.heap.len c } c m := by
    intro c m hc h
    exact ⟨by simp only [if_neg hc]; exact h.1, h.2⟩
  refine ⟨R.arrays, ?_, ?_, R.arrLt, R.arrInj, fun y => ?_, ?_, ?_, ?_, ?_⟩
  · intro a m h
    obtain ⟨c, hc, hm⟩ := R.arrHolds a m h
    exact ⟨c, hc, keep c m (fun e => R.ownArr x b a hO (e ▸ hc)) hm⟩
  · intro a c h h'
    have := R.arrNone a c h h'
    simp only [State.put]
    split_ifs <;> simp_all
  · by_cases hy : y = x
    · simp [State.put, Spec.put, hy, VRel]
    · have hv := R.vec y
      simp only [State.put, Spec.put, if_neg hy]
      cases hsy : s.vec y with
      | none => rw [hsy] at hv; cases hty : t.vec y <;> simp_all [VRel]
      | some w' =>
        rw [hsy] at hv
        cases hty : t.vec y with
        | none => rw [hty] at hv; exact hv.elim
        | some v =>
          rw [hty] at hv
          cases v with
          | own m =>
            obtain ⟨h1, h2, h3⟩ := hv
            refine ⟨h1, h2, fun hm => ?_⟩
            obtain ⟨c, hc, hhc⟩ := h3 hm
            refine ⟨c, hc, keep c m ?_ hhc⟩
            rintro rfl
            have : Owns s y c := ⟨w', hsy, h2, by rw [h1]; simpa using hm, hc⟩
            exact hy (R.ownInj y x c this hO)
          | view a o n => exact hv
  · intro y z c h1 h2; exact R.ownInj y z c ((ho _ _).1 h1).2 ((ho _ _).1 h2).2
  · intro y c a h; exact R.ownArr y c a ((ho _ _).1 h).2
  · intro c hc
    have hcb : c ≠ b := by rintro rfl; simp [State.put] at hc
    have hc' : s.heap.len c ≠ none := by simpa [State.put, hcb] using hc
    rcases R.leak c hc' with ⟨y, h⟩ | h
    · refine .inl ⟨y, (ho _ _).2 ⟨?_, h⟩⟩
      rintro rfl
      obtain ⟨w', hw', _, _, hp'⟩ := h
      rw [hw] at hw'
      cases hw'
      rw [hp] at hp'
      simp at hp'
      exact hcb hp'.symm
    · exact .inr h
  · intro c hc
    have := R.unused c hc
    simp only [State.put]
    split_ifs <;> simp_all

/-- A vector without elements is made. -/
theorem Rel.addEmpty {s : State K} {t : Spec K} (R : Rel s t) (x : Nat) (hx : t.vec x = none)
    (p : Option (Nat × Nat)) : Rel (s.put x (some ⟨0, p, false⟩)) (t.put x (some (.own []))) := by
  have hsx : s.vec x = none := by
    have h := R.vec x
    rw [hx] at h
    cases hs : s.vec x with
    | none => rfl
    | some w => rw [hs] at h; exact h.elim
  have ho : ∀ y b, Owns (s.put x (some ⟨0, p, false⟩)) y b ↔ Owns s y b := by
    intro y b
    by_cases hy : y = x
    · subst hy
      simp [Owns, State.put, hsx]
    · simp [Owns, State.put, hy]
  refine ⟨R.arrays, R.arrHolds, R.arrNone, R.arrLt, R.arrInj, fun y => ?_, ?_, ?_, ?_, R.unused⟩
  · by_cases hy : y = x
    · simp [State.put, Spec.put, hy, VRel]
    · simpa [State.put, Spec.put, hy] using R.vec y
  · intro y z b h1 h2; exact R.ownInj y z b ((ho _ _).1 h1) ((ho _ _).1 h2)
  · intro y b a h; exact R.ownArr y b a ((ho _ _).1 h)
  · intro b hb
    rcases R.leak b hb with ⟨y, h⟩ | h
    · exact .inl ⟨y, (ho _ _).2 h⟩
    · exact .inr h

/-- A view is made. -/
theorem Rel.addView {s : State K} {t : Spec K} (R : Rel s t) (x : Nat) (hx : t.vec x = none) {a o n b : Nat}
    (hn : 0 < n) (hb : s.arr a = some b) :
    Rel (s.put x (some ⟨n, some (b, o), true⟩)) (t.put x (some (.view a o n))) := by
  have hsx : s.vec x = none := by
    have h := R.vec x
    rw [hx] at h
    cases hs : s.vec x with
    | none => rfl
    | some w => rw [hs] at h; exact h.elim
  have ho : ∀ y c, Owns (s.put x (some ⟨n, some (b, o), true⟩)) y c ↔ Owns s y c := by
    intro y c
    by_cases hy : y = x
    · subst hy
      simp [Owns, State.put, hsx]
    · simp [Owns, State.put, hy]
  refine ⟨R.arrays, R.arrHolds, R.arrNone, R.arrLt, R.arrInj, fun y => ?_, ?_, ?_, ?_, R.unused⟩
  · by_cases hy : y = x
    · simp only [State.put, Spec.put, hy, if_true]
      exact ⟨rfl, hn, rfl, b, hb, rfl⟩
    · simpa [State.put, Spec.put, hy] using R.vec y
  · intro y z c h1 h2; exact R.ownInj y z c ((ho _ _).1 h1) ((ho _ _).1 h2)
  · intro y c a h; exact R.ownArr y c a ((ho _ _).1 h)
  · intro c hc
    rcases R.leak c hc with ⟨y, h⟩ | h
    · exact .inl ⟨y, (ho _ _).2 h⟩
    · exact .inr h

/-- The heap after a new block has been filled with `l`. -/
def filled (h : Heap K) (l : List K) : Heap K :=
  { len := fun b => if b = h.next then some l.length else h.len b,
    cell := fun b i => if b = h.next then l[i]? else h.cell b i,
    next := h.next + 1 }

theorem filled_holds (h : Heap K) (l : List K) : Holds (filled h l) h.next l :=
  ⟨by simp [filled], fun i hi => by simp [filled, hi]⟩

theorem filled_keep (h : Heap K) (l : List K) {b : Nat} {m : List K} (hb : b ≠ h.next) (hh : Holds h b m) :
    Holds (filled h l) b m :=
  ⟨by simp only [filled, if_neg hb]; exact hh.1, fun i hi => by simp only [filled, if_neg hb]; exact hh.2 i hi⟩

/-- A vector with elements is made. -/
theorem Rel.addOwn {s : State K} {t : Spec K} (R : Rel s t) (x : Nat) (hx : t.vec x = none) (l : List K)
    (hl : l ≠ []) :
    Rel ({ s with heap := filled s.heap l }.put x (some ⟨l.length, some (s.heap.next, 0), false⟩))
      (t.put x (some (.own l))) := by
  have hsx : s.vec x = none := by
    have h := R.vec x
    rw [hx] at h
    cases hs : s.vec x with
    | none => rfl
    | some w => rw [hs] at h; exact h.elim
  have hlen : l.length ≠ 0 := by simpa using hl
  have ho : ∀ y c, Owns ({ s with heap := filled s.heap l }.put x (some ⟨l.length, some (s.heap.next, 0), false⟩)) y c ↔
      (y = x ∧ c = s.heap.next) ∨ Owns s y c := by
    intro y c
    by_cases hy : y = x
    · subst hy
      constructor
      · rintro ⟨w, hw, _, _, hp⟩
        left
        simp only [State.put, if_true, Option.some.injEq] at hw
        subst hw
        simpa using hp.symm
      · rintro (⟨_, rfl⟩ | ⟨w, hw, _⟩)
        · exact ⟨_, by simp only [State.put, if_true]; rfl, rfl, hlen, rfl⟩
        · rw [hsx] at hw; cases hw
    · simp [Owns, State.put, hy]
  refine ⟨R.arrays, ?_, ?_, ?_, R.arrInj, fun y => ?_, ?_, ?_, ?_, ?_⟩
  · intro a m h
    obtain ⟨c, hc, hm⟩ := R.arrHolds a m h
    exact ⟨c, hc, filled_keep _ _ (R.arrLt a c hc).2.ne hm⟩
  · intro a c h h'
    have e : c ≠ s.heap.next := (R.arrLt a c h').2.ne
    simp only [State.put, filled, if_neg e]
    exact R.arrNone a c h h'
  · intro a c h
    obtain ⟨h1, h2⟩ := R.arrLt a c h
    exact ⟨h1, Nat.lt_succ_of_lt h2⟩
  · by_cases hy : y = x
    · simp only [State.put, Spec.put, hy, if_true]
      exact ⟨rfl, rfl, fun _ => ⟨_, rfl, filled_holds _ _⟩⟩
    · have hv := R.vec y
      simp only [State.put, Spec.put, if_neg hy]
      cases hsy : s.vec y with
      | none => rw [hsy] at hv; cases hty : t.vec y <;> simp_all [VRel]
      | some w' =>
        rw [hsy] at hv
        cases hty : t.vec y with
        | none => rw [hty] at hv; exact hv.elim
        | some v =>
          rw [hty] at hv
          cases v with
          | own m =>
            obtain ⟨h1, h2, h3⟩ := hv
            refine ⟨h1, h2, fun hm => ?_⟩
            obtain ⟨c, hc, hhc⟩ := h3 hm
            exact ⟨c, hc, filled_keep _ _ (Holds.lt R hhc).ne hhc⟩
          | view a o n => exact hv
  · intro y z c h1 h2
    rw [ho] at h1 h2
    rcases h1 with ⟨rfl, rfl⟩ | h1 <;> rcases h2 with ⟨rfl, h2⟩ | h2
    · rfl
    · exact absurd (R.own_lt h2).1 (lt_irrefl _)
    · subst h2; exact absurd (R.own_lt h1).1 (lt_irrefl _)
    · exact R.ownInj _ _ _ h1 h2
  · intro y c a h h'
    rw [ho] at h
    rcases h with ⟨rfl, rfl⟩ | h
    · exact absurd (R.arrLt a _ h').2 (lt_irrefl _)
    · exact R.ownArr _ _ _ h h'
  · intro c hc
    by_cases e : c = s.heap.next
    · exact .inl ⟨x, (ho _ _).2 (.inl ⟨rfl, e⟩)⟩
    · simp only [State.put, filled, if_neg e] at hc
      rcases R.leak c hc with ⟨y, h⟩ | h
      · exact .inl ⟨y, (ho _ _).2 (.inr h)⟩
      · exact .inr h
  · intro c hc
    simp only [State.put, filled] at hc ⊢
    rw [if_neg (by omega)]
    exact R.unused c (by omega)

/-- The caller makes an array. -/
theorem Rel.addArr {s : State K} {t : Spec K} (R : Rel s t) (l : List K) :
    Rel { s with heap := filled s.heap l, arr := fun a => if a = s.arrays then some s.heap.next else s.arr a,
                 arrays := s.arrays + 1 }
      { t with arr := fun a => if a = t.arrays then some l else t.arr a, arrays := t.arrays + 1 } := by
  have hnew : s.arr s.arrays = none := by
    cases h : s.arr s.arrays with
    | none => rfl
    | some b => exact absurd (R.arrLt _ _ h).1 (lt_irrefl _)
  have e := R.arrays
  have ho : ∀ y c, Owns { s with heap := filled s.heap l, arr := fun a => if a = s.arrays then some s.heap.next else s.arr a,
                                 arrays := s.arrays + 1 } y c ↔ Owns s y c := fun y c => Iff.rfl
  refine ⟨by simp [e], ?_, ?_, ?_, ?_, fun y => ?_, R.ownInj, ?_, ?_, ?_⟩
  · intro a m h
    simp only at h ⊢
    rw [← e] at h
    by_cases ha : a = s.arrays
    · rw [if_pos ha] at h ⊢
      cases h
      exact ⟨_, rfl, filled_holds _ _⟩
    · rw [if_neg ha] at h ⊢
      obtain ⟨c, hc, hm⟩ := R.arrHolds a m h
      exact ⟨c, hc, filled_keep _ _ (R.arrLt a c hc).2.ne hm⟩
  · intro a c h h'
    simp only at h h' ⊢
    rw [← e] at h
    by_cases ha : a = s.arrays
    · rw [if_pos ha] at h; cases h
    · rw [if_neg ha] at h h'
      have e : c ≠ s.heap.next := (R.arrLt a c h').2.ne
      simp only [filled, if_neg e]
      exact R.arrNone a c h h'
  · intro a c h
    simp only [filled] at h ⊢
    by_cases ha : a = s.arrays
    · rw [if_pos ha] at h; cases h; omega
    · rw [if_neg ha] at h
      have := R.arrLt a c h
      omega
  · intro a c b h h'
    simp only at h h'
    split_ifs at h h' with h1 h2 h2
    · rw [h1, h2]
    · cases h; exact absurd (R.arrLt _ _ h').2 (lt_irrefl _)
    · cases h'; exact absurd (R.arrLt _ _ h).2 (lt_irrefl _)
    · exact R.arrInj a c b h h'
  · have hv := R.vec y
    simp only
    cases hsy : s.vec y with
    | none => rw [hsy] at hv; cases hty : t.vec y <;> simp_all [VRel]
    | some w' =>
      rw [hsy] at hv
      cases hty : t.vec y with
      | none => rw [hty] at hv; exact hv.elim
      | some v =>
        rw [hty] at hv
        cases v with
        | own m =>
          obtain ⟨h1, h2, h3⟩ := hv
          refine ⟨h1, h2, fun hm => ?_⟩
          obtain ⟨c, hc, hhc⟩ := h3 hm
          exact ⟨c, hc, filled_keep _ _ (Holds.lt R hhc).ne hhc⟩
        | view a o n =>
          obtain ⟨h1, h2, h3, b, hb, hp⟩ := hv
          refine ⟨h1, h2, h3, b, ?_, hp⟩
          have : a ≠ s.arrays := (R.arrLt a b hb).1.ne
          simp only [if_neg this]
          exact hb
  · intro y c a h h'
    rw [ho] at h
    simp only at h'
    split_ifs at h' with h1
    · cases h'; exact absurd (R.own_lt h).1 (lt_irrefl _)
    · exact R.ownArr y c a h h'
  · intro c hc
    by_cases ec : c = s.heap.next
    · exact .inr ⟨s.arrays, by simp [ec]⟩
    · simp only [filled, if_neg ec] at hc
      rcases R.leak c hc with h | ⟨a, h⟩
      · exact .inl h
      · refine .inr ⟨a, ?_⟩
        have : a ≠ s.arrays := (R.arrLt a c h).1.ne
        simp only [if_neg this]
        exact h
  · intro c hc
    simp only [filled] at hc ⊢
    rw [if_neg (by omega)]
    exact R.unused c (by omega)

/-- The caller releases an array. -/
theorem Rel.freeArr {s : State K} {t : Spec K} (R : Rel s t) {a : Nat} {l : List K} (ha : t.arr a = some l) :
    ∃ b h, s.arr a = some b ∧ s.heap.free (some (b, 0)) = .ok h ∧
      Rel { s with heap := h } { t with arr := fun c => if c = a then none else t.arr c } := by
  obtain ⟨b, hb, hh⟩ := R.arrHolds a l ha
  refine ⟨b, { s.heap with len := fun c => if c = b then none else s.heap.len c }, hb, ?_, ?_⟩
  · rw [Heap.free, if_pos (by rw [hh.1]; rfl)]
  have keep : ∀ c m, c ≠ b → Holds s.heap c m →
      Holds { s.heap with len := fun c => if c = b then none else s.heap.len c } c m := by
    intro c m hc h
    exact ⟨by simp only [if_neg hc]; exact h.1, h.2⟩
  refine ⟨R.arrays, ?_, ?_, R.arrLt, R.arrInj, fun y => ?_, R.ownInj, R.ownArr, ?_, ?_⟩
  · intro c m h
    simp only at h
    split_ifs at h with hc
    obtain ⟨d, hd, hm⟩ := R.arrHolds c m h
    exact ⟨d, hd, keep d m (fun e => hc (R.arrInj c a b (e ▸ hd) hb)) hm⟩
  · intro c d h h'
    simp only at h ⊢
    split_ifs with hd
    · rfl
    · split_ifs at h with hc
      · subst hc
        exfalso
        rw [hb] at h'
        exact hd (by simpa using h'.symm)
      · exact R.arrNone c d h h'
  · have hv := R.vec y
    simp only
    cases hsy : s.vec y with
    | none => rw [hsy] at hv; cases hty : t.vec y <;> simp_all [VRel]
    | some w' =>
      rw [hsy] at hv
      cases hty : t.vec y with
      | none => rw [hty] at hv; exact hv.elim
      | some v =>
        rw [hty] at hv
        cases v with
        | own m =>
          obtain ⟨h1, h2, h3⟩ := hv
          refine ⟨h1, h2, fun hm => ?_⟩
          obtain ⟨c, hc, hhc⟩ := h3 hm
          refine ⟨c, hc, keep c m ?_ hhc⟩
          rintro rfl
          exact R.ownArr y c a ⟨w', hsy, h2, by rw [h1]; simpa using hm, hc⟩ hb
        | view a o n => exact hv
  · intro c hc
    have hcb : c ≠ b := by rintro rfl; simp at hc
    simp only [if_neg hcb] at hc
    exact R.leak c hc
  · intro c hc
    have := R.unused c hc
    simp only
    split_ifs <;> simp_all

/-- The values of a vector are replaced. -/
theorem Rel.store {s : State K} {t : Spec K} (R : Rel s t) {x : Nat} {v : Val K} {l l' : List K} {w : Vec}
    {b o : Nat} (hv : t.vec x = some v) (hl : t.value v = some l) (hne : l ≠ []) (hlen : l'.length = l.length)
    (hw : s.vec x = some w) (hp : w.ptr = some (b, o)) (g : Nat → K) (hg : ∀ i (h : i < l'.length), g i = l'[i]) :
    Rel { s with heap := { s.heap with cell := fun c j =>
            if c = b ∧ o ≤ j ∧ j < o + l.length then some (g (j - o)) else s.heap.cell c j } }
      (t.store x l' v) := by
  have keep : ∀ c m, c ≠ b → Holds s.heap c m →
      Holds { s.heap with cell := fun c j =>
            if c = b ∧ o ≤ j ∧ j < o + l.length then some (g (j - o)) else s.heap.cell c j } c m := by
    intro c m hc h
    exact ⟨h.1, fun i hi => by simp only [hc, false_and, if_false]; exact h.2 i hi⟩
  have hvx := R.vec x
  rw [hv, hw] at hvx
  cases v with
  | own m =>
    obtain rfl : m = l := by simpa [Spec.value] using hl
    obtain ⟨h1, h2, h3⟩ := hvx
    obtain ⟨b', hb', hh⟩ := h3 hne
    rw [hp] at hb'
    obtain ⟨rfl, rfl⟩ : b = b' ∧ o = 0 := by simpa using hb'
    have hO : Owns s x b := ⟨w, hw, h2, by rw [h1]; simpa using hne, hp⟩
    refine ⟨R.arrays, ?_, R.arrNone, R.arrLt, R.arrInj, fun y => ?_, R.ownInj, R.ownArr, R.leak, R.unused⟩
    · intro a m' h
      obtain ⟨c, hc, hm⟩ := R.arrHolds a m' h
      exact ⟨c, hc, keep c m' (fun e => R.ownArr x b a hO (e ▸ hc)) hm⟩
    · simp only [Spec.store, Spec.put]
      by_cases hy : y = x
      · subst hy
        rw [if_pos rfl]
        simp only [hw]
        refine ⟨by rw [h1, hlen], h2, fun _ => ⟨b, hp, by rw [hlen]; exact hh.1, fun i hi => ?_⟩⟩
        simp only [true_and]
        rw [if_pos (by omega), Nat.sub_zero, hg i hi]
      · rw [if_neg hy]
        have hvy := R.vec y
        cases hsy : s.vec y with
        | none => rw [hsy] at hvy; cases hty : t.vec y <;> simp_all [VRel]
        | some w' =>
          rw [hsy] at hvy
          cases hty : t.vec y with
          | none => rw [hty] at hvy; exact hvy.elim
          | some v' =>
            rw [hty] at hvy
            cases v' with
            | own m' =>
              obtain ⟨k1, k2, k3⟩ := hvy
              refine ⟨k1, k2, fun hm => ?_⟩
              obtain ⟨c, hc, hhc⟩ := k3 hm
              refine ⟨c, hc, keep c m' ?_ hhc⟩
              rintro rfl
              exact hy (R.ownInj y x c ⟨w', hsy, k2, by rw [k1]; simpa using hm, hc⟩ hO)
            | view a o n => exact hvy
  | view a q n =>
    obtain ⟨h1, h2, h3, b', hb', hp'⟩ := hvx
    rw [hp] at hp'
    obtain ⟨rfl, rfl⟩ : b = b' ∧ o = q := by simpa using hp'
    simp only [Spec.value] at hl
    cases ha : t.arr a with
    | none => simp [ha] at hl
    | some L =>
      rw [ha, Option.bind_some] at hl
      split_ifs at hl with hle
      have hln : l.length = n := by
        have := congrArg (Option.map List.length) hl
        simp at this
        omega
      obtain ⟨c0, hc0, hh⟩ := R.arrHolds a L ha
      obtain rfl : c0 = b := by rw [hb'] at hc0; simpa using hc0.symm
      refine ⟨R.arrays, ?_, ?_, R.arrLt, R.arrInj, fun y => ?_, R.ownInj, R.ownArr, R.leak, R.unused⟩
      · intro d m h
        simp only [Spec.store] at h
        split_ifs at h with hd
        · subst hd
          rw [ha] at h
          simp only [Option.map_some, Option.some.injEq] at h
          subst h
          refine ⟨c0, hb', ?_, fun i hi => ?_⟩
          · simp only [hh.1, List.length_append, List.length_take, List.length_drop, hlen, hln]
            congr 1
            omega
          · simp only [List.length_append, List.length_take, List.length_drop, hlen, hln] at hi
            simp only [true_and]
            rw [hln]
            by_cases hr : o ≤ i ∧ i < o + n
            · rw [if_pos hr, hg (i - o) (by omega), List.getElem_append_left (by simp; omega),
                List.getElem_append_right (by simp; omega)]
              congr 2
              simp
              omega
            · rw [if_neg hr, hh.2 i (by omega)]
              congr 1
              by_cases hi' : i < o
              · rw [List.getElem_append_left (by simp; omega), List.getElem_append_left (by simp; omega),
                  List.getElem_take]
              · rw [List.getElem_append_right (by simp; omega), List.getElem_drop]
                congr 1
                simp
                omega
        · obtain ⟨c, hc, hm⟩ := R.arrHolds d m h
          exact ⟨c, hc, keep c m (fun e => hd (R.arrInj d a c hc (e ▸ hb'))) hm⟩
      · intro d c h h'
        simp only [Spec.store] at h
        split_ifs at h with hd
        · rw [ha] at h; cases h
        · exact R.arrNone d c h h'
      · have hvy := R.vec y
        simp only [Spec.store]
        cases hsy : s.vec y with
        | none => rw [hsy] at hvy; cases hty : t.vec y <;> simp_all [VRel]
        | some w' =>
          rw [hsy] at hvy
          cases hty : t.vec y with
          | none => rw [hty] at hvy; exact hvy.elim
          | some v' =>
            rw [hty] at hvy
            cases v' with
            | own m' =>
              obtain ⟨k1, k2, k3⟩ := hvy
              refine ⟨k1, k2, fun hm => ?_⟩
              obtain ⟨c, hc, hhc⟩ := k3 hm
              refine ⟨c, hc, keep c m' ?_ hhc⟩
              rintro rfl
              exact R.ownArr y c a ⟨w', hsy, k2, by rw [k1]; simpa using hm, hc⟩ hb'
            | view a o n => exact hvy

/-! ## Every instruction -/

theorem fill_new (h : Heap K) (n : Nat) (v : K) :
    loop (unPass (.set v) (some (h.next, 0))) n (h.alloc n) = .ok (filled h (List.replicate n v)) := by
  rw [un_loop (.set v) h.next 0 n n (h.alloc n) (fun _ => v) (by simp [Heap.alloc]) (by omega) (fun i _ => rfl)]
  congr 1
  simp only [filled, Heap.alloc, List.length_replicate, Heap.mk.injEq, true_and, and_true]
  funext c j
  by_cases hc : c = h.next
  · by_cases hj : j < n
    · simp [hc, hj]
    · simp [hc, hj]
  · simp [hc]

theorem fill_copy (h : Heap K) (l : List K) (b o N : Nat) (hb : b ≠ h.next) (hN : h.len b = some N)
    (hle : o + l.length ≤ N) (hc : ∀ i (hi : i < l.length), h.cell b (o + i) = some l[i]) :
    loop (binPass .add (some (h.next, 0)) (some (b, o))) l.length (filled h (List.replicate l.length 0)) =
      .ok (filled h l) := by
  rw [bin_loop .add h.next 0 b o l.length l.length N (filled h (List.replicate l.length 0)) (fun i => l.getD i 0)
    (fun i => l.getD i 0) (by simp [filled]) (by omega) (by simp [filled, hb, hN]) hle
    (fun i hi => by simp [filled, hb, hc i hi, hi]) (fun i hi => by simp [filled, hi, Bin.val]) (fun e => (hb e).elim)]
  congr 1
  simp only [filled, List.length_replicate, Heap.mk.injEq, true_and, and_true]
  funext c j
  by_cases hc : c = h.next
  · by_cases hj : j < l.length
    · simp [hc, hj]
    · simp [hc, hj]
  · simp [hc]

theorem put_put (s : State K) (x : Nat) (v : Option Vec) : (s.put x none).put x v = s.put x v := by
  simp only [State.put, State.mk.injEq, true_and, and_true]
  funext y
  split_ifs <;> rfl

theorem spec_put_put (t : Spec K) (x : Nat) (v : Option (Val K)) : (t.put x none).put x v = t.put x v := by
  simp only [Spec.put, Spec.mk.injEq, and_true]
  funext y
  split_ifs <;> rfl

theorem Rel.vec_none {s : State K} {t : Spec K} (R : Rel s t) {x : Nat} (hx : t.vec x = none) : s.vec x = none := by
  have h := R.vec x
  rw [hx] at h
  cases hs : s.vec x with
  | none => rfl
  | some w => rw [hs] at h; exact h.elim

/-- Making a vector with elements, as `make` and `resize` do. -/
theorem step_make {s : State K} {t : Spec K} (R : Rel s t) {x n : Nat} (v : K) (hx : t.vec x = none) (hn : 0 < n) :
    ∃ h, loop (unPass (.set v) (some (s.heap.next, 0))) n (s.heap.alloc n) = .ok h ∧
      Rel ({ s with heap := h }.put x (some ⟨n, some (s.heap.next, 0), false⟩))
        (t.put x (some (.own (List.replicate n v)))) := by
  refine ⟨_, fill_new _ _ _, ?_⟩
  have := R.addOwn x hx (List.replicate n v) (by simp; omega)
  rwa [List.length_replicate] at this

/-- Dropping a vector, as the destructor and `resize` do. -/
theorem step_drop {s : State K} {t : Spec K} (R : Rel s t) {x : Nat} {w : Vec} {l : List K} (hw : s.vec x = some w)
    (hv : t.vec x = some (.own l)) :
    w.temp = false ∧ ∃ h, (if w.size = 0 then .ok s.heap else s.heap.free w.ptr) = Out.ok h ∧
      Rel ({ s with heap := h }.put x none) (t.put x none) := by
  have h := R.vec x
  rw [hw, hv] at h
  obtain ⟨h1, h2, h3⟩ := h
  refine ⟨h2, ?_⟩
  by_cases hs : w.size = 0
  · refine ⟨s.heap, if_pos hs, R.drop x ?_⟩
    rintro b ⟨w', hw', _, hs', _⟩
    rw [hw] at hw'
    cases hw'
    exact hs' hs
  · have hl : l ≠ [] := by intro e; rw [e] at h1; exact hs h1
    obtain ⟨b, hb, hh⟩ := h3 hl
    obtain ⟨h', e1, _, e3⟩ := R.release hw h2 hs hb
    exact ⟨h', by rw [if_neg hs]; exact e1, e3⟩

theorem step_rel {s : State K} {t : Spec K} (R : Rel s t) (i : Instr K) (hna : ∀ x y, i ≠ .assign x y) (r : Res K)
    (h : t.step i = some r) :
    match r with
    | .done t' => ∃ s', s.step i = .ok s' ∧ Rel s' t'
    | .refused => s.step i = .err := by
  cases i with
  | dflt x =>
    simp only [Spec.step, Option.isNone_iff_eq_none] at h
    split_ifs at h with hx
    cases h
    refine ⟨_, ?_, R.addEmpty x hx none⟩
    simp [State.step, State.dflt, State.fresh, R.vec_none hx]
  | make x n v =>
    simp only [Spec.step, Option.isNone_iff_eq_none] at h
    split_ifs at h with hx
    cases h
    obtain ⟨h', e1, e2⟩ := step_make R v hx.1 hx.2
    refine ⟨_, ?_, e2⟩
    simp only [State.step, State.make, State.fresh, R.vec_none hx.1, e1, Out.bind]
  | dup x y =>
    simp only [Spec.step, Option.isNone_iff_eq_none] at h
    split_ifs at h with hx
    rw [Spec.valueOf] at h
    cases hv : t.vec y with
    | none => simp [hv] at h
    | some v =>
      rw [hv, Option.bind_some] at h
      cases hl : t.value v with
      | none => simp [hl] at h
      | some l =>
        rw [hl] at h
        cases h
        obtain ⟨w, hw, hs, hp⟩ := R.source hv hl
        by_cases hne : l = []
        · subst hne
          refine ⟨_, ?_, R.addEmpty x hx none⟩
          simp only [State.step, State.dup, State.live, hw, State.fresh, R.vec_none hx]
          rw [if_pos (by simpa using hs)]
        · obtain ⟨b, o, N, e1, e2, e3, e4⟩ := hp hne
          refine ⟨_, ?_, R.addOwn x hx l hne⟩
          have hb : b ≠ s.heap.next := by
            rintro rfl
            rw [R.unused _ le_rfl] at e2
            cases e2
          simp only [State.step, State.dup, State.live, hw, State.fresh, R.vec_none hx]
          rw [if_neg (by rw [hs]; simpa using hne), hs, fill_new, e1]
          simp only [Out.bind]
          rw [fill_copy _ _ _ _ _ hb e2 e3 e4]
  | wrap x a =>
    simp only [Spec.step, Option.isNone_iff_eq_none] at h
    split_ifs at h with hx
    cases ha : t.arr a with
    | none => simp [ha] at h
    | some l =>
      rw [ha, Option.bind_some] at h
      split_ifs at h with hl
      cases h
      obtain ⟨b, hb, hh⟩ := R.arrHolds a l ha
      refine ⟨_, ?_, R.addView x hx hl hb⟩
      simp only [State.step, State.wrap, State.fresh, R.vec_none hx, hb, hh.1]
      obtain ⟨m, hm⟩ : ∃ m, l.length = m + 1 := ⟨l.length - 1, by omega⟩
      rw [hm]
      rfl
  | wrapPtr x n a o =>
    simp only [Spec.step, Option.isNone_iff_eq_none] at h
    split_ifs at h with hx
    cases ha : t.arr a with
    | none => simp [ha] at h
    | some l =>
      rw [ha, Option.bind_some] at h
      split_ifs at h with hl
      cases h
      obtain ⟨b, hb, hh⟩ := R.arrHolds a l ha
      refine ⟨_, ?_, R.addView x hx.1 hx.2 hb⟩
      simp only [State.step, State.wrapPtr, State.fresh, R.vec_none hx.1, hb]
  | destroy x =>
    simp only [Spec.step] at h
    cases hv : t.vec x with
    | none => simp [hv] at h
    | some v =>
      rw [hv] at h
      cases h
      have hr := R.vec x
      rw [hv] at hr
      cases hw : s.vec x with
      | none => rw [hw] at hr; exact hr.elim
      | some w =>
        simp only [State.step, State.destroy, State.live, hw]
        cases v with
        | own l =>
          obtain ⟨e0, h', e1, e2⟩ := step_drop R hw hv
          refine ⟨_, ?_, e2⟩
          split_ifs at e1 ⊢ with hs
          · cases e1; rfl
          · rw [e1]; rfl
        | view a o n =>
          rw [hw] at hr
          obtain ⟨h1, h2, h3, _⟩ := hr
          refine ⟨_, ?_, R.drop x ?_⟩
          · rw [if_neg (by omega), if_neg (by simp [h3])]
          · rintro b ⟨w', hw', ht, _⟩
            rw [hw] at hw'
            cases hw'
            rw [h3] at ht
            cases ht
  | resize x n v =>
    simp only [Spec.step] at h
    cases hv : t.vec x with
    | none => simp [hv] at h
    | some val =>
      rw [hv] at h
      have hr := R.vec x
      rw [hv] at hr
      cases hw : s.vec x with
      | none => rw [hw] at hr; exact hr.elim
      | some w =>
        rw [hw] at hr
        simp only [State.step, State.resize, State.live, hw]
        cases val with
        | view a o m =>
          cases h
          obtain ⟨h1, h2, h3, _⟩ := hr
          simp only [h3, if_true]
        | own l =>
          cases h
          obtain ⟨e0, h', e1, e2⟩ := step_drop R hw hv
          rw [e0]
          simp only [Bool.false_eq_true, if_false]
          rw [e1]
          simp only [Out.bind]
          by_cases hn : n = 0
          · subst hn
            simp only [if_true, loop]
            refine ⟨_, rfl, ?_⟩
            have := e2.addEmpty x (by simp [Spec.put]) w.ptr
            rwa [put_put, spec_put_put] at this
          · simp only [if_neg hn]
            obtain ⟨h'', k1, k2⟩ := step_make e2 v (x := x) (n := n) (by simp [Spec.put]) (by omega)
            simp only [State.put] at k1
            rw [k1]
            refine ⟨_, rfl, ?_⟩
            rw [spec_put_put] at k2
            have e : ({ ({ s with heap := h' }.put x none) with heap := h'' } : State K) =
              { s with heap := h'' }.put x none := rfl
            rw [e, put_put] at k2
            exact k2
  | un x u =>
    simp only [Spec.step] at h
    cases hv : t.vec x with
    | none => simp [hv] at h
    | some v =>
      rw [hv, Option.bind_some] at h
      cases hl : t.value v with
      | none => simp [hl] at h
      | some l =>
        rw [hl] at h
        cases h
        obtain ⟨w, hw, hs, hp⟩ := R.source hv hl
        simp only [State.step, State.live, hw]
        by_cases hne : l = []
        · subst hne
          rw [hs]
          simp only [List.length_nil, loop, Out.bind, List.map_nil]
          refine ⟨_, rfl, ?_⟩
          cases v with
          | own m =>
            obtain rfl : m = [] := by simpa [Spec.value] using hl
            have e : t.store x [] (.own []) = t := by
              have : (fun y => if y = x then some (.own []) else t.vec y) = t.vec := by
                funext y
                split_ifs with hy
                · rw [hy, hv]
                · rfl
              simp only [Spec.store, Spec.put, this]
            rw [e]
            exact R
          | view a o n =>
            have hr := R.vec x
            rw [hv, hw] at hr
            obtain ⟨h1, h2, _⟩ := hr
            simp only [List.length_nil] at hs
            omega
        · obtain ⟨b, o, N, e1, e2, e3, e4⟩ := hp hne
          rw [hs, e1, un_loop u b o l.length N s.heap (fun i => unMean u (l.getD i 0)) e2 e3 ?_]
          · refine ⟨_, rfl, R.store (l' := l.map (unMean u)) hv hl hne (by simp) hw e1 (fun i => unMean u (l.getD i 0)) ?_⟩
            intro i hi
            simp only [List.length_map] at hi
            simp [hi]
          · intro i hi
            rw [e4 i hi]
            cases u with
            | set v => simp [Un.val, unMean]
            | scale v => simp [Un.val, unMean, hi, mul_comm]
  | bin x f y =>
    simp only [Spec.step] at h
    cases hv : t.vec x with
    | none => simp [hv] at h
    | some v =>
      rw [hv, Option.bind_some] at h
      cases hv' : t.vec y with
      | none => simp [hv'] at h
      | some v' =>
        rw [hv', Option.bind_some] at h
        cases hl : t.value v with
        | none => simp [hl] at h
        | some l =>
          rw [hl, Option.bind_some] at h
          cases hl' : t.value v' with
          | none => simp [hl'] at h
          | some l' =>
            rw [hl', Option.bind_some] at h
            split_ifs at h with hc
            cases h
            obtain ⟨hlen, hap⟩ := hc
            obtain ⟨w, hw, hs, hp⟩ := R.source hv hl
            obtain ⟨w', hw', hs', hp'⟩ := R.source hv' hl'
            simp only [State.step, State.live, hw, hw']
            by_cases hne : l = []
            · subst hne
              rw [hs]
              simp only [List.length_nil, loop, Out.bind, List.zipWith_nil_left]
              refine ⟨_, rfl, ?_⟩
              cases v with
              | own m =>
                obtain rfl : m = [] := by simpa [Spec.value] using hl
                have e : t.store x [] (.own []) = t := by
                  have : (fun y => if y = x then some (.own []) else t.vec y) = t.vec := by
                    funext y
                    split_ifs with hy
                    · rw [hy, hv]
                    · rfl
                  simp only [Spec.store, Spec.put, this]
                rw [e]
                exact R
              | view a o n =>
                have hr := R.vec x
                rw [hv, hw] at hr
                obtain ⟨h1, h2, _⟩ := hr
                simp only [List.length_nil] at hs
                omega
            · have hne' : l' ≠ [] := by
                rintro rfl
                exact hne (by simpa using hlen)
              obtain ⟨b, o, N, e1, e2, e3, e4⟩ := hp hne
              obtain ⟨c, q, M, k1, k2, k3, k4⟩ := hp' hne'
              have hal : c = b → q = o ∨ q + l.length ≤ o ∨ o + l.length ≤ q := by
                rintro rfl
                have r1 := R.vec x
                have r2 := R.vec y
                rw [hv, hw] at r1
                rw [hv', hw'] at r2
                cases v with
                | own m =>
                  obtain rfl : m = l := by simpa [Spec.value] using hl
                  obtain ⟨a1, a2, a3⟩ := r1
                  obtain ⟨d, hd, _⟩ := a3 hne
                  rw [e1] at hd
                  obtain ⟨rfl, rfl⟩ : c = d ∧ o = 0 := by simpa using hd
                  have hO : Owns s x c := ⟨w, hw, a2, by rw [a1]; simpa using hne, e1⟩
                  cases v' with
                  | own m' =>
                    obtain ⟨b1, b2, b3⟩ := r2
                    obtain rfl : m' = l' := by simpa [Spec.value] using hl'
                    obtain ⟨d', hd', _⟩ := b3 hne'
                    rw [k1] at hd'
                    exact .inl (by simpa using (Prod.mk.inj (Option.some.inj hd')).2)
                  | view a q' n =>
                    obtain ⟨_, _, _, d', hd', hq⟩ := r2
                    rw [k1] at hq
                    obtain ⟨rfl, rfl⟩ : c = d' ∧ q = q' := by simpa using hq
                    exact (R.ownArr x c a hO hd').elim
                | view a o' n =>
                  obtain ⟨a1, _, _, d, hd, ho⟩ := r1
                  rw [e1] at ho
                  obtain ⟨rfl, rfl⟩ : c = d ∧ o = o' := by simpa using ho
                  cases v' with
                  | own m' =>
                    obtain ⟨b1, b2, b3⟩ := r2
                    obtain rfl : m' = l' := by simpa [Spec.value] using hl'
                    obtain ⟨d', hd', _⟩ := b3 hne'
                    rw [k1] at hd'
                    obtain ⟨rfl, rfl⟩ : c = d' ∧ q = 0 := by simpa using hd'
                    exact (R.ownArr y c a ⟨w', hw', b2, by rw [b1]; simpa using hne', k1⟩ hd).elim
                  | view a' q' n' =>
                    obtain ⟨b1, _, _, d', hd', hq⟩ := r2
                    rw [k1] at hq
                    obtain ⟨rfl, rfl⟩ : c = d' ∧ q = q' := by simpa using hq
                    have := hap (R.arrInj a a' c hd hd')
                    omega
              rw [hs, e1, k1, bin_loop f b o c q l.length N M s.heap (fun i => l'.getD i 0)
                (fun i => binMean f (l.getD i 0) (l'.getD i 0)) e2 e3 k2 (by omega) ?_ ?_ hal]
              · refine ⟨_, rfl, R.store (l' := List.zipWith (binMean f) l l') hv hl hne (by simp [hlen]) hw e1
                  (fun i => binMean f (l.getD i 0) (l'.getD i 0)) ?_⟩
                intro i hi
                have h1 : i < l.length := by simp at hi; omega
                have h2 : i < l'.length := by omega
                simp [h1, h2]
              · intro i hi
                rw [k4 i (by omega)]
                simp [show i < l'.length by omega]
              · intro i hi
                rw [e4 i hi]
                have h2 : i < l'.length := by omega
                cases f <;> simp [Bin.val, binMean, hi, h2, add_comm]
  | assign x y => exact (hna x y rfl).elim
  | newArr l =>
    simp only [Spec.step] at h
    cases h
    refine ⟨_, ?_, R.addArr l⟩
    simp only [State.step, filled, Heap.alloc]
    congr 3
    funext b i
    split_ifs <;> rfl
  | freeArr a =>
    simp only [Spec.step] at h
    cases ha : t.arr a with
    | none => simp [ha] at h
    | some l =>
      rw [ha] at h
      cases h
      obtain ⟨b, h', e1, e2, e3⟩ := R.freeArr ha
      refine ⟨_, ?_, e3⟩
      simp only [State.step, e1, e2, Out.bind]

theorem run_rel {s : State K} {t : Spec K} (R : Rel s t) (p : List (Instr K)) (hp : NoAssign p) (r : Res K)
    (h : t.run p = some r) :
    match r with
    | .done t' => ∃ s', run s p = .ok s' ∧ Rel s' t'
    | .refused => run s p = .err := by
  induction p generalizing s t with
  | nil => cases h; exact ⟨s, rfl, R⟩
  | cons i p ih =>
    rw [Spec.run] at h
    cases hst : t.step i with
    | none => simp [hst] at h
    | some q =>
      rw [hst, Option.bind_some] at h
      have hs := step_rel R i (hp i (by simp)) q hst
      cases q with
      | refused =>
        cases h
        simp only at hs ⊢
        rw [run, hs]
        rfl
      | done t1 =>
        obtain ⟨s1, e1, R1⟩ := hs
        have := ih R1 (fun j hj => hp j (by simp [hj])) h
        cases r with
        | done t2 =>
          obtain ⟨s2, e2, R2⟩ := this
          exact ⟨s2, by rw [run, e1]; exact e2, R2⟩
        | refused =>
          simp only at this ⊢
          rw [run, e1]
          exact this

theorem Rel.shows {s : State K} {t : Spec K} (R : Rel s t) : Shows s t := by
  refine ⟨fun x => ?_, fun x l h => ?_, fun a l h i hi => ?_⟩
  · have := R.vec x
    cases h1 : s.vec x <;> cases h2 : t.vec x <;> simp_all [VRel, State.size]
  · rw [Spec.valueOf] at h
    cases hv : t.vec x with
    | none => simp [hv] at h
    | some v =>
      rw [hv, Option.bind_some] at h
      obtain ⟨w, hw, hs, hp⟩ := R.source hv h
      refine ⟨by simp [State.size, hw, hs], fun i hi => ?_⟩
      obtain ⟨b, o, N, e1, e2, e3, e4⟩ := hp (by rintro rfl; simp at hi)
      simp only [State.get, hw, e1, Option.bind_some, Heap.valid, e2, decide_eq_true_eq]
      rw [if_pos (by omega), e4 i hi]
  · obtain ⟨b, hb, hh⟩ := R.arrHolds a l h
    simp only [State.getArr, hb, Option.bind_some, Heap.valid, hh.1, decide_eq_true_eq]
    rw [if_pos hi, hh.2 i hi]

/-! ## C112 -/

/-- The whole claim: whatever a program that keeps the contract does, memory shows what the specification says, and
    what is to be refused is refused. -/
def C112Claim (K : Type) [Field K] : Prop :=
  ∀ (p : List (Instr K)) (r : Res K), Spec.run Spec.init p = some r → Meets (run State.init p) r

/-- It holds for programs without assignments: vectors made, copied, resized, wrapped around arrays and
    changed in any order keep the values expected, and vectors not named in an operation keep theirs.  Missing: assignments
    (`C112_claim_fails`). -/
theorem C112_values_partial (p : List (Instr K)) (hp : NoAssign p) (r : Res K)
    (h : Spec.run Spec.init p = some r) : Meets (run State.init p) r := by
  have := run_rel (Rel.init (K := K)) p hp r h
  cases r with
  | refused => exact this
  | done t =>
    obtain ⟨s, e, R⟩ := this
    exact ⟨s, e, R.shows⟩

/-- Without assignments no memory is lost: once no vector and no array is left, neither is any block. -/
theorem C112_no_leak_partial (p : List (Instr K)) (hp : NoAssign p) (t : Spec K)
    (h : Spec.run Spec.init p = some (.done t)) (hv : ∀ x, t.vec x = none) (ha : ∀ a, t.arr a = none) :
    ∃ s, run State.init p = .ok s ∧ ∀ b, s.heap.len b = none := by
  obtain ⟨s, e, R⟩ := run_rel (Rel.init (K := K)) p hp (.done t) h
  refine ⟨s, e, fun b => ?_⟩
  by_contra hb
  rcases R.leak b hb with ⟨x, w, hw, _⟩ | ⟨a, hab⟩
  · rw [R.vec_none (hv x)] at hw; cases hw
  · exact hb (R.arrNone a b (ha a) hab)

theorem run_append (s : State K) (p q : List (Instr K)) : run s (p ++ q) = (run s p).bind fun s => run s q := by
  induction p generalizing s with
  | nil => rfl
  | cons i p ih =>
    rw [List.cons_append, run, run]
    cases s.step i with
    | ok s' => simp only [Out.bind]; rw [ih]; rfl
    | err => rfl
    | ub => rfl

/-- The state after an assignment `x = y` of two vectors with their own values. -/
theorem assigned {s : State K} {t : Spec K} (R : Rel s t) {x y : Nat} {l m : List K} (hx : t.vec x = some (.own l))
    (hy : t.vec y = some (.own m)) (hm : m ≠ []) :
    ∃ w b, s.vec y = some w ∧ w.size = m.length ∧ w.temp = false ∧ w.ptr = some (b, 0) ∧ Holds s.heap b m ∧
      s.step (.assign x y) = .ok (s.put x (some w)) := by
  have h1 := R.vec x
  have h2 := R.vec y
  rw [hx] at h1
  rw [hy] at h2
  cases e1 : s.vec x with
  | none => rw [e1] at h1; exact h1.elim
  | some w' =>
    cases e2 : s.vec y with
    | none => rw [e2] at h2; exact h2.elim
    | some w =>
      rw [e2] at h2
      obtain ⟨k1, k2, k3⟩ := h2
      obtain ⟨b, hb, hh⟩ := k3 hm
      refine ⟨w, b, rfl, k1, k2, hb, hh, ?_⟩
      simp [State.step, State.live, e1, e2]

/-- After an assignment both vectors have the same memory, and the end of both lives releases it twice. -/
theorem C112_assign_twice (p : List (Instr K)) (hp : NoAssign p) (t : Spec K)
    (h : Spec.run Spec.init p = some (.done t)) (x y : Nat) (hxy : x ≠ y) (l m : List K)
    (hx : t.vec x = some (.own l)) (hy : t.vec y = some (.own m)) (hm : m ≠ []) :
    run State.init (p ++ [.assign x y, .destroy x, .destroy y]) = .ub := by
  obtain ⟨s, e, R⟩ := run_rel (Rel.init (K := K)) p hp (.done t) h
  obtain ⟨w, b, e2, k1, k2, hb, hh, ha⟩ := assigned R hx hy hm
  have hz : w.size ≠ 0 := by rw [k1]; simpa using hm
  have hf : s.heap.free w.ptr = .ok { s.heap with len := fun c => if c = b then none else s.heap.len c } := by
    rw [hb, Heap.free, if_pos (by rw [hh.1]; rfl)]
  rw [run_append, e]
  simp only [Out.bind, run, ha]
  simp only [State.step, State.destroy, State.live, State.put, if_true, if_neg hz, k2, Out.bind, hf, if_neg hxy.symm, e2]
  rw [hb]
  simp [Heap.free]

/-- A change of one shows in the other: the values of `x` become those given to `y`. -/
theorem C112_assign_shared (p : List (Instr K)) (hp : NoAssign p) (t : Spec K)
    (h : Spec.run Spec.init p = some (.done t)) (x y : Nat) (hxy : x ≠ y) (l m : List K)
    (hx : t.vec x = some (.own l)) (hy : t.vec y = some (.own m)) (hm : m ≠ []) (v : K) :
    ∃ s, run State.init (p ++ [.assign x y, .un y (.set v)]) = .ok s ∧
      ∀ i, i < m.length → s.get x i = some v := by
  obtain ⟨s, e, R⟩ := run_rel (Rel.init (K := K)) p hp (.done t) h
  obtain ⟨w, b, e2, k1, k2, hb, hh, ha⟩ := assigned R hx hy hm
  have hl := un_loop (.set v) b 0 m.length m.length s.heap (fun _ => v) hh.1 (by omega) (fun _ _ => rfl)
  let hp' : Heap K :=
    { s.heap with cell := fun c j => if c = b ∧ 0 ≤ j ∧ j < 0 + m.length then some v else s.heap.cell c j }
  refine ⟨{ s.put x (some w) with heap := hp' }, ?_, ?_⟩
  · rw [run_append, e]
    simp only [Out.bind, run, ha]
    simp only [State.step, State.live, State.put, if_neg hxy.symm, e2, k1, hb]
    rw [hl]
    rfl
  · intro i hi
    simp [State.get, State.put, hb, Heap.valid, hp', hh.1, hi]

/-- The memory the vector on the left had is lost: no vector and no array has it any more. -/
theorem C112_assign_leak (p : List (Instr K)) (hp : NoAssign p) (t : Spec K)
    (h : Spec.run Spec.init p = some (.done t)) (x y : Nat) (hxy : x ≠ y) (l m : List K)
    (hx : t.vec x = some (.own l)) (hl : l ≠ []) (hy : t.vec y = some (.own m)) (hm : m ≠ []) :
    ∃ s b, run State.init (p ++ [.assign x y]) = .ok s ∧ s.heap.len b = some l.length ∧
      (∀ z w o, s.vec z = some w → w.size ≠ 0 → w.ptr ≠ some (b, o)) ∧ ∀ a, s.arr a ≠ some b := by
  obtain ⟨s, e, R⟩ := run_rel (Rel.init (K := K)) p hp (.done t) h
  obtain ⟨w, c, e2, k1, k2, hc, hh, ha⟩ := assigned R hx hy hm
  have h1 := R.vec x
  rw [hx] at h1
  cases e1 : s.vec x with
  | none => rw [e1] at h1; exact h1.elim
  | some w' =>
    rw [e1] at h1
    obtain ⟨j1, j2, j3⟩ := h1
    obtain ⟨b, hb, hhb⟩ := j3 hl
    have hO : Owns s x b := ⟨w', e1, j2, by rw [j1]; simpa using hl, hb⟩
    have hO' : Owns s y c := ⟨w, e2, k2, by rw [k1]; simpa using hm, hc⟩
    have hbc : c ≠ b := by rintro rfl; exact hxy (R.ownInj x y c hO hO')
    refine ⟨s.put x (some w), b, ?_, hhb.1, ?_, fun a h => R.ownArr x b a hO h⟩
    · rw [run_append, e]
      simp only [Out.bind, run, ha]
    · intro z wz o hz hsz hp
      by_cases hzx : z = x
      · simp only [State.put, if_pos hzx, Option.some.injEq] at hz
        subst hz
        rw [hc] at hp
        simp at hp
        exact hbc hp.1
      · simp only [State.put, if_neg hzx] at hz
        have hv := R.vec z
        rw [hz] at hv
        cases hvz : t.vec z with
        | none => rw [hvz] at hv; exact hv
        | some v =>
          rw [hvz] at hv
          cases v with
          | own q =>
            obtain ⟨i1, i2, i3⟩ := hv
            obtain ⟨d, hd, _⟩ := i3 (by rintro rfl; exact hsz i1)
            rw [hp] at hd
            obtain ⟨rfl, rfl⟩ : b = d ∧ o = 0 := by simpa using hd
            exact hzx (R.ownInj z x b ⟨wz, hz, i2, hsz, hp⟩ hO)
          | view a r n =>
            obtain ⟨_, _, _, d, hd, hr⟩ := hv
            rw [hp] at hr
            obtain ⟨rfl, rfl⟩ : b = d ∧ o = r := by simpa using hr
            exact R.ownArr x b a hO hd

/-- Two vectors, one assigned to the other, over any numbers. -/
def twice (K : Type) [Field K] : List (Instr K) := [.make 0 1 1, .make 1 1 0]

theorem twice_spec : Spec.run Spec.init (twice K) =
    some (.done ((Spec.init.put 0 (some (.own [1]))).put 1 (some (.own [0])))) := by
  simp [twice, Spec.run, Spec.step, Spec.put, Spec.init]

theorem twice_noAssign : NoAssign (twice K) := by
  intro i hi x y
  simp [twice] at hi
  rcases hi with rfl | rfl <;> simp

/-- The claim fails: Vector.hh has a destructor and a copy constructor but no assignment. -/
theorem C112_claim_fails : ¬ C112Claim K := by
  intro h
  have h1 := C112_assign_twice (twice K) twice_noAssign _ twice_spec 1 0 (by decide) [0] [1] (by simp [Spec.put])
    (by simp [Spec.put]) (by simp)
  have h2 := h (twice K ++ [.assign 1 0, .destroy 1, .destroy 0]) (.done (Spec.init.put 0 none)) ?_
  · rw [h1] at h2
    obtain ⟨s, hs, _⟩ := h2
    cases hs
  · simp [twice, Spec.run, Spec.step, Spec.put, Spec.init, Spec.valueOf, Spec.value]
    funext y
    split_ifs <;> simp_all

/-! A program with copies, a view and a change of size: the copy keeps the values of the time it was made, the change made
through the view shows in the array, and a view is not resized. -/

def demo : List (Instr ℚ) :=
  [.newArr [1, 2, 3], .wrapPtr 0 2 0 1, .dup 1 0, .make 2 2 5, .bin 0 .add 2, .bin 2 (.axpy 3) 1, .bin 1 .divide 1,
   .dflt 3, .resize 3 2 7, .bin 3 .multiply 0, .destroy 2]

example : NoAssign demo := by
  intro i hi x y
  simp [demo] at hi
  rcases hi with rfl | rfl | rfl | rfl | rfl | rfl | rfl | rfl | rfl | rfl | rfl <;> simp

def shown (p : List (Instr ℚ)) (x : Nat) : Option (List ℚ) :=
  match Spec.run Spec.init p with
  | some (.done t) => t.valueOf x
  | _ => none

example : shown demo 0 = some [7, 8] ∧ shown demo 1 = some [1, 1] ∧ shown demo 2 = none ∧ shown demo 3 = some [49, 56] ∧
    shown demo.dropLast 2 = some [11, 14] := by decide +kernel

example : (Spec.run Spec.init (demo ++ [.resize 0 3 0])).isSome = true := by decide +kernel

end Detran.CallowVector
