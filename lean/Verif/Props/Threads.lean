import Verif.Model.Threads
import Verif.Props.Sweep
import Mathlib.Algebra.BigOperators.Group.Finset.Basic
import Mathlib.Tactic.Linarith
import Mathlib.Tactic.Ring
import Mathlib.Tactic.NormNum

/-!
# C123: sweeps with several threads
-/

namespace Detran.Threads

open Detran.Sweep Detran.Boundary
open Detran.Solver (upd upd_same upd_ne)

variable {F K : Type} [Field K]

/-! ## Contributions -/

/-- All contributions added. -/
def addAll (l : List (Nat × K)) (p : Nat → K) : Nat → K := l.foldl (fun p x => upd p x.1 (p x.1 + x.2)) p

/-- What a list of contributions has for an entry. -/
def tot (l : List (Nat × K)) (c : Nat) : K := (l.map fun x => if x.1 = c then x.2 else 0).sum

theorem addAll_eq (c : Nat) : ∀ (l : List (Nat × K)) (p : Nat → K), addAll l p c = p c + tot l c
  | [], p => by simp [addAll, tot]
  | x :: l, p => by
    show addAll l (upd p x.1 (p x.1 + x.2)) c = _
    rw [addAll_eq c l]
    by_cases h : x.1 = c
    · subst h; rw [upd_same]; simp [tot]; ring
    · rw [upd_ne _ _ (fun e => h e.symm)]; simp [tot, h]

theorem addAll_append (l : List (Nat × K)) (x : Nat) (v : K) (p : Nat → K) :
    addAll (l ++ [(x, v)]) p = upd (addAll l p) x (addAll l p x + v) := by
  unfold addAll
  rw [List.foldl_append]; rfl

/-! ## The sweep in order -/

/-- One direction of the sweep without threads. -/
def serialStep (d : Dir F K) (s : St F K) (o a : Nat) : St F K :=
  let b := d.bup s.bdy o a
  let j := d.body (fun f => b f o a) (s.psi o a) o a
  ⟨writeOuts b o a j.outs, addAll j.adds s.phi, if d.up then setPsi s.psi o a j.psi else s.psi⟩

theorem foldl_rel {α β : Type} (R : α → β → Prop) (f : α → Nat → α) (g : β → Nat → β)
    (h : ∀ p q i, R p q → R (f p i) (g q i)) : ∀ (l : List Nat) p q, R p q → R (l.foldl f p) (l.foldl g q)
  | [], _, _, r => r
  | i :: l, p, q, r => foldl_rel R f g h l _ _ (h p q i r)

/-- The run with a list and the run with moments. -/
def Same {E : Type} (phi0 : Nat → K) (p : Run E K × List (Nat × K)) (r : Run E K) : Prop :=
  p.1.edge = r.edge ∧ p.1.psi = r.psi ∧ r.phi = addAll p.2 phi0

theorem angle1_serial (eq : Nat → (Nat → K) → Nat → K → K × K) (src : Nat → Nat → Nat → K) (w : Nat → K) (nx : Nat) (up : Bool)
    (bup) (s : St K K) (o a : Nat) : angle1 eq src w nx up bup s o a = serialStep (dir1 eq src w nx up bup) s o a := by
  have h := foldl_rel (Same s.phi) (tcell1 (eq a (src o a)) up (w a)) (cell1 (eq a (src o a)) up (w a)) (by
    rintro ⟨p, l⟩ q i ⟨h1, h2, h3⟩
    refine ⟨?_, ?_, ?_⟩
    · simp only [tcell1, cell1] at *; rw [h1]
    · simp only [tcell1, cell1, record] at *; rw [h1, h2]
    · simp only [tcell1, cell1, record] at *; rw [addAll_append, h3, h1]) (cells nx 0 o)
    (⟨bup s.bdy o a (in1 o) o a, fun _ => 0, s.psi o a⟩, []) ⟨bup s.bdy o a (in1 o) o a, s.phi, s.psi o a⟩ ⟨rfl, rfl, rfl⟩
  obtain ⟨h1, h2, h3⟩ := h
  unfold angle1 serialStep dir1
  dsimp only
  rw [h1, h2, h3]
  rfl

theorem angle2_serial (eq : Nat → (Nat → K) → Nat → Nat → K × K → K × (K × K)) (src : Nat → Nat → Nat → K) (w : Nat → K)
    (nx ny : Nat) (up : Bool) (bup) (s : St (Nat → K) K) (o a : Nat) :
    angle2 eq src w nx ny up bup s o a = serialStep (dir2 eq src w nx ny up bup) s o a := by
  have h := foldl_rel (Same s.phi) (trow2 (eq a (src o a)) up (w a) nx (cells nx 0 o))
    (row2 (eq a (src o a)) up (w a) nx (cells nx 0 o)) (by
    rintro ⟨p, l⟩ q j ⟨h1, h2, h3⟩
    have hr := foldl_rel (Same s.phi) (tcell2 (eq a (src o a)) up (w a) nx j) (cell2 (eq a (src o a)) up (w a) nx j) (by
      rintro ⟨p, l⟩ q i ⟨h1, h2, h3⟩
      refine ⟨?_, ?_, ?_⟩
      · simp only [tcell2, cell2] at *; rw [h1]
      · simp only [tcell2, cell2, record] at *; rw [h1, h2]
      · simp only [tcell2, cell2, record] at *; rw [addAll_append, h3, h1]) (cells nx 0 o)
      ({ p with edge := { p.edge with cur := p.edge.v j } }, l) { q with edge := { q.edge with cur := q.edge.v j } }
      ⟨by simp only at h1 ⊢; rw [h1], h2, h3⟩
    obtain ⟨g1, g2, g3⟩ := hr
    refine ⟨?_, ?_, ?_⟩
    · simp only [trow2, row2]; rw [g1]
    · simp only [trow2, row2]; rw [g2]
    · simp only [trow2, row2]; rw [g3]) (cells ny 1 o)
    (⟨⟨0, bup s.bdy o a (in2 o).1 o a, bup s.bdy o a (in2 o).2 o a⟩, fun _ => 0, s.psi o a⟩, [])
    ⟨⟨0, bup s.bdy o a (in2 o).1 o a, bup s.bdy o a (in2 o).2 o a⟩, s.phi, s.psi o a⟩ ⟨rfl, rfl, rfl⟩
  obtain ⟨h1, h2, h3⟩ := h
  unfold angle2 serialStep dir2
  dsimp only
  rw [h1, h2, h3]
  rfl

theorem angle3_serial (eq : Nat → (Nat → K) → Nat → Nat → Nat → K × K × K → K × (K × K × K)) (src : Nat → Nat → Nat → K)
    (w : Nat → K) (nx ny nz : Nat) (up : Bool) (bup) (s : St (Nat → Nat → K) K) (o a : Nat) :
    angle3 eq src w nx ny nz up bup s o a = serialStep (dir3 eq src w nx ny nz up bup) s o a := by
  have h := foldl_rel (Same s.phi) (tplane3 (eq a (src o a)) up (w a) nx ny (cellsU nx 0 o) (cells ny 1 o))
    (plane3 (eq a (src o a)) up (w a) nx ny (cellsU nx 0 o) (cells ny 1 o)) (by
    rintro p q k hpq
    refine foldl_rel (Same s.phi) _ _ ?_ (cells ny 1 o) p q hpq
    rintro ⟨p, l⟩ q j ⟨h1, h2, h3⟩
    have hr := foldl_rel (Same s.phi) (tcell3 (eq a (src o a)) up (w a) nx ny k j) (cell3 (eq a (src o a)) up (w a) nx ny k j) (by
      rintro ⟨p, l⟩ q i ⟨h1, h2, h3⟩
      refine ⟨?_, ?_, ?_⟩
      · simp only [tcell3, cell3] at *; rw [h1]
      · simp only [tcell3, cell3, record] at *; rw [h1, h2]
      · simp only [tcell3, cell3, record] at *; rw [addAll_append, h3, h1]) (cellsU nx 0 o)
      ({ p with edge := { p.edge with cur := p.edge.yz k j } }, l) { q with edge := { q.edge with cur := q.edge.yz k j } }
      ⟨by simp only at h1 ⊢; rw [h1], h2, h3⟩
    obtain ⟨g1, g2, g3⟩ := hr
    refine ⟨?_, ?_, ?_⟩
    · simp only [trow3, row3]; rw [g1]
    · simp only [trow3, row3]; rw [g2]
    · simp only [trow3, row3]; rw [g3]) (cells nz 2 o)
    (⟨⟨0, bup s.bdy o a (in3 o).1 o a, bup s.bdy o a (in3 o).2.1 o a, bup s.bdy o a (in3 o).2.2 o a⟩, fun _ => 0, s.psi o a⟩, [])
    ⟨⟨0, bup s.bdy o a (in3 o).1 o a, bup s.bdy o a (in3 o).2.1 o a, bup s.bdy o a (in3 o).2.2 o a⟩, s.phi, s.psi o a⟩
    ⟨rfl, rfl, rfl⟩
  obtain ⟨h1, h2, h3⟩ := h
  unfold angle3 serialStep dir3
  dsimp only
  rw [h1, h2, h3]
  rfl

/-! ## Independence of the directions of an octant -/

/-- The boundary update of a direction writes the fluxes of this direction only, and reads none of other directions of the
    same octant. -/
structure Local (bup : (Nat → Nat → Nat → F) → Nat → Nat → Nat → Nat → Nat → F) : Prop where
  only : ∀ b o a f o' a', ¬ (o' = o ∧ a' = a) → bup b o a f o' a' = b f o' a'
  dep : ∀ b b' o a, (∀ f o' a', (o' ≠ o ∨ a' = a) → b f o' a' = b' f o' a') → ∀ f, bup b o a f o a = bup b' o a f o a

theorem bc_only (dim side : Nat) (bc : BC F) (b : Bd F) (o a f o' a' : Nat) (h : ¬ (o' = o ∧ a' = a)) :
    bcUpdateAngle dim side bc b o a f o' a' = b f o' a' := by
  unfold bcUpdateAngle
  split
  · unfold reflUpdateAngle
    cases reflOut dim side o with
    | some o1 => exact setB_other _ _ _ _ _ _ _ _ (fun e => h e.2)
    | none => rfl
  · unfold perUpdateAngle
    generalize reflPairs dim side = l
    induction l generalizing b with
    | nil => rfl
    | cons p l ih =>
      rw [List.foldl_cons, ih]
      split
      · exact setB_other _ _ _ _ _ _ _ _ (fun e => h e.2)
      · rfl
  · rfl

theorem bc_dep (dim side : Nat) (bc : BC F) (b b' : Bd F) (o a : Nat) (h : ∀ f o', b f o' a = b' f o' a) (f o' : Nat) :
    bcUpdateAngle dim side bc b o a f o' a = bcUpdateAngle dim side bc b' o a f o' a := by
  unfold bcUpdateAngle
  split
  · unfold reflUpdateAngle
    cases reflOut dim side o with
    | some o1 => dsimp only [setB]; rw [h, h]
    | none => exact h f o'
  · unfold perUpdateAngle
    generalize reflPairs dim side = l
    induction l generalizing b b' with
    | nil => exact h f o'
    | cons p l ih =>
      rw [List.foldl_cons, List.foldl_cons]
      refine ih _ _ fun f o' => ?_
      split
      · unfold setB; rw [h, h]
      · exact h f o'
  · exact h f o'

/-- All boundary conditions are of this kind. -/
theorem local_updateAngle (dim : Nat) (bc : Nat → BC F) : Local (updateAngle dim bc) := by
  constructor
  · intro b o a f o' a' h
    unfold updateAngle
    generalize List.range (2 * dim) = l
    induction l generalizing b with
    | nil => rfl
    | cons p l ih => rw [List.foldl_cons, ih, bc_only _ _ _ _ _ _ _ _ _ h]
  · intro b b' o a h f
    have key : ∀ (l : List Nat) (b b' : Bd F), (∀ f o', b f o' a = b' f o' a) → ∀ f o',
        l.foldl (fun b side => bcUpdateAngle dim side (bc side) b o a) b f o' a =
        l.foldl (fun b side => bcUpdateAngle dim side (bc side) b o a) b' f o' a := by
      intro l
      induction l with
      | nil => exact fun _ _ h => h
      | cons p l ih => exact fun b b' h => ih _ _ (bc_dep _ _ _ _ _ _ _ h)
    exact key _ b b' (fun f o' => h f o' a (Or.inr rfl)) f o

/-- No update at all is, too. -/
theorem local_id : Local (fun (b : Nat → Nat → Nat → F) _ _ => b) :=
  ⟨fun _ _ _ _ _ _ _ => rfl, fun _ _ o a h f => h f o a (Or.inr rfl)⟩

theorem writeOuts_other (o a : Nat) {f o' a' : Nat} (h : ¬ (o' = o ∧ a' = a)) : ∀ (l : List (Nat × F)) (b : Nat → Nat → Nat → F),
    writeOuts b o a l f o' a' = b f o' a'
  | [], _ => rfl
  | p :: l, b => by
    show writeOuts (setB b p.1 o a p.2) o a l f o' a' = _
    rw [writeOuts_other o a h l, setB_other _ _ _ _ _ _ _ _ (fun e => h e.2)]

theorem writeOuts_congr (o a : Nat) : ∀ (l : List (Nat × F)) (b b' : Nat → Nat → Nat → F), (∀ f, b f o a = b' f o a) →
    ∀ f, writeOuts b o a l f o a = writeOuts b' o a l f o a
  | [], _, _, h => h
  | p :: l, b, b', h => writeOuts_congr o a l _ _ (fun f => by dsimp only [setB]; rw [h])

/-! ## An octant -/

section Octant

variable (d : Dir F K) (o : Nat) (b0 : Nat → Nat → Nat → F) (psi0 : Nat → Nat → Nat → K)

/-- What direction `a` does if the octant begins with these fluxes. -/
def job (a : Nat) : Job F K := d.body (fun f => d.bup b0 o a f o a) (psi0 o a) o a

/-- Boundary fluxes of the direction in the end. -/
def finB (a f : Nat) : F := writeOuts (d.bup b0 o a) o a (job d o b0 psi0 a).outs f o a

/-- Angular flux in the end. -/
def finP (a : Nat) : Nat → K := if d.up then (job d o b0 psi0 a).psi else psi0 o a

/-- What direction `a` contributes to entry `x`. -/
def gives (x a : Nat) : K := tot (job d o b0 psi0 a).adds x

variable {d o b0 psi0}

/-- The sweep in order: the first `k` directions of an octant. -/
theorem serial_octant (hl : Local d.bup) (s : St F K) (hb : s.bdy = b0) (hp : s.psi = psi0) : ∀ k,
    let s' := (List.range k).foldl (fun s a => serialStep d s o a) s
    (∀ f o' a', s'.bdy f o' a' = if o' = o ∧ a' < k then finB d o b0 psi0 a' f else b0 f o' a') ∧
    (∀ o' a', s'.psi o' a' = if o' = o ∧ a' < k then finP d o b0 psi0 a' else psi0 o' a') ∧
    (∀ x, s'.phi x = s.phi x + ((List.range k).map (gives d o b0 psi0 x)).sum)
  | 0 => by
    refine ⟨fun f o' a' => ?_, fun o' a' => ?_, fun x => ?_⟩
    · rw [if_neg (by omega)]; exact congrFun (congrFun (congrFun hb f) o') a'
    · rw [if_neg (by omega)]; exact congrFun (congrFun hp o') a'
    · simp
  | k + 1 => by
    obtain ⟨h1, h2, h3⟩ := serial_octant hl s hb hp k
    rw [List.range_succ, List.foldl_append]
    generalize (List.range k).foldl (fun s a => serialStep d s o a) s = s1 at h1 h2 h3
    simp only [List.foldl_cons, List.foldl_nil]
    have hB : ∀ f, d.bup s1.bdy o k f o k = d.bup b0 o k f o k := hl.dep _ _ _ _ (by
      intro f o' a' h
      rw [h1, if_neg]
      rintro ⟨e1, e2⟩
      rcases h with h | h
      · exact h e1
      · omega)
    have hP : s1.psi o k = psi0 o k := by rw [h2, if_neg (by omega)]
    have hJ : d.body (fun f => d.bup s1.bdy o k f o k) (s1.psi o k) o k = job d o b0 psi0 k := by
      unfold job
      rw [hP]
      congr 1
      funext f; exact hB f
    have hs : serialStep d s1 o k = ⟨writeOuts (d.bup s1.bdy o k) o k (job d o b0 psi0 k).outs,
        addAll (job d o b0 psi0 k).adds s1.phi, if d.up then setPsi s1.psi o k (job d o b0 psi0 k).psi else s1.psi⟩ := by
      unfold serialStep
      dsimp only
      rw [hJ]
    rw [hs]
    refine ⟨fun f o' a' => ?_, fun o' a' => ?_, fun x => ?_⟩
    · dsimp only
      by_cases h : o' = o ∧ a' = k
      · obtain ⟨rfl, rfl⟩ := h
        rw [if_pos ⟨rfl, by omega⟩]
        exact writeOuts_congr _ _ _ _ _ hB f
      · rw [writeOuts_other _ _ h, hl.only _ _ _ _ _ _ h, h1]
        by_cases h' : o' = o ∧ a' < k
        · rw [if_pos h', if_pos ⟨h'.1, by omega⟩]
        · rw [if_neg h', if_neg (fun e => h' ⟨e.1, by
            rcases Nat.lt_or_ge a' k with g | g
            · exact g
            · exact absurd ⟨e.1, by omega⟩ h⟩)]
    · dsimp only
      by_cases h : o' = o ∧ a' = k
      · obtain ⟨rfl, rfl⟩ := h
        rw [if_pos (show o' = o' ∧ a' < a' + 1 from ⟨rfl, by omega⟩)]
        unfold finP
        cases d.up
        · exact hP
        · exact setPsi_same _ _ _ _
      · have hu : (if d.up then setPsi s1.psi o k (job d o b0 psi0 k).psi else s1.psi) o' a' = s1.psi o' a' := by
          split
          · exact setPsi_other _ _ _ _ _ _ h
          · rfl
        rw [hu, h2]
        by_cases h' : o' = o ∧ a' < k
        · rw [if_pos h', if_pos ⟨h'.1, by omega⟩]
        · rw [if_neg h', if_neg (fun e => h' ⟨e.1, by
            rcases Nat.lt_or_ge a' k with g | g
            · exact g
            · exact absurd ⟨e.1, by omega⟩ h⟩)]
    · dsimp only
      rw [addAll_eq, h3, List.map_append, List.sum_append]
      simp only [List.map_cons, List.map_nil, List.sum_cons, List.sum_nil, gives]
      ring

/-- The directions of thread `t`. -/
def mine (na : Nat) (assign : Nat → Nat) (t : Nat) : List Nat := (List.range na).filter fun a => assign a == t

theorem mem_mine {na : Nat} {assign : Nat → Nat} {t a : Nat} : a ∈ mine na assign t ↔ a < na ∧ assign a = t := by
  unfold mine
  simp

theorem mine_nodup (na : Nat) (assign : Nat → Nat) (t : Nat) : (mine na assign t).Nodup := List.nodup_range.filter _

/-- Moments are not shared, or only thread 0 is at work. -/
def Alone (tg : Target) (na : Nat) (assign : Nat → Nat) : Prop := tg = .priv ∨ ∀ a < na, assign a = 0

theorem Alone.own {tg : Target} {na : Nat} {assign : Nat → Nat} (h : Alone tg na assign) {t a : Nat} (hm : a ∈ mine na assign t) :
    tg = .priv ∨ t = 0 := h.imp id fun h => by
  obtain ⟨h1, h2⟩ := mem_mine.mp hm
  rw [← h2, h a h1]

variable (d o b0 psi0) in
/-- Where a thread stands. -/
structure ThInv (tg : Target) (na : Nat) (assign : Nat → Nat) (M : Nat → Nat → K) (m : Mach F K) (t : Nat) (done : List Nat) : Prop where
  split : mine na assign t = done ++ ((m.th t).cur.map Cur.a).toList ++ (m.th t).queue
  done : ∀ a ∈ done, (∀ f, m.sh.bdy f o a = finB d o b0 psi0 a f) ∧ m.sh.psi o a = finP d o b0 psi0 a
  queue : ∀ a ∈ (m.th t).queue, (∀ f, m.sh.bdy f o a = b0 f o a) ∧ m.sh.psi o a = psi0 o a
  cur : ∀ c, (m.th t).cur = some c → (∀ f, m.sh.bdy f o c.a = d.bup b0 o c.a f o c.a) ∧ m.sh.psi o c.a = psi0 o c.a ∧
    c.outs = (job d o b0 psi0 c.a).outs ∧ c.psi = (job d o b0 psi0 c.a).psi ∧
    ∀ r, c.reg = some r → ∃ x v l, c.adds = (x, v) :: l ∧ r = m.mem tg t x
  mem : (tg = .priv ∨ t = 0) → ∀ x, m.mem tg t x + ((m.th t).cur.elim 0 fun c => tot c.adds x) + ((m.th t).queue.map (gives d o b0 psi0 x)).sum = M t x

/-- It stands there still if nothing of its own has changed. -/
theorem ThInv.frame {tg : Target} {na : Nat} {assign : Nat → Nat} {M : Nat → Nat → K} {m m' : Mach F K} {t : Nat} {done : List Nat}
    (ha : Alone tg na assign) (h : ThInv d o b0 psi0 tg na assign M m t done) (hc : (m'.th t).cur = (m.th t).cur) (hq : (m'.th t).queue = (m.th t).queue)
    (hm : (tg = .priv ∨ t = 0) → m'.mem tg t = m.mem tg t) (hb : ∀ a ∈ mine na assign t, (∀ f, m'.sh.bdy f o a = m.sh.bdy f o a) ∧ m'.sh.psi o a = m.sh.psi o a) :
    ThInv d o b0 psi0 tg na assign M m' t done where
  split := by rw [hc, hq]; exact h.split
  done := fun a ha => by
    have hb := hb a (by rw [h.split]; simp [ha])
    exact ⟨fun f => by rw [hb.1, (h.done a ha).1], by rw [hb.2, (h.done a ha).2]⟩
  queue := fun a ha => by
    rw [hq] at ha
    have hb := hb a (by rw [h.split]; simp [ha])
    exact ⟨fun f => by rw [hb.1, (h.queue a ha).1], by rw [hb.2, (h.queue a ha).2]⟩
  cur := fun c hcc => by
    rw [hc] at hcc
    have hmem : c.a ∈ mine na assign t := by rw [h.split]; simp [hcc]
    have hb := hb c.a hmem
    obtain ⟨h1, h2, h3, h4, h5⟩ := h.cur c hcc
    exact ⟨fun f => by rw [hb.1, h1], by rw [hb.2, h2], h3, h4, by rw [hm (ha.own hmem)]; exact h5⟩
  mem := fun hx => by rw [hm hx, hc, hq]; exact h.mem hx

variable (d o b0 psi0) in
/-- Where all stand: fluxes outside the octant are untouched, the other kind of moments as well. -/
structure Inv (tg : Target) (na : Nat) (assign : Nat → Nat) (M : Nat → Nat → K) (phi0 : Nat → K) (loc0 : Nat → Nat → K)
    (m : Mach F K) : Prop where
  bdy : ∀ f o' a', ¬ (o' = o ∧ a' < na) → m.sh.bdy f o' a' = b0 f o' a'
  psi : ∀ o' a', ¬ (o' = o ∧ a' < na) → m.sh.psi o' a' = psi0 o' a'
  phi : tg = .priv → m.sh.phi = phi0
  loc : tg = .shared → ∀ t, (m.th t).loc = loc0 t
  th : ∀ t, ∃ done, ThInv d o b0 psi0 tg na assign M m t done

theorem mem_th {tg : Target} {m m' : Mach F K} {t : Nat} (hp : tg = .shared → m'.sh.phi = m.sh.phi)
    (hl : tg = .priv → (m'.th t).loc = (m.th t).loc) : m'.mem tg t = m.mem tg t := by
  cases tg
  · exact hp rfl
  · exact hl rfl

/-- Every step keeps it. -/
theorem step_inv (hl : Local d.bup) {tg : Target} {na : Nat} {assign : Nat → Nat} (ha : Alone tg na assign) {M : Nat → Nat → K}
    {phi0 : Nat → K} {loc0 : Nat → Nat → K} {m : Mach F K} (h : Inv d o b0 psi0 tg na assign M phi0 loc0 m) (t : Nat) :
    Inv d o b0 psi0 tg na assign M phi0 loc0 (step d tg o m t) := by
  obtain ⟨done, ht⟩ := h.th t
  have hsplit := ht.split
  have hnd := mine_nodup na assign t
  unfold step
  cases hc : (m.th t).cur with
  | none =>
    cases hq : (m.th t).queue with
    | nil => exact h
    | cons a q =>
      dsimp only
      rw [hc, hq] at hsplit
      simp only [Option.map_none, Option.toList_none, List.append_nil] at hsplit
      have hmem : a ∈ mine na assign t := by rw [hsplit]; simp
      obtain ⟨hlt, hat⟩ := mem_mine.mp hmem
      obtain ⟨hqb, hqp⟩ := ht.queue a (by rw [hq]; simp)
      have hB : ∀ f, d.bup m.sh.bdy o a f o a = d.bup b0 o a f o a := hl.dep _ _ _ _ (by
        intro f o' a' hh
        by_cases e : o' = o
        · have : a' = a := by rcases hh with hh | hh; exact absurd e hh; exact hh
          subst this; subst e; exact hqb f
        · exact h.bdy _ _ _ (fun g => e g.1))
      have hJ : d.body (fun f => d.bup m.sh.bdy o a f o a) (m.sh.psi o a) o a = job d o b0 psi0 a := by
        unfold job
        rw [hqp]
        congr 1
        funext f; exact hB f
      rw [hJ]
      rw [hsplit, List.nodup_append] at hnd
      obtain ⟨_, hnd2, hdis⟩ := hnd
      rw [List.nodup_cons] at hnd2
      refine ⟨?_, h.psi, h.phi, ?_, ?_⟩
      · intro f o' a' hh
        dsimp only
        rw [hl.only _ _ _ _ _ _ (by rintro ⟨e1, e2⟩; exact hh ⟨e1, by omega⟩)]
        exact h.bdy _ _ _ hh
      · intro e t'
        dsimp only
        by_cases g : t' = t
        · subst g; rw [upd_same]; exact h.loc e t'
        · rw [upd_ne _ _ g]; exact h.loc e t'
      · intro t'
        by_cases g : t' = t
        · subst g
          refine ⟨done, ?_, ?_, ?_, ?_, ?_⟩
          · dsimp only; rw [upd_same, hsplit]; simp
          · intro a' ha'
            have hne : a' ≠ a := hdis a' ha' a (by simp)
            refine ⟨fun f => ?_, (ht.done a' ha').2⟩
            dsimp only
            rw [hl.only _ _ _ _ _ _ (fun e => hne e.2)]
            exact (ht.done a' ha').1 f
          · intro a' ha'
            dsimp only at ha'
            rw [upd_same] at ha'
            have hne : a' ≠ a := fun e => hnd2.1 (e ▸ ha')
            have hh := ht.queue a' (by rw [hq]; exact List.mem_cons_of_mem _ ha')
            refine ⟨fun f => ?_, hh.2⟩
            dsimp only
            rw [hl.only _ _ _ _ _ _ (fun e => hne e.2)]
            exact hh.1 f
          · intro c hcc
            dsimp only at hcc
            rw [upd_same] at hcc
            dsimp only at hcc
            rw [Option.some.injEq] at hcc
            subst hcc
            exact ⟨hB, hqp, rfl, rfl, fun r hr => by simp at hr⟩
          · intro hx x
            have hh := ht.mem hx x
            rw [hc, hq] at hh
            have e : ({ sh := { m.sh with bdy := d.bup m.sh.bdy o a }, th := upd m.th t' ⟨some ⟨a, (job d o b0 psi0 a).adds, none, (job d o b0 psi0 a).outs, (job d o b0 psi0 a).psi⟩, q, (m.th t').loc⟩ } : Mach F K).mem tg t' = m.mem tg t' :=
              mem_th (fun _ => rfl) (fun _ => by dsimp only; rw [upd_same])
            rw [e]
            dsimp only
            rw [upd_same]
            dsimp only [Option.elim]
            rw [← hh]
            simp only [List.map_cons, List.sum_cons, gives, Option.elim]
            ring
        · obtain ⟨done', ht'⟩ := h.th t'
          refine ⟨done', ht'.frame ha ?_ ?_ ?_ ?_⟩
          · dsimp only; rw [upd_ne _ _ g]
          · dsimp only; rw [upd_ne _ _ g]
          · intro _; exact mem_th (fun _ => rfl) (fun _ => by dsimp only; rw [upd_ne _ _ g])
          · intro a' ha'
            have hne : a' ≠ a := fun e => g (by rw [← (mem_mine.mp ha').2, e, hat])
            exact ⟨fun f => hl.only _ _ _ _ _ _ (fun e => hne e.2), rfl⟩
  | some c =>
    rw [hc] at hsplit
    simp only [Option.map_some, Option.toList_some] at hsplit
    have hmem : c.a ∈ mine na assign t := by rw [hsplit]; simp
    obtain ⟨hlt, hat⟩ := mem_mine.mp hmem
    obtain ⟨c1, c2, c3, c4, c5⟩ := ht.cur c hc
    rw [hsplit, List.nodup_append, List.nodup_append] at hnd
    obtain ⟨⟨_, _, hdis1⟩, _, hdis2⟩ := hnd
    have hown := ha.own hmem
    dsimp only
    cases hadds : c.adds with
    | nil =>
      dsimp only
      refine ⟨?_, ?_, h.phi, ?_, ?_⟩
      · intro f o' a' hh
        dsimp only
        rw [writeOuts_other _ _ (by rintro ⟨e1, e2⟩; exact hh ⟨e1, by omega⟩)]
        exact h.bdy _ _ _ hh
      · intro o' a' hh
        dsimp only
        split
        · rw [setPsi_other _ _ _ _ _ _ (by rintro ⟨e1, e2⟩; exact hh ⟨e1, by omega⟩)]; exact h.psi _ _ hh
        · exact h.psi _ _ hh
      · intro e t'
        dsimp only
        by_cases g : t' = t
        · subst g; rw [upd_same]; exact h.loc e t'
        · rw [upd_ne _ _ g]; exact h.loc e t'
      · have hpsi : ∀ a', a' ≠ c.a → (if d.up then setPsi m.sh.psi o c.a c.psi else m.sh.psi) o a' = m.sh.psi o a' := by
          intro a' hne
          split
          · exact setPsi_other _ _ _ _ _ _ (fun e => hne e.2)
          · rfl
        intro t'
        by_cases g : t' = t
        · subst g
          refine ⟨done ++ [c.a], ?_, ?_, ?_, ?_, ?_⟩
          · dsimp only; rw [upd_same, hsplit]; simp
          · intro a' ha'
            rw [List.mem_append, List.mem_singleton] at ha'
            rcases ha' with ha' | rfl
            · have hne : a' ≠ c.a := hdis1 a' ha' c.a (by simp)
              refine ⟨fun f => ?_, ?_⟩
              · dsimp only
                rw [writeOuts_other _ _ (fun e => hne e.2)]
                exact (ht.done a' ha').1 f
              · dsimp only
                rw [hpsi a' hne]
                exact (ht.done a' ha').2
            · refine ⟨fun f => ?_, ?_⟩
              · dsimp only [finB]
                rw [c3]
                exact writeOuts_congr _ _ _ _ _ c1 f
              · dsimp only [finP]
                cases d.up
                · exact c2
                · rw [if_pos rfl, if_pos rfl, setPsi_same]; exact c4
          · intro a' ha'
            dsimp only at ha'
            rw [upd_same] at ha'
            have hne : a' ≠ c.a := fun e => hdis2 c.a (by simp) a' ha' e.symm
            refine ⟨fun f => ?_, ?_⟩
            · dsimp only
              rw [writeOuts_other _ _ (fun e => hne e.2)]
              exact (ht.queue a' ha').1 f
            · dsimp only
              rw [hpsi a' hne]
              exact (ht.queue a' ha').2
          · intro c' hcc
            dsimp only at hcc
            rw [upd_same] at hcc
            simp at hcc
          · intro hx x
            have hh := ht.mem hx x
            rw [hc] at hh
            have hmm : ∀ y : Mach F K, y.sh.phi = m.sh.phi → (y.th t').loc = (m.th t').loc → y.mem tg t' = m.mem tg t' :=
              fun y h1 h2 => mem_th (fun _ => h1) (fun _ => h2)
            rw [hmm]
            · dsimp only
              rw [upd_same]
              dsimp only [Option.elim] at hh ⊢
              rw [hadds] at hh
              rw [← hh]
              simp [tot]
            · rfl
            · dsimp only; rw [upd_same]
        · obtain ⟨done', ht'⟩ := h.th t'
          refine ⟨done', ht'.frame ha ?_ ?_ ?_ ?_⟩
          · dsimp only; rw [upd_ne _ _ g]
          · dsimp only; rw [upd_ne _ _ g]
          · intro _; exact mem_th (fun _ => rfl) (fun _ => by dsimp only; rw [upd_ne _ _ g])
          · intro a' ha'
            have hne : a' ≠ c.a := fun e => g (by rw [← (mem_mine.mp ha').2, e, hat])
            exact ⟨fun f => writeOuts_other _ _ (fun e => hne e.2) _ _, hpsi a' hne⟩
    | cons xv l =>
      obtain ⟨x, v⟩ := xv
      dsimp only
      cases hreg : c.reg with
      | none =>
        dsimp only [Mach.setCur]
        refine ⟨h.bdy, h.psi, h.phi, ?_, ?_⟩
        · intro e t'
          dsimp only
          by_cases g : t' = t
          · subst g; rw [upd_same]; exact h.loc e t'
          · rw [upd_ne _ _ g]; exact h.loc e t'
        · intro t'
          by_cases g : t' = t
          · subst g
            have hmm : ∀ y : Thread F K, y.loc = (m.th t').loc → ({ m with th := upd m.th t' y } : Mach F K).mem tg t' = m.mem tg t' :=
              fun y hy => mem_th (fun _ => rfl) (fun _ => by dsimp only; rw [upd_same, hy])
            refine ⟨done, ?_, ht.done, ?_, ?_, ?_⟩
            · dsimp only; rw [upd_same, hsplit]; simp
            · intro a' ha'
              dsimp only at ha'
              rw [upd_same] at ha'
              exact ht.queue a' ha'
            · intro c' hcc
              dsimp only at hcc
              rw [upd_same] at hcc
              dsimp only at hcc
              rw [Option.some.injEq] at hcc
              subst hcc
              refine ⟨c1, c2, c3, c4, fun r hr => ⟨x, v, l, rfl, ?_⟩⟩
              rw [hmm]
              · simp only [Option.some.injEq] at hr
                exact hr.symm
              · rfl
            · intro hx y
              have hh := ht.mem hx y
              rw [hc] at hh
              rw [hmm]
              · dsimp only
                rw [upd_same]
                dsimp only [Option.elim] at hh ⊢
                rw [hadds] at hh
                exact hh
              · rfl
          · obtain ⟨done', ht'⟩ := h.th t'
            refine ⟨done', ht'.frame ha ?_ ?_ ?_ fun _ _ => ⟨fun _ => rfl, rfl⟩⟩
            · dsimp only; rw [upd_ne _ _ g]
            · dsimp only; rw [upd_ne _ _ g]
            · intro _; exact mem_th (fun _ => rfl) (fun _ => by dsimp only; rw [upd_ne _ _ g])
      | some r =>
        obtain ⟨x', v', l', e1, e2⟩ := c5 r hreg
        rw [hadds, List.cons.injEq, Prod.mk.injEq] at e1
        obtain ⟨⟨rfl, rfl⟩, rfl⟩ := e1
        subst e2
        dsimp only
        set m' : Mach F K := (m.setCur t (some { c with adds := l, reg := none })).setMem tg t (upd (m.mem tg t) x (m.mem tg t x + v)) with hm'
        have sbdy : m'.sh.bdy = m.sh.bdy := by cases tg <;> rfl
        have spsi : m'.sh.psi = m.sh.psi := by cases tg <;> rfl
        have scur : (m'.th t).cur = some { c with adds := l, reg := none } := by
          cases tg <;> simp [hm', Mach.setMem, Mach.setCur, upd_same]
        have squeue : (m'.th t).queue = (m.th t).queue := by
          cases tg <;> simp [hm', Mach.setMem, Mach.setCur, upd_same]
        have smem : m'.mem tg t = upd (m.mem tg t) x (m.mem tg t x + v) := by
          cases tg <;> simp [hm', Mach.mem, Mach.setMem, Mach.setCur, upd_same]
        have soth : ∀ t', t' ≠ t → m'.th t' = m.th t' := fun t' g => by
          cases tg <;> simp [hm', Mach.setMem, Mach.setCur, upd_ne _ _ g]
        refine ⟨?_, ?_, ?_, ?_, ?_⟩
        · rw [sbdy]; exact h.bdy
        · rw [spsi]; exact h.psi
        · rintro rfl; exact h.phi rfl
        · rintro rfl t'
          by_cases g : t' = t
          · subst g
            rw [← h.loc rfl]
            simp [hm', Mach.setMem, Mach.setCur, upd_same]
          · rw [soth t' g]; exact h.loc rfl t'
        · intro t'
          by_cases g : t' = t
          · subst g
            refine ⟨done, ?_, ?_, ?_, ?_, ?_⟩
            · rw [scur, squeue, hsplit]; simp
            · rw [sbdy, spsi]; exact ht.done
            · rw [sbdy, spsi, squeue]; exact ht.queue
            · intro c' hcc
              rw [scur, Option.some.injEq] at hcc
              subst hcc
              rw [sbdy, spsi]
              exact ⟨c1, c2, c3, c4, fun r hr => by simp at hr⟩
            · intro hx y
              have hh := ht.mem hx y
              rw [hc] at hh
              rw [smem, scur, squeue, ← hh]
              dsimp only [Option.elim]
              rw [hadds]
              by_cases e : y = x
              · subst e; rw [upd_same]; simp [tot]; ring
              · rw [upd_ne _ _ e]; simp [tot, Ne.symm e]
          · obtain ⟨done', ht'⟩ := h.th t'
            refine ⟨done', ht'.frame ha ?_ ?_ ?_ fun _ _ => ⟨fun _ => by rw [sbdy], by rw [spsi]⟩⟩
            · rw [soth t' g]
            · rw [soth t' g]
            · intro hx
              rcases hx with rfl | hx
              · dsimp only [Mach.mem]; rw [soth t' g]
              · rcases hown with rfl | hown
                · dsimp only [Mach.mem]; rw [soth t' g]
                · exact absurd (hx.trans hown.symm) g

theorem run_inv (hl : Local d.bup) {tg : Target} {na : Nat} {assign : Nat → Nat} (ha : Alone tg na assign) {M : Nat → Nat → K}
    {phi0 : Nat → K} {loc0 : Nat → Nat → K} : ∀ (sched : List Nat) {m : Mach F K}, Inv d o b0 psi0 tg na assign M phi0 loc0 m →
      Inv d o b0 psi0 tg na assign M phi0 loc0 (sched.foldl (step d tg o) m)
  | [], _, h => h
  | t :: l, _, h => run_inv hl ha l (step_inv hl ha h t)

theorem hand_mem (tg : Target) (na : Nat) (assign : Nat → Nat) (m : Mach F K) (t : Nat) : (hand na assign m).mem tg t = m.mem tg t := by
  cases tg <;> rfl

theorem hand_inv {tg : Target} {na : Nat} {assign : Nat → Nat} (m : Mach F K) :
    Inv d o m.sh.bdy m.sh.psi tg na assign
      (fun t x => m.mem tg t x + ((mine na assign t).map (gives d o m.sh.bdy m.sh.psi x)).sum) m.sh.phi (fun t => (m.th t).loc)
      (hand na assign m) where
  bdy := fun _ _ _ _ => rfl
  psi := fun _ _ _ => rfl
  phi := fun _ => rfl
  loc := fun _ _ => rfl
  th := fun t => ⟨[], rfl, fun a h => by simp at h, fun _ _ => ⟨fun _ => rfl, rfl⟩, fun c h => by simp [hand] at h, fun _ x => by
    rw [hand_mem]
    show _ + (0 : K) + _ = _
    rw [add_zero]
    rfl⟩

/-- An octant swept by the threads. -/
theorem octant_spec (hl : Local d.bup) {tg : Target} {nt na : Nat} {assign : Nat → Nat} (ha : Alone tg na assign)
    (hn : ∀ a < na, assign a < nt) (hnt : 0 < nt) {sched : List Nat} {m m' : Mach F K} (h : octant d tg nt na assign o sched m = some m') :
    (∀ f o' a', m'.sh.bdy f o' a' = if o' = o ∧ a' < na then finB d o m.sh.bdy m.sh.psi a' f else m.sh.bdy f o' a') ∧
    (∀ o' a', m'.sh.psi o' a' = if o' = o ∧ a' < na then finP d o m.sh.bdy m.sh.psi a' else m.sh.psi o' a') ∧
    (tg = .priv → m'.sh.phi = m.sh.phi) ∧ (tg = .shared → ∀ t, (m'.th t).loc = (m.th t).loc) ∧
    (∀ t < nt, (tg = .priv ∨ t = 0) → ∀ x, m'.mem tg t x = m.mem tg t x + ((mine na assign t).map (gives d o m.sh.bdy m.sh.psi x)).sum) := by
  unfold octant at h
  have hi := run_inv hl ha sched (hand_inv (d := d) (o := o) (tg := tg) (na := na) (assign := assign) m)
  dsimp only at h
  generalize sched.foldl (step d tg o) (hand na assign m) = m1 at h hi
  split at h
  · rename_i hall
    obtain rfl : m1 = m' := by simpa using h
    have hid : ∀ t < nt, (m1.th t).cur = none ∧ (m1.th t).queue = [] := fun t ht => by
      have := List.all_eq_true.mp hall t (List.mem_range.mpr ht)
      unfold Thread.idle at this
      rw [Bool.and_eq_true] at this
      exact ⟨Option.isNone_iff_eq_none.mp this.1, List.isEmpty_iff.mp this.2⟩
    have hdone : ∀ a < na, (∀ f, m1.sh.bdy f o a = finB d o m.sh.bdy m.sh.psi a f) ∧ m1.sh.psi o a = finP d o m.sh.bdy m.sh.psi a := by
      intro a hlt
      obtain ⟨done, ht⟩ := hi.th (assign a)
      obtain ⟨e1, e2⟩ := hid _ (hn a hlt)
      have hs := ht.split
      rw [e1, e2] at hs
      simp only [Option.map_none, Option.toList_none, List.append_nil] at hs
      exact ht.done a (by rw [← hs]; exact mem_mine.mpr ⟨hlt, rfl⟩)
    refine ⟨fun f o' a' => ?_, fun o' a' => ?_, hi.phi, hi.loc, fun t ht hx x => ?_⟩
    · by_cases hh : o' = o ∧ a' < na
      · rw [if_pos hh, hh.1]; exact (hdone a' hh.2).1 f
      · rw [if_neg hh]; exact hi.bdy f o' a' hh
    · by_cases hh : o' = o ∧ a' < na
      · rw [if_pos hh, hh.1]; exact (hdone a' hh.2).2
      · rw [if_neg hh]; exact hi.psi o' a' hh
    · obtain ⟨done, hth⟩ := hi.th t
      obtain ⟨e1, e2⟩ := hid t ht
      have := hth.mem hx x
      rw [e1, e2] at this
      simpa using this
  · simp at h

end Octant

/-! ## The whole sweep -/

theorem sum_mine (nt na : Nat) (assign : Nat → Nat) (hn : ∀ a < na, assign a < nt) (g : Nat → K) :
    ∑ t ∈ Finset.range nt, ((mine na assign t).map g).sum = ((List.range na).map g).sum := by
  unfold mine
  have key : ∀ l : List Nat, (∀ a ∈ l, assign a < nt) →
      ∑ t ∈ Finset.range nt, ((l.filter fun a => assign a == t).map g).sum = (l.map g).sum := by
    intro l
    induction l with
    | nil => simp
    | cons a l ih =>
      intro h
      have e : ∀ t, (((a :: l).filter fun a => assign a == t).map g).sum =
          (if assign a = t then g a else 0) + ((l.filter fun a => assign a == t).map g).sum := fun t => by
        rw [List.filter_cons]
        by_cases hh : assign a = t
        · simp [hh]
        · simp [hh]
      simp only [e]
      rw [Finset.sum_add_distrib, ih (fun a ha => h a (List.mem_cons_of_mem _ ha)), Finset.sum_ite_eq,
        if_pos (Finset.mem_range.mpr (h a List.mem_cons_self))]
      simp
  exact key _ fun a ha => hn a (List.mem_range.mp ha)

/-- The moments of the caller and of the threads together. -/
def Mach.total (nt : Nat) (m : Mach F K) (x : Nat) : K := m.sh.phi x + ∑ t ∈ Finset.range nt, (m.th t).loc x

theorem octant_serial {d : Dir F K} {o : Nat} (hl : Local d.bup) {tg : Target} {nt na : Nat} {assign : Nat → Nat}
    (ha : tg = .priv ∨ nt = 1) (hn : ∀ a < na, assign a < nt) (hnt : 0 < nt) {sched : List Nat} {m m' : Mach F K}
    (h : octant d tg nt na assign o sched m = some m') {s : St F K} (hb : s.bdy = m.sh.bdy) (hp : s.psi = m.sh.psi)
    (hx : ∀ x, s.phi x = m.total nt x) :
    let s' := (List.range na).foldl (fun s a => serialStep d s o a) s
    s'.bdy = m'.sh.bdy ∧ s'.psi = m'.sh.psi ∧ ∀ x, s'.phi x = m'.total nt x := by
  obtain ⟨s1, s2, s3⟩ := serial_octant (o := o) hl s hb hp na
  obtain ⟨p1, p2, p3, p4, p5⟩ := octant_spec hl (ha.imp id fun e a h => by have := hn a h; omega) hn hnt h
  refine ⟨?_, ?_, fun x => ?_⟩
  · funext f o' a'; rw [s1, p1]
  · funext o' a'; rw [s2, p2]
  · rw [s3, hx]
    unfold Mach.total
    cases tg with
    | priv =>
      rw [p3 rfl, add_assoc, ← sum_mine nt na assign hn, ← Finset.sum_add_distrib]
      congr 1
      refine Finset.sum_congr rfl fun t ht => ?_
      exact (p5 t (Finset.mem_range.mp ht) (Or.inl rfl) x).symm
    | shared =>
      obtain rfl : nt = 1 := by rcases ha with ha | ha; cases ha; exact ha
      have := p5 0 (by omega) (Or.inr rfl) x
      dsimp only [Mach.mem] at this
      rw [this, Finset.sum_range_one, Finset.sum_range_one, p4 rfl, ← sum_mine 1 na assign hn, Finset.sum_range_one]
      ring

theorem octants_serial {d : Dir F K} (hl : Local d.bup) {tg : Target} {nt na : Nat} {assign : Nat → Nat → Nat}
    (ha : tg = .priv ∨ nt = 1) (hnt : 0 < nt) : ∀ (oct : List (Nat × List Nat)) (_ : ∀ p ∈ oct, ∀ a < na, assign p.1 a < nt)
      {m m' : Mach F K} (_ : octants d tg nt na assign oct m = some m') {s : St F K} (_ : s.bdy = m.sh.bdy) (_ : s.psi = m.sh.psi)
      (_ : ∀ x, s.phi x = m.total nt x),
    let s' := (oct.map Prod.fst).foldl (fun s o => (List.range na).foldl (fun s a => serialStep d s o a) s) s
    s'.bdy = m'.sh.bdy ∧ s'.psi = m'.sh.psi ∧ ∀ x, s'.phi x = m'.total nt x
  | [], _, m, m', h, s, hb, hp, hx => by
    obtain rfl : m = m' := by simpa [octants] using h
    exact ⟨hb, hp, hx⟩
  | (o, sched) :: l, hn, m, m', h, s, hb, hp, hx => by
    rw [octants] at h
    obtain ⟨m1, h1, h2⟩ := Option.bind_eq_some_iff.mp h
    obtain ⟨g1, g2, g3⟩ := octant_serial hl ha (hn _ List.mem_cons_self) hnt h1 hb hp hx
    exact octants_serial hl ha hnt l (fun p hp => hn p (List.mem_cons_of_mem _ hp)) h2 g1 g2 g3

theorem merge_phi (n : Nat) (m : Mach F K) (t x : Nat) (hx : x < n) : (merge n m t).sh.phi x = m.sh.phi x + (m.th t).loc x := by
  unfold merge
  dsimp only
  have key : ∀ k, ∀ x, (List.range k).foldl (fun p i => upd p i (p i + (m.th t).loc i)) m.sh.phi x =
      if x < k then m.sh.phi x + (m.th t).loc x else m.sh.phi x := by
    intro k
    induction k with
    | zero => simp
    | succ k ih =>
      intro x
      rw [List.range_succ, List.foldl_append]
      simp only [List.foldl_cons, List.foldl_nil]
      by_cases e : x = k
      · subst e; rw [upd_same, ih, if_neg (by omega), if_pos (by omega)]
      · rw [upd_ne _ _ e, ih]
        by_cases g : x < k
        · rw [if_pos g, if_pos (by omega)]
        · rw [if_neg g, if_neg (by omega)]
  rw [key, if_pos hx]

theorem merges (n : Nat) : ∀ (crit : List Nat) (m : Mach F K),
    (crit.foldl (merge n) m).sh.bdy = m.sh.bdy ∧ (crit.foldl (merge n) m).sh.psi = m.sh.psi ∧
    ∀ x < n, (crit.foldl (merge n) m).sh.phi x = m.sh.phi x + (crit.map fun t => (m.th t).loc x).sum
  | [], m => ⟨rfl, rfl, fun x _ => by simp⟩
  | t :: l, m => by
    obtain ⟨h1, h2, h3⟩ := merges n l (merge n m t)
    refine ⟨h1, h2, fun x hx => ?_⟩
    rw [List.foldl_cons, h3 x hx, merge_phi n m t x hx]
    show _ + _ + (l.map fun t => (m.th t).loc x).sum = _
    rw [List.map_cons, List.sum_cons, add_assoc]

/-- If moments are not shared between threads at work, the result is that of the sweep in order. -/
theorem parallel_serial {d : Dir F K} (hl : Local d.bup) {tg : Target} {n nt na : Nat} {assign : Nat → Nat → Nat}
    (ha : tg = .priv ∨ nt = 1) (hnt : 0 < nt) {oct : List (Nat × List Nat)} (hn : ∀ p ∈ oct, ∀ a < na, assign p.1 a < nt)
    {crit : List Nat} (hc : crit.Perm (List.range nt)) {s s' : St F K} (h : parallel d tg n nt na assign oct crit s = some s') :
    let r := sweepWith (oct.map Prod.fst) na (serialStep d) s
    s'.bdy = r.bdy ∧ s'.psi = r.psi ∧ ∀ x < n, s'.phi x = r.phi x := by
  unfold parallel at h
  obtain ⟨m, h1, rfl⟩ := Option.map_eq_some_iff.mp h
  obtain ⟨g1, g2, g3⟩ := octants_serial hl ha hnt oct hn h1 (s := { s with phi := fun _ => 0 }) rfl rfl
    (fun x => by simp [Mach.total])
  obtain ⟨k1, k2, k3⟩ := merges n crit m
  refine ⟨by rw [k1]; exact g1.symm, by rw [k2]; exact g2.symm, fun x hx => ?_⟩
  rw [k3 x hx]
  refine Eq.trans ?_ (g3 x).symm
  unfold Mach.total
  congr 1
  rw [(hc.map _).sum_eq]
  rw [Finset.sum_range, ← List.sum_ofFn]
  congr 1
  exact List.ext_getElem (by simp) (by simp)

/-! ## Schedules exist -/

theorem step_other (d : Dir F K) (tg : Target) (o : Nat) (m : Mach F K) {t t' : Nat} (h : t' ≠ t) :
    (step d tg o m t).th t' = m.th t' := by
  unfold step
  split
  · split
    · rfl
    · dsimp only; rw [upd_ne _ _ h]
  · split
    · dsimp only; rw [upd_ne _ _ h]
    · split
      · dsimp only [Mach.setCur]; rw [upd_ne _ _ h]
      · cases tg <;> simp [Mach.setMem, Mach.setCur, upd_ne _ _ h]

/-- Work left in the current direction. -/
def left (t : Thread F K) : Nat :=
  match t.cur with
  | none => 0
  | some c => 2 * c.adds.length + 1 + if c.reg.isNone then 1 else 0

theorem step_less (d : Dir F K) (tg : Target) (o : Nat) (m : Mach F K) (t : Nat) (h : (m.th t).idle = false) :
    ((step d tg o m t).th t).queue.length < (m.th t).queue.length ∨
    ((step d tg o m t).th t).queue.length = (m.th t).queue.length ∧ left ((step d tg o m t).th t) < left (m.th t) := by
  unfold step
  cases hc : (m.th t).cur with
  | none =>
    cases hq : (m.th t).queue with
    | nil => simp [Thread.idle, hc, hq] at h
    | cons a q => left; dsimp only; rw [upd_same]; simp
  | some c =>
    right
    dsimp only
    cases ha : c.adds with
    | nil =>
      dsimp only
      rw [upd_same]
      refine ⟨rfl, ?_⟩
      simp only [left, hc]
      omega
    | cons xv l =>
      obtain ⟨x, v⟩ := xv
      dsimp only
      cases hr : c.reg with
      | none =>
        dsimp only [Mach.setCur]
        rw [upd_same]
        refine ⟨rfl, ?_⟩
        simp only [left, hc, ha, hr]
        simp
      | some r =>
        have e1 : (((m.setCur t (some { c with adds := l, reg := none })).setMem tg t (upd (m.mem tg t) x (r + v))).th t).queue =
            (m.th t).queue := by
          cases tg <;> simp [Mach.setMem, Mach.setCur, upd_same]
        have e2 : (((m.setCur t (some { c with adds := l, reg := none })).setMem tg t (upd (m.mem tg t) x (r + v))).th t).cur =
            some { c with adds := l, reg := none } := by
          cases tg <;> simp [Mach.setMem, Mach.setCur, upd_same]
        dsimp only
        rw [e1]
        refine ⟨rfl, ?_⟩
        simp only [left, hc, e2, ha, hr]
        simp
        omega

/-- Thread `t` on its own comes to the end of the loop, and the others stay where they are. -/
theorem finish (d : Dir F K) (tg : Target) (o t : Nat) : ∀ (q k : Nat) (m : Mach F K), (m.th t).queue.length = q → left (m.th t) = k →
    ∃ n, (((List.replicate n t).foldl (step d tg o) m).th t).idle = true ∧
      ∀ t', t' ≠ t → ((List.replicate n t).foldl (step d tg o) m).th t' = m.th t' := by
  intro q
  induction q using Nat.strong_induction_on with
  | _ q ihq =>
    intro k
    induction k using Nat.strong_induction_on with
    | _ k ihk =>
      intro m hq hk
      cases hid : (m.th t).idle with
      | true => exact ⟨0, hid, fun _ _ => rfl⟩
      | false =>
        have : ∃ n, (((List.replicate n t).foldl (step d tg o) (step d tg o m t)).th t).idle = true ∧
            ∀ t', t' ≠ t → ((List.replicate n t).foldl (step d tg o) (step d tg o m t)).th t' = (step d tg o m t).th t' := by
          rcases step_less d tg o m t hid with h | ⟨h1, h2⟩
          · exact ihq _ (by omega) _ _ rfl rfl
          · exact ihk _ (by omega) _ (by omega) rfl
        obtain ⟨n, h1, h2⟩ := this
        refine ⟨n + 1, h1, fun t' h => ?_⟩
        rw [← step_other d tg o m h]
        exact h2 t' h

theorem finish_all (d : Dir F K) (tg : Target) (o : Nat) : ∀ (k : Nat) (m : Mach F K), ∃ sched : List Nat,
    ∀ t < k, ((sched.foldl (step d tg o) m).th t).idle = true
  | 0, _ => ⟨[], fun t h => by omega⟩
  | k + 1, m => by
    obtain ⟨sched, h⟩ := finish_all d tg o k m
    obtain ⟨n, h1, h2⟩ := finish d tg o k _ _ (sched.foldl (step d tg o) m) rfl rfl
    refine ⟨sched ++ List.replicate n k, fun t ht => ?_⟩
    rw [List.foldl_append]
    by_cases e : t = k
    · subst e; exact h1
    · rw [h2 t e]; exact h t (by omega)

theorem octants_run (d : Dir F K) (tg : Target) (nt na : Nat) (assign : Nat → Nat → Nat) : ∀ (order : List Nat) (m : Mach F K),
    ∃ oct, oct.map Prod.fst = order ∧ (octants d tg nt na assign oct m).isSome
  | [], _ => ⟨[], rfl, rfl⟩
  | o :: l, m => by
    obtain ⟨sched, h⟩ := finish_all d tg o nt (hand na (assign o) m)
    obtain ⟨oct, h1, h2⟩ := octants_run d tg nt na assign l (sched.foldl (step d tg o) (hand na (assign o) m))
    refine ⟨(o, sched) :: oct, by simp [h1], ?_⟩
    rw [octants, octant]
    rw [if_pos (List.all_eq_true.mpr fun t ht => h t (List.mem_range.mp ht))]
    exact h2

/-! ## Fluxes that do not depend on the moments -/

/-- Two threads that differ in loaded and private moments only. -/
def SameCur : Option (Cur F K) → Option (Cur F K) → Prop
  | none, none => True
  | some c, some c' => c.a = c'.a ∧ c.adds = c'.adds ∧ c.reg.isSome = c'.reg.isSome ∧ c.outs = c'.outs ∧ c.psi = c'.psi
  | _, _ => False

/-- Two machines that differ in moments only. -/
structure Sim (m m' : Mach F K) : Prop where
  bdy : m.sh.bdy = m'.sh.bdy
  psi : m.sh.psi = m'.sh.psi
  queue : ∀ t, (m.th t).queue = (m'.th t).queue
  cur : ∀ t, SameCur (m.th t).cur (m'.th t).cur

theorem step_sim (d : Dir F K) (tg tg' : Target) (o : Nat) {m m' : Mach F K} (h : Sim m m') (t : Nat) :
    Sim (step d tg o m t) (step d tg' o m' t) := by
  have hq := h.queue t
  have hc := h.cur t
  have oth : ∀ t', t' ≠ t → (step d tg o m t).th t' = m.th t' ∧ (step d tg' o m' t).th t' = m'.th t' :=
    fun t' g => ⟨step_other d tg o m g, step_other d tg' o m' g⟩
  suffices hs : (step d tg o m t).sh.bdy = (step d tg' o m' t).sh.bdy ∧ (step d tg o m t).sh.psi = (step d tg' o m' t).sh.psi ∧
      ((step d tg o m t).th t).queue = ((step d tg' o m' t).th t).queue ∧
      SameCur ((step d tg o m t).th t).cur ((step d tg' o m' t).th t).cur by
    refine ⟨hs.1, hs.2.1, fun t' => ?_, fun t' => ?_⟩
    · by_cases g : t' = t
      · subst g; exact hs.2.2.1
      · rw [(oth t' g).1, (oth t' g).2]; exact h.queue t'
    · by_cases g : t' = t
      · subst g; exact hs.2.2.2
      · rw [(oth t' g).1, (oth t' g).2]; exact h.cur t'
  clear oth
  unfold step
  cases e1 : (m.th t).cur with
  | none =>
    cases e2 : (m'.th t).cur with
    | some c => rw [e1, e2] at hc; exact hc.elim
    | none =>
      dsimp only
      rw [← hq]
      cases e3 : (m.th t).queue with
      | nil => exact ⟨h.bdy, h.psi, by rw [← hq], by rw [e1, e2]; trivial⟩
      | cons a q =>
        dsimp only
        rw [h.bdy, h.psi, upd_same, upd_same]
        exact ⟨rfl, rfl, rfl, rfl, rfl, rfl, rfl, rfl⟩
  | some c =>
    cases e2 : (m'.th t).cur with
    | none => rw [e1, e2] at hc; exact hc.elim
    | some c' =>
      rw [e1, e2] at hc
      obtain ⟨h1, h2, h3, h4, h5⟩ := hc
      dsimp only
      rw [← h2]
      cases ha : c.adds with
      | nil =>
        dsimp only
        rw [upd_same, upd_same, h.bdy, h.psi, h1, h4, h5]
        exact ⟨rfl, rfl, hq, trivial⟩
      | cons xv l =>
        obtain ⟨x, v⟩ := xv
        dsimp only
        cases hr : c.reg with
        | none =>
          cases hr' : c'.reg with
          | some r => rw [hr, hr'] at h3; simp at h3
          | none =>
            dsimp only [Mach.setCur]
            rw [upd_same, upd_same]
            exact ⟨h.bdy, h.psi, hq, h1, rfl, rfl, h4, h5⟩
        | some r =>
          cases hr' : c'.reg with
          | none => rw [hr, hr'] at h3; simp at h3
          | some r' =>
            dsimp only
            have key : ∀ (tg : Target) (m : Mach F K) (c : Cur F K) (p : Nat → K),
                ((m.setCur t (some c)).setMem tg t p).sh.bdy = m.sh.bdy ∧ ((m.setCur t (some c)).setMem tg t p).sh.psi = m.sh.psi ∧
                (((m.setCur t (some c)).setMem tg t p).th t).queue = (m.th t).queue ∧
                (((m.setCur t (some c)).setMem tg t p).th t).cur = some c := fun tg m c p => by
              cases tg <;> simp [Mach.setMem, Mach.setCur, upd_same]
            obtain ⟨k1, k2, k3, k4⟩ := key tg m { c with adds := l, reg := none } (upd (m.mem tg t) x (r + v))
            obtain ⟨j1, j2, j3, j4⟩ := key tg' m' { c' with adds := l, reg := none } (upd (m'.mem tg' t) x (r' + v))
            rw [k1, k2, k3, k4, j1, j2, j3, j4]
            exact ⟨h.bdy, h.psi, hq, h1, rfl, rfl, h4, h5⟩

theorem run_sim (d : Dir F K) (tg tg' : Target) (o : Nat) : ∀ (sched : List Nat) {m m' : Mach F K}, Sim m m' →
    Sim (sched.foldl (step d tg o) m) (sched.foldl (step d tg' o) m')
  | [], _, _, h => h
  | t :: l, _, _, h => run_sim d tg tg' o l (step_sim d tg tg' o h t)

theorem Sim.idle {m m' : Mach F K} (h : Sim m m') (t : Nat) : (m.th t).idle = (m'.th t).idle := by
  have hc := h.cur t
  unfold Thread.idle
  rw [h.queue t]
  congr 1
  revert hc
  cases (m.th t).cur <;> cases (m'.th t).cur <;> simp [SameCur]

theorem octants_sim (d : Dir F K) (tg tg' : Target) (nt na : Nat) (assign : Nat → Nat → Nat) : ∀ (oct : List (Nat × List Nat))
    {m m' : Mach F K}, Sim m m' → ∀ {r}, octants d tg nt na assign oct m = some r →
      ∃ r', octants d tg' nt na assign oct m' = some r' ∧ Sim r r'
  | [], m, m', h, r, hr => by
    obtain rfl : m = r := by simpa [octants] using hr
    exact ⟨m', rfl, h⟩
  | (o, sched) :: l, m, m', h, r, hr => by
    rw [octants, octant] at hr
    have hh : Sim (hand na (assign o) m) (hand na (assign o) m') := ⟨h.bdy, h.psi, fun _ => rfl, fun _ => trivial⟩
    have hs := run_sim d tg tg' o sched hh
    split at hr
    · rename_i hall
      obtain ⟨r', h1, h2⟩ := octants_sim d tg tg' nt na assign l hs hr
      refine ⟨r', ?_, h2⟩
      rw [octants, octant]
      rw [if_pos]
      · exact h1
      · rw [← hall]
        congr 1
        funext t
        exact (hs.idle t).symm
    · simp at hr

theorem parallel_fluxes {d : Dir F K} (hl : Local d.bup) {tg : Target} {n nt na : Nat} {assign : Nat → Nat → Nat}
    (hnt : 0 < nt) {oct : List (Nat × List Nat)} (hn : ∀ p ∈ oct, ∀ a < na, assign p.1 a < nt)
    {crit : List Nat} {s s' : St F K} (h : parallel d tg n nt na assign oct crit s = some s') :
    s'.bdy = (sweepWith (oct.map Prod.fst) na (serialStep d) s).bdy ∧ s'.psi = (sweepWith (oct.map Prod.fst) na (serialStep d) s).psi := by
  unfold parallel at h
  obtain ⟨m, h1, rfl⟩ := Option.map_eq_some_iff.mp h
  obtain ⟨m', g1, g2⟩ := octants_sim d tg .priv nt na assign oct
    (Sim.mk (m := ⟨{ s with phi := fun _ => 0 }, fun _ => ⟨none, [], fun _ => 0⟩⟩) rfl rfl (fun _ => rfl) (fun _ => trivial)) h1
  obtain ⟨k1, k2, -⟩ := octants_serial hl (Or.inl rfl) hnt oct hn g1 (s := { s with phi := fun _ => 0 }) rfl rfl
    (fun x => by simp [Mach.total])
  obtain ⟨e1, e2, -⟩ := merges n crit m
  exact ⟨by rw [e1, g2.bdy]; exact k1.symm, by rw [e2, g2.psi]; exact k2.symm⟩

/-! ## C123 -/

/-- The boundary update of the sweep: that of the boundary conditions, if it is asked for. -/
def bupOf (dim : Nat) (bc : Nat → BC F) (on : Bool) : (Nat → Nat → Nat → F) → Nat → Nat → Nat → Nat → Nat → F :=
  if on then updateAngle dim bc else fun b _ _ => b

theorem local_bupOf (dim : Nat) (bc : Nat → BC F) (on : Bool) : Local (bupOf dim bc on) := by
  unfold bupOf
  split
  · exact local_updateAngle dim bc
  · exact local_id

theorem sweep_congr {f g : St F K → Nat → Nat → St F K} (h : ∀ s o a, f s o a = g s o a) (order : List Nat) (na : Nat) (s : St F K) :
    sweepWith order na f s = sweepWith order na g s := by
  obtain rfl : f = g := by funext s o a; exact h s o a
  rfl

/-- C123, two dimensions: whatever the number of threads, the way directions are handed out, the order of steps and the order
    of the critical sections, the sweep leaves the moments, boundary and angular fluxes of the sweep without threads. -/
theorem C123_2D (eq : Nat → (Nat → K) → Nat → Nat → K × K → K × (K × K)) (src : Nat → Nat → Nat → K) (w : Nat → K) (nx ny na : Nat)
    (up on : Bool) (bc : Nat → BC (Nat → K)) {nt : Nat} (hnt : 0 < nt) {assign : Nat → Nat → Nat} {oct : List (Nat × List Nat)}
    (hn : ∀ p ∈ oct, ∀ a < na, assign p.1 a < nt) {crit : List Nat} (hc : crit.Perm (List.range nt)) {s s' : St (Nat → K) K}
    (h : parallel (dir2 eq src w nx ny up (bupOf 2 bc on)) .priv (nx * ny) nt na assign oct crit s = some s') :
    let r := sweepWith (oct.map Prod.fst) na (angle2 eq src w nx ny up (bupOf 2 bc on)) s
    s'.bdy = r.bdy ∧ s'.psi = r.psi ∧ ∀ c < nx * ny, s'.phi c = r.phi c := by
  rw [sweep_congr (angle2_serial eq src w nx ny up (bupOf 2 bc on))]
  exact parallel_serial (local_bupOf 2 bc on) (Or.inl rfl) hnt hn hc h

/-- Boundary and angular fluxes are those of the sweep without threads in one and three dimensions, too. -/
theorem C123_fluxes_1D (eq : Nat → (Nat → K) → Nat → K → K × K) (src : Nat → Nat → Nat → K) (w : Nat → K) (nx na : Nat)
    (up on : Bool) (bc : Nat → BC K) {nt : Nat} (hnt : 0 < nt) {assign : Nat → Nat → Nat} {oct : List (Nat × List Nat)}
    (hn : ∀ p ∈ oct, ∀ a < na, assign p.1 a < nt) {crit : List Nat} {s s' : St K K}
    (h : parallel (dir1 eq src w nx up (bupOf 1 bc on)) .shared nx nt na assign oct crit s = some s') :
    let r := sweepWith (oct.map Prod.fst) na (angle1 eq src w nx up (bupOf 1 bc on)) s
    s'.bdy = r.bdy ∧ s'.psi = r.psi := by
  rw [sweep_congr (angle1_serial eq src w nx up (bupOf 1 bc on))]
  exact parallel_fluxes (local_bupOf 1 bc on) hnt hn h

theorem C123_fluxes_3D (eq : Nat → (Nat → K) → Nat → Nat → Nat → K × K × K → K × (K × K × K)) (src : Nat → Nat → Nat → K)
    (w : Nat → K) (nx ny nz na : Nat) (up on : Bool) (bc : Nat → BC (Nat → Nat → K)) {nt : Nat} (hnt : 0 < nt)
    {assign : Nat → Nat → Nat} {oct : List (Nat × List Nat)} (hn : ∀ p ∈ oct, ∀ a < na, assign p.1 a < nt) {crit : List Nat}
    {s s' : St (Nat → Nat → K) K}
    (h : parallel (dir3 eq src w nx ny nz up (bupOf 3 bc on)) .shared (nx * ny * nz) nt na assign oct crit s = some s') :
    let r := sweepWith (oct.map Prod.fst) na (angle3 eq src w nx ny nz up (bupOf 3 bc on)) s
    s'.bdy = r.bdy ∧ s'.psi = r.psi := by
  rw [sweep_congr (angle3_serial eq src w nx ny nz up (bupOf 3 bc on))]
  exact parallel_fluxes (local_bupOf 3 bc on) hnt hn h

/-- With one thread so are the moments. -/
theorem C123_one_thread_1D_partial (eq : Nat → (Nat → K) → Nat → K → K × K) (src : Nat → Nat → Nat → K) (w : Nat → K) (nx na : Nat)
    (up on : Bool) (bc : Nat → BC K) {oct : List (Nat × List Nat)} {s s' : St K K}
    (h : parallel (dir1 eq src w nx up (bupOf 1 bc on)) .shared nx 1 na (fun _ _ => 0) oct [0] s = some s') :
    let r := sweepWith (oct.map Prod.fst) na (angle1 eq src w nx up (bupOf 1 bc on)) s
    s'.bdy = r.bdy ∧ s'.psi = r.psi ∧ ∀ c < nx, s'.phi c = r.phi c := by
  rw [sweep_congr (angle1_serial eq src w nx up (bupOf 1 bc on))]
  exact parallel_serial (local_bupOf 1 bc on) (Or.inr rfl) (by omega) (fun _ _ _ _ => by omega) (List.Perm.refl _) h

theorem C123_one_thread_3D_partial (eq : Nat → (Nat → K) → Nat → Nat → Nat → K × K × K → K × (K × K × K)) (src : Nat → Nat → Nat → K)
    (w : Nat → K) (nx ny nz na : Nat) (up on : Bool) (bc : Nat → BC (Nat → Nat → K)) {oct : List (Nat × List Nat)}
    {s s' : St (Nat → Nat → K) K}
    (h : parallel (dir3 eq src w nx ny nz up (bupOf 3 bc on)) .shared (nx * ny * nz) 1 na (fun _ _ => 0) oct [0] s = some s') :
    let r := sweepWith (oct.map Prod.fst) na (angle3 eq src w nx ny nz up (bupOf 3 bc on)) s
    s'.bdy = r.bdy ∧ s'.psi = r.psi ∧ ∀ c < nx * ny * nz, s'.phi c = r.phi c := by
  rw [sweep_congr (angle3_serial eq src w nx ny nz up (bupOf 3 bc on))]
  exact parallel_serial (local_bupOf 3 bc on) (Or.inr rfl) (by omega) (fun _ _ _ _ => by omega) (List.Perm.refl _) h

/-- The threads can always come to the end. -/
theorem C123_runs (d : Dir F K) (tg : Target) (n nt na : Nat) (assign : Nat → Nat → Nat) (order crit : List Nat) (s : St F K) :
    ∃ oct, oct.map Prod.fst = order ∧ (parallel d tg n nt na assign oct crit s).isSome := by
  obtain ⟨oct, h1, h2⟩ := octants_run d tg nt na assign order ⟨{ s with phi := fun _ => 0 }, fun _ => ⟨none, [], fun _ => 0⟩⟩
  exact ⟨oct, h1, by unfold parallel; rw [Option.isSome_map]; exact h2⟩

/-- C123, the claim for the moments in one dimension. -/
def C123Claim : Prop :=
  ∀ (eq : Nat → (Nat → ℚ) → Nat → ℚ → ℚ × ℚ) (src : Nat → Nat → Nat → ℚ) (w : Nat → ℚ) (nx na : Nat) (up on : Bool) (bc : Nat → BC ℚ)
    (nt : Nat) (assign : Nat → Nat → Nat) (oct : List (Nat × List Nat)) (crit : List Nat) (s s' : St ℚ ℚ), 0 < nt →
    (∀ p ∈ oct, ∀ a < na, assign p.1 a < nt) → crit.Perm (List.range nt) →
    parallel (dir1 eq src w nx up (bupOf 1 bc on)) .shared nx nt na assign oct crit s = some s' →
    ∀ c < nx, s'.phi c = (sweepWith (oct.map Prod.fst) na (angle1 eq src w nx up (bupOf 1 bc on)) s).phi c

/-- The claim for three dimensions. -/
def C123Claim3D : Prop :=
  ∀ (eq : Nat → (Nat → ℚ) → Nat → Nat → Nat → ℚ × ℚ × ℚ → ℚ × (ℚ × ℚ × ℚ)) (src : Nat → Nat → Nat → ℚ) (w : Nat → ℚ)
    (nx ny nz na : Nat) (up on : Bool) (bc : Nat → BC (Nat → Nat → ℚ)) (nt : Nat) (assign : Nat → Nat → Nat)
    (oct : List (Nat × List Nat)) (crit : List Nat) (s s' : St (Nat → Nat → ℚ) ℚ), 0 < nt →
    (∀ p ∈ oct, ∀ a < na, assign p.1 a < nt) → crit.Perm (List.range nt) →
    parallel (dir3 eq src w nx ny nz up (bupOf 3 bc on)) .shared (nx * ny * nz) nt na assign oct crit s = some s' →
    ∀ c < nx * ny * nz, s'.phi c = (sweepWith (oct.map Prod.fst) na (angle3 eq src w nx ny nz up (bupOf 3 bc on)) s).phi c

/-- Thread 1 adds its contribution while thread 0 is between loading and storing. -/
def badSched : List Nat := [0, 0, 1, 1, 1, 1, 0, 0]

/-- One cell of width and cross section one, two directions with cosines 1 and 1/2 and weights 1/2, a source of one. -/
def exEq1 : Nat → (Nat → ℚ) → Nat → ℚ → ℚ × ℚ := mesh1 dd1 (fun a => if a = 0 then 1 else 1 / 2) (fun _ => 1) (fun _ => 1)

theorem exLost1 : ((parallel (dir1 exEq1 (fun _ _ _ => 1) (fun _ => 1 / 2) 1 false (bupOf 1 (fun _ => .vacuum) true)) .shared 1 2 2
      (fun _ a => a) [(0, badSched), (1, badSched)] [1, 0] ⟨fun _ _ _ => 0, fun _ => 0, fun _ _ _ => 0⟩).map fun s => s.phi 0) = some (1 / 3) ∧
    (sweepWith [0, 1] 2 (angle1 exEq1 (fun _ _ _ => 1) (fun _ => 1 / 2) 1 false (bupOf 1 (fun _ => .vacuum) true))
      ⟨fun _ _ _ => 0, fun _ => 0, fun _ _ _ => 0⟩).phi 0 = 5 / 6 := by
  constructor <;> decide +kernel

/-- Contributions are lost: all threads add to the moments of the caller. -/
theorem C123_claim_fails : ¬ C123Claim := by
  intro h
  obtain ⟨e1, e2⟩ := exLost1
  obtain ⟨s', g1, g2⟩ := Option.map_eq_some_iff.mp e1
  have := h exEq1 (fun _ _ _ => 1) (fun _ => 1 / 2) 1 2 false true (fun _ => .vacuum) 2 (fun _ a => a) [(0, badSched), (1, badSched)]
    [1, 0] _ s' (by omega) (fun _ _ a ha => ha) (by decide) g1 0 (by omega)
  rw [g2] at this
  rw [show List.map Prod.fst [(0, badSched), (1, badSched)] = [0, 1] from rfl, e2] at this
  norm_num at this

/-- One cell in three dimensions. -/
def exEq3 : Nat → (Nat → ℚ) → Nat → Nat → Nat → ℚ × ℚ × ℚ → ℚ × (ℚ × ℚ × ℚ) :=
  mesh3 dd3 (fun _ => 1) (fun _ => 1) (fun _ => 1) (fun _ => 1) (fun _ => 1) (fun _ => 1) (fun _ => 1) 1 1

theorem exLost3 : ((parallel (dir3 exEq3 (fun _ _ _ => 1) (fun _ => 1 / 2) 1 1 1 false (bupOf 3 (fun _ => .vacuum) false)) .shared 1 2 2
      (fun _ a => a) [(0, badSched)] [0, 1] ⟨fun _ _ _ _ _ => 0, fun _ => 0, fun _ _ _ => 0⟩).map fun s => s.phi 0) = some (1 / 14) ∧
    (sweepWith [0] 2 (angle3 exEq3 (fun _ _ _ => 1) (fun _ => 1 / 2) 1 1 1 false (bupOf 3 (fun _ => .vacuum) false))
      ⟨fun _ _ _ _ _ => 0, fun _ => 0, fun _ _ _ => 0⟩).phi 0 = 1 / 7 := by
  constructor <;> decide +kernel

theorem C123_3D_claim_fails : ¬ C123Claim3D := by
  intro h
  obtain ⟨e1, e2⟩ := exLost3
  obtain ⟨s', g1, g2⟩ := Option.map_eq_some_iff.mp e1
  have := h exEq3 (fun _ _ _ => 1) (fun _ => 1 / 2) 1 1 1 2 false false (fun _ => .vacuum) 2 (fun _ a => a) [(0, badSched)]
    [0, 1] _ s' (by omega) (fun _ _ a ha => ha) (by decide) g1 0 (by omega)
  rw [g2] at this
  rw [show List.map Prod.fst [(0, badSched)] = [0] from rfl, e2] at this
  norm_num at this

theorem tallyRun_replicate (t : Nat) (rest : List Nat) : ∀ (l : List (TStep K)) (q : Nat → List (TStep K)) (p : Nat → K), q t = l →
    tallyRun (List.replicate l.length t ++ rest) q p = tallyRun rest (upd q t []) (l.foldl tallyStep p)
  | [], q, p, h => by
    have : upd q t [] = q := by
      funext t'
      by_cases e : t' = t
      · subst e; rw [upd_same, h]
      · rw [upd_ne _ _ e]
    rw [this]
    rfl
  | s :: l, q, p, h => by
    rw [List.length_cons, List.replicate_succ, List.cons_append, tallyRun, h]
    dsimp only
    rw [tallyRun_replicate t rest l _ _ (upd_same _ _ _)]
    have : upd (upd q t l) t [] = upd q t [] := by
      funext t'
      by_cases e : t' = t
      · subst e; rw [upd_same, upd_same]
      · rw [upd_ne _ _ e, upd_ne _ _ e, upd_ne _ _ e]
    rw [this]
    rfl

theorem tallyProg_run (l : List (Nat × K)) (p : Nat → K) : (tallyProg l).foldl tallyStep p = addAll l fun _ => 0 := by
  unfold tallyProg addAll
  rw [List.foldl_cons, List.foldl_map]
  rfl

/-- The current tally may lose all contributions of a thread, as each thread resets it when it begins: whatever two threads
    have to add, there is an order of steps in which both come to the end and only those of the second remain. -/
theorem C123_tally (l0 l1 : List (Nat × K)) (q : Nat → List (TStep K)) (h0 : q 0 = tallyProg l0) (h1 : q 1 = tallyProg l1) (p : Nat → K) :
    ∃ sched, (tallyRun sched q p).2 0 = [] ∧ (tallyRun sched q p).2 1 = [] ∧ ∀ c, (tallyRun sched q p).1 c = tot l1 c := by
  refine ⟨List.replicate (tallyProg l0).length 0 ++ (List.replicate (tallyProg l1).length 1 ++ []), ?_⟩
  rw [tallyRun_replicate 0 _ _ q p h0, tallyRun_replicate 1 [] _ _ _ (by rw [upd_ne _ _ (by omega)]; exact h1), tallyProg_run]
  refine ⟨?_, ?_, fun c => ?_⟩
  · show upd (upd q 0 []) 1 [] 0 = []
    rw [upd_ne _ _ (by omega), upd_same]
  · show upd (upd q 0 []) 1 [] 1 = []
    rw [upd_same]
  · show addAll l1 (fun _ => 0) c = _
    rw [addAll_eq, zero_add]

/-! ### Concrete cases -/

/-- Two cells in two dimensions, two directions, two threads, reflection on the left: with steps interleaved as badly, the
    moments are those of the sweep without threads. -/
def exEq2 : Nat → (Nat → ℚ) → Nat → Nat → ℚ × ℚ → ℚ × (ℚ × ℚ) :=
  mesh2 dd2 (fun a => if a = 0 then 1 else 1 / 2) (fun a => if a = 0 then 1 / 2 else 1) (fun _ => 1) (fun _ => 2) (fun _ => 1) 2

/-- The sweep of the example, without threads. -/
def exSerial : St (Nat → ℚ) ℚ :=
  sweepWith [1, 0] 2 (angle2 exEq2 (fun _ _ c => c + 1) (fun a => a + 1) 2 1 true
    (bupOf 2 (fun side => if side = 0 then .reflect else .vacuum) true)) ⟨fun _ _ _ _ => 0, fun _ => 7, fun _ _ _ => 0⟩

example : ((parallel (dir2 exEq2 (fun _ _ c => c + 1) (fun a => a + 1) 2 1 true
      (bupOf 2 (fun side => if side = 0 then .reflect else .vacuum) true)) .priv 2 2 2
      (fun o a => (o + a) % 2) [(1, [0, 0, 1, 1, 1, 1, 0, 0, 0, 1, 0, 1]), (0, [0, 1, 1, 0, 0, 1, 1, 0, 0, 1, 0, 1])] [1, 0]
      ⟨fun _ _ _ _ => 0, fun _ => 7, fun _ _ _ => 0⟩).map fun s => (s.phi 0, s.phi 1, s.psi 0 1 1, s.bdy 1 0 1 0)) =
    some (exSerial.phi 0, exSerial.phi 1, exSerial.psi 0 1 1, exSerial.bdy 1 0 1 0) := by
  decide +kernel

example : (exSerial.phi 0, exSerial.psi 0 1 1) ≠ (0, 0) := by decide +kernel

end Detran.Threads
