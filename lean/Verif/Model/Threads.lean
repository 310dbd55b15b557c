import Verif.Model.Boundary

/-!
# Model of the sweeps with OpenMP

The threads of the parallel region of `Sweeper1D/2D/3D::sweep` (Sweeper1D.i.hh:35-132, Sweeper2D.i.hh:35-177,
Sweeper3D.i.hh:37-153) as a machine that takes one step of one thread at a time, in an order given from outside (a schedule).
The directions of an octant are handed out to the threads in any way (`#pragma omp for` without a schedule clause), every
thread takes its own in increasing order, and no thread goes on to the next octant before all have finished (the loop ends
with a barrier).  Steps of a thread: begin a direction (boundary update, reading of incoming and stored fluxes, solution of
all cells: these touch nothing that belongs to another direction of the octant, which is shown in the properties), load an
entry of the flux moments, store it with the contribution of the cell added, finish the direction (outgoing and stored
fluxes).  Memory is sequentially consistent; what a data race may do beyond that is not modelled.  Doubles are elements of a
field.
-/

namespace Detran.Threads

open Detran.Sweep
open Detran.Solver (upd)

variable {F K : Type} [Field K]

/-- What a direction leaves: contributions to the flux moments in the order of the cells, boundary fluxes by side, angular
    flux. -/
structure Job (F K : Type) where
  adds : List (Nat × K)
  outs : List (Nat × F)
  psi : Nat → K

/-- The code of a sweep for one direction: the boundary update and what is done with the fluxes of the direction then on the
    boundary and the angular flux stored. -/
structure Dir (F K : Type) where
  bup : (Nat → Nat → Nat → F) → Nat → Nat → Nat → Nat → Nat → F
  body : (Nat → F) → (Nat → K) → Nat → Nat → Job F K
  up : Bool

/-! ## Bodies -/

/-- Body of the x loop, Sweeper1D.i.hh:96-108, keeping a list of the contributions to the moments; the moments of the run
    itself are not used. -/
def tcell1 (eq : Nat → K → K × K) (up : Bool) (w : K) (p : Run K K × List (Nat × K)) (i : Nat) :
    Run K K × List (Nat × K) :=
  (cell1 eq up w p.1 i, p.2 ++ [(i, w * (eq i p.1.edge).1)])

/-- One direction in one dimension, Sweeper1D.i.hh:71-114. -/
def dir1 (eq : Nat → (Nat → K) → Nat → K → K × K) (src : Nat → Nat → Nat → K) (w : Nat → K) (nx : Nat) (up : Bool)
    (bup : (Nat → Nat → Nat → K) → Nat → Nat → Nat → Nat → Nat → K) : Dir K K where
  bup := bup
  up := up
  body := fun b psi o a =>
    let r := (cells nx 0 o).foldl (tcell1 (eq a (src o a)) up (w a)) (⟨b (in1 o), fun _ => 0, psi⟩, [])
    ⟨r.2, [(out1 o, r.1.edge)], r.1.psi⟩

/-- Body of the x loop, Sweeper2D.i.hh:133-147. -/
def tcell2 (eq : Nat → Nat → K × K → K × (K × K)) (up : Bool) (w : K) (nx j : Nat) (p : Run (Edge2 K) K × List (Nat × K))
    (i : Nat) : Run (Edge2 K) K × List (Nat × K) :=
  (cell2 eq up w nx j p.1 i, p.2 ++ [(i + j * nx, w * (eq i j (p.1.edge.cur, p.1.edge.h i)).1)])

/-- Body of the y loop, Sweeper2D.i.hh:124-152. -/
def trow2 (eq : Nat → Nat → K × K → K × (K × K)) (up : Bool) (w : K) (nx : Nat) (is : List Nat)
    (p : Run (Edge2 K) K × List (Nat × K)) (j : Nat) : Run (Edge2 K) K × List (Nat × K) :=
  let p1 := is.foldl (tcell2 eq up w nx j) ({ p.1 with edge := { p.1.edge with cur := p.1.edge.v j } }, p.2)
  ({ p1.1 with edge := { p1.1.edge with v := upd p1.1.edge.v j p1.1.edge.cur } }, p1.2)

/-- One direction in two dimensions, Sweeper2D.i.hh:73-159. -/
def dir2 (eq : Nat → (Nat → K) → Nat → Nat → K × K → K × (K × K)) (src : Nat → Nat → Nat → K) (w : Nat → K) (nx ny : Nat)
    (up : Bool) (bup : (Nat → Nat → Nat → Nat → K) → Nat → Nat → Nat → Nat → Nat → Nat → K) : Dir (Nat → K) K where
  bup := bup
  up := up
  body := fun b psi o a =>
    let r := (cells ny 1 o).foldl (trow2 (eq a (src o a)) up (w a) nx (cells nx 0 o))
      (⟨⟨0, b (in2 o).1, b (in2 o).2⟩, fun _ => 0, psi⟩, [])
    ⟨r.2, [((out2 o).1, r.1.edge.v), ((out2 o).2, r.1.edge.h)], r.1.psi⟩

/-- Body of the x loop, Sweeper3D.i.hh:107-122. -/
def tcell3 (eq : Nat → Nat → Nat → K × K × K → K × (K × K × K)) (up : Bool) (w : K) (nx ny k j : Nat)
    (p : Run (Edge3 K) K × List (Nat × K)) (i : Nat) : Run (Edge3 K) K × List (Nat × K) :=
  (cell3 eq up w nx ny k j p.1 i,
    p.2 ++ [(i + j * nx + k * nx * ny, w * (eq i j k (p.1.edge.cur, p.1.edge.xz k i, p.1.edge.xy j i)).1)])

/-- Body of the y loop, Sweeper3D.i.hh:99-127. -/
def trow3 (eq : Nat → Nat → Nat → K × K × K → K × (K × K × K)) (up : Bool) (w : K) (nx ny : Nat) (is : List Nat) (k : Nat)
    (p : Run (Edge3 K) K × List (Nat × K)) (j : Nat) : Run (Edge3 K) K × List (Nat × K) :=
  let p1 := is.foldl (tcell3 eq up w nx ny k j) ({ p.1 with edge := { p.1.edge with cur := p.1.edge.yz k j } }, p.2)
  ({ p1.1 with edge := { p1.1.edge with yz := upd2 p1.1.edge.yz k j p1.1.edge.cur } }, p1.2)

/-- Body of the z loop, Sweeper3D.i.hh:93-128. -/
def tplane3 (eq : Nat → Nat → Nat → K × K × K → K × (K × K × K)) (up : Bool) (w : K) (nx ny : Nat) (is js : List Nat)
    (p : Run (Edge3 K) K × List (Nat × K)) (k : Nat) : Run (Edge3 K) K × List (Nat × K) :=
  js.foldl (trow3 eq up w nx ny is k) p

/-- One direction in three dimensions, Sweeper3D.i.hh:68-136. -/
def dir3 (eq : Nat → (Nat → K) → Nat → Nat → Nat → K × K × K → K × (K × K × K)) (src : Nat → Nat → Nat → K) (w : Nat → K)
    (nx ny nz : Nat) (up : Bool)
    (bup : (Nat → Nat → Nat → Nat → Nat → K) → Nat → Nat → Nat → Nat → Nat → Nat → Nat → K) : Dir (Nat → Nat → K) K where
  bup := bup
  up := up
  body := fun b psi o a =>
    let r := (cells nz 2 o).foldl (tplane3 (eq a (src o a)) up (w a) nx ny (cellsU nx 0 o) (cells ny 1 o))
      (⟨⟨0, b (in3 o).1, b (in3 o).2.1, b (in3 o).2.2⟩, fun _ => 0, psi⟩, [])
    ⟨r.2, [((out3 o).1, r.1.edge.yz), ((out3 o).2.1, r.1.edge.xz), ((out3 o).2.2, r.1.edge.xy)], r.1.psi⟩

/-! ## Machine -/

/-- Where `equation.solve` adds the contributions: to the moments of the caller, `phi` (Sweeper1D.i.hh:102,
    Sweeper3D.i.hh:114), or to those of the thread, `phi_local` (Sweeper2D.i.hh:140). -/
inductive Target where
  | shared
  | priv
  deriving DecidableEq

/-- A direction being swept: its number, the contributions still to be added, the entry loaded, if any, what is written in
    the end. -/
structure Cur (F K : Type) where
  a : Nat
  adds : List (Nat × K)
  reg : Option K
  outs : List (Nat × F)
  psi : Nat → K

/-- A thread: the current direction, those to follow in this octant, `phi_local`. -/
structure Thread (F K : Type) where
  cur : Option (Cur F K)
  queue : List Nat
  loc : Nat → K

/-- Shared variables and threads. -/
structure Mach (F K : Type) where
  sh : St F K
  th : Nat → Thread F K

/-- `b(face, o, a, d_g) = …` for the outgoing faces, e.g. Sweeper2D.i.hh:155-156. -/
def writeOuts (b : Nat → Nat → Nat → F) (o a : Nat) (outs : List (Nat × F)) : Nat → Nat → Nat → F :=
  outs.foldl (fun b p => setB b p.1 o a p.2) b

/-- The memory the contributions of thread `t` go to. -/
def Mach.mem (tg : Target) (m : Mach F K) (t : Nat) : Nat → K :=
  match tg with
  | .shared => m.sh.phi
  | .priv => (m.th t).loc

/-- A store to that memory. -/
def Mach.setMem (tg : Target) (m : Mach F K) (t : Nat) (v : Nat → K) : Mach F K :=
  match tg with
  | .shared => { m with sh := { m.sh with phi := v } }
  | .priv => { m with th := upd m.th t { m.th t with loc := v } }

/-- The current direction of a thread is replaced. -/
def Mach.setCur (m : Mach F K) (t : Nat) (c : Option (Cur F K)) : Mach F K :=
  { m with th := upd m.th t { m.th t with cur := c } }

/-- One step of thread `t` in octant `o`; nothing happens if it waits at the end of the loop. -/
def step (d : Dir F K) (tg : Target) (o : Nat) (m : Mach F K) (t : Nat) : Mach F K :=
  match (m.th t).cur with
  | none =>
    match (m.th t).queue with
    | [] => m
    | a :: q =>
      let b := d.bup m.sh.bdy o a
      let j := d.body (fun f => b f o a) (m.sh.psi o a) o a
      { sh := { m.sh with bdy := b }, th := upd m.th t ⟨some ⟨a, j.adds, none, j.outs, j.psi⟩, q, (m.th t).loc⟩ }
  | some c =>
    match c.adds with
    | [] =>
      { sh := { m.sh with bdy := writeOuts m.sh.bdy o c.a c.outs,
                          psi := if d.up then setPsi m.sh.psi o c.a c.psi else m.sh.psi },
        th := upd m.th t { m.th t with cur := none } }
    | (x, v) :: l =>
      match c.reg with
      | none => m.setCur t (some { c with reg := some (m.mem tg t x) })
      | some r => (m.setCur t (some { c with adds := l, reg := none })).setMem tg t (upd (m.mem tg t) x (r + v))

/-- The octant loop hands out the directions: thread `assign a` gets direction `a`. -/
def hand (na : Nat) (assign : Nat → Nat) (m : Mach F K) : Mach F K :=
  { m with th := fun t => { m.th t with cur := none, queue := (List.range na).filter fun a => assign a == t } }

/-- A thread waits at the end of the loop. -/
def Thread.idle (t : Thread F K) : Bool := t.cur.isNone && t.queue.isEmpty

/-- The threads sweep an octant in the order of the schedule; `none` if some of the `nt` threads is not at the end of the
    loop then. -/
def octant (d : Dir F K) (tg : Target) (nt na : Nat) (assign : Nat → Nat) (o : Nat) (sched : List Nat) (m : Mach F K) :
    Option (Mach F K) :=
  let m' := sched.foldl (step d tg o) (hand na assign m)
  if (List.range nt).all fun t => (m'.th t).idle then some m' else none

/-- All octants, each with its schedule. -/
def octants (d : Dir F K) (tg : Target) (nt na : Nat) (assign : Nat → Nat → Nat) :
    List (Nat × List Nat) → Mach F K → Option (Mach F K)
  | [], m => some m
  | (o, sched) :: l, m => (octant d tg nt na (assign o) o sched m).bind (octants d tg nt na assign l)

/-- `#pragma omp critical`, e.g. Sweeper2D.i.hh:168-174: thread `t` adds its moments to those of the caller. -/
def merge (n : Nat) (m : Mach F K) (t : Nat) : Mach F K :=
  { m with sh := { m.sh with phi := (List.range n).foldl (fun p i => upd p i (p i + (m.th t).loc i)) m.sh.phi } }

/-- The sweep with `nt` threads on a mesh of `n` cells: the moments are reset (line 27, 29 in three dimensions), the threads
    begin with empty moments of their own (line 43, 45 in three dimensions), the octants are swept, and the threads add their
    moments in the order `crit`. -/
def parallel (d : Dir F K) (tg : Target) (n nt na : Nat) (assign : Nat → Nat → Nat) (oct : List (Nat × List Nat))
    (crit : List Nat) (s : St F K) : Option (St F K) :=
  (octants d tg nt na assign oct ⟨{ s with phi := fun _ => 0 }, fun _ => ⟨none, [], fun _ => 0⟩⟩).map fun m =>
    (crit.foldl (merge n) m).sh

/-! ## Current tally -/

/-- Steps on the tally: `d_tally->reset(d_g)` of a thread (Sweeper2D.i.hh:46) and an addition (CurrentTally.i.hh:83). -/
inductive TStep (K : Type) where
  | reset
  | add (i : Nat) (v : K)

/-- One step; additions are taken to be undivided. -/
def tallyStep (p : Nat → K) : TStep K → Nat → K
  | .reset => fun _ => 0
  | .add i v => upd p i (p i + v)

/-- What thread `t` does to the tally: there is no barrier between the reset and the loop over the octants. -/
def tallyProg (adds : List (Nat × K)) : List (TStep K) := .reset :: adds.map fun x => .add x.1 x.2

/-- The threads' steps in the order of the schedule. -/
def tallyRun : List Nat → (Nat → List (TStep K)) → (Nat → K) → (Nat → K) × (Nat → List (TStep K))
  | [], q, p => (p, q)
  | t :: l, q, p =>
    match q t with
    | [] => tallyRun l q p
    | s :: r => tallyRun l (upd q t r) (tallyStep p s)

end Detran.Threads
