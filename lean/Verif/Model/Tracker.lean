import Mathlib.Algebra.Order.Floor.Defs
import Verif.Model.Geometry

/-!
# Model of the tracks made by `geometry/Tracker`

Tracks are those of `Model/Geometry`; a segment vector is a number, `segs` holds the vectors.  `base n L` is the spatial
quadrature `build_base(type, n, 0, L)`: points and weights.  A geometry is its widths and what `segmentize` finds between
two points (`Geom.segmentize`).  Numbers of points are taken to fit their type; printing is left out.
-/

namespace Detran.Tracker

open Detran.Geom

variable {K : Type} [Field K] [LinearOrder K] [FloorRing K]

/-- A tracker and its quadrature: `cos_phi` and `sin_phi` of each azimuth of an octant and the number of polar angles. -/
structure Tracker (K : Type) where
  dim : Nat
  delta : K
  minimum : Int
  base : Nat → K → List (K × K)
  azi : List (K × K)
  np : Nat

/-- The constructor with the entries `tracker_maximum_spacing` and `tracker_minimum_number`, Tracker.cc:24-56. -/
def Tracker.new (spacing : Option K) (minimum : Option Int) (dim : Nat) (base : Nat → K → List (K × K)) (azi : List (K × K)) (np : Nat) :
    Tracker K :=
  ⟨dim, spacing.getD (1 / 10), minimum.getD 1, base, azi, np⟩

/-- A geometry as the tracker sees it. -/
structure Geo (K : Type) where
  X : K
  Y : K
  Z : K
  seg : Pt K → Pt K → Option (List (Seg K))

/-- `d_tracks` by octant and angle, the segment vectors and the number of the next one. -/
structure St (K : Type) where
  tracks : Nat → Nat → Option (List (Trk K))
  segs : Nat → List (Seg K)
  next : Nat

/-- A tracker that has not been used. -/
def St.init : St K := ⟨fun _ _ => none, fun _ => [], 0⟩

/-- `m[{o, a}] = v`. -/
def upd {V : Type} (m : Nat → Nat → Option V) (o a : Nat) (v : V) : Nat → Nat → Option V :=
  fun o' a' => if o' = o ∧ a' = a then some v else m o' a'

/-- `m.insert(n.begin(), n.end())`: keys that exist keep their values. -/
def insert {V : Type} (m n : Nat → Nat → Option V) : Nat → Nat → Option V := fun o a => (m o a).or (n o a)

/-- The number of points along a side of length `L`, Tracker.cc:156-157; `f` is the sine or cosine used. -/
def Tracker.number (T : Tracker K) (L f : K) : Nat := (max T.minimum ⌈L / (T.delta / f)⌉).toNat

/-- Entry points and weights for one azimuth, Tracker.cc:160-185: first the left side, then the lower one. -/
def Tracker.entries (T : Tracker K) (X Y c s : K) : List (Pt K × K) :=
  ((T.base (T.number Y s) Y).map fun p => (⟨0, p.1, 0⟩, p.2 * s)) ++ (T.base (T.number X c) X).map fun p => (⟨p.1, 0, 0⟩, p.2 * c)

/-- The tracks from these points, Tracker.cc:166-172, 178-184; their segment vectors are `next`, `next + 1`, ... -/
def build (sq : K → K) (g : Geo K) (d : Pt K) : Nat → List (Pt K × K) → Option (List (Trk K))
  | _, [] => some []
  | next, e :: es =>
    (findExit sq g.X g.Y g.Z e.1 d).bind fun x => (build sq g d (next + 1) es).map fun ts => ⟨e.1, x, e.2, false, next⟩ :: ts

/-- The loop over the azimuths, Tracker.cc:147-188, from azimuth `i` on. -/
def Tracker.quadrant (sq : K → K) (T : Tracker K) (g : Geo K) : List (K × K) → Nat → St K → Option (St K)
  | [], _, st => some st
  | (c, s) :: l, i, st =>
    (build sq g ⟨c, s, 0⟩ st.next (T.entries g.X g.Y c s)).bind fun ts =>
      T.quadrant sq g l (i + 1) { st with tracks := upd st.tracks 0 (i * T.np) ts, next := st.next + ts.length }

/-- The keys of `d_tracks` in the order of a loop over the map. -/
def Tracker.keys (T : Tracker K) : List (Nat × Nat) :=
  (List.range 4).flatMap fun o => (List.range T.azi.length).map fun i => (o, i * T.np)

/-- The mirror images of the tracks of one angle, Tracker.cc:198-206. -/
def mirror (X : K) : Nat → List (Trk K) → List (Trk K)
  | _, [] => []
  | next, t :: ts =>
    ⟨⟨X - t.enter.x, t.enter.y, 0⟩, ⟨X - t.exit.x, t.exit.y, 0⟩, t.w, false, next⟩ :: mirror X (next + 1) ts

/-- The loop that makes mirror images, Tracker.cc:191-210. -/
def mirrors (X : K) (tracks : Nat → Nat → Option (List (Trk K))) :
    List (Nat × Nat) → (Nat → Nat → Option (List (Trk K))) × Nat → (Nat → Nat → Option (List (Trk K))) × Nat
  | [], r => r
  | k :: ks, r =>
    match tracks k.1 k.2 with
    | none => mirrors X tracks ks r
    | some ts => mirrors X tracks ks (upd r.1 1 k.2 (mirror X r.2 ts), r.2 + ts.length)

/-- The loop that makes reversed tracks, Tracker.cc:215-244. -/
def reverses (tracks : Nat → Nat → Option (List (Trk K))) :
    List (Nat × Nat) → (Nat → Nat → Option (List (Trk K))) → Nat → Nat → Option (List (Trk K))
  | [], r => r
  | k :: ks, r =>
    match tracks k.1 k.2 with
    | none => reverses tracks ks r
    | some ts => reverses tracks ks (upd r (if k.1 = 1 then 3 else 2) k.2 (ts.map Trk.reverse))

/-- `generate_tracks_2D_cartesian`, Tracker.cc:132-248. -/
def Tracker.generate (sq : K → K) (T : Tracker K) (g : Geo K) (st : St K) : Option (St K) :=
  (T.quadrant sq g T.azi 0 st).map fun st =>
    let m := mirrors g.X st.tracks T.keys (fun _ _ => none, st.next)
    let tracks := insert st.tracks m.1
    { st with tracks := insert tracks (reverses tracks T.keys fun _ _ => none), next := m.2 }

/-- `segmentize` on one track, Tracker.cc:397-400, 466-483: reversed tracks are left alone, others get more segments. -/
def segTrack (g : Geo K) (segs : Nat → List (Seg K)) (t : Trk K) : Option (Nat → List (Seg K)) :=
  if t.rev then some segs
  else (g.seg t.enter t.exit).map fun l => fun j => if j = t.store then segs j ++ l else segs j

/-- The loop over all tracks, Tracker.cc:77-81. -/
def segAll (g : Geo K) : List (Trk K) → (Nat → List (Seg K)) → Option (Nat → List (Seg K))
  | [], segs => some segs
  | t :: ts, segs => (segTrack g segs t).bind (segAll g ts)

/-- The tracks of the map in the order of a loop. -/
def St.all (T : Tracker K) (st : St K) : List (Trk K) := T.keys.flatMap fun k => (st.tracks k.1 k.2).getD []

/-- `trackit`, Tracker.cc:63-86.  The database returned holds the map and shares tracks and segments with the tracker.  For
    three dimensions `generate_tracks_3D_cartesian` (260-368) has no statements. -/
def Tracker.trackit (sq : K → K) (T : Tracker K) (g : Geo K) (st : St K) : Option (St K) :=
  (if T.dim = 2 then T.generate sq g st else some st).bind fun st =>
    (segAll g (st.all T) st.segs).map fun segs => { st with segs := segs }

end Detran.Tracker
