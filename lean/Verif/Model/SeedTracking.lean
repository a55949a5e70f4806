import Verif.Model.Isosurface
import Verif.Model.Tetrahedron
import Mathlib.Data.List.Sort
import Mathlib.Algebra.Order.Group.Abs
import Mathlib.Algebra.Order.Field.Basic

/-!
# isosurface/rmt/lattice.hpp: following the field from the seed points to the surface

The two while loops of `add_nodes_from_seed_points`, which `Model/LatticeRuns.lean` leaves open.  Simplifications: exact arithmetic in an ordered
field; the field function does not throw; the unit vector of the negative gradient is a function of the node (it is computed from the positions and
values of the node and six neighbours, which must be there); lengths are compared by their squares; `std::sort` is an insertion sort, which gives
the same list because elements that compare equal are equal.  The rounds of the while loops are bounded by `fuel`, `none` when it is used up.  The
nodes passed to `add_node` before each evaluation are recorded.
-/

namespace Verif.SeedTracking

open Verif Verif.Lattice

abbrev V3 (K : Type) := K × K × K

/-- What the tracking reads: the second extended box, the field minus the isovalue, the positions of the nodes and the unit vectors of
`-gradient(lc).normalized()` (`lattice.hpp:155`). -/
structure Ctx (K : Type) where
  inBox : LC → Bool
  val : LC → K
  pos : LC → V3 K
  dir : LC → V3 K

/-- `lattice.hpp:318-322` -/
structure Seed (K : Type) where
  lc : LC
  corrector : V3 K
  k : Nat

abbrev Pair := LC × LC

/-- `lattice_coordinates.hpp:38-41` -/
def mkPair (a b : LC) : Pair := if a.less b then (a, b) else (b, a)

variable {K : Type}

/-- `lattice.hpp:587-597` - one neighbour `c` of the frontier; the state is `visited` and `next_frontier`. -/
def knnVisit (inBox : LC → Bool) (st : List LC × List LC) (c : LC) : List LC × List LC :=
  if c ∈ st.1 then st else if !inBox c then st else (st.1 ++ [c], st.2 ++ [c])

/-- `lattice.hpp:584-603` -/
def knnLoop (inBox : LC → Bool) : Nat → List LC → List LC → List LC
  | 0, _, frontier => frontier
  | k + 1, visited, frontier =>
      let st := (allNeighbors frontier).foldl (knnVisit inBox) (visited, [])
      knnLoop inBox k st.1 st.2

/-- `lattice.hpp:577-606` -/
def knnNodes (inBox : LC → Bool) (lc : LC) (k : Nat) : List LC := knnLoop inBox k [lc] [lc]

/-- `lattice.hpp:554-562` -/
def isBoundary (inBox : LC → Bool) (lc : LC) : Bool := (List.range 14).any fun e => !inBox (neighbor lc e)

/-- `lattice.hpp:96, 108-110` -/
structure Scan where
  pairs : List Pair
  cand : List LC
  found : Bool
  minimum : Bool

section
variable [Field K] [LinearOrder K]

/-- `sign.hpp:7` -/
def Ctx.neg (C : Ctx K) (lc : LC) : Bool := decide (C.val lc < 0)

/-- `node_list_.at(lc).value()`: it throws if there is no such node or it has not been evaluated. -/
def valueAt (C : Ctx K) (nl : NodeList) (lc : LC) : Outcome K := do
  let n ← nl.at lc
  let _ ← n.valueSign
  .ok (C.val lc)

/-- `lattice.hpp:115` -/
def opposite (k : Nat) (v w : K) : Bool := k == 1 && !(decide (w < 0) == decide (v < 0))

/-- `lattice.hpp:125-131` -/
def noteSmaller (v w : K) (boundary : Bool) (nlc : LC) (a : Scan) : Scan :=
  if |w| < |v| then { a with cand := if boundary then a.cand else a.cand ++ [nlc], minimum := false } else a

/-- `lattice.hpp:111-132` - the loop over the nodes around `lc` -/
def scan (C : Ctx K) (nl : NodeList) (lc : LC) (k : Nat) : List LC → Scan → Outcome Scan
  | [], a => .ok a
  | nlc :: rest, a => do
      let v ← valueAt C nl lc
      let w ← valueAt C nl nlc
      let a := if opposite k v w then { a with pairs := a.pairs ++ [mkPair lc nlc] } else a
      if opposite k v w && !isBoundary C.inBox nlc then .ok { a with found := true }
      else scan C nl lc k rest (noteSmaller v w (isBoundary C.inBox nlc) nlc a)

/-- `lattice.hpp:535-541` - the nodes the gradient is computed from -/
def gradientNodes (lc : LC) : List LC := lc :: [1, 3, 5, 8, 10, 12].map (neighbor lc)

/-- `lattice.hpp:155, 534-552` -/
def direction (C : Ctx K) (nl : NodeList) (lc : LC) : Outcome (V3 K) := do
  let _ ← mapO (valueAt C nl) (gradientNodes lc)
  .ok (C.dir lc)

def add (a b : V3 K) : V3 K := (a.1 + b.1, a.2.1 + b.2.1, a.2.2 + b.2.2)
def sub (a b : V3 K) : V3 K := (a.1 - b.1, a.2.1 - b.2.1, a.2.2 - b.2.2)
def smul (t : K) (a : V3 K) : V3 K := (t * a.1, t * a.2.1, t * a.2.2)
def dot (a b : V3 K) : K := a.1 * b.1 + a.2.1 * b.2.1 + a.2.2 * b.2.2

/-- `lattice.hpp:165-168, 179-180` - the corrector after the move from `lc` to `q` -/
def corrected (C : Ctx K) (lc : LC) (c d : V3 K) (q : LC) : V3 K :=
  let v := sub (C.pos q) (C.pos lc)
  sub (add c v) (smul (dot v d) d)

/-- `lattice.hpp:157-170` - `std::min_element`, the first of the smallest; the arguments are the best so far and the rest. -/
def closest (C : Ctx K) (lc : LC) (c d : V3 K) : LC → List LC → LC
  | best, [] => best
  | best, x :: xs =>
      closest C lc c d
        (if dot (corrected C lc c d x) (corrected C lc c d x) < dot (corrected C lc c d best) (corrected C lc c d best) then x else best) xs

/-- What the visit of a seed leads to: the new pairs, the nodes to add, the seed that takes its place. -/
structure Visit (K : Type) where
  pairs : List Pair
  ask : List LC
  next : Option (Seed K)

/-- `lattice.hpp:138-153` - no candidate -/
def retry (C : Ctx K) (s : Seed K) (a : Scan) : Visit K :=
  if 10 ≤ s.k || a.minimum then ⟨a.pairs, [], none⟩
  else if (knnNodes C.inBox s.lc (s.k + 1)).isEmpty then ⟨a.pairs, [], none⟩
  else ⟨a.pairs, knnNodes C.inBox s.lc (s.k + 1), some { s with k := s.k + 1 }⟩

/-- `lattice.hpp:157-181` - go to one of the candidates -/
def moveTo (C : Ctx K) (s : Seed K) (a : Scan) (d : V3 K) (c : LC) (cs : List LC) : Visit K :=
  let nlc := closest C s.lc s.corrector d c cs
  ⟨a.pairs, knnNodes C.inBox nlc 1, some ⟨nlc, corrected C s.lc s.corrector d nlc, 1⟩⟩

/-- `lattice.hpp:134-181` - after the scan -/
def decide_ (C : Ctx K) (nl : NodeList) (s : Seed K) (a : Scan) : Outcome (Visit K) :=
  if a.found then .ok ⟨a.pairs, [], none⟩
  else match a.cand with
    | [] => .ok (retry C s a)
    | c :: cs => do
        let d ← direction C nl s.lc
        .ok (moveTo C s a d c cs)

/-- `lattice.hpp:103-181` - one seed -/
def visit (C : Ctx K) (nl : NodeList) (s : Seed K) : Outcome (Visit K) := do
  let _ ← nl.at s.lc
  let a ← scan C nl s.lc s.k (knnNodes C.inBox s.lc s.k) ⟨[], [], false, true⟩
  decide_ C nl s a

/-- `lattice.hpp:102-182` - all seeds of a round: the lattice, and the pairs, added nodes and new seeds in order -/
def round (C : Ctx K) : Lat → List (Seed K) → Outcome (Lat × List Pair × List LC × List (Seed K))
  | l, [] => .ok (l, [], [], [])
  | l, s :: ss => do
      let r ← visit C l.nodes s
      let q ← round C (l.addNodes C.inBox r.ask).1 ss
      .ok (q.1, r.pairs ++ q.2.1, r.ask ++ q.2.2.1, r.next.toList ++ q.2.2.2)

/-- `lattice.hpp:101-188` - the pairs, and the added nodes of each round -/
def trackLoop (C : Ctx K) : Nat → Lat → List (Seed K) → Outcome (Option (Lat × List Pair × List (List LC)))
  | _, l, [] => .ok (some (l, [], []))
  | 0, _, _ :: _ => .ok none
  | fuel + 1, l, s :: ss => do
      let q ← round C l (s :: ss)
      let l ← q.1.evaluateField C.neg
      let r ← trackLoop C fuel l q.2.2.2
      .ok (r.map fun r => (r.1, q.2.1 ++ r.2.1, q.2.2.1 :: r.2.2))

/-- the order of `LatticeCoordinatesLess` -/
def sortLC (l : List LC) : List LC := l.insertionSort fun a b => b.less a = false

/-- `std::set_intersection` of two sorted ranges without repetitions -/
def setIntersection (a b : List LC) : List LC := a.filter fun x => x ∈ b

/-- `lattice.hpp:209-222` -/
def commonNeighbors (inBox : LC → Bool) (p : Pair) : List LC :=
  setIntersection (sortLC (knnNodes inBox p.1 1)) (sortLC (knnNodes inBox p.2 1))

/-- `lattice.hpp:202-222` - one pair that has not been visited: its common neighbours, none if the signs are the same -/
def visitPair (C : Ctx K) (nl : NodeList) (p : Pair) : Outcome (List LC) := do
  let v ← valueAt C nl p.1
  let w ← valueAt C nl p.2
  .ok (if decide (v < 0) == decide (w < 0) then [] else commonNeighbors C.inBox p)

/-- `lattice.hpp:224-230` - the nodes have been added by then -/
def pairsOf (nl : NodeList) (p : Pair) (cs : List LC) : List Pair :=
  (cs.filter fun c => nl.has c).flatMap fun c => [mkPair p.1 c, mkPair p.2 c]

/-- `lattice.hpp:196-231` - the pairs of a round: the lattice, the visited pairs, and the added nodes and new pairs in order -/
def pairRound (C : Ctx K) : Lat → List Pair → List Pair → Outcome (Lat × List Pair × List LC × List Pair)
  | l, vis, [] => .ok (l, vis, [], [])
  | l, vis, p :: ps =>
      if p ∈ vis then pairRound C l vis ps
      else do
        let cs ← visitPair C l.nodes p
        let l := (l.addNodes C.inBox cs).1
        let q ← pairRound C l (p :: vis) ps
        .ok (q.1, q.2.1, cs ++ q.2.2.1, pairsOf l.nodes p cs ++ q.2.2.2)

/-- `lattice.hpp:195-237` -/
def pairLoop (C : Ctx K) : Nat → Lat → List Pair → List Pair → Outcome (Option (Lat × List (List LC)))
  | _, l, _, [] => .ok (some (l, []))
  | 0, _, _, _ :: _ => .ok none
  | fuel + 1, l, vis, p :: ps => do
      let q ← pairRound C l vis (p :: ps)
      let l ← q.1.evaluateField C.neg
      let r ← pairLoop C fuel l q.2.1 q.2.2.2
      .ok (r.map fun r => (r.1, q.2.2.1 :: r.2))

/-- `lattice.hpp:78-85` - the nodes added for the seed points; `starts` are the nodes they are rounded to. -/
def firstNodes (inBox : LC → Bool) (starts : List LC) : List LC := starts.flatMap fun lc => lc :: knnNodes inBox lc 1

/-- `std::unique` -/
def uniq : List LC → List LC
  | [] => []
  | x :: xs => if xs.head? = some x then uniq xs else x :: uniq xs

/-- `lattice.hpp:86, 91-95` - the sorted seeds, all with a zero corrector and `k` equal to 1 -/
def seedsOf (starts : List LC) : List (Seed K) := (uniq (sortLC starts)).map fun lc => ⟨lc, (0, 0, 0), 1⟩

/-- `lattice.hpp:76-237` on a cleared lattice: the lattice before `complete_surface`, and the nodes added before each evaluation. -/
def track (C : Ctx K) (fuel fuel' : Nat) (starts : List LC) : Outcome (Option (Lat × List (List LC))) := do
  let l ← ((⟨[], [], []⟩ : Lat).addNodes C.inBox (firstNodes C.inBox starts)).1.evaluateField C.neg
  match ← trackLoop C fuel l (seedsOf starts) with
  | none => .ok none
  | some r => do
      match ← pairLoop C fuel' r.1 [] r.2.1 with
      | none => .ok none
      | some q => .ok (some (q.1, firstNodes C.inBox starts :: (r.2.2 ++ q.2)))

end

/-! ## For a lattice and a field -/

open PrimLattice

/-- `lattice.hpp:73, 79` - `p.max(min).min(max)` -/
noncomputable def clampPoint (L : Prim) (p : P3) : P3 :=
  (min (max p.1 L.lo.1) L.hi.1, min (max p.2.1 L.lo.2.1) L.hi.2.1, min (max p.2.2 L.lo.2.2) L.hi.2.2)

/-- `lattice.hpp:78-86` - the nodes the seed points are rounded to -/
noncomputable def startsOf (L : Prim) (points : List P3) : List LC := points.map fun p => L.rounded (clampPoint L p)

/-- what the tracking reads on the lattice `L` -/
noncomputable def ctxOf (L : Prim) (F : Iso.Fld ℝ) (dir : LC → P3) : Ctx ℝ := ⟨L.inBox, F.val, L.position, dir⟩

end Verif.SeedTracking
