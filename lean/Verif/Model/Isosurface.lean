import Verif.Model.LatticeRuns
import Verif.Model.Tetrahedron
import Mathlib.Algebra.Order.Field.Basic

/-!
# include/polatory/isosurface/isosurface.hpp, with the state of the lattice between and during calls

The numbers are a linearly ordered field.  The steps that change the mesh (clustering, refinement, smoothing, snapping, thinning,
clipping) are functions that may throw; they do not touch the lattice.
-/

namespace Verif.Iso

open Verif Verif.Lattice Verif.PrimLattice.Prim

variable {K : Type} [Field K] [LinearOrder K]

/-- A call that changes an object: it returns, throws (leaving the object in a state), or is undefined or leaves what is modelled. -/
inductive Run (S α : Type) where
  | done (a : α) (s : S)
  | threw (s : S)
  | undef

namespace Run

def bind (x : Run S α) (f : α → S → Run S β) : Run S β :=
  match x with
  | done a s => f a s
  | threw s => threw s
  | undef => undef

end Run

/-- `lattice.hpp:283-318` - `InterpolatedValue`; a value is `none` while it is not populated. -/
structure Arb (K : Type) where
  tet : Rows LC
  w : Rows K
  vals : Rows (Option K)

namespace Arb

/-- `lattice.hpp:285-289` -/
def new (tet : Rows LC) (w : Rows K) : Arb K := ⟨tet, w, ⟨none, none, none, none⟩⟩

/-- `lattice.hpp:291-299` -/
def tell (a : Arb K) (lc : LC) (v : K) : Arb K :=
  if a.tet.r0 = lc then { a with vals := { a.vals with r0 := some v } }
  else if a.tet.r1 = lc then { a with vals := { a.vals with r1 := some v } }
  else if a.tet.r2 = lc then { a with vals := { a.vals with r2 := some v } }
  else if a.tet.r3 = lc then { a with vals := { a.vals with r3 := some v } }
  else a

/-- `lattice.hpp:301-307` -/
def value (a : Arb K) : Outcome K :=
  match a.vals.r0, a.vals.r1, a.vals.r2, a.vals.r3 with
  | some v0, some v1, some v2, some v3 => .ok (a.w.r0 * v0 + a.w.r1 * v1 + a.w.r2 * v2 + a.w.r3 * v3)
  | _, _, _, _ => .throws .runtimeError

end Arb

/-- `lattice.hpp:617-620` -/
structure LatS (K : Type) where
  lat : Lat
  arb : Option (Arb K)

/-- `lattice.hpp:250-255` - `clear` -/
def LatS.fresh : LatS K := ⟨⟨[], [], []⟩, none⟩

/-- The field minus the isovalue at the lattice points, and the batches of points for which the field function throws. -/
structure Fld (K : Type) where
  val : LC → K
  fails : List LC → Bool

/-- `sign.hpp:7` -/
def Fld.neg (F : Fld K) (lc : LC) : Bool := decide (F.val lc < 0)

/-- `lattice.hpp:487, 498` - `t < 0.5` -/
def Fld.near (F : Fld K) (lc0 lc1 : LC) : Bool := decide (F.val lc0 / (F.val lc0 - F.val lc1) < 1 / 2)

/-- the part of a call that is modelled in `Model/Lattice.lean`; the state after an exception in it is not modelled -/
def lift (s : LatS K) (r : Outcome Lat) : Run (LatS K) Unit :=
  match r with
  | .ok l => .done () { s with lat := l }
  | _ => .undef

/-- `lattice.hpp:416-441` -/
def evaluateField (F : Fld K) (s : LatS K) : Run (LatS K) Unit :=
  if s.lat.toEval.isEmpty then .done () s
  else if F.fails s.lat.toEval then .threw s
  else match s.arb, s.lat.evaluateField F.neg with
    | some a, .ok l => .done () ⟨l, some (s.lat.toEval.foldl (fun a lc => a.tell lc (F.val lc)) a)⟩
    | _, _ => .undef

/-- `lattice.hpp:42-65` -/
def layers (inBox : LC → Bool) (F : Fld K) : LatS K → List LC → List (List LC) → Run (LatS K) Unit
  | s, _, [] => .done () s
  | s, prev, layer :: rest =>
      let (l, new) := s.lat.addLayer inBox layer
      (evaluateField F { s with lat := l }).bind fun _ s =>
        (lift s (s.lat.generateVertices F.near new)).bind fun _ s =>
          (lift s (s.lat.removeFreeNodes prev)).bind fun _ s =>
            (if rest.isEmpty then lift s (s.lat.removeFreeNodes new) else .done () s).bind fun _ s =>
              layers inBox F s new rest

/-- `lattice.hpp:37-66` - `center` is the tetrahedron of the centre of the box and the weights of its corners. -/
def addAllNodes (inBox : LC → Bool) (ls : List (List LC)) (center : Rows LC × Rows K) (F : Fld K) (s : LatS K) : Run (LatS K) Unit :=
  layers inBox F { s with arb := some (Arb.new center.1 center.2) } [] ls

/-- `lattice.hpp:74-233`, see `Lat.addBatches` -/
def addBatches (inBox : LC → Bool) (F : Fld K) : LatS K → List (List LC) → Run (LatS K) Unit
  | s, [] => .done () s
  | s, b :: bs => (evaluateField F { s with lat := (s.lat.addNodes inBox b).1 }).bind fun _ s => addBatches inBox F s bs

/-- `lattice.hpp:386-411` - `fuel` as in `Lat.completeLoop`; when it is used up the result is `undef`. -/
def completeLoop (inBox : LC → Bool) (F : Fld K) : Nat → LatS K → List LC → Run (LatS K) Unit
  | _, s, [] => .done () s
  | 0, _, _ :: _ => .undef
  | fuel + 1, s, frontier =>
      let (l, added) := s.lat.addNodes inBox (allNeighbors frontier)
      (evaluateField F { s with lat := l }).bind fun _ s =>
        match surfaceNodes s.lat.nodes added with
        | .ok frontier => completeLoop inBox F fuel s frontier
        | _ => .undef

/-- `lattice.hpp:68-244` - `first` is the tetrahedron of the first seed point, moved into the box, and the weights of its corners. -/
def addFromSeeds (inBox : LC → Bool) (ord : List LC → List LC) (fuel : Nat) (batches : List (List LC)) (first : Rows LC × Rows K) (F : Fld K)
    (s : LatS K) : Run (LatS K) Unit :=
  (addBatches inBox F { s with arb := some (Arb.new first.1 first.2) } batches).bind fun _ s =>
    match surfaceNodes s.lat.nodes (ord (s.lat.nodes.map Prod.fst)) with
    | .ok frontier => (completeLoop inBox F fuel s frontier).bind fun _ s =>
        let all := ord (s.lat.nodes.map Prod.fst)
        (lift s (s.lat.generateVertices F.near all)).bind fun _ s => lift s (s.lat.removeFreeNodes all)
    | _ => .undef

/-- What `Isosurface` does to meshes of type `M`, with snap points and tolerances of type `Sn`; `none` if it throws.  The mesh steps build
their results from vertices and faces, so these are never entire (`mesh.hpp:24-26`). -/
structure Steps (K M Sn : Type) where
  raw : Fld K → List (LC × Nat) → List Face → M
  faces : M → Nat
  noSnap : Sn
  cluster : M → Option M
  refine : Fld K → M → Option M
  smooth : Sn → M → Option M
  /-- with the number of skipped and dishonored points -/
  snap : Sn → M → Option (M × Nat)
  thin : Sn → M → Option M
  clip : M → Option M
  hash : M → Nat

namespace Steps

variable {M Sn : Type} (T : Steps K M Sn)

/-- `isosurface.hpp:78-84` -/
def prepare (F : Fld K) (refine : Bool) (m : M) : Option M := do
  let m ← T.cluster m
  let m ← T.smooth T.noSnap m
  let m ← T.cluster m
  let m ← if refine then T.refine F m else some m
  T.smooth T.noSnap m

/-- `isosurface.hpp:91-108` - `n` rounds are left -/
def snapLoop (sn : Sn) : Nat → List Nat → M → Option M
  | 0, _, m => some m
  | n + 1, hashes, m => do
      let (m, left) ← T.snap sn m
      let m ← T.smooth sn m
      if left = 0 then some m
      else if T.hash m ∈ hashes then some m
      else snapLoop sn n (hashes ++ [T.hash m]) m

/-- `isosurface.hpp:110-113` -/
def thinTwice (sn : Sn) (m : M) : Option M := do
  let m ← T.thin sn m
  let m ← T.smooth sn m
  let m ← T.thin sn m
  T.smooth sn m

/-- `isosurface.hpp:77-117` - `sn` is `none` if there are no snap points. -/
def process (F : Fld K) (refine : Bool) (sn : Option Sn) (m : M) : Option M :=
  if T.faces m = 0 then some m
  else do
    let m ← T.prepare F refine m
    let m ← match sn with
      | none => some m
      | some sn => do
          let m ← T.snapLoop sn 20 [] m
          T.thinTwice sn m
    T.clip m

end Steps

/-- `mesh.hpp:19-26` - a mesh, or the tag for an entire one -/
inductive Res (M : Type) where
  | mesh (m : M)
  | entire

/-- `isosurface.hpp:73-127`; `ordN` is the order in which the loop over the hash map sees the nodes. -/
def generateCommon (T : Steps K M Sn) (ordN : NodeList → NodeList) (F : Fld K) (refine : Bool) (sn : Option Sn) (s : LatS K) : Run (LatS K) (Res M) :=
  match getMeshFaces (ordN s.lat.nodes) with
  | .ok fs =>
      match T.process F refine sn (T.raw F s.lat.verts fs) with
      | none => .threw s
      | some m =>
          if T.faces m = 0 then
            match s.arb with
            | none => .threw s
            | some a => match a.value with
              | .ok v => .done (if v < 0 then .entire else .mesh m) LatS.fresh
              | .throws _ => .threw s
              | .ub => .undef
          else .done (.mesh m) LatS.fresh
  | _ => .undef

/-- What is fixed for an `Isosurface`: the box, the order of the loops over the hash map. -/
structure Geo (K : Type) where
  inBox : LC → Bool
  ls : List (List LC)
  center : Rows LC × Rows K
  ord : List LC → List LC
  ordN : NodeList → NodeList

/-- `isosurface.hpp:138-141`; `snap` is `none` as long as there are no snap points. -/
structure Gen (K Sn : Type) where
  lattice : LatS K
  snap : Option Sn

/-- The public calls. -/
inductive Op (K Sn : Type) where
  /-- `generate` -/
  | all (F : Fld K) (refine : Bool)
  /-- `generate_from_seed_points`; without seed points `seeds` is `none` -/
  | seeds (seeds : Option ((Rows LC × Rows K) × List (List LC))) (fuel : Nat) (F : Fld K) (refine : Bool)
  /-- `set_snap_points`; `valid` says whether the tolerances are empty or one per point and in [0, 1] -/
  | setSnap (sn : Option Sn) (valid : Bool)
  /-- `clear` -/
  | clear

/-- the state of the lattice as part of the state of the object -/
def onLattice (g : Gen K Sn) (r : Run (LatS K) α) : Run (Gen K Sn) α :=
  match r with
  | .done a s => .done a { g with lattice := s }
  | .threw s => .threw { g with lattice := s }
  | .undef => .undef

/-- `isosurface.hpp:35-70` - one call -/
def step (T : Steps K M Sn) (G : Geo K) (g : Gen K Sn) : Op K Sn → Run (Gen K Sn) (Option (Res M))
  | .all F refine => onLattice g ((addAllNodes G.inBox G.ls G.center F g.lattice).bind fun _ s =>
      (generateCommon T G.ordN F refine g.snap s).bind fun r s => .done (some r) s)
  | .seeds none _ _ _ => .threw g
  | .seeds (some (first, batches)) fuel F refine => onLattice g ((addFromSeeds G.inBox G.ord fuel batches first F g.lattice).bind fun _ s =>
      (generateCommon T G.ordN F refine g.snap s).bind fun r s => .done (some r) s)
  | .setSnap sn valid => if valid then .done none { g with snap := sn } else .threw g
  | .clear => .done none { g with lattice := LatS.fresh }

/-- a sequence of calls, each on the state the one before has left, whether it returned or threw; `none` if one is undefined -/
def runAll (T : Steps K M Sn) (G : Geo K) : Gen K Sn → List (Op K Sn) → Option (Gen K Sn)
  | g, [] => some g
  | g, op :: ops => match step T G g op with
    | .done _ g => runAll T G g ops
    | .threw g => runAll T G g ops
    | .undef => none

end Verif.Iso
