import Verif.Lemmas.Io
import Verif.Props.RbfModel

/-!
# C03: the stream encoding is lossless and self-delimiting; C04: save and load; C05: truncated files

`RoundTrips c x` (Lemmas/Io.lean) says: reading a stream that starts with what `c` wrote for `x` gives `x` and leaves
exactly the bytes after it.  `N` bounds the sizes of all containers; `alloc` must accept sizes up to `N`.
-/

namespace Verif.Io

open Verif RbfModel

variable {alloc : Nat → Bool} {N : Nat}

/-! ## C03 -/

/-- Numbers, booleans and doubles. -/
theorem C03_pods : (∀ x, RoundTrips (pod u64) x) ∧ (∀ x, RoundTrips (pod i32) x) ∧ (∀ x, RoundTrips (pod bool1) x) ∧
    (∀ x, RoundTrips (pod char1) x) :=
  ⟨pod_roundTrips u64_good, pod_roundTrips i32_good, pod_roundTrips bool1_good, pod_roundTrips char1_good⟩

/-- Strings, vectors of numbers and matrices of every shape. -/
theorem C03_containers (hN : N < 2 ^ 64) (hmem : ∀ n ≤ N, alloc n = true) :
    (∀ xs : List Byte, xs.length ≤ N → RoundTrips (vecPod alloc char1) xs) ∧
    (∀ xs : List (BitVec 64), xs.length ≤ N → RoundTrips (vecPod alloc u64) xs) ∧
    (∀ (xs : List (BitVec 32)), xs.length ≤ N → RoundTrips (vecPod alloc i32) xs) ∧
    (∀ (rows cols : Option Nat) (m : Mx), m.Fits rows cols → m.rows * m.cols ≤ N →
      RoundTrips (matrix alloc rows cols) m) :=
  ⟨fun xs h => vecPod_roundTrips char1_good xs (by omega) (hmem _ h),
   fun xs h => vecPod_roundTrips u64_good xs (by omega) (hmem _ h),
   fun xs h => vecPod_roundTrips i32_good xs (by omega) (hmem _ h),
   fun _ _ m h h' => matrix_roundTrips m h (hmem _ h')⟩

/-- Vectors of anything that round-trips, hence nested vectors. -/
theorem C03_nested (c : Codec α) (xs : List α) (hN : N < 2 ^ 64) (hmem : ∀ n ≤ N, alloc n = true)
    (hl : xs.length ≤ N) (h : ∀ x ∈ xs, RoundTrips c x) : RoundTrips (vecOf alloc c) xs :=
  vecOf_roundTrips xs h (by omega) (hmem _ hl)

/-- Values written one after the other are read back in order. -/
theorem C03_back_to_back (c : Codec α) (d : Codec β) (x : α) (y : β) (hx : RoundTrips c x) (hy : RoundTrips d y)
    (tail : List Byte) :
    (do
      let (a, s) ← c.read ⟨c.write x ++ d.write y ++ tail, false⟩
      let (b, s) ← d.read s
      return (a, b, s)) = .ok (x, y, ⟨tail, false⟩) := by
  rw [List.append_assoc, hx]
  simp [hy tail]

example : RoundTrips (vecOf (fun _ => true) (vecPod (fun _ => true) u64)) [[1, 2], [], [0xFFF8000000000000#64]] := by
  refine C03_nested (N := 100) _ _ (by norm_num) (fun _ _ => rfl) (by decide) ?_
  intro x hx
  refine (C03_containers (N := 100) (by norm_num) (fun _ _ => rfl)).2.1 x ?_
  simp at hx
  rcases hx with h | h | h <;> subst h <;> decide

example : (Mx.mk 2 3 [1, 2, 3, 4, 5, 6]).Fits none (some 3) := ⟨by simp, by simp, by simp⟩

/-! ## C04 -/

/-- A covariance function in dimension `d` as the public interface can produce it. -/
def RbfStorable (detPos : List Dbl → Bool) (d : Nat) (r : Rbf) : Prop := RbfOk detPos r ∧ r.aniso.length = d * d

theorem newRbf_two (identity : List Dbl) (k : Kind) (p : List Dbl) (hp : p.length = 2) :
    newRbf identity k p = .ok ⟨k, p, identity⟩ := by
  match p, hp with
  | [x, y], _ => cases k <;> rfl

theorem newRbf_not_ub (identity : List Dbl) (k : Kind) (p : List Dbl) : newRbf identity k p ≠ .ub := by
  have : ∀ r : Rbf, (r.setParameters p).2 ≠ .ub := by
    intro r
    unfold Rbf.setParameters
    dsimp only
    split
    all_goals (try split)
    all_goals (try split)
    all_goals simp
  intro h
  unfold newRbf at h
  split at h
  · cases h
  · cases h
  · rename_i hh
    exact this _ (by rw [hh])

theorem rbf_roundTrips (detPos : List Dbl → Bool) (identity : List Dbl) (d : Nat) (hN : N < 2 ^ 64)
    (hmem : ∀ n ≤ N, alloc n = true) (hd : d * d ≤ N) (h3 : 3 ≤ N) (r : Rbf) (h : RbfStorable detPos d r) :
    RoundTrips (rbf alloc detPos identity d) r := by
  intro tail
  obtain ⟨⟨hp, hdet⟩, ha⟩ := h
  have c3 := C03_containers (alloc := alloc) hN hmem
  have e1 := c3.1 (nameBytes r.kind.shortName) (by rw [nameBytes_length]; omega)
  have e2 := c3.2.1 r.params (by omega)
  have e3 := c3.2.2.2 (some d) (some d) ⟨d, d, r.aniso⟩ ⟨rfl, rfl, ha⟩ hd
  simp only [rbf, List.append_assoc]
  rw [e1]
  simp only [Outcome.ok_bind]
  rw [e2]
  simp only [Outcome.ok_bind]
  rw [e3]
  simp only [Outcome.ok_bind]
  rw [bytesName_nameBytes, makeRbf_shortName]
  rw [newRbf_two identity r.kind r.params hp]
  simp [Rbf.setAnisotropy, hdet]

/-- A model as the public interface can produce it. -/
structure ModelStorable (detPos : List Dbl → Bool) (d : Nat) (N : Nat) (m : Mdl) : Prop where
  rbfs : ∀ r ∈ m.rbfs, RbfStorable detPos d r
  num : m.rbfs.length ≤ N
  deg : -2 ^ 31 ≤ m.polyDegree ∧ m.polyDegree < 2 ^ 31

theorem model_roundTrips (detPos : List Dbl → Bool) (identity : List Dbl) (d : Nat) (hN : N < 2 ^ 64)
    (hmem : ∀ n ≤ N, alloc n = true) (hd : d * d ≤ N) (h3 : 3 ≤ N) (m : Mdl) (h : ModelStorable detPos d N m) :
    RoundTrips (model alloc detPos identity d) m := by
  intro tail
  have e1 := C03_nested (alloc := alloc) (rbf alloc detPos identity d) m.rbfs hN hmem h.num
    (fun r hr => rbf_roundTrips detPos identity d hN hmem hd h3 r (h.rbfs r hr))
  have hint : (BitVec.ofInt 32 m.polyDegree).toInt = m.polyDegree := by
    rw [BitVec.toInt_ofInt]
    have := h.deg
    rw [Int.bmod_def]; split <;> omega
  have e2 := C03_pods.2.1 (BitVec.ofInt 32 m.polyDegree)
  have e3 := C03_pods.1 m.nugget
  unfold RoundTrips at e1 e2 e3
  simp only [show (pod i32).write = i32.enc from rfl] at e2
  simp only [show (pod u64).write = u64.enc from rfl] at e3
  simp only [model, List.append_assoc]
  rw [e1]
  simp only [Outcome.ok_bind]
  rw [e2]
  simp only [Outcome.ok_bind]
  rw [e3]
  simp [hint]

structure VariogramStorable (d N : Nat) (v : VariogramS) : Prop where
  b1 : v.binDistance.length ≤ N
  b2 : v.binGamma.length ≤ N
  b3 : v.binNumPairs.length ≤ N
  dir : v.direction.Fits (some 1) (some d)

theorem variogram_roundTrips (d : Nat) (hN : N < 2 ^ 64) (hmem : ∀ n ≤ N, alloc n = true) (hd : d ≤ N)
    (v : VariogramS) (h : VariogramStorable d N v) : RoundTrips (variogram alloc d) v := by
  intro tail
  have c3 := C03_containers (alloc := alloc) hN hmem
  have hs : v.direction.rows * v.direction.cols ≤ N := by
    have h1 := h.dir.rows; have h2 := h.dir.cols
    simp only [Option.elim] at h1 h2
    rw [← h1, ← h2]; omega
  simp only [variogram, List.append_assoc]
  rw [c3.2.1 _ h.b1]
  simp only [Outcome.ok_bind]
  rw [c3.2.1 _ h.b2]
  simp only [Outcome.ok_bind]
  rw [c3.2.1 _ h.b3]
  simp only [Outcome.ok_bind]
  rw [c3.2.2.2 _ _ _ h.dir hs]
  simp

/-- the fields of an interpolant have their declared shapes -/
structure InterpolantStorable (detPos : List Dbl → Bool) (d N : Nat) (t : InterpolantS) : Prop where
  model : ModelStorable detPos d N t.model
  c : t.centers.Fits none (some d)
  cN : t.centers.rows * t.centers.cols ≤ N
  g : t.gradCenters.Fits none (some d)
  gN : t.gradCenters.rows * t.gradCenters.cols ≤ N
  lo : t.bbox.min.Fits (some 1) (some d)
  hi : t.bbox.max.Fits (some 1) (some d)
  w : t.weights.Fits none (some 1)
  wN : t.weights.rows * t.weights.cols ≤ N

theorem interpolant_roundTrips (detPos : List Dbl → Bool) (identity : List Dbl) (d : Nat) (hN : N < 2 ^ 64)
    (hmem : ∀ n ≤ N, alloc n = true) (hd : d * d ≤ N) (hd' : d ≤ N) (h3 : 3 ≤ N) (t : InterpolantS)
    (h : InterpolantStorable detPos d N t) : RoundTrips (interpolant alloc detPos identity d) t := by
  intro tail
  have c3 := (C03_containers (alloc := alloc) hN hmem).2.2.2
  have hs : ∀ m : Mx, m.Fits (some 1) (some d) → m.rows * m.cols ≤ N := by
    intro m hm
    have h1 := hm.rows; have h2 := hm.cols
    simp only [Option.elim] at h1 h2
    rw [← h1, ← h2]; omega
  have e2 := C03_pods.2.2.1 t.fitted
  unfold RoundTrips at e2
  simp only [show (pod bool1).write = bool1.enc from rfl] at e2
  simp only [interpolant, bbox, List.append_assoc]
  rw [model_roundTrips detPos identity d hN hmem hd h3 _ h.model]
  simp only [Outcome.ok_bind]
  rw [e2]
  simp only [Outcome.ok_bind]
  rw [c3 _ _ _ h.c h.cN]
  simp only [Outcome.ok_bind]
  rw [c3 _ _ _ h.g h.gN]
  simp only [Outcome.ok_bind]
  rw [c3 _ _ _ h.lo (hs _ h.lo)]
  simp only [Outcome.ok_bind]
  rw [c3 _ _ _ h.hi (hs _ h.hi)]
  simp only [Outcome.ok_bind, Outcome.pure_eq]
  rw [c3 _ _ _ h.w h.wN]
  simp

/-- Loading a saved object gives it back (and so does loading a file with further bytes after it). -/
theorem load_save {c : Codec α} {x : α} (h : RoundTrips c x) (tail : List Byte) :
    load c (save c x ++ tail) = .ok x := by
  simp [load, save, h tail]

theorem C04_model (detPos : List Dbl → Bool) (identity : List Dbl) (d : Nat) (hN : N < 2 ^ 64)
    (hmem : ∀ n ≤ N, alloc n = true) (hd : d * d ≤ N) (h3 : 3 ≤ N) (m : Mdl) (h : ModelStorable detPos d N m) :
    load (model alloc detPos identity d) (save (model alloc detPos identity d) m) = .ok m := by
  simpa using load_save (model_roundTrips detPos identity d hN hmem hd h3 m h) []

theorem C04_interpolant (detPos : List Dbl → Bool) (identity : List Dbl) (d : Nat) (hN : N < 2 ^ 64)
    (hmem : ∀ n ≤ N, alloc n = true) (hd : d * d ≤ N) (hd' : d ≤ N) (h3 : 3 ≤ N) (t : InterpolantS)
    (h : InterpolantStorable detPos d N t) :
    load (interpolant alloc detPos identity d) (save (interpolant alloc detPos identity d) t) = .ok t := by
  simpa using load_save (interpolant_roundTrips detPos identity d hN hmem hd hd' h3 t h) []

theorem C04_variogram_set (d : Nat) (hN : N < 2 ^ 64) (hmem : ∀ n ≤ N, alloc n = true) (hd : d ≤ N)
    (vs : List VariogramS) (hl : vs.length ≤ N) (h : ∀ v ∈ vs, VariogramStorable d N v) :
    load (variogramSet alloc d) (save (variogramSet alloc d) vs) = .ok vs := by
  simpa [variogramSet] using load_save (C03_nested _ vs hN hmem hl (fun v hv => variogram_roundTrips d hN hmem hd v (h v hv))) []

theorem setRbfs_length (p : List Dbl) : ∀ (l : List Rbf) (i : Nat), (setRbfs p i l).1.length = l.length := by
  intro l
  induction l with
  | nil => intro i; rfl
  | cons r l ih =>
    intro i
    unfold setRbfs
    split
    · simp [ih]
    · simp
    · simp

theorem step_length (detPos : List Dbl → Bool) (m : Mdl) (op : Op) : (m.step detPos op).rbfs.length = m.rbfs.length := by
  have hn : ∀ n, (m.setNugget n).1.rbfs = m.rbfs := by
    intro n; unfold Mdl.setNugget; split <;> rfl
  cases op with
  | setNugget n => exact congrArg List.length (hn n)
  | setParameters p =>
    show ((m.setParameters p).1).rbfs.length = _
    unfold Mdl.setParameters
    split
    · rfl
    · split
      · rfl
      · rename_i _ p0 ps _
        have := hn p0
        split
        · rename_i m' he
          rw [he] at this
          dsimp only at this ⊢
          rw [setRbfs_length, this]
        · rename_i m' e he
          rw [he] at this
          exact congrArg List.length this
        · rename_i m' he
          rw [he] at this
          exact congrArg List.length this
  | rbfSetParameters i p => exact List.length_modify _ _ _
  | rbfSetAnisotropy i a => exact List.length_modify _ _ _

/-- The matrices given to `set_anisotropy` are of the dimension of the model (their type says so). -/
def Sized (d : Nat) : Op → Prop
  | .rbfSetAnisotropy _ a => a.length = d * d
  | _ => True

/-- A model built by the constructor and then changed by any calls, also such that threw, can be stored. -/
theorem C04_reachable_storable (detPos : List Dbl → Bool) (d : Nat) (rbfs : List Rbf) (deg : Int) (m : Mdl)
    (hr : ∀ r ∈ rbfs, RbfStorable detPos d r) (hl : rbfs.length ≤ N) (hc : newModel rbfs deg = .ok m) (ops : List Op)
    (hops : ∀ op ∈ ops, Sized d op) :
    ModelStorable detPos d N (ops.foldl (fun m op => m.step detPos op) m) := by
  have hd := C12_degree_invariant detPos rbfs deg m hc ops
  dsimp only at hd
  have hm : m.rbfs = rbfs ∧ m.nugget = zero := by
    simp only [newModel] at hc
    split at hc
    · cases hc
    · split at hc
      · cases hc; exact ⟨rfl, rfl⟩
      · split at hc
        · cases hc; exact ⟨rfl, rfl⟩
        · cases hc
  have hz : Dbl.NonNegative m.nugget := by rw [hm.2, ← Dbl.ge0_iff]; decide
  let dp : List Dbl → Bool := fun a => detPos a && decide (a.length = d * d)
  have hiff : ∀ r, RbfOk dp r ↔ RbfStorable detPos d r := by
    intro r
    unfold RbfOk RbfStorable RbfOk
    simp only [dp, Bool.and_eq_true, decide_eq_true_iff]
    exact and_assoc.symm
  have hstep : ∀ (m : Mdl) (op : Op), Sized d op → m.step detPos op = m.step dp op := by
    intro m op ho
    cases op with
    | rbfSetAnisotropy i a =>
      have : dp a = detPos a := by
        have ha : a.length = d * d := ho
        simp only [dp, ha, decide_true, Bool.and_true]
      simp only [Mdl.step, Rbf.setAnisotropy, this]
    | _ => rfl
  have key : ∀ (ops : List Op) (m : Mdl), (∀ op ∈ ops, Sized d op) → (∀ r ∈ m.rbfs, RbfOk dp r) → Dbl.NonNegative m.nugget → m.rbfs.length ≤ N →
      (∀ r ∈ (ops.foldl (fun m op => m.step detPos op) m).rbfs, RbfOk dp r) ∧ (ops.foldl (fun m op => m.step detPos op) m).rbfs.length ≤ N := by
    intro ops
    induction ops with
    | nil => intro m _ h _ hl; exact ⟨h, hl⟩
    | cons op ops ih =>
      intro m ho h hn hl
      have h1 := C13_reachable_ok dp m op h hn
      rw [← hstep m op (ho op List.mem_cons_self)] at h1
      exact ih _ (fun o h => ho o (List.mem_cons_of_mem _ h)) h1.1 h1.2 (by rw [step_length]; exact hl)
  obtain ⟨k1, k2⟩ := key ops m hops (by rw [hm.1]; exact fun r h => (hiff r).2 (hr r h)) hz (by rw [hm.1]; exact hl)
  refine ⟨fun r h => (hiff r).1 (k1 r h), k2, ?_⟩
  have h0 : ∀ l : List Rbf, 0 ≤ cpdOrder l := by
    have : ∀ (l : List Rbf) (a : Int), 0 ≤ a → 0 ≤ l.foldl (fun o r => max o r.kind.cpdOrder) a := by
      intro l
      induction l with
      | nil => intro a h; simpa using h
      | cons r l ih => intro a h; exact ih _ (le_trans h (le_max_left _ _))
    exact fun l => this l _ le_rfl
  have := h0 (ops.foldl (fun m op => m.step detPos op) m).rbfs
  omega

/-- An exponential plus a thin-plate spline in 2D with some non-trivial bits. -/
def exampleModel : Mdl :=
  ⟨[⟨.exp, [one, 0x4024000000000000#64], [one, zero, zero, one]⟩,
    ⟨.th3, [one, zero], [one, one, zero, one]⟩], 1, 0x3FB999999999999A#64⟩

example : ModelStorable (fun _ => true) 2 1000 exampleModel := by
  refine ⟨?_, by decide, by decide⟩
  intro r hr
  simp [exampleModel] at hr
  rcases hr with h | h <;> subst h <;> exact ⟨⟨rfl, rfl⟩, rfl⟩

example : InterpolantStorable (fun _ => true) 2 1000
    ⟨exampleModel, true, ⟨2, 2, [1, 2, 3, 4]⟩, ⟨0, 2, []⟩, ⟨⟨1, 2, [1, 2]⟩, ⟨1, 2, [3, 4]⟩⟩, ⟨5, 1, [1, 2, 3, 4, 5]⟩⟩ := by
  refine ⟨?_, ⟨by simp, by simp, by simp⟩, by decide, ⟨by simp, by simp, by simp⟩, by decide,
    ⟨by simp, by simp, by simp⟩, ⟨by simp, by simp, by simp⟩, ⟨by simp, by simp, by simp⟩, by decide⟩
  refine ⟨?_, by decide, by decide⟩
  intro r hr
  simp [exampleModel] at hr
  rcases hr with h | h <;> subst h <;> exact ⟨⟨rfl, rfl⟩, rfl⟩

example : VariogramStorable 3 1000 ⟨[1, 2], [3, 4], [5, 6], ⟨1, 3, [one, zero, zero]⟩⟩ :=
  ⟨by decide, by decide, by decide, ⟨by simp, by simp, by simp⟩⟩

/-! ## C05

The claim is false of the code.  What follows proves how it fails and the part that holds. -/

/-- An empty file loads without error: as an empty variogram set, and as a model with no covariance function, which
the constructor of `Model` forbids. -/
theorem C05_empty_file_is_accepted (detPos : List Dbl → Bool) (identity : List Dbl) (d : Nat)
    (h0 : alloc 0 = true) :
    load (variogramSet alloc d) [] = .ok [] ∧
    load (model alloc detPos identity d) [] = .ok ⟨[], 0, zero⟩ ∧
    (∀ deg, newModel [] deg = .throws .invalidArgument) := by
  refine ⟨?_, ?_, fun deg => by simp [newModel]⟩
  · simp [load, variogramSet, vecOf, pod, isRead, u64, encLE, decLE, h0, readMany]
  · simp [load, model, vecOf, pod, isRead, u64, i32, encLE, decLE, h0, readMany, zero]

theorem vecPod_total (h : ∀ n, alloc n = true) (p : Pod α) (s : IS) : ∃ r, (vecPod alloc p).read s = .ok r := by
  simp [vecPod, pod, h]

theorem matrix_total (h : ∀ n, alloc n = true) (r c : Option Nat) (s : IS) :
    ∃ x, (matrix alloc r c).read s = .ok x := by
  cases r <;> cases c <;> simp [matrix, pod, h]

theorem readMany_total {c : Codec α} (h : ∀ s, ∃ r, c.read s = .ok r) (n : Nat) (s : IS) :
    ∃ r, readMany c n s = .ok r := by
  induction n generalizing s with
  | zero => exact ⟨_, rfl⟩
  | succ n ih =>
      obtain ⟨⟨x, s'⟩, hx⟩ := h s
      obtain ⟨⟨xs, s''⟩, hxs⟩ := ih s'
      exact ⟨(x :: xs, s''), by simp [readMany, hx, hxs]⟩

/-- Unless memory runs out, *no* sequence of bytes - in particular no truncated file - is rejected when it is loaded as
a variogram set. -/
theorem C05_variogram_set_never_rejects (h : ∀ n, alloc n = true) (d : Nat) (file : List Byte) :
    ∃ vs, load (variogramSet alloc d) file = .ok vs := by
  have hv : ∀ s, ∃ r, (variogram alloc d).read s = .ok r := by
    intro s
    obtain ⟨⟨a, s1⟩, h1⟩ := vecPod_total h u64 s
    obtain ⟨⟨b, s2⟩, h2⟩ := vecPod_total h u64 s1
    obtain ⟨⟨c, s3⟩, h3⟩ := vecPod_total h u64 s2
    obtain ⟨⟨e, s4⟩, h4⟩ := matrix_total h (some 1) (some d) s3
    exact ⟨(⟨a, b, c, e⟩, s4), by simp [variogram, h1, h2, h3, h4]⟩
  have : ∃ r, (variogramSet alloc d).read ⟨file, false⟩ = .ok r := by
    simp only [variogramSet, vecOf, pod, Outcome.ok_bind, h, if_true]
    exact readMany_total hv _ _
  obtain ⟨⟨x, s⟩, hx⟩ := this
  exact ⟨x, by simp [load, hx]⟩

/-- Dropping up to the last twelve bytes of a saved model (its degree and nugget) goes unnoticed. -/
theorem C05_model_tail_not_checked (detPos : List Dbl → Bool) (identity : List Dbl) (d : Nat) (hN : N < 2 ^ 64)
    (hmem : ∀ n ≤ N, alloc n = true) (hd : d * d ≤ N) (h3 : 3 ≤ N) (m : Mdl) (h : ModelStorable detPos d N m)
    (k : Nat) (hk : (save (model alloc detPos identity d) m).length - 12 ≤ k) :
    ∃ m', load (model alloc detPos identity d) ((save (model alloc detPos identity d) m).take k) = .ok m' ∧
      m'.rbfs = m.rbfs := by
  have e1 := C03_nested (alloc := alloc) (rbf alloc detPos identity d) m.rbfs hN hmem h.num
    (fun r hr => rbf_roundTrips detPos identity d hN hmem hd h3 r (h.rbfs r hr))
  have hlen : (i32.enc (BitVec.ofInt 32 m.polyDegree) ++ u64.enc m.nugget).length = 12 := by
    rw [List.length_append, i32_good.len, u64_good.len]; rfl
  simp only [save, model, List.append_assoc, List.length_append] at hk ⊢
  rw [List.length_append] at hlen
  rw [List.take_append]
  have : (List.take k ((vecOf alloc (rbf alloc detPos identity d)).write m.rbfs)) =
      (vecOf alloc (rbf alloc detPos identity d)).write m.rbfs := List.take_of_length_le (by omega)
  rw [this]
  simp only [load]
  rw [e1]
  simp [pod]

/-! The part that holds: a file cut inside (or before) the name of a covariance function is rejected. -/

theorem decMany_length (p : Pod α) (n : Nat) (bs : List Byte) : (decMany p n bs).length = n := by
  induction n generalizing bs with
  | zero => rfl
  | succ n ih => simp [decMany, ih]

theorem bytesName_ne (bs : List Byte) (h : ∀ k : Kind, bs ≠ nameBytes k.shortName) (k : Kind) :
    bytesName bs ≠ k.shortName := by
  intro e
  apply h k
  have : bs = (bytesName bs).toList.map (fun c => UInt8.ofNat c.toNat) := by
    simp only [bytesName, String.toList_ofList, List.map_map]
    symm
    conv_rhs => rw [← List.map_id bs]
    apply List.map_congr_left
    intro b _
    have hb : b.toNat < 256 := b.toNat_lt
    have hv : (Char.ofNat b.toNat).toNat = b.toNat := by
      have : b.toNat.isValidChar := Or.inl (by omega)
      simp [Char.ofNat, this, Char.toNat, Char.ofNatAux]
    simp [hv]
  rw [this, e]
  rfl


/-- Once the stream has failed it stays failed. -/
def FailStays (c : Codec α) : Prop := ∀ s y s', s.fail = true → c.read s = .ok (y, s') → s'.fail = true

/-- A read cut short that returns anyway leaves the stream failed. -/
def CutFails (c : Codec α) (x : α) : Prop :=
  ∀ j, j < (c.write x).length → ∀ y s', c.read ⟨(c.write x).take j, false⟩ = .ok (y, s') → s'.fail = true

theorem isRead_fail (dst : List Byte) (s : IS) (h : s.fail = true) : isRead dst s = (dst, s) := by simp [isRead, h]

theorem isRead_cut (dst bs : List Byte) (h : bs.length < dst.length) : (isRead dst ⟨bs, false⟩).2.fail = true := by
  simp [isRead, Nat.not_le.mpr h]

theorem pod_failStays (p : Pod α) : FailStays (pod p) := by
  intro s y s' h hr
  simp [pod, isRead_fail _ _ h] at hr
  rw [← hr.2]; exact h

theorem pod_cutFails {p : Pod α} (hp : p.Good) (x : α) : CutFails (pod p) x := by
  intro j hj y s' hr
  simp only [pod] at hj hr
  have h := isRead_cut (p.enc p.dflt) ((p.enc x).take j) (by
    rw [hp.len] at *; simp [hp.len]; omega)
  cases hr; exact h

theorem readBuffer_fail (p : Pod α) (n : Nat) (s : IS) (h : s.fail = true) : (readBuffer p n s).2.fail = true := by
  simp [readBuffer, isRead_fail _ _ h, h]

theorem readBuffer_cut {p : Pod α} (hp : p.Good) (n : Nat) (bs : List Byte) (h : bs.length < n * p.size) :
    (readBuffer p n ⟨bs, false⟩).2.fail = true := by
  simp only [readBuffer]
  exact isRead_cut _ _ (by rw [replicate_length hp]; exact h)

theorem vecPod_failStays (p : Pod α) : FailStays (vecPod alloc p) := by
  intro s y s' h hr
  simp only [vecPod, pod, isRead_fail _ _ h, Outcome.ok_bind] at hr
  split at hr
  · simp only [Outcome.pure_eq, Outcome.ok.injEq] at hr
    have := readBuffer_fail p ((u64.dec (u64.enc u64.dflt)).toNat) s h
    rw [hr] at this; exact this
  · cases hr

theorem vecPod_cutFails {p : Pod α} (hp : p.Good) (xs : List α) (hl : xs.length < 2 ^ 64) :
    CutFails (vecPod alloc p) xs := by
  intro j hj y s' hr
  simp only [vecPod] at hj hr
  by_cases h8 : j < 8
  · rw [List.take_append_of_le_length (by rw [u64_good.len]; exact Nat.le_of_lt h8)] at hr
    rw [Outcome.bind_eq_ok] at hr
    obtain ⟨⟨n, s1⟩, h1, h2⟩ := hr
    have hf := pod_cutFails u64_good (BitVec.ofNat 64 xs.length) j
      (by show j < (u64.enc _).length; rw [u64_good.len]; exact h8) n s1 h1
    simp only at h2
    split at h2
    · simp only [Outcome.pure_eq, Outcome.ok.injEq] at h2
      have := readBuffer_fail p n.toNat s1 hf
      rw [h2] at this; exact this
    · cases h2
  · rw [List.take_append, List.take_of_length_le (by rw [u64_good.len]; exact Nat.le_of_not_lt h8)] at hr
    have e := pod_roundTrips u64_good (BitVec.ofNat 64 xs.length)
    unfold RoundTrips at e
    simp only [show (pod u64).write = u64.enc from rfl] at e
    rw [e] at hr
    simp only [Outcome.ok_bind, BitVec.toNat_ofNat, Nat.mod_eq_of_lt hl] at hr
    split at hr
    · simp only [Outcome.pure_eq, Outcome.ok.injEq] at hr
      have := readBuffer_cut hp xs.length ((xs.flatMap p.enc).take (j - (u64.enc (BitVec.ofNat 64 xs.length)).length))
        (by
          rw [List.length_append, flatMap_length hp] at hj
          rw [List.length_take, flatMap_length hp]
          rw [u64_good.len, show u64.size = 8 from rfl] at *
          omega)
      rw [hr] at this; exact this
    · cases hr

theorem fixed_failStays (r c : Nat) : FailStays (matrix alloc (some r) (some c)) := by
  intro s y s' h hr
  simp only [matrix, Outcome.ok_bind] at hr
  split at hr
  · simp only [Outcome.pure_eq, Outcome.ok.injEq] at hr
    have := readBuffer_fail u64 (r * c) s h
    cases hr
    exact this
  · cases hr

theorem fixed_cutFails (r c : Nat) (m : Mx) (hm : m.Fits (some r) (some c)) :
    CutFails (matrix alloc (some r) (some c)) m := by
  intro j hj y s' hr
  have h1 := hm.rows; have h2 := hm.cols; have h3 := hm.data
  simp only [Option.elim] at h1 h2
  simp only [matrix, Outcome.ok_bind, List.nil_append] at hj hr
  split at hr
  · simp only [Outcome.pure_eq, Outcome.ok.injEq] at hr
    rw [flatMap_length u64_good] at hj
    have := readBuffer_cut u64_good (r * c) ((m.data.flatMap u64.enc).take j)
      (by rw [List.length_take, flatMap_length u64_good, h1, h2, ← h3]; omega)
    cases hr
    exact this
  · cases hr

/-- The record of a covariance function read from a failed stream: the name is empty, so `make_rbf` throws. -/
theorem rbf_failed (detPos : List Dbl → Bool) (identity : List Dbl) (d : Nat) (h0 : alloc 0 = true)
    (hd : alloc (d * d) = true) (s : IS) (hs : s.fail = true) :
    (rbf alloc detPos identity d).read s = .throws .runtimeError := by
  have hz : (u64.dec (u64.enc u64.dflt)).toNat = 0 := by decide
  have hv : ∀ {α} (p : Pod α), (vecPod alloc p).read s = .ok ([], s) := by
    intro α p
    simp [vecPod, pod, isRead_fail _ _ hs, hz, h0, readBuffer, decMany]
  have hm : ∃ a, (matrix alloc (some d) (some d)).read s = .ok (a, s) := by
    simp [matrix, hd, readBuffer, isRead_fail _ _ hs]
  obtain ⟨a, hm⟩ := hm
  simp only [rbf, hv, Outcome.ok_bind, hm]
  have : makeRbf identity (bytesName []) [] = .throws .runtimeError := rfl
  rw [this]; rfl

/-- The bytes of a name cut short. -/
theorem name_cut (k : Kind) (j : Nat) (hj : j < 11) (h0 : alloc 0 = true) (h3 : alloc 3 = true) :
    ∃ name s, (vecPod alloc char1).read ⟨((vecPod alloc char1).write (nameBytes k.shortName)).take j, false⟩ =
      .ok (name, s) ∧ ∀ k' : Kind, name ≠ nameBytes k'.shortName := by
  have key : ∀ (k : Kind) (j : Fin 11),
      ((u64.dec (isRead (u64.enc u64.dflt)
          ⟨((vecPod (fun _ => true) char1).write (nameBytes k.shortName)).take j, false⟩).1).toNat = 0 ∨
        (u64.dec (isRead (u64.enc u64.dflt)
          ⟨((vecPod (fun _ => true) char1).write (nameBytes k.shortName)).take j, false⟩).1).toNat = 3) ∧
      (0 ∈ (readBuffer char1 (u64.dec (isRead (u64.enc u64.dflt)
          ⟨((vecPod (fun _ => true) char1).write (nameBytes k.shortName)).take j, false⟩).1).toNat
          (isRead (u64.enc u64.dflt)
            ⟨((vecPod (fun _ => true) char1).write (nameBytes k.shortName)).take j, false⟩).2).1 ∨
       (readBuffer char1 (u64.dec (isRead (u64.enc u64.dflt)
          ⟨((vecPod (fun _ => true) char1).write (nameBytes k.shortName)).take j, false⟩).1).toNat
          (isRead (u64.enc u64.dflt)
            ⟨((vecPod (fun _ => true) char1).write (nameBytes k.shortName)).take j, false⟩).2).1 = []) := by
    intro k j
    revert j
    cases k <;> decide
  have hne : ∀ (l : List Byte), (0 ∈ l ∨ l = []) → ∀ k' : Kind, l ≠ nameBytes k'.shortName := by
    intro l hl k' e
    subst e
    revert hl
    cases k' <;> decide
  obtain ⟨h1, h2⟩ := key k ⟨j, hj⟩
  generalize hw : ((vecPod (fun _ => true) char1).write (nameBytes k.shortName)).take j = w at h1 h2
  refine ⟨_, (readBuffer char1 (u64.dec (isRead (u64.enc u64.dflt) ⟨w, false⟩).1).toNat
          (isRead (u64.enc u64.dflt) ⟨w, false⟩).2).2, ?_, hne _ h2⟩
  have : ((vecPod alloc char1).write (nameBytes k.shortName)).take j = w := hw
  rw [this]
  simp only [vecPod, pod, Outcome.ok_bind]
  rw [if_pos]
  · rfl
  · rcases h1 with h1 | h1 <;> rw [h1] <;> assumption

theorem makeRbf_unknown (identity : List Dbl) (bs : List Byte) (h : ∀ k : Kind, bs ≠ nameBytes k.shortName)
    (p : List Dbl) : makeRbf identity (bytesName bs) p = .throws .runtimeError := by
  have : kinds.find? (fun k => bytesName bs == k.shortName) = none := by
    rw [List.find?_eq_none]
    intro k _
    simpa using bytesName_ne bs h k
  simp [makeRbf, this]

theorem rbf_cut_in_name (detPos : List Dbl → Bool) (identity : List Dbl) (d : Nat) (r : Rbf) (j : Nat) (hj : j < 11)
    (h0 : alloc 0 = true) (h3 : alloc 3 = true) :
    ∃ e, (rbf alloc detPos identity d).read ⟨((rbf alloc detPos identity d).write r).take j, false⟩ = .throws e := by
  obtain ⟨name, s, h1, h2⟩ := name_cut (alloc := alloc) r.kind j hj h0 h3
  have hlen : ((vecPod alloc char1).write (nameBytes r.kind.shortName)).length = 11 := by
    simp only [vecPod, List.length_append, u64_good.len, flatMap_length char1_good, nameBytes_length]; rfl
  have : ((rbf alloc detPos identity d).write r).take j =
      ((vecPod alloc char1).write (nameBytes r.kind.shortName)).take j := by
    simp only [rbf, List.append_assoc]
    rw [List.take_append_of_le_length (by omega)]
  rw [this]
  simp only [rbf, h1, Outcome.ok_bind]
  cases hp : (vecPod alloc u64).read s with
  | throws e => exact ⟨e, rfl⟩
  | ub => simp only [vecPod, pod, Outcome.ok_bind] at hp; split at hp <;> cases hp
  | ok v =>
      obtain ⟨p, s2⟩ := v
      simp only [Outcome.ok_bind]
      cases hm : (matrix alloc (some d) (some d)).read s2 with
      | throws e => exact ⟨e, rfl⟩
      | ub => simp only [matrix, Outcome.ok_bind] at hm; split at hm <;> cases hm
      | ok v =>
          obtain ⟨a, s3⟩ := v
          simp only [Outcome.ok_bind, makeRbf_unknown identity name h2]
          exact ⟨_, rfl⟩

/-- The tail of reading a covariance function keeps the stream state. -/
theorem rbf_end (detPos : List Dbl → Bool) (identity : List Dbl) (name : String) (p a : List Dbl) (s : IS) (y : Rbf)
    (s' : IS)
    (h : (do
      let r ← makeRbf identity name p
      match r.setAnisotropy detPos a with
      | (r, .ok ()) => return (r, s)
      | (_, .throws e) => .throws e
      | (_, .ub) => .ub) = .ok (y, s')) : s' = s := by
  rw [Outcome.bind_eq_ok] at h
  obtain ⟨r, _, h2⟩ := h
  rcases hh : r.setAnisotropy detPos a with ⟨r', o⟩
  rw [hh] at h2
  match o, h2 with
  | .ok (), h2 => cases h2; rfl
  | .throws e, h2 => cases h2
  | .ub, h2 => cases h2

theorem rbf_cutFails (detPos : List Dbl → Bool) (identity : List Dbl) (d : Nat) (hN : N < 2 ^ 64)
    (hmem : ∀ n ≤ N, alloc n = true) (h3 : 3 ≤ N) (r : Rbf) (h : RbfStorable detPos d r)
    (j : Nat) (hj : j < ((rbf alloc detPos identity d).write r).length) (y : Rbf) (s' : IS)
    (hr : (rbf alloc detPos identity d).read ⟨((rbf alloc detPos identity d).write r).take j, false⟩ = .ok (y, s')) :
    s'.fail = true := by
  have hlen : ((vecPod alloc char1).write (nameBytes r.kind.shortName)).length = 11 := by
    simp only [vecPod, List.length_append, u64_good.len, flatMap_length char1_good, nameBytes_length]; rfl
  by_cases h11 : j < 11
  · obtain ⟨e, he⟩ := rbf_cut_in_name (alloc := alloc) detPos identity d r j h11 (hmem 0 (by omega)) (hmem 3 h3)
    rw [he] at hr; cases hr
  · obtain ⟨⟨hp, hdet⟩, ha⟩ := h
    have c3 := C03_containers (alloc := alloc) hN hmem
    have e1 := c3.1 (nameBytes r.kind.shortName) (by rw [nameBytes_length]; omega)
    simp only [rbf, List.append_assoc] at hr hj
    rw [List.take_append, List.take_of_length_le (by omega), e1] at hr
    simp only [Outcome.ok_bind] at hr
    rw [List.length_append, hlen] at hj
    rw [hlen] at hr
    by_cases h2 : j - 11 < ((vecPod alloc u64).write r.params).length
    · rw [List.take_append_of_le_length (by omega)] at hr
      rw [Outcome.bind_eq_ok] at hr
      obtain ⟨⟨p, s1⟩, g1, g2⟩ := hr
      have f1 := vecPod_cutFails u64_good r.params (by omega) (j - 11) h2 p s1 g1
      simp only at g2
      rw [Outcome.bind_eq_ok] at g2
      obtain ⟨⟨a, s2⟩, g3, g4⟩ := g2
      have f2 := fixed_failStays d d s1 a s2 f1 g3
      rw [rbf_end _ _ _ _ _ _ _ _ g4]; exact f2
    · rw [List.take_append, List.take_of_length_le (by omega), c3.2.1 r.params (by omega)] at hr
      simp only [Outcome.ok_bind] at hr
      rw [List.length_append] at hj
      rw [Outcome.bind_eq_ok] at hr
      obtain ⟨⟨a, s2⟩, g3, g4⟩ := hr
      have f2 := fixed_cutFails (alloc := alloc) d d ⟨d, d, r.aniso⟩ ⟨rfl, rfl, ha⟩ _ (by omega) a s2 g3
      rw [rbf_end _ _ _ _ _ _ _ _ g4]; exact f2

/-- Position of the end of the last name among the records of the covariance functions. -/
def lastNameEnd (c : Codec Rbf) (rs : List Rbf) : Nat := (rs.dropLast.flatMap c.write).length + 11

theorem readMany_cut (detPos : List Dbl → Bool) (identity : List Dbl) (d : Nat) (hN : N < 2 ^ 64)
    (hmem : ∀ n ≤ N, alloc n = true) (h3 : 3 ≤ N) (hd : d * d ≤ N) (rs : List Rbf) (hne : rs ≠ [])
    (h : ∀ r ∈ rs, RbfStorable detPos d r) (j : Nat) (hj : j < lastNameEnd (rbf alloc detPos identity d) rs) :
    ∃ e, readMany (rbf alloc detPos identity d) rs.length
      ⟨(rs.flatMap (rbf alloc detPos identity d).write).take j, false⟩ = .throws e := by
  induction rs generalizing j with
  | nil => exact absurd rfl hne
  | cons r rs ih =>
      simp only [List.length_cons, readMany, List.flatMap_cons]
      by_cases hlt : j < ((rbf alloc detPos identity d).write r).length
      · rw [List.take_append_of_le_length (by omega)]
        cases hr : (rbf alloc detPos identity d).read ⟨((rbf alloc detPos identity d).write r).take j, false⟩ with
        | throws e => exact ⟨e, rfl⟩
        | ub =>
            exfalso
            simp only [rbf] at hr
            cases h1 : (vecPod alloc char1).read ⟨((rbf alloc detPos identity d).write r).take j, false⟩ with
            | throws e => simp only [rbf] at h1; rw [h1] at hr; cases hr
            | ub => simp only [vecPod, pod, Outcome.ok_bind] at h1; split at h1 <;> cases h1
            | ok v =>
              obtain ⟨n, s1⟩ := v
              simp only [rbf] at h1
              rw [h1] at hr
              simp only [Outcome.ok_bind] at hr
              cases h2 : (vecPod alloc u64).read s1 with
              | throws e => rw [h2] at hr; cases hr
              | ub => simp only [vecPod, pod, Outcome.ok_bind] at h2; split at h2 <;> cases h2
              | ok v =>
                obtain ⟨p, s2⟩ := v
                rw [h2] at hr
                simp only [Outcome.ok_bind] at hr
                cases h3 : (matrix alloc (some d) (some d)).read s2 with
                | throws e => rw [h3] at hr; cases hr
                | ub => simp only [matrix, Outcome.ok_bind] at h3; split at h3 <;> cases h3
                | ok v =>
                  obtain ⟨a, s3⟩ := v
                  rw [h3] at hr
                  simp only [Outcome.ok_bind] at hr
                  cases h4 : makeRbf identity (bytesName n) p with
                  | throws e => rw [h4] at hr; cases hr
                  | ub =>
                      simp only [makeRbf] at h4
                      split at h4
                      · rename_i kk _
                        exact newRbf_not_ub identity kk p h4
                      · cases h4
                  | ok q =>
                      rw [h4] at hr
                      simp only [Outcome.ok_bind, Rbf.setAnisotropy] at hr
                      split at hr <;> rename_i hh <;> (try cases hr)
                      split at hh <;> cases hh
        | ok v =>
            obtain ⟨y, s'⟩ := v
            have hf := rbf_cutFails (alloc := alloc) detPos identity d hN hmem h3 r (h r (by simp)) j hlt y s' hr
            have hrs : rs ≠ [] := by
              rintro rfl
              simp only [lastNameEnd, List.dropLast_singleton, List.flatMap_nil, List.length_nil] at hj
              obtain ⟨e, he⟩ := rbf_cut_in_name (alloc := alloc) detPos identity d r j (by omega) (hmem 0 (by omega))
                (hmem 3 h3)
              rw [he] at hr; cases hr
            obtain ⟨r2, rs2, rfl⟩ : ∃ a l, rs = a :: l := List.exists_cons_of_ne_nil hrs
            simp only [Outcome.ok_bind, List.length_cons, readMany,
              rbf_failed (alloc := alloc) detPos identity d (hmem 0 (by omega)) (hmem _ hd) s' hf]
            exact ⟨_, rfl⟩
      · rw [List.take_append, List.take_of_length_le (by omega)]
        have hrt := rbf_roundTrips (alloc := alloc) detPos identity d hN hmem hd h3 r (h r (by simp))
        rw [hrt]
        have hrs : rs ≠ [] := by
          rintro rfl
          simp only [lastNameEnd, List.dropLast_singleton, List.flatMap_nil, List.length_nil] at hj
          have : 11 ≤ ((rbf alloc detPos identity d).write r).length := by
            simp only [rbf, vecPod, List.length_append, u64_good.len, flatMap_length char1_good, nameBytes_length,
              show u64.size = 8 from rfl, show char1.size = 1 from rfl]
            omega
          omega
        have hj' : j - ((rbf alloc detPos identity d).write r).length < lastNameEnd (rbf alloc detPos identity d) rs := by
          unfold lastNameEnd at hj ⊢
          rw [List.dropLast_cons_of_ne_nil hrs, List.flatMap_cons, List.length_append] at hj
          omega
        obtain ⟨e, he⟩ := ih hrs (fun r hr => h r (by simp [hr])) _ hj'
        simp only [Outcome.ok_bind, he]
        exact ⟨e, rfl⟩

/-- The true part of C05 for models: a saved model (with at most 255 covariance functions) cut anywhere after its
first byte and before the end of the name of its last covariance function is rejected with an exception. -/
theorem C05_model_cut_rejected_partial (detPos : List Dbl → Bool) (identity : List Dbl) (d : Nat) (hN : N < 2 ^ 64)
    (hmem : ∀ n ≤ N, alloc n = true) (hd : d * d ≤ N) (h3 : 3 ≤ N) (m : Mdl) (h : ModelStorable detPos d N m)
    (hne : m.rbfs ≠ []) (h255 : m.rbfs.length ≤ 255) (k : Nat) (hk : 1 ≤ k)
    (hk' : k < 8 + lastNameEnd (rbf alloc detPos identity d) m.rbfs) :
    ∃ e, load (model alloc detPos identity d) ((save (model alloc detPos identity d) m).take k) = .throws e := by
  obtain ⟨r0, rs0, hcons⟩ : ∃ a l, m.rbfs = a :: l := List.exists_cons_of_ne_nil hne
  suffices hv : ∃ e, (vecOf alloc (rbf alloc detPos identity d)).read
      ⟨(save (model alloc detPos identity d) m).take k, false⟩ = .throws e by
    obtain ⟨e, he⟩ := hv
    refine ⟨e, ?_⟩
    simp only [load, model] at he ⊢
    rw [he]; rfl
  have h8 : (u64.enc (BitVec.ofNat 64 m.rbfs.length)).length = 8 := u64_good.len _
  have hpre : (save (model alloc detPos identity d) m).take k =
      (u64.enc (BitVec.ofNat 64 m.rbfs.length) ++
        m.rbfs.flatMap (rbf alloc detPos identity d).write).take k := by
    simp only [save, model, vecOf]
    rw [List.append_assoc, List.take_append_of_le_length]
    rw [List.length_append, h8]
    have hl : (m.rbfs.dropLast.flatMap (rbf alloc detPos identity d).write).length + 11 ≤
        (m.rbfs.flatMap (rbf alloc detPos identity d).write).length := by
      conv_rhs => rw [← List.dropLast_append_getLast hne]
      rw [List.flatMap_append, List.length_append]
      simp only [List.flatMap_cons, List.flatMap_nil, List.append_nil]
      have : 11 ≤ ((rbf alloc detPos identity d).write (m.rbfs.getLast hne)).length := by
        simp only [rbf, vecPod, List.length_append, u64_good.len, flatMap_length char1_good, nameBytes_length,
              show u64.size = 8 from rfl, show char1.size = 1 from rfl]
        omega
      omega
    unfold lastNameEnd at hk'
    omega
  rw [hpre]
  have hlt : m.rbfs.length < 2 ^ 64 := by omega
  by_cases hk8 : k < 8
  · rw [List.take_append_of_le_length (by omega)]
    have hdec : ∃ s, (pod u64).read ⟨(u64.enc (BitVec.ofNat 64 m.rbfs.length)).take k, false⟩ =
        .ok (BitVec.ofNat 64 m.rbfs.length, s) ∧ s.fail = true := by
      have key : ∀ (n : Fin 256) (k : Fin 8), 1 ≤ k.val →
          (isRead (u64.enc u64.dflt) ⟨(u64.enc (BitVec.ofNat 64 n.val)).take k, false⟩).1 =
            u64.enc (BitVec.ofNat 64 n.val) := by
        intro n k hk
        have he : u64.enc (BitVec.ofNat 64 n.val) = [UInt8.ofNat n.val, 0, 0, 0, 0, 0, 0, 0] := by
          have h256 : (BitVec.ofNat 64 n.val).toNat = n.val := by
            rw [BitVec.toNat_ofNat, Nat.mod_eq_of_lt (by omega)]
          simp only [u64, encLE, h256]
          have hn := n.isLt
          have h1 : n.val / 256 = 0 := by omega
          have h2 : n.val % 256 = n.val := by omega
          simp [h1, h2]
        rw [he]
        match k, hk with
        | ⟨1, _⟩, _ => rfl
        | ⟨2, _⟩, _ => rfl
        | ⟨3, _⟩, _ => rfl
        | ⟨4, _⟩, _ => rfl
        | ⟨5, _⟩, _ => rfl
        | ⟨6, _⟩, _ => rfl
        | ⟨7, _⟩, _ => rfl
      have hk2 := key ⟨m.rbfs.length, by omega⟩ ⟨k, hk8⟩ hk
      simp only at hk2
      have hg := u64_good.dec (BitVec.ofNat 64 m.rbfs.length)
      refine ⟨(isRead (u64.enc u64.dflt) ⟨(u64.enc (BitVec.ofNat 64 m.rbfs.length)).take k, false⟩).2, ?_, ?_⟩
      · simp only [pod]
        rw [hk2, hg]
      · exact isRead_cut _ _ (by rw [List.length_take, u64_good.len, u64_good.len]; show min k 8 < 8; omega)
    obtain ⟨s, hs, hf⟩ := hdec
    simp only [vecOf, hs, Outcome.ok_bind, BitVec.toNat_ofNat, Nat.mod_eq_of_lt hlt, hmem _ h.num, if_true]
    rw [hcons, List.length_cons, readMany,
      rbf_failed (alloc := alloc) detPos identity d (hmem 0 (by omega)) (hmem _ hd) s hf]
    exact ⟨_, rfl⟩
  · rw [List.take_append, List.take_of_length_le (by omega)]
    have e := pod_roundTrips u64_good (BitVec.ofNat 64 m.rbfs.length)
    unfold RoundTrips at e
    simp only [show (pod u64).write = u64.enc from rfl] at e
    simp only [vecOf, e, Outcome.ok_bind, BitVec.toNat_ofNat, Nat.mod_eq_of_lt hlt, hmem _ h.num, if_true]
    exact readMany_cut detPos identity d hN hmem h3 hd m.rbfs hne h.rbfs _ (by omega)

end Verif.Io
