import Verif.Props.Lattice
import Mathlib.Data.Real.Basic
import Mathlib.Tactic.Ring
import Mathlib.Tactic.LinearCombination
import Mathlib.Tactic.IntervalCases
import Mathlib.Tactic.NormNum

/-!
# C34 (orientation): every face separates the negative from the positive corners of its tetrahedron

Exact real arithmetic.  The node positions are `(origin + lc) * basis` (`primitive_lattice.hpp:41-43`) for a basis of
positive determinant; the vertex on a crossed edge lies strictly between its two nodes (`lattice.hpp:332-339`; the later
snapping to the faces of the bounding box, `lattice.hpp:519-529`, is not included).
-/

namespace Verif.Lattice

structure V3 where
  x : ℝ
  y : ℝ
  z : ℝ

namespace V3
def sub (a b : V3) : V3 := ⟨a.x - b.x, a.y - b.y, a.z - b.z⟩
def dot (a b : V3) : ℝ := a.x * b.x + a.y * b.y + a.z * b.z
def cross (a b : V3) : V3 := ⟨a.y * b.z - a.z * b.y, a.z * b.x - a.x * b.z, a.x * b.y - a.y * b.x⟩
/-- the point at parameter `t` between `a` and `b` -/
def lerp (t : ℝ) (a b : V3) : V3 := ⟨a.x + t * (b.x - a.x), a.y + t * (b.y - a.y), a.z + t * (b.z - a.z)⟩
end V3

def det3 (a b c : V3) : ℝ := V3.dot a (V3.cross b c)

/-- `primitive_lattice.hpp:41-43` -/
structure Frame where
  o : V3
  b0 : V3
  b1 : V3
  b2 : V3

def Frame.pos (F : Frame) (lc : LC) : V3 :=
  ⟨(F.o.x + lc.x) * F.b0.x + (F.o.y + lc.y) * F.b1.x + (F.o.z + lc.z) * F.b2.x,
   (F.o.x + lc.x) * F.b0.y + (F.o.y + lc.y) * F.b1.y + (F.o.z + lc.z) * F.b2.y,
   (F.o.x + lc.x) * F.b0.z + (F.o.y + lc.y) * F.b1.z + (F.o.z + lc.z) * F.b2.z⟩

/-- Signed height of `m` over the oriented plane of the triangle `a, b, c`. -/
def side (a b c m : V3) : ℝ := V3.dot (V3.cross (V3.sub b a) (V3.sub c a)) (V3.sub m a)

/-- corners of the reference tetrahedron -/
def ref : Nat → V3
  | 0 => ⟨0, 0, 0⟩ | 1 => ⟨1, 0, 0⟩ | 2 => ⟨0, 1, 0⟩ | _ => ⟨0, 0, 1⟩

def refV (t : Nat → ℝ) (s : Nat) : V3 := V3.lerp (t s) (ref (slotEnds s).1) (ref (slotEnds s).2)

theorem prods {x y z : ℝ} (hx : 0 < x ∧ x < 1) (hy : 0 < y ∧ y < 1) (hz : 0 < z ∧ z < 1) :
    (0 < x * y * z ∧ 0 < x * y * (1 - z) ∧ 0 < x * (1 - y) * z ∧ 0 < x * (1 - y) * (1 - z)) ∧
    (0 < (1 - x) * y * z ∧ 0 < (1 - x) * y * (1 - z) ∧ 0 < (1 - x) * (1 - y) * z ∧ 0 < (1 - x) * (1 - y) * (1 - z)) := by
  have a : 0 < 1 - x := by linarith [hx.2]
  have b : 0 < 1 - y := by linarith [hy.2]
  have c : 0 < 1 - z := by linarith [hz.2]
  refine ⟨⟨?_, ?_, ?_, ?_⟩, ?_, ?_, ?_, ?_⟩ <;> exact mul_pos (mul_pos (by linarith) (by linarith)) (by linarith)

theorem ref_side (c : Cls) (t : Nat → ℝ) (ht : ∀ s, 0 < t s ∧ t s < 1) (f : Nat × Nat × Nat) (hf : f ∈ slots c) (m : Nat)
    (hm : m < 4) :
    (c.get m = true → side (refV t f.1) (refV t f.2.1) (refV t f.2.2) (ref m) < 0) ∧
    (c.get m = false → 0 < side (refV t f.1) (refV t f.2.1) (refV t f.2.2) (ref m)) := by
  obtain ⟨a, b, c, d⟩ := c
  obtain ⟨⟨p1, p2, p3, p4⟩, p5, p6, p7, p8⟩ := prods (ht f.1) (ht f.2.1) (ht f.2.2)
  cases a <;> cases b <;> cases c <;> cases d <;>
    simp only [slots, faceTable, List.mem_cons, List.not_mem_nil, or_false] at hf <;>
    (try rcases hf with rfl | rfl) <;>
    (simp only at p1 p2 p3 p4 p5 p6 p7 p8
     interval_cases m <;>
     simp only [Cls.get, side, refV, slotEnds, ref, V3.lerp, V3.sub, V3.cross, V3.dot, Bool.false_eq_true,
        false_imp_iff, true_imp_iff, reduceCtorEq, and_true, true_and] <;> linarith)

/-- determinant of the corners of tetrahedron `k`, as integers -/
def cornerDet (k : Nat) : Int :=
  let a := corner k 1; let b := corner k 2; let c := corner k 3
  a.x * (b.y * c.z - b.z * c.y) + a.y * (b.z * c.x - b.x * c.z) + a.z * (b.x * c.y - b.y * c.x)

theorem cornerDet_one (k : Nat) (hk : k < 6) : cornerDet k = 1 := by
  have : ∀ k < 6, cornerDet k = 1 := by decide
  exact this k hk

/-- the affine map taking the reference tetrahedron to the one with corners `p0, p1, p2, p3` -/
def aff (p0 p1 p2 p3 v : V3) : V3 :=
  ⟨p0.x + v.x * (p1.x - p0.x) + v.y * (p2.x - p0.x) + v.z * (p3.x - p0.x),
   p0.y + v.x * (p1.y - p0.y) + v.y * (p2.y - p0.y) + v.z * (p3.y - p0.y),
   p0.z + v.x * (p1.z - p0.z) + v.y * (p2.z - p0.z) + v.z * (p3.z - p0.z)⟩

theorem side_aff (p0 p1 p2 p3 a b c m : V3) :
    side (aff p0 p1 p2 p3 a) (aff p0 p1 p2 p3 b) (aff p0 p1 p2 p3 c) (aff p0 p1 p2 p3 m) =
      side a b c m * det3 (V3.sub p1 p0) (V3.sub p2 p0) (V3.sub p3 p0) := by
  simp only [side, aff, det3, V3.sub, V3.cross, V3.dot]
  ring

theorem aff_ref (p : Nat → V3) (i : Nat) (hi : i < 4) : aff (p 0) (p 1) (p 2) (p 3) (ref i) = p i := by
  match i, hi with
  | 0, _ => simp [aff, ref]
  | 1, _ => simp [aff, ref]
  | 2, _ => simp [aff, ref]
  | 3, _ => simp [aff, ref]

theorem aff_lerp (p0 p1 p2 p3 a b : V3) (t : ℝ) :
    aff p0 p1 p2 p3 (V3.lerp t a b) = V3.lerp t (aff p0 p1 p2 p3 a) (aff p0 p1 p2 p3 b) := by
  simp only [aff, V3.lerp, V3.mk.injEq]
  refine ⟨by ring, by ring, by ring⟩

theorem frame_det (F : Frame) (lc : LC) (k : Nat) (hk : k < 6) :
    det3 (V3.sub (F.pos (tetNode lc k 1)) (F.pos (tetNode lc k 0))) (V3.sub (F.pos (tetNode lc k 2)) (F.pos (tetNode lc k 0)))
      (V3.sub (F.pos (tetNode lc k 3)) (F.pos (tetNode lc k 0))) = det3 F.b0 F.b1 F.b2 := by
  have h := cornerDet_one k hk
  have h' : ((cornerDet k : Int) : ℝ) = 1 := by rw [h]; norm_num
  have hz : corner k 0 = ⟨0, 0, 0⟩ := rfl
  simp only [cornerDet] at h'
  push_cast at h'
  simp only [det3, V3.sub, V3.cross, V3.dot, Frame.pos, tetNode, add_def, hz]
  push_cast
  generalize ((corner k 1).x : ℝ) = a1 at *
  generalize ((corner k 1).y : ℝ) = a2 at *
  generalize ((corner k 1).z : ℝ) = a3 at *
  generalize ((corner k 2).x : ℝ) = b1 at *
  generalize ((corner k 2).y : ℝ) = b2 at *
  generalize ((corner k 2).z : ℝ) = b3 at *
  generalize ((corner k 3).x : ℝ) = c1 at *
  generalize ((corner k 3).y : ℝ) = c2 at *
  generalize ((corner k 3).z : ℝ) = c3 at *
  linear_combination (F.b0.x * (F.b1.y * F.b2.z - F.b1.z * F.b2.y) + F.b0.y * (F.b1.z * F.b2.x - F.b1.x * F.b2.z) +
    F.b0.z * (F.b1.x * F.b2.y - F.b1.y * F.b2.x)) * h'

/-- `vp` places the vertex of a crossed lattice edge strictly between its two nodes. -/
def Between (F : Frame) (σ : LC → Bool) (vp : UEdge → V3) : Prop :=
  ∀ e, Crossed σ e → ∃ t, 0 < t ∧ t < 1 ∧ vp e = V3.lerp t (F.pos e.1) (F.pos e.2)

theorem lerp_swap (t : ℝ) (a b : V3) : V3.lerp t a b = V3.lerp (1 - t) b a := by
  simp only [V3.lerp, V3.mk.injEq]
  refine ⟨by ring, by ring, by ring⟩

/-- Orientation: for every position of the vertices on their edges, every face of a tetrahedron has all its negative
corners strictly behind and all its positive corners strictly in front (with respect to the normal given by the order of
its vertices). -/
theorem C34_faces_oriented (F : Frame) (hF : 0 < det3 F.b0 F.b1 F.b2) (σ : LC → Bool) (vp : UEdge → V3)
    (hv : Between F σ vp) (lc : LC) (k : Nat) (hk : k < 6) (f : UEdge × UEdge × UEdge) (hf : f ∈ tetFaces σ lc k)
    (i : Nat) (hi : i < 4) :
    (σ (tetNode lc k i) = true → side (vp f.1) (vp f.2.1) (vp f.2.2) (F.pos (tetNode lc k i)) < 0) ∧
    (σ (tetNode lc k i) = false → 0 < side (vp f.1) (vp f.2.1) (vp f.2.2) (F.pos (tetNode lc k i))) := by
  have hcr := (C34_faces_on_crossed_edges σ lc k hk).2 f hf
  simp only [tetFaces, List.mem_map] at hf
  obtain ⟨g, hg, rfl⟩ := hf
  have hends : ∀ s, (slotEnds s).1 < 4 ∧ (slotEnds s).2 < 4 := by
    intro s; unfold slotEnds; split <;> decide
  -- parameters in the direction used by the reference tetrahedron
  have hpar : ∀ s, Crossed σ (tetEdge lc k s) → ∃ t, (0 < t ∧ t < 1) ∧ vp (tetEdge lc k s) =
      V3.lerp t (F.pos (tetNode lc k (slotEnds s).1)) (F.pos (tetNode lc k (slotEnds s).2)) := by
    intro s hs
    obtain ⟨t, h0, h1, he⟩ := hv _ hs
    rw [he]
    unfold tetEdge mkEdge
    split
    · exact ⟨t, ⟨h0, h1⟩, rfl⟩
    · exact ⟨1 - t, ⟨by linarith, by linarith⟩, lerp_swap _ _ _⟩
  obtain ⟨t1, ht1, e1⟩ := hpar _ hcr.2.2.2.1
  obtain ⟨t2, ht2, e2⟩ := hpar _ hcr.2.2.2.2.1
  obtain ⟨t3, ht3, e3⟩ := hpar _ hcr.2.2.2.2.2
  have hne : g.1 ≠ g.2.1 ∧ g.2.1 ≠ g.2.2 ∧ g.2.2 ≠ g.1 :=
    ⟨fun h => hcr.1 (by simp only [h]), fun h => hcr.2.1 (by simp only [h]), fun h => hcr.2.2.1 (by simp only [h])⟩
  let t : Nat → ℝ := fun s => if s = g.1 then t1 else if s = g.2.1 then t2 else if s = g.2.2 then t3 else 1 / 2
  have ht : ∀ s, 0 < t s ∧ t s < 1 := by
    intro s
    simp only [t]
    split
    · exact ht1
    · split
      · exact ht2
      · split
        · exact ht3
        · norm_num
  have hV : ∀ s, (∃ u, t s = u ∧ vp (tetEdge lc k s) =
      V3.lerp u (F.pos (tetNode lc k (slotEnds s).1)) (F.pos (tetNode lc k (slotEnds s).2))) →
      vp (tetEdge lc k s) = aff (F.pos (tetNode lc k 0)) (F.pos (tetNode lc k 1)) (F.pos (tetNode lc k 2))
        (F.pos (tetNode lc k 3)) (refV t s) := by
    rintro s ⟨u, hu, he⟩
    rw [he, refV, aff_lerp, hu]
    rw [aff_ref (fun i => F.pos (tetNode lc k i)) _ (hends s).1, aff_ref (fun i => F.pos (tetNode lc k i)) _ (hends s).2]
  have v1 := hV g.1 ⟨t1, by simp [t], e1⟩
  have v2 := hV g.2.1 ⟨t2, by simp [t, hne.1.symm], e2⟩
  have v3 := hV g.2.2 ⟨t3, by simp [t, hne.2.1.symm, hne.2.2], e3⟩
  have hm := aff_ref (fun i => F.pos (tetNode lc k i)) i hi
  have hside := side_aff (F.pos (tetNode lc k 0)) (F.pos (tetNode lc k 1)) (F.pos (tetNode lc k 2))
    (F.pos (tetNode lc k 3)) (refV t g.1) (refV t g.2.1) (refV t g.2.2) (ref i)
  rw [← v1, ← v2, ← v3, hm, frame_det F lc k hk] at hside
  have href := ref_side (cls σ lc k) t ht g hg i hi
  rw [cls_get σ lc k i hi] at href
  rw [hside]
  constructor
  · intro h; exact mul_neg_of_neg_of_pos (href.1 h) hF
  · intro h; exact mul_pos (href.2 h) hF

/-- The body-centred cubic basis of the code (`primitive_lattice.hpp:23-26`, up to its two positive constants) has
positive determinant. -/
example (a s : ℝ) (ha : 0 < a) (hs : 0 < s) : 0 < det3 ⟨a, s, 0⟩ ⟨-a, 0, s⟩ ⟨a, -s, 0⟩ := by
  simp only [det3, V3.cross, V3.dot]
  nlinarith [mul_pos ha (mul_pos hs hs)]

/-- Midpoints satisfy the hypothesis on the vertex positions, and the example of `C34` has faces. -/
example (F : Frame) (σ : LC → Bool) : Between F σ (fun e => V3.lerp (1 / 2) (F.pos e.1) (F.pos e.2)) :=
  fun _ _ => ⟨1 / 2, by norm_num, by norm_num, rfl⟩

end Verif.Lattice
