import Verif.Lemmas.TriangulationExact

/-!
# C62: triangulating a polygon with interior points (`src/isosurface/snapper/triangulation.hpp`)
-/

namespace Verif.Triangulation

open Verif Verif.AbstractMesh Verif.Triangulation.Spec

variable {I : Input} {bd inn : List (ℝ × ℝ)} {labels : List (Int × Int)}

/-- Fewer than three boundary vertices are rejected. -/
theorem C62_too_few (h : I.nb < 3) : build I = .throws .invalidArgument := by
  unfold build; rw [if_pos h]

/-- Whatever the coordinates are and however the arithmetic rounds: the constructor returns; if it could not clip all ears, `faces()` is
empty; and otherwise the faces are a consistently oriented surface whose boundary is the given polygon, with the number of faces that a disc
has, and no inner edge joins two boundary vertices with a label in common. -/
theorem C62_topology (hnb : 3 ≤ I.nb) (hl : I.labels = [] ∨ I.nb ≤ I.labels.length) : ∃ r, build I = .ok r ∧ (r.simple = false → r.faces = []) ∧
    (r.simple = true → Triangulates I.nb I.ni (I.area2 < 0) r.faces ∧
      r.faces.length + 2 = I.nb + 2 * (usedPoints I.nb I.ni r.faces).length ∧
      ∀ u v, Uses r.faces u v → u < I.nb → v < I.nb → ShareLabel I.labels u v →
        PolyEdge I.nb (I.area2 < 0) u v ∨ PolyEdge I.nb (I.area2 < 0) v u) := by
  obtain ⟨r, fs, h1, h2, -, h3⟩ := build_spec hnb hl
  refine ⟨r, h1, h2, fun hs => ?_⟩
  obtain ⟨m0, m, S, -, e, -, F, -⟩ := h3 hs
  rw [e]
  exact ⟨F.triangulates hnb, F.count', fun u v => F.label⟩

/-- `simple()` tells whether clipping ears, in some order, ends with a triangle; the ears then triangulate the polygon. -/
theorem C62_ears (hnb : 3 ≤ I.nb) (hl : I.labels = [] ∨ I.nb ≤ I.labels.length) {r : Result} (h : build I = .ok r) :
    ∃ fs, EarClips I.orient I.earTol I.labels (if I.area2 < 0 then (List.range I.nb).reverse else List.range I.nb) r.simple fs ∧
      (r.simple = true → Triangulates I.nb 0 (I.area2 < 0) fs) := by
  obtain ⟨r', fs, h1, h2, h4, h3⟩ := build_spec hnb hl
  rw [h] at h1
  cases h1
  refine ⟨fs, ?_, fun hs => ?_⟩
  · unfold ring at h4
    by_cases hneg : I.area2 < 0
    · rw [if_pos hneg] at h4 ⊢; exact h4
    · rw [if_neg hneg] at h4 ⊢; exact h4
  · obtain ⟨m0, m, S, e, -, F, -⟩ := h3 hs
    have : m0.takeFaces = fs := List.ext_getElem? fun i => by rw [takeFaces_get F.base.reach F.base.live, e]
    rw [← this]
    exact F.triangulates (k := 0) hnb

/-- What a successful call of the constructor amounts to. -/
theorem exact_build (hnb : 3 ≤ bd.length) (hl : labels = [] ∨ bd.length ≤ labels.length) {r : Result} (h : build (Input.exact bd inn labels) = .ok r)
    (hs : r.simple = true) : ∃ fs m0 m S, EarClips (Input.exact bd inn labels).orient (Input.exact bd inn labels).earTol labels (ring (Input.exact bd inn labels)) true fs ∧
      (∀ i, faceAt m0 i = fs[i]?) ∧ r.faces = m.takeFaces ∧ Fill (Input.exact bd inn labels) m0 bd.length ∅ ∧
      Fill (Input.exact bd inn labels) m (bd.length + inn.length) S ∧ Run (Input.exact bd inn labels) m0 (bd.length + inn.length) m ∧
      (∀ i f, faceAt m0 i = some f → i + 1 < m0.nf → (Input.exact bd inn labels).orient f.1 f.2.1 f.2.2 > (Input.exact bd inn labels).earTol) ∧
      (r.stable = true → ∀ i j f g x y c d, faceAt m i = some f → faceAt m j = some g → Side f x y → Side f y c → Side g y x → Side g x d → x < y →
        Settled (Input.exact bd inn labels) m x y c d) := by
  obtain ⟨r', fs, h1, h2, h4, h3⟩ := build_spec (I := Input.exact bd inn labels) hnb hl
  rw [h] at h1
  cases h1
  obtain ⟨m0, m, S, e0, e, F0, F, R, h5, h6⟩ := h3 hs
  rw [hs] at h4
  exact ⟨fs, m0, m, S, h4, e0, e, F0, F, R, h5, h6⟩

/-- The areas of the faces, with their signs, add up to the area of the polygon. -/
theorem C62_area (hnb : 3 ≤ bd.length) (hl : labels = [] ∨ bd.length ≤ labels.length) {r : Result} (h : build (Input.exact bd inn labels) = .ok r)
    (hs : r.simple = true) :
    (r.faces.map fun f => area2 (pt (bd ++ inn) f.1) (pt (bd ++ inn) f.2.1) (pt (bd ++ inn) f.2.2)).sum = |polyArea2 bd| := by
  obtain ⟨-, m0, m, S, -, -, e, -, F, -⟩ := exact_build hnb hl h hs
  rw [e]
  exact F.area

/-- Every point off the edges is in as many faces, counted with their orientation, as the polygon winds around it. -/
theorem C62_covers (hnb : 3 ≤ bd.length) (hl : labels = [] ∨ bd.length ≤ labels.length) {r : Result} (h : build (Input.exact bd inn labels) = .ok r)
    (hs : r.simple = true) : Covers bd (bd ++ inn) (polyArea2 bd < 0) r.faces := by
  obtain ⟨-, m0, m, S, -, -, e, -, F, -⟩ := exact_build hnb hl h hs
  rw [e]
  exact F.covers

open Classical in
/-- So if all faces are counterclockwise, a point that the polygon winds around once is in exactly one face, and a point outside in none. -/
theorem C62_tiles (hnb : 3 ≤ bd.length) (hl : labels = [] ∨ bd.length ≤ labels.length) {r : Result} (h : build (Input.exact bd inn labels) = .ok r)
    (hs : r.simple = true) (hpos : ∀ f ∈ r.faces, 0 < area2 (pt (bd ++ inn) f.1) (pt (bd ++ inn) f.2.1) (pt (bd ++ inn) f.2.2)) {x : ℝ × ℝ}
    (hx : ∀ u v, Uses r.faces u v → ¬ OnSegment (pt (bd ++ inn) u) (pt (bd ++ inn) v) x) :
    ((r.faces.countP fun f => decide (InsideCcw (pt (bd ++ inn) f.1) (pt (bd ++ inn) f.2.1) (pt (bd ++ inn) f.2.2) x) : ℕ) : ℤ) =
      (if polyArea2 bd < 0 then -1 else 1) * winding bd x := by
  have h1 := C62_covers hnb hl h hs x hx
  have h2 : (r.faces.countP fun f => decide (InsideCw (pt (bd ++ inn) f.1) (pt (bd ++ inn) f.2.1) (pt (bd ++ inn) f.2.2) x)) = 0 := by
    rw [List.countP_eq_zero]
    intro f hf
    rw [decide_eq_true_eq]
    rintro ⟨g1, g2, g3⟩
    have e : area2 (pt (bd ++ inn) f.1) (pt (bd ++ inn) f.2.1) (pt (bd ++ inn) f.2.2) = area2 (pt (bd ++ inn) f.1) (pt (bd ++ inn) f.2.1) x +
        area2 (pt (bd ++ inn) f.2.1) (pt (bd ++ inn) f.2.2) x + area2 (pt (bd ++ inn) f.2.2) (pt (bd ++ inn) f.1) x := by unfold area2; ring
    have := hpos f hf
    linarith
  rw [h2, Nat.cast_zero, sub_zero] at h1
  exact h1

theorem scale_nonneg (pts : List (ℝ × ℝ)) : 0 ≤ scale pts := by
  unfold scale; split
  · exact le_refl _
  · exact Real.sqrt_nonneg _

/-- Inserting points and flipping edges keep the orientation. -/
theorem Run.positive {m0 : Mesh} (hgen : GeneralPosition bd inn) (F0 : Fill (Input.exact bd inn labels) m0 bd.length ∅) (k : Nat)
    (h0 : ∀ i f, faceAt m0 i = some f → i ≠ k → 0 < (Input.exact bd inn labels).orient f.1 f.2.1 f.2.2) :
    ∀ {N : Nat} {m : Mesh}, Run (Input.exact bd inn labels) m0 N m → N ≤ bd.length + inn.length → (∃ S, Fill (Input.exact bd inn labels) m N S) ∧
      ∀ i f, faceAt m i = some f → i ≠ k → 0 < (Input.exact bd inn labels).orient f.1 f.2.1 f.2.2 := by
  intro N m R
  induction R with
  | start => exact fun _ => ⟨⟨∅, F0⟩, h0⟩
  | @insert N m m' R hi ih =>
      intro hN
      obtain ⟨⟨S, F⟩, hk⟩ := ih (by omega)
      refine ⟨(hi.fill F).imp fun S' h => h.1, ?_⟩
      cases hi with
      | outside e _ => rw [e]; exact hk
      | onCorner fi a b c f la lb lc e _ _ _ _ _ _ _ _ => rw [e]; exact hk
      | inFace fi x y z hf hp hb hr hF hnf hcap =>
          unfold min3 at hb
          obtain ⟨⟨b1, b2⟩, b3⟩ : (1e-9 < (bary (Input.exact bd inn labels) (x, y, z) N).1 ∧ 1e-9 < (bary (Input.exact bd inn labels) (x, y, z) N).2.1) ∧
              1e-9 < (bary (Input.exact bd inn labels) (x, y, z) N).2.2 := by
            rw [lt_min_iff, lt_min_iff] at hb; exact hb
          have hpos : ∀ t : ℝ, (1e-9 : ℝ) < t / (Input.exact bd inn labels).orient x y z → 0 < t := by
            intro t ht
            have h0 : (0 : ℝ) < t / (Input.exact bd inn labels).orient x y z := lt_trans (by norm_num) ht
            by_contra hh
            have := div_nonpos_of_nonpos_of_nonneg (not_lt.1 hh) hp.le
            linarith
          have p1 := hpos _ b1
          have p2 := hpos _ b2
          have p3 := hpos _ b3
          dsimp only at p1 p2 p3
          intro i f hf' hi
          rw [hF] at hf'
          split at hf'
          · cases hf'; exact p3
          · split at hf'
            · cases hf'
              rw [exact_orient] at p1
              change 0 < (Input.exact bd inn labels).orient y z N
              rw [exact_orient, area2_rot]
              exact p1
            · split at hf'
              · cases hf'
                rw [exact_orient] at p2
                change 0 < (Input.exact bd inn labels).orient z x N
                rw [exact_orient, area2_rot (pt (bd ++ inn) N), area2_rot (pt (bd ++ inn) x)]
                exact p2
              · exact hk i f hf' hi
      | onEdge fi fj a b c d f g hf s1 s2 s3 hg t1 t2 t3 hij hcd hr hF hnf hcap hon =>
          exfalso
          have hbad : ∀ a b, OnEdge (Input.exact bd inn labels) m N a b → False := by
            rintro a b ⟨fi, c, f, la, lb, lc, g1, g2, g3, g4, g5, g6, g7, g8, g9, g10⟩
            have hr := F.range fi f
            have hn := F.base.good.consistent.corners fi f g1
            have hlc : lc = area2 (pt (bd ++ inn) a) (pt (bd ++ inn) b) (pt (bd ++ inn) N) / (Input.exact bd inn labels).orient f.1 f.2.1 f.2.2 ∧ a < N ∧ b < N ∧ a ≠ b := by
              rcases g3 with ⟨rfl, g3⟩ | ⟨rfl, g3⟩ | ⟨rfl, g3⟩
              · refine ⟨?_, hr a g1 (Or.inl rfl), hr b g1 (Or.inr (Or.inl rfl)), hn.1⟩
                have := congrArg (fun p => p.2.2) g3
                dsimp only [bary] at this
                rw [← this, exact_orient a b N]; rfl
              · refine ⟨?_, hr a g1 (Or.inr (Or.inr rfl)), hr b g1 (Or.inl rfl), hn.2.2⟩
                have := congrArg (fun p => p.2.1) g3
                dsimp only [bary] at this
                rw [← this, exact_orient b N a, ← area2_rot]
                rw [← area2_rot]; rfl
              · refine ⟨?_, hr a g1 (Or.inr (Or.inl rfl)), hr b g1 (Or.inr (Or.inr rfl)), hn.2.1⟩
                have := congrArg (fun p => p.1) g3
                dsimp only [bary] at this
                rw [← this, exact_orient N a b, ← area2_rot]; rfl
            obtain ⟨e1, e2, e3, e4⟩ := hlc
            have hst : bd.length ≤ N := F.start
            have := hgen a b N f.1 f.2.1 f.2.2 (by omega) (by omega) hst (by omega) e4 (by omega) (by omega)
            rw [← exact_orient (labels := labels) f.1] at this
            have habs : |lc| ≤ 1e-9 := abs_le.2 ⟨g6, g7⟩
            rw [e1, abs_div, abs_of_pos g2, div_le_iff₀ g2] at habs
            linarith
          exact hon.elim (hbad a b) (hbad b a)
  | @flip N m m' fi fj x y c d f g R hf ih =>
      intro hN
      obtain ⟨⟨S, F⟩, hk⟩ := ih hN
      refine ⟨⟨S, hf.fill F⟩, ?_⟩
      have hz : 0 ≤ (Input.exact bd inn labels).areaTol := mul_nonneg (by norm_num) (mul_nonneg (scale_nonneg _) (scale_nonneg _))
      have ha := hf.area
      intro i f' hf' hi
      rw [hf.faces] at hf'
      split at hf'
      · cases hf'
        have := ha.1
        rw [exact_orient, area2_rot] at this
        dsimp only
        rw [exact_orient]
        linarith
      · split at hf'
        · cases hf'
          have := ha.2
          dsimp only
          linarith
        · exact hk i f' hf' hi

/-- The faces are counterclockwise, all but one at most, if the interior points are in general position. -/
theorem C62_orientation (hnb : 3 ≤ bd.length) (hl : labels = [] ∨ bd.length ≤ labels.length) {r : Result} (h : build (Input.exact bd inn labels) = .ok r)
    (hs : r.simple = true) (hgen : GeneralPosition bd inn) :
    ∃ k, ∀ (i : Nat) f, r.faces[i]? = some f → i ≠ k → 0 < area2 (pt (bd ++ inn) f.1) (pt (bd ++ inn) f.2.1) (pt (bd ++ inn) f.2.2) := by
  obtain ⟨-, m0, m, S, -, -, e, F0, F, R, h5, -⟩ := exact_build hnb hl h hs
  obtain ⟨-, hk⟩ := Run.positive hgen F0 (m0.nf - 1) (by
    intro i f hf hi
    have hlt := (faceAt_eq_some.1 hf).1.1
    have := h5 i f hf (by omega)
    have h0 : 0 ≤ (Input.exact bd inn labels).earTol := mul_nonneg (mul_nonneg (by norm_num) (scale_nonneg _)) (scale_nonneg _)
    linarith) R (le_refl _)
  refine ⟨m0.nf - 1, ?_⟩
  intro i f hf hi
  rw [e, takeFaces_get F.base.reach F.base.live] at hf
  have := hk i f hf hi
  rwa [exact_orient] at this

/-- Removing an element of a sorted list that is turned. -/
theorem rotated_sorted {l : List Nat} (hl : l.Pairwise (· < ·)) {p c q : Nat} {r : List Nat} (h : l ~r (p :: c :: q :: r)) :
    (l.filter (· ≠ c)).Pairwise (· < ·) ∧ l.filter (· ≠ c) ~r (p :: q :: r) := by
  refine ⟨hl.filter _, ?_⟩
  have hn : (p :: c :: q :: r).Nodup := h.nodup_iff.1 (hl.imp fun h => Nat.ne_of_lt h)
  rw [List.nodup_cons, List.nodup_cons] at hn
  have e1 : (p :: c :: q :: r).filter (· ≠ c) = p :: q :: r := by
    have h1 : p ≠ c := fun e => hn.1 (by rw [e]; exact List.mem_cons_self)
    have h2 : (q :: r).filter (· ≠ c) = q :: r := List.filter_eq_self.2 fun x hx => by
      simp only [ne_eq, decide_not, Bool.not_eq_true', decide_eq_false_iff_not]
      rintro rfl; exact hn.2.1 hx
    rw [List.filter_cons_of_pos (by simpa using h1), List.filter_cons_of_neg (by simp), h2]
  rw [← e1]
  obtain ⟨n, hn⟩ := h
  rw [← hn]
  rw [← List.rotate_mod] 
  rw [List.rotate_eq_drop_append_take (by
    rcases Nat.eq_zero_or_pos l.length with h0 | h0
    · rw [h0]; have := congrArg List.length hn; rw [List.length_rotate, h0] at this; simp at this
    · exact (Nat.mod_lt _ h0).le), List.filter_append]
  conv_lhs => rw [← List.take_append_drop (n % l.length) l, List.filter_append]
  exact List.isRotated_append

theorem convex_clips {area : Nat → Nat → Nat → ℝ} {tol : ℝ} {n : Nat} (h0 : 0 ≤ tol) (hconv : ∀ u v w, u < v → v < w → w < n → tol < area u v w)
    (hrot : ∀ u v w, area v w u = area u v w) (hanti : ∀ u v w, area v u w = - area u v w) {R : List Nat} {s : Bool} {fs : List Face}
    (h : EarClips area tol [] R s fs) : ∀ l : List Nat, l.Pairwise (· < ·) → (∀ v ∈ l, v < n) → l ~r R → s = true ∧ ∀ f ∈ fs, tol < area f.1 f.2.1 f.2.2 := by
  induction h with
  | last a b c =>
      intro l hl hlt hR
      refine ⟨rfl, fun f hf => ?_⟩
      rw [List.mem_singleton] at hf
      subst hf
      dsimp only
      obtain ⟨x, y, z, rfl⟩ : ∃ x y z, l = [x, y, z] := List.length_eq_three.1 (by rw [hR.perm.length_eq]; rfl)
      have hxy : x < y := by simp at hl; exact hl.1.1
      have hyz : y < z := by simp at hl; exact hl.2
      have hz := hlt z (by simp)
      have hA := hconv x y z hxy hyz hz
      obtain ⟨k, hk⟩ := hR
      rw [← List.rotate_mod] at hk
      have hk3 : k % [x, y, z].length < 3 := Nat.mod_lt _ (by simp)
      generalize k % [x, y, z].length = j at hk hk3
      match j, hk3 with
      | 0, _ => simp at hk; obtain ⟨rfl, rfl, rfl⟩ := hk; exact hA
      | 1, _ => simp [List.rotate_cons_succ] at hk; obtain ⟨rfl, rfl, rfl⟩ := hk; rw [hrot]; exact hA
      | 2, _ => simp [List.rotate_cons_succ] at hk; obtain ⟨rfl, rfl, rfl⟩ := hk; rw [hrot, hrot]; exact hA
  | @clip ring ring' p c q r s fs hr h1 h2 h3 _ ih =>
      intro l hl hlt hR
      obtain ⟨g1, g2⟩ := rotated_sorted hl (hR.trans h1)
      obtain ⟨i1, i2⟩ := ih (l.filter (· ≠ c)) g1 (fun v hv => hlt v (List.mem_of_mem_filter hv)) (g2.trans h3.symm)
      refine ⟨i1, fun f hf => ?_⟩
      rcases List.mem_cons.1 hf with rfl | hf
      · exact h2.1
      · exact i2 f hf
  | @stuck ring hlen hno =>
      intro l hl hlt hR
      exfalso
      have hl4 : 3 < l.length := by rw [hR.perm.length_eq]; exact hlen
      obtain ⟨a, b, c, rest, rfl⟩ : ∃ a b c rest, l = a :: b :: c :: rest := by
        match l, hl4 with
        | a :: b :: c :: rest, _ => exact ⟨a, b, c, rest, rfl⟩
      rw [List.pairwise_cons, List.pairwise_cons, List.pairwise_cons] at hl
      obtain ⟨p1, p2, p3, -⟩ := hl
      refine hno a b c rest hR.symm ⟨hconv a b c (p1 b (by simp)) (p2 c (by simp)) (hlt c (by simp)), ?_, ?_⟩
      · rintro ⟨x, y, hx, -⟩; simp at hx
      · intro v hv
        refine Or.inr (Or.inr ?_)
        rw [hanti]
        have := hconv a c v (p1 c (by simp)) (p3 v hv) (hlt v (by simp [hv]))
        linarith

/-- A strictly convex polygon, given counterclockwise, is triangulated, and with the interior points in general position all faces are
counterclockwise. -/
theorem C62_convex (hnb : 3 ≤ bd.length) {lo hi : ℝ × ℝ} (hbox : IsBox (bd ++ inn) lo hi) (hccw : 0 ≤ polyArea2 bd)
    (hconv : ∀ u v w, u < v → v < w → w < bd.length → 1e-14 * dist2 lo hi < area2 (pt bd u) (pt bd v) (pt bd w)) :
    ∃ r, build (Input.exact bd inn []) = .ok r ∧ r.simple = true ∧
      (GeneralPosition bd inn → ∀ f ∈ r.faces, 0 < area2 (pt (bd ++ inn) f.1) (pt (bd ++ inn) f.2.1) (pt (bd ++ inn) f.2.2)) := by
  obtain ⟨r, fs, h1, -, h4, -⟩ := build_spec (I := Input.exact bd inn []) hnb (Or.inl rfl)
  have htol : (Input.exact bd inn []).earTol = 1e-14 * dist2 lo hi := by
    rw [← scale_sq hbox]; change 1e-14 * _ * _ = _; ring
  have hring : ring (Input.exact bd inn []) = List.range bd.length := by
    unfold ring; rw [exact_area2, if_neg (not_lt.2 hccw)]; rfl
  have h0 : 0 ≤ (Input.exact bd inn []).earTol := mul_nonneg (mul_nonneg (by norm_num) (scale_nonneg _)) (scale_nonneg _)
  have hcl : ∀ {s : Bool} {fs : List Face}, EarClips (Input.exact bd inn []).orient (Input.exact bd inn []).earTol [] (List.range bd.length) s fs →
      s = true ∧ ∀ f ∈ fs, (Input.exact bd inn []).earTol < (Input.exact bd inn []).orient f.1 f.2.1 f.2.2 := by
    intro s fs h
    refine convex_clips (n := bd.length) h0 ?_ ?_ ?_ h (List.range bd.length) List.pairwise_lt_range (fun v hv => List.mem_range.1 hv) (List.IsRotated.refl _)
    · intro u v w h1 h2 h3
      rw [exact_orient, htol, pt_append (by omega), pt_append (by omega), pt_append h3]
      exact hconv u v w h1 h2 h3
    · intro u v w; rw [exact_orient, exact_orient, area2_rot]
    · intro u v w; rw [exact_orient, exact_orient, area2_anti]
  rw [hring] at h4
  have hs := (hcl h4).1
  refine ⟨r, h1, hs, fun hgen f hf => ?_⟩
  obtain ⟨fs', m0, m, S, c1, c2, e, F0, F, R, -⟩ := exact_build hnb (Or.inl rfl) h1 hs
  rw [hring] at c1
  have hpos : ∀ k i f, faceAt m0 i = some f → i ≠ k → 0 < (Input.exact bd inn []).orient f.1 f.2.1 f.2.2 := by
    intro k i f hf _
    rw [c2] at hf
    exact lt_of_le_of_lt h0 ((hcl c1).2 f (List.mem_of_getElem? hf))
  rw [e] at hf
  obtain ⟨i, hi'⟩ := (mem_faces F.base.reach F.base.live).1 hf
  have := (Run.positive hgen F0 (i + 1) (hpos _) R (le_refl _)).2 i f hi' (by omega)
  rwa [exact_orient] at this

/-! ## The interior points -/

theorem coords_rot (a b c x : ℝ × ℝ) : coords b c a x = ((coords a b c x).2.1, (coords a b c x).2.2, (coords a b c x).1) := by
  unfold coords
  rw [area2_rot a b c]
  refine Prod.ext ?_ (Prod.ext ?_ ?_) <;> dsimp only <;> congr 1 <;> unfold area2 <;> ring

theorem exact_bary (f : Face) (v : Nat) : bary (Input.exact bd inn labels) f v =
    coords (pt (bd ++ inn) f.1) (pt (bd ++ inn) f.2.1) (pt (bd ++ inn) f.2.2) (pt (bd ++ inn) v) := by
  unfold bary coords
  rw [exact_orient, exact_orient, exact_orient, exact_orient]
  rfl

/-- The weights, whichever corner comes first. -/
theorem rotated {f : Face} {a b c v : Nat} {la lb lc : ℝ}
    (h : (f = (a, b, c) ∧ bary (Input.exact bd inn labels) f v = (la, lb, lc)) ∨ (f = (b, c, a) ∧ bary (Input.exact bd inn labels) f v = (lb, lc, la)) ∨
      (f = (c, a, b) ∧ bary (Input.exact bd inn labels) f v = (lc, la, lb))) (hp : 0 < (Input.exact bd inn labels).orient f.1 f.2.1 f.2.2) :
    Side f a b ∧ Side f b c ∧ Side f c a ∧ 0 < area2 (pt (bd ++ inn) a) (pt (bd ++ inn) b) (pt (bd ++ inn) c) ∧
      (la, lb, lc) = coords (pt (bd ++ inn) a) (pt (bd ++ inn) b) (pt (bd ++ inn) c) (pt (bd ++ inn) v) := by
  rw [exact_orient] at hp
  rcases h with ⟨rfl, h⟩ | ⟨rfl, h⟩ | ⟨rfl, h⟩
  · refine ⟨by simp [Side], by simp [Side], by simp [Side], hp, ?_⟩
    rw [exact_bary] at h
    exact h.symm
  · refine ⟨by simp [Side], by simp [Side], by simp [Side], ?_, ?_⟩
    · rw [area2_rot] at hp; exact hp
    · rw [exact_bary] at h
      dsimp only at h
      rw [coords_rot, coords_rot, h]
  · refine ⟨by simp [Side], by simp [Side], by simp [Side], ?_, ?_⟩
    · rw [area2_rot]; exact hp
    · rw [exact_bary] at h
      dsimp only at h
      rw [coords_rot, h]

/-- Each interior point is decided upon in a triangulation of the polygon with the points before it: it is left out if it is outside or on a
corner or an edge of the polygon, and it is a vertex of the result otherwise. -/
theorem C62_points (hnb : 3 ≤ bd.length) (hl : labels = [] ∨ bd.length ≤ labels.length) {r : Result} (h : build (Input.exact bd inn labels) = .ok r)
    (hs : r.simple = true) {k : Nat} (hk : k < inn.length) : ∃ T, Triangulates bd.length k (polyArea2 bd < 0) T ∧
      Covers bd (bd ++ inn) (polyArea2 bd < 0) T ∧
      ((¬ (∃ f ∈ r.faces, Corner f (bd.length + k)) ∧ (Outside (bd ++ inn) T (pt inn k) ∨ OnCorner bd.length (polyArea2 bd < 0) (bd ++ inn) T (pt inn k))) ∨
       ((∃ f ∈ r.faces, Corner f (bd.length + k)) ∧ (WellInside (bd ++ inn) T (pt inn k) ∨ OnInnerEdge bd.length (polyArea2 bd < 0) (bd ++ inn) T (pt inn k)))) := by
  obtain ⟨-, m0, m, S, -, -, e, F0, F, R, -⟩ := exact_build hnb hl h hs
  obtain ⟨S', F', hv⟩ := R.points F0
  obtain ⟨m1, S1, F1, hch⟩ := hv (bd.length + k) (Nat.le_add_right _ _) (by omega)
  have hT := F1.triangulates (k := k) hnb
  rw [exact_area2] at hT
  have hmem : (∃ f ∈ r.faces, Corner f (bd.length + k)) ↔ bd.length + k ∈ S' := by
    rw [← F'.mem (bd.length + k) (Nat.le_add_right _ _), e]
    constructor
    · rintro ⟨f, hf, hc⟩
      obtain ⟨i, hi⟩ := (mem_faces F.base.reach F.base.live).1 hf
      exact ⟨i, f, hi, hc⟩
    · rintro ⟨i, f, hf, hc⟩
      exact ⟨f, (mem_faces F.base.reach F.base.live).2 ⟨i, hf⟩, hc⟩
  have hT1 : ∀ {i f}, faceAt m1 i = some f → f ∈ m1.takeFaces := fun hf => (mem_faces F1.base.reach F1.base.live).2 ⟨_, hf⟩
  refine ⟨m1.takeFaces, hT, F1.covers, ?_⟩
  rw [hmem, ← pt_inner (bd := bd)]
  rcases hch with ⟨h1, h2⟩ | ⟨h1, h2⟩
  · refine Or.inl ⟨h1, ?_⟩
    rcases h2 with h2 | ⟨fi, a, b, c, f, la, lb, lc, g1, g2, g3, g4, g5, g6, g7, g8⟩
    · refine Or.inl ?_
      intro f hf hp
      obtain ⟨i, hi⟩ := (mem_faces F1.base.reach F1.base.live).1 hf
      have := h2 i f hi (by rw [exact_orient]; exact hp)
      rw [exact_bary] at this
      refine ⟨_, rfl, ?_⟩
      unfold min3 at this
      rw [min_lt_iff, min_lt_iff] at this
      rcases this with (h | h) | h
      · exact Or.inl h
      · exact Or.inr (Or.inl h)
      · exact Or.inr (Or.inr h)
    · obtain ⟨s1, s2, s3, s4, s5⟩ := rotated g3 g2
      refine Or.inr ⟨f, hT1 g1, a, b, c, s1, s2, s3, s4, _, s5, g6.trans g4, g6.trans g5, abs_le.2 ⟨g6, g7⟩, ?_⟩
      rw [exact_area2] at g8
      exact g8
  · refine Or.inr ⟨h1, ?_⟩
    rcases h2 with ⟨fi, f, g1, g2, g3⟩ | ⟨a, b, fi, c, f, la, lb, lc, g1, g2, g3, g4, g5, g6, g7, g8, g9, g10⟩
    · rw [exact_bary] at g3
      rw [exact_orient] at g2
      unfold min3 at g3
      rw [lt_min_iff, lt_min_iff] at g3
      exact Or.inl ⟨f, hT1 g1, g2, _, rfl, g3.1.1, g3.1.2, g3.2⟩
    · obtain ⟨s1, s2, s3, s4, s5⟩ := rotated g3 g2
      refine Or.inr ⟨f, hT1 g1, a, b, c, s1, s2, s3, s4, _, s5, g8, g9, abs_le.2 ⟨g6, g7⟩, ?_⟩
      rw [exact_area2] at g10
      exact g10

/-- So a point that the polygon winds around is a vertex of the result, unless it is within the tolerance of an edge of the polygon or of a
vertex, or on an edge of the triangulation it is put into. -/
theorem C62_inside_used (hnb : 3 ≤ bd.length) (hl : labels = [] ∨ bd.length ≤ labels.length) {r : Result} (h : build (Input.exact bd inn labels) = .ok r)
    (hs : r.simple = true) {k : Nat} (hk : k < inn.length) (hw : 0 < (if polyArea2 bd < 0 then -1 else 1) * winding bd (pt inn k))
    (hun : ¬ ∃ f ∈ r.faces, Corner f (bd.length + k)) : ∃ T, Triangulates bd.length k (polyArea2 bd < 0) T ∧
      (OnCorner bd.length (polyArea2 bd < 0) (bd ++ inn) T (pt inn k) ∨ ∃ u v, Uses T u v ∧ OnSegment (pt (bd ++ inn) u) (pt (bd ++ inn) v) (pt inn k)) := by
  classical
  obtain ⟨T, h1, h2, ⟨-, h3⟩ | ⟨h3, -⟩⟩ := C62_points hnb hl h hs hk
  · refine ⟨T, h1, ?_⟩
    rcases h3 with h3 | h3
    · right
      by_contra hno
      have hx : ∀ u v, Uses T u v → ¬ OnSegment (pt (bd ++ inn) u) (pt (bd ++ inn) v) (pt inn k) := fun u v hu ho => hno ⟨u, v, hu, ho⟩
      have h4 := h2 _ hx
      have h5 : 0 < T.countP fun f => decide (InsideCcw (pt (bd ++ inn) f.1) (pt (bd ++ inn) f.2.1) (pt (bd ++ inn) f.2.2) (pt inn k)) := by
        by_contra h0
        have h0' : (T.countP fun f => decide (InsideCcw (pt (bd ++ inn) f.1) (pt (bd ++ inn) f.2.1) (pt (bd ++ inn) f.2.2) (pt inn k))) = 0 := by omega
        rw [h0'] at h4
        have hc := Int.natCast_nonneg (T.countP fun f => decide (InsideCw (pt (bd ++ inn) f.1) (pt (bd ++ inn) f.2.1) (pt (bd ++ inn) f.2.2) (pt inn k)))
        by_cases hneg : polyArea2 bd < 0
        · rw [if_pos hneg] at hw h4
          omega
        · rw [if_neg hneg] at hw h4
          omega
      rw [List.countP_pos_iff] at h5
      obtain ⟨f, hf, hin⟩ := h5
      rw [decide_eq_true_eq] at hin
      obtain ⟨i1, i2, i3⟩ := hin
      have hA : area2 (pt (bd ++ inn) f.1) (pt (bd ++ inn) f.2.1) (pt (bd ++ inn) f.2.2) = area2 (pt (bd ++ inn) f.1) (pt (bd ++ inn) f.2.1) (pt inn k) +
        area2 (pt (bd ++ inn) f.2.1) (pt (bd ++ inn) f.2.2) (pt inn k) + area2 (pt (bd ++ inn) f.2.2) (pt (bd ++ inn) f.1) (pt inn k) := by unfold area2; ring
      have hp : 0 < area2 (pt (bd ++ inn) f.1) (pt (bd ++ inn) f.2.1) (pt (bd ++ inn) f.2.2) := by linarith
      obtain ⟨l, rfl, hl⟩ := h3 f hf hp
      unfold coords at hl
      dsimp only at hl
      have c1 : 0 < area2 (pt inn k) (pt (bd ++ inn) f.2.1) (pt (bd ++ inn) f.2.2) := by rw [← area2_rot]; exact i2
      have c2 : 0 < area2 (pt (bd ++ inn) f.1) (pt inn k) (pt (bd ++ inn) f.2.2) := by rw [area2_rot (pt (bd ++ inn) f.2.2)]; exact i3
      have d1 := div_pos c1 hp
      have d2 := div_pos c2 hp
      have d3 := div_pos i1 hp
      rcases hl with hl | hl | hl <;> linarith
    · exact Or.inl h3
  · exact absurd h3 hun

/-! ## The flips -/

/-- If the last pass of flips changed nothing, every inner edge is one that must not be flipped: the other diagonal would join two boundary
vertices with a label in common, or the opposite vertex is not inside of the circle by the tolerance, or one of the new faces would have no area
by the tolerance, or the other diagonal is an edge already.  `o` is the centre of the circle through `x`, `y` and `c`. -/
theorem C62_delaunay (hnb : 3 ≤ bd.length) (hl : labels = [] ∨ bd.length ≤ labels.length) {r : Result} (h : build (Input.exact bd inn labels) = .ok r)
    (hs : r.simple = true) (hst : r.stable = true) {lo hi : ℝ × ℝ} (hbox : IsBox (bd ++ inn) lo hi) {f g : Face} (hf : f ∈ r.faces) (hg : g ∈ r.faces)
    {x y c d : Nat} (f1 : Side f x y) (f2 : Side f y c) (g1 : Side g y x) (g2 : Side g x d) {o : ℝ × ℝ}
    (o1 : dist2 o (pt (bd ++ inn) x) = dist2 o (pt (bd ++ inn) y)) (o2 : dist2 o (pt (bd ++ inn) x) = dist2 o (pt (bd ++ inn) c)) :
    (c < bd.length ∧ d < bd.length ∧ ShareLabel labels c d) ∨
    area2 (pt (bd ++ inn) x) (pt (bd ++ inn) y) (pt (bd ++ inn) c) * (dist2 o (pt (bd ++ inn) x) - dist2 o (pt (bd ++ inn) d)) ≤ 1e-10 * dist2 lo hi ^ 2 ∨
    area2 (pt (bd ++ inn) x) (pt (bd ++ inn) d) (pt (bd ++ inn) c) ≤ 1e-12 * dist2 lo hi ∨
    area2 (pt (bd ++ inn) d) (pt (bd ++ inn) y) (pt (bd ++ inn) c) ≤ 1e-12 * dist2 lo hi ∨
    ∃ f' ∈ r.faces, Corner f' c ∧ Corner f' d := by
  obtain ⟨-, m0, m, S, -, -, e, F0, F, R, -, h6⟩ := exact_build hnb hl h hs
  have h6 := h6 hst
  rw [e] at hf hg
  have hmem := fun f => mem_faces F.base.reach F.base.live (f := f)
  obtain ⟨i, hi'⟩ := (hmem f).1 hf
  obtain ⟨j, hj'⟩ := (hmem g).1 hg
  have hC := F.base.good.consistent
  rw [← incircle_centre o1 o2]
  have hin : (Input.exact bd inn labels).incircleTol = 1e-10 * dist2 lo hi ^ 2 := by
    rw [← scale_sq hbox]; change 1e-10 * _ * _ = _; ring
  have har : (Input.exact bd inn labels).areaTol = 1e-12 * dist2 lo hi := by rw [← scale_sq hbox]; rfl
  have hedge : ∀ u v f g, f ∈ m.takeFaces → g ∈ m.takeFaces → Side f u v → Side g v u → ¬ PolyEdge bd.length ((Input.exact bd inn labels).area2 < 0) u v := by
    intro u v f g hf hg s1 s2 hp
    obtain ⟨i, hi⟩ := (hmem g).1 hg
    exact ((F.base.boundary hnb u v).2 hp).2 ⟨i, g, hi, s2⟩
  have hxy : x ≠ y := (nondeg_ne (hC.corners i f hi') f1 f2).1
  have hadj : Thinner.Spec.Adjacent (faceAt m) c d → ∃ f' ∈ r.faces, Corner f' c ∧ Corner f' d := by
    rintro ⟨i, f', q1, q2, q3, -⟩
    rw [e]
    exact ⟨f', (hmem f').2 ⟨i, q1⟩, q2, q3⟩
  rcases lt_or_gt_of_ne hxy with hlt | hlt
  · have hS := h6 i j f g x y c d hi' hj' f1 f2 g1 g2 hlt
    unfold Settled at hS
    rw [hin, har, exact_orient, exact_orient] at hS
    rcases hS with q | q | q | q | q | q
    · exact absurd q (hedge x y f g hf hg f1 g1)
    · exact absurd q (hedge y x g f hg hf g1 f1)
    · exact Or.inl q
    · exact Or.inr (Or.inl (not_lt.1 q))
    · rcases not_and_or.1 q with q | q
      · exact Or.inr (Or.inr (Or.inl (not_lt.1 q)))
      · exact Or.inr (Or.inr (Or.inr (Or.inl (not_lt.1 q))))
    · exact Or.inr (Or.inr (Or.inr (Or.inr (hadj q))))
  · have hS := h6 j i g f y x d c hj' hi' g1 g2 f1 f2 hlt
    unfold Settled at hS
    rw [hin, har, exact_orient, exact_orient] at hS
    rcases hS with q | q | q | q | q | q
    · exact absurd q (hedge y x g f hg hf g1 f1)
    · exact absurd q (hedge x y f g hf hg f1 g1)
    · exact Or.inl ⟨q.2.1, q.1, shareLabel_symm.1 q.2.2⟩
    · refine Or.inr (Or.inl ?_)
      rw [← incircle_swap]
      exact not_lt.1 q
    · rcases not_and_or.1 q with q | q
      · refine Or.inr (Or.inr (Or.inr (Or.inl ?_)))
        rw [area2_rot] at q
        exact not_lt.1 q
      · refine Or.inr (Or.inr (Or.inl ?_))
        rw [area2_rot]
        exact not_lt.1 q
    · refine Or.inr (Or.inr (Or.inr (Or.inr ?_)))
      obtain ⟨f', q1, q2, q3⟩ := hadj (by obtain ⟨i, f', r1, r2, r3, r4⟩ := q; exact ⟨i, f', r1, r3, r2, r4.symm⟩)
      exact ⟨f', q1, q2, q3⟩

/-! ## Examples -/

/-- A square with a point in it meets the hypotheses. -/
example : ∃ r, build (Input.exact [(0, 0), (2, 0), (2, 2), (0, 2)] [(1, 1 / 2)] []) = .ok r ∧ r.simple = true ∧
    ∀ f ∈ r.faces, 0 < area2 (pt [(0, 0), (2, 0), (2, 2), (0, 2), (1, 1 / 2)] f.1) (pt [(0, 0), (2, 0), (2, 2), (0, 2), (1, 1 / 2)] f.2.1)
      (pt [(0, 0), (2, 0), (2, 2), (0, 2), (1, 1 / 2)] f.2.2) := by
  obtain ⟨r, h1, h2, h3⟩ := C62_convex (bd := [(0, 0), (2, 0), (2, 2), (0, 2)]) (inn := [(1, 1 / 2)]) (lo := (0, 0)) (hi := (2, 2)) (by simp)
    (by refine ⟨?_, ?_, ?_, ?_, ?_⟩
        · intro p hp
          simp only [List.cons_append, List.nil_append, List.mem_cons, List.not_mem_nil, or_false] at hp
          rcases hp with rfl | rfl | rfl | rfl | rfl <;> norm_num
        · exact ⟨(0, 0), by simp, rfl⟩
        · exact ⟨(0, 0), by simp, rfl⟩
        · exact ⟨(2, 2), by simp, rfl⟩
        · exact ⟨(2, 2), by simp, rfl⟩)
    (by norm_num [polyArea2, Finset.sum_range_succ, pt])
    (by
      intro u v w h1 h2 h3
      simp only [List.length_cons, List.length_nil] at h3
      have : (u = 0 ∧ v = 1 ∧ w = 2) ∨ (u = 0 ∧ v = 1 ∧ w = 3) ∨ (u = 0 ∧ v = 2 ∧ w = 3) ∨ (u = 1 ∧ v = 2 ∧ w = 3) := by omega
      rcases this with ⟨rfl, rfl, rfl⟩ | ⟨rfl, rfl, rfl⟩ | ⟨rfl, rfl, rfl⟩ | ⟨rfl, rfl, rfl⟩ <;> norm_num [pt, area2, dist2])
  refine ⟨r, h1, h2, h3 ?_⟩
  intro u w v x y z hu hw hv hv' huw huv hwv
  simp only [List.length_cons, List.length_nil] at hu hw hv hv'
  obtain rfl : v = 4 := by omega
  have hb : ∀ i, 0 ≤ (pt ([(0, 0), (2, 0), (2, 2), (0, 2)] ++ [(1, 1 / 2)]) i).1 ∧ (pt ([(0, 0), (2, 0), (2, 2), (0, 2)] ++ [(1, 1 / 2)]) i).1 ≤ 2 ∧
      0 ≤ (pt ([(0, 0), (2, 0), (2, 2), (0, 2)] ++ [(1, 1 / 2)]) i).2 ∧ (pt ([(0, 0), (2, 0), (2, 2), (0, 2)] ++ [(1, 1 / 2)]) i).2 ≤ 2 := by
    intro i
    match i with
    | 0 => norm_num [pt]
    | 1 => norm_num [pt]
    | 2 => norm_num [pt]
    | 3 => norm_num [pt]
    | 4 => norm_num [pt]
    | n + 5 => norm_num [pt]
  have hA : area2 (pt ([(0, 0), (2, 0), (2, 2), (0, 2)] ++ [(1, 1 / 2)]) x) (pt ([(0, 0), (2, 0), (2, 2), (0, 2)] ++ [(1, 1 / 2)]) y)
      (pt ([(0, 0), (2, 0), (2, 2), (0, 2)] ++ [(1, 1 / 2)]) z) ≤ 16 := by
    obtain ⟨a1, a2, a3, a4⟩ := hb x
    obtain ⟨b1, b2, b3, b4⟩ := hb y
    obtain ⟨c1, c2, c3, c4⟩ := hb z
    unfold area2
    nlinarith
  refine lt_of_le_of_lt (mul_le_mul_of_nonneg_left hA (by norm_num)) ?_
  have hu4 : u = 0 ∨ u = 1 ∨ u = 2 ∨ u = 3 := by omega
  have hw4 : w = 0 ∨ w = 1 ∨ w = 2 ∨ w = 3 := by omega
  rcases hu4 with rfl | rfl | rfl | rfl <;> rcases hw4 with rfl | rfl | rfl | rfl <;>
    first
      | exact absurd rfl huw
      | norm_num [pt, area2, abs_of_pos, abs_of_neg]

/-- With labels for some of the boundary vertices only, there may be an exception. -/
theorem C62_short_labels : ∃ I : Input, 3 ≤ I.nb ∧ I.labels ≠ [] ∧ I.labels.length < I.nb ∧ build I = .throws .outOfRange := by
  refine ⟨⟨4, 0, [(0, 0)], fun _ _ _ => 1, fun _ _ _ _ => 0, 1, fun _ _ => 0, 0, 0, 0⟩, by norm_num, by simp, by norm_num, ?_⟩
  have hr : ring ⟨4, 0, [(0, 0)], fun _ _ _ => 1, fun _ _ _ _ => 0, 1, fun _ _ => 0, 0, 0, 0⟩ = [0, 1, 2, 3] := by
    unfold ring
    rw [if_neg (by norm_num)]
    rfl
  unfold build earClip
  rw [hr]
  norm_num [earLoop, List.range_succ, findEar, isEar, prevOf, curOf, nextOf, sharesEdge]

end Verif.Triangulation
