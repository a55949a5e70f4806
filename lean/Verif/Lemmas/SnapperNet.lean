import Verif.Lemmas.SnapperStart
import Verif.Spec.Snapper
import Mathlib.Algebra.BigOperators.Group.Finset.Basic

/-! # Lemmas: the boundary of the surface -/

namespace Verif.Snapper

open Verif Verif.AbstractMesh
open Verif.Thinner (Input)
open Verif.Triangulation.Spec (Triangulates PolyEdge Uses)
open Verif.Snapper.Spec (sides net)

variable {I : Input} {m : Mesh} {s s' : State} {home : Nat → Nat}

/-- The net number of a directed edge in a list. -/
def netL (l : List (Nat × Nat)) (a b : Nat) : ℤ := (l.count (a, b) : ℤ) - (l.count (b, a) : ℤ)

theorem net_eq (fs : List Face) (a b : Nat) : net fs a b = netL (sides fs) a b := rfl

theorem netL_append (l l' : List (Nat × Nat)) (a b : Nat) : netL (l ++ l') a b = netL l a b + netL l' a b := by
  unfold netL; rw [List.count_append, List.count_append]; push_cast; ring

theorem netL_perm {l l' : List (Nat × Nat)} (h : l.Perm l') (a b : Nat) : netL l a b = netL l' a b := by
  unfold netL; rw [h.count_eq, h.count_eq]

theorem netL_swap (l : List (Nat × Nat)) (a b : Nat) : netL (l.map Prod.swap) a b = - netL l a b := by
  have h : ∀ x y, (l.map Prod.swap).count (x, y) = l.count (y, x) := fun x y => by
    have := List.count_map_of_injective l Prod.swap Prod.swap_injective (y, x)
    simpa using this
  unfold netL
  rw [h, h]; ring

theorem netL_symm {l : List (Nat × Nat)} (h : (l.map Prod.swap).Perm l) (a b : Nat) : netL l a b = 0 := by
  have h1 := netL_swap l a b
  rw [netL_perm h] at h1
  omega

theorem mem_sides {fs : List Face} {u v : Nat} : (u, v) ∈ sides fs ↔ ∃ f ∈ fs, Side f u v := by
  unfold sides
  rw [List.mem_flatMap]
  constructor
  · rintro ⟨f, hf, h⟩
    refine ⟨f, hf, ?_⟩
    unfold Side
    simp only [List.mem_cons, Prod.mk.injEq, List.not_mem_nil, or_false] at h
    rcases h with ⟨rfl, rfl⟩ | ⟨rfl, rfl⟩ | ⟨rfl, rfl⟩ <;> simp
  · rintro ⟨f, hf, h⟩
    refine ⟨f, hf, ?_⟩
    rcases h with ⟨rfl, rfl⟩ | ⟨rfl, rfl⟩ | ⟨rfl, rfl⟩ <;> simp

theorem sides_nodup {fs : List Face} (h1 : ∀ f ∈ fs, Nondeg f) (h2 : Manifold (fun i => fs[i]?)) : (sides fs).Nodup := by
  unfold sides
  rw [List.nodup_flatMap]
  refine ⟨fun f hf => ?_, List.pairwise_iff_getElem.2 fun i j hi hj hij => ?_⟩
  · obtain ⟨a, b, c⟩ := f
    have := h1 _ hf
    unfold Nondeg at this
    simp only at this
    simp only [List.nodup_cons, List.mem_cons, Prod.mk.injEq, List.not_mem_nil, or_false, not_or, not_false_eq_true, List.nodup_nil, and_true]
    omega
  · intro e he he'
    obtain ⟨u, v⟩ := e
    have key : ∀ f : Face, (u, v) ∈ [(f.1, f.2.1), (f.2.1, f.2.2), (f.2.2, f.1)] → Side f u v := fun f h => by
      simp only [List.mem_cons, Prod.mk.injEq, List.not_mem_nil, or_false] at h
      unfold Side
      rcases h with ⟨rfl, rfl⟩ | ⟨rfl, rfl⟩ | ⟨rfl, rfl⟩ <;> simp
    have := h2 i j fs[i] fs[j] u v (List.getElem?_eq_getElem hi) (List.getElem?_eq_getElem hj) (key _ he) (key _ he')
    omega

theorem sides_map (g : Nat → Nat) (fs : List Face) : sides (fs.map (mapFace g)) = (sides fs).map (Prod.map g g) := by
  unfold sides
  rw [List.flatMap_map, List.map_flatMap]
  rfl

/-- The edges of a polygon. -/
def polyEdges (n : Nat) : List (Nat × Nat) := (List.range n).map fun i => (i, (i + 1) % n)

theorem triangulates_sides {n ni : Nat} {T : List Face} (h : Triangulates n ni False T) : ∃ S, (sides T).Perm (polyEdges n ++ S) ∧ (S.map Prod.swap).Perm S := by
  have hnd := sides_nodup h.corners h.manifold
  refine ⟨(sides T).filter (fun e => e.swap ∈ sides T), ?_, ?_⟩
  · have h1 := List.filter_append_perm (fun e : Nat × Nat => decide (e.swap ∈ sides T)) (sides T)
    refine h1.symm.trans (List.perm_append_comm.trans (List.Perm.append_right _ ?_))
    refine (List.perm_ext_iff_of_nodup (hnd.filter _) ?_).2 ?_
    · unfold polyEdges
      refine List.Nodup.map_on (fun x _ y _ hxy => (Prod.ext_iff.1 hxy).1) List.nodup_range
    · rintro ⟨u, v⟩
      have hb := h.boundary u v
      unfold PolyEdge Uses at hb
      rw [← mem_sides, ← mem_sides] at hb
      simp only [not_false_eq_true, true_and, false_and, or_false] at hb
      unfold polyEdges
      simp only [List.mem_filter, Prod.swap_prod_mk, Bool.not_eq_true', decide_eq_false_iff_not, List.mem_map, List.mem_range, Prod.mk.injEq]
      rw [hb]
      constructor
      · rintro ⟨h1, h2⟩; exact ⟨u, h1, rfl, h2.symm⟩
      · rintro ⟨i, h1, rfl, h2⟩; exact ⟨h1, h2.symm⟩
  · refine (List.perm_ext_iff_of_nodup ((hnd.filter _).map Prod.swap_injective) (hnd.filter _)).2 ?_
    rintro ⟨u, v⟩
    simp only [List.mem_map, List.mem_filter, decide_eq_true_eq, Prod.swap_prod_mk]
    constructor
    · rintro ⟨⟨x, y⟩, ⟨h1, h2⟩, h3⟩
      simp only [Prod.swap_prod_mk, Prod.mk.injEq] at h2 h3
      obtain ⟨rfl, rfl⟩ := h3
      exact ⟨h2, h1⟩
    · rintro ⟨h1, h2⟩
      exact ⟨(v, u), ⟨h2, h1⟩, rfl⟩

/-- Neighbours in a list. -/
def pairs : List Nat → List (Nat × Nat)
  | [] => []
  | [_] => []
  | x :: y :: l => (x, y) :: pairs (y :: l)

theorem pairs_append (l : List Nat) (x : Nat) (l' : List Nat) : pairs (l ++ x :: l') = pairs (l ++ [x]) ++ pairs (x :: l') := by
  induction l with
  | nil => simp [pairs]
  | cons a l ih =>
      cases l with
      | nil => simp [pairs]
      | cons b l =>
          simp only [List.cons_append, pairs] at ih ⊢
          rw [ih]

theorem pairs_reverse (l : List Nat) : pairs l.reverse = ((pairs l).map Prod.swap).reverse := by
  induction l with
  | nil => rfl
  | cons a l ih =>
      cases l with
      | nil => rfl
      | cons b l =>
          rw [List.reverse_cons, List.reverse_cons, List.append_assoc]
          simp only [List.cons_append, List.nil_append]
          rw [pairs_append, show l.reverse ++ [b] = (b :: l).reverse by simp, ih]
          simp [pairs]

theorem pairs_range (l : List Nat) : pairs l = (List.range (l.length - 1)).map fun i => (l.getD i 0, l.getD (i + 1) 0) := by
  induction l with
  | nil => rfl
  | cons a l ih =>
      cases l with
      | nil => rfl
      | cons b l =>
          have e : (a :: b :: l).length - 1 = ((b :: l).length - 1) + 1 := by simp
          rw [e, List.range_succ_eq_map, pairs, ih]
          simp [Function.comp_def]

theorem polyEdges_map (x : Nat) (l t : List Nat) :
    (polyEdges (x :: l).length).map (Prod.map (fun i => (x :: l ++ t).getD i 0) fun i => (x :: l ++ t).getD i 0) = pairs (x :: l ++ [x]) := by
  rw [pairs_range]
  unfold polyEdges
  rw [List.map_map]
  have e : (x :: l ++ [x]).length - 1 = (x :: l).length := by simp
  rw [e]
  refine List.map_congr_left fun i hi => ?_
  have hi := List.mem_range.1 hi
  have h1 : ∀ j, j < (x :: l).length → ∀ t', (x :: l ++ t').getD j 0 = (x :: l).getD j 0 := fun j hj t' => by
    rw [List.getD_eq_getElem?_getD, List.getD_eq_getElem?_getD, List.getElem?_append_left hj]
  simp only [Function.comp_apply, Prod.map_apply, Prod.mk.injEq]
  refine ⟨by rw [h1 i hi, h1 i hi], ?_⟩
  by_cases hlt : i + 1 < (x :: l).length
  · rw [Nat.mod_eq_of_lt hlt, h1 _ hlt, h1 _ hlt]
  · have he : i + 1 = (x :: l).length := by omega
    rw [he, Nat.mod_self, h1 0 (by simp), List.getD_eq_getElem?_getD, List.getD_eq_getElem?_getD, List.getElem?_append_right (le_refl _)]
    simp

/-- The side of a patch, with its chain. -/
def path (s : State) (x y : Nat) : List Nat := x :: chainRows s x y ++ [y]

theorem path_swap (s : State) {x y : Nat} (h : x ≠ y) : path s y x = (path s x y).reverse := by
  unfold path chainRows
  dsimp only
  rw [edgeOf_comm y x]
  rcases Nat.lt_or_gt_of_ne h with h | h
  · rw [if_neg (by omega), if_pos h]; simp
  · rw [if_pos (by omega), if_neg (by omega)]; simp

theorem netL_path_swap (s : State) {x y : Nat} (h : x ≠ y) (a b : Nat) : netL (pairs (path s y x)) a b = - netL (pairs (path s x y)) a b := by
  rw [path_swap s h, pairs_reverse, netL_perm (List.reverse_perm _), netL_swap]

theorem patch_net {fi : Nat} {fs : List Face} (h : TriP m s fi fs) (a b : Nat) : net fs a b =
    netL (pairs (path s (m.face fi).1 (m.face fi).2.1)) a b + netL (pairs (path s (m.face fi).2.1 (m.face fi).2.2)) a b +
      netL (pairs (path s (m.face fi).2.2 (m.face fi).1)) a b := by
  obtain ⟨T, hT, -, rfl⟩ := h
  obtain ⟨S, h1, h2⟩ := triangulates_sides hT
  rw [net_eq, sides_map, netL_perm (h1.map _), List.map_append, netL_append]
  have hS : netL (S.map (Prod.map (rowOf s (m.face fi) fi) (rowOf s (m.face fi) fi))) a b = 0 := by
    refine netL_symm ?_ a b
    have := h2.map (Prod.map (rowOf s (m.face fi) fi) (rowOf s (m.face fi) fi))
    rw [List.map_map] at this ⊢
    exact this
  rw [hS, add_zero]
  have hids : boundaryIds s (m.face fi) = (m.face fi).1 :: (chainRows s (m.face fi).1 (m.face fi).2.1 ++ (m.face fi).2.1 :: chainRows s (m.face fi).2.1 (m.face fi).2.2 ++
      (m.face fi).2.2 :: chainRows s (m.face fi).2.2 (m.face fi).1) := by unfold boundaryIds; simp
  have hrow : rowOf s (m.face fi) fi = fun i => (boundaryIds s (m.face fi) ++ s.interior fi).getD i 0 := rfl
  rw [hrow, hids, polyEdges_map]
  unfold path
  generalize (m.face fi).1 = x
  generalize (m.face fi).2.1 = y
  generalize (m.face fi).2.2 = z
  generalize chainRows s x y = c1
  generalize chainRows s y z = c2
  generalize chainRows s z x = c3
  have e : x :: (c1 ++ y :: c2 ++ z :: c3) ++ [x] = (x :: c1) ++ y :: (c2 ++ z :: (c3 ++ [x])) := by simp
  rw [e, pairs_append, netL_append]
  have e2 : y :: (c2 ++ z :: (c3 ++ [x])) = (y :: c2) ++ z :: (c3 ++ [x]) := by simp
  rw [e2, pairs_append (y :: c2), netL_append]
  have e3 : z :: (c3 ++ [x]) = z :: c3 ++ [x] := by simp
  rw [e3]
  ring

theorem net_flatMap (g : Nat → List Face) (l : List Nat) (a b : Nat) : net (l.flatMap g) a b = (l.map fun i => net (g i) a b).sum := by
  induction l with
  | nil => rfl
  | cons x l ih =>
      rw [List.flatMap_cons, List.map_cons, List.sum_cons, ← ih, net_eq, net_eq, net_eq]
      unfold sides
      rw [List.flatMap_append, netL_append]

/-- The faces of the mesh. -/
def meshFaces (m : Mesh) : List Face := (List.range m.nf).map m.face

theorem MeshOk.getElem_faces (hm : MeshOk I m) (i : Nat) : (meshFaces m)[i]? = faceAt m i := by
  unfold meshFaces
  rw [List.getElem?_map]
  by_cases h : i < m.nf
  · rw [List.getElem?_range h, hm.alive i h]; rfl
  · rw [List.getElem?_eq_none (by simpa using h)]
    cases hf : faceAt m i with
    | none => rfl
    | some f => exact absurd (hm.faceAt_some.1 hf).1 h

theorem mem_meshFaces {f : Face} : f ∈ meshFaces m ↔ ∃ fi, fi < m.nf ∧ m.face fi = f := by
  unfold meshFaces
  simp [List.mem_map]

theorem net_kept (hm : MeshOk I m) (h : J I m home s) (a b : Nat) : net ((List.range m.nf).flatMap (cur m s)) a b = net (meshFaces m) a b := by
  have hC := C35_reachable_consistent hm.reach
  have hnd : (sides (meshFaces m)).Nodup := sides_nodup (fun f hf => by
      obtain ⟨fi, h1, rfl⟩ := mem_meshFaces.1 hf
      exact hm.nondeg h1)
    (by
      intro i j f g x y hi hj
      dsimp only at hi hj
      rw [hm.getElem_faces] at hi hj
      exact hC.manifold i j f g x y hi hj)
  -- both sides as sums over directed sides
  have hsum : ∀ W : Nat × Nat → ℤ, ((List.range m.nf).map fun fi => W ((m.face fi).1, (m.face fi).2.1) + W ((m.face fi).2.1, (m.face fi).2.2) + W ((m.face fi).2.2, (m.face fi).1)).sum =
      ∑ e ∈ (sides (meshFaces m)).toFinset, W e := by
    intro W
    rw [List.sum_toFinset W hnd]
    unfold sides meshFaces
    generalize List.range m.nf = l
    induction l with
    | nil => rfl
    | cons x l ih =>
        simp only [List.map_cons, List.sum_cons, List.flatMap_cons, List.map_append, List.sum_append, ih]
        simp [add_assoc]
  have h1 : net ((List.range m.nf).flatMap (cur m s)) a b = ∑ e ∈ (sides (meshFaces m)).toFinset, netL (pairs (path s e.1 e.2)) a b := by
    rw [net_flatMap, ← hsum]
    congr 1
    refine List.map_congr_left fun fi hfi => ?_
    exact patch_net (h.tri fi (List.mem_range.1 hfi)) a b
  have h2 : net (meshFaces m) a b = ∑ e ∈ (sides (meshFaces m)).toFinset, netL [(e.1, e.2)] a b := by
    rw [← hsum, show meshFaces m = (List.range m.nf).flatMap fun fi => [m.face fi] by unfold meshFaces; rw [List.map_eq_flatMap], net_flatMap]
    congr 1
    refine List.map_congr_left fun fi _ => ?_
    rw [net_eq]
    have : sides [m.face fi] = [((m.face fi).1, (m.face fi).2.1)] ++ [((m.face fi).2.1, (m.face fi).2.2)] ++ [((m.face fi).2.2, (m.face fi).1)] := rfl
    rw [this, netL_append, netL_append]
  rw [h1, h2, ← sub_eq_zero, ← Finset.sum_sub_distrib]
  have hne : ∀ e ∈ sides (meshFaces m), e.1 ≠ e.2 := fun e he => by
    obtain ⟨f, hf, hs⟩ := mem_sides.1 he
    obtain ⟨fi, hfi, rfl⟩ := mem_meshFaces.1 hf
    exact Side.ne (hm.nondeg hfi) hs
  have hzero : ∀ e ∈ sides (meshFaces m), e.swap ∉ sides (meshFaces m) → netL (pairs (path s e.1 e.2)) a b - netL [(e.1, e.2)] a b = 0 := by
    rintro ⟨x, y⟩ he hn
    have hch : s.chains (edgeOf x y) = [] := by
      by_contra hc
      have htwo := h.chains.full _ hc
      have hnd2 := hm.facesOf_nodup (edgeOf x y).1 (edgeOf x y).2
      have hside : ∀ fi ∈ m.facesOf (edgeOf x y).1 (edgeOf x y).2, faceAt m fi = some (m.face fi) ∧ Side (m.face fi) x y := fun fi hfi => by
        obtain ⟨g1, g2⟩ := hm.mem_facesOf.1 hfi
        refine ⟨hm.alive fi g1, ?_⟩
        rcases onSide_iff.1 g2 with g3 | g3
        · exact g3
        · exact absurd (mem_sides.2 ⟨m.face fi, mem_meshFaces.2 ⟨fi, g1, rfl⟩, g3⟩) hn
      generalize m.facesOf (edgeOf x y).1 (edgeOf x y).2 = l at htwo hnd2 hside
      match l, htwo, hnd2, hside with
      | [], ht, _, _ => simp at ht
      | [_], ht, _, _ => simp at ht
      | p :: q :: l, _, hnd3, hs =>
          obtain ⟨p1, p2⟩ := hs p (by simp)
          obtain ⟨q1, q2⟩ := hs q (by simp)
          have := hC.manifold p q _ _ x y p1 q1 p2 q2
          subst this
          simp at hnd3
    have : path s x y = [x, y] := by unfold path chainRows; simp [hch]
    dsimp only
    rw [this]
    simp [pairs]
  refine Finset.sum_involution (fun e _ => if e.swap ∈ sides (meshFaces m) then e.swap else e) ?_ ?_ ?_ ?_
  · intro e he
    have he' := List.mem_toFinset.1 he
    by_cases hs : e.swap ∈ sides (meshFaces m)
    · simp only [if_pos hs]
      obtain ⟨x, y⟩ := e
      simp only [Prod.swap_prod_mk]
      rw [netL_path_swap s (hne _ he')]
      have : netL [(y, x)] a b = - netL [(x, y)] a b := netL_swap [(x, y)] a b
      rw [this]
      ring
    · simp only [if_neg hs]
      rw [hzero e he' hs]; rfl
  · intro e he hn
    have he' := List.mem_toFinset.1 he
    by_cases hs : e.swap ∈ sides (meshFaces m)
    · simp only [if_pos hs]
      intro hh
      exact hne e he' (congrArg Prod.snd hh)
    · exact absurd (hzero e he' hs) hn
  · intro e he
    split
    · rename_i hs; exact List.mem_toFinset.2 hs
    · exact he
  · intro e he
    have he' := List.mem_toFinset.1 he
    by_cases hs : e.swap ∈ sides (meshFaces m)
    · simp only [if_pos hs, Prod.swap_swap, if_pos he']
    · simp only [if_neg hs]

end Verif.Snapper
