import Verif.Lemmas.PipelineCluster
import Verif.Lemmas.SmootherStep
import Verif.Lemmas.ThinnerMesh

/-!
# Directed edges while a mesh is smoothed or thinned, whenever the call returns
-/

namespace Verif.Pipeline

open Verif Verif.AbstractMesh
open Verif.Predicates (P3)
open Verif.Snapper.Spec (sides net)
open Verif.Clusterer (net_append net_cons net_perm net_zero_iff net_renamed renamed_mem mem_sides)
open Verif.Clusterer.Spec (rename renamed)
open Verif.Thinner (Input State he_side side_he opp_iff opposite_eq hasEdge_iff start hitsAny indexFace)
open Verif.Smoother (flip_exists Quad Flip score admit doFlip)

/-! ## Lists of faces -/

theorem net_filterMap (F : Nat → Option Face) (u v : Nat) : ∀ n, net ((List.range n).filterMap F) u v = ∑ i ∈ Finset.range n, net (F i).toList u v
  | 0 => rfl
  | n + 1 => by
      rw [List.range_succ, List.filterMap_append, net_append, net_filterMap F u v n, Finset.sum_range_succ]
      cases h : F n <;> simp [h]

theorem net_rotate {f : Face} (hf : Nondeg f) {x y z : Nat} (h1 : Side f x y) (h2 : Side f y z) (u v : Nat) : net [f] u v = net [(x, y, z)] u v := by
  obtain ⟨a, b, c⟩ := f
  obtain ⟨n1, n2, n3⟩ := hf
  unfold Side at h1 h2
  dsimp only at *
  have key : (a = x ∧ b = y ∧ c = z) ∨ (b = x ∧ c = y ∧ a = z) ∨ (c = x ∧ a = y ∧ b = z) := by omega
  unfold net sides
  rcases key with ⟨rfl, rfl, rfl⟩ | ⟨rfl, rfl, rfl⟩ | ⟨rfl, rfl, rfl⟩ <;>
    simp only [List.flatMap_cons, List.flatMap_nil, List.append_nil, List.count_cons, List.count_nil] <;> push_cast <;> ring

theorem net_flip (x y c d u v : Nat) : net [(x, y, c)] u v + net [(y, x, d)] u v = net [(c, x, d)] u v + net [(d, y, c)] u v := by
  have e : ∀ (p q : Nat), ((p, q) : Nat × Nat) = (v, u) ↔ ((q, p) : Nat × Nat) = (u, v) := by
    intro p q; simp only [Prod.mk.injEq]; exact And.comm
  unfold net sides
  simp only [List.flatMap_cons, List.flatMap_nil, List.append_nil, List.count_cons, List.count_nil, beq_iff_eq, e]
  push_cast
  ring

theorem quad_net {F F' : Nat → Option Face} {fi fj x y c d n : Nat} (Q : Quad F F' fi fj x y c d) (hi : fi < n) (hj : fj < n) (u v : Nat) :
    net ((List.range n).filterMap F') u v = net ((List.range n).filterMap F) u v := by
  rw [net_filterMap, net_filterMap, ← sub_eq_zero, ← Finset.sum_sub_distrib]
  rw [Finset.sum_eq_add (a := fi) (b := fj) Q.ne.2.2.2.2.2]
  · obtain ⟨f, f1, f2, f3, -⟩ := Q.left
    obtain ⟨g, g1, g2, g3, -⟩ := Q.right
    rw [f1, g1, Q.left', Q.right']
    simp only [Option.toList_some]
    rw [net_rotate (Q.nondeg _ _ f1) f2 f3, net_rotate (Q.nondeg _ _ g1) g2 g3]
    have := net_flip x y c d u v
    linarith
  · intro i _ hne
    rw [Q.others i hne.1 hne.2, sub_self]
  · intro h; exact absurd (Finset.mem_range.2 hi) h
  · intro h; exact absurd (Finset.mem_range.2 hj) h

/-! ## The start -/

theorem indexFold_mesh (I : Input) (l : List Nat) : ∀ s : State, (l.foldl (indexFace I) s).mesh = s.mesh := by
  induction l with
  | nil => intro s; rfl
  | cons a l ih => intro s; rw [List.foldl_cons, ih]; rfl

theorem ofFaces_nf {fs : List Face} {m : Mesh} (h1 : Mesh.ofFaces fs = .ok m) : m.nf = fs.length := by
  unfold Mesh.ofFaces at h1
  have key : ∀ (l : List Nat) (m0 m1 : AbstractMesh.Mesh), Mesh.registerAll l m0 = (m1, .ok ()) → m1.nf = m0.nf := by
    intro l
    induction l with
    | nil => intro m0 m1 h; unfold Mesh.registerAll at h; cases h; rfl
    | cons x l ih =>
        intro m0 m1 h
        unfold Mesh.registerAll at h
        have hsame := registerFace_same m0 x
        rcases e : m0.registerFace x with ⟨m2, _ | _ | _⟩ <;> rw [e] at h hsame <;> dsimp only at h hsame
        · exact (ih m2 m1 h).trans hsame.nf
        · cases h
        · cases h
  rcases e : Mesh.registerAll (List.range fs.length)
    ⟨fs.length, fun i => fs.getD i (0, 0, 0), fs.length, fun _ => false, fun _ => none, fun _ => []⟩ with ⟨m1, _ | _ | _⟩ <;>
    rw [e] at h1 <;> dsimp only at h1
  · cases h1
    exact key _ _ _ e
  · cases h1
  · cases h1

/-- The faces in the data structure. -/
structure MInv (n : Nat) (m : Mesh) : Prop where
  reach : Reachable m
  range : ∀ i f, faceAt m i = some f → Nondeg f ∧ f.1 < n ∧ f.2.1 < n ∧ f.2.2 < n

theorem MInv.take {n : Nat} {m : Mesh} (h : MInv n m) : ∀ f ∈ m.takeFaces, Nondeg f ∧ f.1 < n ∧ f.2.1 < n ∧ f.2.2 < n := by
  intro f hf
  rw [C35_take_faces h.reach, List.mem_filterMap] at hf
  obtain ⟨i, -, hi⟩ := hf
  exact h.range i f hi

theorem start_partial {I : Input} (hf : ∀ f ∈ I.faces, Nondeg f ∧ f.1 < I.vertices.length ∧ f.2.1 < I.vertices.length ∧ f.2.2 < I.vertices.length) {s : State}
    (e : start I = .ok s) : MInv I.vertices.length s.mesh ∧ s.mesh.takeFaces = I.faces ∧ Manifold (fun i => I.faces[i]?) := by
  unfold start at e
  rw [Outcome.bind_eq_ok] at e
  obtain ⟨m, e1, e2⟩ := e
  cases e2
  rw [indexFold_mesh]
  dsimp only
  have hc := C35_construct I.faces (fun f h => (hf f h).1)
  by_cases hm : Manifold (fun i => I.faces[i]?)
  · obtain ⟨m', e', hr, hF⟩ := hc.1 hm
    rw [e1] at e'
    cases e'
    refine ⟨⟨hr, fun i f h => ?_⟩, ?_, hm⟩
    · rw [hF] at h
      exact hf f (List.mem_of_getElem? h)
    · rw [C35_take_faces hr, ofFaces_nf e1, show faceAt m = fun i => I.faces[i]? from funext hF]
      apply List.ext_getElem?
      have : ∀ (l : List Face), (List.range l.length).filterMap (fun i => l[i]?) = l := by
        intro l
        induction l with
        | nil => rfl
        | cons a l ih =>
            rw [List.length_cons, List.range_succ_eq_map, List.filterMap_cons]
            simp only [List.getElem?_cons_zero, List.filterMap_map]
            congr 1
      rw [this]
      intro _; rfl
  · rw [hc.2 hm] at e1
    cases e1

/-! ## Smoothing -/

theorem hitsAny_mesh (I : Input) (star : List Nat) : ∀ (l : List Face) (s s' : State) (b : Bool), hitsAny I star l s = .ok (s', b) → s'.mesh = s.mesh := by
  intro l
  induction l with
  | nil => intro s s' b h; unfold hitsAny at h; cases h; rfl
  | cons f l ih =>
      intro s s' b h
      unfold hitsAny at h
      rw [Outcome.bind_eq_ok] at h
      obtain ⟨⟨g, r⟩, -, h⟩ := h
      dsimp only at h
      rw [Outcome.bind_eq_ok] at h
      obtain ⟨hit, -, h⟩ := h
      cases hit with
      | true => simp only [if_true] at h; cases h; rfl
      | false =>
          simp only [Bool.false_eq_true, if_false] at h
          exact (ih _ _ _ h).trans rfl

theorem honorsOk_mesh {I : Input} {s s' : State} {fl : Flip} {b : Bool} (h : Smoother.honorsOk I s fl = .ok (s', b)) : s'.mesh = s.mesh := by
  unfold Smoother.honorsOk at h
  split at h
  · cases h; rfl
  · simp only [Outcome.bind_eq_ok] at h
    obtain ⟨_, -, _, -, _, -, _, -, ⟨g, ok⟩, -, h⟩ := h
    cases h
    rfl

/-- What is needed of a flip that is carried out. -/
structure Ready (m : Mesh) (fl : Flip) : Prop where
  he : ∃ h o, IsHalfedge m h fl.x fl.y ∧ IsHalfedge m o fl.y fl.x ∧ fl.c = m.apex h ∧ fl.d = m.apex o
  cd : fl.c ≠ fl.d
  fresh : ¬ Thinner.Spec.Adjacent (faceAt m) fl.c fl.d

theorem score_partial {I : Input} {m : Mesh} (hr : Reachable m) {a b : Nat} {fl : Flip} (e : score I m a b = .ok (some fl)) : Ready m fl := by
  have hC := hr.good.consistent
  unfold score at e
  cases eh : m.halfedgeOf a b with
  | none => rw [eh] at e; cases e
  | some h =>
      rw [eh] at e
      dsimp only at e
      have H := (hC.halfedgeOf a b h).1 eh
      rw [opposite_eq H] at e
      simp only [Outcome.ok_bind] at e
      cases eo : m.opp h with
      | none => rw [eo] at e; cases e
      | some o =>
          rw [eo] at e
          dsimp only at e
          have O := (opp_iff hr H).1 eo
          have W := C35_walk hr H
          rw [W.1, W.2.1] at e
          split at e
          · cases e
          · next hcd =>
              rw [not_or] at hcd
              simp only [Outcome.bind_eq_ok] at e
              obtain ⟨_, -, _, -, _, -, _, -, e⟩ := e
              split at e
              · cases e
              · split at e
                · cases e
                · cases e
                  exact ⟨⟨h, o, H, O, rfl, rfl⟩, hcd.1, by rw [← hasEdge_iff hr]; exact hcd.2⟩

theorem admit_partial {I : Input} {s s' : State} (hr : Reachable s.mesh) {e : Smoother.Item} {r : Option Flip} (h : admit I s e = .ok (s', r)) :
    s'.mesh = s.mesh ∧ ∀ fl, r = some fl → Ready s.mesh fl := by
  unfold admit at h
  rw [Outcome.bind_eq_ok] at h
  obtain ⟨o, e1, h⟩ := h
  cases o with
  | none => cases h; exact ⟨rfl, by simp⟩
  | some fl =>
      dsimp only at h
      rw [Outcome.bind_eq_ok] at h
      obtain ⟨⟨s1, ok⟩, e2, h⟩ := h
      dsimp only at h
      have m1 := honorsOk_mesh e2
      cases ok with
      | false => simp only [if_true] at h; cases h; exact ⟨m1, by simp⟩
      | true =>
          simp only [Bool.true_eq_false, if_false] at h
          rw [Outcome.bind_eq_ok] at h
          obtain ⟨⟨s2, hit⟩, e3, h⟩ := h
          dsimp only at h
          have m2 := hitsAny_mesh _ _ _ _ _ _ e3
          cases hit with
          | true => simp only [if_true] at h; cases h; exact ⟨m2.trans m1, by simp⟩
          | false =>
              simp only [Bool.false_eq_true, if_false] at h
              cases h
              refine ⟨m2.trans m1, ?_⟩
              rintro _ ⟨⟩
              exact score_partial hr e1

theorem quad_range {F F' : Nat → Option Face} {fi fj x y c d n : Nat} (Q : Quad F F' fi fj x y c d)
    (h : ∀ i f, F i = some f → Nondeg f ∧ f.1 < n ∧ f.2.1 < n ∧ f.2.2 < n) : ∀ i f, F' i = some f → Nondeg f ∧ f.1 < n ∧ f.2.1 < n ∧ f.2.2 < n := by
  obtain ⟨n1, n2, n3, n4, n5, n6⟩ := Q.ne
  have n7 := Q.cd
  obtain ⟨f, f1, f2, f3, -⟩ := Q.left
  obtain ⟨g, g1, g2, g3, -⟩ := Q.right
  obtain ⟨-, a1, a2, a3⟩ := h _ _ f1
  obtain ⟨-, b1, b2, b3⟩ := h _ _ g1
  have hx : x < n := by rcases f2 with ⟨e, -⟩ | ⟨e, -⟩ | ⟨e, -⟩ <;> omega
  have hy : y < n := by rcases f2 with ⟨-, e⟩ | ⟨-, e⟩ | ⟨-, e⟩ <;> omega
  have hc : c < n := by rcases f3 with ⟨-, e⟩ | ⟨-, e⟩ | ⟨-, e⟩ <;> omega
  have hd : d < n := by rcases g3 with ⟨-, e⟩ | ⟨-, e⟩ | ⟨-, e⟩ <;> omega
  intro i k hk
  by_cases hi : i = fi
  · subst hi
    rw [Q.left'] at hk
    cases hk
    exact ⟨⟨n3, n4, n7.symm⟩, hc, hx, hd⟩
  by_cases hj : i = fj
  · subst hj
    rw [Q.right'] at hk
    cases hk
    exact ⟨⟨n5, n2, n7⟩, hd, hy, hc⟩
  rw [Q.others i hi hj] at hk
  exact h i k hk

theorem doFlip_partial {I : Input} {n : Nat} {s s' : State} (hm : MInv n s.mesh) {fl : Flip} (hR : Ready s.mesh fl) (e : doFlip I s fl = .ok s') :
    MInv n s'.mesh ∧ ∀ u v, net s'.mesh.takeFaces u v = net s.mesh.takeFaces u v := by
  obtain ⟨h, o, H, O, e1, e2⟩ := hR.he
  have hcd := hR.cd
  have hfr := hR.fresh
  rw [e1, e2] at hcd hfr
  obtain ⟨m', em, hr', hnf, Q⟩ := flip_exists hm.reach H O hcd hfr
  unfold doFlip at e
  rw [Outcome.bind_eq_ok] at e
  obtain ⟨g, -, e⟩ := e
  rw [em] at e
  dsimp only at e
  cases e
  rw [indexFold_mesh]
  dsimp only
  refine ⟨⟨hr', quad_range Q hm.range⟩, fun u v => ?_⟩
  rw [C35_take_faces hr', C35_take_faces hm.reach, hnf]
  obtain ⟨f, f1, -⟩ := Q.left
  obtain ⟨g', g1, -⟩ := Q.right
  exact quad_net Q (faceAt_eq_some.1 f1).1.1 (faceAt_eq_some.1 g1).1.1 u v

theorem smoothLoop_partial {I : Input} {n : Nat} (pop : Smoother.Pop) : ∀ (fuel : Nat) (s s' : State) (q : List Smoother.Item) (k : Nat), MInv n s.mesh →
    Smoother.loop I pop fuel s q k = some (.ok s') → MInv n s'.mesh ∧ ∀ u v, net s'.mesh.takeFaces u v = net s.mesh.takeFaces u v := by
  intro fuel
  induction fuel with
  | zero => intro s s' q k _ h; unfold Smoother.loop at h; cases h
  | succ fuel ih =>
      intro s s' q k hm h
      unfold Smoother.loop at h
      cases hp : pop q with
      | none => rw [hp] at h; cases h; exact ⟨hm, fun _ _ => rfl⟩
      | some eq =>
          obtain ⟨e, q'⟩ := eq
          rw [hp] at h
          dsimp only at h
          cases ha : admit I s e with
          | throws _ => rw [ha] at h; cases h
          | ub => rw [ha] at h; cases h
          | ok r =>
              obtain ⟨s1, o⟩ := r
              obtain ⟨a1, a2⟩ := admit_partial hm.reach ha
              rw [ha] at h
              cases o with
              | none =>
                  dsimp only at h
                  have := ih s1 s' q' k (by rw [a1]; exact hm) h
                  rw [a1] at this
                  exact this
              | some fl =>
                  dsimp only at h
                  cases hd : doFlip I s1 fl with
                  | throws _ => rw [hd] at h; cases h
                  | ub => rw [hd] at h; cases h
                  | ok s2 =>
                      rw [hd] at h
                      dsimp only at h
                      obtain ⟨b1, b2⟩ := doFlip_partial (n := n) (by rw [a1]; exact hm) (by rw [a1]; exact a2 fl rfl) hd
                      rw [a1] at b2
                      split at h
                      · cases h
                        exact ⟨b1, b2⟩
                      · cases hres : Smoother.rescore I s2.mesh fl.fi0 fl.fi1 (Smoother.sidesOf fl.fi0 fl.fi1) q' with
                        | throws _ => rw [hres] at h; cases h
                        | ub => rw [hres] at h; cases h
                        | ok q2 =>
                            rw [hres] at h
                            dsimp only at h
                            obtain ⟨c1, c2⟩ := ih s2 s' q2 (k + 1) b1 h
                            exact ⟨c1, fun u v => (c2 u v).trans (b2 u v)⟩

/-- Smoothing keeps the vertices and, for every pair of vertices, the difference of the numbers of faces on the two sides. -/
theorem smooth_partial {I : Input} (hf : ∀ f ∈ I.faces, Nondeg f ∧ f.1 < I.vertices.length ∧ f.2.1 < I.vertices.length ∧ f.2.2 < I.vertices.length) {pop : Smoother.Pop}
    {fuel : Nat} {vs : List P3} {fs : List Face} (e : Smoother.smoothSnappedMesh I pop fuel = some (.ok (vs, fs))) :
    vs = I.vertices ∧ (∀ f ∈ fs, Nondeg f ∧ f.1 < vs.length ∧ f.2.1 < vs.length ∧ f.2.2 < vs.length) ∧ ∀ u v, net fs u v = net I.faces u v := by
  unfold Smoother.smoothSnappedMesh at e
  cases hs : start I with
  | throws _ => rw [hs] at e; cases e
  | ub => rw [hs] at e; cases e
  | ok s =>
      rw [hs] at e
      dsimp only at e
      cases hq : Smoother.enqueueAll I s.mesh s.mesh.halfedges [] with
      | throws _ => rw [hq] at e; cases e
      | ub => rw [hq] at e; cases e
      | ok q =>
          rw [hq] at e
          dsimp only at e
          obtain ⟨h1, h2, -⟩ := start_partial hf hs
          cases hl : Smoother.loop I pop fuel s q 0 with
          | none => rw [hl] at e; cases e
          | some r =>
              rw [hl] at e
              cases r with
              | throws _ => cases e
              | ub => cases e
              | ok s' =>
                  cases e
                  obtain ⟨g1, g2⟩ := smoothLoop_partial pop fuel s s' q 0 h1 hl
                  refine ⟨rfl, g1.take, fun u v => ?_⟩
                  rw [g2, h2]

/-! ## Thinning -/

/-- Every edge has as many faces on one side as on the other. -/
def Closed (fs : List Face) : Prop := ∀ u v, net fs u v = 0

theorem renamed_closed {num : Nat → Nat} {fs : List Face} (h : Closed fs) : Closed (renamed num fs) := by
  intro a b
  by_cases hab : a = b
  · subst hab; unfold net; omega
  rw [net_renamed hab]
  have := Clusterer.balanced (l := sides fs) (p := fun e => num e.1 = a ∧ num e.2 = b) (fun u v _ => net_zero_iff.1 (h u v))
  have e : (sides fs).countP (fun e => num e.1 = b ∧ num e.2 = a) = (sides fs).countP (fun e => decide (num (e.2, e.1).1 = a ∧ num (e.2, e.1).2 = b)) := by
    apply List.countP_congr
    intro e _
    simp only [decide_eq_true_eq]
    exact And.comm
  rw [e, ← this, sub_self]

theorem filterMap_merged (F : Nat → Option Face) (hF : ∀ i f, F i = some f → Nondeg f) {a b : Nat} (hab : a ≠ b) (l : List Nat) :
    l.filterMap (merged F a b) = renamed (fun v => if v = a then b else v) (l.filterMap F) := by
  induction l with
  | nil => rfl
  | cons i l ih =>
      rw [List.filterMap_cons, List.filterMap_cons]
      cases h : F i with
      | none =>
          have : merged F a b i = none := by unfold merged; rw [h]; rfl
          rw [this]
          exact ih
      | some f =>
          obtain ⟨n1, n2, n3⟩ := hF i f h
          obtain ⟨x, y, z⟩ := f
          dsimp only at n1 n2 n3
          have hm : merged F a b i = if (x = a ∨ y = a ∨ z = a) ∧ (x = b ∨ y = b ∨ z = b) then none else some (rename (fun v => if v = a then b else v) (x, y, z)) := by
            unfold merged; rw [h]; rfl
          dsimp only
          have hr : renamed (fun v => if v = a then b else v) ((x, y, z) :: l.filterMap F) =
              if (x = a ∨ y = a ∨ z = a) ∧ (x = b ∨ y = b ∨ z = b) then renamed (fun v => if v = a then b else v) (l.filterMap F)
              else rename (fun v => if v = a then b else v) (x, y, z) :: renamed (fun v => if v = a then b else v) (l.filterMap F) := by
            unfold renamed
            rw [List.map_cons, List.filter_cons]
            by_cases hc : (x = a ∨ y = a ∨ z = a) ∧ (x = b ∨ y = b ∨ z = b)
            · rw [if_pos hc, if_neg]
              rw [decide_eq_true_eq]
              unfold rename
              dsimp only
              split_ifs <;> omega
            · rw [if_neg hc, if_pos]
              rw [decide_eq_true_eq]
              unfold rename
              dsimp only
              split_ifs <;> omega
          rw [hr, hm, ih]
          by_cases hc : (x = a ∨ y = a ∨ z = a) ∧ (x = b ∨ y = b ∨ z = b)
          · rw [if_pos hc, if_pos hc]
          · rw [if_neg hc, if_neg hc]

theorem collapseOk_mesh {I : Input} {s s' : State} {h : Nat} {hs : List Nat} {r : Option (WithTop ℝ)} (e : Thinner.collapseOk I s h hs = .ok (s', r)) : s'.mesh = s.mesh := by
  unfold Thinner.collapseOk at e
  dsimp only at e
  split at e
  · cases e; rfl
  · rw [Outcome.bind_eq_ok] at e
    obtain ⟨o, -, e⟩ := e
    split at e
    · cases e; rfl
    · split at e
      · cases e; rfl
      · split at e
        · cases e; rfl
        · split at e
          · cases e; rfl
          · rw [Outcome.bind_eq_ok] at e
            obtain ⟨⟨s1, ok⟩, e1, e⟩ := e
            dsimp only at e
            have m1 : s1.mesh = s.mesh := by
              unfold Thinner.honorsOk at e1
              split at e1
              · cases e1; rfl
              · rw [Outcome.bind_eq_ok] at e1
                obtain ⟨⟨g, ok⟩, -, e1⟩ := e1
                cases e1; rfl
            split at e
            · cases e; exact m1
            · rw [Outcome.bind_eq_ok] at e
              obtain ⟨⟨s2, hit⟩, e2, e⟩ := e
              dsimp only at e
              have m2 := hitsAny_mesh _ _ _ _ _ _ e2
              split at e
              · cases e; exact m2.trans m1
              · cases e; exact m2.trans m1

theorem chooseBest_partial {I : Input} (hs : List Nat) : ∀ (l : List Nat) (s s' : State) (best r : Option Nat) (dev : WithTop ℝ),
    Thinner.chooseBest I hs l s best dev = .ok (s', r) → s'.mesh = s.mesh ∧ (r = best ∨ ∃ h ∈ l, r = some h) := by
  intro l
  induction l with
  | nil => intro s s' best r dev e; unfold Thinner.chooseBest at e; cases e; exact ⟨rfl, Or.inl rfl⟩
  | cons h l ih =>
      intro s s' best r dev e
      unfold Thinner.chooseBest at e
      rw [Outcome.bind_eq_ok] at e
      obtain ⟨⟨s1, o⟩, e1, e⟩ := e
      have m1 := collapseOk_mesh e1
      have key : ∀ best' dev', Thinner.chooseBest I hs l s1 best' dev' = .ok (s', r) → (best' = best ∨ best' = some h) →
          s'.mesh = s.mesh ∧ (r = best ∨ ∃ h' ∈ h :: l, r = some h') := by
        intro best' dev' e hb
        obtain ⟨g1, g2⟩ := ih _ _ _ _ _ e
        refine ⟨g1.trans m1, ?_⟩
        rcases g2 with g2 | ⟨h', k1, k2⟩
        · rcases hb with hb | hb
          · exact Or.inl (g2.trans hb)
          · exact Or.inr ⟨h, List.mem_cons_self .., g2.trans hb⟩
        · exact Or.inr ⟨h', List.mem_cons_of_mem _ k1, k2⟩
      cases o with
      | none => exact key _ _ e (Or.inl rfl)
      | some d =>
          dsimp only at e
          split at e
          · exact key _ _ e (Or.inr rfl)
          · exact key _ _ e (Or.inl rfl)

theorem tryCollapse_partial {I : Input} {n : Nat} {s s' : State} {v : Nat} {b : Bool} (hm : MInv n s.mesh) (hc : Closed s.mesh.takeFaces)
    (e : Thinner.tryCollapse I s v = .ok (s', b)) : MInv n s'.mesh ∧ Closed s'.mesh.takeFaces := by
  unfold Thinner.tryCollapse at e
  dsimp only at e
  split at e
  · cases e; exact ⟨hm, hc⟩
  rw [Outcome.bind_eq_ok] at e
  obtain ⟨inner, -, e⟩ := e
  split at e
  · cases e; exact ⟨hm, hc⟩
  rw [Outcome.bind_eq_ok] at e
  obtain ⟨⟨s1, best⟩, e1, e⟩ := e
  obtain ⟨m1, hb⟩ := chooseBest_partial _ _ _ _ _ _ _ e1
  cases best with
  | none => cases e; rw [m1]; exact ⟨hm, hc⟩
  | some h =>
      dsimp only at e
      rw [Outcome.bind_eq_ok] at e
      obtain ⟨g, -, e⟩ := e
      rw [m1] at e
      have hmem : h ∈ s.mesh.vh v := by
        rcases hb with hb | ⟨h', k1, k2⟩
        · cases hb
        · cases k2; exact k1
      have H := Thinner.mem_he hm.reach hmem
      have hvw := (IsHalfedge.apex_ne hm.reach.good H).1
      rcases collapse_core hm.reach.good H with ⟨-, m', l, em, hg, hF, -, -, hnf, -⟩ | ⟨-, em⟩
      · have hr' : Reachable m' := .collapse s.mesh m' h v _ l hm.reach H em
        rw [em] at e
        dsimp only at e
        cases e
        rw [indexFold_mesh]
        dsimp only
        have hlist : m'.takeFaces = renamed (fun u => if u = v then s.mesh.to_ h else u) s.mesh.takeFaces := by
          rw [C35_take_faces hr', C35_take_faces hm.reach, hnf, ← filterMap_merged _ (fun i f hf => (hm.range i f hf).1) hvw]
          exact List.filterMap_congr fun i _ => hF i
        have hw : s.mesh.to_ h < n := by
          obtain ⟨f, f1, f2⟩ := he_side H
          obtain ⟨-, a1, a2, a3⟩ := hm.range _ _ f1
          rcases f2 with ⟨-, e⟩ | ⟨-, e⟩ | ⟨-, e⟩ <;> omega
        refine ⟨⟨hr', fun i f hf => ?_⟩, by rw [hlist]; exact renamed_closed hc⟩
        refine ⟨hr'.good.consistent.corners i f hf, ?_⟩
        rw [hF] at hf
        obtain ⟨f0, w1, w2⟩ := Thinner.merged_some hf
        obtain ⟨-, a1, a2, a3⟩ := hm.range _ _ w1
        rcases w2 with ⟨-, -, rfl⟩ | ⟨-, rfl⟩
        · unfold Mesh.retarget
          dsimp only
          refine ⟨?_, ?_, ?_⟩ <;> split_ifs <;> omega
        · exact ⟨a1, a2, a3⟩
      · rcases hcol : s.mesh.collapse h with ⟨m', r⟩
        rw [hcol] at em e
        dsimp only at em
        subst em
        cases e

theorem pass_partial {I : Input} {n : Nat} : ∀ (l : List Nat) (s s' : State) (a b : Bool), MInv n s.mesh → Closed s.mesh.takeFaces →
    Thinner.pass I l s a = .ok (s', b) → MInv n s'.mesh ∧ Closed s'.mesh.takeFaces := by
  intro l
  induction l with
  | nil => intro s s' a b hm hc e; unfold Thinner.pass at e; cases e; exact ⟨hm, hc⟩
  | cons v l ih =>
      intro s s' a b hm hc e
      unfold Thinner.pass at e
      split at e
      · rw [Outcome.bind_eq_ok] at e
        obtain ⟨⟨s1, d⟩, e1, e⟩ := e
        obtain ⟨g1, g2⟩ := tryCollapse_partial hm hc e1
        exact ih _ _ _ _ g1 g2 e
      · exact ih _ _ _ _ hm hc e

theorem thinLoop_partial {I : Input} {n : Nat} : ∀ (fuel : Nat) (s s' : State), MInv n s.mesh → Closed s.mesh.takeFaces →
    Thinner.loop I fuel s = some (.ok s') → MInv n s'.mesh ∧ Closed s'.mesh.takeFaces := by
  intro fuel
  induction fuel with
  | zero => intro s s' _ _ e; unfold Thinner.loop at e; cases e
  | succ fuel ih =>
      intro s s' hm hc e
      unfold Thinner.loop at e
      rcases hp : Thinner.pass I (List.range I.vertices.length) s false with ⟨s1, b⟩ | _ | _
      · rw [hp] at e
        obtain ⟨g1, g2⟩ := pass_partial _ _ _ _ _ hm hc hp
        cases b with
        | true => exact ih _ _ g1 g2 e
        | false => cases e; exact ⟨g1, g2⟩
      · rw [hp] at e; cases e
      · rw [hp] at e; cases e

theorem renamed_map {num : Nat → Nat} {fs : List Face} (h : ∀ f ∈ fs, Nondeg (rename num f)) : renamed num fs = fs.map (rename num) := by
  unfold renamed
  rw [List.filter_eq_self]
  intro g hg
  obtain ⟨f, hf, rfl⟩ := List.mem_map.1 hg
  rw [decide_eq_true_eq]
  exact h f hf

/-- Thinning keeps a closed mesh closed. -/
theorem thin_partial {I : Input} (hf : ∀ f ∈ I.faces, Nondeg f ∧ f.1 < I.vertices.length ∧ f.2.1 < I.vertices.length ∧ f.2.2 < I.vertices.length) (hc : Closed I.faces)
    {fuel : Nat} {vs : List P3} {fs : List Face} (e : Thinner.thinSnappedMesh I fuel = some (.ok (vs, fs))) :
    (∀ f ∈ fs, Nondeg f ∧ f.1 < vs.length ∧ f.2.1 < vs.length ∧ f.2.2 < vs.length) ∧ Closed fs := by
  unfold Thinner.thinSnappedMesh at e
  split at e
  · cases e
    exact ⟨hf, hc⟩
  cases hs : start I with
  | throws _ => rw [hs] at e; cases e
  | ub => rw [hs] at e; cases e
  | ok s =>
      rw [hs] at e
      dsimp only at e
      obtain ⟨h1, h2, -⟩ := start_partial hf hs
      cases hl : Thinner.loop I fuel s with
      | none => rw [hl] at e; cases e
      | some r =>
          rw [hl] at e
          cases r with
          | throws _ => cases e
          | ub => cases e
          | ok s' =>
              obtain ⟨g1, g2⟩ := thinLoop_partial fuel s s' h1 (by rw [h2]; exact hc) hl
              dsimp only at e
              obtain ⟨r, e2, hN, -, cs, us⟩ := Thinner.emit_spec I.p s'.mesh.takeFaces ([], fun _ => none) ⟨by simp, by simp, by simp⟩
              rw [e2] at e
              cases e
              have hmap : (s'.mesh.takeFaces.map fun f => ((r.2 f.1).getD 0, (r.2 f.2.1).getD 0, (r.2 f.2.2).getD 0)) =
                  s'.mesh.takeFaces.map (rename fun v => (r.2 v).getD 0) := rfl
              have hinj : ∀ f ∈ s'.mesh.takeFaces, ∀ u v, Corner f u → Corner f v → (r.2 u).getD 0 = (r.2 v).getD 0 → u = v := by
                intro f hf u v hu hv he
                obtain ⟨k, hk⟩ := cs f hf u hu
                obtain ⟨k', hk'⟩ := cs f hf v hv
                rw [hk, hk'] at he
                have he : k = k' := he
                subst he
                exact hN.inj u v k hk hk'
              have hnd : ∀ f ∈ s'.mesh.takeFaces, Nondeg (rename (fun v => (r.2 v).getD 0) f) := by
                intro f hf
                obtain ⟨⟨n1, n2, n3⟩, -⟩ := g1.take f hf
                exact ⟨fun h => n1 (hinj f hf _ _ (Or.inl rfl) (Or.inr (Or.inl rfl)) h), fun h => n2 (hinj f hf _ _ (Or.inr (Or.inl rfl)) (Or.inr (Or.inr rfl)) h),
                  fun h => n3 (hinj f hf _ _ (Or.inr (Or.inr rfl)) (Or.inl rfl) h)⟩
              have hlt : ∀ f ∈ s'.mesh.takeFaces, ∀ v, Corner f v → (r.2 v).getD 0 < r.1.length := by
                intro f hf v hv
                obtain ⟨k, hk⟩ := cs f hf v hv
                rw [hk]
                exact (List.getElem?_eq_some_iff.1 (hN.pos v k hk)).1
              rw [hmap]
              refine ⟨?_, ?_⟩
              · intro g hg
                obtain ⟨f, hf, rfl⟩ := List.mem_map.1 hg
                exact ⟨hnd f hf, hlt f hf _ (Or.inl rfl), hlt f hf _ (Or.inr (Or.inl rfl)), hlt f hf _ (Or.inr (Or.inr rfl))⟩
              · rw [← renamed_map hnd]
                exact renamed_closed g2

end Verif.Pipeline
