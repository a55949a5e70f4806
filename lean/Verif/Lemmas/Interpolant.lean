import Verif.Spec.Interpolant
import Verif.Lemmas.Double

namespace Verif.Interpolant

open Verif RbfModel

theorem feq_trans {x y z : Dbl} (h1 : feq x y = true) (h2 : feq y z = true) : feq x z = true := by
  simp only [feq, Bool.and_eq_true, Bool.or_eq_true, beq_iff_eq, Bool.not_eq_true'] at *
  obtain ⟨⟨ax, ay⟩, h1⟩ := h1
  obtain ⟨⟨_, az⟩, h2⟩ := h2
  refine ⟨⟨ax, az⟩, ?_⟩
  rcases h1 with rfl | ⟨a, b⟩
  · exact h2
  · rcases h2 with rfl | ⟨c, d⟩
    · exact Or.inr ⟨a, b⟩
    · exact Or.inr ⟨a, d⟩

theorem ptEq_trans : ∀ {x y z : List Dbl}, ptEq x y = true → ptEq y z = true → ptEq x z = true
  | [], [], [], _, _ => rfl
  | [], [], _ :: _, _, h => by simp [ptEq] at h
  | [], _ :: _, _, h, _ => by simp [ptEq] at h
  | _ :: _, [], _, h, _ => by simp [ptEq] at h
  | _ :: _, _ :: _, [], _, h => by simp [ptEq] at h
  | a :: x, b :: y, c :: z, h1, h2 => by
      simp only [ptEq, Bool.and_eq_true] at *
      exact ⟨feq_trans h1.1 h2.1, ptEq_trans h1.2 h2.2⟩

theorem same_iff {a b : Pt} : ptEq a b = true ↔ SamePoint a b := Dbl.ptEq_iff a b

theorem not_same_iff {a b : Pt} : ptEq a b = false ↔ ¬ SamePoint a b := by
  rw [← same_iff, Bool.not_eq_true]

theorem shortName_inj (a b : Kind) : (a.shortName == b.shortName) = true ↔ a = b := by
  cases a <;> cases b <;> simp [Kind.shortName]

theorem rbfsEq_iff : ∀ a b : List Rbf, rbfsEq a b = true ↔
    List.Forall₂ (fun r q : Rbf => r.kind = q.kind ∧ List.Forall₂ Dbl.Equal r.params q.params ∧
      List.Forall₂ Dbl.Equal r.aniso q.aniso) a b
  | [], [] => by simp [rbfsEq]
  | [], _ :: _ => by simp [rbfsEq]
  | _ :: _, [] => by simp [rbfsEq]
  | x :: xs, y :: ys => by
      rw [rbfsEq, List.forall₂_cons, Bool.and_eq_true, rbfsEq_iff xs ys, rbfEq, Bool.and_eq_true, Bool.and_eq_true,
        shortName_inj, Dbl.ptEq_iff, Dbl.ptEq_iff, and_assoc, and_assoc, and_assoc, and_assoc]

theorem sameModel_iff (a b : Mdl) : modelEq a b = true ↔ SameModel a b := by
  rw [modelEq, SameModel, Bool.and_eq_true, Bool.and_eq_true, rbfsEq_iff, Dbl.feq_iff, beq_iff_eq, and_assoc]

theorem not_sameModel_iff (a b : Mdl) : modelEq a b = false ↔ ¬ SameModel a b := by
  rw [← sameModel_iff, Bool.not_eq_true]

theorem mapFind_fillMap (p : Pt) : ∀ (cs : List Pt) (i : Nat) (m : List (Pt × Nat)),
    mapFind (fillMap cs i m) p =
      match mapFind m p with
      | some j => some j
      | none => (cs.findIdx? (fun c => ptEq c p)).map (· + i)
  | [], i, m => by simp only [fillMap, List.findIdx?_nil]; cases mapFind m p <;> rfl
  | c :: cs, i, m => by
      rw [fillMap, mapFind_fillMap p cs (i + 1)]
      unfold mapEmplace
      by_cases hm : m.any (fun e => ptEq e.1 c) = true
      · rw [if_pos hm]
        cases hf : mapFind m p with
        | some j => rfl
        | none =>
            have hc : ptEq c p = false := by
              by_contra hc
              obtain ⟨e, he, hec⟩ := List.any_eq_true.1 hm
              have := ptEq_trans hec (by simpa using hc)
              simp only [mapFind, Option.map_eq_none_iff, List.find?_eq_none] at hf
              exact hf e he this
            simp only [List.findIdx?_cons, hc, Option.map_map, Bool.false_eq_true, if_false]
            congr 1
            funext j
            simp only [Function.comp]
            omega
      · rw [if_neg hm]
        simp only [mapFind, List.find?_append, List.find?_cons, List.find?_nil]
        cases hf : List.find? (fun e => ptEq e.1 p) m with
        | some j => simp
        | none =>
            by_cases hc : ptEq c p = true
            · simp [hc, List.findIdx?_cons]
            · simp only [Bool.not_eq_true] at hc
              simp only [List.findIdx?_cons, hc, Option.map_map, Bool.false_eq_true, if_false, Option.or_none,
                Option.map_none]
              congr 1
              funext j
              simp only [Function.comp]
              omega

theorem findIdx?_firstMatch (cs : List Pt) (p : Pt) (j : Nat) :
    cs.findIdx? (fun c => ptEq c p) = some j ↔ FirstMatch cs p j := by
  rw [List.findIdx?_eq_some_iff_getElem, FirstMatch]
  simp only [← same_iff, Bool.not_eq_true]
  constructor
  · rintro ⟨h, h1, h2⟩
    refine ⟨⟨cs[j], List.getElem?_eq_getElem h, h1⟩, fun i hi c hc => ?_⟩
    have := h2 i hi
    rw [List.getElem?_eq_getElem (by omega)] at hc
    simp only [Option.some.injEq] at hc
    subst hc
    simpa using this
  · rintro ⟨⟨c, hc, hp⟩, h2⟩
    obtain ⟨h, rfl⟩ := List.getElem?_eq_some_iff.1 hc
    refine ⟨h, hp, fun i hi => ?_⟩
    simpa using h2 i hi _ (List.getElem?_eq_getElem (by omega))

theorem mapFind_fill_some {cs : List Pt} {p : Pt} {j : Nat} :
    mapFind (fillMap cs 0 []) p = some j ↔ FirstMatch cs p j := by
  rw [mapFind_fillMap]
  simp only [mapFind, List.find?_nil, Option.map_none, Nat.add_zero, Option.map_id']
  exact findIdx?_firstMatch cs p j

theorem mapFind_fill_none {cs : List Pt} {p : Pt} :
    mapFind (fillMap cs 0 []) p = none ↔ ∀ c ∈ cs, ¬ SamePoint c p := by
  simp only [← not_same_iff]
  rw [mapFind_fillMap]
  simp only [mapFind, List.find?_nil, Option.map_none, Nat.add_zero, Option.map_id']
  rw [List.findIdx?_eq_none_iff]

theorem FirstMatch.lt {cs : List Pt} {p : Pt} {j : Nat} (h : FirstMatch cs p j) : j < cs.length := by
  obtain ⟨⟨c, hc, _⟩, _⟩ := h
  exact (List.getElem?_eq_some_iff.1 hc).1

theorem getElem?_flatten_const {α : Type} (n : Nat) : ∀ (L : List (List α)), (∀ x ∈ L, x.length = n) →
    ∀ i x, L[i]? = some x → ∀ k < n, L.flatten[n * i + k]? = x[k]?
  | [], _, i, x, h, _, _ => by simp at h
  | y :: L, hl, 0, x, h, k, hk => by
      simp only [List.getElem?_cons_zero, Option.some.injEq] at h
      subst h
      have := hl y (by simp)
      simp only [List.flatten_cons, Nat.mul_zero, Nat.zero_add]
      rw [List.getElem?_append_left (by omega)]
  | y :: L, hl, i + 1, x, h, k, hk => by
      simp only [List.getElem?_cons_succ] at h
      have hy := hl y (by simp)
      have := getElem?_flatten_const n L (fun z hz => hl z (by simp [hz])) i x h k hk
      simp only [List.flatten_cons]
      rw [List.getElem?_append_right (by rw [hy, Nat.mul_succ]; omega), ← this]
      congr 1
      rw [hy, Nat.mul_succ]; omega

theorem length_flatten_const {α : Type} (n : Nat) : ∀ (L : List (List α)), (∀ x ∈ L, x.length = n) →
    L.flatten.length = n * L.length
  | [], _ => by simp
  | y :: L, hl => by
      rw [List.flatten_cons, List.length_append, length_flatten_const n L (fun z hz => hl z (by simp [hz])),
        hl y (by simp), List.length_cons, Nat.mul_succ]; omega

/-- The value weight chosen for one point. -/
def warmValue {B : Type} (ini : State B) (p : Pt) : Dbl :=
  match mapFind (fillMap ini.centers 0 []) p with
  | none => zero
  | some j => ini.weights.getD j zero

def warmGrad {B : Type} (dim : Nat) (ini : State B) (p : Pt) : List Dbl :=
  match mapFind (fillMap ini.gradCenters 0 []) p with
  | none => List.replicate dim zero
  | some j => (ini.weights.drop (ini.centers.length + dim * j)).take dim

theorem mul_succ_le {d j n : Nat} (h : j < n) : d * j + d ≤ d * n := by
  calc d * j + d = d * (j + 1) := by rw [Nat.mul_succ]
    _ ≤ d * n := Nat.mul_le_mul_left d h

theorem build_ok {B : Type} (env : Env B) (m : Mdl) (points grads : List Pt) (same : Bool) (ini : State B)
    (hm : (same || modelEq m ini.model) = true) (hf : ini.fitted = true)
    (hs : (Fit.mk ini.centers ini.gradCenters ini.bbox ini.weights).Sized env.dim (basisSize env.dim m.polyDegree)) :
    ∃ w, buildInitialWeights env m points grads same ini = .ok w ∧
      WarmStart env.dim (basisSize env.dim m.polyDegree) ⟨ini.centers, ini.gradCenters, ini.bbox, ini.weights⟩
        points grads w := by
  set l := basisSize env.dim m.polyDegree with hl
  simp only [Fit.Sized] at hs
  have hacc : ini.weightsAcc = .ok ini.weights := by simp [State.weightsAcc, hf]
  have h1 := Outcome.traverse_ok (xs := points) (g := warmValue ini)
    (f := iniValue ini (fillMap ini.centers 0 [])) (by
      intro p _
      unfold warmValue iniValue
      cases hfd : mapFind (fillMap ini.centers 0 []) p with
      | none => rfl
      | some j =>
          have hj := (mapFind_fill_some.1 hfd).lt
          simp only [hacc, Outcome.ok_bind, Outcome.get]
          simp only [List.getD_eq_getElem?_getD]
          rw [List.getElem?_eq_getElem (by omega)]
          rfl)
  have h2 := Outcome.traverse_ok (xs := grads) (g := warmGrad env.dim ini)
    (f := iniGrad env.dim ini (fillMap ini.gradCenters 0 [])) (by
      intro p _
      unfold warmGrad iniGrad
      cases hfd : mapFind (fillMap ini.gradCenters 0 []) p with
      | none => rfl
      | some j =>
          have hj := mul_succ_le (d := env.dim) (mapFind_fill_some.1 hfd).lt
          simp only [hacc, Outcome.ok_bind, segment]
          rw [if_pos (by omega)])
  refine ⟨points.map (warmValue ini) ++ (grads.map (warmGrad env.dim ini)).flatten ++
    ini.weights.drop (ini.weights.length - l), ?_, ?_⟩
  · unfold buildInitialWeights
    simp only [hm, Bool.not_true, Bool.false_eq_true, if_false]
    rw [h1, Outcome.ok_bind, h2, Outcome.ok_bind, hacc, Outcome.ok_bind]
    simp only [tail]
    rw [if_pos (by omega)]
    rfl
  · have hg : ∀ x ∈ grads.map (warmGrad env.dim ini), x.length = env.dim := by
      intro x hx
      obtain ⟨p, _, rfl⟩ := List.mem_map.1 hx
      unfold warmGrad
      cases hfd : mapFind (fillMap ini.gradCenters 0 []) p with
      | none => simp
      | some j =>
          have hj := mul_succ_le (d := env.dim) (mapFind_fill_some.1 hfd).lt
          simp only [List.length_take, List.length_drop]
          omega
    have hlen := length_flatten_const _ _ hg
    simp only [List.length_map] at hlen
    have htl : (ini.weights.drop (ini.weights.length - l)).length = l := by
      rw [List.length_drop]; omega
    constructor
    · simp only [List.length_append, List.length_map, hlen, htl]
    · intro i p hi
      have hlt := (List.getElem?_eq_some_iff.1 hi).1
      have : (points.map (warmValue ini) ++ (grads.map (warmGrad env.dim ini)).flatten ++
          ini.weights.drop (ini.weights.length - l))[i]? = some (warmValue ini p) := by
        rw [List.append_assoc, List.getElem?_append_left (by simpa using hlt), List.getElem?_map, hi]
        rfl
      rw [this]
      constructor
      · intro j hj
        have := hj.lt
        rw [warmValue, mapFind_fill_some.2 hj]
        simp only [List.getD_eq_getElem?_getD] at this ⊢
        rw [List.getElem?_eq_getElem (by omega)]
        rfl
      · intro hn
        rw [warmValue, mapFind_fill_none.2 hn]
    · intro i p hi k hk
      have hlt := (List.getElem?_eq_some_iff.1 hi).1
      have hb := mul_succ_le (d := env.dim) hlt
      have : (points.map (warmValue ini) ++ (grads.map (warmGrad env.dim ini)).flatten ++
          ini.weights.drop (ini.weights.length - l))[points.length + env.dim * i + k]? = (warmGrad env.dim ini p)[k]? := by
        rw [List.append_assoc, List.getElem?_append_right (by simp only [List.length_map]; omega),
          List.getElem?_append_left (by simp only [List.length_map, hlen]; omega),
          ← getElem?_flatten_const env.dim _ hg i (warmGrad env.dim ini p) (by rw [List.getElem?_map, hi]; rfl) k hk]
        congr 1
        simp only [List.length_map]; omega
      rw [this]
      constructor
      · intro j hj
        rw [warmGrad, mapFind_fill_some.2 hj]
        simp only
        rw [List.getElem?_take, if_pos hk, List.getElem?_drop]
      · intro hn
        rw [warmGrad, mapFind_fill_none.2 hn]
        simp [hk]
    · intro k hk
      rw [List.getElem?_append_right (by simp only [List.length_append, List.length_map, hlen]; omega)]
      rw [List.getElem?_drop]
      congr 1
      simp only [List.length_append, List.length_map, hlen]
      omega

theorem build_unfitted {B : Type} (env : Env B) (m : Mdl) (points grads : List Pt) (same : Bool) (ini : State B)
    (hm : (same || modelEq m ini.model) = true) (hf : ini.fitted = false) (hc : ini.centers = [])
    (hg : ini.gradCenters = []) :
    buildInitialWeights env m points grads same ini = .throws .runtimeError := by
  have hacc : ini.weightsAcc = .throws .runtimeError := by simp [State.weightsAcc, hf]
  unfold buildInitialWeights
  simp only [hm, Bool.not_true, Bool.false_eq_true, if_false, hc, hg, fillMap, hacc]
  rw [Outcome.traverse_ok (g := fun _ => zero) (by simp [iniValue, mapFind]), Outcome.ok_bind,
    Outcome.traverse_ok (g := fun _ => List.replicate env.dim zero) (by simp [iniGrad, mapFind]), Outcome.ok_bind]
  rfl

theorem build_different {B : Type} (env : Env B) (m : Mdl) (points grads : List Pt) (ini : State B)
    (hm : modelEq m ini.model = false) :
    buildInitialWeights env m points grads false ini =
      .ok (List.replicate (points.length + env.dim * grads.length + basisSize env.dim m.polyDegree) zero) := by
  simp [buildInitialWeights, hm]

theorem pick_ok (ps : List Pt) : ∀ (is : List Nat), (∀ i ∈ is, i < ps.length) →
    pick ps is = .ok (is.filterMap (ps[·]?)) ∧ (is.filterMap (ps[·]?)).length = is.length
  | [], _ => ⟨rfl, rfl⟩
  | i :: is, h => by
      have hi := h i (by simp)
      obtain ⟨h1, h2⟩ := pick_ok ps is (fun j hj => h j (by simp [hj]))
      simp only [pick] at h1
      constructor
      · have hg : Outcome.get ps i = .ok ps[i] := by simp [Outcome.get, List.getElem?_eq_getElem hi]
        simp only [pick, Outcome.traverse, hg, Outcome.ok_bind, h1,
          Outcome.pure_eq, List.filterMap_cons, List.getElem?_eq_getElem hi]
      · simp only [List.filterMap_cons, List.getElem?_eq_getElem hi, List.length_cons, h2]

end Verif.Interpolant
