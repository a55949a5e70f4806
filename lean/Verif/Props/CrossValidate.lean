import Verif.Model.Kriging
import Verif.Props.IncrementalFitter
import Mathlib.Data.List.Nodup
import Mathlib.Tactic.Common

/-! # C31 (cross validation) -/

namespace Verif.Kriging

open Verif

/-- The entries whose point is not in the set `id`. -/
def others (xs : List α) (ids : List Int) (id : Int) : List α :=
  ((xs.zip ids).filter (fun x => x.2 != id)).map Prod.fst

theorem testSet_eq {ids : List Int} {id : Int} : ∀ (L : List Nat), (∀ i ∈ L, i < ids.length) →
    testSet ids id L = .ok (L.filter (fun (i : Nat) => ids.getD i 0 == id))
  | [], _ => rfl
  | i :: L, h => by
      have hi := h i (by simp)
      have : Outcome.get ids i = .ok (ids.getD i 0) := by simp [Outcome.get, hi]
      simp only [testSet, this, Outcome.ok_bind, testSet_eq L (fun j hj => h j (by simp [hj])), Outcome.pure_eq,
        List.filter_cons]

theorem gather_eq {xs : List α} {d : α} (L : List Nat) (h : ∀ i ∈ L, i < xs.length) :
    Outcome.traverse (Outcome.get xs) L = .ok (L.map (fun (i : Nat) => xs.getD i d)) := by
  apply Outcome.traverse_ok
  intro i hi
  simp [Outcome.get, h i hi]

theorem map_filter_range (xs : List α) (ids : List Int) (d : α) (c : Int → Bool) (h : ids.length = xs.length) :
    ((List.range xs.length).filter (fun (i : Nat) => c (ids.getD i 0))).map (fun (i : Nat) => xs.getD i d) =
      ((xs.zip ids).filter (fun x => c x.2)).map Prod.fst := by
  induction xs generalizing ids with
  | nil => simp
  | cons x xs ih =>
      cases ids with
      | nil => simp at h
      | cons k ids =>
          have h' : ids.length = xs.length := by simpa using h
          rw [List.length_cons, List.range_succ_eq_map]
          simp only [List.zip_cons_cons, List.filter_cons, List.getD_cons_zero, List.filter_map, Function.comp_def,
            List.getD_cons_succ]
          have := ih ids h'
          by_cases hc : c k = true
          · simp only [hc, if_true, List.map_cons, List.getD_cons_zero, List.map_map, Function.comp_def,
              List.getD_cons_succ, this]
          · simp only [hc, Bool.false_eq_true, if_false, List.map_map, Function.comp_def, List.getD_cons_succ, this]

theorem scatter_eq {n : Nat} (w : Nat → V) : ∀ (L : List Nat), (∀ i ∈ L, i < n) → L.Nodup → ∀ q : Nat → V,
    scatter ((List.range n).map q) L (L.map w) =
      .ok ((List.range n).map (fun (i : Nat) => if i ∈ L then w i else q i))
  | [], _, _, q => by simp [scatter]
  | i :: L, h, hnd, q => by
      have hi := h i (by simp)
      have hnd' := List.nodup_cons.1 hnd
      have hset : ((List.range n).map q).set i (w i) = (List.range n).map (fun j => if j = i then w i else q j) := by
        apply List.ext_getElem
        · simp
        · intro j h1 h2
          simp only [List.getElem_set, List.getElem_map, List.getElem_range]
          by_cases hij : i = j
          · simp [hij]
          · rw [if_neg hij, if_neg (fun x => hij x.symm)]
      simp only [List.map_cons, scatter, List.length_map, List.length_range, hi, if_true, hset]
      rw [scatter_eq w L (fun j hj => h j (by simp [hj])) hnd'.2]
      congr 1
      apply List.map_congr_left
      intro j _
      by_cases hji : j = i
      · subst hji; simp [hnd'.1]
      · simp [hji]

variable {P V F : Type}

theorem foldOne_reduce [Inhabited P] [Inhabited V] {fit : List P → List V → Outcome F}
    {eval : F → List P → Outcome (List V)} {points : List P} {values : List V} {ids : List Int}
    (hi : ids.length = points.length) (hv : values.length = points.length) (pred : List V) (id : Int) :
    foldOne fit eval points values ids pred id =
      (fit (others points ids id) (others values ids id) >>= fun f =>
        eval f (((List.range points.length).filter (fun (i : Nat) => ids.getD i 0 == id)).map
          (fun (i : Nat) => points.getD i default)) >>= fun fitted =>
        scatter pred ((List.range points.length).filter (fun (i : Nat) => ids.getD i 0 == id)) fitted) := by
  unfold foldOne
  set T := (List.range points.length).filter (fun (i : Nat) => ids.getD i 0 == id) with hT
  have hTlt : ∀ i ∈ T, i < points.length := fun i h => List.mem_range.1 (List.mem_filter.1 h).1
  rw [testSet_eq _ (fun i h => by rw [hi]; exact List.mem_range.1 h), Outcome.ok_bind, ← hT,
    Incremental.compl_ok (List.nodup_range.filter _) hTlt, Outcome.ok_bind]
  have hC : (List.range points.length).filter (fun i => !T.contains i) =
      (List.range points.length).filter (fun (i : Nat) => ids.getD i 0 != id) := by
    apply List.filter_congr
    intro i hir
    have : T.contains i = (ids.getD i 0 == id) := by
      rw [Bool.eq_iff_iff, List.contains_iff_mem, hT, List.mem_filter]
      exact ⟨fun h => h.2, fun h => ⟨hir, h⟩⟩
    rw [this]; rfl
  rw [hC]
  have hlt : ∀ i ∈ (List.range points.length).filter (fun (i : Nat) => ids.getD i 0 != id), i < points.length :=
    fun i h => List.mem_range.1 (List.mem_filter.1 h).1
  rw [gather_eq (d := default) _ hlt, Outcome.ok_bind, gather_eq (d := default) _ hTlt, Outcome.ok_bind,
    gather_eq (xs := values) (d := default) _ (fun i h => by rw [hv]; exact hlt i h), Outcome.ok_bind]
  rw [map_filter_range points ids default (fun k => k != id) hi]
  have hvv := map_filter_range values ids default (fun k => k != id) (by rw [hi, hv])
  rw [hv] at hvv
  rw [hvv]
  rfl

/-- C31: every prediction is the value, at the point, of the interpolant fitted to exactly the points of the other sets,
whatever the order in which the sets are processed; there is one prediction for every point.  (`g f` is the function the
interpolant `f` evaluates.) -/
theorem C31_predictions [Inhabited P] [Inhabited V] {fit : List P → List V → Outcome F}
    {eval : F → List P → Outcome (List V)} {zero : V} {points : List P} {values : List V} {ids order : List Int}
    (hi : ids.length = points.length) (hv : values.length = points.length)
    (hnd : order.Nodup) (ho : ∀ x, x ∈ order ↔ x ∈ ids) (g : F → P → V)
    (heval : ∀ f ps, eval f ps = .ok (ps.map (g f))) (model : Int → F)
    (hfit : ∀ id ∈ ids, fit (others points ids id) (others values ids id) = .ok (model id)) :
    ∃ pred, crossValidate fit eval zero points values ids order = .ok pred ∧ pred.length = points.length ∧
      ∀ (i : Nat) (h : i < points.length), pred[i]? = some (g (model (ids[i]'(by rw [hi]; exact h))) points[i]) := by
  have key : ∀ (L : List Int), L.Nodup → (∀ x ∈ L, x ∈ ids) → ∀ q : Nat → V,
      folds fit eval points values ids L ((List.range points.length).map q) =
        .ok ((List.range points.length).map (fun (i : Nat) =>
          if ids.getD i 0 ∈ L then g (model (ids.getD i 0)) (points.getD i default) else q i)) := by
    intro L
    induction L with
    | nil => intro _ _ q; simp [folds]
    | cons id L ih =>
        intro hnd hL q
        have hnd' := List.nodup_cons.1 hnd
        simp only [folds]
        rw [foldOne_reduce hi hv, hfit id (hL id (by simp)), Outcome.ok_bind, heval, Outcome.ok_bind, List.map_map,
          scatter_eq _ _ (fun i h => List.mem_range.1 (List.mem_filter.1 h).1) (List.nodup_range.filter _),
          Outcome.ok_bind, ih hnd'.2 (fun x hx => hL x (by simp [hx]))]
        congr 1
        apply List.map_congr_left
        intro i hir
        by_cases h1 : ids.getD i 0 ∈ L
        · rw [if_pos h1, if_pos (List.mem_cons_of_mem _ h1)]
        · by_cases h2 : ids.getD i 0 = id
          · have : i ∈ (List.range points.length).filter (fun (i : Nat) => ids.getD i 0 == id) := by
              rw [List.mem_filter]; exact ⟨hir, by simpa using h2⟩
            rw [if_neg h1, if_pos this, if_pos (by rw [h2]; exact List.mem_cons_self), h2]; rfl
          · have : i ∉ (List.range points.length).filter (fun (i : Nat) => ids.getD i 0 == id) := by
              rw [List.mem_filter]; intro h; exact h2 (by simpa using h.2)
            rw [if_neg h1, if_neg this, if_neg (by simp only [List.mem_cons, h1, h2, or_self, not_false_eq_true])]
  have h0 : List.replicate points.length zero = (List.range points.length).map (fun _ => zero) := by
    simp [List.map_const']
  have hres := key order hnd (fun x hx => (ho x).1 hx) (fun _ => zero)
  rw [← h0] at hres
  refine ⟨_, hres, ?_, ?_⟩
  · simp
  · intro i h
    have hget : ids.getD i 0 = ids[i]'(by rw [hi]; exact h) := by simp [hi, h]
    have hmem : ids.getD i 0 ∈ order := by rw [ho, hget]; exact List.getElem_mem _
    have hp : points.getD i default = points[i] := by simp [h]
    rw [List.getElem?_map, List.getElem?_range h]
    simp only [Option.map_some]
    rw [if_pos hmem, hget, hp]

/-- C31: no partial result: when the function returns, the fit of every set succeeded. -/
theorem C31_all_fits_succeeded [Inhabited P] [Inhabited V] {fit : List P → List V → Outcome F}
    {eval : F → List P → Outcome (List V)} {zero : V} {points : List P} {values : List V} {ids order : List Int}
    (hi : ids.length = points.length) (hv : values.length = points.length) (ho : ∀ x, x ∈ order ↔ x ∈ ids)
    {pred : List V} (h : crossValidate fit eval zero points values ids order = .ok pred) :
    ∀ id ∈ ids, ∃ f, fit (others points ids id) (others values ids id) = .ok f := by
  have key : ∀ (L : List Int) (q r : List V), folds fit eval points values ids L q = .ok r → ∀ id ∈ L,
      ∃ f, fit (others points ids id) (others values ids id) = .ok f := by
    intro L
    induction L with
    | nil => simp
    | cons id L ih =>
        intro q r hr x hx
        simp only [folds] at hr
        obtain ⟨q', hq, hr⟩ := Outcome.bind_eq_ok.1 hr
        rcases List.mem_cons.1 hx with rfl | hx
        · rw [foldOne_reduce hi hv] at hq
          obtain ⟨f, hf, -⟩ := Outcome.bind_eq_ok.1 hq
          exact ⟨f, hf⟩
        · exact ih _ _ hr x hx
  intro id hid
  exact key order _ _ h id ((ho id).2 hid)

theorem others_congr {values values' : List V} {ids : List Int} {id : Int} (h1 : values.length = ids.length)
    (h2 : values'.length = ids.length) (h : ∀ i : Nat, ids[i]? ≠ some id → values[i]? = values'[i]?) :
    others values ids id = others values' ids id := by
  induction ids generalizing values values' with
  | nil => simp [others]
  | cons k ids ih =>
      cases values with
      | nil => simp at h1
      | cons a values =>
          cases values' with
          | nil => simp at h2
          | cons b values' =>
              have hrest := ih (values := values) (values' := values') (by simpa using h1) (by simpa using h2)
                (fun i hi => by simpa using h (i + 1) (by simpa using hi))
              unfold others at hrest ⊢
              simp only [List.zip_cons_cons, List.filter_cons]
              by_cases hk : k = id
              · simp [hk, hrest]
              · have : a = b := by simpa using h 0 (by simpa using hk)
                simp [hk, hrest, this]

/-- C31: no point is predicted from itself: changing the values of the points of one set does not change the predictions
of that set. -/
theorem C31_no_leak [Inhabited P] [Inhabited V] {fit : List P → List V → Outcome F}
    {eval : F → List P → Outcome (List V)} {zero : V} {points : List P} {values values' : List V} {ids order : List Int}
    (hi : ids.length = points.length) (hv : values.length = points.length) (hv' : values'.length = points.length)
    (hnd : order.Nodup) (ho : ∀ x, x ∈ order ↔ x ∈ ids) (g : F → P → V)
    (heval : ∀ f ps, eval f ps = .ok (ps.map (g f))) (id : Int)
    (hsame : ∀ i : Nat, ids[i]? ≠ some id → values[i]? = values'[i]?)
    {pred pred' : List V} (h : crossValidate fit eval zero points values ids order = .ok pred)
    (h' : crossValidate fit eval zero points values' ids order = .ok pred') :
    ∀ i : Nat, ids[i]? = some id → pred[i]? = pred'[i]? := by
  have h1 := C31_all_fits_succeeded hi hv ho h
  have h2 := C31_all_fits_succeeded hi hv' ho h'
  classical
  by_cases hne : ids = []
  · subst hne; intro i hx; simp at hx
  obtain ⟨x0, hx0⟩ := List.exists_mem_of_ne_nil _ hne
  let F0 : F := (h1 x0 hx0).choose
  let m1 : Int → F := fun k => if hk : k ∈ ids then (h1 k hk).choose else F0
  let m2 : Int → F := fun k => if hk : k ∈ ids then (h2 k hk).choose else F0
  obtain ⟨p1, e1, -, q1⟩ := C31_predictions (zero := zero) hi hv hnd ho g heval m1 (fun k hk => by
    simp only [m1, dif_pos hk]; exact (h1 k hk).choose_spec)
  obtain ⟨p2, e2, -, q2⟩ := C31_predictions (zero := zero) hi hv' hnd ho g heval m2 (fun k hk => by
    simp only [m2, dif_pos hk]; exact (h2 k hk).choose_spec)
  rw [h] at e1; cases e1
  rw [h'] at e2; cases e2
  intro i hid
  obtain ⟨hlt, he⟩ := List.getElem?_eq_some_iff.1 hid
  have hlt' : i < points.length := by rw [← hi]; exact hlt
  rw [q1 i hlt', q2 i hlt', he]
  have hm : id ∈ ids := by rw [← he]; exact List.getElem_mem _
  have ho' : others values ids id = others values' ids id :=
    others_congr (by rw [hv, hi]) (by rw [hv', hi]) hsame
  have : m1 id = m2 id := by
    simp only [m1, m2, dif_pos hm]
    have s1 := (h1 id hm).choose_spec
    have s2 := (h2 id hm).choose_spec
    have := (congrArg (fit (others points ids id)) ho'.symm).trans s1 |>.symm.trans s2
    exact Outcome.ok.inj this
  rw [this]

/-- Fewer ids than points: undefined. -/
theorem C31_missing_ids_are_undefined {fit : List P → List V → Outcome F} {eval : F → List P → Outcome (List V)}
    {zero : V} {points : List P} {values : List V} {ids : List Int} {id : Int} {order : List Int}
    (hi : ids.length < points.length) : crossValidate fit eval zero points values ids (id :: order) = .ub := by
  have key : ∀ (L : List Nat), (∃ i ∈ L, ids.length ≤ i) → testSet ids id L = .ub := by
    intro L
    induction L with
    | nil => rintro ⟨i, hi, -⟩; simp at hi
    | cons i L ih =>
        rintro ⟨j, hj, hlen⟩
        simp only [testSet]
        by_cases h : ids.length ≤ i
        · have : Outcome.get ids i = .ub := by
            simp [Outcome.get, List.getElem?_eq_none h]
          rw [this]; rfl
        · have : Outcome.get ids i = .ok (ids[i]'(by omega)) := by
            simp [Outcome.get, List.getElem?_eq_getElem (show i < ids.length by omega)]
          rw [this, Outcome.ok_bind]
          have hjL : j ∈ L := by
            rcases List.mem_cons.1 hj with rfl | h'
            · exact absurd hlen h
            · exact h'
          rw [ih ⟨j, hjL, hlen⟩]; rfl
  unfold crossValidate folds foldOne
  rw [key _ ⟨ids.length, List.mem_range.2 hi, le_refl _⟩]
  rfl

/-- Three points in two sets with a "fit" that records its training data. -/
example : crossValidate (V := List Nat) (fun ps vs => .ok (ps, vs)) (fun f ps => .ok (ps.map (fun p => p :: f.1)))
    [] [10, 20, 30] [[1], [2], [3]] [7, 8, 7] [8, 7] = .ok [[10, 20], [20, 10, 30], [30, 20]] := by decide

end Verif.Kriging
