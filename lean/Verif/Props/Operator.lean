import Verif.Lemmas.Operator

/-!
# C72: the operator the solver applies, and the symmetric evaluator, compute the matrix of the interpolation problem
-/

namespace Verif.Operator

open Verif FmmKernel Kernel Evaluator

variable {d l : Nat}

/-- What the calls so far have set. -/
structure Settings (d : Nat) where
  pointed : Bool
  points : List (Pos d)
  grads : List (Pos d)
  /-- the weights of the symmetric evaluator, if they were set after the latest points -/
  weights : Option (Nat → ℝ)

/-- The settings after a call. -/
def Settings.after (g : Settings d) : Op d → Settings d
  | .points S G _ _ => ⟨true, S, G, none⟩
  | .weights w => { g with weights := some w }
  | .evaluate => g
  | .apply _ => { g with weights := none }

/-- The settings after some calls on a new object. -/
def settings (ops : List (Op d)) : Settings d := ops.foldl Settings.after ⟨false, [], [], none⟩

/-! ## what the elementary evaluators are told -/

/-- What an elementary evaluator has been told; nothing is said on the weights if `w` is `none`. -/
structure Told {kind : Kind} (b : Bool) (S T : List (Pos d)) (w : Option (Nat → Fin (kind.km d) → ℝ)) (calls : Calls d kind) : Prop where
  settings : ∃ w', Fmm.settings calls = ⟨S, T, w'⟩ ∧ ∀ v, w = some v → w' = some v
  source : b = true → calls.any isSource = true

/-- The same for a symmetric one. -/
structure STold {kind : Kind} (b : Bool) (S : List (Pos d)) (w : Option (Nat → Fin (kind.km d) → ℝ)) (calls : SCalls d kind) : Prop where
  settings : ∃ w', FmmSym.settings calls = ⟨S, w'⟩ ∧ ∀ v, w = some v → w' = some v
  points : b = true → calls.any isPoints = true

/-- What an element has been told. -/
structure Elem.Told (b : Bool) (S G : List (Pos d)) (w : Option (Nat → ℝ)) (e : Elem d) : Prop where
  a : STold (kind := .value) b S (w.map (fun w => segment w 0 1)) e.a
  f : Operator.Told (kind := .gradient) b G S (w.map (fun w => segment w S.length d)) e.f
  ft : Operator.Told (kind := .gradientT) b S G (w.map (fun w => segment w 0 1)) e.ft
  h : STold (kind := .hessian) b G (w.map (fun w => segment w S.length d)) e.h

/-- What holds between calls. -/
structure Inv (m : Evaluator.Model d l) (g : Settings d) (s : State d l) : Prop where
  mu : s.mu = g.points.length
  sigma : s.sigma = g.grads.length
  cs : s.elems.map Elem.c = m.rbfs
  told : ∀ e ∈ s.elems, e.Told g.pointed g.points g.grads g.weights
  polyPoints : s.polyPoints = g.points
  polyGrads : s.polyGrads = g.grads
  polyWeights : ∀ w, g.weights = some w → s.polyWeights = fun t : Fin l => w (g.points.length + d * g.grads.length + t)

theorem Told.points {kind : Kind} {b : Bool} {S T : List (Pos d)} {w : Option (Nat → Fin (kind.km d) → ℝ)} {calls : Calls d kind}
    (h : Told b S T w calls) (S' T' : List (Pos d)) (acc : Option EReal) :
    Told true S' T' (none : Option (Nat → Fin (kind.km d) → ℝ)) (calls ++ [.source S', .target T', .accuracy acc]) := by
  obtain ⟨w', hw, -⟩ := h.settings
  refine ⟨⟨none, ?_, fun v hv => by cases hv⟩, fun _ => ?_⟩
  · unfold Fmm.settings at hw ⊢
    rw [List.foldl_append, hw]; rfl
  · rw [List.any_append, Bool.or_eq_true]; exact Or.inr rfl

theorem Told.weights {kind : Kind} {b : Bool} {S T : List (Pos d)} {w : Option (Nat → Fin (kind.km d) → ℝ)} {calls : Calls d kind}
    (h : Told b S T w calls) (v : Nat → Fin (kind.km d) → ℝ) : Told b S T (some v) (calls ++ [.weights v]) := by
  obtain ⟨w', hw, -⟩ := h.settings
  refine ⟨⟨some v, ?_, fun _ hv => hv⟩, fun hb => ?_⟩
  · unfold Fmm.settings at hw ⊢
    rw [List.foldl_append, hw]; rfl
  · rw [List.any_append, Bool.or_eq_true]; exact Or.inl (h.source hb)

theorem Told.evaluated {kind : Kind} {b : Bool} {S T : List (Pos d)} {w : Option (Nat → Fin (kind.km d) → ℝ)} {calls : Calls d kind}
    (h : Told b S T w calls) : Told b S T w (calls ++ [.evaluate]) := by
  obtain ⟨w', hw, h'⟩ := h.settings
  refine ⟨⟨w', ?_, h'⟩, fun hb => ?_⟩
  · unfold Fmm.settings at hw ⊢
    rw [List.foldl_append, hw]; rfl
  · rw [List.any_append, Bool.or_eq_true]; exact Or.inl (h.source hb)

theorem Told.forget {kind : Kind} {b : Bool} {S T : List (Pos d)} {w : Option (Nat → Fin (kind.km d) → ℝ)} {calls : Calls d kind}
    (h : Told b S T w calls) : Told b S T (none : Option (Nat → Fin (kind.km d) → ℝ)) calls := by
  obtain ⟨w', hw, -⟩ := h.settings
  exact ⟨⟨w', hw, fun v hv => by cases hv⟩, h.source⟩

theorem STold.setPoints {kind : Kind} {b : Bool} {S : List (Pos d)} {w : Option (Nat → Fin (kind.km d) → ℝ)} {calls : SCalls d kind}
    (h : STold b S w calls) (S' : List (Pos d)) (acc : Option EReal) :
    STold true S' (none : Option (Nat → Fin (kind.km d) → ℝ)) (calls ++ [.points S', .accuracy acc]) := by
  obtain ⟨w', hw, -⟩ := h.settings
  refine ⟨⟨none, ?_, fun v hv => by cases hv⟩, fun _ => ?_⟩
  · unfold FmmSym.settings at hw ⊢
    rw [List.foldl_append, hw]; rfl
  · rw [List.any_append, Bool.or_eq_true]; exact Or.inr rfl

theorem STold.weights {kind : Kind} {b : Bool} {S : List (Pos d)} {w : Option (Nat → Fin (kind.km d) → ℝ)} {calls : SCalls d kind}
    (h : STold b S w calls) (v : Nat → Fin (kind.km d) → ℝ) : STold b S (some v) (calls ++ [.weights v]) := by
  obtain ⟨w', hw, -⟩ := h.settings
  refine ⟨⟨some v, ?_, fun _ hv => hv⟩, fun hb => ?_⟩
  · unfold FmmSym.settings at hw ⊢
    rw [List.foldl_append, hw]; rfl
  · rw [List.any_append, Bool.or_eq_true]; exact Or.inl (h.points hb)

theorem STold.evaluated {kind : Kind} {b : Bool} {S : List (Pos d)} {w : Option (Nat → Fin (kind.km d) → ℝ)} {calls : SCalls d kind}
    (h : STold b S w calls) : STold b S w (calls ++ [.evaluate]) := by
  obtain ⟨w', hw, h'⟩ := h.settings
  refine ⟨⟨w', ?_, h'⟩, fun hb => ?_⟩
  · unfold FmmSym.settings at hw ⊢
    rw [List.foldl_append, hw]; rfl
  · rw [List.any_append, Bool.or_eq_true]; exact Or.inl (h.points hb)

theorem STold.forget {kind : Kind} {b : Bool} {S : List (Pos d)} {w : Option (Nat → Fin (kind.km d) → ℝ)} {calls : SCalls d kind}
    (h : STold b S w calls) : STold b S (none : Option (Nat → Fin (kind.km d) → ℝ)) calls := by
  obtain ⟨w', hw, -⟩ := h.settings
  exact ⟨⟨w', hw, fun v hv => by cases hv⟩, h.points⟩

theorem Elem.Told.setPoints {b : Bool} {S G : List (Pos d)} {w : Option (Nat → ℝ)} {e : Elem d} (h : e.Told b S G w)
    (S' G' : List (Pos d)) (acc gacc : Option EReal) : (e.setPoints S' G' acc gacc).Told true S' G' none :=
  ⟨h.a.setPoints S' acc, h.f.points G' S' acc, h.ft.points S' G' gacc, h.h.setPoints G' gacc⟩

theorem Elem.Told.setWeights {b : Bool} {S G : List (Pos d)} {w : Option (Nat → ℝ)} {e : Elem d} (h : e.Told b S G w) (v : Nat → ℝ) :
    (e.setWeights v S.length).Told b S G (some v) :=
  ⟨h.a.weights _, h.f.weights _, h.ft.weights _, h.h.weights _⟩

theorem Elem.Told.forget {b : Bool} {S G : List (Pos d)} {w : Option (Nat → ℝ)} {e : Elem d} (h : e.Told b S G w) : e.Told b S G none :=
  ⟨h.a.forget, h.f.forget, h.ft.forget, h.h.forget⟩

theorem Elem.Told.evalElem {b : Bool} {S G : List (Pos d)} {w : Option (Nat → ℝ)} {e : Elem d} (h : e.Told b S G w) (X : Ext d)
    (mu sigma : Nat) (y : Nat → ℝ) : (evalElem X mu sigma e y).1.Told b S G w ∧ (evalElem X mu sigma e y).1.c = e.c := by
  unfold Operator.evalElem
  split
  · exact ⟨⟨h.a.evaluated, h.f, h.ft, h.h⟩, rfl⟩
  · exact ⟨⟨h.a.evaluated, h.f, h.ft, h.h⟩, rfl⟩
  · split
    · exact ⟨⟨h.a.evaluated, h.f.evaluated, h.ft, h.h⟩, rfl⟩
    · exact ⟨⟨h.a.evaluated, h.f.evaluated, h.ft, h.h⟩, rfl⟩
    · split
      · exact ⟨⟨h.a.evaluated, h.f.evaluated, h.ft.evaluated, h.h⟩, rfl⟩
      · exact ⟨⟨h.a.evaluated, h.f.evaluated, h.ft.evaluated, h.h⟩, rfl⟩
      · dsimp only
        split <;> exact ⟨⟨h.a.evaluated, h.f.evaluated, h.ft.evaluated, h.h.evaluated⟩, rfl⟩

theorem told_evalElems {b : Bool} {S G : List (Pos d)} {w : Option (Nat → ℝ)} (X : Ext d) (mu sigma : Nat) :
    ∀ (es : List (Elem d)) (y : Nat → ℝ), (∀ e ∈ es, e.Told b S G w) →
    (∀ e ∈ (evalElems X mu sigma es y).1, e.Told b S G w) ∧ (evalElems X mu sigma es y).1.map Elem.c = es.map Elem.c
  | [], _, _ => ⟨(fun e he => by cases he), rfl⟩
  | e :: es, y, h => by
      have h1 := (h e List.mem_cons_self).evalElem X mu sigma y
      have hes : ∀ e ∈ es, e.Told b S G w := fun e he => h e (List.mem_cons_of_mem _ he)
      unfold evalElems
      split
      · rename_i e' y' he
        rw [he] at h1
        obtain ⟨i1, i2⟩ := told_evalElems X mu sigma es y' hes
        refine ⟨fun x hx => ?_, by rw [List.map_cons, List.map_cons, i2, h1.2]⟩
        rcases List.mem_cons.1 hx with rfl | hx
        · exact h1.1
        · exact i1 x hx
      · rename_i e' err he
        rw [he] at h1
        refine ⟨fun x hx => ?_, by rw [List.map_cons, List.map_cons, h1.2]⟩
        rcases List.mem_cons.1 hx with rfl | hx
        · exact h1.1
        · exact hes x hx
      · rename_i e' he
        rw [he] at h1
        refine ⟨fun x hx => ?_, by rw [List.map_cons, List.map_cons, h1.2]⟩
        rcases List.mem_cons.1 hx with rfl | hx
        · exact h1.1
        · exact hes x hx

theorem told_applyElems {b : Bool} {S G : List (Pos d)} {w : Option (Nat → ℝ)} (X : Ext d) (sigma : Nat) (v : Nat → ℝ) :
    ∀ (es : List (Elem d)) (y : Nat → ℝ), (∀ e ∈ es, e.Told b S G w) →
    (∀ e ∈ (applyElems X S.length sigma v es y).1, e.Told b S G none) ∧
      (applyElems X S.length sigma v es y).1.map Elem.c = es.map Elem.c
  | [], _, _ => ⟨(fun e he => by cases he), rfl⟩
  | e :: es, y, h => by
      have h1 := ((h e List.mem_cons_self).setWeights v).evalElem X S.length sigma y
      have hes : ∀ e ∈ es, e.Told b S G w := fun e he => h e (List.mem_cons_of_mem _ he)
      unfold applyElems
      split
      · rename_i e' y' he
        rw [he] at h1
        obtain ⟨i1, i2⟩ := told_applyElems X sigma v es y' hes
        refine ⟨fun x hx => ?_, by rw [List.map_cons, List.map_cons, i2, h1.2]; rfl⟩
        rcases List.mem_cons.1 hx with rfl | hx
        · exact h1.1.forget
        · exact i1 x hx
      · rename_i e' err he
        rw [he] at h1
        refine ⟨fun x hx => ?_, by rw [List.map_cons, List.map_cons, h1.2]; rfl⟩
        rcases List.mem_cons.1 hx with rfl | hx
        · exact h1.1.forget
        · exact (hes x hx).forget
      · rename_i e' he
        rw [he] at h1
        refine ⟨fun x hx => ?_, by rw [List.map_cons, List.map_cons, h1.2]; rfl⟩
        rcases List.mem_cons.1 hx with rfl | hx
        · exact h1.1.forget
        · exact (hes x hx).forget

theorem inv_step (X : Ext d) {m : Evaluator.Model d l} (nugget : ℝ) {g : Settings d} {s : State d l} (h : Inv m g s) (op : Op d) :
    Inv m (g.after op) (op.run X m nugget s) := by
  cases op with
  | points S G acc gacc =>
      refine ⟨rfl, rfl, ?_, ?_, rfl, rfl, fun w hw => by cases hw⟩
      · rw [← h.cs]
        show (List.map _ _).map _ = _
        rw [List.map_map]; rfl
      · intro e' he'
        obtain ⟨e, he, rfl⟩ := List.mem_map.1 he'
        exact (h.told e he).setPoints S G acc gacc
  | weights w =>
      refine ⟨h.mu, h.sigma, ?_, ?_, h.polyPoints, h.polyGrads, ?_⟩
      · rw [← h.cs]
        show (List.map _ _).map _ = _
        rw [List.map_map]; rfl
      · intro e' he'
        obtain ⟨e, he, rfl⟩ := List.mem_map.1 he'
        rw [h.mu]
        exact (h.told e he).setWeights w
      · intro w' hw'
        cases hw'
        show (fun t : Fin l => w (s.mu + d * s.sigma + t)) = _
        rw [h.mu, h.sigma]; rfl
  | evaluate =>
      obtain ⟨h1, h2⟩ := told_evalElems X s.mu s.sigma s.elems 0 h.told
      show Inv m g (evaluate X m s).1
      unfold evaluate
      split
      · rename_i es y he; rw [he] at h1 h2
        exact ⟨h.mu, h.sigma, h2.trans h.cs, h1, h.polyPoints, h.polyGrads, h.polyWeights⟩
      · rename_i es err he; rw [he] at h1 h2
        exact ⟨h.mu, h.sigma, h2.trans h.cs, h1, h.polyPoints, h.polyGrads, h.polyWeights⟩
      · rename_i es he; rw [he] at h1 h2
        exact ⟨h.mu, h.sigma, h2.trans h.cs, h1, h.polyPoints, h.polyGrads, h.polyWeights⟩
  | apply w =>
      obtain ⟨h1, h2⟩ := told_applyElems X s.sigma w s.elems (addAt 0 s.mu (fun n => w n * nugget) 0) h.told
      rw [← h.mu] at h1 h2
      show Inv m { g with weights := none } (apply X m nugget w s).1
      have hn : ∀ v, ({ g with weights := none } : Settings d).weights = some v → False := fun v hv => by cases hv
      unfold apply
      split
      · rename_i es y he; rw [he] at h1 h2
        exact ⟨h.mu, h.sigma, h2.trans h.cs, h1, h.polyPoints, h.polyGrads, fun v hv => (hn v hv).elim⟩
      · rename_i es err he; rw [he] at h1 h2
        exact ⟨h.mu, h.sigma, h2.trans h.cs, h1, h.polyPoints, h.polyGrads, fun v hv => (hn v hv).elim⟩
      · rename_i es he; rw [he] at h1 h2
        exact ⟨h.mu, h.sigma, h2.trans h.cs, h1, h.polyPoints, h.polyGrads, fun v hv => (hn v hv).elim⟩

theorem inv_history (X : Ext d) (m : Evaluator.Model d l) (nugget : ℝ) (ops : List (Op d)) :
    Inv m (settings ops) (history X m nugget ops) := by
  have key : ∀ (ops : List (Op d)) (g : Settings d) (s : State d l), Inv m g s →
      Inv m (ops.foldl Settings.after g) (ops.foldl (Op.run X m nugget) s) := by
    intro ops
    induction ops with
    | nil => intro g s h; exact h
    | cons op ops ih => intro g s h; exact ih _ _ (inv_step X nugget h op)
  refine key ops _ _ ⟨rfl, rfl, ?_, ?_, rfl, rfl, fun w hw => by cases hw⟩
  · show (List.map _ _).map _ = _
    rw [List.map_map]
    exact List.map_id _
  · intro e he
    obtain ⟨c, -, rfl⟩ := List.mem_map.1 he
    exact ⟨⟨⟨none, rfl, fun v hv => by cases hv⟩, fun h => by cases h⟩, ⟨⟨none, rfl, fun v hv => by cases hv⟩, fun h => by cases h⟩,
      ⟨⟨none, rfl, fun v hv => by cases hv⟩, fun h => by cases h⟩, ⟨⟨none, rfl, fun v hv => by cases hv⟩, fun h => by cases h⟩⟩

/-! ## sums -/

/-- What the four elementary evaluators of a covariance function return. -/
structure Returns (X : Ext d) (mu sigma : Nat) (e : Elem d) (A : Nat → ℝ) (B : Nat → Fin d → ℝ) : Prop where
  ex : ∃ (va : Nat → Fin 1 → ℝ) (vf : Nat → Fin 1 → ℝ) (vt : Nat → Fin d → ℝ) (vh : Nat → Fin d → ℝ),
    symResult X e.c .value e.a = .ok va ∧ result X.toExt e.c .gradient e.f = .ok vf ∧
    result X.toExt e.c .gradientT e.ft = .ok vt ∧ symResult X e.c .hessian e.h = .ok vh ∧
    (∀ n < mu, va n 0 + vf n 0 = A n) ∧ ∀ i < sigma, ∀ k, vt i k + vh i k = B i k

theorem evalElem_ok {X : Ext d} {mu sigma : Nat} {e : Elem d} {A : Nat → ℝ} {B : Nat → Fin d → ℝ} (h : Returns X mu sigma e A B)
    (y : Nat → ℝ) : ∃ e' y', evalElem X mu sigma e y = (e', .ok y') ∧ (∀ n < mu, y' n = y n + A n) ∧
      (∀ i < sigma, ∀ k : Fin d, y' (mu + (d * i + k)) = y (mu + (d * i + k)) + B i k) ∧ ∀ n, mu + d * sigma ≤ n → y' n = y n := by
  obtain ⟨va, vf, vt, vh, h1, h2, h3, h4, h5, h6⟩ := h.ex
  refine ⟨⟨e.c, e.a ++ [.evaluate], e.f ++ [.evaluate], e.ft ++ [.evaluate], e.h ++ [.evaluate]⟩,
    addAt mu (d * sigma) (flat vh) (addAt mu (d * sigma) (flat vt) (addAt 0 mu (flat vf) (addAt 0 mu (flat va) y))), ?_, ?_, ?_, ?_⟩
  · unfold evalElem
    rw [h1]; dsimp only
    rw [h2]; dsimp only
    rw [h3]; dsimp only
    rw [h4]
  · intro n hn
    have hlt : ¬ (mu ≤ n ∧ n < mu + d * sigma) := by omega
    have hin : 0 ≤ n ∧ n < 0 + mu := by omega
    simp only [addAt, if_neg hlt, if_pos hin, Nat.sub_zero, flat_one]
    rw [← h5 n hn]; ring
  · intro i hi k
    have hlt : mu ≤ mu + (d * i + k) ∧ mu + (d * i + k) < mu + d * sigma := by
      refine ⟨by omega, ?_⟩
      have : d * (i + 1) ≤ d * sigma := Nat.mul_le_mul_left d hi
      have hk := k.2
      rw [Nat.mul_add, Nat.mul_one] at this
      omega
    have hin : ¬ (0 ≤ mu + (d * i + k.val) ∧ mu + (d * i + k) < 0 + mu) := by omega
    simp only [addAt, if_pos hlt, if_neg hin, Nat.add_sub_cancel_left, flat_at]
    rw [← h6 i hi k]; ring
  · intro n hn
    have hlt : ¬ (mu ≤ n ∧ n < mu + d * sigma) := by omega
    have hin : ¬ (0 ≤ n ∧ n < 0 + mu) := by omega
    simp only [addAt, if_neg hlt, if_neg hin]

theorem evalElems_ok {X : Ext d} {mu sigma : Nat} (A : Cov d → Nat → ℝ) (B : Cov d → Nat → Fin d → ℝ) : ∀ (es : List (Elem d)),
    (∀ e ∈ es, Returns X mu sigma e (A e.c) (B e.c)) → ∀ y : Nat → ℝ, ∃ es' y', evalElems X mu sigma es y = (es', .ok y') ∧
      (∀ n < mu, y' n = y n + ((es.map Elem.c).map (fun c => A c n)).sum) ∧
      ∀ i < sigma, ∀ k : Fin d, y' (mu + (d * i + k)) = y (mu + (d * i + k)) + ((es.map Elem.c).map (fun c => B c i k)).sum
  | [], _, y => ⟨[], y, rfl, by simp, by simp⟩
  | e :: es, h, y => by
      obtain ⟨e', y1, h1, h2, h3, -⟩ := evalElem_ok (h e List.mem_cons_self) y
      obtain ⟨es', y2, h4, h5, h6⟩ := evalElems_ok A B es (fun e he => h e (List.mem_cons_of_mem _ he)) y1
      refine ⟨e' :: es', y2, ?_, fun n hn => ?_, fun i hi k => ?_⟩
      · unfold evalElems
        rw [h1]
        dsimp only
        rw [h4]
      · rw [h5 n hn, h2 n hn, List.map_cons, List.map_cons, List.sum_cons]; ring
      · rw [h6 i hi k, h3 i hi k, List.map_cons, List.map_cons, List.sum_cons]; ring

theorem applyElems_ok {X : Ext d} {mu sigma : Nat} (w : Nat → ℝ) (A : Cov d → Nat → ℝ) (B : Cov d → Nat → Fin d → ℝ) :
    ∀ (es : List (Elem d)), (∀ e ∈ es, Returns X mu sigma (e.setWeights w mu) (A e.c) (B e.c)) → ∀ y : Nat → ℝ,
      ∃ es' y', applyElems X mu sigma w es y = (es', .ok y') ∧
      (∀ n < mu, y' n = y n + ((es.map Elem.c).map (fun c => A c n)).sum) ∧
      (∀ i < sigma, ∀ k : Fin d, y' (mu + (d * i + k)) = y (mu + (d * i + k)) + ((es.map Elem.c).map (fun c => B c i k)).sum) ∧
      ∀ n, mu + d * sigma ≤ n → y' n = y n
  | [], _, y => ⟨[], y, rfl, by simp, by simp, by simp⟩
  | e :: es, h, y => by
      obtain ⟨e', y1, h1, h2, h3, h3'⟩ := evalElem_ok (h e List.mem_cons_self) y
      obtain ⟨es', y2, h4, h5, h6, h6'⟩ := applyElems_ok w A B es (fun e he => h e (List.mem_cons_of_mem _ he)) y1
      refine ⟨e' :: es', y2, ?_, fun n hn => ?_, fun i hi k => ?_, fun n hn => ?_⟩
      · unfold applyElems
        rw [h1]
        dsimp only
        rw [h4]
      · rw [h5 n hn, h2 n hn, List.map_cons, List.map_cons, List.sum_cons]; ring
      · rw [h6 i hi k, h3 i hi k, List.map_cons, List.map_cons, List.sum_cons]; ring
      · rw [h6' n hn, h3' n hn]

/-- What the elementary evaluators of one covariance function return when they have been told points and weights. -/
theorem returns_of_told {X : Ext d} (hX : X.toExt.Ok) {S G : List (Pos d)} {w : Nat → ℝ} {e : Elem d}
    (hc : Searchable X.toExt e.c) (h : e.Told true S G (some w)) (hS : S.length < 1024) (hG : G.length < 1024)
    (hf : AllFinite e.c S G S G) :
    Returns X S.length G.length e
      (fun n => ((S[n]?).map (fun t => total e.c .value S (segment w 0 1) t 0 + total e.c .gradient G (segment w S.length d) t 0)).getD 0)
      (fun i k => ((G[i]?).map (fun t => total e.c .gradientT S (segment w 0 1) t k +
        total e.c .hessian G (segment w S.length d) t k)).getD 0) := by
  have z2 : G.length * S.length < 1024 * 1024 := by nlinarith
  have z3 : S.length * G.length < 1024 * 1024 := by nlinarith
  have full : ∀ {kind : Kind} {P Q : List (Pos d)} {v : Nat → Fin (kind.km d) → ℝ} {calls : Calls d kind},
      Told true P Q (some v) calls → Fmm.settings calls = ⟨P, Q, some v⟩ := by
    intro kind P Q v calls ht
    obtain ⟨w', h1, h2⟩ := ht.settings
    rw [h1, h2 v rfl]
  have sfull : ∀ {kind : Kind} {P : List (Pos d)} {v : Nat → Fin (kind.km d) → ℝ} {calls : SCalls d kind},
      STold true P (some v) calls → FmmSym.settings calls = ⟨P, some v⟩ := by
    intro kind P v calls ht
    obtain ⟨w', h1, h2⟩ := ht.settings
    rw [h1, h2 v rfl]
  obtain ⟨va, a1, a2⟩ := symResult_ok hX e.c .value hc (sfull h.a) (h.a.points rfl) hS (fun _ _ _ _ => trivial)
  obtain ⟨vf, f1, f2⟩ := result_ok hX e.c .gradient hc (full h.f) (h.f.source rfl) z2 hf.sourceGrad
  obtain ⟨vt, t1, t2⟩ := result_ok hX e.c .gradientT hc (full h.ft) (h.ft.source rfl) z3 hf.targetGrad
  obtain ⟨vh, h1, h2⟩ := symResult_ok hX e.c .hessian hc (sfull h.h) (h.h.points rfl) hG hf.both
  refine ⟨va, vf, vt, vh, a1, f1, t1, h1, fun n hn => ?_, fun i hi k => ?_⟩
  · have ht : S[n]? = some S[n] := List.getElem?_eq_getElem hn
    rw [a2 n _ ht, f2 n _ ht, ht]; rfl
  · have ht : G[i]? = some G[i] := List.getElem?_eq_getElem hi
    rw [t2 i _ ht, h2 i _ ht, ht]; rfl

/-! ## C72 -/

/-- The sum of the covariance functions at a value point. -/
theorem value_sum (m : Evaluator.Model d l) {S G : List (Pos d)} (w : Nat → ℝ) (hf : ∀ c ∈ m.rbfs, AllFinite c S G S G) (i : Fin S.length) :
    (m.rbfs.map (fun c => ((S[i.val]?).map (fun t => total c .value S (segment w 0 1) t 0 +
      total c .gradient G (segment w S.length d) t 0)).getD 0)).sum =
    (m.rbfs.map (fun c => (∑ j : Fin S.length, w j * (rbfOf c).value (S.get i - S.get j)) +
      (∑ j : Fin G.length, ∑ k : Fin d, w (S.length + d * j + k) * (-((rbfOf c).gradient (S.get i - G.get j) k))))).sum := by
  congr 1
  apply List.map_congr_left
  intro c hc
  rw [List.getElem?_eq_getElem i.2, Option.map_some, Option.getD_some, total_value,
    total_gradient c G w S.length _ ((hf c hc).sourceGrad _ (List.getElem_mem i.2))]
  rfl

/-- The same for a component at a gradient point. -/
theorem gradient_sum (m : Evaluator.Model d l) {S G : List (Pos d)} (w : Nat → ℝ) (hf : ∀ c ∈ m.rbfs, AllFinite c S G S G)
    (i : Fin G.length) (k : Fin d) :
    (m.rbfs.map (fun c => ((G[i.val]?).map (fun t => total c .gradientT S (segment w 0 1) t k +
      total c .hessian G (segment w S.length d) t k)).getD 0)).sum =
    (m.rbfs.map (fun c => (∑ j : Fin S.length, w j * (rbfOf c).gradient (G.get i - S.get j) k) +
      (∑ j : Fin G.length, ∑ t : Fin d, w (S.length + d * j + t) * (-((rbfOf c).hessian (G.get i - G.get j) t k))))).sum := by
  congr 1
  apply List.map_congr_left
  intro c hc
  rw [List.getElem?_eq_getElem i.2, Option.map_some, Option.getD_some,
    total_gradientT c S w _ ((hf c hc).targetGrad _ (List.getElem_mem i.2)),
    total_hessian c G w S.length _ ((hf c hc).both _ (List.getElem_mem i.2))]
  rfl

theorem polyEntry_value (m : Evaluator.Model d l) (S G : List (Pos d)) (i : Fin S.length) (t : Fin l) :
    polyEntry m S G i t = m.polyValue (S.get i) t := by
  unfold polyEntry
  rw [if_pos i.2, List.getElem?_eq_getElem i.2]; rfl

theorem polyEntry_gradient (m : Evaluator.Model d l) (S G : List (Pos d)) (i : Fin G.length) (k : Fin d) (t : Fin l) :
    polyEntry m S G (S.length + (d * i + k)) t = m.polyGradient (G.get i) k t := by
  have hd : 0 < d := by have := k.2; omega
  unfold polyEntry
  rw [if_neg (by omega), dif_pos hd]
  have h1 : (S.length + (d * i.val + k.val) - S.length) / d = i := by
    rw [Nat.add_sub_cancel_left, Nat.mul_add_div hd, Nat.div_eq_of_lt k.2, Nat.add_zero]
  have h2 : (⟨(S.length + (d * i.val + k.val) - S.length) % d, Nat.mod_lt _ hd⟩ : Fin d) = k := by
    apply Fin.ext
    show (S.length + (d * i.val + k.val) - S.length) % d = k
    rw [Nat.add_sub_cancel_left, Nat.mul_add_mod, Nat.mod_eq_of_lt k.2]
  rw [h2, h1, List.getElem?_eq_getElem i.2]; rfl

theorem sum_blocks (sigma : Nat) (f : Nat → ℝ) :
    ∑ n ∈ Finset.range (d * sigma), f n = ∑ i : Fin sigma, ∑ k : Fin d, f (d * i + k) := by
  induction sigma with
  | zero => simp
  | succ s ih =>
      rw [Nat.mul_succ, Finset.sum_range_add, ih, Fin.sum_univ_castSucc, Finset.sum_range]
      rfl

/-- C72: whatever calls came before, the operator applied to a vector of weights gives the product of the matrix of the interpolation
problem (with nugget and polynomial) and that vector, as long as sizes are below the threshold of the fast method, the search radius
is not rounded down and no derivative in the matrix is infinite.  It does not depend on earlier weights, nor on earlier exceptions. -/
theorem C72_operator {X : Ext d} (hX : X.toExt.Ok) (m : Evaluator.Model d l) (nugget : ℝ) (hm : ∀ c ∈ m.rbfs, Searchable X.toExt c)
    (ops : List (Op d)) {S G : List (Pos d)} {w0 : Option (Nat → ℝ)} (hs : settings ops = ⟨true, S, G, w0⟩)
    (hS : S.length < 1024) (hG : G.length < 1024) (hf : ∀ c ∈ m.rbfs, AllFinite c S G S G) (w : Nat → ℝ) :
    ∃ y, (apply X m nugget w (history X m nugget ops)).2 = .ok y ∧
      (∀ i : Fin S.length, y i =
        DirectOp.opValue (toDirect m nugget) ⟨S.get, G.get⟩ (weightsOf w S.length G.length) i) ∧
      (∀ (i : Fin G.length) (k : Fin d), y (S.length + (d * i + k)) =
        DirectOp.opGradient (toDirect m nugget) ⟨S.get, G.get⟩ (weightsOf w S.length G.length) i k) ∧
      ∀ t : Fin l, y (S.length + d * G.length + t) =
        DirectOp.opPoly (toDirect m nugget) ⟨S.get, G.get⟩ (weightsOf w S.length G.length) t := by
  have inv := inv_history X m nugget ops
  rw [hs] at inv
  generalize history X m nugget ops = s at inv
  obtain ⟨imu, isigma, ics, itold, ipp, ipg, -⟩ := inv
  dsimp only at imu isigma ics itold ipp ipg
  obtain ⟨es', y, e1, e2, e3, e4⟩ := applyElems_ok (X := X) (mu := S.length) (sigma := G.length) w
    (fun c n => ((S[n]?).map (fun t => total c .value S (segment w 0 1) t 0 + total c .gradient G (segment w S.length d) t 0)).getD 0)
    (fun c i k => ((G[i]?).map (fun t => total c .gradientT S (segment w 0 1) t k +
        total c .hessian G (segment w S.length d) t k)).getD 0) s.elems
    (fun e he => returns_of_told (e := e.setWeights w S.length) hX (hm e.c (by rw [← ics]; exact List.mem_map_of_mem he))
      ((itold e he).setWeights w) hS hG (hf e.c (by rw [← ics]; exact List.mem_map_of_mem he)))
    (addAt 0 S.length (fun n => w n * nugget) 0)
  rw [ics] at e2 e3
  refine ⟨if 0 < l then addPoly m s w y else y, ?_, fun i => ?_, fun i k => ?_, fun t => ?_⟩
  · unfold apply
    rw [imu, isigma, e1]
  · have hv := e2 i i.2
    rw [value_sum m w hf i] at hv
    have h0 : addAt 0 S.length (fun n => w n * nugget) 0 i.val = w i * nugget := by
      unfold addAt
      rw [if_pos (by have := i.2; omega)]; simp
    rw [h0] at hv
    have hp : (if 0 < l then addPoly m s w y else y) i = y i + ∑ t : Fin l, m.polyValue (S.get i) t * w (S.length + d * G.length + t) := by
      split
      · unfold addPoly
        rw [imu, isigma, ipp, ipg]
        have hi := i.2
        simp only [addAt]
        rw [if_neg (by omega), if_pos (by omega)]
        simp only [Nat.sub_zero, polyEntry_value]
      · rename_i hl
        rw [Finset.sum_eq_zero fun t _ => by have := t.2; omega, add_zero]
    rw [hp, hv]
    unfold DirectOp.opValue toDirect weightsOf
    dsimp only
    rw [List.map_map]
    rfl
  · have hv := e3 i i.2 k
    rw [gradient_sum m w hf i k] at hv
    have h0 : addAt 0 S.length (fun n => w n * nugget) 0 (S.length + (d * i.val + k.val)) = 0 := by
      unfold addAt
      rw [if_neg (by omega)]; rfl
    rw [h0, zero_add] at hv
    have hin : d * i.val + k.val < d * G.length := by
      have : d * (i.val + 1) ≤ d * G.length := Nat.mul_le_mul_left d i.2
      have hk := k.2
      rw [Nat.mul_add, Nat.mul_one] at this
      omega
    have hp : (if 0 < l then addPoly m s w y else y) (S.length + (d * i + k)) = y (S.length + (d * i + k)) +
        ∑ t : Fin l, m.polyGradient (G.get i) k t * w (S.length + d * G.length + t) := by
      split
      · unfold addPoly
        rw [imu, isigma, ipp, ipg]
        simp only [addAt]
        rw [if_neg (by omega), if_pos (by omega)]
        simp only [Nat.sub_zero, polyEntry_gradient]
      · rename_i hl
        rw [Finset.sum_eq_zero fun t _ => by have := t.2; omega, add_zero]
    rw [hp, hv]
    unfold DirectOp.opGradient toDirect weightsOf
    dsimp only
    rw [List.map_map]
    rfl
  · have hl : 0 < l := by have := t.2; omega
    have ht := t.2
    have h0 : addAt 0 S.length (fun n => w n * nugget) 0 (S.length + d * G.length + t) = 0 := by
      unfold addAt
      rw [if_neg (by omega)]; rfl
    have hv := e4 (S.length + d * G.length + t) (by omega)
    rw [h0] at hv
    rw [if_pos hl]
    unfold addPoly
    rw [imu, isigma, ipp, ipg]
    simp only [addAt]
    rw [if_pos (by omega), if_neg (by omega), hv, zero_add, Nat.add_sub_cancel_left, dif_pos ht,
      Finset.sum_range_add, Finset.sum_range, sum_blocks]
    unfold DirectOp.opPoly toDirect weightsOf
    dsimp only
    simp only [polyEntry_value, polyEntry_gradient, Fin.eta, Nat.add_assoc]

/-- C72: the symmetric evaluator gives, at its own points, what an evaluator with the same source and target points gives, if the weights
were set after the points. -/
theorem C72_symmetric_evaluator {X : Ext d} (hX : X.toExt.Ok) (m : Evaluator.Model d l) (nugget : ℝ)
    (hm : ∀ c ∈ m.rbfs, Searchable X.toExt c) (ops : List (Op d)) {S G : List (Pos d)} {w : Nat → ℝ}
    (hs : settings ops = ⟨true, S, G, some w⟩) (hS : S.length < 1024) (hG : G.length < 1024) (hf : ∀ c ∈ m.rbfs, AllFinite c S G S G) :
    ∃ y, (evaluate X m (history X m nugget ops)).2 = .ok y ∧
      (∀ i : Fin S.length, y i =
        DirectOp.evalValue (toDirect m nugget) ⟨S.get, G.get⟩ ⟨S.get, G.get⟩ (weightsOf w S.length G.length) i) ∧
      ∀ (i : Fin G.length) (k : Fin d), y (S.length + (d * i + k)) =
        DirectOp.evalGradient (toDirect m nugget) ⟨S.get, G.get⟩ ⟨S.get, G.get⟩ (weightsOf w S.length G.length) i k := by
  have inv := inv_history X m nugget ops
  rw [hs] at inv
  generalize history X m nugget ops = s at inv
  obtain ⟨imu, isigma, ics, itold, ipp, ipg, ipw⟩ := inv
  dsimp only at imu isigma ics itold ipp ipg ipw
  have hpw := ipw w rfl
  obtain ⟨es', y, e1, e2, e3⟩ := evalElems_ok (X := X) (mu := S.length) (sigma := G.length)
    (fun c n => ((S[n]?).map (fun t => total c .value S (segment w 0 1) t 0 + total c .gradient G (segment w S.length d) t 0)).getD 0)
    (fun c i k => ((G[i]?).map (fun t => total c .gradientT S (segment w 0 1) t k +
        total c .hessian G (segment w S.length d) t k)).getD 0) s.elems
    (fun e he => returns_of_told hX (hm e.c (by rw [← ics]; exact List.mem_map_of_mem he))
      (itold e he) hS hG (hf e.c (by rw [← ics]; exact List.mem_map_of_mem he))) 0
  rw [ics] at e2 e3
  refine ⟨if 0 < l then (fun n => y n + ∑ t, polyEntry m s.polyPoints s.polyGrads n t * s.polyWeights t) else y, ?_, fun i => ?_,
    fun i k => ?_⟩
  · unfold evaluate
    rw [imu, isigma, e1]
  · have hv := e2 i i.2
    rw [value_sum m w hf i, Pi.zero_apply, zero_add] at hv
    have hp : (if 0 < l then (fun n => y n + ∑ t, polyEntry m s.polyPoints s.polyGrads n t * s.polyWeights t) else y) i =
        y i + ∑ t : Fin l, m.polyValue (S.get i) t * w (S.length + d * G.length + t) := by
      split
      · simp only [ipp, ipg, hpw, polyEntry_value]
      · rename_i hl
        rw [Finset.sum_eq_zero fun t _ => by have := t.2; omega, add_zero]
    rw [hp, hv]
    unfold DirectOp.evalValue toDirect weightsOf
    dsimp only
    rw [List.map_map]
    rfl
  · have hv := e3 i i.2 k
    rw [gradient_sum m w hf i k, Pi.zero_apply, zero_add] at hv
    have hp : (if 0 < l then (fun n => y n + ∑ t, polyEntry m s.polyPoints s.polyGrads n t * s.polyWeights t) else y)
        (S.length + (d * i + k)) = y (S.length + (d * i + k)) +
        ∑ t : Fin l, m.polyGradient (G.get i) k t * w (S.length + d * G.length + t) := by
      split
      · simp only [ipp, ipg, hpw, polyEntry_gradient]
      · rename_i hl
        rw [Finset.sum_eq_zero fun t _ => by have := t.2; omega, add_zero]
    rw [hp, hv]
    unfold DirectOp.evalGradient toDirect weightsOf
    dsimp only
    rw [List.map_map]
    rfl

/-- C72: beyond that size, the values of an elementary symmetric evaluator are those of the fast method, for the latest points and weights
in some order, with the self interaction added and read at the indices the points were given with. -/
theorem C72_fast_regime {X : Ext d} (hX : X.toExt.Ok) (c : Cov d) (kind : Kind) (h : c.k ≠ .spherical ∧ c.k ≠ .cubic)
    {calls : SCalls d kind} {S : List (Pos d)} {w : Nat → Fin (kind.km d) → ℝ} (hs : FmmSym.settings calls = ⟨S, some w⟩)
    {v : Nat → Fin (kind.kn d) → ℝ} (hv : fmmResult X c kind calls = .ok v) :
    (∀ n t, S[n]? = some t → v n = total c kind S w t) ∨
    ∃ cfg H ps, ps.Perm (S.zipIdx.map (fun p => (⟨c.a.mulVec p.1, w p.2, p.2⟩ : Fmm.Src (Pos d) (kind.km d)))) ∧
      v = Fmm.potentials ((X.fastSym c kind cfg H ps).map (fun p =>
        (⟨p.1.pos, fun i => p.2 i + ∑ j, p.1.inputs j * block c kind 0 0 i j, p.1.idx⟩ : Fmm.Trg (Pos d) (kind.kn d)))) :=
  FmmSym.fast_regime (env_ok hX c kind h) (fun x => block_self c kind x) calls hs hv

/-- C72: the Hessian of a spherical or cubic function is not implemented, so a single gradient point makes the operator throw. -/
theorem C72_hessian_throws {X : Ext d} (hX : X.toExt.Ok) (m : Evaluator.Model d l) (nugget : ℝ) (c : Cov d) (hm : m.rbfs = [c])
    (hk : c.k = .spherical ∨ c.k = .cubic) (hc : Searchable X.toExt c) (S : List (Pos d)) (g : Pos d) (acc gacc : Option EReal)
    (w : Nat → ℝ) :
    (apply X m nugget w (history X m nugget [.points S [g] acc gacc])).2 = .throws .runtimeError := by
  have hq : 0 < c.q ∧ c.q * c.q ≤ X.round (c.q * c.q) := by
    unfold Searchable at hc
    rcases hk with h | h <;> rw [h] at hc <;> exact hc
  have hr : supportRadius c.k c.q = some c.q := by rcases hk with h | h <;> rw [h] <;> rfl
  have hsym : ∀ kind calls, symResult X c kind calls = directResult X c kind calls := by
    intro kind calls; unfold symResult; rcases hk with h | h <;> rw [h]
  have hres : ∀ kind calls, result X.toExt c kind calls = Evaluator.directResult X.toExt c kind calls := by
    intro kind calls; unfold result; rcases hk with h | h <;> rw [h]
  obtain ⟨va, a1, -⟩ := directResult_ok hX c .value hq.1 hr hq.2
    (calls := [.points S, .accuracy acc, .weights (segment w 0 1)]) rfl rfl (fun _ => selfKernel_ok c .value (Or.inl (by decide)))
  obtain ⟨vf, f1, -⟩ := Evaluator.directResult_ok hX c .gradient hq.1 hr hq.2
    (calls := [.source [g], .target S, .accuracy acc, .weights (segment w S.length d)]) rfl rfl
  obtain ⟨vt, t1, -⟩ := Evaluator.directResult_ok hX c .gradientT hq.1 hr hq.2
    (calls := [.source S, .target [g], .accuracy gacc, .weights (segment w 0 1)]) rfl rfl
  have h1 : directResult X c .hessian [.points [g], .accuracy gacc, .weights (segment w S.length d)] = .throws .runtimeError := by
    have hself : selfKernel c .hessian = .throws .runtimeError := by
      unfold selfKernel entries Cov.hessIso
      rcases hk with h | h <;> rw [h] <;> rfl
    have hoth : ∀ found : List Nat, (∀ j ∈ found, j < 1) →
        Direct.others c .hessian ⟨[(c.a.mulVec g, segment w S.length d 0)], some [c.a.mulVec g]⟩ (c.a.mulVec g) 0 found = .ok 0 := by
      intro found hfound
      unfold Direct.others
      rw [others_fold _ _ _ _ _ _ (by simpa using hfound)]
      congr 1
      funext i
      have : found.filter (fun j => decide (j ≠ 0)) = [] := by
        rw [List.filter_eq_nil_iff]
        intro j hj
        have := hfound j hj
        simp; omega
      rw [this]; simp
    have hst : ([.points [g], .accuracy gacc, .weights (segment w S.length d)] : SCalls d .hessian).foldl (Direct.step c) ⟨[], none⟩ =
        ⟨[(c.a.mulVec g, segment w S.length d 0)], some [c.a.mulVec g]⟩ := rfl
    unfold directResult
    rw [hst]
    unfold Direct.evaluate
    dsimp only
    have hfound : ∀ j ∈ X.search [c.a.mulVec g] (c.a.mulVec g) (bound X.toExt c), j < 1 := by
      intro j hj
      obtain ⟨q, hq1, -⟩ := (hX.search _ _ _ _).1 hj
      have := (List.getElem?_eq_some_iff.1 hq1).1
      simpa using this
    simp only [List.zipIdx_cons, List.zipIdx_nil, Outcome.traverse]
    rw [hoth _ hfound, Outcome.ok_bind, Outcome.ok_bind, Outcome.pure_eq, Outcome.ok_bind]
    unfold selfOutcome
    rw [if_neg (by simp), hself]
    rfl
  have hst : history X m nugget [.points S [g] acc gacc] =
      ⟨S.length, 1, [⟨c, [.points S, .accuracy acc], [.source [g], .target S, .accuracy acc], [.source S, .target [g], .accuracy gacc],
        [.points [g], .accuracy gacc]⟩], S, [g], 0⟩ := by
    unfold history
    simp only [List.foldl_cons, List.foldl_nil, Op.run, setPoints, State.new, hm]
    rfl
  rw [hst]
  unfold apply
  dsimp only
  simp only [applyElems, evalElem, Elem.setWeights, List.cons_append, List.nil_append]
  rw [hsym, a1]
  dsimp only
  rw [hres, f1]
  dsimp only
  rw [hres, t1]
  dsimp only
  rw [hsym, h1]

/-! ## an example -/

/-- The parts that are not modelled, see `Evaluator.plain`. -/
noncomputable def plain : Ext d :=
  { toExt := Evaluator.plain
    findSym := fun _ _ _ _ _ _ => .throws .runtimeError
    fastSym := fun _ _ _ _ _ _ _ => [] }

/-- A Gaussian covariance function in one dimension, and the constant polynomial. -/
noncomputable def one : Evaluator.Model 1 1 := ⟨[⟨.gaussian, 1, 1, 1⟩], fun _ _ => 1, fun _ _ _ => 0⟩

theorem one_finite (S G : List (Pos 1)) : ∀ c ∈ one.rbfs, AllFinite c S G S G := by
  intro c hc
  rw [List.mem_singleton.1 hc]
  exact ⟨fun t _ q _ => ⟨_, rfl⟩, fun t _ q _ => ⟨_, rfl⟩, fun t _ q _ => ⟨_, rfl⟩⟩

/-- The hypotheses of `C72_operator` are met: two value points and a gradient point, after an application on other points. -/
example : ∃ y, (apply plain one 5 (fun n => n) (history plain one 5 [.points [0] [] none none, .apply (fun _ => 7),
      .points [0, 2] [1] none none])).2 = .ok y ∧
    ∀ t : Fin 1, y (2 + 1 * 1 + t) = DirectOp.opPoly (toDirect one 5) (⟨[0, 2].get, [1].get⟩ : DirectOp.Pts 1 2 1)
      (weightsOf (fun n => n) 2 1) t := by
  obtain ⟨y, h1, -, -, h2⟩ := C72_operator (X := plain) plain_ok one 5 (fun c hc => by rw [List.mem_singleton.1 hc]; trivial)
    [.points [0] [] none none, .apply (fun _ => 7), .points [0, 2] [1] none none] (S := [0, 2]) (G := [1]) rfl (by norm_num) (by norm_num)
    (one_finite _ _) (fun n => n)
  exact ⟨y, h1, h2⟩

/-- The hypotheses of `C72_symmetric_evaluator` are met. -/
example : ∃ y, (evaluate plain one (history plain one 0 [.points [0, 2] [1] none none, .weights (fun n => n), .evaluate])).2 = .ok y := by
  obtain ⟨y, h1, -⟩ := C72_symmetric_evaluator (X := plain) plain_ok one 0 (fun c hc => by rw [List.mem_singleton.1 hc]; trivial)
    [.points [0, 2] [1] none none, .weights (fun n => n), .evaluate] (S := [0, 2]) (G := [1]) rfl (by norm_num) (by norm_num)
    (one_finite _ _)
  exact ⟨y, h1⟩

/-- The hypotheses of `C72_hessian_throws` are met. -/
example : (apply plain (⟨[⟨.spherical, 1, 2, 1⟩], fun _ _ => 1, fun _ _ _ => 0⟩ : Evaluator.Model 1 1) 0 (fun n => n)
    (history plain ⟨[⟨.spherical, 1, 2, 1⟩], fun _ _ => 1, fun _ _ _ => 0⟩ 0 [.points [0, 2] [1] none none])).2 = .throws .runtimeError :=
  C72_hessian_throws (X := plain) plain_ok _ 0 ⟨.spherical, 1, 2, 1⟩ rfl (Or.inl rfl) ⟨by norm_num, le_refl _⟩ [0, 2] 1 none none _

end Verif.Operator
