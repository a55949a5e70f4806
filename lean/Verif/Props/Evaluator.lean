import Verif.Lemmas.Evaluator
import Mathlib.Algebra.BigOperators.Fin
import Mathlib.Tactic.NormNum

/-!
# C71: the evaluator of a model returns the value and the gradient of the interpolant
-/

namespace Verif.Evaluator

open Verif FmmKernel Kernel

variable {d l : Nat}

/-- What the calls so far have set. -/
structure Settings (d : Nat) where
  sourced : Bool
  source : List (Pos d)
  sourceGrads : List (Pos d)
  target : List (Pos d)
  targetGrads : List (Pos d)
  /-- the weights, if they were set after the latest source points -/
  weights : Option (Nat → ℝ)

/-- The settings after a call. -/
def Settings.after (g : Settings d) : Op d → Settings d
  | .source S G _ _ => { g with sourced := true, source := S, sourceGrads := G, weights := none }
  | .target T TG => { g with target := T, targetGrads := TG }
  | .weights w => { g with weights := some w }
  | .evaluate => g

/-- The settings after some calls on a new evaluator. -/
def settings (ops : List (Op d)) : Settings d := ops.foldl Settings.after ⟨false, [], [], [], [], none⟩

/-- What an elementary evaluator has been told. -/
structure Told {kind : Kind} (sourced : Bool) (S T : List (Pos d)) (w : Option (Nat → Fin (kind.km d) → ℝ)) (calls : Calls d kind) :
    Prop where
  settings : Fmm.settings calls = ⟨S, T, w⟩
  source : sourced = true → calls.any isSource = true

/-- What holds between calls. -/
structure Inv (m : Model d l) (g : Settings d) (s : State d l) : Prop where
  mu : s.mu = g.source.length
  sigma : s.sigma = g.sourceGrads.length
  trgMu : s.trgMu = g.target.length
  trgSigma : s.trgSigma = g.targetGrads.length
  cs : s.elems.map Elem.c = m.rbfs
  a : ∀ e ∈ s.elems, Told (kind := .value) g.sourced g.source g.target (g.weights.map (fun w => segment w 0 1)) e.a
  f : ∀ e ∈ s.elems, Told (kind := .gradient) g.sourced g.sourceGrads g.target (g.weights.map (fun w => segment w g.source.length d)) e.f
  ft : ∀ e ∈ s.elems, Told (kind := .gradientT) g.sourced g.source g.targetGrads (g.weights.map (fun w => segment w 0 1)) e.ft
  h : ∀ e ∈ s.elems, Told (kind := .hessian) g.sourced g.sourceGrads g.targetGrads
    (g.weights.map (fun w => segment w g.source.length d)) e.h
  polyPoints : s.polyPoints = g.target
  polyGrads : s.polyGrads = g.targetGrads
  polyWeights : ∀ w, g.weights = some w → s.polyWeights = fun t : Fin l => w (g.source.length + d * g.sourceGrads.length + t)

theorem Told.step {kind : Kind} {b b' : Bool} {S T S' T' : List (Pos d)} {w w' : Option (Nat → Fin (kind.km d) → ℝ)}
    {calls : Calls d kind} (h : Told b S T w calls) (more : Calls d kind)
    (hs : more.foldl Fmm.Settings.after ⟨S, T, w⟩ = ⟨S', T', w'⟩) (hb : b' = true → b = true ∨ more.any isSource = true) :
    Told b' S' T' w' (calls ++ more) := by
  constructor
  · unfold Fmm.settings
    rw [List.foldl_append]
    have := h.settings
    unfold Fmm.settings at this
    rw [this, hs]
  · intro hb'
    rw [List.any_append, Bool.or_eq_true]
    rcases hb hb' with h1 | h1
    · exact Or.inl (h.source h1)
    · exact Or.inr h1

/-- The calls of an elementary evaluator during `evaluate`. -/
structure Called (e e' : Elem d) : Prop where
  c : e'.c = e.c
  a : ∃ more : Calls d .value, e'.a = e.a ++ more ∧ more ⊆ [.evaluate]
  f : ∃ more : Calls d .gradient, e'.f = e.f ++ more ∧ more ⊆ [.evaluate]
  ft : ∃ more : Calls d .gradientT, e'.ft = e.ft ++ more ∧ more ⊆ [.evaluate]
  h : ∃ more : Calls d .hessian, e'.h = e.h ++ more ∧ more ⊆ [.evaluate]

theorem Called.refl (e : Elem d) : Called e e :=
  ⟨rfl, ⟨[], by simp⟩, ⟨[], by simp⟩, ⟨[], by simp⟩, ⟨[], by simp⟩⟩

theorem called_evalElem (X : Ext d) (mu sigma : Nat) (e : Elem d) (y : Nat → ℝ) : Called e (evalElem X mu sigma e y).1 := by
  have yes : ∀ {kind : Kind} (c : Calls d kind), ∃ more : Calls d kind, c ++ [.evaluate] = c ++ more ∧ more ⊆ [.evaluate] :=
    fun c => ⟨[.evaluate], rfl, fun _ h => h⟩
  have no : ∀ {kind : Kind} (c : Calls d kind), ∃ more : Calls d kind, c = c ++ more ∧ more ⊆ [.evaluate] :=
    fun c => ⟨[], by simp⟩
  unfold evalElem
  split
  · exact ⟨rfl, yes _, no _, no _, no _⟩
  · exact ⟨rfl, yes _, no _, no _, no _⟩
  · split
    · exact ⟨rfl, yes _, yes _, no _, no _⟩
    · exact ⟨rfl, yes _, yes _, no _, no _⟩
    · split
      · exact ⟨rfl, yes _, yes _, yes _, no _⟩
      · exact ⟨rfl, yes _, yes _, yes _, no _⟩
      · dsimp only
        split <;> exact ⟨rfl, yes _, yes _, yes _, yes _⟩

theorem called_evalElems (X : Ext d) (mu sigma : Nat) : ∀ (es : List (Elem d)) (y : Nat → ℝ),
    List.Forall₂ Called es (evalElems X mu sigma es y).1
  | [], _ => .nil
  | e :: es, y => by
      have h := called_evalElem X mu sigma e y
      have same : ∀ es : List (Elem d), List.Forall₂ Called es es := fun es => by
        induction es with
        | nil => exact .nil
        | cons e es ih => exact .cons (Called.refl e) ih
      unfold evalElems
      split
      · rename_i e' y' he
        rw [he] at h
        exact .cons h (called_evalElems X mu sigma es y')
      · rename_i e' err he
        rw [he] at h
        exact .cons h (same es)
      · rename_i e' he
        rw [he] at h
        exact .cons h (same es)

theorem told_called {kind : Kind} {b : Bool} {S T : List (Pos d)} {w : Option (Nat → Fin (kind.km d) → ℝ)} {calls calls' : Calls d kind}
    (h : Told b S T w calls) (hc : ∃ more : Calls d kind, calls' = calls ++ more ∧ more ⊆ [.evaluate]) : Told b S T w calls' := by
  obtain ⟨more, rfl, hm⟩ := hc
  refine h.step more ?_ Or.inl
  have : ∀ (more : Calls d kind) (g : Fmm.Settings (Pos d) (kind.km d)), more ⊆ [.evaluate] → more.foldl Fmm.Settings.after g = g := by
    intro more
    induction more with
    | nil => intro g _; rfl
    | cons op more ih =>
        intro g hsub
        have hop : op = .evaluate := by simpa using hsub List.mem_cons_self
        rw [List.foldl_cons, hop]
        exact ih g (fun x hx => hsub (List.mem_cons_of_mem _ hx))
  exact this more _ hm

theorem inv_elems {m : Model d l} {g : Settings d} {s : State d l} (h : Inv m g s) {es : List (Elem d)}
    (hc : List.Forall₂ Called s.elems es) : Inv m g { s with elems := es } := by
  have hmap : es.map Elem.c = s.elems.map Elem.c := by
    clear h
    generalize s.elems = es0 at hc
    induction hc with
    | nil => rfl
    | cons h1 _ ih => rw [List.map_cons, List.map_cons, ih, h1.c]
  have hex : ∀ e' ∈ es, ∃ e ∈ s.elems, Called e e' := by
    clear h hmap
    generalize s.elems = es0 at hc
    induction hc with
    | nil => intro e' h; cases h
    | cons h1 _ ih =>
        intro e' he'
        rcases List.mem_cons.1 he' with rfl | he'
        · exact ⟨_, List.mem_cons_self, h1⟩
        · obtain ⟨e, he, hh⟩ := ih e' he'
          exact ⟨e, List.mem_cons_of_mem _ he, hh⟩
  refine ⟨h.mu, h.sigma, h.trgMu, h.trgSigma, hmap.trans h.cs, fun e' he' => ?_, fun e' he' => ?_, fun e' he' => ?_, fun e' he' => ?_,
    h.polyPoints, h.polyGrads, h.polyWeights⟩
  · obtain ⟨e, he, hh⟩ := hex e' he'; exact told_called (h.a e he) hh.a
  · obtain ⟨e, he, hh⟩ := hex e' he'; exact told_called (h.f e he) hh.f
  · obtain ⟨e, he, hh⟩ := hex e' he'; exact told_called (h.ft e he) hh.ft
  · obtain ⟨e, he, hh⟩ := hex e' he'; exact told_called (h.h e he) hh.h

theorem inv_step (X : Ext d) {m : Model d l} {g : Settings d} {s : State d l} (h : Inv m g s) (op : Op d) :
    Inv m (g.after op) (op.run X m s) := by
  cases op with
  | source S G acc gacc =>
      refine ⟨rfl, rfl, h.trgMu, h.trgSigma, ?_, ?_, ?_, ?_, ?_, h.polyPoints, h.polyGrads, fun w hw => by cases hw⟩
      · rw [← h.cs]
        show (List.map _ _).map _ = _
        rw [List.map_map]; rfl
      all_goals
        intro e' he'
        obtain ⟨e, he, rfl⟩ := List.mem_map.1 he'
      · exact (h.a e he).step _ rfl (fun _ => Or.inr rfl)
      · exact (h.f e he).step _ rfl (fun _ => Or.inr rfl)
      · exact (h.ft e he).step _ rfl (fun _ => Or.inr rfl)
      · exact (h.h e he).step _ rfl (fun _ => Or.inr rfl)
  | target T TG =>
      refine ⟨h.mu, h.sigma, rfl, rfl, ?_, ?_, ?_, ?_, ?_, rfl, rfl, h.polyWeights⟩
      · rw [← h.cs]
        show (List.map _ _).map _ = _
        rw [List.map_map]; rfl
      all_goals
        intro e' he'
        obtain ⟨e, he, rfl⟩ := List.mem_map.1 he'
      · exact (h.a e he).step _ rfl Or.inl
      · exact (h.f e he).step _ rfl Or.inl
      · exact (h.ft e he).step _ rfl Or.inl
      · exact (h.h e he).step _ rfl Or.inl
  | weights w =>
      refine ⟨h.mu, h.sigma, h.trgMu, h.trgSigma, ?_, ?_, ?_, ?_, ?_, h.polyPoints, h.polyGrads, ?_⟩
      · rw [← h.cs]
        show (List.map _ _).map _ = _
        rw [List.map_map]; rfl
      · intro e' he'
        obtain ⟨e, he, rfl⟩ := List.mem_map.1 he'
        exact (h.a e he).step _ rfl Or.inl
      · intro e' he'
        obtain ⟨e, he, rfl⟩ := List.mem_map.1 he'
        exact (h.f e he).step _ (by rw [h.mu]; rfl) Or.inl
      · intro e' he'
        obtain ⟨e, he, rfl⟩ := List.mem_map.1 he'
        exact (h.ft e he).step _ rfl Or.inl
      · intro e' he'
        obtain ⟨e, he, rfl⟩ := List.mem_map.1 he'
        exact (h.h e he).step _ (by rw [h.mu]; rfl) Or.inl
      · intro w' hw'
        cases hw'
        show (fun t : Fin l => w (s.mu + d * s.sigma + t)) = _
        rw [h.mu, h.sigma]; rfl
  | evaluate =>
      have hc := called_evalElems X s.trgMu s.trgSigma s.elems 0
      show Inv m g (evaluate X m s).1
      unfold evaluate
      split
      · rename_i es y he; rw [he] at hc; exact inv_elems h hc
      · rename_i es err he; rw [he] at hc; exact inv_elems h hc
      · rename_i es he; rw [he] at hc; exact inv_elems h hc

theorem inv_history (X : Ext d) (m : Model d l) (ops : List (Op d)) : Inv m (settings ops) (history X m ops) := by
  have key : ∀ (ops : List (Op d)) (g : Settings d) (s : State d l), Inv m g s →
      Inv m (ops.foldl Settings.after g) (ops.foldl (Op.run X m) s) := by
    intro ops
    induction ops with
    | nil => intro g s h; exact h
    | cons op ops ih => intro g s h; exact ih _ _ (inv_step X h op)
  refine key ops _ _ ⟨rfl, rfl, rfl, rfl, ?_, ?_, ?_, ?_, ?_, rfl, rfl, fun w hw => by cases hw⟩
  · show (List.map _ _).map _ = _
    rw [List.map_map]
    exact List.map_id _
  all_goals
    intro e he
    obtain ⟨c, -, rfl⟩ := List.mem_map.1 he
    exact ⟨rfl, fun h => by cases h⟩

/-! ## sums -/

theorem flat_one (v : Nat → Fin 1 → ℝ) (n : Nat) : flat v n = v n 0 := by
  unfold flat
  rw [dif_pos Nat.one_pos]
  congr 1
  · exact Nat.div_one n
  · exact Subsingleton.elim _ _

theorem flat_at (v : Nat → Fin d → ℝ) (i : Nat) (k : Fin d) : flat v (d * i + k) = v i k := by
  have hd : 0 < d := by have := k.2; omega
  unfold flat
  rw [dif_pos hd]
  have h1 : (d * i + k) / d = i := by rw [Nat.mul_add_div hd, Nat.div_eq_of_lt k.2, Nat.add_zero]
  have h2 : (d * i + k.val) % d = k := by rw [Nat.mul_add_mod, Nat.mod_eq_of_lt k.2]
  have h3 : (⟨(d * i + k) % d, Nat.mod_lt _ hd⟩ : Fin d) = k := Fin.ext h2
  rw [h3, h1]

/-- What the four elementary evaluators of a covariance function return. -/
structure Returns (X : Ext d) (mu sigma : Nat) (e : Elem d) (A : Nat → ℝ) (B : Nat → Fin d → ℝ) : Prop where
  ex : ∃ (va : Nat → Fin 1 → ℝ) (vf : Nat → Fin 1 → ℝ) (vt : Nat → Fin d → ℝ) (vh : Nat → Fin d → ℝ),
    result X e.c .value e.a = .ok va ∧ result X e.c .gradient e.f = .ok vf ∧
    result X e.c .gradientT e.ft = .ok vt ∧ result X e.c .hessian e.h = .ok vh ∧
    (∀ n < mu, va n 0 + vf n 0 = A n) ∧ ∀ i < sigma, ∀ k, vt i k + vh i k = B i k

theorem evalElem_ok {X : Ext d} {mu sigma : Nat} {e : Elem d} {A : Nat → ℝ} {B : Nat → Fin d → ℝ} (h : Returns X mu sigma e A B)
    (y : Nat → ℝ) : ∃ e' y', evalElem X mu sigma e y = (e', .ok y') ∧ (∀ n < mu, y' n = y n + A n) ∧
      ∀ i < sigma, ∀ k : Fin d, y' (mu + (d * i + k)) = y (mu + (d * i + k)) + B i k := by
  obtain ⟨va, vf, vt, vh, h1, h2, h3, h4, h5, h6⟩ := h.ex
  refine ⟨⟨e.c, e.a ++ [.evaluate], e.f ++ [.evaluate], e.ft ++ [.evaluate], e.h ++ [.evaluate]⟩,
    addAt mu (d * sigma) (flat vh) (addAt mu (d * sigma) (flat vt) (addAt 0 mu (flat vf) (addAt 0 mu (flat va) y))), ?_, ?_, ?_⟩
  · unfold evalElem
    rw [h1]; dsimp only
    rw [h2]; dsimp only
    rw [h3]; dsimp only
    rw [h4]
  · intro n hn
    have hlt : ¬ (mu ≤ n ∧ n < mu + d * sigma) := by omega
    have hin : 0 ≤ n ∧ n < 0 + mu := by omega
    simp only [addAt, if_neg hlt, if_pos hin, Nat.sub_zero, flat_one]
    rw [← h5 n hn]; ring
  · intro i hi k
    have hlt : mu ≤ mu + (d * i + k) ∧ mu + (d * i + k) < mu + d * sigma := by
      refine ⟨by omega, ?_⟩
      have : d * (i + 1) ≤ d * sigma := Nat.mul_le_mul_left d hi
      have hk := k.2
      rw [Nat.mul_add, Nat.mul_one] at this
      omega
    have hin : ¬ (0 ≤ mu + (d * i + k.val) ∧ mu + (d * i + k) < 0 + mu) := by omega
    simp only [addAt, if_pos hlt, if_neg hin, Nat.add_sub_cancel_left, flat_at]
    rw [← h6 i hi k]; ring

theorem evalElems_ok {X : Ext d} {mu sigma : Nat} (A : Cov d → Nat → ℝ) (B : Cov d → Nat → Fin d → ℝ) : ∀ (es : List (Elem d)),
    (∀ e ∈ es, Returns X mu sigma e (A e.c) (B e.c)) → ∀ y : Nat → ℝ, ∃ es' y', evalElems X mu sigma es y = (es', .ok y') ∧
      (∀ n < mu, y' n = y n + ((es.map Elem.c).map (fun c => A c n)).sum) ∧
      ∀ i < sigma, ∀ k : Fin d, y' (mu + (d * i + k)) = y (mu + (d * i + k)) + ((es.map Elem.c).map (fun c => B c i k)).sum
  | [], _, y => ⟨[], y, rfl, by simp, by simp⟩
  | e :: es, h, y => by
      obtain ⟨e', y1, h1, h2, h3⟩ := evalElem_ok (h e List.mem_cons_self) y
      obtain ⟨es', y2, h4, h5, h6⟩ := evalElems_ok A B es (fun e he => h e (List.mem_cons_of_mem _ he)) y1
      refine ⟨e' :: es', y2, ?_, fun n hn => ?_, fun i hi k => ?_⟩
      · unfold evalElems
        rw [h1]
        dsimp only
        rw [h4]
      · rw [h5 n hn, h2 n hn, List.map_cons, List.map_cons, List.sum_cons]; ring
      · rw [h6 i hi k, h3 i hi k, List.map_cons, List.map_cons, List.sum_cons]; ring

theorem sum_zipIdx {α : Type*} (S : List α) (f : α × Nat → ℝ) : (S.zipIdx.map f).sum = ∑ j : Fin S.length, f (S.get j, j) := by
  have : S.zipIdx.map f = List.ofFn (fun j : Fin S.length => f (S.get j, j)) := by
    apply List.ext_getElem
    · simp
    · intro n h1 h2
      simp
  rw [this, List.sum_ofFn]

/-- The values and derivatives of a covariance function, as the direct evaluator of C27 uses them; zero where not finite. -/
noncomputable def rbfOf (c : Cov d) : DirectOp.Rbf d where
  value := Kernel.evaluate c.k c.p c.q c.a
  gradient := fun v => (evaluateGradient c.k c.p c.q c.a v).getD 0
  hessian := fun v =>
    match evaluateHessian c.k c.p c.q c.a v with
    | .ok (some m) => m
    | _ => 0

/-- The model as the direct evaluator of C27 uses it. -/
noncomputable def toDirect (m : Model d l) (nugget : ℝ) : DirectOp.Model d l := ⟨m.rbfs.map rbfOf, nugget, m.polyValue, m.polyGradient⟩

/-- All derivatives that enter the result are finite; a displacement between a gradient point and another point at which this fails
makes the result NaN. -/
structure AllFinite (c : Cov d) (S G T TG : List (Pos d)) : Prop where
  sourceGrad : ∀ t ∈ T, ∀ q ∈ G, ∃ g, evaluateGradient c.k c.p c.q c.a (t - q) = some g
  targetGrad : ∀ t ∈ TG, ∀ q ∈ S, ∃ g, evaluateGradient c.k c.p c.q c.a (t - q) = some g
  both : ∀ t ∈ TG, ∀ q ∈ G, ∃ m, evaluateHessian c.k c.p c.q c.a (t - q) = .ok (some m)

/-- The weights as the direct evaluator of C27 uses them: head, segment (point by point) and tail of the vector. -/
def weightsOf (w : Nat → ℝ) (mu sigma : Nat) : DirectOp.Weights d mu sigma l :=
  ⟨fun j => w j, fun j k => w (mu + d * j + k), fun t => w (mu + d * sigma + t)⟩

theorem total_value (c : Cov d) (S : List (Pos d)) (w : Nat → ℝ) (t : Pos d) :
    total c .value S (segment w 0 1) t 0 = ∑ j : Fin S.length, w j * (rbfOf c).value (t - S.get j) := by
  unfold total
  rw [sum_zipIdx]
  refine Finset.sum_congr rfl fun j _ => ?_
  show ∑ k : Fin 1, _ = _
  rw [Fin.sum_univ_one]
  rw [block_value]
  congr 1
  show w (0 + (1 * j.val + 0)) = w j
  congr 1
  omega

theorem total_gradient (c : Cov d) (G : List (Pos d)) (w : Nat → ℝ) (mu : Nat) (t : Pos d)
    (hf : ∀ q ∈ G, ∃ g, evaluateGradient c.k c.p c.q c.a (t - q) = some g) :
    total c .gradient G (segment w mu d) t 0 =
      ∑ j : Fin G.length, ∑ k : Fin d, w (mu + d * j + k) * (-((rbfOf c).gradient (t - G.get j) k)) := by
  unfold total
  rw [sum_zipIdx]
  refine Finset.sum_congr rfl fun j _ => ?_
  refine Finset.sum_congr rfl fun k _ => ?_
  obtain ⟨g, hg⟩ := hf (G.get j) (List.get_mem G j)
  rw [block_gradient c t (G.get j) hg]
  have h1 : (rbfOf c).gradient (t - G.get j) = g := by
    show (evaluateGradient c.k c.p c.q c.a (t - G.get j)).getD 0 = g
    rw [hg]; rfl
  rw [h1]
  congr 1
  show w (mu + (d * j.val + k.val)) = _
  congr 1
  omega

theorem total_gradientT (c : Cov d) (S : List (Pos d)) (w : Nat → ℝ) (t : Pos d)
    (hf : ∀ q ∈ S, ∃ g, evaluateGradient c.k c.p c.q c.a (t - q) = some g) (k : Fin d) :
    total c .gradientT S (segment w 0 1) t k = ∑ j : Fin S.length, w j * (rbfOf c).gradient (t - S.get j) k := by
  unfold total
  rw [sum_zipIdx]
  refine Finset.sum_congr rfl fun j _ => ?_
  show ∑ k : Fin 1, _ = _
  rw [Fin.sum_univ_one]
  obtain ⟨g, hg⟩ := hf (S.get j) (List.get_mem S j)
  rw [block_gradientT c t (S.get j) hg]
  have h1 : (rbfOf c).gradient (t - S.get j) = g := by
    show (evaluateGradient c.k c.p c.q c.a (t - S.get j)).getD 0 = g
    rw [hg]; rfl
  rw [h1]
  congr 1
  show w (0 + (1 * j.val + 0)) = w j
  congr 1
  omega

theorem total_hessian (c : Cov d) (G : List (Pos d)) (w : Nat → ℝ) (mu : Nat) (t : Pos d)
    (hf : ∀ q ∈ G, ∃ m, evaluateHessian c.k c.p c.q c.a (t - q) = .ok (some m)) (k : Fin d) :
    total c .hessian G (segment w mu d) t k =
      ∑ j : Fin G.length, ∑ i : Fin d, w (mu + d * j + i) * (-((rbfOf c).hessian (t - G.get j) i k)) := by
  unfold total
  rw [sum_zipIdx]
  refine Finset.sum_congr rfl fun j _ => ?_
  refine Finset.sum_congr rfl fun i _ => ?_
  obtain ⟨m, hm⟩ := hf (G.get j) (List.get_mem G j)
  rw [show block c .hessian (c.a.mulVec t) (c.a.mulVec (G.get j)) k i = block c .hessian (c.a.mulVec t) (c.a.mulVec (G.get j)) i k from
    C70_hessian_symmetric c t (G.get j) k i]
  rw [block_hessian c t (G.get j) hm]
  have h1 : (rbfOf c).hessian (t - G.get j) = m := by
    show (match evaluateHessian c.k c.p c.q c.a (t - G.get j) with
      | .ok (some m) => m
      | _ => 0 : Matrix (Fin d) (Fin d) ℝ) = m
    rw [hm]
  rw [h1]
  congr 1
  show w (mu + (d * j.val + i.val)) = _
  congr 1
  omega

/-- C71: whatever calls came before - set the source points, the target points, the weights, evaluate, in any order and number, with
evaluations that may have thrown - if the weights were set after the latest source points, `evaluate` returns for every target point the
value, and for every target gradient point the gradient, that the defining sums of the interpolant (C27) give for the latest points and
weights; for sets of points small enough that the kernels are summed directly. -/
theorem C71_evaluator {X : Ext d} (hX : X.Ok) (m : Model d l) (nugget : ℝ) (hm : ∀ c ∈ m.rbfs, Searchable X c) (ops : List (Op d))
    {S G T TG : List (Pos d)} {w : Nat → ℝ} (hs : settings ops = ⟨true, S, G, T, TG, some w⟩)
    (hsize : (S.length + G.length) * (T.length + TG.length) < 1024 * 1024) (hf : ∀ c ∈ m.rbfs, AllFinite c S G T TG) :
    ∃ y, (evaluate X m (history X m ops)).2 = .ok y ∧
      (∀ i : Fin T.length, y i =
        DirectOp.evalValue (toDirect m nugget) ⟨S.get, G.get⟩ ⟨T.get, TG.get⟩ (weightsOf w S.length G.length) i) ∧
      ∀ (i : Fin TG.length) (k : Fin d), y (T.length + (d * i + k)) =
        DirectOp.evalGradient (toDirect m nugget) ⟨S.get, G.get⟩ ⟨T.get, TG.get⟩ (weightsOf w S.length G.length) i k := by
  have inv := inv_history X m ops
  rw [hs] at inv
  generalize history X m ops = s at inv
  obtain ⟨imu, isigma, itmu, itsigma, ics, ia, iff, ift, ih, ipp, ipg, ipw⟩ := inv
  dsimp only at imu isigma itmu itsigma ics ia iff ift ih ipp ipg ipw
  have z1 : S.length * T.length < 1024 * 1024 := by nlinarith
  have z2 : G.length * T.length < 1024 * 1024 := by nlinarith
  have z3 : S.length * TG.length < 1024 * 1024 := by nlinarith
  have z4 : G.length * TG.length < 1024 * 1024 := by nlinarith
  have hret : ∀ e ∈ s.elems, Returns X s.trgMu s.trgSigma e
      (fun n => ((T[n]?).map (fun t => total e.c .value S (segment w 0 1) t 0 + total e.c .gradient G (segment w S.length d) t 0)).getD 0)
      (fun i k => ((TG[i]?).map (fun t => total e.c .gradientT S (segment w 0 1) t k +
        total e.c .hessian G (segment w S.length d) t k)).getD 0) := by
    intro e he
    have hc : e.c ∈ m.rbfs := by rw [← ics]; exact List.mem_map_of_mem he
    have hfin := hf e.c hc
    obtain ⟨va, a1, a2⟩ := result_ok hX e.c .value (hm e.c hc) (ia e he).settings ((ia e he).source rfl) z1 (fun _ _ _ _ => trivial)
    obtain ⟨vf, f1, f2⟩ := result_ok hX e.c .gradient (hm e.c hc) (iff e he).settings ((iff e he).source rfl) z2 hfin.sourceGrad
    obtain ⟨vt, t1, t2⟩ := result_ok hX e.c .gradientT (hm e.c hc) (ift e he).settings ((ift e he).source rfl) z3 hfin.targetGrad
    obtain ⟨vh, h1, h2⟩ := result_ok hX e.c .hessian (hm e.c hc) (ih e he).settings ((ih e he).source rfl) z4 hfin.both
    refine ⟨va, vf, vt, vh, a1, f1, t1, h1, fun n hn => ?_, fun i hi k => ?_⟩
    · rw [itmu] at hn
      have ht : T[n]? = some T[n] := List.getElem?_eq_getElem hn
      rw [a2 n _ ht, f2 n _ ht, ht]; rfl
    · rw [itsigma] at hi
      have ht : TG[i]? = some TG[i] := List.getElem?_eq_getElem hi
      rw [t2 i _ ht, h2 i _ ht, ht]; rfl
  obtain ⟨es', y, e1, e2, e3⟩ := evalElems_ok
    (fun c n => ((T[n]?).map (fun t => total c .value S (segment w 0 1) t 0 + total c .gradient G (segment w S.length d) t 0)).getD 0)
    (fun c i k => ((TG[i]?).map (fun t => total c .gradientT S (segment w 0 1) t k +
        total c .hessian G (segment w S.length d) t k)).getD 0) s.elems hret 0
  rw [ics, itmu] at e2
  rw [ics, itmu, itsigma] at e3
  have hpw := ipw w rfl
  have hpoly : ∀ n, polyRow m s n = if h : n < T.length then ∑ t, m.polyValue T[n] t * w (S.length + d * G.length + t) else
      polyRow m s n := by
    intro n
    split
    · rename_i hn
      unfold polyRow
      simp only [ipp]
      rw [if_pos hn, hpw, List.getElem?_eq_getElem hn]; rfl
    · rfl
  refine ⟨if 0 < l then (fun n => y n + polyRow m s n) else y, ?_, fun i => ?_, fun i k => ?_⟩
  · unfold evaluate
    rw [e1]
  · have hv : y i = (m.rbfs.map (fun c =>
        (∑ j : Fin S.length, w j * (rbfOf c).value (T.get i - S.get j)) +
        (∑ j : Fin G.length, ∑ k : Fin d, w (S.length + d * j + k) * (-((rbfOf c).gradient (T.get i - G.get j) k))))).sum := by
      rw [e2 i i.2]
      simp only [Pi.zero_apply, zero_add]
      congr 1
      apply List.map_congr_left
      intro c hc
      rw [List.getElem?_eq_getElem i.2, Option.map_some, Option.getD_some, total_value,
        total_gradient c G w S.length _ ((hf c hc).sourceGrad _ (List.getElem_mem i.2))]
      rfl
    have hp : polyRow m s i = ∑ t, m.polyValue (T.get i) t * w (S.length + d * G.length + t) := by
      rw [hpoly, dif_pos i.2]; rfl
    unfold DirectOp.evalValue toDirect weightsOf
    dsimp only
    rw [List.map_map]
    by_cases hl : 0 < l
    · rw [if_pos hl]
      rw [hv, hp]; rfl
    · rw [if_neg hl, hv]
      have hz : (∑ t : Fin l, m.polyValue (T.get i) t * w (S.length + d * G.length + t)) = 0 :=
        Finset.sum_eq_zero fun t _ => by have := t.2; omega
      rw [hz, add_zero]; rfl
  · have hd : 0 < d := by have := k.2; omega
    have hv : y (T.length + (d * i + k)) = (m.rbfs.map (fun c =>
        (∑ j : Fin S.length, w j * (rbfOf c).gradient (TG.get i - S.get j) k) +
        (∑ j : Fin G.length, ∑ t : Fin d, w (S.length + d * j + t) * (-((rbfOf c).hessian (TG.get i - G.get j) t k))))).sum := by
      rw [e3 i i.2 k]
      simp only [Pi.zero_apply, zero_add]
      congr 1
      apply List.map_congr_left
      intro c hc
      rw [List.getElem?_eq_getElem i.2, Option.map_some, Option.getD_some,
        total_gradientT c S w _ ((hf c hc).targetGrad _ (List.getElem_mem i.2)),
        total_hessian c G w S.length _ ((hf c hc).both _ (List.getElem_mem i.2))]
      rfl
    have hp : polyRow m s (T.length + (d * i + k)) = ∑ t, m.polyGradient (TG.get i) k t * w (S.length + d * G.length + t) := by
      unfold polyRow
      simp only [ipp, ipg]
      rw [if_neg (by omega), dif_pos hd, hpw]
      have h1 : (T.length + (d * i.val + k.val) - T.length) / d = i := by
        rw [Nat.add_sub_cancel_left, Nat.mul_add_div hd, Nat.div_eq_of_lt k.2, Nat.add_zero]
      have h2 : (⟨(T.length + (d * i.val + k.val) - T.length) % d, Nat.mod_lt _ hd⟩ : Fin d) = k := by
        apply Fin.ext
        show (T.length + (d * i.val + k.val) - T.length) % d = k
        rw [Nat.add_sub_cancel_left, Nat.mul_add_mod, Nat.mod_eq_of_lt k.2]
      rw [h2, h1, List.getElem?_eq_getElem i.2]; rfl
    unfold DirectOp.evalGradient toDirect weightsOf
    dsimp only
    rw [List.map_map]
    by_cases hl : 0 < l
    · rw [if_pos hl]
      rw [hv, hp]; rfl
    · rw [if_neg hl, hv]
      have hz : (∑ t : Fin l, m.polyGradient (TG.get i) k t * w (S.length + d * G.length + t)) = 0 :=
        Finset.sum_eq_zero fun t _ => by have := t.2; omega
      rw [hz, add_zero]; rfl

/-! ## what goes wrong otherwise -/

theorem direct_nothing {X : Ext d} (c : Cov d) (kind : Kind) (S T : List (Pos d)) (acc : Option EReal) (w : Nat → Fin (kind.km d) → ℝ)
    (h : ∀ t ∈ T, X.search (S.map c.a.mulVec) (c.a.mulVec t) (bound X c) = []) :
    directResult X c kind [.source S, .accuracy acc, .target T, .weights w] = .ok (fun _ => 0) := by
  unfold directResult Direct.evaluate
  simp only [List.foldl_cons, List.foldl_nil, Direct.step]
  rw [Outcome.traverse_ok (g := fun _ => (0 : Fin (kind.kn d) → ℝ))]
  · rw [Outcome.ok_bind]
    congr 1
    funext n
    rw [List.getElem?_map]
    cases (T.map c.a.mulVec)[n]? <;> rfl
  · intro t' ht'
    obtain ⟨t, ht, rfl⟩ := List.mem_map.1 ht'
    unfold Fmm.directEvaluate
    dsimp only
    rw [h t ht]; rfl

/-- C71, why the radius must not be rounded down: the squared radius of a kd-tree search is a float.  With a single source point whose
squared distance lies between the rounded and the exact squared range, the value of a spherical model is returned as zero, and it is not. -/
theorem C71_rounded_radius {X : Ext d} (hX : X.Ok) (p q : ℝ) (a : Matrix (Fin d) (Fin d) ℝ) (hp : 0 < p) (hq : 0 < q) (s t : Pos d)
    (h1 : X.round (q * q) ≤ Kernel.sq (a.mulVec (t - s))) (h2 : Kernel.sq (a.mulVec (t - s)) < q * q) (w : Nat → ℝ) (hw : w 0 ≠ 0)
    (acc gacc : Option EReal) (pv : Pos d → Fin 0 → ℝ) (pg : Pos d → Fin d → Fin 0 → ℝ) :
    ∃ y, (evaluate X ⟨[⟨.spherical, p, q, a⟩], pv, pg⟩ (history X ⟨[⟨.spherical, p, q, a⟩], pv, pg⟩
        [.source [s] [] acc gacc, .target [t] [], .weights w])).2 = .ok y ∧ y 0 = 0 ∧
      DirectOp.evalValue (toDirect ⟨[⟨.spherical, p, q, a⟩], pv, pg⟩ 0) (⟨[s].get, [].get⟩ : DirectOp.Pts d 1 0)
        (⟨[t].get, [].get⟩ : DirectOp.Pts d 1 0) (weightsOf w 1 0) 0 ≠ 0 := by
  have empty : ∀ pts x b, (∀ r ∈ pts, ¬ Kernel.sq (x - r) < b) → X.search pts x b = [] := by
    intro pts x b h
    rw [List.eq_nil_iff_forall_not_mem]
    intro j hj
    obtain ⟨r, hr, hlt⟩ := (hX.search _ _ _ _).1 hj
    exact h r (List.mem_of_getElem? hr) hlt
  have s1 : ∀ t' ∈ [t], X.search ([s].map a.mulVec) (a.mulVec t') (bound X (⟨.spherical, p, q, a⟩ : Cov d)) = [] := by
    intro t' ht'
    rw [List.mem_singleton.1 ht']
    refine empty _ _ _ (fun r hr => ?_)
    rw [List.map_cons, List.map_nil, List.mem_singleton] at hr
    rw [hr, ← Matrix.mulVec_sub]; exact not_lt.2 h1
  have s2 : ∀ (T : List (Pos d)), ∀ t' ∈ T, X.search (([] : List (Pos d)).map a.mulVec) (a.mulVec t') (bound X (⟨.spherical, p, q, a⟩ : Cov d)) = [] :=
    fun T t' _ => empty _ _ _ (fun r hr => by cases hr)
  have hret : Returns X 1 0 ⟨⟨.spherical, p, q, a⟩, [.source [s], .accuracy acc, .target [t], .weights (segment w 0 1)],
      [.source [], .accuracy acc, .target [t], .weights (segment w 1 d)], [.source [s], .accuracy gacc, .target [], .weights (segment w 0 1)],
      [.source [], .accuracy gacc, .target [], .weights (segment w 1 d)]⟩ (fun _ => 0) (fun _ _ => 0) :=
    ⟨_, _, _, _, direct_nothing ⟨.spherical, p, q, a⟩ .value [s] [t] acc _ s1,
      direct_nothing ⟨.spherical, p, q, a⟩ .gradient [] [t] acc _ (s2 _),
      direct_nothing ⟨.spherical, p, q, a⟩ .gradientT [s] [] gacc _ (fun _ h => by cases h),
      direct_nothing ⟨.spherical, p, q, a⟩ .hessian [] [] gacc _ (s2 _), fun n _ => by simp, fun i hi => absurd hi (by omega)⟩
  obtain ⟨e', y, he, hy, -⟩ := evalElem_ok hret 0
  refine ⟨y, ?_, ?_, ?_⟩
  · have hst : (history X ⟨[⟨.spherical, p, q, a⟩], pv, pg⟩ [.source [s] [] acc gacc, .target [t] [], .weights w]) =
        ⟨1, 0, 1, 0, [⟨⟨.spherical, p, q, a⟩, [.source [s], .accuracy acc, .target [t], .weights (segment w 0 1)],
          [.source [], .accuracy acc, .target [t], .weights (segment w 1 d)],
          [.source [s], .accuracy gacc, .target [], .weights (segment w 0 1)],
          [.source [], .accuracy gacc, .target [], .weights (segment w 1 d)]⟩], [t], [], fun u : Fin 0 => w (1 + d * 0 + u)⟩ := rfl
    rw [hst]
    unfold evaluate
    simp only [evalElems, he]
    rfl
  · have := hy 0 (by omega)
    simpa using this
  · have hsq : 0 ≤ Kernel.sq (a.mulVec (t - s)) := Finset.sum_nonneg fun j _ => mul_self_nonneg _
    have hr : Real.sqrt (Kernel.sq (a.mulVec (t - s))) < q := by
      rw [Real.sqrt_lt' hq, pow_two]; exact h2
    have h0 := Real.sqrt_nonneg (Kernel.sq (a.mulVec (t - s)))
    have hv : DirectOp.evalValue (toDirect ⟨[⟨.spherical, p, q, a⟩], pv, pg⟩ 0) (⟨[s].get, [].get⟩ : DirectOp.Pts d 1 0)
        (⟨[t].get, [].get⟩ : DirectOp.Pts d 1 0) (weightsOf w 1 0) 0 = w 0 * Kernel.evaluate .spherical p q a (t - s) := by
      unfold DirectOp.evalValue toDirect weightsOf rbfOf
      simp
    rw [hv]
    refine mul_ne_zero hw (ne_of_gt ?_)
    unfold Kernel.evaluate value
    dsimp only
    rw [if_pos hr]
    generalize Real.sqrt (Kernel.sq (a.mulVec (t - s))) = r at h0 hr
    have hrho : r / q < 1 := by rw [div_lt_one hq]; exact hr
    have hrho0 : 0 ≤ r / q := div_nonneg h0 hq.le
    generalize r / q = ρ at hrho hrho0
    apply mul_pos hp
    nlinarith [mul_pos (sub_pos.2 hrho) (sub_pos.2 hrho), mul_nonneg hrho0 (mul_nonneg (sub_pos.2 hrho).le (sub_pos.2 hrho).le)]

/-- C71: a compactly supported covariance function cannot be evaluated before source points are set - there is no tree to search, and
the program dereferences a null pointer. -/
theorem C71_no_sources (X : Ext d) (c : Cov d) (hc : c.k = .spherical ∨ c.k = .cubic ∨ ∃ o, c.k = .spheroidal o .direct)
    (m : Model d l) (hm : m.rbfs = [c]) (t : Pos d) (T TG : List (Pos d)) :
    (evaluate X m (history X m [.target (t :: T) TG])).2 = .ub := by
  have hr : result X c .value [.target (t :: T)] = .ub := by
    have hd : result X c .value [.target (t :: T)] = directResult X c .value [.target (t :: T)] := by
      unfold result
      rcases hc with h | h | ⟨o, h⟩ <;> rw [h]
    rw [hd]
    rfl
  have hst : (history X m [.target (t :: T) TG]).elems = [⟨c, [.target (t :: T)], [.target (t :: T)], [.target TG], [.target TG]⟩] := by
    simp only [history, List.foldl_cons, List.foldl_nil, Op.run, setTarget, State.new, hm]
    rfl
  unfold evaluate
  rw [hst]
  simp only [evalElems, evalElem, hr]

/-! ## an example -/

/-- The parts that are not modelled: nothing is rearranged, nothing is rounded, and the search looks at all points. -/
noncomputable def plain : Ext d where
  treeHeight := fun n => n
  sortSrc := fun _ l => l
  sortTrg := fun _ l => l
  find := fun _ _ _ _ _ _ => .throws .runtimeError
  fast := fun _ _ _ _ _ _ _ l => l
  search := fun pts t b => by
    classical
    exact (List.range pts.length).filter (fun j => decide (∃ q, pts[j]? = some q ∧ Kernel.sq (t - q) < b))
  round := fun x => x

theorem plain_ok : (plain : Ext d).Ok where
  sortSrc := fun _ _ => List.Perm.refl _
  sortTrg := fun _ _ => List.Perm.refl _
  nodup := fun _ _ _ => List.Nodup.filter _ List.nodup_range
  search := fun pts t b j => by
    unfold plain
    simp only [List.mem_filter, List.mem_range, decide_eq_true_eq]
    constructor
    · exact fun h => h.2
    · rintro ⟨q, h1, h2⟩
      exact ⟨(List.getElem?_eq_some_iff.1 h1).1, q, h1, h2⟩

/-- A Gaussian and a spherical covariance function in one dimension, and the constant polynomial. -/
noncomputable def two : Model 1 1 :=
  ⟨[⟨.gaussian, 1, 1, 1⟩, ⟨.spherical, 1, 2, 1⟩], fun _ _ => 1, fun _ _ _ => 0⟩

/-- The hypotheses of `C71_evaluator` are met: set everything, evaluate, set the source points again, and the weights after them. -/
example : ∃ y, (evaluate plain two (history plain two [.source [0] [] none none, .target [1, 3] [1], .weights (fun _ => 7), .evaluate,
      .source [0, 2] [] none none, .weights (fun n => n)])).2 = .ok y ∧
    (∀ i : Fin 2, y i = DirectOp.evalValue (toDirect two 0) (⟨[0, 2].get, [].get⟩ : DirectOp.Pts 1 2 0)
      (⟨[1, 3].get, [1].get⟩ : DirectOp.Pts 1 2 1) (weightsOf (fun n => n) 2 0) i) ∧
    ∀ (i : Fin 1) (k : Fin 1), y (2 + (1 * i + k)) = DirectOp.evalGradient (toDirect two 0) (⟨[0, 2].get, [].get⟩ : DirectOp.Pts 1 2 0)
      (⟨[1, 3].get, [1].get⟩ : DirectOp.Pts 1 2 1) (weightsOf (fun n => n) 2 0) i k := by
  refine C71_evaluator plain_ok two 0 ?_ _ (S := [0, 2]) (G := []) (T := [1, 3]) (TG := [1]) rfl (by norm_num) ?_
  · intro c hc
    rcases List.mem_cons.1 hc with rfl | hc
    · trivial
    · rw [List.mem_singleton.1 hc]
      exact ⟨by norm_num, le_refl _⟩
  · intro c hc
    refine ⟨by simp, ?_, by simp⟩
    intro t ht q hq
    rcases List.mem_cons.1 hc with rfl | hc
    · exact ⟨_, rfl⟩
    · rw [List.mem_singleton.1 hc]
      have h1 : Kernel.sq ((1 : Matrix (Fin 1) (Fin 1) ℝ).mulVec (t - q)) = 1 := by
        rw [List.mem_singleton.1 ht]
        simp only [List.mem_cons, List.not_mem_nil, or_false] at hq
        rcases hq with rfl | rfl <;> simp [Kernel.sq] <;> norm_num
      have h2 : grad .spherical 1 2 (Kernel.sq ((1 : Matrix (Fin 1) (Fin 1) ℝ).mulVec (t - q))) =
          .num (1 * (-1.5 / (1 / 2) + 1.5 * (1 / 2)) / (2 * 2)) := by
        rw [h1]
        simp only [grad, Real.sqrt_one]
        rw [if_pos (by norm_num), if_neg one_ne_zero]
      unfold evaluateGradient
      dsimp only
      rw [h2]
      exact ⟨_, rfl⟩

end Verif.Evaluator
