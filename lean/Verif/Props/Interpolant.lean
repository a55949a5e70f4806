import Verif.Lemmas.Interpolant
import Mathlib.Tactic.IntervalCases
import Mathlib.Data.Nat.Choose.Basic

/-!
# C14, C15, C16: the life cycle of an interpolant
-/

namespace Verif.Interpolant

open Verif RbfModel

variable {B : Type} (env : Env B)

/-- The fit an interpolant holds. -/
def State.fit? (s : State B) : Option (Fit B) :=
  if s.fitted then some ⟨s.centers, s.gradCenters, s.bbox, s.weights⟩ else none

theorem checkNumPoints_spec (m : Mdl) (mu sigma : Nat) :
    (EnoughPoints env.dim m mu sigma → checkNumPoints env m mu sigma = .ok ()) ∧
    (¬ EnoughPoints env.dim m mu sigma → checkNumPoints env m mu sigma = .throws .invalidArgument) := by
  unfold EnoughPoints checkNumPoints
  by_cases h : m.polyDegree = 1 ∧ mu = 1 ∧ 1 ≤ sigma
  · simp [h]
  · have hb : (m.polyDegree == 1 && mu == 1 && decide (sigma ≥ 1)) = false := by
      simp only [Bool.and_eq_false_iff, beq_eq_false_iff_ne, decide_eq_false_iff_not]
      by_cases h1 : m.polyDegree = 1
      · by_cases h2 : mu = 1
        · right; intro h3; exact h ⟨h1, h2, h3⟩
        · left; right; exact h2
      · left; left; exact h1
    simp only [hb, Bool.false_eq_true, if_false, h, or_false]
    constructor
    · intro h; rw [if_neg (by omega)]
    · intro h; rw [if_pos (by omega)]

theorem numArgs_spec (tol gtol : Dbl) (n : Int) (acc gacc : Dbl) (k : Outcome α) :
    (NumArgsOk tol gtol n acc gacc → (do
      checkPositive tol gtol
      checkMaxIter n
      checkPositive acc gacc
      k) = k) ∧
    (¬ NumArgsOk tol gtol n acc gacc → (do
      checkPositive tol gtol
      checkMaxIter n
      checkPositive acc gacc
      k) = .throws .invalidArgument) := by
  unfold NumArgsOk checkPositive checkMaxIter
  simp only [← Dbl.gt0_iff]
  cases h1 : gt0 tol <;> cases h2 : gt0 gtol <;> cases h3 : gt0 acc <;> cases h4 : gt0 gacc <;>
    by_cases h5 : n < 0 <;> simp [h5] <;> omega

theorem initialWeights_spec (s : State B) (hs : s.Good env.dim) (p g : List Pt) (init : Init B)
    (hi : ∀ o, init = .other o → o.Good env.dim) :
    (InitOk s.model s.fit? init → ∃ w0, initialWeights env s p g init = .ok w0 ∧
      StartOk env.dim s.model s.fit? p g init w0) ∧
    (¬ InitOk s.model s.fit? init → ∃ e, initialWeights env s p g init = .throws e) := by
  cases init with
  | null => exact ⟨fun _ => ⟨none, rfl, rfl⟩, fun h => absurd trivial h⟩
  | self =>
      cases hf : s.fitted with
      | true =>
          refine ⟨fun _ => ?_, fun h => absurd (by simp [InitOk, State.fit?, hf]) h⟩
          obtain ⟨w, h1, h2⟩ := build_ok env s.model p g true s (by simp) hf (hs.2 hf)
          refine ⟨some w, ?_, ⟨_, w, ?_, rfl, h2⟩⟩
          · simp [initialWeights, h1]
          · simp [State.fit?, hf]
      | false =>
          refine ⟨fun h => absurd h (by simp [InitOk, State.fit?, hf]), fun _ => ⟨.runtimeError, ?_⟩⟩
          simp [initialWeights, build_unfitted env s.model p g true s (by simp) hf (hs.1 hf).1 (hs.1 hf).2]
  | other o =>
      have ho := hi o rfl
      cases hm : modelEq s.model o.model with
      | false =>
          refine ⟨fun _ => ⟨some _, by simp [initialWeights, build_different env s.model p g o hm]; rfl, _, rfl, ?_, ?_⟩,
            fun h => absurd (Or.inl ((not_sameModel_iff _ _).1 hm)) h⟩
          · intro h; exact absurd h ((not_sameModel_iff _ _).1 hm)
          · intro _; rfl
      | true =>
          cases hf : o.fitted with
          | false =>
              refine ⟨fun h => absurd h (by simp [InitOk, (sameModel_iff _ _).1 hm, hf]), fun _ => ⟨.runtimeError, ?_⟩⟩
              simp [initialWeights, build_unfitted env s.model p g false o (by simp [hm]) hf (ho.1 hf).1 (ho.1 hf).2]
          | true =>
              have hd : o.model.polyDegree = s.model.polyDegree := by
                simp only [modelEq, Bool.and_eq_true, beq_iff_eq] at hm
                exact hm.1.2.symm
              have hsz := ho.2 hf
              rw [hd] at hsz
              obtain ⟨w, h1, h2⟩ := build_ok env s.model p g false o (by simp [hm]) hf hsz
              refine ⟨fun _ => ⟨some w, by simp [initialWeights, h1], w, rfl, fun _ => h2, fun h => absurd ((sameModel_iff _ _).1 hm) h⟩, fun h => ?_⟩
              exact absurd (Or.inr hf) h

theorem checked_ok {s : State B} {α : Type} (a : α) (k : α → State B × Outcome (Res B)) : checked s (.ok a) k = k a := rfl
theorem checked_throws {s : State B} {α : Type} (e : Err) (k : α → State B × Outcome (Res B)) :
    checked s (.throws e) k = (s, .throws e) := rfl

theorem require_spec (b : Prop) [Decidable b] (x : Bool) (hx : x = true ↔ b) (k : Outcome α) :
    (b → (do require x; k) = k) ∧ (¬ b → (do require x; k) = .throws .invalidArgument) := by
  unfold require
  constructor
  · intro h; rw [if_pos (hx.2 h)]; rfl
  · intro h; rw [if_neg (fun h' => h (hx.1 h'))]; rfl

theorem fitChecks (s : State B) (mu sigma nv : Nat) (tol gtol : Dbl) (n : Int) (acc gacc : Dbl) (k : Outcome α) :
    (EnoughPoints env.dim s.model mu sigma ∧ nv = mu + env.dim * sigma ∧ NumArgsOk tol gtol n acc gacc → (do
      checkNumPoints env s.model mu sigma
      require (nv == mu + env.dim * sigma)
      checkPositive tol gtol
      checkMaxIter n
      checkPositive acc gacc
      k) = k) ∧
    (¬ (EnoughPoints env.dim s.model mu sigma ∧ nv = mu + env.dim * sigma ∧ NumArgsOk tol gtol n acc gacc) → (do
      checkNumPoints env s.model mu sigma
      require (nv == mu + env.dim * sigma)
      checkPositive tol gtol
      checkMaxIter n
      checkPositive acc gacc
      k) = .throws .invalidArgument) := by
  have h1 := checkNumPoints_spec env s.model mu sigma
  have h2 := fun k : Outcome α => require_spec (nv = mu + env.dim * sigma) (nv == mu + env.dim * sigma) (by simp) k
  have h3 := numArgs_spec tol gtol n acc gacc k
  by_cases e1 : EnoughPoints env.dim s.model mu sigma
  · rw [h1.1 e1, Outcome.ok_bind]
    by_cases e2 : nv = mu + env.dim * sigma
    · rw [(h2 _).1 e2]
      by_cases e3 : NumArgsOk tol gtol n acc gacc
      · exact ⟨fun _ => h3.1 e3, fun h => absurd ⟨e1, e2, e3⟩ h⟩
      · exact ⟨fun h => absurd h.2.2 e3, fun _ => h3.2 e3⟩
    · exact ⟨fun h => absurd h.2.1 e2, fun _ => (h2 _).2 e2⟩
  · exact ⟨fun h => absurd h.1 e1, fun _ => by rw [h1.2 e1]; rfl⟩

theorem zero_iff (x : Dbl) : isZero x = true ↔ Dbl.Equal x zero := Dbl.isZero_iff_equal x

theorem ineqChecks (s : State B) (mu nv nl nu : Nat) (tol : Dbl) (n : Int) (acc : Dbl) (k : Outcome α) :
    (Dbl.Equal s.model.nugget zero ∧ EnoughPoints env.dim s.model mu 0 ∧ nv = mu ∧ nl = mu ∧ nu = mu ∧
        NumArgsOk tol inf n acc inf → (do
      (if isZero s.model.nugget then .ok () else .throws .runtimeError : Outcome Unit)
      checkNumPoints env s.model mu 0
      require (nv == mu)
      require (nl == mu)
      require (nu == mu)
      checkPositive tol inf
      checkMaxIter n
      checkPositive acc inf
      k) = k) ∧
    (¬ (Dbl.Equal s.model.nugget zero ∧ EnoughPoints env.dim s.model mu 0 ∧ nv = mu ∧ nl = mu ∧ nu = mu ∧
        NumArgsOk tol inf n acc inf) → ∃ e, (do
      (if isZero s.model.nugget then .ok () else .throws .runtimeError : Outcome Unit)
      checkNumPoints env s.model mu 0
      require (nv == mu)
      require (nl == mu)
      require (nu == mu)
      checkPositive tol inf
      checkMaxIter n
      checkPositive acc inf
      k) = .throws e) := by
  have h1 := checkNumPoints_spec env s.model mu 0
  have h2 := fun (a : Nat) (k : Outcome α) => require_spec (a = mu) (a == mu) (by simp) k
  have h3 := numArgs_spec tol inf n acc inf k
  rw [← zero_iff]
  by_cases e0 : isZero s.model.nugget = true
  · rw [if_pos e0, Outcome.ok_bind]
    by_cases e1 : EnoughPoints env.dim s.model mu 0
    · rw [h1.1 e1, Outcome.ok_bind]
      by_cases e2 : nv = mu
      · rw [(h2 _ _).1 e2]
        by_cases e4 : nl = mu
        · rw [(h2 _ _).1 e4]
          by_cases e5 : nu = mu
          · rw [(h2 _ _).1 e5]
            by_cases e3 : NumArgsOk tol inf n acc inf
            · exact ⟨fun _ => h3.1 e3, fun h => absurd ⟨e0, e1, e2, e4, e5, e3⟩ h⟩
            · exact ⟨fun h => absurd h.2.2.2.2.2 e3, fun _ => ⟨_, h3.2 e3⟩⟩
          · exact ⟨fun h => absurd h.2.2.2.2.1 e5, fun _ => ⟨_, (h2 _ _).2 e5⟩⟩
        · exact ⟨fun h => absurd h.2.2.2.1 e4, fun _ => ⟨_, (h2 _ _).2 e4⟩⟩
      · exact ⟨fun h => absurd h.2.2.1 e2, fun _ => ⟨_, (h2 _ _).2 e2⟩⟩
    · exact ⟨fun h => absurd h.2.1 e1, fun _ => ⟨_, by rw [h1.2 e1]; rfl⟩⟩
  · exact ⟨fun h => absurd h.1 e0, fun _ => ⟨.runtimeError, by rw [if_neg e0]; rfl⟩⟩

theorem fit?_clear (s : State B) : (clear env s).fit? = none := rfl

theorem good_clear (s : State B) : (clear env s).Good env.dim := ⟨fun _ => ⟨rfl, rfl⟩, fun h => by simp [clear] at h⟩

/-- C14: every single call does what the specification `Allowed` permits, in every consistent state, and leaves a
consistent state with the same model. -/
theorem C14_step (s : State B) (hs : s.Good env.dim) (op : Op B) (hop : GoodOp env.dim s.model op) :
    Allowed env s.model s.fit? op (step env s op).2 (step env s op).1.fit? ∧
    (step env s op).1.Good env.dim ∧ (step env s op).1.model = s.model := by
  cases op with
  | fit p g values tol gtol maxIter acc gacc init solver =>
      obtain ⟨⟨ps, gs, rfl, rfl⟩, hinit, hsol⟩ := hop
      simp only [step, fit, PtArg.available, Bool.and_self, Bool.not_true, Bool.false_eq_true, if_false, PtArg.resolve]
      have hc := fitChecks env s ps.length gs.length values.length tol gtol maxIter acc gacc
        (initialWeights env s ps gs init)
      have hw := initialWeights_spec env s hs ps gs init hinit
      by_cases h1 : EnoughPoints env.dim s.model ps.length gs.length ∧
          values.length = ps.length + env.dim * gs.length ∧ NumArgsOk tol gtol maxIter acc gacc
      · rw [hc.1 h1]
        by_cases h2 : InitOk s.model s.fit? init
        · obtain ⟨w0, e1, e2⟩ := hw.1 h2
          have hall := (⟨h1.1, h1.2.1, h1.2.2, h2⟩ : EnoughPoints env.dim s.model ps.length gs.length ∧ _ ∧ _ ∧ _)
          rw [e1, checked_ok]
          cases hr : solver ps gs values w0 with
          | ok w =>
              refine ⟨.fitDone hall e2 hr, ⟨fun h => by simp at h, fun _ => ?_⟩, rfl⟩
              exact (hsol ps gs values w0).2 w hr
          | throws e => exact ⟨.fitFailed hall e2 hr, good_clear env s, rfl⟩
          | ub => exact absurd hr (hsol ps gs values w0).1
        · obtain ⟨e, e1⟩ := hw.2 h2
          rw [e1, checked_throws]
          exact ⟨.fitRejected (fun h => h2 h.2.2.2), hs, rfl⟩
      · rw [hc.2 h1, checked_throws]
        exact ⟨.fitRejected (fun h => h1 ⟨h.1, h.2.1, h.2.2.1⟩), hs, rfl⟩
  | fitIncrementally p g values tol gtol maxIter acc gacc solver =>
      obtain ⟨⟨ps, gs, rfl, rfl⟩, hsol⟩ := hop
      simp only [step, fitIncrementally, PtArg.available, Bool.and_self, Bool.not_true, Bool.false_eq_true, if_false,
        PtArg.resolve]
      have hc := fitChecks env s ps.length gs.length values.length tol gtol maxIter acc gacc (Outcome.ok ())
      have hbind : ∀ x : Outcome Unit, (do x; Outcome.ok ()) = x := by intro x; cases x <;> rfl
      simp only [hbind] at hc
      by_cases h1 : EnoughPoints env.dim s.model ps.length gs.length ∧
          values.length = ps.length + env.dim * gs.length ∧ NumArgsOk tol gtol maxIter acc gacc
      · rw [hc.1 h1, checked_ok]
        cases hr : solver ps gs values with
        | ok r =>
            obtain ⟨ci, gi, w⟩ := r
            obtain ⟨b1, b2, b3⟩ := (hsol ps gs values).2 ci gi w hr
            have k1 := pick_ok ps ci b1
            have k2 := pick_ok gs gi b2
            simp only [Outcome.ok_bind, k1.1, k2.1, Outcome.pure_eq]
            refine ⟨.incrDone h1 hr, ⟨fun h => by simp at h, fun _ => ?_⟩, rfl⟩
            simp only [Fit.Sized, clear, k1.2, k2.2]
            exact b3
        | throws e => exact ⟨.incrFailed h1 hr, good_clear env s, rfl⟩
        | ub => exact absurd hr (hsol ps gs values).1
      · rw [hc.2 h1, checked_throws]
        exact ⟨.incrRejected h1, hs, rfl⟩
  | fitInequality p values lb ub tol maxIter acc init solver =>
      obtain ⟨⟨ps, rfl⟩, hinit, hsol⟩ := hop
      simp only [step, fitInequality, PtArg.available, Bool.not_true, Bool.false_eq_true, if_false, PtArg.resolve]
      have hc := ineqChecks env s ps.length values.length lb.length ub.length tol maxIter acc
        (initialWeights env s ps [] init)
      have hw := initialWeights_spec env s hs ps [] init hinit
      by_cases h1 : Dbl.Equal s.model.nugget zero ∧ EnoughPoints env.dim s.model ps.length 0 ∧
          values.length = ps.length ∧ lb.length = ps.length ∧ ub.length = ps.length ∧
          NumArgsOk tol inf maxIter acc inf
      · rw [hc.1 h1]
        by_cases h2 : InitOk s.model s.fit? init
        · obtain ⟨w0, e1, e2⟩ := hw.1 h2
          obtain ⟨a1, a2, a3, a4, a5, a6⟩ := h1
          rw [e1, checked_ok]
          cases hr : solver ps values lb ub w0 with
          | ok r =>
              obtain ⟨ci, w⟩ := r
              obtain ⟨b1, b3⟩ := (hsol ps values lb ub w0).2 ci w hr
              have k1 := pick_ok ps ci b1
              simp only [Outcome.ok_bind, k1.1, Outcome.pure_eq]
              refine ⟨.ineqDone ⟨a1, a2, a3, a4, a5, a6, h2⟩ e2 hr, ⟨fun h => by simp at h, fun _ => ?_⟩, rfl⟩
              simp only [Fit.Sized, clear, k1.2, List.length_nil, Nat.mul_zero, Nat.add_zero]
              exact b3
          | throws e => exact ⟨.ineqFailed ⟨a1, a2, a3, a4, a5, a6, h2⟩ e2 hr, good_clear env s, rfl⟩
          | ub => exact absurd hr (hsol ps values lb ub w0).1
        · obtain ⟨e, e1⟩ := hw.2 h2
          rw [e1, checked_throws]
          exact ⟨.ineqRejected (fun h => h2 h.2.2.2.2.2.2), hs, rfl⟩
      · obtain ⟨e, e1⟩ := hc.2 h1
        rw [e1, checked_throws]
        exact ⟨.ineqRejected (fun h => h1 ⟨h.1, h.2.1, h.2.2.1, h.2.2.2.1, h.2.2.2.2.1, h.2.2.2.2.2.1⟩), hs, rfl⟩
  | evaluate p g acc gacc =>
      obtain ⟨m, f, cs, gs, b, w, ev⟩ := s
      cases f with
      | false => exact ⟨.evaluateUnfitted, hs, rfl⟩
      | true =>
          cases h1 : gt0 acc with
          | false =>
              have : step env ⟨m, true, cs, gs, b, w, ev⟩ (.evaluate p g acc gacc) =
                  (⟨m, true, cs, gs, b, w, ev⟩, .throws .invalidArgument) := by
                simp [step, evaluate, checkPositive, h1, checked]
              rw [this]
              exact ⟨.evaluateRejected (by simp [← Dbl.gt0_iff, h1]), hs, rfl⟩
          | true =>
              cases h2 : gt0 gacc with
              | false =>
                  have : step env ⟨m, true, cs, gs, b, w, ev⟩ (.evaluate p g acc gacc) =
                      (⟨m, true, cs, gs, b, w, ev⟩, .throws .invalidArgument) := by
                    simp [step, evaluate, checkPositive, h1, h2, checked]
                  rw [this]
                  exact ⟨.evaluateRejected (by simp [← Dbl.gt0_iff, h2]), hs, rfl⟩
              | true =>
                  simp only [step, evaluate, checkPositive, h1, h2, Bool.not_true, Bool.false_eq_true, if_false,
                    checked_ok, setEvaluationBbox, evaluateImpl]
                  exact ⟨.evaluate ((Dbl.gt0_iff _).1 h1) ((Dbl.gt0_iff _).1 h2), hs, trivial⟩
  | setEvaluationBbox b acc gacc =>
      obtain ⟨m, f, cs, gs, b, w, ev⟩ := s
      cases f with
      | false => exact ⟨.setBboxUnfitted, hs, rfl⟩
      | true => exact ⟨.setBbox, hs, rfl⟩
  | evaluateImpl p g =>
      obtain ⟨m, f, cs, gs, b, w, ev⟩ := s
      cases f with
      | false => exact ⟨.evaluateImplUnfitted, hs, rfl⟩
      | true => exact ⟨.evaluateImpl, hs, rfl⟩
  | bbox =>
      obtain ⟨m, f, cs, gs, b, w, ev⟩ := s
      cases f with
      | false => exact ⟨.bboxUnfitted, hs, rfl⟩
      | true => exact ⟨.bbox, hs, rfl⟩
  | centers =>
      obtain ⟨m, f, cs, gs, b, w, ev⟩ := s
      cases f with
      | false => exact ⟨.centersUnfitted, hs, rfl⟩
      | true => exact ⟨.centers, hs, rfl⟩
  | gradCenters =>
      obtain ⟨m, f, cs, gs, b, w, ev⟩ := s
      cases f with
      | false => exact ⟨.gradCentersUnfitted, hs, rfl⟩
      | true => exact ⟨.gradCenters, hs, rfl⟩
  | weights =>
      obtain ⟨m, f, cs, gs, b, w, ev⟩ := s
      cases f with
      | false => exact ⟨.weightsUnfitted, hs, rfl⟩
      | true => exact ⟨.weights, hs, rfl⟩

/-- C14: every history of calls on a new interpolant, whatever the fitters return or throw, is one the specification
allows. -/
theorem C14_history (m : Mdl) (ops : List (Op B)) (hops : ∀ op ∈ ops, GoodOp env.dim m op) :
    ∃ fin, AllowedHistory env m none ops (run env (new env m) ops).2 fin := by
  suffices h : ∀ (ops : List (Op B)) (s : State B), s.Good env.dim → (∀ op ∈ ops, GoodOp env.dim s.model op) →
      ∃ fin, AllowedHistory env s.model s.fit? ops (run env s ops).2 fin from
    h ops (new env m) ⟨fun _ => ⟨rfl, rfl⟩, fun h => by simp [new] at h⟩ hops
  intro ops
  induction ops with
  | nil => intro s _ _; exact ⟨_, .nil⟩
  | cons op ops ih =>
      intro s hs hops
      obtain ⟨h1, h2, h3⟩ := C14_step env s hs op (hops op (by simp))
      obtain ⟨fin, h4⟩ := ih (step env s op).1 h2 (fun o ho => by rw [h3]; exact hops o (by simp [ho]))
      rw [h3] at h4
      exact ⟨fin, .cons h1 h4⟩

/-- C14: a call rejected for its arguments leaves the whole object (not only the fit) as it was. -/
theorem C14_rejected_unchanged (s : State B) (p g : List Pt) (values : List Dbl) (tol gtol : Dbl) (n : Int)
    (acc gacc : Dbl) (init : Init B) (solver : List Pt → List Pt → List Dbl → Option (List Dbl) → Outcome (List Dbl))
    (h : ¬ (EnoughPoints env.dim s.model p.length g.length ∧ values.length = p.length + env.dim * g.length ∧
      NumArgsOk tol gtol n acc gacc)) :
    step env s (.fit (.given p) (.given g) values tol gtol n acc gacc init solver) = (s, .throws .invalidArgument) := by
  simp only [step, fit, PtArg.available, Bool.and_self, Bool.not_true, Bool.false_eq_true, if_false, PtArg.resolve]
  rw [(fitChecks env s p.length g.length values.length tol gtol n acc gacc _).2 h, checked_throws]

/-- C14 fails when the points are passed as a reference into the interpolant itself, `x.fit(x.centers(), ...)`: they are
cleared before the fitter reads them, so the fitter is called without any point and the fit has no centers. -/
theorem C14_own_centers_are_lost (s : State B) (hf : s.fitted = true) (hg : s.gradCenters = [])
    (hn : EnoughPoints env.dim s.model s.centers.length 0)
    (values : List Dbl) (hv : values.length = s.centers.length) (tol gtol : Dbl) (n : Int) (acc gacc : Dbl)
    (hnum : NumArgsOk tol gtol n acc gacc)
    (solver : List Pt → List Pt → List Dbl → Option (List Dbl) → Outcome (List Dbl)) :
    ∀ w, solver [] [] values none = .ok w →
      ∃ s', step env s (.fit .ownCenters (.given []) values tol gtol n acc gacc .null solver) = (s', .ok .unit) ∧
        s'.centers = [] ∧ s'.weights = w := by
  intro w hw
  simp only [step, fit, PtArg.available, hf, Bool.and_self, Bool.not_true, Bool.false_eq_true, if_false, PtArg.resolve]
  rw [(fitChecks env s s.centers.length ([] : List Pt).length values.length tol gtol n acc gacc _).1
    ⟨hn, by simpa using hv, hnum⟩]
  simp only [initialWeights, checked_ok, clear, hw]
  exact ⟨_, rfl, rfl, rfl⟩

/-- C14, the same for gradients: `x.fit(points, x.grad_centers(), ...)` checks the number of values against the gradients it had, but the fitter gets none, and neither does the fit. -/
theorem C14_own_grad_centers_are_lost (s : State B) (hf : s.fitted = true) (p : List Pt) (hn : EnoughPoints env.dim s.model p.length s.gradCenters.length)
    (values : List Dbl) (hv : values.length = p.length + env.dim * s.gradCenters.length) (tol gtol : Dbl) (n : Int) (acc gacc : Dbl) (hnum : NumArgsOk tol gtol n acc gacc)
    (solver : List Pt → List Pt → List Dbl → Option (List Dbl) → Outcome (List Dbl)) :
    ∀ w, solver p [] values none = .ok w →
      ∃ s', step env s (.fit (.given p) .ownGradCenters values tol gtol n acc gacc .null solver) = (s', .ok .unit) ∧
        s'.centers = p ∧ s'.gradCenters = [] ∧ s'.weights = w := by
  intro w hw
  simp only [step, fit, PtArg.available, hf, Bool.and_self, Bool.not_true, Bool.false_eq_true, if_false, PtArg.resolve]
  rw [(fitChecks env s p.length s.gradCenters.length values.length tol gtol n acc gacc _).1 ⟨hn, hv, hnum⟩]
  simp only [initialWeights, checked_ok, clear, hw]
  exact ⟨_, rfl, rfl, rfl, rfl⟩

/-- C14: an interpolant that is not fitted throws when its own points are passed to `fit`, and stays as it was. -/
theorem C14_own_points_unfitted (s : State B) (hf : s.fitted = false) (p : List Pt) (values : List Dbl) (tol gtol : Dbl) (n : Int) (acc gacc : Dbl) (init : Init B)
    (solver : List Pt → List Pt → List Dbl → Option (List Dbl) → Outcome (List Dbl)) :
    step env s (.fit .ownCenters (.given []) values tol gtol n acc gacc init solver) = (s, .throws .runtimeError) ∧
      step env s (.fit (.given p) .ownGradCenters values tol gtol n acc gacc init solver) = (s, .throws .runtimeError) := by
  constructor <;> simp [step, fit, PtArg.available, hf]

/-- C15: on every history, `evaluate` after it gives the value of the evaluator for the current model, the centers and
the weights of the most recent successful fit (`fin`), and throws if there is none. -/
theorem C15_evaluate_uses_last_fit (m : Mdl) (ops : List (Op B)) (hops : ∀ op ∈ ops, GoodOp env.dim m op)
    (p g : List Pt) (acc gacc : Dbl) (ha : Dbl.Positive acc) (hga : Dbl.Positive gacc) :
    ∃ fin, AllowedHistory env m none ops (run env (new env m) ops).2 fin ∧
      (step env (run env (new env m) ops).1 (.evaluate p g acc gacc)).2 =
        match fin with
        | none => .throws .runtimeError
        | some f => .ok (.vec (env.eval ⟨m, f.centers, f.gradCenters,
            env.hull (env.hull (env.fromPoints p) (env.fromPoints g)) f.bbox, acc, gacc, f.weights⟩ p g)) := by
  suffices h : ∀ (ops : List (Op B)) (s : State B), s.Good env.dim → (∀ op ∈ ops, GoodOp env.dim s.model op) →
      AllowedHistory env s.model s.fit? ops (run env s ops).2 (run env s ops).1.fit? ∧
      (run env s ops).1.Good env.dim ∧ (run env s ops).1.model = s.model by
    obtain ⟨h1, h2, h3⟩ := h ops (new env m) ⟨fun _ => ⟨rfl, rfl⟩, fun h => by simp [new] at h⟩ hops
    refine ⟨_, h1, ?_⟩
    have h4 := (C14_step env _ h2 (.evaluate p g acc gacc) trivial).1
    rw [h3] at h4
    generalize (run env (new env m) ops).1.fit? = c at h4 ⊢
    generalize (step env (run env (new env m) ops).1 (.evaluate p g acc gacc)).1.fit? = c' at h4
    generalize (step env (run env (new env m) ops).1 (.evaluate p g acc gacc)).2 = r at h4 ⊢
    cases h4 with
    | evaluateUnfitted => rfl
    | evaluateRejected h => exact absurd ⟨ha, hga⟩ h
    | evaluate _ _ => rfl
  intro ops
  induction ops with
  | nil => intro s hs _; exact ⟨.nil, hs, rfl⟩
  | cons op ops ih =>
      intro s hs hops
      obtain ⟨h1, h2, h3⟩ := C14_step env s hs op (hops op (by simp))
      obtain ⟨h4, h5, h6⟩ := ih (step env s op).1 h2 (fun o ho => by rw [h3]; exact hops o (by simp [ho]))
      rw [h3] at h4 h6
      exact ⟨.cons h1 h4, h5, h6⟩

/-- C15 fails for the two-step interface: an evaluator built for one fit survives a later successful fit, and
`evaluate_impl` then answers for the old fit. -/
theorem C15_stale_evaluator (s : State B) (hs : s.fitted = true) (b : B) (acc gacc : Dbl)
    (p g : List Pt) (values : List Dbl) (tol gtol : Dbl) (n : Int) (a ga : Dbl)
    (solver : List Pt → List Pt → List Dbl → Option (List Dbl) → Outcome (List Dbl)) (w : List Dbl)
    (hok : EnoughPoints env.dim s.model p.length g.length ∧ values.length = p.length + env.dim * g.length ∧
      NumArgsOk tol gtol n a ga)
    (hw : solver p g values none = .ok w) (q gq : List Pt) :
    (run env s [.setEvaluationBbox b acc gacc,
      .fit (.given p) (.given g) values tol gtol n a ga .null solver, .evaluateImpl q gq]).2 =
      [.ok .unit, .ok .unit, .ok (.vec (env.eval
        ⟨s.model, s.centers, s.gradCenters, env.hull b s.bbox, acc, gacc, s.weights⟩ q gq))] := by
  simp only [run, step, setEvaluationBbox, hs, Bool.not_true, Bool.false_eq_true, if_false, fit, PtArg.available,
    Bool.and_self, PtArg.resolve]
  have := (fitChecks env s p.length g.length values.length tol gtol n a ga
    (initialWeights env { s with evaluator := some ⟨s.model, s.centers, s.gradCenters, env.hull b s.bbox, acc, gacc,
      s.weights⟩ } p g .null)).1 hok
  rw [hs] at this
  rw [this]
  simp only [initialWeights, checked_ok, clear, hw, evaluateImpl, Bool.not_true, Bool.false_eq_true, if_false]

/-- C15 fails for the two-step interface: after a fit but without `set_evaluation_bbox`, `evaluate_impl` dereferences a
null pointer (also after loading a fitted interpolant from a file). -/
theorem C15_null_evaluator (s : State B) (hs : s.fitted = true) (q gq : List Pt) :
    evaluateImpl env (reload s) q gq = .ub := by
  simp [evaluateImpl, reload, hs]

/-- C15, what does hold for the two-step interface: right after `set_evaluation_bbox`, and until the next fitting call,
`evaluate_impl` answers for the current fit. -/
theorem C15_two_step_partial (s : State B) (hs : s.fitted = true) (b : B) (acc gacc : Dbl) (reads : List (Op B))
    (hr : ∀ op ∈ reads, (∃ p g, op = .evaluateImpl p g) ∨ op = .bbox ∨ op = .centers ∨ op = .gradCenters ∨ op = .weights)
    (q gq : List Pt) :
    (step env (run env (step env s (.setEvaluationBbox b acc gacc)).1 reads).1 (.evaluateImpl q gq)).2 =
      .ok (.vec (env.eval ⟨s.model, s.centers, s.gradCenters, env.hull b s.bbox, acc, gacc, s.weights⟩ q gq)) := by
  have hid : ∀ (reads : List (Op B)) (t : State B),
      (∀ op ∈ reads, (∃ p g, op = .evaluateImpl p g) ∨ op = .bbox ∨ op = .centers ∨ op = .gradCenters ∨ op = .weights) →
      (run env t reads).1 = t := by
    intro reads
    induction reads with
    | nil => intros; rfl
    | cons op ops ih =>
        intro t h
        have h1 : (step env t op).1 = t := by
          rcases h op (by simp) with ⟨p, g, rfl⟩ | rfl | rfl | rfl | rfl <;> rfl
        have := ih (step env t op).1 (fun o ho => h o (by simp [ho]))
        simp only [run]
        rw [this, h1]
  rw [hid _ _ hr]
  simp [step, setEvaluationBbox, hs, evaluateImpl]

/-- C16: with a fitted initial interpolant of the same model (or the interpolant itself), the fitter is started with the
weights matched by location; with a different model it is started with zeros.  The fitter is called exactly once, with
those weights. -/
theorem C16_warm_start (s : State B) (hs : s.Good env.dim) (p g : List Pt) (values : List Dbl) (tol gtol : Dbl) (n : Int)
    (acc gacc : Dbl) (init : Init B) (hinit : ∀ o, init = .other o → o.Good env.dim)
    (hargs : EnoughPoints env.dim s.model p.length g.length ∧ values.length = p.length + env.dim * g.length ∧
      NumArgsOk tol gtol n acc gacc) (hok : InitOk s.model s.fit? init) :
    ∃ w0, StartOk env.dim s.model s.fit? p g init w0 ∧
      ∀ solver : List Pt → List Pt → List Dbl → Option (List Dbl) → Outcome (List Dbl),
        (step env s (.fit (.given p) (.given g) values tol gtol n acc gacc init solver)).2 =
          (solver p g values w0).bind (fun _ => .ok .unit) ∧
        ∀ w, solver p g values w0 = .ok w →
          (step env s (.fit (.given p) (.given g) values tol gtol n acc gacc init solver)).1.weights = w := by
  obtain ⟨w0, e1, e2⟩ := (initialWeights_spec env s hs p g init hinit).1 hok
  refine ⟨w0, e2, fun solver => ?_⟩
  simp only [step, fit, PtArg.available, Bool.and_self, Bool.not_true, Bool.false_eq_true, if_false, PtArg.resolve]
  rw [(fitChecks env s p.length g.length values.length tol gtol n acc gacc _).1 hargs, e1, checked_ok]
  cases h : solver p g values w0 with
  | ok w => exact ⟨rfl, fun w' h' => by simp only [Outcome.ok.injEq] at h'; exact h'⟩
  | throws e => exact ⟨rfl, fun w' h' => by simp at h'⟩
  | ub => exact ⟨rfl, fun w' h' => by simp at h'⟩

/-- C14: the number of points a fit needs is the number of monomials of the polynomial: `degree + dim` choose `dim`. -/
theorem C14_basis_size (dim : Nat) (hd : 1 ≤ dim ∧ dim ≤ 3) (degree : Int) :
    basisSize dim degree = if degree < 0 then 0 else (degree.toNat + dim).choose dim := by
  unfold basisSize
  split
  · rfl
  · generalize degree.toNat = n
    obtain ⟨h1, h2⟩ := hd
    interval_cases dim
    · simp
    · simp only
      rw [Nat.choose_two_right, show n + 2 - 1 = n + 1 by omega, Nat.mul_comm (n + 2)]
    · simp only
      rw [Nat.choose_eq_descFactorial_div_factorial]
      simp only [Nat.descFactorial, Nat.factorial]
      congr 1
      rw [show n + 3 - 2 = n + 1 by omega, show n + 3 - 1 = n + 2 by omega, show n + 3 - 0 = n + 3 by omega]
      ring

/-! Non-trivial cases: a fit, a rejected fit, an evaluation, a failing fit. -/

def exEnv : Env Nat := ⟨1, 0, List.length, (· + ·), fun e p _ => e.weights.take p.length⟩
def exModel : Mdl := ⟨[⟨.exp, [one, one], [one]⟩], 0, zero⟩
def exOk : List Pt → List Pt → List Dbl → Option (List Dbl) → Outcome (List Dbl) := fun p g v _ =>
  .ok (v.take (p.length + g.length) ++ List.replicate (p.length + g.length - v.length) zero ++ [one])
def exBad : List Pt → List Pt → List Dbl → Option (List Dbl) → Outcome (List Dbl) := fun _ _ _ _ => .throws .runtimeError
def exOps : List (Op Nat) :=
  [.centers, .fit (.given [[zero], [one]]) (.given []) [one, one] one one 5 one one .null exOk,
   .fit (.given []) (.given []) [] one one 5 one one .null exOk, .evaluate [[zero]] [] one one,
   .fit (.given [[zero], [inf]]) (.given []) [one, zero] one one 5 one one .self exOk, .weights,
   .fit (.given [[one]]) (.given []) [zero] one one 5 one one .null exBad, .weights]

example : ∀ op ∈ exOps, GoodOp exEnv.dim exModel op := by
  have hl : basisSize 1 0 = 1 := by decide
  have h1 : ∀ (ps gs : List Pt) (v : List Dbl) (w0 : Option (List Dbl)), exOk ps gs v w0 ≠ .ub ∧
      ∀ w, exOk ps gs v w0 = .ok w → w.length = ps.length + 1 * gs.length + 1 := by
    intro ps gs v w0
    refine ⟨by simp [exOk], ?_⟩
    intro w h
    simp only [exOk, Outcome.ok.injEq] at h
    subst h
    simp only [List.length_append, List.length_take, List.length_replicate, List.length_cons, List.length_nil]
    omega
  have h2 : ∀ (ps gs : List Pt) (v : List Dbl) (w0 : Option (List Dbl)), exBad ps gs v w0 ≠ .ub ∧
      ∀ w, exBad ps gs v w0 = .ok w → w.length = ps.length + 1 * gs.length + 1 := by
    intro ps gs v w0
    exact ⟨by simp [exBad], by simp [exBad]⟩
  intro op hop
  simp only [exOps, List.mem_cons, List.not_mem_nil, or_false] at hop
  rcases hop with rfl | rfl | rfl | rfl | rfl | rfl | rfl | rfl <;>
    first
    | trivial
    | exact ⟨⟨_, _, rfl, rfl⟩, by simp, h1⟩
    | exact ⟨⟨_, _, rfl, rfl⟩, by simp, h2⟩

example : (run exEnv (new exEnv exModel) exOps).2.map (fun r => match r with
    | .ok _ => 0
    | .throws .runtimeError => 1
    | .throws _ => 2
    | .ub => 3) = [1, 0, 2, 0, 0, 0, 1, 1] := by decide

end Verif.Interpolant
