import Verif.Model.VariogramFitting
import Verif.Props.Kernel
import Mathlib.Tactic.Linarith
import Mathlib.Tactic.LinearCombination
import Mathlib.Tactic.FieldSimp
import Mathlib.Tactic.NormNum
import Mathlib.Tactic.FinCases
import Mathlib.LinearAlgebra.Matrix.NonsingularInverse

/-!
# C73: fitting a model to variograms
-/

namespace Verif.VariogramFitting

open Verif Kernel FmmKernel

variable {d : Nat}

/-! ## specification -/

/-- The model `m` has the functions of `t`, in the same order, with the given parameters (nugget first, then two for each function) and
anisotropies. -/
structure Describes (t : Mdl d) (params : List ℝ) (A : Nat → Matrix (Fin d) (Fin d) ℝ) (m : Mdl d) : Prop where
  size : params.length = 1 + 2 * t.rbfs.length
  nugget : params[0]? = some m.nugget
  length : m.rbfs.length = t.rbfs.length
  rbf : ∀ (i : Nat) c, t.rbfs[i]? = some c → ∃ p q, params[1 + 2 * i]? = some p ∧ params[2 + 2 * i]? = some q ∧
    m.rbfs[i]? = some ⟨c.k, p, q, A i⟩

/-- The semivariance of a model at a lag: nugget, and how much the covariances have dropped. -/
noncomputable def semivariance (m : Mdl d) (h : Fin d → ℝ) : ℝ :=
  m.nugget + (m.rbfs.map (fun c => evaluate c.k c.p c.q c.a 0 - evaluate c.k c.p c.q c.a h)).sum

/-- The anisotropies made of a parameter block have a positive determinant. -/
def Good (S : Scheme d) (n : Nat) (b : S.Block) (A : Nat → Matrix (Fin d) (Fin d) ℝ) : Prop :=
  ∀ i < n, S.aniso b i = .ok (A i) ∧ 0 < (A i).det

/-! ## lemmas -/

theorem numParameters_eq (m : Mdl d) : m.numParameters = 1 + 2 * m.rbfs.length := by
  have : ∀ (l : List (Cov d)) (n : Nat), l.foldl (fun np _ => np + 2) n = n + 2 * l.length := by
    intro l
    induction l with
    | nil => intro n; simp
    | cons c l ih => intro n; rw [List.foldl_cons, ih, List.length_cons]; omega
  exact this _ _

theorem bounds_eq {α : Type} (x y : α) (l : List (Cov d)) (hxy : x = y) :
    l.foldl (fun acc _ => acc ++ [x, x]) [y] = List.replicate (1 + 2 * l.length) x := by
  subst hxy
  have : ∀ (l : List (Cov d)) (n : Nat), l.foldl (fun acc _ => acc ++ [x, x]) (List.replicate n x) = List.replicate (n + 2 * l.length) x := by
    intro l
    induction l with
    | nil => intro n; simp
    | cons c l ih =>
        intro n
        rw [List.foldl_cons, show List.replicate n x ++ [x, x] = List.replicate (n + 2) x by
          rw [← List.replicate_append_replicate]; rfl, ih, List.length_cons]
        congr 1
        omega
  exact this l 1

theorem clamp_eq (x : ℝ) : clamp x 0 ⊤ = max 0 x := by
  unfold clamp
  split
  · rename_i h; rw [max_eq_left h.le]
  · rename_i h
    rw [if_neg (by simp), max_eq_right (not_lt.1 h)]

theorem foldlM_append {α β : Type} (f : β → α → Outcome β) : ∀ (l l' : List α) (b : β),
    (l ++ l').foldlM f b = (l.foldlM f b).bind (fun b' => l'.foldlM f b')
  | [], _, _ => rfl
  | a :: l, l', b => by
      rw [List.cons_append, List.foldlM_cons, List.foldlM_cons]
      cases h : f b a with
      | ok x => rw [Outcome.ok_bind, Outcome.ok_bind]; exact foldlM_append f l l' x
      | throws e => rfl
      | ub => rfl

theorem clampParameters_eq (m : Mdl d) (params : List ℝ) (h : params.length = 1 + 2 * m.rbfs.length) :
    clampParameters params m = .ok (params.map (max 0)) := by
  unfold clampParameters
  rw [numParameters_eq, ← h]
  have hl : m.lowerBounds = List.replicate params.length 0 := by rw [h]; exact bounds_eq 0 0 _ rfl
  have hu : m.upperBounds = List.replicate params.length ⊤ := by rw [h]; exact bounds_eq ⊤ ⊤ _ rfl
  rw [hl, hu]
  have key : ∀ k, k ≤ params.length → (List.range k).foldlM (clampStep (List.replicate params.length 0) (List.replicate params.length ⊤))
      params = .ok ((params.take k).map (max 0) ++ params.drop k) := by
    intro k
    induction k with
    | zero => intro _; simp [Outcome.pure_eq]
    | succ k ih =>
        intro hk
        have hk' : k < params.length := hk
        rw [List.range_succ, foldlM_append, ih (by omega)]
        show (clampStep _ _ _ k >>= fun x => pure x) = _
        have hlen : ((params.take k).map (max 0)).length = k := by simp; omega
        have hget : ((params.take k).map (max 0) ++ params.drop k)[k]? = some params[k] := by
          rw [List.getElem?_append_right (by omega), hlen, Nat.sub_self]
          simp [hk']
        unfold clampStep
        rw [hget, List.getElem?_replicate, if_pos hk', List.getElem?_replicate, if_pos hk']
        dsimp only
        rw [Outcome.ok_bind, Outcome.pure_eq, clamp_eq]
        congr 1
        rw [List.set_append_right _ _ (by omega), hlen, Nat.sub_self, List.drop_eq_getElem_cons hk', List.set_cons_zero,
          List.take_succ_eq_append_getElem hk', List.map_append, List.append_assoc]
        rfl
  rw [key _ (le_refl _)]
  simp

theorem setLoop_eq : ∀ (cs : List (Cov d)) (ps : List ℝ), ps.length = 2 * cs.length →
    ∃ cs', setLoop cs ps = .ok cs' ∧ cs'.length = cs.length ∧ ∀ (i : Nat) c, cs[i]? = some c →
      ∃ p q, ps[2 * i]? = some p ∧ ps[2 * i + 1]? = some q ∧ cs'[i]? = some ⟨c.k, p, q, c.a⟩
  | [], ps, _ => ⟨[], rfl, rfl, fun i c h => by simp at h⟩
  | c :: cs, [], h => by simp at h
  | c :: cs, [p], h => by simp at h; omega
  | c :: cs, p :: q :: ps, h => by
      obtain ⟨cs', h1, h2, h3⟩ := setLoop_eq cs ps (by simp at h; omega)
      refine ⟨⟨c.k, p, q, c.a⟩ :: cs', ?_, by simp [h2], ?_⟩
      · unfold setLoop
        rw [h1]; rfl
      · intro i x hx
        cases i with
        | zero =>
            simp only [List.getElem?_cons_zero, Option.some.injEq] at hx
            subst hx
            exact ⟨p, q, rfl, rfl, rfl⟩
        | succ i =>
            rw [List.getElem?_cons_succ] at hx
            obtain ⟨p', q', h4, h5, h6⟩ := h3 i x hx
            refine ⟨p', q', ?_, ?_, by simpa using h6⟩
            · rw [show 2 * (i + 1) = 2 * i + 1 + 1 by omega, List.getElem?_cons_succ, List.getElem?_cons_succ]; exact h4
            · rw [show 2 * (i + 1) + 1 = (2 * i + 1) + 1 + 1 by omega, List.getElem?_cons_succ, List.getElem?_cons_succ]; exact h5

theorem setParameters_eq {t : Mdl d} (ht : ∀ c ∈ t.rbfs, c.a = 1) {params : List ℝ} (h : params.length = 1 + 2 * t.rbfs.length)
    (h0 : ∀ x, params[0]? = some x → 0 ≤ x) : ∃ m, t.setParameters params = .ok m ∧ Describes t params (fun _ => 1) m := by
  unfold Mdl.setParameters
  rw [numParameters_eq, if_neg (by simpa using h)]
  cases params with
  | nil => simp at h; omega
  | cons nugget ps =>
      obtain ⟨cs, h1, h2, h3⟩ := setLoop_eq t.rbfs ps (by simp at h; omega)
      dsimp only
      rw [if_neg (not_not.2 (h0 nugget rfl)), h1]
      refine ⟨⟨cs, nugget⟩, rfl, h, rfl, h2, ?_⟩
      intro i c hc
      obtain ⟨p, q, h4, h5, h6⟩ := h3 i c hc
      refine ⟨p, q, ?_, ?_, ?_⟩
      · rw [Nat.add_comm, List.getElem?_cons_succ]; exact h4
      · rw [show 2 + 2 * i = 2 * i + 1 + 1 by omega, List.getElem?_cons_succ]; exact h5
      · rw [h6, ht c (List.mem_of_getElem? hc)]

theorem traverse_getElem {α β : Type} (f : α → Outcome β) : ∀ (l : List α), (∀ x ∈ l, ∃ y, f x = .ok y) →
    ∃ l', Outcome.traverse f l = .ok l' ∧ l'.length = l.length ∧ ∀ (i : Nat) x, l[i]? = some x → ∃ y, f x = .ok y ∧ l'[i]? = some y
  | [], _ => ⟨[], rfl, rfl, fun i x h => by simp at h⟩
  | a :: l, h => by
      obtain ⟨y, hy⟩ := h a List.mem_cons_self
      obtain ⟨l', h1, h2, h3⟩ := traverse_getElem f l (fun x hx => h x (List.mem_cons_of_mem _ hx))
      refine ⟨y :: l', ?_, by simp [h2], ?_⟩
      · simp only [Outcome.traverse, hy, h1, Outcome.ok_bind, Outcome.pure_eq]
      · intro i x hx
        cases i with
        | zero =>
            simp only [List.getElem?_cons_zero, Option.some.injEq] at hx
            subst hx
            exact ⟨y, hy, rfl⟩
        | succ i => simpa using h3 i x (by simpa using hx)

theorem withAnisotropy_eq (S : Scheme d) (fit : Bool) {t m : Mdl d} {params : List ℝ} (hm : Describes t params (fun _ => 1) m)
    (b : S.Block) {A : Nat → Matrix (Fin d) (Fin d) ℝ} (hA : fit = true → Good S t.rbfs.length b A) :
    ∃ m', withAnisotropy S fit b m = .ok m' ∧ Describes t params (fun i => if fit = true then A i else 1) m' := by
  unfold withAnisotropy
  cases fit with
  | false => exact ⟨m, rfl, by simpa using hm⟩
  | true =>
      have hA := hA rfl
      have hset : ∀ (c : Cov d) (i : Nat), i < t.rbfs.length →
          (S.aniso b i).bind (fun a => setAnisotropy a c) = .ok { c with a := A i } := by
        intro c i hi
        rw [(hA i hi).1]
        show setAnisotropy (A i) c = _
        unfold setAnisotropy
        rw [if_pos (hA i hi).2]
      obtain ⟨cs, h1, h2, h3⟩ := traverse_getElem (fun c : Cov d × Nat => (S.aniso b c.2).bind (fun a => setAnisotropy a c.1)) m.rbfs.zipIdx
        (fun x hx => ⟨_, hset x.1 x.2 (by
          have := (List.getElem?_eq_some_iff.1 (List.mem_zipIdx_iff_getElem?.1 hx)).1
          rw [← hm.length]; exact this)⟩)
      rw [if_pos rfl]
      unfold setAnisotropies
      rw [h1]
      refine ⟨{ m with rbfs := cs }, rfl, hm.size, hm.nugget, ?_, ?_⟩
      · show cs.length = _
        rw [h2, List.length_zipIdx, hm.length]
      · intro i c hc
        obtain ⟨p, q, e1, e2, e3⟩ := hm.rbf i c hc
        have hi : i < t.rbfs.length := (List.getElem?_eq_some_iff.1 hc).1
        obtain ⟨y, hy1, hy2⟩ := h3 i (⟨c.k, p, q, 1⟩, i) (by rw [List.getElem?_zipIdx, e3]; simp)
        rw [hset _ i hi] at hy1
        injection hy1 with hy1
        exact ⟨p, q, e1, e2, by rw [if_pos rfl]; show cs[i]? = _; rw [hy2, ← hy1]⟩

/-- two descriptions give the same model -/
theorem Describes.unique {t m m' : Mdl d} {params : List ℝ} {A : Nat → Matrix (Fin d) (Fin d) ℝ} (h : Describes t params A m)
    (h' : Describes t params A m') : m = m' := by
  obtain ⟨cs, n⟩ := m
  obtain ⟨cs', n'⟩ := m'
  have hn : n = n' := by have := h.nugget.symm.trans h'.nugget; simpa using this
  have hcs : cs = cs' := by
    apply List.ext_getElem?
    intro i
    by_cases hi : i < t.rbfs.length
    · obtain ⟨p, q, a1, a2, a3⟩ := h.rbf i _ (List.getElem?_eq_getElem hi)
      obtain ⟨p', q', b1, b2, b3⟩ := h'.rbf i _ (List.getElem?_eq_getElem hi)
      have e1 : p = p' := by have := a1.symm.trans b1; simpa using this
      have e2 : q = q' := by have := a2.symm.trans b2; simpa using this
      subst e1; subst e2
      exact a3.trans b3.symm
    · have l1 := h.length
      have l2 := h'.length
      dsimp only at l1 l2
      rw [List.getElem?_eq_none (by omega), List.getElem?_eq_none (by omega)]
  rw [hn, hcs]

theorem modelGamma_eq (m : Mdl d) (h : Fin d → ℝ) : modelGamma m h = semivariance m h := by
  unfold modelGamma semivariance
  generalize m.nugget = n
  generalize m.rbfs = l
  induction l generalizing n with
  | nil => simp
  | cons c l ih => rw [List.foldl_cons, ih, List.map_cons, List.sum_cons]; ring

/-! ## C73 -/

open Classical in
/-- C73: at whatever parameters the solver evaluates the residuals - in or out of their bounds - the functor does not throw as long as the
anisotropies have a positive determinant; it evaluates the model whose parameters are the trial parameters with negative ones replaced by
zero; it fails if a range is zero, and otherwise the residual of each bin is the weight times the difference of the semivariances. -/
theorem C73_residual (S : Scheme d) {t : Mdl d} (ht : ∀ c ∈ t.rbfs, c.a = 1) (fit : Bool) (v : Variog d) (w : Weight) {params : List ℝ}
    (hp : params.length = 1 + 2 * t.rbfs.length) (b : S.Block) {A : Nat → Matrix (Fin d) (Fin d) ℝ}
    (hA : fit = true → Good S t.rbfs.length b A) :
    ∃ m, Describes t (params.map (max 0)) (fun i => if fit = true then A i else 1) m ∧
      residual S t fit v w params b = .ok (if ∃ c ∈ m.rbfs, c.q = 0 then none else
        some (v.bins.map (fun bin =>
          w.run bin.1 (semivariance m (bin.1 • v.dir)) bin.2.2 * (bin.2.1 - semivariance m (bin.1 • v.dir))))) := by
  obtain ⟨m1, h1, h2⟩ := setParameters_eq ht (params := params.map (max 0)) (by simpa using hp) (by
    intro x hx
    rw [List.getElem?_map] at hx
    obtain ⟨y, -, rfl⟩ := Option.map_eq_some_iff.1 hx
    exact le_max_left _ _)
  obtain ⟨m, h3, h4⟩ := withAnisotropy_eq S fit h2 b hA
  refine ⟨m, h4, ?_⟩
  have hm : residualModel S t fit params b = .ok m := by
    unfold residualModel
    rw [clampParameters_eq t params hp]
    show (t.setParameters _).bind _ = _
    rw [h1]
    exact h3
  unfold residual
  rw [hm]
  show Outcome.ok (computeResiduals m v w) = _
  unfold computeResiduals
  simp only [modelGamma_eq]

/-- C73: for parameters that respect their bounds, the model reported for them is the one the residuals are computed with: what is
minimised is what is returned. -/
theorem C73_reported_is_minimised (S : Scheme d) {t : Mdl d} (fit : Bool) {params : List ℝ}
    (hp : params.length = 1 + 2 * t.rbfs.length) (hpos : ∀ x ∈ params, 0 ≤ x) (b : S.Block) (v : Variog d) (w : Weight) :
    residual S t fit v w params b = (Fit.model (⟨t, fit, params, b⟩ : Fit S)).bind (fun m => .ok (computeResiduals m v w)) := by
  have hmax : params.map (max 0) = params := by
    conv_rhs => rw [← List.map_id params]
    exact List.map_congr_left fun x hx => max_eq_right (hpos x hx)
  unfold residual residualModel Fit.model
  rw [clampParameters_eq t params hp, hmax]
  rfl

theorem template_eq (m : Mdl d) : ∃ t, template m = .ok t ∧ t.nugget = m.nugget ∧ t.rbfs = m.rbfs.map (fun c => { c with a := 1 }) := by
  have : Outcome.traverse (setAnisotropy (1 : Matrix (Fin d) (Fin d) ℝ)) m.rbfs = .ok (m.rbfs.map (fun c => { c with a := 1 })) := by
    apply Outcome.traverse_ok
    intro c _
    unfold setAnisotropy
    rw [if_pos (by rw [Matrix.det_one]; exact one_pos)]
  refine ⟨{ m with rbfs := m.rbfs.map (fun c => { c with a := 1 }) }, ?_, rfl, rfl⟩
  unfold template
  rw [this]; rfl

/-- C73: if the solver respects the bounds it is given, fitting succeeds and the reported model has the functions of the given model in
order, the solver's parameters (all of them not negative), and the fitted anisotropies. -/
theorem C73_model (S : Scheme d) (m : Mdl d) (flag : Bool) (nv : Nat) (b0 : S.Block) (solve : List ℝ → S.Block → List ℝ × S.Block)
    (hlen : (solve m.parameters b0).1.length = m.parameters.length) (hpos : ∀ x ∈ (solve m.parameters b0).1, 0 ≤ x)
    {A : Nat → Matrix (Fin d) (Fin d) ℝ} (hA : fitted S flag nv = true → Good S m.rbfs.length (solve m.parameters b0).2 A) :
    ∃ f r, construct S m flag nv b0 solve = .ok f ∧ f.model = .ok r ∧
      Describes m (solve m.parameters b0).1 (fun i => if fitted S flag nv = true then A i else 1) r := by
  obtain ⟨t, h1, h2, h3⟩ := template_eq m
  have ht : ∀ c ∈ t.rbfs, c.a = 1 := by
    rw [h3]; intro c hc
    obtain ⟨c', -, rfl⟩ := List.mem_map.1 hc
    rfl
  have hl : t.rbfs.length = m.rbfs.length := by rw [h3, List.length_map]
  have hpl : m.parameters.length = 1 + 2 * m.rbfs.length := by
    have : ∀ (l : List (Cov d)) (acc : List ℝ), (l.foldl (fun l c => l ++ [c.p, c.q]) acc).length = acc.length + 2 * l.length := by
      intro l
      induction l with
      | nil => intro acc; simp
      | cons c l ih => intro acc; rw [List.foldl_cons, ih, List.length_append, List.length_cons]; simp; omega
    exact this _ _
  obtain ⟨m1, h4, h5⟩ := setParameters_eq ht (params := (solve m.parameters b0).1) (by rw [hlen, hpl, hl]) (by
    intro x hx
    exact hpos x (List.mem_of_getElem? hx))
  obtain ⟨r, h6, h7⟩ := withAnisotropy_eq S (fitted S flag nv) h5 (solve m.parameters b0).2 (by rw [hl]; exact hA)
  refine ⟨⟨t, fitted S flag nv, (solve m.parameters b0).1, (solve m.parameters b0).2⟩, r, ?_, ?_, ?_⟩
  · unfold construct; rw [h1]; rfl
  · unfold Fit.model
    dsimp only
    rw [h4]
    exact h6
  · refine ⟨by rw [h7.size, hl], h7.nugget, by rw [h7.length, hl], ?_⟩
    intro i c hc
    exact h7.rbf i { c with a := 1 } (by rw [h3, List.getElem?_map, hc]; rfl)

/-- C73, a defect: the anisotropy of the given model is lost. If anisotropy is not fitted - because the caller does not want it, or there are
too few directions, or in one dimension - the reported model is isotropic whatever the given model was. -/
theorem C73_anisotropy_discarded (S : Scheme d) (m : Mdl d) (flag : Bool) (nv : Nat) (b0 : S.Block)
    (solve : List ℝ → S.Block → List ℝ × S.Block) (hfit : fitted S flag nv = false) {f : Fit S} {r : Mdl d}
    (hf : construct S m flag nv b0 solve = .ok f) (hr : f.model = .ok r) : ∀ c ∈ r.rbfs, c.a = 1 := by
  obtain ⟨t, h1, h2, h3⟩ := template_eq m
  unfold construct at hf
  rw [h1] at hf
  have hf' : f = ⟨t, false, (solve m.parameters b0).1, (solve m.parameters b0).2⟩ := by
    rw [hfit] at hf
    injection hf with hf
    exact hf.symm
  subst hf'
  unfold Fit.model withAnisotropy at hr
  dsimp only at hr
  unfold Mdl.setParameters at hr
  split at hr
  · cases hr
  · rename_i hlen
    split at hr
    · cases hr
    · rename_i nugget ps hsol
      rw [hsol] at hlen
      split at hr
      · cases hr
      · obtain ⟨cs, e1, e2, e3⟩ := setLoop_eq t.rbfs ps (by
          rw [not_not, numParameters_eq] at hlen
          simp at hlen; omega)
        rw [e1] at hr
        have hr' : (⟨cs, nugget⟩ : Mdl d) = r := by simpa [Outcome.bind] using hr
        rw [← hr']
        intro c hc
        obtain ⟨i, hi⟩ := List.getElem?_of_mem hc
        have hi' : i < t.rbfs.length := by rw [← e2]; exact (List.getElem?_eq_some_iff.1 hi).1
        obtain ⟨p, q, -, -, e4⟩ := e3 i _ (List.getElem?_eq_getElem hi')
        rw [hi] at e4
        injection e4 with e4
        rw [e4]
        have hm : t.rbfs[i] ∈ t.rbfs := List.getElem_mem hi'
        show (t.rbfs[i]).a = 1
        generalize t.rbfs[i] = x at hm ⊢
        rw [h3] at hm
        obtain ⟨c', -, hc'⟩ := List.mem_map.1 hm
        rw [← hc']

/-- When anisotropy is fitted. -/
theorem C73_fitted (flag : Bool) (nv : Nat) : fitted scheme1 flag nv = false ∧ (fitted scheme2 flag nv = true ↔ flag = true ∧ 2 ≤ nv) ∧
    (fitted scheme3 flag nv = true ↔ flag = true ∧ 3 ≤ nv) := by
  refine ⟨rfl, ?_, ?_⟩ <;> simp [fitted, scheme2, scheme3]

/-- C73: a function whose second parameter is zero - a polyharmonic one as it is constructed by default - makes every evaluation at the
initial parameters fail, so nothing is fitted. -/
theorem C73_zero_parameter_fails (S : Scheme d) {t : Mdl d} (ht : ∀ c ∈ t.rbfs, c.a = 1)
    (hz : ∃ c ∈ t.rbfs, c.q = 0) (fit : Bool) (v : Variog d) (w : Weight) (b : S.Block) {A : Nat → Matrix (Fin d) (Fin d) ℝ}
    (hA : fit = true → Good S t.rbfs.length b A) : residual S t fit v w t.parameters b = .ok none := by
  have hpar : t.parameters = t.nugget :: t.rbfs.flatMap (fun c => [c.p, c.q]) := by
    have : ∀ (l : List (Cov d)) (acc : List ℝ), l.foldl (fun l c => l ++ [c.p, c.q]) acc = acc ++ l.flatMap (fun c => [c.p, c.q]) := by
      intro l
      induction l with
      | nil => intro acc; simp
      | cons c l ih => intro acc; rw [List.foldl_cons, ih, List.flatMap_cons, List.append_assoc]
    exact this _ _
  have hat : ∀ (l : List (Cov d)) (i : Nat) c, l[i]? = some c → (l.flatMap (fun c => [c.p, c.q]))[2 * i + 1]? = some c.q := by
    intro l
    induction l with
    | nil => intro i c h; simp at h
    | cons x l ih =>
        intro i c h
        rw [List.flatMap_cons]
        cases i with
        | zero => simp at h; subst h; rfl
        | succ i =>
            rw [show 2 * (i + 1) + 1 = (2 * i + 1) + 2 by omega]
            exact ih i c (by simpa using h)
  have hflen : ∀ (l : List (Cov d)), (l.flatMap (fun c => [c.p, c.q])).length = 2 * l.length := by
    intro l
    induction l with
    | nil => rfl
    | cons x l ih => rw [List.flatMap_cons, List.length_append, ih, List.length_cons]; simp; omega
  have hlen : t.parameters.length = 1 + 2 * t.rbfs.length := by rw [hpar, List.length_cons, hflen]; omega
  obtain ⟨m, hm, hres⟩ := C73_residual S ht fit v w hlen b hA
  rw [hres]
  obtain ⟨c, hc, hq⟩ := hz
  obtain ⟨i, hi⟩ := List.getElem?_of_mem hc
  obtain ⟨p, q, e1, e2, e3⟩ := hm.rbf i c hi
  have hq' : q = 0 := by
    rw [List.getElem?_map, hpar, show 2 + 2 * i = 2 * i + 1 + 1 by omega, List.getElem?_cons_succ, hat _ _ _ hi, hq] at e2
    simpa using e2.symm
  rw [if_pos ⟨_, List.mem_of_getElem? e3, hq'⟩]

/-! ## weights -/

/-- C73: the sum of squared residuals is the weighted sum of squared differences: the squared residual of a bin is the squared difference
times distance, semivariance of the model and number of pairs to the given powers. -/
theorem C73_weight (w : Weight) {dist g : ℝ} {n : Nat} (hd : 0 < dist) (hg : 0 < g) (hn : 0 < n) (x : ℝ) :
    (w.run dist g n * x) ^ 2 = dist ^ w.expDistance * g ^ w.expModelGamma * (n : ℝ) ^ w.expNumPairs * x ^ 2 := by
  have hn' : (0 : ℝ) < n := by exact_mod_cast hn
  have key : ∀ {y : ℝ} (e : ℝ), 0 < y → (y ^ (0.5 * e)) ^ 2 = y ^ e := by
    intro y e hy
    rw [← Real.rpow_natCast, ← Real.rpow_mul hy.le]
    congr 1
    norm_num
    ring
  unfold Weight.run
  rw [mul_pow, mul_pow, mul_pow, key _ hd, key _ hg, key _ hn']

/-- C73: what the predefined weight functions mean. -/
theorem C73_predefined_weights {dist g : ℝ} {n : Nat} (hd : 0 < dist) (hg : 0 < g) (hn : 0 < n) (x : ℝ) :
    (kNumPairs.run dist g n * x) ^ 2 = n * x ^ 2 ∧
    (kNumPairsOverDistanceSquared.run dist g n * x) ^ 2 = n / dist ^ 2 * x ^ 2 ∧
    (kNumPairsOverModelGammaSquared.run dist g n * x) ^ 2 = n / g ^ 2 * x ^ 2 ∧
    (kOne.run dist g n * x) ^ 2 = x ^ 2 ∧
    (kOneOverDistanceSquared.run dist g n * x) ^ 2 = 1 / dist ^ 2 * x ^ 2 ∧
    (kOneOverModelGammaSquared.run dist g n * x) ^ 2 = 1 / g ^ 2 * x ^ 2 := by
  have m2 : ∀ {y : ℝ}, 0 < y → y ^ (-2 : ℝ) = 1 / y ^ 2 := by
    intro y hy
    rw [Real.rpow_neg hy.le, one_div]
    congr 1
    exact_mod_cast Real.rpow_natCast y 2
  refine ⟨?_, ?_, ?_, ?_, ?_, ?_⟩ <;> rw [C73_weight _ hd hg hn] <;>
    simp only [kNumPairs, kNumPairsOverDistanceSquared, kNumPairsOverModelGammaSquared, kOne, kOneOverDistanceSquared,
      kOneOverModelGammaSquared, Real.rpow_zero, Real.rpow_one, m2 hd, m2 hg] <;> ring

/-- C73: the semivariance of a model of covariance functions starts at the nugget and stays between it and the sill. -/
theorem C73_semivariance_bounds (m : Mdl d) (h : ∀ c ∈ m.rbfs, IsCovariance c.k ∧ 0 ≤ c.p ∧ 0 < c.q) (x : Fin d → ℝ) :
    semivariance m 0 = m.nugget ∧ m.nugget ≤ semivariance m x ∧ semivariance m x ≤ m.nugget + (m.rbfs.map Cov.p).sum := by
  unfold semivariance
  refine ⟨by simp, ?_, ?_⟩
  · have : 0 ≤ (m.rbfs.map (fun c => evaluate c.k c.p c.q c.a 0 - evaluate c.k c.p c.q c.a x)).sum := by
      apply List.sum_nonneg
      intro y hy
      obtain ⟨c, hc, rfl⟩ := List.mem_map.1 hy
      obtain ⟨h1, h2, h3⟩ := h c hc
      rw [C42_at_origin c.k h1 c.p c.q h3 c.a]
      have := (C42_bounds c.k h1 c.p c.q h2 h3 c.a x).2
      linarith
    linarith
  · have : (m.rbfs.map (fun c => evaluate c.k c.p c.q c.a 0 - evaluate c.k c.p c.q c.a x)).sum ≤ (m.rbfs.map Cov.p).sum := by
      apply List.sum_le_sum
      intro c hc
      obtain ⟨h1, h2, h3⟩ := h c hc
      rw [C42_at_origin c.k h1 c.p c.q h3 c.a]
      have := (C42_bounds c.k h1 c.p c.q h2 h3 c.a x).1
      linarith
    linarith

/-! ## anisotropies -/

theorem rot2_orthogonal (t : ℝ) : (rot2 t).transpose * rot2 t = 1 ∧ (rot2 t).det = 1 := by
  constructor
  · ext i j
    fin_cases i <;> fin_cases j <;> simp [rot2, Matrix.mul_apply, Fin.sum_univ_two] <;>
      nlinarith [Real.sin_sq_add_cos_sq t]
  · simp [rot2, Matrix.det_fin_two]
    nlinarith [Real.sin_sq_add_cos_sq t]

theorem quat_orthogonal {q : Quat} (h : q.sq = 1 ∨ q.sq = 0) : q.rot.transpose * q.rot = 1 ∧ q.rot.det = 1 := by
  obtain ⟨x, y, z, w⟩ := q
  rcases h with h | h
  · have hw : x * x + y * y + z * z + w * w = 1 := h
    constructor
    · ext i j
      fin_cases i <;> fin_cases j <;>
        simp [Quat.rot, Matrix.mul_apply, Fin.sum_univ_three]
      · linear_combination (4 * (y * y + z * z)) * hw
      · linear_combination (-4 * (x * y)) * hw
      · linear_combination (-4 * (x * z)) * hw
      · linear_combination (-4 * (x * y)) * hw
      · linear_combination (4 * (x * x + z * z)) * hw
      · linear_combination (-4 * (y * z)) * hw
      · linear_combination (-4 * (x * z)) * hw
      · linear_combination (-4 * (y * z)) * hw
      · linear_combination (4 * (x * x + y * y)) * hw
    · simp [Quat.rot, Matrix.det_fin_three]
      linear_combination (4 * (x * x + y * y + z * z) * 1) * hw
  · have hw : x * x + y * y + z * z + w * w = 0 := h
    have hx : x = 0 := by nlinarith [mul_self_nonneg x, mul_self_nonneg y, mul_self_nonneg z, mul_self_nonneg w]
    have hy : y = 0 := by nlinarith [mul_self_nonneg x, mul_self_nonneg y, mul_self_nonneg z, mul_self_nonneg w]
    have hz : z = 0 := by nlinarith [mul_self_nonneg x, mul_self_nonneg y, mul_self_nonneg z, mul_self_nonneg w]
    have hw' : w = 0 := by nlinarith [mul_self_nonneg x, mul_self_nonneg y, mul_self_nonneg z, mul_self_nonneg w]
    subst hx hy hz hw'
    have : Quat.rot ⟨0, 0, 0, 0⟩ = 1 := by
      ext i j
      fin_cases i <;> fin_cases j <;> simp [Quat.rot]
    rw [this]
    simp

theorem normalized_sq (q : Quat) : q.normalized.sq = 1 ∨ q.normalized.sq = 0 := by
  unfold Quat.normalized
  split
  · rename_i h
    left
    have hs : Real.sqrt q.sq ≠ 0 := (Real.sqrt_pos.2 h).ne'
    show q.x / _ * (q.x / _) + _ + _ + _ = 1
    field_simp
    rw [Real.sq_sqrt h.le]
    unfold Quat.sq
    ring1
  · rename_i h
    right
    have : 0 ≤ q.sq := by unfold Quat.sq; nlinarith [mul_self_nonneg q.x, mul_self_nonneg q.y, mul_self_nonneg q.z, mul_self_nonneg q.w]
    linarith

theorem sq_orthogonal {n : Nat} {R : Matrix (Fin n) (Fin n) ℝ} (h : R.transpose * R = 1) (v : Fin n → ℝ) :
    Kernel.sq (R.mulVec v) = Kernel.sq v := by
  have e : ∀ u : Fin n → ℝ, Kernel.sq u = u ⬝ᵥ u := fun u => rfl
  rw [e, e, Matrix.dotProduct_mulVec, Matrix.vecMul_mulVec, h, Matrix.vecMul_one]

/-- C73: in two dimensions a block within its bounds always gives anisotropies with a positive determinant - nothing throws - that are a
rotation followed by a scaling of the second axis: the range in any direction lies between the range parameter (major) and a hundredth of
it, as norms are stretched by a factor between 1 and 100. -/
theorem C73_anisotropy_2d (n : Nat) (t : ℝ) (minors : List ℝ) (h : scheme2.Within n (t, minors)) :
    Good scheme2 n (t, minors) (fun i => scale2 (minors.getD i 1) * rot2 t) ∧
    ∀ i < n, ∀ v : Fin 2 → ℝ, Kernel.sq v ≤ Kernel.sq ((scale2 (minors.getD i 1) * rot2 t).mulVec v) ∧
      Kernel.sq ((scale2 (minors.getD i 1) * rot2 t).mulVec v) ≤ (minors.getD i 1) ^ 2 * Kernel.sq v ∧ 1 ≤ minors.getD i 1 ∧
      minors.getD i 1 ≤ 100 := by
  obtain ⟨hl, hb⟩ := h
  dsimp only at hl hb
  have get : ∀ i < n, minors[i]? = some (minors.getD i 1) ∧ 1 ≤ minors.getD i 1 ∧ minors.getD i 1 ≤ 100 := by
    intro i hi
    have hi' : i < minors.length := by omega
    have e : minors.getD i 1 = minors[i] := by simp [List.getD, hi']
    rw [e]
    exact ⟨List.getElem?_eq_getElem hi', hb _ (List.getElem_mem hi')⟩
  obtain ⟨o1, o2⟩ := rot2_orthogonal t
  constructor
  · intro i hi
    obtain ⟨g1, g2, g3⟩ := get i hi
    constructor
    · show (at' minors i).bind _ = _
      unfold at'
      rw [g1]; rfl
    · dsimp only
      rw [Matrix.det_mul, o2, mul_one]
      generalize minors.getD i 1 = s at g2
      simp [scale2, Matrix.det_fin_two]
      linarith
  · intro i hi v
    obtain ⟨g1, g2, g3⟩ := get i hi
    rw [← Matrix.mulVec_mulVec, ← sq_orthogonal o1 v]
    generalize (rot2 t).mulVec v = u
    generalize minors.getD i 1 = s at g2 g3
    have e1 : Kernel.sq ((scale2 s).mulVec u) = u 0 * u 0 + (s * u 1) * (s * u 1) := by
      simp [Kernel.sq, scale2, Matrix.mulVec, dotProduct, Fin.sum_univ_two]
    have e2 : Kernel.sq u = u 0 * u 0 + u 1 * u 1 := by simp [Kernel.sq, Fin.sum_univ_two]
    rw [e1, e2]
    have hs1 : 1 ≤ s * s := by nlinarith
    refine ⟨?_, ?_, g2, g3⟩
    · nlinarith [mul_self_nonneg (u 1), mul_le_mul_of_nonneg_right hs1 (mul_self_nonneg (u 1))]
    · nlinarith [mul_self_nonneg (u 0), mul_le_mul_of_nonneg_right hs1 (mul_self_nonneg (u 0))]

/-- C73: in three dimensions, whatever quaternion the solver ends with (even a zero one), a block within its bounds gives anisotropies with
a positive determinant, a rotation followed by a scaling; the range along the first rotated axis is the largest and that along the third the
smallest. -/
theorem C73_anisotropy_3d (n : Nat) (q : Quat) (majors minors : List ℝ) (h : scheme3.Within n (q, majors, minors)) :
    Good scheme3 n (q, majors, minors) (fun i => scale3 (majors.getD i 1) (minors.getD i 1) * q.normalized.rot) ∧
    (q.normalized.rot).transpose * q.normalized.rot = 1 ∧ (q.normalized.rot).det = 1 ∧
    ∀ i < n, 0.01 ≤ majors.getD i 1 ∧ majors.getD i 1 ≤ 1 ∧ 1 ≤ minors.getD i 1 ∧ minors.getD i 1 ≤ 100 ∧ ∀ v : Fin 3 → ℝ,
      (majors.getD i 1) ^ 2 * Kernel.sq v ≤ Kernel.sq ((scale3 (majors.getD i 1) (minors.getD i 1) * q.normalized.rot).mulVec v) ∧
      Kernel.sq ((scale3 (majors.getD i 1) (minors.getD i 1) * q.normalized.rot).mulVec v) ≤ (minors.getD i 1) ^ 2 * Kernel.sq v := by
  obtain ⟨hl1, hl2, hb1, hb2⟩ := h
  dsimp only at hl1 hl2 hb1 hb2
  have get1 : ∀ i < n, majors[i]? = some (majors.getD i 1) ∧ 0.01 ≤ majors.getD i 1 ∧ majors.getD i 1 ≤ 1 := by
    intro i hi
    have hi' : i < majors.length := by omega
    have e : majors.getD i 1 = majors[i] := by simp [List.getD, hi']
    rw [e]
    exact ⟨List.getElem?_eq_getElem hi', hb1 _ (List.getElem_mem hi')⟩
  have get2 : ∀ i < n, minors[i]? = some (minors.getD i 1) ∧ 1 ≤ minors.getD i 1 ∧ minors.getD i 1 ≤ 100 := by
    intro i hi
    have hi' : i < minors.length := by omega
    have e : minors.getD i 1 = minors[i] := by simp [List.getD, hi']
    rw [e]
    exact ⟨List.getElem?_eq_getElem hi', hb2 _ (List.getElem_mem hi')⟩
  obtain ⟨o1, o2⟩ := quat_orthogonal (normalized_sq q)
  refine ⟨?_, o1, o2, ?_⟩
  · intro i hi
    obtain ⟨g1, g2, g3⟩ := get1 i hi
    obtain ⟨k1, k2, k3⟩ := get2 i hi
    constructor
    · show (at' majors i).bind _ = _
      unfold at'
      rw [g1]
      show (at' minors i).bind _ = _
      unfold at'
      rw [k1]; rfl
    · dsimp only
      rw [Matrix.det_mul, o2, mul_one]
      generalize minors.getD i 1 = s at k2
      generalize majors.getD i 1 = a at g2
      simp [scale3, Matrix.det_fin_three]
      exact mul_pos (by linarith) (by linarith)
  · intro i hi
    obtain ⟨g1, g2, g3⟩ := get1 i hi
    obtain ⟨k1, k2, k3⟩ := get2 i hi
    refine ⟨g2, g3, k2, k3, fun v => ?_⟩
    rw [← Matrix.mulVec_mulVec, ← sq_orthogonal o1 v]
    generalize (q.normalized.rot).mulVec v = u
    generalize majors.getD i 1 = a at g2 g3
    generalize minors.getD i 1 = s at k2 k3
    have e1 : Kernel.sq ((scale3 a s).mulVec u) = a * a * (u 0 * u 0) + u 1 * u 1 + s * s * (u 2 * u 2) := by
      simp [Kernel.sq, scale3, Matrix.mulVec, dotProduct, Fin.sum_univ_three]
      ring
    have e2 : Kernel.sq u = u 0 * u 0 + u 1 * u 1 + u 2 * u 2 := by simp [Kernel.sq, Fin.sum_univ_three]
    rw [e1, e2]
    have h0 := mul_self_nonneg (u 0)
    have h1 := mul_self_nonneg (u 1)
    have h2 := mul_self_nonneg (u 2)
    have ha : 0 < a := by linarith
    have ha1 : a * a ≤ 1 := by nlinarith
    have hs1 : 1 ≤ s * s := by nlinarith
    have q1 := mul_le_mul_of_nonneg_right ha1 h1
    have q2 := mul_le_mul_of_nonneg_right (ha1.trans hs1) h2
    have q3 := mul_le_mul_of_nonneg_right hs1 h1
    have q4 := mul_le_mul_of_nonneg_right (ha1.trans hs1) h0
    rw [pow_two, pow_two]
    generalize u 0 * u 0 = U0 at *
    generalize u 1 * u 1 = U1 at *
    generalize u 2 * u 2 = U2 at *
    generalize a * a = a2 at *
    generalize s * s = s2 at *
    rw [mul_add, mul_add, mul_add, mul_add]
    constructor
    · linarith
    · linarith

/-! ## optimality -/

/-- The objective: the weighted sum of squared differences between the semivariances in the bins and those of the model. -/
noncomputable def objective (vs : List (Variog d)) (w : Weight) (m : Mdl d) : ℝ :=
  (vs.map (fun v => (v.bins.map (fun bin =>
    (w.run bin.1 (semivariance m (bin.1 • v.dir)) bin.2.2 * (bin.2.1 - semivariance m (bin.1 • v.dir))) ^ 2)).sum)).sum

/-- What the solver sees of a point: the sum of the squares of all residuals, if no functor fails. -/
def Seen (S : Scheme d) (t : Mdl d) (fit : Bool) (vs : List (Variog d)) (w : Weight) (params : List ℝ) (b : S.Block) (x : ℝ) : Prop :=
  ∃ rss : List (List ℝ), List.Forall₂ (fun v rs => residual S t fit v w params b = .ok (some rs)) vs rss ∧
    x = (rss.map (fun rs => (rs.map (· ^ 2)).sum)).sum

open Classical in
theorem seen_iff (S : Scheme d) {t m : Mdl d} {fit : Bool} (vs : List (Variog d)) (w : Weight) {params : List ℝ} (b : S.Block)
    (h : ∀ v, residual S t fit v w params b = .ok (if ∃ c ∈ m.rbfs, c.q = 0 then none else
        some (v.bins.map (fun bin =>
          w.run bin.1 (semivariance m (bin.1 • v.dir)) bin.2.2 * (bin.2.1 - semivariance m (bin.1 • v.dir))))))
    (hq : ∀ c ∈ m.rbfs, c.q ≠ 0) (x : ℝ) : Seen S t fit vs w params b x ↔ x = objective vs w m := by
  have hn : ¬ ∃ c ∈ m.rbfs, c.q = 0 := fun ⟨c, hc, h0⟩ => hq c hc h0
  have h' : ∀ v, residual S t fit v w params b = .ok (some (v.bins.map (fun bin =>
          w.run bin.1 (semivariance m (bin.1 • v.dir)) bin.2.2 * (bin.2.1 - semivariance m (bin.1 • v.dir))))) := by
    intro v; rw [h v, if_neg hn]
  unfold Seen objective
  constructor
  · rintro ⟨rss, h1, rfl⟩
    induction h1 with
    | nil => rfl
    | cons hv _ ih =>
        rw [h'] at hv
        injection hv with hv
        injection hv with hv
        rw [List.map_cons, List.map_cons, List.sum_cons, List.sum_cons, ih, ← hv, List.map_map]
        rfl
  · intro hx
    refine ⟨vs.map (fun v => v.bins.map (fun bin =>
          w.run bin.1 (semivariance m (bin.1 • v.dir)) bin.2.2 * (bin.2.1 - semivariance m (bin.1 • v.dir)))), ?_, ?_⟩
    · clear hx
      induction vs with
      | nil => exact .nil
      | cons v vs ih => exact .cons (h' v) ih
    · rw [hx, List.map_map]
      congr 1
      apply List.map_congr_left
      intro v _
      simp only [Function.comp, List.map_map]
      rfl

/-- C73: if the solver finds the smallest sum of squares among the parameters within their bounds for which no functor fails, the reported
model has the smallest weighted sum of squared differences among all models with the functions of the given model, parameters that are not
negative, no zero second parameter and anisotropies that the blocks allow. -/
theorem C73_optimal (S : Scheme d) (m : Mdl d) (flag : Bool) (nv : Nat) (b0 : S.Block) (solve : List ℝ → S.Block → List ℝ × S.Block)
    (vs : List (Variog d)) (w : Weight) {f : Fit S} (hf : construct S m flag nv b0 solve = .ok f)
    (hlen : (solve m.parameters b0).1.length = 1 + 2 * m.rbfs.length) (hpos : ∀ x ∈ (solve m.parameters b0).1, 0 ≤ x)
    {A : Nat → Matrix (Fin d) (Fin d) ℝ} (hA : fitted S flag nv = true → Good S m.rbfs.length (solve m.parameters b0).2 A)
    {x : ℝ} (hx : Seen S f.template f.fitAnisotropy vs w f.params f.block x) (hvs : vs ≠ [])
    (hopt : ∀ params' b' x', params'.length = 1 + 2 * m.rbfs.length → (∀ y ∈ params', 0 ≤ y) → S.Within m.rbfs.length b' →
      Seen S f.template f.fitAnisotropy vs w params' b' x' → x ≤ x') :
    ∃ r, f.model = .ok r ∧ x = objective vs w r ∧ ∀ params' b' A' r', (∀ y ∈ params', 0 ≤ y) → S.Within m.rbfs.length b' →
      (fitted S flag nv = true → Good S m.rbfs.length b' A') →
      Describes m params' (fun i => if fitted S flag nv = true then A' i else 1) r' → (∀ c ∈ r'.rbfs, c.q ≠ 0) →
      objective vs w r ≤ objective vs w r' := by
  obtain ⟨t, h1, h2, h3⟩ := template_eq m
  have ht : ∀ c ∈ t.rbfs, c.a = 1 := by
    rw [h3]; intro c hc
    obtain ⟨c', -, rfl⟩ := List.mem_map.1 hc
    rfl
  have hl : t.rbfs.length = m.rbfs.length := by rw [h3, List.length_map]
  have hf' : f = ⟨t, fitted S flag nv, (solve m.parameters b0).1, (solve m.parameters b0).2⟩ := by
    unfold construct at hf
    rw [h1] at hf
    injection hf with hf
    exact hf.symm
  subst hf'
  dsimp only at hx hopt
  generalize hps : (solve m.parameters b0).1 = ps at *
  generalize (solve m.parameters b0).2 = b at *
  have hmax : ∀ {ps : List ℝ}, (∀ y ∈ ps, 0 ≤ y) → ps.map (max 0) = ps := by
    intro ps h
    conv_rhs => rw [← List.map_id ps]
    exact List.map_congr_left fun x hx => max_eq_right (h x hx)
  -- a description with respect to the given model is one with respect to the template
  have hdesc : ∀ {ps A r}, Describes m ps A r → Describes t ps A r := by
    intro ps A r h
    refine ⟨by rw [hl]; exact h.size, h.nugget, by rw [hl]; exact h.length, ?_⟩
    intro i c hc
    rw [h3, List.getElem?_map] at hc
    obtain ⟨c', hc', rfl⟩ := Option.map_eq_some_iff.1 hc
    exact h.rbf i c' hc'
  have hdesc' : ∀ {ps A r}, Describes t ps A r → Describes m ps A r := by
    intro ps A r h
    refine ⟨by rw [← hl]; exact h.size, h.nugget, by rw [← hl]; exact h.length, ?_⟩
    intro i c hc
    obtain ⟨p, q, e1, e2, e3⟩ := h.rbf i { c with a := 1 } (by rw [h3, List.getElem?_map, hc]; rfl)
    exact ⟨p, q, e1, e2, e3⟩
  obtain ⟨m1, h4, h5⟩ := setParameters_eq ht (params := ps) (by rw [hlen, hl]) (fun y hy => hpos y (List.mem_of_getElem? hy))
  obtain ⟨r, h6, h7⟩ := withAnisotropy_eq S (fitted S flag nv) h5 b (A := A) (by rw [hl]; exact hA)
  have hr : Fit.model (⟨t, fitted S flag nv, ps, b⟩ : Fit S) = .ok r := by
    unfold Fit.model
    dsimp only
    rw [h4]
    exact h6
  have hres : ∀ v, residual S t (fitted S flag nv) v w ps b = .ok (computeResiduals r v w) := by
    intro v
    rw [C73_reported_is_minimised S (fitted S flag nv) (by rw [hlen, hl]) hpos b v w, hr]
    rfl
  have hqr : ∀ c ∈ r.rbfs, c.q ≠ 0 := by
    obtain ⟨rss, hF, -⟩ := hx
    cases hF with
    | nil => exact absurd rfl hvs
    | cons hv _ =>
        rw [hres] at hv
        intro c hc h0
        unfold computeResiduals at hv
        rw [if_pos ⟨c, hc, h0⟩] at hv
        cases hv
  have hxr : x = objective vs w r := by
    refine (seen_iff S vs w b ?_ hqr x).1 hx
    intro v
    rw [hres]
    unfold computeResiduals
    simp only [modelGamma_eq]
  refine ⟨r, hr, hxr, ?_⟩
  intro ps' b' A' r' hp' hb' hA' hd' hq'
  rw [← hxr]
  refine hopt ps' b' _ hd'.size hp' hb' ((seen_iff S vs w b' (m := r') ?_ hq' _).2 rfl)
  intro v
  obtain ⟨m2, e1, e2⟩ := C73_residual S ht (fitted S flag nv) v w (params := ps') (by rw [hl]; exact hd'.size) b' (A := A')
    (by rw [hl]; exact hA')
  rw [hmax hp'] at e1
  rw [e1.unique (hdesc hd')] at e2
  exact e2

/-! ## examples -/

/-- one exponential function -/
noncomputable def sample : Mdl 2 := ⟨[⟨.exponential, 2, 3, 1⟩], 1⟩

/-- blocks within their bounds exist, and a solver that leaves everything as it is respects them -/
example : scheme2.Within 1 (0, [1]) ∧ scheme3.Within 1 (⟨0, 0, 0, 1⟩, [1], [1]) ∧
    ∃ f r, construct scheme2 sample true 2 (0, [1]) (fun p b => (p, b)) = .ok f ∧ f.model = .ok r ∧ r.nugget = 1 := by
  have hw : scheme2.Within 1 (0, [1]) := ⟨rfl, by intro s hs; simp at hs; subst hs; norm_num⟩
  refine ⟨hw, ⟨rfl, rfl, by intro s hs; simp at hs; subst hs; norm_num, by intro s hs; simp at hs; subst hs; norm_num⟩, ?_⟩
  obtain ⟨f, r, h1, h2, h3⟩ := C73_model scheme2 sample true 2 (0, [1]) (fun p b => (p, b)) rfl
    (by intro x hx; simp [sample, Mdl.parameters] at hx; rcases hx with rfl | rfl | rfl <;> norm_num)
    (fun _ => (C73_anisotropy_2d 1 0 [1] hw).1)
  refine ⟨f, r, h1, h2, ?_⟩
  have := h3.nugget
  simpa [sample, Mdl.parameters] using this.symm

/-- a polyharmonic function with its default parameters makes the functors fail -/
example (v : Variog 1) (w : Weight) : residual scheme1 ⟨[⟨.odd 0, 1, 0, 1⟩], 0⟩ false v w [0, 1, 0] () = .ok none :=
  C73_zero_parameter_fails scheme1 (t := ⟨[⟨.odd 0, 1, 0, 1⟩], 0⟩) (by simp) (by simp) false v w () (A := fun _ => 1) (by simp)

/-- the semivariance of the sample stays between nugget and sill -/
example (x : Fin 2 → ℝ) : 1 ≤ semivariance sample x ∧ semivariance sample x ≤ 3 := by
  have h := (C73_semivariance_bounds sample (by
    intro c hc; simp [sample] at hc; subst hc; exact ⟨trivial, by norm_num, by norm_num⟩) x).2
  simp only [sample] at h ⊢
  simp at h
  exact ⟨h.1, by linarith [h.2]⟩

end Verif.VariogramFitting
