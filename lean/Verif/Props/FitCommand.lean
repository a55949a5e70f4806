import Verif.Spec.FitCommand
import Verif.Props.Interpolant
import Verif.Props.Cli
import Verif.Props.MakeModel
import Verif.Props.Obj

/-!
# C84: create-model, fit, evaluate and extract-model work together
-/

namespace Verif.FitCommand

open Verif Verif.Table Verif.Cli Verif.RbfModel Verif.Io
open Verif.Interpolant (Pt State Env Res Init Op Snap basisSize EnoughPoints NumArgsOk InitOk StartOk Allowed GoodOp C14_step)

variable {L : Lib} {N : Nat}

/-! ## Files -/

theorem matrixOf_rows (cols : Nat) (rows : List (List Dbl)) (h : ∀ r ∈ rows, r.length = cols) : rowsOfMatrix (matrixOf cols rows) = rows := by
  have e := reshaped_flatMap cols (fun r : List Dbl => r) rows h
  rw [List.flatMap_id', List.map_id'] at e
  exact e

theorem flatten_length (cols : Nat) (rows : List (List Dbl)) (h : ∀ r ∈ rows, r.length = cols) : rows.flatten.length = rows.length * cols := by
  have e := flatMap_length cols (fun r : List Dbl => r) rows h
  rw [List.flatMap_id', Nat.mul_comm] at e
  exact e

theorem matrixOf_fits (cols : Nat) (rows : List (List Dbl)) (h : ∀ r ∈ rows, r.length = cols) (hl : rows.length < 2 ^ 64) : (matrixOf cols rows).Fits none (some cols) :=
  ⟨hl, rfl, flatten_length cols rows h⟩

/-- A fitted interpolant that was saved is loaded with the same fields. -/
theorem load_stored (hL : LibOk L N) {dim : Nat} (hd : dim = 1 ∨ dim = 2 ∨ dim = 3) (s : State BboxS) (hm : ModelStorable L.detPos dim N s.model) (hf : s.fitted = true)
    (hc : ∀ p ∈ s.centers, p.length = dim) (hg : ∀ p ∈ s.gradCenters, p.length = dim) (hb : s.bbox.min.Fits (some 1) (some dim) ∧ s.bbox.max.Fits (some 1) (some dim))
    (h9 : 9 ≤ N) (h1 : s.centers.length * dim ≤ N) (h2 : s.gradCenters.length * dim ≤ N) (h3 : s.weights.length ≤ N) :
    Contains L dim (save (L.interpolantFile dim) (stored dim s)) s.model ⟨s.centers, s.gradCenters, s.bbox, s.weights⟩ := by
  have hs := hL.small
  have d0 : 1 ≤ dim := by omega
  have l1 : s.centers.length ≤ s.centers.length * dim := Nat.le_mul_of_pos_right _ d0
  have l2 : s.gradCenters.length ≤ s.gradCenters.length * dim := Nat.le_mul_of_pos_right _ d0
  have hst : InterpolantStorable L.detPos dim N (stored dim s) :=
    { model := hm
      c := matrixOf_fits dim _ hc (by omega)
      cN := h1
      g := matrixOf_fits dim _ hg (by omega)
      gN := h2
      lo := hb.1
      hi := hb.2
      w := ⟨by show s.weights.length < _; omega, rfl, by show s.weights.length = s.weights.length * 1; omega⟩
      wN := by show s.weights.length * 1 ≤ N; omega }
  have e := C04_interpolant (alloc := L.alloc) L.detPos (L.identity dim) dim hL.small hL.memory (by rcases hd with rfl | rfl | rfl <;> omega) (by omega) (by omega) _ hst
  unfold Contains loadInterpolant Lib.interpolantFile
  rw [e, Outcome.ok_bind]
  unfold restored stored
  dsimp only
  rw [matrixOf_rows dim _ hc, matrixOf_rows dim _ hg, hf]

/-! ## The command -/

/-- the call on a new interpolant -/
theorem step_new (hL : LibOk L N) {dim : Nat} (m : Mdl) (op : Op BboxS) (hop : GoodOp dim m op) :
    Allowed (L.env dim) m none op (Interpolant.step (L.env dim) (Interpolant.new (L.env dim) m) op).2 (Interpolant.step (L.env dim) (Interpolant.new (L.env dim) m) op).1.fit? ∧
      (Interpolant.step (L.env dim) (Interpolant.new (L.env dim) m) op).1.model = m := by
  have h := C14_step (L.env dim) (Interpolant.new (L.env dim) m) ⟨fun _ => ⟨rfl, rfl⟩, fun h => by simp [Interpolant.new] at h⟩ op (by rw [hL.dim]; exact hop)
  exact ⟨h.1, h.2.2⟩

theorem fit?_some {s : State BboxS} {f : Interpolant.Fit BboxS} (h : s.fit? = some f) :
    s.fitted = true ∧ s.centers = f.centers ∧ s.gradCenters = f.gradCenters ∧ s.bbox = f.bbox ∧ s.weights = f.weights := by
  unfold State.fit? at h
  split at h
  · cases h
    exact ⟨by assumption, rfl, rfl, rfl, rfl⟩
  · cases h

theorem columns_cell {table : Mat L.num} {rows : List (List Dbl)} {n : Nat} (hw : ∀ r ∈ rows, r.length = n) (hm : rowsOf L.num table = rows) (hc : table.cols = n) {c : Nat}
    (h : c < n) : ∃ cols, columns L.num table c 1 = .ok cols ∧ cols.flatten = rows.map (cell c) := by
  refine ⟨_, columns_ok hm c 1 (by omega), ?_⟩
  have e := column_single (N := L.num) hw h
  refine e.trans ?_
  apply List.map_congr_left
  intro r hr
  have hl : c < r.length := by rw [hw r hr]; exact h
  unfold cell
  rw [List.getD_eq_getElem?_getD, List.getD_eq_getElem?_getD, List.getElem?_eq_getElem hl]
  rfl

theorem gradients_ok {o : Options} {dim : Nat} {gp gv : List Pt} (h : GradData L o dim gp gv) : gradients L o dim = .ok (gp, gv) := by
  unfold gradients
  rcases h with ⟨h1, rfl, rfl⟩ | ⟨file, rows, n, h1, h2, h3, rfl, rfl⟩
  · rw [h1]
  · obtain ⟨m, r1, r2, r3⟩ := holds_read h2
    rw [h1]
    dsimp only
    rw [r1, Outcome.ok_bind, columns_ok r2 0 dim (by omega), Outcome.ok_bind, columns_ok r2 dim dim (by omega), Outcome.ok_bind]
    rfl

theorem initialOf_ok {o : Options} {dim : Nat} {init : Init BboxS} (h : InitialData L o dim init) : initialOf L o dim = .ok init := by
  unfold initialOf
  rcases h with ⟨h1, rfl⟩ | ⟨bytes, s, h1, h2, -, rfl⟩
  · rw [h1]
  · rw [h1]
    dsimp only
    rw [h2, Outcome.ok_bind]

/-- `--grad-tol`, if it is given -/
theorem fit_run {o : Options} {dim : Nat} (hd : dim = 1 ∨ dim = 2 ∨ dim = 3) (hc1 : ¬ (o.gradIn.isSome ∧ o.ineq = true)) (hc2 : ¬ (o.initial.isSome ∧ o.reduce = true))
    {file : List Char} {rows : List (List Dbl)} {n : Nat} (hf : Holds L.num file rows n) (hn : dim + 1 ≤ n) (hn' : o.ineq = true → dim + 3 ≤ n) {gp gv : List Pt}
    (hg : GradData L o dim gp gv) {m : Mdl} (hm : o.model.get L dim = .ok m) {init : Init BboxS} (hi : InitialData L o dim init) :
    ∃ lb ub, (o.ineq = true → lb = rows.map (cell (dim + 1)) ∧ ub = rows.map (cell (dim + 2))) ∧
      fit L o dim file = finish L dim (Interpolant.step (L.env dim) (Interpolant.new (L.env dim) m)
        (call L { o with gradTol := gradTolOf o } dim m (rows.map (pointOf dim)) gp (rows.map (cell dim)) gv.flatten lb ub init)) := by
  obtain ⟨table, r1, r2, r3⟩ := holds_read hf
  obtain ⟨vs, v1, v2⟩ := columns_cell hf.1 r2 r3 (show dim < n by omega)
  have hp : columns L.num table 0 dim = .ok (rows.map (pointOf dim)) := by
    rw [columns_ok r2 0 dim (by omega)]
    rfl
  have hb : ∃ lb ub, bounds L { o with gradTol := gradTolOf o } table dim = .ok (lb, ub) ∧
      (o.ineq = true → lb = rows.map (cell (dim + 1)) ∧ ub = rows.map (cell (dim + 2))) := by
    unfold bounds
    dsimp only
    by_cases hq : o.ineq = true
    · obtain ⟨lb, l1, l2⟩ := columns_cell hf.1 r2 r3 (show dim + 1 < n by have := hn' hq; omega)
      obtain ⟨ub, u1, u2⟩ := columns_cell hf.1 r2 r3 (show dim + 2 < n by have := hn' hq; omega)
      refine ⟨_, _, ?_, fun _ => ⟨l2, u2⟩⟩
      rw [if_pos hq, l1, Outcome.ok_bind, u1, Outcome.ok_bind]
    · exact ⟨[], [], if_neg hq, fun h => absurd h hq⟩
  obtain ⟨lb, ub, b1, b2⟩ := hb
  refine ⟨lb, ub, b2, ?_⟩
  have c1 : (o.gradIn.isSome && o.ineq) = false := by
    by_contra h
    exact hc1 (by simpa using h)
  have c2 : (o.initial.isSome && o.reduce) = false := by
    by_contra h
    exact hc2 (by simpa using h)
  have hg' : gradients L { o with gradTol := gradTolOf o } dim = .ok (gp, gv) := gradients_ok hg
  have hi' : initialOf L { o with gradTol := gradTolOf o } dim = .ok init := initialOf_ok hi
  unfold fit
  rw [c1, c2]
  simp only [Bool.false_eq_true, if_false]
  rw [onDim_ok hd]
  unfold fitImpl
  rw [r1, Outcome.ok_bind, hp, Outcome.ok_bind, v1, Outcome.ok_bind, b1, Outcome.ok_bind, hg', Outcome.ok_bind]
  dsimp only
  rw [hm, Outcome.ok_bind, hi', Outcome.ok_bind, v2]

theorem init_good {o : Options} {dim : Nat} {init : Init BboxS} (h : InitialData L o dim init) : ∀ s, init = .other s → s.Good dim := by
  intro s hs
  rcases h with ⟨-, rfl⟩ | ⟨bytes, s', -, -, h3, rfl⟩
  · cases hs
  · cases hs
    exact h3

theorem points_length {file : List Char} {rows : List (List Dbl)} {n dim : Nat} (hf : Holds L.num file rows n) (hn : dim ≤ n) : ∀ p ∈ rows.map (pointOf dim), p.length = dim := by
  intro p hp
  obtain ⟨r, hr, rfl⟩ := List.mem_map.1 hp
  rw [pointOf, List.length_take, hf.1 r hr]
  omega

theorem grads_length {o : Options} {dim : Nat} {gp gv : List Pt} (h : GradData L o dim gp gv) : (∀ p ∈ gp, p.length = dim) ∧ (∀ p ∈ gv, p.length = dim) ∧ gv.length = gp.length := by
  rcases h with ⟨-, rfl, rfl⟩ | ⟨file, rows, n, -, h2, h3, rfl, rfl⟩
  · exact ⟨fun p hp => absurd hp (by simp), fun p hp => absurd hp (by simp), rfl⟩
  · refine ⟨points_length h2 (by omega), fun p hp => ?_, by simp⟩
    obtain ⟨r, hr, rfl⟩ := List.mem_map.1 hp
    rw [List.length_take, List.length_drop, h2.1 r hr]
    omega

theorem basisSize_le {dim : Nat} (hd : dim = 1 ∨ dim = 2 ∨ dim = 3) {m : Mdl} (h : m.polyDegree ≤ 2) : basisSize dim m.polyDegree ≤ 10 := by
  unfold basisSize
  by_cases h0 : m.polyDegree < 0
  · rw [if_pos h0]; omega
  · rw [if_neg h0]
    have : m.polyDegree = 0 ∨ m.polyDegree = 1 ∨ m.polyDegree = 2 := by omega
    rcases this with e | e | e <;> rw [e] <;> rcases hd with rfl | rfl | rfl <;> decide

theorem index_count {l : List Nat} {n : Nat} (h : l.Nodup) (hb : ∀ i ∈ l, i < n) : l.length ≤ n := by
  have := h.subperm (l₂ := List.range n) fun i hi => List.mem_range.2 (hb i hi)
  simpa using this.length_le

theorem mem_of_pick {α : Type} {ps : List α} {is : List Nat} {p : α} (h : p ∈ is.filterMap (ps[·]?)) : p ∈ ps := by
  obtain ⟨i, -, hi⟩ := List.mem_filterMap.1 h
  exact List.mem_of_getElem? hi

/-- **C84**: `fit` without `--ineq` and `--reduce`.  If the arguments are those `fit` of an interpolant accepts, the fitter is run on exactly the points and values of
the lines of the table, followed by those of the gradient file, with the weights of `--initial` as start; what it returns is in the file that is written,
with the model and the points.  Otherwise, or if the fitter throws, the command throws and writes nothing. -/
theorem C84_fit (hL : LibOk L N) {o : Options} {dim : Nat} (hd : dim = 1 ∨ dim = 2 ∨ dim = 3) (hq : o.ineq = false) (hr : o.reduce = false)
    {file : List Char} {rows : List (List Dbl)} {n : Nat} (hf : Holds L.num file rows n) (hn : dim + 1 ≤ n) {gp gv : List Pt}
    (hg : GradData L o dim gp gv) {m : Mdl} (hm : o.model.get L dim = .ok m) (hms : ModelStorable L.detPos dim N m) (hmd : m.polyDegree ≤ 2) {init : Init BboxS}
    (hi : InitialData L o dim init) (hN : RoomFor N dim rows.length gp.length) :
    let accepted := EnoughPoints dim m rows.length gp.length ∧ NumArgsOk o.tol (gradTolOf o) o.maxIter o.acc o.gradAcc ∧ InitOk m (none : Option (Interpolant.Fit BboxS)) init
    let fitter := L.exact dim m o.tol (gradTolOf o) o.maxIter o.acc o.gradAcc (rows.map (pointOf dim)) gp (rows.map (cell dim) ++ gv.flatten)
    (¬ accepted → ∃ e, fit L o dim file = .throws e) ∧
    (accepted → ∃ w0, StartOk dim m (none : Option (Interpolant.Fit BboxS)) (rows.map (pointOf dim)) gp init w0 ∧ (∀ e, fitter w0 = .throws e → fit L o dim file = .throws e) ∧
      ∀ w, fitter w0 = .ok w → ∃ out, fit L o dim file = .ok out ∧
        Contains L dim out m ⟨rows.map (pointOf dim), gp, (L.env dim).hull ((L.env dim).fromPoints (rows.map (pointOf dim))) ((L.env dim).fromPoints gp), w⟩) := by
  dsimp only
  obtain ⟨lb, ub, -, hrun⟩ := fit_run (L := L) hd (by rw [hq]; simp) (by rw [hr]; simp) hf hn (by rw [hq]; simp) hg hm hi
  obtain ⟨g1, g2, g3⟩ := grads_length hg
  have hgl := flatten_length dim gv g2
  have hcall : call L { o with gradTol := gradTolOf o } dim m (rows.map (pointOf dim)) gp (rows.map (cell dim)) gv.flatten lb ub init =
      .fit (.given (rows.map (pointOf dim))) (.given gp) (rows.map (cell dim) ++ gv.flatten) o.tol (gradTolOf o) o.maxIter o.acc o.gradAcc init
        (L.exact dim m o.tol (gradTolOf o) o.maxIter o.acc o.gradAcc) := by
    unfold call
    dsimp only
    rw [hq, hr]
    rfl
  rw [hcall] at hrun
  obtain ⟨ha, hmod⟩ := step_new hL m (.fit (.given (rows.map (pointOf dim))) (.given gp) (rows.map (cell dim) ++ gv.flatten) o.tol (gradTolOf o) o.maxIter o.acc o.gradAcc init
        (L.exact dim m o.tol (gradTolOf o) o.maxIter o.acc o.gradAcc)) ⟨⟨_, _, rfl, rfl⟩, init_good hi, fun ps gs v w0 => hL.exact dim m _ _ _ _ _ ps gs v w0⟩
  generalize hst : Interpolant.step (L.env dim) (Interpolant.new (L.env dim) m) _ = st at hrun ha hmod
  obtain ⟨s, r⟩ := st
  dsimp only at ha hmod
  have hlen : (rows.map (cell dim) ++ gv.flatten).length = (rows.map (pointOf dim)).length + dim * gp.length := by
    rw [List.length_append, hgl, g3]
    simp [Nat.mul_comm]
  have hpl : (rows.map (pointOf dim)).length = rows.length := List.length_map _
  generalize hs0 : s.fit? = f at ha
  cases ha with
  | fitRejected h =>
    rw [hL.dim, hpl] at h
    rw [hpl] at hlen
    refine ⟨fun _ => ⟨_, hrun⟩, fun hacc => absurd ⟨hacc.1, hlen, hacc.2.1, hacc.2.2⟩ h⟩
  | fitFailed h hw0 hsol =>
    rw [hL.dim, hpl] at h
    rw [hL.dim] at hw0
    refine ⟨fun hacc => absurd ⟨h.1, h.2.2.1, h.2.2.2⟩ hacc, fun _ => ⟨_, hw0, fun e he => ?_, fun w hw => ?_⟩⟩
    · rw [hsol] at he
      cases he
      exact hrun
    · rw [hsol] at hw
      cases hw
  | fitDone h hw0 hsol =>
    rw [hL.dim, hpl] at h
    rw [hL.dim] at hw0
    refine ⟨fun hacc => absurd ⟨h.1, h.2.2.1, h.2.2.2⟩ hacc, fun _ => ⟨_, hw0, fun e he => ?_, fun w hw => ?_⟩⟩
    · rw [hsol] at he
      cases he
    · rw [hsol] at hw
      cases hw
      refine ⟨_, hrun, ?_⟩
      obtain ⟨f1, f2, f3, f4, f5⟩ := fit?_some hs0
      dsimp only at f2 f3 f4 f5
      have hwl := (hL.exact dim m _ _ _ _ _ _ _ _ _).2 _ hsol
      have hbs := basisSize_le hd hmd
      obtain ⟨n1, n2⟩ := hN
      rw [hpl] at hwl
      have hcomm : dim * gp.length = gp.length * dim := Nat.mul_comm _ _
      have := load_stored hL hd s (by rw [hmod]; exact hms) f1 (by rw [f2]; exact points_length hf (by omega)) (by rw [f3]; exact g1) (by rw [f4]; exact hL.hull _ _ _) n1
        (by rw [f2, hpl]; omega) (by rw [f3]; omega) (by rw [f5, hwl]; omega)
      rw [hmod, f2, f3, f4, f5] at this
      exact this

/-- **C84**: `fit --reduce`.  The points in the file are lines of the tables, chosen by the fitter, with the weights it returned. -/
theorem C84_reduce (hL : LibOk L N) {o : Options} {dim : Nat} (hd : dim = 1 ∨ dim = 2 ∨ dim = 3) (hq : o.ineq = false) (hr : o.reduce = true) (hi : o.initial = none)
    {file : List Char} {rows : List (List Dbl)} {n : Nat} (hf : Holds L.num file rows n) (hn : dim + 1 ≤ n) {gp gv : List Pt}
    (hg : GradData L o dim gp gv) {m : Mdl} (hm : o.model.get L dim = .ok m) (hms : ModelStorable L.detPos dim N m) (hmd : m.polyDegree ≤ 2)
    (hN : RoomFor N dim rows.length gp.length) :
    let accepted := EnoughPoints dim m rows.length gp.length ∧ NumArgsOk o.tol (gradTolOf o) o.maxIter o.acc o.gradAcc
    let fitter := L.incremental dim m o.tol (gradTolOf o) o.maxIter o.acc o.gradAcc (rows.map (pointOf dim)) gp (rows.map (cell dim) ++ gv.flatten)
    (¬ accepted → ∃ e, fit L o dim file = .throws e) ∧
    (accepted → (∀ e, fitter = .throws e → fit L o dim file = .throws e) ∧
      ∀ ci gi w, fitter = .ok (ci, gi, w) → ∃ out, fit L o dim file = .ok out ∧
        Contains L dim out m ⟨ci.filterMap ((rows.map (pointOf dim))[·]?), gi.filterMap (gp[·]?),
          (L.env dim).hull ((L.env dim).fromPoints (ci.filterMap ((rows.map (pointOf dim))[·]?))) ((L.env dim).fromPoints (gi.filterMap (gp[·]?))), w⟩) := by
  dsimp only
  obtain ⟨lb, ub, -, hrun⟩ := fit_run (L := L) hd (by rw [hq]; simp) (by rw [hi]; simp) hf hn (by rw [hq]; simp) hg hm (init := .null) (.inl ⟨hi, rfl⟩)
  obtain ⟨g1, g2, g3⟩ := grads_length hg
  have hgl := flatten_length dim gv g2
  have hcall : call L { o with gradTol := gradTolOf o } dim m (rows.map (pointOf dim)) gp (rows.map (cell dim)) gv.flatten lb ub .null =
      .fitIncrementally (.given (rows.map (pointOf dim))) (.given gp) (rows.map (cell dim) ++ gv.flatten) o.tol (gradTolOf o) o.maxIter o.acc o.gradAcc
        (L.incremental dim m o.tol (gradTolOf o) o.maxIter o.acc o.gradAcc) := by
    unfold call
    dsimp only
    rw [hq, hr]
    rfl
  rw [hcall] at hrun
  obtain ⟨ha, hmod⟩ := step_new hL m (.fitIncrementally (.given (rows.map (pointOf dim))) (.given gp) (rows.map (cell dim) ++ gv.flatten) o.tol (gradTolOf o) o.maxIter o.acc
        o.gradAcc (L.incremental dim m o.tol (gradTolOf o) o.maxIter o.acc o.gradAcc)) ⟨⟨_, _, rfl, rfl⟩, fun ps gs v => ⟨(hL.incremental dim m _ _ _ _ _ ps gs v).1, fun ci gi w h => by
          obtain ⟨c1, c2, -, -, c5⟩ := (hL.incremental dim m _ _ _ _ _ ps gs v).2 ci gi w h
          exact ⟨c1, c2, c5⟩⟩⟩
  generalize hst : Interpolant.step (L.env dim) (Interpolant.new (L.env dim) m) _ = st at hrun ha hmod
  obtain ⟨s, r⟩ := st
  dsimp only at ha hmod
  have hlen : (rows.map (cell dim) ++ gv.flatten).length = (rows.map (pointOf dim)).length + dim * gp.length := by
    rw [List.length_append, hgl, g3]
    simp [Nat.mul_comm]
  have hpl : (rows.map (pointOf dim)).length = rows.length := List.length_map _
  generalize hs0 : s.fit? = f at ha
  cases ha with
  | incrRejected h =>
    rw [hL.dim, hpl] at h
    rw [hpl] at hlen
    exact ⟨fun _ => ⟨_, hrun⟩, fun hacc => absurd ⟨hacc.1, hlen, hacc.2⟩ h⟩
  | incrFailed h hsol =>
    rw [hL.dim, hpl] at h
    refine ⟨fun hacc => absurd ⟨h.1, h.2.2⟩ hacc, fun _ => ⟨fun e he => ?_, fun ci gi w hw => ?_⟩⟩
    · rw [hsol] at he
      cases he
      exact hrun
    · rw [hsol] at hw
      cases hw
  | incrDone h hsol =>
    rw [hL.dim, hpl] at h
    refine ⟨fun hacc => absurd ⟨h.1, h.2.2⟩ hacc, fun _ => ⟨fun e he => ?_, fun ci gi w hw => ?_⟩⟩
    · rw [hsol] at he
      cases he
    · rw [hsol] at hw
      cases hw
      refine ⟨_, hrun, ?_⟩
      obtain ⟨f1, f2, f3, f4, f5⟩ := fit?_some hs0
      dsimp only at f2 f3 f4 f5
      obtain ⟨b1, b2, b3, b4, hwl⟩ := (hL.incremental dim m _ _ _ _ _ _ _ _).2 _ _ _ hsol
      have hbs := basisSize_le hd hmd
      obtain ⟨n1, n2⟩ := hN
      have l1 := index_count b3 b1
      have l2 := index_count b4 b2
      rw [hpl] at l1
      have q1 := (Interpolant.pick_ok _ _ b1).2
      have q2 := (Interpolant.pick_ok _ _ b2).2
      have m1 := Nat.mul_le_mul_right dim l1
      have m2 := Nat.mul_le_mul_right dim l2
      rw [Nat.mul_comm dim] at hwl
      have := load_stored hL hd s (by rw [hmod]; exact hms) f1 (by rw [f2]; exact fun p hp => points_length hf (by omega) p (mem_of_pick hp))
        (by rw [f3]; exact fun p hp => g1 p (mem_of_pick hp)) (by rw [f4]; exact hL.hull _ _ _) n1
        (by rw [f2, q1]; omega) (by rw [f3, q2]; omega) (by rw [f5, hwl]; omega)
      rw [hmod, f2, f3, f4, f5] at this
      exact this

/-- **C84**: `fit --ineq` passes the value and the two bounds of every line with its point. -/
theorem C84_inequality (hL : LibOk L N) {o : Options} {dim : Nat} (hd : dim = 1 ∨ dim = 2 ∨ dim = 3) (hq : o.ineq = true) (hg : o.gradIn = none)
    (hr : o.reduce = false ∨ o.initial = none) {file : List Char} {rows : List (List Dbl)} {n : Nat} (hf : Holds L.num file rows n) (hn : dim + 3 ≤ n)
    {m : Mdl} (hm : o.model.get L dim = .ok m) (hms : ModelStorable L.detPos dim N m) (hmd : m.polyDegree ≤ 2) {init : Init BboxS}
    (hi : InitialData L o dim init) (hN : RoomFor N dim rows.length 0) :
    let accepted := Dbl.Equal m.nugget zero ∧ EnoughPoints dim m rows.length 0 ∧ NumArgsOk o.tol inf o.maxIter o.acc inf ∧ InitOk m (none : Option (Interpolant.Fit BboxS)) init
    let fitter := L.inequality dim m o.tol o.maxIter o.acc (rows.map (pointOf dim)) (rows.map (cell dim)) (rows.map (cell (dim + 1))) (rows.map (cell (dim + 2)))
    (¬ accepted → ∃ e, fit L o dim file = .throws e) ∧
    (accepted → ∃ w0, StartOk dim m (none : Option (Interpolant.Fit BboxS)) (rows.map (pointOf dim)) [] init w0 ∧ (∀ e, fitter w0 = .throws e → fit L o dim file = .throws e) ∧
      ∀ ci w, fitter w0 = .ok (ci, w) → ∃ out, fit L o dim file = .ok out ∧
        Contains L dim out m ⟨ci.filterMap ((rows.map (pointOf dim))[·]?), [], (L.env dim).fromPoints (ci.filterMap ((rows.map (pointOf dim))[·]?)), w⟩) := by
  dsimp only
  obtain ⟨lb, ub, hbd, hrun⟩ := fit_run (L := L) hd (by rw [hg]; simp) (by rcases hr with h | h <;> simp [h]) hf (by omega) (fun _ => hn) (gp := []) (gv := []) (.inl ⟨hg, rfl, rfl⟩) hm hi
  obtain ⟨rfl, rfl⟩ := hbd hq
  have hcall : call L { o with gradTol := gradTolOf o } dim m (rows.map (pointOf dim)) [] (rows.map (cell dim)) ([] : List Pt).flatten (rows.map (cell (dim + 1)))
        (rows.map (cell (dim + 2))) init =
      .fitInequality (.given (rows.map (pointOf dim))) (rows.map (cell dim)) (rows.map (cell (dim + 1))) (rows.map (cell (dim + 2))) o.tol o.maxIter o.acc init
        (L.inequality dim m o.tol o.maxIter o.acc) := by
    unfold call
    dsimp only
    rw [hq]
    rfl
  rw [hcall] at hrun
  obtain ⟨ha, hmod⟩ := step_new hL m (.fitInequality (.given (rows.map (pointOf dim))) (rows.map (cell dim)) (rows.map (cell (dim + 1))) (rows.map (cell (dim + 2))) o.tol o.maxIter
        o.acc init (L.inequality dim m o.tol o.maxIter o.acc)) ⟨⟨_, rfl⟩, init_good hi, fun ps v lb ub w0 => ⟨(hL.inequality dim m _ _ _ ps v lb ub w0).1, fun ci w h => by
          obtain ⟨c1, -, c3⟩ := (hL.inequality dim m _ _ _ ps v lb ub w0).2 ci w h
          exact ⟨c1, c3⟩⟩⟩
  generalize hst : Interpolant.step (L.env dim) (Interpolant.new (L.env dim) m) _ = st at hrun ha hmod
  obtain ⟨s, r⟩ := st
  dsimp only at ha hmod
  have hpl : (rows.map (pointOf dim)).length = rows.length := List.length_map _
  have hcl : ∀ c, (rows.map (cell c)).length = rows.length := fun c => List.length_map _
  generalize hs0 : s.fit? = f at ha
  cases ha with
  | ineqRejected h =>
    rw [hL.dim, hpl, hcl, hcl, hcl] at h
    exact ⟨fun _ => ⟨_, hrun⟩, fun hacc => absurd ⟨hacc.1, hacc.2.1, rfl, rfl, rfl, hacc.2.2.1, hacc.2.2.2⟩ h⟩
  | ineqFailed h hw0 hsol =>
    rw [hL.dim, hpl] at h
    rw [hL.dim] at hw0
    refine ⟨fun hacc => absurd ⟨h.1, h.2.1, h.2.2.2.2.2.1, h.2.2.2.2.2.2⟩ hacc, fun _ => ⟨_, hw0, fun e he => ?_, fun ci w hw => ?_⟩⟩
    · rw [hsol] at he
      cases he
      exact hrun
    · rw [hsol] at hw
      cases hw
  | ineqDone h hw0 hsol =>
    rw [hL.dim, hpl] at h
    rw [hL.dim] at hw0
    refine ⟨fun hacc => absurd ⟨h.1, h.2.1, h.2.2.2.2.2.1, h.2.2.2.2.2.2⟩ hacc, fun _ => ⟨_, hw0, fun e he => ?_, fun ci w hw => ?_⟩⟩
    · rw [hsol] at he
      cases he
    · rw [hsol] at hw
      cases hw
      refine ⟨_, hrun, ?_⟩
      obtain ⟨f1, f2, f3, f4, f5⟩ := fit?_some hs0
      dsimp only at f2 f3 f4 f5
      obtain ⟨b1, b2, hwl⟩ := (hL.inequality dim m _ _ _ _ _ _ _ _).2 _ _ hsol
      have hbs := basisSize_le hd hmd
      obtain ⟨n1, n2⟩ := hN
      have l1 := index_count b2 b1
      rw [hpl] at l1
      have q1 := (Interpolant.pick_ok _ _ b1).2
      have m1 := Nat.mul_le_mul_right dim l1
      have := load_stored hL hd s (by rw [hmod]; exact hms) f1 (by rw [f2]; exact fun p hp => points_length hf (by omega) p (mem_of_pick hp))
        (by rw [f3]; simp) (by rw [f4]; exact hL.points _ _) n1
        (by rw [f2, q1]; omega) (by rw [f3]; simp) (by rw [f5, hwl]; omega)
      rw [hmod, f2, f3, f4, f5] at this
      exact this

/-! ## evaluate -/

theorem evaluate_congr {dim : Nat} {f f' g g' : List (List Dbl) → Outcome (List Dbl)} {file : List Char} {rows : List (List Dbl)} {n : Nat} (hf : Holds L.num file rows n)
    (hn : dim ≤ n) (h1 : f (rows.map (pointOf dim)) = f' (rows.map (pointOf dim))) (h2 : g (rows.map (pointOf dim)) = g' (rows.map (pointOf dim))) (grads : Bool) :
    Cli.evaluateImpl L.num f g grads file dim = Cli.evaluateImpl L.num f' g' grads file dim := by
  obtain ⟨m, r1, r2, r3⟩ := holds_read hf
  have hc : columns L.num m 0 dim = .ok (rows.map (pointOf dim)) := by
    rw [columns_ok r2 0 dim (by omega)]
    rfl
  unfold Cli.evaluateImpl
  rw [r1, Outcome.ok_bind, Outcome.ok_bind, hc, Outcome.ok_bind, Outcome.ok_bind, h1, h2]

/-- what the evaluator of a loaded interpolant is built from, for points `ps` and `gs` -/
def snapshot (E : Env BboxS) (m : Mdl) (f : Interpolant.Fit BboxS) (ps gs : List Pt) (acc gacc : Dbl) : Snap BboxS :=
  ⟨m, f.centers, f.gradCenters, E.hull (E.hull (E.fromPoints ps) (E.fromPoints gs)) f.bbox, acc, gacc, f.weights⟩

theorem evaluate_loaded (E : Env BboxS) (m : Mdl) (f : Interpolant.Fit BboxS) (ps gs : List Pt) (acc gacc : Dbl) (ha : Dbl.Positive acc) (hg : Dbl.Positive gacc) :
    vecOf (Interpolant.evaluate E ⟨m, true, f.centers, f.gradCenters, f.bbox, f.weights, none⟩ ps gs acc gacc).2 = .ok (E.eval (snapshot E m f ps gs acc gacc) ps gs) := by
  unfold Interpolant.evaluate Interpolant.checkPositive
  rw [(Dbl.gt0_iff _).2 ha, (Dbl.gt0_iff _).2 hg]
  rfl

/-- **C84**: `evaluate` evaluates exactly the interpolant in the file: if the evaluator is the function `val` with gradient `grad` (C71), every line holds its own point
and the value (and gradient) there of the evaluator with the model, the points and the weights of the file. -/
theorem C84_evaluate (hN : L.num.Ok delims) {dim : Nat} (hd : dim = 1 ∨ dim = 2 ∨ dim = 3) {bytes : List Byte} {m : Mdl} {f : Interpolant.Fit BboxS}
    (hc : Contains L dim bytes m f) (val : Snap BboxS → Pt → Dbl) (grad : Snap BboxS → Pt → List Dbl) (hg : ∀ e (p : Pt), p.length = dim → (grad e p).length = dim)
    (he : ∀ e ps gs, (L.env dim).eval e ps gs = ps.map (val e) ++ gs.flatMap (grad e)) {acc gacc : Dbl} (ha : Dbl.Positive acc) (hga : Dbl.Positive gacc)
    {file : List Char} {rows : List (List Dbl)} {n : Nat} (hf : Holds L.num file rows n) (hr : rows ≠ []) (hn : dim ≤ n) :
    (∃ out, evaluate L bytes acc gacc false dim file = .ok out ∧ Holds L.num out
      (rows.map fun r => pointOf dim r ++ [val (snapshot (L.env dim) m f (rows.map (pointOf dim)) [] acc inf) (pointOf dim r)]) (dim + 1)) ∧
    ∃ out, evaluate L bytes acc gacc true dim file = .ok out ∧ Holds L.num out
      (rows.map fun r => pointOf dim r ++ [val (snapshot (L.env dim) m f (rows.map (pointOf dim)) (rows.map (pointOf dim)) acc gacc) (pointOf dim r)] ++
        grad (snapshot (L.env dim) m f (rows.map (pointOf dim)) (rows.map (pointOf dim)) acc gacc) (pointOf dim r)) (dim + 1 + dim) := by
  have hinf : Dbl.Positive inf := by rw [← Dbl.gt0_iff]; decide
  have key : ∀ grads (e : Snap BboxS), (grads = false → e = snapshot (L.env dim) m f (rows.map (pointOf dim)) [] acc inf) →
      (grads = true → e = snapshot (L.env dim) m f (rows.map (pointOf dim)) (rows.map (pointOf dim)) acc gacc) →
      evaluate L bytes acc gacc grads dim file =
        Cli.evaluate L.num (fun _ pts => .ok (pts.map (val e))) (fun _ pts => .ok (pts.map (val e) ++ pts.flatMap (grad e))) grads dim file := by
    intro grads e h0 h1
    unfold evaluate Cli.evaluate
    rw [onDim_ok hd, onDim_ok hd]
    unfold evaluateImpl
    rw [hc, Outcome.ok_bind]
    cases grads with
    | false =>
      have he0 := h0 rfl
      obtain ⟨t, r1, r2, r3⟩ := holds_read hf
      have hcol : columns L.num t 0 dim = .ok (rows.map (pointOf dim)) := by
        rw [columns_ok r2 0 dim (by omega)]
        rfl
      unfold Cli.evaluateImpl
      rw [r1, Outcome.ok_bind, Outcome.ok_bind, hcol, Outcome.ok_bind, Outcome.ok_bind]
      simp only [Bool.false_eq_true, if_false]
      rw [evaluate_loaded _ _ _ _ _ _ _ ha hinf, he, List.flatMap_nil, List.append_nil, he0]
    | true =>
      have he1 := h1 rfl
      obtain ⟨t, r1, r2, r3⟩ := holds_read hf
      have hcol : columns L.num t 0 dim = .ok (rows.map (pointOf dim)) := by
        rw [columns_ok r2 0 dim (by omega)]
        rfl
      unfold Cli.evaluateImpl
      rw [r1, Outcome.ok_bind, Outcome.ok_bind, hcol, Outcome.ok_bind, Outcome.ok_bind]
      simp only [if_true]
      rw [evaluate_loaded _ _ _ _ _ _ _ ha hga, he, he1]
  constructor
  · rw [key false _ (fun _ => rfl) (fun h => by cases h)]
    exact (C80_evaluate (N := L.num) hN hd _ _ (hg _) _ _ (fun _ => rfl) (fun _ => rfl) hf hr hn).1
  · rw [key true _ (fun h => by cases h) (fun _ => rfl)]
    exact (C80_evaluate (N := L.num) hN hd _ _ (hg _) _ _ (fun _ => rfl) (fun _ => rfl) hf hr hn).2

theorem evaluate_bad (E : Env BboxS) (s : Interpolant.State BboxS) (ps gs : List Pt) (acc gacc : Dbl) (h : s.fitted = false ∨ ¬Dbl.Positive acc ∨ ¬Dbl.Positive gacc) :
    ∃ e, vecOf (Interpolant.evaluate E s ps gs acc gacc).2 = .throws e := by
  unfold Interpolant.evaluate
  cases hf : s.fitted with
  | false => exact ⟨_, rfl⟩
  | true =>
    rw [hf] at h
    unfold Interpolant.checkPositive
    have h : ¬(Interpolant.gt0 acc = true ∧ Interpolant.gt0 gacc = true) := by
      rw [Dbl.gt0_iff, Dbl.gt0_iff]
      rintro ⟨h1, h2⟩
      rcases h with h | h | h
      · cases h
      · exact h h1
      · exact h h2
    cases h1 : Interpolant.gt0 acc with
    | false => exact ⟨_, rfl⟩
    | true =>
      cases h2 : Interpolant.gt0 gacc with
      | false => exact ⟨_, rfl⟩
      | true => exact absurd ⟨h1, h2⟩ h

/-- **C84**: `evaluate` refuses an interpolant that has not been fitted, and accuracies that are not positive numbers. -/
theorem C84_evaluate_refused {dim : Nat} (hd : dim = 1 ∨ dim = 2 ∨ dim = 3) {bytes : List Byte} {s : Interpolant.State BboxS} (hc : loadInterpolant L dim bytes = .ok s) {acc gacc : Dbl}
    {grads : Bool} (h : s.fitted = false ∨ ¬Dbl.Positive acc ∨ grads = true ∧ ¬Dbl.Positive gacc) {file : List Char} {rows : List (List Dbl)} {n : Nat}
    (hf : Holds L.num file rows n) (hn : dim ≤ n) : ∃ e, evaluate L bytes acc gacc grads dim file = .throws e := by
  obtain ⟨t, r1, r2, r3⟩ := holds_read hf
  have hcol : columns L.num t 0 dim = .ok (rows.map (pointOf dim)) := by
    rw [columns_ok r2 0 dim (by omega)]
    rfl
  unfold evaluate
  rw [onDim_ok hd]
  unfold evaluateImpl
  rw [hc, Outcome.ok_bind]
  unfold Cli.evaluateImpl
  rw [r1, Outcome.ok_bind, hcol, Outcome.ok_bind]
  cases grads with
  | false =>
    obtain ⟨e, he⟩ := evaluate_bad (L.env dim) s (rows.map (pointOf dim)) [] acc inf (h.imp id (.imp id fun h => by cases h.1))
    simp only [Bool.false_eq_true, if_false]
    rw [he]
    exact ⟨e, rfl⟩
  | true =>
    obtain ⟨e, he⟩ := evaluate_bad (L.env dim) s (rows.map (pointOf dim)) (rows.map (pointOf dim)) acc gacc (h.imp id (.imp id fun h => h.2))
    simp only [if_true]
    rw [he]
    exact ⟨e, rfl⟩

/-- **C84**: `fit` and then `evaluate` on the same table.  Whatever the fitter promises about the value at a point and the value it was given for this point holds for the
value in each line of the output and the value in the same line of the input. -/
theorem C84_reproduces (hL : LibOk L N) (hN : L.num.Ok delims) {o : Options} {dim : Nat} (hd : dim = 1 ∨ dim = 2 ∨ dim = 3) (hq : o.ineq = false) (hr : o.reduce = false)
    (hgi : o.gradIn = none) (hi : o.initial = none) {file : List Char} {rows : List (List Dbl)} {n : Nat} (hf : Holds L.num file rows n) (hne : rows ≠ []) (hn : dim + 1 ≤ n) {m : Mdl}
    (hm : o.model.get L dim = .ok m) (hms : ModelStorable L.detPos dim N m) (hmd : m.polyDegree ≤ 2) (hroom : RoomFor N dim rows.length 0)
    (val : Snap BboxS → Pt → Dbl) (grad : Snap BboxS → Pt → List Dbl) (hg : ∀ e (p : Pt), p.length = dim → (grad e p).length = dim)
    (he : ∀ e ps gs, (L.env dim).eval e ps gs = ps.map (val e) ++ gs.flatMap (grad e)) {acc gacc : Dbl} (ha : Dbl.Positive acc) (hga : Dbl.Positive gacc)
    (Near : Dbl → Dbl → Prop) (promise : ∀ (ps : List Pt) (vs w : List Dbl), L.exact dim m o.tol (gradTolOf o) o.maxIter o.acc o.gradAcc ps [] vs none = .ok w →
      ∀ (E : Snap BboxS), E.model = m → E.centers = ps → E.gradCenters = [] → E.weights = w → E.acc = acc → ∀ (i : Nat) (p : Pt) (v : Dbl), ps[i]? = some p → vs[i]? = some v → Near (val E p) v)
    {out : List Byte} (hout : fit L o dim file = .ok out) :
    ∃ (out' : List Char) (v : List Dbl → Dbl), evaluate L out acc gacc false dim file = .ok out' ∧ Holds L.num out' (rows.map fun r => pointOf dim r ++ [v r]) (dim + 1) ∧
      ∀ r ∈ rows, Near (v r) (cell dim r) := by
  obtain ⟨f1, f2⟩ := C84_fit hL hd hq hr hf hn (gp := []) (gv := []) (.inl ⟨hgi, rfl, rfl⟩) hm hms hmd (init := .null) (.inl ⟨hi, rfl⟩) hroom
  rw [hout] at f1 f2
  by_cases hacc : EnoughPoints dim m rows.length ([] : List Pt).length ∧ NumArgsOk o.tol (gradTolOf o) o.maxIter o.acc o.gradAcc ∧
      InitOk m (none : Option (Interpolant.Fit BboxS)) .null
  · obtain ⟨w0, hw0, e1, e2⟩ := f2 hacc
    have hw0' : w0 = none := hw0
    subst hw0'
    cases hx : L.exact dim m o.tol (gradTolOf o) o.maxIter o.acc o.gradAcc (rows.map (pointOf dim)) [] (rows.map (cell dim) ++ ([] : List Pt).flatten) none with
    | ub => exact absurd hx (hL.exact dim m _ _ _ _ _ _ _ _ _).1
    | throws e => cases e1 e hx
    | ok w =>
      obtain ⟨out', h1, h2⟩ := e2 w hx
      cases h1
      obtain ⟨out', h3, h4⟩ := (C84_evaluate hN hd h2 val grad hg he ha hga hf hne (by omega)).1
      refine ⟨out', fun r => val (snapshot (L.env dim) m _ (rows.map (pointOf dim)) [] acc inf) (pointOf dim r), h3, h4, fun r hr => ?_⟩
      obtain ⟨i, hi, rfl⟩ := List.getElem_of_mem hr
      refine promise _ _ w hx _ rfl rfl rfl rfl rfl i _ _ ?_ ?_
      · rw [List.getElem?_map, List.getElem?_eq_getElem hi]
        rfl
      · rw [List.flatten_nil, List.append_nil, List.getElem?_map, List.getElem?_eq_getElem hi]
        rfl
  · obtain ⟨e, he⟩ := f1 hacc
    cases he

/-! ## Models -/

/-- A model made from the options can be stored. -/
theorem made_storable {d : Nat} {toDouble : String → Dbl} {opts : MakeModel.Options} {m : Mdl} (hid : L.detPos (L.identity d) = true ∧ (L.identity d).length = d * d)
    (h : MakeModel.makeModel ⟨d, toDouble, L.detPos, L.identity d⟩ opts = .ok m) (hN : opts.rbfArgs.length ≤ N) : ModelStorable L.detPos d N m ∧ m.polyDegree ≤ 2 := by
  obtain ⟨gs, g1, g2, g3, g4, g5, -⟩ := (MakeModel.C77_meaning _ _ _).1 h
  have hgl : gs.length ≤ opts.rbfArgs.length := by
    rw [g1]
    clear g1 g2 g3 g4
    induction gs with
    | nil => simp
    | cons g gs ih =>
      rw [List.flatMap_cons, List.length_append, List.length_cons]
      have : 1 ≤ g.tokens.length := by simp [MakeModel.Group.tokens]
      omega
  have hlen := g4.length_eq
  have hdeg : m.polyDegree ≤ 2 ∧ -1 ≤ m.polyDegree := by
    have hne : m.rbfs ≠ [] := by
      intro h0
      rw [h0] at hlen
      exact g2 (List.length_eq_zero_iff.1 hlen)
    obtain ⟨-, -, hc⟩ := C12_cpd_order m.rbfs hne
    rcases g5 with ⟨-, h⟩ | ⟨-, h⟩ <;> omega
  refine ⟨⟨fun r hr => ?_, by omega, by omega⟩, hdeg.1⟩
  have hex : ∀ {gs : List MakeModel.Group} {rs : List Rbf}, List.Forall₂ (MakeModel.Group.Means ⟨d, toDouble, L.detPos, L.identity d⟩) gs rs → r ∈ rs →
      ∃ g ∈ gs, MakeModel.Group.Means ⟨d, toDouble, L.detPos, L.identity d⟩ g r := by
    intro gs rs h hr
    induction h with
    | nil => cases hr
    | cons h1 _ ih =>
      rcases List.mem_cons.1 hr with rfl | hr
      · exact ⟨_, List.mem_cons_self, h1⟩
      · obtain ⟨g, h3, h4⟩ := ih hr
        exact ⟨g, List.mem_cons_of_mem _ h3, h4⟩
  obtain ⟨g, hg, hm⟩ := hex g4 hr
  have ha : L.detPos r.aniso = true ∧ r.aniso.length = d * d := by
    rw [hm.aniso]
    rcases List.eq_nil_or_concat g.anisos with h0 | ⟨as, a, h0⟩
    · rw [h0]
      exact hid
    · have hmem : a ∈ g.anisos := by rw [h0]; simp
      have h1 := hm.positive a hmem
      have h2 := ((g3 g hg).anisos a hmem).1
      rw [h0]
      simp only [List.concat_eq_append, List.map_append, List.map_cons, List.map_nil, List.getLastD_concat]
      exact ⟨h1, by rw [List.length_map]; exact h2⟩
  refine ⟨⟨?_, ha.1⟩, ha.2⟩
  rcases hm.params with ⟨h1, h2⟩ | ⟨-, ⟨-, h1⟩ | ⟨t, -, h1⟩⟩
  · rw [h1, List.length_map, h2]
  · rw [h1]; rfl
  · rw [h1]; rfl

/-- **C84**: the model made by `create-model` is the one its options stand for (C77), `fit --model` uses exactly this model, and `extract-model` gives the same file
back, byte for byte. -/
theorem C84_models (hL : LibOk L N) (h9 : 9 ≤ N) {dim : Nat} (hd : dim = 1 ∨ dim = 2 ∨ dim = 3) (hid : L.detPos (L.identity dim) = true ∧ (L.identity dim).length = dim * dim)
    {toDouble : String → Dbl} {opts : MakeModel.Options} (hN : opts.rbfArgs.length ≤ N) {bytes : List Byte} (hc : createModel L toDouble opts dim = .ok bytes) :
    ∃ m, MakeModel.Meaning ⟨dim, toDouble, L.detPos, L.identity dim⟩ opts m ∧ (ModelSource.file bytes).get L dim = .ok m ∧
      (ModelSource.options toDouble opts).get L dim = .ok m ∧ ModelStorable L.detPos dim N m ∧ m.polyDegree ≤ 2 ∧
      ∀ (out : List Byte) (f : Interpolant.Fit BboxS), Contains L dim out m f → extractModel L out dim = .ok bytes := by
  unfold createModel at hc
  rw [onDim_ok hd] at hc
  obtain ⟨m, h1, h2⟩ := Outcome.bind_eq_ok.1 hc
  cases h2
  obtain ⟨h3, h4⟩ := made_storable hid h1 hN
  refine ⟨m, (MakeModel.C77_meaning _ _ _).1 h1, ?_, h1, h3, h4, fun out f hf => ?_⟩
  · exact C04_model (alloc := L.alloc) L.detPos (L.identity dim) dim hL.small hL.memory (by rcases hd with rfl | rfl | rfl <;> omega) (by omega) m h3
  · unfold extractModel
    rw [onDim_ok hd, hf, Outcome.ok_bind]

/-! ## Options -/

/-- **C84**: the options that are refused, and a dimension that is not supported; nothing is written then. -/
theorem C84_refused (o : Options) (dim : Int) (file : List Char) (h : (o.gradIn ≠ none ∧ o.ineq = true) ∨ (o.initial ≠ none ∧ o.reduce = true) ∨ ¬ (1 ≤ dim ∧ dim ≤ 3) ∨
      readTable L.num delims file = .throws .runtimeError) : fit L o dim file = .throws .runtimeError := by
  unfold fit
  by_cases c1 : (o.gradIn.isSome && o.ineq) = true
  · rw [if_pos c1]
  rw [if_neg c1]
  by_cases c2 : (o.initial.isSome && o.reduce) = true
  · rw [if_pos c2]
  rw [if_neg c2]
  rcases h with h | h | h | h
  · exact absurd (by simp [Option.isSome_iff_ne_none, h.1, h.2]) c1
  · exact absurd (by simp [Option.isSome_iff_ne_none, h.1, h.2]) c2
  · unfold onDim
    rw [if_neg (by omega), if_neg (by omega), if_neg (by omega)]
  · have e : ∀ k, fitImpl L { o with gradTol := gradTolOf o } file k = .throws .runtimeError := fun k => by
      unfold fitImpl
      rw [h]
      rfl
    unfold onDim
    simp [e]

/-- **C84**: `--reduce` is ignored, without a word, if `--ineq` is given; and a gradient tolerance of minus one is not refused but means the same as `--tol`. -/
theorem C84_ignored (o : Options) (dim : Int) (file : List Char) :
    (o.ineq = true → o.initial = none → fit L { o with reduce := true } dim file = fit L { o with reduce := false } dim file) ∧
    fit L { o with gradTol := minusOne } dim file = fit L { o with gradTol := o.tol } dim file := by
  constructor
  · intro h1 h2
    unfold fit
    simp only [h2, Option.isSome_none, Bool.false_and, Bool.false_eq_true, if_false]
    congr 1
    congr 1
    funext k
    unfold fitImpl
    simp only [call, h1, if_true]
    rfl
  · have e1 : gradTolOf { o with gradTol := minusOne } = o.tol := by
      unfold gradTolOf
      rw [if_pos (show Interpolant.feq minusOne minusOne = true by decide)]
    have e2 : gradTolOf { o with gradTol := o.tol } = o.tol := by
      unfold gradTolOf
      by_cases h : Interpolant.feq o.tol minusOne = true
      · rw [if_pos h]
      · rw [if_neg h]
    unfold fit
    rw [e1, e2]

/-- Missing columns are not noticed: the matrix is read past its end. -/
theorem C84_narrow_table (o : Options) {dim : Nat} (hd : dim = 1 ∨ dim = 2 ∨ dim = 3) (hc1 : ¬ (o.gradIn.isSome ∧ o.ineq = true)) (hc2 : ¬ (o.initial.isSome ∧ o.reduce = true))
    {file : List Char} {rows : List (List Dbl)} {n : Nat} (hf : Holds L.num file rows n) (h : n < dim + 1 ∨ o.ineq = true ∧ n < dim + 3) : fit L o dim file = .ub := by
  obtain ⟨t, r1, r2, r3⟩ := holds_read hf
  have c1 : (o.gradIn.isSome && o.ineq) = false := by
    by_contra h
    exact hc1 (by simpa using h)
  have c2 : (o.initial.isSome && o.reduce) = false := by
    by_contra h
    exact hc2 (by simpa using h)
  unfold fit
  rw [c1, c2]
  simp only [Bool.false_eq_true, if_false]
  rw [onDim_ok hd]
  unfold fitImpl
  rw [r1, Outcome.ok_bind]
  by_cases d1 : dim ≤ n
  · rw [columns_ok r2 0 dim (by omega), Outcome.ok_bind]
    by_cases d2 : dim + 1 ≤ n
    · rw [columns_ok r2 dim 1 (by omega), Outcome.ok_bind]
      have h' := h.resolve_left (by omega)
      have : bounds L { o with gradTol := gradTolOf o } t dim = .ub := by
        unfold bounds
        dsimp only
        rw [if_pos h'.1]
        by_cases d3 : dim + 2 ≤ n
        · rw [columns_ok r2 (dim + 1) 1 (by omega), Outcome.ok_bind]
          have : columns L.num t (dim + 2) 1 = .ub := if_neg (by omega)
          rw [this]
          rfl
        · have : columns L.num t (dim + 1) 1 = .ub := if_neg (by omega)
          rw [this]
          rfl
      rw [this]
      rfl
    · have : columns L.num t dim 1 = .ub := if_neg (by omega)
      rw [this]
      rfl
  · have : columns L.num t 0 dim = .ub := if_neg (by omega)
    rw [this]
    rfl

/-! ## An instance -/

/-- the value at a center is its weight -/
def exVal (e : Snap BboxS) (p : Pt) : Dbl := e.weights.getD (e.centers.idxOf p) zero

/-- one box for everything -/
def exBox (d : Nat) : BboxS := ⟨⟨1, d, List.replicate d zero⟩, ⟨1, d, List.replicate d zero⟩⟩

/-- A small library: numbers are printed as the digits of their bit patterns, the weights are the values. -/
def exLib : Lib where
  toStr x := Obj.decimal x.toNat
  toD s := BitVec.ofNat 64 ((Obj.number s).getD 0)
  alloc _ := true
  detPos _ := true
  identity d := List.replicate (d * d) one
  env d := ⟨d, exBox d, fun _ => exBox d, fun _ _ => exBox d, fun e ps gs => ps.map (exVal e) ++ gs.flatMap fun _ => List.replicate d zero⟩
  exact d m _ _ _ _ _ ps gs vs _ :=
    if ps.Nodup ∧ vs.length = ps.length + d * gs.length then .ok (vs ++ List.replicate (basisSize d m.polyDegree) zero) else .throws .runtimeError
  incremental d m _ _ _ _ _ ps gs _ := .ok (List.range ps.length, List.range gs.length, List.replicate (ps.length + d * gs.length + basisSize d m.polyDegree) zero)
  inequality d m _ _ _ ps _ _ _ _ := .ok (List.range ps.length, List.replicate (ps.length + basisSize d m.polyDegree) zero)

theorem exLib_num : exLib.num.Ok delims where
  round x := by
    show BitVec.ofNat 64 ((Obj.number (Obj.decimal x.toNat)).getD 0) = x
    rw [Obj.number_decimal]
    simp
  clean x c hc := by
    have hd := Obj.decimal_digits x.toNat c hc
    refine ⟨?_, ?_, ?_⟩
    · unfold isSpace
      simp only [Bool.or_eq_false_iff, decide_eq_false_iff_not]
      refine ⟨⟨⟨⟨⟨?_, ?_⟩, ?_⟩, ?_⟩, ?_⟩, ?_⟩ <;> (rintro rfl; revert hd; decide)
    · intro h
      simp only [delims, List.mem_cons, List.not_mem_nil, or_false] at h
      rcases h with rfl | rfl | rfl <;> (revert hd; decide)
    · rintro rfl; revert hd; decide
  ne x := Nat.toDigits_ne_nil

theorem exLib_ok : LibOk exLib 100 where
  small := by decide
  memory _ _ := rfl
  dim _ := rfl
  points d _ := ⟨⟨rfl, rfl, by show (List.replicate d zero).length = 1 * d; simp⟩, ⟨rfl, rfl, by show (List.replicate d zero).length = 1 * d; simp⟩⟩
  hull d _ _ := ⟨⟨rfl, rfl, by show (List.replicate d zero).length = 1 * d; simp⟩, ⟨rfl, rfl, by show (List.replicate d zero).length = 1 * d; simp⟩⟩
  exact d m tol gtol n acc gacc ps gs v w0 := by
    dsimp only [exLib]
    split
    · rename_i h
      refine ⟨by simp, fun w hw => ?_⟩
      cases hw
      rw [List.length_append, h.2, List.length_replicate]
    · exact ⟨by simp, fun w hw => by cases hw⟩
  incremental d m tol gtol n acc gacc ps gs v := by
    refine ⟨(fun h => by cases h), fun ci gi w hw => ?_⟩
    cases hw
    exact ⟨fun i hi => List.mem_range.1 hi, fun i hi => List.mem_range.1 hi, List.nodup_range, List.nodup_range, by simp⟩
  inequality d m tol n acc ps v lb ub w0 := by
    refine ⟨(fun h => by cases h), fun ci w hw => ?_⟩
    cases hw
    exact ⟨fun i hi => List.mem_range.1 hi, List.nodup_range, by simp⟩

/-- the lines of a two-dimensional table: two coordinates, a value and two bounds -/
def exRows : List (List Dbl) := [[zero, one, one, zero, inf], [one, one, inf, zero, inf]]

def exFile : List Char := writeTable exLib.num delim exRows

theorem exFile_holds : Holds exLib.num exFile exRows 5 := holds_write exLib_num exRows 5 (by decide) (by decide) (by decide)

/-- a token stands for its length -/
def exToDouble (t : String) : Dbl := BitVec.ofNat 64 t.length

def exModelOpts : MakeModel.Options := ⟨["exp", "1", "2.5", "bh3"], zero, 1⟩

/-- what it stands for -/
def exMdl : Mdl := ⟨[⟨.exp, [1#64, 3#64], [one, one, one, one]⟩, ⟨.bh3, [one, zero], [one, one, one, one]⟩], 1, zero⟩

theorem exMade : (ModelSource.options exToDouble exModelOpts).get exLib 2 = .ok exMdl := by
  show MakeModel.makeModel ⟨2, exToDouble, exLib.detPos, exLib.identity 2⟩ exModelOpts = _
  decide +kernel

/-- the model file -/
def exModelFile : List Byte := save (exLib.modelFile 2) exMdl

theorem exCreated : createModel exLib exToDouble exModelOpts 2 = .ok exModelFile := by
  show ((ModelSource.options exToDouble exModelOpts).get exLib 2 >>= fun m => Outcome.ok (save (exLib.modelFile 2) m)) = _
  rw [exMade, Outcome.ok_bind]
  rfl

def exOpts : Options := ⟨none, .file exModelFile, none, one, minusOne, 5, one, one, false, false⟩

/-- the model in the file is used, and comes out of `extract-model` again -/
theorem exFileModel : exOpts.model.get exLib 2 = .ok exMdl ∧ ModelStorable exLib.detPos 2 100 exMdl ∧
    ∀ (out : List Byte) (f : Interpolant.Fit BboxS), Contains exLib 2 out exMdl f → extractModel exLib out 2 = .ok exModelFile := by
  obtain ⟨m, -, h2, h3, h4, -, h6⟩ := C84_models exLib_ok (by omega) (dim := 2) (by omega) ⟨rfl, rfl⟩ (by decide) exCreated
  rw [exMade] at h3
  cases h3
  exact ⟨h2, h4, h6⟩

theorem exRoom : RoomFor 100 2 exRows.length 0 := ⟨by decide, by decide⟩

theorem exPositive : Dbl.Positive one ∧ Dbl.Positive inf := by
  constructor <;> (rw [← Dbl.gt0_iff]; decide)

/-- Two points are too few for a linear trend in the plane. -/
example : ∃ e, fit exLib exOpts 2 exFile = .throws e := by
  apply (C84_fit exLib_ok (o := exOpts) (dim := 2) (by omega) rfl rfl exFile_holds (by decide) (.inl ⟨rfl, rfl, rfl⟩) exFileModel.1 exFileModel.2.1 (by decide) (init := .null)
    (.inl ⟨rfl, rfl⟩) exRoom).1
  rintro ⟨h | h, -⟩
  · revert h; decide
  · revert h; decide

/-- another model, without a trend, made from the options of `fit` itself -/
def exOpts' : Options := { exOpts with model := .options exToDouble ⟨["exp", "1", "2.5"], zero, -1⟩ }

def exMdl' : Mdl := ⟨[⟨.exp, [1#64, 3#64], [one, one, one, one]⟩], -1, zero⟩

theorem exMade' : exOpts'.model.get exLib 2 = .ok exMdl' := by
  show MakeModel.makeModel ⟨2, exToDouble, exLib.detPos, exLib.identity 2⟩ ⟨["exp", "1", "2.5"], zero, -1⟩ = _
  decide +kernel

theorem exStorable' : ModelStorable exLib.detPos 2 100 exMdl' := (made_storable (L := exLib) (N := 100) (d := 2) ⟨rfl, rfl⟩ exMade' (by decide)).1

theorem exGradTol : gradTolOf exOpts' = one := by decide

theorem exAccepted : EnoughPoints 2 exMdl' exRows.length ([] : List Pt).length ∧ NumArgsOk exOpts'.tol (gradTolOf exOpts') exOpts'.maxIter exOpts'.acc exOpts'.gradAcc ∧
    InitOk exMdl' (none : Option (Interpolant.Fit BboxS)) .null := by
  refine ⟨.inl (by decide), ⟨exPositive.1, by rw [exGradTol]; exact exPositive.1, by decide, exPositive.1, exPositive.1⟩, trivial⟩

/-- The interpolant is in the file. -/
example : ∃ out, fit exLib exOpts' 2 exFile = .ok out ∧ Contains exLib 2 out exMdl' ⟨[[zero, one], [one, one]], [], exBox 2, [one, inf]⟩ := by
  obtain ⟨w0, -, -, h⟩ := (C84_fit exLib_ok (o := exOpts') (dim := 2) (by omega) rfl rfl exFile_holds (by decide) (.inl ⟨rfl, rfl, rfl⟩) exMade' exStorable' (by decide)
    (init := .null) (.inl ⟨rfl, rfl⟩) exRoom).2 exAccepted
  exact h [one, inf] rfl

/-- A saved interpolant is there; an accuracy of zero is refused. -/
example : ∃ out, fit exLib exOpts' 2 exFile = .ok out ∧ ∃ e, evaluate exLib out zero one false 2 exFile = .throws e := by
  obtain ⟨w0, -, -, h⟩ := (C84_fit exLib_ok (o := exOpts') (dim := 2) (by omega) rfl rfl exFile_holds (by decide) (.inl ⟨rfl, rfl, rfl⟩) exMade' exStorable' (by decide)
    (init := .null) (.inl ⟨rfl, rfl⟩) exRoom).2 exAccepted
  obtain ⟨out, h1, h2⟩ := h [one, inf] rfl
  exact ⟨out, h1, C84_evaluate_refused (dim := 2) (by omega) h2 (.inr (.inl (by rw [← Dbl.gt0_iff]; decide))) exFile_holds (by decide)⟩

/-- The values come back. -/
example (out : List Byte) (h : fit exLib exOpts' 2 exFile = .ok out) : ∃ (out' : List Char) (v : List Dbl → Dbl), evaluate exLib out one one false 2 exFile = .ok out' ∧
    Holds exLib.num out' (exRows.map fun r => pointOf 2 r ++ [v r]) 3 ∧ ∀ r ∈ exRows, v r = cell 2 r :=
  C84_reproduces exLib_ok exLib_num (o := exOpts') (dim := 2) (by omega) rfl rfl rfl rfl exFile_holds (by decide) (by decide) exMade' exStorable' (by decide) exRoom exVal
    (fun _ _ => List.replicate 2 zero) (fun _ _ _ => rfl) (fun _ _ _ => rfl) exPositive.1 exPositive.1 Eq (by
      intro ps vs w hw E h1 h2 h3 h4 _ i p v hp hv
      dsimp only [exLib] at hw
      split at hw
      · rename_i hc
        cases hw
        unfold exVal
        rw [h2, h4]
        obtain ⟨hi, rfl⟩ := List.getElem?_eq_some_iff.1 hp
        obtain ⟨hj, rfl⟩ := List.getElem?_eq_some_iff.1 hv
        rw [hc.1.idxOf_getElem i hi, List.getD_eq_getElem?_getD, List.getElem?_append_left hj, List.getElem?_eq_getElem hj]
        rfl
      · cases hw) h

/-- With bounds, and with `--reduce`. -/
example : (∃ out, fit exLib { exOpts' with ineq := true } 2 exFile = .ok out ∧
      Contains exLib 2 out exMdl' ⟨[[zero, one], [one, one]], [], exBox 2, [zero, zero]⟩) ∧
    ∃ out, fit exLib { exOpts' with reduce := true } 2 exFile = .ok out ∧ Contains exLib 2 out exMdl' ⟨[[zero, one], [one, one]], [], exBox 2, [zero, zero]⟩ := by
  constructor
  · obtain ⟨w0, -, -, h⟩ := (C84_inequality exLib_ok (o := { exOpts' with ineq := true }) (dim := 2) (by omega) rfl rfl (.inl rfl) exFile_holds (by decide) exMade' exStorable'
      (by decide) (init := .null) (.inl ⟨rfl, rfl⟩) exRoom).2 ⟨(Dbl.isZero_iff_equal _).1 (by decide), .inl (by decide), ⟨exPositive.1, exPositive.2, by decide, exPositive.1, exPositive.2⟩, trivial⟩
    exact h [0, 1] [zero, zero] rfl
  · obtain ⟨-, h⟩ := (C84_reduce exLib_ok (o := { exOpts' with reduce := true }) (dim := 2) (by omega) rfl rfl rfl exFile_holds (by decide) (.inl ⟨rfl, rfl, rfl⟩) exMade'
      exStorable' (by decide) exRoom).2 ⟨.inl (by decide), exAccepted.2.1⟩
    exact h [0, 1] [] [zero, zero] (by decide)

end Verif.FitCommand
