import Verif.Model.Evaluator
import Verif.Props.FmmKernel
import Verif.Props.FmmEvaluator

/-! # The elementary evaluators -/

namespace Verif.Evaluator

open Verif FmmKernel Kernel

variable {d : Nat}

/-- What the parts that are not modelled are assumed to do: sorting only rearranges, and the search of a kd-tree reports the points whose
squared distance is below the bound, each once. -/
structure Ext.Ok (X : Ext d) : Prop where
  sortSrc : ∀ {km : Nat} n (l : List (Fmm.Src (Pos d) km)), (X.sortSrc n l).Perm l
  sortTrg : ∀ {kn : Nat} n (l : List (Fmm.Trg (Pos d) kn)), (X.sortTrg n l).Perm l
  nodup : ∀ pts t b, (X.search pts t b).Nodup
  search : ∀ pts t b j, j ∈ X.search pts t b ↔ ∃ q, pts[j]? = some q ∧ Kernel.sq (t - q) < b

theorem Ext.Ok.env {X : Ext d} (h : X.Ok) (c : Cov d) (kind : Kind) : (env X c kind).Ok := ⟨h.sortSrc, h.sortTrg⟩

/-- The sum an evaluator has to return at a target point: over the source points, block of the kernel times weights. -/
noncomputable def total (c : Cov d) (kind : Kind) (S : List (Pos d)) (w : Nat → Fin (kind.km d) → ℝ) (t : Pos d)
    (i : Fin (kind.kn d)) : ℝ :=
  (S.zipIdx.map (fun q => ∑ j, w q.2 j * block c kind (c.a.mulVec t) (c.a.mulVec q.1) i j)).sum

theorem field_eq (X : Ext d) (c : Cov d) (kind : Kind) (S : List (Pos d)) (w : Nat → Fin (kind.km d) → ℝ) (t : Pos d) :
    Fmm.field (env X c kind) S w (c.a.mulVec t) = total c kind S w t := rfl

/-! ## the fast evaluator -/

theorem fmmResult_ok {X : Ext d} (hX : X.Ok) (c : Cov d) (kind : Kind) {calls : Calls d kind} {S T : List (Pos d)}
    {w : Nat → Fin (kind.km d) → ℝ} (hs : Fmm.settings calls = ⟨S, T, some w⟩) (hsize : S.length * T.length < 1024 * 1024) :
    ∃ v, fmmResult X c kind calls = .ok v ∧ ∀ n t, T[n]? = some t → v n = total c kind S w t := by
  obtain ⟨v, h1, h2⟩ := Fmm.C54_direct_regime (hX.env c kind) calls (w := w) (by rw [hs]) (by rw [hs]; exact hsize)
  rw [hs] at h2
  exact ⟨v, h1, h2⟩

/-! ## the evaluator of compactly supported functions -/

/-- The state after some calls. -/
structure DirectInv (c : Cov d) {km : Nat} (sourced : Bool) (g : Fmm.Settings (Pos d) km) (s : Direct d km) : Prop where
  pos : s.src.map Prod.fst = g.source.map c.a.mulVec
  tree : sourced = true → s.tree = some (g.source.map c.a.mulVec)
  trg : s.trg = g.target.map c.a.mulVec
  inputs : ∀ w, g.weights = some w → s.src.map Prod.snd = (List.range g.source.length).map w

/-- whether source points were set -/
def isSource {km : Nat} : Fmm.Op (Pos d) km → Bool
  | .source _ => true
  | _ => false

theorem DirectInv.len {c : Cov d} {km : Nat} {b : Bool} {g : Fmm.Settings (Pos d) km} {s : Direct d km} (h : DirectInv c b g s) :
    s.src.length = g.source.length := by
  have := congrArg List.length h.pos
  simpa using this

theorem directInv_step {c : Cov d} {km : Nat} {b : Bool} {g : Fmm.Settings (Pos d) km} {s : Direct d km} (h : DirectInv c b g s)
    (op : Fmm.Op (Pos d) km) : DirectInv c (b || isSource op) (g.after op) (s.step c op) := by
  cases op with
  | accuracy a => rw [show (b || isSource (Fmm.Op.accuracy a : Fmm.Op (Pos d) km)) = b by simp [isSource]]; exact h
  | source points =>
      refine ⟨?_, fun _ => rfl, h.trg, fun w hw => by cases hw⟩
      show (List.map _ _).map Prod.fst = points.map c.a.mulVec
      apply List.ext_getElem
      · simp
      · intro n h1 h2
        simp
  | target points =>
      exact ⟨h.pos, fun hb => h.tree (by simpa [isSource] using hb), rfl, h.inputs⟩
  | weights w =>
      refine ⟨?_, ?_, h.trg, ?_⟩
      · refine Eq.trans ?_ h.pos
        show (List.map _ _).map Prod.fst = _
        apply List.ext_getElem
        · simp
        · intro n h1 h2
          simp
      · exact fun hb => h.tree (by simpa [isSource] using hb)
      · intro w' hw'
        cases hw'
        show (List.map _ _).map Prod.snd = _
        rw [List.map_map]
        show _ = (List.range g.source.length).map w
        rw [← h.len]
        apply List.ext_getElem
        · simp
        · intro n h1 h2
          simp
  | evaluate => rw [show (b || isSource (Fmm.Op.evaluate : Fmm.Op (Pos d) km)) = b by simp [isSource]]; exact h

theorem directInv_history (c : Cov d) {km : Nat} (calls : List (Fmm.Op (Pos d) km)) :
    DirectInv c (calls.any isSource) (Fmm.settings calls) (calls.foldl (Direct.step c) ⟨[], none, []⟩) := by
  have key : ∀ (calls : List (Fmm.Op (Pos d) km)) (b : Bool) (g : Fmm.Settings (Pos d) km) (s : Direct d km), DirectInv c b g s →
      DirectInv c (b || calls.any isSource) (calls.foldl Fmm.Settings.after g) (calls.foldl (Direct.step c) s) := by
    intro calls
    induction calls with
    | nil => intro b g s h; simpa using h
    | cons op calls ih =>
        intro b g s h
        have := ih _ _ _ (directInv_step h op)
        rwa [Bool.or_assoc] at this
  have := key calls false ⟨[], [], none⟩ ⟨[], none, []⟩ ⟨rfl, fun h => by simp at h, rfl, fun w hw => by cases hw⟩
  rw [Bool.false_or] at this
  exact this

/-- Beyond the support radius the blocks vanish. -/
theorem block_far (c : Cov d) (kind : Kind) (hq : 0 < c.q) {r : ℝ} (hr : supportRadius c.k c.q = some r) (x y : Pos d)
    (hx : r ≤ Real.sqrt (Kernel.sq (c.a.mulVec x - c.a.mulVec y))) (i : Fin (kind.kn d)) (j : Fin (kind.km d)) :
    block c kind (c.a.mulVec x) (c.a.mulVec y) i j = 0 := by
  rw [← Matrix.mulVec_sub] at hx
  obtain ⟨h1, h2⟩ := C42_support c.k c.p c.q hq c.a (x - y) r hr hx
  cases kind with
  | value => rw [block_value, h1]
  | gradient => rw [block_gradient c x y h2]; simp
  | gradientT => rw [block_gradientT c x y h2]; rfl
  | hessian =>
      by_cases hm : ∃ m, evaluateHessian c.k c.p c.q c.a (x - y) = .ok (some m)
      · obtain ⟨m, hm⟩ := hm
        rw [block_hessian c x y hm]
        unfold evaluateHessian at hm
        have : hess c.k c.p c.q (Kernel.sq (c.a.mulVec (x - y))) = .num 0 0 ∨ hess c.k c.p c.q (Kernel.sq (c.a.mulVec (x - y))) = .throws := by
          cases hk : c.k with
          | spherical => exact Or.inr rfl
          | cubic => exact Or.inr rfl
          | spheroidal o part =>
              cases part with
              | direct =>
                  rw [hk] at hr
                  obtain rfl : o.rho0 * c.q = r := by simpa [supportRadius] using hr
                  have : ¬ Real.sqrt (Kernel.sq (c.a.mulVec (x - y))) / c.q < o.rho0 := by
                    rw [not_lt, le_div_iff₀ hq]; exact hx
                  exact Or.inl (by simp [hess, this])
              | full => rw [hk] at hr; simp [supportRadius] at hr
              | fast => rw [hk] at hr; simp [supportRadius] at hr
          | exponential => rw [hk] at hr; simp [supportRadius] at hr
          | gaussian => rw [hk] at hr; simp [supportRadius] at hr
          | cauchy m a => rw [hk] at hr; simp [supportRadius] at hr
          | even k => rw [hk] at hr; simp [supportRadius] at hr
          | odd k => rw [hk] at hr; simp [supportRadius] at hr
        rcases this with h | h
        · rw [h] at hm
          simp only [Outcome.ok.injEq, Option.some.injEq] at hm
          rw [← hm]
          simp [hessMatrix]
        · rw [h] at hm; cases hm
      · apply block_not_finite
        intro l hl
        unfold entries at hl
        dsimp only at hl
        rw [diff_mulVec, hessIso_eq] at hl
        rcases hv : evaluateHessian c.k c.p c.q c.a (x - y) with (_ | m) | _ | _
        · rw [hv] at hl; cases hl
        · exact hm ⟨m, hv⟩
        · rw [hv] at hl; cases hl
        · rw [hv] at hl; cases hl

theorem directResult_ok {X : Ext d} (hX : X.Ok) (c : Cov d) (kind : Kind) (hq : 0 < c.q) {r : ℝ}
    (hr : supportRadius c.k c.q = some r) (hround : r * r ≤ X.round (r * r)) {calls : Calls d kind} {S T : List (Pos d)}
    {w : Nat → Fin (kind.km d) → ℝ} (hs : Fmm.settings calls = ⟨S, T, some w⟩) (hsrc : calls.any isSource = true) :
    ∃ v, directResult X c kind calls = .ok v ∧ ∀ n t, T[n]? = some t → v n = total c kind S w t := by
  have inv := directInv_history c calls
  rw [hs, hsrc] at inv
  unfold directResult
  generalize List.foldl (Direct.step c) ⟨[], none, []⟩ calls = s at inv
  have htree := inv.tree rfl
  have hb : bound X c = X.round (r * r) := by unfold bound; rw [hr]; rfl
  have hin : ∀ j, j < S.length → (s.src[j]?.map Prod.snd).getD 0 = w j := by
    intro j hj
    have h := inv.inputs w rfl
    have : (s.src.map Prod.snd)[j]? = some (w j) := by rw [h]; simp [hj]
    rw [List.getElem?_map] at this
    rw [this]; rfl
  have hdir : ∀ t, Fmm.directEvaluate (block c kind) (fun t => X.search (S.map c.a.mulVec) t (bound X c)) (s.src.map Prod.fst)
      (fun j => (s.src[j]?.map Prod.snd).getD 0) (c.a.mulVec t) = .ok (total c kind S w t) := by
    intro t
    rw [inv.pos]
    have h := Fmm.C54_support_radius (env X c kind) (fun t => X.search (S.map c.a.mulVec) t (bound X c)) S
      (fun j => (s.src[j]?.map Prod.snd).getD 0) (c.a.mulVec t) (hX.nodup _ _ _) ?_ ?_
    · refine h.trans ?_
      congr 1
      funext i
      show (S.zipIdx.map _).sum = (S.zipIdx.map _).sum
      congr 1
      apply List.map_congr_left
      intro q hqm
      have hlt : q.2 < S.length := by
        have := List.snd_lt_add_of_mem_zipIdx hqm
        omega
      refine Finset.sum_congr rfl fun j _ => ?_
      show (s.src[q.2]?.map Prod.snd).getD 0 j * _ = _
      rw [hin _ hlt]
      rfl
    · intro j hj
      obtain ⟨q, hq1, -⟩ := (hX.search _ _ _ _).1 hj
      have := (List.getElem?_eq_some_iff.1 hq1).1
      simpa using this
    · intro j q hj hnot i k
      have hfar : ¬ Kernel.sq (c.a.mulVec t - c.a.mulVec q) < bound X c := by
        intro hlt
        exact hnot ((hX.search _ _ _ _).2 ⟨c.a.mulVec q, by rw [List.getElem?_map, hj]; rfl, hlt⟩)
      rw [not_lt, hb] at hfar
      refine block_far c kind hq hr t q ?_ i k
      have hrr : r * r ≤ Kernel.sq (c.a.mulVec t - c.a.mulVec q) := le_trans hround hfar
      exact Real.le_sqrt_of_sq_le (by rw [pow_two]; exact hrr)
  refine ⟨fun n => ((T.map (fun t => total c kind S w t))[n]?).getD 0, ?_, fun n t ht => ?_⟩
  · unfold Direct.evaluate
    rw [inv.trg, htree]
    have : Outcome.traverse (fun t => Fmm.directEvaluate (block c kind) (fun t => X.search (S.map c.a.mulVec) t (bound X c))
        (s.src.map Prod.fst) (fun j => (s.src[j]?.map Prod.snd).getD 0) t) (T.map c.a.mulVec) =
        .ok (T.map (fun t => total c kind S w t)) := by
      have trav : ∀ (T : List (Pos d)), Outcome.traverse (fun t => Fmm.directEvaluate (block c kind)
          (fun t => X.search (S.map c.a.mulVec) t (bound X c))
          (s.src.map Prod.fst) (fun j => (s.src[j]?.map Prod.snd).getD 0) t) (T.map c.a.mulVec) =
          .ok (T.map (fun t => total c kind S w t)) := by
        intro T
        induction T with
        | nil => rfl
        | cons t T ih => simp only [List.map_cons, Outcome.traverse, hdir t, Outcome.ok_bind, ih, Outcome.pure_eq]
      exact trav T
    dsimp only
    rw [this, Outcome.ok_bind]
  · simp only [List.getElem?_map, ht, Option.map_some, Option.getD_some]

/-! ## the evaluator of spheroidal functions -/

/-- The kernel has finite entries at a displacement. -/
def FiniteAt (c : Cov d) : Kind → Pos d → Prop
  | .value, _ => True
  | .gradient, v => ∃ g, evaluateGradient c.k c.p c.q c.a v = some g
  | .gradientT, v => ∃ g, evaluateGradient c.k c.p c.q c.a v = some g
  | .hessian, v => ∃ m, evaluateHessian c.k c.p c.q c.a v = .ok (some m)

theorem parts_finite (c : Cov d) (o : Spheroid) (hk : c.k = .spheroidal o .full) (v : Pos d) :
    (∀ g, evaluateGradient c.k c.p c.q c.a v = some g → ∃ gd gf, evaluateGradient (.spheroidal o .direct) c.p c.q c.a v = some gd ∧
      evaluateGradient (.spheroidal o .fast) c.p c.q c.a v = some gf) ∧
    ∀ m, evaluateHessian c.k c.p c.q c.a v = .ok (some m) → ∃ md mf,
      evaluateHessian (.spheroidal o .direct) c.p c.q c.a v = .ok (some md) ∧
      evaluateHessian (.spheroidal o .fast) c.p c.q c.a v = .ok (some mf) := by
  rw [hk]
  constructor
  · intro g hg
    simp only [evaluateGradient, grad] at hg ⊢
    by_cases hlt : Real.sqrt (Kernel.sq (c.a.mulVec v)) / c.q < o.rho0
    · by_cases h0 : Real.sqrt (Kernel.sq (c.a.mulVec v)) = 0
      · simp only [if_pos hlt, if_pos h0] at hg
        cases hg
      · simp only [if_pos hlt, if_neg h0]
        exact ⟨_, _, rfl, rfl⟩
    · simp only [if_neg hlt]
      exact ⟨_, _, rfl, rfl⟩
  · intro m hm
    simp only [evaluateHessian, hess] at hm ⊢
    by_cases hlt : Real.sqrt (Kernel.sq (c.a.mulVec v)) / c.q < o.rho0
    · by_cases h0 : Real.sqrt (Kernel.sq (c.a.mulVec v)) = 0
      · simp only [if_pos hlt, if_pos h0] at hm
        cases hm
      · simp only [if_pos hlt, if_neg h0]
        exact ⟨_, _, rfl, rfl⟩
    · simp only [if_neg hlt]
      exact ⟨_, _, rfl, rfl⟩

theorem block_parts (c : Cov d) (o : Spheroid) (hk : c.k = .spheroidal o .full) (kind : Kind) (x y : Pos d)
    (hf : FiniteAt c kind (x - y)) (i : Fin (kind.kn d)) (j : Fin (kind.km d)) :
    block c kind (c.a.mulVec x) (c.a.mulVec y) i j =
      block (c.part o .direct) kind (c.a.mulVec x) (c.a.mulVec y) i j + block (c.part o .fast) kind (c.a.mulVec x) (c.a.mulVec y) i j := by
  obtain ⟨s1, s2, s3, -⟩ := C42_spheroidal_sum o c.p c.q c.a (x - y)
  obtain ⟨f1, f2⟩ := parts_finite c o hk (x - y)
  cases kind with
  | value =>
      have h := block_value c x y i j
      have hd := block_value (c.part o .direct) x y i j
      have hff := block_value (c.part o .fast) x y i j
      rw [hk] at h
      exact h.trans (s1.trans (congrArg₂ (· + ·) hd.symm hff.symm))
  | gradient =>
      obtain ⟨g, hg⟩ := hf
      obtain ⟨gd, gf, hgd, hgf⟩ := f1 g hg
      have h := s2 g gd gf (by rw [← hk]; exact hg) hgd hgf
      have hd := block_gradient (c.part o .direct) x y hgd i j
      have hff := block_gradient (c.part o .fast) x y hgf i j
      rw [block_gradient c x y hg, h]
      refine Eq.trans ?_ (congrArg₂ (· + ·) hd.symm hff.symm)
      simp only [Pi.add_apply]; ring
  | gradientT =>
      obtain ⟨g, hg⟩ := hf
      obtain ⟨gd, gf, hgd, hgf⟩ := f1 g hg
      have h := s2 g gd gf (by rw [← hk]; exact hg) hgd hgf
      have hd := block_gradientT (c.part o .direct) x y hgd i j
      have hff := block_gradientT (c.part o .fast) x y hgf i j
      rw [block_gradientT c x y hg, h]
      exact Eq.trans rfl (congrArg₂ (· + ·) hd.symm hff.symm)
  | hessian =>
      obtain ⟨g, hg⟩ := hf
      obtain ⟨gd, gf, hgd, hgf⟩ := f2 g hg
      have h := s3 g gd gf (by rw [← hk]; exact hg) hgd hgf
      have hd := block_hessian (c.part o .direct) x y hgd i j
      have hff := block_hessian (c.part o .fast) x y hgf i j
      rw [block_hessian c x y hg, h]
      refine Eq.trans ?_ (congrArg₂ (· + ·) hd.symm hff.symm)
      simp only [Matrix.add_apply]; ring

theorem total_parts (c : Cov d) (o : Spheroid) (hk : c.k = .spheroidal o .full) (kind : Kind) (S : List (Pos d))
    (w : Nat → Fin (kind.km d) → ℝ) (t : Pos d) (hf : ∀ q ∈ S, FiniteAt c kind (t - q)) (i : Fin (kind.kn d)) :
    total c kind S w t i = total (c.part o .direct) kind S w t i + total (c.part o .fast) kind S w t i := by
  unfold total
  rw [← List.sum_map_add]
  congr 1
  apply List.map_congr_left
  intro q hq
  rw [← Finset.sum_add_distrib]
  refine Finset.sum_congr rfl fun j _ => ?_
  rw [← mul_add]
  congr 1
  exact block_parts c o hk kind t q.1 (hf _ (List.fst_mem_of_mem_zipIdx hq)) i j

/-! ## all three -/

/-- The radius a covariance function is searched with is not rounded down, and its range is positive. -/
def Searchable (X : Ext d) (c : Cov d) : Prop :=
  match c.k with
  | .spherical => 0 < c.q ∧ c.q * c.q ≤ X.round (c.q * c.q)
  | .cubic => 0 < c.q ∧ c.q * c.q ≤ X.round (c.q * c.q)
  | .spheroidal o .direct => 0 < c.q ∧ o.rho0 * c.q * (o.rho0 * c.q) ≤ X.round (o.rho0 * c.q * (o.rho0 * c.q))
  | .spheroidal o .full => 0 < c.q ∧ o.rho0 * c.q * (o.rho0 * c.q) ≤ X.round (o.rho0 * c.q * (o.rho0 * c.q))
  | _ => True

theorem result_ok {X : Ext d} (hX : X.Ok) (c : Cov d) (kind : Kind) (hc : Searchable X c) {calls : Calls d kind} {S T : List (Pos d)}
    {w : Nat → Fin (kind.km d) → ℝ} (hs : Fmm.settings calls = ⟨S, T, some w⟩) (hsrc : calls.any isSource = true)
    (hsize : S.length * T.length < 1024 * 1024) (hf : ∀ t ∈ T, ∀ q ∈ S, FiniteAt c kind (t - q)) :
    ∃ v, result X c kind calls = .ok v ∧ ∀ n t, T[n]? = some t → v n = total c kind S w t := by
  unfold result
  unfold Searchable at hc
  cases hk : c.k with
  | spherical =>
      rw [hk] at hc
      exact directResult_ok hX c kind hc.1 (by rw [hk]; rfl) hc.2 hs hsrc
  | cubic =>
      rw [hk] at hc
      exact directResult_ok hX c kind hc.1 (by rw [hk]; rfl) hc.2 hs hsrc
  | spheroidal o part =>
      rw [hk] at hc
      cases part with
      | direct => exact directResult_ok hX c kind hc.1 (by rw [hk]; rfl) hc.2 hs hsrc
      | fast => exact fmmResult_ok hX c kind hs hsize
      | full =>
          obtain ⟨v1, h1, h2⟩ := directResult_ok hX (c.part o .direct) kind hc.1 rfl hc.2 hs hsrc
          obtain ⟨v2, h3, h4⟩ := fmmResult_ok hX (c.part o .fast) kind hs hsize
          refine ⟨fun n => Fmm.spheroidalEvaluate (v1 n) (v2 n), ?_, fun n t ht => ?_⟩
          · show splitResult X c o kind calls = _
            unfold splitResult
            rw [h1, Outcome.ok_bind, h3, Outcome.ok_bind]
          · funext i
            show (0 + v1 n + v2 n) i = _
            rw [zero_add, Pi.add_apply, h2 n t ht, h4 n t ht,
              total_parts c o hk kind S w t (fun q hq => hf t (List.mem_of_getElem? ht) q hq) i]
  | exponential => exact fmmResult_ok hX c kind hs hsize
  | gaussian => exact fmmResult_ok hX c kind hs hsize
  | cauchy m a => exact fmmResult_ok hX c kind hs hsize
  | even k => exact fmmResult_ok hX c kind hs hsize
  | odd k => exact fmmResult_ok hX c kind hs hsize

end Verif.Evaluator
