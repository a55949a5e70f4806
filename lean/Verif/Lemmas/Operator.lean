import Verif.Lemmas.FmmSymmetric

/-!
# The symmetric elementary evaluators
-/

namespace Verif.Operator

open Verif FmmKernel Kernel Evaluator

variable {d : Nat}

theorem entries_self (c : Cov d) (kind : Kind) (x : Pos d) : entries c kind x x = entries c kind 0 0 := by
  unfold entries
  simp

theorem block_self (c : Cov d) (kind : Kind) (x : Pos d) : block c kind x x = block c kind 0 0 := by
  unfold block array
  rw [entries_self c kind x]

/-- Only the Hessian of spherical and cubic functions is not implemented. -/
theorem selfKernel_ok (c : Cov d) (kind : Kind) (h : kind ≠ .hessian ∨ (c.k ≠ .spherical ∧ c.k ≠ .cubic)) :
    selfKernel c kind = .ok () := by
  unfold selfKernel entries
  dsimp only
  cases kind with
  | value => rfl
  | gradient => rfl
  | gradientT => rfl
  | hessian =>
      have h := h.resolve_left (fun h => h rfl)
      have : ∀ v : Pos d, c.hessIso v ≠ .throws .runtimeError ∧ ∃ o, c.hessIso v = .ok o := by
        intro v
        unfold Cov.hessIso
        have hh : hess c.k c.p c.q (Kernel.sq v) ≠ .throws := by
          cases hk : c.k with
          | spherical => exact absurd hk h.1
          | cubic => exact absurd hk h.2
          | spheroidal o part => cases part <;> simp only [hess] <;> (repeat' split) <;> exact fun h => by cases h
          | exponential => simp only [hess]; (repeat' split) <;> exact fun h => by cases h
          | gaussian => simp only [hess]; (repeat' split) <;> exact fun h => by cases h
          | cauchy m a => simp only [hess]; (repeat' split) <;> exact fun h => by cases h
          | even k => simp only [hess]; (repeat' split) <;> exact fun h => by cases h
          | odd k => simp only [hess]; (repeat' split) <;> exact fun h => by cases h
        cases hv : hess c.k c.p c.q (Kernel.sq v) with
        | throws => exact absurd hv hh
        | nan => exact ⟨(fun h => by cases h), _, rfl⟩
        | num g h => exact ⟨(fun h => by cases h), _, rfl⟩
      obtain ⟨-, o, ho⟩ := this (fun i => (0 : Pos d) i - (0 : Pos d) i)
      dsimp only
      rw [ho]

theorem env_ok {X : Ext d} (hX : X.toExt.Ok) (c : Cov d) (kind : Kind) (h : c.k ≠ .spherical ∧ c.k ≠ .cubic) :
    (env X c kind).Ok := ⟨hX.sortSrc, selfKernel_ok c kind (Or.inr h)⟩

theorem fmmResult_ok {X : Ext d} (hX : X.toExt.Ok) (c : Cov d) (kind : Kind) (h : c.k ≠ .spherical ∧ c.k ≠ .cubic)
    {calls : SCalls d kind} {S : List (Pos d)} {w : Nat → Fin (kind.km d) → ℝ} (hs : FmmSym.settings calls = ⟨S, some w⟩)
    (hsize : S.length < 1024) :
    ∃ v, fmmResult X c kind calls = .ok v ∧ ∀ n t, S[n]? = some t → v n = total c kind S w t := by
  obtain ⟨v, h1, h2⟩ := FmmSym.direct_regime (env_ok hX c kind h) (fun x => block_self c kind x) calls hs hsize
  exact ⟨v, h1, h2⟩

/-! ## compactly supported functions -/

/-- The state after some calls. -/
structure DirectInv (c : Cov d) {km : Nat} (pointed : Bool) (g : FmmSym.Settings (Pos d) km) (s : Direct d km) : Prop where
  pos : s.ps.map Prod.fst = g.points.map c.a.mulVec
  tree : pointed = true → s.tree = some (g.points.map c.a.mulVec)
  inputs : ∀ w, g.weights = some w → s.ps.map Prod.snd = (List.range g.points.length).map w

/-- whether points were set -/
def isPoints {km : Nat} : FmmSym.Op (Pos d) km → Bool
  | .points _ => true
  | _ => false

theorem DirectInv.len {c : Cov d} {km : Nat} {b : Bool} {g : FmmSym.Settings (Pos d) km} {s : Direct d km} (h : DirectInv c b g s) :
    s.ps.length = g.points.length := by
  have := congrArg List.length h.pos
  simpa using this

theorem directInv_step {c : Cov d} {km : Nat} {b : Bool} {g : FmmSym.Settings (Pos d) km} {s : Direct d km} (h : DirectInv c b g s)
    (op : FmmSym.Op (Pos d) km) : DirectInv c (b || isPoints op) (g.after op) (s.step c op) := by
  cases op with
  | accuracy a => rw [show (b || isPoints (FmmSym.Op.accuracy a : FmmSym.Op (Pos d) km)) = b by simp [isPoints]]; exact h
  | points points =>
      refine ⟨?_, fun _ => rfl, fun w hw => by cases hw⟩
      show (List.map _ _).map Prod.fst = points.map c.a.mulVec
      apply List.ext_getElem
      · simp
      · intro n h1 h2
        simp
  | weights w =>
      refine ⟨?_, ?_, ?_⟩
      · refine Eq.trans ?_ h.pos
        show (List.map _ _).map Prod.fst = _
        apply List.ext_getElem
        · simp
        · intro n h1 h2
          simp
      · exact fun hb => h.tree (by simpa [isPoints] using hb)
      · intro w' hw'
        cases hw'
        show (List.map _ _).map Prod.snd = _
        rw [List.map_map]
        show _ = (List.range g.points.length).map w
        rw [← h.len]
        apply List.ext_getElem
        · simp
        · intro n h1 h2
          simp
  | evaluate => rw [show (b || isPoints (FmmSym.Op.evaluate : FmmSym.Op (Pos d) km)) = b by simp [isPoints]]; exact h

theorem directInv_history (c : Cov d) {km : Nat} (calls : List (FmmSym.Op (Pos d) km)) :
    DirectInv c (calls.any isPoints) (FmmSym.settings calls) (calls.foldl (Direct.step c) ⟨[], none⟩) := by
  have key : ∀ (calls : List (FmmSym.Op (Pos d) km)) (b : Bool) (g : FmmSym.Settings (Pos d) km) (s : Direct d km), DirectInv c b g s →
      DirectInv c (b || calls.any isPoints) (calls.foldl FmmSym.Settings.after g) (calls.foldl (Direct.step c) s) := by
    intro calls
    induction calls with
    | nil => intro b g s h; simpa using h
    | cons op calls ih =>
        intro b g s h
        have := ih _ _ _ (directInv_step h op)
        rwa [Bool.or_assoc] at this
  have := key calls false ⟨[], none⟩ ⟨[], none⟩ ⟨rfl, fun h => by simp at h, fun w hw => by cases hw⟩
  rw [Bool.false_or] at this
  exact this

/-- the loop over the found particles, without the particle itself -/
theorem others_fold {km kn : Nat} (kernel : Pos d → Pos d → Fin kn → Fin km → ℝ) (src : List (Pos d)) (w : Nat → Fin km → ℝ) (t : Pos d)
    (n : Nat) : ∀ (js : List Nat), (∀ j ∈ js, j < src.length) → ∀ out : Fin kn → ℝ,
      js.foldlM (fun out j => if j = n then Outcome.ok out else Fmm.directStep kernel src w t out j) out =
      .ok (fun i => out i + ((js.filter (· ≠ n)).map (fun j => (src[j]?.map (fun q => ∑ c, w j c * kernel t q i c)).getD 0)).sum) := by
  intro js
  induction js with
  | nil => intro _ out; simp
  | cons j js ih =>
      intro hr out
      have hj : j < src.length := hr j (by simp)
      have hget : src[j]? = some src[j] := by simp [hj]
      rw [List.foldlM_cons]
      by_cases hjn : j = n
      · rw [if_pos hjn, Outcome.ok_bind, ih (fun k hk => hr k (by simp [hk])), List.filter_cons_of_neg (by simp [hjn])]
      · rw [if_neg hjn, List.filter_cons_of_pos (by simp [hjn])]
        have hstep : Fmm.directStep kernel src w t out j = .ok (fun i => out i + ∑ c, w j c * kernel t src[j] i c) := by
          unfold Fmm.directStep; rw [hget]
        rw [hstep, Outcome.ok_bind, ih (fun k hk => hr k (by simp [hk]))]
        congr 1
        funext i
        simp only [List.map_cons, List.sum_cons, hget, Option.map_some, Option.getD_some]
        ring

theorem directResult_ok {X : Ext d} (hX : X.toExt.Ok) (c : Cov d) (kind : Kind) (hq : 0 < c.q) {r : ℝ}
    (hr : supportRadius c.k c.q = some r) (hround : r * r ≤ X.round (r * r)) {calls : SCalls d kind} {S : List (Pos d)}
    {w : Nat → Fin (kind.km d) → ℝ} (hs : FmmSym.settings calls = ⟨S, some w⟩) (hsrc : calls.any isPoints = true)
    (hself : S ≠ [] → selfKernel c kind = .ok ()) :
    ∃ v, directResult X c kind calls = .ok v ∧ ∀ n t, S[n]? = some t → v n = total c kind S w t := by
  have inv := directInv_history c calls
  rw [hs, hsrc] at inv
  unfold directResult
  generalize List.foldl (Direct.step c) ⟨[], none⟩ calls = s at inv
  have htree := inv.tree rfl
  have hb : bound X.toExt c = X.round (r * r) := by unfold bound; rw [hr]; rfl
  have hlen : s.ps.length = S.length := inv.len
  have hps : s.ps = S.zipIdx.map (fun q => (c.a.mulVec q.1, w q.2)) := by
    apply List.ext_getElem
    · simp [hlen]
    · intro n h1 h2
      have e1 : (s.ps.map Prod.fst)[n]'(by simpa using h1) = (S.map c.a.mulVec)[n]'(by simpa [hlen] using h1) := by
        simp only [inv.pos]
      have e2 : (s.ps.map Prod.snd)[n]'(by simpa using h1) = ((List.range S.length).map w)[n]'(by simpa [hlen] using h1) := by
        simp only [inv.inputs w rfl]
      simp only [List.getElem_map, List.getElem_range] at e1 e2
      simp only [List.getElem_map, List.getElem_zipIdx, Nat.zero_add]
      exact Prod.ext e1 e2
  have hin : ∀ j, j < S.length → (s.ps[j]?.map Prod.snd).getD 0 = w j := by
    intro j hj
    rw [hps]
    simp [hj]
  -- the terms
  let F : Pos d → Fin (kind.kn d) → Nat → ℝ := fun t i j =>
    (S[j]?.map (fun q => ∑ k, w j k * block c kind (c.a.mulVec t) (c.a.mulVec q) i k)).getD 0
  have htotal : ∀ t i, total c kind S w t i = ∑ j ∈ Finset.range S.length, F t i j := by
    intro t i
    unfold total
    rw [sum_zipIdx, Finset.sum_range]
    refine Finset.sum_congr rfl fun j _ => ?_
    simp only [F]
    rw [List.getElem?_eq_getElem j.2]
    rfl
  have hoth : ∀ t n, n < S.length → S[n]? = some t → s.others c kind (c.a.mulVec t) n (X.search (S.map c.a.mulVec) (c.a.mulVec t) (bound X.toExt c)) =
      .ok (fun i => ∑ j ∈ (Finset.range S.length).filter (· ≠ n), F t i j) := by
    intro t n hn ht
    unfold Direct.others
    rw [inv.pos]
    have hmem : ∀ j ∈ X.search (S.map c.a.mulVec) (c.a.mulVec t) (bound X.toExt c), j < (S.map c.a.mulVec).length := by
      intro j hj
      obtain ⟨q, hq1, -⟩ := (hX.search _ _ _ _).1 hj
      exact (List.getElem?_eq_some_iff.1 hq1).1
    rw [others_fold _ _ _ _ _ _ hmem]
    congr 1
    funext i
    rw [Pi.zero_apply, zero_add]
    have hnd := (hX.nodup (S.map c.a.mulVec) (c.a.mulVec t) (bound X.toExt c)).filter (fun j => decide (j ≠ n))
    rw [← List.sum_toFinset _ hnd]
    have hF : ∀ j, j < S.length → (((S.map c.a.mulVec)[j]?.map (fun q => ∑ k, (s.ps[j]?.map Prod.snd).getD 0 k *
        block c kind (c.a.mulVec t) q i k)).getD 0) = F t i j := by
      intro j hj
      simp only [F]
      rw [hin j hj, List.getElem?_map, List.getElem?_eq_getElem hj]
      rfl
    refine Eq.trans (Finset.sum_congr rfl (g := F t i) fun j hj => ?_) (Finset.sum_subset ?_ ?_)
    · refine hF j ?_
      rw [List.mem_toFinset, List.mem_filter] at hj
      simpa using hmem j hj.1
    · intro j hj
      rw [List.mem_toFinset, List.mem_filter] at hj
      rw [Finset.mem_filter, Finset.mem_range]
      exact ⟨by simpa using hmem j hj.1, by simpa using hj.2⟩
    · intro j hj hnot
      rw [Finset.mem_filter, Finset.mem_range] at hj
      rw [List.mem_toFinset, List.mem_filter] at hnot
      have hnot' : j ∉ X.search (S.map c.a.mulVec) (c.a.mulVec t) (bound X.toExt c) := fun h => hnot ⟨h, by simpa using hj.2⟩
      have hget : S[j]? = some S[j] := List.getElem?_eq_getElem hj.1
      have hfar : ¬ Kernel.sq (c.a.mulVec t - c.a.mulVec S[j]) < bound X.toExt c := by
        intro hlt
        exact hnot' ((hX.search _ _ _ _).2 ⟨c.a.mulVec S[j], by rw [List.getElem?_map, hget]; rfl, hlt⟩)
      rw [not_lt, hb] at hfar
      show (S[j]?.map (fun q => ∑ k, w j k * block c kind (c.a.mulVec t) (c.a.mulVec q) i k)).getD 0 = 0
      rw [hget, Option.map_some, Option.getD_some]
      refine Finset.sum_eq_zero fun k _ => ?_
      rw [block_far c kind hq hr t S[j] ?_ i k, mul_zero]
      exact Real.le_sqrt_of_sq_le (by rw [pow_two]; exact le_trans hround hfar)
  have hself' : selfOutcome c kind s.ps.length = .ok () := by
    unfold selfOutcome
    split
    · rfl
    · rename_i h0
      exact hself (fun h => h0 (by rw [hlen, h]; rfl))
  have htrav : Outcome.traverse (fun p : (Pos d × (Fin (kind.km d) → ℝ)) × Nat =>
      s.others c kind p.1.1 p.2 (X.search (S.map c.a.mulVec) p.1.1 (bound X.toExt c))) s.ps.zipIdx =
      .ok (s.ps.zipIdx.map (fun p => fun i => ∑ j ∈ (Finset.range S.length).filter (· ≠ p.2), F ((S[p.2]?).getD 0) i j)) := by
    apply Outcome.traverse_ok
    intro p hp
    have h1 := List.mem_zipIdx_iff_getElem?.1 hp
    have hlt : p.2 < S.length := by rw [← hlen]; exact (List.getElem?_eq_some_iff.1 h1).1
    have hget : S[p.2]? = some S[p.2] := List.getElem?_eq_getElem hlt
    have hp1 : p.1.1 = c.a.mulVec S[p.2] := by
      rw [hps, List.getElem?_map, List.getElem?_zipIdx, hget] at h1
      simp only [Option.map_some, Option.some.injEq] at h1
      rw [← h1]
    rw [hp1, hoth S[p.2] p.2 hlt hget, hget]
    rfl
  refine ⟨fun n => ((s.ps.zip (s.ps.zipIdx.map (fun p => fun i => ∑ j ∈ (Finset.range S.length).filter (· ≠ p.2),
      F ((S[p.2]?).getD 0) i j)))[n]?.map (fun p => selfPart c kind p.1.2 p.2)).getD 0, ?_, ?_⟩
  · unfold Direct.evaluate
    rw [htree]
    dsimp only
    rw [htrav, Outcome.ok_bind, hself', Outcome.ok_bind]
  · intro n t ht
    have hlt := (List.getElem?_eq_some_iff.1 ht).1
    have hg : s.ps[n]? = some (c.a.mulVec t, w n) := by
      rw [hps, List.getElem?_map, List.getElem?_zipIdx, ht]; simp
    have hz : (s.ps.zip (s.ps.zipIdx.map (fun p => fun i => ∑ j ∈ (Finset.range S.length).filter (· ≠ p.2),
      F ((S[p.2]?).getD 0) i j)))[n]? = some ((c.a.mulVec t, w n), fun i => ∑ j ∈ (Finset.range S.length).filter (· ≠ n), F t i j) := by
      rw [List.getElem?_zip_eq_some]
      refine ⟨hg, ?_⟩
      rw [List.getElem?_map, List.getElem?_zipIdx, hg]
      simp only [Option.map_some, Nat.zero_add, ht, Option.getD_some]
    funext i
    dsimp only
    rw [hz, htotal, Option.map_some, Option.getD_some]
    unfold selfPart
    dsimp only
    rw [Finset.filter_ne', ← Finset.sum_erase_add _ _ (Finset.mem_range.2 hlt)]
    congr 1
    simp only [F]
    rw [ht, Option.map_some, Option.getD_some, block_self c kind (c.a.mulVec t)]

/-! ## all of them -/

theorem symResult_ok {X : Ext d} (hX : X.toExt.Ok) (c : Cov d) (kind : Kind) (hc : Searchable X.toExt c) {calls : SCalls d kind}
    {S : List (Pos d)} {w : Nat → Fin (kind.km d) → ℝ} (hs : FmmSym.settings calls = ⟨S, some w⟩)
    (hsrc : calls.any isPoints = true) (hsize : S.length < 1024) (hf : ∀ t ∈ S, ∀ q ∈ S, FiniteAt c kind (t - q)) :
    ∃ v, symResult X c kind calls = .ok v ∧ ∀ n t, S[n]? = some t → v n = total c kind S w t := by
  have hself : c.k = .spherical ∨ c.k = .cubic → S ≠ [] → selfKernel c kind = .ok () := by
    intro hk hS
    apply selfKernel_ok
    left
    rintro rfl
    obtain ⟨t, ht⟩ := List.exists_mem_of_ne_nil S hS
    obtain ⟨m, hm⟩ := hf t ht t ht
    rcases hk with hk | hk <;> rw [hk] at hm <;> cases hm
  unfold symResult
  unfold Searchable at hc
  cases hk : c.k with
  | spherical =>
      rw [hk] at hc
      exact directResult_ok hX c kind hc.1 (by rw [hk]; rfl) hc.2 hs hsrc (hself (Or.inl hk))
  | cubic =>
      rw [hk] at hc
      exact directResult_ok hX c kind hc.1 (by rw [hk]; rfl) hc.2 hs hsrc (hself (Or.inr hk))
  | spheroidal o part =>
      rw [hk] at hc
      have hne : c.k ≠ .spherical ∧ c.k ≠ .cubic := by rw [hk]; exact ⟨(fun h => by cases h), (fun h => by cases h)⟩
      cases part with
      | direct =>
          exact directResult_ok hX c kind hc.1 (by rw [hk]; rfl) hc.2 hs hsrc (fun _ => selfKernel_ok c kind (Or.inr hne))
      | fast => exact fmmResult_ok hX c kind hne hs hsize
      | full =>
          have hneD : (c.part o .direct).k ≠ .spherical ∧ (c.part o .direct).k ≠ .cubic := ⟨(fun h => by cases h), (fun h => by cases h)⟩
          have hneF : (c.part o .fast).k ≠ .spherical ∧ (c.part o .fast).k ≠ .cubic := ⟨(fun h => by cases h), (fun h => by cases h)⟩
          obtain ⟨v1, h1, h2⟩ := directResult_ok hX (c.part o .direct) kind hc.1 rfl hc.2 hs hsrc (fun _ => selfKernel_ok _ kind (Or.inr hneD))
          obtain ⟨v2, h3, h4⟩ := fmmResult_ok hX (c.part o .fast) kind hneF hs hsize
          refine ⟨fun n => Fmm.spheroidalEvaluate (v1 n) (v2 n), ?_, fun n t ht => ?_⟩
          · show splitResult X c o kind calls = _
            unfold splitResult
            rw [h1, Outcome.ok_bind, h3, Outcome.ok_bind]
          · funext i
            show (0 + v1 n + v2 n) i = _
            rw [zero_add, Pi.add_apply, h2 n t ht, h4 n t ht,
              total_parts c o hk kind S w t (fun q hq => hf t (List.mem_of_getElem? ht) q hq) i]
  | exponential => exact fmmResult_ok hX c kind (by rw [hk]; exact ⟨(fun h => by cases h), (fun h => by cases h)⟩) hs hsize
  | gaussian => exact fmmResult_ok hX c kind (by rw [hk]; exact ⟨(fun h => by cases h), (fun h => by cases h)⟩) hs hsize
  | cauchy m a => exact fmmResult_ok hX c kind (by rw [hk]; exact ⟨(fun h => by cases h), (fun h => by cases h)⟩) hs hsize
  | even k => exact fmmResult_ok hX c kind (by rw [hk]; exact ⟨(fun h => by cases h), (fun h => by cases h)⟩) hs hsize
  | odd k => exact fmmResult_ok hX c kind (by rw [hk]; exact ⟨(fun h => by cases h), (fun h => by cases h)⟩) hs hsize

end Verif.Operator
