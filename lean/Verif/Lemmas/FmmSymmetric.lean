import Verif.Model.FmmSymmetric
import Verif.Props.Evaluator

/-!
# Lemmas on the symmetric evaluators
-/

namespace Verif.FmmSym

open Verif FmmConfig Fmm

variable {Pos : Type} {km kn : Nat}

/-- What the calls so far have set: the latest points, and the weights if they were set after them. -/
structure Settings (Pos : Type) (km : Nat) where
  points : List Pos
  weights : Option (Nat → Fin km → ℝ)

/-- The settings after a call. -/
def Settings.after (g : Settings Pos km) : Op Pos km → Settings Pos km
  | .accuracy _ => g
  | .points p => ⟨p, none⟩
  | .weights w => { g with weights := some w }
  | .evaluate => g

/-- The settings after some calls. -/
def settings (ops : List (Op Pos km)) : Settings Pos km := ops.foldl Settings.after ⟨[], none⟩

/-- The exact sum at a (transformed) position. -/
noncomputable def field (e : Env Pos km kn) (S : List Pos) (w : Nat → Fin km → ℝ) (t : Pos) : Fin kn → ℝ :=
  fun i => (S.zipIdx.map (fun q => ∑ j, w q.2 j * e.kernel t (e.transform q.1) i j)).sum

/-- The particles of points with given inputs. -/
def mk (e : Env Pos km kn) (S : List Pos) (w : Nat → Fin km → ℝ) : List (Src Pos km) :=
  S.zipIdx.map (fun p => ⟨e.transform p.1, w p.2, p.2⟩)

/-- What holds between calls. -/
structure Inv (e : Env Pos km kn) (g : Settings Pos km) (s : State Pos km) : Prop where
  tree : s.tree = none
  ps : ∃ w, s.ps.Perm (FmmSym.mk e g.points w) ∧ ∀ w', g.weights = some w' → w = w'

theorem Inv.len {e : Env Pos km kn} {g : Settings Pos km} {s : State Pos km} (h : Inv e g s) : s.ps.length = g.points.length := by
  obtain ⟨w, hw, -⟩ := h.ps
  rw [hw.length_eq]; simp [FmmSym.mk]

/-- Sorting only rearranges, and the kernel does not throw at two equal points. -/
structure Env.Ok (e : Env Pos km kn) : Prop where
  sort : ∀ n l, (e.sort n l).Perm l
  self : e.self = .ok ()

theorem findBest_particles (e : Env Pos km kn) (s : State Pos km) (h : Nat) :
    (findBest e s h).1.ps = s.ps ∧ (findBest e s h).1.tree = s.tree := by
  unfold findBest
  cases s.bestConfig h with
  | some c => simp
  | none =>
      dsimp only
      cases e.find s.accuracy s.ps h <;> simp

theorem prepare_spec {e : Env Pos km kn} (he : e.Ok) {s : State Pos km} (h : s.tree = none) :
    (prepare e s).1.ps.Perm s.ps ∧
    ((∃ err, (prepare e s).2 = .throws err ∧ (prepare e s).1.tree = none) ∨
     ((prepare e s).2 = .ub ∧ (prepare e s).1.tree = none) ∨
     ((prepare e s).2 = .ok () ∧
        ((s.ps.length < 1024 ∧ (prepare e s).1.config = Config.zero ∧ (prepare e s).1.tree = none) ∨
         (1024 ≤ s.ps.length ∧ (prepare e s).1.tree = some (prepare e s).1.ps)))) := by
  unfold prepare
  split
  · rename_i hlt
    exact ⟨.refl _, Or.inr (Or.inr ⟨rfl, Or.inl ⟨hlt, rfl, rfl⟩⟩)⟩
  · rename_i hge
    dsimp only
    generalize e.treeHeight s.ps.length = H
    generalize hs1 : (if s.level < H - 1 then { s with ps := e.sort (H - 1) s.ps, level := H - 1 } else s : State Pos km) = s1
    have h1 : s1.ps.Perm s.ps ∧ s1.tree = none := by
      rw [← hs1]; split
      · exact ⟨he.sort _ _, h⟩
      · exact ⟨.refl _, h⟩
    obtain ⟨f1, f2⟩ := findBest_particles e s1 H
    cases hf : findBest e s1 H with
    | mk s3 o =>
        rw [hf] at f1 f2
        dsimp only at f1 f2
        have hp : s3.ps.Perm s.ps := by rw [f1]; exact h1.1
        have ht : s3.tree = none := by rw [f2]; exact h1.2
        cases o with
        | throws err => exact ⟨hp, Or.inl ⟨err, rfl, ht⟩⟩
        | ub => exact ⟨hp, Or.inr (Or.inl ⟨rfl, ht⟩)⟩
        | ok c =>
            dsimp only
            obtain ⟨acc, ps, sl, cfg, st, bc⟩ := s3
            dsimp only at hp ht
            subst ht
            by_cases hc : c = cfg
            · simp only [hc, ne_eq, not_true_eq_false, if_false]
              exact ⟨hp, Or.inr (Or.inr ⟨trivial, Or.inr ⟨by omega, trivial⟩⟩)⟩
            · simp only [ne_eq, hc, not_false_eq_true, if_true]
              exact ⟨hp, Or.inr (Or.inr ⟨trivial, Or.inr ⟨by omega, trivial⟩⟩)⟩

theorem Env.Ok.selfOutcome {e : Env Pos km kn} (he : e.Ok) (n : Nat) : FmmSym.selfOutcome e n = .ok () := by
  unfold FmmSym.selfOutcome
  split
  · rfl
  · exact he.self

theorem inv_run {e : Env Pos km kn} (he : e.Ok) {g : Settings Pos km} {s : State Pos km} (h : Inv e g s) (op : Op Pos km) :
    Inv e (g.after op) (op.run e s) := by
  cases op with
  | accuracy a => exact ⟨h.tree, h.ps⟩
  | points p =>
      refine ⟨rfl, ⟨fun i => (s.ps[i]?.map Src.inputs).getD 0, .refl _, ?_⟩⟩
      intro w' hw'; cases hw'
  | weights w =>
      simp only [Op.run, setWeights, h.tree]
      refine ⟨rfl, ⟨w, ?_, ?_⟩⟩
      · obtain ⟨w0, hw0, -⟩ := h.ps
        refine (hw0.map (fun p : Src Pos km => { p with inputs := w p.idx })).trans (List.Perm.of_eq ?_)
        simp [FmmSym.mk, Settings.after]
      · intro w' hw'; simp only [Settings.after, Option.some.injEq] at hw'; exact hw'
  | evaluate =>
      obtain ⟨p1, p3⟩ := prepare_spec he h.tree
      obtain ⟨w, hw, hw'⟩ := h.ps
      simp only [Op.run, Settings.after]
      unfold evaluate
      cases hp : prepare e s with
      | mk s1 out =>
          rw [hp] at p1 p3
          dsimp only at p1 p3
          rcases p3 with ⟨err, rfl, q1⟩ | ⟨rfl, q1⟩ | ⟨rfl, q⟩
          · exact ⟨q1, ⟨w, p1.trans hw, hw'⟩⟩
          · exact ⟨q1, ⟨w, p1.trans hw, hw'⟩⟩
          · dsimp only
            rw [he.selfOutcome]
            split
            · rename_i hth
              rcases q with ⟨-, q, -⟩ | ⟨-, q1⟩
              · rw [q] at hth; exact absurd hth (by decide)
              · rw [q1]
                exact ⟨rfl, ⟨w, p1.trans hw, hw'⟩⟩
            · exact ⟨rfl, ⟨w, p1.trans hw, hw'⟩⟩

/-- The evaluator after some calls. -/
noncomputable def history (e : Env Pos km kn) (ops : List (Op Pos km)) : State Pos km := ops.foldl (Op.run e) State.new

theorem inv_history {e : Env Pos km kn} (he : e.Ok) (ops : List (Op Pos km)) : Inv e (settings ops) (history e ops) := by
  have key : ∀ (ops : List (Op Pos km)) (g : Settings Pos km) (s : State Pos km), Inv e g s →
      Inv e (ops.foldl Settings.after g) (ops.foldl (Op.run e) s) := by
    intro ops
    induction ops with
    | nil => intro g s h; exact h
    | cons op ops ih => intro g s h; exact ih _ _ (inv_run he h op)
  exact key ops _ _ ⟨rfl, ⟨0, List.Perm.refl _, by intro w' h; cases h⟩⟩

/-- direct summation, then self interaction, read at the original indices: the full sum -/
theorem direct_potentials {e : Env Pos km kn} (ho : ∀ x, e.kernel x x = e.kernel e.origin e.origin) {S : List Pos} {w : Nat → Fin km → ℝ}
    {ps : List (Src Pos km)} (hp : ps.Perm (FmmSym.mk e S w)) {k : Nat} {t : Pos} (hk : S[k]? = some t) :
    potentials (symmetricDirect e.kernel e.origin ps) k = field e S w (e.transform t) := by
  rw [C54_symmetric e.kernel e.origin ho]
  have hmem : (⟨e.transform t, w k, k⟩ : Src Pos km) ∈ ps :=
    hp.symm.subset (List.mem_map.2 ⟨(t, k), List.mem_zipIdx_iff_getElem?.2 hk, rfl⟩)
  have hn : ((ps.map (fun p : Src Pos km => (⟨p.pos,
      fun i => (ps.map (fun q => ∑ j, q.inputs j * e.kernel p.pos q.pos i j)).sum, p.idx⟩ : Trg Pos kn))).map Trg.idx).Nodup := by
    rw [List.map_map]
    refine ((hp.map (Trg.idx ∘ _)).nodup_iff).2 ?_
    unfold FmmSym.mk
    rw [List.map_map]
    show (List.map Prod.snd S.zipIdx).Nodup
    have := map_zipIdx_nodup S Prod.snd id (fun _ => rfl)
    rwa [List.map_id] at this
  have := potentials_of_mem hn (List.mem_map.2 ⟨_, hmem, rfl⟩)
  dsimp only at this
  rw [this]
  funext i
  unfold field
  rw [(hp.map _).sum_eq]
  unfold FmmSym.mk
  rw [List.map_map]
  rfl

/-- C72 for the symmetric evaluator: fewer than 1024 points, weights set after the latest points. -/
theorem direct_regime {e : Env Pos km kn} (he : e.Ok) (ho : ∀ x, e.kernel x x = e.kernel e.origin e.origin) (ops : List (Op Pos km))
    {S : List Pos} {w : Nat → Fin km → ℝ} (hs : settings ops = ⟨S, some w⟩) (hsize : S.length < 1024) :
    ∃ v, (evaluate e (history e ops)).2 = .ok v ∧ ∀ k t, S[k]? = some t → v k = field e S w (e.transform t) := by
  have h := inv_history he ops
  rw [hs] at h
  obtain ⟨w0, hw0, hww⟩ := h.ps
  have hw0' : w0 = w := hww w rfl
  subst hw0'
  have hlen := h.len
  generalize history e ops = s at h hw0 hlen
  unfold evaluate
  have hsmall : prepare e s = ({ s with tree := none, config := Config.zero }, .ok ()) := by
    unfold prepare
    rw [hlen, if_pos hsize]
  rw [hsmall]
  dsimp only
  rw [if_neg (by decide), he.selfOutcome]
  exact ⟨_, rfl, fun k t hk => direct_potentials ho hw0 hk⟩

/-- Beyond that size: what the fast method gives for the latest points and weights in some order, with the self interaction, read at the
original indices. -/
theorem fast_regime {e : Env Pos km kn} (he : e.Ok) (ho : ∀ x, e.kernel x x = e.kernel e.origin e.origin) (ops : List (Op Pos km))
    {S : List Pos} {w : Nat → Fin km → ℝ} (hs : settings ops = ⟨S, some w⟩) {v : Nat → Fin kn → ℝ}
    (hv : (evaluate e (history e ops)).2 = .ok v) :
    (∀ k t, S[k]? = some t → v k = field e S w (e.transform t)) ∨
    ∃ c H ps, ps.Perm (FmmSym.mk e S w) ∧ v = potentials (addSelf e (e.fast c H ps)) := by
  have h := inv_history he ops
  rw [hs] at h
  obtain ⟨w0, hw0, hww⟩ := h.ps
  have hw0' : w0 = w := hww w rfl
  subst hw0'
  obtain ⟨p1, p3⟩ := prepare_spec he h.tree
  unfold evaluate at hv
  cases hp : prepare e (history e ops) with
  | mk s1 out =>
      rw [hp] at p1 p3 hv
      dsimp only at p1 p3 hv
      rcases p3 with ⟨err, rfl, q1⟩ | ⟨rfl, q1⟩ | ⟨rfl, q⟩
      · cases hv
      · cases hv
      · dsimp only at hv
        rw [he.selfOutcome] at hv
        split at hv
        · rename_i hth
          rcases q with ⟨-, q, -⟩ | ⟨-, q1⟩
          · rw [q] at hth; exact absurd hth (by decide)
          · rw [q1] at hv
            right
            injection hv with hv
            exact ⟨_, _, _, p1.trans hw0, hv.symm⟩
        · left
          injection hv with hv
          intro k t hk
          rw [← hv]
          exact direct_potentials ho (p1.trans hw0) hk

end Verif.FmmSym
