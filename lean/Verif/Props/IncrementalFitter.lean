import Verif.Model.IncrementalFitter
import Verif.Props.DistanceFilter
import Verif.Lemmas.Interpolant
import Mathlib.Tactic.Linarith
import Mathlib.Tactic.Ring
import Mathlib.Data.Fintype.Basic
import Mathlib.Data.Finset.Max
import Mathlib.Data.Finset.Prod
import Mathlib.Data.List.TakeWhile
import Mathlib.Algebra.Order.Archimedean.Real.Basic
import Mathlib.Algebra.Order.Archimedean.Basic
import Mathlib.Data.List.Perm.Basic

/-!
# C18: incremental fitting
-/

namespace Verif.Incremental

open Verif DistanceFilter

/-- What `zip_sort` guarantees (C01): the pairs are permuted and ascending. -/
def SortAsc (sort : List (Nat × ℝ) → List (Nat × ℝ)) : Prop :=
  ∀ l, (sort l).Perm l ∧ (sort l).Pairwise (fun a b => a.2 ≤ b.2)

/-- The components a problem is made of keep their contracts. -/
structure Problem.Ok (pb : Problem) (dist distG : Nat → Nat → ℝ) : Prop where
  searchP : ExactSearch pb.muF dist pb.searchP
  searchG : ExactSearch pb.sigF distG pb.searchG
  symP : ∀ i j, dist i j = dist j i
  symG : ∀ i j, distG i j = distG j i
  sortP : SortAsc pb.sortP
  sortG : SortAsc pb.sortG
  /-- the solver does not crash and returns one weight per unknown -/
  solve : ∀ c g v w0, pb.solve c g v w0 ≠ .ub ∧
    ∀ w, pb.solve c g v w0 = .ok w → w.length = c.length + pb.dim * g.length + pb.l
  gtol : 0 < pb.gtol

theorem kMin_pos : 0 < kMinDistance := by unfold kMinDistance; positivity

variable {pb : Problem} {dist distG : Nat → Nat → ℝ}

theorem residuals_eq (s : St) (w : List ℝ) (cc cg : List Nat) :
    residuals pb cc (fitAt pb s w cc cg) = cc.map (fun i => |pb.evalP s.centers s.grads w i - pb.value i|) := by
  unfold residuals fitAt
  rw [List.take_append_of_le_length (by simp), List.take_of_length_le (by simp)]
  rw [List.zipWith_map_left]
  induction cc with
  | nil => rfl
  | cons a l ih => simp [ih]

/-- the residual of one gradient point -/
noncomputable def gres (pb : Problem) (c g : List Nat) (w : List ℝ) (i : Nat) : ℝ :=
  ((List.range pb.dim).map (fun k => |pb.evalG c g w i k - pb.gradValue i k|)).foldl max 0

theorem gradResiduals_eq (s : St) (w : List ℝ) (cc cg : List Nat) :
    gradResiduals pb cg (fitAt pb s w cc cg) = cg.map (gres pb s.centers s.grads w) := by
  unfold gradResiduals fitAt
  set L := cg.map (fun i => (List.range pb.dim).map (pb.evalG s.centers s.grads w i)) with hL
  have hfl : cg.flatMap (fun i => (List.range pb.dim).map (pb.evalG s.centers s.grads w i)) = L.flatten := by
    rw [hL, List.flatMap_def]
  have hlen : ∀ x ∈ L, x.length = pb.dim := by
    intro x hx; obtain ⟨i, _, rfl⟩ := List.mem_map.1 hx; simp
  have hl := Interpolant.length_flatten_const _ _ hlen
  have hLl : L.length = cg.length := by simp [hL]
  rw [hfl]
  simp only
  rw [List.length_append, hl, hLl]
  simp only [Nat.add_sub_cancel, List.length_map]
  rw [List.drop_append_of_le_length (by simp), List.drop_of_length_le (by simp), List.nil_append]
  apply List.ext_getElem (by simp)
  intro r h1 h2
  simp only [List.length_map, List.length_zipIdx] at h1
  simp only [List.getElem_map, List.getElem_zipIdx, Nat.zero_add, gres]
  congr 1
  apply List.map_congr_left
  intro k hk
  have hk' := List.mem_range.1 hk
  have := Interpolant.getElem?_flatten_const pb.dim L hlen r _ (by rw [List.getElem?_eq_getElem (by omega)]) k hk'
  simp only [hL, List.getElem_map] at this
  rw [List.getD_eq_getElem?_getD, this]
  simp [hk']

theorem foldl_max_lt {t : ℝ} (ht : 0 < t) (l : List ℝ) : l.foldl max 0 < t ↔ ∀ x ∈ l, x < t := by
  suffices h : ∀ (l : List ℝ) (a : ℝ), l.foldl max a < t ↔ a < t ∧ ∀ x ∈ l, x < t by
    rw [h]; simp [ht]
  intro l
  induction l with
  | nil => simp
  | cons b l ih => intro a; simp [ih, max_lt_iff, and_assoc]

theorem gres_lt (c g : List Nat) (w : List ℝ) (i : Nat) {t : ℝ} (ht : 0 < t) :
    gres pb c g w i < t ↔ ∀ k < pb.dim, |pb.evalG c g w i k - pb.gradValue i k| < t := by
  unfold gres
  rw [foldl_max_lt ht]
  simp

theorem needFitting_zero (l : List (Nat × ℝ)) (t : ℝ) : needFitting l t = 0 ↔ ∀ p ∈ l, p.2 < t := by
  unfold needFitting
  have h1 := List.takeWhile_prefix (l := l) (fun p => decide (p.2 < t))
  constructor
  · intro h p hp
    have : l.takeWhile (fun p => decide (p.2 < t)) = l := h1.eq_of_length_le (by omega)
    rw [← this] at hp
    simpa using List.mem_takeWhile_imp hp
  · intro h
    rw [List.takeWhile_eq_self_iff.2 (fun x hx => by simpa using h x hx)]
    omega

theorem zip_map_fst {f : Nat → ℝ} (cc : List Nat) : (cc.zip (cc.map f)).map Prod.fst = cc := by
  rw [List.map_fst_zip (by simp)]

theorem mem_zip_map {f : Nat → ℝ} {cc : List Nat} {p : Nat × ℝ} : p ∈ cc.zip (cc.map f) ↔ p.1 ∈ cc ∧ p.2 = f p.1 := by
  induction cc with
  | nil => simp
  | cons a l ih =>
      simp only [List.map_cons, List.zip_cons_cons, List.mem_cons, ih]
      constructor
      · rintro (rfl | ⟨h1, h2⟩)
        · exact ⟨Or.inl rfl, rfl⟩
        · exact ⟨Or.inr h1, h2⟩
      · rintro ⟨h1 | h1, h2⟩
        · left; rw [← h1, ← h2]
        · exact Or.inr ⟨h1, h2⟩

theorem compl_ok {c : List Nat} {n : Nat} (h1 : c.Nodup) (h2 : ∀ i ∈ c, i < n) :
    compl c n = .ok ((List.range n).filter (fun i => !c.contains i)) := by
  unfold compl; rw [if_pos ⟨h1, h2⟩]

/-- The new centers of one kind. -/
theorem additions_spec {n : Nat} {dist : Nat → Nat → ℝ} {search : ℝ → Nat → List Nat} (hs : ExactSearch n dist search)
    (hsym : ∀ i j, dist i j = dist j i) (fd : ℝ) (hfd : kMinDistance ≤ fd) (centers : List Nat) (hnd : centers.Nodup)
    (hlt : ∀ i ∈ centers, i < n) (hsep : ∀ i ∈ centers, ∀ j ∈ centers, i ≠ j → fd < dist i j)
    (sorted : List (Nat × ℝ))
    (hperm : (sorted.map Prod.fst).Perm ((List.range n).filter (fun i => !centers.contains i))) (need : Nat) :
    ∃ ap, additions n search fd centers sorted need = .ok ap ∧ (centers ++ ap).Nodup ∧ (∀ i ∈ centers ++ ap, i < n) ∧
      (∀ i ∈ centers ++ ap, ∀ j ∈ centers ++ ap, i ≠ j → fd < dist i j) ∧
      ap.Sublist ((sorted.map Prod.fst).reverse.take need) ∧
      ((∀ i < n, ∀ j < n, i ≠ j → fd < dist i j) → ap = (sorted.map Prod.fst).reverse.take need) ∧
      (centers = [] → ∀ x, (sorted.map Prod.fst).reverse.head? = some x → 0 < need → x ∈ ap) := by
  set desc := (sorted.map Prod.fst).reverse with hdesc
  have hmem : ∀ x, x ∈ desc ↔ x < n ∧ x ∉ centers := by
    intro x
    rw [hdesc, List.mem_reverse, hperm.mem_iff]
    simp
  have hdn : desc.Nodup := by
    rw [hdesc, List.nodup_reverse, hperm.nodup_iff]
    exact List.nodup_range.filter _
  have hin : ∀ i ∈ centers ++ desc, i < n := by
    intro i hi
    rcases List.mem_append.1 hi with h | h
    · exact hlt i h
    · exact ((hmem i).1 h).1
  obtain ⟨kept, h1, h2, h3, h4⟩ := filter_spec hs hsym (DF.new n) rfl fd hfd (centers ++ desc) hin
  have hck : ∀ x ∈ centers, x ∈ kept := by
    intro x hx
    by_contra hk
    obtain ⟨pre, post, hpp⟩ := List.append_of_mem hx
    obtain ⟨j, hj, _, hne, hd⟩ := h4 pre x (post ++ desc) (by rw [hpp]; simp) hk
    have := hsep j (by rw [hpp]; simp [hj]) x hx hne
    exact absurd this (not_lt.2 hd)
  have hap : ∀ x ∈ (desc.take need).filter (fun i => kept.contains i), x ∈ desc ∧ x ∈ kept := by
    intro x hx
    obtain ⟨a, b⟩ := List.mem_filter.1 hx
    exact ⟨List.mem_of_mem_take a, by simpa using b⟩
  refine ⟨(desc.take need).filter (fun i => kept.contains i), ?_, ?_, ?_, ?_, List.filter_sublist, ?_, ?_⟩
  · unfold additions
    simp only
    rw [← hdesc, h1]
    rfl
  · rw [List.nodup_append']
    refine ⟨hnd, (hdn.sublist (List.take_sublist _ _)).filter _, ?_⟩
    intro x hx hx'
    exact ((hmem x).1 (hap x hx').1).2 hx
  · intro i hi
    rcases List.mem_append.1 hi with h | h
    · exact hlt i h
    · exact ((hmem i).1 (hap i h).1).1
  · have : ∀ x ∈ centers ++ (desc.take need).filter (fun i => kept.contains i), x ∈ kept := by
      intro x hx
      rcases List.mem_append.1 hx with h | h
      · exact hck x h
      · exact (hap x h).2
    intro i hi j hj hne
    exact h3 i (this i hi) j (this j hj) hne
  · intro hall
    apply List.filter_eq_self.2
    intro x hx
    have hxd := List.mem_of_mem_take hx
    by_contra hk
    have hk' : x ∉ kept := by simpa using hk
    obtain ⟨pre, post, hpp⟩ := List.append_of_mem (List.mem_append.2 (Or.inr hxd) : x ∈ centers ++ desc)
    obtain ⟨j, hj, _, hne, hd⟩ := h4 pre x post hpp hk'
    have hjn : j < n := hin j (by rw [hpp]; simp [hj])
    exact absurd (hall j hjn x ((hmem x).1 hxd).1 hne) (not_lt.2 hd)
  · intro hc x hx hneed
    obtain ⟨rest, hr⟩ : ∃ rest, desc = x :: rest := by
      cases hd : desc with
      | nil => rw [hd] at hx; simp at hx
      | cons a r => rw [hd] at hx; simp only [List.head?_cons, Option.some.injEq] at hx; exact ⟨r, by rw [hx]⟩
    have hxk : x ∈ kept := by
      by_contra hk
      obtain ⟨j, hj, _⟩ := h4 [] x rest (by rw [hc, hr]) hk
      simp at hj
    rw [List.mem_filter]
    refine ⟨?_, by simpa using hxk⟩
    rw [hr]
    cases need with
    | zero => omega
    | succ k => simp

/-- What holds at the head of the loop. -/
structure Inv (pb : Problem) (dist distG : Nat → Nat → ℝ) (s : St) : Prop where
  nodup : s.centers.Nodup
  lt : ∀ i ∈ s.centers, i < pb.muF
  gnodup : s.grads.Nodup
  glt : ∀ i ∈ s.grads, i < pb.sigF
  wlen : s.weights.length = s.centers.length + pb.dim * s.grads.length + pb.l
  sep : ∀ i ∈ s.centers, ∀ j ∈ s.centers, i ≠ j → s.fd < dist i j
  gsep : ∀ i ∈ s.grads, ∀ j ∈ s.grads, i ≠ j → s.fd < distG i j
  fd : kMinDistance ≤ s.fd

theorem inv_init : Inv pb dist distG (init pb) := by
  by_cases h : pb.deg1 ∧ pb.muF = 1 ∧ pb.sigF ≥ 1
  · constructor <;> simp only [init, if_pos h]
    · simp
    · intro i hi; simp only [List.mem_singleton] at hi; omega
    · simp
    · simp
    · simp
    · intro i hi j hj hne; simp only [List.mem_singleton] at hi hj; omega
    · simp
    · exact le_max_right _ _
  · constructor <;> simp only [init, if_neg h]
    · simp
    · simp
    · simp
    · simp
    · simp
    · simp
    · simp
    · exact le_max_right _ _

/-- The meaning of a returned triple. -/
structure Result (pb : Problem) (c g : List Nat) (w : List ℝ) : Prop where
  nodup : c.Nodup
  lt : ∀ i ∈ c, i < pb.muF
  gnodup : g.Nodup
  glt : ∀ i ∈ g, i < pb.sigF
  wlen : w.length = c.length + pb.dim * g.length + pb.l
  rest : ∀ i < pb.muF, i ∉ c → |pb.evalP c g w i - pb.value i| < pb.tol
  grest : ∀ i < pb.sigF, i ∉ g → ∀ k < pb.dim, |pb.evalG c g w i k - pb.gradValue i k| < pb.gtol
  solved : pb.l ≤ c.length ∨ (pb.deg1 = true ∧ c.length = 1 ∧ 1 ≤ g.length) →
    ∃ w0, pb.solve c g (pb.values c g) w0 = .ok w

theorem enough_iff (mu sigma : Nat) : enough pb mu sigma = true ↔
    pb.l ≤ mu ∨ (pb.deg1 = true ∧ mu = 1 ∧ 1 ≤ sigma) := by
  simp [enough, and_assoc]

theorem nodup_full {c : List Nat} {n : Nat} (h1 : c.Nodup) (h2 : ∀ i ∈ c, i < n) (hl : c.length = n) :
    ∀ i < n, i ∈ c := by
  have hsub : c ⊆ List.range n := fun i hi => List.mem_range.2 (h2 i hi)
  have hp : c.Subperm (List.range n) := h1.subperm hsub
  have := hp.perm_of_length_le (by simp [hl])
  intro i hi
  exact this.mem_iff.2 (List.mem_range.2 hi)

theorem nodup_length_le {c : List Nat} {n : Nat} (h1 : c.Nodup) (h2 : ∀ i ∈ c, i < n) : c.length ≤ n := by
  have hsub : c ⊆ List.range n := fun i hi => List.mem_range.2 (h2 i hi)
  have := (h1.subperm hsub).length_le
  simpa using this

/-- One pass of the loop. -/
theorem round_spec (hok : pb.Ok dist distG) (s : St) (hi : Inv pb dist distG s) :
    (∃ e, round pb s = .throws e ∧ ∃ w0, pb.solve s.centers s.grads (pb.values s.centers s.grads) w0 = .throws e) ∨
    (∃ w, round pb s = .ok (.inl (s.centers, s.grads, w)) ∧ Result pb s.centers s.grads w) ∨
    (∃ s' ap ag, round pb s = .ok (.inr s') ∧ Inv pb dist distG s' ∧ s'.centers = s.centers ++ ap ∧
      s'.grads = s.grads ++ ag ∧ s'.fd = max (1 / 2 * s.fd) kMinDistance ∧
      ((∀ i < pb.muF, ∀ j < pb.muF, i ≠ j → s.fd < dist i j) →
        (∀ i < pb.sigF, ∀ j < pb.sigF, i ≠ j → s.fd < distG i j) → ap ≠ [] ∨ ag ≠ [])) := by
  have hfd2 : max (1 / 2 * s.fd) kMinDistance ≤ s.fd := by
    have := kMin_pos; have := hi.fd
    exact max_le (by linarith) hi.fd
  unfold round
  -- the solver
  have hsolve : (∃ e, solveStep pb s = .throws e ∧
      ∃ w0, pb.solve s.centers s.grads (pb.values s.centers s.grads) w0 = .throws e) ∨
      ∃ w, solveStep pb s = .ok w ∧ w.length = s.centers.length + pb.dim * s.grads.length + pb.l ∧
        (pb.l ≤ s.centers.length ∨ (pb.deg1 = true ∧ s.centers.length = 1 ∧ 1 ≤ s.grads.length) →
          ∃ w0, pb.solve s.centers s.grads (pb.values s.centers s.grads) w0 = .ok w) := by
    unfold solveStep
    by_cases he : enough pb s.centers.length s.grads.length = true
    · rw [if_pos he]
      have := hok.solve s.centers s.grads (pb.values s.centers s.grads) s.weights
      cases hr : pb.solve s.centers s.grads (pb.values s.centers s.grads) s.weights with
      | ok w => exact Or.inr ⟨w, rfl, this.2 w hr, fun _ => ⟨_, hr⟩⟩
      | throws e => exact Or.inl ⟨e, rfl, _, hr⟩
      | ub => exact absurd hr this.1
    · rw [if_neg he]
      exact Or.inr ⟨s.weights, rfl, hi.wlen, fun h => absurd ((enough_iff _ _).2 h) he⟩
  rcases hsolve with ⟨e, h1, h2⟩ | ⟨w, h1, hwl, hsol⟩
  · exact Or.inl ⟨e, by rw [h1]; rfl, h2⟩
  · right
    rw [h1, Outcome.ok_bind]
    by_cases hfull : s.centers.length = pb.muF ∧ s.grads.length = pb.sigF
    · left
      rw [if_pos hfull]
      refine ⟨w, rfl, hi.nodup, hi.lt, hi.gnodup, hi.glt, hwl, ?_, ?_, hsol⟩
      · intro i hlt hni; exact absurd (nodup_full hi.nodup hi.lt hfull.1 i hlt) hni
      · intro i hlt hni; exact absurd (nodup_full hi.gnodup hi.glt hfull.2 i hlt) hni
    · rw [if_neg hfull, compl_ok hi.nodup hi.lt, Outcome.ok_bind, compl_ok hi.gnodup hi.glt, Outcome.ok_bind]
      simp only [residuals_eq, gradResiduals_eq]
      set cc := (List.range pb.muF).filter (fun i => !s.centers.contains i) with hcc
      set cg := (List.range pb.sigF).filter (fun i => !s.grads.contains i) with hcg
      set rp : Nat → ℝ := fun i => |pb.evalP s.centers s.grads w i - pb.value i| with hrp
      set sp := pb.sortP (cc.zip (cc.map rp)) with hsp
      set sg := pb.sortG (cg.zip (cg.map (gres pb s.centers s.grads w))) with hsg
      have pp := hok.sortP (cc.zip (cc.map rp))
      have pg := hok.sortG (cg.zip (cg.map (gres pb s.centers s.grads w)))
      rw [← hsp] at pp
      rw [← hsg] at pg
      have hperm : (sp.map Prod.fst).Perm cc := by
        have := pp.1.map Prod.fst; rwa [zip_map_fst] at this
      have hpermg : (sg.map Prod.fst).Perm cg := by
        have := pg.1.map Prod.fst; rwa [zip_map_fst] at this
      by_cases hz : needFitting sp pb.tol = 0 ∧ needFitting sg pb.gtol = 0
      · left
        rw [if_pos hz]
        refine ⟨w, rfl, hi.nodup, hi.lt, hi.gnodup, hi.glt, hwl, ?_, ?_, hsol⟩
        · intro i hlt hni
          have hm : (i, rp i) ∈ sp := pp.1.mem_iff.2 (mem_zip_map.2 ⟨by simp [hcc, hlt, hni], rfl⟩)
          exact (needFitting_zero _ _).1 hz.1 _ hm
        · intro i hlt hni
          have hm : (i, gres pb s.centers s.grads w i) ∈ sg :=
            pg.1.mem_iff.2 (mem_zip_map.2 ⟨by simp [hcg, hlt, hni], rfl⟩)
          exact (gres_lt _ _ _ _ hok.gtol).1 ((needFitting_zero _ _).1 hz.2 _ hm)
      · right
        rw [if_neg hz]
        obtain ⟨ap, a1, a2, a3, a4, _, a6, _⟩ := additions_spec hok.searchP hok.symP s.fd hi.fd s.centers hi.nodup hi.lt
          hi.sep sp hperm (needFitting sp pb.tol)
        obtain ⟨ag, b1, b2, b3, b4, _, b6, _⟩ := additions_spec hok.searchG hok.symG s.fd hi.fd s.grads hi.gnodup hi.glt
          hi.gsep sg hpermg (needFitting sg pb.gtol)
        rw [a1, Outcome.ok_bind, b1, Outcome.ok_bind]
        refine ⟨_, ap, ag, rfl, ⟨a2, a3, b2, b3, ?_, ?_, ?_, le_max_right _ _⟩, rfl, rfl, rfl, ?_⟩
        · have hm : pb.dim * s.grads.length + pb.dim * ag.length = pb.dim * (s.grads ++ ag).length := by
            rw [List.length_append, Nat.mul_add]
          simp only [relayout, List.length_append, List.length_take, List.length_replicate, List.length_drop]
          simp only [List.length_append] at hm
          have e1 : s.grads.length + ag.length - s.grads.length = ag.length := by omega
          rw [e1]
          omega
        · intro i hi' j hj hne
          exact lt_of_le_of_lt hfd2 (a4 i hi' j hj hne)
        · intro i hi' j hj hne
          exact lt_of_le_of_lt hfd2 (b4 i hi' j hj hne)
        · intro hs1 hs2
          by_contra hcon
          push Not at hcon
          have e1 := a6 hs1
          have e2 := b6 hs2
          rw [hcon.1] at e1
          rw [hcon.2] at e2
          apply hz
          have aux : ∀ (l : List (Nat × ℝ)) (k : Nat), k ≤ l.length → ([] : List Nat) = (l.map Prod.fst).reverse.take k →
              k = 0 := by
            intro l k hk h
            have := congrArg List.length h
            simp only [List.length_nil, List.length_take, List.length_reverse, List.length_map] at this
            omega
          exact ⟨aux sp _ (by unfold needFitting; omega) e1, aux sg _ (by unfold needFitting; omega) e2⟩

/-- The weights `w'` for the centers `c ++ ap` and the gradient centers `g ++ ag` continue the weights `w` for `c` and `g`:
every old center keeps its weight, every old gradient center its `dim` weights, every polynomial coefficient its value,
and the weights of the new centers are zero. -/
structure Continues (dim l : Nat) (c ap g ag : List Nat) (w w' : List ℝ) : Prop where
  length : w'.length = (c ++ ap).length + dim * (g ++ ag).length + l
  old : ∀ i < c.length, w'[i]? = w[i]?
  new : ∀ i < ap.length, w'[c.length + i]? = some 0
  gold : ∀ i < g.length, ∀ k < dim, w'[(c ++ ap).length + (dim * i + k)]? = w[c.length + (dim * i + k)]?
  gnew : ∀ i < ag.length, ∀ k < dim, w'[(c ++ ap).length + (dim * (g.length + i) + k)]? = some 0
  poly : ∀ k < l, w'[(c ++ ap).length + dim * (g ++ ag).length + k]? = w[c.length + dim * g.length + k]?

theorem mul_add_lt {d i k n : Nat} (hi : i < n) (hk : k < d) : d * i + k < d * n := by
  calc d * i + k < d * i + d := by omega
    _ = d * (i + 1) := by rw [Nat.mul_succ]
    _ ≤ d * n := Nat.mul_le_mul_left d hi

theorem relayout_continues (c ap g ag : List Nat) (w : List ℝ) (hw : w.length = c.length + pb.dim * g.length + pb.l) :
    Continues pb.dim pb.l c ap g ag w
      (relayout pb w c.length g.length (c ++ ap).length (g ++ ag).length) := by
  have e1 : (c ++ ap).length - c.length = ap.length := by simp
  have e2 : (g ++ ag).length - g.length = ag.length := by simp
  have e3 : pb.dim * (g ++ ag).length = pb.dim * g.length + pb.dim * ag.length := by
    rw [List.length_append, Nat.mul_add]
  have e4 : (c ++ ap).length = c.length + ap.length := by simp
  unfold relayout
  rw [e1, e2]
  have l1 : (w.take c.length).length = c.length := by rw [List.length_take]; omega
  have l2 : ((w.drop c.length).take (pb.dim * g.length)).length = pb.dim * g.length := by
    rw [List.length_take, List.length_drop]; omega
  constructor
  · simp only [List.length_append, List.length_replicate, l1, l2, List.length_drop] at *
    omega
  · intro i hi
    rw [List.append_assoc, List.append_assoc, List.append_assoc, List.getElem?_append_left (by omega),
      List.getElem?_take, if_pos hi]
  · intro i hi
    rw [List.append_assoc, List.append_assoc, List.append_assoc, List.getElem?_append_right (by omega),
      List.getElem?_append_left (by rw [List.length_replicate]; omega), List.getElem?_replicate, if_pos (by omega)]
  · intro i hi k hk
    have := mul_add_lt hi hk
    rw [List.append_assoc, List.append_assoc, List.append_assoc, List.getElem?_append_right (by omega),
      List.getElem?_append_right (by rw [List.length_replicate]; omega), List.getElem?_append_left
      (by rw [List.length_replicate]; omega), List.getElem?_take, if_pos (by rw [List.length_replicate]; omega),
      List.getElem?_drop]
    congr 1
    rw [List.length_replicate]; omega
  · intro i hi k hk
    have := mul_add_lt hi hk
    have h1 : pb.dim * (g.length + i) = pb.dim * g.length + pb.dim * i := Nat.mul_add _ _ _
    rw [List.append_assoc, List.append_assoc, List.append_assoc, List.getElem?_append_right (by omega),
      List.getElem?_append_right (by rw [List.length_replicate]; omega), List.getElem?_append_right
      (by rw [List.length_replicate]; omega), List.getElem?_append_left
      (by simp only [List.length_replicate]; omega), List.getElem?_replicate,
      if_pos (by simp only [List.length_replicate]; omega)]
  · intro k hk
    rw [List.getElem?_append_right (by simp only [List.length_append, List.length_replicate, l1, l2] at *; omega),
      List.getElem?_drop]
    congr 1
    simp only [List.length_append, List.length_replicate, l1, l2] at *
    omega

/-- C18: how the right-hand side is read: for the values `v` of the points followed by the gradients `gs`, one after the
other, `value i` is the value of point `i`, `gradValue i k` is component `k` of the gradient at gradient point `i`, and
the right-hand side given to the solver consists of the values of its centers, then the gradients of its gradient
centers. -/
theorem C18_right_hand_side (v : List ℝ) (gs : List (List ℝ)) (hv : v.length = pb.muF) (hg : gs.length = pb.sigF)
    (hd : ∀ x ∈ gs, x.length = pb.dim) (h : pb.valuesFull = v ++ gs.flatten) :
    (∀ i < pb.muF, pb.value i = v.getD i 0) ∧
    (∀ i < pb.sigF, ∀ k < pb.dim, pb.gradValue i k = (gs.getD i []).getD k 0) ∧
    (∀ c g : List Nat, (∀ i ∈ c, i < pb.muF) → (∀ i ∈ g, i < pb.sigF) →
      pb.values c g = c.map (v.getD · 0) ++ g.flatMap (gs.getD · [])) := by
  have h1 : ∀ i < pb.muF, pb.value i = v.getD i 0 := by
    intro i hi
    simp only [Problem.value, h, List.getD_eq_getElem?_getD]
    rw [List.getElem?_append_left (by omega)]
  have hfl := Interpolant.length_flatten_const pb.dim gs hd
  have h2 : ∀ i < pb.sigF, ∀ k < pb.dim, pb.gradValue i k = (gs.getD i []).getD k 0 := by
    intro i hi k hk
    simp only [Problem.gradValue, h, List.getD_eq_getElem?_getD]
    have e : gs[i]? = some gs[i] := List.getElem?_eq_getElem (by omega)
    rw [List.getElem?_append_right (by rw [List.length_append, hfl, hg]; omega), List.length_append, hfl, hg,
      show v.length + pb.dim * pb.sigF - pb.dim * pb.sigF + (pb.dim * i + k) - v.length = pb.dim * i + k by omega,
      Interpolant.getElem?_flatten_const pb.dim gs hd i gs[i] e k hk, e]
    rfl
  refine ⟨h1, h2, fun c g hc hgl => ?_⟩
  unfold Problem.values
  congr 1
  · exact List.map_congr_left (fun i hi => h1 i (hc i hi))
  · rw [List.flatMap_def, List.flatMap_def]
    congr 1
    refine List.map_congr_left (fun i hi => ?_)
    have hlt := hgl i hi
    have e : gs.getD i [] = gs[i] := by
      rw [List.getD_eq_getElem?_getD, List.getElem?_eq_getElem (by omega)]; rfl
    have hl : gs[i].length = pb.dim := hd _ (List.getElem_mem _)
    rw [e]
    apply List.ext_getElem
    · simp [hl]
    · intro k hk hk'
      simp only [List.getElem_map, List.getElem_range]
      rw [h2 i hlt k (by omega), e, List.getD_eq_getElem?_getD, List.getElem?_eq_getElem hk']
      rfl

/-- C18: what each pass hands to the next one: if a pass that starts with `s` does not end the fit, its centers and
gradient centers are only appended to, and the initial weights of the next pass continue the weights this pass ended with
(what the solver returned, or - while the centers do not suffice for the polynomial part - what it started with). -/
theorem C18_warm_start (hok : pb.Ok dist distG) (s s' : St) (hi : Inv pb dist distG s)
    (h : round pb s = .ok (.inr s')) :
    ∃ w ap ag, s'.centers = s.centers ++ ap ∧ s'.grads = s.grads ++ ag ∧
      (pb.l ≤ s.centers.length ∨ (pb.deg1 = true ∧ s.centers.length = 1 ∧ 1 ≤ s.grads.length) →
        pb.solve s.centers s.grads (pb.values s.centers s.grads) s.weights = .ok w) ∧
      (¬ (pb.l ≤ s.centers.length ∨ (pb.deg1 = true ∧ s.centers.length = 1 ∧ 1 ≤ s.grads.length)) → w = s.weights) ∧
      Continues pb.dim pb.l s.centers ap s.grads ag w s'.weights := by
  have hsol : ∀ w, solveStep pb s = .ok w → w.length = s.centers.length + pb.dim * s.grads.length + pb.l ∧
      (pb.l ≤ s.centers.length ∨ (pb.deg1 = true ∧ s.centers.length = 1 ∧ 1 ≤ s.grads.length) →
        pb.solve s.centers s.grads (pb.values s.centers s.grads) s.weights = .ok w) ∧
      (¬ (pb.l ≤ s.centers.length ∨ (pb.deg1 = true ∧ s.centers.length = 1 ∧ 1 ≤ s.grads.length)) →
        w = s.weights) := by
    intro w hw
    unfold solveStep at hw
    rw [← enough_iff]
    by_cases he : enough pb s.centers.length s.grads.length = true
    · rw [if_pos he] at hw
      exact ⟨(hok.solve _ _ _ _).2 w hw, fun _ => hw, fun hn => absurd he hn⟩
    · rw [if_neg he] at hw
      simp only [Outcome.ok.injEq] at hw
      exact ⟨by rw [← hw]; exact hi.wlen, fun hn => absurd hn he, fun _ => hw.symm⟩
  unfold round at h
  cases hs : solveStep pb s with
  | throws e => rw [hs] at h; simp at h
  | ub => rw [hs] at h; simp at h
  | ok w =>
      obtain ⟨h1, h2, h3⟩ := hsol w hs
      rw [hs, Outcome.ok_bind] at h
      by_cases hfull : s.centers.length = pb.muF ∧ s.grads.length = pb.sigF
      · rw [if_pos hfull] at h; simp at h
      · rw [if_neg hfull, compl_ok hi.nodup hi.lt, Outcome.ok_bind, compl_ok hi.gnodup hi.glt, Outcome.ok_bind] at h
        dsimp only at h
        generalize pb.sortP _ = sp at h
        generalize pb.sortG _ = sg at h
        by_cases hz : needFitting sp pb.tol = 0 ∧ needFitting sg pb.gtol = 0
        · rw [if_pos hz] at h; simp at h
        · rw [if_neg hz] at h
          generalize additions pb.muF _ _ _ _ _ = oa at h
          generalize additions pb.sigF _ _ _ _ _ = ob at h
          cases oa with
          | throws e => simp at h
          | ub => simp at h
          | ok ap =>
            cases ob with
            | throws e => simp at h
            | ub => simp at h
            | ok ag =>
              simp only [Outcome.ok_bind, Outcome.pure_eq, Outcome.ok.injEq, Sum.inr.injEq] at h
              subst h
              exact ⟨w, ap, ag, rfl, rfl, h2, h3, relayout_continues s.centers ap s.grads ag w h1⟩

/-- C18: whenever the fitter returns, after however many passes, its centers are distinct input points, the number of
weights fits, every input point that is not a center (and every component at every gradient point that is not a center)
has a residual below the tolerance, and - if the centers suffice for the polynomial part - the weights are what the
solver returned for exactly these centers and their values. -/
theorem C18_result (hok : pb.Ok dist distG) (fuel : Nat) (c g : List Nat) (w : List ℝ)
    (h : fit pb fuel = some (.ok (c, g, w))) : Result pb c g w := by
  unfold fit at h
  suffices hh : ∀ fuel s, Inv pb dist distG s → loop pb fuel s = some (.ok (c, g, w)) → Result pb c g w from
    hh fuel _ inv_init h
  intro fuel
  induction fuel with
  | zero => intro s _ h; simp [loop] at h
  | succ n ih =>
      intro s hi h
      rw [loop] at h
      rcases round_spec hok s hi with ⟨e, h1, _⟩ | ⟨w', h1, hr⟩ | ⟨s', ap, ag, h1, hi', _⟩
      · rw [h1] at h; simp at h
      · rw [h1] at h
        simp only [Option.some.injEq, Outcome.ok.injEq, Prod.mk.injEq] at h
        obtain ⟨rfl, rfl, rfl⟩ := h
        exact hr
      · rw [h1] at h
        exact ih s' hi' h

/-- C18: no pass runs into undefined behaviour; an exception can only come from the solver. -/
theorem C18_safe (hok : pb.Ok dist distG) (fuel : Nat) :
    fit pb fuel ≠ some .ub ∧
    ∀ e, fit pb fuel = some (.throws e) → ∃ c g v w0, pb.solve c g v w0 = .throws e := by
  unfold fit
  suffices hh : ∀ fuel s, Inv pb dist distG s → loop pb fuel s ≠ some .ub ∧
      ∀ e, loop pb fuel s = some (.throws e) → ∃ c g v w0, pb.solve c g v w0 = .throws e from hh fuel _ inv_init
  intro fuel
  induction fuel with
  | zero => intro s _; simp [loop]
  | succ n ih =>
      intro s hi
      rw [loop]
      rcases round_spec hok s hi with ⟨e, h1, w0, h2⟩ | ⟨w', h1, hr⟩ | ⟨s', ap, ag, h1, hi', _⟩
      · rw [h1]
        refine ⟨by simp, fun e' he => ?_⟩
        simp only [Option.some.injEq, Outcome.throws.injEq] at he
        subst he
        exact ⟨_, _, _, w0, h2⟩
      · rw [h1]; simp
      · rw [h1]; exact ih s' hi'

/-- A finite family of distances above a bound stays above a larger bound. -/
theorem exists_gap (n : Nat) (dist : Nat → Nat → ℝ) (b : ℝ) (h : ∀ i < n, ∀ j < n, i ≠ j → b < dist i j) :
    ∃ δ, b < δ ∧ ∀ i < n, ∀ j < n, i ≠ j → δ ≤ dist i j := by
  classical
  set S := ((Finset.range n ×ˢ Finset.range n).filter (fun p => p.1 ≠ p.2)).image (fun p => dist p.1 p.2) with hS
  have hall : ∀ x ∈ S, b < x := by
    intro x hx
    obtain ⟨p, hp, rfl⟩ := Finset.mem_image.1 hx
    simp only [Finset.mem_filter, Finset.mem_product, Finset.mem_range] at hp
    exact h p.1 hp.1.1 p.2 hp.1.2 hp.2
  have hmem : ∀ i < n, ∀ j < n, i ≠ j → dist i j ∈ S := by
    intro i hi j hj hne
    refine Finset.mem_image.2 ⟨(i, j), ?_, rfl⟩
    simp [hi, hj, hne]
  by_cases hne : S.Nonempty
  · exact ⟨S.min' hne, hall _ (Finset.min'_mem S hne), fun i hi j hj hij => Finset.min'_le S _ (hmem i hi j hj hij)⟩
  · refine ⟨b + 1, by linarith, fun i hi j hj hij => ?_⟩
    exact absurd ⟨_, hmem i hi j hj hij⟩ hne

/-- C18: if no two points, and no two gradient points, are within the minimal distance of each other, the fitter ends
after finitely many passes (by returning, or by an exception of the solver). -/
theorem C18_terminates (hok : pb.Ok dist distG)
    (hs : ∀ i < pb.muF, ∀ j < pb.muF, i ≠ j → kMinDistance < dist i j)
    (hg : ∀ i < pb.sigF, ∀ j < pb.sigF, i ≠ j → kMinDistance < distG i j) :
    ∃ fuel r, fit pb fuel = some r := by
  obtain ⟨δ1, d1, hd1⟩ := exists_gap _ _ _ hs
  obtain ⟨δ2, d2, hd2⟩ := exists_gap _ _ _ hg
  set δ := min δ1 δ2 with hδ
  have hδk : kMinDistance < δ := lt_min d1 d2
  have hδ0 : 0 < δ := lt_trans kMin_pos hδk
  -- once the filtering distance is small, every pass adds a center
  have hsmall : ∀ (m : Nat) (s : St), Inv pb dist distG s → s.fd < δ →
      (pb.muF - s.centers.length) + (pb.sigF - s.grads.length) < m → ∃ r, loop pb m s = some r := by
    intro m
    induction m with
    | zero => intro s _ _ h; omega
    | succ m ih =>
        intro s hi hfd hm
        rw [loop]
        rcases round_spec hok s hi with ⟨e, h1, _⟩ | ⟨w', h1, _⟩ | ⟨s', ap, ag, h1, hi', e1, e2, e3, hprog⟩
        · rw [h1]; exact ⟨_, rfl⟩
        · rw [h1]; exact ⟨_, rfl⟩
        · rw [h1]
          have hp := hprog (fun i hi j hj hne => lt_of_lt_of_le hfd (le_trans (min_le_left _ _) (hd1 i hi j hj hne)))
            (fun i hi j hj hne => lt_of_lt_of_le hfd (le_trans (min_le_right _ _) (hd2 i hi j hj hne)))
          apply ih s' hi'
          · rw [e3]
            have := kMin_pos; have := hi.fd
            exact max_lt (by linarith) hδk
          · have l1 := nodup_length_le hi'.nodup hi'.lt
            have l2 := nodup_length_le hi'.gnodup hi'.glt
            rw [e1, List.length_append] at l1
            rw [e2, List.length_append] at l2
            rw [e1, e2, List.length_append, List.length_append]
            have : ap.length ≠ 0 ∨ ag.length ≠ 0 := by
              rcases hp with h | h
              · left; simpa using h
              · right; simpa using h
            omega
  -- and it becomes small by halving
  have hbig : ∀ (k : Nat) (s : St), Inv pb dist distG s → s.fd < δ * 2 ^ k → ∃ fuel r, loop pb fuel s = some r := by
    intro k
    induction k with
    | zero =>
        intro s hi hfd
        obtain ⟨r, h⟩ := hsmall _ s hi (by simpa using hfd) (Nat.lt_succ_self _)
        exact ⟨_, r, h⟩
    | succ k ih =>
        intro s hi hfd
        rcases round_spec hok s hi with ⟨e, h1, _⟩ | ⟨w', h1, _⟩ | ⟨s', ap, ag, h1, hi', _, _, e3, _⟩
        · exact ⟨1, _, by rw [loop, h1]⟩
        · exact ⟨1, _, by rw [loop, h1]⟩
        · obtain ⟨fuel, r, h⟩ := ih s' hi' (by
            rw [e3]
            apply max_lt
            · rw [pow_succ] at hfd; linarith
            · calc kMinDistance < δ := hδk
                _ = δ * 1 := (mul_one _).symm
                _ ≤ δ * 2 ^ k := by
                    apply mul_le_mul_of_nonneg_left _ hδ0.le
                    exact one_le_pow₀ (by norm_num))
          exact ⟨fuel + 1, r, by rw [loop, h1]; exact h⟩
  obtain ⟨k, hk⟩ : ∃ k : Nat, (init pb).fd < δ * 2 ^ k := by
    obtain ⟨k, hk⟩ := pow_unbounded_of_one_lt ((init pb).fd / δ) (by norm_num : (1 : ℝ) < 2)
    refine ⟨k, ?_⟩
    rw [div_lt_iff₀ hδ0] at hk
    linarith
  exact hbig k _ inv_init hk

/-- C18, the case excluded above: two coincident points whose values differ by at least twice the tolerance, and a
solver that only returns weights fitting the centers within the tolerance.  The fitter never returns: with a solver that
does not give up it runs for ever. -/
theorem C18_conflicting_duplicates_never_return (hok : pb.Ok dist distG) (hl : pb.l = 0) (i j : Nat) (hi : i < pb.muF)
    (hj : j < pb.muF) (hij : i ≠ j) (hdist : dist i j ≤ kMinDistance)
    (hsame : ∀ c g w, pb.evalP c g w i = pb.evalP c g w j)
    (hfit : ∀ c g w0 w, pb.solve c g (pb.values c g) w0 = .ok w → ∀ k ∈ c, |pb.evalP c g w k - pb.value k| ≤ pb.tol)
    (hconf : 2 * pb.tol ≤ |pb.value i - pb.value j|) (fuel : Nat) (r : List Nat × List Nat × List ℝ) :
    fit pb fuel ≠ some (.ok r) := by
  obtain ⟨c, g, w⟩ := r
  intro h
  have hr := C18_result hok fuel c g w h
  -- the centers are separated
  have hsep : ∀ a ∈ c, ∀ b ∈ c, a ≠ b → kMinDistance < dist a b := by
    have hh : ∀ fuel s, Inv pb dist distG s → loop pb fuel s = some (.ok (c, g, w)) →
        ∀ a ∈ c, ∀ b ∈ c, a ≠ b → kMinDistance < dist a b := by
      intro fuel
      induction fuel with
      | zero => intro s _ h; simp [loop] at h
      | succ n ih =>
          intro s hi h
          rw [loop] at h
          rcases round_spec hok s hi with ⟨e, h1, _⟩ | ⟨w', h1, hr⟩ | ⟨s', ap, ag, h1, hi', _⟩
          · rw [h1] at h; simp at h
          · rw [h1] at h
            simp only [Option.some.injEq, Outcome.ok.injEq, Prod.mk.injEq] at h
            obtain ⟨rfl, rfl, rfl⟩ := h
            intro a ha b hb hne
            exact lt_of_le_of_lt hi.fd (hi.sep a ha b hb hne)
          · rw [h1] at h
            exact ih s' hi' h
    exact hh fuel _ inv_init h
  obtain ⟨w0, hw0⟩ := hr.solved (Or.inl (by omega))
  have hle : ∀ k < pb.muF, |pb.evalP c g w k - pb.value k| ≤ pb.tol ∧ (k ∉ c → |pb.evalP c g w k - pb.value k| < pb.tol) := by
    intro k hk
    by_cases hkc : k ∈ c
    · exact ⟨hfit c g w0 w hw0 k hkc, fun h => absurd hkc h⟩
    · have := hr.rest k hk hkc
      exact ⟨this.le, fun _ => this⟩
  have hone : i ∉ c ∨ j ∉ c := by
    by_contra hcon
    push Not at hcon
    exact absurd (hsep i hcon.1 j hcon.2 hij) (not_lt.2 hdist)
  have htri : |pb.value i - pb.value j| ≤
      |pb.evalP c g w i - pb.value i| + |pb.evalP c g w j - pb.value j| := by
    rw [hsame c g w]
    have : pb.value i - pb.value j = (pb.evalP c g w j - pb.value j) - (pb.evalP c g w j - pb.value i) := by ring
    rw [this]
    calc |(pb.evalP c g w j - pb.value j) - (pb.evalP c g w j - pb.value i)|
        ≤ |pb.evalP c g w j - pb.value j| + |pb.evalP c g w j - pb.value i| := abs_sub _ _
      _ = _ := by ring
  have h1 := hle i hi
  have h2 := hle j hj
  rcases hone with h | h
  · have := h1.2 h; linarith [h2.1]
  · have := h2.2 h; linarith [h1.1]

/-- A defect: centers need not fit.  If the polynomial part needs at least two points and only one point has a value of
at least the tolerance, the fitter stops with that point as its only center and all weights zero, without ever having
called the solver: the returned function is zero everywhere, also at that point. -/
theorem C18_single_large_value_is_ignored (hok : pb.Ok dist distG) (hl : 2 ≤ pb.l) (hmu : 2 ≤ pb.muF)
    (hsig : pb.sigF = 0) (hzero : ∀ c g w i, (∀ x ∈ w, x = 0) → pb.evalP c g w i = 0) (i0 : Nat) (hi0 : i0 < pb.muF)
    (hbig : pb.tol ≤ |pb.value i0|) (hother : ∀ i < pb.muF, i ≠ i0 → |pb.value i| < pb.tol) :
    fit pb 2 = some (.ok ([i0], [], List.replicate (1 + pb.l) 0)) := by
  have hinit : init pb = ⟨[], [], List.replicate pb.l 0, max pb.d0 kMinDistance⟩ := by
    unfold init; rw [if_neg (by omega)]; simp
  have hne1 : ∀ mu, mu < 2 → enough pb mu 0 = false := by
    intro mu hmu'
    rw [Bool.eq_false_iff]
    intro h
    rcases (enough_iff _ _).1 h with h | ⟨_, _, h⟩ <;> omega
  have hcg : ∀ g : List Nat, compl g 0 = .ok [] ∨ compl g 0 = .ub := by
    intro g; unfold compl; split <;> simp
  -- first pass
  set fd := max pb.d0 kMinDistance with hfd
  set cc := List.range pb.muF with hcc
  have hsp := hok.sortP (cc.zip (cc.map (fun i => |0 - pb.value i|)))
  set sp := pb.sortP (cc.zip (cc.map (fun i => |0 - pb.value i|))) with hspd
  have hperm : (sp.map Prod.fst).Perm cc := by
    have := hsp.1.map Prod.fst; rwa [zip_map_fst] at this
  have hspm : ∀ p, p ∈ sp ↔ p.1 < pb.muF ∧ p.2 = |pb.value p.1| := by
    intro p
    rw [hsp.1.mem_iff, mem_zip_map]
    simp [hcc, abs_sub_comm]
  -- the last pair is the large one, the others are small
  have hlast : ∃ pre, sp = pre ++ [(i0, |pb.value i0|)] ∧ ∀ p ∈ pre, p.2 < pb.tol := by
    have hm : (i0, |pb.value i0|) ∈ sp := (hspm _).2 ⟨hi0, rfl⟩
    obtain ⟨pre, post, he⟩ := List.append_of_mem hm
    have hnd : (sp.map Prod.fst).Nodup := hperm.nodup_iff.2 (by rw [hcc]; exact List.nodup_range)
    have hpost : post = [] := by
      cases post with
      | nil => rfl
      | cons q qs =>
          exfalso
          have hq : q ∈ sp := by rw [he]; simp
          have hpw := hsp.2
          rw [he, List.pairwise_append] at hpw
          have hle : |pb.value i0| ≤ q.2 := (List.pairwise_cons.1 hpw.2.1).1 q (by simp)
          have hq2 := (hspm q).1 hq
          have hqi : q.1 ≠ i0 := by
            intro hqi
            rw [he] at hnd
            simp only [List.map_append, List.map_cons] at hnd
            have := (List.nodup_append'.1 hnd).2.1
            rw [List.nodup_cons] at this
            exact this.1 (by simp [hqi])
          have := hother q.1 hq2.1 hqi
          rw [← hq2.2] at this
          linarith
    subst hpost
    refine ⟨pre, he, ?_⟩
    intro p hp
    have hps : p ∈ sp := by rw [he]; simp [hp]
    have hp2 := (hspm p).1 hps
    have hpi : p.1 ≠ i0 := by
      intro hpi
      rw [he] at hnd
      simp only [List.map_append, List.map_cons, List.map_nil] at hnd
      exact (List.nodup_append'.1 hnd).2.2 (List.mem_map.2 ⟨p, hp, rfl⟩) (by simp [hpi])
    rw [hp2.2]
    exact hother p.1 hp2.1 hpi
  obtain ⟨pre, hpre, hprelt⟩ := hlast
  have hneed : needFitting sp pb.tol = 1 := by
    unfold needFitting
    rw [hpre, List.takeWhile_append_of_pos (by simpa using hprelt)]
    simp [hbig]
  have hsg0 : pb.sortG [] = [] := List.perm_nil.1 (hok.sortG []).1
  have hdesc : (sp.map Prod.fst).reverse = i0 :: (pre.map Prod.fst).reverse := by
    rw [hpre]; simp
  have hcontains : cc.filter (fun i => !([] : List Nat).contains i) = cc := by simp
  obtain ⟨ap, a1, _, _, _, a5, _, a7⟩ := additions_spec hok.searchP hok.symP fd (le_max_right _ _) [] List.nodup_nil
    (by simp) (by simp) sp (by rw [hcontains]; exact hperm) 1
  have hap : ap = [i0] := by
    rw [hdesc] at a5 a7
    have hin := a7 rfl i0 rfl (by omega)
    have : ap.Sublist [i0] := by simpa using a5
    rcases List.sublist_singleton.1 this with h | h
    · rw [h] at hin; simp at hin
    · exact h
  have hag : additions 0 pb.searchG fd [] [] 0 = .ok [] := by
    unfold additions
    simp only [List.map_nil, List.reverse_nil, List.append_nil, DF.filter]
    rw [if_neg (by have h := le_max_right pb.d0 kMinDistance; simpa [hfd] using h)]
    rfl
  have hround1 : round pb (init pb) = .ok (.inr ⟨[i0], [], List.replicate (1 + pb.l) 0, max (1 / 2 * fd) kMinDistance⟩) := by
    rw [hinit]
    unfold round
    have hs1 : solveStep pb ⟨[], [], List.replicate pb.l 0, fd⟩ = .ok (List.replicate pb.l 0) := by
      unfold solveStep
      rw [if_neg (by rw [show (([] : List Nat).length) = 0 from rfl, hne1 0 (by omega)]; simp)]
    rw [hs1, Outcome.ok_bind, if_neg (by simp; omega), compl_ok List.nodup_nil (by simp), Outcome.ok_bind, hsig,
      compl_ok List.nodup_nil (by simp), Outcome.ok_bind]
    simp only [residuals_eq, gradResiduals_eq, List.range_zero, List.filter_nil, List.map_nil, List.zip_nil_left, hsg0]
    rw [hcontains.trans rfl]
    have hz : (fun i => |pb.evalP [] [] (List.replicate pb.l 0) i - pb.value i|) = fun i => |0 - pb.value i| := by
      funext i; rw [hzero _ _ _ _ (by simp)]
    rw [hz, ← hspd, hneed]
    have hn0 : needFitting [] pb.gtol = 0 := by simp [needFitting]
    rw [hn0, if_neg (by simp), a1, Outcome.ok_bind, hag, Outcome.ok_bind, hap]
    simp [relayout, Nat.add_comm]
    rfl
  have hround2 : round pb ⟨[i0], [], List.replicate (1 + pb.l) 0, max (1 / 2 * fd) kMinDistance⟩ =
      .ok (.inl ([i0], [], List.replicate (1 + pb.l) 0)) := by
    unfold round
    have hs1 : solveStep pb ⟨[i0], [], List.replicate (1 + pb.l) 0, max (1 / 2 * fd) kMinDistance⟩ =
        .ok (List.replicate (1 + pb.l) 0) := by
      unfold solveStep
      rw [if_neg (by rw [show (([i0] : List Nat).length) = 1 from rfl, show (([] : List Nat).length) = 0 from rfl,
        hne1 1 (by omega)]; simp)]
    rw [hs1, Outcome.ok_bind, if_neg (by simp; omega), compl_ok (by simp) (by simpa using hi0), Outcome.ok_bind, hsig,
      compl_ok List.nodup_nil (by simp), Outcome.ok_bind]
    simp only [residuals_eq, gradResiduals_eq, List.range_zero, List.filter_nil, List.map_nil, List.zip_nil_left, hsg0]
    rw [if_pos]
    · rfl
    · refine ⟨(needFitting_zero _ _).2 ?_, by simp [needFitting]⟩
      intro p hp
      have hp' := mem_zip_map.1 ((hok.sortP _).1.mem_iff.1 hp)
      have h1 := hp'.1
      simp only [List.mem_filter, List.mem_range] at h1
      rw [hp'.2, hzero _ _ _ _ (by simp), zero_sub, abs_neg]
      exact hother p.1 h1.1 (by simpa using h1.2)
  unfold fit
  rw [loop, hround1]
  simp only
  rw [loop, hround2]

/-- Points on a line with a nearest-center 'interpolant': the value at a point is the weight of the first center at its
position, 0 if there is none.  `solve` takes the values as weights and throws when two centers conflict. -/
noncomputable def demo (xs vs : List ℝ) (l : Nat) : Problem := by
  classical
  exact
  let ev : List Nat → List ℝ → Nat → ℝ := fun c w i => w.getD (c.findIdx (fun k => decide (xs.getD k 0 = xs.getD i 0))) 0
  { muF := xs.length, sigF := 0, dim := 1, l := l, deg1 := false, valuesFull := vs, tol := 1, gtol := 1, d0 := 10
    searchP := fun d i => (List.range xs.length).filter (fun j => decide (|xs.getD i 0 - xs.getD j 0| ≤ d))
    searchG := fun _ _ => []
    solve := fun c g v _ =>
      let w := (List.range (c.length + 1 * g.length + l)).map (fun k => v.getD k 0)
      if ∀ k ∈ c, |ev c w k - vs.getD k 0| ≤ 1 then .ok w else .throws .runtimeError
    evalP := fun c _ w i => ev c w i
    evalG := fun _ _ _ _ _ => 0
    sortP := fun l => l.mergeSort (fun a b => decide (a.2 ≤ b.2))
    sortG := fun l => l.mergeSort (fun a b => decide (a.2 ≤ b.2)) }

theorem demo_ok (xs vs : List ℝ) (l : Nat) :
    (demo xs vs l).Ok (fun i j => |xs.getD i 0 - xs.getD j 0|) (fun _ _ => 0) := by
  have hsort : ∀ l : List (Nat × ℝ), (l.mergeSort (fun a b => decide (a.2 ≤ b.2))).Pairwise (fun a b => a.2 ≤ b.2) := by
    intro l
    have := List.pairwise_mergeSort (le := fun a b : Nat × ℝ => decide (a.2 ≤ b.2))
      (fun a b c h1 h2 => by simp only [decide_eq_true_eq] at *; exact le_trans h1 h2)
      (fun a b => by simpa using le_total a.2 b.2) l
    simpa using this
  constructor
  · intro d i j _; simp [demo]
  · intro d i j h; simp [demo] at h
  · intro i j; exact abs_sub_comm _ _
  · intro i j; rfl
  · intro l; exact ⟨List.mergeSort_perm _ _, hsort l⟩
  · intro l; exact ⟨List.mergeSort_perm _ _, hsort l⟩
  · intro c g v w0
    constructor
    · simp only [demo]; split <;> simp
    · intro w hw
      simp only [demo] at hw
      split at hw
      · simp only [Outcome.ok.injEq] at hw; rw [← hw]; simp [demo]
      · simp at hw
  · simp [demo]

/-- distinct points: the fitter ends -/
example : ∃ fuel r, fit (demo [0, 1, 3] [5, -7, 2] 1) fuel = some r := by
  refine C18_terminates (demo_ok _ _ _) ?_ (fun i hi => by simp [demo] at hi)
  intro i hi j hj hne
  simp only [demo, List.length_cons, List.length_nil] at hi hj
  have hk : kMinDistance < 1 := by unfold kMinDistance; norm_num
  obtain rfl | rfl | rfl : i = 0 ∨ i = 1 ∨ i = 2 := by omega
  all_goals obtain rfl | rfl | rfl : j = 0 ∨ j = 1 ∨ j = 2 := by omega
  all_goals first | omega | (norm_num; linarith)

/-- two points at one place with values 0 and 5: the fitter never returns -/
example (fuel : Nat) (r) : fit (demo [0, 0] [0, 5] 0) fuel ≠ some (.ok r) := by
  refine C18_conflicting_duplicates_never_return (demo_ok _ _ _) rfl 0 1 (by simp [demo]) (by simp [demo]) (by omega)
    (by simpa using kMin_pos.le) (by intro c g w; simp [demo]) ?_ (by norm_num [demo, Problem.value]) fuel r
  intro c g w0 w hw k hk
  simp only [demo] at hw
  split at hw
  · rename_i h
    simp only [Outcome.ok.injEq] at hw
    subst hw
    exact h k hk
  · simp at hw

/-- one large value, linear polynomial on a line -/
example : fit (demo [0, 1, 3] [0, 5, 0] 2) 2 = some (.ok ([1], [], [0, 0, 0])) := by
  refine C18_single_large_value_is_ignored (demo_ok _ _ _) (by simp [demo]) (by simp [demo]) rfl ?_ 1 (by simp [demo])
    (by norm_num [demo, Problem.value]) ?_
  · intro c g w i hw
    simp only [demo]
    rw [List.getD_eq_getElem?_getD]
    cases h : w[List.findIdx (fun k => decide ([0, 1, 3].getD k 0 = ([0, 1, 3] : List ℝ).getD i 0)) c]? with
    | none => rfl
    | some x => exact hw x (List.mem_of_getElem? h)
  · intro i hi hne
    simp only [demo, List.length_cons, List.length_nil] at hi
    obtain rfl | rfl | rfl : i = 0 ∨ i = 1 ∨ i = 2 := by omega
    all_goals first | omega | norm_num [demo, Problem.value]

end Verif.Incremental
