import Verif.Lemmas.ClustererStar

/-!
# What the result inherits from the mesh
-/

namespace Verif.Clusterer

open Verif Verif.AbstractMesh
open Verif.Clusterer.Spec
open Verif.Graph.Spec
open Verif.Predicates (P3)
open Verif.Snapper.Spec (sides net)
open Verif.MeshDefects.Spec (Incident DistinctCorners PathOrCycle link opposite OnLink)

variable {I : Input} {K : List Nat → Prop} {place : List Nat → P3} {num : Nat → Nat} {out : Out}

theorem Spec.Valid.nondeg (hI : Valid I) {f : Face} (hf : f ∈ I.faces) : Nondeg f := by
  obtain ⟨d1, d2, d3⟩ := hI.distinct f hf
  refine ⟨fun h => d1 ?_, fun h => d2 ?_, fun h => d3 ?_⟩ <;> simp only [Spec.corners, h]

/-- The vertex is not merged with others. -/
def Single (K : List Nat → Prop) (v : Nat) : Prop := ∀ c, K c → v ∉ c

theorem single_num (hN : Numbering I K place num out.vertices) {v : Nat} (hv : Incident I.faces v) (hs : Single K v) {u : Nat} (hu : Incident I.faces u) (h : num u = num v) : u = v := by
  rcases (hN.same u v hu hv).1 h with h | ⟨c, k, -, h⟩
  · exact h
  · exact absurd h (hs c k)

theorem single_iff (hN : Numbering I K place num out.vertices) (hK : ∀ c, K c → Candidate I c) {v : Nat} (hv : Incident I.faces v) :
    Single K v ↔ ∀ c, ¬ IsMerged K num c (num v) := by
  constructor
  · rintro hs c ⟨k, w, hw, e⟩
    have := single_num hN hv hs ((hK c k).incident hw) e
    subst this
    exact hs c k hw
  · intro h c k hv'
    exact h c ⟨k, v, hv', rfl⟩

theorem incident_corner {fs : List Face} {f : Face} (hf : f ∈ fs) {v : Nat} (hc : Corner f v) : Incident fs v := ⟨f, hf, hc⟩

theorem rename_corner {f : Face} {v : Nat} (h : Corner f v) : Corner (rename num f) (num v) := by
  unfold Corner rename at *
  rcases h with h | h | h
  · exact Or.inl (by rw [← h])
  · exact Or.inr (Or.inl (by rw [← h]))
  · exact Or.inr (Or.inr (by rw [← h]))

theorem corner_rename {f : Face} {a : Nat} (h : Corner (rename num f) a) : ∃ v, Corner f v ∧ num v = a := by
  unfold Corner rename at *
  rcases h with h | h | h
  · exact ⟨f.1, Or.inl rfl, h⟩
  · exact ⟨f.2.1, Or.inr (Or.inl rfl), h⟩
  · exact ⟨f.2.2, Or.inr (Or.inr rfl), h⟩

theorem renamed_coincident (g : Face) : coincident (renamed num I.faces) g ≤ I.faces.countP fun f => [g.1, g.2.1, g.2.2].Perm [num f.1, num f.2.1, num f.2.2] := by
  unfold coincident renamed
  rw [List.countP_filter, List.countP_map]
  apply List.countP_mono_left
  intro f _ h
  simp only [Function.comp, Bool.and_eq_true, decide_eq_true_eq] at h ⊢
  exact h.1

/-- A face that is not dropped. -/
theorem kept_face (hq : Quotient I K place num out) {f : Face} (hf : f ∈ I.faces) (hn : Nondeg (rename num f)) (hno : ¬ Folded (renamed num I.faces) (rename num f)) :
    rename num f ∈ out.faces := by
  obtain ⟨p, hp, e⟩ := hq.faces
  rw [e, List.mem_filter, hp]
  exact ⟨renamed_mem.2 ⟨f, hf, rfl, hn⟩, hno⟩

theorem out_face (hq : Quotient I K place num out) {g : Face} (hg : g ∈ out.faces) : ∃ f ∈ I.faces, g = rename num f ∧ Nondeg g ∧ ¬ Folded (renamed num I.faces) g := by
  obtain ⟨p, hp, e⟩ := hq.faces
  rw [e, List.mem_filter, hp] at hg
  obtain ⟨f, hf, e', hn⟩ := renamed_mem.1 hg.1
  exact ⟨f, hf, e', hn, hg.2⟩

/-- Around a vertex without merged neighbours, nothing changes, if it is on a face of the result. -/
theorem star_single (hI : Valid I) (hK : ∀ c, K c → Candidate I c) (hq : Quotient I K place num out) {v : Nat} (hv : Incident I.faces v)
    (hlink : PathOrCycle (link I.faces v)) (hs : Single K v) (hon : Incident out.faces (num v))
    (hno : ∀ b c, IsMerged K num c b → ¬ Neighbors out.faces (num v) b) : ∀ f ∈ I.faces, Corner f v → ∀ w, Corner f w → Single K w := by
  have hN := hq.numbering
  have hnd : ∀ f ∈ I.faces, Nondeg f := fun f hf => hI.nondeg hf
  -- a vertex next to `v` is good if it and a third corner are single
  let Good : Nat → Prop := fun x => Single K x ∧ ∃ f ∈ I.faces, ∃ y, Single K y ∧ [v, x, y].Perm [f.1, f.2.1, f.2.2]
  have hstep : ∀ x y, Good x → Adj (link I.faces v) x y → Good y := by
    rintro x m ⟨sx, f1, hf1, y, sy, hp1⟩ hadj
    obtain ⟨n1, n2, n3, f2, hf2, hp2⟩ := adj_link hnd hadj
    have c2v : Corner f2 v := corner_mem.2 (hp2.mem_iff.1 (by simp))
    have c2x : Corner f2 x := corner_mem.2 (hp2.mem_iff.1 (by simp))
    have c2m : Corner f2 m := corner_mem.2 (hp2.mem_iff.1 (by simp))
    have c1v : Corner f1 v := corner_mem.2 (hp1.mem_iff.1 (by simp))
    have c1x : Corner f1 x := corner_mem.2 (hp1.mem_iff.1 (by simp))
    have c1y : Corner f1 y := corner_mem.2 (hp1.mem_iff.1 (by simp))
    have ix := incident_corner hf2 c2x
    have im := incident_corner hf2 c2m
    have iy := incident_corner hf1 c1y
    suffices sm : Single K m from ⟨sm, f2, hf2, x, sx, ((List.Perm.swap _ _ _).cons _).trans hp2⟩
    by_contra hm
    unfold Single at hm
    push Not at hm
    obtain ⟨c, kc, hmc⟩ := hm
    have hperm : [num v, num x, num m].Perm [num f2.1, num f2.2.1, num f2.2.2] := by simpa using hp2.map num
    have e1 : num v ≠ num x := fun h => n1 (single_num hN ix sx hv h)
    have e2 : num x ≠ num m := fun h => n2 (single_num hN im (by
      have := single_num hN ix sx im h.symm
      subst this
      exact sx) ix h)
    have e3 : num v ≠ num m := fun h => n3 (single_num hN hv hs im h.symm).symm
    have hndr : Nondeg (rename num f2) := by
      have hnodup : [num v, num x, num m].Nodup := by simp [e1, e2, e3]
      have := hperm.nodup_iff.1 hnodup
      simp only [List.nodup_cons, List.mem_cons, List.not_mem_nil, or_false, not_or, not_false_eq_true, List.nodup_nil, and_true] at this
      exact ⟨this.1.1, this.2, fun h => this.1.2 h.symm⟩
    have hfold : Folded (renamed num I.faces) (rename num f2) := by
      by_contra hnf
      have := kept_face hq hf2 hndr hnf
      exact hno (num m) c ⟨kc, m, hmc, rfl⟩ ⟨e3, _, this, rename_corner c2v, rename_corner c2m⟩
    have hco := hfold.2.1
    have hle := renamed_coincident (I := I) (num := num) (rename num f2)
    have hlt : (I.faces.countP fun f => [(rename num f2).1, (rename num f2).2.1, (rename num f2).2.2].Perm [num f.1, num f.2.1, num f.2.2]) <
        I.faces.countP fun f => Corner f v ∧ Corner f x := by
      apply countP_strict
      · intro f hf h
        rw [decide_eq_true_eq] at h
        rw [decide_eq_true_eq]
        have h' := hperm.trans h
        have key : ∀ w, Incident I.faces w → Single K w → num w ∈ [num v, num x, num m] → Corner f w := by
          intro w hw sw hmem
          have := h'.mem_iff.1 hmem
          have hcr : Corner (rename num f) (num w) := corner_mem.2 this
          obtain ⟨u, hu, e⟩ := corner_rename hcr
          have := single_num hN hw sw (incident_corner hf hu) e
          subst this
          exact hu
        exact ⟨key v hv hs (by simp), key x ix sx (by simp)⟩
      · refine ⟨f1, hf1, by rw [decide_eq_true_eq]; exact ⟨c1v, c1x⟩, ?_⟩
        rw [decide_eq_false_iff_not]
        intro h
        have h' := hperm.trans h
        have h1 : [num v, num x, num y].Perm [num f1.1, num f1.2.1, num f1.2.2] := by simpa using hp1.map num
        have h2 := h'.trans h1.symm
        rw [List.perm_cons, List.perm_cons] at h2
        have hmy : num m = num y := by simpa using h2
        have := single_num hN iy sy im hmy
        subst this
        exact sy c kc hmc
    rw [← edgeCount_corner hnd n1, ← degree_link hnd n1] at hlt
    have := hlink.2.2 x
    omega
  obtain ⟨g, hg, hgc⟩ := hon
  obtain ⟨f0, hf0, rfl, hnd0, -⟩ := out_face hq hg
  have hsingle : ∀ w, Corner f0 w → Single K w := by
    intro w hw
    have hcr : Corner (rename num f0) (num w) := rename_corner hw
    have hiw := incident_corner hf0 hw
    rw [single_iff hN hK hiw]
    intro c hm
    by_cases h : num v = num w
    · rw [← h] at hm
      exact (single_iff hN hK hv).1 hs c hm
    · exact hno _ c hm ⟨h, _, hg, hgc, hcr⟩
  have hc0 : Corner f0 v := by
    obtain ⟨u, hu, e⟩ := corner_rename hgc
    have := single_num hN hv hs (incident_corner hf0 hu) e
    subst this
    exact hu
  obtain ⟨x0, y0, hadj0, hp0⟩ := link_adj hnd hf0 hc0
  have cx0 : Corner f0 x0 := corner_mem.2 (hp0.mem_iff.1 (by simp))
  have cy0 : Corner f0 y0 := corner_mem.2 (hp0.mem_iff.1 (by simp))
  have good0 : Good x0 := ⟨hsingle _ cx0, f0, hf0, y0, hsingle _ cy0, hp0⟩
  have hon0 : ∀ {x y}, Adj (link I.faces v) x y → OnLink (link I.faces v) x := by
    rintro x y (h | h)
    · exact ⟨_, h, Or.inl rfl⟩
    · exact ⟨_, h, Or.inr rfl⟩
  have hall : ∀ x, OnLink (link I.faces v) x → Good x := by
    intro x hx
    have := hlink.2.1 x0 x (hon0 hadj0) hx
    induction this with
    | refl => exact good0
    | tail h1 h2 ih => exact hstep _ _ (ih (hon0 h2)) h2
  intro f hf hc w hw
  obtain ⟨x, y, hadj, hp⟩ := link_adj hnd hf hc
  have : w ∈ [v, x, y] := hp.mem_iff.2 (corner_mem.1 hw)
  simp only [List.mem_cons, List.not_mem_nil, or_false] at this
  rcases this with rfl | rfl | rfl
  · exact hs
  · exact (hall _ (hon0 hadj)).1
  · exact (hall _ (hon0 (Or.comm.1 hadj))).1

/-- The link of such a vertex is the same. -/
theorem link_single (hI : Valid I) (hq : Quotient I K place num out) {v : Nat} (hv : Incident I.faces v)
    (hlink : PathOrCycle (link I.faces v)) (hs : Single K v) (hstar : ∀ f ∈ I.faces, Corner f v → ∀ w, Corner f w → Single K w) :
    link out.faces (num v) = (link I.faces v).map fun e => (num e.1, num e.2) := by
  have hN := hq.numbering
  have hnd : ∀ f ∈ I.faces, Nondeg f := fun f hf => hI.nondeg hf
  obtain ⟨p, hp, e⟩ := hq.faces
  have hopp : ∀ f ∈ I.faces, opposite (num v) (rename num f) = (opposite v f).map fun e => (num e.1, num e.2) := by
    intro f hf
    obtain ⟨i1, i2, i3⟩ := corner_incident hf
    have key : ∀ {u}, Incident I.faces u → (num u = num v ↔ u = v) := fun hu => ⟨single_num hN hv hs hu, fun h => by rw [h]⟩
    unfold opposite rename
    dsimp only
    simp only [key i1, key i2, key i3]
    split
    · rfl
    · split
      · rfl
      · split <;> rfl
  have hkeep : ∀ f ∈ I.faces, Corner f v → Nondeg (rename num f) ∧ ¬ Folded (renamed num I.faces) (rename num f) := by
    intro f hf hc
    have hst := hstar f hf hc
    obtain ⟨n1, n2, n3⟩ := hnd f hf
    obtain ⟨i1, i2, i3⟩ := corner_incident hf
    have s1 := hst f.1 (Or.inl rfl)
    have s2 := hst f.2.1 (Or.inr (Or.inl rfl))
    have s3 := hst f.2.2 (Or.inr (Or.inr rfl))
    refine ⟨⟨fun h => n1 (single_num hN i2 s2 i1 h), fun h => n2 (single_num hN i3 s3 i2 h), fun h => n3 (single_num hN i1 s1 i3 h)⟩, ?_⟩
    intro hfold
    have hco := hfold.2.1
    have hle := renamed_coincident (I := I) (num := num) (rename num f)
    obtain ⟨x, y, hadj, hpm⟩ := link_adj hnd hf hc
    have hle2 : (I.faces.countP fun g => [(rename num f).1, (rename num f).2.1, (rename num f).2.2].Perm [num g.1, num g.2.1, num g.2.2]) ≤ coincident I.faces (v, x, y) := by
      unfold coincident
      apply List.countP_mono_left
      intro g hg h
      rw [decide_eq_true_eq] at h ⊢
      refine hpm.trans ?_
      -- the corners of `f` are single, so `g` has them
      have hsub : [f.1, f.2.1, f.2.2] ⊆ [g.1, g.2.1, g.2.2] := by
        intro w hw
        have hwc := corner_mem.2 hw
        have hcr : Corner (rename num g) (num w) := by
          have := rename_corner (num := num) hwc
          exact corner_mem.2 (h.mem_iff.1 (corner_mem.1 this))
        obtain ⟨u, hu, e⟩ := corner_rename hcr
        have := single_num hN (incident_corner hf hwc) (hst w hwc) (incident_corner hg hu) e
        subst this
        exact corner_mem.1 hu
      have hnodup : [f.1, f.2.1, f.2.2].Nodup := by simp [n1, n2, Ne.symm n3]
      exact (hnodup.subperm hsub).perm_of_length_le (by simp)
    have hmul := multiplicity_link hnd (f := (v, x, y))
    have := hlink.1.2 x y
    dsimp only at hmul
    rw [hmul] at this
    omega
  unfold link
  rw [e]
  unfold renamed
  rw [List.filter_filter, List.filterMap_filter, List.filterMap_map, List.map_filterMap]
  apply List.filterMap_congr
  intro f hf
  simp only [Function.comp]
  by_cases hc : Corner f v
  · obtain ⟨hn, hnf⟩ := hkeep f hf hc
    have e1 := (hp (rename num f)).2 hnf
    rw [if_pos]
    · exact hopp f hf
    · rw [e1]
      simp only [Bool.true_and, decide_eq_true_eq]
      exact hn
  · have := (opposite_spec (hnd f hf) v).2 hc
    rw [hopp f hf, this]
    simp

/-- **No new singular vertices.** -/
theorem no_singular (hI : Valid I) (hK : ∀ c, K c → Candidate I c) (hq : Quotient I K place num out) (hdone : ∀ a c, Flagged out a → ¬ Blamed K num out a c)
    (h : ∀ v, Incident I.faces v → PathOrCycle (link I.faces v)) : ∀ a, Incident out.faces a → PathOrCycle (link out.faces a) := by
  intro a ha
  by_contra hno
  have hN := hq.numbering
  have hfl : Flagged out a := Or.inl ⟨ha, hno⟩
  have hnm : ∀ c, ¬ IsMerged K num c a := fun c hm => hdone a c hfl (Or.inl hm)
  have hnb : ∀ b c, IsMerged K num c b → ¬ Neighbors out.faces a b := fun b c hm hn => hdone a c hfl (Or.inr ⟨hnm, b, hm, hn⟩)
  obtain ⟨g, hg, hc⟩ := id ha
  obtain ⟨f, hf, rfl, -, -⟩ := out_face hq hg
  obtain ⟨v, hv, rfl⟩ := corner_rename hc
  have iv := incident_corner hf hv
  have hs : Single K v := (single_iff hN hK iv).2 hnm
  have hstar := star_single hI hK hq iv (h v iv) hs ha hnb
  apply hno
  rw [link_single hI hq iv (h v iv) hs hstar]
  apply pathOrCycle_map _ (h v iv)
  intro x y hx hy e
  obtain ⟨-, f1, h1, c1, c1x⟩ := mem_link (fun f hf => hI.nondeg hf) hx
  obtain ⟨-, f2, h2, c2, c2y⟩ := mem_link (fun f hf => hI.nondeg hf) hy
  exact single_num hN (incident_corner h2 c2y) (hstar f2 h2 c2 y c2y) (incident_corner h1 c1x) e

end Verif.Clusterer
