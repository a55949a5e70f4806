import Verif.Lemmas.SnapperTri

/-! # Lemmas: what holds between attempts -/

namespace Verif.Snapper

open Verif Verif.AbstractMesh Verif.SpatialGrid Verif.ClosestPoint Verif.Predicates
open Verif.MeshDefects hiding Face corner
open Verif.Thinner (Input toE E3 dotP crossP stopAtHit ballBox snapGrid)
open Verif.Triangulation.Spec (Triangulates PolyEdge Uses ShareLabel polyArea2 pt)

variable {I : Input} {m : Mesh} {s s' : State} {home : Nat → Nat}

/-- The mesh of the snapper: nothing is deleted, and the corners are rows of vertices. -/
structure MeshOk (I : Input) (m : Mesh) : Prop where
  reach : Reachable m
  alive : ∀ fi, fi < m.nf → faceAt m fi = some (m.face fi)
  rows : ∀ fi, fi < m.nf → ∀ r, Corner (m.face fi) r → np I ≤ r

/-- The edge is a side of the face. -/
def OnSide (m : Mesh) (e : Nat × Nat) (fi : Nat) : Prop :=
  e = edgeOf (m.face fi).1 (m.face fi).2.1 ∨ e = edgeOf (m.face fi).2.1 (m.face fi).2.2 ∨ e = edgeOf (m.face fi).2.2 (m.face fi).1

theorem edgeOf_cases (a b : Nat) : edgeOf a b = (a, b) ∨ edgeOf a b = (b, a) := by
  unfold edgeOf
  rcases Nat.le_total a b with h | h
  · left; rw [Nat.min_eq_left h, Nat.max_eq_right h]
  · right; rw [Nat.min_eq_right h, Nat.max_eq_left h]

theorem edgeOf_comm (a b : Nat) : edgeOf a b = edgeOf b a := by
  unfold edgeOf; rw [Nat.min_comm, Nat.max_comm]

theorem edgeOf_inj {a b c d : Nat} (h : edgeOf a b = edgeOf c d) : (a = c ∧ b = d) ∨ (a = d ∧ b = c) := by
  rcases edgeOf_cases a b with e | e <;> rcases edgeOf_cases c d with e' | e' <;> rw [e, e'] at h <;> simp only [Prod.mk.injEq] at h <;> omega

theorem MeshOk.faceAt_some (h : MeshOk I m) {fi : Nat} {f : Face} : faceAt m fi = some f ↔ fi < m.nf ∧ m.face fi = f := by
  constructor
  · intro e
    have hlt : fi < m.nf := by
      unfold faceAt at e
      split at e
      · rename_i hh; exact hh.1
      · cases e
    rw [h.alive fi hlt] at e
    exact ⟨hlt, Option.some.inj e⟩
  · rintro ⟨h1, rfl⟩; exact h.alive fi h1

theorem MeshOk.nondeg (h : MeshOk I m) {fi : Nat} (hfi : fi < m.nf) : Nondeg (m.face fi) :=
  (C35_reachable_consistent h.reach).corners fi _ (h.alive fi hfi)

theorem MeshOk.mem_vertexFaces (h : MeshOk I m) {v fi : Nat} : fi ∈ m.vertexFaces v ↔ fi < m.nf ∧ Corner (m.face fi) v := by
  rw [((C35_reachable_consistent h.reach).vertexFaces v).2 fi]
  constructor
  · rintro ⟨f, h1, h2⟩
    obtain ⟨h3, rfl⟩ := h.faceAt_some.1 h1
    exact ⟨h3, h2⟩
  · rintro ⟨h1, h2⟩; exact ⟨_, h.alive fi h1, h2⟩

theorem onSide_iff {fi a b : Nat} : OnSide m (edgeOf a b) fi ↔ Side (m.face fi) a b ∨ Side (m.face fi) b a := by
  unfold OnSide Side
  constructor
  · rintro (h | h | h) <;> rcases edgeOf_inj h with ⟨h1, h2⟩ | ⟨h1, h2⟩ <;> simp [h1, h2]
  · rintro ((⟨rfl, rfl⟩ | ⟨rfl, rfl⟩ | ⟨rfl, rfl⟩) | ⟨rfl, rfl⟩ | ⟨rfl, rfl⟩ | ⟨rfl, rfl⟩)
    · exact Or.inl rfl
    · exact Or.inr (Or.inl rfl)
    · exact Or.inr (Or.inr rfl)
    · exact Or.inl (edgeOf_comm _ _)
    · exact Or.inr (Or.inl (edgeOf_comm _ _))
    · exact Or.inr (Or.inr (edgeOf_comm _ _))

theorem MeshOk.mem_facesOf (h : MeshOk I m) {a b fi : Nat} : fi ∈ m.facesOf (edgeOf a b).1 (edgeOf a b).2 ↔ fi < m.nf ∧ OnSide m (edgeOf a b) fi := by
  rw [C35_faces_of h.reach, onSide_iff]
  constructor
  · rintro ⟨f, h1, h2⟩
    obtain ⟨h3, rfl⟩ := h.faceAt_some.1 h1
    refine ⟨h3, ?_⟩
    rcases edgeOf_cases a b with e | e <;> rw [e] at h2
    · exact h2
    · exact h2.symm
  · rintro ⟨h1, h2⟩
    refine ⟨_, h.alive fi h1, ?_⟩
    rcases edgeOf_cases a b with e | e <;> rw [e]
    · exact h2
    · exact h2.symm

theorem side_not_both {f : Face} (hf : Nondeg f) {a b : Nat} (h1 : Side f a b) (h2 : Side f b a) : False := by
  obtain ⟨x, y, z⟩ := f
  unfold Nondeg at hf; unfold Side at h1 h2
  simp only at hf h1 h2
  omega

theorem MeshOk.facesOf_nodup (h : MeshOk I m) (a b : Nat) : (m.facesOf a b).Nodup := by
  have C := C35_reachable_consistent h.reach
  unfold Mesh.facesOf
  cases e1 : m.halfedgeOf a b with
  | none => cases e2 : m.halfedgeOf b a <;> simp
  | some x =>
      cases e2 : m.halfedgeOf b a with
      | none => simp
      | some y =>
          simp only [Option.map_some, Option.toList_some, List.cons_append, List.nil_append, List.nodup_cons, List.mem_singleton, List.not_mem_nil,
            not_false_eq_true, List.nodup_nil, and_true]
          intro hxy
          obtain ⟨f, hf, hs⟩ := (C.halfedgeOf a b x).1 e1
          obtain ⟨g, hg, ht⟩ := (C.halfedgeOf b a y).1 e2
          rw [← hxy, hf] at hg
          cases hg
          refine side_not_both (C.corners _ f hf) (a := a) (b := b) ?_ ?_
          · rcases hs with ⟨-, hs⟩ | ⟨-, hs⟩ | ⟨-, hs⟩
            · exact Or.inl hs
            · exact Or.inr (Or.inl hs)
            · exact Or.inr (Or.inr hs)
          · rcases ht with ⟨-, hs⟩ | ⟨-, hs⟩ | ⟨-, hs⟩
            · exact Or.inl hs
            · exact Or.inr (Or.inl hs)
            · exact Or.inr (Or.inr hs)

theorem OnSide.ends {e : Nat × Nat} {fi : Nat} (h : OnSide m e fi) : Corner (m.face fi) e.1 ∧ Corner (m.face fi) e.2 := by
  unfold Corner
  rcases h with rfl | rfl | rfl
  · rcases edgeOf_cases (m.face fi).1 (m.face fi).2.1 with e | e <;> rw [e] <;> simp
  · rcases edgeOf_cases (m.face fi).2.1 (m.face fi).2.2 with e | e <;> rw [e] <;> simp
  · rcases edgeOf_cases (m.face fi).2.2 (m.face fi).1 with e | e <;> rw [e] <;> simp

/-! ### the boundary of a patch -/

theorem mem_chainRows {a b r : Nat} : r ∈ chainRows s a b ↔ ∃ x ∈ s.chains (edgeOf a b), x.2 = r := by
  unfold chainRows
  dsimp only
  split <;> simp

theorem mem_boundaryIds {fi r : Nat} : r ∈ boundaryIds s (m.face fi) ↔ Corner (m.face fi) r ∨ ∃ e, OnSide m e fi ∧ ∃ x ∈ s.chains e, x.2 = r := by
  unfold boundaryIds Corner OnSide
  simp only [List.mem_append, List.mem_cons, mem_chainRows, or_and_right, exists_or, exists_eq_left]
  constructor
  · rintro (((h | h) | h | h) | h | h)
    · exact Or.inl (Or.inl h.symm)
    · exact Or.inr (Or.inl h)
    · exact Or.inl (Or.inr (Or.inl h.symm))
    · exact Or.inr (Or.inr (Or.inl h))
    · exact Or.inl (Or.inr (Or.inr h.symm))
    · exact Or.inr (Or.inr (Or.inr h))
  · rintro ((h | h | h) | h | h | h)
    · exact Or.inl (Or.inl (Or.inl h.symm))
    · exact Or.inl (Or.inr (Or.inl h.symm))
    · exact Or.inr (Or.inl h.symm)
    · exact Or.inl (Or.inl (Or.inr h))
    · exact Or.inl (Or.inr (Or.inr h))
    · exact Or.inr (Or.inr h)

theorem side_corner {f : Face} {a b : Nat} (h : Side f a b) : Corner f a ∧ Corner f b := by
  unfold Side at h; unfold Corner
  rcases h with ⟨h1, h2⟩ | ⟨h1, h2⟩ | ⟨h1, h2⟩ <;> simp [h1, h2]

theorem corner_mapFace {g : Nat → Nat} {f : Face} {r : Nat} : Corner (mapFace g f) r ↔ ∃ v, Corner f v ∧ g v = r := by
  unfold Corner mapFace
  constructor
  · rintro (h | h | h)
    · exact ⟨_, Or.inl rfl, h⟩
    · exact ⟨_, Or.inr (Or.inl rfl), h⟩
    · exact ⟨_, Or.inr (Or.inr rfl), h⟩
  · rintro ⟨v, rfl | rfl | rfl, h⟩
    · exact Or.inl h
    · exact Or.inr (Or.inl h)
    · exact Or.inr (Or.inr h)

/-- Every row on the boundary is a corner. -/
theorem TriP.used {fi : Nat} {fs : List Face} (h : TriP m s fi fs) {r : Nat} (hr : r ∈ boundaryIds s (m.face fi)) : ∃ f ∈ fs, Corner f r := by
  obtain ⟨T, hT, -, rfl⟩ := h
  obtain ⟨i, hi, rfl⟩ := List.mem_iff_getElem.1 hr
  obtain ⟨⟨f, hf, hs⟩, -⟩ := (hT.boundary i ((i + 1) % (boundaryIds s (m.face fi)).length)).2 (Or.inl ⟨not_false, hi, rfl⟩)
  refine ⟨_, List.mem_map_of_mem hf, corner_mapFace.2 ⟨i, (side_corner hs).1, ?_⟩⟩
  unfold rowOf
  rw [List.getD_eq_getElem?_getD, List.getElem?_append_left hi, List.getElem?_eq_getElem hi]
  rfl

theorem TriP.ne_nil {fi : Nat} {fs : List Face} (h : TriP m s fi fs) : fs ≠ [] := by
  obtain ⟨f, hf, -⟩ := h.used (r := (m.face fi).1) (mem_boundaryIds.2 (Or.inl (Or.inl rfl)))
  exact List.ne_nil_of_mem hf

theorem TriP.rows {fi : Nat} {fs : List Face} (h : TriP m s fi fs) {f : Face} (hf : f ∈ fs) {r : Nat} (hr : Corner f r) :
    r ∈ boundaryIds s (m.face fi) ∨ r ∈ s.interior fi := by
  obtain ⟨T, hT, -, rfl⟩ := h
  obtain ⟨g, hg, rfl⟩ := List.mem_map.1 hf
  obtain ⟨v, hv, rfl⟩ := corner_mapFace.1 hr
  have := hT.range g hg v hv
  rw [← List.mem_append]
  unfold rowOf
  rw [← List.length_append] at this
  rw [Thinner.getD_lt _ _ this]
  exact List.getElem_mem this

theorem TriP.rows' {fi : Nat} {fs : List Face} (h : TriP m s fi fs) (hc : ∀ e, ∀ x ∈ s.chains e, x.2 < np I) (hi : ∀ r ∈ s.interior fi, r < np I)
    {f : Face} (hf : f ∈ fs) {r : Nat} (hr : Corner f r) : r < np I ∨ Corner (m.face fi) r := by
  rcases h.rows hf hr with h' | h'
  · rcases mem_boundaryIds.1 h' with h' | ⟨e, -, x, hx, rfl⟩
    · exact Or.inr h'
    · exact Or.inl (hc e x hx)
  · exact Or.inl (hi r h')

/-! ### between attempts -/

/-- The face is one of the given mesh, in its place. -/
def AsGiven (I : Input) (m : Mesh) (s : State) (fi : Nat) (f : Face) : Prop := f = m.face fi ∧ s.tri f = (p0 I f.1, p0 I f.2.1, p0 I f.2.2)


/-- No two faces cross. -/
structure NoX (I : Input) (m : Mesh) (s : State) : Prop where
  within : ∀ fi, fi < m.nf → (cur m s fi).Pairwise (NC s)
  between : ∀ fi fj, fi < m.nf → fj < m.nf → fi ≠ fj → ∀ f ∈ cur m s fi, ∀ g ∈ cur m s fj, NC s f g ∨ (AsGiven I m s fi f ∧ AsGiven I m s fj g)

/-- No face is turned over, against the face of the given mesh it is on. -/
def NoFold (I : Input) (m : Mesh) (s : State) : Prop := ∀ fi, fi < m.nf → ∀ f ∈ cur m s fi,
  0 ≤ dotP (crossP (s.ap f.2.1 - s.ap f.1) (s.ap f.2.2 - s.ap f.1))
    (crossP (I.T (p0 I (m.face fi).2.1) - I.T (p0 I (m.face fi).1)) (I.T (p0 I (m.face fi).2.2) - I.T (p0 I (m.face fi).1)))

/-- What the chains are. -/
structure Chains (m : Mesh) (home : Nat → Nat) (s : State) : Prop where
  line : OnEdges s
  home : ∀ e, ∀ x ∈ s.chains e, home x.2 < m.nf ∧ OnSide m e (home x.2)
  full : ∀ e, s.chains e ≠ [] → 2 ≤ (m.facesOf e.1 e.2).length
  nodup : ∀ e, ((s.chains e).map (·.2)).Nodup
  one : ∀ e e', ∀ x ∈ s.chains e, ∀ y ∈ s.chains e', x.2 = y.2 → e = e'

/-- What holds between attempts. -/
structure J (I : Input) (m : Mesh) (home : Nat → Nat) (s : State) : Prop where
  inv : Inv I m s
  chains : Chains m home s
  tri : ∀ fi, fi < m.nf → TriP m s fi (cur m s fi)
  noX : NoX I m s
  noFold : NoFold I m s

/-- The row is in no chain. -/
def Free (s : State) (r : Nat) : Prop := ∀ e, ∀ x ∈ s.chains e, x.2 ≠ r

theorem Chains.ends (hm : MeshOk I m) (h : Chains m home s) {e : Nat × Nat} {x : ℝ × Nat} (hx : x ∈ s.chains e) : np I ≤ e.1 ∧ np I ≤ e.2 := by
  obtain ⟨h1, h2⟩ := h.home e x hx
  exact ⟨hm.rows _ h1 _ h2.ends.1, hm.rows _ h1 _ h2.ends.2⟩

theorem onEdges_upd (hm : MeshOk I m) (h : Chains m home s) (hc : s'.chains = s.chains) (haq : ∀ r, s'.aq r = s.aq r ∨ (r < np I ∧ Free s r)) : OnEdges s' := by
  intro e x hx
  rw [hc] at hx
  obtain ⟨t, ht⟩ := h.line e x hx
  obtain ⟨e1, e2⟩ := h.ends hm hx
  have q1 : s'.aq e.1 = s.aq e.1 := (haq e.1).resolve_right fun hh => by have := hh.1; omega
  have q2 : s'.aq e.2 = s.aq e.2 := (haq e.2).resolve_right fun hh => by have := hh.1; omega
  have q3 : s'.aq x.2 = s.aq x.2 := (haq x.2).resolve_right fun hh => hh.2 e x hx rfl
  exact ⟨t, by rw [q1, q2, q3]; exact ht⟩

theorem Chains.transfer (hm : MeshOk I m) (h : Chains m home s) (hc : s'.chains = s.chains) (haq : ∀ r, s'.aq r = s.aq r ∨ (r < np I ∧ Free s r)) :
    Chains m home s' :=
  ⟨onEdges_upd hm h hc haq, by rw [hc]; exact h.home, by rw [hc]; exact h.full, by rw [hc]; exact h.nodup, by rw [hc]; exact h.one⟩

theorem J.transfer (hm : MeshOk I m) (h : J I m home s) (hI : Inv I m s') (hp : s'.p = s.p) (hi : s'.interior = s.interior) (hca : s'.cached = s.cached)
    (hc : s'.chains = s.chains) (haq : ∀ r, s'.aq r = s.aq r ∨ (r < np I ∧ Free s r)) : J I m home s' := by
  have hcur : ∀ fi, cur m s' fi = cur m s fi := fun fi => cur_congr (by rw [hca])
  have hap : s'.ap = s.ap := by funext r; rw [hI.ap, h.inv.ap, hp]
  have htri : ∀ f, s'.tri f = s.tri f := fun f => by unfold State.tri; rw [hp]
  refine ⟨hI, h.chains.transfer hm hc haq, fun fi hfi => ?_, ⟨fun fi hfi => ?_, fun fi fj hfi hfj hne f hf g hg => ?_⟩, fun fi hfi f hf => ?_⟩
  · rw [hcur]; exact triP_congr hc (by rw [hi]) (h.tri fi hfi)
  · rw [hcur]; exact (h.noX.within fi hfi).imp fun {a b} hab => NC.congr (htri a) (htri b) hab
  · rw [hcur] at hf hg
    refine (h.noX.between fi fj hfi hfj hne f hf g hg).imp (NC.congr (htri f) (htri g)) fun hh => ?_
    unfold AsGiven
    rw [htri, htri]
    exact hh
  · rw [hcur] at hf
    rw [hap]
    exact h.noFold fi hfi f hf

theorem J.same (hm : MeshOk I m) (h : J I m home s) (hI : Inv I m s') (hs : Same s s') : J I m home s' :=
  h.transfer hm hI hs.p hs.interior hs.cached hs.chains (fun r => Or.inl (by rw [hs.aq]))

/-- The new faces do not cross: those of the patches `ids` were tested. -/
theorem noX_of (h : NoX I m s) (ids : List Nat) (hsame : ∀ fi, fi < m.nf → fi ∉ ids → cur m s' fi = cur m s fi ∧ ∀ f ∈ cur m s fi, s'.tri f = s.tri f)
    (h1 : ∀ fi ∈ ids, (cur m s' fi).Pairwise (NC s')) (h2 : ∀ fi ∈ ids, ∀ fj ∈ ids, fi ≠ fj → ∀ f ∈ cur m s' fi, ∀ g ∈ cur m s' fj, NC s' f g)
    (h3 : ∀ fi ∈ ids, ∀ fj, fj < m.nf → fj ∉ ids → ∀ f ∈ cur m s' fi, ∀ g ∈ cur m s fj, NC s' f g) : NoX I m s' := by
  refine ⟨fun fi hfi => ?_, fun fi fj hfi hfj hne f hf g hg => ?_⟩
  · by_cases hid : fi ∈ ids
    · exact h1 fi hid
    · obtain ⟨e1, e2⟩ := hsame fi hfi hid
      rw [e1]
      exact (h.within fi hfi).imp_of_mem fun {a b} ha hb hab => NC.congr (e2 a ha) (e2 b hb) hab
  · by_cases hi : fi ∈ ids
    · by_cases hj : fj ∈ ids
      · exact Or.inl (h2 fi hi fj hj hne f hf g hg)
      · rw [(hsame fj hfj hj).1] at hg
        exact Or.inl (h3 fi hi fj hfj hj f hf g hg)
    · obtain ⟨e1, e2⟩ := hsame fi hfi hi
      rw [e1] at hf
      by_cases hj : fj ∈ ids
      · exact Or.inl (h3 fj hj fi hfi hi g hg f hf).symm
      · obtain ⟨e3, e4⟩ := hsame fj hfj hj
        rw [e3] at hg
        refine (h.between fi fj hfi hfj hne f hf g hg).imp (NC.congr (e2 f hf) (e4 g hg)) fun hh => ?_
        unfold AsGiven
        rw [e2 f hf, e4 g hg]
        exact hh

theorem pairwise_flat {R : Face → Face → Prop} (hR : ∀ a b, R a b → R b a) {changed : Changed} (h : (changed.flatMap (·.2)).Pairwise R) :
    (∀ c ∈ changed, c.2.Pairwise R) ∧ ∀ c ∈ changed, ∀ d ∈ changed, c ≠ d → ∀ f ∈ c.2, ∀ g ∈ d.2, R f g := by
  rw [List.pairwise_flatMap] at h
  refine ⟨h.1, fun c hc d hd hne f hf g hg => ?_⟩
  have : Std.Symm fun a b : Nat × List Face => ∀ x ∈ a.2, ∀ y ∈ b.2, R x y := ⟨fun a b hab x hx y hy => hR _ _ (hab y hy x hx)⟩
  exact h.2.forall hc hd hne f hf g hg

end Verif.Snapper
