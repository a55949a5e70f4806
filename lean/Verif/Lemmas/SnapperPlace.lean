import Verif.Lemmas.SnapperAttempt

/-! # Lemmas: placing a point -/

namespace Verif.Snapper

open Verif Verif.AbstractMesh Verif.SpatialGrid Verif.SpatialGrid.Spec Verif.ClosestPoint Verif.Predicates
open Verif.MeshDefects hiding Face corner
open Verif.Thinner (Input toE E3 dotP crossP stopAtHit ballBox snapGrid)
open Verif.Triangulation.Spec (Triangulates PolyEdge Uses ShareLabel polyArea2 pt)

variable {I : Input} {m : Mesh} {s s' : State} {home : Nat → Nat}

/-! ### chains -/

theorem mem_insertChain {t : ℝ} {v : Nat} {l : List (ℝ × Nat)} {y : ℝ × Nat} : y ∈ insertChain t v l ↔ y = (t, v) ∨ y ∈ l := by
  induction l with
  | nil => simp [insertChain]
  | cons x l ih =>
      unfold insertChain
      split
      · simp only [List.mem_cons, ih]; tauto
      · simp only [List.mem_cons]

theorem insertChain_perm (t : ℝ) (v : Nat) (l : List (ℝ × Nat)) : (insertChain t v l).Perm ((t, v) :: l) := by
  induction l with
  | nil => simp [insertChain]
  | cons x l ih =>
      unfold insertChain
      split
      · exact (ih.cons x).trans (List.Perm.swap _ _ _)
      · exact List.Perm.refl _

theorem filter_insertChain (t : ℝ) {v : Nat} {l : List (ℝ × Nat)} (h : ∀ x ∈ l, x.2 ≠ v) : (insertChain t v l).filter (fun y => y.2 ≠ v) = l := by
  induction l with
  | nil => simp [insertChain]
  | cons x l ih =>
      have h1 : l.filter (fun y => decide (y.2 ≠ v)) = l := List.filter_eq_self.2 fun y hy => by simpa using h y (by simp [hy])
      have h2 := h x (by simp)
      unfold insertChain
      split
      · rw [List.filter_cons_of_pos (by simpa using h2), ih fun y hy => h y (by simp [hy])]
      · rw [List.filter_cons_of_neg (by simp), List.filter_cons_of_pos (by simpa using h2), h1]

theorem triangulateAll_spec (fis : List Nat) : ∀ {changed : Changed}, triangulateAll m s fis = .ok (changed, true) →
    changed.map (·.1) = fis ∧ ∀ c ∈ changed, triangulatePatch m s c.1 = .ok (c.2, true) := by
  induction fis with
  | nil => intro changed e; unfold triangulateAll at e; cases e; simp
  | cons fi fis ih =>
      intro changed e
      unfold triangulateAll at e
      obtain ⟨⟨fs, simple⟩, e1, e2⟩ := Outcome.bind_eq_ok.1 e
      cases simple with
      | false => simp at e2
      | true =>
          simp only [if_true] at e2
          obtain ⟨⟨c, b⟩, e3, e4⟩ := Outcome.bind_eq_ok.1 e2
          simp only [Outcome.ok.injEq, Prod.mk.injEq] at e4
          obtain ⟨rfl, rfl⟩ := e4
          obtain ⟨h1, h2⟩ := ih e3
          refine ⟨by rw [List.map_cons, h1], fun x hx => ?_⟩
          rcases List.mem_cons.1 hx with rfl | hx
          · exact e1
          · exact h2 x hx

theorem onSide_corner {fi x : Nat} (hx : x < 3) : OnSide m (edgeOf (corner (m.face fi) ((x + 1) % 3)) (corner (m.face fi) ((x + 2) % 3))) fi := by
  unfold OnSide
  rcases lt3 hx with rfl | rfl | rfl <;> simp [AbstractMesh.corner]

theorem trySnapEdge_spec (hr : 0 < I.resolution) (ht : ∀ i, 0 ≤ I.tol i) (hT : IsLinear I.T) (hm : MeshOk I m) (h : J I m home s) {c : Candidate}
    (hi : c.i < np I) (hfi : c.fi < m.nf) (hhome : home c.i = c.fi) (hfree : Free s c.i) {x : Nat} (hx : x < 3) {r : State × Bool × List Nat}
    (e : trySnapEdge I m s c x = .ok r) : Tried I m home s c.i r := by
  have hfail : Tried I m home s c.i (s, false, []) := tried_failed hm h hi h.inv rfl rfl rfl rfl (fun _ _ => rfl) (Or.inl rfl)
  unfold trySnapEdge at e
  split at e
  · simp only [Outcome.ok.injEq] at e; subst e; exact hfail
  rename_i l _
  dsimp only at e
  split at e
  · simp only [Outcome.ok.injEq] at e; subst e; exact hfail
  generalize hed : edgeOf (corner (m.face c.fi) ((x + 1) % 3)) (corner (m.face c.fi) ((x + 2) % 3)) = ed at e
  have hside : OnSide m ed c.fi := by rw [← hed]; exact onSide_corner hx
  have hmem : ∀ fi, fi ∈ m.facesOf ed.1 ed.2 ↔ fi < m.nf ∧ OnSide m ed fi := fun fi => by rw [← hed]; exact hm.mem_facesOf
  have hnd := hm.facesOf_nodup ed.1 ed.2
  generalize (if ed.1 ≠ corner (m.face c.fi) ((x + 1) % 3) then at3 l ((x + 1) % 3) / (at3 l ((x + 2) % 3) + at3 l ((x + 1) % 3))
    else at3 l ((x + 2) % 3) / (at3 l ((x + 1) % 3) + at3 l ((x + 2) % 3))) = t at e
  split at e
  · simp only [Outcome.ok.injEq] at e; subst e; exact hfail
  rename_i htwo
  obtain ⟨s1, prev, e1, hI1, hs1, hprev⟩ := pointsHonoredByPatches_spec hr ht (m.facesOf ed.1 ed.2) h.inv (fun fi hh => ((hmem fi).1 hh).1)
  rw [e1] at e
  simp only [Outcome.ok_bind] at e
  have hJ1 : J I m home s1 := h.same hm hI1 hs1
  have hfree1 : Free s1 c.i := by unfold Free; rw [hs1.chains]; exact hfree
  obtain ⟨⟨changed, simple⟩, e2, e3⟩ := Outcome.bind_eq_ok.1 e
  have hne1 : ∀ e' : Nat × Nat, e' ≠ ed → upd s1.chains ed (insertChain t c.i (s1.chains ed)) e' = s1.chains e' := fun e' he => if_neg he
  have heq1 : upd s1.chains ed (insertChain t c.i (s1.chains ed)) ed = insertChain t c.i (s1.chains ed) := if_pos rfl
  have hcmem : ∀ e', ∀ y ∈ upd s1.chains ed (insertChain t c.i (s1.chains ed)) e', y ∈ s1.chains e' ∨ (e' = ed ∧ y = (t, c.i)) := fun e' y hy => by
    by_cases he : e' = ed
    · subst he
      rw [heq1, mem_insertChain] at hy
      exact hy.symm.imp id fun hh => ⟨rfl, hh⟩
    · rw [hne1 e' he] at hy
      exact Or.inl hy
  have hrow : ∀ e', ∀ y ∈ s1.chains e', np I ≤ e'.1 ∧ np I ≤ e'.2 := fun e' y hy => hJ1.chains.ends hm hy
  have hedrow : np I ≤ ed.1 ∧ np I ≤ ed.2 := ⟨hm.rows _ hfi _ hside.ends.1, hm.rows _ hfi _ hside.ends.2⟩
  have hins : Inserted I m home (m.facesOf ed.1 ed.2) c.i s1
      { s1 with aq := upd s1.aq c.i (onEdgeAt s1 ed t), chains := upd s1.chains ed (insertChain t c.i (s1.chains ed)) } := by
    refine ⟨rfl, rfl, rfl, rfl, rfl, rfl, fun k hk => if_neg hk, hI1.inner, fun e' y hy => ?_, ⟨fun e' y hy => ?_, fun e' y hy => ?_, fun e' he => ?_, fun e' => ?_,
      fun e' e'' y hy z hz hyz => ?_⟩, fun fi hfi' hn => ⟨rfl, fun e' he => ?_⟩⟩
    · rcases hcmem e' y hy with hh | ⟨-, rfl⟩
      · exact hI1.chain e' y hh
      · exact hi
    · dsimp only
      rcases hcmem e' y hy with hh | ⟨rfl, rfl⟩
      · obtain ⟨u, hu⟩ := hJ1.chains.line e' y hh
        obtain ⟨r1, r2⟩ := hrow e' y hh
        refine ⟨u, ?_⟩
        unfold upd
        rw [if_neg (hfree1 e' y hh), if_neg (by omega), if_neg (by omega)]
        exact hu
      · refine ⟨t, ?_⟩
        unfold upd
        rw [if_pos rfl, if_neg (by omega), if_neg (by omega)]
        rfl
    · rcases hcmem e' y hy with hh | ⟨rfl, rfl⟩
      · exact hJ1.chains.home e' y hh
      · dsimp only
        rw [hhome]
        exact ⟨hfi, hside⟩
    · by_cases he' : e' = ed
      · subst he'; omega
      · dsimp only at he
        rw [hne1 e' he'] at he
        exact hJ1.chains.full e' he
    · dsimp only
      by_cases he' : e' = ed
      · subst he'
        rw [heq1, ((insertChain_perm t c.i (s1.chains e')).map (·.2)).nodup_iff, List.map_cons, List.nodup_cons]
        refine ⟨fun hh => ?_, hJ1.chains.nodup e'⟩
        obtain ⟨y, hy, hy2⟩ := List.mem_map.1 hh
        exact hfree1 e' y hy hy2
      · rw [hne1 e' he']
        exact hJ1.chains.nodup e'
    · rcases hcmem e' y hy with hh | ⟨rfl, rfl⟩ <;> rcases hcmem e'' z hz with hh' | ⟨rfl, rfl⟩
      · exact hJ1.chains.one e' e'' y hh z hh' hyz
      · exact absurd hyz (hfree1 e' y hh)
      · exact absurd hyz.symm (hfree1 e'' z hh')
      · rfl
    · refine hne1 e' ?_
      rintro rfl
      exact hn ((hmem fi).2 ⟨hfi', he⟩)
  have hok : simple = true → changed.map (·.1) = m.facesOf ed.1 ed.2 ∧ ∀ d ∈ changed, TriP m
      { s1 with aq := upd s1.aq c.i (onEdgeAt s1 ed t), chains := upd s1.chains ed (insertChain t c.i (s1.chains ed)) } d.1 d.2 := by
    rintro rfl
    obtain ⟨g1, g2⟩ := triangulateAll_spec _ e2
    exact ⟨g1, fun d hd => triangulatePatch_spec hins.chains.line (g2 d hd) rfl⟩
  have := finish_spec hr hT hm hJ1 hi hfree1 hnd (fun fi hh => ((hmem fi).1 hh).1) hins hok (fun k => by
      rw [hprev k]
      simp only [hs1.cur, hs1.honoredBy])
    (fun s' h1 h2 => by
      dsimp only at h1 h2
      rw [h1, h2, heq1, filter_insertChain t (hfree1 ed)]
      congr 1
      funext e'
      by_cases he' : e' = ed
      · subst he'; exact if_pos rfl
      · unfold upd; rw [if_neg he', if_neg he'])
    (fun hh => by
      obtain ⟨g1, g2⟩ := hok hh
      have : c.fi ∈ changed.map (·.1) := by rw [g1]; exact (hmem c.fi).2 ⟨hfi, hside⟩
      obtain ⟨d, hd, hd2⟩ := List.mem_map.1 this
      refine ⟨d, hd, (g2 d hd).used (mem_boundaryIds.2 (Or.inr ⟨ed, by rw [hd2]; exact hside, (t, c.i), ?_, rfl⟩))⟩
      dsimp only
      rw [heq1]
      exact mem_insertChain.2 (Or.inl rfl)) e3
  refine ⟨this.j, fun hh => ?_, this.placed, fun k => ?_⟩
  · obtain ⟨k1, k2, k3, k4, k5, k6⟩ := this.kept hh
    exact ⟨k1.trans hs1.p, k2.trans hs1.interior, k3.trans hs1.cached, k4.trans hs1.chains, fun k hk => by rw [k5 k hk, hs1.aq], k6⟩
  · rw [this.dis k, hs1.meshHonors k]

theorem trySnapFace_spec (hr : 0 < I.resolution) (ht : ∀ i, 0 ≤ I.tol i) (hT : IsLinear I.T) (hm : MeshOk I m) (h : J I m home s) {c : Candidate}
    (hi : c.i < np I) (hfi : c.fi < m.nf) (hfree : Free s c.i) {r : State × Bool × List Nat}
    (e : trySnapFace I m s c = .ok r) : Tried I m home s c.i r := by
  unfold trySnapFace at e
  obtain ⟨s1, prev, e1, hI1, hs1, hprev⟩ := pointsHonoredByPatches_spec hr ht [c.fi] h.inv (fun fi hh => by rw [List.mem_singleton.1 hh]; exact hfi)
  rw [e1] at e
  simp only [Outcome.ok_bind] at e
  have hJ1 : J I m home s1 := h.same hm hI1 hs1
  have hfree1 : Free s1 c.i := by unfold Free; rw [hs1.chains]; exact hfree
  obtain ⟨⟨fs, simple⟩, e2, e3⟩ := Outcome.bind_eq_ok.1 e
  have hins : Inserted I m home [c.fi] c.i s1
      { s1 with aq := upd s1.aq c.i c.aq, interior := upd s1.interior c.fi (s1.interior c.fi ++ [c.i]) } := by
    refine ⟨rfl, rfl, rfl, rfl, rfl, rfl, fun k hk => if_neg hk, fun fi k hk => ?_, hI1.chain, hJ1.chains.transfer hm rfl fun k => ?_,
      fun fi _ hn => ⟨if_neg (by simpa using hn), fun _ _ => rfl⟩⟩
    · dsimp only at hk
      by_cases hf : fi = c.fi
      · subst hf
        rw [show upd s1.interior c.fi (s1.interior c.fi ++ [c.i]) c.fi = _ from if_pos rfl, List.mem_append, List.mem_singleton] at hk
        rcases hk with hk | rfl
        · exact hI1.inner _ k hk
        · exact hi
      · rw [show upd s1.interior c.fi (s1.interior c.fi ++ [c.i]) fi = _ from if_neg hf] at hk
        exact hI1.inner _ k hk
    · by_cases hk : k = c.i
      · subst hk; exact Or.inr ⟨hi, hfree1⟩
      · exact Or.inl (if_neg hk)
  have := finish_spec hr hT hm hJ1 hi hfree1 (ids := [c.fi]) (by simp) (fun fi hh => by rw [List.mem_singleton.1 hh]; exact hfi) hins
    (fun hh => ⟨rfl, fun d hd => by
      rw [Bool.and_eq_true] at hh
      rw [List.mem_singleton.1 hd]
      exact triangulatePatch_spec hins.chains.line e2 hh.1⟩)
    (fun k => by
      rw [hprev k]
      simp only [hs1.cur, hs1.honoredBy])
    (fun s' h1 h2 => by
      dsimp only at h1 h2
      rw [h1, show upd s1.interior c.fi (s1.interior c.fi ++ [c.i]) c.fi = _ from if_pos rfl, List.dropLast_concat]
      have : s1.chains = s'.chains := h2.symm
      rw [this]
      congr 1
      funext fi
      by_cases hf : fi = c.fi
      · subst hf; exact if_pos rfl
      · unfold upd; rw [if_neg hf, if_neg hf])
    (fun hh => by
      rw [Bool.and_eq_true, List.any_eq_true] at hh
      obtain ⟨f, hf, hf2⟩ := hh.2
      exact ⟨_, List.mem_singleton.2 rfl, f, hf, hasRow_iff.1 hf2⟩) e3
  refine ⟨this.j, fun hh => ?_, this.placed, fun k => ?_⟩
  · obtain ⟨k1, k2, k3, k4, k5, k6⟩ := this.kept hh
    exact ⟨k1.trans hs1.p, k2.trans hs1.interior, k3.trans hs1.cached, k4.trans hs1.chains, fun k hk => by rw [k5 k hk, hs1.aq], k6⟩
  · rw [this.dis k, hs1.meshHonors k]

/-! ### moving a vertex -/

theorem patchesAt_spec (fis : List Nat) (hf : ∀ fi ∈ fis, fi < m.nf ∧ (s.cached fi = [] → Plain m s fi)) :
    patchesAt m s fis = .ok (fis.map fun fi => (fi, cur m s fi)) := by
  induction fis with
  | nil => rfl
  | cons fi fis ih =>
      unfold patchesAt
      rw [patchFaces_of (hf fi (by simp)).2, ih fun x hx => hf x (by simp [hx])]
      rfl

theorem upd_upd {α : Type} (f : Nat → α) (v : Nat) (b : α) : upd (upd f v b) v (f v) = f := by
  funext r
  by_cases h : r = v
  · subst h; exact if_pos rfl
  · unfold upd; rw [if_neg h, if_neg h]

theorem trySnapVertex_spec (hr : 0 < I.resolution) (ht : ∀ i, 0 ≤ I.tol i) (hT : IsLinear I.T) (hm : MeshOk I m) (h : J I m home s) {c : Candidate}
    (hi : c.i < np I) (hfi : c.fi < m.nf) {v : Nat} (hv : Corner (m.face c.fi) v) {r : State × Bool × List Nat}
    (e : trySnapVertex I m s c v = .ok r) : Tried I m home s c.i r := by
  have hvn := hm.rows _ hfi v hv
  have hmem : ∀ fi, fi ∈ m.vertexFaces v ↔ fi < m.nf ∧ Corner (m.face fi) v := fun fi => hm.mem_vertexFaces
  have hnd : (m.vertexFaces v).Nodup := ((C35_reachable_consistent hm.reach).vertexFaces v).1
  unfold trySnapVertex at e
  obtain ⟨⟨s1, prev⟩, e1, e2⟩ := Outcome.bind_eq_ok.1 e
  obtain ⟨hI1, hs1, hprev⟩ := pointsHonoredByStar_spec hr ht h.inv (fun fi hh => ((hmem fi).1 hh).1) e1
  have hJ1 : J I m home s1 := h.same hm hI1 hs1
  dsimp only at e2
  have hup : ∀ r, r ≠ v → upd s1.p v (s1.p c.i) r = s1.p r := fun r hh => if_neg hh
  have huap : ∀ r, r ≠ v → upd s1.ap v (s1.ap c.i) r = s1.ap r := fun r hh => if_neg hh
  have hplain : ∀ fi, fi < m.nf → s1.cached fi = [] → Plain m { s1 with p := upd s1.p v (s1.p c.i), ap := upd s1.ap v (s1.ap c.i) } fi :=
    fun fi h1 h2 => hI1.plain fi h1 not_false h2
  have hoff : ∀ fi, fi < m.nf → fi ∉ m.vertexFaces v → ∀ f ∈ cur m s1 fi, ∀ r, Corner f r → r ≠ v := fun fi h1 h2 f hf r hr hrv => by
    subst hrv
    rcases hI1.curRows h1 hf hr with h3 | h3
    · omega
    · exact h2 ((hmem fi).2 ⟨h1, h3⟩)
  have hcur2 : ∀ fi, cur m { s1 with p := upd s1.p v (s1.p c.i), ap := upd s1.ap v (s1.ap c.i) } fi = cur m s1 fi := fun fi => rfl
  have hhon : ∀ k, k < np I → ∀ f : Face, (∀ r, Corner f r → r ≠ v) →
      honoredBy I { s1 with p := upd s1.p v (s1.p c.i), ap := upd s1.ap v (s1.ap c.i) } k f = honoredBy I s1 k f := fun k hk f hf =>
    honoredBy_congr I k f (huap k (by omega)) fun r hr => huap r (hf r hr)
  have hE : InvE I m (· ∈ m.vertexFaces v) { s1 with p := upd s1.p v (s1.p c.i), ap := upd s1.ap v (s1.ap c.i) } := by
    refine ⟨fun r => ?_, fun r hr => ?_, fun r hr => ?_, hI1.anchor, hI1.chain, hI1.inner, fun fi h1 _ h3 => hplain fi h1 h3, hI1.rows, ?_, hI1.sgrid, ?_⟩
    · by_cases hrv : r = v
      · subst hrv; simp only [upd, if_true]; exact hI1.ap _
      · dsimp only; rw [hup r hrv, huap r hrv]; exact hI1.ap r
    · dsimp only
      rw [hup r (by omega)]
      exact hI1.snap r hr
    · by_cases hrv : r = v
      · subst hrv; simp only [upd, if_true]; exact Or.inr ⟨c.i, hi, hI1.snap _ hi⟩
      · dsimp only; rw [hup r hrv]; exact hI1.orig r hr
    · obtain ⟨ops, hF, hL⟩ := hI1.fgrid
      refine ⟨ops, hF, fun fi => ⟨fun h1 => ⟨((hL fi).1 h1).1, fun h2 => ?_⟩, (hL fi).2⟩⟩
      rw [((hL fi).1 h1).2 not_false]
      exact (boxOf_congr fun g hg r hr => huap r (hoff fi h1 h2 g hg r hr)).symm
    · intro fi l h1 h2 h3 k
      rw [hI1.honored fi l h1 not_false h3 k, hcur2]
      constructor
      · rintro ⟨h4, f, h5, h6⟩
        exact ⟨h4, f, h5, by rw [hhon k h4 f (hoff fi h1 h2 f h5)]; exact h6⟩
      · rintro ⟨h4, f, h5, h6⟩
        exact ⟨h4, f, h5, by rw [hhon k h4 f (hoff fi h1 h2 f h5)] at h6; exact h6⟩
  rw [patchesAt_spec (s := { s1 with p := upd s1.p v (s1.p c.i), ap := upd s1.ap v (s1.ap c.i) }) (m.vertexFaces v) (fun fi hh => ⟨((hmem fi).1 hh).1, hplain fi ((hmem fi).1 hh).1⟩)] at e2
  simp only [Outcome.ok_bind, hcur2] at e2
  have hids : ((m.vertexFaces v).map fun fi => (fi, cur m s1 fi)).map (·.1) = m.vertexFaces v := by
    rw [List.map_map]; exact List.map_id _
  have back : ∀ s3, Stamped I { s1 with p := upd s1.p v (s1.p c.i), ap := upd s1.ap v (s1.ap c.i) } s3 →
      Tried I m home s c.i ({ s3 with p := upd s3.p v (s1.p v), ap := upd s3.ap v (s1.ap v) }, false, []) := fun s3 hst => by
    have q1 : upd s3.p v (s1.p v) = s1.p := by rw [hst.same.p]; exact upd_upd _ _ _
    have q2 : upd s3.ap v (s1.ap v) = s1.ap := by rw [hst.same.ap]; exact upd_upd _ _ _
    rw [q1, q2]
    refine tried_failed hm h hi (inv_restored hI1 hi rfl rfl hst.same.interior hst.same.cached hst.same.chains (fun k _ => by rw [show _ = _ from hst.same.aq]) hst.sgrid
      hst.honored hst.fgrid) hs1.p (hst.same.interior.trans hs1.interior) (hst.same.cached.trans hs1.cached) (hst.same.chains.trans hs1.chains) (fun k _ => ?_) (Or.inl ?_)
    · exact congrFun (hst.same.aq.trans hs1.aq) k
    · exact congrFun (hst.same.aq.trans hs1.aq) c.i
  split at e2
  · simp only [Outcome.ok.injEq] at e2
    subst e2
    exact back _ (Stamped.refl I _)
  rename_i hfold
  rw [Bool.not_eq_true] at hfold
  obtain ⟨⟨s3, hit⟩, e3, e4⟩ := Outcome.bind_eq_ok.1 e2
  obtain ⟨hE3, hst, hnc⟩ := selfIntersects_spec hr hT _ (by rw [hids]; exact hE) e3
  cases hit with
  | true =>
      simp only [if_true, Outcome.ok.injEq] at e4
      subst e4
      exact back s3 hst
  | false =>
  simp only [Bool.false_eq_true, if_false] at e4
  obtain ⟨hnc1, hnc2⟩ := hnc rfl
  rw [hids] at hE3 hnc2
  obtain ⟨s4, e5, hI4, hs4⟩ := reindexAll_spec (m.vertexFaces v) hE3 (fun fi hh => ⟨((hmem fi).1 hh).1, fun hc => by
    rw [hst.same.cached] at hc
    have := hplain fi ((hmem fi).1 hh).1 hc
    unfold Plain at this ⊢
    rw [hst.same.interior, hst.same.chains]
    exact this⟩)
  rw [e5] at e4
  simp only [Outcome.ok_bind] at e4
  have hI4' : Inv I m s4 := hI4.weaken (by rintro x ⟨h1, h2⟩; exact absurd h1 h2)
  obtain ⟨s5, dis, e6, hI5, hs5, hdis⟩ := collectDishonored_spec hr prev hI4'
  rw [e6] at e4
  simp only [Outcome.ok_bind, Outcome.ok.injEq] at e4
  subst e4
  have hs : Same { s1 with p := upd s1.p v (s1.p c.i), ap := upd s1.ap v (s1.ap c.i) } s4 := hst.same.trans hs4
  have hcur4 : ∀ fi, cur m s4 fi = cur m s1 fi := fun fi => hs.cur m fi
  obtain ⟨pw1, pw2⟩ := pairwise_flat (fun a b hab => NC.symm hab) hnc1
  have hJ4 : J I m home s4 := by
    refine ⟨hI4', hJ1.chains.transfer hm hs.chains fun r => Or.inl (congrFun hs.aq r), fun fi hfi => ?_, noX_of hJ1.noX (m.vertexFaces v) ?_ ?_ ?_ ?_,
      fun fi hfi f hf => ?_⟩
    · rw [hcur4]
      exact triP_congr hs.chains (congrFun hs.interior fi) (hJ1.tri fi hfi)
    · intro fi h1 h2
      refine ⟨hcur4 fi, fun f hf => ?_⟩
      rw [hs.tri]
      have hr' := hoff fi h1 h2 f hf
      unfold State.tri
      dsimp only
      rw [hup _ (hr' _ (Or.inl rfl)), hup _ (hr' _ (Or.inr (Or.inl rfl))), hup _ (hr' _ (Or.inr (Or.inr rfl)))]
    · intro fi hh
      rw [hcur4]
      exact (pw1 (fi, cur m s1 fi) (List.mem_map_of_mem hh)).imp fun {a b} hab => NC.congr (hs.tri a) (hs.tri b) hab
    · intro fi h1 fj h2 hne f hf g hg
      rw [hcur4] at hf hg
      exact NC.congr (hs.tri f) (hs.tri g) (pw2 (fi, cur m s1 fi) (List.mem_map_of_mem h1) (fj, cur m s1 fj) (List.mem_map_of_mem h2)
        (fun hh => hne (Prod.ext_iff.1 hh).1) f hf g hg)
    · intro fi h1 fj h2 h3 f hf g hg
      rw [hcur4] at hf
      exact NC.congr (hs.tri f) (hs.tri g) (hnc2 f (List.mem_flatMap.2 ⟨(fi, cur m s1 fi), List.mem_map_of_mem h1, hf⟩) fj h2 h3 g hg)
    · rw [hcur4] at hf
      rw [hs.ap]
      by_cases hid : fi ∈ m.vertexFaces v
      · have := folded_false hfold (fi, cur m s1 fi) (List.mem_map_of_mem hid) f hf
        have ha : ∀ r, Corner (m.face fi) r → s1.aq r = I.T (p0 I r) := fun r hr => hI1.anchor r (hm.rows fi hfi r hr)
        dsimp only at this
        rw [ha _ (Or.inl rfl), ha _ (Or.inr (Or.inl rfl)), ha _ (Or.inr (Or.inr rfl))] at this
        exact this
      · have hr' := hoff fi hfi hid f hf
        dsimp only
        rw [huap _ (hr' _ (Or.inl rfl)), huap _ (hr' _ (Or.inr (Or.inl rfl))), huap _ (hr' _ (Or.inr (Or.inr rfl)))]
        exact hJ1.noFold fi hfi f hf
  refine ⟨hJ4.same hm hI5 hs5, fun hh => by simp at hh, fun _ => ?_, fun k => ?_⟩
  · obtain ⟨f, hf, hfv⟩ := (hJ4.tri c.fi hfi).used (r := v) (mem_boundaryIds.2 (Or.inl hv))
    refine ⟨c.fi, f, v, hfi, ?_, hfv, ?_⟩
    · dsimp only; rw [hs5.cur]; exact hf
    · dsimp only
      rw [hs5.p, hs.p]
      simp only [upd, if_true]
      exact hI1.snap _ hi
  · dsimp only
    rw [hdis k, hprev k, hs5.meshHonors k]
    constructor
    · rintro ⟨⟨h1, fi, hfi', f, hf, -, hh⟩, h2⟩
      exact ⟨h1, ⟨fi, f, ((hmem fi).1 hfi').1, hf, hh⟩, h2⟩
    · rintro ⟨h1, ⟨fi, f, hfi', hf, hh⟩, h2⟩
      refine ⟨⟨h1, ?_⟩, h2⟩
      rw [← hs1.cur] at hf
      by_cases hfv : Corner f v
      · refine ⟨fi, (hmem fi).2 ⟨hfi', ?_⟩, f, by rw [← hs1.cur]; exact hf, hfv, hh⟩
        rcases hI1.curRows hfi' hf hfv with h3 | h3
        · omega
        · exact h3
      · exfalso
        refine h2 ⟨fi, f, hfi', by rw [hcur4]; exact hf, ?_⟩
        rw [hs.honoredBy, hhon k h1 f (fun r hr hrv => hfv (by rw [← hrv]; exact hr)), hs1.honoredBy]
        exact hh

end Verif.Snapper
