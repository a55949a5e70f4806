import Verif.Lemmas.SnapperMesh

/-! # Lemmas: the exceptions -/

namespace Verif.Snapper

open Verif Verif.AbstractMesh Verif.SpatialGrid Verif.SpatialGrid.Spec Verif.ClosestPoint Verif.Predicates
open Verif.MeshDefects hiding Face corner
open Verif.Thinner (Input toE E3 dotP crossP stopAtHit ballBox snapGrid)

variable {I : Input} {m : Mesh} {s s' : State} {home : Nat → Nat} {B : Err → Prop}

/-- A call that returns or throws one of the exceptions `B`. -/
def Fine {α : Type} (B : Err → Prop) : Outcome α → Prop
  | .ok _ => True
  | .throws e => B e
  | .ub => False

theorem Fine.bind {α β : Type} {o : Outcome α} {f : α → Outcome β} (h : Fine B o) (hf : ∀ x, o = .ok x → Fine B (f x)) : Fine B (o >>= f) := by
  cases o with
  | ok x => exact hf x rfl
  | throws e => exact h
  | ub => exact h

theorem callUntil_fine (Q : Nat → Outcome Bool) (l : List Nat) (hQ : ∀ i ∈ l, Fine B (Q i)) : ∀ {r : Outcome Bool}, Fine B r → Fine B (callUntil (stopAtHit Q) l r).1 := by
  induction l with
  | nil => intro r h; exact h
  | cons x l ih =>
      intro r h
      unfold callUntil
      have hx := hQ x (by simp)
      have e : stopAtHit Q r x = (match Q x with | .ok false => (r, true) | y => (y, false)) := rfl
      rcases hq : Q x with b | b | _
      · cases b with
        | false =>
            have e1 : stopAtHit Q r x = (r, true) := by unfold stopAtHit; rw [hq]
            rw [e1]
            exact ih (fun i hi => hQ i (by simp [hi])) h
        | true =>
            have e1 : stopAtHit Q r x = (.ok true, false) := by unfold stopAtHit; rw [hq]
            rw [e1]
            exact trivial
      · have e1 : stopAtHit Q r x = (.throws b, false) := by unfold stopAtHit; rw [hq]
        rw [e1]
        rw [hq] at hx
        exact hx
      · rw [hq] at hx
        exact hx.elim

theorem intersect_fine (h1 : B .badAlloc) (h2 : B .outOfRange) (s : State) (a b : Face) : Fine B (s.intersect a b) := by
  unfold State.intersect trianglesIntersect
  split
  · trivial
  · trivial
  · split
    · split
      · trivial
      · exact h2
    · exact h2
  · trivial
  · exact h1

theorem hitsList_fine (hX : ∀ (s : State) a b, Fine B (s.intersect a b)) (s : State) (a : Face) (bs : List Face) : Fine B (hitsList s a bs) := by
  induction bs with
  | nil => trivial
  | cons b bs ih =>
      unfold hitsList
      refine (hX s a b).bind fun h _ => ?_
      split
      · trivial
      · exact ih

theorem hitsEachOther_fine (hX : ∀ (s : State) a b, Fine B (s.intersect a b)) (s : State) (as : List Face) : Fine B (hitsEachOther s as) := by
  induction as with
  | nil => trivial
  | cons b bs ih =>
      unfold hitsEachOther
      refine (hitsList_fine hX s b bs).bind fun h _ => ?_
      split
      · trivial
      · exact ih

theorem hitsOthers_fine (hX : ∀ (s : State) a b, Fine B (s.intersect a b)) (ids : List Nat) (as : List Face) : ∀ {s : State}, InvE I m (· ∈ ids) s →
    Fine B (hitsOthers I m ids as s) := by
  induction as with
  | nil => intro s _; trivial
  | cons a as ih =>
      intro s h
      unfold hitsOthers
      obtain ⟨g, e, hI, -⟩ := h.forEachF (bboxOf (s.atri a)) (stopAtHit (hitsPatch m s ids a)) (.ok false)
      rw [e]
      simp only [Outcome.ok_bind]
      refine (callUntil_fine (B := B) _ _ (fun fj hfj => ?_) (r := .ok false) True.intro).bind fun hit _ => ?_
      · unfold hitsPatch
        split
        · trivial
        rename_i hn
        rw [h.patchFaces (h.visitsF _ hfj) (by simpa using hn)]
        exact hitsList_fine hX s a _
      · split
        · trivial
        · exact ih hI

theorem selfIntersects_fine (hX : ∀ (s : State) a b, Fine B (s.intersect a b)) (changed : Changed) (h : InvE I m (· ∈ changed.map (·.1)) s) :
    Fine B (selfIntersects I m s changed) := by
  unfold selfIntersects
  refine (hitsEachOther_fine hX s _).bind fun hit _ => ?_
  split
  · trivial
  · exact hitsOthers_fine hX _ _ h

theorem triangulatePatch_fine (hB : B .runtimeError) (m : Mesh) (s : State) (fi : Nat) : Fine B (triangulatePatch m s fi) := by
  unfold triangulatePatch
  dsimp only
  split
  · trivial
  refine Fine.bind ?_ fun fr _ => ?_
  · unfold frame
    dsimp only
    split
    · exact hB
    · trivial
  · have hnb : (Triangulation.Input.exact ((boundaryIds s (m.face fi)).map fun v => project fr (s.aq v)) ((s.interior fi).map fun v => project fr (s.aq v))
        (boundaryLabels s (m.face fi))).nb = (boundaryIds s (m.face fi)).length := by simp [Triangulation.Input.exact]
    obtain ⟨r', c1, -, -⟩ := Triangulation.C62_topology (I := Triangulation.Input.exact ((boundaryIds s (m.face fi)).map fun v => project fr (s.aq v))
      ((s.interior fi).map fun v => project fr (s.aq v)) (boundaryLabels s (m.face fi))) (by rw [hnb]; exact boundary_three _ _)
      (Or.inr (by rw [hnb]; exact (labels_length _ _).ge))
    rw [c1]
    trivial

theorem triangulateAll_fine (hB : B .runtimeError) (m : Mesh) (s : State) (fis : List Nat) : Fine B (triangulateAll m s fis) := by
  induction fis with
  | nil => trivial
  | cons fi fis ih =>
      unfold triangulateAll
      refine (triangulatePatch_fine hB m s fi).bind fun r _ => ?_
      obtain ⟨fs, simple⟩ := r
      dsimp only
      split
      · exact ih.bind fun _ _ => trivial
      · trivial

theorem pointsHonoredByStar_ok (hm : MeshOk I m) (h : J I m home s) {v fi : Nat} (hfi : fi < m.nf) (hv : Corner (m.face fi) v) :
    ∃ r, pointsHonoredByStar I m s v = .ok r := by
  have hfaces := facesOfPatches_spec h.inv (m.vertexFaces v) (fun fi hfi => ⟨(hm.mem_vertexFaces.1 hfi).1, not_false⟩)
  unfold pointsHonoredByStar
  rw [hfaces]
  simp only [Outcome.ok_bind]
  have hne : ((m.vertexFaces v).flatMap (cur m s)).filter (fun f => hasRow f v) ≠ [] := by
    obtain ⟨f, hf, hfv⟩ := (h.tri fi hfi).used (mem_boundaryIds.2 (Or.inl hv))
    exact List.ne_nil_of_mem (List.mem_filter.2 ⟨List.mem_flatMap.2 ⟨fi, hm.mem_vertexFaces.2 ⟨hfi, hv⟩, hf⟩, hasRow_iff.2 hfv⟩)
  obtain ⟨b, b1, b2, b3⟩ := boxOf_some s.ap hne
  rw [b1]
  dsimp only
  obtain ⟨g, e1, hI⟩ := h.inv.forEachS b (collectHits (honoredByStar I m s v)) (.ok [])
  rw [e1]
  simp only [Outcome.ok_bind]
  rw [callUntil_collect (fun i => ((m.vertexFaces v).flatMap (cur m s)).any fun f => hasRow f v && honoredBy I s i f) _ _ (fun i _ => by
    unfold honoredByStar; rw [hfaces]; rfl)]
  exact ⟨_, rfl⟩

theorem Inserted.invE {s1 s2 : State} (h : J I m home s1) {i : Nat} (hi : i < np I) {ids : List Nat} (hins : Inserted I m home ids i s1 s2) : InvE I m (· ∈ ids) s2 := by
    have hcur2 : ∀ fi, cur m s2 fi = cur m s1 fi := fun fi => cur_congr (by rw [hins.cached])
    refine ⟨by rw [hins.ap, hins.p]; exact h.inv.ap, by rw [hins.p]; exact h.inv.snap, by rw [hins.p]; exact h.inv.orig,
      fun r hr => by rw [hins.aq r (by omega)]; exact h.inv.anchor r hr, hins.chain, hins.inner, fun fi h1 h2 h3 => ?_,
      by rw [hins.cached]; exact h.inv.rows, ?_, by rw [hins.sgrid]; exact h.inv.sgrid, ?_⟩
    · have := h.inv.plain fi h1 not_false (by rw [← hins.cached]; exact h3)
      obtain ⟨o1, o2⟩ := hins.off fi h1 h2
      unfold Plain at this ⊢
      rw [o1, o2 _ (Or.inl rfl), o2 _ (Or.inr (Or.inl rfl)), o2 _ (Or.inr (Or.inr rfl))]
      exact this
    · obtain ⟨ops, hF, hL⟩ := h.inv.fgrid
      refine ⟨ops, by rw [hins.fgrid]; exact hF, fun fi => ?_⟩
      rw [hcur2, hins.ap]
      exact ⟨fun hfi => ⟨((hL fi).1 hfi).1, fun _ => ((hL fi).1 hfi).2 not_false⟩, (hL fi).2⟩
    · intro fi l h1 _ h3 k
      rw [hins.honored] at h3
      rw [h.inv.honored fi l h1 not_false h3 k, hcur2]
      simp only [fun f => honoredBy_congr I (s := s1) (s' := s2) k f (by rw [hins.ap]) (fun r _ => by rw [hins.ap])]

theorem finish_fine (hr : 0 < I.resolution) {s1 s2 : State} (h : J I m home s1) {i : Nat} (hi : i < np I) (hT : IsLinear I.T)
    {ids : List Nat} (hnd : ids.Nodup) (hids : ∀ fi ∈ ids, fi < m.nf) (hins : Inserted I m home ids i s1 s2) {changed : Changed} {ok : Bool}
    (hok : ok = true → changed.map (·.1) = ids ∧ ∀ c ∈ changed, TriP m s2 c.1 c.2) {prev : List Nat} {back : State → State}
    (hX : ∀ (s : State) a b, Fine B (s.intersect a b)) : Fine B (finish I m s2 ok changed prev back) := by
  unfold finish
  split
  · trivial
  rename_i hcond
  rw [not_or, Bool.not_eq_false, Bool.not_eq_true] at hcond
  obtain ⟨hc1, hc2⟩ := hok hcond.1
  have hE : InvE I m (· ∈ changed.map (·.1)) s2 := by rw [hc1]; exact hins.invE h hi
  refine (selfIntersects_fine hX changed hE).bind fun x e1 => ?_
  obtain ⟨s3, hit⟩ := x
  obtain ⟨hE3, hst, -⟩ := selfIntersects_spec hr hT changed hE e1
  dsimp only
  split
  · trivial
  obtain ⟨s4, e4, hI4, hs4⟩ := commit_spec changed hE3 (fun c hc => by
    have hcid : c.1 ∈ ids := by rw [← hc1]; exact List.mem_map_of_mem hc
    exact ⟨hids _ hcid, by rw [hc1]; exact hcid, (hc2 c hc).ne_nil, fun g hg r hr => (hc2 c hc).rows' hins.chain (hins.inner c.1) hg hr⟩)
    (by rw [hc1]; exact hnd)
  rw [e4]
  simp only [Outcome.ok_bind]
  have hI4' : Inv I m s4 := hI4.weaken (by rintro x ⟨h1, h2⟩; exact absurd h1 h2)
  obtain ⟨s5, dis, e5, -⟩ := collectDishonored_spec hr prev hI4'
  rw [e5]
  trivial

theorem trySnapEdge_fine (hr : 0 < I.resolution) (ht : ∀ i, 0 ≤ I.tol i) (hT : IsLinear I.T) (hm : MeshOk I m) (h : J I m home s) {c : Candidate}
    (hi : c.i < np I) (hfi : c.fi < m.nf) (hhome : home c.i = c.fi) (hfree : Free s c.i) {x : Nat} (hx : x < 3)
    (hX : ∀ (s : State) a b, Fine B (s.intersect a b)) (hB : B .runtimeError) : Fine B (trySnapEdge I m s c x) := by
  unfold trySnapEdge
  split
  · trivial
  rename_i l _
  dsimp only
  split
  · trivial
  generalize hed : edgeOf (corner (m.face c.fi) ((x + 1) % 3)) (corner (m.face c.fi) ((x + 2) % 3)) = ed
  have hside : OnSide m ed c.fi := by rw [← hed]; exact onSide_corner hx
  have hmem : ∀ fi, fi ∈ m.facesOf ed.1 ed.2 ↔ fi < m.nf ∧ OnSide m ed fi := fun fi => by rw [← hed]; exact hm.mem_facesOf
  have hnd := hm.facesOf_nodup ed.1 ed.2
  generalize (if ed.1 ≠ corner (m.face c.fi) ((x + 1) % 3) then at3 l ((x + 1) % 3) / (at3 l ((x + 2) % 3) + at3 l ((x + 1) % 3))
    else at3 l ((x + 2) % 3) / (at3 l ((x + 1) % 3) + at3 l ((x + 2) % 3))) = t
  split
  · trivial
  rename_i htwo
  obtain ⟨s1, prev, e1, hI1, hs1, hprev⟩ := pointsHonoredByPatches_spec hr ht (m.facesOf ed.1 ed.2) h.inv (fun fi hh => ((hmem fi).1 hh).1)
  rw [e1]
  simp only [Outcome.ok_bind]
  have hJ1 : J I m home s1 := h.same hm hI1 hs1
  have hfree1 : Free s1 c.i := by unfold Free; rw [hs1.chains]; exact hfree
  refine (triangulateAll_fine hB m _ _).bind fun x e2 => ?_
  obtain ⟨changed, simple⟩ := x
  have hne1 : ∀ e' : Nat × Nat, e' ≠ ed → upd s1.chains ed (insertChain t c.i (s1.chains ed)) e' = s1.chains e' := fun e' he => if_neg he
  have heq1 : upd s1.chains ed (insertChain t c.i (s1.chains ed)) ed = insertChain t c.i (s1.chains ed) := if_pos rfl
  have hcmem : ∀ e', ∀ y ∈ upd s1.chains ed (insertChain t c.i (s1.chains ed)) e', y ∈ s1.chains e' ∨ (e' = ed ∧ y = (t, c.i)) := fun e' y hy => by
    by_cases he : e' = ed
    · subst he
      rw [heq1, mem_insertChain] at hy
      exact hy.symm.imp id fun hh => ⟨rfl, hh⟩
    · rw [hne1 e' he] at hy
      exact Or.inl hy
  have hrow : ∀ e', ∀ y ∈ s1.chains e', np I ≤ e'.1 ∧ np I ≤ e'.2 := fun e' y hy => hJ1.chains.ends hm hy
  have hedrow : np I ≤ ed.1 ∧ np I ≤ ed.2 := ⟨hm.rows _ hfi _ hside.ends.1, hm.rows _ hfi _ hside.ends.2⟩
  have hins : Inserted I m home (m.facesOf ed.1 ed.2) c.i s1
      { s1 with aq := upd s1.aq c.i (onEdgeAt s1 ed t), chains := upd s1.chains ed (insertChain t c.i (s1.chains ed)) } := by
    refine ⟨rfl, rfl, rfl, rfl, rfl, rfl, fun k hk => if_neg hk, hI1.inner, fun e' y hy => ?_, ⟨fun e' y hy => ?_, fun e' y hy => ?_, fun e' he => ?_, fun e' => ?_,
      fun e' e'' y hy z hz hyz => ?_⟩, fun fi hfi' hn => ⟨rfl, fun e' he => ?_⟩⟩
    · rcases hcmem e' y hy with hh | ⟨-, rfl⟩
      · exact hI1.chain e' y hh
      · exact hi
    · dsimp only
      rcases hcmem e' y hy with hh | ⟨rfl, rfl⟩
      · obtain ⟨u, hu⟩ := hJ1.chains.line e' y hh
        obtain ⟨r1, r2⟩ := hrow e' y hh
        refine ⟨u, ?_⟩
        unfold upd
        rw [if_neg (hfree1 e' y hh), if_neg (by omega), if_neg (by omega)]
        exact hu
      · refine ⟨t, ?_⟩
        unfold upd
        rw [if_pos rfl, if_neg (by omega), if_neg (by omega)]
        rfl
    · rcases hcmem e' y hy with hh | ⟨rfl, rfl⟩
      · exact hJ1.chains.home e' y hh
      · dsimp only
        rw [hhome]
        exact ⟨hfi, hside⟩
    · by_cases he' : e' = ed
      · subst he'; omega
      · dsimp only at he
        rw [hne1 e' he'] at he
        exact hJ1.chains.full e' he
    · dsimp only
      by_cases he' : e' = ed
      · subst he'
        rw [heq1, ((insertChain_perm t c.i (s1.chains e')).map (·.2)).nodup_iff, List.map_cons, List.nodup_cons]
        refine ⟨fun hh => ?_, hJ1.chains.nodup e'⟩
        obtain ⟨y, hy, hy2⟩ := List.mem_map.1 hh
        exact hfree1 e' y hy hy2
      · rw [hne1 e' he']
        exact hJ1.chains.nodup e'
    · rcases hcmem e' y hy with hh | ⟨rfl, rfl⟩ <;> rcases hcmem e'' z hz with hh' | ⟨rfl, rfl⟩
      · exact hJ1.chains.one e' e'' y hh z hh' hyz
      · exact absurd hyz (hfree1 e' y hh)
      · exact absurd hyz.symm (hfree1 e'' z hh')
      · rfl
    · refine hne1 e' ?_
      rintro rfl
      exact hn ((hmem fi).2 ⟨hfi', he⟩)
  have hok : simple = true → changed.map (·.1) = m.facesOf ed.1 ed.2 ∧ ∀ d ∈ changed, TriP m
      { s1 with aq := upd s1.aq c.i (onEdgeAt s1 ed t), chains := upd s1.chains ed (insertChain t c.i (s1.chains ed)) } d.1 d.2 := by
    rintro rfl
    obtain ⟨g1, g2⟩ := triangulateAll_spec _ e2
    exact ⟨g1, fun d hd => triangulatePatch_spec hins.chains.line (g2 d hd) rfl⟩
  exact finish_fine hr hJ1 hi hT hnd (fun fi hh => ((hmem fi).1 hh).1) hins hok hX

theorem trySnapFace_fine (hr : 0 < I.resolution) (ht : ∀ i, 0 ≤ I.tol i) (hT : IsLinear I.T) (hm : MeshOk I m) (h : J I m home s) {c : Candidate}
    (hi : c.i < np I) (hfi : c.fi < m.nf) (hfree : Free s c.i) (hX : ∀ (s : State) a b, Fine B (s.intersect a b)) (hB : B .runtimeError) :
    Fine B (trySnapFace I m s c) := by
  unfold trySnapFace
  obtain ⟨s1, prev, e1, hI1, hs1, hprev⟩ := pointsHonoredByPatches_spec hr ht [c.fi] h.inv (fun fi hh => by rw [List.mem_singleton.1 hh]; exact hfi)
  rw [e1]
  simp only [Outcome.ok_bind]
  have hJ1 : J I m home s1 := h.same hm hI1 hs1
  have hfree1 : Free s1 c.i := by unfold Free; rw [hs1.chains]; exact hfree
  refine (triangulatePatch_fine hB m _ _).bind fun x e2 => ?_
  obtain ⟨fs, simple⟩ := x
  have hins : Inserted I m home [c.fi] c.i s1
      { s1 with aq := upd s1.aq c.i c.aq, interior := upd s1.interior c.fi (s1.interior c.fi ++ [c.i]) } := by
    refine ⟨rfl, rfl, rfl, rfl, rfl, rfl, fun k hk => if_neg hk, fun fi k hk => ?_, hI1.chain, hJ1.chains.transfer hm rfl fun k => ?_,
      fun fi _ hn => ⟨if_neg (by simpa using hn), fun _ _ => rfl⟩⟩
    · dsimp only at hk
      by_cases hf : fi = c.fi
      · subst hf
        rw [show upd s1.interior c.fi (s1.interior c.fi ++ [c.i]) c.fi = _ from if_pos rfl, List.mem_append, List.mem_singleton] at hk
        rcases hk with hk | rfl
        · exact hI1.inner _ k hk
        · exact hi
      · rw [show upd s1.interior c.fi (s1.interior c.fi ++ [c.i]) fi = _ from if_neg hf] at hk
        exact hI1.inner _ k hk
    · by_cases hk : k = c.i
      · subst hk; exact Or.inr ⟨hi, hfree1⟩
      · exact Or.inl (if_neg hk)
  exact finish_fine hr hJ1 hi hT (ids := [c.fi]) (by simp) (fun fi hh => by rw [List.mem_singleton.1 hh]; exact hfi) hins
    (fun hh => ⟨rfl, fun d hd => by
      rw [Bool.and_eq_true] at hh
      rw [List.mem_singleton.1 hd]
      exact triangulatePatch_spec hins.chains.line e2 hh.1⟩) hX

theorem trySnapVertex_fine (hr : 0 < I.resolution) (ht : ∀ i, 0 ≤ I.tol i) (hT : IsLinear I.T) (hm : MeshOk I m) (h : J I m home s) {c : Candidate}
    (hi : c.i < np I) (hfi : c.fi < m.nf) {v : Nat} (hv : Corner (m.face c.fi) v)
    (hX : ∀ s', InvE I m (· ∈ m.vertexFaces v) s' → Fine B (selfIntersects I m s' ((m.vertexFaces v).map fun fi => (fi, cur m s fi)))) :
    Fine B (trySnapVertex I m s c v) := by
  have hvn := hm.rows _ hfi v hv
  have hmem : ∀ fi, fi ∈ m.vertexFaces v ↔ fi < m.nf ∧ Corner (m.face fi) v := fun fi => hm.mem_vertexFaces
  have hnd : (m.vertexFaces v).Nodup := ((C35_reachable_consistent hm.reach).vertexFaces v).1
  unfold trySnapVertex
  obtain ⟨⟨s1, prev⟩, e1⟩ := pointsHonoredByStar_ok hm h hfi hv
  rw [e1]
  simp only [Outcome.ok_bind]
  obtain ⟨hI1, hs1, hprev⟩ := pointsHonoredByStar_spec hr ht h.inv (fun fi hh => ((hmem fi).1 hh).1) e1
  have hup : ∀ r, r ≠ v → upd s1.p v (s1.p c.i) r = s1.p r := fun r hh => if_neg hh
  have huap : ∀ r, r ≠ v → upd s1.ap v (s1.ap c.i) r = s1.ap r := fun r hh => if_neg hh
  have hplain : ∀ fi, fi < m.nf → s1.cached fi = [] → Plain m { s1 with p := upd s1.p v (s1.p c.i), ap := upd s1.ap v (s1.ap c.i) } fi :=
    fun fi h1 h2 => hI1.plain fi h1 not_false h2
  have hoff : ∀ fi, fi < m.nf → fi ∉ m.vertexFaces v → ∀ f ∈ cur m s1 fi, ∀ r, Corner f r → r ≠ v := fun fi h1 h2 f hf r hr hrv => by
    subst hrv
    rcases hI1.curRows h1 hf hr with h3 | h3
    · omega
    · exact h2 ((hmem fi).2 ⟨h1, h3⟩)
  have hcur2 : ∀ fi, cur m { s1 with p := upd s1.p v (s1.p c.i), ap := upd s1.ap v (s1.ap c.i) } fi = cur m s1 fi := fun fi => rfl
  have hhon : ∀ k, k < np I → ∀ f : Face, (∀ r, Corner f r → r ≠ v) →
      honoredBy I { s1 with p := upd s1.p v (s1.p c.i), ap := upd s1.ap v (s1.ap c.i) } k f = honoredBy I s1 k f := fun k hk f hf =>
    honoredBy_congr I k f (huap k (by omega)) fun r hr => huap r (hf r hr)
  have hE : InvE I m (· ∈ m.vertexFaces v) { s1 with p := upd s1.p v (s1.p c.i), ap := upd s1.ap v (s1.ap c.i) } := by
    refine ⟨fun r => ?_, fun r hr => ?_, fun r hr => ?_, hI1.anchor, hI1.chain, hI1.inner, fun fi h1 _ h3 => hplain fi h1 h3, hI1.rows, ?_, hI1.sgrid, ?_⟩
    · by_cases hrv : r = v
      · subst hrv; simp only [upd, if_true]; exact hI1.ap _
      · dsimp only; rw [hup r hrv, huap r hrv]; exact hI1.ap r
    · dsimp only
      rw [hup r (by omega)]
      exact hI1.snap r hr
    · by_cases hrv : r = v
      · subst hrv; simp only [upd, if_true]; exact Or.inr ⟨c.i, hi, hI1.snap _ hi⟩
      · dsimp only; rw [hup r hrv]; exact hI1.orig r hr
    · obtain ⟨ops, hF, hL⟩ := hI1.fgrid
      refine ⟨ops, hF, fun fi => ⟨fun h1 => ⟨((hL fi).1 h1).1, fun h2 => ?_⟩, (hL fi).2⟩⟩
      rw [((hL fi).1 h1).2 not_false]
      exact (boxOf_congr fun g hg r hr => huap r (hoff fi h1 h2 g hg r hr)).symm
    · intro fi l h1 h2 h3 k
      rw [hI1.honored fi l h1 not_false h3 k, hcur2]
      constructor
      · rintro ⟨h4, f, h5, h6⟩
        exact ⟨h4, f, h5, by rw [hhon k h4 f (hoff fi h1 h2 f h5)]; exact h6⟩
      · rintro ⟨h4, f, h5, h6⟩
        exact ⟨h4, f, h5, by rw [hhon k h4 f (hoff fi h1 h2 f h5)] at h6; exact h6⟩
  rw [patchesAt_spec (s := { s1 with p := upd s1.p v (s1.p c.i), ap := upd s1.ap v (s1.ap c.i) }) (m.vertexFaces v) (fun fi hh => ⟨((hmem fi).1 hh).1, hplain fi ((hmem fi).1 hh).1⟩)]
  simp only [Outcome.ok_bind, hcur2]
  have hids : ((m.vertexFaces v).map fun fi => (fi, cur m s1 fi)).map (·.1) = m.vertexFaces v := by
    rw [List.map_map]; exact List.map_id _
  split
  · trivial
  have hX' := hX _ hE
  simp only [← hs1.cur] at hX'
  refine hX'.bind fun x e3 => ?_
  obtain ⟨s3, hit⟩ := x
  obtain ⟨hE3, hst, -⟩ := selfIntersects_spec hr hT _ (by rw [hids]; exact hE) e3
  dsimp only
  split
  · trivial
  rw [hids] at hE3
  obtain ⟨s4, e5, hI4, hs4⟩ := reindexAll_spec (m.vertexFaces v) hE3 (fun fi hh => ⟨((hmem fi).1 hh).1, fun hc => by
    rw [hst.same.cached] at hc
    have := hplain fi ((hmem fi).1 hh).1 hc
    unfold Plain at this ⊢
    rw [hst.same.interior, hst.same.chains]
    exact this⟩)
  rw [e5]
  simp only [Outcome.ok_bind]
  have hI4' : Inv I m s4 := hI4.weaken (by rintro x ⟨h1, h2⟩; exact absurd h1 h2)
  obtain ⟨s5, dis, e6, -⟩ := collectDishonored_spec hr prev hI4'
  rw [e6]
  trivial

theorem satisfiedAcross_ok (hm : MeshOk I m) (h : Inv I m s) {c : Candidate} (hfi : c.fi < m.nf) (ks : List Nat) (hk : ∀ k ∈ ks, k < 4) :
    ∃ b, satisfiedAcross I m s c ks = .ok b := by
  induction ks with
  | nil => exact ⟨_, rfl⟩
  | cons k ks ih =>
      obtain ⟨b, hb⟩ := ih fun k hk' => hk k (by simp [hk'])
      have hk := hk k (by simp)
      unfold satisfiedAcross
      have e : m.opposite (4 * c.fi + k) = .ok (m.opp (4 * c.fi + k)) := if_pos (by omega)
      rw [e]
      simp only [Outcome.ok_bind]
      rcases ho : m.opp (4 * c.fi + k) with _ | o
      · exact ⟨b, hb⟩
      · dsimp only
        have ho' : o / 4 < m.nf := by
          have := (C35_opposite_mutual hm.reach (4 * c.fi + k) o).1 (by rw [e, ho])
          unfold Mesh.opposite at this
          split at this
          · omega
          · cases this
        rw [h.honoredByPatch ho' not_false]
        simp only [Outcome.ok_bind]
        split
        · exact ⟨_, rfl⟩
        · exact ⟨b, hb⟩

theorem alreadySatisfied_ok (hm : MeshOk I m) (h : Inv I m s) {c : Candidate} (hfi : c.fi < m.nf) : ∃ b, alreadySatisfied I m s c = .ok b := by
  unfold alreadySatisfied
  rw [h.honoredByPatch hfi not_false]
  simp only [Outcome.ok_bind]
  split
  · exact ⟨_, rfl⟩
  · exact satisfiedAcross_ok hm h hfi _ (by simp)

theorem corner_corner {f : Face} {x : Nat} (hx : x ≤ 2) : Corner f (corner f x) := by
  unfold Corner
  rcases lt3 (show x < 3 by omega) with rfl | rfl | rfl <;> simp [AbstractMesh.corner]

/-- When moving a vertex succeeds. -/
theorem trySnapVertex_places (hr : 0 < I.resolution) (ht : ∀ i, 0 ≤ I.tol i) (hT : IsLinear I.T) (hm : MeshOk I m) (h : J I m home s) {c : Candidate}
    (hi : c.i < np I) (hfi : c.fi < m.nf) {v : Nat} (hv : Corner (m.face c.fi) v)
    (hX : ∀ s', InvE I m (· ∈ m.vertexFaces v) s' → s'.ap = upd s.ap v (s.ap c.i) → s'.aq = s.aq → 
      folded m s' ((m.vertexFaces v).map fun fi => (fi, cur m s fi)) = false ∧ ∃ s'', selfIntersects I m s' ((m.vertexFaces v).map fun fi => (fi, cur m s fi)) = .ok (s'', false)) :
    ∃ r, trySnapVertex I m s c v = .ok r ∧ r.2.1 = true := by
  have hvn := hm.rows _ hfi v hv
  have hmem : ∀ fi, fi ∈ m.vertexFaces v ↔ fi < m.nf ∧ Corner (m.face fi) v := fun fi => hm.mem_vertexFaces
  have hnd : (m.vertexFaces v).Nodup := ((C35_reachable_consistent hm.reach).vertexFaces v).1
  unfold trySnapVertex
  obtain ⟨⟨s1, prev⟩, e1⟩ := pointsHonoredByStar_ok hm h hfi hv
  rw [e1]
  simp only [Outcome.ok_bind]
  obtain ⟨hI1, hs1, hprev⟩ := pointsHonoredByStar_spec hr ht h.inv (fun fi hh => ((hmem fi).1 hh).1) e1
  have hup : ∀ r, r ≠ v → upd s1.p v (s1.p c.i) r = s1.p r := fun r hh => if_neg hh
  have huap : ∀ r, r ≠ v → upd s1.ap v (s1.ap c.i) r = s1.ap r := fun r hh => if_neg hh
  have hplain : ∀ fi, fi < m.nf → s1.cached fi = [] → Plain m { s1 with p := upd s1.p v (s1.p c.i), ap := upd s1.ap v (s1.ap c.i) } fi :=
    fun fi h1 h2 => hI1.plain fi h1 not_false h2
  have hoff : ∀ fi, fi < m.nf → fi ∉ m.vertexFaces v → ∀ f ∈ cur m s1 fi, ∀ r, Corner f r → r ≠ v := fun fi h1 h2 f hf r hr hrv => by
    subst hrv
    rcases hI1.curRows h1 hf hr with h3 | h3
    · omega
    · exact h2 ((hmem fi).2 ⟨h1, h3⟩)
  have hcur2 : ∀ fi, cur m { s1 with p := upd s1.p v (s1.p c.i), ap := upd s1.ap v (s1.ap c.i) } fi = cur m s1 fi := fun fi => rfl
  have hhon : ∀ k, k < np I → ∀ f : Face, (∀ r, Corner f r → r ≠ v) →
      honoredBy I { s1 with p := upd s1.p v (s1.p c.i), ap := upd s1.ap v (s1.ap c.i) } k f = honoredBy I s1 k f := fun k hk f hf =>
    honoredBy_congr I k f (huap k (by omega)) fun r hr => huap r (hf r hr)
  have hE : InvE I m (· ∈ m.vertexFaces v) { s1 with p := upd s1.p v (s1.p c.i), ap := upd s1.ap v (s1.ap c.i) } := by
    refine ⟨fun r => ?_, fun r hr => ?_, fun r hr => ?_, hI1.anchor, hI1.chain, hI1.inner, fun fi h1 _ h3 => hplain fi h1 h3, hI1.rows, ?_, hI1.sgrid, ?_⟩
    · by_cases hrv : r = v
      · subst hrv; simp only [upd, if_true]; exact hI1.ap _
      · dsimp only; rw [hup r hrv, huap r hrv]; exact hI1.ap r
    · dsimp only
      rw [hup r (by omega)]
      exact hI1.snap r hr
    · by_cases hrv : r = v
      · subst hrv; simp only [upd, if_true]; exact Or.inr ⟨c.i, hi, hI1.snap _ hi⟩
      · dsimp only; rw [hup r hrv]; exact hI1.orig r hr
    · obtain ⟨ops, hF, hL⟩ := hI1.fgrid
      refine ⟨ops, hF, fun fi => ⟨fun h1 => ⟨((hL fi).1 h1).1, fun h2 => ?_⟩, (hL fi).2⟩⟩
      rw [((hL fi).1 h1).2 not_false]
      exact (boxOf_congr fun g hg r hr => huap r (hoff fi h1 h2 g hg r hr)).symm
    · intro fi l h1 h2 h3 k
      rw [hI1.honored fi l h1 not_false h3 k, hcur2]
      constructor
      · rintro ⟨h4, f, h5, h6⟩
        exact ⟨h4, f, h5, by rw [hhon k h4 f (hoff fi h1 h2 f h5)]; exact h6⟩
      · rintro ⟨h4, f, h5, h6⟩
        exact ⟨h4, f, h5, by rw [hhon k h4 f (hoff fi h1 h2 f h5)] at h6; exact h6⟩
  rw [patchesAt_spec (s := { s1 with p := upd s1.p v (s1.p c.i), ap := upd s1.ap v (s1.ap c.i) }) (m.vertexFaces v) (fun fi hh => ⟨((hmem fi).1 hh).1, hplain fi ((hmem fi).1 hh).1⟩)]
  simp only [Outcome.ok_bind, hcur2]
  have hids : ((m.vertexFaces v).map fun fi => (fi, cur m s1 fi)).map (·.1) = m.vertexFaces v := by
    rw [List.map_map]; exact List.map_id _
  have hX' := hX _ hE (by dsimp only; rw [hs1.ap]) (by dsimp only; rw [hs1.aq])
  simp only [← hs1.cur] at hX'
  obtain ⟨hf, s3, e3⟩ := hX'
  rw [hf, e3]
  obtain ⟨hE3, hst, -⟩ := selfIntersects_spec hr hT _ (by rw [hids]; exact hE) e3
  simp only [Bool.false_eq_true, if_false, Outcome.ok_bind]
  rw [hids] at hE3
  obtain ⟨s4, e5, hI4, hs4⟩ := reindexAll_spec (m.vertexFaces v) hE3 (fun fi hh => ⟨((hmem fi).1 hh).1, fun hc => by
    rw [hst.same.cached] at hc
    have := hplain fi ((hmem fi).1 hh).1 hc
    unfold Plain at this ⊢
    rw [hst.same.interior, hst.same.chains]
    exact this⟩)
  rw [e5]
  simp only [Outcome.ok_bind]
  have hI4' : Inv I m s4 := hI4.weaken (by rintro x ⟨h1, h2⟩; exact absurd h1 h2)
  obtain ⟨s5, dis, e6, -⟩ := collectDishonored_spec hr prev hI4'
  rw [e6]
  exact ⟨_, rfl, rfl⟩

theorem satisfied_honors (h : Inv I m s) (hm : MeshOk I m) {c : Candidate} (hfi : c.fi < m.nf) (e : alreadySatisfied I m s c = .ok true) : MeshHonors I m s c.i := by
  have key : ∀ fi, fi < m.nf → ((cur m s fi).any fun f => honoredBy I s c.i f) = true → MeshHonors I m s c.i := fun fi h1 h2 => by
    obtain ⟨f, h3, h4⟩ := List.any_eq_true.1 h2
    exact ⟨fi, f, h1, h3, h4⟩
  have hac : ∀ ks, satisfiedAcross I m s c ks = .ok true → MeshHonors I m s c.i := fun ks => by
    induction ks with
    | nil => intro e; cases e
    | cons k ks ih =>
        intro e
        unfold satisfiedAcross at e
        obtain ⟨o, e1, e2⟩ := Outcome.bind_eq_ok.1 e
        rcases o with _ | o
        · exact ih e2
        · dsimp only at e2
          have ho' : o / 4 < m.nf := by
            have := (C35_opposite_mutual hm.reach (4 * c.fi + k) o).1 e1
            unfold Mesh.opposite at this
            split at this
            · omega
            · cases this
          rw [h.honoredByPatch ho' not_false] at e2
          simp only [Outcome.ok_bind] at e2
          split at e2
          · rename_i hh
            exact key _ ho' hh
          · exact ih e2
  unfold alreadySatisfied at e
  rw [h.honoredByPatch hfi not_false] at e
  simp only [Outcome.ok_bind] at e
  split at e
  · rename_i hh
    exact key _ hfi hh
  · exact hac _ e

section
variable (hr : 0 < I.resolution) (ht : ∀ i, 0 ≤ I.tol i) (hT : IsLinear I.T) (hm : MeshOk I m) (hX : ∀ (s : State) a b, Fine B (s.intersect a b)) (hB : B .runtimeError)
include hr ht hT hm hX hB

omit hB in
theorem vertex_fine (h : J I m home s) {c : Candidate} (hc : CandOk I m home c) {x : Nat} (hx : x ≤ 2) :
    Fine B (trySnapVertex I m s c (corner (m.face c.fi) x)) := by
  refine trySnapVertex_fine hr ht hT hm h hc.i hc.fi (corner_corner hx) fun s' hs' => selfIntersects_fine hX _ ?_
  have hids : ((m.vertexFaces (corner (m.face c.fi) x)).map fun fi => (fi, cur m s fi)).map (·.1) = m.vertexFaces (corner (m.face c.fi) x) := by
    rw [List.map_map]; exact List.map_id _
  rw [hids]
  exact hs'

theorem trySnap_fine (h : J I m home s) {c : Candidate} (hc : CandOk I m home c) (hfree : Free s c.i) (x : Nat) : Fine B (trySnap I m s c x) := by
  unfold trySnap
  split
  · rename_i hx
    exact vertex_fine hr ht hT hm hX h hc hx
  · split
    · exact trySnapEdge_fine hr ht hT hm h hc.i hc.fi hc.home hfree (by omega) hX hB
    · exact trySnapFace_fine hr ht hT hm h hc.i hc.fi hfree hX hB

theorem cascade_fine {c : Candidate} (hc : CandOk I m home c) (xs : List Nat) : ∀ {s : State}, J I m home s → Free s c.i → Fine B (cascade I m c xs s) := by
  induction xs with
  | nil => intro s _ _; trivial
  | cons x xs ih =>
      intro s h hfree
      unfold cascade
      refine (trySnap_fine hr ht hT hm hX hB h hc hfree x).bind fun y e1 => ?_
      obtain ⟨s1, ok, dis⟩ := y
      have ht1 := trySnap_spec hr ht hT hm h hc hfree e1
      cases ok with
      | true => trivial
      | false => exact ih ht1.j (by unfold Free; rw [(ht1.kept rfl).2.2.2.1]; exact hfree)

omit hB in
theorem tryMoveNearbyVertex_fine (h : J I m home s) {c : Candidate} (hc : CandOk I m home c) : Fine B (tryMoveNearbyVertex I m s c) := by
  unfold tryMoveNearbyVertex
  split
  · trivial
  split
  · trivial
  rename_i x hx
  have hx2 : x ≤ 2 := by simpa using List.find?_some hx
  dsimp only
  split
  · exact vertex_fine hr ht hT hm hX h hc hx2
  · trivial

theorem place_fine (h : J I m home s) {c : Candidate} (hc : CandOk I m home c) : Fine B (place I m s c) := by
  unfold place
  refine (tryMoveNearbyVertex_fine hr ht hT hm hX h hc).bind fun y e1 => ?_
  obtain ⟨s1, ok, dis⟩ := y
  have h1 := tryMoveNearbyVertex_spec hr ht hT hm h hc e1
  cases ok with
  | true => trivial
  | false =>
      simp only [Bool.false_eq_true, if_false]
      obtain ⟨sat, e3⟩ := alreadySatisfied_ok hm h1.j.inv hc.fi
      rw [e3]
      simp only [Outcome.ok_bind]
      cases sat with
      | true => trivial
      | false => exact cascade_fine hr ht hT hm hX hB hc c.order h1.j (free_of_unsatisfied h1.j hc e3)

end

/-- The loop, given what a round does. -/
theorem loop_fine (K : State → Prop) {cs : List Candidate} (hp : ∀ s c, c ∈ cs → K s → Fine B (place I m s c) ∧ ∀ r, place I m s c = .ok r → K r.1) :
    ∀ (n : Nat) {s : State} (q : List Nat) (b : Nat → Nat), K s → (∀ ci ∈ q, ci < cs.length) → ∀ o, loop I m cs n s q b = some o → Fine B o ∧ ∀ s', o = .ok s' → K s' := by
  intro n
  induction n with
  | zero => intro s q b _ _ o e; cases e
  | succ n ih =>
      intro s q b h hq o e
      cases q with
      | nil =>
          unfold loop at e
          cases e
          exact ⟨trivial, fun s' e => by cases e; exact h⟩
      | cons ci q =>
          unfold loop at e
          have hci := hq ci (by simp)
          rw [List.getElem?_eq_getElem hci] at e
          dsimp only at e
          obtain ⟨h1, h2⟩ := hp s _ (List.getElem_mem hci) h
          split at e
          · rename_i r s1 ok dis e1
            exact ih _ _ (h2 _ e1) (requeues_valid cs dis (q, b) fun x hx => hq x (by simp [hx])) o e
          · rename_i er e1
            cases e
            rw [e1] at h1
            exact ⟨h1, fun s' e => by cases e⟩
          · rename_i e1
            rw [e1] at h1
            exact h1.elim

theorem start_valid (cs : List Candidate) (l : List Nat) : ∀ q : List Nat, (∀ ci ∈ q, ci < cs.length) → (∀ ci ∈ l, ci < cs.length) →
    ∀ ci ∈ l.foldl (fun q ci => push cs ci q) q, ci < cs.length := by
  induction l with
  | nil => intro q h _; exact h
  | cons x l ih =>
      intro q h hl
      rw [List.foldl_cons]
      refine ih _ (fun ci hci => ?_) fun ci hci => hl ci (by simp [hci])
      rcases List.mem_cons.1 ((push_perm cs x q).mem_iff.1 hci) with rfl | hci
      · exact hl _ (by simp)
      · exact h ci hci

/-- The whole, given what a round does. -/
theorem snap_fine (hI : Spec.Valid I) (S : Sorts) (hS : ∀ l, (S.candidates l).Perm l) (K : Mesh → State → Prop)
    (hK : ∀ m s, (∀ fi, s.cached fi = []) → K m s)
    (hp : ∀ m home, MeshOk I m → m.nf = I.faces.length → (∀ i f, I.faces[i]? = some f → m.face i = shift I f) → ∀ s c, CandSpec I S m c → CandOk I m home c → J I m home s → K m s →
      Fine B (place I m s c) ∧ ∀ r, place I m s c = .ok r → K m r.1) {fuel : Nat} {o : Outcome Result} (e : snapMesh I S fuel = some o) : Fine B o := by
  unfold snapMesh at e
  split at e
  · cases e; trivial
  obtain ⟨m, home, s, cs, k, h1, hm, hnf, hface, h2, h3, -, h5, h6, h7, h8, h9⟩ := prepared hI S hS
  unfold build at e
  rw [h1] at e
  dsimp only at e
  have htol : ¬ (I.tolerances.length ≠ 0 ∧ I.tolerances.length ≠ np I) := by
    rintro ⟨t1, t2⟩
    rcases hI.tolerances with h | h
    · exact t1 (by rw [h]; rfl)
    · exact t2 h
  rw [if_neg htol, h2] at e
  dsimp only at e
  have hl := loop_fine (I := I) (m := m) (B := B) (fun s => J I m home s ∧ K m s) (cs := S.candidates cs) (fun s c hc hh =>
      ⟨(hp m home hm hnf hface s c (h6 c hc).1 (h6 c hc).2 hh.1 hh.2).1, fun r er =>
        ⟨(place_spec hI.resolution (tol_nonneg hI.nonneg) hI.transform hm hh.1 (h6 c hc).2 er).j, (hp m home hm hnf hface s c (h6 c hc).1 (h6 c hc).2 hh.1 hh.2).2 r er⟩⟩)
      fuel ((List.range (S.candidates cs).length).foldl (fun q ci => push (S.candidates cs) ci q) []) (fun _ => kSnapBudget) ⟨h3, hK m s h5⟩
      (start_valid _ _ _ (by simp) fun ci hci => List.mem_range.1 hci)
  split at e
  · cases e
  · rename_i er hx
    cases e
    exact (hl _ hx).1
  · rename_i hx
    exact (hl _ hx).1.elim
  · rename_i s1 hx
    obtain ⟨r', s2, row, e2, -⟩ := conclude_spec hI.resolution (cs := S.candidates cs) k ((hl _ hx).2 s1 rfl).1.inv
    rw [e2] at e
    cases e
    trivial

end Verif.Snapper
