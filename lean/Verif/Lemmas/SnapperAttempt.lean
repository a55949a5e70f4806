import Verif.Lemmas.SnapperTry

/-! # Lemmas: an attempt -/

namespace Verif.Snapper

open Verif Verif.AbstractMesh Verif.SpatialGrid Verif.SpatialGrid.Spec Verif.ClosestPoint Verif.Predicates
open Verif.MeshDefects hiding Face corner
open Verif.Thinner (Input toE E3 dotP crossP stopAtHit ballBox snapGrid)
open Verif.Triangulation.Spec (Triangulates PolyEdge Uses ShareLabel polyArea2 pt)

variable {I : Input} {m : Mesh} {s s' : State} {home : Nat → Nat}

/-- What an attempt to place the point `i` does. -/
structure Tried (I : Input) (m : Mesh) (home : Nat → Nat) (s : State) (i : Nat) (r : State × Bool × List Nat) : Prop where
  j : J I m home r.1
  /-- nothing is changed by an attempt that fails -/
  kept : r.2.1 = false → r.1.p = s.p ∧ r.1.interior = s.interior ∧ r.1.cached = s.cached ∧ r.1.chains = s.chains ∧ (∀ k, k ≠ i → r.1.aq k = s.aq k) ∧ r.2.2 = []
  placed : r.2.1 = true → ∃ fi f v, fi < m.nf ∧ f ∈ cur m r.1 fi ∧ Corner f v ∧ r.1.p v = p0 I i
  dis : ∀ k, k ∈ r.2.2 ↔ k < np I ∧ MeshHonors I m s k ∧ ¬ MeshHonors I m r.1 k

theorem meshHonors_congr (hap : s'.ap = s.ap) (hca : s'.cached = s.cached) (k : Nat) : MeshHonors I m s' k ↔ MeshHonors I m s k := by
  unfold MeshHonors
  have hcur : ∀ fi, cur m s' fi = cur m s fi := fun fi => cur_congr (by rw [hca])
  simp only [hcur, fun f => honoredBy_congr I (s := s) (s' := s') k f (by rw [hap]) (fun r _ => by rw [hap])]

/-- An attempt that fails. -/
theorem tried_failed (hm : MeshOk I m) (h : J I m home s) {i : Nat} (hi : i < np I) (hI : Inv I m s') (hp : s'.p = s.p) (hin : s'.interior = s.interior)
    (hca : s'.cached = s.cached) (hc : s'.chains = s.chains) (haq : ∀ k, k ≠ i → s'.aq k = s.aq k) (hfree : s'.aq i = s.aq i ∨ Free s i) :
    Tried I m home s i (s', false, []) := by
  refine ⟨h.transfer hm hI hp hin hca hc fun r => ?_, fun _ => ⟨hp, hin, hca, hc, haq, rfl⟩, fun hh => by simp at hh, fun k => ?_⟩
  · by_cases e : r = i
    · subst e
      exact hfree.imp id fun hf => ⟨hi, hf⟩
    · exact Or.inl (haq r e)
  · have hap : s'.ap = s.ap := by funext r; rw [hI.ap, h.inv.ap, hp]
    simp only [List.not_mem_nil, false_iff, not_and, not_not]
    intro _ hk
    exact (meshHonors_congr hap hca k).2 hk

/-- After undoing an insertion. -/
theorem inv_restored (h : Inv I m s) {i : Nat} (hi : i < np I) (hp : s'.p = s.p) (hap : s'.ap = s.ap) (hin : s'.interior = s.interior)
    (hca : s'.cached = s.cached) (hc : s'.chains = s.chains) (haq : ∀ k, k ≠ i → s'.aq k = s.aq k) (hsg : s'.sgrid = s.sgrid) (hho : s'.honored = s.honored)
    (hfg : ∀ ops, FInv I.cellOf s.fgrid ops → FInv I.cellOf s'.fgrid ops) : Inv I m s' := by
  have hcur : ∀ fi, cur m s' fi = cur m s fi := fun fi => cur_congr (by rw [hca])
  refine ⟨by rw [hap, hp]; exact h.ap, by rw [hp]; exact h.snap, by rw [hp]; exact h.orig, fun r hr => by rw [haq r (by omega)]; exact h.anchor r hr,
    by rw [hc]; exact h.chain, by rw [hin]; exact h.inner, fun fi h1 h2 h3 => ?_, by rw [hca]; exact h.rows, ?_, by rw [hsg]; exact h.sgrid, ?_⟩
  · have := h.plain fi h1 h2 (by rw [← hca]; exact h3)
    unfold Plain at this ⊢
    rw [hin, hc]; exact this
  · obtain ⟨ops, hF, hL⟩ := h.fgrid
    refine ⟨ops, hfg ops hF, fun fi => ?_⟩
    rw [hcur, hap]
    exact hL fi
  · intro fi l h1 h2 h3 k
    rw [hho] at h3
    rw [h.honored fi l h1 h2 h3 k, hcur]
    simp only [fun f => honoredBy_congr I (s := s) (s' := s') k f (by rw [hap]) (fun r _ => by rw [hap])]

theorem stored_off (changed : Changed) : ∀ (c : Nat → List Face) {fi : Nat}, fi ∉ changed.map (·.1) → stored changed c fi = c fi := by
  induction changed with
  | nil => intro c fi _; rfl
  | cons x changed ih =>
      intro c fi h
      rw [List.map_cons, List.mem_cons, not_or] at h
      show stored changed (upd c x.1 x.2) fi = c fi
      rw [ih _ h.2]
      unfold upd
      rw [if_neg h.1]

theorem stored_on (changed : Changed) : ∀ (c : Nat → List Face), (changed.map (·.1)).Nodup → ∀ x ∈ changed, stored changed c x.1 = x.2 := by
  induction changed with
  | nil => intro c _ x hx; cases hx
  | cons y changed ih =>
      intro c h x hx
      rw [List.map_cons, List.nodup_cons] at h
      show stored changed (upd c y.1 y.2) x.1 = x.2
      rcases List.mem_cons.1 hx with rfl | hx
      · rw [stored_off _ _ h.1]
        unfold upd
        rw [if_pos rfl]
      · exact ih _ h.2 x hx

theorem folded_false {changed : Changed} (h : folded m s changed = false) : ∀ c ∈ changed, ∀ g ∈ c.2,
    0 ≤ dotP (crossP (s.ap g.2.1 - s.ap g.1) (s.ap g.2.2 - s.ap g.1))
      (crossP (s.aq (m.face c.1).2.1 - s.aq (m.face c.1).1) (s.aq (m.face c.1).2.2 - s.aq (m.face c.1).1)) := by
  intro c hc g hg
  unfold folded at h
  rw [List.any_eq_false] at h
  have h1 := h c hc
  rw [Bool.not_eq_true, List.any_eq_false] at h1
  have h2 := h1 g hg
  simpa using h2

/-- The insertion of a point, before it is accepted. -/
structure Inserted (I : Input) (m : Mesh) (home : Nat → Nat) (ids : List Nat) (i : Nat) (s1 s2 : State) : Prop where
  p : s2.p = s1.p
  ap : s2.ap = s1.ap
  cached : s2.cached = s1.cached
  sgrid : s2.sgrid = s1.sgrid
  fgrid : s2.fgrid = s1.fgrid
  honored : s2.honored = s1.honored
  aq : ∀ r, r ≠ i → s2.aq r = s1.aq r
  inner : ∀ fi, ∀ r ∈ s2.interior fi, r < np I
  chain : ∀ e, ∀ x ∈ s2.chains e, x.2 < np I
  chains : Chains m home s2
  off : ∀ fi, fi < m.nf → fi ∉ ids → s2.interior fi = s1.interior fi ∧ ∀ e, OnSide m e fi → s2.chains e = s1.chains e

theorem finish_spec (hr : 0 < I.resolution) (hT : IsLinear I.T) (hm : MeshOk I m) {s1 s2 : State} (h : J I m home s1) {i : Nat} (hi : i < np I)
    (hfree : Free s1 i) {ids : List Nat} (hnd : ids.Nodup) (hids : ∀ fi ∈ ids, fi < m.nf) (hins : Inserted I m home ids i s1 s2) {changed : Changed} {ok : Bool}
    (hok : ok = true → changed.map (·.1) = ids ∧ ∀ c ∈ changed, TriP m s2 c.1 c.2) {prev : List Nat}
    (hprev : ∀ k, k ∈ prev ↔ k < np I ∧ ∃ fi ∈ ids, ∃ f ∈ cur m s1 fi, honoredBy I s1 k f = true) {back : State → State}
    (hback : ∀ s : State, s.interior = s2.interior → s.chains = s2.chains → back s = { s with interior := s1.interior, chains := s1.chains })
    (hplace : ok = true → ∃ c ∈ changed, ∃ f ∈ c.2, Corner f i) {r : State × Bool × List Nat} (e : finish I m s2 ok changed prev back = .ok r) :
    Tried I m home s1 i r := by
  have hrest : ∀ s, Stamped I s2 s → Tried I m home s1 i (back s, false, []) := by
    intro s hs
    rw [hback s hs.same.interior hs.same.chains]
    have haq : ∀ k, k ≠ i → s.aq k = s1.aq k := fun k hk => by rw [hs.same.aq]; exact hins.aq k hk
    refine tried_failed hm h hi ?_ (hs.same.p.trans hins.p) rfl (hs.same.cached.trans hins.cached) rfl haq (Or.inr hfree)
    exact inv_restored h.inv hi (hs.same.p.trans hins.p) (hs.same.ap.trans hins.ap) rfl (hs.same.cached.trans hins.cached) rfl haq
      (hs.sgrid.trans hins.sgrid) (hs.honored.trans hins.honored) (fun ops hF => hs.fgrid ops (by rw [hins.fgrid]; exact hF))
  unfold finish at e
  split at e
  · simp only [Outcome.ok.injEq] at e
    subst e
    exact hrest s2 (Stamped.refl I s2)
  rename_i hcond
  rw [not_or, Bool.not_eq_false, Bool.not_eq_true] at hcond
  obtain ⟨hk, hfold⟩ := hcond
  obtain ⟨hc1, hc2⟩ := hok hk
  have hcur2 : ∀ fi, cur m s2 fi = cur m s1 fi := fun fi => cur_congr (by rw [hins.cached])
  have hE : InvE I m (· ∈ changed.map (·.1)) s2 := by
    rw [hc1]
    refine ⟨by rw [hins.ap, hins.p]; exact h.inv.ap, by rw [hins.p]; exact h.inv.snap, by rw [hins.p]; exact h.inv.orig,
      fun r hr => by rw [hins.aq r (by omega)]; exact h.inv.anchor r hr, hins.chain, hins.inner, fun fi h1 h2 h3 => ?_,
      by rw [hins.cached]; exact h.inv.rows, ?_, by rw [hins.sgrid]; exact h.inv.sgrid, ?_⟩
    · have := h.inv.plain fi h1 not_false (by rw [← hins.cached]; exact h3)
      obtain ⟨o1, o2⟩ := hins.off fi h1 h2
      unfold Plain at this ⊢
      rw [o1, o2 _ (Or.inl rfl), o2 _ (Or.inr (Or.inl rfl)), o2 _ (Or.inr (Or.inr rfl))]
      exact this
    · obtain ⟨ops, hF, hL⟩ := h.inv.fgrid
      refine ⟨ops, by rw [hins.fgrid]; exact hF, fun fi => ?_⟩
      rw [hcur2, hins.ap]
      exact ⟨fun hfi => ⟨((hL fi).1 hfi).1, fun _ => ((hL fi).1 hfi).2 not_false⟩, (hL fi).2⟩
    · intro fi l h1 _ h3 k
      rw [hins.honored] at h3
      rw [h.inv.honored fi l h1 not_false h3 k, hcur2]
      simp only [fun f => honoredBy_congr I (s := s1) (s' := s2) k f (by rw [hins.ap]) (fun r _ => by rw [hins.ap])]
  obtain ⟨⟨s3, hit⟩, e1, e2⟩ := Outcome.bind_eq_ok.1 e
  obtain ⟨hE3, hst, hnc⟩ := selfIntersects_spec hr hT changed hE e1
  cases hit with
  | true =>
      simp only [if_true, Outcome.ok.injEq] at e2
      subst e2
      exact hrest s3 hst
  | false =>
  simp only [Bool.false_eq_true, if_false] at e2
  obtain ⟨hnc1, hnc2⟩ := hnc rfl
  obtain ⟨s4, e4, hI4, hs4⟩ := commit_spec changed hE3 (fun c hc => by
    have hcid : c.1 ∈ ids := by rw [← hc1]; exact List.mem_map_of_mem hc
    exact ⟨hids _ hcid, by rw [hc1]; exact hcid, (hc2 c hc).ne_nil, fun g hg r hr => (hc2 c hc).rows' hins.chain (hins.inner c.1) hg hr⟩)
    (by rw [hc1]; exact hnd)
  rw [e4] at e2
  simp only [Outcome.ok_bind] at e2
  have hI4' : Inv I m s4 := hI4.weaken (by rintro x ⟨h1, h2⟩; exact absurd h1 h2)
  obtain ⟨s5, dis, e5, hI5, hs5, hdis⟩ := collectDishonored_spec hr prev hI4'
  rw [e5] at e2
  simp only [Outcome.ok_bind, Outcome.ok.injEq] at e2
  subst e2
  -- the state after the commit
  have p4 : s4.p = s2.p := hs4.p.trans hst.same.p
  have ap4 : s4.ap = s1.ap := (hs4.ap.trans hst.same.ap).trans hins.ap
  have aq4 : s4.aq = s2.aq := hs4.aq.trans hst.same.aq
  have in4 : s4.interior = s2.interior := hs4.interior.trans hst.same.interior
  have ch4 : s4.chains = s2.chains := hs4.chains.trans hst.same.chains
  have ca4 : s4.cached = stored changed s2.cached := by rw [hs4.cached]; dsimp only; rw [hst.same.cached]
  have tri4 : ∀ f, s4.tri f = s2.tri f := fun f => by unfold State.tri; rw [p4]
  have con : ∀ c ∈ changed, cur m s4 c.1 = c.2 := fun c hc => by
    unfold cur
    rw [ca4, stored_on changed _ (by rw [hc1]; exact hnd) c hc, if_neg (hc2 c hc).ne_nil]
  have coff : ∀ fi, fi ∉ ids → cur m s4 fi = cur m s1 fi := fun fi hfi => by
    rw [← hcur2]
    exact cur_congr (by rw [ca4, stored_off _ _ (by rw [hc1]; exact hfi)])
  have hex : ∀ fi ∈ ids, ∃ c ∈ changed, c.1 = fi := fun fi hfi => by
    rw [← hc1] at hfi
    exact List.mem_map.1 hfi
  have hinj : ∀ c ∈ changed, ∀ d ∈ changed, c.1 = d.1 → c = d := fun c hc d hd hcd => by
    have q1 := stored_on changed s2.cached (by rw [hc1]; exact hnd) c hc
    have q2 := stored_on changed s2.cached (by rw [hc1]; exact hnd) d hd
    rw [hcd, q2] at q1
    exact Prod.ext hcd q1.symm
  obtain ⟨pw1, pw2⟩ := pairwise_flat (fun a b hab => hab.symm) hnc1
  have hJ4 : J I m home s4 := by
    refine ⟨hI4', hins.chains.transfer hm ch4 fun r => Or.inl (by rw [aq4]), fun fi hfi => ?_, noX_of h.noX ids ?_ ?_ ?_ ?_, fun fi hfi f hf => ?_⟩
    · by_cases hid : fi ∈ ids
      · obtain ⟨c, hc, rfl⟩ := hex fi hid
        rw [con c hc]
        exact triP_congr ch4 (by rw [in4]) (hc2 c hc)
      · obtain ⟨o1, o2⟩ := hins.off fi hfi hid
        rw [coff fi hid]
        refine triP_congr' ?_ ?_ ?_ ?_ (h.tri fi hfi)
        · rw [ch4]; exact o2 _ (Or.inl rfl)
        · rw [ch4]; exact o2 _ (Or.inr (Or.inl rfl))
        · rw [ch4]; exact o2 _ (Or.inr (Or.inr rfl))
        · rw [in4]; exact o1
    · intro fi _ hid
      exact ⟨coff fi hid, fun f _ => by rw [tri4]; unfold State.tri; rw [hins.p]⟩
    · intro fi hid
      obtain ⟨c, hc, rfl⟩ := hex fi hid
      rw [con c hc]
      exact (pw1 c hc).imp fun {a b} hab => NC.congr (tri4 a) (tri4 b) hab
    · intro fi hid fj hjd hne f hf g hg
      obtain ⟨c, hc, rfl⟩ := hex fi hid
      obtain ⟨d, hd, rfl⟩ := hex fj hjd
      rw [con c hc] at hf
      rw [con d hd] at hg
      exact NC.congr (tri4 f) (tri4 g) (pw2 c hc d hd (fun hcd => hne (by rw [hcd])) f hf g hg)
    · intro fi hid fj hfj hjd f hf g hg
      obtain ⟨c, hc, rfl⟩ := hex fi hid
      rw [con c hc] at hf
      exact NC.congr (tri4 f) (tri4 g) (hnc2 f (List.mem_flatMap.2 ⟨c, hc, hf⟩) fj hfj (by rw [hc1]; exact hjd) g (by rw [hcur2]; exact hg))
    · by_cases hid : fi ∈ ids
      · obtain ⟨c, hc, rfl⟩ := hex fi hid
        rw [con c hc] at hf
        have := folded_false hfold c hc f hf
        have ha : ∀ r, Corner (m.face c.1) r → s2.aq r = I.T (p0 I r) := fun r hr => by
          have hrow := hm.rows c.1 hfi r hr
          rw [hins.aq r (by omega)]
          exact h.inv.anchor r hrow
        rw [ha _ (Or.inl rfl), ha _ (Or.inr (Or.inl rfl)), ha _ (Or.inr (Or.inr rfl))] at this
        rw [ap4, ← hins.ap]
        exact this
      · rw [coff fi hid] at hf
        rw [ap4]
        exact h.noFold fi hfi f hf
  refine ⟨hJ4.same hm hI5 hs5, fun hh => by simp at hh, fun _ => ?_, fun k => ?_⟩
  · obtain ⟨c, hc, f, hf, hfi⟩ := hplace hk
    refine ⟨c.1, f, i, hids _ (by rw [← hc1]; exact List.mem_map_of_mem hc), ?_, hfi, hI5.snap i hi⟩
    dsimp only
    rw [hs5.cur, con c hc]
    exact hf
  · dsimp only
    rw [hdis k, hprev k, hs5.meshHonors k]
    constructor
    · rintro ⟨⟨h1, fi, hfi, f, hf, hh⟩, h2⟩
      exact ⟨h1, ⟨fi, f, hids fi hfi, hf, hh⟩, h2⟩
    · rintro ⟨h1, ⟨fi, f, hfi, hf, hh⟩, h2⟩
      refine ⟨⟨h1, ?_⟩, h2⟩
      by_cases hid : fi ∈ ids
      · exact ⟨fi, hid, f, hf, hh⟩
      · exfalso
        refine h2 ⟨fi, f, hfi, by rw [coff fi hid]; exact hf, ?_⟩
        rw [honoredBy_congr I (s := s1) (s' := s4) k f (by rw [ap4]) (fun r _ => by rw [ap4])]
        exact hh

end Verif.Snapper
