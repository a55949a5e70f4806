import Verif.Lemmas.SnapperNet

/-! # Lemmas: the whole -/

namespace Verif.Snapper

open Verif Verif.AbstractMesh Verif.SpatialGrid Verif.ClosestPoint Verif.Predicates
open Verif.MeshDefects hiding Face corner
open Verif.Thinner (Input toE E3 dotP crossP stopAtHit ballBox snapGrid)
open Verif.Snapper.Spec (sides net)

variable {I : Input} {m : Mesh} {s s' : State} {home : Nat → Nat}

/-! ### the mesh -/

theorem ofFaces_nf {fs : List Face} {m : Mesh} (h1 : Mesh.ofFaces fs = .ok m) : m.nf = fs.length := by
  unfold Mesh.ofFaces at h1
  have key : ∀ (l : List Nat) (m0 m1 : AbstractMesh.Mesh), Mesh.registerAll l m0 = (m1, .ok ()) → m1.nf = m0.nf := by
    intro l
    induction l with
    | nil => intro m0 m1 h; unfold Mesh.registerAll at h; cases h; rfl
    | cons x l ih =>
        intro m0 m1 h
        unfold Mesh.registerAll at h
        have hsame := registerFace_same m0 x
        rcases e : m0.registerFace x with ⟨m2, _ | _ | _⟩ <;> rw [e] at h hsame <;> dsimp only at h hsame
        · exact (ih m2 m1 h).trans hsame.nf
        · cases h
        · cases h
  rcases e : Mesh.registerAll (List.range fs.length)
    ⟨fs.length, fun i => fs.getD i (0, 0, 0), fs.length, fun _ => false, fun _ => none, fun _ => []⟩ with ⟨m1, _ | _ | _⟩ <;>
    rw [e] at h1 <;> dsimp only at h1
  · cases h1
    exact key _ _ _ e
  · cases h1
  · cases h1

/-- A face of the given mesh with its rows. -/
def shift (I : Input) (f : Face) : Face := (f.1 + np I, f.2.1 + np I, f.2.2 + np I)

theorem shifted_get (I : Input) (i : Nat) : (shifted I)[i]? = (I.faces[i]?).map (shift I) := by
  unfold shifted; rw [List.getElem?_map]; rfl

theorem shift_side {f : Face} {u v : Nat} : Side (shift I f) u v ↔ ∃ a b, u = a + np I ∧ v = b + np I ∧ Side f a b := by
  unfold Side shift
  constructor
  · rintro (⟨h1, h2⟩ | ⟨h1, h2⟩ | ⟨h1, h2⟩)
    · exact ⟨_, _, h1.symm, h2.symm, Or.inl ⟨rfl, rfl⟩⟩
    · exact ⟨_, _, h1.symm, h2.symm, Or.inr (Or.inl ⟨rfl, rfl⟩)⟩
    · exact ⟨_, _, h1.symm, h2.symm, Or.inr (Or.inr ⟨rfl, rfl⟩)⟩
  · rintro ⟨a, b, rfl, rfl, h⟩
    rcases h with ⟨rfl, rfl⟩ | ⟨rfl, rfl⟩ | ⟨rfl, rfl⟩ <;> simp

theorem shift_corner {f : Face} {u : Nat} : Corner (shift I f) u ↔ ∃ a, u = a + np I ∧ Corner f a := by
  unfold Corner shift
  constructor
  · rintro (h | h | h)
    · exact ⟨_, h.symm, Or.inl rfl⟩
    · exact ⟨_, h.symm, Or.inr (Or.inl rfl)⟩
    · exact ⟨_, h.symm, Or.inr (Or.inr rfl)⟩
  · rintro ⟨a, rfl, h⟩
    rcases h with rfl | rfl | rfl <;> simp

theorem shift_nondeg {f : Face} : Nondeg (shift I f) ↔ Nondeg f := by
  unfold Nondeg shift; simp

theorem shifted_manifold : Manifold (fun i => (shifted I)[i]?) ↔ Manifold (fun i => I.faces[i]?) := by
  unfold Manifold
  simp only [shifted_get]
  constructor
  · intro h i j f g a b hi hj s1 s2
    exact h i j (shift I f) (shift I g) (a + np I) (b + np I) (by rw [hi]; rfl) (by rw [hj]; rfl) (shift_side.2 ⟨a, b, rfl, rfl, s1⟩) (shift_side.2 ⟨a, b, rfl, rfl, s2⟩)
  · intro h i j f g u v hi hj s1 s2
    obtain ⟨f0, h1, rfl⟩ := Option.map_eq_some_iff.1 hi
    obtain ⟨g0, h2, rfl⟩ := Option.map_eq_some_iff.1 hj
    obtain ⟨a, b, rfl, rfl, q1⟩ := shift_side.1 s1
    obtain ⟨a', b', e1, e2, q2⟩ := shift_side.1 s2
    have : a = a' := by omega
    have : b = b' := by omega
    subst_vars
    exact h i j f0 g0 _ _ h1 h2 q1 q2

theorem mesh_ok (hc : ∀ f ∈ I.faces, Nondeg f) (hM : Manifold (fun i => I.faces[i]?)) :
    ∃ m, Mesh.ofFaces (shifted I) = .ok m ∧ MeshOk I m ∧ m.nf = I.faces.length ∧ ∀ i f, I.faces[i]? = some f → m.face i = shift I f := by
  have hd : ∀ f ∈ shifted I, Nondeg f := fun f hf => by
    obtain ⟨g, hg, rfl⟩ := List.mem_map.1 hf
    exact shift_nondeg.2 (hc g hg)
  obtain ⟨m, h1, h2, h3⟩ := (C35_construct (shifted I) hd).1 (shifted_manifold.2 hM)
  have hnf : m.nf = I.faces.length := by rw [ofFaces_nf h1]; unfold shifted; rw [List.length_map]
  have hface : ∀ i f, I.faces[i]? = some f → faceAt m i = some (shift I f) ∧ m.face i = shift I f := fun i f hf => by
    have e : faceAt m i = some (shift I f) := by rw [h3, shifted_get, hf]; rfl
    refine ⟨e, ?_⟩
    unfold faceAt at e
    split at e
    · exact Option.some.inj e
    · cases e
  refine ⟨m, h1, ⟨h2, fun fi hfi => ?_, fun fi hfi r hr => ?_⟩, hnf, fun i f hf => (hface i f hf).2⟩
  · rw [hnf] at hfi
    obtain ⟨e1, e2⟩ := hface fi _ (List.getElem?_eq_getElem hfi)
    rw [e1, e2]
  · rw [hnf] at hfi
    rw [(hface fi _ (List.getElem?_eq_getElem hfi)).2] at hr
    obtain ⟨a, rfl, -⟩ := shift_corner.1 hr
    omega

/-! ### counting -/

theorem count_spec (hr : 0 < I.resolution) (cs : List Candidate) (is : List Nat) : ∀ {s : State}, Inv I m s →
    ∃ s' h d, count I m cs is s = .ok (s', h, d) ∧ Inv I m s' ∧ Same s s' ∧
      (open Classical in h = is.countP (fun i => decide ((candidateOf cs i).isSome ∧ MeshHonors I m s i))) ∧
      (open Classical in d = is.countP (fun i => decide ((candidateOf cs i).isSome ∧ ¬ MeshHonors I m s i))) := by
  classical
  induction is with
  | nil => intro s h; exact ⟨s, 0, 0, rfl, h, Same.refl s, rfl, rfl⟩
  | cons i is ih =>
      intro s h
      unfold count
      cases hc : candidateOf cs i with
      | none =>
          obtain ⟨s', x, y, e, h1, h2, h3, h4⟩ := ih h
          refine ⟨s', x, y, e, h1, h2, ?_, ?_⟩
          · rw [List.countP_cons, hc, h3]; simp
          · rw [List.countP_cons, hc, h4]; simp
      | some ci =>
          dsimp only
          obtain ⟨s1, b, e1, k1, k2, k3⟩ := honoredByMesh_spec hr h i
          rw [e1]
          simp only [Outcome.ok_bind]
          obtain ⟨s', x, y, e, h1, h2, h3, h4⟩ := ih k1
          rw [e]
          simp only [Outcome.ok_bind]
          simp only [k2.meshHonors] at h3 h4
          refine ⟨s', _, _, rfl, h1, k2.trans h2, ?_, ?_⟩
          · rw [List.countP_cons, hc, h3]
            by_cases hb : MeshHonors I m s i
            · rw [if_pos (k3.2 hb)]; simp [hb]
            · rw [if_neg (fun hh => hb (k3.1 hh))]; simp [hb]
          · rw [List.countP_cons, hc, h4]
            by_cases hb : MeshHonors I m s i
            · rw [if_pos (k3.2 hb)]; simp [hb]
            · rw [if_neg (fun hh => hb (k3.1 hh))]; simp [hb]

theorem candidateOf_isSome {cs : List Candidate} {i : Nat} : (candidateOf cs i).isSome ↔ i ∈ cs.map (·.i) := by
  unfold candidateOf
  rw [List.findIdx?_isSome, List.any_eq_true]
  simp [List.mem_map]

/-! ### the result -/

/-- The mesh is returned. -/
structure Emitted (m : Mesh) (s : State) (vs : List P3) (fs : List Face) (row : Nat → Nat) : Prop where
  faces : (List.range m.nf).flatMap (cur m s) = fs.map fun f => (row f.1, row f.2.1, row f.2.2)
  lt : ∀ f ∈ fs, ∀ k, Corner f k → k < vs.length
  inj : ∀ k l, k < vs.length → l < vs.length → row k = row l → k = l
  pos : ∀ k, k < vs.length → vs[k]? = some (s.p (row k))
  used : ∀ k, k < vs.length → ∃ f ∈ fs, Corner f k

theorem emit_spec (h : Inv I m s) : ∃ vs fs row, emit m s = .ok (vs, fs) ∧ Emitted m s vs fs row := by
  unfold emit
  rw [facesOfPatches_spec h (List.range m.nf) (fun fi hfi => ⟨List.mem_range.1 hfi, not_false⟩)]
  simp only [Outcome.ok_bind]
  obtain ⟨r, e, hN, -, hall, hback⟩ := Thinner.emit_spec s.p ((List.range m.nf).flatMap (cur m s)) ([], fun _ => none)
    ⟨by simp, by simp, by simp⟩
  rw [e]
  have hrow : ∀ k, k < r.1.length → ∃ v, r.2 v = some k := hN.surj
  choose! row hrow using hrow
  have hlt : ∀ v k, r.2 v = some k → k < r.1.length := fun v k hv => (List.getElem?_eq_some_iff.1 (hN.pos v k hv)).1
  have hid : ∀ v k, r.2 v = some k → row k = v := fun v k hv => hN.inj _ _ k (hrow k (hlt v k hv)) hv
  have hc : ∀ f ∈ (List.range m.nf).flatMap (cur m s), ∀ v, Corner f v → row ((r.2 v).getD 0) = v ∧ (r.2 v).getD 0 < r.1.length := fun f hf v hv => by
    obtain ⟨k, hk⟩ := hall f hf v hv
    rw [hk]
    exact ⟨hid v k hk, hlt v k hk⟩
  refine ⟨_, _, row, rfl, ⟨?_, ?_, ?_, ?_, ?_⟩⟩
  · rw [List.map_map]
    symm
    refine (List.map_congr_left fun f hf => ?_).trans (List.map_id _)
    show (row _, row _, row _) = f
    rw [(hc f hf f.1 (Or.inl rfl)).1, (hc f hf f.2.1 (Or.inr (Or.inl rfl))).1, (hc f hf f.2.2 (Or.inr (Or.inr rfl))).1]
  · intro f hf k hk
    obtain ⟨g, hg, rfl⟩ := List.mem_map.1 hf
    rcases hk with rfl | rfl | rfl
    · exact (hc g hg _ (Or.inl rfl)).2
    · exact (hc g hg _ (Or.inr (Or.inl rfl))).2
    · exact (hc g hg _ (Or.inr (Or.inr rfl))).2
  · intro k l hk hl e
    have h1 := hrow k hk
    have h2 := hrow l hl
    rw [e, h2] at h1
    exact (Option.some.inj h1).symm
  · intro k hk
    exact hN.pos _ _ (hrow k hk)
  · intro k hk
    obtain hh | ⟨f, hf, hv⟩ := hback _ _ (hrow k hk)
    · cases hh
    · refine ⟨_, List.mem_map_of_mem hf, ?_⟩
      unfold Corner
      rcases hv with hv | hv | hv <;> rw [hv, hrow k hk] <;> simp

/-! ### everything -/

theorem rounds_start (cs : List Candidate) (l : List Nat) : ∀ q, (l.foldl (fun q ci => push cs ci q) q).length = q.length + l.length := by
  induction l with
  | nil => intro q; rfl
  | cons x l ih => intro q; rw [List.foldl_cons, ih, (push_perm cs x q).length_eq]; simp; omega

/-- What is known of a call that comes to an end. -/
structure Finished (I : Input) (S : Sorts) (m : Mesh) (home : Nat → Nat) (cs : List Candidate) (s : State) (r : Result) (row : Nat → Nat) : Prop where
  mesh : MeshOk I m
  nf : m.nf = I.faces.length
  face : ∀ i f, I.faces[i]? = some f → m.face i = shift I f
  cands : ∀ c ∈ cs, CandSpec I S m c ∧ CandOk I m home c
  nodup : (cs.map (·.i)).Nodup
  far : ∀ i, i < np I → i ∉ cs.map (·.i) → Far I m i
  j : J I m home s
  emitted : Emitted m s r.vertices r.faces row
  skipped : cs.length + r.stats.skipped = np I
  honored : open Classical in r.stats.honored = (List.range (np I)).countP fun i => decide (i ∈ cs.map (·.i) ∧ MeshHonors I m s i)
  dishonored : open Classical in r.stats.dishonored = (List.range (np I)).countP fun i => decide (i ∈ cs.map (·.i) ∧ ¬ MeshHonors I m s i)

theorem tol_nonneg (hn : ∀ t ∈ I.tolerances, 0 ≤ t) (i : Nat) : 0 ≤ I.tol i := by
  unfold Input.tol
  split
  · exact le_rfl
  · rw [List.getD_eq_getElem?_getD]
    cases h : I.tolerances[i]? with
    | none => simp
    | some t => exact hn t (List.mem_of_getElem? h)

/-- What is known before the loop. -/
theorem prepared (hI : Spec.Valid I) (S : Sorts) (hS : ∀ l, (S.candidates l).Perm l) :
    ∃ m home s cs k, Mesh.ofFaces (shifted I) = .ok m ∧ MeshOk I m ∧ m.nf = I.faces.length ∧ (∀ i f, I.faces[i]? = some f → m.face i = shift I f) ∧
      classify I S m (List.range (np I)) (start I m) = .ok (s, cs, k) ∧ J I m home s ∧ s.p = p0 I ∧ (∀ fi, s.cached fi = []) ∧
      (∀ c ∈ S.candidates cs, CandSpec I S m c ∧ CandOk I m home c) ∧ ((S.candidates cs).map (·.i)).Nodup ∧
      (∀ i, i < np I → i ∉ (S.candidates cs).map (·.i) → Far I m i) ∧ (S.candidates cs).length + k = np I := by
  obtain ⟨m, h1, hm, hnf, hface⟩ := mesh_ok (fun f hf => (hI.corners f hf).1) hI.manifold
  have hs := fun home => start_spec (I := I) (m := m) (home := home)
  obtain ⟨s, cs, k, e, q1, q2, q3, q4, q5, q6⟩ := classify_spec S hI.resolution (List.range (np I)) (hs (fun _ => 0)).1.inv (hs (fun _ => 0)).2.2.1 (hs (fun _ => 0)).2.2.2.1
    (hs (fun _ => 0)).2.1 (fun i hi => List.mem_range.1 hi)
  have hp := hS cs
  have hnd : (cs.map (·.i)).Nodup := q4.nodup List.nodup_range
  let home : Nat → Nat := fun i => ((cs.find? fun c => c.i == i).map (·.fi)).getD 0
  have hhome : ∀ c ∈ cs, home c.i = c.fi := fun c hc => by
    have h2 : ∃ d, cs.find? (fun x => x.i == c.i) = some d := by
      rw [← Option.isSome_iff_exists, List.find?_isSome]
      exact ⟨c, hc, by simp⟩
    obtain ⟨d, hd⟩ := h2
    have h3 := List.mem_of_find?_eq_some hd
    have h4 : d.i = c.i := by simpa using List.find?_some hd
    have h5 : d = c := List.inj_on_of_nodup_map hnd h3 hc h4
    show ((cs.find? fun x => x.i == c.i).map (·.fi)).getD 0 = c.fi
    rw [hd, h5]; rfl
  refine ⟨m, home, s, cs, k, h1, hm, hnf, hface, e, (hs home).1.same hm q1 q2, q2.p.trans (hs home).2.2.2.1, fun fi => ?_, fun c hc => ?_, ?_, fun i hi hn => ?_, ?_⟩
  · rw [q2.cached]; exact (hs home).2.2.1 fi
  · have hc' := hp.mem_iff.1 hc
    exact ⟨q5 c hc', (q5 c hc').i, (q5 c hc').fi, hhome c hc'⟩
  · exact (hp.map _).nodup_iff.2 hnd
  · exact q6 i (List.mem_range.2 hi) fun hh => hn ((hp.map _).mem_iff.2 hh)
  · rw [hp.length_eq, q3, List.length_range]

theorem conclude_spec (hr : 0 < I.resolution) {cs : List Candidate} (k : Nat) (h : Inv I m s) :
    ∃ r s' row, conclude I m cs k s = .ok r ∧ Same s s' ∧ Emitted m s' r.vertices r.faces row ∧ r.stats.skipped = k ∧ Inv I m s' ∧
      (open Classical in r.stats.honored = (List.range (np I)).countP fun i => decide (i ∈ cs.map (·.i) ∧ MeshHonors I m s' i)) ∧
      (open Classical in r.stats.dishonored = (List.range (np I)).countP fun i => decide (i ∈ cs.map (·.i) ∧ ¬ MeshHonors I m s' i)) := by
  unfold conclude
  obtain ⟨s', x, y, e, h1, h2, h3, h4⟩ := count_spec hr cs (List.range (np I)) h
  rw [e]
  simp only [Outcome.ok_bind]
  obtain ⟨vs, fs, row, e2, h5⟩ := emit_spec h1
  rw [e2]
  simp only [Outcome.ok_bind]
  refine ⟨_, s', row, rfl, h2, h5, rfl, h1, ?_, ?_⟩
  · refine h3.trans (List.countP_congr fun i _ => ?_)
    simp only [decide_eq_true_eq]
    rw [candidateOf_isSome, h2.meshHonors]
  · refine h4.trans (List.countP_congr fun i _ => ?_)
    simp only [decide_eq_true_eq]
    rw [candidateOf_isSome, h2.meshHonors]

theorem snap_core (hI : Spec.Valid I) (S : Sorts) (hS : ∀ l, (S.candidates l).Perm l) {fuel : Nat} (hp : I.points ≠ []) (hf : I.faces ≠ []) {r : Result}
    (e : snapMesh I S fuel = some (.ok r)) : ∃ m home cs s row, Finished I S m home cs s r row := by
  unfold snapMesh at e
  rw [if_neg (by simp [hp, hf])] at e
  obtain ⟨m, home, s, cs, k, h1, hm, hnf, hface, h2, h3, -, -, h6, h7, h8, h9⟩ := prepared hI S hS
  unfold build at e
  rw [h1] at e
  dsimp only at e
  have htol : ¬ (I.tolerances.length ≠ 0 ∧ I.tolerances.length ≠ np I) := by
    rintro ⟨t1, t2⟩
    rcases hI.tolerances with h | h
    · exact t1 (by rw [h]; rfl)
    · exact t2 h
  rw [if_neg htol, h2] at e
  dsimp only at e
  rcases hl : loop I m (S.candidates cs) fuel s ((List.range (S.candidates cs).length).foldl (fun q ci => push (S.candidates cs) ci q) []) (fun _ => kSnapBudget) with
    _ | _ | _ | _ <;> rw [hl] at e <;> dsimp only at e
  · cases e
  · rename_i s1
    have hJ := loop_spec hI.resolution (tol_nonneg hI.nonneg) hI.transform hm (fun c hc => (h6 c hc).2) fuel _ _ h3 hl
    obtain ⟨r', s2, row, e2, g1, g2, g3, g4, g5, g6⟩ := conclude_spec hI.resolution (cs := S.candidates cs) k hJ.inv
    rw [e2] at e
    cases e
    exact ⟨m, home, S.candidates cs, s2, row, ⟨hm, hnf, hface, h6, h7, h8, hJ.same hm g4 g1, g2, by rw [g3]; exact h9, g5, g6⟩⟩
  · cases e
  · cases e

/-- The loop ends. -/
theorem snap_ends (hI : Spec.Valid I) (S : Sorts) (hS : ∀ l, (S.candidates l).Perm l) {fuel : Nat} (hfuel : (kSnapBudget + 1) * I.points.length < fuel) :
    (snapMesh I S fuel).isSome := by
  unfold snapMesh
  split
  · rfl
  obtain ⟨m, home, s, cs, k, h1, hm, hnf, hface, h2, h3, -, -, h6, h7, h8, h9⟩ := prepared hI S hS
  unfold build
  rw [h1]
  dsimp only
  split
  · rfl
  rw [h2]
  dsimp only
  have hle : rounds (S.candidates cs) ((List.range (S.candidates cs).length).foldl (fun q ci => push (S.candidates cs) ci q) [], fun _ => kSnapBudget) < fuel := by
    unfold rounds
    rw [rounds_start]
    simp only [List.length_nil, List.length_range, Finset.sum_const, Finset.card_range, smul_eq_mul]
    have : (S.candidates cs).length ≤ I.points.length := by have : np I = I.points.length := rfl; omega
    unfold kSnapBudget at *
    omega
  have := loop_ends (I := I) (m := m) (S.candidates cs) fuel s _ _ hle
  generalize loop I m (S.candidates cs) fuel s _ _ = o at this
  rcases o with _ | _ | _ | _
  · cases this
  · rfl
  · rfl
  · rfl

end Verif.Snapper
