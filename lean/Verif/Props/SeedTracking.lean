import Verif.Spec.SeedTracking
import Verif.Lemmas.SeedTracking
import Verif.Props.Isosurface
import Mathlib.Tactic.NormNum
import Mathlib.Tactic.Linarith

/-! # C86: following the field from the seed points always ends, and what it finds -/

namespace Verif.SeedTracking

open Verif Verif.Lattice

variable {K : Type} [Field K] [LinearOrder K]

theorem inner_iff {inBox : LC → Bool} {x : LC} : Inner inBox x ↔ isBoundary inBox x = false := by
  rw [boundary_false]
  constructor
  · intro h e he; exact h _ ⟨e, he, rfl⟩
  · rintro h y ⟨e, he, rfl⟩; exact h e he

/-! ## The rings around a node -/

theorem knnLoop_spec {inBox : LC → Bool} {lc : LC} : ∀ (k i : Nat) (vis fr : List LC), (∀ x, x ∈ vis ↔ ∃ j ≤ i, Reach inBox lc j x) →
    (∀ x, x ∈ fr ↔ Reach inBox lc i x ∧ ∀ j < i, ¬ Reach inBox lc j x) →
    ∀ x, x ∈ knnLoop inBox k vis fr ↔ Reach inBox lc (i + k) x ∧ ∀ j < i + k, ¬ Reach inBox lc j x
  | 0, i, vis, fr, _, hf => hf
  | k + 1, i, vis, fr, hv, hf => by
      rw [knnLoop]
      have key : ∀ x, (x ∈ allNeighbors fr ∧ inBox x = true ∧ x ∉ vis) ↔ Reach inBox lc (i + 1) x ∧ ∀ j < i + 1, ¬ Reach inBox lc j x := by
        intro x
        rw [mem_allNeighbors, hv]
        constructor
        · rintro ⟨⟨y, hy, e, he, rfl⟩, hb, hn⟩
          exact ⟨⟨hb, y, ((hf y).1 hy).1, e, he, rfl⟩, fun j hj hr => hn ⟨j, by omega, hr⟩⟩
        · rintro ⟨⟨hb, y, hy, e, he, rfl⟩, hn⟩
          refine ⟨⟨y, (hf y).2 ⟨hy, fun j hj hr => hn (j + 1) (by omega) ⟨hb, y, hr, e, he, rfl⟩⟩, e, he, rfl⟩, hb, ?_⟩
          rintro ⟨j, hj, hr⟩
          exact hn j (by omega) hr
      intro x
      rw [knnLoop_spec k (i + 1) _ _ ?_ ?_ x, show i + 1 + k = i + (k + 1) by omega]
      · intro x
        rw [(knnFold _ _ _).1, hv]
        constructor
        · rintro (⟨j, hj, hr⟩ | ⟨hm, hb⟩)
          · exact ⟨j, by omega, hr⟩
          · obtain ⟨y, hy, e, he, rfl⟩ := mem_allNeighbors.1 hm
            exact ⟨i + 1, le_rfl, hb, y, ((hf y).1 hy).1, e, he, rfl⟩
        · rintro ⟨j, hj, hr⟩
          by_cases hvis : ∃ j ≤ i, Reach inBox lc j x
          · exact .inl hvis
          · have hj : j = i + 1 := by
              by_contra hne
              exact hvis ⟨j, by omega, hr⟩
            subst hj
            have := (key x).2 ⟨hr, fun j hj hr => hvis ⟨j, by omega, hr⟩⟩
            exact .inr ⟨this.1, this.2.1⟩
      · intro x
        rw [(knnFold _ _ _).2, key]
        simp

/-- **C86**: the nodes looked at in step `k` of the widening search are those at exactly `k` steps through the box. -/
theorem C86_rings (inBox : LC → Bool) (lc : LC) (k : Nat) (x : LC) :
    x ∈ knnNodes inBox lc k ↔ Ring inBox lc k x := by
  unfold knnNodes Ring
  rw [knnLoop_spec (inBox := inBox) (lc := lc) k 0 [lc] [lc]]
  · simp
  · intro x
    simp [Reach]
  · intro x
    simp [Reach]

/-! ## The loops end -/

theorem trackLoop_mono {C : Ctx K} : ∀ (fuel : Nat) (l : Lat) (ss : List (Seed K)) (r : Lat × List Pair × List (List LC)),
    trackLoop C fuel l ss = .ok (some r) → ∀ d, trackLoop C (fuel + d) l ss = .ok (some r)
  | fuel, l, [], r, h, d => by
      have e : ∀ n, trackLoop C n l [] = .ok (some (l, [], [])) := fun n => by cases n <;> rfl
      rw [e] at h ⊢
      exact h
  | 0, l, s :: ss, r, h, d => by cases h
  | fuel + 1, l, s :: ss, r, h, d => by
      rw [trackLoop] at h
      rw [show fuel + 1 + d = (fuel + d) + 1 by omega, trackLoop]
      obtain ⟨q, hq, h⟩ := Outcome.bind_eq_ok.1 h
      obtain ⟨l2, hl, h⟩ := Outcome.bind_eq_ok.1 h
      obtain ⟨t, ht, h⟩ := Outcome.bind_eq_ok.1 h
      cases t with
      | none => cases h
      | some t =>
        rw [hq, Outcome.ok_bind, hl, Outcome.ok_bind, trackLoop_mono fuel l2 _ t ht d]
        exact h

theorem pairLoop_mono {C : Ctx K} : ∀ (fuel : Nat) (l : Lat) (vis ps : List Pair) (r : Lat × List (List LC)),
    pairLoop C fuel l vis ps = .ok (some r) → ∀ d, pairLoop C (fuel + d) l vis ps = .ok (some r)
  | fuel, l, vis, [], r, h, d => by
      have e : ∀ n, pairLoop C n l vis [] = .ok (some (l, [])) := fun n => by cases n <;> rfl
      rw [e] at h ⊢
      exact h
  | 0, l, vis, s :: ss, r, h, d => by cases h
  | fuel + 1, l, vis, s :: ss, r, h, d => by
      rw [pairLoop] at h
      rw [show fuel + 1 + d = (fuel + d) + 1 by omega, pairLoop]
      obtain ⟨q, hq, h⟩ := Outcome.bind_eq_ok.1 h
      obtain ⟨l2, hl, h⟩ := Outcome.bind_eq_ok.1 h
      obtain ⟨t, ht, h⟩ := Outcome.bind_eq_ok.1 h
      cases t with
      | none => cases h
      | some t =>
        rw [hq, Outcome.ok_bind, hl, Outcome.ok_bind, pairLoop_mono fuel l2 _ _ t ht d]
        exact h

theorem mem_uniq : ∀ {l : List LC} {x : LC}, x ∈ uniq l ↔ x ∈ l
  | [], x => by simp [uniq]
  | y :: ys, x => by
      rw [uniq]
      split
      · rename_i h
        rw [mem_uniq, List.mem_cons]
        constructor
        · exact .inr
        · rintro (rfl | h')
          · exact List.mem_of_mem_head? h
          · exact h'
      · rw [List.mem_cons, List.mem_cons, mem_uniq]

omit [LinearOrder K] in
theorem mem_seedsOf {starts : List LC} {s : Seed K} : s ∈ seedsOf (K := K) starts ↔ s.lc ∈ starts ∧ s.corrector = (0, 0, 0) ∧ s.k = 1 := by
  unfold seedsOf
  simp only [List.mem_map, mem_uniq, mem_sortLC]
  constructor
  · rintro ⟨lc, h, rfl⟩; exact ⟨h, rfl, rfl⟩
  · obtain ⟨lc, c, k⟩ := s
    rintro ⟨h, h1, h2⟩
    exact ⟨lc, h, by rw [← h1, ← h2]⟩

theorem mem_first {inBox : LC → Bool} {starts : List LC} {x : LC} : x ∈ firstNodes inBox starts ↔
    ∃ s ∈ starts, x = s ∨ inBox x = true ∧ Adjacent s x := by
  unfold firstNodes
  rw [List.mem_flatMap]
  simp only [List.mem_cons, mem_knn_one]
  rfl

theorem empty_inv (inBox σ : LC → Bool) : SInv inBox σ ⟨[], [], []⟩ := ⟨List.nodup_nil, rfl, rfl, (by intro lc n hp; cases hp), by simp [keys]⟩

/-- all stages of the tracking -/
theorem track_stages {C : Ctx K} {B : List LC} (hB : ∀ lc, C.inBox lc = true → lc ∈ B) {starts : List LC}
    (hs : ∀ s ∈ starts, C.inBox s = true ∧ Inner C.inBox s) :
    ∃ l1 l2 l3 ps b b', Lat.evaluateField C.neg ((⟨[], [], []⟩ : Lat).addNodes C.inBox (firstNodes C.inBox starts)).1 = .ok l1 ∧ SInv C.inBox C.neg l1 ∧
      (∀ s ∈ seedsOf (K := K) starts, ReadyIn C (· ∈ keys l1.nodes) s) ∧ (∀ x, x ∈ keys l1.nodes ↔ x ∈ firstNodes C.inBox starts ∧ C.inBox x = true) ∧
      (∀ fuel, 10 * B.length ≤ fuel → trackLoop C fuel l1 (seedsOf starts) = .ok (some (l2, ps, b))) ∧ (ps, b) = trackP C (10 * B.length) (seedsOf starts) ∧
      (∀ fuel', B.length * B.length < fuel' → pairLoop C fuel' l2 [] ps = .ok (some (l3, b'))) ∧ b' = pairsLoopP C (B.length * B.length + 1) [] ps ∧
      (⟨[], [], []⟩ : Lat).addBatches C.inBox C.neg (firstNodes C.inBox starts :: (b ++ b')) = .ok l3 ∧ SInv C.inBox C.neg l3 ∧ (∀ x ∈ keys l2.nodes, x ∈ keys l3.nodes) ∧
      ∀ p ∈ ps, p.1 ∈ keys l2.nodes ∧ p.2 ∈ keys l2.nodes := by
  obtain ⟨l0, added, l1, e1, e2, i1, k1, m1⟩ := growS (empty_inv C.inBox C.neg) (firstNodes C.inBox starts)
  have hk : ∀ x, x ∈ keys l1.nodes ↔ x ∈ firstNodes C.inBox starts ∧ C.inBox x = true := by
    intro x
    rw [k1, List.mem_append, m1]
    simp [keys]
  have hr : ∀ s ∈ seedsOf (K := K) starts, ReadyIn C (· ∈ keys l1.nodes) s := by
    intro s hm
    obtain ⟨h1, -, h3⟩ := mem_seedsOf.1 hm
    obtain ⟨hb, hi⟩ := hs _ h1
    have hn : ∀ x, C.inBox x = true → Adjacent s.lc x → x ∈ keys l1.nodes := fun x hx ha => (hk x).2 ⟨mem_first.2 ⟨s.lc, h1, .inr ⟨hx, ha⟩⟩, hx⟩
    refine ⟨(hk _).2 ⟨mem_first.2 ⟨s.lc, h1, .inl rfl⟩, hb⟩, ?_, ?_⟩
    · intro x hx
      rw [h3, mem_knn_one] at hx
      exact hn x hx.1 hx.2
    · intro e he
      exact hn _ (hi _ ⟨e, he, rfl⟩) ⟨e, he, rfl⟩
  obtain ⟨l2, f1, f2, f3, -, f5⟩ := trackLoop_spec hB (10 * B.length) (seedsOf starts) i1 hr (by
    intro s hm
    obtain ⟨h1, -, h3⟩ := mem_seedsOf.1 hm
    exact measure_bound (hB _ (hs _ h1).1) (by omega))
  obtain ⟨l3, g1, g2, g3⟩ := pairLoop_spec hB (B.length * B.length + 1) [] (trackP C (10 * B.length) (seedsOf starts)).1 f2 f5
    (.inl (by have := left_le B []; omega))
  have hsub : ∀ x ∈ keys l2.nodes, x ∈ keys l3.nodes := by
    obtain ⟨l3', g4, -, g5⟩ := addBatches_spec (pairsLoopP C (B.length * B.length + 1) [] (trackP C (10 * B.length) (seedsOf starts)).1) f2
    rw [g3] at g4
    cases g4
    exact fun x hx => (g5 x).2 (.inl hx)
  refine ⟨l1, l2, l3, _, _, _, by rw [e1]; exact e2, i1, hr, hk, ?_, rfl, ?_, rfl, ?_, g2, hsub, f5⟩
  · intro fuel hf
    obtain ⟨d, rfl⟩ := Nat.exists_eq_add_of_le hf
    exact trackLoop_mono _ _ _ _ f1 d
  · intro fuel hf
    obtain ⟨d, rfl⟩ := Nat.exists_eq_add_of_le (Nat.succ_le_of_lt hf)
    exact pairLoop_mono _ _ _ _ _ g1 d
  · rw [addBatches_cons (l1 := l0) (l2 := l1) (by rw [e1]) e2]
    have : ∀ (a b : List (List LC)) (l m : Lat), l.addBatches C.inBox C.neg a = .ok m → l.addBatches C.inBox C.neg (a ++ b) = m.addBatches C.inBox C.neg b := by
      intro a
      induction a with
      | nil => intro b l m h; cases h; rfl
      | cons x a ih =>
        intro b l m h
        rw [Lat.addBatches] at h
        obtain ⟨l', hl, h⟩ := Outcome.bind_eq_ok.1 h
        rw [List.cons_append, Lat.addBatches, hl, Outcome.ok_bind]
        exact ih b l' m h
    rw [this _ _ _ _ f3]
    exact g3

theorem track_eq {C : Ctx K} {starts : List LC} {l1 l2 l3 : Lat} {ps : List Pair} {b b' : List (List LC)} {fuel fuel' : Nat}
    (e1 : Lat.evaluateField C.neg ((⟨[], [], []⟩ : Lat).addNodes C.inBox (firstNodes C.inBox starts)).1 = .ok l1)
    (e2 : trackLoop C fuel l1 (seedsOf starts) = .ok (some (l2, ps, b))) (e3 : pairLoop C fuel' l2 [] ps = .ok (some (l3, b'))) :
    track C fuel fuel' starts = .ok (some (l3, firstNodes C.inBox starts :: (b ++ b'))) := by
  unfold track
  simp only [e1, Outcome.ok_bind, e2, e3]

/-- **C86**: for a bounded box, any field and any seed points (given by the nodes they are rounded to), both loops end - after at most ten rounds per node of the box,
and one round per pair of nodes - and never read a node that is not there or has no value.  The nodes around every seed are sampled, and nothing outside the box. -/
theorem C86_tracking_ends (C : Ctx K) (B : List LC) (hB : ∀ lc, C.inBox lc = true → lc ∈ B) (starts : List LC)
    (hs : ∀ s ∈ starts, C.inBox s = true ∧ Inner C.inBox s) :
    ∃ l bs, (∀ fuel fuel', 10 * B.length ≤ fuel → B.length * B.length < fuel' → track C fuel fuel' starts = .ok (some (l, bs))) ∧
      (⟨[], [], []⟩ : Lat).addBatches C.inBox C.neg bs = .ok l ∧
      (∀ lc ∈ l.nodes.map Prod.fst, C.inBox lc = true ∧ lc ∈ bs.flatten) ∧
      ∀ s ∈ starts, s ∈ l.nodes.map Prod.fst ∧ ∀ x, Adjacent s x → x ∈ l.nodes.map Prod.fst := by
  obtain ⟨l1, l2, l3, ps, b, b', e1, -, -, -, e2, -, e3, -, e4, i3, -⟩ := track_stages hB hs
  obtain ⟨l3', e4', -, hk⟩ := addBatches_spec (firstNodes C.inBox starts :: (b ++ b')) (empty_inv C.inBox C.neg)
  rw [e4] at e4'
  cases e4'
  have hmem : ∀ x ∈ firstNodes C.inBox starts, C.inBox x = true → x ∈ keys l3.nodes := by
    intro x hx hb
    rw [hk]
    exact .inr ⟨by rw [List.flatten_cons]; exact List.mem_append_left _ hx, hb⟩
  refine ⟨l3, _, fun fuel fuel' h h' => track_eq e1 (e2 fuel h) (e3 fuel' h'), e4, ?_, ?_⟩
  · intro lc hlc
    refine ⟨i3.box lc hlc, ?_⟩
    rcases (hk lc).1 hlc with h | h
    · simp [keys] at h
    · exact h.1
  · intro s hm
    obtain ⟨hb, hi⟩ := hs s hm
    exact ⟨hmem s (mem_first.2 ⟨s, hm, .inl rfl⟩) hb, fun x hx => hmem x (mem_first.2 ⟨s, hm, .inr ⟨hi x hx, hx⟩⟩) (hi x hx)⟩

/-! ## The order of the seeds does not matter -/

theorem less_irrefl (a : LC) : a.less a = false := by simp [LC.less]

theorem less_total {a b : LC} (h1 : a.less b = false) (h2 : b.less a = false) : a = b := by
  obtain ⟨x, y, z⟩ := a
  obtain ⟨x', y', z'⟩ := b
  simp only [LC.less, Bool.or_eq_false_iff, Bool.and_eq_false_iff, decide_eq_false_iff_not] at h1 h2
  have : x = x' := by omega
  have : y = y' := by omega
  have : z = z' := by omega
  simp [*]

theorem less_trans {a b c : LC} (h1 : b.less a = false) (h2 : c.less b = false) : c.less a = false := by
  obtain ⟨x, y, z⟩ := a
  obtain ⟨x', y', z'⟩ := b
  obtain ⟨x'', y'', z''⟩ := c
  simp only [LC.less, Bool.or_eq_false_iff, Bool.and_eq_false_iff, decide_eq_false_iff_not] at h1 h2 ⊢
  omega

theorem less_asymm {a b : LC} (h : a.less b = true) : b.less a = false := by
  obtain ⟨x, y, z⟩ := a
  obtain ⟨x', y', z'⟩ := b
  simp only [LC.less, Bool.or_eq_true, Bool.and_eq_true, decide_eq_true_eq] at h
  simp only [LC.less, Bool.or_eq_false_iff, Bool.and_eq_false_iff, decide_eq_false_iff_not]
  omega

theorem sortLC_sorted (l : List LC) : (sortLC l).Pairwise fun a b => b.less a = false := by
  have : Std.Total (fun a b : LC => b.less a = false) := ⟨fun a b => by
    cases h : b.less a with
    | false => exact .inl rfl
    | true => exact .inr (less_asymm h)⟩
  have : IsTrans LC (fun a b : LC => b.less a = false) := ⟨fun a b c h1 h2 => less_trans h1 h2⟩
  exact List.pairwise_insertionSort _ l

theorem uniq_sorted : ∀ {l : List LC}, l.Pairwise (fun a b => b.less a = false) → (uniq l).Pairwise fun a b => b.less a = false ∧ a ≠ b
  | [], _ => by simp [uniq]
  | x :: xs, h => by
      obtain ⟨h1, h2⟩ := List.pairwise_cons.1 h
      rw [uniq]
      split
      · exact uniq_sorted h2
      · rename_i hne
        rw [List.pairwise_cons]
        refine ⟨?_, uniq_sorted h2⟩
        intro y hy
        rw [mem_uniq] at hy
        refine ⟨h1 y hy, ?_⟩
        rintro rfl
        cases xs with
        | nil => cases hy
        | cons z zs =>
          have hz : z.less x = false := h1 z List.mem_cons_self
          have : x.less z = false := by
            rcases List.mem_cons.1 hy with rfl | hy
            · exact less_irrefl _
            · exact (List.pairwise_cons.1 h2).1 x hy
          exact hne (by rw [List.head?_cons, less_total this hz])

theorem uniq_ext {a b : List LC} (h : ∀ x, x ∈ a ↔ x ∈ b) : uniq (sortLC a) = uniq (sortLC b) := by
  have ha := uniq_sorted (sortLC_sorted a)
  have hb := uniq_sorted (sortLC_sorted b)
  have hp : (uniq (sortLC a)).Perm (uniq (sortLC b)) := by
    rw [List.perm_ext_iff_of_nodup (ha.imp fun h => h.2) (hb.imp fun h => h.2)]
    intro x
    rw [mem_uniq, mem_uniq, mem_sortLC, mem_sortLC]
    exact h x
  refine hp.eq_of_pairwise (le := fun a b => b.less a = false) ?_ (ha.imp fun h => h.1) (hb.imp fun h => h.1)
  intro x y _ _ h1 h2
  exact less_total h2 h1

/-- **C86**: which nodes are sampled depends only on the set of nodes the seeds are rounded to - not on the order of the seeds and not on repetitions. -/
theorem C86_order_of_seeds (C : Ctx K) (B : List LC) (hB : ∀ lc, C.inBox lc = true → lc ∈ B) (starts starts' : List LC)
    (hs : ∀ s ∈ starts, C.inBox s = true ∧ Inner C.inBox s) (hsame : ∀ s, s ∈ starts ↔ s ∈ starts') :
    ∃ l l' bs bs', track C (10 * B.length) (B.length * B.length + 1) starts = .ok (some (l, bs)) ∧
      track C (10 * B.length) (B.length * B.length + 1) starts' = .ok (some (l', bs')) ∧ bs.tail = bs'.tail ∧
      ∀ x, x ∈ l.nodes.map Prod.fst ↔ x ∈ l'.nodes.map Prod.fst := by
  obtain ⟨l1, l2, l3, ps, b, b', e1, -, -, -, e2, t, e3, t', e4, -⟩ := track_stages hB hs
  obtain ⟨m1, m2, m3, qs, c, c', f1, -, -, -, f2, u, f3, u', f4, -⟩ := track_stages hB (starts := starts') fun s h => hs s ((hsame s).2 h)
  have hseeds : seedsOf (K := K) starts = seedsOf starts' := by
    unfold seedsOf
    rw [uniq_ext hsame]
  rw [hseeds] at t
  have hpb : (ps, b) = (qs, c) := t.trans u.symm
  rw [Prod.mk.injEq] at hpb
  obtain ⟨rfl, rfl⟩ := hpb
  obtain rfl : c' = b' := u'.trans t'.symm
  refine ⟨l3, m3, _, _, track_eq e1 (e2 _ le_rfl) (e3 _ (by omega)), track_eq f1 (f2 _ le_rfl) (f3 _ (by omega)), rfl, ?_⟩
  obtain ⟨l3', e4', -, hk⟩ := addBatches_spec (firstNodes C.inBox starts :: (b ++ c')) (empty_inv C.inBox C.neg)
  obtain ⟨m3', f4', -, hm⟩ := addBatches_spec (firstNodes C.inBox starts' :: (b ++ c')) (empty_inv C.inBox C.neg)
  rw [e4] at e4'
  cases e4'
  rw [f4] at f4'
  cases f4'
  intro x
  show x ∈ keys l3.nodes ↔ x ∈ keys m3.nodes
  have hfirst : x ∈ firstNodes C.inBox starts ↔ x ∈ firstNodes C.inBox starts' := by
    rw [mem_first, mem_first]
    exact ⟨fun ⟨s, h, h'⟩ => ⟨s, (hsame s).1 h, h'⟩, fun ⟨s, h, h'⟩ => ⟨s, (hsame s).2 h, h'⟩⟩
  rw [hk, hm, List.flatten_cons, List.flatten_cons, List.mem_append, List.mem_append, hfirst]

/-! ## What is found -/

theorem scan_plain {C : Ctx K} {lc : LC} {k : Nat} : ∀ (xs : List LC) (a : Scan), (∀ x ∈ xs, opposite k (C.val lc) (C.val x) = false) →
    (scanP C lc k xs a).found = a.found ∧ (scanP C lc k xs a).pairs = a.pairs ∧
    (∀ x, x ∈ (scanP C lc k xs a).cand ↔ x ∈ a.cand ∨ x ∈ xs ∧ isBoundary C.inBox x = false ∧ |C.val x| < |C.val lc|) ∧
    ((scanP C lc k xs a).minimum = true ↔ a.minimum = true ∧ ∀ x ∈ xs, ¬ |C.val x| < |C.val lc|)
  | [], a, _ => by simp [scanP]
  | x :: xs, a, h => by
      rw [scanP, h x List.mem_cons_self]
      simp only [Bool.false_and, Bool.false_eq_true, if_false]
      obtain ⟨h1, h2, h3, h4⟩ := scan_plain xs (noteSmaller (C.val lc) (C.val x) (isBoundary C.inBox x) x a) fun y hy => h y (List.mem_cons_of_mem _ hy)
      rw [h1, h2]
      have e : (noteSmaller (C.val lc) (C.val x) (isBoundary C.inBox x) x a).found = a.found ∧
          (noteSmaller (C.val lc) (C.val x) (isBoundary C.inBox x) x a).pairs = a.pairs ∧
          (∀ y, y ∈ (noteSmaller (C.val lc) (C.val x) (isBoundary C.inBox x) x a).cand ↔ y ∈ a.cand ∨ y = x ∧ isBoundary C.inBox x = false ∧ |C.val x| < |C.val lc|) ∧
          ((noteSmaller (C.val lc) (C.val x) (isBoundary C.inBox x) x a).minimum = true ↔ a.minimum = true ∧ ¬ |C.val x| < |C.val lc|) := by
        unfold noteSmaller
        by_cases hl : |C.val x| < |C.val lc|
        · rw [if_pos hl]
          cases hb : isBoundary C.inBox x <;> simp [hl]
        · rw [if_neg hl]
          simp [hl]
      refine ⟨e.1, e.2.1, ?_, ?_⟩
      · intro y
        rw [h3, e.2.2.1, List.mem_cons]
        constructor
        · rintro ((h | ⟨rfl, h⟩) | ⟨h, h'⟩)
          · exact .inl h
          · exact .inr ⟨.inl rfl, h⟩
          · exact .inr ⟨.inr h, h'⟩
        · rintro (h | ⟨rfl | h, h'⟩)
          · exact .inl (.inl h)
          · exact .inl (.inr ⟨rfl, h'⟩)
          · exact .inr ⟨h, h'⟩
      · rw [h4, e.2.2.2]
        simp only [List.mem_cons, forall_eq_or_imp]
        tauto

theorem not_opposite {C : Ctx K} {s : Seed K} (hk : s.k = 1) (h : ¬ AtSurface C s.lc) : ∀ x ∈ knnNodes C.inBox s.lc s.k, opposite s.k (C.val s.lc) (C.val x) = false := by
  intro x hx
  rw [hk, mem_knn_one] at hx
  rw [← Bool.not_eq_true, opposite_iff]
  rintro ⟨-, hne⟩
  exact h ⟨x, hx.2, hx.1, hne⟩

/-- where there is a way down, the seed takes one -/
theorem visit_descends {C : Ctx K} {s : Seed K} (hk : s.k = 1) (hn : ¬ AtSurface C s.lc) (hd : ∃ y, Descends C s.lc y) :
    ∃ t, (visitP C s).next = some t ∧ t.k = 1 ∧ Descends C s.lc t.lc := by
  obtain ⟨y, h1, h2, h3, h4⟩ := hd
  obtain ⟨f1, -, f3, -⟩ := scan_plain (C := C) (lc := s.lc) (k := s.k) (knnNodes C.inBox s.lc s.k) ⟨[], [], false, true⟩ (not_opposite hk hn)
  have hy : y ∈ (scanOf C s).cand := (f3 y).2 (.inr ⟨by rw [hk, mem_knn_one]; exact ⟨h2, h1⟩, inner_iff.1 h3, h4⟩)
  have ok := scanOf_ok C s
  have hf : (scanOf C s).found = false := f1
  unfold visitP decideP
  generalize scanOf C s = a at *
  rw [if_neg (by simp [hf])]
  cases hc : a.cand with
  | nil => rw [hc] at hy; cases hy
  | cons c cs =>
    refine ⟨_, rfl, rfl, ?_⟩
    have hm : closest C s.lc s.corrector (C.dir s.lc) c cs ∈ a.cand := by rw [hc]; exact closest_mem cs c
    obtain ⟨m1, m2, m3⟩ := ok.cand _ hm
    rw [hk, mem_knn_one] at m1
    exact ⟨m1.2, m1.1, inner_iff.2 m2, m3⟩

theorem scan_pairs_mono {C : Ctx K} {lc : LC} {k : Nat} : ∀ (xs : List LC) (a : Scan), ∀ p ∈ a.pairs, p ∈ (scanP C lc k xs a).pairs
  | [], _, p, hp => hp
  | x :: xs, a, p, hp => by
      rw [scanP]
      have h1 : p ∈ (if opposite k (C.val lc) (C.val x) then { a with pairs := a.pairs ++ [mkPair lc x] } else a : Scan).pairs := by
        split
        · exact List.mem_append_left _ hp
        · exact hp
      split
      · exact h1
      · apply scan_pairs_mono
        unfold noteSmaller
        split
        · exact h1
        · exact h1

/-- the first neighbour of the other sign is noted -/
theorem scan_notes {C : Ctx K} {lc : LC} {k : Nat} : ∀ (xs : List LC) (a : Scan), (∃ x ∈ xs, opposite k (C.val lc) (C.val x) = true) →
    ∃ x ∈ xs, opposite k (C.val lc) (C.val x) = true ∧ mkPair lc x ∈ (scanP C lc k xs a).pairs
  | [], _, ⟨x, hx, _⟩ => by cases hx
  | x :: xs, a, h => by
      by_cases ho : opposite k (C.val lc) (C.val x) = true
      · refine ⟨x, List.mem_cons_self, ho, ?_⟩
        rw [scanP, if_pos ho]
        have h1 : mkPair lc x ∈ a.pairs ++ [mkPair lc x] := by simp
        dsimp only
        split
        · exact h1
        · apply scan_pairs_mono
          unfold noteSmaller
          split
          · exact h1
          · exact h1
      · obtain ⟨y, hy, hyo⟩ := h
        have hy : y ∈ xs := (List.mem_cons.1 hy).resolve_left (by rintro rfl; exact ho hyo)
        rw [scanP, if_neg ho]
        rw [Bool.not_eq_true] at ho
        rw [ho]
        simp only [Bool.false_and, Bool.false_eq_true, if_false]
        obtain ⟨z, hz, h1, h2⟩ := scan_notes xs (noteSmaller (C.val lc) (C.val x) (isBoundary C.inBox x) x a) ⟨y, hy, hyo⟩
        exact ⟨z, List.mem_cons_of_mem _ hz, h1, h2⟩

theorem track_finds {C : Ctx K} {B : List LC} (hB : ∀ lc, C.inBox lc = true → lc ∈ B) (hmin : NoFalseMinimum C) : ∀ (fuel : Nat) {l l' : Lat} (ss : List (Seed K))
    (r : List Pair × List (List LC)), SInv C.inBox C.neg l → (∀ s ∈ ss, ReadyIn C (· ∈ keys l.nodes) s) → (∀ s ∈ ss, measure C B s < fuel) →
    trackLoop C fuel l ss = .ok (some (l', r)) → ∀ s ∈ ss, s.k = 1 →
    ∃ x y, Relation.ReflTransGen (Descends C) s.lc x ∧ Adjacent x y ∧ C.inBox y = true ∧ C.neg y ≠ C.neg x ∧ mkPair x y ∈ r.1
  | 0, l, l', ss, r, _, _, hm, _, s, hs, _ => absurd (hm s hs) (Nat.not_lt_zero _)
  | fuel + 1, l, l', [], r, _, _, _, _, s, hs, _ => absurd hs (by simp)
  | fuel + 1, l, l', s0 :: ss, r, h, hr, hm, ht, s, hs, hk => by
      obtain ⟨l1, l2, e1, e2, e3, i2, k2, r2⟩ := round_spec h hr
      have hm2 : ∀ t ∈ nextP C (s0 :: ss), measure C B t < fuel := by
        intro t ht
        obtain ⟨u, hu, ht⟩ := List.mem_flatMap.1 ht
        rw [Option.mem_toList] at ht
        have := measure_lt hB (h.box _ (hr u hu).self) ht
        have := hm u hu
        omega
      obtain ⟨l3, g1, -, -, g4, -⟩ := trackLoop_spec hB fuel (nextP C (s0 :: ss)) i2 r2 hm2
      have hr1 : r.1 = pairsP C (s0 :: ss) ++ (trackP C fuel (nextP C (s0 :: ss))).1 := by
        rw [trackLoop, e1, Outcome.ok_bind, e3, Outcome.ok_bind, g1] at ht
        have := Option.some.inj (Outcome.ok.inj ht)
        exact (congrArg (fun t => t.2.1) this).symm
      have rs := hr s hs
      by_cases hsurf : AtSurface C s.lc
      · obtain ⟨y, hy, hb, hne⟩ := hsurf
        obtain ⟨z, hz, h1, h2⟩ := scan_notes (C := C) (lc := s.lc) (k := s.k) (knnNodes C.inBox s.lc s.k) ⟨[], [], false, true⟩
          ⟨y, by rw [hk, mem_knn_one]; exact ⟨hb, hy⟩, opposite_iff.2 ⟨hk, hne⟩⟩
        rw [hk, mem_knn_one] at hz
        refine ⟨s.lc, z, .refl, hz.2, hz.1, (opposite_iff.1 h1).2, ?_⟩
        rw [hr1]
        apply List.mem_append_left
        refine List.mem_flatMap.2 ⟨s, hs, ?_⟩
        rw [visitP_pairs]
        exact h2
      · obtain ⟨t, t1, t2, t3⟩ := visit_descends hk hsurf ((hmin s.lc (h.box _ rs.self) (by
          rintro y ⟨e, he, rfl⟩
          exact h.box _ (rs.near e he))).resolve_left hsurf)
        have htn : t ∈ nextP C (s0 :: ss) := List.mem_flatMap.2 ⟨s, hs, by rw [Option.mem_toList]; exact t1⟩
        obtain ⟨x, y, p1, p2, p3, p4, p5⟩ := track_finds hB hmin fuel (l := l2) (l' := l3) (nextP C (s0 :: ss)) _ i2 r2 hm2 g1 t htn t2
        exact ⟨x, y, .head t3 p1, p2, p3, p4, by rw [hr1]; exact List.mem_append_right _ p5⟩

/-- the visited pairs at the end -/
theorem pairLoop_closed {C : Ctx K} {B : List LC} (hB : ∀ lc, C.inBox lc = true → lc ∈ B) : ∀ (fuel : Nat) (vis ps : List Pair) (N : LC → Prop),
    (∀ p ∈ ps, C.inBox p.1 = true ∧ C.inBox p.2 = true) → (left B vis < fuel ∨ ps = []) →
    (∀ p ∈ vis, ∀ c ∈ commonP C p, N c ∧ ∀ q, q = mkPair p.1 c ∨ q = mkPair p.2 c → q ∈ vis ∨ q ∈ ps) →
    (∀ x ∈ (pairsLoopP C fuel vis ps).flatten, N x) →
    ∃ V : List Pair, (∀ p ∈ vis, p ∈ V) ∧ (∀ p ∈ ps, p ∈ V) ∧ ∀ p ∈ V, ∀ c ∈ commonP C p, N c ∧ ∀ q, q = mkPair p.1 c ∨ q = mkPair p.2 c → q ∈ V
  | fuel, vis, [], N, _, _, hc, _ => by
      refine ⟨vis, fun _ h => h, by simp, fun p hp c hcc => ⟨(hc p hp c hcc).1, fun q hq => ?_⟩⟩
      rcases (hc p hp c hcc).2 q hq with h | h
      · exact h
      · cases h
  | 0, vis, p :: ps, N, _, hm, _, _ => by
      rcases hm with hm | hm
      · exact absurd hm (Nat.not_lt_zero _)
      · cases hm
  | fuel + 1, vis, p :: ps, N, hb, hm, hc, hN => by
      have hm : left B vis < fuel + 1 := hm.resolve_right (by simp)
      obtain ⟨q1, q2, q3⟩ := pairRoundP_spec C (p :: ps) vis
      have q4 := pairRoundP_new C (p :: ps) vis
      rw [pairsLoopP, List.flatten_cons] at hN
      obtain ⟨V, v1, v2, v3⟩ := pairLoop_closed hB fuel (pairRoundP C vis (p :: ps)).1 (pairRoundP C vis (p :: ps)).2.2 N
        (by
          intro q hq
          obtain ⟨p', h1, -, c, hcc, -, hq⟩ := q2 q hq
          have a1 := hb p' h1
          have a3 := common_inBox hcc
          rcases hq with rfl | rfl
          · unfold mkPair
            split
            · exact ⟨a1.1, a3⟩
            · exact ⟨a3, a1.1⟩
          · unfold mkPair
            split
            · exact ⟨a1.2, a3⟩
            · exact ⟨a3, a1.2⟩)
        (by
          cases hn : (pairRoundP C vis (p :: ps)).2.2 with
          | nil => exact .inr rfl
          | cons q qs =>
            obtain ⟨p', h1, h2, -⟩ := q2 q (by rw [hn]; exact List.mem_cons_self)
            have := left_lt (B := B) (vis := vis) (vis' := (pairRoundP C vis (p :: ps)).1) (fun x hx => (q1 x).2 (.inl hx)) (hB _ (hb p' h1).1)
              (hB _ (hb p' h1).2) h2 ((q1 p').2 (.inr h1))
            exact .inl (by omega))
        (by
          intro p' hp' c hcc
          by_cases hv : p' ∈ vis
          · refine ⟨(hc p' hv c hcc).1, fun q hq => ?_⟩
            rcases (hc p' hv c hcc).2 q hq with h | h
            · exact .inl ((q1 q).2 (.inl h))
            · exact .inl ((q1 q).2 (.inr h))
          · have hps := ((q1 p').1 hp').resolve_left hv
            obtain ⟨n1, n2⟩ := q4 p' hps hv c hcc
            exact ⟨hN c (List.mem_append_left _ n1), fun q hq => .inr (n2 q hq)⟩)
        (fun x hx => hN x (List.mem_append_right _ hx))
      exact ⟨V, fun q hq => v1 q ((q1 q).2 (.inl hq)), fun q hq => v1 q ((q1 q).2 (.inr hq)), v3⟩

theorem mkPair_cases (a b : LC) : mkPair a b = (a, b) ∨ mkPair a b = (b, a) := by
  unfold mkPair
  split
  · exact .inl rfl
  · exact .inr rfl

/-- **C86**: if the absolute value of the field has no false minimum, every seed leads down to the surface: there is a path on which the absolute value falls from its node
to a node with a neighbour of the other sign; and from that edge the surface is followed: both ends of every edge reached from triangle to triangle across the surface are
sampled. -/
theorem C86_finds_surface (C : Ctx K) (B : List LC) (hB : ∀ lc, C.inBox lc = true → lc ∈ B) (starts : List LC)
    (hs : ∀ s ∈ starts, C.inBox s = true ∧ Inner C.inBox s) (hmin : NoFalseMinimum C) :
    ∃ l bs, track C (10 * B.length) (B.length * B.length + 1) starts = .ok (some (l, bs)) ∧
      ∀ s ∈ starts, ∃ x y, Relation.ReflTransGen (Descends C) s x ∧ Adjacent x y ∧ C.inBox y = true ∧ C.neg y ≠ C.neg x ∧
        ∀ a b, Relation.ReflTransGen (Across C) (x, y) (a, b) → a ∈ l.nodes.map Prod.fst ∧ b ∈ l.nodes.map Prod.fst := by
  obtain ⟨l1, l2, l3, ps, b, b', e1, i1, hr, -, e2, tp, e3, tb, e4, i3, hsub, hps⟩ := track_stages hB hs
  refine ⟨l3, _, track_eq e1 (e2 _ le_rfl) (e3 _ (by omega)), fun s hm => ?_⟩
  obtain ⟨x, y, p1, p2, p3, p4, p5⟩ := track_finds hB hmin (10 * B.length) (seedsOf starts) (ps, b) i1 hr (by
    intro t ht
    obtain ⟨h1, -, h3⟩ := mem_seedsOf.1 ht
    exact measure_bound (hB _ (hs _ h1).1) (by omega)) (e2 _ le_rfl) ⟨s, (0, 0, 0), 1⟩ (mem_seedsOf.2 ⟨hm, rfl, rfl⟩) rfl
  refine ⟨x, y, p1, p2, p3, p4, ?_⟩
  have hps3 : ∀ p ∈ ps, p.1 ∈ keys l3.nodes ∧ p.2 ∈ keys l3.nodes := fun p hp => ⟨hsub _ (hps p hp).1, hsub _ (hps p hp).2⟩
  obtain ⟨l3', e4', -, hk⟩ := addBatches_spec (firstNodes C.inBox starts :: (b ++ b')) (empty_inv C.inBox C.neg)
  rw [e4] at e4'
  cases e4'
  obtain ⟨V, -, v2, v3⟩ := pairLoop_closed hB (B.length * B.length + 1) [] ps (fun x => C.inBox x = true → x ∈ keys l3.nodes)
    (fun p hp => ⟨i3.box _ (hps3 p hp).1, i3.box _ (hps3 p hp).2⟩) (.inl (by have := left_le B []; omega)) (by simp)
    (by
      intro x hx hb
      rw [hk]
      refine .inr ⟨?_, hb⟩
      rw [tb]
      simp only [List.flatten_cons, List.flatten_append, List.mem_append]
      exact .inr (.inr hx))
  have key : ∀ q : LC × LC, Relation.ReflTransGen (Across C) (x, y) q → mkPair q.1 q.2 ∈ V ∧ q.1 ∈ keys l3.nodes ∧ q.2 ∈ keys l3.nodes ∧ C.neg q.2 ≠ C.neg q.1 := by
    intro q hq
    induction hq with
    | refl =>
      have h := hps3 _ p5
      refine ⟨v2 _ p5, ?_, ?_, p4⟩
      · rcases mkPair_cases x y with e | e <;> rw [e] at h
        · exact h.1
        · exact h.2
      · rcases mkPair_cases x y with e | e <;> rw [e] at h
        · exact h.2
        · exact h.1
    | @tail q r _ hst ih =>
      obtain ⟨h1, h2, h3, h4⟩ := ih
      obtain ⟨c, c1, c2, c3, c4, c5⟩ := hst
      have hcc : c ∈ commonP C (mkPair q.1 q.2) := by
        unfold commonP
        rcases mkPair_cases q.1 q.2 with e | e <;> rw [e]
        · rw [if_neg (by simpa using fun h => h4 h.symm)]
          exact mem_common.2 ⟨c1, c2, c3⟩
        · rw [if_neg (by simpa using h4)]
          exact mem_common.2 ⟨c1, c3, c2⟩
      obtain ⟨n1, n2⟩ := v3 _ h1 c hcc
      rcases c5 with rfl | rfl
      · refine ⟨n2 _ ?_, h2, n1 c1, c4⟩
        rcases mkPair_cases q.1 q.2 with e | e <;> rw [e]
        · exact .inl rfl
        · exact .inr rfl
      · refine ⟨n2 _ ?_, h3, n1 c1, c4⟩
        rcases mkPair_cases q.1 q.2 with e | e <;> rw [e]
        · exact .inr rfl
        · exact .inl rfl
  intro a b' h
  exact ⟨(key _ h).2.1, (key _ h).2.2.1⟩

/-! ## A step -/

omit [Field K] [LinearOrder K] in
theorem valueAt_ok {C : Ctx K} {nl : NodeList} {lc : LC} {v : K} (h : valueAt C nl lc = .ok v) : v = C.val lc := by
  unfold valueAt at h
  obtain ⟨n, -, h⟩ := Outcome.bind_eq_ok.1 h
  obtain ⟨b, -, h⟩ := Outcome.bind_eq_ok.1 h
  exact (Outcome.ok.inj h).symm

theorem scan_ok {C : Ctx K} {nl : NodeList} {lc : LC} {k : Nat} : ∀ (xs : List LC) (a b : Scan), scan C nl lc k xs a = .ok b → b = scanP C lc k xs a
  | [], a, b, h => (Outcome.ok.inj h).symm
  | x :: xs, a, b, h => by
      rw [scan] at h
      obtain ⟨v, hv, h⟩ := Outcome.bind_eq_ok.1 h
      obtain ⟨w, hw, h⟩ := Outcome.bind_eq_ok.1 h
      obtain rfl := valueAt_ok hv
      obtain rfl := valueAt_ok hw
      rw [scanP]
      dsimp only at h ⊢
      split at h
      · rename_i hc
        rw [if_pos hc]
        exact (Outcome.ok.inj h).symm
      · rename_i hc
        rw [if_neg hc]
        exact scan_ok xs _ _ h

theorem visit_ok {C : Ctx K} {nl : NodeList} {s : Seed K} {r : Visit K} (h : visit C nl s = .ok r) : r = visitP C s := by
  unfold visit at h
  obtain ⟨n, -, h⟩ := Outcome.bind_eq_ok.1 h
  obtain ⟨a, ha, h⟩ := Outcome.bind_eq_ok.1 h
  obtain rfl := scan_ok _ _ _ ha
  unfold visitP decideP scanOf
  unfold decide_ at h
  generalize scanP C s.lc s.k (knnNodes C.inBox s.lc s.k) ⟨[], [], false, true⟩ = a at *
  by_cases hf : a.found = true
  · rw [if_pos hf] at h ⊢
    exact (Outcome.ok.inj h).symm
  · rw [if_neg hf] at h ⊢
    cases hc : a.cand with
    | nil => simp only [hc] at h ⊢; exact (Outcome.ok.inj h).symm
    | cons c cs =>
      simp only [hc] at h ⊢
      obtain ⟨d, hd, h⟩ := Outcome.bind_eq_ok.1 h
      unfold direction at hd
      obtain ⟨_, -, hd⟩ := Outcome.bind_eq_ok.1 hd
      obtain rfl := Outcome.ok.inj hd
      exact (Outcome.ok.inj h).symm

theorem scan_cand {C : Ctx K} {lc : LC} {k : Nat} : ∀ (xs : List LC) (a : Scan), (scanP C lc k xs a).found = false →
    (∀ x, x ∈ (scanP C lc k xs a).cand ↔ x ∈ a.cand ∨ x ∈ xs ∧ isBoundary C.inBox x = false ∧ |C.val x| < |C.val lc|) ∧
    ((scanP C lc k xs a).minimum = true ↔ a.minimum = true ∧ ∀ x ∈ xs, ¬ |C.val x| < |C.val lc|)
  | [], a, _ => by simp [scanP]
  | x :: xs, a, h => by
      rw [scanP] at h ⊢
      split at h
      · cases h
      · rename_i hc
        rw [if_neg hc]
        obtain ⟨h3, h4⟩ := scan_cand xs _ h
        have e0 : (if opposite k (C.val lc) (C.val x) then { a with pairs := a.pairs ++ [mkPair lc x] } else a : Scan).cand = a.cand ∧
            (if opposite k (C.val lc) (C.val x) then { a with pairs := a.pairs ++ [mkPair lc x] } else a : Scan).minimum = a.minimum := by
          split <;> exact ⟨rfl, rfl⟩
        generalize (if opposite k (C.val lc) (C.val x) then { a with pairs := a.pairs ++ [mkPair lc x] } else a : Scan) = a' at *
        have e : (∀ y, y ∈ (noteSmaller (C.val lc) (C.val x) (isBoundary C.inBox x) x a').cand ↔ y ∈ a.cand ∨ y = x ∧ isBoundary C.inBox x = false ∧ |C.val x| < |C.val lc|) ∧
            ((noteSmaller (C.val lc) (C.val x) (isBoundary C.inBox x) x a').minimum = true ↔ a.minimum = true ∧ ¬ |C.val x| < |C.val lc|) := by
          unfold noteSmaller
          rw [← e0.1, ← e0.2]
          by_cases hl : |C.val x| < |C.val lc|
          · rw [if_pos hl]
            cases hb : isBoundary C.inBox x <;> simp [hl]
          · rw [if_neg hl]
            simp [hl]
        refine ⟨?_, ?_⟩
        · intro y
          rw [h3, e.1, List.mem_cons]
          constructor
          · rintro ((h | ⟨rfl, h⟩) | ⟨h, h'⟩)
            · exact .inl h
            · exact .inr ⟨.inl rfl, h⟩
            · exact .inr ⟨.inr h, h'⟩
          · rintro (h | ⟨rfl | h, h'⟩)
            · exact .inl (.inl h)
            · exact .inl (.inr ⟨rfl, h'⟩)
            · exact .inr ⟨h, h'⟩
        · rw [h4, e.2]
          simp only [List.mem_cons, forall_eq_or_imp]
          tauto

theorem closest_least {C : Ctx K} {lc : LC} {c d : V3 K} : ∀ (xs : List LC) (best : LC), ∀ x ∈ best :: xs,
    dot (corrected C lc c d (closest C lc c d best xs)) (corrected C lc c d (closest C lc c d best xs)) ≤ dot (corrected C lc c d x) (corrected C lc c d x)
  | [], best, x, hx => by
      rw [List.mem_singleton] at hx
      rw [hx, closest]
  | y :: xs, best, x, hx => by
      rw [closest]
      have ih := closest_least (C := C) (lc := lc) (c := c) (d := d) xs
        (if dot (corrected C lc c d y) (corrected C lc c d y) < dot (corrected C lc c d best) (corrected C lc c d best) then y else best)
      have h0 := ih _ List.mem_cons_self
      rcases List.mem_cons.1 hx with rfl | hx
      · refine h0.trans ?_
        split
        · exact le_of_lt ‹_›
        · exact le_rfl
      · rcases List.mem_cons.1 hx with rfl | hx
        · refine h0.trans ?_
          split
          · exact le_rfl
          · exact not_lt.1 ‹_›
        · exact ih x (List.mem_cons_of_mem _ hx)

omit [LinearOrder K] in
theorem corrected_eq (C : Ctx K) (lc : LC) (c d : V3 K) (q : LC) : corrected C lc c d q = drift C c d lc q := by
  unfold corrected drift add sub
  dsimp only
  refine Prod.ext ?_ (Prod.ext ?_ ?_) <;> simp only <;> ring1

/-- **C86**: what a seed does that has not found the surface.  Either some inner node at the distance looked at is nearer to the isovalue: then it goes to such a node - to one that keeps the
total drift off the line of steepest descent smallest - and looks at the neighbours again; or the only nodes nearer to the isovalue are at the border of the box: then it stays and looks one
step further, up to ten steps. -/
theorem C86_step (C : Ctx K) (nl : NodeList) (s t : Seed K) (r : Visit K) (h : visit C nl s = .ok r) (hn : r.next = some t) :
    (t.k = 1 ∧ Ring C.inBox s.lc s.k t.lc ∧ Inner C.inBox t.lc ∧ |C.val t.lc| < |C.val s.lc| ∧ t.corrector = drift C s.corrector (C.dir s.lc) s.lc t.lc ∧
      ∀ y, Ring C.inBox s.lc s.k y → Inner C.inBox y → |C.val y| < |C.val s.lc| →
        dot t.corrector t.corrector ≤ dot (drift C s.corrector (C.dir s.lc) s.lc y) (drift C s.corrector (C.dir s.lc) s.lc y)) ∨
    (s.k < 10 ∧ t.k = s.k + 1 ∧ t.lc = s.lc ∧ t.corrector = s.corrector ∧ (∃ y, Ring C.inBox s.lc s.k y ∧ |C.val y| < |C.val s.lc|) ∧
      ∀ y, Ring C.inBox s.lc s.k y → |C.val y| < |C.val s.lc| → ¬ Inner C.inBox y) := by
  obtain rfl := visit_ok h
  have hsc := scan_cand (C := C) (lc := s.lc) (k := s.k) (knnNodes C.inBox s.lc s.k) ⟨[], [], false, true⟩
  change (scanOf C s).found = false → (∀ x, x ∈ (scanOf C s).cand ↔ _) ∧ ((scanOf C s).minimum = true ↔ _) at hsc
  unfold visitP decideP at hn
  generalize scanOf C s = a at *
  by_cases hf : a.found = true
  · rw [if_pos hf] at hn; cases hn
  · rw [if_neg hf] at hn
    obtain ⟨h1, h2⟩ := hsc (by simpa using hf)
    simp only [List.not_mem_nil, false_or, true_and, C86_rings, ← inner_iff] at h1 h2
    cases hc : a.cand with
    | nil =>
      simp only [hc] at hn h1
      unfold retry at hn
      split at hn
      · cases hn
      · rename_i hk
        split at hn
        · cases hn
        · obtain rfl := Option.some.inj hn
          simp only [Bool.or_eq_true, decide_eq_true_eq, not_or, not_le] at hk
          refine .inr ⟨hk.1, rfl, rfl, rfl, ?_, ?_⟩
          · have := mt h2.2 hk.2
            push Not at this
            exact this
          · intro y hy hl hi
            exact absurd ((h1 y).2 ⟨hy, hi, hl⟩) (by simp)
    | cons c cs =>
      simp only [hc] at hn h1
      unfold moveTo at hn
      obtain rfl := Option.some.inj hn
      have hm := closest_mem (C := C) (lc := s.lc) (c := s.corrector) (d := C.dir s.lc) cs c
      obtain ⟨m1, m2, m3⟩ := (h1 _).1 hm
      refine .inl ⟨rfl, m1, m2, m3, corrected_eq _ _ _ _ _, ?_⟩
      intro y hy hi hl
      have := closest_least (C := C) (lc := s.lc) (c := s.corrector) (d := C.dir s.lc) cs c y ((h1 y).2 ⟨hy, hi, hl⟩)
      rw [corrected_eq C s.lc s.corrector (C.dir s.lc) y] at this
      exact this

/-! ## A false minimum -/

/-- **C86**: a seed whose node is a minimum of the absolute value of the field away from the surface finds nothing: if all seeds are such, only they and their neighbours are sampled,
wherever the surface is. -/
theorem C86_false_minimum (C : Ctx K) (B : List LC) (hB : ∀ lc, C.inBox lc = true → lc ∈ B) (starts : List LC)
    (hs : ∀ s ∈ starts, C.inBox s = true ∧ Inner C.inBox s) (hmin : ∀ s ∈ starts, ∀ y, Adjacent s y → C.neg y = C.neg s ∧ |C.val s| ≤ |C.val y|) :
    ∃ l bs, track C (10 * B.length) (B.length * B.length + 1) starts = .ok (some (l, bs)) ∧
      ∀ x, x ∈ l.nodes.map Prod.fst ↔ ∃ s ∈ starts, x = s ∨ Adjacent s x := by
  obtain ⟨l1, l2, l3, ps, b, b', e1, -, -, -, e2, t, e3, t', e4, -⟩ := track_stages hB hs
  refine ⟨l3, _, track_eq e1 (e2 _ le_rfl) (e3 _ (by omega)), ?_⟩
  have hv : ∀ s ∈ seedsOf (K := K) starts, visitP C s = ⟨[], [], none⟩ := by
    intro s hm
    obtain ⟨h1, -, h3⟩ := mem_seedsOf.1 hm
    have hno : ¬ AtSurface C s.lc := by
      rintro ⟨y, hy, -, hne⟩
      exact hne (hmin _ h1 y hy).1
    obtain ⟨f1, f2, f3, f4⟩ := scan_plain (C := C) (lc := s.lc) (k := s.k) (knnNodes C.inBox s.lc s.k) ⟨[], [], false, true⟩ (not_opposite h3 hno)
    have hall : ∀ x ∈ knnNodes C.inBox s.lc s.k, ¬ |C.val x| < |C.val s.lc| := by
      intro x hx
      rw [h3, mem_knn_one] at hx
      exact not_lt.2 (hmin _ h1 x hx.2).2
    have f4 := f4.2 ⟨rfl, hall⟩
    unfold visitP decideP scanOf
    generalize scanP C s.lc s.k (knnNodes C.inBox s.lc s.k) ⟨[], [], false, true⟩ = a at *
    have hc : a.cand = [] := by
      rw [List.eq_nil_iff_forall_not_mem]
      intro x hx
      rcases (f3 x).1 hx with h | h
      · cases h
      · exact hall x h.1 h.2.2
    rw [if_neg (by simp [f1]), hc]
    simp only
    unfold retry
    rw [if_pos (by simp [f4]), f2]
  have hp : pairsP C (seedsOf starts) = [] ∧ askP C (seedsOf starts) = [] ∧ nextP C (seedsOf starts) = [] := by
    unfold pairsP askP nextP
    refine ⟨?_, ?_, ?_⟩ <;> rw [List.flatMap_eq_nil_iff] <;> intro s hm <;> rw [hv s hm]
    rfl
  have hb : ps = [] ∧ b.flatten = [] := by
    cases hS : seedsOf (K := K) starts with
    | nil =>
      rw [hS] at t
      have e : trackP C (10 * B.length) [] = ([], []) := by cases 10 * B.length <;> rfl
      rw [e, Prod.mk.injEq] at t
      rw [t.1, t.2]
      exact ⟨rfl, rfl⟩
    | cons s ss =>
      obtain ⟨h1, -, -⟩ := mem_seedsOf.1 (show s ∈ seedsOf (K := K) starts by rw [hS]; exact List.mem_cons_self)
      have : 0 < B.length := List.length_pos_of_mem (hB _ (hs _ h1).1)
      obtain ⟨n, hn⟩ : ∃ n, 10 * B.length = n + 1 := ⟨10 * B.length - 1, by omega⟩
      rw [hS] at t hp
      rw [hn, trackP, hp.1, hp.2.1, hp.2.2] at t
      have e : trackP C n [] = ([], []) := by cases n <;> rfl
      simp only [e, Prod.mk.injEq] at t
      rw [t.1, t.2]
      exact ⟨rfl, rfl⟩
  obtain ⟨rfl, hb⟩ := hb
  have hb' : b' = [] := t'
  subst hb'
  obtain ⟨l3', e4', -, hk⟩ := addBatches_spec (firstNodes C.inBox starts :: (b ++ [])) (empty_inv C.inBox C.neg)
  rw [e4] at e4'
  cases e4'
  intro x
  show x ∈ keys l3.nodes ↔ _
  rw [hk, List.append_nil, List.flatten_cons, hb, List.append_nil, mem_first]
  constructor
  · rintro (h | ⟨⟨s, h1, h2⟩, h3⟩)
    · simp [keys] at h
    · exact ⟨s, h1, h2.imp id fun h => h.2⟩
  · rintro ⟨s, h1, h2⟩
    rcases h2 with rfl | h2
    · exact .inr ⟨⟨x, h1, .inl rfl⟩, (hs x h1).1⟩
    · exact .inr ⟨⟨s, h1, .inr ⟨(hs s h1).2 x h2, h2⟩⟩, (hs s h1).2 x h2⟩

/-! ## Examples: a box of seven nodes in each direction -/

/-- a field that is zero between the planes `x = -1` and `x = 0` -/
def planeC : Ctx ℚ :=
  ⟨fun p => decide ((-3 ≤ p.x ∧ p.x ≤ 3) ∧ (-3 ≤ p.y ∧ p.y ≤ 3) ∧ (-3 ≤ p.z ∧ p.z ≤ 3)), fun p => 2 * p.x + 1, fun p => (p.x, p.y, p.z), fun _ => (-1, 0, 0)⟩

/-- a field with a false minimum at the origin; it is negative for `x = 3` -/
def falseC : Ctx ℚ := { planeC with val := fun p => if p.x = 3 then -1 else if p = ⟨0, 0, 0⟩ then 1 else 2 }

def planeB : List LC := ((List.range 7).flatMap fun (i : Nat) => (List.range 7).flatMap fun (j : Nat) => (List.range 7).map fun (k : Nat) => ⟨(i : Int) - 3, (j : Int) - 3, (k : Int) - 3⟩)

theorem plane_box (lc : LC) : planeC.inBox lc = true ↔ (-3 ≤ lc.x ∧ lc.x ≤ 3) ∧ (-3 ≤ lc.y ∧ lc.y ≤ 3) ∧ (-3 ≤ lc.z ∧ lc.z ≤ 3) := by
  simp [planeC]

theorem plane_B (lc : LC) (h : planeC.inBox lc = true) : lc ∈ planeB := by
  rw [plane_box] at h
  obtain ⟨⟨h1, h2⟩, ⟨h3, h4⟩, h5, h6⟩ := h
  unfold planeB
  simp only [List.mem_flatMap, List.mem_map, List.mem_range]
  refine ⟨(lc.x + 3).toNat, by omega, (lc.y + 3).toNat, by omega, (lc.z + 3).toNat, by omega, ?_⟩
  obtain ⟨x, y, z⟩ := lc
  simp only [LC.mk.injEq] at *
  omega

theorem plane_inner (lc : LC) : Inner planeC.inBox lc ↔ (-2 ≤ lc.x ∧ lc.x ≤ 2) ∧ (-2 ≤ lc.y ∧ lc.y ≤ 2) ∧ (-2 ≤ lc.z ∧ lc.z ≤ 2) := by
  constructor
  · intro h
    have h1 := (plane_box _).1 (h (neighbor lc 4) ⟨4, by omega, rfl⟩)
    have h2 := (plane_box _).1 (h (neighbor lc 11) ⟨11, by omega, rfl⟩)
    have e1 : neighbor lc 4 = ⟨lc.x + 1, lc.y + 1, lc.z + 1⟩ := rfl
    have e2 : neighbor lc 11 = ⟨lc.x + -1, lc.y + -1, lc.z + -1⟩ := rfl
    rw [e1] at h1
    rw [e2] at h2
    simp only at h1 h2
    omega
  · rintro h y ⟨e, he, rfl⟩
    rw [plane_box]
    have hd : ∀ e < 14, (-1 ≤ (delta e).x ∧ (delta e).x ≤ 1) ∧ (-1 ≤ (delta e).y ∧ (delta e).y ≤ 1) ∧ (-1 ≤ (delta e).z ∧ (delta e).z ≤ 1) := by decide
    obtain ⟨d1, d2, d3⟩ := hd e he
    have e1 : neighbor lc e = ⟨lc.x + (delta e).x, lc.y + (delta e).y, lc.z + (delta e).z⟩ := rfl
    rw [e1]
    simp only
    omega

theorem plane_no_false_minimum : NoFalseMinimum planeC := by
  intro lc hb hi
  rw [plane_box] at hb
  rw [plane_inner] at hi
  obtain ⟨x, y, z⟩ := lc
  simp only at hb hi
  have e0 : neighbor ⟨x, y, z⟩ 0 = ⟨x + 1, y, z⟩ := by show (⟨_, _, _⟩ : LC) = _; simp [delta, deltas]
  have e7 : neighbor ⟨x, y, z⟩ 7 = ⟨x + -1, y, z⟩ := by show (⟨_, _, _⟩ : LC) = _; simp [delta, deltas]
  have hv : ∀ p : LC, planeC.val p = 2 * (p.x : ℚ) + 1 := fun _ => rfl
  rcases lt_trichotomy x (-1) with h | h | h
  · right
    refine ⟨⟨x + 1, y, z⟩, ⟨0, by omega, e0.symm⟩, (plane_box _).2 (by simp only; omega), (plane_inner _).2 (by simp only; omega), ?_⟩
    have h' : (x : ℚ) ≤ -2 := by exact_mod_cast (by omega : x ≤ -2)
    rw [hv, hv]
    push_cast
    rw [abs_of_nonpos (by linarith), abs_of_nonpos (by linarith)]
    linarith
  · left
    subst h
    refine ⟨⟨-1 + 1, y, z⟩, ⟨0, by omega, e0.symm⟩, (plane_box _).2 (by simp only; omega), ?_⟩
    norm_num [Ctx.neg, hv]
  · by_cases h0 : x = 0
    · left
      subst h0
      refine ⟨⟨0 + -1, y, z⟩, ⟨7, by omega, e7.symm⟩, (plane_box _).2 (by simp only; omega), ?_⟩
      norm_num [Ctx.neg, hv]
    · right
      refine ⟨⟨x + -1, y, z⟩, ⟨7, by omega, e7.symm⟩, (plane_box _).2 (by simp only; omega), (plane_inner _).2 (by simp only; omega), ?_⟩
      have h' : (1 : ℚ) ≤ x := by exact_mod_cast (by omega : 1 ≤ x)
      rw [hv, hv]
      push_cast
      rw [abs_of_nonneg (by linarith), abs_of_nonneg (by linarith)]
      linarith

theorem plane_starts : ∀ s ∈ [(⟨2, 0, 0⟩ : LC), ⟨-2, 1, 2⟩, ⟨2, 0, 0⟩], planeC.inBox s = true ∧ Inner planeC.inBox s := by
  intro s hs
  rw [plane_box, plane_inner]
  simp only [List.mem_cons, List.not_mem_nil, or_false] at hs
  rcases hs with rfl | rfl | rfl <;> simp

example : ∃ l bs, (∀ fuel fuel', 10 * planeB.length ≤ fuel → planeB.length * planeB.length < fuel' →
    track planeC fuel fuel' [⟨2, 0, 0⟩, ⟨-2, 1, 2⟩, ⟨2, 0, 0⟩] = .ok (some (l, bs))) ∧ (⟨2, 0, 0⟩ : LC) ∈ l.nodes.map Prod.fst := by
  obtain ⟨l, bs, h1, -, -, h4⟩ := C86_tracking_ends planeC planeB plane_B _ plane_starts
  exact ⟨l, bs, h1, (h4 _ (by simp)).1⟩

example : ∃ l bs x y, track planeC (10 * planeB.length) (planeB.length * planeB.length + 1) [⟨2, 0, 0⟩, ⟨-2, 1, 2⟩, ⟨2, 0, 0⟩] = .ok (some (l, bs)) ∧
    Relation.ReflTransGen (Descends planeC) ⟨2, 0, 0⟩ x ∧ planeC.neg y ≠ planeC.neg x ∧ x ∈ l.nodes.map Prod.fst ∧ y ∈ l.nodes.map Prod.fst := by
  obtain ⟨l, bs, h1, h2⟩ := C86_finds_surface planeC planeB plane_B _ plane_starts plane_no_false_minimum
  obtain ⟨x, y, p1, -, -, p4, p5⟩ := h2 ⟨2, 0, 0⟩ (by simp)
  exact ⟨l, bs, x, y, h1, p1, p4, p5 x y .refl⟩

/-- A seed at (2, 0, 0) goes on. -/
example : ∃ nl r t, visit planeC nl ⟨⟨2, 0, 0⟩, (0, 0, 0), 1⟩ = .ok r ∧ r.next = some t := by
  obtain ⟨l1, l2, l3, ps, b, b', -, i1, hr, -⟩ := track_stages plane_B plane_starts
  have hs := hr ⟨⟨2, 0, 0⟩, (0, 0, 0), 1⟩ (mem_seedsOf.2 ⟨by simp, rfl, rfl⟩)
  have hno : ¬ AtSurface planeC ⟨2, 0, 0⟩ := by
    rintro ⟨y, ⟨e, he, rfl⟩, -, hne⟩
    apply hne
    have hd : ∀ e < 14, -1 ≤ (delta e).x := by decide
    have h1 := hd e he
    have h2 : (-1 : ℚ) ≤ (delta e).x := by exact_mod_cast h1
    have e1 : (neighbor ⟨2, 0, 0⟩ e).x = 2 + (delta e).x := rfl
    unfold Ctx.neg planeC
    simp only [e1]
    push_cast
    rw [decide_eq_decide]
    constructor <;> intro h <;> linarith
  obtain ⟨t, h1, -⟩ := visit_descends (C := planeC) (s := ⟨⟨2, 0, 0⟩, (0, 0, 0), 1⟩) rfl hno
    ((plane_no_false_minimum _ (plane_starts _ (by simp)).1 (plane_starts _ (by simp)).2).resolve_left hno)
  exact ⟨l1.nodes, _, t, visit_eq (ReadyIn.ready i1 hs), h1⟩

example : ∃ l l' bs bs', track planeC (10 * planeB.length) (planeB.length * planeB.length + 1) [⟨2, 0, 0⟩, ⟨-2, 1, 2⟩, ⟨2, 0, 0⟩] = .ok (some (l, bs)) ∧
    track planeC (10 * planeB.length) (planeB.length * planeB.length + 1) [⟨-2, 1, 2⟩, ⟨2, 0, 0⟩] = .ok (some (l', bs')) ∧ bs.tail = bs'.tail := by
  obtain ⟨l, l', bs, bs', h1, h2, h3, -⟩ := C86_order_of_seeds planeC planeB plane_B [⟨2, 0, 0⟩, ⟨-2, 1, 2⟩, ⟨2, 0, 0⟩] [⟨-2, 1, 2⟩, ⟨2, 0, 0⟩] plane_starts (by
    intro s
    simp only [List.mem_cons, List.not_mem_nil, or_false]
    tauto)
  exact ⟨l, l', bs, bs', h1, h2, h3⟩

/-- The surface between `x = 2` and `x = 3` is not found from a seed at the origin. -/
example : (∃ x y, falseC.inBox x = true ∧ falseC.inBox y = true ∧ Adjacent x y ∧ falseC.neg y ≠ falseC.neg x) ∧
    ∃ l bs, track falseC (10 * planeB.length) (planeB.length * planeB.length + 1) [⟨0, 0, 0⟩] = .ok (some (l, bs)) ∧ ∀ x ∈ l.nodes.map Prod.fst, falseC.neg x = false := by
  have hin : falseC.inBox = planeC.inBox := rfl
  have hdx : ∀ e < 14, -1 ≤ (delta e).x ∧ (delta e).x ≤ 1 ∧ delta e ≠ ⟨0, 0, 0⟩ := by decide
  have hv : ∀ y, Adjacent ⟨0, 0, 0⟩ y → falseC.val y = 2 := by
    rintro y ⟨e, he, rfl⟩
    obtain ⟨d1, d2, d3⟩ := hdx e he
    have e1 : neighbor ⟨0, 0, 0⟩ e = delta e := by
      show (⟨0 + (delta e).x, 0 + (delta e).y, 0 + (delta e).z⟩ : LC) = delta e
      simp
    rw [e1]
    show (if (delta e).x = 3 then (-1 : ℚ) else if delta e = ⟨0, 0, 0⟩ then 1 else 2) = 2
    rw [if_neg (by omega), if_neg d3]
  have h0 : falseC.val ⟨0, 0, 0⟩ = 1 := by simp [falseC]
  refine ⟨⟨⟨2, 0, 0⟩, ⟨3, 0, 0⟩, by rw [hin, plane_box]; simp, by rw [hin, plane_box]; simp, ⟨0, by omega, rfl⟩, by norm_num [Ctx.neg, falseC]⟩, ?_⟩
  obtain ⟨l, bs, h1, h2⟩ := C86_false_minimum falseC planeB (by rw [hin]; exact plane_B) [⟨0, 0, 0⟩]
    (by
      intro s hs
      rw [List.mem_singleton] at hs
      subst hs
      rw [hin, plane_box, plane_inner]
      simp)
    (by
      intro s hs y hy
      rw [List.mem_singleton] at hs
      subst hs
      unfold Ctx.neg
      rw [hv y hy, h0]
      norm_num)
  refine ⟨l, bs, h1, fun x hx => ?_⟩
  obtain ⟨s, hs, hx⟩ := (h2 x).1 hx
  rw [List.mem_singleton] at hs
  subst hs
  unfold Ctx.neg
  rcases hx with rfl | hx
  · rw [h0]; norm_num
  · rw [hv x hx]; norm_num

/-! ## The whole call -/

open PrimLattice PrimLattice.Prim Iso

theorem clamp_in {L : Prim} (hb : L.Ordered) (p : P3) : L.InBbox (clampPoint L p) := by
  obtain ⟨h1, h2, h3⟩ := hb
  unfold Prim.InBbox clampPoint
  simp only [le_min_iff, le_max_iff, min_le_iff, max_le_iff]
  exact ⟨⟨⟨.inr le_rfl, h1⟩, ⟨.inr le_rfl, h2⟩, .inr le_rfl, h3⟩, .inr le_rfl, .inr le_rfl, .inr le_rfl⟩

theorem clamp_id {L : Prim} {p : P3} (h : L.InBbox p) : clampPoint L p = p := by
  obtain ⟨⟨h1, h2, h3⟩, h4, h5, h6⟩ := h
  unfold clampPoint
  refine Prod.ext ?_ (Prod.ext ?_ ?_) <;> simp [*]

theorem starts_inner {L : Prim} (h : 0 < L.det) (hb : L.Ordered) {points : List P3} : ∀ s ∈ startsOf L points, L.inBox s = true ∧ Inner L.inBox s := by
  intro s hs
  obtain ⟨p, -, rfl⟩ := List.mem_map.1 hs
  obtain ⟨rank, hr⟩ := ranked_exists (L.frac (clampPoint L p))
  obtain ⟨c1, -, c3⟩ := C57_near_nodes_sampled L h _ (clamp_in hb p) rank hr
  obtain ⟨c4, c5⟩ := c3 _ c1
  refine ⟨PrimLattice.Prim.inBox_iff.2 c4, ?_⟩
  rintro y ⟨e, he, rfl⟩
  exact PrimLattice.Prim.inBox_iff.2 (c5 e he)

/-- **C86**: `generate_from_seed_points` for any seed points, each moved into the box.  The tracking ends; the node each seed point is rounded to and its fourteen neighbours are sampled, only
nodes of the extended box are, and a tetrahedron that the surface is seen to cross is sampled completely.  Where the absolute value of the field has no false minimum, every seed leads down to
an edge with ends of different signs, and the edges reached from there across the surface are sampled.  The result is that for `generate`, with the interpolated field at the first seed point (which must not lie halfway between nodes in two
directions). -/
theorem C86_from_seeds {M Sn : Type} (T : Steps ℝ M Sn) (L : Prim) (h : 0 < L.det) (hb : L.Ordered) (G : Geo ℝ) (hG : G.inBox = L.inBox)
    (hN : ∀ nl, (G.ordN nl).Perm nl) (hO : ∀ l, (G.ord l).Perm l) (F : Fld ℝ) (hF : ∀ b, F.fails b = false) (dir : LC → P3)
    (p : P3) (points : List P3) (rank : Nat × Nat × Nat) (hr : Ranked (L.frac (clampPoint L p)) rank)
    (htie : L.rounded (clampPoint L p) ∈ (L.tetrahedron (clampPoint L p) rank).toList) (refine : Bool) (sn : Option Sn) :
    ∃ n n' l bs, (∀ fuel fuel', n ≤ fuel → n ≤ fuel' → track (ctxOf L F dir) fuel fuel' (startsOf L (p :: points)) = .ok (some (l, bs))) ∧
    ∃ R V fs, R.Nodup ∧ (∀ lc ∈ R, L.InExt (L.position lc)) ∧ MeshOf F.neg R V fs ∧
      (∀ q ∈ p :: points, L.rounded (clampPoint L q) ∈ R ∧ ∀ e < 14, neighbor (L.rounded (clampPoint L q)) e ∈ R) ∧
      (NoFalseMinimum (ctxOf L F dir) → ∀ q ∈ p :: points, ∃ x y, Relation.ReflTransGen (Descends (ctxOf L F dir)) (L.rounded (clampPoint L q)) x ∧ Adjacent x y ∧
        F.neg y ≠ F.neg x ∧ ∀ a b, Relation.ReflTransGen (Across (ctxOf L F dir)) (x, y) (a, b) → a ∈ R ∧ b ∈ R) ∧
      (∀ lc k, k < 6 → (∀ i < 4, L.InExt (L.position (tetNode lc k i))) →
        (∃ i < 4, ∃ j < 4, tetNode lc k i ∈ R ∧ tetNode lc k j ∈ R ∧ F.neg (tetNode lc k i) ≠ F.neg (tetNode lc k j)) → ∀ i < 4, tetNode lc k i ∈ R) ∧
      (∀ m, T.process F refine sn (T.raw F V fs) = some m →
        step T G ⟨LatS.fresh, sn⟩ (.seeds (some ((L.tetrahedron (clampPoint L p) rank, L.weights (clampPoint L p) rank), bs)) n' F refine) =
          .done (some (expected T m (fieldAt L F (clampPoint L p) rank))) ⟨LatS.fresh, sn⟩) ∧
      (T.process F refine sn (T.raw F V fs) = none →
        ∃ g, step T G ⟨LatS.fresh, sn⟩ (.seeds (some ((L.tetrahedron (clampPoint L p) rank, L.weights (clampPoint L p) rank), bs)) n' F refine) = .threw g) := by
  obtain ⟨B, hB⟩ : ∃ B : List LC, ∀ lc, L.inBox lc = true → lc ∈ B := by
    let un : Outcome (Int × Int) → Int × Int := fun o => match o with | .ok r => r | _ => (0, 0)
    obtain ⟨-, -, B, -, hB, -⟩ := C56_all_nodes L h.ne' hb F.neg F.near (un L.thirdRange) (fun z => un (L.secondRange z)) (fun y z => un (L.firstRange y z))
      (fun r hr => by rw [hr]) (fun z r hr => by rw [hr]) (fun y z r hr => by rw [hr])
    exact ⟨B, fun lc hlc => (hB lc).2 (PrimLattice.Prim.inBox_iff.1 hlc)⟩
  have hs : ∀ s ∈ startsOf L (p :: points), (ctxOf L F dir).inBox s = true ∧ Inner (ctxOf L F dir).inBox s := starts_inner h hb
  obtain ⟨l, bs, e1, e2, e3, e4⟩ := C86_tracking_ends (ctxOf L F dir) B hB _ hs
  have hst : ∀ q ∈ p :: points, L.rounded (clampPoint L q) ∈ startsOf L (p :: points) := fun q hq => List.mem_map.2 ⟨q, hq, rfl⟩
  have hbs : ∀ lc ∈ l.nodes.map Prod.fst, lc ∈ bs.flatten ∧ L.InExt (L.position lc) := fun lc hlc => ⟨(e3 lc hlc).2, PrimLattice.Prim.inBox_iff.1 (e3 lc hlc).1⟩
  have hp := e4 _ (hst p List.mem_cons_self)
  obtain ⟨R, V, fs, r1, r2, r3, r4, r5, r6, r7⟩ := C38_from_seeds T L h rank G hG hN hO B hB F hF _ (clamp_in hb p) hr bs
    ⟨(hbs _ hp.1).1, fun e he _ => (hbs _ (hp.2 _ ⟨e, he, rfl⟩)).1⟩ htie refine sn
  have hR : ∀ lc ∈ l.nodes.map Prod.fst, lc ∈ R := fun lc hlc => r3 lc (hbs lc hlc).1 (hbs lc hlc).2
  refine ⟨10 * B.length + B.length * B.length + 1, B.length + 1, l, bs, fun fuel fuel' h h' => e1 fuel fuel' (by omega) (by omega), R, V, fs, r1, r2, r4, ?_, ?_, r5, r6, r7⟩
  · intro q hq
    have := e4 _ (hst q hq)
    exact ⟨hR _ this.1, fun e he => hR _ (this.2 _ ⟨e, he, rfl⟩)⟩
  · intro hmin q hq
    obtain ⟨l', bs', f1, f2⟩ := C86_finds_surface (ctxOf L F dir) B hB _ hs hmin
    rw [e1 _ _ le_rfl (by omega)] at f1
    obtain ⟨rfl, rfl⟩ := Prod.mk.inj (Option.some.inj (Outcome.ok.inj f1))
    obtain ⟨x, y, g1, g2, -, g4, g5⟩ := f2 _ (hst q hq)
    exact ⟨x, y, g1, g2, g4, fun a b hab => ⟨hR _ (g5 a b hab).1, hR _ (g5 a b hab).2⟩⟩

/-- Three seed points for the unit lattice; one of them is outside the box. -/
example {M Sn : Type} (T : Steps ℝ M Sn) (F : Fld ℝ) (hF : ∀ b, F.fails b = false) :
    ∃ n l bs, track (ctxOf unitL F fun _ => (0, 0, 1)) n n (startsOf unitL [(1, 0, 0), (0, 5, 1 / 3), (1, 0, 0)]) = .ok (some (l, bs)) := by
  have hd : 0 < unitL.det := by rw [unit_det]; norm_num
  have hb : unitL.Ordered := by norm_num [Prim.Ordered, unitL]
  have hp : clampPoint unitL (1, 0, 0) = (1, 0, 0) := clamp_id (by norm_num [Prim.InBbox, unitL])
  obtain ⟨rank, hr⟩ := ranked_exists (unitL.frac (1, 0, 0))
  have hc : unitL.coords (1, 0, 0) = (1, 0, 0) := by
    unfold coords
    rw [unit_det]
    refine Prod.ext ?_ (Prod.ext ?_ ?_) <;> norm_num [unitL, PrimLattice.dot, PrimLattice.cross]
  have h0 : ∀ n o : ℤ, ((n : ℝ) - o) - ⌊(n : ℝ) - o⌋ = 0 := by
    intro n o
    rw [show (n : ℝ) - o = ((n - o : ℤ) : ℝ) by push_cast; rfl, Int.floor_intCast, sub_self]
  have hf : ∀ i, unitL.frac (1, 0, 0) i ≠ 1 / 2 := by
    have : ∀ i, unitL.frac (1, 0, 0) i = 0 := by
      intro i
      have h1 := h0 1 unitL.origin.x
      have h2 := h0 0 unitL.origin.y
      have h3 := h0 0 unitL.origin.z
      push_cast at h1 h2 h3
      unfold frac unrounded
      rw [hc]
      split
      · exact h1
      · exact h2
      · exact h3
    intro i
    rw [this]
    norm_num
  obtain ⟨n, n', l, bs, h1, -⟩ := C86_from_seeds T unitL hd hb ⟨unitL.inBox, [], (unitL.tetrahedron (1, 0, 0) rank, unitL.weights (1, 0, 0) rank), id, id⟩ rfl (fun _ => .refl _) (fun _ => .refl _) F hF (fun _ => (0, 0, 1))
    (1, 0, 0) [(0, 5, 1 / 3), (1, 0, 0)] rank (by rw [hp]; exact hr) (by
      rw [hp]
      exact C38_rounded_is_corner unitL _ rank hr fun i _ j _ _ h => hf i h.1) false none
  exact ⟨n, l, bs, h1 n n le_rfl le_rfl⟩

end Verif.SeedTracking
