import Verif.Props.DomainDivider
import Mathlib.Algebra.Order.BigOperators.Group.List

/-! # C23: choosing the coarse points -/

namespace Verif.DomainDivider

open Verif

/-! ## the split position -/

theorem prefixSums_getLast (dim : Nat) : ∀ (ms : List MixedPoint) (acc : Nat),
    (prefixSumsFrom dim acc ms).getLast?.getD 0 = acc + multSum dim ms := by
  intro ms
  induction ms with
  | nil => intro acc; simp [prefixSumsFrom, multSum]
  | cons p ps ih =>
      intro acc
      have hne : ∃ x tl, prefixSumsFrom dim (acc + p.mult dim) ps = x :: tl := by cases ps <;> exact ⟨_, _, rfl⟩
      have := ih (acc + p.mult dim)
      obtain ⟨x, tl, hx⟩ := hne
      simp only [prefixSumsFrom, multSum]
      rw [hx] at this ⊢
      rw [List.getLast?_cons_cons, this]
      omega

theorem minElement_mem (less : Nat → Nat → Bool) : ∀ (l : List Nat) (b : Nat), minElement less b l ∈ b :: l := by
  intro l
  induction l with
  | nil => intro b; simp [minElement]
  | cons i is ih =>
      intro b
      simp only [minElement]
      have := ih (if less i b then i else b)
      rcases List.mem_cons.1 this with h | h
      · rw [h]; split <;> simp
      · simp [h]

theorem findMid_single (dim : Nat) (p : MixedPoint) : findMid dim [p] = 0 := by
  simp [findMid, minElement]

theorem findMid_bounds {dim : Nat} (hd : 1 ≤ dim) (ms : List MixedPoint) (h : 2 ≤ ms.length) :
    1 ≤ findMid dim ms ∧ findMid dim ms < ms.length := by
  obtain ⟨a, b, tl, rfl⟩ : ∃ a b tl, ms = a :: b :: tl := by
    match ms, h with
    | a :: b :: tl, _ => exact ⟨a, b, tl, rfl⟩
  unfold findMid
  dsimp only
  rw [prefixSums_getLast]
  have hr : (List.range (a :: b :: tl).length).drop 1 = 1 :: (List.range tl.length).map (· + 2) := by
    simp [List.range_succ_eq_map, Function.comp_def]
  rw [hr]
  have hless : midLess (prefixSumsFrom dim 0 (a :: b :: tl)) ((0 + multSum dim (a :: b :: tl) : Nat) : Int) 1 0 = true := by
    unfold midLess
    have h0 : (prefixSumsFrom dim 0 (a :: b :: tl)).getD 0 0 = 0 := rfl
    have h1 : (prefixSumsFrom dim 0 (a :: b :: tl)).getD 1 0 = a.mult dim := by simp [prefixSumsFrom]
    dsimp only
    rw [h0, h1]
    have ha := mult_pos hd a
    have hb := mult_pos hd b
    have : |2 * ((a.mult dim : Nat) : Int) - ((0 + multSum dim (a :: b :: tl) : Nat) : Int)| <
        |2 * ((0 : Nat) : Int) - ((0 + multSum dim (a :: b :: tl) : Nat) : Int)| := by
      simp only [multSum]
      push_cast
      rw [abs_lt, abs_of_neg (by omega)]
      constructor <;> omega
    simp only [decide_eq_true this, Bool.true_or]
  simp only [minElement, hless, if_true]
  have hm := minElement_mem (midLess (prefixSumsFrom dim 0 (a :: b :: tl)) ((0 + multSum dim (a :: b :: tl) : Nat) : Int))
    ((List.range tl.length).map (· + 2)) 1
  rcases List.mem_cons.1 hm with h' | h'
  · rw [h']; simp
  · simp only [List.mem_map, List.mem_range] at h'
    obtain ⟨k, hk, hke⟩ := h'
    rw [← hke]
    simp only [List.length_cons]
    omega

/-! ## the loop -/

/-- What is assumed about `std::priority_queue`: the top element exists and has the smallest level. -/
structure Queue.Ok (q : Queue) : Prop where
  lt : ∀ cs, cs ≠ [] → q.top cs < cs.length
  min : ∀ cs c, cs[q.top cs]? = some c → ∀ c' ∈ cs, c.level ≤ c'.level

/-- all points of all clusters -/
def allPoints (cs : List Cluster) : List MixedPoint := cs.flatMap (fun c => c.points)

/-- sum of the multiplicities of the centres -/
def centerSum (dim : Nat) (cs : List Cluster) : Nat := multSum dim (cs.map (fun c => c.center))

/-- loop invariant -/
structure CInv (env : Env) (rootPts : List MixedPoint) (size : Int) (cs : List Cluster) : Prop where
  perm : (allPoints cs).Perm rootPts
  center : ∀ c ∈ cs, c.center ∈ c.points
  size_eq : size = (centerSum env.dim cs : Nat)

theorem frontLevel_le_aux (l : List Cluster) : ∀ (m : Int), (∀ c ∈ l, l.foldl (fun m c => min m c.level) m ≤ c.level) ∧
    l.foldl (fun m c => min m c.level) m ≤ m ∧
    ∀ t : Int, t ≤ m → (∀ c ∈ l, t ≤ c.level) → t ≤ l.foldl (fun m c => min m c.level) m := by
  induction l with
  | nil => intro m; simp
  | cons c cs ih =>
      intro m
      obtain ⟨h1, h2, h3⟩ := ih (min m c.level)
      refine ⟨?_, ?_, ?_⟩
      · intro c' hc'
        rcases List.mem_cons.1 hc' with rfl | hc'
        · exact h2.trans (min_le_right _ _)
        · exact h1 c' hc'
      · exact h2.trans (min_le_left _ _)
      · intro t ht hc
        exact h3 t (le_min ht (hc c (by simp))) (fun c' hc' => hc c' (by simp [hc']))

theorem le_frontLevel (q : Queue) (cs : List Cluster) (hne : cs ≠ []) (t : Int) (h : ∀ c ∈ cs, t ≤ c.level) :
    t ≤ frontLevel q cs := by
  cases cs with
  | nil => exact absurd rfl hne
  | cons c cs => exact (frontLevel_le_aux cs c.level).2.2 t (h c (by simp)) (fun c' hc' => h c' (by simp [hc']))

theorem perm_eraseIdx {α : Type _} {l : List α} {k : Nat} {x : α} (h : l[k]? = some x) :
    l.Perm (x :: l.eraseIdx k) := by
  obtain ⟨hk, hx⟩ := List.getElem?_eq_some_iff.1 h
  subst hx
  rw [List.eraseIdx_eq_take_drop_succ]
  calc l = l.take k ++ l.drop k := (List.take_append_drop k l).symm
    _ = l.take k ++ (l[k] :: l.drop (k + 1)) := by rw [List.drop_eq_getElem_cons hk]
    List.Perm _ (l[k] :: (l.take k ++ l.drop (k + 1))) := List.perm_middle

/-- one pass of the loop -/
theorem splitStep_spec {env : Env} (he : env.Ok) {q : Queue} (hq : q.Ok) {rootPts : List MixedPoint} {size : Int}
    {cs : List Cluster} (hne : cs ≠ []) (hI : CInv env rootPts size cs) :
    ∃ c rest size' cs', cs.Perm (c :: rest) ∧ (∀ c' ∈ cs, c.level ≤ c'.level) ∧
      splitStep env q size cs = .ok (size', cs') ∧ CInv env rootPts size' cs' ∧
      size' ≤ size + 2 * env.dim - 1 ∧
      ((c.points.length = 1 ∧ ∃ c1, cs' = rest ++ [c1] ∧ (rest ≠ [] → c.level < c1.level)) ∨
        (2 ≤ c.points.length ∧ ∃ c1 c2, cs' = rest ++ [c1, c2])) := by
  have hlt := hq.lt cs hne
  have hget : cs[q.top cs]? = some cs[q.top cs] := List.getElem?_eq_getElem hlt
  set c := cs[q.top cs] with hc
  have hperm := perm_eraseIdx hget
  set rest := cs.eraseIdx (q.top cs) with hrest
  have hmin := hq.min cs c hget
  have hcm : c ∈ cs := hperm.mem_iff.2 (by simp)
  have hcc := hI.center c hcm
  have hap : (allPoints cs).Perm (c.points ++ allPoints rest) := by
    have := hperm.flatMap_right (fun c => c.points)
    simpa [allPoints] using this
  have hcs : centerSum env.dim cs = c.center.mult env.dim + centerSum env.dim rest := by
    have := multSum_perm env.dim (hperm.map (fun c => c.center))
    simpa [centerSum, multSum] using this
  have hinit : ∀ lev (l : List MixedPoint), l ≠ [] →
      initCluster env lev l = .ok ⟨lev, env.sort l, env.center l⟩ := by
    intro lev l hl
    cases l with
    | nil => exact absurd rfl hl
    | cons a l => rfl
  have hd := he.dim_pos
  have hcenter : ∀ (l : List MixedPoint), l ≠ [] → env.center l ∈ env.sort l := fun l hl =>
    (he.sort l).mem_iff.2 (he.center l hl)
  have hrestc : ∀ c' ∈ rest, c'.center ∈ c'.points := fun c' h => hI.center c' (hperm.mem_iff.2 (by simp [h]))
  have hrlev : rest ≠ [] → c.level ≤ frontLevel q rest := fun h =>
    le_frontLevel q rest h c.level (fun c' h' => hmin c' (hperm.mem_iff.2 (by simp [h'])))
  have hcsz : size = (c.center.mult env.dim + centerSum env.dim rest : Nat) := by rw [hI.size_eq, hcs]
  have hcpos := mult_pos hd c.center
  by_cases h2 : 2 ≤ c.points.length
  · obtain ⟨hm1, hm2⟩ := findMid_bounds hd c.points h2
    set mid := findMid env.dim c.points with hmid
    have hl : c.points.take mid ≠ [] := by
      intro h; have := congrArg List.length h; rw [List.length_take, List.length_nil] at this; omega
    have hr : c.points.drop mid ≠ [] := by
      intro h; have := congrArg List.length h; simp at this; omega
    let c1 : Cluster := ⟨frontLevel q rest + 1, env.sort (c.points.take mid), env.center (c.points.take mid)⟩
    let c2 : Cluster := ⟨frontLevel q (rest ++ [c1]) + 1, env.sort (c.points.drop mid), env.center (c.points.drop mid)⟩
    refine ⟨c, rest, size - (c.center.mult env.dim : Nat) + (c1.center.mult env.dim : Nat) + (c2.center.mult env.dim : Nat),
      rest ++ [c1, c2], hperm, hmin, ?_, ?_, ?_, Or.inr ⟨h2, c1, c2, rfl⟩⟩
    · simp only [splitStep, hget, ← hmid, ← hrest]
      have hl' : (c.points.take mid).isEmpty = false := by simpa using hl
      have hr' : (c.points.drop mid).isEmpty = false := by simpa using hr
      simp only [hl', hr', Bool.false_eq_true, if_false, hinit _ _ hl, hinit _ _ hr, Outcome.ok_bind, Outcome.pure_eq,
        List.append_assoc, List.singleton_append]
      rfl
    · refine ⟨?_, ?_, ?_⟩
      · refine List.Perm.trans ?_ (hap.symm.trans hI.perm)
        have e : allPoints (rest ++ [c1, c2]) = allPoints rest ++ (c1.points ++ c2.points) := by simp [allPoints]
        rw [e]
        refine (List.perm_append_comm).trans (List.Perm.append_right _ ?_)
        have := (he.sort (c.points.take mid)).append (he.sort (c.points.drop mid))
        rwa [List.take_append_drop] at this
      · intro c' h'
        simp only [List.mem_append, List.mem_cons, List.not_mem_nil, or_false] at h'
        rcases h' with h' | rfl | rfl
        · exact hrestc c' h'
        · exact hcenter _ hl
        · exact hcenter _ hr
      · rw [hcsz]
        simp only [centerSum, List.map_append, multSum_append, List.map_cons, List.map_nil, multSum]
        push_cast
        ring
    · have e1 := mult_le hd c1.center
      have e2 := mult_le hd c2.center
      omega
  · have h1 : c.points.length = 1 := by
      have : c.points.length ≠ 0 := by intro h; rw [List.length_eq_zero_iff.1 h] at hcc; simp at hcc
      omega
    obtain ⟨p, hp⟩ := List.length_eq_one_iff.1 h1
    let c1 : Cluster := ⟨frontLevel q rest + 1, env.sort c.points, env.center c.points⟩
    have hne' : c.points ≠ [] := by rw [hp]; simp
    refine ⟨c, rest, size - (c.center.mult env.dim : Nat) + (c1.center.mult env.dim : Nat), rest ++ [c1], hperm, hmin,
      ?_, ?_, ?_, Or.inl ⟨h1, c1, rfl, ?_⟩⟩
    · have hmid : findMid env.dim c.points = 0 := by rw [hp]; exact findMid_single _ _
      simp only [splitStep, hget, hmid, ← hrest, List.take_zero, List.drop_zero, List.isEmpty_nil, if_true, Outcome.ok_bind]
      have hr' : c.points.isEmpty = false := by simpa using hne'
      simp only [hr', Bool.false_eq_true, if_false, hinit _ _ hne', Outcome.ok_bind, Outcome.pure_eq]
      rfl
    · refine ⟨?_, ?_, ?_⟩
      · refine List.Perm.trans ?_ (hap.symm.trans hI.perm)
        have e : allPoints (rest ++ [c1]) = allPoints rest ++ c1.points := by simp [allPoints]
        rw [e]
        exact (List.perm_append_comm).trans (List.Perm.append_right _ (he.sort c.points))
      · intro c' h'
        simp only [List.mem_append, List.mem_cons, List.not_mem_nil, or_false] at h'
        rcases h' with h' | rfl
        · exact hrestc c' h'
        · exact hcenter _ hne'
      · rw [hcsz]
        simp only [centerSum, List.map_append, multSum_append, List.map_cons, List.map_nil, multSum]
        push_cast
        ring
    · have e1 := mult_le hd c1.center
      omega
    · intro hr
      have := hrlev hr
      show c.level < frontLevel q rest + 1
      omega

theorem centerSum_le {env : Env} {rootPts : List MixedPoint} {size : Int} {cs : List Cluster}
    (hI : CInv env rootPts size cs) : centerSum env.dim cs ≤ multSum env.dim rootPts := by
  rw [← multSum_perm env.dim hI.perm]
  have hc := hI.center
  clear hI
  induction cs with
  | nil => simp [centerSum, multSum]
  | cons c cs ih =>
      have h1 : c.center.mult env.dim ≤ multSum env.dim c.points := by
        have := hc c (by simp)
        obtain ⟨s, t, hst⟩ := List.append_of_mem this
        rw [hst, multSum_append]
        simp only [multSum]
        omega
      have h2 := ih (fun c' h => hc c' (by simp [h]))
      simp only [centerSum, allPoints, List.flatMap_cons, multSum_append, List.map_cons, multSum] at h2 ⊢
      omega

theorem cs_ne_nil {env : Env} {rootPts : List MixedPoint} {size : Int} {cs : List Cluster}
    (hI : CInv env rootPts size cs) (hr : rootPts ≠ []) : cs ≠ [] := by
  rintro rfl
  have := hI.perm.length_eq
  simp only [allPoints, List.flatMap_nil, List.length_nil] at this
  exact hr (List.length_eq_zero_iff.1 this.symm)

theorem length_le {env : Env} {rootPts : List MixedPoint} {size : Int} {cs : List Cluster}
    (hI : CInv env rootPts size cs) : cs.length ≤ rootPts.length := by
  rw [← hI.perm.length_eq]
  have hc := hI.center
  clear hI
  induction cs with
  | nil => simp
  | cons c cs ih =>
      have h1 : 1 ≤ c.points.length := List.length_pos_of_mem (hc c (by simp))
      have h2 := ih (fun c' h => hc c' (by simp [h]))
      simp only [allPoints, List.flatMap_cons, List.length_append, List.length_cons] at h2 ⊢
      omega

theorem all_single {env : Env} {rootPts : List MixedPoint} {size : Int} {cs : List Cluster}
    (hI : CInv env rootPts size cs) (h : ∀ c ∈ cs, c.points.length = 1) :
    centerSum env.dim cs = multSum env.dim rootPts := by
  rw [← multSum_perm env.dim hI.perm]
  have hc := hI.center
  clear hI
  induction cs with
  | nil => simp [centerSum, allPoints, multSum]
  | cons c cs ih =>
      have h2 := ih (fun c' hm => h c' (by simp [hm])) (fun c' hm => hc c' (by simp [hm]))
      obtain ⟨p, hp⟩ := List.length_eq_one_iff.1 (h c (by simp))
      have h3 := hc c (by simp)
      rw [hp, List.mem_singleton] at h3
      simp only [centerSum, allPoints, List.flatMap_cons, multSum_append, List.map_cons, multSum, hp, h3] at h2 ⊢
      omega

/-- how far the levels are below `lev` -/
def levelGap (lev : Int) (cs : List Cluster) : Nat := (cs.map (fun c => (lev + 1 - c.level).toNat)).sum

theorem coarseLoop_spec {env : Env} (he : env.Ok) {q : Queue} (hq : q.Ok) {rootPts : List MixedPoint}
    (hr : rootPts ≠ []) {n : Int} (hn : n ≤ (multSum env.dim rootPts : Nat)) :
    ∀ (k g : Nat) (lev : Int) (size : Int) (cs : List Cluster), CInv env rootPts size cs →
    rootPts.length - cs.length ≤ k →
    ((∀ c ∈ cs, c.points.length = 1) ∨ ((∃ c ∈ cs, 2 ≤ c.points.length ∧ c.level = lev) ∧ levelGap lev cs ≤ g)) →
    size ≤ max (env.dim : Int) (n + 2 * env.dim - 2) →
    ∃ N cs' size', (∀ fuel, N < fuel → coarseLoop env q n fuel size cs = some (.ok cs')) ∧ CInv env rootPts size' cs' ∧
      n ≤ size' ∧ size' ≤ max (env.dim : Int) (n + 2 * env.dim - 2) := by
  have hexit : ∀ (size : Int) (cs : List Cluster), CInv env rootPts size cs → ¬ size < n →
      size ≤ max (env.dim : Int) (n + 2 * env.dim - 2) →
      ∃ N cs' size', (∀ fuel, N < fuel → coarseLoop env q n fuel size cs = some (.ok cs')) ∧ CInv env rootPts size' cs' ∧
      n ≤ size' ∧ size' ≤ max (env.dim : Int) (n + 2 * env.dim - 2) := by
    intro size cs hI hlt hb
    refine ⟨0, cs, size, ?_, hI, by omega, hb⟩
    intro fuel hf
    obtain ⟨f, rfl⟩ : ∃ f, fuel = f + 1 := ⟨fuel - 1, by omega⟩
    simp [coarseLoop, hlt]
  intro k
  induction k with
  | zero =>
      intro g lev size cs hI hk hs hb
      -- as many clusters as points: all are singletons
      have hle := length_le hI
      have hall : ∀ c ∈ cs, c.points.length = 1 := by
        have hlen := hI.perm.length_eq
        have hc := hI.center
        have : (allPoints cs).length ≤ cs.length := by omega
        clear hI hs hle hk hlen
        induction cs with
        | nil => simp
        | cons c cs ih =>
            have h1 : 1 ≤ c.points.length := List.length_pos_of_mem (hc c (by simp))
            have h2 : cs.length ≤ (allPoints cs).length := by
              have hc' := fun c' (h : c' ∈ cs) => hc c' (by simp [h])
              clear ih this
              induction cs with
              | nil => simp
              | cons d ds ih' =>
                  have h1 : 1 ≤ d.points.length := List.length_pos_of_mem (hc' d (by simp))
                  have h3 := ih' (fun c' h => hc c' (by
                    rcases List.mem_cons.1 h with rfl | h
                    · simp
                    · simp [h])) (fun c' h => hc' c' (by simp [h]))
                  simp only [allPoints, List.flatMap_cons, List.length_append, List.length_cons] at h3 ⊢
                  omega
            simp only [allPoints, List.flatMap_cons, List.length_append, List.length_cons] at this h2
            intro c' h'
            rcases List.mem_cons.1 h' with rfl | h'
            · omega
            · exact ih (fun c' h => hc c' (by simp [h])) (by simp only [allPoints]; omega) c' h'
      have := all_single hI hall
      have hsz := hI.size_eq
      exact hexit size cs hI (by rw [hsz, this]; omega) hb
  | succ k ihk =>
      intro g
      induction g with
      | zero =>
          intro lev size cs hI hk hs hb
          rcases hs with hs | ⟨⟨c, hc, h2, hl⟩, hg⟩
          · have := all_single hI hs
            have hsz := hI.size_eq
            exact hexit size cs hI (by rw [hsz, this]; omega) hb
          · exfalso
            have : (lev + 1 - c.level).toNat ≤ levelGap lev cs :=
              List.single_le_sum (by simp) _ (List.mem_map.2 ⟨c, hc, rfl⟩)
            omega
      | succ g ihg =>
          intro lev size cs hI hk hs hb
          by_cases hlt : size < n
          swap
          · exact hexit size cs hI hlt hb
          rcases hs with hs | ⟨⟨X, hX, hX2, hXl⟩, hg⟩
          · have := all_single hI hs
            have hsz := hI.size_eq
            exact hexit size cs hI (by rw [hsz, this]; omega) hb
          · obtain ⟨c, rest, size', cs', hperm, hmin, hstep, hI', hsz', hcase⟩ :=
              splitStep_spec he hq (cs_ne_nil hI hr) hI
            have hb' : size' ≤ max (env.dim : Int) (n + 2 * env.dim - 2) := le_max_of_le_right (by omega)
            have hrec : ∀ {N cs'' size''}, ((∀ fuel, N < fuel → coarseLoop env q n fuel size' cs' = some (.ok cs'')) ∧
                CInv env rootPts size'' cs'' ∧ n ≤ size'' ∧ size'' ≤ max (env.dim : Int) (n + 2 * env.dim - 2)) →
                ∃ N cs'' size'', (∀ fuel, N < fuel → coarseLoop env q n fuel size cs = some (.ok cs'')) ∧
                CInv env rootPts size'' cs'' ∧ n ≤ size'' ∧ size'' ≤ max (env.dim : Int) (n + 2 * env.dim - 2) := by
              rintro N cs'' size'' ⟨h1, h2, h3, h4⟩
              refine ⟨N + 1, cs'', size'', ?_, h2, h3, h4⟩
              intro fuel hf
              obtain ⟨f, rfl⟩ : ∃ f, fuel = f + 1 := ⟨fuel - 1, by omega⟩
              simp only [coarseLoop, if_pos hlt, hstep]
              exact h1 f (by omega)
            rcases hcase with ⟨h1, c1, rfl, hlev⟩ | ⟨h2, c1, c2, rfl⟩
            · -- a singleton was put back: X is still there and the level went up
              have hXr : X ∈ rest := by
                have := hperm.mem_iff.1 hX
                rcases List.mem_cons.1 this with rfl | h
                · omega
                · exact h
              have hlev' := hlev (List.ne_nil_of_mem hXr)
              have hcl := hmin X hX
              have hgap : levelGap lev (rest ++ [c1]) ≤ g := by
                have e1 : levelGap lev cs = (lev + 1 - c.level).toNat + levelGap lev rest := by
                  have := (hperm.map (fun c => (lev + 1 - c.level).toNat)).sum_eq
                  simpa [levelGap] using this
                have e2 : levelGap lev (rest ++ [c1]) = levelGap lev rest + (lev + 1 - c1.level).toNat := by
                  simp [levelGap]
                omega
              have hlen : (rest ++ [c1]).length = cs.length := by rw [hperm.length_eq]; simp
              obtain ⟨N, cs'', size'', h⟩ := ihg lev size' (rest ++ [c1]) hI' (by omega)
                (Or.inr ⟨⟨X, by simp [hXr], hX2, hXl⟩, hgap⟩) hb'
              exact hrec h
            · have hlen : (rest ++ [c1, c2]).length = cs.length + 1 := by rw [hperm.length_eq]; simp
              by_cases hall : ∀ c ∈ rest ++ [c1, c2], c.points.length = 1
              · obtain ⟨N, cs'', size'', h⟩ := ihk 0 0 size' _ hI' (by omega) (Or.inl hall) hb'
                exact hrec h
              · push Not at hall
                obtain ⟨Y, hY, hY1⟩ := hall
                have hYpos : 1 ≤ Y.points.length := List.length_pos_of_mem (hI'.center Y hY)
                obtain ⟨N, cs'', size'', h⟩ := ihk (levelGap Y.level (rest ++ [c1, c2])) Y.level size' _ hI' (by omega)
                  (Or.inr ⟨⟨Y, hY, by omega, rfl⟩, le_rfl⟩) hb'
                exact hrec h

theorem multSum_coarseRoot (dim : Nat) (pts grads poly : List Nat) :
    multSum dim (coarseRoot pts grads poly) = (pts.filter (fun i => i ∉ poly)).length + dim * grads.length := by
  have h := multSum_mixedPoints dim (root (pts.filter (fun i => i ∉ poly)) grads)
  simp only [mixedPoints, root, List.map_map, Function.comp_def, Domain.dof, List.length_map] at h
  simpa [coarseRoot] using h

theorem root_cinv {env : Env} (he : env.Ok) {l : List MixedPoint} (hl : l ≠ []) :
    initCluster env 0 l = .ok ⟨0, env.sort l, env.center l⟩ ∧
    CInv env l ((env.center l).mult env.dim : Nat) [⟨0, env.sort l, env.center l⟩] := by
  constructor
  · cases l with
    | nil => exact absurd rfl hl
    | cons a l => rfl
  · refine ⟨?_, ?_, ?_⟩
    · simpa [allPoints] using he.sort l
    · intro c hc
      simp only [List.mem_singleton] at hc
      subst hc
      exact (he.sort l).mem_iff.2 (he.center l hl)
    · simp [centerSum, multSum]

theorem coarseRoot_nodup {pts grads : List Nat} (poly : List Nat) (hp : pts.Nodup) (hg : grads.Nodup) :
    (coarseRoot pts grads poly).Nodup := by
  unfold coarseRoot
  rw [List.nodup_append]
  refine ⟨(hp.filter _).map (fun a b h => by injection h), hg.map (fun a b h => by injection h), ?_⟩
  intro a ha b hb hab
  obtain ⟨i, _, rfl⟩ := List.mem_map.1 ha
  obtain ⟨j, _, rfl⟩ := List.mem_map.1 hb
  injection hab with _ _ h
  simp at h

theorem centers_count {env : Env} {rootPts : List MixedPoint} {size : Int} {cs : List Cluster}
    (hI : CInv env rootPts size cs) (p : MixedPoint) : (cs.map (fun c => c.center)).count p ≤ rootPts.count p := by
  rw [← hI.perm.count_eq]
  have hc := hI.center
  clear hI
  induction cs with
  | nil => simp
  | cons c cs ih =>
      have h2 := ih (fun c' h => hc c' (by simp [h]))
      simp only [allPoints, List.flatMap_cons, List.map_cons, List.count_append, List.count_cons] at h2 ⊢
      have h3 : (if (c.center == p) = true then 1 else 0) ≤ c.points.count p := by
        split
        · rename_i h
          have : c.center = p := by simpa using h
          rw [← this]
          exact List.count_pos_iff.2 (hc c (by simp))
        · omega
      omega

theorem collect_dof (dim : Nat) (poly : List Nat) (cs : List Cluster) :
    ((cs.filter (fun c => !c.center.grad)).map (fun c => c.center.index)).length +
      dim * (collect poly cs).2.length = centerSum dim cs := by
  have := dof_toDomain dim (cs.map (fun c => c.center))
  simpa [Domain.dof, toDomain, List.filter_map, Function.comp_def, collect, centerSum] using this

/-- C23: if the points that are not polynomial points can supply the requested number `n` of degrees of freedom (and there
is at least one such point), the choice terminates; it returns the polynomial points first, then distinct other value
points of the set, and distinct gradient points of the set, which together supply at least `n` degrees of freedom, and at
most `2 * dim - 2` more (or those of a single point).  The order in which clusters of equal level are split, and what is
read from the destroyed cluster, are arbitrary. -/
theorem C23_chooses_requested_points {env : Env} (he : env.Ok) {q : Queue} (hq : q.Ok)
    {drain : List Cluster → List Cluster} (hdr : ∀ cs, (drain cs).Perm cs)
    {pts grads poly : List Nat} (hpts : pts.Nodup) (hgr : grads.Nodup) {n : Int}
    (hne : (∃ i ∈ pts, i ∉ poly) ∨ grads ≠ [])
    (hn : n ≤ ((pts.filter (fun i => i ∉ poly)).length + env.dim * grads.length : Nat)) :
    ∃ N rest gidcs, (∀ fuel, N < fuel →
        chooseCoarsePoints env q drain fuel pts grads poly n = some (.ok (poly ++ rest, gidcs))) ∧
      rest.Nodup ∧ (∀ i ∈ rest, i ∈ pts ∧ i ∉ poly) ∧ gidcs.Nodup ∧ (∀ i ∈ gidcs, i ∈ grads) ∧
      n ≤ (rest.length + env.dim * gidcs.length : Nat) ∧
      ((rest.length + env.dim * gidcs.length : Nat) : Int) ≤ max (env.dim : Int) (n + 2 * env.dim - 2) := by
  have hroot : coarseRoot pts grads poly ≠ [] := by
    rcases hne with ⟨i, hi, hip⟩ | hg
    · exact List.ne_nil_of_mem (a := ⟨i, true, false⟩) (by simp [coarseRoot, hi, hip])
    · obtain ⟨j, hj⟩ := List.exists_mem_of_ne_nil _ hg
      exact List.ne_nil_of_mem (a := ⟨j, true, true⟩) (by simp [coarseRoot, hj])
  obtain ⟨hinit, hI⟩ := root_cinv he hroot
  have hnd := coarseRoot_nodup poly hpts hgr
  have hsize : (((env.center (coarseRoot pts grads poly)).mult env.dim : Nat) : Int) ≤
      max (env.dim : Int) (n + 2 * env.dim - 2) := by
    refine le_max_of_le_left ?_
    exact_mod_cast mult_le he.dim_pos _
  have hstart : (∀ c ∈ [(⟨0, env.sort (coarseRoot pts grads poly), env.center (coarseRoot pts grads poly)⟩ : Cluster)],
      c.points.length = 1) ∨
      ((∃ c ∈ [(⟨0, env.sort (coarseRoot pts grads poly), env.center (coarseRoot pts grads poly)⟩ : Cluster)],
        2 ≤ c.points.length ∧ c.level = 0) ∧
        levelGap 0 [(⟨0, env.sort (coarseRoot pts grads poly), env.center (coarseRoot pts grads poly)⟩ : Cluster)] ≤ 1) := by
    have hpos : 1 ≤ (env.sort (coarseRoot pts grads poly)).length := by
      rw [(he.sort _).length_eq]; exact List.length_pos_of_ne_nil hroot
    by_cases h1 : (env.sort (coarseRoot pts grads poly)).length = 1
    · left; simpa using h1
    · right
      refine ⟨⟨_, List.mem_singleton.2 rfl, by simp only; omega, rfl⟩, by simp [levelGap]⟩
  obtain ⟨N, cs, size, hrun, hIc, hlo, hhi⟩ := coarseLoop_spec he hq hroot (n := n)
    (by rw [multSum_coarseRoot]; exact hn) _ 1 0 _ _ hI le_rfl hstart hsize
  have hdp := hdr cs
  have hcount : ∀ p, ((drain cs).map (fun c => c.center)).count p ≤ (coarseRoot pts grads poly).count p := by
    intro p
    rw [(hdp.map _).count_eq]
    exact centers_count hIc p
  have hcs_nodup : ((drain cs).map (fun c => c.center)).Nodup := by
    rw [List.nodup_iff_count_le_one]
    intro p
    exact (hcount p).trans (List.nodup_iff_count_le_one.1 hnd p)
  have hmem : ∀ c ∈ drain cs, c.center ∈ coarseRoot pts grads poly := by
    intro c hc
    have h1 := hcount c.center
    have h2 : 0 < ((drain cs).map (fun c => c.center)).count c.center :=
      List.count_pos_iff.2 (List.mem_map.2 ⟨c, hc, rfl⟩)
    exact List.count_pos_iff.1 (by omega)
  have hroots : ∀ p ∈ coarseRoot pts grads poly, p.inner = true ∧
      (p.grad = false → p.index ∈ pts ∧ p.index ∉ poly) ∧ (p.grad = true → p.index ∈ grads) := by
    intro p hp
    simp only [coarseRoot, List.mem_append, List.mem_map, List.mem_filter, decide_eq_true_eq] at hp
    rcases hp with ⟨i, ⟨h1, h2⟩, rfl⟩ | ⟨i, h1, rfl⟩
    · simp [h1, h2]
    · simp [h1]
  have hnodup : ∀ b : Bool, (((drain cs).filter (fun c => c.center.grad == b)).map (fun c => c.center.index)).Nodup := by
    intro b
    have h1 : (((drain cs).filter (fun c => c.center.grad == b)).map (fun c => c.center)).Nodup :=
      hcs_nodup.sublist (List.filter_sublist.map _)
    have h2 : ((drain cs).filter (fun c => c.center.grad == b)).map (fun c => c.center.index) =
        (((drain cs).filter (fun c => c.center.grad == b)).map (fun c => c.center)).map (fun p => p.index) := by
      rw [List.map_map]; rfl
    rw [h2]
    refine List.Nodup.map_on ?_ h1
    intro x hx y hy hxy
    obtain ⟨cx, hcx, rfl⟩ := List.mem_map.1 hx
    obtain ⟨cy, hcy, rfl⟩ := List.mem_map.1 hy
    rw [List.mem_filter] at hcx hcy
    have e1 := (hroots _ (hmem cx hcx.1)).1
    have e2 := (hroots _ (hmem cy hcy.1)).1
    have e3 : cx.center.grad = cy.center.grad := by
      have := hcx.2; have := hcy.2; simp_all
    cases h : cx.center
    cases h' : cy.center
    simp_all
  have hf : (fun c : Cluster => !c.center.grad) = (fun c => c.center.grad == false) := by
    funext c; cases c.center.grad <;> rfl
  have ht : (fun c : Cluster => c.center.grad) = (fun c => c.center.grad == true) := by
    funext c; cases c.center.grad <;> rfl
  refine ⟨N, ((drain cs).filter (fun c => !c.center.grad)).map (fun c => c.center.index), (collect poly (drain cs)).2,
    ?_, ?_, ?_, ?_, ?_, ?_, ?_⟩
  · intro fuel hfu
    simp only [chooseCoarsePoints, hinit, hrun fuel hfu, Option.map_some, Outcome.ok_bind, collect]
  · rw [hf]; exact hnodup false
  · intro i hi
    obtain ⟨c, hc, rfl⟩ := List.mem_map.1 hi
    rw [List.mem_filter] at hc
    exact (hroots _ (hmem c hc.1)).2.1 (by simpa using hc.2)
  · simp only [collect]; rw [ht]; exact hnodup true
  · intro i hi
    simp only [collect] at hi
    obtain ⟨c, hc, rfl⟩ := List.mem_map.1 hi
    rw [List.mem_filter] at hc
    exact (hroots _ (hmem c hc.1)).2.2 (by simpa using hc.2)
  · rw [collect_dof]
    have : centerSum env.dim (drain cs) = centerSum env.dim cs := multSum_perm _ (hdp.map _)
    rw [this, ← hIc.size_eq]; exact hlo
  · rw [collect_dof]
    have : centerSum env.dim (drain cs) = centerSum env.dim cs := multSum_perm _ (hdp.map _)
    rw [this, ← hIc.size_eq]; exact hhi

/-- C23 (violation): if more degrees of freedom are requested than the points other than the polynomial points have, the
choice never returns: single points are split into themselves for ever. -/
theorem C23_excessive_request_never_returns {env : Env} (he : env.Ok) {q : Queue} (hq : q.Ok)
    (drain : List Cluster → List Cluster) {pts grads poly : List Nat} {n : Int}
    (hne : (∃ i ∈ pts, i ∉ poly) ∨ grads ≠ [])
    (hn : ((pts.filter (fun i => i ∉ poly)).length + env.dim * grads.length : Nat) < n) (fuel : Nat) :
    chooseCoarsePoints env q drain fuel pts grads poly n = none := by
  have hroot : coarseRoot pts grads poly ≠ [] := by
    rcases hne with ⟨i, hi, hip⟩ | hg
    · exact List.ne_nil_of_mem (a := ⟨i, true, false⟩) (by simp [coarseRoot, hi, hip])
    · obtain ⟨j, hj⟩ := List.exists_mem_of_ne_nil _ hg
      exact List.ne_nil_of_mem (a := ⟨j, true, true⟩) (by simp [coarseRoot, hj])
  obtain ⟨hinit, hI⟩ := root_cinv he hroot
  have key : ∀ (fuel : Nat) (size : Int) (cs : List Cluster), CInv env (coarseRoot pts grads poly) size cs →
      coarseLoop env q n fuel size cs = none := by
    intro fuel
    induction fuel with
    | zero => intro _ _ _; rfl
    | succ f ih =>
        intro size cs hI
        have h1 := centerSum_le hI
        have h2 := hI.size_eq
        rw [multSum_coarseRoot] at h1
        have hlt : size < n := by rw [h2]; refine lt_of_le_of_lt ?_ hn; exact_mod_cast h1
        obtain ⟨c, rest, size', cs', _, _, hstep, hI', _⟩ := splitStep_spec he hq (cs_ne_nil hI hroot) hI
        simp only [coarseLoop, if_pos hlt, hstep]
        exact ih size' cs' hI'
  simp only [chooseCoarsePoints, hinit, key fuel _ _ hI, Option.map_none]

/-- C23 (violation): with nothing but polynomial points, `choose_coarse_points` dereferences a past-the-end iterator. -/
theorem C23_only_polynomial_points_is_undefined {env : Env} (q : Queue) (drain : List Cluster → List Cluster)
    (fuel : Nat) {pts poly : List Nat} (h : ∀ i ∈ pts, i ∈ poly) (n : Int) :
    chooseCoarsePoints env q drain fuel pts [] poly n = some .ub := by
  have : coarseRoot pts [] poly = [] := by
    simp only [coarseRoot, List.map_nil, List.append_nil, List.map_eq_nil_iff, List.filter_eq_nil_iff]
    intro i hi; simp [h i hi]
  simp [chooseCoarsePoints, this, initCluster]

/-- C23 (violation, reachable): 2049 value points in three dimensions with a linear polynomial (4 polynomial points) make
`RasPreconditioner` ask for 2047 or 2048 coarse degrees of freedom (`ras_preconditioner.hpp:134-139`; which one depends on
the rounding of `pow`), but only 2045 can be supplied. -/
theorem C23_2049_points_hang {env : Env} (he : env.Ok) {q : Queue} (hq : q.Ok) (drain : List Cluster → List Cluster)
    {poly : List Nat} (hpoly : poly.Nodup) (hl : poly.length = 4) (hsub : ∀ i ∈ poly, i < 2049) {n : Int} (hn : 2046 ≤ n)
    (fuel : Nat) : chooseCoarsePoints env q drain fuel (List.range 2049) [] poly n = none := by
  have hlen : ((List.range 2049).filter (fun i => i ∉ poly)).length = 2045 := by
    have h1 := List.length_eq_length_filter_add (l := List.range 2049) (fun i => decide (i ∈ poly))
    have h2 : ((List.range 2049).filter (fun i => decide (i ∈ poly))).Perm poly := by
      rw [List.perm_ext_iff_of_nodup (List.nodup_range.filter _) hpoly]
      intro a
      simp only [List.mem_filter, List.mem_range, decide_eq_true_eq]
      exact ⟨fun h => h.2, fun h => ⟨hsub a h, h⟩⟩
    rw [h2.length_eq, hl, List.length_range] at h1
    have h3 : (fun i => decide (i ∉ poly)) = (fun x => !decide (x ∈ poly)) := by funext x; simp
    rw [h3]
    omega
  apply C23_excessive_request_never_returns he hq
  · left
    have : 0 < ((List.range 2049).filter (fun i => i ∉ poly)).length := by omega
    obtain ⟨i, hi⟩ := List.exists_mem_of_length_pos this
    simp only [List.mem_filter, decide_eq_true_eq] at hi
    exact ⟨i, hi.1, hi.2⟩
  · rw [hlen]; simp; omega

/-- A queue meeting the assumptions: the first element of smallest level is on top. -/
def demoTop : List Cluster → Nat
  | [] => 0
  | c :: cs => cs.foldl (fun (s : Nat × Nat × Int) d => if d.level < s.2.2 then (s.2.1, s.2.1 + 1, d.level)
      else (s.1, s.2.1 + 1, s.2.2)) (0, 1, c.level) |>.1

theorem demoTop_aux : ∀ (pre cs : List Cluster) (b : Cluster) (k : Nat), pre[k]? = some b →
    (∀ c ∈ pre, b.level ≤ c.level) →
    ∃ b', (pre ++ cs)[(cs.foldl (fun (s : Nat × Nat × Int) d => if d.level < s.2.2 then (s.2.1, s.2.1 + 1, d.level)
      else (s.1, s.2.1 + 1, s.2.2)) (k, pre.length, b.level)).1]? = some b' ∧ ∀ c ∈ pre ++ cs, b'.level ≤ c.level := by
  intro pre cs
  induction cs generalizing pre with
  | nil => intro b k h1 h2; exact ⟨b, by simpa using h1, by simpa using h2⟩
  | cons d cs ih =>
      intro b k h1 h2
      have hl : (pre ++ [d]).length = pre.length + 1 := by simp
      simp only [List.foldl_cons]
      by_cases hd : d.level < b.level
      · rw [if_pos hd]
        have := ih (pre ++ [d]) d pre.length (by simp) (by
          intro c hc
          simp only [List.mem_append, List.mem_singleton] at hc
          rcases hc with hc | rfl
          · have := h2 c hc; omega
          · exact le_rfl)
        rw [hl] at this
        simpa using this
      · rw [if_neg hd]
        have hk : k < pre.length := (List.getElem?_eq_some_iff.1 h1).1
        have := ih (pre ++ [d]) b k (by rw [List.getElem?_append_left hk]; exact h1) (by
          intro c hc
          simp only [List.mem_append, List.mem_singleton] at hc
          rcases hc with hc | rfl
          · exact h2 c hc
          · omega)
        rw [hl] at this
        simpa using this

theorem demoQueue_ok : (Queue.mk demoTop (fun _ => 0)).Ok := by
  have key : ∀ cs : List Cluster, cs ≠ [] → ∃ b, cs[demoTop cs]? = some b ∧ ∀ c ∈ cs, b.level ≤ c.level := by
    intro cs hne
    cases cs with
    | nil => exact absurd rfl hne
    | cons c cs =>
        have := demoTop_aux [c] cs c 0 (by simp) (by simp)
        simpa [demoTop] using this
  constructor
  · intro cs hne
    obtain ⟨b, h, _⟩ := key cs hne
    exact (List.getElem?_eq_some_iff.1 h).1
  · intro cs c hc
    have hne : cs ≠ [] := by rintro rfl; simp at hc
    obtain ⟨b, h, h2⟩ := key cs hne
    rw [show (Queue.mk demoTop (fun _ => 0)).top cs = demoTop cs from rfl, h] at hc
    injection hc with hc
    subst hc
    exact h2

example (fuel : Nat) : chooseCoarsePoints demoEnv ⟨demoTop, fun _ => 0⟩ id fuel (List.range 2049) [] [0, 5, 9, 700] 2048 = none :=
  C23_2049_points_hang demoEnv_ok demoQueue_ok id (by decide) (by decide) (by decide) (by decide) fuel

example : ∃ N rest gidcs, (∀ fuel, N < fuel →
    chooseCoarsePoints demoEnv ⟨demoTop, fun _ => 0⟩ id fuel (List.range 3000) (List.range 50) [0, 5, 9, 700] 2048 =
      some (.ok ([0, 5, 9, 700] ++ rest, gidcs))) ∧ (2048 : Int) ≤ (rest.length + demoEnv.dim * gidcs.length : Nat) := by
  obtain ⟨N, rest, g, h1, _, _, _, _, h2, _⟩ := C23_chooses_requested_points demoEnv_ok demoQueue_ok (drain := id)
    (fun cs => List.Perm.refl cs) (pts := List.range 3000) (grads := List.range 50) (poly := [0, 5, 9, 700])
    List.nodup_range List.nodup_range (n := 2048) (Or.inr (by simp)) (by
      have : 2996 ≤ ((List.range 3000).filter (fun i => i ∉ [0, 5, 9, 700])).length := by decide +kernel
      have hd : demoEnv.dim = 3 := rfl
      rw [List.length_range, hd]
      omega)
  exact ⟨N, rest, g, h1, h2⟩

/-! ## balance -/

theorem prefixSums_get (dim : Nat) : ∀ (ms : List MixedPoint) (acc k : Nat), k ≤ ms.length →
    (prefixSumsFrom dim acc ms).getD k 0 = acc + multSum dim (ms.take k) := by
  intro ms
  induction ms with
  | nil => intro acc k hk; obtain rfl : k = 0 := by simpa using hk
           simp [prefixSumsFrom, multSum]
  | cons p ps ih =>
      intro acc k hk
      cases k with
      | zero => simp [prefixSumsFrom, multSum]
      | succ k =>
          have := ih (acc + p.mult dim) k (by simpa using hk)
          simp only [prefixSumsFrom, List.getD_cons_succ, List.take_succ_cons, multSum]
          rw [this]; omega

theorem minElement_le {less : Nat → Nat → Bool} {d : Nat → Int} (h1 : ∀ i j, less i j = true → d i ≤ d j)
    (h2 : ∀ i j, less i j = false → d j ≤ d i) : ∀ (l : List Nat) (b : Nat), ∀ k ∈ b :: l, d (minElement less b l) ≤ d k := by
  intro l
  induction l with
  | nil => intro b k hk; simp only [List.mem_singleton] at hk; rw [hk]; exact le_refl _
  | cons i is ih =>
      intro b k hk
      simp only [minElement]
      have hb := ih (if less i b then i else b) _ (List.mem_cons_self ..)
      rcases List.mem_cons.1 hk with rfl | hk
      · refine hb.trans ?_
        split
        · exact h1 _ _ (by assumption)
        · exact le_refl _
      · rcases List.mem_cons.1 hk with rfl | hk
        · refine hb.trans ?_
          split
          · exact le_refl _
          · rename_i hc; exact h2 _ _ (by simpa using hc)
        · exact ih _ k (List.mem_cons_of_mem _ hk)

/-- **C23.** A cluster is split where the degrees of freedom on the two sides differ least. -/
theorem C23_split_is_balanced (dim : Nat) (ms : List MixedPoint) (k : Nat) (hk : k < ms.length) :
    |(multSum dim (ms.take (findMid dim ms)) : Int) - multSum dim (ms.drop (findMid dim ms))| ≤
      |(multSum dim (ms.take k) : Int) - multSum dim (ms.drop k)| := by
  have hsplit : ∀ j, (multSum dim (ms.drop j) : Int) = multSum dim ms - multSum dim (ms.take j) := by
    intro j
    have : multSum dim ms = multSum dim (ms.take j) + multSum dim (ms.drop j) := by
      conv_lhs => rw [← List.take_append_drop j ms]
      rw [multSum_append]
    omega
  have hmem : ∀ b (l : List Nat), minElement (midLess (prefixSumsFrom dim 0 ms) b) 0 l ∈ 0 :: l := fun b l => minElement_mem _ l 0
  have hrange : 0 :: (List.range ms.length).drop 1 = List.range ms.length := by
    cases hl : ms.length with
    | zero => omega
    | succ n => rw [List.range_succ_eq_map]; rfl
  have hlt : findMid dim ms < ms.length := by
    have := hmem (((prefixSumsFrom dim 0 ms).getLast?.getD 0 : Nat) : Int) ((List.range ms.length).drop 1)
    rw [hrange, List.mem_range] at this
    exact this
  have hle : |2 * (((prefixSumsFrom dim 0 ms).getD (findMid dim ms) 0 : Nat) : Int) - (0 + multSum dim ms : Nat)| ≤
      |2 * (((prefixSumsFrom dim 0 ms).getD k 0 : Nat) : Int) - (0 + multSum dim ms : Nat)| := by
    unfold findMid
    dsimp only
    rw [prefixSums_getLast]
    apply minElement_le (d := fun i => |2 * (((prefixSumsFrom dim 0 ms).getD i 0 : Nat) : Int) - (0 + multSum dim ms : Nat)|)
    · intro i j h
      unfold midLess at h
      simp only [Bool.or_eq_true, decide_eq_true_eq, Bool.and_eq_true] at h
      rcases h with h | ⟨h, -⟩
      · exact h.le
      · exact h.le
    · intro i j h
      unfold midLess at h
      simp only [Bool.or_eq_false_iff, decide_eq_false_iff_not, not_lt] at h
      exact h.1
    · rw [hrange, List.mem_range]; exact hk
  rw [prefixSums_get dim ms 0 _ hlt.le, prefixSums_get dim ms 0 k hk.le] at hle
  rw [hsplit, hsplit]
  have a : ∀ x : Nat, (x : Int) - ((multSum dim ms : Int) - x) = 2 * ((0 + x : Nat) : Int) - ((0 + multSum dim ms : Nat) : Int) := by
    intro x; push_cast; ring
  rw [a, a]
  exact hle

/-- in three dimensions, one point with a gradient and three without: the split is after the first of them -/
example : findMid 3 [⟨0, true, true⟩, ⟨1, true, false⟩, ⟨2, true, false⟩, ⟨3, true, false⟩] = 1 := by decide

end Verif.DomainDivider
