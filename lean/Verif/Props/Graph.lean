import Verif.Lemmas.Graph

/-!
# C09: DenseUndirectedGraph answers its queries correctly for every sequence of added edges
-/

namespace Verif.Graph

open Verif Spec

/-- Edges between existing vertices can always be added (and the queries below never run into undefined behaviour); an
edge with an endpoint out of range is an out-of-bounds write; order 0 is rejected. -/
theorem C09_build (n : Nat) (es : List (Nat × Nat)) :
    (n = 0 → build n es = .throws .invalidArgument) ∧
    (n ≠ 0 → (∀ e ∈ es, e.1 < n ∧ e.2 < n) → ∃ g, build n es = .ok g ∧ g.order = n) ∧
    (n ≠ 0 → (¬ ∀ e ∈ es, e.1 < n ∧ e.2 < n) → build n es = .ub) := by
  refine ⟨?_, ?_, ?_⟩
  · rintro rfl; simp [build, mk]
  · intro hn hr
    obtain ⟨g, h1, h2⟩ := rep_build n hn es hr
    exact ⟨g, h1, h2.order⟩
  · intro hn hr
    have key : ∀ (es : List (Nat × Nat)) (g : G), g.order = n → (¬ ∀ e ∈ es, e.1 < n ∧ e.2 < n) → addEdges g es = .ub := by
      intro es
      induction es with
      | nil => intro g _ h; exact absurd (fun e he => by cases he) h
      | cons e es ih =>
        obtain ⟨i, j⟩ := e
        intro g hg h
        unfold addEdges
        by_cases he : i < n ∧ j < n
        · have h' : ¬ ∀ e ∈ es, e.1 < n ∧ e.2 < n := by
            intro hh
            apply h
            intro e hm
            rcases List.mem_cons.1 hm with rfl | hm
            · exact he
            · exact hh e hm
          have ha : ∃ g', addEdge g i j = .ok g' ∧ g'.order = n := by
            unfold addEdge
            by_cases hij : i > j
            · rw [if_pos hij]
              dsimp only
              rw [if_pos (by rw [hg]; exact ⟨he.2, he.1⟩)]
              exact ⟨_, rfl, hg⟩
            · rw [if_neg hij]
              dsimp only
              rw [if_pos (by rw [hg]; exact he)]
              exact ⟨_, rfl, hg⟩
          obtain ⟨g', h1, h2⟩ := ha
          rw [h1]
          exact ih g' h2 h'
        · have ha : addEdge g i j = .ub := by
            unfold addEdge
            by_cases hij : i > j
            · rw [if_pos hij]
              dsimp only
              rw [if_neg (by rw [hg]; exact fun hh => he ⟨hh.2, hh.1⟩)]
            · rw [if_neg hij]
              dsimp only
              rw [if_neg (by rw [hg]; exact he)]
          rw [ha]
          rfl
    unfold build mk
    rw [if_neg hn]
    exact key es _ rfl hr

theorem rep_of_build {n : Nat} {es : List (Nat × Nat)} {g : G} (h : build n es = .ok g)
    (hr : ∀ e ∈ es, e.1 < n ∧ e.2 < n) : 0 < n ∧ Rep g n es := by
  by_cases hn : n = 0
  · rw [(C09_build n es).1 hn] at h; cases h
  · obtain ⟨g', h1, h2⟩ := rep_build n hn es hr
    rw [h] at h1
    obtain rfl : g = g' := by simpa using h1
    exact ⟨by omega, h2⟩

/-- **C09, connectivity.** `is_connected()` terminates, and is true iff every two vertices are joined by a path. -/
theorem C09_is_connected (n : Nat) (es : List (Nat × Nat)) (hr : ∀ e ∈ es, e.1 < n ∧ e.2 < n) (g : G)
    (h : build n es = .ok g) :
    ∃ b, isConnected g = .ok b ∧ (b = true ↔ ∀ x y, x < n → y < n → Reach es x y) := by
  obtain ⟨hn, hrep⟩ := rep_of_build h hr
  obtain ⟨b, h1, h2⟩ := isConnected_spec hrep hn
  refine ⟨b, h1, h2.trans ⟨fun h x y hx hy => (reach_symm (h x hx)).trans (h y hy), fun h x hx => h 0 x hn hx⟩⟩

/-- **C09, components.** `connected_components()` terminates and lists the classes of reachability: every vertex once,
two vertices in one component iff joined by a path, components and their members in increasing order. -/
theorem C09_connected_components (n : Nat) (es : List (Nat × Nat)) (hr : ∀ e ∈ es, e.1 < n ∧ e.2 < n) (g : G)
    (h : build n es = .ok g) :
    ∃ gs, connectedComponents g = .ok gs ∧ IsClasses n (Reach es) gs :=
  connectedComponents_spec (rep_of_build h hr).2

/-- **C09, simplicity.** `is_simple()` iff there is no loop and no repeated edge (in either direction). -/
theorem C09_is_simple (n : Nat) (es : List (Nat × Nat)) (hr : ∀ e ∈ es, e.1 < n ∧ e.2 < n) (g : G)
    (h : build n es = .ok g) : isSimple g = true ↔ Simple es :=
  isSimple_iff (rep_of_build h hr).2

/-- **C09, degrees.** `max_degree()` is the largest and `min_degree()` the smallest number of edges at a vertex. -/
theorem C09_degrees (n : Nat) (es : List (Nat × Nat)) (hr : ∀ e ∈ es, e.1 < n ∧ e.2 < n) (g : G)
    (h : build n es = .ok g) :
    ((∀ v, v < n → (Spec.degree es v : Int) ≤ maxDegree g) ∧ ∃ v, v < n ∧ maxDegree g = (Spec.degree es v : Int)) ∧
    ((∀ v, v < n → minDegree g ≤ (Spec.degree es v : Int)) ∧ ∃ v, v < n ∧ minDegree g = (Spec.degree es v : Int)) := by
  obtain ⟨hn, hrep⟩ := rep_of_build h hr
  have hord := hrep.order
  have hmax : ∀ k : Int, maxDegree g ≤ k ↔ 0 ≤ k ∧ ∀ v, v < n → (Spec.degree es v : Int) ≤ k := by
    intro k
    rw [maxDegree, foldl_max_le]
    apply and_congr_right; intro _
    rw [hord]
    exact forall_congr' (fun v => by
      rw [List.mem_range]
      exact ⟨fun hh hv => by rw [← hrep.degree v hv]; exact hh hv,
             fun hh hv => by rw [hrep.degree v hv]; exact hh hv⟩)
  have hmin : ∀ k : Int, k ≤ minDegree g ↔ ∀ v, v < n → k ≤ (Spec.degree es v : Int) := by
    intro k
    rw [minDegree, le_foldl_min, hrep.degree 0 hn, hord]
    constructor
    · rintro ⟨h0, h1⟩ v hv
      by_cases e : v = 0
      · subst e; exact h0
      · rw [← hrep.degree v hv]; exact h1 v (by rw [List.mem_range'_1]; omega)
    · intro hh
      refine ⟨hh 0 hn, fun v hv => ?_⟩
      rw [List.mem_range'_1] at hv
      rw [hrep.degree v (by omega)]; exact hh v (by omega)
  refine ⟨⟨((hmax _).1 (le_refl _)).2, ?_⟩, ⟨(hmin _).1 (le_refl _), ?_⟩⟩
  · by_contra hno
    have h1 := (hmax (maxDegree g)).1 (le_refl _)
    have h2 : ∀ v, v < n → (Spec.degree es v : Int) ≤ maxDegree g - 1 := by
      intro v hv
      have := h1.2 v hv
      have : maxDegree g ≠ (Spec.degree es v : Int) := fun e => hno ⟨v, hv, e⟩
      omega
    have h3 := h2 0 hn
    have := (hmax (maxDegree g - 1)).2 ⟨by omega, h2⟩
    omega
  · by_contra hno
    have h1 := (hmin (minDegree g)).1 (le_refl _)
    have h2 : ∀ v, v < n → minDegree g + 1 ≤ (Spec.degree es v : Int) := by
      intro v hv
      have := h1 v hv
      have : minDegree g ≠ (Spec.degree es v : Int) := fun e => hno ⟨v, hv, e⟩
      omega
    have := (hmin (minDegree g + 1)).2 h2
    omega

/-- Non-vacuity: a graph with two components, a loop and a repeated edge. -/
example : (∀ e ∈ [(0, 2), (2, 0), (1, 1), (3, 1)], e.1 < 4 ∧ e.2 < 4) ∧
    ∃ g, build 4 [(0, 2), (2, 0), (1, 1), (3, 1)] = .ok g ∧ isConnected g = .ok false ∧
      connectedComponents g = .ok [[0, 2], [1, 3]] ∧ isSimple g = false ∧ maxDegree g = 2 := by
  refine ⟨by decide, _, rfl, by decide, by decide, by decide, by decide⟩

/-- The out-of-bounds write. -/
example : build 2 [(0, 2)] = .ub := rfl

end Verif.Graph
