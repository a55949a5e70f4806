import Verif.Lemmas.ClustererTopo

/-!
# Directed edges after merging
-/

namespace Verif.Clusterer

open Verif Verif.AbstractMesh
open Verif.Clusterer.Spec
open Verif.Predicates (P3)
open Verif.Snapper.Spec (sides net)
open Verif.MeshDefects.Spec (Incident PathOrCycle link)

variable {I : Input} {K : List Nat → Prop} {place : List Nat → P3} {num : Nat → Nat} {out : Out}

theorem sides_append (l l' : List Face) : sides (l ++ l') = sides l ++ sides l' := by simp [sides]

theorem net_append (l l' : List Face) (a b : Nat) : net (l ++ l') a b = net l a b + net l' a b := by
  unfold net
  rw [sides_append, List.count_append, List.count_append]
  push_cast; ring

theorem net_cons (f : Face) (l : List Face) (a b : Nat) : net (f :: l) a b = net [f] a b + net l a b := net_append [f] l a b

theorem net_perm {l l' : List Face} (h : l.Perm l') (a b : Nat) : net l a b = net l' a b := by
  have : (sides l).Perm (sides l') := List.Perm.flatMap_right _ h
  unfold net
  rw [this.count_eq, this.count_eq]

theorem net_filter (p : Face → Bool) (l : List Face) (a b : Nat) : net l a b = net (l.filter p) a b + net (l.filter fun f => !p f) a b := by
  rw [← net_append]
  exact net_perm (List.filter_append_perm p l).symm a b

theorem net_opposite {f g : Face} (h : Opposite f g) (a b : Nat) : net [f] a b + net [g] a b = 0 := by
  have key : ∀ (x y z : Nat), net [(x, y, z)] a b + net [(x, z, y)] a b = 0 := by
    intro x y z
    have e : ∀ (p q r s : Nat), ((p, q) : Nat × Nat) = (r, s) ↔ ((q, p) : Nat × Nat) = (s, r) := by
      intro p q r s; simp only [Prod.mk.injEq]; exact And.comm
    unfold net sides
    simp only [List.flatMap_cons, List.flatMap_nil, List.append_nil, List.count_cons, List.count_nil, beq_iff_eq]
    simp only [e x z, e z y, e y x]
    omega
  have rot : ∀ (x y z : Nat), net [(x, y, z)] a b = net [(y, z, x)] a b := by
    intro x y z
    unfold net sides
    simp only [List.flatMap_cons, List.flatMap_nil, List.append_nil, List.count_cons, List.count_nil]
    push_cast
    ring
  obtain ⟨x, y, z⟩ := f
  unfold Opposite at h
  dsimp only at h
  rcases h with rfl | rfl | rfl
  · exact key x y z
  · rw [rot z y x, rot y x z]; exact key x y z
  · rw [rot y x z]; exact key x y z

/-- Faces in pairs cancel out. -/
theorem net_pairs (a b : Nat) : ∀ (n : Nat) (D : List Face), D.length ≤ n → (∀ f ∈ D, Nondeg f) → (∀ f ∈ D, coincident D f = 2 ∧ ∃ g ∈ D, Opposite f g) → net D a b = 0
  | _, [], _, _, _ => rfl
  | 0, _ :: _, h, _, _ => absurd h (by simp)
  | n + 1, f :: D', hlen, hn, h => by
      obtain ⟨hc, g, hg, ho⟩ := h f (List.mem_cons_self ..)
      have hne : f ≠ g := (opposite_winding (hn f (List.mem_cons_self ..)) ho).2
      have hg' : g ∈ D' := by
        rcases List.mem_cons.1 hg with h | h
        · exact absurd h.symm hne
        · exact h
      have hp : D'.Perm (g :: D'.erase g) := List.perm_cons_erase hg'
      have hpg := opposite_perm ho
      -- no other face has these corners
      have hother : ∀ x ∈ D'.erase g, ¬ [f.1, f.2.1, f.2.2].Perm [x.1, x.2.1, x.2.2] := by
        intro x hx hpx
        have e : coincident (f :: D') f = coincident (f :: g :: D'.erase g) f := (hp.cons f).countP_eq _
        rw [e] at hc
        unfold coincident at hc
        rw [List.countP_cons, List.countP_cons, if_pos (decide_eq_true (List.Perm.refl _)), if_pos (decide_eq_true hpg)] at hc
        have : 0 < (D'.erase g).countP fun y => [f.1, f.2.1, f.2.2].Perm [y.1, y.2.1, y.2.2] := List.countP_pos_iff.2 ⟨x, hx, decide_eq_true hpx⟩
        omega
      have hsub : ∀ x ∈ D'.erase g, x ∈ f :: D' := fun x hx => List.mem_cons_of_mem _ (List.mem_of_mem_erase hx)
      have ih := net_pairs a b n (D'.erase g) (by
        have := hp.length_eq
        simp only [List.length_cons] at this hlen
        omega) (fun x hx => hn x (hsub x hx)) (by
        intro x hx
        obtain ⟨h1, y, hy, h2⟩ := h x (hsub x hx)
        have hxf : ¬ [x.1, x.2.1, x.2.2].Perm [f.1, f.2.1, f.2.2] := fun hh => hother x hx hh.symm
        have hxg : ¬ [x.1, x.2.1, x.2.2].Perm [g.1, g.2.1, g.2.2] := fun hh => hxf (hh.trans hpg.symm)
        have e : coincident (f :: D') x = coincident (f :: g :: D'.erase g) x := (hp.cons f).countP_eq _
        refine ⟨?_, y, ?_, h2⟩
        · rw [e] at h1
          unfold coincident at h1
          rw [List.countP_cons, List.countP_cons, if_neg (by rw [decide_eq_true_eq]; exact hxg), if_neg (by rw [decide_eq_true_eq]; exact hxf)] at h1
          exact h1
        · have hy' := (hp.cons f).mem_iff.1 hy
          rcases List.mem_cons.1 hy' with rfl | hy'
          · exact absurd (opposite_perm h2) hxf
          · rcases List.mem_cons.1 hy' with rfl | hy'
            · exact absurd (opposite_perm h2) hxg
            · exact hy')
      rw [net_perm (hp.cons f), net_cons f, net_cons g, ih, add_zero]
      exact net_opposite ho a b

/-- Dropping folded faces changes no net. -/
theorem net_removed {fs : List Face} (hn : ∀ f ∈ fs, Nondeg f) (a b : Nat) : net (removeBackToBack fs) a b = net fs a b := by
  have h0 : net (fs.filter fun f => drops fs (key f)) a b = 0 := by
    refine net_pairs a b _ _ le_rfl (fun f hf => hn f (List.mem_filter.1 hf).1) ?_
    intro f hf
    obtain ⟨hm, hd⟩ := List.mem_filter.1 hf
    obtain ⟨⟨g, hg, ho⟩, hc, hs⟩ := (drops_iff hn hm).1 hd
    refine ⟨?_, g, List.mem_filter.2 ⟨hg, ?_⟩, ho⟩
    · rw [← hc]
      unfold coincident
      rw [List.countP_filter]
      apply List.countP_congr
      intro g _
      simp only [Bool.and_eq_true, decide_eq_true_eq, and_iff_left_iff_imp]
      intro hp
      rw [← key_eq.2 hp]
      exact hd
    · rw [← key_eq.2 (opposite_perm ho)]; exact hd
  have := net_filter (fun f => drops fs (key f)) fs a b
  rw [h0, zero_add] at this
  exact this.symm

theorem quotient_faces (hq : Quotient I K place num out) : out.faces = removeBackToBack (renamed num I.faces) := by
  obtain ⟨p, hp, e⟩ := hq.faces
  obtain ⟨p', hp', e'⟩ := removeBackToBack_spec (fs := renamed num I.faces) fun f hf => (renamed_mem.1 hf).choose_spec.2.2
  rw [e, e']
  apply List.filter_congr
  intro f _
  have : p f = true ↔ p' f = true := (hp f).trans (hp' f).symm
  exact Bool.eq_iff_iff.2 this

/-- The sides of the renamed faces. -/
theorem net_renamed {a b : Nat} (hab : a ≠ b) : ∀ (fs : List Face), net (renamed num fs) a b =
    ((sides fs).countP (fun e => num e.1 = a ∧ num e.2 = b) : ℤ) - ((sides fs).countP (fun e => num e.1 = b ∧ num e.2 = a) : ℤ)
  | [] => rfl
  | f :: fs => by
      have ih := net_renamed hab fs
      have hs : sides (f :: fs) = sides [f] ++ sides fs := sides_append [f] fs
      rw [hs, List.countP_append, List.countP_append]
      have h1 : net [rename num f] a b = ((sides [f]).countP (fun e => num e.1 = a ∧ num e.2 = b) : ℤ) - ((sides [f]).countP (fun e => num e.1 = b ∧ num e.2 = a) : ℤ) := by
        unfold net
        have hcount : ∀ x y : Nat, (sides [rename num f]).count (x, y) = (sides [f]).countP (fun e => num e.1 = x ∧ num e.2 = y) := by
          intro x y
          unfold sides rename List.count
          simp only [List.flatMap_cons, List.flatMap_nil, List.append_nil, List.countP_cons, List.countP_nil, beq_iff_eq, Prod.mk.injEq, decide_eq_true_eq]
        rw [hcount, hcount]
      by_cases hc : Nondeg (rename num f)
      · have e : renamed num (f :: fs) = rename num f :: renamed num fs := by
          unfold renamed
          rw [List.map_cons, List.filter_cons, if_pos (by rw [decide_eq_true_eq]; exact hc)]
        rw [e, net_cons, ih, h1]
        push_cast; ring
      · have e : renamed num (f :: fs) = renamed num fs := by
          unfold renamed
          rw [List.map_cons, List.filter_cons, if_neg (by rw [decide_eq_true_eq]; exact hc)]
        have h0 : net [rename num f] a b = 0 := by
          generalize rename num f = g at *
          obtain ⟨x, y, z⟩ := g
          have hc' : x = y ∨ y = z ∨ z = x := by
            unfold Nondeg at hc
            dsimp only at hc
            tauto
          unfold net sides
          simp only [List.flatMap_cons, List.flatMap_nil, List.append_nil, List.count_cons, List.count_nil, beq_iff_eq, Prod.mk.injEq]
          have e1 : ∀ p q : Nat, (p = b ∧ q = a) ↔ (q = a ∧ p = b) := fun p q => And.comm
          have e2 : ∀ p : Nat, ¬ (p = a ∧ p = b) := fun p h => hab (h.1.symm.trans h.2)
          simp only [e1]
          rcases hc' with rfl | rfl | rfl
          · simp only [e2, if_false]; push_cast; ring
          · simp only [e2, if_false]; push_cast; ring
          · simp only [e2, if_false]; push_cast; ring
        rw [e, ih]
        rw [h0] at h1
        push_cast
        linarith

/-- The surplus of a directed edge of the result. -/
theorem net_out (hq : Quotient I K place num out) {a b : Nat} (hab : a ≠ b) : net out.faces a b =
    ((sides I.faces).countP (fun e => num e.1 = a ∧ num e.2 = b) : ℤ) - ((sides I.faces).countP (fun e => num e.1 = b ∧ num e.2 = a) : ℤ) := by
  rw [quotient_faces hq, net_removed (fun f hf => (renamed_mem.1 hf).choose_spec.2.2), net_renamed hab]

/-- If the surplus of all edges into one is zero, that of the result is. -/
theorem balanced {l : List (Nat × Nat)} {p : Nat × Nat → Bool} (h : ∀ u v, p (u, v) = true → l.count (u, v) = l.count (v, u)) : l.countP p = l.countP fun e => p (e.2, e.1) := by
  have hperm : (l.filter p).Perm ((l.filter fun e => p (e.2, e.1)).map fun e => (e.2, e.1)) := by
    rw [List.perm_iff_count]
    rintro ⟨u, v⟩
    have hinj : Function.Injective (fun e : Nat × Nat => (e.2, e.1)) := by
      rintro ⟨a, b⟩ ⟨c, d⟩ h
      simp only [Prod.mk.injEq] at h
      rw [h.1, h.2]
    have e : ((l.filter fun e => p (e.2, e.1)).map fun e => (e.2, e.1)).count (u, v) = (l.filter fun e => p (e.2, e.1)).count (v, u) :=
      List.count_map_of_injective _ (fun e : Nat × Nat => (e.2, e.1)) hinj (v, u)
    rw [e]
    by_cases hp : p (u, v) = true
    · rw [List.count_filter hp, List.count_filter (p := fun e : Nat × Nat => p (e.2, e.1)) (a := (v, u)) hp, h u v hp]
    · rw [List.count_eq_zero_of_not_mem, List.count_eq_zero_of_not_mem]
      · intro hm; exact hp (List.mem_filter.1 hm).2
      · intro hm; exact hp (List.mem_filter.1 hm).2
  rw [List.countP_eq_length_filter, List.countP_eq_length_filter, hperm.length_eq, List.length_map]

theorem net_zero_iff {fs : List Face} {u v : Nat} : net fs u v = 0 ↔ (sides fs).count (u, v) = (sides fs).count (v, u) := by
  unfold net; omega

/-- Where all edges into an edge are balanced, so is it. -/
theorem net_balanced (hq : Quotient I K place num out) {a b : Nat} (hab : a ≠ b) (h : ∀ u v, num u = a → num v = b → net I.faces u v = 0) : net out.faces a b = 0 := by
  rw [net_out hq hab]
  have := balanced (l := sides I.faces) (p := fun e => num e.1 = a ∧ num e.2 = b) (by
    intro u v huv
    rw [decide_eq_true_eq] at huv
    exact net_zero_iff.1 (h u v huv.1 huv.2))
  have e : (sides I.faces).countP (fun e => num e.1 = b ∧ num e.2 = a) = (sides I.faces).countP (fun e => decide (num (e.2, e.1).1 = a ∧ num (e.2, e.1).2 = b)) := by
    apply List.countP_congr
    intro e _
    simp only [decide_eq_true_eq]
    exact And.comm
  rw [e, ← this, sub_self]

/-- Between single vertices nothing changes. -/
theorem net_single (hq : Quotient I K place num out) {u v : Nat} (huv : u ≠ v) (hu : Incident I.faces u) (hv : Incident I.faces v) (su : Single K u) (sv : Single K v) :
    net out.faces (num u) (num v) = net I.faces u v := by
  have hN := hq.numbering
  have hne : num u ≠ num v := fun h => huv (single_num hN hv sv hu h)
  rw [net_out hq hne]
  unfold net
  have key : ∀ {u v : Nat}, Incident I.faces u → Incident I.faces v → Single K u → Single K v →
      (sides I.faces).countP (fun e => num e.1 = num u ∧ num e.2 = num v) = (sides I.faces).count (u, v) := by
    intro u v hu hv su sv
    unfold List.count
    apply List.countP_congr
    intro e he
    obtain ⟨i1, i2⟩ := incident_of_side (u := e.1) (v := e.2) he
    simp only [decide_eq_true_eq, beq_iff_eq]
    constructor
    · rintro ⟨h1, h2⟩
      exact Prod.ext (single_num hN hu su i1 h1) (single_num hN hv sv i2 h2)
    · rintro rfl
      exact ⟨rfl, rfl⟩
  rw [key hu hv su sv, key hv hu sv su]

theorem side_count {fs : List Face} {a b : Nat} : (∃ f ∈ fs, Side f a b) ↔ (a, b) ∈ sides fs := by
  rw [mem_sides]
  constructor
  · rintro ⟨f, hf, h⟩
    refine ⟨f, hf, ?_⟩
    rcases h with ⟨h1, h2⟩ | ⟨h1, h2⟩ | ⟨h1, h2⟩
    · exact Or.inl (by rw [h1, h2])
    · exact Or.inr (Or.inl (by rw [h1, h2]))
    · exact Or.inr (Or.inr (by rw [h1, h2]))
  · rintro ⟨f, hf, h⟩
    refine ⟨f, hf, ?_⟩
    simp only [Prod.mk.injEq] at h
    rcases h with ⟨h1, h2⟩ | ⟨h1, h2⟩ | ⟨h1, h2⟩
    · exact Or.inl ⟨h1.symm, h2.symm⟩
    · exact Or.inr (Or.inl ⟨h1.symm, h2.symm⟩)
    · exact Or.inr (Or.inr ⟨h1.symm, h2.symm⟩)

theorem side_pos {f : Face} {a b : Nat} (h : Side f a b) : 0 < (sides [f]).count (a, b) :=
  List.count_pos_iff.2 (side_count.1 ⟨f, by simp, h⟩)

/-- Manifold means every directed edge is a side once. -/
theorem manifold_iff : ∀ {fs : List Face}, (∀ f ∈ fs, Nondeg f) → (Manifold (fun i => fs[i]?) ↔ ∀ a b, (sides fs).count (a, b) ≤ 1) := by
  intro fs hn
  constructor
  · intro hm a b
    induction fs with
    | nil => simp [sides]
    | cons f fs ih =>
        have ih := ih (fun g hg => hn g (List.mem_cons_of_mem _ hg)) (by
          intro fi fj g h a b h1 h2 s1 s2
          have := hm (fi + 1) (fj + 1) g h a b (by simpa using h1) (by simpa using h2) s1 s2
          omega)
        have hs : sides (f :: fs) = sides [f] ++ sides fs := sides_append [f] fs
        rw [hs, List.count_append]
        have h1 : (sides [f]).count (a, b) ≤ 1 := by
          obtain ⟨n1, n2, n3⟩ := hn f (List.mem_cons_self ..)
          obtain ⟨x, y, z⟩ := f
          dsimp only at n1 n2 n3
          unfold sides
          simp only [List.flatMap_cons, List.flatMap_nil, List.append_nil, List.count_cons, List.count_nil, beq_iff_eq, Prod.mk.injEq]
          split_ifs <;> omega
        by_cases h0 : (sides fs).count (a, b) = 0
        · omega
        · have hpos : (a, b) ∈ sides fs := List.count_pos_iff.1 (by omega)
          obtain ⟨g, hg, hsg⟩ := side_count.2 hpos
          obtain ⟨j, hj⟩ := List.mem_iff_getElem?.1 hg
          have hz : (sides [f]).count (a, b) = 0 := by
            rw [List.count_eq_zero]
            intro hmem
            obtain ⟨f', hf', hsf⟩ := side_count.2 hmem
            rw [List.mem_singleton] at hf'
            subst hf'
            have := hm 0 (j + 1) f' g a b (by simp) (by simpa using hj) hsf hsg
            omega
          omega
  · intro h fi fj f g a b h1 h2 s1 s2
    by_contra hne
    have hle := h a b
    have key : ∀ {i j : Nat} {f g : Face}, i < j → fs[i]? = some f → fs[j]? = some g → Side f a b → Side g a b → 2 ≤ (sides fs).count (a, b) := by
      intro i j f g hij e1 e2 s1 s2
      have hspl : fs = fs.take j ++ fs.drop j := (List.take_append_drop j fs).symm
      rw [hspl, sides_append, List.count_append]
      have m1 : f ∈ fs.take j := List.mem_of_getElem? (i := i) (by rw [List.getElem?_take_of_lt hij]; exact e1)
      have m2 : g ∈ fs.drop j := List.mem_of_getElem? (i := 0) (by rw [List.getElem?_drop, Nat.add_zero]; exact e2)
      have p1 : 0 < (sides (fs.take j)).count (a, b) := List.count_pos_iff.2 (side_count.1 ⟨f, m1, s1⟩)
      have p2 : 0 < (sides (fs.drop j)).count (a, b) := List.count_pos_iff.2 (side_count.1 ⟨g, m2, s2⟩)
      omega
    rcases Nat.lt_or_gt_of_ne hne with hlt | hgt
    · have := key hlt h1 h2 s1 s2; omega
    · have := key hgt h2 h1 s2 s1; omega

/-- The edges as counted in both directions. -/
theorem edgeCount_split (fs : List Face) {a b : Nat} (hab : a ≠ b) : edgeCount fs a b = (sides fs).count (a, b) + (sides fs).count (b, a) := by
  unfold edgeCount List.count
  induction sides fs with
  | nil => rfl
  | cons e l ih =>
      rw [List.countP_cons, List.countP_cons, List.countP_cons, ih]
      simp only [decide_eq_true_eq, beq_iff_eq]
      by_cases h1 : e = (a, b)
      · have h2 : e ≠ (b, a) := by
          rw [h1]; intro h; simp only [Prod.mk.injEq] at h; exact hab h.1
        simp [h1]
        have : ¬ ((a, b) : Nat × Nat) = (b, a) := by rw [← h1]; exact h2
        simp only [Prod.mk.injEq] at this
        split_ifs; omega
      · by_cases h2 : e = (b, a)
        · simp [h2]
          have : ¬ ((b, a) : Nat × Nat) = (a, b) := by rw [← h2]; exact h1
          simp only [Prod.mk.injEq] at this
          split_ifs; omega
        · simp [h1, h2]

/-- An oriented manifold stays one, if the boundary is not merged. -/
theorem manifold_out (hI : Valid I) (hK : ∀ c, K c → Candidate I c) (hq : Quotient I K place num out) (hdone : ∀ a c, Flagged out a → ¬ Blamed K num out a c)
    (hman : Manifold (fun i => I.faces[i]?)) (h : ∀ v, Incident I.faces v → PathOrCycle (link I.faces v))
    (hb : ∀ u v, net I.faces u v ≠ 0 → Single K u ∧ Single K v) : Manifold (fun i => out.faces[i]?) := by
  have hN := hq.numbering
  have hnd : ∀ f ∈ out.faces, Nondeg f := fun f hf => (out_face hq hf).choose_spec.2.2.1
  rw [manifold_iff hnd]
  rw [manifold_iff (fun f hf => hI.nondeg hf)] at hman
  intro a b
  by_contra hgt
  have hpos : (a, b) ∈ sides out.faces := List.count_pos_iff.1 (by omega)
  obtain ⟨f, hf, hs⟩ := side_count.2 hpos
  have hab : a ≠ b := by
    obtain ⟨n1, n2, n3⟩ := hnd f hf
    rcases hs with ⟨rfl, rfl⟩ | ⟨rfl, rfl⟩ | ⟨rfl, rfl⟩ <;> assumption
  obtain ⟨f0, hf0, e, -⟩ := out_face hq hf
  have hca : Corner f a := by rcases hs with ⟨h, -⟩ | ⟨h, -⟩ | ⟨h, -⟩ <;> simp [Corner, h]
  have hcb : Corner f b := by rcases hs with ⟨-, h⟩ | ⟨-, h⟩ | ⟨-, h⟩ <;> simp [Corner, h]
  have hdeg := (no_singular hI hK hq hdone h a ⟨f, hf, hca⟩).2.2 b
  rw [degree_link hnd hab, edgeCount_split _ hab] at hdeg
  have hnet : net out.faces a b = 2 := by unfold net; omega
  by_cases hbal : ∀ u v, num u = a → num v = b → net I.faces u v = 0
  · rw [net_balanced hq hab hbal] at hnet
    omega
  · push Not at hbal
    obtain ⟨u, v, rfl, rfl, hne⟩ := hbal
    obtain ⟨su, sv⟩ := hb u v hne
    have huv : u ≠ v := fun h => hab (by rw [h])
    have hin : Incident I.faces u ∧ Incident I.faces v := by
      by_cases h1 : (u, v) ∈ sides I.faces
      · exact incident_of_side h1
      · by_cases h2 : (v, u) ∈ sides I.faces
        · exact (incident_of_side h2).symm
        · exfalso
          apply hne
          unfold net
          rw [List.count_eq_zero_of_not_mem h1, List.count_eq_zero_of_not_mem h2, sub_self]
    rw [net_single hq huv hin.1 hin.2 su sv] at hnet
    have := hman u v
    unfold net at hnet
    omega

end Verif.Clusterer
