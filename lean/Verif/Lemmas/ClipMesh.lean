import Verif.Lemmas.ClipBox

/-! # From meshes to triangles and back -/

namespace Verif.Clip

open Verif Geometry

theorem triangles_eq (m : Mesh) : triangles m = Outcome.traverse (fun f => match m.pos f with | some t => Outcome.ok t | none => Outcome.ub) m.faces := by
  unfold triangles
  congr 1
  funext f
  unfold Mesh.pos
  split
  · rename_i h1 h2 h3; rw [h1, h2, h3]
  · rename_i h
    split
    · rename_i t ht
      split at ht
      · rename_i p q r h1 h2 h3; exact absurd h3 (fun _ => h p q r h1 h2 h3)
      · cases ht
    · rfl

theorem triangles_ok {m : Mesh} {ts : List Tri} : triangles m = .ok ts ↔ List.Forall₂ (fun f t => m.pos f = some t) m.faces ts := by
  rw [triangles_eq]
  generalize m.faces = fs
  induction fs generalizing ts with
  | nil =>
    simp only [Outcome.traverse, Outcome.ok.injEq, List.forall₂_nil_left_iff]
    exact eq_comm
  | cons f fs ih =>
    simp only [Outcome.traverse]
    cases h : m.pos f with
    | none =>
      simp only [List.forall₂_cons_left_iff]
      constructor
      · intro h'; exact absurd h' (by simp)
      · rintro ⟨t, l, h1, -⟩; rw [h] at h1; cases h1
    | some t =>
      rw [Outcome.ok_bind]
      rw [Outcome.bind_eq_ok]
      constructor
      · rintro ⟨l, hl, e⟩
        obtain rfl : t :: l = ts := by simpa using e
        exact List.Forall₂.cons h (ih.1 hl)
      · intro h'
        obtain ⟨t', l, h1, h2, rfl⟩ := List.forall₂_cons_left_iff.1 h'
        rw [h] at h1
        obtain rfl := Option.some.inj h1
        exact ⟨l, ih.2 h2, rfl⟩

theorem valid_ok {m : Mesh} (h : m.Valid) : ∃ ts, triangles m = .ok ts := by
  have key : ∀ fs : List Face, (∀ f ∈ fs, ∃ t, m.pos f = some t) → ∃ ts, List.Forall₂ (fun f t => m.pos f = some t) fs ts := by
    intro fs
    induction fs with
    | nil => intro _; exact ⟨[], .nil⟩
    | cons f fs ih =>
      intro h
      obtain ⟨t, ht⟩ := h f List.mem_cons_self
      obtain ⟨ts, hts⟩ := ih fun g hg => h g (List.mem_cons_of_mem _ hg)
      exact ⟨t :: ts, .cons ht hts⟩
  obtain ⟨ts, hts⟩ := key m.faces (by
    intro f hf
    obtain ⟨h1, h2, h3⟩ := h f hf
    refine ⟨(m.vertices[f.1], m.vertices[f.2.1], m.vertices[f.2.2]), ?_⟩
    unfold Mesh.pos
    rw [List.getElem?_eq_getElem h1, List.getElem?_eq_getElem h2, List.getElem?_eq_getElem h3])
  exact ⟨ts, triangles_ok.2 hts⟩

theorem clip_ok {A : Arith} {m out : Mesh} {lo hi : P3} :
    clip A m lo hi = .ok out ↔ ∃ ts, List.Forall₂ (fun f t => m.pos f = some t) m.faces ts ∧ out = assemble (clipAll A lo hi ts) := by
  unfold clip
  rw [Outcome.bind_eq_ok]
  constructor
  · rintro ⟨ts, h, e⟩
    exact ⟨ts, triangles_ok.1 h, (by simpa using e.symm)⟩
  · rintro ⟨ts, h, rfl⟩
    exact ⟨ts, triangles_ok.2 h, rfl⟩

open Classical in
theorem vm_fold : ∀ (l m : List P3), m.Nodup → (l.foldl (fun m v => if v ∈ m then m else m ++ [v]) m).Nodup ∧
    ∀ p, p ∈ l.foldl (fun m v => if v ∈ m then m else m ++ [v]) m ↔ p ∈ m ∨ p ∈ l
  | [], m, h => ⟨h, fun p => by simp⟩
  | v :: l, m, h => by
    rw [List.foldl_cons]
    by_cases hv : v ∈ m
    · rw [if_pos hv]
      obtain ⟨h1, h2⟩ := vm_fold l m h
      refine ⟨h1, fun p => ?_⟩
      rw [h2, List.mem_cons]
      constructor
      · rintro (h | h)
        · exact Or.inl h
        · exact Or.inr (Or.inr h)
      · rintro (h | rfl | h)
        · exact Or.inl h
        · exact Or.inl hv
        · exact Or.inr h
    · rw [if_neg hv]
      obtain ⟨h1, h2⟩ := vm_fold l (m ++ [v]) (by
        rw [List.nodup_append]
        refine ⟨h, List.nodup_singleton v, ?_⟩
        rintro a ha b hb rfl
        rw [List.mem_singleton] at hb
        subst hb
        exact hv ha)
      refine ⟨h1, fun p => ?_⟩
      rw [h2, List.mem_append, List.mem_singleton, List.mem_cons]
      tauto

theorem vm_nodup (ts : List Tri) : (vertexMap ts).Nodup := (vm_fold _ [] List.nodup_nil).1
theorem vm_mem {ts : List Tri} {p : P3} : p ∈ vertexMap ts ↔ ∃ t ∈ ts, p ∈ rows t := by
  unfold vertexMap
  rw [(vm_fold _ [] List.nodup_nil).2]
  simp

open Classical in
/-- the value of a key -/
noncomputable def ix (ts : List Tri) (p : P3) : Nat := (vertexMap ts).findIdx (fun q => decide (q = p))

theorem ix_get {ts : List Tri} {p : P3} (h : ∃ t ∈ ts, p ∈ rows t) : (vertexMap ts)[(ix ts p : Nat)]? = some p := by
  classical
  have hex : ∃ q ∈ vertexMap ts, decide (q = p) = true := ⟨p, vm_mem.2 h, by simp⟩
  have hlt : ix ts p < (vertexMap ts).length := by
    unfold ix
    convert List.findIdx_lt_length_of_exists hex
  rw [List.getElem?_eq_getElem hlt]
  have := List.findIdx_getElem (xs := vertexMap ts) (p := fun q => decide (q = p)) (w := by unfold ix at hlt; convert hlt)
  simp only [decide_eq_true_eq] at this
  congr 1

theorem assemble_faces (ts : List Tri) : (assemble ts).faces = ts.map fun t => (ix ts t.1, ix ts t.2.1, ix ts t.2.2) := rfl

theorem assemble_pos {ts : List Tri} {t : Tri} (h : t ∈ ts) : (assemble ts).pos (ix ts t.1, ix ts t.2.1, ix ts t.2.2) = some t := by
  unfold Mesh.pos
  have h1 : (vertexMap ts)[(ix ts t.1 : Nat)]? = some t.1 := ix_get ⟨t, h, by simp [rows]⟩
  have h2 : (vertexMap ts)[(ix ts t.2.1 : Nat)]? = some t.2.1 := ix_get ⟨t, h, by simp [rows]⟩
  have h3 : (vertexMap ts)[(ix ts t.2.2 : Nat)]? = some t.2.2 := ix_get ⟨t, h, by simp [rows]⟩
  show (match (vertexMap ts)[(ix ts t.1 : Nat)]?, (vertexMap ts)[(ix ts t.2.1 : Nat)]?, (vertexMap ts)[(ix ts t.2.2 : Nat)]? with
    | some p, some q, some r => some (p, q, r)
    | _, _, _ => none) = _
  rw [h1, h2, h3]

theorem assemble_forall (ts : List Tri) : List.Forall₂ (fun f t => (assemble ts).pos f = some t) (assemble ts).faces ts := by
  rw [assemble_faces, List.forall₂_map_left_iff, List.forall₂_same]
  exact fun t ht => assemble_pos ht

theorem count_map_on {α β : Type} [DecidableEq α] [DecidableEq β] (f : α → β) (e : α) : ∀ l : List α, (∀ x ∈ l, f x = f e → x = e) →
    (l.map f).count (f e) = l.count e
  | [], _ => rfl
  | a :: l, h => by
    rw [List.map_cons, List.count_cons, List.count_cons, count_map_on f e l fun x hx => h x (List.mem_cons_of_mem _ hx)]
    by_cases ha : a = e
    · subst ha; simp
    · have : f a ≠ f e := fun hf => ha (h a List.mem_cons_self hf)
      simp [ha, this]

open Classical in
/-- Counting directed edges by index and by position is the same. -/
theorem assemble_count {ts : List Tri} {i j : Nat} {p q : P3} (hi : (assemble ts).vertices[i]? = some p) (hj : (assemble ts).vertices[j]? = some q) :
    ((assemble ts).faces.flatMap dirEdges).count (i, j) = (ts.flatMap dirEdges).count (p, q) := by
  have hi' : (vertexMap ts)[i]? = some p := hi
  have hj' : (vertexMap ts)[j]? = some q := hj
  have hp := vm_mem.1 (List.mem_of_getElem? hi')
  have hq := vm_mem.1 (List.mem_of_getElem? hj')
  have inj : ∀ {a b : Nat} {r : P3}, (vertexMap ts)[a]? = some r → (vertexMap ts)[b]? = some r → a = b := by
    intro a b r h1 h2
    obtain ⟨ha, e1⟩ := List.getElem?_eq_some_iff.1 h1
    obtain ⟨hb, e2⟩ := List.getElem?_eq_some_iff.1 h2
    exact (List.Nodup.getElem_inj_iff (vm_nodup ts)).1 (e1.trans e2.symm)
  have ei : i = ix ts p := inj hi' (ix_get hp)
  have ej : j = ix ts q := inj hj' (ix_get hq)
  have e : (assemble ts).faces.flatMap dirEdges = (ts.flatMap dirEdges).map fun e => (ix ts e.1, ix ts e.2) := by
    rw [assemble_faces, List.flatMap_map, List.map_flatMap]
    rfl
  rw [e, ei, ej]
  have := count_map_on (fun e : P3 × P3 => (ix ts e.1, ix ts e.2)) (p, q) (ts.flatMap dirEdges) (by
    rintro ⟨u, v⟩ hx he
    simp only [Prod.mk.injEq] at he
    obtain ⟨t, ht, hx⟩ := List.mem_flatMap.1 hx
    have hu : u ∈ rows t ∧ v ∈ rows t := by
      simp only [dirEdges, List.mem_cons, Prod.mk.injEq, List.not_mem_nil, or_false] at hx
      rcases hx with ⟨rfl, rfl⟩ | ⟨rfl, rfl⟩ | ⟨rfl, rfl⟩ <;> simp [rows]
    have g1 := ix_get ⟨t, ht, hu.1⟩
    have g2 := ix_get ⟨t, ht, hu.2⟩
    rw [he.1, ix_get hp] at g1
    rw [he.2, ix_get hq] at g2
    rw [← Option.some.inj g1, ← Option.some.inj g2])
  convert this using 2 <;> exact lawful_beq_subsingleton _ _

/-- A mesh whose edges all match, except beyond the sides, is balanced. -/
theorem mesh_balanced {lo hi : P3} {m : Mesh} {ts : List Tri} (hts : List.Forall₂ (fun f t => m.pos f = some t) m.faces ts)
    (h : ∀ i j p q, m.vertices[i]? = some p → m.vertices[j]? = some q → ¬Beyond lo hi p q →
      (m.faces.flatMap dirEdges).count (i, j) = (m.faces.flatMap dirEdges).count (j, i)) : Balanced (sides lo hi) ts := by
  intro d hd hv
  obtain ⟨P, hP⟩ : ∃ P : Nat → P3, ∀ i p, m.vertices[i]? = some p → P i = p :=
    ⟨fun i => (m.vertices[i]?).getD 0, fun i p h => by simp [h]⟩
  have pos_some : ∀ {f : Face} {t : Tri}, m.pos f = some t →
      m.vertices[f.1]? = some t.1 ∧ m.vertices[f.2.1]? = some t.2.1 ∧ m.vertices[f.2.2]? = some t.2.2 := by
    intro f t ht
    unfold Mesh.pos at ht
    split at ht
    · rename_i h1 h2 h3
      obtain rfl := Option.some.inj ht
      exact ⟨h1, h2, h3⟩
    · cases ht
  have e : ts.flatMap dirEdges = (m.faces.flatMap dirEdges).map fun e => (P e.1, P e.2) := by
    clear h
    generalize m.faces = fs at hts ⊢
    induction hts with
    | nil => rfl
    | cons hab _ ih =>
      rw [List.flatMap_cons, List.flatMap_cons, List.map_append, ih]
      obtain ⟨h1, h2, h3⟩ := pos_some hab
      congr 1
      simp only [dirEdges, List.map_cons, List.map_nil, hP _ _ h1, hP _ _ h2, hP _ _ h3]
  rw [tot_edges, e, List.map_map]
  refine sum_antisymm _ (fun i j => hd _ _) _ ?_
  intro i j hij
  have bound : ∀ {a b : Nat}, (a, b) ∈ m.faces.flatMap dirEdges → (∃ p, m.vertices[a]? = some p) ∧ ∃ p, m.vertices[b]? = some p := by
    intro a b hab
    obtain ⟨f, hf, hab⟩ := List.mem_flatMap.1 hab
    obtain ⟨t, ht⟩ : ∃ t, m.pos f = some t := by
      have : ∀ {fs : List Face} {ts : List Tri}, List.Forall₂ (fun f t => m.pos f = some t) fs ts → f ∈ fs → ∃ t, m.pos f = some t := by
        intro fs ts h
        induction h with
        | nil => intro h; cases h
        | cons h _ ih =>
          intro hm
          rcases List.mem_cons.1 hm with rfl | hm
          · exact ⟨_, h⟩
          · exact ih hm
      exact this hts hf
    obtain ⟨h1, h2, h3⟩ := pos_some ht
    simp only [dirEdges, List.mem_cons, Prod.mk.injEq, List.not_mem_nil, or_false] at hab
    rcases hab with ⟨rfl, rfl⟩ | ⟨rfl, rfl⟩ | ⟨rfl, rfl⟩
    · exact ⟨⟨_, h1⟩, _, h2⟩
    · exact ⟨⟨_, h2⟩, _, h3⟩
    · exact ⟨⟨_, h3⟩, _, h1⟩
  by_cases h1 : ∃ p, m.vertices[i]? = some p
  · by_cases h2 : ∃ p, m.vertices[j]? = some p
    · obtain ⟨p, hp⟩ := h1
      obtain ⟨q, hq⟩ := h2
      have hb : ¬Beyond lo hi p q := by
        intro hb
        apply hij
        show d (P i) (P j) = 0
        rw [hP i p hp, hP j q hq]
        exact hv p q (beyond_iff.1 hb)
      exact h i j p q hp hq hb
    · rw [List.count_eq_zero_of_not_mem fun hm => h2 (bound hm).2, List.count_eq_zero_of_not_mem fun hm => h2 (bound hm).1]
  · rw [List.count_eq_zero_of_not_mem fun hm => h1 (bound hm).1, List.count_eq_zero_of_not_mem fun hm => h1 (bound hm).2]

end Verif.Clip
