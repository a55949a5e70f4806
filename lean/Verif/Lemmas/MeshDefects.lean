import Verif.Spec.MeshDefects
import Verif.Lemmas.Graph
import Verif.Lemmas.SpatialGrid
import Mathlib.Data.List.Perm.Basic

namespace Verif.MeshDefects

open Verif Spec Graph.Spec

/-! ### transporting graphs along an injective renumbering -/

section transport
variable (es : List (Nat × Nat)) (φ : Nat → Nat)
  (hinj : ∀ x y, OnLink es x → OnLink es y → φ x = φ y → x = y)

theorem adj_onLink {es : List (Nat × Nat)} {a b : Nat} (h : Adj es a b) : OnLink es a ∧ OnLink es b := by
  rcases h with h | h
  · exact ⟨⟨_, h, Or.inl rfl⟩, ⟨_, h, Or.inr rfl⟩⟩
  · exact ⟨⟨_, h, Or.inr rfl⟩, ⟨_, h, Or.inl rfl⟩⟩

/-- the renamed edges -/
def ren : List (Nat × Nat) := es.map (fun e => (φ e.1, φ e.2))

theorem onLink_ren {y : Nat} : OnLink (ren es φ) y ↔ ∃ x, OnLink es x ∧ φ x = y := by
  constructor
  · rintro ⟨e, he, hy⟩
    obtain ⟨e', he', rfl⟩ := List.mem_map.1 he
    rcases hy with hy | hy
    · exact ⟨e'.1, ⟨e', he', Or.inl rfl⟩, hy⟩
    · exact ⟨e'.2, ⟨e', he', Or.inr rfl⟩, hy⟩
  · rintro ⟨x, ⟨e, he, hx⟩, rfl⟩
    refine ⟨_, List.mem_map.2 ⟨e, he, rfl⟩, ?_⟩
    rcases hx with rfl | rfl
    · exact Or.inl rfl
    · exact Or.inr rfl

theorem adj_ren {a b : Nat} (h : Adj es a b) : Adj (ren es φ) (φ a) (φ b) := by
  rcases h with h | h
  · exact Or.inl (List.mem_map.2 ⟨_, h, rfl⟩)
  · exact Or.inr (List.mem_map.2 ⟨_, h, rfl⟩)

theorem reach_ren {a b : Nat} (h : Reach es a b) : Reach (ren es φ) (φ a) (φ b) := by
  induction h with
  | refl => exact Relation.ReflTransGen.refl
  | tail _ h2 ih => exact ih.tail (adj_ren es φ h2)

include hinj

theorem adj_of_ren {a : Nat} {y : Nat} (ha : OnLink es a) (h : Adj (ren es φ) (φ a) y) :
    ∃ b, φ b = y ∧ Adj es a b := by
  rcases h with h | h <;>
  · obtain ⟨e, he, heq⟩ := List.mem_map.1 h
    simp only [Prod.mk.injEq] at heq
    obtain ⟨h1, h2⟩ := heq
    first
    | (have := hinj e.1 a ⟨e, he, Or.inl rfl⟩ ha h1
       exact ⟨e.2, h2, Or.inl (by rw [← this]; exact he)⟩)
    | (have := hinj e.2 a ⟨e, he, Or.inr rfl⟩ ha h2
       exact ⟨e.1, h1, Or.inr (by rw [← this]; exact he)⟩)

theorem reach_of_ren {a : Nat} {y : Nat} (ha : OnLink es a) (h : Reach (ren es φ) (φ a) y) :
    ∃ b, φ b = y ∧ OnLink es b ∧ Reach es a b := by
  induction h with
  | refl => exact ⟨a, rfl, ha, Relation.ReflTransGen.refl⟩
  | tail _ h2 ih =>
    obtain ⟨b, rfl, hb, hr⟩ := ih
    obtain ⟨c, hc, hadj⟩ := adj_of_ren es φ hinj hb h2
    exact ⟨c, hc, (adj_onLink hadj).2, hr.tail hadj⟩

theorem degree_ren {v : Nat} (hv : OnLink es v) : degree (ren es φ) (φ v) = degree es v := by
  unfold degree ren
  rw [List.countP_map]
  apply List.countP_congr
  intro e he
  have e1 : φ e.1 = φ v ↔ e.1 = v := ⟨hinj _ _ ⟨e, he, Or.inl rfl⟩ hv, fun h => by rw [h]⟩
  have e2 : φ e.2 = φ v ↔ e.2 = v := ⟨hinj _ _ ⟨e, he, Or.inr rfl⟩ hv, fun h => by rw [h]⟩
  simp [e1, e2]

theorem multiplicity_ren {a b : Nat} (ha : OnLink es a) (hb : OnLink es b) :
    multiplicity (ren es φ) (φ a) (φ b) = multiplicity es a b := by
  unfold multiplicity ren
  rw [List.countP_map]
  apply List.countP_congr
  intro e he
  have h1 : ∀ v, OnLink es v → (φ e.1 = φ v ↔ e.1 = v) :=
    fun v hv => ⟨hinj _ _ ⟨e, he, Or.inl rfl⟩ hv, fun h => by rw [h]⟩
  have h2 : ∀ v, OnLink es v → (φ e.2 = φ v ↔ e.2 = v) :=
    fun v hv => ⟨hinj _ _ ⟨e, he, Or.inr rfl⟩ hv, fun h => by rw [h]⟩
  simp [h1 a ha, h1 b hb, h2 a ha, h2 b hb]

theorem multiplicity_off {es : List (Nat × Nat)} {a b : Nat} (h : ¬ OnLink es a ∨ ¬ OnLink es b) :
    multiplicity es a b = 0 := by
  by_contra hne
  obtain ⟨h1, h2⟩ := adj_onLink (Graph.multiplicity_pos.1 hne)
  tauto

theorem simple_ren : Simple (ren es φ) ↔ Simple es := by
  unfold Simple
  apply and_congr
  · constructor
    · intro h v hv
      exact h (φ v) (List.mem_map.2 ⟨_, hv, rfl⟩)
    · intro h v hv
      obtain ⟨e, he, heq⟩ := List.mem_map.1 hv
      simp only [Prod.mk.injEq] at heq
      have := hinj e.1 e.2 ⟨e, he, Or.inl rfl⟩ ⟨e, he, Or.inr rfl⟩ (by rw [heq.1, heq.2])
      refine h e.1 ?_
      have h2 : (e.1, e.1) = e := by ext <;> simp [this]
      rw [h2]; exact he
  · constructor
    · intro h a b
      by_cases hab : OnLink es a ∧ OnLink es b
      · rw [← multiplicity_ren es φ hinj hab.1 hab.2]; exact h _ _
      · rw [multiplicity_off es φ hinj (by tauto)]; omega
    · intro h a b
      by_cases hab : OnLink (ren es φ) a ∧ OnLink (ren es φ) b
      · obtain ⟨⟨x, hx, rfl⟩, ⟨y, hy, rfl⟩⟩ := And.intro ((onLink_ren es φ).1 hab.1) ((onLink_ren es φ).1 hab.2)
        rw [multiplicity_ren es φ hinj hx hy]; exact h _ _
      · by_contra hne
        have : multiplicity (ren es φ) a b ≠ 0 := by omega
        exact hab (adj_onLink (Graph.multiplicity_pos.1 this))

theorem pathOrCycle_ren : PathOrCycle (ren es φ) ↔ PathOrCycle es := by
  unfold PathOrCycle
  rw [simple_ren es φ hinj]
  apply and_congr_right; intro _
  apply and_congr
  · constructor
    · intro h x y hx hy
      have := h (φ x) (φ y) ((onLink_ren es φ).2 ⟨x, hx, rfl⟩) ((onLink_ren es φ).2 ⟨y, hy, rfl⟩)
      obtain ⟨b, hb, hob, hr⟩ := reach_of_ren es φ hinj hx this
      rw [hinj b y hob hy hb] at hr; exact hr
    · intro h x y hx hy
      obtain ⟨a, ha, rfl⟩ := (onLink_ren es φ).1 hx
      obtain ⟨b, hb, rfl⟩ := (onLink_ren es φ).1 hy
      exact reach_ren es φ (h a b ha hb)
  · constructor
    · intro h x
      by_cases hx : OnLink es x
      · rw [← degree_ren es φ hinj hx]; exact h _
      · have : degree es x = 0 := by
          unfold degree; rw [List.countP_eq_zero]
          intro e he hc
          exact hx ⟨e, he, by simpa using hc⟩
        omega
    · intro h y
      by_cases hy : OnLink (ren es φ) y
      · obtain ⟨x, hx, rfl⟩ := (onLink_ren es φ).1 hy
        rw [degree_ren es φ hinj hx]; exact h _
      · have : degree (ren es φ) y = 0 := by
          unfold degree; rw [List.countP_eq_zero]
          intro e he hc
          exact hy ⟨e, he, by simpa using hc⟩
        omega

end transport

/-! ### the constructor -/

/-- indices of the faces around a vertex, one per occurrence -/
def occ (faces : List Face) (k v : Nat) : List Nat :=
  (faces.zipIdx k).flatMap (fun p => (if p.1.1 = v then [p.2] else []) ++ (if p.1.2.1 = v then [p.2] else [])
    ++ (if p.1.2.2 = v then [p.2] else []))

def InRange (nv : Nat) (f : Face) : Prop := f.1 < nv ∧ f.2.1 < nv ∧ f.2.2 < nv

theorem fillVf_spec (nv : Nat) (faces : List Face) (k : Nat) (vf : Nat → List Nat) (h : ∀ f ∈ faces, InRange nv f) :
    ∃ vf', fillVf nv faces k vf = .ok vf' ∧ ∀ v, vf' v = vf v ++ occ faces k v := by
  induction faces generalizing k vf with
  | nil => exact ⟨vf, rfl, by simp [occ]⟩
  | cons f fs ih =>
    obtain ⟨h1, h2, h3⟩ := h f (by simp)
    simp only [fillVf, pushVf, if_pos h1, if_pos h2, if_pos h3, Outcome.ok_bind]
    obtain ⟨vf', e1, e2⟩ := ih (k + 1) _ (fun f hf => h f (by simp [hf]))
    refine ⟨vf', e1, ?_⟩
    intro v
    rw [e2 v]
    simp only [occ, List.zipIdx_cons, List.flatMap_cons]
    have c1 : (f.1 = v) ↔ (v = f.1) := eq_comm
    have c2 : (f.2.1 = v) ↔ (v = f.2.1) := eq_comm
    have c3 : (f.2.2 = v) ↔ (v = f.2.2) := eq_comm
    simp only [c1, c2, c3]
    split <;> split <;> split <;> simp

theorem fillVf_fail (nv : Nat) (faces : List Face) (k : Nat) (vf : Nat → List Nat) (h : ¬ ∀ f ∈ faces, InRange nv f) :
    fillVf nv faces k vf = .throws .outOfRange := by
  induction faces generalizing k vf with
  | nil => simp at h
  | cons f fs ih =>
    simp only [fillVf, pushVf]
    by_cases h1 : f.1 < nv
    · by_cases h2 : f.2.1 < nv
      · by_cases h3 : f.2.2 < nv
        · simp only [if_pos h1, if_pos h2, if_pos h3, Outcome.ok_bind]
          apply ih
          intro hh; apply h
          intro g hg
          rcases List.mem_cons.1 hg with rfl | hg
          · exact ⟨h1, h2, h3⟩
          · exact hh g hg
        · simp [h1, h2, h3]
      · simp [h1, h2]
    · simp [h1]

theorem mem_occ {faces : List Face} {v fi : Nat} (h : fi ∈ occ faces 0 v) :
    ∃ f, faces[fi]? = some f ∧ (f.1 = v ∨ f.2.1 = v ∨ f.2.2 = v) := by
  unfold occ at h
  rw [List.mem_flatMap] at h
  obtain ⟨p, hp, hm⟩ := h
  obtain ⟨f, i⟩ := p
  rw [List.mem_zipIdx_iff_getElem?] at hp
  simp only [List.mem_append] at hm
  refine ⟨f, ?_, ?_⟩
  · have : i = fi := by
      rcases hm with (hm | hm) | hm <;>
      · split at hm
        · exact (List.mem_singleton.1 hm).symm
        · simp at hm
    rw [← this]; exact hp
  · rcases hm with (hm | hm) | hm <;>
    · split at hm
      · tauto
      · simp at hm

theorem occ_filterMap (faces : List Face) (v k : Nat) (hnd : ∀ f ∈ faces, NonDegenerate f) (g : Nat → Option Face)
    (hg : ∀ i, g (k + i) = faces[i]?) :
    (occ faces k v).filterMap (fun fi => (g fi).map (fun f => (nextVertex f v, prevVertex f v))) = link faces v := by
  induction faces generalizing k with
  | nil => simp [occ, link]
  | cons f fs ih =>
    have hf := hnd f (by simp)
    have h0 : g k = some f := by simpa using hg 0
    have ih' := ih (k + 1) (fun f hf => hnd f (by simp [hf])) (fun i => by
      have := hg (i + 1)
      rw [show k + 1 + i = k + (i + 1) by omega, this]; simp)
    have hocc : occ (f :: fs) k v = ((if f.1 = v then [k] else []) ++ (if f.2.1 = v then [k] else [])
        ++ (if f.2.2 = v then [k] else [])) ++ occ fs (k + 1) v := by
      simp [occ, List.zipIdx_cons]
    rw [hocc, List.filterMap_append, ih']
    unfold link
    rw [List.filterMap_cons]
    obtain ⟨n1, n2, n3⟩ := hf
    unfold opposite
    by_cases a1 : f.1 = v
    · have a2 : f.2.1 ≠ v := fun e => n1 (a1.trans e.symm)
      have a3 : f.2.2 ≠ v := fun e => n3 (e.trans a1.symm)
      simp [a1, a2, a3, h0, nextVertex, prevVertex]
    · by_cases a2 : f.2.1 = v
      · have a3 : f.2.2 ≠ v := fun e => n2 (a2.trans e.symm)
        simp [a1, a2, a3, h0, nextVertex, prevVertex]
      · by_cases a3 : f.2.2 = v
        · simp [a1, a2, a3, h0, nextVertex, prevVertex]
        · simp [a1, a2, a3]

theorem occ_nil (faces : List Face) (v k : Nat) : occ faces k v = [] ↔ ¬ Incident faces v := by
  unfold Incident
  induction faces generalizing k with
  | nil => simp [occ]
  | cons f fs ih =>
    have hocc : occ (f :: fs) k v = ((if f.1 = v then [k] else []) ++ (if f.2.1 = v then [k] else [])
        ++ (if f.2.2 = v then [k] else [])) ++ occ fs (k + 1) v := by
      simp [occ, List.zipIdx_cons]
    rw [hocc, List.append_eq_nil_iff, ih]
    simp only [List.mem_cons, exists_eq_or_imp, not_or]
    apply and_congr_left; intro _
    by_cases a1 : f.1 = v <;> by_cases a2 : f.2.1 = v <;> by_cases a3 : f.2.2 = v <;> simp [a1, a2, a3]

/-! ### the local numbering -/

/-- A numbering of distinct keys by insertion order. -/
structure Numbering (m : List (Nat × Nat)) : Prop where
  nodup : (m.map Prod.fst).Nodup
  val : ∀ k i, m.lookup k = some i ↔ (m.map Prod.fst)[i]? = some k

theorem numbering_nil : Numbering [] := ⟨by simp, by simp⟩

theorem lookup_isSome {m : List (Nat × Nat)} (h : Numbering m) (k : Nat) :
    (m.lookup k).isSome = true ↔ k ∈ m.map Prod.fst := by
  rw [Option.isSome_iff_exists]
  constructor
  · rintro ⟨i, hi⟩
    exact List.mem_of_getElem? ((h.val k i).1 hi)
  · intro hk
    obtain ⟨i, hi⟩ := List.mem_iff_getElem?.1 hk
    exact ⟨i, (h.val k i).2 hi⟩

theorem emplace_numbering {m : List (Nat × Nat)} (h : Numbering m) (k : Nat) :
    Numbering (emplace m k) ∧ (∀ x, x ∈ (emplace m k).map Prod.fst ↔ x ∈ m.map Prod.fst ∨ x = k) := by
  unfold emplace
  by_cases hk : (m.lookup k).isSome = true
  · rw [if_pos hk]
    refine ⟨h, fun x => ⟨Or.inl, ?_⟩⟩
    rintro (hx | rfl)
    · exact hx
    · exact (lookup_isSome h _).1 hk
  · rw [if_neg hk]
    have hk' : k ∉ m.map Prod.fst := fun hh => hk ((lookup_isSome h k).2 hh)
    refine ⟨⟨?_, ?_⟩, by simp⟩
    · rw [List.map_append, List.nodup_append]
      refine ⟨h.nodup, by simp, ?_⟩
      intro a ha b hb hab
      simp at hb; subst hb; subst hab; exact hk' ha
    · intro x i
      rw [List.lookup_append, List.map_append, List.getElem?_append]
      by_cases hx : x ∈ m.map Prod.fst
      · have hne : x ≠ k := fun e => hk' (e ▸ hx)
        obtain ⟨j, hj⟩ := Option.isSome_iff_exists.1 ((lookup_isSome h x).2 hx)
        have hj' := (h.val x j).1 hj
        have hlt : j < (m.map Prod.fst).length := (List.getElem?_eq_some_iff.1 hj').1
        rw [hj, Option.some_or]
        constructor
        · intro e
          obtain rfl : j = i := by simpa using e
          rw [if_pos hlt]; exact hj'
        · intro e
          split at e
          · rename_i hlt'
            have := (h.val x i).2 e
            rw [hj] at this; exact this
          · simp only [List.map_cons, List.map_nil] at e
            have := List.mem_of_getElem? e
            simp at this; exact absurd this hne
      · have hn : m.lookup x = none := by
          cases hl : m.lookup x with
          | none => rfl
          | some j => exact absurd ((lookup_isSome h x).1 (by simp [hl])) hx
        rw [hn, Option.none_or]
        by_cases hxk : x = k
        · subst hxk
          simp only [List.lookup_cons, beq_self_eq_true, List.map_cons, List.map_nil, Option.some.injEq]
          constructor
          · rintro rfl; simp
          · intro e
            split at e
            · exact absurd (List.mem_of_getElem? e) hx
            · rename_i hlt
              have := (List.getElem?_eq_some_iff.1 e).1
              simp at this hlt; omega
        · have : (x == k) = false := by simpa using hxk
          simp only [List.lookup_cons, this, List.lookup_nil, reduceCtorEq, List.map_cons, List.map_nil, false_iff]
          intro e
          split at e
          · exact hx (List.mem_of_getElem? e)
          · have := List.mem_of_getElem? e
            simp at this; exact hxk this

theorem fillLocal_spec {R : Type} (M : Finder R) (vi : Nat) (fis : List Nat) (fs : Nat → Face)
    (hf : ∀ fi ∈ fis, M.faces[fi]? = some (fs fi)) (m : List (Nat × Nat)) (h : Numbering m) :
    ∃ m', fillLocal M vi fis m = .ok m' ∧ Numbering m' ∧
      ∀ x, x ∈ m'.map Prod.fst ↔ x ∈ m.map Prod.fst ∨
        OnLink (fis.map (fun fi => (nextVertex (fs fi) vi, prevVertex (fs fi) vi))) x := by
  induction fis generalizing m with
  | nil => exact ⟨m, rfl, h, by simp [OnLink]⟩
  | cons fi fis ih =>
    obtain ⟨h1, m1⟩ := emplace_numbering h (nextVertex (fs fi) vi)
    obtain ⟨h2, m2⟩ := emplace_numbering h1 (prevVertex (fs fi) vi)
    obtain ⟨m', e1, e2, e3⟩ := ih (fun x hx => hf x (by simp [hx])) _ h2
    refine ⟨m', by simp [fillLocal, face, hf fi (by simp), e1], e2, ?_⟩
    intro x
    rw [e3, m2, m1]
    simp only [OnLink, List.map_cons, List.mem_cons, exists_eq_or_imp]
    constructor
    · rintro (((h | h) | h) | h)
      · exact Or.inl h
      · exact Or.inr (Or.inl (Or.inl h.symm))
      · exact Or.inr (Or.inl (Or.inr h.symm))
      · exact Or.inr (Or.inr h)
    · rintro (h | (h | h) | h)
      · exact Or.inl (Or.inl (Or.inl h))
      · exact Or.inl (Or.inl (Or.inr h.symm))
      · exact Or.inl (Or.inr h.symm)
      · exact Or.inr h

/-- the local number of a key -/
def loc (m : List (Nat × Nat)) (k : Nat) : Nat := (m.lookup k).getD 0

theorem addLinks_eq {R : Type} (M : Finder R) (vi : Nat) (m : List (Nat × Nat)) (fis : List Nat) (fs : Nat → Face)
    (hf : ∀ fi ∈ fis, M.faces[fi]? = some (fs fi))
    (hm : ∀ x, OnLink (fis.map (fun fi => (nextVertex (fs fi) vi, prevVertex (fs fi) vi))) x →
      (m.lookup x).isSome = true) (g : Graph.G) :
    addLinks M vi m fis g
      = Graph.addEdges g (ren (fis.map (fun fi => (nextVertex (fs fi) vi, prevVertex (fs fi) vi))) (loc m)) := by
  induction fis generalizing g with
  | nil => rfl
  | cons fi fis ih =>
    have h1 : (m.lookup (nextVertex (fs fi) vi)).isSome = true := hm _ ⟨_, List.mem_cons_self, Or.inl rfl⟩
    have h2 : (m.lookup (prevVertex (fs fi) vi)).isSome = true := hm _ ⟨_, List.mem_cons_self, Or.inr rfl⟩
    obtain ⟨i, hi⟩ := Option.isSome_iff_exists.1 h1
    obtain ⟨j, hj⟩ := Option.isSome_iff_exists.1 h2
    have ih' := ih (fun x hx => hf x (by simp [hx])) (fun x hx => hm x (by
      obtain ⟨e, he, h⟩ := hx
      exact ⟨e, by rw [List.map_cons]; exact List.mem_cons_of_mem _ he, h⟩))
    simp only [addLinks, face, hf fi (by simp), mapAt, hi, hj, Outcome.ok_bind, ren, List.map_cons, Graph.addEdges, loc,
      Option.getD_some]
    congr 1
    funext g'
    exact ih' g'

theorem pathOrCycle_of_graph {n : Nat} {es : List (Nat × Nat)} {g : Graph.G} (hn : 0 < n) (hr : Graph.Rep g n es)
    (hcov : ∀ x, x < n → OnLink es x) :
    ∃ c, Graph.isConnected g = .ok c ∧
      ((Graph.isSimple g && c && decide (Graph.maxDegree g ≤ 2)) = true ↔ PathOrCycle es) := by
  obtain ⟨c, h1, h2⟩ := Graph.isConnected_spec hr hn
  refine ⟨c, h1, ?_⟩
  simp only [Bool.and_eq_true, decide_eq_true_eq]
  rw [Graph.isSimple_iff hr, h2, Graph.maxDegree, Graph.foldl_max_le, hr.order]
  unfold PathOrCycle
  have hin : ∀ x, OnLink es x → x < n := by
    rintro x ⟨e, he, rfl | rfl⟩
    · exact (hr.range _ he).1
    · exact (hr.range _ he).2
  constructor
  · rintro ⟨⟨a, b⟩, _, c⟩
    refine ⟨a, fun x y hx hy => (Graph.reach_symm (b x (hin x hx))).trans (b y (hin y hy)), ?_⟩
    intro x
    by_cases hx : x < n
    · have := c x (by simpa using hx)
      rw [hr.degree x hx] at this; omega
    · have : degree es x = 0 := by
        unfold degree; rw [List.countP_eq_zero]
        intro e he hc
        exact hx (hin x ⟨e, he, by simpa using hc⟩)
      omega
  · rintro ⟨a, b, c⟩
    refine ⟨⟨a, fun x hx => b 0 x (hcov 0 hn) (hcov x hx)⟩, by omega, ?_⟩
    intro i hi
    have hi' : i < n := by simpa using hi
    rw [hr.degree i hi']
    have := c i
    omega

/-- one iteration, in terms of the list of (next, prev) edges -/
theorem singularIter_raw {R : Type} (M : Finder R) (vi : Nat) (fs : Nat → Face)
    (hf : ∀ fi ∈ M.vf vi, M.faces[fi]? = some (fs fi)) :
    ∃ b, singularIter M vi = .ok b ∧ (b = true ↔ M.vf vi ≠ [] ∧
      ¬ PathOrCycle ((M.vf vi).map (fun fi => (nextVertex (fs fi) vi, prevVertex (fs fi) vi)))) := by
  unfold singularIter
  cases hv : M.vf vi with
  | nil => exact ⟨false, rfl, by simp⟩
  | cons fi0 fis0 =>
    simp only
    rw [hv] at hf
    obtain ⟨m, e1, hnum, hkeys⟩ := fillLocal_spec M vi (fi0 :: fis0) fs hf [] numbering_nil
    set es := (fi0 :: fis0).map (fun fi => (nextVertex (fs fi) vi, prevVertex (fs fi) vi)) with hes
    have hkeys' : ∀ x, x ∈ m.map Prod.fst ↔ OnLink es x := by intro x; rw [hkeys]; simp
    have hsome : ∀ x, OnLink es x → (m.lookup x).isSome = true := fun x hx => (lookup_isSome hnum x).2 ((hkeys' x).2 hx)
    have hloc : ∀ x, OnLink es x → (m.map Prod.fst)[loc m x]? = some x := by
      intro x hx
      obtain ⟨i, hi⟩ := Option.isSome_iff_exists.1 (hsome x hx)
      have := (hnum.val x i).1 hi
      simpa [loc, hi] using this
    have hlt : ∀ x, OnLink es x → loc m x < m.length := by
      intro x hx
      have := (List.getElem?_eq_some_iff.1 (hloc x hx)).1
      simpa using this
    have hpos : 0 < m.length := by
      have : OnLink es (nextVertex (fs fi0) vi) := ⟨_, List.mem_cons_self, Or.inl rfl⟩
      have := hlt _ this
      omega
    have hinj : ∀ x y, OnLink es x → OnLink es y → loc m x = loc m y → x = y := by
      intro x y hx hy he
      have h1 := hloc x hx
      have h2 := hloc y hy
      rw [he, h2] at h1
      simpa using h1.symm
    obtain ⟨g0, hg0, r0⟩ := Graph.rep_mk m.length (by omega)
    obtain ⟨g, hg, r⟩ := Graph.rep_addEdges r0 (ren es (loc m)) (by
      intro e he
      obtain ⟨e', he', rfl⟩ := List.mem_map.1 he
      exact ⟨hlt _ ⟨e', he', Or.inl rfl⟩, hlt _ ⟨e', he', Or.inr rfl⟩⟩)
    have r' : Graph.Rep g m.length (ren es (loc m)) := by simpa using r
    obtain ⟨c, hc1, hc2⟩ := pathOrCycle_of_graph hpos r' (by
      intro i hi
      have hi' : i < (m.map Prod.fst).length := by simpa using hi
      have hget : (m.map Prod.fst)[i]? = some (m.map Prod.fst)[i] := List.getElem?_eq_getElem hi'
      have hon : OnLink es (m.map Prod.fst)[i] := (hkeys' _).1 (List.getElem_mem hi')
      refine (onLink_ren es (loc m)).2 ⟨_, hon, ?_⟩
      have := (hnum.val _ i).2 hget
      simp only [loc, this, Option.getD_some])
    rw [pathOrCycle_ren es (loc m) hinj] at hc2
    refine ⟨!(Graph.isSimple g && c && decide (Graph.maxDegree g ≤ 2)), ?_, ?_⟩
    · rw [e1, Outcome.ok_bind, hg0, Outcome.ok_bind, addLinks_eq M vi m (fi0 :: fis0) fs hf hsome, hg, Outcome.ok_bind,
        hc1, Outcome.ok_bind, Outcome.pure_eq]
    · rw [Bool.not_eq_true', ← hc2]
      simp

theorem singularThread_spec {R : Type} (M : Finder R) (P : Nat → Prop) (vis : List Nat)
    (h : ∀ v ∈ vis, ∃ b, singularIter M v = .ok b ∧ (b = true ↔ P v)) :
    ∃ l, singularThread M vis = .ok l ∧ l.Sublist vis ∧ ∀ v, v ∈ l ↔ v ∈ vis ∧ P v := by
  induction vis with
  | nil => exact ⟨[], rfl, List.Sublist.refl _, by simp⟩
  | cons v vis ih =>
    obtain ⟨b, h1, h2⟩ := h v (by simp)
    obtain ⟨l, e1, e2, e3⟩ := ih (fun x hx => h x (by simp [hx]))
    refine ⟨if b then v :: l else l, by simp [singularThread, h1, e1], ?_, ?_⟩
    · cases b
      · simpa using e2.trans (List.sublist_cons_self _ _)
      · simpa using e2
    · intro x
      cases b
      · have hv : ¬ P v := fun hp => by simpa using h2.2 hp
        simp only [Bool.false_eq_true, if_false, e3, List.mem_cons]
        constructor
        · rintro ⟨a, b⟩; exact ⟨Or.inr a, b⟩
        · rintro ⟨rfl | a, b⟩
          · exact absurd b hv
          · exact ⟨a, b⟩
      · have hv : P v := h2.1 rfl
        simp only [if_true, List.mem_cons, e3]
        constructor
        · rintro (rfl | ⟨a, b⟩)
          · exact ⟨Or.inl rfl, hv⟩
          · exact ⟨Or.inr a, b⟩
        · rintro ⟨rfl | a, b⟩
          · exact Or.inl rfl
          · exact Or.inr ⟨a, b⟩

theorem singularVertices_spec {R : Type} (M : Finder R) (P : Nat → Prop) (sched : List (List Nat))
    (h : ∀ v ∈ sched.flatten, ∃ b, singularIter M v = .ok b ∧ (b = true ↔ P v)) :
    ∃ l, singularVertices M sched = .ok l ∧ l.Sublist sched.flatten ∧ ∀ v, v ∈ l ↔ v ∈ sched.flatten ∧ P v := by
  induction sched with
  | nil => exact ⟨[], rfl, List.Sublist.refl _, by simp⟩
  | cons t ts ih =>
    obtain ⟨l1, a1, a2, a3⟩ := singularThread_spec M P t (fun v hv => h v (by simp [hv]))
    obtain ⟨l2, b1, b2, b3⟩ := ih (fun v hv => h v (by rw [List.flatten_cons]; exact List.mem_append_right _ hv))
    refine ⟨l1 ++ l2, by simp [singularVertices, a1, b1], ?_, ?_⟩
    · rw [List.flatten_cons]; exact a2.append b2
    · intro v
      rw [List.mem_append, a3, b3, List.flatten_cons, List.mem_append]
      tauto

end Verif.MeshDefects
