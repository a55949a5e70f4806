import Verif.Spec.DisjointSets
import Mathlib.Data.List.Nodup
import Mathlib.Data.List.Range
import Mathlib.Data.Finset.Card
import Mathlib.Data.Finset.Filter
import Mathlib.Data.Finset.Range

namespace Verif.DisjointSets

open Verif Spec

/-- Forest invariant with an explicit representative function. -/
structure Forest (s : DS) (rep : Nat → Nat) : Prop where
  range : ∀ i, i < s.n → s.parent i < s.n
  repRange : ∀ i, i < s.n → rep i < s.n
  repParent : ∀ i, i < s.n → rep (s.parent i) = rep i
  root : ∀ i, i < s.n → s.parent i = i → rep i = i
  repRoot : ∀ i, i < s.n → s.parent (rep i) = rep i
  acyclic : ∃ h : Nat → Nat, ∀ i, i < s.n → s.parent i ≠ i → h i < h (s.parent i)

/-- Heights can be chosen below `n`. -/
theorem Forest.height {s : DS} {rep : Nat → Nat} (hf : Forest s rep) :
    ∃ h : Nat → Nat, (∀ i, i < s.n → h i < s.n) ∧ ∀ i, i < s.n → s.parent i ≠ i → h i < h (s.parent i) := by
  obtain ⟨h, hh⟩ := hf.acyclic
  refine ⟨fun i => ((Finset.range s.n).filter (fun j => h j < h i)).card, ?_, ?_⟩
  · intro i hi
    have : (Finset.range s.n).filter (fun j => h j < h i) ⊂ Finset.range s.n := by
      rw [Finset.filter_ssubset]
      exact ⟨i, by simpa using hi, by simp⟩
    simpa using Finset.card_lt_card this
  · intro i hi hne
    apply Finset.card_lt_card
    have h1 := hh i hi hne
    constructor
    · intro j hj
      simp only [Finset.mem_filter] at hj ⊢
      exact ⟨hj.1, by omega⟩
    · intro hsub
      have : i ∈ (Finset.range s.n).filter (fun j => h j < h (s.parent i)) := by
        simp [hi, h1]
      have := hsub this
      simp at this

theorem halving_forest {s : DS} {rep : Nat → Nat} (hf : Forest s rep) {i : Nat} (hi : i < s.n)
    (hne : s.parent i ≠ i) : Forest (s.set i (s.parent (s.parent i))) rep := by
  have hp := hf.range i hi
  have hpp := hf.range _ hp
  refine ⟨?_, hf.repRange, ?_, ?_, ?_, ?_⟩
  · intro x hx
    simp only [DS.set] at hx ⊢
    split
    · exact hpp
    · exact hf.range x hx
  · intro x hx
    simp only [DS.set] at hx ⊢
    split
    · rename_i e; subst e; rw [hf.repParent _ hp, hf.repParent _ hi]
    · exact hf.repParent x hx
  · intro x hx
    simp only [DS.set] at hx ⊢
    split
    · rename_i e; subst e
      intro e2
      -- parent (parent x) = x contradicts acyclicity
      obtain ⟨h, hh⟩ := hf.acyclic
      have h1 := hh x hi hne
      by_cases h3 : s.parent (s.parent x) = s.parent x
      · rw [e2] at h3; exact absurd h3.symm hne
      · have h2 := hh _ hp h3
        rw [e2] at h2; omega
    · exact hf.root x hx
  · intro x hx
    simp only [DS.set] at hx ⊢
    split
    · rename_i e
      have := hf.repRoot x hx
      rw [e] at this; exact absurd this hne
    · exact hf.repRoot x hx
  · obtain ⟨h, hh⟩ := hf.acyclic
    refine ⟨h, fun x hx => ?_⟩
    simp only [DS.set] at hx ⊢
    split
    · rename_i e; subst e
      intro _
      have h1 := hh x hi hne
      by_cases h3 : s.parent (s.parent x) = s.parent x
      · rw [h3]; exact h1
      · have h2 := hh _ hp h3; omega
    · exact hh x hx

theorem halving_height {s : DS} {i : Nat} {h : Nat → Nat} (hi : i < s.n) (hp : s.parent i < s.n)
    (hh : ∀ i, i < s.n → s.parent i ≠ i → h i < h (s.parent i)) (hne : s.parent i ≠ i) :
    (∀ x, x < (s.set i (s.parent (s.parent i))).n → (s.set i (s.parent (s.parent i))).parent x ≠ x →
      h x < h ((s.set i (s.parent (s.parent i))).parent x)) ∧ h i < h (s.parent (s.parent i)) := by
  have key : h i < h (s.parent (s.parent i)) := by
    have h1 := hh i hi hne
    by_cases h3 : s.parent (s.parent i) = s.parent i
    · rw [h3]; exact h1
    · have h2 := hh _ hp h3; omega
  refine ⟨fun x hx => ?_, key⟩
  simp only [DS.set] at hx ⊢
  split
  · rename_i e; subst e; intro _; exact key
  · exact hh x hx

theorem findLoop_spec (fuel : Nat) (s : DS) (rep : Nat → Nat) (hf : Forest s rep) (h : Nat → Nat)
    (hb : ∀ i, i < s.n → h i < s.n) (hh : ∀ i, i < s.n → s.parent i ≠ i → h i < h (s.parent i))
    (i : Nat) (hi : i < s.n) (hfuel : s.n - h i < fuel) :
    ∃ s', findLoop fuel s i = (s', .ok (rep i)) ∧ Forest s' rep ∧ s'.n = s.n := by
  induction fuel generalizing s i with
  | zero => omega
  | succ fuel ih =>
    unfold findLoop
    rw [if_pos hi]
    by_cases hr : s.parent i = i
    · rw [if_pos hr]
      exact ⟨s, by rw [hf.root i hi hr], hf, rfl⟩
    · have hp := hf.range i hi
      rw [if_neg hr, if_pos hp]
      obtain ⟨h1, h2⟩ := halving_height hi hp hh hr
      have hf' := halving_forest hf hi hr
      have e : (s.set i (s.parent (s.parent i))).parent i = s.parent (s.parent i) := by simp [DS.set]
      have hpp := hf.range _ hp
      have hbi := hb i hi
      obtain ⟨s', e1, e2, e3⟩ := ih (s.set i (s.parent (s.parent i))) hf' hb h1 (s.parent (s.parent i)) hpp
        (by simp only [DS.set]; omega)
      refine ⟨s', ?_, e2, e3⟩
      simp only [e]
      rw [e1, hf.repParent _ hp, hf.repParent _ hi]

theorem find_spec {s : DS} {rep : Nat → Nat} (hf : Forest s rep) {i : Nat} (hi : i < s.n) :
    ∃ s', find s i = (s', .ok (rep i)) ∧ Forest s' rep ∧ s'.n = s.n := by
  obtain ⟨h, hb, hh⟩ := hf.height
  exact findLoop_spec (s.n + 1) s rep hf h hb hh i hi (by omega)

theorem find_out {s : DS} {i : Nat} (hi : ¬ i < s.n) : find s i = (s, .throws .outOfRange) := by
  simp [find, findLoop, hi]

/-- Merging the classes of two roots. -/
theorem link_forest {s : DS} {rep : Nat → Nat} (hf : Forest s rep) {i j : Nat} (hi : i < s.n) (hj : j < s.n) :
    Forest (s.set (rep i) (rep j)) (fun x => if rep x = rep i then rep j else rep x) := by
  have hri := hf.repRange i hi
  have hrj := hf.repRange j hj
  have rri : rep (rep i) = rep i := hf.root _ hri (hf.repRoot i hi)
  have rrj : rep (rep j) = rep j := hf.root _ hrj (hf.repRoot j hj)
  refine ⟨?_, ?_, ?_, ?_, ?_, ?_⟩
  · intro x hx
    simp only [DS.set] at hx ⊢
    split
    · exact hrj
    · exact hf.range x hx
  · intro x hx
    simp only [DS.set] at hx ⊢
    split
    · exact hrj
    · exact hf.repRange x hx
  · intro x hx
    simp only [DS.set] at hx ⊢
    by_cases e : x = rep i
    · subst e; simp only [if_true, rri, rrj]; split <;> rfl
    · simp only [if_neg e, hf.repParent x hx]
  · intro x hx
    simp only [DS.set] at hx ⊢
    by_cases e : x = rep i
    · subst e; simp only [if_true, rri]; exact id
    · simp only [if_neg e]
      intro h2
      have := hf.root x hx h2
      rw [this, if_neg e]
  · intro x hx
    simp only [DS.set] at hx ⊢
    by_cases e : rep x = rep i
    · simp only [if_pos e]
      by_cases e2 : rep j = rep i
      · rw [if_pos e2]
      · rw [if_neg e2]; exact hf.repRoot j hj
    · simp only [if_neg e]
      exact hf.repRoot x hx
  · obtain ⟨h, hh⟩ := hf.acyclic
    refine ⟨fun x => if x = rep j then h (rep j) + h (rep i) + 1 else h x, fun x hx => ?_⟩
    simp only [DS.set] at hx ⊢
    by_cases e : x = rep i
    · subst e
      simp only [if_true]
      intro hne
      rw [if_neg (Ne.symm hne)]; omega
    · simp only [if_neg e]
      intro hne
      have h1 := hh x hx hne
      by_cases e2 : x = rep j
      · subst e2; exact absurd (hf.repRoot j hj) hne
      · rw [if_neg e2]
        split
        · rename_i e3; rw [e3] at h1; omega
        · exact h1

/-- Full invariant against the united pairs. -/
structure Inv (s : DS) (n : Nat) (us : List (Nat × Nat)) : Prop where
  size : s.n = n
  usRange : ∀ p ∈ us, p.1 < n ∧ p.2 < n
  forest : ∃ rep, Forest s rep ∧ ∀ x y, x < n → y < n → (Conn us x y ↔ rep x = rep y)

theorem conn_nil {x y : Nat} : Conn [] x y ↔ x = y := by
  constructor
  · intro h
    induction h with
    | rel _ _ h => simp at h
    | refl => rfl
    | symm _ _ _ ih => exact ih.symm
    | trans _ _ _ _ _ ih1 ih2 => exact ih1.trans ih2
  · rintro rfl; exact Relation.EqvGen.refl _

theorem conn_mono {us vs : List (Nat × Nat)} (h : ∀ p ∈ us, p ∈ vs) {x y : Nat} (hc : Conn us x y) : Conn vs x y :=
  Relation.EqvGen.mono (fun _ _ h' => h _ h') x y hc

theorem inv_init (n : Nat) : Inv (init n) n [] := by
  refine ⟨rfl, by simp, fun i => i, ⟨?_, ?_, ?_, ?_, ?_, ⟨fun _ => 0, ?_⟩⟩, fun x y _ _ => conn_nil⟩ <;>
    simp [init]

theorem unite_inv {s : DS} {n : Nat} {us : List (Nat × Nat)} (h : Inv s n us) (i j : Nat) :
    (i < n ∧ j < n → (unite s i j).2 = .ok () ∧ Inv (unite s i j).1 n (us ++ [(i, j)])) ∧
    (¬ (i < n ∧ j < n) → (unite s i j).2 = .throws .outOfRange ∧ Inv (unite s i j).1 n us) := by
  obtain ⟨rep, hf, hc⟩ := h.forest
  have hn := h.size
  constructor
  · rintro ⟨hi, hj⟩
    obtain ⟨s1, e1, f1, n1⟩ := find_spec hf (i := j) (by omega)
    obtain ⟨s2, e2, f2, n2⟩ := find_spec f1 (i := i) (by omega)
    have hri := f2.repRange i (by omega)
    have hu : unite s i j = (s2.set (rep i) (rep j), .ok ()) := by
      simp [unite, e1, e2, hri]
    rw [hu]
    refine ⟨rfl, ?_, ?_, _, link_forest f2 (i := i) (j := j) (by omega) (by omega), ?_⟩
    · simp [DS.set]; omega
    · intro p hp
      rcases List.mem_append.1 hp with hp | hp
      · exact h.usRange p hp
      · simp at hp; subst hp; exact ⟨hi, hj⟩
    · intro x y hx hy
      constructor
      · intro hxy
        have : ∀ a b, Conn (us ++ [(i, j)]) a b →
            (if rep a = rep i then rep j else rep a) = (if rep b = rep i then rep j else rep b) := by
          intro a b hab
          induction hab with
          | rel a b hr =>
            rcases List.mem_append.1 hr with hr | hr
            · have hra := h.usRange _ hr
              have := (hc a b hra.1 hra.2).1 (Relation.EqvGen.rel _ _ hr)
              rw [this]
            · simp at hr; obtain ⟨rfl, rfl⟩ := hr
              simp only [if_true]; split <;> rfl
          | refl => rfl
          | symm _ _ _ ih => exact ih.symm
          | trans _ _ _ _ _ ih1 ih2 => exact ih1.trans ih2
        exact this x y hxy
      · intro hxy
        have hm : ∀ p ∈ us, p ∈ us ++ [(i, j)] := fun p hp => List.mem_append_left _ hp
        have hij : Conn (us ++ [(i, j)]) i j := Relation.EqvGen.rel _ _ (by simp)
        have lift : ∀ a b, a < n → b < n → rep a = rep b → Conn (us ++ [(i, j)]) a b :=
          fun a b ha hb e => conn_mono hm ((hc a b ha hb).2 e)
        by_cases ex : rep x = rep i <;> by_cases ey : rep y = rep i
        · exact lift x y hx hy (ex.trans ey.symm)
        · simp only [if_pos ex, if_neg ey] at hxy
          exact (lift x i hx hi ex).trans _ _ _ (hij.trans _ _ _ (lift j y hj hy hxy))
        · simp only [if_neg ex, if_pos ey] at hxy
          exact (lift x j hx hj hxy).trans _ _ _ ((hij.symm _ _).trans _ _ _ (lift i y hi hy ey.symm))
        · simp only [if_neg ex, if_neg ey] at hxy
          exact lift x y hx hy hxy
  · intro hbad
    by_cases hj : j < n
    · obtain ⟨s1, e1, f1, n1⟩ := find_spec hf (i := j) (by omega)
      have hi : ¬ i < s1.n := by
        intro hi; exact hbad ⟨by omega, hj⟩
      have hu : unite s i j = (s1, .throws .outOfRange) := by
        simp [unite, e1, find_out hi]
      rw [hu]
      exact ⟨rfl, n1.trans hn, h.usRange, rep, f1, hc⟩
    · have hu : unite s i j = (s, .throws .outOfRange) := by
        simp [unite, find_out (s := s) (i := j) (by omega)]
      rw [hu]
      exact ⟨rfl, h⟩

/-! ### groups -/

/-- Grouping of `0 .. i-1` by `rep`, groups listed in the order of `rs`. -/
def grouped (rep : Nat → Nat) (rs : List Nat) (i : Nat) : List (List Nat) :=
  rs.map (fun r => (List.range i).filter (fun x => decide (rep x = r)))

structure GInv (rep : Nat → Nat) (i : Nat) (groupOf : Nat → Option Nat) (result : List (List Nat)) (rs : List Nat) :
    Prop where
  res : result = grouped rep rs i
  nodup : rs.Nodup
  seen : ∀ x, x < i → rep x ∈ rs
  witness : ∀ r ∈ rs, ∃ x, x < i ∧ rep x = r
  map : ∀ r pos, groupOf r = some pos ↔ rs[pos]? = some r
  ordered : (result.map (fun g => g.headD 0)).Pairwise (· < ·)

theorem filter_range_succ_eq {rep : Nat → Nat} {i r : Nat} :
    (List.range (i + 1)).filter (fun x => decide (rep x = r))
      = (List.range i).filter (fun x => decide (rep x = r)) ++ if rep i = r then [i] else [] := by
  rw [List.range_succ, List.filter_append]
  congr 1
  by_cases h : rep i = r <;> simp [h]

theorem headD_append_ne {l : List Nat} (h : l ≠ []) (m : List Nat) : (l ++ m).headD 0 = l.headD 0 := by
  cases l with
  | nil => exact absurd rfl h
  | cons a l => rfl

theorem filter_ne_nil {rep : Nat → Nat} {i r : Nat} (h : ∃ x, x < i ∧ rep x = r) :
    (List.range i).filter (fun x => decide (rep x = r)) ≠ [] := by
  obtain ⟨x, h1, h2⟩ := h
  intro e
  have : x ∈ (List.range i).filter (fun x => decide (rep x = r)) := by
    rw [List.mem_filter]; exact ⟨by simpa using h1, by simpa using h2⟩
  rw [e] at this; cases this

theorem headD_mem {l : List Nat} (h : l ≠ []) : l.headD 0 ∈ l := by
  cases l with
  | nil => exact absurd rfl h
  | cons a l => simp

theorem groupsLoop_spec (k i : Nat) (s : DS) (rep : Nat → Nat) (hf : Forest s rep) (hk : i + k = s.n)
    (groupOf : Nat → Option Nat) (result : List (List Nat)) (rs : List Nat) (hg : GInv rep i groupOf result rs) :
    ∃ s' result' rs' groupOf', groupsLoop k i s groupOf result = (s', .ok result') ∧ Forest s' rep ∧ s'.n = s.n ∧
      GInv rep s.n groupOf' result' rs' := by
  induction k generalizing i s groupOf result rs with
  | zero =>
    have : i = s.n := by omega
    subst this
    exact ⟨s, result, rs, groupOf, rfl, hf, rfl, hg⟩
  | succ k ih =>
    obtain ⟨s1, e1, f1, n1⟩ := find_spec hf (i := i) (by omega)
    unfold groupsLoop
    simp only [e1]
    cases hgo : groupOf (rep i) with
    | none =>
      have hnot : rep i ∉ rs := by
        intro hm
        obtain ⟨pos, hpos⟩ := List.getElem?_of_mem hm
        rw [(hg.map _ _).2 hpos] at hgo; cases hgo
      have hlen : result.length = rs.length := by rw [hg.res]; simp [grouped]
      have hg' : GInv rep (i + 1) (fun x => if x = rep i then some result.length else groupOf x)
          (result ++ [[i]]) (rs ++ [rep i]) := by
        have hresOld : ∀ r ∈ rs, (List.range (i+1)).filter (fun x => decide (rep x = r))
            = (List.range i).filter (fun x => decide (rep x = r)) := by
          intro r hr
          rw [filter_range_succ_eq, if_neg, List.append_nil]
          intro e; rw [e] at hnot; exact hnot hr
        refine ⟨?_, ?_, ?_, ?_, ?_, ?_⟩
        · rw [hg.res]
          unfold grouped
          rw [List.map_append]
          congr 1
          · exact (List.map_congr_left hresOld).symm
          · simp only [List.map_cons, List.map_nil, filter_range_succ_eq, if_true]
            have : (List.range i).filter (fun x => decide (rep x = rep i)) = [] := by
              rw [List.filter_eq_nil_iff]
              intro x hx
              simp only [decide_eq_true_eq]
              intro e; exact hnot (e ▸ hg.seen x (by simpa using hx))
            rw [this]; rfl
        · rw [List.nodup_append]
          refine ⟨hg.nodup, by simp, ?_⟩
          intro a ha b hb
          simp at hb; subst hb
          intro e; subst e; exact hnot ha
        · intro x hx
          by_cases e : x = i
          · subst e; simp
          · exact List.mem_append_left _ (hg.seen x (by omega))
        · intro r hr
          rcases List.mem_append.1 hr with hr | hr
          · obtain ⟨x, h1, h2⟩ := hg.witness r hr; exact ⟨x, by omega, h2⟩
          · simp at hr; exact ⟨i, by omega, hr.symm⟩
        · intro r pos
          by_cases e : r = rep i
          · subst e
            simp only [if_true, Option.some.injEq, hlen]
            constructor
            · rintro rfl; simp
            · intro h'
              rw [List.getElem?_append] at h'
              split at h'
              · exact absurd (List.mem_of_getElem? h') hnot
              · have := (List.getElem?_eq_some_iff.1 h').1
                simp at this; omega
          · simp only [if_neg e, hg.map]
            rw [List.getElem?_append]
            split
            · rfl
            · constructor
              · intro h'
                have := (List.getElem?_eq_some_iff.1 h').1; omega
              · intro h'
                have := List.mem_of_getElem? h'
                simp at this; exact absurd this e
        · rw [List.map_append, List.pairwise_append]
          refine ⟨hg.ordered, by simp, ?_⟩
          intro a ha b hb
          simp only [List.map_cons, List.map_nil, List.mem_singleton, List.headD_cons] at hb
          subst hb
          rw [hg.res] at ha
          simp only [grouped, List.map_map, List.mem_map, Function.comp] at ha
          obtain ⟨r, hr, rfl⟩ := ha
          have := headD_mem (filter_ne_nil (hg.witness r hr))
          simpa using (List.mem_filter.1 this).1
      obtain ⟨s', r', rs', go', h1, h2, h3, h4⟩ := ih (i + 1) s1 f1 (by omega) _ _ _ hg'
      exact ⟨s', r', rs', go', h1, h2, by omega, by rw [← n1]; exact h4⟩
    | some pos =>
      have hpos := (hg.map _ _).1 hgo
      have hlen : result.length = rs.length := by rw [hg.res]; simp [grouped]
      have hlt : pos < rs.length := (List.getElem?_eq_some_iff.1 hpos).1
      simp only [if_pos (show pos < result.length by omega)]
      have hmod : result.modify pos (fun g => g ++ [i]) = grouped rep rs (i + 1) := by
        apply List.ext_getElem?
        intro q
        rw [List.getElem?_modify, hg.res]
        simp only [grouped, List.getElem?_map]
        cases hq : rs[q]? with
        | none => simp
        | some r =>
          simp only [Option.map_some, filter_range_succ_eq]
          by_cases e : pos = q
          · subst e
            rw [hpos] at hq
            obtain rfl : rep i = r := by simpa using hq
            simp
          · have : rep i ≠ r := by
              intro e2; subst e2
              apply e
              have a1 := List.getElem?_eq_some_iff.1 hpos
              have a2 := List.getElem?_eq_some_iff.1 hq
              obtain ⟨l1, q1⟩ := a1
              obtain ⟨l2, q2⟩ := a2
              exact (List.Nodup.getElem_inj_iff hg.nodup).1 (q1.trans q2.symm)
            simp [e, this]
      have hg' : GInv rep (i + 1) groupOf (result.modify pos (fun g => g ++ [i])) rs := by
        refine ⟨hmod, hg.nodup, ?_, ?_, hg.map, ?_⟩
        · intro x hx
          by_cases e : x = i
          · subst e; exact List.mem_of_getElem? hpos
          · exact hg.seen x (by omega)
        · intro r hr
          obtain ⟨x, h1, h2⟩ := hg.witness r hr; exact ⟨x, by omega, h2⟩
        · have : (result.modify pos (fun g => g ++ [i])).map (fun g => g.headD 0) = result.map (fun g => g.headD 0) := by
            rw [hmod, hg.res]
            simp only [grouped, List.map_map]
            apply List.map_congr_left
            intro r hr
            simp only [Function.comp, filter_range_succ_eq]
            exact headD_append_ne (filter_ne_nil (hg.witness r hr)) _
          rw [this]; exact hg.ordered
      obtain ⟨s', r', rs', go', h1, h2, h3, h4⟩ := ih (i + 1) s1 f1 (by omega) _ _ _ hg'
      exact ⟨s', r', rs', go', h1, h2, by omega, by rw [← n1]; exact h4⟩

theorem flatten_grouped_perm (rep : Nat → Nat) (rs : List Nat) (hn : rs.Nodup) (i : Nat)
    (hs : ∀ x, x < i → rep x ∈ rs) : (grouped rep rs i).flatten.Perm (List.range i) := by
  apply (List.perm_ext_iff_of_nodup ?_ List.nodup_range).2
  · intro x
    simp only [grouped, List.mem_flatten, List.mem_map, List.mem_range]
    constructor
    · rintro ⟨_, ⟨r, _, rfl⟩, h2⟩
      simpa using (List.mem_filter.1 h2).1
    · intro hx
      exact ⟨_, ⟨rep x, hs x hx, rfl⟩, by rw [List.mem_filter]; exact ⟨by simpa using hx, by simp⟩⟩
  · rw [List.nodup_flatten]
    constructor
    · intro g hg
      simp only [grouped, List.mem_map] at hg
      obtain ⟨r, _, rfl⟩ := hg
      exact List.nodup_range.filter _
    · unfold grouped
      rw [List.pairwise_map]
      apply hn.imp
      intro a b hab x hxa hxb
      simp only [List.mem_filter, decide_eq_true_eq] at hxa hxb
      exact hab (hxa.2.symm.trans hxb.2)

theorem groups_inv {s : DS} {n : Nat} {us : List (Nat × Nat)} (h : Inv s n us) :
    ∃ gs, (groups s).2 = .ok gs ∧ IsClasses n us gs ∧ Inv (groups s).1 n us := by
  obtain ⟨rep, hf, hc⟩ := h.forest
  have hn := h.size
  obtain ⟨s', gs, rs, go, e1, f1, n1, g1⟩ := groupsLoop_spec s.n 0 s rep hf (by omega) (fun _ => none) [] []
    ⟨by simp [grouped], by simp, by simp, by simp, by simp, by simp⟩
  rw [hn] at g1
  have e2 : groups s = (s', .ok gs) := e1
  rw [e2]
  refine ⟨gs, rfl, ⟨?_, ?_, ?_, ?_, g1.ordered⟩, n1.trans hn, h.usRange, rep, f1, hc⟩
  · rw [g1.res]; exact flatten_grouped_perm rep rs g1.nodup n g1.seen
  · intro i j hi hj
    rw [hc i j hi hj, g1.res]
    simp only [grouped, List.mem_map]
    constructor
    · rintro ⟨_, ⟨r, _, rfl⟩, h2, h3⟩
      simp only [List.mem_filter, decide_eq_true_eq] at h2 h3
      exact h2.2.trans h3.2.symm
    · intro e
      refine ⟨_, ⟨rep i, g1.seen i hi, rfl⟩, ?_, ?_⟩
      · simp [List.mem_filter, hi]
      · simp [List.mem_filter, hj, e]
  · intro g hg
    rw [g1.res] at hg
    simp only [grouped, List.mem_map] at hg
    obtain ⟨r, _, rfl⟩ := hg
    exact List.pairwise_lt_range.filter _
  · intro g hg
    rw [g1.res] at hg
    simp only [grouped, List.mem_map] at hg
    obtain ⟨r, hr, rfl⟩ := hg
    exact filter_ne_nil (g1.witness r hr)

theorem run_inv {s : DS} {n : Nat} {us : List (Nat × Nat)} (h : Inv s n us) (ops : List Op) :
    Inv (run s ops) n (us ++ united n ops) := by
  induction ops generalizing s us with
  | nil => simpa [run, united] using h
  | cons op ops ih =>
    cases op with
    | groups =>
      obtain ⟨_, _, _, h'⟩ := groups_inv h
      simpa [run, united] using ih (s := (step s .groups).1) h'
    | unite i j =>
      by_cases hb : i < n ∧ j < n
      · have := ih (s := (step s (.unite i j)).1) ((unite_inv h i j).1 hb).2
        simpa [run, united, hb] using this
      · have := ih (s := (step s (.unite i j)).1) ((unite_inv h i j).2 hb).2
        simp only [run, united, if_neg hb]; exact this

end Verif.DisjointSets
