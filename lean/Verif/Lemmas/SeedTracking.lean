import Verif.Model.SeedTracking
import Verif.Lemmas.LatticeRuns
import Mathlib.Tactic.Linarith

/-! # The seed tracking as a pure computation, and why it ends -/

namespace Verif.SeedTracking

open Verif Verif.Lattice

variable {K : Type} [Field K] [LinearOrder K]

/-! ## The nodes around a node -/

theorem mem_allNeighbors {frontier : List LC} {x : LC} : x ∈ allNeighbors frontier ↔ ∃ lc ∈ frontier, ∃ e < 14, x = neighbor lc e := by
  unfold allNeighbors
  simp only [List.mem_flatMap, List.mem_map, List.mem_range, eq_comm]

theorem knnFold {inBox : LC → Bool} : ∀ (cs : List LC) (vis nx : List LC),
    (∀ x, x ∈ (cs.foldl (knnVisit inBox) (vis, nx)).1 ↔ x ∈ vis ∨ x ∈ cs ∧ inBox x = true) ∧
    (∀ x, x ∈ (cs.foldl (knnVisit inBox) (vis, nx)).2 ↔ x ∈ nx ∨ x ∈ cs ∧ inBox x = true ∧ x ∉ vis)
  | [], vis, nx => by simp
  | c :: cs, vis, nx => by
      rw [List.foldl_cons]
      by_cases h1 : c ∈ vis
      · have e : knnVisit inBox (vis, nx) c = (vis, nx) := if_pos h1
        rw [e]
        obtain ⟨a, b⟩ := knnFold cs vis nx (inBox := inBox)
        constructor
        · intro x
          rw [a, List.mem_cons]
          constructor
          · rintro (h | h)
            · exact .inl h
            · exact .inr ⟨.inr h.1, h.2⟩
          · rintro (h | ⟨rfl | h, h'⟩)
            · exact .inl h
            · exact .inl h1
            · exact .inr ⟨h, h'⟩
        · intro x
          rw [b, List.mem_cons]
          constructor
          · rintro (h | h)
            · exact .inl h
            · exact .inr ⟨.inr h.1, h.2⟩
          · rintro (h | ⟨rfl | h, h'⟩)
            · exact .inl h
            · exact absurd h1 h'.2
            · exact .inr ⟨h, h'⟩
      · by_cases h2 : inBox c = true
        · have e : knnVisit inBox (vis, nx) c = (vis ++ [c], nx ++ [c]) := by
            unfold knnVisit
            rw [if_neg h1, if_neg (by simp [h2])]
          rw [e]
          obtain ⟨a, b⟩ := knnFold cs (vis ++ [c]) (nx ++ [c]) (inBox := inBox)
          constructor
          · intro x
            rw [a, List.mem_cons, List.mem_append, List.mem_singleton]
            constructor
            · rintro ((h | rfl) | h)
              · exact .inl h
              · exact .inr ⟨.inl rfl, h2⟩
              · exact .inr ⟨.inr h.1, h.2⟩
            · rintro (h | ⟨rfl | h, h'⟩)
              · exact .inl (.inl h)
              · exact .inl (.inr rfl)
              · exact .inr ⟨h, h'⟩
          · intro x
            rw [b, List.mem_cons, List.mem_append, List.mem_append, List.mem_singleton]
            constructor
            · rintro ((h | rfl) | h)
              · exact .inl h
              · exact .inr ⟨.inl rfl, h2, h1⟩
              · exact .inr ⟨.inr h.1, h.2.1, fun hv => h.2.2 (.inl hv)⟩
            · rintro (h | ⟨rfl | h, h', h''⟩)
              · exact .inl (.inl h)
              · exact .inl (.inr rfl)
              · by_cases hx : x = c
                · exact .inl (.inr hx)
                · exact .inr ⟨h, h', fun hv => hv.elim h'' hx⟩
        · have e : knnVisit inBox (vis, nx) c = (vis, nx) := by
            unfold knnVisit
            rw [if_neg h1, if_pos (by simp [h2])]
          rw [e]
          obtain ⟨a, b⟩ := knnFold cs vis nx (inBox := inBox)
          constructor
          · intro x
            rw [a, List.mem_cons]
            constructor
            · rintro (h | h)
              · exact .inl h
              · exact .inr ⟨.inr h.1, h.2⟩
            · rintro (h | ⟨rfl | h, h'⟩)
              · exact .inl h
              · exact absurd h' h2
              · exact .inr ⟨h, h'⟩
          · intro x
            rw [b, List.mem_cons]
            constructor
            · rintro (h | h)
              · exact .inl h
              · exact .inr ⟨.inr h.1, h.2⟩
            · rintro (h | ⟨rfl | h, h'⟩)
              · exact .inl h
              · exact absurd h'.1 h2
              · exact .inr ⟨h, h'⟩

/-- the direct neighbours in the box -/
theorem mem_knn_one {inBox : LC → Bool} {lc x : LC} : x ∈ knnNodes inBox lc 1 ↔ inBox x = true ∧ ∃ e < 14, x = neighbor lc e := by
  unfold knnNodes
  rw [knnLoop, knnLoop, (knnFold _ _ _).2, mem_allNeighbors]
  constructor
  · rintro (h | ⟨⟨y, hy, e, he, rfl⟩, hb, -⟩)
    · cases h
    · rw [List.mem_singleton] at hy
      subst hy
      exact ⟨hb, e, he, rfl⟩
  · rintro ⟨hb, e, he, rfl⟩
    refine .inr ⟨⟨lc, by simp, e, he, rfl⟩, hb, ?_⟩
    rw [List.mem_singleton]
    exact neighbor_ne he

theorem knnLoop_inBox {inBox : LC → Bool} : ∀ (k : Nat) (vis fr : List LC), (∀ x ∈ fr, inBox x = true) → ∀ x ∈ knnLoop inBox k vis fr, inBox x = true
  | 0, _, _, h => h
  | k + 1, vis, fr, h => by
      rw [knnLoop]
      apply knnLoop_inBox k
      intro x hx
      rcases ((knnFold _ _ _).2 x).1 hx with h | h
      · cases h
      · exact h.2.1

theorem knn_inBox {inBox : LC → Bool} {lc : LC} (h : inBox lc = true) {k : Nat} {x : LC} (hx : x ∈ knnNodes inBox lc k) : inBox x = true :=
  knnLoop_inBox k [lc] [lc] (fun y hy => by rw [List.mem_singleton] at hy; rw [hy]; exact h) x hx

theorem boundary_false {inBox : LC → Bool} {lc : LC} : isBoundary inBox lc = false ↔ ∀ e < 14, inBox (neighbor lc e) = true := by
  unfold isBoundary
  rw [List.any_eq_false]
  simp

/-! ## Evaluated nodes -/

/-- the node is there and has a value -/
def Ev (nl : NodeList) (lc : LC) : Prop := ∃ n b, nl.ptr lc = some n ∧ n.neg = some b

omit [Field K] [LinearOrder K] in
theorem Ev.value {C : Ctx K} {nl : NodeList} {lc : LC} (h : Ev nl lc) : valueAt C nl lc = .ok (C.val lc) := by
  obtain ⟨n, b, h1, h2⟩ := h
  unfold valueAt Node.valueSign
  rw [at_eq h1, Outcome.ok_bind, h2]
  rfl

theorem Ev.there {nl : NodeList} {lc : LC} (h : Ev nl lc) : ∃ n, nl.at lc = .ok n := by
  obtain ⟨n, b, h1, -⟩ := h
  exact ⟨n, at_eq h1⟩

theorem Ev.add {inBox : LC → Bool} {l : Lat} {lc : LC} (h : Ev l.nodes lc) (lcs : List LC) : Ev (l.addNodes inBox lcs).1.nodes lc := by
  obtain ⟨n, b, h1, h2⟩ := h
  obtain ⟨l', added, e1, -, -, -, -, e6, e7⟩ := addNodes_spec (inBox := inBox) lcs l
  rw [e1]
  refine ⟨n, b, ?_, h2⟩
  rw [e7, if_neg ?_, h1]
  intro hm
  exact ((e6 lc).1 hm).2.2 (ptr_some_mem h1)

theorem ev_of {inBox σ : LC → Bool} {l : Lat} (h : SInv inBox σ l) {lc : LC} (hk : lc ∈ keys l.nodes) : Ev l.nodes lc := by
  obtain ⟨n, hn⟩ := ptr_exists hk
  exact ⟨n, σ lc, hn, by rw [h.node lc n hn]⟩

theorem addNodes_append (inBox : LC → Bool) : ∀ (a b : List LC) (l : Lat), ((l.addNodes inBox a).1.addNodes inBox b).1 = (l.addNodes inBox (a ++ b)).1
  | [], b, l => rfl
  | x :: a, b, l => by
      rw [List.cons_append, Lat.addNodes, Lat.addNodes]
      exact addNodes_append inBox a b (l.addNode inBox x).1

theorem mapO_values {C : Ctx K} {nl : NodeList} : ∀ (xs : List LC), (∀ x ∈ xs, Ev nl x) → mapO (valueAt C nl) xs = .ok (xs.map C.val)
  | [], _ => rfl
  | x :: xs, h => by
      rw [mapO, (h x List.mem_cons_self).value, Outcome.ok_bind, mapO_values xs fun y hy => h y (List.mem_cons_of_mem _ hy)]
      rfl

/-! ## The first loop without the lattice -/

def scanP (C : Ctx K) (lc : LC) (k : Nat) : List LC → Scan → Scan
  | [], a => a
  | nlc :: rest, a =>
      let a := if opposite k (C.val lc) (C.val nlc) then { a with pairs := a.pairs ++ [mkPair lc nlc] } else a
      if opposite k (C.val lc) (C.val nlc) && !isBoundary C.inBox nlc then { a with found := true }
      else scanP C lc k rest (noteSmaller (C.val lc) (C.val nlc) (isBoundary C.inBox nlc) nlc a)

def decideP (C : Ctx K) (s : Seed K) (a : Scan) : Visit K :=
  if a.found then ⟨a.pairs, [], none⟩
  else match a.cand with
    | [] => retry C s a
    | c :: cs => moveTo C s a (C.dir s.lc) c cs

def scanOf (C : Ctx K) (s : Seed K) : Scan := scanP C s.lc s.k (knnNodes C.inBox s.lc s.k) ⟨[], [], false, true⟩

def visitP (C : Ctx K) (s : Seed K) : Visit K := decideP C s (scanOf C s)

theorem scan_eq {C : Ctx K} {nl : NodeList} {lc : LC} {k : Nat} (h : Ev nl lc) : ∀ (xs : List LC) (a : Scan), (∀ x ∈ xs, Ev nl x) →
    scan C nl lc k xs a = .ok (scanP C lc k xs a)
  | [], a, _ => rfl
  | x :: xs, a, hx => by
      rw [scan, h.value, Outcome.ok_bind, (hx x List.mem_cons_self).value, Outcome.ok_bind, scanP]
      dsimp only
      split
      · rfl
      · exact scan_eq h xs _ fun y hy => hx y (List.mem_cons_of_mem _ hy)

/-- everything a visit of the seed reads is there -/
structure Ready (C : Ctx K) (nl : NodeList) (s : Seed K) : Prop where
  self : Ev nl s.lc
  around : ∀ x ∈ knnNodes C.inBox s.lc s.k, Ev nl x
  near : ∀ e < 14, Ev nl (neighbor s.lc e)

omit [Field K] [LinearOrder K] in
theorem Ready.add {C : Ctx K} {l : Lat} {s : Seed K} (h : Ready C l.nodes s) (lcs : List LC) : Ready C (l.addNodes C.inBox lcs).1.nodes s :=
  ⟨h.self.add lcs, fun x hx => (h.around x hx).add lcs, fun e he => (h.near e he).add lcs⟩

theorem visit_eq {C : Ctx K} {nl : NodeList} {s : Seed K} (h : Ready C nl s) : visit C nl s = .ok (visitP C s) := by
  obtain ⟨n, hn⟩ := h.self.there
  unfold visit visitP scanOf
  rw [hn, Outcome.ok_bind, scan_eq h.self _ _ h.around, Outcome.ok_bind]
  have hd : direction C nl s.lc = .ok (C.dir s.lc) := by
    unfold direction
    rw [mapO_values _ (by
      intro x hx
      rcases List.mem_cons.1 hx with rfl | hx
      · exact h.self
      · obtain ⟨e, he, rfl⟩ := List.mem_map.1 hx
        refine h.near e ?_
        simp only [List.mem_cons, List.not_mem_nil, or_false] at he
        omega)]
    rfl
  unfold decide_ decideP
  generalize scanP C s.lc s.k (knnNodes C.inBox s.lc s.k) ⟨[], [], false, true⟩ = a
  by_cases hf : a.found = true
  · rw [if_pos hf, if_pos hf]
  · rw [if_neg hf, if_neg hf]
    cases hc : a.cand with
    | nil => rfl
    | cons c cs =>
      dsimp only
      rw [hd]
      rfl

def pairsP (C : Ctx K) (ss : List (Seed K)) : List Pair := ss.flatMap fun s => (visitP C s).pairs
def askP (C : Ctx K) (ss : List (Seed K)) : List LC := ss.flatMap fun s => (visitP C s).ask
def nextP (C : Ctx K) (ss : List (Seed K)) : List (Seed K) := ss.flatMap fun s => (visitP C s).next.toList

theorem round_eq {C : Ctx K} : ∀ (ss : List (Seed K)) {l : Lat}, (∀ s ∈ ss, Ready C l.nodes s) →
    round C l ss = .ok ((l.addNodes C.inBox (askP C ss)).1, pairsP C ss, askP C ss, nextP C ss)
  | [], l, _ => rfl
  | s :: ss, l, h => by
      rw [round, visit_eq (h s List.mem_cons_self), Outcome.ok_bind,
        round_eq ss fun t ht => (h t (List.mem_cons_of_mem _ ht)).add (visitP C s).ask, Outcome.ok_bind, addNodes_append]
      rfl

/-! ## What a scan finds -/

/-- the properties of a scan kept by every step -/
structure ScanOk (C : Ctx K) (lc : LC) (xs : List LC) (a : Scan) : Prop where
  cand : ∀ x ∈ a.cand, x ∈ xs ∧ isBoundary C.inBox x = false ∧ |C.val x| < |C.val lc|
  pairs : ∀ p ∈ a.pairs, ∃ x ∈ xs, p = mkPair lc x ∧ C.neg x ≠ C.neg lc

theorem opposite_iff {C : Ctx K} {k : Nat} {lc x : LC} : opposite k (C.val lc) (C.val x) = true ↔ k = 1 ∧ C.neg x ≠ C.neg lc := by
  unfold opposite Ctx.neg
  simp [Bool.and_eq_true]

theorem scanP_ok {C : Ctx K} {lc : LC} {k : Nat} {all : List LC} : ∀ (xs : List LC) (a : Scan), (∀ x ∈ xs, x ∈ all) → ScanOk C lc all a → ScanOk C lc all (scanP C lc k xs a)
  | [], a, _, h => h
  | x :: xs, a, hx, h => by
      have hxa := hx x List.mem_cons_self
      have h1 : ScanOk C lc all (if opposite k (C.val lc) (C.val x) then { a with pairs := a.pairs ++ [mkPair lc x] } else a) := by
        split
        · rename_i ho
          refine ⟨h.cand, fun p hp => ?_⟩
          rcases List.mem_append.1 hp with hp | hp
          · exact h.pairs p hp
          · rw [List.mem_singleton] at hp
            exact ⟨x, hxa, hp, (opposite_iff.1 ho).2⟩
        · exact h
      rw [scanP]
      generalize (if opposite k (C.val lc) (C.val x) then { a with pairs := a.pairs ++ [mkPair lc x] } else a) = b at h1
      split
      · exact ⟨h1.cand, h1.pairs⟩
      · apply scanP_ok xs _ fun y hy => hx y (List.mem_cons_of_mem _ hy)
        unfold noteSmaller
        split
        · rename_i hlt
          refine ⟨fun y hy => ?_, h1.pairs⟩
          dsimp only at hy
          split at hy
          · exact h1.cand y hy
          · rename_i hb
            rcases List.mem_append.1 hy with hy | hy
            · exact h1.cand y hy
            · rw [List.mem_singleton] at hy
              subst hy
              exact ⟨hxa, by simpa using hb, hlt⟩
        · exact h1

theorem scanOf_ok (C : Ctx K) (s : Seed K) : ScanOk C s.lc (knnNodes C.inBox s.lc s.k) (scanOf C s) :=
  scanP_ok _ _ (fun _ h => h) ⟨by simp, by simp⟩

theorem closest_mem {C : Ctx K} {lc : LC} {c d : V3 K} : ∀ (xs : List LC) (best : LC), closest C lc c d best xs ∈ best :: xs
  | [], best => by simp [closest]
  | x :: xs, best => by
      rw [closest]
      have := closest_mem (C := C) (lc := lc) (c := c) (d := d) xs
        (if dot (corrected C lc c d x) (corrected C lc c d x) < dot (corrected C lc c d best) (corrected C lc c d best) then x else best)
      rcases List.mem_cons.1 this with h | h
      · rw [h]
        split <;> simp
      · exact List.mem_cons_of_mem _ (List.mem_cons_of_mem _ h)

/-- the two ways on: more nodes around the same node, or a node with a smaller value -/
theorem visitP_next {C : Ctx K} {s t : Seed K} (h : (visitP C s).next = some t) :
    (t.lc = s.lc ∧ t.k = s.k + 1 ∧ s.k < 10 ∧ (visitP C s).ask = knnNodes C.inBox s.lc (s.k + 1)) ∨
    (t.lc ∈ knnNodes C.inBox s.lc s.k ∧ isBoundary C.inBox t.lc = false ∧ |C.val t.lc| < |C.val s.lc| ∧ t.k = 1 ∧ (visitP C s).ask = knnNodes C.inBox t.lc 1) := by
  have ok := scanOf_ok C s
  unfold visitP decideP at h ⊢
  generalize scanOf C s = a at *
  by_cases hf : a.found = true
  · rw [if_pos hf] at h; cases h
  · rw [if_neg hf] at h ⊢
    cases hc : a.cand with
    | nil =>
      simp only [hc] at h ⊢
      unfold retry at h ⊢
      by_cases h1 : (decide (10 ≤ s.k) || a.minimum) = true
      · rw [if_pos h1] at h; cases h
      · rw [if_neg h1] at h ⊢
        by_cases h2 : (knnNodes C.inBox s.lc (s.k + 1)).isEmpty = true
        · rw [if_pos h2] at h; cases h
        · rw [if_neg h2] at h ⊢
          cases h
          refine .inl ⟨rfl, rfl, ?_, rfl⟩
          simp only [Bool.or_eq_true, decide_eq_true_eq, not_or] at h1
          omega
    | cons c cs =>
      simp only [hc] at h ⊢
      unfold moveTo at h ⊢
      dsimp only at h ⊢
      cases h
      have hm : closest C s.lc s.corrector (C.dir s.lc) c cs ∈ a.cand := by rw [hc]; exact closest_mem cs c
      obtain ⟨m1, m2, m3⟩ := ok.cand _ hm
      exact .inr ⟨m1, m2, m3, rfl, rfl⟩

/-- a visit adds nodes only for the seed that takes its place -/
theorem visitP_ask {C : Ctx K} {s : Seed K} (h : (visitP C s).next = none) : (visitP C s).ask = [] := by
  unfold visitP decideP at h ⊢
  generalize scanOf C s = a at *
  by_cases hf : a.found = true
  · rw [if_pos hf]
  · rw [if_neg hf] at h ⊢
    cases hc : a.cand with
    | nil =>
      simp only [hc] at h ⊢
      unfold retry at h ⊢
      by_cases h1 : (decide (10 ≤ s.k) || a.minimum) = true
      · rw [if_pos h1]
      · rw [if_neg h1] at h ⊢
        by_cases h2 : (knnNodes C.inBox s.lc (s.k + 1)).isEmpty = true
        · rw [if_pos h2]
        · rw [if_neg h2] at h; cases h
    | cons c cs =>
      simp only [hc] at h ⊢
      cases h

theorem visitP_pairs (C : Ctx K) (s : Seed K) : (visitP C s).pairs = (scanOf C s).pairs := by
  unfold visitP decideP
  generalize scanOf C s = a
  split
  · rfl
  · split
    · unfold retry
      split
      · rfl
      · split <;> rfl
    · rfl

/-! ## Why the first loop ends -/

/-- how many nodes of the box have a smaller value -/
def below (C : Ctx K) (B : List LC) (lc : LC) : Nat := (B.filter fun x => |C.val x| < |C.val lc|).length

def measure (C : Ctx K) (B : List LC) (s : Seed K) : Nat := 10 * below C B s.lc + (10 - s.k)

theorem below_lt {C : Ctx K} {B : List LC} {x y : LC} (hx : x ∈ B) (h : |C.val x| < |C.val y|) : below C B x < below C B y := by
  unfold below
  have hsub : (B.filter fun z => |C.val z| < |C.val x|).Sublist (B.filter fun z => |C.val z| < |C.val y|) := by
    apply List.monotone_filter_right
    intro z hz
    simp only [decide_eq_true_eq] at hz ⊢
    exact hz.trans h
  refine lt_of_le_of_ne hsub.length_le fun he => ?_
  have := hsub.eq_of_length he
  have hm : x ∈ B.filter fun z => |C.val z| < |C.val x| := by
    rw [this, List.mem_filter]
    exact ⟨hx, by simpa using h⟩
  rw [List.mem_filter] at hm
  simp at hm

theorem measure_lt {C : Ctx K} {B : List LC} (hB : ∀ lc, C.inBox lc = true → lc ∈ B) {s t : Seed K} (hs : C.inBox s.lc = true) (h : (visitP C s).next = some t) :
    measure C B t < measure C B s := by
  unfold measure
  rcases visitP_next h with ⟨h1, h2, h3, -⟩ | ⟨h1, -, h3, h4, -⟩
  · rw [h1, h2]; omega
  · have := below_lt (hB _ (knn_inBox hs h1)) h3
    rw [h4]; omega

theorem measure_bound {C : Ctx K} {B : List LC} {s : Seed K} (hs : s.lc ∈ B) (hk : 1 ≤ s.k) : measure C B s < 10 * B.length := by
  have : below C B s.lc < B.length := by
    unfold below
    refine lt_of_le_of_ne (List.length_filter_le _ _) fun he => ?_
    rw [List.length_filter_eq_length_iff] at he
    have := he _ hs
    simp at this
  unfold measure
  omega

/-! ## One round on the lattice -/

/-- the same as `Ready`, by the nodes there are -/
structure ReadyIn (C : Ctx K) (S : LC → Prop) (s : Seed K) : Prop where
  self : S s.lc
  around : ∀ x ∈ knnNodes C.inBox s.lc s.k, S x
  near : ∀ e < 14, S (neighbor s.lc e)

theorem ReadyIn.ready {C : Ctx K} {l : Lat} (h : SInv C.inBox C.neg l) {s : Seed K} (hs : ReadyIn C (· ∈ keys l.nodes) s) : Ready C l.nodes s :=
  ⟨ev_of h hs.self, fun x hx => ev_of h (hs.around x hx), fun e he => ev_of h (hs.near e he)⟩

theorem round_spec {C : Ctx K} {l : Lat} (h : SInv C.inBox C.neg l) {ss : List (Seed K)} (hs : ∀ s ∈ ss, ReadyIn C (· ∈ keys l.nodes) s) :
    ∃ l1 l2, round C l ss = .ok (l1, pairsP C ss, askP C ss, nextP C ss) ∧ l1 = (l.addNodes C.inBox (askP C ss)).1 ∧ l1.evaluateField C.neg = .ok l2 ∧ SInv C.inBox C.neg l2 ∧
      (∀ lc, lc ∈ keys l2.nodes ↔ lc ∈ keys l.nodes ∨ lc ∈ askP C ss ∧ C.inBox lc = true) ∧ ∀ t ∈ nextP C ss, ReadyIn C (· ∈ keys l2.nodes) t := by
  obtain ⟨l1, added, l2, e1, e2, h2, k2, m2⟩ := growS h (askP C ss)
  have hmem : ∀ lc, lc ∈ keys l2.nodes ↔ lc ∈ keys l.nodes ∨ lc ∈ askP C ss ∧ C.inBox lc = true := by
    intro lc
    rw [k2, List.mem_append, m2]
    tauto
  refine ⟨l1, l2, ?_, by rw [e1], e2, h2, hmem, ?_⟩
  · rw [round_eq ss fun s hm => (hs s hm).ready h, e1]
  · intro t ht
    obtain ⟨s, hm, ht⟩ := List.mem_flatMap.1 ht
    rw [Option.mem_toList] at ht
    have r := hs s hm
    have hb : C.inBox s.lc = true := h.box _ r.self
    have hask : ∀ x ∈ (visitP C s).ask, x ∈ askP C ss := fun x hx => List.mem_flatMap.2 ⟨s, hm, hx⟩
    rcases visitP_next ht with ⟨h1, h2, -, h4⟩ | ⟨h1, h2, -, h4, h5⟩
    · refine ⟨?_, ?_, ?_⟩
      · rw [h1, hmem]; exact .inl r.self
      · intro x hx
        rw [h1, h2] at hx
        rw [hmem]
        exact .inr ⟨hask x (by rw [h4]; exact hx), knn_inBox hb hx⟩
      · intro e he
        rw [h1, hmem]; exact .inl (r.near e he)
    · have hbt : C.inBox t.lc = true := knn_inBox hb h1
      refine ⟨?_, ?_, ?_⟩
      · rw [hmem]; exact .inl (r.around _ h1)
      · intro x hx
        rw [h4] at hx
        rw [hmem]
        exact .inr ⟨hask x (by rw [h5]; exact hx), knn_inBox hbt hx⟩
      · intro e he
        have hbe := boundary_false.1 h2 e he
        rw [hmem]
        exact .inr ⟨hask _ (by rw [h5, mem_knn_one]; exact ⟨hbe, e, he, rfl⟩), hbe⟩

/-! ## The first loop -/

/-- the pairs and the batches of the first loop -/
def trackP (C : Ctx K) : Nat → List (Seed K) → List Pair × List (List LC)
  | _, [] => ([], [])
  | 0, _ :: _ => ([], [])
  | fuel + 1, s :: ss =>
      let r := trackP C fuel (nextP C (s :: ss))
      (pairsP C (s :: ss) ++ r.1, askP C (s :: ss) :: r.2)

theorem addBatches_cons {inBox σ : LC → Bool} {l l1 l2 : Lat} {b : List LC} {bs : List (List LC)} (h1 : l1 = (l.addNodes inBox b).1) (h2 : l1.evaluateField σ = .ok l2) :
    l.addBatches inBox σ (b :: bs) = l2.addBatches inBox σ bs := by
  rw [Lat.addBatches, ← h1, h2, Outcome.ok_bind]

theorem trackLoop_spec {C : Ctx K} {B : List LC} (hB : ∀ lc, C.inBox lc = true → lc ∈ B) : ∀ (fuel : Nat) {l : Lat} (ss : List (Seed K)), SInv C.inBox C.neg l →
    (∀ s ∈ ss, ReadyIn C (· ∈ keys l.nodes) s) → (∀ s ∈ ss, measure C B s < fuel) →
    ∃ l', trackLoop C fuel l ss = .ok (some (l', (trackP C fuel ss).1, (trackP C fuel ss).2)) ∧ SInv C.inBox C.neg l' ∧
      l.addBatches C.inBox C.neg (trackP C fuel ss).2 = .ok l' ∧ (∀ x ∈ keys l.nodes, x ∈ keys l'.nodes) ∧
      ∀ p ∈ (trackP C fuel ss).1, p.1 ∈ keys l'.nodes ∧ p.2 ∈ keys l'.nodes
  | fuel, l, [], h, _, _ => by
      refine ⟨l, ?_, h, ?_, fun x hx => hx, ?_⟩
      · cases fuel <;> rfl
      · cases fuel <;> rfl
      · cases fuel <;> simp [trackP]
  | 0, l, s :: ss, _, _, hm => absurd (hm s List.mem_cons_self) (Nat.not_lt_zero _)
  | fuel + 1, l, s :: ss, h, hr, hm => by
      obtain ⟨l1, l2, e1, e2, e3, i2, k2, r2⟩ := round_spec h hr
      obtain ⟨l', f1, f2, f3, f4, f5⟩ := trackLoop_spec hB fuel (nextP C (s :: ss)) i2 r2 (by
        intro t ht
        obtain ⟨u, hu, ht⟩ := List.mem_flatMap.1 ht
        rw [Option.mem_toList] at ht
        have := measure_lt hB (h.box _ (hr u hu).self) ht
        have := hm u hu
        omega)
      refine ⟨l', ?_, f2, ?_, ?_, ?_⟩
      · rw [trackLoop, e1, Outcome.ok_bind, e3, Outcome.ok_bind, f1]
        rfl
      · rw [trackP]
        dsimp only
        rw [addBatches_cons e2 e3]
        exact f3
      · intro x hx
        exact f4 x ((k2 x).2 (.inl hx))
      · intro p hp
        rw [trackP] at hp
        dsimp only at hp
        rcases List.mem_append.1 hp with hp | hp
        · obtain ⟨u, hu, hp⟩ := List.mem_flatMap.1 hp
          rw [visitP_pairs] at hp
          obtain ⟨x, hx, rfl, -⟩ := (scanOf_ok C u).pairs p hp
          have a1 := f4 _ ((k2 _).2 (.inl (hr u hu).self))
          have a2 := f4 _ ((k2 _).2 (.inl ((hr u hu).around x hx)))
          unfold mkPair
          split
          · exact ⟨a1, a2⟩
          · exact ⟨a2, a1⟩
        · exact f5 p hp

/-! ## The second loop -/

theorem mem_sortLC {l : List LC} {x : LC} : x ∈ sortLC l ↔ x ∈ l := (List.perm_insertionSort _ l).mem_iff

theorem mem_common {inBox : LC → Bool} {p : Pair} {x : LC} : x ∈ commonNeighbors inBox p ↔
    inBox x = true ∧ (∃ e < 14, x = neighbor p.1 e) ∧ ∃ e < 14, x = neighbor p.2 e := by
  unfold commonNeighbors setIntersection
  rw [List.mem_filter, mem_sortLC, decide_eq_true_eq, mem_sortLC, mem_knn_one, mem_knn_one]
  tauto

def commonP (C : Ctx K) (p : Pair) : List LC := if C.neg p.1 == C.neg p.2 then [] else commonNeighbors C.inBox p

/-- the visited pairs, the nodes to add and the new pairs of a round -/
def pairRoundP (C : Ctx K) : List Pair → List Pair → List Pair × List LC × List Pair
  | vis, [] => (vis, [], [])
  | vis, p :: ps =>
      if p ∈ vis then pairRoundP C vis ps
      else
        let r := pairRoundP C (p :: vis) ps
        (r.1, commonP C p ++ r.2.1, ((commonP C p).flatMap fun c => [mkPair p.1 c, mkPair p.2 c]) ++ r.2.2)

theorem common_inBox {C : Ctx K} {p : Pair} {x : LC} (h : x ∈ commonP C p) : C.inBox x = true := by
  unfold commonP at h
  split at h
  · cases h
  · exact (mem_common.1 h).1

theorem pairRound_eq {C : Ctx K} : ∀ (ps vis : List Pair) {l : Lat}, (∀ p ∈ ps, Ev l.nodes p.1 ∧ Ev l.nodes p.2) →
    pairRound C l vis ps = .ok ((l.addNodes C.inBox (pairRoundP C vis ps).2.1).1, pairRoundP C vis ps)
  | [], vis, l, _ => rfl
  | p :: ps, vis, l, h => by
      rw [pairRound, pairRoundP]
      by_cases hv : p ∈ vis
      · rw [if_pos hv, if_pos hv]
        exact pairRound_eq ps vis fun q hq => h q (List.mem_cons_of_mem _ hq)
      · rw [if_neg hv, if_neg hv]
        have e : visitPair C l.nodes p = .ok (commonP C p) := by
          unfold visitPair
          rw [(h p List.mem_cons_self).1.value, Outcome.ok_bind, (h p List.mem_cons_self).2.value, Outcome.ok_bind]
          rfl
        rw [e, Outcome.ok_bind]
        dsimp only
        rw [pairRound_eq ps (p :: vis) fun q hq => ⟨(h q (List.mem_cons_of_mem _ hq)).1.add _, (h q (List.mem_cons_of_mem _ hq)).2.add _⟩, Outcome.ok_bind, addNodes_append]
        have hp : pairsOf (l.addNodes C.inBox (commonP C p)).1.nodes p (commonP C p) = (commonP C p).flatMap fun c => [mkPair p.1 c, mkPair p.2 c] := by
          unfold pairsOf
          rw [List.filter_eq_self.2]
          intro x hx
          rw [has_iff]
          obtain ⟨l', added, e1, e2, -, -, -, e6, -⟩ := addNodes_spec (inBox := C.inBox) (commonP C p) l
          rw [e1, e2, List.mem_append]
          by_cases hk : x ∈ keys l.nodes
          · exact .inl hk
          · exact .inr ((e6 x).2 ⟨hx, common_inBox hx, hk⟩)
        rw [hp]

theorem pairRoundP_spec (C : Ctx K) : ∀ (ps vis : List Pair),
    (∀ p, p ∈ (pairRoundP C vis ps).1 ↔ p ∈ vis ∨ p ∈ ps) ∧
    (∀ q ∈ (pairRoundP C vis ps).2.2, ∃ p ∈ ps, p ∉ vis ∧ ∃ c ∈ commonP C p, c ∈ (pairRoundP C vis ps).2.1 ∧ (q = mkPair p.1 c ∨ q = mkPair p.2 c)) ∧
    ∀ x ∈ (pairRoundP C vis ps).2.1, C.inBox x = true
  | [], vis => by simp [pairRoundP]
  | p :: ps, vis => by
      rw [pairRoundP]
      by_cases hv : p ∈ vis
      · rw [if_pos hv]
        obtain ⟨a, b, c⟩ := pairRoundP_spec C ps vis
        refine ⟨?_, ?_, c⟩
        · intro q
          rw [a, List.mem_cons]
          constructor
          · rintro (h | h)
            · exact .inl h
            · exact .inr (.inr h)
          · rintro (h | rfl | h)
            · exact .inl h
            · exact .inl hv
            · exact .inr h
        · intro q hq
          obtain ⟨p', h1, h2⟩ := b q hq
          exact ⟨p', List.mem_cons_of_mem _ h1, h2⟩
      · rw [if_neg hv]
        obtain ⟨a, b, c⟩ := pairRoundP_spec C ps (p :: vis)
        dsimp only
        refine ⟨?_, ?_, ?_⟩
        · intro q
          rw [a, List.mem_cons, List.mem_cons]
          tauto
        · intro q hq
          rcases List.mem_append.1 hq with hq | hq
          · obtain ⟨x, hx, hq⟩ := List.mem_flatMap.1 hq
            refine ⟨p, List.mem_cons_self, hv, x, hx, List.mem_append_left _ hx, ?_⟩
            simpa using hq
          · obtain ⟨p', h1, h2, x, h3, h4, h5⟩ := b q hq
            exact ⟨p', List.mem_cons_of_mem _ h1, fun h => h2 (List.mem_cons_of_mem _ h), x, h3, List.mem_append_right _ h4, h5⟩
        · intro x hx
          rcases List.mem_append.1 hx with hx | hx
          · exact common_inBox hx
          · exact c x hx

theorem pairRoundP_new (C : Ctx K) : ∀ (ps vis : List Pair), ∀ p ∈ ps, p ∉ vis → ∀ c ∈ commonP C p,
    c ∈ (pairRoundP C vis ps).2.1 ∧ ∀ q, q = mkPair p.1 c ∨ q = mkPair p.2 c → q ∈ (pairRoundP C vis ps).2.2
  | [], _, p, hp, _, _, _ => by cases hp
  | p0 :: ps, vis, p, hp, hv, c, hc => by
      rw [pairRoundP]
      by_cases hv0 : p0 ∈ vis
      · rw [if_pos hv0]
        exact pairRoundP_new C ps vis p ((List.mem_cons.1 hp).resolve_left (by rintro rfl; exact hv hv0)) hv c hc
      · rw [if_neg hv0]
        dsimp only
        by_cases he : p = p0
        · subst he
          refine ⟨List.mem_append_left _ hc, fun q hq => List.mem_append_left _ (List.mem_flatMap.2 ⟨c, hc, ?_⟩)⟩
          simpa using hq
        · obtain ⟨h1, h2⟩ := pairRoundP_new C ps (p0 :: vis) p ((List.mem_cons.1 hp).resolve_left he) (by simp [he, hv]) c hc
          exact ⟨List.mem_append_right _ h1, fun q hq => List.mem_append_right _ (h2 q hq)⟩

/-- how many pairs of nodes of the box have not been visited -/
def left (B : List LC) (vis : List Pair) : Nat := ((B.flatMap fun a => B.map fun b => (a, b)).filter fun p => p ∉ vis).length

theorem mem_prod {B : List LC} {p : Pair} : p ∈ (B.flatMap fun a => B.map fun b => (a, b)) ↔ p.1 ∈ B ∧ p.2 ∈ B := by
  obtain ⟨a, b⟩ := p
  simp

theorem left_le (B : List LC) (vis : List Pair) : left B vis ≤ B.length * B.length := by
  unfold left
  refine (List.length_filter_le _ _).trans ?_
  rw [List.length_flatMap]
  simp

theorem left_lt {B : List LC} {vis vis' : List Pair} (hsub : ∀ p ∈ vis, p ∈ vis') {p : Pair} (h1 : p.1 ∈ B) (h2 : p.2 ∈ B) (hv : p ∉ vis) (hv' : p ∈ vis') :
    left B vis' < left B vis := by
  unfold left
  have hs : ((B.flatMap fun a => B.map fun b => (a, b)).filter fun p => p ∉ vis').Sublist ((B.flatMap fun a => B.map fun b => (a, b)).filter fun p => p ∉ vis) := by
    apply List.monotone_filter_right
    intro q hq
    simp only [decide_eq_true_eq] at hq ⊢
    exact fun h => hq (hsub q h)
  refine lt_of_le_of_ne hs.length_le fun he => ?_
  have := hs.eq_of_length he
  have hm : p ∈ (B.flatMap fun a => B.map fun b => (a, b)).filter fun p => p ∉ vis' := by
    rw [this, List.mem_filter]
    exact ⟨mem_prod.2 ⟨h1, h2⟩, by simpa using hv⟩
  rw [List.mem_filter] at hm
  simp only [decide_eq_true_eq] at hm
  exact hm.2 hv'

/-- the batches of the second loop -/
def pairsLoopP (C : Ctx K) : Nat → List Pair → List Pair → List (List LC)
  | _, _, [] => []
  | 0, _, _ :: _ => []
  | fuel + 1, vis, p :: ps =>
      let r := pairRoundP C vis (p :: ps)
      r.2.1 :: pairsLoopP C fuel r.1 r.2.2

theorem pairLoop_spec {C : Ctx K} {B : List LC} (hB : ∀ lc, C.inBox lc = true → lc ∈ B) : ∀ (fuel : Nat) {l : Lat} (vis ps : List Pair), SInv C.inBox C.neg l →
    (∀ p ∈ ps, p.1 ∈ keys l.nodes ∧ p.2 ∈ keys l.nodes) → (left B vis < fuel ∨ ps = []) →
    ∃ l', pairLoop C fuel l vis ps = .ok (some (l', pairsLoopP C fuel vis ps)) ∧ SInv C.inBox C.neg l' ∧
      l.addBatches C.inBox C.neg (pairsLoopP C fuel vis ps) = .ok l'
  | fuel, l, vis, [], h, _, _ => by
      refine ⟨l, ?_, h, ?_⟩
      · cases fuel <;> rfl
      · cases fuel <;> rfl
  | 0, l, vis, p :: ps, _, _, hm => by
      rcases hm with hm | hm
      · exact absurd hm (Nat.not_lt_zero _)
      · cases hm
  | fuel + 1, l, vis, p :: ps, h, hr, hm => by
      have hm : left B vis < fuel + 1 := hm.resolve_right (by simp)
      obtain ⟨q1, q2, q3⟩ := pairRoundP_spec C (p :: ps) vis
      obtain ⟨l1, added, l2, e1, e2, i2, k2, m2⟩ := growS h (pairRoundP C vis (p :: ps)).2.1
      have er := pairRound_eq (C := C) (p :: ps) vis (l := l) fun q hq => ⟨ev_of h (hr q hq).1, ev_of h (hr q hq).2⟩
      rw [e1] at er
      have hk : ∀ x, x ∈ keys l2.nodes ↔ x ∈ keys l.nodes ∨ x ∈ (pairRoundP C vis (p :: ps)).2.1 ∧ C.inBox x = true := by
        intro x
        rw [k2, List.mem_append, m2]
        tauto
      obtain ⟨l', f1, f2, f3⟩ := pairLoop_spec hB fuel (pairRoundP C vis (p :: ps)).1 (pairRoundP C vis (p :: ps)).2.2 i2 (by
        intro q hq
        obtain ⟨p', h1, -, c, hc, hc', hq⟩ := q2 q hq
        have a1 := (hk _).2 (.inl (hr p' h1).1)
        have a2 := (hk _).2 (.inl (hr p' h1).2)
        have a3 := (hk c).2 (.inr ⟨hc', common_inBox hc⟩)
        rcases hq with rfl | rfl
        · unfold mkPair
          split
          · exact ⟨a1, a3⟩
          · exact ⟨a3, a1⟩
        · unfold mkPair
          split
          · exact ⟨a2, a3⟩
          · exact ⟨a3, a2⟩) (by
        cases hn : (pairRoundP C vis (p :: ps)).2.2 with
        | nil => exact .inr rfl
        | cons q qs =>
          obtain ⟨p', h1, h2, -⟩ := q2 q (by rw [hn]; exact List.mem_cons_self)
          have := left_lt (B := B) (vis := vis) (vis' := (pairRoundP C vis (p :: ps)).1) (fun x hx => (q1 x).2 (.inl hx)) (hB _ (h.box _ (hr p' h1).1))
            (hB _ (h.box _ (hr p' h1).2)) h2 ((q1 p').2 (.inr h1))
          exact .inl (by omega))
      refine ⟨l', ?_, f2, ?_⟩
      · rw [pairLoop, er, Outcome.ok_bind]
        dsimp only
        rw [e2, Outcome.ok_bind, f1]
        rfl
      · rw [pairsLoopP]
        rw [addBatches_cons (by rw [e1]) e2]
        exact f3

end Verif.SeedTracking
