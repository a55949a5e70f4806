import Verif.Model.Isosurface
import Verif.Lemmas.LatticeRuns

/-!
# Isosurface: the calls as runs of the lattice, and the interpolated value
-/

namespace Verif.Iso

set_option linter.unusedSectionVars false
set_option linter.unusedSimpArgs false

open Verif Verif.Lattice Verif.PrimLattice.Prim

variable {K : Type} [Field K] [LinearOrder K]

theorem bind_done {x : Run S α} {f : α → S → Run S β} {b : β} {s : S} (h : x.bind f = .done b s) : ∃ a s', x = .done a s' ∧ f a s' = .done b s := by
  cases x with
  | done a s' => exact ⟨a, s', rfl, h⟩
  | threw s' => cases h
  | undef => cases h

theorem onLattice_done {g g' : Gen K Sn} {r : Run (LatS K) α} {a : α} (h : onLattice g r = .done a g') : ∃ s, r = .done a s ∧ g' = ⟨s, g.snap⟩ := by
  cases r with
  | done b s =>
    simp only [onLattice, Run.done.injEq] at h
    obtain ⟨rfl, rfl⟩ := h
    exact ⟨s, rfl, rfl⟩
  | threw s => cases h
  | undef => cases h

theorem onLattice_threw {g g' : Gen K Sn} {r : Run (LatS K) α} (h : onLattice g r = .threw g') : g'.snap = g.snap := by
  cases r with
  | done b s => cases h
  | threw s =>
    simp only [onLattice, Run.threw.injEq] at h
    rw [← h]
  | undef => cases h

theorem generateCommon_done {T : Steps K M Sn} {ordN : NodeList → NodeList} {F : Fld K} {refine : Bool} {sn : Option Sn} {s s' : LatS K} {r : Res M}
    (h : generateCommon T ordN F refine sn s = .done r s') : s' = LatS.fresh := by
  unfold generateCommon at h
  split at h
  · split at h
    · cases h
    · split at h
      · split at h
        · cases h
        · split at h
          · simp only [Run.done.injEq] at h; exact h.2.symm
          · cases h
          · cases h
      · simp only [Run.done.injEq] at h; exact h.2.symm
  · cases h

theorem onLattice_ne {g : Gen K Sn} {r : Run (LatS K) α} (h : onLattice g r = .undef) : r = .undef := by
  cases r with
  | done b s => cases h
  | threw s => cases h
  | undef => rfl

/-! ## The lattice part of a run is the run of `Model/LatticeRuns.lean`, and every evaluated value is told -/

/-- telling the values of the nodes in order -/
def tellAll (F : Fld K) (a : Arb K) (es : List LC) : Arb K := es.foldl (fun a lc => a.tell lc (F.val lc)) a

theorem tellAll_append (F : Fld K) (a : Arb K) (es es' : List LC) : tellAll F a (es ++ es') = tellAll F (tellAll F a es) es' := List.foldl_append

/-- a run of the lattice ends in `l`, and the nodes `es` were told on the way -/
def Told (F : Fld K) (a : Arb K) (r : Run (LatS K) Unit) (l : Lat) (es : List LC) : Prop := r = .done () ⟨l, some (tellAll F a es)⟩

theorem evaluateField_told {F : Fld K} (hF : ∀ b, F.fails b = false) {l l' : Lat} {a : Arb K} (h : l.evaluateField F.neg = .ok l') :
    Told F a (evaluateField F ⟨l, some a⟩) l' l.toEval ∧ l'.toEval = [] := by
  unfold Told evaluateField
  have h0 := h
  unfold Lat.evaluateField at h0
  split at h0
  · obtain rfl := Outcome.ok.inj h0
    refine ⟨?_, rfl⟩
    dsimp only
    split
    · rename_i he
      have he' : l.toEval = [] := by simpa using he
      obtain ⟨n, t, v⟩ := l
      simp only at he'
      subst he'
      rfl
    · rw [hF]
      simp only [h]
      rfl
  · cases h0

theorem foldO_toEval {f : Lat → α → Outcome Lat} (hf : ∀ l a l', f l a = .ok l' → l'.toEval = l.toEval) : ∀ (xs : List α) {l l' : Lat},
    foldO f l xs = .ok l' → l'.toEval = l.toEval
  | [], l, l', h => by obtain rfl := Outcome.ok.inj h; rfl
  | x :: xs, l, l', h => by
    unfold foldO at h
    obtain ⟨m, hm, h⟩ := Outcome.bind_eq_ok.1 h
    rw [foldO_toEval hf xs h, hf _ _ _ hm]

theorem addCrossing_toEval {near : LC → LC → Bool} {l l' : Lat} {c : Crossing} (h : l.addCrossing near c = .ok l') : l'.toEval = l.toEval := by
  unfold Lat.addCrossing at h
  obtain ⟨_, _, h⟩ := Outcome.bind_eq_ok.1 h
  obtain ⟨_, _, h⟩ := Outcome.bind_eq_ok.1 h
  obtain rfl := Outcome.ok.inj h
  split <;> rfl

theorem generateVertices_toEval {near : LC → LC → Bool} {l l' : Lat} {lcs : List LC} (h : l.generateVertices near lcs = .ok l') : l'.toEval = l.toEval := by
  unfold Lat.generateVertices at h
  obtain ⟨all, -, h⟩ := Outcome.bind_eq_ok.1 h
  exact foldO_toEval (fun _ _ _ h => foldO_toEval (fun _ _ _ h => addCrossing_toEval h) _ h) _ h

theorem removeFreeNodes_toEval {l l' : Lat} {lcs : List LC} (h : l.removeFreeNodes lcs = .ok l') : l'.toEval = l.toEval := by
  unfold Lat.removeFreeNodes at h
  refine foldO_toEval ?_ _ h
  intro l lc l' h
  split at h
  · cases h
  · obtain rfl := Outcome.ok.inj h
    split <;> rfl

theorem addLayer_toEval {inBox : LC → Bool} : ∀ (layer : List LC) (l : Lat) (acc : List LC),
    (layer.foldl (fun (l, new) lc => let (l', added) := Lat.addNodeUnchecked inBox l lc; (l', if added then new ++ [lc] else new)) (l, acc)).1.toEval =
      l.toEval ++ layer.filter inBox
  | [], l, acc => by simp
  | lc :: layer, l, acc => by
    rw [List.foldl_cons, addLayer_toEval layer, List.filter_cons]
    unfold Lat.addNodeUnchecked
    cases inBox lc <;> simp

theorem layers_told {inBox : LC → Bool} {F : Fld K} (hF : ∀ b, F.fails b = false) : ∀ (ls : List (List LC)) {l l' : Lat} {prev : List LC} (a : Arb K),
    l.toEval = [] → l.layers inBox F.neg F.near prev ls = .ok l' → Told F a (layers inBox F ⟨l, some a⟩ prev ls) l' (ls.flatten.filter inBox)
  | [], l, l', prev, a, _, h => by obtain rfl := Outcome.ok.inj h; rfl
  | layer :: rest, l, l', prev, a, ht, h => by
    unfold Lat.layers at h
    unfold layers
    obtain ⟨l1, new, hl1⟩ : ∃ l1 new, l.addLayer inBox layer = (l1, new) := ⟨_, _, rfl⟩
    have ht1 : l1.toEval = layer.filter inBox := by
      have := addLayer_toEval (inBox := inBox) layer l []
      rw [ht, List.nil_append] at this
      rw [← this]
      exact congrArg (fun x => x.1.toEval) hl1.symm
    dsimp only at h ⊢
    rw [hl1] at h ⊢
    dsimp only at h ⊢
    obtain ⟨l2, h2, h⟩ := Outcome.bind_eq_ok.1 h
    obtain ⟨l3, h3, h⟩ := Outcome.bind_eq_ok.1 h
    obtain ⟨l4, h4, h⟩ := Outcome.bind_eq_ok.1 h
    obtain ⟨l5, h5, h⟩ : ∃ l5, (if rest.isEmpty = true then l4.removeFreeNodes new else .ok l4) = .ok l5 ∧ Lat.layers inBox F.neg F.near l5 new rest = .ok l' := by
      split at h
      · rename_i hr; rw [if_pos hr]; exact Outcome.bind_eq_ok.1 h
      · rename_i hr; rw [if_neg hr]; exact Outcome.bind_eq_ok.1 h
    obtain ⟨e2, t2⟩ := evaluateField_told hF (a := a) h2
    have t3 := generateVertices_toEval h3
    have t4 := removeFreeNodes_toEval h4
    have t5 : l5.toEval = l4.toEval := by
      split at h5
      · exact removeFreeNodes_toEval h5
      · obtain rfl := Outcome.ok.inj h5; rfl
    rw [e2, ht1]
    simp only [Run.bind, lift, h3, h4]
    have e5 : ∀ f : Unit → LatS K → Run (LatS K) Unit, (if rest.isEmpty = true then lift ⟨l4, some (tellAll F a (layer.filter inBox))⟩ (l4.removeFreeNodes new)
        else .done () ⟨l4, some (tellAll F a (layer.filter inBox))⟩).bind f = f () ⟨l5, some (tellAll F a (layer.filter inBox))⟩ := by
      intro f
      split at h5
      · rename_i hr; rw [if_pos hr, h5]; rfl
      · rename_i hr; rw [if_neg hr]; obtain rfl := Outcome.ok.inj h5; rfl
    refine Eq.trans (e5 fun _ s => layers inBox F s new rest) ?_
    have := layers_told hF rest (tellAll F a (layer.filter inBox)) (by rw [t5, t4, t3, t2]) h
    unfold Told at this
    rw [this, ← tellAll_append, List.flatten_cons, List.filter_append]

/-! ## What is known after the values are told -/

/-- the four rows are different -/
def RowsNe (t : Rows LC) : Prop := t.r0 ≠ t.r1 ∧ t.r0 ≠ t.r2 ∧ t.r0 ≠ t.r3 ∧ t.r1 ≠ t.r2 ∧ t.r1 ≠ t.r3 ∧ t.r2 ≠ t.r3

theorem tellAll_spec (F : Fld K) : ∀ (es : List LC) (a : Arb K), RowsNe a.tet → (tellAll F a es).tet = a.tet ∧ (tellAll F a es).w = a.w ∧
    (tellAll F a es).vals = ⟨if a.tet.r0 ∈ es then some (F.val a.tet.r0) else a.vals.r0, if a.tet.r1 ∈ es then some (F.val a.tet.r1) else a.vals.r1,
      if a.tet.r2 ∈ es then some (F.val a.tet.r2) else a.vals.r2, if a.tet.r3 ∈ es then some (F.val a.tet.r3) else a.vals.r3⟩
  | [], a, _ => by simp [tellAll]
  | lc :: es, a, h => by
    have ht : (a.tell lc (F.val lc)).tet = a.tet := by unfold Arb.tell; split <;> [rfl; skip]; split <;> [rfl; skip]; split <;> [rfl; skip]; split <;> rfl
    have hw : (a.tell lc (F.val lc)).w = a.w := by unfold Arb.tell; split <;> [rfl; skip]; split <;> [rfl; skip]; split <;> [rfl; skip]; split <;> rfl
    obtain ⟨i1, i2, i3⟩ := tellAll_spec F es (a.tell lc (F.val lc)) (by rw [ht]; exact h)
    have e : tellAll F a (lc :: es) = tellAll F (a.tell lc (F.val lc)) es := rfl
    rw [e]
    refine ⟨i1.trans ht, i2.trans hw, ?_⟩
    rw [i3, ht]
    obtain ⟨n01, n02, n03, n12, n13, n23⟩ := h
    have hv : (a.tell lc (F.val lc)).vals = ⟨if a.tet.r0 = lc then some (F.val lc) else a.vals.r0, if a.tet.r1 = lc then some (F.val lc) else a.vals.r1,
        if a.tet.r2 = lc then some (F.val lc) else a.vals.r2, if a.tet.r3 = lc then some (F.val lc) else a.vals.r3⟩ := by
      unfold Arb.tell
      split
      · rename_i h0
        rw [← h0]; simp only [if_neg n01.symm, if_neg n02.symm, if_neg n03.symm, if_true]
      · rename_i h0
        split
        · rename_i h1
          rw [← h1]; simp only [if_neg n01, if_neg n12.symm, if_neg n13.symm, if_true]
        · rename_i h1
          split
          · rename_i h2
            rw [← h2]; simp only [if_neg n02, if_neg n12, if_neg n23.symm, if_true]
          · rename_i h2
            split
            · rename_i h3
              simp only [if_neg h0, if_neg h1, if_neg h2, if_pos h3]
            · rename_i h3
              simp only [if_neg h0, if_neg h1, if_neg h2, if_neg h3]
    rw [hv]
    have key : ∀ (r : LC) (x : Option K), (if r ∈ es then some (F.val r) else if r = lc then some (F.val lc) else x) = if r ∈ lc :: es then some (F.val r) else x := by
      intro r x
      by_cases h1 : r ∈ es
      · rw [if_pos h1, if_pos (List.mem_cons_of_mem _ h1)]
      · by_cases h2 : r = lc
        · subst h2; rw [if_neg h1, if_pos rfl, if_pos List.mem_cons_self]
        · rw [if_neg h1, if_neg h2, if_neg (by rw [List.mem_cons]; rintro (h | h) <;> contradiction)]
    simp only [key]

/-- the value interpolated from the corners -/
def interp (F : Fld K) (t : Rows LC) (w : Rows K) : K := w.r0 * F.val t.r0 + w.r1 * F.val t.r1 + w.r2 * F.val t.r2 + w.r3 * F.val t.r3

theorem value_told {F : Fld K} {t : Rows LC} {w : Rows K} (h : RowsNe t) {es : List LC} (he : ∀ n ∈ t.toList, n ∈ es) :
    (tellAll F (Arb.new t w) es).value = .ok (interp F t w) := by
  obtain ⟨-, e2, e3⟩ := tellAll_spec F es (Arb.new t w) h
  unfold Arb.value
  rw [e2, e3]
  have h0 : t.r0 ∈ es := he _ (by simp [Rows.toList])
  have h1 : t.r1 ∈ es := he _ (by simp [Rows.toList])
  have h2 : t.r2 ∈ es := he _ (by simp [Rows.toList])
  have h3 : t.r3 ∈ es := he _ (by simp [Rows.toList])
  unfold Arb.new
  dsimp only
  rw [if_pos h0, if_pos h1, if_pos h2, if_pos h3]
  rfl

theorem value_none {a : Arb K} (h : a.vals.r0 = none ∨ a.vals.r1 = none ∨ a.vals.r2 = none ∨ a.vals.r3 = none) : a.value = .throws .runtimeError := by
  obtain ⟨t, w, ⟨v0, v1, v2, v3⟩⟩ := a
  unfold Arb.value
  dsimp only at h ⊢
  rcases h with rfl | rfl | rfl | rfl
  · rfl
  · cases v0 <;> rfl
  · cases v0 <;> cases v1 <;> rfl
  · cases v0 <;> cases v1 <;> cases v2 <;> rfl

theorem value_untold {F : Fld K} {t : Rows LC} {w : Rows K} (h : RowsNe t) {es : List LC} (he : ∃ n ∈ t.toList, n ∉ es) :
    (tellAll F (Arb.new t w) es).value = .throws .runtimeError := by
  obtain ⟨-, -, e3⟩ := tellAll_spec F es (Arb.new t w) h
  apply value_none
  rw [e3]
  obtain ⟨n, hn, hne⟩ := he
  simp only [Rows.toList, List.mem_cons, List.not_mem_nil, or_false] at hn
  rcases hn with rfl | rfl | rfl | rfl
  · exact Or.inl (if_neg hne)
  · exact Or.inr (Or.inl (if_neg hne))
  · exact Or.inr (Or.inr (Or.inl (if_neg hne)))
  · exact Or.inr (Or.inr (Or.inr (if_neg hne)))

/-! ## The seeded run -/

theorem evaluate_added {inBox : LC → Bool} {F : Fld K} (hF : ∀ b, F.fails b = false) {l l1 l2 : Lat} {added lcs : List LC} (a : Arb K) (h : SInv inBox F.neg l)
    (e1 : l.addNodes inBox lcs = (l1, added)) (e2 : l1.evaluateField F.neg = .ok l2) :
    evaluateField F ⟨l1, some a⟩ = .done () ⟨l2, some (tellAll F a added)⟩ := by
  obtain ⟨l1', added', f1, -, f3, -⟩ := addNodes_spec (inBox := inBox) lcs l
  rw [e1] at f1
  obtain ⟨rfl, rfl⟩ := Prod.ext_iff.1 f1
  dsimp only at f3
  rw [h.ev, List.nil_append] at f3
  have := (evaluateField_told hF (a := a) e2).1
  unfold Told at this
  rw [this, f3]

theorem addBatches_told {inBox : LC → Bool} {F : Fld K} (hF : ∀ b, F.fails b = false) : ∀ (bs : List (List LC)) {l l' : Lat} (a : Arb K), SInv inBox F.neg l →
    l.addBatches inBox F.neg bs = .ok l' → ∃ es, Told F a (addBatches inBox F ⟨l, some a⟩ bs) l' es ∧ keys l'.nodes = keys l.nodes ++ es
  | [], l, l', a, h, e => by obtain rfl := Outcome.ok.inj e; exact ⟨[], rfl, by simp⟩
  | b :: bs, l, l', a, h, e => by
    obtain ⟨l1, added, l2, e1, e2, h2, k2, m2⟩ := growS h b
    unfold Lat.addBatches at e
    simp only [e1, e2, Outcome.ok_bind] at e
    obtain ⟨es, t, k⟩ := addBatches_told hF bs (tellAll F a added) h2 e
    refine ⟨added ++ es, ?_, by rw [k, k2, List.append_assoc]⟩
    unfold addBatches Told
    simp only [e1]
    rw [evaluate_added hF a h e1 e2]
    unfold Told at t
    rw [tellAll_append]
    exact t

theorem completeLoop_told {inBox : LC → Bool} {F : Fld K} (hF : ∀ b, F.fails b = false) : ∀ (fuel : Nat) {l l' : Lat} (frontier : List LC) (a : Arb K), SInv inBox F.neg l →
    l.completeLoop inBox F.neg fuel frontier = .ok (some l') → ∃ es, Told F a (completeLoop inBox F fuel ⟨l, some a⟩ frontier) l' es ∧ keys l'.nodes = keys l.nodes ++ es := by
  intro fuel
  induction fuel with
  | zero =>
    intro l l' frontier a h e
    cases frontier with
    | nil =>
      simp only [Lat.completeLoop, Outcome.ok.injEq, Option.some.injEq] at e
      subst e
      exact ⟨[], rfl, by simp⟩
    | cons x xs => simp [Lat.completeLoop] at e
  | succ fuel ih =>
    intro l l' frontier a h e
    cases frontier with
    | nil =>
      simp only [Lat.completeLoop, Outcome.ok.injEq, Option.some.injEq] at e
      subst e
      exact ⟨[], rfl, by simp⟩
    | cons x xs =>
      obtain ⟨l1, added, l2, e1, e2, h2, k2, m2⟩ := growS h (allNeighbors (x :: xs))
      unfold Lat.completeLoop at e
      simp only [e1, e2, Outcome.ok_bind] at e
      obtain ⟨fr, e3, e⟩ := Outcome.bind_eq_ok.1 e
      obtain ⟨es, t, k⟩ := ih fr (tellAll F a added) h2 e
      refine ⟨added ++ es, ?_, by rw [k, k2, List.append_assoc]⟩
      unfold completeLoop Told
      simp only [e1]
      rw [evaluate_added hF a h e1 e2]
      simp only [Run.bind, e3]
      unfold Told at t
      rw [tellAll_append]
      exact t

end Verif.Iso
