import Verif.Lemmas.Double
import Mathlib.Tactic.Linarith

/-!
# C12: the degree invariant of a Model; C13: set_parameters is all-or-nothing and inverts parameters()
-/

namespace Verif.RbfModel

open Verif

/-- A covariance function as the public interface can produce it: two parameters and an anisotropy that passed the
determinant test. -/
def RbfOk (detPos : List Dbl → Bool) (r : Rbf) : Prop := r.params.length = 2 ∧ detPos r.aniso = true

/-- `make_rbf` throws `std::runtime_error` exactly for unknown names, `std::invalid_argument` for a wrong number of
parameters (two; the polyharmonic ones also accept none or one), and otherwise makes a function of that name with
those parameters. -/
theorem C13_make_rbf (detPos : List Dbl → Bool) (identity : List Dbl) (hid : detPos identity = true) (name : String)
    (p : List Dbl) :
    (∃ k, name = k.shortName ∧
      (∃ r, makeRbf identity name p = .ok r ∧ r.kind = k ∧ r.aniso = identity ∧ RbfOk detPos r ∧
        (p.length = 2 → r.params = p) ∧ (p.length = 2 ∨ (k.isCov = false ∧ p.length < 2))) ∨
      (p.length ≠ 2 ∧ (k.isCov = true ∨ 2 < p.length) ∧ makeRbf identity name p = .throws .invalidArgument))
    ∨ ((∀ k : Kind, name ≠ k.shortName) ∧ makeRbf identity name p = .throws .runtimeError) := by
  have hall : ∀ k : Kind, k ∈ kinds := by intro k; cases k <;> decide
  by_cases h : ∃ k : Kind, name = k.shortName
  · left
    obtain ⟨k, hk⟩ := h
    have hfind : kinds.find? (fun k => name == k.shortName) = some k := by
      subst hk; cases k <;> decide
    have hmk : makeRbf identity name p = newRbf identity k p := by simp [makeRbf, hfind]
    refine ⟨k, ?_⟩
    rw [hmk]
    by_cases h2 : p.length = 2
    · left
      refine ⟨hk, ⟨k, p, identity⟩, ?_, rfl, rfl, ⟨h2, hid⟩, fun _ => rfl, Or.inl h2⟩
      match p, h2 with
      | [a, b], _ => cases k <;> rfl
    · by_cases hc : k.isCov = true
      · right
        refine ⟨h2, Or.inl hc, ?_⟩
        simp [newRbf, Rbf.setParameters, hc, Kind.numParameters, h2]
      · have hc' : k.isCov = false := by simpa using hc
        match p, h2 with
        | [], _ =>
          left
          exact ⟨hk, ⟨k, [one, zero], identity⟩, by simp [newRbf, Rbf.setParameters, hc', Kind.numParameters], rfl, rfl,
            ⟨rfl, hid⟩, by simp, Or.inr ⟨hc', by simp⟩⟩
        | [a], _ =>
          left
          exact ⟨hk, ⟨k, [a, zero], identity⟩, by simp [newRbf, Rbf.setParameters, hc', Kind.numParameters], rfl, rfl,
            ⟨rfl, hid⟩, by simp, Or.inr ⟨hc', by simp⟩⟩
        | a :: b :: c :: l, _ =>
          right
          exact ⟨by simp, Or.inr (by simp), by simp [newRbf, Rbf.setParameters, hc', Kind.numParameters]⟩
  · right
    have h' : ∀ k : Kind, name ≠ k.shortName := fun k e => h ⟨k, e⟩
    refine ⟨h', ?_⟩
    have hfind : kinds.find? (fun k => name == k.shortName) = none := by
      rw [List.find?_eq_none]
      intro k _
      simpa using h' k
    simp [makeRbf, hfind]

/-! ## C12 -/

theorem cpd_le (rbfs : List Rbf) (a : Int) (b : Int) :
    rbfs.foldl (fun o r => max o r.kind.cpdOrder) a ≤ b ↔ a ≤ b ∧ ∀ r ∈ rbfs, r.kind.cpdOrder ≤ b := by
  induction rbfs generalizing a with
  | nil => simp
  | cons r rs ih => simp [ih, and_assoc]

/-- `cpd_order()` is the maximum of the orders, and lies in 0 .. 3. -/
theorem C12_cpd_order (rbfs : List Rbf) (hne : rbfs ≠ []) :
    (∀ r ∈ rbfs, r.kind.cpdOrder ≤ cpdOrder rbfs) ∧ (∃ r ∈ rbfs, r.kind.cpdOrder = cpdOrder rbfs) ∧
    0 ≤ cpdOrder rbfs ∧ cpdOrder rbfs ≤ 3 := by
  have h1 : ∀ r : Rbf, 0 ≤ r.kind.cpdOrder ∧ r.kind.cpdOrder ≤ 3 := by
    intro r; cases hk : r.kind <;> simp [Kind.cpdOrder, Kind.k]
  have hle := (cpd_le rbfs 0 (cpdOrder rbfs)).1 (le_refl _)
  refine ⟨hle.2, ?_, hle.1, (cpd_le rbfs 0 3).2 ⟨by omega, fun r _ => (h1 r).2⟩⟩
  by_contra hno
  have hlt : ∀ r ∈ rbfs, r.kind.cpdOrder ≤ cpdOrder rbfs - 1 := by
    intro r hr
    have := hle.2 r hr
    have : r.kind.cpdOrder ≠ cpdOrder rbfs := fun e => hno ⟨r, hr, e⟩
    omega
  obtain ⟨r, hr⟩ := List.exists_mem_of_ne_nil _ hne
  have := (cpd_le rbfs 0 (cpdOrder rbfs - 1)).2 ⟨by have := hlt r hr; have := (h1 r).1; omega, hlt⟩
  unfold cpdOrder at this
  omega

/-- **C12.** The constructor succeeds iff there is a covariance function and the requested degree is automatic (-2) or
in `[cpd_order - 1, 2]`; otherwise it throws `std::invalid_argument`. -/
theorem C12_constructor (rbfs : List Rbf) (d : Int) :
    ((rbfs ≠ [] ∧ (d = -2 ∨ (cpdOrder rbfs - 1 ≤ d ∧ d ≤ 2))) ↔ ∃ m, newModel rbfs d = .ok m) ∧
    ((¬ ∃ m, newModel rbfs d = .ok m) → newModel rbfs d = .throws .invalidArgument) ∧
    (∀ m, newModel rbfs d = .ok m → m.rbfs = rbfs ∧ m.nugget = zero ∧ cpdOrder m.rbfs - 1 ≤ m.polyDegree ∧
      m.polyDegree ≤ 2 ∧ (d = -2 → m.polyDegree = cpdOrder rbfs - 1) ∧ (d ≠ -2 → m.polyDegree = d)) := by
  unfold newModel kMinRequiredPolyDegree
  by_cases he : rbfs = []
  · subst he; simp
  · have he' : rbfs.isEmpty = false := by simpa using he
    have hc := C12_cpd_order rbfs he
    simp only [he', Bool.false_eq_true, if_false, ne_eq, he, not_false_eq_true, true_and]
    by_cases h2 : d = -2
    · simp only [h2, if_true, Outcome.ok.injEq, true_or, exists_eq', not_true_eq_false, false_implies, true_and]
      intro m hm
      subst hm
      refine ⟨rfl, rfl, le_refl _, ?_, ?_⟩ <;> simp <;> omega
    · simp only [h2, if_false, false_or, ge_iff_le]
      by_cases h3 : cpdOrder rbfs - 1 ≤ d ∧ d ≤ 2
      · simp only [h3, and_self, if_true, Outcome.ok.injEq, exists_eq', not_true_eq_false, false_implies, true_and]
        intro m hm
        subst hm
        exact ⟨rfl, rfl, h3.1, h3.2, fun _ => rfl⟩
      · rw [if_neg h3]
        simp only [reduceCtorEq, exists_false, iff_false, h3, not_false_eq_true, true_and, false_implies,
          implies_true, and_self]

theorem setParameters_kind (r : Rbf) (q : List Dbl) : (r.setParameters q).1.kind = r.kind := by
  unfold Rbf.setParameters
  dsimp only
  generalize (if r.kind.isCov = true then q else _) = q'
  split <;> rfl

theorem setRbfs_kinds (p : List Dbl) (i : Nat) (rs : List Rbf) :
    (setRbfs p i rs).1.map Rbf.kind = rs.map Rbf.kind := by
  induction rs generalizing i with
  | nil => rfl
  | cons r rs ih =>
    unfold setRbfs
    have := setParameters_kind r ((p.drop i).take r.kind.numParameters)
    split <;> rename_i h <;> rw [h] at this <;> simp only at this <;> simp [this, ih]

theorem cpdOrder_kinds {a b : List Rbf} (h : a.map Rbf.kind = b.map Rbf.kind) : cpdOrder a = cpdOrder b := by
  have : ∀ l : List Rbf, cpdOrder l = (l.map Rbf.kind).foldl (fun o k => max o k.cpdOrder) 0 := by
    intro l; simp [cpdOrder, List.foldl_map]
  rw [this, this, h]

theorem step_keeps (detPos : List Dbl → Bool) (m : Mdl) (op : Op) :
    (m.step detPos op).rbfs.map Rbf.kind = m.rbfs.map Rbf.kind ∧ (m.step detPos op).polyDegree = m.polyDegree := by
  have hmod : ∀ (f : Rbf → Rbf) (i : Nat) (l : List Rbf), (∀ r, (f r).kind = r.kind) →
      (l.modify i f).map Rbf.kind = l.map Rbf.kind := by
    intro f i l hf
    induction l generalizing i with
    | nil => simp
    | cons r rs ih => cases i <;> simp [hf, ih]
  cases op with
  | setNugget n => simp only [Mdl.step, Mdl.setNugget]; split <;> exact ⟨rfl, rfl⟩
  | setParameters p =>
    simp only [Mdl.step, Mdl.setParameters]
    split
    · exact ⟨rfl, rfl⟩
    · cases p with
      | nil => exact ⟨rfl, rfl⟩
      | cons a l =>
        simp only [Mdl.setNugget]
        by_cases hg : ge0 a = true
        · simp only [hg, if_true]
          exact ⟨setRbfs_kinds _ _ _, trivial⟩
        · simp only [hg, if_false]; exact ⟨rfl, rfl⟩
  | rbfSetParameters i p =>
    refine ⟨hmod _ i _ ?_, rfl⟩
    intro r; exact setParameters_kind r p
  | rbfSetAnisotropy i a =>
    refine ⟨hmod _ i _ ?_, rfl⟩
    intro r; simp only [Rbf.setAnisotropy]; split <;> rfl

/-- **C12, over histories.** After the construction and any sequence of (successful or failing) setter calls, including
those through `rbfs()`, the degree is still admissible for the covariance functions of the model. -/
theorem C12_degree_invariant (detPos : List Dbl → Bool) (rbfs : List Rbf) (d : Int) (m : Mdl)
    (h : newModel rbfs d = .ok m) (ops : List Op) :
    let m' := ops.foldl (fun m op => m.step detPos op) m
    cpdOrder m'.rbfs - 1 ≤ m'.polyDegree ∧ m'.polyDegree ≤ 2 := by
  have hinv : ∀ (ops : List Op) (m0 : Mdl), (cpdOrder m0.rbfs - 1 ≤ m0.polyDegree ∧ m0.polyDegree ≤ 2) →
      let m' := ops.foldl (fun m op => m.step detPos op) m0
      cpdOrder m'.rbfs - 1 ≤ m'.polyDegree ∧ m'.polyDegree ≤ 2 := by
    intro ops
    induction ops with
    | nil => intro m0 h0; exact h0
    | cons op ops ih =>
      intro m0 h0
      apply ih
      obtain ⟨h1, h2⟩ := step_keeps detPos m0 op
      rw [h2, cpdOrder_kinds h1]; exact h0
  obtain ⟨_, _, h1, h2, _⟩ := (C12_constructor rbfs d).2.2 m h
  exact hinv ops m ⟨h1, h2⟩

example : ∃ m, newModel [⟨.th2, [one, zero], []⟩, ⟨.sph, [one, one], []⟩] (-2) = .ok m ∧ m.polyDegree = 2 := ⟨_, rfl, rfl⟩
example : newModel [⟨.th2, [one, zero], []⟩] 1 = .throws .invalidArgument := rfl

/-! ## C13 -/

/-- `parameters()` as a concatenation -/
theorem parameters_eq (m : Mdl) : m.parameters = m.nugget :: (m.rbfs.map Rbf.params).flatten := by
  have : ∀ (l : List Rbf) (a : List Dbl), l.foldl (fun l r => l ++ r.params) a = a ++ (l.map Rbf.params).flatten := by
    intro l
    induction l with
    | nil => simp
    | cons r rs ih => intro a; simp [ih]
  simp [Mdl.parameters, this]

theorem numParameters_eq (m : Mdl) : m.numParameters = 1 + 2 * m.rbfs.length := by
  have : ∀ (l : List Rbf) (a : Nat), l.foldl (fun np r => np + r.kind.numParameters) a = a + 2 * l.length := by
    intro l
    induction l with
    | nil => simp
    | cons r rs ih => intro a; simp [ih, Kind.numParameters]; omega
  simp [Mdl.numParameters, this]

/-- **C13, lengths.** `parameters()`, its bounds and its names have `num_parameters()` entries. -/
theorem C13_lengths (m : Mdl) (h : ∀ r ∈ m.rbfs, r.params.length = 2) :
    m.parameters.length = m.numParameters ∧ m.lowerBounds.length = m.numParameters ∧
    m.upperBounds.length = m.numParameters ∧ m.parameterNames.length = m.numParameters := by
  have hgen : ∀ {α : Type} (f : Rbf → List α) (l : List Rbf) (a : List α), (∀ r ∈ l, (f r).length = 2) →
      (l.foldl (fun l r => l ++ f r) a).length = a.length + 2 * l.length := by
    intro α f l
    induction l with
    | nil => simp
    | cons r rs ih =>
      intro a hf
      rw [List.foldl_cons, ih _ (fun r hr => hf r (by simp [hr])), List.length_append, hf r (by simp), List.length_cons]
      omega
  rw [numParameters_eq]
  refine ⟨?_, ?_, ?_, ?_⟩
  · rw [Mdl.parameters, hgen _ _ _ h]; simp
  · rw [Mdl.lowerBounds, hgen (fun r => r.kind.lowerBounds) _ _ (fun _ _ => rfl)]; simp
  · rw [Mdl.upperBounds, hgen (fun r => r.kind.upperBounds) _ _ (fun _ _ => rfl)]; simp
  · rw [Mdl.parameterNames, hgen (fun r => r.kind.parameterNames) _ _ (fun r _ => by
      simp only [Kind.parameterNames]; split <;> rfl)]; simp

theorem setRbfs_ok (p : List Dbl) (i : Nat) (rs : List Rbf) (h : i + 2 * rs.length ≤ p.length) :
    ∃ rs', setRbfs p i rs = (rs', .ok ()) ∧ (rs'.map Rbf.params).flatten = (p.drop i).take (2 * rs.length) ∧
      rs'.map (fun r => (r.kind, r.aniso)) = rs.map (fun r => (r.kind, r.aniso)) := by
  induction rs generalizing i with
  | nil => exact ⟨[], rfl, by simp, rfl⟩
  | cons r rs ih =>
    simp only [List.length_cons] at h
    obtain ⟨rs', e1, e2, e3⟩ := ih (i + 2) (by omega)
    have hl : ((p.drop i).take 2).length = 2 := by simp; omega
    have hset : r.setParameters ((p.drop i).take 2) = ({ r with params := (p.drop i).take 2 }, .ok ()) := by
      generalize hq : (p.drop i).take 2 = q at hl
      match q, hl with
      | [a, b], _ => simp [Rbf.setParameters, Kind.numParameters]
    refine ⟨{ r with params := (p.drop i).take 2 } :: rs', ?_, ?_, ?_⟩
    · simp only [setRbfs, Kind.numParameters, hset]
      rw [e1]
    · simp only [List.map_cons, List.flatten_cons, e2, List.length_cons]
      rw [show 2 * (rs.length + 1) = 2 + 2 * rs.length by omega, List.take_add, List.drop_drop]
    · simp [e3]

/-- **C13.** `set_parameters(p)` succeeds iff `p` has `num_parameters()` entries and its first entry (the nugget) is
`>= 0` (which NaN is not).  On success `parameters()` is exactly `p` and nothing else changed; on failure the exception
is `std::invalid_argument` and the model is exactly as before. -/
theorem C13_set_parameters (m : Mdl) (p : List Dbl) :
    let (m', o) := m.setParameters p
    (p.length = m.numParameters ∧ (∀ n, p.head? = some n → Dbl.NonNegative n) →
      o = .ok () ∧ m'.parameters = p ∧ m'.polyDegree = m.polyDegree ∧
      m'.rbfs.map (fun r => (r.kind, r.aniso)) = m.rbfs.map (fun r => (r.kind, r.aniso))) ∧
    (¬ (p.length = m.numParameters ∧ (∀ n, p.head? = some n → Dbl.NonNegative n)) →
      o = .throws .invalidArgument ∧ m' = m) := by
  simp only [← Dbl.ge0_iff]
  unfold Mdl.setParameters
  by_cases hl : p.length = m.numParameters
  · rw [if_neg (by simpa using hl)]
    rw [numParameters_eq] at hl
    match p, hl with
    | [], hl => simp at hl; omega
    | p0 :: ps, hl =>
      simp only [Mdl.setNugget]
      by_cases hg : ge0 p0 = true
      · simp only [hg, if_true]
        obtain ⟨rs', e1, e2, e3⟩ := setRbfs_ok (p0 :: ps) 1 m.rbfs (by omega)
        rw [e1]
        constructor
        · intro _
          refine ⟨rfl, ?_, trivial, e3⟩
          rw [parameters_eq]
          simp only [e2, List.drop_succ_cons, List.drop_zero]
          rw [List.take_of_length_le (by simp at hl; omega)]
        · intro hn; exfalso; apply hn
          refine ⟨by rw [numParameters_eq]; exact hl, ?_⟩
          intro n h0; simp at h0; subst h0; exact hg
      · simp only [hg]
        constructor
        · rintro ⟨_, h⟩; exact absurd (h p0 rfl) hg
        · intro _; exact ⟨rfl, rfl⟩
  · rw [if_pos hl]
    constructor
    · rintro ⟨h, _⟩; exact absurd h hl
    · intro _; exact ⟨rfl, rfl⟩

/-- **C13, round trip.** Setting the current parameters succeeds and changes nothing (for a model whose nugget is
admissible, as every model obtained through the interface has). -/
theorem C13_set_own_parameters (m : Mdl) (h : ∀ r ∈ m.rbfs, r.params.length = 2) (hn : Dbl.NonNegative m.nugget) :
    (m.setParameters m.parameters).2 = .ok () ∧ (m.setParameters m.parameters).1.parameters = m.parameters := by
  have := C13_set_parameters m m.parameters
  simp only at this
  have h2 := this.1 ⟨(C13_lengths m h).1, by
    intro n h0
    rw [parameters_eq] at h0
    simp at h0; subst h0; exact hn⟩
  exact ⟨h2.1, h2.2.1⟩

/-- every covariance function of a reachable model has two parameters -/
theorem C13_reachable_ok (detPos : List Dbl → Bool) (m : Mdl) (op : Op) (h : ∀ r ∈ m.rbfs, RbfOk detPos r)
    (hn : Dbl.NonNegative m.nugget) :
    (∀ r ∈ (m.step detPos op).rbfs, RbfOk detPos r) ∧ Dbl.NonNegative (m.step detPos op).nugget := by
  rw [← Dbl.ge0_iff] at hn ⊢
  have hset : ∀ (r : Rbf) (q : List Dbl), RbfOk detPos r → RbfOk detPos (r.setParameters q).1 := by
    intro r q hr
    unfold Rbf.setParameters
    dsimp only
    generalize (if r.kind.isCov = true then q else _) = q'
    split
    · rename_i h; exact ⟨h, hr.2⟩
    · exact hr
  have hmod : ∀ (f : Rbf → Rbf) (i : Nat) (l : List Rbf), (∀ r, RbfOk detPos r → RbfOk detPos (f r)) →
      (∀ r ∈ l, RbfOk detPos r) → ∀ r ∈ l.modify i f, RbfOk detPos r := by
    intro f i l hf
    induction l generalizing i with
    | nil => simp
    | cons r rs ih =>
      intro hl
      cases i with
      | zero =>
        simp only [List.modify_zero_cons, List.mem_cons, forall_eq_or_imp]
        exact ⟨hf r (hl r (by simp)), fun x hx => hl x (by simp [hx])⟩
      | succ i =>
        simp only [List.modify_succ_cons, List.mem_cons, forall_eq_or_imp]
        exact ⟨hl r (by simp), ih i (fun x hx => hl x (by simp [hx]))⟩
  have hloop : ∀ (p : List Dbl) (i : Nat) (l : List Rbf), (∀ r ∈ l, RbfOk detPos r) →
      ∀ r ∈ (setRbfs p i l).1, RbfOk detPos r := by
    intro p i l
    induction l generalizing i with
    | nil => simp [setRbfs]
    | cons r rs ih =>
      intro hl
      have h1 := hset r ((p.drop i).take r.kind.numParameters) (hl r (by simp))
      have h2 := ih (i + r.kind.numParameters) (fun x hx => hl x (by simp [hx]))
      unfold setRbfs
      split <;> rename_i he <;> rw [he] at h1 <;> simp only [List.mem_cons, forall_eq_or_imp]
      · exact ⟨h1, h2⟩
      · exact ⟨h1, fun x hx => hl x (by simp [hx])⟩
      · exact ⟨h1, fun x hx => hl x (by simp [hx])⟩
  cases op with
  | setNugget n =>
    simp only [Mdl.step, Mdl.setNugget]
    split
    · rename_i hg; exact ⟨h, hg⟩
    · exact ⟨h, hn⟩
  | setParameters p =>
    simp only [Mdl.step, Mdl.setParameters]
    split
    · exact ⟨h, hn⟩
    · cases p with
      | nil => exact ⟨h, hn⟩
      | cons a l =>
        simp only [Mdl.setNugget]
        by_cases hg : ge0 a = true
        · simp only [hg, if_true]
          exact ⟨hloop _ _ _ h, trivial⟩
        · simp only [hg]; exact ⟨h, hn⟩
  | rbfSetParameters i p => exact ⟨hmod _ i _ (fun r hr => hset r p hr) h, hn⟩
  | rbfSetAnisotropy i a =>
    refine ⟨hmod _ i _ (fun r hr => ?_) h, hn⟩
    simp only [Rbf.setAnisotropy]
    split
    · rename_i hd; exact ⟨hr.1, hd⟩
    · exact hr

/-- Non-vacuity: a two-function model; a rejected (negative nugget) and an accepted call. -/
example :
    let m : Mdl := ⟨[⟨.th2, [one, zero], []⟩, ⟨.sph, [one, one], []⟩], 2, zero⟩
    (m.setParameters [0xBFF0000000000000#64, one, one, inf, inf]) = (m, .throws .invalidArgument) ∧
    (m.setParameters [one, one, one, inf, inf]).1.parameters = [one, one, one, inf, inf] := by
  refine ⟨by decide, by decide⟩

/-- NaN is not an admissible nugget. -/
example : ge0 0x7FF8000000000000#64 = false := by decide

end Verif.RbfModel
