import Verif.Spec.Lattice
import Mathlib.Data.List.Nodup
import Mathlib.Tactic.Linarith

/-! Finite tables and translation invariance for the marching tetrahedra. -/

namespace Verif.Lattice

theorem add_def (a b : LC) : a + b = ⟨a.x + b.x, a.y + b.y, a.z + b.z⟩ := rfl
theorem sub_def (a b : LC) : a - b = ⟨a.x - b.x, a.y - b.y, a.z - b.z⟩ := rfl

theorem LC.ext' {a b : LC} (h1 : a.x = b.x) (h2 : a.y = b.y) (h3 : a.z = b.z) : a = b := by
  cases a; cases b; simp_all

@[simp] theorem zero_add' (a : LC) : (⟨0, 0, 0⟩ : LC) + a = a := by simp [add_def]
@[simp] theorem add_zero' (a : LC) : a + (⟨0, 0, 0⟩ : LC) = a := by simp [add_def]

theorem add_assoc' (a b c : LC) : a + b + c = a + (b + c) := by
  simp [add_def, Int.add_assoc]

theorem add_right_cancel' {a b c : LC} (h : c + a = c + b) : a = b := by
  simp only [add_def, LC.mk.injEq] at h
  exact LC.ext' (by omega) (by omega) (by omega)

theorem less_add (l a b : LC) : (l + a).less (l + b) = a.less b := by
  simp only [LC.less, add_def]
  congr 1
  · apply decide_eq_decide.mpr; omega
  · congr 1
    · apply decide_eq_decide.mpr; omega
    · congr 1
      · apply decide_eq_decide.mpr; omega
      · congr 1
        · apply decide_eq_decide.mpr; omega
        · apply decide_eq_decide.mpr; omega

theorem mkEdge_add (l a b : LC) : mkEdge (l + a) (l + b) = (l + (mkEdge a b).1, l + (mkEdge a b).2) := by
  unfold mkEdge
  rw [less_add]
  split <;> rfl

/-- the `s`-th edge of tetrahedron `k` of the cell at the origin -/
def edge0 (k s : Nat) : UEdge := mkEdge (corner k (slotEnds s).1) (corner k (slotEnds s).2)

theorem tetEdge_eq (lc : LC) (k s : Nat) : tetEdge lc k s = (lc + (edge0 k s).1, lc + (edge0 k s).2) := by
  simp only [tetEdge, tetNode, mkEdge_add, edge0]

/-- the translation taking one edge to another, if there is one -/
def shiftOf (E E' : UEdge) : Option LC := if E.1 - E'.1 = E.2 - E'.2 then some (E.1 - E'.1) else none

theorem shiftOf_of_eq {l l' : LC} {E E' : UEdge} (h : (l + E.1, l + E.2) = (l' + E'.1, l' + E'.2)) :
    shiftOf E E' = some (l' - l) := by
  simp only [Prod.mk.injEq, add_def, LC.mk.injEq] at h
  obtain ⟨⟨h1, h2, h3⟩, h4, h5, h6⟩ := h
  have e1 : E.1 - E'.1 = l' - l := by
    simp only [sub_def, LC.mk.injEq]; omega
  have e2 : E.2 - E'.2 = l' - l := by
    simp only [sub_def, LC.mk.injEq]; omega
  simp [shiftOf, e1, e2]

theorem eq_of_shiftOf {l d : LC} {E E' : UEdge} (h : shiftOf E E' = some d) :
    (l + E.1, l + E.2) = (l + d + E'.1, l + d + E'.2) := by
  unfold shiftOf at h
  split at h
  · rename_i hh
    simp only [Option.some.injEq] at h
    rw [h] at hh
    simp only [sub_def] at h hh
    simp only [Prod.mk.injEq, add_def, LC.mk.injEq]
    have h1 := congrArg LC.x h; have h2 := congrArg LC.y h; have h3 := congrArg LC.z h
    have g1 := congrArg LC.x hh; have g2 := congrArg LC.y hh; have g3 := congrArg LC.z hh
    simp only at h1 h2 h3 g1 g2 g3
    omega
  · cases h

/-- the sign class of a tetrahedron -/
abbrev Cls := Bool × Bool × Bool × Bool

def allCls : List Cls :=
  [false, true].flatMap fun a => [false, true].flatMap fun b => [false, true].flatMap fun c =>
    [false, true].map fun d => (a, b, c, d)

theorem mem_allCls (c : Cls) : c ∈ allCls := by
  obtain ⟨a, b, c, d⟩ := c
  cases a <;> cases b <;> cases c <;> cases d <;> decide

def Cls.get (c : Cls) : Nat → Bool
  | 0 => c.1
  | 1 => c.2.1
  | 2 => c.2.2.1
  | _ => c.2.2.2

def cls (σ : LC → Bool) (lc : LC) (k : Nat) : Cls :=
  (σ (tetNode lc k 0), σ (tetNode lc k 1), σ (tetNode lc k 2), σ (tetNode lc k 3))

theorem cls_get (σ : LC → Bool) (lc : LC) (k i : Nat) (hi : i < 4) : (cls σ lc k).get i = σ (tetNode lc k i) := by
  match i, hi with
  | 0, _ => rfl
  | 1, _ => rfl
  | 2, _ => rfl
  | 3, _ => rfl

/-- faces of a class, as triples of edge numbers -/
def slots (c : Cls) : List (Nat × Nat × Nat) := faceTable c.1 c.2.1 c.2.2.1 c.2.2.2

/-- directed mesh edges of a class, as pairs of edge numbers -/
def dirSlots (c : Cls) : List (Nat × Nat) := (slots c).flatMap dirEdges

theorem dirSlots_nodup (c : Cls) : (dirSlots c).Nodup := by
  have : ∀ c ∈ allCls, (dirSlots c).Nodup := by decide
  exact this c (mem_allCls c)

theorem dirSlots_lt (c : Cls) (p : Nat × Nat) (h : p ∈ dirSlots c) : p.1 < 6 ∧ p.2 < 6 ∧ p.1 ≠ p.2 := by
  have : ∀ c ∈ allCls, ∀ p ∈ dirSlots c, p.1 < 6 ∧ p.2 < 6 ∧ p.1 ≠ p.2 := by decide
  exact this c (mem_allCls c) p h

theorem edge0_inj (k s s' : Nat) (hk : k < 6) (hs : s < 6) (hs' : s' < 6) (h : edge0 k s = edge0 k s') : s = s' := by
  have : ∀ k < 6, ∀ s < 6, ∀ s' < 6, edge0 k s = edge0 k s' → s = s' := by decide
  exact this k hk s hs s' hs' h

/-- signs of tetrahedron `k` at the origin and `k'` at `d` agree on shared corners -/
def compat (k k' : Nat) (d : LC) (c c' : Cls) : Bool :=
  (List.range 4).all fun i => (List.range 4).all fun j =>
    !(corner k i == d + corner k' j) || c.get i == c'.get j

theorem compat_cls (σ : LC → Bool) (lc d : LC) (k k' : Nat) :
    compat k k' d (cls σ lc k) (cls σ (lc + d) k') = true := by
  simp only [compat, List.all_eq_true, List.mem_range, Bool.or_eq_true, Bool.not_eq_true', beq_eq_false_iff_ne,
    beq_iff_eq]
  intro i hi j hj
  by_cases h : corner k i = d + corner k' j
  · right
    rw [cls_get σ _ _ _ hi, cls_get σ _ _ _ hj]
    simp only [tetNode, h, add_assoc']
  · left; exact h

/-- no two different tetrahedra give the same directed mesh edge -/
def chkUnique : Bool :=
  (List.range 6).all fun k => (List.range 6).all fun k' =>
  (List.range 6).all fun s => (List.range 6).all fun s' =>
    match shiftOf (edge0 k s) (edge0 k' s') with
    | none => true
    | some d =>
      (k == k' && d == ⟨0, 0, 0⟩) ||
      (List.range 6).all fun t => (List.range 6).all fun t' =>
        s == t || !(shiftOf (edge0 k t) (edge0 k' t') == some d) ||
          allCls.all fun c => !((dirSlots c).contains (s, t)) ||
            allCls.all fun c' => !(compat k k' d c c') || !((dirSlots c').contains (s', t'))

set_option maxRecDepth 100000 in
theorem chkUnique_true : chkUnique = true := by decide +kernel

/-- every directed mesh edge is met by its reverse, in the same tetrahedron or in one other -/
def chkClosed : Bool :=
  (List.range 6).all fun k => allCls.all fun c => (dirSlots c).all fun p =>
    (dirSlots c).contains (p.2, p.1) ||
    ((List.range 6).any fun k' => (List.range 6).any fun s' => (List.range 6).any fun t' =>
      match shiftOf (edge0 k p.1) (edge0 k' s') with
      | none => false
      | some d => shiftOf (edge0 k p.2) (edge0 k' t') == some d &&
          allCls.all fun c' => !(compat k k' d c c') || (dirSlots c').contains (t', s'))

set_option maxRecDepth 100000 in
theorem chkClosed_true : chkClosed = true := by decide +kernel

end Verif.Lattice
