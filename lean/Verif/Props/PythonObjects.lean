import Verif.Spec.PythonObjects

/-! # C93: objects of the Python binding -/

namespace Verif.PythonObjects

open Verif

variable {P D W V : Type}

/-- Names refer to objects in memory, so do attribute objects, to interpolants; numbers are handed out in order. -/
structure Inv (s : State P W) : Prop where
  names : ∀ x i, s.names x = some i → s.heap i ≠ none
  views : ∀ j i o, s.heap j = some o → o.parent = some i → ∃ it, s.heap i = some (.interp it)
  fresh : ∀ i, s.next ≤ i → s.heap i = none

theorem inv_empty : Inv (State.empty : State P W) := ⟨fun _ _ h => (by cases h), fun _ _ _ h => (by cases h), fun _ _ => rfl⟩

theorem sweep_kept {s : State P W} {i : Nat} (h : Kept s i) : (sweep s).heap i = s.heap i := if_pos h

theorem sweep_sub {s : State P W} {i : Nat} {o : Obj P W} (h : (sweep s).heap i = some o) : s.heap i = some o := by
  unfold sweep at h
  dsimp only at h
  split at h
  · exact h
  · cases h

theorem inv_sweep {s : State P W} (h : Inv s) : Inv (sweep s) where
  names x i hx := by
    have hx' : s.names x = some i := hx
    rw [sweep_kept (s := s) (Or.inl ⟨x, hx'⟩)]
    exact h.names x i hx'
  views j i o hj ho := by
    have := sweep_sub hj
    rw [sweep_kept (s := s) (Or.inr ⟨j, o, this, ho⟩)]
    exact h.views j i o this ho
  fresh i hi := by
    cases hc : (sweep s).heap i with
    | none => rfl
    | some o =>
        have := sweep_sub hc
        rw [h.fresh i hi] at this
        cases this

theorem inv_collect {s : State P W} (h : Inv s) : Inv (collect s) := inv_sweep (inv_sweep h)

theorem collect_named {s : State P W} {x : String} {i : Nat} (h : s.names x = some i) : (collect s).heap i = s.heap i :=
  (sweep_kept (s := sweep s) (Or.inl ⟨x, h⟩)).trans (sweep_kept (Or.inl ⟨x, h⟩))

theorem obj_ok {s : State P W} (h : Inv s) (x : String) : (∃ i o, s.names x = some i ∧ s.heap i = some o ∧ obj s x = .ok (i, o)) ∨ obj s x = .throws .runtimeError := by
  unfold obj
  cases hx : s.names x with
  | none => exact Or.inr rfl
  | some i =>
      cases ho : s.heap i with
      | none => exact absurd ho (h.names x i hx)
      | some o => exact Or.inl ⟨i, o, rfl, ho, by simp [ho]⟩

theorem interpArg_ok {s : State P W} (h : Inv s) (x : String) :
    (∃ i it, s.names x = some i ∧ s.heap i = some (.interp it) ∧ interpArg s x = .ok (i, it)) ∨ ∃ e, interpArg s x = .throws e := by
  unfold interpArg
  rcases obj_ok h x with ⟨i, o, h1, h2, h3⟩ | h1
  · rw [h3, Outcome.ok_bind]
    cases o with
    | interp it => exact Or.inl ⟨i, it, h1, h2, rfl⟩
    | model m => exact Or.inr ⟨_, rfl⟩
    | modelOf i => exact Or.inr ⟨_, rfl⟩
    | weightsOf i k => exact Or.inr ⟨_, rfl⟩
    | fieldFn i => exact Or.inr ⟨_, rfl⟩
  · rw [h1]; exact Or.inr ⟨_, rfl⟩

theorem modelArg_ok {s : State P W} (h : Inv s) (x : String) : (∃ m, modelArg s x = .ok m) ∨ ∃ e, modelArg s x = .throws e := by
  unfold modelArg
  rcases obj_ok h x with ⟨i, o, h1, h2, h3⟩ | h1
  · rw [h3, Outcome.ok_bind]
    cases o with
    | interp it => exact Or.inr ⟨_, rfl⟩
    | weightsOf i k => exact Or.inr ⟨_, rfl⟩
    | model m => exact Or.inl ⟨_, rfl⟩
    | modelOf j =>
        obtain ⟨it, hit⟩ := h.views i j _ h2 rfl
        refine Or.inl ⟨it.model, ?_⟩
        simp only [deref, hit]
        rfl
    | fieldFn i => exact Or.inr ⟨_, rfl⟩
  · rw [h1]; exact Or.inr ⟨_, rfl⟩

theorem inv_bind {s : State P W} (h : Inv s) (x : String) (o : Obj P W) (ho : ∀ i, o.parent = some i → ∃ it, s.heap i = some (.interp it)) : Inv (bind s x o) := by
  have old : ∀ i o', s.heap i = some o' → Function.update s.heap s.next (some o) i = some o' := by
    intro i o' hi
    rw [Function.update_of_ne ?_]
    · exact hi
    · rintro rfl
      rw [h.fresh _ (Nat.le_refl _)] at hi
      cases hi
  refine ⟨fun y i hy => ?_, fun j i oj hj hp => ?_, fun i hi => ?_⟩
  · show Function.update s.heap s.next (some o) i ≠ none
    by_cases hi : i = s.next
    · rw [hi, Function.update_self]; simp
    · rw [Function.update_of_ne hi]
      have hy' : Function.update s.names x (some s.next) y = some i := hy
      by_cases hyx : y = x
      · rw [hyx, Function.update_self] at hy'
        cases hy'
        exact absurd rfl hi
      · rw [Function.update_of_ne hyx] at hy'
        exact h.names y i hy'
  · show ∃ it, Function.update s.heap s.next (some o) i = some (.interp it)
    have hj' : Function.update s.heap s.next (some o) j = some oj := hj
    by_cases hjn : j = s.next
    · rw [hjn, Function.update_self] at hj'
      obtain ⟨it, hit⟩ := ho i (by cases hj'; exact hp)
      exact ⟨it, old _ _ hit⟩
    · rw [Function.update_of_ne hjn] at hj'
      obtain ⟨it, hit⟩ := h.views j i oj hj' hp
      exact ⟨it, old _ _ hit⟩
  · have hi' : s.next + 1 ≤ i := hi
    show Function.update s.heap s.next (some o) i = none
    rw [Function.update_of_ne (by omega)]
    exact h.fresh i (by omega)

/-- the same kind of object -/
def SameKind : Obj P W → Obj P W → Prop
  | .model _, .model _ => True
  | .interp _, .interp _ => True
  | _, _ => False

theorem inv_put {s : State P W} (h : Inv s) {i : Nat} {o o' : Obj P W} (hi : s.heap i = some o) (hk : SameKind o o') : Inv (put s i o') := by
  refine ⟨fun y k hy => ?_, fun j k oj hj hp => ?_, fun k hk' => ?_⟩
  · show Function.update s.heap i (some o') k ≠ none
    by_cases hki : k = i
    · rw [hki, Function.update_self]; simp
    · rw [Function.update_of_ne hki]; exact h.names y k hy
  · show ∃ it, Function.update s.heap i (some o') k = some (.interp it)
    have hj' : Function.update s.heap i (some o') j = some oj := hj
    by_cases hji : j = i
    · rw [hji, Function.update_self] at hj'
      cases hj'
      cases o <;> cases o' <;> first | exact hk.elim | cases hp
    · rw [Function.update_of_ne hji] at hj'
      obtain ⟨it, hit⟩ := h.views j k oj hj' hp
      by_cases hki : k = i
      · rw [hki, Function.update_self]
        rw [hki, hi] at hit
        cases hit
        cases o' with
        | interp it' => exact ⟨it', rfl⟩
        | _ => exact hk.elim
      · rw [Function.update_of_ne hki]; exact ⟨it, hit⟩
  · show Function.update s.heap i (some o') k = none
    rw [Function.update_of_ne ?_]
    · exact h.fresh k hk'
    · rintro rfl
      rw [h.fresh _ hk'] at hi
      cases hi

theorem inv_names {s : State P W} (h : Inv s) (x : String) (v : Option Nat) (hv : ∀ i, v = some i → s.heap i ≠ none) : Inv { s with names := Function.update s.names x v } := by
  refine ⟨fun y i hy => ?_, h.views, h.fresh⟩
  have hy' : Function.update s.names x v y = some i := hy
  by_cases hyx : y = x
  · rw [hyx, Function.update_self] at hy'; exact hv i hy'
  · rw [Function.update_of_ne hyx] at hy'; exact h.names y i hy'

theorem setParams_ok {s : State P W} (h : Inv s) (y : String) (p : P) : (∃ s', setParams s y p = .ok s' ∧ Inv s') ∨ ∃ e, setParams s y p = .throws e := by
  unfold setParams
  rcases obj_ok h y with ⟨i, o, h1, h2, h3⟩ | h1
  · rw [h3, Outcome.ok_bind]
    cases o with
    | interp it => exact Or.inr ⟨_, rfl⟩
    | weightsOf i k => exact Or.inr ⟨_, rfl⟩
    | model m => exact Or.inl ⟨_, rfl, inv_put h h2 trivial⟩
    | modelOf j =>
        obtain ⟨it, hit⟩ := h.views i j _ h2 rfl
        refine Or.inl ⟨put s j (.interp { it with model := p }), ?_, inv_put h hit trivial⟩
        simp only [deref, hit]
        rfl
    | fieldFn i => exact Or.inr ⟨_, rfl⟩
  · rw [h1]; exact Or.inr ⟨_, rfl⟩

theorem effect_ok (L : Lib P D W V) {s : State P W} (h : Inv s) (op : Op P D) : (∃ s', effect L s op = .ok s' ∧ Inv s') ∨ ∃ e, effect L s op = .throws e := by
  cases op with
  | newModel x p => exact Or.inl ⟨_, rfl, inv_bind h x _ fun i hi => by cases hi⟩
  | newInterp x y =>
      simp only [effect]
      rcases modelArg_ok h y with ⟨m, hm⟩ | ⟨e, he⟩
      · rw [hm]; exact Or.inl ⟨_, rfl, inv_bind h x _ fun i hi => by cases hi⟩
      · rw [he]; exact Or.inr ⟨_, rfl⟩
  | fieldFn f x =>
      simp only [effect]
      rcases interpArg_ok h x with ⟨i, it, h1, h2, h3⟩ | ⟨e, he⟩
      · rw [h3]; exact Or.inl ⟨_, rfl, inv_bind h f _ fun i hi => by cases hi⟩
      · rw [he]; exact Or.inr ⟨_, rfl⟩
  | model y x =>
      simp only [effect]
      rcases interpArg_ok h x with ⟨i, it, h1, h2, h3⟩ | ⟨e, he⟩
      · rw [h3]
        refine Or.inl ⟨_, rfl, inv_bind h y _ fun k hk => ?_⟩
        cases hk
        exact ⟨it, h2⟩
      · rw [he]; exact Or.inr ⟨_, rfl⟩
  | weights w x =>
      simp only [effect]
      rcases interpArg_ok h x with ⟨i, it, h1, h2, h3⟩ | ⟨e, he⟩
      · rw [h3, Outcome.ok_bind]
        dsimp only
        split
        · refine Or.inl ⟨_, rfl, inv_bind h w _ fun k hk => ?_⟩
          cases hk
          exact ⟨it, h2⟩
        · exact Or.inr ⟨_, rfl⟩
      · rw [he]; exact Or.inr ⟨_, rfl⟩
  | setParameters y p => exact setParams_ok h y p
  | fit x d =>
      simp only [effect]
      rcases interpArg_ok h x with ⟨i, it, h1, h2, h3⟩ | ⟨e, he⟩
      · rw [h3]; exact Or.inl ⟨_, rfl, inv_put h h2 trivial⟩
      · rw [he]; exact Or.inr ⟨_, rfl⟩
  | assign y x =>
      simp only [effect]
      rcases obj_ok h x with ⟨i, o, h1, h2, h3⟩ | h1
      · rw [h3]
        refine Or.inl ⟨_, rfl, inv_names h y _ fun k hk => ?_⟩
        cases hk
        rw [h2]; simp
      · rw [h1]; exact Or.inr ⟨_, rfl⟩
  | del x =>
      simp only [effect]
      rcases obj_ok h x with ⟨i, o, h1, h2, h3⟩ | h1
      · rw [h3]; exact Or.inl ⟨_, rfl, inv_names h x _ fun k hk => by cases hk⟩
      · rw [h1]; exact Or.inr ⟨_, rfl⟩

theorem run_ok (L : Lib P D W V) : ∀ (ops : List (Op P D)) {s : State P W}, Inv s → (∃ s', run L s ops = .ok s' ∧ Inv s') ∨ ∃ e, run L s ops = .throws e
  | [], s, h => Or.inl ⟨s, rfl, h⟩
  | op :: ops, s, h => by
      simp only [run, step]
      rcases effect_ok L h op with ⟨s', h1, h2⟩ | ⟨e, he⟩
      · rw [h1]; exact run_ok L ops (inv_collect h2)
      · rw [he]; exact Or.inr ⟨e, rfl⟩

/-- **C93**: whatever statements are run, with attributes `model` held on to while their interpolants go out of use, no statement and no evaluation uses memory that has been freed (except by field functions and arrays, see below). -/
theorem C93_attributes_safe (L : Lib P D W V) (ops : List (Op P D)) : run L State.empty ops ≠ .ub ∧ ∀ s, run L State.empty ops = .ok s → ∀ x, evaluate L s x ≠ .ub := by
  rcases run_ok L ops (inv_empty (P := P) (W := W)) with ⟨s', h1, h2⟩ | ⟨e, he⟩
  · refine ⟨by rw [h1]; simp, fun s hs x => ?_⟩
    rw [h1] at hs
    cases hs
    unfold evaluate
    rcases interpArg_ok h2 x with ⟨i, it, -, -, h3⟩ | ⟨e, he⟩
    · rw [h3, Outcome.ok_bind]
      unfold values
      split <;> simp
    · rw [he]; simp [Bind.bind, Outcome.bind]
  · exact ⟨by rw [he]; simp, fun s hs => by rw [he] at hs; cases hs⟩

/-! ## Field functions -/

/-- `f` is a field function of the interpolant named `x`. -/
def Linked (s : State P W) (f x : String) : Prop := ∃ j i it, s.names f = some j ∧ s.heap j = some (.fieldFn i) ∧ s.names x = some i ∧ s.heap i = some (.interp it)

theorem linked_collect {s : State P W} {f x : String} (h : Linked s f x) : Linked (collect s) f x := by
  obtain ⟨j, i, it, h1, h2, h3, h4⟩ := h
  exact ⟨j, i, it, h1, by rw [collect_named h1, h2], h3, by rw [collect_named h3, h4]⟩

theorem linked_bind {s : State P W} (h : Inv s) {f x z : String} (hf : z ≠ f) (hx : z ≠ x) (o : Obj P W) (hl : Linked s f x) : Linked (bind s z o) f x := by
  obtain ⟨j, i, it, h1, h2, h3, h4⟩ := hl
  have old : ∀ k o', s.heap k = some o' → Function.update s.heap s.next (some o) k = some o' := by
    intro k o' hk
    rw [Function.update_of_ne ?_]
    · exact hk
    · rintro rfl
      rw [h.fresh _ (Nat.le_refl _)] at hk
      cases hk
  exact ⟨j, i, it, (Function.update_of_ne hf.symm _ _).trans h1, old _ _ h2, (Function.update_of_ne hx.symm _ _).trans h3, old _ _ h4⟩

theorem linked_put {s : State P W} {f x : String} {k : Nat} {o o' : Obj P W} (hk : s.heap k = some o) (hs : SameKind o o') (hl : Linked s f x) : Linked (put s k o') f x := by
  obtain ⟨j, i, it, h1, h2, h3, h4⟩ := hl
  have hj : j ≠ k := by
    rintro rfl
    rw [h2] at hk
    cases hk
    cases o' <;> exact hs.elim
  have h2' : (put s k o').heap j = some (.fieldFn i) := (Function.update_of_ne hj _ _).trans h2
  by_cases hik : i = k
  · rw [← hik, h4] at hk
    cases hk
    cases o' with
    | interp it' => exact ⟨j, i, it', h1, h2', h3, by rw [hik]; exact Function.update_self ..⟩
    | _ => exact hs.elim
  · exact ⟨j, i, it, h1, h2', h3, (Function.update_of_ne hik _ _).trans h4⟩

theorem linked_names {s : State P W} {f x z : String} (hf : z ≠ f) (hx : z ≠ x) (v : Option Nat) (hl : Linked s f x) : Linked { s with names := Function.update s.names z v } f x := by
  obtain ⟨j, i, it, h1, h2, h3, h4⟩ := hl
  exact ⟨j, i, it, (Function.update_of_ne hf.symm _ _).trans h1, h2, (Function.update_of_ne hx.symm _ _).trans h3, h4⟩

theorem linked_effect (L : Lib P D W V) {s s' : State P W} (h : Inv s) {f x : String} {op : Op P D} (ht : target op ≠ some f ∧ target op ≠ some x) (hl : Linked s f x) (he : effect L s op = .ok s') :
    Linked s' f x := by
  cases op with
  | newModel z p =>
      cases he
      exact linked_bind h (fun e => ht.1 (by rw [← e]; rfl)) (fun e => ht.2 (by rw [← e]; rfl)) _ hl
  | newInterp z y =>
      simp only [effect] at he
      rcases modelArg_ok h y with ⟨m, hm⟩ | ⟨e, hm⟩
      · rw [hm] at he
        cases he
        exact linked_bind h (fun e => ht.1 (by rw [← e]; rfl)) (fun e => ht.2 (by rw [← e]; rfl)) _ hl
      · rw [hm] at he; cases he
  | fieldFn z y =>
      simp only [effect] at he
      rcases interpArg_ok h y with ⟨i, it, h1, h2, h3⟩ | ⟨e, hm⟩
      · rw [h3] at he
        cases he
        exact linked_bind h (fun e => ht.1 (by rw [← e]; rfl)) (fun e => ht.2 (by rw [← e]; rfl)) _ hl
      · rw [hm] at he; cases he
  | model z y =>
      simp only [effect] at he
      rcases interpArg_ok h y with ⟨i, it, h1, h2, h3⟩ | ⟨e, hm⟩
      · rw [h3] at he
        cases he
        exact linked_bind h (fun e => ht.1 (by rw [← e]; rfl)) (fun e => ht.2 (by rw [← e]; rfl)) _ hl
      · rw [hm] at he; cases he
  | weights z y =>
      simp only [effect] at he
      rcases interpArg_ok h y with ⟨i, it, h1, h2, h3⟩ | ⟨e, hm⟩
      · rw [h3, Outcome.ok_bind] at he
        dsimp only at he
        split at he
        · cases he
          exact linked_bind h (fun e => ht.1 (by rw [← e]; rfl)) (fun e => ht.2 (by rw [← e]; rfl)) _ hl
        · cases he
      · rw [hm] at he; cases he
  | setParameters y p =>
      simp only [effect, setParams] at he
      rcases obj_ok h y with ⟨i, o, h1, h2, h3⟩ | h1
      · rw [h3, Outcome.ok_bind] at he
        cases o with
        | interp it => cases he
        | weightsOf i k => cases he
        | model m => cases he; exact linked_put h2 trivial hl
        | modelOf j =>
            obtain ⟨it, hit⟩ := h.views i j _ h2 rfl
            simp only [deref, hit] at he
            cases he
            exact linked_put hit trivial hl
        | fieldFn i => cases he
      · rw [h1] at he; cases he
  | fit y d =>
      simp only [effect] at he
      rcases interpArg_ok h y with ⟨i, it, h1, h2, h3⟩ | ⟨e, hm⟩
      · rw [h3] at he
        cases he
        exact linked_put h2 trivial hl
      · rw [hm] at he; cases he
  | assign z y =>
      simp only [effect] at he
      rcases obj_ok h y with ⟨i, o, h1, h2, h3⟩ | h1
      · rw [h3] at he
        cases he
        exact linked_names (fun e => ht.1 (by rw [← e]; rfl)) (fun e => ht.2 (by rw [← e]; rfl)) _ hl
      · rw [h1] at he; cases he
  | del z =>
      simp only [effect] at he
      rcases obj_ok h z with ⟨i, o, h1, h2, h3⟩ | h1
      · rw [h3] at he
        cases he
        exact linked_names (fun e => ht.1 (by rw [← e]; rfl)) (fun e => ht.2 (by rw [← e]; rfl)) _ hl
      · rw [h1] at he; cases he

theorem linked_run (L : Lib P D W V) {f x : String} : ∀ (ops : List (Op P D)) {s s' : State P W}, Inv s → (∀ op ∈ ops, target op ≠ some f ∧ target op ≠ some x) → Linked s f x → run L s ops = .ok s' →
    Linked s' f x
  | [], s, s', _, _, hl, he => by cases he; exact hl
  | op :: ops, s, s', h, ht, hl, he => by
      simp only [run, step] at he
      rcases effect_ok L h op with ⟨s1, h1, h2⟩ | ⟨e, h1⟩
      · rw [h1] at he
        exact linked_run L ops (inv_collect h2) (fun o ho => ht o (List.mem_cons_of_mem _ ho)) (linked_collect (linked_effect L h (ht op List.mem_cons_self) hl h1)) he
      · rw [h1] at he; cases he

theorem run_append (L : Lib P D W V) : ∀ (a b : List (Op P D)) (s : State P W), run L s (a ++ b) = (run L s a >>= fun s => run L s b)
  | [], b, s => rfl
  | op :: a, b, s => by
      show (step L s op >>= fun s => run L s (a ++ b)) = ((step L s op >>= fun s => run L s a) >>= fun s => run L s b)
      cases hs : step L s op with
      | ok s1 => exact run_append L a b s1
      | throws e => rfl
      | ub => rfl

/-- **C93**, field functions: as long as the name of the interpolant is neither assigned nor deleted, the field function gives the values of that interpolant as it is now, whatever statements come between. -/
theorem C93_field_function (L : Lib P D W V) (before after : List (Op P D)) {f x : String} (hfx : f ≠ x) (ht : ∀ op ∈ after, target op ≠ some f ∧ target op ≠ some x) {s : State P W}
    (h : run L State.empty (before ++ .fieldFn f x :: after) = .ok s) : generate L s f = evaluate L s x ∧ generate L s f ≠ .ub := by
  rw [run_append] at h
  rcases run_ok L before (inv_empty (P := P) (W := W)) with ⟨s1, h1, i1⟩ | ⟨e, he⟩
  · rw [h1] at h
    have h' : (step L s1 (.fieldFn f x) >>= fun s => run L s after) = .ok s := h
    simp only [step, effect] at h'
    rcases interpArg_ok i1 x with ⟨i, it, a1, a2, a3⟩ | ⟨e, he⟩
    · rw [a3] at h'
      have i2 : Inv (bind s1 f (.fieldFn i)) := inv_bind i1 f _ fun k hk => by cases hk
      have old : (bind s1 f (.fieldFn i)).heap i = some (.interp it) := by
        refine (Function.update_of_ne ?_ _ _).trans a2
        rintro rfl
        rw [i1.fresh _ (Nat.le_refl _)] at a2
        cases a2
      have hl : Linked (bind s1 f (.fieldFn i)) f x :=
        ⟨s1.next, i, it, Function.update_self .., Function.update_self .., (Function.update_of_ne hfx.symm _ _).trans a1, old⟩
      obtain ⟨j, k, it', b1, b2, b3, b4⟩ := linked_run L after (inv_collect i2) ht (linked_collect hl) h'
      have eg : generate L s f = values L it' := by
        simp only [generate, obj, b1, b2, Outcome.ok_bind, deref, b4]
      have ee : evaluate L s x = values L it' := by
        simp only [evaluate, interpArg, obj, b3, b4]
        rfl
      refine ⟨eg.trans ee.symm, ?_⟩
      rw [eg]
      unfold values
      split <;> simp
    · rw [he] at h'; cases h'
  · rw [he] at h; cases h

/-! ## What goes wrong, and what does not -/

/-- The name `x` has the object `o` with number `i`. -/
def At (s : State P W) (x : String) (i : Nat) (o : Obj P W) : Prop := s.names x = some i ∧ s.heap i = some o

theorem at_collect {s : State P W} {x : String} {i : Nat} {o : Obj P W} (h : At s x i o) : At (collect s) x i o := ⟨h.1, (collect_named h.1).trans h.2⟩

theorem at_new (s : State P W) (x : String) (o : Obj P W) : At (bind s x o) x s.next o := ⟨Function.update_self .., Function.update_self ..⟩

theorem lt_next {s : State P W} (h : Inv s) {i : Nat} {o : Obj P W} (hi : s.heap i = some o) : i < s.next := by
  by_contra hc
  rw [h.fresh i (by omega)] at hi
  cases hi

theorem at_bind {s : State P W} (hs : Inv s) {x z : String} {i : Nat} {o : Obj P W} (h : At s x i o) (hz : z ≠ x) (o' : Obj P W) : At (bind s z o') x i o :=
  ⟨(Function.update_of_ne hz.symm _ _).trans h.1, (Function.update_of_ne (Nat.ne_of_lt (lt_next hs h.2)) _ _).trans h.2⟩

theorem at_put_self {s : State P W} {x : String} {i : Nat} {o : Obj P W} (h : At s x i o) (o' : Obj P W) : At (put s i o') x i o' := ⟨h.1, Function.update_self ..⟩

theorem at_put {s : State P W} {x : String} {i k : Nat} {o : Obj P W} (h : At s x i o) (hk : i ≠ k) (o' : Obj P W) : At (put s k o') x i o := ⟨h.1, (Function.update_of_ne hk _ _).trans h.2⟩

theorem obj_at {s : State P W} {x : String} {i : Nat} {o : Obj P W} (h : At s x i o) : obj s x = .ok (i, o) := by simp [obj, h.1, h.2]

theorem interpArg_at {s : State P W} {x : String} {i : Nat} {it : Interp P W} (h : At s x i (.interp it)) : interpArg s x = .ok (i, it) := by
  simp only [interpArg, obj_at h]
  rfl

theorem modelArg_at {s : State P W} {x : String} {i : Nat} {m : P} (h : At s x i (.model m)) : modelArg s x = .ok m := by
  simp only [modelArg, obj_at h]
  rfl

theorem step_newInterp (L : Lib P D W V) {s : State P W} {x y : String} {i : Nat} {m : P} (h : At s y i (.model m)) :
    step L s (.newInterp x y) = .ok (collect (bind s x (.interp ⟨m, none, 0⟩))) := by
  simp only [step, effect, modelArg_at h]
  rfl

theorem step_fit (L : Lib P D W V) {s : State P W} {x : String} {i : Nat} {it : Interp P W} (h : At s x i (.interp it)) (d : D) :
    step L s (.fit x d) = .ok (collect (put s i (.interp { it with weights := some (L.solve it.model d), fits := it.fits + 1 }))) := by
  simp only [step, effect, interpArg_at h]
  rfl

theorem step_fieldFn (L : Lib P D W V) {s : State P W} {f x : String} {i : Nat} {it : Interp P W} (h : At s x i (.interp it)) :
    step L s (.fieldFn f x) = .ok (collect (bind s f (.fieldFn i))) := by
  simp only [step, effect, interpArg_at h]
  rfl

theorem step_model (L : Lib P D W V) {s : State P W} {y x : String} {i : Nat} {it : Interp P W} (h : At s x i (.interp it)) :
    step L s (.model y x) = .ok (collect (bind s y (.modelOf i))) := by
  simp only [step, effect, interpArg_at h]
  rfl

theorem step_del (L : Lib P D W V) {s : State P W} {x : String} {i : Nat} {o : Obj P W} (h : At s x i o) :
    step L s (.del x) = .ok (collect { s with names := Function.update s.names x none }) := by
  simp only [step, effect, obj_at h]
  rfl

theorem step_setModel (L : Lib P D W V) {s : State P W} {y : String} {i : Nat} {m : P} (h : At s y i (.model m)) (q : P) :
    step L s (.setParameters y q) = .ok (collect (put s i (.model q))) := by
  simp only [step, effect, setParams, obj_at h]
  rfl

theorem step_setView (L : Lib P D W V) {s : State P W} {y : String} {i j : Nat} {it : Interp P W} (h : At s y j (.modelOf i)) (hi : s.heap i = some (.interp it)) (q : P) :
    step L s (.setParameters y q) = .ok (collect (put s i (.interp { it with model := q }))) := by
  simp only [step, effect, setParams, obj_at h, Outcome.ok_bind, deref, hi]

theorem run_cons (L : Lib P D W V) {s s' : State P W} {op : Op P D} {ops : List (Op P D)} (h : step L s op = .ok s') : run L s (op :: ops) = run L s' ops := by
  simp only [run, h, Outcome.ok_bind]

/-- **C93**, the model of an interpolant is its own: the object `y` that was passed to the constructor can be changed afterwards, and the interpolant fits and evaluates with the parameters `y` had then. -/
theorem C93_copy (L : Lib P D W V) (before : List (Op P D)) {x y : String} (hxy : x ≠ y) (p q : P) (d : D) {s : State P W} (h : run L State.empty before = .ok s) :
    ∃ s', run L State.empty (before ++ [.newModel y p, .newInterp x y, .setParameters y q, .fit x d]) = .ok s' ∧ evaluate L s' x = .ok (L.value p (L.solve p d)) := by
  have i0 : Inv s := by
    rcases run_ok L before (inv_empty (P := P) (W := W)) with ⟨s1, h1, i1⟩ | ⟨e, he⟩
    · rw [h1] at h; cases h; exact i1
    · rw [he] at h; cases h
  rw [run_append, h, Outcome.ok_bind]
  have i1 : Inv (collect (bind s y (.model p))) := inv_collect (inv_bind i0 y _ fun i hi => by cases hi)
  have a1 : At (collect (bind s y (.model p))) y s.next (.model p) := at_collect (at_new s y _)
  rw [run_cons L (s' := collect (bind s y (.model p))) rfl]
  generalize collect (bind s y (.model p)) = s1 at i1 a1
  rw [run_cons L (step_newInterp L a1)]
  have b2 := at_collect (at_new s1 x (.interp ⟨p, none, 0⟩))
  have a2 := at_collect (at_bind i1 a1 hxy (.interp ⟨p, none, 0⟩))
  have hne : s1.next ≠ s.next := (Nat.ne_of_lt (lt_next i1 a1.2)).symm
  generalize collect (bind s1 x (.interp ⟨p, none, 0⟩)) = s2 at b2 a2
  rw [run_cons L (step_setModel L a2 q)]
  have b3 := at_collect (at_put b2 hne (.model q))
  rw [run_cons L (step_fit L b3 d)]
  refine ⟨_, rfl, ?_⟩
  simp only [evaluate, interpArg_at (at_collect (at_put_self b3 _)), Outcome.ok_bind, values]

/-- **C93**, found: the attribute `model` is read-only, but what it gives is not: `y = x.model; y.parameters = q` changes the model of the fitted interpolant, which then goes on to evaluate the weights
computed for the old parameters with the new ones. -/
theorem C93_model_alias (L : Lib P D W V) (before : List (Op P D)) {m x y : String} (hxy : y ≠ x) (p q : P) (d : D) {s : State P W} (h : run L State.empty before = .ok s) :
    ∃ s', run L State.empty (before ++ [.newModel m p, .newInterp x m, .fit x d, .model y x, .setParameters y q]) = .ok s' ∧ evaluate L s' x = .ok (L.value q (L.solve p d)) := by
  have i0 : Inv s := by
    rcases run_ok L before (inv_empty (P := P) (W := W)) with ⟨s1, h1, i1⟩ | ⟨e, he⟩
    · rw [h1] at h; cases h; exact i1
    · rw [he] at h; cases h
  rw [run_append, h, Outcome.ok_bind]
  have i1 : Inv (collect (bind s m (.model p))) := inv_collect (inv_bind i0 m _ fun i hi => by cases hi)
  have a1 : At (collect (bind s m (.model p))) m s.next (.model p) := at_collect (at_new s m _)
  rw [run_cons L (s' := collect (bind s m (.model p))) rfl]
  generalize collect (bind s m (.model p)) = s1 at i1 a1
  rw [run_cons L (step_newInterp L a1)]
  have b2 := at_collect (at_new s1 x (.interp ⟨p, none, 0⟩))
  have i2 : Inv (collect (bind s1 x (.interp ⟨p, none, 0⟩))) := inv_collect (inv_bind i1 x _ fun i hi => by cases hi)
  generalize collect (bind s1 x (.interp ⟨p, none, 0⟩)) = s2 at b2 i2
  rw [run_cons L (step_fit L b2 d)]
  have b3 := at_collect (at_put_self b2 (.interp ⟨p, some (L.solve p d), 1⟩))
  have i3 : Inv (collect (put s2 s1.next (.interp ⟨p, some (L.solve p d), 1⟩))) := inv_collect (inv_put i2 b2.2 trivial)
  generalize collect (put s2 s1.next (.interp ⟨p, some (L.solve p d), 1⟩)) = s3 at b3 i3
  rw [run_cons L (step_model L b3)]
  have c4 := at_collect (at_new s3 y (.modelOf s1.next))
  have b4 := at_collect (at_bind i3 b3 hxy (.modelOf s1.next))
  generalize collect (bind s3 y (.modelOf s1.next)) = s4 at b4 c4
  rw [run_cons L (step_setView L c4 b4.2 q)]
  refine ⟨_, rfl, ?_⟩
  simp only [evaluate, interpArg_at (at_collect (at_put_self b4 _)), Outcome.ok_bind, values]

/-- Object `i` is kept by the name `x` alone. -/
def Only (s : State P W) (x : String) (i : Nat) : Prop := (∀ y, s.names y = some i → y = x) ∧ ∀ j o, s.heap j = some o → o.parent ≠ some i

theorem only_collect {s : State P W} {x : String} {i : Nat} (h : Only s x i) : Only (collect s) x i := ⟨h.1, fun j o hj => h.2 j o (sweep_sub (sweep_sub hj))⟩

theorem only_new {s : State P W} (hs : Inv s) (x : String) (o : Obj P W) (ho : o.parent = none) : Only (bind s x o) x s.next := by
  refine ⟨fun y hy => ?_, fun j oj hj hp => ?_⟩
  · by_contra hc
    have hy' : Function.update s.names x (some s.next) y = some s.next := hy
    rw [Function.update_of_ne hc] at hy'
    exact hs.names y _ hy' (hs.fresh _ (Nat.le_refl _))
  · have hj' : Function.update s.heap s.next (some o) j = some oj := hj
    by_cases hjn : j = s.next
    · rw [hjn, Function.update_self] at hj'
      cases hj'
      rw [ho] at hp
      cases hp
    · rw [Function.update_of_ne hjn] at hj'
      obtain ⟨it, hit⟩ := hs.views j _ oj hj' hp
      rw [hs.fresh _ (Nat.le_refl _)] at hit
      cases hit

theorem only_put {s : State P W} {x : String} {i : Nat} (h : Only s x i) (k : Nat) (o : Obj P W) (ho : o.parent = none) : Only (put s k o) x i := by
  refine ⟨h.1, fun j oj hj hp => ?_⟩
  have hj' : Function.update s.heap k (some o) j = some oj := hj
  by_cases hjk : j = k
  · rw [hjk, Function.update_self] at hj'
    cases hj'
    rw [ho] at hp
    cases hp
  · rw [Function.update_of_ne hjk] at hj'; exact h.2 j oj hj' hp

theorem only_bind {s : State P W} {x z : String} {i : Nat} (h : Only s x i) (hi : i ≠ s.next) (o : Obj P W) (ho : o.parent = none) : Only (bind s z o) x i := by
  refine ⟨fun y hy => ?_, (only_put h s.next o ho).2⟩
  have hy' : Function.update s.names z (some s.next) y = some i := hy
  by_cases hyz : y = z
  · rw [hyz, Function.update_self] at hy'
    exact absurd (Option.some.inj hy').symm hi
  · rw [Function.update_of_ne hyz] at hy'; exact h.1 y hy'

/-- **C93**, found: a field function does not keep its interpolant.  After `f = RbfFieldFunction(x)` and `del x`, `generate(f)` uses freed memory, whatever was run before. -/
theorem C93_field_function_dangles (L : Lib P D W V) (before : List (Op P D)) {m x f : String} (hxf : f ≠ x) (p : P) (d : D) {s : State P W} (h : run L State.empty before = .ok s) :
    ∃ s', run L State.empty (before ++ [.newModel m p, .newInterp x m, .fit x d, .fieldFn f x, .del x]) = .ok s' ∧ generate L s' f = .ub := by
  have i0 : Inv s := by
    rcases run_ok L before (inv_empty (P := P) (W := W)) with ⟨s1, h1, i1⟩ | ⟨e, he⟩
    · rw [h1] at h; cases h; exact i1
    · rw [he] at h; cases h
  rw [run_append, h, Outcome.ok_bind]
  have i1 : Inv (collect (bind s m (.model p))) := inv_collect (inv_bind i0 m _ fun i hi => by cases hi)
  have a1 : At (collect (bind s m (.model p))) m s.next (.model p) := at_collect (at_new s m _)
  rw [run_cons L (s' := collect (bind s m (.model p))) rfl]
  generalize collect (bind s m (.model p)) = s1 at i1 a1
  rw [run_cons L (step_newInterp L a1)]
  have b2 := at_collect (at_new s1 x (.interp ⟨p, none, 0⟩))
  have i2 : Inv (collect (bind s1 x (.interp ⟨p, none, 0⟩))) := inv_collect (inv_bind i1 x _ fun i hi => by cases hi)
  have o2 := only_collect (only_new i1 x (.interp ⟨p, none, 0⟩) rfl)
  generalize collect (bind s1 x (.interp ⟨p, none, 0⟩)) = s2 at b2 i2 o2
  rw [run_cons L (step_fit L b2 d)]
  have b3 := at_collect (at_put_self b2 (.interp ⟨p, some (L.solve p d), 1⟩))
  have i3 : Inv (collect (put s2 s1.next (.interp ⟨p, some (L.solve p d), 1⟩))) := inv_collect (inv_put i2 b2.2 trivial)
  have o3 := only_collect (only_put o2 s1.next (.interp ⟨p, some (L.solve p d), 1⟩) rfl)
  generalize collect (put s2 s1.next (.interp ⟨p, some (L.solve p d), 1⟩)) = s3 at b3 i3 o3
  rw [run_cons L (step_fieldFn L b3)]
  have c4 := at_collect (at_new s3 f (.fieldFn s1.next))
  have b4 := at_collect (at_bind i3 b3 hxf (.fieldFn s1.next))
  have o4 := only_collect (only_bind (z := f) o3 (Nat.ne_of_lt (lt_next i3 b3.2)) (.fieldFn s1.next) rfl)
  generalize collect (bind s3 f (.fieldFn s1.next)) = s4 at b4 c4 o4
  rw [run_cons L (step_del L b4)]
  refine ⟨_, rfl, ?_⟩
  have c5 : At (collect { s4 with names := Function.update s4.names x none }) f s3.next (.fieldFn s1.next) :=
    at_collect ⟨(Function.update_of_ne hxf _ _).trans c4.1, c4.2⟩
  have gone : (collect { s4 with names := Function.update s4.names x none }).heap s1.next = none := by
    cases hc : (collect { s4 with names := Function.update s4.names x none }).heap s1.next with
    | none => rfl
    | some o =>
        exfalso
        have h5 : (sweep { s4 with names := Function.update s4.names x none }).heap s1.next = some o := sweep_sub hc
        unfold sweep at h5
        dsimp only at h5
        split at h5
        · rename_i hk
          rcases hk with ⟨z, hz⟩ | ⟨j, oj, hj, hp⟩
          · have hz' : Function.update s4.names x none z = some s1.next := hz
            by_cases hzx : z = x
            · rw [hzx, Function.update_self] at hz'; cases hz'
            · rw [Function.update_of_ne hzx] at hz'; exact hzx (o4.1 z hz')
          · exact o4.2 j oj hj hp
        · cases h5
  simp only [generate, obj_at c5, Outcome.ok_bind, deref, gone]
  rfl

/-! ## Arrays -/

/-- The name `w` has an array of the weights `v` of an interpolant. -/
def Pinned (s : State P W) (w : String) (v : W) : Prop :=
  ∃ j i k it, s.names w = some j ∧ s.heap j = some (.weightsOf i k) ∧ s.heap i = some (.interp it) ∧ it.weights = some v ∧ it.fits = k

theorem pinned_sweep {s : State P W} {w : String} {v : W} (h : Pinned s w v) : Pinned (sweep s) w v := by
  obtain ⟨j, i, k, it, h1, h2, h3, h4, h5⟩ := h
  exact ⟨j, i, k, it, h1, (sweep_kept (s := s) (Or.inl ⟨w, h1⟩)).trans h2, (sweep_kept (s := s) (Or.inr ⟨j, _, h2, rfl⟩)).trans h3, h4, h5⟩

theorem pinned_collect {s : State P W} {w : String} {v : W} (h : Pinned s w v) : Pinned (collect s) w v := pinned_sweep (pinned_sweep h)

theorem pinned_bind {s : State P W} (hs : Inv s) {w z : String} {v : W} (hz : z ≠ w) (o : Obj P W) (h : Pinned s w v) : Pinned (bind s z o) w v := by
  obtain ⟨j, i, k, it, h1, h2, h3, h4, h5⟩ := h
  exact ⟨j, i, k, it, (Function.update_of_ne hz.symm _ _).trans h1, (Function.update_of_ne (Nat.ne_of_lt (lt_next hs h2)) _ _).trans h2,
    (Function.update_of_ne (Nat.ne_of_lt (lt_next hs h3)) _ _).trans h3, h4, h5⟩

theorem pinned_names {s : State P W} {w z : String} {v : W} (hz : z ≠ w) (u : Option Nat) (h : Pinned s w v) : Pinned { s with names := Function.update s.names z u } w v := by
  obtain ⟨j, i, k, it, h1, h2, h3, h4, h5⟩ := h
  exact ⟨j, i, k, it, (Function.update_of_ne hz.symm u s.names).trans h1, h2, h3, h4, h5⟩

theorem pinned_putModel {s : State P W} {w : String} {v : W} {n : Nat} {m : P} (hn : s.heap n = some (.model m)) (q : P) (h : Pinned s w v) : Pinned (put s n (.model q)) w v := by
  obtain ⟨j, i, k, it, h1, h2, h3, h4, h5⟩ := h
  refine ⟨j, i, k, it, h1, (Function.update_of_ne ?_ _ _).trans h2, (Function.update_of_ne ?_ _ _).trans h3, h4, h5⟩
  · rintro rfl; rw [h2] at hn; cases hn
  · rintro rfl; rw [h3] at hn; cases hn

theorem pinned_putInterp {s : State P W} {w : String} {v : W} {n : Nat} {it' : Interp P W} (hn : s.heap n = some (.interp it')) (q : P) (h : Pinned s w v) :
    Pinned (put s n (.interp { it' with model := q })) w v := by
  obtain ⟨j, i, k, it, h1, h2, h3, h4, h5⟩ := h
  have hj : j ≠ n := by rintro rfl; rw [h2] at hn; cases hn
  by_cases hi : i = n
  · rw [hi, hn] at h3
    cases h3
    refine ⟨j, i, k, { it' with model := q }, h1, (Function.update_of_ne hj _ _).trans h2, ?_, h4, h5⟩
    rw [hi]
    exact Function.update_self (f := s.heap) ..
  · exact ⟨j, i, k, it, h1, (Function.update_of_ne hj _ _).trans h2, (Function.update_of_ne hi _ _).trans h3, h4, h5⟩

theorem pinned_effect (L : Lib P D W V) {s s' : State P W} (h : Inv s) {w : String} {v : W} {op : Op P D} (ht : target op ≠ some w) (hf : ∀ x d, op ≠ .fit x d) (hl : Pinned s w v)
    (he : effect L s op = .ok s') : Pinned s' w v := by
  cases op with
  | newModel z p =>
      cases he
      exact pinned_bind h (fun e => ht (by rw [← e]; rfl)) _ hl
  | newInterp z y =>
      simp only [effect] at he
      rcases modelArg_ok h y with ⟨m, hm⟩ | ⟨e, hm⟩
      · rw [hm] at he
        cases he
        exact pinned_bind h (fun e => ht (by rw [← e]; rfl)) _ hl
      · rw [hm] at he; cases he
  | fieldFn z y =>
      simp only [effect] at he
      rcases interpArg_ok h y with ⟨i, it, h1, h2, h3⟩ | ⟨e, hm⟩
      · rw [h3] at he
        cases he
        exact pinned_bind h (fun e => ht (by rw [← e]; rfl)) _ hl
      · rw [hm] at he; cases he
  | model z y =>
      simp only [effect] at he
      rcases interpArg_ok h y with ⟨i, it, h1, h2, h3⟩ | ⟨e, hm⟩
      · rw [h3] at he
        cases he
        exact pinned_bind h (fun e => ht (by rw [← e]; rfl)) _ hl
      · rw [hm] at he; cases he
  | weights z y =>
      simp only [effect] at he
      rcases interpArg_ok h y with ⟨i, it, h1, h2, h3⟩ | ⟨e, hm⟩
      · rw [h3, Outcome.ok_bind] at he
        dsimp only at he
        split at he
        · cases he
          exact pinned_bind h (fun e => ht (by rw [← e]; rfl)) _ hl
        · cases he
      · rw [hm] at he; cases he
  | setParameters y p =>
      simp only [effect, setParams] at he
      rcases obj_ok h y with ⟨i, o, h1, h2, h3⟩ | h1
      · rw [h3, Outcome.ok_bind] at he
        cases o with
        | interp it => cases he
        | weightsOf i k => cases he
        | model m => cases he; exact pinned_putModel h2 _ hl
        | modelOf j =>
            obtain ⟨it, hit⟩ := h.views i j _ h2 rfl
            simp only [deref, hit] at he
            cases he
            exact pinned_putInterp hit _ hl
        | fieldFn i => cases he
      · rw [h1] at he; cases he
  | fit y d => exact absurd rfl (hf y d)
  | assign z y =>
      simp only [effect] at he
      rcases obj_ok h y with ⟨i, o, h1, h2, h3⟩ | h1
      · rw [h3] at he
        cases he
        exact pinned_names (fun e => ht (by rw [← e]; rfl)) _ hl
      · rw [h1] at he; cases he
  | del z =>
      simp only [effect] at he
      rcases obj_ok h z with ⟨i, o, h1, h2, h3⟩ | h1
      · rw [h3] at he
        cases he
        exact pinned_names (fun e => ht (by rw [← e]; rfl)) _ hl
      · rw [h1] at he; cases he

theorem pinned_run (L : Lib P D W V) {w : String} {v : W} : ∀ (ops : List (Op P D)) {s s' : State P W}, Inv s → (∀ op ∈ ops, target op ≠ some w ∧ ∀ x d, op ≠ .fit x d) → Pinned s w v →
    run L s ops = .ok s' → Pinned s' w v
  | [], s, s', _, _, hl, he => by cases he; exact hl
  | op :: ops, s, s', h, ht, hl, he => by
      simp only [run, step] at he
      rcases effect_ok L h op with ⟨s1, h1, h2⟩ | ⟨e, h1⟩
      · rw [h1] at he
        exact pinned_run L ops (inv_collect h2) (fun o ho => ht o (List.mem_cons_of_mem _ ho))
          (pinned_collect (pinned_effect L h (ht op List.mem_cons_self).1 (ht op List.mem_cons_self).2 hl h1)) he
      · rw [h1] at he; cases he

theorem pinned_read {s : State P W} {w : String} {v : W} (h : Pinned s w v) : readArray s w = .ok v := by
  obtain ⟨j, i, k, it, h1, h2, h3, h4, h5⟩ := h
  simp only [readArray, obj_at ⟨h1, h2⟩, Outcome.ok_bind, deref, h3, h4]
  exact if_pos h5

/-- **C93**, arrays: the array `w = x.weights` has the weights of `x`, and keeps them while nothing is fitted: `x` can be renamed, deleted or used for something else. -/
theorem C93_array (L : Lib P D W V) (before after : List (Op P D)) {w x : String} (ht : ∀ op ∈ after, target op ≠ some w ∧ ∀ y d, op ≠ .fit y d) {s0 s : State P W}
    (h0 : run L State.empty (before ++ [.weights w x]) = .ok s0) (h : run L s0 after = .ok s) : ∃ v, readArray s0 w = .ok v ∧ readArray s w = .ok v := by
  rw [run_append] at h0
  rcases run_ok L before (inv_empty (P := P) (W := W)) with ⟨s1, h1, i1⟩ | ⟨e, he⟩
  · rw [h1] at h0
    have h' : (step L s1 (.weights w x) >>= fun s => run L s []) = .ok s0 := h0
    simp only [step, effect] at h'
    rcases interpArg_ok i1 x with ⟨i, it, a1, a2, a3⟩ | ⟨e, he⟩
    · rw [a3, Outcome.ok_bind] at h'
      dsimp only at h'
      split at h'
      · rename_i hw
        obtain ⟨v, hv⟩ := Option.isSome_iff_exists.1 hw
        have i2 : Inv (bind s1 w (.weightsOf i it.fits)) := inv_bind i1 w _ fun k hk => by cases hk; exact ⟨it, a2⟩
        have hp : Pinned (bind s1 w (.weightsOf i it.fits)) w v :=
          ⟨s1.next, i, it.fits, it, Function.update_self .., Function.update_self .., (Function.update_of_ne (Nat.ne_of_lt (lt_next i1 a2)) _ _).trans a2, hv, rfl⟩
        cases h'
        exact ⟨v, pinned_read (pinned_collect hp), pinned_read (pinned_run L after (inv_collect i2) ht (pinned_collect hp) h)⟩
      · cases h'
    · rw [he] at h'; cases h'
  · rw [he] at h0; cases h0

theorem step_weights (L : Lib P D W V) {s : State P W} {w x : String} {i : Nat} {it : Interp P W} (h : At s x i (.interp it)) (hw : it.weights.isSome) :
    step L s (.weights w x) = .ok (collect (bind s w (.weightsOf i it.fits))) := by
  simp only [step, effect, interpArg_at h, Outcome.ok_bind]
  rw [if_pos hw]
  rfl

/-- **C93**, found: the array `w = x.weights` has the weights of the fit, but uses the memory of `x`, which the next fit of `x` frees: reading `w` after that is undefined, whatever was run before. -/
theorem C93_array_dangles (L : Lib P D W V) (before : List (Op P D)) {m x w : String} (hwx : w ≠ x) (p : P) (d e : D) {s : State P W} (h : run L State.empty before = .ok s) :
    ∃ s1 s2, run L State.empty (before ++ [.newModel m p, .newInterp x m, .fit x d, .weights w x]) = .ok s1 ∧ readArray s1 w = .ok (L.solve p d) ∧
      run L s1 [.fit x e] = .ok s2 ∧ evaluate L s2 x = .ok (L.value p (L.solve p e)) ∧ readArray s2 w = .ub := by
  have i0 : Inv s := by
    rcases run_ok L before (inv_empty (P := P) (W := W)) with ⟨s1, h1, i1⟩ | ⟨e, he⟩
    · rw [h1] at h; cases h; exact i1
    · rw [he] at h; cases h
  rw [run_append, h, Outcome.ok_bind]
  have i1 : Inv (collect (bind s m (.model p))) := inv_collect (inv_bind i0 m _ fun i hi => by cases hi)
  have a1 : At (collect (bind s m (.model p))) m s.next (.model p) := at_collect (at_new s m _)
  rw [run_cons L (s' := collect (bind s m (.model p))) rfl]
  generalize collect (bind s m (.model p)) = s1 at i1 a1
  rw [run_cons L (step_newInterp L a1)]
  have b2 := at_collect (at_new s1 x (.interp ⟨p, none, 0⟩))
  have i2 : Inv (collect (bind s1 x (.interp ⟨p, none, 0⟩))) := inv_collect (inv_bind i1 x _ fun i hi => by cases hi)
  generalize collect (bind s1 x (.interp ⟨p, none, 0⟩)) = s2 at b2 i2
  rw [run_cons L (step_fit L b2 d)]
  have b3 := at_collect (at_put_self b2 (.interp ⟨p, some (L.solve p d), 1⟩))
  have i3 : Inv (collect (put s2 s1.next (.interp ⟨p, some (L.solve p d), 1⟩))) := inv_collect (inv_put i2 b2.2 trivial)
  show ∃ s1' s2', run L (collect (put s2 s1.next (.interp ⟨p, some (L.solve p d), 1⟩))) [.weights w x] = .ok s1' ∧ _
  generalize collect (put s2 s1.next (.interp ⟨p, some (L.solve p d), 1⟩)) = s3 at b3 i3
  rw [run_cons L (step_weights L b3 rfl)]
  have c4 := at_collect (at_new s3 w (.weightsOf s1.next 1))
  have b4 := at_collect (at_bind i3 b3 hwx (.weightsOf s1.next 1))
  have hne : s3.next ≠ s1.next := (Nat.ne_of_lt (lt_next i3 b3.2)).symm
  refine ⟨_, _, rfl, ?_, (run_cons L (step_fit L b4 e)).trans rfl, ?_, ?_⟩
  · exact pinned_read ⟨_, _, _, _, c4.1, c4.2, b4.2, rfl, rfl⟩
  · simp only [evaluate, interpArg_at (at_collect (at_put_self b4 _)), Outcome.ok_bind, values]
  · have c5 := at_collect (at_put c4 hne (.interp ⟨p, some (L.solve p e), 2⟩))
    have b5 := at_collect (at_put_self b4 (.interp ⟨p, some (L.solve p e), 2⟩))
    show readArray (collect (put (collect (bind s3 w (.weightsOf s1.next 1))) s1.next (.interp ⟨p, some (L.solve p e), 2⟩))) w = .ub
    simp only [readArray, obj_at c5, Outcome.ok_bind, deref, b5.2]
    rfl

/-- With a name kept for the interpolant, the same statements are fine: the hypotheses of `C93_field_function` can be met, with another fit in between. -/
example (L : Lib P D W V) (p : P) (d e : D) :
    ∃ s, run L State.empty ([.newModel "m" p, .newInterp "x" "m", .fit "x" d] ++ .fieldFn "f" "x" :: [.del "m", .fit "x" e]) = .ok s ∧ generate L s "f" = .ok (L.value p (L.solve p e)) := by
  have hx : ("x" : String) ≠ "m" := by decide
  have hf : ("f" : String) ≠ "x" := by decide
  have i1 : Inv (collect (bind (State.empty : State P W) "m" (.model p))) := inv_collect (inv_bind inv_empty _ _ fun i hi => by cases hi)
  have a1 := at_collect (at_new (State.empty : State P W) "m" (.model p))
  have e1 : step L State.empty (.newModel "m" p) = .ok (collect (bind (State.empty : State P W) "m" (.model p))) := rfl
  generalize collect (bind (State.empty : State P W) "m" (.model p)) = s1 at i1 a1 e1
  have e2 := step_newInterp L (x := "x") a1
  have b2 := at_collect (at_new s1 "x" (.interp ⟨p, none, 0⟩))
  have i2 : Inv (collect (bind s1 "x" (.interp ⟨p, none, 0⟩))) := inv_collect (inv_bind i1 _ _ fun i hi => by cases hi)
  have a2 := at_collect (at_bind i1 a1 hx (.interp ⟨p, none, 0⟩))
  have hne : (State.empty : State P W).next ≠ s1.next := Nat.ne_of_lt (lt_next i1 a1.2)
  generalize collect (bind s1 "x" (.interp ⟨p, none, 0⟩)) = s2 at b2 i2 e2 a2
  have e3 := step_fit L b2 d
  have b3 := at_collect (at_put_self b2 (.interp ⟨p, some (L.solve p d), 1⟩))
  have a3 := at_collect (at_put a2 hne (.interp ⟨p, some (L.solve p d), 1⟩))
  have i3 : Inv (collect (put s2 s1.next (.interp ⟨p, some (L.solve p d), 1⟩))) := inv_collect (inv_put i2 b2.2 trivial)
  generalize collect (put s2 s1.next (.interp ⟨p, some (L.solve p d), 1⟩)) = s3 at b3 i3 e3 a3
  have e4 := step_fieldFn L (f := "f") b3
  have b4 := at_collect (at_bind i3 b3 hf (.fieldFn s1.next))
  have a4 := at_collect (at_bind i3 a3 (by decide : ("f" : String) ≠ "m") (.fieldFn s1.next))
  generalize collect (bind s3 "f" (.fieldFn s1.next)) = s4 at b4 e4 a4
  have e5 := step_del L a4
  have b5 : At (collect { s4 with names := Function.update s4.names "m" none }) "x" s1.next (.interp ⟨p, some (L.solve p d), 1⟩) :=
    at_collect ⟨(Function.update_of_ne hx none s4.names).trans b4.1, b4.2⟩
  generalize collect { s4 with names := Function.update s4.names "m" none } = s5 at b5 e5
  have e6 := step_fit L b5 e
  have hr : run L State.empty ([.newModel "m" p, .newInterp "x" "m", .fit "x" d] ++ .fieldFn "f" "x" :: [.del "m", .fit "x" e]) = .ok (collect (put s5 s1.next (.interp ⟨p, some (L.solve p e), 2⟩))) := by
    rw [List.cons_append, List.cons_append, List.cons_append, List.nil_append, run_cons L e1, run_cons L e2, run_cons L e3, run_cons L e4, run_cons L e5, run_cons L e6]
    rfl
  refine ⟨_, hr, ?_⟩
  rw [(C93_field_function L _ _ hf (by simp [target]) hr).1]
  simp only [evaluate, interpArg_at (at_collect (at_put_self b5 _)), Outcome.ok_bind, values]

end Verif.PythonObjects
