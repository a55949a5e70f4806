import Verif.Lemmas.MakeModel
import Verif.Props.RbfModel

/-!
# C77: the model options of the commands
-/

namespace Verif.MakeModel

open Verif RbfModel

variable {E : Env}

theorem shortName_isName (k : Kind) : IsName k.shortName := by
  rw [← isIdentifier_iff]
  cases k <;> decide +kernel

theorem shortName_ne_aniso (k : Kind) : k.shortName ≠ "aniso" := by cases k <;> decide

/-! ## Numbers after a name -/

theorem readParams_eq (ps rest : List String) (hp : ∀ t ∈ ps, isNumber t = true) (hr : ∀ t, rest.head? = some t → isNumber t = false) :
    readParams E (ps ++ rest) = (ps.map E.toDouble, rest) := by
  induction ps with
  | nil =>
    cases rest with
    | nil => rfl
    | cons t rest =>
      have := hr t rfl
      simp only [List.nil_append, readParams, this, List.map_nil]
      rfl
  | cons t ps ih =>
    simp only [List.cons_append, readParams, hp t List.mem_cons_self, ih fun u hu => hp u (List.mem_cons_of_mem _ hu), List.map_cons, if_true]

theorem readParams_spec (it : List String) : ∃ ps, it = ps ++ (readParams E it).2 ∧ (readParams E it).1 = ps.map E.toDouble ∧ ∀ t ∈ ps, isNumber t = true := by
  induction it with
  | nil => exact ⟨[], rfl, rfl, by simp⟩
  | cons t it ih =>
    by_cases h : isNumber t = true
    · obtain ⟨ps, h1, h2, h3⟩ := ih
      refine ⟨t :: ps, ?_, ?_, ?_⟩
      · simp only [readParams, h, if_true, List.cons_append]
        rw [← h1]
      · simp only [readParams, h, if_true, List.map_cons, h2]
      · intro u hu
        rcases List.mem_cons.1 hu with rfl | hu
        · exact h
        · exact h3 u hu
    · refine ⟨[], ?_, ?_, by simp⟩
      · simp only [readParams, h, List.nil_append]; rfl
      · simp only [readParams, h, List.map_nil]; rfl

/-! ## Anisotropies -/

theorem readAniso_eq (ts rest : List String) (hp : ∀ t ∈ ts, isNumber t = true) : readAniso E ts.length (ts ++ rest) = .ok (ts.map E.toDouble, rest) := by
  induction ts with
  | nil => rfl
  | cons t ts ih =>
    simp only [List.length_cons, List.cons_append, readAniso, hp t List.mem_cons_self, if_true, ih fun u hu => hp u (List.mem_cons_of_mem _ hu), Outcome.ok_bind,
      List.map_cons]

theorem readAniso_spec {n : Nat} {it : List String} {xs : List Dbl} {rest : List String} (h : readAniso E n it = .ok (xs, rest)) :
    ∃ ts, it = ts ++ rest ∧ ts.length = n ∧ xs = ts.map E.toDouble ∧ ∀ t ∈ ts, isNumber t = true := by
  induction n generalizing it xs with
  | zero =>
    obtain ⟨rfl, rfl⟩ := Prod.mk.inj (Outcome.ok.inj h)
    exact ⟨[], rfl, rfl, rfl, by simp⟩
  | succ n ih =>
    cases it with
    | nil => cases h
    | cons t it =>
      simp only [readAniso] at h
      by_cases ht : isNumber t = true
      · rw [if_pos ht] at h
        obtain ⟨⟨ys, rest'⟩, h1, h2⟩ := Outcome.bind_eq_ok.1 h
        obtain ⟨rfl, rfl⟩ := Prod.mk.inj (Outcome.ok.inj h2)
        obtain ⟨ts, e1, e2, e3, e4⟩ := ih h1
        refine ⟨t :: ts, by rw [e1]; rfl, by rw [List.length_cons, e2], by rw [e3]; rfl, fun u hu => ?_⟩
        rcases List.mem_cons.1 hu with rfl | hu
        · exact ht
        · exact e4 u hu
      · rw [if_neg ht] at h; cases h

theorem setAniso_eq (r : Rbf) (a : List Dbl) : setAniso E r a = if E.detPos a = true then .ok { r with aniso := a } else .throws .invalidArgument := by
  unfold setAniso Rbf.setAnisotropy
  by_cases h : E.detPos a = true <;> simp [h]

theorem readAnisos_eq (as : List (List String)) (rest : List String) (hn : ∀ a ∈ as, a.length = E.dim * E.dim ∧ ∀ t ∈ a, isNumber t = true)
    (hd : ∀ a ∈ as, E.detPos (a.map E.toDouble) = true) (hr : rest.head? ≠ some "aniso") (r : Rbf) (fuel : Nat) (hf : as.length < fuel) :
    readAnisos E fuel r ((as.flatMap fun a => "aniso" :: a) ++ rest) = .ok ({ r with aniso := (as.map fun a => a.map E.toDouble).getLastD r.aniso }, rest) := by
  induction as generalizing r fuel with
  | nil =>
    obtain ⟨f, rfl⟩ := Nat.exists_eq_succ_of_ne_zero (Nat.ne_of_gt hf)
    cases rest with
    | nil => rfl
    | cons t rest =>
      have : t ≠ "aniso" := fun e => hr (by rw [e]; rfl)
      simp only [List.flatMap_nil, List.nil_append, readAnisos, if_neg this, List.map_nil, List.getLastD_nil]
  | cons a as ih =>
    obtain ⟨f, rfl⟩ := Nat.exists_eq_succ_of_ne_zero (Nat.ne_of_gt (Nat.lt_of_le_of_lt (Nat.zero_le _) hf))
    obtain ⟨h1, h2⟩ := hn a List.mem_cons_self
    have e := readAniso_eq (E := E) a ((as.flatMap fun a => "aniso" :: a) ++ rest) h2
    rw [h1] at e
    simp only [List.flatMap_cons, List.cons_append, List.append_assoc, readAnisos, if_true, e, Outcome.ok_bind, setAniso_eq, hd a List.mem_cons_self]
    rw [ih (fun b hb => hn b (List.mem_cons_of_mem _ hb)) (fun b hb => hd b (List.mem_cons_of_mem _ hb)) _ f (by simpa using hf), List.map_cons, List.getLastD_cons]

theorem readAnisos_spec {fuel : Nat} {r r' : Rbf} {it rest : List String} (h : readAnisos E fuel r it = .ok (r', rest)) :
    ∃ as : List (List String), it = (as.flatMap fun a => "aniso" :: a) ++ rest ∧ (∀ a ∈ as, a.length = E.dim * E.dim ∧ ∀ t ∈ a, isNumber t = true) ∧
      (∀ a ∈ as, E.detPos (a.map E.toDouble) = true) ∧ r' = { r with aniso := (as.map fun a => a.map E.toDouble).getLastD r.aniso } := by
  induction fuel generalizing r it with
  | zero => cases h
  | succ fuel ih =>
    cases it with
    | nil =>
      obtain ⟨rfl, rfl⟩ := Prod.mk.inj (Outcome.ok.inj h)
      exact ⟨[], rfl, by simp, by simp, rfl⟩
    | cons t it =>
      simp only [readAnisos] at h
      by_cases ht : t = "aniso"
      · rw [if_pos ht] at h
        obtain ⟨⟨a, rest1⟩, h1, h2⟩ := Outcome.bind_eq_ok.1 h
        obtain ⟨r1, h3, h4⟩ := Outcome.bind_eq_ok.1 h2
        obtain ⟨ts, e1, e2, e3, e4⟩ := readAniso_spec h1
        dsimp only at h3 h4
        rw [setAniso_eq] at h3
        by_cases hd : E.detPos a = true
        · rw [if_pos hd] at h3
          obtain rfl := Outcome.ok.inj h3
          obtain ⟨as, a1, a2, a3, a4⟩ := ih h4
          refine ⟨ts :: as, ?_, ?_, ?_, ?_⟩
          · rw [ht, e1, a1]; simp
          · intro b hb
            rcases List.mem_cons.1 hb with rfl | hb
            · exact ⟨e2, e4⟩
            · exact a2 b hb
          · intro b hb
            rcases List.mem_cons.1 hb with rfl | hb
            · rw [← e3]; exact hd
            · exact a3 b hb
          · rw [a4, List.map_cons, List.getLastD_cons, e3]
        · rw [if_neg hd] at h3; cases h3
      · rw [if_neg ht] at h
        obtain ⟨rfl, rfl⟩ := Prod.mk.inj (Outcome.ok.inj h)
        exact ⟨[], rfl, by simp, by simp, rfl⟩

/-! ## Functions -/

/-- parameters as given and as they are set -/
def Params (k : Kind) (ps rp : List Dbl) : Prop :=
  rp = ps ∧ ps.length = 2 ∨ k.isCov = false ∧ (ps = [] ∧ rp = [one, zero] ∨ ∃ x, ps = [x] ∧ rp = [x, zero])

theorem newRbf_iff (id : List Dbl) (k : Kind) (ps : List Dbl) (r : Rbf) : newRbf id k ps = .ok r ↔ r.kind = k ∧ r.aniso = id ∧ Params k ps r.params := by
  obtain ⟨rk, rp, ra⟩ := r
  unfold newRbf Rbf.setParameters Params Kind.numParameters
  dsimp only
  cases hc : k.isCov with
  | true =>
    simp only [if_true, Bool.true_eq_false, false_and, or_false]
    by_cases hl : ps.length = 2
    · simp only [hl, if_true, and_true, Outcome.ok.injEq, Rbf.mk.injEq]
      constructor
      · rintro ⟨rfl, rfl, rfl⟩; exact ⟨rfl, rfl, rfl⟩
      · rintro ⟨rfl, rfl, rfl⟩; exact ⟨rfl, rfl, rfl⟩
    · simp [hl]
  | false =>
    match ps with
    | [] => simp; constructor <;> rintro ⟨rfl, rfl, rfl⟩ <;> exact ⟨rfl, rfl, rfl⟩
    | [a] => simp; constructor <;> rintro ⟨rfl, rfl, rfl⟩ <;> exact ⟨rfl, rfl, rfl⟩
    | [a, b] => simp; constructor <;> rintro ⟨rfl, rfl, rfl⟩ <;> exact ⟨rfl, rfl, rfl⟩
    | a :: b :: c :: l => simp

theorem kind_of_name (k : Kind) : kinds.find? (fun k' => k.shortName == k'.shortName) = some k := by cases k <;> decide

theorem makeRbf_iff (id : List Dbl) (name : String) (ps : List Dbl) (r : Rbf) : makeRbf id name ps = .ok r ↔ name = r.kind.shortName ∧ r.aniso = id ∧ Params r.kind ps r.params := by
  unfold makeRbf
  constructor
  · intro h
    cases e : kinds.find? (fun k => name == k.shortName) with
    | none => rw [e] at h; cases h
    | some k =>
      rw [e] at h
      have hn : (name == k.shortName) = true := List.find?_some (p := fun k : Kind => name == k.shortName) e
      obtain ⟨h1, h2, h3⟩ := (newRbf_iff _ _ _ _).1 h
      subst h1
      exact ⟨by simpa using hn, h2, h3⟩
  · rintro ⟨rfl, h2, h3⟩
    rw [kind_of_name]
    exact (newRbf_iff _ _ _ _).2 ⟨rfl, h2, h3⟩

theorem params_iff (g : Group) (r : Rbf) : Params r.kind (g.params.map E.toDouble) r.params ↔ (r.params = g.params.map E.toDouble ∧ g.params.length = 2 ∨
    r.kind.isCov = false ∧ (g.params = [] ∧ r.params = [one, zero] ∨ ∃ t, g.params = [t] ∧ r.params = [E.toDouble t, zero])) := by
  unfold Params
  rw [List.length_map, List.map_eq_nil_iff]
  refine or_congr Iff.rfl (and_congr Iff.rfl (or_congr Iff.rfl ⟨?_, ?_⟩))
  · rintro ⟨x, h1, h2⟩
    obtain ⟨t, e1, rfl⟩ := List.map_eq_singleton_iff.1 h1
    exact ⟨t, e1, h2⟩
  · rintro ⟨t, h1, h2⟩
    exact ⟨E.toDouble t, by rw [h1]; rfl, h2⟩

theorem wellFormed_iff {d : Nat} (g : Group) : g.WellFormed d ↔ (∀ t ∈ g.params, isNumber t = true) ∧ ∀ a ∈ g.anisos, a.length = d * d ∧ ∀ t ∈ a, isNumber t = true := by
  simp only [isNumber_iff]
  exact ⟨fun h => ⟨h.1, h.2⟩, fun h => ⟨h.1, h.2⟩⟩

/-- what follows a function starts with no number and no anisotropy -/
theorem head_next {gs : List Group} {rs : List Rbf} (h : List.Forall₂ (Group.Means E) gs rs) :
    (∀ t, (gs.flatMap Group.tokens).head? = some t → isNumber t = false) ∧ (gs.flatMap Group.tokens).head? ≠ some "aniso" := by
  cases h with
  | nil => simp
  | cons h1 h2 =>
    rename_i g r gs rs
    have e : ((g :: gs).flatMap Group.tokens).head? = some r.kind.shortName := by simp [Group.tokens, h1.name]
    rw [e]
    refine ⟨fun t ht => ?_, fun h => shortName_ne_aniso _ (Option.some.inj h)⟩
    obtain rfl := Option.some.inj ht
    rw [← Bool.not_eq_true, isNumber_iff]
    exact name_not_numeral (shortName_isName _)

theorem flatMap_length (as : List (List String)) : as.length ≤ (as.flatMap fun a => "aniso" :: a).length := by
  induction as with
  | nil => simp
  | cons a as ih => simp only [List.flatMap_cons, List.length_append, List.length_cons]; omega

theorem readRbfs_eq {gs : List Group} {rs : List Rbf} (h : List.Forall₂ (Group.Means E) gs rs) (hw : ∀ g ∈ gs, g.WellFormed E.dim) (fuel : Nat) (hf : gs.length < fuel) :
    readRbfs E fuel (gs.flatMap Group.tokens) = .ok (rs, []) := by
  induction h generalizing fuel with
  | nil =>
    obtain ⟨f, rfl⟩ := Nat.exists_eq_succ_of_ne_zero (Nat.ne_of_gt hf)
    rfl
  | cons h1 h2 ih =>
    rename_i g r gs rs
    obtain ⟨f, rfl⟩ := Nat.exists_eq_succ_of_ne_zero (Nat.ne_of_gt (Nat.lt_of_le_of_lt (Nat.zero_le _) hf))
    obtain ⟨w1, w2⟩ := (wellFormed_iff g).1 (hw g List.mem_cons_self)
    obtain ⟨n1, n2⟩ := head_next h2
    have hname : isIdentifier g.name = true := by rw [h1.name, isIdentifier_iff]; exact shortName_isName _
    have hrest : ∀ t, ((g.anisos.flatMap fun a => "aniso" :: a) ++ gs.flatMap Group.tokens).head? = some t → isNumber t = false := by
      intro t ht
      cases ha : g.anisos with
      | nil => rw [ha] at ht; exact n1 t ht
      | cons a as =>
        rw [ha] at ht
        obtain rfl := Option.some.inj ht
        decide +kernel
    have e : (g :: gs).flatMap Group.tokens = g.name :: (g.params ++ ((g.anisos.flatMap fun a => "aniso" :: a) ++ gs.flatMap Group.tokens)) := by
      simp [Group.tokens]
    rw [e]
    simp only [readRbfs, hname, if_true, readParams_eq _ _ w1 hrest]
    have e2 : makeRbf E.identity g.name (g.params.map E.toDouble) = .ok { r with aniso := E.identity } :=
      (makeRbf_iff _ _ _ _).2 ⟨h1.name, rfl, (params_iff g r).2 h1.params⟩
    rw [e2, Outcome.ok_bind, readAnisos_eq _ _ w2 h1.positive n2 _ _ (by rw [List.length_append]; have := flatMap_length g.anisos; omega)]
    simp only [Outcome.ok_bind]
    rw [ih (fun g hg => hw g (List.mem_cons_of_mem _ hg)) f (by simpa using hf)]
    simp only [Outcome.ok_bind, ← h1.aniso]

theorem readRbfs_spec {fuel : Nat} {it rest : List String} {rs : List Rbf} (h : readRbfs E fuel it = .ok (rs, rest)) :
    ∃ gs : List Group, it = gs.flatMap Group.tokens ++ rest ∧ List.Forall₂ (Group.Means E) gs rs ∧ ∀ g ∈ gs, g.WellFormed E.dim := by
  induction fuel generalizing it rs with
  | zero => cases h
  | succ fuel ih =>
    cases it with
    | nil =>
      obtain ⟨rfl, rfl⟩ := Prod.mk.inj (Outcome.ok.inj h)
      exact ⟨[], rfl, .nil, by simp⟩
    | cons t it =>
      simp only [readRbfs] at h
      by_cases ht : isIdentifier t = true
      · rw [if_pos ht] at h
        obtain ⟨r, h1, h⟩ := Outcome.bind_eq_ok.1 h
        obtain ⟨⟨r', rest1⟩, h2, h⟩ := Outcome.bind_eq_ok.1 h
        obtain ⟨⟨rs', rest2⟩, h3, h⟩ := Outcome.bind_eq_ok.1 h
        obtain ⟨rfl, rfl⟩ := Prod.mk.inj (Outcome.ok.inj h)
        obtain ⟨ps, p1, p2, p3⟩ := readParams_spec (E := E) it
        obtain ⟨as, a1, a2, a3, a4⟩ := readAnisos_spec h2
        obtain ⟨gs, g1, g2, g3⟩ := ih h3
        rw [p2] at h1
        obtain ⟨m1, m2, m3⟩ := (makeRbf_iff _ _ _ _).1 h1
        refine ⟨⟨t, ps, as⟩ :: gs, ?_, .cons ⟨?_, ?_, ?_, a3⟩ g2, ?_⟩
        · rw [List.flatMap_cons, List.append_assoc, ← g1]
          simp only [Group.tokens, List.cons_append, List.append_assoc]
          rw [← a1, ← p1]
        · rw [a4]; exact m1
        · rw [a4]; exact (params_iff ⟨t, ps, as⟩ r).1 m3
        · rw [a4]; dsimp only; rw [m2]
        · intro g hg
          rcases List.mem_cons.1 hg with rfl | hg
          · exact (wellFormed_iff _).2 ⟨p3, a2⟩
          · exact g3 g hg
      · rw [if_neg ht] at h
        obtain ⟨rfl, rfl⟩ := Prod.mk.inj (Outcome.ok.inj h)
        exact ⟨[], rfl, .nil, by simp⟩

theorem tokens_length (gs : List Group) : gs.length ≤ (gs.flatMap Group.tokens).length := by
  induction gs with
  | nil => simp
  | cons g gs ih => simp only [List.flatMap_cons, List.length_append, List.length_cons, Group.tokens, List.cons_append]; omega

theorem withNugget_iff (m m' : Mdl) (n : Dbl) : withNugget m n = .ok m' ↔ Dbl.NonNegative n ∧ m' = { m with nugget := n } := by
  rw [← Dbl.ge0_iff]
  unfold withNugget Mdl.setNugget
  by_cases h : ge0 n = true
  · simp only [h, if_true, Outcome.ok.injEq, true_and]
    exact eq_comm
  · simp [h]

/-- **C77**: the tokens that are accepted as numbers and as names. -/
theorem C77_tokens (t : String) : (isNumber t = true ↔ IsNumeral t) ∧ (isIdentifier t = true ↔ IsName t) ∧ ¬ (IsName t ∧ IsNumeral t) :=
  ⟨isNumber_iff t, isIdentifier_iff t, fun h => name_not_numeral h.1 h.2⟩

/-- **C77**: a model is made exactly if the options stand for one, and it is this one. -/
theorem C77_meaning (E : Env) (opts : Options) (m : Mdl) : makeModel E opts = .ok m ↔ Meaning E opts m := by
  unfold makeModel Meaning
  constructor
  · intro h
    obtain ⟨⟨rs, it⟩, h1, h⟩ := Outcome.bind_eq_ok.1 h
    dsimp only at h
    by_cases hit : it = []
    · subst hit
      simp only [ne_eq, not_true_eq_false, if_false] at h
      obtain ⟨m0, h2, h3⟩ := Outcome.bind_eq_ok.1 h
      obtain ⟨gs, g1, g2, g3⟩ := readRbfs_spec h1
      obtain ⟨c1, -, c3⟩ := C12_constructor rs opts.polyDegree
      obtain ⟨d1, d2, d3, d4, d5, d6⟩ := c3 m0 h2
      obtain ⟨n1, rfl⟩ := (withNugget_iff _ _ _).1 h3
      obtain ⟨e1, e2⟩ := c1.2 ⟨m0, h2⟩
      refine ⟨gs, by rw [g1, List.append_nil], ?_, g3, by rw [d1]; exact g2, ?_, rfl, n1⟩
      · rintro rfl
        cases g2
        exact e1 rfl
      · by_cases hd : opts.polyDegree = -2
        · left; exact ⟨hd, by rw [d1]; exact d5 hd⟩
        · right; exact ⟨(d6 hd).symm, d3, d4⟩
    · simp only [ne_eq, hit, not_false_eq_true, if_true] at h
      cases h
  · rintro ⟨gs, g1, g2, g3, g4, hd, hn, hn'⟩
    rw [g1, readRbfs_eq g4 g3 _ (by have := tokens_length gs; omega)]
    simp only [Outcome.ok_bind, ne_eq, not_true_eq_false, if_false]
    have hne : m.rbfs ≠ [] := by
      intro e
      rw [e] at g4
      cases g4
      exact g2 rfl
    obtain ⟨c1, -, c3⟩ := C12_constructor m.rbfs opts.polyDegree
    obtain ⟨m0, h0⟩ := c1.1 ⟨hne, by
      rcases hd with ⟨h1, -⟩ | ⟨h1, h2, h3⟩
      · exact .inl h1
      · exact .inr ⟨by omega, by omega⟩⟩
    obtain ⟨d1, d2, d3, d4, d5, d6⟩ := c3 m0 h0
    rw [h0, Outcome.ok_bind]
    refine (withNugget_iff _ _ _).2 ⟨hn', ?_⟩
    obtain ⟨a, b, c⟩ := m
    obtain ⟨a0, b0, c0⟩ := m0
    dsimp only at *
    subst d1 hn
    congr 1
    rcases hd with ⟨h1, h2⟩ | ⟨h1, h2, h3⟩
    · rw [h2, d5 h1]
    · by_cases h : opts.polyDegree = -2
      · exfalso
        have := (C12_cpd_order a0 hne).2.2.1
        omega
      · rw [d6 h, h1]

/-- **C77**: options stand for at most one model. -/
theorem C77_unambiguous (E : Env) (opts : Options) (m m' : Mdl) (h : Meaning E opts m) (h' : Meaning E opts m') : m = m' :=
  Outcome.ok.inj (((C77_meaning E opts m).2 h).symm.trans ((C77_meaning E opts m').2 h'))

/-! ## Rejection -/

/-- the exceptions of this code -/
def Fine {α : Type} (x : Outcome α) : Prop := (∃ a, x = .ok a) ∨ x = .throws .runtimeError ∨ x = .throws .invalidArgument

theorem Fine.bind {α β : Type} {x : Outcome α} {f : α → Outcome β} (h : Fine x) (hf : ∀ a, x = .ok a → Fine (f a)) : Fine (x >>= f) := by
  rcases h with ⟨a, rfl⟩ | rfl | rfl
  · exact hf a rfl
  · exact .inr (.inl rfl)
  · exact .inr (.inr rfl)

theorem readAniso_fine (n : Nat) (it : List String) : Fine (readAniso E n it) := by
  induction n generalizing it with
  | zero => exact .inl ⟨_, rfl⟩
  | succ n ih =>
    cases it with
    | nil => exact .inr (.inl rfl)
    | cons t it =>
      simp only [readAniso]
      by_cases ht : isNumber t = true
      · rw [if_pos ht]; exact (ih it).bind fun a _ => .inl ⟨_, rfl⟩
      · rw [if_neg ht]; exact .inr (.inl rfl)

theorem readAnisos_fine (fuel : Nat) (r : Rbf) (it : List String) (hf : it.length < fuel) : Fine (readAnisos E fuel r it) := by
  induction fuel generalizing r it with
  | zero => omega
  | succ fuel ih =>
    cases it with
    | nil => exact .inl ⟨_, rfl⟩
    | cons t it =>
      simp only [readAnisos]
      by_cases ht : t = "aniso"
      · rw [if_pos ht]
        refine (readAniso_fine _ _).bind fun a ha => ?_
        rcases a with ⟨a, rest⟩
        dsimp only
        obtain ⟨ts, e1, -, -, -⟩ := readAniso_spec ha
        refine Fine.bind ?_ fun r' _ => ih _ _ ?_
        · rw [setAniso_eq]
          split
          · exact .inl ⟨_, rfl⟩
          · exact .inr (.inr rfl)
        · rw [e1] at hf
          simp only [List.length_cons, List.length_append] at hf
          omega
      · rw [if_neg ht]; exact .inl ⟨_, rfl⟩

theorem makeRbf_fine (id : List Dbl) (name : String) (ps : List Dbl) : Fine (makeRbf id name ps) := by
  unfold makeRbf
  split
  · rename_i k _
    unfold newRbf Rbf.setParameters
    dsimp only
    generalize (if k.isCov = true then ps else _ : List Dbl) = p'
    by_cases h : p'.length = k.numParameters
    · rw [if_pos h]; exact .inl ⟨_, rfl⟩
    · rw [if_neg h]; exact .inr (.inr rfl)
  · exact .inr (.inl rfl)

theorem readRbfs_fine (fuel : Nat) (it : List String) (hf : it.length < fuel) : Fine (readRbfs E fuel it) := by
  induction fuel generalizing it with
  | zero => omega
  | succ fuel ih =>
    cases it with
    | nil => exact .inl ⟨_, rfl⟩
    | cons t it =>
      simp only [readRbfs]
      by_cases ht : isIdentifier t = true
      · rw [if_pos ht]
        refine (makeRbf_fine _ _ _).bind fun r _ => (readAnisos_fine _ _ _ (Nat.lt_succ_self _)).bind fun a ha => ?_
        rcases a with ⟨r', rest⟩
        dsimp only
        obtain ⟨ps, p1, -, -⟩ := readParams_spec (E := E) it
        obtain ⟨as, a1, -, -, -⟩ := readAnisos_spec ha
        refine (ih _ ?_).bind fun b _ => .inl ⟨_, rfl⟩
        have l1 := congrArg List.length p1
        have l2 := congrArg List.length a1
        simp only [List.length_append, List.length_cons] at l1 l2 hf
        omega
      · rw [if_neg ht]; exact .inl ⟨_, rfl⟩

/-- **C77**: options that stand for no model are refused with an exception. -/
theorem C77_refused (E : Env) (opts : Options) (h : ¬ ∃ m, Meaning E opts m) : makeModel E opts = .throws .runtimeError ∨ makeModel E opts = .throws .invalidArgument := by
  have : Fine (makeModel E opts) := by
    unfold makeModel
    refine (readRbfs_fine _ _ (Nat.lt_succ_self _)).bind fun a _ => ?_
    rcases a with ⟨rs, it⟩
    dsimp only
    split
    · exact .inr (.inl rfl)
    · refine Fine.bind ?_ fun m _ => ?_
      · obtain ⟨-, c2, -⟩ := C12_constructor rs opts.polyDegree
        by_cases hm : ∃ m, newModel rs opts.polyDegree = .ok m
        · exact .inl hm
        · exact .inr (.inr (c2 hm))
      · unfold withNugget Mdl.setNugget
        by_cases hg : ge0 opts.nugget = true
        · simp only [hg, if_true]; exact .inl ⟨_, rfl⟩
        · simp only [hg]; exact .inr (.inr rfl)
  rcases this with ⟨m, hm⟩ | h | h
  · exact absurd ⟨m, (C77_meaning E opts m).1 hm⟩ h
  · exact .inl h
  · exact .inr h

/-! ## Every model can be written -/

/-- the options of a model, with numbers printed by `w` -/
def write (w : Dbl → String) (m : Mdl) : Options :=
  ⟨m.rbfs.flatMap fun r => r.kind.shortName :: r.params.map w ++ "aniso" :: r.aniso.map w, m.nugget, m.polyDegree⟩

/-- **C77**: every model of the library can be made from options, if its numbers can be printed. -/
theorem C77_expressible (E : Env) (w : Dbl → String) (m : Mdl) (hne : m.rbfs ≠ []) (hr : ∀ r ∈ m.rbfs, RbfOk E.detPos r ∧ r.aniso.length = E.dim * E.dim ∧
      ∀ x ∈ r.params ++ r.aniso, IsNumeral (w x) ∧ E.toDouble (w x) = x) (hd : cpdOrder m.rbfs - 1 ≤ m.polyDegree ∧ m.polyDegree ≤ 2) (hn : Dbl.NonNegative m.nugget) :
    makeModel E (write w m) = .ok m := by
  rw [C77_meaning]
  refine ⟨m.rbfs.map fun r => ⟨r.kind.shortName, r.params.map w, [r.aniso.map w]⟩, ?_, by simpa using hne, ?_, ?_, .inr ⟨rfl, hd⟩, rfl, hn⟩
  · unfold write
    rw [List.flatMap_map]
    simp [Group.tokens]
  · intro g hg
    obtain ⟨r, h1, rfl⟩ := List.mem_map.1 hg
    obtain ⟨-, h3, h4⟩ := hr r h1
    refine ⟨fun t ht => ?_, fun a ha => ?_⟩
    · obtain ⟨x, hx, rfl⟩ := List.mem_map.1 ht
      exact (h4 x (List.mem_append_left _ hx)).1
    · rw [List.mem_singleton] at ha
      subst ha
      refine ⟨by rw [List.length_map, h3], fun t ht => ?_⟩
      obtain ⟨x, hx, rfl⟩ := List.mem_map.1 ht
      exact (h4 x (List.mem_append_right _ hx)).1
  · rw [List.forall₂_map_left_iff, List.forall₂_same]
    intro r h1
    obtain ⟨⟨h2, h3⟩, h4, h5⟩ := hr r h1
    have e1 : (r.params.map w).map E.toDouble = r.params := by
      rw [List.map_map]
      conv_rhs => rw [← List.map_id r.params]
      exact List.map_congr_left fun x hx => (h5 x (List.mem_append_left _ hx)).2
    have e2 : (r.aniso.map w).map E.toDouble = r.aniso := by
      rw [List.map_map]
      conv_rhs => rw [← List.map_id r.aniso]
      exact List.map_congr_left fun x hx => (h5 x (List.mem_append_right _ hx)).2
    refine ⟨rfl, .inl ⟨e1.symm, by simpa using h2⟩, ?_, fun a ha => ?_⟩
    · simp only [List.map_cons, List.map_nil, e2]; rfl
    · rw [List.mem_singleton] at ha
      subst ha
      rw [e2]; exact h3

/-! ## An instance -/

/-- a two-dimensional environment in which a number is read as its length -/
def exEnv : Env := ⟨2, fun t => BitVec.ofNat 64 t.length, fun _ => true, [one, zero, zero, one]⟩

/-- Two functions, the first with the last of two anisotropies, the second with default parameters. -/
example : makeModel exEnv ⟨["exp", "1", "2.5", "aniso", "1", "0", "0", "1", "aniso", "-1e3", ".5", "0", "10", "bh3"], zero, -2⟩ =
    .ok ⟨[⟨.exp, [1#64, 3#64], [4#64, 2#64, 1#64, 2#64]⟩, ⟨.bh3, [one, zero], [one, zero, zero, one]⟩], 0, zero⟩ := by decide +kernel

/-- Options that stand for no model: too few numbers, an unknown name, no number, a stray number. -/
example : makeModel exEnv ⟨["exp", "1", "2", "aniso", "1", "0", "0", "sph"], zero, -2⟩ = .throws .runtimeError ∧
    makeModel exEnv ⟨["foo"], zero, -2⟩ = .throws .runtimeError ∧ makeModel exEnv ⟨["exp", "1"], zero, -2⟩ = .throws .invalidArgument ∧
    makeModel exEnv ⟨["exp", "1", "+2"], zero, -2⟩ = .throws .invalidArgument ∧ makeModel exEnv ⟨["5"], zero, -2⟩ = .throws .runtimeError ∧
    makeModel exEnv ⟨[], zero, -2⟩ = .throws .invalidArgument := by decide +kernel

/-- A model that can be written: its numbers are the lengths of numerals. -/
example : makeModel exEnv (write (fun x => String.ofList (List.replicate x.toNat '7')) ⟨[⟨.exp, [1#64, 3#64], [4#64, 2#64, 1#64, 2#64]⟩], 1, zero⟩) =
    .ok ⟨[⟨.exp, [1#64, 3#64], [4#64, 2#64, 1#64, 2#64]⟩], 1, zero⟩ := by decide +kernel

end Verif.MakeModel
