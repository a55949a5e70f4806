import Verif.Spec.MakeModel
import Mathlib.Tactic.Linarith

/-!
# The regular expressions
-/

namespace Verif.MakeModel

open Verif RbfModel
open RegularExpression (char)

theorem cls_match {s : String} {x : List Char} : x ∈ (cls s).matches' ↔ ∃ c ∈ s.toList, x = [c] := by
  unfold cls
  generalize s.toList = l
  induction l with
  | nil => simp [RegularExpression.matches'_zero, Language.notMem_zero]
  | cons a l ih =>
    rw [List.foldr_cons, RegularExpression.matches'_add, Language.mem_add, ih, RegularExpression.matches'_char]
    simp only [List.mem_cons, exists_eq_or_imp]
    rfl

theorem star_match {s : String} {x : List Char} : x ∈ (cls s).star.matches' ↔ ∀ c ∈ x, c ∈ s.toList := by
  rw [RegularExpression.matches'_star, Language.mem_kstar]
  constructor
  · rintro ⟨L, rfl, h⟩ c hc
    obtain ⟨y, hy, hcy⟩ := List.mem_flatten.1 hc
    obtain ⟨d, hd, rfl⟩ := cls_match.1 (h y hy)
    rw [List.mem_singleton] at hcy
    rw [hcy]; exact hd
  · intro h
    refine ⟨x.map fun c => [c], ?_, ?_⟩
    · induction x with
      | nil => rfl
      | cons a x ih => rw [List.map_cons, List.flatten_cons, ← ih fun c hc => h c (List.mem_cons_of_mem _ hc)]; rfl
    · intro y hy
      obtain ⟨c, hc, rfl⟩ := List.mem_map.1 hy
      exact cls_match.2 ⟨c, h c hc, rfl⟩

theorem plus_match {s : String} {x : List Char} : x ∈ (plus (cls s)).matches' ↔ x ≠ [] ∧ ∀ c ∈ x, c ∈ s.toList := by
  unfold plus
  rw [RegularExpression.matches'_mul, Language.mem_mul]
  constructor
  · rintro ⟨a, ha, b, hb, rfl⟩
    obtain ⟨c, hc, rfl⟩ := cls_match.1 ha
    refine ⟨by simp, fun d hd => ?_⟩
    rcases List.mem_append.1 hd with hd | hd
    · rw [List.mem_singleton] at hd; rw [hd]; exact hc
    · exact star_match.1 hb d hd
  · rintro ⟨h0, h⟩
    cases x with
    | nil => exact absurd rfl h0
    | cons c x =>
      exact ⟨[c], cls_match.2 ⟨c, h c List.mem_cons_self, rfl⟩, x, star_match.2 fun d hd => h d (List.mem_cons_of_mem _ hd), rfl⟩

theorem opt_match {r : Re} {x : List Char} : x ∈ (opt r).matches' ↔ x = [] ∨ x ∈ r.matches' := by
  unfold opt
  rw [RegularExpression.matches'_add, Language.mem_add, RegularExpression.matches'_epsilon, Language.mem_one]

theorem char_match {a : Char} {x : List Char} : x ∈ (RegularExpression.char a).matches' ↔ x = [a] := Iff.rfl

/-- characters by their code -/
theorem mem_iff_of_ascii {l : List Char} {p : Char → Bool} (h1 : ∀ n < 128, decide (Char.ofNat n ∈ l) = p (Char.ofNat n)) (h2 : ∀ c ∈ l, c.toNat < 128)
    (h3 : ∀ c, p c = true → c.toNat < 128) (c : Char) : c ∈ l ↔ p c = true := by
  by_cases hc : c.toNat < 128
  · have := h1 c.toNat hc
    rw [Char.ofNat_toNat] at this
    rw [← this, decide_eq_true_iff]
  · exact ⟨fun h => absurd (h2 c h) hc, fun h => absurd (h3 c h) hc⟩

theorem digit_ascii {c : Char} (h : c.isDigit = true) : c.toNat < 128 := by
  simp only [Char.isDigit, Bool.and_eq_true, decide_eq_true_eq, ge_iff_le] at h
  have : c.val.toNat ≤ 57 := h.2
  show c.val.toNat < 128
  omega

theorem alpha_ascii {c : Char} (h : c.isAlpha = true) : c.toNat < 128 := by
  simp only [Char.isAlpha, Char.isUpper, Char.isLower, Bool.or_eq_true, Bool.and_eq_true, decide_eq_true_eq, ge_iff_le] at h
  show c.val.toNat < 128
  rcases h with h | h
  · have : c.val.toNat ≤ 90 := h.2
    omega
  · have : c.val.toNat ≤ 122 := h.2
    omega

theorem mem_digits (c : Char) : c ∈ digits.toList ↔ c.isDigit = true :=
  mem_iff_of_ascii (by decide +kernel) (by decide +kernel) (fun _ h => digit_ascii h) c

theorem mem_letters (c : Char) : c ∈ letters.toList ↔ c.isAlpha = true ∨ c = '_' := by
  rw [mem_iff_of_ascii (p := fun c => c.isAlpha || c == '_') (by decide +kernel) (by decide +kernel) ?_ c]
  · simp
  · intro c h
    simp only [Bool.or_eq_true, beq_iff_eq] at h
    rcases h with h | rfl
    · exact alpha_ascii h
    · decide

theorem mem_word (c : Char) : c ∈ word.toList ↔ c.isAlphanum = true ∨ c = '_' := by
  rw [mem_iff_of_ascii (p := fun c => c.isAlphanum || c == '_') (by decide +kernel) (by decide +kernel) ?_ c]
  · simp
  · intro c h
    simp only [Bool.or_eq_true, beq_iff_eq, Char.isAlphanum] at h
    rcases h with (h | h) | rfl
    · exact alpha_ascii h
    · exact digit_ascii h
    · decide

theorem isIdentifier_iff (t : String) : isIdentifier t = true ↔ IsName t := by
  unfold isIdentifier reIdentifier IsName
  rw [RegularExpression.rmatch_iff_matches', RegularExpression.matches'_mul, Language.mem_mul]
  constructor
  · rintro ⟨a, ha, b, hb, e⟩
    obtain ⟨c, hc, rfl⟩ := cls_match.1 ha
    refine ⟨c, b, e.symm, (mem_letters c).1 hc, ?_⟩
    have hb := star_match.1 hb
    intro x hx
    exact (mem_word x).1 (hb x hx)
  · rintro ⟨c, cs, e, hc, h⟩
    have h1 : [c] ∈ (cls letters).matches' := by rw [cls_match]; exact ⟨c, (mem_letters c).2 hc, rfl⟩
    have h2 : cs ∈ (cls word).star.matches' := by rw [star_match]; exact fun x hx => (mem_word x).2 (h x hx)
    exact ⟨[c], h1, cs, h2, e.symm⟩

theorem digits_plus {x : List Char} : x ∈ (plus (cls digits)).matches' ↔ x ≠ [] ∧ Digits x := by
  rw [plus_match]
  unfold Digits
  simp only [mem_digits]

theorem digits_star {x : List Char} : x ∈ (cls digits).star.matches' ↔ Digits x := by
  rw [star_match]
  unfold Digits
  simp only [mem_digits]

/-- the exponent -/
theorem exponent_match {x : List Char} : x ∈ (opt (cls "Ee" * opt (cls "+-") * plus (cls digits))).matches' ↔
    (x = [] ∨ ∃ e s ds, x = e :: s ++ ds ∧ (e = 'E' ∨ e = 'e') ∧ (s = [] ∨ s = ['+'] ∨ s = ['-']) ∧ Digits ds ∧ ds ≠ []) := by
  rw [opt_match, RegularExpression.matches'_mul, RegularExpression.matches'_mul, Language.mem_mul]
  refine or_congr Iff.rfl ⟨?_, ?_⟩
  · rintro ⟨a, ha, ds, hds, rfl⟩
    obtain ⟨e, he, s, hs, rfl⟩ := Language.mem_mul.1 ha
    obtain ⟨c, hc, rfl⟩ := cls_match.1 he
    refine ⟨c, s, ds, rfl, by simpa using hc, ?_, (digits_plus.1 hds).2, (digits_plus.1 hds).1⟩
    rcases opt_match.1 hs with h | h
    · exact .inl h
    · obtain ⟨d, hd, rfl⟩ := cls_match.1 h
      right
      simpa using hd
  · rintro ⟨e, s, ds, rfl, he, hs, h1, h2⟩
    refine ⟨[e] ++ s, Language.mem_mul.2 ⟨[e], cls_match.2 ⟨e, by simpa using he, rfl⟩, s, ?_, rfl⟩, ds, digits_plus.2 ⟨h2, h1⟩, rfl⟩
    rw [opt_match]
    rcases hs with rfl | rfl | rfl
    · exact .inl rfl
    · exact .inr (cls_match.2 ⟨'+', by simp, rfl⟩)
    · exact .inr (cls_match.2 ⟨'-', by simp, rfl⟩)

theorem isNumber_iff (t : String) : isNumber t = true ↔ IsNumeral t := by
  unfold isNumber reNumber IsNumeral
  rw [RegularExpression.rmatch_iff_matches', RegularExpression.matches'_mul, Language.mem_mul]
  constructor
  · rintro ⟨sign, hsign, rest, hrest, e⟩
    rw [RegularExpression.matches'_mul, Language.mem_mul] at hrest
    obtain ⟨m, hm, exponent, hexp, rfl⟩ := hrest
    have hsign := (opt_match.1 hsign).imp id char_match.1
    have hexp := exponent_match.1 hexp
    rw [RegularExpression.matches'_add, Language.mem_add] at hm
    rcases hm with hm | hm
    · rw [RegularExpression.matches'_mul, Language.mem_mul] at hm
      obtain ⟨whole, hw, point, hp, rfl⟩ := hm
      obtain ⟨w1, w2⟩ := digits_plus.1 hw
      refine ⟨sign, whole, point, [], exponent, (by rw [← e]; simp), hsign, w2, fun c hc => (by cases hc), .inl w1, ?_, hexp⟩
      rcases opt_match.1 hp with h | h
      · exact .inr ⟨h, rfl⟩
      · exact .inl (char_match.1 h)
    · rw [RegularExpression.matches'_mul, RegularExpression.matches'_mul, Language.mem_mul] at hm
      obtain ⟨a, ha, fraction, hf, rfl⟩ := hm
      obtain ⟨whole, hw, point, hp, rfl⟩ := Language.mem_mul.1 ha
      obtain ⟨f1, f2⟩ := digits_plus.1 hf
      exact ⟨sign, whole, point, fraction, exponent, (by rw [← e]; simp), hsign, digits_star.1 hw, f2, .inr f1, .inl (char_match.1 hp), hexp⟩
  · rintro ⟨sign, whole, point, fraction, exponent, e, hsign, hw, hf, hne, hp, hexp⟩
    refine ⟨sign, opt_match.2 (hsign.imp id char_match.2), whole ++ point ++ fraction ++ exponent, ?_, by rw [e]; simp⟩
    rw [RegularExpression.matches'_mul, Language.mem_mul]
    refine ⟨whole ++ point ++ fraction, ?_, exponent, exponent_match.2 hexp, rfl⟩
    rw [RegularExpression.matches'_add, Language.mem_add]
    by_cases hf0 : fraction = []
    · left
      subst hf0
      rw [RegularExpression.matches'_mul, Language.mem_mul]
      refine ⟨whole, digits_plus.2 ⟨by simpa using hne, hw⟩, point, opt_match.2 ?_, by simp⟩
      rcases hp with h | ⟨h, -⟩
      · exact .inr (char_match.2 h)
      · exact .inl h
    · right
      have hpt : point = ['.'] := by
        rcases hp with h | ⟨-, h⟩
        · exact h
        · exact absurd h hf0
      rw [RegularExpression.matches'_mul, RegularExpression.matches'_mul, Language.mem_mul]
      exact ⟨whole ++ point, Language.mem_mul.2 ⟨whole, digits_star.2 hw, point, char_match.2 hpt, rfl⟩, fraction, digits_plus.2 ⟨hf0, hf⟩, rfl⟩

/-- A name is not a number. -/
theorem name_not_numeral {t : String} (h : IsName t) : ¬ IsNumeral t := by
  obtain ⟨c, cs, e, hc, -⟩ := h
  rintro ⟨sign, whole, point, fraction, exponent, e', hsign, hw, hf, hne, hp, -⟩
  rw [e] at e'
  have hdig : ∀ d : Char, d.isDigit = true → ¬ (d.isAlpha = true ∨ d = '_') := by
    intro d hd h
    simp only [Char.isDigit, Bool.and_eq_true, decide_eq_true_eq, ge_iff_le] at hd
    have hd2 : d.val.toNat ≤ 57 := hd.2
    rcases h with h | rfl
    · simp only [Char.isAlpha, Char.isUpper, Char.isLower, Bool.or_eq_true, Bool.and_eq_true, decide_eq_true_eq, ge_iff_le] at h
      rcases h with h | h
      · have : 65 ≤ d.val.toNat := h.1
        omega
      · have : 97 ≤ d.val.toNat := h.1
        omega
    · revert hd2; decide
  rcases hsign with rfl | rfl
  · cases whole with
    | cons d whole =>
      simp only [List.nil_append, List.cons_append, List.cons.injEq] at e'
      exact hdig d (hw d List.mem_cons_self) (e'.1 ▸ hc)
    | nil =>
      rcases hp with rfl | ⟨rfl, rfl⟩
      · simp only [List.nil_append, List.cons_append, List.cons.injEq] at e'
        rw [e'.1] at hc
        revert hc; decide
      · simp at hne
  · simp only [List.cons_append, List.cons.injEq] at e'
    rw [e'.1] at hc
    revert hc; decide

end Verif.MakeModel
